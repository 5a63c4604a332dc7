import Verif.Proofs.JvpRedshift
import Verif.Props.Probes
import Verif.Props.JvpBackground

/-! # Helper lemmas: derivatives of kernels -/

namespace JaxCosmo.Spec
open Xr

/-! ## Lists and errors -/

namespace JvpE
variable {α β γ δ : Type} {R : (ℝ → α) → β → Prop} {Q : (ℝ → γ) → δ → Prop}

theorem ok {G : ℝ → α} {g : β} (h : R G g) : JvpE R (fun r => .ok (G r)) (.ok g) :=
  .inr ⟨G, g, fun _ => rfl, rfl, h⟩

theorem err (e : PyErr) : JvpE R (fun _ => .error e) (.error e) := .inl ⟨e, fun _ => rfl, rfl⟩

theorem bind {F : ℝ → Except PyErr α} {d : Except PyErr β} {K : ℝ → α → Except PyErr γ}
    {k : β → Except PyErr δ} (h : JvpE R F d)
    (hk : ∀ G g, R G g → JvpE Q (fun r => K r (G r)) (k g)) :
    JvpE Q (fun r => F r >>= K r) (d >>= k) := by
  rcases h with ⟨e, h1, rfl⟩ | ⟨G, g, h1, rfl, hR⟩
  · exact .inl ⟨e, fun r => by simp only [h1]; rfl, rfl⟩
  · have : (fun r => F r >>= K r) = fun r => K r (G r) := funext fun r => by rw [h1]; rfl
    rw [this]
    exact hk G g hR

theorem congr' {F F' : ℝ → Except PyErr α} {d : Except PyErr β} (h : JvpE R F d)
    (e : ∀ r, F' r = F r) : JvpE R F' d := by rwa [show F' = F from funext e]

end JvpE

namespace JvpList
variable {s : ℝ} {G H : ℝ → List ℝ} {g h : List Du}

theorem of_list {α : Type} (T : List α) {F : α → ℝ → ℝ} {d : α → Du} (hF : ∀ t ∈ T, Jvp (F t) s (d t)) :
    JvpList s (fun r => T.map fun t => F t r) (T.map d) := by
  refine ⟨T.map fun t => (F t, d t), fun l hl => ?_, fun r => ?_, ?_⟩
  · obtain ⟨t, ht, rfl⟩ := List.mem_map.1 hl
    exact hF t ht
  · rw [List.map_map]; rfl
  · rw [List.map_map]; rfl

theorem map (hG : JvpList s G g) {f : ℝ → ℝ → ℝ} {fD : Du → Du}
    (hf : ∀ X x, Jvp X s x → Jvp (fun r => f r (X r)) s (fD x)) :
    JvpList s (fun r => (G r).map (f r)) (g.map fD) := by
  obtain ⟨L, hL, e1, rfl⟩ := hG
  have := of_list (s := s) L (F := fun l r => f r (l.1 r)) (d := fun l => fD l.2)
    fun l hl => hf _ _ (hL l hl)
  rw [show (fun r => (G r).map (f r)) = fun r => L.map fun l => f r (l.1 r) from funext fun r => by
    rw [e1, List.map_map]; rfl, List.map_map]
  exact this

theorem append (hG : JvpList s G g) (hH : JvpList s H h) :
    JvpList s (fun r => G r ++ H r) (g ++ h) := by
  obtain ⟨L, hL, e1, rfl⟩ := hG
  obtain ⟨M, hM, e2, rfl⟩ := hH
  refine ⟨L ++ M, fun l hl => ?_, fun r => by simp only [e1, e2, List.map_append], by rw [List.map_append]⟩
  rcases List.mem_append.1 hl with h | h
  · exact hL l h
  · exact hM l h

theorem getD (hG : JvpList s G g) (i : ℕ) : Jvp (fun r => (G r).getD i 0) s (g.getD i 0) := by
  obtain ⟨L, hL, e1, rfl⟩ := hG
  simp only [e1]
  rcases lt_or_ge i L.length with hi | hi
  · rw [List.getD_eq_getElem _ _ (by simpa using hi), List.getElem_map]
    refine (hL _ (List.getElem_mem hi)).congr' fun r => ?_
    rw [List.getD_eq_getElem _ _ (by simpa using hi), List.getElem_map]
  · rw [List.getD_eq_default _ _ (by simpa using hi)]
    refine (Jvp.zero s).congr' fun r => ?_
    rw [List.getD_eq_default _ _ (by simpa using hi)]

theorem length (hG : JvpList s G g) (r : ℝ) : (G r).length = g.length := by
  obtain ⟨L, -, e1, rfl⟩ := hG
  rw [e1]; simp

theorem zipWith (hG : JvpList s G g) (hH : JvpList s H h) {f : ℝ → ℝ → ℝ → ℝ} {fD : Du → Du → Du}
    (hf : ∀ X x Y y, Jvp X s x → Jvp Y s y → Jvp (fun r => f r (X r) (Y r)) s (fD x y)) :
    JvpList s (fun r => List.zipWith (f r) (G r) (H r)) (List.zipWith fD g h) := by
  obtain ⟨L, hL, e1, rfl⟩ := hG
  obtain ⟨M, hM, e2, rfl⟩ := hH
  have := of_list (s := s) (L.zip M) (F := fun l r => f r (l.1.1 r) (l.2.1 r)) (d := fun l => fD l.1.2 l.2.2)
    fun l hl => hf _ _ _ _ (hL _ (List.of_mem_zip hl).1) (hM _ (List.of_mem_zip hl).2)
  rw [show (fun r => List.zipWith (f r) (G r) (H r)) = fun r => (L.zip M).map fun l =>
    f r (l.1.1 r) (l.2.1 r) from funext fun r => by
      rw [e1, e2, List.zipWith_map, List.map_zip_eq_zipWith]; rfl,
    List.zipWith_map]
  rw [List.map_zip_eq_zipWith] at this
  exact this

/-- Broadcasting, with the derivative of the operation known for the entries. -/
theorem bcast_of {α β γ δ : Type} (L : List α) (M : List β) {f : ℝ → ℝ → ℝ} {fD : γ → δ → Du}
    {x : α → ℝ → ℝ} {xD : α → γ} {y : β → ℝ → ℝ} {yD : β → δ}
    (hf : ∀ a ∈ L, ∀ b ∈ M, Jvp (fun r => f (x a r) (y b r)) s (fD (xD a) (yD b))) :
    JvpE (JvpList s) (fun r => JaxCosmo.bcast f (L.map fun a => x a r) (M.map fun b => y b r))
      (Dm.bcast fD (L.map xD) (M.map yD)) := by
  by_cases hl : L.length = M.length
  · have e2 : Dm.bcast fD (L.map xD) (M.map yD) = .ok (List.zipWith fD (L.map xD) (M.map yD)) :=
      if_pos (by simpa using hl)
    have e1 : ∀ r, JaxCosmo.bcast f (L.map fun a => x a r) (M.map fun b => y b r)
        = .ok (List.zipWith f (L.map fun a => x a r) (M.map fun b => y b r)) :=
      fun r => if_pos (by simpa using hl)
    rw [e2]
    refine JvpE.congr' (JvpE.ok ?_) e1
    have := of_list (s := s) (L.zip M) (F := fun l r => f (x l.1 r) (y l.2 r)) (d := fun l => fD (xD l.1) (yD l.2))
      fun l hl => hf _ (List.of_mem_zip hl).1 _ (List.of_mem_zip hl).2
    simp only [List.map_zip_eq_zipWith, List.zipWith_map] at this ⊢
    exact this
  · have hr : ∀ r, JaxCosmo.bcast f (L.map fun a => x a r) (M.map fun b => y b r) = match L, M with
        | [a], _ => .ok (M.map fun b => f (x a r) (y b r))
        | _, [b] => .ok (L.map fun a => f (x a r) (y b r))
        | _, _ => .error .typeError := by
      intro r
      unfold JaxCosmo.bcast
      rw [if_neg (by simpa using hl)]
      rcases L with _ | ⟨a, _ | ⟨a', L⟩⟩ <;> rcases M with _ | ⟨b, _ | ⟨b', M⟩⟩ <;>
        simp_all [Function.comp_def]
    have hd : Dm.bcast fD (L.map xD) (M.map yD) = match L, M with
        | [a], _ => .ok (M.map fun b => fD (xD a) (yD b))
        | _, [b] => .ok (L.map fun a => fD (xD a) (yD b))
        | _, _ => .error .typeError := by
      unfold Dm.bcast
      rw [if_neg (by simpa using hl)]
      rcases L with _ | ⟨a, _ | ⟨a', L⟩⟩ <;> rcases M with _ | ⟨b, _ | ⟨b', M⟩⟩ <;>
        simp_all [Function.comp_def]
    rw [hd]
    refine JvpE.congr' ?_ hr
    rcases L with _ | ⟨a, _ | ⟨a', L⟩⟩ <;> rcases M with _ | ⟨b, _ | ⟨b', M⟩⟩
    any_goals exact JvpE.err _
    any_goals first
      | exact JvpE.ok (of_list (F := fun b r => f (x a r) (y b r)) (d := fun b => fD (xD a) (yD b)) _
          fun b hb => hf a List.mem_cons_self b hb)
      | exact JvpE.ok (of_list (F := fun a r => f (x a r) (y b r)) (d := fun a => fD (xD a) (yD b)) _
          fun a ha => hf a ha b List.mem_cons_self)

theorem bcast (hG : JvpList s G g) (hH : JvpList s H h) {f : ℝ → ℝ → ℝ} {fD : Du → Du → Du}
    (hf : ∀ X x Y y, Jvp X s x → Jvp Y s y → Jvp (fun r => f (X r) (Y r)) s (fD x y)) :
    JvpE (JvpList s) (fun r => JaxCosmo.bcast f (G r) (H r)) (Dm.bcast fD g h) := by
  obtain ⟨L, hL, e1, rfl⟩ := hG
  obtain ⟨M, hM, e2, rfl⟩ := hH
  simp only [e1, e2]
  exact bcast_of L M fun a ha b hb => hf a.1 a.2 b.1 b.2 (hL a ha) (hM b hb)

end JvpList

/-! ## Where the kernels are differentiated exactly -/

/-- A fixed redshift. -/
theorem con_z2a {z : ℝ} (hz : 0 ≤ z) : Dm.z2a (Du.con z) = Du.con (z2a z) := by
  unfold Dm.z2a z2a
  rw [show (1 : Du) = Du.con 1 from rfl, con_add, con_div _ (by linarith)]

theorem con_a2z {a : ℝ} (ha : 0 < a) : Dm.a2z (Du.con a) = Du.con (a2z a) := by
  unfold Dm.a2z a2z
  rw [show (1 : Du) = Du.con 1 from rfl, con_div _ ha.ne', con_sub]

theorem con_ellFactor {ell : ℝ} (h : 1 ≤ ell ∨ ell = 0) :
    Dm.ellFactor (Du.con ell) = Du.con (ellFactor ell) := by
  have h1 : 0 ≤ (ell - 1) * ell * (ell + 1) * (ell + 2) := by
    rcases h with h | rfl
    · have : 0 ≤ ell - 1 := by linarith
      positivity
    · norm_num
  have h2 : (ell + 0.5) ^ 2 ≠ 0 := by
    rcases h with h | rfl
    · positivity
    · norm_num
  have e1 : Dm.ellFactor (Du.con ell) = (Du.con ((ell - 1) * ell * (ell + 1) * (ell + 2))).sqrt
      / (Du.con (ell + 0.5)) ^ 2 := by
    unfold Dm.ellFactor
    rw [show (1 : Du) = Du.con 1 from rfl, show (2 : Du) = Du.con 2 from rfl,
      show (0.5 : Du) = Du.con 0.5 from rfl, con_sub, con_add, con_add, con_add, con_mul, con_mul, con_mul]
  have e2 : (Du.con ((ell - 1) * ell * (ell + 1) * (ell + 2))).sqrt
      = Du.con (√((ell - 1) * ell * (ell + 1) * (ell + 2))) := by
    change Du.mk (Xr.sqrt (fin _)) none = _
    rw [sqrt_fin h1]; rfl
  have e3 : (Du.con (ell + 0.5)) ^ 2 = Du.con ((ell + 0.5) ^ 2) := by
    change Du.mk (fin _ ^ 2) none = _
    rw [npow_fin]; rfl
  rw [e1, e2, e3, con_div _ h2]
  rfl

/-- An extended distribution at redshift `z`, in a probe reaching to `zp`. -/
structure ExtPoint (s : ℝ) (p : Params) (zp z : ℝ) (t : NzTree Leaf) : Prop where
  norm : NormOK s t
  here : PzGood s t z
  ray : ∀ j ≤ 256, PzGood s t (linspace z zp 257 j)
  clip : ∀ j ≤ 256, chiOf p (z2a (linspace z zp 257 j)) ≠ 1

/-- A single source plane: fixed, or moving away from the points of the distance table and from the
redshift `z`. -/
structure PlanePoint (s : ℝ) (p : Params) (z : ℝ) (z0 : Leaf) : Prop where
  leaf : z0.OK s
  nonneg : 0 ≤ z0.1 s
  clip : chiOf p (z2a (z0.1 s)) ≠ 1
  moving : (∃ c, z0 = Leaf.con c) ∨
    z0.1 s ≠ z ∧ ∀ i < 256, z2a (z0.1 s) ≠ logspace (-3) 0 256 i

/-- A bin of a lensing probe. -/
def LensPoint (s : ℝ) (p : Params) (zp z : ℝ) : NzTree Leaf → Prop
  | .delta z0 _ _ => PlanePoint s p z z0
  | t => ExtPoint s p zp z t

/-- A bin of a clustering probe: extended (a plane is refused). -/
def CountPoint (s z : ℝ) (t : NzTree Leaf) : Prop := t.isDelta = false → NormOK s t ∧ PzGood s t z

/-- A bias that is defined: the pivot redshift is above minus one. -/
def BiasPoint (s : ℝ) : BiasTree Leaf → Prop
  | .desY1 _ _ z0 => -1 < z0.1 s
  | _ => True

/-- An argument of a probe: every parameter is right and every bias is defined. -/
def ValPoint (s : ℝ) (v : ValTree Leaf) : Prop :=
  ValLeaves s v ∧ match v with
    | .bias b => BiasPoint s b
    | .biases bs => ∀ b ∈ bs, BiasPoint s b
    | _ => True

variable {P : ℝ → Params} {s : ℝ} {D : DParams}

theorem z2a_mem {z : ℝ} (hz : 0 ≤ z) : 0 < z2a z ∧ z2a z ≤ 1 := by
  unfold z2a
  refine ⟨by positivity, ?_⟩
  rw [div_le_one (by linarith)]
  linarith

theorem z2a_strictAnti {z z' : ℝ} (hz : 0 ≤ z) (h : z < z') : z2a z' < z2a z := by
  unfold z2a
  exact one_div_lt_one_div_of_lt (by linarith) (by linarith)

theorem chi_ne {p : Params} (hE : EsqrPos p) {z z' : ℝ} (hz : 0 ≤ z) (hz' : 0 ≤ z') (h : z' ≠ z) :
    chiOf p (z2a z') ≠ chiOf p (z2a z) := by
  rcases lt_or_gt_of_ne h with h | h
  · exact (C06_strictAnti (by norm_num) (by norm_num) hE (z2a_strictAnti hz' h) (z2a_mem hz').2).ne
  · exact (C06_strictAnti (by norm_num) (by norm_num) hE (z2a_strictAnti hz h) (z2a_mem hz).2).ne'

/-- The clipped difference of two distances at fixed redshifts. -/
theorem jvp_gap (h : Seeded P s D) (hE : EsqrPos (P s)) {z z' : ℝ} (hz : 0 ≤ z) (hz' : 0 ≤ z') :
    Jvp (fun r => clipLo (chiOf (P r) (z2a z') - chiOf (P r) (z2a z)) 0) s
      ((Dm.chiOf D (Dm.z2a (Du.con z')) - Dm.chiOf D (Dm.z2a (Du.con z))).max 0) := by
  rw [con_z2a hz, con_z2a hz']
  have h1 := jvp_chiOf h hE (Jvp.con (z2a z') s)
  have h2 := jvp_chiOf h hE (Jvp.con (z2a z) s)
  by_cases e : z' = z
  · subst e
    have h3 : Jvp (fun _ => (0 : ℝ)) s (Dm.chiOf D (Du.con (z2a z')) - Dm.chiOf D (Du.con (z2a z'))) :=
      (h1.sub h2).congr' fun r => by ring
    refine (h3.max_same (Jvp.zero s)).congr' fun r => ?_
    simp [clipLo]
  · exact (h1.sub h2).max (Jvp.zero s) (sub_ne_zero.2 (chi_ne hE hz hz' e))

theorem jvp_clip1 {X : ℝ → ℝ} {x : Du} (hx : Jvp X s x) (h : X s ≠ 1) :
    Jvp (fun r => clipLo (X r) 1) s (x.max 1) := hx.max (Jvp.one s) h

theorem jvp_extRow (h : Seeded P s D) (hE : EsqrPos (P s)) {zp z : ℝ} (hz : 0 ≤ z) (hzp : 0 ≤ zp)
    {t : NzTree Leaf} (hd : t.isDelta = false) (hp : ExtPoint s (P s) zp z t) :
    Jvp (fun r => extRow (P r) zp z (nzAt t r)) s (Dm.extRow D zp (Du.con z) (nzDual t)) := by
  have hchi := jvp_chiOf h hE (Jvp.con (z2a z) s)
  rw [← con_z2a hz] at hchi
  refine ((Jvp.simps (f := fun r z' => (nzAt t r).eval z' *
    clipLo (chiOf (P r) (z2a z') - chiOf (P r) (z2a z)) 0 / clipLo (chiOf (P r) (z2a z')) 1)
    (Jvp.con z s) (Jvp.con zp s) (by norm_num) fun j hj => ?_).mul
    ((Jvp.one s).add (Jvp.con z s))).mul hchi
  rw [con_linspace _ _ (by norm_num)]
  have hz' : 0 ≤ linspace z zp 257 j := linspace_nonneg hz hzp (by norm_num) (by omega)
  have h1 := jvp_nzEval hp.norm hd (hp.ray j hj)
  have h2 := jvp_gap h hE hz hz'
  have h3 := jvp_chiOf h hE (Jvp.con (z2a (linspace z zp 257 j)) s)
  rw [← con_z2a hz'] at h3
  exact (h1.mul h2).div (jvp_clip1 h3 (hp.clip j hj)) (clipLo_one_ne _)

/-- The distance at a moving scale factor, off the points of the table. -/
theorem jvp_chiOf_moving (hs : Seeded P s D) (hE : EsqrPos (P s)) {A : ℝ → ℝ} {a : Du} (hA : Jvp A s a)
    (hoff : ∀ i < 256, A s ≠ logspace (-3) 0 256 i) :
    Jvp (fun r => chiOf (P r) (A r)) s (Dm.chiOf D a) := by
  have hinc := logspace_increasing (lo := -3) (n := 256) (by norm_num) (by norm_num)
  have hi : Jvp (fun r => interp 256 (logspace (-3) 0 256) (chiTable (P r) (-3) 256).chi (A r)) s
      (Dm.interp 256 (Dm.chiTable D (-3) 256).1 (Dm.chiTable D (-3) 256).2 a) := by
    obtain ⟨j, h1, h2, h3, h4⟩ := exists_seg (n := 256) (by norm_num) (logspace (-3) 0 256) (A s)
    refine Jvp.interp_inc (by norm_num) hinc hA (fun i _ => jvp_logspace _ (by norm_num) i s)
      (fun i hi => jvp_chiTable hs hE (by norm_num) (by norm_num) hi) h1 (by omega)
      (h3.imp_right fun h => lt_of_le_of_ne h (hoff _ (by omega)).symm)
      (h4.imp_right fun h => lt_of_le_of_ne h (hoff _ (by omega)))
  have h1 : A s ≠ 1 := by
    have := hoff 255 (by norm_num)
    rwa [logspace_end (-3) (by norm_num : 2 ≤ 256)] at this
  refine Jvp.max hi (Jvp.zero s) ?_
  rcases lt_or_gt_of_ne h1 with hx | hx
  · have := C06_pos_before (p := P s) (lo := -3) (n := 256) (by norm_num) (by norm_num) hE hx
    rw [readChi, clipLo, lt_max_iff] at this
    exact (this.resolve_right (lt_irrefl _)).ne'
  · have := C21_strictAnti (by norm_num) hinc (fp := (chiTable (P s) (-3) 256).chi)
      (fun i hi => chiTable_step _ (by norm_num) (by norm_num) hE i (by omega)) hx
    rw [interp_chi_one (by norm_num) (by norm_num)] at this
    exact this.ne

theorem jvp_deltaRow (h : Seeded P s D) (hE : EsqrPos (P s)) {z : ℝ} (hz : 0 ≤ z) {z0 g : Leaf} {zm : ℝ}
    (hp : PlanePoint s (P s) z z0) :
    Jvp (fun r => deltaRow (P r) z (nzAt (.delta z0 g zm) r)) s
      (Dm.deltaRow D (Du.con z) (nzDual (.delta z0 g zm))) := by
  have hchi := jvp_chiOf h hE (Jvp.con (z2a z) s)
  rw [← con_z2a hz] at hchi
  rcases hp.moving with ⟨c, rfl⟩ | ⟨hne, hoff⟩
  · have hc : 0 ≤ c := hp.nonneg
    have h3 := jvp_chiOf h hE (Jvp.con (z2a c) s)
    rw [← con_z2a hc] at h3
    exact (((jvp_gap h hE hz hc).div (jvp_clip1 h3 hp.clip) (clipLo_one_ne _)).mul
      ((Jvp.one s).add (Jvp.con z s))).mul hchi
  · have h0 := hp.nonneg
    have h1 : Jvp (fun r => z2a (z0.1 r)) s (Dm.z2a z0.2) :=
      (Jvp.one s).div ((Jvp.one s).add hp.leaf) (by change 1 + z0.1 s ≠ 0; linarith)
    have h3 := jvp_chiOf_moving h hE h1 hoff
    exact ((((h3.sub hchi).max (Jvp.zero s) (sub_ne_zero.2 (chi_ne hE hz h0 hne))).div
      (jvp_clip1 h3 hp.clip) (clipLo_one_ne _)).mul ((Jvp.one s).add (Jvp.con z s))).mul hchi

/-! ## The kernels -/

theorem jvp_jit (h : Seeded P s D) :
    JvpE (fun G g => (∀ r, G r = P r) ∧ g = D ∧ (P s).gamma = none) (fun r => jitCosmo (P r))
      (Dm.jitCosmo D) := by
  have hg := h.gamma
  unfold Dm.jitCosmo
  cases hD : D.gamma with
  | none =>
    rw [hD] at hg
    exact .inr ⟨P, D, fun r => jitCosmo_none (hg r), rfl, fun _ => rfl, rfl, hg s⟩
  | some γ =>
    rw [hD] at hg
    obtain ⟨g, -, hg⟩ := hg
    exact .inl ⟨_, fun r => jitCosmo_some (hg r), rfl⟩

/-- The indices of the extended and of the single-plane bins. -/
def extTree (bins : List (NzTree Leaf)) : List ℕ :=
  (List.range bins.length).filter fun i => !((bins[i]?.map NzTree.isDelta).getD false)
/-- The indices of the single-plane bins. -/
def deltaTree (bins : List (NzTree Leaf)) : List ℕ :=
  (List.range bins.length).filter fun i => (bins[i]?.map NzTree.isDelta).getD false

theorem extIdx_at (bins : List (NzTree Leaf)) (r : ℝ) :
    extIdx (bins.map fun t => nzAt t r) = extTree bins := by
  unfold extIdx extTree
  simp only [List.length_map, List.getElem?_map, Option.map_map, Function.comp_def, nzAt_isDelta]
theorem deltaIdx_at (bins : List (NzTree Leaf)) (r : ℝ) :
    deltaIdx (bins.map fun t => nzAt t r) = deltaTree bins := by
  unfold deltaIdx deltaTree
  simp only [List.length_map, List.getElem?_map, Option.map_map, Function.comp_def, nzAt_isDelta]
theorem extIdx_dual (bins : List (NzTree Leaf)) : Dm.extIdx (bins.map nzDual) = extTree bins := by
  unfold Dm.extIdx extTree
  simp only [List.length_map, List.getElem?_map, Option.map_map, Function.comp_def, nzDual_isDelta]
theorem deltaIdx_dual (bins : List (NzTree Leaf)) : Dm.deltaIdx (bins.map nzDual) = deltaTree bins := by
  unfold Dm.deltaIdx deltaTree
  simp only [List.length_map, List.getElem?_map, Option.map_map, Function.comp_def, nzDual_isDelta]

theorem mem_extTree {bins : List (NzTree Leaf)} {i : ℕ} (hi : i ∈ extTree bins) :
    ∃ t ∈ bins, bins[i]? = some t ∧ t.isDelta = false := by
  simp only [extTree, List.mem_filter, List.mem_range] at hi
  obtain ⟨h1, h2⟩ := hi
  refine ⟨bins[i], List.getElem_mem h1, List.getElem?_eq_getElem h1, ?_⟩
  simpa [List.getElem?_eq_getElem h1] using h2
theorem mem_deltaTree {bins : List (NzTree Leaf)} {i : ℕ} (hi : i ∈ deltaTree bins) :
    ∃ t ∈ bins, bins[i]? = some t ∧ t.isDelta = true := by
  simp only [deltaTree, List.mem_filter, List.mem_range] at hi
  obtain ⟨h1, h2⟩ := hi
  refine ⟨bins[i], List.getElem_mem h1, List.getElem?_eq_getElem h1, ?_⟩
  simpa [List.getElem?_eq_getElem h1] using h2

theorem binAt {bins : List (NzTree Leaf)} {i : ℕ} {t : NzTree Leaf} (h : bins[i]? = some t) (r : ℝ) (d : Nz) :
    (bins.map fun t => nzAt t r).getD i d = nzAt t r := by
  simp [List.getD, h]
theorem binDual {bins : List (NzTree Leaf)} {i : ℕ} {t : NzTree Leaf} (h : bins[i]? = some t) (d : NzTree Du) :
    (bins.map nzDual).getD i d = nzDual t := by
  simp [List.getD, h]

theorem zmaxes_at (bins : List (NzTree Leaf)) (r : ℝ) :
    (bins.map fun t => nzAt t r).map Nz.zmax = bins.map NzTree.zmax := by
  simp [List.map_map, Function.comp_def, nzAt_zmax]
theorem zmaxes_dual (bins : List (NzTree Leaf)) : (bins.map nzDual).map NzTree.zmax = bins.map NzTree.zmax := by
  simp [List.map_map, Function.comp_def, nzDual_zmax]

theorem jvp_weakLensingKernel (h : Seeded P s D) (hE : EsqrPos (P s)) {bins : List (NzTree Leaf)}
    {z : ℝ} (hz : 0 ≤ z) (hb : ∀ zp, pyMax (bins.map NzTree.zmax) = .ok zp →
      0 ≤ zp ∧ ∀ t ∈ bins, LensPoint s (P s) zp z t) {ell : ℝ} (hl : 1 ≤ ell ∨ ell = 0) :
    JvpE (JvpList s) (fun r => weakLensingKernel (P r) (bins.map fun t => nzAt t r) z ell)
      (Dm.weakLensingKernel D (bins.map nzDual) (Du.con z) (Du.con ell)) := by
  unfold weakLensingKernel Dm.weakLensingKernel
  simp only [zmaxes_at, zmaxes_dual, extIdx_at, extIdx_dual, deltaIdx_at, deltaIdx_dual]
  refine JvpE.bind (jvp_jit h) fun G g hG => ?_
  obtain ⟨hG, rfl, -⟩ := hG
  obtain rfl : G = P := funext hG
  cases hm : pyMax (bins.map NzTree.zmax) with
  | error e => exact JvpE.err e
  | ok zp =>
    obtain ⟨hzp, hb⟩ := hb zp hm
    refine JvpE.ok ?_
    have h1 : JvpList s (fun r => (extTree bins).map fun i =>
          extRow (G r) zp z ((bins.map fun t => nzAt t r).getD i (.delta 0 0 0)))
        ((extTree bins).map fun i => Dm.extRow g zp (Du.con z) ((bins.map nzDual).getD i (.delta 0 0 0))) := by
      refine JvpList.of_list _ fun i hi => ?_
      obtain ⟨t, ht, hti, hd⟩ := mem_extTree hi
      simp only [binAt hti, binDual hti]
      refine jvp_extRow h hE hz hzp hd ?_
      have := hb t ht
      cases t with
      | delta => simp [NzTree.isDelta] at hd
      | smail => exact this
      | kde => exact this
      | shift => exact this
    have h2 : JvpList s (fun r => (deltaTree bins).map fun i =>
          deltaRow (G r) z ((bins.map fun t => nzAt t r).getD i (.delta 0 0 0)))
        ((deltaTree bins).map fun i => Dm.deltaRow g (Du.con z) ((bins.map nzDual).getD i (.delta 0 0 0))) := by
      refine JvpList.of_list _ fun i hi => ?_
      obtain ⟨t, ht, hti, hd⟩ := mem_deltaTree hi
      simp only [binAt hti, binDual hti]
      have := hb t ht
      cases t with
      | delta z0 g0 zm => exact jvp_deltaRow h hE hz this
      | smail => simp [NzTree.isDelta] at hd
      | kde => simp [NzTree.isDelta] at hd
      | shift => simp [NzTree.isDelta] at hd
    refine JvpList.map (f := fun r x => 3 * const_H0 ^ 2 * (G r).Omega_m / 2 / const_c * ellFactor ell * x)
      (fD := fun x => 3 * Du.con const_H0 ^ 2 * g.Omega_m / 2 / Du.con const_c * Dm.ellFactor (Du.con ell) * x)
      (JvpList.of_list _ fun i _ => JvpList.getD (h1.append h2) i) fun X x hX => ?_
    rw [con_ellFactor hl]
    have hm := h.Omega_m
    jvp
    · norm_num
    · norm_num [const_c]

/-! ### Biases -/

theorem jvp_biasCall (h : Seeded P s D) (hp : Physical (P s)) (hγ : (P s).gamma = none) {z : ℝ}
    (hz : 0 ≤ z) (hz9 : z ≤ 899) {b : BiasTree Leaf} (hl : BiasLeaves s b) (hb : BiasPoint s b) :
    Jvp (fun r => (biasAt b r).call (P r) z) s (Dm.biasCall D (Du.con z) (biasDual b)) := by
  cases b with
  | constant b => exact Jvp.mul hl (Jvp.one s)
  | invGrowth b =>
    have h9 : 1 / 900 ≤ z2a z := by
      unfold z2a
      exact one_div_le_one_div_of_le (by linarith) (by linarith)
    have h1 := jvp_growthOf h hp h9 (z2a_mem hz).2 (Jvp.con (z2a z) s)
    rw [← con_z2a hz] at h1
    exact Jvp.div hl h1 (C10_pos_ode _ hp hγ h9).ne'
  | desY1 A eta z0 =>
    obtain ⟨h1, h2, h3⟩ := hl
    have h0 : 0 < 1 + z0.1 s := by have : -1 < z0.1 s := hb; linarith
    exact Jvp.mul h1 (Jvp.rpow (((Jvp.one s).add (Jvp.con z s)).div ((Jvp.one s).add h3) h0.ne') h2
      (div_pos (by change 0 < 1 + z; linarith) h0))

theorem jvp_biasRows (h : Seeded P s D) (hp : Physical (P s)) (hγ : (P s).gamma = none) {z : ℝ}
    (hz : 0 ≤ z) (hz9 : z ≤ 899) {v : ValTree Leaf} (hv : ValPoint s v) :
    JvpE (JvpList s) (fun r => biasRows (P r) (valAt v r) z) (Dm.biasRows D (valDual v) (Du.con z)) := by
  cases v with
  | none => exact JvpE.err _
  | num x => exact JvpE.err _
  | nums xs =>
    cases xs with
    | nil => exact JvpE.err _
    | cons x xs => exact JvpE.err _
  | bias b =>
    have := JvpE.ok (JvpList.of_list [b] fun t ht => jvp_biasCall h hp hγ hz hz9 (b := t)
      (by rw [List.mem_singleton.1 ht]; exact hv.1) (by rw [List.mem_singleton.1 ht]; exact hv.2))
    exact this
  | biases bs =>
    cases bs with
    | nil => exact JvpE.err _
    | cons b bs =>
      have := JvpE.ok (JvpList.of_list (b :: bs) fun t ht =>
        jvp_biasCall h hp hγ hz hz9 (hv.1 t ht) (hv.2 t ht))
      have e : Dm.biasRows D (valDual (.biases (b :: bs))) (Du.con z)
          = .ok ((b :: bs).map fun t => Dm.biasCall D (Du.con z) (biasDual t)) := by
        change Except.ok _ = Except.ok _
        simp only [biasDual, List.map_cons, List.map_map, Function.comp_def]
      rw [e]
      refine this.congr' fun r => ?_
      change Except.ok _ = Except.ok _
      simp only [biasAt, List.map_cons, List.map_map, Function.comp_def]

theorem anyDelta_at (bins : List (NzTree Leaf)) (r : ℝ) :
    (bins.map fun t => nzAt t r).any Nz.isDelta = bins.any NzTree.isDelta := by
  simp [List.any_map, Function.comp_def, nzAt_isDelta]
theorem anyDelta_dual (bins : List (NzTree Leaf)) :
    (bins.map nzDual).any NzTree.isDelta = bins.any NzTree.isDelta := by
  simp [List.any_map, Function.comp_def, nzDual_isDelta]

theorem jvp_densityKernel (h : Seeded P s D) (hp : Physical (P s)) {bins : List (NzTree Leaf)}
    {v : ValTree Leaf} (hv : ValPoint s v) {z : ℝ} (hz : 0 ≤ z) (hz9 : z ≤ 899)
    (hb : ∀ t ∈ bins, CountPoint s z t) (ell : ℝ) :
    JvpE (JvpList s) (fun r => densityKernel (P r) (bins.map fun t => nzAt t r) (valAt v r) z ell)
      (Dm.densityKernel D (bins.map nzDual) (valDual v) (Du.con z) (Du.con ell)) := by
  unfold densityKernel Dm.densityKernel
  simp only [anyDelta_at, anyDelta_dual, List.isEmpty_map]
  refine JvpE.bind (jvp_jit h) fun G g hG => ?_
  obtain ⟨hG, rfl, hγ⟩ := hG
  obtain rfl : G = P := funext hG
  by_cases h1 : bins.any NzTree.isDelta = true
  · simp only [if_pos h1]
    exact JvpE.err _
  simp only [if_neg h1]
  by_cases h2 : bins.isEmpty = true
  · simp only [if_pos h2]
    exact JvpE.err _
  simp only [if_neg h2]
  have h3 : ∀ t ∈ bins, t.isDelta = false := by simpa using h1
  refine JvpE.bind (jvp_biasRows h hp hγ hz hz9 hv) fun B b hB => ?_
  have hn : JvpList s (fun r => (bins.map fun t => nzAt t r).map fun pz => pz.eval z)
      ((bins.map nzDual).map fun pz => Dm.nzEval pz (Du.con z)) := by
    simp only [List.map_map]
    exact JvpList.of_list _ fun t ht => jvp_nzEval (hb t ht (h3 t ht)).1 (h3 t ht) (hb t ht (h3 t ht)).2
  refine JvpE.bind (JvpList.bcast hn hB (fun _ _ _ _ hX hY => hX.mul hY)) fun R ρ hR => ?_
  have hH := jvp_H h (Jvp.con (z2a z) s) (z2a_mem hz).1 (hp.esqrPos _ (z2a_mem hz).1 (z2a_mem hz).2)
  rw [← con_z2a hz] at hH
  exact JvpE.ok (JvpList.map (f := fun r x => 1 * 1 * (x * H (G r) (z2a z)))
    (fD := fun x => 1 * 1 * (x * Dm.H g (Dm.z2a (Du.con z)))) hR fun X x hX =>
      ((Jvp.one s).mul (Jvp.one s)).mul (hX.mul hH))

theorem jvp_nlaKernel (h : Seeded P s D) (hp : Physical (P s)) {bins : List (NzTree Leaf)}
    {v : ValTree Leaf} (hv : ValPoint s v) {z : ℝ} (hz : 0 ≤ z) (hz9 : z ≤ 899)
    (hb : ∀ t ∈ bins, CountPoint s z t) {ell : ℝ} (hl : 1 ≤ ell ∨ ell = 0) :
    JvpE (JvpList s) (fun r => nlaKernel (P r) (bins.map fun t => nzAt t r) (valAt v r) z ell)
      (Dm.nlaKernel D (bins.map nzDual) (valDual v) (Du.con z) (Du.con ell)) := by
  unfold nlaKernel Dm.nlaKernel
  simp only [anyDelta_at, anyDelta_dual, List.isEmpty_map]
  refine JvpE.bind (jvp_jit h) fun G g hG => ?_
  obtain ⟨hG, rfl, hγ⟩ := hG
  obtain rfl : G = P := funext hG
  by_cases h1 : bins.any NzTree.isDelta = true
  · simp only [if_pos h1]
    exact JvpE.err _
  simp only [if_neg h1]
  by_cases h2 : bins.isEmpty = true
  · simp only [if_pos h2]
    exact JvpE.err _
  simp only [if_neg h2]
  have h3 : ∀ t ∈ bins, t.isDelta = false := by simpa using h1
  refine JvpE.bind (jvp_biasRows h hp hγ hz hz9 hv) fun B b hB => ?_
  have hn : JvpList s (fun r => (bins.map fun t => nzAt t r).map fun pz => pz.eval z)
      ((bins.map nzDual).map fun pz => Dm.nzEval pz (Du.con z)) := by
    simp only [List.map_map]
    exact JvpList.of_list _ fun t ht => jvp_nzEval (hb t ht (h3 t ht)).1 (h3 t ht) (hb t ht (h3 t ht)).2
  refine JvpE.bind (JvpList.bcast hn hB (fun _ _ _ _ hX hY => hX.mul hY)) fun R ρ hR => ?_
  have hH := jvp_H h (Jvp.con (z2a z) s) (z2a_mem hz).1 (hp.esqrPos _ (z2a_mem hz).1 (z2a_mem hz).2)
  have h9 : 1 / 900 ≤ z2a z := by
    unfold z2a
    exact one_div_le_one_div_of_le (by linarith) (by linarith)
  have hgr := jvp_growthOf h hp h9 (z2a_mem hz).2 (Jvp.con (z2a z) s)
  rw [← con_z2a hz] at hH hgr
  have hm := h.Omega_m
  have hN : Jvp (fun r => -(5e-14 * const_rhocrit) * (G r).Omega_m / growthOf (G r) (z2a z)) s
      (-(5e-14 * Du.con const_rhocrit) * g.Omega_m / Dm.growthOf g (Dm.z2a (Du.con z))) := by
    jvp
    exact (C10_pos_ode _ hp hγ h9).ne'
  rw [con_ellFactor hl]
  exact JvpE.ok (JvpList.map
    (f := fun r x => 1 * ellFactor ell * (x * H (G r) (z2a z)
      * (-(5e-14 * const_rhocrit) * (G r).Omega_m / growthOf (G r) (z2a z))))
    (fD := fun x => 1 * Du.con (ellFactor ell) * (x * Dm.H g (Dm.z2a (Du.con z))
      * (-(5e-14 * Du.con const_rhocrit) * g.Omega_m / Dm.growthOf g (Dm.z2a (Du.con z))))) hR fun X x hX =>
      ((Jvp.one s).mul (Jvp.con _ s)).mul ((hX.mul hH).mul hN))

theorem jvp_applyM {K : ℝ → List ℝ} {k : List Du} (hK : JvpList s K k) {v : ValTree Leaf}
    (hv : ValLeaves s v) : JvpE (JvpList s) (fun r => applyM (K r) (valAt v r)) (Dm.applyM k (valDual v)) := by
  cases v with
  | none => exact JvpE.err _
  | num x =>
    exact JvpE.ok (JvpList.map (f := fun r y => y * (1 + x.1 r)) (fD := fun y => y * (1 + x.2)) hK
      fun X y hX => hX.mul ((Jvp.one s).add hv))
  | bias b => exact JvpE.err _
  | biases bs => exact JvpE.err _
  | nums xs =>
    cases xs with
    | nil => exact JvpE.err _
    | cons x xs =>
      have hM : JvpList s (fun r => (x :: xs).map fun l => l.1 r) ((x :: xs).map Prod.snd) :=
        JvpList.of_list (x :: xs) hv
      exact JvpList.bcast (f := fun k x => k * (1 + x)) (fD := fun k x => k * (1 + x)) hK hM
        fun X x Y y hX hY => hX.mul ((Jvp.one s).add hY)

/-! ### Probes -/

/-- A probe at redshift `z`. -/
def ProbePoint (s : ℝ) (p : Params) (z : ℝ) : ProbeTree Leaf → Prop
  | .wl bins p1 p2 _ ia => ValLeaves s p1 ∧
      (∀ zp, pyMax (bins.map NzTree.zmax) = .ok zp → 0 ≤ zp ∧ ∀ t ∈ bins, LensPoint s p zp z t) ∧
      (ia = true → ∀ v ∈ p2, ValPoint s v ∧ ∀ t ∈ bins, CountPoint s z t)
  | .nc bins b _ => ValPoint s b ∧ ∀ t ∈ bins, CountPoint s z t

/-- A power spectrum that is differentiated exactly at scale factor `a`, with respect to the
wavenumber and to what else it depends on. -/
def SpectrumJvp (s : ℝ) (P : ℝ → Params) (D : DParams) (T : ℝ → ℝ → ℝ) (TD : Du → Du)
    (nl : Params → ℝ → ℝ → (ℝ → ℝ) → Except PyErr ℝ)
    (nlD : DParams → Du → Du → (Du → Du) → Except PyErr Du) (a : ℝ) : Prop :=
  ∀ (K : ℝ → ℝ) (k : Du), Jvp K s k → 0 < K s →
    JvpE (fun G g => Jvp G s g) (fun r => nl (P r) (K r) a (T r)) (nlD D k (Du.con a) TD)

/-- The largest redshift of the probes. -/
noncomputable def treeZmax (probes : List (ProbeTree Leaf)) : Except PyErr ℝ := do
  let zs ← probes.mapM ProbeTree.zmax
  pyMax zs

/-- A survey whose spectra are differentiated exactly: no distance at a node of the integral is
equal to one, where the code clips, and the power spectrum and the kernels are differentiated exactly
at the nodes. -/
structure SurveyPoint (s : ℝ) (P : ℝ → Params) (D : DParams) (T : ℝ → ℝ → ℝ) (TD : Du → Du)
    (nl : Params → ℝ → ℝ → (ℝ → ℝ) → Except PyErr ℝ)
    (nlD : DParams → Du → Du → (Du → Du) → Except PyErr Du) (probes : List (ProbeTree Leaf)) : Prop where
  phys : Physical (P s)
  nodes : ∀ zm, treeZmax probes = .ok zm → 0 ≤ zm ∧ zm ≤ 899 ∧ ∀ i ≤ 512,
    chiOf (P s) (linspace (z2a zm) 1 513 i) ≠ 1 ∧
    SpectrumJvp s P D T TD nl nlD (linspace (z2a zm) 1 513 i) ∧
    ∀ t ∈ probes, ProbePoint s (P s) (a2z (linspace (z2a zm) 1 513 i)) t

theorem binsAt (bins : List (NzTree Leaf)) (r : ℝ) :
    (bins.map (NzTree.map fun l => l.1 r)).map NzTree.real = bins.map fun t => nzAt t r := by
  rw [List.map_map]; rfl

theorem jvp_kernel (h : Seeded P s D) (hp : Physical (P s)) {z : ℝ} (hz : 0 ≤ z) (hz9 : z ≤ 899)
    {ell : ℝ} (hl : 1 ≤ ell ∨ ell = 0) {t : ProbeTree Leaf} (ht : ProbePoint s (P s) z t) :
    JvpE (JvpList s) (fun r => (probeAt t r).kernel (P r) z ell)
      (Dm.kernel (probeDual t) D (Du.con z) (Du.con ell)) := by
  cases t with
  | nc bins b rsd =>
    refine (jvp_densityKernel h hp ht.1 hz hz9 ht.2 ell).congr' fun r => ?_
    change densityKernel (P r) ((bins.map (NzTree.map fun l => l.1 r)).map NzTree.real) _ z ell = _
    rw [binsAt]; rfl
  | wl bins p1 p2 se ia =>
    obtain ⟨h1, h2, h3⟩ := ht
    have hw := jvp_weakLensingKernel h hp.esqrPos hz h2 hl
    have at_wl : ∀ r, (probeAt (.wl bins p1 p2 se ia) r).kernel (P r) z ell = WeakLensing.kernel
        ⟨bins.map fun t => nzAt t r, valAt p1 r, p2.map fun v => valAt v r, se, ia⟩ (P r) z ell := by
      intro r
      change WeakLensing.kernel ⟨(bins.map (NzTree.map fun l => l.1 r)).map NzTree.real, valAt p1 r,
        (p2.map (ValTree.map fun l => l.1 r)).map ValTree.real, se, ia⟩ (P r) z ell = _
      rw [binsAt, Option.map_map]
      rfl
    refine JvpE.congr' ?_ at_wl
    cases ia with
    | false => exact JvpE.bind hw fun K k hK => jvp_applyM hK h1
    | true =>
      cases p2 with
      | none => exact JvpE.bind (Q := JvpList s) hw fun K k hK => JvpE.err _
      | some v =>
        obtain ⟨h4, h5⟩ := h3 rfl v rfl
        exact JvpE.bind hw fun K k hK => JvpE.bind (jvp_nlaKernel h hp h4 hz hz9 h5 hl) fun N n hN =>
          JvpE.bind (JvpList.bcast hK hN (fun _ _ _ _ hX hY => hX.add hY)) fun K k hK => jvp_applyM hK h1

end JaxCosmo.Spec
