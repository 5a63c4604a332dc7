import Verif.Model.XrSpectra
import Verif.Proofs.Xr
import Verif.Props.DefinedHalofit
import Verif.Props.Redshift
import Verif.Props.Probes

/-! # Finite operands: lists, arrays and exceptions -/

namespace JaxCosmo
open Xr

/-- Every entry of a computed array as a (finite) number. -/
def efin (x : Except PyErr (List ℝ)) : Except PyErr (List Xr) := x.map (List.map fin)

@[simp] theorem efin_ok (l : List ℝ) : efin (.ok l) = .ok (l.map fin) := rfl
@[simp] theorem efin_error (e : PyErr) : efin (.error e) = .error e := rfl

theorem getD_fin (l : List ℝ) (i : ℕ) : (l.map fin).getD i 0 = fin (l.getD i 0) := by
  rw [lit_zero, List.getD_map]

theorem lsum_fin (l : List ℝ) : Xm.lsum (l.map fin) = fin l.sum := by
  induction l with
  | nil => rfl
  | cons x l ih =>
    rw [List.map_cons, List.sum_cons, ← add_fin, ← ih]
    rfl

theorem mapM_map {α β γ : Type*} {gX : α → Except PyErr γ} {g : α → Except PyErr β} (φ : β → γ) :
    ∀ (l : List α), (∀ x ∈ l, gX x = (g x).map φ) → l.mapM gX = (l.mapM g).map (List.map φ)
  | [], _ => rfl
  | x :: l, h => by
    have ih := mapM_map φ l fun y hy => h y (List.mem_cons_of_mem _ hy)
    rw [List.mapM_cons, List.mapM_cons, h x List.mem_cons_self, ih]
    cases g x with
    | error e => rfl
    | ok v =>
      cases l.mapM g with
      | error e => rfl
      | ok vs => rfl

theorem mapM_comp {α β γ : Type*} (f : β → Except PyErr γ) (e : α → β) :
    ∀ l : List α, (l.map e).mapM f = l.mapM (f ∘ e)
  | [] => rfl
  | x :: l => by
    rw [List.map_cons, List.mapM_cons, List.mapM_cons, mapM_comp f e l]
    rfl

theorem zipWith_fin {α β γ δ : Type*} {e : α → γ} {e' : β → δ} {fX : γ → δ → Xr} {f : α → β → ℝ} :
    ∀ (xs : List α) (ys : List β), (∀ x ∈ xs, ∀ y ∈ ys, fX (e x) (e' y) = fin (f x y)) →
      List.zipWith fX (xs.map e) (ys.map e') = (List.zipWith f xs ys).map fin
  | [], _, _ => by simp
  | _ :: _, [], _ => by simp
  | x :: xs, y :: ys, h => by
    have := zipWith_fin xs ys fun a ha b hb =>
      h a (List.mem_cons_of_mem _ ha) b (List.mem_cons_of_mem _ hb)
    rw [List.map_cons, List.map_cons, List.zipWith_cons_cons, List.zipWith_cons_cons, List.map_cons, this,
      h x List.mem_cons_self y List.mem_cons_self]

theorem bcast_fin {γ δ : Type*} {e : ℝ → γ} {e' : ℝ → δ} {fX : γ → δ → Xr} {f : ℝ → ℝ → ℝ}
    (xs ys : List ℝ) (h : ∀ x ∈ xs, ∀ y ∈ ys, fX (e x) (e' y) = fin (f x y)) :
    Xm.bcast fX (xs.map e) (ys.map e') = efin (bcast f xs ys) := by
  unfold Xm.bcast bcast
  rw [List.length_map, List.length_map]
  split_ifs with hl
  · rw [zipWith_fin xs ys h]; rfl
  · rcases xs with - | ⟨x, - | ⟨x', xs⟩⟩ <;> rcases ys with - | ⟨y, - | ⟨y', ys⟩⟩ <;>
      simp_all [efin, Except.map]

/-! ## Redshift distributions and biases -/

/-- What the finiteness theorems ask of the parameters of a distribution: positive Smail parameters,
non-zero bandwidth and total weight of a catalogue. -/
def Nz.ParamsOK : Nz → Prop
  | .smail a b z0 _ _ => 0 < a ∧ 0 < b ∧ 0 < z0
  | .delta _ _ _ => True
  | .kde cat bw _ _ => bw ≠ 0 ∧ (cat.map fun e => e.2).sum ≠ 0
  | .shift parent _ _ _ => parent.ParamsOK
  | .user _ _ _ => True

theorem xm_pzFn (nz : Nz) (h : nz.ParamsOK) {z : ℝ} (hz : 0 ≤ z) :
    Xm.pzFn nz (fin z) = fin (nz.pzFn z) := by
  induction nz generalizing z with
  | smail a b z0 g zm =>
    obtain ⟨ha, hb, hz0⟩ := h
    unfold Xm.pzFn Nz.pzFn
    rw [rpow_fin' hz ha, div_fin _ hz0.ne', rpow_fin' (by positivity) hb, neg_fin, exp_fin, mul_fin]
  | delta z0 g zm =>
    unfold Xm.pzFn Nz.pzFn
    by_cases e : z = z0
    · rw [if_pos (by rw [e]), if_pos e]; rfl
    · rw [if_neg (by simpa using e), if_neg e]; rfl
  | kde cat bw g zm =>
    obtain ⟨hbw, hq⟩ := h
    have hpi : √(2 * Real.pi) ≠ 0 := by have := Real.pi_pos; positivity
    have hb2 : bw ^ 2 * 2 ≠ 0 := by positivity
    have hk : ∀ X, Xm.kdeKernel bw X (fin z) = fin (Nz.kdeKernel bw X z) := by
      intro X
      have h2pi : 0 ≤ 2 * Real.pi := by have := Real.pi_pos; positivity
      unfold Xm.kdeKernel Nz.kdeKernel
      simp only [lit_one, lit_nat, mul_fin, sqrt_fin h2pi, div_fin _ hpi, div_fin _ hbw, sub_fin, npow_fin,
        neg_fin, div_fin _ hb2, exp_fin]
    unfold Xm.pzFn Nz.pzFn
    simp only [hk, mul_fin]
    have e1 : (cat.map fun e => fin e.2) = (cat.map fun e => e.2).map fin := by
      rw [List.map_map]; rfl
    have e2 : (cat.map fun e => fin (Nz.kdeKernel bw e.1 z * e.2))
        = (cat.map fun e => Nz.kdeKernel bw e.1 z * e.2).map fin := by
      rw [List.map_map]; rfl
    rw [e1, e2, lsum_fin, lsum_fin, div_fin _ hq]
  | shift parent bias g zm ih =>
    unfold Xm.pzFn Nz.pzFn
    rw [sub_fin, lit_zero, max_fin]
    exact ih h (le_max_right _ _)
  | user pz g zm => rfl

theorem linspace_nonneg {a b : ℝ} (ha : 0 ≤ a) (hb : 0 ≤ b) {n i : ℕ} (hn : 2 ≤ n) (hi : i < n) :
    0 ≤ linspace a b n i := by
  have hn1 : (0 : ℝ) < (n : ℝ) - 1 := by
    have : (2 : ℝ) ≤ n := by exact_mod_cast hn
    linarith
  have hi' : (i : ℝ) ≤ (n : ℝ) - 1 := by
    have : ((i + 1 : ℕ) : ℝ) ≤ n := by exact_mod_cast hi
    push_cast at this
    linarith
  have e : linspace a b n i = a * (((n : ℝ) - 1 - i) / ((n : ℝ) - 1)) + b * (i / ((n : ℝ) - 1)) := by
    unfold linspace
    field_simp
    ring
  rw [e]
  have h1 : 0 ≤ ((n : ℝ) - 1 - i) / ((n : ℝ) - 1) := div_nonneg (by linarith) hn1.le
  positivity

theorem linspace_le {a b M : ℝ} (ha : a ≤ M) (hb : b ≤ M) {n i : ℕ} (hn : 2 ≤ n) (hi : i < n) :
    linspace a b n i ≤ M := by
  have := linspace_nonneg (a := M - a) (b := M - b) (by linarith) (by linarith) hn hi
  have hn1 : (n : ℝ) - 1 ≠ 0 := by
    have : (2 : ℝ) ≤ n := by exact_mod_cast hn
    linarith
  have e : linspace (M - a) (M - b) n i = M - linspace a b n i := by
    unfold linspace
    field_simp
    ring
  linarith

/-- The distribution can be normalised: its parameters are fine, its range is not negative and
(unless it is a single plane) its normalisation is not zero. -/
structure Nz.OK (nz : Nz) : Prop where
  params : nz.ParamsOK
  zmax_nonneg : 0 ≤ nz.zmax
  norm : nz.isDelta = false → nz.computedNorm ≠ 0

theorem xm_nzEval {nz : Nz} (h : nz.OK) {z : ℝ} (hz : 0 ≤ z) :
    Xm.nzEval nz (fin z) = fin (nz.eval z) := by
  have hn : Xm.computedNorm nz = fin nz.computedNorm := by
    unfold Xm.computedNorm Nz.computedNorm
    rw [lit_zero]
    exact Xm.simps_fin (by norm_num) fun i hi =>
      xm_pzFn nz h.params (linspace_nonneg le_rfl h.zmax_nonneg (by norm_num) (by omega))
  unfold Xm.nzEval
  rw [hn, xm_pzFn nz h.params hz]
  cases hd : nz.isDelta with
  | true =>
    rw [if_pos rfl, lit_one, div_fin _ one_ne_zero]
    simp [Nz.eval, NzObj.call, NzObj.new, hd]
  | false =>
    rw [if_neg (by simp), div_fin _ (h.norm hd), Nz.eval_extended hd]

/-- The pivot of the alignment model is above redshift `-1`. -/
def Bias.OK : Bias → Prop
  | .desY1 _ _ z0 => -1 < z0
  | _ => True

theorem xm_z2a {z : ℝ} (hz : z ≠ -1) : Xm.z2a (fin z) = fin (z2a z) := by
  have : 1 + z ≠ 0 := fun h => hz (by linarith)
  unfold Xm.z2a z2a
  rw [lit_one, add_fin, div_fin _ this]

theorem xm_z2a' {z : ℝ} (hz : 0 ≤ z) : Xm.z2a (fin z) = fin (z2a z) := xm_z2a (by linarith)

theorem xm_a2z {a : ℝ} (ha : 0 < a) : Xm.a2z (fin a) = fin (a2z a) := by
  unfold Xm.a2z a2z
  rw [lit_one, div_fin _ ha.ne', sub_fin]

theorem xm_biasCall {p : Params} (h : Physical p) {z : ℝ} (hz : 0 ≤ z) (hg : growthOf p (z2a z) ≠ 0)
    {b : Bias} (hb : b.OK) : Xm.biasCall p (fin z) b = fin (b.call p z) := by
  cases b with
  | constant b => rfl
  | invGrowth b =>
    change fin b / Xm.growthOf p (Xm.z2a (fin z)) = fin (b / growthOf p (z2a z))
    rw [xm_z2a' hz, xm_growthOf_fin p h, div_fin _ hg]
  | desY1 A eta z0 =>
    have h0 : 0 < 1 + z0 := by have : -1 < z0 := hb; linarith
    have h1 : 0 < (1 + z) / (1 + z0) := by positivity
    change fin A * ((1 + fin z) / (1 + fin z0)).rpow (fin eta) = fin (A * ((1 + z) / (1 + z0)) ^ eta)
    rw [lit_one, add_fin, add_fin, div_fin _ h0.ne', rpow_fin h1, mul_fin]

/-! ## Kernels -/

/-- The multipoles at which the factor of the lensing kernels is defined. -/
theorem xm_ellFactor {ell : ℝ} (h : 1 ≤ ell ∨ ell = 0) :
    Xm.ellFactor (fin ell) = fin (ellFactor ell) := by
  have h1 : 0 ≤ (ell - 1) * ell * (ell + 1) * (ell + 2) := by
    rcases h with h | rfl
    · have : 0 ≤ ell - 1 := by linarith
      positivity
    · norm_num
  have h2 : (ell + 0.5) ^ 2 ≠ 0 := by
    have : 0 ≤ ell := by rcases h with h | rfl <;> linarith
    positivity
  unfold Xm.ellFactor ellFactor
  simp only [lit_one, lit_nat, lit_sci, sub_fin, add_fin, mul_fin, sqrt_fin h1, npow_fin, div_fin _ h2]

theorem clipLo_one_ne (x : ℝ) : Max.max x 1 ≠ 0 := by
  have : (1 : ℝ) ≤ Max.max x 1 := le_max_right _ _
  linarith

theorem xm_extRow {p : Params} (hE : EsqrPos p) {zmax z : ℝ} (hz : 0 ≤ z) (hzm : 0 ≤ zmax) {pz : Nz}
    (h : pz.OK) : Xm.extRow p zmax (fin z) pz = fin (extRow p zmax z pz) := by
  unfold Xm.extRow extRow
  simp only
  rw [xm_z2a' hz, xm_chiOf_fin p hE,
    Xm.simps_fin (f := fun z' => pz.eval z' * clipLo (chiOf p (z2a z') - chiOf p (z2a z)) 0
      / clipLo (chiOf p (z2a z')) 1) (by norm_num), lit_one, add_fin, mul_fin, mul_fin]
  intro i hi
  have h0 := linspace_nonneg hz hzm (n := 256 + 1) (by norm_num) (show i < 256 + 1 by omega)
  simp only [xm_nzEval h h0, xm_z2a' h0, xm_chiOf_fin p hE, lit_zero, lit_one, sub_fin, max_fin, mul_fin,
    div_fin _ (clipLo_one_ne _)]
  rfl

theorem xm_deltaRow {p : Params} (hE : EsqrPos p) {z : ℝ} (hz : 0 ≤ z) {pz : Nz} (h : pz.plane ≠ -1) :
    Xm.deltaRow p (fin z) pz = fin (deltaRow p z pz) := by
  unfold Xm.deltaRow deltaRow
  simp only [xm_z2a' hz, xm_z2a h, xm_chiOf_fin p hE, lit_zero, lit_one, sub_fin, max_fin, mul_fin,
    div_fin _ (clipLo_one_ne _), add_fin]
  rfl

/-- Every bin of a probe is fine, no plane is at redshift `-1`. -/
def BinsOK (pzs : List Nz) : Prop := ∀ nz ∈ pzs, nz.OK ∧ nz.plane ≠ -1

theorem BinsOK.getD {pzs : List Nz} (h : BinsOK pzs) (i : ℕ) :
    (pzs.getD i (.delta 0 0 0)).OK ∧ (pzs.getD i (.delta 0 0 0)).plane ≠ -1 := by
  rcases lt_or_ge i pzs.length with hi | hi
  · rw [List.getD_eq_getElem _ _ hi]
    exact h _ (List.getElem_mem hi)
  · rw [List.getD_eq_default _ _ hi]
    exact ⟨⟨trivial, le_rfl, fun h => by simp [Nz.isDelta] at h⟩, by norm_num [Nz.plane]⟩

theorem foldl_max_nonneg : ∀ (l : List ℝ) (x : ℝ), 0 ≤ x → 0 ≤ l.foldl Max.max x
  | [], _, h => h
  | y :: l, x, h => foldl_max_nonneg l (Max.max x y) (h.trans (le_max_left _ _))

theorem foldl_max_le {M : ℝ} : ∀ (l : List ℝ) (x : ℝ), x ≤ M → (∀ y ∈ l, y ≤ M) → l.foldl Max.max x ≤ M
  | [], _, h, _ => h
  | y :: l, x, h, hl => foldl_max_le l (Max.max x y) (max_le h (hl y List.mem_cons_self))
      fun z hz => hl z (List.mem_cons_of_mem _ hz)

theorem pyMax_range {l : List ℝ} {M m : ℝ} (h : pyMax l = .ok m) (h0 : ∀ y ∈ l, 0 ≤ y)
    (hM : ∀ y ∈ l, y ≤ M) : 0 ≤ m ∧ m ≤ M := by
  cases l with
  | nil => simp [pyMax] at h
  | cons x l =>
    have e : l.foldl Max.max x = m := Except.ok.inj h
    rw [← e]
    exact ⟨foldl_max_nonneg l x (h0 x List.mem_cons_self),
      foldl_max_le l x (hM x List.mem_cons_self) fun y hy => hM y (List.mem_cons_of_mem _ hy)⟩

theorem pyMax_nonneg {l : List ℝ} {m : ℝ} (h : pyMax l = .ok m) (h0 : ∀ y ∈ l, 0 ≤ y) : 0 ≤ m := by
  cases l with
  | nil => simp [pyMax] at h
  | cons x l =>
    have e : l.foldl Max.max x = m := Except.ok.inj h
    rw [← e]
    exact foldl_max_nonneg l x (h0 x List.mem_cons_self)

theorem xm_weakLensingKernel {p : Params} (hg : p.gamma = none) (hE : EsqrPos p) {pzs : List Nz}
    (hb : BinsOK pzs) {z ell : ℝ} (hz : 0 ≤ z) (hl : 1 ≤ ell ∨ ell = 0) :
    Xm.weakLensingKernel p pzs (fin z) (fin ell) = efin (weakLensingKernel p pzs z ell) := by
  have hc : const_c ≠ 0 := by norm_num [const_c]
  unfold Xm.weakLensingKernel weakLensingKernel
  rw [jitCosmo_none hg]
  cases hm : pyMax (pzs.map Nz.zmax) with
  | error e => rfl
  | ok zm =>
    have hzm : 0 ≤ zm := pyMax_nonneg hm fun y hy => by
      obtain ⟨nz, h1, rfl⟩ := List.mem_map.1 hy
      exact (hb nz h1).1.zmax_nonneg
    change Except.ok _ = efin (Except.ok _)
    rw [efin_ok]
    congr 1
    have e1 : (extIdx pzs).map (fun i => Xm.extRow p zm (fin z) (pzs.getD i (.delta 0 0 0)))
        = ((extIdx pzs).map fun i => extRow p zm z (pzs.getD i (.delta 0 0 0))).map fin := by
      rw [List.map_map]
      exact List.map_congr_left fun i _ => xm_extRow hE hz hzm (hb.getD i).1
    have e2 : (deltaIdx pzs).map (fun i => Xm.deltaRow p (fin z) (pzs.getD i (.delta 0 0 0)))
        = ((deltaIdx pzs).map fun i => deltaRow p z (pzs.getD i (.delta 0 0 0))).map fin := by
      rw [List.map_map]
      exact List.map_congr_left fun i _ => xm_deltaRow hE hz (hb.getD i).2
    rw [e1, e2, ← List.map_append]
    simp only [List.map_map]
    refine List.map_congr_left fun i _ => ?_
    simp only [Function.comp_apply, getD_fin, xm_ellFactor hl, lit_nat, npow_fin, mul_fin, div_fin_lit,
      div_fin _ hc]

/-- The biases of a probe are fine. -/
def Val.BiasOK : Val → Prop
  | .bias b => b.OK
  | .biases bs => ∀ b ∈ bs, b.OK
  | _ => True

theorem xm_biasRows {p : Params} (h : Physical p) {z : ℝ} (hz : 0 ≤ z) (hg : growthOf p (z2a z) ≠ 0)
    {v : Val} (hv : v.BiasOK) : Xm.biasRows p v (fin z) = efin (biasRows p v z) := by
  cases v with
  | none => rfl
  | num x => rfl
  | nums xs => cases xs <;> rfl
  | bias b =>
    unfold Xm.biasRows biasRows
    simp only [efin_ok, xm_biasCall h hz hg hv, List.map_cons, List.map_nil]
  | biases bs =>
    cases bs with
    | nil => rfl
    | cons b bs =>
      unfold Xm.biasRows biasRows
      simp only [efin_ok, List.map_map]
      rw [List.map_congr_left fun c hc => xm_biasCall h hz hg (hv c hc)]
      rfl

theorem bind_efin {x : Except PyErr (List ℝ)} {fX : List Xr → Except PyErr (List Xr)}
    {f : List ℝ → Except PyErr (List ℝ)} (h : ∀ l, x = .ok l → fX (l.map fin) = efin (f l)) :
    (efin x >>= fX) = efin (x >>= f) := by
  cases x with
  | error e => rfl
  | ok l => exact h l rfl

theorem xm_densityKernel {p : Params} (h : Physical p) (hg : p.gamma = none) {pzs : List Nz}
    (hb : BinsOK pzs) {v : Val} (hv : v.BiasOK) {z : ℝ} (ell : ℝ) (hz : 0 ≤ z)
    (hgr : growthOf p (z2a z) ≠ 0) :
    Xm.densityKernel p pzs v (fin z) (fin ell) = efin (densityKernel p pzs v z ell) := by
  have ha : 0 < z2a z := by unfold z2a; positivity
  have hE := C05_Esqr_pos p _ ha h.m_pos h.k_nonneg h.de_nonneg
  unfold Xm.densityKernel densityKernel
  rw [jitCosmo_none hg]
  change (if _ then _ else _) = efin (if _ then _ else _)
  by_cases h1 : pzs.any Nz.isDelta
  · rw [if_pos h1, if_pos h1]; rfl
  rw [if_neg h1, if_neg h1]
  by_cases h2 : pzs.isEmpty
  · rw [if_pos h2, if_pos h2]; rfl
  rw [if_neg h2, if_neg h2]
  have e1 : pzs.map (fun pz => Xm.nzEval pz (fin z)) = (pzs.map fun pz => pz.eval z).map fin := by
    rw [List.map_map]
    exact List.map_congr_left fun nz hnz => xm_nzEval (hb nz hnz).1 hz
  rw [xm_biasRows h hz hgr hv, e1]
  refine bind_efin fun b _ => ?_
  rw [bcast_fin (f := (· * ·)) _ _ fun x _ y _ => mul_fin x y]
  refine bind_efin fun r _ => ?_
  change Except.ok _ = Except.ok _
  congr 1
  rw [List.map_map, List.map_map]
  refine List.map_congr_left fun x _ => ?_
  simp only [Function.comp_apply, xm_z2a' hz, xm_H_fin p ha hE.le, lit_one, mul_fin]

theorem xm_nlaKernel {p : Params} (h : Physical p) (hg : p.gamma = none) {pzs : List Nz}
    (hb : BinsOK pzs) {v : Val} (hv : v.BiasOK) {z ell : ℝ} (hz : 0 ≤ z)
    (hgr : growthOf p (z2a z) ≠ 0) (hl : 1 ≤ ell ∨ ell = 0) :
    Xm.nlaKernel p pzs v (fin z) (fin ell) = efin (nlaKernel p pzs v z ell) := by
  have ha : 0 < z2a z := by unfold z2a; positivity
  have hE := C05_Esqr_pos p _ ha h.m_pos h.k_nonneg h.de_nonneg
  unfold Xm.nlaKernel nlaKernel
  rw [jitCosmo_none hg]
  change (if _ then _ else _) = efin (if _ then _ else _)
  by_cases h1 : pzs.any Nz.isDelta
  · rw [if_pos h1, if_pos h1]; rfl
  rw [if_neg h1, if_neg h1]
  by_cases h2 : pzs.isEmpty
  · rw [if_pos h2, if_pos h2]; rfl
  rw [if_neg h2, if_neg h2]
  have e1 : pzs.map (fun pz => Xm.nzEval pz (fin z)) = (pzs.map fun pz => pz.eval z).map fin := by
    rw [List.map_map]
    exact List.map_congr_left fun nz hnz => xm_nzEval (hb nz hnz).1 hz
  rw [xm_biasRows h hz hgr hv, e1]
  refine bind_efin fun b _ => ?_
  rw [bcast_fin (f := (· * ·)) _ _ fun x _ y _ => mul_fin x y]
  refine bind_efin fun r _ => ?_
  change Except.ok _ = Except.ok _
  congr 1
  rw [List.map_map, List.map_map]
  refine List.map_congr_left fun x _ => ?_
  simp only [Function.comp_apply, xm_z2a' hz, xm_H_fin p ha hE.le, lit_one, lit_sci, mul_fin, neg_fin,
    xm_growthOf_fin p h, div_fin _ hgr, xm_ellFactor hl]

theorem xm_applyM (l : List ℝ) (m : Val) : Xm.applyM (l.map fin) m = efin (applyM l m) := by
  cases m with
  | num x =>
    unfold Xm.applyM applyM
    simp only [efin_ok, List.map_map]
    rfl
  | nums xs =>
    cases xs with
    | nil => rfl
    | cons x xs =>
      have := bcast_fin (e := fin) (e' := fun x : ℝ => x) (fX := fun k x => k * (1 + fin x))
        (f := fun k x => k * (1 + x)) l (x :: xs) fun a _ b _ => rfl
      rw [List.map_id'] at this
      exact this
  | none => rfl
  | bias b => rfl
  | biases bs => rfl

/-- What the finiteness theorems ask of a probe. -/
structure Probe.OK (pr : Probe) : Prop where
  bins : BinsOK pr.bins
  bias : match pr with
    | .wl o => ∀ v, o.param2 = some v → v.BiasOK
    | .nc o => o.bias.BiasOK

/-- The multipole is fine for a probe: anything for number counts; for lensing not between `0` and
`1`. -/
def Probe.EllOK (ell : ℝ) : Probe → Prop
  | .wl _ => 1 ≤ ell ∨ ell = 0
  | .nc _ => True

theorem xm_kernel {p : Params} (h : Physical p) (hg : p.gamma = none) {pr : Probe} (hp : pr.OK)
    {z ell : ℝ} (hz : 0 ≤ z) (hgr : growthOf p (z2a z) ≠ 0) (hl : pr.EllOK ell) :
    Xm.kernel pr p (fin z) (fin ell) = efin (pr.kernel p z ell) := by
  cases pr with
  | nc o => exact xm_densityKernel h hg hp.bins hp.bias ell hz hgr
  | wl o =>
    unfold Xm.kernel Probe.kernel Xm.wlKernel WeakLensing.kernel
    have hbias := hp.bias
    simp only at hbias ⊢
    rw [xm_weakLensingKernel hg h.esqrPos (pzs := o.bins) hp.bins hz hl]
    refine bind_efin fun k _ => ?_
    cases o.ia_enabled with
    | false => exact xm_applyM k o.param1
    | true =>
      rw [if_pos rfl, if_pos rfl]
      cases h2 : o.param2 with
      | none => rfl
      | some v =>
        simp only
        rw [xm_nlaKernel h hg (pzs := o.bins) hp.bins (hbias v h2) hz hgr hl]
        refine bind_efin fun ia _ => ?_
        rw [bcast_fin (f := (· + ·)) _ _ fun x _ y _ => add_fin x y]
        exact bind_efin fun l _ => xm_applyM l o.param1

/-! ## Spectra -/

theorem gather_fin (l : List ℝ) (i : ℕ) : Xm.gather (l.map fin) i = fin (gather l i) := by
  unfold Xm.gather gather
  rw [List.length_map, getD_fin]

theorem headD_length_map (l : List (List ℝ)) :
    ((l.map (List.map fin)).headD []).length = (l.headD []).length := by
  cases l <;> simp

theorem getD_nil_map (l : List (List ℝ)) (i : ℕ) :
    (l.map (List.map fin)).getD i [] = (l.getD i []).map fin :=
  List.getD_map (f := List.map fin) (d := []) ..

theorem xm_simpsE {fX : Xr → Except PyErr (List Xr)} {f : ℝ → Except PyErr (List ℝ)} {a b : ℝ} {N : ℕ}
    (hN : 2 ≤ N) (h : ∀ i ≤ N, fX (fin (linspace a b (N + 1) i)) = efin (f (linspace a b (N + 1) i))) :
    Xm.simpsE fX (fin a) (fin b) N = efin (simpsE f a b N) := by
  have hN0 : (N : ℝ) ≠ 0 := by
    have : (2 : ℝ) ≤ N := by exact_mod_cast hN
    linarith
  unfold Xm.simpsE simpsE
  by_cases hodd : N % 2 = 1
  · rw [if_pos hodd, if_pos hodd]; rfl
  rw [if_neg hodd, if_neg hodd]
  have e := mapM_map (List.map fin) (gX := fun i => fX (Xm.linspace (fin a) (fin b) (N + 1) i))
    (g := fun i => f (linspace a b (N + 1) i)) (List.range (N + 1)) fun i hi => by
      rw [Xm.linspace_fin _ _ (by omega), h i (by have := List.mem_range.1 hi; omega)]; rfl
  rw [e]
  cases (List.range (N + 1)).mapM fun i => f (linspace a b (N + 1) i) with
  | error e => rfl
  | ok ys =>
    change Except.ok _ = Except.ok _
    congr 1
    rw [headD_length_map, List.map_map]
    refine List.map_congr_left fun c _ => ?_
    simp only [Function.comp_apply, getD_nil_map, getD_fin, lit_nat, mul_fin, add_fin, sub_fin,
      div_fin _ hN0, div_fin_lit, sum_fin]

end JaxCosmo
