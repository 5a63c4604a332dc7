import Verif.Props.PowerSensitivity
import Verif.Props.AngularCl

/-! # C86: angular spectra are differentiable in the parameters -/

namespace JaxCosmo
open Spec

/-- Rows of fixed length whose entries are differentiable. -/
def SmoothRows (θ : ℝ) (r : ℝ → List ℝ) : Prop :=
  (∃ n, ∀ s, (r s).length = n) ∧ ∀ i, DifferentiableAt ℝ (fun s => (r s).getD i 0) θ

section
variable {θ : ℝ}

theorem smooth_map {α : Type*} (l : List α) {f : ℝ → α → ℝ}
    (hf : ∀ x ∈ l, DifferentiableAt ℝ (fun s => f s x) θ) : SmoothRows θ fun s => l.map (f s) := by
  refine ⟨⟨l.length, fun s => List.length_map ..⟩, fun i => ?_⟩
  rcases lt_or_ge i l.length with hi | hi
  · simp only [List.getD_eq_getElem?_getD, List.getElem?_map, List.getElem?_eq_getElem hi,
      Option.map_some, Option.getD_some]
    exact hf _ (List.getElem_mem hi)
  · simp only [List.getD_eq_getElem?_getD, List.getElem?_map, List.getElem?_eq_none hi,
      Option.map_none, Option.getD_none]
    exact differentiableAt_const _

theorem smooth_map_rows {r : ℝ → List ℝ} (hr : SmoothRows θ r) {g : ℝ → ℝ → ℝ}
    (hg : ∀ u : ℝ → ℝ, DifferentiableAt ℝ u θ → DifferentiableAt ℝ (fun s => g s (u s)) θ) :
    SmoothRows θ fun s => (r s).map (g s) := by
  obtain ⟨⟨n, hn⟩, hd⟩ := hr
  refine ⟨⟨n, fun s => by rw [List.length_map, hn]⟩, fun i => ?_⟩
  rcases lt_or_ge i n with hi | hi
  · have : (fun s => ((r s).map (g s)).getD i 0) = fun s => g s ((r s).getD i 0) := by
      funext s
      have hi' : i < (r s).length := by rw [hn]; exact hi
      simp only [List.getD_eq_getElem?_getD, List.getElem?_map, List.getElem?_eq_getElem hi',
        Option.map_some, Option.getD_some]
    rw [this]
    exact hg _ (hd i)
  · have : (fun s => ((r s).map (g s)).getD i 0) = fun _ => 0 := by
      funext s
      have hi' : (r s).length ≤ i := by rw [hn]; exact hi
      simp only [List.getD_eq_getElem?_getD, List.getElem?_map, List.getElem?_eq_none hi',
        Option.map_none, Option.getD_none]
    rw [this]
    exact differentiableAt_const _

theorem smooth_append {r t : ℝ → List ℝ} (hr : SmoothRows θ r) (ht : SmoothRows θ t) :
    SmoothRows θ fun s => r s ++ t s := by
  obtain ⟨⟨n, hn⟩, hd⟩ := hr
  obtain ⟨⟨m, hm⟩, he⟩ := ht
  refine ⟨⟨n + m, fun s => by rw [List.length_append, hn, hm]⟩, fun i => ?_⟩
  rcases lt_or_ge i n with hi | hi
  · refine (hd i).congr_of_eventuallyEq (Filter.Eventually.of_forall fun s => ?_)
    simp only [List.getD_eq_getElem?_getD, List.getElem?_append, hn, if_pos hi]
  · refine (he (i - n)).congr_of_eventuallyEq (Filter.Eventually.of_forall fun s => ?_)
    simp only [List.getD_eq_getElem?_getD, List.getElem?_append, hn, if_neg (not_lt.2 hi)]

theorem smooth_zipWith {r t : ℝ → List ℝ} (hr : SmoothRows θ r) (ht : SmoothRows θ t)
    {f : ℝ → ℝ → ℝ} (hf : ∀ u v : ℝ → ℝ, DifferentiableAt ℝ u θ → DifferentiableAt ℝ v θ →
      DifferentiableAt ℝ (fun s => f (u s) (v s)) θ) :
    SmoothRows θ fun s => List.zipWith f (r s) (t s) := by
  obtain ⟨⟨n, hn⟩, hd⟩ := hr
  obtain ⟨⟨m, hm⟩, he⟩ := ht
  refine ⟨⟨min n m, fun s => by rw [List.length_zipWith, hn, hm]⟩, fun i => ?_⟩
  rcases lt_or_ge i (min n m) with hi | hi
  · refine (hf _ _ (hd i) (he i)).congr_of_eventuallyEq (Filter.Eventually.of_forall fun s => ?_)
    have h1 : i < (r s).length := by rw [hn]; exact hi.trans_le (min_le_left _ _)
    have h2 : i < (t s).length := by rw [hm]; exact hi.trans_le (min_le_right _ _)
    simp only [List.getD_eq_getElem?_getD, List.getElem?_zipWith, List.getElem?_eq_getElem h1,
      List.getElem?_eq_getElem h2, Option.getD_some]
  · refine (differentiableAt_const (0 : ℝ)).congr_of_eventuallyEq
      (Filter.Eventually.of_forall fun s => ?_)
    have h1 : (List.zipWith f (r s) (t s)).length ≤ i := by rw [List.length_zipWith, hn, hm]; exact hi
    simp only [List.getD_eq_getElem?_getD, List.getElem?_eq_none h1, Option.getD_none]

/-- Broadcasting: whether it raises depends on the lengths only. -/
theorem smooth_bcast {r t : ℝ → List ℝ} (hr : SmoothRows θ r) (ht : SmoothRows θ t)
    {f : ℝ → ℝ → ℝ} (hf : ∀ u v : ℝ → ℝ, DifferentiableAt ℝ u θ → DifferentiableAt ℝ v θ →
      DifferentiableAt ℝ (fun s => f (u s) (v s)) θ) {k : List ℝ} (hk : bcast f (r θ) (t θ) = .ok k) :
    ∃ q, (∀ s, bcast f (r s) (t s) = .ok (q s)) ∧ SmoothRows θ q := by
  obtain ⟨⟨n, hn⟩, hd⟩ := id hr
  obtain ⟨⟨m, hm⟩, he⟩ := id ht
  by_cases hnm : n = m
  · exact ⟨_, fun s => by unfold bcast; rw [if_pos (by rw [hn, hm, hnm])], smooth_zipWith hr ht hf⟩
  by_cases h1 : n = 1
  · refine ⟨fun s => (t s).map (f ((r s).getD 0 0)), fun s => ?_,
      smooth_map_rows ht fun u hu => hf _ _ (hd 0) hu⟩
    have hl : (r s).length = 1 := by rw [hn, h1]
    obtain ⟨x, hx⟩ := List.length_eq_one_iff.1 hl
    unfold bcast
    rw [if_neg (by rw [hn, hm]; exact hnm)]
    simp only [hx]
    rfl
  by_cases h2 : m = 1
  · refine ⟨fun s => (r s).map (f · ((t s).getD 0 0)), fun s => ?_,
      smooth_map_rows hr (g := fun s x => f x ((t s).getD 0 0)) fun u hu => hf _ _ hu (he 0)⟩
    have hl : (t s).length = 1 := by rw [hm, h2]
    obtain ⟨y, hy⟩ := List.length_eq_one_iff.1 hl
    have hne : (r s).length ≠ (t s).length := by rw [hn, hm]; exact hnm
    have hr1 : (r s).length ≠ 1 := by rw [hn]; exact h1
    unfold bcast
    rw [if_neg hne]
    simp only [hy]
    rcases hrs : r s with _ | ⟨a, _ | ⟨b, l⟩⟩
    · rfl
    · rw [hrs] at hr1; simp at hr1
    · rfl
  · exfalso
    have e1 := hn θ
    have e2 := hm θ
    unfold bcast at hk
    rw [if_neg (by rw [hn, hm]; exact hnm)] at hk
    rcases hr' : r θ with _ | ⟨a, _ | ⟨b, l⟩⟩
    · rcases ht' : t θ with _ | ⟨c, _ | ⟨d, l'⟩⟩
      · rw [hr'] at e1; rw [ht'] at e2; exact hnm (e1.symm.trans e2)
      · rw [ht'] at e2; exact h2 e2.symm
      · rw [hr', ht'] at hk; cases hk
    · rw [hr'] at e1; exact h1 e1.symm
    · rcases ht' : t θ with _ | ⟨c, _ | ⟨d, l'⟩⟩
      · rw [hr', ht'] at hk; cases hk
      · rw [ht'] at e2; exact h2 e2.symm
      · rw [hr', ht'] at hk; cases hk

end

/-! ## Background quantities -/

section
variable {P : ℝ → Params} {v : Params} {θ : ℝ}

theorem chi_diff (h : Along P v θ) (hE : EsqrPos (P θ)) (a : ℝ) :
    DifferentiableAt ℝ (fun s => chiOf (P s) a) θ := by
  rcases lt_or_ge a 1 with ha | ha
  · exact (C83_distance h hE ha).differentiableAt
  · exact (C83_today h hE ha).differentiableAt

theorem max_diff {f g : ℝ → ℝ} (hf : DifferentiableAt ℝ f θ) (hg : DifferentiableAt ℝ g θ)
    (hne : f θ ≠ g θ) : DifferentiableAt ℝ (fun s => max (f s) (g s)) θ := by
  rcases lt_or_gt_of_ne hne with hl | hl
  · refine hg.congr_of_eventuallyEq ?_
    filter_upwards [hf.continuousAt.eventually_lt hg.continuousAt hl] with s hs
    exact max_eq_right hs.le
  · refine hf.congr_of_eventuallyEq ?_
    filter_upwards [hg.continuousAt.eventually_lt hf.continuousAt hl] with s hs
    exact max_eq_left hs.le

/-- The lensing weight is differentiable at every pair of epochs, provided the source is not exactly
1 Mpc/h away. -/
theorem lens_diff (h : Along P v θ) (hE : EsqrPos (P θ)) {a a' : ℝ} (ha : a ≤ 1)
    (h1 : chiOf (P θ) a' ≠ 1) : DifferentiableAt ℝ
      (fun s => max (chiOf (P s) a' - chiOf (P s) a) 0 / max (chiOf (P s) a') 1) θ := by
  have hc := chi_diff h hE a
  have hc' := chi_diff h hE a'
  refine DifferentiableAt.fun_div ?_ (max_diff hc' (differentiableAt_const 1) h1)
    (lt_of_lt_of_le one_pos (le_max_right _ _)).ne'
  rcases ha.eq_or_lt with rfl | ha
  · have e : ∀ s, chiOf (P s) 1 = 0 := fun s => C06_zero_today (P s) (by norm_num) (by norm_num)
    refine hc'.congr_of_eventuallyEq (Filter.Eventually.of_forall fun s => ?_)
    change max (chiOf (P s) a' - chiOf (P s) 1) 0 = _
    rw [e, sub_zero]
    exact max_eq_left (C06_nonneg _ _ _ _)
  rcases lt_trichotomy a' a with hl | rfl | hl
  · have := C06_strictAnti (p := P θ) (lo := -3) (n := 256) (by norm_num) (by norm_num) hE hl ha.le
    exact max_diff (hc'.sub hc) (differentiableAt_const 0) (sub_pos.2 this).ne'
  · simp only [sub_self, max_self]
    exact differentiableAt_const _
  · refine max_diff (hc'.sub hc) (differentiableAt_const 0) (ne_of_lt (sub_neg.2 ?_))
    rcases le_or_gt a' 1 with h' | h'
    · exact C06_strictAnti (p := P θ) (lo := -3) (n := 256) (by norm_num) (by norm_num) hE hl h'
    · have e := C06_zero_after (p := P θ) (lo := -3) (n := 256) (by norm_num) (by norm_num) hE h'.le
      have e' := C06_pos_before (p := P θ) (lo := -3) (n := 256) (by norm_num) (by norm_num) hE ha
      exact e.trans_lt e'

theorem H_diff (h : Along P v θ) {a : ℝ} (hE : 0 < Esqr (P θ) a) :
    DifferentiableAt ℝ (fun s => H (P s) a) θ :=
  ((C83_Esqr h a).differentiableAt.sqrt hE.ne').const_mul _

theorem dchi_diff (h : Along P v θ) {a : ℝ} (ha : 0 < a) (hE : 0 < Esqr (P θ) a) :
    DifferentiableAt ℝ (fun s => dchioverda (P s) a) θ :=
  (differentiableAt_const _).fun_div (((C83_Esqr h a).differentiableAt.sqrt hE.ne').const_mul _)
    (by positivity)

/-! ## Kernels -/

theorem simpson_diff {f : ℝ → ℝ → ℝ} {a b : ℝ} {m : ℕ}
    (hf : ∀ i : ℕ, i ≤ 2 * m → DifferentiableAt ℝ (fun s => f s (a + i * ((b - a) / (2 * m)))) θ) :
    DifferentiableAt ℝ (fun s => simpson (f s) a b m) θ := by
  refine DifferentiableAt.const_mul (DifferentiableAt.fun_sum fun j hj => ?_) _
  have hj := Finset.mem_range.1 hj
  have h0 := hf (2 * j) (by omega)
  have h1 := hf (2 * j + 1) (by omega)
  have h2 := hf (2 * j + 2) (by omega)
  push_cast at h0 h1 h2
  exact (h0.add (h1.const_mul 4)).add h2

/-- Redshifts of the sources sampled by the lensing kernel at redshift `z`: the 257 nodes of the
integral over extended distributions, and the planes. -/
def Probe.sources (pr : Probe) (z : ℝ) : Set ℝ :=
  match pr with
  | .nc _ => ∅
  | .wl o => {z' | (∃ zm, ∃ i : ℕ, pyMax (o.bins.map Nz.zmax) = .ok zm ∧ i ≤ 256 ∧
      z' = z + i * ((zm - z) / 256)) ∨ ∃ z0 g zm, Nz.delta z0 g zm ∈ o.bins ∧ z' = z0}

theorem wl_smooth (h : Along P v θ) (hg : ∀ s, (P s).gamma = none) (hE : EsqrPos (P θ)) (o : WeakLensing)
    {z ell : ℝ} (hz : 0 ≤ z) {k : List ℝ} (hk : weakLensingKernel (P θ) o.bins z ell = .ok k)
    (hs : ∀ z' ∈ (Probe.wl o).sources z, chiOf (P θ) (z2a z') ≠ 1) :
    ∃ r, (∀ s, weakLensingKernel (P s) o.bins z ell = .ok (r s)) ∧ SmoothRows θ r := by
  have ha : z2a z ≤ 1 := by unfold z2a; rw [div_le_one (by linarith)]; linarith
  have hzm : ∃ zm, pyMax (o.bins.map Nz.zmax) = .ok zm := by
    unfold weakLensingKernel at hk
    rw [jitCosmo_none (hg θ)] at hk
    obtain ⟨_, _, hk⟩ := bind_ok hk
    obtain ⟨zm, hzm, _⟩ := bind_ok hk
    exact ⟨zm, hzm⟩
  obtain ⟨zm, hzm⟩ := hzm
  refine ⟨fun s => o.bins.map (binKernel (P s) zm z ell),
    fun s => C48_order _ (hg s) _ _ _ _ hzm, smooth_map _ fun pz hpz => ?_⟩
  have hpre : DifferentiableAt ℝ (fun s => 3 / 2 * (P s).Omega_m * const_H0 ^ 2 / const_c
      * spinFactor ell) θ :=
    ((((diff_om h).const_mul _).mul_const _).div_const _).mul_const _
  have hchi := chi_diff h hE (z2a z)
  have hw : ∀ z', chiOf (P θ) (z2a z') ≠ 1 →
      DifferentiableAt ℝ (fun s => lensWeight (chiZ (P s)) z z') θ := fun z' h1 => lens_diff h hE ha h1
  have hext : DifferentiableAt ℝ (fun s => simpson (fun z' => pz.eval z' * lensWeight (chiZ (P s)) z z')
      z zm 128) θ := by
    refine simpson_diff (f := fun s z' => pz.eval z' * lensWeight (chiZ (P s)) z z') fun i hi =>
      (hw _ (hs _ (Or.inl ⟨zm, i, hzm, by omega, by norm_num⟩))).const_mul _
  have key : ∀ q : ℝ → ℝ, DifferentiableAt ℝ q θ → DifferentiableAt ℝ (fun s =>
      lensKernel (P s).Omega_m const_H0 const_c (chiZ (P s)) z ell (q s)) θ := fun q hq =>
    hpre.mul ((hchi.const_mul _).mul hq)
  cases pz with
  | delta z0 g zd => exact key _ (hw z0 (hs _ (Or.inr ⟨z0, g, zd, hpz, rfl⟩)))
  | smail a b z0 g zd => exact key _ hext
  | kde c b g zd => exact key _ hext
  | shift q b g zd => exact key _ hext
  | user q g zd => exact key _ hext

theorem bias_smooth (h : Along P v θ) (hg : v.gamma = none) (hp : Physical (P θ)) (b : Val) {z : ℝ}
    (hz : 0 ≤ z) (hz9 : z ≤ 899) {k : List ℝ} (hk : biasRows (P θ) b z = .ok k) :
    ∃ r, (∀ s, biasRows (P s) b z = .ok (r s)) ∧ SmoothRows θ r := by
  have hn : (P θ).gamma = none := by have := h.gamma; rw [hg] at this; exact this θ
  have h1 : z2a z ≤ 1 := by unfold z2a; rw [div_le_one (by linarith)]; linarith
  have h9 : 1 / 900 ≤ z2a z := by
    unfold z2a; exact one_div_le_one_div_of_le (by linarith) (by linarith)
  have hD := C84_differentiable h hp h9 h1
  have hD0 : 0 < growthOf (P θ) (z2a z) := by
    rcases h1.eq_or_lt with e | e
    · rw [e, C10_one _ hp]; exact one_pos
    · exact (growth_ode_interior hp hn (by linarith) e).1
  have hb : ∀ b : Bias, DifferentiableAt ℝ (fun s => b.call (P s) z) θ := by
    intro b
    cases b with
    | constant b => exact differentiableAt_const _
    | invGrowth b => exact (differentiableAt_const _).fun_div hD hD0.ne'
    | desY1 A e z0 => exact differentiableAt_const _
  cases b with
  | none => cases hk
  | num x => cases hk
  | nums xs => cases xs <;> cases hk
  | bias b => exact ⟨fun s => [b.call (P s) z], fun s => rfl, smooth_map [b] fun b _ => hb b⟩
  | biases bs =>
    cases bs with
    | nil => cases hk
    | cons b bs => exact ⟨fun s => (b :: bs).map fun b => b.call (P s) z, fun s => rfl,
        smooth_map _ fun b _ => hb b⟩

theorem smooth_const (l : List ℝ) : SmoothRows θ fun _ => l :=
  ⟨⟨_, fun _ => rfl⟩, fun _ => differentiableAt_const _⟩

theorem density_smooth (h : Along P v θ) (hg : v.gamma = none) (hp : Physical (P θ)) (pzs : List Nz)
    (b : Val) {z ell : ℝ} (hz : 0 ≤ z) (hz9 : z ≤ 899) {k : List ℝ}
    (hk : densityKernel (P θ) pzs b z ell = .ok k) :
    ∃ r, (∀ s, densityKernel (P s) pzs b z ell = .ok (r s)) ∧ SmoothRows θ r := by
  have hn : ∀ s, (P s).gamma = none := by have := h.gamma; rw [hg] at this; exact this
  have h1 : z2a z ≤ 1 := by unfold z2a; rw [div_le_one (by linarith)]; linarith
  have h0 : 0 < z2a z := by unfold z2a; positivity
  have hH := H_diff h (hp.esqrPos _ h0 h1)
  unfold densityKernel at hk
  simp only [jitCosmo_none (hn θ), bind, Except.bind] at hk
  split_ifs at hk with hd he
  have hk' : (biasRows (P θ) b z >>= fun bb => bcast (· * ·) (pzs.map fun pz => pz.eval z) bb >>=
    fun radial => (pure (radial.map fun r => 1 * 1 * (r * H (P θ) (z2a z))) : Except PyErr _)) = .ok k := hk
  obtain ⟨bb, hbb, hk'⟩ := bind_ok hk'
  obtain ⟨rad, hrad, -⟩ := bind_ok hk'
  obtain ⟨r, hr, hrs⟩ := bias_smooth h hg hp b hz hz9 hbb
  obtain rfl : r θ = bb := Except.ok.inj ((hr θ).symm.trans hbb)
  obtain ⟨q, hq, hqs⟩ := smooth_bcast (smooth_const _) hrs
    (f := fun x y => x * y) (fun u w hu hw => hu.mul hw) hrad
  refine ⟨fun s => (q s).map fun r => 1 * 1 * (r * H (P s) (z2a z)), fun s => ?_,
    smooth_map_rows hqs (g := fun s r => 1 * 1 * (r * H (P s) (z2a z))) fun u hu =>
      (hu.mul hH).const_mul _⟩
  unfold densityKernel
  simp only [jitCosmo_none (hn s), bind, Except.bind, if_neg hd, if_neg he, hr s, hq s, pure, Except.pure]

theorem nla_smooth (h : Along P v θ) (hg : v.gamma = none) (hp : Physical (P θ)) (pzs : List Nz)
    (b : Val) {z ell : ℝ} (hz : 0 ≤ z) (hz9 : z ≤ 899) {k : List ℝ}
    (hk : nlaKernel (P θ) pzs b z ell = .ok k) :
    ∃ r, (∀ s, nlaKernel (P s) pzs b z ell = .ok (r s)) ∧ SmoothRows θ r := by
  have hn : ∀ s, (P s).gamma = none := by have := h.gamma; rw [hg] at this; exact this
  have h1 : z2a z ≤ 1 := by unfold z2a; rw [div_le_one (by linarith)]; linarith
  have h0 : 0 < z2a z := by unfold z2a; positivity
  have h9 : 1 / 900 ≤ z2a z := by
    unfold z2a; exact one_div_le_one_div_of_le (by linarith) (by linarith)
  have hD := C84_differentiable h hp h9 h1
  have hD0 : 0 < growthOf (P θ) (z2a z) := by
    rcases h1.eq_or_lt with e | e
    · rw [e, C10_one _ hp]; exact one_pos
    · exact (growth_ode_interior hp (hn θ) (by linarith) e).1
  have hH := H_diff h (hp.esqrPos _ h0 h1)
  unfold nlaKernel at hk
  simp only [jitCosmo_none (hn θ), bind, Except.bind] at hk
  split_ifs at hk with hd he
  have hk' : (biasRows (P θ) b z >>= fun bb => bcast (· * ·) (pzs.map fun pz => pz.eval z) bb >>=
    fun radial => (pure (radial.map fun r => 1 * ellFactor ell * (r * H (P θ) (z2a z) *
      (-(5e-14 * const_rhocrit) * (P θ).Omega_m / growthOf (P θ) (z2a z)))) : Except PyErr _)) = .ok k := hk
  obtain ⟨bb, hbb, hk'⟩ := bind_ok hk'
  obtain ⟨rad, hrad, -⟩ := bind_ok hk'
  obtain ⟨r, hr, hrs⟩ := bias_smooth h hg hp b hz hz9 hbb
  obtain rfl : r θ = bb := Except.ok.inj ((hr θ).symm.trans hbb)
  obtain ⟨q, hq, hqs⟩ := smooth_bcast (smooth_const _) hrs
    (f := fun x y => x * y) (fun u w hu hw => hu.mul hw) hrad
  refine ⟨fun s => (q s).map fun r => 1 * ellFactor ell * (r * H (P s) (z2a z) *
      (-(5e-14 * const_rhocrit) * (P s).Omega_m / growthOf (P s) (z2a z))), fun s => ?_,
    smooth_map_rows hqs (g := fun s r => 1 * ellFactor ell * (r * H (P s) (z2a z) *
      (-(5e-14 * const_rhocrit) * (P s).Omega_m / growthOf (P s) (z2a z)))) fun u hu =>
      ((hu.mul hH).mul (((diff_om h).const_mul _).fun_div hD hD0.ne')).const_mul _⟩
  unfold nlaKernel
  simp only [jitCosmo_none (hn s), bind, Except.bind, if_neg hd, if_neg he, hr s, hq s, pure, Except.pure]

theorem applyM_smooth {r : ℝ → List ℝ} (hr : SmoothRows θ r) (m : Val) {k : List ℝ}
    (hk : applyM (r θ) m = .ok k) : ∃ q, (∀ s, applyM (r s) m = .ok (q s)) ∧ SmoothRows θ q := by
  cases m with
  | none => cases hk
  | num x => exact ⟨fun s => (r s).map fun k => k * (1 + x), fun s => rfl,
      smooth_map_rows hr fun u hu => hu.mul_const _⟩
  | nums ms =>
    cases ms with
    | nil => cases hk
    | cons m ms =>
      exact smooth_bcast hr (smooth_const (m :: ms)) (f := fun k x => k * (1 + x))
        (fun u w hu hw => hu.mul (hw.const_add 1)) hk
  | bias b => cases hk
  | biases bs => cases hk

/-- C86: the kernels of every probe are differentiable in the parameters, bin by bin. -/
theorem C86_kernel (h : Along P v θ) (hg : v.gamma = none) (hp : Physical (P θ)) (pr : Probe)
    {z ell : ℝ} (hz : 0 ≤ z) (hz9 : z ≤ 899) {k : List ℝ} (hk : pr.kernel (P θ) z ell = .ok k)
    (hs : ∀ z' ∈ pr.sources z, chiOf (P θ) (z2a z') ≠ 1) :
    ∃ r, (∀ s, pr.kernel (P s) z ell = .ok (r s)) ∧ SmoothRows θ r := by
  have hn : ∀ s, (P s).gamma = none := by have := h.gamma; rw [hg] at this; exact this
  cases pr with
  | nc o => exact density_smooth (ell := ell) h hg hp _ _ hz hz9 hk
  | wl o =>
    have hk' : o.kernel (P θ) z ell = .ok k := hk
    unfold WeakLensing.kernel at hk'
    obtain ⟨k1, hk1, hk2⟩ := bind_ok hk'
    obtain ⟨r1, hr1, hs1⟩ := wl_smooth h hn hp.esqrPos o hz hk1 hs
    obtain rfl : r1 θ = k1 := Except.ok.inj ((hr1 θ).symm.trans hk1)
    cases hia : o.ia_enabled with
    | false =>
      rw [hia] at hk2
      obtain ⟨q, hq, hqs⟩ := applyM_smooth hs1 o.param1 hk2
      refine ⟨q, fun s => ?_, hqs⟩
      change o.kernel (P s) z ell = _
      unfold WeakLensing.kernel
      rw [hr1 s, hia]
      exact hq s
    | true =>
      rw [hia] at hk2
      cases hb : o.param2 with
      | none => rw [hb] at hk2; cases hk2
      | some b =>
        rw [hb] at hk2
        have hk2' : (nlaKernel (P θ) o.bins b z ell >>= fun ia => bcast (· + ·) (r1 θ) ia
          >>= fun k => applyM k o.param1) = .ok k := hk2
        obtain ⟨ia, hia', hk2'⟩ := bind_ok (f := nlaKernel (P θ) o.bins b z ell) hk2'
        obtain ⟨k3, hk3, hk4⟩ := bind_ok hk2'
        obtain ⟨r2, hr2, hs2⟩ := nla_smooth h hg hp o.bins b hz hz9 hia'
        obtain rfl : r2 θ = ia := Except.ok.inj ((hr2 θ).symm.trans hia')
        obtain ⟨r3, hr3, hs3⟩ := smooth_bcast hs1 hs2 (f := fun x y => x + y)
          (fun u w hu hw => hu.add hw) hk3
        obtain rfl : r3 θ = k3 := Except.ok.inj ((hr3 θ).symm.trans hk3)
        obtain ⟨q, hq, hqs⟩ := applyM_smooth hs3 o.param1 hk4
        refine ⟨q, fun s => ?_, hqs⟩
        change o.kernel (P s) z ell = _
        unfold WeakLensing.kernel
        rw [hr1 s, hia, hb]
        change (nlaKernel (P s) o.bins b z ell >>= fun ia => bcast (fun x y => x + y) (r1 s) ia
          >>= fun k => applyM k o.param1) = _
        rw [hr2 s]
        change (bcast (fun x y => x + y) (r1 s) (r2 s) >>= fun k => applyM k o.param1) = _
        rw [hr3 s]
        exact hq s

theorem kernels_smooth (probes : List Probe) {z ell : ℝ}
    (hk : ∀ pr ∈ probes, ∃ r, (∀ s, pr.kernel (P s) z ell = .ok (r s)) ∧ SmoothRows θ r) :
    ∃ r : ℝ → List (List ℝ), (∀ s, (probes.mapM fun pr => pr.kernel (P s) z ell) = .ok (r s)) ∧
      SmoothRows θ fun s => (r s).flatten := by
  induction probes with
  | nil => exact ⟨fun _ => [], fun _ => rfl, smooth_const []⟩
  | cons pr l ih =>
    obtain ⟨r, hr, hs⟩ := ih fun pr hpr => hk pr (List.mem_cons_of_mem _ hpr)
    obtain ⟨q, hq, hqs⟩ := hk pr List.mem_cons_self
    exact ⟨fun s => q s :: r s, fun s => mapM_cons_ok.2 ⟨_, _, hq s, hr s, rfl⟩, smooth_append hqs hs⟩

/-! ## Spectra -/

theorem limberNode_mem {zmax : ℝ} (h0 : 0 ≤ zmax) (i : ℕ) (hi : i ≤ 512) :
    1 / (1 + zmax) ≤ limberNode zmax i ∧ limberNode zmax i ≤ 1 := by
  have hz : 1 / (1 + zmax) ≤ 1 := by rw [div_le_one (by linarith)]; linarith
  have hi' : (i : ℝ) ≤ 512 := by exact_mod_cast hi
  have hi0 : (0 : ℝ) ≤ i := Nat.cast_nonneg i
  rw [limberNode, linspace_succ]
  generalize 1 / (1 + zmax) = u at *
  norm_num
  constructor
  · have : 0 ≤ (i : ℝ) * ((1 - u) / 512) := mul_nonneg hi0 (by linarith)
    linarith
  · have := mul_le_mul_of_nonneg_right hi' (by linarith : 0 ≤ (1 - u) / 512)
    linarith

/-- The Limber integrand is differentiable in the parameters at fixed scale factor. -/
theorem limber_diff (h : Along P v θ) (hg : v.gamma = none) (hp : Physical (P θ)) {T : ℝ → ℝ → ℝ}
    (hT : ∀ K : ℝ → ℝ, DifferentiableAt ℝ K θ → 0 < K θ → DifferentiableAt ℝ (fun s => T s (K s)) θ)
    (hσ : sigmasqr (P θ) 8 (T θ) ≠ 0) {probes : List Probe} {ell a : ℝ} (hell : 0 < ell + 1 / 2)
    (h9 : 1 / 900 ≤ a) (h1 : a ≤ 1)
    (hk : ∀ pr ∈ probes, ∃ k, pr.kernel (P θ) (1 / a - 1) ell = .ok k)
    (hn : chiOf (P θ) a ≠ 1)
    (hs : ∀ pr ∈ probes, ∀ z' ∈ pr.sources (1 / a - 1), chiOf (P θ) (1 / (1 + z')) ≠ 1) (i j : ℕ) :
    (∀ s, ∀ pr ∈ probes, ∃ k, pr.kernel (P s) (1 / a - 1) ell = .ok k) ∧
    DifferentiableAt ℝ (fun s => limberIntegrand (P s) (T s) linear probes ell i j a) θ := by
  have ha : 0 < a := by linarith
  have hz : 0 ≤ 1 / a - 1 := by rw [sub_nonneg, le_div_iff₀ ha]; linarith
  have hz9 : 1 / a - 1 ≤ 899 := by
    have := one_div_le_one_div_of_le (by norm_num) h9
    norm_num at this ⊢
    linarith
  have hkern : ∀ pr ∈ probes, ∃ r, (∀ s, pr.kernel (P s) (1 / a - 1) ell = .ok (r s)) ∧
      SmoothRows θ r := fun pr hpr => by
    obtain ⟨k, hk⟩ := hk pr hpr
    exact C86_kernel h hg hp pr hz hz9 hk (hs pr hpr)
  refine ⟨fun s pr hpr => ?_, ?_⟩
  · obtain ⟨r, hr, _⟩ := hkern pr hpr
    exact ⟨_, hr s⟩
  obtain ⟨r, hr, ⟨n, hlen⟩, hrs⟩ := kernels_smooth probes hkern
  have hK : ∀ s, limberKernels (P s) probes ell a = (r s).flatten := fun s => by
    unfold limberKernels; rw [hr s]
  have hgat : ∀ i, DifferentiableAt ℝ (fun s => gather (limberKernels (P s) probes ell a) i) θ := by
    intro i
    simp only [hK, gather, hlen]
    exact hrs _
  have hE := hp.esqrPos
  have hchi := chi_diff h hE a
  have hmax := max_diff hchi (differentiableAt_const 1) hn
  have hmax0 : 0 < max (chiOf (P θ) a) 1 := lt_of_lt_of_le one_pos (le_max_right _ _)
  have hk1 : DifferentiableAt ℝ (fun s => (ell + 1 / 2) / max (chiOf (P s) a) 1) θ :=
    (differentiableAt_const _).fun_div hmax hmax0.ne'
  have hpow : DifferentiableAt ℝ (fun s => limberPower (P s) (T s) linear ell a) θ :=
    C85_power h (fun k hk => hT (fun _ => k) (differentiableAt_const _) hk)
      (hT _ hk1 (div_pos hell hmax0)) hk1 (div_pos hell hmax0) hσ (C84_differentiable h hp h9 h1)
  have hsq : DifferentiableAt ℝ (fun s => max (chiOf (P s) a ^ 2) 1) θ := by
    refine max_diff (hchi.fun_pow 2) (differentiableAt_const 1) fun e => hn ?_
    exact (pow_eq_one_iff_of_nonneg (C06_nonneg _ _ _ _) two_ne_zero).1 e
  exact ((hpow.mul ((hgat i).mul (hgat j))).mul (dchi_diff h ha (hE a ha h1))).div hsq
    (lt_of_lt_of_le one_pos (le_max_right _ _)).ne'

/-- C86: with the linear power spectrum, all angular spectra are differentiable in the parameters,
whatever the probes, provided no sample of the integrals is exactly 1 Mpc/h away (where the clips of
the code have their kink). -/
theorem C86_spectra (h : Along P v θ) (hg : v.gamma = none) (hp : Physical (P θ)) {T : ℝ → ℝ → ℝ}
    (hT : ∀ K : ℝ → ℝ, DifferentiableAt ℝ K θ → 0 < K θ → DifferentiableAt ℝ (fun s => T s (K s)) θ)
    (hσ : sigmasqr (P θ) 8 (T θ) ≠ 0) {probes : List Probe} {ell zmax : ℝ} (hell : 0 < ell + 1 / 2)
    (hz : probesZmax probes = .ok zmax) (h0 : 0 ≤ zmax) (h9 : zmax ≤ 899) {col : List ℝ}
    (hcol : clAt (P θ) (T θ) linear probes ell = .ok col)
    (hn : ∀ i ≤ 512, chiOf (P θ) (limberNode zmax i) ≠ 1)
    (hs : ∀ i ≤ 512, ∀ pr ∈ probes, ∀ z' ∈ pr.sources (1 / limberNode zmax i - 1),
      chiOf (P θ) (1 / (1 + z')) ≠ 1) :
    ∃ C : ℝ → List ℝ, (∀ s, clAt (P s) (T s) linear probes ell = .ok (C s)) ∧
      (∀ s, (C s).length = pairCount (tracers probes).length) ∧
      ∀ c, DifferentiableAt ℝ (fun s => (C s).getD c 0) θ := by
  have hpar : ∀ i ≤ 512, ∀ pr ∈ probes, ∃ k, pr.kernel (P θ) (1 / limberNode zmax i - 1) ell = .ok k := by
    obtain ⟨z, hz', _, hr⟩ := clAt_ok hcol
    obtain rfl : z = zmax := Except.ok.inj (hz'.symm.trans hz)
    intro i hi
    obtain ⟨w, hw⟩ := hr i hi
    exact (clIntegrand_parts hw).2
  have hnode : ∀ i ≤ 512, 1 / 900 ≤ limberNode zmax i ∧ limberNode zmax i ≤ 1 := fun i hi =>
    ⟨(one_div_le_one_div_of_le (by linarith) (by linarith)).trans (limberNode_mem h0 i hi).1,
      (limberNode_mem h0 i hi).2⟩
  have hL : ∀ i ≤ 512, ∀ c d : ℕ, _ := fun i hi c d => limber_diff h hg hp hT hσ hell (hnode i hi).1
    (hnode i hi).2 (hpar i hi) (hn i hi) (hs i hi) c d
  have hret : ∀ s, ∃ col, clAt (P s) (T s) linear probes ell = .ok col := fun s =>
    clAt_returns hz fun i hi => clIntegrand_returns ⟨_, rfl⟩ ((hL i hi 0 0).1 s)
  choose C hC using hret
  have hform : ∀ s, C s = (getClOrdering probes).map fun ij =>
      simpson (limberIntegrand (P s) (T s) linear probes ell ij.1 ij.2) (1 / (1 + zmax)) 1 256
        / const_c ^ 2 := by
    intro s
    obtain ⟨z, hz', hc, _⟩ := clAt_ok (hC s)
    obtain rfl : z = zmax := Except.ok.inj (hz'.symm.trans hz)
    exact hc
  refine ⟨C, hC, fun s => by rw [hform, List.length_map, C54_count], fun c => ?_⟩
  simp only [hform]
  refine (smooth_map (getClOrdering probes) (f := fun s ij =>
      simpson (limberIntegrand (P s) (T s) linear probes ell ij.1 ij.2) (1 / (1 + zmax)) 1 256
        / const_c ^ 2) fun ij _ => DifferentiableAt.div_const (simpson_diff fun i hi => ?_) _).2 c
  have e : 1 / (1 + zmax) + i * ((1 - 1 / (1 + zmax)) / (2 * (256 : ℕ))) = limberNode zmax i := by
    rw [limberNode, linspace_succ]; norm_num
  rw [e]
  exact (hL i (by omega) ij.1 ij.2).2

/-- C86 with the Eisenstein–Hu transfer function with oscillations. -/
theorem C86_oscillating (h : Along P v θ) (hg : v.gamma = none) (hp : Physical (P θ))
    (hb : (P θ).Baryonic) (hσ : sigmasqr (P θ) 8 (EH.wiggle (P θ)) ≠ 0) {probes : List Probe}
    {ell zmax : ℝ} (hell : 0 < ell + 1 / 2)
    (hz : probesZmax probes = .ok zmax) (h0 : 0 ≤ zmax) (h9 : zmax ≤ 899) {col : List ℝ}
    (hcol : clAt (P θ) (EH.wiggle (P θ)) linear probes ell = .ok col)
    (hn : ∀ i ≤ 512, chiOf (P θ) (limberNode zmax i) ≠ 1)
    (hs : ∀ i ≤ 512, ∀ pr ∈ probes, ∀ z' ∈ pr.sources (1 / limberNode zmax i - 1),
      chiOf (P θ) (1 / (1 + z')) ≠ 1) :
    ∃ C : ℝ → List ℝ, (∀ s, clAt (P s) (EH.wiggle (P s)) linear probes ell = .ok (C s)) ∧
      (∀ s, (C s).length = pairCount (tracers probes).length) ∧
      ∀ c, DifferentiableAt ℝ (fun s => (C s).getD c 0) θ :=
  C86_spectra (T := fun s => EH.wiggle (P s)) h hg hp (fun _ hK hk => C85_oscillating h hb hK hk) hσ
    hell hz h0 h9 hcol hn hs

/-- C86 with the Eisenstein–Hu transfer function without oscillations. -/
theorem C86_smooth (h : Along P v θ) (hg : v.gamma = none) (hp : Physical (P θ))
    (hb : (P θ).Baryonic) (hα : 0 ≤ EH.alpha_gamma (P θ)) {probes : List Probe}
    {ell zmax : ℝ} (hell : 0 < ell + 1 / 2)
    (hz : probesZmax probes = .ok zmax) (h0 : 0 ≤ zmax) (h9 : zmax ≤ 899) {col : List ℝ}
    (hcol : clAt (P θ) (EH.nowiggle (P θ)) linear probes ell = .ok col)
    (hn : ∀ i ≤ 512, chiOf (P θ) (limberNode zmax i) ≠ 1)
    (hs : ∀ i ≤ 512, ∀ pr ∈ probes, ∀ z' ∈ pr.sources (1 / limberNode zmax i - 1),
      chiOf (P θ) (1 / (1 + z')) ≠ 1) :
    ∃ C : ℝ → List ℝ, (∀ s, clAt (P s) (EH.nowiggle (P s)) linear probes ell = .ok (C s)) ∧
      (∀ s, (C s).length = pairCount (tracers probes).length) ∧
      ∀ c, DifferentiableAt ℝ (fun s => (C s).getD c 0) θ := by
  refine C86_spectra (T := fun s => EH.nowiggle (P s)) h hg hp
    (fun _ hK hk => C85_smooth h hb hK hk.le (EH.gamma_pos hb hα _)) ?_ hell hz h0 h9 hcol hn hs
  refine (sigmasqr_pos _ _ ?_).ne'
  obtain ⟨u, hu, hu0, _⟩ := C43_shape (P θ) hb hα (Real.exp (-4)) (Real.exp_pos _).le
  simp only [Eisenstein_Hu, if_true, Except.ok.injEq] at hu
  rw [hu]; exact hu0.ne'

end

/-! ## No sample sits on a kink for wide enough surveys -/

/-- Close to today the expansion rate of a physical cosmology is at most doubled. -/
theorem esqr_le_four {p : Params} (h : Physical p) {x : ℝ} (h0 : -(1 / 12) ≤ x) (h1 : x ≤ 0) :
    Esqr p (Real.exp x) ≤ 4 := by
  have hexp : ∀ y, y ≤ 1 → Real.exp y ≤ 4 := fun y hy =>
    (Real.exp_le_exp.2 hy).trans (Real.exp_one_lt_d9.le.trans (by norm_num))
  have w1 := h.w_range 1 one_pos le_rfl
  have w2 := h.w_range (1 / 2) (by norm_num) (by norm_num)
  unfold w at w1 w2
  have hL : Real.exp x - 1 ≤ 0 := by have := Real.exp_le_one_iff.2 h1; linarith
  have hL' : x ≤ Real.exp x - 1 := by have := Real.add_one_le_exp x; linarith
  have hf : f_de p (Real.exp x) ≤ 1 := by
    unfold f_de
    rw [Real.log_exp]
    rcases le_total 0 p.wa with hw | hw
    · nlinarith [mul_nonneg hw (neg_nonneg.2 hL), mul_nonneg hw (neg_nonneg.2 h1)]
    · nlinarith [mul_nonneg (neg_nonneg.2 hw) (sub_nonneg.2 hL')]
  have e3 : Real.exp x ^ (-3 : ℤ) ≤ 4 := by
    rw [zpow_neg, show Real.exp x ^ (3 : ℤ) = Real.exp x ^ 3 by norm_cast, ← Real.exp_nat_mul,
      ← Real.exp_neg]
    exact hexp _ (by push_cast; linarith)
  have e2 : Real.exp x ^ (-2 : ℤ) ≤ 4 := by
    rw [zpow_neg, show Real.exp x ^ (2 : ℤ) = Real.exp x ^ 2 by norm_cast, ← Real.exp_nat_mul,
      ← Real.exp_neg]
    exact hexp _ (by push_cast; linarith)
  have e0 := hexp _ hf
  have hm := mul_le_mul_of_nonneg_left e3 h.m_pos.le
  have hk := mul_le_mul_of_nonneg_left e2 h.k_nonneg
  have hd := mul_le_mul_of_nonneg_left e0 h.de_nonneg
  have hsum : p.Omega_m + p.Omega_k + p.Omega_de = 1 := by
    unfold Params.Omega_de Params.Omega; ring
  unfold Esqr
  linarith

/-- Lower bound on the distance in the last cell of the table. -/
theorem chi_lower {p : Params} (h : Physical p) {a : ℝ} (h0 : logspace (-3) 0 256 254 ≤ a)
    (h1 : a ≤ 1) : (1 - a) * const_rh / 2 ≤ chiOf p a := by
  have hE := h.esqrPos
  have hinc := logspace_increasing (lo := -3) (n := 256) (by norm_num) (by norm_num)
  have hone : logspace (-3) 0 256 255 = 1 := logspace_end (-3) (by norm_num : 2 ≤ 256)
  have hlast : (chiTable p (-3) 256).chi 255 = 0 := chiTable_last p (-3) 256
  have hseg := interp_inc_seg (by norm_num) hinc (chiTable p (-3) 256).chi (x := a) (j := 254)
    (by norm_num) (by norm_num) (Or.inr h0) (Or.inl rfl)
  have hX : logspace (-3) 0 256 254 = Real.exp (-(3 * Real.log 10 / 255)) := by
    rw [logspace, linspace, Real.rpow_def_of_pos (by norm_num)]
    congr 1
    push_cast
    ring
  set t := 3 * Real.log 10 / 255 with ht
  have ht0 : 0 < t := by have := Real.log_pos (show (1 : ℝ) < 10 by norm_num); positivity
  have ht1 : t ≤ 1 / 12 := by
    have : Real.log 10 ≤ 7 := by
      have := Real.log_le_sub_one_of_pos (show (0 : ℝ) < 10 / 4 by norm_num)
      have h4 := Real.log_le_sub_one_of_pos (show (0 : ℝ) < 4 by norm_num)
      have : Real.log 10 = Real.log (10 / 4) + Real.log 4 := by
        rw [← Real.log_mul (by norm_num) (by norm_num)]; norm_num
      linarith
    rw [ht]; linarith
  have hrate : ∀ x, -t ≤ x → x ≤ 0 → const_rh / 2 ≤ chiRate p x := by
    intro x hx hx0
    rw [chiRate_eq]
    have e1 : 1 ≤ Real.exp (-x) := Real.one_le_exp (by linarith)
    have e2 : Real.sqrt (Esqr p (Real.exp x)) ≤ 2 := by
      rw [Real.sqrt_le_left (by norm_num)]
      exact (esqr_le_four h (by linarith) hx0).trans (by norm_num)
    have e3 : 0 < Real.sqrt (Esqr p (Real.exp x)) :=
      Real.sqrt_pos.2 (hE _ (Real.exp_pos _) (Real.exp_le_one_iff.2 hx0))
    have hrh : 0 < const_rh := by norm_num [const_rh]
    calc const_rh / 2 ≤ const_rh / Real.sqrt (Esqr p (Real.exp x)) :=
          div_le_div_of_nonneg_left hrh.le e3 e2
      _ ≤ const_rh * Real.exp (-x) / Real.sqrt (Esqr p (Real.exp x)) := by
          gcongr; nlinarith
  have hchi : t * (const_rh / 2) ≤ (chiTable p (-3) 256).chi 254 := by
    rw [chiTable_chi p (-3) 256 254 (by norm_num)]
    have : Finset.Ico 254 (256 - 1) = {254} := rfl
    rw [this, Finset.sum_singleton, hone, hX, Real.log_exp, Real.log_one, panel]
    have r1 := hrate (-t) le_rfl (by linarith)
    have r2 := hrate ((-t + 0) / 2) (by linarith) (by linarith)
    have r3 := hrate 0 (by linarith) le_rfl
    nlinarith
  refine le_trans ?_ (le_max_left _ _)
  change _ ≤ interp 256 (logspace (-3) 0 256) (chiTable p (-3) 256).chi a
  rw [hseg, chord, hone, hlast]
  have hd : 0 < 1 - logspace (-3) 0 256 254 := by
    rw [hX, sub_pos, Real.exp_lt_one_iff]; linarith
  have hd' : 1 - logspace (-3) 0 256 254 ≤ t := by
    rw [hX]; have := Real.add_one_le_exp (-t); linarith
  have e : (chiTable p (-3) 256).chi 254 + (0 - (chiTable p (-3) 256).chi 254)
      * ((a - logspace (-3) 0 256 254) / (1 - logspace (-3) 0 256 254))
      = (1 - a) * ((chiTable p (-3) 256).chi 254 / (1 - logspace (-3) 0 256 254)) := by
    field_simp; ring
  rw [e, mul_div_assoc]
  refine mul_le_mul_of_nonneg_left ?_ (by linarith)
  rw [le_div_iff₀ hd]
  have hrh : 0 < const_rh := by norm_num [const_rh]
  nlinarith

/-- Everything beyond `a = 1 - 1/800` is more than 1 Mpc/h away. -/
theorem chi_gt_one {p : Params} (h : Physical p) {a : ℝ} (ha : a ≤ 1 - 1 / 800) : 1 < chiOf p a := by
  have hm : chiOf p (1 - 1 / 800) ≤ chiOf p a := C06_antitone (by norm_num) (by norm_num) h.esqrPos ha
  have hX : logspace (-3) 0 256 254 ≤ 1 - 1 / 800 := by
    rw [logspace, linspace, Real.rpow_def_of_pos (by norm_num)]
    have hl : 1 < Real.log 10 := by
      rw [Real.lt_log_iff_exp_lt (by norm_num)]
      exact Real.exp_one_lt_d9.trans (by norm_num)
    have h2 : Real.log 10 * (-3 + ((254 : ℕ) : ℝ) * ((0 - -3) / (((256 : ℕ) : ℝ) - 1))) ≤ -(1 / 400) := by
      push_cast
      linarith
    refine (Real.exp_le_exp.2 h2).trans ?_
    have : Real.exp (-(1 / 400)) ≤ 1 / (1 + 1 / 400) := by
      rw [Real.exp_neg, ← one_div]
      refine one_div_le_one_div_of_le (by norm_num) ?_
      have := Real.add_one_le_exp (1 / 400 : ℝ)
      linarith
    exact this.trans (by norm_num)
  have := chi_lower h hX (by norm_num)
  have hrh : (1 : ℝ) < (1 - (1 - 1 / 800)) * const_rh / 2 := by norm_num [const_rh]
  linarith

theorem chi_ne_one {p : Params} (h : Physical p) {a : ℝ} (ha : a = 1 ∨ a ≤ 1 - 1 / 800) :
    chiOf p a ≠ 1 := by
  rcases ha with rfl | ha
  · have : chiOf p 1 = 0 := C06_zero_today p (by norm_num) (by norm_num)
    rw [this]; norm_num
  · exact (chi_gt_one h ha).ne'

/-- C86: in every physical cosmology no sample sits on a kink if the probes reach `z = 2`, the lensing
probes reach `z = 1/3` each, and the source planes are beyond `z = 1/799`. -/
theorem C86_regular {p : Params} (h : Physical p) {probes : List Probe} {zmax : ℝ} (h2 : 2 ≤ zmax)
    (hw : ∀ o, Probe.wl o ∈ probes → (∀ zm, pyMax (o.bins.map Nz.zmax) = .ok zm → 1 / 3 ≤ zm) ∧
      ∀ z0 g zm, Nz.delta z0 g zm ∈ o.bins → 1 / 799 ≤ z0) :
    (∀ i ≤ 512, chiOf p (limberNode zmax i) ≠ 1) ∧
    ∀ i ≤ 512, ∀ pr ∈ probes, ∀ z' ∈ pr.sources (1 / limberNode zmax i - 1),
      chiOf p (1 / (1 + z')) ≠ 1 := by
  have hnode : ∀ i ≤ 512, limberNode zmax i = 1 ∨ limberNode zmax i ≤ 1 - 1 / 800 := by
    intro i hi
    have hu : 1 / (1 + zmax) ≤ 1 / 3 := one_div_le_one_div_of_le (by norm_num) (by linarith)
    rw [limberNode, linspace_succ]
    generalize 1 / (1 + zmax) = u at *
    rcases hi.eq_or_lt with rfl | hi
    · left; push_cast; ring
    · right
      have hi' : (i : ℝ) ≤ 511 := by exact_mod_cast (by omega : i ≤ 511)
      push_cast
      nlinarith
  have hfar : ∀ z', 1 / 799 ≤ z' → chiOf p (1 / (1 + z')) ≠ 1 := fun z' hz' => by
    refine chi_ne_one h (Or.inr ?_)
    have := one_div_le_one_div_of_le (by norm_num) (by linarith : 1 + 1 / 799 ≤ 1 + z')
    norm_num at this ⊢
    linarith
  refine ⟨fun i hi => chi_ne_one h (hnode i hi), fun i hi pr hpr z' hz' => ?_⟩
  cases pr with
  | nc o => exact absurd hz' (Set.notMem_empty _)
  | wl o =>
    obtain ⟨hzm, hpl⟩ := hw o hpr
    rcases hz' with ⟨zm, j, hm, hj, rfl⟩ | ⟨z0, g, zm, hd, rfl⟩
    · have hm := hzm zm hm
      have hj' : (j : ℝ) ≤ 256 := by exact_mod_cast hj
      have hj0 : (0 : ℝ) ≤ j := Nat.cast_nonneg j
      rcases hnode i hi with e | e
      · rw [e]
        rcases Nat.eq_zero_or_pos j with rfl | hj1
        · exact chi_ne_one h (Or.inl (by norm_num))
        · have hj1' : (1 : ℝ) ≤ j := by exact_mod_cast hj1
          refine hfar _ ?_
          nlinarith
      · have hpos := (limberNode_mem (by linarith : 0 ≤ zmax) i hi).1
        have hpos' : 0 < limberNode zmax i := lt_of_lt_of_le (by positivity) hpos
        have hz : 1 / 799 ≤ 1 / limberNode zmax i - 1 := by
          have := one_div_le_one_div_of_le hpos' e
          norm_num at this ⊢
          linarith
        refine hfar _ ?_
        generalize 1 / limberNode zmax i - 1 = z at hz
        nlinarith [mul_nonneg hj0 (by linarith : 0 ≤ zm - 1 / 799),
          mul_nonneg (sub_nonneg.2 hj') (by linarith : 0 ≤ z - 1 / 799)]
    · exact hfar _ (hpl z' g zm hd)

/-- Witness: two lensing bins and one clustering bin along a curve through the Planck 2015
cosmology. -/
example : ∃ C : ℝ → List ℝ,
    (∀ s, clAt (planckCurve s) (EH.nowiggle (planckCurve s)) linear demoProbes 10 = .ok (C s)) ∧
    (∀ s, (C s).length = 6) ∧ ∀ c, DifferentiableAt ℝ (fun s => (C s).getD c 0) 0 := by
  have e := planckCurve_zero
  have hp : Physical (planckCurve 0) := by rw [e]; exact planck_physical
  obtain ⟨hn, hs⟩ := C86_regular hp (probes := demoProbes) (zmax := 4) (by norm_num) (by
    intro o ho
    simp only [demoProbes, List.mem_cons, List.not_mem_nil, or_false, Probe.wl.injEq,
      reduceCtorEq] at ho
    subst ho
    refine ⟨fun zm hzm => ?_, fun z0 g zm hd => ?_⟩
    · have := pyMax_ok hzm 4 (by simp [WeakLensing.init, Nz.zmax])
      linarith
    · simp [WeakLensing.init] at hd)
  obtain ⟨col, hcol⟩ := clAt_returns (p := planckCurve 0) (T := EH.nowiggle (planckCurve 0))
    (nl := linear) (ell := 10) demo_zmax fun i _ => clIntegrand_returns ⟨_, rfl⟩ fun pr hpr =>
      (demo_kernels _ rfl pr hpr _ _).imp fun _ h => h.1
  exact C86_smooth planckCurve_along rfl hp (by rw [e]; exact planck_baryonic)
    (by rw [e]; exact planck_alpha.1.le) (by norm_num) demo_zmax (by norm_num) (by norm_num) hcol hn hs

end JaxCosmo
