import Verif.Spec.Sliding
import Verif.Props.Dependence
import Verif.Props.Growth
import Verif.Proofs.Simps

/-! # C156: whether the curvature of space is seen by spectra -/

namespace JaxCosmo
open Spec

variable {p q : Params}

theorem slide_matter (h : Sliding p q) : p.Omega_m = q.Omega_m := by rw [h.same]; rfl
theorem slide_w (h : Sliding p q) (a : ℝ) : w p a = -1 / 3 ∧ w q a = -1 / 3 := by
  rw [h.same]; simp [w, h.w0_left, h.wa_left]

theorem slide_exp_f_de (h : Sliding p q) {a : ℝ} (ha : 0 < a) :
    Real.exp (f_de p a) = a ^ (-2 : ℤ) ∧ Real.exp (f_de q a) = a ^ (-2 : ℤ) := by
  have e : f_de q a = f_de p a := by rw [h.same]; rfl
  rw [e, and_self]
  unfold f_de
  rw [h.w0_left, h.wa_left, show -3 * (1 + -1 / 3 + 0) * Real.log a + 3 * 0 * (a - 1) = -(Real.log a + Real.log a) by ring,
    Real.exp_neg, Real.exp_add, Real.exp_log ha, zpow_neg]
  norm_cast
  rw [sq]

theorem slide_Esqr (h : Sliding p q) {a : ℝ} (ha : 0 < a) : Esqr p a = Esqr q a := by
  unfold Esqr
  rw [(slide_exp_f_de h ha).1, (slide_exp_f_de h ha).2]
  unfold Params.Omega_de Params.Omega
  rw [slide_matter h]
  ring

theorem slide_H (h : Sliding p q) {a : ℝ} (ha : 0 < a) : H p a = H q a := by
  unfold H; rw [slide_Esqr h ha]

theorem slide_Omega_m_a (h : Sliding p q) {a : ℝ} (ha : 0 < a) : Omega_m_a p a = Omega_m_a q a := by
  unfold Omega_m_a; rw [slide_Esqr h ha, slide_matter h]

theorem slide_dchioverda (h : Sliding p q) {a : ℝ} (ha : 0 < a) : dchioverda p a = dchioverda q a := by
  unfold dchioverda; rw [slide_Esqr h ha]

theorem slide_chiTable (h : Sliding p q) : chiTable p = chiTable q := by
  have e : (fun x => dchioverda p (Real.exp x) * Real.exp x)
      = fun x => dchioverda q (Real.exp x) * Real.exp x := by
    funext x; rw [slide_dchioverda h (Real.exp_pos x)]
  funext lo n
  have e' : (fun (_ : ℝ) x => let xa := Real.exp x; dchioverda p xa * xa)
      = fun (_ : ℝ) x => let xa := Real.exp x; dchioverda q xa * xa := by
    funext _ x; exact congrFun e x
  unfold chiTable
  simp only [e']

theorem slide_growthDerivs (h : Sliding p q) (y : ℝ × ℝ) {x : ℝ} (hx : 0 < x) :
    growthDerivs p y x = growthDerivs q y x := by
  unfold growthDerivs
  rw [slide_Omega_m_a h hx, (slide_w h x).1, (slide_w h x).2]
  norm_num

/-- Solutions agree when the equations agree at positive times. -/
theorem odeint_congr_pos {f g : ℝ × ℝ → ℝ → ℝ × ℝ} (h : ∀ y x, 0 < x → f y x = g y x) (y0 : ℝ × ℝ) {t : ℕ → ℝ}
    (ht : ∀ i, 0 < t i) (i : ℕ) : odeint f y0 t i = odeint g y0 t i := by
  induction i with
  | zero => rw [C26_first, C26_first]
  | succ i ih =>
    have m : 0 < t i + 1 / 2 * (t (i + 1) - t i) := by linarith [ht i, ht (i + 1)]
    have l : 0 < t i + (t (i + 1) - t i) := by linarith [ht (i + 1)]
    rw [C26_step, C26_step, ih, rk4Step, rk4Step]
    simp only [h _ _ (ht i), h _ _ m, h _ _ l]

theorem slide_growthTableODE (h : Sliding p q) : growthTableODE p = growthTableODE q := by
  funext lo n
  have e : odeint (growthDerivs p) (logspace lo 0 n 0, 1) (logspace lo 0 n)
      = odeint (growthDerivs q) (logspace lo 0 n 0, 1) (logspace lo 0 n) :=
    funext fun i => odeint_congr_pos (fun y x hx => slide_growthDerivs h y hx) _ (fun i => logspace_pos _ _ _ i) i
  unfold growthTableODE
  simp only [e]

theorem slide_growthTableGamma (h : Sliding p q) : growthTableGamma p = growthTableGamma q := by
  funext γ lo n
  have e : (fun (_ : ℝ) x => let xa := Real.exp x; growthRateGamma p γ xa)
      = fun (_ : ℝ) x => let xa := Real.exp x; growthRateGamma q γ xa := by
    funext _ x
    simp only [growthRateGamma, slide_Omega_m_a h (Real.exp_pos x)]
  unfold growthTableGamma
  simp only [e]

theorem slide_gamma (h : Sliding p q) : p.gamma = q.gamma := by rw [h.same]

theorem slide_growthOf (h : Sliding p q) : growthOf p = growthOf q := by
  funext a
  unfold growthOf growthTable
  rw [slide_gamma h, slide_growthTableODE h, slide_growthTableGamma h]

theorem slide_chiOf (h : Sliding p q) : chiOf p = chiOf q := by
  funext a; unfold chiOf; rw [slide_chiTable h]

/-- C156: expansion, radial distance and growth are the same. -/
theorem C156_background (h : Sliding p q) {a : ℝ} (ha : 0 < a) :
    Esqr p a = Esqr q a ∧ Omega_m_a p a = Omega_m_a q a ∧ chiOf p a = chiOf q a ∧
    growthOf p a = growthOf q a ∧
    (radialComovingDistance (.init p) (.scalar a)).2 = (radialComovingDistance (.init q) (.scalar a)).2 ∧
    (growthFactor (.init p) (.scalar a)).2 = (growthFactor (.init q) (.scalar a)).2 := by
  refine ⟨slide_Esqr h ha, slide_Omega_m_a h ha, by rw [slide_chiOf h], by rw [slide_growthOf h], ?_, ?_⟩
  · simp only [radialComovingDistance, ensureChi, Cosmology.init, slide_chiTable h]
  · cases hg : q.gamma with
    | none =>
      have hp : p.gamma = none := (slide_gamma h).trans hg
      simp [growthFactor, growthFactorODE, Cosmology.init, hp, hg, slide_growthTableODE h]
    | some γ =>
      have hp : p.gamma = some γ := (slide_gamma h).trans hg
      simp [growthFactor, growthFactorGamma, Cosmology.init, hp, hg, slide_growthTableGamma h]

/-- C156: the kernels do not see the curvature. -/
theorem C156_kernels (h : Sliding p q) (pr : Probe) {z : ℝ} (hz : -1 < z) (ell : ℝ) :
    pr.kernel p z ell = pr.kernel q z ell := by
  have ha : 0 < z2a z := by unfold z2a; exact div_pos one_pos (by linarith)
  have hb : ∀ b : Bias, b.call p z = b.call q z := fun b => by
    cases b <;> simp only [Bias.call, slide_growthOf h]
  have hbr : ∀ b : Val, biasRows p b z = biasRows q b z := fun b => by
    unfold biasRows
    simp only [hb]
  cases hg : q.gamma with
  | some γ =>
    have hp : p.gamma = some γ := (slide_gamma h).trans hg
    cases pr with
    | wl o =>
      simp only [Probe.kernel, WeakLensing.kernel, weakLensingKernel, jitCosmo_some hp, jitCosmo_some hg]
      rfl
    | nc o =>
      simp only [Probe.kernel, NumberCounts.kernel, densityKernel, jitCosmo_some hp, jitCosmo_some hg]
  | none =>
    have hp : p.gamma = none := (slide_gamma h).trans hg
    have hext : extRow p = extRow q := by
      funext zm z pz; unfold extRow; rw [slide_chiOf h]
    have hdel : deltaRow p = deltaRow q := by
      funext z pz; unfold deltaRow; rw [slide_chiOf h]
    have hwl : ∀ bins, weakLensingKernel p bins z ell = weakLensingKernel q bins z ell := fun bins => by
      unfold weakLensingKernel
      rw [jitCosmo_none hp, jitCosmo_none hg]
      simp only [bind, Except.bind, hext, hdel, slide_matter h]
    have hnc : ∀ bins b, densityKernel p bins b z ell = densityKernel q bins b z ell := fun bins b => by
      unfold densityKernel
      rw [jitCosmo_none hp, jitCosmo_none hg]
      simp only [bind, Except.bind, hbr, slide_H h ha]
    have hia : ∀ bins b, nlaKernel p bins b z ell = nlaKernel q bins b z ell := fun bins b => by
      unfold nlaKernel
      rw [jitCosmo_none hp, jitCosmo_none hg]
      simp only [bind, Except.bind, hbr, slide_H h ha, slide_matter h, slide_growthOf h]
    cases pr with
    | wl o => simp only [Probe.kernel, WeakLensing.kernel, hwl, hia]
    | nc o => simp only [Probe.kernel, NumberCounts.kernel, hnc]

theorem simpsE_congr {f g : ℝ → Except PyErr (List ℝ)} {a b : ℝ} {N : ℕ}
    (h : ∀ i ≤ N, f (linspace a b (N + 1) i) = g (linspace a b (N + 1) i)) : simpsE f a b N = simpsE g a b N := by
  have e : ∀ l : List ℕ, (∀ i ∈ l, i ≤ N) → l.mapM (fun i => f (linspace a b (N + 1) i))
      = l.mapM fun i => g (linspace a b (N + 1) i) := by
    intro l hl
    induction l with
    | nil => rfl
    | cons i l ih =>
      rw [List.mapM_cons, List.mapM_cons, ih fun j hj => hl j (List.mem_cons_of_mem _ hj),
        h i (hl i List.mem_cons_self)]
  unfold simpsE
  rw [e _ fun i hi => by rw [List.mem_range] at hi; omega]

theorem slide_linear (h : Sliding p q) (T : ℝ → ℝ) (k a : ℝ) :
    linearMatterPower p T k a = linearMatterPower q T k a := by
  have hn : p.n_s = q.n_s := by rw [h.same]
  have hs : p.sigma8 = q.sigma8 := by rw [h.same]
  have hv := sigmasqr_scaled (p := p) (q := q) (S := T) (T := T) (c := 1) hn (fun k => (one_mul _).symm) 8 1e-4 1e3
  unfold linearMatterPower
  simp only [slide_growthOf h, hs, primordialMatterPower, hn]
  rw [one_pow, one_mul] at hv
  rw [show sigmasqr p 8 T = sigmasqr q 8 T from by
    have := sigmasqr_scaled (p := p) (q := q) (S := T) (T := T) (c := 1) hn (fun k => (one_mul _).symm) 8
    simpa using this _ _]

/-- C156: nor do angular spectra, for power spectra that do not. -/
theorem C156_spectra (h : Sliding p q) {P : Params → ℝ → ℝ → (ℝ → ℝ) → Except PyErr ℝ} {T : ℝ → ℝ}
    (hP : ∀ k a, 0 < a → P p k a T = P q k a T) (ells : List ℝ) (probes : List Probe)
    (hz : ∀ z, probesZmax probes = .ok z → -1 < z) :
    angularCl p ells probes T P = angularCl q ells probes T P := by
  have hi : ∀ ell a, 0 < a → clIntegrand p T P probes ell a = clIntegrand q T P probes ell a := by
    intro ell a ha
    have hz : -1 < a2z a := by unfold a2z; have := one_div_pos.2 ha; linarith
    have hk : ∀ pr : Probe, pr.kernel p (a2z a) ell = pr.kernel q (a2z a) ell := fun pr => C156_kernels h pr hz ell
    unfold clIntegrand nonlinearMatterPower
    simp only [hP _ _ ha, slide_chiOf h, slide_dchioverda h ha, hk]
  have hs : ∀ ell zmax, -1 < zmax → simpsE (clIntegrand p T P probes ell) (z2a zmax) 1 512
      = simpsE (clIntegrand q T P probes ell) (z2a zmax) 1 512 := by
    intro ell zmax hz1
    have ha : 0 < z2a zmax := by unfold z2a; exact div_pos one_pos (by linarith)
    refine simpsE_congr fun i hi' => hi ell _ ?_
    rcases le_total (z2a zmax) 1 with h1 | h1
    · exact ha.trans_le (linspace_mem _ _ h1 512 i hi' (by norm_num)).1
    · have hi2 : (i : ℝ) ≤ 512 := by exact_mod_cast hi'
      rw [linspace_succ]
      have : (z2a zmax - 1) * (i / 512) ≤ (z2a zmax - 1) * 1 := by
        refine mul_le_mul_of_nonneg_left ?_ (by linarith)
        rw [div_le_one (by norm_num)]; exact hi2
      push_cast
      rw [show z2a zmax + i * ((1 - z2a zmax) / 512) = z2a zmax - (z2a zmax - 1) * (i / 512) by ring]
      linarith
  have hc : clAt p T P probes = clAt q T P probes := by
    funext ell
    unfold clAt
    cases hzm : probesZmax probes with
    | error e => simp only [bind, Except.bind]
    | ok zmax => simp only [bind, Except.bind, hs ell zmax (hz _ hzm)]
  unfold angularCl
  rw [hc]

/-- C156: in particular the spectra from the linear power spectrum, for every survey. -/
theorem C156_linear_spectra (h : Sliding p q) (T : ℝ → ℝ) (ells : List ℝ) (probes : List Probe)
    (hz : ∀ z, probesZmax probes = .ok z → -1 < z) :
    angularCl p ells probes T (fun p k a T => .ok (linearMatterPower p T k a))
      = angularCl q ells probes T (fun p k a T => .ok (linearMatterPower p T k a)) :=
  C156_spectra h (fun k a _ => by rw [slide_linear h]) ells probes hz

/-- C156: transverse distances are not the same. -/
theorem C156_transverse (h : Sliding p q) (hp : p.Omega_k = 0) (hq : 0 < q.Omega_k) {a : ℝ}
    (hchi : 0 < chiOf p a) :
    transverseOf p (chiOf p a) < transverseOf q (chiOf q a) := by
  rw [transverseOf_flat p hp, (C09_open q hq (chiOf q a) (by rw [← slide_chiOf h]; exact hchi.le)).1, ← slide_chiOf h]
  have hs := Real.sqrt_pos.2 hq
  have hr : 0 < const_rh := by norm_num [const_rh]
  have hx : 0 < Real.sqrt q.Omega_k * chiOf p a / const_rh := by positivity
  have := Real.self_lt_sinh_iff.2 hx
  calc chiOf p a = const_rh / Real.sqrt q.Omega_k * (Real.sqrt q.Omega_k * chiOf p a / const_rh) := by field_simp
    _ < _ := mul_lt_mul_of_pos_left this (by positivity)

/-- A flat universe in which the dark energy has `w = -1/3`. -/
noncomputable def stringy : Params := { Planck15 with w0 := -1 / 3 }

/-- The open universe that expands in the same way. -/
noncomputable def openStringy : Params := { stringy with Omega_k := 0.6 }

theorem stringy_sliding : Sliding stringy openStringy := ⟨rfl, rfl, rfl⟩

theorem stringy_pos : EsqrPos stringy := fun a ha _ => C05_Esqr_pos _ a ha
  (by norm_num [stringy, Planck15, Params.Omega_m]) (by norm_num [stringy, Planck15])
  (by norm_num [stringy, Planck15, Params.Omega_m, Params.Omega_de, Params.Omega])

/-- C156 as stated is false: two universes with different distances across the line of sight to
every source, in one of which light rays diverge, have the same linear spectra in every survey. -/
theorem C156_refuted : ¬ ∀ p q : Params,
    (∀ a, 0 < a → a < 1 → transverseOf p (chiOf p a) < transverseOf q (chiOf q a)) →
    ∃ (ells : List ℝ) (probes : List Probe) (T : ℝ → ℝ), (∀ z, probesZmax probes = .ok z → -1 < z) ∧
      angularCl p ells probes T (fun p k a T => .ok (linearMatterPower p T k a))
        ≠ angularCl q ells probes T (fun p k a T => .ok (linearMatterPower p T k a)) := by
  intro H
  obtain ⟨ells, probes, T, hz, hne⟩ := H stringy openStringy fun a h0 h1 =>
    C156_transverse stringy_sliding rfl (by norm_num [openStringy]) (C06_pos_before (by norm_num) (by norm_num) stringy_pos h1)
  exact hne (C156_linear_spectra stringy_sliding T ells probes hz)

end JaxCosmo
