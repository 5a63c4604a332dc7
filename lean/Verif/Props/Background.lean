import Verif.Model.Background
import Verif.Proofs.Tactics
import Mathlib.MeasureTheory.Integral.IntervalIntegral.FundThmCalculus
import Mathlib.Analysis.SpecialFunctions.Log.Deriv
import Mathlib.Analysis.Calculus.Deriv.MeanValue

/-! # C02–C05: closed-form background functions -/

namespace JaxCosmo

/-! ## C02 -/

/-- C02: the densities close today, for every parameter value. -/
theorem C02_Esqr_one (p : Params) : Esqr p 1 = 1 := by
  simp [Esqr, f_de, Params.Omega_de, Params.Omega]; ring

/-- C02: the Hubble rate today is 100 km/s/(Mpc/h), for every parameter value. -/
theorem C02_H_one (p : Params) : H p 1 = 100 := by
  simp [H, C02_Esqr_one, const_H0]

/-! ## C03 -/

/-- C03: the density fractions sum to one whenever `E²` is non-zero. -/
theorem C03_fractions_sum (p : Params) (a : ℝ) (hE : Esqr p a ≠ 0) :
    Omega_m_a p a + Omega_de_a p a + p.Omega_k * a ^ (-2 : ℤ) / Esqr p a = 1 := by
  unfold Omega_m_a Omega_de_a
  rw [← add_div, ← add_div, div_eq_one_iff_eq hE]
  unfold Esqr; ring

/-- `E² > 0` for `a > 0` when matter is present and nothing is negative. -/
theorem C05_Esqr_pos (p : Params) (a : ℝ) (ha : 0 < a) (hm : 0 < p.Omega_m) (hk : 0 ≤ p.Omega_k)
    (hde : 0 ≤ p.Omega_de) : 0 < Esqr p a := by
  unfold Esqr
  have h1 : 0 < p.Omega_m * a ^ (-3 : ℤ) := by positivity
  have h2 : 0 ≤ p.Omega_k * a ^ (-2 : ℤ) := by positivity
  have h3 : 0 ≤ p.Omega_de * Real.exp (f_de p a) := by positivity
  linarith

/-- C03: with non-negative densities each fraction lies in `[0, 1]`. -/
theorem C03_fractions_range (p : Params) (a : ℝ) (ha : 0 < a) (hE : Esqr p a ≠ 0)
    (hm : 0 ≤ p.Omega_m) (hk : 0 ≤ p.Omega_k) (hde : 0 ≤ p.Omega_de) :
    (0 ≤ Omega_m_a p a ∧ Omega_m_a p a ≤ 1) ∧ (0 ≤ Omega_de_a p a ∧ Omega_de_a p a ≤ 1) ∧
      (0 ≤ p.Omega_k * a ^ (-2 : ℤ) / Esqr p a ∧ p.Omega_k * a ^ (-2 : ℤ) / Esqr p a ≤ 1) := by
  have hsum := C03_fractions_sum p a hE
  have h1 : 0 ≤ p.Omega_m * a ^ (-3 : ℤ) := by positivity
  have h2 : 0 ≤ p.Omega_k * a ^ (-2 : ℤ) := by positivity
  have h3 : 0 ≤ p.Omega_de * Real.exp (f_de p a) := by positivity
  have hE0 : 0 ≤ Esqr p a := by unfold Esqr; linarith
  have a1 : 0 ≤ Omega_m_a p a := div_nonneg h1 hE0
  have a2 : 0 ≤ Omega_de_a p a := div_nonneg h3 hE0
  have a3 : 0 ≤ p.Omega_k * a ^ (-2 : ℤ) / Esqr p a := div_nonneg h2 hE0
  refine ⟨⟨a1, ?_⟩, ⟨a2, ?_⟩, a3, ?_⟩ <;> linarith

/-! ## C04 -/

/-- The derivative of `f_de` is `-3 (1 + w(a)) / a`. -/
theorem f_de_hasDerivAt (p : Params) (a : ℝ) (ha : a ≠ 0) :
    HasDerivAt (f_de p) (-3 * ((1 + w p a) / a)) a := by
  have h1 := ((Real.hasDerivAt_log ha).const_mul (-3 * (1 + p.w0 + p.wa)))
  have h2 := (((hasDerivAt_id a).sub_const 1).const_mul (3 * p.wa))
  have h := h1.add h2
  refine h.congr_deriv ?_
  unfold w; field_simp; ring

/-- C04: `f_de(a) = -3 ∫₁ᵃ (1 + w(a'))/a' da'`. -/
theorem C04_f_de_integral (p : Params) (a : ℝ) (ha : 0 < a) :
    f_de p a = -3 * ∫ x in (1 : ℝ)..a, (1 + w p x) / x := by
  have hsub : Set.uIcc 1 a ⊆ {x : ℝ | x ≠ 0} := by
    intro x hx
    have := (Set.uIcc_subset_Icc (a₂ := min 1 a) (b₂ := max 1 a)
      ⟨min_le_left _ _, le_max_left _ _⟩ ⟨min_le_right _ _, le_max_right _ _⟩ hx).1
    have h0 : 0 < min 1 a := lt_min one_pos ha
    exact (lt_of_lt_of_le h0 this).ne'
  have hcont : ContinuousOn (fun x => -3 * ((1 + w p x) / x)) (Set.uIcc 1 a) := by
    apply ContinuousOn.mul continuousOn_const
    apply ContinuousOn.div _ continuousOn_id (fun x hx => hsub hx)
    unfold w; fun_prop
  have h := intervalIntegral.integral_eq_sub_of_hasDerivAt (a := 1) (b := a) (f := f_de p)
    (f' := fun x => -3 * ((1 + w p x) / x)) (fun x hx => f_de_hasDerivAt p x (hsub hx))
    hcont.intervalIntegrable
  rw [intervalIntegral.integral_const_mul] at h
  rw [h]; simp [f_de]

/-- C04: the evolution is normalised today. -/
theorem C04_f_de_one (p : Params) : f_de p 1 = 0 := by simp [f_de]

/-- C04: a cosmological constant does not evolve: its density `Ω_de exp(f_de)` is the same at all
times. -/
theorem C04_lambda_const (p : Params) (h0 : p.w0 = -1) (ha : p.wa = 0) (a : ℝ) :
    p.Omega_de * Real.exp (f_de p a) = p.Omega_de ∧ w p a = -1 := by
  simp [f_de, w, h0, ha]

/-- C04: conversely, dark energy with `w ≠ -1` somewhere does evolve: the density changes at rate
`-3 (1 + w)/a` relative to itself. -/
theorem C04_density_rate (p : Params) (a : ℝ) (ha : 0 < a) :
    HasDerivAt (fun x => p.Omega_de * Real.exp (f_de p x))
      (-3 * (1 + w p a) / a * (p.Omega_de * Real.exp (f_de p a))) a := by
  have h := ((f_de_hasDerivAt p a ha.ne').exp).const_mul p.Omega_de
  refine h.congr_deriv ?_
  ring

/-! ## C05 -/

/-- C05: the Hubble rate is positive. -/
theorem C05_H_pos (p : Params) (a : ℝ) (ha : 0 < a) (hm : 0 < p.Omega_m) (hk : 0 ≤ p.Omega_k)
    (hde : 0 ≤ p.Omega_de) : 0 < H p a :=
  mul_pos (by norm_num [const_H0]) (Real.sqrt_pos.mpr (C05_Esqr_pos p a ha hm hk hde))

/-- `f_de` is non-increasing on `(0, 1]` when `w ≥ -1` there. -/
theorem f_de_antitone (p : Params) (hw : ∀ a, 0 < a → a ≤ 1 → -1 ≤ w p a) :
    AntitoneOn (f_de p) (Set.Ioc 0 1) := by
  apply antitoneOn_of_deriv_nonpos (convex_Ioc 0 1)
  · intro x hx; exact (f_de_hasDerivAt p x hx.1.ne').continuousAt.continuousWithinAt
  · intro x hx
    rw [interior_Ioc] at hx
    exact (f_de_hasDerivAt p x hx.1.ne').differentiableAt.differentiableWithinAt
  · intro x hx
    rw [interior_Ioc] at hx
    rw [(f_de_hasDerivAt p x hx.1.ne').deriv]
    have := hw x hx.1 hx.2.le
    have : 0 ≤ (1 + w p x) / x := div_nonneg (by linarith) hx.1.le
    linarith

/-- C05: with `w ≥ -1`, `E²` never increases with time. -/
theorem C05_Esqr_antitone (p : Params) (hm : 0 ≤ p.Omega_m) (hk : 0 ≤ p.Omega_k)
    (hde : 0 ≤ p.Omega_de) (hw : ∀ a, 0 < a → a ≤ 1 → -1 ≤ w p a) :
    AntitoneOn (Esqr p) (Set.Ioc 0 1) := by
  intro x hx y hy hxy
  have h3 : y ^ (-3 : ℤ) ≤ x ^ (-3 : ℤ) := by
    simp only [zpow_neg]
    exact inv_anti₀ (by have := hx.1; positivity) (by exact_mod_cast pow_le_pow_left₀ hx.1.le hxy 3)
  have h2 : y ^ (-2 : ℤ) ≤ x ^ (-2 : ℤ) := by
    simp only [zpow_neg]
    exact inv_anti₀ (by have := hx.1; positivity) (by exact_mod_cast pow_le_pow_left₀ hx.1.le hxy 2)
  have h1 : Real.exp (f_de p y) ≤ Real.exp (f_de p x) := Real.exp_le_exp.mpr (f_de_antitone p hw hx hy hxy)
  unfold Esqr
  gcongr

/-- C05: with `w ≥ -1`, the Hubble rate never increases with time, hence is at least 100 before
today. -/
theorem C05_H_antitone (p : Params) (hm : 0 ≤ p.Omega_m) (hk : 0 ≤ p.Omega_k)
    (hde : 0 ≤ p.Omega_de) (hw : ∀ a, 0 < a → a ≤ 1 → -1 ≤ w p a) :
    AntitoneOn (H p) (Set.Ioc 0 1) ∧ ∀ a, 0 < a → a ≤ 1 → 100 ≤ H p a := by
  have h : AntitoneOn (H p) (Set.Ioc 0 1) := by
    intro x hx y hy hxy
    exact mul_le_mul_of_nonneg_left
      (Real.sqrt_le_sqrt (C05_Esqr_antitone p hm hk hde hw hx hy hxy)) (by norm_num [const_H0])
  refine ⟨h, fun a h0 h1 => ?_⟩
  have := h ⟨h0, h1⟩ (by simp : (1 : ℝ) ∈ Set.Ioc 0 1) h1
  rwa [C02_H_one] at this

/-- Planck 2015 meets the hypotheses used above (matter present, flat, `w = -1`). -/
example : 0 < Planck15.Omega_m ∧ 0 ≤ Planck15.Omega_k ∧ 0 ≤ Planck15.Omega_de ∧
    (∀ a, 0 < a → a ≤ 1 → -1 ≤ w Planck15 a) ∧ Esqr Planck15 (1 / 2) ≠ 0 := by
  have hm : 0 < Planck15.Omega_m := by norm_num [Planck15, Params.Omega_m]
  have hk : 0 ≤ Planck15.Omega_k := by norm_num [Planck15]
  have hde : 0 ≤ Planck15.Omega_de := by
    norm_num [Planck15, Params.Omega_de, Params.Omega, Params.Omega_m]
  refine ⟨hm, hk, hde, ?_, (C05_Esqr_pos _ _ (by norm_num) hm hk hde).ne'⟩
  intro a _ _; norm_num [w, Planck15]

end JaxCosmo
