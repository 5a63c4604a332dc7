import Verif.Spec.Background
import Verif.Props.Growth
import Mathlib.MeasureTheory.Integral.IntervalIntegral.FundThmCalculus

/-! # C70: the growth equation -/

namespace JaxCosmo
open Spec

/-- The expansion rate in units of today's. -/
noncomputable def expansion (p : Params) (a : ℝ) : ℝ := H p a / H p 1

theorem expansion_eq (p : Params) : expansion p = fun a => Real.sqrt (Esqr p a) := by
  funext a
  rw [expansion, C02_H_one, H, const_H0]
  ring

theorem Esqr_hasDerivAt (p : Params) {a : ℝ} (ha : 0 < a) :
    HasDerivAt (Esqr p) (-3 * p.Omega_m * a ^ (-4 : ℤ) - 2 * p.Omega_k * a ^ (-3 : ℤ)
      - 3 * (1 + w p a) / a * (p.Omega_de * Real.exp (f_de p a))) a := by
  have h1 := (hasDerivAt_zpow (-3) a (Or.inl ha.ne')).const_mul p.Omega_m
  have h2 := (hasDerivAt_zpow (-2) a (Or.inl ha.ne')).const_mul p.Omega_k
  have h := (h1.add h2).add (C04_density_rate p a ha)
  refine h.congr_deriv ?_
  norm_num
  ring

theorem expansion_hasDerivAt (p : Params) {a : ℝ} (ha : 0 < a) (hE : 0 < Esqr p a) :
    HasDerivAt (expansion p) ((-3 * p.Omega_m * a ^ (-4 : ℤ) - 2 * p.Omega_k * a ^ (-3 : ℤ)
      - 3 * (1 + w p a) / a * (p.Omega_de * Real.exp (f_de p a))) / (2 * Real.sqrt (Esqr p a))) a := by
  rw [expansion_eq]
  exact (Esqr_hasDerivAt p ha).sqrt hE.ne'

/-- The friction coefficient of the code is `(3 + d ln E / d ln a) / a`. -/
theorem friction_eq (p : Params) {a : ℝ} (ha : 0 < a) (hE : 0 < Esqr p a) :
    3 / a + deriv (expansion p) a / expansion p a = growthQ p a / a := by
  rw [(expansion_hasDerivAt p ha hE).deriv, expansion_eq]
  have hs : Real.sqrt (Esqr p a) * Real.sqrt (Esqr p a) = Esqr p a := Real.mul_self_sqrt hE.le
  have hs0 : Real.sqrt (Esqr p a) ≠ 0 := (Real.sqrt_pos.2 hE).ne'
  have hsum := C03_fractions_sum p a hE.ne'
  have e1 : ∀ X : ℝ, X / (2 * Real.sqrt (Esqr p a)) / Real.sqrt (Esqr p a) = X / (2 * Esqr p a) := by
    intro X; rw [div_div, mul_assoc, hs]
  simp only [e1]
  have hk : p.Omega_k * a ^ (-2 : ℤ) / Esqr p a = 1 - Omega_m_a p a - Omega_de_a p a := by linarith
  have h0 := ha.ne'
  have hE0 := hE.ne'
  have z4 : a ^ (-4 : ℤ) = a ^ (-3 : ℤ) / a := by
    rw [show (-4 : ℤ) = -3 - 1 by norm_num, zpow_sub_one₀ h0]; rfl
  have z3 : p.Omega_k * a ^ (-3 : ℤ) = p.Omega_k * a ^ (-2 : ℤ) / a := by
    rw [show (-3 : ℤ) = -2 - 1 by norm_num, zpow_sub_one₀ h0]; ring
  have e2 : (-3 * p.Omega_m * a ^ (-4 : ℤ) - 2 * p.Omega_k * a ^ (-3 : ℤ)
      - 3 * (1 + w p a) / a * (p.Omega_de * Real.exp (f_de p a))) / (2 * Esqr p a)
      = (-3 / 2 * Omega_m_a p a - p.Omega_k * a ^ (-2 : ℤ) / Esqr p a
        - 3 / 2 * (1 + w p a) * Omega_de_a p a) / a := by
    rw [mul_assoc 2, z3, z4, Omega_m_a, Omega_de_a]
    field_simp
  rw [e2, hk, growthQ]
  field_simp
  ring

/-- C70: the right-hand side that `_growth_factor_ODE` integrates is the linear growth equation, in
any universe (curved, with evolving dark energy) as long as `E² > 0`. -/
theorem C70_equation (p : Params) (y : ℝ × ℝ) {a : ℝ} (ha : 0 < a) (hE : 0 < Esqr p a) :
    growthDerivs p y a = (y.2, growthAcc (expansion p) p.Omega_m a y.1 y.2) := by
  have h2 : expansion p a ^ 2 = Esqr p a := by
    rw [expansion_eq]; exact Real.sq_sqrt hE.le
  rw [growthAcc, friction_eq p ha hE, h2, ← growthR_eq ha]
  rfl

/-- C70: so exact solutions of the equation are exactly the curves along which the code's
right-hand side is the velocity. -/
theorem C70_solutions (p : Params) (D D' : ℝ → ℝ) {a : ℝ} (ha : 0 < a) (hE : 0 < Esqr p a) :
    HasDerivAt (fun x => (D x, D' x)) (growthDerivs p (D a, D' a) a) a ↔
      HasDerivAt D (D' a) a ∧ HasDerivAt D' (growthAcc (expansion p) p.Omega_m a (D a) (D' a)) a := by
  rw [C70_equation p _ ha hE]
  constructor
  · intro h
    exact ⟨h.fst, h.snd⟩
  · rintro ⟨h1, h2⟩
    exact h1.prodMk h2

/-! ### Closed-form solutions with a cosmological constant -/

section Lambda
variable {p : Params}

theorem lambda_rate (h0 : p.w0 = -1) (h1 : p.wa = 0) {a : ℝ} (ha : 0 < a) (hE : 0 < Esqr p a) :
    HasDerivAt (expansion p)
      ((-3 * p.Omega_m / a ^ 4 - 2 * p.Omega_k / a ^ 3) / (2 * expansion p a)) a := by
  have h := expansion_hasDerivAt p ha hE
  rw [(C04_lambda_const p h0 h1 a).2] at h
  rw [expansion_eq] at h ⊢
  refine h.congr_deriv ?_
  rw [zpow_neg, zpow_neg, show a ^ (4 : ℤ) = a ^ 4 by norm_cast, show a ^ (3 : ℤ) = a ^ 3 by norm_cast]
  ring

theorem Esqr_pos_nhds {a : ℝ} (ha : 0 < a) (hE : 0 < Esqr p a) :
    ∀ᶠ x in nhds a, 0 < x ∧ 0 < Esqr p x :=
  (lt_mem_nhds ha).and ((Esqr_hasDerivAt p ha).continuousAt.eventually (lt_mem_nhds hE))

theorem expansion_pos {a : ℝ} (hE : 0 < Esqr p a) : 0 < expansion p a := by
  rw [expansion_eq]; exact Real.sqrt_pos.2 hE

/-- The second derivative of the expansion rate. -/
theorem lambda_acc (h0 : p.w0 = -1) (h1 : p.wa = 0) {a : ℝ} (ha : 0 < a) (hE : 0 < Esqr p a) :
    HasDerivAt (fun x => (-3 * p.Omega_m / x ^ 4 - 2 * p.Omega_k / x ^ 3) / (2 * expansion p x))
      (growthAcc (expansion p) p.Omega_m a (expansion p a)
        ((-3 * p.Omega_m / a ^ 4 - 2 * p.Omega_k / a ^ 3) / (2 * expansion p a))) a := by
  have hp := expansion_pos hE
  have e4 : HasDerivAt (fun x : ℝ => -3 * p.Omega_m / x ^ 4 - 2 * p.Omega_k / x ^ 3)
      (12 * p.Omega_m / a ^ 5 + 6 * p.Omega_k / a ^ 4) a := by
    have h4 := ((hasDerivAt_zpow (-4) a (Or.inl ha.ne')).const_mul (-3 * p.Omega_m)).sub
      ((hasDerivAt_zpow (-3) a (Or.inl ha.ne')).const_mul (2 * p.Omega_k))
    have ef : (fun x : ℝ => -3 * p.Omega_m / x ^ 4 - 2 * p.Omega_k / x ^ 3)
        = (fun x : ℝ => -3 * p.Omega_m * x ^ (-4 : ℤ)) - fun x : ℝ => 2 * p.Omega_k * x ^ (-3 : ℤ) := by
      funext x
      simp only [Pi.sub_apply]
      rw [zpow_neg, zpow_neg, show x ^ (4 : ℤ) = x ^ 4 by norm_cast,
        show x ^ (3 : ℤ) = x ^ 3 by norm_cast]
      rfl
    rw [ef]
    refine h4.congr_deriv ?_
    rw [show (-4 - 1 : ℤ) = -5 by norm_num, show (-3 - 1 : ℤ) = -4 by norm_num, zpow_neg, zpow_neg,
      show a ^ (5 : ℤ) = a ^ 5 by norm_cast, show a ^ (4 : ℤ) = a ^ 4 by norm_cast]
    push_cast
    ring
  have hr := lambda_rate h0 h1 ha hE
  refine (e4.div (hr.const_mul 2) (by positivity)).congr_deriv ?_
  rw [growthAcc, hr.deriv]
  have := ha.ne'
  have := hp.ne'
  field_simp
  ring

/-- C70: with a cosmological constant the expansion rate itself is a (decaying) solution, in any
curvature. -/
theorem C70_decaying (h0 : p.w0 = -1) (h1 : p.wa = 0) :
    IsGrowth (expansion p) p.Omega_m {a | 0 < a ∧ 0 < Esqr p a} (expansion p) := by
  rintro a ⟨ha, hE⟩
  refine ⟨_, ?_, lambda_acc h0 h1 ha hE⟩
  filter_upwards [Esqr_pos_nhds ha hE] with x hx
  exact lambda_rate h0 h1 hx.1 hx.2

/-- C70: and `E(a) ∫ da / (a E)³` is another (growing) solution. -/
theorem C70_growing (h0 : p.w0 = -1) (h1 : p.wa = 0) (hm : 0 < p.Omega_m) (hk : 0 ≤ p.Omega_k)
    (hde : 0 ≤ p.Omega_de) {a0 : ℝ} (ha0 : 0 < a0) :
    IsGrowth (expansion p) p.Omega_m (Set.Ioi 0)
      (fun a => expansion p a * ∫ x in a0..a, 1 / (x * expansion p x) ^ 3) := by
  have hpos : ∀ x, 0 < x → 0 < Esqr p x := fun x hx => C05_Esqr_pos p x hx hm hk hde
  have hcont : ContinuousOn (fun x => 1 / (x * expansion p x) ^ 3) (Set.Ioi 0) := by
    intro x hx
    have hx : 0 < x := hx
    have h := (lambda_rate h0 h1 hx (hpos x hx)).continuousAt
    have hne : (x * expansion p x) ^ 3 ≠ 0 := by
      have := expansion_pos (hpos x hx); positivity
    exact (continuousAt_const.div ((continuousAt_id.mul h).pow 3) hne).continuousWithinAt
  have hI : ∀ a, 0 < a → HasDerivAt (fun a => ∫ x in a0..a, 1 / (x * expansion p x) ^ 3)
      (1 / (a * expansion p a) ^ 3) a := by
    intro a ha
    have hsub : Set.uIcc a0 a ⊆ Set.Ioi 0 := by
      intro x hx
      exact lt_of_lt_of_le (lt_min ha0 ha) hx.1
    apply intervalIntegral.integral_hasDerivAt_right
      ((hcont.mono hsub).intervalIntegrable)
    · exact hcont.stronglyMeasurableAtFilter isOpen_Ioi a ha
    · exact hcont.continuousAt (Ioi_mem_nhds ha)
  intro a ha
  have ha : 0 < a := ha
  refine ⟨fun x => (-3 * p.Omega_m / x ^ 4 - 2 * p.Omega_k / x ^ 3) / (2 * expansion p x)
      * (∫ x in a0..x, 1 / (x * expansion p x) ^ 3) + expansion p x * (1 / (x * expansion p x) ^ 3),
    ?_, ?_⟩
  · filter_upwards [lt_mem_nhds ha] with x hx
    exact (lambda_rate h0 h1 hx (hpos x hx)).mul (hI x hx)
  · have hr := lambda_rate h0 h1 ha (hpos a ha)
    have hp := expansion_pos (hpos a ha)
    have hq : HasDerivAt (fun x => 1 / (x * expansion p x) ^ 3) (-(3 * (a * expansion p a) ^ 2
        * (expansion p a + a * ((-3 * p.Omega_m / a ^ 4 - 2 * p.Omega_k / a ^ 3)
          / (2 * expansion p a)))) / ((a * expansion p a) ^ 3) ^ 2) a := by
      have h3 := ((hasDerivAt_id a).mul hr).pow 3
      have h4 := (hasDerivAt_const a (1 : ℝ)).div h3
        (by simp only [Pi.pow_apply, Pi.mul_apply, id]; positivity)
      refine h4.congr_deriv ?_
      simp only [Pi.pow_apply, Pi.mul_apply, id]
      push_cast
      ring
    refine (((lambda_acc h0 h1 ha (hpos a ha)).mul (hI a ha)).add (hr.mul hq)).congr_deriv ?_
    simp only [growthAcc]
    rw [hr.deriv]
    generalize (∫ x in a0..a, 1 / (x * expansion p x) ^ 3) = I
    have := ha.ne'
    have := hp.ne'
    field_simp
    ring

end Lambda

/-- Witness: Planck15 satisfies the hypotheses, and there the two solutions exist. -/
example : IsGrowth (expansion Planck15) Planck15.Omega_m (Set.Ioi 0) (expansion Planck15) ∧
    IsGrowth (expansion Planck15) Planck15.Omega_m (Set.Ioi 0)
      (fun a => expansion Planck15 a * ∫ x in (1 : ℝ)..a, 1 / (x * expansion Planck15 x) ^ 3) := by
  have h := planck_physical
  refine ⟨fun a ha => ?_, ?_⟩
  · exact C70_decaying (by norm_num [Planck15]) (by norm_num [Planck15]) a
      ⟨ha, C05_Esqr_pos _ a ha h.m_pos h.k_nonneg h.de_nonneg⟩
  · exact C70_growing (by norm_num [Planck15]) (by norm_num [Planck15]) h.m_pos h.k_nonneg
      h.de_nonneg one_pos

/-- Witness: evolving dark energy in a curved universe, where the friction differs from that of
`w = -1`. -/
example (y : ℝ × ℝ) : growthDerivs ⟨0.25, 0.05, 0.7, 0.96, 0.8, 0.1, -0.9, 0.2, none⟩ y 1
    = (y.2, growthAcc (expansion ⟨0.25, 0.05, 0.7, 0.96, 0.8, 0.1, -0.9, 0.2, none⟩) 0.3 1 y.1 y.2) := by
  have := C70_equation ⟨0.25, 0.05, 0.7, 0.96, 0.8, 0.1, -0.9, 0.2, none⟩ y one_pos
    (by rw [C02_Esqr_one]; norm_num)
  rw [this]
  norm_num [Params.Omega_m]

end JaxCosmo
