import Verif.Proofs.Accuracy
import Verif.Props.TableConvergence

/-! # How fast the integrand of the comoving distance varies in `ln a` -/

namespace JaxCosmo
open Spec Set

variable {p : Params}

/-- The conditions of the accuracy bounds: positive densities and dark energy between a cosmological
constant and radiation, `-1 ≤ w ≤ 1/3`. -/
structure Mild (p : Params) : Prop where
  phys : Physical p
  w_le : ∀ a, 0 < a → a ≤ 1 → w p a ≤ 1 / 3

/-- `2 x + f_de`: the logarithm of the dark energy part of `(a E)²`. -/
noncomputable def deExp (p : Params) (x : ℝ) : ℝ := 2 * x + f_de p (Real.exp x)

/-- `(a E)²` as a function of `x = ln a`. -/
noncomputable def aE2 (p : Params) (x : ℝ) : ℝ :=
  p.Omega_m * Real.exp (-x) + p.Omega_k + p.Omega_de * Real.exp (deExp p x)

theorem aE2_eq (p : Params) (x : ℝ) : aE2 p x = Real.exp x ^ 2 * Esqr p (Real.exp x) := by
  have h := (Real.exp_pos x).ne'
  unfold aE2 Esqr deExp
  rw [Real.exp_neg, Real.exp_add, show (2 : ℝ) * x = x + x by ring, Real.exp_add, zpow_neg, zpow_neg]
  norm_cast
  field_simp

theorem aE2_pos (hp : Physical p) (x : ℝ) : 0 < aE2 p x := by
  rw [aE2_eq]
  exact mul_pos (pow_pos (Real.exp_pos x) 2)
    (C05_Esqr_pos p _ (Real.exp_pos x) hp.m_pos hp.k_nonneg hp.de_nonneg)

theorem chiRate_aE2 (p : Params) (x : ℝ) : chiRate p x = const_rh / Real.sqrt (aE2 p x) := by
  have h := Real.exp_pos x
  rw [chiRate_eq, aE2_eq, Real.sqrt_mul (by positivity), Real.sqrt_sq h.le, Real.exp_neg]
  rw [div_eq_mul_inv, div_eq_mul_inv, mul_inv, mul_assoc]

/-- Slope of `deExp`. -/
noncomputable def deSlope (p : Params) (x : ℝ) : ℝ := -1 - 3 * w p (Real.exp x)

theorem deExp_deriv (p : Params) (x : ℝ) : HasDerivAt (deExp p) (deSlope p x) x := by
  have e : deExp p = fun x => (2 - 3 * (1 + p.w0 + p.wa)) * x + 3 * p.wa * (Real.exp x - 1) := by
    funext x; unfold deExp f_de; rw [Real.log_exp]; ring
  rw [e]
  refine (((hasDerivAt_id x).const_mul _).add (((Real.hasDerivAt_exp x).sub_const 1).const_mul _)).congr_deriv ?_
  unfold deSlope w
  ring

theorem deSlope_deriv (p : Params) (x : ℝ) : HasDerivAt (deSlope p) (3 * p.wa * Real.exp x) x := by
  have e : deSlope p = fun x => (-1 - 3 * (p.w0 + p.wa)) + 3 * p.wa * Real.exp x := by
    funext x; unfold deSlope w; ring
  rw [e]
  exact ((Real.hasDerivAt_exp x).const_mul _).const_add _

theorem deSlope_abs (hp : Mild p) {x : ℝ} (hx : x ≤ 0) : |deSlope p x| ≤ 2 := by
  have h1 := hp.phys.w_range _ (Real.exp_pos x) (Real.exp_le_one_iff.2 hx)
  have h2 := hp.w_le _ (Real.exp_pos x) (Real.exp_le_one_iff.2 hx)
  unfold deSlope
  rw [abs_le]
  constructor <;> linarith

noncomputable def aE2' (p : Params) (x : ℝ) : ℝ :=
  -(p.Omega_m * Real.exp (-x)) + p.Omega_de * (deSlope p x * Real.exp (deExp p x))

noncomputable def aE2'' (p : Params) (x : ℝ) : ℝ :=
  p.Omega_m * Real.exp (-x) + p.Omega_de * ((deSlope p x ^ 2 + 3 * p.wa * Real.exp x) * Real.exp (deExp p x))

theorem exp_neg_deriv (x : ℝ) : HasDerivAt (fun x => Real.exp (-x)) (-Real.exp (-x)) x :=
  (((hasDerivAt_id x).neg).exp).congr_deriv (by simp)

theorem aE2_deriv (p : Params) (x : ℝ) : HasDerivAt (aE2 p) (aE2' p x) x := by
  refine ((((exp_neg_deriv x).const_mul p.Omega_m).add_const p.Omega_k).add
    (((deExp_deriv p x).exp).const_mul p.Omega_de)).congr_deriv ?_
  unfold aE2'
  ring

theorem aE2'_deriv (p : Params) (x : ℝ) : HasDerivAt (aE2' p) (aE2'' p x) x := by
  refine ((((exp_neg_deriv x).const_mul p.Omega_m).neg).add
    ((((deSlope_deriv p x).mul (deExp_deriv p x).exp)).const_mul p.Omega_de)).congr_deriv ?_
  unfold aE2''
  ring

theorem aE2'_abs (hp : Mild p) {x : ℝ} (hx : x ≤ 0) : |aE2' p x| ≤ 2 * aE2 p x := by
  have hs := abs_le.1 (deSlope_abs hp hx)
  have a : 0 < p.Omega_m * Real.exp (-x) := mul_pos hp.phys.m_pos (Real.exp_pos _)
  have b : 0 ≤ p.Omega_de * Real.exp (deExp p x) := mul_nonneg hp.phys.de_nonneg (Real.exp_pos _).le
  have k := hp.phys.k_nonneg
  unfold aE2' aE2
  rw [abs_le]
  constructor <;> nlinarith

theorem rateLog_le (hp : Mild p) {x : ℝ} (hx : x ≤ 0) :
    |3 / 4 * aE2' p x ^ 2 - 1 / 2 * aE2'' p x * aE2 p x| ≤ (2 + 3 / 2 * |p.wa|) * aE2 p x ^ 2 := by
  have hs := abs_le.1 (deSlope_abs hp hx)
  have hG := aE2_pos hp.phys x
  have he : Real.exp x ≤ 1 := Real.exp_le_one_iff.2 hx
  have he0 := Real.exp_pos x
  unfold aE2' aE2'' aE2 at *
  set A := p.Omega_m * Real.exp (-x) with hA
  set X := Real.exp (deExp p x) with hX
  set B := p.Omega_de * X with hB
  set s := deSlope p x
  have a : 0 < A := mul_pos hp.phys.m_pos (Real.exp_pos _)
  have b : 0 ≤ B := mul_nonneg hp.phys.de_nonneg (Real.exp_pos _).le
  have k := hp.phys.k_nonneg
  set G := A + p.Omega_k + B with hGdef
  have e1 : p.Omega_de * (s * X) = s * B := by rw [hB]; ring
  have e2 : p.Omega_de * ((s ^ 2 + 3 * p.wa * Real.exp x) * X) = (s ^ 2 + 3 * p.wa * Real.exp x) * B := by rw [hB]; ring
  rw [e1, e2]
  have s4 : s ^ 2 ≤ 4 := by nlinarith [hs.1, hs.2]
  -- Cauchy-Schwarz
  have cs : (-A + s * B) ^ 2 ≤ G * (A + s ^ 2 * B) := by
    have : (-A + s * B) ^ 2 ≤ (A + B) * (A + s ^ 2 * B) := by nlinarith [mul_nonneg (mul_nonneg a.le b) (sq_nonneg (1 + s))]
    refine this.trans (mul_le_mul_of_nonneg_right (by linarith) ?_)
    positivity
  have S4 : A + s ^ 2 * B ≤ 4 * G := by nlinarith
  have S0 : 0 ≤ A + s ^ 2 * B := by positivity
  have t : |3 * p.wa * Real.exp x * B| ≤ 3 * |p.wa| * G := by
    rw [abs_mul, abs_mul, abs_mul, abs_of_pos he0, abs_of_nonneg b, abs_of_pos (by norm_num : (0 : ℝ) < 3)]
    have hBG : B ≤ G := by linarith
    have : Real.exp x * B ≤ 1 * G := mul_le_mul he hBG b zero_le_one
    nlinarith [abs_nonneg p.wa]
  have t' := abs_le.1 t
  have sp : A + (s ^ 2 + 3 * p.wa * Real.exp x) * B = (A + s ^ 2 * B) + 3 * p.wa * Real.exp x * B := by ring
  rw [sp]
  set S := A + s ^ 2 * B
  set Q := 3 * p.wa * Real.exp x * B
  have q1 := mul_le_mul_of_nonneg_right t'.1 hG.le
  have q2 := mul_le_mul_of_nonneg_right t'.2 hG.le
  have r1 := mul_le_mul_of_nonneg_right S4 hG.le
  have r0 := mul_nonneg S0 hG.le
  rw [abs_le]
  constructor
  · nlinarith [sq_nonneg (-A + s * B)]
  · nlinarith

/-- First derivative of the integrand. -/
noncomputable def rate' (p : Params) (x : ℝ) : ℝ := chiRate p x * (-(aE2' p x) / (2 * aE2 p x))

/-- Second derivative of the integrand. -/
noncomputable def rate'' (p : Params) (x : ℝ) : ℝ :=
  chiRate p x * ((3 / 4 * aE2' p x ^ 2 - 1 / 2 * aE2'' p x * aE2 p x) / aE2 p x ^ 2)

theorem rate_pos (hp : Physical p) (x : ℝ) : 0 < chiRate p x := by
  rw [chiRate_aE2]
  exact div_pos (by norm_num [const_rh]) (Real.sqrt_pos.2 (aE2_pos hp x))

theorem rate_deriv (hp : Physical p) (x : ℝ) : HasDerivAt (chiRate p) (rate' p x) x := by
  have hG := aE2_pos hp x
  have hs := Real.sqrt_pos.2 hG
  rw [show chiRate p = fun x => const_rh / Real.sqrt (aE2 p x) from funext (chiRate_aE2 p)]
  refine (((hasDerivAt_const x const_rh).div ((aE2_deriv p x).sqrt hG.ne') hs.ne')).congr_deriv ?_
  unfold rate'
  rw [chiRate_aE2]
  have hq := Real.sq_sqrt hG.le
  have : aE2 p x = Real.sqrt (aE2 p x) ^ 2 := hq.symm
  rw [hq]
  field_simp
  ring

theorem rate'_deriv (hp : Physical p) (x : ℝ) : HasDerivAt (rate' p) (rate'' p x) x := by
  have hG := aE2_pos hp x
  refine ((rate_deriv hp x).mul (((aE2'_deriv p x).neg).div ((aE2_deriv p x).const_mul 2)
    (by positivity))).congr_deriv ?_
  simp only [Pi.neg_apply, Pi.div_apply]
  unfold rate'' rate'
  field_simp
  ring

theorem rate''_abs (hp : Mild p) {x : ℝ} (hx : x ≤ 0) :
    |rate'' p x| ≤ (2 + 3 / 2 * |p.wa|) * chiRate p x := by
  have hG := aE2_pos hp.phys x
  have hr := rate_pos hp.phys x
  unfold rate''
  rw [abs_mul, abs_of_pos hr, abs_div, abs_of_pos (pow_pos hG 2), mul_comm]
  refine mul_le_mul_of_nonneg_right ?_ hr.le
  rw [div_le_iff₀ (pow_pos hG 2)]
  exact rateLog_le hp hx

theorem aE2_exp_mono (hp : Mild p) : MonotoneOn (fun x => aE2 p x * Real.exp (2 * x)) (Iic 0) ∧
    AntitoneOn (fun x => aE2 p x * Real.exp (-2 * x)) (Iic 0) := by
  have d : ∀ c x : ℝ, HasDerivAt (fun x => aE2 p x * Real.exp (c * x))
      ((aE2' p x + c * aE2 p x) * Real.exp (c * x)) x := fun c x =>
    ((aE2_deriv p x).mul (((hasDerivAt_id x).const_mul c).exp)).congr_deriv (by simp only [id]; ring)
  constructor
  · refine monotoneOn_of_deriv_nonneg (convex_Iic 0) (fun x _ => (d 2 x).continuousAt.continuousWithinAt)
      (fun x _ => (d 2 x).differentiableAt.differentiableWithinAt) (fun x hx => ?_)
    rw [(d 2 x).deriv]
    rw [interior_Iic] at hx
    exact mul_nonneg (by linarith [(abs_le.1 (aE2'_abs hp (le_of_lt hx))).1]) (Real.exp_pos _).le
  · refine antitoneOn_of_deriv_nonpos (convex_Iic 0) (fun x _ => (d (-2) x).continuousAt.continuousWithinAt)
      (fun x _ => (d (-2) x).differentiableAt.differentiableWithinAt) (fun x hx => ?_)
    rw [(d (-2) x).deriv]
    rw [interior_Iic] at hx
    exact mul_nonpos_of_nonpos_of_nonneg (by linarith [(abs_le.1 (aE2'_abs hp (le_of_lt hx))).2]) (Real.exp_pos _).le

/-- The integrand changes by at most a factor `e^{|x-y|}`. -/
theorem rate_ratio (hp : Mild p) {x y : ℝ} (hxy : x ≤ y) (hy : y ≤ 0) :
    chiRate p y ≤ Real.exp (y - x) * chiRate p x ∧ chiRate p x ≤ Real.exp (y - x) * chiRate p y := by
  obtain ⟨h1, h2⟩ := aE2_exp_mono hp
  have a := h1 (hxy.trans hy) hy hxy
  have b := h2 (hxy.trans hy) hy hxy
  simp only at a b
  have Gx := aE2_pos hp.phys x
  have Gy := aE2_pos hp.phys y
  have key : ∀ u v : ℝ, 0 < aE2 p u → 0 < aE2 p v → aE2 p u ≤ aE2 p v * Real.exp (2 * (y - x)) →
      chiRate p v ≤ Real.exp (y - x) * chiRate p u := by
    intro u v hu hv h
    rw [chiRate_aE2, chiRate_aE2]
    have : Real.sqrt (aE2 p u) ≤ Real.sqrt (aE2 p v) * Real.exp (y - x) := by
      rw [Real.sqrt_le_left (by positivity), mul_pow, Real.sq_sqrt hv.le, ← Real.exp_nat_mul]
      exact_mod_cast h
    rw [div_le_iff₀ (Real.sqrt_pos.2 hv)]
    have hr : (0 : ℝ) < const_rh := by norm_num [const_rh]
    have su := Real.sqrt_pos.2 hu
    rw [show Real.exp (y - x) * (const_rh / √(aE2 p u)) * √(aE2 p v)
      = const_rh * (√(aE2 p v) * Real.exp (y - x)) / √(aE2 p u) by ring, le_div_iff₀ su]
    exact mul_le_mul_of_nonneg_left this hr.le
  constructor
  · refine key x y Gx Gy ?_
    have := mul_le_mul_of_nonneg_right a (Real.exp_pos (-(2 * x))).le
    rw [mul_assoc, mul_assoc, ← Real.exp_add, ← Real.exp_add, add_neg_cancel, Real.exp_zero, mul_one] at this
    refine this.trans_eq ?_
    congr 2; ring
  · refine key y x Gy Gx ?_
    have := mul_le_mul_of_nonneg_right b (Real.exp_pos (2 * y)).le
    rw [mul_assoc, mul_assoc, ← Real.exp_add, ← Real.exp_add, show -2 * y + 2 * y = 0 by ring, Real.exp_zero, mul_one] at this
    refine this.trans_eq ?_
    congr 2; ring

end JaxCosmo
