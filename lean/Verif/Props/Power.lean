import Verif.Model.Power
import Verif.Spec.Power
import Verif.Props.Romberg
import Verif.Props.Growth
import Mathlib.Analysis.SpecialFunctions.Trigonometric.Bounds
import Mathlib.Analysis.SpecialFunctions.ExpDeriv
import Mathlib.Analysis.Real.Pi.Bounds
import Mathlib.Analysis.Complex.ExponentialBounds
import Mathlib.MeasureTheory.Integral.IntervalIntegral.Basic

/-! # C39–C42: power spectra -/

namespace JaxCosmo
open Spec

/-! ## The variance integral -/

theorem rombLoop_eq (f : ℝ → ℝ) (a b : ℝ) (m : ℕ) :
    (rombLoop f a b m).2 m = romberg f a b m m := C24_state f a b m m le_rfl

theorem sigmaIntegrand_eq (p : Params) (T : ℝ → ℝ) (R t : ℝ) :
    sigmaIntegrand p T R t = varianceIntegrand (fun k => k ^ p.n_s * T k ^ 2) R t := by
  simp only [sigmaIntegrand, varianceIntegrand, tophat, primordialMatterPower]
  rw [show Real.exp t * R * (Real.exp t * R) * (Real.exp t * R) = (Real.exp t * R) ^ 3 by ring]
  ring

theorem sigmasqr_eq (p : Params) (T : ℝ → ℝ) (R kmin kmax : ℝ) :
    sigmasqr p R T kmin kmax = 1 / (2 * Real.pi ^ 2)
      * romberg (varianceIntegrand (fun k => k ^ p.n_s * T k ^ 2) R)
          (Real.logb 10 kmin) (Real.logb 10 kmax) 7 7 := by
  unfold sigmasqr
  simp only
  rw [rombLoop_eq, show (Real.pi ^ (2 : ℝ)) = Real.pi ^ 2 by norm_cast,
    show sigmaIntegrand p T R = varianceIntegrand (fun k => k ^ p.n_s * T k ^ 2) R from
      funext (sigmaIntegrand_eq p T R)]

theorem logb_default : Real.logb 10 0.0001 = -4 ∧ Real.logb 10 1000 = 3 := by
  constructor
  · rw [show (0.0001 : ℝ) = 10 ^ (-4 : ℝ) by
      rw [Real.rpow_neg (by norm_num), show (4 : ℝ) = ((4 : ℕ) : ℝ) by norm_num, Real.rpow_natCast]
      norm_num]
    exact Real.logb_rpow (by norm_num) (by norm_num)
  · rw [show (1000 : ℝ) = 10 ^ (3 : ℝ) by
      rw [show (3 : ℝ) = ((3 : ℕ) : ℝ) by norm_num, Real.rpow_natCast]
      norm_num]
    exact Real.logb_rpow (by norm_num) (by norm_num)

theorem varianceIntegrand_nonneg {P : ℝ → ℝ} (hP : ∀ k, 0 < k → 0 ≤ P k) (R t : ℝ) :
    0 ≤ varianceIntegrand P R t := by
  unfold varianceIntegrand
  have := hP _ (Real.exp_pos t)
  positivity

theorem primordial_nonneg (p : Params) (T : ℝ → ℝ) (k : ℝ) (hk : 0 < k) :
    0 ≤ k ^ p.n_s * T k ^ 2 := by positivity

theorem tophat_pos {x : ℝ} (h0 : 0 < x) (h1 : x < Real.pi / 2) : 0 < tophat x := by
  have h := Real.lt_tan h0 h1
  have hc : 0 < Real.cos x := Real.cos_pos_of_mem_Ioo ⟨by linarith, h1⟩
  rw [Real.tan_eq_sin_div_cos, lt_div_iff₀ hc] at h
  unfold tophat
  have : 0 < Real.sin x - x * Real.cos x := by linarith
  positivity

theorem exp_neg_four : Real.exp (-4) < 1 / 16 := by
  rw [Real.exp_neg, ← one_div]
  apply one_div_lt_one_div_of_lt (by norm_num)
  have h : (2 : ℝ) < Real.exp 1 := by have := Real.exp_one_gt_d9; linarith
  calc (16 : ℝ) = 2 ^ 4 := by norm_num
    _ < Real.exp 1 ^ 4 := pow_lt_pow_left₀ h (by norm_num) (by norm_num)
    _ = Real.exp 4 := by rw [← Real.exp_nat_mul]; norm_num

/-- The variance computed by the library is never negative. -/
theorem sigmasqr_nonneg (p : Params) (T : ℝ → ℝ) (R : ℝ) : 0 ≤ sigmasqr p R T := by
  rw [sigmasqr_eq, logb_default.1, logb_default.2]
  refine mul_nonneg (by positivity) ?_
  have h := romberg_lower (f := varianceIntegrand (fun k => k ^ p.n_s * T k ^ 2) R)
    (a := -4) (b := 3) (by norm_num)
    (fun t _ _ => varianceIntegrand_nonneg (primordial_nonneg p T) R t) 7
  have h' := trapezoid_nonneg (f := varianceIntegrand (fun k => k ^ p.n_s * T k ^ 2) R)
    (a := -4) (b := 3) (by norm_num)
    (fun t _ _ => varianceIntegrand_nonneg (primordial_nonneg p T) R t) (2 ^ 7)
  exact le_trans (by positivity) h

/-- It is positive at `R = 8` as soon as the transfer function does not vanish at the lower end of
the range. -/
theorem sigmasqr_pos (p : Params) (T : ℝ → ℝ) (hT : T (Real.exp (-4)) ≠ 0) :
    0 < sigmasqr p 8 T := by
  rw [sigmasqr_eq, logb_default.1, logb_default.2]
  refine mul_pos (by positivity) (romberg_pos (by norm_num)
    (fun t _ _ => varianceIntegrand_nonneg (primordial_nonneg p T) 8 t) ?_ 7)
  unfold varianceIntegrand
  have h1 := exp_neg_four
  have h2 := Real.exp_pos (-4)
  have h3 := tophat_pos (x := Real.exp (-4) * 8) (by positivity)
    (by have := Real.pi_gt_three; linarith)
  have h4 : 0 < T (Real.exp (-4)) ^ 2 := by positivity
  positivity

/-! ## C39 -/

/-- C39: the variance of the returned `z = 0` linear power spectrum, computed with the library's
own quadrature in a sphere of radius `8 Mpc/h`, is `sigma8²`.  `growth(1) = 1` holds for every
physical cosmology (`C10_one`, `C10_one_gamma`). -/
theorem C39_sigma8 (p : Params) (T : ℝ → ℝ) (hg : growthOf p 1 = 1) (hs : sigmasqr p 8 T ≠ 0) :
    ∃ v, romb (varianceIntegrand (fun k => linearMatterPower p T k 1) 8)
        (Real.logb 10 0.0001) (Real.logb 10 1000) 7 = .ok v ∧
      1 / (2 * Real.pi ^ 2) * v = p.sigma8 ^ 2 := by
  refine ⟨_, C24_tableau _ _ _ _ (by norm_num), ?_⟩
  have e : varianceIntegrand (fun k => linearMatterPower p T k 1) 8
      = fun t => (p.sigma8 ^ 2 / sigmasqr p 8 T)
          * varianceIntegrand (fun k => k ^ p.n_s * T k ^ 2) 8 t + 0 * 0 := by
    funext t
    simp only [varianceIntegrand, linearMatterPower, hg, primordialMatterPower]
    ring
  rw [e, romberg_linear _ (fun _ => 0)]
  have := sigmasqr_eq p T 8 0.0001 1000
  rw [zero_mul, add_zero, mul_left_comm, ← this, div_mul_cancel₀ _ hs]

/-- C39: the variance is non-zero for every transfer function that does not vanish at the lower
end of the integration range, so the normalisation is well defined. -/
theorem C39_normalisable (p : Params) (T : ℝ → ℝ) (hT : T (Real.exp (-4)) ≠ 0) :
    sigmasqr p 8 T ≠ 0 := (sigmasqr_pos p T hT).ne'

/-- C39: rescaling the transfer function by a constant changes nothing. -/
theorem C39_rescale (p : Params) (T : ℝ → ℝ) (c k a : ℝ) (hc : c ≠ 0) :
    linearMatterPower p (fun k => c * T k) k a = linearMatterPower p T k a := by
  have e : sigmasqr p 8 (fun k => c * T k) = c ^ 2 * sigmasqr p 8 T := by
    rw [sigmasqr_eq, sigmasqr_eq]
    have : varianceIntegrand (fun k => k ^ p.n_s * (c * T k) ^ 2) 8
        = fun t => c ^ 2 * varianceIntegrand (fun k => k ^ p.n_s * T k ^ 2) 8 t + 0 * 0 := by
      funext t; simp only [varianceIntegrand]; ring
    rw [this, romberg_linear _ (fun _ => 0)]; ring
  simp only [linearMatterPower]
  rw [e]
  rcases eq_or_ne (sigmasqr p 8 T) 0 with h0 | h0
  · simp [h0]
  · field_simp

/-- Witness: constant transfer function in the Planck 2015 cosmology. -/
example : ∃ v, romb (varianceIntegrand (fun k => linearMatterPower Planck15 (fun _ => 3) k 1) 8)
        (Real.logb 10 0.0001) (Real.logb 10 1000) 7 = .ok v ∧
      1 / (2 * Real.pi ^ 2) * v = Planck15.sigma8 ^ 2 :=
  C39_sigma8 _ _ (C10_one _ planck_physical) (C39_normalisable _ _ (by norm_num))

/-! ## C40 -/

/-- C40: the linear spectrum at scale factor `a` is the one today times the growth squared. -/
theorem C40_growth (p : Params) (T : ℝ → ℝ) (k a : ℝ) (hg : growthOf p 1 = 1) :
    linearMatterPower p T k a = growthOf p a ^ 2 * linearMatterPower p T k 1 := by
  simp only [linearMatterPower, hg]; ring

/-- C40: it is proportional to `sigma8²`. -/
theorem C40_sigma8 (p : Params) (T : ℝ → ℝ) (k a s : ℝ) :
    linearMatterPower { p with sigma8 := s * p.sigma8 } T k a = s ^ 2 * linearMatterPower p T k a := by
  have e1 : growthOf { p with sigma8 := s * p.sigma8 } a = growthOf p a := rfl
  have e2 : sigmasqr { p with sigma8 := s * p.sigma8 } 8 T = sigmasqr p 8 T := rfl
  simp only [linearMatterPower, e1, e2, primordialMatterPower]
  ring

/-- C40: it is non-negative for every positive wavenumber. -/
theorem C40_nonneg (p : Params) (T : ℝ → ℝ) (k a : ℝ) (hk : 0 < k) :
    0 ≤ linearMatterPower p T k a := by
  simp only [linearMatterPower, primordialMatterPower]
  have := sigmasqr_nonneg p T 8
  positivity

/-- C40: it is positive where transfer function, growth and `sigma8` do not vanish. -/
theorem C40_pos (p : Params) (T : ℝ → ℝ) (k a : ℝ) (hk : 0 < k) (hT : T k ≠ 0)
    (hg : growthOf p a ≠ 0) (h8 : p.sigma8 ≠ 0) (hs : T (Real.exp (-4)) ≠ 0) :
    0 < linearMatterPower p T k a := by
  simp only [linearMatterPower, primordialMatterPower]
  have := sigmasqr_pos p T hs
  positivity

/-- C40: it never exceeds its value today. -/
theorem C40_le_today (p : Params) (T : ℝ → ℝ) (k a : ℝ) (hk : 0 < k) (hg : growthOf p 1 = 1) :
    linearMatterPower p T k a ≤ linearMatterPower p T k 1 := by
  rw [C40_growth p T k a hg]
  obtain ⟨h0, h1⟩ := C10_range p a
  have := C40_nonneg p T k 1 hk
  exact mul_le_of_le_one_left this (pow_le_one₀ h0 h1)

/-- Witness: positivity in the Planck cosmology today. -/
example : 0 < linearMatterPower Planck15 (fun k => 1 / (1 + k ^ 2)) 0.1 1 :=
  C40_pos _ _ _ _ (by norm_num) (by norm_num)
    (by rw [C10_one _ planck_physical]; norm_num) (by norm_num [Planck15])
    (by have : (0 : ℝ) < 1 + Real.exp (-4) ^ 2 := by positivity
        positivity)

/-! ## C41 -/

/-- C41 (integrand only): `sigmasqr` is the Romberg value of the correct integrand, in `ln k`, but
between `log10 kmin` and `log10 kmax` instead of `ln kmin` and `ln kmax`.  Missing from C41: the
range of wavenumbers, which is wrong (`C41_range`, `C41_refuted`). -/
theorem C41_integrand_partial (p : Params) (T : ℝ → ℝ) (R kmin kmax : ℝ) :
    ∃ v, romb (varianceIntegrand (fun k => k ^ p.n_s * T k ^ 2) R)
        (Real.log kmin / Real.log 10) (Real.log kmax / Real.log 10) 7 = .ok v ∧
      sigmasqr p R T kmin kmax = 1 / (2 * Real.pi ^ 2) * v :=
  ⟨_, C24_tableau _ _ _ _ (by norm_num), sigmasqr_eq p T R kmin kmax⟩

/-- C41: the wavenumber actually reached at the end `kmin` is `kmin^(1/ln 10)`; it equals `kmin`
only for `kmin = 1`. -/
theorem C41_range (kmin : ℝ) (hk : 0 < kmin) :
    Real.exp (Real.logb 10 kmin) = kmin ^ (1 / Real.log 10) ∧
      (Real.exp (Real.logb 10 kmin) = kmin ↔ kmin = 1) := by
  have h10 : 1 < Real.log 10 := by
    rw [Real.lt_log_iff_exp_lt (by norm_num)]
    have := Real.exp_one_lt_d9; linarith
  constructor
  · rw [Real.rpow_def_of_pos hk, Real.logb]; ring_nf
  · constructor
    · intro h
      have h1 := congrArg Real.log h
      rw [Real.log_exp, Real.logb, div_eq_iff (by linarith)] at h1
      have : Real.log kmin = 0 := by
        have : Real.log kmin * (Real.log 10 - 1) = 0 := by linarith
        rcases mul_eq_zero.1 this with h | h
        · exact h
        · linarith
      exact Real.eq_one_of_pos_of_log_eq_zero hk this
    · rintro rfl; simp

/-- C41 fails: in every cosmology there is a continuous transfer function with power between
`kmin = 1e-4` and `kmax = 1e3` (the integral is positive) for which `sigmasqr` returns zero. -/
theorem C41_refuted (p : Params) : ∃ T : ℝ → ℝ, Continuous T ∧ sigmasqr p 8 T 0.0001 1000 = 0 ∧
    0 < 1 / (2 * Real.pi ^ 2) * ∫ t in (Real.log 0.0001)..(Real.log 1000),
      varianceIntegrand (fun k => k ^ p.n_s * T k ^ 2) 8 t := by
  set T : ℝ → ℝ := fun k => max 0 (Real.exp (-4) - k) with hTdef
  have hTc : Continuous T := continuous_const.max (continuous_const.sub continuous_id)
  refine ⟨T, hTc, ?_, ?_⟩
  · rw [sigmasqr_eq, logb_default.1, logb_default.2]
    have hz : ∀ t, (-4 : ℝ) ≤ t → varianceIntegrand (fun k => k ^ p.n_s * T k ^ 2) 8 t = 0 := by
      intro t ht
      have : T (Real.exp t) = 0 := by
        rw [hTdef]
        exact max_eq_left (sub_nonpos.2 (Real.exp_le_exp.2 ht))
      simp [varianceIntegrand, this]
    have hr := C24_tableau (varianceIntegrand (fun k => k ^ p.n_s * T k ^ 2) 8) (-4) 3 7
      (by norm_num)
    have h0 := C24_linear _ _ 0 0 (-4) 3 7 hr hr
    have h1 := C24_mono (a := (-4 : ℝ)) (b := 3) (by norm_num)
      (fun t ht _ => by rw [hz t ht]; simp) hr h0
    have h2 := C24_mono (a := (-4 : ℝ)) (b := 3) (by norm_num)
      (fun t ht _ => by rw [hz t ht]; simp) h0 hr
    simp only [zero_mul, add_zero] at h1 h2
    rw [le_antisymm h1 h2, mul_zero]
  · refine mul_pos (by positivity) ?_
    have hlog : Real.log 0.0001 < Real.log 1000 := Real.log_lt_log (by norm_num) (by norm_num)
    refine intervalIntegral.integral_pos hlog ?_ ?_ ?_
    · apply Continuous.continuousOn
      unfold varianceIntegrand tophat
      have he := Real.continuous_exp
      have hne : ∀ t : ℝ, (Real.exp t * 8) ^ 3 ≠ 0 := fun t => by positivity
      have h8 : Continuous fun t : ℝ => Real.exp t * 8 := he.mul continuous_const
      refine ((he.pow 3).mul ((he.rpow_const fun t => Or.inl (Real.exp_pos t).ne').mul
        ((hTc.comp he).pow 2))).mul ?_
      refine Continuous.pow ?_ 2
      exact (continuous_const.mul ((Real.continuous_sin.comp h8).sub
        (h8.mul (Real.continuous_cos.comp h8)))).div (h8.pow 3) hne
    · intro t _
      exact varianceIntegrand_nonneg (primordial_nonneg p T) 8 t
    · refine ⟨Real.log 0.0001, ⟨le_rfl, hlog.le⟩, ?_⟩
      have e : Real.exp (Real.log 0.0001) = 0.0001 := Real.exp_log (by norm_num)
      have h1 : (0.0001 : ℝ) < Real.exp (-4) := by
        rw [Real.exp_neg, ← one_div, lt_one_div (by norm_num) (Real.exp_pos _)]
        have h : Real.exp 1 < 3 := by have := Real.exp_one_lt_d9; linarith
        calc Real.exp 4 = Real.exp 1 ^ 4 := by rw [← Real.exp_nat_mul]; norm_num
          _ < 3 ^ 4 := pow_lt_pow_left₀ h (Real.exp_pos 1).le (by norm_num)
          _ < 1 / 0.0001 := by norm_num
      have h2 : 0 < T 0.0001 := lt_max_of_lt_right (sub_pos.2 h1)
      have h3 := tophat_pos (x := (0.0001 : ℝ) * 8) (by norm_num)
        (by have := Real.pi_gt_three; linarith)
      unfold varianceIntegrand
      rw [e]
      positivity

/-! ## C42 -/

/-- Positivity of the assembled spectrum when the coefficients have the right signs. -/
theorem assemble_pos {k pklin knl : ℝ} {c : Halofit.Coeffs} {f1 f2 f3 : ℝ} (hk : 0 < k)
    (hp : 0 ≤ pklin) (hn : 0 < knl) (ha : 0 < c.a_n) (hb : 0 < c.b_n) (hc : 0 < c.c_n)
    (hα : 0 ≤ c.alpha_n) (hμ : 0 ≤ c.mu_n) (hν : 0 < c.nu_n) (h3 : 0 < f3) :
    0 < Halofit.assemble k pklin knl c (f1, f2, f3) := by
  unfold Halofit.assemble
  simp only
  have hpi := Real.pi_pos
  have hd : 0 ≤ k ^ 3 * pklin / (2 * Real.pi ^ 2) := by positivity
  have hy : 0 < k / knl := by positivity
  generalize k ^ 3 * pklin / (2 * Real.pi ^ 2) = d at *
  generalize k / knl = y at *
  have h1 : 0 < (1 + d) ^ c.beta_n := Real.rpow_pos_of_pos (by linarith) _
  have h2 : 0 < 1 + c.alpha_n * d := by positivity
  have h4 : 0 < (c.c_n * f3 * y) ^ (3 - c.gamma_n) := Real.rpow_pos_of_pos (by positivity) _
  have h5 : 0 < y ^ f2 := Real.rpow_pos_of_pos hy _
  have h6 : 0 < y ^ (3 * f1) := Real.rpow_pos_of_pos hy _
  have h7 := Real.exp_pos (-(y / 4 + y ^ 2 / 8))
  positivity

/-- C42: the non-linear scale lies in `(0, 1e6]`. -/
theorem C42_k_nl (p : Params) (T : ℝ → ℝ) (a : ℝ) :
    0 < Halofit.k_nl p T a ∧ Halofit.k_nl p T a ≤ 1e6 := by
  have h : (1e-6 : ℝ) ≤ Halofit.R_nl p T a := le_max_right _ _
  have h0 : (0 : ℝ) < Halofit.R_nl p T a := lt_of_lt_of_le (by norm_num) h
  unfold Halofit.k_nl
  refine ⟨by positivity, ?_⟩
  rw [div_le_iff₀ h0]
  have : (1e6 : ℝ) * 1e-6 ≤ 1e6 * Halofit.R_nl p T a := mul_le_mul_of_nonneg_left h (by norm_num)
  calc (1 : ℝ) = 1e6 * 1e-6 := by norm_num
    _ ≤ _ := this

/-- C42: with the Takahashi prescription the non-linear spectrum is strictly positive whenever
`Omega_m(a)` is, for every transfer function. -/
theorem C42_takahashi_pos (p : Params) (k a : ℝ) (T : ℝ → ℝ) (hk : 0 < k)
    (hm : 0 < Omega_m_a p a) :
    ∃ v, halofit p k a T "takahashi2012" = .ok v ∧ 0 < v := by
  refine ⟨Halofit.assemble k (linearMatterPower p T k a) (Halofit.k_nl p T a)
    (Halofit.takahashi2012 (Halofit.n_eff p T a) (Halofit.curv p T a) (Omega_de_a p a) (w p a))
    (Halofit.fTakahashi (Omega_m_a p a)), ?_, ?_⟩
  · unfold halofit
    simp only [String.reduceEq, if_false, if_true]
  · have hpow : ∀ x : ℝ, 0 < (10 : ℝ) ^ x := fun x => Real.rpow_pos_of_pos (by norm_num) x
    exact assemble_pos hk (C40_nonneg p T k a hk) (C42_k_nl p T a).1 (hpow _) (hpow _) (hpow _) (abs_nonneg _) le_rfl
      (hpow _) (Real.rpow_pos_of_pos hm _)

/-- C42: with the original Smith et al. prescription the same holds where the fitted `alpha_n` is
not negative (it can be, for steep spectra) and the dark energy weights are positive. -/
theorem C42_smith_pos (p : Params) (k a : ℝ) (T : ℝ → ℝ) (hk : 0 < k)
    (hm : 0 < Omega_m_a p a)
    (hα : 0 ≤ 1.3884 + 0.3700 * Halofit.n_eff p T a - 0.1452 * Halofit.n_eff p T a ^ 2)
    (hf : 0 ≤ Omega_de_a p a / (1 - Omega_m_a p a) ∧ Omega_de_a p a / (1 - Omega_m_a p a) ≤ 1) :
    ∃ v, halofit p k a T "smith2003" = .ok v ∧ 0 < v := by
  refine ⟨Halofit.assemble k (linearMatterPower p T k a) (Halofit.k_nl p T a)
    (Halofit.smith2003 (Halofit.n_eff p T a) (Halofit.curv p T a))
    (Halofit.fSmith (Omega_m_a p a) (Omega_de_a p a / (1 - Omega_m_a p a))), ?_, ?_⟩
  · unfold halofit
    simp only [if_true]
  · have hpow : ∀ x : ℝ, 0 < (10 : ℝ) ^ x := fun x => Real.rpow_pos_of_pos (by norm_num) x
    refine assemble_pos hk (C40_nonneg p T k a hk) (C42_k_nl p T a).1 (hpow _) (hpow _) (hpow _) hα (hpow _).le
      (hpow _) ?_
    have h1 : 0 < Omega_m_a p a ^ (0.0743 : ℝ) := Real.rpow_pos_of_pos hm _
    have h2 : 0 < Omega_m_a p a ^ (0.0725 : ℝ) := Real.rpow_pos_of_pos hm _
    obtain ⟨h3, h4⟩ := hf
    rcases h3.eq_or_lt with h | h
    · rw [← h]; simpa using h2
    · have := mul_pos h h1
      have := mul_nonneg (sub_nonneg.2 h4) h2.le
      linarith

/-- C42: any other prescription is rejected. -/
theorem C42_unknown (p : Params) (k a : ℝ) (T : ℝ → ℝ) (s : String) (h1 : s ≠ "smith2003")
    (h2 : s ≠ "takahashi2012") : halofit p k a T s = .error .notImplementedError := by
  simp [halofit, h1, h2]

/-- C42: with `nonlinear_fn = linear` the non-linear spectrum is the linear one. -/
theorem C42_linear (p : Params) (k a : ℝ) (T : ℝ → ℝ) :
    nonlinearMatterPower p k a T linear = .ok (linearMatterPower p T k a) := rfl

/-- C42: by default it is halofit with the Takahashi prescription, hence positive. -/
theorem C42_default (p : Params) (k a : ℝ) (T : ℝ → ℝ) (hk : 0 < k)
    (hm : 0 < Omega_m_a p a) :
    ∃ v, nonlinearMatterPower p k a T = .ok v ∧ 0 < v := C42_takahashi_pos p k a T hk hm

/-- Witness: the Planck cosmology today with a constant transfer function. -/
example : ∃ v, nonlinearMatterPower Planck15 0.1 1 (fun _ => 1) = .ok v ∧ 0 < v := by
  refine C42_default _ _ _ _ (by norm_num) ?_
  have hE := planck_physical.esqrPos 1 one_pos le_rfl
  have := planck_physical.m_pos
  unfold Omega_m_a
  positivity

end JaxCosmo
