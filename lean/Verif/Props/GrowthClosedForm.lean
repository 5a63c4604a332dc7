import Verif.Spec.ClosedForm
import Verif.Props.TableConvergence
import Mathlib.Analysis.SpecialFunctions.Integrals.Basic

/-! # C99: the growth factor with a cosmological constant

With `w = -1` the growth equation is solved by integrals.  The code starts its solution at the
first node with `D = a`, `D' = 1`; this is the growing mode plus a decaying admixture, whose
effect on the normalised growth factor is bounded explicitly. -/

namespace JaxCosmo
open Spec Set

section Closed
variable {p : Params} (h0 : p.w0 = -1) (h1 : p.wa = 0) (hm : 0 < p.Omega_m) (hk : 0 ≤ p.Omega_k)
  (hde : 0 ≤ p.Omega_de)

/-- The derivative of the expansion rate. -/
noncomputable def rateE (p : Params) (a : ℝ) : ℝ :=
  (-3 * p.Omega_m / a ^ 4 - 2 * p.Omega_k / a ^ 3) / (2 * expansion p a)

/-- `∫ dx / (x E)³` from `b`. -/
noncomputable def heathInt (p : Params) (b a : ℝ) : ℝ := ∫ x in b..a, 1 / (x * expansion p x) ^ 3

include h0 h1 hm hk hde

theorem heath_cont : ContinuousOn (fun x => 1 / (x * expansion p x) ^ 3) (Ioi 0) := by
  intro x hx
  have hx : 0 < x := hx
  have hpos := C05_Esqr_pos p x hx hm hk hde
  have h := (lambda_rate h0 h1 hx hpos).continuousAt
  have hne : (x * expansion p x) ^ 3 ≠ 0 := by
    have := expansion_pos hpos; positivity
  exact (continuousAt_const.div ((continuousAt_id.mul h).pow 3) hne).continuousWithinAt

theorem heathInt_hasDerivAt {b a : ℝ} (hb : 0 < b) (ha : 0 < a) :
    HasDerivAt (heathInt p b) (1 / (a * expansion p a) ^ 3) a := by
  have hcont := heath_cont h0 h1 hm hk hde
  have hsub : uIcc b a ⊆ Ioi 0 := fun x hx => lt_of_lt_of_le (lt_min hb ha) hx.1
  exact intervalIntegral.integral_hasDerivAt_right (hcont.mono hsub).intervalIntegrable
    (hcont.stronglyMeasurableAtFilter isOpen_Ioi a ha) (hcont.continuousAt (Ioi_mem_nhds ha))

/-- C99: every combination of the decaying and the growing integral solves the equation. -/
theorem C99_general {b : ℝ} (hb : 0 < b) (c d : ℝ) :
    IsGrowthOn (expansion p) p.Omega_m b 1 (fun a => expansion p a * (d + c * heathInt p b a))
      (fun a => rateE p a * (d + c * heathInt p b a) + c * (expansion p a * (1 / (a * expansion p a) ^ 3))) := by
  intro a hab
  have ha : 0 < a := hb.trans_le hab.1
  have hpos := C05_Esqr_pos p a ha hm hk hde
  have hr : HasDerivAt (expansion p) (rateE p a) a := lambda_rate h0 h1 ha hpos
  have hr' : HasDerivAt (rateE p) (growthAcc (expansion p) p.Omega_m a (expansion p a) (rateE p a)) a :=
    lambda_acc h0 h1 ha hpos
  have hI := heathInt_hasDerivAt h0 h1 hm hk hde hb ha
  have hp := expansion_pos hpos
  have hq : HasDerivAt (fun x => 1 / (x * expansion p x) ^ 3) (-(3 * (a * expansion p a) ^ 2
      * (expansion p a + a * rateE p a)) / ((a * expansion p a) ^ 3) ^ 2) a := by
    have h3 := ((hasDerivAt_id a).mul hr).pow 3
    have h4 := (hasDerivAt_const a (1 : ℝ)).div h3
      (by simp only [Pi.pow_apply, Pi.mul_apply, id]; positivity)
    refine h4.congr_deriv ?_
    simp only [Pi.pow_apply, Pi.mul_apply, id]
    push_cast
    ring
  have hL := (hI.const_mul c).const_add d
  refine ⟨((hr.mul hL).congr_deriv ?_).hasDerivWithinAt,
    (((hr'.mul hL).add ((hr.mul hq).const_mul c)).congr_deriv ?_).hasDerivWithinAt⟩
  · ring
  · simp only [growthAcc]
    rw [hr.deriv]
    generalize heathInt p b a = I
    generalize rateE p a = R
    have := ha.ne'
    have := hp.ne'
    field_simp
    ring

/-- `a³ E²` as a polynomial. -/
noncomputable def polyE (p : Params) (x : ℝ) : ℝ := p.Omega_m + p.Omega_k * x + p.Omega_de * x ^ 3

omit hm hk hde in
theorem polyE_eq {x : ℝ} (hx : 0 < x) : polyE p x = x ^ 3 * Esqr p x := by
  rw [polyE, Esqr, (C04_lambda_const p h0 h1 x).1, zpow_neg, zpow_neg,
    show x ^ (3 : ℤ) = x ^ 3 by norm_cast, show x ^ (2 : ℤ) = x ^ 2 by norm_cast]
  field_simp

omit h0 h1 hm in
theorem polyE_mono {x y : ℝ} (hx : 0 ≤ x) (hxy : x ≤ y) : polyE p x ≤ polyE p y := by
  unfold polyE
  gcongr

omit h0 h1 hm in
theorem polyE_ge {x : ℝ} (hx : 0 ≤ x) : p.Omega_m ≤ polyE p x := by
  unfold polyE
  have h2 := mul_nonneg hk hx
  have h3 := mul_nonneg hde (pow_nonneg hx 3)
  linarith

omit hm hk hde in
theorem sqrt_polyE {x : ℝ} (hx : 0 < x) : Real.sqrt (polyE p x) = Real.sqrt x * (x * expansion p x) := by
  rw [polyE_eq h0 h1 hx, expansion_eq, show x ^ 3 * Esqr p x = x * (x ^ 2 * Esqr p x) by ring,
    Real.sqrt_mul hx.le, Real.sqrt_mul (by positivity), Real.sqrt_sq hx.le]

omit hm hk hde in
theorem heath_integrand {x : ℝ} (hx : 0 ≤ x) :
    1 / (x * expansion p x) ^ 3 = Real.sqrt x ^ 3 / Real.sqrt (polyE p x) ^ 3 := by
  rcases hx.eq_or_lt with rfl | hx
  · simp
  · have h := Real.sqrt_pos.2 hx
    rw [sqrt_polyE h0 h1 hx, mul_pow (Real.sqrt x), div_mul_eq_div_div (Real.sqrt x ^ 3),
      div_self (by positivity)]

theorem heath_integrable {a b : ℝ} (ha : 0 ≤ a) (hb : 0 ≤ b) :
    IntervalIntegrable (fun x => 1 / (x * expansion p x) ^ 3) MeasureTheory.volume a b := by
  have hsub : uIcc a b ⊆ Ici 0 := fun x hx => (le_min ha hb).trans hx.1
  have e : ContinuousOn (fun x => Real.sqrt x ^ 3 / Real.sqrt (polyE p x) ^ 3) (uIcc a b) := by
    refine ContinuousOn.div (by fun_prop) (by unfold polyE; fun_prop) fun x hx => ?_
    have := Real.sqrt_pos.2 (hm.trans_le (polyE_ge hk hde (hsub hx)))
    positivity
  exact (e.congr fun x hx => heath_integrand h0 h1 (hsub hx)).intervalIntegrable

omit h0 h1 hm hk hde in
theorem sqrt_cube_integral {a b : ℝ} (ha : 0 ≤ a) (hab : a ≤ b) :
    ∫ x in a..b, Real.sqrt x ^ 3 = 2 / 5 * (Real.sqrt b ^ 5 - Real.sqrt a ^ 5) := by
  have e : ∀ x : ℝ, 0 ≤ x → ∀ k : ℕ, Real.sqrt x ^ k = x ^ ((k : ℝ) / 2) := fun x hx k => by
    rw [Real.sqrt_eq_rpow, ← Real.rpow_natCast, ← Real.rpow_mul hx]; ring_nf
  have hc : ∫ x in a..b, Real.sqrt x ^ 3 = ∫ x in a..b, x ^ ((3 : ℝ) / 2) := by
    refine intervalIntegral.integral_congr fun x hx => ?_
    rw [uIcc_of_le hab] at hx
    exact (e x (ha.trans hx.1) 3).trans (by norm_num)
  rw [hc, integral_rpow (Or.inl (by norm_num)), e b (ha.trans hab), e a ha]
  norm_num
  ring

theorem heathInt_le {a b : ℝ} (ha : 0 ≤ a) (hab : a ≤ b) :
    heathInt p a b ≤ 2 / 5 * (Real.sqrt b ^ 5 - Real.sqrt a ^ 5) / Real.sqrt p.Omega_m ^ 3 := by
  rw [← sqrt_cube_integral ha hab, ← intervalIntegral.integral_div]
  refine intervalIntegral.integral_mono_on hab (heath_integrable h0 h1 hm hk hde ha (ha.trans hab))
    (Continuous.intervalIntegrable (by fun_prop) _ _) fun x hx => ?_
  have hx0 := ha.trans hx.1
  rw [heath_integrand h0 h1 hx0]
  have := Real.sqrt_pos.2 hm
  have := Real.sqrt_le_sqrt (polyE_ge hk hde hx0)
  gcongr

theorem le_heathInt {a b : ℝ} (ha : 0 ≤ a) (hab : a ≤ b) :
    2 / 5 * (Real.sqrt b ^ 5 - Real.sqrt a ^ 5) / Real.sqrt (polyE p b) ^ 3 ≤ heathInt p a b := by
  rw [← sqrt_cube_integral ha hab, ← intervalIntegral.integral_div]
  refine intervalIntegral.integral_mono_on hab (Continuous.intervalIntegrable (by fun_prop) _ _)
    (heath_integrable h0 h1 hm hk hde ha (ha.trans hab)) fun x hx => ?_
  have hx0 := ha.trans hx.1
  rw [heath_integrand h0 h1 hx0]
  have := Real.sqrt_pos.2 (hm.trans_le (polyE_ge hk hde hx0))
  have := Real.sqrt_le_sqrt (polyE_mono hk hde hx0 hx.2)
  gcongr

/-- C99: the exact growth factor with the code's initial values, in closed form. -/
theorem C99_closed {b : ℝ} (hb : 0 < b) (hb1 : b < 1) {D D' : ℝ → ℝ}
    (hD : IsGrowthOn (expansion p) p.Omega_m b 1 D D') (hi : D b = b) (hi' : D' b = 1) :
    ∀ a ∈ Icc b 1, D a = expansion p a * (b / expansion p b
      + (1 - b * deriv (expansion p) b / expansion p b) * b ^ 3 * expansion p b ^ 2
        * ∫ x in b..a, 1 / (x * expansion p x) ^ 3) := by
  have hE : EsqrPos p := fun x hx _ => C05_Esqr_pos p x hx hm hk hde
  have hp := expansion_pos (hE b hb hb1.le)
  have hr : HasDerivAt (expansion p) (rateE p b) b := lambda_rate h0 h1 hb (hE b hb hb1.le)
  rw [hr.deriv]
  have hI0 : heathInt p b b = 0 := intervalIntegral.integral_same
  intro a ha
  refine (C90_unique hb hE hb1 hD (C99_general h0 h1 hm hk hde hb _ _) ?_ ?_ a ha).1
  · simp only [hI0]
    rw [hi]
    field_simp
    ring
  · simp only [hI0]
    rw [hi']
    field_simp
    ring

/-- The ratio of curvature and dark energy to matter at scale factor `b`:
`(Ω_k b + Ω_Λ b³) / Ω_m`. -/
noncomputable def nonMatter (p : Params) (b : ℝ) : ℝ :=
  (p.Omega_k * b + p.Omega_de * b ^ 3) / p.Omega_m

omit h0 h1 hm hk hde in
theorem admixture_scalar {Om t κ c b M m e q I0 : ℝ} (hOm : 0 < Om) (hb : 0 < b) (hq : 0 < q)
    (hqb : q ^ 2 = b) (hm : 0 < m) (hm2 : m ^ 2 = Om) (hM : 0 < M) (hM2 : M ^ 2 = Om * (1 + t))
    (hκ : 0 ≤ κ) (hκt : κ ≤ t) (hc : c = Om * (5 / 2 + t + κ)) (he : e = M / q ^ 3)
    (hlo : 2 / 5 * q ^ 5 / M ^ 3 ≤ I0) (hhi : I0 ≤ 2 / 5 * q ^ 5 / m ^ 3) :
    |b - c * e * I0| ≤ b * t * (13 / 10 + 2 / 5 * t) := by
  have ht : 0 ≤ t := hκ.trans hκt
  have hce : 0 < c * e := by rw [hc, he]; positivity
  have h1 : c * e * I0 ≤ b * ((1 + 4 / 5 * t) * (1 + t / 2)) := by
    have hMm : M ≤ m * (1 + t / 2) := by
      refine le_of_sq_le_sq ?_ (by positivity)
      rw [hM2, mul_pow, hm2]
      nlinarith [mul_nonneg hOm.le (sq_nonneg t)]
    calc c * e * I0 ≤ c * e * (2 / 5 * q ^ 5 / m ^ 3) := mul_le_mul_of_nonneg_left hhi hce.le
      _ = b * (1 + 2 / 5 * (t + κ)) * (M / m) := by
        rw [hc, he, ← hm2, ← hqb]; field_simp; ring
      _ ≤ b * (1 + 4 / 5 * t) * (1 + t / 2) := by
        have : M / m ≤ 1 + t / 2 := by rw [div_le_iff₀ hm]; linarith
        have h3 : 1 + 2 / 5 * (t + κ) ≤ 1 + 4 / 5 * t := by linarith
        gcongr
      _ = _ := by ring
  have h2 : b * (1 - 3 / 5 * t) ≤ c * e * I0 := by
    calc b * (1 - 3 / 5 * t) ≤ b * ((1 + 2 / 5 * (t + κ)) / (1 + t)) := by
          refine mul_le_mul_of_nonneg_left ?_ hb.le
          rw [le_div_iff₀ (by positivity)]
          nlinarith [sq_nonneg t]
      _ = c * e * (2 / 5 * q ^ 5 / M ^ 3) := by
        have : M ^ 3 = M * (Om * (1 + t)) := by rw [← hM2]; ring
        rw [this, hc, he, ← hqb]
        field_simp
        ring
      _ ≤ _ := mul_le_mul_of_nonneg_left hlo hce.le
  have h4 : 0 ≤ b * t := by positivity
  rw [abs_le]
  constructor
  · nlinarith [mul_nonneg h4 ht]
  · nlinarith [mul_nonneg h4 ht]

/-- The growing-mode amplitude of the code's solution. -/
noncomputable def growAmp (p : Params) (b : ℝ) : ℝ :=
  polyE p b + (3 * p.Omega_m + 2 * p.Omega_k * b) / 2

omit hm hk hde in
theorem growAmp_eq {b : ℝ} (hb : 0 < b) (hE : 0 < Esqr p b) :
    (1 - b * deriv (expansion p) b / expansion p b) * b ^ 3 * expansion p b ^ 2 = growAmp p b := by
  have hp := expansion_pos hE
  have h2 : expansion p b ^ 2 = Esqr p b := by rw [expansion_eq]; exact Real.sq_sqrt hE.le
  rw [(lambda_rate h0 h1 hb hE).deriv, growAmp, polyE_eq h0 h1 hb, ← h2]
  field_simp
  ring

theorem decaying_small {b : ℝ} (hb : 0 < b) :
    |b - growAmp p b * expansion p b * heathInt p 0 b|
      ≤ b * nonMatter p b * (13 / 10 + 2 / 5 * nonMatter p b) := by
  have hq := Real.sqrt_pos.2 hb
  have hP := hm.trans_le (polyE_ge hk hde hb.le)
  have hkb : 0 ≤ p.Omega_k * b := mul_nonneg hk hb.le
  have hdb : 0 ≤ p.Omega_de * b ^ 3 := mul_nonneg hde (by positivity)
  have hlo := le_heathInt h0 h1 hm hk hde le_rfl hb.le
  have hhi := heathInt_le h0 h1 hm hk hde le_rfl hb.le
  rw [Real.sqrt_zero, zero_pow (by norm_num), sub_zero] at hlo hhi
  refine admixture_scalar (κ := p.Omega_k * b / p.Omega_m) hm hb hq (Real.sq_sqrt hb.le)
    (Real.sqrt_pos.2 hm) (Real.sq_sqrt hm.le) (Real.sqrt_pos.2 hP) ?_ (by positivity) ?_ ?_ ?_ hlo hhi
  · rw [Real.sq_sqrt hP.le, nonMatter, polyE]; field_simp; ring
  · rw [nonMatter]; gcongr; linarith
  · rw [growAmp, nonMatter, polyE]; field_simp; ring
  · rw [sqrt_polyE h0 h1 hb, show Real.sqrt b ^ 3 = Real.sqrt b * Real.sqrt b ^ 2 by ring,
      Real.sq_sqrt hb.le]
    field_simp

omit h0 h1 hm hk hde in
theorem polyE_one : polyE p 1 = 1 := by
  rw [polyE, Params.Omega_de, Params.Omega]; ring

omit h0 h1 hm hk hde in
theorem expansion_one : expansion p 1 = 1 := by
  rw [expansion_eq]; simp [C02_Esqr_one]

omit hm hde in
theorem expansion_anti {a b : ℝ} (hb : 0 < b) (hab : b ≤ a) (hm : 0 ≤ p.Omega_m) :
    expansion p a ≤ expansion p b := by
  have ha := hb.trans_le hab
  rw [expansion_eq]
  refine Real.sqrt_le_sqrt ?_
  rw [Esqr, Esqr, (C04_lambda_const p h0 h1 a).1, (C04_lambda_const p h0 h1 b).1, zpow_neg, zpow_neg,
    zpow_neg, zpow_neg]
  norm_cast
  gcongr

theorem start_lower {b : ℝ} (hb : 0 < b) (hb1 : b < 1) :
    p.Omega_m ≤ b / expansion p b + growAmp p b * heathInt p b 1 := by
  have hq := Real.sqrt_pos.2 hb
  have hP := hm.trans_le (polyE_ge hk hde hb.le)
  have hM := Real.sqrt_pos.2 hP
  have hM1 : Real.sqrt (polyE p b) ≤ 1 := by
    rw [← Real.sqrt_one, ← polyE_one (p := p)]
    exact Real.sqrt_le_sqrt (polyE_mono hk hde hb.le hb1.le)
  have hE := expansion_pos (C05_Esqr_pos p b hb hm hk hde)
  have hI := le_heathInt h0 h1 hm hk hde hb.le hb1.le
  rw [polyE_one, Real.sqrt_one, one_pow, one_pow, div_one] at hI
  have hOm1 : p.Omega_m ≤ 1 := by
    have := polyE_ge hk hde (zero_le_one (α := ℝ)); rwa [polyE_one] at this
  have hq1 : Real.sqrt b ^ 5 ≤ 1 := pow_le_one₀ hq.le (Real.sqrt_le_one.2 hb1.le)
  have hA : 5 / 2 * p.Omega_m ≤ growAmp p b := by
    have := polyE_ge hk hde hb.le
    have := mul_nonneg hk hb.le
    rw [growAmp]; linarith
  have hI0 : 0 ≤ heathInt p b 1 := le_trans (by nlinarith) hI
  have h2 : p.Omega_m * (1 - Real.sqrt b ^ 5) ≤ growAmp p b * heathInt p b 1 := by
    calc p.Omega_m * (1 - Real.sqrt b ^ 5)
        = 5 / 2 * p.Omega_m * (2 / 5 * (1 - Real.sqrt b ^ 5)) := by ring
      _ ≤ 5 / 2 * p.Omega_m * heathInt p b 1 := by gcongr
      _ ≤ _ := by gcongr
  have h3 : Real.sqrt b ^ 5 ≤ b / expansion p b := by
    rw [le_div_iff₀ hE]
    calc Real.sqrt b ^ 5 * expansion p b
        = Real.sqrt b ^ 2 * (Real.sqrt b * (Real.sqrt b ^ 2 * expansion p b)) := by ring
      _ = b * Real.sqrt (polyE p b) := by rw [Real.sq_sqrt hb.le, sqrt_polyE h0 h1 hb]
      _ ≤ b * 1 := by gcongr
      _ = b := mul_one b
  have h4 : p.Omega_m * Real.sqrt b ^ 5 ≤ Real.sqrt b ^ 5 :=
    mul_le_of_le_one_left (by positivity) hOm1
  rw [mul_sub, mul_one] at h2
  linarith only [h2, h3, h4]

/-- C99: after normalisation the solution that the code approximates is the growing mode, up to an
explicit error due to starting with `D = a`, `D' = 1` at the finite scale factor `b`.  In a flat
universe it is of order `b⁴`. -/
theorem C99_admixture {b : ℝ} (hb : 0 < b) (hb1 : b < 1) {D D' : ℝ → ℝ}
    (hD : IsGrowthOn (expansion p) p.Omega_m b 1 D D') (hi : D b = b) (hi' : D' b = 1) :
    ∀ a ∈ Icc b 1, |D a / D 1 - heath (expansion p) a / heath (expansion p) 1|
      ≤ b * nonMatter p b * (13 / 10 + 2 / 5 * nonMatter p b) / p.Omega_m := by
  intro a ha
  have ha0 := hb.trans_le ha.1
  have hpos : ∀ x, 0 < x → 0 < Esqr p x := fun x hx => C05_Esqr_pos p x hx hm hk hde
  have hcl := C99_closed h0 h1 hm hk hde hb hb1 hD hi hi'
  have hEb := expansion_pos (hpos b hb)
  have hEa := expansion_pos (hpos a ha0)
  have hsplit : ∀ x, b ≤ x → (∫ y in b..x, 1 / (y * expansion p y) ^ 3)
      = heathInt p 0 x - heathInt p 0 b := fun x hx => by
    rw [heathInt, heathInt, intervalIntegral.integral_interval_sub_left
      (heath_integrable h0 h1 hm hk hde le_rfl (hb.le.trans hx))
      (heath_integrable h0 h1 hm hk hde le_rfl hb.le)]
  have hI1 : 0 < heathInt p 0 1 := by
    have := le_heathInt h0 h1 hm hk hde le_rfl (zero_le_one (α := ℝ))
    rw [polyE_one] at this
    norm_num at this
    linarith
  have hIa : heathInt p 0 a ≤ heathInt p 0 1 ∧ 0 ≤ heathInt p 0 a := by
    have h2 : ∀ x y, 0 ≤ x → x ≤ y → 0 ≤ ∫ z in x..y, 1 / (z * expansion p z) ^ 3 := fun x y hx hxy =>
      intervalIntegral.integral_nonneg hxy fun z hz => by
        rw [heath_integrand h0 h1 (hx.trans hz.1)]; positivity
    have h3 := h2 a 1 ha0.le ha.2
    rw [← intervalIntegral.integral_interval_sub_left
      (heath_integrable h0 h1 hm hk hde le_rfl zero_le_one)
      (heath_integrable h0 h1 hm hk hde le_rfl ha0.le)] at h3
    exact ⟨sub_nonneg.1 h3, h2 0 a le_rfl ha0.le⟩
  have hds := decaying_small h0 h1 hm hk hde hb
  have hst := start_lower h0 h1 hm hk hde hb hb1
  have hanti := expansion_anti h0 h1 hk hb ha.1 hm.le
  have hDa := hcl a ha
  have hD1 := hcl 1 (right_mem_Icc.2 hb1.le)
  rw [growAmp_eq h0 h1 hb (hpos b hb), hsplit a ha.1] at hDa
  rw [growAmp_eq h0 h1 hb (hpos b hb), hsplit 1 hb1.le, expansion_one, one_mul] at hD1
  rw [heathInt, hsplit 1 hb1.le] at hst
  rw [← hD1] at hst
  have hDpos := hm.trans_le hst
  have hH : ∀ x, heath (expansion p) x = expansion p x * heathInt p 0 x := fun _ => rfl
  have key : D a / D 1 - heath (expansion p) a / heath (expansion p) 1
      = expansion p a / expansion p b * (b - growAmp p b * expansion p b * heathInt p 0 b)
        * (1 - heathInt p 0 a / heathInt p 0 1) / D 1 := by
    rw [hH, hH, expansion_one, one_mul, div_sub_div _ _ hDpos.ne' hI1.ne', div_eq_div_iff
      (mul_ne_zero hDpos.ne' hI1.ne') hDpos.ne']
    have e : D a * heathInt p 0 1 - D 1 * (expansion p a * heathInt p 0 a)
        = expansion p a / expansion p b * (b - growAmp p b * expansion p b * heathInt p 0 b)
          * (1 - heathInt p 0 a / heathInt p 0 1) * heathInt p 0 1 := by
      rw [hDa, hD1]
      field_simp
      ring
    rw [e]
    ring
  rw [key, abs_div, abs_of_pos hDpos, abs_mul, abs_mul, abs_of_pos (div_pos hEa hEb)]
  have hr1 : expansion p a / expansion p b ≤ 1 := (div_le_one hEb).2 hanti
  have hr2 : |1 - heathInt p 0 a / heathInt p 0 1| ≤ 1 := by
    have h4 : heathInt p 0 a / heathInt p 0 1 ≤ 1 := (div_le_one hI1).2 hIa.1
    have h5 := div_nonneg hIa.2 hI1.le
    rw [abs_le]; constructor <;> linarith
  have hnum : expansion p a / expansion p b
      * |b - growAmp p b * expansion p b * heathInt p 0 b|
        * |1 - heathInt p 0 a / heathInt p 0 1|
      ≤ b * nonMatter p b * (13 / 10 + 2 / 5 * nonMatter p b) := by
    calc _ ≤ 1 * |b - growAmp p b * expansion p b * heathInt p 0 b| * 1 := by gcongr
      _ ≤ _ := by rw [one_mul, mul_one]; exact hds
  have hnn := (abs_nonneg _).trans hds
  gcongr

/-- C99: so the growth factor of the library is Heath's integral, up to the discretisation error
`C/n²` and the explicit error of the initial values. -/
theorem C99_library {lo : ℝ} (hlo : lo < 0) : ∃ (C : ℝ) (n0 : ℕ), ∀ n ≥ n0,
    ∀ a ∈ Icc ((10 : ℝ) ^ lo) 1, |readGrowth (growthTableODE p lo (n + 1)) a
      - heath (expansion p) a / heath (expansion p) 1| ≤ C / n ^ 2
        + 10 ^ lo * nonMatter p (10 ^ lo) * (13 / 10 + 2 / 5 * nonMatter p (10 ^ lo)) / p.Omega_m := by
  have hb : (0 : ℝ) < 10 ^ lo := by positivity
  have hb1 : (10 : ℝ) ^ lo < 1 := Real.rpow_lt_one_of_one_lt_of_neg (by norm_num) hlo
  have hE : EsqrPos p := fun x hx _ => C05_Esqr_pos p x hx hm hk hde
  obtain ⟨D, D', hD, hi, hi', -⟩ := C90_solution hb hE hb1 hm.le
  obtain ⟨C, n0, hC⟩ := C91_growth hlo hE hm.le hD hi hi'
  refine ⟨C, n0, fun n hn a ha => ?_⟩
  exact (abs_sub_le _ (D a / D 1) _).trans
    (add_le_add (hC n hn a ha) (C99_admixture h0 h1 hm hk hde hb hb1 hD hi hi' a ha))

end Closed

/-- C99 for the Planck cosmology: the initial values cost less than `10⁻¹¹`. -/
example : ∃ (C : ℝ) (n0 : ℕ), ∀ n ≥ n0, ∀ a ∈ Icc ((10 : ℝ) ^ (-3 : ℝ)) 1,
    |readGrowth (growthTableODE Planck15 (-3) (n + 1)) a
      - heath (expansion Planck15) a / heath (expansion Planck15) 1| ≤ C / n ^ 2 + 1e-11 := by
  have h := planck_physical
  obtain ⟨C, n0, hC⟩ := C99_library (p := Planck15) (lo := -3) (by norm_num [Planck15])
    (by norm_num [Planck15]) h.m_pos h.k_nonneg h.de_nonneg (by norm_num)
  refine ⟨C, n0, fun n hn a ha => (hC n hn a ha).trans (add_le_add le_rfl ?_)⟩
  rw [show (10 : ℝ) ^ (-3 : ℝ) = 1 / 1000 by rw [Real.rpow_neg (by norm_num)]; norm_num]
  norm_num [nonMatter, Planck15, Params.Omega_de, Params.Omega, Params.Omega_m]

end JaxCosmo
