import Verif.Props.Power
import Verif.Props.Transfer
import Verif.Spec.Halofit

/-! # C75–C77: the halofit prescription -/

namespace JaxCosmo
open Spec

/-! ## C75: the spectrum is the published formula -/

/-- The numbers used by the library, collected. -/
noncomputable def fitOf (c : Halofit.Coeffs) (f : ℝ × ℝ × ℝ) : HalofitFit where
  a := c.a_n
  b := c.b_n
  c := c.c_n
  γ := c.gamma_n
  α := c.alpha_n
  β := c.beta_n
  μ := c.mu_n
  ν := c.nu_n
  f1 := f.1
  f2 := f.2.1
  f3 := f.2.2

theorem pow10 (x : ℝ) : 0 < (10 : ℝ) ^ x ∧ Real.logb 10 ((10 : ℝ) ^ x) = x :=
  ⟨Real.rpow_pos_of_pos (by norm_num) x, Real.logb_rpow (by norm_num) (by norm_num)⟩

/-- Whatever the coefficients, the assembled spectrum is `Δ²_Q + Δ²_H`. -/
theorem assemble_eq {k pklin knl : ℝ} (hk : 0 < k) (c : Halofit.Coeffs) (f : ℝ × ℝ × ℝ) :
    k ^ 3 * Halofit.assemble k pklin knl c f / (2 * Real.pi ^ 2)
      = quasiLinear (fitOf c f) (k ^ 3 * pklin / (2 * Real.pi ^ 2)) (k / knl)
        + oneHalo (fitOf c f) (k / knl) := by
  unfold Halofit.assemble quasiLinear oneHalo fitOf
  simp only
  have hpi := Real.pi_pos
  generalize k ^ 3 * pklin / (2 * Real.pi ^ 2) = d
  generalize k / knl = y
  have e : ∀ z : ℝ, k ^ 3 * (2 * Real.pi ^ 2 / k ^ 3 * z) / (2 * Real.pi ^ 2) = z := by
    intro z; field_simp
  rw [e, ← mul_div_assoc d]

/-- C75: by default the non-linear spectrum is the Takahashi et al. (2012) formula in terms of the
linear spectrum, the non-linear scale, the effective index and the curvature. -/
theorem C75_takahashi (p : Params) (k a : ℝ) (T : ℝ → ℝ) (hk : 0 < k) {v : ℝ}
    (h : nonlinearMatterPower p k a T = .ok v) :
    ∃ F, IsTakahashi (Halofit.n_eff p T a) (Halofit.curv p T a) (Omega_m_a p a) (Omega_de_a p a)
        (w p a) F ∧
      dimensionless (fun _ => v) k
        = quasiLinear F (dimensionless (fun k => linearMatterPower p T k a) k)
            (k * Halofit.R_nl p T a)
          + oneHalo F (k * Halofit.R_nl p T a) := by
  simp only [nonlinearMatterPower, halofit, String.reduceEq, if_false, if_true,
    Except.ok.injEq] at h
  subst h
  refine ⟨fitOf (Halofit.takahashi2012 (Halofit.n_eff p T a) (Halofit.curv p T a) (Omega_de_a p a)
    (w p a)) (Halofit.fTakahashi (Omega_m_a p a)), ?_, ?_⟩
  rotate_left
  · unfold dimensionless
    rw [assemble_eq hk]
    rw [show k / Halofit.k_nl p T a = k * Halofit.R_nl p T a by
      unfold Halofit.k_nl; rw [one_div, div_inv_eq_mul]]
  · exact ⟨pow10 _, pow10 _, pow10 _, rfl, rfl, rfl, rfl, pow10 _, rfl, rfl, rfl⟩

/-- C75: likewise for the older prescription. -/
theorem C75_smith (p : Params) (k a : ℝ) (T : ℝ → ℝ) (hk : 0 < k) {v : ℝ}
    (h : halofit p k a T "smith2003" = .ok v) :
    ∃ F, IsSmith (Halofit.n_eff p T a) (Halofit.curv p T a) (Omega_m_a p a)
        (Omega_de_a p a / (1 - Omega_m_a p a)) F ∧
      dimensionless (fun _ => v) k
        = quasiLinear F (dimensionless (fun k => linearMatterPower p T k a) k)
            (k * Halofit.R_nl p T a)
          + oneHalo F (k * Halofit.R_nl p T a) := by
  simp only [halofit, if_true, Except.ok.injEq] at h
  subst h
  refine ⟨fitOf (Halofit.smith2003 (Halofit.n_eff p T a) (Halofit.curv p T a))
    (Halofit.fSmith (Omega_m_a p a) (Omega_de_a p a / (1 - Omega_m_a p a))), ?_, ?_⟩
  rotate_left
  · unfold dimensionless
    rw [assemble_eq hk]
    rw [show k / Halofit.k_nl p T a = k * Halofit.R_nl p T a by
      unfold Halofit.k_nl; rw [one_div, div_inv_eq_mul]]
  · exact ⟨pow10 _, pow10 _, pow10 _, rfl, rfl, rfl, pow10 _, pow10 _,
      add_comm _ _, add_comm _ _, add_comm _ _⟩

/-! ## C76: effective index and curvature are logarithmic derivatives -/

theorem simpsBody_hasDerivAt {f : ℝ → ℝ → ℝ} {f' : ℝ → ℝ} {a b x : ℝ} {N : ℕ}
    (h : ∀ t, HasDerivAt (fun x => f x t) (f' t) x) :
    HasDerivAt (fun x => simpsBody (f x) a b N) (simpsBody f' a b N) x := by
  unfold simpsBody
  simp only
  refine HasDerivAt.const_mul _ (HasDerivAt.fun_sum fun i _ => ?_)
  exact ((h _).add ((h _).const_mul 4)).add (h _)

/-- The library's Gaussian variance at radius `e^x`, with its own quadrature. -/
theorem gauss_deriv (Δ2 : ℝ → ℝ) (x t : ℝ) :
    HasDerivAt (fun x => gaussIntegrand Δ2 (Real.exp x) t)
      (-(2 * (Real.exp t * Real.exp x) ^ 2 * gaussIntegrand Δ2 (Real.exp x) t)) x := by
  unfold gaussIntegrand
  have h1 : HasDerivAt (fun x => -(Real.exp t * Real.exp x) ^ 2)
      (-(2 * (Real.exp t * Real.exp x) ^ 2)) x := by
    have := (((Real.hasDerivAt_exp x).const_mul (Real.exp t)).fun_pow 2).fun_neg
    refine this.congr_deriv ?_
    push_cast; ring
  refine (h1.exp.const_mul (Δ2 (Real.exp t))).congr_deriv ?_
  ring

theorem gauss_deriv2 (Δ2 : ℝ → ℝ) (x t : ℝ) :
    HasDerivAt (fun x => -(2 * (Real.exp t * Real.exp x) ^ 2 * gaussIntegrand Δ2 (Real.exp x) t))
      (-(4 * gaussIntegrand Δ2 (Real.exp x) t *
        ((Real.exp t * Real.exp x) ^ 2 - (Real.exp t * Real.exp x) ^ 4))) x := by
  have h1 : HasDerivAt (fun x => 2 * (Real.exp t * Real.exp x) ^ 2)
      (4 * (Real.exp t * Real.exp x) ^ 2) x := by
    have := (((Real.hasDerivAt_exp x).const_mul (Real.exp t)).fun_pow 2).const_mul 2
    refine this.congr_deriv ?_
    push_cast; ring
  refine (h1.mul (gauss_deriv Δ2 x t)).neg.congr_deriv ?_
  ring

theorem R_nl_pos (p : Params) (T : ℝ → ℝ) (a : ℝ) : 0 < Halofit.R_nl p T a :=
  lt_of_lt_of_le (by norm_num) (le_max_right _ _)

theorem res_eq (p : Params) (T : ℝ → ℝ) (a t : ℝ) (hg : growthOf p 1 = 1) :
    Halofit.res p T a t
      = gaussIntegrand (dimensionless fun k => linearMatterPower p T k a) (Halofit.R_nl p T a) t := by
  unfold Halofit.res gaussIntegrand dimensionless Halofit.k_nl
  simp only
  rw [C40_growth p T _ a hg, one_div_one_div]
  ring

/-- C76: the derivative with respect to `ln R` of the Gaussian-filtered variance, evaluated with
the library's quadrature at the non-linear scale, is `-(n_eff + 3)`; its second derivative is
`(n_eff + 3)² - C`. -/
theorem C76_variance (p : Params) (T : ℝ → ℝ) (a : ℝ) (hg : growthOf p 1 = 1) {S : ℝ → ℝ}
    (hS : ∀ x, simps (gaussIntegrand (dimensionless fun k => linearMatterPower p T k a)
      (Real.exp x)) (Real.log 1e-4) (Real.log 1e4) 256 = .ok (S x)) :
    ∃ S' : ℝ → ℝ, (∀ x, HasDerivAt S (S' x) x) ∧
      S' (Real.log (Halofit.R_nl p T a)) = -(Halofit.n_eff p T a + 3) ∧
      HasDerivAt S' ((Halofit.n_eff p T a + 3) ^ 2 - Halofit.curv p T a)
        (Real.log (Halofit.R_nl p T a)) := by
  have hSe : S = fun x => simpsBody (gaussIntegrand (dimensionless fun k =>
      linearMatterPower p T k a) (Real.exp x)) (Real.log 1e-4) (Real.log 1e4) 256 :=
    funext fun x => (Except.ok.inj (hS x)).symm
  have hR : Real.exp (Real.log (Halofit.R_nl p T a)) = Halofit.R_nl p T a :=
    Real.exp_log (R_nl_pos p T a)
  have hk : 1 / Halofit.k_nl p T a = Halofit.R_nl p T a := by
    unfold Halofit.k_nl; rw [one_div_one_div]
  have hneg : ∀ f : ℝ → ℝ, simpsBody (fun t => -f t) (Real.log 1e-4) (Real.log 1e4) 256
      = -simpsBody f (Real.log 1e-4) (Real.log 1e4) 256 := by
    intro f
    have := simpsBody_smul (-1) f (Real.log 1e-4) (Real.log 1e4) 256
    simpa only [neg_mul, one_mul] using this
  refine ⟨fun x => simpsBody (fun t => -(2 * (Real.exp t * Real.exp x) ^ 2 *
    gaussIntegrand (dimensionless fun k => linearMatterPower p T k a) (Real.exp x) t))
    (Real.log 1e-4) (Real.log 1e4) 256, fun x => ?_, ?_, ?_⟩
  · rw [hSe]
    exact simpsBody_hasDerivAt fun t => gauss_deriv _ x t
  · simp only [hR]
    rw [hneg, Halofit.n_eff, Halofit.res0]
    simp only [hk, res_eq p T a _ hg]
    rw [sub_add_cancel]
    congr 2
    funext t; ring
  · refine (simpsBody_hasDerivAt fun t => gauss_deriv2 _ _ t).congr_deriv ?_
    simp only [hR]
    rw [hneg, Halofit.n_eff, Halofit.curv, Halofit.res1]
    simp only [hk, res_eq p T a _ hg]
    ring

/-- C76: where the variance at the non-linear scale is 1 (the definition of that scale), the
effective index is `-3 - d ln σ²/d ln R` and the curvature is `-d² ln σ²/d ln R²`. -/
theorem C76_index (p : Params) (T : ℝ → ℝ) (a : ℝ) (hg : growthOf p 1 = 1) {S : ℝ → ℝ}
    (hS : ∀ x, simps (gaussIntegrand (dimensionless fun k => linearMatterPower p T k a)
      (Real.exp x)) (Real.log 1e-4) (Real.log 1e4) 256 = .ok (S x))
    (h1 : S (Real.log (Halofit.R_nl p T a)) = 1) :
    Halofit.n_eff p T a = -3 - deriv (fun x => Real.log (S x)) (Real.log (Halofit.R_nl p T a)) ∧
    Halofit.curv p T a = -deriv (deriv fun x => Real.log (S x)) (Real.log (Halofit.R_nl p T a)) := by
  obtain ⟨S', hd, hn, hc⟩ := C76_variance p T a hg hS
  set x0 := Real.log (Halofit.R_nl p T a)
  have hcont : ContinuousAt S x0 := (hd x0).continuousAt
  have hne : ∀ᶠ x in nhds x0, S x ≠ 0 := hcont.eventually_ne (by rw [h1]; norm_num)
  have hL : ∀ᶠ x in nhds x0, deriv (fun x => Real.log (S x)) x = S' x / S x := by
    filter_upwards [hne] with x hx
    exact ((hd x).log hx).deriv
  refine ⟨?_, ?_⟩
  · rw [hL.self_of_nhds, h1, hn]; ring
  · rw [Filter.EventuallyEq.deriv_eq hL, (hc.fun_div (hd x0) (by rw [h1]; norm_num)).deriv, h1, hn]
    ring

/-! ## C77: on large scales the correction vanishes -/

/-- The one-halo term is at most `(a/ν) y⁵` on scales larger than the non-linear one. -/
theorem oneHalo_le {F : HalofitFit} {y : ℝ} (hy : 0 < y) (hy1 : y ≤ 1) (ha : 0 < F.a) (hb : 0 < F.b)
    (hc : 0 < F.c) (hμ : 0 ≤ F.μ) (hν : 0 < F.ν) (hf1 : 1 ≤ F.f1) (hf3 : 0 < F.f3) :
    0 ≤ oneHalo F y ∧ oneHalo F y ≤ F.a / F.ν * y ^ 5 := by
  have h1 : 0 < y ^ (3 * F.f1) := Real.rpow_pos_of_pos hy _
  have h2 : 0 < y ^ F.f2 := Real.rpow_pos_of_pos hy _
  have h3 : 0 < (F.c * F.f3 * y) ^ (3 - F.γ) := Real.rpow_pos_of_pos (by positivity) _
  unfold oneHalo
  refine ⟨by positivity, ?_⟩
  have h4 : y ^ (3 * F.f1) ≤ y ^ 3 := by
    rw [← Real.rpow_natCast y 3]
    exact Real.rpow_le_rpow_of_exponent_ge hy hy1 (by push_cast; linarith)
  have h5 : F.a * y ^ (3 * F.f1) / (1 + F.b * y ^ F.f2 + (F.c * F.f3 * y) ^ (3 - F.γ))
      ≤ F.a * y ^ 3 := by
    refine (div_le_self (by positivity) ?_).trans (mul_le_mul_of_nonneg_left h4 ha.le)
    have := mul_pos hb h2
    linarith
  have h6 : F.ν / y ^ 2 ≤ 1 + F.μ / y + F.ν / y ^ 2 := by
    have : 0 ≤ F.μ / y := by positivity
    linarith
  calc _ ≤ F.a * y ^ 3 / (F.ν / y ^ 2) := by
        apply div_le_div₀ (by positivity) h5 (by positivity) h6
    _ = F.a / F.ν * y ^ 5 := by field_simp

/-- Large-scale limit for any admissible set of coefficients. -/
theorem halofit_limit {p : Params} {a : ℝ} {T : ℝ → ℝ} {F : HalofitFit} {R T0 : ℝ} (hR : 0 < R)
    (ha : 0 < F.a) (hb : 0 < F.b) (hc : 0 < F.c) (hμ : 0 ≤ F.μ)
    (hν : 0 < F.ν) (hf1 : 1 ≤ F.f1) (hf3 : 0 < F.f3) (hn0 : -3 < p.n_s) (hn2 : p.n_s < 2)
    (hT : Filter.Tendsto T (nhdsWithin 0 (Set.Ioi 0)) (nhds T0)) (hT0 : T0 ≠ 0)
    (hg : growthOf p a ≠ 0) (h8 : p.sigma8 ≠ 0) (hs : sigmasqr p 8 T ≠ 0) :
    Filter.Tendsto (fun k =>
      (quasiLinear F (dimensionless (fun k => linearMatterPower p T k a) k) (k * R)
        + oneHalo F (k * R)) / dimensionless (fun k => linearMatterPower p T k a) k)
      (nhdsWithin 0 (Set.Ioi 0)) (nhds 1) := by
  set A := growthOf p a ^ 2 * (p.sigma8 ^ 2 / sigmasqr p 8 T) / (2 * Real.pi ^ 2) with hA
  have hpi := Real.pi_pos
  have hA0 : A ≠ 0 := by positivity
  have hApos : 0 < A := by
    have := (sigmasqr_nonneg p T 8).lt_of_ne' hs
    positivity
  have hid : Filter.Tendsto (fun k : ℝ => k) (nhdsWithin 0 (Set.Ioi 0)) (nhds 0) :=
    Filter.tendsto_id'.2 nhdsWithin_le_nhds
  have hd : ∀ k, 0 < k → dimensionless (fun k => linearMatterPower p T k a) k
      = A * k ^ (3 + p.n_s) * T k ^ 2 := by
    intro k hk
    simp only [dimensionless, linearMatterPower, primordialMatterPower, hA]
    rw [Real.rpow_add hk, show k ^ (3 : ℝ) = k ^ 3 by norm_cast]
    ring
  have hpow : ∀ e : ℝ, 0 < e → Filter.Tendsto (fun k : ℝ => k ^ e) (nhdsWithin 0 (Set.Ioi 0))
      (nhds 0) := by
    intro e he
    have := (Real.continuousAt_rpow_const 0 e (Or.inr he.le)).tendsto
    rw [Real.zero_rpow he.ne'] at this
    exact this.mono_left nhdsWithin_le_nhds
  have hdlim : Filter.Tendsto (fun k => dimensionless (fun k => linearMatterPower p T k a) k)
      (nhdsWithin 0 (Set.Ioi 0)) (nhds 0) := by
    have h1 : Filter.Tendsto (fun k => A * k ^ (3 + p.n_s) * T k ^ 2) (nhdsWithin 0 (Set.Ioi 0))
        (nhds (A * 0 * T0 ^ 2)) :=
      ((hpow _ (by linarith)).const_mul A).mul (hT.pow 2)
    rw [mul_zero, zero_mul] at h1
    refine h1.congr' ?_
    filter_upwards [self_mem_nhdsWithin] with k hk
    exact (hd k hk).symm
  have hTne : ∀ᶠ k in nhdsWithin (0 : ℝ) (Set.Ioi 0), T k ≠ 0 := hT.eventually_ne hT0
  -- the quasi-linear part
  have hq : Filter.Tendsto (fun k =>
      (1 + dimensionless (fun k => linearMatterPower p T k a) k) ^ F.β
        / (1 + F.α * dimensionless (fun k => linearMatterPower p T k a) k)
        * Real.exp (-(k * R / 4 + (k * R) ^ 2 / 8)))
      (nhdsWithin 0 (Set.Ioi 0)) (nhds ((1 + 0) ^ F.β / (1 + F.α * 0)
        * Real.exp (-(0 * R / 4 + (0 * R) ^ 2 / 8)))) := by
    refine Filter.Tendsto.mul (Filter.Tendsto.div ?_ ?_ (by norm_num)) ?_
    · exact (hdlim.const_add 1).rpow_const (Or.inl (by norm_num))
    · exact (hdlim.const_mul F.α).const_add 1
    · refine (Real.continuous_exp.tendsto _).comp ?_
      exact (((hid.mul_const R).div_const 4).add (((hid.mul_const R).pow 2).div_const 8)).neg
  -- the one-halo part
  have hh : Filter.Tendsto (fun k => oneHalo F (k * R)
      / dimensionless (fun k => linearMatterPower p T k a) k)
      (nhdsWithin 0 (Set.Ioi 0)) (nhds 0) := by
    have hub : Filter.Tendsto (fun k => F.a / F.ν * R ^ 5 / A * k ^ (2 - p.n_s) / T k ^ 2)
        (nhdsWithin 0 (Set.Ioi 0)) (nhds (F.a / F.ν * R ^ 5 / A * 0 / T0 ^ 2)) :=
      ((hpow _ (by linarith)).const_mul _).div (hT.pow 2) (pow_ne_zero 2 hT0)
    rw [mul_zero, zero_div] at hub
    have hsmall : ∀ᶠ k in nhdsWithin (0 : ℝ) (Set.Ioi 0), k * R ≤ 1 := by
      have : Filter.Tendsto (fun k : ℝ => k * R) (nhdsWithin 0 (Set.Ioi 0)) (nhds (0 * R)) :=
        hid.mul_const R
      rw [zero_mul] at this
      exact this.eventually_le_const (by norm_num)
    refine tendsto_of_tendsto_of_tendsto_of_le_of_le' tendsto_const_nhds hub ?_ ?_
    · filter_upwards [self_mem_nhdsWithin, hsmall] with k hk hk1
      have hk : 0 < k := hk
      rw [hd k hk]
      have := (oneHalo_le (mul_pos hk hR) hk1 ha hb hc hμ hν hf1 hf3).1
      have := Real.rpow_pos_of_pos hk (3 + p.n_s)
      positivity
    · filter_upwards [self_mem_nhdsWithin, hsmall, hTne] with k hk hk1 hTk
      have hk : 0 < k := hk
      rw [hd k hk]
      have h1 := (oneHalo_le (mul_pos hk hR) hk1 ha hb hc hμ hν hf1 hf3).2
      have h2 := Real.rpow_pos_of_pos hk (3 + p.n_s)
      have h3 : 0 < A * k ^ (3 + p.n_s) * T k ^ 2 := by positivity
      rw [div_le_iff₀ h3]
      refine h1.trans (le_of_eq ?_)
      have e : k ^ (2 - p.n_s) * k ^ (3 + p.n_s) = k ^ 5 := by
        rw [← Real.rpow_add hk, show (2 - p.n_s + (3 + p.n_s) : ℝ) = ((5 : ℕ) : ℝ) by push_cast; ring,
          Real.rpow_natCast]
      rw [mul_pow, ← e]
      field_simp
  have hsum := hq.add hh
  have e1 : ((1 + 0) ^ F.β / (1 + F.α * 0) * Real.exp (-(0 * R / 4 + (0 * R) ^ 2 / 8)) + 0 : ℝ)
      = 1 := by norm_num
  rw [e1] at hsum
  refine hsum.congr' ?_
  filter_upwards [self_mem_nhdsWithin, hTne] with k hk hTk
  have hk : 0 < k := hk
  have hdne : dimensionless (fun k => linearMatterPower p T k a) k ≠ 0 := by
    rw [hd k hk]
    have := Real.rpow_pos_of_pos hk (3 + p.n_s)
    positivity
  rw [add_div, quasiLinear]
  congr 1
  generalize dimensionless (fun k => linearMatterPower p T k a) k = d at *
  field_simp

theorem rpow_neg_ge_one {x e : ℝ} (h0 : 0 < x) (h1 : x ≤ 1) (he : e ≤ 0) : 1 ≤ x ^ e :=
  Real.one_le_rpow_of_pos_of_le_one_of_nonpos h0 h1 he

/-- C77: on large scales the default non-linear spectrum tends to the linear one. -/
theorem C77_takahashi (p : Params) (a : ℝ) (T : ℝ → ℝ) {T0 : ℝ} (hn0 : -3 < p.n_s)
    (hn2 : p.n_s < 2) (hT : Filter.Tendsto T (nhdsWithin 0 (Set.Ioi 0)) (nhds T0)) (hT0 : T0 ≠ 0)
    (hg : growthOf p a ≠ 0) (h8 : p.sigma8 ≠ 0) (hs : sigmasqr p 8 T ≠ 0)
    (hm0 : 0 < Omega_m_a p a) (hm1 : Omega_m_a p a ≤ 1) {P : ℝ → ℝ}
    (hP : ∀ k, 0 < k → nonlinearMatterPower p k a T = .ok (P k)) :
    Filter.Tendsto (fun k => P k / linearMatterPower p T k a) (nhdsWithin 0 (Set.Ioi 0))
      (nhds 1) := by
  have hpi := Real.pi_pos
  set F := fitOf (Halofit.takahashi2012 (Halofit.n_eff p T a) (Halofit.curv p T a) (Omega_de_a p a)
    (w p a)) (Halofit.fTakahashi (Omega_m_a p a)) with hF
  have hlim := halofit_limit (p := p) (a := a) (T := T) (F := F) (R_nl_pos p T a) (pow10 _).1
    (pow10 _).1 (pow10 _).1 le_rfl (pow10 _).1
    (rpow_neg_ge_one hm0 hm1 (by norm_num)) (Real.rpow_pos_of_pos hm0 _) hn0 hn2 hT hT0 hg h8 hs
  refine hlim.congr' ?_
  filter_upwards [self_mem_nhdsWithin] with k hk
  have hk : 0 < k := hk
  have h := hP k hk
  simp only [nonlinearMatterPower, halofit, String.reduceEq, if_false, if_true,
    Except.ok.injEq] at h
  rw [← h, show k * Halofit.R_nl p T a = k / Halofit.k_nl p T a by
      unfold Halofit.k_nl; rw [one_div, div_inv_eq_mul]]
  unfold dimensionless
  rw [← assemble_eq hk, div_div_div_cancel_right₀ (by positivity),
    mul_div_mul_left _ _ (by positivity)]

/-- C77: so does the Smith et al. spectrum, when the fitted `alpha_n` is irrelevant (`Δ² → 0`) and
the dark energy weights are positive. -/
theorem C77_smith (p : Params) (a : ℝ) (T : ℝ → ℝ) {T0 : ℝ} (hn0 : -3 < p.n_s)
    (hn2 : p.n_s < 2) (hT : Filter.Tendsto T (nhdsWithin 0 (Set.Ioi 0)) (nhds T0)) (hT0 : T0 ≠ 0)
    (hg : growthOf p a ≠ 0) (h8 : p.sigma8 ≠ 0) (hs : sigmasqr p 8 T ≠ 0)
    (hm0 : 0 < Omega_m_a p a) (hm1 : Omega_m_a p a ≤ 1)
    (hf : 0 ≤ Omega_de_a p a / (1 - Omega_m_a p a) ∧ Omega_de_a p a / (1 - Omega_m_a p a) ≤ 1)
    {P : ℝ → ℝ} (hP : ∀ k, 0 < k → halofit p k a T "smith2003" = .ok (P k)) :
    Filter.Tendsto (fun k => P k / linearMatterPower p T k a) (nhdsWithin 0 (Set.Ioi 0))
      (nhds 1) := by
  have hpi := Real.pi_pos
  set F := fitOf (Halofit.smith2003 (Halofit.n_eff p T a) (Halofit.curv p T a))
    (Halofit.fSmith (Omega_m_a p a) (Omega_de_a p a / (1 - Omega_m_a p a))) with hF
  have hmix : ∀ x u v : ℝ, 0 ≤ x → x ≤ 1 → ∀ c, c ≤ u → c ≤ v → c ≤ x * u + (1 - x) * v := by
    intro x u v h0 h1 c hu hv
    have := mul_le_mul_of_nonneg_left hu h0
    have := mul_le_mul_of_nonneg_left hv (sub_nonneg.2 h1)
    linarith
  have hf1 : 1 ≤ F.f1 := hmix _ _ _ hf.1 hf.2 1 (rpow_neg_ge_one hm0 hm1 (by norm_num))
    (rpow_neg_ge_one hm0 hm1 (by norm_num))
  have hf3 : 0 < F.f3 := by
    refine lt_of_lt_of_le ?_ (hmix _ _ _ hf.1 hf.2
      (min (Omega_m_a p a ^ (0.0743 : ℝ)) (Omega_m_a p a ^ (0.0725 : ℝ))) (min_le_left _ _)
      (min_le_right _ _))
    exact lt_min (Real.rpow_pos_of_pos hm0 _) (Real.rpow_pos_of_pos hm0 _)
  have hlim := halofit_limit (p := p) (a := a) (T := T) (F := F) (R_nl_pos p T a) (pow10 _).1
    (pow10 _).1 (pow10 _).1 (pow10 _).1.le (pow10 _).1 hf1 hf3 hn0 hn2 hT hT0 hg h8 hs
  refine hlim.congr' ?_
  filter_upwards [self_mem_nhdsWithin] with k hk
  have hk : 0 < k := hk
  have h := hP k hk
  simp only [halofit, if_true, Except.ok.injEq] at h
  rw [← h, show k * Halofit.R_nl p T a = k / Halofit.k_nl p T a by
      unfold Halofit.k_nl; rw [one_div, div_inv_eq_mul]]
  unfold dimensionless
  rw [← assemble_eq hk, div_div_div_cancel_right₀ (by positivity),
    mul_div_mul_left _ _ (by positivity)]

/-- C77 for the library's transfer functions: with either Eisenstein–Hu form (the second is the
default), a physical cosmology and `-3 < n_s < 2`, the default non-linear spectrum tends to the
linear one on large scales. -/
theorem C77_eisenstein_hu (p : Params) (hp : Physical p) (hb : p.Baryonic) (hγ : p.gamma = none)
    (type : String) (ht : type = "eisenhu" ∨ type = "eisenhu_osc") (hn0 : -3 < p.n_s)
    (hn2 : p.n_s < 2) (h8 : p.sigma8 ≠ 0) {a : ℝ} (ha : 1 / 900 ≤ a) (ha1 : a ≤ 1)
    (hm1 : Omega_m_a p a ≤ 1) :
    ∃ T : ℝ → ℝ, (∀ k, Eisenstein_Hu p k type = .ok (T k)) ∧
      (sigmasqr p 8 T ≠ 0 → ∀ P : ℝ → ℝ,
        (∀ k, 0 < k → nonlinearMatterPower p k a T = .ok (P k)) →
        Filter.Tendsto (fun k => P k / linearMatterPower p T k a) (nhdsWithin 0 (Set.Ioi 0))
          (nhds 1)) := by
  obtain ⟨T, hT, hlim⟩ := C44_large_scales p hb type ht
  have ha0 : 0 < a := by linarith
  refine ⟨T, hT, fun hs P hP => C77_takahashi p a T hn0 hn2 hlim one_ne_zero
    (C10_pos_ode p hp hγ ha).ne' h8 hs ?_ hm1 hP⟩
  have hE := hp.esqrPos a ha0 ha1
  have := hp.m_pos
  unfold Omega_m_a
  positivity

theorem planck_omega_m : 0 < Omega_m_a Planck15 1 ∧ Omega_m_a Planck15 1 ≤ 1 := by
  unfold Omega_m_a
  rw [C02_Esqr_one]
  norm_num [Planck15, Params.Omega_m]

theorem planck_nowiggle_pos {k : ℝ} (hk : 0 < k) : EH.nowiggle Planck15 k ≠ 0 := by
  obtain ⟨v, hv, h0, _⟩ := C43_shape Planck15 planck_baryonic planck_alpha.1.le k hk.le
  simp only [Eisenstein_Hu, if_true, Except.ok.injEq] at hv
  rw [hv]; exact h0.ne'

/-- Witness: in the Planck 2015 cosmology today, with the smooth Eisenstein–Hu transfer function,
every hypothesis of `C75` and `C77` holds. -/
example : ∃ (T P : ℝ → ℝ), (∀ k, Eisenstein_Hu Planck15 k "eisenhu" = .ok (T k)) ∧
    (∀ k, 0 < k → nonlinearMatterPower Planck15 k 1 T = .ok (P k)) ∧
    Filter.Tendsto (fun k => P k / linearMatterPower Planck15 T k 1) (nhdsWithin 0 (Set.Ioi 0))
      (nhds 1) := by
  obtain ⟨T, hT, h⟩ := C77_eisenstein_hu Planck15 planck_physical planck_baryonic rfl "eisenhu"
    (Or.inl rfl) (by norm_num [Planck15]) (by norm_num [Planck15]) (by norm_num [Planck15])
    (a := 1) (by norm_num) le_rfl planck_omega_m.2
  have hTe : T = EH.nowiggle Planck15 := by
    funext k
    have := hT k
    simp only [Eisenstein_Hu, if_true, Except.ok.injEq] at this
    exact this.symm
  refine ⟨T, fun k => _, hT, fun k _ => rfl, h ?_ _ fun k _ => rfl⟩
  rw [hTe]
  exact C39_normalisable _ _ (planck_nowiggle_pos (Real.exp_pos _))

end JaxCosmo
