import Verif.Proofs.MatrixCalculus
import Verif.Props.Expectation

/-! # C126: the gradient of the likelihood when the covariance depends on the parameters -/

namespace JaxCosmo
open MeasureTheory ProbabilityTheory Matrix Spec

section
variable {N : ℕ} {θ : ℝ}

theorem vec_dot_deriv {u v : ℝ → Fin N → ℝ} {u' v' : Fin N → ℝ}
    (hu : ∀ i, HasDerivAt (fun s => u s i) (u' i) θ) (hv : ∀ i, HasDerivAt (fun s => v s i) (v' i) θ) :
    HasDerivAt (fun s => u s ⬝ᵥ v s) (u' ⬝ᵥ v θ + u θ ⬝ᵥ v') θ := by
  have h := HasDerivAt.fun_sum (u := Finset.univ) fun i _ => (hu i).mul (hv i)
  refine (h.congr_deriv ?_).congr_of_eventuallyEq (Filter.Eventually.of_forall fun r => ?_)
  · rw [Finset.sum_add_distrib]; rfl
  · simp only [dotProduct, Pi.mul_apply]

theorem mulVec_deriv {A : ℝ → Matrix (Fin N) (Fin N) ℝ} {A' : Matrix (Fin N) (Fin N) ℝ}
    {v : ℝ → Fin N → ℝ} {v' : Fin N → ℝ} (hA : MatDeriv A A' θ)
    (hv : ∀ i, HasDerivAt (fun s => v s i) (v' i) θ) (i : Fin N) :
    HasDerivAt (fun s => (A s *ᵥ v s) i) ((A' *ᵥ v θ + A θ *ᵥ v') i) θ :=
  vec_dot_deriv (fun j => hA i j) hv

/-- Derivative of `χ²` when both the mean and the covariance move. -/
theorem chiSq_moving {C : ℝ → Matrix (Fin N) (Fin N) ℝ} {C' : Matrix (Fin N) (Fin N) ℝ}
    {μ : ℝ → Fin N → ℝ} {μ' : Fin N → ℝ} (data : Fin N → ℝ) (hC : MatDeriv C C' θ)
    (hμ : ∀ i, HasDerivAt (fun s => μ s i) (μ' i) θ) (hpd : (C θ).PosDef) :
    HasDerivAt (fun s => chiSq data (μ s) (C s)) (-(2 * fisher (C θ) (data - μ θ) μ')
      - (data - μ θ) ⬝ᵥ (((C θ)⁻¹ * C' * (C θ)⁻¹) *ᵥ (data - μ θ))) θ := by
  have hr : ∀ i, HasDerivAt (fun s => (data - μ s) i) ((-μ') i) θ := fun i => by
    have := (hμ i).const_sub (data i)
    exact this
  have hq := vec_dot_deriv hr (mulVec_deriv (hC.inv hpd.det_pos.ne') hr)
  refine hq.congr_deriv ?_
  have h1 : (-μ') ⬝ᵥ ((C θ)⁻¹ *ᵥ (data - μ θ)) = -fisher (C θ) (data - μ θ) μ' := by
    rw [fisher_symm hpd, fisher, neg_dotProduct]
  rw [h1, dotProduct_add, mulVec_neg, dotProduct_neg, neg_mulVec, dotProduct_neg]
  unfold fisher
  ring

/-- C126: the value returned is differentiable along any curve of means and covariances, whichever
method is used, with derivative `(d-μ)ᵀC⁻¹μ' + ½(d-μ)ᵀC⁻¹C'C⁻¹(d-μ)`, and `+½tr(C⁻¹C')` when the
determinant is included. -/
theorem C126_gradient {C : ℝ → Matrix (Fin N) (Fin N) ℝ} {C' : Matrix (Fin N) (Fin N) ℝ}
    {μ : ℝ → Fin N → ℝ} {μ' : Fin N → ℝ} (data : Fin N → ℝ) (hC : MatDeriv C C' θ)
    (hμ : ∀ i, HasDerivAt (fun s => μ s i) (μ' i) θ) (hpd : (C θ).PosDef) (hs : ∀ s, (C s).IsSymm)
    (incl : Bool) {m : String} (hm : m = "inverse" ∨ m = "cholesky") :
    ∃ L : ℝ → ℝ, (∀ s, gaussianLogLikelihood data (μ s) (.d2 N N (C s)) incl m = .ok (L s)) ∧
      HasDerivAt L (fisher (C θ) (data - μ θ) μ'
        + 1 / 2 * ((data - μ θ) ⬝ᵥ (((C θ)⁻¹ * C' * (C θ)⁻¹) *ᵥ (data - μ θ)))
        + if incl then 1 / 2 * ((C θ)⁻¹ * C').trace else 0) θ := by
  refine ⟨_, fun s => loglike_dense data (μ s) (C s) (hs s) incl hm, ?_⟩
  have h1 := chiSq_moving data hC hμ hpd
  have h2 := hC.logdet hpd.det_pos.ne'
  cases incl with
  | true =>
    refine ((h1.sub h2).const_mul (-(1 / 2))).congr_deriv ?_
    simp only [if_true]
    ring
  | false =>
    refine ((h1.sub (hasDerivAt_const θ (0 : ℝ))).const_mul (-(1 / 2))).congr_deriv ?_
    simp only [Bool.false_eq_true, if_false]
    ring

/-- The same derivative for the logarithm of the Gaussian density: the trace enters with the opposite
sign. -/
theorem C126_density {C : ℝ → Matrix (Fin N) (Fin N) ℝ} {C' : Matrix (Fin N) (Fin N) ℝ}
    {μ : ℝ → Fin N → ℝ} {μ' : Fin N → ℝ} (data : Fin N → ℝ) (hC : MatDeriv C C' θ)
    (hμ : ∀ i, HasDerivAt (fun s => μ s i) (μ' i) θ) (hpd : (C θ).PosDef) :
    HasDerivAt (fun s => Real.log (gaussianDensity data (μ s) (C s)))
      (fisher (C θ) (data - μ θ) μ'
        + 1 / 2 * ((data - μ θ) ⬝ᵥ (((C θ)⁻¹ * C' * (C θ)⁻¹) *ᵥ (data - μ θ)))
        - 1 / 2 * ((C θ)⁻¹ * C').trace) θ := by
  have h1 := chiSq_moving data hC hμ hpd
  have h2 := hC.logdet hpd.det_pos.ne'
  have h3 := ((h1.add h2).const_mul (-(1 / 2))).sub_const (N / 2 * Real.log (2 * Real.pi))
  have e : (fun s => Real.log (gaussianDensity data (μ s) (C s))) =ᶠ[nhds θ]
      fun s => -(1 / 2) * (chiSq data (μ s) (C s) + Real.log |(C s).det|)
        - N / 2 * Real.log (2 * Real.pi) := by
    have hev : ∀ᶠ s in nhds θ, 0 < (C s).det :=
      hC.det.continuousAt.eventually (lt_mem_nhds hpd.det_pos)
    filter_upwards [hev] with s hs
    rw [log_density data (μ s) (C s) hs, abs_of_pos hs]
  refine (h3.congr_deriv ?_).congr_of_eventuallyEq e
  ring

end

section
variable {Ω : Type*} [MeasurableSpace Ω] {P : Measure Ω} [IsProbabilityMeasure P] {N : ℕ} {θ : ℝ}
  {X : Fin N → Ω → ℝ} {C : ℝ → Matrix (Fin N) (Fin N) ℝ} {C' : Matrix (Fin N) (Fin N) ℝ}

/-- Average over data of the part of the gradient that depends on them. -/
theorem gradient_mean (h : GaussianVec P X (C θ)) (hpd : (C θ).PosDef) (m μ' : Fin N → ℝ) (c : ℝ) :
    ∫ ω, (fisher (C θ) ((fun i => m i + X i ω) - m) μ'
        + 1 / 2 * (((fun i => m i + X i ω) - m) ⬝ᵥ
          (((C θ)⁻¹ * C' * (C θ)⁻¹) *ᵥ ((fun i => m i + X i ω) - m))) + c) ∂P
      = 1 / 2 * ((C θ)⁻¹ * C').trace + c := by
  have e : ∀ ω, (fun i => m i + X i ω) - m = fun i => X i ω := fun ω => by
    funext i; simp only [Pi.sub_apply]; ring
  simp only [e]
  obtain ⟨i1, m1⟩ := linear_mean h ((C θ)⁻¹ *ᵥ μ')
  obtain ⟨i2, m2⟩ := quad_mean h ((C θ)⁻¹ * C' * (C θ)⁻¹)
  unfold fisher
  have i3 : Integrable (fun ω => (fun i => X i ω) ⬝ᵥ ((C θ)⁻¹ *ᵥ μ')
      + 1 / 2 * ((fun i => X i ω) ⬝ᵥ (((C θ)⁻¹ * C' * (C θ)⁻¹) *ᵥ fun i => X i ω))) P :=
    i1.add (i2.const_mul _)
  rw [integral_add i3 (integrable_const c), integral_add i1 (i2.const_mul _),
    integral_const_mul, m1, m2, symm_of_posDef hpd, Matrix.mul_assoc,
    nonsing_inv_mul _ (isUnit_iff_ne_zero.2 hpd.det_pos.ne'), Matrix.mul_one]
  simp

/-- C126: averaged over data drawn from the model itself, the gradient at the true parameters is
`tr(C⁻¹C')` (half of it without the determinant).  The gradient of the log density averages to
zero. -/
theorem C126_mean (h : GaussianVec P X (C θ)) {μ : ℝ → Fin N → ℝ} {μ' : Fin N → ℝ}
    (hC : MatDeriv C C' θ) (hμ : ∀ i, HasDerivAt (fun s => μ s i) (μ' i) θ) (hpd : (C θ).PosDef)
    (hs : ∀ s, (C s).IsSymm) (incl : Bool) {meth : String} (hm : meth = "inverse" ∨ meth = "cholesky") :
    ∃ (L : Ω → ℝ → ℝ) (L' D' : Ω → ℝ),
      (∀ ω s, gaussianLogLikelihood (fun i => μ θ i + X i ω) (μ s) (.d2 N N (C s)) incl meth
        = .ok (L ω s)) ∧
      (∀ ω, HasDerivAt (L ω) (L' ω) θ) ∧
      (∀ ω, HasDerivAt (fun s => Real.log (gaussianDensity (fun i => μ θ i + X i ω) (μ s) (C s)))
        (D' ω) θ) ∧
      ∫ ω, L' ω ∂P = (if incl then 1 else 1 / 2) * ((C θ)⁻¹ * C').trace ∧ ∫ ω, D' ω ∂P = 0 := by
  choose L h1 h2 using fun ω => C126_gradient (fun i => μ θ i + X i ω) hC hμ hpd hs incl hm
  refine ⟨L, _, _, h1, h2, fun ω => C126_density _ hC hμ hpd, ?_, ?_⟩
  · rw [gradient_mean h hpd]
    cases incl <;> simp
    ring
  · simp only [sub_eq_add_neg]
    have := gradient_mean (C' := C') h hpd (μ θ) μ' (-(1 / 2 * ((C θ)⁻¹ * C').trace))
    simp only [sub_eq_add_neg] at this
    rw [this]
    ring

end

/-- C126: multiplying a covariance by a factor always raises the value once the factor is large: there is
no best-fitting amplitude of the covariance, whatever the data. -/
theorem C126_unbounded {N : ℕ} (hN : 0 < N) {C : Matrix (Fin N) (Fin N) ℝ} (hC : C.PosDef)
    (data mu : Fin N → ℝ) {m : String} (hm : m = "inverse" ∨ m = "cholesky") :
    ∃ L : ℝ → ℝ, (∀ t, gaussianLogLikelihood data mu (.d2 N N (t • C)) true m = .ok (L t)) ∧
      StrictMonoOn L (Set.Ioi 0) ∧ Filter.Tendsto L Filter.atTop Filter.atTop := by
  have hsym : ∀ t : ℝ, (t • C).IsSymm := fun t => by
    rw [Matrix.IsSymm, transpose_smul, symm_of_posDef hC]
  refine ⟨_, fun t => loglike_dense data mu (t • C) (hsym t) true hm, ?_⟩
  have hχ : 0 ≤ chiSq data mu C := by
    have := hC.inv.posSemidef.dotProduct_mulVec_nonneg (data - mu)
    rwa [star_trivial] at this
  have e : ∀ t : ℝ, 0 < t → -(1 / 2) * (chiSq data mu (t • C) - if true then Real.log |(t • C).det| else 0)
      = -(1 / 2) * (chiSq data mu C / t) + N / 2 * Real.log t + 1 / 2 * Real.log C.det := by
    intro t ht
    have h1 : chiSq data mu (t • C) = chiSq data mu C / t := by
      have : (t • C)⁻¹ = t⁻¹ • C⁻¹ := by
        have hu : IsUnit C.det := isUnit_iff_ne_zero.2 hC.det_pos.ne'
        refine inv_eq_left_inv ?_
        rw [smul_mul_smul_comm, nonsing_inv_mul _ hu, inv_mul_cancel₀ ht.ne', one_smul]
      rw [chiSq, chiSq, this, smul_mulVec, dotProduct_smul, smul_eq_mul, div_eq_inv_mul]
    have h2 : (t • C).det = t ^ N * C.det := by
      rw [det_smul, Fintype.card_fin]
    rw [h1, h2, if_pos rfl, abs_of_pos (mul_pos (pow_pos ht _) hC.det_pos),
      Real.log_mul (pow_pos ht _).ne' hC.det_pos.ne', Real.log_pow]
    ring
  have hN' : (0 : ℝ) < N := by exact_mod_cast hN
  constructor
  · intro a ha b hb hab
    have ha : 0 < a := ha
    have hb : 0 < b := hb
    beta_reduce
    rw [e a ha, e b hb]
    have h1 := div_le_div_of_nonneg_left hχ ha hab.le
    have h2 := mul_lt_mul_of_pos_left (Real.log_lt_log ha hab) (by positivity : (0 : ℝ) < N / 2)
    linarith
  · have h1 : Filter.Tendsto (fun t : ℝ => N / 2 * Real.log t
        + (1 / 2 * Real.log C.det - 1 / 2 * chiSq data mu C)) Filter.atTop Filter.atTop :=
      Filter.tendsto_atTop_add_const_right _ _
        (Real.tendsto_log_atTop.const_mul_atTop (by positivity))
    refine Filter.tendsto_atTop_mono' _ ?_ h1
    filter_upwards [Filter.eventually_ge_atTop 1] with t ht
    rw [e t (by linarith)]
    have : chiSq data mu C / t ≤ chiSq data mu C := div_le_self hχ ht
    linarith

/-- C126 fails: the gradient does not average to zero at the true parameters.  One datum whose variance
is the parameter, `C(s) = s` at `s = 2`: the average gradient is one half. -/
theorem C126_refuted : ¬ ∀ (C : ℝ → Matrix (Fin 1) (Fin 1) ℝ) (C' : Matrix (Fin 1) (Fin 1) ℝ) (θ : ℝ),
    MatDeriv C C' θ → (C θ).PosDef → (∀ s, (C s).IsSymm) →
    ∀ (Ω : Type) (_ : MeasurableSpace Ω) (P : Measure Ω) (_ : IsProbabilityMeasure P)
      (X : Fin 1 → Ω → ℝ), GaussianVec P X (C θ) → ∀ (L : Ω → ℝ → ℝ) (L' : Ω → ℝ),
      (∀ ω s, gaussianLogLikelihood (fun i => X i ω) 0 (.d2 1 1 (C s)) true "inverse" = .ok (L ω s)) →
      (∀ ω, HasDerivAt (L ω) (L' ω) θ) → ∫ ω, L' ω ∂P = 0 := by
  intro H
  have hC : MatDeriv (fun s : ℝ => !![s]) !![1] 2 := fun i j => by
    rw [Subsingleton.elim i 0, Subsingleton.elim j 0]; exact hasDerivAt_id 2
  have hpd : (!![(2 : ℝ)]).PosDef := posDef_scalar two_pos
  have hg := gaussian_data_exist hpd
  obtain ⟨L, L', D', h1, h2, -, h3, -⟩ := C126_mean (C := fun s : ℝ => !![s]) (θ := 2) hg
    (μ := fun _ => 0) (μ' := 0) hC (fun i => hasDerivAt_const _ _) hpd
    (fun s => by ext i j; rw [Subsingleton.elim i 0, Subsingleton.elim j 0]; rfl) true (Or.inl rfl)
  have h4 := H (fun s => !![s]) !![1] 2 hC hpd
    (fun s => by ext i j; rw [Subsingleton.elim i 0, Subsingleton.elim j 0]; rfl) _ _ _ inferInstance _ hg L L'
    (fun ω s => by
      rw [← h1 ω s]
      congr 1
      funext i
      simp) h2
  rw [h4] at h3
  simp [Matrix.trace, Matrix.mul_apply] at h3

/-- Witness: a covariance whose correlation is the parameter; both derivatives at a pair of data. -/
example : ∃ L : ℝ → ℝ, (∀ s, gaussianLogLikelihood ![1, 2] ![s, s ^ 2] (.d2 2 2 !![2, s; s, 2]) true
      "cholesky" = .ok (L s)) ∧ ∃ l, HasDerivAt L l 1 := by
  have hC : MatDeriv (fun s : ℝ => !![2, s; s, 2]) !![0, 1; 1, 0] 1 := fun i j => by
    fin_cases i <;> fin_cases j
    · exact hasDerivAt_const _ _
    · exact hasDerivAt_id _
    · exact hasDerivAt_id _
    · exact hasDerivAt_const _ _
  obtain ⟨L, h1, h2⟩ := C126_gradient ![1, 2] hC (μ := fun s => ![s, s ^ 2]) (μ' := ![1, 2 * 1])
    (fun i => by
      fin_cases i
      · exact hasDerivAt_id _
      · simpa using hasDerivAt_pow 2 (1 : ℝ)) posDef_two
    (fun s => by ext i j; fin_cases i <;> fin_cases j <;> rfl) true (m := "cholesky") (Or.inr rfl)
  exact ⟨L, h1, _, h2⟩

/-- Witness for the unbounded amplitude. -/
example : ∃ L : ℝ → ℝ,
    (∀ t, gaussianLogLikelihood ![1, 2] ![3, 5] (.d2 2 2 (t • !![2, 1; 1, 2])) true "inverse" = .ok (L t)) ∧
      L 1 < L 2 := by
  obtain ⟨L, h1, h2, -⟩ := C126_unbounded (by norm_num) posDef_two ![1, 2] ![3, 5] (m := "inverse") (Or.inl rfl)
  exact ⟨L, h1, h2 (by simp) (by simp) (by norm_num)⟩

end JaxCosmo
