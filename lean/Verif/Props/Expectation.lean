import Verif.Proofs.Wick
import Verif.Props.Score
import Mathlib.Probability.Distributions.Gaussian.Multivariate
import Mathlib.Probability.Moments.Variance

/-! # C103: what the likelihood gives on average over data -/

namespace JaxCosmo
open MeasureTheory ProbabilityTheory Matrix Spec

section
variable {Ω : Type*} [MeasurableSpace Ω] {P : Measure Ω} [IsProbabilityMeasure P] {N : ℕ}
  {X : Fin N → Ω → ℝ} {C : Matrix (Fin N) (Fin N) ℝ}

omit [IsProbabilityMeasure P] in
theorem gauss_mean (h : GaussianVec P X C) (i : Fin N) : ∫ ω, X i ω ∂P = 0 := by
  have h1 := (h.law (Pi.single i 1)).integral_comp (f := fun x => x) (by fun_prop)
  simp only [Function.comp_def] at h1
  rw [integral_id_gaussianReal] at h1
  simpa [Pi.single_apply] using h1

omit [IsProbabilityMeasure P] in
theorem gauss_integrable [IsFiniteMeasure P] (h : GaussianVec P X C) (i : Fin N) :
    Integrable (X i) P :=
  (h.coord i 1).integrable (by norm_num)

/-- A bilinear form in the noise as a double sum. -/
theorem quad_sum (B : Matrix (Fin N) (Fin N) ℝ) (x y : Fin N → ℝ) :
    x ⬝ᵥ (B *ᵥ y) = ∑ i, ∑ j, B i j * (x i * y j) := by
  simp only [dotProduct, mulVec, Finset.mul_sum]
  exact Finset.sum_congr rfl fun i _ => Finset.sum_congr rfl fun j _ => by ring

omit [IsProbabilityMeasure P] in
theorem quad_mean (h : GaussianVec P X C) (B : Matrix (Fin N) (Fin N) ℝ) :
    Integrable (fun ω => (fun i => X i ω) ⬝ᵥ (B *ᵥ fun i => X i ω)) P ∧
    ∫ ω, (fun i => X i ω) ⬝ᵥ (B *ᵥ fun i => X i ω) ∂P = (B * Cᵀ).trace := by
  simp only [quad_sum]
  have hi : ∀ i j, Integrable (fun ω => B i j * (X i ω * X j ω)) P := fun i j =>
    (h.two i j).1.const_mul _
  refine ⟨integrable_finsetSum _ fun i _ => integrable_finsetSum _ fun j _ => hi i j, ?_⟩
  rw [integral_finsetSum _ fun i _ => integrable_finsetSum _ fun j _ => hi i j]
  simp only [trace, diag_apply, mul_apply, transpose_apply]
  refine Finset.sum_congr rfl fun i _ => ?_
  rw [integral_finsetSum _ fun j _ => hi i j]
  exact Finset.sum_congr rfl fun j _ => by rw [integral_const_mul, (h.two i j).2]

theorem linear_mean (h : GaussianVec P X C) (t : Fin N → ℝ) :
    Integrable (fun ω => (fun i => X i ω) ⬝ᵥ t) P ∧ ∫ ω, (fun i => X i ω) ⬝ᵥ t ∂P = 0 := by
  simp only [dotProduct]
  have hi : ∀ i, Integrable (fun ω => X i ω * t i) P := fun i => (gauss_integrable h i).mul_const _
  refine ⟨integrable_finsetSum _ fun i _ => hi i, ?_⟩
  rw [integral_finsetSum _ fun i _ => hi i]
  simp only [integral_mul_const, gauss_mean h, zero_mul, Finset.sum_const_zero]

/-- `χ²` of data `m + X` against the mean `mu`. -/
theorem chiSq_split (hC : C.PosDef) (m mu x : Fin N → ℝ) :
    chiSq (fun i => m i + x i) mu C
      = x ⬝ᵥ (C⁻¹ *ᵥ x) + 2 * (x ⬝ᵥ (C⁻¹ *ᵥ (m - mu))) + fisher C (m - mu) (m - mu) := by
  have e : (fun i => m i + x i) - mu = x + (m - mu) := by
    funext i; simp only [Pi.sub_apply, Pi.add_apply]; ring
  have hs : (m - mu) ⬝ᵥ (C⁻¹ *ᵥ x) = x ⬝ᵥ (C⁻¹ *ᵥ (m - mu)) := fisher_symm hC _ _
  rw [chiSq, e, mulVec_add, dotProduct_add, add_dotProduct, add_dotProduct, hs, fisher]
  ring

/-- C103: when data scatter with the covariance that is used to analyse them, the expected log
likelihood (without determinant) of a model is `-(N + δᵀ C⁻¹ δ)/2`, where `δ` is the difference between
the true and the model mean. -/
theorem C103_mean (h : GaussianVec P X C) (hC : C.PosDef) (m mu : Fin N → ℝ) {method : String}
    (hm : method = "inverse" ∨ method = "cholesky") :
    ∃ L : Ω → ℝ, (∀ ω, gaussianLogLikelihood (fun i => m i + X i ω) mu (.d2 N N C) false method
        = .ok (L ω)) ∧ Integrable L P ∧
      ∫ ω, L ω ∂P = -(1 / 2) * (N + fisher C (m - mu) (m - mu)) := by
  refine ⟨_, fun ω => loglike_dense _ mu C (symm_of_posDef hC) false hm, ?_⟩
  simp only [Bool.false_eq_true, if_false, sub_zero, chiSq_split hC]
  obtain ⟨i1, e1⟩ := quad_mean h C⁻¹
  obtain ⟨i2, e2⟩ := linear_mean h (C⁻¹ *ᵥ (m - mu))
  have i12 : Integrable (fun ω => (fun i => X i ω) ⬝ᵥ (C⁻¹ *ᵥ fun i => X i ω)
      + 2 * ((fun i => X i ω) ⬝ᵥ (C⁻¹ *ᵥ (m - mu)))) P := i1.add (i2.const_mul 2)
  have i3 := i12.add (integrable_const (μ := P) (fisher C (m - mu) (m - mu)))
  refine ⟨i3.const_mul _, ?_⟩
  rw [integral_const_mul, integral_add i12 (integrable_const _), integral_add i1 (i2.const_mul 2),
    integral_const_mul, e1, e2, integral_const, h.symm,
    nonsing_inv_mul _ (isUnit_iff_ne_zero.2 hC.det_pos.ne'), trace_one]
  simp

/-- C103: so on average no model is preferred to the truth, and only models with the same mean are
equally good. -/
theorem C103_truth (h : GaussianVec P X C) (hC : C.PosDef) (m mu : Fin N → ℝ) {method : String}
    (hm : method = "inverse" ∨ method = "cholesky") :
    ∃ L L₀ : Ω → ℝ,
      (∀ ω, gaussianLogLikelihood (fun i => m i + X i ω) mu (.d2 N N C) false method = .ok (L ω)) ∧
      (∀ ω, gaussianLogLikelihood (fun i => m i + X i ω) m (.d2 N N C) false method = .ok (L₀ ω)) ∧
      ∫ ω, L ω ∂P ≤ ∫ ω, L₀ ω ∂P ∧ (∫ ω, L ω ∂P = ∫ ω, L₀ ω ∂P ↔ mu = m) := by
  obtain ⟨L, a1, -, a3⟩ := C103_mean h hC m mu hm
  obtain ⟨L₀, b1, -, b3⟩ := C103_mean h hC m m hm
  obtain ⟨h1, h2⟩ := C88_information hC (m - mu)
  have h0 : fisher C (m - m) (m - m) = 0 := by simp [fisher]
  rw [h0] at b3
  refine ⟨L, L₀, a1, b1, by rw [a3, b3]; linarith, ?_⟩
  rw [a3, b3]
  constructor
  · intro e
    by_contra hne
    have := h2.2 (sub_ne_zero.2 (Ne.symm hne))
    linarith
  · rintro rfl
    rw [h0]

/-- C103: the scatter of `χ²` about the number of data is `√(2N)`. -/
theorem C103_variance (h : GaussianVec P X C) (hC : C.PosDef) (m : Fin N → ℝ) {method : String}
    (hm : method = "inverse" ∨ method = "cholesky") :
    ∃ L : Ω → ℝ, (∀ ω, gaussianLogLikelihood (fun i => m i + X i ω) m (.d2 N N C) false method
        = .ok (L ω)) ∧ Var[fun ω => -2 * L ω; P] = 2 * N := by
  refine ⟨_, fun ω => loglike_dense _ m C (symm_of_posDef hC) false hm, ?_⟩
  simp only [Bool.false_eq_true, if_false, sub_zero, chiSq_split hC, sub_self]
  have e : (fun ω => -2 * (-(1 / 2) * ((fun i => X i ω) ⬝ᵥ (C⁻¹ *ᵥ fun i => X i ω)
      + 2 * ((fun i => X i ω) ⬝ᵥ (C⁻¹ *ᵥ 0)) + fisher C 0 0)))
      = fun ω => ∑ i, ∑ j, C⁻¹ i j * (X i ω * X j ω) := by
    funext ω
    rw [mulVec_zero, dotProduct_zero, ← quad_sum, fisher, mulVec_zero, dotProduct_zero]
    ring
  rw [e]
  have hm2 : ∀ i j, MemLp (fun ω => C⁻¹ i j * (X i ω * X j ω)) 2 P := fun i j =>
    (h.prod_memLp i j).const_mul _
  have hrow : ∀ i, MemLp (fun ω => ∑ j, C⁻¹ i j * (X i ω * X j ω)) 2 P := fun i =>
    memLp_finsetSum _ fun j _ => hm2 i j
  rw [← covariance_self (memLp_finsetSum _ fun i _ => hrow i).aemeasurable,
    covariance_fun_sum_fun_sum hrow hrow]
  simp only [covariance_fun_sum_fun_sum (hm2 _) (hm2 _), covariance_const_mul_left,
    covariance_const_mul_right, h.cov_prod]
  have hs : ∀ i j, C j i = C i j := fun i j => h.symm.apply i j
  have hu : IsUnit C.det := isUnit_iff_ne_zero.2 hC.det_pos.ne'
  have hB : ∀ i j, C⁻¹ j i = C⁻¹ i j := fun i j =>
    congrFun (congrFun (show (C⁻¹)ᵀ = C⁻¹ by rw [transpose_nonsing_inv, symm_of_posDef hC]) i) j
  have h1 : ∀ i k, ∑ j, C⁻¹ i j * C j k = if i = k then 1 else 0 := fun i k => by
    rw [← mul_apply, nonsing_inv_mul _ hu, one_apply]
  have key : ∀ k l, ∑ i, ∑ j, C⁻¹ i j * (C i k * C j l) = C k l := fun k l => by
    have : ∀ i, ∑ j, C⁻¹ i j * (C i k * C j l) = C i k * if i = l then 1 else 0 := fun i => by
      rw [← h1, Finset.mul_sum]
      exact Finset.sum_congr rfl fun j _ => by ring
    simp only [this, mul_ite, mul_one, mul_zero, Finset.sum_ite_eq', Finset.mem_univ, if_true]
    exact hs k l
  have e2 : ∀ i k, ∑ j, ∑ l, C⁻¹ k l * (C⁻¹ i j * (C i k * C j l + C i l * C j k))
      = ∑ l, ∑ j, C⁻¹ k l * (C⁻¹ i j * (C i k * C j l) + C⁻¹ i j * (C i l * C j k)) := fun i k => by
    rw [Finset.sum_comm]
    exact Finset.sum_congr rfl fun l _ => Finset.sum_congr rfl fun j _ => by ring
  simp only [e2]
  rw [Finset.sum_comm]
  have e3 : ∀ k, ∑ i, ∑ l, ∑ j, C⁻¹ k l * (C⁻¹ i j * (C i k * C j l) + C⁻¹ i j * (C i l * C j k))
      = 2 := fun k => by
    rw [Finset.sum_comm]
    have : ∀ l, ∑ i, ∑ j, C⁻¹ k l * (C⁻¹ i j * (C i k * C j l) + C⁻¹ i j * (C i l * C j k))
        = 2 * (C⁻¹ k l * C l k) := fun l => by
      simp only [← Finset.mul_sum, Finset.sum_add_distrib, key, hs l k]
      ring
    rw [Finset.sum_congr rfl fun l _ => this l, ← Finset.mul_sum, h1, if_pos rfl, mul_one]
  simp only [e3, Finset.sum_const, Finset.card_univ, Fintype.card_fin, nsmul_eq_mul]
  ring

/-- C103: the score at the true parameters averages to zero over data and its covariance is the Fisher
matrix that `C88_fisher` finds as the curvature. -/
theorem C103_score {E : Type*} [NormedAddCommGroup E] [NormedSpace ℝ E] (h : GaussianVec P X C)
    (hC : C.PosDef) (incl : Bool) {method : String} (hm : method = "inverse" ∨ method = "cholesky")
    {μ : E → Fin N → ℝ} {μ' : E →L[ℝ] Fin N → ℝ} {x : E} (hμ : HasFDerivAt μ μ' x) :
    ∃ (L : Ω → E → ℝ) (L' : Ω → E →L[ℝ] ℝ),
      (∀ ω y, gaussianLogLikelihood (fun i => μ x i + X i ω) (μ y) (.d2 N N C) incl method
        = .ok (L ω y)) ∧ (∀ ω, HasFDerivAt (L ω) (L' ω) x) ∧
      (∀ u, ∫ ω, L' ω u ∂P = 0) ∧
      ∀ u v, cov[fun ω => L' ω u, fun ω => L' ω v; P] = fisher C (μ' u) (μ' v) := by
  choose L L' h1 h2 h3 using fun ω => C88_score hC (fun i => μ x i + X i ω) incl hm hμ
  have e : ∀ ω u, L' ω u = ∑ i, (C⁻¹ *ᵥ μ' u) i * X i ω := fun ω u => by
    rw [h3, fisher, show (fun i => μ x i + X i ω) - μ x = fun i => X i ω by
      funext i; simp only [Pi.sub_apply]; ring, dotProduct]
    exact Finset.sum_congr rfl fun i _ => mul_comm _ _
  refine ⟨L, L', h1, h2, fun u => ?_, fun u v => ?_⟩
  · simp only [e]
    rw [← (linear_mean h (C⁻¹ *ᵥ μ' u)).2]
    simp only [dotProduct, mul_comm]
  · have hl : ∀ u i, MemLp (fun ω => (C⁻¹ *ᵥ μ' u) i * X i ω) 2 P := fun u i =>
      (h.coord i 2).const_mul _
    have hc : ∀ i j, cov[X i, X j; P] = C i j := fun i j => by
      rw [covariance_eq_sub (h.coord i 2) (h.coord j 2), gauss_mean h i, gauss_mean h j]
      simpa using (h.two i j).2
    simp only [e]
    rw [covariance_fun_sum_fun_sum (hl u) (hl v)]
    simp only [covariance_const_mul_left, covariance_const_mul_right, hc]
    have hcv : C *ᵥ (C⁻¹ *ᵥ μ' v) = μ' v := by
      rw [mulVec_mulVec, mul_nonsing_inv _ (isUnit_iff_ne_zero.2 hC.det_pos.ne'), one_mulVec]
    have hf : fisher C (μ' u) (μ' v) = (C⁻¹ *ᵥ μ' u) ⬝ᵥ (C *ᵥ (C⁻¹ *ᵥ μ' v)) := by
      rw [hcv, fisher_symm hC, fisher, dotProduct_comm]
    rw [hf, quad_sum]
    exact Finset.sum_congr rfl fun i _ => Finset.sum_congr rfl fun j _ => by ring

end

/-! ## Witnesses -/

/-- For every positive definite covariance there are Gaussian data with that covariance. -/
theorem gaussian_data_exist {N : ℕ} {C : Matrix (Fin N) (Fin N) ℝ} (hC : C.PosDef) :
    GaussianVec (multivariateGaussian 0 C) (fun i (x : EuclideanSpace ℝ (Fin N)) => x i) C := by
  refine ⟨symm_of_posDef hC, fun t => ?_, fun t => ?_⟩
  · have := hC.posSemidef.dotProduct_mulVec_nonneg t
    rwa [star_trivial] at this
  · have e : (fun x : EuclideanSpace ℝ (Fin N) => ∑ i, t i * x i)
        = innerSL ℝ (WithLp.toLp 2 t) := by
      funext x
      simp [PiLp.inner_apply, mul_comm]
    rw [e]
    refine ⟨by fun_prop, ?_⟩
    rw [IsGaussian.map_eq_gaussianReal, ContinuousLinearMap.integral_comp_id_comm
      IsGaussian.integrable_id, integral_id_multivariateGaussian, map_zero]
    congr 2
    have := covarianceBilin_multivariateGaussian (μ := 0) hC.posSemidef (WithLp.toLp 2 t)
      (WithLp.toLp 2 t)
    rw [covarianceBilin_self IsGaussian.memLp_two_id] at this
    exact this

/-- Two correlated data with true mean `(1, 2)`: the model with mean `(0, 2)` loses `1/3` in the average
log likelihood, and `χ²` of the true model has variance 4. -/
example : (∃ L : EuclideanSpace ℝ (Fin 2) → ℝ,
      (∀ x, gaussianLogLikelihood (fun i => ![1, 2] i + x i) ![0, 2] (.d2 2 2 !![2, 1; 1, 2]) false
        "cholesky" = .ok (L x)) ∧
      ∫ x, L x ∂(multivariateGaussian 0 !![2, 1; 1, 2]) = -1 - 1 / 3) ∧
    ∃ L : EuclideanSpace ℝ (Fin 2) → ℝ,
      (∀ x, gaussianLogLikelihood (fun i => ![1, 2] i + x i) ![1, 2] (.d2 2 2 !![2, 1; 1, 2]) false
        "cholesky" = .ok (L x)) ∧
      Var[fun x => -2 * L x; multivariateGaussian 0 !![2, 1; 1, 2]] = 4 := by
  constructor
  · obtain ⟨L, h1, -, h3⟩ := C103_mean (gaussian_data_exist posDef_two) posDef_two ![1, 2] ![0, 2]
      (method := "cholesky") (Or.inr rfl)
    refine ⟨L, h1, ?_⟩
    rw [h3, fisher, inv_def, adjugate_fin_two, det_fin_two]
    norm_num [Ring.inverse_eq_inv']
    norm_num [Matrix.vecHead]
  · obtain ⟨L, h1, h2⟩ := C103_variance (gaussian_data_exist posDef_two) posDef_two ![1, 2]
      (method := "cholesky") (Or.inr rfl)
    exact ⟨L, h1, by rw [h2]; norm_num⟩

end JaxCosmo
