import Verif.Spec.Estimation
import Verif.Props.Expectation

/-! # C150: fitting parameters with the likelihood -/

namespace JaxCosmo
open MeasureTheory ProbabilityTheory Matrix Spec

variable {N k : ℕ} {C : Matrix (Fin N) (Fin N) ℝ} {J : Matrix (Fin N) (Fin k) ℝ}

theorem fisherMatrix_eq (C : Matrix (Fin N) (Fin N) ℝ) (J : Matrix (Fin N) (Fin k) ℝ) :
    fisherMatrix C J = Jᵀ * C⁻¹ * J := by
  ext i j
  rw [fisherMatrix, of_apply, fisher, Matrix.mul_assoc, mul_apply']
  congr 1

theorem fisherMatrix_posDef (hC : C.PosDef) (hJ : Function.Injective J.mulVec) :
    (fisherMatrix C J).PosDef := by
  rw [fisherMatrix_eq]
  have := hC.inv.conjTranspose_mul_mul_same hJ
  rwa [conjTranspose_eq_transpose_of_trivial] at this

theorem dot_mulVec_transpose (A : Matrix (Fin N) (Fin k) ℝ) (x : Fin N → ℝ) (y : Fin k → ℝ) :
    x ⬝ᵥ (A *ᵥ y) = (Aᵀ *ᵥ x) ⬝ᵥ y := by
  rw [dotProduct_mulVec, mulVec_transpose]

theorem fisher_mulVec (C : Matrix (Fin N) (Fin N) ℝ) (J : Matrix (Fin N) (Fin k) ℝ) (v : Fin k → ℝ) :
    Jᵀ *ᵥ (C⁻¹ *ᵥ (J *ᵥ v)) = fisherMatrix C J *ᵥ v := by
  rw [fisherMatrix_eq, ← mulVec_mulVec, ← mulVec_mulVec]

/-- The residual of the best fit carries no information on the parameters. -/
theorem bestFit_normal (hC : C.PosDef) (hJ : Function.Injective J.mulVec) (m d : Fin N → ℝ) :
    Jᵀ *ᵥ (C⁻¹ *ᵥ (d - (m + J *ᵥ bestFit C J m d))) = 0 := by
  have hu : IsUnit (fisherMatrix C J).det := isUnit_iff_ne_zero.2 (fisherMatrix_posDef hC hJ).det_pos.ne'
  have e : Jᵀ *ᵥ (C⁻¹ *ᵥ (J *ᵥ bestFit C J m d)) = Jᵀ *ᵥ (C⁻¹ *ᵥ (d - m)) := by
    rw [fisher_mulVec, bestFit, mulVec_mulVec, mul_nonsing_inv _ hu, one_mulVec]
  rw [← sub_sub, mulVec_sub, mulVec_sub, sub_eq_zero, e]

theorem chiSq_parabola (hC : C.PosDef) (hJ : Function.Injective J.mulVec) (m d : Fin N → ℝ) (θ : Fin k → ℝ) :
    chiSq d (m + J *ᵥ θ) C = chiSq d (m + J *ᵥ bestFit C J m d) C
      + (θ - bestFit C J m d) ⬝ᵥ (fisherMatrix C J *ᵥ (θ - bestFit C J m d)) := by
  set t := bestFit C J m d with ht
  set r := d - (m + J *ᵥ t) with hr
  set δ := θ - t with hδ
  have e : d - (m + J *ᵥ θ) = r - J *ᵥ δ := by
    rw [hr, hδ, mulVec_sub]; abel
  have n0 : Jᵀ *ᵥ (C⁻¹ *ᵥ r) = 0 := bestFit_normal hC hJ m d
  have c1 : (J *ᵥ δ) ⬝ᵥ (C⁻¹ *ᵥ r) = 0 := by
    rw [dotProduct_comm, dot_mulVec_transpose, n0, zero_dotProduct]
  have c2 : r ⬝ᵥ (C⁻¹ *ᵥ (J *ᵥ δ)) = 0 := by
    rw [← c1]; exact fisher_symm hC _ _
  have c3 : (J *ᵥ δ) ⬝ᵥ (C⁻¹ *ᵥ (J *ᵥ δ)) = δ ⬝ᵥ (fisherMatrix C J *ᵥ δ) := by
    rw [dotProduct_comm (J *ᵥ δ), dot_mulVec_transpose, dotProduct_comm, mulVec_mulVec, mulVec_mulVec,
      fisherMatrix_eq]
  unfold chiSq
  rw [e, mulVec_sub C⁻¹, dotProduct_sub, sub_dotProduct r, sub_dotProduct r, c1, c2, c3]
  ring

/-- C150: as a function of the parameters of a linear model the log likelihood is a parabola whose
curvature is the Fisher matrix and whose top is the generalised least squares solution. -/
theorem C150_parabola (hC : C.PosDef) (hJ : Function.Injective J.mulVec) (m d : Fin N → ℝ) (incl : Bool)
    {method : String} (hm : method = "inverse" ∨ method = "cholesky") :
    ∃ L : (Fin k → ℝ) → ℝ,
      (∀ θ, gaussianLogLikelihood d (m + J *ᵥ θ) (.d2 N N C) incl method = .ok (L θ)) ∧
      (∀ θ, L θ = L (bestFit C J m d)
        - 1 / 2 * ((θ - bestFit C J m d) ⬝ᵥ (fisherMatrix C J *ᵥ (θ - bestFit C J m d)))) ∧
      (∀ θ, L θ ≤ L (bestFit C J m d)) ∧ ∀ θ, L θ = L (bestFit C J m d) → θ = bestFit C J m d := by
  refine ⟨_, fun θ => loglike_dense d _ C (symm_of_posDef hC) incl hm, fun θ => ?_, fun θ => ?_, fun θ h => ?_⟩
  · rw [chiSq_parabola hC hJ m d θ]; ring
  · rw [chiSq_parabola hC hJ m d θ]
    have := (fisherMatrix_posDef hC hJ).posSemidef.dotProduct_mulVec_nonneg (θ - bestFit C J m d)
    rw [star_trivial] at this
    linarith
  · rw [chiSq_parabola hC hJ m d θ] at h
    by_contra hne
    have := (fisherMatrix_posDef hC hJ).dotProduct_mulVec_pos (x := θ - bestFit C J m d) (sub_ne_zero.2 hne)
    rw [star_trivial] at this
    linarith

/-- C150 for sparse covariances. -/
theorem C150_sparse {n Q : ℕ} (S : Sp ℝ (n + 1) (n + 1) Q) (hS : (denseEntry S).PosDef)
    {J : Matrix (Fin ((n + 1) * Q)) (Fin k) ℝ} (hJ : Function.Injective J.mulVec)
    (m d : Fin ((n + 1) * Q) → ℝ) (incl : Bool) (method : String) :
    ∃ L : (Fin k → ℝ) → ℝ,
      (∀ θ, gaussianLogLikelihood d (m + J *ᵥ θ) (.d3 _ _ Q S) incl method = .ok (L θ)) ∧
      (∀ θ, L θ = L (bestFit (denseEntry S) J m d) - 1 / 2 * ((θ - bestFit (denseEntry S) J m d)
        ⬝ᵥ (fisherMatrix (denseEntry S) J *ᵥ (θ - bestFit (denseEntry S) J m d)))) ∧
      (∀ θ, L θ ≤ L (bestFit (denseEntry S) J m d)) ∧
      ∀ θ, L θ = L (bestFit (denseEntry S) J m d) → θ = bestFit (denseEntry S) J m d := by
  obtain ⟨L, h1, h2⟩ := C150_parabola hS hJ m d incl (Or.inl rfl : "inverse" = "inverse" ∨ _)
  refine ⟨L, fun θ => ?_, h2⟩
  rw [loglike_sparse _ _ S hS, ← h1, loglike_dense _ _ _ (symm_of_posDef hS) incl (Or.inl rfl)]

/-! ### Noise -/

section
variable {Ω : Type*} [MeasurableSpace Ω] {P : Measure Ω} [IsProbabilityMeasure P] {X : Fin N → Ω → ℝ}

theorem gauss_cov (h : GaussianVec P X C) (s t : Fin N → ℝ) :
    cov[fun ω => ∑ i, s i * X i ω, fun ω => ∑ i, t i * X i ω; P] = s ⬝ᵥ (C *ᵥ t) := by
  have hl : ∀ (s : Fin N → ℝ) i, MemLp (fun ω => s i * X i ω) 2 P := fun s i => (h.coord i 2).const_mul _
  have hc : ∀ i j, cov[X i, X j; P] = C i j := fun i j => by
    rw [covariance_eq_sub (h.coord i 2) (h.coord j 2), gauss_mean h i, gauss_mean h j]
    simpa using (h.two i j).2
  rw [covariance_fun_sum_fun_sum (hl s) (hl t), quad_sum]
  simp only [covariance_const_mul_left, covariance_const_mul_right, hc]
  exact Finset.sum_congr rfl fun i _ => Finset.sum_congr rfl fun j _ => by ring

/-- Weights of the best fit of the combination `u` of parameters. -/
noncomputable def fitWeights (C : Matrix (Fin N) (Fin N) ℝ) (J : Matrix (Fin N) (Fin k) ℝ) (u : Fin k → ℝ) :
    Fin N → ℝ := C⁻¹ *ᵥ (J *ᵥ ((fisherMatrix C J)⁻¹ *ᵥ u))

theorem fitWeights_J (hC : C.PosDef) (hJ : Function.Injective J.mulVec) (u : Fin k → ℝ) :
    Jᵀ *ᵥ fitWeights C J u = u := by
  have hu : IsUnit (fisherMatrix C J).det := isUnit_iff_ne_zero.2 (fisherMatrix_posDef hC hJ).det_pos.ne'
  rw [fitWeights, mulVec_mulVec, mulVec_mulVec, mulVec_mulVec, ← fisherMatrix_eq, mul_nonsing_inv _ hu, one_mulVec]

theorem fitWeights_C (hC : C.PosDef) (u : Fin k → ℝ) :
    C *ᵥ fitWeights C J u = J *ᵥ ((fisherMatrix C J)⁻¹ *ᵥ u) := by
  rw [fitWeights, mulVec_mulVec, mul_nonsing_inv _ (isUnit_iff_ne_zero.2 hC.det_pos.ne'), one_mulVec]

theorem fitWeights_var (hC : C.PosDef) (hJ : Function.Injective J.mulVec) (u v : Fin k → ℝ) :
    fitWeights C J u ⬝ᵥ (C *ᵥ fitWeights C J v) = u ⬝ᵥ ((fisherMatrix C J)⁻¹ *ᵥ v) := by
  rw [fitWeights_C hC, dot_mulVec_transpose, fitWeights_J hC hJ]

/-- The best fit of data `m + J θ + X` is the truth plus weighted noise. -/
theorem bestFit_noise (hC : C.PosDef) (hJ : Function.Injective J.mulVec) (m x : Fin N → ℝ) (θ u : Fin k → ℝ) :
    u ⬝ᵥ bestFit C J m (m + J *ᵥ θ + x) = u ⬝ᵥ θ + fitWeights C J u ⬝ᵥ x := by
  have hF := fisherMatrix_posDef hC hJ
  have hu : IsUnit (fisherMatrix C J).det := isUnit_iff_ne_zero.2 hF.det_pos.ne'
  have e : m + J *ᵥ θ + x - m = J *ᵥ θ + x := by abel
  have sF : ((fisherMatrix C J)⁻¹)ᵀ = (fisherMatrix C J)⁻¹ := by rw [transpose_nonsing_inv, symm_of_posDef hF]
  have sC : (C⁻¹)ᵀ = C⁻¹ := by rw [transpose_nonsing_inv, symm_of_posDef hC]
  rw [bestFit, e, mulVec_add, mulVec_add, mulVec_add, dotProduct_add]
  congr 1
  · rw [fisher_mulVec, mulVec_mulVec, nonsing_inv_mul _ hu, one_mulVec]
  · rw [dot_mulVec_transpose, sF, dot_mulVec_transpose, transpose_transpose, dot_mulVec_transpose, sC, fitWeights]

/-- C150: the best fit is unbiased and the covariance of its errors is the inverse of the Fisher matrix. -/
theorem C150_errors (h : GaussianVec P X C) (hC : C.PosDef) (hJ : Function.Injective J.mulVec)
    (m : Fin N → ℝ) (θ : Fin k → ℝ) :
    (∀ i, ∫ ω, bestFit C J m (m + J *ᵥ θ + fun r => X r ω) i ∂P = θ i) ∧
    ∀ i j, cov[fun ω => bestFit C J m (m + J *ᵥ θ + fun r => X r ω) i,
      fun ω => bestFit C J m (m + J *ᵥ θ + fun r => X r ω) j; P] = (fisherMatrix C J)⁻¹ i j := by
  have e : ∀ i ω, bestFit C J m (m + J *ᵥ θ + fun r => X r ω) i
      = θ i + ∑ r, fitWeights C J (Pi.single i 1) r * X r ω := fun i ω => by
    have := bestFit_noise hC hJ m (fun r => X r ω) θ (Pi.single i 1)
    rw [single_one_dotProduct, single_one_dotProduct] at this
    rw [this, dotProduct]
  have hi : ∀ t : Fin N → ℝ, Integrable (fun ω => ∑ r, t r * X r ω) P := fun t =>
    integrable_finsetSum _ fun r _ => (gauss_integrable h r).const_mul _
  constructor
  · intro i
    simp only [e]
    rw [integral_add (integrable_const _) (hi _), integral_const]
    have := (linear_mean h (fitWeights C J (Pi.single i 1))).2
    simp only [dotProduct] at this
    simp only [mul_comm]
    rw [this]
    simp
  · intro i j
    simp only [e]
    rw [covariance_const_add_left (hi _), covariance_const_add_right (hi _), gauss_cov h, fitWeights_var hC hJ,
      single_one_dotProduct]
    simp [mulVec_single]

/-- C150: no unbiased linear estimator of a combination of the parameters has a smaller variance than
that combination of the best fit, and the only one with the same variance is that one. -/
theorem C150_optimal (h : GaussianVec P X C) (hC : C.PosDef) (hJ : Function.Injective J.mulVec)
    (m : Fin N → ℝ) (u : Fin k → ℝ) (c : ℝ) (t : Fin N → ℝ)
    (hub : ∀ θ, ∫ ω, c + t ⬝ᵥ (m + J *ᵥ θ + fun r => X r ω) ∂P = u ⬝ᵥ θ) (θ : Fin k → ℝ) :
    Var[fun ω => u ⬝ᵥ bestFit C J m (m + J *ᵥ θ + fun r => X r ω); P] = u ⬝ᵥ ((fisherMatrix C J)⁻¹ *ᵥ u) ∧
    u ⬝ᵥ ((fisherMatrix C J)⁻¹ *ᵥ u) ≤ Var[fun ω => c + t ⬝ᵥ (m + J *ᵥ θ + fun r => X r ω); P] ∧
    (Var[fun ω => c + t ⬝ᵥ (m + J *ᵥ θ + fun r => X r ω); P] = u ⬝ᵥ ((fisherMatrix C J)⁻¹ *ᵥ u) →
      ∀ d, c + t ⬝ᵥ d = u ⬝ᵥ bestFit C J m d) := by
  have hi : ∀ t : Fin N → ℝ, Integrable (fun ω => ∑ r, t r * X r ω) P := fun t =>
    integrable_finsetSum _ fun r _ => (gauss_integrable h r).const_mul _
  have hz : ∀ t : Fin N → ℝ, ∫ ω, ∑ r, t r * X r ω ∂P = 0 := fun t => by
    have := (linear_mean h t).2
    simp only [dotProduct] at this
    simp only [mul_comm]
    exact this
  have split : ∀ (a : ℝ) (s y : Fin N → ℝ) ω, a + s ⬝ᵥ (y + fun r => X r ω)
      = (a + s ⬝ᵥ y) + ∑ r, s r * X r ω := fun a s y ω => by
    rw [dotProduct_add, add_assoc]; rfl
  have hvar : ∀ (a : ℝ) (s : Fin N → ℝ), Var[fun ω => a + ∑ r, s r * X r ω; P] = s ⬝ᵥ (C *ᵥ s) := fun a s => by
    have ha : AEMeasurable (fun ω => a + ∑ r, s r * X r ω) P := ((integrable_const a).add (hi s)).aemeasurable
    rw [← covariance_self ha, covariance_const_add_left (hi _),
      covariance_const_add_right (hi _), gauss_cov h]
  have hmean : ∀ θ, c + t ⬝ᵥ (m + J *ᵥ θ) = u ⬝ᵥ θ := fun θ => by
    rw [← hub θ]
    simp only [split]
    rw [integral_add (integrable_const _) (hi _), hz, integral_const]
    simp
  have hc : c + t ⬝ᵥ m = 0 := by simpa using hmean 0
  have htJ : Jᵀ *ᵥ t = u := by
    have : ∀ θ, (Jᵀ *ᵥ t) ⬝ᵥ θ = u ⬝ᵥ θ := fun θ => by
      have := hmean θ
      rw [dotProduct_add, dot_mulVec_transpose] at this
      linarith
    funext i
    have := this (Pi.single i 1)
    simpa using this
  have key : t ⬝ᵥ (C *ᵥ t) = u ⬝ᵥ ((fisherMatrix C J)⁻¹ *ᵥ u)
      + (t - fitWeights C J u) ⬝ᵥ (C *ᵥ (t - fitWeights C J u)) := by
    have o : (t - fitWeights C J u) ⬝ᵥ (C *ᵥ fitWeights C J u) = 0 := by
      rw [fitWeights_C hC, dot_mulVec_transpose, mulVec_sub, htJ, fitWeights_J hC hJ, sub_self, zero_dotProduct]
    have o' : fitWeights C J u ⬝ᵥ (C *ᵥ (t - fitWeights C J u)) = 0 := by
      rw [dot_mulVec_transpose, symm_of_posDef hC, dotProduct_comm]; exact o
    rw [← fitWeights_var hC hJ]
    set s := fitWeights C J u
    have : t = s + (t - s) := by abel
    conv_lhs => rw [this]
    rw [mulVec_add, dotProduct_add, add_dotProduct, add_dotProduct, o, o']
    ring
  refine ⟨?_, ?_, ?_⟩
  · have e : (fun ω => u ⬝ᵥ bestFit C J m (m + J *ᵥ θ + fun r => X r ω))
        = fun ω => u ⬝ᵥ θ + ∑ r, fitWeights C J u r * X r ω := by
      funext ω; rw [bestFit_noise hC hJ]; rfl
    rw [e, hvar, fitWeights_var hC hJ]
  · simp only [split]
    rw [hvar, key]
    have := hC.posSemidef.dotProduct_mulVec_nonneg (t - fitWeights C J u)
    rw [star_trivial] at this
    linarith
  · simp only [split]
    rw [hvar, key]
    intro he d
    have hts : t = fitWeights C J u := by
      by_contra hne
      have := hC.dotProduct_mulVec_pos (x := t - fitWeights C J u) (sub_ne_zero.2 hne)
      rw [star_trivial] at this
      linarith
    have := bestFit_noise hC hJ m (d - m) 0 u
    rw [mulVec_zero, add_zero, dotProduct_zero, zero_add, add_sub_cancel] at this
    rw [this, ← hts, dotProduct_sub]
    linarith

/-- C150 for whatever finds the maximum: parameters `est d` that the code's likelihood ranks at least
as high as all others, for all data `d`, are unbiased and have the inverse of the Fisher matrix as
covariance. -/
theorem C150_estimator (h : GaussianVec P X C) (hC : C.PosDef) (hJ : Function.Injective J.mulVec)
    (m : Fin N → ℝ) (incl : Bool) {method : String} (hm : method = "inverse" ∨ method = "cholesky")
    (est : (Fin N → ℝ) → Fin k → ℝ)
    (hest : ∀ d θ, ∀ x y, gaussianLogLikelihood d (m + J *ᵥ θ) (.d2 N N C) incl method = .ok x →
      gaussianLogLikelihood d (m + J *ᵥ est d) (.d2 N N C) incl method = .ok y → x ≤ y) (θ : Fin k → ℝ) :
    (∀ i, ∫ ω, est (m + J *ᵥ θ + fun r => X r ω) i ∂P = θ i) ∧
    ∀ i j, cov[fun ω => est (m + J *ᵥ θ + fun r => X r ω) i,
      fun ω => est (m + J *ᵥ θ + fun r => X r ω) j; P] = (fisherMatrix C J)⁻¹ i j := by
  have e : est = bestFit C J m := by
    funext d
    obtain ⟨L, h1, -, h3, h4⟩ := C150_parabola hC hJ m d incl hm
    exact h4 _ (le_antisymm (h3 _) (hest d (bestFit C J m d) _ _ (h1 _) (h1 _)))
  rw [e]
  exact C150_errors h hC hJ m θ

end

/-! ### Witness -/

/-- One amplitude measured with two data of different noise. -/
noncomputable def twoNoise : Matrix (Fin 2) (Fin 2) ℝ := !![1, 0; 0, 4]
def ones : Matrix (Fin 2) (Fin 1) ℝ := !![1; 1]

theorem twoNoise_posDef : twoNoise.PosDef := by
  have : twoNoise = diagonal ![1, 4] := by
    ext i j; fin_cases i <;> fin_cases j <;> simp [twoNoise]
  rw [this]
  exact Matrix.PosDef.diagonal fun i => by fin_cases i <;> simp

theorem ones_injective : Function.Injective ones.mulVec := by
  intro x y h
  have := congrFun h 0
  simp [ones, mulVec, dotProduct] at this
  funext i
  rw [Subsingleton.elim i 0]
  exact this

/-- The Fisher information of the amplitude is `1 + 1/4`. -/
example : fisherMatrix twoNoise ones 0 0 = 5 / 4 := by
  have e : twoNoise⁻¹ = !![1, 0; 0, 1 / 4] := by
    refine inv_eq_left_inv ?_
    ext i j; fin_cases i <;> fin_cases j <;> norm_num [twoNoise, mul_apply]
  simp [fisherMatrix, fisher, e, ones, mulVec, dotProduct, Fin.sum_univ_two]
  norm_num

example (m d : Fin 2 → ℝ) : ∃ L : (Fin 1 → ℝ) → ℝ,
    (∀ θ, gaussianLogLikelihood d (m + ones *ᵥ θ) (.d2 2 2 twoNoise) true "cholesky" = .ok (L θ)) ∧
    ∀ θ, L θ ≤ L (bestFit twoNoise ones m d) := by
  obtain ⟨L, h1, -, h2, -⟩ := C150_parabola twoNoise_posDef ones_injective m d true (Or.inr rfl : "cholesky" = _ ∨ "cholesky" = "cholesky")
  exact ⟨L, h1, h2⟩

/-- The mean of the two data weighted by 4/5 and 1/5 has no more variance than their plain mean. -/
example (θ : Fin 1 → ℝ) :
    Var[fun ω : EuclideanSpace ℝ (Fin 2) => (fun _ => 1) ⬝ᵥ bestFit twoNoise ones 0 (0 + ones *ᵥ θ + fun r => ω r);
      multivariateGaussian 0 twoNoise]
      ≤ Var[fun ω : EuclideanSpace ℝ (Fin 2) => 0 + ![1 / 2, 1 / 2] ⬝ᵥ (0 + ones *ᵥ θ + fun r => ω r);
      multivariateGaussian 0 twoNoise] := by
  have h := gaussian_data_exist twoNoise_posDef
  have := C150_optimal h twoNoise_posDef ones_injective 0 (fun _ => 1) 0 ![1 / 2, 1 / 2] (fun θ => ?_) θ
  · rw [this.1]; exact this.2.1
  · have hl := linear_mean h ![1 / 2, 1 / 2]
    have e : ∀ ω : EuclideanSpace ℝ (Fin 2), 0 + ![1 / 2, 1 / 2] ⬝ᵥ (0 + ones *ᵥ θ + fun r => ω r)
        = θ 0 + ((fun r => ω r) ⬝ᵥ ![1 / 2, 1 / 2]) := fun ω => by
      rw [zero_add, zero_add, dotProduct_add, dotProduct_comm _ ![1 / 2, 1 / 2]]
      congr 1
      · simp [ones, mulVec, dotProduct, Fin.sum_univ_two]
        ring
    simp only [e]
    rw [integral_add (integrable_const _) hl.1, hl.2, integral_const]
    simp [dotProduct]

end JaxCosmo
