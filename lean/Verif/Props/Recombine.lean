import Verif.Props.Estimation

/-! # C152: recombining the data -/

namespace JaxCosmo
open Matrix Spec

variable {N : ℕ} {C A : Matrix (Fin N) (Fin N) ℝ}

theorem conj_posDef (hC : C.PosDef) (hA : A.det ≠ 0) : (A * C * Aᵀ).PosDef := by
  have hi : Function.Injective (Aᵀ).mulVec := by
    rw [Matrix.mulVec_injective_iff_isUnit, isUnit_iff_isUnit_det, det_transpose]
    exact isUnit_iff_ne_zero.2 hA
  have := hC.conjTranspose_mul_mul_same hi
  rwa [conjTranspose_eq_transpose_of_trivial, transpose_transpose] at this

theorem conj_inv (hA : A.det ≠ 0) : Aᵀ * (A * C * Aᵀ)⁻¹ * A = C⁻¹ := by
  have hu : IsUnit A.det := isUnit_iff_ne_zero.2 hA
  have hu' : IsUnit (Aᵀ).det := by rw [det_transpose]; exact hu
  rw [Matrix.mul_inv_rev, Matrix.mul_inv_rev, ← Matrix.mul_assoc, mul_nonsing_inv _ hu', Matrix.one_mul,
    Matrix.mul_assoc, nonsing_inv_mul _ hu, Matrix.mul_one]

theorem fisher_recombine (hA : A.det ≠ 0) (u v : Fin N → ℝ) :
    fisher (A * C * Aᵀ) (A *ᵥ u) (A *ᵥ v) = fisher C u v := by
  unfold fisher
  rw [dotProduct_comm, dot_mulVec_transpose, mulVec_mulVec, mulVec_mulVec, conj_inv hA, dotProduct_comm]

theorem chiSq_recombine (hA : A.det ≠ 0) (b d m : Fin N → ℝ) :
    chiSq (A *ᵥ d + b) (A *ᵥ m + b) (A * C * Aᵀ) = chiSq d m C := by
  have e : A *ᵥ d + b - (A *ᵥ m + b) = A *ᵥ (d - m) := by rw [mulVec_sub]; abel
  unfold chiSq
  rw [e]
  exact fisher_recombine hA _ _

theorem logdet_recombine (hC : C.PosDef) (hA : A.det ≠ 0) :
    Real.log |(A * C * Aᵀ).det| = Real.log |C.det| + 2 * Real.log |A.det| := by
  rw [det_mul, det_mul, det_transpose, abs_mul, abs_mul, Real.log_mul, Real.log_mul]
  · ring
  all_goals simp [hA, hC.det_pos.ne']

/-- C152: measuring other invertible combinations of the data (or other units, or another zero point) leaves the
log likelihood without determinant as it is, whatever the two methods. -/
theorem C152_chi (hC : C.PosDef) (hA : A.det ≠ 0) (b d m : Fin N → ℝ) {method method' : String}
    (hm : method = "inverse" ∨ method = "cholesky") (hm' : method' = "inverse" ∨ method' = "cholesky") :
    gaussianLogLikelihood (A *ᵥ d + b) (A *ᵥ m + b) (.d2 N N (A * C * Aᵀ)) false method
      = gaussianLogLikelihood d m (.d2 N N C) false method' := by
  rw [loglike_dense _ _ _ (symm_of_posDef (conj_posDef hC hA)) false hm, loglike_dense _ _ _ (symm_of_posDef hC) false hm',
    chiSq_recombine hA]
  simp

/-- C152: with the determinant it changes by `log |det A|`, the same for all models. -/
theorem C152_shift (hC : C.PosDef) (hA : A.det ≠ 0) (b d m : Fin N → ℝ) {method : String}
    (hm : method = "inverse" ∨ method = "cholesky") :
    ∃ x, gaussianLogLikelihood d m (.d2 N N C) true method = .ok x ∧
      gaussianLogLikelihood (A *ᵥ d + b) (A *ᵥ m + b) (.d2 N N (A * C * Aᵀ)) true method
        = .ok (x + Real.log |A.det|) := by
  refine ⟨_, loglike_dense _ _ _ (symm_of_posDef hC) true hm, ?_⟩
  rw [loglike_dense _ _ _ (symm_of_posDef (conj_posDef hC hA)) true hm, chiSq_recombine hA]
  congr 1
  simp only [if_true]
  rw [logdet_recombine hC hA]
  ring

/-- C152: so the ratio of the likelihoods of two models, each with its own mean and covariance, does not change. -/
theorem C152_ratio {C₁ C₂ : Matrix (Fin N) (Fin N) ℝ} (h1 : C₁.PosDef) (h2 : C₂.PosDef) (hA : A.det ≠ 0)
    (b d m₁ m₂ : Fin N → ℝ) (incl : Bool) {method : String} (hm : method = "inverse" ∨ method = "cholesky") :
    ∃ x₁ x₂ y₁ y₂,
      gaussianLogLikelihood d m₁ (.d2 N N C₁) incl method = .ok x₁ ∧
      gaussianLogLikelihood d m₂ (.d2 N N C₂) incl method = .ok x₂ ∧
      gaussianLogLikelihood (A *ᵥ d + b) (A *ᵥ m₁ + b) (.d2 N N (A * C₁ * Aᵀ)) incl method = .ok y₁ ∧
      gaussianLogLikelihood (A *ᵥ d + b) (A *ᵥ m₂ + b) (.d2 N N (A * C₂ * Aᵀ)) incl method = .ok y₂ ∧
      y₁ - y₂ = x₁ - x₂ := by
  cases incl with
  | false =>
    refine ⟨_, _, _, _, loglike_dense _ _ _ (symm_of_posDef h1) false hm, loglike_dense _ _ _ (symm_of_posDef h2) false hm,
      (C152_chi h1 hA b d m₁ hm hm).trans (loglike_dense _ _ _ (symm_of_posDef h1) false hm),
      (C152_chi h2 hA b d m₂ hm hm).trans (loglike_dense _ _ _ (symm_of_posDef h2) false hm), rfl⟩
  | true =>
    obtain ⟨x₁, a1, a2⟩ := C152_shift h1 hA b d m₁ hm
    obtain ⟨x₂, b1, b2⟩ := C152_shift h2 hA b d m₂ hm
    exact ⟨x₁, x₂, _, _, a1, b1, a2, b2, by ring⟩

/-- C152 for sparse covariances whose dense form is recombined (for example other units for each spectrum). -/
theorem C152_sparse {n Q : ℕ} (S S' : Sp ℝ (n + 1) (n + 1) Q) (hS : (denseEntry S).PosDef)
    {A : Matrix (Fin ((n + 1) * Q)) (Fin ((n + 1) * Q)) ℝ} (hA : A.det ≠ 0)
    (hS' : denseEntry S' = A * denseEntry S * Aᵀ) (b d m : Fin ((n + 1) * Q) → ℝ) (incl : Bool) (method : String) :
    ∃ x, gaussianLogLikelihood d m (.d3 _ _ Q S) incl method = .ok x ∧
      gaussianLogLikelihood (A *ᵥ d + b) (A *ᵥ m + b) (.d3 _ _ Q S') incl method
        = .ok (x + if incl then Real.log |A.det| else 0) := by
  have hS2 : (denseEntry S').PosDef := by rw [hS']; exact conj_posDef hS hA
  refine ⟨_, loglike_sparse _ _ S hS incl method, ?_⟩
  rw [loglike_sparse _ _ S' hS2, hS', chiSq_recombine hA]
  congr 1
  cases incl with
  | false => simp
  | true =>
    simp only [if_true]
    rw [logdet_recombine hS hA]
    ring

/-- C152: nor does the Fisher matrix of any model. -/
theorem C152_fisher {k : ℕ} (hA : A.det ≠ 0) (J : Matrix (Fin N) (Fin k) ℝ) :
    fisherMatrix (A * C * Aᵀ) (A * J) = fisherMatrix C J := by
  ext i j
  simp only [fisherMatrix, of_apply]
  exact fisher_recombine hA _ _

/-- A positive definite matrix with as many data as asked for: here one. -/
theorem one_by_one {v : ℝ} (hv : 0 < v) : (!![v] : Matrix (Fin 1) (Fin 1) ℝ).PosDef := by
  have : (!![v] : Matrix (Fin 1) (Fin 1) ℝ) = diagonal fun _ => v := by
    ext i j; fin_cases i; fin_cases j; simp
  rw [this]
  exact PosDef.diagonal fun _ => hv

/-- C152: the log of a probability density changes by `-log |det A|`, so the shift of the code has the wrong sign
(with the determinant of C64).  Concretely: data in units half as large. -/
theorem C152_sign : ¬ ∀ (N : ℕ) (C A : Matrix (Fin N) (Fin N) ℝ) (d m : Fin N → ℝ), C.PosDef → A.det ≠ 0 → ∀ x y,
    gaussianLogLikelihood d m (.d2 N N C) true "inverse" = .ok x →
    gaussianLogLikelihood (A *ᵥ d) (A *ᵥ m) (.d2 N N (A * C * Aᵀ)) true "inverse" = .ok y →
    y = x - Real.log |A.det| := by
  intro h
  have hA : (!![2] : Matrix (Fin 1) (Fin 1) ℝ).det ≠ 0 := by simp
  obtain ⟨x, h1, h2⟩ := C152_shift (one_by_one one_pos) hA 0 0 0 (Or.inl rfl : "inverse" = "inverse" ∨ _)
  rw [add_zero] at h2
  have := h 1 _ _ _ _ (one_by_one one_pos) hA _ _ h1 h2
  have h3 : Real.log |(!![2] : Matrix (Fin 1) (Fin 1) ℝ).det| = Real.log 2 := by simp
  rw [h3] at this
  have := Real.log_pos (by norm_num : (1 : ℝ) < 2)
  linarith

/-- C152: two data replaced by their sum and the second. -/
example (d m₁ m₂ : Fin 2 → ℝ) (incl : Bool) : ∃ x₁ x₂ y₁ y₂,
    gaussianLogLikelihood d m₁ (.d2 2 2 twoNoise) incl "cholesky" = .ok x₁ ∧
    gaussianLogLikelihood d m₂ (.d2 2 2 1) incl "cholesky" = .ok x₂ ∧
    gaussianLogLikelihood (!![1, 1; 0, 1] *ᵥ d) (!![1, 1; 0, 1] *ᵥ m₁) (.d2 2 2 !![5, 4; 4, 4]) incl "cholesky" = .ok y₁ ∧
    gaussianLogLikelihood (!![1, 1; 0, 1] *ᵥ d) (!![1, 1; 0, 1] *ᵥ m₂) (.d2 2 2 !![2, 1; 1, 1]) incl "cholesky" = .ok y₂ ∧
    y₁ - y₂ = x₁ - x₂ := by
  have h := C152_ratio (A := !![1, 1; 0, 1]) twoNoise_posDef (PosDef.one (n := Fin 2)) (by simp [det_fin_two]) 0 d m₁ m₂ incl
    (Or.inr rfl : "cholesky" = "inverse" ∨ "cholesky" = "cholesky")
  have e1 : !![1, 1; 0, 1] * twoNoise * (!![1, 1; 0, 1] : Matrix (Fin 2) (Fin 2) ℝ)ᵀ = !![5, 4; 4, 4] := by
    ext i j; fin_cases i <;> fin_cases j <;> norm_num [twoNoise, mul_apply, Fin.sum_univ_two]
  have e2 : !![1, 1; 0, 1] * (1 : Matrix (Fin 2) (Fin 2) ℝ) * (!![1, 1; 0, 1] : Matrix (Fin 2) (Fin 2) ℝ)ᵀ = !![2, 1; 1, 1] := by
    ext i j; fin_cases i <;> fin_cases j <;> norm_num [mul_apply, Fin.sum_univ_two]
  rw [e1, e2] at h
  simpa only [add_zero] using h

end JaxCosmo
