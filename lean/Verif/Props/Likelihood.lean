import Verif.Spec.Likelihood
import Verif.Model.Likelihood
import Verif.Props.Sparse
import Verif.Proofs.PosDef
import Mathlib.Probability.Distributions.Gaussian.Real

/-! # C63–C65: the Gaussian log likelihood -/

namespace JaxCosmo
open Spec Matrix

theorem symm_of_posDef {N : ℕ} {C : Matrix (Fin N) (Fin N) ℝ} (h : C.PosDef) : C.IsSymm := by
  have := h.isHermitian
  rwa [IsHermitian, conjTranspose_eq_transpose_of_trivial] at this

/-- The specification agrees with Mathlib's one-dimensional normal density. -/
theorem gaussianDensity_one (x mu : ℝ) (v : NNReal) :
    gaussianDensity (fun _ : Fin 1 => x) (fun _ => mu) !![(v : ℝ)]
      = ProbabilityTheory.gaussianPDFReal mu v x := by
  unfold gaussianDensity ProbabilityTheory.gaussianPDFReal chiSq
  have hdet : det !![(v : ℝ)] = v := by rw [det_fin_one]; rfl
  have hinv : (!![(v : ℝ)])⁻¹ 0 0 = (v : ℝ)⁻¹ := by
    rw [Matrix.inv_def, Matrix.smul_apply, adjugate_fin_one, hdet, Ring.inverse_eq_inv']
    simp
  simp only [dotProduct, mulVec, Finset.univ_unique, Fin.default_eq_zero, Finset.sum_singleton,
    Pi.sub_apply, hinv, hdet, pow_one]
  rw [div_eq_mul_inv, mul_comm]
  congr 2
  by_cases hv : (v : ℝ) = 0
  · simp [hv]
  · field_simp

theorem chiSq_comm {N : ℕ} (x mu : Fin N → ℝ) (C : Matrix (Fin N) (Fin N) ℝ) :
    chiSq x mu C = chiSq mu x C := by
  unfold chiSq
  rw [← neg_sub mu x, mulVec_neg, neg_dotProduct, dotProduct_neg, neg_neg]

theorem lowerSym_eq {N : ℕ} {C : Matrix (Fin N) (Fin N) ℝ} (h : C.IsSymm) : lowerSym C = C := by
  ext i j
  unfold lowerSym
  split_ifs
  · rfl
  · exact h.apply i j

/-- The value on a dense covariance. -/
theorem loglike_dense {N : ℕ} (data mu : Fin N → ℝ) (C : Matrix (Fin N) (Fin N) ℝ) (hC : C.IsSymm)
    (incl : Bool) {m : String} (hm : m = "inverse" ∨ m = "cholesky") :
    gaussianLogLikelihood data mu (.d2 N N C) incl m
      = .ok (-(1 / 2) * (chiSq data mu C - if incl then Real.log |C.det| else 0)) := by
  have hval : chiSq data mu C = (mu - data) ⬝ᵥ (C⁻¹ *ᵥ (mu - data)) := chiSq_comm data mu C
  unfold gaussianLogLikelihood
  have h1 : m = "inverse" ∨ ¬ m = "inverse" ∧ m = "cholesky" := by
    rcases hm with h | h
    · exact Or.inl h
    · exact Or.inr ⟨by rw [h]; decide, h⟩
  rcases h1 with h1 | ⟨h1, h2⟩
  · cases incl <;>
      simp [isSparse, h1, hval, bind, Except.bind, pure, Except.pure]
  · cases incl <;>
      simp [isSparse, h2, hval, bind, Except.bind, pure, Except.pure, lowerSym_eq hC]

/-- The value on a sparse covariance: whatever the inversion method. -/
theorem loglike_sparse {n P : ℕ} (data mu : Fin ((n + 1) * P) → ℝ) (S : Sp ℝ (n + 1) (n + 1) P)
    (hS : (denseEntry S).PosDef) (incl : Bool) (m : String) :
    gaussianLogLikelihood data mu (.d3 _ _ P S) incl m
      = .ok (-(1 / 2) * (chiSq data mu (denseEntry S)
          - if incl then Real.log |(denseEntry S).det| else 0)) := by
  obtain ⟨T, hT, -, -, hinv⟩ := C37_inverse S (isUnit_iff_ne_zero.2 hS.det_pos.ne')
  set X : Matrix (Fin 1) (Fin ((n + 1) * P)) ℝ := fun _ k => (mu - data) k with hX
  set Z : Matrix (Fin ((n + 1) * P)) (Fin 1) ℝ := fun k _ => (mu - data) k with hZ
  have hdot := C35_bilinear X T Z
  have hval : chiSq data mu (denseEntry S) = (X * denseEntry T * Z) 0 0 := by
    rw [chiSq_comm, chiSq, hinv, Matrix.mul_assoc, Matrix.mul_apply]
    rfl
  unfold gaussianLogLikelihood
  simp only [isSparse, if_true, hT, bind, Except.bind, pure, Except.pure]
  rw [← hX, ← hZ, hdot]
  cases incl
  · simp [hval]
  · simp only [(C38_posDef S hS).1, Except.map, Bool.not_true, Bool.false_eq_true, if_false,
      if_true, hval, abs_of_pos hS.det_pos]

/-- C63: the value does not depend on whether the covariance is given in sparse or in dense form,
nor on which of the two inversion methods is used. -/
theorem C63_representation {n P : ℕ} (data mu : Fin ((n + 1) * P) → ℝ)
    (S : Sp ℝ (n + 1) (n + 1) P) (hS : (denseEntry S).PosDef) (incl : Bool) (m m' : String)
    (hm : m = "inverse" ∨ m = "cholesky") :
    ∃ D, toDenseApi (.d3 _ _ P S) = .ok D ∧
      gaussianLogLikelihood data mu (.d3 _ _ P S) incl m'
        = gaussianLogLikelihood data mu D incl m := by
  refine ⟨_, C34_api _, ?_⟩
  rw [loglike_sparse data mu S hS, loglike_dense data mu _ (symm_of_posDef hS) incl hm]

/-- C63: for every symmetric covariance `"inverse"` and `"cholesky"` agree. -/
theorem C63_method {N : ℕ} (data mu : Fin N → ℝ) (C : Matrix (Fin N) (Fin N) ℝ) (hC : C.PosDef)
    (incl : Bool) :
    gaussianLogLikelihood data mu (.d2 N N C) incl "inverse"
      = gaussianLogLikelihood data mu (.d2 N N C) incl "cholesky" := by
  rw [loglike_dense data mu C (symm_of_posDef hC) incl (Or.inl rfl),
    loglike_dense data mu C (symm_of_posDef hC) incl (Or.inr rfl)]

/-- C63: any other method is refused on a dense covariance. -/
theorem C63_unknown_method {N : ℕ} (data mu : Fin N → ℝ) (C : Matrix (Fin N) (Fin N) ℝ)
    (incl : Bool) (m : String) (h1 : m ≠ "inverse") (h2 : m ≠ "cholesky") :
    gaussianLogLikelihood data mu (.d2 N N C) incl m = .error .notImplementedError := by
  unfold gaussianLogLikelihood
  simp [isSparse, h1, h2, bind, Except.bind]

/-- C63: a covariance that is not a matrix, not square or of another size than the data is refused
by both methods. -/
theorem C63_wrong_shape {N : ℕ} (data mu : Fin N → ℝ) (incl : Bool) :
    (∀ (a b : ℕ) (M : Matrix (Fin a) (Fin b) ℝ) (m : String), a ≠ b →
      m = "inverse" ∨ m = "cholesky" →
      gaussianLogLikelihood data mu (.d2 a b M) incl m = .error .valueError) ∧
    (∀ (a : ℕ) (M : Matrix (Fin a) (Fin a) ℝ), a ≠ N →
      gaussianLogLikelihood data mu (.d2 a a M) incl "inverse" = .error .typeError ∧
      gaussianLogLikelihood data mu (.d2 a a M) incl "cholesky" = .error .valueError) ∧
    (∀ (a : ℕ) (v : Fin a → ℝ) (c : ℝ) (m : String), m = "inverse" ∨ m = "cholesky" →
      gaussianLogLikelihood data mu (.d1 a v) incl m = .error .valueError ∧
      gaussianLogLikelihood data mu (.d0 c) incl m = .error .valueError) := by
  have hc : ¬ "cholesky" = "inverse" := by decide
  refine ⟨fun a b M m hab hm => ?_, fun a M ha => ?_, fun a v c m hm => ?_⟩
  · have h : ¬ (a = N ∧ b = N) := fun h => hab (h.1.trans h.2.symm)
    unfold gaussianLogLikelihood
    rcases hm with rfl | rfl <;> simp [isSparse, h, hab, bind, Except.bind]
  · unfold gaussianLogLikelihood
    constructor <;> simp [isSparse, ha, bind, Except.bind]
  · unfold gaussianLogLikelihood
    rcases hm with rfl | rfl <;> constructor <;> simp [isSparse, bind, Except.bind]

/-- Witness: a 2×3 matrix, and a 2×2 matrix for three data. -/
example (data mu : Fin 3 → ℝ) :
    gaussianLogLikelihood data mu (.d2 2 3 !![1, 0, 0; 0, 1, 0]) = .error .valueError ∧
    gaussianLogLikelihood data mu (.d2 2 2 !![1, 0; 0, 1]) = .error .typeError :=
  ⟨(C63_wrong_shape data mu true).1 _ _ _ _ (by decide) (Or.inl rfl),
    ((C63_wrong_shape data mu true).2.1 _ _ (by decide)).1⟩

/-! ## C65 -/

/-- C65: without the determinant the value is `-χ²/2`; it is never positive, vanishes exactly where
the data equal the mean, and is symmetric in the two. -/
theorem C65_chiSq {N : ℕ} (data mu : Fin N → ℝ) (C : Matrix (Fin N) (Fin N) ℝ) (hC : C.PosDef)
    {m : String} (hm : m = "inverse" ∨ m = "cholesky") :
    ∃ v, gaussianLogLikelihood data mu (.d2 N N C) false m = .ok v ∧
      v = -(1 / 2) * chiSq data mu C ∧ v ≤ 0 ∧ (v = 0 ↔ data = mu) ∧
      gaussianLogLikelihood mu data (.d2 N N C) false m = .ok v := by
  refine ⟨-(1 / 2) * chiSq data mu C, ?_, rfl, ?_, ?_, ?_⟩
  · rw [loglike_dense data mu C (symm_of_posDef hC) false hm]; simp
  · have := hC.inv.posSemidef.dotProduct_mulVec_nonneg (data - mu)
    rw [star_trivial] at this
    unfold chiSq
    linarith
  · constructor
    · intro h
      by_contra hne
      have := hC.inv.dotProduct_mulVec_pos (sub_ne_zero.2 hne)
      rw [star_trivial] at this
      unfold chiSq at h
      linarith
    · rintro rfl
      simp [chiSq]
  · rw [loglike_dense mu data C (symm_of_posDef hC) false hm, chiSq_comm]; simp

/-- C65: the same for a sparse covariance. -/
theorem C65_sparse {n P : ℕ} (data mu : Fin ((n + 1) * P) → ℝ) (S : Sp ℝ (n + 1) (n + 1) P)
    (hS : (denseEntry S).PosDef) (m : String) :
    ∃ v, gaussianLogLikelihood data mu (.d3 _ _ P S) false m = .ok v ∧
      v = -(1 / 2) * chiSq data mu (denseEntry S) ∧ v ≤ 0 ∧ (v = 0 ↔ data = mu) ∧
      gaussianLogLikelihood mu data (.d3 _ _ P S) false m = .ok v := by
  obtain ⟨v, h1, h2, h3, h4, h5⟩ := C65_chiSq data mu (denseEntry S) hS (m := "inverse") (Or.inl rfl)
  rw [loglike_dense _ _ _ (symm_of_posDef hS) false (Or.inl rfl)] at h1 h5
  exact ⟨v, by rw [loglike_sparse _ _ S hS, h1], h2, h3, h4, by rw [loglike_sparse _ _ S hS, h5]⟩

/-! ## C64 -/

theorem log_density {N : ℕ} (data mu : Fin N → ℝ) (C : Matrix (Fin N) (Fin N) ℝ)
    (hC : 0 < C.det) : Real.log (gaussianDensity data mu C)
      = -(1 / 2) * (chiSq data mu C + Real.log C.det) - N / 2 * Real.log (2 * Real.pi) := by
  have hpi : 0 < 2 * Real.pi := by positivity
  have hpos : 0 < (2 * Real.pi) ^ N * C.det := by positivity
  rw [gaussianDensity, Real.log_div (Real.exp_pos _).ne' (Real.sqrt_pos.2 hpos).ne', Real.log_exp,
    Real.log_sqrt hpos.le, Real.log_mul (by positivity) hC.ne', Real.log_pow]
  ring

/-- C64, as far as it goes: with the determinant included, the value exceeds the log density by
`log det C + (N/2) log 2π`.  This does not depend on the data or the mean.  Missing from the full
claim: it does depend on the covariance, see `C64_refuted`. -/
theorem C64_partial {N : ℕ} (data mu : Fin N → ℝ) (C : Matrix (Fin N) (Fin N) ℝ) (hC : C.PosDef)
    {m : String} (hm : m = "inverse" ∨ m = "cholesky") :
    gaussianLogLikelihood data mu (.d2 N N C) true m
      = .ok (Real.log (gaussianDensity data mu C) + Real.log C.det
          + N / 2 * Real.log (2 * Real.pi)) := by
  rw [loglike_dense data mu C (symm_of_posDef hC) true hm, log_density data mu C hC.det_pos,
    abs_of_pos hC.det_pos]
  congr 1
  simp only [if_true]
  ring

/-- C64 for sparse covariances, with the same proviso. -/
theorem C64_sparse_partial {n P : ℕ} (data mu : Fin ((n + 1) * P) → ℝ)
    (S : Sp ℝ (n + 1) (n + 1) P) (hS : (denseEntry S).PosDef) (m : String) :
    gaussianLogLikelihood data mu (.d3 _ _ P S) true m
      = .ok (Real.log (gaussianDensity data mu (denseEntry S)) + Real.log (denseEntry S).det
          + ((n + 1) * P : ℕ) / 2 * Real.log (2 * Real.pi)) := by
  rw [loglike_sparse data mu S hS, ← loglike_dense data mu _ (symm_of_posDef hS) true (Or.inl rfl),
    C64_partial data mu _ hS (Or.inl rfl)]

theorem scalar_apply (v : ℝ) : !![v] 0 0 = v := rfl

theorem posDef_scalar {v : ℝ} (hv : 0 < v) : !![v].PosDef := by
  refine .of_dotProduct_mulVec_pos (by ext i j; simp [conjTranspose_apply]) fun x hx => ?_
  have h0 : x 0 ≠ 0 := by
    intro h; exact hx (funext fun i => by rw [Subsingleton.elim i 0, h]; rfl)
  simp only [star_trivial, dotProduct, mulVec, Finset.univ_unique, Fin.default_eq_zero,
    Finset.sum_singleton, scalar_apply]
  have := sq_pos_of_ne_zero h0
  nlinarith

/-- C64 fails: already for one datum there is no constant by which the value differs from the log
density for all variances; the sign of the log-determinant is reversed. -/
theorem C64_refuted : ¬ ∃ c : ℝ, ∀ (data mu : Fin 1 → ℝ) (C : Matrix (Fin 1) (Fin 1) ℝ), C.PosDef →
    gaussianLogLikelihood data mu (.d2 1 1 C) true "inverse"
      = .ok (Real.log (gaussianDensity data mu C) + c) := by
  rintro ⟨c, hc⟩
  have key : ∀ v : ℝ, 0 < v → Real.log v = c - 1 / 2 * Real.log (2 * Real.pi) := by
    intro v hv
    have h := hc 0 0 _ (posDef_scalar hv)
    rw [C64_partial 0 0 _ (posDef_scalar hv) (Or.inl rfl)] at h
    have := Except.ok.inj h
    rw [det_fin_one, scalar_apply] at this
    push_cast at this
    linarith
  have h1 := key 1 one_pos
  have h2 := key (Real.exp 1) (Real.exp_pos 1)
  rw [Real.log_one] at h1
  rw [Real.log_exp] at h2
  linarith

/-- The consequence for inference: at data equal to the mean the reported value grows without bound
with the variance, while the density decreases. -/
theorem C64_rewards_variance {v w : ℝ} (hv : 0 < v) (hw : v < w) (x : Fin 1 → ℝ) :
    ∃ a b, gaussianLogLikelihood x x (.d2 1 1 !![v]) true "inverse" = .ok a ∧
      gaussianLogLikelihood x x (.d2 1 1 !![w]) true "inverse" = .ok b ∧ a < b ∧
      gaussianDensity x x !![w] < gaussianDensity x x !![v] := by
  have hl := Real.log_lt_log hv hw
  refine ⟨_, _, loglike_dense x x _ (symm_of_posDef (posDef_scalar hv)) true (Or.inl rfl),
    loglike_dense x x _ (symm_of_posDef (posDef_scalar (hv.trans hw))) true (Or.inl rfl), ?_, ?_⟩
  · simp only [if_true, det_fin_one, scalar_apply, abs_of_pos hv, abs_of_pos (hv.trans hw), chiSq, sub_self,
      zero_dotProduct]
    linarith
  · simp only [gaussianDensity, chiSq, sub_self, zero_dotProduct, mul_zero, Real.exp_zero,
      det_fin_one, scalar_apply, pow_one]
    have hpi : 0 < 2 * Real.pi := by positivity
    exact one_div_lt_one_div_of_lt (Real.sqrt_pos.2 (by positivity))
      (Real.sqrt_lt_sqrt (by positivity) (by nlinarith))

theorem posDef_two : (!![2, 1; 1, 2] : Matrix (Fin 2) (Fin 2) ℝ).PosDef := by
  refine .of_dotProduct_mulVec_pos (by ext i j; fin_cases i <;> fin_cases j <;> simp) fun x hx => ?_
  have h : star x ⬝ᵥ (!![2, 1; 1, 2] *ᵥ x) = x 0 ^ 2 + x 1 ^ 2 + (x 0 + x 1) ^ 2 := by
    simp [dotProduct, mulVec, Fin.sum_univ_two]
    ring
  rw [h]
  by_cases h0 : x 0 = 0
  · have h1 : x 1 ≠ 0 := by
      intro h1; apply hx; ext i; fin_cases i <;> simpa
    positivity
  · positivity

/-- Witness for C63–C65: a positive definite sparse covariance of two spectra at two multipoles. -/
example : ∃ S : Sp ℝ 2 2 2, (denseEntry S).PosDef ∧ S 0 1 0 ≠ 0 := by
  refine ⟨fun i j _ => !![2, 1; 1, 2] i j, toDense_posDef fun _ => posDef_two, by simp⟩

end JaxCosmo
