import Verif.Model.Sparse
import Mathlib.Analysis.Calculus.FDeriv.Analytic
import Mathlib.Analysis.Calculus.Deriv.Mul
import Mathlib.Analysis.Calculus.Deriv.Inv
import Mathlib.Analysis.Calculus.Deriv.Prod
import Mathlib.Topology.Instances.Matrix
import Mathlib.Analysis.SpecialFunctions.Log.Deriv
import Mathlib.LinearAlgebra.Matrix.NonsingularInverse
import Mathlib.LinearAlgebra.Matrix.Adjugate

/-! # Helper lemmas: derivatives of products, determinants and inverses of matrices -/

namespace JaxCosmo
open Matrix

variable {m n k : ℕ} {s : ℝ}

/-- Entrywise derivative of a matrix-valued function. -/
def MatDeriv (A : ℝ → Matrix (Fin m) (Fin n) ℝ) (A' : Matrix (Fin m) (Fin n) ℝ) (s : ℝ) : Prop :=
  ∀ i j, HasDerivAt (fun r => A r i j) (A' i j) s

namespace MatDeriv

theorem mul {A : ℝ → Matrix (Fin m) (Fin n) ℝ} {A' : Matrix (Fin m) (Fin n) ℝ}
    {B : ℝ → Matrix (Fin n) (Fin k) ℝ} {B' : Matrix (Fin n) (Fin k) ℝ}
    (hA : MatDeriv A A' s) (hB : MatDeriv B B' s) :
    MatDeriv (fun r => A r * B r) (A' * B s + A s * B') s := by
  intro i j
  have h := HasDerivAt.fun_sum (u := Finset.univ) fun l _ => (hA i l).mul (hB l j)
  refine (h.congr_deriv ?_).congr_of_eventuallyEq (Filter.Eventually.of_forall fun r => ?_)
  · rw [Matrix.add_apply, mul_apply, mul_apply, Finset.sum_add_distrib]
  · simp only [mul_apply, Pi.mul_apply]

theorem transpose {A : ℝ → Matrix (Fin m) (Fin n) ℝ} {A' : Matrix (Fin m) (Fin n) ℝ}
    (hA : MatDeriv A A' s) : MatDeriv (fun r => (A r)ᵀ) A'ᵀ s := fun i j => hA j i

theorem unique {A : ℝ → Matrix (Fin m) (Fin n) ℝ} {B C : Matrix (Fin m) (Fin n) ℝ}
    (h1 : MatDeriv A B s) (h2 : MatDeriv A C s) : B = C :=
  Matrix.ext fun i j => (h1 i j).unique (h2 i j)

/-- The determinant: one row is differentiated at a time. -/
theorem det_rows {A : ℝ → Matrix (Fin n) (Fin n) ℝ} {A' : Matrix (Fin n) (Fin n) ℝ}
    (hA : MatDeriv A A' s) :
    HasDerivAt (fun r => (A r).det) (∑ i, ((A s).updateRow i (A' i)).det) s := by
  let f : ContinuousMultilinearMap ℝ (fun _ : Fin n => Fin n → ℝ) ℝ :=
    ⟨(Matrix.detRowAlternating (R := ℝ) (n := Fin n)).toMultilinearMap,
      Continuous.matrix_det continuous_id⟩
  have h1 : HasDerivAt (fun r => (fun i j => A r i j : Fin n → Fin n → ℝ)) (fun i j => A' i j) s :=
    hasDerivAt_pi.2 fun i => hasDerivAt_pi.2 fun j => hA i j
  have h2 := (f.hasFDerivAt (fun i j => A s i j)).comp_hasDerivAt s h1
  refine h2.congr_deriv ?_
  rw [ContinuousMultilinearMap.linearDeriv_apply]
  rfl

/-- Jacobi's formula. -/
theorem det {A : ℝ → Matrix (Fin n) (Fin n) ℝ} {A' : Matrix (Fin n) (Fin n) ℝ}
    (hA : MatDeriv A A' s) :
    HasDerivAt (fun r => (A r).det) ((A s).adjugate * A').trace s := by
  refine hA.det_rows.congr_deriv ?_
  rw [trace_mul_comm]
  simp only [trace, diag_apply, mul_apply]
  refine Finset.sum_congr rfl fun i _ => ?_
  have h := congrFun (Matrix.cramer_eq_adjugate_mulVec (A s)ᵀ (A' i)) i
  rw [Matrix.cramer_transpose_apply] at h
  rw [h, ← adjugate_transpose]
  simp only [mulVec, dotProduct, transpose_apply]
  exact Finset.sum_congr rfl fun j _ => mul_comm _ _

/-- The logarithm of the determinant. -/
theorem logdet {A : ℝ → Matrix (Fin n) (Fin n) ℝ} {A' : Matrix (Fin n) (Fin n) ℝ}
    (hA : MatDeriv A A' s) (h0 : (A s).det ≠ 0) :
    HasDerivAt (fun r => Real.log |(A r).det|) ((A s)⁻¹ * A').trace s := by
  simp only [Real.log_abs]
  refine (hA.det.log h0).congr_deriv ?_
  rw [Matrix.inv_def, Ring.inverse_eq_inv', smul_mul, trace_smul, smul_eq_mul, div_eq_inv_mul]

/-- The inverse. -/
theorem inv {A : ℝ → Matrix (Fin n) (Fin n) ℝ} {A' : Matrix (Fin n) (Fin n) ℝ}
    (hA : MatDeriv A A' s) (h0 : (A s).det ≠ 0) :
    MatDeriv (fun r => (A r)⁻¹) (-((A s)⁻¹ * A' * (A s)⁻¹)) s := by
  have hd : ∀ i j, DifferentiableAt ℝ (fun r => (A r)⁻¹ i j) s := by
    intro i j
    have e : (fun r => (A r)⁻¹ i j)
        = fun r => ((A r).det)⁻¹ * ((A r).updateRow j (Pi.single i 1)).det := by
      funext r
      rw [Matrix.inv_def, Ring.inverse_eq_inv', Matrix.smul_apply, smul_eq_mul, adjugate_apply]
    rw [e]
    refine (hA.det.differentiableAt.inv h0).mul ?_
    have hu : MatDeriv (fun r => (A r).updateRow j (Pi.single i 1)) (A'.updateRow j 0) s := by
      intro a b
      by_cases ha : a = j
      · subst ha
        simp only [updateRow_self]
        exact hasDerivAt_const _ _
      · simp only [updateRow_ne ha]
        exact hA a b
    exact hu.det.differentiableAt
  set B : Matrix (Fin n) (Fin n) ℝ := fun i j => deriv (fun r => (A r)⁻¹ i j) s with hB
  have hinv : MatDeriv (fun r => (A r)⁻¹) B s := fun i j => (hd i j).hasDerivAt
  have h1 := hA.mul hinv
  have h2 : MatDeriv (fun r => A r * (A r)⁻¹) 0 s := by
    intro i j
    refine (hasDerivAt_const s ((1 : Matrix (Fin n) (Fin n) ℝ) i j)).congr_of_eventuallyEq ?_
    filter_upwards [hA.det.continuousAt.eventually_ne h0] with r hr
    rw [mul_nonsing_inv _ (isUnit_iff_ne_zero.2 hr)]
  have h3 := h1.unique h2
  have h4 : B = -((A s)⁻¹ * A' * (A s)⁻¹) := by
    have h5 : A s * B = -(A' * (A s)⁻¹) := by
      rw [eq_neg_iff_add_eq_zero, add_comm]; exact h3
    have h6 := congrArg ((A s)⁻¹ * ·) h5
    beta_reduce at h6
    rw [← Matrix.mul_assoc, nonsing_inv_mul _ (isUnit_iff_ne_zero.2 h0), Matrix.one_mul,
      Matrix.mul_neg, ← Matrix.mul_assoc] at h6
    exact h6
  rw [← h4]
  exact hinv

end MatDeriv

end JaxCosmo
