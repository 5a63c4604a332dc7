import Verif.Spec.JvpSpectra
import Verif.Spec.Dense
import Verif.Model.Likelihood
import Mathlib.LinearAlgebra.Matrix.PosDef
import Mathlib.LinearAlgebra.Matrix.Symmetric

/-! # Specification: arrays that carry the derivatives of their entries -/

namespace JaxCosmo.Spec

/-- Every entry of a matrix with its derivative. -/
def JvpMat {m n : ℕ} (s : ℝ) (A : ℝ → Matrix (Fin m) (Fin n) ℝ) (D : Matrix (Fin m) (Fin n) Du) : Prop :=
  ∀ i j, Jvp (fun r => A r i j) s (D i j)

/-- Every entry of a vector with its derivative. -/
def JvpVec {n : ℕ} (s : ℝ) (v : ℝ → Fin n → ℝ) (d : Fin n → Du) : Prop :=
  ∀ i, Jvp (fun r => v r i) s (d i)

/-- Every entry of a sparse matrix with its derivative. -/
def JvpSp {a b P : ℕ} (s : ℝ) (S : ℝ → Sp ℝ a b P) (D : Sp Du a b P) : Prop :=
  ∀ i j p, Jvp (fun r => S r i j p) s (D i j p)

/-- An array of fixed shape, every entry with its derivative. -/
def JvpArr (s : ℝ) (A : ℝ → NdArr ℝ) : NdArr Du → Prop
  | .d0 x => ∃ F : ℝ → ℝ, (∀ r, A r = .d0 (F r)) ∧ Jvp F s x
  | .d1 n v => ∃ F : ℝ → Fin n → ℝ, (∀ r, A r = .d1 n (F r)) ∧ JvpVec s F v
  | .d2 m n M => ∃ F : ℝ → Matrix (Fin m) (Fin n) ℝ, (∀ r, A r = .d2 m n (F r)) ∧ JvpMat s F M
  | .d3 a b P S => ∃ F : ℝ → Sp ℝ a b P, (∀ r, A r = .d3 a b P (F r)) ∧ JvpSp s F S
  | .hi n => ∀ r, A r = .hi n

/-- The covariance can be inverted at the point: a dense one has a determinant, for the Cholesky method
it is symmetric all along and positive definite at the point; all trailing blocks of a sparse one are
invertible. -/
structure LikelihoodPoint (s : ℝ) (C : ℝ → NdArr ℝ) (method : String) : Prop where
  dense : ∀ n M, C s = .d2 n n M → M.det ≠ 0
  symm : method = "cholesky" → ∀ r n M, C r = .d2 n n M → M.IsSymm
  posDef : method = "cholesky" → ∀ n M, C s = .d2 n n M → M.PosDef
  sparse : ∀ n P S, C s = .d3 n n P S → ∀ m < n, IsUnit (denseEntry (trailing S m)).det

end JaxCosmo.Spec
