import Verif.Model.Sparse

/-! # Specification: the dense matrix an operand stands for -/

namespace JaxCosmo.Spec
variable {K : Type*} [Field K]

/-- A dense matrix together with its shape. -/
structure DMat (K : Type*) where
  m : ℕ
  n : ℕ
  M : Matrix (Fin m) (Fin n) K

/-- The `(a * P) × (b * P)` matrix described by the format: entry `(i * P + p, j * P + q)` is
`S i j p` if `p = q` and zero otherwise (`sparse.py:1-8`). -/
def denseEntry {a b P : ℕ} (S : Fin a → Fin b → Fin P → K) : Matrix (Fin (a * P)) (Fin (b * P)) K :=
  fun r c => if r.modNat = c.modNat then S r.divNat c.divNat r.modNat else 0

/-- A left operand as a matrix: a vector is a row. -/
def asLeft : NdArr K → Option (DMat K)
  | .d1 n v => some ⟨1, n, Matrix.of fun _ j => v j⟩
  | .d2 m n M => some ⟨m, n, M⟩
  | .d3 a b P S => some ⟨a * P, b * P, denseEntry S⟩
  | _ => none

/-- A right operand as a matrix: a vector is a column. -/
def asRight : NdArr K → Option (DMat K)
  | .d1 n v => some ⟨n, 1, Matrix.of fun i _ => v i⟩
  | .d2 m n M => some ⟨m, n, M⟩
  | .d3 a b P S => some ⟨a * P, b * P, denseEntry S⟩
  | _ => none

/-- The matrix product, when the inner dimensions agree. -/
def DMat.mul (A B : DMat K) : Option (DMat K) :=
  if h : A.n = B.m then some ⟨A.m, B.n, A.M * B.M.submatrix (Fin.cast h) id⟩ else none

/-- The array `r` stands for the matrix `D` (a vector may be a row or a column). -/
def Denotes (r : NdArr K) (D : DMat K) : Prop := asLeft r = some D ∨ asRight r = some D

/-- The array without its first `m` block rows and block columns. -/
def trailing {N P : ℕ} (S : Fin N → Fin N → Fin P → K) (m : ℕ) :
    Fin (N - m) → Fin (N - m) → Fin P → K :=
  fun i j => S ⟨m + i, by omega⟩ ⟨m + j, by omega⟩

end JaxCosmo.Spec
