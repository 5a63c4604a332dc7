import Verif.Model.Numpy
import Mathlib.LinearAlgebra.Matrix.NonsingularInverse
import Mathlib.Analysis.SpecialFunctions.Log.Basic
import Mathlib.Logic.Equiv.Fin.Basic
import Mathlib.Data.Fin.Tuple.Basic

/-!
# Model of `jax_cosmo/sparse.py`

A sparse matrix is a 3-d array of shape `(a, b, P)`: `a × b` square blocks of size `P × P`, each
diagonal, `S i j` being the diagonal of block `(i, j)`.  The algorithms are modelled on arrays with
their shape in the type; the checked entry points (`to_dense`, `dot`, `inv`, `det`) take operands
whose rank and shape are only known at run time (`NdArr`).
-/

namespace JaxCosmo

/-- A 3-d array of shape `(a, b, P)` (module docstring, `sparse.py:1-30`). -/
abbrev Sp (K : Type*) (a b P : ℕ) := Fin a → Fin b → Fin P → K

section Algorithms
variable {K : Type*}

/-- `np.diag` of a vector. -/
def npDiag [Zero K] {P : ℕ} (v : Fin P → K) : Matrix (Fin P) (Fin P) K :=
  fun p q => if p = q then v p else 0

/-- `np.hstack` of `b` matrices of shape `(P, Q)`. -/
def hstack {b P Q : ℕ} (M : Fin b → Matrix (Fin P) (Fin Q) K) : Matrix (Fin P) (Fin (b * Q)) K :=
  fun p c => M c.divNat p c.modNat

/-- `np.vstack` of `a` matrices of shape `(P, C)`. -/
def vstack {a P C : ℕ} (M : Fin a → Matrix (Fin P) (Fin C) K) : Matrix (Fin (a * P)) (Fin C) K :=
  fun r c => M r.divNat r.modNat c

/-- `sparse.py:68`: body of `to_dense`. -/
def toDense [Zero K] {a b P : ℕ} (S : Sp K a b P) : Matrix (Fin (a * P)) (Fin (b * P)) K :=
  vstack fun i => hstack fun j => npDiag (S i j)

/-- `vec.reshape((b, P))`, row-major. -/
def unflat {b P : ℕ} (v : Fin (b * P) → K) : Fin b → Fin P → K :=
  fun j p => v (finProdFinEquiv (j, p))

/-- `m.reshape(-1)` of an `(a, P)` array, row-major. -/
def flat {a P : ℕ} (m : Fin a → Fin P → K) : Fin (a * P) → K :=
  fun r => m r.divNat r.modNat

variable [Field K]

/-- `sparse.py:141-162` `sparse_dot_vec`. -/
def sparseDotVec {a b P : ℕ} (S : Sp K a b P) (v : Fin (b * P) → K) : Fin (a * P) → K :=
  flat fun i => let row := S i; fun p => ∑ j, row j p * unflat v j p

/-- `sparse.py:166-184` `sparse_dot_dense`: `vmap` of `sparse_dot_vec` over the columns. -/
def sparseDotDense {a b P c : ℕ} (S : Sp K a b P) (D : Matrix (Fin (b * P)) (Fin c) K) :
    Matrix (Fin (a * P)) (Fin c) K :=
  fun r j => sparseDotVec S (fun k => D k j) r

/-- `sparse.py:188-209` `vec_dot_sparse`. -/
def vecDotSparse {a b P : ℕ} (v : Fin (a * P) → K) (S : Sp K a b P) : Fin (b * P) → K :=
  flat fun j => let col := fun i => S i j; fun p => ∑ i, unflat v i p * col i p

/-- `sparse.py:213-231` `dense_dot_sparse`: `vmap` of `vec_dot_sparse` over the rows. -/
def denseDotSparse {r a b P : ℕ} (D : Matrix (Fin r) (Fin (a * P)) K) (S : Sp K a b P) :
    Matrix (Fin r) (Fin (b * P)) K :=
  fun i => vecDotSparse (D i) S

/-- `sparse.py:235-263` `sparse_dot_sparse` on operands with matching shapes. -/
def sparseDotSparse {a b c P : ℕ} (S : Sp K a b P) (T : Sp K b c P) : Sp K a c P :=
  fun i j p => ∑ m, S i m p * T m j p

/-- Position read along an axis of length `b` when it is broadcast to length `m`. -/
def bcastIx {b m : ℕ} (h : b = m ∨ b = 1) (k : Fin m) : Fin b :=
  if e : b = m then k.cast e.symm else ⟨0, by have := h.resolve_left e; omega⟩

/-- NumPy broadcasting of two axis lengths. -/
def bcastDim (b c : ℕ) : Option {m : ℕ // (b = m ∨ b = 1) ∧ (c = m ∨ c = 1)} :=
  if h : b = c then some ⟨b, Or.inl rfl, Or.inl h.symm⟩
  else if h : b = 1 then some ⟨c, Or.inr h, Or.inl rfl⟩
  else if h : c = 1 then some ⟨b, Or.inl rfl, Or.inr h⟩
  else none

/-- `sparse.py:253-263`: `sparse_dot_sparse` as it runs on arbitrary 3-d operands.  The two vmaps
run over axis 0 of the first and axis 1 of the second operand; the inner
`np.multiply(B1, B2)` of a `(b, P)` and a `(c, Q)` array broadcasts, and raises `ValueError`
when it cannot. -/
def sparseDotSparseRaw {a b c d P Q : ℕ} (S : Sp K a b P) (T : Sp K c d Q) :
    Except PyErr (Σ R : ℕ, Sp K a d R) :=
  match bcastDim b c, bcastDim P Q with
  | some ⟨m, hm⟩, some ⟨R, hR⟩ =>
    .ok ⟨R, fun i j p => ∑ k : Fin m,
      S i (bcastIx hm.1 k) (bcastIx hR.1 p) * T (bcastIx hm.2 k) j (bcastIx hR.2 p)⟩
  | _, _ => .error .valueError

/-- `sparse.py:267-292` `dense_dot_sparse_dot_dense`. -/
def denseDotSparseDotDense {a b c d P : ℕ} (X : Matrix (Fin a) (Fin (b * P)) K) (Y : Sp K b c P)
    (Z : Matrix (Fin (c * P)) (Fin d) K) : Matrix (Fin a) (Fin d) K :=
  fun r j => ∑ k, X r k * sparseDotVec Y (fun l => Z l j) k

/-- Component `p` of `np.transpose(sparse, (2, 0, 1))`: an `a × b` matrix. -/
def slice {a b P : ℕ} (S : Sp K a b P) (p : Fin P) : Matrix (Fin a) (Fin b) K := fun i j => S i j p

/-- `sparse.py:315`: body of `inv`; `np.linalg.inv` is batched over the leading axis and is
modelled by Mathlib's inverse. -/
noncomputable def spInv {N P : ℕ} (S : Sp K N N P) : Sp K N N P := fun i j p => (slice S p)⁻¹ i j

end Algorithms

section Det

/-- `np.sign` as a real number. -/
noncomputable def signR (x : ℝ) : ℝ := (sgn x : ℝ)

/-- Index `k+1+i` of the trailing slice `[k+1 : N]`. -/
def tailIx {N k : ℕ} (i : Fin (N - (k + 1))) : Fin N := ⟨k + 1 + i, by omega⟩

/-- `sparse.py:324-328` of `_block_det`: the Schur complement `M` of block `k`. -/
noncomputable def schurM {N P : ℕ} (S : Sp ℝ N N P) (k : Fin N) : Fin P → ℝ :=
  let u : Sp ℝ 1 (N - (k + 1)) P := fun _ j => S k (tailIx j)
  let T : Sp ℝ (N - (k + 1)) (N - (k + 1)) P := fun i j => S (tailIx i) (tailIx j)
  let v : Sp ℝ (N - (k + 1)) 1 P := fun i _ => S (tailIx i) k
  let Sinv_v := sparseDotSparse (spInv T) v
  fun p => S k k p - sparseDotSparse u Sinv_v 0 0 p

/-- `sparse.py:323-331` `_block_det`. -/
noncomputable def blockDet {N P : ℕ} (S : Sp ℝ N N P) (k : Fin N) : ℝ × ℝ :=
  (∏ p, signR (schurM S k p), ∑ p, Real.log |schurM S k p|)

/-- `sparse.py:357-366`: body of `slogdet` for `N = n + 1` blocks per side (`sparse[-1, -1]` does
not exist for `N = 0`).  The loop over `range(N - 1)` multiplies signs and adds logs. -/
noncomputable def slogdetBody {n P : ℕ} (S : Sp ℝ (n + 1) (n + 1) P) : ℝ × ℝ :=
  let sign0 := ∏ p, signR (S (Fin.last n) (Fin.last n) p)
  let logdet0 := ∑ p, Real.log |S (Fin.last n) (Fin.last n) p|
  (List.finRange n).foldl
    (fun acc i => (acc.1 * (blockDet S i.castSucc).1, acc.2 + (blockDet S i.castSucc).2))
    (sign0, logdet0)

end Det

/-- A JAX array whose rank and shape are known at run time; ranks above 3 carry no data because
the library rejects them. -/
inductive NdArr (K : Type*)
  | d0 (x : K)
  | d1 (n : ℕ) (v : Fin n → K)
  | d2 (m n : ℕ) (M : Matrix (Fin m) (Fin n) K)
  | d3 (a b P : ℕ) (S : Sp K a b P)
  | hi (ndim : ℕ)

section Api
variable {K : Type*} [Field K]

/-- `sparse.py:37-39` `is_sparse`. -/
def isSparse : NdArr K → Bool
  | .d3 .. => true
  | _ => false

/-- `sparse.py:42-49` `check_sparse`. -/
def checkSparse (x : NdArr K) (square : Bool) : Except PyErr (NdArr K) :=
  match x with
  | .d3 a b P S => if square && a != b then .error .valueError else .ok (.d3 a b P S)
  | _ => .error .valueError

/-- `sparse.py:52-68` `to_dense`. -/
def toDenseApi (x : NdArr K) : Except PyErr (NdArr K) :=
  match checkSparse x false with
  | .ok (.d3 a b P S) => .ok (.d2 (a * P) (b * P) (toDense S))
  | .ok _ => .error .valueError
  | .error e => .error e

/-- `sparse.py:71-137` `dot`.  Two operands: `lines 94-123`; three: `lines 124-135`; any other
number: `line 137`.  When neither operand is sparse the code still calls
`vec_dot_sparse`/`dense_dot_sparse` (line 123): for a 2-d second operand the vmap over axis 1 then
computes the ordinary product, for a 1-d one the vmap over axis 1 raises `ValueError`. -/
def dot : List (NdArr K) → Except PyErr (NdArr K)
  | [.d3 a b P S, .d3 c d Q T] =>
    if b * P = c * Q then
      match sparseDotSparseRaw S T with
      | .ok ⟨R, U⟩ => .ok (.d3 a d R U)
      | .error e => .error e
    else .error .valueError
  | [.d3 a b P S, .d1 n v] =>
    if h : b * P = n then .ok (.d1 (a * P) (sparseDotVec S fun k => v (k.cast h)))
    else .error .valueError
  | [.d3 a b P S, .d2 m n D] =>
    if h : b * P = m then .ok (.d2 (a * P) n (sparseDotDense S fun k j => D (k.cast h) j))
    else .error .valueError
  | [.d1 n v, .d3 a b P S] =>
    if h : n = a * P then .ok (.d1 (b * P) (vecDotSparse (fun k => v (k.cast h.symm)) S))
    else .error .valueError
  | [.d2 m n D, .d3 a b P S] =>
    if h : n = a * P then
      .ok (.d2 m (b * P) (denseDotSparse (fun i k => D i (k.cast h.symm)) S))
    else .error .valueError
  | [.d1 n v, .d2 m c D] =>
    if h : n = m then .ok (.d1 c fun j => ∑ k, v (k.cast h.symm) * D k j)
    else .error .valueError
  | [.d2 r n A, .d2 m c D] =>
    if h : n = m then .ok (.d2 r c fun i j => ∑ k, A i (k.cast h.symm) * D k j)
    else .error .valueError
  | [_, _] => .error .valueError
  | [.d2 r n X, .d3 b c P Y, .d2 m d Z] =>
    if h : n = b * P ∧ c * P = m then
      .ok (.d2 r d (denseDotSparseDotDense (fun i k => X i (k.cast h.1.symm)) Y
        (fun k j => Z (k.cast h.2) j)))
    else .error .valueError
  | _ => .error .valueError

/-- `sparse.py:295-315` `inv`; after the check of line 314 only the second case is left. -/
noncomputable def invApi (x : NdArr K) : Except PyErr (NdArr K) :=
  match checkSparse x true with
  | .error e => .error e
  | .ok (.d3 a b P S) =>
    if h : a = b then .ok (.d3 a a P (spInv fun i j => S i (j.cast h))) else .error .indexError
  | .ok _ => .error .indexError

/-- `sparse.py:334-366` `slogdet`.  `sparse[-1, -1]` of an array without blocks is an
`IndexError`. -/
noncomputable def slogdetApi (x : NdArr ℝ) : Except PyErr (ℝ × ℝ) :=
  match checkSparse x true with
  | .error e => .error e
  | .ok (.d3 a b _ S) =>
    if h : a = b then
      match a, S, h with
      | 0, _, _ => .error .indexError
      | _ + 1, S, h => .ok (slogdetBody fun i j => S i (j.cast h))
    else .error .indexError
  | .ok _ => .error .indexError

/-- `sparse.py:369-389` `det`. -/
noncomputable def detApi (x : NdArr ℝ) : Except PyErr ℝ :=
  match slogdetApi x with
  | .ok (sign, logdet) => .ok (sign * Real.exp logdet)
  | .error e => .error e

end Api

end JaxCosmo
