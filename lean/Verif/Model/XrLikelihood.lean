import Verif.Model.Likelihood
import Verif.Model.XrSpectra
import Mathlib.LinearAlgebra.Matrix.PosDef

/-!
# `sparse.py` and `likelihood.py` with exceptional values

`Model/Sparse.lean` and `Model/Likelihood.lean` compute with real numbers, where every matrix has an inverse by
convention.  Here numbers are `Xr`: dividing by zero and the logarithm of zero give what they give in floating point.

The matrix routines behind `np.linalg` and `scipy.linalg` are not modelled but described: `Lapack` lists what is assumed
about them, and everything that is proved holds for each routine with these properties.

Simplification: the routines are exact, so that a singular matrix always meets a zero pivot.
-/

namespace JaxCosmo.Xm
open Xr

/-- `np.sum` over an axis of length `n`. -/
noncomputable def fsum {n : ℕ} (f : Fin n → Xr) : Xr := (List.ofFn f).foldl (· + ·) (fin 0)

/-- `np.prod` over an axis of length `n`. -/
noncomputable def fprod {n : ℕ} (f : Fin n → Xr) : Xr := (List.ofFn f).foldl (· * ·) (fin 1)

/-- `np.sign`. -/
noncomputable def sign : Xr → Xr
  | fin x => fin (signR x)
  | pinf => fin 1
  | ninf => fin (-1)
  | nan => nan

/-- A matrix of finite numbers. -/
def ofReal {m n : ℕ} (A : Matrix (Fin m) (Fin n) ℝ) : Matrix (Fin m) (Fin n) Xr := fun i j => fin (A i j)

/-- What is assumed about the matrix routines (`sparse.py:315`, `likelihood.py:47-60`). -/
structure Lapack where
  /-- `np.linalg.inv` -/
  inv : ∀ {n : ℕ}, Matrix (Fin n) (Fin n) Xr → Matrix (Fin n) (Fin n) Xr
  /-- `cho_solve(cho_factor(M, lower=True), r)` -/
  cho : ∀ {n : ℕ}, Matrix (Fin n) (Fin n) Xr → (Fin n → Xr) → Fin n → Xr
  /-- the second result of `np.linalg.slogdet` -/
  logdet : ∀ {n : ℕ}, Matrix (Fin n) (Fin n) Xr → Xr
  /-- the inverse is right where there is one -/
  inv_ok : ∀ {n : ℕ} (A : Matrix (Fin n) (Fin n) ℝ), A.det ≠ 0 → inv (ofReal A) = ofReal A⁻¹
  /-- eliminating a singular matrix divides by a zero pivot -/
  inv_bad : ∀ {n : ℕ} (A : Matrix (Fin n) (Fin n) ℝ), A.det = 0 → ∃ i j, ¬ (inv (ofReal A) i j).IsFinite
  /-- the Cholesky solution is right for a positive definite matrix; only the lower triangle is read -/
  cho_ok : ∀ {n : ℕ} (A : Matrix (Fin n) (Fin n) ℝ) (r : Fin n → ℝ), (lowerSym A).PosDef →
    cho (ofReal A) (fun i => fin (r i)) = fun i => fin (((lowerSym A)⁻¹.mulVec r) i)
  /-- a failed Cholesky factorisation is filled with NaN -/
  cho_bad : ∀ {n : ℕ} (A : Matrix (Fin n) (Fin n) ℝ) (r : Fin n → ℝ), ¬ (lowerSym A).PosDef →
    ∀ i, cho (ofReal A) (fun i => fin (r i)) i = nan
  /-- the logarithm of the absolute value of the determinant, `-∞` if that is zero -/
  logdet_ok : ∀ {n : ℕ} (A : Matrix (Fin n) (Fin n) ℝ), logdet (ofReal A) = (fin A.det).abs.log

variable (L : Lapack)

/-- `np.dot` of two vectors. -/
noncomputable def dotVec {n : ℕ} (v w : Fin n → Xr) : Xr := fsum fun i => v i * w i

/-- `np.dot` of a matrix and a vector. -/
noncomputable def mulVec {m n : ℕ} (M : Matrix (Fin m) (Fin n) Xr) (v : Fin n → Xr) : Fin m → Xr :=
  fun i => dotVec (M i) v

/-- `sparse.py:315`: body of `inv`. -/
noncomputable def spInv {N P : ℕ} (S : Sp Xr N N P) : Sp Xr N N P := fun i j p => L.inv (fun i j => S i j p) i j

/-- `sparse.py:141-162` `sparse_dot_vec`. -/
noncomputable def sparseDotVec {a b P : ℕ} (S : Sp Xr a b P) (v : Fin (b * P) → Xr) : Fin (a * P) → Xr :=
  flat fun i p => fsum fun j => S i j p * unflat v j p

/-- `sparse.py:235-263` `sparse_dot_sparse` on operands with matching shapes. -/
noncomputable def sparseDotSparse {a b c P : ℕ} (S : Sp Xr a b P) (T : Sp Xr b c P) : Sp Xr a c P :=
  fun i j p => fsum fun m => S i m p * T m j p

/-- `sparse.py:324-328` of `_block_det`. -/
noncomputable def schurM {N P : ℕ} (S : Sp Xr N N P) (k : Fin N) : Fin P → Xr :=
  let u : Sp Xr 1 (N - (k + 1)) P := fun _ j => S k (tailIx j)
  let T : Sp Xr (N - (k + 1)) (N - (k + 1)) P := fun i j => S (tailIx i) (tailIx j)
  let v : Sp Xr (N - (k + 1)) 1 P := fun i _ => S (tailIx i) k
  let Sinv_v := sparseDotSparse (spInv L T) v
  fun p => S k k p - sparseDotSparse u Sinv_v 0 0 p

/-- `sparse.py:323-331` `_block_det`. -/
noncomputable def blockDet {N P : ℕ} (S : Sp Xr N N P) (k : Fin N) : Xr × Xr :=
  (fprod fun p => sign (schurM L S k p), fsum fun p => (schurM L S k p).abs.log)

/-- `sparse.py:357-366`: body of `slogdet` for `N = n + 1` blocks per side. -/
noncomputable def slogdetBody {n P : ℕ} (S : Sp Xr (n + 1) (n + 1) P) : Xr × Xr :=
  let sign0 := fprod fun p => sign (S (Fin.last n) (Fin.last n) p)
  let logdet0 := fsum fun p => (S (Fin.last n) (Fin.last n) p).abs.log
  (List.finRange n).foldl
    (fun acc i => (acc.1 * (blockDet L S i.castSucc).1, acc.2 + (blockDet L S i.castSucc).2))
    (sign0, logdet0)

/-- `sparse.py:388-389` of `det`. -/
noncomputable def detBody {n P : ℕ} (S : Sp Xr (n + 1) (n + 1) P) : Xr :=
  (slogdetBody L S).1 * (slogdetBody L S).2.exp

/-- `sparse.py:334-366` `slogdet`. -/
noncomputable def slogdetApi : NdArr Xr → Except PyErr (Xr × Xr)
  | .d3 a b _ S =>
    if h : a = b then
      match a, S, h with
      | 0, _, _ => .error .indexError
      | _ + 1, S, h => .ok (slogdetBody L fun i j => S i (j.cast h))
    else .error .valueError
  | _ => .error .valueError

/-- `sparse.py:369-389` `det`. -/
noncomputable def detApi (x : NdArr Xr) : Except PyErr Xr :=
  match slogdetApi L x with
  | .ok (sign, logdet) => .ok (sign * logdet.exp)
  | .error e => .error e

/-- `likelihood.py:40-53`: the quadratic form. -/
noncomputable def quadForm {N : ℕ} (r : Fin N → Xr) (C : NdArr Xr) (inverse_method : String) : Except PyErr Xr :=
  match C with
  | .d3 a b P S =>
    if h : a = b ∧ N = a * P then
      let y := sparseDotVec (spInv L fun i j => S i (j.cast h.1)) fun l => r (l.cast h.2.symm)
      .ok (dotVec (fun k => r (k.cast h.2.symm)) y)
    else .error .valueError
  | .d2 m n M =>
    if inverse_method = "inverse" then
      if h : m = N ∧ n = N then
        .ok (dotVec r (mulVec (L.inv fun i j => M (i.cast h.1.symm) (j.cast h.2.symm)) r))
      else if m = n then .error .typeError
      else .error .valueError
    else if inverse_method = "cholesky" then
      if h : m = N ∧ n = N then
        .ok (dotVec r (L.cho (fun i j => M (i.cast h.1.symm) (j.cast h.2.symm)) r))
      else .error .valueError
    else .error .notImplementedError
  | _ =>
    if inverse_method = "inverse" ∨ inverse_method = "cholesky" then .error .valueError
    else .error .notImplementedError

/-- `likelihood.py:57-60`: the determinant. -/
noncomputable def logdetPart : NdArr Xr → Except PyErr Xr
  | .d3 a b P S => (slogdetApi L (.d3 a b P S)).map (·.2)
  | .d2 m n M => if h : m = n then .ok (L.logdet fun i j => M i (j.cast h)) else .error .valueError
  | _ => .error .valueError

/-- `likelihood.py:9-61` `gaussian_log_likelihood`. -/
noncomputable def gaussianLogLikelihood {N : ℕ} (data mu : Fin N → Xr) (C : NdArr Xr) (include_logdet : Bool := true)
    (inverse_method : String := "inverse") : Except PyErr Xr := do
  let rT_Cinv_r ← quadForm L (fun i => mu i - data i) C inverse_method
  if !include_logdet then return fin (-(1 / 2)) * rT_Cinv_r
  else
    let logdet ← logdetPart L C
    return fin (-(1 / 2)) * (rT_Cinv_r - logdet)

end JaxCosmo.Xm
