import Verif.Model.DualSpectra
import Verif.Model.Likelihood
import Verif.Model.XrSpectra

/-!
# Forward-mode differentiation of the covariance and of the likelihood

`jax_cosmo/angular_cl.py:123-199`, `jax_cosmo/sparse.py` (the operations that the likelihood uses) and
`jax_cosmo/likelihood.py` on numbers with tangents.  The dense linear algebra is JAX's: a matrix inverse
is a linear solve against the identity, whose rule is `solve(A, -dA @ A^-1)`; `slogdet` has the rule
`trace(solve(A, dA))`; a Cholesky factor `L` has the rule `L @ phi(L^-1 @ dA @ L^-T)`, where `phi` keeps
the lower triangle and halves the diagonal; and a triangular solve is differentiated like a linear
solve.  On a matrix that is singular, not finite or (Cholesky) not positive definite the results are taken
to be NaN throughout; JAX returns a mixture of infinities and NaN there.
-/

namespace JaxCosmo

namespace Xr

/-- The real number, zero for exceptional values. -/
def re : Xr → ℝ
  | fin x => x
  | _ => 0

/-- Sum over an axis. -/
def asum {n : ℕ} (f : Fin n → Xr) : Xr := (List.ofFn f).foldr (· + ·) 0

/-- Matrix product. -/
noncomputable def mmul {m n k : ℕ} (A : Matrix (Fin m) (Fin n) Xr) (B : Matrix (Fin n) (Fin k) Xr) :
    Matrix (Fin m) (Fin k) Xr := fun i j => asum fun l => A i l * B l j

/-- Matrix times vector. -/
noncomputable def mvec {m n : ℕ} (A : Matrix (Fin m) (Fin n) Xr) (v : Fin n → Xr) : Fin m → Xr :=
  fun i => asum fun l => A i l * v l

/-- The real matrix behind a finite one. -/
def reMat {m n : ℕ} (A : Matrix (Fin m) (Fin n) Xr) : Matrix (Fin m) (Fin n) ℝ := fun i j => (A i j).re

/-- Every entry is finite. -/
def FiniteMat {m n : ℕ} (A : Matrix (Fin m) (Fin n) Xr) : Prop := ∀ i j, A i j = fin (A i j).re

open Classical in
/-- `np.linalg.inv`. -/
noncomputable def minv {n : ℕ} (A : Matrix (Fin n) (Fin n) Xr) : Matrix (Fin n) (Fin n) Xr :=
  if FiniteMat A ∧ (reMat A).det ≠ 0 then fun i j => fin ((reMat A)⁻¹ i j) else fun _ _ => nan

open Classical in
/-- The second value of `np.linalg.slogdet`. -/
noncomputable def mlogdet {n : ℕ} (A : Matrix (Fin n) (Fin n) Xr) : Xr :=
  if FiniteMat A then (if (reMat A).det = 0 then ninf else fin (Real.log |(reMat A).det|)) else nan

/-- `L` is the Cholesky factor of `M`: lower triangular with positive diagonal and `L Lᵀ = M`. -/
def IsCholesky {n : ℕ} (M L : Matrix (Fin n) (Fin n) ℝ) : Prop :=
  (∀ i j, i < j → L i j = 0) ∧ (∀ i, 0 < L i i) ∧ L * L.transpose = M

open Classical in
/-- `cho_factor(C, lower=True)`, `likelihood.py:49`: only the lower triangle is read. -/
noncomputable def chol {n : ℕ} (A : Matrix (Fin n) (Fin n) Xr) : Matrix (Fin n) (Fin n) Xr :=
  if h : FiniteMat A ∧ ∃ L, IsCholesky (lowerSym (reMat A)) L then
    fun i j => fin (Classical.choose h.2 i j)
  else fun _ _ => nan

/-- `phi` of the Cholesky rule: lower triangle, diagonal halved. -/
noncomputable def phi {n : ℕ} (X : Matrix (Fin n) (Fin n) Xr) : Matrix (Fin n) (Fin n) Xr :=
  fun i j => (if j ≤ i then X i j else fin 0) / (if i = j then fin 2 else fin 1)

end Xr

namespace Dm
open Du Xr

/-! ## Linear algebra -/

open Classical in
/-- The tangent of a matrix; a symbolic zero only if no entry has one. -/
noncomputable def matTan {m n : ℕ} (A : Matrix (Fin m) (Fin n) Du) : Option (Matrix (Fin m) (Fin n) Xr) :=
  if ∀ i j, (A i j).tan = none then none else some fun i j => (A i j).tan.getD (fin 0)

open Classical in
/-- The tangent of a vector. -/
noncomputable def vecTan {n : ℕ} (v : Fin n → Du) : Option (Fin n → Xr) :=
  if ∀ i, (v i).tan = none then none else some fun i => (v i).tan.getD (fin 0)

/-- Sum of two tangents. -/
def vtadd {n : ℕ} : Option (Fin n → Xr) → Option (Fin n → Xr) → Option (Fin n → Xr)
  | none, t => t
  | some s, none => some s
  | some s, some t => some fun i => s i + t i

/-- The values of a matrix. -/
def matVal {m n : ℕ} (A : Matrix (Fin m) (Fin n) Du) : Matrix (Fin m) (Fin n) Xr := fun i j => (A i j).val

/-- `np.linalg.inv` (`likelihood.py:47`, `sparse.py:315`): `solve(A, 1)`. -/
noncomputable def minv {n : ℕ} (A : Matrix (Fin n) (Fin n) Du) : Matrix (Fin n) (Fin n) Du :=
  let V := Xr.minv (matVal A)
  fun i j => ⟨V i j, (matTan A).map fun dA => mmul V (fun k l => -(mmul dA V k l)) i j⟩

/-- `np.linalg.slogdet` (`likelihood.py:60`), second value. -/
noncomputable def logdet {n : ℕ} (A : Matrix (Fin n) (Fin n) Du) : Du :=
  ⟨mlogdet (matVal A), (matTan A).map fun dA => Xr.asum fun i => mmul (Xr.minv (matVal A)) dA i i⟩

/-- `cho_solve(cho_factor(C, lower=True), r)`, `likelihood.py:49`: two triangular solves. -/
noncomputable def choSolve {n : ℕ} (A : Matrix (Fin n) (Fin n) Du) (r : Fin n → Du) : Fin n → Du :=
  let L := chol (matVal A)
  let Li := Xr.minv L
  let LiT : Matrix (Fin n) (Fin n) Xr := fun i j => Li j i
  let dL := (matTan A).map fun dA => mmul L (phi (mmul Li (mmul dA LiT)))
  let z := mvec Li fun i => (r i).val
  let dz := vtadd (dL.map fun d => mvec Li fun i => -(mvec d z i)) ((vecTan r).map fun g => mvec Li g)
  let y := mvec LiT z
  let dy := vtadd (dL.map fun d => mvec LiT fun i => -(mvec (fun i j => d j i) y i))
    (dz.map fun g => mvec LiT g)
  fun i => ⟨y i, dy.map fun g => g i⟩

/-- Sum over an axis. -/
noncomputable def fsum {n : ℕ} (f : Fin n → Du) : Du := lsum (List.ofFn f)

/-! ## `sparse.py` -/

/-- `sparse.py:141-162` `sparse_dot_vec`. -/
noncomputable def sparseDotVec {a b P : ℕ} (S : Sp Du a b P) (v : Fin (b * P) → Du) : Fin (a * P) → Du :=
  flat fun i => let row := S i; fun p => fsum fun j => row j p * unflat v j p

/-- `sparse.py:235-263` `sparse_dot_sparse`. -/
noncomputable def sparseDotSparse {a b c P : ℕ} (S : Sp Du a b P) (T : Sp Du b c P) : Sp Du a c P :=
  fun i j p => fsum fun m => S i m p * T m j p

/-- `sparse.py:267-292` `dense_dot_sparse_dot_dense`. -/
noncomputable def denseDotSparseDotDense {a b c d P : ℕ} (X : Matrix (Fin a) (Fin (b * P)) Du)
    (Y : Sp Du b c P) (Z : Matrix (Fin (c * P)) (Fin d) Du) : Matrix (Fin a) (Fin d) Du :=
  fun r j => fsum fun k => X r k * sparseDotVec Y (fun l => Z l j) k

/-- `sparse.py:315`: body of `inv`. -/
noncomputable def spInv {N P : ℕ} (S : Sp Du N N P) : Sp Du N N P :=
  fun i j p => minv (fun i j => S i j p) i j

/-- `sparse.py:324-328` of `_block_det`. -/
noncomputable def schurM {N P : ℕ} (S : Sp Du N N P) (k : Fin N) : Fin P → Du :=
  let u : Sp Du 1 (N - (k + 1)) P := fun _ j => S k (tailIx j)
  let T : Sp Du (N - (k + 1)) (N - (k + 1)) P := fun i j => S (tailIx i) (tailIx j)
  let v : Sp Du (N - (k + 1)) 1 P := fun i _ => S (tailIx i) k
  let Sinv_v := sparseDotSparse (spInv T) v
  fun p => S k k p - sparseDotSparse u Sinv_v 0 0 p

/-- `sparse.py:357-366`: the logarithm of `slogdet` for `N = n + 1` blocks per side. -/
noncomputable def slogdetBody {n P : ℕ} (S : Sp Du (n + 1) (n + 1) P) : Du :=
  (List.finRange n).foldl (fun acc i => acc + fsum fun p => (schurM S i.castSucc p).abs.log)
    (fsum fun p => (S (Fin.last n) (Fin.last n) p).abs.log)

/-- `sparse.py:334-366` `slogdet`, second value. -/
noncomputable def slogdetApi (x : NdArr Du) : Except PyErr Du :=
  match x with
  | .d3 a b _ S =>
    if h : a = b then
      match a, S, h with
      | 0, _, _ => .error .indexError
      | _ + 1, S, h => .ok (slogdetBody fun i j => S i (j.cast h))
    else .error .valueError
  | _ => .error .valueError

/-! ## `likelihood.py` -/

/-- `likelihood.py:9-61` `gaussian_log_likelihood`; the shapes that are refused are those of
`Model/Likelihood.lean`. -/
noncomputable def gaussianLogLikelihood {N : ℕ} (data mu : Fin N → Du) (C : NdArr Du)
    (include_logdet : Bool := true) (inverse_method : String := "inverse") : Except PyErr Du := do
  -- Computes residuals
  let r := fun i => mu i - data i
  let rT_Cinv_r ←
    match C with
    | .d3 a b P S =>
      if h : a = b ∧ N = a * P then
        let ci := spInv fun i j => S i (j.cast h.1)
        pure (denseDotSparseDotDense (fun (_ : Fin 1) k => r (k.cast h.2.symm)) ci
          (fun k (_ : Fin 1) => r (k.cast h.2.symm)) 0 0)
      else .error .valueError
    | .d2 m n M =>
      if inverse_method = "inverse" then
        if h : m = N ∧ n = N then
          let M' : Matrix (Fin N) (Fin N) Du := fun i j => M (i.cast h.1.symm) (j.cast h.2.symm)
          let y := fun i => fsum fun j => minv M' i j * r j
          pure (fsum fun i => r i * y i)
        else if m = n then .error .typeError
        else .error .valueError
      else if inverse_method = "cholesky" then
        if h : m = N ∧ n = N then
          let M' : Matrix (Fin N) (Fin N) Du := fun i j => M (i.cast h.1.symm) (j.cast h.2.symm)
          let y := choSolve M' r
          pure (fsum fun i => r i * y i)
        else .error .valueError
      else .error .notImplementedError
    | _ =>
      if inverse_method = "inverse" ∨ inverse_method = "cholesky" then .error .valueError
      else .error .notImplementedError
  if !include_logdet then return (-0.5 : Du) * rT_Cinv_r
  else
    let logdet ←
      match C with
      | .d3 a b P S => slogdetApi (.d3 a b P S)
      | .d2 m n M =>
        if h : m = n then pure (logdet (fun i j => M i (j.cast h) : Matrix (Fin m) (Fin m) Du))
        else .error .valueError
      | _ => .error .valueError
    return (-0.5 : Du) * (rT_Cinv_r - logdet)

/-! ## `angular_cl.py` -/

/-- Row `a` of an array of spectra, at multipole number `l`. -/
noncomputable def rowAt (cl : List (List Du)) (a l : ℕ) : Du := (cl.getD a []).getD l 0

/-- `angular_cl.py:138`. -/
noncomputable def addCl (s n : List (List Du)) : List (List Du) :=
  List.zipWith (List.zipWith (· + ·)) s n

/-- `angular_cl.py:142`: `norm`, which depends on the multipoles and the sky fraction only. -/
noncomputable def covNorm (ells : List ℝ) (f_sky : ℝ) : Except PyErr (ℕ → Du) :=
  match Xm.covNorm (ells.map fin) f_sky with
  | .ok n => .ok fun l => ⟨n l, none⟩
  | .error e => .error e

/-- `angular_cl.py:36-49` `_get_cov_blocks_ordering`: depends on the number of tracers only. -/
def getCovBlocksOrdering (probes : List (ProbeTree Du)) : Except PyErr (List (ℕ × ℕ × ℕ × ℕ)) :=
  covBlocks (getClOrdering probes)

/-- `angular_cl.py:145-156`. -/
noncomputable def covBlockDiag (probes : List (ProbeTree Du)) (cl_obs : List (List Du)) (norm : ℕ → Du) :
    Except PyErr (List (ℕ → Du)) := do
  let blocks ← getCovBlocksOrdering probes
  return blocks.map fun abcd l =>
    (rowAt cl_obs abcd.1 l * rowAt cl_obs abcd.2.1 l
      + rowAt cl_obs abcd.2.2.1 l * rowAt cl_obs abcd.2.2.2 l) / norm l

/-- `angular_cl.py:123-166` `gaussian_cl_covariance`. -/
noncomputable def gaussianClCovariance (ells : List ℝ) (probes : List (ProbeTree Du))
    (cl_signal cl_noise : List (List Du)) (f_sky : ℝ := 0.25) (sparse : Bool := true) :
    Except PyErr (NdArr Du) := do
  let n_ell := ells.length
  let cl_obs := addCl cl_signal cl_noise
  let n_cls := cl_obs.length
  let norm ← covNorm ells f_sky
  let blocks ← covBlockDiag probes cl_obs norm
  if blocks.length = n_cls * n_cls then
    let block := fun (i j : Fin n_cls) => blocks.getD (i * n_cls + j) fun _ => 0
    if sparse then
      return .d3 n_cls n_cls n_ell fun i j l => block i j l
    else
      let cov4 := fun (i j : Fin n_cls) (l l' : Fin n_ell) =>
        block i j l' * (if l = l' then 1 else 0)
      return .d2 (n_cls * n_ell) (n_cls * n_ell) fun r c =>
        cov4 r.divNat c.divNat r.modNat c.modNat
  else .error .typeError

/-- `angular_cl.py:169-199` `gaussian_cl_covariance_and_mean`. -/
noncomputable def gaussianClCovarianceAndMean (p : DParams) (ells : List ℝ) (probes : List (ProbeTree Du))
    (T : Du → Du) (nonlinear_fn : DParams → Du → Du → (Du → Du) → Except PyErr Du)
    (f_sky : ℝ := 0.25) (sparse : Bool := false) : Except PyErr (List Du × NdArr Du) := do
  let cl_signal ← angularCl p (ells.map con) probes T nonlinear_fn
  let cl_noise ← noiseCl (ells.map con) probes
  let cov_mat ← gaussianClCovariance ells probes cl_signal cl_noise f_sky sparse
  return (cl_signal.flatten, cov_mat)

end Dm

end JaxCosmo
