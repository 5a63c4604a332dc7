import Verif.Model.Sparse

/-! # Model of `jax_cosmo/likelihood.py` -/

namespace JaxCosmo

/-- The symmetric matrix that `cho_factor(C, lower=True)` factorises: only the lower triangle of
`C` is read (`likelihood.py:49`). -/
def lowerSym {n : ℕ} (C : Matrix (Fin n) (Fin n) ℝ) : Matrix (Fin n) (Fin n) ℝ :=
  fun i j => if j ≤ i then C i j else C j i

/-- `likelihood.py:9-61` `gaussian_log_likelihood`.  `np.linalg.inv` and the Cholesky solve are
modelled by Mathlib's inverse (meaningful for invertible, resp. positive definite, input),
`np.linalg.slogdet` by `log |det|`.  The linear algebra routines raise `ValueError` on arrays that
are not square matrices and `np.dot` raises `TypeError` on a square matrix of another size than the
data.  Arrays of more than three dimensions (batches of matrices) are not modelled and count as
refused.  The error cases of the determinant cannot be reached: the quadratic form has failed
before. -/
noncomputable def gaussianLogLikelihood {N : ℕ} (data mu : Fin N → ℝ) (C : NdArr ℝ)
    (include_logdet : Bool := true) (inverse_method : String := "inverse") : Except PyErr ℝ := do
  -- Computes residuals
  let r := mu - data
  let rT_Cinv_r ←
    if isSparse C then do
      let rT : NdArr ℝ := .d2 1 N fun _ k => r k
      let rc : NdArr ℝ := .d2 N 1 fun k _ => r k
      let ci ← invApi C
      match ← dot [rT, ci, rc] with
      | .d2 (_ + 1) (_ + 1) M => pure (M 0 0)
      | _ => .error .indexError
    else if inverse_method = "inverse" then
      match C with
      | .d2 m n M =>
        if h : m = N ∧ n = N then
          let M' : Matrix (Fin N) (Fin N) ℝ := fun i j => M (i.cast h.1.symm) (j.cast h.2.symm)
          pure (r ⬝ᵥ (M'⁻¹).mulVec r)
        else if m = n then .error .typeError
        else .error .valueError
      | _ => .error .valueError
    else if inverse_method = "cholesky" then
      match C with
      | .d2 m n M =>
        if h : m = N ∧ n = N then
          let M' : Matrix (Fin N) (Fin N) ℝ := fun i j => M (i.cast h.1.symm) (j.cast h.2.symm)
          pure (r ⬝ᵥ ((lowerSym M')⁻¹).mulVec r)
        else .error .valueError
      | _ => .error .valueError
    else .error .notImplementedError
  if !include_logdet then return -(1 / 2) * rT_Cinv_r
  else
    let logdet ←
      if isSparse C then (slogdetApi C).map (·.2)
      else
        match C with
        | .d2 m n M =>
          if h : m = n then
            pure (Real.log |Matrix.det (fun i j => M i (j.cast h) : Matrix (Fin m) (Fin m) ℝ)|)
          else .error .valueError
        | _ => .error .valueError
    return -(1 / 2) * (rT_Cinv_r - logdet)

end JaxCosmo
