import Verif.Model.Sparse
import Verif.Model.FloatBackground

/-! # Model of `jax_cosmo/likelihood.py` in floating point, for the covariance of one spectrum

The covariance is sparse of shape `(1, 1, ndiag)`: one block, that is one spectrum.  `np.linalg.inv` of a `1 × 1`
matrix is one division.  Sums run in an unspecified order.  Ranges are not limited except through the library
function `exp`. -/

namespace JaxCosmo
variable (A : Rounding) (L : Elem)

/-- `likelihood.py:37-41`, `sparse.py:267-292`, `:314-315`: the residuals and their quadratic form.  The sum over
blocks (`sparse.py:141-162`) has one term; `t` is the order of summation of `np.dot`. -/
noncomputable def chi2F (t : SumTree) (data mu C : ℕ → ℝ) : ℝ :=
  let r := fun i => A.sub (mu i) (data i)
  let Cinv := fun i => A.div 1 (C i)
  t.sum A fun i => A.mul (r i) (A.mul (Cinv i) (r i))

/-- `sparse.py:357-366` `slogdet` for one block: the loop over `range(N - 1)` is empty; `t` is the order of summation of
`np.sum`. -/
noncomputable def slogdetF (t : SumTree) (C : ℕ → ℝ) : ℝ × ℝ :=
  ((t.leaves.map fun i => signR (C i)).prod, t.sum A fun i => L.log |C i|)

/-- `sparse.py:388-389` `det` for one block. -/
noncomputable def detF (t : SumTree) (C : ℕ → ℝ) : ℝ :=
  let s := slogdetF A L t C
  A.mul s.1 (L.exp s.2)

/-- `likelihood.py:54-61` for one block; `t` and `t'` are the orders of summation. -/
noncomputable def logLikelihoodF (t t' : SumTree) (data mu C : ℕ → ℝ) (include_logdet : Bool := true) : ℝ :=
  let rT_Cinv_r := chi2F A t data mu C
  if !include_logdet then A.mul (-(1 / 2)) rT_Cinv_r
  else
    let logdet := (slogdetF A L t' C).2
    A.mul (-(1 / 2)) (A.sub rT_Cinv_r logdet)

end JaxCosmo
