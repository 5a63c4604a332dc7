import Verif.Model.FloatBackground
import Verif.Model.Probes

/-! # Model of `jax_cosmo/redshift.py` and of the lensing kernel of `jax_cosmo/probes.py` in floating point

Distances and unnormalised redshift distributions at the nodes are given numbers.  The order of summation is not
specified. -/

namespace JaxCosmo
variable (A : Rounding) (L : Elem)

/-- `redshift.py:30-32`: the normalised distribution at one redshift; `pz` are the values at the nodes of `simps`, `v` the
value at the redshift. -/
noncomputable def nzF (pz : ℕ → ℝ) (zmax : ℝ) (t : SumTree) (v : ℝ) : ℝ :=
  let norm := simpsF A pz 0 zmax 256 t
  A.div v norm

/-- `probes.py:46-53`: the row of an extended distribution; `dndz` and `chi'` at the nodes. -/
noncomputable def extRowF (dndz chi' : ℕ → ℝ) (chi zmax z : ℝ) (t : SumTree) : ℝ :=
  let integrand := fun n => A.div (A.mul (dndz n) (clipLo (A.sub (chi' n) chi) 0)) (clipLo (chi' n) 1)
  A.mul (A.mul (simpsF A integrand z zmax 256 t) (A.add 1 z)) chi

/-- `probes.py:57-60`: the lensing efficiency of a single plane. -/
noncomputable def planeF (chi' chi : ℝ) : ℝ :=
  A.div (clipLo (A.sub chi' chi) 0) (clipLo chi' 1)

/-- `probes.py:62-66`: the row of a single plane. -/
noncomputable def deltaRowF (chi' chi z : ℝ) : ℝ :=
  A.mul (A.mul (planeF A chi' chi) (A.add 1 z)) chi

/-- `probes.py:75`, `:130`: the prefactor of a field of spin two; the square is one multiplication. -/
noncomputable def ellFactorF (ell : ℝ) : ℝ :=
  let h := A.add ell (1 / 2)
  A.div (L.sqrt (A.mul (A.mul (A.mul (A.sub ell 1) ell) (A.add ell 1)) (A.add ell 2))) (A.mul h h)

/-- `probes.py:73`: the constant; `3.0 * const.H0**2` and `const.c` are Python numbers. -/
noncomputable def lensConstF (Omega_m : ℝ) : ℝ :=
  A.div (A.div (A.mul (A.rd (3 * const_H0 ^ 2)) Omega_m) 2) (A.rd const_c)

/-- `probes.py:76`: one entry of the kernel. -/
noncomputable def lensKernelF (Omega_m ell row : ℝ) : ℝ :=
  A.mul (A.mul (lensConstF A Omega_m) (ellFactorF A L ell)) row

end JaxCosmo
