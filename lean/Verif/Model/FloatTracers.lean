import Verif.Model.FloatProbes

/-! # Model of `jax_cosmo/bias.py` and of the clustering and alignment kernels of `jax_cosmo/probes.py` in floating point

One bin at one redshift.  The normalised redshift distribution `dndz`, the expansion rate `H` and the growth factor `D` at
this redshift are given numbers. -/

namespace JaxCosmo
variable (A : Rounding) (L : Elem)

/-- `bias.py:21-23`, `:38-40`, `:56-58`: the bias at one redshift; `powr` is `**` as the library computes it. -/
noncomputable def biasF (powr : ℝ → ℝ → ℝ) (D z : ℝ) : Bias → ℝ
  | .constant b => A.mul b 1
  | .invGrowth b => A.div b D
  | .desY1 amp eta z0 => A.mul amp (powr (A.div (A.add 1 z) (A.add 1 z0)) eta)

/-- `probes.py:96`, `:121`: `dndz * b * bkgrd.H(cosmo, z2a(z))`. -/
noncomputable def radialF (dndz b H : ℝ) : ℝ := A.mul (A.mul dndz b) H

/-- `probes.py:96-101`: one entry of the clustering kernel; the two factors are Python numbers whose product is one. -/
noncomputable def densityF (dndz b H : ℝ) : ℝ := A.mul (A.rd 1) (radialF A dndz b H)

/-- `probes.py:124-126`: the common normalisation of alignments; `-(5e-14 * const.rhocrit)` is a Python number. -/
noncomputable def nlaNormF (Omega_m D : ℝ) : ℝ := A.div (A.mul (A.rd (-(5e-14 * const_rhocrit))) Omega_m) D

/-- `probes.py:121-131`: one entry of the alignment kernel. -/
noncomputable def nlaF (dndz b H Omega_m D ell : ℝ) : ℝ :=
  A.mul (A.mul 1 (ellFactorF A L ell)) (A.mul (radialF A dndz b H) (nlaNormF A Omega_m D))

/-- `probes.py:201-209`: one entry of the kernel of a lensing probe with alignments. -/
noncomputable def shearF (lens ia m : ℝ) : ℝ := A.mul (A.add lens ia) (A.add 1 m)

end JaxCosmo
