import Verif.Model.Float

/-! # Model of `jax_cosmo/angular_cl.py` in floating point

The kernels, the power spectrum and the distances at the nodes are given numbers.  The order of summation is not
specified and may differ between spectra. -/

namespace JaxCosmo
variable (A : Rounding)

/-- `angular_cl.py:74-83`: what `integrand` computes with at node `n`. -/
structure LimberInput where
  pk : ℕ → ℝ
  dchi : ℕ → ℝ
  chi : ℕ → ℝ
  kernel : ℕ → ℕ → ℝ

/-- `angular_cl.py:88-95`: entry `(i, j)` of `result` at node `n`; `chi**2` is one multiplication. -/
noncomputable def limberF (S : LimberInput) (i j n : ℕ) : ℝ :=
  let kk := A.mul (S.kernel i n) (S.kernel j n)
  A.div (A.mul (A.mul (S.pk n) kk) (S.dchi n)) (clipLo (A.mul (S.chi n) (S.chi n)) 1)

/-- `angular_cl.py:100`: spectrum `(i, j)` at one multipole; the Python constant `const.c**2` enters as the nearest
floating-point number. -/
noncomputable def clF (S : LimberInput) (zmax : ℝ) (t : SumTree) (i j : ℕ) : ℝ :=
  A.div (simpsF A (limberF A S i j) (z2aF A zmax) 1 512 t) (A.rd (const_c ^ 2))

/-- `angular_cl.py:113-118`: `get_noise_cl` at one multipole. -/
noncomputable def noiseF (noise : ℕ → ℝ) (i j : ℕ) : ℝ :=
  let delta := A.sub 1 (clip |(i : ℝ) - (j : ℝ)| 0 1)
  A.mul (A.mul (noise i) delta) 1

/-- `angular_cl.py:138`: `cl_obs`. -/
noncomputable def clObsF (S : LimberInput) (noise : ℕ → ℝ) (zmax : ℝ) (t : SumTree) (i j : ℕ) : ℝ :=
  A.add (clF A S zmax t i j) (noiseF A noise i j)

end JaxCosmo
