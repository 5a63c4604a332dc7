import Verif.Model.FloatPower

/-! # `linear_matter_power` in floating point -/

namespace JaxCosmo
variable (A : Rounding) (L : Libm)

/-- `power.py:75`: the spectrum inside the integrand of `sigmasqr`; `T` and `prim` are the transfer function and the
primordial spectrum as computed, and a square is one multiplication. -/
noncomputable def shapeF (T prim : ℝ → ℝ) (k : ℝ) : ℝ := A.mul (A.mul (T k) (T k)) (prim k)

/-- `power.py:22-54` `linear_matter_power` at one wavenumber; `g` is the growth factor as computed, `c` the constant
`1 / (2 π ** 2)` of `sigmasqr` and `t` the orders of summation. -/
noncomputable def linearPowerF (T prim : ℝ → ℝ) (g sigma8 c : ℝ) (t : ℕ → SumTree) (k : ℝ) : Except PyErr ℝ := do
  let s ← sigmasqrF A L (shapeF A T prim) 8 c t
  let pknorm := A.div (A.mul sigma8 sigma8) s
  let pk := A.mul (A.mul (prim k) (A.mul (T k) (T k))) (A.mul g g)
  return A.mul pk pknorm

end JaxCosmo
