import Mathlib.Algebra.Module.Defs
import Mathlib.Algebra.Field.Defs

/-! # Specification: one step of the classical Runge–Kutta scheme (Butcher tableau form) -/

namespace JaxCosmo.Spec
variable {K Y : Type*} [Field K] [AddCommGroup Y] [Module K Y]

/-- Nodes `c = (0, ½, ½, 1)`, weights `b = (1/6, 1/3, 1/3, 1/6)`. -/
def rk4Step (f : Y → K → Y) (y : Y) (t h : K) : Y :=
  let k₁ := f y t
  let k₂ := f (y + h • ((1 / 2 : K) • k₁)) (t + (1 / 2) * h)
  let k₃ := f (y + h • ((1 / 2 : K) • k₂)) (t + (1 / 2) * h)
  let k₄ := f (y + h • k₃) (t + h)
  y + h • ((1 / 6 : K) • k₁ + (1 / 3 : K) • k₂ + (1 / 3 : K) • k₃ + (1 / 6 : K) • k₄)

end JaxCosmo.Spec
