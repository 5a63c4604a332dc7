import Mathlib.Algebra.Order.Field.Basic

/-! # Specification: piecewise-linear interpolation of a table -/

namespace JaxCosmo.Spec
variable {K : Type*} [Field K] [LinearOrder K]

/-- The straight line through `(xp j, fp j)` and `(xp (j+1), fp (j+1))`, evaluated at `x`. -/
def chord (xp fp : ℕ → K) (j : ℕ) (x : K) : K :=
  fp j + (fp (j + 1) - fp j) * ((x - xp j) / (xp (j + 1) - xp j))

/-- `y` is the value at `x` of the piecewise-linear interpolant of the table of length `n`: it
lies on the chord of some segment containing `x`. -/
def LinInterp (n : ℕ) (xp fp : ℕ → K) (x y : K) : Prop :=
  ∃ j, j + 1 < n ∧ min (xp j) (xp (j + 1)) ≤ x ∧ x ≤ max (xp j) (xp (j + 1)) ∧
    y = chord xp fp j x

/-- The table is strictly increasing. -/
def Increasing (n : ℕ) (xp : ℕ → K) : Prop := ∀ i j, i < j → j < n → xp i < xp j

/-- The table is strictly decreasing. -/
def Decreasing (n : ℕ) (xp : ℕ → K) : Prop := ∀ i j, i < j → j < n → xp j < xp i

end JaxCosmo.Spec
