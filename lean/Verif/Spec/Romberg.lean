import Mathlib.Algebra.BigOperators.Group.Finset.Basic
import Mathlib.Algebra.Order.Field.Basic
import Mathlib.Algebra.BigOperators.Intervals

/-! # Specification: trapezoid rule and Romberg tableau (textbook definitions) -/

namespace JaxCosmo.Spec
variable {K : Type*} [Field K]

/-- Composite trapezoid rule with `n` panels of width `h = (b-a)/n`:
`h (f(a)/2 + f(a+h) + … + f(b-h) + f(b)/2)`. -/
def trapezoid (f : K → K) (a b : K) (n : ℕ) : K :=
  (b - a) / n * ((f a + f b) / 2 + ∑ j ∈ Finset.Ico 1 n, f (a + j * ((b - a) / n)))

/-- Romberg tableau: first column trapezoid rules with `2^i` panels, then Richardson
extrapolation. -/
def romberg (f : K → K) (a b : K) : ℕ → ℕ → K
  | i, 0 => trapezoid f a b (2 ^ i)
  | 0, _ + 1 => 0
  | i + 1, j + 1 =>
    romberg f a b (i + 1) j + (romberg f a b (i + 1) j - romberg f a b i j) / (4 ^ (j + 1) - 1)

end JaxCosmo.Spec
