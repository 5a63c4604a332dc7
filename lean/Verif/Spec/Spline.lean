import Mathlib.Analysis.Calculus.ContDiff.Basic

/-!
# What an interpolating spline is

Textbook definitions, on the data range only, written without reference to the code.
-/

namespace JaxCosmo.Spec

/-- `f` is a polynomial of degree at most three between `l` and `r`. -/
def CubicOn (f : ℝ → ℝ) (l r : ℝ) : Prop :=
  ∃ α β γ δ : ℝ, ∀ u ∈ Set.Icc l r, f u = α + β * u + γ * u ^ 2 + δ * u ^ 3

/-- `f` is a polynomial of degree at most two between `l` and `r`. -/
def QuadraticOn (f : ℝ → ℝ) (l r : ℝ) : Prop :=
  ∃ α β γ : ℝ, ∀ u ∈ Set.Icc l r, f u = α + β * u + γ * u ^ 2

/-- The interpolating cubic spline through the points `(x i, y i)`, `i < n`, with the not-a-knot
condition: twice continuously differentiable, a single cubic between neighbouring data points, a
single cubic on the first two and on the last two intervals, through all the points. -/
structure NotAKnotCubic (n : ℕ) (x y : ℕ → ℝ) (f : ℝ → ℝ) : Prop where
  smooth : ContDiff ℝ 2 f
  piece : ∀ i, i + 1 < n → CubicOn f (x i) (x (i + 1))
  first : CubicOn f (x 0) (x 2)
  last : CubicOn f (x (n - 3)) (x (n - 1))
  through : ∀ i < n, f (x i) = y i

/-- The interpolating quadratic spline through the points `(x i, y i)`, `i < n`, whose breakpoints
are the midpoints between neighbouring data points, the first and the last midpoint excepted
(not-a-knot): continuously differentiable, a single quadratic between breakpoints, through all the
points. -/
structure NotAKnotQuadratic (n : ℕ) (x y : ℕ → ℝ) (f : ℝ → ℝ) : Prop where
  smooth : ContDiff ℝ 1 f
  piece : ∀ i, 1 ≤ i → i + 1 < n → QuadraticOn f ((x (i - 1) + x i) / 2) ((x i + x (i + 1)) / 2)
  first : QuadraticOn f (x 0) ((x 1 + x 2) / 2)
  last : QuadraticOn f ((x (n - 3) + x (n - 2)) / 2) (x (n - 1))
  through : ∀ i < n, f (x i) = y i

end JaxCosmo.Spec
