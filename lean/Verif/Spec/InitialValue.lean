import Mathlib.Analysis.Calculus.FDeriv.Basic
import Mathlib.Analysis.Calculus.Deriv.Basic
import Mathlib.Analysis.Calculus.ContDiff.Defs

/-! # Specification: smooth initial value problems -/

namespace JaxCosmo.Spec
variable {Y : Type*} [NormedAddCommGroup Y] [NormedSpace ℝ Y]

/-- `y` solves `y' = f(y, t)` on `[a, b]` and is five times continuously differentiable there; the
right-hand side is differentiable in the state with derivative `D t x` bounded and Lipschitz in both
arguments. -/
structure SmoothIVP (f : Y → ℝ → Y) (D : ℝ → Y → Y →L[ℝ] Y) (y : ℝ → Y) (a b : ℝ) : Prop where
  deriv : ∀ t ∈ Set.Icc a b, ∀ x, HasFDerivAt (fun x => f x t) (D t x) x
  bounded : ∃ K, ∀ t ∈ Set.Icc a b, ∀ x, ‖D t x‖ ≤ K
  lipschitz : ∃ B, ∀ s ∈ Set.Icc a b, ∀ t ∈ Set.Icc a b, ∀ x x',
    ‖D s x - D t x'‖ ≤ B * (|s - t| + ‖x - x'‖)
  solves : ∀ t ∈ Set.Icc a b, HasDerivWithinAt y (f (y t) t) (Set.Icc a b) t
  smooth : ContDiffOn ℝ 5 y (Set.Icc a b)

end JaxCosmo.Spec
