import Verif.Model.Float
import Mathlib.Analysis.Normed.Group.Constructions

/-! # Specification: right-hand sides computed in floating point -/

namespace JaxCosmo.Spec
variable {ι : Type*} [Fintype ι]

/-- `fn` computes `f` on `[a, b]` with error `φ` relative to the size of the state, also when it is
given a time that has been rounded a few times. -/
def Computes (A : Rounding) (fn f : (ι → ℝ) → ℝ → (ι → ℝ)) (φ a b : ℝ) : Prop :=
  ∀ x, ∀ s ∈ Set.Icc a b, ∀ s', |s' - s| ≤ 4 * A.u * (|a| + |b|) →
    ‖fn x s' - f x s‖ ≤ φ * (1 + ‖x‖)

end JaxCosmo.Spec
