import Mathlib.MeasureTheory.Integral.IntervalIntegral.Basic

/-! # Specification: growth of structure with a cosmological constant, in closed form -/

namespace JaxCosmo.Spec

/-- Heath's integral: the growing mode of linear perturbations in a universe of matter, curvature
and a cosmological constant with expansion rate `E = H / H0`, up to a constant factor:
`E(a) ∫₀ᵃ dx / (x E(x))³`. -/
noncomputable def heath (E : ℝ → ℝ) (a : ℝ) : ℝ := E a * ∫ x in (0 : ℝ)..a, 1 / (x * E x) ^ 3

end JaxCosmo.Spec
