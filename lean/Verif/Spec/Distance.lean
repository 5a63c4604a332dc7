import Mathlib.MeasureTheory.Integral.IntervalIntegral.Basic
import Mathlib.Analysis.SpecialFunctions.Exp

/-! # Specification: line-of-sight integrals -/

namespace JaxCosmo.Spec

/-- The radial comoving distance to scale factor `a`, in units in which `R` is the Hubble radius,
for the expansion rate `E`: `R ∫ₐ¹ dx / (x² E(x))`. -/
noncomputable def comovingDistance (R : ℝ) (E : ℝ → ℝ) (a : ℝ) : ℝ :=
  R * ∫ x in a..1, 1 / (x ^ 2 * E x)

/-- The growth factor, normalised to one today, whose logarithmic derivative is `f`:
`exp (-∫ₐ¹ f(x)/x dx)`. -/
noncomputable def growthFromRate (f : ℝ → ℝ) (a : ℝ) : ℝ := Real.exp (-∫ x in a..1, f x / x)

end JaxCosmo.Spec
