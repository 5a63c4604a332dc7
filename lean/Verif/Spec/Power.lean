import Mathlib.Analysis.SpecialFunctions.Trigonometric.Basic
import Mathlib.Analysis.SpecialFunctions.Pow.Real

/-! # Specification: variance of the density field, fitting form of the transfer function -/

namespace JaxCosmo.Spec

/-- Fourier transform of the spherical top-hat, `3 (sin x - x cos x) / x³`. -/
noncomputable def tophat (x : ℝ) : ℝ := 3 * (Real.sin x - x * Real.cos x) / x ^ 3

/-- Integrand of the variance per unit `ln k`, without the factor `1 / 2π²`:
`k³ P(k) W²(kR)` at `k = e^t`. -/
noncomputable def varianceIntegrand (P : ℝ → ℝ) (R t : ℝ) : ℝ :=
  Real.exp t ^ 3 * P (Real.exp t) * tophat (Real.exp t * R) ^ 2

/-- The no-wiggle transfer function in terms of the scaled wavenumber `q`
(Eisenstein & Hu 1998, eqs. 28-29): `L/(L + C q²)`. -/
noncomputable def nowiggleOfQ (q : ℝ) : ℝ :=
  Real.log (2 * Real.exp 1 + 1.8 * q)
    / (Real.log (2 * Real.exp 1 + 1.8 * q) + (14.2 + 731 / (1 + 62.5 * q)) * q ^ 2)

end JaxCosmo.Spec
