import Mathlib.Analysis.SpecialFunctions.Log.Basic
import Mathlib.Analysis.SpecialFunctions.Trigonometric.Basic
import Mathlib.LinearAlgebra.Matrix.NonsingularInverse

/-! # Specification of the Gaussian density -/

namespace JaxCosmo.Spec
open Matrix

/-- `(x - mu)ᵀ C⁻¹ (x - mu)`. -/
noncomputable def chiSq {N : ℕ} (x mu : Fin N → ℝ) (C : Matrix (Fin N) (Fin N) ℝ) : ℝ :=
  (x - mu) ⬝ᵥ (C⁻¹ *ᵥ (x - mu))

/-- Density of the multivariate normal distribution with mean `mu` and covariance `C` at `x`. -/
noncomputable def gaussianDensity {N : ℕ} (x mu : Fin N → ℝ) (C : Matrix (Fin N) (Fin N) ℝ) : ℝ :=
  Real.exp (-(1 / 2) * chiSq x mu C) / √((2 * Real.pi) ^ N * C.det)

end JaxCosmo.Spec
