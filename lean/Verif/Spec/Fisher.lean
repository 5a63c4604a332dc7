import Mathlib.LinearAlgebra.Matrix.NonsingularInverse
import Mathlib.Data.Real.Basic

/-! # Specification of the Fisher information of a Gaussian model with known covariance -/

namespace JaxCosmo.Spec
open Matrix

/-- `uᵀ C⁻¹ v` for two directions `u`, `v` in data space. -/
noncomputable def fisher {N : ℕ} (C : Matrix (Fin N) (Fin N) ℝ) (u v : Fin N → ℝ) : ℝ :=
  u ⬝ᵥ (C⁻¹ *ᵥ v)

end JaxCosmo.Spec
