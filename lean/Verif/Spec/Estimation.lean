import Verif.Spec.Fisher
import Mathlib.LinearAlgebra.Matrix.NonsingularInverse

/-! # Fitting a linear model (C150) -/

namespace JaxCosmo.Spec
open Matrix

/-- The Fisher matrix of a model whose mean has the derivatives `J` (one column per parameter). -/
noncomputable def fisherMatrix {N k : ℕ} (C : Matrix (Fin N) (Fin N) ℝ) (J : Matrix (Fin N) (Fin k) ℝ) :
    Matrix (Fin k) (Fin k) ℝ := of fun i j => fisher C (fun r => J r i) (fun r => J r j)

/-- Generalised least squares: the parameters that fit the data `d` best. -/
noncomputable def bestFit {N k : ℕ} (C : Matrix (Fin N) (Fin N) ℝ) (J : Matrix (Fin N) (Fin k) ℝ)
    (m d : Fin N → ℝ) : Fin k → ℝ := (fisherMatrix C J)⁻¹ *ᵥ (Jᵀ *ᵥ (C⁻¹ *ᵥ (d - m)))

end JaxCosmo.Spec
