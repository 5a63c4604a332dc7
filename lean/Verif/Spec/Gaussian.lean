import Mathlib.Probability.Distributions.Gaussian.Real
import Mathlib.Probability.Independence.Basic
import Mathlib.Data.Matrix.Mul

/-! # Specification: Gaussian fields and the estimator of their spectra -/

namespace JaxCosmo.Spec
open MeasureTheory ProbabilityTheory Matrix

/-- `X` is a centred Gaussian vector with covariance matrix `C`: every linear combination
`Σ tᵢ Xᵢ` is normal with mean zero and variance `tᵀ C t`. -/
structure GaussianVec {Ω ι : Type*} [MeasurableSpace Ω] [Fintype ι] (P : Measure Ω)
    (X : ι → Ω → ℝ) (C : Matrix ι ι ℝ) : Prop where
  symm : C.IsSymm
  nonneg : ∀ t : ι → ℝ, 0 ≤ t ⬝ᵥ (C *ᵥ t)
  law : ∀ t : ι → ℝ,
    HasLaw (fun ω => ∑ i, t i * X i ω) (gaussianReal 0 (t ⬝ᵥ (C *ᵥ t)).toNNReal) P

/-- The spectrum of fields `i` and `j` estimated from `ν` modes: the mean of the products of
their amplitudes. -/
noncomputable def spectrumEstimate {Ω ι : Type*} {ν : ℕ} (X : Fin ν → ι → Ω → ℝ) (i j : ι) (ω : Ω) : ℝ :=
  (∑ m, X m i ω * X m j ω) / ν

end JaxCosmo.Spec
