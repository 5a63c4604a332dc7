import Verif.Spec.Lensing
import Mathlib.MeasureTheory.Integral.IntervalIntegral.Basic

/-! # Specification: Limber projection -/

namespace JaxCosmo.Spec

/-- Angular power spectrum of two tracers in the extended Limber approximation (LoVerde & Afshordi 2008):
`∫ dχ W₁(χ) W₂(χ) / D(χ)² P((ℓ + 1/2)/D(χ), χ)`, `D` the transverse comoving distance. -/
noncomputable def limber (D : ℝ → ℝ) (P : ℝ → ℝ → ℝ) (W₁ W₂ : ℝ → ℝ) (ell χmax : ℝ) : ℝ :=
  ∫ χ in (0 : ℝ)..χmax, W₁ χ * W₂ χ / D χ ^ 2 * P ((ell + 1 / 2) / D χ) χ

end JaxCosmo.Spec
