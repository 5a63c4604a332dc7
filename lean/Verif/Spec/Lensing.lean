import Verif.Spec.Probes
import Mathlib.Analysis.SpecialFunctions.Trigonometric.Basic

/-! # Specification: lensing in a curved universe, and intrinsic alignments -/

namespace JaxCosmo.Spec

/-- The distance `f_K(χ)` by which a transverse separation at radial distance `χ` is divided to get
an angle, for the curvature density `Ok` and the Hubble radius `R`. -/
noncomputable def fK (Ok R χ : ℝ) : ℝ :=
  if 0 < Ok then R / √Ok * Real.sinh (√Ok * χ / R)
  else if Ok < 0 then R / √(-Ok) * Real.sin (√(-Ok) * χ / R)
  else χ

/-- Kernel of a source at distance `χs` for a lens at redshift `z` and distance `χ`, in a universe of
any curvature: `3/2 Ωm H0²/c (1+z) f_K(χ) f_K(χs - χ)/f_K(χs)`, with the spin-2 factor of the multipole. -/
noncomputable def curvedKernel (Om H0 c Ok R z l χ χs : ℝ) : ℝ :=
  3 / 2 * Om * H0 ^ 2 / c * spinFactor l * ((1 + z) * (fK Ok R χ * fK Ok R (χs - χ) / fK Ok R χs))

/-- Kernel of infinitely distant sources, `3/2 Ωm H0²/c (1+z) χ`, with the spin-2 factor. -/
noncomputable def farKernel (Om H0 c z l χ : ℝ) : ℝ := 3 / 2 * Om * H0 ^ 2 / c * spinFactor l * ((1 + z) * χ)

/-- Response of the intrinsic ellipticity to the matter density in the non-linear alignment model
(Bridle & King 2007): `-A C₁ρ_crit Ωm / D(z)`, with `C₁ = 5 × 10⁻¹⁴ h⁻² M_⊙⁻¹ Mpc³` and
`ρ_crit = 2.775 × 10¹¹ h² M_⊙ Mpc⁻³`. -/
noncomputable def alignment (A Om D : ℝ) : ℝ := -A * 0.013875 * Om / D

end JaxCosmo.Spec
