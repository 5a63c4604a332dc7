import Mathlib.Analysis.SpecialFunctions.Exp
import Mathlib.Analysis.SpecialFunctions.Log.Base
import Mathlib.Analysis.SpecialFunctions.Pow.Real

/-! # Specification: the halofit prescription -/

namespace JaxCosmo.Spec

/-- Dimensionless power `Δ²(k) = k³ P(k) / 2π²`. -/
noncomputable def dimensionless (P : ℝ → ℝ) (k : ℝ) : ℝ := k ^ 3 * P k / (2 * Real.pi ^ 2)

/-- Integrand per unit `ln k` of the variance in a Gaussian filter of radius `R`:
`Δ²(k) exp(-k²R²)` at `k = e^t`. -/
noncomputable def gaussIntegrand (Δ2 : ℝ → ℝ) (R t : ℝ) : ℝ :=
  Δ2 (Real.exp t) * Real.exp (-(Real.exp t * R) ^ 2)

/-- The numbers entering the halofit formula, for spectral index `n` and curvature `C`. -/
structure HalofitFit where
  (a b c γ α β μ ν f1 f2 f3 : ℝ)

/-- Takahashi et al. (2012), eqs. A6–A13, with `Ωm`, `Ωw`, `w` at the epoch considered. -/
structure IsTakahashi (n C Ωm Ωw w : ℝ) (F : HalofitFit) : Prop where
  a : 0 < F.a ∧ Real.logb 10 F.a = 1.5222 + 2.8553 * n + 2.3706 * n ^ 2 + 0.9903 * n ^ 3
    + 0.2250 * n ^ 4 - 0.6038 * C + 0.1749 * Ωw * (1 + w)
  b : 0 < F.b ∧ Real.logb 10 F.b = -0.5642 + 0.5864 * n + 0.5716 * n ^ 2 - 1.5474 * C
    + 0.2279 * Ωw * (1 + w)
  c : 0 < F.c ∧ Real.logb 10 F.c = 0.3698 + 2.0404 * n + 0.8161 * n ^ 2 + 0.5869 * C
  γ : F.γ = 0.1971 - 0.0843 * n + 0.8460 * C
  α : F.α = |6.0835 + 1.3373 * n - 0.1959 * n ^ 2 - 5.5274 * C|
  β : F.β = 2.0379 - 0.7354 * n + 0.3157 * n ^ 2 + 1.2490 * n ^ 3 + 0.3980 * n ^ 4 - 0.1682 * C
  μ : F.μ = 0
  ν : 0 < F.ν ∧ Real.logb 10 F.ν = 5.2105 + 3.6902 * n
  f1 : F.f1 = Ωm ^ (-0.0307 : ℝ)
  f2 : F.f2 = Ωm ^ (-0.0585 : ℝ)
  f3 : F.f3 = Ωm ^ (0.0743 : ℝ)

/-- Smith et al. (2003), eqs. C9–C18, with the constants as they are in the library; the exponents
of `Ωm` are interpolated between the open (`frac = 0`) and flat (`frac = 1`) cases. -/
structure IsSmith (n C Ωm frac : ℝ) (F : HalofitFit) : Prop where
  a : 0 < F.a ∧ Real.logb 10 F.a = 1.4861 + 1.8369 * n + 1.6762 * n ^ 2 + 0.7940 * n ^ 3
    + 0.1670 * n ^ 4 - 0.6206 * C
  b : 0 < F.b ∧ Real.logb 10 F.b = 0.9463 + 0.9466 * n + 0.3084 * n ^ 2 - 0.9400 * C
  c : 0 < F.c ∧ Real.logb 10 F.c = -0.2807 + 0.6669 * n + 0.3214 * n ^ 2 - 0.0793 * C
  γ : F.γ = 0.8649 + 0.2989 * n + 0.1631 * C
  α : F.α = 1.3884 + 0.3700 * n - 0.1452 * n ^ 2
  β : F.β = 0.8291 + 0.9854 * n + 0.3401 * n ^ 2
  μ : 0 < F.μ ∧ Real.logb 10 F.μ = -3.5442 + 0.1908 * n
  ν : 0 < F.ν ∧ Real.logb 10 F.ν = 0.9585 + 1.2857 * n
  f1 : F.f1 = (1 - frac) * Ωm ^ (-0.0732 : ℝ) + frac * Ωm ^ (-0.0307 : ℝ)
  f2 : F.f2 = (1 - frac) * Ωm ^ (-0.1423 : ℝ) + frac * Ωm ^ (-0.0585 : ℝ)
  f3 : F.f3 = (1 - frac) * Ωm ^ (0.0725 : ℝ) + frac * Ωm ^ (0.0743 : ℝ)

/-- The quasi-linear term `Δ²_Q` as a function of the linear `Δ²` and `y = k / k_σ`. -/
noncomputable def quasiLinear (F : HalofitFit) (Δ2 y : ℝ) : ℝ :=
  Δ2 * (1 + Δ2) ^ F.β / (1 + F.α * Δ2) * Real.exp (-(y / 4 + y ^ 2 / 8))

/-- The one-halo term `Δ²_H` as a function of `y = k / k_σ`. -/
noncomputable def oneHalo (F : HalofitFit) (y : ℝ) : ℝ :=
  F.a * y ^ (3 * F.f1) / (1 + F.b * y ^ F.f2 + (F.c * F.f3 * y) ^ (3 - F.γ))
    / (1 + F.μ / y + F.ν / y ^ 2)

end JaxCosmo.Spec
