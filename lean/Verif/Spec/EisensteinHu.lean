import Mathlib.Analysis.SpecialFunctions.Trigonometric.Sinc
import Mathlib.Analysis.SpecialFunctions.Pow.Real

/-! # The fitting formulae of Eisenstein & Hu (1998), in the notation and units of the paper

Physical densities `ωm = Ω₀h²`, `ωb = Ω_bh²`, `Θ = T_cmb/2.7 K`; wavenumbers in `Mpc⁻¹`, lengths in `Mpc`;
no `h` appears. Equation numbers are those of ApJ 496, 605. -/

namespace JaxCosmo.Spec.EH98

/-- (2) -/
noncomputable def zEq (ωm Θ : ℝ) : ℝ := 2.50e4 * ωm * Θ ^ (-4 : ℤ)
/-- (3), in `Mpc⁻¹` -/
noncomputable def kEq (ωm Θ : ℝ) : ℝ := 7.46e-2 * ωm * Θ ^ (-2 : ℤ)
/-- (4) -/
noncomputable def zDrag (ωm ωb : ℝ) : ℝ :=
  let b₁ := 0.313 * ωm ^ (-0.419 : ℝ) * (1 + 0.607 * ωm ^ (0.674 : ℝ))
  let b₂ := 0.238 * ωm ^ (0.223 : ℝ)
  1291 * (ωm ^ (0.251 : ℝ) / (1 + 0.659 * ωm ^ (0.828 : ℝ))) * (1 + b₁ * ωb ^ b₂)
/-- (5) -/
noncomputable def R (ωb Θ z : ℝ) : ℝ := 31.5 * ωb * Θ ^ (-4 : ℤ) * (z / 10 ^ 3)⁻¹
/-- (6), in `Mpc` -/
noncomputable def soundHorizon (ωm ωb Θ : ℝ) : ℝ :=
  let Rd := R ωb Θ (zDrag ωm ωb)
  let Req := R ωb Θ (zEq ωm Θ)
  2 / (3 * kEq ωm Θ) * √(6 / Req) * Real.log ((√(1 + Rd) + √(Rd + Req)) / (1 + √Req))
/-- (7), in `Mpc⁻¹` -/
noncomputable def kSilk (ωm ωb : ℝ) : ℝ :=
  1.6 * ωb ^ (0.52 : ℝ) * ωm ^ (0.73 : ℝ) * (1 + (10.4 * ωm) ^ (-0.95 : ℝ))
/-- (10) -/
noncomputable def q (ωm Θ k : ℝ) : ℝ := k / (13.41 * kEq ωm Θ)
/-- (11) -/
noncomputable def alphaC (ωm fb : ℝ) : ℝ :=
  let a₁ := (46.9 * ωm) ^ (0.670 : ℝ) * (1 + (32.1 * ωm) ^ (-0.532 : ℝ))
  let a₂ := (12.0 * ωm) ^ (0.424 : ℝ) * (1 + (45.0 * ωm) ^ (-0.582 : ℝ))
  a₁ ^ (-fb) * a₂ ^ (-fb ^ 3)
/-- (12): the paper gives the reciprocal -/
noncomputable def betaC (ωm fb : ℝ) : ℝ :=
  let b₁ := 0.944 * (1 + (458 * ωm) ^ (-0.708 : ℝ))⁻¹
  let b₂ := (0.395 * ωm) ^ (-0.0266 : ℝ)
  (1 + b₁ * ((1 - fb) ^ b₂ - 1))⁻¹
/-- (15) -/
noncomputable def G (y : ℝ) : ℝ :=
  y * (-6 * √(1 + y) + (2 + 3 * y) * Real.log ((√(1 + y) + 1) / (√(1 + y) - 1)))
/-- (14) -/
noncomputable def alphaB (ωm ωb Θ : ℝ) : ℝ :=
  2.07 * kEq ωm Θ * soundHorizon ωm ωb Θ * (1 + R ωb Θ (zDrag ωm ωb)) ^ (-3 / 4 : ℝ)
    * G ((1 + zEq ωm Θ) / (1 + zDrag ωm ωb))
/-- (19), (20) -/
noncomputable def T₀ (q α β : ℝ) : ℝ :=
  let C := 14.2 / α + 386 / (1 + 69.9 * q ^ (1.08 : ℝ))
  Real.log (Real.exp 1 + 1.8 * β * q) / (Real.log (Real.exp 1 + 1.8 * β * q) + C * q ^ 2)
/-- (17), (18) -/
noncomputable def Tc (ωm ωb Θ k : ℝ) : ℝ :=
  let f := 1 / (1 + (k * soundHorizon ωm ωb Θ / 5.4) ^ 4)
  f * T₀ (q ωm Θ k) 1 (betaC ωm (ωb / ωm))
    + (1 - f) * T₀ (q ωm Θ k) (alphaC ωm (ωb / ωm)) (betaC ωm (ωb / ωm))
/-- (22), (23) -/
noncomputable def sTilde (ωm ωb Θ k : ℝ) : ℝ :=
  let s := soundHorizon ωm ωb Θ
  s / (1 + (8.41 * ωm ^ (0.435 : ℝ) / (k * s)) ^ 3) ^ (1 / 3 : ℝ)
/-- (24) -/
noncomputable def betaB (ωm fb : ℝ) : ℝ := 0.5 + fb + (3 - 2 * fb) * √((17.2 * ωm) ^ 2 + 1)
/-- (21); the spherical Bessel function `j₀` is `sinc` -/
noncomputable def Tb (ωm ωb Θ k : ℝ) : ℝ :=
  let s := soundHorizon ωm ωb Θ
  (T₀ (q ωm Θ k) 1 1 / (1 + (k * s / 5.2) ^ 2)
    + alphaB ωm ωb Θ / (1 + (betaB ωm (ωb / ωm) / (k * s)) ^ 3)
      * Real.exp (-(k / kSilk ωm ωb) ^ (1.4 : ℝ))) * Real.sinc (k * sTilde ωm ωb Θ k)
/-- (16) -/
noncomputable def T (ωm ωb Θ k : ℝ) : ℝ :=
  ωb / ωm * Tb ωm ωb Θ k + (1 - ωb / ωm) * Tc ωm ωb Θ k
/-- (31) -/
noncomputable def alphaGamma (ωm fb : ℝ) : ℝ :=
  1 - 0.328 * Real.log (431 * ωm) * fb + 0.38 * Real.log (22.3 * ωm) * fb ^ 2
/-- (30), times `h`; `s` is the sound horizon in Mpc -/
noncomputable def shape (ωm fb s k : ℝ) : ℝ :=
  ωm * (alphaGamma ωm fb + (1 - alphaGamma ωm fb) / (1 + (0.43 * k * s) ^ 4))
/-- (28), (29): the transfer function without oscillations -/
noncomputable def Tsmooth (ωm fb Θ s k : ℝ) : ℝ :=
  let q := k * Θ ^ 2 / shape ωm fb s k
  let L := Real.log (2 * Real.exp 1 + 1.8 * q)
  let C := 14.2 + 731 / (1 + 62.5 * q)
  L / (L + C * q ^ 2)

end JaxCosmo.Spec.EH98
