import Verif.Model.Core
import Mathlib.Analysis.Calculus.FDeriv.Prod
import Mathlib.Analysis.Calculus.Deriv.Basic
import Mathlib.Analysis.SpecialFunctions.Log.Basic
import Mathlib.Analysis.SpecialFunctions.Trigonometric.Basic

/-! # Specification: sensitivities with respect to parameters -/

namespace JaxCosmo.Spec

/-- The variational equation along a family `y' = f(θ, y, x)`: the state together with its derivative
with respect to `θ`, given the derivative `L x y` of `f(·, ·, x)` at `(θ, y)`. -/
def variational {Y : Type*} [NormedAddCommGroup Y] [NormedSpace ℝ Y] (f : Y → ℝ → Y)
    (L : ℝ → Y → (ℝ × Y →L[ℝ] Y)) (s : Y × Y) (x : ℝ) : Y × Y :=
  (f s.1 x, L x s.1 (1, s.2))

/-- A curve of cosmologies through `P θ` with velocity `v` (a tangent vector, written with the same
fields); the optional `gamma` is absent all along or present all along. -/
structure Along (P : ℝ → Params) (v : Params) (θ : ℝ) : Prop where
  Omega_c : HasDerivAt (fun s => (P s).Omega_c) v.Omega_c θ
  Omega_b : HasDerivAt (fun s => (P s).Omega_b) v.Omega_b θ
  h : HasDerivAt (fun s => (P s).h) v.h θ
  n_s : HasDerivAt (fun s => (P s).n_s) v.n_s θ
  sigma8 : HasDerivAt (fun s => (P s).sigma8) v.sigma8 θ
  Omega_k : HasDerivAt (fun s => (P s).Omega_k) v.Omega_k θ
  w0 : HasDerivAt (fun s => (P s).w0) v.w0 θ
  wa : HasDerivAt (fun s => (P s).wa) v.wa θ
  gamma : match v.gamma with
    | none => ∀ s, (P s).gamma = none
    | some γ' => ∃ γ : ℝ → ℝ, HasDerivAt γ γ' θ ∧ ∀ s, (P s).gamma = some (γ s)

/-- First-order change of the squared expansion rate
`E² = Ω_m a⁻³ + Ω_k a⁻² + (1 - Ω_k - Ω_m) X(a)`, `ln X = -3 (1 + w0 + wa) ln a + 3 wa (a - 1)`,
when the parameters `p` change with velocity `v`. -/
noncomputable def dE2 (p v : Params) (a : ℝ) : ℝ :=
  let X := Real.exp (-3 * (1 + p.w0 + p.wa) * Real.log a + 3 * p.wa * (a - 1))
  let dm := v.Omega_b + v.Omega_c
  dm / a ^ 3 + v.Omega_k / a ^ 2 - (v.Omega_k + dm) * X
    + (1 - p.Omega_k - (p.Omega_b + p.Omega_c)) * X
      * (-3 * (v.w0 + v.wa) * Real.log a + 3 * v.wa * (a - 1))

/-- Transverse distance at radial distance `chi`, with the formula for curvature of sign `-k`
(`k = -1` open, `k = 0` flat, `k = 1` closed) whatever the actual `Ω_k`.  Differentiating a
`lax.switch` differentiates the branch selected at the point of evaluation. -/
noncomputable def curvatureBranch (k : ℤ) (Ok rh chi : ℝ) : ℝ :=
  if k < 0 then rh / Real.sqrt |Ok| * Real.sinh (Real.sqrt |Ok| * chi / rh)
  else if k = 0 then chi
  else rh / Real.sqrt |Ok| * Real.sin (Real.sqrt |Ok| * chi / rh)

end JaxCosmo.Spec
