import Mathlib.Analysis.Calculus.Deriv.Basic

/-! # Specification: linear growth of structure -/

namespace JaxCosmo.Spec

/-- The linear growth equation for pressureless matter in a universe with expansion rate
`E = H / H0` and present matter density `Om`:
`D'' + (3/a + E'/E) D' = 3/2 Om / (a⁵ E²) D`, solved for `D''`. -/
noncomputable def growthAcc (E : ℝ → ℝ) (Om a D D' : ℝ) : ℝ :=
  -(3 / a + deriv E a / E a) * D' + 3 / 2 * Om / (a ^ 5 * E a ^ 2) * D

/-- `D` solves the growth equation on `s`. -/
def IsGrowth (E : ℝ → ℝ) (Om : ℝ) (s : Set ℝ) (D : ℝ → ℝ) : Prop :=
  ∀ a ∈ s, ∃ D' : ℝ → ℝ, (∀ᶠ x in nhds a, HasDerivAt D (D' x) x) ∧
    HasDerivAt D' (growthAcc E Om a (D a) (D' a)) a

/-- `D` with derivative `D'` solves the growth equation on `[a0, a1]`, one-sidedly at the ends. -/
def IsGrowthOn (E : ℝ → ℝ) (Om a0 a1 : ℝ) (D D' : ℝ → ℝ) : Prop :=
  ∀ a ∈ Set.Icc a0 a1, HasDerivWithinAt D (D' a) (Set.Icc a0 a1) a ∧
    HasDerivWithinAt D' (growthAcc E Om a (D a) (D' a)) (Set.Icc a0 a1) a

end JaxCosmo.Spec
