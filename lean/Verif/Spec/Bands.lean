import Mathlib.MeasureTheory.Integral.IntervalIntegral.Basic
import Mathlib.Analysis.SpecialFunctions.Integrals.Basic

/-! # Bands of multipoles (C155) -/

namespace JaxCosmo.Spec

/-- Edge number `i` of the bands around a grid of multipoles: halfway between neighbours, and half
a step outside the grid at both ends. -/
noncomputable def bandEdge (ells : List ℝ) (i : ℕ) : ℝ :=
  if i = 0 then ells.getD 0 0 - (ells.getD 1 0 - ells.getD 0 0) / 2
  else if i = ells.length then
    ells.getD (i - 1) 0 + (ells.getD (i - 1) 0 - ells.getD (i - 2) 0) / 2
  else (ells.getD (i - 1) 0 + ells.getD i 0) / 2

/-- Number of spherical harmonics with multipoles from `m` up to but not including `n`. -/
def harmonics (m n : ℕ) : ℕ := ∑ l ∈ Finset.Ico m n, (2 * l + 1)

/-- The number of modes between two multipoles that need not be integers. -/
noncomputable def modesBetween (x y : ℝ) : ℝ := ∫ t in x..y, (2 * t + 1)

theorem modesBetween_eq (x y : ℝ) : modesBetween x y = (y - x) * (x + y + 1) := by
  unfold modesBetween
  have hd : ∀ t ∈ Set.uIcc x y, HasDerivAt (fun t : ℝ => t ^ 2 + t) (2 * t + 1) t := fun t _ => by
    refine ((hasDerivAt_pow 2 t).add (hasDerivAt_id t)).congr_deriv ?_
    simp
  rw [intervalIntegral.integral_eq_sub_of_hasDerivAt hd
    ((by fun_prop : Continuous fun t : ℝ => 2 * t + 1).intervalIntegrable _ _)]
  ring

theorem harmonics_eq {m n : ℕ} (h : m ≤ n) : (harmonics m n : ℝ) = (n : ℝ) ^ 2 - (m : ℝ) ^ 2 := by
  induction n, h using Nat.le_induction with
  | base => simp [harmonics]
  | succ n h ih =>
    have : harmonics m (n + 1) = harmonics m n + (2 * n + 1) := by
      unfold harmonics; rw [Finset.sum_Ico_succ_top h]
    rw [this]
    push_cast
    rw [ih]
    ring

/-- Both ways of counting agree between half-integers. -/
theorem modesBetween_harmonics {m n : ℕ} (h : m ≤ n) :
    modesBetween (m - 1 / 2) (n - 1 / 2) = harmonics m n := by
  rw [modesBetween_eq, harmonics_eq h]; ring

end JaxCosmo.Spec
