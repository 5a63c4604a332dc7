import Verif.Model.Utils
import Verif.Proofs.Tactics
import Mathlib.Algebra.Order.Ring.Rat

/-! # C01: redshift and scale factor -/

namespace JaxCosmo
variable {K : Type*} [Field K]

/-- C01: converting a redshift to a scale factor and back. -/
theorem C01_a2z_z2a (z : K) (hz : z ≠ -1) : a2z (z2a z) = z := by
  have : 1 + z ≠ 0 := fun h => hz (by linear_combination h)
  unfold a2z z2a; field_simp; ring

/-- C01: converting a scale factor to a redshift and back. -/
theorem C01_z2a_a2z (a : K) (ha : a ≠ 0) : z2a (a2z a) = a := by
  unfold a2z z2a; field_simp; ring

variable [LinearOrder K] [IsStrictOrderedRing K]

/-- C01: `z ≥ 0` is exactly `0 < a ≤ 1` (every such `a` is reached, by `C01_z2a_a2z`). -/
theorem C01_range (z : K) (_hz : z ≠ -1) : 0 ≤ z ↔ 0 < z2a z ∧ z2a z ≤ 1 := by
  unfold z2a
  constructor
  · intro h
    have h1 : (0 : K) < 1 + z := by linarith
    refine ⟨by positivity, ?_⟩
    rw [div_le_one h1]; linarith
  · rintro ⟨h0, h1⟩
    have h2 : (0 : K) < 1 + z := one_div_pos.mp h0
    rw [div_le_one h2] at h1; linarith

/-- C01: the image of `[0, ∞)` is exactly `(0, 1]`. -/
theorem C01_onto (a : K) : (0 < a ∧ a ≤ 1) ↔ ∃ z, 0 ≤ z ∧ z2a z = a := by
  constructor
  · rintro ⟨h0, h1⟩
    refine ⟨a2z a, ?_, C01_z2a_a2z a h0.ne'⟩
    have : 1 ≤ 1 / a := by rw [le_div_iff₀ h0]; linarith
    simp only [a2z]; linarith
  · rintro ⟨z, hz, rfl⟩
    exact (C01_range z (by intro h; linarith [h ▸ hz])).mp hz

/-- C01: `z2a` is strictly decreasing for `z ≥ 0`. -/
theorem C01_strictAnti : StrictAntiOn (z2a : K → K) (Set.Ici 0) := by
  intro x hx y _ hxy
  have hx : 0 ≤ x := hx
  have h1 : (0 : K) < 1 + x := by linarith
  exact one_div_lt_one_div_of_lt h1 (by linarith)

/-- The hypotheses are met by `z = 1`, `a = 1/2`. -/
example : z2a (1 : ℚ) = 1 / 2 ∧ a2z (1 / 2 : ℚ) = 1 ∧ (1 : ℚ) ≠ -1 ∧ (1 / 2 : ℚ) ≠ 0 := by
  norm_num [z2a, a2z]

end JaxCosmo
