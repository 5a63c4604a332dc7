import Verif.Props.Spline
import Mathlib.Analysis.SpecialFunctions.Integrals.Basic

/-! # C117: where the antiderivative of a spline starts -/

namespace JaxCosmo
open Spec
open scoped Interval

/-- The antiderivative is zero at the first breakpoint. -/
theorem antiderivative_first_knot {n k : ℕ} {x y : ℕ → ℝ} {ep : String} {s : Spline ℝ}
    (hx : Increasing n x) (h : Spline.init n n x y k ep = .ok s) :
    s.antiderivative (s.knots 0) = 0 := by
  have hf : s.Fits n x y k ep := ⟨hx, h⟩
  have hkn := hf.knots_inc
  have h2 := hf.two_le
  rw [Spline.antiderivative_eq hf, pwIx_eq hkn (j := 0) (by omega) (Or.inl rfl)
    (Or.inr (hkn 0 1 (by omega) (by omega)))]
  simp [Spline.PI, cumsum0]

/-- The antiderivative is the integral from the first breakpoint. -/
theorem antiderivative_from_knot {n k : ℕ} {x y : ℕ → ℝ} {ep : String} {s : Spline ℝ}
    (hx : Increasing n x) (h : Spline.init n n x y k ep = .ok s) (u : ℝ) :
    s.antiderivative u = ∫ v in (s.knots 0)..u, s.call v := by
  have hf : s.Fits n x y k ep := ⟨hx, h⟩
  rw [intervalIntegral.integral_eq_sub_of_hasDerivAt
    (fun u _ => Spline.hasDerivAt_antiderivative hf u)
    ((Spline.continuous_call hf).intervalIntegrable _ _), antiderivative_first_knot hx h, sub_zero]

/-- C117, for linear and cubic splines (`k ≠ 2`): the antiderivative is the integral of the spline
from the first data point, so that it is zero there.  Missing: `k = 2`, where this is false
(`C117_refuted`). -/
theorem C117_origin_partial {n k : ℕ} {x y : ℕ → ℝ} {ep : String} {s : Spline ℝ}
    (hx : Increasing n x) (h : Spline.init n n x y k ep = .ok s) (hk : k ≠ 2) (u : ℝ) :
    s.antiderivative u = ∫ v in (x 0)..u, s.call v := by
  have hf : s.Fits n x y k ep := ⟨hx, h⟩
  obtain ⟨h1, -, h3, -⟩ := hf.ks
  rw [antiderivative_from_knot hx h]
  simp [Spline.knots, h1, hk, h3]

/-- C117, for quadratic splines: the antiderivative is the integral from half a spacing before the
first data point. -/
theorem C117_quadratic {n : ℕ} {x y : ℕ → ℝ} {ep : String} {s : Spline ℝ}
    (hx : Increasing n x) (h : Spline.init n n x y 2 ep = .ok s) (u : ℝ) :
    s.antiderivative u = ∫ v in (x 0 - (x 1 - x 0) / 2)..u, s.call v := by
  have hf : s.Fits n x y 2 ep := ⟨hx, h⟩
  obtain ⟨h1, -, h3, -⟩ := hf.ks
  rw [antiderivative_from_knot hx h]
  simp [Spline.knots, h1, h3, Spline.quadKnots]

/-- C117 fails for `k = 2`: the quadratic spline through `(0, 1), (1, 1), (2, 1)` is the constant
1, and its antiderivative at the first data point is 1/2. -/
theorem C117_refuted : ∃ (n : ℕ) (x y : ℕ → ℝ) (s : Spline ℝ), Increasing n x ∧
    Spline.init n n x y 2 "not-a-knot" = .ok s ∧ (∀ u, s.call u = 1) ∧
    s.antiderivative (x 0) = 1 / 2 := by
  obtain ⟨s, hs⟩ := C28_total (n := 3) (k := 2) (fun i => (i : ℝ)) (fun _ => (1 : ℝ))
    (by simp) (by omega)
  have hc : ∀ u, s.call u = 1 := fun u => by
    rw [C29_quadratic_exact (increasing_cast 3) hs 1 0 0 (fun i _ => by ring)]; ring
  refine ⟨3, _, _, s, increasing_cast 3, hs, hc, ?_⟩
  rw [C117_quadratic (increasing_cast 3) hs]
  simp only [hc]
  simp

/-- Witness: the antiderivative of the cubic spline of `u³` on `1, 2, 3, 4` vanishes at 1. -/
example : ∃ s : Spline ℝ, Spline.init 4 4 (fun i => (i : ℝ) + 1) (fun i => ((i : ℝ) + 1) ^ 3) = .ok s ∧
    s.antiderivative 1 = 0 ∧ s.antiderivative 2 = 15 / 4 := by
  obtain ⟨s, hs⟩ := C28_total (n := 4) (k := 3) (fun i => (i : ℝ) + 1) (fun i => ((i : ℝ) + 1) ^ 3)
    (by simp) (by omega)
  have hx : Increasing 4 (fun i => (i : ℝ) + 1) := fun i j h _ => by simpa using h
  have hc : ∀ u, s.call u = u ^ 3 := fun u => by
    rw [C29_cubic_exact hx hs 0 0 0 1 (fun i _ => by ring)]; ring
  refine ⟨s, hs, ?_, ?_⟩ <;> rw [C117_origin_partial hx hs (by omega)] <;> simp only [hc] <;>
    norm_num [integral_pow]

end JaxCosmo
