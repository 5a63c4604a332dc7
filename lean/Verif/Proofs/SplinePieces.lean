import Verif.Proofs.SplineSystem
import Verif.Proofs.Piecewise

/-! # The pieces of a spline built by the constructor -/

set_option linter.unusedSectionVars false

namespace JaxCosmo
open Spec
variable {K : Type*} [Field K] [LinearOrder K] [IsStrictOrderedRing K]

namespace Spline

/-- `s` was built by the constructor from `n` data points with strictly increasing `x`. -/
def Fits (s : Spline K) (n : ℕ) (x y : ℕ → K) (k : ℕ) (ep : String) : Prop :=
  Increasing n x ∧ init n n x y k ep = .ok s

variable {s : Spline K} {n k : ℕ} {x y : ℕ → K} {ep : String}

/-- What the constructor returns, case by case. -/
theorem Fits.cases (h : s.Fits n x y k ep) :
    (k = 1 ∧ 2 ≤ n ∧ s = ⟨1, n, x, y, fun i => diff y i / diff x i, ep⟩) ∨
    (k = 2 ∧ 3 ≤ n ∧ ep = "not-a-knot" ∧
      s = ⟨2, n, x, y, npSolve (n + 1) (quadA n x) (quadS n y), ep⟩) ∨
    (k = 3 ∧ 4 ≤ n ∧ ep = "not-a-knot" ∧
      s = ⟨3, n, x, y, npSolve n (cubicA n x false) (cubicS n x y), ep⟩) ∨
    (k = 3 ∧ 4 ≤ n ∧ ep ≠ "not-a-knot" ∧
      s = ⟨3, n, x, y, npSolve n (cubicA n x true) (cubicS n x y), "natural"⟩) := by
  obtain ⟨-, h⟩ := h
  unfold init at h
  by_cases hk : k = 1 ∨ k = 2 ∨ k = 3
  swap
  · rw [if_pos hk] at h; cases h
  rw [if_neg (not_not.mpr hk), if_neg (by simp)] at h
  simp only at h
  rcases hk with rfl | rfl | rfl
  · left
    simp only [if_true] at h
    split at h
    · cases h
    · cases h
      exact ⟨rfl, by omega, rfl⟩
  · right; left
    simp only [OfNat.ofNat_ne_one, if_false, if_true] at h
    split at h
    · cases h
    split at h
    · cases h
    · cases h
      exact ⟨rfl, by omega, by simp_all, rfl⟩
  · right; right
    simp only [OfNat.ofNat_ne_one, if_false, Nat.reduceEqDiff] at h
    split at h
    · cases h
    rename_i hn
    by_cases he : ep = "not-a-knot"
    · left
      subst he
      cases h
      exact ⟨rfl, by omega, rfl, by simp⟩
    · right
      refine ⟨rfl, by omega, he, ?_⟩
      cases h
      by_cases he' : ep = "natural"
      · simp [he']
      · simp [he, he']

theorem Fits.ks (h : s.Fits n x y k ep) : s.k = k ∧ s.n = n ∧ s.x = x ∧ s.y = y := by
  rcases h.cases with ⟨rfl, -, rfl⟩ | ⟨rfl, -, -, rfl⟩ | ⟨rfl, -, -, rfl⟩ | ⟨rfl, -, -, rfl⟩ <;>
    exact ⟨rfl, rfl, rfl, rfl⟩

/-- The breakpoints increase strictly. -/
theorem Fits.knots_inc (h : s.Fits n x y k ep) : Increasing s.nKnots s.knots := by
  rcases h.cases with ⟨rfl, -, rfl⟩ | ⟨rfl, hn, -, rfl⟩ | ⟨rfl, -, -, rfl⟩ | ⟨rfl, -, -, rfl⟩
  · exact h.1
  · exact quadKnots_increasing hn h.1
  · exact h.1
  · exact h.1

theorem Fits.two_le (h : s.Fits n x y k ep) : 2 ≤ s.nKnots := by
  rcases h.cases with ⟨rfl, hn, rfl⟩ | ⟨rfl, hn, -, rfl⟩ | ⟨rfl, hn, -, rfl⟩ | ⟨rfl, hn, -, rfl⟩ <;>
    simp [nKnots] <;> omega

/-- The equations the cubic coefficients satisfy. -/
theorem cubic_rows (hn : 4 ≤ n) (hx : Increasing n x) (nat : Bool) {i : ℕ} (h1 : 1 ≤ i)
    (h2 : i + 1 < n) :
    let c := npSolve n (cubicA n x nat) (cubicS n x y)
    diff x (i - 1) * c (i - 1) + 2 * (diff x (i - 1) + diff x i) * c i + diff x i * c (i + 1)
      = 3 * (diff y i / diff x i - diff y (i - 1) / diff x (i - 1)) := by
  intro c
  rw [← cubicA_interior hn x nat c h1 h2,
    npSolve_spec (cubicA n x nat) (cubicS n x y) (cubic_ker hn hx nat)]
  simp only [cubicS]
  rw [if_neg (by omega), if_neg (by omega)]

theorem cubic_row_first (hn : 4 ≤ n) (hx : Increasing n x) (nat : Bool) :
    let c := npSolve n (cubicA n x nat) (cubicS n x y)
    (if nat then c 0 else diff x 1 * c 0 - (diff x 0 + diff x 1) * c 1 + diff x 0 * c 2) = 0 := by
  intro c
  rw [← cubicA_first hn x nat c,
    npSolve_spec (cubicA n x nat) (cubicS n x y) (cubic_ker hn hx nat)]
  simp [cubicS]

theorem cubic_row_last (hn : 4 ≤ n) (hx : Increasing n x) (nat : Bool) :
    let c := npSolve n (cubicA n x nat) (cubicS n x y)
    (if nat then c (n - 1) - c (n - 2) else
        diff x (n - 3) * c (n - 1) - (diff x (n - 3) + diff x (n - 2)) * c (n - 2)
          + diff x (n - 2) * c (n - 3)) = 0 := by
  intro c
  rw [← cubicA_last hn x nat c,
    npSolve_spec (cubicA n x nat) (cubicS n x y) (cubic_ker hn hx nat)]
  simp [cubicS]

/-- The equations the quadratic coefficients satisfy. -/
theorem quad_rows (hn : 3 ≤ n) (hx : Increasing n x) {i : ℕ} (h1 : 1 ≤ i) (h2 : i < n) :
    let c := npSolve (n + 1) (quadA n x) (quadS n y)
    (diff (quadKnots n x) (i - 1) - 2 * (x (i - 1) - quadKnots n x (i - 1))
          + (x (i - 1) - quadKnots n x (i - 1)) ^ 2 / diff (quadKnots n x) (i - 1)) * c (i - 1)
        + (2 * (x i - quadKnots n x i) - (x i - quadKnots n x i) ^ 2 / diff (quadKnots n x) i
          - (x (i - 1) - quadKnots n x (i - 1)) ^ 2 / diff (quadKnots n x) (i - 1)
          + diff (quadKnots n x) (i - 1)) * c i
        + (x i - quadKnots n x i) ^ 2 / diff (quadKnots n x) i * c (i + 1)
      = 2 * diff y (i - 1) := by
  intro c
  rw [← quadA_interior hn x c h1 h2,
    npSolve_spec (quadA n x) (quadS n y) (quad_ker hn hx)]
  simp only [quadS]
  rw [if_neg (by omega), if_neg (by omega)]

/-! ## Pieces as polynomials -/

/-- Piece `j` of the spline. -/
def P0 (s : Spline K) (j : ℕ) (u : K) : K :=
  (s.piece j).a + (s.piece j).b * (u - s.knots j) + (s.piece j).c * (u - s.knots j) ^ 2
    + (s.piece j).d * (u - s.knots j) ^ 3

/-- Its derivative. -/
def P1 (s : Spline K) (j : ℕ) (u : K) : K :=
  (s.piece j).b + 2 * (s.piece j).c * (u - s.knots j) + 3 * (s.piece j).d * (u - s.knots j) ^ 2

/-- Its second derivative. -/
def P2 (s : Spline K) (j : ℕ) (u : K) : K :=
  2 * (s.piece j).c + 6 * (s.piece j).d * (u - s.knots j)

/-- Its third derivative. -/
def P3 (s : Spline K) (j : ℕ) (_ : K) : K := 6 * (s.piece j).d

theorem call_eq (h : s.Fits n x y k ep) (u : K) : s.call u = s.P0 (pwIx s.nKnots s.knots u) u := by
  rcases h.cases with ⟨rfl, -, rfl⟩ | ⟨rfl, -, -, rfl⟩ | ⟨rfl, -, -, rfl⟩ | ⟨rfl, -, -, rfl⟩ <;>
    simp [call, P0, piece, pieceIx, pwIx]

/-- Adjacent pieces agree in value. -/
theorem agree0 (h : s.Fits n x y k ep) {j : ℕ} (hj : j + 2 < s.nKnots) :
    s.P0 j (s.knots (j + 1)) = s.P0 (j + 1) (s.knots (j + 1)) := by
  have hx := h.1
  have hkn := h.knots_inc
  have hh : s.knots (j + 1) - s.knots j ≠ 0 :=
    (sub_pos.mpr (hkn j (j + 1) (by omega) (by omega))).ne'
  have hh' : s.knots (j + 2) - s.knots (j + 1) ≠ 0 :=
    (sub_pos.mpr (hkn (j + 1) (j + 2) (by omega) (by omega))).ne'
  rcases h.cases with ⟨rfl, hn, rfl⟩ | ⟨rfl, hn, -, rfl⟩ | ⟨rfl, hn, -, rfl⟩ | ⟨rfl, hn, -, rfl⟩
  · simp only [P0, piece, knots, diff, if_true, if_false, OfNat.one_ne_ofNat] at hh ⊢
    field_simp; ring
  · simp only [nKnots, if_true] at hj
    have hr := quad_rows (y := y) hn hx (i := j + 1) (by omega) (by omega)
    simp only [P0, piece, knots, diff, if_true, if_false, OfNat.ofNat_ne_one,
      Nat.add_sub_cancel, show j + 1 + 1 = j + 2 from rfl] at hh hh' hr ⊢
    generalize quadKnots n x j = t0 at *
    generalize quadKnots n x (j + 1) = t1 at *
    generalize quadKnots n x (j + 2) = t2 at *
    generalize npSolve (n + 1) (quadA n x) (quadS n y) j = c0 at *
    generalize npSolve (n + 1) (quadA n x) (quadS n y) (j + 1) = c1 at *
    generalize npSolve (n + 1) (quadA n x) (quadS n y) (j + 2) = c2 at *
    field_simp at hr ⊢
    linear_combination hr
  all_goals
    simp only [P0, piece, knots, diff, if_false, OfNat.ofNat_ne_one, Nat.reduceEqDiff] at hh ⊢
    field_simp; ring

/-- Adjacent pieces agree in slope, for `k ≥ 2`. -/
theorem agree1 (h : s.Fits n x y k ep) (hk : 2 ≤ k) {j : ℕ} (hj : j + 2 < s.nKnots) :
    s.P1 j (s.knots (j + 1)) = s.P1 (j + 1) (s.knots (j + 1)) := by
  have hx := h.1
  have hkn := h.knots_inc
  have hh : s.knots (j + 1) - s.knots j ≠ 0 :=
    (sub_pos.mpr (hkn j (j + 1) (by omega) (by omega))).ne'
  have hh' : s.knots (j + 2) - s.knots (j + 1) ≠ 0 :=
    (sub_pos.mpr (hkn (j + 1) (j + 2) (by omega) (by omega))).ne'
  rcases h.cases with ⟨rfl, hn, rfl⟩ | ⟨rfl, hn, -, rfl⟩ | ⟨rfl, hn, -, rfl⟩ | ⟨rfl, hn, -, rfl⟩
  · omega
  · simp only [P1, piece, knots, diff, if_true, if_false, OfNat.ofNat_ne_one] at hh ⊢
    field_simp; ring
  · simp only [nKnots, Nat.reduceEqDiff, if_false] at hj
    have hr := cubic_rows (y := y) hn hx false (i := j + 1) (by omega) (by omega)
    simp only [P1, piece, knots, diff, if_false, OfNat.ofNat_ne_one, Nat.reduceEqDiff,
      Nat.add_sub_cancel, show j + 1 + 1 = j + 2 from rfl] at hh hh' hr ⊢
    field_simp at hr ⊢
    linear_combination hr
  · simp only [nKnots, Nat.reduceEqDiff, if_false] at hj
    have hr := cubic_rows (y := y) hn hx true (i := j + 1) (by omega) (by omega)
    simp only [P1, piece, knots, diff, if_false, OfNat.ofNat_ne_one, Nat.reduceEqDiff,
      Nat.add_sub_cancel, show j + 1 + 1 = j + 2 from rfl] at hh hh' hr ⊢
    field_simp at hr ⊢
    linear_combination hr

/-- Adjacent pieces agree in second derivative, for `k = 3`. -/
theorem agree2 (h : s.Fits n x y k ep) (hk : k = 3) {j : ℕ} (hj : j + 2 < s.nKnots) :
    s.P2 j (s.knots (j + 1)) = s.P2 (j + 1) (s.knots (j + 1)) := by
  have hkn := h.knots_inc
  have hh : s.knots (j + 1) - s.knots j ≠ 0 :=
    (sub_pos.mpr (hkn j (j + 1) (by omega) (by omega))).ne'
  rcases h.cases with ⟨rfl, hn, rfl⟩ | ⟨rfl, hn, -, rfl⟩ | ⟨rfl, hn, -, rfl⟩ | ⟨rfl, hn, -, rfl⟩
  · omega
  · omega
  all_goals
    simp only [P2, piece, knots, diff, if_false, OfNat.ofNat_ne_one, Nat.reduceEqDiff] at hh ⊢
    field_simp; ring

end Spline

end JaxCosmo
