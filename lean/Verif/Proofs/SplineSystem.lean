import Verif.Model.Spline
import Verif.Spec.Interp
import Mathlib.LinearAlgebra.Matrix.ToLinearEquiv
import Mathlib.Tactic.FieldSimp
import Mathlib.Tactic.Linarith
import Mathlib.Tactic.LinearCombination
import Mathlib.Algebra.Order.BigOperators.Group.Finset

/-! # The linear systems of the spline: rows, nonsingularity, solution -/

set_option linter.unusedSectionVars false

namespace JaxCosmo
open Spec Finset
variable {K : Type*} [Field K]

/-- `A *ᵥ c` for an array `c`. -/
def rowSum {m : ℕ} (A : Matrix (Fin m) (Fin m) K) (c : ℕ → K) (i : Fin m) : K :=
  ∑ j : Fin m, A i j * c j

theorem rowSum_add {m : ℕ} (A B : Matrix (Fin m) (Fin m) K) (c : ℕ → K) (i : Fin m) :
    rowSum (A + B) c i = rowSum A c i + rowSum B c i := by
  simp [rowSum, add_mul, sum_add_distrib]

/-- A row of a diagonal matrix, hit. -/
theorem rowSum_diagK {m : ℕ} (v : ℕ → K) (k : ℤ) (c : ℕ → K) (i j : ℕ) (hi : i < m) (hj : j < m)
    (h : (j : ℤ) - i = k) : rowSum (diagK m v k) c ⟨i, hi⟩ = v (min i j) * c j := by
  rw [rowSum, Finset.sum_eq_single (⟨j, hj⟩ : Fin m)]
  · simp [diagK, h]
  · intro b _ hb
    have : ((b : ℕ) : ℤ) - i ≠ k := by
      intro hc
      apply hb
      ext
      simp only
      omega
    simp [diagK, this]
  · simp

/-- A row of a diagonal matrix, missed. -/
theorem rowSum_diagK_zero {m : ℕ} (v : ℕ → K) (k : ℤ) (c : ℕ → K) (i : ℕ) (hi : i < m)
    (h : (i : ℤ) + k < 0 ∨ (m : ℤ) ≤ i + k) : rowSum (diagK m v k) c ⟨i, hi⟩ = 0 := by
  rw [rowSum]
  apply Finset.sum_eq_zero
  intro b _
  have : ((b : ℕ) : ℤ) - i ≠ k := by omega
  simp [diagK, this]

/-- A matrix with trivial kernel is nonsingular. -/
theorem isUnit_det_of_ker {m : ℕ} (A : Matrix (Fin m) (Fin m) K)
    (h : ∀ c : ℕ → K, (∀ i : Fin m, rowSum A c i = 0) → ∀ i < m, c i = 0) : IsUnit A.det := by
  rw [isUnit_iff_ne_zero]
  intro h0
  obtain ⟨v, hv, hAv⟩ := Matrix.exists_mulVec_eq_zero_iff.mpr h0
  apply hv
  have := h (fun i => if hi : i < m then v ⟨i, hi⟩ else 0) (fun i => by
    have := congrFun hAv i
    simp only [Matrix.mulVec, dotProduct, Pi.zero_apply] at this
    rw [← this, rowSum]
    exact Finset.sum_congr rfl fun j _ => by simp)
  funext i
  simpa using this i i.2

/-- A system with trivial kernel is solved by `npSolve`. -/
theorem npSolve_spec {m : ℕ} (A : Matrix (Fin m) (Fin m) K) (s : ℕ → K)
    (h : ∀ c : ℕ → K, (∀ i : Fin m, rowSum A c i = 0) → ∀ i < m, c i = 0) :
    ∀ i : Fin m, rowSum A (npSolve m A s) i = s i := by
  have hdet := isUnit_det_of_ker A h
  intro i
  have hsol : A.mulVec (A⁻¹.mulVec fun j : Fin m => s j) = fun j : Fin m => s j := by
    rw [Matrix.mulVec_mulVec, Matrix.mul_nonsing_inv _ hdet, Matrix.one_mulVec]
  have := congrFun hsol i
  rw [← this, rowSum]
  simp only [Matrix.mulVec, dotProduct, npSolve]
  exact Finset.sum_congr rfl fun j _ => by simp

/-- Uniqueness: any solution is the one computed. -/
theorem npSolve_unique {m : ℕ} (A : Matrix (Fin m) (Fin m) K) (s c : ℕ → K)
    (h : ∀ c : ℕ → K, (∀ i : Fin m, rowSum A c i = 0) → ∀ i < m, c i = 0)
    (hc : ∀ i : Fin m, rowSum A c i = s i) : ∀ i < m, npSolve m A s i = c i := by
  intro i hi
  have := h (fun j => npSolve m A s j - c j) (fun i => by
    have h1 := npSolve_spec A s h i
    have h2 := hc i
    have h3 : rowSum A (fun j => npSolve m A s j - c j) i
        = rowSum A (npSolve m A s) i - rowSum A c i := by
      simp only [rowSum, mul_sub, sum_sub_distrib]
    rw [h3, h1, h2, sub_self]) i hi
  exact sub_eq_zero.mp this

namespace Spline

/-! ## Rows of the cubic system -/

theorem cubicA_interior {n : ℕ} (hn : 4 ≤ n) (x : ℕ → K) (nat : Bool) (c : ℕ → K) {i : ℕ}
    (h1 : 1 ≤ i) (h2 : i + 1 < n) :
    rowSum (cubicA n x nat) c ⟨i, by omega⟩
      = diff x (i - 1) * c (i - 1) + 2 * (diff x (i - 1) + diff x i) * c i
        + diff x i * c (i + 1) := by
  unfold cubicA
  simp only [rowSum_add]
  rw [rowSum_diagK _ 0 c i i (by omega) (by omega) (by omega),
    rowSum_diagK _ 1 c i (i + 1) (by omega) (by omega) (by omega),
    rowSum_diagK _ (-1) c i (i - 1) (by omega) (by omega) (by omega)]
  have e2 : rowSum (diagK n (fun i => if i = 0 then (if nat then (0 : K) else diff x 0) else 0) 2)
      c ⟨i, by omega⟩ = 0 := by
    rcases Nat.lt_or_ge (i + 2) n with h | h
    · rw [rowSum_diagK _ 2 c i (i + 2) (by omega) (by omega) (by omega)]
      rw [if_neg (by omega), zero_mul]
    · exact rowSum_diagK_zero _ _ _ _ _ (by omega)
  have e3 : rowSum (diagK n (fun i => if i = n - 3 then (if nat then (0 : K) else diff x (n - 2))
      else 0) (-2)) c ⟨i, by omega⟩ = 0 := by
    rcases Nat.lt_or_ge i 2 with h | h
    · exact rowSum_diagK_zero _ _ _ _ _ (by omega)
    · rw [rowSum_diagK _ (-2) c i (i - 2) (by omega) (by omega) (by omega)]
      rw [if_neg (by omega), zero_mul]
  rw [e2, e3, if_neg (by omega), if_neg (by omega), if_neg (by omega), if_neg (by omega)]
  rw [show min i i = i by omega, show min i (i + 1) = i by omega,
    show min i (i - 1) = i - 1 by omega]
  ring

theorem cubicA_first {n : ℕ} (hn : 4 ≤ n) (x : ℕ → K) (nat : Bool) (c : ℕ → K) :
    rowSum (cubicA n x nat) c ⟨0, by omega⟩
      = if nat then c 0 else diff x 1 * c 0 - (diff x 0 + diff x 1) * c 1 + diff x 0 * c 2 := by
  unfold cubicA
  simp only [rowSum_add]
  rw [rowSum_diagK _ 0 c 0 0 (by omega) (by omega) (by omega),
    rowSum_diagK _ 1 c 0 1 (by omega) (by omega) (by omega),
    rowSum_diagK _ 2 c 0 2 (by omega) (by omega) (by omega),
    rowSum_diagK_zero _ (-1) c 0 (by omega) (by omega),
    rowSum_diagK_zero _ (-2) c 0 (by omega) (by omega)]
  cases nat <;> simp; ring

theorem cubicA_last {n : ℕ} (hn : 4 ≤ n) (x : ℕ → K) (nat : Bool) (c : ℕ → K) :
    rowSum (cubicA n x nat) c ⟨n - 1, by omega⟩
      = if nat then c (n - 1) - c (n - 2) else
        diff x (n - 3) * c (n - 1) - (diff x (n - 3) + diff x (n - 2)) * c (n - 2)
          + diff x (n - 2) * c (n - 3) := by
  unfold cubicA
  simp only [rowSum_add]
  rw [rowSum_diagK _ 0 c (n - 1) (n - 1) (by omega) (by omega) (by omega),
    rowSum_diagK _ (-1) c (n - 1) (n - 2) (by omega) (by omega) (by omega),
    rowSum_diagK _ (-2) c (n - 1) (n - 3) (by omega) (by omega) (by omega),
    rowSum_diagK_zero _ 1 c (n - 1) (by omega) (by omega),
    rowSum_diagK_zero _ 2 c (n - 1) (by omega) (by omega)]
  rw [show min (n - 1) (n - 1) = n - 1 by omega, show min (n - 1) (n - 2) = n - 2 by omega,
    show min (n - 1) (n - 3) = n - 3 by omega, if_neg (show ¬ n - 1 = 0 by omega),
    if_pos (rfl : n - 1 = n - 1), if_pos (rfl : n - 2 = n - 2), if_pos (rfl : n - 3 = n - 3)]
  cases nat <;> simp <;> ring

/-! ## Rows of the quadratic system -/

theorem quadA_interior {n : ℕ} (hn : 3 ≤ n) (x : ℕ → K) (c : ℕ → K) {i : ℕ} (h1 : 1 ≤ i)
    (h2 : i < n) :
    rowSum (quadA n x) c ⟨i, by omega⟩
      = (diff (quadKnots n x) (i - 1) - 2 * (x (i - 1) - quadKnots n x (i - 1))
          + (x (i - 1) - quadKnots n x (i - 1)) ^ 2 / diff (quadKnots n x) (i - 1)) * c (i - 1)
        + (2 * (x i - quadKnots n x i) - (x i - quadKnots n x i) ^ 2 / diff (quadKnots n x) i
          - (x (i - 1) - quadKnots n x (i - 1)) ^ 2 / diff (quadKnots n x) (i - 1)
          + diff (quadKnots n x) (i - 1)) * c i
        + (x i - quadKnots n x i) ^ 2 / diff (quadKnots n x) i * c (i + 1) := by
  unfold quadA
  simp only [rowSum_add]
  rw [rowSum_diagK _ 0 c i i (by omega) (by omega) (by omega),
    rowSum_diagK _ 1 c i (i + 1) (by omega) (by omega) (by omega),
    rowSum_diagK _ (-1) c i (i - 1) (by omega) (by omega) (by omega)]
  have e2 : rowSum (diagK (n + 1) (fun i => if i = 0 then
      diff (quadKnots n x) 0 / diff (quadKnots n x) 1 else 0) 2) c ⟨i, by omega⟩ = 0 := by
    rcases Nat.lt_or_ge (i + 2) (n + 1) with h | h
    · rw [rowSum_diagK _ 2 c i (i + 2) (by omega) (by omega) (by omega)]
      rw [if_neg (by omega), zero_mul]
    · exact rowSum_diagK_zero _ _ _ _ _ (by push_cast; omega)
  have e3 : rowSum (diagK (n + 1) (fun i => if i = n - 2 then
      diff (quadKnots n x) (n - 1) / diff (quadKnots n x) (n - 2) else 0) (-2)) c ⟨i, by omega⟩
      = 0 := by
    rcases Nat.lt_or_ge i 2 with h | h
    · exact rowSum_diagK_zero _ _ _ _ _ (by omega)
    · rw [rowSum_diagK _ (-2) c i (i - 2) (by omega) (by omega) (by omega)]
      rw [if_neg (by omega), zero_mul]
  rw [e2, e3, if_neg (by omega), if_neg (by omega), if_neg (by omega), if_neg (by omega)]
  rw [show min i i = i by omega, show min i (i + 1) = i by omega,
    show min i (i - 1) = i - 1 by omega]
  ring

theorem quadA_first {n : ℕ} (hn : 3 ≤ n) (x : ℕ → K) (c : ℕ → K) :
    rowSum (quadA n x) c ⟨0, by omega⟩
      = c 0 - (1 + diff (quadKnots n x) 0 / diff (quadKnots n x) 1) * c 1
        + diff (quadKnots n x) 0 / diff (quadKnots n x) 1 * c 2 := by
  unfold quadA
  simp only [rowSum_add]
  rw [rowSum_diagK _ 0 c 0 0 (by omega) (by omega) (by omega),
    rowSum_diagK _ 1 c 0 1 (by omega) (by omega) (by omega),
    rowSum_diagK _ 2 c 0 2 (by omega) (by omega) (by omega),
    rowSum_diagK_zero _ (-1) c 0 (by omega) (by omega),
    rowSum_diagK_zero _ (-2) c 0 (by omega) (by omega)]
  simp; ring

theorem quadA_last {n : ℕ} (hn : 3 ≤ n) (x : ℕ → K) (c : ℕ → K) :
    rowSum (quadA n x) c ⟨n, by omega⟩
      = c n - (1 + diff (quadKnots n x) (n - 1) / diff (quadKnots n x) (n - 2)) * c (n - 1)
        + diff (quadKnots n x) (n - 1) / diff (quadKnots n x) (n - 2) * c (n - 2) := by
  unfold quadA
  simp only [rowSum_add]
  rw [rowSum_diagK _ 0 c n n (by omega) (by omega) (by omega),
    rowSum_diagK _ (-1) c n (n - 1) (by omega) (by omega) (by omega),
    rowSum_diagK _ (-2) c n (n - 2) (by omega) (by omega) (by omega),
    rowSum_diagK_zero _ 1 c n (by omega) (by push_cast; omega),
    rowSum_diagK_zero _ 2 c n (by omega) (by push_cast; omega)]
  rw [if_neg (by omega), if_pos (by omega), if_pos (by omega), if_pos (by omega)]
  ring

/-! ## Nonsingularity -/

variable [LinearOrder K] [IsStrictOrderedRing K]

/-- Where the largest entry of `|c 1|, …, |c m|` is. -/
theorem exists_max (c : ℕ → K) {m : ℕ} (hm : 1 ≤ m) :
    ∃ j, 1 ≤ j ∧ j ≤ m ∧ ∀ i, 1 ≤ i → i ≤ m → |c i| ≤ |c j| := by
  obtain ⟨j, hj, h⟩ := Finset.exists_max_image (Finset.Icc 1 m) (fun i => |c i|)
    ⟨1, by simp [hm]⟩
  simp only [Finset.mem_Icc] at hj h
  exact ⟨j, hj.1, hj.2, fun i h1 h2 => h i ⟨h1, h2⟩⟩

/-- A dominant middle coefficient. -/
theorem dominant {a b d u v w : K} (h : a * u + b * v + d * w = 0) (ha : 0 ≤ a) (hd : 0 ≤ d)
    (hb : a + d < b) (hu : |u| ≤ |v|) (hw : |w| ≤ |v|) : v = 0 := by
  by_contra hv
  have hv' : 0 < |v| := abs_pos.mpr hv
  have e : b * v = -(a * u + d * w) := by linear_combination h
  have h1 : |b * v| = b * |v| := by rw [abs_mul, abs_of_pos (by linarith)]
  have h2 : |-(a * u + d * w)| ≤ a * |v| + d * |v| := by
    rw [abs_neg]
    refine (abs_add_le _ _).trans ?_
    rw [abs_mul, abs_mul, abs_of_nonneg ha, abs_of_nonneg hd]
    gcongr
  rw [← e, h1] at h2
  nlinarith

/-- A dominant first coefficient. -/
theorem dominant_two {b d v w : K} (h : b * v + d * w = 0) (hb : |d| < b) (hw : |w| ≤ |v|) :
    v = 0 := by
  by_contra hv
  have hv' : 0 < |v| := abs_pos.mpr hv
  have e : b * v = -(d * w) := by linear_combination h
  have h0 : 0 < b := lt_of_le_of_lt (abs_nonneg d) hb
  have h1 : |b * v| = b * |v| := by rw [abs_mul, abs_of_pos h0]
  have h2 : |-(d * w)| ≤ |d| * |v| := by
    rw [abs_neg, abs_mul]
    gcongr
  rw [← e, h1] at h2
  nlinarith

theorem diff_pos {n : ℕ} {x : ℕ → K} (hx : Increasing n x) {i : ℕ} (hi : i + 1 < n) :
    0 < diff x i := sub_pos.mpr (hx i (i + 1) (by omega) hi)

/-- The cubic system has a trivial kernel, for both end conditions. -/
theorem cubic_ker {n : ℕ} (hn : 4 ≤ n) {x : ℕ → K} (hx : Increasing n x) (nat : Bool) (c : ℕ → K)
    (h : ∀ i : Fin n, rowSum (cubicA n x nat) c i = 0) : ∀ i < n, c i = 0 := by
  have hd := fun i (hi : i + 1 < n) => diff_pos hx hi
  have hint : ∀ i, 1 ≤ i → i + 1 < n → diff x (i - 1) * c (i - 1)
      + 2 * (diff x (i - 1) + diff x i) * c i + diff x i * c (i + 1) = 0 := fun i h1 h2 => by
    rw [← cubicA_interior hn x nat c h1 h2]; exact h _
  have hf := h ⟨0, by omega⟩
  have hl := h ⟨n - 1, by omega⟩
  rw [cubicA_first hn] at hf
  rw [cubicA_last hn] at hl
  obtain ⟨j, j1, j2, hj⟩ := exists_max c (m := n - 2) (by omega)
  have hcj : c j = 0 := by
    cases nat with
    | true =>
      simp only [if_true] at hf hl
      refine dominant (hint j j1 (by omega)) (hd _ (by omega)).le (hd _ (by omega)).le ?_ ?_ ?_
      · have := hd (j - 1) (by omega); have := hd j (by omega); linarith
      · rcases Nat.lt_or_ge 1 j with h' | h'
        · exact hj _ (by omega) (by omega)
        · rw [show j - 1 = 0 by omega, hf, abs_zero]; exact abs_nonneg _
      · rcases Nat.lt_or_ge j (n - 2) with h' | h'
        · exact hj _ (by omega) (by omega)
        · rw [show j + 1 = n - 1 by omega, sub_eq_zero.mp hl]
          exact hj _ (by omega) (by omega)
    | false =>
      simp only [Bool.false_eq_true, if_false] at hf hl
      rcases Nat.lt_or_ge 1 j with h1 | h1
      · rcases Nat.lt_or_ge j (n - 2) with h2 | h2
        · refine dominant (hint j j1 (by omega)) (hd _ (by omega)).le (hd _ (by omega)).le ?_
            (hj _ (by omega) (by omega)) (hj _ (by omega) (by omega))
          have := hd (j - 1) (by omega); have := hd j (by omega); linarith
        · have hi := hint (n - 2) (by omega) (by omega)
          rw [show n - 2 - 1 = n - 3 by omega, show n - 2 + 1 = n - 1 by omega] at hi
          have p1 := hd (n - 3) (by omega)
          have p2 := hd (n - 2) (by omega)
          obtain rfl : j = n - 2 := by omega
          have key : (diff x (n - 2) + 2 * diff x (n - 3)) * c (n - 2)
              + (diff x (n - 3) - diff x (n - 2)) * c (n - 3) = 0 := by
            have h3 : (diff x (n - 3) + diff x (n - 2)) * ((diff x (n - 2) + 2 * diff x (n - 3))
                * c (n - 2) + (diff x (n - 3) - diff x (n - 2)) * c (n - 3)) = 0 := by
              linear_combination diff x (n - 3) * hi - diff x (n - 2) * hl
            rcases mul_eq_zero.mp h3 with h4 | h4
            · linarith
            · exact h4
          refine dominant_two key ?_ (hj _ (by omega) (by omega))
          rw [abs_lt]; constructor <;> linarith
      · have hi := hint 1 (by omega) (by omega)
        simp only [Nat.sub_self, Nat.reduceAdd] at hi
        have p1 := hd 0 (by omega)
        have p2 := hd 1 (by omega)
        obtain rfl : j = 1 := by omega
        have key : (diff x 0 + 2 * diff x 1) * c 1 + (diff x 1 - diff x 0) * c 2 = 0 := by
          have h3 : (diff x 0 + diff x 1) * ((diff x 0 + 2 * diff x 1) * c 1
              + (diff x 1 - diff x 0) * c 2) = 0 := by
            linear_combination diff x 1 * hi - diff x 0 * hf
          rcases mul_eq_zero.mp h3 with h4 | h4
          · linarith
          · exact h4
        refine dominant_two key ?_ (hj _ (by omega) (by omega))
        rw [abs_lt]; constructor <;> linarith
  have hin : ∀ i, 1 ≤ i → i ≤ n - 2 → c i = 0 := fun i h1 h2 => by
    have := hj i h1 h2
    rw [hcj, abs_zero] at this
    exact abs_nonpos_iff.mp this
  have h0 : c 0 = 0 := by
    cases nat with
    | true => simpa using hf
    | false =>
      simp only [Bool.false_eq_true, if_false] at hf
      rw [hin 1 (by omega) (by omega), hin 2 (by omega) (by omega)] at hf
      have := (hd 1 (by omega)).ne'
      simpa [this] using hf
  have hN : c (n - 1) = 0 := by
    cases nat with
    | true =>
      simp only [if_true] at hl
      rw [sub_eq_zero.mp hl]; exact hin _ (by omega) (by omega)
    | false =>
      simp only [Bool.false_eq_true, if_false] at hl
      rw [hin (n - 2) (by omega) (by omega), hin (n - 3) (by omega) (by omega)] at hl
      have := (hd (n - 3) (by omega)).ne'
      simpa [this] using hl
  intro i hi
  rcases Nat.eq_zero_or_pos i with rfl | h1
  · exact h0
  · rcases Nat.lt_or_ge i (n - 1) with h2 | h2
    · exact hin i h1 (by omega)
    · rw [show i = n - 1 by omega]; exact hN

/-! ## The quadratic knots -/

theorem quadKnots_lt {n : ℕ} (hn : 3 ≤ n) {x : ℕ → K} (hx : Increasing n x) {i : ℕ} (hi : i < n) :
    quadKnots n x i < x i ∧ x i < quadKnots n x (i + 1) := by
  unfold quadKnots
  rcases Nat.eq_zero_or_pos i with rfl | h1
  · rw [if_pos rfl, if_neg (by omega), if_neg (by omega)]
    have := hx 0 1 (by omega) (by omega)
    constructor
    · linarith
    · simp only [Nat.zero_add, Nat.sub_self]; linarith
  · have a := hx (i - 1) i (by omega) hi
    rw [if_neg (by omega), if_neg (by omega), if_neg (by omega)]
    constructor
    · linarith
    · by_cases hN : i + 1 = n
      · rw [if_pos hN]
        have b := hx (n - 2) (n - 1) (by omega) (by omega)
        rw [show i = n - 1 by omega]; linarith
      · rw [if_neg hN]
        have b := hx i (i + 1) (by omega) (by omega)
        simp only [Nat.add_sub_cancel]; linarith

theorem quadKnots_increasing {n : ℕ} (hn : 3 ≤ n) {x : ℕ → K} (hx : Increasing n x) :
    Increasing (n + 1) (quadKnots n x) := by
  intro i j hij hj
  induction j, hij using Nat.le_induction with
  | base => exact (quadKnots_lt hn hx (by omega)).1.trans (quadKnots_lt hn hx (by omega)).2
  | succ j hij ih =>
    exact (ih (by omega)).trans ((quadKnots_lt hn hx (by omega)).1.trans
      (quadKnots_lt hn hx (by omega)).2)

/-- `h - 2 t + t²/h = (h - t)²/h`. -/
theorem sub_coef {h t : K} (hh : h ≠ 0) : h - 2 * t + t ^ 2 / h = (h - t) ^ 2 / h := by
  field_simp; ring

/-- Dominance in an interior row of the quadratic system. -/
theorem quad_dom {h t h' t' : K} (p1 : 0 < t) (p2 : t < h) (p1' : 0 < t') (p2' : t' < h') :
    (h - 2 * t + t ^ 2 / h) + t' ^ 2 / h'
      < 2 * t' - t' ^ 2 / h' - t ^ 2 / h + h := by
  have hh : 0 < h := p1.trans p2
  have hh' : 0 < h' := p1'.trans p2'
  have a1 : t ^ 2 / h < t := by
    rw [div_lt_iff₀ hh]; nlinarith
  have a2 : t' ^ 2 / h' < t' := by
    rw [div_lt_iff₀ hh']; nlinarith
  linarith

theorem abs_sub_lt_of {u v b : K} (hu : 0 ≤ u) (hv : 0 ≤ v) (h1 : u < b) (h2 : v < b) :
    |u - v| < b := by
  rw [abs_lt]; constructor <;> linarith

/-- The quadratic system has a trivial kernel. -/
theorem quad_ker {n : ℕ} (hn : 3 ≤ n) {x : ℕ → K} (hx : Increasing n x) (c : ℕ → K)
    (h : ∀ i : Fin (n + 1), rowSum (quadA n x) c i = 0) : ∀ i < n + 1, c i = 0 := by
  have ht : ∀ i < n, 0 < x i - quadKnots n x i := fun i hi => sub_pos.mpr (quadKnots_lt hn hx hi).1
  have hth : ∀ i < n, x i - quadKnots n x i < diff (quadKnots n x) i := fun i hi => by
    have := (quadKnots_lt hn hx hi).2; unfold diff; linarith
  have hh : ∀ i < n, 0 < diff (quadKnots n x) i := fun i hi => (ht i hi).trans (hth i hi)
  have hint := fun i h1 h2 => (quadA_interior hn x c (i := i) h1 h2).symm.trans (h _)
  have hf := (quadA_first hn x c).symm.trans (h _)
  have hl := (quadA_last hn x c).symm.trans (h _)
  generalize diff (quadKnots n x) = H at *
  generalize hT : (fun i => x i - quadKnots n x i) = T
  have eT : ∀ i, x i - quadKnots n x i = T i := fun i => congrFun hT i
  simp only [eT] at ht hth hint
  obtain ⟨j, j1, j2, hj⟩ := exists_max c (m := n - 1) (by omega)
  have hsub : ∀ i < n, 0 ≤ H i - 2 * T i + T i ^ 2 / H i := fun i hi => by
    rw [sub_coef (hh i hi).ne']
    exact div_nonneg (sq_nonneg _) (hh i hi).le
  have hsup : ∀ i < n, 0 ≤ T i ^ 2 / H i := fun i hi => div_nonneg (sq_nonneg _) (hh i hi).le
  have hdom : ∀ i, 1 ≤ i → i < n → (H (i - 1) - 2 * T (i - 1) + T (i - 1) ^ 2 / H (i - 1))
      + T i ^ 2 / H i < 2 * T i - T i ^ 2 / H i - T (i - 1) ^ 2 / H (i - 1) + H (i - 1) :=
    fun i h1 h2 => quad_dom (ht _ (by omega)) (hth _ (by omega)) (ht _ h2) (hth _ h2)
  have hcj : c j = 0 := by
    rcases Nat.lt_or_ge 1 j with h1 | h1
    · rcases Nat.lt_or_ge j (n - 1) with h2 | h2
      · exact dominant (hint j j1 (by omega)) (hsub _ (by omega)) (hsup _ (by omega))
          (hdom j j1 (by omega)) (hj _ (by omega) (by omega)) (hj _ (by omega) (by omega))
      · obtain rfl : j = n - 1 := by omega
        have hi := hint (n - 1) (by omega) (by omega)
        have hD := hdom (n - 1) (by omega) (by omega)
        rw [show n - 1 - 1 = n - 2 by omega, show n - 1 + 1 = n by omega] at hi
        rw [show n - 1 - 1 = n - 2 by omega] at hD
        have s1 := hsub (n - 2) (by omega)
        have s2 := hsup (n - 1) (by omega)
        have r0 : 0 < H (n - 1) / H (n - 2) := div_pos (hh _ (by omega)) (hh _ (by omega))
        generalize H (n - 1) / H (n - 2) = r at *
        generalize H (n - 2) - 2 * T (n - 2) + T (n - 2) ^ 2 / H (n - 2) = A at *
        generalize 2 * T (n - 1) - T (n - 1) ^ 2 / H (n - 1) - T (n - 2) ^ 2 / H (n - 2)
          + H (n - 2) = B at *
        generalize T (n - 1) ^ 2 / H (n - 1) = U at *
        have key : (B + U * (1 + r)) * c (n - 1) + (A - U * r) * c (n - 2) = 0 := by
          linear_combination hi - U * hl
        refine dominant_two key ?_ (hj _ (by omega) (by omega))
        have : 0 ≤ U * r := mul_nonneg s2 r0.le
        exact abs_sub_lt_of s1 this (by linarith) (by linarith)
    · obtain rfl : j = 1 := by omega
      have hi := hint 1 (by omega) (by omega)
      have hD := hdom 1 (by omega) (by omega)
      simp only [Nat.sub_self, Nat.reduceAdd] at hi hD
      have s1 := hsub 0 (by omega)
      have s2 := hsup 1 (by omega)
      have r0 : 0 < H 0 / H 1 := div_pos (hh _ (by omega)) (hh _ (by omega))
      generalize H 0 / H 1 = r at *
      generalize H 0 - 2 * T 0 + T 0 ^ 2 / H 0 = A at *
      generalize 2 * T 1 - T 1 ^ 2 / H 1 - T 0 ^ 2 / H 0 + H 0 = B at *
      generalize T 1 ^ 2 / H 1 = U at *
      have key : (B + A * (1 + r)) * c 1 + (U - A * r) * c 2 = 0 := by
        linear_combination hi - A * hf
      refine dominant_two key ?_ (hj _ (by omega) (by omega))
      have : 0 ≤ A * r := mul_nonneg s1 r0.le
      exact abs_sub_lt_of s2 this (by linarith) (by linarith)
  have hin : ∀ i, 1 ≤ i → i ≤ n - 1 → c i = 0 := fun i h1 h2 => by
    have := hj i h1 h2
    rw [hcj, abs_zero] at this
    exact abs_nonpos_iff.mp this
  intro i hi
  rcases Nat.eq_zero_or_pos i with rfl | h1
  · rw [hin 1 (by omega) (by omega), hin 2 (by omega) (by omega)] at hf
    simpa using hf
  · rcases Nat.lt_or_ge i n with h2 | h2
    · exact hin i h1 (by omega)
    · rw [hin (n - 1) (by omega) (by omega), hin (n - 2) (by omega) (by omega)] at hl
      rw [show i = n by omega]
      simpa using hl

end Spline

end JaxCosmo
