import Verif.Model.Spline
import Verif.Spec.Interp
import Mathlib.Analysis.Calculus.Deriv.Basic
import Mathlib.Analysis.Calculus.Deriv.Add
import Mathlib.Analysis.Calculus.Deriv.Pow
import Mathlib.Analysis.Calculus.ContDiff.Defs

/-! # Piecewise functions selected by `digitize` -/

set_option linter.unusedSectionVars false

namespace JaxCosmo
open Spec

section Ordered
variable {K : Type*} [Field K] [LinearOrder K]

theorem filter_range_length (p : ℕ → Bool) (j n : ℕ) (h : ∀ i < n, p i = true ↔ i < j) :
    ((List.range n).filter p).length = min n j := by
  induction n with
  | zero => simp
  | succ n ih =>
    rw [List.range_succ, List.filter_append, List.length_append, ih fun i hi => h i (by omega)]
    by_cases hp : p n = true
    · have := (h n (by omega)).mp hp
      rw [List.filter_cons_of_pos hp]; simp; omega
    · have : ¬ n < j := fun hc => hp ((h n (by omega)).mpr hc)
      rw [List.filter_cons_of_neg hp]; simp; omega

/-- What `digitize` counts: exactly the first `digitize` bins are `≤ x`. -/
theorem digitize_spec {n : ℕ} {t : ℕ → K} (ht : Increasing n t) (x : K) :
    digitize n t x ≤ n ∧ ∀ i < n, t i ≤ x ↔ i < digitize n t x := by
  have hex : ∃ j ≤ n, ∀ i < n, t i ≤ x ↔ i < j := by
    induction n with
    | zero => exact ⟨0, le_rfl, fun i hi => by omega⟩
    | succ n ih =>
      obtain ⟨j, hj, h⟩ := ih fun a b hab hb => ht a b hab (by omega)
      by_cases hx : t n ≤ x
      · refine ⟨n + 1, le_rfl, fun i hi => ⟨fun _ => hi, fun _ => ?_⟩⟩
        rcases Nat.lt_or_ge i n with h' | h'
        · exact (ht i n h' (by omega)).le.trans hx
        · rw [show i = n by omega]; exact hx
      · refine ⟨j, by omega, fun i hi => ?_⟩
        rcases Nat.lt_or_ge i n with h' | h'
        · exact h i h'
        · rw [show i = n by omega]
          exact ⟨fun h => absurd h hx, fun h => by omega⟩
  obtain ⟨j, hj, h⟩ := hex
  have : digitize n t x = j := by
    rw [digitize, filter_range_length _ j n (by simpa using h)]; omega
  rw [this]; exact ⟨hj, h⟩

/-- The piece selected at `x` (`scipy/interpolate.py:290-292`). -/
def pwIx (m : ℕ) (t : ℕ → K) (x : K) : ℕ :=
  (iclip ((digitize m t x : ℤ) - 1) 0 ((m : ℤ) - 2)).toNat

theorem pwIx_spec {m : ℕ} (hm : 2 ≤ m) {t : ℕ → K} (ht : Increasing m t) (x : K) :
    pwIx m t x + 1 < m ∧ (pwIx m t x = 0 ∨ t (pwIx m t x) ≤ x) ∧
      (pwIx m t x + 2 = m ∨ x < t (pwIx m t x + 1)) := by
  obtain ⟨h1, h2⟩ := digitize_spec ht x
  have hj : pwIx m t x = min (digitize m t x - 1) (m - 2) := by
    unfold pwIx iclip; omega
  generalize digitize m t x = d at *
  rw [hj]
  refine ⟨by omega, ?_, ?_⟩
  · rcases Nat.eq_zero_or_pos (min (d - 1) (m - 2)) with h | h
    · exact Or.inl h
    · exact Or.inr ((h2 _ (by omega)).mpr (by omega))
  · rcases Nat.lt_or_ge (d - 1) (m - 2) with h | h
    · right
      have := (h2 (min (d - 1) (m - 2) + 1) (by omega)).not
      exact not_le.mp (this.mpr (by omega))
    · left; omega

theorem pwIx_eq {m : ℕ} {t : ℕ → K} (ht : Increasing m t) {x : K} {j : ℕ}
    (hj : j + 1 < m) (hl : j = 0 ∨ t j ≤ x) (hr : j + 2 = m ∨ x < t (j + 1)) :
    pwIx m t x = j := by
  obtain ⟨h1, h2⟩ := digitize_spec ht x
  have e : pwIx m t x = min (digitize m t x - 1) (m - 2) := by
    unfold pwIx iclip; omega
  have a : j ≤ digitize m t x - 1 := by
    rcases hl with h | h
    · omega
    · have := (h2 j (by omega)).mp h; omega
  have b : j + 2 = m ∨ digitize m t x ≤ j + 1 := by
    rcases hr with h | h
    · exact Or.inl h
    · right
      have := (h2 (j + 1) hj).not.mp (not_le.mpr h)
      omega
  rw [e]; omega

end Ordered

/-! ## Continuity and derivatives -/

section Real
variable {m : ℕ} {t : ℕ → ℝ} {P P' : ℕ → ℝ → ℝ}

/-- The function made of the pieces `P j`. -/
noncomputable def pw (m : ℕ) (t : ℕ → ℝ) (P : ℕ → ℝ → ℝ) (x : ℝ) : ℝ := P (pwIx m t x) x

/-- Adjacent pieces agree at the interior knots. -/
def Agree (m : ℕ) (t : ℕ → ℝ) (P : ℕ → ℝ → ℝ) : Prop :=
  ∀ j, j + 2 < m → P j (t (j + 1)) = P (j + 1) (t (j + 1))

/-- `x` is not an interior knot. -/
def Away (m : ℕ) (t : ℕ → ℝ) (x : ℝ) : Prop := ∀ j, 1 ≤ j → j + 1 < m → x ≠ t j

theorem pw_left (ht : Increasing m t) {j : ℕ} (hj : j + 2 < m) (h : Agree m t P) :
    ∀ᶠ y in nhdsWithin (t (j + 1)) (Set.Iic (t (j + 1))), pw m t P y = P j y := by
  have hlt : t j < t (j + 1) := ht j (j + 1) (by omega) (by omega)
  filter_upwards [self_mem_nhdsWithin, mem_nhdsWithin_of_mem_nhds (lt_mem_nhds hlt)] with y h1 h2
  rcases (Set.mem_Iic.mp h1).lt_or_eq with h3 | h3
  · rw [pw, pwIx_eq ht (by omega) (Or.inr h2.le) (Or.inr h3)]
  · subst h3
    rw [pw, pwIx_eq ht (j := j + 1) (by omega) (Or.inr le_rfl) ?_]
    · exact (h j hj).symm
    · rcases Nat.lt_or_ge (j + 3) m with h' | h'
      · exact Or.inr (ht _ _ (by omega) (by omega))
      · exact Or.inl (by omega)

theorem pw_right (ht : Increasing m t) {j : ℕ} (hj : j + 1 < m) :
    ∀ᶠ y in nhdsWithin (t j) (Set.Ici (t j)), pw m t P y = P j y := by
  have hlt : t j < t (j + 1) := ht j (j + 1) (by omega) (by omega)
  filter_upwards [self_mem_nhdsWithin, mem_nhdsWithin_of_mem_nhds (gt_mem_nhds hlt)] with y h1 h2
  rw [pw, pwIx_eq ht hj (Or.inr h1) (Or.inr h2)]

/-- Either `x` is an interior knot, or the piecewise function is one piece around `x`. -/
theorem pw_cases (hm : 2 ≤ m) (ht : Increasing m t) (P : ℕ → ℝ → ℝ) (x : ℝ) :
    (∃ j, j + 2 < m ∧ x = t (j + 1) ∧ pwIx m t x = j + 1) ∨
      pw m t P =ᶠ[nhds x] P (pwIx m t x) := by
  obtain ⟨h1, h2, h3⟩ := pwIx_spec hm ht x
  generalize pwIx m t x = i at *
  by_cases hk : 1 ≤ i ∧ x = t i
  · left
    exact ⟨i - 1, by omega, by rw [show i - 1 + 1 = i by omega]; exact hk.2, by omega⟩
  · right
    have e1 : ∀ᶠ y in nhds x, i = 0 ∨ t i ≤ y := by
      rcases h2 with h | h
      · exact Filter.Eventually.of_forall fun _ => Or.inl h
      · rcases h.lt_or_eq with h' | h'
        · filter_upwards [lt_mem_nhds h'] with y hy; exact Or.inr hy.le
        · have : i = 0 := by
            by_contra hc
            exact hk ⟨by omega, h'.symm⟩
          exact Filter.Eventually.of_forall fun _ => Or.inl this
    have e2 : ∀ᶠ y in nhds x, i + 2 = m ∨ y < t (i + 1) := by
      rcases h3 with h | h
      · exact Filter.Eventually.of_forall fun _ => Or.inl h
      · filter_upwards [gt_mem_nhds h] with y hy; exact Or.inr hy
    filter_upwards [e1, e2] with y a b
    rw [pw, pwIx_eq ht h1 a b]

/-- A piecewise function with agreeing continuous pieces is continuous. -/
theorem pw_continuous (hm : 2 ≤ m) (ht : Increasing m t) (hP : ∀ j, Continuous (P j))
    (h : Agree m t P) : Continuous (pw m t P) := by
  rw [continuous_iff_continuousAt]
  intro x
  rcases pw_cases hm ht P x with ⟨j, hj, rfl, hi⟩ | he
  · rw [continuousAt_iff_continuous_left_right]
    have hv : pw m t P (t (j + 1)) = P (j + 1) (t (j + 1)) := by rw [pw, hi]
    constructor
    · refine ((hP j).continuousWithinAt).congr_of_eventuallyEq (pw_left ht hj h) ?_
      rw [hv, h j hj]
    · exact ((hP (j + 1)).continuousWithinAt).congr_of_eventuallyEq (pw_right ht (by omega)) hv
  · exact ((hP _).continuousAt).congr he.symm

/-- Derivative of a piecewise function whose pieces agree in value and slope. -/
theorem pw_hasDerivAt (hm : 2 ≤ m) (ht : Increasing m t)
    (hP : ∀ j x, HasDerivAt (P j) (P' j x) x) (h : Agree m t P) (h' : Agree m t P') (x : ℝ) :
    HasDerivAt (pw m t P) (pw m t P' x) x := by
  rcases pw_cases hm ht P x with ⟨j, hj, rfl, hi⟩ | he
  · have hv : pw m t P (t (j + 1)) = P (j + 1) (t (j + 1)) := by rw [pw, hi]
    have hv' : pw m t P' (t (j + 1)) = P' (j + 1) (t (j + 1)) := by rw [pw, hi]
    rw [hv']
    have hL : HasDerivWithinAt (pw m t P) (P' (j + 1) (t (j + 1))) (Set.Iic (t (j + 1)))
        (t (j + 1)) := by
      rw [← h' j hj]
      exact ((hP j _).hasDerivWithinAt).congr_of_eventuallyEq (pw_left ht hj h)
        (by rw [hv, h j hj])
    have hR : HasDerivWithinAt (pw m t P) (P' (j + 1) (t (j + 1))) (Set.Ici (t (j + 1)))
        (t (j + 1)) :=
      ((hP (j + 1) _).hasDerivWithinAt).congr_of_eventuallyEq (pw_right ht (by omega)) hv
    have := hL.union hR
    rwa [Set.Iic_union_Ici, hasDerivWithinAt_univ] at this
  · exact (hP _ x).congr_of_eventuallyEq he

/-- Derivative away from the interior knots: no agreement needed. -/
theorem pw_hasDerivAt_away (hm : 2 ≤ m) (ht : Increasing m t)
    (hP : ∀ j x, HasDerivAt (P j) (P' j x) x) {x : ℝ} (hx : Away m t x) :
    HasDerivAt (pw m t P) (pw m t P' x) x := by
  rcases pw_cases hm ht P x with ⟨j, hj, h, -⟩ | he
  · exact absurd h (hx (j + 1) (by omega) (by omega))
  · exact (hP _ x).congr_of_eventuallyEq he

end Real

end JaxCosmo
