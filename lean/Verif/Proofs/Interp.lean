import Verif.Model.Interp
import Verif.Spec.Interp
import Verif.Proofs.Tactics

/-! # Lemmas about `interp` -/

namespace JaxCosmo
open Spec
set_option linter.unusedSectionVars false
variable {K : Type*} [Field K] [LinearOrder K]

theorem ix_nonneg {n : ℕ} {i : ℕ} (h : i < n) : ix n (i : ℤ) = i := by
  unfold ix; rw [if_neg (by omega)]; omega

theorem ix_neg {n : ℕ} {i : ℕ} (h0 : 0 < i) (h : i ≤ n) : ix n (-(i : ℤ)) = n - i := by
  unfold ix; rw [if_pos (by omega)]; omega

theorem ix_last (n : ℕ) : ix n (-1) = n - 1 := by
  unfold ix; rw [if_pos (by omega)]; omega

theorem argminUpTo_le (d : ℕ → K) (m : ℕ) : argminUpTo d m ≤ m := by
  induction m with
  | zero => simp [argminUpTo]
  | succ m ih => unfold argminUpTo; split <;> omega

theorem argminUpTo_min (d : ℕ → K) (m : ℕ) : ∀ k ≤ m, d (argminUpTo d m) ≤ d k := by
  induction m with
  | zero => intro k hk; obtain rfl : k = 0 := by omega
            exact le_refl _
  | succ m ih =>
    intro k hk
    unfold argminUpTo
    split
    · rename_i h
      rcases Nat.lt_or_ge k (m + 1) with hk' | hk'
      · exact le_of_lt (lt_of_lt_of_le h (ih k (by omega)))
      · obtain rfl : k = m + 1 := by omega
        exact le_refl _
    · rename_i h
      rcases Nat.lt_or_ge k (m + 1) with hk' | hk'
      · exact ih k (by omega)
      · obtain rfl : k = m + 1 := by omega
        exact not_lt.mp h

/-- The line the code evaluates once it has settled on the two table positions `i`, `j`. -/
def lineAt (xp fp : ℕ → K) (i j : ℕ) (x : K) : K :=
  (fp j - fp i) / (xp j - xp i) * x + (fp i - (fp j - fp i) / (xp j - xp i) * xp i)

theorem lineAt_right (xp fp : ℕ → K) (j : ℕ) (x : K) :
    lineAt xp fp j (j + 1) x = chord xp fp j x := by
  unfold lineAt chord; ring

theorem lineAt_left (xp fp : ℕ → K) (j : ℕ) (x : K) (h : xp j ≠ xp (j + 1)) :
    lineAt xp fp (j + 1) j x = chord xp fp j x := by
  unfold lineAt chord
  have h1 : xp j - xp (j + 1) ≠ 0 := sub_ne_zero.mpr h
  have h2 : xp (j + 1) - xp j ≠ 0 := sub_ne_zero.mpr h.symm
  field_simp
  ring

theorem lineAt_self (xp fp : ℕ → K) (i j : ℕ) : lineAt xp fp i j (xp i) = fp i := by
  unfold lineAt; ring

theorem chord_left (xp fp : ℕ → K) (j : ℕ) : chord xp fp j (xp j) = fp j := by simp [chord]

theorem chord_right (xp fp : ℕ → K) (j : ℕ) (h : xp j ≠ xp (j + 1)) :
    chord xp fp j (xp (j + 1)) = fp (j + 1) := by
  have h2 : xp (j + 1) - xp j ≠ 0 := sub_ne_zero.mpr h.symm
  rw [chord, div_self h2]; ring

/-- The nearest table position. -/
def nearest (n : ℕ) (xp : ℕ → K) (x : K) : ℕ := argmin n fun i => (x - xp i) ^ 2

/-- The nearest table position, clamped to `[1, n-2]`. -/
def nearestIn (n : ℕ) (xp : ℕ → K) (x : K) : ℕ := min (max (nearest n xp x) 1) (n - 2)

section Ordered
variable [IsStrictOrderedRing K]

theorem sgn_copysign (u : K) : copysign1 (sgn u) = if u < 0 then -1 else 1 := by
  unfold copysign1 sgn
  split_ifs <;> simp_all

/-- Unfolding of `interp` to natural-number positions, for tables of at least three points. -/
theorem interp_eq (n : ℕ) (hn : 3 ≤ n) (xp fp : ℕ → K) (x : K) :
    interp n xp fp x =
      if clip x (xp 1) (xp (n - 2)) < xp (nearestIn n xp x) then
        lineAt xp fp (nearestIn n xp x) (nearestIn n xp x - 1) x
      else lineAt xp fp (nearestIn n xp x) (nearestIn n xp x + 1) x := by
  have hind : iclip (nearest n xp x) 1 ((n : ℤ) - 2) = ((nearestIn n xp x : ℕ) : ℤ) := by
    unfold iclip nearestIn; omega
  have hlo : 1 ≤ nearestIn n xp x := by unfold nearestIn; omega
  have hhi : nearestIn n xp x ≤ n - 2 := by unfold nearestIn; omega
  unfold interp
  simp only [nearest] at hind
  simp only [hind]
  have e1 : ix n 1 = 1 := ix_nonneg (n := n) (i := 1) (by omega)
  have e2 : ix n (-2) = n - 2 := ix_neg (n := n) (i := 2) (by omega) (by omega)
  rw [ix_nonneg (by omega), e1, e2, sgn_copysign]
  generalize nearestIn n xp x = k at *
  by_cases hc : clip x (xp 1) (xp (n - 2)) < xp k
  · rw [if_pos (sub_neg.mpr hc), if_pos hc]
    have e3 : ix n ((k : ℤ) + -1) = k - 1 := by
      rw [show (k : ℤ) + -1 = ((k - 1 : ℕ) : ℤ) by omega, ix_nonneg (by omega)]
    rw [e3, lineAt]
  · rw [if_neg (fun h => hc (sub_neg.mp h)), if_neg hc]
    have e3 : ix n ((k : ℤ) + 1) = k + 1 := by
      rw [show (k : ℤ) + 1 = ((k + 1 : ℕ) : ℤ) by omega, ix_nonneg (by omega)]
    rw [e3, lineAt]

theorem nearest_lt (n : ℕ) (hn : 0 < n) (xp : ℕ → K) (x : K) : nearest n xp x < n := by
  have := argminUpTo_le (fun i => (x - xp i) ^ 2) (n - 1)
  unfold nearest argmin; omega

theorem nearest_min (n : ℕ) (xp : ℕ → K) (x : K) (k : ℕ) (hk : k < n) :
    |x - xp (nearest n xp x)| ≤ |x - xp k| := by
  have := argminUpTo_min (fun i => (x - xp i) ^ 2) (n - 1) k (by omega)
  exact sq_le_sq.mp this

theorem nearest_node (n : ℕ) (xp : ℕ → K) (k : ℕ) (hk : k < n)
    (hinj : ∀ j < n, xp j = xp k → j = k) : nearest n xp (xp k) = k := by
  have := nearest_min n xp (xp k) k hk
  rw [sub_self, abs_zero] at this
  have h0 := abs_eq_zero.mp (le_antisymm this (abs_nonneg _))
  exact hinj _ (nearest_lt n (by omega) xp _) (sub_eq_zero.mp h0).symm

theorem nearest_le_of_le {n : ℕ} {xp : ℕ → K} (hx : Increasing n xp) {x : K} {k : ℕ}
    (hk : k < n) (h : x ≤ xp k) : nearest n xp x ≤ k := by
  by_contra hc
  have h1 := nearest_min n xp x k hk
  have h2 := hx k _ (not_le.mp hc) (nearest_lt n (by omega) xp x)
  rw [abs_of_nonpos (by linarith), abs_of_nonpos (by linarith)] at h1
  linarith

theorem le_nearest_of_le {n : ℕ} {xp : ℕ → K} (hx : Increasing n xp) {x : K} {k : ℕ}
    (hk : k < n) (h : xp k ≤ x) : k ≤ nearest n xp x := by
  by_contra hc
  have h1 := nearest_min n xp x k hk
  have h2 := hx _ k (not_le.mp hc) hk
  rw [abs_of_nonneg (by linarith), abs_of_nonneg (by linarith)] at h1
  linarith

theorem nearest_le_of_le_dec {n : ℕ} {xp : ℕ → K} (hx : Decreasing n xp) {x : K} {k : ℕ}
    (hk : k < n) (h : xp k ≤ x) : nearest n xp x ≤ k := by
  by_contra hc
  have h1 := nearest_min n xp x k hk
  have h2 := hx k _ (not_le.mp hc) (nearest_lt n (by omega) xp x)
  rw [abs_of_nonneg (by linarith), abs_of_nonneg (by linarith)] at h1
  linarith

theorem le_nearest_of_le_dec {n : ℕ} {xp : ℕ → K} (hx : Decreasing n xp) {x : K} {k : ℕ}
    (hk : k < n) (h : x ≤ xp k) : k ≤ nearest n xp x := by
  by_contra hc
  have h1 := nearest_min n xp x k hk
  have h2 := hx _ k (not_le.mp hc) hk
  rw [abs_of_nonpos (by linarith), abs_of_nonpos (by linarith)] at h1
  linarith

theorem Spec.Increasing.le {n : ℕ} {xp : ℕ → K} (hx : Increasing n xp) {i j : ℕ} (h : i ≤ j)
    (hj : j < n) : xp i ≤ xp j := by
  rcases Nat.lt_or_ge i j with h' | h'
  · exact (hx i j h' hj).le
  · rw [le_antisymm h h']

theorem Spec.Decreasing.le {n : ℕ} {xp : ℕ → K} (hx : Decreasing n xp) {i j : ℕ} (h : i ≤ j)
    (hj : j < n) : xp j ≤ xp i := by
  rcases Nat.lt_or_ge i j with h' | h'
  · exact (hx i j h' hj).le
  · rw [le_antisymm h h']

/-- Increasing tables of at least three points: the chord of segment `j ≥ 1` is used on it, the
first used one (`j = 1`) for everything to its left and the last one for everything to its
right. -/
theorem interp_inc_seg {n : ℕ} (hn : 3 ≤ n) {xp : ℕ → K} (hx : Increasing n xp) (fp : ℕ → K)
    {x : K} {j : ℕ} (h1 : 1 ≤ j) (h2 : j + 1 < n) (hl : j = 1 ∨ xp j ≤ x)
    (hr : j + 2 = n ∨ x ≤ xp (j + 1)) : interp n xp fp x = chord xp fp j x := by
  have hlo : j ≤ nearestIn n xp x := by
    unfold nearestIn
    rcases hl with h | h
    · omega
    · have := le_nearest_of_le hx (by omega) h; omega
  have hhi : nearestIn n xp x ≤ j + 1 := by
    unfold nearestIn
    rcases hr with h | h
    · omega
    · have := nearest_le_of_le hx (by omega) h; omega
  have hmax : nearestIn n xp x ≤ n - 2 := by unfold nearestIn; omega
  have hne : xp j ≠ xp (j + 1) := (hx j (j + 1) (by omega) h2).ne
  rw [interp_eq n hn]
  rcases Nat.lt_or_ge j (nearestIn n xp x) with hk | hk
  · have ek : nearestIn n xp x = j + 1 := by omega
    rw [ek, Nat.add_sub_cancel]
    split
    · exact lineAt_left xp fp j x hne
    · rename_i hc
      have hxr : x ≤ xp (j + 1) := by
        rcases hr with h | h
        · omega
        · exact h
      have h1' : xp 1 < xp (j + 1) := hx 1 (j + 1) (by omega) (by omega)
      have hx' : x = xp (j + 1) := by
        apply le_antisymm hxr
        by_contra hlt
        apply hc
        exact lt_of_le_of_lt (min_le_left _ _) (max_lt (not_le.mp hlt) h1')
      rw [hx', lineAt_self, chord_right xp fp j hne]
  · have ek : nearestIn n xp x = j := by omega
    rw [ek, if_neg, lineAt_right]
    rw [not_lt]
    refine le_min ?_ (hx.le (by omega) (by omega))
    rcases hl with h | h
    · rw [h]; exact le_max_right _ _
    · exact le_trans h (le_max_left _ _)

/-- Two-point tables: the chord, everywhere. -/
theorem interp_two {xp : ℕ → K} (fp : ℕ → K) (x : K) : interp 2 xp fp x = chord xp fp 0 x := by
  have hi : ∀ m : ℕ, iclip (m : ℤ) 1 (((2 : ℕ) : ℤ) - 2) = 0 := by
    intro m; unfold iclip; omega
  unfold interp
  simp only [hi]
  have e0 : ix 2 0 = 0 := by decide
  have e1 : ix 2 1 = 1 := by decide
  have e2 : ix 2 (-2) = 0 := by decide
  have e3 : ix 2 (0 + -1) = 1 := by decide
  rw [e0, e1, e2, sgn_copysign]
  split
  · rw [e3]; unfold chord; ring
  · rw [show (0 : ℤ) + 1 = 1 from rfl, e1]; unfold chord; ring

/-- The used segment on an increasing table: every `x` belongs to one. -/
theorem exists_seg {n : ℕ} (hn : 3 ≤ n) (xp : ℕ → K) (x : K) :
    ∃ j, 1 ≤ j ∧ j + 1 < n ∧ (j = 1 ∨ xp j ≤ x) ∧ (j + 2 = n ∨ x ≤ xp (j + 1)) := by
  have key : ∀ m, m + 3 ≤ n → (∃ j, 1 ≤ j ∧ j ≤ m ∧ (j = 1 ∨ xp j ≤ x) ∧ x ≤ xp (j + 1)) ∨
      (m + 1 = 1 ∨ xp (m + 1) ≤ x) := by
    intro m
    induction m with
    | zero => intro _; right; left; rfl
    | succ m ih =>
      intro hm
      rcases ih (by omega) with ⟨j, a, b, c, d⟩ | h
      · exact Or.inl ⟨j, a, by omega, c, d⟩
      · rcases le_total x (xp (m + 1 + 1)) with h' | h'
        · exact Or.inl ⟨m + 1, by omega, by omega, h, h'⟩
        · exact Or.inr (Or.inr h')
  rcases key (n - 3) (by omega) with ⟨j, a, b, c, d⟩ | h
  · exact ⟨j, a, by omega, c, Or.inr d⟩
  · exact ⟨n - 3 + 1, by omega, by omega, h, Or.inl (by omega)⟩

/-- Decreasing tables of at least three points: the chord to the left of the (clamped) nearest
node, except at position `n - 2` where it is the chord to its right. -/
theorem interp_dec {n : ℕ} (hn : 3 ≤ n) {xp : ℕ → K} (hx : Decreasing n xp) (fp : ℕ → K) (x : K) :
    interp n xp fp x = if nearestIn n xp x = n - 2 then chord xp fp (n - 2) x
      else chord xp fp (nearestIn n xp x - 1) x := by
  have hlo : 1 ≤ nearestIn n xp x := by unfold nearestIn; omega
  have hhi : nearestIn n xp x ≤ n - 2 := by unfold nearestIn; omega
  have hclip : clip x (xp 1) (xp (n - 2)) = xp (n - 2) := by
    unfold clip
    exact min_eq_right (le_trans (hx.le (by omega) (by omega)) (le_max_right _ _))
  rw [interp_eq n hn, hclip]
  generalize nearestIn n xp x = k at *
  by_cases hk : k = n - 2
  · rw [if_pos hk, hk, if_neg (lt_irrefl _), lineAt_right]
  · rw [if_neg hk, if_pos (hx k (n - 2) (by omega) (by omega))]
    obtain ⟨m, rfl⟩ : ∃ m, k = m + 1 := ⟨k - 1, by omega⟩
    rw [Nat.add_sub_cancel]
    exact lineAt_left xp fp m x (hx m (m + 1) (by omega) (by omega)).ne'

theorem chord_mono {xp fp : ℕ → K} {j : ℕ} (hx : xp j < xp (j + 1)) (hf : fp j ≤ fp (j + 1))
    {x y : K} (h : x ≤ y) : chord xp fp j x ≤ chord xp fp j y := by
  unfold chord
  have : 0 < xp (j + 1) - xp j := sub_pos.mpr hx
  have : 0 ≤ fp (j + 1) - fp j := sub_nonneg.mpr hf
  gcongr

end Ordered

end JaxCosmo
