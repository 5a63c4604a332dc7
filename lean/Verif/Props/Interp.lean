import Verif.Proofs.Interp
import Mathlib.Data.Rat.Cast.CharZero

/-! # C19–C21: `interp` -/

namespace JaxCosmo
open Spec
set_option linter.unusedSectionVars false
variable {K : Type*} [Field K] [LinearOrder K] [IsStrictOrderedRing K]

/-! ## C19: increasing tables

The claim is false on the first segment of every table with at least three points; it holds on
all others. -/

/-- C19, everywhere except on the first segment `[xp 0, xp 1)`. -/
theorem C19_partial {n : ℕ} (hn : 2 ≤ n) {xp : ℕ → K} (hx : Increasing n xp) (fp : ℕ → K) {x : K}
    (hl : xp (if n = 2 then 0 else 1) ≤ x) (hr : x ≤ xp (n - 1)) :
    LinInterp n xp fp x (interp n xp fp x) := by
  rcases Nat.lt_or_ge n 3 with h | h
  · obtain rfl : n = 2 := by omega
    refine ⟨0, by omega, ?_, ?_, interp_two fp x⟩
    · exact le_trans (min_le_left _ _) (by simpa using hl)
    · exact le_trans (by simpa using hr) (le_max_right _ _)
  · rw [if_neg (by omega)] at hl
    obtain ⟨j, h1, h2, h3, h4⟩ := exists_seg h xp x
    refine ⟨j, h2, ?_, ?_, interp_inc_seg h hx fp h1 h2 h3 h4⟩
    · refine le_trans (min_le_left _ _) ?_
      rcases h3 with rfl | h3
      · exact hl
      · exact h3
    · refine le_trans ?_ (le_max_right _ _)
      rcases h4 with h4 | h4
      · rw [show j + 1 = n - 1 by omega]; exact hr
      · exact h4

/-- C19 at the nodes: exact at every node but the first. -/
theorem C19_nodes_partial {n : ℕ} {xp : ℕ → K} (hx : Increasing n xp) (fp : ℕ → K) {i : ℕ}
    (hi : 1 ≤ i ∨ n = 2) (hin : i < n) : interp n xp fp (xp i) = fp i := by
  rcases Nat.lt_or_ge n 3 with h | h
  · obtain rfl : n = 2 := by omega
    rw [interp_two]
    rcases i with _ | _ | i
    · exact chord_left xp fp 0
    · exact chord_right xp fp 0 (hx 0 1 (by omega) (by omega)).ne
    · omega
  · have hi1 : 1 ≤ i := by omega
    rcases Nat.lt_or_ge (i + 1) n with h' | h'
    · rw [interp_inc_seg h hx fp hi1 h' (Or.inr le_rfl)
        (Or.inr (hx i (i + 1) (by omega) h').le), chord_left]
    · obtain ⟨k, rfl⟩ : ∃ k, i = k + 1 := ⟨i - 1, by omega⟩
      have hk := hx k (k + 1) (by omega) hin
      rw [interp_inc_seg h hx fp (j := k) (by omega) hin (Or.inr hk.le) (Or.inl (by omega)),
        chord_right xp fp k hk.ne]

/-- What the code does on and before the first segment: it extrapolates the second one. -/
theorem C19_first_segment {n : ℕ} (hn : 3 ≤ n) {xp : ℕ → K} (hx : Increasing n xp) (fp : ℕ → K)
    {x : K} (h : x ≤ xp 1) : interp n xp fp x = chord xp fp 1 x :=
  interp_inc_seg hn hx fp le_rfl (by omega) (Or.inl rfl)
    (by rcases Nat.lt_or_ge n 4 with h' | h'
        · left; omega
        · right; exact le_trans h (hx 1 2 (by omega) (by omega)).le)

/-- The first tabulated value is never used. -/
theorem C19_fp0_ignored {n : ℕ} (hn : 3 ≤ n) {xp : ℕ → K} (hx : Increasing n xp)
    (fp fp' : ℕ → K) (h : ∀ i, 1 ≤ i → i < n → fp i = fp' i) (x : K) :
    interp n xp fp x = interp n xp fp' x := by
  obtain ⟨j, h1, h2, h3, h4⟩ := exists_seg hn xp x
  rw [interp_inc_seg hn hx fp h1 h2 h3 h4, interp_inc_seg hn hx fp' h1 h2 h3 h4, chord, chord,
    h j h1 (by omega), h (j + 1) (by omega) (by omega)]

/-- On the first segment the result is right only if the first three points are collinear. -/
theorem C19_first_segment_iff {n : ℕ} (hn : 3 ≤ n) {xp : ℕ → K} (hx : Increasing n xp)
    (fp : ℕ → K) {x : K} (h0 : xp 0 ≤ x) (h1 : x < xp 1) :
    LinInterp n xp fp x (interp n xp fp x) ↔
      (fp 1 - fp 0) / (xp 1 - xp 0) = (fp 2 - fp 1) / (xp 2 - xp 1) := by
  have hx01 : 0 < xp 1 - xp 0 := sub_pos.mpr (hx 0 1 (by omega) (by omega))
  have hx12 : 0 < xp 2 - xp 1 := sub_pos.mpr (hx 1 2 (by omega) (by omega))
  rw [C19_first_segment hn hx fp h1.le]
  have hc1 : chord xp fp 1 x = fp 1 + (fp 2 - fp 1) / (xp 2 - xp 1) * (x - xp 1) := by
    unfold chord; ring
  have hc0 : chord xp fp 0 x = fp 1 + (fp 1 - fp 0) / (xp 1 - xp 0) * (x - xp 1) := by
    unfold chord
    field_simp
    simp only [zero_add]
    ring
  constructor
  · rintro ⟨j, hj, hlo, -, he⟩
    have hj0 : j = 0 := by
      by_contra hne
      have : xp 1 ≤ min (xp j) (xp (j + 1)) :=
        le_min (hx.le (by omega) (by omega)) (hx.le (by omega) (by omega))
      exact absurd (le_trans this hlo) (not_le.mpr h1)
    subst hj0
    rw [hc1, hc0, add_right_inj] at he
    exact (mul_right_cancel₀ (sub_ne_zero.mpr h1.ne) he).symm
  · intro h
    refine ⟨0, by omega, le_trans (min_le_left _ _) h0, le_trans h1.le (le_max_right _ _), ?_⟩
    rw [hc1, hc0, h]

/-- C19 as stated is false: on the table `0 ↦ 1, 1 ↦ 0, 2 ↦ 0` the value at the node `0` is `0`. -/
theorem C19_refuted : ¬ ∀ (n : ℕ) (xp fp : ℕ → ℚ) (x : ℚ), 2 ≤ n → Increasing n xp →
    xp 0 ≤ x → x ≤ xp (n - 1) → LinInterp n xp fp x (interp n xp fp x) := by
  intro h
  have hx : Increasing 3 (fun i => (i : ℚ)) := fun i j hij _ => by
    change (i : ℚ) < j; exact_mod_cast hij
  have := h 3 (fun i => (i : ℚ)) (fun i => if i = 0 then 1 else 0) 0 (by omega) hx
    (by simp) (by norm_num)
  rw [C19_first_segment_iff (by omega) hx _ (by simp) (by norm_num)] at this
  norm_num at this

/-- Hypotheses of `C19_partial` on a four-point table with uneven spacing, inside a segment. -/
example : interp 4 (fun i => (i : ℚ) ^ 2) (fun i => (i : ℚ) ^ 3) 2 = 1 + 7 * (1 / 3) := by
  have hx : Increasing 4 (fun i => (i : ℚ) ^ 2) := fun i j hij hj => by
    interval_cases j <;> interval_cases i <;> norm_num
  rw [interp_inc_seg (by omega) hx _ (j := 1) (by omega) (by omega) (Or.inl rfl)
    (Or.inr (by norm_num)), chord]
  norm_num

/-! ## C20: decreasing tables -/

/-- The chord used on a decreasing table, where it is the right one. -/
theorem interp_dec_seg {n : ℕ} (hn : 4 ≤ n) {xp : ℕ → K} (hx : Decreasing n xp) (fp : ℕ → K)
    {x : K} {j : ℕ} (hj : j + 1 < n) (hl : xp (j + 1) ≤ x) (hr : x ≤ xp j)
    (h : j = 0 ∨ j + 2 = n ∨ (j + 3 < n ∧ x - xp (j + 1) < xp j - x)) :
    interp n xp fp x = chord xp fp j x := by
  have h1 := nearest_le_of_le_dec hx hj hl
  have h2 := le_nearest_of_le_dec hx (by omega) hr
  rw [interp_dec (by omega) hx]
  rcases h with h | h | ⟨h, h'⟩
  · subst h
    have : nearestIn n xp x = 1 := by unfold nearestIn; omega
    rw [this, if_neg (by omega)]
  · have : nearestIn n xp x = n - 2 := by unfold nearestIn; omega
    rw [this, if_pos rfl, show n - 2 = j by omega]
  · have hne : nearest n xp x ≠ j := by
      intro e
      have := nearest_min n xp x (j + 1) hj
      rw [e, abs_of_nonpos (by linarith), abs_of_nonneg (by linarith)] at this
      linarith
    have : nearestIn n xp x = j + 1 := by unfold nearestIn; omega
    rw [this, if_neg (by omega), Nat.add_sub_cancel]

/-- C20 where the code gets it right: on the whole first and last segments, and on the half of
every other segment `j ≤ n - 4` that is nearer to node `j + 1`. Missing: the other half of the
inner segments, where `C20_wrong_segment` shows another chord is used, and segment `n - 3`. -/
theorem C20_partial {n : ℕ} (hn : 4 ≤ n) {xp : ℕ → K} (hx : Decreasing n xp) (fp : ℕ → K)
    {x : K} {j : ℕ} (hj : j + 1 < n) (hl : xp (j + 1) ≤ x) (hr : x ≤ xp j)
    (h : j = 0 ∨ j + 2 = n ∨ (j + 3 < n ∧ x - xp (j + 1) < xp j - x)) :
    LinInterp n xp fp x (interp n xp fp x) :=
  ⟨j, hj, le_trans (min_le_right _ _) hl, le_trans hr (le_max_left _ _),
    interp_dec_seg hn hx fp hj hl hr h⟩

/-- C20 at the nodes: with at least four points every node is reproduced. -/
theorem C20_nodes {n : ℕ} (hn : 4 ≤ n) {xp : ℕ → K} (hx : Decreasing n xp) (fp : ℕ → K) {i : ℕ}
    (hi : i < n) : interp n xp fp (xp i) = fp i := by
  have hinj : ∀ j < n, xp j = xp i → j = i := by
    intro j hj e
    rcases lt_trichotomy j i with h | h | h
    · exact absurd e (hx j i h hi).ne'
    · exact h
    · exact absurd e (hx i j h hj).ne
  have hnear := nearest_node n xp i hi hinj
  rw [interp_dec (by omega) hx]
  unfold nearestIn
  rw [hnear]
  rcases Nat.eq_zero_or_pos i with rfl | hi0
  · rw [if_neg (by omega), show min (max 0 1) (n - 2) - 1 = 0 by omega, chord_left]
  · rcases Nat.lt_or_ge i (n - 2) with h | h
    · obtain ⟨k, rfl⟩ : ∃ k, i = k + 1 := ⟨i - 1, by omega⟩
      rw [if_neg (by omega), show min (max (k + 1) 1) (n - 2) - 1 = k by omega,
        chord_right xp fp k (hx k (k + 1) (by omega) hi).ne']
    · rw [if_pos (by omega)]
      rcases Nat.lt_or_ge i (n - 1) with h' | h'
      · rw [show n - 2 = i by omega, chord_left]
      · obtain ⟨k, rfl⟩ : ∃ k, i = k + 1 := ⟨i - 1, by omega⟩
        rw [show n - 2 = k by omega, chord_right xp fp k (hx k (k + 1) (by omega) hi).ne']

/-- What the code does in the other half of an inner segment: it extrapolates the segment
before. -/
theorem C20_wrong_segment {n : ℕ} {xp : ℕ → K} (hx : Decreasing n xp) (fp : ℕ → K)
    {x : K} {j : ℕ} (h1j : 1 ≤ j) (hj : j + 2 < n) (hl : xp (j + 1) ≤ x) (hr : x ≤ xp j)
    (h : xp j - x < x - xp (j + 1)) : interp n xp fp x = chord xp fp (j - 1) x := by
  have h1 := nearest_le_of_le_dec hx (by omega) hl
  have h2 := le_nearest_of_le_dec hx (by omega) hr
  have hne : nearest n xp x ≠ j + 1 := by
    intro e
    have := nearest_min n xp x j (by omega)
    rw [e, abs_of_nonneg (by linarith), abs_of_nonpos (by linarith)] at this
    linarith
  have : nearestIn n xp x = j := by unfold nearestIn; omega
  rw [interp_dec (by omega) hx, this, if_neg (by omega)]

/-- C20 as stated is false: table `3 ↦ 9, 2 ↦ 4, 1 ↦ 1, 0 ↦ 0`, query `7/4`. -/
theorem C20_refuted : ¬ ∀ (n : ℕ) (xp fp : ℕ → ℚ) (x : ℚ), 2 ≤ n → Decreasing n xp →
    xp (n - 1) ≤ x → x ≤ xp 0 → LinInterp n xp fp x (interp n xp fp x) := by
  intro h
  have hx : Decreasing 4 (fun i => 3 - (i : ℚ)) := fun i j hij _ => by
    have : (i : ℚ) < j := by exact_mod_cast hij
    linarith
  obtain ⟨j, hj, hlo, hhi, he⟩ := h 4 (fun i => 3 - (i : ℚ)) (fun i => (3 - (i : ℚ)) ^ 2) (7 / 4)
    (by omega) hx (by norm_num) (by norm_num)
  rw [C20_wrong_segment hx _ (j := 1) (by omega) (by omega) (by norm_num) (by norm_num)
    (by norm_num)] at he
  have hj' : j < 3 := by omega
  interval_cases j <;> first
    | (norm_num at hlo; done)
    | (norm_num at hhi; done)
    | (norm_num [chord] at he; done)

/-- A case of `C20_partial`: same table, query `5/4` would need `j + 3 < n`; on a five-point table
`4,3,2,1,0 ↦ squares` the query `9/4` is in the good half of an inner segment. -/
example : interp 5 (fun i => 4 - (i : ℚ)) (fun i => (4 - (i : ℚ)) ^ 2) (9 / 4)
    = 9 + (4 - 9) * (3 / 4) := by
  have hx : Decreasing 5 (fun i => 4 - (i : ℚ)) := fun i j hij _ => by
    have : (i : ℚ) < j := by exact_mod_cast hij
    linarith
  obtain ⟨j, hj, hlo, hhi, he⟩ := C20_partial (by omega) hx (fun i => (4 - (i : ℚ)) ^ 2)
    (x := 9 / 4) (j := 1) (by omega) (by norm_num) (by norm_num)
    (Or.inr (Or.inr ⟨by omega, by norm_num⟩))
  rw [he]
  have hj' : j < 4 := by omega
  interval_cases j <;> first
    | (exfalso; norm_num at hlo; done)
    | (exfalso; norm_num at hhi; done)
    | (norm_num [chord]; done)

/-! ## C21: affine tables and order -/

/-- C21: an affine table is reproduced at every `x`, whatever the order of the nodes. -/
theorem C21_affine {n : ℕ} (hn : 2 ≤ n) {xp fp : ℕ → K}
    (hinj : ∀ i j, i < n → j < n → xp i = xp j → i = j) (s c : K)
    (hf : ∀ i < n, fp i = s * xp i + c) (x : K) : interp n xp fp x = s * x + c := by
  have hline : ∀ i j, i < n → j < n → i ≠ j → lineAt xp fp i j x = s * x + c := by
    intro i j hi hj hij
    have : xp j - xp i ≠ 0 := sub_ne_zero.mpr fun e => hij (hinj i j hi hj e.symm)
    rw [lineAt, hf i hi, hf j hj]
    rw [show (s * xp j + c - (s * xp i + c)) / (xp j - xp i) = s by field_simp; ring]
    ring
  rcases Nat.lt_or_ge n 3 with h | h
  · obtain rfl : n = 2 := by omega
    rw [interp_two, ← lineAt_right]
    exact hline 0 1 (by omega) (by omega) (by omega)
  · have h1 : 1 ≤ nearestIn n xp x := by unfold nearestIn; omega
    have h2 : nearestIn n xp x ≤ n - 2 := by unfold nearestIn; omega
    rw [interp_eq n h]
    split
    · exact hline _ _ (by omega) (by omega) (by omega)
    · exact hline _ _ (by omega) (by omega) (by omega)

/-- C21: on an increasing table a non-decreasing `fp` gives a non-decreasing interpolant. -/
theorem C21_mono {n : ℕ} (hn : 2 ≤ n) {xp fp : ℕ → K} (hx : Increasing n xp)
    (hf : ∀ i, i + 1 < n → fp i ≤ fp (i + 1)) : Monotone (interp n xp fp) := by
  have hfle : ∀ i j, i ≤ j → j < n → fp i ≤ fp j := by
    intro i j hij
    induction j, hij using Nat.le_induction with
    | base => intro _; exact le_rfl
    | succ j _ ih => intro hj; exact le_trans (ih (by omega)) (hf j hj)
  intro x y hxy
  rcases Nat.lt_or_ge n 3 with h | h
  · obtain rfl : n = 2 := by omega
    rw [interp_two, interp_two]
    exact chord_mono (hx 0 1 (by omega) (by omega)) (hf 0 (by omega)) hxy
  · obtain ⟨j, a1, a2, a3, a4⟩ := exists_seg h xp x
    obtain ⟨k, b1, b2, b3, b4⟩ := exists_seg h xp y
    rw [interp_inc_seg h hx fp a1 a2 a3 a4, interp_inc_seg h hx fp b1 b2 b3 b4]
    have hxj := hx j (j + 1) (by omega) a2
    have hxk := hx k (k + 1) (by omega) b2
    rcases lt_trichotomy j k with hjk | rfl | hjk
    · have hxr : x ≤ xp (j + 1) := by rcases a4 with e | e; · omega
                                      · exact e
      have hyl : xp k ≤ y := by rcases b3 with e | e; · omega
                                · exact e
      calc chord xp fp j x ≤ chord xp fp j (xp (j + 1)) := chord_mono hxj (hf j a2) hxr
        _ = fp (j + 1) := chord_right xp fp j hxj.ne
        _ ≤ fp k := hfle _ _ hjk (by omega)
        _ = chord xp fp k (xp k) := (chord_left xp fp k).symm
        _ ≤ chord xp fp k y := chord_mono hxk (hf k b2) hyl
    · exact chord_mono hxj (hf j a2) hxy
    · have hyr : y ≤ xp (k + 1) := by rcases b4 with e | e; · omega
                                      · exact e
      have hxl : xp j ≤ x := by rcases a3 with e | e; · omega
                                · exact e
      have hkj : xp (k + 1) ≤ xp j := hx.le (by omega) (by omega)
      have e1 : x = xp j := le_antisymm (by linarith) hxl
      have e2 : y = xp (k + 1) := le_antisymm hyr (by linarith)
      rw [e1, e2, chord_left, chord_right xp fp k hxk.ne]
      have : xp j = xp (k + 1) := le_antisymm (by linarith) hkj
      have hjk' : j = k + 1 := by
        by_contra hne
        exact absurd this.symm (hx (k + 1) j (by omega) (by omega)).ne
      rw [hjk']

/-- `interp` of the negated table. -/
theorem interp_neg (n : ℕ) (xp fp : ℕ → K) (x : K) :
    interp n xp (fun i => -fp i) x = -interp n xp fp x := by
  unfold interp
  ring

/-- C21: on an increasing table a non-increasing `fp` gives a non-increasing interpolant. -/
theorem C21_anti {n : ℕ} (hn : 2 ≤ n) {xp fp : ℕ → K} (hx : Increasing n xp)
    (hf : ∀ i, i + 1 < n → fp (i + 1) ≤ fp i) : Antitone (interp n xp fp) := by
  intro x y hxy
  have := C21_mono hn hx (fp := fun i => -fp i) (fun i hi => neg_le_neg (hf i hi)) hxy
  rw [interp_neg, interp_neg] at this
  exact neg_le_neg_iff.mp this

/-- C21: the interpolant is linear in the table values. -/
theorem C21_linear (n : ℕ) (xp fp gp : ℕ → K) (u v x : K) :
    interp n xp (fun i => u * fp i + v * gp i) x
      = u * interp n xp fp x + v * interp n xp gp x := by
  unfold interp
  ring

/-- A positive lower bound for finitely many slopes. -/
theorem exists_slope {n : ℕ} {xp fp : ℕ → K} (hx : ∀ i, i + 1 < n → xp i < xp (i + 1))
    (hf : ∀ i, i + 1 < n → fp i < fp (i + 1)) :
    ∃ ε : K, 0 < ε ∧ ∀ i, i + 1 < n → ε * (xp (i + 1) - xp i) ≤ fp (i + 1) - fp i := by
  induction n with
  | zero => exact ⟨1, one_pos, fun i hi => by omega⟩
  | succ n ih =>
    obtain ⟨ε, h0, h⟩ := ih (fun i hi => hx i (by omega)) (fun i hi => hf i (by omega))
    rcases Nat.eq_zero_or_pos n with rfl | hn
    · exact ⟨1, one_pos, fun i hi => by omega⟩
    have a := sub_pos.mpr (hx (n - 1) (by omega))
    have b := sub_pos.mpr (hf (n - 1) (by omega))
    refine ⟨min ε ((fp (n - 1 + 1) - fp (n - 1)) / (xp (n - 1 + 1) - xp (n - 1))),
      lt_min h0 (div_pos b a), fun i hi => ?_⟩
    rcases Nat.lt_or_ge (i + 1) n with h' | h'
    · have hxi := sub_pos.mpr (hx i hi)
      exact (mul_le_mul_of_nonneg_right (min_le_left _ _) hxi.le).trans (h i h')
    · obtain rfl : i = n - 1 := by omega
      calc _ ≤ (fp (n - 1 + 1) - fp (n - 1)) / (xp (n - 1 + 1) - xp (n - 1))
            * (xp (n - 1 + 1) - xp (n - 1)) :=
          mul_le_mul_of_nonneg_right (min_le_right _ _) a.le
        _ = _ := div_mul_cancel₀ _ a.ne'

/-- C21: on an increasing table a strictly increasing `fp` gives a strictly increasing interpolant
on the whole line. -/
theorem C21_strictMono {n : ℕ} (hn : 2 ≤ n) {xp fp : ℕ → K} (hx : Increasing n xp)
    (hf : ∀ i, i + 1 < n → fp i < fp (i + 1)) : StrictMono (interp n xp fp) := by
  obtain ⟨ε, h0, h⟩ := exists_slope (fun i hi => hx i (i + 1) (by omega) hi) hf
  have hm := C21_mono hn hx (fp := fun i => 1 * fp i + (-ε) * xp i)
    (fun i hi => by have := h i hi; linarith)
  intro x y hxy
  have := hm hxy.le
  rw [C21_linear, C21_linear] at this
  have hid : ∀ x, interp n xp xp x = x := fun x => by
    have := C21_affine hn (xp := xp) (fp := xp) (fun i j hi hj hij => by
      rcases lt_trichotomy i j with h | h | h
      · exact absurd hij (hx i j h hj).ne
      · exact h
      · exact absurd hij.symm (hx j i h hi).ne) 1 0 (fun i _ => by ring) x
    linarith
  rw [hid, hid] at this
  nlinarith

/-- C21: strictly decreasing values give a strictly decreasing interpolant. -/
theorem C21_strictAnti {n : ℕ} (hn : 2 ≤ n) {xp fp : ℕ → K} (hx : Increasing n xp)
    (hf : ∀ i, i + 1 < n → fp (i + 1) < fp i) : StrictAnti (interp n xp fp) := by
  intro x y hxy
  have := C21_strictMono hn hx (fp := fun i => -fp i) (fun i hi => neg_lt_neg (hf i hi)) hxy
  rw [interp_neg, interp_neg] at this
  exact neg_lt_neg_iff.mp this

/-- The hypotheses of the order theorems on a concrete table. -/
example : Monotone (interp 5 (fun i => (i : ℚ) ^ 2) fun i => (i : ℚ)) :=
  C21_mono (by omega) (fun i j hij hj => by interval_cases j <;> interval_cases i <;> norm_num)
    (fun i _ => by simp)

end JaxCosmo
