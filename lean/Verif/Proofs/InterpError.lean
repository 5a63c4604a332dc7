import Verif.Proofs.Interp
import Verif.Proofs.LinearIvp

/-! # Interpolation error of `interp` on increasing tables -/

namespace JaxCosmo
open Spec Set

/-- A twice continuously differentiable function stays close to its tangents. -/
theorem tangent_bound {F : ℝ → ℝ} {a b : ℝ} (hab : a < b) (hF : ContDiffOn ℝ 2 F (Icc a b)) :
    ∃ (B : ℝ) (F' : ℝ → ℝ), 0 ≤ B ∧ ∀ x ∈ Icc a b, ∀ y ∈ Icc a b,
      |F y - F x - F' x * (y - x)| ≤ B * (y - x) ^ 2 := by
  have hu : UniqueDiffOn ℝ (Icc a b) := uniqueDiffOn_Icc hab
  have h2 : ContDiffOn ℝ (1 + 1 : ℕ) F (Icc a b) := by exact_mod_cast hF
  have h1 : ContDiffOn ℝ 1 (derivWithin F (Icc a b)) (Icc a b) :=
    ((contDiffOn_succ_iff_derivWithin hu).1 (by exact_mod_cast h2 :
      ContDiffOn ℝ (1 + 1) F (Icc a b))).2.2
  obtain ⟨B, hB0, hB⟩ := lipschitz_Icc hab h1
  refine ⟨B, derivWithin F (Icc a b), hB0, fun x hx y hy => ?_⟩
  have hd : ∀ z ∈ Icc a b, HasDerivWithinAt F (derivWithin F (Icc a b) z) (Icc a b) z := fun z hz =>
    (hF.differentiableOn (by simp) z hz).hasDerivWithinAt
  have hsub : uIcc x y ⊆ Icc a b := fun z hz => by
    rw [mem_uIcc] at hz
    rcases hz with h | h
    · exact ⟨hx.1.trans h.1, h.2.trans hy.2⟩
    · exact ⟨hy.1.trans h.1, h.2.trans hx.2⟩
  have hdz : ∀ z ∈ uIcc x y, HasDerivWithinAt (fun z => F z - derivWithin F (Icc a b) x * z)
      (derivWithin F (Icc a b) z - derivWithin F (Icc a b) x) (uIcc x y) z := fun z hz => by
    have := (hasDerivAt_id z).const_mul (derivWithin F (Icc a b) x)
    rw [mul_one] at this
    exact ((hd z (hsub hz)).mono hsub).sub this.hasDerivWithinAt
  have := Convex.norm_image_sub_le_of_norm_hasDerivWithin_le (C := B * |y - x|) hdz
    (fun z hz => (hB z (hsub hz) x hx).trans (mul_le_mul_of_nonneg_left ?_ hB0)) (convex_uIcc x y)
    left_mem_uIcc right_mem_uIcc
  · simp only [Real.norm_eq_abs] at this
    have e : F y - derivWithin F (Icc a b) x * y - (F x - derivWithin F (Icc a b) x * x)
        = F y - F x - derivWithin F (Icc a b) x * (y - x) := by ring
    rw [e] at this
    refine this.trans (le_of_eq ?_)
    rw [mul_assoc, ← abs_mul, ← pow_two, abs_of_nonneg (sq_nonneg _)]
  · rw [mem_uIcc] at hz
    rcases hz with h | h
    · rw [abs_of_nonneg (by linarith), abs_of_nonneg (by linarith)]; linarith
    · rw [abs_of_nonpos (by linarith), abs_of_nonpos (by linarith)]; linarith

theorem combo_bound {s r0 r1 e0 e1 ε ρ : ℝ} (hs : |s| ≤ 1) (h0 : |r0| ≤ ρ) (h1 : |r1| ≤ ρ)
    (k0 : |e0| ≤ ε) (k1 : |e1| ≤ ε) :
    |(1 - s) * (r0 + e0) + s * (r1 + e1)| ≤ 3 * (ε + ρ) := by
  have hs2 : |1 - s| ≤ 2 := by rw [abs_le] at *; constructor <;> linarith
  have a0 : |r0 + e0| ≤ ρ + ε := (abs_add_le _ _).trans (add_le_add h0 k0)
  have a1 : |r1 + e1| ≤ ρ + ε := (abs_add_le _ _).trans (add_le_add h1 k1)
  have hp : 0 ≤ ρ + ε := (abs_nonneg _).trans a0
  calc |(1 - s) * (r0 + e0) + s * (r1 + e1)|
      ≤ |(1 - s) * (r0 + e0)| + |s * (r1 + e1)| := abs_add_le _ _
    _ = |1 - s| * |r0 + e0| + |s| * |r1 + e1| := by rw [abs_mul, abs_mul]
    _ ≤ 2 * (ρ + ε) + 1 * (ρ + ε) := by gcongr
    _ = _ := by ring

/-- The chord through two perturbed values, at a point whose relative position is in `[-1, 1]`. -/
theorem chord_error {xp fp : ℕ → ℝ} {j : ℕ} {x η ε B Fx F' f0 f1 : ℝ}
    (hx : xp j < xp (j + 1)) (hη : xp (j + 1) - xp j ≤ η) (hs : |x - xp j| ≤ xp (j + 1) - xp j)
    (hB : 0 ≤ B) (h0 : |f0 - Fx - F' * (xp j - x)| ≤ B * (xp j - x) ^ 2)
    (h1 : |f1 - Fx - F' * (xp (j + 1) - x)| ≤ B * (xp (j + 1) - x) ^ 2)
    (k0 : |fp j - f0| ≤ ε) (k1 : |fp (j + 1) - f1| ≤ ε) :
    |chord xp fp j x - Fx| ≤ 3 * (ε + 4 * B * η ^ 2) := by
  have hd : 0 < xp (j + 1) - xp j := by linarith
  have hηp : 0 < η := by linarith
  have hs1 : |(x - xp j) / (xp (j + 1) - xp j)| ≤ 1 := by
    rw [abs_div, abs_of_pos hd, div_le_one hd]; exact hs
  have b0 : B * (xp j - x) ^ 2 ≤ 4 * B * η ^ 2 := by
    have : (xp j - x) ^ 2 ≤ (2 * η) ^ 2 := by
      apply sq_le_sq'
      · have := (abs_le.1 hs).2; linarith
      · have := (abs_le.1 hs).1; linarith
    nlinarith
  have b1 : B * (xp (j + 1) - x) ^ 2 ≤ 4 * B * η ^ 2 := by
    have : (xp (j + 1) - x) ^ 2 ≤ (2 * η) ^ 2 := by
      apply sq_le_sq'
      · have := (abs_le.1 hs).2; linarith
      · have := (abs_le.1 hs).1; linarith
    nlinarith
  have e : chord xp fp j x - Fx
      = (1 - (x - xp j) / (xp (j + 1) - xp j)) * ((f0 - Fx - F' * (xp j - x)) + (fp j - f0))
        + (x - xp j) / (xp (j + 1) - xp j)
          * ((f1 - Fx - F' * (xp (j + 1) - x)) + (fp (j + 1) - f1)) := by
    unfold chord
    have := hd.ne'
    field_simp
    ring
  rw [e]
  exact combo_bound hs1 (h0.trans b0) (h1.trans b1) k0 k1

/-- `interp` on an increasing table whose second cell is not narrower than the first: the error at
every point of the table's range is at most three times the tabulation error plus a multiple of the
squared mesh, in spite of the first cell using the chord of the second. -/
theorem interp_error {a b : ℝ} (hab : a < b) {F : ℝ → ℝ} (hF : ContDiffOn ℝ 2 F (Icc a b)) :
    ∃ C, 0 ≤ C ∧ ∀ (n : ℕ) (xp fp : ℕ → ℝ) (η ε : ℝ), 3 ≤ n → Increasing n xp →
      (∀ i < n, xp i ∈ Icc a b) → (∀ i, i + 1 < n → xp (i + 1) - xp i ≤ η) →
      xp 1 - xp 0 ≤ xp 2 - xp 1 → (∀ i < n, |fp i - F (xp i)| ≤ ε) →
      ∀ x, xp 0 ≤ x → x ≤ xp (n - 1) → |interp n xp fp x - F x| ≤ 3 * ε + C * η ^ 2 := by
  obtain ⟨B, F', hB0, hB⟩ := tangent_bound hab hF
  refine ⟨12 * B, by positivity, fun n xp fp η ε hn hx hmem hη h01 herr x hl hr => ?_⟩
  obtain ⟨j, h1, h2, h3, h4⟩ := exists_seg hn xp x
  have hxm : x ∈ Icc a b := ⟨(hmem 0 (by omega)).1.trans hl, hr.trans (hmem (n - 1) (by omega)).2⟩
  have hs : |x - xp j| ≤ xp (j + 1) - xp j := by
    have hr' : x ≤ xp (j + 1) := by
      rcases h4 with h | h
      · rw [show n - 1 = j + 1 by omega] at hr; exact hr
      · exact h
    rcases h3 with h | h
    · subst h
      rw [abs_le]
      have : xp 1 < xp 2 := hx 1 2 (by omega) (by omega)
      constructor <;> simp only [Nat.reduceAdd] at * <;> linarith
    · rw [abs_of_nonneg (by linarith)]; linarith
  rw [interp_inc_seg hn hx fp h1 h2 h3 h4]
  refine (chord_error (hx j (j + 1) (by omega) h2) (hη j h2) hs hB0
    (hB x hxm _ (hmem j (by omega))) (hB x hxm _ (hmem (j + 1) h2)) (herr j (by omega))
    (herr (j + 1) h2)).trans (le_of_eq (by ring))

end JaxCosmo
