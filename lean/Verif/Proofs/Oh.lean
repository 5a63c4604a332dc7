import Mathlib.Analysis.Calculus.MeanValue
import Mathlib.Analysis.Calculus.Deriv.Pow
import Mathlib.Tactic.Module

/-! # Uniform orders of magnitude in the step length, and Taylor expansions -/

set_option linter.unusedSectionVars false

namespace JaxCosmo
variable {Y : Type*} [NormedAddCommGroup Y] [NormedSpace ℝ Y]

/-- Pairs of a starting point and a step length staying in `[a, b]`. -/
def Win (a b : ℝ) : Set (ℝ × ℝ) := {q | a ≤ q.1 ∧ 0 ≤ q.2 ∧ q.1 + q.2 ≤ b}

/-- `r = O(hⁿ)` uniformly over all steps inside `[a, b]`. -/
def Oh (a b : ℝ) (r : ℝ × ℝ → Y) (n : ℕ) : Prop :=
  ∃ C, 0 ≤ C ∧ ∀ q ∈ Win a b, ‖r q‖ ≤ C * q.2 ^ n

variable {a b : ℝ} {r r' : ℝ × ℝ → Y} {n m : ℕ}

theorem Oh.congr (h : Oh a b r n) (e : ∀ q ∈ Win a b, r' q = r q) : Oh a b r' n := by
  obtain ⟨C, h0, h⟩ := h
  exact ⟨C, h0, fun q hq => by rw [e q hq]; exact h q hq⟩

theorem Oh.add (h : Oh a b r n) (h' : Oh a b r' n) : Oh a b (fun q => r q + r' q) n := by
  obtain ⟨C, h0, h⟩ := h
  obtain ⟨C', h0', h'⟩ := h'
  exact ⟨C + C', by positivity, fun q hq => (norm_add_le _ _).trans (by
    rw [add_mul]; exact add_le_add (h q hq) (h' q hq))⟩

theorem Oh.smul (c : ℝ) (h : Oh a b r n) : Oh a b (fun q => c • r q) n := by
  obtain ⟨C, h0, h⟩ := h
  exact ⟨|c| * C, by positivity, fun q hq => by
    rw [norm_smul, Real.norm_eq_abs, mul_assoc]
    exact mul_le_mul_of_nonneg_left (h q hq) (abs_nonneg c)⟩

theorem Oh.sub (h : Oh a b r n) (h' : Oh a b r' n) : Oh a b (fun q => r q - r' q) n :=
  (h.add (h'.smul (-1))).congr fun q _ => by module

theorem Oh.step (h : Oh a b r n) : Oh a b (fun q => q.2 • r q) (n + 1) := by
  obtain ⟨C, h0, h⟩ := h
  refine ⟨C, h0, fun q hq => ?_⟩
  have hq2 : 0 ≤ q.2 := hq.2.1
  rw [norm_smul, Real.norm_eq_abs, abs_of_nonneg hq2, pow_succ]
  calc q.2 * ‖r q‖ ≤ q.2 * (C * q.2 ^ n) := mul_le_mul_of_nonneg_left (h q hq) hq2
    _ = C * (q.2 ^ n * q.2) := by ring

theorem Oh.steps (k : ℕ) (h : Oh a b r n) : Oh a b (fun q => q.2 ^ k • r q) (n + k) := by
  induction k with
  | zero => exact h.congr fun q _ => by simp
  | succ k ih => exact ih.step.congr fun q _ => by rw [smul_smul, pow_succ']

theorem Oh.mono (h : Oh a b r m) (hnm : n ≤ m) : Oh a b r n := by
  obtain ⟨C, h0, h⟩ := h
  refine ⟨C * |b - a| ^ (m - n), by positivity, fun q hq => (h q hq).trans ?_⟩
  have h2 : 0 ≤ q.2 := hq.2.1
  have h3 : q.2 ≤ |b - a| := le_trans (by linarith [hq.1, hq.2.2]) (le_abs_self _)
  calc C * q.2 ^ m = C * (q.2 ^ (m - n) * q.2 ^ n) := by rw [← pow_add, Nat.sub_add_cancel hnm]
    _ ≤ C * (|b - a| ^ (m - n) * q.2 ^ n) := by gcongr
    _ = C * |b - a| ^ (m - n) * q.2 ^ n := by ring

theorem Oh.clm {A : ℝ × ℝ → Y →L[ℝ] Y} {K : ℝ} (hA : ∀ q ∈ Win a b, ‖A q‖ ≤ K)
    (h : Oh a b r n) : Oh a b (fun q => A q (r q)) n := by
  obtain ⟨C, h0, h⟩ := h
  refine ⟨|K| * C, by positivity, fun q hq => ?_⟩
  calc ‖A q (r q)‖ ≤ ‖A q‖ * ‖r q‖ := (A q).le_opNorm _
    _ ≤ |K| * (C * q.2 ^ n) := mul_le_mul ((hA q hq).trans (le_abs_self K)) (h q hq)
        (norm_nonneg _) (abs_nonneg K)
    _ = |K| * C * q.2 ^ n := by ring

theorem oh_of_bound {K : ℝ} (h : ∀ q ∈ Win a b, ‖r q‖ ≤ K) : Oh a b r 0 :=
  ⟨|K|, abs_nonneg K, fun q hq => by
    rw [pow_zero, mul_one]; exact (h q hq).trans (le_abs_self K)⟩

/-- Taylor's formula with the remainder bounded, for a chain of derivatives on a convex set. -/
theorem taylor_bound {s : Set ℝ} (hs : Convex ℝ s) {M : ℝ} (n : ℕ) : ∀ {g : ℕ → ℝ → Y},
    (∀ j < n, ∀ t ∈ s, HasDerivWithinAt (g j) (g (j + 1) t) s t) → (∀ t ∈ s, ‖g n t‖ ≤ M) →
    ∀ p ∈ s, ∀ x ∈ s,
      ‖g 0 x - ∑ j ∈ Finset.range n, ((x - p) ^ j / (j.factorial : ℝ)) • g j p‖ ≤ M * |x - p| ^ n := by
  induction n with
  | zero => intro g _ hM p _ x hx; simpa using hM x hx
  | succ n ih =>
    intro g hd hM p hp x hx
    have key : ∀ z ∈ s, HasDerivWithinAt
        (fun z => g 0 z - ∑ j ∈ Finset.range (n + 1), ((z - p) ^ j / (j.factorial : ℝ)) • g j p)
        (g 1 z - ∑ j ∈ Finset.range n, ((z - p) ^ j / (j.factorial : ℝ)) • g (j + 1) p) s z := by
      intro z hz
      refine (hd 0 (Nat.succ_pos n) z hz).sub ?_
      have h1 : ∀ j ∈ Finset.range n, HasDerivWithinAt
          (fun z : ℝ => ((z - p) ^ (j + 1) / ((j + 1).factorial : ℝ)) • g (j + 1) p)
          (((z - p) ^ j / (j.factorial : ℝ)) • g (j + 1) p) s z := by
        intro j _
        have hpow : HasDerivAt (fun z : ℝ => (z - p) ^ (j + 1)) ((j + 1 : ℕ) * (z - p) ^ j) z := by
          simpa using ((hasDerivAt_id z).sub_const p).fun_pow (j + 1)
        have := (hpow.div_const ((j + 1).factorial : ℝ)).hasDerivWithinAt (s := s) |>.smul_const
          (g (j + 1) p)
        refine this.congr_deriv ?_
        congr 1
        rw [Nat.factorial_succ]
        have h1 : ((j : ℝ) + 1) ≠ 0 := by positivity
        have h2 : ((j.factorial : ℕ) : ℝ) ≠ 0 := by positivity
        push_cast
        field_simp
      have h2 := HasDerivWithinAt.fun_sum h1
      have e : (fun z => ∑ j ∈ Finset.range (n + 1), ((z - p) ^ j / (j.factorial : ℝ)) • g j p)
          = fun z => (∑ j ∈ Finset.range n, ((z - p) ^ (j + 1) / ((j + 1).factorial : ℝ)) • g (j + 1) p)
            + g 0 p := by
        funext z
        rw [Finset.sum_range_succ']
        simp
      rw [e]
      exact h2.add_const _
    have hM' : 0 ≤ M := (norm_nonneg _).trans (hM p hp)
    have hbound := ih (g := fun j => g (j + 1)) (fun j hj => hd (j + 1) (by omega)) hM p hp
    have hsub : s ∩ Set.uIcc p x ⊆ s := Set.inter_subset_left
    have hmv := Convex.norm_image_sub_le_of_norm_hasDerivWithin_le
      (f := fun z => g 0 z - ∑ j ∈ Finset.range (n + 1), ((z - p) ^ j / (j.factorial : ℝ)) • g j p)
      (C := M * |x - p| ^ n) (fun z hz => (key z (hsub hz)).mono hsub) (fun z hz => by
        refine (hbound z hz.1).trans (mul_le_mul_of_nonneg_left ?_ hM')
        exact pow_le_pow_left₀ (abs_nonneg _) (Set.abs_sub_left_of_mem_uIcc hz.2) n)
      (hs.inter (convex_uIcc p x)) (x := p) (y := x) ⟨hp, Set.left_mem_uIcc⟩ ⟨hx, Set.right_mem_uIcc⟩
    have e0 : g 0 p - ∑ j ∈ Finset.range (n + 1), ((p - p) ^ j / (j.factorial : ℝ)) • g j p = 0 := by
      rw [Finset.sum_range_succ']
      simp
    simp only [e0, sub_zero] at hmv
    rw [Real.norm_eq_abs] at hmv
    rw [pow_succ, ← mul_assoc]
    exact hmv

end JaxCosmo
