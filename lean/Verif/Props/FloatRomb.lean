import Verif.Model.FloatRomb
import Verif.Proofs.Float
import Verif.Props.Romberg

/-!
# C157: Romberg integration in floating point
-/

namespace JaxCosmo
open Spec

variable {A : Rounding}

/-! ### Richardson extrapolation of any first column -/

/-- The Romberg tableau with first column `T`. -/
noncomputable def richardson (T : ℕ → ℝ) : ℕ → ℕ → ℝ
  | i, 0 => T i
  | 0, _ + 1 => 0
  | i + 1, j + 1 => richardson T (i + 1) j + (richardson T (i + 1) j - richardson T i j) / (4 ^ (j + 1) - 1)

theorem romberg_richardson (f : ℝ → ℝ) (a b : ℝ) (i j : ℕ) :
    romberg f a b i j = richardson (fun i => trapezoid f a b (2 ^ i)) i j := by
  induction j generalizing i with
  | zero => cases i <;> rfl
  | succ j ih =>
    cases i with
    | zero => rfl
    | succ i => simp only [romberg, richardson, ih]

/-- How much `k` extrapolations can enlarge an error. -/
noncomputable def enlarge : ℕ → ℝ
  | 0 => 1
  | k + 1 => (4 ^ (k + 1) + 1) / (4 ^ (k + 1) - 1) * enlarge k

theorem four_pow_ge (k : ℕ) : (4 : ℝ) ≤ 4 ^ (k + 1) := by
  have : (1 : ℝ) ≤ 4 ^ k := one_le_pow₀ (by norm_num)
  rw [pow_succ]; linarith

theorem enlarge_pos (k : ℕ) : 0 < enlarge k := by
  induction k with
  | zero => simp [enlarge]
  | succ k ih =>
    have := four_pow_ge k
    exact mul_pos (div_pos (by linarith) (by linarith)) ih

theorem enlarge_succ_le (k : ℕ) : enlarge (k + 1) ≤ 2 * (1 - 2 / 3 / 4 ^ (k + 1)) := by
  induction k with
  | zero => norm_num [enlarge]
  | succ k ih =>
    rw [enlarge]
    have h4 := four_pow_ge k
    have e : (4 : ℝ) ^ (k + 1 + 1) = 4 * 4 ^ (k + 1) := by rw [pow_succ]; ring
    rw [e]
    set q : ℝ := 4 ^ (k + 1)
    refine (mul_le_mul_of_nonneg_left ih (div_nonneg (by linarith) (by linarith))).trans ?_
    have hq : (0 : ℝ) < q := by linarith
    rw [div_mul_eq_mul_div, div_le_iff₀ (by linarith)]
    have : 2 * (1 - 2 / 3 / (4 * q)) * (4 * q - 1) - (4 * q + 1) * (2 * (1 - 2 / 3 / q)) = (5 / 3) / q := by
      field_simp; ring
    have h : 0 ≤ (5 / 3) / q := by positivity
    linarith

theorem enlarge_le_two (k : ℕ) : enlarge k ≤ 2 := by
  cases k with
  | zero => norm_num [enlarge]
  | succ k =>
    have := enlarge_succ_le k
    have h : (0 : ℝ) ≤ 2 / 3 / 4 ^ (k + 1) := by positivity
    linarith

theorem richardson_diff {T T' : ℕ → ℝ} {m : ℕ} {δ : ℝ} (h : ∀ i ≤ m, |T i - T' i| ≤ δ) {k i : ℕ} (hk : k ≤ i)
    (hi : i ≤ m) : |richardson T i k - richardson T' i k| ≤ enlarge k * δ := by
  induction k generalizing i with
  | zero => cases i <;> simpa [richardson, enlarge] using h _ hi
  | succ k ih =>
    obtain ⟨i, rfl⟩ : ∃ j, i = j + 1 := ⟨i - 1, by omega⟩
    have h1 := ih (i := i + 1) (by omega) hi
    have h2 := ih (i := i) (by omega) (by omega)
    have h4 := four_pow_ge k
    simp only [richardson, enlarge]
    set q : ℝ := 4 ^ (k + 1)
    have hq : 0 < q - 1 := by linarith
    have e : richardson T (i + 1) k + (richardson T (i + 1) k - richardson T i k) / (q - 1)
        - (richardson T' (i + 1) k + (richardson T' (i + 1) k - richardson T' i k) / (q - 1))
        = (q * (richardson T (i + 1) k - richardson T' (i + 1) k)
          - (richardson T i k - richardson T' i k)) / (q - 1) := by
      field_simp; ring
    rw [e, abs_div, abs_of_pos hq, div_le_iff₀ hq]
    have e2 : (q + 1) / (q - 1) * enlarge k * δ * (q - 1) = q * (enlarge k * δ) + enlarge k * δ := by
      field_simp
    rw [e2]
    refine (abs_sub _ _).trans (add_le_add ?_ h2)
    rw [abs_mul, abs_of_pos (by linarith : 0 < q)]
    exact mul_le_mul_of_nonneg_left h1 (by linarith)

/-! ### One extrapolation -/

theorem Near.widen {k : ℕ} {M M' y x : ℝ} (h : Near A.u k M y x) (hM : M ≤ M') : Near A.u k M' y x :=
  ⟨h.1.trans (mul_le_mul_of_nonneg_left hM (by linarith [one_le_growth (A := A) k])), h.2.trans hM⟩

theorem near_recip {q c : ℝ} (hq : 3 ≤ q) (hc : c = A.sub (A.rd (q + 1)) 1) : Near A.u 4 1 (q / c) 1 := by
  have hu := A.u_le
  have hu0 := A.u_nonneg
  have h1 := A.err (q + 1)
  rw [abs_of_pos (by linarith : 0 < q + 1), abs_le] at h1
  set T := A.rd (q + 1)
  have hT : 0 < T - 1 := by nlinarith [h1.1]
  have h2 := A.err (T - 1)
  rw [abs_of_pos hT, abs_le] at h2
  have hc' : A.rd (T - 1) = c := by rw [hc]; rfl
  rw [hc'] at h2
  set u := A.u
  -- `q (1 - 4 u / 3) (1 - u) ≤ c ≤ q (1 + 4 u / 3) (1 + u)`
  have l1 : q * (1 - 4 / 3 * u) ≤ T - 1 := by nlinarith [h1.1]
  have l2 : T - 1 ≤ q * (1 + 4 / 3 * u) := by nlinarith [h1.2]
  have l3 : q * ((1 - 4 / 3 * u) * (1 - u)) ≤ c := by
    have := mul_le_mul_of_nonneg_right l1 (by linarith : 0 ≤ 1 - u)
    nlinarith [h2.1]
  have l4 : c ≤ q * ((1 + 4 / 3 * u) * (1 + u)) := by
    have := mul_le_mul_of_nonneg_right l2 (by linarith : 0 ≤ 1 + u)
    nlinarith [h2.2]
  have hq0 : 0 < q := by linarith
  have p1 : 0 < (1 - 4 / 3 * u) * (1 - u) := mul_pos (by linarith) (by linarith)
  have hcp : 0 < c := lt_of_lt_of_le (mul_pos hq0 p1) l3
  refine ⟨?_, by simp⟩
  rw [mul_one, abs_le]
  have g : 1 ≤ (1 + u) ^ 4 * ((1 - 4 / 3 * u) * (1 - u)) := by
    have e1 : 1 + 4 * u + 6 * u ^ 2 ≤ (1 + u) ^ 4 := by
      have : 0 ≤ u ^ 3 * (4 + u) := by positivity
      nlinarith
    have e2 : 0 ≤ 1 - 7 / 3 * u := by linarith
    have e3 : 1 - 7 / 3 * u ≤ (1 - 4 / 3 * u) * (1 - u) := by nlinarith [sq_nonneg u]
    have e4 : (1 + 4 * u + 6 * u ^ 2) * (1 - 7 / 3 * u) = 1 + u * (5 / 3 - 10 / 3 * u - 14 * (u * u)) := by ring
    have e5 : u * u ≤ 1 / 8 * (1 / 8) := mul_le_mul hu hu hu0 (by norm_num)
    have e6 : 0 ≤ u * (5 / 3 - 10 / 3 * u - 14 * (u * u)) := mul_nonneg hu0 (by linarith)
    have e7 := mul_le_mul e1 e3 e2 (by positivity)
    linarith
  have g2 : 1 + 4 * u ≤ (1 + u) ^ 4 := by
    have : 0 ≤ u ^ 2 * (6 + 4 * u + u ^ 2) := by positivity
    nlinarith
  constructor
  · have h5 : (1 - 4 * u) * c ≤ q := by
      have h6 := mul_le_mul_of_nonneg_left l4 (by linarith : 0 ≤ 1 - 4 * u)
      have h7 : (1 - 4 * u) * (q * ((1 + 4 / 3 * u) * (1 + u)))
          = q - q * (u * (5 / 3 + 8 * u + 16 / 3 * u ^ 2)) := by ring
      have h8 : 0 ≤ q * (u * (5 / 3 + 8 * u + 16 / 3 * u ^ 2)) := by positivity
      linarith
    have h9 : 1 - 4 * u ≤ q / c := by rwa [le_div_iff₀ hcp]
    linarith
  · rw [sub_le_sub_iff_right, div_le_iff₀ hcp]
    calc q = q * 1 := by ring
      _ ≤ q * ((1 + u) ^ 4 * ((1 - 4 / 3 * u) * (1 - u))) := mul_le_mul_of_nonneg_left g hq0.le
      _ = (1 + u) ^ 4 * (q * ((1 - 4 / 3 * u) * (1 - u))) := by ring
      _ ≤ (1 + u) ^ 4 * c := mul_le_mul_of_nonneg_left l3 (by positivity)

theorem near_diff {n : ℕ} {M b b' c c' : ℝ} {k : ℕ} (hb : Near A.u n M b' b) (hc : Near A.u n M c' c) :
    Near A.u (n + 8) ((4 ^ (k + 1) + 1) / (4 ^ (k + 1) - 1) * M) (rombergDiffF A b' c' (k + 1))
      (c + (c - b) / (4 ^ (k + 1) - 1)) := by
  have h4 := four_pow_ge k
  set q : ℝ := 4 ^ (k + 1)
  have hq : 0 < q - 1 := by linarith
  have hT : Near A.u 1 q (A.rd q) q := by
    have := (Near.self (A := A) q).rd
    rwa [abs_of_pos (by linarith : 0 < q)] at this
  have h1 := (hT.mul hc).sub (hb.mono (j := 1 + n + 1) (by omega))
  have h2 := h1.quot (q - 1)
  have h3 := (h2.prod (near_recip (A := A) (q := q - 1) (by linarith) rfl)).rd
  rw [abs_of_pos hq] at h3
  have e1 : (q * M + M) / (q - 1) * 1 = (q + 1) / (q - 1) * M := by field_simp
  have e2 : (q * c - b) / (q - 1) * 1 = c + (c - b) / (q - 1) := by field_simp; ring
  rw [e1, e2, sub_add_cancel] at h3
  have e3 : A.sub (A.mul (A.rd q) c') b' / (q - 1) * ((q - 1) / A.sub (A.rd q) 1)
      = A.sub (A.mul (A.rd q) c') b' / A.sub (A.rd q) 1 := by
    field_simp
  rw [e3] at h3
  exact h3.mono (by omega)

/-! ### The loop -/

theorem rombF_state_succ (fn : ℝ → ℝ) (a b : ℝ) (t : ℕ → SumTree) (m j : ℕ) :
    (rombLoopF A fn a b t (m + 1)).2 (j + 1)
      = rombergDiffF A ((rombLoopF A fn a b t m).2 j) ((rombLoopF A fn a b t (m + 1)).2 j) (j + 1) := by
  set st := (rombLoopF A fn a b t m).2 with hst
  set x := (rombLoopF A fn a b t (m + 1)).2 0 with hx
  have hout : ∀ j, (rombLoopF A fn a b t (m + 1)).2 (j + 1) = scanOut (rombScanFnF A) (x, 0) st j := fun _ => rfl
  have hcarry : ∀ j, scanCarry (rombScanFnF A) (x, 0) st j = ((rombLoopF A fn a b t (m + 1)).2 j, j) := by
    intro j
    induction j with
    | zero => rfl
    | succ j ih =>
      have : scanCarry (rombScanFnF A) (x, 0) st (j + 1)
          = (rombScanFnF A (scanCarry (rombScanFnF A) (x, 0) st j) (st j)).1 := rfl
      rw [this, ih, hout]
      simp only [scanOut, rombScanFnF, ih]
  rw [hout, scanOut, hcarry]
  rfl

/-- The state after rounding is close to the tableau of any column that the first column is close to. -/
theorem rombF_near {fn : ℝ → ℝ} {a b : ℝ} {t : ℕ → SumTree} {T : ℕ → ℝ} {m n : ℕ} {M : ℝ}
    (h : ∀ i ≤ m, Near A.u n M ((rombLoopF A fn a b t i).2 0) (T i)) {k i : ℕ} (hk : k ≤ i) (hi : i ≤ m) :
    Near A.u (n + 8 * k) (enlarge k * M) ((rombLoopF A fn a b t i).2 k) (richardson T i k) := by
  induction k generalizing i with
  | zero =>
    have := h i hi
    cases i <;> simpa [enlarge, richardson] using this
  | succ k ih =>
    obtain ⟨i, rfl⟩ : ∃ j, i = j + 1 := ⟨i - 1, by omega⟩
    have h1 := ih (i := i + 1) (by omega) hi
    have h2 := ih (i := i) (by omega) (by omega)
    have h3 := near_diff (k := k) h2 h1
    rw [rombF_state_succ]
    simp only [richardson, enlarge, mul_assoc]
    exact h3.mono (by omega)

/-- `ordsum` for given samples: `e` at the ends, `y i j` at midpoint `j` of iteration `i`. -/
noncomputable def ordsumOf (e : ℝ) (y : ℕ → ℕ → ℝ) : ℕ → ℝ
  | 0 => 1 / 2 * e
  | i + 1 => ordsumOf e y i + ∑ j ∈ Finset.range (2 ^ i), y (i + 1) j

theorem two_pow_succ_half (i : ℕ) : 2 ^ (i + 1) / 2 = 2 ^ i := by rw [pow_succ]; omega

theorem ordsum_exact (f : ℝ → ℝ) (a b : ℝ) (i : ℕ) : (rombLoop f a b i).1 = ordsumOf (f a + f b)
    (fun i j => f (a + (2 * j + 1) * ((b - a) / 2 ^ i))) i := by
  induction i with
  | zero => rfl
  | succ i ih =>
    have hstep : (rombLoop f a b (i + 1)).1 = (rombLoop f a b i).1 + difftrapn f a b (2 ^ (i + 1)) := rfl
    rw [hstep, ih, ordsumOf, difftrapn, two_pow_succ_half]
    congr 1
    refine Finset.sum_congr rfl fun j _ => ?_
    congr 1
    push_cast
    rw [pow_succ]
    field_simp
    ring

theorem ordsum_diff {e e' δ : ℝ} {y y' : ℕ → ℕ → ℝ} {m : ℕ} (he : |e - e'| ≤ 2 * δ)
    (h : ∀ i < m, ∀ j < 2 ^ i, |y (i + 1) j - y' (i + 1) j| ≤ δ) {i : ℕ} (hi : i ≤ m) :
    |ordsumOf e y i - ordsumOf e' y' i| ≤ 2 ^ i * δ := by
  induction i with
  | zero =>
    simp only [ordsumOf, ← mul_sub, abs_mul, pow_zero, one_mul]
    rw [abs_of_pos (by norm_num : (0 : ℝ) < 1 / 2)]
    linarith
  | succ i ih =>
    have h1 := ih (by omega)
    have h2 : |∑ j ∈ Finset.range (2 ^ i), y (i + 1) j - ∑ j ∈ Finset.range (2 ^ i), y' (i + 1) j| ≤ 2 ^ i * δ := by
      rw [← Finset.sum_sub_distrib]
      refine (Finset.abs_sum_le_sum_abs _ _).trans ((Finset.sum_le_sum fun j hj =>
        h i (by omega) j (Finset.mem_range.1 hj)).trans (le_of_eq ?_))
      simp
    simp only [ordsumOf]
    rw [add_sub_add_comm, pow_succ]
    refine (abs_add_le _ _).trans ?_
    linarith

theorem ordsumF_near {fn : ℝ → ℝ} {a b Y : ℝ} {t : ℕ → SumTree} {d m : ℕ}
    (ht : ∀ i < m, (t (i + 1)).leaves.Perm (List.range (2 ^ i)) ∧ (t (i + 1)).depth ≤ d)
    (hab : |fn a| ≤ Y ∧ |fn b| ≤ Y)
    (hY : ∀ i < m, ∀ j < 2 ^ i, |fn (trapPointF A a b (2 ^ (i + 1)) j)| ≤ Y) {i : ℕ} (hi : i ≤ m) :
    Near A.u (d + i + 2) (2 ^ i * Y) (rombLoopF A fn a b t i).1
      (ordsumOf (fn a + fn b) (fun i j => fn (trapPointF A a b (2 ^ i) j)) i) := by
  induction i with
  | zero =>
    have h1 := (((Near.self (A := A) (fn a)).widen hab.1).add ((Near.self (A := A) (fn b)).widen hab.2))
    have h2 := (Near.self (A := A) (1 / 2)).mul h1
    have := (h2.mono (j := d + 0 + 2) (by omega)).widen (M' := 2 ^ 0 * Y) (by
      rw [abs_of_pos (by norm_num : (0 : ℝ) < 1 / 2)]; linarith)
    exact this
  | succ i ih =>
    have h1 := ih (by omega)
    obtain ⟨hp, hd⟩ := ht i (by omega)
    have h2 := Near.tree (A := A) (k := 0) (t (i + 1)) (B := fun _ => Y)
      (Y := fun j => fn (trapPointF A a b (2 ^ (i + 1)) j)) (X := fun j => fn (trapPointF A a b (2 ^ (i + 1)) j))
      fun j hj => (Near.self _).widen (hY i (by omega) j (List.mem_range.1 (hp.mem_iff.1 hj)))
    have hr : ∀ g : ℕ → ℝ, ((t (i + 1)).leaves.map g).sum = ∑ j ∈ Finset.range (2 ^ i), g j := fun g => by
      rw [(hp.map g).sum_eq]; rfl
    rw [hr, hr] at h2
    have h3 := h1.add (h2.mono (j := d + i + 2) (by omega))
    have e : 2 ^ i * Y + ∑ j ∈ Finset.range (2 ^ i), Y = 2 ^ (i + 1) * Y := by
      rw [Finset.sum_const, Finset.card_range, nsmul_eq_mul, pow_succ]; push_cast; ring
    rw [e] at h3
    exact h3

theorem columnF_near {fn : ℝ → ℝ} {a b Y : ℝ} {t : ℕ → SumTree} {d m : ℕ}
    (ht : ∀ i < m, (t (i + 1)).leaves.Perm (List.range (2 ^ i)) ∧ (t (i + 1)).depth ≤ d)
    (hab : |fn a| ≤ Y ∧ |fn b| ≤ Y)
    (hY : ∀ i < m, ∀ j < 2 ^ i, |fn (trapPointF A a b (2 ^ (i + 1)) j)| ≤ Y) {i : ℕ} (hi : i ≤ m) :
    Near A.u (d + m + 5) (|b - a| * Y) ((rombLoopF A fn a b t i).2 0)
      ((b - a) * ordsumOf (fn a + fn b) (fun i j => fn (trapPointF A a b (2 ^ i) j)) i / 2 ^ i) := by
  have h1 := ordsumF_near ht hab hY hi
  have h2 : Near A.u 1 |b - a| (A.sub b a) (b - a) := (Near.self (A := A) (b - a)).rd
  have h3 := h2.mul h1
  cases i with
  | zero =>
    have := (h3.mono (j := d + m + 5) (by omega))
    simp only [pow_zero, one_mul, div_one] at this ⊢
    exact this
  | succ i =>
    have h4 := (h3.div (((2 ^ (i + 1) : ℕ) : ℝ))).mono (j := d + m + 5) (by omega)
    have hp : (0 : ℝ) < 2 ^ (i + 1) := by positivity
    push_cast at h4
    rw [abs_of_pos hp] at h4
    have e : |b - a| * (2 ^ (i + 1) * Y) / 2 ^ (i + 1) = |b - a| * Y := by field_simp
    rw [e] at h4
    have e2 : (rombLoopF A fn a b t (i + 1)).2 0
        = A.div (A.mul (A.sub b a) (rombLoopF A fn a b t (i + 1)).1) (2 ^ (i + 1)) := by
      change A.div _ ((2 ^ (i + 1) : ℕ) : ℝ) = _
      push_cast
      rfl
    rw [e2]
    exact h4

/-- C157: without rounding `rombF` is `romb`. -/
theorem C157_exact (f : ℝ → ℝ) (a b : ℝ) (m : ℕ) {t : ℕ → SumTree}
    (ht : ∀ i < m, (t (i + 1)).leaves.Perm (List.range (2 ^ i))) : rombF exactArith f a b m t = romb f a b m := by
  have hsum : ∀ (s : SumTree) (y : ℕ → ℝ), s.sum exactArith y = (s.leaves.map y).sum := fun s y => by
    induction s with
    | leaf i => simp [SumTree.sum, SumTree.leaves]
    | node l r hl hr =>
      simp only [SumTree.sum, SumTree.leaves, List.map_append, List.sum_append, ← hl, ← hr]
      rfl
  have hloop : ∀ i ≤ m, rombLoopF exactArith f a b t i = rombLoop f a b i := fun i hi => by
    induction i with
    | zero => rfl
    | succ i ih =>
      have h1 := ih (by omega)
      have h2 : difftrapnF exactArith f a b (2 ^ (i + 1)) (t (i + 1)) = difftrapn f a b (2 ^ (i + 1)) := by
        rw [difftrapnF, hsum, ((ht i (by omega)).map _).sum_eq, difftrapn, two_pow_succ_half]
        change ∑ j ∈ Finset.range (2 ^ i), _ = _
        refine Finset.sum_congr rfl fun j _ => ?_
        simp only [trapPointF, two_pow_succ_half, Rounding.add, Rounding.mul, Rounding.sub, Rounding.div, exactArith,
          id, one_mul]
      simp only [rombLoopF, rombLoop, h1, h2]
      rfl
  unfold rombF romb
  split_ifs
  · rfl
  · rw [hloop m le_rfl]

/-- Node `j` of iteration `i`: the midpoint of panel `j` of the `2 ^ (i - 1)` panels before. -/
noncomputable def rombNode (a b : ℝ) (i j : ℕ) : ℝ := a + (2 * j + 1) * ((b - a) / 2 ^ i)

theorem column_exact (f : ℝ → ℝ) (a b : ℝ) (i : ℕ) :
    trapezoid f a b (2 ^ i) = (b - a) * ordsumOf (f a + f b) (fun i j => f (rombNode a b i j)) i / 2 ^ i := by
  have h := ordsum_exact f a b i
  rw [romb_ordsum] at h
  rw [show (fun i j => f (rombNode a b i j)) = fun i (j : ℕ) => f (a + (2 * j + 1) * ((b - a) / 2 ^ i)) from rfl,
    ← h, trapezoid]
  push_cast
  ring

/-- C157: `B` bounds the integrand at the nodes, `η` the error with which it is computed there, rounding of the nodes
included; whatever the order of summation, `romb` is within `2 |b - a| (η + ((1 + u) ^ (d + 9 m + 5) - 1) (B + η))`
of the Romberg value in exact arithmetic, `d` being the largest depth of a sum. -/
theorem C157_rounding {f fn : ℝ → ℝ} {a b B η : ℝ} {m d : ℕ} (hm : 1 ≤ m) {t : ℕ → SumTree}
    (ht : ∀ i < m, (t (i + 1)).leaves.Perm (List.range (2 ^ i)) ∧ (t (i + 1)).depth ≤ d)
    (hends : |fn a - f a| ≤ η ∧ |fn b - f b| ≤ η)
    (hη : ∀ i < m, ∀ j < 2 ^ i, |fn (trapPointF A a b (2 ^ (i + 1)) j) - f (rombNode a b (i + 1) j)| ≤ η)
    (hBends : |f a| ≤ B ∧ |f b| ≤ B) (hB : ∀ i < m, ∀ j < 2 ^ i, |f (rombNode a b (i + 1) j)| ≤ B) :
    ∃ r v, rombF A fn a b m t = .ok r ∧ romb f a b m = .ok v ∧
      |r - v| ≤ 2 * |b - a| * (η + ((1 + A.u) ^ (d + 9 * m + 5) - 1) * (B + η)) := by
  refine ⟨_, _, by rw [rombF, if_neg (by omega)], C24_tableau f a b m hm, ?_⟩
  have hle : ∀ {x y : ℝ}, |x - y| ≤ η → |y| ≤ B → |x| ≤ B + η := fun {x y} h1 h2 => by
    have := abs_sub_abs_le_abs_sub x y; linarith
  have h1 := rombF_near (A := A) (k := m) (i := m) (fun i hi => columnF_near ht
    ⟨hle hends.1 hBends.1, hle hends.2 hBends.2⟩ (fun i hi j hj => hle (hη i hi j hj) (hB i hi j hj)) hi) le_rfl le_rfl
  have h2 : ∀ i ≤ m, |(b - a) * ordsumOf (fn a + fn b) (fun i j => fn (trapPointF A a b (2 ^ i) j)) i / 2 ^ i
      - trapezoid f a b (2 ^ i)| ≤ |b - a| * η := fun i hi => by
    have h3 := ordsum_diff (e := fn a + fn b) (e' := f a + f b) (δ := η)
      (y := fun i j => fn (trapPointF A a b (2 ^ i) j)) (y' := fun i j => f (rombNode a b i j)) (m := m) (by
        rw [add_sub_add_comm]; exact (abs_add_le _ _).trans (by linarith [hends.1, hends.2])) hη hi
    have hp : (0 : ℝ) < 2 ^ i := by positivity
    rw [column_exact, ← sub_div, ← mul_sub, abs_div, abs_mul, abs_of_pos hp, div_le_iff₀ hp]
    calc _ ≤ |b - a| * (2 ^ i * η) := mul_le_mul_of_nonneg_left h3 (abs_nonneg _)
      _ = _ := by ring
  have h4 := richardson_diff h2 (k := m) (i := m) le_rfl le_rfl
  rw [romberg_richardson]
  have hη0 : 0 ≤ η := (abs_nonneg _).trans hends.1
  have hB0 : 0 ≤ B := (abs_nonneg _).trans hBends.1
  have hg : 0 ≤ (1 + A.u) ^ (d + 9 * m + 5) - 1 := by linarith [one_le_growth (A := A) (d + 9 * m + 5)]
  have he := enlarge_le_two m
  have hab := abs_nonneg (b - a)
  have h5 := (h1.mono (j := d + 9 * m + 5) (by omega)).1
  have h6 : ((1 + A.u) ^ (d + 9 * m + 5) - 1) * (enlarge m * (|b - a| * (B + η)))
      ≤ ((1 + A.u) ^ (d + 9 * m + 5) - 1) * (2 * (|b - a| * (B + η))) :=
    mul_le_mul_of_nonneg_left (mul_le_mul_of_nonneg_right he (by positivity)) hg
  have h7 : enlarge m * (|b - a| * η) ≤ 2 * (|b - a| * η) := mul_le_mul_of_nonneg_right he (by positivity)
  calc _ ≤ _ := abs_sub_le _ _ _
    _ ≤ ((1 + A.u) ^ (d + 9 * m + 5) - 1) * (2 * (|b - a| * (B + η))) + 2 * (|b - a| * η) :=
        add_le_add (h5.trans h6) (h4.trans h7)
    _ = _ := by ring

theorem sample_le_trapezoid {f : ℝ → ℝ} {a b : ℝ} (hab : a < b) (hf : ∀ x, a ≤ x → x ≤ b → 0 ≤ f x) (m : ℕ) :
    (f a ≤ 2 ^ (m + 1) / (b - a) * trapezoid f a b (2 ^ m)) ∧ (f b ≤ 2 ^ (m + 1) / (b - a) * trapezoid f a b (2 ^ m)) ∧
    ∀ i < m, ∀ j < 2 ^ i, f (rombNode a b (i + 1) j) ≤ 2 ^ (m + 1) / (b - a) * trapezoid f a b (2 ^ m) := by
  have hp : (0 : ℝ) < 2 ^ m := by positivity
  have hba : 0 < b - a := by linarith
  set S := ∑ j ∈ Finset.Ico 1 (2 ^ m : ℕ), f (a + (j : ℝ) * ((b - a) / ((2 ^ m : ℕ) : ℝ))) with hS
  have e : 2 ^ (m + 1) / (b - a) * trapezoid f a b (2 ^ m) = f a + f b + 2 * S := by
    rw [trapezoid, ← hS]; push_cast; rw [pow_succ]; field_simp
  have hmem : ∀ j ∈ Finset.Ico 1 (2 ^ m : ℕ), 0 ≤ f (a + (j : ℝ) * ((b - a) / ((2 ^ m : ℕ) : ℝ))) := fun j hj => by
    obtain ⟨-, h2⟩ := Finset.mem_Ico.1 hj
    have h3 : (j : ℝ) ≤ 2 ^ m := by exact_mod_cast h2.le
    have h4 : (j : ℝ) * ((b - a) / 2 ^ m) ≤ b - a := by
      rw [mul_div_assoc', div_le_iff₀ hp]; nlinarith
    push_cast
    exact hf _ (by have : 0 ≤ (j : ℝ) * ((b - a) / 2 ^ m) := by positivity
                   linarith) (by linarith)
  have hS0 : 0 ≤ S := Finset.sum_nonneg hmem
  have h1 := hf a le_rfl hab.le
  have h2 := hf b hab.le le_rfl
  rw [e]
  refine ⟨by linarith, by linarith, fun i hi j hj => ?_⟩
  have hJ : (2 * j + 1) * 2 ^ (m - (i + 1)) ∈ Finset.Ico 1 (2 ^ m) := by
    have hpos : 0 < 2 ^ (m - (i + 1)) := by positivity
    refine Finset.mem_Ico.2 ⟨Nat.mul_pos (by omega) hpos, ?_⟩
    calc (2 * j + 1) * 2 ^ (m - (i + 1)) < 2 ^ (i + 1) * 2 ^ (m - (i + 1)) :=
          Nat.mul_lt_mul_of_pos_right (by rw [pow_succ]; omega) hpos
      _ = 2 ^ m := by rw [← pow_add]; congr 1; omega
  have h3 := Finset.single_le_sum hmem hJ
  have e2 : rombNode a b (i + 1) j
      = a + (((2 * j + 1) * 2 ^ (m - (i + 1)) : ℕ) : ℝ) * ((b - a) / ((2 ^ m : ℕ) : ℝ)) := by
    rw [rombNode]
    push_cast
    have : (2 : ℝ) ^ m = 2 ^ (i + 1) * 2 ^ (m - (i + 1)) := by rw [← pow_add]; congr 1; omega
    rw [this]
    field_simp
  rw [e2]
  linarith

/-- C157: the Romberg value of an integrand that is nowhere negative stays positive after rounding, so that dividing by
it is safe: `f` takes at the nodes the values computed there. -/
theorem C157_positive {f fn : ℝ → ℝ} {a b : ℝ} {m d : ℕ} (hm : 1 ≤ m) (hab : a < b) {t : ℕ → SumTree}
    (ht : ∀ i < m, (t (i + 1)).leaves.Perm (List.range (2 ^ i)) ∧ (t (i + 1)).depth ≤ d)
    (hends : fn a = f a ∧ fn b = f b)
    (hn : ∀ i < m, ∀ j < 2 ^ i, fn (trapPointF A a b (2 ^ (i + 1)) j) = f (rombNode a b (i + 1) j))
    (hf : ∀ x, a ≤ x → x ≤ b → 0 ≤ f x) (hT : 0 < trapezoid f a b (2 ^ m))
    (hu : 2 ^ (m + 2) * ((1 + A.u) ^ (d + 9 * m + 5) - 1) < 1 / 3) :
    ∃ r, rombF A fn a b m t = .ok r ∧ 0 < r := by
  obtain ⟨s1, s2, s3⟩ := sample_le_trapezoid hab hf m
  set Y := 2 ^ (m + 1) / (b - a) * trapezoid f a b (2 ^ m) with hY
  have hin : ∀ i < m, ∀ j < 2 ^ i, a ≤ rombNode a b (i + 1) j ∧ rombNode a b (i + 1) j ≤ b := fun i _ j hj => by
    have hba : 0 < b - a := by linarith
    have hp : (0 : ℝ) < 2 ^ (i + 1) := by positivity
    have h3 : (2 * j + 1 : ℝ) ≤ 2 ^ (i + 1) := by
      have : 2 * j + 1 ≤ 2 ^ (i + 1) := by rw [pow_succ]; omega
      exact_mod_cast this
    have h4 : (2 * j + 1 : ℝ) * ((b - a) / 2 ^ (i + 1)) ≤ b - a := by
      rw [mul_div_assoc', div_le_iff₀ hp]; nlinarith
    have h5 : 0 ≤ (2 * j + 1 : ℝ) * ((b - a) / 2 ^ (i + 1)) := by positivity
    rw [rombNode]
    constructor <;> linarith
  obtain ⟨r, v, hr, hv, h⟩ := C157_rounding (A := A) (f := f) (fn := fn) (a := a) (b := b) (B := Y) (η := 0) hm ht
    (by simp [hends.1, hends.2]) (fun i hi j hj => by rw [hn i hi j hj]; simp)
    ⟨by rw [abs_of_nonneg (hf a le_rfl hab.le)]; exact s1, by rw [abs_of_nonneg (hf b hab.le le_rfl)]; exact s2⟩
    (fun i hi j hj => by
      rw [abs_of_nonneg (hf _ (hin i hi j hj).1 (hin i hi j hj).2)]; exact s3 i hi j hj)
  refine ⟨r, hr, ?_⟩
  rw [C24_tableau f a b m hm, Except.ok.injEq] at hv
  have h1 := romberg_lower hab.le hf m
  rw [hv] at h1
  have hba : 0 < b - a := by linarith
  have e : 2 * |b - a| * (0 + ((1 + A.u) ^ (d + 9 * m + 5) - 1) * (Y + 0))
      = 2 ^ (m + 2) * ((1 + A.u) ^ (d + 9 * m + 5) - 1) * trapezoid f a b (2 ^ m) := by
    rw [abs_of_pos hba, hY, pow_succ 2 (m + 1)]
    field_simp
    ring
  rw [e] at h
  have h2 := mul_lt_mul_of_pos_right hu hT
  have h3 := (abs_le.1 h).1
  linarith

/-! ### The nodes are different numbers -/

theorem odd_two_pow {a b i j : ℕ} (h : (2 * a + 1) * 2 ^ i = (2 * b + 1) * 2 ^ j) : i = j ∧ a = b := by
  have key : ∀ {a b i j : ℕ}, i ≤ j → (2 * a + 1) * 2 ^ i = (2 * b + 1) * 2 ^ j → i = j ∧ a = b := by
    intro a b i j hij h
    obtain ⟨k, rfl⟩ := Nat.exists_eq_add_of_le hij
    rw [pow_add, mul_comm (2 ^ i), ← mul_assoc] at h
    have h1 := Nat.eq_of_mul_eq_mul_right (by positivity) h
    cases k with
    | zero => omega
    | succ k =>
      rw [pow_succ, ← mul_assoc] at h1
      omega
  rcases le_total i j with hij | hij
  · exact key hij h
  · obtain ⟨h1, h2⟩ := key hij h.symm
    exact ⟨h1.symm, h2.symm⟩

theorem rombNode_inj {a b : ℝ} (hab : a < b) {i j i' j' : ℕ} (h : rombNode a b i j = rombNode a b i' j') :
    i = i' ∧ j = j' := by
  have hba : b - a ≠ 0 := by linarith
  have h1 : (2 * j + 1 : ℝ) * 2 ^ i' = (2 * j' + 1) * 2 ^ i := by
    unfold rombNode at h
    have h2 := add_left_cancel h
    field_simp at h2
    linarith
  have h2 : (2 * j + 1) * 2 ^ i' = (2 * j' + 1) * 2 ^ i := by exact_mod_cast h1
  obtain ⟨h3, h4⟩ := odd_two_pow h2
  exact ⟨h3.symm, h4⟩

theorem rombNode_mem {a b : ℝ} (hab : a < b) {i j : ℕ} (hj : j < 2 ^ i) :
    a < rombNode a b (i + 1) j ∧ rombNode a b (i + 1) j < b := by
  have hba : 0 < b - a := by linarith
  have hp : (0 : ℝ) < 2 ^ (i + 1) := by positivity
  have h3 : (2 * j + 1 : ℝ) < 2 ^ (i + 1) := by
    have : 2 * j + 1 < 2 ^ (i + 1) := by rw [pow_succ]; omega
    exact_mod_cast this
  have h4 : (2 * j + 1 : ℝ) * ((b - a) / 2 ^ (i + 1)) < b - a := by
    rw [mul_div_assoc', div_lt_iff₀ hp]; nlinarith
  have h5 : 0 < (2 * j + 1 : ℝ) * ((b - a) / 2 ^ (i + 1)) := by positivity
  rw [rombNode]
  constructor <;> linarith

/-- C157: the Romberg value of samples that are nowhere negative stays positive after rounding. -/
theorem C157_safe {fn : ℝ → ℝ} {a b : ℝ} {m d : ℕ} (hm : 1 ≤ m) (hab : a < b) {t : ℕ → SumTree}
    (ht : ∀ i < m, (t (i + 1)).leaves.Perm (List.range (2 ^ i)) ∧ (t (i + 1)).depth ≤ d)
    (hfn : ∀ x, 0 ≤ fn x) (ha : 0 < fn a)
    (hu : 2 ^ (m + 2) * ((1 + A.u) ^ (d + 9 * m + 5) - 1) < 1 / 3) :
    ∃ r, rombF A fn a b m t = .ok r ∧ 0 < r := by
  classical
  -- a function with these samples at the exact nodes
  set nd : {q : ℕ × ℕ // q.2 < 2 ^ q.1} → ℝ := fun q => rombNode a b (q.1.1 + 1) q.1.2 with hnd
  have hinj : Function.Injective nd := fun q q' h => by
    obtain ⟨h1, h2⟩ := rombNode_inj hab h
    exact Subtype.ext (Prod.ext (by omega) h2)
  set g : ℝ → ℝ := Function.extend nd (fun q => fn (trapPointF A a b (2 ^ (q.1.1 + 1)) q.1.2)) 0 with hg
  set f : ℝ → ℝ := fun x => if x = a then fn a else if x = b then fn b else g x with hf
  have hg0 : ∀ x, 0 ≤ g x := fun x => by
    by_cases h : ∃ q, nd q = x
    · obtain ⟨q, rfl⟩ := h
      rw [hg, hinj.extend_apply]
      exact hfn _
    · rw [hg, Function.extend_apply' _ _ _ h]
      exact le_rfl
  have hf0 : ∀ x, 0 ≤ f x := fun x => by
    simp only [hf]
    split_ifs
    exacts [hfn _, hfn _, hg0 _]
  have fa : f a = fn a := by simp [hf]
  refine C157_positive (f := f) hm hab ht ⟨fa.symm, by simp [hf, hab.ne']⟩ (fun i hi j hj => ?_)
    (fun x _ _ => hf0 x) ?_ hu
  · obtain ⟨h1, h2⟩ := rombNode_mem hab hj
    simp only [hf]
    rw [if_neg h1.ne', if_neg h2.ne, hg]
    exact (hinj.extend_apply (fun q => fn (trapPointF A a b (2 ^ (q.1.1 + 1)) q.1.2)) 0
      (⟨(i, j), hj⟩ : {q : ℕ × ℕ // q.2 < 2 ^ q.1})).symm
  · have h1 := (sample_le_trapezoid hab (fun x _ _ => hf0 x) m).1
    rw [fa] at h1
    have hba : 0 < b - a := by linarith
    exact (mul_pos_iff_of_pos_left (by positivity)).1 (lt_of_lt_of_le ha h1)

/-- Adding `2 ^ n` consecutive entries pairwise. -/
def pairwise : ℕ → ℕ → SumTree
  | 0, i => .leaf i
  | n + 1, i => .node (pairwise n i) (pairwise n (i + 2 ^ n))

theorem pairwise_leaves (n i : ℕ) : (pairwise n i).leaves = List.range' i (2 ^ n) := by
  induction n generalizing i with
  | zero => simp [pairwise, SumTree.leaves]
  | succ n ih => 
    rw [pairwise, SumTree.leaves, ih, ih, List.range'_append_1, pow_succ, mul_two]

theorem pairwise_depth (n i : ℕ) : (pairwise n i).depth = n := by
  induction n generalizing i with
  | zero => rfl
  | succ n ih => simp [pairwise, SumTree.depth, ih]

theorem pairwise_ok (m : ℕ) : ∀ i < m, (pairwise (i + 1 - 1) 0).leaves.Perm (List.range (2 ^ i)) ∧
    (pairwise (i + 1 - 1) 0).depth ≤ m - 1 := fun i hi => by
  rw [pairwise_leaves, pairwise_depth, Nat.add_sub_cancel, ← List.range_eq_range']
  exact ⟨List.Perm.refl _, by omega⟩

/-- C157 with the settings of `sigmasqr` in single precision, sums taken pairwise: an integrand that is computed
exactly is integrated to `10⁻⁵` of its largest value times the length of the interval. -/
example {f fn : ℝ → ℝ} {a b B : ℝ} (hends : fn a = f a ∧ fn b = f b)
    (hn : ∀ i < 7, ∀ j < 2 ^ i, fn (trapPointF float32 a b (2 ^ (i + 1)) j) = f (rombNode a b (i + 1) j))
    (hB : ∀ x, |f x| ≤ B) : ∃ r v, rombF float32 fn a b 7 (fun i => pairwise (i - 1) 0) = .ok r ∧
      romb f a b 7 = .ok v ∧ |r - v| ≤ |b - a| * B / 10 ^ 5 := by
  obtain ⟨r, v, hr, hv, h⟩ := C157_rounding (A := float32) (f := f) (fn := fn) (a := a) (b := b) (B := B) (η := 0)
    (m := 7) (d := 6) (by norm_num) (t := fun i => pairwise (i - 1) 0) (pairwise_ok 7) (by simp [hends.1, hends.2])
    (fun i hi j hj => by rw [hn i hi j hj]; simp) ⟨hB _, hB _⟩ (fun i _ j _ => hB _)
  refine ⟨r, v, hr, hv, h.trans ?_⟩
  have hu : ((1 + float32.u) ^ (6 + 9 * 7 + 5) - 1) ≤ 1 / (2 * 10 ^ 5) := by norm_num [float32, binary]
  have hB0 : 0 ≤ B := (abs_nonneg _).trans (hB a)
  have h0 : 0 ≤ |b - a| * B := by positivity
  nlinarith [mul_le_mul_of_nonneg_left hu h0]

/-- C157: samples of a square over `[-4, 3]`. -/
example : ∃ r, rombF float32 (fun x => x ^ 2) (-4) 3 7 (fun i => pairwise (i - 1) 0) = .ok r ∧ 0 < r :=
  C157_safe (d := 6) (by norm_num) (by norm_num) (pairwise_ok 7) (fun x => sq_nonneg x) (by norm_num)
    (by norm_num [float32, binary])

/-- C157: the constant 1 over `[0, 1]`. -/
example : ∃ r, rombF float32 (fun _ => 1) 0 1 7 (fun i => pairwise (i - 1) 0) = .ok r ∧ 0 < r := by
  refine C157_positive (f := fun _ => 1) (d := 6) (by norm_num) zero_lt_one (pairwise_ok 7) ⟨rfl, rfl⟩
    (fun _ _ _ _ => rfl) (fun _ _ _ => zero_le_one) ?_ ?_
  · simp [trapezoid]; positivity
  · norm_num [float32, binary]

end JaxCosmo
