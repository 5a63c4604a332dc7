import Verif.Model.Float
import Mathlib.Algebra.Order.Field.Power
import Mathlib.Tactic.Linarith
import Mathlib.Tactic.Positivity
import Mathlib.Tactic.Ring
import Mathlib.Tactic.FieldSimp
import Mathlib.Tactic.NormNum

/-! # Rounding to nearest -/

namespace JaxCosmo

theorem roundEven_err (x : ℝ) : |(roundEven x : ℝ) - x| ≤ 1 / 2 := by
  have h0 := Int.fract_nonneg x
  have h1 := Int.fract_lt_one x
  have h2 := Int.floor_add_fract x
  unfold roundEven
  rw [abs_le]
  split_ifs <;> push_cast <;> constructor <;> linarith

theorem floor_le_roundEven (x : ℝ) : ⌊x⌋ ≤ roundEven x := by
  unfold roundEven; split_ifs <;> omega

theorem roundEven_le_floor (x : ℝ) : roundEven x ≤ ⌊x⌋ + 1 := by
  unfold roundEven; split_ifs <;> omega

theorem roundEven_int (n : ℤ) : roundEven (n : ℝ) = n := by
  unfold roundEven
  rw [Int.fract_intCast, if_pos (by norm_num), Int.floor_intCast]

theorem roundEven_mono : Monotone roundEven := by
  intro x y h
  rcases (Int.floor_mono h).lt_or_eq with hl | he
  · have := roundEven_le_floor x
    have := floor_le_roundEven y
    omega
  · have hf : Int.fract x ≤ Int.fract y := by
      have h1 := Int.floor_add_fract x
      have h2 := Int.floor_add_fract y
      rw [he] at h1
      linarith
    unfold roundEven
    rw [he]
    split_ifs <;> first | omega | linarith

/-- The scale of the last digit is constant on a binade. -/
theorem roundBinary_lt {p : ℕ} (hp : 1 ≤ p) {x : ℝ} (hx : 0 < |x|) :
    (2 : ℝ) ^ (p - 1) ≤ |x| * (2 : ℝ) ^ ((p : ℤ) - 1 - Int.log 2 |x|) ∧
      |x| * (2 : ℝ) ^ ((p : ℤ) - 1 - Int.log 2 |x|) < 2 ^ p := by
  have h1 := Int.zpow_log_le_self (b := 2) (by norm_num) hx
  have h2 := Int.lt_zpow_succ_log_self (b := 2) (by norm_num) |x|
  push_cast at h1 h2
  set e := Int.log 2 |x|
  have hs : (0 : ℝ) < 2 ^ ((p : ℤ) - 1 - e) := by positivity
  have e1 : (2 : ℝ) ^ (p - 1) = 2 ^ e * 2 ^ ((p : ℤ) - 1 - e) := by
    rw [← zpow_add₀ (by norm_num), ← zpow_natCast]; congr 1; omega
  have e2 : (2 : ℝ) ^ p = 2 ^ (e + 1) * 2 ^ ((p : ℤ) - 1 - e) := by
    rw [← zpow_add₀ (by norm_num), ← zpow_natCast]; congr 1; omega
  rw [e1, e2]
  exact ⟨mul_le_mul_of_nonneg_right h1 hs.le, mul_lt_mul_of_pos_right h2 hs⟩

theorem roundBinary_zero (p : ℕ) : roundBinary p 0 = 0 := by
  have := roundEven_int 0
  rw [Int.cast_zero] at this
  simp [roundBinary, this]

theorem roundBinary_err {p : ℕ} (hp : 1 ≤ p) (x : ℝ) : |roundBinary p x - x| ≤ 1 / 2 ^ p * |x| := by
  rcases eq_or_ne x 0 with rfl | hx
  · simp [roundBinary_zero]
  have hx' : 0 < |x| := abs_pos.2 hx
  obtain ⟨h1, -⟩ := roundBinary_lt hp hx'
  simp only [roundBinary]
  set s := (2 : ℝ) ^ ((p : ℤ) - 1 - Int.log 2 |x|)
  have hs : 0 < s := by positivity
  have h2 := roundEven_err (x * s)
  have e : (roundEven (x * s) : ℝ) / s - x = (roundEven (x * s) - x * s) / s := by
    field_simp
  rw [e, abs_div, abs_of_pos hs, div_le_iff₀ hs]
  refine h2.trans ?_
  have hp2 : (2 : ℝ) ^ p = 2 * 2 ^ (p - 1) := by rw [← pow_succ']; congr 1; omega
  rw [hp2, mul_assoc, div_mul_eq_mul_div, le_div_iff₀ (by positivity)]
  linarith

/-- Rounding keeps a bound by a power of two from above. -/
theorem roundBinary_le {p : ℕ} {x : ℝ} {e : ℤ} (he : e = Int.log 2 |x|) {m : ℤ}
    (h : x * (2 : ℝ) ^ ((p : ℤ) - 1 - e) ≤ m) :
    roundBinary p x ≤ m / (2 : ℝ) ^ ((p : ℤ) - 1 - e) := by
  simp only [roundBinary, ← he]
  refine div_le_div_of_nonneg_right ?_ (by positivity)
  have := roundEven_mono h
  rw [roundEven_int] at this
  exact_mod_cast this

theorem le_roundBinary {p : ℕ} {x : ℝ} {e : ℤ} (he : e = Int.log 2 |x|) {m : ℤ}
    (h : (m : ℝ) ≤ x * (2 : ℝ) ^ ((p : ℤ) - 1 - e)) :
    m / (2 : ℝ) ^ ((p : ℤ) - 1 - e) ≤ roundBinary p x := by
  simp only [roundBinary, ← he]
  refine div_le_div_of_nonneg_right ?_ (by positivity)
  have := roundEven_mono h
  rw [roundEven_int] at this
  exact_mod_cast this

theorem two_pow_div {p : ℕ} (q : ℕ) (e : ℤ) :
    ((2 ^ q : ℤ) : ℝ) / (2 : ℝ) ^ ((p : ℤ) - 1 - e) = 2 ^ ((q : ℤ) - p + 1 + e) := by
  push_cast
  rw [← zpow_natCast, ← zpow_sub₀ (by norm_num)]
  congr 1; ring

theorem roundBinary_pos_bounds {p : ℕ} (hp : 1 ≤ p) {x : ℝ} (hx : 0 < x) :
    (2 : ℝ) ^ Int.log 2 |x| ≤ roundBinary p x ∧ roundBinary p x ≤ 2 ^ (Int.log 2 |x| + 1) := by
  obtain ⟨h1, h2⟩ := roundBinary_lt hp (abs_pos.2 hx.ne')
  rw [abs_of_pos hx] at h1 h2
  constructor
  · have := le_roundBinary (p := p) (x := x) (e := Int.log 2 |x|) rfl (m := 2 ^ (p - 1))
      (by push_cast; rwa [abs_of_pos hx])
    rw [two_pow_div] at this
    refine le_trans (le_of_eq ?_) this
    congr 1; omega
  · have := roundBinary_le (p := p) (x := x) (e := Int.log 2 |x|) rfl (m := 2 ^ p)
      (by push_cast; rw [abs_of_pos hx]; exact h2.le)
    rw [two_pow_div] at this
    refine this.trans (le_of_eq ?_)
    congr 1; omega

theorem roundBinary_neg_bounds {p : ℕ} (hp : 1 ≤ p) {x : ℝ} (hx : x < 0) :
    -(2 : ℝ) ^ (Int.log 2 |x| + 1) ≤ roundBinary p x ∧ roundBinary p x ≤ -2 ^ (Int.log 2 |x|) := by
  obtain ⟨h1, h2⟩ := roundBinary_lt hp (abs_pos.2 hx.ne)
  rw [abs_of_neg hx] at h1 h2
  constructor
  · have := le_roundBinary (p := p) (x := x) (e := Int.log 2 |x|) rfl (m := -2 ^ p)
      (by push_cast; rw [abs_of_neg hx]; linarith)
    rw [Int.cast_neg, neg_div, two_pow_div] at this
    refine le_trans (le_of_eq ?_) this
    congr 2; omega
  · have := roundBinary_le (p := p) (x := x) (e := Int.log 2 |x|) rfl (m := -2 ^ (p - 1))
      (by push_cast; rw [abs_of_neg hx]; linarith)
    rw [Int.cast_neg, neg_div, two_pow_div] at this
    refine this.trans (le_of_eq ?_)
    congr 2; omega

theorem roundBinary_mono {p : ℕ} (hp : 1 ≤ p) : Monotone (roundBinary p) := by
  intro x y h
  have hsame : Int.log 2 |x| = Int.log 2 |y| → roundBinary p x ≤ roundBinary p y := fun he => by
    simp only [roundBinary, he]
    refine div_le_div_of_nonneg_right ?_ (by positivity)
    exact_mod_cast roundEven_mono (mul_le_mul_of_nonneg_right h (by positivity))
  have hpos : ∀ {z : ℝ}, 0 ≤ z → 0 ≤ roundBinary p z := fun {z} hz => by
    rcases hz.eq_or_lt with rfl | hz
    · rw [roundBinary_zero]
    · exact le_trans (by positivity) (roundBinary_pos_bounds hp hz).1
  have hneg : ∀ {z : ℝ}, z ≤ 0 → roundBinary p z ≤ 0 := fun {z} hz => by
    rcases hz.eq_or_lt with rfl | hz
    · rw [roundBinary_zero]
    · refine (roundBinary_neg_bounds hp hz).2.trans ?_
      have : (0 : ℝ) < 2 ^ Int.log 2 |z| := by positivity
      linarith
  rcases le_or_gt x 0 with hx | hx
  · rcases le_or_gt 0 y with hy | hy
    · exact (hneg hx).trans (hpos hy)
    · have hx : x < 0 := h.trans_lt hy
      by_cases he : Int.log 2 |x| = Int.log 2 |y|
      · exact hsame he
      have hle : Int.log 2 |y| ≤ Int.log 2 |x| :=
        Int.log_mono_right (abs_pos.2 hy.ne) (by rw [abs_of_neg hx, abs_of_neg hy]; linarith)
      refine (roundBinary_neg_bounds hp hx).2.trans (le_trans ?_ (roundBinary_neg_bounds hp hy).1)
      exact neg_le_neg (zpow_le_zpow_right₀ (by norm_num) (by omega))
  · have hy : 0 < y := hx.trans_le h
    by_cases he : Int.log 2 |x| = Int.log 2 |y|
    · exact hsame he
    have hle : Int.log 2 |x| ≤ Int.log 2 |y| :=
      Int.log_mono_right (abs_pos.2 hx.ne') (by rw [abs_of_pos hx, abs_of_pos hy]; exact h)
    refine (roundBinary_pos_bounds hp hx).2.trans (le_trans ?_ (roundBinary_pos_bounds hp hy).1)
    exact zpow_le_zpow_right₀ (by norm_num) (by omega)

theorem roundBinary_one {p : ℕ} (hp : 1 ≤ p) : roundBinary p 1 = 1 := by
  have h : Int.log 2 |(1 : ℝ)| = 0 := by simp
  have e : (1 : ℝ) * 2 ^ ((p : ℤ) - 1 - 0) = ((2 ^ (p - 1) : ℤ) : ℝ) := by
    push_cast
    rw [one_mul, ← zpow_natCast]; congr 1; omega
  simp only [roundBinary, h]
  rw [e, roundEven_int, ← e, one_mul, div_self (by positivity)]

/-- Rounding to `p ≥ 3` binary digits. -/
noncomputable def binary (p : ℕ) (hp : 3 ≤ p) : Rounding where
  rd := roundBinary p
  u := 1 / 2 ^ p
  u_nonneg := by positivity
  u_le := by
    have : (2 : ℝ) ^ 3 ≤ 2 ^ p := pow_le_pow_right₀ (by norm_num) hp
    rw [div_le_div_iff₀ (by positivity) (by norm_num)]
    linarith
  err := roundBinary_err (by omega)
  mono := roundBinary_mono (by omega)
  one := roundBinary_one (by omega)

/-- binary32 -/
noncomputable def float32 : Rounding := binary 24 (by norm_num)

/-! ### Propagation of rounding errors -/

/-- `y` is `x` after at most `k` roundings of quantities no larger than `M`. -/
def Near (u : ℝ) (k : ℕ) (M y x : ℝ) : Prop := |y - x| ≤ ((1 + u) ^ k - 1) * M ∧ |x| ≤ M

variable {A : Rounding} {k j : ℕ} {M M' x y x' y' : ℝ}

theorem Rounding.zero : A.rd 0 = 0 := by
  have := A.err 0
  rw [abs_zero, mul_zero, sub_zero] at this
  exact abs_nonpos_iff.1 this

theorem Rounding.nonneg (hx : 0 ≤ x) : 0 ≤ A.rd x := by
  rw [← A.zero]; exact A.mono hx

theorem one_le_growth (k : ℕ) : 1 ≤ (1 + A.u) ^ k := one_le_pow₀ (by linarith [A.u_nonneg])

theorem Near.self (x : ℝ) : Near A.u 0 |x| x x := by
  constructor <;> simp

theorem Near.le (h : Near A.u k M y x) : |y| ≤ (1 + A.u) ^ k * M := by
  have := abs_sub_abs_le_abs_sub y x
  linarith [h.1, h.2]

theorem Near.mono (h : Near A.u k M y x) (hkj : k ≤ j) : Near A.u j M y x := by
  refine ⟨h.1.trans (mul_le_mul_of_nonneg_right ?_ ((abs_nonneg x).trans h.2)), h.2⟩
  linarith [pow_le_pow_right₀ (by linarith [A.u_nonneg] : 1 ≤ 1 + A.u) hkj]

theorem Near.rd (h : Near A.u k M y x) : Near A.u (k + 1) M (A.rd y) x := by
  refine ⟨?_, h.2⟩
  have h1 := A.err y
  have h2 := h.le
  have h3 := mul_le_mul_of_nonneg_left h2 A.u_nonneg
  calc |A.rd y - x| ≤ |A.rd y - y| + |y - x| := abs_sub_le _ _ _
    _ ≤ A.u * ((1 + A.u) ^ k * M) + ((1 + A.u) ^ k - 1) * M := by linarith [h.1]
    _ = ((1 + A.u) ^ (k + 1) - 1) * M := by ring

theorem Near.sum (h : Near A.u k M y x) (h' : Near A.u k M' y' x') :
    Near A.u k (M + M') (y + y') (x + x') := by
  refine ⟨?_, (abs_add_le _ _).trans (add_le_add h.2 h'.2)⟩
  rw [add_sub_add_comm, mul_add]
  exact (abs_add_le _ _).trans (add_le_add h.1 h'.1)

theorem Near.neg (h : Near A.u k M y x) : Near A.u k M (-y) (-x) := by
  refine ⟨?_, by rw [abs_neg]; exact h.2⟩
  rw [← neg_sub_neg, neg_neg, neg_neg, abs_sub_comm] 
  exact h.1

theorem Near.prod (h : Near A.u k M y x) (h' : Near A.u j M' y' x') :
    Near A.u (k + j) (M * M') (y * y') (x * x') := by
  have hM := (abs_nonneg x).trans h.2
  have hM' := (abs_nonneg x').trans h'.2
  refine ⟨?_, by rw [abs_mul]; exact mul_le_mul h.2 h'.2 (abs_nonneg _) hM⟩
  have e : y * y' - x * x' = y * (y' - x') + (y - x) * x' := by ring
  rw [e]
  refine (abs_add_le _ _).trans ?_
  rw [abs_mul, abs_mul]
  have h1 := mul_le_mul h.le h'.1 (abs_nonneg _) (mul_nonneg (by linarith [one_le_growth (A := A) k]) hM)
  have h2 := mul_le_mul h.1 h'.2 (abs_nonneg _)
    (mul_nonneg (by linarith [one_le_growth (A := A) k]) hM)
  calc _ ≤ (1 + A.u) ^ k * M * (((1 + A.u) ^ j - 1) * M') + ((1 + A.u) ^ k - 1) * M * M' :=
        add_le_add h1 h2
    _ = ((1 + A.u) ^ (k + j) - 1) * (M * M') := by ring

theorem Near.quot (h : Near A.u k M y x) (c : ℝ) : Near A.u k (M / |c|) (y / c) (x / c) := by
  have := h.prod (A := A) (Near.self (A := A) c⁻¹)
  rw [abs_inv] at this
  simpa only [div_eq_mul_inv, Nat.add_zero] using this

theorem Near.add (h : Near A.u k M y x) (h' : Near A.u k M' y' x') :
    Near A.u (k + 1) (M + M') (A.add y y') (x + x') := (h.sum h').rd

theorem Near.sub (h : Near A.u k M y x) (h' : Near A.u k M' y' x') :
    Near A.u (k + 1) (M + M') (A.sub y y') (x - x') := by
  have := (h.sum h'.neg).rd
  rwa [← sub_eq_add_neg, ← sub_eq_add_neg] at this

theorem Near.mul (h : Near A.u k M y x) (h' : Near A.u j M' y' x') :
    Near A.u (k + j + 1) (M * M') (A.mul y y') (x * x') := (h.prod h').rd

theorem Near.div (h : Near A.u k M y x) (c : ℝ) :
    Near A.u (k + 1) (M / |c|) (A.div y c) (x / c) := (h.quot c).rd

/-- Summation in any order. -/
theorem Near.tree {X Y B : ℕ → ℝ} (t : SumTree) (h : ∀ i ∈ t.leaves, Near A.u k (B i) (Y i) (X i)) :
    Near A.u (k + t.depth) (t.leaves.map B).sum (t.sum A Y) (t.leaves.map X).sum := by
  induction t with
  | leaf i => simpa [SumTree.leaves, SumTree.depth, SumTree.sum] using h i (by simp [SumTree.leaves])
  | node l r hl hr =>
    simp only [SumTree.leaves, List.mem_append] at h
    have h1 := (hl fun i hi => h i (.inl hi)).mono (j := k + max l.depth r.depth) (by omega)
    have h2 := (hr fun i hi => h i (.inr hi)).mono (j := k + max l.depth r.depth) (by omega)
    have := h1.add h2
    simpa only [SumTree.leaves, SumTree.depth, SumTree.sum, List.map_append, List.sum_append,
      Nat.add_assoc] using this

end JaxCosmo
