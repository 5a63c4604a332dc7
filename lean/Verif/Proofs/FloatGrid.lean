import Verif.Props.FloatPower

/-! # Numbers that a binary format holds -/

namespace JaxCosmo

theorem binary_rd {p : ℕ} (hp : 3 ≤ p) (x : ℝ) : (binary p hp).rd x = roundBinary p x := rfl

theorem roundEven_neg (x : ℝ) : roundEven (-x) = -roundEven x := by
  by_cases hx : Int.fract x = 0
  · obtain ⟨n, rfl⟩ : ∃ n : ℤ, (n : ℝ) = x := ⟨⌊x⌋, by rw [Int.fract] at hx; linarith⟩
    rw [← Int.cast_neg, roundEven_int, roundEven_int]
  · have hf := Int.fract_neg hx
    have hfl : ⌊-x⌋ = -⌊x⌋ - 1 := by
      have h1 : Int.fract (-x) = -x - ⌊-x⌋ := rfl
      have h2 : Int.fract x = x - ⌊x⌋ := rfl
      have : ((⌊-x⌋ : ℤ) : ℝ) = ((-⌊x⌋ - 1 : ℤ) : ℝ) := by push_cast; linarith
      exact_mod_cast this
    have he : Even (-⌊x⌋ - 1) ↔ ¬ Even ⌊x⌋ := by
      rw [Int.even_sub_one, even_neg]
    unfold roundEven
    rw [hf, hfl]
    split_ifs with h1 h2 h3 h4 h5 h6 h7 <;> first | omega | (exfalso; linarith) | (exfalso; tauto)

theorem roundBinary_neg (p : ℕ) (x : ℝ) : roundBinary p (-x) = -roundBinary p x := by
  simp only [roundBinary]
  rw [abs_neg, neg_mul, roundEven_neg]
  push_cast
  ring

/-- A whole number of at most `p` digits, scaled by a power of two, is held exactly. -/
theorem roundBinary_dyadic {p : ℕ} {n : ℤ} (hn : |n| < 2 ^ p) (e : ℤ) :
    roundBinary p (n * 2 ^ e) = n * 2 ^ e := by
  rcases eq_or_ne n 0 with rfl | h0
  · simp [roundBinary_zero]
  have hx : 0 < |(n : ℝ) * 2 ^ e| := by
    have : (n : ℝ) ≠ 0 := by exact_mod_cast h0
    positivity
  have hlt : |(n : ℝ) * 2 ^ e| < 2 ^ ((p : ℤ) + e) := by
    rw [abs_mul, abs_of_pos (by positivity : (0 : ℝ) < 2 ^ e), zpow_add₀ (by norm_num), zpow_natCast]
    refine mul_lt_mul_of_pos_right ?_ (by positivity)
    exact_mod_cast hn
  have hl : Int.log 2 |(n : ℝ) * 2 ^ e| < p + e := by
    rw [← Int.lt_zpow_iff_log_lt (by norm_num) hx]; exact_mod_cast hlt
  obtain ⟨k, hk⟩ : ∃ k : ℕ, (p : ℤ) - 1 - Int.log 2 |(n : ℝ) * 2 ^ e| = k - e :=
    ⟨((p : ℤ) - 1 - Int.log 2 |(n : ℝ) * 2 ^ e| + e).toNat, by omega⟩
  simp only [roundBinary]
  rw [hk]
  have h2 : (n : ℝ) * 2 ^ e * 2 ^ ((k : ℤ) - e) = ((n * 2 ^ k : ℤ) : ℝ) := by
    push_cast
    rw [mul_assoc, ← zpow_add₀ (by norm_num), add_sub_cancel, zpow_natCast]
  rw [h2, roundEven_int, ← h2, mul_div_assoc, div_self (by positivity), mul_one]

/-- The error is at most half a unit in the last place. -/
theorem roundBinary_half (p : ℕ) (x : ℝ) : |roundBinary p x - x| ≤ 2 ^ (Int.log 2 |x| - p) := by
  have hs : (0 : ℝ) < 2 ^ ((p : ℤ) - 1 - Int.log 2 |x|) := by positivity
  have h := roundEven_err (x * 2 ^ ((p : ℤ) - 1 - Int.log 2 |x|))
  simp only [roundBinary]
  rw [← mul_le_mul_iff_left₀ hs, ← abs_of_pos hs, ← abs_mul, sub_mul, abs_of_pos hs, div_mul_cancel₀ _ hs.ne',
    ← zpow_add₀ (by norm_num)]
  refine h.trans (le_of_eq ?_)
  rw [show Int.log 2 |x| - p + (p - 1 - Int.log 2 |x|) = -1 by ring]
  norm_num

theorem log_two_one_half {x : ℝ} (h1 : 1 / 2 ≤ x) (h2 : x < 1) : Int.log 2 |x| = -1 := by
  have hx : 0 < x := by linarith
  rw [abs_of_pos hx]
  have l1 : -1 ≤ Int.log 2 x := by
    rw [← Int.zpow_le_iff_le_log (by norm_num) hx]; norm_num; linarith
  have l2 : Int.log 2 x < 0 := by
    rw [← Int.lt_zpow_iff_log_lt (by norm_num) hx]; norm_num; linarith
  omega

theorem log_two_one {x : ℝ} (h1 : 1 ≤ x) (h2 : x < 2) : Int.log 2 |x| = 0 := by
  have hx : 0 < x := by linarith
  rw [abs_of_pos hx]
  have l1 : 0 ≤ Int.log 2 x := by
    rw [← Int.zpow_le_iff_le_log (by norm_num) hx]; norm_num; linarith
  have l2 : Int.log 2 x < 1 := by
    rw [← Int.lt_zpow_iff_log_lt (by norm_num) hx]; norm_num; linarith
  omega

/-- Within a quarter of a unit of one, one rounds to one. -/
theorem roundBinary_near_one {p : ℕ} (hp : 1 ≤ p) {x : ℝ} (h : |x - 1| ≤ 1 / 2 ^ (p + 1)) : roundBinary p x = 1 := by
  obtain ⟨ha, hb⟩ := abs_le.1 h
  have h2 : (2 : ℝ) ≤ 2 ^ p := by
    calc (2 : ℝ) = 2 ^ 1 := by norm_num
      _ ≤ 2 ^ p := pow_le_pow_right₀ (by norm_num) hp
  have e4 : (1 : ℝ) / 2 ^ (p + 1) = 1 / 2 ^ p / 2 := by rw [pow_succ]; field_simp
  have hu0 : (0 : ℝ) < 1 / 2 ^ p := by positivity
  have hu : (1 : ℝ) / 2 ^ p ≤ 1 / 2 := one_div_le_one_div_of_le (by norm_num) h2
  have hpp : (1 : ℝ) / 2 ^ p * 2 ^ p = 1 := by field_simp
  apply le_antisymm
  · refine (roundBinary_mono hp (by linarith : x ≤ 1 + 1 / 2 ^ (p + 1))).trans (le_of_eq ?_)
    have hl := log_two_one (x := 1 + 1 / 2 ^ (p + 1)) (by linarith) (by linarith)
    simp only [roundBinary]
    rw [hl]
    have es : (2 : ℝ) ^ ((p : ℤ) - 1 - 0) = 2 ^ p / 2 := by
      rw [sub_zero, zpow_sub₀ (by norm_num), zpow_natCast, zpow_one]
    obtain ⟨q, rfl⟩ : ∃ q, p = q + 1 := ⟨p - 1, by omega⟩
    have : roundEven ((1 + 1 / 2 ^ (q + 1 + 1)) * 2 ^ (((q + 1 : ℕ) : ℤ) - 1 - 0)) = 2 ^ q := by
      refine roundEven_near ?_
      rw [es, e4]
      push_cast
      rw [pow_succ] at hpp ⊢
      have : (1 + 1 / (2 ^ q * 2) / 2 : ℝ) * (2 ^ q * 2 / 2) - 2 ^ q = 1 / 4 := by field_simp; ring
      rw [this]; norm_num
    rw [this, es]
    push_cast
    rw [pow_succ]
    field_simp
  · refine le_trans (le_of_eq ?_) (roundBinary_mono hp (by linarith : 1 - 1 / 2 ^ (p + 1) ≤ x))
    have hl := log_two_one_half (x := 1 - 1 / 2 ^ (p + 1)) (by linarith) (by linarith)
    simp only [roundBinary]
    rw [hl]
    have es : (2 : ℝ) ^ ((p : ℤ) - 1 - -1) = 2 ^ p := by
      rw [show (p : ℤ) - 1 - -1 = p by ring, zpow_natCast]
    have ex : (1 - 1 / 2 ^ (p + 1) : ℝ) * 2 ^ p = ((2 ^ p - 1 : ℤ) : ℝ) + 1 / 2 := by
      push_cast; rw [e4]; linarith
    have hfl : ⌊((2 ^ p - 1 : ℤ) : ℝ) + 1 / 2⌋ = 2 ^ p - 1 := by
      rw [Int.floor_eq_iff]; constructor <;> push_cast <;> linarith
    have hfr : Int.fract (((2 ^ p - 1 : ℤ) : ℝ) + 1 / 2) = 1 / 2 := by
      rw [Int.fract, hfl]; ring
    have hodd : ¬ Even ((2 : ℤ) ^ p - 1) := by
      rw [Int.even_sub_one, not_not]
      exact (Int.even_pow.2 ⟨even_two, by omega⟩)
    rw [es, ex, roundEven, hfr, hfl, if_neg (by norm_num), if_neg (by norm_num), if_neg hodd]
    push_cast
    rw [sub_add_cancel, div_self (by positivity)]

/-- Sterbenz: the difference of one and a number within a factor of two is exact. -/
theorem sterbenz_one {p : ℕ} (hp : 1 ≤ p) {m : ℝ} (hm : roundBinary p m = m) (h1 : 1 / 2 ≤ m) (h2 : m ≤ 2) :
    roundBinary p (1 - m) = 1 - m := by
  have hlog : -1 ≤ Int.log 2 |m| := by
    rw [abs_of_pos (by linarith), ← Int.zpow_le_iff_le_log (by norm_num) (by linarith)]; norm_num; linarith
  have h2p : (0 : ℝ) < 2 ^ p := by positivity
  rcases lt_or_ge m 1 with h | h
  · obtain ⟨N, hN⟩ := roundBinary_grid (p := p) hlog
    rw [hm] at hN
    have e : (-1 : ℤ) - p + 1 = -p := by ring
    rw [e] at hN
    have hNr : (N : ℝ) = m * 2 ^ p := by
      rw [hN, mul_assoc, ← zpow_natCast, ← zpow_add₀ (by norm_num)]; simp
    have e1 : 1 - m = ((2 ^ p - N : ℤ) : ℝ) * 2 ^ (-(p : ℤ)) := by
      push_cast
      rw [hNr, zpow_neg, zpow_natCast]; field_simp
    rw [e1]
    refine roundBinary_dyadic ?_ _
    have hz : |((2 ^ p - N : ℤ) : ℝ)| < 2 ^ p := by
      push_cast
      rw [hNr, abs_of_nonneg (by nlinarith)]; nlinarith
    exact_mod_cast hz
  · have hlog' : 0 ≤ Int.log 2 |m| := by
      rw [abs_of_pos (by linarith), ← Int.zpow_le_iff_le_log (by norm_num) (by linarith)]; norm_num; linarith
    obtain ⟨N, hN⟩ := roundBinary_grid (p := p) hlog'
    rw [hm, zero_sub] at hN
    obtain ⟨q, rfl⟩ : ∃ q, p = q + 1 := ⟨p - 1, by omega⟩
    have e : -((q + 1 : ℕ) : ℤ) + 1 = -q := by push_cast; ring
    rw [e] at hN
    have h2q : (0 : ℝ) < 2 ^ q := by positivity
    have hNr : (N : ℝ) = m * 2 ^ q := by
      rw [hN, mul_assoc, ← zpow_natCast, ← zpow_add₀ (by norm_num)]; simp
    have e1 : 1 - m = ((2 ^ q - N : ℤ) : ℝ) * 2 ^ (-(q : ℤ)) := by
      push_cast
      rw [hNr, zpow_neg, zpow_natCast]; field_simp
    rw [e1]
    refine roundBinary_dyadic ?_ _
    have hz : |((2 ^ q - N : ℤ) : ℝ)| < 2 ^ (q + 1) := by
      push_cast
      rw [hNr, abs_of_nonpos (by nlinarith), pow_succ]; nlinarith
    exact_mod_cast hz

/-- A number of `p` digits between zero and two and the rounding of its difference with one add up to one. -/
theorem closure_one {p : ℕ} (hp : 1 ≤ p) {m : ℝ} (hm : roundBinary p m = m) (h0 : 0 ≤ m) (h2 : m ≤ 2) :
    roundBinary p (m + roundBinary p (1 - m)) = 1 := by
  rcases le_or_gt (1 / 2) m with h | h
  · rw [sterbenz_one hp hm h h2, add_sub_cancel, roundBinary_one hp]
  · rcases h0.eq_or_lt with rfl | h0
    · simp [roundBinary_one hp]
    · refine roundBinary_near_one hp ?_
      have := roundBinary_half p (1 - m)
      rw [log_two_one_half (by linarith) (by linarith)] at this
      have e : (2 : ℝ) ^ (-1 - (p : ℤ)) = 1 / 2 ^ (p + 1) := by
        rw [show -1 - (p : ℤ) = -((p + 1 : ℕ) : ℤ) by push_cast; ring, zpow_neg, zpow_natCast, one_div]
      rw [e] at this
      rwa [show m + roundBinary p (1 - m) - 1 = roundBinary p (1 - m) - (1 - m) by ring]

theorem roundBinary_fixed {p : ℕ} (hp : 1 ≤ p) (y : ℝ) : roundBinary p (roundBinary p y) = roundBinary p y := by
  rcases lt_trichotomy y 0 with h | rfl | h
  · have := roundBinary_idem hp (y := -y) (by linarith)
    rw [roundBinary_neg, roundBinary_neg] at this
    linarith
  · rw [roundBinary_zero, roundBinary_zero]
  · exact roundBinary_idem hp h

/-! ### Errors relative to a scale, with any factor -/

/-- `y` stands for `x`, the error being at most `G - 1` times the scale `M`.  `Near u k` is the case `G = (1 + u) ^ k`. -/
def Within (G M y x : ℝ) : Prop := |y - x| ≤ (G - 1) * M ∧ |x| ≤ M

variable {A : Rounding} {G G' M M' x y x' y' : ℝ}

theorem Within.scale (h : Within G M y x) : 0 ≤ M := (abs_nonneg _).trans h.2

theorem Within.mono (h : Within G M y x) (hG : G ≤ G') : Within G' M y x :=
  ⟨h.1.trans (mul_le_mul_of_nonneg_right (by linarith) h.scale), h.2⟩

theorem Within.rd (h : Within G M y x) : Within (G * (1 + A.u)) M (A.rd y) x := by
  refine ⟨?_, h.2⟩
  have hy : |y| ≤ G * M := by
    have := abs_add_le (y - x) x
    rw [sub_add_cancel] at this
    linarith [h.1, h.2]
  have := A.err y
  have hu := mul_le_mul_of_nonneg_left hy A.u_nonneg
  calc |A.rd y - x| ≤ |A.rd y - y| + |y - x| := abs_sub_le _ _ _
    _ ≤ _ := by linarith [h.1]

theorem Within.sum (h : Within G M y x) (h' : Within G M' y' x') : Within G (M + M') (y + y') (x + x') := by
  refine ⟨?_, (abs_add_le _ _).trans (add_le_add h.2 h'.2)⟩
  rw [show y + y' - (x + x') = (y - x) + (y' - x') by ring]
  refine (abs_add_le _ _).trans ?_
  linarith [h.1, h'.1]

theorem Within.prod (h : Within G M y x) (h' : Within G' M' y' x') (hG : 1 ≤ G) :
    Within (G * G') (M * M') (y * y') (x * x') := by
  refine ⟨?_, by rw [abs_mul]; exact mul_le_mul h.2 h'.2 (abs_nonneg _) h.scale⟩
  have hy' : |y'| ≤ G' * M' := by
    have := abs_add_le (y' - x') x'
    rw [sub_add_cancel] at this
    linarith [h'.1, h'.2]
  have e1 : |(y - x) * y'| ≤ (G - 1) * M * (G' * M') := by
    rw [abs_mul]
    exact mul_le_mul h.1 hy' (abs_nonneg _) (mul_nonneg (by linarith) h.scale)
  have e2 : |x * (y' - x')| ≤ M * ((G' - 1) * M') := by
    rw [abs_mul]
    exact mul_le_mul h.2 h'.1 (abs_nonneg _) h.scale
  rw [show y * y' - x * x' = (y - x) * y' + x * (y' - x') by ring]
  refine (abs_add_le _ _).trans ?_
  linarith

theorem Within.exp {δ : ℝ} (h : |y - x| ≤ δ) (h' : Within G (Real.exp y) y' (Real.exp y)) (hG : 1 ≤ G) :
    Within (G * Real.exp δ) (Real.exp x) y' (Real.exp x) := by
  refine ⟨?_, by rw [abs_of_pos (Real.exp_pos _)]⟩
  obtain ⟨a1, a2⟩ := abs_le.1 h
  obtain ⟨b1, b2⟩ := abs_le.1 h'.1
  have hδ : 0 ≤ δ := (abs_nonneg _).trans h
  have ex := Real.exp_pos x
  have eδ : 1 ≤ Real.exp δ := Real.one_le_exp hδ
  have em : Real.exp (-δ) * Real.exp δ = 1 := by rw [← Real.exp_add, neg_add_cancel, Real.exp_zero]
  have em0 := Real.exp_pos (-δ)
  have em1 : Real.exp (-δ) ≤ 1 := by nlinarith
  have u1 : Real.exp y ≤ Real.exp δ * Real.exp x := by rw [← Real.exp_add]; exact Real.exp_le_exp.2 (by linarith)
  have l1 : Real.exp (-δ) * Real.exp x ≤ Real.exp y := by rw [← Real.exp_add]; exact Real.exp_le_exp.2 (by linarith)
  have key : 2 - Real.exp δ ≤ Real.exp (-δ) := by nlinarith [sq_nonneg (Real.exp δ - 1)]
  rw [abs_le]
  constructor
  · rcases le_or_gt G 2 with h2 | h2
    · have : (2 - G) * (Real.exp (-δ) * Real.exp x) ≤ (2 - G) * Real.exp y :=
        mul_le_mul_of_nonneg_left l1 (by linarith)
      have h3 : 2 - G * Real.exp δ ≤ (2 - G) * Real.exp (-δ) := by
        nlinarith [mul_nonneg (sub_nonneg.2 hG) (sub_nonneg.2 eδ), mul_nonneg (sub_nonneg.2 h2) (sub_nonneg.2 key)]
      nlinarith
    · have h3 : (2 - G) * (Real.exp δ * Real.exp x) ≤ (2 - G) * Real.exp y :=
        mul_le_mul_of_nonpos_left u1 (by linarith)
      nlinarith [mul_pos (by linarith : 0 < Real.exp δ) ex]
  · nlinarith

end JaxCosmo
