import Verif.Model.FloatRange
import Verif.Props.FloatScale

/-! # C173: overflow and underflow in a fit -/

namespace JaxCosmo
variable {F : Format} {x y : ℝ}

/-- The rounding of a format when exponents are unlimited. -/
noncomputable def Format.free (F : Format) : Rounding := binary F.p F.hp

theorem rd_two_pow {p : ℕ} (hp : 3 ≤ p) (k : ℤ) : (binary p hp).rd (2 ^ k) = 2 ^ k := by
  have := (C172_binary p hp k).1 1
  rwa [mul_one, (binary p hp).one, mul_one] at this

theorem rd_abs {p : ℕ} (hp : 3 ≤ p) (x : ℝ) : (binary p hp).rd |x| = |(binary p hp).rd x| := by
  rcases le_total 0 x with h | h
  · rw [abs_of_nonneg h, abs_of_nonneg ((binary p hp).nonneg h)]
  · have : (binary p hp).rd (-x) = -(binary p hp).rd x := roundBinary_neg p x
    rw [abs_of_nonpos h, this, abs_of_nonpos]
    linarith [(binary p hp).nonneg (neg_nonneg.2 h)]

theorem rd_between {p : ℕ} (hp : 3 ≤ p) {a b : ℤ} (h1 : 2 ^ a ≤ |x|) (h2 : |x| ≤ 2 ^ b) :
    2 ^ a ≤ |(binary p hp).rd x| ∧ |(binary p hp).rd x| ≤ 2 ^ b := by
  rw [← rd_abs, ← rd_two_pow hp a, ← rd_two_pow hp b]
  exact ⟨(binary p hp).mono h1, (binary p hp).mono h2⟩

/-- C173: within the range, a result is what it would be if exponents were unlimited. -/
theorem C173_normal (h : x = 0 ∨ 2 ^ F.emin ≤ |x| ∧ |x| ≤ 2 ^ F.emax) : F.rnd x = .fin (F.free.rd x) := by
  have pw : ∀ k : ℤ, (0 : ℝ) < 2 ^ k := fun k => by positivity
  rcases h with rfl | ⟨h1, h2⟩
  · have e : roundEven 0 = 0 := by exact_mod_cast roundEven_int 0
    simp only [Format.rnd, zero_mul, e, Int.cast_zero, zero_div, abs_zero, if_neg (not_le.2 (pw _)), Format.free, Rounding.zero, ite_self]
  · have hx : 0 < |x| := lt_of_lt_of_le (pw _) h1
    have hl : F.emin ≤ Int.log 2 |x| := by
      rw [← Int.zpow_le_iff_le_log (by norm_num) hx]; exact_mod_cast h1
    have hb : 2 ^ F.emin ≤ |F.free.rd x| ∧ |F.free.rd x| ≤ 2 ^ F.emax := rd_between F.hp h1 h2
    have e : (roundEven (x * 2 ^ ((F.p : ℤ) - 1 - Int.log 2 |x|)) : ℝ) / 2 ^ ((F.p : ℤ) - 1 - Int.log 2 |x|) = F.free.rd x := rfl
    simp only [Format.rnd, max_eq_left hl, e]
    have hs : (2 : ℝ) ^ F.emax < 2 ^ (F.emax + 1) := zpow_lt_zpow_right₀ (by norm_num) (by omega)
    rw [if_neg (not_le.2 (lt_of_le_of_lt hb.2 hs)), if_neg fun h => absurd h.2 (not_lt.2 hb.1)]

/-- C173: below the range the error is at most half of the smallest number, or the smallest normal number if such numbers become zero. -/
theorem C173_small (he : F.emin ≤ F.emax) (h : |x| < 2 ^ F.emin) :
    ∃ y, F.rnd x = .fin y ∧ |y - x| ≤ if F.flush then 2 ^ F.emin else 2 ^ (F.emin - F.p) := by
  have pw : ∀ k : ℤ, (0 : ℝ) < 2 ^ k := fun k => by positivity
  rcases eq_or_ne x 0 with rfl | hx
  · refine ⟨_, C173_normal (.inl rfl), ?_⟩
    rw [F.free.zero, sub_zero, abs_zero]
    split_ifs <;> exact (pw _).le
  have hl : Int.log 2 |x| < F.emin := by
    rw [← Int.lt_zpow_iff_log_lt (by norm_num) (abs_pos.2 hx)]; exact_mod_cast h
  set s := (2 : ℝ) ^ ((F.p : ℤ) - 1 - F.emin) with hs
  set y := (roundEven (x * s) : ℝ) / s with hy
  have s0 : 0 < s := pw _
  have hd : |y - x| ≤ 2 ^ (F.emin - F.p) := by
    have e1 : y - x = (roundEven (x * s) - x * s) / s := by rw [hy]; field_simp
    have e2 : (2 : ℝ) ^ (F.emin - F.p) = 1 / 2 / s := by
      rw [hs, show F.emin - (F.p : ℤ) = -1 - ((F.p : ℤ) - 1 - F.emin) by ring, zpow_sub₀ (by norm_num)]; norm_num
    rw [e1, e2, abs_div, abs_of_pos s0]
    exact div_le_div_of_nonneg_right (roundEven_err _) s0.le
  have hp : (2 : ℝ) ^ (F.emin - F.p) ≤ 2 ^ F.emin := zpow_le_zpow_right₀ (by norm_num) (by omega)
  have hlt : |y| < 2 ^ (F.emax + 1) := by
    have h1 : |y| ≤ |y - x| + |x| := by simpa using abs_add_le (y - x) x
    have h2 : (2 : ℝ) ^ (F.emin + 1) = 2 ^ F.emin * 2 := zpow_add_one₀ (by norm_num) _
    have h3 : (2 : ℝ) ^ (F.emin + 1) ≤ 2 ^ (F.emax + 1) := zpow_le_zpow_right₀ (by norm_num) (by omega)
    linarith
  have e : F.rnd x = if F.flush ∧ |y| < 2 ^ F.emin then .fin 0 else .fin y := by
    simp only [Format.rnd, max_eq_right hl.le]
    exact if_neg (not_le.2 hlt)
  rw [e]
  by_cases hf : F.flush ∧ |y| < 2 ^ F.emin
  · refine ⟨0, if_pos hf, ?_⟩
    rw [if_pos hf.1, zero_sub, abs_neg]; exact h.le
  · refine ⟨y, if_neg hf, ?_⟩
    split_ifs
    · exact hd.trans hp
    · exact hd

/-- A number below half of the smallest one becomes zero. -/
theorem rnd_tiny (h : |x| < 2 ^ (F.emin - F.p)) : F.rnd x = .fin 0 := by
  have pw : ∀ k : ℤ, (0 : ℝ) < 2 ^ k := fun k => by positivity
  rcases eq_or_ne x 0 with rfl | hx
  · rw [C173_normal (.inl rfl), F.free.zero]
  have hp := F.hp
  have hl : Int.log 2 |x| < F.emin := by
    rw [← Int.lt_zpow_iff_log_lt (by norm_num) (abs_pos.2 hx)]
    exact_mod_cast h.trans (zpow_lt_zpow_right₀ (by norm_num) (by omega))
  have e : roundEven (x * (2 : ℝ) ^ ((F.p : ℤ) - 1 - F.emin)) = 0 := by
    refine roundEven_eq (.inl ?_)
    rw [Int.cast_zero, sub_zero, abs_mul, abs_of_pos (pw _)]
    have := mul_lt_mul_of_pos_right h (pw ((F.p : ℤ) - 1 - F.emin))
    rwa [← zpow_add₀ (by norm_num), show F.emin - (F.p : ℤ) + ((F.p : ℤ) - 1 - F.emin) = -1 by ring, zpow_neg_one, inv_eq_one_div] at this
  simp only [Format.rnd, max_eq_right hl.le, e, Int.cast_zero, zero_div, abs_zero, if_neg (not_le.2 (pw _)), ite_self]

/-! ### Fits -/

section Single
variable {b : Bool} {t : SumTree} {data mu C obs norm : ℕ → ℝ}

theorem single_rnd {lo hi : ℤ} (h1 : -126 ≤ lo) (h2 : hi ≤ 127) (h : 2 ^ lo ≤ |x| ∧ |x| ≤ 2 ^ hi) :
    (single b).rnd x = .fin (float32.rd x) ∧ 2 ^ lo ≤ |float32.rd x| ∧ |float32.rd x| ≤ 2 ^ hi :=
  ⟨C173_normal (F := single b) (.inr ⟨(zpow_le_zpow_right₀ (by norm_num) h1).trans h.1, h.2.trans (zpow_le_zpow_right₀ (by norm_num) h2)⟩),
    rd_between _ h.1 h.2⟩

theorem single_zero : (single b).rnd 0 = .fin 0 := by
  rw [C173_normal (.inl rfl), Rounding.zero]

/-- C173: variances of spectra between `2⁻⁴⁵` and `2⁴⁵` are computed without leaving the range. -/
theorem C173_variance {l : ℕ} (ho : 2 ^ (-45 : ℤ) ≤ obs l ∧ obs l ≤ 2 ^ (45 : ℤ)) (hn : 2 ^ (-33 : ℤ) ≤ norm l ∧ norm l ≤ 2 ^ (33 : ℤ)) :
    oneCovR (single b) (fun l => .fin (obs l)) (fun l => .fin (norm l)) l = .fin (oneCovF float32 obs norm l) ∧
    2 ^ (-124 : ℤ) ≤ oneCovF float32 obs norm l ∧ oneCovF float32 obs norm l ≤ 2 ^ (124 : ℤ) := by
  have o0 : 0 < obs l := lt_of_lt_of_le (by positivity) ho.1
  have n0 : 0 < norm l := lt_of_lt_of_le (by positivity) hn.1
  obtain ⟨e1, a1, b1⟩ := single_rnd (b := b) (lo := -90) (hi := 90) (x := obs l * obs l) (by norm_num) (by norm_num) (by
    rw [abs_of_pos (by positivity)]
    exact ⟨by rw [show (2 : ℝ) ^ (-90 : ℤ) = 2 ^ (-45 : ℤ) * 2 ^ (-45 : ℤ) by norm_num]; exact mul_le_mul ho.1 ho.1 (by positivity) o0.le,
      by rw [show (2 : ℝ) ^ (90 : ℤ) = 2 ^ (45 : ℤ) * 2 ^ (45 : ℤ) by norm_num]; exact mul_le_mul ho.2 ho.2 o0.le (by positivity)⟩)
  set q := float32.rd (obs l * obs l) with hq
  have q0 : 0 ≤ q := float32.nonneg (by positivity)
  rw [abs_of_nonneg q0] at a1 b1
  obtain ⟨e2, a2, b2⟩ := single_rnd (b := b) (lo := -89) (hi := 91) (x := q + q) (by norm_num) (by norm_num) (by
    rw [abs_of_nonneg (by positivity)]
    exact ⟨by rw [show (2 : ℝ) ^ (-89 : ℤ) = 2 ^ (-90 : ℤ) + 2 ^ (-90 : ℤ) by norm_num]; linarith,
      by rw [show (2 : ℝ) ^ (91 : ℤ) = 2 ^ (90 : ℤ) + 2 ^ (90 : ℤ) by norm_num]; linarith⟩)
  set v := float32.rd (q + q) with hv
  have v0 : 0 ≤ v := float32.nonneg (by positivity)
  rw [abs_of_nonneg v0] at a2 b2
  obtain ⟨e3, a3, b3⟩ := single_rnd (b := b) (lo := -124) (hi := 124) (x := v / norm l) (by norm_num) (by norm_num) (by
    rw [abs_of_nonneg (by positivity), le_div_iff₀ n0, div_le_iff₀ n0]
    refine ⟨le_trans ?_ a2, b2.trans ?_⟩
    · calc (2 : ℝ) ^ (-124 : ℤ) * norm l ≤ 2 ^ (-124 : ℤ) * 2 ^ (33 : ℤ) := mul_le_mul_of_nonneg_left hn.2 (by positivity)
        _ ≤ _ := by norm_num
    · calc (2 : ℝ) ^ (91 : ℤ) = 2 ^ (124 : ℤ) * 2 ^ (-33 : ℤ) := by norm_num
        _ ≤ _ := mul_le_mul_of_nonneg_left hn.1 (by positivity))
  have r : oneCovF float32 obs norm l = float32.rd (v / norm l) := rfl
  have w0 : 0 ≤ float32.rd (v / norm l) := float32.nonneg (by positivity)
  rw [abs_of_nonneg w0] at a3 b3
  rw [r]
  refine ⟨?_, a3, b3⟩
  have m : (single b).mul (.fin (obs l)) (.fin (obs l)) = .fin q := e1
  have s : (single b).add (.fin q) (.fin q) = .fin v := e2
  rw [oneCovR, m, s]
  change (single b).store (Xr.div (.fin v) (.fin (norm l))) = _
  rw [Xr.div, if_neg n0.ne']
  exact e3

theorem tree_range {X : ℕ → Xr} {Y : ℕ → ℝ} (hX : ∀ i ∈ t.leaves, X i = .fin (Y i))
    (hY : ∀ i ∈ t.leaves, Y i = 0 ∨ 2 ^ (-41 : ℤ) ≤ Y i ∧ Y i ≤ 2 ^ (41 : ℤ)) (hd : t.depth ≤ 80) :
    t.sumR (single b) X = .fin (t.sum float32 Y) ∧
      (t.sum float32 Y = 0 ∨ 2 ^ (-41 : ℤ) ≤ t.sum float32 Y ∧ t.sum float32 Y ≤ 2 ^ (41 + t.depth : ℤ)) := by
  induction t with
  | leaf i =>
    refine ⟨hX i (by simp [SumTree.leaves]), ?_⟩
    simpa [SumTree.depth, SumTree.sum] using hY i (by simp [SumTree.leaves])
  | node l r hl hr =>
    simp only [SumTree.leaves, List.mem_append, SumTree.depth] at hX hY hd
    obtain ⟨e1, h1⟩ := hl (fun i hi => hX i (.inl hi)) (fun i hi => hY i (.inl hi)) (by omega)
    obtain ⟨e2, h2⟩ := hr (fun i hi => hX i (.inr hi)) (fun i hi => hY i (.inr hi)) (by omega)
    simp only [SumTree.sumR, SumTree.sum, e1, e2, SumTree.depth, Rounding.add]
    change (single b).rnd (_ + _) = _ ∧ _
    set p := l.sum float32 Y
    set q := r.sum float32 Y
    have hm : ∀ {k : ℕ}, k ≤ max l.depth r.depth → (2 : ℝ) ^ (41 + k : ℤ) ≤ 2 ^ (41 + (max l.depth r.depth : ℕ) : ℤ) := fun h =>
      zpow_le_zpow_right₀ (by norm_num) (by omega)
    have ml := hm (le_max_left l.depth r.depth)
    have mr := hm (le_max_right l.depth r.depth)
    have lo : (0 : ℝ) < 2 ^ (-41 : ℤ) := by positivity
    have e : (2 : ℝ) ^ (41 + ((max l.depth r.depth + 1 : ℕ) : ℤ)) = 2 ^ (41 + (max l.depth r.depth : ℕ) : ℤ) * 2 := by
      rw [← zpow_add_one₀ (by norm_num)]; push_cast; congr 1; ring
    have hi : (0 : ℝ) < 2 ^ (41 + (max l.depth r.depth : ℕ) : ℤ) := by positivity
    by_cases h0 : p = 0 ∧ q = 0
    · rw [h0.1, h0.2, add_zero, single_zero, float32.zero]
      exact ⟨rfl, .inl rfl⟩
    · have hp : 2 ^ (-41 : ℤ) ≤ p + q ∧ p + q ≤ 2 ^ (41 + ((max l.depth r.depth + 1 : ℕ) : ℤ)) := by
        rw [e]
        rcases h1 with h1 | h1 <;> rcases h2 with h2 | h2
        · exact absurd ⟨h1, h2⟩ h0
        · rw [h1]; constructor <;> linarith [h2.1, h2.2]
        · rw [h2]; constructor <;> linarith [h1.1, h1.2]
        · constructor <;> linarith [h1.1, h1.2, h2.1, h2.2]
      have p0 : 0 ≤ p + q := lo.le.trans hp.1
      obtain ⟨f1, f2, f3⟩ := single_rnd (b := b) (lo := -41) (hi := 41 + ((max l.depth r.depth + 1 : ℕ) : ℤ)) (x := p + q)
        (by norm_num) (by omega) (by rw [abs_of_nonneg p0]; exact hp)
      rw [abs_of_nonneg (float32.nonneg p0)] at f2 f3
      exact ⟨f1, .inr ⟨f2, f3⟩⟩

/-- Residuals are zero or between `2⁻²⁰` and `2²⁰` standard deviations, and variances between `2⁻¹²⁴` and `2¹²⁴`. -/
structure Moderate (t : SumTree) (data mu C : ℕ → ℝ) : Prop where
  variance : ∀ i ∈ t.leaves, 2 ^ (-124 : ℤ) ≤ C i ∧ C i ≤ 2 ^ (124 : ℤ)
  residual : ∀ i ∈ t.leaves, mu i = data i ∨ 2 ^ (-40 : ℤ) * C i ≤ (mu i - data i) ^ 2 ∧ (mu i - data i) ^ 2 ≤ 2 ^ (40 : ℤ) * C i
  depth : t.depth ≤ 80

theorem abs_between {a c : ℝ} (ha : 0 ≤ a) (hc : 0 ≤ c) (h1 : a ^ 2 ≤ x ^ 2) (h2 : x ^ 2 ≤ c ^ 2) : a ≤ |x| ∧ |x| ≤ c := by
  have := sq_le_sq.1 h1
  have := sq_le_sq.1 h2
  rw [abs_of_nonneg ha] at *
  rw [abs_of_nonneg hc] at *
  constructor <;> assumption

theorem rd_eighth (x : ℝ) : 7 / 8 * |x| ≤ |float32.rd x| ∧ |float32.rd x| ≤ 9 / 8 * |x| := by
  have h := (float32.err x).trans (mul_le_mul_of_nonneg_right float32.u_le (abs_nonneg x))
  have h1 := abs_sub_abs_le_abs_sub (float32.rd x) x
  have h2 := abs_sub_abs_le_abs_sub x (float32.rd x)
  rw [abs_sub_comm] at h2
  constructor <;> linarith

/-- One term of the sum. -/
theorem term_range {r c : ℝ} (hc : 2 ^ (-124 : ℤ) ≤ c ∧ c ≤ 2 ^ (124 : ℤ))
    (hr : r = 0 ∨ 2 ^ (-40 : ℤ) * c ≤ r ^ 2 ∧ r ^ 2 ≤ 2 ^ (40 : ℤ) * c) :
    (single b).mul ((single b).rnd r) ((single b).mul ((single b).div (.fin 1) (.fin c)) ((single b).rnd r))
      = .fin (float32.mul (float32.rd r) (float32.mul (float32.div 1 c) (float32.rd r))) ∧
    (float32.mul (float32.rd r) (float32.mul (float32.div 1 c) (float32.rd r)) = 0 ∨
      2 ^ (-41 : ℤ) ≤ float32.mul (float32.rd r) (float32.mul (float32.div 1 c) (float32.rd r)) ∧
      float32.mul (float32.rd r) (float32.mul (float32.div 1 c) (float32.rd r)) ≤ 2 ^ (41 : ℤ)) := by
  have c0 : 0 < c := lt_of_lt_of_le (by positivity) hc.1
  obtain ⟨ew, wl, wh⟩ := single_rnd (b := b) (lo := -124) (hi := 124) (x := 1 / c) (by norm_num) (by norm_num) (by
    rw [abs_of_pos (by positivity), le_div_iff₀ c0, div_le_iff₀ c0]
    refine ⟨?_, ?_⟩
    · calc (2 : ℝ) ^ (-124 : ℤ) * c ≤ 2 ^ (-124 : ℤ) * 2 ^ (124 : ℤ) := mul_le_mul_of_nonneg_left hc.2 (by positivity)
        _ = 1 := by norm_num
    · calc (1 : ℝ) = 2 ^ (124 : ℤ) * 2 ^ (-124 : ℤ) := by norm_num
        _ ≤ _ := mul_le_mul_of_nonneg_left hc.1 (by positivity))
  have hdiv : (single b).div (.fin 1) (.fin c) = .fin (float32.rd (1 / c)) := by
    change (single b).store (Xr.div (.fin 1) (.fin c)) = _
    rw [Xr.div, if_neg c0.ne']; exact ew
  have w8 := rd_eighth (1 / c)
  have w0 : 0 ≤ float32.rd (1 / c) := float32.nonneg (by positivity)
  rw [abs_of_nonneg w0, abs_of_pos (by positivity : 0 < 1 / c)] at w8
  rw [hdiv]
  simp only [Rounding.mul, Rounding.div]
  set w := float32.rd (1 / c) with hw
  rcases hr with rfl | hr
  · rw [single_zero, float32.zero]
    refine ⟨?_, .inl (by simp [float32.zero])⟩
    have e1 : (single b).mul (.fin w) (.fin 0) = .fin 0 := by
      change (single b).rnd (w * 0) = _; rw [mul_zero, single_zero]
    rw [e1]
    change (single b).rnd (0 * 0) = _
    rw [mul_zero, mul_zero, single_zero, float32.zero, zero_mul, float32.zero]
  · have hb : 2 ^ (-82 : ℤ) ≤ |r| ∧ |r| ≤ 2 ^ (82 : ℤ) := by
      refine abs_between (by positivity) (by positivity) (le_trans ?_ hr.1) (hr.2.trans ?_)
      · calc ((2 : ℝ) ^ (-82 : ℤ)) ^ 2 = 2 ^ (-40 : ℤ) * 2 ^ (-124 : ℤ) := by norm_num
          _ ≤ _ := mul_le_mul_of_nonneg_left hc.1 (by positivity)
      · calc (2 : ℝ) ^ (40 : ℤ) * c ≤ 2 ^ (40 : ℤ) * 2 ^ (124 : ℤ) := mul_le_mul_of_nonneg_left hc.2 (by positivity)
          _ = ((2 : ℝ) ^ (82 : ℤ)) ^ 2 := by norm_num
    obtain ⟨er, rl, rh⟩ := single_rnd (b := b) (by norm_num) (by norm_num) hb
    have r8 := rd_eighth r
    rw [er]
    set r' := float32.rd r with hr'
    have hq : 2 ^ (-82 : ℤ) ≤ |r / c| ∧ |r / c| ≤ 2 ^ (82 : ℤ) := by
      have e : (r / c) ^ 2 = r ^ 2 / c * (1 / c) := by field_simp
      have i1 : (2 : ℝ) ^ (-124 : ℤ) ≤ 1 / c := by
        rw [le_div_iff₀ c0]
        calc (2 : ℝ) ^ (-124 : ℤ) * c ≤ 2 ^ (-124 : ℤ) * 2 ^ (124 : ℤ) := mul_le_mul_of_nonneg_left hc.2 (by positivity)
          _ = 1 := by norm_num
      have i2 : 1 / c ≤ (2 : ℝ) ^ (124 : ℤ) := by
        rw [div_le_iff₀ c0]
        calc (1 : ℝ) = 2 ^ (124 : ℤ) * 2 ^ (-124 : ℤ) := by norm_num
          _ ≤ _ := mul_le_mul_of_nonneg_left hc.1 (by positivity)
      refine abs_between (by positivity) (by positivity) ?_ ?_
      · rw [e, show ((2 : ℝ) ^ (-82 : ℤ)) ^ 2 = 2 ^ (-40 : ℤ) * 2 ^ (-124 : ℤ) by norm_num]
        exact mul_le_mul ((le_div_iff₀ c0).2 hr.1) i1 (by positivity) (by positivity)
      · rw [e, show ((2 : ℝ) ^ (82 : ℤ)) ^ 2 = 2 ^ (40 : ℤ) * 2 ^ (124 : ℤ) by norm_num]
        exact mul_le_mul ((div_le_iff₀ c0).2 hr.2) i2 (by positivity) (by positivity)
    have hz : |w * r'| = w * |r'| := by rw [abs_mul, abs_of_nonneg w0]
    have hrc : |r / c| = 1 / c * |r| := by rw [abs_div, abs_of_pos c0]; ring
    have ic : 0 < 1 / c := by positivity
    have zl : 7 / 8 * (7 / 8) * |r / c| ≤ w * |r'| := by
      rw [hrc]
      calc 7 / 8 * (7 / 8) * (1 / c * |r|) = 7 / 8 * (1 / c) * (7 / 8 * |r|) := by ring
        _ ≤ _ := mul_le_mul w8.1 r8.1 (by positivity) w0
    have zh : w * |r'| ≤ 9 / 8 * (9 / 8) * |r / c| := by
      rw [hrc]
      calc w * |r'| ≤ 9 / 8 * (1 / c) * (9 / 8 * |r|) := mul_le_mul w8.2 r8.2 (abs_nonneg _) (by positivity)
        _ = _ := by ring
    obtain ⟨ez, -, -⟩ := single_rnd (b := b) (lo := -83) (hi := 83) (x := w * r') (by norm_num) (by norm_num) (by
      rw [hz, show (2 : ℝ) ^ (-83 : ℤ) = 1 / 2 * 2 ^ (-82 : ℤ) by norm_num, show (2 : ℝ) ^ (83 : ℤ) = 2 * 2 ^ (82 : ℤ) by norm_num]
      have : (0 : ℝ) < 2 ^ (-82 : ℤ) := by positivity
      have : (0 : ℝ) < 2 ^ (82 : ℤ) := by positivity
      exact ⟨by linarith [hq.1], by linarith [hq.2]⟩)
    have z8 := rd_eighth (w * r')
    rw [hz] at z8
    have hm1 : (single b).mul (.fin w) (.fin r') = .fin (float32.rd (w * r')) := ez
    rw [hm1]
    have hpos : 0 ≤ r' * float32.rd (w * r') := by
      rcases le_total 0 r' with h | h
      · exact mul_nonneg h (float32.nonneg (by positivity))
      · refine mul_nonneg_of_nonpos_of_nonpos h ?_
        have := float32.mono (mul_nonpos_of_nonneg_of_nonpos w0 h)
        rwa [float32.zero] at this
    set z := float32.rd (w * r') with hzz
    have ht : |r' * z| = |r'| * |z| := abs_mul _ _
    have hx : |r| * |r / c| = r ^ 2 / c := by
      rw [hrc, ← sq_abs r]; ring
    have x1 : 2 ^ (-40 : ℤ) ≤ r ^ 2 / c := (le_div_iff₀ c0).2 hr.1
    have x2 : r ^ 2 / c ≤ 2 ^ (40 : ℤ) := (div_le_iff₀ c0).2 hr.2
    have tl : (7 / 8) ^ 4 * (r ^ 2 / c) ≤ |r'| * |z| := by
      rw [← hx]
      calc (7 / 8) ^ 4 * (|r| * |r / c|) = 7 / 8 * |r| * (7 / 8 * (7 / 8 * (7 / 8) * |r / c|)) := by ring
        _ ≤ 7 / 8 * |r| * (7 / 8 * (w * |r'|)) := by gcongr
        _ ≤ _ := mul_le_mul r8.1 z8.1 (mul_nonneg (by norm_num) (mul_nonneg w0 (abs_nonneg _))) (abs_nonneg _)
    have th : |r'| * |z| ≤ (9 / 8) ^ 4 * (r ^ 2 / c) := by
      rw [← hx]
      calc |r'| * |z| ≤ 9 / 8 * |r| * (9 / 8 * (w * |r'|)) := mul_le_mul r8.2 z8.2 (abs_nonneg _) (by positivity)
        _ ≤ 9 / 8 * |r| * (9 / 8 * (9 / 8 * (9 / 8) * |r / c|)) := by gcongr
        _ = _ := by ring
    obtain ⟨et, l, h⟩ := single_rnd (b := b) (lo := -41) (hi := 41) (x := r' * z) (by norm_num) (by norm_num) (by
      rw [ht, show (2 : ℝ) ^ (-41 : ℤ) = 1 / 2 * 2 ^ (-40 : ℤ) by norm_num, show (2 : ℝ) ^ (41 : ℤ) = 2 * 2 ^ (40 : ℤ) by norm_num]
      have : (0 : ℝ) < 2 ^ (-40 : ℤ) := by positivity
      have : (0 : ℝ) < 2 ^ (40 : ℤ) := by positivity
      exact ⟨by linarith, by linarith⟩)
    rw [abs_of_nonneg (float32.nonneg hpos)] at l h
    exact ⟨et, .inr ⟨l, h⟩⟩

/-- C173: a fit with moderate variances and residuals never leaves the range. -/
theorem C173_chi2 (h : Moderate t data mu C) :
    chi2R (single b) t (fun i => .fin (data i)) (fun i => .fin (mu i)) (fun i => .fin (C i)) = .fin (chi2F float32 t data mu C) := by
  have hr : ∀ i, (single b).sub (.fin (mu i)) (.fin (data i)) = (single b).rnd (mu i - data i) := fun i => by
    rw [sub_eq_add_neg]; rfl
  refine (tree_range (t := t) (fun i hi => ?_) (fun i hi => ?_) h.depth).1
  · simp only [hr]
    exact (term_range (b := b) (h.variance i hi) ((h.residual i hi).imp sub_eq_zero.2 id)).1
  · exact (term_range (b := b) (h.variance i hi) ((h.residual i hi).imp sub_eq_zero.2 id)).2

/-- C173: so does one whose covariance is computed from spectra between `2⁻⁴⁵` and `2⁴⁵`. -/
theorem C173_fit (ho : ∀ i ∈ t.leaves, 2 ^ (-45 : ℤ) ≤ obs i ∧ obs i ≤ 2 ^ (45 : ℤ))
    (hn : ∀ i ∈ t.leaves, 2 ^ (-33 : ℤ) ≤ norm i ∧ norm i ≤ 2 ^ (33 : ℤ))
    (hr : ∀ i ∈ t.leaves, mu i = data i ∨ 2 ^ (-40 : ℤ) * oneCovF float32 obs norm i ≤ (mu i - data i) ^ 2 ∧
      (mu i - data i) ^ 2 ≤ 2 ^ (40 : ℤ) * oneCovF float32 obs norm i) (hd : t.depth ≤ 80) :
    fitR (single b) t (fun i => .fin (data i)) (fun i => .fin (mu i)) (fun i => .fin (obs i)) (fun i => .fin (norm i))
      = .fin (chi2F float32 t data mu (oneCovF float32 obs norm)) := by
  rw [← C173_chi2 (b := b) ⟨fun i hi => (C173_variance (b := b) (ho i hi) (hn i hi)).2, hr, hd⟩]
  have key : ∀ s : SumTree, (∀ i ∈ s.leaves, i ∈ t.leaves) → ∀ X Y : ℕ → Xr, (∀ i ∈ t.leaves, X i = Y i) →
      s.sumR (single b) X = s.sumR (single b) Y := fun s hs X Y hXY => by
    induction s with
    | leaf i => exact hXY i (hs i (by simp [SumTree.leaves]))
    | node l r hl hr =>
      rw [SumTree.sumR, SumTree.sumR, hl fun i hi => hs i (by simp [SumTree.leaves, hi]), hr fun i hi => hs i (by simp [SumTree.leaves, hi])]
  refine key t (fun _ h => h) _ _ fun i hi => ?_
  dsimp only
  rw [(C173_variance (b := b) (ho i hi) (hn i hi)).1]

/-- C173: while both stay within the range, a fit gives the same number in units that differ by a power of two. -/
theorem C173_units_partial {k : ℤ} (ho : ∀ i ∈ t.leaves, 2 ^ (-45 : ℤ) ≤ obs i ∧ obs i ≤ 2 ^ (45 : ℤ))
    (ho' : ∀ i ∈ t.leaves, 2 ^ (-45 : ℤ) ≤ 2 ^ k * obs i ∧ 2 ^ k * obs i ≤ 2 ^ (45 : ℤ))
    (hn : ∀ i ∈ t.leaves, 2 ^ (-33 : ℤ) ≤ norm i ∧ norm i ≤ 2 ^ (33 : ℤ))
    (hr : ∀ i ∈ t.leaves, mu i = data i ∨ 2 ^ (-40 : ℤ) * oneCovF float32 obs norm i ≤ (mu i - data i) ^ 2 ∧
      (mu i - data i) ^ 2 ≤ 2 ^ (40 : ℤ) * oneCovF float32 obs norm i) (hd : t.depth ≤ 80) :
    fitR (single b) t (fun i => .fin (2 ^ k * data i)) (fun i => .fin (2 ^ k * mu i)) (fun i => .fin (2 ^ k * obs i)) (fun i => .fin (norm i))
      = fitR (single b) t (fun i => .fin (data i)) (fun i => .fin (mu i)) (fun i => .fin (obs i)) (fun i => .fin (norm i)) := by
  have hs : Scales float32 (2 ^ k) := (C172_binary 24 (by norm_num) k).1
  have k0 : (0 : ℝ) < 2 ^ k := by positivity
  have hC : oneCovF float32 (fun i => 2 ^ k * obs i) norm = fun i => 2 ^ k * (2 ^ k * oneCovF float32 obs norm i) :=
    funext fun i => (C172_covariance hs hs k0.ne' obs norm i).1
  rw [C173_fit ho hn hr hd, C173_fit ho' hn (fun i hi => ?_) hd, hC, C172_chi2 hs k0.ne']
  rw [hC]
  refine (hr i hi).imp (fun h => by rw [h]) fun h => ?_
  rw [← mul_sub, mul_pow]
  have k2 : (0 : ℝ) < (2 ^ k) ^ 2 := by positivity
  constructor
  · calc 2 ^ (-40 : ℤ) * (2 ^ k * (2 ^ k * oneCovF float32 obs norm i)) = (2 ^ k) ^ 2 * (2 ^ (-40 : ℤ) * oneCovF float32 obs norm i) := by ring
      _ ≤ _ := mul_le_mul_of_nonneg_left h.1 k2.le
  · calc _ ≤ (2 ^ k) ^ 2 * (2 ^ (40 : ℤ) * oneCovF float32 obs norm i) := mul_le_mul_of_nonneg_left h.2 k2.le
      _ = _ := by ring

end Single

/-- The number is one of the format's. -/
def Held (F : Format) (x : ℝ) : Prop := F.rnd x = .fin x

/-- A fit gives the same number in units that differ by a power of two whenever all its inputs are numbers of the format in both. -/
def UnitsInRange (F : Format) : Prop := ∀ (k : ℤ) (t : SumTree) (data mu obs norm : ℕ → ℝ),
  (∀ i ∈ t.leaves, 0 < obs i ∧ 0 < norm i ∧ Held F (obs i) ∧ Held F (norm i) ∧ Held F (data i) ∧ Held F (mu i) ∧
    Held F (2 ^ k * obs i) ∧ Held F (2 ^ k * data i) ∧ Held F (2 ^ k * mu i)) →
  fitR F t (fun i => .fin (2 ^ k * data i)) (fun i => .fin (2 ^ k * mu i)) (fun i => .fin (2 ^ k * obs i)) (fun i => .fin (norm i))
    = fitR F t (fun i => .fin (data i)) (fun i => .fin (mu i)) (fun i => .fin (obs i)) (fun i => .fin (norm i))

/-- A fit that is off by `n` standard deviations in one band of two modes has a chi-square of `n²`, give or take one part in a thousand. -/
def SeesMisfit (F : Format) : Prop := ∀ (n : ℕ) (obs : ℝ), n ≤ 100 → 0 < obs → Held F obs →
  Held F (n * obs) → ∃ q, fitR F (.leaf 0) (fun _ => .fin 0) (fun _ => .fin (n * obs)) (fun _ => .fin obs) (fun _ => .fin 2) = .fin q ∧
    |q - n ^ 2| ≤ n ^ 2 / 1000

theorem held_int {b : Bool} {x : ℝ} (n e : ℤ) (hn : |n| < 2 ^ 24) (hx : x = n * 2 ^ e) (h : x = 0 ∨ 2 ^ (-126 : ℤ) ≤ |x| ∧ |x| ≤ 2 ^ (127 : ℤ)) :
    Held (single b) x := by
  rw [Held, C173_normal (F := single b) h]
  exact congrArg Xr.fin (float32_dyadic n e hn hx)

/-- The variance of a spectrum of `2⁻⁷⁶` is computed as zero. -/
theorem small_variance {b : Bool} : oneCovR (single b) (fun _ => .fin (2 ^ (-76 : ℤ))) (fun _ => .fin 2) 0 = .fin 0 := by
  have e1 : (single b).mul (.fin (2 ^ (-76 : ℤ))) (.fin (2 ^ (-76 : ℤ))) = .fin 0 :=
    rnd_tiny (F := single b) (x := 2 ^ (-76 : ℤ) * 2 ^ (-76 : ℤ)) (by
      change _ < (2 : ℝ) ^ (-126 - (24 : ℕ) : ℤ)
      rw [abs_of_pos (by positivity)]; norm_num)
  have e2 : (single b).add (.fin 0) (.fin 0) = .fin 0 := by
    change (single b).rnd (0 + 0) = _; rw [add_zero, single_zero]
  rw [oneCovR, e1, e2]
  change (single b).store (Xr.div (.fin 0) (.fin 2)) = _
  rw [Xr.div, if_neg (by norm_num), zero_div]; exact single_zero

/-- The variance of a spectrum of `2⁶⁴` is computed as infinite. -/
theorem large_variance {b : Bool} : oneCovR (single b) (fun _ => .fin (2 ^ (64 : ℤ))) (fun _ => .fin 2) 0 = .pinf := by
  have e0 : roundEven ((2 : ℝ) ^ (64 : ℤ) * 2 ^ (64 : ℤ) * 2 ^ ((24 : ℕ) - 1 - 128 : ℤ)) = 2 ^ 23 := by
    have : (2 : ℝ) ^ (64 : ℤ) * 2 ^ (64 : ℤ) * 2 ^ ((24 : ℕ) - 1 - 128 : ℤ) = ((2 ^ 23 : ℤ) : ℝ) := by norm_num
    rw [this, roundEven_int]
  have hl : Int.log 2 |(2 : ℝ) ^ (64 : ℤ) * 2 ^ (64 : ℤ)| = 128 := by
    rw [abs_of_pos (by positivity), ← zpow_add₀ (by norm_num)]
    exact_mod_cast Int.log_zpow (b := 2) (R := ℝ) (by norm_num) 128
  have e1 : (single b).mul (.fin (2 ^ (64 : ℤ))) (.fin (2 ^ (64 : ℤ))) = .pinf := by
    change (single b).rnd (2 ^ (64 : ℤ) * 2 ^ (64 : ℤ)) = _
    simp only [Format.rnd, hl]
    rw [show max (128 : ℤ) (single b).emin = 128 from rfl, show ((single b).p : ℤ) = (24 : ℕ) from rfl, e0,
      show (single b).emax = 127 from rfl, if_pos (by push_cast; rw [abs_of_pos (by positivity)]; norm_num), Xr.infSign, if_pos (by positivity)]
  rw [oneCovR, e1]
  change (single b).store (Xr.div .pinf (.fin 2)) = _
  rw [Xr.div, if_neg (by norm_num)]; rfl

/-- C173: in single precision units do matter.  The same perfect fit is zero in one unit and NaN in another, and in a third a
misfit of ten standard deviations has a chi-square of zero. -/
theorem C173_refuted (b : Bool) : ¬ UnitsInRange (single b) ∧ ¬ SeesMisfit (single b) := by
  constructor
  · intro h
    have z : Held (single b) 0 := single_zero
    have one : Held (single b) 1 := held_int 1 0 (by norm_num) (by norm_num) (.inr (by norm_num))
    have two : Held (single b) 2 := held_int 1 1 (by norm_num) (by norm_num) (.inr (by norm_num))
    have sm : Held (single b) (2 ^ (-76 : ℤ)) := held_int 1 (-76) (by norm_num) (by norm_num)
      (.inr (by rw [abs_of_pos (by positivity)]; norm_num))
    have := h (-76) (.leaf 0) (fun _ => 0) (fun _ => 0) (fun _ => 1) (fun _ => 2) fun i _ =>
      ⟨one_pos, two_pos, one, two, z, z, by rwa [mul_one], by rwa [mul_zero], by rwa [mul_zero]⟩
    simp only [mul_zero, mul_one] at this
    rw [C173_fit (b := b) (t := .leaf 0) (data := fun _ => 0) (mu := fun _ => 0) (obs := fun _ => 1) (norm := fun _ => 2)
      (fun _ _ => by norm_num) (fun _ _ => by norm_num) (fun _ _ => .inl rfl) (by simp [SumTree.depth])] at this
    have r0 : (single b).sub (.fin 0) (.fin 0) = .fin 0 := by
      change (single b).rnd (0 + -0) = _; rw [neg_zero, add_zero, single_zero]
    have d0 : (single b).div (.fin 1) (.fin 0) = .pinf := by
      change (single b).store (Xr.div (.fin 1) (.fin 0)) = _
      rw [Xr.div, if_pos rfl, Xr.infSign, if_pos one_pos]; rfl
    have m0 : (single b).mul .pinf (.fin 0) = .nan := by
      change (single b).store (Xr.infSign 0) = _
      rw [Xr.infSign, if_neg (lt_irrefl _), if_neg (lt_irrefl _)]; rfl
    have : fitR (single b) (.leaf 0) (fun _ => .fin 0) (fun _ => .fin 0) (fun _ => .fin (2 ^ (-76 : ℤ))) (fun _ => .fin 2) = .nan := by
      simp only [fitR, chi2R, SumTree.sumR, small_variance, r0, d0, m0]; rfl
    simp_all
  · intro h
    obtain ⟨q, hq, he⟩ := h 10 (2 ^ (64 : ℤ)) (by norm_num) (by positivity)
      (held_int 1 64 (by norm_num) (by norm_num) (.inr (by rw [abs_of_pos (by positivity)]; norm_num)))
      (held_int 10 64 (by norm_num) (by norm_num) (.inr (by rw [abs_of_pos (by positivity)]; norm_num)))
    have r0 : (single b).sub (.fin ((10 : ℕ) * 2 ^ (64 : ℤ))) (.fin 0) = .fin ((10 : ℕ) * 2 ^ (64 : ℤ)) := by
      change (single b).rnd (_ + -0) = _
      rw [neg_zero, add_zero]
      exact held_int 10 64 (by norm_num) (by norm_num) (.inr (by rw [abs_of_pos (by positivity)]; norm_num))
    have d0 : (single b).div (.fin 1) .pinf = .fin 0 := single_zero
    have m0 : ∀ x, (single b).mul (.fin 0) (.fin x) = .fin 0 := fun x => by
      change (single b).rnd (0 * x) = _; rw [zero_mul, single_zero]
    have m1 : ∀ x, (single b).mul (.fin x) (.fin 0) = .fin 0 := fun x => by
      change (single b).rnd (x * 0) = _; rw [mul_zero, single_zero]
    simp only [fitR, chi2R, SumTree.sumR, large_variance, r0, d0, m0, m1, Xr.fin.injEq] at hq
    rw [← hq] at he
    norm_num at he

/-- Four bands with spectra of `10⁻⁹`, a thousand modes each, and one residual of a standard deviation or so. -/
example (b : Bool) : fitR (single b) (pairwise 2 0) (fun _ => .fin 0) (fun i => .fin (if i = 0 then 2 ^ (-35 : ℤ) else 0)) (fun _ => .fin (2 ^ (-30 : ℤ)))
    (fun _ => .fin 1024) = .fin (chi2F float32 (pairwise 2 0) (fun _ => 0) (fun i => if i = 0 then 2 ^ (-35 : ℤ) else 0)
      (oneCovF float32 (fun _ => 2 ^ (-30 : ℤ)) fun _ => 1024)) := by
  have hC : ∀ i, oneCovF float32 (fun _ => (2 : ℝ) ^ (-30 : ℤ)) (fun _ => 1024) i = 2 ^ (-69 : ℤ) := fun i => by
    have e1 : float32.rd ((2 : ℝ) ^ (-30 : ℤ) * 2 ^ (-30 : ℤ)) = 2 ^ (-60 : ℤ) := by
      rw [float32_dyadic 1 (-60) (by norm_num) (by norm_num)]; norm_num
    have e2 : float32.rd ((2 : ℝ) ^ (-60 : ℤ) + 2 ^ (-60 : ℤ)) = 2 ^ (-59 : ℤ) := by
      rw [float32_dyadic 1 (-59) (by norm_num) (by norm_num)]; norm_num
    have e3 : float32.rd ((2 : ℝ) ^ (-59 : ℤ) / 1024) = 2 ^ (-69 : ℤ) := by
      rw [float32_dyadic 1 (-69) (by norm_num) (by norm_num)]; norm_num
    simp only [oneCovF, Rounding.mul, Rounding.add, Rounding.div, e1, e2, e3]
  refine C173_fit (mu := fun i => if i = 0 then 2 ^ (-35 : ℤ) else 0) (fun _ _ => by norm_num) (fun _ _ => by norm_num) (fun i _ => ?_)
    (by rw [pairwise_depth]; norm_num)
  rw [hC]
  by_cases h : i = 0
  · right; simp only [h, if_true]; norm_num
  · left; simp only [h, if_false]

end JaxCosmo
