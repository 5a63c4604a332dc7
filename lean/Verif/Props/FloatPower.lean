import Verif.Model.FloatPower
import Verif.Props.FloatRomb
import Verif.Props.Power
import Verif.Props.Kernels

/-!
# C158: the variance in spheres in floating point
-/

namespace JaxCosmo
open Spec

variable {A : Rounding} {L : Libm}

/-! ### The window function -/

theorem hasDerivAt_window (y : ℝ) : HasDerivAt (fun x => Real.sin x - x * Real.cos x) (y * Real.sin y) y := by
  have h := (Real.hasDerivAt_sin y).sub ((hasDerivAt_id y).mul (Real.hasDerivAt_cos y))
  refine h.congr_deriv ?_
  simp

/-- `|sin x - x cos x| ≤ x³ / 3`. -/
theorem window_numerator {x : ℝ} (hx : 0 ≤ x) : |Real.sin x - x * Real.cos x| ≤ x ^ 3 / 3 := by
  have key : ∀ s : ℝ, |s| = 1 → s * (Real.sin x - x * Real.cos x) ≤ x ^ 3 / 3 := fun s hs => by
    have hm : MonotoneOn (fun x => x ^ 3 / 3 - s * (Real.sin x - x * Real.cos x)) (Set.Ici 0) := by
      refine monotoneOn_of_hasDerivWithinAt_nonneg (convex_Ici 0) (f' := fun y => y ^ 2 - s * (y * Real.sin y)) ?_ ?_ ?_
      · fun_prop
      · intro y _
        have h1 := (hasDerivAt_pow 3 y).div_const 3
        have h2 := (hasDerivAt_window y).const_mul s
        refine ((h1.sub h2).congr_deriv ?_).hasDerivWithinAt
        norm_num
      · intro y hy
        rw [interior_Ici] at hy
        have hy : 0 < y := hy
        have h1 := Real.abs_sin_le_abs (x := y)
        rw [abs_of_pos hy] at h1
        have h2 : s * Real.sin y ≤ y := by
          refine (le_abs_self _).trans ?_
          rw [abs_mul, hs, one_mul]
          exact h1
        nlinarith
    have := hm (Set.mem_Ici.2 le_rfl) (Set.mem_Ici.2 hx) hx
    simp only [Real.sin_zero, zero_mul, sub_zero, mul_zero] at this
    norm_num at this
    linarith
  rw [abs_le]
  constructor
  · have := key (-1) (by norm_num); linarith
  · have := key 1 (by norm_num); linarith

theorem tophat_le_one {x : ℝ} (hx : 0 < x) : |tophat x| ≤ 1 := by
  have h := window_numerator hx.le
  have h3 : 0 < x ^ 3 := by positivity
  rw [tophat, abs_div, abs_mul, abs_of_pos h3, div_le_one h3]
  norm_num
  linarith

/-- `1 - x² / 10 ≤ W(x)`. -/
theorem le_tophat {x : ℝ} (hx : 0 < x) : 1 - x ^ 2 / 10 ≤ tophat x := by
  have hm : MonotoneOn (fun x => Real.sin x - x * Real.cos x - (x ^ 3 / 3 - x ^ 5 / 30)) (Set.Ici 0) := by
    refine monotoneOn_of_hasDerivWithinAt_nonneg (convex_Ici 0)
      (f' := fun y => y * Real.sin y - (y ^ 2 - y ^ 4 / 6)) ?_ ?_ ?_
    · fun_prop
    · intro y _
      have h1 := ((hasDerivAt_pow 3 y).div_const 3).sub ((hasDerivAt_pow 5 y).div_const 30)
      refine (((hasDerivAt_window y).sub h1).congr_deriv ?_).hasDerivWithinAt
      norm_num
      ring
    · intro y hy
      rw [interior_Ici] at hy
      have hy : 0 < y := hy
      have h := mul_le_mul_of_nonneg_left (Real.sin_gt_sub_cube hy).le hy.le
      nlinarith
  have := hm (Set.mem_Ici.2 le_rfl) (Set.mem_Ici.2 hx.le) hx.le
  simp only [Real.sin_zero, zero_mul, sub_zero] at this
  norm_num at this
  have h3 : 0 < x ^ 3 := by positivity
  rw [tophat, le_div_iff₀ h3]
  nlinarith

/-! ### Rounding of the window -/

theorem near_cube {x : ℝ} (hx : 0 < x) : Near A.u 3 1 (x ^ 3 / A.mul (A.mul x x) x) 1 ∧ 0 < A.mul (A.mul x x) x := by
  have hu := A.u_le
  have hu0 := A.u_nonneg
  have h1 := A.err (x * x)
  rw [abs_of_pos (by positivity : 0 < x * x), abs_le] at h1
  have h2 := A.err (A.mul x x * x)
  change -(A.u * (x * x)) ≤ A.mul x x - x * x ∧ A.mul x x - x * x ≤ A.u * (x * x) at h1
  set q := A.mul x x
  have hxx : 0 < x * x := by positivity
  have hq : 0 < q := by nlinarith [h1.1]
  rw [abs_of_pos (by positivity : 0 < q * x), abs_le] at h2
  change -(A.u * (q * x)) ≤ A.mul q x - q * x ∧ A.mul q x - q * x ≤ A.u * (q * x) at h2
  set c := A.mul q x
  set u := A.u
  have l1 : x * x * (1 - u) ≤ q := by linarith [h1.1]
  have l2 : q ≤ x * x * (1 + u) := by linarith [h1.2]
  have l3 : x ^ 3 * (1 - u) ^ 2 ≤ c := by
    have := mul_le_mul_of_nonneg_right l1 (by nlinarith : 0 ≤ x * (1 - u))
    nlinarith [h2.1]
  have l4 : c ≤ x ^ 3 * (1 + u) ^ 2 := by
    have := mul_le_mul_of_nonneg_right l2 (by nlinarith : 0 ≤ x * (1 + u))
    nlinarith [h2.2]
  have hx3 : 0 < x ^ 3 := by positivity
  have hc : 0 < c := lt_of_lt_of_le (mul_pos hx3 (pow_pos (by linarith) 2)) l3
  refine ⟨⟨?_, by simp⟩, hc⟩
  rw [mul_one, abs_le]
  have g : 1 ≤ (1 + u) ^ 3 * (1 - u) ^ 2 := by
    have e : (1 + u) ^ 3 * (1 - u) ^ 2 = 1 + u * (1 - 2 * u - 2 * (u * u) + u * (u * u) + u * u * (u * u)) := by ring
    have e5 : u * u ≤ 1 / 8 * (1 / 8) := mul_le_mul hu hu hu0 (by norm_num)
    have : 0 ≤ u * (1 - 2 * u - 2 * (u * u) + u * (u * u) + u * u * (u * u)) := by
      refine mul_nonneg hu0 ?_
      have h6 : 0 ≤ u * (u * u) := by positivity
      have h7 : 0 ≤ u * u * (u * u) := by positivity
      linarith
    linarith
  constructor
  · have g2 : 1 + 3 * u ≤ (1 + u) ^ 3 := by
      have : 0 ≤ u ^ 2 * (3 + u) := by positivity
      nlinarith
    have h9 : 1 - 3 * u ≤ x ^ 3 / c := by
      rw [le_div_iff₀ hc]
      have h6 := mul_le_mul_of_nonneg_left l4 (by linarith : 0 ≤ 1 - 3 * u)
      have h7 : (1 - 3 * u) * (x ^ 3 * (1 + u) ^ 2) = x ^ 3 - x ^ 3 * (u * (1 + 5 * u + 3 * u ^ 2)) := by ring
      have h8 : 0 ≤ x ^ 3 * (u * (1 + 5 * u + 3 * u ^ 2)) := by positivity
      linarith
    linarith
  · rw [sub_le_sub_iff_right, div_le_iff₀ hc]
    calc x ^ 3 = x ^ 3 * 1 := by ring
      _ ≤ x ^ 3 * ((1 + u) ^ 3 * (1 - u) ^ 2) := mul_le_mul_of_nonneg_left g hx3.le
      _ = (1 + u) ^ 3 * (x ^ 3 * (1 - u) ^ 2) := by ring
      _ ≤ (1 + u) ^ 3 * c := mul_le_mul_of_nonneg_left l3 (by positivity)

/-- C158: without rounding the window is the Fourier transform of the sphere. -/
theorem C158_exact (x : ℝ) : windowF exactArith ⟨Real.exp, Real.sin, Real.cos⟩ x = tophat x := by
  simp only [windowF, tophat, Rounding.div, Rounding.mul, Rounding.sub, exactArith, id]
  ring

/-- C158: sine and cosine computed to a relative accuracy `v` or so, the window is off by a few `u` and by a few
`(u + v) / x²`. -/
theorem C158_window_partial {x v : ℝ} (hx : 0 < x) (hs : |L.sin x - Real.sin x| ≤ v * x)
    (hc : |L.cos x - Real.cos x| ≤ v) :
    |windowF A L x - tophat x| ≤ ((1 + A.u) ^ 6 - 1) * |tophat x|
      + (1 + A.u) ^ 6 * (3 * (2 * v + A.u + A.u * v) / x ^ 2) := by
  have hu0 := A.u_nonneg
  have hv : 0 ≤ v := (abs_nonneg _).trans hc
  set m := A.mul x (L.cos x) with hm
  have h1 : |m - x * L.cos x| ≤ A.u * (x * (1 + v)) := by
    refine (A.err _).trans (mul_le_mul_of_nonneg_left ?_ hu0)
    rw [abs_mul, abs_of_pos hx]
    refine mul_le_mul_of_nonneg_left ?_ hx.le
    have := abs_sub_abs_le_abs_sub (L.cos x) (Real.cos x)
    have := Real.abs_cos_le_one x
    linarith
  have h2 : |(L.sin x - m) - (Real.sin x - x * Real.cos x)| ≤ x * (2 * v + A.u + A.u * v) := by
    have e : (L.sin x - m) - (Real.sin x - x * Real.cos x)
        = (L.sin x - Real.sin x) + (-(m - x * L.cos x) + -(x * (L.cos x - Real.cos x))) := by ring
    rw [e]
    refine (abs_add_le _ _).trans ?_
    have h3 := abs_add_le (-(m - x * L.cos x)) (-(x * (L.cos x - Real.cos x)))
    rw [abs_neg, abs_neg, abs_mul, abs_of_pos hx] at h3
    have h4 := mul_le_mul_of_nonneg_left hc hx.le
    nlinarith
  set d := L.sin x - m with hd
  have h3 : 0 < x ^ 3 := by positivity
  have n1 : Near A.u 1 |d| (A.sub (L.sin x) m) d := (Near.self (A := A) d).rd
  have n2 := (((Near.self (A := A) 3).mul n1).quot (x ^ 3))
  obtain ⟨n3, hcube⟩ := near_cube (A := A) hx
  have n4 := (n2.prod n3).rd
  rw [abs_of_pos (by norm_num : (0 : ℝ) < 3), abs_of_pos h3] at n4
  have e3 : A.mul 3 (A.sub (L.sin x) m) / x ^ 3 * (x ^ 3 / A.mul (A.mul x x) x)
      = A.mul 3 (A.sub (L.sin x) m) / A.mul (A.mul x x) x := by field_simp
  rw [e3] at n4
  have h5 := n4.1
  change |windowF A L x - _| ≤ _ at h5
  rw [mul_one, mul_one] at h5
  have h6 : |3 * d / x ^ 3 - tophat x| ≤ 3 * (2 * v + A.u + A.u * v) / x ^ 2 := by
    rw [tophat, ← sub_div, ← mul_sub, abs_div, abs_mul, abs_of_pos h3, abs_of_pos (by norm_num : (0 : ℝ) < 3),
      div_le_iff₀ h3]
    have e : 3 * (2 * v + A.u + A.u * v) / x ^ 2 * x ^ 3 = 3 * (x * (2 * v + A.u + A.u * v)) := by field_simp
    rw [e]
    linarith
  set ε := 3 * (2 * v + A.u + A.u * v) / x ^ 2
  have h7 : 3 * |d| / x ^ 3 ≤ |tophat x| + ε := by
    have e : 3 * |d| / x ^ 3 = |3 * d / x ^ 3| := by
      rw [abs_div, abs_mul, abs_of_pos h3, abs_of_pos (by norm_num : (0 : ℝ) < 3)]
    rw [e]
    have := abs_sub_abs_le_abs_sub (3 * d / x ^ 3) (tophat x)
    linarith
  have hg : 0 ≤ (1 + A.u) ^ 6 - 1 := by linarith [one_le_growth (A := A) 6]
  have h8 := mul_le_mul_of_nonneg_left h7 hg
  calc _ ≤ _ := abs_sub_le _ (3 * d / x ^ 3) _
    _ ≤ ((1 + A.u) ^ 6 - 1) * (|tophat x| + ε) + ε := add_le_add (h5.trans h8) h6
    _ = _ := by ring

theorem exp_neg_four_ge : (1 : ℝ) / 60 ≤ Real.exp (-4) := by
  rw [Real.exp_neg, ← one_div]
  refine one_div_le_one_div_of_le (Real.exp_pos 4) ?_
  have h : Real.exp 1 ≤ 2.7183 := by have := Real.exp_one_lt_d9; linarith
  calc Real.exp 4 = Real.exp 1 ^ 4 := by rw [← Real.exp_nat_mul]; norm_num
    _ ≤ 2.7183 ^ 4 := pow_le_pow_left₀ (Real.exp_pos 1).le h 4
    _ ≤ 60 := by norm_num

/-- C158 with the settings of the normalisation: spheres of radius 8 and wavenumbers from `e⁻⁴`, in single precision
with sine and cosine good to the last digit or two: the window is right to four decimals. -/
theorem C158_sigma8 {k : ℝ} (hk : Real.exp (-4) ≤ k) (hs : |L.sin (k * 8) - Real.sin (k * 8)| ≤ 1 / 2 ^ 23 * (k * 8))
    (hc : |L.cos (k * 8) - Real.cos (k * 8)| ≤ 1 / 2 ^ 23) :
    |windowF float32 L (k * 8) - tophat (k * 8)| ≤ 1 / 10 ^ 4 := by
  have h4 := exp_neg_four_ge
  have hx : 2 / 15 ≤ k * 8 := by linarith
  have hx0 : 0 < k * 8 := by linarith
  have h := C158_window_partial (A := float32) (L := L) hx0 hs hc
  have hu : float32.u = 1 / 2 ^ 24 := rfl
  have hw := tophat_le_one hx0
  have hx2 : 4 / 225 ≤ (k * 8) ^ 2 := by nlinarith
  have e1 : (1 + float32.u) ^ 6 * (3 * (2 * (1 / 2 ^ 23) + float32.u + float32.u * (1 / 2 ^ 23)) / (k * 8) ^ 2)
      ≤ 6 / 10 ^ 5 := by
    rw [mul_div_assoc', div_le_iff₀ (by positivity)]
    refine le_trans ?_ (mul_le_mul_of_nonneg_left hx2 (by norm_num))
    rw [hu]; norm_num
  have e2 : (1 + float32.u) ^ 6 - 1 ≤ 1 / 10 ^ 6 := by rw [hu]; norm_num
  have e3 : ((1 + float32.u) ^ 6 - 1) * |tophat (k * 8)| ≤ 1 / 10 ^ 6 * 1 :=
    mul_le_mul e2 hw (abs_nonneg _) (by norm_num)
  refine h.trans ?_
  norm_num at e1 e3 ⊢
  linarith

/-! ### Numbers next to a floating-point number -/

theorem roundEven_near {x : ℝ} {n : ℤ} (h : |x - n| < 1 / 2) : roundEven x = n := by
  have h1 := roundEven_err x
  have h2 : |((roundEven x - n : ℤ) : ℝ)| < 1 := by
    push_cast
    calc _ ≤ |(roundEven x : ℝ) - x| + |x - n| := abs_sub_le _ _ _
      _ < 1 := by linarith
  have h3 : |roundEven x - n| < 1 := by exact_mod_cast h2
  have := Int.abs_lt_one_iff.1 h3
  omega

theorem log_two_half {x y : ℝ} (hx : 0 < x) (h : x / 2 ≤ y) (hyx : y ≤ x) :
    Int.log 2 |x| - 1 ≤ Int.log 2 |y| ∧ Int.log 2 |y| ≤ Int.log 2 |x| := by
  have hy : 0 < y := by linarith
  rw [abs_of_pos hx, abs_of_pos hy]
  refine ⟨?_, Int.log_mono_right hy hyx⟩
  rw [← Int.zpow_le_iff_le_log (by norm_num) hy]
  have h1 := Int.zpow_log_le_self (b := 2) (by norm_num) hx
  push_cast at h1 ⊢
  rw [zpow_sub_one₀ (by norm_num)]
  linarith

/-- Just below a floating-point number one rounds to it. -/
theorem roundBinary_below {p : ℕ} {x y : ℝ} (hx : 0 < x) (hfix : roundBinary p x = x) (hyx : y ≤ x)
    (h : x - y < x / 2 ^ (p + 2)) : roundBinary p y = x := by
  have h2p : (1 : ℝ) ≤ 2 ^ p := one_le_pow₀ (by norm_num)
  have h4 : x / 2 ^ (p + 2) ≤ x / 2 := by
    refine div_le_div_of_nonneg_left hx.le (by norm_num) ?_
    rw [pow_add]; linarith
  obtain ⟨l1, l2⟩ := log_two_half hx (y := y) (by linarith) hyx
  have hlt := Int.lt_zpow_succ_log_self (b := 2) (by norm_num) |x|
  rw [abs_of_pos hx] at hlt
  set ex := Int.log 2 |x| with hex
  set ey := Int.log 2 |y| with hey
  rw [abs_of_pos hx] at hex
  rw [← hex] at hlt
  push_cast at hlt
  have hs : (0 : ℝ) < 2 ^ ((p : ℤ) - 1 - ey) := by positivity
  -- `x` is an integer in units of the last digit of `y`
  obtain ⟨N, hN⟩ : ∃ N : ℤ, x * 2 ^ ((p : ℤ) - 1 - ey) = N := by
    have e : x * 2 ^ ((p : ℤ) - 1 - ex) = roundEven (x * 2 ^ ((p : ℤ) - 1 - ex)) := by
      have h5 : x = roundEven (x * 2 ^ ((p : ℤ) - 1 - ex)) / 2 ^ ((p : ℤ) - 1 - ex) := by
        conv_lhs => rw [← hfix]
        simp only [roundBinary]
        rw [abs_of_pos hx, ← hex]
      have h6 : (0 : ℝ) < 2 ^ ((p : ℤ) - 1 - ex) := by positivity
      rw [eq_div_iff h6.ne'] at h5
      exact h5
    rcases (by omega : ey = ex ∨ ey = ex - 1) with h7 | h7
    · exact ⟨_, by rw [h7]; exact e⟩
    · refine ⟨2 * roundEven (x * 2 ^ ((p : ℤ) - 1 - ex)), ?_⟩
      rw [h7, show (p : ℤ) - 1 - (ex - 1) = (p : ℤ) - 1 - ex + 1 by ring, zpow_add_one₀ (by norm_num)]
      push_cast
      rw [← e]; ring
  have hr : roundEven (y * 2 ^ ((p : ℤ) - 1 - ey)) = N := by
    refine roundEven_near ?_
    rw [← hN, ← sub_mul, abs_mul, abs_of_pos hs, abs_sub_comm, abs_of_nonneg (by linarith)]
    have h8 : x * 2 ^ ((p : ℤ) - 1 - ey) < 2 ^ (p + 1) := by
      have e : (2 : ℝ) ^ (p + 1) = 2 ^ (ey + 2) * 2 ^ ((p : ℤ) - 1 - ey) := by
        rw [← zpow_add₀ (by norm_num), ← zpow_natCast]; congr 1; push_cast; ring
      rw [e]
      refine mul_lt_mul_of_pos_right (hlt.trans_le ?_) hs
      exact zpow_le_zpow_right₀ (by norm_num) (by omega)
    have h9 := mul_lt_mul_of_pos_right h hs
    have e : x / 2 ^ (p + 2) * 2 ^ ((p : ℤ) - 1 - ey) = x * 2 ^ ((p : ℤ) - 1 - ey) / 2 ^ (p + 2) := by ring
    rw [e] at h9
    refine h9.trans ?_
    rw [div_lt_iff₀ (by positivity)]
    refine h8.trans_le (le_of_eq ?_)
    rw [pow_succ 2 (p + 1)]; ring
  simp only [roundBinary]
  rw [← hey, hr, ← hN, mul_div_assoc, div_self hs.ne', mul_one]

/-- In units `2 ^ (e - p + 1)` a rounded number is an integer, `e` being at most the exponent of the number. -/
theorem roundBinary_grid {p : ℕ} {y : ℝ} {e : ℤ} (he : e ≤ Int.log 2 |y|) :
    ∃ N : ℤ, roundBinary p y = N * 2 ^ (e - p + 1) := by
  obtain ⟨n, hn⟩ : ∃ n : ℕ, Int.log 2 |y| = e + n := ⟨(Int.log 2 |y| - e).toNat, by omega⟩
  refine ⟨roundEven (y * 2 ^ ((p : ℤ) - 1 - Int.log 2 |y|)) * 2 ^ n, ?_⟩
  simp only [roundBinary]
  push_cast
  rw [mul_assoc, div_eq_mul_inv, ← zpow_neg, ← zpow_natCast, ← zpow_add₀ (by norm_num)]
  congr 2
  rw [hn]
  ring

theorem roundBinary_idem {p : ℕ} (hp : 1 ≤ p) {y : ℝ} (hy : 0 < y) :
    roundBinary p (roundBinary p y) = roundBinary p y := by
  obtain ⟨b1, b2⟩ := roundBinary_pos_bounds hp hy
  set e := Int.log 2 |y| with he
  set z := roundBinary p y with hz
  have hz0 : 0 < z := lt_of_lt_of_le (by positivity) b1
  have key : ∀ e' : ℤ, Int.log 2 |z| = e' → (∃ N : ℤ, z * 2 ^ ((p : ℤ) - 1 - e') = N) → roundBinary p z = z := by
    rintro e' he' ⟨N, hN⟩
    have hs : (0 : ℝ) < 2 ^ ((p : ℤ) - 1 - e') := by positivity
    simp only [roundBinary]
    rw [he', hN, roundEven_int, ← hN, mul_div_assoc, div_self hs.ne', mul_one]
  rcases b2.eq_or_lt with h | h
  · refine key (e + 1) ?_ ⟨2 ^ (p - 1), ?_⟩
    · rw [h, abs_of_pos (by positivity)]
      exact_mod_cast Int.log_zpow (R := ℝ) (b := 2) (by norm_num) (e + 1)
    · rw [h, ← zpow_add₀ (by norm_num)]
      push_cast
      rw [← zpow_natCast]
      congr 1
      omega
  · refine key e ?_ ⟨roundEven (y * 2 ^ ((p : ℤ) - 1 - e)), ?_⟩
    · rw [abs_of_pos hz0]
      have l1 : e ≤ Int.log 2 z := by
        rw [← Int.zpow_le_iff_le_log (by norm_num) hz0]; exact_mod_cast b1
      have l2 : Int.log 2 z < e + 1 := by
        rw [← Int.lt_zpow_iff_log_lt (by norm_num) hz0]; exact_mod_cast h
      omega
    · have hs : (0 : ℝ) < 2 ^ ((p : ℤ) - 1 - e) := by positivity
      rw [hz]
      simp only [roundBinary]
      rw [← he, div_mul_cancel₀ _ hs.ne']

/-- C158: below `x² = 2 ^ -(p + 2)` the window is lost, whatever library computes sine and cosine: it comes out as zero
or at least three times too large. -/
theorem C158_lost {p : ℕ} (hp : 3 ≤ p) {x : ℝ} (hx : 0 < x) (hx2 : x ^ 2 ≤ 1 / 2 ^ (p + 2))
    (hfix : (binary p hp).rd (L.sin x) = L.sin x) (hs : x / 2 ≤ L.sin x) (hc : 1 / 2 ≤ L.cos x) :
    (windowF (binary p hp) L x = 0 ∨ 3 ≤ |windowF (binary p hp) L x|) ∧ 9 / 10 ≤ tophat x ∧ tophat x ≤ 1 := by
  have h2p : (1 : ℝ) ≤ 2 ^ p := one_le_pow₀ (by norm_num)
  have hx1 : x ^ 2 ≤ 1 := hx2.trans (by
    rw [div_le_one (by positivity), pow_add]; linarith)
  refine ⟨?_, by have := le_tophat hx; linarith, (le_abs_self _).trans (tophat_le_one hx)⟩
  set A := binary p hp with hA
  set e := Int.log 2 x - 1 with he
  have b1 := Int.zpow_log_le_self (b := 2) (by norm_num) hx
  have b2 := Int.lt_zpow_succ_log_self (b := 2) (by norm_num) x
  push_cast at b1 b2
  have e1 : (2 : ℝ) ^ e ≤ x / 2 := by
    rw [he, zpow_sub_one₀ (by norm_num)]; linarith
  have hlog : ∀ y, x / 2 ≤ y → e ≤ Int.log 2 |y| := fun y hy => by
    have hy0 : 0 < y := by linarith
    rw [abs_of_pos hy0, ← Int.zpow_le_iff_le_log (by norm_num) hy0]
    exact_mod_cast e1.trans hy
  obtain ⟨N, hN⟩ := roundBinary_grid (p := p) (hlog (L.sin x) hs)
  obtain ⟨N', hN'⟩ := roundBinary_grid (p := p) (hlog (x * L.cos x) (by nlinarith))
  have hN : L.sin x = N * 2 ^ (e - p + 1) := by rw [← hN]; exact hfix.symm
  have hN' : A.mul x (L.cos x) = N' * 2 ^ (e - p + 1) := hN'
  have hu := A.u_le
  have hu0 := A.u_nonneg
  rcases eq_or_ne N N' with h | h
  · left
    unfold windowF
    rw [hN, hN', h]
    simp [Rounding.sub, Rounding.mul, Rounding.div, Rounding.zero]
  right
  have hlow : ∀ z, 7 / 8 * |z| ≤ |A.rd z| := fun z => by
    have h1 := A.err z
    have h2 := abs_sub_abs_le_abs_sub z (A.rd z)
    rw [abs_sub_comm] at h2
    nlinarith [abs_nonneg z]
  set g : ℝ := 2 ^ (e - p + 1) with hg
  have hgp : 0 < g := by positivity
  have d0 : g ≤ |L.sin x - A.mul x (L.cos x)| := by
    rw [hN, hN', ← sub_mul, abs_mul, abs_of_pos hgp]
    have : (1 : ℝ) ≤ |(N : ℝ) - N'| := by
      have : (1 : ℤ) ≤ |N - N'| := Int.one_le_abs (sub_ne_zero.2 h)
      exact_mod_cast this
    nlinarith
  have d1 := hlow (L.sin x - A.mul x (L.cos x))
  have d2 := hlow (3 * A.sub (L.sin x) (A.mul x (L.cos x)))
  rw [abs_mul, abs_of_pos (by norm_num : (0 : ℝ) < 3)] at d2
  change _ ≤ |A.sub (L.sin x) (A.mul x (L.cos x))| at d1
  change _ ≤ |A.mul 3 (A.sub (L.sin x) (A.mul x (L.cos x)))| at d2
  set D := A.mul 3 (A.sub (L.sin x) (A.mul x (L.cos x))) with hD
  have d3 : 147 / 64 * g ≤ |D| := by linarith
  have d4 := hlow (D / A.mul (A.mul x x) x)
  have hup : ∀ z, 0 < z → 0 < A.rd z ∧ A.rd z ≤ 9 / 8 * z := fun z hz => by
    have h1 := A.err z
    rw [abs_of_pos hz, abs_le] at h1
    constructor <;> nlinarith [h1.1, h1.2]
  obtain ⟨c1, c2⟩ := hup (x * x) (by positivity)
  change 0 < A.mul x x at c1
  change A.mul x x ≤ _ at c2
  obtain ⟨c3, c4⟩ := hup (A.mul x x * x) (by positivity)
  change 0 < A.mul (A.mul x x) x at c3
  change A.mul (A.mul x x) x ≤ _ at c4
  set Q := A.mul (A.mul x x) x with hQ
  have c5 : Q ≤ 81 / 64 * (x * x * x) := by
    have := mul_le_mul_of_nonneg_right c2 hx.le
    linarith
  rw [abs_div, abs_of_pos c3] at d4
  change _ ≤ |windowF A L x| at d4
  refine le_trans ?_ d4
  have c6 : 24 / 7 * Q ≤ |D| := by
    refine le_trans ?_ d3
    -- `x ^ 3 ≤ 2 ^ (e + 2) / 2 ^ (p + 2) = g / 2`
    have e2 : x ≤ 2 ^ (e + 2) := by
      rw [show e + 2 = Int.log 2 x + 1 by omega]; exact b2.le
    have e3 : x * x * x ≤ g / 2 := by
      have e4 : (2 : ℝ) ^ (e + 2) * (1 / 2 ^ (p + 2)) = g / 2 := by
        rw [hg, ← zpow_natCast, one_div, ← zpow_neg, ← zpow_add₀ (by norm_num), div_eq_mul_inv, ← zpow_neg_one,
          ← zpow_add₀ (by norm_num)]
        congr 1; push_cast; ring
      rw [← e4]
      calc x * x * x = x * x ^ 2 := by ring
        _ ≤ _ := mul_le_mul e2 hx2 (by positivity) (by positivity)
    linarith
  have c7 : 24 / 7 ≤ |D| / Q := by rwa [le_div_iff₀ c3]
  linarith

/-- C158: and with correctly rounded sine and cosine it is zero. -/
theorem C158_zero {p : ℕ} (hp : 3 ≤ p) {x : ℝ} (hx : 0 < x) (hfix : (binary p hp).rd x = x)
    (hx2 : x ^ 2 ≤ 1 / 2 ^ (p + 2)) : windowF (binary p hp) (binary p hp).libm x = 0 := by
  have hP : (0 : ℝ) < 2 ^ (p + 2) := by positivity
  have h1 : (binary p hp).rd (Real.sin x) = x := by
    refine roundBinary_below hx hfix (Real.sin_le hx.le) ?_
    have h2 := Real.sin_gt_sub_cube hx
    have h3 := mul_le_mul_of_nonneg_left hx2 hx.le
    have h4 : x * (1 / 2 ^ (p + 2)) = x / 2 ^ (p + 2) := by ring
    have h5 : 0 < x / 2 ^ (p + 2) := by positivity
    nlinarith
  have h2 : (binary p hp).rd (Real.cos x) = 1 := by
    refine roundBinary_below one_pos (binary p hp).one (Real.cos_le_one x) ?_
    have h2 := Real.one_sub_sq_div_two_le_cos (x := x)
    have h5 : (0 : ℝ) < 1 / 2 ^ (p + 2) := by positivity
    linarith
  have e1 : (binary p hp).libm.sin x = x := h1
  have e2 : (binary p hp).libm.cos x = 1 := h2
  unfold windowF
  rw [e1, e2]
  simp only [Rounding.mul, Rounding.sub, Rounding.div, mul_one, hfix, sub_self, Rounding.zero, mul_zero, zero_div]

/-! ### The variance -/

/-- What is asked of the elementary functions: exponentials to a relative accuracy of `10⁻⁶`, sine and cosine to the
last digit or two of single precision. -/
structure Libm.Good (L : Libm) : Prop where
  exp : ∀ y, |L.exp y - Real.exp y| ≤ Real.exp y / 10 ^ 6
  sin : ∀ x, 0 < x → |L.sin x - Real.sin x| ≤ 1 / 2 ^ 23 * x
  cos : ∀ x, 0 < x → |L.cos x - Real.cos x| ≤ 1 / 2 ^ 23

theorem Libm.Good.exp_pos (h : L.Good) (y : ℝ) : 0 < L.exp y := by
  have h1 := (abs_le.1 (h.exp y)).1
  have := Real.exp_pos y
  linarith

/-- The correctly rounded functions in single precision are good. -/
theorem libm_good : float32.libm.Good where
  exp y := by
    refine (float32.err _).trans ?_
    have hu : float32.u = 1 / 2 ^ 24 := rfl
    have := Real.exp_pos y
    rw [hu, abs_of_pos this]
    linarith
  sin x hx := by
    refine (float32.err _).trans ?_
    have hu : float32.u = 1 / 2 ^ 24 := rfl
    have h := Real.abs_sin_le_abs (x := x)
    rw [abs_of_pos hx] at h
    rw [hu]
    linarith
  cos x _ := by
    refine (float32.err _).trans ?_
    have hu : float32.u = 1 / 2 ^ 24 := rfl
    have h := Real.abs_cos_le_one x
    rw [hu]
    linarith

theorem Rounding.pos {A : Rounding} {z : ℝ} (hz : 0 < z) : 0 < A.rd z := by
  have h1 := A.err z
  have hu := A.u_le
  rw [abs_of_pos hz, abs_le] at h1
  nlinarith [h1.1]

/-- C158: the variance in spheres of radius 8, by which the spectrum is divided, is computed as a positive number. -/
theorem C158_normalisation (hL : L.Good) {P : ℝ → ℝ} (hP : ∀ k, 0 ≤ P k) (hP4 : 0 < P (L.exp (-4))) {c : ℝ}
    (hc : 0 < c) {t : ℕ → SumTree}
    (ht : ∀ i < 7, (t (i + 1)).leaves.Perm (List.range (2 ^ i)) ∧ (t (i + 1)).depth ≤ 64) :
    ∃ v, sigmasqrF float32 L P 8 c t = .ok v ∧ 0 < v := by
  have hnn : ∀ y, 0 ≤ sigmaIntegrandF float32 L P 8 y := fun y => by
    refine float32.nonneg (mul_nonneg (float32.nonneg (mul_nonneg (hL.exp_pos y).le (float32.nonneg ?_))) (hP _))
    exact mul_self_nonneg _
  have hpos : 0 < sigmaIntegrandF float32 L P 8 (-4) := by
    have hk0 := hL.exp_pos (-4)
    have h1 := abs_le.1 (hL.exp (-4))
    have h2 := exp_neg_four
    have h3 := exp_neg_four_ge
    have hx := float32.err (L.exp (-4) * 8)
    have hu : float32.u = 1 / 2 ^ 24 := rfl
    rw [abs_of_pos (by positivity : 0 < L.exp (-4) * 8), hu, abs_le] at hx
    change -(1 / 2 ^ 24 * (L.exp (-4) * 8)) ≤ float32.mul (L.exp (-4)) 8 - L.exp (-4) * 8 ∧ _ at hx
    set x := float32.mul (L.exp (-4)) 8 with hxdef
    have hx1 : 1 / 10 ≤ x := by linarith [hx.1]
    have hx2 : x ≤ 1 := by
      have h5 : x - L.exp (-4) * 8 ≤ 1 / 2 ^ 24 * (L.exp (-4) * 8) := hx.2
      linarith [h1.2]
    have hx0 : 0 < x := by linarith
    have hw : 0 < windowF float32 L x := by
      have h := C158_window_partial (A := float32) (L := L) hx0 (hL.sin x hx0) (hL.cos x hx0)
      have h5 := le_tophat hx0
      have h6 := tophat_le_one hx0
      have e2 : (1 + float32.u) ^ 6 - 1 ≤ 1 / 10 ^ 6 := by rw [hu]; norm_num
      have e3 : ((1 + float32.u) ^ 6 - 1) * |tophat x| ≤ 1 / 10 ^ 6 * 1 :=
        mul_le_mul e2 h6 (abs_nonneg _) (by norm_num)
      have e1 : (1 + float32.u) ^ 6 * (3 * (2 * (1 / 2 ^ 23) + float32.u + float32.u * (1 / 2 ^ 23)) / x ^ 2)
          ≤ 1 / 10 ^ 3 := by
        rw [mul_div_assoc', div_le_iff₀ (by positivity)]
        have : (1 : ℝ) / 100 ≤ x ^ 2 := by nlinarith
        refine le_trans ?_ (mul_le_mul_of_nonneg_left this (by norm_num))
        rw [hu]; norm_num
      have h7 := (abs_le.1 h).1
      have h8 : x ^ 2 ≤ 1 := by nlinarith
      norm_num at e1 e3 h7 h5
      linarith
    refine Rounding.pos (mul_pos (Rounding.pos (mul_pos hk0 (Rounding.pos ?_))) hP4)
    have := Rounding.pos (A := float32) (mul_pos hk0 hw)
    exact mul_pos this this
  obtain ⟨r, hr, hr0⟩ := C157_safe (A := float32) (d := 64) (by norm_num) (by norm_num : (-4 : ℝ) < 3) ht hnn hpos
    (by norm_num [float32, binary])
  refine ⟨float32.mul c r, ?_, Rounding.pos (mul_pos hc hr0)⟩
  simp only [sigmasqrF, hr, bind, Except.bind, pure, Except.pure]

theorem rombF_zero {fn : ℝ → ℝ} {a b : ℝ} {m : ℕ} (hm : 1 ≤ m) {t : ℕ → SumTree}
    (ht : ∀ i < m, (t (i + 1)).leaves.Perm (List.range (2 ^ i)))
    (hends : fn a = 0 ∧ fn b = 0) (hn : ∀ i < m, ∀ j < 2 ^ i, fn (trapPointF A a b (2 ^ (i + 1)) j) = 0) :
    rombF A fn a b m t = .ok 0 := by
  obtain ⟨r, v, hr, hv, h⟩ := C157_rounding (A := A) (f := fun _ => 0) (fn := fn) (a := a) (b := b) (B := 0) (η := 0)
    hm (t := t) (d := ∑ i ∈ Finset.range m, (t (i + 1)).depth)
    (fun i hi => ⟨ht i hi, Finset.single_le_sum (f := fun i => (t (i + 1)).depth) (fun _ _ => Nat.zero_le _)
      (Finset.mem_range.2 hi)⟩)
    (by simp [hends.1, hends.2]) (fun i hi j hj => by rw [hn i hi j hj]; simp) (by simp) (fun _ _ _ _ => by simp)
  have hv0 : v = 0 := by
    have h1 := C24_linear (fun _ : ℝ => (0 : ℝ)) (fun _ => 0) 0 0 a b m hv hv
    simp only [mul_zero, add_zero, zero_mul] at h1
    rw [hv, Except.ok.injEq] at h1
    exact h1
  rw [hr]
  rw [hv0] at h
  simp only [add_zero, mul_zero, sub_zero] at h
  rw [abs_nonpos_iff.1 h]

theorem trapPoint_le {j i : ℕ} (hj : j < 2 ^ i) : trapPointF float32 (-4) 3 (2 ^ (i + 1)) j ≤ 5 := by
  have hu : float32.u = 1 / 2 ^ 24 := rfl
  have up : ∀ z B, 0 ≤ z → z ≤ B → float32.rd z ≤ (1 + 1 / 2 ^ 24) * B := fun z B h0 hz => by
    have := (abs_le.1 (float32.err z)).2
    rw [abs_of_nonneg h0, hu] at this
    linarith
  have any : ∀ z, float32.rd z ≤ z + 1 / 2 ^ 24 * |z| := fun z => by
    have := (abs_le.1 (float32.err z)).2
    rw [hu] at this
    linarith
  simp only [trapPointF, two_pow_succ_half]
  push_cast
  set n : ℝ := 2 ^ i with hn
  have hn1 : 1 ≤ n := one_le_pow₀ (by norm_num)
  have hjn : (j : ℝ) ≤ n - 1 := by
    have : j + 1 ≤ 2 ^ i := hj
    have : ((j + 1 : ℕ) : ℝ) ≤ ((2 ^ i : ℕ) : ℝ) := by exact_mod_cast this
    push_cast at this
    linarith
  have hj0 : (0 : ℝ) ≤ j := Nat.cast_nonneg j
  -- the width of a panel
  have w1 : float32.mul 1 3 ≤ 301 / 100 := by
    refine (up (1 * 3) 3 (by norm_num) (by norm_num)).trans (by norm_num)
  have w2 : -(401 / 100) ≤ float32.mul 1 (-4) := by
    have := (abs_le.1 (float32.err (1 * -4))).1
    rw [hu] at this
    norm_num at this
    change _ ≤ float32.rd (1 * -4)
    norm_num
    linarith
  have w3 : float32.mul 1 (-4) ≤ 0 := by
    have := float32.mono (show (1 : ℝ) * -4 ≤ 0 by norm_num)
    rwa [float32.zero] at this
  have w4 : 0 ≤ float32.mul 1 3 := float32.nonneg (by norm_num)
  have w5 : float32.sub (float32.mul 1 3) (float32.mul 1 (-4)) ≤ 703 / 100 :=
    (up _ (702 / 100) (by linarith) (by linarith)).trans (by norm_num)
  have w6 : 0 ≤ float32.sub (float32.mul 1 3) (float32.mul 1 (-4)) := float32.nonneg (by linarith)
  set W := float32.sub (float32.mul 1 3) (float32.mul 1 (-4)) with hW
  have w7 : float32.div W n ≤ (1 + 1 / 2 ^ 24) * (703 / 100 / n) :=
    up _ _ (by positivity) (div_le_div_of_nonneg_right w5 (by positivity))
  have w8 : 0 ≤ float32.div W n := float32.nonneg (by positivity)
  have w9 : float32.div W n ≤ 704 / 100 / n := by
    refine w7.trans ?_
    rw [mul_div_assoc']
    refine div_le_div_of_nonneg_right (by norm_num) (by positivity)
  set h := float32.div W n with hh
  have hhn : h * n ≤ 704 / 100 := by rwa [le_div_iff₀ (by positivity)] at w9
  have hh8 : h ≤ 704 / 100 := by nlinarith
  have x1 : float32.mul (1 / 2) h ≤ (1 + 1 / 2 ^ 24) * (1 / 2 * h) := up _ _ (by positivity) le_rfl
  have x1' : 0 ≤ float32.mul (1 / 2) h := float32.nonneg (by positivity)
  have x2 : float32.mul h j ≤ (1 + 1 / 2 ^ 24) * (h * j) := up _ _ (by positivity) le_rfl
  have x2' : 0 ≤ float32.mul h j := float32.nonneg (by positivity)
  have hhj : h * j ≤ h * n - h := by
    have := mul_le_mul_of_nonneg_left hjn w8
    linarith
  have x3 : float32.add (-4) (float32.mul (1 / 2) h) ≤ -4 + float32.mul (1 / 2) h + 1 / 2 ^ 24 * 8 := by
    refine (any _).trans ?_
    have : |-4 + float32.mul (1 / 2) h| ≤ 8 := by
      rw [abs_le]; constructor <;> linarith
    linarith
  have x3' : -5 ≤ float32.add (-4) (float32.mul (1 / 2) h) := by
    have := (abs_le.1 (float32.err (-4 + float32.mul (1 / 2) h))).1
    rw [hu] at this
    have h9 : |-4 + float32.mul (1 / 2) h| ≤ 8 := by
      rw [abs_le]; constructor <;> linarith
    change _ ≤ float32.rd _
    linarith
  refine (any _).trans ?_
  have : |float32.add (-4) (float32.mul (1 / 2) h) + float32.mul h j| ≤ 20 := by
    rw [abs_le]; constructor <;> linarith
  linarith

/-- Claim: the variance in spheres of any radius comes out positive. -/
def VarianceNonzero : Prop := ∀ (P : ℝ → ℝ) (R c : ℝ) (t : ℕ → SumTree), (∀ k, 0 < P k) → 0 < R → 0 < c →
  (∀ i < 7, (t (i + 1)).leaves.Perm (List.range (2 ^ i))) →
  ∃ v, sigmasqrF float32 float32.libm P R c t = .ok v ∧ 0 < v

/-- In small spheres it is zero. -/
theorem C158_small {P : ℝ → ℝ} {R c : ℝ} (hR : 0 < R) (hR1 : R ≤ 1 / 10 ^ 7) {t : ℕ → SumTree}
    (ht : ∀ i < 7, (t (i + 1)).leaves.Perm (List.range (2 ^ i))) :
    sigmasqrF float32 float32.libm P R c t = .ok 0 := by
  have hz : ∀ y ≤ 5, sigmaIntegrandF float32 float32.libm P R y = 0 := fun y hy => by
    have hk : 0 < float32.libm.exp y := libm_good.exp_pos y
    have h5 : Real.exp y ≤ 149 := by
      refine (Real.exp_le_exp.2 hy).trans ?_
      have h : Real.exp 1 ≤ 2.7183 := by have := Real.exp_one_lt_d9; linarith
      calc Real.exp 5 = Real.exp 1 ^ 5 := by rw [← Real.exp_nat_mul]; norm_num
        _ ≤ 2.7183 ^ 5 := pow_le_pow_left₀ (Real.exp_pos 1).le h 5
        _ ≤ 149 := by norm_num
    have hk2 : float32.libm.exp y ≤ 150 := by
      have := (abs_le.1 (libm_good.exp y)).2
      linarith
    have hkR : float32.libm.exp y * R ≤ 150 * (1 / 10 ^ 7) := mul_le_mul hk2 hR1 hR.le (by norm_num)
    have hx0 : 0 < float32.mul (float32.libm.exp y) R := Rounding.pos (mul_pos hk hR)
    have hx : float32.mul (float32.libm.exp y) R ≤ 1 / 10 ^ 4 := by
      have := (abs_le.1 (float32.err (float32.libm.exp y * R))).2
      have hu : float32.u = 1 / 2 ^ 24 := rfl
      rw [hu, abs_of_pos (mul_pos hk hR)] at this
      change float32.rd _ ≤ _
      norm_num at hkR this ⊢
      linarith
    have hw : windowF float32 float32.libm (float32.mul (float32.libm.exp y) R) = 0 := by
      refine C158_zero (p := 24) (by norm_num) hx0 (roundBinary_idem (by norm_num) (mul_pos hk hR)) ?_
      calc _ ≤ ((1 : ℝ) / 10 ^ 4) ^ 2 := pow_le_pow_left₀ hx0.le hx 2
        _ ≤ _ := by norm_num
    simp only [sigmaIntegrandF]
    rw [hw]
    simp [Rounding.mul, Rounding.zero]
  have h := rombF_zero (A := float32) (fn := sigmaIntegrandF float32 float32.libm P R) (a := -4) (b := 3) (m := 7)
    (by norm_num) ht ⟨hz _ (by norm_num), hz _ (by norm_num)⟩ (fun i _ j hj => hz _ (trapPoint_le hj))
  simp only [sigmasqrF, h, bind, Except.bind, pure, Except.pure, Rounding.mul, mul_zero, Rounding.zero]

/-- C158: the claim is false: in spheres of radius at most `10⁻⁷` single precision gives variance zero, which in exact
arithmetic is positive. -/
theorem C158_refuted : ¬ VarianceNonzero ∧ ∀ (p : Params) (T : ℝ → ℝ) (R : ℝ), T (Real.exp (-4)) ≠ 0 → 0 < R →
    R ≤ 1 / 10 ^ 7 → 0 < sigmasqr p R T := by
  constructor
  · intro h
    have ht : ∀ i < 7, (pairwise (i + 1 - 1) 0).leaves.Perm (List.range (2 ^ i)) := fun i hi => (pairwise_ok 7 i hi).1
    obtain ⟨v, hv, hv0⟩ := h (fun _ => 1) (1 / 10 ^ 7) 1 (fun i => pairwise (i - 1) 0) (fun _ => one_pos)
      (by norm_num) one_pos ht
    rw [C158_small (by norm_num) le_rfl ht, Except.ok.injEq] at hv
    linarith
  · intro p T R hT hR hR1
    rw [sigmasqr_eq, logb_default.1, logb_default.2]
    refine mul_pos (by positivity) (romberg_pos (by norm_num)
      (fun t _ _ => varianceIntegrand_nonneg (primordial_nonneg p T) R t) ?_ 7)
    unfold varianceIntegrand
    have h1 := exp_neg_four
    have h2 := Real.exp_pos (-4)
    have h3 := tophat_pos (x := Real.exp (-4) * R) (by positivity) (by
      have := Real.pi_gt_three
      have : Real.exp (-4) * R ≤ 1 / 16 * (1 / 10 ^ 7) := mul_le_mul h1.le hR1 hR.le (by norm_num)
      linarith)
    have h4 : 0 < T (Real.exp (-4)) ^ 2 := by positivity
    positivity

/-- C158: the correctly rounded library, a constant spectrum, pairwise sums. -/
example : ∃ v, sigmasqrF float32 float32.libm (fun _ => 1) 8 (1 / 20) (fun i => pairwise (i - 1) 0) = .ok v ∧ 0 < v :=
  C158_normalisation libm_good (fun _ => zero_le_one) one_pos (by norm_num) fun i hi =>
    ⟨(pairwise_ok 7 i hi).1, (pairwise_ok 7 i hi).2.trans (by norm_num)⟩

/-- C158: at `k R = 1` the window is off by less than `10⁻⁵`. -/
example : |windowF float32 float32.libm 1 - tophat 1| ≤ 1 / 10 ^ 5 := by
  refine (C158_window_partial (A := float32) one_pos (libm_good.sin 1 one_pos) (libm_good.cos 1 one_pos)).trans ?_
  have hu : float32.u = 1 / 2 ^ 24 := rfl
  have h := tophat_le_one one_pos
  have e2 : (1 + float32.u) ^ 6 - 1 ≤ 1 / 10 ^ 6 := by rw [hu]; norm_num
  have e3 : ((1 + float32.u) ^ 6 - 1) * |tophat 1| ≤ 1 / 10 ^ 6 * 1 := mul_le_mul e2 h (abs_nonneg _) (by norm_num)
  have e4 : (1 + float32.u) ^ 6 * (3 * (2 * (1 / 2 ^ 23) + float32.u + float32.u * (1 / 2 ^ 23)) / 1 ^ 2)
      ≤ 2 / 10 ^ 6 := by rw [hu]; norm_num
  norm_num at e3 e4 ⊢
  linarith

end JaxCosmo
