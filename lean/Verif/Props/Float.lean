import Verif.Proofs.Float
import Verif.Props.Utils
import Verif.Props.Quadrature
import Verif.Props.Covariance

/-! # C95–C97: rounding errors

`A : Rounding` is any arithmetic whose operations have relative error at most `A.u`; `binary p`
is rounding to nearest with `p` binary digits (`float32` has `p = 24`). -/

namespace JaxCosmo
open Spec

variable {A : Rounding}

/-! ## C95 -/

theorem Rounding.le_rd {x : ℝ} (hx : 0 ≤ x) : (1 - A.u) * x ≤ A.rd x := by
  have := (abs_le.1 (A.err x)).1
  rw [abs_of_nonneg hx] at this
  linarith

theorem Rounding.rd_le {x : ℝ} (hx : 0 ≤ x) : A.rd x ≤ (1 + A.u) * x := by
  have := (abs_le.1 (A.err x)).2
  rw [abs_of_nonneg hx] at this
  linarith

/-- C95: without rounding these are the functions of C01. -/
theorem C95_exact (x : ℝ) : z2aF exactArith x = z2a x ∧ a2zF exactArith x = a2z x := ⟨rfl, rfl⟩

/-- C95: today is `a = 1` exactly; for `z ≥ 0` the scale factor lies in `(0, 1]` and never
increases with redshift. -/
theorem C95_range : z2aF A 0 = 1 ∧ (∀ z, 0 ≤ z → 0 < z2aF A z ∧ z2aF A z ≤ 1) ∧
    AntitoneOn (z2aF A) (Set.Ici 0) := by
  have hs : ∀ z, 0 ≤ z → 1 ≤ A.add 1 z := fun z hz => by
    have := A.mono (show (1 : ℝ) ≤ 1 + z by linarith)
    rwa [A.one] at this
  refine ⟨?_, fun z hz => ⟨?_, ?_⟩, fun x hx y _ hxy => ?_⟩
  · simp only [z2aF, Rounding.div, Rounding.add, add_zero, A.one, div_one]
  · have h1 : 0 < 1 / A.add 1 z := one_div_pos.2 (by linarith [hs z hz])
    exact lt_of_lt_of_le (mul_pos (by linarith [A.u_le]) h1) (A.le_rd h1.le)
  · have := A.mono (show 1 / A.add 1 z ≤ 1 by rw [div_le_one (by linarith [hs z hz])]; exact hs z hz)
    rwa [A.one] at this
  · refine A.mono (one_div_le_one_div_of_le (by linarith [hs x hx]) (A.mono ?_))
    linarith

theorem z2aF_bounds {z : ℝ} (hz : 0 ≤ z) :
    (1 - A.u) ≤ z2aF A z * (1 + z) * (1 + A.u) ∧ z2aF A z * (1 + z) * (1 - A.u) ≤ 1 + A.u := by
  have hu := A.u_le
  have hu0 := A.u_nonneg
  have hZ : 0 < 1 + z := by linarith
  have h1 := A.le_rd hZ.le
  have h2 := A.rd_le hZ.le
  set s := A.rd (1 + z) with hs
  have hsp : 0 < s := lt_of_lt_of_le (mul_pos (by linarith) hZ) h1
  have hi : 0 < 1 / s := one_div_pos.2 hsp
  have h3 := A.le_rd hi.le
  have h4 := A.rd_le hi.le
  have e : z2aF A z = A.rd (1 / s) := rfl
  rw [e]
  have h5 : 1 / s * s = 1 := one_div_mul_cancel hsp.ne'
  constructor
  · have : 1 ≤ 1 / s * ((1 + A.u) * (1 + z)) := by
      have := mul_le_mul_of_nonneg_left h2 hi.le; linarith
    nlinarith [mul_le_mul_of_nonneg_right h3 (by positivity : 0 ≤ (1 + z) * (1 + A.u))]
  · have : 1 / s * ((1 - A.u) * (1 + z)) ≤ 1 := by
      have := mul_le_mul_of_nonneg_left h1 hi.le; linarith
    have h6 := mul_le_mul_of_nonneg_right h4
      (mul_nonneg hZ.le (by linarith) : 0 ≤ (1 + z) * (1 - A.u))
    nlinarith

/-- C95: the scale factor is accurate to three units of rounding. -/
theorem C95_scale {z : ℝ} (hz : 0 ≤ z) : |z2aF A z - z2a z| ≤ 3 * A.u * z2a z := by
  obtain ⟨h1, h2⟩ := z2aF_bounds (A := A) hz
  have hu := A.u_le
  have hu0 := A.u_nonneg
  have hZ : 0 < 1 + z := by linarith
  have e : z2aF A z = z2aF A z * (1 + z) * (1 / (1 + z)) := by field_simp
  set w := z2aF A z * (1 + z) with hw
  have hi : 0 < 1 / (1 + z) := one_div_pos.2 hZ
  have hw1 : |w - 1| ≤ 3 * A.u := by
    rw [abs_le]; constructor <;> nlinarith
  rw [e, z2a, show w * (1 / (1 + z)) - 1 / (1 + z) = (w - 1) * (1 / (1 + z)) by ring, abs_mul,
    abs_of_pos hi]
  exact mul_le_mul_of_nonneg_right hw1 hi.le

/-- C95: a redshift survives conversion and back up to seven units of rounding of `1 + z`. -/
theorem C95_roundtrip {z : ℝ} (hz : 0 ≤ z) : |a2zF A (z2aF A z) - z| ≤ 7 * A.u * (1 + z) := by
  obtain ⟨h1, h2⟩ := z2aF_bounds (A := A) hz
  have ha := (C95_range (A := A)).2.1 z hz
  have hu := A.u_le
  have hu0 := A.u_nonneg
  have hZ : 0 < 1 + z := by linarith
  set a := z2aF A z
  set U := A.u
  have hi : 0 < 1 / a := one_div_pos.2 ha.1
  have e5 : 1 / a * a = 1 := one_div_mul_cancel ha.1.ne'
  have b1 : 1 / a * (1 - U) ≤ (1 + z) * (1 + U) := by
    have := mul_le_mul_of_nonneg_left h1 hi.le
    have e : 1 / a * (a * (1 + z) * (1 + U)) = (1 / a * a) * ((1 + z) * (1 + U)) := by ring
    rw [e, e5] at this; linarith
  have b2 : (1 + z) * (1 - U) ≤ 1 / a * (1 + U) := by
    have := mul_le_mul_of_nonneg_left h2 hi.le
    have e : 1 / a * (a * (1 + z) * (1 - U)) = (1 / a * a) * ((1 + z) * (1 - U)) := by ring
    rw [e, e5] at this; linarith
  have h3 := A.le_rd hi.le
  have h4 := A.rd_le hi.le
  have e6 : a2zF A a = A.rd (A.rd (1 / a) - 1) := rfl
  rw [e6]
  set r := A.rd (1 / a)
  set v := 1 / a
  have h5 := A.err (r - 1)
  -- bounds on r relative to 1 + z
  have hv : v ≤ (1 + z) * (1 + 17 / 7 * U) := by nlinarith
  have hv' : (1 + z) * (1 - 2 * U) ≤ v := by nlinarith
  have hr : r ≤ (1 + z) * (1 + 4 * U) := by nlinarith
  have hr' : (1 + z) * (1 - 3 * U) ≤ r := by nlinarith
  have hr1 : |r - 1 - z| ≤ 4 * U * (1 + z) := by
    rw [abs_le]; constructor <;> nlinarith
  have hr2 : |r - 1| ≤ 3 / 2 * (1 + z) := by
    have := abs_sub_abs_le_abs_sub (r - 1) z
    rw [abs_of_nonneg hz] at this
    nlinarith
  calc |A.rd (r - 1) - z| ≤ |A.rd (r - 1) - (r - 1)| + |r - 1 - z| := abs_sub_le _ _ _
    _ ≤ U * (3 / 2 * (1 + z)) + 4 * U * (1 + z) :=
        add_le_add (h5.trans (mul_le_mul_of_nonneg_left hr2 hu0)) hr1
    _ ≤ 7 * U * (1 + z) := by nlinarith

theorem roundBinary_one_add {p : ℕ} (hp : 1 ≤ p) {z : ℝ} (hz : 0 ≤ z) (h : z < 1 / 2 ^ p) :
    roundBinary p (1 + z) = 1 := by
  have hp2 : (2 : ℝ) ^ p = 2 * 2 ^ (p - 1) := by rw [← pow_succ']; congr 1; omega
  have hpp : (1 : ℝ) ≤ 2 ^ (p - 1) := one_le_pow₀ (by norm_num)
  rw [lt_div_iff₀ (by positivity), hp2] at h
  have hz2 : z < 1 := by nlinarith
  have hl : Int.log 2 |1 + z| = 0 := by
    rw [abs_of_pos (by linarith)]
    refine le_antisymm ?_ ?_
    · have := Int.zpow_log_le_self (b := 2) (by norm_num) (show (0 : ℝ) < 1 + z by linarith)
      by_contra hc
      have h1 : (2 : ℝ) ^ (1 : ℤ) ≤ 2 ^ Int.log 2 (1 + z) :=
        zpow_le_zpow_right₀ (by norm_num) (by omega)
      push_cast at this
      norm_num at h1
      linarith
    · have := Int.log_mono_right (b := 2) (show (0 : ℝ) < 1 by norm_num) (by linarith : 1 ≤ 1 + z)
      simpa using this
  have e : (2 : ℝ) ^ ((p : ℤ) - 1 - 0) = 2 ^ (p - 1) := by
    rw [← zpow_natCast]; congr 1; omega
  simp only [roundBinary, hl, e]
  have hf : ⌊(1 + z) * (2 : ℝ) ^ (p - 1)⌋ = 2 ^ (p - 1) := by
    rw [Int.floor_eq_iff]; push_cast
    constructor <;> nlinarith
  have hr : roundEven ((1 + z) * (2 : ℝ) ^ (p - 1)) = 2 ^ (p - 1) := by
    unfold roundEven
    rw [if_pos, hf]
    have := Int.floor_add_fract ((1 + z) * (2 : ℝ) ^ (p - 1))
    rw [hf] at this
    push_cast at this
    nlinarith
  rw [hr]
  push_cast
  exact div_self (by positivity)

/-- C95: the round trip is not exact: with `p` binary digits every redshift below `2 ^ -p` comes
back as zero. -/
theorem C95_lost {p : ℕ} (hp : 3 ≤ p) {z : ℝ} (hz : 0 < z) (h : z < 1 / 2 ^ p) :
    a2zF (binary p hp) (z2aF (binary p hp) z) = 0 ∧ a2z (z2a z) = z := by
  refine ⟨?_, C01_a2z_z2a z (by linarith)⟩
  have h1 : (binary p hp).rd (1 + z) = 1 := roundBinary_one_add (by omega) hz.le h
  have h2 : z2aF (binary p hp) z = 1 := by
    simp only [z2aF, Rounding.add, Rounding.div, h1, div_one, Rounding.one]
  rw [h2]
  simp only [a2zF, Rounding.sub, Rounding.div, div_one, Rounding.one, sub_self, Rounding.zero]

/-- C95 in single precision. -/
example : |a2zF float32 (z2aF float32 1) - 1| ≤ 1 / 10 ^ 6 ∧
    a2zF float32 (z2aF float32 (1 / 10 ^ 8)) = 0 := by
  constructor
  · refine (C95_roundtrip (A := float32) zero_le_one).trans ?_
    norm_num [float32, binary]
  · exact (C95_lost (by norm_num) (by norm_num) (by norm_num)).1

/-! ## C96 -/

/-- Simpson's sum of the absolute values of the samples. -/
noncomputable def absSimpson (y : ℕ → ℝ) (a b : ℝ) (N : ℕ) : ℝ :=
  |b - a| / N / 3 * ∑ i ∈ Finset.range (N / 2), (|y (2 * i)| + 4 * |y (2 * i + 1)| + |y (2 * i + 2)|)

theorem simpsF_near (y : ℕ → ℝ) (a b : ℝ) (N : ℕ) {t : SumTree}
    (ht : t.leaves.Perm (List.range (N / 2))) :
    Near A.u (t.depth + 7) (absSimpson y a b N) (simpsF A y a b N t)
      ((b - a) / N / 3 * ∑ i ∈ Finset.range (N / 2), (y (2 * i) + 4 * y (2 * i + 1) + y (2 * i + 2))) := by
  have hterm : ∀ i ∈ t.leaves, Near A.u 3 (|y (2 * i)| + 4 * |y (2 * i + 1)| + |y (2 * i + 2)|)
      (A.add (A.add (y (2 * i)) (A.mul 4 (y (2 * i + 1)))) (y (2 * i + 2)))
      (y (2 * i) + 4 * y (2 * i + 1) + y (2 * i + 2)) := fun i _ => by
    have h4 := (Near.self (A := A) 4).mul (Near.self (A := A) (y (2 * i + 1)))
    rw [abs_of_pos (by norm_num : (0 : ℝ) < 4)] at h4
    have h1 := ((Near.self (A := A) (y (2 * i))).mono (Nat.zero_le 1)).add h4
    exact h1.add ((Near.self (A := A) (y (2 * i + 2))).mono (Nat.zero_le 2))
  have hsum := Near.tree t hterm
  have hr : ∀ g : ℕ → ℝ, (t.leaves.map g).sum = ∑ i ∈ Finset.range (N / 2), g i := fun g => by
    rw [(ht.map g).sum_eq]; rfl
  rw [hr, hr] at hsum
  have hd0 : Near A.u 0 |b - a| (b - a) (b - a) := Near.self _
  have hd := ((hd0.rd.div (N : ℝ)).div 3)
  rw [abs_of_nonneg (Nat.cast_nonneg N : (0 : ℝ) ≤ N), abs_of_pos (by norm_num : (0 : ℝ) < 3)] at hd
  exact (hd.mul hsum).mono (by omega)

/-- C96: without rounding `simpsF` is `simps`. -/
theorem C96_exact (f : ℝ → ℝ) (a b : ℝ) (N : ℕ) {t : SumTree}
    (ht : t.leaves.Perm (List.range (N / 2))) :
    simpsF exactArith (fun i => f (linspace a b (N + 1) i)) a b N t = simpsBody f a b N := by
  have h := (simpsF_near (A := exactArith) (fun i => f (linspace a b (N + 1) i)) a b N ht).1
  have hu : exactArith.u = 0 := rfl
  rw [hu, add_zero, one_pow, sub_self, zero_mul] at h
  exact sub_eq_zero.1 (abs_nonpos_iff.1 h)

/-- C96: in whatever order the terms are added, the rounding error of Simpson's rule is at most
`(1 + u) ^ (depth + 7) - 1` times Simpson's sum of the absolute values of the samples. -/
theorem C96_rounding (y : ℕ → ℝ) (a b : ℝ) (N : ℕ) {t : SumTree}
    (ht : t.leaves.Perm (List.range (N / 2))) :
    |simpsF A y a b N t - (b - a) / N / 3 *
        ∑ i ∈ Finset.range (N / 2), (y (2 * i) + 4 * y (2 * i + 1) + y (2 * i + 2))|
      ≤ ((1 + A.u) ^ (t.depth + 7) - 1) * (|b - a| / N / 3 *
        ∑ i ∈ Finset.range (N / 2), (|y (2 * i)| + 4 * |y (2 * i + 1)| + |y (2 * i + 2)|)) :=
  (simpsF_near y a b N ht).1

theorem tree_nonneg {x : ℕ → ℝ} (t : SumTree) (h : ∀ i ∈ t.leaves, 0 ≤ x i) : 0 ≤ t.sum A x := by
  induction t with
  | leaf i => exact h i (by simp [SumTree.leaves])
  | node l r hl hr =>
    simp only [SumTree.leaves, List.mem_append] at h
    exact A.nonneg (add_nonneg (hl fun i hi => h i (.inl hi)) (hr fun i hi => h i (.inr hi)))

/-- C96: samples of one sign lose no accuracy by cancellation: the relative error is at most
`(1 + u) ^ (depth + 7) - 1` and the result is not negative. -/
theorem C96_positive (y : ℕ → ℝ) {a b : ℝ} (hab : a ≤ b) (N : ℕ) {t : SumTree}
    (ht : t.leaves.Perm (List.range (N / 2))) (hy : ∀ i ≤ N, 0 ≤ y i) :
    0 ≤ simpsF A y a b N t ∧
    |simpsF A y a b N t - (b - a) / N / 3 *
        ∑ i ∈ Finset.range (N / 2), (y (2 * i) + 4 * y (2 * i + 1) + y (2 * i + 2))|
      ≤ ((1 + A.u) ^ (t.depth + 7) - 1) * ((b - a) / N / 3 *
        ∑ i ∈ Finset.range (N / 2), (y (2 * i) + 4 * y (2 * i + 1) + y (2 * i + 2))) := by
  constructor
  · refine A.nonneg (mul_nonneg (A.nonneg (div_nonneg (A.nonneg (div_nonneg (A.nonneg ?_)
      (Nat.cast_nonneg N))) (by norm_num))) (tree_nonneg t fun i hi => ?_))
    · linarith
    · have hi : i < N / 2 := List.mem_range.1 (ht.mem_iff.1 hi)
      exact A.nonneg (add_nonneg (A.nonneg (add_nonneg (hy _ (by omega)) (A.nonneg
        (mul_nonneg (by norm_num) (hy _ (by omega)))))) (hy _ (by omega)))
  · refine (C96_rounding y a b N ht).trans (le_of_eq ?_)
    rw [abs_of_nonneg (by linarith)]
    congr 2
    refine Finset.sum_congr rfl fun i hi => ?_
    have hi := Finset.mem_range.1 hi
    rw [abs_of_nonneg (hy _ (by omega)), abs_of_nonneg (hy _ (by omega)),
      abs_of_nonneg (hy _ (by omega))]

theorem simpson_sum_const (a b c : ℝ) {N : ℕ} (hN : 0 < N) (hev : N % 2 = 0) :
    (b - a) / N / 3 * ∑ _i ∈ Finset.range (N / 2), (c + 4 * c + c) = (b - a) * c := by
  rw [Finset.sum_const, Finset.card_range, nsmul_eq_mul]
  have h2 : ((N / 2 : ℕ) : ℝ) = N / 2 := by
    rw [Nat.cast_div (by omega) (by norm_num)]; norm_num
  have : (N : ℝ) ≠ 0 := by exact_mod_cast hN.ne'
  rw [h2]; field_simp; ring

/-- C96: the error of the computed integral is at most the truncation error of Simpson's rule, plus
the error of the samples, plus rounding: if the samples are within `η` of an integrand bounded by
`B`, the last two add up to `(b - a) (η + ((1 + u) ^ (depth + 7) - 1) (B + η))`. -/
theorem C96_total (f : ℝ → ℝ) (y : ℕ → ℝ) {a b η B : ℝ} (hab : a ≤ b) {N : ℕ} (hN : 0 < N)
    {v : ℝ} (hv : simps f a b N = .ok v) {t : SumTree} (ht : t.leaves.Perm (List.range (N / 2)))
    (hy : ∀ i ≤ N, |y i - f (linspace a b (N + 1) i)| ≤ η)
    (hB : ∀ i ≤ N, |f (linspace a b (N + 1) i)| ≤ B) :
    |simpsF A y a b N t - ∫ x in a..b, f x| ≤ |v - ∫ x in a..b, f x|
      + (b - a) * (η + ((1 + A.u) ^ (t.depth + 7) - 1) * (B + η)) := by
  have hev : N % 2 = 0 := by
    by_contra h
    rw [simps, if_pos (by omega)] at hv
    cases hv
  rw [simps, if_neg (by omega), Except.ok.injEq] at hv
  have hh : 0 ≤ (b - a) / (N : ℝ) / 3 :=
    div_nonneg (div_nonneg (by linarith) (Nat.cast_nonneg N)) (by norm_num)
  have h1 := C96_rounding (A := A) y a b N ht
  have h2 : |b - a| / N / 3 *
      ∑ i ∈ Finset.range (N / 2), (|y (2 * i)| + 4 * |y (2 * i + 1)| + |y (2 * i + 2)|)
      ≤ (b - a) * (B + η) := by
    rw [abs_of_nonneg (by linarith), ← simpson_sum_const a b (B + η) hN hev]
    refine mul_le_mul_of_nonneg_left (Finset.sum_le_sum fun i hi => ?_) hh
    have hi := Finset.mem_range.1 hi
    have hb : ∀ i ≤ N, |y i| ≤ B + η := fun i hi => by
      have := abs_sub_abs_le_abs_sub (y i) (f (linspace a b (N + 1) i))
      linarith [hy i hi, hB i hi]
    linarith [hb (2 * i) (by omega), hb (2 * i + 1) (by omega), hb (2 * i + 2) (by omega)]
  have h3 : |(b - a) / N / 3 *
        ∑ i ∈ Finset.range (N / 2), (y (2 * i) + 4 * y (2 * i + 1) + y (2 * i + 2)) - v|
      ≤ (b - a) * η := by
    rw [← hv, ← simpson_sum_const a b η hN hev]
    simp only [simpsBody]
    rw [← mul_sub, ← Finset.sum_sub_distrib, abs_mul, abs_of_nonneg hh]
    refine mul_le_mul_of_nonneg_left ((Finset.abs_sum_le_sum_abs _ _).trans
      (Finset.sum_le_sum fun i hi => ?_)) hh
    have hi := Finset.mem_range.1 hi
    have a0 := abs_le.1 (hy (2 * i) (by omega))
    have a1 := abs_le.1 (hy (2 * i + 1) (by omega))
    have a2 := abs_le.1 (hy (2 * i + 2) (by omega))
    rw [abs_le]
    constructor <;> linarith [a0.1, a0.2, a1.1, a1.2, a2.1, a2.2]
  have hg : 0 ≤ (1 + A.u) ^ (t.depth + 7) - 1 := by
    linarith [one_le_growth (A := A) (t.depth + 7)]
  have h4 := mul_le_mul_of_nonneg_left h2 hg
  set S := (b - a) / N / 3 *
        ∑ i ∈ Finset.range (N / 2), (y (2 * i) + 4 * y (2 * i + 1) + y (2 * i + 2))
  set I := ∫ x in a..b, f x
  have h5 := abs_sub_le (simpsF A y a b N t) S I
  have h6 := abs_sub_le S v I
  nlinarith

/-- C96: two panels added from left to right, in single precision: the samples `1, 2, 3, 4, 5` of
`x + 1` on `[0, 4]`, whose integral is 12. -/
example : |simpsF float32 (fun i => i + 1) 0 4 4 (.node (.leaf 0) (.leaf 1)) - 12| ≤ 1 / 10 ^ 4 := by
  have ht : (SumTree.node (.leaf 0) (.leaf 1)).leaves.Perm (List.range (4 / 2)) := by
    simp [SumTree.leaves, List.range_succ]
  have := (C96_positive (A := float32) (fun i => (i : ℝ) + 1) (a := 0) (b := 4) (by norm_num) 4 ht
    fun i _ => by positivity).2
  norm_num [Finset.sum_range_succ, SumTree.depth, float32, binary] at this ⊢
  exact this.trans (by norm_num)

/-! ## C97 -/

/-- C97: the covariance computed in floating point is exactly symmetric: with `M` spectra, block
`(I, J)` equals block `(J, I)` bit by bit, whatever the arithmetic, spectra and weights. -/
theorem C97_symmetric (probes : List Probe) (cl_obs : List (List ℝ)) (norm : ℕ → ℝ) :
    ∃ blocks, covBlockDiagF A probes cl_obs norm = .ok blocks ∧
      blocks.length = pairCount (tracers probes).length * pairCount (tracers probes).length ∧
      ∀ I < pairCount (tracers probes).length, ∀ J < pairCount (tracers probes).length, ∀ l,
        blocks.getD (I * pairCount (tracers probes).length + J) 0 l
          = blocks.getD (J * pairCount (tracers probes).length + I) 0 l := by
  set N := (tracers probes).length with hN
  have hb : getCovBlocksOrdering probes = covBlocks (clIndex N) := by
    rw [getCovBlocksOrdering, getClOrdering, nTracers_eq]
  unfold covBlockDiagF
  rw [hb, covBlocks_eq]
  refine ⟨_, rfl, ?_, fun I hI J hJ l => ?_⟩
  · simp [List.length_flatMap, length_clIndex]
  · have e1 := getD_block (N := N) (fun abcd l =>
      A.div (A.add (A.mul (rowAt cl_obs abcd.1 l) (rowAt cl_obs abcd.2.1 l))
      (A.mul (rowAt cl_obs abcd.2.2.1 l) (rowAt cl_obs abcd.2.2.2 l))) (norm l)) ⟨I, hI⟩ ⟨J, hJ⟩
    have e2 := getD_block (N := N) (fun abcd l =>
      A.div (A.add (A.mul (rowAt cl_obs abcd.1 l) (rowAt cl_obs abcd.2.1 l))
      (A.mul (rowAt cl_obs abcd.2.2.1 l) (rowAt cl_obs abcd.2.2.2 l))) (norm l)) ⟨J, hJ⟩ ⟨I, hI⟩
    refine (congrFun e1 l).trans (Eq.trans ?_ (congrFun e2 l).symm)
    simp only [pairPos_comm N (pairOf N ⟨J, hJ⟩).1 (pairOf N ⟨I, hI⟩).1,
      pairPos_comm N (pairOf N ⟨J, hJ⟩).2 (pairOf N ⟨I, hI⟩).2,
      pairPos_comm N (pairOf N ⟨J, hJ⟩).1 (pairOf N ⟨I, hI⟩).2,
      pairPos_comm N (pairOf N ⟨J, hJ⟩).2 (pairOf N ⟨I, hI⟩).1, Rounding.mul,
      mul_comm (rowAt cl_obs (pairPos N (pairOf N ⟨I, hI⟩).2 (pairOf N ⟨J, hJ⟩).1) l)]

theorem rowAt_abs (cl : List (List ℝ)) (a l : ℕ) :
    rowAt (cl.map (List.map abs)) a l = |rowAt cl a l| := by
  have h1 : (cl.map (List.map abs)).getD a [] = (cl.getD a []).map abs := by
    rw [List.getD_eq_getElem?_getD, List.getD_eq_getElem?_getD, List.getElem?_map]
    cases cl[a]? <;> rfl
  unfold rowAt
  rw [h1]
  generalize cl.getD a [] = r
  rw [List.getD_eq_getElem?_getD, List.getD_eq_getElem?_getD, List.getElem?_map]
  cases r[l]?
  · exact (abs_zero (α := ℝ)).symm
  · rfl

/-- C97: every entry is within three roundings of the exact Wick product of the same spectra;
relative to the entry itself when the spectra are non-negative. -/
theorem C97_accurate (probes : List Probe) (cl_obs : List (List ℝ)) (norm : ℕ → ℝ) :
    ∃ blocks exact size, covBlockDiagF A probes cl_obs norm = .ok blocks ∧
      covBlockDiag probes cl_obs norm = .ok exact ∧
      covBlockDiag probes (cl_obs.map (List.map abs)) (fun l => |norm l|) = .ok size ∧
      blocks.length = exact.length ∧ size.length = exact.length ∧
      ∀ q < exact.length, ∀ l,
        |blocks.getD q 0 l - exact.getD q 0 l| ≤ ((1 + A.u) ^ 3 - 1) * size.getD q 0 l := by
  obtain ⟨w, hw⟩ : ∃ w, getCovBlocksOrdering probes = .ok w := by
    rw [getCovBlocksOrdering, getClOrdering]; exact ⟨_, covBlocks_eq _⟩
  unfold covBlockDiagF covBlockDiag
  rw [hw]
  refine ⟨_, _, _, rfl, rfl, rfl, by simp, by simp, fun q hq l => ?_⟩
  rw [List.length_map] at hq
  rw [List.getD_eq_getElem _ _ (by rwa [List.length_map]),
    List.getD_eq_getElem _ _ (by rwa [List.length_map]),
    List.getD_eq_getElem _ _ (by rwa [List.length_map]), List.getElem_map, List.getElem_map,
    List.getElem_map]
  generalize w[q] = w
  have h1 := (Near.self (A := A) (rowAt cl_obs w.1 l)).mul (Near.self (A := A) (rowAt cl_obs w.2.1 l))
  have h2 := (Near.self (A := A) (rowAt cl_obs w.2.2.1 l)).mul
    (Near.self (A := A) (rowAt cl_obs w.2.2.2 l))
  have h3 := ((h1.add h2).div (norm l)).1
  simp only [rowAt_abs]
  exact h3

/-- C97 for one lensing probe with two bins: blocks `(0, 1)` and `(1, 0)` agree. -/
example (b1 b2 : Nz) (cl : List (List ℝ)) (norm : ℕ → ℝ) :
    ∃ blocks, covBlockDiagF float32 [.wl (.init [b1, b2])] cl norm = .ok blocks ∧
      blocks.getD 1 0 0 = blocks.getD 3 0 0 := by
  obtain ⟨blocks, h1, -, h3⟩ := C97_symmetric (A := float32) [.wl (.init [b1, b2])] cl norm
  have hl : (tracers [.wl (.init [b1, b2])]).length = 2 := by
    rw [← nTracers_eq]
    simp [nTracers, Probe.nTracers, Probe.bins, WeakLensing.init]
  rw [hl] at h3
  exact ⟨blocks, h1, h3 0 (by decide) 1 (by decide) 0⟩

end JaxCosmo
