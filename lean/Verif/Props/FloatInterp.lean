import Verif.Model.FloatInterp
import Verif.Props.Float
import Verif.Proofs.Interp
import Verif.Props.Interp

/-! # C131: table interpolation in floating point -/

namespace JaxCosmo
open Spec

variable {A : Rounding}

/-- C131: without rounding this is `interp`. -/
theorem C131_exact (n : ℕ) (xp fp : ℕ → ℝ) (x : ℝ) : interpF exactArith n xp fp x = interp n xp fp x := by
  have e : ∀ d : ℝ, d ^ 2 = d * d := fun d => sq d
  unfold interp
  simp only [e]
  rfl

theorem Rounding.rd_neg_iff {y : ℝ} : A.rd y < 0 ↔ y < 0 := by
  have hu := A.u_le
  constructor
  · intro h
    by_contra hy
    exact absurd (A.nonneg (not_lt.1 hy)) (not_le.2 h)
  · intro h
    have := (abs_le.1 (A.err y)).2
    rw [abs_of_neg h] at this
    nlinarith

/-- Rounded squares of distances. -/
theorem sq_bounds (d : ℝ) : (1 - A.u) ^ 3 * d ^ 2 ≤ A.mul (A.rd d) (A.rd d) ∧
    A.mul (A.rd d) (A.rd d) ≤ (1 + A.u) ^ 3 * d ^ 2 := by
  have hu := A.u_le
  have hu0 := A.u_nonneg
  have h := A.err d
  have h1 : (1 - A.u) * |d| ≤ |A.rd d| := by
    have := abs_sub_abs_le_abs_sub d (A.rd d)
    rw [abs_sub_comm] at this
    linarith
  have h2 : |A.rd d| ≤ (1 + A.u) * |d| := by
    have := abs_sub_abs_le_abs_sub (A.rd d) d
    linarith
  have h3 : (1 - A.u) ^ 2 * d ^ 2 ≤ A.rd d * A.rd d := by
    have := mul_self_le_mul_self (mul_nonneg (by linarith) (abs_nonneg d)) h1
    rw [abs_mul_abs_self] at this
    calc _ = (1 - A.u) * |d| * ((1 - A.u) * |d|) := by rw [← sq_abs d]; ring
      _ ≤ _ := this
  have h4 : A.rd d * A.rd d ≤ (1 + A.u) ^ 2 * d ^ 2 := by
    have := mul_self_le_mul_self (abs_nonneg _) h2
    rw [abs_mul_abs_self] at this
    calc _ ≤ (1 + A.u) * |d| * ((1 + A.u) * |d|) := this
      _ = _ := by rw [← sq_abs d]; ring
  have h0 : 0 ≤ A.rd d * A.rd d := mul_self_nonneg _
  have h5 := A.err (A.rd d * A.rd d)
  rw [abs_of_nonneg h0, abs_le] at h5
  unfold Rounding.mul
  constructor
  · have := mul_le_mul_of_nonneg_left h3 (by linarith : 0 ≤ 1 - A.u)
    calc _ = (1 - A.u) * ((1 - A.u) ^ 2 * d ^ 2) := by ring
      _ ≤ _ := by linarith [h5.1]
  · have := mul_le_mul_of_nonneg_left h4 (by linarith : 0 ≤ 1 + A.u)
    calc A.rd (A.rd d * A.rd d) ≤ (1 + A.u) * (A.rd d * A.rd d) := by linarith [h5.2]
      _ ≤ (1 + A.u) * ((1 + A.u) ^ 2 * d ^ 2) := this
      _ = _ := by ring

/-- A clearly larger distance stays larger. -/
theorem sq_lt_sq_rounded {d e : ℝ} (h : (1 + 8 * A.u) * |d| < |e|) :
    A.mul (A.rd d) (A.rd d) < A.mul (A.rd e) (A.rd e) := by
  have hu := A.u_le
  have hu0 := A.u_nonneg
  have h1 := (sq_bounds (A := A) d).2
  have h2 := (sq_bounds (A := A) e).1
  have h0 : 0 ≤ (1 + 8 * A.u) * |d| := by positivity
  have h3 : ((1 + 8 * A.u) * |d|) ^ 2 < |e| ^ 2 := by nlinarith
  rw [mul_pow, sq_abs, sq_abs] at h3
  have h4 : (1 + A.u) ^ 3 ≤ (1 - A.u) ^ 3 * (1 + 8 * A.u) ^ 2 := by
    generalize A.u = u at *
    have e1 : (1 - u) ^ 3 * (1 + 8 * u) ^ 2 - (1 + u) ^ 3
        = u * ((10 - 80 * u) + 96 * u * (1 - 8 * u) + u ^ 2 * (622 + 176 * u - 64 * u ^ 2)) := by ring
    have e2 : 0 ≤ u * ((10 - 80 * u) + 96 * u * (1 - 8 * u) + u ^ 2 * (622 + 176 * u - 64 * u ^ 2)) := by
      have a1 : 0 ≤ 10 - 80 * u := by linarith
      have a2 : 0 ≤ 1 - 8 * u := by linarith
      have a3 : 0 ≤ 622 + 176 * u - 64 * u ^ 2 := by nlinarith
      positivity
    linarith
  have h5 : 0 < (1 - A.u) ^ 3 := by
    have : 0 < 1 - A.u := by linarith
    positivity
  calc A.mul (A.rd d) (A.rd d) ≤ (1 + A.u) ^ 3 * d ^ 2 := h1
    _ ≤ (1 - A.u) ^ 3 * (1 + 8 * A.u) ^ 2 * d ^ 2 := by gcongr
    _ = (1 - A.u) ^ 3 * ((1 + 8 * A.u) ^ 2 * d ^ 2) := by ring
    _ < (1 - A.u) ^ 3 * e ^ 2 := by gcongr
    _ ≤ _ := h2

/-- The line as computed once the two table positions are settled. -/
noncomputable def lineF (A : Rounding) (xp fp : ℕ → ℝ) (i j : ℕ) (x : ℝ) : ℝ :=
  let a := A.div (A.sub (fp j) (fp i)) (A.sub (xp j) (xp i))
  A.add (A.mul a x) (A.sub (fp i) (A.mul a (xp i)))

/-- The position chosen, clamped to `[1, n-2]`. -/
noncomputable def nearF (A : Rounding) (n : ℕ) (xp : ℕ → ℝ) (x : ℝ) : ℕ :=
  min (max (argmin n fun i => A.mul (A.sub x (xp i)) (A.sub x (xp i))) 1) (n - 2)

theorem interpF_eq (n : ℕ) (hn : 3 ≤ n) (xp fp : ℕ → ℝ) (x : ℝ) :
    interpF A n xp fp x =
      if clip x (xp 1) (xp (n - 2)) < xp (nearF A n xp x) then
        lineF A xp fp (nearF A n xp x) (nearF A n xp x - 1) x
      else lineF A xp fp (nearF A n xp x) (nearF A n xp x + 1) x := by
  have hind : iclip (argmin n fun i => A.mul (A.sub x (xp i)) (A.sub x (xp i))) 1 ((n : ℤ) - 2)
      = ((nearF A n xp x : ℕ) : ℤ) := by
    unfold iclip nearF; omega
  have hlo : 1 ≤ nearF A n xp x := by unfold nearF; omega
  have hhi : nearF A n xp x ≤ n - 2 := by unfold nearF; omega
  unfold interpF
  simp only [hind]
  have e1 : ix n 1 = 1 := ix_nonneg (n := n) (i := 1) (by omega)
  have e2 : ix n (-2) = n - 2 := ix_neg (n := n) (i := 2) (by omega) (by omega)
  rw [ix_nonneg (by omega), e1, e2, sgn_copysign]
  generalize nearF A n xp x = k at *
  by_cases hc : clip x (xp 1) (xp (n - 2)) < xp k
  · have h0 : A.sub (clip x (xp 1) (xp (n - 2))) (xp k) < 0 := A.rd_neg_iff.2 (sub_neg.2 hc)
    rw [if_pos h0, if_pos hc]
    have e3 : ix n ((k : ℤ) + -1) = k - 1 := by
      rw [show (k : ℤ) + -1 = ((k - 1 : ℕ) : ℤ) by omega, ix_nonneg (by omega)]
    rw [e3, lineF]
  · have h0 : ¬ A.sub (clip x (xp 1) (xp (n - 2))) (xp k) < 0 := fun h =>
      hc (sub_neg.1 (A.rd_neg_iff.1 h))
    rw [if_neg h0, if_neg hc]
    have e3 : ix n ((k : ℤ) + 1) = k + 1 := by
      rw [show (k : ℤ) + 1 = ((k + 1 : ℕ) : ℤ) by omega, ix_nonneg (by omega)]
    rw [e3, lineF]

/-- The nodes are far enough apart for rounding not to confuse them: no gap is smaller than `8 u` times the gap
`H`. -/
def Spaced (A : Rounding) (n : ℕ) (xp : ℕ → ℝ) (H : ℝ) : Prop :=
  ∀ i, i + 1 < n → 8 * A.u * H < xp (i + 1) - xp i

theorem Spaced.increasing {n : ℕ} {xp : ℕ → ℝ} {H : ℝ} (h : Spaced A n xp H) (hH : 0 ≤ H) : Increasing n xp := by
  have hu := A.u_nonneg
  intro i j hij hj
  induction j with
  | zero => omega
  | succ j ih =>
    have h1 := h j hj
    have h2 : 0 ≤ 8 * A.u * H := by positivity
    rcases Nat.lt_or_ge i j with hl | hl
    · linarith [ih hl (by omega)]
    · obtain rfl : i = j := by omega
      linarith

/-- The segment containing the query point is the one used. -/
theorem nearF_mem {n : ℕ} (hn : 3 ≤ n) {xp : ℕ → ℝ} {x : ℝ} {j : ℕ} (h1 : 1 ≤ j) (h2 : j + 1 < n)
    (hs : Spaced A n xp (xp (j + 1) - xp j)) (hl : xp j ≤ x) (hr : x ≤ xp (j + 1)) :
    nearF A n xp x = j ∨ nearF A n xp x = j + 1 := by
  have hH : 0 ≤ xp (j + 1) - xp j := by linarith
  have hinc := hs.increasing hH
  have hu := A.u_nonneg
  have hp : 0 ≤ 8 * A.u * (xp (j + 1) - xp j) := by positivity
  set f : ℕ → ℝ := fun i => A.mul (A.sub x (xp i)) (A.sub x (xp i)) with hf
  have hmin := argminUpTo_min f (n - 1)
  have hle := argminUpTo_le f (n - 1)
  have hlow : j ≤ argmin n f := by
    by_contra hc
    set i := argmin n f with hi
    have hij : i < j := not_le.1 hc
    have hm : f i ≤ f j := hmin j (by omega)
    refine absurd hm (not_le.2 ?_)
    refine sq_lt_sq_rounded ?_
    have h3 : xp (i + 1) ≤ xp j := hinc.le (by omega) (by omega)
    have h4 := hs i (by omega)
    rw [abs_of_nonneg (by linarith), abs_of_nonneg (by linarith [hinc.le (i := i) (j := j) (by omega) (by omega)])]
    have h5 : 8 * A.u * (x - xp j) ≤ 8 * A.u * (xp (j + 1) - xp j) := by gcongr
    linarith
  have hhigh : argmin n f ≤ j + 1 := by
    by_contra hc
    set i := argmin n f with hi
    have hij : j + 1 < i := not_le.1 hc
    have hin : i < n := by
      have : i = argminUpTo f (n - 1) := rfl
      omega
    have hm : f i ≤ f (j + 1) := hmin (j + 1) (by omega)
    refine absurd hm (not_le.2 ?_)
    refine sq_lt_sq_rounded ?_
    have h3 : xp (j + 2) ≤ xp i := hinc.le (by omega) (by omega)
    have h4 := hs (j + 1) (by omega)
    rw [abs_of_nonpos (by linarith), abs_of_nonpos (by linarith)]
    have h5 : 8 * A.u * (xp (j + 1) - x) ≤ 8 * A.u * (xp (j + 1) - xp j) := by gcongr
    linarith
  unfold nearF
  rw [← hf]
  omega

/-- At a node the position chosen is that node. -/
theorem nearF_node {n k : ℕ} {xp : ℕ → ℝ} (h1 : 1 ≤ k) (h2 : k + 1 < n)
    (hne : ∀ i, i < n → i ≠ k → xp i ≠ xp k) : nearF A n xp (xp k) = k := by
  have hu := A.u_le
  set f : ℕ → ℝ := fun i => A.mul (A.sub (xp k) (xp i)) (A.sub (xp k) (xp i)) with hf
  have hmin := argminUpTo_min f (n - 1) k (by omega)
  have hle := argminUpTo_le f (n - 1)
  have h0 : f k = 0 := by
    simp only [hf, Rounding.sub, Rounding.mul, sub_self, Rounding.zero, mul_zero]
  have hk : argmin n f = k := by
    by_contra hc
    have hpos : 0 < f (argmin n f) := by
      have h3 := (sq_bounds (A := A) (xp k - xp (argmin n f))).1
      have h4 : 0 < 1 - A.u := by linarith
      have h5 : xp k - xp (argmin n f) ≠ 0 := sub_ne_zero.2
        (hne _ (by have : argmin n f = argminUpTo f (n - 1) := rfl
                   omega) hc).symm
      exact lt_of_lt_of_le (by positivity) h3
    have : f (argmin n f) ≤ f k := hmin
    linarith
  unfold nearF
  rw [← hf, hk]
  omega

/-- The slope as computed. -/
theorem slope_near {dx df : ℝ} (hdx : dx ≠ 0) :
    Near A.u 4 |df / dx| (A.div (A.rd df) (A.rd dx)) (df / dx) := by
  have hu := A.u_le
  have hu0 := A.u_nonneg
  have h1 : Near A.u 1 |df| (A.rd df) df := (Near.self (A := A) df).rd
  have h2 : Near A.u 2 |dx⁻¹| (A.rd dx)⁻¹ dx⁻¹ := by
    refine ⟨?_, le_rfl⟩
    have e := A.err dx
    have hp : 0 < |dx| := abs_pos.2 hdx
    have hr : (1 - A.u) * |dx| ≤ |A.rd dx| := by
      have := abs_sub_abs_le_abs_sub dx (A.rd dx)
      rw [abs_sub_comm] at this
      linarith
    have hr0 : 0 < |A.rd dx| := lt_of_lt_of_le (mul_pos (by linarith) hp) hr
    have hne : A.rd dx ≠ 0 := abs_pos.1 hr0
    rw [inv_sub_inv hne hdx, abs_div, abs_mul, abs_sub_comm, abs_inv, div_le_iff₀ (mul_pos hr0 hp)]
    have e2 : ((1 + A.u) ^ 2 - 1) * |dx|⁻¹ * (|A.rd dx| * |dx|) = ((1 + A.u) ^ 2 - 1) * |A.rd dx| := by
      field_simp
    rw [e2]
    refine e.trans ?_
    have h3 : A.u * |dx| ≤ ((1 + A.u) ^ 2 - 1) * ((1 - A.u) * |dx|) := by
      have : A.u ≤ ((1 + A.u) ^ 2 - 1) * (1 - A.u) := by
        have e3 : ((1 + A.u) ^ 2 - 1) * (1 - A.u) - A.u = A.u * (1 - A.u - A.u ^ 2) := by ring
        have : 0 ≤ A.u * (1 - A.u - A.u ^ 2) := mul_nonneg hu0 (by nlinarith)
        linarith
      nlinarith
    refine h3.trans (mul_le_mul_of_nonneg_left hr ?_)
    nlinarith
  have h3 := (h1.prod h2).rd
  rw [← abs_mul, ← div_eq_mul_inv, ← div_eq_mul_inv] at h3
  exact h3

/-- The line as computed. -/
theorem lineF_near (xp fp : ℕ → ℝ) (i j : ℕ) (x : ℝ) (h : xp j ≠ xp i) :
    Near A.u 7 (|(fp j - fp i) / (xp j - xp i)| * |x| +
        (|fp i| + |(fp j - fp i) / (xp j - xp i)| * |xp i|)) (lineF A xp fp i j x)
      ((fp j - fp i) / (xp j - xp i) * x + (fp i - (fp j - fp i) / (xp j - xp i) * xp i)) := by
  have ha := slope_near (A := A) (df := fp j - fp i) (sub_ne_zero.2 h)
  have h1 := ha.mul (Near.self (A := A) x)
  have h2 := ha.mul (Near.self (A := A) (xp i))
  have h3 := ((Near.self (A := A) (fp i)).mono (j := 5) (by norm_num)).sub h2
  exact (h1.mono (j := 6) (by norm_num)).add h3

/-- The scale of the rounding errors on a segment. -/
noncomputable def segScale (xp fp : ℕ → ℝ) (j : ℕ) (x : ℝ) : ℝ :=
  |(fp (j + 1) - fp j) / (xp (j + 1) - xp j)| * (|x| + max |xp j| |xp (j + 1)|) + max |fp j| |fp (j + 1)|

/-- C131: on an increasing table whose nodes are more than `8 u` of the current gap apart, the value computed is
the value of the piecewise-linear interpolant but for seven roundings of the two terms of `a * x + b`. -/
theorem C131_rounding {n : ℕ} {xp fp : ℕ → ℝ} {x : ℝ} {j : ℕ} (h1 : 1 ≤ j) (h2 : j + 1 < n)
    (hs : Spaced A n xp (xp (j + 1) - xp j)) (hl : xp j ≤ x)
    (hr : x < xp (j + 1) ∨ j + 2 = n ∧ x ≤ xp (j + 1)) :
    |interpF A n xp fp x - chord xp fp j x| ≤ ((1 + A.u) ^ 7 - 1) * segScale xp fp j x := by
  have hn : 3 ≤ n := by omega
  have hr' : x ≤ xp (j + 1) := by
    rcases hr with h | h
    · exact h.le
    · exact h.2
  have hinc := hs.increasing (by linarith)
  have hlt : xp j < xp (j + 1) := hinc j (j + 1) (by omega) h2
  have hg : 0 ≤ (1 + A.u) ^ 7 - 1 := by linarith [one_le_growth (A := A) 7]
  have hm := nearF_mem hn h1 h2 hs hl hr'
  rw [interpF_eq n hn]
  rcases hm with hm | hm <;> rw [hm]
  · have h0 : ¬ clip x (xp 1) (xp (n - 2)) < xp j := by
      rw [not_lt]
      unfold clip
      refine le_min ?_ (hinc.le (by omega) (by omega))
      exact hl.trans (le_max_left _ _)
    rw [if_neg h0]
    obtain ⟨h3, -⟩ := lineF_near (A := A) xp fp j (j + 1) x hlt.ne'
    have e : (fp (j + 1) - fp j) / (xp (j + 1) - xp j) * x +
        (fp j - (fp (j + 1) - fp j) / (xp (j + 1) - xp j) * xp j) = chord xp fp j x := by
      unfold chord; ring
    rw [e] at h3
    refine h3.trans (mul_le_mul_of_nonneg_left ?_ hg)
    have a1 := le_max_left |xp j| |xp (j + 1)|
    have a2 := le_max_left |fp j| |fp (j + 1)|
    have a3 := mul_le_mul_of_nonneg_left a1 (abs_nonneg ((fp (j + 1) - fp j) / (xp (j + 1) - xp j)))
    unfold segScale
    linarith
  · have hx : x < xp (j + 1) := by
      rcases hr with h | h
      · exact h
      · exfalso
        have : nearF A n xp x ≤ n - 2 := by unfold nearF; omega
        omega
    have hj : j + 1 ≤ n - 2 := by
      have : nearF A n xp x ≤ n - 2 := by unfold nearF; omega
      omega
    have h0 : clip x (xp 1) (xp (n - 2)) < xp (j + 1) := by
      unfold clip
      refine lt_of_le_of_lt (min_le_left _ _) (max_lt hx ?_)
      exact hinc 1 (j + 1) (by omega) h2
    rw [if_pos h0, Nat.add_sub_cancel]
    obtain ⟨h3, -⟩ := lineF_near (A := A) xp fp (j + 1) j x hlt.ne
    have e0 : (fp j - fp (j + 1)) / (xp j - xp (j + 1)) = (fp (j + 1) - fp j) / (xp (j + 1) - xp j) := by
      rw [← neg_sub, ← neg_sub (xp (j + 1)), neg_div_neg_eq]
    have hd : xp (j + 1) - xp j ≠ 0 := by linarith
    have e : (fp (j + 1) - fp j) / (xp (j + 1) - xp j) * x +
        (fp (j + 1) - (fp (j + 1) - fp j) / (xp (j + 1) - xp j) * xp (j + 1)) = chord xp fp j x := by
      unfold chord; field_simp; ring
    rw [e0, e] at h3
    refine h3.trans (mul_le_mul_of_nonneg_left ?_ hg)
    have a1 := le_max_right |xp j| |xp (j + 1)|
    have a2 := le_max_right |fp j| |fp (j + 1)|
    have a3 := mul_le_mul_of_nonneg_left a1 (abs_nonneg ((fp (j + 1) - fp j) / (xp (j + 1) - xp j)))
    unfold segScale
    linarith

/-- C131: the same when the table itself is only within `η` of the intended one; nothing is amplified. -/
theorem C131_table {n : ℕ} {xp fp g : ℕ → ℝ} {x η : ℝ} {j : ℕ} (h1 : 1 ≤ j) (h2 : j + 1 < n)
    (hs : Spaced A n xp (xp (j + 1) - xp j)) (hl : xp j ≤ x)
    (hr : x < xp (j + 1) ∨ j + 2 = n ∧ x ≤ xp (j + 1)) (hη : ∀ i, i < n → |fp i - g i| ≤ η) :
    |interpF A n xp fp x - chord xp g j x| ≤ ((1 + A.u) ^ 7 - 1) * segScale xp fp j x + η := by
  have h3 := C131_rounding (fp := fp) h1 h2 hs hl hr
  have hr' : x ≤ xp (j + 1) := by
    rcases hr with h | h
    · exact h.le
    · exact h.2
  have hinc := hs.increasing (by linarith)
  have hlt : xp j < xp (j + 1) := hinc j (j + 1) (by omega) h2
  have h4 : |chord xp fp j x - chord xp g j x| ≤ η := by
    have e : chord xp fp j x - chord xp g j x = (1 - (x - xp j) / (xp (j + 1) - xp j)) * (fp j - g j)
        + (x - xp j) / (xp (j + 1) - xp j) * (fp (j + 1) - g (j + 1)) := by
      unfold chord; ring
    have t0 : 0 ≤ (x - xp j) / (xp (j + 1) - xp j) := div_nonneg (by linarith) (by linarith)
    have t1 : (x - xp j) / (xp (j + 1) - xp j) ≤ 1 := (div_le_one (by linarith)).2 (by linarith)
    rw [e]
    generalize (x - xp j) / (xp (j + 1) - xp j) = t at *
    refine (abs_add_le _ _).trans ?_
    rw [abs_mul, abs_mul, abs_of_nonneg t0, abs_of_nonneg (sub_nonneg.2 t1)]
    have b1 := mul_le_mul_of_nonneg_left (hη j (by omega)) (sub_nonneg.2 t1)
    have b2 := mul_le_mul_of_nonneg_left (hη (j + 1) h2) t0
    linarith
  exact (abs_sub_le _ _ _).trans (add_le_add h3 h4)

theorem roundEven_neg (x : ℝ) : roundEven (-x) = -roundEven x := by
  by_cases h0 : Int.fract x = 0
  · obtain ⟨k, rfl⟩ : ∃ k : ℤ, (k : ℝ) = x := ⟨⌊x⌋, by linarith [Int.floor_add_fract x]⟩
    rw [← Int.cast_neg, roundEven_int, roundEven_int]
  · have e1 : Int.fract (-x) = 1 - Int.fract x := Int.fract_neg h0
    have e2 : ⌊-x⌋ = -⌊x⌋ - 1 := by
      have a := Int.floor_add_fract x
      have b := Int.floor_add_fract (-x)
      rw [e1] at b
      have : ((⌊-x⌋ : ℤ) : ℝ) = ((-⌊x⌋ - 1 : ℤ) : ℝ) := by push_cast; linarith
      exact_mod_cast this
    have e3 : Even (-⌊x⌋ - 1) ↔ ¬ Even ⌊x⌋ := by
      rw [Int.even_sub_one, even_neg]
    unfold roundEven
    rw [e1, e2]
    simp only [e3]
    split_ifs <;> first | omega | (exfalso; linarith)

theorem roundBinary_neg (p : ℕ) (x : ℝ) : roundBinary p (-x) = -roundBinary p x := by
  simp only [roundBinary, abs_neg, neg_mul, roundEven_neg, Int.cast_neg, neg_div]

/-- C131: the bound is attained in kind: next to a table value of size one, any table value below the rounding
unit is lost, even when the query point is exactly its node.  The formula `a * x + b` is anchored at `x = 0`, not
at the node. -/
theorem C131_lost {p : ℕ} (hp : 3 ≤ p) {ε : ℝ} (h0 : 0 < ε) (h1 : ε < 1 / 2 ^ p) :
    let xp : ℕ → ℝ := fun i => i
    let fp : ℕ → ℝ := fun i => if i = 1 then ε else -1
    interpF (binary p hp) 4 xp fp (xp 1) = 0 ∧ interp 4 xp fp (xp 1) = ε := by
  intro xp fp
  have h3 : (binary p hp).rd (1 + ε) = 1 := roundBinary_one_add (by omega) h0.le h1
  have h4 : (binary p hp).rd (-(1 + ε)) = -1 := by
    rw [show (binary p hp).rd (-(1 + ε)) = -(binary p hp).rd (1 + ε) from roundBinary_neg p _, h3]
  have h5 : (binary p hp).rd (-1) = -1 := by
    rw [show (binary p hp).rd (-1) = -(binary p hp).rd 1 from roundBinary_neg p _, (binary p hp).one]
  have hk : nearF (binary p hp) 4 xp (xp 1) = 1 := by
    refine nearF_node (n := 4) (k := 1) (by norm_num) (by norm_num) fun i hi hne => ?_
    simpa [xp] using hne
  refine ⟨?_, ?_⟩
  · have hc : ¬ clip (xp 1) (xp 1) (xp (4 - 2)) < xp 1 := by
      simp [clip, xp]
    rw [interpF_eq 4 (by norm_num), hk, if_neg hc]
    have e1 : fp (1 + 1) - fp 1 = -(1 + ε) := by simp [fp]; ring
    have e2 : xp (1 + 1) - xp 1 = 1 := by norm_num [xp]
    have e3 : xp 1 = 1 := by norm_num [xp]
    have e4 : fp 1 = ε := by simp [fp]
    have e5 : ε - -1 = 1 + ε := by ring
    simp only [lineF, Rounding.add, Rounding.sub, Rounding.mul, Rounding.div]
    rw [e1, e2, h4, (binary p hp).one, e3, e4, div_one, h5, mul_one, h5, e5, h3, neg_add_cancel, Rounding.zero]
  · have hinc : Increasing 4 xp := fun i j hij _ => by simpa [xp] using hij
    rw [C19_nodes_partial hinc fp (i := 1) (by norm_num) (by norm_num)]
    simp [fp]

/-- C131: the condition on the spacing is needed.  Two nodes closer than the rounding unit are at the same rounded
distance from the query point, the first of them is taken, and the line through the two is extrapolated: the value
`2 / 3` comes out as more than `1 / (2 δ)`. -/
theorem C131_close_nodes {δ : ℝ} (h0 : 0 < δ) (h1 : δ < 1 / 2 ^ 24) :
    let xp : ℕ → ℝ := fun i => if i = 0 then -1 else if i = 1 then -δ else if i = 2 then 0 else 3
    let fp : ℕ → ℝ := fun i => if i = 2 then 1 else 0
    Increasing 4 xp ∧ interp 4 xp fp 1 = 2 / 3 ∧ 1 / (2 * δ) ≤ interpF float32 4 xp fp 1 := by
  intro xp fp
  have hδ : δ < 1 := h1.trans (by norm_num)
  have x0 : xp 0 = -1 := by simp [xp]
  have x1 : xp 1 = -δ := by simp [xp]
  have x2 : xp 2 = 0 := by simp [xp]
  have x3 : xp 3 = 3 := by simp [xp]
  have hinc : Increasing 4 xp := by
    intro i j hij hj
    interval_cases j <;> interval_cases i <;> simp only [x0, x1, x2, x3] <;> linarith
  refine ⟨hinc, ?_, ?_⟩
  · rw [interp_inc_seg (by norm_num) hinc fp (j := 2) (by norm_num) (by norm_num)
      (Or.inr (by rw [x2]; norm_num)) (Or.inr (by rw [x3]; norm_num))]
    simp only [chord, x2, x3, fp]
    norm_num
  · have h3 : float32.rd (1 + δ) = 1 := roundBinary_one_add (by norm_num) h0.le h1
    set f : ℕ → ℝ := fun i => float32.mul (float32.sub 1 (xp i)) (float32.sub 1 (xp i)) with hf
    have f1 : f 1 = 1 := by
      simp only [hf, x1, Rounding.mul, Rounding.sub]
      rw [sub_neg_eq_add, h3, mul_one, float32.one]
    have f2 : f 2 = 1 := by
      simp only [hf, x2, Rounding.mul, Rounding.sub]
      rw [sub_zero, float32.one, mul_one, float32.one]
    have f0 : 1 < f 0 := by
      have h := (sq_bounds (A := float32) (1 - xp 0)).1
      rw [x0, show float32.u = 1 / 2 ^ 24 from rfl] at h
      have : f 0 = float32.mul (float32.rd (1 - -1)) (float32.rd (1 - -1)) := by
        simp only [hf, x0, Rounding.sub]
      rw [this]
      exact lt_of_lt_of_le (by norm_num) h
    have f3 : 1 < f 3 := by
      have h := (sq_bounds (A := float32) (1 - xp 3)).1
      rw [x3, show float32.u = 1 / 2 ^ 24 from rfl] at h
      have : f 3 = float32.mul (float32.rd (1 - 3)) (float32.rd (1 - 3)) := by
        simp only [hf, x3, Rounding.sub]
      rw [this]
      exact lt_of_lt_of_le (by norm_num) h
    have hk : argmin 4 f = 1 := by
      have a1 : ¬ f 2 < f 1 := by rw [f1, f2]; exact lt_irrefl _
      have a2 : f 1 < f 0 := by rw [f1]; exact f0
      have a3 : ¬ f 3 < f 1 := by rw [f1]; exact not_lt.2 f3.le
      simp only [argmin, argminUpTo, Nat.reduceAdd, zero_add, if_pos a2, if_neg a1, if_neg a3]
    have hn : nearF float32 4 xp 1 = 1 := by
      unfold nearF; rw [← hf, hk]; norm_num
    have hc : ¬ clip (1 : ℝ) (xp 1) (xp (4 - 2)) < xp 1 := by
      rw [x1, show xp (4 - 2) = 0 from x2, not_lt]
      exact le_min (le_max_right _ _) (by linarith)
    rw [interpF_eq 4 (by norm_num), hn, if_neg hc]
    obtain ⟨h, -⟩ := lineF_near (A := float32) xp fp 1 (1 + 1) 1 (by rw [x1, show xp (1 + 1) = 0 from x2]; linarith)
    rw [x1, show xp (1 + 1) = 0 from x2, show fp (1 + 1) = 1 from by simp [fp],
      show fp 1 = 0 from by simp [fp], show float32.u = 1 / 2 ^ 24 from rfl] at h
    have hd : 0 < 1 / δ := one_div_pos.2 h0
    have e1 : (1 - 0) / (0 - -δ) = 1 / δ := by ring
    have e2 : 1 / δ * δ = 1 := one_div_mul_cancel h0.ne'
    rw [e1, abs_of_pos hd, abs_neg, abs_of_pos h0, abs_one, abs_zero, mul_one, zero_add, e2] at h
    have e3 : 0 - 1 / δ * -δ = 1 := by linarith
    rw [e3] at h
    have h4 := (abs_le.1 h).1
    have h5 : 1 < 1 / δ := (one_lt_div h0).2 hδ
    have e4 : 1 / (2 * δ) = 1 / δ / 2 := by field_simp
    rw [e4]
    have h6 : ((1 + 1 / 2 ^ 24 : ℝ) ^ 7 - 1) * (1 / δ + 1) ≤ 1 / 4 * (1 / δ + 1) :=
      mul_le_mul_of_nonneg_right (by norm_num) (by linarith)
    linarith

/-- C131 on a table of squares in single precision. -/
example : |interpF float32 5 (fun i => (i : ℝ)) (fun i => (i : ℝ) ^ 2) (5 / 2) - 13 / 2| ≤ 1 / 10 ^ 4 := by
  have h := C131_rounding (A := float32) (n := 5) (xp := fun i => (i : ℝ)) (fp := fun i => (i : ℝ) ^ 2) (x := 5 / 2)
    (j := 2) (by norm_num) (by norm_num)
    (fun i _ => by rw [show float32.u = 1 / 2 ^ 24 from rfl]; push_cast; norm_num) (by norm_num)
    (Or.inl (by norm_num))
  have e : chord (fun i => (i : ℝ)) (fun i => (i : ℝ) ^ 2) 2 (5 / 2 : ℝ) = 13 / 2 := by
    norm_num [chord]
  have e2 : segScale (fun i => (i : ℝ)) (fun i => (i : ℝ) ^ 2) 2 (5 / 2 : ℝ) = 73 / 2 := by
    norm_num [segScale]
  rw [e, e2, show float32.u = 1 / 2 ^ 24 from rfl] at h
  exact h.trans (by norm_num)

/-- C131: a table value of `2 ^ -30` lost in single precision. -/
example : interpF float32 4 (fun i => (i : ℝ)) (fun i => if i = 1 then 1 / 2 ^ 30 else -1) ((1 : ℕ) : ℝ) = 0 :=
  (C131_lost (p := 24) (by norm_num) (by norm_num) (by norm_num)).1

end JaxCosmo
