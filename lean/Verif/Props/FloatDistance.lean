import Verif.Model.FloatBackground
import Verif.Props.FloatInterp
import Verif.Props.FloatPower
import Verif.Props.FloatOde
import Verif.Props.HubbleRadius
import Verif.Props.GrowthSlope

/-! # C163: distances in floating point -/

namespace JaxCosmo
open Spec

variable {A : Rounding}

/-- The running integral `chitab` of line 231. -/
noncomputable def runF (A : Rounding) (rate : ℝ → ℝ) (t : ℕ → ℝ) (i : ℕ) : ℝ :=
  odeintF A (fun (_ : Unit → ℝ) x _ => rate x) (fun _ => 0) t i ()

/-- The increment of one step as computed. -/
noncomputable def incF (A : Rounding) (rate : ℝ → ℝ) (s t : ℝ) : ℝ :=
  let h := A.sub t s
  let k := rate (A.add s (A.div h 2))
  A.rd (A.mul (A.div 1 6) h * A.rd (A.rd (A.rd (rate s + A.rd (2 * k)) + A.rd (2 * k)) + rate t))

theorem carry_eq (rate : ℝ → ℝ) (t : ℕ → ℝ) (i : ℕ) :
    scanCarry (rk4F A (fun (_ : Unit → ℝ) x _ => rate x)) (fun _ => 0, t 0) t (i + 1)
      = (odeintF A (fun (_ : Unit → ℝ) x _ => rate x) (fun _ => 0) t i, t i) := rfl

theorem runF_zero (rate : ℝ → ℝ) (t : ℕ → ℝ) : runF A rate t 0 = 0 := by
  change A.rd (0 + incF A rate (t 0) (t 0)) = 0
  have : incF A rate (t 0) (t 0) = 0 := by
    simp only [incF, Rounding.sub, Rounding.mul, sub_self, A.zero, mul_zero, zero_mul]
  rw [this, add_zero, A.zero]

theorem runF_succ (rate : ℝ → ℝ) (t : ℕ → ℝ) (i : ℕ) :
    runF A rate t (i + 1) = A.rd (runF A rate t i + incF A rate (t i) (t (i + 1))) := by
  rw [runF, odeintF, scanOut, carry_eq]
  rfl

/-- The exact running integral over the same nodes. -/
noncomputable def runOf (g : ℝ → ℝ) (t : ℕ → ℝ) (i : ℕ) : ℝ := ∑ j ∈ Finset.range i, panel g (t j) (t (j + 1))

theorem runF_exact (g : ℝ → ℝ) (t : ℕ → ℝ) (i : ℕ) : runF exactArith g t i = runOf g t i := by
  induction i with
  | zero => rw [runF_zero]; rfl
  | succ i ih =>
    rw [runF_succ, ih, runOf, runOf, Finset.sum_range_succ]
    change _ + _ = _
    congr 1
    simp only [incF, panel, Rounding.sub, Rounding.mul, Rounding.div, Rounding.add, exactArith, id]
    rw [show t i + (t (i + 1) - t i) / 2 = (t i + t (i + 1)) / 2 by ring]
    ring

/-- C163: without rounding this is the exact model. -/
theorem C163_exact (p : Params) (lo : ℝ) (n : ℕ) :
    chiTableF exactArith (chiRate p) (logspace lo 0 n) (fun i => Real.log (logspace lo 0 n i)) n = chiTable p lo n ∧
      ∀ c a, readChiF exactArith c a = readChi c a := by
  constructor
  · have h : ∀ i, odeint (fun _ => chiRate p) 0 (fun i => Real.log (logspace lo 0 n i)) i
        = runF exactArith (chiRate p) (fun i => Real.log (logspace lo 0 n i)) i := fun i => by
      rw [runF_exact, odeint_panel, zero_add, runOf]
    have e : (chiTable p lo n) = ⟨n, logspace lo 0 n, fun i =>
        odeint (fun _ => chiRate p) 0 (fun i => Real.log (logspace lo 0 n i)) (ix n (-1))
        - odeint (fun _ => chiRate p) 0 (fun i => Real.log (logspace lo 0 n i)) i⟩ := rfl
    rw [e]
    simp only [h]
    rfl
  · intro c a
    rw [readChiF, C131_exact, readChi]

/-! ### Errors of the table -/

/-- The rates are computed to within `q` roundings, at the nodes and at the midpoints as computed. -/
structure RatesNear (A : Rounding) (q : ℕ) (g rate : ℝ → ℝ) (t : ℕ → ℝ) (n : ℕ) : Prop where
  node : ∀ i < n, Near A.u q (g (t i)) (rate (t i)) (g (t i))
  mid : ∀ i, i + 1 < n → Near A.u q (g ((t i + t (i + 1)) / 2))
    (rate (A.add (t i) (A.div (A.sub (t (i + 1)) (t i)) 2))) (g ((t i + t (i + 1)) / 2))
  incr : ∀ i, i + 1 < n → t i ≤ t (i + 1)

variable {q n : ℕ} {g rate : ℝ → ℝ} {t : ℕ → ℝ}

theorem RatesNear.panel_nonneg (h : RatesNear A q g rate t n) {i : ℕ} (hi : i + 1 < n) :
    0 ≤ panel g (t i) (t (i + 1)) := by
  have h1 := (abs_nonneg _).trans (h.node i (by omega)).2
  have h2 := (abs_nonneg _).trans (h.node (i + 1) hi).2
  have h3 := (abs_nonneg _).trans (h.mid i hi).2
  have h4 := h.incr i hi
  unfold panel
  have : 0 ≤ t (i + 1) - t i := by linarith
  positivity

theorem incF_near (h : RatesNear A q g rate t n) {i : ℕ} (hi : i + 1 < n) :
    Near A.u (q + 8) (panel g (t i) (t (i + 1))) (incF A rate (t i) (t (i + 1))) (panel g (t i) (t (i + 1))) := by
  have hh : Near A.u 1 (t (i + 1) - t i) (A.sub (t (i + 1)) (t i)) (t (i + 1) - t i) := by
    have := (Near.self (A := A) (t (i + 1) - t i)).rd
    rwa [abs_of_nonneg (by linarith [h.incr i hi])] at this
  have h6 : Near A.u 1 (1 / 6) (A.div 1 6) (1 / 6) := by
    have := (Near.self (A := A) (1 / 6)).rd
    rwa [abs_of_nonneg (by norm_num)] at this
  have hc := h6.mul hh
  have h2 : Near A.u (q + 1) (2 * g ((t i + t (i + 1)) / 2))
      (A.rd (2 * rate (A.add (t i) (A.div (A.sub (t (i + 1)) (t i)) 2)))) (2 * g ((t i + t (i + 1)) / 2)) := by
    have := ((Near.self (A := A) 2).prod (h.mid i hi)).rd
    rwa [abs_of_nonneg (by norm_num), zero_add] at this
  have s1 := ((((h.node i (by omega)).mono (Nat.le_succ q)).sum h2).rd.sum (h2.mono (Nat.le_succ _))).rd.sum
    ((h.node (i + 1) hi).mono (by omega : q ≤ q + 3)) |>.rd
  have key := (hc.prod s1).rd
  have e : ∀ x y z : ℝ, 1 / 6 * (t (i + 1) - t i) * (x + 2 * y + 2 * y + z)
      = (t (i + 1) - t i) / 6 * (x + 4 * y + z) := fun x y z => by ring
  rw [e] at key
  exact key.mono (by omega)

theorem runF_near (h : RatesNear A q g rate t n) {i : ℕ} (hi : i < n) :
    Near A.u (q + 8 + i) (runOf g t i) (runF A rate t i) (runOf g t i) := by
  induction i with
  | zero =>
    rw [runF_zero, runOf, Finset.sum_range_zero]
    constructor <;> simp
  | succ i ih =>
    rw [runF_succ, runOf, Finset.sum_range_succ]
    exact ((ih (by omega)).sum ((incF_near h hi).mono (by omega))).rd

/-- C163: what rounding does to the table.  Every entry is a difference of running integrals, so its error is in
proportion to the whole distance covered by the table and not to the entry itself. -/
theorem C163_table (a : ℕ → ℝ) (h : RatesNear A q g rate t n) {i : ℕ} (hi : i < n) :
    |(chiTableF A rate a t n).chi i - (runOf g t (n - 1) - runOf g t i)|
      ≤ ((1 + A.u) ^ (q + 8 + n) - 1) * (runOf g t (n - 1) + runOf g t i) := by
  have e : (chiTableF A rate a t n).chi i = A.sub (runF A rate t (ix n (-1))) (runF A rate t i) := rfl
  rw [e, ix_last]
  have := ((runF_near h (i := n - 1) (by omega)).sub ((runF_near h hi).mono (by omega : q + 8 + i ≤ q + 8 + (n - 1)))).1
  rwa [show q + 8 + (n - 1) + 1 = q + 8 + n by omega] at this

/-- The rates as computed are not negative and the nodes are in order. -/
structure RatesNonneg (rate : ℝ → ℝ) (t : ℕ → ℝ) (n : ℕ) : Prop where
  rate : ∀ x, 0 ≤ rate x
  incr : ∀ i, i + 1 < n → t i ≤ t (i + 1)

theorem incF_nonneg (h : RatesNonneg rate t n) {i : ℕ} (hi : i + 1 < n) : 0 ≤ incF A rate (t i) (t (i + 1)) := by
  have h0 := h.rate
  have hh : 0 ≤ A.sub (t (i + 1)) (t i) := A.nonneg (by linarith [h.incr i hi])
  have h6 : 0 ≤ A.div 1 6 := A.nonneg (by norm_num)
  have hk : 0 ≤ A.rd (2 * rate (A.add (t i) (A.div (A.sub (t (i + 1)) (t i)) 2))) :=
    A.nonneg (mul_nonneg (by norm_num) (h0 _))
  unfold incF
  exact A.nonneg (mul_nonneg (A.nonneg (mul_nonneg h6 hh)) (A.nonneg (add_nonneg (A.nonneg (add_nonneg
    (A.nonneg (add_nonneg (h0 _) hk)) hk)) (h0 _))))

/-- C163: whatever the rates, in binary arithmetic the table is exactly zero today, never negative and never increases
with the scale factor. -/
theorem C163_order {p : ℕ} (hp : 3 ≤ p) (a : ℕ → ℝ) (h : RatesNonneg rate t n) :
    (chiTableF (binary p hp) rate a t n).chi (n - 1) = 0 ∧
      ∀ i, i + 1 < n → (chiTableF (binary p hp) rate a t n).chi (i + 1) ≤ (chiTableF (binary p hp) rate a t n).chi i := by
  have e : ∀ i, (chiTableF (binary p hp) rate a t n).chi i
      = (binary p hp).sub (runF (binary p hp) rate t (n - 1)) (runF (binary p hp) rate t i) := fun i => by
    rw [← ix_last]; rfl
  have hnn : ∀ i, i < n → 0 ≤ runF (binary p hp) rate t i ∧
      (binary p hp).rd (runF (binary p hp) rate t i) = runF (binary p hp) rate t i := fun i hi => by
    have idem : ∀ y, 0 ≤ y → (binary p hp).rd ((binary p hp).rd y) = (binary p hp).rd y := fun y hy => by
      rcases hy.eq_or_lt with rfl | hy
      · rw [(binary p hp).zero, (binary p hp).zero]
      · exact roundBinary_idem (by omega) hy
    induction i with
    | zero => rw [runF_zero]; exact ⟨le_rfl, (binary p hp).zero⟩
    | succ i ih =>
      have h0 : 0 ≤ runF (binary p hp) rate t i + incF (binary p hp) rate (t i) (t (i + 1)) :=
        add_nonneg (ih (by omega)).1 (incF_nonneg h hi)
      rw [runF_succ]
      exact ⟨(binary p hp).nonneg h0, idem _ h0⟩
  refine ⟨?_, fun i hi => ?_⟩
  · rw [e, Rounding.sub, sub_self, (binary p hp).zero]
  · rw [e, e]
    refine (binary p hp).mono ?_
    have h1 : runF (binary p hp) rate t i ≤ runF (binary p hp) rate t (i + 1) := by
      rw [runF_succ]
      calc runF (binary p hp) rate t i = (binary p hp).rd (runF (binary p hp) rate t i) := (hnn i (by omega)).2.symm
        _ ≤ _ := (binary p hp).mono (by linarith [incF_nonneg (A := binary p hp) h hi])
    linarith

/-! ### Reading the table -/

/-- C163, partial: the distance returned is the chord of the exact running integrals up to roundings of the whole
distance and of the two terms of `a * x + b`.  What is missing is an error in proportion to the distance itself: see
`C163_refuted`. -/
theorem C163_distance_partial {a : ℕ → ℝ} (h : RatesNear A q g rate t n) {j : ℕ} {x : ℝ} (h1 : 1 ≤ j) (h2 : j + 1 < n)
    (hs : Spaced A n a (a (j + 1) - a j)) (hl : a j ≤ x) (hr : x < a (j + 1) ∨ j + 2 = n ∧ x ≤ a (j + 1)) :
    |readChiF A (chiTableF A rate a t n) x - chord a (fun i => runOf g t (n - 1) - runOf g t i) j x|
      ≤ ((1 + A.u) ^ 7 - 1) * segScale a (chiTableF A rate a t n).chi j x
        + ((1 + A.u) ^ (q + 8 + n) - 1) * (2 * runOf g t (n - 1)) := by
  have hmono : ∀ i, i < n → runOf g t i ≤ runOf g t (n - 1) := fun i hi => by
    unfold runOf
    refine Finset.sum_le_sum_of_subset_of_nonneg (Finset.range_mono (by omega)) fun k hk _ => ?_
    rw [Finset.mem_range] at hk
    exact h.panel_nonneg (by omega)
  have hg : 0 ≤ (1 + A.u) ^ (q + 8 + n) - 1 := by linarith [one_le_growth (A := A) (q + 8 + n)]
  have key := C131_table (fp := (chiTableF A rate a t n).chi) (g := fun i => runOf g t (n - 1) - runOf g t i)
    (η := ((1 + A.u) ^ (q + 8 + n) - 1) * (2 * runOf g t (n - 1))) h1 h2 hs hl hr fun i hi =>
      (C163_table a h hi).trans (mul_le_mul_of_nonneg_left (by linarith [hmono i hi]) hg)
  have hinc := hs.increasing (by
    rcases hr with h | h
    · linarith
    · linarith)
  have hlt : a j < a (j + 1) := hinc j (j + 1) (by omega) h2
  have hr' : x ≤ a (j + 1) := by
    rcases hr with h | h
    · exact h.le
    · exact h.2
  have hch : 0 ≤ chord a (fun i => runOf g t (n - 1) - runOf g t i) j x := by
    have e : chord a (fun i => runOf g t (n - 1) - runOf g t i) j x
        = (a (j + 1) - x) / (a (j + 1) - a j) * (runOf g t (n - 1) - runOf g t j)
          + (x - a j) / (a (j + 1) - a j) * (runOf g t (n - 1) - runOf g t (j + 1)) := by
      have : a (j + 1) - a j ≠ 0 := by linarith
      rw [chord]; field_simp; ring
    rw [e]
    have := hmono j (by omega)
    have := hmono (j + 1) h2
    refine add_nonneg (mul_nonneg (div_nonneg ?_ ?_) ?_) (mul_nonneg (div_nonneg ?_ ?_) ?_) <;> linarith
  refine le_trans ?_ key
  change |max _ 0 - _| ≤ _
  conv_lhs => rw [← max_eq_left hch]
  refine (abs_max_sub_max_le_max _ _ _ _).trans (max_le le_rfl ?_)
  rw [sub_zero, abs_zero]; exact abs_nonneg _

/-! ### Small distances -/

theorem Rounding.rd_le_neg {A : Rounding} {y m : ℝ} (hm : 0 ≤ m) (h : y ≤ -m) : A.rd y ≤ -((1 - A.u) * m) := by
  have h1 := (abs_le.1 (A.err y)).2
  rw [abs_of_nonpos (by linarith)] at h1
  have hu : 0 ≤ 1 - A.u := by linarith [A.u_le]
  nlinarith

/-- C163: near today the distance returned is either zero or at least `2 ^ (12 - p)` Mpc/h less one rounding (0.00024
Mpc/h in single precision), whatever the distance is: it is the difference of two numbers larger than 2048. -/
theorem C163_grain {p : ℕ} (hp : 10 ≤ p) {c : ChiCache} (hn : 3 ≤ c.n) (h1 : c.a (c.n - 1) = 1) (h0 : c.chi (c.n - 1) = 0)
    (hx : 19 / 20 ≤ c.a (c.n - 2)) (hx1 : c.a (c.n - 2) < 1)
    (hf : 2200 * (1 - c.a (c.n - 2)) ≤ c.chi (c.n - 2))
    (hs : Spaced (binary p (by omega)) c.n c.a (1 - c.a (c.n - 2))) {x : ℝ} (hl : c.a (c.n - 2) ≤ x) (hr : x ≤ 1) :
    readChiF (binary p (by omega)) c x = 0 ∨
      (1 - 1 / 2 ^ p) * 2 ^ (12 - (p : ℤ)) ≤ readChiF (binary p (by omega)) c x := by
  set A := binary p (by omega) with hA
  have hu : A.u = 1 / 2 ^ p := rfl
  have hu' : A.u ≤ 1 / 1024 := by
    rw [hu, show (1024 : ℝ) = 2 ^ 10 by norm_num]
    exact one_div_le_one_div_of_le (by positivity) (pow_le_pow_right₀ (by norm_num) hp)
  have hu0 := A.u_nonneg
  set x' := c.a (c.n - 2) with hx'
  set f := c.chi (c.n - 2) with hfd
  have e1 : c.n - 2 + 1 = c.n - 1 := by omega
  have hinc := hs.increasing (by linarith)
  have hk : nearF A c.n c.a x = c.n - 2 := by
    have hle : nearF A c.n c.a x ≤ c.n - 2 := by unfold nearF; omega
    rcases nearF_mem (A := A) (xp := c.a) (j := c.n - 2) hn (by omega) (by omega) (by rw [e1, h1]; exact hs) hl
      (by rw [e1, h1]; exact hr) with h | h
    · exact h
    · omega
  have hle1 : c.a 1 ≤ x' := by
    rcases Nat.lt_or_ge 1 (c.n - 2) with h | h
    · exact (hinc 1 (c.n - 2) h (by omega)).le
    · rw [hx', show c.n - 2 = 1 by omega]
  have hcl : ¬ clip x (c.a 1) x' < x' := by
    rw [clip, max_eq_left (hle1.trans hl), min_eq_right hl]; exact lt_irrefl _
  -- the slope, the product and the intercept
  set s := A.div (A.sub 0 f) (A.sub 1 x') with hsd
  have hgap : 0 < 1 - x' := by linarith
  have hf0 : 0 ≤ f := by nlinarith
  have hd := A.rd_le (x := 1 - x') hgap.le
  have hd0 : 0 < A.sub 1 x' := Rounding.pos hgap
  have hnum : A.sub 0 f ≤ -((1 - A.u) * f) := A.rd_le_neg hf0 (by linarith)
  have hs1 : A.sub 0 f / A.sub 1 x' ≤ -2193 := by
    rw [div_le_iff₀ hd0]
    have : A.sub 1 x' ≤ (1 + A.u) * (1 - x') := hd
    nlinarith
  have hs2 : s ≤ -2190 := by
    have := A.rd_le_neg (m := 2193) (by norm_num) hs1
    have e : A.rd (A.sub 0 f / A.sub 1 x') = s := rfl
    rw [e] at this
    linarith
  have grid : ∀ y : ℝ, 2048 ≤ |y| → ∃ N : ℤ, A.rd y = N * 2 ^ (12 - (p : ℤ)) := fun y hy => by
    have hlog : (11 : ℤ) ≤ Int.log 2 |y| := by
      rw [← Int.zpow_le_iff_le_log (by norm_num) (by linarith)]
      norm_num
      exact hy
    obtain ⟨N, hN⟩ := roundBinary_grid (p := p) hlog
    refine ⟨N, ?_⟩
    rw [show (12 : ℤ) - p = 11 - p + 1 by ring]
    exact hN
  have hx0 : 19 / 20 ≤ x := hx.trans hl
  have m1 : s * x ≤ -2080 := by nlinarith
  have m2 : s * x' ≤ -2080 := by nlinarith
  obtain ⟨N1, hN1⟩ := grid (s * x) (by rw [abs_of_nonpos (by linarith)]; linarith)
  have m3 : A.mul s x' ≤ -2048 := by
    have := A.rd_le_neg (m := 2080) (by norm_num) m2
    have e : A.rd (s * x') = A.mul s x' := rfl
    rw [e] at this
    linarith
  obtain ⟨N2, hN2⟩ := grid (f - A.mul s x') (by rw [abs_of_nonneg (by linarith)]; linarith)
  have key : interpF A c.n c.a c.chi x = A.rd (((N1 + N2 : ℤ) : ℝ) * 2 ^ (12 - (p : ℤ))) := by
    rw [interpF_eq c.n hn, hk, if_neg hcl, lineF, e1, h1, h0]
    change A.rd (A.rd (s * x) + A.rd (f - A.mul s x')) = _
    rw [hN1, hN2]
    push_cast
    ring_nf
  have hG : (0 : ℝ) < 2 ^ (12 - (p : ℤ)) := by positivity
  rw [readChiF, clipLo, key]
  rcases le_or_gt (N1 + N2) 0 with h | h
  · left
    refine max_eq_right ?_
    rw [← A.zero]
    refine A.mono (mul_nonpos_of_nonpos_of_nonneg ?_ hG.le)
    exact_mod_cast h
  · right
    refine le_trans ?_ (le_max_left _ _)
    have h1' : (1 : ℝ) ≤ ((N1 + N2 : ℤ) : ℝ) := by exact_mod_cast h
    calc (1 - 1 / 2 ^ p) * (2 : ℝ) ^ (12 - (p : ℤ)) ≤ A.rd (2 ^ (12 - (p : ℤ))) := A.le_rd hG.le
      _ ≤ _ := A.mono (by nlinarith)

theorem distance_near_today {p : Params} (h : Physical p) {a : ℝ} (h0 : 0 < a) (h1 : a < 1) :
    0 < comovingDistance const_rh (expansion p) a ∧
      comovingDistance const_rh (expansion p) a ≤ const_rh * (1 - a) / a ^ 2 := by
  have hrh : 0 < const_rh := by norm_num [const_rh]
  have hE : ∀ x, a ≤ x → x ≤ 1 → 1 ≤ Real.sqrt (Esqr p x) := fun x hx hx1 => by
    have := C05_Esqr_antitone p h.m_pos.le h.k_nonneg h.de_nonneg (fun a ha ha1 => (h.w_range a ha ha1).1)
      ⟨h0.trans_le hx, hx1⟩ ⟨one_pos, le_rfl⟩ hx1
    rw [C02_Esqr_one] at this
    exact Real.one_le_sqrt.2 this
  rw [comovingDistance_eq]
  constructor
  · refine intervalIntegral.intervalIntegral_pos_of_pos_on ?_ (fun x hx => ?_) h1
    · apply ContinuousOn.intervalIntegrable
      rw [Set.uIcc_of_le h1.le]
      have hlo : (10 : ℝ) ^ Real.logb 10 a = a := Real.rpow_logb (by norm_num) (by norm_num) h0
      have := (distance_integrand (lo := Real.logb 10 a) h.esqrPos).continuousOn
      rwa [hlo] at this
    · have := hE x hx.1.le hx.2.le
      have := h0.trans hx.1
      positivity
  · have := intervalIntegral.norm_integral_le_of_norm_le_const (a := a) (b := 1) (C := const_rh / a ^ 2)
      (f := fun x => const_rh / (x ^ 2 * Real.sqrt (Esqr p x))) fun x hx => by
        rw [Set.uIoc_of_le h1.le] at hx
        have e1 := hE x hx.1.le hx.2
        have e2 := h0.trans hx.1
        rw [Real.norm_eq_abs, abs_of_nonneg (by positivity)]
        gcongr
        nlinarith [pow_lt_pow_left₀ hx.1 h0.le (by norm_num : 2 ≠ 0), sq_nonneg x]
    rw [abs_of_pos (by linarith), Real.norm_eq_abs] at this
    exact (le_abs_self _).trans (this.trans (by rw [div_mul_eq_mul_div]))

/-- C163: at the last number before today the distance returned is wrong by more than a third, in every universe,
whatever the table and however many digits. -/
theorem C163_lost {p : ℕ} (hp : 10 ≤ p) {c : ChiCache} (hn : 3 ≤ c.n) (h1 : c.a (c.n - 1) = 1) (h0 : c.chi (c.n - 1) = 0)
    (hx : 19 / 20 ≤ c.a (c.n - 2)) (hx1 : c.a (c.n - 2) ≤ 1 - 1 / 2 ^ p)
    (hf : 2200 * (1 - c.a (c.n - 2)) ≤ c.chi (c.n - 2))
    (hs : Spaced (binary p (by omega)) c.n c.a (1 - c.a (c.n - 2))) {P : Params} (hP : Physical P) :
    comovingDistance const_rh (expansion P) (1 - 1 / 2 ^ p) / 3 <
      |readChiF (binary p (by omega)) c (1 - 1 / 2 ^ p) - comovingDistance const_rh (expansion P) (1 - 1 / 2 ^ p)| := by
  have hu0 : (0 : ℝ) < 1 / 2 ^ p := by positivity
  have hu' : (1 : ℝ) / 2 ^ p ≤ 1 / 1024 := by
    rw [show (1024 : ℝ) = 2 ^ 10 by norm_num]
    exact one_div_le_one_div_of_le (by positivity) (pow_le_pow_right₀ (by norm_num) hp)
  obtain ⟨d0, d1⟩ := distance_near_today hP (a := 1 - 1 / 2 ^ p) (by linarith) (by linarith)
  set χ := comovingDistance const_rh (expansion P) (1 - 1 / 2 ^ p) with hχ
  rcases C163_grain hp hn h1 h0 hx (by linarith) hf hs hx1 (by linarith) with h | h
  · rw [h, zero_sub, abs_neg, abs_of_pos d0]; linarith
  · have e : (2 : ℝ) ^ (12 - (p : ℤ)) = 4096 * (1 / 2 ^ p) := by
      rw [zpow_sub₀ (by norm_num), zpow_natCast, div_eq_mul_one_div, show (2 : ℝ) ^ (12 : ℤ) = 4096 by norm_num]
    rw [e] at h
    set u : ℝ := 1 / 2 ^ p with hu
    have d2 : χ ≤ 3010 * u := by
      refine d1.trans ?_
      rw [div_le_iff₀ (by nlinarith), show 1 - (1 - u) = u by ring]
      have : const_rh ≤ 2998 := by norm_num [const_rh]
      nlinarith [mul_pos hu0 hu0]
    refine lt_of_lt_of_le ?_ (le_abs_self _)
    nlinarith [mul_pos hu0 hu0]

/-- The default table of any mild universe, computed without any error, meets the conditions of `C163_lost` in single
precision. -/
theorem default_table_last {P : Params} (hP : Mild P) :
    (chiTable P (-3) 256).a 255 = 1 ∧ (chiTable P (-3) 256).chi 255 = 0 ∧ 19 / 20 ≤ (chiTable P (-3) 256).a 254 ∧
      (chiTable P (-3) 256).a 254 ≤ 1 - 1 / 2 ^ 24 ∧
      2200 * (1 - (chiTable P (-3) 256).a 254) ≤ (chiTable P (-3) 256).chi 254 ∧
      Spaced float32 256 (chiTable P (-3) 256).a (1 - (chiTable P (-3) 256).a 254) := by
  have hend : logspace (-3) 0 256 255 = 1 := logspace_end (-3) (n := 256) (by norm_num)
  have hstep := log_logspace_step (-3) (n := 256) 254
  have hu0 := logspace_pos (-3) 0 256 254
  set x' := logspace (-3) 0 256 254 with hx'
  have ea : (chiTable P (-3) 256).a = logspace (-3) 0 256 := rfl
  set h := gridStep (-3) 256 with hh
  have hlogx : Real.log x' = -h := by
    rw [show (254 + 1 : ℕ) = 255 from rfl, hend, Real.log_one, zero_sub] at hstep
    rw [hh, gridStep, ← hstep, neg_neg]
  have hxe : x' = Real.exp (-h) := by rw [← hlogx, Real.exp_log hu0]
  have hh0 : 0 < h := gridStep_pos (by norm_num) (by norm_num)
  have hexp : Real.exp h ≤ 1.028 := by
    have e : h = (2 : ℕ) * (3 / 255 * Real.log 10 / 2) := by rw [hh]; unfold gridStep; norm_num; ring
    rw [e, Real.exp_nat_mul]
    calc _ ≤ (1.01364 : ℝ) ^ 2 := pow_le_pow_left₀ (Real.exp_pos _).le half_step.2 2
      _ ≤ 1.028 := by norm_num
  have hx95 : 0.97 ≤ x' := by
    rw [hxe, Real.exp_neg, le_inv_comm₀ (by norm_num) (Real.exp_pos _)]
    exact hexp.trans (by norm_num)
  have hlow : 1 - x' ≤ h := by rw [hxe]; linarith [Real.add_one_le_exp (-h)]
  have hlog10 : 1 ≤ Real.log 10 := by
    rw [Real.le_log_iff_exp_le (by norm_num)]
    linarith [Real.exp_one_lt_d9]
  have hgap : ∀ i, (3 : ℝ) / 255000 ≤ logspace (-3) 0 256 (i + 1) - logspace (-3) 0 256 i := fun i => by
    refine le_trans ?_ (logspace_gap_ge (lo := -3) (n := 255) (by norm_num) (by norm_num) i)
    rw [show (10 : ℝ) ^ (-3 : ℝ) = 1 / 1000 by
      rw [show (-3 : ℝ) = ((-3 : ℤ) : ℝ) by norm_num, Real.rpow_intCast]; norm_num]
    push_cast
    linarith
  refine ⟨hend, ?_, by rw [ea]; linarith, ?_, ?_, ?_⟩
  · rw [chiTable_chi P (-3) 256 255 (by norm_num)]; simp
  · have := hgap 254
    rw [show (254 + 1 : ℕ) = 255 from rfl, hend] at this
    rw [ea]
    norm_num at this ⊢
    linarith
  · rw [chiTable_chi P (-3) 256 254 (by norm_num), show (256 - 1 : ℕ) = 254 + 1 from rfl,
      Finset.sum_Ico_succ_top (by norm_num), Finset.Ico_self, Finset.sum_empty, zero_add, ea, ← hx', panel,
      show (254 + 1 : ℕ) = 255 from rfl, hend, Real.log_one, hlogx]
    have hr0 : chiRate P 0 = const_rh := by
      have := rate_log P (a := 1) one_pos
      rw [Real.log_one] at this
      rw [this]
      simp [expansion_eq, C02_Esqr_one]
    have key : ∀ x, x ≤ 0 → -h ≤ x → 2800 ≤ chiRate P x := fun x hx0 hxh => by
      have := (rate_near hP (x := x) (y := 0) (h := h) hx0 le_rfl (by rw [sub_zero, abs_le]; constructor <;> linarith)).1
      rw [hr0, ← hxe] at this
      have hrh : (2997 : ℝ) ≤ const_rh := by norm_num [const_rh]
      nlinarith
    have k1 := key (-h) (by linarith) le_rfl
    have k2 := key ((-h + 0) / 2) (by linarith) (by linarith)
    have k3 := key 0 le_rfl (by linarith)
    nlinarith
  · intro i hi
    have := hgap i
    rw [ea, ← hx']
    have hu : float32.u = 1 / 2 ^ 24 := rfl
    rw [hu]
    have : 1 - x' ≤ 0.03 := by linarith
    norm_num at this ⊢
    linarith

/-- C163, refuted as stated: in single precision the distance is not accurate to a fixed fraction of itself, not even
to a third, even when the table is exact. -/
theorem C163_refuted : ¬ ∀ P : Params, Mild P → ∀ a, 0 < a → a < 1 → float32.rd a = a →
    |readChiF float32 (chiTable P (-3) 256) a - comovingDistance const_rh (expansion P) a|
      ≤ comovingDistance const_rh (expansion P) a / 3 := by
  intro h
  obtain ⟨c1, c2, c3, c4, c5, c6⟩ := default_table_last planck_mild
  have hrep : float32.rd (1 - 1 / 2 ^ 24) = 1 - 1 / 2 ^ 24 := by
    have hy : (0 : ℝ) < 1 - 1 / 2 ^ 24 := by norm_num
    have hlog : Int.log 2 |(1 - 1 / 2 ^ 24 : ℝ)| = -1 := by
      rw [abs_of_pos hy]
      have l1 : (-1 : ℤ) ≤ Int.log 2 (1 - 1 / 2 ^ 24 : ℝ) := by
        rw [← Int.zpow_le_iff_le_log (by norm_num) hy]; norm_num
      have l2 : Int.log 2 (1 - 1 / 2 ^ 24 : ℝ) < 0 := by
        rw [← Int.lt_zpow_iff_log_lt (by norm_num) hy]; norm_num
      omega
    change roundBinary 24 _ = _
    simp only [roundBinary]
    rw [hlog]
    have e : (1 - 1 / 2 ^ 24 : ℝ) * 2 ^ (((24 : ℕ) : ℤ) - 1 - -1) = ((2 ^ 24 - 1 : ℤ) : ℝ) := by norm_num
    rw [e, roundEven_int]
    norm_num
  have k1 := h Planck15 planck_mild (1 - 1 / 2 ^ 24) (by norm_num) (by norm_num) hrep
  have k2 := C163_lost (p := 24) (by norm_num) (c := chiTable Planck15 (-3) 256) (by change 3 ≤ 256; norm_num) c1 c2 c3 c4 c5 c6
    planck_mild.phys
  exact absurd k1 (not_le.2 k2)

/-! ### The hypotheses can be met -/

/-- Rates that do not vary, as in an empty universe, on equidistant nodes. -/
theorem milne_rates (A : Rounding) (n : ℕ) :
    RatesNear A 0 (fun _ => const_rh) (fun _ => const_rh) (fun i => (i : ℝ)) n where
  node i _ := by
    have := Near.self (A := A) const_rh
    rwa [abs_of_nonneg (by norm_num [const_rh])] at this
  mid i _ := by
    have := Near.self (A := A) const_rh
    rwa [abs_of_nonneg (by norm_num [const_rh])] at this
  incr i _ := by push_cast; linarith

example (a : ℕ → ℝ) {i : ℕ} (hi : i < 256) :
    |(chiTableF float32 (fun _ => const_rh) a (fun i => (i : ℝ)) 256).chi i
        - (runOf (fun _ => const_rh) (fun i => (i : ℝ)) 255 - runOf (fun _ => const_rh) (fun i => (i : ℝ)) i)|
      ≤ ((1 + float32.u) ^ 264 - 1) * (runOf (fun _ => const_rh) (fun i => (i : ℝ)) 255
          + runOf (fun _ => const_rh) (fun i => (i : ℝ)) i) :=
  C163_table a (milne_rates float32 256) hi

example (a : ℕ → ℝ) : (chiTableF float32 (fun _ => const_rh) a (fun i => (i : ℝ)) 256).chi 255 = 0 :=
  (C163_order (p := 24) (by norm_num) a ⟨fun _ => by norm_num [const_rh], fun i _ => by push_cast; linarith⟩).1

end JaxCosmo
