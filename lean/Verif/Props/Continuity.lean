import Verif.Props.Growth
import Mathlib.Topology.MetricSpace.Lipschitz

/-! # C80: interpolated quantities vary continuously -/

namespace JaxCosmo
open Spec

section Field
variable {K : Type*} [Field K] [LinearOrder K] [IsStrictOrderedRing K]

/-- C80: on an increasing table the interpolant is no steeper than the table, on the whole line. -/
theorem C80_steepness {n : ℕ} (hn : 2 ≤ n) {xp fp : ℕ → K} (hx : Increasing n xp) {M : K}
    (hM : ∀ i, i + 1 < n → |fp (i + 1) - fp i| ≤ M * (xp (i + 1) - xp i)) (x y : K) :
    |interp n xp fp x - interp n xp fp y| ≤ M * |x - y| := by
  have hid : ∀ x, interp n xp xp x = x := fun x => by
    have := C21_affine hn (xp := xp) (fp := xp) (fun i j hi hj hij => by
      rcases lt_trichotomy i j with h | h | h
      · exact absurd hij (hx i j h hj).ne
      · exact h
      · exact absurd hij.symm (hx j i h hi).ne) 1 0 (fun i _ => by ring) x
    linarith
  have h1 := C21_mono hn hx (fp := fun i => M * xp i + (-1) * fp i)
    (fun i hi => by have := (abs_le.1 (hM i hi)).2; linarith)
  have h2 := C21_mono hn hx (fp := fun i => M * xp i + 1 * fp i)
    (fun i hi => by have := (abs_le.1 (hM i hi)).1; linarith)
  have key : ∀ x y, x ≤ y → |interp n xp fp x - interp n xp fp y| ≤ M * (y - x) := by
    intro x y h
    have a := h1 h
    have b := h2 h
    rw [C21_linear, C21_linear, hid, hid] at a b
    rw [abs_le]
    constructor <;> linarith
  rcases le_total x y with h | h
  · rw [abs_sub_comm x y, abs_of_nonneg (sub_nonneg.2 h)]; exact key x y h
  · rw [abs_sub_comm, abs_of_nonneg (sub_nonneg.2 h)]; exact key y x h

end Field

/-- C80: interpolation of an increasing table is continuous everywhere, with a Lipschitz constant. -/
theorem C80_increasing {n : ℕ} (hn : 2 ≤ n) {xp : ℕ → ℝ} (hx : Increasing n xp) (fp : ℕ → ℝ) :
    ∃ M, LipschitzWith M (interp n xp fp) := by
  obtain ⟨M, hM0, hM⟩ : ∃ M : ℝ, 0 ≤ M ∧
      ∀ i, i + 1 < n → |fp (i + 1) - fp i| ≤ M * (xp (i + 1) - xp i) := by
    refine ⟨∑ i ∈ Finset.range n, |fp (i + 1) - fp i| / |xp (i + 1) - xp i|,
      Finset.sum_nonneg fun i _ => by positivity, fun i hi => ?_⟩
    have h := sub_pos.2 (hx i (i + 1) (by omega) hi)
    have := Finset.single_le_sum (f := fun i => |fp (i + 1) - fp i| / |xp (i + 1) - xp i|)
      (fun i _ => by positivity) (Finset.mem_range.2 (by omega : i < n))
    rw [abs_of_pos h] at this
    exact (div_le_iff₀ h).1 this
  refine ⟨M.toNNReal, LipschitzWith.of_dist_le_mul fun x y => ?_⟩
  rw [Real.dist_eq, Real.dist_eq, Real.coe_toNNReal _ hM0]
  exact C80_steepness hn hx hM x y

/-! ## Decreasing tables -/

theorem chord_continuous (xp fp : ℕ → ℝ) (j : ℕ) : Continuous (chord xp fp j) := by
  unfold chord; fun_prop

/-- Off the midpoints the nearest table position is unique. -/
theorem nearest_strict {n : ℕ} (hn : 0 < n) {xp : ℕ → ℝ} (hx : Decreasing n xp) {x : ℝ}
    (hm : ∀ j, j + 1 < n → x ≠ (xp j + xp (j + 1)) / 2) :
    ∀ i < n, i ≠ nearest n xp x → |x - xp (nearest n xp x)| < |x - xp i| := by
  set k := nearest n xp x with hk
  have hkn : k < n := nearest_lt n hn xp x
  intro i hi hik
  refine lt_of_le_of_ne (nearest_min n xp x i hi) fun e => ?_
  have hmid : ∀ a b, a < b → b < n → |x - xp a| = |x - xp b| →
      (∀ c < n, |x - xp a| ≤ |x - xp c|) → False := by
    intro a b hab hb he hmin
    have hba := hx a b hab hb
    have hsum : x - xp a = -(x - xp b) := by
      rcases abs_eq_abs.1 he with h | h
      · linarith
      · exact h
    rcases Nat.lt_or_ge (a + 1) b with h | h
    · have l1 := hx a (a + 1) (by omega) (by omega)
      have l2 := hx (a + 1) b h hb
      have := hmin (a + 1) (by omega)
      rw [abs_of_nonpos (show x - xp a ≤ 0 by linarith)] at this
      rcases abs_le'.1 (le_refl |x - xp (a + 1)|) with ⟨-, -⟩
      rcases le_total 0 (x - xp (a + 1)) with h' | h'
      · rw [abs_of_nonneg h'] at this; linarith
      · rw [abs_of_nonpos h'] at this; linarith
    · obtain rfl : b = a + 1 := by omega
      exact hm a hb (by linarith)
  rcases lt_or_gt_of_ne hik with h | h
  · exact hmid i k h hkn e.symm fun c hc => e ▸ nearest_min n xp x c hc
  · exact hmid k i h hi e fun c hc => nearest_min n xp x c hc

/-- Away from midpoints the nearest node is locally constant. -/
theorem nearest_eventually {n : ℕ} (hn : 0 < n) {xp : ℕ → ℝ} (hx : Decreasing n xp) {x : ℝ}
    (hm : ∀ j, j + 1 < n → x ≠ (xp j + xp (j + 1)) / 2) :
    ∀ᶠ y in nhds x, nearest n xp y = nearest n xp x := by
  have hstrict := nearest_strict hn hx hm
  set k := nearest n xp x with hk
  have hkn : k < n := nearest_lt n hn xp x
  have hev : ∀ᶠ y in nhds x, ∀ i ∈ Finset.range n, i ≠ k → |y - xp k| < |y - xp i| := by
    rw [Filter.eventually_all_finset]
    intro i hi
    by_cases hik : i = k
    · exact Filter.Eventually.of_forall fun y h => absurd hik h
    · have := (ContinuousAt.eventually_lt (x₀ := x) (f := fun y => |y - xp k|)
        (g := fun y => |y - xp i|) (by fun_prop) (by fun_prop)
        (hstrict i (Finset.mem_range.1 hi) hik))
      exact this.mono fun y hy _ => hy
  refine hev.mono fun y hy => ?_
  by_contra hne
  exact absurd (nearest_min n xp y k hkn)
    (not_le.2 (hy _ (Finset.mem_range.2 (nearest_lt n hn xp y)) hne))

/-- C80 on decreasing tables: continuous except possibly half way between two nodes. -/
theorem C80_decreasing_partial {n : ℕ} (hn : 3 ≤ n) {xp : ℕ → ℝ} (hx : Decreasing n xp)
    (fp : ℕ → ℝ) {x : ℝ} (hm : ∀ j, j + 1 < n → x ≠ (xp j + xp (j + 1)) / 2) :
    ContinuousAt (interp n xp fp) x := by
  have hc : ContinuousAt (fun y => if nearestIn n xp x = n - 2 then chord xp fp (n - 2) y
      else chord xp fp (nearestIn n xp x - 1) y) x := by
    split
    · exact (chord_continuous _ _ _).continuousAt
    · exact (chord_continuous _ _ _).continuousAt
  refine hc.congr ((nearest_eventually (by omega) hx hm).mono fun y hy => ?_)
  simp only
  rw [interp_dec hn hx]
  unfold nearestIn
  rw [hy]

theorem chord_slope {xp fp : ℕ → ℝ} {j : ℕ} (x : ℝ) :
    chord xp fp j x = fp j + (fp (j + 1) - fp j) / (xp (j + 1) - xp j) * (x - xp j) := by
  unfold chord; ring

/-- C80: half way between two inner nodes of a decreasing table the interpolant jumps, unless the
segment and the one before it happen to lie on one line. -/
theorem C80_jump {n : ℕ} {xp : ℕ → ℝ} (hx : Decreasing n xp) (fp : ℕ → ℝ) {j : ℕ}
    (h1 : 1 ≤ j) (hj : j + 3 < n) :
    ContinuousAt (interp n xp fp) ((xp j + xp (j + 1)) / 2) ↔
      (fp j - fp (j - 1)) / (xp j - xp (j - 1)) = (fp (j + 1) - fp j) / (xp (j + 1) - xp j) := by
  obtain ⟨i, rfl⟩ : ∃ i, j = i + 1 := ⟨j - 1, by omega⟩
  simp only [Nat.add_sub_cancel]
  have hx1 := hx (i + 1) (i + 1 + 1) (by omega) (by omega)
  have hx0 := hx i (i + 1) (by omega) (by omega)
  set m := (xp (i + 1) + xp (i + 1 + 1)) / 2 with hm
  have m1 : m < xp (i + 1) := by linarith
  have m2 : xp (i + 1 + 1) < m := by linarith
  have hlow : ∀ y, xp (i + 1 + 1) ≤ y → y < m → interp n xp fp y = chord xp fp (i + 1) y := fun y a b =>
    interp_dec_seg (by omega) hx fp (by omega) a (by linarith) (Or.inr (Or.inr ⟨by omega, by linarith⟩))
  have hup : ∀ y, m < y → y ≤ xp (i + 1) → interp n xp fp y = chord xp fp i y := fun y a b =>
    C20_wrong_segment hx fp (j := i + 1) (by omega) (by omega) (by linarith) b (by linarith)
  have hci : ∀ y, chord xp fp i y = fp (i + 1)
      + (fp (i + 1) - fp i) / (xp (i + 1) - xp i) * (y - xp (i + 1)) := by
    intro y
    have : xp (i + 1) - xp i ≠ 0 := by linarith
    rw [chord_slope]
    field_simp
    ring
  constructor
  · intro hc
    have hl : Filter.Tendsto (interp n xp fp) (nhdsWithin m (Set.Iio m)) (nhds (chord xp fp (i + 1) m)) :=
      ((chord_continuous xp fp (i + 1)).continuousWithinAt).congr'
        (by filter_upwards [Ioo_mem_nhdsLT m2] with y hy using (hlow y hy.1.le hy.2).symm)
    have hu : Filter.Tendsto (interp n xp fp) (nhdsWithin m (Set.Ioi m)) (nhds (chord xp fp i m)) :=
      ((chord_continuous xp fp i).continuousWithinAt).congr'
        (by filter_upwards [Ioo_mem_nhdsGT m1] with y hy using (hup y hy.1 hy.2.le).symm)
    have e1 := tendsto_nhds_unique hl (hc.mono_left nhdsWithin_le_nhds)
    have e2 := tendsto_nhds_unique hu (hc.mono_left nhdsWithin_le_nhds)
    have e := e2.trans e1.symm
    rw [hci, chord_slope, add_right_inj] at e
    exact mul_right_cancel₀ (by linarith : m - xp (i + 1) ≠ 0) e
  · intro hs
    have heq : chord xp fp i = chord xp fp (i + 1) := by
      funext y; rw [hci, chord_slope, hs]
    refine (chord_continuous xp fp (i + 1)).continuousAt.congr ?_
    filter_upwards [Ioo_mem_nhds m2 m1] with y hy
    have hnear : nearest n xp y = i + 1 ∨ nearest n xp y = i + 1 + 1 := by
      have a := nearest_le_of_le_dec hx (k := i + 1 + 1) (by omega) hy.1.le
      have b := le_nearest_of_le_dec hx (k := i + 1) (by omega) hy.2.le
      omega
    rw [interp_dec (by omega) hx]
    rcases hnear with h | h
    · have : nearestIn n xp y = i + 1 := by unfold nearestIn; omega
      rw [this, if_neg (by omega), Nat.add_sub_cancel, heq]
    · have : nearestIn n xp y = i + 1 + 1 := by unfold nearestIn; omega
      rw [this, if_neg (by omega), Nat.add_sub_cancel]

/-! ## Background functions -/

/-- C80: the comoving distance is a continuous function of the scale factor, in every cosmology. -/
theorem C80_distance (p : Params) : Continuous (chiOf p) := by
  obtain ⟨M, hM⟩ := C80_increasing (n := 256) (by norm_num)
    (logspace_increasing (lo := -3) (by norm_num) (by norm_num)) (chiTable p (-3) 256).chi
  have : Continuous fun a => max (interp 256 (logspace (-3) 0 256) (chiTable p (-3) 256).chi a) 0 :=
    hM.continuous.max continuous_const
  exact this

/-- C80: so is the growth factor, in every cosmology and both growth modes. -/
theorem C80_growth (p : Params) : Continuous (growthOf p) := by
  have key : ∀ g : ℕ → ℝ, Continuous fun a => clip (interp 128 (logspace (-3) 0 128) g a) 0 1 := by
    intro g
    obtain ⟨M, hM⟩ := C80_increasing (n := 128) (by norm_num)
      (logspace_increasing (lo := -3) (by norm_num) (by norm_num)) g
    exact (hM.continuous.max continuous_const).min continuous_const
  cases hg : p.gamma with
  | none =>
    have : growthOf p = readGrowth (growthTableODE p (-3) 128) := by
      funext a; simp only [growthOf, growthTable, hg]
    rw [this]
    exact key _
  | some γ =>
    have : growthOf p = readGrowth (growthTableGamma p γ (-3) 128) := by
      funext a; simp only [growthOf, growthTable, hg]
    rw [this]
    exact key _

/-- C80 as stated is false for `a_of_chi`: whenever `a⁴ E²` increases (matter, curvature and a
cosmological constant all do that) the scale factor returned jumps half way between any two inner
table distances. -/
theorem C80_a_of_chi (p : Params) (hE : EsqrPos p)
    (hmono : ∀ a b, 0 < a → a < b → b ≤ 1 → a ^ 4 * Esqr p a < b ^ 4 * Esqr p b) {j : ℕ}
    (h1 : 1 ≤ j) (hj : j + 3 < 256) : ¬ ContinuousAt (aOf p)
      ((chiOf p (logspace (-3) 0 256 j) + chiOf p (logspace (-3) 0 256 (j + 1))) / 2) := by
  have hlo : (-3 : ℝ) < 0 := by norm_num
  have hd := chiTable_decreasing p hlo (by norm_num : 2 ≤ 256) hE
  rw [chiOf, chiOf, readChi_node hlo (by norm_num) hE (Or.inl h1) (by omega),
    readChi_node hlo (by norm_num) hE (Or.inl (by omega)) (by omega)]
  have : aOf p = interp 256 (chiTable p (-3) 256).chi (logspace (-3) 0 256) := rfl
  rw [this, C80_jump hd _ h1 hj]
  obtain ⟨i, rfl⟩ : ∃ i, j = i + 1 := ⟨j - 1, by omega⟩
  simp only [Nat.add_sub_cancel]
  set h := -(-3 : ℝ) / (((256 : ℕ) : ℝ) - 1) * Real.log 10 with hh
  have hpos : 0 < h := by
    have := Real.log_pos (show (1 : ℝ) < 10 by norm_num)
    rw [hh]; push_cast; positivity
  have s1 := log_logspace_step (-3) (n := 256) i
  have s2 := log_logspace_step (-3) (n := 256) (i + 1)
  rw [← hh] at s1 s2
  have x2 : Real.log (logspace (-3) 0 256 (i + 1 + 1)) ≤ 0 := by
    refine Real.log_nonpos (logspace_pos _ _ _ _).le ?_
    rw [← logspace_end (-3) (by norm_num : 2 ≤ 256)]
    exact (logspace_increasing hlo (by norm_num)).le (by omega) (by norm_num)
  have hrate : ∀ x, x + h ≤ 0 → chiRate p (x + h) < Real.exp h * chiRate p x := by
    intro x hx
    have form : ∀ x, x ≤ 0 → chiRate p x
        = const_rh * Real.exp x / Real.sqrt (Real.exp x ^ 4 * Esqr p (Real.exp x)) := by
      intro x _
      rw [chiRate_eq, Real.sqrt_mul (by positivity), show Real.exp x ^ 4 = (Real.exp x ^ 2) ^ 2 by ring,
        Real.sqrt_sq (by positivity), Real.exp_neg]
      have := Real.exp_pos x
      field_simp
    have hx0 : Real.exp x < Real.exp (x + h) := Real.exp_lt_exp.2 (by linarith)
    have hx1 : Real.exp (x + h) ≤ 1 := Real.exp_le_one_iff.2 hx
    have hm := hmono _ _ (Real.exp_pos x) hx0 hx1
    have hE0 := hE (Real.exp x) (Real.exp_pos x) (by linarith)
    have hs := Real.sqrt_lt_sqrt (by positivity) hm
    have hs0 := Real.sqrt_pos.2 (show 0 < Real.exp x ^ 4 * Esqr p (Real.exp x) by positivity)
    have hrh : 0 < const_rh := by norm_num [const_rh]
    rw [form _ hx, form x (by linarith), Real.exp_add, mul_comm (Real.exp x) (Real.exp h),
      ← mul_div_assoc, mul_left_comm, ← Real.exp_add, add_comm h x]
    exact div_lt_div_of_pos_left (by positivity) hs0 hs
  set u := Real.log (logspace (-3) 0 256 i) with hu
  have c1 : (chiTable p (-3) 256).chi i - (chiTable p (-3) 256).chi (i + 1)
      = panel (chiRate p) u (u + h) := by
    rw [chiTable_chi p _ _ i (by omega), chiTable_chi p _ _ (i + 1) (by omega),
      Finset.sum_eq_sum_Ico_succ_bot (by omega : i < 256 - 1), ← s1, ← hu]
    ring_nf
  have c2 : (chiTable p (-3) 256).chi (i + 1) - (chiTable p (-3) 256).chi (i + 1 + 1)
      = panel (chiRate p) (u + h) (u + h + h) := by
    rw [chiTable_chi p _ _ (i + 1) (by omega), chiTable_chi p _ _ (i + 1 + 1) (by omega),
      Finset.sum_eq_sum_Ico_succ_bot (by omega : i + 1 < 256 - 1)]
    rw [show Real.log (logspace (-3) 0 256 (i + 1)) = u + h by linarith,
      show Real.log (logspace (-3) 0 256 (i + 1 + 1)) = u + h + h by linarith]
    ring
  have hpan : panel (chiRate p) (u + h) (u + h + h) < Real.exp h * panel (chiRate p) u (u + h) := by
    unfold panel
    have r1 := hrate u (by linarith)
    have r2 := hrate ((u + (u + h)) / 2) (by linarith)
    have r3 := hrate (u + h) (by linarith)
    rw [show (u + (u + h)) / 2 + h = (u + h + (u + h + h)) / 2 by ring] at r2
    rw [show u + h + h - (u + h) = h by ring, show u + h - u = h by ring]
    calc h / 6 * (chiRate p (u + h) + 4 * chiRate p ((u + h + (u + h + h)) / 2) + chiRate p (u + h + h))
        < h / 6 * (Real.exp h * (chiRate p u + 4 * chiRate p ((u + (u + h)) / 2)
          + chiRate p (u + h))) := by
          refine mul_lt_mul_of_pos_left ?_ (by positivity)
          linarith
      _ = _ := by ring
  have q1 : logspace (-3) 0 256 (i + 1) = logspace (-3) 0 256 i * Real.exp h := by
    rw [← Real.exp_log (logspace_pos (-3) 0 256 (i + 1)), show Real.log (logspace (-3) 0 256 (i + 1))
      = u + h by linarith, Real.exp_add, hu, Real.exp_log (logspace_pos _ _ _ _)]
  have q2 : logspace (-3) 0 256 (i + 1 + 1) = logspace (-3) 0 256 i * Real.exp h * Real.exp h := by
    rw [← Real.exp_log (logspace_pos (-3) 0 256 (i + 1 + 1)), show Real.log (logspace (-3) 0 256 (i + 1 + 1))
      = u + h + h by linarith, Real.exp_add, Real.exp_add, hu, Real.exp_log (logspace_pos _ _ _ _)]
  have d0 := hd i (i + 1) (by omega) (by omega)
  have d1 := hd (i + 1) (i + 1 + 1) (by omega) (by omega)
  have ha : logspace (-3) 0 256 i < logspace (-3) 0 256 (i + 1) :=
    logspace_strictMono hlo (by norm_num) (by omega)
  intro e
  rw [div_eq_div_iff (by linarith) (by linarith)] at e
  have : logspace (-3) 0 256 (i + 1 + 1) - logspace (-3) 0 256 (i + 1)
      = Real.exp h * (logspace (-3) 0 256 (i + 1) - logspace (-3) 0 256 i) := by
    rw [q2, q1]; ring
  rw [this, mul_comm (Real.exp h), mul_assoc] at e
  have := mul_left_cancel₀ (by linarith : logspace (-3) 0 256 (i + 1) - logspace (-3) 0 256 i ≠ 0) e
  have c1' : (chiTable p (-3) 256).chi (i + 1) - (chiTable p (-3) 256).chi i
      = -panel (chiRate p) u (u + h) := by linarith
  rw [c1'] at this
  linarith

/-- `a⁴ E²` increases with matter, non-negative curvature and a non-negative cosmological constant. -/
theorem quartic_Esqr_mono {p : Params} (hw : p.w0 = -1) (hwa : p.wa = 0) (hm : 0 < p.Omega_m)
    (hk : 0 ≤ p.Omega_k) (hde : 0 ≤ p.Omega_de) {a b : ℝ} (ha : 0 < a) (hab : a < b) :
    a ^ 4 * Esqr p a < b ^ 4 * Esqr p b := by
  have form : ∀ a, 0 < a → a ^ 4 * Esqr p a = p.Omega_m * a + p.Omega_k * a ^ 2 + p.Omega_de * a ^ 4 := by
    intro a ha
    rw [Esqr, (C04_lambda_const p hw hwa a).1]
    have := ha.ne'
    field_simp
  have hb := ha.trans hab
  rw [form a ha, form b hb]
  have h2 : a ^ 2 ≤ b ^ 2 := pow_le_pow_left₀ ha.le hab.le 2
  have h4 : a ^ 4 ≤ b ^ 4 := pow_le_pow_left₀ ha.le hab.le 4
  have := mul_lt_mul_of_pos_left hab hm
  have := mul_le_mul_of_nonneg_left h2 hk
  have := mul_le_mul_of_nonneg_left h4 hde
  linarith

/-- C80 as stated is false: `a_of_chi` is discontinuous in the Planck cosmology. -/
theorem C80_refuted : ¬ ∀ p : Params, EsqrPos p → Continuous (aOf p) := fun h =>
  C80_a_of_chi Planck15 planck_EsqrPos (fun a b ha hab _ => quartic_Esqr_mono (by norm_num [Planck15])
    (by norm_num [Planck15]) (by norm_num [Planck15, Params.Omega_m]) (by norm_num [Planck15])
    (by norm_num [Planck15, Params.Omega_de, Params.Omega, Params.Omega_m]) ha hab)
    (j := 100) (by norm_num) (by norm_num) (h Planck15 planck_EsqrPos).continuousAt

/-- Witness for the theorems on tables: a decreasing five-point table of squares, continuous at `2.1`,
with a jump at `2.5`. -/
example : ContinuousAt (interp 5 (fun i => 4 - (i : ℝ)) fun i => (4 - (i : ℝ)) ^ 2) 2.1 ∧
    ¬ ContinuousAt (interp 5 (fun i => 4 - (i : ℝ)) fun i => (4 - (i : ℝ)) ^ 2) 2.5 := by
  have hx : Decreasing 5 (fun i => 4 - (i : ℝ)) := fun i j hij _ => by
    have : (i : ℝ) < j := by exact_mod_cast hij
    linarith
  constructor
  · refine C80_decreasing_partial (by norm_num) hx _ fun j hj => ?_
    have : j < 4 := by omega
    interval_cases j <;> norm_num
  · have := C80_jump hx (fun i => (4 - (i : ℝ)) ^ 2) (j := 1) (by norm_num) (by norm_num)
    norm_num at this ⊢
    exact this

/-- Witness for `C80_steepness`: a table of slopes at most 3. -/
example (x y : ℝ) : |interp 4 (fun i => (i : ℝ)) (fun i => if i = 2 then 3 else 0) x
    - interp 4 (fun i => (i : ℝ)) (fun i => if i = 2 then 3 else 0) y| ≤ 3 * |x - y| :=
  C80_steepness (by norm_num) (fun i j hij _ => by simpa using hij) (fun i hi => by
    have : i < 3 := by omega
    interval_cases i <;> norm_num) x y

end JaxCosmo
