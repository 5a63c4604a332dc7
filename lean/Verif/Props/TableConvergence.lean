import Verif.Props.GrowthOrder
import Verif.Props.Distances
import Verif.Proofs.InterpError
import Verif.Spec.Distance
import Mathlib.MeasureTheory.Integral.IntervalIntegral.FundThmCalculus
import Mathlib.Analysis.SpecialFunctions.Pow.Deriv
import Mathlib.Analysis.SpecialFunctions.Sqrt

/-! # C91: distances and growth converge at second order at every scale factor

The tables are accurate to fourth order at their nodes; linear interpolation between the nodes
leaves a second-order error. The bound holds on the whole range of the table, including the first
cell on which `interp` uses the wrong chord. -/

namespace JaxCosmo
open Spec Set

variable {p : Params} {lo : ℝ}

/-! ### The grid -/

theorem logspace_first_cells (lo : ℝ) (n : ℕ) :
    logspace lo 0 (n + 1) 1 - logspace lo 0 (n + 1) 0
      ≤ logspace lo 0 (n + 1) 2 - logspace lo 0 (n + 1) 1 := by
  have h0 := logspace_pos lo 0 (n + 1) 0
  have h1 := logspace_pos lo 0 (n + 1) 1
  have h2 := logspace_pos lo 0 (n + 1) 2
  have s0 := log_logspace_step lo (n := n + 1) 0
  have s1 := log_logspace_step lo (n := n + 1) 1
  have hs : Real.log (logspace lo 0 (n + 1) 1 ^ 2)
      = Real.log (logspace lo 0 (n + 1) 0 * logspace lo 0 (n + 1) 2) := by
    rw [Real.log_mul h0.ne' h2.ne', Real.log_pow]
    simp only [zero_add, Nat.reduceAdd] at s0 s1
    push_cast
    linarith
  have he : logspace lo 0 (n + 1) 1 ^ 2 = logspace lo 0 (n + 1) 0 * logspace lo 0 (n + 1) 2 :=
    Real.log_injOn_pos (mem_Ioi.2 (by positivity)) (mem_Ioi.2 (by positivity)) hs
  nlinarith [sq_nonneg (logspace lo 0 (n + 1) 0 - logspace lo 0 (n + 1) 2)]

/-- What `interp` makes of a table on the logarithmic grid with fourth-order accurate values. -/
theorem logspace_interp_error (hlo : lo < 0) {F : ℝ → ℝ}
    (hF : ContDiffOn ℝ 2 F (Icc ((10 : ℝ) ^ lo) 1)) (C : ℝ) :
    ∃ C', ∀ n : ℕ, 2 ≤ n → ∀ fp : ℕ → ℝ,
      (∀ i ≤ n, |fp i - F (logspace lo 0 (n + 1) i)| ≤ C / n ^ 4) → ∀ a ∈ Icc ((10 : ℝ) ^ lo) 1,
      |interp (n + 1) (logspace lo 0 (n + 1)) fp a - F a| ≤ C' / n ^ 2 := by
  have h1 : (10 : ℝ) ^ lo < 1 := Real.rpow_lt_one_of_one_lt_of_neg (by norm_num) hlo
  obtain ⟨B, hB0, hB⟩ := interp_error h1 hF
  refine ⟨3 * |C| + B * (-lo * Real.log 10) ^ 2, fun n hn fp herr a ha => ?_⟩
  have hn' : (1 : ℝ) ≤ n := by exact_mod_cast (by omega : 1 ≤ n)
  have hfirst : logspace lo 0 (n + 1) 0 ≤ a := by rw [logspace_zero]; exact ha.1
  have hlast : a ≤ logspace lo 0 (n + 1) (n + 1 - 1) := by
    rw [logspace_end lo (by omega)]; exact ha.2
  have := hB (n + 1) (logspace lo 0 (n + 1)) fp (-lo * Real.log 10 / n) (C / n ^ 4) (by omega)
    (logspace_increasing hlo (by omega)) (fun i hi => logspace_Icc hlo (by omega) (by omega))
    (fun i hi => (logspace_mesh hlo (by omega) (by omega)).2) (logspace_first_cells lo n)
    (fun i hi => herr i (by omega)) a hfirst hlast
  refine this.trans ?_
  have e1 : C / n ^ 4 ≤ |C| / (n : ℝ) ^ 2 := by
    refine (div_le_div_of_nonneg_right (le_abs_self C) (by positivity)).trans ?_
    exact div_le_div_of_nonneg_left (abs_nonneg C) (by positivity)
      (pow_le_pow_right₀ hn' (by norm_num))
  rw [div_pow, add_div]
  have e2 : 3 * |C| / (n : ℝ) ^ 2 = 3 * (|C| / (n : ℝ) ^ 2) := by ring
  rw [e2, mul_div_assoc]
  linarith

/-! ### Quadratures in `ln a` -/

/-- `odeint` of a right-hand side that does not depend on the state, on the logarithmic grid. -/
theorem quadrature_error (hlo : lo < 0) {g Y : ℝ → ℝ}
    (hg : ContDiffOn ℝ 4 g (Icc (lo * Real.log 10) 0))
    (hY : ∀ t ∈ Icc (lo * Real.log 10) 0, HasDerivWithinAt Y (g t) (Icc (lo * Real.log 10) 0) t) :
    ∃ C, 0 ≤ C ∧ ∀ n : ℕ, 1 ≤ n → ∀ y0 : ℝ, ∀ i ≤ n,
      |(odeint (fun _ t => g t) y0 (fun i => Real.log (logspace lo 0 (n + 1) i)) n
          - odeint (fun _ t => g t) y0 (fun i => Real.log (logspace lo 0 (n + 1) i)) i)
        - (Y 0 - Y (Real.log (logspace lo 0 (n + 1) i)))| ≤ C / n ^ 4 := by
  have hl : 0 < Real.log 10 := Real.log_pos (by norm_num)
  have hab : lo * Real.log 10 < 0 := mul_neg_of_neg_of_pos hlo hl
  have hu := uniqueDiffOn_Icc hab
  have hs : ∀ c : ℝ, SmoothIVP (fun (_ : ℝ) t => g t) (fun _ _ => 0) (fun t => Y t + c)
      (lo * Real.log 10) 0 := fun c => by
    refine ⟨fun t _ x => hasFDerivAt_const _ _, ⟨0, fun t _ x => by simp⟩,
      ⟨0, fun s _ t _ x x' => by simp⟩, fun t ht => (hY t ht).add_const c, ?_⟩
    have h5 : ContDiffOn ℝ (4 + 1) Y (Icc (lo * Real.log 10) 0) := by
      rw [contDiffOn_succ_iff_derivWithin hu]
      refine ⟨fun t ht => (hY t ht).differentiableWithinAt, by simp, ?_⟩
      exact hg.congr fun t ht => (hY t ht).derivWithin (hu t ht)
    have h5' : ContDiffOn ℝ 5 Y (Icc (lo * Real.log 10) 0) := by
      have e : (4 : WithTop ℕ∞) + 1 = 5 := by norm_num
      rwa [e] at h5
    exact h5'.add contDiffOn_const
  obtain ⟨C, hC⟩ := C89_order (hs 0) hab
  refine ⟨2 * (|C| * (-lo * Real.log 10) ^ 4), by positivity, fun n hn y0 i hin => ?_⟩
  have hn' : (0 : ℝ) < n := by exact_mod_cast hn
  set t : ℕ → ℝ := fun i => Real.log (logspace lo 0 (n + 1) i) with ht
  have hmono : Monotone t := (log_logspace_strictMono hlo (n := n + 1) (by omega)).monotone
  have ht0 : t 0 = lo * Real.log 10 := by
    simp only [ht]; rw [logspace_zero, Real.log_rpow (by norm_num)]
  have htn : t n = 0 := by
    have : logspace lo 0 (n + 1) n = 1 := logspace_end lo (n := n + 1) (by omega)
    simp only [ht]; rw [this, Real.log_one]
  have hmem : ∀ j ≤ n, t j ∈ Icc (lo * Real.log 10) 0 := fun j hj =>
    ⟨by rw [← ht0]; exact hmono (Nat.zero_le j), by rw [← htn]; exact hmono hj⟩
  have hη : 0 ≤ -lo * Real.log 10 / n := by
    have : 0 ≤ -lo := by linarith
    positivity
  have hstep : ∀ j < n, t j ≤ t (j + 1) ∧ t (j + 1) - t j ≤ -lo * Real.log 10 / n := fun j _ => by
    refine ⟨hmono (Nat.le_succ j), le_of_eq ?_⟩
    simp only [ht]
    rw [log_logspace_step]
    push_cast
    ring
  have key : ∀ j ≤ n, |odeint (fun _ t => g t) y0 t j - (Y (t j) + (y0 - Y (t 0)))|
      ≤ |C| * (-lo * Real.log 10) ^ 4 / n ^ 4 := fun j hj => by
    have hsh : ∀ y1 j, odeint (fun (_ : ℝ) t => g t) y1 t j = y1 + odeint (fun _ t => g t) 0 t j := by
      intro y1 j
      rw [odeint_panel, odeint_panel, zero_add]
    have := hC t n (-lo * Real.log 10 / n) (Y (t 0)) hmem hstep hη j hj
    simp only [add_zero, sub_self, norm_zero, Real.norm_eq_abs] at this
    rw [hsh] at this ⊢
    have e : y0 + odeint (fun _ t => g t) 0 t j - (Y (t j) + (y0 - Y (t 0)))
        = Y (t 0) + odeint (fun _ t => g t) 0 t j - Y (t j) := by ring
    rw [e]
    refine this.trans ?_
    rw [div_pow, ← mul_div_assoc]
    have : C ≤ |C| := le_abs_self C
    gcongr
  have kn := key n le_rfl
  have ki := key i hin
  rw [htn] at kn
  have e : (odeint (fun _ t => g t) y0 t n - odeint (fun _ t => g t) y0 t i) - (Y 0 - Y (t i))
      = (odeint (fun _ t => g t) y0 t n - (Y 0 + (y0 - Y (t 0))))
        - (odeint (fun _ t => g t) y0 t i - (Y (t i) + (y0 - Y (t 0)))) := by ring
  rw [e]
  refine (abs_sub _ _).trans ((add_le_add kn ki).trans (le_of_eq ?_))
  ring

/-- An integral from `a` to today, its derivative, and the same in `ln a`. -/
theorem integral_to_one (hlo : lo < 0) {φ : ℝ → ℝ}
    (hφ : ContDiffOn ℝ 4 φ (Icc ((10 : ℝ) ^ lo) 1)) :
    ContDiffOn ℝ 2 (fun a => ∫ x in a..1, φ x) (Icc ((10 : ℝ) ^ lo) 1) ∧
      ContDiffOn ℝ 4 (fun t => φ (Real.exp t) * Real.exp t) (Icc (lo * Real.log 10) 0) ∧
      ∀ t ∈ Icc (lo * Real.log 10) 0, HasDerivWithinAt (fun t => -∫ x in (Real.exp t)..1, φ x)
        (φ (Real.exp t) * Real.exp t) (Icc (lo * Real.log 10) 0) t := by
  have h1 : (10 : ℝ) ^ lo < 1 := Real.rpow_lt_one_of_one_lt_of_neg (by norm_num) hlo
  have hu := uniqueDiffOn_Icc h1
  have hmaps : MapsTo Real.exp (Icc (lo * Real.log 10) 0) (Icc ((10 : ℝ) ^ lo) 1) := fun t ht => by
    constructor
    · rw [Real.rpow_def_of_pos (by norm_num), mul_comm]
      exact Real.exp_le_exp.2 ht.1
    · rw [← Real.exp_zero]; exact Real.exp_le_exp.2 ht.2
  have hd : ∀ a ∈ Icc ((10 : ℝ) ^ lo) 1, HasDerivWithinAt (fun a => ∫ x in a..1, φ x) (-φ a)
      (Icc ((10 : ℝ) ^ lo) 1) a := fun a ha => by
    have hint : IntervalIntegrable φ MeasureTheory.volume a 1 := by
      apply ContinuousOn.intervalIntegrable
      rw [uIcc_of_le ha.2]
      exact hφ.continuousOn.mono (Icc_subset_Icc_left ha.1)
    have hc := hφ.continuousOn
    have : Fact (a ∈ Icc ((10 : ℝ) ^ lo) 1) := ⟨ha⟩
    exact intervalIntegral.integral_hasDerivWithinAt_left hint
      (hc.stronglyMeasurableAtFilter_nhdsWithin measurableSet_Icc a) (hc a ha)
  refine ⟨?_, ?_, fun t ht => ?_⟩
  · have h2 : ContDiffOn ℝ (1 + 1) (fun a => ∫ x in a..1, φ x) (Icc ((10 : ℝ) ^ lo) 1) := by
      rw [contDiffOn_succ_iff_derivWithin hu]
      refine ⟨fun t ht => (hd t ht).differentiableWithinAt, by simp, ?_⟩
      exact (hφ.of_le (by norm_num)).neg.congr fun t ht => (hd t ht).derivWithin (hu t ht)
    have e : (1 : WithTop ℕ∞) + 1 = 2 := by norm_num
    rwa [e] at h2
  · exact (hφ.comp Real.contDiff_exp.contDiffOn hmaps).mul Real.contDiff_exp.contDiffOn
  · have := ((hd _ (hmaps ht)).comp t (Real.hasDerivAt_exp t).hasDerivWithinAt hmaps).neg
    refine this.congr_deriv ?_
    ring

/-! ### Distances -/

theorem distance_integrand (hE : EsqrPos p) :
    ContDiffOn ℝ 4 (fun x => const_rh / (x ^ 2 * Real.sqrt (Esqr p x))) (Icc ((10 : ℝ) ^ lo) 1) := by
  have h0 : (0 : ℝ) < 10 ^ lo := by positivity
  have hpos : ∀ x ∈ Icc ((10 : ℝ) ^ lo) 1, 0 < Esqr p x := fun x hx => hE x (h0.trans_le hx.1) hx.2
  refine contDiffOn_const.div ((contDiffOn_id.pow 2).mul ((Esqr_contDiffOn h0 4).sqrt
    fun x hx => (hpos x hx).ne')) fun x hx => ?_
  have := hpos x hx
  have := h0.trans_le hx.1
  positivity

theorem comovingDistance_eq (p : Params) (a : ℝ) :
    comovingDistance const_rh (expansion p) a
      = ∫ x in a..1, const_rh / (x ^ 2 * Real.sqrt (Esqr p x)) := by
  rw [comovingDistance, expansion_eq, ← intervalIntegral.integral_const_mul]
  congr 1
  funext x
  ring

theorem comovingDistance_nonneg (hE : EsqrPos p) {a : ℝ} (ha : 0 < a) (ha1 : a ≤ 1) :
    0 ≤ comovingDistance const_rh (expansion p) a := by
  rw [comovingDistance_eq]
  refine intervalIntegral.integral_nonneg ha1 fun x hx => ?_
  have := hE x (ha.trans_le hx.1) hx.2
  have : 0 < const_rh := by norm_num [const_rh]
  positivity

/-- C91: the radial comoving distance computed with `n` steps differs from the line-of-sight
integral by at most `C/n²`, at every scale factor in the range of the table. -/
theorem C91_distance (hlo : lo < 0) (hE : EsqrPos p) : ∃ C, ∀ n : ℕ, 2 ≤ n →
    ∀ a ∈ Icc ((10 : ℝ) ^ lo) 1,
      |readChi (chiTable p lo (n + 1)) a - comovingDistance const_rh (expansion p) a| ≤ C / n ^ 2 := by
  obtain ⟨hF, hg, hY⟩ := integral_to_one hlo (distance_integrand (lo := lo) hE)
  obtain ⟨C, hC0, hC⟩ := quadrature_error hlo hg hY
  obtain ⟨C', hC'⟩ := logspace_interp_error hlo hF C
  refine ⟨C', fun n hn a ha => ?_⟩
  have hnode : ∀ i ≤ n, |(chiTable p lo (n + 1)).chi i
      - ∫ x in (logspace lo 0 (n + 1) i)..1, const_rh / (x ^ 2 * Real.sqrt (Esqr p x))| ≤ C / n ^ 4 := by
    intro i hi
    have := hC n (by omega) 0 i hi
    rw [Real.exp_zero, intervalIntegral.integral_same, neg_zero, zero_sub, neg_neg,
      Real.exp_log (logspace_pos _ _ _ _)] at this
    have hix : ix (n + 1) (-1) = n := by rw [ix_last]; rfl
    simp only [chiTable, hix]
    exact this
  have := hC' n hn _ hnode a ha
  rw [comovingDistance_eq] at *
  rw [readChi, chiTable_a, chiTable_n, clipLo]
  have h0 : (0 : ℝ) < 10 ^ lo := by positivity
  have hnn := comovingDistance_nonneg hE (h0.trans_le ha.1) ha.2
  rw [comovingDistance_eq] at hnn
  refine le_trans ?_ this
  rw [← max_eq_left hnn]
  refine (abs_max_sub_max_le_max _ _ _ _).trans (max_le ?_ ?_)
  · rw [max_eq_left hnn]
  · rw [sub_zero, abs_zero]; exact abs_nonneg _

/-! ### Growth from the differential equation -/

theorem clip_error {u v : ℝ} (h0 : 0 ≤ v) (h1 : v ≤ 1) : |clip u 0 1 - v| ≤ |u - v| := by
  have e : v = min (max v 0) 1 := by rw [max_eq_left h0, min_eq_left h1]
  have h2 : |max u 0 - max v 0| ≤ |u - v| := by
    refine (abs_max_sub_max_le_max _ _ _ _).trans (max_le le_rfl ?_)
    rw [sub_zero, abs_zero]; exact abs_nonneg _
  calc |clip u 0 1 - v| = |min (max u 0) 1 - min (max v 0) 1| := by rw [clip, ← e]
    _ ≤ max |max u 0 - max v 0| |(1 : ℝ) - 1| := abs_min_sub_min_le_max _ _ _ _
    _ ≤ |u - v| := max_le h2 (by rw [sub_self, abs_zero]; exact abs_nonneg _)

section Growth
variable (hlo : lo < 0) (hE : EsqrPos p) (hm : 0 ≤ p.Omega_m) {D D' : ℝ → ℝ}
  (hD : IsGrowthOn (expansion p) p.Omega_m ((10 : ℝ) ^ lo) 1 D D') (hi : D ((10 : ℝ) ^ lo) = 10 ^ lo)
  (hi' : D' ((10 : ℝ) ^ lo) = 1)
include hlo hE hD hi hi' hm

theorem growth_facts : ContDiffOn ℝ 2 D (Icc ((10 : ℝ) ^ lo) 1) ∧
    ContDiffOn ℝ 2 D' (Icc ((10 : ℝ) ^ lo) 1) ∧
    ∀ a ∈ Icc ((10 : ℝ) ^ lo) 1, 0 < D a ∧ D a ≤ D 1 := by
  have h0 : (0 : ℝ) < 10 ^ lo := by positivity
  have h1 : (10 : ℝ) ^ lo < 1 := Real.rpow_lt_one_of_one_lt_of_neg (by norm_num) hlo
  have hs := (secondOrder_smoothIVP h1 (friction_contDiffOn h0 hE 4) (source_contDiffOn h0 hE 4)
    ((isGrowthOn_iff h0 hE D D').1 hD)).smooth
  have hpos := secondOrder_pos h1.le (friction_contDiffOn h0 hE 0).continuousOn
    (source_nonneg h0 hE hm) ((isGrowthOn_iff h0 hE D D').1 hD) (by rw [hi]; exact h0)
    (by rw [hi']; exact one_pos)
  rw [hi] at hpos
  refine ⟨(hs.of_le (by norm_num)).fst, (hs.of_le (by norm_num)).snd,
    fun a ha => ⟨h0.trans_le (hpos a ha).1, ?_⟩⟩
  have hm' : MonotoneOn D (Icc ((10 : ℝ) ^ lo) 1) :=
    monotoneOn_of_hasDerivWithinAt_nonneg (convex_Icc _ _) (f' := D')
      (fun t ht => (hD t ht).1.continuousWithinAt)
      (fun t ht => (hD t (interior_subset ht)).1.mono interior_subset)
      fun t ht => (hpos t (interior_subset ht)).2.le
  exact hm' ha (right_mem_Icc.2 h1.le) ha.2

/-- C91: the growth factor read from an `n`-step table differs from the exact normalised growth
factor by at most `C/n²` everywhere in the range. -/
theorem C91_growth : ∃ (C : ℝ) (n0 : ℕ), ∀ n ≥ n0, ∀ a ∈ Icc ((10 : ℝ) ^ lo) 1,
    |readGrowth (growthTableODE p lo (n + 1)) a - D a / D 1| ≤ C / n ^ 2 := by
  obtain ⟨h2, -, hpos⟩ := growth_facts hlo hE hm hD hi hi'
  obtain ⟨C, n0, hC⟩ := C90_growth hlo hE hm hD hi hi'
  obtain ⟨C', hC'⟩ := logspace_interp_error hlo (h2.div_const (D 1)) C
  refine ⟨C', max n0 2, fun n hn a ha => ?_⟩
  have hn0 : n0 ≤ n := (le_max_left _ _).trans hn
  have hn2 : 2 ≤ n := (le_max_right _ _).trans hn
  have := hC' n hn2 _ (hC n hn0) a ha
  refine (clip_error ?_ ?_).trans this
  · exact (div_pos (hpos a ha).1 ((hpos a ha).1.trans_le (hpos a ha).2)).le
  · exact (div_le_one ((hpos a ha).1.trans_le (hpos a ha).2)).2 (hpos a ha).2

/-- C91: likewise the growth rate against `d ln D / d ln a`. -/
theorem C91_rate : ∃ (C : ℝ) (n0 : ℕ), ∀ n ≥ n0, ∃ f, (growthTableODE p lo (n + 1)).f = some f ∧
    ∀ a ∈ Icc ((10 : ℝ) ^ lo) 1,
      |interp (n + 1) (logspace lo 0 (n + 1)) f a - a * D' a / D a| ≤ C / n ^ 2 := by
  obtain ⟨h2, h2', hpos⟩ := growth_facts hlo hE hm hD hi hi'
  obtain ⟨C, n0, hC⟩ := C90_rate hlo hE hm hD hi hi'
  obtain ⟨C', hC'⟩ := logspace_interp_error hlo (F := fun a => a * D' a / D a)
    ((contDiffOn_id.mul h2').div h2 fun a ha => (hpos a ha).1.ne') C
  refine ⟨C', max n0 2, fun n hn => ?_⟩
  have hn0 : n0 ≤ n := (le_max_left _ _).trans hn
  have hn2 : 2 ≤ n := (le_max_right _ _).trans hn
  obtain ⟨f, hf, hfe⟩ := hC n hn0
  exact ⟨f, hf, fun a ha => hC' n hn2 f hfe a ha⟩

end Growth

/-! ### Growth from a growth index -/

theorem exp_error {u v C : ℝ} (hv : 0 ≤ v) (h : |u - v| ≤ C) :
    |Real.exp (-u) - Real.exp (-v)| ≤ Real.exp C * |u - v| := by
  have e : Real.exp (-u) - Real.exp (-v) = Real.exp (-v) * (Real.exp (v - u) - 1) := by
    rw [mul_sub, ← Real.exp_add]; ring_nf
  have hv1 : Real.exp (-v) ≤ 1 := Real.exp_le_one_iff.2 (by linarith)
  have hC : 0 ≤ C := (abs_nonneg _).trans h
  have hC1 : 1 ≤ Real.exp C := Real.one_le_exp hC
  have h1 : |Real.exp (v - u) - 1| ≤ Real.exp C * |u - v| := by
    rw [abs_sub_comm u v] at *
    have k1 := Real.add_one_le_exp (v - u)
    have k2 := Real.add_one_le_exp (-(v - u))
    have k3 : Real.exp (v - u) * Real.exp (-(v - u)) = 1 := by rw [← Real.exp_add]; simp
    have k4 := Real.exp_pos (v - u)
    have k5 : Real.exp (v - u) ≤ Real.exp C := Real.exp_le_exp.2 ((le_abs_self _).trans h)
    rcases le_total 0 (v - u) with h0 | h0
    · rw [abs_of_nonneg h0, abs_of_nonneg (by linarith)]
      nlinarith
    · rw [abs_of_nonpos h0, abs_of_nonpos (by
        have := Real.exp_le_one_iff.2 h0; linarith)]
      nlinarith
  rw [e, abs_mul, abs_of_pos (Real.exp_pos _)]
  calc Real.exp (-v) * |Real.exp (v - u) - 1| ≤ 1 * |Real.exp (v - u) - 1| :=
        mul_le_mul_of_nonneg_right hv1 (abs_nonneg _)
    _ ≤ _ := by rw [one_mul]; exact h1

/-- C91: in gamma mode the growth factor converges to `exp (-∫ₐ¹ Ω_m(x)^γ dx/x)`. -/
theorem C91_gamma (hlo : lo < 0) (hE : EsqrPos p) (hm : 0 < p.Omega_m) (γ : ℝ) :
    ∃ C, ∀ n : ℕ, 2 ≤ n → ∀ a ∈ Icc ((10 : ℝ) ^ lo) 1,
      |readGrowth (growthTableGamma p γ lo (n + 1)) a
        - growthFromRate (fun x => Omega_m_a p x ^ γ) a| ≤ C / n ^ 2 := by
  have h0 : (0 : ℝ) < 10 ^ lo := by positivity
  have hOm : ∀ x ∈ Icc ((10 : ℝ) ^ lo) 1, 0 < Omega_m_a p x := fun x hx => by
    have hx0 := h0.trans_le hx.1
    have := hE x hx0 hx.2
    unfold Omega_m_a
    positivity
  have hφ : ContDiffOn ℝ 4 (fun x => Omega_m_a p x ^ γ / x) (Icc ((10 : ℝ) ^ lo) 1) :=
    ((Omega_m_a_contDiffOn h0 hE 4).rpow_const_of_ne fun x hx => (hOm x hx).ne').div contDiffOn_id
      fun x hx => (h0.trans_le hx.1).ne'
  obtain ⟨hF, hg, hY⟩ := integral_to_one hlo hφ
  have eg : (fun t => Omega_m_a p (Real.exp t) ^ γ / Real.exp t * Real.exp t)
      = fun t => Omega_m_a p (Real.exp t) ^ γ :=
    funext fun t => div_mul_cancel₀ _ (Real.exp_pos t).ne'
  have eg' : ∀ t, Omega_m_a p (Real.exp t) ^ γ / Real.exp t * Real.exp t
      = Omega_m_a p (Real.exp t) ^ γ := fun t => congrFun eg t
  rw [eg] at hg
  simp only [eg'] at hY
  have hnn : ∀ a ∈ Icc ((10 : ℝ) ^ lo) 1, 0 ≤ ∫ x in a..1, Omega_m_a p x ^ γ / x := fun a ha => by
    refine intervalIntegral.integral_nonneg ha.2 fun x hx => ?_
    have hx' : x ∈ Icc ((10 : ℝ) ^ lo) 1 := ⟨ha.1.trans hx.1, hx.2⟩
    have := hOm x hx'
    have := h0.trans_le hx'.1
    positivity
  obtain ⟨C, hC0, hC⟩ := quadrature_error hlo hg hY
  obtain ⟨C', hC'⟩ := logspace_interp_error hlo (F := growthFromRate fun x => Omega_m_a p x ^ γ)
    hF.neg.exp (Real.exp C * C)
  refine ⟨C', fun n hn a ha => ?_⟩
  have hn1 : (1 : ℝ) ≤ n := by exact_mod_cast (by omega : 1 ≤ n)
  have hnode : ∀ i ≤ n, |(growthTableGamma p γ lo (n + 1)).g i
      - growthFromRate (fun x => Omega_m_a p x ^ γ) (logspace lo 0 (n + 1) i)|
      ≤ Real.exp C * C / n ^ 4 := by
    intro i hi
    have h := hC n (by omega) (Real.log (logspace lo 0 (n + 1) 0)) i hi
    rw [Real.exp_zero, intervalIntegral.integral_same, neg_zero, zero_sub, neg_neg,
      Real.exp_log (logspace_pos _ _ _ _)] at h
    have hix : ix (n + 1) (-1) = n := by rw [ix_last]; rfl
    simp only [growthTableGamma, growthRateGamma, hix, growthFromRate]
    rw [← Real.exp_sub]
    generalize odeint (fun _ loga => Omega_m_a p (Real.exp loga) ^ γ)
      (Real.log (logspace lo 0 (n + 1) 0)) (fun i => Real.log (logspace lo 0 (n + 1) i)) n = on at *
    generalize odeint (fun _ loga => Omega_m_a p (Real.exp loga) ^ γ)
      (Real.log (logspace lo 0 (n + 1) 0)) (fun i => Real.log (logspace lo 0 (n + 1) i)) i = oi at *
    rw [show oi - on = -(on - oi) by ring]
    have hmem := logspace_Icc hlo (n := n + 1) (by omega) (i := i) (by omega)
    have hle : C / (n : ℝ) ^ 4 ≤ C := div_le_self hC0 (one_le_pow₀ hn1)
    refine (exp_error (hnn _ hmem) (h.trans hle)).trans ?_
    rw [mul_div_assoc]
    exact mul_le_mul_of_nonneg_left h (Real.exp_pos _).le
  have := hC' n hn _ hnode a ha
  refine (clip_error (Real.exp_pos _).le ?_).trans this
  refine Real.exp_le_one_iff.2 ?_
  rw [neg_nonpos]
  exact hnn a ha

/-- C91 for the Planck cosmology and the default range of the distance table. -/
example : ∃ C, ∀ n : ℕ, 2 ≤ n → ∀ a ∈ Icc ((10 : ℝ) ^ (-3 : ℝ)) 1,
    |readChi (chiTable Planck15 (-3) (n + 1)) a
      - comovingDistance const_rh (expansion Planck15) a| ≤ C / n ^ 2 :=
  C91_distance (by norm_num) planck_EsqrPos

end JaxCosmo
