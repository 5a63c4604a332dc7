import Verif.Props.Accuracy
import Verif.Props.Hubble

/-! # C161: the derivative of the distance with respect to redshift is the Hubble radius -/

namespace JaxCosmo
open Spec Filter Topology

variable {p : Params} {lo : ℝ} {n : ℕ}

/-- Minus the slope of the distance table between nodes `j` and `j + 1`. -/
noncomputable def tableSlope (p : Params) (lo : ℝ) (n j : ℕ) : ℝ :=
  ((chiTable p lo n).chi j - (chiTable p lo n).chi (j + 1)) / (logspace lo 0 n (j + 1) - logspace lo 0 n j)

theorem readChi_seg (hlo : lo < 0) (hn : 3 ≤ n) (hE : EsqrPos p) {j : ℕ} (hj : 1 ≤ j) (hj' : j + 1 < n) {a : ℝ}
    (h1 : logspace lo 0 n j ≤ a) (h2 : a < logspace lo 0 n (j + 1)) :
    readChi (chiTable p lo n) a = chord (logspace lo 0 n) (chiTable p lo n).chi j a := by
  have h3 : logspace lo 0 n (j + 1) ≤ 1 := by
    rw [← logspace_end lo (by omega : 2 ≤ n)]
    exact (logspace_strictMono hlo (by omega)).monotone (by omega)
  have hpos := C06_pos_before (n := n) hlo (by omega) hE (h2.trans_le h3)
  have hs : interp n (logspace lo 0 n) (chiTable p lo n).chi a = chord (logspace lo 0 n) (chiTable p lo n).chi j a :=
    interp_inc_seg hn (logspace_increasing hlo (by omega)) _ hj hj' (Or.inr h1) (Or.inr h2.le)
  have e : readChi (chiTable p lo n) a = max (chord (logspace lo 0 n) (chiTable p lo n).chi j a) 0 := by
    rw [← hs]; rfl
  rw [e] at hpos ⊢
  exact max_eq_left (by
    by_contra hc
    rw [max_eq_right (not_le.1 hc).le] at hpos
    exact lt_irrefl _ hpos)

/-- C161: what differentiation by redshift returns between two nodes of the table. -/
theorem C161_derivative (hlo : lo < 0) (hn : 3 ≤ n) (hE : EsqrPos p) {j : ℕ} (hj : 1 ≤ j) (hj' : j + 1 < n) {z : ℝ}
    (hz : 0 < 1 + z) (h1 : logspace lo 0 n j < z2a z) (h2 : z2a z < logspace lo 0 n (j + 1)) :
    HasDerivAt (fun z => readChi (chiTable p lo n) (z2a z)) (tableSlope p lo n j * z2a z ^ 2) z := by
  have ha : HasDerivAt z2a (-(z2a z) ^ 2) z := by
    have := ((hasDerivAt_id z).const_add 1).inv hz.ne'
    refine (this.congr_deriv ?_).congr_of_eventuallyEq (Eventually.of_forall fun y => ?_)
    · simp only [id, z2a, one_div, inv_pow]; rw [neg_div, one_div]
    · simp [z2a]
  have hc : HasDerivAt (chord (logspace lo 0 n) (chiTable p lo n).chi j) (-tableSlope p lo n j) (z2a z) := by
    unfold chord
    have := (((hasDerivAt_id (z2a z)).sub_const (logspace lo 0 n j)).div_const
      (logspace lo 0 n (j + 1) - logspace lo 0 n j)).const_mul ((chiTable p lo n).chi (j + 1) - (chiTable p lo n).chi j)
    refine (this.const_add _).congr_deriv ?_
    unfold tableSlope
    ring
  refine ((hc.comp z ha).congr_deriv (by ring)).congr_of_eventuallyEq ?_
  have hcont := ha.continuousAt
  filter_upwards [hcont.eventually (lt_mem_nhds h1), hcont.eventually (gt_mem_nhds h2)] with y y1 y2
  exact readChi_seg hlo hn hE hj hj' y1.le y2

theorem tableSlope_panel (p : Params) (lo : ℝ) {j : ℕ} (hj : j + 1 < n) :
    (chiTable p lo n).chi j - (chiTable p lo n).chi (j + 1)
      = panel (chiRate p) (Real.log (logspace lo 0 n j)) (Real.log (logspace lo 0 n (j + 1))) := by
  rw [chiTable_chi p lo n j (by omega), chiTable_chi p lo n (j + 1) (by omega),
    Finset.sum_eq_sum_Ico_succ_bot (by omega : j < n - 1)]
  ring

theorem rate_near (hp : Mild p) {x y h : ℝ} (hx : x ≤ 0) (hy : y ≤ 0) (hxy : |x - y| ≤ h) :
    Real.exp (-h) * chiRate p y ≤ chiRate p x ∧ chiRate p x ≤ Real.exp h * chiRate p y := by
  have px := rate_pos hp.phys x
  have py := rate_pos hp.phys y
  rw [abs_le] at hxy
  have key : chiRate p y ≤ Real.exp h * chiRate p x ∧ chiRate p x ≤ Real.exp h * chiRate p y := by
    rcases le_total x y with hl | hl
    · obtain ⟨h1, h2⟩ := rate_ratio hp hl hy
      have he : Real.exp (y - x) ≤ Real.exp h := Real.exp_le_exp.2 (by linarith)
      exact ⟨h1.trans (by gcongr), h2.trans (by gcongr)⟩
    · obtain ⟨h1, h2⟩ := rate_ratio hp hl hx
      have he : Real.exp (x - y) ≤ Real.exp h := Real.exp_le_exp.2 (by linarith)
      exact ⟨h2.trans (by gcongr), h1.trans (by gcongr)⟩
  refine ⟨?_, key.2⟩
  rw [Real.exp_neg, inv_mul_le_iff₀ (Real.exp_pos h)]
  exact key.1

/-- C161, partial: the derivative is the Hubble radius up to two steps of the table, at every redshift between the
nodes.  What is missing is equality: see `C161_refuted`. -/
theorem C161_accuracy_partial (hlo : lo < 0) (hn : 3 ≤ n) (hp : Mild p) {j : ℕ} (hj : 1 ≤ j) (hj' : j + 1 < n) {z : ℝ}
    (hz : 0 < 1 + z) (h1 : logspace lo 0 n j < z2a z) (h2 : z2a z < logspace lo 0 n (j + 1)) :
    ∃ d, HasDerivAt (fun z => readChi (chiTable p lo n) (z2a z)) d z ∧
      Real.exp (-(2 * gridStep lo n)) * (const_rh / expansion p (z2a z)) ≤ d ∧
      d ≤ Real.exp (2 * gridStep lo n) * (const_rh / expansion p (z2a z)) := by
  refine ⟨_, C161_derivative hlo hn hp.phys.esqrPos hj hj' hz h1 h2, ?_⟩
  set a := z2a z with ha
  set u := logspace lo 0 n j with hu
  set v := logspace lo 0 n (j + 1) with hv
  set h := gridStep lo n with hh
  have hu0 : 0 < u := logspace_pos lo 0 n j
  have ha0 : 0 < a := hu0.trans h1
  have hv0 : 0 < v := ha0.trans h2
  have hv1 : v ≤ 1 := by
    rw [hv, ← logspace_end lo (by omega : 2 ≤ n)]
    exact (logspace_strictMono hlo (by omega)).monotone (by omega)
  have hh0 : 0 < h := gridStep_pos hlo (by omega)
  have hstep : Real.log v - Real.log u = h := log_logspace_step lo j
  have hvu : v = u * Real.exp h := by
    rw [← hstep, Real.exp_sub, Real.exp_log hv0, Real.exp_log hu0]; field_simp
  have lu : Real.log u ≤ Real.log a := Real.log_le_log hu0 h1.le
  have lv : Real.log a ≤ Real.log v := Real.log_le_log ha0 h2.le
  have lv0 : Real.log v ≤ 0 := Real.log_nonpos hv0.le hv1
  have htrue : const_rh / expansion p a = a * chiRate p (Real.log a) := by
    rw [rate_log p ha0]; field_simp
  have r1 := rate_near hp (x := Real.log u) (y := Real.log a) (h := h) (by linarith) (by linarith)
    (by rw [abs_le]; constructor <;> linarith)
  have r2 := rate_near hp (x := (Real.log u + Real.log v) / 2) (y := Real.log a) (h := h) (by linarith) (by linarith)
    (by rw [abs_le]; constructor <;> linarith)
  have r3 := rate_near hp (x := Real.log v) (y := Real.log a) (h := h) (by linarith) (by linarith)
    (by rw [abs_le]; constructor <;> linarith)
  rw [htrue, tableSlope, ← hu, ← hv, tableSlope_panel p lo hj', ← hu, ← hv, panel, hstep]
  have hg := rate_pos hp.phys (Real.log a)
  set g := chiRate p (Real.log a) with hgd
  set P := chiRate p (Real.log u) + 4 * chiRate p ((Real.log u + Real.log v) / 2) + chiRate p (Real.log v) with hP
  have hP1 : 6 * (Real.exp (-h) * g) ≤ P := by rw [hP]; linarith [r1.1, r2.1, r3.1]
  have hP2 : P ≤ 6 * (Real.exp h * g) := by rw [hP]; linarith [r1.2, r2.2, r3.2]
  have hd : 0 < v - u := by linarith
  have e1 : h ≤ Real.exp h - 1 := by linarith [Real.add_one_le_exp h]
  have e2 : 1 - Real.exp (-h) ≤ h := by linarith [Real.add_one_le_exp (-h)]
  have ee : Real.exp h * Real.exp (-h) = 1 := by rw [← Real.exp_add]; simp
  have q1 : Real.exp (-h) * (v - u) ≤ a * h := by
    have : Real.exp (-h) * (v - u) = u * (1 - Real.exp (-h)) := by rw [hvu]; linear_combination u * ee
    rw [this]
    exact mul_le_mul h1.le e2 (by rw [sub_nonneg, Real.exp_le_one_iff]; linarith) ha0.le
  have q2 : a * h ≤ Real.exp h * (v - u) := by
    have : Real.exp h * (v - u) = v * (Real.exp h - 1) := by rw [hvu]; ring
    rw [this]
    exact mul_le_mul h2.le e1 hh0.le hv0.le
  have x1 : Real.exp (-(2 * h)) = Real.exp (-h) * Real.exp (-h) := by rw [← Real.exp_add]; congr 1; ring
  have x2 : Real.exp (2 * h) = Real.exp h * Real.exp h := by rw [← Real.exp_add]; congr 1; ring
  have hs : h / 6 * P / (v - u) * a ^ 2 = a * h * (P / 6) * a / (v - u) := by field_simp
  have hPpos : 0 < P := lt_of_lt_of_le (by positivity) hP1
  rw [hs, x1, x2]
  constructor
  · rw [le_div_iff₀ hd]
    calc Real.exp (-h) * Real.exp (-h) * (a * g) * (v - u)
        = Real.exp (-h) * (v - u) * (Real.exp (-h) * g) * a := by ring
      _ ≤ a * h * (P / 6) * a := by
          refine mul_le_mul_of_nonneg_right (mul_le_mul q1 (by linarith) (by positivity) (by positivity)) ha0.le
  · rw [div_le_iff₀ hd]
    calc a * h * (P / 6) * a ≤ Real.exp h * (v - u) * (Real.exp h * g) * a := by
          refine mul_le_mul_of_nonneg_right (mul_le_mul q2 (by linarith) (by positivity) (by positivity)) ha0.le
      _ = Real.exp h * Real.exp h * (a * g) * (v - u) := by ring

/-- C161: with the default table the derivative is within six per cent of the Hubble radius. -/
theorem C161_default (hp : Mild p) {j : ℕ} (hj : 1 ≤ j) (hj' : j < 255) {z : ℝ}
    (hz : 0 < 1 + z) (h1 : logspace (-3) 0 256 j < z2a z) (h2 : z2a z < logspace (-3) 0 256 (j + 1)) :
    ∃ d, HasDerivAt (fun z => chiOf p (z2a z)) d z ∧
      |d - const_rh / expansion p (z2a z)| ≤ 0.06 * (const_rh / expansion p (z2a z)) := by
  obtain ⟨d, k1, k2, k3⟩ := C161_accuracy_partial (n := 256) (by norm_num) (by norm_num) hp hj (by omega) hz h1 h2
  refine ⟨d, k1, ?_⟩
  have hr : 0 < const_rh / expansion p (z2a z) := by
    have ha0 : 0 < z2a z := by unfold z2a; positivity
    have : const_rh / expansion p (z2a z) = z2a z * chiRate p (Real.log (z2a z)) := by
      rw [rate_log p ha0]; field_simp
    rw [this]
    exact mul_pos ha0 (rate_pos hp.phys _)
  have hs : Real.exp (2 * gridStep (-3) 256) ≤ 1.06 := by
    have e : 2 * gridStep (-3) 256 = 4 * (3 / 255 * Real.log 10 / 2) := by
      unfold gridStep; norm_num; ring
    rw [e, show (4 : ℝ) * (3 / 255 * Real.log 10 / 2) = (4 : ℕ) * (3 / 255 * Real.log 10 / 2) by norm_num,
      Real.exp_nat_mul]
    calc _ ≤ (1.01364 : ℝ) ^ 4 := pow_le_pow_left₀ (Real.exp_pos _).le half_step.2 4
      _ ≤ 1.06 := by norm_num
  have hs' : (0.94 : ℝ) ≤ Real.exp (-(2 * gridStep (-3) 256)) := by
    rw [Real.exp_neg, le_inv_comm₀ (by norm_num) (Real.exp_pos _)]
    exact hs.trans (by norm_num)
  set R := const_rh / expansion p (z2a z)
  have b1 := mul_le_mul_of_nonneg_right hs hr.le
  have b2 := mul_le_mul_of_nonneg_right hs' hr.le
  rw [abs_le]
  constructor <;> linarith

/-- C161 as stated fails in every universe of matter, curvature and a dark energy that is neither phantom nor
stiffer than radiation, whatever the table: just before today the derivative is not the Hubble radius. -/
theorem C161_refuted (hlo : lo < 0) (hn : 3 ≤ n) (hp : Mild p) :
    ¬ ∀ z d, 0 < z → logspace lo 0 n (n - 2) < z2a z → HasDerivAt (fun z => readChi (chiTable p lo n) (z2a z)) d z →
      d = const_rh / expansion p (z2a z) := by
  intro h
  have hend := logspace_end lo (by omega : 2 ≤ n)
  have hb : logspace lo 0 n (n - 2) < 1 := by
    rw [← hend]; exact logspace_strictMono hlo (by omega) (by omega)
  have hsl : tableSlope p lo n (n - 2) = lastSlope p lo n := by
    rw [tableSlope, lastSlope, show n - 2 + 1 = n - 1 by omega, chiTable_last, hend, sub_zero]
  have key : ∀ᶠ a in 𝓝[<] (1 : ℝ), lastSlope p lo n * a ^ 2 = const_rh / expansion p a := by
    filter_upwards [self_mem_nhdsWithin, nhdsWithin_le_nhds (lt_mem_nhds hb)] with a ha1 hab
    have ha1' : a < 1 := ha1
    have ha0 : 0 < a := (logspace_pos lo 0 n (n - 2)).trans hab
    have hz0 : 0 < 1 / a - 1 := by
      rw [sub_pos, lt_div_iff₀ ha0]; linarith
    have hza : z2a (1 / a - 1) = a := by unfold z2a; field_simp; ring
    have hd := C161_derivative hlo hn hp.phys.esqrPos (j := n - 2) (z := 1 / a - 1) (by omega) (by omega) (by linarith)
      (by rw [hza]; exact hab) (by rw [hza, show n - 2 + 1 = n - 1 by omega, hend]; exact ha1')
    have := h _ _ hz0 (by rw [hza]; exact hab) hd
    rwa [hza, hsl] at this
  have l1 : Tendsto (fun a : ℝ => lastSlope p lo n * a ^ 2) (𝓝[<] 1) (𝓝 (lastSlope p lo n)) := by
    have : ContinuousAt (fun a : ℝ => lastSlope p lo n * a ^ 2) 1 := by fun_prop
    have := this.tendsto
    simp only [one_pow, mul_one] at this
    exact this.mono_left nhdsWithin_le_nhds
  have l2 : Tendsto (fun a : ℝ => const_rh / expansion p a) (𝓝[<] 1) (𝓝 const_rh) := by
    have hc : ContinuousAt (fun a : ℝ => a * chiRate p (Real.log a)) 1 :=
      continuousAt_id.mul ((rate_continuous hp.phys).continuousAt.comp (Real.continuousAt_log one_ne_zero))
    have h1 : (1 : ℝ) * chiRate p (Real.log 1) = const_rh := by
      rw [one_mul, Real.log_one, chiRate_eq]; simp [C02_Esqr_one]
    have := hc.tendsto
    rw [h1] at this
    refine (this.mono_left nhdsWithin_le_nhds).congr' ?_
    filter_upwards [nhdsWithin_le_nhds (lt_mem_nhds (zero_lt_one (α := ℝ)))] with a ha0
    rw [rate_log p ha0]
    field_simp
  have := tendsto_nhds_unique (l1.congr' key) l2
  linarith [(C147_bounds_partial (n := n) hlo (by omega) hp.phys hp.w_le).1]

/-- Planck 2015 with the default table, between the last two nodes (redshifts below 0.027). -/
example {z : ℝ} (h0 : 0 < z) (h1 : logspace (-3) 0 256 254 < z2a z) :
    ∃ d, HasDerivAt (fun z => chiOf Planck15 (z2a z)) d z ∧
      |d - const_rh / expansion Planck15 (z2a z)| ≤ 0.06 * (const_rh / expansion Planck15 (z2a z)) := by
  refine C161_default planck_mild (j := 254) (by norm_num) (by norm_num) (by linarith) h1 ?_
  have := logspace_end (-3) (n := 256) (by norm_num)
  rw [show 254 + 1 = 256 - 1 from rfl, this]
  unfold z2a
  rw [div_lt_one (by linarith)]
  linarith

example : ¬ ∀ z d, 0 < z → logspace (-3) 0 256 254 < z2a z → HasDerivAt (fun z => chiOf Planck15 (z2a z)) d z →
    d = const_rh / expansion Planck15 (z2a z) :=
  C161_refuted (by norm_num) (by norm_num) planck_mild

end JaxCosmo
