import Verif.Props.Distances
import Verif.Props.Growth
import Verif.Model.Utils

/-! # C147: Hubble's law -/

namespace JaxCosmo
open Spec Filter Topology

variable {p : Params} {lo : ℝ} {n : ℕ}

/-- Slope of the last segment of the distance table. -/
noncomputable def lastSlope (p : Params) (lo : ℝ) (n : ℕ) : ℝ :=
  (chiTable p lo n).chi (n - 2) / (1 - logspace lo 0 n (n - 2))

/-- C147: between the last two tabulated scale factors the distance is proportional to `1 - a`. -/
theorem C147_last (hlo : lo < 0) (hn : 2 ≤ n) (hE : EsqrPos p) {a : ℝ} (h0 : logspace lo 0 n (n - 2) ≤ a) (h1 : a ≤ 1) :
    readChi (chiTable p lo n) a = lastSlope p lo n * (1 - a) := by
  have hx := logspace_increasing hlo hn
  have hb : logspace lo 0 n (n - 2) < 1 := by
    rw [← logspace_end lo hn]; exact logspace_strictMono hlo hn (by omega)
  have hs : interp n (logspace lo 0 n) (chiTable p lo n).chi a = chord (logspace lo 0 n) (chiTable p lo n).chi (n - 2) a := by
    rcases Nat.lt_or_ge n 3 with h | h
    · obtain rfl : n = 2 := by omega
      exact interp_two _ _
    · exact interp_inc_seg h hx _ (by omega) (by omega) (Or.inr h0) (Or.inl (by omega))
  have hc : chord (logspace lo 0 n) (chiTable p lo n).chi (n - 2) a = lastSlope p lo n * (1 - a) := by
    rw [chord, show n - 2 + 1 = n - 1 by omega, chiTable_last, logspace_end lo hn, lastSlope]
    have : (1 : ℝ) - logspace lo 0 n (n - 2) ≠ 0 := by linarith
    field_simp
    ring
  have h2 : 0 ≤ lastSlope p lo n := by
    have := chiTable_decreasing p hlo hn hE (n - 2) (n - 1) (by omega) (by omega)
    rw [chiTable_last] at this
    exact div_nonneg this.le (by linarith)
  rw [readChi, chiTable_a, chiTable_n, hs, hc]
  exact max_eq_left (mul_nonneg h2 (by linarith))

/-- C147: the ratio of distance and redshift tends to that slope. -/
theorem C147_limit (hlo : lo < 0) (hn : 2 ≤ n) (hE : EsqrPos p) :
    Tendsto (fun z => readChi (chiTable p lo n) (z2a z) / z) (𝓝[>] 0) (𝓝 (lastSlope p lo n)) := by
  have hb : logspace lo 0 n (n - 2) < 1 := by
    rw [← logspace_end lo hn]; exact logspace_strictMono hlo hn (by omega)
  have hb0 := logspace_pos lo 0 n (n - 2)
  have hc : Tendsto (fun z : ℝ => lastSlope p lo n / (1 + z)) (𝓝[>] 0) (𝓝 (lastSlope p lo n)) := by
    have : ContinuousAt (fun z : ℝ => lastSlope p lo n / (1 + z)) 0 :=
      continuousAt_const.div (continuousAt_const.add continuousAt_id) (by norm_num)
    have := this.tendsto
    simp only [add_zero, div_one] at this
    exact this.mono_left nhdsWithin_le_nhds
  refine hc.congr' ?_
  have hz : (0 : ℝ) < 1 / logspace lo 0 n (n - 2) - 1 := by
    rw [sub_pos, lt_div_iff₀ hb0]; linarith
  filter_upwards [Ioo_mem_nhdsGT hz] with z hz
  obtain ⟨hz0, hz1⟩ := hz
  have h1 : logspace lo 0 n (n - 2) ≤ z2a z := by
    unfold z2a
    rw [le_div_iff₀ (by linarith)]
    rw [lt_sub_iff_add_lt, lt_div_iff₀ hb0] at hz1
    linarith
  have h2 : z2a z ≤ 1 := by unfold z2a; rw [div_le_one (by linarith)]; linarith
  rw [C147_last hlo hn hE h1 h2]
  unfold z2a
  field_simp
  ring

/-- The last tabulated step of `ln a`. -/
theorem log_last (lo : ℝ) (hn : 2 ≤ n) : Real.log (logspace lo 0 n (n - 2)) = -(-lo / ((n : ℝ) - 1) * Real.log 10) := by
  have h := log_logspace_step lo (n := n) (n - 2)
  rw [show n - 2 + 1 = n - 1 by omega, logspace_end lo hn, Real.log_one] at h
  linarith

theorem chiTable_second (p : Params) (lo : ℝ) (hn : 2 ≤ n) :
    (chiTable p lo n).chi (n - 2) = panel (chiRate p) (Real.log (logspace lo 0 n (n - 2))) 0 := by
  rw [chiTable_chi p lo n _ (by omega)]
  have : Finset.Ico (n - 2) (n - 1) = {n - 2} := by
    rw [show n - 1 = n - 2 + 1 by omega]; simp
  rw [this, Finset.sum_singleton, show n - 2 + 1 = n - 1 by omega, logspace_end lo hn, Real.log_one]

/-- Radiation dilutes faster than anything else present. -/
theorem quartic_lt (hp : Physical p) (hw : ∀ a, 0 < a → a ≤ 1 → w p a ≤ 1 / 3) {x : ℝ} (hx : x < 0) :
    Esqr p (Real.exp x) < Real.exp (-(4 * x)) := by
  have he0 := Real.exp_pos x
  have hf : f_de p (Real.exp x) ≤ -(4 * x) := by
    have w1 := hw 1 one_pos le_rfl
    have w0 : p.w0 + p.wa ≤ 1 / 3 := by
      by_contra hc
      rw [not_le] at hc
      set d := p.w0 + p.wa - 1 / 3 with hd
      have hd0 : 0 < d := by linarith
      have ha : 0 < min 1 (d / (2 * (|p.wa| + 1))) := by positivity
      have := hw _ ha (min_le_left _ _)
      have h2 : min 1 (d / (2 * (|p.wa| + 1))) * (|p.wa| + 1) ≤ d / 2 := by
        calc _ ≤ d / (2 * (|p.wa| + 1)) * (|p.wa| + 1) := by gcongr; exact min_le_right _ _
          _ = d / 2 := by field_simp
      have h3 : min 1 (d / (2 * (|p.wa| + 1))) * p.wa ≤ min 1 (d / (2 * (|p.wa| + 1))) * (|p.wa| + 1) := by
        gcongr
        linarith [le_abs_self p.wa]
      unfold w at this
      nlinarith
    unfold w at w1
    have w1' : p.w0 ≤ 1 / 3 := by linarith
    unfold f_de
    rw [Real.log_exp]
    have e1 := Real.add_one_le_exp x
    rcases le_total p.wa 0 with h | h
    · nlinarith
    · have hx1 : Real.exp x ≤ 1 := Real.exp_le_one_iff.2 hx.le
      nlinarith [mul_nonneg (by linarith : 0 ≤ 1 - 3 * p.w0 - 3 * p.wa) (by linarith : 0 ≤ Real.exp x - 1 - x),
        mul_nonneg (by linarith : 0 ≤ 1 - 3 * p.w0) (by linarith : 0 ≤ 1 - Real.exp x)]
  unfold Esqr
  have hz3 : (Real.exp x) ^ (-3 : ℤ) = Real.exp (-(3 * x)) := by
    rw [zpow_neg, Real.exp_neg]; norm_cast; rw [← Real.exp_nat_mul]; norm_num
  have hz2 : (Real.exp x) ^ (-2 : ℤ) = Real.exp (-(2 * x)) := by
    rw [zpow_neg, Real.exp_neg]; norm_cast; rw [← Real.exp_nat_mul]; norm_num
  rw [hz3, hz2]
  have h3 : Real.exp (-(3 * x)) < Real.exp (-(4 * x)) := Real.exp_lt_exp.2 (by linarith)
  have h2 : Real.exp (-(2 * x)) ≤ Real.exp (-(4 * x)) := Real.exp_le_exp.2 (by linarith)
  have h1 : Real.exp (f_de p (Real.exp x)) ≤ Real.exp (-(4 * x)) := Real.exp_le_exp.2 hf
  have hs : p.Omega_m + p.Omega_k + p.Omega_de = 1 := by
    simp [Params.Omega_de, Params.Omega]; ring
  calc _ < p.Omega_m * Real.exp (-(4 * x)) + p.Omega_k * Real.exp (-(4 * x)) + p.Omega_de * Real.exp (-(4 * x)) :=
      add_lt_add_of_lt_of_le (add_lt_add_of_lt_of_le (mul_lt_mul_of_pos_left h3 hp.m_pos)
        (mul_le_mul_of_nonneg_left h2 hp.k_nonneg)) (mul_le_mul_of_nonneg_left h1 hp.de_nonneg)
    _ = (p.Omega_m + p.Omega_k + p.Omega_de) * Real.exp (-(4 * x)) := by ring
    _ = _ := by rw [hs, one_mul]

theorem chiRate_gt (hp : Physical p) (hw : ∀ a, 0 < a → a ≤ 1 → w p a ≤ 1 / 3) {x : ℝ} (hx : x < 0) :
    const_rh * Real.exp x < chiRate p x := by
  have hE := hp.esqrPos _ (Real.exp_pos x) (Real.exp_le_one_iff.2 hx.le)
  rw [chiRate_eq, lt_div_iff₀ (Real.sqrt_pos.2 hE), mul_assoc]
  have hr : 0 < const_rh := by norm_num [const_rh]
  refine mul_lt_mul_of_pos_left ?_ hr
  have : Real.sqrt (Esqr p (Real.exp x)) < Real.exp (-(2 * x)) := by
    rw [Real.sqrt_lt' (Real.exp_pos _), ← Real.exp_nat_mul]
    convert quartic_lt hp hw hx using 2
    push_cast; ring
  calc _ < Real.exp x * Real.exp (-(2 * x)) := mul_lt_mul_of_pos_left this (Real.exp_pos _)
    _ = Real.exp (-x) := by rw [← Real.exp_add]; congr 1; ring

theorem chiRate_le (hp : Physical p) {x : ℝ} (hx : x ≤ 0) : chiRate p x ≤ const_rh * Real.exp (-x) := by
  have h1 : Real.exp x ≤ 1 := Real.exp_le_one_iff.2 hx
  have hE : 1 ≤ Esqr p (Real.exp x) := by
    rw [← C02_Esqr_one p]
    exact C05_Esqr_antitone p hp.m_pos.le hp.k_nonneg hp.de_nonneg (fun a h0 h1 => (hp.w_range a h0 h1).1)
      ⟨Real.exp_pos x, h1⟩ (by simp) h1
  have hs : 1 ≤ Real.sqrt (Esqr p (Real.exp x)) := Real.one_le_sqrt.2 hE
  rw [chiRate_eq]
  refine div_le_of_le_mul₀ (by linarith) (by have := Real.exp_pos (-x); norm_num [const_rh]; positivity) ?_
  have : 0 ≤ const_rh * Real.exp (-x) := by norm_num [const_rh]; positivity
  nlinarith

theorem nonneg_of_deriv {f f' : ℝ → ℝ} (hf : ∀ x, HasDerivAt f (f' x) x) (h0 : f 0 = 0) (h : ∀ x, 0 ≤ x → 0 ≤ f' x)
    {x : ℝ} (hx : 0 ≤ x) : 0 ≤ f x := by
  have hm : MonotoneOn f (Set.Ici 0) := monotoneOn_of_deriv_nonneg (convex_Ici 0)
    (fun x _ => (hf x).continuousAt.continuousWithinAt) (fun x _ => (hf x).differentiableAt.differentiableWithinAt)
    fun x hx => by
      rw [(hf x).deriv]
      rw [interior_Ici] at hx
      exact h x (le_of_lt hx)
  rw [← h0]
  exact hm (by simp) hx hx

/-- `3 sinh t ≤ t (2 + cosh t)`: Simpson's rule overestimates the integral of an exponential. -/
theorem three_sinh_le {t : ℝ} (ht : 0 ≤ t) : 3 * Real.sinh t ≤ t * (2 + Real.cosh t) := by
  have g2 : ∀ t, 0 ≤ t → 0 ≤ t * Real.cosh t - Real.sinh t := fun t ht =>
    nonneg_of_deriv (f := fun t => t * Real.cosh t - Real.sinh t) (f' := fun t => t * Real.sinh t)
      (fun x => by
        refine HasDerivAt.congr_deriv (((hasDerivAt_id x).mul (Real.hasDerivAt_cosh x)).sub (Real.hasDerivAt_sinh x)) ?_
        simp only [id]; ring) (by simp) (fun x hx => mul_nonneg hx (Real.sinh_nonneg_iff.2 hx)) ht
  have g1 : ∀ t, 0 ≤ t → 0 ≤ 2 - 2 * Real.cosh t + t * Real.sinh t := fun t ht =>
    nonneg_of_deriv (f := fun t => 2 - 2 * Real.cosh t + t * Real.sinh t) (f' := fun t => t * Real.cosh t - Real.sinh t)
      (fun x => by
        refine HasDerivAt.congr_deriv ((((Real.hasDerivAt_cosh x).const_mul 2).const_sub 2).add
          ((hasDerivAt_id x).mul (Real.hasDerivAt_sinh x))) ?_
        simp only [id]; ring) (by simp) g2 ht
  have g0 := nonneg_of_deriv (f := fun t => t * (2 + Real.cosh t) - 3 * Real.sinh t)
    (f' := fun t => 2 - 2 * Real.cosh t + t * Real.sinh t) (fun x => by
        refine HasDerivAt.congr_deriv (((hasDerivAt_id x).mul ((Real.hasDerivAt_cosh x).const_add 2)).sub
          ((Real.hasDerivAt_sinh x).const_mul 3)) ?_
        simp only [id]; ring) (by simp) g1 ht
  linarith

theorem simpson_exp {h : ℝ} (hh : 0 ≤ h) :
    1 - Real.exp (-h) ≤ h / 6 * (Real.exp (-h) + 4 * Real.exp (-(h / 2)) + 1) := by
  have h3 := three_sinh_le (t := h / 2) (by linarith)
  rw [Real.sinh_eq, Real.cosh_eq] at h3
  have e0 := Real.exp_pos (-(h / 2))
  have e1 : Real.exp (h / 2) * Real.exp (-(h / 2)) = 1 := by rw [← Real.exp_add]; simp
  have e2 : Real.exp (-h) = Real.exp (-(h / 2)) * Real.exp (-(h / 2)) := by rw [← Real.exp_add]; congr 1; ring
  have h4 := mul_le_mul_of_nonneg_right h3 e0.le
  have h5 : 3 * ((Real.exp (h / 2) - Real.exp (-(h / 2))) / 2) * Real.exp (-(h / 2)) = 3 / 2 * (1 - Real.exp (-h)) := by
    rw [e2, ← e1]; ring
  have h6 : h / 2 * (2 + (Real.exp (h / 2) + Real.exp (-(h / 2))) / 2) * Real.exp (-(h / 2))
      = h / 4 * (Real.exp (-h) + 4 * Real.exp (-(h / 2)) + 1) := by
    rw [e2, ← e1]; ring
  rw [h5, h6] at h4
  linarith

/-- C147: the slope is larger than it should be, by at most one and a half steps of the table, in every universe of
matter, curvature and a dark energy that is neither phantom nor stiffer than radiation. -/
theorem C147_bounds_partial (hlo : lo < 0) (hn : 2 ≤ n) (hp : Physical p) (hw : ∀ a, 0 < a → a ≤ 1 → w p a ≤ 1 / 3) :
    const_rh < lastSlope p lo n ∧ lastSlope p lo n ≤ const_rh * Real.exp (3 / 2 * (-lo / ((n : ℝ) - 1) * Real.log 10)) := by
  have hb : logspace lo 0 n (n - 2) < 1 := by
    rw [← logspace_end lo hn]; exact logspace_strictMono hlo hn (by omega)
  have hb0 := logspace_pos lo 0 n (n - 2)
  set h := -lo / ((n : ℝ) - 1) * Real.log 10 with hh
  have hl : Real.log (logspace lo 0 n (n - 2)) = -h := log_last lo hn
  have hbe : logspace lo 0 n (n - 2) = Real.exp (-h) := by rw [← hl, Real.exp_log hb0]
  have hh0 : 0 < h := by
    have := Real.log_neg hb0 hb
    linarith
  have hr : 0 < const_rh := by norm_num [const_rh]
  have h1 : 0 < 1 - Real.exp (-h) := by rw [← hbe]; linarith
  have e0 : chiRate p 0 = const_rh := by
    rw [chiRate_eq]; simp [C02_Esqr_one]
  rw [lastSlope, chiTable_second p lo hn, hl, hbe, panel, e0, show (-h + 0) / 2 = -(h / 2) by ring,
    show 0 - -h = h by ring]
  constructor
  · rw [lt_div_iff₀ h1]
    have a1 := chiRate_gt hp hw (x := -h) (by linarith)
    have a2 := chiRate_gt hp hw (x := -(h / 2)) (by linarith)
    calc const_rh * (1 - Real.exp (-h))
        ≤ const_rh * (h / 6 * (Real.exp (-h) + 4 * Real.exp (-(h / 2)) + 1)) := by
          gcongr; exact simpson_exp hh0.le
      _ = h / 6 * (const_rh * Real.exp (-h) + 4 * (const_rh * Real.exp (-(h / 2))) + const_rh) := by ring
      _ < _ := by
          refine mul_lt_mul_of_pos_left ?_ (by positivity)
          linarith
  · rw [div_le_iff₀ h1]
    have a1 := chiRate_le hp (x := -h) (by linarith)
    have a2 := chiRate_le hp (x := -(h / 2)) (by linarith)
    rw [neg_neg] at a1 a2
    have b1 : Real.exp (h / 2) ≤ Real.exp h := Real.exp_le_exp.2 (by linarith)
    have b2 : 1 ≤ Real.exp h := Real.one_le_exp hh0.le
    have b3 : h * Real.exp h ≤ Real.exp (3 / 2 * h) * (1 - Real.exp (-h)) := by
      have c1 : Real.exp (3 / 2 * h) * (1 - Real.exp (-h)) = Real.exp h * (2 * Real.sinh (h / 2)) := by
        rw [Real.sinh_eq, mul_sub, mul_one, ← Real.exp_add, mul_div_cancel₀ _ two_ne_zero, mul_sub, ← Real.exp_add,
          ← Real.exp_add]
        congr 2 <;> ring
      rw [c1, mul_comm]
      have := Real.self_le_sinh_iff.2 (by linarith : 0 ≤ h / 2)
      have := Real.exp_pos h
      nlinarith
    calc h / 6 * (chiRate p (-h) + 4 * chiRate p (-(h / 2)) + const_rh)
        ≤ h / 6 * (const_rh * Real.exp h + 4 * (const_rh * Real.exp h) + const_rh * Real.exp h) := by
          gcongr
          · exact a2.trans (by gcongr)
          · nlinarith
      _ = const_rh * (h * Real.exp h) := by ring
      _ ≤ const_rh * (Real.exp (3 / 2 * h) * (1 - Real.exp (-h))) := by gcongr
      _ = _ := by ring

/-- C147: with more steps the slope tends to what it should be. -/
theorem C147_converges (hlo : lo < 0) (hp : Physical p) (hw : ∀ a, 0 < a → a ≤ 1 → w p a ≤ 1 / 3) :
    Tendsto (fun n => lastSlope p lo n) atTop (𝓝 const_rh) := by
  have hu : Tendsto (fun n : ℕ => const_rh * Real.exp (3 / 2 * (-lo / ((n : ℝ) - 1) * Real.log 10))) atTop (𝓝 const_rh) := by
    have h1 : Tendsto (fun n : ℕ => -lo / ((n : ℝ) - 1)) atTop (𝓝 0) :=
      tendsto_const_nhds.div_atTop (tendsto_atTop_add_const_right _ _ tendsto_natCast_atTop_atTop)
    have h2 : Tendsto (fun n : ℕ => 3 / 2 * (-lo / ((n : ℝ) - 1) * Real.log 10)) atTop (𝓝 0) := by
      simpa using (h1.mul_const (Real.log 10)).const_mul (3 / 2)
    simpa using ((Real.continuous_exp.tendsto 0).comp h2).const_mul const_rh
  refine tendsto_of_tendsto_of_tendsto_of_le_of_le' tendsto_const_nhds hu ?_ ?_
  · filter_upwards [eventually_ge_atTop 2] with n hn
    exact (C147_bounds_partial hlo hn hp hw).1.le
  · filter_upwards [eventually_ge_atTop 2] with n hn
    exact (C147_bounds_partial hlo hn hp hw).2

theorem sinh_le_mul_cosh {t : ℝ} (ht : 0 ≤ t) : Real.sinh t ≤ t * Real.cosh t := by
  have := nonneg_of_deriv (f := fun t => t * Real.cosh t - Real.sinh t) (f' := fun t => t * Real.sinh t)
    (fun x => HasDerivAt.congr_deriv (((hasDerivAt_id x).mul (Real.hasDerivAt_cosh x)).sub (Real.hasDerivAt_sinh x))
      (by simp only [id]; ring)) (by simp) (fun x hx => mul_nonneg hx (Real.sinh_nonneg_iff.2 hx)) ht
  linarith

theorem step_ge {h : ℝ} (hh : 0 ≤ h) : 2 * (1 - Real.exp (-h)) ≤ h * (1 + Real.exp (-h)) := by
  have h3 := sinh_le_mul_cosh (t := h / 2) (by linarith)
  rw [Real.sinh_eq, Real.cosh_eq] at h3
  have e0 := Real.exp_pos (-(h / 2))
  have e1 : Real.exp (h / 2) * Real.exp (-(h / 2)) = 1 := by rw [← Real.exp_add]; simp
  have e2 : Real.exp (-h) = Real.exp (-(h / 2)) * Real.exp (-(h / 2)) := by rw [← Real.exp_add]; congr 1; ring
  have h4 := mul_le_mul_of_nonneg_right h3 e0.le
  rw [e2]
  nlinarith

theorem planck_Esqr {x : ℝ} : Esqr Planck15 (Real.exp x) = 0.3075 * Real.exp (-x) ^ 3 + 0.6925 := by
  have h3 : (Real.exp x) ^ (-3 : ℤ) = Real.exp (-x) ^ 3 := by
    rw [zpow_neg, Real.exp_neg]; norm_cast; rw [inv_pow]
  have hf : f_de Planck15 (Real.exp x) = 0 := by norm_num [f_de, Planck15]
  rw [Esqr, hf, h3]
  norm_num [Planck15, Params.Omega_m, Params.Omega_de, Params.Omega]

/-- `dχ/dln a` in the Planck universe, from bounds on `1/a`. -/
theorem planck_rate_ge {x c d r : ℝ} (hc0 : 0 ≤ c) (hc : c ≤ Real.exp (-x)) (hd : Real.exp (-x) ≤ d)
    (h : r ^ 2 * (0.3075 * d ^ 3 + 0.6925) ≤ c ^ 2) : const_rh * r ≤ chiRate Planck15 x := by
  have hE : 0 < Esqr Planck15 (Real.exp x) := by rw [planck_Esqr]; positivity
  rw [chiRate_eq, le_div_iff₀ (Real.sqrt_pos.2 hE), mul_assoc]
  have hcr : (0 : ℝ) ≤ const_rh := by norm_num [const_rh]
  refine mul_le_mul_of_nonneg_left ?_ hcr
  refine abs_le_of_sq_le_sq' ?_ (Real.exp_pos _).le |>.2
  rw [mul_pow, Real.sq_sqrt hE.le, planck_Esqr]
  have h1 : Real.exp (-x) ^ 3 ≤ d ^ 3 := pow_le_pow_left₀ (Real.exp_pos _).le hd 3
  have h2 : c ^ 2 ≤ Real.exp (-x) ^ 2 := pow_le_pow_left₀ hc0 hc 2
  have h3 : r ^ 2 * (0.3075 * Real.exp (-x) ^ 3 + 0.6925) ≤ r ^ 2 * (0.3075 * d ^ 3 + 0.6925) := by gcongr
  linarith

/-- Bounds on half a step of the default table. -/
theorem half_step : (1.0136 : ℝ) ≤ Real.exp (3 / 255 * Real.log 10 / 2) ∧ Real.exp (3 / 255 * Real.log 10 / 2) ≤ 1.01364 := by
  have e : Real.exp (3 / 255 * Real.log 10 / 2) ^ 170 = 10 := by
    rw [← Real.exp_nat_mul]
    rw [show ((170 : ℕ) : ℝ) * (3 / 255 * Real.log 10 / 2) = Real.log 10 by push_cast; ring]
    exact Real.exp_log (by norm_num)
  constructor
  · by_contra hc
    rw [not_le] at hc
    have := pow_lt_pow_left₀ hc (Real.exp_pos _).le (n := 170) (by norm_num)
    rw [e] at this
    norm_num at this
  · by_contra hc
    rw [not_le] at hc
    have := pow_lt_pow_left₀ hc (by norm_num) (n := 170) (by norm_num)
    rw [e] at this
    norm_num at this

/-- C147: in the Planck universe, with the default table, nearby galaxies are at least two per cent too far. -/
theorem C147_planck : 1.02 * const_rh ≤ lastSlope Planck15 (-3) 256 := by
  have hb0 := logspace_pos (-3) 0 256 254
  have hl : Real.log (logspace (-3) 0 256 254) = -(3 / 255 * Real.log 10) := by
    have := log_last (-3) (n := 256) (by norm_num)
    rw [this]; norm_num
  set h := 3 / 255 * Real.log 10 with hh
  obtain ⟨c1, c2⟩ := half_step
  rw [← hh] at c1 c2
  have hh0 : 0 < h := by have := Real.log_pos (by norm_num : (1 : ℝ) < 10); positivity
  have hbe : logspace (-3) 0 256 254 = Real.exp (-h) := by rw [← hl, Real.exp_log hb0]
  have h1 : 0 < 1 - Real.exp (-h) := by
    rw [sub_pos, Real.exp_lt_one_iff]; linarith
  have e0 : chiRate Planck15 0 = const_rh := by rw [chiRate_eq]; simp [C02_Esqr_one]
  have hr : 0 < const_rh := by norm_num [const_rh]
  have ee : Real.exp h = Real.exp (h / 2) ^ 2 := by rw [← Real.exp_nat_mul]; congr 1; push_cast; ring
  have d1 : (1.0136 : ℝ) ^ 2 ≤ Real.exp h := by rw [ee]; exact pow_le_pow_left₀ (by norm_num) c1 2
  have d2 : Real.exp h ≤ 1.01364 ^ 2 := by rw [ee]; exact pow_le_pow_left₀ (Real.exp_pos _).le c2 2
  have r1 : const_rh * 1.0142 ≤ chiRate Planck15 (-h) :=
    planck_rate_ge (c := 1.0136 ^ 2) (d := 1.01364 ^ 2) (by norm_num) (by rwa [neg_neg])
      (by rwa [neg_neg]) (by norm_num)
  have r2 : const_rh * 1.0071 ≤ chiRate Planck15 (-(h / 2)) :=
    planck_rate_ge (c := 1.0136) (d := 1.01364) (by norm_num) (by rwa [neg_neg])
      (by rwa [neg_neg]) (by norm_num)
  have ha : Real.exp (-h) ≤ 0.9735 := by
    rw [Real.exp_neg, inv_le_comm₀ (Real.exp_pos _) (by norm_num)]
    exact le_trans (by norm_num) d1
  rw [lastSlope, show 256 - 2 = 254 from rfl, le_div_iff₀ (by rw [hbe]; exact h1),
    show (254 : ℕ) = 256 - 2 from rfl, chiTable_second _ _ (by norm_num), show 256 - 2 = 254 from rfl, hl, hbe, panel, e0,
    show (-h + 0) / 2 = -(h / 2) by ring, show 0 - -h = h by ring]
  have hs := step_ge hh0.le
  calc 1.02 * const_rh * (1 - Real.exp (-h)) ≤ 1.02 * const_rh * (h * (1 + Real.exp (-h)) / 2) := by gcongr; linarith
    _ ≤ 1.02 * const_rh * (h * (1 + 0.9735) / 2) := by gcongr
    _ ≤ h / 6 * (const_rh * 1.0142 + 4 * (const_rh * 1.0071) + const_rh) := by
        have : 0 < h * const_rh := by positivity
        nlinarith
    _ ≤ _ := by gcongr

/-- C147 refuted: Hubble's law `χ ≈ R_H z` does not hold at small redshift. -/
theorem C147_refuted : ¬ ∀ p, Physical p → Tendsto (fun z => chiOf p (z2a z) / z) (𝓝[>] 0) (𝓝 const_rh) := by
  intro hall
  have h1 := hall Planck15 planck_physical
  have h2 := C147_limit (p := Planck15) (lo := -3) (n := 256) (by norm_num) (by norm_num) planck_physical.esqrPos
  have := tendsto_nhds_unique h1 h2
  have h3 := C147_planck
  have : 0 < const_rh := by norm_num [const_rh]
  linarith

/-- Witness for `C147_bounds_partial`, `C147_limit` and `C147_converges`: the default table of the Planck universe. -/
example : (∀ a, 0 < a → a ≤ 1 → w Planck15 a ≤ 1 / 3) ∧ const_rh < lastSlope Planck15 (-3) 256 ∧
    lastSlope Planck15 (-3) 256 ≤ 1.042 * const_rh := by
  have hw : ∀ a, 0 < a → a ≤ 1 → w Planck15 a ≤ 1 / 3 := fun a _ _ => by norm_num [w, Planck15]
  obtain ⟨h1, h2⟩ := C147_bounds_partial (lo := -3) (n := 256) (by norm_num) (by norm_num) planck_physical hw
  refine ⟨hw, h1, h2.trans ?_⟩
  rw [mul_comm]
  have hr : 0 < const_rh := by norm_num [const_rh]
  gcongr
  have e : 3 / 2 * (-(-3) / (((256 : ℕ) : ℝ) - 1) * Real.log 10) = (3 : ℕ) * (3 / 255 * Real.log 10 / 2) := by
    push_cast; ring
  rw [e, Real.exp_nat_mul]
  exact (pow_le_pow_left₀ (Real.exp_pos _).le half_step.2 3).trans (by norm_num)

end JaxCosmo
