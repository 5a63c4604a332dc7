import Verif.Props.Accuracy

/-! # C154: distances to sources older than the start of the table -/

namespace JaxCosmo
open Spec Set

variable {p : Params} {lo : ℝ} {n : ℕ}

/-- The integrand of the distance, `R_H / (a² E)`. -/
noncomputable def perA (p : Params) (a : ℝ) : ℝ := const_rh / (a ^ 2 * Real.sqrt (Esqr p a))

/-- The straight line through the exact distances at the second and third tabulated scale factors. -/
noncomputable def lineBack (p : Params) (lo : ℝ) (n : ℕ) (a : ℝ) : ℝ :=
  comovingDistance const_rh (expansion p) (logspace lo 0 n 1)
    + (logspace lo 0 n 1 - a) / (logspace lo 0 n 2 - logspace lo 0 n 1)
      * (comovingDistance const_rh (expansion p) (logspace lo 0 n 1)
        - comovingDistance const_rh (expansion p) (logspace lo 0 n 2))

theorem logspace_le_today (hlo : lo < 0) (hn : 2 ≤ n) {i : ℕ} (hi : i < n) : logspace lo 0 n i ≤ 1 := by
  rw [← logspace_end lo hn]
  exact (logspace_strictMono hlo hn).monotone (by omega)

theorem perA_integrable (hp : Mild p) {x y : ℝ} (hx : x ∈ Ioc (0 : ℝ) 1) (hy : y ∈ Ioc (0 : ℝ) 1) :
    IntervalIntegrable (perA p) MeasureTheory.volume x y := by
  refine AntitoneOn.intervalIntegrable ((integrand_antitone hp).mono fun z hz => ?_)
  rw [mem_uIcc] at hz
  rcases hz with h | h
  · exact ⟨hx.1.trans_le h.1, h.2.trans hy.2⟩
  · exact ⟨hy.1.trans_le h.1, h.2.trans hx.2⟩

theorem distance_diff (hp : Mild p) {x y : ℝ} (hx : x ∈ Ioc (0 : ℝ) 1) (hy : y ∈ Ioc (0 : ℝ) 1) :
    comovingDistance const_rh (expansion p) x - comovingDistance const_rh (expansion p) y
      = ∫ t in x..y, perA p t := by
  rw [comovingDistance_eq, comovingDistance_eq]
  have := intervalIntegral.integral_add_adjacent_intervals (perA_integrable hp hx hy)
    (perA_integrable hp hy (by norm_num : (1 : ℝ) ∈ Ioc (0 : ℝ) 1))
  change (∫ t in x..1, perA p t) - (∫ t in y..1, perA p t) = _
  rw [← this]
  ring

theorem integral_inv_sqrt {a b : ℝ} (ha : 0 < a) (hab : a ≤ b) (c : ℝ) :
    ∫ t in a..b, c / Real.sqrt t = 2 * c * (Real.sqrt b - Real.sqrt a) := by
  have hd : ∀ t ∈ uIcc a b, HasDerivAt (fun t => 2 * c * Real.sqrt t) (c / Real.sqrt t) t := by
    intro t ht
    rw [uIcc_of_le hab] at ht
    have h0 : 0 < t := ha.trans_le ht.1
    refine (((Real.hasDerivAt_sqrt h0.ne').const_mul (2 * c))).congr_deriv ?_
    have := (Real.sqrt_pos.2 h0).ne'
    field_simp
  rw [intervalIntegral.integral_eq_sub_of_hasDerivAt hd]
  · ring
  · refine ContinuousOn.intervalIntegrable fun t ht => ?_
    rw [uIcc_of_le hab] at ht
    have h0 : 0 < t := ha.trans_le ht.1
    exact (continuousAt_const.div Real.continuous_sqrt.continuousAt
      (Real.sqrt_pos.2 h0).ne').continuousWithinAt

theorem inv_sqrt_integrable {a b : ℝ} (ha : 0 < a) (hab : a ≤ b) (c : ℝ) :
    IntervalIntegrable (fun t => c / Real.sqrt t) MeasureTheory.volume a b := by
  refine ContinuousOn.intervalIntegrable fun t ht => ?_
  rw [uIcc_of_le hab] at ht
  have h0 : 0 < t := ha.trans_le ht.1
  exact (continuousAt_const.div Real.continuous_sqrt.continuousAt
    (Real.sqrt_pos.2 h0).ne').continuousWithinAt

theorem lineBack_nonneg (hlo : lo < 0) (hn : 3 ≤ n) (hp : Mild p) {a : ℝ} (h1 : a ≤ logspace lo 0 n 1) :
    0 ≤ lineBack p lo n a := by
  have h12 : logspace lo 0 n 1 < logspace lo 0 n 2 := logspace_strictMono hlo (by omega) (by norm_num)
  have m1 : logspace lo 0 n 1 ∈ Ioc (0 : ℝ) 1 := ⟨logspace_pos _ _ _ _, logspace_le_today hlo (by omega) (by omega)⟩
  have m2 : logspace lo 0 n 2 ∈ Ioc (0 : ℝ) 1 := ⟨logspace_pos _ _ _ _, logspace_le_today hlo (by omega) (by omega)⟩
  unfold lineBack
  rw [distance_diff hp m1 m2]
  refine add_nonneg (comovingDistance_nonneg hp.phys.esqrPos m1.1 m1.2)
    (mul_nonneg (div_nonneg (by linarith) (by linarith)) ?_)
  refine intervalIntegral.integral_nonneg h12.le fun x hx => ?_
  have : 0 < const_rh := by norm_num [const_rh]
  unfold perA
  positivity

/-- C154: before the second tabulated scale factor the code follows a straight line, off by the
relative error of the quadrature. -/
theorem C154_line (hlo : lo < 0) (hn : 3 ≤ n) (hp : Mild p) {a : ℝ} (h1 : a ≤ logspace lo 0 n 1) :
    |readChi (chiTable p lo n) a - lineBack p lo n a| ≤ quadError p lo n * lineBack p lo n a := by
  have h12 : logspace lo 0 n 1 < logspace lo 0 n 2 := logspace_strictMono hlo (by omega) (by norm_num)
  have m2 : logspace lo 0 n 2 ≤ 1 := logspace_le_today hlo (by omega) (by omega)
  have hnn := lineBack_nonneg hlo hn hp h1
  have p1 : 0 < logspace lo 0 n 1 := logspace_pos _ _ _ _
  have p2 : 0 < logspace lo 0 n 2 := logspace_pos _ _ _ _
  have e1 := abs_le.1 (C148_nodes hlo (by omega) hp (i := 1) (n := n) (by omega))
  have e2 := panel_error hp (u := Real.log (logspace lo 0 n 1)) (v := Real.log (logspace lo 0 n 2))
    (Real.log_lt_log p1 h12) (Real.log_nonpos p2.le m2)
  have hc := rate_continuous hp.phys
  have hI : (∫ x in (Real.log (logspace lo 0 n 1))..(Real.log (logspace lo 0 n 2)), chiRate p x)
      = comovingDistance const_rh (expansion p) (logspace lo 0 n 1)
        - comovingDistance const_rh (expansion p) (logspace lo 0 n 2) := by
    rw [comovingDistance_log p p1, comovingDistance_log p p2]
    rw [intervalIntegral.integral_interval_sub_interval_comm' (hc.intervalIntegrable _ _)
      (hc.intervalIntegrable _ _) (hc.intervalIntegrable _ _)]
    simp only [intervalIntegral.integral_same, zero_sub]
    exact intervalIntegral.integral_symm _ _
  have hs := log_logspace_step lo (n := n) 1
  rw [hI, hs] at e2
  have e2 : |panel (chiRate p) (Real.log (logspace lo 0 n 1)) (Real.log (logspace lo 0 n 2))
      - (comovingDistance const_rh (expansion p) (logspace lo 0 n 1)
        - comovingDistance const_rh (expansion p) (logspace lo 0 n 2))|
      ≤ quadError p lo n * (comovingDistance const_rh (expansion p) (logspace lo 0 n 1)
        - comovingDistance const_rh (expansion p) (logspace lo 0 n 2)) := e2
  have hpan : (chiTable p lo n).chi 2 = (chiTable p lo n).chi 1
      - panel (chiRate p) (Real.log (logspace lo 0 n 1)) (Real.log (logspace lo 0 n 2)) := by
    rw [chiTable_chi p lo n 1 (by omega), chiTable_chi p lo n 2 (by omega),
      Finset.sum_eq_sum_Ico_succ_bot (by omega : 1 < n - 1)]
    ring
  have hread : interp n (logspace lo 0 n) (chiTable p lo n).chi a
      = (chiTable p lo n).chi 1 + (logspace lo 0 n 1 - a) / (logspace lo 0 n 2 - logspace lo 0 n 1)
        * panel (chiRate p) (Real.log (logspace lo 0 n 1)) (Real.log (logspace lo 0 n 2)) := by
    rw [C19_first_segment hn (logspace_increasing hlo (by omega)) _ h1, chord, show 1 + 1 = 2 from rfl, hpan]
    ring
  rw [readChi, chiTable_a, chiTable_n, hread, clipLo]
  have clip : ∀ t : ℝ, |max t 0 - lineBack p lo n a| ≤ |t - lineBack p lo n a| := fun t => by
    conv_lhs => rw [← max_eq_left hnn]
    refine (abs_max_sub_max_le_max _ _ _ _).trans (max_le le_rfl ?_)
    rw [sub_zero, abs_zero]; exact abs_nonneg _
  refine (clip _).trans ?_
  have e2 := abs_le.1 e2
  have s0 : 0 ≤ (logspace lo 0 n 1 - a) / (logspace lo 0 n 2 - logspace lo 0 n 1) :=
    div_nonneg (by linarith) (by linarith)
  have k1 := mul_le_mul_of_nonneg_left e2.1 s0
  have k2 := mul_le_mul_of_nonneg_left e2.2 s0
  unfold lineBack
  rw [abs_le]
  constructor
  · nlinarith [e1.1]
  · nlinarith [e1.2]

/-- C154: the straight line falls short of the true distance, by at most this. -/
theorem C154_line_bounds (hlo : lo < 0) (hn : 3 ≤ n) (hp : Mild p) {a : ℝ} (h0 : 0 < a)
    (h1 : a ≤ logspace lo 0 n 1) :
    lineBack p lo n a ≤ comovingDistance const_rh (expansion p) a ∧
    comovingDistance const_rh (expansion p) a ≤ lineBack p lo n a
      + (1 - a / logspace lo 0 n 1) * ((logspace lo 0 n 1 / a) ^ 2 - Real.exp (-(2 * gridStep lo n)))
        * (const_rh / (logspace lo 0 n 1 * expansion p (logspace lo 0 n 1))) := by
  set u := logspace lo 0 n 1 with hu
  set v := logspace lo 0 n 2 with hv
  have huv : u < v := logspace_strictMono hlo (by omega) (by norm_num)
  have mu : u ∈ Ioc (0 : ℝ) 1 := ⟨logspace_pos _ _ _ _, logspace_le_today hlo (by omega) (by omega)⟩
  have mv : v ∈ Ioc (0 : ℝ) 1 := ⟨logspace_pos _ _ _ _, logspace_le_today hlo (by omega) (by omega)⟩
  have ma : a ∈ Ioc (0 : ℝ) 1 := ⟨h0, h1.trans mu.2⟩
  have hanti := integrand_antitone hp
  change AntitoneOn (perA p) (Ioc 0 1) at hanti
  have d1 := distance_diff hp mu mv
  have d2 := distance_diff hp ma mu
  have hd : 0 < v - u := by linarith
  -- the chord
  have c1 : (∫ t in u..v, perA p t) ≤ (v - u) * perA p u := by
    have := intervalIntegral.integral_mono_on huv.le (perA_integrable hp mu mv)
      (intervalIntegrable_const (c := perA p u)) fun t ht => hanti mu ⟨mu.1.trans_le ht.1, ht.2.trans mv.2⟩ ht.1
    simpa using this
  have c2 : (v - u) * perA p v ≤ ∫ t in u..v, perA p t := by
    have := intervalIntegral.integral_mono_on huv.le (intervalIntegrable_const (c := perA p v))
      (perA_integrable hp mu mv) fun t ht => hanti ⟨mu.1.trans_le ht.1, ht.2.trans mv.2⟩ mv ht.2
    simpa using this
  -- the rest
  have b1 : (u - a) * perA p u ≤ ∫ t in a..u, perA p t := by
    have := intervalIntegral.integral_mono_on h1 (intervalIntegrable_const (c := perA p u))
      (perA_integrable hp ma mu) fun t ht => hanti ⟨h0.trans_le ht.1, ht.2.trans mu.2⟩ mu ht.2
    simpa using this
  have b2 : (∫ t in a..u, perA p t) ≤ (u - a) * perA p a := by
    have := intervalIntegral.integral_mono_on h1 (perA_integrable hp ma mu)
      (intervalIntegrable_const (c := perA p a)) fun t ht => hanti ma ⟨h0.trans_le ht.1, ht.2.trans mu.2⟩ ht.1
    simpa using this
  have hL : lineBack p lo n a = comovingDistance const_rh (expansion p) u
      + (u - a) / (v - u) * ∫ t in u..v, perA p t := by
    rw [← d1]; rfl
  have s0 : 0 ≤ (u - a) / (v - u) := div_nonneg (by linarith) hd.le
  have k1 := mul_le_mul_of_nonneg_left c1 s0
  have k2 := mul_le_mul_of_nonneg_left c2 s0
  have r : ∀ q : ℝ, (u - a) / (v - u) * ((v - u) * q) = (u - a) * q := fun q => by field_simp
  rw [r] at k1 k2
  rw [hL]
  refine ⟨by linarith, ?_⟩
  set h := gridStep lo n with hh
  have hstep : Real.log v - Real.log u = h := log_logspace_step lo 1
  have hve : v = u * Real.exp h := by
    rw [← hstep, Real.exp_sub, Real.exp_log mu.1, Real.exp_log mv.1]; field_simp [mu.1.ne']
  have hu0 := mu.1
  set ru := chiRate p (Real.log u) with hru
  have ru0 : 0 < ru := rate_pos hp.phys _
  have rho_u : perA p u = ru / u := integrand_log p mu.1
  have rho_v : perA p v = chiRate p (Real.log v) / v := integrand_log p mv.1
  have rho_a : perA p a = chiRate p (Real.log a) / a := integrand_log p h0
  have E0 := Real.exp_pos h
  have er := rate_ratio hp (Real.log_le_log mu.1 huv.le) (Real.log_nonpos mv.1.le mv.2)
  rw [hstep] at er
  have en : Real.exp (-(2 * h)) * perA p u ≤ perA p v := by
    rw [rho_u, rho_v, hve, le_div_iff₀ (by positivity)]
    have : Real.exp (-(2 * h)) * (ru / u) * (u * Real.exp h) = Real.exp (-h) * ru := by
      rw [show -(h) = -(2 * h) + h by ring, Real.exp_add]; field_simp
    rw [this, Real.exp_neg, inv_mul_le_iff₀ E0, ← hve]
    exact er.2
  have ea : perA p a ≤ (u / a) ^ 2 * perA p u := by
    have := (rate_ratio hp (Real.log_le_log h0 h1) (Real.log_nonpos mu.1.le mu.2)).2
    rw [Real.exp_sub, Real.exp_log mu.1, Real.exp_log h0] at this
    rw [rho_a, rho_u, div_le_iff₀ h0]
    refine this.trans (le_of_eq ?_)
    field_simp
    rfl
  have hua : 0 ≤ u - a := by linarith
  have j1 := mul_le_mul_of_nonneg_left en hua
  have j2 := mul_le_mul_of_nonneg_left ea hua
  rw [← rate_log p mu.1, ← hru]
  have fin : (1 - a / u) * ((u / a) ^ 2 - Real.exp (-(2 * h))) * ru
      = (u - a) * ((u / a) ^ 2 * perA p u) - (u - a) * (Real.exp (-(2 * h)) * perA p u) := by
    rw [rho_u]; field_simp
  rw [fin]
  linarith

/-- A mild universe whose dark energy never has positive pressure. -/
structure Cold (p : Params) : Prop where
  mild : Mild p
  w_nonpos : ∀ a, 0 < a → a ≤ 1 → w p a ≤ 0

theorem Cold.sqrt_perA (hp : Cold p) {a b : ℝ} (ha : 0 < a) (hab : a ≤ b) (hb : b ≤ 1) :
    Real.sqrt b * perA p b ≤ Real.sqrt a * perA p a := by
  have hb0 := ha.trans_le hab
  have d : ∀ x : ℝ, HasDerivAt (fun x => aE2 p x * Real.exp x) ((aE2' p x + aE2 p x) * Real.exp x) x := fun x =>
    ((aE2_deriv p x).mul (Real.hasDerivAt_exp x)).congr_deriv (by ring)
  have mono : MonotoneOn (fun x => aE2 p x * Real.exp x) (Iic 0) := by
    refine monotoneOn_of_deriv_nonneg (convex_Iic 0) (fun x _ => (d x).continuousAt.continuousWithinAt)
      (fun x _ => (d x).differentiableAt.differentiableWithinAt) fun x hx => ?_
    rw [interior_Iic] at hx
    rw [(d x).deriv]
    refine mul_nonneg ?_ (Real.exp_pos x).le
    have hw := hp.w_nonpos _ (Real.exp_pos x) (Real.exp_le_one_iff.2 (le_of_lt hx))
    have e : aE2' p x + aE2 p x = p.Omega_k + p.Omega_de * (-(3 * w p (Real.exp x)) * Real.exp (deExp p x)) := by
      unfold aE2' aE2 deSlope; ring
    rw [e]
    exact add_nonneg hp.mild.phys.k_nonneg (mul_nonneg hp.mild.phys.de_nonneg
      (mul_nonneg (by linarith) (Real.exp_pos _).le))
  have h := mono (Real.log_nonpos ha.le (hab.trans hb)) (Real.log_nonpos hb0.le hb) (Real.log_le_log ha hab)
  simp only [Real.exp_log ha, Real.exp_log hb0] at h
  have form : ∀ t : ℝ, 0 < t → Real.sqrt t * perA p t = const_rh / Real.sqrt (aE2 p (Real.log t) * t) := by
    intro t ht
    have g := aE2_pos hp.mild.phys (Real.log t)
    have s := Real.sqrt_pos.2 g
    have st := Real.sqrt_pos.2 ht
    rw [show perA p t = chiRate p (Real.log t) / t from integrand_log p ht, chiRate_aE2,
      Real.sqrt_mul g.le]
    rw [div_div, mul_div_assoc', div_eq_div_iff (by positivity) (by positivity)]
    linear_combination const_rh * Real.sqrt (aE2 p (Real.log t)) * Real.mul_self_sqrt ht.le
  rw [form a ha, form b hb0]
  have : 0 < const_rh := by norm_num [const_rh]
  have ga := aE2_pos hp.mild.phys (Real.log a)
  exact div_le_div_of_nonneg_left this.le (Real.sqrt_pos.2 (by positivity)) (Real.sqrt_le_sqrt h)

/-- C154: how much is missing at least, in a universe without positive pressure. -/
theorem C154_short (hlo : lo < 0) (hn : 3 ≤ n) (hp : Cold p) {a : ℝ} (h0 : 0 < a)
    (h1 : a ≤ logspace lo 0 n 1) :
    readChi (chiTable p lo n) a ≤ (1 + quadError p lo n) * (comovingDistance const_rh (expansion p) a
      - const_rh / (logspace lo 0 n 1 * expansion p (logspace lo 0 n 1))
        * (1 - Real.sqrt (a / logspace lo 0 n 1)) ^ 2) := by
  set u := logspace lo 0 n 1 with hu
  set v := logspace lo 0 n 2 with hv
  have huv : u < v := logspace_strictMono hlo (by omega) (by norm_num)
  have mu : u ∈ Ioc (0 : ℝ) 1 := ⟨logspace_pos _ _ _ _, logspace_le_today hlo (by omega) (by omega)⟩
  have mv : v ∈ Ioc (0 : ℝ) 1 := ⟨logspace_pos _ _ _ _, logspace_le_today hlo (by omega) (by omega)⟩
  have ma : a ∈ Ioc (0 : ℝ) 1 := ⟨h0, h1.trans mu.2⟩
  have hu0 := mu.1
  have hanti := integrand_antitone hp.mild
  change AntitoneOn (perA p) (Ioc 0 1) at hanti
  have d1 := distance_diff hp.mild mu mv
  have d2 := distance_diff hp.mild ma mu
  have hd : 0 < v - u := by linarith
  have c1 : (∫ t in u..v, perA p t) ≤ (v - u) * perA p u := by
    have := intervalIntegral.integral_mono_on huv.le (perA_integrable hp.mild mu mv)
      (intervalIntegrable_const (c := perA p u)) fun t ht => hanti mu ⟨mu.1.trans_le ht.1, ht.2.trans mv.2⟩ ht.1
    simpa using this
  have b1 : 2 * (Real.sqrt u * perA p u) * (Real.sqrt u - Real.sqrt a) ≤ ∫ t in a..u, perA p t := by
    rw [← integral_inv_sqrt h0 h1]
    refine intervalIntegral.integral_mono_on h1 (inv_sqrt_integrable h0 h1 _) (perA_integrable hp.mild ma mu)
      fun t ht => ?_
    have ht0 := h0.trans_le ht.1
    rw [div_le_iff₀ (Real.sqrt_pos.2 ht0), mul_comm (perA p t)]
    exact hp.sqrt_perA ht0 ht.2 mu.2
  have hL : lineBack p lo n a = comovingDistance const_rh (expansion p) u
      + (u - a) / (v - u) * ∫ t in u..v, perA p t := by
    rw [← d1]; rfl
  have s0 : 0 ≤ (u - a) / (v - u) := div_nonneg (by linarith) hd.le
  have k1 := mul_le_mul_of_nonneg_left c1 s0
  rw [show (u - a) / (v - u) * ((v - u) * perA p u) = (u - a) * perA p u by field_simp] at k1
  have e := (abs_le.1 (C154_line hlo hn hp.mild h1)).2
  have hq : 0 ≤ 1 + quadError p lo n := by
    rw [quadError]; have := gridStep_pos hlo (by omega : 2 ≤ n); positivity
  refine (show readChi (chiTable p lo n) a ≤ (1 + quadError p lo n) * lineBack p lo n a by linarith).trans
    (mul_le_mul_of_nonneg_left ?_ hq)
  have su := Real.sqrt_pos.2 hu0
  have fin : const_rh / (u * expansion p u) * (1 - Real.sqrt (a / u)) ^ 2
      = 2 * (Real.sqrt u * perA p u) * (Real.sqrt u - Real.sqrt a) - (u - a) * perA p u := by
    rw [← rate_log p hu0, show perA p u = chiRate p (Real.log u) / u from integrand_log p hu0,
      Real.sqrt_div h0.le]
    have e1 : u = Real.sqrt u ^ 2 := (Real.sq_sqrt hu0.le).symm
    have e2 : a = Real.sqrt a ^ 2 := (Real.sq_sqrt h0.le).symm
    set s := Real.sqrt u
    set r := Real.sqrt a
    set R := chiRate p (Real.log u)
    clear_value R
    rw [e1, e2]
    field_simp
    ring
  rw [fin, hL]
  linarith

theorem default_step : Real.exp (gridStep (-3) 256) ≤ 1.0275 ∧ 0.947 ≤ Real.exp (-(2 * gridStep (-3) 256)) := by
  obtain ⟨e1, e2⟩ := half_step
  have hg : gridStep (-3) 256 = 3 / 255 * Real.log 10 := by unfold gridStep; norm_num
  rw [hg]
  set h := 3 / 255 * Real.log 10 with hh
  have x1 : Real.exp h ≤ 1.0275 := by
    rw [show h = h / 2 + h / 2 by ring, Real.exp_add]; nlinarith [Real.exp_pos (h / 2)]
  refine ⟨x1, ?_⟩
  rw [Real.exp_neg, le_inv_comm₀ (by norm_num) (Real.exp_pos _), show 2 * h = h + h by ring, Real.exp_add]
  calc Real.exp h * Real.exp h ≤ 1.0275 * 1.0275 := by gcongr
    _ ≤ _ := by norm_num

theorem quadError_default (hp : Mild p) : 0 ≤ quadError p (-3) 256 ∧ quadError p (-3) 256 ≤ 1.7e-4 := by
  obtain ⟨e1, e2⟩ := half_step
  have hg : gridStep (-3) 256 = 3 / 255 * Real.log 10 := by unfold gridStep; norm_num
  have x1 := default_step.1
  rw [hg] at x1
  set h := 3 / 255 * Real.log 10 with hh
  have h0 : 0 < h := by have := Real.log_pos (by norm_num : (1 : ℝ) < 10); positivity
  have hu : h ≤ 0.0271 := by
    have := Real.quadratic_le_exp_of_nonneg (by positivity : 0 ≤ h / 2)
    nlinarith
  have sq : h ^ 2 ≤ 0.000735 := by nlinarith
  have hw := hp.wa_le
  have hw0 := abs_nonneg p.wa
  rw [quadError, hg]
  refine ⟨by positivity, ?_⟩
  calc (2 + 3 / 2 * |p.wa|) / 18 * h ^ 2 * Real.exp h ≤ (2 + 3 / 2 * 1.35) / 18 * 0.000735 * 1.0275 := by gcongr
    _ ≤ 1.7e-4 := by norm_num

theorem second_node : (10 : ℝ) ^ (-3 : ℝ) ≤ logspace (-3) 0 256 1 ∧ logspace (-3) 0 256 1 ≤ 1.0275e-3 := by
  have h0 : logspace (-3) 0 256 0 = 10 ^ (-3 : ℝ) := by rw [logspace, linspace]; norm_num
  have e3 : (10 : ℝ) ^ (-3 : ℝ) = 1e-3 := by
    rw [show (-3 : ℝ) = ((-3 : ℤ) : ℝ) by norm_num, Real.rpow_intCast]; norm_num
  have hs : Real.log (logspace (-3) 0 256 1) - Real.log (logspace (-3) 0 256 0) = gridStep (-3) 256 :=
    log_logspace_step (-3) 0
  have p0 := logspace_pos (-3) 0 256 0
  have p1 := logspace_pos (-3) 0 256 1
  have e : logspace (-3) 0 256 1 = logspace (-3) 0 256 0 * Real.exp (gridStep (-3) 256) := by
    rw [← hs, Real.exp_sub, Real.exp_log p0, Real.exp_log p1]; field_simp
  refine ⟨?_, ?_⟩
  · rw [← h0]; exact (logspace_strictMono (by norm_num) (by norm_num)).monotone (by norm_num)
  · rw [e, h0, e3]; linarith [default_step.1]

/-- C154: with the default table the distance to every source between the second tabulated scale
factor and redshift 1100 is right to 0.017% of itself plus 4% of the Hubble radius at that time. -/
theorem C154_recombination (hp : Mild p) {a : ℝ} (h0 : 1 / 1101 ≤ a) (h1 : a ≤ logspace (-3) 0 256 1) :
    |readChi (chiTable p (-3) 256) a - comovingDistance const_rh (expansion p) a|
      ≤ 1.7e-4 * comovingDistance const_rh (expansion p) a
        + 0.04 * (const_rh / (logspace (-3) 0 256 1 * expansion p (logspace (-3) 0 256 1))) := by
  have ha0 : 0 < a := lt_of_lt_of_le (by norm_num) h0
  obtain ⟨b1, b2⟩ := C154_line_bounds (lo := -3) (n := 256) (by norm_num) (by norm_num) hp ha0 h1
  have e := abs_le.1 (C154_line (lo := -3) (n := 256) (by norm_num) (by norm_num) hp h1)
  have hL := lineBack_nonneg (lo := -3) (n := 256) (by norm_num) (by norm_num) hp h1
  obtain ⟨q0, q1⟩ := quadError_default hp
  obtain ⟨-, u1⟩ := second_node
  have x2 := default_step.2
  have u0 := logspace_pos (-3) 0 256 1
  have hR : 0 ≤ const_rh / (logspace (-3) 0 256 1 * expansion p (logspace (-3) 0 256 1)) := by
    rw [← rate_log p u0]; exact (rate_pos hp.phys _).le
  set u := logspace (-3) 0 256 1
  set R := const_rh / (u * expansion p u)
  set L := lineBack p (-3) 256 a
  set X := comovingDistance const_rh (expansion p) a
  set E := Real.exp (-(2 * gridStep (-3) 256))
  have r1 : u / a ≤ 1.1313 := by
    rw [div_le_iff₀ ha0]; nlinarith
  have r0 : 1 ≤ u / a := by rw [le_div_iff₀ ha0]; linarith
  have t1 : 1 - a / u ≤ 0.1161 := by
    have : 1 / 1.1313 ≤ a / u := by
      rw [div_le_div_iff₀ (by norm_num) u0]
      rw [div_le_iff₀ ha0] at r1
      linarith
    have : (0.8839 : ℝ) ≤ 1 / 1.1313 := by norm_num
    linarith
  have t0 : 0 ≤ 1 - a / u := by rw [sub_nonneg, div_le_one u0]; exact h1
  have k : (1 - a / u) * ((u / a) ^ 2 - E) ≤ 0.04 := by
    have s1 : (u / a) ^ 2 - E ≤ 0.333 := by nlinarith
    calc (1 - a / u) * ((u / a) ^ 2 - E) ≤ (1 - a / u) * 0.333 := mul_le_mul_of_nonneg_left s1 t0
      _ ≤ 0.1161 * 0.333 := by linarith
      _ ≤ 0.04 := by norm_num
  have kR := mul_le_mul_of_nonneg_right k hR
  have kL : quadError p (-3) 256 * L ≤ 1.7e-4 * X := by
    calc quadError p (-3) 256 * L ≤ 1.7e-4 * L := mul_le_mul_of_nonneg_right q1 hL
      _ ≤ 1.7e-4 * X := mul_le_mul_of_nonneg_left b1 (by norm_num)
  rw [abs_le]
  constructor
  · linarith [e.1]
  · linarith [e.2]

/-- In a universe of matter only the distance is at most twice the Hubble radius. -/
theorem eds_distance_le {a : ℝ} (h0 : 0 < a) (h1 : a ≤ 1) (hp : EdS p) (hm : Mild p) :
    comovingDistance const_rh (expansion p) a ≤ 2 * const_rh := by
  have hrh : 0 < const_rh := by norm_num [const_rh]
  rw [comovingDistance_eq]
  have : (∫ t in a..1, perA p t) ≤ ∫ t in a..1, const_rh / Real.sqrt t := by
    refine intervalIntegral.integral_mono_on h1 (perA_integrable hm ⟨h0, h1⟩ (by norm_num))
      (inv_sqrt_integrable h0 h1 _) fun t ht => ?_
    have ht0 := h0.trans_le ht.1
    refine le_of_eq ?_
    rw [show perA p t = chiRate p (Real.log t) / t from integrand_log p ht0, chiRate_aE2]
    have : aE2 p (Real.log t) = 1 / t := by
      rw [aE2, hp.1, hp.2, Real.exp_neg, Real.exp_log ht0]
      simp [Params.Omega_de, Params.Omega, hp.1, hp.2]
    have st := Real.sqrt_pos.2 ht0
    rw [this, Real.sqrt_div' _ ht0.le, Real.sqrt_one]
    have e := Real.mul_self_sqrt ht0.le
    rw [div_div, div_eq_div_iff (by positivity) st.ne']
    field_simp
    linear_combination e
  refine this.trans ?_
  rw [integral_inv_sqrt h0 h1, Real.sqrt_one]
  nlinarith [Real.sqrt_nonneg a]

/-- C154 as stated is false: at redshift 99999 in an Einstein–de Sitter universe more than one per
cent of the distance is missing. -/
theorem C154_refuted : ¬ ∀ (p : Params) (a : ℝ), Mild p → 0 < a → a ≤ 1 →
    |readChi (chiTable p (-3) 256) a - comovingDistance const_rh (expansion p) a|
      ≤ 0.01 * comovingDistance const_rh (expansion p) a := by
  intro H
  set p : Params := { Planck15 with Omega_c := 0.95, Omega_b := 0.05 } with hpdef
  have hm : Mild p := by
    refine ⟨⟨?_, ?_, ?_, ?_⟩, ?_⟩ <;> norm_num [hpdef, Planck15, Params.Omega_m, Params.Omega_de, Params.Omega, w]
  have hc : Cold p := ⟨hm, by norm_num [hpdef, Planck15, w]⟩
  have he : EdS p := by constructor <;> norm_num [hpdef, Planck15, Params.Omega_m]
  have h := (abs_le.1 (H p 1e-5 hm (by norm_num) (by norm_num))).1
  obtain ⟨u1, u2⟩ := second_node
  have e3 : (10 : ℝ) ^ (-3 : ℝ) = 1e-3 := by
    rw [show (-3 : ℝ) = ((-3 : ℤ) : ℝ) by norm_num, Real.rpow_intCast]; norm_num
  rw [e3] at u1
  have s := C154_short (lo := -3) (n := 256) (by norm_num) (by norm_num) hc (a := 1e-5) (by norm_num) (by linarith)
  have X2 := eds_distance_le (a := 1e-5) (by norm_num) (by norm_num) he hm
  have X0 := comovingDistance_nonneg hm.phys.esqrPos (a := 1e-5) (by norm_num) (by norm_num)
  obtain ⟨q0, q1⟩ := quadError_default hm
  have u0 := logspace_pos (-3) 0 256 1
  set u := logspace (-3) 0 256 1 with hu
  have hR : const_rh / (u * expansion p u) = const_rh * Real.sqrt u := by
    rw [← rate_log p u0, chiRate_aE2]
    have : aE2 p (Real.log u) = 1 / u := by
      rw [aE2, he.1, he.2, Real.exp_neg, Real.exp_log u0]
      simp [Params.Omega_de, Params.Omega, he.1, he.2]
    rw [this, Real.sqrt_div' _ u0.le, Real.sqrt_one, div_div_eq_mul_div, div_one]
  rw [hR] at s
  have hrh : 0 < const_rh := by norm_num [const_rh]
  have su : 0.0316 ≤ Real.sqrt u := Real.le_sqrt_of_sq_le (by linarith)
  have sr : Real.sqrt (1e-5 / u) ≤ 0.1 := by
    rw [Real.sqrt_le_left (by norm_num), div_le_iff₀ u0]; linarith
  have sr0 := Real.sqrt_nonneg (1e-5 / u)
  set X := comovingDistance const_rh (expansion p) 1e-5
  have d : 0.0255 * const_rh ≤ const_rh * Real.sqrt u * (1 - Real.sqrt (1e-5 / u)) ^ 2 := by
    have g : (0.81 : ℝ) ≤ (1 - Real.sqrt (1e-5 / u)) ^ 2 := by nlinarith
    calc 0.0255 * const_rh ≤ const_rh * 0.0316 * 0.81 := by linarith
      _ ≤ _ := by gcongr
  set D := const_rh * Real.sqrt u * (1 - Real.sqrt (1e-5 / u)) ^ 2
  have : (1 + quadError p (-3) 256) * (X - D) ≤ 1.00017 * X - D := by nlinarith
  linarith

/-- Witness: the last scattering surface in the Planck universe. -/
example : |readChi (chiTable Planck15 (-3) 256) (1 / 1091) - comovingDistance const_rh (expansion Planck15) (1 / 1091)|
    ≤ 1.7e-4 * comovingDistance const_rh (expansion Planck15) (1 / 1091)
      + 0.04 * (const_rh / (logspace (-3) 0 256 1 * expansion Planck15 (logspace (-3) 0 256 1))) :=
  C154_recombination planck_mild (by norm_num) (le_trans (by
    rw [show (-3 : ℝ) = ((-3 : ℤ) : ℝ) by norm_num, Real.rpow_intCast]; norm_num) second_node.1)

/-- Witness: the Planck universe is cold. -/
example : Cold Planck15 := ⟨planck_mild, by norm_num [Planck15, w]⟩

end JaxCosmo
