import Verif.Proofs.AccuracyRate
import Verif.Props.Hubble

/-! # C148: how far the tabulated distance is from the line-of-sight integral, with constants -/

namespace JaxCosmo
open Spec Set

variable {p : Params} {lo : ℝ} {n : ℕ}

theorem rate_continuous (hp : Physical p) : Continuous (chiRate p) :=
  continuous_iff_continuousAt.2 fun x => (rate_deriv hp x).continuousAt

/-- One panel of the table against the integral over that panel. -/
theorem panel_error (hp : Mild p) {u v : ℝ} (huv : u < v) (hv : v ≤ 0) :
    |panel (chiRate p) u v - ∫ x in u..v, chiRate p x|
      ≤ (2 + 3 / 2 * |p.wa|) / 18 * (v - u) ^ 2 * Real.exp (v - u) * ∫ x in u..v, chiRate p x := by
  have hc := rate_continuous hp.phys
  set I := ∫ x in u..v, chiRate p x with hI
  set K := 2 + 3 / 2 * |p.wa| with hK
  have hK0 : 0 ≤ K := by positivity
  have hd : 0 < v - u := by linarith
  have hM : ∀ x ∈ Icc ((u + v) / 2 - (v - u) / 2) ((u + v) / 2 + (v - u) / 2),
      |rate'' p x| ≤ K * (Real.exp (v - u) * I / (v - u)) := by
    intro x hx
    have hx1 : u ≤ x := by linarith [hx.1]
    have hx2 : x ≤ v := by linarith [hx.2]
    refine (rate''_abs hp (hx2.trans hv)).trans (mul_le_mul_of_nonneg_left ?_ hK0)
    rw [le_div_iff₀ hd, hI, ← intervalIntegral.integral_const_mul]
    have : (∫ y in u..v, chiRate p x) ≤ ∫ y in u..v, Real.exp (v - u) * chiRate p y := by
      refine intervalIntegral.integral_mono_on huv.le intervalIntegrable_const
        ((hc.const_mul _).intervalIntegrable _ _) fun y hy => ?_
      have hy0 := rate_pos hp.phys y
      rcases le_total x y with h | h
      · refine (rate_ratio hp h (hy.2.trans hv)).2.trans (mul_le_mul_of_nonneg_right (Real.exp_le_exp.2 ?_) hy0.le)
        linarith [hy.2]
      · refine (rate_ratio hp h (hx2.trans hv)).1.trans (mul_le_mul_of_nonneg_right (Real.exp_le_exp.2 ?_) hy0.le)
        linarith [hy.1]
    rw [intervalIntegral.integral_const, smul_eq_mul, mul_comm] at this
    exact this
  have key := simpson_second (R := fun x => ∫ y in (0 : ℝ)..x, chiRate p y) (r := chiRate p) (r1 := rate' p)
    (r2 := rate'' p) (c := (u + v) / 2) (T := (v - u) / 2)
    (fun x _ => intervalIntegral.integral_hasDerivAt_right (hc.intervalIntegrable _ _)
      (hc.stronglyMeasurableAtFilter _ _) hc.continuousAt)
    (fun x _ => rate_deriv hp.phys x) (fun x _ => rate'_deriv hp.phys x) hM (by linarith)
  rw [show (u + v) / 2 + (v - u) / 2 = v by ring, show (u + v) / 2 - (v - u) / 2 = u by ring,
    intervalIntegral.integral_interval_sub_left (hc.intervalIntegrable _ _) (hc.intervalIntegrable _ _), ← hI] at key
  rw [abs_sub_comm, panel, show (v - u) / 6 * (chiRate p u + 4 * chiRate p ((u + v) / 2) + chiRate p v)
    = (v - u) / 2 / 3 * (chiRate p u + 4 * chiRate p ((u + v) / 2) + chiRate p v) by ring]
  refine key.trans (le_of_eq ?_)
  field_simp
  ring

/-- Distance between neighbouring points of the table, in `ln a`. -/
noncomputable def gridStep (lo : ℝ) (n : ℕ) : ℝ := -lo / ((n : ℝ) - 1) * Real.log 10

/-- The relative error of the quadrature. -/
noncomputable def quadError (p : Params) (lo : ℝ) (n : ℕ) : ℝ :=
  (2 + 3 / 2 * |p.wa|) / 18 * gridStep lo n ^ 2 * Real.exp (gridStep lo n)

theorem gridStep_pos (hlo : lo < 0) (hn : 2 ≤ n) : 0 < gridStep lo n := by
  have : (2 : ℝ) ≤ n := by exact_mod_cast hn
  have := Real.log_pos (by norm_num : (1 : ℝ) < 10)
  unfold gridStep
  have : 0 < -lo / ((n : ℝ) - 1) := div_pos (by linarith) (by linarith)
  positivity

theorem comovingDistance_log (p : Params) {a : ℝ} (ha : 0 < a) :
    comovingDistance const_rh (expansion p) a = ∫ x in (Real.log a)..0, chiRate p x := by
  rw [comovingDistance_eq]
  have := intervalIntegral.integral_comp_mul_deriv_of_deriv_nonneg
    (a := Real.log a) (b := 0) (f := Real.exp) (f' := Real.exp)
    (g := fun a => const_rh / (a ^ 2 * Real.sqrt (Esqr p a)))
    Real.continuous_exp.continuousOn (fun x _ => Real.hasDerivAt_exp x)
    (fun x _ => (Real.exp_pos x).le)
  rw [Real.exp_log ha, Real.exp_zero] at this
  rw [← this]
  rfl

/-- C148: every tabulated distance is accurate to the relative error of the quadrature. -/
theorem C148_nodes (hlo : lo < 0) (hn : 2 ≤ n) (hp : Mild p) {i : ℕ} (hi : i < n) :
    |(chiTable p lo n).chi i - comovingDistance const_rh (expansion p) (logspace lo 0 n i)|
      ≤ quadError p lo n * comovingDistance const_rh (expansion p) (logspace lo 0 n i) := by
  have hc := rate_continuous hp.phys
  have hsum : comovingDistance const_rh (expansion p) (logspace lo 0 n i)
      = ∑ j ∈ Finset.Ico i (n - 1), ∫ x in (Real.log (logspace lo 0 n j))..(Real.log (logspace lo 0 n (j + 1))), chiRate p x := by
    rw [comovingDistance_log p (logspace_pos _ _ _ _)]
    have := intervalIntegral.sum_integral_adjacent_intervals_Ico (f := chiRate p) (μ := MeasureTheory.volume)
      (a := fun j => Real.log (logspace lo 0 n j)) (m := i) (n := n - 1) (by omega)
      (fun k _ => hc.intervalIntegrable _ _)
    rw [this, logspace_end lo hn, Real.log_one]
  rw [chiTable_chi p lo n i (by omega), hsum, ← Finset.sum_sub_distrib, Finset.mul_sum]
  refine (Finset.abs_sum_le_sum_abs _ _).trans (Finset.sum_le_sum fun j hj => ?_)
  rw [Finset.mem_Ico] at hj
  have hs := log_logspace_step lo (n := n) j
  have := panel_error hp (u := Real.log (logspace lo 0 n j)) (v := Real.log (logspace lo 0 n (j + 1)))
    (log_logspace_strictMono hlo hn (Nat.lt_succ_self j)) (by
      apply Real.log_nonpos (logspace_pos _ _ _ _).le
      rw [← logspace_end lo hn]
      exact (logspace_strictMono hlo hn).monotone (by omega))
  rw [hs] at this
  exact this

/-- The integrand in `a`. -/
theorem integrand_log (p : Params) {a : ℝ} (ha : 0 < a) :
    const_rh / (a ^ 2 * Real.sqrt (Esqr p a)) = chiRate p (Real.log a) / a := by
  unfold chiRate dchioverda
  rw [Real.exp_log ha, mul_div_assoc, div_self ha.ne', mul_one]

theorem rate_log (p : Params) {a : ℝ} (ha : 0 < a) :
    chiRate p (Real.log a) = const_rh / (a * expansion p a) := by
  rw [expansion_eq]
  unfold chiRate dchioverda
  rw [Real.exp_log ha, sq]
  rcases eq_or_ne (Real.sqrt (Esqr p a)) 0 with h0 | h0
  · simp [h0]
  · field_simp

theorem integrand_antitone (hp : Mild p) :
    AntitoneOn (fun a => const_rh / (a ^ 2 * Real.sqrt (Esqr p a))) (Ioc 0 1) := by
  intro a ha b hb hab
  simp only
  rw [integrand_log p ha.1, integrand_log p hb.1]
  have h := (rate_ratio hp (Real.log_le_log ha.1 hab) (Real.log_nonpos hb.1.le hb.2)).1
  rw [Real.exp_sub, Real.exp_log ha.1, Real.exp_log hb.1] at h
  have ha0 := ha.1
  rw [div_le_iff₀ hb.1]
  refine h.trans (le_of_eq ?_)
  ring

/-- What the chord between two neighbouring nodes adds. -/
theorem interp_excess (hlo : lo < 0) (hn : 2 ≤ n) (hp : Mild p) {j : ℕ} (hj : j + 1 < n) {a : ℝ}
    (h1 : logspace lo 0 n j ≤ a) (h2 : a ≤ logspace lo 0 n (j + 1)) :
    let u := logspace lo 0 n j
    let v := logspace lo 0 n (j + 1)
    let D := (v - a) / (v - u) * comovingDistance const_rh (expansion p) u
      + (a - u) / (v - u) * comovingDistance const_rh (expansion p) v
      - comovingDistance const_rh (expansion p) a
    0 ≤ D ∧ D ≤ gridStep lo n ^ 2 / 2 * Real.exp (2 * gridStep lo n) * (const_rh / (a * expansion p a)) := by
  intro u v D
  have hu : 0 < u := logspace_pos _ _ _ _
  have huv : u < v := logspace_strictMono hlo hn (Nat.lt_succ_self j)
  have hv0 : 0 < v := hu.trans huv
  have hv : v ≤ 1 := by
    change logspace lo 0 n (j + 1) ≤ 1
    rw [← logspace_end lo hn]
    exact (logspace_strictMono hlo hn).monotone (by omega)
  have ha0 : 0 < a := hu.trans_le h1
  set ρ := fun a => const_rh / (a ^ 2 * Real.sqrt (Esqr p a)) with hρ
  have hanti : AntitoneOn ρ (Icc u v) := (integrand_antitone hp).mono fun x hx =>
    ⟨hu.trans_le hx.1, hx.2.trans hv⟩
  have hint : ∀ x y, x ∈ Ioc (0 : ℝ) 1 → y ∈ Ioc (0 : ℝ) 1 → IntervalIntegrable ρ MeasureTheory.volume x y := by
    intro x y hx hy
    refine AntitoneOn.intervalIntegrable ((integrand_antitone hp).mono fun z hz => ?_)
    rw [mem_uIcc] at hz
    rcases hz with h | h
    · exact ⟨hx.1.trans_le h.1, h.2.trans hy.2⟩
    · exact ⟨hy.1.trans_le h.1, h.2.trans hx.2⟩
  have m1 : (1 : ℝ) ∈ Ioc (0 : ℝ) 1 := by norm_num
  have mu : u ∈ Ioc (0 : ℝ) 1 := ⟨hu, huv.le.trans hv⟩
  have mv : v ∈ Ioc (0 : ℝ) 1 := ⟨hv0, hv⟩
  have ma : a ∈ Ioc (0 : ℝ) 1 := ⟨ha0, h2.trans hv⟩
  have s1 := intervalIntegral.integral_add_adjacent_intervals (hint u v mu mv) (hint v 1 mv m1)
  have s2 := intervalIntegral.integral_add_adjacent_intervals (hint a v ma mv) (hint v 1 mv m1)
  have hD : D = (v - a) / (v - u) * (∫ x in u..v, ρ x) - ∫ x in a..v, ρ x := by
    have hd : v - u ≠ 0 := by linarith
    simp only [D, comovingDistance_eq]
    change _ * (∫ x in u..1, ρ x) + _ * (∫ x in v..1, ρ x) - (∫ x in a..1, ρ x) = _
    rw [← s1, ← s2]
    field_simp
    ring
  obtain ⟨c1, c2⟩ := chord_antitone huv ⟨h1, h2⟩ hanti
  rw [hD]
  refine ⟨c1, c2.trans ?_⟩
  set h := gridStep lo n with hh
  have h0 : 0 < h := gridStep_pos hlo hn
  have hstep : Real.log v - Real.log u = h := log_logspace_step lo j
  have hve : v = u * Real.exp h := by
    rw [← hstep, Real.exp_sub, Real.exp_log hu, Real.exp_log hv0]; field_simp
  have er := rate_ratio hp (Real.log_le_log hu huv.le) (Real.log_nonpos hv0.le hv)
  rw [hstep] at er
  have ea := rate_ratio hp (Real.log_le_log hu h1) (Real.log_nonpos ha0.le ma.2)
  have hla : Real.log a - Real.log u ≤ h := by rw [← hstep]; linarith [Real.log_le_log ha0 h2]
  set ru := chiRate p (Real.log u) with hru
  have ru0 : 0 < ru := rate_pos hp.phys _
  have ra0 : 0 < chiRate p (Real.log a) := rate_pos hp.phys _
  have rho_u : ρ u = ru / u := integrand_log p hu
  have rho_v : ρ v = chiRate p (Real.log v) / v := integrand_log p hv0
  have E0 := Real.exp_pos h
  have en : Real.exp (-(2 * h)) * ρ u ≤ ρ v := by
    rw [rho_u, rho_v, hve, le_div_iff₀ (by positivity)]
    have : Real.exp (-(2 * h)) * (ru / u) * (u * Real.exp h) = Real.exp (-h) * ru := by
      rw [show -(h) = -(2 * h) + h by ring, Real.exp_add]; field_simp
    rw [this, Real.exp_neg]
    rw [inv_mul_le_iff₀ E0, ← hve]
    exact er.2
  have b1 : ρ u - ρ v ≤ 2 * h * (ru / u) := by
    have := Real.add_one_le_exp (-(2 * h))
    have k : (0 : ℝ) ≤ ρ u := by rw [rho_u]; positivity
    rw [← rho_u]
    nlinarith
  have b2 : v - u ≤ u * (h * Real.exp h) := by
    rw [hve]
    have := Real.add_one_le_exp (-h)
    have k : Real.exp (-h) * Real.exp h = 1 := by rw [← Real.exp_add]; simp
    nlinarith
  have b3 : ru ≤ Real.exp h * chiRate p (Real.log a) :=
    ea.2.trans (mul_le_mul_of_nonneg_right (Real.exp_le_exp.2 hla) ra0.le)
  rw [← rate_log p ha0]
  calc (v - u) * (ρ u - ρ v) / 4 ≤ u * (h * Real.exp h) * (2 * h * (ru / u)) / 4 := by
        refine div_le_div_of_nonneg_right ?_ (by norm_num)
        exact mul_le_mul b2 b1 (sub_nonneg.2 (hanti ⟨le_rfl, huv.le⟩ ⟨huv.le, le_rfl⟩ huv.le)) (by positivity)
    _ = h ^ 2 / 2 * Real.exp h * ru := by field_simp; ring
    _ ≤ h ^ 2 / 2 * Real.exp h * (Real.exp h * chiRate p (Real.log a)) := by gcongr
    _ = _ := by rw [show 2 * h = h + h by ring, Real.exp_add]; ring

/-- C148: from the second tabulated scale factor until today the distance is off by at most the
quadrature error of the true distance, plus a second-order multiple of the local Hubble radius. -/
theorem C148_accuracy (hlo : lo < 0) (hn : 2 ≤ n) (hp : Mild p) {a : ℝ}
    (h1 : logspace lo 0 n (if n = 2 then 0 else 1) ≤ a) (h2 : a ≤ 1) :
    |readChi (chiTable p lo n) a - comovingDistance const_rh (expansion p) a|
      ≤ quadError p lo n * comovingDistance const_rh (expansion p) a
        + (1 + quadError p lo n) * (gridStep lo n ^ 2 / 2 * Real.exp (2 * gridStep lo n)
          * (const_rh / (a * expansion p a))) := by
  obtain ⟨j, hj, g1, g2, g3⟩ := C19_partial hn (logspace_increasing hlo hn) (chiTable p lo n).chi h1
    (by rw [logspace_end lo hn]; exact h2)
  have huv : logspace lo 0 n j < logspace lo 0 n (j + 1) := logspace_strictMono hlo hn (Nat.lt_succ_self j)
  rw [min_eq_left huv.le] at g1
  rw [max_eq_right huv.le] at g2
  obtain ⟨d0, d1⟩ := interp_excess hlo hn hp hj g1 g2
  have ha0 : 0 < a := (logspace_pos _ _ _ _).trans_le g1
  have eu := abs_le.1 (C148_nodes hlo hn hp (i := j) (by omega))
  have ev := abs_le.1 (C148_nodes hlo hn hp (i := j + 1) (by omega))
  have hnn := comovingDistance_nonneg hp.phys.esqrPos ha0 h2
  rw [readChi, chiTable_a, chiTable_n, g3, clipLo]
  have clip : ∀ t : ℝ, |max t 0 - comovingDistance const_rh (expansion p) a|
      ≤ |t - comovingDistance const_rh (expansion p) a| := fun t => by
    conv_lhs => rw [← max_eq_left hnn]
    refine (abs_max_sub_max_le_max _ _ _ _).trans (max_le le_rfl ?_)
    rw [sub_zero, abs_zero]; exact abs_nonneg _
  refine (clip _).trans ?_
  set u := logspace lo 0 n j
  set v := logspace lo 0 n (j + 1)
  set X := comovingDistance const_rh (expansion p) a
  set U := comovingDistance const_rh (expansion p) u
  set V := comovingDistance const_rh (expansion p) v
  set κ := quadError p lo n with hκ
  have hκ0 : 0 ≤ κ := by rw [hκ, quadError]; have := gridStep_pos hlo hn; positivity
  set δ := gridStep lo n ^ 2 / 2 * Real.exp (2 * gridStep lo n) * (const_rh / (a * expansion p a))
  have hd : 0 < v - u := by linarith
  set s := (v - a) / (v - u) with hs
  have s0 : 0 ≤ s := div_nonneg (by linarith) hd.le
  have t : (a - u) / (v - u) = 1 - s := by rw [hs]; field_simp; ring
  have s1 : 0 ≤ 1 - s := by rw [← t]; exact div_nonneg (by linarith) hd.le
  rw [t] at d0 d1
  rw [chord]
  change |_ + _ * ((a - u) / (v - u)) - X| ≤ _
  rw [t]
  have p1 := mul_le_mul_of_nonneg_left eu.1 s0
  have p2 := mul_le_mul_of_nonneg_left eu.2 s0
  have q1 := mul_le_mul_of_nonneg_left ev.1 s1
  have q2 := mul_le_mul_of_nonneg_left ev.2 s1
  have k1 := mul_le_mul_of_nonneg_left d1 hκ0
  have k0 := mul_nonneg hκ0 d0
  rw [abs_le]
  constructor
  · nlinarith
  · nlinarith

/-- A universe with `-1 ≤ w ≤ 1/3` has a bounded `wa`. -/
theorem Mild.wa_le (hp : Mild p) : |p.wa| ≤ 1.35 := by
  have a1 := hp.phys.w_range 1 one_pos le_rfl
  have a2 := hp.w_le 1 one_pos le_rfl
  have b1 := hp.phys.w_range 0.01 (by norm_num) (by norm_num)
  have b2 := hp.w_le 0.01 (by norm_num) (by norm_num)
  unfold w at *
  rw [abs_le]
  constructor <;> linarith

/-- C148: with the default table of 256 points from `a = 10⁻³`. -/
theorem C148_default (hp : Mild p) {a : ℝ} (h1 : (10 : ℝ) ^ (-3 + 3 / 255 : ℝ) ≤ a) (h2 : a ≤ 1) :
    |readChi (chiTable p (-3) 256) a - comovingDistance const_rh (expansion p) a|
      ≤ 1.7e-4 * comovingDistance const_rh (expansion p) a + 4e-4 * (const_rh / (a * expansion p a)) := by
  have ha0 : 0 < a := lt_of_lt_of_le (by positivity) h1
  have hg : gridStep (-3) 256 = 3 / 255 * Real.log 10 := by unfold gridStep; norm_num
  have l1 : logspace (-3) 0 256 1 ≤ a := by
    refine le_trans (le_of_eq ?_) h1
    rw [logspace, linspace]; norm_num
  have key := C148_accuracy (p := p) (lo := -3) (n := 256) (by norm_num) (by norm_num) hp
    (by simpa using l1) h2
  obtain ⟨e1, e2⟩ := half_step
  set h := 3 / 255 * Real.log 10 with hh
  rw [hg] at key
  have h0 : 0 < h := by have := Real.log_pos (by norm_num : (1 : ℝ) < 10); positivity
  have x1 : Real.exp h ≤ 1.0275 := by
    rw [show h = h / 2 + h / 2 by ring, Real.exp_add]; nlinarith [Real.exp_pos (h / 2)]
  have x2 : Real.exp (2 * h) ≤ 1.0558 := by
    rw [show 2 * h = h + h by ring, Real.exp_add]; nlinarith [Real.exp_pos h]
  have hu : h ≤ 0.0271 := by
    have := Real.quadratic_le_exp_of_nonneg (by positivity : 0 ≤ h / 2)
    nlinarith
  have sq : h ^ 2 ≤ 0.000735 := by nlinarith
  have hw := hp.wa_le
  have hw0 := abs_nonneg p.wa
  have hq : quadError p (-3) 256 ≤ 1.7e-4 := by
    rw [quadError, hg]
    calc (2 + 3 / 2 * |p.wa|) / 18 * h ^ 2 * Real.exp h ≤ (2 + 3 / 2 * 1.35) / 18 * 0.000735 * 1.0275 := by gcongr
      _ ≤ 1.7e-4 := by norm_num
  have hq0 : 0 ≤ quadError p (-3) 256 := by rw [quadError]; positivity
  have hd : (1 + quadError p (-3) 256) * (h ^ 2 / 2 * Real.exp (2 * h)) ≤ 4e-4 := by
    calc (1 + quadError p (-3) 256) * (h ^ 2 / 2 * Real.exp (2 * h)) ≤ (1 + 1.7e-4) * (0.000735 / 2 * 1.0558) := by gcongr
      _ ≤ 4e-4 := by norm_num
  have hr : 0 ≤ const_rh / (a * expansion p a) := by
    rw [← rate_log p ha0]; exact (rate_pos hp.phys _).le
  have hc := comovingDistance_nonneg hp.phys.esqrPos ha0 h2
  refine key.trans ?_
  rw [← mul_assoc]
  exact add_le_add (mul_le_mul_of_nonneg_right hq hc) (mul_le_mul_of_nonneg_right hd hr)

/-- The Planck universe is mild. -/
theorem planck_mild : Mild Planck15 := by
  refine ⟨⟨?_, ?_, ?_, ?_⟩, ?_⟩ <;> norm_num [Planck15, Params.Omega_m, Params.Omega_de, Params.Omega, w]

/-- Witness: redshift one in the Planck universe. -/
example : |readChi (chiTable Planck15 (-3) 256) (1 / 2) - comovingDistance const_rh (expansion Planck15) (1 / 2)|
    ≤ 1.7e-4 * comovingDistance const_rh (expansion Planck15) (1 / 2)
      + 4e-4 * (const_rh / (1 / 2 * expansion Planck15 (1 / 2))) :=
  C148_default planck_mild (by
    calc (10 : ℝ) ^ (-3 + 3 / 255 : ℝ) ≤ 10 ^ (-1 : ℝ) :=
          Real.rpow_le_rpow_of_exponent_le (by norm_num) (by norm_num)
      _ ≤ 1 / 2 := by rw [Real.rpow_neg_one]; norm_num) (by norm_num)

end JaxCosmo
