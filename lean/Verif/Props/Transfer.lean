import Verif.Model.Transfer
import Verif.Spec.Power
import Mathlib.Analysis.SpecialFunctions.Trigonometric.Sinc
import Mathlib.Analysis.SpecialFunctions.Pow.Continuity
import Mathlib.Analysis.Complex.ExponentialBounds

/-! # C43, C44, C67: Eisenstein & Hu transfer functions -/

namespace JaxCosmo
open Spec Filter Topology

/-- Densities for which the fitting formulae make sense: some baryons, some cold dark matter, an
expanding universe. -/
structure Params.Baryonic (p : Params) : Prop where
  b_pos : 0 < p.Omega_b
  c_pos : 0 < p.Omega_c
  h_pos : 0 < p.h

/-! ## The fitting form as a function of `q` -/

theorem log_two_e {q : ℝ} (hq : 0 ≤ q) : 1 < Real.log (2 * Real.exp 1 + 1.8 * q) := by
  have he := Real.exp_pos 1
  rw [Real.lt_log_iff_exp_lt (by positivity)]
  nlinarith

theorem nowiggleOfQ_eq {q : ℝ} (hq : 0 ≤ q) : nowiggleOfQ q
    = 1 / (1 + (14.2 + 731 / (1 + 62.5 * q)) * q
        * (q / Real.log (2 * Real.exp 1 + 1.8 * q))) := by
  have hL := log_two_e hq
  unfold nowiggleOfQ
  have hC : 0 < 14.2 + 731 / (1 + 62.5 * q) := by positivity
  generalize 14.2 + 731 / (1 + 62.5 * q) = C at *
  generalize Real.log (2 * Real.exp 1 + 1.8 * q) = L at *
  have hL0 : 0 < L := by linarith
  have h1 : 0 < L + C * q ^ 2 := by positivity
  have h2 : 0 < 1 + C * q * (q / L) := by positivity
  rw [div_eq_div_iff h1.ne' h2.ne']
  field_simp

theorem nowiggleOfQ_range {q : ℝ} (hq : 0 ≤ q) : 0 < nowiggleOfQ q ∧ nowiggleOfQ q ≤ 1 := by
  have hL := log_two_e hq
  unfold nowiggleOfQ
  have hC : 0 < 14.2 + 731 / (1 + 62.5 * q) := by positivity
  generalize 14.2 + 731 / (1 + 62.5 * q) = C at *
  generalize Real.log (2 * Real.exp 1 + 1.8 * q) = L at *
  have hL0 : 0 < L := by linarith
  have h1 : 0 < L + C * q ^ 2 := by positivity
  exact ⟨by positivity, (div_le_one h1).2 (by have : 0 ≤ C * q ^ 2 := by positivity
                                              linarith)⟩

/-- `q / log(2e + 1.8 q)` increases. -/
theorem q_div_log {q r : ℝ} (hq : 0 ≤ q) (hqr : q < r) :
    q / Real.log (2 * Real.exp 1 + 1.8 * q) < r / Real.log (2 * Real.exp 1 + 1.8 * r) := by
  have hL := log_two_e hq
  have hM := log_two_e (hq.trans hqr.le)
  have he := Real.exp_pos 1
  rw [div_lt_div_iff₀ (by linarith) (by linarith)]
  have h1 : 0 < 2 * Real.exp 1 + 1.8 * q := by positivity
  have h2 : 0 < 2 * Real.exp 1 + 1.8 * r := by
    have : 0 ≤ r := hq.trans hqr.le
    positivity
  have h3 := Real.log_le_sub_one_of_pos (div_pos h2 h1)
  rw [Real.log_div h2.ne' h1.ne'] at h3
  have h4 : (2 * Real.exp 1 + 1.8 * r) / (2 * Real.exp 1 + 1.8 * q) - 1
      = 1.8 * (r - q) / (2 * Real.exp 1 + 1.8 * q) := by
    field_simp; ring
  rw [h4] at h3
  have h5 : q * (1.8 * (r - q) / (2 * Real.exp 1 + 1.8 * q)) ≤ r - q := by
    rw [← mul_div_assoc, div_le_iff₀ h1]
    nlinarith
  have h6 := mul_le_mul_of_nonneg_left h3 hq
  generalize Real.log (2 * Real.exp 1 + 1.8 * q) = L at *
  generalize Real.log (2 * Real.exp 1 + 1.8 * r) = M at *
  nlinarith

theorem nowiggleOfQ_strictAnti {q r : ℝ} (hq : 0 ≤ q) (hqr : q < r) :
    nowiggleOfQ r < nowiggleOfQ q := by
  have hr : 0 ≤ r := hq.trans hqr.le
  rw [nowiggleOfQ_eq hq, nowiggleOfQ_eq hr]
  have hL := log_two_e hq
  have hL0 : 0 < Real.log (2 * Real.exp 1 + 1.8 * q) := by linarith
  have h1 := q_div_log hq hqr
  have h0 : 0 ≤ q / Real.log (2 * Real.exp 1 + 1.8 * q) := by positivity
  have hA : (14.2 + 731 / (1 + 62.5 * q)) * q ≤ (14.2 + 731 / (1 + 62.5 * r)) * r := by
    have e : ∀ x : ℝ, 0 ≤ x → 731 / (1 + 62.5 * x) * x = 731 / 62.5 * (1 - 1 / (1 + 62.5 * x)) := by
      intro x hx
      have : 0 < 1 + 62.5 * x := by positivity
      field_simp
      ring
    rw [add_mul, add_mul, e q hq, e r hr]
    have h2 : 1 / (1 + 62.5 * r) ≤ 1 / (1 + 62.5 * q) :=
      one_div_le_one_div_of_le (by positivity) (by linarith)
    nlinarith
  have hA0 : 0 ≤ (14.2 + 731 / (1 + 62.5 * q)) * q := by positivity
  have hA1 : 0 < (14.2 + 731 / (1 + 62.5 * r)) * r := by
    have : 0 < r := lt_of_le_of_lt hq hqr
    positivity
  apply one_div_lt_one_div_of_lt
  · have := mul_nonneg hA0 h0; linarith
  · have := mul_le_mul_of_nonneg_right hA h0
    have := mul_lt_mul_of_pos_left h1 hA1
    linarith

/-! ## Positivity of the intermediate quantities -/

namespace EH
variable {p : Params}

theorem T27_pos : 0 < T_2_7_sqr := by unfold T_2_7_sqr const_tcmb; positivity

theorem om_pos (h : p.Baryonic) : 0 < p.Omega_m := add_pos h.b_pos h.c_pos
theorem h2_pos (h : p.Baryonic) : 0 < h2 p := pow_pos h.h_pos 2
theorem wm_pos (h : p.Baryonic) : 0 < w_m p := mul_pos (om_pos h) (h2_pos h)
theorem wb_pos (h : p.Baryonic) : 0 < w_b p := mul_pos h.b_pos (h2_pos h)

theorem keq_pos (h : p.Baryonic) : 0 < k_eq p := by
  have := wm_pos h; have := T27_pos; have := h.h_pos
  unfold k_eq; positivity

theorem zeq_pos (h : p.Baryonic) : 0 < z_eq p := by
  have := wm_pos h; have := T27_pos
  unfold z_eq; positivity

theorem zd_pos (h : p.Baryonic) : 0 < z_d p := by
  have hm := wm_pos h
  have hb := wb_pos h
  have hr : ∀ e : ℝ, 0 < w_m p ^ e := fun e => Real.rpow_pos_of_pos hm e
  have h1 : 0 < zd_b1 p := by
    unfold zd_b1
    have := hr (-0.419); have := hr 0.674
    positivity
  have h2 : 0 < w_b p ^ zd_b2 p := Real.rpow_pos_of_pos hb _
  unfold z_d
  have := hr 0.251; have := hr 0.828
  positivity

theorem Rd_pos (h : p.Baryonic) : 0 < R_d p := by
  have := wb_pos h; have := T27_pos; have := zd_pos h
  unfold R_d; positivity

theorem Req_pos (h : p.Baryonic) : 0 < R_eq p := by
  have := wb_pos h; have := T27_pos; have := zeq_pos h
  unfold R_eq; positivity

/-- The sound horizon at the drag epoch is a positive length. -/
theorem shd_pos (h : p.Baryonic) : 0 < sh_d p := by
  have h1 := keq_pos h
  have h2 := Req_pos h
  have h3 := Rd_pos h
  unfold sh_d
  refine mul_pos (mul_pos (by positivity) (Real.sqrt_pos.2 (by positivity))) (Real.log_pos ?_)
  have h4 : 0 ≤ √(R_eq p) := Real.sqrt_nonneg _
  rw [lt_div_iff₀ (by linarith), one_mul]
  have h5 : 1 < √(1 + R_d p) := by
    rw [Real.lt_sqrt (by norm_num)]; linarith
  have h6 : √(R_eq p) < √(R_eq p + R_d p) := Real.sqrt_lt_sqrt h2.le (by linarith)
  linarith

theorem betab_pos (h : p.Baryonic) : 0 < beta_b p := by
  have hm := om_pos h
  have hb := h.b_pos
  have h0 : 0 < fb p := div_pos hb hm
  have h1 : fb p < 1 := (div_lt_one hm).2 (by unfold Params.Omega_m; linarith [h.c_pos])
  unfold beta_b
  have h3 : 0 < 3 - 2 * fb p := by linarith
  have := Real.sqrt_nonneg ((17.2 * w_m p) ^ 2 + 1)
  positivity

theorem betanode_pos (h : p.Baryonic) : 0 < beta_node p := by
  have := Real.rpow_pos_of_pos (wm_pos h) (0.435 : ℝ)
  unfold beta_node; positivity

theorem fb_add_fc (h : p.Baryonic) : fb p + fc p = 1 := by
  unfold fb fc
  have := (om_pos h).ne'
  field_simp
  ring

theorem gamma_pos (h : p.Baryonic) (hα : 0 ≤ alpha_gamma p) (k : ℝ) : 0 < gamma_eff p k := by
  unfold gamma_eff
  have h1 := om_pos h
  have h2 := h.h_pos
  have h4 : 0 ≤ (0.43 * k * sh_d p) ^ 4 := by positivity
  generalize (0.43 * k * sh_d p) ^ 4 = u at *
  have h5 : alpha_gamma p + (1 - alpha_gamma p) / (1 + u) = (alpha_gamma p * u + 1) / (1 + u) := by
    have : 0 < 1 + u := by linarith
    field_simp; ring
  rw [h5]
  positivity

theorem nowiggle_eq (k : ℝ) :
    nowiggle p k = nowiggleOfQ (k * T_2_7_sqr / gamma_eff p k) := by
  simp only [nowiggle, nowiggleOfQ, T_2_7_sqr]
  ring_nf

end EH
open EH

/-! ## C43 -/

/-- C43: the no-wiggle transfer function lies in `(0, 1]` for every `k ≥ 0` at which the effective
shape parameter is positive. -/
theorem C43_range (p : Params) (k : ℝ) (hk : 0 ≤ k) (hΓ : 0 < gamma_eff p k) :
    ∃ v, Eisenstein_Hu p k "eisenhu" = .ok v ∧ 0 < v ∧ v ≤ 1 := by
  refine ⟨_, by simp only [Eisenstein_Hu, if_true]; rfl, ?_⟩
  rw [nowiggle_eq]
  have := T27_pos
  exact nowiggleOfQ_range (by positivity)

/-- C43: the effective shape parameter is positive in every baryonic cosmology with
`alpha_gamma ≥ 0`. -/
theorem C43_shape (p : Params) (h : p.Baryonic) (hα : 0 ≤ alpha_gamma p) (k : ℝ) (hk : 0 ≤ k) :
    ∃ v, Eisenstein_Hu p k "eisenhu" = .ok v ∧ 0 < v ∧ v ≤ 1 :=
  C43_range p k hk (gamma_pos h hα k)

/-- C43: it is one at `k = 0`. -/
theorem C43_zero (p : Params) : Eisenstein_Hu p 0 "eisenhu" = .ok 1 := by
  simp only [Eisenstein_Hu, if_true]
  rw [nowiggle_eq]
  have := log_two_e le_rfl
  simp only [nowiggleOfQ, zero_mul, zero_div, mul_zero, add_zero, ne_eq, OfNat.ofNat_ne_zero,
    not_false_eq_true, zero_pow]
  rw [div_self]
  simp only [mul_zero, add_zero] at this
  linarith

/-- C43: and it falls strictly with `k` when `0 < alpha_gamma ≤ 1`. -/
theorem C43_decreasing (p : Params) (h : p.Baryonic) (hα : 0 < alpha_gamma p)
    (hα' : alpha_gamma p ≤ 1) {k l v w : ℝ} (hk : 0 ≤ k) (hkl : k < l)
    (hv : Eisenstein_Hu p k "eisenhu" = .ok v) (hw : Eisenstein_Hu p l "eisenhu" = .ok w) :
    w < v := by
  simp only [Eisenstein_Hu, if_true, Except.ok.injEq] at hv hw
  rw [← hv, ← hw, nowiggle_eq, nowiggle_eq]
  have hT := T27_pos
  have g1 := gamma_pos h hα.le k
  have g2 := gamma_pos h hα.le l
  refine nowiggleOfQ_strictAnti (by positivity) ?_
  have hs := shd_pos h
  have hΓ : gamma_eff p l ≤ gamma_eff p k := by
    unfold gamma_eff
    have h1 := om_pos h
    have h2 := h.h_pos
    have h3 : (0.43 * k * sh_d p) ^ 4 ≤ (0.43 * l * sh_d p) ^ 4 := by
      have : 0.43 * k * sh_d p ≤ 0.43 * l * sh_d p :=
        mul_le_mul_of_nonneg_right (by linarith) hs.le
      exact pow_le_pow_left₀ (by positivity) this 4
    have h4 : 0 ≤ (0.43 * k * sh_d p) ^ 4 := by positivity
    have h5 : (1 - alpha_gamma p) / (1 + (0.43 * l * sh_d p) ^ 4)
        ≤ (1 - alpha_gamma p) / (1 + (0.43 * k * sh_d p) ^ 4) :=
      div_le_div_of_nonneg_left (by linarith) (by linarith) (by linarith)
    exact mul_le_mul_of_nonneg_left (by linarith) (by positivity)
  have hl : 0 < l := lt_of_le_of_lt hk hkl
  calc k * T_2_7_sqr / gamma_eff p k < l * T_2_7_sqr / gamma_eff p k :=
        div_lt_div_of_pos_right (mul_lt_mul_of_pos_right hkl hT) g1
    _ ≤ l * T_2_7_sqr / gamma_eff p l :=
        div_le_div_of_nonneg_left (by positivity) g2 hΓ

/-- C43: any other type is rejected. -/
theorem C43_unknown (p : Params) (k : ℝ) (s : String) (h1 : s ≠ "eisenhu")
    (h2 : s ≠ "eisenhu_osc") : Eisenstein_Hu p k s = .error .notImplementedError := by
  simp [Eisenstein_Hu, h1, h2]

theorem planck_baryonic : Planck15.Baryonic :=
  ⟨by norm_num [Planck15], by norm_num [Planck15], by norm_num [Planck15]⟩

/-- Witness: the hypotheses of `C43_decreasing` hold in the Planck 2015 cosmology. -/
theorem planck_alpha : 0 < alpha_gamma Planck15 ∧ alpha_gamma Planck15 ≤ 1 := by
  have e1 : 431 * w_m Planck15 ≤ 64 := by norm_num [w_m, h2, Planck15, Params.Omega_m]
  have e2 : 1 ≤ 22.3 * w_m Planck15 := by norm_num [w_m, h2, Planck15, Params.Omega_m]
  have e3 : w_b Planck15 / w_m Planck15 ≤ 0.1581 ∧ 0.158 ≤ w_b Planck15 / w_m Planck15 := by
    norm_num [w_m, w_b, h2, Planck15, Params.Omega_m]
  have e4 : Planck15.Omega_b / Planck15.Omega_m = w_b Planck15 / w_m Planck15 := by
    norm_num [w_m, w_b, h2, Planck15, Params.Omega_m]
  have hw := wm_pos planck_baryonic
  have l1 : Real.log (431 * w_m Planck15) ≤ 6 * 0.6931471808 := by
    calc Real.log (431 * w_m Planck15) ≤ Real.log 64 := Real.log_le_log (by positivity) e1
      _ = 6 * Real.log 2 := by
          rw [show (64 : ℝ) = 2 ^ 6 by norm_num, Real.log_pow]; norm_num
      _ ≤ _ := by have := Real.log_two_lt_d9; linarith
  have l2 : 0 ≤ Real.log (22.3 * w_m Planck15) := Real.log_nonneg e2
  have l3 : Real.log (22.3 * w_m Planck15) ≤ Real.log (431 * w_m Planck15) :=
    Real.log_le_log (by positivity) (by linarith)
  unfold alpha_gamma
  rw [e4, mul_div_assoc]
  generalize w_b Planck15 / w_m Planck15 = f at *
  generalize Real.log (431 * w_m Planck15) = L at *
  generalize Real.log (22.3 * w_m Planck15) = M at *
  obtain ⟨f1, f2⟩ := e3
  constructor
  · have : L * f ≤ 6 * 0.6931471808 * 0.1581 :=
      mul_le_mul l1 f1 (by linarith) (by norm_num)
    have : 0 ≤ M * f ^ 2 := by positivity
    nlinarith
  · have h1 : M * f ≤ L * f := mul_le_mul_of_nonneg_right l3 (by linarith)
    have h2 : M * f * f ≤ M * f * 0.1581 := mul_le_mul_of_nonneg_left f1 (by
      have := mul_nonneg l2 (show 0 ≤ f by linarith); linarith)
    have h3 : 0 ≤ M * f := mul_nonneg l2 (by linarith)
    nlinarith

/-- Witness: the Planck 2015 transfer function falls from `k = 0.1` to `k = 0.2`. -/
example {v w : ℝ} (hv : Eisenstein_Hu Planck15 0.1 "eisenhu" = .ok v)
    (hw : Eisenstein_Hu Planck15 0.2 "eisenhu" = .ok w) : w < v :=
  C43_decreasing _ planck_baryonic planck_alpha.1 planck_alpha.2 (by norm_num) (by norm_num) hv hw

/-! ## C44 -/

theorem nowiggle_tendsto (p : Params) (h : p.Baryonic) : Tendsto (nowiggle p) (𝓝 0) (𝓝 1) := by
  have h0 : gamma_eff p 0 ≠ 0 := by
    have := (om_pos h).ne'
    have := h.h_pos.ne'
    simp [gamma_eff, *]
  have hg : ContinuousAt (gamma_eff p) 0 := by
    unfold gamma_eff
    refine continuousAt_const.mul (continuousAt_const.add (continuousAt_const.div ?_ ?_))
    · fun_prop
    · norm_num
  have hq : ContinuousAt (fun k => k * T_2_7_sqr / gamma_eff p k) 0 :=
    (continuousAt_id.mul continuousAt_const).div hg h0
  have hf : ContinuousAt nowiggleOfQ 0 := by
    have he := log_two_e le_rfl
    unfold nowiggleOfQ
    have hL : ContinuousAt (fun q : ℝ => Real.log (2 * Real.exp 1 + 1.8 * q)) 0 := by
      refine ContinuousAt.log (by fun_prop) ?_
      have := Real.exp_pos 1
      simp
    refine hL.div (hL.add (ContinuousAt.mul (continuousAt_const.add
      (continuousAt_const.div (by fun_prop) (by norm_num))) (by fun_prop))) ?_
    simp only [ne_eq, OfNat.ofNat_ne_zero, not_false_eq_true, zero_pow, mul_zero, add_zero]
    simp only [mul_zero, add_zero] at he
    linarith
  have hz : (fun k => k * T_2_7_sqr / gamma_eff p k) 0 = 0 := by simp
  have hc : ContinuousAt (fun k => nowiggleOfQ (k * T_2_7_sqr / gamma_eff p k)) 0 :=
    ContinuousAt.comp (g := nowiggleOfQ) (f := fun k => k * T_2_7_sqr / gamma_eff p k)
      (by rwa [zero_mul, zero_div]) hq
  have hv : nowiggle p 0 = 1 := by
    have := C43_zero p
    simpa [Eisenstein_Hu] using this
  have := hc.tendsto
  rw [show nowiggle p = fun k => nowiggleOfQ (k * T_2_7_sqr / gamma_eff p k) from
    funext nowiggle_eq] at *
  rw [← hv]
  exact this

theorem T_tilde_tendsto (p : Params) (alpha beta : ℝ) :
    Tendsto (fun k => T_tilde p k alpha beta) (𝓝 0) (𝓝 1) := by
  have hc : ContinuousAt (fun k => T_tilde p k alpha beta) 0 := by
    unfold T_tilde
    have hq : ContinuousAt (fun k : ℝ => k / (13.41 * k_eq p)) 0 := by
      simp only [div_eq_mul_inv]; fun_prop
    have hL : ContinuousAt
        (fun k : ℝ => Real.log (Real.exp 1 + 1.8 * beta * (k / (13.41 * k_eq p)))) 0 := by
      refine ContinuousAt.log (continuousAt_const.add (continuousAt_const.mul hq)) ?_
      simp
    refine hL.div (hL.add ((ContinuousAt.mul (continuousAt_const.add (continuousAt_const.div
      (continuousAt_const.add (continuousAt_const.mul ?_)) ?_)) hq).mul hq)) ?_
    · exact hq.rpow_const (Or.inr (by norm_num))
    · have : (0 : ℝ) ^ (1.08 : ℝ) = 0 := Real.zero_rpow (by norm_num)
      simp [this]
    · simp
  have : T_tilde p 0 alpha beta = 1 := by simp [T_tilde]
  rw [← this]
  exact hc.tendsto

theorem npSinc_eq (x : ℝ) : npSinc x = Real.sinc (Real.pi * x) := by
  unfold npSinc
  split_ifs with h
  · simp [h]
  · rw [Real.sinc_of_ne_zero (mul_ne_zero Real.pi_ne_zero h)]

theorem ratio_atTop {b s : ℝ} (hb : 0 < b) (hs : 0 < s) :
    Tendsto (fun k : ℝ => (b / (k * s)) ^ 3) (𝓝[>] 0) atTop := by
  have h1 : Tendsto (fun k : ℝ => k⁻¹) (𝓝[>] 0) atTop := tendsto_inv_nhdsGT_zero
  have h2 : Tendsto (fun k : ℝ => b / s * k⁻¹) (𝓝[>] 0) atTop :=
    h1.const_mul_atTop (by positivity)
  have h3 := (tendsto_pow_atTop (α := ℝ) (n := 3) (by norm_num)).comp h2
  refine h3.congr fun k => ?_
  simp only [Function.comp_apply]
  congr 1
  rw [mul_comm k s, ← div_div, div_eq_mul_inv (b / s)]

theorem wiggle_tendsto (p : Params) (h : p.Baryonic) :
    Tendsto (wiggle p) (𝓝[>] 0) (𝓝 1) := by
  have hs := shd_pos h
  have hT : ∀ alpha beta, Tendsto (fun k => T_tilde p k alpha beta) (𝓝[>] 0) (𝓝 1) :=
    fun alpha beta => (T_tilde_tendsto p alpha beta).mono_left nhdsWithin_le_nhds
  have hc : Tendsto (Tc p) (𝓝[>] 0) (𝓝 1) := by
    unfold Tc
    have hf : Tendsto (fun k : ℝ => 1 / (1 + (k * sh_d p / 5.4) ^ 4)) (𝓝[>] 0) (𝓝 1) := by
      have : ContinuousAt (fun k : ℝ => 1 / (1 + (k * sh_d p / 5.4) ^ 4)) 0 := by
        refine continuousAt_const.div (by fun_prop) (by norm_num)
      have h1 := this.tendsto
      simp only [zero_mul, zero_div, ne_eq, OfNat.ofNat_ne_zero, not_false_eq_true, zero_pow,
        add_zero, div_one] at h1
      exact h1.mono_left nhdsWithin_le_nhds
    have := (hf.mul (hT 1 (beta_c p))).add
      (((tendsto_const_nhds (x := (1 : ℝ))).sub hf).mul (hT (alpha_c p) (beta_c p)))
    simpa using this
  have hb : Tendsto (Tb p) (𝓝[>] 0) (𝓝 1) := by
    unfold Tb
    have h1 : Tendsto (fun k : ℝ => 1 + (k * sh_d p / 5.2) ^ 2) (𝓝[>] 0) (𝓝 1) := by
      have : Continuous (fun k : ℝ => 1 + (k * sh_d p / 5.2) ^ 2) := by fun_prop
      have h1 := this.tendsto 0
      simp only [zero_mul, zero_div, ne_eq, OfNat.ofNat_ne_zero, not_false_eq_true, zero_pow,
        add_zero] at h1
      exact h1.mono_left nhdsWithin_le_nhds
    have h2 : Tendsto (fun k : ℝ => alpha_b p / (1 + (beta_b p / (k * sh_d p)) ^ 3))
        (𝓝[>] 0) (𝓝 0) :=
      (tendsto_atTop_add_const_left _ 1 (ratio_atTop (betab_pos h) hs)).const_div_atTop _
    have h3 : Tendsto (fun k : ℝ => Real.exp (-((k / k_silk p) ^ (1.4 : ℝ)))) (𝓝[>] 0) (𝓝 1) := by
      have : ContinuousAt (fun k : ℝ => Real.exp (-((k / k_silk p) ^ (1.4 : ℝ)))) 0 := by
        refine (ContinuousAt.neg (ContinuousAt.rpow_const ?_ (Or.inr (by norm_num)))).rexp
        simp only [div_eq_mul_inv]; fun_prop
      have h1 := this.tendsto
      have h0 : (0 : ℝ) ^ (1.4 : ℝ) = 0 := Real.zero_rpow (by norm_num)
      simp only [zero_div, h0, neg_zero, Real.exp_zero] at h1
      exact h1.mono_left nhdsWithin_le_nhds
    have h4 : Tendsto (fun k : ℝ => npSinc (k * tilde_s p k / Real.pi)) (𝓝[>] 0) (𝓝 1) := by
      have hr := tendsto_atTop_add_const_left _ 1 (ratio_atTop (betanode_pos h) hs)
      have hr' := ((tendsto_rpow_atTop (show (0 : ℝ) < 1 / 3 by norm_num)).comp hr)
      have hts : Tendsto (tilde_s p) (𝓝[>] 0) (𝓝 0) := hr'.const_div_atTop (sh_d p)
      have hk : Tendsto (fun k : ℝ => k) (𝓝[>] 0) (𝓝 0) :=
        tendsto_id.mono_left nhdsWithin_le_nhds
      have hx := hk.mul hts
      rw [zero_mul] at hx
      have := (Real.continuous_sinc.tendsto 0).comp hx
      rw [Real.sinc_zero] at this
      refine this.congr fun k => ?_
      rw [npSinc_eq, mul_div_cancel₀ _ Real.pi_ne_zero]
      rfl
    have := (((hT 1 1).div h1 one_ne_zero).add (h2.mul h3)).mul h4
    simpa using this
  have := (hb.const_mul (fb p)).add (hc.const_mul (fc p))
  rw [mul_one, mul_one, fb_add_fc h] at this
  exact this

/-- C44: both transfer functions are defined at every `k` and tend to one on large scales. -/
theorem C44_large_scales (p : Params) (h : p.Baryonic) (type : String)
    (ht : type = "eisenhu" ∨ type = "eisenhu_osc") :
    ∃ f : ℝ → ℝ, (∀ k, Eisenstein_Hu p k type = .ok (f k)) ∧ Tendsto f (𝓝[>] 0) (𝓝 1) := by
  rcases ht with rfl | rfl
  · exact ⟨_, fun k => by simp only [Eisenstein_Hu, if_true],
      (nowiggle_tendsto p h).mono_left nhdsWithin_le_nhds⟩
  · exact ⟨_, fun k => by simp only [Eisenstein_Hu, if_true, String.reduceEq, if_false],
      wiggle_tendsto p h⟩

/-- Witness: the Planck 2015 cosmology with the default type. -/
example : ∃ f : ℝ → ℝ, (∀ k, Eisenstein_Hu Planck15 k = .ok (f k)) ∧ Tendsto f (𝓝[>] 0) (𝓝 1) :=
  C44_large_scales _ planck_baryonic _ (Or.inr rfl)

/-! ## C67 -/

/-- The same physical densities `Omega h²` in a universe with Hubble constant `c h`. -/
noncomputable def rescaleH (p : Params) (c : ℝ) : Params :=
  { p with h := c * p.h, Omega_b := p.Omega_b / c ^ 2, Omega_c := p.Omega_c / c ^ 2 }

namespace EH
variable (p : Params) (c : ℝ)

theorem om_rescale : (rescaleH p c).Omega_m = p.Omega_m / c ^ 2 := by
  simp [rescaleH, Params.Omega_m, add_div]

theorem wm_rescale (hc : c ≠ 0) : w_m (rescaleH p c) = w_m p := by
  simp only [w_m, h2, om_rescale]; simp only [rescaleH]; field_simp

theorem wb_rescale (hc : c ≠ 0) : w_b (rescaleH p c) = w_b p := by
  simp only [w_b, h2]; simp only [rescaleH]; field_simp

theorem ratio_rescale (hc : c ≠ 0) :
    (rescaleH p c).Omega_b / (rescaleH p c).Omega_m = p.Omega_b / p.Omega_m := by
  rw [om_rescale]; simp only [rescaleH]
  exact div_div_div_cancel_right₀ (pow_ne_zero 2 hc) _ _

theorem fb_rescale (hc : c ≠ 0) : fb (rescaleH p c) = fb p := ratio_rescale p c hc

theorem fc_rescale (hc : c ≠ 0) : fc (rescaleH p c) = fc p := by
  unfold fc
  rw [om_rescale]; simp only [rescaleH]
  rw [← sub_div]
  exact div_div_div_cancel_right₀ (pow_ne_zero 2 hc) _ _

theorem keq_rescale (hc : c ≠ 0) : k_eq (rescaleH p c) = k_eq p / c := by
  unfold k_eq; rw [wm_rescale p c hc]; simp only [rescaleH]; rw [div_div, div_div, mul_comm c]
  field_simp

theorem zeq_rescale (hc : c ≠ 0) : z_eq (rescaleH p c) = z_eq p := by
  unfold z_eq; rw [wm_rescale p c hc]

theorem zd_rescale (hc : c ≠ 0) : z_d (rescaleH p c) = z_d p := by
  unfold z_d zd_b1 zd_b2; rw [wm_rescale p c hc, wb_rescale p c hc]

theorem Rd_rescale (hc : c ≠ 0) : R_d (rescaleH p c) = R_d p := by
  unfold R_d; rw [wb_rescale p c hc, zd_rescale p c hc]

theorem Req_rescale (hc : c ≠ 0) : R_eq (rescaleH p c) = R_eq p := by
  unfold R_eq; rw [wb_rescale p c hc, zeq_rescale p c hc]

theorem shd_rescale (hc : c ≠ 0) : sh_d (rescaleH p c) = c * sh_d p := by
  unfold sh_d
  rw [Rd_rescale p c hc, Req_rescale p c hc, keq_rescale p c hc]
  rw [show 2 / (3 * (k_eq p / c)) = c * (2 / (3 * k_eq p)) by
    rw [mul_div_assoc', div_div_eq_mul_div]; ring]
  ring

theorem ksilk_rescale (hc : c ≠ 0) : k_silk (rescaleH p c) = k_silk p / c := by
  unfold k_silk; rw [wm_rescale p c hc, wb_rescale p c hc]; simp only [rescaleH]
  rw [div_div, mul_comm c]

theorem kshd_rescale (hc : c ≠ 0) (k : ℝ) : k / c * sh_d (rescaleH p c) = k * sh_d p := by
  rw [shd_rescale p c hc]; field_simp

theorem alphag_rescale (hc : c ≠ 0) : alpha_gamma (rescaleH p c) = alpha_gamma p := by
  unfold alpha_gamma
  rw [ratio_rescale p c hc, wm_rescale p c hc, wb_rescale p c hc]

theorem gamma_rescale (hc : c ≠ 0) (k : ℝ) :
    gamma_eff (rescaleH p c) (k / c) = gamma_eff p k / c := by
  unfold gamma_eff
  rw [alphag_rescale p c hc, om_rescale, mul_assoc 0.43 (k / c), kshd_rescale p c hc,
    ← mul_assoc 0.43 k]
  simp only [rescaleH]
  field_simp

theorem Ttilde_rescale (hc : c ≠ 0) (k alpha beta : ℝ) :
    T_tilde (rescaleH p c) (k / c) alpha beta = T_tilde p k alpha beta := by
  have e : k / c / (13.41 * (k_eq p / c)) = k / (13.41 * k_eq p) := by
    rw [mul_div_assoc', div_div_div_cancel_right₀ hc]
  unfold T_tilde
  rw [keq_rescale p c hc, e]

theorem wiggle_rescale (hc : c ≠ 0) (k : ℝ) :
    wiggle (rescaleH p c) (k / c) = wiggle p k := by
  have e1 : alpha_c (rescaleH p c) = alpha_c p := by
    unfold alpha_c a1 a2; rw [wm_rescale p c hc, fb_rescale p c hc]
  have e2 : beta_c (rescaleH p c) = beta_c p := by
    unfold beta_c bc1 bc2; rw [wm_rescale p c hc, fc_rescale p c hc]
  have e3 : G (rescaleH p c) = G p := by
    unfold G; rw [zd_rescale p c hc, zeq_rescale p c hc]
  have e4 : alpha_b (rescaleH p c) = alpha_b p := by
    unfold alpha_b
    rw [Rd_rescale p c hc, e3, mul_assoc (2.07 : ℝ), keq_rescale p c hc, kshd_rescale p c hc,
      mul_assoc (2.07 : ℝ) (k_eq p)]
  have e5 : beta_b (rescaleH p c) = beta_b p := by
    unfold beta_b; rw [wm_rescale p c hc, fb_rescale p c hc]
  have e6 : beta_node (rescaleH p c) = beta_node p := by
    unfold beta_node; rw [wm_rescale p c hc]
  have e7 : k / c * tilde_s (rescaleH p c) (k / c) = k * tilde_s p k := by
    unfold tilde_s
    rw [e6, kshd_rescale p c hc, ← mul_div_assoc, kshd_rescale p c hc, mul_div_assoc]
  have e8 : k / c / k_silk (rescaleH p c) = k / k_silk p := by
    rw [ksilk_rescale p c hc, div_div_div_cancel_right₀ hc]
  unfold wiggle Tb Tc
  simp only [Ttilde_rescale p c hc, e1, e2, e4, e5, e7, e8, kshd_rescale p c hc,
    fb_rescale p c hc, fc_rescale p c hc]

end EH

/-- C67: the transfer functions only depend on the physical densities `Omega_b h²`, `Omega_c h²`
and on the physical wavenumber `k h`: changing `h` with those fixed changes nothing. -/
theorem C67_physical_units (p : Params) (c k : ℝ) (hc : c ≠ 0) (type : String) :
    Eisenstein_Hu { p with h := c * p.h, Omega_b := p.Omega_b / c ^ 2,
                           Omega_c := p.Omega_c / c ^ 2 } (k / c) type
      = Eisenstein_Hu p k type := by
  change Eisenstein_Hu (rescaleH p c) (k / c) type = _
  unfold Eisenstein_Hu
  rw [wiggle_rescale p c hc]
  have : nowiggle (rescaleH p c) (k / c) = nowiggle p k := by
    rw [nowiggle_eq, nowiggle_eq, gamma_rescale p c hc, div_mul_eq_mul_div,
      div_div_div_cancel_right₀ hc]
  rw [this]

/-- C67: nor do they depend on curvature, dark energy, `n_s` or `sigma8`. -/
theorem C67_independent (p q : Params) (k : ℝ) (type : String) :
    Eisenstein_Hu { q with Omega_c := p.Omega_c, Omega_b := p.Omega_b, h := p.h } k type = Eisenstein_Hu p k type := rfl

/-- Witness: Planck densities in a universe with twice the Hubble constant. -/
example : Eisenstein_Hu { Planck15 with h := 2 * 0.6774, Omega_b := 0.04860 / 2 ^ 2,
                                        Omega_c := 0.2589 / 2 ^ 2 } (0.1 / 2) = Eisenstein_Hu Planck15 0.1 :=
  C67_physical_units Planck15 2 0.1 two_ne_zero _

end JaxCosmo
