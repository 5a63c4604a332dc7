import Verif.Props.PowerSensitivity
import Verif.Props.EisensteinHu
import Mathlib.Analysis.SpecialFunctions.Pow.Asymptotics

/-! # C105: shape of the linear power spectrum -/

namespace JaxCosmo
open Spec Filter Topology EH

/-! ## Small scales -/

/-- If `q` grows in proportion to `k`, its logarithm grows as the logarithm of `k`. -/
theorem log_affine_ratio {q : ℝ → ℝ} {c A B : ℝ} (hq : Tendsto (fun k => q k / k) atTop (𝓝 c))
    (hc : 0 < c) (hB : 0 < B) :
    Tendsto (fun k => Real.log (A + B * q k) / Real.log k) atTop (𝓝 1) := by
  have h1 : Tendsto (fun k : ℝ => A / k + B * (q k / k)) atTop (𝓝 (0 + B * c)) :=
    (tendsto_id.const_div_atTop A).add (hq.const_mul B)
  rw [zero_add] at h1
  have hBc : 0 < B * c := mul_pos hB hc
  have h2 := h1.log hBc.ne'
  have h3 := h2.div_atTop Real.tendsto_log_atTop
  have h4 := h3.const_add 1
  rw [add_zero] at h4
  refine h4.congr' ?_
  filter_upwards [eventually_gt_atTop 1, h1.eventually_const_lt hBc] with k hk hp
  have hk0 : (0 : ℝ) < k := by linarith
  have hl : Real.log k ≠ 0 := (Real.log_pos hk).ne'
  have e : A + B * q k = k * (A / k + B * (q k / k)) := by field_simp
  rw [e, Real.log_mul hk0.ne' hp.ne', add_div, div_self hl]

/-- The common form of the fitting formulae: `L/(L + C q²)` falls as `ln k / k²`. -/
theorem fit_tail {q L C : ℝ → ℝ} {c C' : ℝ} (hq : Tendsto (fun k => q k / k) atTop (𝓝 c))
    (hL : Tendsto (fun k => L k / Real.log k) atTop (𝓝 1)) (hC : Tendsto C atTop (𝓝 C'))
    (h0 : C' * c ^ 2 ≠ 0) :
    Tendsto (fun k => L k / (L k + C k * q k ^ 2) * (k ^ 2 / Real.log k)) atTop
      (𝓝 (1 / (C' * c ^ 2))) := by
  have hlk : Tendsto (fun k : ℝ => Real.log k / k ^ 2) atTop (𝓝 0) := by
    have := Real.isLittleO_pow_log_id_atTop (n := 1)
    have h1 : Tendsto (fun k : ℝ => Real.log k / k) atTop (𝓝 0) := by
      simpa using this.tendsto_div_nhds_zero
    have := h1.mul (tendsto_inv_atTop_zero (𝕜 := ℝ))
    rw [zero_mul] at this
    refine this.congr fun k => ?_
    rw [pow_two, div_mul_eq_div_div, div_eq_mul_inv (Real.log k / k)]
  have h1 : Tendsto (fun k => L k / k ^ 2) atTop (𝓝 0) := by
    have := hL.mul hlk
    rw [mul_zero] at this
    refine this.congr' ?_
    filter_upwards [eventually_gt_atTop 1] with k hk
    have := (Real.log_pos hk).ne'
    field_simp
  have h2 := h1.add (hC.mul (hq.pow 2))
  rw [zero_add] at h2
  refine (hL.div h2 h0).congr' ?_
  filter_upwards [eventually_gt_atTop 1] with k hk
  have hk0 : k ≠ 0 := by linarith
  have hl := (Real.log_pos hk).ne'
  simp only [Pi.div_apply]
  rw [div_pow, mul_div_assoc', ← add_div]
  rw [div_div_eq_mul_div, div_mul_eq_mul_div, div_div, div_mul_div_comm, mul_comm (Real.log k)]

theorem scaled_pow_atTop {s : ℝ} (hs : 0 < s) {n : ℕ} (hn : n ≠ 0) :
    Tendsto (fun k : ℝ => 1 + (k * s) ^ n) atTop atTop :=
  tendsto_atTop_add_const_left _ 1
    ((tendsto_pow_atTop hn).comp (tendsto_id.atTop_mul_const hs))

theorem nowiggle_tail {p : Params} (h : p.Baryonic) (hα : 0 < alpha_gamma p) :
    Tendsto (fun k => nowiggle p k * (k ^ 2 / Real.log k)) atTop
      (𝓝 ((p.Omega_m * p.h * alpha_gamma p) ^ 2 / (14.2 * cmbTheta ^ 4))) := by
  have hom := om_pos h
  have hh := h.h_pos
  have hs := shd_pos h
  have hT : 0 < cmbTheta := cmb_pos
  have hg : Tendsto (gamma_eff p) atTop (𝓝 (p.Omega_m * p.h * (alpha_gamma p + 0))) := by
    refine (Tendsto.const_add _ ?_).const_mul _
    have := (scaled_pow_atTop (s := 0.43 * sh_d p) (by positivity) (n := 4) (by norm_num)).const_div_atTop
      (1 - alpha_gamma p)
    refine this.congr fun k => ?_
    ring_nf
  rw [add_zero] at hg
  have hc0 : 0 < p.Omega_m * p.h * alpha_gamma p := by positivity
  have hq : Tendsto (fun k => k * (const_tcmb / 2.7) ^ 2 / gamma_eff p k / k) atTop
      (𝓝 (cmbTheta ^ 2 / (p.Omega_m * p.h * alpha_gamma p))) := by
    have : Tendsto (fun k => cmbTheta ^ 2 / gamma_eff p k) atTop _ :=
      tendsto_const_nhds.div hg hc0.ne'
    refine this.congr' ?_
    filter_upwards [eventually_gt_atTop 0] with k hk
    rw [show (const_tcmb / 2.7) ^ 2 = cmbTheta ^ 2 from T27_eq, div_div, mul_comm (gamma_eff p k),
      mul_div_mul_left _ _ hk.ne']
  have hq' : Tendsto (fun k => k * (const_tcmb / 2.7) ^ 2 / gamma_eff p k) atTop atTop := by
    have := tendsto_id.atTop_mul_pos (C := cmbTheta ^ 2 / (p.Omega_m * p.h * alpha_gamma p))
      (by positivity) hq
    refine this.congr' ?_
    filter_upwards [eventually_gt_atTop 0] with k hk
    simp only [id]
    rw [mul_div_cancel₀ _ hk.ne']
  have hC : Tendsto (fun k => 14.2 + 731 / (1 + 62.5 * (k * (const_tcmb / 2.7) ^ 2 / gamma_eff p k)))
      atTop (𝓝 (14.2 + 0)) :=
    ((tendsto_atTop_add_const_left _ 1 (hq'.const_mul_atTop (by norm_num : (0:ℝ) < 62.5))).const_div_atTop
      731).const_add 14.2
  have hL := log_affine_ratio hq (A := 2 * Real.exp 1) (B := 1.8) (by positivity) (by norm_num)
  have := fit_tail hq hL hC (by positivity)
  rw [add_zero] at this
  convert this using 2
  · simp only [nowiggle]
    rw [mul_assoc _ (_ / gamma_eff p _) (_ / gamma_eff p _), ← pow_two (_ / gamma_eff p _)]
  · rw [div_pow, ← pow_mul]
    field_simp

theorem Ttilde_tail {p : Params} (h : p.Baryonic) {α β : ℝ} (hα : 0 < α) (hβ : 0 < β) :
    Tendsto (fun k => T_tilde p k α β * (k ^ 2 / Real.log k)) atTop
      (𝓝 (α * (13.41 * k_eq p) ^ 2 / 14.2)) := by
  have hk := keq_pos h
  have hq : Tendsto (fun k => k / (13.41 * k_eq p) / k) atTop (𝓝 (1 / (13.41 * k_eq p))) := by
    refine tendsto_const_nhds.congr' ?_
    filter_upwards [eventually_gt_atTop 0] with k hk
    rw [div_right_comm, div_self hk.ne']
  have hq' : Tendsto (fun k => k / (13.41 * k_eq p)) atTop atTop :=
    tendsto_id.atTop_div_const (by positivity)
  have hC : Tendsto (fun k => 14.2 / α + 386 / (1 + 69.9 * (k / (13.41 * k_eq p)) ^ (1.08 : ℝ)))
      atTop (𝓝 (14.2 / α + 0)) :=
    ((tendsto_atTop_add_const_left _ 1 (((tendsto_rpow_atTop (by norm_num)).comp hq').const_mul_atTop
      (by norm_num : (0:ℝ) < 69.9))).const_div_atTop 386).const_add _
  have hL := log_affine_ratio hq (A := Real.exp 1) (B := 1.8 * β) (by positivity) (by positivity)
  have := fit_tail hq hL hC (by positivity)
  rw [add_zero] at this
  convert this using 2
  · simp only [T_tilde]
    rw [mul_assoc _ (_ / (13.41 * k_eq p)) (_ / (13.41 * k_eq p)), ← pow_two (_ / (13.41 * k_eq p))]
  · field_simp

theorem alphac_pos {p : Params} (h : p.Baryonic) : 0 < alpha_c p := by
  have := wm_pos h
  unfold alpha_c a1 a2
  positivity

theorem betac_pos {p : Params} (h : p.Baryonic) : 0 < beta_c p := by
  have hw := wm_pos h
  have hfc : 0 < fc p := by
    rw [fc]
    have : p.Omega_m - p.Omega_b = p.Omega_c := by rw [Params.Omega_m]; ring
    rw [this]
    exact div_pos h.c_pos (om_pos h)
  have h1 : bc1 p < 1 := by
    rw [bc1, div_lt_one (by positivity)]
    have : 0 < (458 * w_m p) ^ (-0.708 : ℝ) := by positivity
    linarith
  have h0 : 0 < bc1 p := by unfold bc1; positivity
  have h2 : 0 < fc p ^ bc2 p := by positivity
  unfold beta_c
  have : 0 < bc1 p * fc p ^ bc2 p := by positivity
  refine one_div_pos.2 ?_
  linarith [mul_sub (bc1 p) (fc p ^ bc2 p) 1]

theorem silk_tail {s : ℝ} (hs : 0 < s) :
    Tendsto (fun k : ℝ => Real.exp (-((k / s) ^ (1.4 : ℝ))) * (k ^ 2 / Real.log k)) atTop (𝓝 0) := by
  have h1 : Tendsto (fun k : ℝ => (k / s) ^ 2 * Real.exp (-(k / s))) atTop (𝓝 0) :=
    (Real.tendsto_pow_mul_exp_neg_atTop_nhds_zero 2).comp (tendsto_id.atTop_div_const hs)
  have h2 : Tendsto (fun k : ℝ => s ^ 2 * ((k / s) ^ 2 * Real.exp (-(k / s))) * (Real.log k)⁻¹) atTop
      (𝓝 0) := by
    have := (h1.const_mul (s ^ 2)).mul (tendsto_inv_atTop_zero.comp Real.tendsto_log_atTop)
    simpa using this
  refine squeeze_zero' ?_ ?_ h2
  · filter_upwards [eventually_gt_atTop 1] with k hk
    have := Real.log_pos hk
    positivity
  · filter_upwards [eventually_gt_atTop 1, eventually_ge_atTop s] with k hk hks
    have hl := Real.log_pos hk
    have h1 : 1 ≤ k / s := (one_le_div hs).2 hks
    have h3 : k / s ≤ (k / s) ^ (1.4 : ℝ) := Real.self_le_rpow_of_one_le h1 (by norm_num)
    have h4 : Real.exp (-((k / s) ^ (1.4 : ℝ))) ≤ Real.exp (-(k / s)) :=
      Real.exp_le_exp.2 (neg_le_neg h3)
    have e : s ^ 2 * ((k / s) ^ 2 * Real.exp (-(k / s))) * (Real.log k)⁻¹
        = Real.exp (-(k / s)) * (k ^ 2 / Real.log k) := by field_simp
    rw [e]
    gcongr

theorem Tc_tail {p : Params} (h : p.Baryonic) :
    Tendsto (fun k => Tc p k * (k ^ 2 / Real.log k)) atTop
      (𝓝 (alpha_c p * (13.41 * k_eq p) ^ 2 / 14.2)) := by
  have hs := shd_pos h
  have hf : Tendsto (fun k : ℝ => 1 / (1 + (k * sh_d p / 5.4) ^ 4)) atTop (𝓝 0) := by
    have := (scaled_pow_atTop (s := sh_d p / 5.4) (by positivity) (n := 4) (by norm_num)).const_div_atTop 1
    exact this.congr fun k => by rw [mul_div_assoc]
  have := (hf.mul (Ttilde_tail h one_pos (betac_pos h))).add
    (((tendsto_const_nhds (x := (1 : ℝ))).sub hf).mul (Ttilde_tail h (alphac_pos h) (betac_pos h)))
  rw [zero_mul, sub_zero, one_mul, zero_add] at this
  refine this.congr fun k => ?_
  simp only [Tc]
  ring

theorem Tb_tail {p : Params} (h : p.Baryonic) :
    Tendsto (fun k => Tb p k * (k ^ 2 / Real.log k)) atTop (𝓝 0) := by
  have hs := shd_pos h
  have hks : 0 < k_silk p := by
    have := wm_pos h; have := wb_pos h; have := h.h_pos
    unfold k_silk; positivity
  have h1 : Tendsto (fun k => T_tilde p k 1 1 * (k ^ 2 / Real.log k) / (1 + (k * sh_d p / 5.2) ^ 2)) atTop
      (𝓝 0) := by
    have hd := scaled_pow_atTop (s := sh_d p / 5.2) (by positivity) (n := 2) (by norm_num)
    refine ((Ttilde_tail h one_pos one_pos).div_atTop hd).congr fun k => ?_
    rw [mul_div_assoc k]
  have h2 : Tendsto (fun k => alpha_b p / (1 + (beta_b p / (k * sh_d p)) ^ 3)) atTop
      (𝓝 (alpha_b p / (1 + 0 ^ 3))) :=
    tendsto_const_nhds.div
      ((((tendsto_id.atTop_mul_const hs).const_div_atTop (beta_b p)).pow 3).const_add 1) (by norm_num)
  have h3 := h1.add (h2.mul (silk_tail hks))
  rw [mul_zero, add_zero] at h3
  refine squeeze_zero_norm (fun k => ?_) (tendsto_zero_iff_norm_tendsto_zero.1 h3)
  have e : Tb p k * (k ^ 2 / Real.log k)
      = (T_tilde p k 1 1 * (k ^ 2 / Real.log k) / (1 + (k * sh_d p / 5.2) ^ 2)
        + alpha_b p / (1 + (beta_b p / (k * sh_d p)) ^ 3)
          * (Real.exp (-((k / k_silk p) ^ (1.4 : ℝ))) * (k ^ 2 / Real.log k)))
        * npSinc (k * tilde_s p k / Real.pi) := by
    simp only [Tb]; ring
  rw [e, norm_mul, npSinc_eq]
  exact mul_le_of_le_one_right (norm_nonneg _) (Real.abs_sinc_le_one _)

/-- C105: on small scales the default transfer function falls as `ln k / k²`, with the amplitude of
the cold dark matter part; the baryons leave no trace. -/
theorem C105_oscillating {p : Params} (h : p.Baryonic) :
    ∃ f : ℝ → ℝ, (∀ k, Eisenstein_Hu p k = .ok (f k)) ∧
      Tendsto (fun k => f k * (k ^ 2 / Real.log k)) atTop
        (𝓝 (p.Omega_c / p.Omega_m * EH98.alphaC (p.Omega_m * p.h ^ 2) (p.Omega_b / p.Omega_m)
          * (13.41 * (7.46e-2 * p.Omega_m * p.h / cmbTheta ^ 2)) ^ 2 / 14.2)) := by
  refine ⟨wiggle p, fun _ => rfl, ?_⟩
  have := ((Tb_tail h).const_mul (fb p)).add ((Tc_tail h).const_mul (fc p))
  rw [mul_zero, zero_add] at this
  have e : fc p * (alpha_c p * (13.41 * k_eq p) ^ 2 / 14.2)
      = p.Omega_c / p.Omega_m * EH98.alphaC (p.Omega_m * p.h ^ 2) (p.Omega_b / p.Omega_m)
          * (13.41 * (7.46e-2 * p.Omega_m * p.h / cmbTheta ^ 2)) ^ 2 / 14.2 := by
    have e1 : fc p = p.Omega_c / p.Omega_m := by
      rw [fc, show p.Omega_m - p.Omega_b = p.Omega_c by rw [Params.Omega_m]; ring]
    have e2 : k_eq p = 7.46e-2 * p.Omega_m * p.h / cmbTheta ^ 2 := by
      have := h.h_pos.ne'
      rw [k_eq, T27_eq, w_m, h2]
      field_simp
    rw [e1, e2, ← alphaC_paper]
    change _ = p.Omega_c / p.Omega_m * EH98.alphaC (w_m p) (fb p) * _ / 14.2
    ring
  rw [e] at this
  refine this.congr fun k => ?_
  simp only [wiggle]
  ring

/-- C105: the transfer function without oscillations falls in the same way, with the amplitude of the
effective shape parameter. -/
theorem C105_smooth {p : Params} (h : p.Baryonic)
    (hα : 0 < EH98.alphaGamma (p.Omega_m * p.h ^ 2) (p.Omega_b / p.Omega_m)) :
    ∃ f : ℝ → ℝ, (∀ k, Eisenstein_Hu p k "eisenhu" = .ok (f k)) ∧
      Tendsto (fun k => f k * (k ^ 2 / Real.log k)) atTop
        (𝓝 ((p.Omega_m * p.h * EH98.alphaGamma (p.Omega_m * p.h ^ 2) (p.Omega_b / p.Omega_m)) ^ 2
          / (14.2 * cmbTheta ^ 4))) := by
  have e : EH98.alphaGamma (p.Omega_m * p.h ^ 2) (p.Omega_b / p.Omega_m) = alpha_gamma p := by
    change EH98.alphaGamma (w_m p) (fb p) = _
    rw [EH98.alphaGamma, alpha_gamma, mul_div_assoc _ (w_b p), fb_paper h.h_pos.ne', fb]
  rw [e] at hα ⊢
  exact ⟨nowiggle p, fun _ => rfl, nowiggle_tail h hα⟩

/-! ## The power spectrum -/

/-- What both transfer functions have in common. -/
structure HasShape (T : ℝ → ℝ) (τ : ℝ) : Prop where
  cont : ContinuousOn T (Set.Ioi 0)
  large : Tendsto T (𝓝[>] 0) (𝓝 1)
  small : Tendsto (fun k => T k * (k ^ 2 / Real.log k)) atTop (𝓝 τ)

theorem along_const (p : Params) (θ : ℝ) :
    ∃ v, Along (fun _ : ℝ => p) v θ := by
  cases hg : p.gamma with
  | none =>
    exact ⟨⟨0, 0, 0, 0, 0, 0, 0, 0, none⟩, hasDerivAt_const _ _, hasDerivAt_const _ _, hasDerivAt_const _ _,
      hasDerivAt_const _ _, hasDerivAt_const _ _, hasDerivAt_const _ _, hasDerivAt_const _ _,
      hasDerivAt_const _ _, fun _ => hg⟩
  | some γ =>
    exact ⟨⟨0, 0, 0, 0, 0, 0, 0, 0, some 0⟩, hasDerivAt_const _ _, hasDerivAt_const _ _, hasDerivAt_const _ _,
      hasDerivAt_const _ _, hasDerivAt_const _ _, hasDerivAt_const _ _, hasDerivAt_const _ _,
      hasDerivAt_const _ _, fun _ => γ, hasDerivAt_const _ _, fun _ => hg⟩

theorem C105_shape_oscillating {p : Params} (h : p.Baryonic) : ∃ τ, 0 < τ ∧ HasShape (wiggle p) τ := by
  obtain ⟨f, hf, ht⟩ := C105_oscillating h
  have e : f = wiggle p := funext fun k => Except.ok.inj (hf k).symm
  subst e
  refine ⟨_, ?_, fun k hk => ?_, wiggle_tendsto p h, ht⟩
  · have := om_pos h; have := h.h_pos; have := h.c_pos; have := cmb_pos
    have := alphac_pos h
    rw [← alphaC_paper] at this
    have : 0 < EH98.alphaC (p.Omega_m * p.h ^ 2) (p.Omega_b / p.Omega_m) := this
    positivity
  · obtain ⟨v, hv⟩ := along_const p k
    exact (C85_oscillating hv h (K := fun s => s) differentiableAt_id hk).continuousAt.continuousWithinAt

theorem C105_shape_smooth {p : Params} (h : p.Baryonic) (hα : 0 < alpha_gamma p) :
    ∃ τ, 0 < τ ∧ HasShape (nowiggle p) τ := by
  refine ⟨_, ?_, fun k hk => ?_, (nowiggle_tendsto p h).mono_left nhdsWithin_le_nhds, nowiggle_tail h hα⟩
  · have := om_pos h; have := h.h_pos; have := cmb_pos
    positivity
  · obtain ⟨v, hv⟩ := along_const p k
    exact (C85_smooth hv h (K := fun s => s) differentiableAt_id (le_of_lt hk)
      (gamma_pos h hα.le _)).continuousAt.continuousWithinAt

section
variable {p : Params} {T : ℝ → ℝ} {τ : ℝ} (hT : HasShape T τ)
include hT

/-- C105: on large scales the linear power spectrum has the primordial slope, `P ∝ k^n_s`. -/
theorem C105_large_scales (a : ℝ) :
    Tendsto (fun k => linearMatterPower p T k a / k ^ p.n_s) (𝓝[>] 0)
      (𝓝 (growthOf p a ^ 2 * (p.sigma8 ^ 2 / sigmasqr p 8 T))) := by
  have := ((hT.large.pow 2).mul_const (growthOf p a ^ 2)).mul_const (p.sigma8 ^ 2 / sigmasqr p 8 T)
  rw [one_pow, one_mul] at this
  refine this.congr' ?_
  filter_upwards [self_mem_nhdsWithin] with k hk
  have : (k : ℝ) ^ p.n_s ≠ 0 := (Real.rpow_pos_of_pos hk _).ne'
  simp only [linearMatterPower, primordialMatterPower]
  field_simp

/-- C105: on small scales the linear power spectrum falls as `k^(n_s - 4) ln² k`. -/
theorem C105_small_scales (a : ℝ) :
    Tendsto (fun k => linearMatterPower p T k a / (k ^ (p.n_s - 4) * Real.log k ^ 2)) atTop
      (𝓝 (τ ^ 2 * growthOf p a ^ 2 * (p.sigma8 ^ 2 / sigmasqr p 8 T))) := by
  have := ((hT.small.pow 2).mul_const (growthOf p a ^ 2)).mul_const (p.sigma8 ^ 2 / sigmasqr p 8 T)
  refine this.congr' ?_
  filter_upwards [eventually_gt_atTop 1] with k hk
  have hk0 : 0 < k := by linarith
  have hl := (Real.log_pos hk).ne'
  have hn : (k : ℝ) ^ p.n_s ≠ 0 := (Real.rpow_pos_of_pos hk0 _).ne'
  simp only [linearMatterPower, primordialMatterPower]
  rw [Real.rpow_sub hk0, show (k : ℝ) ^ (4 : ℝ) = k ^ 4 by exact_mod_cast Real.rpow_natCast k 4]
  field_simp

/-- C105: so for any tilt between 0 and 4 the spectrum vanishes at both ends. -/
theorem C105_vanishes (h0 : 0 < p.n_s) (h4 : p.n_s < 4) (a : ℝ) :
    Tendsto (fun k => linearMatterPower p T k a) (𝓝[>] 0) (𝓝 0) ∧
    Tendsto (fun k => linearMatterPower p T k a) atTop (𝓝 0) := by
  constructor
  · have h1 : Tendsto (fun k : ℝ => k ^ p.n_s) (𝓝[>] 0) (𝓝 0) := by
      have := (Real.continuousAt_rpow_const 0 p.n_s (Or.inr h0.le)).tendsto
      rw [Real.zero_rpow h0.ne'] at this
      exact this.mono_left nhdsWithin_le_nhds
    have := (C105_large_scales (p := p) hT a).mul h1
    rw [mul_zero] at this
    refine this.congr' ?_
    filter_upwards [self_mem_nhdsWithin] with k hk
    exact div_mul_cancel₀ _ (Real.rpow_pos_of_pos hk _).ne'
  · have h1 : Tendsto (fun k : ℝ => k ^ (p.n_s - 4) * Real.log k ^ 2) atTop (𝓝 0) := by
      have := (isLittleO_log_rpow_rpow_atTop (2 : ℝ) (show 0 < 4 - p.n_s by linarith)).tendsto_div_nhds_zero
      refine this.congr' ?_
      filter_upwards [eventually_gt_atTop 1] with k hk
      have hk0 : 0 < k := by linarith
      rw [show p.n_s - 4 = -(4 - p.n_s) by ring, Real.rpow_neg hk0.le, mul_comm, div_eq_mul_inv]
      norm_cast
    have := (C105_small_scales (p := p) hT a).mul h1
    rw [mul_zero] at this
    refine this.congr' ?_
    filter_upwards [eventually_gt_atTop 1] with k hk
    have hk0 : 0 < k := by linarith
    have hl := (Real.log_pos hk).ne'
    exact div_mul_cancel₀ _ (mul_pos (Real.rpow_pos_of_pos hk0 _) (by positivity)).ne'

/-- C105: and has a turnover, a wavenumber at which it is largest. -/
theorem C105_turnover (h0 : 0 < p.n_s) (h4 : p.n_s < 4) (a : ℝ) :
    ∃ k₀ > 0, ∀ k > 0, linearMatterPower p T k a ≤ linearMatterPower p T k₀ a := by
  obtain ⟨hl, hr⟩ := C105_vanishes (p := p) hT h0 h4 a
  set P := fun k => linearMatterPower p T k a with hP
  have hcont : ContinuousOn P (Set.Ioi 0) := by
    intro k hk
    have h1 := hT.cont k hk
    have h2 : ContinuousWithinAt (fun k : ℝ => k ^ p.n_s) (Set.Ioi 0) k :=
      (Real.continuousAt_rpow_const k p.n_s (Or.inl (ne_of_gt hk))).continuousWithinAt
    exact ((h2.mul (h1.pow 2)).mul continuousWithinAt_const).mul continuousWithinAt_const
  have hnn : ∀ k > 0, 0 ≤ P k := fun k hk => C40_nonneg p T k a hk
  by_cases hz : ∀ k > 0, P k = 0
  · exact ⟨1, one_pos, fun k hk => by
      have := hz k hk; have := hz 1 one_pos; simp only [hP] at *; linarith⟩
  push Not at hz
  obtain ⟨k₁, hk₁, hne⟩ := hz
  have hpos : 0 < P k₁ := lt_of_le_of_ne (hnn k₁ hk₁) (Ne.symm hne)
  obtain ⟨b, hb0, hb⟩ : ∃ b > 0, ∀ k > 0, k < b → P k < P k₁ := by
    have := hl.eventually_lt_const hpos
    rw [eventually_nhdsWithin_iff, Metric.eventually_nhds_iff] at this
    obtain ⟨ε, hε, h⟩ := this
    exact ⟨ε, hε, fun k hk hkb => h (by simpa [abs_of_pos hk] using hkb) hk⟩
  obtain ⟨B, hB⟩ := eventually_atTop.1 (hr.eventually_lt_const hpos)
  have hb1 : b ≤ k₁ := by
    by_contra hlt
    exact lt_irrefl _ (hb k₁ hk₁ (not_le.1 hlt))
  have hB1 : k₁ < B := by
    by_contra hlt
    exact lt_irrefl _ (hB k₁ (not_lt.1 hlt))
  obtain ⟨k₀, hk₀, hmax⟩ := (isCompact_Icc (a := b) (b := B)).exists_isMaxOn ⟨k₁, hb1, hB1.le⟩
    (hcont.mono fun x hx => lt_of_lt_of_le hb0 hx.1)
  have h01 : P k₁ ≤ P k₀ := hmax ⟨hb1, hB1.le⟩
  refine ⟨k₀, lt_of_lt_of_le hb0 hk₀.1, fun k hk => ?_⟩
  rcases lt_or_ge k b with h | h
  · exact ((hb k hk h).trans_le h01).le
  rcases le_or_gt k B with h' | h'
  · exact hmax ⟨h, h'⟩
  · exact ((hB k h'.le).trans_le h01).le

end

/-- Witness: the Planck 2015 cosmology, with either transfer function. -/
example (a : ℝ) : (∃ k₀ > 0, ∀ k > 0, linearMatterPower Planck15 (wiggle Planck15) k a
      ≤ linearMatterPower Planck15 (wiggle Planck15) k₀ a) ∧
    ∃ k₀ > 0, ∀ k > 0, linearMatterPower Planck15 (nowiggle Planck15) k a
      ≤ linearMatterPower Planck15 (nowiggle Planck15) k₀ a := by
  obtain ⟨_, _, h1⟩ := C105_shape_oscillating planck_baryonic
  obtain ⟨_, _, h2⟩ := C105_shape_smooth planck_baryonic planck_alpha.1
  have hn : 0 < Planck15.n_s ∧ Planck15.n_s < 4 := by norm_num [Planck15]
  exact ⟨C105_turnover h1 hn.1 hn.2 a, C105_turnover h2 hn.1 hn.2 a⟩

end JaxCosmo
