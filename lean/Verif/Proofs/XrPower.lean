import Verif.Model.XrPower
import Verif.Props.Defined
import Verif.Props.PowerShape

/-! # Finiteness of the transfer functions: helper lemmas -/

namespace JaxCosmo
open Xr EH

variable {p : Params}

theorem xm_T27 : Xm.EH.T_2_7_sqr = fin T_2_7_sqr := by
  unfold Xm.EH.T_2_7_sqr T_2_7_sqr
  rw [lit_sci, div_fin _ (by norm_num), npow_fin]
theorem xm_w_m : Xm.EH.w_m p = fin (w_m p) := by
  unfold Xm.EH.w_m w_m Xm.EH.h2 h2
  rw [npow_fin, mul_fin]
theorem xm_w_b : Xm.EH.w_b p = fin (w_b p) := by
  unfold Xm.EH.w_b w_b Xm.EH.h2 h2
  rw [npow_fin, mul_fin]
theorem xm_fb (hm : p.Omega_m ≠ 0) : Xm.EH.fb p = fin (fb p) := div_fin _ hm
theorem xm_fc (hm : p.Omega_m ≠ 0) : Xm.EH.fc p = fin (fc p) := by
  unfold Xm.EH.fc
  rw [sub_fin, div_fin _ hm]; rfl
theorem xm_k_eq (hh : p.h ≠ 0) : Xm.EH.k_eq p = fin (k_eq p) := by
  unfold Xm.EH.k_eq k_eq
  simp only [xm_w_m, xm_T27, lit_sci, mul_fin, div_fin _ T27_pos.ne', div_fin _ hh]
theorem xm_z_eq : Xm.EH.z_eq p = fin (z_eq p) := by
  unfold Xm.EH.z_eq z_eq
  simp only [xm_w_m, xm_T27, lit_sci, mul_fin, npow_fin, div_fin _ (pow_ne_zero 2 T27_pos.ne')]
theorem xm_zd_b1 (hm : 0 < w_m p) : Xm.EH.zd_b1 p = fin (zd_b1 p) := by
  unfold Xm.EH.zd_b1 zd_b1
  simp only [xm_w_m, lit_sci, lit_one, neg_fin, rpow_fin hm, mul_fin, add_fin]
theorem xm_zd_b2 (hm : 0 < w_m p) : Xm.EH.zd_b2 p = fin (zd_b2 p) := by
  unfold Xm.EH.zd_b2 zd_b2
  simp only [xm_w_m, lit_sci, rpow_fin hm, mul_fin]
theorem zd_b2_pos (hm : 0 < w_m p) : 0 < zd_b2 p := by
  unfold zd_b2
  have := Real.rpow_pos_of_pos hm (0.223 : ℝ)
  positivity
theorem xm_z_d (hm : 0 < w_m p) (hb : 0 ≤ w_b p) : Xm.EH.z_d p = fin (z_d p) := by
  have h1 : 1 + 0.659 * w_m p ^ (0.828 : ℝ) ≠ 0 := by
    have := Real.rpow_pos_of_pos hm (0.828 : ℝ)
    positivity
  unfold Xm.EH.z_d z_d
  simp only [xm_w_m, xm_w_b, xm_zd_b1 hm, xm_zd_b2 hm, lit_sci, lit_one, lit_nat, rpow_fin hm,
    rpow_fin' hb (zd_b2_pos hm), mul_fin, add_fin, div_fin _ h1]
theorem xm_R_d (h : p.Baryonic) : Xm.EH.R_d p = fin (R_d p) := by
  unfold Xm.EH.R_d R_d
  simp only [xm_w_b, xm_T27, xm_z_d (wm_pos h) (wb_pos h).le, lit_sci, mul_fin, npow_fin,
    div_fin _ (pow_ne_zero 2 T27_pos.ne'), div_fin _ (zd_pos h).ne']
theorem xm_R_eq (h : p.Baryonic) : Xm.EH.R_eq p = fin (R_eq p) := by
  unfold Xm.EH.R_eq R_eq
  simp only [xm_w_b, xm_T27, xm_z_eq, lit_sci, mul_fin, npow_fin,
    div_fin _ (pow_ne_zero 2 T27_pos.ne'), div_fin _ (zeq_pos h).ne']
theorem xm_sh_d (h : p.Baryonic) : Xm.EH.sh_d p = fin (sh_d p) := by
  have hk := keq_pos h
  have hR := Req_pos h
  have hd := Rd_pos h
  have h1 : 3 * k_eq p ≠ 0 := by positivity
  have h2 : (0 : ℝ) ≤ 6 / R_eq p := by positivity
  have h3 : 0 ≤ 1 + R_d p := by positivity
  have h4 : 0 ≤ R_eq p + R_d p := by positivity
  have h5 : 0 < 1 + √(R_eq p) := by positivity
  have h6 : 0 < (√(1 + R_d p) + √(R_eq p + R_d p)) / (1 + √(R_eq p)) := by positivity
  unfold Xm.EH.sh_d sh_d
  simp only [xm_R_d h, xm_R_eq h, xm_k_eq h.h_pos.ne', lit_nat, lit_one, mul_fin, add_fin,
    div_fin _ h1, div_fin _ hR.ne', sqrt_fin h2, sqrt_fin h3, sqrt_fin h4, sqrt_fin hR.le,
    div_fin _ h5.ne', log_fin h6]
theorem ksilk_pos (h : p.Baryonic) : 0 < k_silk p := by
  have hm := wm_pos h
  have := Real.rpow_pos_of_pos (wb_pos h) (0.52 : ℝ)
  have := Real.rpow_pos_of_pos hm (0.73 : ℝ)
  have := Real.rpow_pos_of_pos (show 0 < 10.4 * w_m p by positivity) (-0.95 : ℝ)
  have := h.h_pos
  unfold k_silk
  positivity
theorem xm_k_silk (h : p.Baryonic) : Xm.EH.k_silk p = fin (k_silk p) := by
  have hm := wm_pos h
  have h1 : 0 < 10.4 * w_m p := by positivity
  unfold Xm.EH.k_silk k_silk
  simp only [xm_w_b, xm_w_m, lit_sci, lit_one, rpow_fin (wb_pos h), rpow_fin hm, mul_fin, neg_fin,
    rpow_fin h1, add_fin, div_fin _ h.h_pos.ne']
theorem xm_alpha_gamma (hm : 0 < w_m p) (ho : p.Omega_m ≠ 0) :
    Xm.EH.alpha_gamma p = fin (alpha_gamma p) := by
  have h1 : 0 < 431 * w_m p := by positivity
  have h2 : 0 < 22.3 * w_m p := by positivity
  unfold Xm.EH.alpha_gamma alpha_gamma
  simp only [xm_w_b, xm_w_m, lit_sci, lit_nat, lit_one, mul_fin, log_fin h1, log_fin h2,
    div_fin _ hm.ne', div_fin _ ho, npow_fin, sub_fin, add_fin]
theorem xm_gamma_eff (h : p.Baryonic) (k : ℝ) : Xm.EH.gamma_eff p (fin k) = fin (gamma_eff p k) := by
  have h1 : 1 + (0.43 * k * sh_d p) ^ 4 ≠ 0 := by
    have : 0 ≤ (0.43 * k * sh_d p) ^ 4 := by positivity
    positivity
  unfold Xm.EH.gamma_eff gamma_eff
  simp only [xm_alpha_gamma (wm_pos h) (om_pos h).ne', xm_sh_d h, lit_sci, lit_one, mul_fin, npow_fin,
    add_fin, sub_fin, div_fin _ h1]

theorem xm_nowiggle (h : p.Baryonic) {k : ℝ} (hk : 0 ≤ k) (hΓ : 0 < gamma_eff p k) :
    Xm.EH.nowiggle p (fin k) = fin (nowiggle p k) := by
  have h27 : (2.7 : ℝ) ≠ 0 := by norm_num
  set q := k * (const_tcmb / 2.7) ^ 2 / gamma_eff p k with hq
  have hq0 : 0 ≤ q := by rw [hq]; positivity
  have he := Real.exp_pos 1
  have h1 : 0 < 2 * Real.exp 1 + 1.8 * q := by positivity
  have h2 : 1 + 62.5 * q ≠ 0 := by positivity
  have hL := log_two_e hq0
  have h3 : Real.log (2 * Real.exp 1 + 1.8 * q) + (14.2 + 731 / (1 + 62.5 * q)) * q * q ≠ 0 := by
    positivity
  unfold Xm.EH.nowiggle nowiggle
  simp only [xm_gamma_eff h, lit_sci, lit_nat, lit_one, div_fin _ h27, npow_fin, mul_fin,
    div_fin _ hΓ.ne', exp_fin, add_fin, ← hq, log_fin h1, div_fin _ h2, div_fin _ h3]

theorem xm_a1 (hm : 0 < w_m p) : Xm.EH.a1 p = fin (a1 p) ∧ 0 < a1 p := by
  have h1 : 0 < 46.9 * w_m p := by positivity
  have h2 : 0 < 32.1 * w_m p := by positivity
  have := Real.rpow_pos_of_pos h1 0.670
  have := Real.rpow_pos_of_pos h2 (-0.532)
  constructor
  · unfold Xm.EH.a1 a1
    simp only [xm_w_m, lit_sci, lit_one, mul_fin, neg_fin, rpow_fin h1, rpow_fin h2, add_fin]
  · unfold a1; positivity
theorem xm_a2 (hm : 0 < w_m p) : Xm.EH.a2 p = fin (a2 p) ∧ 0 < a2 p := by
  have h1 : 0 < 12.0 * w_m p := by positivity
  have h2 : 0 < 45.0 * w_m p := by positivity
  have := Real.rpow_pos_of_pos h1 0.424
  have := Real.rpow_pos_of_pos h2 (-0.582)
  constructor
  · unfold Xm.EH.a2 a2
    simp only [xm_w_m, lit_sci, lit_one, mul_fin, neg_fin, rpow_fin h1, rpow_fin h2, add_fin]
  · unfold a2; positivity
theorem xm_alpha_c (h : p.Baryonic) : Xm.EH.alpha_c p = fin (alpha_c p) := by
  have hm := wm_pos h
  unfold Xm.EH.alpha_c alpha_c
  simp only [(xm_a1 hm).1, (xm_a2 hm).1, xm_fb (om_pos h).ne', npow_fin, neg_fin,
    rpow_fin (xm_a1 hm).2, rpow_fin (xm_a2 hm).2, mul_fin]
theorem fc_pos (h : p.Baryonic) : 0 < fc p :=
  div_pos (by unfold Params.Omega_m; linarith [h.c_pos]) (om_pos h)
theorem xm_beta_c (h : p.Baryonic) : Xm.EH.beta_c p = fin (beta_c p) := by
  have hm := wm_pos h
  have h1 : 0 < 458 * w_m p := by positivity
  have h2 : 0 < 0.395 * w_m p := by positivity
  have h3 := Real.rpow_pos_of_pos h1 (-0.708)
  have h4 : 1 + (458 * w_m p) ^ (-0.708 : ℝ) ≠ 0 := by positivity
  have hb1 : Xm.EH.bc1 p = fin (bc1 p) := by
    unfold Xm.EH.bc1 bc1
    simp only [xm_w_m, lit_sci, lit_nat, lit_one, mul_fin, neg_fin, rpow_fin h1, add_fin, div_fin _ h4]
  have hb2 : Xm.EH.bc2 p = fin (bc2 p) := by
    unfold Xm.EH.bc2 bc2
    simp only [xm_w_m, lit_sci, mul_fin, neg_fin, rpow_fin h2]
  have h5 : 1 + bc1 p * (fc p ^ bc2 p - 1) ≠ 0 := by
    have := betac_pos h
    unfold beta_c at this
    intro h0
    rw [h0] at this
    simp at this
  unfold Xm.EH.beta_c beta_c
  simp only [hb1, hb2, xm_fc (om_pos h).ne', rpow_fin (fc_pos h), lit_one, sub_fin, mul_fin, add_fin,
    div_fin _ h5]

theorem xm_T_tilde (h : p.Baryonic) {k α β : ℝ} (hk : 0 ≤ k) (hα : 0 < α) (hβ : 0 < β) :
    Xm.EH.T_tilde p (fin k) (fin α) (fin β) = fin (T_tilde p k α β) := by
  have hke := keq_pos h
  have h0 : 13.41 * k_eq p ≠ 0 := by positivity
  set q := k / (13.41 * k_eq p) with hq
  have hq0 : 0 ≤ q := by rw [hq]; positivity
  have he := Real.exp_one_gt_two
  have h1 : 1 < Real.exp 1 + 1.8 * β * q := by
    have : 0 ≤ 1.8 * β * q := by positivity
    linarith
  have hL := Real.log_pos h1
  have hr := Real.rpow_nonneg hq0 1.08
  have h2 : 1 + 69.9 * q ^ (1.08 : ℝ) ≠ 0 := by positivity
  have h3 : Real.log (Real.exp 1 + 1.8 * β * q)
      + (14.2 / α + 386 / (1 + 69.9 * q ^ (1.08 : ℝ))) * q * q ≠ 0 := by positivity
  unfold Xm.EH.T_tilde T_tilde
  simp only [xm_k_eq h.h_pos.ne', lit_sci, lit_nat, lit_one, mul_fin, div_fin _ h0, ← hq, exp_fin,
    add_fin, log_fin (one_pos.trans h1), div_fin _ hα.ne', rpow_fin' hq0 (show (0 : ℝ) < 1.08 by norm_num),
    div_fin _ h2, div_fin _ h3]

theorem xm_Tc (h : p.Baryonic) {k : ℝ} (hk : 0 ≤ k) : Xm.EH.Tc p (fin k) = fin (Tc p k) := by
  have h54 : (5.4 : ℝ) ≠ 0 := by norm_num
  have h1 : 1 + (k * sh_d p / 5.4) ^ 4 ≠ 0 := by
    have : 0 ≤ (k * sh_d p / 5.4) ^ 4 := by positivity
    positivity
  unfold Xm.EH.Tc Tc
  simp only [xm_sh_d h, xm_beta_c h, xm_alpha_c h, lit_one, lit_sci, mul_fin, div_fin _ h54, npow_fin,
    add_fin, div_fin _ h1, xm_T_tilde h hk one_pos (betac_pos h),
    xm_T_tilde h hk (alphac_pos h) (betac_pos h), sub_fin]

theorem xm_G (h : p.Baryonic) : Xm.EH.G p = fin (G p) := by
  have hz := zeq_pos h
  have hd := zd_pos h
  have h1 : 1 + z_d p ≠ 0 := by positivity
  set y := (1 + z_eq p) / (1 + z_d p) with hy
  have hy0 : 0 < y := by rw [hy]; positivity
  have h2 : 0 ≤ 1 + y := by positivity
  have h3 : 1 < √(1 + y) := by rw [Real.lt_sqrt (by norm_num)]; linarith
  have h4 : 0 < √(1 + y) - 1 := by linarith
  have h5 : 0 < (√(1 + y) + 1) / (√(1 + y) - 1) := by positivity
  unfold Xm.EH.G G
  simp only [xm_z_eq, xm_z_d (wm_pos h) (wb_pos h).le, lit_one, lit_nat, add_fin, div_fin _ h1, ← hy,
    sqrt_fin h2, neg_fin, mul_fin, sub_fin, div_fin _ h4.ne', log_fin h5]

theorem xm_alpha_b (h : p.Baryonic) : Xm.EH.alpha_b p = fin (alpha_b p) := by
  have h1 : 0 < 1 + R_d p := by linarith [Rd_pos h]
  unfold Xm.EH.alpha_b alpha_b
  simp only [xm_k_eq h.h_pos.ne', xm_sh_d h, xm_R_d h, xm_G h, lit_one, lit_sci, neg_fin, add_fin,
    rpow_fin h1, mul_fin]

theorem xm_beta_node (hm : 0 < w_m p) : Xm.EH.beta_node p = fin (beta_node p) := by
  unfold Xm.EH.beta_node beta_node
  simp only [xm_w_m, lit_sci, rpow_fin hm, mul_fin]

theorem xm_beta_b (h : p.Baryonic) : Xm.EH.beta_b p = fin (beta_b p) := by
  have h1 : 0 ≤ (17.2 * w_m p) ^ 2 + 1 := by positivity
  unfold Xm.EH.beta_b beta_b
  simp only [xm_fb (om_pos h).ne', xm_w_m, lit_sci, lit_one, lit_nat, mul_fin, sub_fin, add_fin, npow_fin,
    sqrt_fin h1]

theorem xm_Tb (h : p.Baryonic) {k : ℝ} (hk : 0 < k) : Xm.EH.Tb p (fin k) = fin (Tb p k) := by
  have hs := shd_pos h
  have hn := betanode_pos h
  have hb := betab_pos h
  have hsilk := ksilk_pos h
  have h52 : (5.2 : ℝ) ≠ 0 := by norm_num
  have h1 : 1 + (k * sh_d p / 5.2) ^ 2 ≠ 0 := by positivity
  have h2 : k * sh_d p ≠ 0 := by positivity
  have h3 : 1 + (beta_b p / (k * sh_d p)) ^ 3 ≠ 0 := by positivity
  have h4 : 0 < 1 + (beta_node p / (k * sh_d p)) ^ 3 := by positivity
  have h5 := Real.rpow_pos_of_pos h4 (1 / 3)
  have h6 : 0 < k / k_silk p := by positivity
  have h7 : (3 : ℝ) ≠ 0 := by norm_num
  have hts : Xm.EH.tilde_s p (fin k) = fin (tilde_s p k) := by
    unfold Xm.EH.tilde_s tilde_s
    simp only [xm_sh_d h, xm_beta_node (wm_pos h), lit_one, lit_nat, mul_fin, div_fin _ h2, npow_fin,
      add_fin, div_fin _ h7, rpow_fin h4, div_fin _ h5.ne']
  unfold Xm.EH.Tb Tb
  rw [hts]
  simp only [lit_one, xm_T_tilde h hk.le one_pos one_pos, xm_sh_d h, lit_sci, mul_fin, div_fin _ h52,
    npow_fin, add_fin, div_fin _ h1, xm_alpha_b h, xm_beta_b h, div_fin _ h2, div_fin _ h3, xm_k_silk h,
    div_fin _ hsilk.ne', rpow_fin h6, neg_fin, exp_fin, div_fin _ Real.pi_ne_zero, sinc_fin]
  rfl

theorem xm_wiggle (h : p.Baryonic) {k : ℝ} (hk : 0 < k) :
    Xm.EH.wiggle p (fin k) = fin (wiggle p k) := by
  unfold Xm.EH.wiggle wiggle
  rw [xm_fb (om_pos h).ne', xm_fc (om_pos h).ne', xm_Tb h hk, xm_Tc h hk.le, mul_fin, mul_fin, add_fin]

end JaxCosmo
