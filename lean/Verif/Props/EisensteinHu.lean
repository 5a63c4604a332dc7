import Verif.Props.Transfer
import Verif.Spec.EisensteinHu

/-! # C104: the transfer functions are those of Eisenstein & Hu (1998) -/

namespace JaxCosmo
open Spec

/-- The temperature of the microwave background in units of 2.7 K, as the paper writes it. -/
noncomputable def cmbTheta : ℝ := 2.726 / 2.7

namespace EH
variable {p : Params}

theorem cmb_pos : 0 < cmbTheta := by unfold cmbTheta; norm_num

theorem T27_eq : T_2_7_sqr = cmbTheta ^ 2 := by
  unfold T_2_7_sqr const_tcmb cmbTheta; norm_num

theorem zeq_paper : EH98.zEq (w_m p) cmbTheta = z_eq p := by
  rw [EH98.zEq, z_eq, T27_eq]
  have := cmb_pos.ne'
  rw [zpow_neg, ← div_eq_mul_inv]
  norm_cast
  rw [← pow_mul]

theorem keq_paper (hh : p.h ≠ 0) : EH98.kEq (w_m p) cmbTheta = k_eq p * p.h := by
  rw [EH98.kEq, k_eq, T27_eq, div_mul_cancel₀ _ hh, zpow_neg, ← div_eq_mul_inv]
  norm_cast

theorem zd_paper : EH98.zDrag (w_m p) (w_b p) = z_d p := by
  simp only [EH98.zDrag, z_d, zd_b1, zd_b2, mul_div_assoc]

theorem R_paper (z : ℝ) : EH98.R (w_b p) cmbTheta z = 31.5 * w_b p / T_2_7_sqr ^ 2 * (1.0e3 / z) := by
  rw [EH98.R, T27_eq, zpow_neg, inv_div, ← pow_mul, div_eq_mul_inv (31.5 * w_b p)]
  norm_cast
  norm_num

theorem shd_paper (hh : p.h ≠ 0) :
    EH98.soundHorizon (w_m p) (w_b p) cmbTheta = sh_d p / p.h := by
  simp only [EH98.soundHorizon, zd_paper, zeq_paper, R_paper, keq_paper hh]
  rw [← R_d, ← R_eq, sh_d, add_comm (R_d p) (R_eq p)]
  rw [show 2 / (3 * (k_eq p * p.h)) = 2 / (3 * k_eq p) / p.h by rw [div_div, mul_assoc]]
  ring

theorem ksilk_paper (hh : p.h ≠ 0) : EH98.kSilk (w_m p) (w_b p) = k_silk p * p.h := by
  rw [EH98.kSilk, k_silk, div_mul_cancel₀ _ hh]

theorem fb_paper (hh : p.h ≠ 0) : w_b p / w_m p = fb p := by
  rw [w_b, w_m, fb, mul_div_mul_right]
  rw [h2]; positivity

theorem fc_paper (hm : p.Omega_m ≠ 0) : 1 - fb p = fc p := by
  rw [fb, fc]; field_simp

theorem ks_paper (hh : p.h ≠ 0) (k : ℝ) : k * p.h * (sh_d p / p.h) = k * sh_d p := by
  field_simp

theorem q_paper (hh : p.h ≠ 0) (k : ℝ) :
    EH98.q (w_m p) cmbTheta (k * p.h) = k / (13.41 * k_eq p) := by
  rw [EH98.q, keq_paper hh, ← mul_assoc, mul_div_mul_right _ _ hh]

theorem Ttilde_paper (hh : p.h ≠ 0) (k α β : ℝ) :
    EH98.T₀ (EH98.q (w_m p) cmbTheta (k * p.h)) α β = T_tilde p k α β := by
  simp only [q_paper hh, EH98.T₀, T_tilde, pow_two, mul_assoc]

theorem betaC_paper (hm : p.Omega_m ≠ 0) : EH98.betaC (w_m p) (fb p) = beta_c p := by
  simp only [EH98.betaC, beta_c, bc1, bc2, fc_paper hm, one_mul, div_eq_mul_inv]

theorem alphaC_paper : EH98.alphaC (w_m p) (fb p) = alpha_c p := rfl

theorem Tc_paper (hh : p.h ≠ 0) (hm : p.Omega_m ≠ 0) (k : ℝ) :
    EH98.Tc (w_m p) (w_b p) cmbTheta (k * p.h) = Tc p k := by
  simp only [EH98.Tc, Tc, shd_paper hh, ks_paper hh, fb_paper hh, Ttilde_paper hh, betaC_paper hm,
    alphaC_paper]

theorem alphaB_paper (hh : p.h ≠ 0) : EH98.alphaB (w_m p) (w_b p) cmbTheta = alpha_b p := by
  simp only [EH98.alphaB, alpha_b, EH98.G, G, shd_paper hh, keq_paper hh, zd_paper, zeq_paper, R_paper]
  rw [← R_d, show (-3 / 4 : ℝ) = -0.75 by norm_num]
  field_simp

theorem Tb_paper (hh : p.h ≠ 0) (k : ℝ) :
    EH98.Tb (w_m p) (w_b p) cmbTheta (k * p.h) = Tb p k := by
  have e1 : k * p.h * EH98.sTilde (w_m p) (w_b p) cmbTheta (k * p.h)
      = Real.pi * (k * tilde_s p k / Real.pi) := by
    simp only [EH98.sTilde, tilde_s, beta_node, shd_paper hh, ks_paper hh]
    rw [mul_div_cancel₀ _ Real.pi_ne_zero]
    field_simp
  simp only [EH98.Tb, Tb, e1, npSinc_eq, shd_paper hh, ks_paper hh, fb_paper hh, Ttilde_paper hh,
    alphaB_paper hh, ksilk_paper hh, mul_div_mul_right _ _ hh]
  rfl

end EH

open EH

/-- C104: the default transfer function is formula (16) of the paper at the physical wavenumber
`k h` in `Mpc⁻¹`. -/
theorem C104_oscillating (p : Params) (hh : p.h ≠ 0) (hm : p.Omega_m ≠ 0) (k : ℝ) :
    Eisenstein_Hu p k = .ok
      (EH98.T (p.Omega_m * p.h ^ 2) (p.Omega_b * p.h ^ 2) cmbTheta (k * p.h)) := by
  have e : EH98.T (w_m p) (w_b p) cmbTheta (k * p.h) = wiggle p k := by
    simp only [EH98.T, wiggle, fb_paper hh, fc_paper hm, Tb_paper hh, Tc_paper hh hm]
  simp only [Eisenstein_Hu, ← e]
  rfl

/-- C104: the transfer function without oscillations is formula (29) of the paper with the effective
shape (30); the sound horizon is that of (6), not its approximation (26). -/
theorem C104_smooth (p : Params) (hh : p.h ≠ 0) (k : ℝ) :
    Eisenstein_Hu p k "eisenhu" = .ok
      (EH98.Tsmooth (p.Omega_m * p.h ^ 2) (p.Omega_b / p.Omega_m) cmbTheta
        (EH98.soundHorizon (p.Omega_m * p.h ^ 2) (p.Omega_b * p.h ^ 2) cmbTheta) (k * p.h)) := by
  have ea : EH98.alphaGamma (w_m p) (fb p) = alpha_gamma p := by
    rw [EH98.alphaGamma, alpha_gamma, mul_div_assoc _ (w_b p), fb_paper hh, fb]
  have eg : EH98.shape (w_m p) (fb p) (sh_d p / p.h) (k * p.h) = gamma_eff p k * p.h := by
    rw [EH98.shape, gamma_eff, ea, mul_assoc 0.43, ks_paper hh, ← mul_assoc 0.43, w_m, h2]
    ring
  have e : EH98.Tsmooth (w_m p) (fb p) cmbTheta (EH98.soundHorizon (w_m p) (w_b p) cmbTheta) (k * p.h)
      = nowiggle p k := by
    have eq : k * p.h * cmbTheta ^ 2 / (gamma_eff p k * p.h)
        = k * (const_tcmb / 2.7) ^ 2 / gamma_eff p k := by
      rw [show (const_tcmb / 2.7) ^ 2 = cmbTheta ^ 2 from T27_eq, mul_right_comm, mul_div_mul_right _ _ hh]
    simp only [EH98.Tsmooth, nowiggle, shd_paper hh, eg, eq]
    rw [mul_assoc _ (k * (const_tcmb / 2.7) ^ 2 / gamma_eff p k), ← pow_two]
  simp only [Eisenstein_Hu, if_true, ← e]
  rfl

/-- The Planck 2015 cosmology at `k = 0.1 h/Mpc`: the paper's formula at `0.06774 Mpc⁻¹`. -/
example : Eisenstein_Hu Planck15 0.1 = .ok
    (EH98.T (0.3075 * 0.6774 ^ 2) (0.0486 * 0.6774 ^ 2) cmbTheta 0.06774) := by
  rw [C104_oscillating Planck15 (by norm_num [Planck15]) (by norm_num [Planck15, Params.Omega_m])]
  norm_num [Planck15, Params.Omega_m]

end JaxCosmo
