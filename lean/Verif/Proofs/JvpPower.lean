import Verif.Proofs.JvpBackground
import Verif.Proofs.XrPower
import Verif.Model.DualPower

/-! # Differentiating `transfer.py` -/

namespace JaxCosmo.Spec
open Xr EH

/-- Follows the structure of an expression, leaving the side conditions. -/
macro "jvp" : tactic => `(tactic| repeat' (with_reducible first
  | assumption
  | exact Jvp.one _
  | exact Jvp.zero _
  | exact Jvp.nat _ _
  | exact Jvp.sci _ _ _ _
  | exact Jvp.con _ _
  | apply Jvp.add
  | apply Jvp.sub
  | apply Jvp.mul
  | apply Jvp.div
  | apply Jvp.neg
  | apply Jvp.npow
  | apply Jvp.rpow
  | apply Jvp.exp
  | apply Jvp.log
  | apply Jvp.sqrt
  | apply Jvp.sin
  | apply Jvp.cos))

variable {P : ℝ → Params} {s : ℝ} {D : DParams} {A : ℝ → ℝ} {a : Du}

theorem jvp_T27 : Jvp (fun _ => T_2_7_sqr) s Dm.EH.T_2_7_sqr := by
  unfold T_2_7_sqr Dm.EH.T_2_7_sqr
  jvp
  norm_num

theorem jvp_w_m (h : Seeded P s D) : Jvp (fun r => w_m (P r)) s (Dm.EH.w_m D) :=
  h.Omega_m.mul (h.h.npow 2)
theorem jvp_w_b (h : Seeded P s D) : Jvp (fun r => w_b (P r)) s (Dm.EH.w_b D) :=
  h.Omega_b.mul (h.h.npow 2)
theorem jvp_fb (h : Seeded P s D) (hb : (P s).Baryonic) : Jvp (fun r => fb (P r)) s (Dm.EH.fb D) :=
  h.Omega_b.div h.Omega_m (om_pos hb).ne'
theorem jvp_fc (h : Seeded P s D) (hb : (P s).Baryonic) : Jvp (fun r => fc (P r)) s (Dm.EH.fc D) :=
  (h.Omega_m.sub h.Omega_b).div h.Omega_m (om_pos hb).ne'
theorem jvp_k_eq (h : Seeded P s D) (hb : (P s).Baryonic) :
    Jvp (fun r => k_eq (P r)) s (Dm.EH.k_eq D) := by
  have h1 := jvp_w_m h
  have h2 := jvp_T27 (s := s)
  have h3 := h.h
  unfold k_eq Dm.EH.k_eq
  jvp
  · exact T27_pos.ne'
  · exact hb.h_pos.ne'
theorem jvp_z_eq (h : Seeded P s D) : Jvp (fun r => z_eq (P r)) s (Dm.EH.z_eq D) := by
  have h1 := jvp_w_m h
  have h2 := jvp_T27 (s := s)
  unfold z_eq Dm.EH.z_eq
  jvp
  exact pow_ne_zero 2 T27_pos.ne'
theorem jvp_z_d (h : Seeded P s D) (hb : (P s).Baryonic) :
    Jvp (fun r => z_d (P r)) s (Dm.EH.z_d D) := by
  have h1 := jvp_w_m h
  have h2 := jvp_w_b h
  have hm := wm_pos hb
  have := Real.rpow_pos_of_pos hm (0.828 : ℝ)
  unfold z_d Dm.EH.z_d zd_b1 Dm.EH.zd_b1 zd_b2 Dm.EH.zd_b2
  jvp
  all_goals first | exact hm | exact wb_pos hb | positivity
theorem jvp_R_d (h : Seeded P s D) (hb : (P s).Baryonic) :
    Jvp (fun r => R_d (P r)) s (Dm.EH.R_d D) := by
  have h1 := jvp_w_b h
  have h2 := jvp_T27 (s := s)
  have h3 := jvp_z_d h hb
  unfold R_d Dm.EH.R_d
  jvp
  · exact pow_ne_zero 2 T27_pos.ne'
  · exact (zd_pos hb).ne'
theorem jvp_R_eq (h : Seeded P s D) (hb : (P s).Baryonic) :
    Jvp (fun r => R_eq (P r)) s (Dm.EH.R_eq D) := by
  have h1 := jvp_w_b h
  have h2 := jvp_T27 (s := s)
  have h3 := jvp_z_eq h
  unfold R_eq Dm.EH.R_eq
  jvp
  · exact pow_ne_zero 2 T27_pos.ne'
  · exact (zeq_pos hb).ne'
theorem jvp_sh_d (h : Seeded P s D) (hb : (P s).Baryonic) :
    Jvp (fun r => sh_d (P r)) s (Dm.EH.sh_d D) := by
  have h1 := jvp_k_eq h hb
  have h2 := jvp_R_d h hb
  have h3 := jvp_R_eq h hb
  have hk := keq_pos hb
  have hR := Req_pos hb
  have hd := Rd_pos hb
  unfold sh_d Dm.EH.sh_d
  jvp
  all_goals positivity
theorem jvp_k_silk (h : Seeded P s D) (hb : (P s).Baryonic) :
    Jvp (fun r => k_silk (P r)) s (Dm.EH.k_silk D) := by
  have h1 := jvp_w_m h
  have h2 := jvp_w_b h
  have h3 := h.h
  have hm := wm_pos hb
  have := wb_pos hb
  have := hb.h_pos
  unfold k_silk Dm.EH.k_silk
  jvp
  all_goals positivity
theorem jvp_alpha_gamma (h : Seeded P s D) (hb : (P s).Baryonic) :
    Jvp (fun r => alpha_gamma (P r)) s (Dm.EH.alpha_gamma D) := by
  have h1 := jvp_w_m h
  have h2 := jvp_w_b h
  have h3 := h.Omega_b
  have h4 := h.Omega_m
  have hm := wm_pos hb
  have := om_pos hb
  unfold alpha_gamma Dm.EH.alpha_gamma
  jvp
  all_goals positivity
theorem jvp_gamma_eff (h : Seeded P s D) (hb : (P s).Baryonic) (ha : Jvp A s a) :
    Jvp (fun r => gamma_eff (P r) (A r)) s (Dm.EH.gamma_eff D a) := by
  have h1 := jvp_alpha_gamma h hb
  have h2 := jvp_sh_d h hb
  have h3 := h.h
  have h4 := h.Omega_m
  unfold gamma_eff Dm.EH.gamma_eff
  jvp
  have : 0 ≤ (0.43 * A s * sh_d (P s)) ^ 4 := by positivity
  positivity

theorem jvp_nowiggle (h : Seeded P s D) (hb : (P s).Baryonic) (ha : Jvp A s a) (h0 : 0 ≤ A s)
    (hΓ : 0 < gamma_eff (P s) (A s)) :
    Jvp (fun r => nowiggle (P r) (A r)) s (Dm.EH.nowiggle D a) := by
  have h1 := jvp_gamma_eff h hb ha
  have hq : Jvp (fun r => A r * (const_tcmb / 2.7) ^ 2 / gamma_eff (P r) (A r)) s
      (a * (Du.con const_tcmb / 2.7) ^ 2 / Dm.EH.gamma_eff D a) := by
    jvp
    · norm_num
    · exact hΓ.ne'
  have hq0 : 0 ≤ A s * (const_tcmb / 2.7) ^ 2 / gamma_eff (P s) (A s) := by positivity
  unfold nowiggle Dm.EH.nowiggle
  simp only
  generalize (a * (Du.con const_tcmb / 2.7) ^ 2 / Dm.EH.gamma_eff D a) = qD at *
  generalize hQ : (fun r => A r * (const_tcmb / 2.7) ^ 2 / gamma_eff (P r) (A r)) = q at *
  have hQ' : ∀ r, A r * (const_tcmb / 2.7) ^ 2 / gamma_eff (P r) (A r) = q r := fun r => congrFun hQ r
  simp only [hQ'] at *
  have he := Real.exp_pos 1
  have hL := log_two_e hq0
  jvp
  all_goals positivity

theorem jvp_a1 (h : Seeded P s D) (hb : (P s).Baryonic) : Jvp (fun r => a1 (P r)) s (Dm.EH.a1 D) := by
  have h1 := jvp_w_m h
  have hm := wm_pos hb
  unfold a1 Dm.EH.a1
  jvp
  all_goals positivity
theorem jvp_a2 (h : Seeded P s D) (hb : (P s).Baryonic) : Jvp (fun r => a2 (P r)) s (Dm.EH.a2 D) := by
  have h1 := jvp_w_m h
  have hm := wm_pos hb
  unfold a2 Dm.EH.a2
  jvp
  all_goals positivity
theorem jvp_alpha_c (h : Seeded P s D) (hb : (P s).Baryonic) :
    Jvp (fun r => alpha_c (P r)) s (Dm.EH.alpha_c D) := by
  have h1 := jvp_a1 h hb
  have h2 := jvp_a2 h hb
  have h3 := jvp_fb h hb
  unfold alpha_c Dm.EH.alpha_c
  jvp
  · exact (xm_a1 (wm_pos hb)).2
  · exact (xm_a2 (wm_pos hb)).2
theorem jvp_beta_c (h : Seeded P s D) (hb : (P s).Baryonic) :
    Jvp (fun r => beta_c (P r)) s (Dm.EH.beta_c D) := by
  have h1 := jvp_w_m h
  have h2 := jvp_fc h hb
  have hm := wm_pos hb
  have hb1 : Jvp (fun r => bc1 (P r)) s (Dm.EH.bc1 D) := by
    have := Real.rpow_pos_of_pos (show 0 < 458 * w_m (P s) by positivity) (-0.708)
    unfold bc1 Dm.EH.bc1
    jvp
    all_goals positivity
  have hb2 : Jvp (fun r => bc2 (P r)) s (Dm.EH.bc2 D) := by
    unfold bc2 Dm.EH.bc2
    jvp
    positivity
  have h5 : 1 + bc1 (P s) * (fc (P s) ^ bc2 (P s) - 1) ≠ 0 := by
    have := betac_pos hb
    unfold beta_c at this
    intro h0
    rw [h0] at this
    simp at this
  unfold beta_c Dm.EH.beta_c
  jvp
  exact fc_pos hb

theorem jvp_T_tilde (h : Seeded P s D) (hb : (P s).Baryonic) {α β : ℝ → ℝ} {αD βD : Du}
    (ha : Jvp A s a) (hα : Jvp α s αD) (hβ : Jvp β s βD) (h0 : 0 < A s) (hα0 : 0 < α s) (hβ0 : 0 < β s) :
    Jvp (fun r => T_tilde (P r) (A r) (α r) (β r)) s (Dm.EH.T_tilde D a αD βD) := by
  have hk := jvp_k_eq h hb
  have hke := keq_pos hb
  have hq : Jvp (fun r => A r / (13.41 * k_eq (P r))) s (a / (13.41 * Dm.EH.k_eq D)) := by
    jvp
    positivity
  have hq0 : 0 < A s / (13.41 * k_eq (P s)) := by positivity
  unfold T_tilde Dm.EH.T_tilde
  simp only
  generalize (a / (13.41 * Dm.EH.k_eq D)) = qD at *
  generalize hQ : (fun r => A r / (13.41 * k_eq (P r))) = q at *
  have hQ' : ∀ r, A r / (13.41 * k_eq (P r)) = q r := fun r => congrFun hQ r
  simp only [hQ'] at *
  have he := Real.exp_one_gt_two
  have h1 : 1 < Real.exp 1 + 1.8 * β s * q s := by
    have : 0 ≤ 1.8 * β s * q s := by positivity
    linarith
  have hL := Real.log_pos h1
  jvp
  all_goals positivity

theorem jvp_Tc (h : Seeded P s D) (hb : (P s).Baryonic) (ha : Jvp A s a) (h0 : 0 < A s) :
    Jvp (fun r => Tc (P r) (A r)) s (Dm.EH.Tc D a) := by
  have hs := jvp_sh_d h hb
  have t1 := jvp_T_tilde h hb ha (Jvp.one s) (jvp_beta_c h hb) h0 one_pos (betac_pos hb)
  have t2 := jvp_T_tilde h hb ha (jvp_alpha_c h hb) (jvp_beta_c h hb) h0 (alphac_pos hb) (betac_pos hb)
  have h54 : (5.4 : ℝ) ≠ 0 := by norm_num
  have h1 : 1 + (A s * sh_d (P s) / 5.4) ^ 4 ≠ 0 := by
    have : 0 ≤ (A s * sh_d (P s) / 5.4) ^ 4 := by positivity
    positivity
  unfold Tc Dm.EH.Tc
  jvp

theorem jvp_G (h : Seeded P s D) (hb : (P s).Baryonic) : Jvp (fun r => G (P r)) s (Dm.EH.G D) := by
  have h1 := jvp_z_eq h
  have h2 := jvp_z_d h hb
  have hz := zeq_pos hb
  have hd := zd_pos hb
  have hy0 : 0 < (1 + z_eq (P s)) / (1 + z_d (P s)) := by positivity
  have h3 : 1 < √(1 + (1 + z_eq (P s)) / (1 + z_d (P s))) := by
    rw [Real.lt_sqrt (by norm_num)]; linarith
  have h4 : 0 < √(1 + (1 + z_eq (P s)) / (1 + z_d (P s))) - 1 := by linarith
  unfold G Dm.EH.G
  jvp
  all_goals positivity

theorem jvp_alpha_b (h : Seeded P s D) (hb : (P s).Baryonic) :
    Jvp (fun r => alpha_b (P r)) s (Dm.EH.alpha_b D) := by
  have h1 := jvp_k_eq h hb
  have h2 := jvp_sh_d h hb
  have h3 := jvp_R_d h hb
  have h4 := jvp_G h hb
  unfold alpha_b Dm.EH.alpha_b
  jvp
  linarith [Rd_pos hb]

theorem jvp_beta_b (h : Seeded P s D) (hb : (P s).Baryonic) :
    Jvp (fun r => beta_b (P r)) s (Dm.EH.beta_b D) := by
  have h1 := jvp_fb h hb
  have h2 := jvp_w_m h
  unfold beta_b Dm.EH.beta_b
  jvp
  positivity

theorem jvp_tilde_s (h : Seeded P s D) (hb : (P s).Baryonic) (ha : Jvp A s a) (h0 : 0 < A s) :
    Jvp (fun r => tilde_s (P r) (A r)) s (Dm.EH.tilde_s D a) := by
  have h1 := jvp_sh_d h hb
  have h2 : Jvp (fun r => beta_node (P r)) s (Dm.EH.beta_node D) := by
    have := jvp_w_m h
    unfold beta_node Dm.EH.beta_node
    jvp
    exact wm_pos hb
  have hs := shd_pos hb
  have hn := betanode_pos hb
  unfold tilde_s Dm.EH.tilde_s
  jvp
  all_goals positivity

theorem jvp_Tb (h : Seeded P s D) (hb : (P s).Baryonic) (ha : Jvp A s a) (h0 : 0 < A s) :
    Jvp (fun r => Tb (P r) (A r)) s (Dm.EH.Tb D a) := by
  have h1 := jvp_sh_d h hb
  have h2 := jvp_tilde_s h hb ha h0
  have h3 := jvp_T_tilde h hb ha (Jvp.one s) (Jvp.one s) h0 one_pos one_pos
  have h4 := jvp_alpha_b h hb
  have h5 := jvp_beta_b h hb
  have h6 := jvp_k_silk h hb
  have hs := shd_pos hb
  have hn := betanode_pos hb
  have hbb := betab_pos hb
  have hsilk := ksilk_pos hb
  have hts : 0 < tilde_s (P s) (A s) := by
    unfold tilde_s
    positivity
  have hsinc : Jvp (fun r => npSinc (A r * tilde_s (P r) (A r) / Real.pi)) s
      (a * Dm.EH.tilde_s D a / Du.con Real.pi).sinc := by
    have : Jvp (fun r => A r * tilde_s (P r) (A r) / Real.pi) s
        (a * Dm.EH.tilde_s D a / Du.con Real.pi) := by
      jvp
      exact Real.pi_ne_zero
    exact this.sinc (by have := Real.pi_pos; positivity)
  unfold Tb Dm.EH.Tb
  jvp
  all_goals positivity

theorem jvp_wiggle (h : Seeded P s D) (hb : (P s).Baryonic) (ha : Jvp A s a) (h0 : 0 < A s) :
    Jvp (fun r => wiggle (P r) (A r)) s (Dm.EH.wiggle D a) :=
  ((jvp_fb h hb).mul (jvp_Tb h hb ha h0)).add ((jvp_fc h hb).mul (jvp_Tc h hb ha h0))

end JaxCosmo.Spec
