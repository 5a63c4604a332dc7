import Verif.Props.PowerShape
import Verif.Proofs.XrPower
import Verif.Props.Power
import Mathlib.Analysis.Real.Pi.Bounds

/-! # C113: the oscillating transfer function is positive above the sound horizon -/

namespace JaxCosmo
open EH

/-- The suppression function `G` of the baryons is positive. -/
theorem EH_G_pos {p : Params} (h : p.Baryonic) : 0 < G p := by
  have hz := zeq_pos h
  have hd := zd_pos h
  have hy : 0 < (1 + z_eq p) / (1 + z_d p) := by positivity
  unfold G
  simp only
  generalize (1 + z_eq p) / (1 + z_d p) = y at hy
  have hx : 1 < √(1 + y) := by rw [Real.lt_sqrt (by norm_num)]; linarith
  have hxy : √(1 + y) ^ 2 = 1 + y := Real.sq_sqrt (by linarith)
  generalize √(1 + y) = x at hx hxy
  have hx0 : 0 < x := by linarith
  have key := Real.sum_range_le_log_div (x := 1 / x) (by positivity) (by rw [div_lt_one hx0]; exact hx) 3
  have e : (1 + 1 / x) / (1 - 1 / x) = (x + 1) / (x - 1) := by
    have : x - 1 ≠ 0 := by linarith
    field_simp
  rw [e] at key
  simp only [Finset.sum_range_succ, Finset.sum_range_zero] at key
  generalize Real.log ((x + 1) / (x - 1)) = L at key
  refine mul_pos hy ?_
  have hyx : 2 + 3 * y = 3 * x ^ 2 - 1 := by linarith
  rw [hyx]
  have hL : 2 * (1 / x + (1 / x) ^ 3 / 3 + (1 / x) ^ 5 / 5) ≤ L := by
    norm_num at key ⊢
    linarith
  have h1 : 0 < 3 * x ^ 2 - 1 := by nlinarith
  have h2 : (3 * x ^ 2 - 1) * (2 * (1 / x + (1 / x) ^ 3 / 3 + (1 / x) ^ 5 / 5)) ≤ (3 * x ^ 2 - 1) * L :=
    mul_le_mul_of_nonneg_left hL h1.le
  have h3 : (3 * x ^ 2 - 1) * (2 * (1 / x + (1 / x) ^ 3 / 3 + (1 / x) ^ 5 / 5)) - 6 * x
      = (8 * x ^ 2 - 6) / (15 * x ^ 5) := by
    field_simp
    ring
  have h4 : 0 < (8 * x ^ 2 - 6) / (15 * x ^ 5) := div_pos (by nlinarith) (by positivity)
  linarith

theorem alphab_pos {p : Params} (h : p.Baryonic) : 0 < alpha_b p := by
  have := keq_pos h
  have := shd_pos h
  have := Real.rpow_pos_of_pos (show 0 < 1 + R_d p by linarith [Rd_pos h]) (-0.75)
  have := EH_G_pos h
  unfold alpha_b
  positivity

theorem T_tilde_pos {p : Params} (h : p.Baryonic) {k α β : ℝ} (hk : 0 ≤ k) (hα : 0 < α) (hβ : 0 < β) :
    0 < T_tilde p k α β := by
  have hke := keq_pos h
  unfold T_tilde
  simp only
  have hq : 0 ≤ k / (13.41 * k_eq p) := by positivity
  generalize k / (13.41 * k_eq p) = q at hq
  have h1 : 1 < Real.exp 1 + 1.8 * β * q := by
    have := Real.exp_one_gt_two
    have : 0 ≤ 1.8 * β * q := by positivity
    linarith
  have := Real.log_pos h1
  have := Real.rpow_nonneg hq 1.08
  positivity

/-- C113: the cold dark matter part is positive at every wavenumber. -/
theorem C113_dark_matter {p : Params} (h : p.Baryonic) {k : ℝ} (hk : 0 ≤ k) : 0 < Tc p k := by
  have h1 := T_tilde_pos h hk one_pos (betac_pos h)
  have h2 := T_tilde_pos h hk (alphac_pos h) (betac_pos h)
  have hu : 0 ≤ (k * sh_d p / 5.4) ^ 4 := by positivity
  unfold Tc
  simp only
  generalize (k * sh_d p / 5.4) ^ 4 = u at hu
  have h3 : 0 < 1 / (1 + u) := by positivity
  have h4 : 0 ≤ 1 - 1 / (1 + u) := by
    rw [sub_nonneg, div_le_one (by positivity)]
    linarith
  positivity

/-- C113: at wavenumbers up to `π` over the sound horizon, before the first zero crossing of the
acoustic oscillation, the baryon part and the whole transfer function are positive. -/
theorem C113_positive {p : Params} (h : p.Baryonic) {k : ℝ} (hk : 0 < k) (hks : k * sh_d p ≤ Real.pi) :
    0 < Tb p k ∧ 0 < wiggle p k := by
  have hs := shd_pos h
  have hn := betanode_pos h
  have hb := betab_pos h
  have ha := alphab_pos h
  have hT := T_tilde_pos h hk.le one_pos one_pos
  have hr : 1 < (1 + (beta_node p / (k * sh_d p)) ^ 3) ^ (1 / 3 : ℝ) := by
    refine Real.one_lt_rpow ?_ (by norm_num)
    have : 0 < (beta_node p / (k * sh_d p)) ^ 3 := by positivity
    linarith
  have hts0 : 0 < tilde_s p k := by unfold tilde_s; positivity
  have hts : tilde_s p k < sh_d p := div_lt_self hs hr
  have hsinc : 0 < npSinc (k * tilde_s p k / Real.pi) := by
    have hx : 0 < k * tilde_s p k / Real.pi := by positivity
    have e : Real.pi * (k * tilde_s p k / Real.pi) = k * tilde_s p k := by field_simp
    unfold npSinc
    rw [if_neg hx.ne', e]
    have h1 : 0 < k * tilde_s p k := by positivity
    have h2 : k * tilde_s p k < Real.pi := (mul_lt_mul_of_pos_left hts hk).trans_le hks
    exact div_pos (Real.sin_pos_of_pos_of_lt_pi h1 h2) h1
  have hTb : 0 < Tb p k := by
    unfold Tb
    positivity
  refine ⟨hTb, ?_⟩
  have h1 : 0 < fb p := div_pos h.b_pos (om_pos h)
  have h2 := fc_pos h
  have h3 := C113_dark_matter h hk.le
  unfold wiggle
  positivity

/-- The sound horizon of the Planck 2015 cosmology is below 168 Mpc/h. -/
theorem planck_shd : sh_d Planck15 < 168 := by
  have h := planck_baryonic
  have w0 := wm_pos h
  have ew1 : 0.1411 ≤ w_m Planck15 := by norm_num [w_m, h2, Planck15, Params.Omega_m]
  have ew2 : w_m Planck15 ≤ 0.1412 := by norm_num [w_m, h2, Planck15, Params.Omega_m]
  have hk : 0.01524 ≤ k_eq Planck15 := by
    norm_num [k_eq, w_m, h2, Planck15, Params.Omega_m, T_2_7_sqr, const_tcmb]
  have hR : 0.199 ≤ R_eq Planck15 ∧ R_eq Planck15 ≤ 0.2 := by
    constructor <;>
      norm_num [R_eq, z_eq, w_b, w_m, h2, Planck15, Params.Omega_m, T_2_7_sqr, const_tcmb]
  have hb1 : 0 ≤ zd_b1 Planck15 * w_b Planck15 ^ zd_b2 Planck15 := by
    have hb := wb_pos h
    unfold zd_b1
    positivity
  have hz : 530 ≤ z_d Planck15 := by
    have h1 : 0.52 ≤ w_m Planck15 ^ (0.251 : ℝ) := by
      calc (0.52 : ℝ) = (0.52 ^ (3 : ℝ)) ^ (1 / 3 : ℝ) := by
            rw [← Real.rpow_mul (by norm_num)]; norm_num
        _ ≤ w_m Planck15 ^ (1 / 3 : ℝ) := by
            refine Real.rpow_le_rpow (by positivity) (le_trans ?_ ew1) (by norm_num)
            norm_num
        _ ≤ _ := Real.rpow_le_rpow_of_exponent_ge w0 (by linarith) (by norm_num)
    have h2 : w_m Planck15 ^ (0.828 : ℝ) ≤ 0.38 := by
      calc w_m Planck15 ^ (0.828 : ℝ) ≤ w_m Planck15 ^ (1 / 2 : ℝ) :=
            Real.rpow_le_rpow_of_exponent_ge w0 (by linarith) (by norm_num)
        _ = √(w_m Planck15) := (Real.sqrt_eq_rpow _).symm
        _ ≤ 0.38 := Real.sqrt_le_iff.mpr ⟨by norm_num, by norm_num; linarith⟩
    have h3 : 0 < w_m Planck15 ^ (0.828 : ℝ) := Real.rpow_pos_of_pos w0 _
    unfold z_d
    generalize w_m Planck15 ^ (0.251 : ℝ) = u at h1
    generalize w_m Planck15 ^ (0.828 : ℝ) = v at h2 h3
    generalize zd_b1 Planck15 * w_b Planck15 ^ zd_b2 Planck15 = t at hb1
    have h4 : 530 ≤ 1291 * u / (1 + 0.659 * v) := by
      rw [le_div_iff₀ (by positivity)]
      linarith
    nlinarith
  have hRd : R_d Planck15 ≤ 1.3 := by
    have e : R_d Planck15 = 31.5 * w_b Planck15 / T_2_7_sqr ^ 2 * 1.0e3 / z_d Planck15 := by
      unfold R_d; ring
    rw [e, div_le_iff₀ (by linarith)]
    have : 31.5 * w_b Planck15 / T_2_7_sqr ^ 2 * 1.0e3 ≤ 1.3 * 530 := by
      norm_num [w_b, h2, Planck15, T_2_7_sqr, const_tcmb]
    linarith
  have hRd0 := Rd_pos h
  obtain ⟨hR1, hR2⟩ := hR
  unfold sh_d
  generalize k_eq Planck15 = K at *
  generalize R_eq Planck15 = R at *
  generalize R_d Planck15 = D at *
  have s1 : √(1 + D) ≤ 1.52 := Real.sqrt_le_iff.mpr ⟨by norm_num, by norm_num; linarith⟩
  have s2 : √(R + D) ≤ 1.23 := Real.sqrt_le_iff.mpr ⟨by norm_num, by norm_num; linarith⟩
  have s3 : 0.44 ≤ √R := Real.le_sqrt_of_sq_le (by norm_num; linarith)
  have s4 : √(6 / R) ≤ 5.5 := by
    refine Real.sqrt_le_iff.mpr ⟨by norm_num, ?_⟩
    rw [div_le_iff₀ (by linarith)]
    linarith
  have s5 : 2 / (3 * K) ≤ 43.75 := by
    rw [div_le_iff₀ (by linarith)]
    linarith
  have s6 : Real.log ((√(1 + D) + √(R + D)) / (1 + √R)) ≤ 0.6931472 := by
    have : Real.log ((√(1 + D) + √(R + D)) / (1 + √R)) ≤ Real.log 2 := by
      refine Real.log_le_log (by positivity) ?_
      rw [div_le_iff₀ (by positivity)]
      linarith
    have := Real.log_two_lt_d9
    linarith
  have s7 : 2 / (3 * K) * √(6 / R) ≤ 43.75 * 5.5 :=
    mul_le_mul s5 s4 (Real.sqrt_nonneg _) (by norm_num)
  calc 2 / (3 * K) * √(6 / R) * Real.log ((√(1 + D) + √(R + D)) / (1 + √R))
      ≤ 2 / (3 * K) * √(6 / R) * 0.6931472 :=
        mul_le_mul_of_nonneg_left s6 (mul_nonneg (div_nonneg (by norm_num) (by linarith)) (Real.sqrt_nonneg _))
    _ ≤ 43.75 * 5.5 * 0.6931472 := mul_le_mul_of_nonneg_right s7 (by norm_num)
    _ < 168 := by norm_num

/-- C113: for the Planck 2015 cosmology the default transfer function does not vanish at the lower
end of the `sigma8` integral, so the default power spectrum is normalisable. -/
theorem C113_planck : 0 < wiggle Planck15 (Real.exp (-4)) ∧
    0 < sigmasqr Planck15 8 (wiggle Planck15) := by
  have h : 0 < wiggle Planck15 (Real.exp (-4)) := by
    refine (C113_positive planck_baryonic (Real.exp_pos _) ?_).2
    have h1 : Real.exp (-4) ≤ 1 / 54 := by
      rw [Real.exp_neg, ← one_div]
      refine one_div_le_one_div_of_le (by norm_num) ?_
      calc (54 : ℝ) ≤ 2.718 ^ 4 := by norm_num
        _ ≤ Real.exp 1 ^ 4 := by
            have := Real.exp_one_gt_d9
            exact pow_le_pow_left₀ (by norm_num) (by linarith) 4
        _ = Real.exp 4 := by rw [← Real.exp_nat_mul]; norm_num
    have h2 := planck_shd
    have h3 := Real.pi_gt_d2
    have h4 := shd_pos planck_baryonic
    calc Real.exp (-4) * sh_d Planck15 ≤ 1 / 54 * 168 :=
          mul_le_mul h1 h2.le h4.le (by norm_num)
      _ ≤ Real.pi := by norm_num at h3 ⊢; linarith
  exact ⟨h, sigmasqr_pos _ _ h.ne'⟩

example : 0 < Tb Planck15 0.01 ∧ 0 < wiggle Planck15 0.01 :=
  C113_positive planck_baryonic (by norm_num) (by
    have := planck_shd
    have := Real.pi_gt_three
    linarith)

end JaxCosmo
