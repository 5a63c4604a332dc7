import Verif.Proofs.XrPower
import Verif.Props.TransferSign

/-! # C112: transfer functions and linear power are finite numbers -/

namespace JaxCosmo
open Xr EH

/-! ## Transfer functions -/

/-- C112: the oscillating transfer function is finite at every positive wavenumber when there are
baryons, dark matter and a positive Hubble constant. -/
theorem C112_oscillating {p : Params} (h : p.Baryonic) {k : ℝ} (hk : 0 < k) :
    Xm.EH.wiggle p (fin k) = fin (wiggle p k) := xm_wiggle h hk

theorem alpha_gamma_bound {l f : ℝ} (hl : l ≤ Real.log 10) (hf0 : 0 < f) (hf : f ≤ 6 / 7) :
    0 < 1 - 0.328 * (Real.log 431 + l) * f + 0.38 * (Real.log 22.3 + l) * f ^ 2 := by
  have e1 : (2.7 : ℝ) < Real.exp 1 := by have := Real.exp_one_gt_d9; linarith
  have e2 : Real.exp 1 < (2.72 : ℝ) := by have := Real.exp_one_lt_d9; linarith
  have h1 : Real.log 431 + Real.log 10 < 8.5 := by
    rw [← Real.log_mul (by norm_num) (by norm_num), Real.log_lt_iff_lt_exp (by norm_num)]
    have : (2.7 : ℝ) ^ 17 < Real.exp 8.5 ^ 2 := by
      rw [← Real.exp_nat_mul, show ((2 : ℕ) : ℝ) * 8.5 = ((17 : ℕ) : ℝ) * 1 by norm_num,
        Real.exp_nat_mul]
      exact pow_lt_pow_left₀ e1 (by norm_num) (by norm_num)
    refine lt_of_pow_lt_pow_left₀ 2 (Real.exp_pos _).le (lt_trans ?_ this)
    norm_num
  have h2 : 5.2 < Real.log 22.3 + Real.log 10 := by
    rw [← Real.log_mul (by norm_num) (by norm_num), Real.lt_log_iff_exp_lt (by norm_num)]
    have : Real.exp 5.2 ^ 5 < (2.72 : ℝ) ^ 26 := by
      rw [← Real.exp_nat_mul, show ((5 : ℕ) : ℝ) * 5.2 = ((26 : ℕ) : ℝ) * 1 by norm_num,
        Real.exp_nat_mul]
      exact pow_lt_pow_left₀ e2 (Real.exp_pos _).le (by norm_num)
    refine lt_of_pow_lt_pow_left₀ 5 (by norm_num) (lt_trans this ?_)
    norm_num
  have h3 : 0 ≤ (Real.log 10 - l) * (0.328 - 0.38 * f) * f :=
    mul_nonneg (mul_nonneg (by linarith) (by linarith)) hf0.le
  have h4 : 0 ≤ (8.5 - (Real.log 431 + Real.log 10)) * f := mul_nonneg (by linarith) hf0.le
  have h5 : 0 ≤ (Real.log 22.3 + Real.log 10 - 5.2) * f ^ 2 := mul_nonneg (by linarith) (sq_nonneg f)
  nlinarith [sq_nonneg (f - 0.7055)]

/-- The shape parameter of the smooth fit is positive unless almost all matter is baryonic or the
matter density is far above any considered. -/
theorem alpha_gamma_pos {p : Params} (h : p.Baryonic) (hb : p.Omega_b ≤ 6 * p.Omega_c)
    (hw : p.Omega_m * p.h ^ 2 ≤ 10) : 0 < alpha_gamma p := by
  have hm := om_pos h
  have hwm := wm_pos h
  have hf0 : 0 < p.Omega_b / p.Omega_m := div_pos h.b_pos hm
  have hf : p.Omega_b / p.Omega_m ≤ 6 / 7 := by
    rw [div_le_iff₀ hm]
    unfold Params.Omega_m
    linarith
  have hl : Real.log (w_m p) ≤ Real.log 10 := Real.log_le_log hwm hw
  have key := alpha_gamma_bound hl hf0 hf
  have e : w_b p / w_m p = p.Omega_b / p.Omega_m := by
    unfold w_b w_m
    exact mul_div_mul_right _ _ (h2_pos h).ne'
  unfold alpha_gamma
  rw [mul_div_assoc, e, Real.log_mul (by norm_num) hwm.ne', Real.log_mul (by norm_num) hwm.ne']
  exact key

/-- C112: the smooth transfer function is finite at every non-negative wavenumber when moreover the
baryon density is at most six times the dark matter density and `Ω_m h² ≤ 10`. -/
theorem C112_smooth {p : Params} (h : p.Baryonic) (hb : p.Omega_b ≤ 6 * p.Omega_c)
    (hw : p.Omega_m * p.h ^ 2 ≤ 10) {k : ℝ} (hk : 0 ≤ k) :
    Xm.EH.nowiggle p (fin k) = fin (nowiggle p k) :=
  xm_nowiggle h hk (gamma_pos h (alpha_gamma_pos h hb hw).le k)

theorem infSign_pos {x : ℝ} (h : 0 < x) : infSign x = pinf := if_pos h

/-- C112: at zero wavenumber the oscillating transfer function divides by zero and still returns
one, its limit on large scales: the infinities it produces are divided by. -/
theorem C112_zero {p : Params} (h : p.Baryonic) : Xm.EH.wiggle p (fin 0) = fin 1 := by
  have hs := shd_pos h
  have hT : ∀ α β : ℝ, 0 < α → 0 < β → Xm.EH.T_tilde p (fin 0) (fin α) (fin β) = fin 1 := by
    intro α β hα hβ
    rw [xm_T_tilde h le_rfl hα hβ]
    simp [T_tilde]
  have hTc : Xm.EH.Tc p (fin 0) = fin 1 := by
    rw [xm_Tc h le_rfl]
    simp [Tc, T_tilde]
  have hinf : ∀ x : ℝ, 0 < x → (fin 1 + (fin x / (fin 0 * fin (sh_d p))) ^ 3) = pinf := by
    intro x hx
    have e : fin x / (fin 0 * fin (sh_d p)) = pinf := by
      rw [mul_fin, zero_mul]
      exact (if_pos rfl).trans (infSign_pos hx)
    rw [e]
    have : (pinf : Xr) ^ 3 = pinf := by
      change npow pinf 3 = _
      simp only [npow]
      have e1 : fin 1 * pinf = pinf := infSign_pos one_pos
      rw [e1]
      rfl
    rw [this]
    rfl
  have hts : Xm.EH.tilde_s p (fin 0) = fin 0 := by
    unfold Xm.EH.tilde_s
    rw [xm_beta_node (wm_pos h), xm_sh_d h, lit_one, hinf _ (betanode_pos h), lit_nat, div_fin_lit]
    have : pinf.rpow (fin (1 / 3)) = pinf := if_pos (by norm_num)
    rw [this]
    rfl
  have hTb : Xm.EH.Tb p (fin 0) = fin 1 := by
    unfold Xm.EH.Tb
    rw [hts, lit_one, hT 1 1 one_pos one_pos, xm_sh_d h, xm_beta_b h, hinf _ (betab_pos h), xm_alpha_b h,
      xm_k_silk h, div_fin _ (ksilk_pos h).ne']
    have e1 : fin (alpha_b p) / pinf = fin 0 := rfl
    have e2 : (fin (0 / k_silk p)).rpow 1.4 = fin 0 := by
      rw [zero_div, lit_sci]
      have : (0 : ℝ) < 1.4 := by norm_num
      simp [rpow, this]
    rw [e1, e2]
    simp only [mul_fin, neg_fin, exp_fin, add_fin, lit_sci, npow_fin, div_fin _ Real.pi_ne_zero,
      zero_mul, zero_div, sinc_fin, if_true, div_fin _ (show (5.2 : ℝ) ≠ 0 by norm_num)]
    norm_num
    rw [div_fin _ one_ne_zero, div_one, add_fin, mul_fin, add_zero, one_mul]
  unfold Xm.EH.wiggle
  rw [hTb, hTc, xm_fb (om_pos h).ne', xm_fc (om_pos h).ne', mul_fin, mul_fin, add_fin, mul_one, mul_one,
    fb_add_fc h]

/-- C112: baryons are needed.  Without them both transfer functions are NaN at every wavenumber:
the sound horizon is computed as `∞ * log 1`. -/
theorem C112_no_baryons {p : Params} (hb : p.Omega_b = 0) (hc : 0 < p.Omega_c) (hh : 0 < p.h)
    (k : Xr) : Xm.EH.nowiggle p k = nan ∧ Xm.EH.wiggle p k = nan := by
  have hm : 0 < p.Omega_m := by unfold Params.Omega_m; linarith
  have hw : 0 < w_m p := mul_pos hm (pow_pos hh 2)
  have hwb : w_b p = 0 := by unfold w_b; rw [hb, zero_mul]
  have hz : 0 < z_eq p := by have := T27_pos; unfold z_eq; positivity
  have hk : 0 < k_eq p := by have := T27_pos; unfold k_eq; positivity
  have hd : 0 < z_d p := by
    unfold z_d
    rw [hwb, Real.zero_rpow (zd_b2_pos hw).ne']
    have := Real.rpow_pos_of_pos hw 0.251
    have := Real.rpow_pos_of_pos hw 0.828
    simp only [mul_zero, add_zero, mul_one]
    positivity
  have hReq : Xm.EH.R_eq p = fin 0 := by
    unfold Xm.EH.R_eq
    simp only [xm_w_b, xm_T27, xm_z_eq, lit_sci, mul_fin, npow_fin,
      div_fin _ (pow_ne_zero 2 T27_pos.ne'), div_fin _ hz.ne', hwb, mul_zero, zero_div, zero_mul]
  have hRd : Xm.EH.R_d p = fin 0 := by
    unfold Xm.EH.R_d
    simp only [xm_w_b, xm_T27, xm_z_d hw hwb.ge, lit_sci, mul_fin, npow_fin,
      div_fin _ (pow_ne_zero 2 T27_pos.ne'), div_fin _ hd.ne', hwb, mul_zero, zero_div, zero_mul]
  have hsh : Xm.EH.sh_d p = nan := by
    have e1 : (6 / fin 0 : Xr) = pinf := (if_pos rfl).trans (infSign_pos (by norm_num))
    unfold Xm.EH.sh_d
    rw [hReq, hRd, xm_k_eq hh.ne', e1]
    simp only [lit_one, lit_nat, add_fin, mul_fin, sqrt_fin le_rfl, add_zero, Real.sqrt_zero,
      sqrt_fin zero_le_one, Real.sqrt_one, div_fin _ one_ne_zero, div_one, log_fin one_pos, Real.log_one,
      div_fin _ (show 3 * k_eq p ≠ 0 by positivity)]
    have e2 : fin (2 / (3 * k_eq p)) * sqrt pinf = pinf := infSign_pos (by positivity)
    rw [e2]
    exact (if_neg (lt_irrefl _)).trans (if_neg (lt_irrefl _))
  have n4 : (nan : Xr) ^ 4 = nan := nan_npow 4 (by norm_num)
  constructor
  · unfold Xm.EH.nowiggle Xm.EH.gamma_eff
    simp only [hsh, mul_nan, n4, add_nan, div_nan, log_nan]
  · unfold Xm.EH.wiggle Xm.EH.Tc
    simp only [hsh, mul_nan, n4, add_nan, div_nan, nan_div, nan_mul, sub_nan]

/-! ## Variance and linear power -/

/-- C112: the variance in spheres is finite for every non-zero radius whenever the transfer function
is finite at positive wavenumbers. -/
theorem C112_variance (p : Params) {TX : Xr → Xr} {T : ℝ → ℝ}
    (hT : ∀ k, 0 < k → TX (fin k) = fin (T k)) {R : ℝ} (hR : R ≠ 0) :
    Xm.sigmasqr p (fin R) TX = fin (sigmasqr p R T) := by
  have hint : ∀ t : ℝ, Xm.sigmaIntegrand p TX (fin R) (fin t) = fin (sigmaIntegrand p T R t) := by
    intro t
    have he := Real.exp_pos t
    have hx : Real.exp t * R * (Real.exp t * R) * (Real.exp t * R) ≠ 0 := by
      have := he.ne'
      positivity
    unfold Xm.sigmaIntegrand sigmaIntegrand Xm.primordialMatterPower primordialMatterPower
    simp only [exp_fin, mul_fin, sin_fin, cos_fin, sub_fin, lit_nat, div_fin _ hx, hT _ he, npow_fin,
      rpow_fin he]
  have hpi : 2 * Real.pi ^ (2 : ℝ) ≠ 0 := by
    have := Real.rpow_pos_of_pos Real.pi_pos 2
    positivity
  unfold Xm.sigmasqr sigmasqr
  simp only [(Xm.rombLoop_fin hint 7).2, lit_nat, lit_one, rpow_fin Real.pi_pos, mul_fin, div_fin _ hpi]

/-- C112: the linear power spectrum is finite at every positive wavenumber and every scale factor,
in physical cosmologies and for every transfer function that is finite at positive wavenumbers and
does not vanish at the lower end of the normalisation integral. -/
theorem C112_linear {p : Params} (h : Physical p) {TX : Xr → Xr} {T : ℝ → ℝ}
    (hT : ∀ k, 0 < k → TX (fin k) = fin (T k)) (h4 : T (Real.exp (-4)) ≠ 0) {k : ℝ} (hk : 0 < k) (a : ℝ) :
    Xm.linearMatterPower p TX (fin k) (fin a) = fin (linearMatterPower p T k a) := by
  unfold Xm.linearMatterPower linearMatterPower Xm.primordialMatterPower primordialMatterPower
  simp only [xm_growthOf_fin p h, hT _ hk, lit_nat, C112_variance p hT (show (8 : ℝ) ≠ 0 by norm_num),
    npow_fin, div_fin _ (sigmasqr_pos p T h4).ne', rpow_fin hk, mul_fin]

/-- C112: a transfer function that is NaN makes the power spectrum NaN at every wavenumber, through
the normalisation. -/
theorem C112_poisoned (p : Params) {TX : Xr → Xr} (hT : ∀ k, TX k = nan) (k a : Xr) :
    Xm.linearMatterPower p TX k a = nan := by
  have n2 : (nan : Xr) ^ 2 = nan := nan_npow 2 (by norm_num)
  unfold Xm.linearMatterPower
  simp only [hT, n2, mul_nan, nan_mul]

example : Xm.EH.wiggle Planck15 (fin 0.1) = fin (wiggle Planck15 0.1) :=
  C112_oscillating planck_baryonic (by norm_num)

theorem planck_nowiggle_fin {k : ℝ} (hk : 0 ≤ k) :
    Xm.EH.nowiggle Planck15 (fin k) = fin (nowiggle Planck15 k) :=
  C112_smooth planck_baryonic (by norm_num [Planck15]) (by norm_num [Planck15, Params.Omega_m]) hk

example : Xm.linearMatterPower Planck15 (Xm.EH.nowiggle Planck15) (fin 0.1) (fin 0.5)
    = fin (linearMatterPower Planck15 (nowiggle Planck15) 0.1 0.5) := by
  refine C112_linear planck_physical (fun k hk => planck_nowiggle_fin hk.le) ?_ (by norm_num) _
  obtain ⟨u, hu, h0, -⟩ := C43_shape Planck15 planck_baryonic planck_alpha.1.le (Real.exp (-4))
    (Real.exp_pos _).le
  have : nowiggle Planck15 (Real.exp (-4)) = u := Except.ok.inj hu
  rw [this]
  exact h0.ne'

example : Xm.linearMatterPower Planck15 (Xm.EH.wiggle Planck15) (fin 0.1) (fin 0.5)
    = fin (linearMatterPower Planck15 (wiggle Planck15) 0.1 0.5) :=
  C112_linear planck_physical (fun _ hk => C112_oscillating planck_baryonic hk) C113_planck.1.ne'
    (by norm_num) _

example (k a : Xr) : Xm.linearMatterPower { Planck15 with Omega_b := 0 }
    (Xm.EH.wiggle { Planck15 with Omega_b := 0 }) k a = nan :=
  C112_poisoned _ (fun k => (C112_no_baryons rfl (by norm_num [Planck15]) (by norm_num [Planck15]) k).2)
    k a

end JaxCosmo
