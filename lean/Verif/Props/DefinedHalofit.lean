import Verif.Props.DefinedPower
import Verif.Props.NonlinearScale
import Verif.Props.Halofit

/-! # C114: the non-linear power spectrum is a finite number -/

namespace JaxCosmo
open Xr EH

/-- What the finiteness theorems ask of a transfer function and the epoch: finite at positive
wavenumbers, non-zero where the `sigma8` integral and the integrals of halofit start; a non-zero
amplitude and growth factor. -/
structure PowerOK (p : Params) (TX : Xr → Xr) (T : ℝ → ℝ) (a : ℝ) : Prop where
  phys : Physical p
  fin_T : ∀ k, 0 < k → TX (fin k) = fin (T k)
  norm : T (Real.exp (-4)) ≠ 0
  start : T 1e-4 ≠ 0
  amp : p.sigma8 ≠ 0
  grow : growthOf p a ≠ 0

theorem linear_nonneg (p : Params) (T : ℝ → ℝ) {k : ℝ} (hk : 0 < k) (a : ℝ) :
    0 ≤ linearMatterPower p T k a := by
  have h1 := sigmasqr_nonneg p T 8
  have h2 := Real.rpow_pos_of_pos hk p.n_s
  unfold linearMatterPower primordialMatterPower
  simp only
  positivity

theorem linear_pos_of_ne {p : Params} {T : ℝ → ℝ} {k a : ℝ} (hk : 0 < k) (h4 : T (Real.exp (-4)) ≠ 0)
    (hT : T k ≠ 0) (h8 : p.sigma8 ≠ 0) (hg : growthOf p a ≠ 0) : 0 < linearMatterPower p T k a := by
  have h1 := sigmasqr_pos p T h4
  have h2 := Real.rpow_pos_of_pos hk p.n_s
  unfold linearMatterPower primordialMatterPower
  simp only
  positivity

theorem simpsBody_lt_first {f g : ℝ → ℝ} {a b : ℝ} (hab : a < b) {N : ℕ} (hN : 2 ≤ N)
    (h : ∀ x, f x ≤ g x) (ha : f a < g a) : simpsBody f a b N < simpsBody g a b N := by
  simp only [simpsBody]
  have hN' : (0 : ℝ) < N := by exact_mod_cast (show 0 < N by omega)
  have hba : 0 < b - a := by linarith
  refine mul_lt_mul_of_pos_left ?_ (by positivity)
  refine Finset.sum_lt_sum (fun i _ => ?_) ⟨0, Finset.mem_range.2 (by omega), ?_⟩
  · have h1 := h (linspace a b (N + 1) (2 * i))
    have h2 := h (linspace a b (N + 1) (2 * i + 1))
    have h3 := h (linspace a b (N + 1) (2 * i + 2))
    linarith
  · have e : linspace a b (N + 1) (2 * 0) = a := by simp [linspace]
    have h2 := h (linspace a b (N + 1) (2 * 0 + 1))
    have h3 := h (linspace a b (N + 1) (2 * 0 + 2))
    rw [e]
    linarith

variable {p : Params} {TX : Xr → Xr} {T : ℝ → ℝ} {a : ℝ}

theorem growthOf_one_ne (h : Physical p) : growthOf p 1 ≠ 0 := by
  rw [C10_one p h]; exact one_ne_zero

/-- The table of variances is strictly decreasing as soon as there is power at its first
wavenumber. -/
theorem sigma_decreasing' (h : PowerOK p TX T a) {i j : ℕ} (hij : i < j) :
    Halofit.sigma p T a j < Halofit.sigma p T a i := by
  have hr : Real.exp (Halofit.logr i) < Real.exp (Halofit.logr j) := by
    rw [Real.exp_lt_exp, logr_eq, logr_eq]
    have := mul_lt_mul_of_pos_right (show (i : ℝ) < j by exact_mod_cast hij) logrStep_pos
    linarith
  have hg2 : 0 < growthOf p a ^ 2 := by have := h.grow; positivity
  have hpi := Real.pi_pos
  have hexp : ∀ t, Real.exp (-((Real.exp t * Real.exp (Halofit.logr j)) ^ 2))
      < Real.exp (-((Real.exp t * Real.exp (Halofit.logr i)) ^ 2)) := by
    intro t
    rw [Real.exp_lt_exp, neg_lt_neg_iff]
    have h1 := Real.exp_pos t
    have h2 := Real.exp_pos (Halofit.logr i)
    exact pow_lt_pow_left₀ (mul_lt_mul_of_pos_left hr h1) (by positivity) (by norm_num)
  refine simpsBody_lt_first log_range (by norm_num) (fun t => ?_) ?_
  · rw [intSigma_eq, intSigma_eq]
    refine mul_le_mul_of_nonneg_right (hexp t).le ?_
    have := linear_nonneg p T (Real.exp_pos t) 1
    positivity
  · rw [intSigma_eq, intSigma_eq]
    refine mul_lt_mul_of_pos_right (hexp _) ?_
    have e : Real.exp (Real.log 1e-4) = 1e-4 := Real.exp_log (by norm_num)
    have := linear_pos_of_ne (k := 1e-4) (a := 1) (by norm_num) h.norm h.start h.amp
      (growthOf_one_ne h.phys)
    rw [e]
    positivity

theorem xm_log_lo : (1e-4 : Xr).log = fin (Real.log 1e-4) := log_fin (by norm_num)
theorem xm_log_hi : (1e4 : Xr).log = fin (Real.log 1e4) := log_fin (by norm_num)
theorem xm_log_r : (1e1 : Xr).log = fin (Real.log 1e1) := log_fin (by norm_num)

theorem xm_logr (i : ℕ) : Xm.Halofit.logr i = fin (Halofit.logr i) := by
  unfold Xm.Halofit.logr Halofit.logr
  rw [xm_log_lo, xm_log_r, Xm.linspace_fin _ _ (by norm_num)]

theorem two_pi_ne : 2 * Real.pi ^ 2 ≠ 0 := by have := Real.pi_pos; positivity

theorem xm_sigma (h : PowerOK p TX T a) (i : ℕ) :
    Xm.Halofit.sigma p TX (fin a) i = fin (Halofit.sigma p T a i) := by
  unfold Xm.Halofit.sigma Halofit.sigma
  rw [xm_log_lo, xm_log_hi, xm_logr, exp_fin]
  refine Xm.simps_fin (by norm_num) fun j _ => ?_
  generalize linspace (Real.log 1e-4) (Real.log 1e4) (256 + 1) j = t
  unfold Xm.Halofit.intSigma Halofit.intSigma
  simp only [exp_fin, lit_one, C112_linear h.phys h.fin_T h.norm (Real.exp_pos t),
    xm_growthOf_fin p h.phys, mul_fin, npow_fin, neg_fin, lit_nat, div_fin _ two_pi_ne]

theorem xm_R_nl (h : PowerOK p TX T a) : Xm.Halofit.R_nl p TX (fin a) = fin (Halofit.R_nl p T a) := by
  unfold Xm.Halofit.R_nl Halofit.R_nl
  rw [lit_one, Xm.interp_fin (by norm_num) (fun i _ => xm_sigma h i) (fun i _ => xm_logr i)
    (fun i j _ _ hij => ?_), exp_fin, lit_sci, max_fin]
  · rfl
  · rcases lt_or_gt_of_ne hij with hlt | hlt
    · exact (sigma_decreasing' h hlt).ne'
    · exact (sigma_decreasing' h hlt).ne

theorem knl_pos (p : Params) (T : ℝ → ℝ) (a : ℝ) : 0 < Halofit.k_nl p T a :=
  one_div_pos.mpr (R_nl_pos p T a)

theorem xm_k_nl (h : PowerOK p TX T a) : Xm.Halofit.k_nl p TX (fin a) = fin (Halofit.k_nl p T a) := by
  unfold Xm.Halofit.k_nl Halofit.k_nl
  rw [xm_R_nl h, lit_one, div_fin _ (R_nl_pos p T a).ne']

theorem xm_res (h : PowerOK p TX T a) (t : ℝ) :
    Xm.Halofit.res p TX (fin a) (fin t) = fin (Halofit.res p T a t) := by
  unfold Xm.Halofit.res Halofit.res
  simp only [exp_fin, lit_one, C112_linear h.phys h.fin_T h.norm (Real.exp_pos t),
    xm_growthOf_fin p h.phys, mul_fin, npow_fin, neg_fin, lit_nat, div_fin _ two_pi_ne, xm_k_nl h,
    div_fin _ (knl_pos p T a).ne']

theorem xm_n_eff (h : PowerOK p TX T a) : Xm.Halofit.n_eff p TX (fin a) = fin (Halofit.n_eff p T a) ∧
    Xm.Halofit.curv p TX (fin a) = fin (Halofit.curv p T a) := by
  have hk := (knl_pos p T a).ne'
  have h0 : Xm.Halofit.res0 p TX (fin a) = fin (Halofit.res0 p T a) := by
    unfold Xm.Halofit.res0 Halofit.res0
    rw [xm_log_lo, xm_log_hi]
    refine Xm.simps_fin (by norm_num) fun j _ => ?_
    simp only [exp_fin, xm_k_nl h, lit_one, div_fin _ hk, xm_res h, lit_nat, mul_fin, npow_fin]
  have h1 : Xm.Halofit.res1 p TX (fin a) = fin (Halofit.res1 p T a) := by
    unfold Xm.Halofit.res1 Halofit.res1
    rw [xm_log_lo, xm_log_hi]
    refine Xm.simps_fin (by norm_num) fun j _ => ?_
    simp only [exp_fin, xm_k_nl h, lit_one, div_fin _ hk, xm_res h, lit_nat, mul_fin, npow_fin, sub_fin]
  constructor
  · unfold Xm.Halofit.n_eff Halofit.n_eff
    rw [h0, lit_nat, sub_fin]
  · unfold Xm.Halofit.curv Halofit.curv
    rw [h0, h1, npow_fin, add_fin]

/-- Coefficients, entry by entry. -/
noncomputable def finCoeffs (c : Halofit.Coeffs) : Xm.Halofit.Coeffs where
  a_n := fin c.a_n
  b_n := fin c.b_n
  c_n := fin c.c_n
  gamma_n := fin c.gamma_n
  alpha_n := fin c.alpha_n
  beta_n := fin c.beta_n
  mu_n := fin c.mu_n
  nu_n := fin c.nu_n

theorem xm_smith (n C : ℝ) : Xm.Halofit.smith2003 (fin n) (fin C) = finCoeffs (Halofit.smith2003 n C) := by
  unfold Xm.Halofit.smith2003 Halofit.smith2003 finCoeffs
  simp only [lit_sci, lit_nat, neg_fin, mul_fin, npow_fin, add_fin, sub_fin,
    rpow_fin (show (0 : ℝ) < 10 by norm_num)]

theorem xm_takahashi (n C d w : ℝ) : Xm.Halofit.takahashi2012 (fin n) (fin C) (fin d) (fin w)
    = finCoeffs (Halofit.takahashi2012 n C d w) := by
  unfold Xm.Halofit.takahashi2012 Halofit.takahashi2012 finCoeffs
  simp only [lit_sci, lit_nat, lit_one, lit_zero, neg_fin, mul_fin, npow_fin, add_fin, sub_fin, abs_fin,
    rpow_fin (show (0 : ℝ) < 10 by norm_num)]

theorem xm_assemble {k P K : ℝ} (hk : 0 < k) (hP : 0 ≤ P) (hK : 0 < K) {c : Halofit.Coeffs}
    {f1 f2 f3 : ℝ} (hb : 0 < c.b_n) (hc : 0 < c.c_n) (hf : 0 < f3) (hμ : 0 ≤ c.mu_n) (hν : 0 < c.nu_n)
    (hα : 1 + c.alpha_n * (k ^ 3 * P / (2 * Real.pi ^ 2)) ≠ 0) :
    Xm.Halofit.assemble (fin k) (fin P) (fin K) (finCoeffs c) (fin f1, fin f2, fin f3)
      = fin (Halofit.assemble k P K c (f1, f2, f3)) := by
  have hpi := Real.pi_pos
  have hy : 0 < k / K := by positivity
  have h1 : 0 < 1 + k ^ 3 * P / (2 * Real.pi ^ 2) := by positivity
  have h2 : 0 < c.c_n * f3 * (k / K) := by positivity
  have h3 := Real.rpow_pos_of_pos h2 (3 - c.gamma_n)
  have h4 := Real.rpow_pos_of_pos hy f2
  have h5 : 1 + c.b_n * (k / K) ^ f2 + (c.c_n * f3 * (k / K)) ^ (3 - c.gamma_n) ≠ 0 := by positivity
  have h6 : 1 + c.mu_n / (k / K) + c.nu_n / (k / K) ^ 2 ≠ 0 := by positivity
  have h7 : (k / K) ^ 2 ≠ 0 := by positivity
  have h8 : k ^ 3 ≠ 0 := by positivity
  unfold Xm.Halofit.assemble Halofit.assemble finCoeffs
  simp only [lit_nat, lit_one, npow_fin, mul_fin, div_fin _ two_pi_ne, div_fin _ hK.ne', add_fin, sub_fin,
    rpow_fin h1, div_fin _ hα, div_fin_lit, neg_fin, exp_fin, rpow_fin hy, rpow_fin h2, div_fin _ h5,
    div_fin _ hy.ne', div_fin _ h7, div_fin _ h6, div_fin _ h8]

theorem omega_m_a_pos (h : Physical p) (ha : 0 < a) : 0 < Omega_m_a p a :=
  div_pos (mul_pos h.m_pos (zpow_pos ha _)) (C05_Esqr_pos p a ha h.m_pos h.k_nonneg h.de_nonneg)

/-- C114: the default non-linear power spectrum is finite at every positive wavenumber and every
epoch with a growth factor. -/
theorem C114_takahashi (h : PowerOK p TX T a) (ha : 0 < a) {k : ℝ} (hk : 0 < k) :
    ∃ v, halofit p k a T = .ok v ∧ Xm.halofit p (fin k) (fin a) TX = .ok (fin v) := by
  refine ⟨_, rfl, ?_⟩
  have hE := (C05_Esqr_pos p a ha h.phys.m_pos h.phys.k_nonneg h.phys.de_nonneg).ne'
  have hm := omega_m_a_pos h.phys ha
  unfold Xm.halofit
  simp only [C112_linear h.phys h.fin_T h.norm hk, xm_k_nl h, xm_n_eff h, xm_Omega_m_a_fin p ha hE,
    xm_Omega_de_a_fin p ha hE, xm_w_fin, xm_takahashi]
  rw [if_neg (by decide), if_pos trivial]
  unfold Xm.Halofit.fTakahashi
  simp only [lit_sci, neg_fin, rpow_fin hm]
  rw [xm_assemble hk (linear_nonneg p T hk a) (knl_pos p T a)]
  · rfl
  · exact Real.rpow_pos_of_pos (by norm_num) _
  · exact Real.rpow_pos_of_pos (by norm_num) _
  · exact Real.rpow_pos_of_pos hm _
  · exact le_rfl
  · exact Real.rpow_pos_of_pos (by norm_num) _
  · have h1 := linear_nonneg p T hk a
    have h2 : 0 ≤ (Halofit.takahashi2012 (Halofit.n_eff p T a) (Halofit.curv p T a) (Omega_de_a p a)
      (w p a)).alpha_n := abs_nonneg _
    have := Real.pi_pos
    positivity

/-- C114: the Smith et al. prescription is finite when moreover matter does not make up everything
and the denominator of its quasi-linear term does not vanish. -/
theorem C114_smith (h : PowerOK p TX T a) (ha : 0 < a) {k : ℝ} (hk : 0 < k) (hm1 : Omega_m_a p a ≠ 1)
    (hα : 1 + (Halofit.smith2003 (Halofit.n_eff p T a) (Halofit.curv p T a)).alpha_n
      * (k ^ 3 * linearMatterPower p T k a / (2 * Real.pi ^ 2)) ≠ 0) :
    ∃ v, halofit p k a T "smith2003" = .ok v ∧
      Xm.halofit p (fin k) (fin a) TX "smith2003" = .ok (fin v) := by
  refine ⟨_, rfl, ?_⟩
  have hE0 := C05_Esqr_pos p a ha h.phys.m_pos h.phys.k_nonneg h.phys.de_nonneg
  have hE := hE0.ne'
  have hm := omega_m_a_pos h.phys ha
  have h1m : 1 - Omega_m_a p a ≠ 0 := sub_ne_zero.mpr hm1.symm
  have hfrac : 0 ≤ Omega_de_a p a / (1 - Omega_m_a p a) ∧ Omega_de_a p a / (1 - Omega_m_a p a) ≤ 1 := by
    have hd : 0 ≤ Omega_de_a p a :=
      div_nonneg (mul_nonneg h.phys.de_nonneg (Real.exp_pos _).le) hE0.le
    have hsum : 0 ≤ 1 - Omega_m_a p a - Omega_de_a p a := by
      have e : 1 - Omega_m_a p a - Omega_de_a p a = p.Omega_k * a ^ (-2 : ℤ) / Esqr p a := by
        unfold Omega_m_a Omega_de_a
        rw [eq_div_iff hE]
        rw [sub_mul, sub_mul, div_mul_cancel₀ _ hE, div_mul_cancel₀ _ hE]
        unfold Esqr
        ring
      rw [e]
      exact div_nonneg (mul_nonneg h.phys.k_nonneg (zpow_pos ha _).le) hE0.le
    have hpos : 0 < 1 - Omega_m_a p a := lt_of_le_of_ne (by linarith) h1m.symm
    exact ⟨div_nonneg hd hpos.le, (div_le_one hpos).mpr (by linarith)⟩
  unfold Xm.halofit
  simp only [C112_linear h.phys h.fin_T h.norm hk, xm_k_nl h, xm_n_eff h, xm_Omega_m_a_fin p ha hE,
    xm_Omega_de_a_fin p ha hE, xm_smith, lit_one, sub_fin, div_fin _ h1m]
  rw [if_pos trivial]
  unfold Xm.Halofit.fSmith
  simp only [lit_sci, lit_one, neg_fin, rpow_fin hm, mul_fin, sub_fin, add_fin]
  rw [xm_assemble hk (linear_nonneg p T hk a) (knl_pos p T a) _ _ _ _ _ hα]
  · rfl
  · exact Real.rpow_pos_of_pos (by norm_num) _
  · exact Real.rpow_pos_of_pos (by norm_num) _
  · have h1 := Real.rpow_pos_of_pos hm 0.0743
    have h2 := Real.rpow_pos_of_pos hm 0.0725
    obtain ⟨g0, g1⟩ := hfrac
    rcases g0.eq_or_lt with g0 | g0
    · rw [← g0]; linarith
    · have := mul_pos g0 h1
      have := mul_nonneg (sub_nonneg.mpr g1) h2.le
      linarith
  · exact (Real.rpow_pos_of_pos (by norm_num) _).le
  · exact Real.rpow_pos_of_pos (by norm_num) _

/-- C114: in an Einstein–de Sitter universe the Smith et al. prescription interpolates with the
weight `0 / 0` and returns NaN at every wavenumber other than the non-linear one. -/
theorem C114_einstein_de_sitter (h : PowerOK p TX T a) (ha : 0 < a) (hk0 : p.Omega_k = 0)
    (hm1 : p.Omega_m = 1) {k : ℝ} (hk : 0 < k) (hknl : k ≠ Halofit.k_nl p T a) :
    Xm.halofit p (fin k) (fin a) TX "smith2003" = .ok nan := by
  have hE0 := C05_Esqr_pos p a ha h.phys.m_pos h.phys.k_nonneg h.phys.de_nonneg
  have hE := hE0.ne'
  have hde : p.Omega_de = 0 := by
    unfold Params.Omega_de Params.Omega
    rw [hk0, hm1]; ring
  have hma : Omega_m_a p a = 1 := by
    unfold Omega_m_a
    rw [div_eq_one_iff_eq hE]
    unfold Esqr
    rw [hde, hk0]; ring
  have hda : Omega_de_a p a = 0 := by
    unfold Omega_de_a
    rw [hde, zero_mul, zero_div]
  have hK := knl_pos p T a
  have h00 : fin 0 / fin 0 = nan := by
    refine (if_pos rfl).trans ?_
    exact (if_neg (lt_irrefl _)).trans (if_neg (lt_irrefl _))
  have hy : k / Halofit.k_nl p T a ≠ 1 := by rwa [Ne, div_eq_one_iff_eq hK.ne']
  unfold Xm.halofit
  simp only [C112_linear h.phys h.fin_T h.norm hk, xm_k_nl h, xm_n_eff h, xm_Omega_m_a_fin p ha hE,
    xm_Omega_de_a_fin p ha hE, xm_smith, lit_one, sub_fin, hma, hda, sub_self, h00]
  rw [if_pos trivial]
  unfold Xm.Halofit.fSmith Xm.Halofit.assemble
  simp only [nan_mul, nan_add, mul_nan, div_fin _ hK.ne', rpow_nan hy, nan_div, add_nan]

theorem planck_powerOK_wiggle : PowerOK Planck15 (Xm.EH.wiggle Planck15) (wiggle Planck15) 1 where
  phys := planck_physical
  fin_T _ hk := C112_oscillating planck_baryonic hk
  norm := C113_planck.1.ne'
  start := (C113_positive planck_baryonic (by norm_num) (by
    have := planck_shd
    have := Real.pi_gt_three
    linarith)).2.ne'
  amp := by norm_num [Planck15]
  grow := growthOf_one_ne planck_physical

example : ∃ v, halofit Planck15 0.1 1 (wiggle Planck15) = .ok v ∧
    Xm.halofit Planck15 (fin 0.1) (fin 1) (Xm.EH.wiggle Planck15) = .ok (fin v) :=
  C114_takahashi planck_powerOK_wiggle one_pos (by norm_num)

theorem powerOK_nowiggle {p : Params} (h : Physical p) (hB : p.Baryonic) (hb : p.Omega_b ≤ 6 * p.Omega_c)
    (hw : p.Omega_m * p.h ^ 2 ≤ 10) (h8 : p.sigma8 ≠ 0) {a : ℝ} (hg : growthOf p a ≠ 0) :
    PowerOK p (Xm.EH.nowiggle p) (nowiggle p) a := by
  have hpos : ∀ k, 0 < k → nowiggle p k ≠ 0 := by
    intro k hk
    obtain ⟨u, hu, h0, -⟩ := C43_shape p hB (alpha_gamma_pos hB hb hw).le k hk.le
    rw [show nowiggle p k = u from Except.ok.inj hu]
    exact h0.ne'
  exact ⟨h, fun k hk => C112_smooth hB hb hw hk.le, hpos _ (Real.exp_pos _), hpos _ (by norm_num), h8, hg⟩

/-- An Einstein–de Sitter universe with baryons. -/
noncomputable def edsParams : Params := { Planck15 with Omega_c := 0.95, Omega_b := 0.05 }

theorem eds_physical : Physical edsParams := by
  constructor <;> norm_num [edsParams, Planck15, Params.Omega_m, Params.Omega_de, Params.Omega, w]

/-- Witness for `C114_einstein_de_sitter`: at all but one wavenumber. -/
example {k : ℝ} (hk : 0 < k) (hk' : k ≠ Halofit.k_nl edsParams (nowiggle edsParams) 1) :
    Xm.halofit edsParams (fin k) (fin 1) (Xm.EH.nowiggle edsParams) "smith2003" = .ok nan :=
  C114_einstein_de_sitter
    (powerOK_nowiggle eds_physical ⟨by norm_num [edsParams], by norm_num [edsParams],
      by norm_num [edsParams, Planck15]⟩ (by norm_num [edsParams])
      (by norm_num [edsParams, Planck15, Params.Omega_m]) (by norm_num [edsParams, Planck15])
      (growthOf_one_ne eds_physical))
    one_pos (by norm_num [edsParams, Planck15]) (by norm_num [edsParams, Params.Omega_m]) hk hk'

/-- Witness for `C114_smith`: its hypotheses hold on large scales in the Planck 2015 cosmology. -/
example : ∃ k, 0 < k ∧ ∃ v, halofit Planck15 k 1 (nowiggle Planck15) "smith2003" = .ok v ∧
    Xm.halofit Planck15 (fin k) (fin 1) (Xm.EH.nowiggle Planck15) "smith2003" = .ok (fin v) := by
  have hOK := powerOK_nowiggle planck_physical planck_baryonic (by norm_num [Planck15])
    (by norm_num [Planck15, Params.Omega_m]) (by norm_num [Planck15]) (growthOf_one_ne planck_physical)
  set α := (Halofit.smith2003 (Halofit.n_eff Planck15 (nowiggle Planck15) 1)
    (Halofit.curv Planck15 (nowiggle Planck15) 1)).alpha_n with hα
  set N := Planck15.sigma8 ^ 2 / sigmasqr Planck15 8 (nowiggle Planck15) with hN
  have hN0 : 0 ≤ N := div_nonneg (sq_nonneg _) (sigmasqr_nonneg _ _ _)
  have hb : 0 ≤ |α| * N := mul_nonneg (abs_nonneg _) hN0
  set k := 1 / (1 + |α| * N) with hk
  have hk0 : 0 < k := by rw [hk]; positivity
  have hk1 : k ≤ 1 := by rw [hk, div_le_one (by positivity)]; linarith
  refine ⟨k, hk0, C114_smith hOK one_pos hk0 ?_ ?_⟩
  · unfold Omega_m_a
    rw [C02_Esqr_one]
    norm_num [Planck15, Params.Omega_m]
  · rw [← hα]
    obtain ⟨u, hu, h0, h1⟩ := C43_shape Planck15 planck_baryonic planck_alpha.1.le k hk0.le
    have hu' : nowiggle Planck15 k = u := Except.ok.inj hu
    have hP : linearMatterPower Planck15 (nowiggle Planck15) k 1
        = k ^ Planck15.n_s * u ^ 2 * 1 ^ 2 * N := by
      unfold linearMatterPower primordialMatterPower
      simp only [C10_one _ planck_physical, hu']
      rfl
    have hkn : k ^ Planck15.n_s ≤ 1 := Real.rpow_le_one hk0.le hk1 (by norm_num [Planck15])
    have hkn0 := Real.rpow_pos_of_pos hk0 Planck15.n_s
    have hu2 : u ^ 2 ≤ 1 := pow_le_one₀ h0.le h1
    have hk3 : k ^ 3 ≤ k := by nlinarith [mul_nonneg hk0.le hk0.le]
    have hpi : 1 ≤ 2 * Real.pi ^ 2 := by nlinarith [Real.pi_gt_three]
    have hle : k ^ 3 * linearMatterPower Planck15 (nowiggle Planck15) k 1 / (2 * Real.pi ^ 2) ≤ k * N := by
      rw [hP, div_le_iff₀ (by positivity)]
      have e1 : k ^ Planck15.n_s * u ^ 2 * 1 ^ 2 * N ≤ N := by
        have : k ^ Planck15.n_s * u ^ 2 ≤ 1 := mul_le_one₀ hkn (by positivity) hu2
        rw [one_pow, mul_one]
        exact mul_le_of_le_one_left hN0 this
      calc k ^ 3 * (k ^ Planck15.n_s * u ^ 2 * 1 ^ 2 * N) ≤ k * N :=
            mul_le_mul hk3 e1 (by positivity) hk0.le
        _ ≤ k * N * (2 * Real.pi ^ 2) := le_mul_of_one_le_right (by positivity) hpi
    have hd0 : 0 ≤ k ^ 3 * linearMatterPower Planck15 (nowiggle Planck15) k 1 / (2 * Real.pi ^ 2) := by
      have := linear_nonneg Planck15 (nowiggle Planck15) hk0 1
      have := Real.pi_pos
      positivity
    generalize k ^ 3 * linearMatterPower Planck15 (nowiggle Planck15) k 1 / (2 * Real.pi ^ 2) = d at hle hd0
    have h2 : |α| * d < 1 := by
      calc |α| * d ≤ |α| * (k * N) := mul_le_mul_of_nonneg_left hle (abs_nonneg _)
        _ = |α| * N / (1 + |α| * N) := by rw [hk]; ring
        _ < 1 := by rw [div_lt_one (by positivity)]; linarith
    have h3 : -(|α| * d) ≤ α * d := by
      have := mul_le_mul_of_nonneg_right (neg_abs_le α) hd0
      linarith
    linarith

end JaxCosmo
