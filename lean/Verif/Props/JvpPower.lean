import Verif.Proofs.JvpHalofit
import Verif.Props.JvpBackground
import Verif.Props.ScaleJump

/-!
# C121, C122: forward-mode derivatives of the power spectra
-/

namespace JaxCosmo
open Xr Spec EH

variable {P : ℝ → Params} {v : Params} {θ : ℝ} {T : ℝ → ℝ → ℝ} {TD : Du → Du} {K : ℝ → ℝ} {k' : ℝ}

/-- C121: the derivative carried through the smooth transfer function, with respect to every parameter
and the wavenumber, is the derivative of the smooth transfer function. -/
theorem C121_smooth (h : Along P v θ) (hb : (P θ).Baryonic) (hα : 0 ≤ alpha_gamma (P θ))
    (hK : HasDerivAt K k' θ) (h0 : 0 ≤ K θ) :
    Jvp (fun s => nowiggle (P s) (K s)) θ
      (Dm.EH.nowiggle (seedParams (P θ) v) ⟨fin (K θ), some (fin k')⟩) :=
  jvp_nowiggle (seeded_of_along h) hb (.seed hK) h0 (gamma_pos hb hα _)

/-- C121: the same for the oscillating transfer function, at positive wavenumbers. -/
theorem C121_oscillating (h : Along P v θ) (hb : (P θ).Baryonic) (hK : HasDerivAt K k' θ)
    (h0 : 0 < K θ) :
    Jvp (fun s => wiggle (P s) (K s)) θ
      (Dm.EH.wiggle (seedParams (P θ) v) ⟨fin (K θ), some (fin k')⟩) :=
  jvp_wiggle (seeded_of_along h) hb (.seed hK) h0

theorem transferJvp_smooth (h : Along P v θ) (hb : (P θ).Baryonic) (hα : 0 ≤ alpha_gamma (P θ)) :
    TransferJvp θ (fun s => nowiggle (P s)) (Dm.EH.nowiggle (seedParams (P θ) v)) :=
  fun _ _ ha h0 => jvp_nowiggle (seeded_of_along h) hb ha h0.le (gamma_pos hb hα _)

theorem transferJvp_oscillating (h : Along P v θ) (hb : (P θ).Baryonic) :
    TransferJvp θ (fun s => wiggle (P s)) (Dm.EH.wiggle (seedParams (P θ) v)) :=
  fun _ _ ha h0 => jvp_wiggle (seeded_of_along h) hb ha h0

/-- C121: the derivative carried through `sigmasqr` — eight levels of Romberg's rule — is the
derivative of what it computes, with respect to every parameter and the radius, for every transfer
function differentiated correctly. -/
theorem C121_variance (h : Along P v θ) (hT : TransferJvp θ T TD) {R : ℝ → ℝ} {R' : ℝ}
    (hR : HasDerivAt R R' θ) (h0 : R θ ≠ 0) :
    Jvp (fun s => sigmasqr (P s) (R s) (T s)) θ
      (Dm.sigmasqr (seedParams (P θ) v) ⟨fin (R θ), some (fin R')⟩ TD) :=
  jvp_sigmasqr (seeded_of_along h) hT (.seed hR) h0

/-- C121: the derivative carried through the linear power spectrum is its derivative. -/
theorem C121_linear (h : Along P v θ) (hT : TransferJvp θ T TD) (hp : Physical (P θ))
    (hn : T θ (Real.exp (-4)) ≠ 0) {a : ℝ} (ha0 : 1 / 900 ≤ a) (ha1 : a ≤ 1)
    (hK : HasDerivAt K k' θ) (h0 : 0 < K θ) :
    Jvp (fun s => linearMatterPower (P s) (T s) (K s) a) θ
      (Dm.linearMatterPower (seedParams (P θ) v) TD ⟨fin (K θ), some (fin k')⟩ (Du.con a)) :=
  jvp_linear (seeded_of_along h) hT ⟨hp, hn, ha0, ha1⟩ (.con a θ) (.seed hK) h0

/-- C122: the derivative carried through the non-linear scale, its effective index and its curvature —
table of variances, inversion by table lookup, clipping, two more integrals — is the derivative of
what is computed, when one is not half-way between two neighbouring variances of the table. -/
theorem C122_scale_partial (h : Along P v θ) (hT : TransferJvp θ T TD) {a : ℝ}
    (hp : HalofitPoint (P θ) (T θ) a) :
    Jvp (fun s => Halofit.k_nl (P s) (T s) a) θ
        (Dm.Halofit.k_nl (seedParams (P θ) v) TD (Du.con a)) ∧
      Jvp (fun s => Halofit.n_eff (P s) (T s) a) θ
        (Dm.Halofit.n_eff (seedParams (P θ) v) TD (Du.con a)) ∧
      Jvp (fun s => Halofit.curv (P s) (T s) a) θ
        (Dm.Halofit.curv (seedParams (P θ) v) TD (Du.con a)) :=
  ⟨jvp_k_nl (seeded_of_along h) hT hp (.con a θ), jvp_n_eff (seeded_of_along h) hT hp (.con a θ)⟩

/-- C122: the derivative carried through the default non-linear power spectrum is its derivative,
under the same condition and away from the kink of one coefficient (an absolute value).  At the points
excluded by the first condition the spectrum itself jumps (`C81_jump`). -/
theorem C122_takahashi_partial (h : Along P v θ) (hT : TransferJvp θ T TD) {a : ℝ}
    (hp : HalofitPoint (P θ) (T θ) a)
    (hα : 6.0835 + 1.3373 * Halofit.n_eff (P θ) (T θ) a - 0.1959 * Halofit.n_eff (P θ) (T θ) a ^ 2
      - 5.5274 * Halofit.curv (P θ) (T θ) a ≠ 0)
    (hK : HasDerivAt K k' θ) (h0 : 0 < K θ) :
    ∃ (F : ℝ → ℝ) (x : Du), (∀ s, halofit (P s) (K s) a (T s) = .ok (F s)) ∧
      Dm.halofit (seedParams (P θ) v) ⟨fin (K θ), some (fin k')⟩ (Du.con a) TD = .ok x ∧
      Jvp F θ x := by
  refine ⟨_, _, fun s => rfl, rfl, ?_⟩
  have hs := seeded_of_along h
  have ha0 : 0 < a := lt_of_lt_of_le (by norm_num) hp.early
  have ha : Jvp (fun _ => a) θ (Du.con a) := .con a θ
  have hE := (C05_Esqr_pos _ a ha0 hp.phys.m_pos hp.phys.k_nonneg hp.phys.de_nonneg).ne'
  have hm := omega_m_a_pos hp.phys ha0
  have hma := jvp_Omega_m_a hs ha ha0 hE
  have hpk := linear_nonneg (P θ) (T θ) h0 a
  refine jvp_assemble (c := fun s => Halofit.takahashi2012 _ _ _ _)
    (jvp_takahashi (jvp_n_eff hs hT hp ha).1 (jvp_n_eff hs hT hp ha).2
      (jvp_Omega_de_a hs ha ha0 hE) (jvp_w hs ha) hα) (.seed hK)
    (jvp_linear hs hT hp.toPowerPoint ha (.seed hK) h0) (jvp_k_nl hs hT hp ha)
    (hma.rpow (Jvp.sci _ _ _ θ).neg hm) (hma.rpow (Jvp.sci _ _ _ θ).neg hm)
    (hma.rpow (Jvp.sci _ _ _ θ) hm) h0 hpk (knl_pos _ _ _)
    (Real.rpow_pos_of_pos (by norm_num) _) (Real.rpow_pos_of_pos (by norm_num) _)
    (Real.rpow_pos_of_pos hm _) le_rfl (Real.rpow_pos_of_pos (by norm_num) _) ?_
  have h2 : 0 ≤ (Halofit.takahashi2012 (Halofit.n_eff (P θ) (T θ) a) (Halofit.curv (P θ) (T θ) a)
    (Omega_de_a (P θ) a) (w (P θ) a)).alpha_n := abs_nonneg _
  have := Real.pi_pos
  positivity

/-- The weight of the Smith et al. prescription is positive. -/
theorem fSmith_pos {p : Params} {a : ℝ} (hp : Physical p) (ha : 0 < a) (hm1 : Omega_m_a p a ≠ 1) :
    0 < (Halofit.fSmith (Omega_m_a p a) (Omega_de_a p a / (1 - Omega_m_a p a))).2.2 := by
  have hE0 := C05_Esqr_pos p a ha hp.m_pos hp.k_nonneg hp.de_nonneg
  have hE := hE0.ne'
  have hm := omega_m_a_pos hp ha
  have h1m : 1 - Omega_m_a p a ≠ 0 := sub_ne_zero.mpr hm1.symm
  have hd : 0 ≤ Omega_de_a p a :=
    div_nonneg (mul_nonneg hp.de_nonneg (Real.exp_pos _).le) hE0.le
  have hsum : 0 ≤ 1 - Omega_m_a p a - Omega_de_a p a := by
    have e : 1 - Omega_m_a p a - Omega_de_a p a = p.Omega_k * a ^ (-2 : ℤ) / Esqr p a := by
      unfold Omega_m_a Omega_de_a
      rw [eq_div_iff hE]
      rw [sub_mul, sub_mul, div_mul_cancel₀ _ hE, div_mul_cancel₀ _ hE]
      unfold Esqr
      ring
    rw [e]
    exact div_nonneg (mul_nonneg hp.k_nonneg (zpow_pos ha _).le) hE0.le
  have hpos : 0 < 1 - Omega_m_a p a := lt_of_le_of_ne (by linarith) h1m.symm
  have g0 := div_nonneg hd hpos.le
  have g1 := (div_le_one hpos).mpr (by linarith : Omega_de_a p a ≤ 1 - Omega_m_a p a)
  have h1 := Real.rpow_pos_of_pos hm 0.0743
  have h2 := Real.rpow_pos_of_pos hm 0.0725
  simp only [Halofit.fSmith]
  rcases g0.eq_or_lt with g0 | g0
  · rw [← g0]; linarith
  · have := mul_pos g0 h1
    have := mul_nonneg (sub_nonneg.mpr g1) h2.le
    linarith

/-- C122: the same for the Smith et al. prescription, when matter does not make up everything and the
denominator of the quasi-linear term does not vanish. -/
theorem C122_smith_partial (h : Along P v θ) (hT : TransferJvp θ T TD) {a : ℝ}
    (hp : HalofitPoint (P θ) (T θ) a) (hm1 : Omega_m_a (P θ) a ≠ 1)
    (hK : HasDerivAt K k' θ) (h0 : 0 < K θ)
    (hα : 1 + (Halofit.smith2003 (Halofit.n_eff (P θ) (T θ) a) (Halofit.curv (P θ) (T θ) a)).alpha_n
      * (K θ ^ 3 * linearMatterPower (P θ) (T θ) (K θ) a / (2 * Real.pi ^ 2)) ≠ 0) :
    ∃ (F : ℝ → ℝ) (x : Du), (∀ s, halofit (P s) (K s) a (T s) "smith2003" = .ok (F s)) ∧
      Dm.halofit (seedParams (P θ) v) ⟨fin (K θ), some (fin k')⟩ (Du.con a) TD "smith2003" = .ok x ∧
      Jvp F θ x := by
  refine ⟨_, _, fun s => rfl, rfl, ?_⟩
  have hs := seeded_of_along h
  have ha0 : 0 < a := lt_of_lt_of_le (by norm_num) hp.early
  have ha : Jvp (fun _ => a) θ (Du.con a) := .con a θ
  have hE := (C05_Esqr_pos _ a ha0 hp.phys.m_pos hp.phys.k_nonneg hp.phys.de_nonneg).ne'
  have hm := omega_m_a_pos hp.phys ha0
  have hma := jvp_Omega_m_a hs ha ha0 hE
  have hpk := linear_nonneg (P θ) (T θ) h0 a
  have hfr := (jvp_Omega_de_a hs ha ha0 hE).div ((Jvp.one θ).sub hma) (sub_ne_zero.mpr hm1.symm)
  refine jvp_assemble (c := fun s => Halofit.smith2003 _ _)
    (jvp_smith (jvp_n_eff hs hT hp ha).1 (jvp_n_eff hs hT hp ha).2) (.seed hK)
    (jvp_linear hs hT hp.toPowerPoint ha (.seed hK) h0) (jvp_k_nl hs hT hp ha)
    ?_ ?_ ?_ h0 hpk (knl_pos _ _ _)
    (Real.rpow_pos_of_pos (by norm_num) _) (Real.rpow_pos_of_pos (by norm_num) _)
    (fSmith_pos hp.phys ha0 hm1) (Real.rpow_pos_of_pos (by norm_num) _).le
    (Real.rpow_pos_of_pos (by norm_num) _) hα
  all_goals
    jvp

/-- C122: a prescription the code does not know is refused, derivative or not. -/
theorem C122_unknown (p : DParams) (k a : Du) (TD : Du → Du) (s : String) (h1 : s ≠ "smith2003")
    (h2 : s ≠ "takahashi2012") : Dm.halofit p k a TD s = .error .notImplementedError := by
  unfold Dm.halofit
  simp only [h1, h2, if_false]

/-! ## The condition cannot be dropped -/

/-- A transfer function with a continuously differentiable cut-off,
`jnp.where(k < 5000, (5000 - k) ** 2, 0)`. -/
noncomputable def softT (k : ℝ) : ℝ := if k < 5000 then (5000 - k) ^ 2 else 0

/-- The same with tangents. -/
noncomputable def softTD (k : Du) : Du := Du.sel (∃ x < 5000, k.val = fin x) ((5000 - k) ^ 2) 0

theorem hasDerivAt_softT : HasDerivAt softT 0 5000 := by
  rw [hasDerivAt_iff_tendsto_slope]
  have h : Filter.Tendsto (fun k : ℝ => if k < 5000 then k - 5000 else 0) (nhdsWithin 5000 {5000}ᶜ)
      (nhds 0) := by
    have hc : ContinuousAt (fun k : ℝ => Min.min (k - 5000) 0) 5000 := by fun_prop
    have := (hc.continuousWithinAt (s := {5000}ᶜ)).tendsto
    simp only [sub_self, min_self] at this
    refine this.congr fun k => ?_
    by_cases hk : k < 5000
    · rw [if_pos hk, min_eq_left (by linarith)]
    · rw [if_neg hk, min_eq_right (by linarith)]
  refine h.congr' ?_
  filter_upwards [self_mem_nhdsWithin] with y hy
  have hy : y - 5000 ≠ 0 := sub_ne_zero.2 hy
  rw [slope_def_field]
  by_cases hk : y < 5000
  · simp only [softT, if_pos hk, lt_irrefl, if_false, sub_zero]
    rw [eq_div_iff hy]; ring
  · simp [softT, if_neg hk]

theorem transferJvp_soft (s : ℝ) : TransferJvp s (fun _ => softT) softTD := by
  intro A a ha _
  have hd : Jvp (fun r => (5000 - A r) ^ 2) s ((5000 - a) ^ 2) := ((Jvp.nat 5000 s).sub ha).npow 2
  have hv : a.val = fin (A s) := by obtain ⟨_, -, h, -⟩ := ha; exact h
  have hA : ContinuousAt A s := by obtain ⟨_, h, -⟩ := ha; exact h.continuousAt
  rcases lt_trichotomy (A s) 5000 with h | h | h
  · refine Jvp.sel_pos ⟨_, h, hv⟩ (hd.congr ?_)
    filter_upwards [hA.eventually_lt continuousAt_const h] with r hr
    simp [softT, hr]
  · have hc : ¬ ∃ x < 5000, a.val = fin x := by
      rintro ⟨x, hx, e⟩
      rw [hv, fin.injEq] at e; linarith
    refine Jvp.sel_neg hc ⟨0, ?_, ?_, rfl⟩
    · obtain ⟨d, hd, -⟩ := ha
      have := hasDerivAt_softT
      rw [← h] at this
      have hcomp := this.comp s hd
      rw [zero_mul] at hcomp
      exact hcomp
    · simp only [softT, h, lt_irrefl, if_false]; rfl
  · have hc : ¬ ∃ x < 5000, a.val = fin x := by
      rintro ⟨x, hx, e⟩
      rw [hv, fin.injEq] at e; linarith
    refine Jvp.sel_neg hc ((Jvp.zero s).congr ?_)
    filter_upwards [continuousAt_const.eventually_lt hA h] with r hr
    simp [softT, not_lt.2 hr.le]

/-- The amplitude alone changes. -/
noncomputable def amplitudeOnly : Params :=
  { Omega_c := 0, Omega_b := 0, h := 0, n_s := 0, sigma8 := Planck15.sigma8, Omega_k := 0, w0 := 0,
    wa := 0, gamma := none }

/-- C122 as stated is false: with some spectra and some amplitude the non-linear scale has no
derivative at all (it jumps), while the code returns one. -/
theorem C122_refuted : ¬ ∀ (P : ℝ → Params) (v : Params) (θ : ℝ) (T : ℝ → ℝ → ℝ) (TD : Du → Du),
    Along P v θ → TransferJvp θ T TD → Physical (P θ) →
    (∀ k, 0 < k → k ≤ 1000 → 0 < linearMatterPower (P θ) (T θ) k 1) →
    Jvp (fun s => Halofit.R_nl (P s) (T s) 1) θ
      (Dm.Halofit.R_nl (seedParams (P θ) v) TD (Du.con 1)) := by
  intro H
  have hg1 : growthOf Planck15 1 = 1 := C10_one _ planck_physical
  have hT : ∀ k, k ≤ 1000 → softT k ≠ 0 := fun k hk => by
    rw [softT, if_pos (by linarith)]; have : 0 < 5000 - k := by linarith
    positivity
  have hTe : softT (Real.exp (-4)) ≠ 0 :=
    hT _ ((Real.exp_le_one_iff.2 (by norm_num)).trans (by norm_num))
  obtain ⟨s, hs, hn⟩ := C81_cutoff Planck15 softT 1 hg1 (fun k hk => by
    rw [softT, if_neg (by linarith)])
    (linear_pos_of_ne one_pos hTe (hT _ (by norm_num)) (by norm_num [Planck15]) (by rw [hg1]; norm_num))
  have hl : Along (fun r => { Planck15 with sigma8 := r * Planck15.sigma8 }) amplitudeOnly s :=
    { Omega_c := hasDerivAt_const _ _
      Omega_b := hasDerivAt_const _ _
      h := hasDerivAt_const _ _
      n_s := hasDerivAt_const _ _
      sigma8 := by simpa [amplitudeOnly] using (hasDerivAt_id s).mul_const Planck15.sigma8
      Omega_k := hasDerivAt_const _ _
      w0 := hasDerivAt_const _ _
      wa := hasDerivAt_const _ _
      gamma := fun _ => rfl }
  obtain ⟨d, hd, -⟩ := H _ _ s (fun _ => softT) softTD hl (transferJvp_soft s)
    ⟨planck_physical.m_pos, planck_physical.k_nonneg, planck_physical.de_nonneg, planck_physical.w_range⟩
    (fun k hk hk' => linear_pos_of_ne hk hTe (hT k hk')
      (mul_pos hs (by norm_num [Planck15])).ne' (by
        change growthOf Planck15 1 ≠ 0
        rw [hg1]; norm_num))
  exact hn hd.continuousAt

/-! ## Witnesses -/

/-- The straight line of cosmologies through `p` with velocity `v` (growth by the differential
equation). -/
noncomputable def shifted (p v : Params) (s : ℝ) : Params where
  Omega_c := p.Omega_c + s * v.Omega_c
  Omega_b := p.Omega_b + s * v.Omega_b
  h := p.h + s * v.h
  n_s := p.n_s + s * v.n_s
  sigma8 := p.sigma8 + s * v.sigma8
  Omega_k := p.Omega_k + s * v.Omega_k
  w0 := p.w0 + s * v.w0
  wa := p.wa + s * v.wa
  gamma := none

theorem hasDerivAt_shift (c d : ℝ) : HasDerivAt (fun s : ℝ => c + s * d) d 0 := by
  simpa using ((hasDerivAt_id (0 : ℝ)).mul_const d).const_add c

theorem shifted_along (p v : Params) (hv : v.gamma = none) : Along (shifted p v) v 0 where
  Omega_c := hasDerivAt_shift _ _
  Omega_b := hasDerivAt_shift _ _
  h := hasDerivAt_shift _ _
  n_s := hasDerivAt_shift _ _
  sigma8 := hasDerivAt_shift _ _
  Omega_k := hasDerivAt_shift _ _
  w0 := hasDerivAt_shift _ _
  wa := hasDerivAt_shift _ _
  gamma := by simp [hv, shifted]

theorem shifted_zero (p v : Params) (hp : p.gamma = none) : shifted p v 0 = p := by
  cases p; simp_all [shifted]

/-- All parameters change together. -/
noncomputable def allTogether : Params :=
  { Omega_c := 1, Omega_b := 1, h := 1, n_s := 1, sigma8 := 1, Omega_k := 1, w0 := 1, wa := 1,
    gamma := none }

theorem planck_line : Along (shifted Planck15 allTogether) allTogether 0 := shifted_along _ _ rfl
theorem planck_line_zero : shifted Planck15 allTogether 0 = Planck15 := shifted_zero _ _ rfl

theorem planck_line_baryonic : (shifted Planck15 allTogether 0).Baryonic := by
  rw [planck_line_zero]; exact planck_baryonic

/-- Witness for `C121_smooth`: Planck 2015, all parameters and the wavenumber changing together. -/
example : Jvp (fun s => nowiggle (shifted Planck15 allTogether s) (0.1 + s * 2)) 0
    (Dm.EH.nowiggle (seedParams (shifted Planck15 allTogether 0) allTogether)
      ⟨fin (0.1 + 0 * 2), some (fin 2)⟩) :=
  C121_smooth planck_line planck_line_baryonic (by rw [planck_line_zero]; exact planck_alpha.1.le)
    (hasDerivAt_shift _ _) (by norm_num)

/-- Witness for `C121_oscillating`. -/
example : Jvp (fun s => wiggle (shifted Planck15 allTogether s) (0.1 + s * 2)) 0
    (Dm.EH.wiggle (seedParams (shifted Planck15 allTogether 0) allTogether)
      ⟨fin (0.1 + 0 * 2), some (fin 2)⟩) :=
  C121_oscillating planck_line planck_line_baryonic (hasDerivAt_shift _ _)
    (by norm_num)

/-- Witness for `C121_variance`: the variance at a changing radius, with the oscillating transfer
function. -/
example : Jvp (fun s => sigmasqr (shifted Planck15 allTogether s) (8 + s * 1)
      (wiggle (shifted Planck15 allTogether s))) 0
    (Dm.sigmasqr (seedParams (shifted Planck15 allTogether 0) allTogether)
      ⟨fin (8 + 0 * 1), some (fin 1)⟩
      (Dm.EH.wiggle (seedParams (shifted Planck15 allTogether 0) allTogether))) :=
  C121_variance planck_line (transferJvp_oscillating planck_line planck_line_baryonic)
    (hasDerivAt_shift _ _) (by norm_num)

/-- Witness for `C121_linear`: the linear power spectrum at redshift one. -/
example : Jvp (fun s => linearMatterPower (shifted Planck15 allTogether s)
      (wiggle (shifted Planck15 allTogether s)) (0.1 + s * 2) 0.5) 0
    (Dm.linearMatterPower (seedParams (shifted Planck15 allTogether 0) allTogether)
      (Dm.EH.wiggle (seedParams (shifted Planck15 allTogether 0) allTogether))
      ⟨fin (0.1 + 0 * 2), some (fin 2)⟩ (Du.con 0.5)) :=
  C121_linear planck_line (transferJvp_oscillating planck_line planck_line_baryonic)
    (by rw [planck_line_zero]; exact planck_physical) (by rw [planck_line_zero]; exact C113_planck.1.ne')
    (by norm_num) (by norm_num) (hasDerivAt_shift _ _) (by norm_num)

theorem linspace_ge {a b : ℝ} (hab : a ≤ b) {N : ℕ} (hN : 0 < N) (i : ℕ) :
    a ≤ linspace a b (N + 1) i := by
  rw [linspace_succ]
  have := sub_nonneg.2 hab
  have : 0 ≤ (i : ℝ) * ((b - a) / N) := by positivity
  linarith

/-- Simpson's rule of a function bounded on the interval. -/
theorem simpsBody_le_const {f : ℝ → ℝ} {a b c : ℝ} (hab : a ≤ b)
    (h : ∀ x, a ≤ x → f x ≤ c) : simpsBody f a b 256 ≤ (b - a) * c := by
  simp only [simpsBody]
  have hba : 0 ≤ b - a := by linarith
  have hs : ∑ i ∈ Finset.range (256 / 2), (f (linspace a b (256 + 1) (2 * i))
      + 4 * f (linspace a b (256 + 1) (2 * i + 1)) + f (linspace a b (256 + 1) (2 * i + 2)))
      ≤ ∑ i ∈ Finset.range (256 / 2), 6 * c := by
    refine Finset.sum_le_sum fun i _ => ?_
    have h1 := h _ (linspace_ge hab (N := 256) (by norm_num) (2 * i))
    have h2 := h _ (linspace_ge hab (N := 256) (by norm_num) (2 * i + 1))
    have h3 := h _ (linspace_ge hab (N := 256) (by norm_num) (2 * i + 2))
    linarith
  rw [Finset.sum_const, Finset.card_range, nsmul_eq_mul] at hs
  refine (mul_le_mul_of_nonneg_left hs (by positivity)).trans (le_of_eq ?_)
  push_cast
  ring

/-- Simpson's rule of a non-negative function is at least the contribution of its first node. -/
theorem first_le_simpsBody {f : ℝ → ℝ} {a b : ℝ} (hab : a ≤ b) (h : ∀ x, 0 ≤ f x) :
    (b - a) / 768 * f a ≤ simpsBody f a b 256 := by
  simp only [simpsBody]
  have hba : 0 ≤ b - a := by linarith
  have hs := Finset.single_le_sum (f := fun i => f (linspace a b (256 + 1) (2 * i))
      + 4 * f (linspace a b (256 + 1) (2 * i + 1)) + f (linspace a b (256 + 1) (2 * i + 2)))
    (s := Finset.range (256 / 2)) (fun i _ => by
      have := h (linspace a b (256 + 1) (2 * i))
      have := h (linspace a b (256 + 1) (2 * i + 1))
      have := h (linspace a b (256 + 1) (2 * i + 2))
      positivity) (Finset.mem_range.2 (show 0 < 256 / 2 by norm_num))
  have e : linspace a b (256 + 1) (2 * 0) = a := by simp [linspace]
  have h1 := h (linspace a b (256 + 1) (2 * 0 + 1))
  have h2 := h (linspace a b (256 + 1) (2 * 0 + 2))
  have hs' : f a ≤ _ := le_trans (by rw [e]; linarith) hs
  refine le_trans (le_of_eq ?_) (mul_le_mul_of_nonneg_left hs' (show 0 ≤ (b - a) / (256 : ℕ) / 3 by positivity))
  push_cast
  ring

/-- When the variance is one at a node of the table, none of the ties occurs. -/
theorem halofitPoint_tuned {p : Params} {T : ℝ → ℝ} {a : ℝ} (hp : PowerPoint p T a)
    (hT : T 1e-4 ≠ 0) (h8 : p.sigma8 ≠ 0) (hg : growthOf p a ≠ 0) {i : ℕ} (hi : i < 256)
    (h : Halofit.sigma p T a i = 1) : HalofitPoint p T a ∧ Halofit.R_nl p T a = Real.exp (Halofit.logr i) := by
  have hOK : PowerOK p (fun y => match y with | .fin k => fin (T k) | _ => nan) T a :=
    ⟨hp.phys, fun _ _ => rfl, hp.norm, hT, h8, hg⟩
  have hdec : Decreasing 256 (Halofit.sigma p T a) := fun i j hij _ => sigma_decreasing' hOK hij
  have hroot : interp 256 (Halofit.sigma p T a) Halofit.logr 1 = Halofit.logr i := by
    have := C20_nodes (by norm_num) hdec Halofit.logr (i := i) hi
    rwa [h] at this
  have hr : 1e-4 ≤ Real.exp (Halofit.logr i) := by
    rw [logr_eq, Real.exp_add, Real.exp_log (by norm_num)]
    have : 0 ≤ i * logrStep := by have := logrStep_pos; positivity
    have := Real.one_le_exp this
    linarith
  refine ⟨⟨hp, hT, h8, hg, fun j _ hm => ?_, ?_⟩, ?_⟩
  · have hjj := sigma_decreasing' hOK (show j < j + 1 by omega)
    rcases Nat.lt_or_ge j i with hji | hji
    · rcases (show j + 1 ≤ i from hji).eq_or_lt with e | e
      · rw [e, h] at hm hjj; linarith
      · have := sigma_decreasing' hOK e
        rw [h] at this; linarith
    · rcases hji.eq_or_lt with e | e
      · rw [← e, h] at hm hjj; linarith
      · have := sigma_decreasing' hOK e
        rw [h] at this; linarith
  · rw [hroot]; intro e; rw [e] at hr; norm_num at hr
  · unfold Halofit.R_nl
    simp only [clipLo]
    rw [hroot, max_eq_left]
    norm_num at hr ⊢
    linarith

/-- Planck 2015 with a steep primordial spectrum and a free amplitude. -/
noncomputable def steepPlanck (σ : ℝ) : Params := { Planck15 with n_s := -20, sigma8 := σ }

theorem steep_physical (σ : ℝ) : Physical (steepPlanck σ) :=
  ⟨planck_physical.m_pos, planck_physical.k_nonneg, planck_physical.de_nonneg, planck_physical.w_range⟩

theorem steep_baryonic (σ : ℝ) : (steepPlanck σ).Baryonic :=
  ⟨planck_baryonic.b_pos, planck_baryonic.c_pos, planck_baryonic.h_pos⟩

theorem planck_nowiggle_range {k : ℝ} (hk : 0 ≤ k) :
    0 < nowiggle Planck15 k ∧ nowiggle Planck15 k ≤ 1 := by
  obtain ⟨u, hu, h0, h1⟩ := C43_shape Planck15 planck_baryonic planck_alpha.1.le k hk
  rw [show nowiggle Planck15 k = u from Except.ok.inj hu]
  exact ⟨h0, h1⟩

/-- The smooth transfer function has not dropped by half at the first wavenumber of the integrals. -/
theorem planck_nowiggle_start : 1 / 2 ≤ nowiggle Planck15 1e-4 := by
  have hα := planck_alpha
  have hs := planck_shd
  have hs0 := shd_pos planck_baryonic
  have hΓ : 0.1 ≤ gamma_eff Planck15 1e-4 := by
    unfold gamma_eff
    have hx : (0.43 * 1e-4 * sh_d Planck15) ^ 4 ≤ 1 := pow_le_one₀ (by positivity) (by linarith)
    have hx0 : 0 ≤ (0.43 * 1e-4 * sh_d Planck15) ^ 4 := by positivity
    have h1 : (1 - alpha_gamma Planck15) / 2
        ≤ (1 - alpha_gamma Planck15) / (1 + (0.43 * 1e-4 * sh_d Planck15) ^ 4) :=
      div_le_div_of_nonneg_left (by linarith) (by linarith) (by linarith)
    have h2 : 1 / 2 ≤ alpha_gamma Planck15
        + (1 - alpha_gamma Planck15) / (1 + (0.43 * 1e-4 * sh_d Planck15) ^ 4) := by linarith
    have h3 : 0.2 ≤ Planck15.Omega_m * Planck15.h := by norm_num [Planck15, Params.Omega_m]
    calc (0.1 : ℝ) = 0.2 * (1 / 2) := by norm_num
      _ ≤ _ := mul_le_mul h3 h2 (by norm_num) (by linarith)
  rw [nowiggle_eq]
  have hq : 1e-4 * T_2_7_sqr / gamma_eff Planck15 1e-4 ≤ 0.01 := by
    rw [div_le_iff₀ (by linarith)]
    have : T_2_7_sqr ≤ 2 := by norm_num [T_2_7_sqr, const_tcmb]
    linarith
  have hq0 : 0 ≤ 1e-4 * T_2_7_sqr / gamma_eff Planck15 1e-4 := by
    have := T27_pos
    have : 0 < gamma_eff Planck15 1e-4 := by linarith
    positivity
  generalize 1e-4 * T_2_7_sqr / gamma_eff Planck15 1e-4 = q at *
  rw [nowiggleOfQ_eq hq0]
  have hL := log_two_e hq0
  have hC : 14.2 + 731 / (1 + 62.5 * q) ≤ 745.2 := by
    have : 731 / (1 + 62.5 * q) ≤ 731 := div_le_self (by norm_num) (by linarith)
    linarith
  have hC0 : 0 < 14.2 + 731 / (1 + 62.5 * q) := by positivity
  have hqL : q / Real.log (2 * Real.exp 1 + 1.8 * q) ≤ q := div_le_self hq0 hL.le
  have hqL0 : 0 ≤ q / Real.log (2 * Real.exp 1 + 1.8 * q) := div_nonneg hq0 (by linarith)
  generalize 14.2 + 731 / (1 + 62.5 * q) = C at *
  generalize q / Real.log (2 * Real.exp 1 + 1.8 * q) = u at *
  have h1 : C * q ≤ 7.452 := by
    calc C * q ≤ 745.2 * 0.01 := mul_le_mul hC hq hq0 (by norm_num)
      _ = 7.452 := by norm_num
  have h2 : C * q * u ≤ 7.452 * 0.01 :=
    mul_le_mul h1 (hqL.trans hq) hqL0 (by norm_num)
  have h3 : 0 ≤ C * q * u := by positivity
  rw [div_le_div_iff₀ (by norm_num) (by linarith)]
  linarith

/-- With the variance equal to one at the smallest radius and a spectrum this steep, the argument of
the absolute value is positive. -/
theorem steep_alpha {σ : ℝ}
    (h : Halofit.sigma (steepPlanck σ) (nowiggle Planck15) 1 0 = 1)
    (hR : Halofit.R_nl (steepPlanck σ) (nowiggle Planck15) 1 = Real.exp (Halofit.logr 0)) :
    6.0835 + 1.3373 * Halofit.n_eff (steepPlanck σ) (nowiggle Planck15) 1
      - 0.1959 * Halofit.n_eff (steepPlanck σ) (nowiggle Planck15) 1 ^ 2
      - 5.5274 * Halofit.curv (steepPlanck σ) (nowiggle Planck15) 1 ≠ 0 := by
  set p := steepPlanck σ with hp
  set T := nowiggle Planck15 with hT
  have hr0 : Real.exp (Halofit.logr 0) = 1e-4 := by
    rw [logr_eq]; push_cast; rw [zero_mul, add_zero, Real.exp_log (by norm_num)]
  have hk : 1 / Halofit.k_nl p T 1 = 1e-4 := by
    unfold Halofit.k_nl; rw [one_div_one_div, hR, hr0]
  have hg : growthOf p 1 = 1 := C10_one _ (steep_physical σ)
  set M := p.sigma8 ^ 2 / sigmasqr p 8 T / (2 * Real.pi ^ 2) with hM
  have hpi := Real.pi_pos
  have hM0 : 0 ≤ M := div_nonneg (div_nonneg (sq_nonneg _) (sigmasqr_nonneg _ _ _)) (by positivity)
  have hres : ∀ t, Halofit.res p T 1 t
      = M * (Real.exp t ^ (-20 : ℝ) * Real.exp t ^ 3 * T (Real.exp t) ^ 2
        * Real.exp (-((Real.exp t * 1e-4) ^ 2))) := by
    intro t
    unfold Halofit.res linearMatterPower primordialMatterPower
    simp only [hg, hk]
    rw [hM, show p.n_s = -20 from rfl]
    field_simp
  have hresσ : ∀ t, Halofit.intSigma p T 1 (Real.exp (Halofit.logr 0)) t = Halofit.res p T 1 t := by
    intro t
    unfold Halofit.intSigma Halofit.res
    simp only [hg, hk, hr0]
    ring
  have hres0 : ∀ t, 0 ≤ Halofit.res p T 1 t := fun t => by rw [hres]; positivity
  have hlog : Real.log 1e-4 ≤ Real.log 1e4 := log_range.le
  have hexp : ∀ t, Real.log 1e-4 ≤ t → 1e-4 ≤ Real.exp t := fun t ht =>
    (Real.log_le_iff_le_exp (by norm_num)).1 ht
  have hpow : ∀ t : ℝ, Real.exp t ^ (-20 : ℝ) = (Real.exp t ^ 20)⁻¹ := fun t => by
    rw [Real.rpow_neg (Real.exp_pos t).le]; norm_cast
  -- the first node
  have hfirst : (Real.log 1e4 - Real.log 1e-4) / 768 * (M * (1e68 * (1 / 4) * (1 / 2))) ≤ 1 := by
    have := first_le_simpsBody (f := Halofit.intSigma p T 1 (Real.exp (Halofit.logr 0))) hlog
      (fun t => by rw [hresσ]; exact hres0 t)
    rw [show simpsBody (Halofit.intSigma p T 1 (Real.exp (Halofit.logr 0))) (Real.log 1e-4)
      (Real.log 1e4) 256 = 1 from h, hresσ, hres, hpow, Real.exp_log (by norm_num)] at this
    refine le_trans ?_ this
    have hT2 : 1 / 4 ≤ T 1e-4 ^ 2 := by
      have := planck_nowiggle_start
      rw [← hT] at this
      calc (1 / 4 : ℝ) = (1 / 2) ^ 2 := by norm_num
        _ ≤ _ := pow_le_pow_left₀ (by norm_num) this 2
    have hE : 1 / 2 ≤ Real.exp (-((1e-4 * 1e-4 : ℝ) ^ 2)) := by
      have := Real.add_one_le_exp (-((1e-4 * 1e-4 : ℝ) ^ 2))
      norm_num at this ⊢
      linarith
    have e68 : (1e68 : ℝ) = ((1e-4 : ℝ) ^ 20)⁻¹ * 1e-4 ^ 3 := by norm_num
    rw [e68]
    have hba : 0 ≤ (Real.log 1e4 - Real.log 1e-4) / 768 := div_nonneg (by linarith) (by norm_num)
    refine mul_le_mul_of_nonneg_left (mul_le_mul_of_nonneg_left ?_ hM0) hba
    exact mul_le_mul (mul_le_mul_of_nonneg_left hT2 (by positivity)) hE (by norm_num) (by positivity)
  -- the index integral
  have hr : Halofit.res0 p T 1 ≤ (Real.log 1e4 - Real.log 1e-4) * (2 * M * 1e52) := by
    refine simpsBody_le_const hlog fun t ht => ?_
    simp only
    rw [hk, hres, hpow]
    have he := hexp t ht
    have h0 := Real.exp_pos t
    obtain ⟨hT0, hT1⟩ := planck_nowiggle_range h0.le
    rw [← hT] at hT0 hT1
    have hT2 : T (Real.exp t) ^ 2 ≤ 1 := pow_le_one₀ hT0.le hT1
    have hg1 : Real.exp (-((Real.exp t * 1e-4) ^ 2)) ≤ 1 := by
      rw [Real.exp_le_one_iff]; have := sq_nonneg (Real.exp t * 1e-4); linarith
    generalize Real.exp (-((Real.exp t * 1e-4) ^ 2)) = g at *
    generalize T (Real.exp t) = τ at *
    generalize Real.exp t = x at *
    have hx : (x ^ 20)⁻¹ * x ^ 3 * x ^ 2 = (x ^ 15)⁻¹ := by field_simp
    have hx2 : (x ^ 15)⁻¹ ≤ 1e60 := by
      rw [inv_le_comm₀ (by positivity) (by norm_num)]
      calc (1e60 : ℝ)⁻¹ = 1e-4 ^ 15 := by norm_num
        _ ≤ x ^ 15 := pow_le_pow_left₀ (by norm_num) he 15
    calc 2 * (M * ((x ^ 20)⁻¹ * x ^ 3 * τ ^ 2 * g)) * (x * 1e-4) ^ 2
        = 2 * M * 1e-8 * ((x ^ 20)⁻¹ * x ^ 3 * x ^ 2) * (τ ^ 2 * g) := by ring
      _ ≤ 2 * M * 1e-8 * (x ^ 15)⁻¹ * 1 := by
        rw [hx]
        refine mul_le_mul_of_nonneg_left ?_ (by positivity)
        by_cases hgn : 0 ≤ g
        · exact mul_le_one₀ hT2 hgn hg1
        · have : τ ^ 2 * g ≤ 0 := mul_nonpos_of_nonneg_of_nonpos (sq_nonneg _) (by linarith)
          linarith
      _ ≤ 2 * M * 1e-8 * 1e60 := by
        rw [mul_one]; exact mul_le_mul_of_nonneg_left hx2 (by positivity)
      _ = 2 * M * 1e52 := by norm_num; ring
  have hr0' : 0 ≤ Halofit.res0 p T 1 := by
    have := simpsBody_le hlog (N := 256) (f := fun _ => (0 : ℝ))
      (g := fun logk => let y := Real.exp logk * (1 / Halofit.k_nl p T 1); 2 * Halofit.res p T 1 logk * y ^ 2)
      (fun t => by have := hres0 t; positivity)
    rwa [simpsBody_zero] at this
  have hr1 : Halofit.res1 p T 1 ≤ 2 * Halofit.res0 p T 1 := by
    unfold Halofit.res1 Halofit.res0
    rw [← simpsBody_smul]
    refine simpsBody_le hlog fun t => ?_
    simp only
    have h1 := hres0 t
    have h2 : 0 ≤ (Real.exp t * (1 / Halofit.k_nl p T 1)) ^ 4 := by positivity
    have := mul_nonneg h1 h2
    linarith
  unfold Halofit.n_eff Halofit.curv
  have hsmall : Halofit.res0 p T 1 ≤ 0.01 := by
    generalize Real.log 1e4 - Real.log 1e-4 = L at *
    have e : L / 768 * (M * (1e68 * (1 / 4) * (1 / 2))) = L * (2 * M * 1e52) * (1e16 / 12288) := by
      norm_num; ring
    rw [e] at hfirst
    linarith
  generalize Halofit.res0 p T 1 = r at *
  generalize Halofit.res1 p T 1 = r1 at *
  have hsq : r ^ 2 ≤ 0.01 * r := by rw [sq]; exact mul_le_mul_of_nonneg_right hsmall hr0'
  intro hc
  have e : 6.0835 + 1.3373 * (r - 3) - 0.1959 * (r - 3) ^ 2 - 5.5274 * (r ^ 2 + r1)
      = 0.3085 + 2.5127 * r - 5.7233 * r ^ 2 - 5.5274 * r1 := by ring
  rw [e] at hc
  linarith

theorem steep_tuned : ∃ σ, 0 < σ ∧ HalofitPoint (steepPlanck σ) (nowiggle Planck15) 1 ∧
    6.0835 + 1.3373 * Halofit.n_eff (steepPlanck σ) (nowiggle Planck15) 1
      - 0.1959 * Halofit.n_eff (steepPlanck σ) (nowiggle Planck15) 1 ^ 2
      - 5.5274 * Halofit.curv (steepPlanck σ) (nowiggle Planck15) 1 ≠ 0 := by
  have hT : ∀ k, 0 < k → nowiggle Planck15 k ≠ 0 := fun k hk => (planck_nowiggle_range hk.le).1.ne'
  have hg : growthOf (steepPlanck 1) 1 ≠ 0 := growthOf_one_ne (steep_physical 1)
  obtain ⟨s, hs0, hs⟩ := exists_tuned (steepPlanck 1) (nowiggle Planck15) 1
    (fun k hk => linear_pos_of_ne hk (hT _ (Real.exp_pos _)) (hT k hk) one_ne_zero hg) hg 0
  have hs' : Halofit.sigma (steepPlanck (s * 1)) (nowiggle Planck15) 1 0 = 1 := hs
  rw [mul_one] at hs'
  obtain ⟨h1, h2⟩ := halofitPoint_tuned ⟨steep_physical s, hT _ (Real.exp_pos _), by norm_num, le_rfl⟩
    (hT _ (by norm_num)) hs0.ne' (growthOf_one_ne (steep_physical s)) (by norm_num) hs'
  exact ⟨s, hs0, h1, steep_alpha hs' h2⟩

theorem steep_zero (σ : ℝ) : shifted (steepPlanck σ) allTogether 0 = steepPlanck σ :=
  shifted_zero _ _ rfl

/-- Witness for `C122_scale_partial` and `C122_takahashi_partial`: Planck 2015 with a steep primordial
spectrum and the amplitude that puts the non-linear scale at the first radius of the table, every
parameter and the wavenumber changing together. -/
example : ∃ (σ : ℝ) (F : ℝ → ℝ) (x : Du), 0 < σ ∧
    (∀ s, halofit (shifted (steepPlanck σ) allTogether s) (0.1 + s * 2) 1
      (nowiggle (shifted (steepPlanck σ) allTogether s)) = .ok (F s)) ∧
    Dm.halofit (seedParams (shifted (steepPlanck σ) allTogether 0) allTogether)
      ⟨fin (0.1 + 0 * 2), some (fin 2)⟩ (Du.con 1)
      (Dm.EH.nowiggle (seedParams (shifted (steepPlanck σ) allTogether 0) allTogether)) = .ok x ∧
    Jvp F 0 x := by
  obtain ⟨σ, hσ, h1, h2⟩ := steep_tuned
  have hl := shifted_along (steepPlanck σ) allTogether rfl
  have eT : nowiggle (shifted (steepPlanck σ) allTogether 0) = nowiggle Planck15 := by
    rw [steep_zero]; rfl
  have hTr := transferJvp_smooth hl (by rw [steep_zero]; exact steep_baryonic σ)
    (by rw [steep_zero]; exact planck_alpha.1.le)
  obtain ⟨F, x, hF, hx, hJ⟩ := C122_takahashi_partial hl hTr (a := 1)
    (by simp only [eT]; rw [steep_zero]; exact h1) (by simp only [eT]; rw [steep_zero]; exact h2)
    (hasDerivAt_shift 0.1 2) (by norm_num)
  exact ⟨σ, F, x, hσ, hF, hx, hJ⟩

/-- On large enough scales there is too little power for the denominator to vanish. -/
theorem exists_large_scale {p : Params} {T : ℝ → ℝ} (α : ℝ) (hg : growthOf p 1 = 1) (hn : 0 ≤ p.n_s)
    (hT : ∀ k, 0 < k → 0 ≤ T k ∧ T k ≤ 1) :
    ∃ k, 0 < k ∧ 1 + α * (k ^ 3 * linearMatterPower p T k 1 / (2 * Real.pi ^ 2)) ≠ 0 := by
  set N := p.sigma8 ^ 2 / sigmasqr p 8 T with hN
  have hN0 : 0 ≤ N := div_nonneg (sq_nonneg _) (sigmasqr_nonneg _ _ _)
  have hb : 0 ≤ |α| * N := mul_nonneg (abs_nonneg _) hN0
  set k := 1 / (1 + |α| * N) with hk
  have hk0 : 0 < k := by rw [hk]; positivity
  have hk1 : k ≤ 1 := by rw [hk, div_le_one (by positivity)]; linarith
  refine ⟨k, hk0, ?_⟩
  obtain ⟨h0, h1⟩ := hT k hk0
  have hP : linearMatterPower p T k 1 = k ^ p.n_s * T k ^ 2 * N := by
    unfold linearMatterPower primordialMatterPower
    simp only [hg]
    rw [hN]; ring
  have hkn : k ^ p.n_s ≤ 1 := Real.rpow_le_one hk0.le hk1 hn
  have hkn0 := Real.rpow_pos_of_pos hk0 p.n_s
  have hu2 : T k ^ 2 ≤ 1 := pow_le_one₀ h0 h1
  have hk3 : k ^ 3 ≤ k := by nlinarith [mul_nonneg hk0.le hk0.le]
  have hpi : 1 ≤ 2 * Real.pi ^ 2 := by nlinarith [Real.pi_gt_three]
  have hle : k ^ 3 * linearMatterPower p T k 1 / (2 * Real.pi ^ 2) ≤ k * N := by
    rw [hP, div_le_iff₀ (by positivity)]
    have e1 : k ^ p.n_s * T k ^ 2 * N ≤ N :=
      mul_le_of_le_one_left hN0 (mul_le_one₀ hkn (by positivity) hu2)
    calc k ^ 3 * (k ^ p.n_s * T k ^ 2 * N) ≤ k * N :=
          mul_le_mul hk3 e1 (by positivity) hk0.le
      _ ≤ k * N * (2 * Real.pi ^ 2) := le_mul_of_one_le_right (by positivity) hpi
  have hd0 : 0 ≤ k ^ 3 * linearMatterPower p T k 1 / (2 * Real.pi ^ 2) := by
    have := linear_nonneg p T hk0 1
    have := Real.pi_pos
    positivity
  generalize k ^ 3 * linearMatterPower p T k 1 / (2 * Real.pi ^ 2) = d at hle hd0
  have h2 : |α| * d < 1 := by
    calc |α| * d ≤ |α| * (k * N) := mul_le_mul_of_nonneg_left hle (abs_nonneg _)
      _ = |α| * N / (1 + |α| * N) := by rw [hk]; ring
      _ < 1 := by rw [div_lt_one (by positivity)]; linarith
  have h3 : -(|α| * d) ≤ α * d := by
    have := mul_le_mul_of_nonneg_right (neg_abs_le α) hd0
    linarith
  linarith

/-- Witness for `C122_smith_partial`: on large scales in the Planck 2015 cosmology with the amplitude
that puts the non-linear scale at a radius of the table. -/
example : ∃ σ : ℝ, ∃ k : ℝ, 0 < σ ∧ 0 < k ∧ ∃ (F : ℝ → ℝ) (x : Du),
    (∀ s, halofit (shifted { Planck15 with sigma8 := σ } allTogether s) (k + s * 2) 1
      (nowiggle (shifted { Planck15 with sigma8 := σ } allTogether s)) "smith2003" = .ok (F s)) ∧
    Dm.halofit (seedParams (shifted { Planck15 with sigma8 := σ } allTogether 0) allTogether)
      ⟨fin (k + 0 * 2), some (fin 2)⟩ (Du.con 1)
      (Dm.EH.nowiggle (seedParams (shifted { Planck15 with sigma8 := σ } allTogether 0) allTogether))
      "smith2003" = .ok x ∧
    Jvp F 0 x := by
  have hT : ∀ k, 0 < k → nowiggle Planck15 k ≠ 0 := fun k hk => (planck_nowiggle_range hk.le).1.ne'
  have hg := growthOf_one_ne planck_physical
  obtain ⟨s, hs0, hs⟩ := exists_tuned Planck15 (nowiggle Planck15) 1
    (fun k hk => linear_pos_of_ne hk (hT _ (Real.exp_pos _)) (hT k hk) (by norm_num [Planck15]) hg) hg 200
  set σ := s * Planck15.sigma8 with hσ
  have hσ0 : 0 < σ := by rw [hσ]; exact mul_pos hs0 (by norm_num [Planck15])
  set p : Params := { Planck15 with sigma8 := σ } with hp
  have hphys : Physical p :=
    ⟨planck_physical.m_pos, planck_physical.k_nonneg, planck_physical.de_nonneg, planck_physical.w_range⟩
  have hbar : p.Baryonic := ⟨planck_baryonic.b_pos, planck_baryonic.c_pos, planck_baryonic.h_pos⟩
  have h0 : shifted p allTogether 0 = p := shifted_zero _ _ rfl
  have hl := shifted_along p allTogether rfl
  have eT : nowiggle (shifted p allTogether 0) = nowiggle Planck15 := by rw [h0]; rfl
  have hTr := transferJvp_smooth hl (by rw [h0]; exact hbar) (by rw [h0]; exact planck_alpha.1.le)
  obtain ⟨hpt, -⟩ := halofitPoint_tuned ⟨hphys, hT _ (Real.exp_pos _), by norm_num, le_rfl⟩
    (hT _ (by norm_num)) hσ0.ne' (growthOf_one_ne hphys) (by norm_num) hs
  set α := (Halofit.smith2003 (Halofit.n_eff p (nowiggle Planck15) 1)
    (Halofit.curv p (nowiggle Planck15) 1)).alpha_n with hα
  obtain ⟨k, hk0, hkd⟩ := exists_large_scale α (C10_one _ hphys) (T := nowiggle Planck15)
    (show (0 : ℝ) ≤ Planck15.n_s by norm_num [Planck15]) fun k hk =>
      ⟨(planck_nowiggle_range hk.le).1.le, (planck_nowiggle_range hk.le).2⟩
  obtain ⟨F, x, hF, hx, hJ⟩ := C122_smith_partial hl hTr (a := 1)
    (by simp only [eT]; rw [h0]; exact hpt)
    (by rw [h0]; unfold Omega_m_a; rw [C02_Esqr_one]; norm_num [hp, Planck15, Params.Omega_m])
    (hasDerivAt_shift k 2) (by simpa using hk0) (by
      simp only [eT, zero_mul, add_zero]
      rw [h0, ← hα]
      exact hkd)
  exact ⟨σ, k, hσ0, hk0, F, x, hF, hx, hJ⟩

end JaxCosmo
