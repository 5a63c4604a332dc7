import Verif.Props.TableConvergence
import Verif.Props.Quadrature
import Verif.Props.Kernels
import Verif.Props.Continuity
import Verif.Spec.Limber
import Mathlib.MeasureTheory.Function.Jacobian

/-! # C134: angular spectra are Limber projections along the line of sight -/

namespace JaxCosmo
open Spec Set

/-- The exact line-of-sight distance to scale factor `a`. -/
noncomputable def exactChi (p : Params) (a : ℝ) : ℝ := comovingDistance const_rh (expansion p) a

theorem exactChi_eq (p : Params) (a : ℝ) : exactChi p a = ∫ x in a..1, dchioverda p x := comovingDistance_eq p a

theorem dchioverda_continuousOn {p : Params} (hE : EsqrPos p) {a0 : ℝ} (h0 : 0 < a0) :
    ContinuousOn (dchioverda p) (Icc a0 1) := by
  have hpos : ∀ x ∈ Icc a0 1, 0 < Esqr p x := fun x hx => hE x (h0.trans_le hx.1) hx.2
  refine ContinuousOn.div continuousOn_const ((continuousOn_id.pow 2).mul
    ((Esqr_contDiffOn h0 0).continuousOn.sqrt)) fun x hx => ?_
  have := hpos x hx
  have := h0.trans_le hx.1
  positivity

theorem dchioverda_pos {p : Params} (hE : EsqrPos p) {a : ℝ} (h0 : 0 < a) (h1 : a ≤ 1) : 0 < dchioverda p a := by
  have := hE a h0 h1
  have : 0 < const_rh := by norm_num [const_rh]
  unfold dchioverda
  positivity

theorem exactChi_deriv {p : Params} (hE : EsqrPos p) {a0 a : ℝ} (h0 : 0 < a0) (ha : a ∈ Icc a0 1) :
    HasDerivWithinAt (exactChi p) (-dchioverda p a) (Icc a0 1) a := by
  have hc := dchioverda_continuousOn hE h0
  have hint : IntervalIntegrable (dchioverda p) MeasureTheory.volume a 1 := by
    apply ContinuousOn.intervalIntegrable
    rw [uIcc_of_le ha.2]
    exact hc.mono (Icc_subset_Icc_left ha.1)
  have : Fact (a ∈ Icc a0 1) := ⟨ha⟩
  have h := intervalIntegral.integral_hasDerivWithinAt_left (s := Icc a0 1) (t := Icc a0 1) hint
    (hc.stronglyMeasurableAtFilter_nhdsWithin measurableSet_Icc a) (hc a ha)
  exact h.congr (fun x _ => exactChi_eq p x) (exactChi_eq p a)

theorem exactChi_one (p : Params) : exactChi p 1 = 0 := by rw [exactChi_eq, intervalIntegral.integral_same]

theorem exactChi_strictAnti {p : Params} (hE : EsqrPos p) {a0 : ℝ} (h0 : 0 < a0) :
    StrictAntiOn (exactChi p) (Icc a0 1) := by
  refine strictAntiOn_of_hasDerivWithinAt_neg (f' := fun a => -dchioverda p a) (convex_Icc _ _)
    (fun a ha => (exactChi_deriv hE h0 ha).continuousWithinAt) (fun a ha => ?_) fun a ha => ?_
  · exact (exactChi_deriv hE h0 (interior_subset ha)).mono interior_subset
  · have := interior_subset ha
    exact neg_neg_of_pos (dchioverda_pos hE (h0.trans_le this.1) this.2)

theorem exactChi_image {p : Params} (hE : EsqrPos p) {a0 : ℝ} (h0 : 0 < a0) (h1 : a0 ≤ 1) :
    exactChi p '' Icc a0 1 = Icc 0 (exactChi p a0) := by
  have hc : ContinuousOn (exactChi p) (Icc a0 1) := fun a ha => (exactChi_deriv hE h0 ha).continuousWithinAt
  have hanti := (exactChi_strictAnti hE h0).antitoneOn
  apply Subset.antisymm
  · rintro _ ⟨a, ha, rfl⟩
    refine ⟨?_, hanti (left_mem_Icc.2 h1) ha ha.1⟩
    rw [← exactChi_one p]
    exact hanti ha (right_mem_Icc.2 h1) ha.2
  · have := intermediate_value_Icc' h1 hc
    rwa [exactChi_one] at this

/-- C134: an integral over the scale factor weighted with `dχ/da`, as the code computes it, is the integral over
the comoving distance, for every integrand. -/
theorem C134_distance {p : Params} (hE : EsqrPos p) {a0 : ℝ} (h0 : 0 < a0) (h1 : a0 ≤ 1) (F : ℝ → ℝ) {A : ℝ → ℝ}
    (hA : ∀ a ∈ Icc a0 1, A (exactChi p a) = a) :
    ∫ a in a0..1, F a * dchioverda p a = ∫ χ in (0 : ℝ)..exactChi p a0, F (A χ) := by
  have h := MeasureTheory.integral_image_eq_integral_abs_deriv_smul (s := Icc a0 1) measurableSet_Icc
    (fun a ha => exactChi_deriv hE h0 ha) (exactChi_strictAnti hE h0).injOn (fun χ => F (A χ))
  have hχ : 0 ≤ exactChi p a0 := comovingDistance_nonneg hE h0 h1
  rw [exactChi_image hE h0 h1, MeasureTheory.integral_Icc_eq_integral_Ioc,
    ← intervalIntegral.integral_of_le hχ, MeasureTheory.integral_Icc_eq_integral_Ioc,
    ← intervalIntegral.integral_of_le h1] at h
  rw [h]
  refine intervalIntegral.integral_congr fun a ha => ?_
  rw [uIcc_of_le h1] at ha
  have := dchioverda_pos hE (h0.trans_le ha.1) ha.2
  simp only [hA a ha, smul_eq_mul, abs_neg, abs_of_pos this]
  ring

/-- An inverse of the distance always exists. -/
theorem exists_scale {p : Params} (hE : EsqrPos p) {a0 : ℝ} (h0 : 0 < a0) :
    ∃ A : ℝ → ℝ, ∀ a ∈ Icc a0 1, A (exactChi p a) = a :=
  ⟨Function.invFunOn (exactChi p) (Icc a0 1), fun _ ha => (exactChi_strictAnti hE h0).injOn.leftInvOn_invFunOn ha⟩

theorem max_sq_one {x : ℝ} (hx : 0 ≤ x) : max (x ^ 2) 1 = max x 1 ^ 2 := by
  rcases le_total x 1 with h | h
  · rw [max_eq_right h, max_eq_right (by nlinarith)]; norm_num
  · rw [max_eq_left h, max_eq_left (by nlinarith)]

theorem chiOf_nonneg (p : Params) (a : ℝ) : 0 ≤ chiOf p a := le_max_right _ _

/-- C134: each spectrum returned is the Limber projection of the power spectrum along the line of sight, over
`c²` for the velocities in the kernels, up to the error of Simpson's rule with 512 intervals (`ω`: how much the
integrand varies over two of them).  The distance inside the integral is the one read off the code's table, not
less than 1 Mpc/h. -/
theorem C134_spectrum (p : Params) (hE : EsqrPos p) (T : ℝ → ℝ)
    (nl : Params → ℝ → ℝ → (ℝ → ℝ) → Except PyErr ℝ) (probes : List Probe) {ell zmax : ℝ} (h0 : 0 ≤ zmax)
    (P : ℝ → ℝ → ℝ) (K : Probe → ℝ → List ℝ) (hz : probesZmax probes = .ok zmax)
    (hP : ∀ k a, nl p k a T = .ok (P k a))
    (hK : ∀ pr ∈ probes, ∀ a, pr.kernel p (1 / a - 1) ell = .ok (K pr a))
    (hlen : ∀ pr ∈ probes, ∀ a, (K pr a).length = pr.bins.length)
    {A : ℝ → ℝ} (hA : ∀ a ∈ Icc (1 / (1 + zmax)) 1, A (exactChi p a) = a)
    {i j : Fin (tracers probes).length} {ω : ℝ}
    (hc : ContinuousOn (limberIntegrand p T nl probes ell i j) (Icc (1 / (1 + zmax)) 1))
    (hω : ∀ x ∈ Icc (1 / (1 + zmax)) 1, ∀ y ∈ Icc (1 / (1 + zmax)) 1,
      |x - y| ≤ 2 * ((1 - 1 / (1 + zmax)) / 512) →
      |limberIntegrand p T nl probes ell i j x - limberIntegrand p T nl probes ell i j y| ≤ ω) :
    ∃ col, clAt p T nl probes ell = .ok col ∧
      |symMat (tracers probes).length col i j
        - limber (fun χ => max (chiOf p (A χ)) 1) (fun k χ => P k (A χ))
            (fun χ => ((probes.map (K · (A χ))).flatten.getD i 0)) (fun χ => ((probes.map (K · (A χ))).flatten.getD j 0))
            ell (exactChi p (1 / (1 + zmax))) / const_c ^ 2|
        ≤ (1 - 1 / (1 + zmax)) * ω / const_c ^ 2 := by
  obtain ⟨col, hcol, -, -⟩ := C56_limber p T nl probes ell zmax (fun a => P ((ell + 1 / 2) / max (chiOf p a) 1) a) K hz
    (fun a => hP _ a) hK hlen
  refine ⟨col, hcol, ?_⟩
  have ha0 : 0 < 1 / (1 + zmax) := by positivity
  have ha1 : 1 / (1 + zmax) ≤ 1 := (div_le_one (by linarith)).2 (by linarith)
  rw [symMat, clAt_entry hcol hz i.2 j.2]
  have hs : simps (limberIntegrand p T nl probes ell i j) (1 / (1 + zmax)) 1 512
      = .ok (simpson (limberIntegrand p T nl probes ell i j) (1 / (1 + zmax)) 1 256) := by
    rw [simps, if_neg (by norm_num), simpsBody_512]
  have hm := C94_simps_modulus ha1 hc (by norm_num) hs (fun x hx y hy h => hω x hx y hy (by exact_mod_cast h))
  have e : ∫ a in (1 / (1 + zmax))..1, limberIntegrand p T nl probes ell i j a
      = limber (fun χ => max (chiOf p (A χ)) 1) (fun k χ => P k (A χ))
            (fun χ => ((probes.map (K · (A χ))).flatten.getD i 0)) (fun χ => ((probes.map (K · (A χ))).flatten.getD j 0))
            ell (exactChi p (1 / (1 + zmax))) := by
    have hd := C134_distance hE ha0 ha1 (fun a => ((probes.map (K · a)).flatten.getD i 0)
      * ((probes.map (K · a)).flatten.getD j 0) / max (chiOf p a) 1 ^ 2 * P ((ell + 1 / 2) / max (chiOf p a) 1) a) hA
    rw [limber, ← hd]
    refine intervalIntegral.integral_congr fun a _ => ?_
    have e1 : limberPower p T nl ell a = P ((ell + 1 / 2) / max (chiOf p a) 1) a := by unfold limberPower; rw [hP]
    have e2 : limberKernels p probes ell a = (probes.map (K · a)).flatten := by
      unfold limberKernels
      rw [mapM_ok_of (g := (K · a)) fun pr hpr => hK pr hpr a]
    have hl : (probes.map (K · a)).flatten.length = (tracers probes).length := by
      rw [← nTracers_eq, nTracers, List.length_flatten, List.map_map]
      congr 1
      exact List.map_congr_left fun pr hpr => hlen pr hpr a
    have eg : ∀ t < (tracers probes).length, gather ((probes.map (K · a)).flatten) t
        = (probes.map (K · a)).flatten.getD t 0 := by
      intro t ht
      unfold gather
      congr 1
      rw [hl]; unfold ix; omega
    have e3 : max (chiOf p a ^ 2) 1 = max (chiOf p a) 1 ^ 2 := max_sq_one (chiOf_nonneg p a)
    simp only [limberIntegrand]
    rw [e1, e2, eg i i.2, eg j j.2, e3]
    ring
  have hc2 : 0 < const_c ^ 2 := by norm_num [const_c]
  rw [← sub_div, abs_div, abs_of_pos hc2, ← e]
  exact div_le_div_of_nonneg_right hm hc2.le

/-! ### Curved universes -/

theorem fK_gt {Ok R χ : ℝ} (hk : 0 < Ok) (hR : 0 < R) (h0 : 0 < χ) : χ < fK Ok R χ := by
  have hs := Real.sqrt_pos.2 hk
  have h1 : √Ok * χ / R < Real.sinh (√Ok * χ / R) := Real.self_lt_sinh_iff.2 (by positivity)
  rw [fK, if_pos hk]
  have h2 := mul_lt_mul_of_pos_left h1 (by positivity : 0 < R / √Ok)
  have e : R / √Ok * (√Ok * χ / R) = χ := by field_simp
  linarith

/-- The spectrum of one sample of galaxies with a unit power spectrum, by the code's quadrature, for a given
distance `D` in the Limber integral. -/
noncomputable def countsCl (p : Params) (D : ℝ → ℝ) (pz : Nz) (b : Bias) (zmax : ℝ) : ℝ :=
  simpson (fun a => 1 * ((pz.eval (1 / a - 1) * b.call p (1 / a - 1) * H p (z2a (1 / a - 1))) *
    (pz.eval (1 / a - 1) * b.call p (1 / a - 1) * H p (z2a (1 / a - 1)))) * dchioverda p a
      / max (D (chiOf p a) ^ 2) 1) (1 / (1 + zmax)) 1 256 / const_c ^ 2

/-- What is returned for it. -/
theorem counts_spectrum (p : Params) (hg : p.gamma = none) (T : ℝ → ℝ) {pz : Nz} (hd : pz.isDelta = false) (b : Bias)
    (ell : ℝ) : clAt p T (fun _ _ _ _ => .ok 1) [.nc (.init [pz] (.bias b))] ell
      = .ok [countsCl p (fun χ => χ) pz b pz.zmax] := by
  obtain ⟨col, h1, h2, h3⟩ := C56_limber p T (fun _ _ _ _ => .ok 1) [.nc (.init [pz] (.bias b))] ell pz.zmax
    (fun _ => 1) (fun _ a => [pz.eval (1 / a - 1) * b.call p (1 / a - 1) * H p (z2a (1 / a - 1))]) rfl
    (fun _ => rfl) (by
      intro pr hpr a
      rw [List.mem_singleton] at hpr
      subst hpr
      exact density_rows p hg [pz] (by simp) (by simpa using hd) b _ ell) (by
      intro pr hpr a
      rw [List.mem_singleton] at hpr
      subst hpr
      rfl)
  rw [h1]
  have hN : (tracers [.nc (.init [pz] (.bias b))]).length = 1 := rfl
  have h4 := h3 ⟨0, by rw [hN]; norm_num⟩ ⟨0, by rw [hN]; norm_num⟩
  obtain ⟨x, rfl⟩ := List.length_eq_one_iff.1 (h2.trans (by rw [hN]; rfl))
  simp only [symMat, hN] at h4
  have e : [x].getD (pairPos 1 0 0) 0 = x := rfl
  rw [e] at h4
  rw [h4]
  rfl

/-- C134: in a flat universe the distance in the integral is the transverse one. -/
theorem C134_flat_partial (p : Params) (hg : p.gamma = none) (hk : p.Omega_k = 0) (T : ℝ → ℝ) (pz : Nz)
    (hpz : pz.isDelta = false) (b : Bias) (ell : ℝ) :
    clAt p T (fun _ _ _ _ => .ok 1) [.nc (.init [pz] (.bias b))] ell
      = .ok [countsCl p (fK p.Omega_k const_rh) pz b pz.zmax] := by
  have : fK p.Omega_k const_rh = fun χ => χ := by funext χ; simp [fK, hk]
  rw [this]
  exact counts_spectrum p hg T hpz b ell

/-- C134: in an open universe the code divides by the radial distance where the transverse distance belongs, and
the spectrum comes out too large. -/
theorem C134_open (p : Params) (hp : Physical p) (hk : 0 < p.Omega_k) {α β z0 g zmax : ℝ} (hz : 1 / 100 ≤ zmax)
    (b : Bias) (hb : ∀ z, 0 ≤ z → b.call p z ≠ 0) :
    countsCl p (fK p.Omega_k const_rh) (.smail α β z0 g zmax) b zmax
      < countsCl p (fun χ => χ) (.smail α β z0 g zmax) b zmax := by
  set pz : Nz := .smail α β z0 g zmax with hpz
  set W : ℝ → ℝ := fun a => pz.eval (1 / a - 1) * b.call p (1 / a - 1) * H p (z2a (1 / a - 1)) with hW
  have hz0 : 0 < 1 + zmax := by linarith
  have ha0 : 0 < 1 / (1 + zmax) := by positivity
  have ha1 : 1 / (1 + zmax) ≤ 100 / 101 := by rw [div_le_div_iff₀ hz0 (by norm_num)]; linarith
  have hR : 0 < const_rh := by norm_num [const_rh]
  have hc2 : 0 < const_c ^ 2 := by norm_num [const_c]
  have hle : ∀ a, max (chiOf p a ^ 2) 1 ≤ max (fK p.Omega_k const_rh (chiOf p a) ^ 2) 1 := by
    intro a
    rcases (chiOf_nonneg p a).eq_or_lt with h | h
    · rw [← h]
      exact max_le ((by norm_num : (0 : ℝ) ^ 2 ≤ 1).trans (le_max_right _ _)) (le_max_right _ _)
    · have := fK_gt hk hR h
      exact max_le_max (by nlinarith) le_rfl
  have hnn : ∀ a, 0 < a → a ≤ 1 → 0 ≤ 1 * (W a * W a) * dchioverda p a := fun a h h' => by
    have := dchioverda_pos hp.esqrPos h h'
    have := mul_self_nonneg (W a)
    positivity
  set f : ℝ → ℝ := fun a => 1 * (W a * W a) * dchioverda p a / max (chiOf p a ^ 2) 1
    - 1 * (W a * W a) * dchioverda p a / max (fK p.Omega_k const_rh (chiOf p a) ^ 2) 1 with hf
  have hpos : 0 < simpsBody f (1 / (1 + zmax)) 1 512 := by
    refine simpsBody_pos (by linarith) 512 (by norm_num) (by norm_num) ?_ (i := 0) (by norm_num) ?_
    · intro a h h'
      rw [hf, sub_nonneg]
      exact div_le_div_of_nonneg_left (hnn a (ha0.trans_le h) h') (by positivity) (hle a)
    · set a := linspace (1 / (1 + zmax)) 1 (512 + 1) (2 * 0 + 1) with ha
      have e : a = 1 / (1 + zmax) + (1 - 1 / (1 + zmax)) / 512 := by
        rw [ha, linspace_succ]; push_cast; ring
      have h1 : a ≤ 1 - 1 / 800 := by rw [e]; linarith
      have h2 : 0 < a := by rw [e]; linarith
      have hχ := chi_gt_one hp h1
      have hfk := fK_gt hk hR (zero_lt_one.trans hχ)
      have hzp : 0 < 1 / a - 1 := by
        rw [sub_pos, lt_div_iff₀ h2]; linarith
      have hWa : W a ≠ 0 := by
        have e1 : pz.eval (1 / a - 1) ≠ 0 := by
          rw [Nz.eval_extended rfl]
          refine (div_pos (smail_pos hzp _ _) ?_).ne'
          refine simpsBody_pos (show (0 : ℝ) < zmax by linarith) 256 (by norm_num) (by norm_num) ?_ (i := 0)
            (by norm_num) ?_
          · intro x hx _
            exact mul_nonneg (Real.rpow_nonneg hx _) (Real.exp_pos _).le
          · refine smail_pos ?_ _ _
            rw [linspace_succ]
            push_cast
            linarith
        have e2 : H p (z2a (1 / a - 1)) ≠ 0 :=
          (C05_H_pos p _ (by unfold z2a; positivity) hp.m_pos hp.k_nonneg hp.de_nonneg).ne'
        exact mul_ne_zero (mul_ne_zero e1 (hb _ hzp.le)) e2
      have hd := dchioverda_pos hp.esqrPos h2 (h1.trans (by norm_num))
      rw [hf, sub_pos]
      have hm : 0 < 1 * (W a * W a) * dchioverda p a := by
        have := mul_self_pos.2 hWa
        positivity
      refine div_lt_div_of_pos_left hm (by positivity) ?_
      rw [max_eq_left (by nlinarith)]
      exact lt_max_of_lt_left (by nlinarith)
  rw [simpsBody_512] at hpos
  have hlin : simpson f (1 / (1 + zmax)) 1 256
      = simpson (fun a => 1 * (W a * W a) * dchioverda p a / max (chiOf p a ^ 2) 1) (1 / (1 + zmax)) 1 256
        - simpson (fun a => 1 * (W a * W a) * dchioverda p a / max (fK p.Omega_k const_rh (chiOf p a) ^ 2) 1)
          (1 / (1 + zmax)) 1 256 := by
    simp only [simpson, hf]
    rw [← mul_sub, ← Finset.sum_sub_distrib]
    congr 1
    refine Finset.sum_congr rfl fun j _ => ?_
    ring
  rw [hlin, sub_pos] at hpos
  exact div_lt_div_of_pos_right hpos hc2

/-- C134 as stated fails for curved universes: the spectrum of a sample of galaxies in the open Planck cosmology. -/
theorem C134_refuted : ¬ ∀ (p : Params), p.gamma = none → Physical p → ∀ (T : ℝ → ℝ) (pz : Nz) (b : Bias) (ell : ℝ),
    pz.isDelta = false → clAt p T (fun _ _ _ _ => .ok 1) [.nc (.init [pz] (.bias b))] ell
      = .ok [countsCl p (fK p.Omega_k const_rh) pz b pz.zmax] := by
  intro h
  have h1 := h _ rfl openPlanck_physical (fun _ => 1) (.smail 1 2 1 1 2) (.constant 1) 10 rfl
  rw [counts_spectrum _ rfl _ rfl] at h1
  have h2 := (List.cons.inj (Except.ok.inj h1)).1
  have h3 := C134_open { Planck15 with Omega_k := 0.1 } openPlanck_physical (by norm_num) (α := 1) (β := 2) (z0 := 1)
    (g := 1) (zmax := 2) (by norm_num) (.constant 1) (fun z _ => by norm_num [Bias.call])
  exact absurd h2.symm h3.ne

/-- C134: the hypotheses of `C134_distance` and `C134_open` are met. -/
example : ∃ A : ℝ → ℝ, ∫ a in (1 / 3 : ℝ)..1, a * dchioverda Planck15 a
    = ∫ χ in (0 : ℝ)..exactChi Planck15 (1 / 3), A χ := by
  obtain ⟨A, hA⟩ := exists_scale planck_physical.esqrPos (a0 := 1 / 3) (by norm_num)
  exact ⟨A, C134_distance planck_physical.esqrPos (by norm_num) (by norm_num) (fun a => a) hA⟩

/-- C134: galaxies spread evenly in redshift up to 2, unit power spectrum, Planck 2015: the spectrum returned is the
Limber projection to within the variation of the integrand. -/
example (T : ℝ → ℝ) (ell : ℝ) : ∃ (A : ℝ → ℝ) (W : ℝ → ℝ) (ω : ℝ) (col : List ℝ),
    clAt Planck15 T (fun _ _ _ _ => .ok 1) [.nc (.init [.user (fun _ => 1) 1 2] (.bias (.constant 1)))] ell = .ok col ∧
    |col.getD 0 0 - limber (fun χ => max (chiOf Planck15 (A χ)) 1) (fun _ _ => 1) (fun χ => W (A χ)) (fun χ => W (A χ))
      ell (exactChi Planck15 (1 / (1 + 2))) / const_c ^ 2| ≤ (1 - 1 / (1 + 2)) * ω / const_c ^ 2 := by
  have hE := planck_physical.esqrPos
  obtain ⟨A, hA⟩ := exists_scale hE (a0 := 1 / (1 + 2)) (by norm_num)
  set pz : Nz := .user (fun _ => 1) 1 2 with hpz
  set probes : List Probe := [.nc (.init [pz] (.bias (.constant 1)))] with hprobes
  set W : ℝ → ℝ := fun a => pz.eval (1 / a - 1) * (Bias.constant 1).call Planck15 (1 / a - 1)
    * H Planck15 (z2a (1 / a - 1)) with hW
  have hK : ∀ pr ∈ probes, ∀ a, pr.kernel Planck15 (1 / a - 1) ell = .ok [W a] := by
    intro pr hpr a
    rw [hprobes, List.mem_singleton] at hpr
    subst hpr
    exact density_rows Planck15 rfl [pz] (by simp) (by simp [hpz, Nz.isDelta]) (.constant 1) _ ell
  have hint : limberIntegrand Planck15 T (fun _ _ _ _ => .ok 1) probes ell 0 0
      = fun a => 1 * (W a * W a) * dchioverda Planck15 a / max (chiOf Planck15 a ^ 2) 1 := by
    funext a
    have e : limberKernels Planck15 probes ell a = [W a] := by
      unfold limberKernels
      rw [mapM_ok_of (g := fun _ => [W a]) fun pr hpr => hK pr hpr a]
      rfl
    rw [limberIntegrand, e]
    rfl
  have hc : ContinuousOn (limberIntegrand Planck15 T (fun _ _ _ _ => .ok 1) probes ell 0 0)
      (Icc (1 / (1 + 2)) 1) := by
    rw [hint]
    have hWc : ContinuousOn W (Icc (1 / (1 + 2)) 1) := by
      have e : EqOn W (fun a => (1 / pz.computedNorm * 1) * (const_H0 * √(Esqr Planck15 a))) (Icc (1 / (1 + 2)) 1) := by
        intro a ha
        have h0 : a ≠ 0 := by
          have : (0 : ℝ) < 1 / (1 + 2) := by norm_num
          exact (this.trans_le ha.1).ne'
        have e1 : z2a (1 / a - 1) = a := by unfold z2a; field_simp; ring
        simp only [hW, e1, Bias.call]
        rw [Nz.eval_extended (by simp [hpz, Nz.isDelta])]
        have e2 : pz.pzFn (1 / a - 1) = 1 := rfl
        have e3 : H Planck15 a = const_H0 * √(Esqr Planck15 a) := rfl
        rw [e2, e3, mul_one (1 : ℝ)]
      refine ContinuousOn.congr ?_ e
      exact continuousOn_const.mul (continuousOn_const.mul
        ((Esqr_contDiffOn (by norm_num) 0).continuousOn.sqrt))
    refine ContinuousOn.div ((continuousOn_const.mul (hWc.mul hWc)).mul (dchioverda_continuousOn hE (by norm_num)))
      ((((C80_distance Planck15).pow 2).max continuous_const).continuousOn) fun a _ => by positivity
  obtain ⟨M, hM⟩ := isCompact_Icc.exists_bound_of_continuousOn hc
  obtain ⟨col, h1, h2⟩ := C134_spectrum Planck15 hE T (fun _ _ _ _ => .ok 1) probes (ell := ell) (zmax := 2)
    (by norm_num) (fun _ _ => 1) (fun _ a => [W a]) rfl (fun _ _ => rfl) hK (by
      intro pr hpr a
      rw [hprobes, List.mem_singleton] at hpr
      subst hpr
      rfl) hA (i := ⟨0, by decide⟩) (j := ⟨0, by decide⟩) (ω := 2 * M) hc (by
      intro x hx y hy _
      have h3 := hM x hx
      have h4 := hM y hy
      rw [Real.norm_eq_abs] at h3 h4
      exact (abs_sub _ _).trans (by linarith))
  have e : symMat (tracers probes).length col ⟨0, by decide⟩ ⟨0, by decide⟩ = col.getD 0 0 := by
    unfold symMat
    norm_num [pairPos]
  rw [e] at h2
  exact ⟨A, W, 2 * M, col, h1, h2⟩

end JaxCosmo
