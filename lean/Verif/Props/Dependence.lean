import Verif.Spec.Dependence
import Verif.Props.Probes
import Verif.Props.Power
import Verif.Model.AngularCl

/-! # C149: which parameters a quantity depends on -/

namespace JaxCosmo
open Spec

variable {p q : Params}

theorem SameExpansion.omega_m (h : SameExpansion p q) : p.Omega_m = q.Omega_m := h.matter
theorem SameExpansion.omega_de (h : SameExpansion p q) : p.Omega_de = q.Omega_de := by
  unfold Params.Omega_de Params.Omega; rw [h.curvature, SameExpansion.omega_m h]

theorem same_w (h : SameExpansion p q) : w p = w q := by
  funext a; unfold w; rw [h.w0, h.wa]

theorem same_f_de (h : SameExpansion p q) : f_de p = f_de q := by
  funext a; unfold f_de; rw [h.w0, h.wa]

theorem same_Esqr (h : SameExpansion p q) : Esqr p = Esqr q := by
  funext a
  unfold Esqr
  rw [SameExpansion.omega_m h, h.curvature, SameExpansion.omega_de h, same_f_de h]

theorem same_H (h : SameExpansion p q) : H p = H q := by
  funext a; unfold H; rw [same_Esqr h]

theorem same_Omega_m_a (h : SameExpansion p q) : Omega_m_a p = Omega_m_a q := by
  funext a; unfold Omega_m_a; rw [same_Esqr h, SameExpansion.omega_m h]

theorem same_Omega_de_a (h : SameExpansion p q) : Omega_de_a p = Omega_de_a q := by
  funext a; unfold Omega_de_a; rw [same_Esqr h, SameExpansion.omega_de h, same_f_de h]

theorem same_dchioverda (h : SameExpansion p q) : dchioverda p = dchioverda q := by
  funext a; unfold dchioverda; rw [same_Esqr h]

theorem same_chiTable (h : SameExpansion p q) : chiTable p = chiTable q := by
  funext lo n; unfold chiTable; rw [same_dchioverda h]

theorem same_growthTableODE (h : SameExpansion p q) : growthTableODE p = growthTableODE q := by
  have e : growthDerivs p = growthDerivs q := by
    funext y x; unfold growthDerivs; rw [same_Omega_m_a h, same_Omega_de_a h, same_w h]
  funext lo n; unfold growthTableODE; rw [e]

theorem same_growthRateGamma (h : SameExpansion p q) : growthRateGamma p = growthRateGamma q := by
  funext γ a; unfold growthRateGamma; rw [same_Omega_m_a h]

theorem same_growthTableGamma (h : SameExpansion p q) : growthTableGamma p = growthTableGamma q := by
  funext γ lo n; unfold growthTableGamma; rw [same_growthRateGamma h]

theorem same_transverseOf (h : SameExpansion p q) : transverseOf p = transverseOf q := by
  funext x; unfold transverseOf Params.sqrtk Params.k; rw [h.curvature]

theorem same_growthOf (h : SameExpansion p q) : growthOf p = growthOf q := by
  funext a; unfold growthOf growthTable
  rw [h.gamma, same_growthTableODE h, same_growthTableGamma h]

theorem same_chiOf (h : SameExpansion p q) : chiOf p = chiOf q := by
  funext a; unfold chiOf; rw [same_chiTable h]

/-- C149: the local background functions. -/
theorem C149_expansion (h : SameExpansion p q) : w p = w q ∧ f_de p = f_de q ∧ Esqr p = Esqr q ∧
    H p = H q ∧ Omega_m_a p = Omega_m_a q ∧ Omega_de_a p = Omega_de_a q ∧
    dchioverda p = dchioverda q :=
  ⟨same_w h, same_f_de h, same_Esqr h, same_H h, same_Omega_m_a h, same_Omega_de_a h, same_dchioverda h⟩

/-- C149: distances, their inverse, and growth, as called on a newly made cosmology. -/
theorem C149_background (h : SameExpansion p q) (a : ArrayLike) :
    (∀ lo n, (radialComovingDistance (.init p) a lo n).2 = (radialComovingDistance (.init q) a lo n).2) ∧
    (aOfChi (.init p) a).2 = (aOfChi (.init q) a).2 ∧
    (transverseComovingDistance (.init p) a).2 = (transverseComovingDistance (.init q) a).2 ∧
    (angularDiameterDistance (.init p) a).2 = (angularDiameterDistance (.init q) a).2 ∧
    (growthFactor (.init p) a).2 = (growthFactor (.init q) a).2 ∧
    (growthRate (.init p) a).2 = (growthRate (.init q) a).2 := by
  refine ⟨fun lo n => ?_, ?_, ?_, ?_, ?_, ?_⟩
  · simp only [radialComovingDistance, ensureChi, Cosmology.init, same_chiTable h]
  · simp only [aOfChi, radialComovingDistance, ensureChi, Cosmology.init, same_chiTable h]
  · simp only [transverseComovingDistance, radialComovingDistance, ensureChi, Cosmology.init,
      same_chiTable h, same_transverseOf h]
  · simp only [angularDiameterDistance, transverseComovingDistance, radialComovingDistance, ensureChi,
      Cosmology.init, same_chiTable h, same_transverseOf h]
  · cases hg : q.gamma with
    | none =>
      have hp : p.gamma = none := h.gamma.trans hg
      simp [growthFactor, growthFactorODE, Cosmology.init, hp, hg, same_growthTableODE h]
    | some γ =>
      have hp : p.gamma = some γ := h.gamma.trans hg
      simp [growthFactor, growthFactorGamma, Cosmology.init, hp, hg, same_growthTableGamma h]
  · cases hg : q.gamma with
    | none =>
      have hp : p.gamma = none := h.gamma.trans hg
      simp only [growthRate, growthRateODE, growthFactorODE, Cosmology.init, hp, hg, same_growthTableODE h,
        Option.isSome_none, Bool.false_eq_true, if_false]
      cases (growthTableODE q (-3) 128).f <;> rfl
    | some γ =>
      have hp : p.gamma = some γ := h.gamma.trans hg
      simp [growthRate, Cosmology.init, hp, hg, same_growthRateGamma h]

/-- C149: the kernels of lensing and clustering probes. -/
theorem C149_kernels (h : SameExpansion p q) (pr : Probe) (z ell : ℝ) :
    pr.kernel p z ell = pr.kernel q z ell := by
  have hb : ∀ b : Bias, b.call p z = b.call q z := fun b => by
    cases b <;> simp only [Bias.call, same_growthOf h]
  have hbr : ∀ b : Val, biasRows p b z = biasRows q b z := fun b => by
    unfold biasRows
    simp only [hb]
  cases hg : q.gamma with
  | some γ =>
    have hp : p.gamma = some γ := h.gamma.trans hg
    cases pr with
    | wl o =>
      simp only [Probe.kernel, WeakLensing.kernel, weakLensingKernel, jitCosmo_some hp, jitCosmo_some hg]
      rfl
    | nc o =>
      simp only [Probe.kernel, NumberCounts.kernel, densityKernel, jitCosmo_some hp, jitCosmo_some hg]
  | none =>
    have hp : p.gamma = none := h.gamma.trans hg
    have hext : extRow p = extRow q := by
      funext zm z pz; unfold extRow; rw [same_chiOf h]
    have hdel : deltaRow p = deltaRow q := by
      funext z pz; unfold deltaRow; rw [same_chiOf h]
    have hwl : ∀ bins, weakLensingKernel p bins z ell = weakLensingKernel q bins z ell := fun bins => by
      unfold weakLensingKernel
      rw [jitCosmo_none hp, jitCosmo_none hg]
      simp only [bind, Except.bind, hext, hdel, SameExpansion.omega_m h]
    have hnc : ∀ bins b, densityKernel p bins b z ell = densityKernel q bins b z ell := fun bins b => by
      unfold densityKernel
      rw [jitCosmo_none hp, jitCosmo_none hg]
      simp only [bind, Except.bind, hbr, same_H h]
    have hia : ∀ bins b, nlaKernel p bins b z ell = nlaKernel q bins b z ell := fun bins b => by
      unfold nlaKernel
      rw [jitCosmo_none hp, jitCosmo_none hg]
      simp only [bind, Except.bind, hbr, same_H h, SameExpansion.omega_m h, same_growthOf h]
    cases pr with
    | wl o => simp only [Probe.kernel, WeakLensing.kernel, hwl, hia]
    | nc o => simp only [Probe.kernel, NumberCounts.kernel, hnc]

/-! ### Power spectra -/

section Power
variable {S T : ℝ → ℝ} {c : ℝ}

theorem sigmasqr_scaled (hn : p.n_s = q.n_s) (hST : ∀ k, S k = c * T k) (R kmin kmax : ℝ) :
    sigmasqr p R S kmin kmax = c ^ 2 * sigmasqr q R T kmin kmax := by
  rw [sigmasqr_eq, sigmasqr_eq]
  have e : varianceIntegrand (fun k => k ^ p.n_s * S k ^ 2) R = fun x =>
      c ^ 2 * varianceIntegrand (fun k => k ^ q.n_s * T k ^ 2) R x + 0 * 0 := by
    funext x
    simp only [varianceIntegrand, hST, hn]
    ring
  rw [e, romberg_linear _ (fun _ => 0)]
  ring

/-- C149: the linear power spectrum depends on the share of baryons and on the Hubble constant only
through the shape of the transfer function. -/
theorem C149_linear (h : SameFluctuations p q) (hc : c ≠ 0) (hST : ∀ k, S k = c * T k)
    (h0 : sigmasqr q 8 T ≠ 0) (k a : ℝ) : linearMatterPower p S k a = linearMatterPower q T k a := by
  unfold linearMatterPower
  simp only [sigmasqr_scaled h.n_s hST, hST, same_growthOf h.toSameExpansion, h.sigma8,
    primordialMatterPower, h.n_s]
  field_simp

/-- C149: and so does halofit, with every prescription. -/
theorem C149_halofit (h : SameFluctuations p q) (hc : c ≠ 0) (hST : ∀ k, S k = c * T k)
    (h0 : sigmasqr q 8 T ≠ 0) (k a : ℝ) (prescription : String) :
    halofit p k a S prescription = halofit q k a T prescription := by
  have e := h.toSameExpansion
  have hl : ∀ k a, linearMatterPower p S k a = linearMatterPower q T k a := C149_linear h hc hST h0
  have hs : Halofit.sigma p S a = Halofit.sigma q T a := by
    funext i; unfold Halofit.sigma Halofit.intSigma; simp only [hl, same_growthOf e]
  have hk : Halofit.k_nl p S a = Halofit.k_nl q T a := by
    unfold Halofit.k_nl Halofit.R_nl; rw [hs]
  have hr : Halofit.res p S a = Halofit.res q T a := by
    funext x; unfold Halofit.res; simp only [hl, hk, same_growthOf e]
  have h0' : Halofit.res0 p S a = Halofit.res0 q T a := by unfold Halofit.res0; rw [hr, hk]
  have h1' : Halofit.res1 p S a = Halofit.res1 q T a := by unfold Halofit.res1; rw [hr, hk]
  unfold halofit Halofit.n_eff Halofit.curv
  simp only [hl, hk, h0', h1', same_Omega_m_a e, same_Omega_de_a e, same_w e]

/-- C149: angular spectra, for every power spectrum that has this property. -/
theorem C149_spectra (h : SameExpansion p q)
    {P : Params → ℝ → ℝ → (ℝ → ℝ) → Except PyErr ℝ} (hP : ∀ k a, P p k a S = P q k a T)
    (ells : List ℝ) (probes : List Probe) : angularCl p ells probes S P = angularCl q ells probes T P := by
  have hi : ∀ ell, clIntegrand p S P probes ell = clIntegrand q T P probes ell := fun ell => by
    funext a
    unfold clIntegrand nonlinearMatterPower
    simp only [hP, same_chiOf h, same_dchioverda h, C149_kernels h]
  have hc : clAt p S P probes = clAt q T P probes := by
    funext ell; unfold clAt; rw [hi]
  unfold angularCl
  rw [hc]

/-- C149: with halofit, the default. -/
theorem C149_default (h : SameFluctuations p q) (hc : c ≠ 0) (hST : ∀ k, S k = c * T k)
    (h0 : sigmasqr q 8 T ≠ 0) (ells : List ℝ) (probes : List Probe) :
    angularCl p ells probes S = angularCl q ells probes T :=
  C149_spectra h.toSameExpansion (P := fun p k a T => halofit p k a T)
    (fun k a => C149_halofit h hc hST h0 k a _) ells probes

end Power

/-! ### None of the parameters can be left out -/

/-- C149: each of the parameters of `SameExpansion` matters. -/
theorem C149_needed :
    (∃ p q : Params, p = { q with Omega_c := p.Omega_c } ∧ Esqr p (1 / 2) ≠ Esqr q (1 / 2)) ∧
    (∃ p q : Params, p = { q with Omega_b := p.Omega_b } ∧ Esqr p (1 / 2) ≠ Esqr q (1 / 2)) ∧
    (∃ p q : Params, p = { q with Omega_k := p.Omega_k } ∧ Esqr p (1 / 2) ≠ Esqr q (1 / 2)) ∧
    (∃ p q : Params, p = { q with w0 := p.w0 } ∧ Esqr p (1 / 2) ≠ Esqr q (1 / 2)) ∧
    (∃ p q : Params, p = { q with wa := p.wa } ∧ Esqr p (1 / 2) ≠ Esqr q (1 / 2)) ∧
    (∃ p q : Params, p = { q with gamma := p.gamma } ∧
      (growthRate (.init p) (.scalar (1 / 2))).2 ≠ (growthRate (.init q) (.scalar (1 / 2))).2) ∧
    (∃ p q : Params, p = { q with n_s := p.n_s } ∧ primordialMatterPower p 2 ≠ primordialMatterPower q 2) := by
  have z3 : ((1 : ℝ) / 2) ^ (-3 : ℤ) = 8 := by norm_num
  have z2 : ((1 : ℝ) / 2) ^ (-2 : ℤ) = 4 := by norm_num
  have l2 : Real.log (1 / 2) < -1 / 2 := by
    rw [one_div, Real.log_inv]; have := Real.log_two_gt_d9; linarith
  have f0 : ∀ q : Params, q.w0 = -1 → q.wa = 0 → f_de q (1 / 2) = 0 := fun q h1 h2 => by
    unfold f_de; rw [h1, h2]; ring
  refine ⟨⟨{ Planck15 with Omega_c := 0.3 }, Planck15, rfl, ?_⟩,
    ⟨{ Planck15 with Omega_b := 0.3 }, Planck15, rfl, ?_⟩,
    ⟨{ Planck15 with Omega_k := 0.3 }, Planck15, rfl, ?_⟩,
    ⟨{ Planck15 with w0 := 0 }, Planck15, rfl, ?_⟩,
    ⟨{ Planck15 with wa := 1 }, Planck15, rfl, ?_⟩,
    ⟨{ Planck15 with gamma := some 0 }, { Planck15 with gamma := some 1 }, rfl, ?_⟩,
    ⟨{ Planck15 with n_s := 1 }, { Planck15 with n_s := 2 }, rfl, ?_⟩⟩
  · simp only [Esqr, z3, z2]
    rw [f0 _ rfl rfl, f0 _ rfl rfl]
    norm_num [Planck15, Params.Omega_m, Params.Omega_de, Params.Omega]
  · simp only [Esqr, z3, z2]
    rw [f0 _ rfl rfl, f0 _ rfl rfl]
    norm_num [Planck15, Params.Omega_m, Params.Omega_de, Params.Omega]
  · simp only [Esqr, z3, z2]
    rw [f0 _ rfl rfl, f0 _ rfl rfl]
    norm_num [Planck15, Params.Omega_m, Params.Omega_de, Params.Omega]
  · simp only [Esqr, z3, z2]
    rw [f0 Planck15 rfl rfl]
    have : (0 : ℝ) < f_de { Planck15 with w0 := 0 } (1 / 2) := by
      unfold f_de; norm_num [Planck15]; norm_num at l2; linarith
    have := Real.one_lt_exp_iff.2 this
    have h : (0 : ℝ) < ({ Planck15 with w0 := 0 } : Params).Omega_de := by
      norm_num [Planck15, Params.Omega_m, Params.Omega_de, Params.Omega]
    intro he
    simp only [Params.Omega_m, Params.Omega_de, Params.Omega, Real.exp_zero] at he h
    nlinarith
  · simp only [Esqr, z3, z2]
    rw [f0 Planck15 rfl rfl]
    have : 0 < f_de { Planck15 with wa := 1 } (1 / 2) := by
      have := Real.log_two_gt_d9
      unfold f_de; rw [one_div, Real.log_inv]; norm_num [Planck15]; linarith
    have := Real.one_lt_exp_iff.2 this
    have h : (0 : ℝ) < ({ Planck15 with wa := 1 } : Params).Omega_de := by
      norm_num [Planck15, Params.Omega_m, Params.Omega_de, Params.Omega]
    intro he
    simp only [Params.Omega_m, Params.Omega_de, Params.Omega, Real.exp_zero] at he h
    nlinarith
  · have e : ∀ γ, Omega_m_a { Planck15 with gamma := some γ } (1 / 2) = 2.46 / 3.1525 := fun γ => by
      simp only [Omega_m_a, Esqr, z3, z2]
      rw [f0 _ rfl rfl]
      norm_num [Planck15, Params.Omega_m, Params.Omega_de, Params.Omega]
    simp only [growthRate, Cosmology.init, growthRateGamma, Option.isSome_some, if_true, e, Real.rpow_zero,
      Real.rpow_one]
    intro he
    have := List.head_eq_of_cons_eq (Except.ok.inj he)
    norm_num at this
  · norm_num [primordialMatterPower]

/-- Two universes which differ in the Hubble constant and in the share of baryons. -/
noncomputable def otherShare : Params :=
  { Planck15 with Omega_b := 0.0575, Omega_c := 0.25, h := 0.73 }

theorem otherShare_same : SameFluctuations otherShare Planck15 := by
  refine ⟨⟨?_, rfl, rfl, rfl, rfl⟩, rfl, rfl⟩
  norm_num [otherShare, Planck15]

/-- Witness for the theorems above: the distances, and the spectra of any probes for a transfer
function and twice that function. -/
example (a : ArrayLike) : (angularDiameterDistance (.init otherShare) a).2
    = (angularDiameterDistance (.init Planck15) a).2 :=
  (C149_background otherShare_same.toSameExpansion a).2.2.2.1

example (ells : List ℝ) (probes : List Probe) :
    angularCl otherShare ells probes (fun k => 2 * (1 / (1 + k))) = angularCl Planck15 ells probes (fun k => 1 / (1 + k)) :=
  C149_default otherShare_same two_ne_zero (fun _ => rfl)
    (sigmasqr_pos _ _ (by have := Real.exp_pos (-4); positivity)).ne' ells probes

end JaxCosmo
