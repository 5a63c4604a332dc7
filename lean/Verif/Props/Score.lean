import Verif.Props.Likelihood
import Verif.Props.ClSensitivity
import Verif.Spec.Fisher
import Mathlib.Topology.Algebra.Module.FiniteDimensionBilinear
import Mathlib.LinearAlgebra.Matrix.SesquilinearForm
import Mathlib.Analysis.Calculus.FDeriv.Bilinear
import Mathlib.Analysis.Calculus.ContDiff.Operations

/-! # C88: score and curvature of the likelihood -/

namespace JaxCosmo
open Spec Matrix

section
variable {N : ℕ} {E : Type*} [NormedAddCommGroup E] [NormedSpace ℝ E]

/-- The Fisher form as a continuous bilinear map. -/
noncomputable def fisherMap (C : Matrix (Fin N) (Fin N) ℝ) :
    (Fin N → ℝ) →L[ℝ] (Fin N → ℝ) →L[ℝ] ℝ :=
  (Matrix.toLinearMap₂' ℝ C⁻¹).toContinuousBilinearMap

theorem fisherMap_apply (C : Matrix (Fin N) (Fin N) ℝ) (u v : Fin N → ℝ) :
    fisherMap C u v = fisher C u v := by
  rw [fisherMap, LinearMap.toContinuousBilinearMap_apply, Matrix.toLinearMap₂'_apply', fisher]

theorem fisher_symm {C : Matrix (Fin N) (Fin N) ℝ} (hC : C.PosDef) (u v : Fin N → ℝ) :
    fisher C u v = fisher C v u := by
  have h : (C⁻¹)ᵀ = C⁻¹ := by rw [transpose_nonsing_inv, symm_of_posDef hC]
  rw [fisher, fisher, dotProduct_mulVec, ← mulVec_transpose, h, dotProduct_comm]

/-- Derivative of the quadratic form. -/
theorem chiSq_hasFDerivAt {C : Matrix (Fin N) (Fin N) ℝ} (hC : C.PosDef) (data : Fin N → ℝ)
    {μ : E → Fin N → ℝ} {μ' : E →L[ℝ] Fin N → ℝ} {x : E} (h : HasFDerivAt μ μ' x) :
    HasFDerivAt (fun y => chiSq data (μ y) C)
      ((2 : ℝ) • (fisherMap C (μ x - data)).comp μ') x := by
  have hr : HasFDerivAt (fun y => μ y - data) μ' x := h.sub_const data
  have hb := (fisherMap C).hasFDerivAt_of_bilinear hr hr
  have e : (fun y => chiSq data (μ y) C) = fun y => fisherMap C (μ y - data) (μ y - data) := by
    funext y
    rw [fisherMap_apply, chiSq_comm]; rfl
  rw [e]
  refine hb.congr_fderiv ?_
  ext u
  simp only [_root_.add_apply, _root_.smul_apply, ContinuousLinearMap.compL_apply,
    ContinuousLinearMap.comp_apply, ContinuousLinearMap.precompR_apply,
    ContinuousLinearMap.precompL_apply, fisherMap_apply, smul_eq_mul]
  rw [fisher_symm hC (μ' u)]
  ring

/-- The likelihood as a function of the parameters, with everything but the mean held fixed. -/
noncomputable def loglike (data : Fin N → ℝ) (μ : E → Fin N → ℝ) (C : Matrix (Fin N) (Fin N) ℝ)
    (incl : Bool) (y : E) : ℝ :=
  -(1 / 2) * (chiSq data (μ y) C - if incl then Real.log |C.det| else 0)

theorem loglike_hasFDerivAt {C : Matrix (Fin N) (Fin N) ℝ} (hC : C.PosDef) (data : Fin N → ℝ)
    (incl : Bool) {μ : E → Fin N → ℝ} {μ' : E →L[ℝ] Fin N → ℝ} {x : E} (h : HasFDerivAt μ μ' x) :
    HasFDerivAt (loglike data μ C incl) ((fisherMap C (data - μ x)).comp μ') x := by
  have := ((chiSq_hasFDerivAt hC data h).sub_const
    (if incl then Real.log |C.det| else 0)).const_mul (-(1 / 2) : ℝ)
  refine this.congr_fderiv ?_
  ext u
  simp only [_root_.smul_apply, ContinuousLinearMap.comp_apply, fisherMap_apply,
    smul_eq_mul]
  have : data - μ x = -(μ x - data) := by abel
  rw [this, fisher, fisher, neg_dotProduct]
  ring

/-- C88: the likelihood is differentiable in the parameters with gradient `(data - μ)ᵀ C⁻¹ ∂μ`,
whichever inversion method is used and with or without the determinant. -/
theorem C88_score {C : Matrix (Fin N) (Fin N) ℝ} (hC : C.PosDef) (data : Fin N → ℝ) (incl : Bool)
    {m : String} (hm : m = "inverse" ∨ m = "cholesky") {μ : E → Fin N → ℝ}
    {μ' : E →L[ℝ] Fin N → ℝ} {x : E} (h : HasFDerivAt μ μ' x) :
    ∃ (L : E → ℝ) (L' : E →L[ℝ] ℝ),
      (∀ y, gaussianLogLikelihood data (μ y) (.d2 N N C) incl m = .ok (L y)) ∧
      HasFDerivAt L L' x ∧ ∀ u, L' u = fisher C (data - μ x) (μ' u) :=
  ⟨_, _, fun y => loglike_dense data (μ y) C (symm_of_posDef hC) incl hm,
    loglike_hasFDerivAt hC data incl h, fun u => by
      rw [ContinuousLinearMap.comp_apply, fisherMap_apply]⟩

/-- C88: with a sparse covariance. -/
theorem C88_sparse {n P : ℕ} {S : Sp ℝ (n + 1) (n + 1) P} (hS : (denseEntry S).PosDef)
    (data : Fin ((n + 1) * P) → ℝ) (incl : Bool) (m : String) {μ : E → Fin ((n + 1) * P) → ℝ}
    {μ' : E →L[ℝ] Fin ((n + 1) * P) → ℝ} {x : E} (h : HasFDerivAt μ μ' x) :
    ∃ (L : E → ℝ) (L' : E →L[ℝ] ℝ),
      (∀ y, gaussianLogLikelihood data (μ y) (.d3 _ _ P S) incl m = .ok (L y)) ∧
      HasFDerivAt L L' x ∧ ∀ u, L' u = fisher (denseEntry S) (data - μ x) (μ' u) :=
  ⟨_, _, fun y => loglike_sparse data (μ y) S hS incl m,
    loglike_hasFDerivAt hS data incl h, fun u => by
      rw [ContinuousLinearMap.comp_apply, fisherMap_apply]⟩

/-- C88: when the data equal the mean at the fiducial parameters, the Hessian of the likelihood there
is minus the Fisher matrix of the mean, `-∂μᵀ C⁻¹ ∂μ`: the second derivatives of the mean drop
out. -/
theorem C88_fisher {C : Matrix (Fin N) (Fin N) ℝ} (hC : C.PosDef) (incl : Bool)
    {m : String} (hm : m = "inverse" ∨ m = "cholesky") {μ : E → Fin N → ℝ} {x : E}
    (h : ContDiffAt ℝ 2 μ x) :
    ∃ L : E → ℝ,
      (∀ y, gaussianLogLikelihood (μ x) (μ y) (.d2 N N C) incl m = .ok (L y)) ∧
      fderiv ℝ L x = 0 ∧
      DifferentiableAt ℝ (fderiv ℝ L) x ∧
      ∀ u v, fderiv ℝ (fderiv ℝ L) x u v = -fisher C (fderiv ℝ μ x u) (fderiv ℝ μ x v) := by
  refine ⟨_, fun y => loglike_dense (μ x) (μ y) C (symm_of_posDef hC) incl hm, ?_⟩
  change fderiv ℝ (loglike (μ x) μ C incl) x = 0 ∧ DifferentiableAt ℝ (fderiv ℝ (loglike (μ x) μ C incl)) x
    ∧ ∀ u v, fderiv ℝ (fderiv ℝ (loglike (μ x) μ C incl)) x u v = _
  have hev : ∀ᶠ y in nhds x, DifferentiableAt ℝ μ y :=
    ((h.of_le (by norm_num : (1 : WithTop ℕ∞) ≤ 2)).eventually (by simp)).mono fun y hy =>
      hy.differentiableAt (by norm_num)
  have hd : DifferentiableAt ℝ μ x := h.differentiableAt (by norm_num)
  have e : fderiv ℝ (loglike (μ x) μ C incl)
      =ᶠ[nhds x] fun y => (fisherMap C (μ x - μ y)).comp (fderiv ℝ μ y) := by
    filter_upwards [hev] with y hy
    exact (loglike_hasFDerivAt hC (μ x) incl hy.hasFDerivAt).fderiv
  have hd2 : HasFDerivAt (fderiv ℝ μ) (fderiv ℝ (fderiv ℝ μ) x) x :=
    ((h.fderiv_right (m := 1) (by norm_num)).differentiableAt (by norm_num)).hasFDerivAt
  have hF : HasFDerivAt (fun y => fisherMap C (μ x - μ y)) ((fisherMap C).comp (-fderiv ℝ μ x)) x :=
    (fisherMap C).hasFDerivAt.comp x (hd.hasFDerivAt.const_sub (μ x))
  have hD := (hF.clm_comp hd2).congr_of_eventuallyEq e
  refine ⟨?_, hD.differentiableAt, fun u v => ?_⟩
  · rw [e.eq_of_nhds]
    simp
  · rw [hD.fderiv]
    simp [fisherMap_apply, fisher]

/-- C88: the Fisher matrix is positive semidefinite, and positive along every direction in which the
mean moves. -/
theorem C88_information {C : Matrix (Fin N) (Fin N) ℝ} (hC : C.PosDef) (u : Fin N → ℝ) :
    0 ≤ fisher C u u ∧ (0 < fisher C u u ↔ u ≠ 0) := by
  have h0 := hC.inv.posSemidef.dotProduct_mulVec_nonneg u
  rw [star_trivial] at h0
  refine ⟨h0, fun h hu => ?_, fun hu => ?_⟩
  · subst hu; simp [fisher] at h
  · have := hC.inv.dotProduct_mulVec_pos hu
    rwa [star_trivial] at this

end

/-! ## The whole pipeline -/

section
variable {P : ℝ → Params} {v : Params} {θ : ℝ}

theorem columns_smooth {f : ℝ → ℝ → Except PyErr (List ℝ)} (ells : List ℝ)
    (hf : ∀ ell ∈ ells, ∃ C : ℝ → List ℝ, (∀ s, f s ell = .ok (C s)) ∧
      ∀ c, DifferentiableAt ℝ (fun s => (C s).getD c 0) θ) :
    ∃ r : ℝ → List (List ℝ), (∀ s, ells.mapM (f s) = .ok (r s)) ∧
      ∀ c, SmoothRows θ fun s => (r s).map fun col => col.getD c 0 := by
  induction ells with
  | nil => exact ⟨fun _ => [], fun _ => rfl, fun _ => smooth_const []⟩
  | cons ell l ih =>
    obtain ⟨r, hr, hs⟩ := ih fun e he => hf e (List.mem_cons_of_mem _ he)
    obtain ⟨C, hC, hd⟩ := hf ell List.mem_cons_self
    refine ⟨fun s => C s :: r s, fun s => mapM_cons_ok.2 ⟨_, _, hC s, hr s, rfl⟩, fun c => ?_⟩
    have h1 : SmoothRows θ fun s => [(C s).getD c 0] :=
      smooth_map (f := fun s (_ : Unit) => (C s).getD c 0) [()] fun _ _ => hd c
    exact smooth_append h1 (hs c)

theorem flatten_smooth {α : Type*} (l : List α) {g : α → ℝ → List ℝ} (hg : ∀ c, SmoothRows θ (g c)) :
    SmoothRows θ fun s => (l.map fun c => g c s).flatten := by
  induction l with
  | nil => exact smooth_const []
  | cons c l ih => exact smooth_append (hg c) ih

/-- C88: the whole likelihood analysis.  Take as data the angular spectra computed at the fiducial
parameters, keep any positive definite covariance fixed, and let the parameters vary: the
log-likelihood returned is differentiable at the fiducial point, its derivative is zero there, and
no other parameters reach a higher value. -/
theorem C88_pipeline (h : Along P v θ) (hg : v.gamma = none) (hp : Physical (P θ)) {T : ℝ → ℝ → ℝ}
    (hT : ∀ K : ℝ → ℝ, DifferentiableAt ℝ K θ → 0 < K θ → DifferentiableAt ℝ (fun s => T s (K s)) θ)
    (hσ : sigmasqr (P θ) 8 (T θ) ≠ 0) {probes : List Probe} {ells : List ℝ} {zmax : ℝ}
    (hell : ∀ ell ∈ ells, 0 ≤ ell)
    (hz : probesZmax probes = .ok zmax) (h0 : 0 ≤ zmax) (h9 : zmax ≤ 899) {cl : List (List ℝ)}
    (hcl : angularCl (P θ) ells probes (T θ) linear = .ok cl)
    (hn : ∀ i ≤ 512, chiOf (P θ) (limberNode zmax i) ≠ 1)
    (hs : ∀ i ≤ 512, ∀ pr ∈ probes, ∀ z' ∈ pr.sources (1 / limberNode zmax i - 1),
      chiOf (P θ) (1 / (1 + z')) ≠ 1)
    {C : Matrix (Fin cl.flatten.length) (Fin cl.flatten.length) ℝ} (hC : C.PosDef) (incl : Bool)
    {m : String} (hm : m = "inverse" ∨ m = "cholesky") :
    ∃ (M : ℝ → List (List ℝ)) (L : ℝ → ℝ),
      (∀ s, angularCl (P s) ells probes (T s) linear = .ok (M s)) ∧
      (∀ s, (M s).flatten.length = cl.flatten.length) ∧
      (∀ s, gaussianLogLikelihood (N := cl.flatten.length) (fun i => cl.flatten.getD i 0)
        (fun i => (M s).flatten.getD i 0) (.d2 _ _ C) incl m = .ok (L s)) ∧
      HasDerivAt L 0 θ ∧ ∀ s, L s ≤ L θ := by
  obtain ⟨cols, hcols, _⟩ := bind_ok (f := ells.mapM (clAt (P θ) (T θ) linear probes)) hcl
  obtain ⟨r, hr, hsm⟩ := columns_smooth (θ := θ) (f := fun s => clAt (P s) (T s) linear probes) ells
    fun ell he => by
      obtain ⟨col, hcol⟩ : ∃ col, clAt (P θ) (T θ) linear probes ell = .ok col := by
        obtain ⟨y, _, hy⟩ := mapM_mem hcols he
        exact ⟨y, hy⟩
      obtain ⟨Cc, h1, _, h3⟩ := C86_spectra h hg hp hT hσ
        (by have := hell ell he; linarith) hz h0 h9 hcol hn hs
      exact ⟨Cc, h1, h3⟩
  have hM : ∀ s, angularCl (P s) ells probes (T s) linear = .ok
      ((List.range (getClOrdering probes).length).map fun c => (r s).map fun col => col.getD c 0) :=
    fun s => by unfold angularCl; rw [hr s]; rfl
  have hfl := flatten_smooth (List.range (getClOrdering probes).length) hsm
  obtain rfl := Except.ok.inj ((hM θ).symm.trans hcl)
  obtain ⟨⟨n, hlen⟩, hd⟩ := hfl
  set M : ℝ → List (List ℝ) := fun s =>
    (List.range (getClOrdering probes).length).map fun c => (r s).map fun col => col.getD c 0 with hMdef
  set μ : ℝ → Fin (M θ).flatten.length → ℝ := fun s i => (M s).flatten.getD i 0 with hμ
  have hder : DifferentiableAt ℝ μ θ := differentiableAt_pi.2 fun i => hd i
  refine ⟨M, loglike (μ θ) μ C incl, hM, fun s => (hlen s).trans (hlen θ).symm,
    fun s => loglike_dense (μ θ) (μ s) C (symm_of_posDef hC) incl hm, ?_, fun s => ?_⟩
  · have := (loglike_hasFDerivAt hC (μ θ) incl hder.hasFDerivAt).hasDerivAt
    refine this.congr_deriv ?_
    simp
  · have h1 := hC.inv.posSemidef.dotProduct_mulVec_nonneg (μ θ - μ s)
    rw [star_trivial] at h1
    have h2 : chiSq (μ θ) (μ θ) C = 0 := by simp [chiSq]
    unfold loglike
    rw [h2]
    have h3 : 0 ≤ chiSq (μ θ) (μ s) C := h1
    linarith

end

/-- Witness for the score and the Fisher matrix: a mean quadratic in two parameters. -/
example : ∃ L : ℝ × ℝ → ℝ,
    (∀ y, gaussianLogLikelihood ![1 + 4, 2] ![y.1 + y.2 ^ 2, y.1 * y.2] (.d2 2 2 !![2, 1; 1, 2]) true
      "cholesky" = .ok (L y)) ∧ fderiv ℝ L (1, 2) = 0 := by
  obtain ⟨L, h1, h2, _⟩ := C88_fisher posDef_two true (m := "cholesky") (Or.inr rfl)
    (μ := fun y : ℝ × ℝ => ![y.1 + y.2 ^ 2, y.1 * y.2]) (x := (1, 2)) (by
      refine contDiffAt_pi.2 fun i => ?_
      fin_cases i
      · exact (contDiff_fst.add (contDiff_snd.pow 2)).contDiffAt
      · exact (contDiff_fst.mul contDiff_snd).contDiffAt)
  refine ⟨L, fun y => ?_, h2⟩
  rw [← h1 y]
  norm_num

/-- Witness for the pipeline: two lensing bins and one clustering bin through the Planck 2015 cosmology,
with unit covariance. -/
example : ∃ (cl : List (List ℝ)) (M : ℝ → List (List ℝ)) (L : ℝ → ℝ),
    (∀ s, angularCl (planckCurve s) [10, 100] demoProbes (EH.nowiggle (planckCurve s)) linear
      = .ok (M s)) ∧
    (∀ s, gaussianLogLikelihood (N := cl.flatten.length) (fun i => cl.flatten.getD i 0)
      (fun i => (M s).flatten.getD i 0) 
        (.d2 _ _ (1 : Matrix (Fin cl.flatten.length) (Fin cl.flatten.length) ℝ)) true "inverse" = .ok (L s)) ∧
    HasDerivAt L 0 0 := by
  have e := planckCurve_zero
  have hp : Physical (planckCurve 0) := by rw [e]; exact planck_physical
  obtain ⟨hn, hs⟩ := C86_regular hp (probes := demoProbes) (zmax := 4) (by norm_num) (by
    intro o ho
    simp only [demoProbes, List.mem_cons, List.not_mem_nil, or_false, Probe.wl.injEq,
      reduceCtorEq] at ho
    subst ho
    refine ⟨fun zm hzm => ?_, fun z0 g zm hd => ?_⟩
    · have := pyMax_ok hzm 4 (by simp [WeakLensing.init, Nz.zmax])
      linarith
    · simp [WeakLensing.init] at hd)
  have hb : (planckCurve 0).Baryonic := by rw [e]; exact planck_baryonic
  have hα : 0 ≤ EH.alpha_gamma (planckCurve 0) := by rw [e]; exact planck_alpha.1.le
  obtain ⟨cl, hcl⟩ : ∃ cl, angularCl (planckCurve 0) [10, 100] demoProbes
      (EH.nowiggle (planckCurve 0)) linear = .ok cl := by
    obtain ⟨cols, hcols⟩ := mapM_exists
      (f := clAt (planckCurve 0) (EH.nowiggle (planckCurve 0)) linear demoProbes) (l := [10, 100])
      fun ell _ => clAt_returns demo_zmax fun i _ => clIntegrand_returns ⟨_, rfl⟩ fun pr hpr =>
        (demo_kernels _ rfl pr hpr _ _).imp fun _ h => h.1
    exact ⟨_, by unfold angularCl; rw [hcols]; rfl⟩
  obtain ⟨M, L, h1, _, h3, h4, _⟩ := C88_pipeline (T := fun s => EH.nowiggle (planckCurve s))
    planckCurve_along rfl hp
    (fun _ hK hk => C85_smooth planckCurve_along hb hK hk.le (EH.gamma_pos hb hα _)) (by
      refine (sigmasqr_pos _ _ ?_).ne'
      obtain ⟨u, hu, hu0, _⟩ := C43_shape (planckCurve 0) hb hα (Real.exp (-4)) (Real.exp_pos _).le
      simp only [Eisenstein_Hu, if_true, Except.ok.injEq] at hu
      rw [hu]; exact hu0.ne')
    (by intro ell he; simp at he; rcases he with rfl | rfl <;> norm_num)
    demo_zmax (by norm_num) (by norm_num) hcl hn hs Matrix.PosDef.one true (Or.inl rfl)
  exact ⟨cl, M, L, h1, h3, h4⟩

end JaxCosmo
