import Verif.Proofs.BatchSpectrum
import Verif.Props.AngularCl

/-! # C139: angular spectra of arrays are arrays of angular spectra -/

namespace JaxCosmo
open Spec

/-- C139: a redshift distribution, and a bias, called with an array of redshifts. -/
theorem C139_distribution (nz : Nz) (b : Bias) (p : Params) {n : ℕ} {z : Nd ℝ} (hz : z.shape = [n]) :
    (∃ y, nz.callNd z = .ok y ∧ y.shape = [n] ∧ ∀ j < n, y.val [j] = nz.eval (z.val [j])) ∧
    ∃ y, b.callNd p z = .ok y ∧ y.shape = [n] ∧ ∀ j < n, y.val [j] = b.call p (z.val [j]) :=
  ⟨callNd_row nz hz, biasCallNd_row p b hz⟩

/-- C139: the three kernels on an array of redshifts: rows are bins, columns the kernels at the redshifts; an exception is
raised for every redshift and multipole, or for none. -/
theorem C139_kernels (p : Params) (pzs : List Nz) (bias : Val) {n : ℕ} {z : Nd ℝ} (hz : z.shape = [n]) :
    Columns n (fun ell => weakLensingKernelNd p pzs z ell) (fun ell j => weakLensingKernel p pzs (z.val [j]) ell) ∧
    Columns n (fun ell => densityKernelNd p pzs bias z ell) (fun ell j => densityKernel p pzs bias (z.val [j]) ell) ∧
    Columns n (fun ell => nlaKernelNd p pzs bias z ell) fun ell j => nlaKernel p pzs bias (z.val [j]) ell :=
  ⟨lensing_cols p pzs hz, density_cols p pzs bias hz, nla_cols p pzs bias hz⟩

/-- C139: the kernel of a probe on an array of redshifts. -/
theorem C139_probe (pr : Probe) (p : Params) {n : ℕ} {z : Nd ℝ} (hz : z.shape = [n]) :
    Columns n (fun ell => pr.kernelNd p z ell) fun ell j => pr.kernel p (z.val [j]) ell :=
  kernel_cols pr p hz

/-- C139: `angular_cl` on an array of multipoles, with a power spectrum that acts on the entries of arrays of the length
of the nodes: the same exception, or rows for the pairs of tracers and columns for the multipoles. -/
theorem C139_spectra (p : Params) (T : ℝ → ℝ) {nlNd : NlNd} {nl : Params → ℝ → ℝ → (ℝ → ℝ) → Except PyErr ℝ}
    (hnl : Elementwise 513 nlNd nl) (ells : List ℝ) (hell : ells ≠ []) (probes : List Probe) :
    (∃ e, angularClNd p (.vec ells.length fun i => ells.getD i 0) probes T nlNd = .error e ∧
      angularCl p ells probes T nl = .error e) ∨
    ∃ R cls, angularClNd p (.vec ells.length fun i => ells.getD i 0) probes T nlNd = .ok R ∧
      angularCl p ells probes T nl = .ok cls ∧ R.shape = [ells.length, cls.length] ∧
      ∀ c < cls.length, (cls.getD c []).length = ells.length ∧
        ∀ l < ells.length, R.val [l, c] = (cls.getD c []).getD l 0 := by
  unfold angularClNd angularCl
  rcases hz : probesZmax probes with e | zmax
  · refine Or.inl ⟨e, rfl, ?_⟩
    rw [mapM_error hell fun ell => by unfold clAt; rw [hz]; rfl]
    rfl
  simp only [okBind']
  rcases cl_cases p T hnl hz with ⟨e, he⟩ | ⟨R, ls, h⟩
  · refine Or.inl ⟨e, ?_, ?_⟩
    · unfold Nd.vmap
      simp only [NdArg.toNd, Nd.vec, List.getLast?_singleton, (he _).1]
      rfl
    · rw [mapM_error hell fun ell => (he ell).2]
      rfl
  · refine Or.inr ?_
    obtain ⟨Y, y1, y2, y3⟩ := vmap_ok (x := (NdArg.vec ells.length fun i => ells.getD i 0).toNd) (s := []) (r := ells.length)
      (f := fun ell => clNd p T nlNd probes zmax (ell.val [])) (t := [(getClOrdering probes).length])
      (y := fun j => R (ells.getD j 0)) rfl (fun j => (h _).1) (h _).2.2.1
    simp only [y1, okBind', mapM_ok ells fun a _ => (h a).2.1]
    refine ⟨_, _, rfl, rfl, by simp [Nd.transpose, y2], fun c hc => ?_⟩
    have hc' : c < (getClOrdering probes).length := by simpa using hc
    rw [List.getD_eq_getElem _ _ hc, List.getElem_map, List.getElem_range]
    refine ⟨by simp, fun l hl => ?_⟩
    rw [List.getD_eq_getElem _ _ (by simpa using hl), List.getElem_map, List.getElem_map]
    change Y.val ([c] ++ [l]) = _
    rw [y3, (h _).2.2.2.2 c hc', List.getD_eq_getElem ells 0 hl]

/-- C139: `halofit`, with either prescription, and `linear` are such power spectra. -/
theorem C139_power (prescription : String) (hp : prescription = "smith2003" ∨ prescription = "takahashi2012") :
    Elementwise 513 (fun p k a T => halofitNd p k a T prescription) (fun p k a T => halofit p k a T prescription) ∧
    Elementwise 513 (fun p k a T => linearNd p T k a) (fun p k a T => linear p k a T) :=
  ⟨halofit_elementwise (by norm_num) prescription hp, linear_elementwise (by norm_num)⟩

/-- C139: `angular_cl` with its default power spectrum. -/
theorem C139_default (p : Params) (T : ℝ → ℝ) (ells : List ℝ) (hell : ells ≠ []) (probes : List Probe) {cls : List (List ℝ)}
    (h : angularCl p ells probes T = .ok cls) :
    ∃ R, angularClNd p (.vec ells.length fun i => ells.getD i 0) probes T = .ok R ∧ R.shape = [ells.length, cls.length] ∧
      ∀ c < cls.length, ∀ l < ells.length, R.val [l, c] = rowAt cls c l := by
  rcases C139_spectra p T (C139_power "takahashi2012" (Or.inr rfl)).1 ells hell probes with ⟨e, -, h2⟩ | ⟨R, cls', h1, h2, h3, h4⟩
  · rw [show angularCl p ells probes T = _ from h2] at h
    cases h
  · rw [show angularCl p ells probes T = _ from h2] at h
    cases h
    exact ⟨R, h1, h3, fun c hc l hl => (h4 c hc).2 l hl⟩

/-- C139: a multipole that is not in an array is refused. -/
theorem C139_scalar (p : Params) (T : ℝ → ℝ) (nlNd : NlNd) (ell : ℝ) (probes : List Probe) :
    angularClNd p (.scalar ell) probes T nlNd = .error .valueError := by
  unfold angularClNd
  rcases hz : probesZmax probes with e | zmax
  · rw [probesZmax_error hz]
    rfl
  · rfl

/-- Two redshifts and three bins, the second of them a plane. -/
example : ∃ R, weakLensingKernelNd Planck15 [.smail 1 2 1 1 4, .delta 2 1 10, .smail 1 2 2 1 4] (.vec 2 fun i => i + 1) 10
    = .ok R ∧ R.shape = [2, 3] := by
  have hC : pyMax ([.smail 1 2 1 1 4, .delta 2 1 10, .smail 1 2 2 1 4].map Nz.zmax) = .ok (max (max 4 10) 4) := rfl
  rcases (C139_kernels Planck15 [.smail 1 2 1 1 4, .delta 2 1 10, .smail 1 2 2 1 4] .none (z := Nd.vec 2 fun i => i + 1)
    rfl).1 with ⟨e, he⟩ | ⟨m, R, ls, h⟩
  · have := (he 10).2 0
    simp only [C48_order Planck15 rfl _ _ _ _ hC] at this
    cases this
  · refine ⟨R 10, (h 10).1, ?_⟩
    rw [(h 10).2.2.1, ← ((h 10).2.2.2 0).1, (wl_length _ _ _ _ ((h 10).2.1 0)).1]
    rfl

/-- Two bins with a list of three biases: `TypeError`, for one redshift as for many. -/
example (ell : ℝ) : densityKernelNd Planck15 [.smail 1 2 1 1 4, .smail 1 2 2 1 4]
    (.biases [.constant 1, .constant 2, .constant 3]) (.vec 5 fun i => i) ell = .error .typeError := by
  have h1 : ∀ x ell, densityKernel Planck15 [.smail 1 2 1 1 4, .smail 1 2 2 1 4]
      (.biases [.constant 1, .constant 2, .constant 3]) x ell = .error .typeError := fun x ell =>
    (C51_length Planck15 rfl _ (by simp) (by simp [Nz.isDelta]) [.constant 1, .constant 2, .constant 3] (by simp)
      (by simp) x ell).1
  rcases (C139_kernels Planck15 [.smail 1 2 1 1 4, .smail 1 2 2 1 4] (.biases [.constant 1, .constant 2, .constant 3])
    (z := Nd.vec 5 fun i => i) rfl).2.1 with ⟨e, he⟩ | ⟨m, R, ls, h⟩
  · have h2 := (he ell).2 0
    simp only [h1] at h2
    cases h2
    exact (he ell).1
  · have := (h ell).2.1 0
    simp only [h1] at this
    cases this

/-- Three multipoles, a lensing probe with two bins and a clustering probe. -/
example (T : ℝ → ℝ) : ∃ R, angularClNd Planck15 (.vec 3 fun i => [10, 20, 30].getD i 0) demoProbes T
    (fun p k a T => linearNd p T k a) = .ok R ∧ R.shape = [3, 6] := by
  have hk := demo_kernels Planck15 rfl
  choose! K hK using hk
  have hcl : ∀ ell, ∃ col, clAt Planck15 T linear demoProbes ell = .ok col := fun ell => by
    obtain ⟨col, h1, -, -⟩ := C56_limber Planck15 T linear demoProbes ell 4
      (fun a => linearMatterPower Planck15 T ((ell + 1 / 2) / max (chiOf Planck15 a) 1) a)
      (fun pr a => K pr (1 / a - 1) ell) demo_zmax (fun a => C42_linear _ _ _ _)
      (fun pr hpr a => (hK pr hpr _ _).1) (fun pr hpr a => (hK pr hpr _ _).2)
    exact ⟨col, h1⟩
  choose col hcol using hcl
  have hA : angularCl Planck15 [10, 20, 30] demoProbes T linear = .ok ((List.range 6).map fun c =>
      ([10, 20, 30].map col).map fun l => l.getD c 0) := by
    unfold angularCl
    rw [mapM_ok (g := col) _ fun a _ => hcol a]
    rfl
  rcases C139_spectra Planck15 T (C139_power "smith2003" (Or.inl rfl)).2 [10, 20, 30] (by simp) demoProbes with
    ⟨e, -, h2⟩ | ⟨R, cls, h1, h2, h3, -⟩
  · rw [show angularCl Planck15 [10, 20, 30] demoProbes T linear = _ from h2] at hA
    cases hA
  · refine ⟨R, h1, ?_⟩
    rw [show angularCl Planck15 [10, 20, 30] demoProbes T linear = _ from h2] at hA
    rw [h3, Except.ok.inj hA]
    rfl

end JaxCosmo
