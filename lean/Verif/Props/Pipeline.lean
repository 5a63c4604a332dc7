import Verif.Props.AngularCl
import Verif.Props.Covariance
import Verif.Props.Likelihood

/-! # C66: spectra, noise, covariance and likelihood together -/

namespace JaxCosmo
open Spec Matrix

theorem symMat_congr {N : ℕ} {c d : List ℝ} (h : ∀ I < pairCount N, c.getD I 0 = d.getD I 0) :
    symMat N c = symMat N d := by
  ext i j
  exact h _ (pairPos_lt i.2 j.2)

theorem noise_posDef {ells : List ℝ} {probes : List Probe} (hc : ∀ pr ∈ probes, pr.Consistent)
    (hpos : ∀ pr ∈ probes, pr.Noisy) {n : List (List ℝ)} (h : noiseCl ells probes = .ok n) {l : ℕ}
    (hl : l < ells.length) : (symMat (tracers probes).length (column n l)).PosDef := by
  obtain ⟨-, -, hv⟩ := C58_auto_only ells probes hc h
  have key : ∀ i : Fin (tracers probes).length, ∃ d : ℝ, 0 < d ∧ ∀ j : Fin (tracers probes).length,
      i ≤ j → symMat (tracers probes).length (column n l) i j = if i = j then d else 0 := by
    intro i
    obtain ⟨⟨pr, t⟩, hi⟩ : ∃ x, (tracers probes)[(i : ℕ)]? = some x :=
      ⟨_, List.getElem?_eq_getElem i.2⟩
    obtain ⟨r, h1, h2, -⟩ := hv i i l le_rfl hl pr t hi i.2
    have hmem : pr ∈ probes := by
      have := List.mem_of_getElem? hi
      simp only [tracers, List.mem_flatMap, List.mem_map, Prod.mk.injEq] at this
      obtain ⟨q, hq, s, -, rfl, -⟩ := this
      exact hq
    refine ⟨r.getD t 0, ?_, ?_⟩
    · rw [List.getD_eq_getElem _ _ h2]
      exact C58_pos pr (hpos pr hmem) h1 _ (List.getElem_mem _)
    · intro j hij
      obtain ⟨r', h1', -, h3⟩ := hv i j l hij hl pr t hi j.2
      rw [h1] at h1'
      cases Except.ok.inj h1'
      rw [symMat, rowAt_column, h3]
      simp only [Fin.ext_iff]
  choose d hd hd' using key
  have hdiag : symMat (tracers probes).length (column n l) = diagonal d := by
    ext i j
    rw [diagonal_apply]
    rcases le_total i j with hij | hij
    · exact hd' i j hij
    · have e : symMat (tracers probes).length (column n l) i j
          = symMat (tracers probes).length (column n l) j i := by
        simp only [symMat, pairPos_comm]
      rw [e, hd' j i hij]
      by_cases h : i = j
      · subst h; rfl
      · rw [if_neg h, if_neg (Ne.symm h)]
  rw [hdiag]
  exact PosDef.diagonal hd

theorem pairCount_pos {N : ℕ} (h : 0 < N) : 0 < pairCount N := by
  have := pairPos_lt h h
  omega

/-- C66: whenever the library computes spectra, noise and covariance for probes with galaxies and
shape noise in every bin, on an increasing grid of at least two non-negative multipoles, with a
power spectrum that is not negative, then the sparse covariance is positive definite; `sparse.inv`
and `sparse.slogdet` give its true inverse and log-determinant; the log likelihood is defined for
any data and model; and without the determinant it is maximal, with value zero, exactly where
the data equal the model. -/
theorem C66_pipeline (p : Params) (ells : List ℝ) (probes : List Probe) (T : ℝ → ℝ)
    (nl : Params → ℝ → ℝ → (ℝ → ℝ) → Except PyErr ℝ) (f_sky zmax : ℝ)
    (hell : ells.Pairwise (· < ·)) (hell0 : ∀ l ∈ ells, 0 ≤ l) (h2 : 2 ≤ ells.length)
    (hf : 0 < f_sky) (hz : probesZmax probes = .ok zmax) (hz0 : 0 ≤ zmax)
    (hc : ∀ pr ∈ probes, pr.Consistent) (hpos : ∀ pr ∈ probes, pr.Noisy)
    (hne : tracers probes ≠ [])
    (hP : ∀ k a v, 0 < k → 0 < a → a ≤ 1 → nl p k a T = .ok v → 0 ≤ v)
    {mean : List ℝ} {cov : NdArr ℝ}
    (h : gaussianClCovarianceAndMean p ells probes T nl f_sky true = .ok (mean, cov)) :
    ∃ n : ℕ, pairCount (tracers probes).length = n + 1 ∧
    mean.length = (n + 1) * ells.length ∧
    ∃ S T' : Sp ℝ (n + 1) (n + 1) ells.length, cov = .d3 _ _ _ S ∧ (denseEntry S).PosDef ∧
      invApi cov = .ok (.d3 _ _ _ T') ∧ denseEntry T' = (denseEntry S)⁻¹ ∧
      slogdetApi cov = .ok (1, Real.log (denseEntry S).det) ∧
      ∀ data mu : Fin ((n + 1) * ells.length) → ℝ,
        (∃ v, gaussianLogLikelihood data mu cov true = .ok v) ∧
        ∃ v, gaussianLogLikelihood data mu cov false = .ok v ∧ v ≤ 0 ∧ (v = 0 ↔ data = mu) := by
  obtain ⟨hmean, -, signal, noise, hs, hn, hcov⟩ := C61_mean_order p ells probes T nl f_sky true h
  obtain ⟨hrs, hval⟩ := angularCl_rect hs
  have hrn := noiseCl_rect hn
  have hmode : ∀ l < ells.length, 0 < modeCount ells f_sky l := by
    obtain ⟨norm, e, hnorm⟩ := C62_pos ells f_sky h2 hell hell0 hf
    obtain ⟨norm', e', hnorm'⟩ := covNorm_eq ells f_sky h2
    intro l hl
    rw [e] at e'
    rw [← hnorm' l hl, ← Except.ok.inj e']
    exact hnorm l hl
  have hC : ∀ l < ells.length, (obsMat (tracers probes).length signal noise l).PosDef := by
    intro l hl
    obtain ⟨col, hcol, hv⟩ := hval l hl
    have hpsd := C56_psd p T nl probes _ zmax hz hz0 (hell0 _ (List.getElem_mem hl)) hP hcol
    have e : symMat (tracers probes).length (column signal l)
        = symMat (tracers probes).length col :=
      symMat_congr fun I hI => by rw [rowAt_column, hv I hI]
    rw [obsMat, e]
    exact (noise_posDef hc hpos hn hl).posSemidef_add hpsd
  obtain ⟨S, hS, hpd⟩ := C60_posDef ells probes signal noise f_sky h2 hrs hrn hmode hC
  have hcov' : cov = .d3 _ _ _ S := Except.ok.inj (hcov.symm.trans hS)
  clear hS hcov hrs hrn hC hval h hs hn
  have hM := pairCount_pos (List.length_pos_iff.2 hne)
  revert S
  rw [hmean]
  generalize pairCount (tracers probes).length = M at *
  obtain ⟨n, rfl⟩ : ∃ n, M = n + 1 := ⟨M - 1, by omega⟩
  intro S hpd hcov'
  subst hcov'
  obtain ⟨T', h1, -, -, h3⟩ := C37_inverse S (isUnit_iff_ne_zero.2 hpd.det_pos.ne')
  refine ⟨n, rfl, rfl, S, T', rfl, hpd, h1, h3, (C38_posDef S hpd).1, ?_⟩
  intro data mu
  refine ⟨⟨_, loglike_sparse data mu S hpd true _⟩, ?_⟩
  obtain ⟨v, a1, -, a2, a3, -⟩ := C65_sparse data mu S hpd "inverse"
  exact ⟨v, a1, a2, a3⟩

theorem omega_m_pos (p : Params) (h : Physical p) {a : ℝ} (ha : 0 < a) (ha1 : a ≤ 1) :
    0 < Omega_m_a p a := by
  have hE := h.esqrPos a ha ha1
  have := h.m_pos
  unfold Omega_m_a
  positivity

/-- C66 for the library's defaults: in every physical cosmology with any transfer function, the
default (halofit) spectrum is available and meets the positivity hypothesis. -/
theorem C66_default (p : Params) (hp : Physical p) (T : ℝ → ℝ) :
    (∀ k a, ∃ v, halofit p k a T = .ok v) ∧
    ∀ k a v, 0 < k → 0 < a → a ≤ 1 → halofit p k a T = .ok v → 0 ≤ v := by
  refine ⟨fun k a => ?_, ?_⟩
  · unfold halofit
    simp only [String.reduceEq, if_false, if_true]
    exact ⟨_, rfl⟩
  intro k a v hk ha ha1 h
  obtain ⟨v', h1, h2⟩ := C42_takahashi_pos p k a T hk (omega_m_pos p hp ha ha1)
  rw [h1] at h
  rw [← Except.ok.inj h]
  exact h2.le

/-- C66: the pipeline returns (does not raise) whenever every kernel, the noise levels and the power
spectrum do and there are at least two multipoles. -/
theorem C66_returns (p : Params) (ells : List ℝ) (probes : List Probe) (T : ℝ → ℝ)
    (nl : Params → ℝ → ℝ → (ℝ → ℝ) → Except PyErr ℝ) (f_sky zmax : ℝ) (sparse : Bool)
    (h2 : 2 ≤ ells.length) (hz : probesZmax probes = .ok zmax)
    (hP : ∀ k a, ∃ v, nl p k a T = .ok v)
    (hK : ∀ pr ∈ probes, ∀ z ell, ∃ k, pr.kernel p z ell = .ok k)
    (hn : ∀ pr ∈ probes, ∃ n, pr.noise = .ok n) :
    ∃ r, gaussianClCovarianceAndMean p ells probes T nl f_sky sparse = .ok r := by
  have hs : ∃ signal, angularCl p ells probes T nl = .ok signal := by
    obtain ⟨cols, hcols⟩ := mapM_exists (f := clAt p T nl probes) (l := ells) fun ell _ =>
      clAt_returns (p := p) (T := T) (nl := nl) (ell := ell) hz fun i _ =>
        clIntegrand_returns (hP _ _) fun pr hpr => hK pr hpr _ _
    exact ⟨_, by unfold angularCl; rw [hcols]; rfl⟩
  have hn : ∃ noise, noiseCl ells probes = .ok noise := by
    obtain ⟨ns, hns⟩ := mapM_exists (f := Probe.noise) hn
    exact ⟨_, by unfold noiseCl; rw [hns]; rfl⟩
  obtain ⟨signal, hs⟩ := hs
  obtain ⟨noise, hn⟩ := hn
  have hcov := covariance_eq ells probes signal noise f_sky h2 (angularCl_rect hs).1
    (noiseCl_rect hn)
  have hc : ∃ c, gaussianClCovariance ells probes signal noise f_sky sparse = .ok c := by
    cases sparse
    · rw [← C61_representation, hcov]
      exact ⟨_, rfl⟩
    · exact ⟨_, hcov⟩
  obtain ⟨c, hc⟩ := hc
  refine ⟨(signal.flatten, c), ?_⟩
  unfold gaussianClCovarianceAndMean
  rw [hs, hn]
  change (gaussianClCovariance ells probes signal noise f_sky sparse >>= _) = _
  rw [hc]
  rfl

/-- Witness: two lensing bins and one clustering bin in the Planck cosmology, at multipoles 10, 20
and 30, with the default non-linear power spectrum and any transfer function: the covariance
returned is a positive definite 18 × 18 matrix. -/
example (T : ℝ → ℝ) : ∃ mean S, gaussianClCovarianceAndMean Planck15 [10, 20, 30] demoProbes T
    (fun p k a T => halofit p k a T) 0.25 true = .ok (mean, .d3 6 6 3 S) ∧ mean.length = 18 ∧
    (denseEntry S).PosDef := by
  obtain ⟨hret, hnn⟩ := C66_default Planck15 planck_physical T
  obtain ⟨⟨mean, cov⟩, h⟩ := C66_returns Planck15 [10, 20, 30] demoProbes T
    (fun p k a T => halofit p k a T) 0.25 4 true (by simp) demo_zmax hret
    (fun pr hpr z ell => (demo_kernels Planck15 rfl pr hpr z ell).imp fun _ h => h.1) (by
      intro pr hpr
      simp only [demoProbes, List.mem_cons, List.not_mem_nil, or_false] at hpr
      rcases hpr with rfl | rfl
      · exact ⟨_, C58_lensing _ _ _ _⟩
      · exact ⟨_, C58_clustering _ _⟩)
  have hc : ∀ pr ∈ demoProbes, pr.Consistent := by
    intro pr hpr
    simp only [demoProbes, List.mem_cons, List.not_mem_nil, or_false] at hpr
    rcases hpr with rfl | rfl
    · intro h; simp [WeakLensing.init] at h
    · intro _; trivial
  have hN : (tracers demoProbes).length = 3 := rfl
  obtain ⟨n, hn, hm, S, T', hS, hpd, -⟩ := C66_pipeline Planck15 [10, 20, 30] demoProbes T _ 0.25 4
    (by norm_num) (by norm_num) (by simp) (by norm_num) demo_zmax (by norm_num) hc (by
      intro pr hpr
      simp only [demoProbes, List.mem_cons, List.not_mem_nil, or_false] at hpr
      rcases hpr with rfl | rfl
      · refine ⟨?_, ?_⟩
        · simp [Probe.bins, WeakLensing.init, Nz.gals]
        · norm_num [WeakLensing.init]
      · exact ⟨by simp [Probe.bins, NumberCounts.init, Nz.gals], trivial⟩)
    (by rw [← List.length_pos_iff, hN]; norm_num) hnn h
  rw [hN] at hn
  obtain rfl : n = 5 := by
    have : pairCount 3 = 6 := rfl
    omega
  subst hS
  exact ⟨mean, S, h, hm, hpd⟩

end JaxCosmo
