import Verif.Proofs.JvpCovariance
import Verif.Props.JvpSpectra
import Verif.Props.Pipeline
import Verif.Props.MovingCovariance

/-! # C127–C129: derivatives of the covariance, of the likelihood and of the whole pipeline -/

namespace JaxCosmo
open Spec Matrix

variable {θ : ℝ} {N : ℕ} {P : ℝ → Params} {v : Params} {T : ℝ → ℝ → ℝ} {TD : Du → Du}

/-! ## C127: the covariance -/

/-- C127: the tangents of the Gaussian covariance, in both representations, are the derivatives of its
entries; the call raises exactly when the undifferentiated one does. -/
theorem C127_covariance {probes : List (ProbeTree Leaf)} {ells : List ℝ} {f_sky : ℝ}
    (hm : ∀ norm, covNorm ells f_sky = .ok norm → ∀ l < ells.length, norm l ≠ 0)
    {signal noise : ℝ → List (List ℝ)} {signalD noiseD : List (List Du)}
    (hs : JvpTable θ signal signalD) (hn : JvpTable θ noise noiseD) (sparse : Bool) :
    JvpE (JvpArr θ)
      (fun r => gaussianClCovariance ells (probes.map fun t => probeAt t r) (signal r) (noise r) f_sky sparse)
      (Dm.gaussianClCovariance ells (probes.map probeDual) signalD noiseD f_sky sparse) :=
  jvp_covariance hm hs hn sparse

theorem covNorm_ne {ells : List ℝ} {f_sky : ℝ} (hi : ells.Pairwise (· < ·)) (h0 : ∀ l ∈ ells, 0 ≤ l)
    (hf : 0 < f_sky) : ∀ norm, covNorm ells f_sky = .ok norm → ∀ l < ells.length, norm l ≠ 0 := by
  intro norm e l hl
  rcases lt_or_ge ells.length 2 with h2 | h2
  · rw [(C62_value ells f_sky).2 h2] at e; exact absurd e (by simp)
  · obtain ⟨norm', e', hp⟩ := C62_pos ells f_sky h2 hi h0 hf
    rw [e'] at e
    rw [← Except.ok.inj e]
    exact (hp l hl).ne'

/-- Mean vector and covariance together. -/
def JvpMeanCov (s : ℝ) (G : ℝ → List ℝ × NdArr ℝ) (g : List Du × NdArr Du) : Prop :=
  JvpList s (fun r => (G r).1) g.1 ∧ JvpArr s (fun r => (G r).2) g.2

theorem jvp_meanCov {probes : List (ProbeTree Leaf)} {ells : List ℝ} {f_sky : ℝ}
    {nl : Params → ℝ → ℝ → (ℝ → ℝ) → Except PyErr ℝ} {D : DParams}
    {nlD : DParams → Du → Du → (Du → Du) → Except PyErr Du}
    (hm : ∀ norm, covNorm ells f_sky = .ok norm → ∀ l < ells.length, norm l ≠ 0)
    (hs : JvpE (JvpTable θ) (fun r => angularCl (P r) ells (probes.map fun t => probeAt t r) (T r) nl)
      (Dm.angularCl D (ells.map Du.con) (probes.map probeDual) TD nlD))
    (hn : JvpE (JvpTable θ) (fun r => noiseCl ells (probes.map fun t => probeAt t r))
      (Dm.noiseCl (ells.map Du.con) (probes.map probeDual))) (sparse : Bool) :
    JvpE (JvpMeanCov θ)
      (fun r => gaussianClCovarianceAndMean (P r) ells (probes.map fun t => probeAt t r) (T r) nl f_sky sparse)
      (Dm.gaussianClCovarianceAndMean D ells (probes.map probeDual) TD nlD f_sky sparse) := by
  unfold gaussianClCovarianceAndMean Dm.gaussianClCovarianceAndMean
  refine JvpE.bind hs fun S sD hS => JvpE.bind hn fun M mD hM => ?_
  exact JvpE.bind (jvp_covariance hm hS hM sparse) fun C c hC => JvpE.ok (R := JvpMeanCov θ) ⟨hS.flatten, hC⟩

/-- C127: mean vector and covariance of a survey, with the linear power spectrum. -/
theorem C127_linear (h : Along P v θ) (hp : Physical (P θ)) (hT : TransferJvp θ T TD)
    (hn : T θ (Real.exp (-4)) ≠ 0) {probes : List (ProbeTree Leaf)} (ht : ∀ t ∈ probes, GoodProbe θ t)
    (hg : ∀ t ∈ probes, GoodCounts θ t)
    {zm : ℝ} (hm : treeZmax probes = .ok zm) (h2 : 2 ≤ zm) (h9 : zm ≤ 899) {ells : List ℝ}
    (hi : ells.Pairwise (· < ·)) (hl : ∀ ell ∈ ells, 1 ≤ ell ∨ ell = 0) {f_sky : ℝ} (hf : 0 < f_sky)
    (sparse : Bool) :
    JvpE (JvpMeanCov θ)
      (fun r => gaussianClCovarianceAndMean (P r) ells (probes.map fun t => probeAt t r) (T r) linear f_sky
        sparse)
      (Dm.gaussianClCovarianceAndMean (seedParams (P θ) v) ells (probes.map probeDual) TD Dm.linear f_sky
        sparse) :=
  jvp_meanCov (covNorm_ne hi (fun l h => by rcases hl l h with h | h <;> linarith) hf)
    (C125_linear h hp hT hn ht hm h2 h9 hl) (C125_noise hg ells) sparse

/-- C127: the same with halofit, under the condition of C122 at the nodes of the Limber integral. -/
theorem C127_halofit_partial (h : Along P v θ) (hp : Physical (P θ)) (hT : TransferJvp θ T TD)
    {probes : List (ProbeTree Leaf)} (ht : ∀ t ∈ probes, GoodProbe θ t) (hg : ∀ t ∈ probes, GoodCounts θ t)
    {zm : ℝ} (hm : treeZmax probes = .ok zm) (h2 : 2 ≤ zm) (h9 : zm ≤ 899)
    (hpt : ∀ i ≤ 512, HalofitPoint (P θ) (T θ) (linspace (z2a zm) 1 513 i))
    (hα : ∀ i ≤ 512, 6.0835 + 1.3373 * Halofit.n_eff (P θ) (T θ) (linspace (z2a zm) 1 513 i)
      - 0.1959 * Halofit.n_eff (P θ) (T θ) (linspace (z2a zm) 1 513 i) ^ 2
      - 5.5274 * Halofit.curv (P θ) (T θ) (linspace (z2a zm) 1 513 i) ≠ 0) {ells : List ℝ}
    (hi : ells.Pairwise (· < ·)) (hl : ∀ ell ∈ ells, 1 ≤ ell ∨ ell = 0) {f_sky : ℝ} (hf : 0 < f_sky)
    (sparse : Bool) :
    JvpE (JvpMeanCov θ)
      (fun r => gaussianClCovarianceAndMean (P r) ells (probes.map fun t => probeAt t r) (T r)
        (f_sky := f_sky) (sparse := sparse))
      (Dm.gaussianClCovarianceAndMean (seedParams (P θ) v) ells (probes.map probeDual) TD
        (fun p k a T => Dm.halofit p k a T) f_sky sparse) :=
  jvp_meanCov (covNorm_ne hi (fun l h => by rcases hl l h with h | h <;> linarith) hf)
    (C125_halofit_partial h hp hT ht hm h2 h9 hpt hα hl) (C125_noise hg ells) sparse

/-! ## C128: the likelihood -/

/-- C128: for data, mean and covariance that all carry derivatives, in either representation and with
either method, the tangent of the likelihood is its derivative; misshaped arguments and unknown methods
are refused exactly as without differentiation. -/
theorem C128_likelihood {data mu : ℝ → Fin N → ℝ} {dataD muD : Fin N → Du} (hd : JvpVec θ data dataD)
    (hm : JvpVec θ mu muD) {C : ℝ → NdArr ℝ} {D : NdArr Du} (hC : JvpArr θ C D) {method : String}
    (hp : LikelihoodPoint θ C method) (incl : Bool) :
    JvpE (fun F d => Jvp F θ d) (fun r => gaussianLogLikelihood (data r) (mu r) (C r) incl method)
      (Dm.gaussianLogLikelihood dataD muD D incl method) :=
  jvp_loglike hd hm hC hp incl

/-- C128: hence what is computed for fixed data is the gradient of C126: both methods return the same
tangent. -/
theorem C128_gradient {mu : ℝ → Fin N → ℝ} {mu' : Fin N → ℝ} {muD : Fin N → Du} (data : Fin N → ℝ)
    (hm : JvpVec θ mu muD) (hm' : ∀ i, HasDerivAt (fun r => mu r i) (mu' i) θ)
    {C : ℝ → Matrix (Fin N) (Fin N) ℝ} {C' : Matrix (Fin N) (Fin N) ℝ} {D : Matrix (Fin N) (Fin N) Du}
    (hC : JvpMat θ C D) (hC' : ∀ i j, HasDerivAt (fun r => C r i j) (C' i j) θ) (hs : ∀ r, (C r).IsSymm)
    (hp : (C θ).PosDef) (incl : Bool) {method : String} (hmm : method = "inverse" ∨ method = "cholesky") :
    ∃ d, Dm.gaussianLogLikelihood (fun i => Du.con (data i)) muD (.d2 N N D) incl method = .ok d ∧
      gaussianLogLikelihood data (mu θ) (.d2 N N (C θ)) incl method = .ok d.val.re ∧
      d.tangent = Xr.fin ((data - mu θ) ⬝ᵥ ((C θ)⁻¹ *ᵥ mu')
        + 1 / 2 * ((data - mu θ) ⬝ᵥ (((C θ)⁻¹ * C' * (C θ)⁻¹) *ᵥ (data - mu θ)))
        + if incl then 1 / 2 * ((C θ)⁻¹ * C').trace else 0) := by
  obtain ⟨L, hL, hder⟩ := C126_gradient data (fun i j => hC' i j) hm' hp hs incl hmm
  have hpt : LikelihoodPoint θ (fun r => .d2 N N (C r)) method := by
    refine ⟨fun n M e => ?_, fun _ r n M e => ?_, fun _ n M e => ?_, fun n P S e => ?_⟩
    · cases e; exact hp.det_pos.ne'
    · cases e; exact hs r
    · cases e; exact hp
    · cases e
  have key := C128_likelihood (N := N) (data := fun _ => data) (fun i => Jvp.con (data i) θ) hm
    (C := fun r => .d2 N N (C r)) (D := .d2 N N D) ⟨C, fun _ => rfl, hC⟩ hpt incl
  rcases key with ⟨e, he, -⟩ | ⟨G, g, hG, hg, hj⟩
  · exact absurd ((hL θ).symm.trans (he θ)) (by simp)
  · have e : G = L := funext fun r => Except.ok.inj ((hG r).symm.trans (hL r))
    obtain ⟨g', h1, h2, h3⟩ := hj
    rw [e] at h1 h2
    refine ⟨g, hg, ?_, ?_⟩
    · rw [hL, h2]; rfl
    · rw [h3, h1.unique hder]; rfl

theorem cholesky_two {L : Matrix (Fin 2) (Fin 2) ℝ} (h : Xr.IsCholesky !![1, 1; 1, 2] L) : L = !![1, 0; 1, 1] := by
  obtain ⟨h1, h2, h3⟩ := h
  have h01 : L 0 1 = 0 := h1 0 1 (by decide)
  have e := fun i j => congrFun (congrFun h3 i) j
  have e00 := e 0 0
  have e10 := e 1 0
  have e11 := e 1 1
  simp only [mul_apply, Fin.sum_univ_two, transpose_apply, h01, of_apply, cons_val', cons_val_zero,
    cons_val_one, cons_val_fin_one] at e00 e10 e11
  have p0 := h2 0
  have p1 := h2 1
  have a0 : L 0 0 = 1 := by nlinarith
  rw [a0] at e10
  have a1 : L 1 0 = 1 := by linarith
  rw [a1] at e11
  have a2 : L 1 1 = 1 := by nlinarith
  ext i j
  fin_cases i <;> fin_cases j <;> simp [a0, a1, a2, h01]

theorem posDef_shear : (!![1, 1; 1, 2] : Matrix (Fin 2) (Fin 2) ℝ).PosDef := by
  refine .of_dotProduct_mulVec_pos (by ext i j; fin_cases i <;> fin_cases j <;> simp) fun x hx => ?_
  have h : star x ⬝ᵥ (!![1, 1; 1, 2] *ᵥ x) = x 1 ^ 2 + (x 0 + x 1) ^ 2 := by
    simp [dotProduct, mulVec, Fin.sum_univ_two]
    ring
  rw [h]
  by_cases h1 : x 1 = 0
  · have h0 : x 0 ≠ 0 := fun h0 => hx (by ext i; fin_cases i <;> simp [h0, h1])
    rw [h1, add_zero]
    positivity
  · positivity

/-- C128: the symmetry asked for by the Cholesky method is needed.  The method reads the lower triangle of
the covariance only, but its tangent responds to a change of an entry above the diagonal. -/
theorem C128_refuted :
    (∀ r : ℝ, gaussianLogLikelihood ![0, 0] ![0, 1] (.d2 2 2 !![1, 1 + r; 1, 2]) false "cholesky"
      = .ok (-(1 / 2))) ∧
    ∃ d, Dm.gaussianLogLikelihood ![Du.con 0, Du.con 0] ![Du.con 0, Du.con 1]
      (.d2 2 2 !![Du.con 1, ⟨.fin 1, some (.fin 1)⟩; Du.con 1, Du.con 2]) false "cholesky" = .ok d ∧
      d.tangent = .fin (-(1 / 2)) := by
  have hinv : (!![1, 1; 1, 2] : Matrix (Fin 2) (Fin 2) ℝ)⁻¹ = !![2, -1; -1, 1] :=
    inv_eq_right_inv (by rw [mul_fin_two, one_fin_two]; norm_num)
  constructor
  · intro r
    have hl : lowerSym !![1, 1 + r; 1, 2] = !![1, 1; 1, 2] := by
      ext i j
      fin_cases i <;> fin_cases j <;> simp [lowerSym]
    rw [loglike_parts]
    have e : quadPart (![0, 1] - ![0, 0]) (.d2 2 2 !![1, 1 + r; 1, 2]) "cholesky" = .ok 1 := by
      have h1 : ¬ "cholesky" = "inverse" := by decide
      simp only [quadPart, if_neg h1, if_true, and_self, dif_pos, Fin.cast_eq_self]
      refine congrArg Except.ok ?_
      change (![0, 1] - ![0, 0]) ⬝ᵥ (lowerSym !![1, 1 + r; 1, 2])⁻¹ *ᵥ (![0, 1] - ![0, 0]) = 1
      rw [hl, hinv]
      simp [dotProduct, mulVec, Fin.sum_univ_two]
    rw [e]
    exact congrArg Except.ok (mul_one _)
  · set D : Matrix (Fin 2) (Fin 2) Du := !![Du.con 1, ⟨.fin 1, some (.fin 1)⟩; Du.con 1, Du.con 2] with hD
    have hv : Dm.matVal D = Xr.ofMat !![1, 1; 1, 2] := by
      ext i j
      fin_cases i <;> fin_cases j <;> rfl
    have ht : Dm.matTan D = some (Xr.ofMat !![0, 1; 0, 0]) := by
      unfold Dm.matTan
      rw [if_neg fun h => by simpa [hD] using h 0 1]
      congr 1
      ext i j
      fin_cases i <;> fin_cases j <;> rfl
    have hpd : (!![1, 1; 1, 2] : Matrix (Fin 2) (Fin 2) ℝ).PosDef :=
      posDef_shear
    obtain ⟨L, hL, hch⟩ := chol_ofMat hpd (by
      ext i j
      fin_cases i <;> fin_cases j <;> simp [lowerSym])
    have hLi : L⁻¹ = !![1, 0; -1, 1] := by
      rw [cholesky_two hL]
      exact inv_eq_right_inv (by rw [mul_fin_two, one_fin_two]; norm_num)
    have tr_of : ∀ M : Matrix (Fin 2) (Fin 2) ℝ, (fun i j => Xr.ofMat M j i) = Xr.ofMat Mᵀ := fun _ => rfl
    have neg_of : ∀ w : Fin 2 → ℝ, (fun i => -(Xr.ofVec w i)) = Xr.ofVec (-w) := fun _ => rfl
    set r : Fin 2 → Du := fun i => ![Du.con 0, Du.con 1] i - ![Du.con 0, Du.con 0] i with hr
    have hrt : Dm.vecTan r = none := by
      unfold Dm.vecTan
      rw [if_pos fun i => by fin_cases i <;> rfl]
    have hrv : (fun i => (r i).val) = Xr.ofVec ![0, 1] := by
      funext i
      fin_cases i
      · change Xr.fin (0 - 0) = Xr.fin 0
        norm_num
      · change Xr.fin (1 - 0) = Xr.fin 1
        norm_num
    have hdL : L * rphi (!![1, 0; -1, 1] * (!![0, 1; 0, 0] * !![1, 0; -1, 1]ᵀ)) = !![0, 0; 0, -(1 / 2)] := by
      have e1 : (!![1, 0; -1, 1] : Matrix (Fin 2) (Fin 2) ℝ)ᵀ = !![1, -1; 0, 1] := by
        ext i j
        fin_cases i <;> fin_cases j <;> rfl
      have e2 : rphi !![0, 1; 0, -1] = !![0, 0; 0, -(1 / 2)] := by
        ext i j
        fin_cases i <;> fin_cases j <;> norm_num [rphi]
      rw [e1, mul_fin_two, mul_fin_two, cholesky_two hL]
      norm_num only
      rw [e2, mul_fin_two]
      norm_num only
    have hy : ∀ i, Jvp (fun s => (![-1, 1] + s • ![-1, 1] : Fin 2 → ℝ) i) 0 (Dm.choSolve D r i) := by
      intro i
      refine ⟨(![-1, 1] : Fin 2 → ℝ) i, ?_, ?_, ?_⟩
      · have := ((hasDerivAt_id (0 : ℝ)).mul_const ((![-1, 1] : Fin 2 → ℝ) i)).const_add ((![-1, 1] : Fin 2 → ℝ) i)
        rw [one_mul] at this
        exact this
      · unfold Dm.choSolve
        simp only
        rw [hv, hch, Xr.minv_ofMat hL.det_ne, hrv, hLi, tr_of, Xr.mvec_ofVec, Xr.mvec_ofVec]
        refine congrArg Xr.fin ?_
        fin_cases i <;> simp [mulVec, dotProduct, Fin.sum_univ_two]
      · unfold Dm.choSolve
        simp only [Du.tangent]
        rw [hv, hch, Xr.minv_ofMat hL.det_ne, hrv, hLi, tr_of, hrt, ht]
        simp only [Option.map_some, Option.map_none, Dm.vtadd, Xr.mmul_ofMat, phi_ofMat, Xr.mvec_ofVec, neg_of,
          tr_of, Option.getD_some]
        rw [hdL]
        refine (Xr.add_fin _ _).trans ?_
        refine congrArg Xr.fin ?_
        fin_cases i <;> simp [mulVec, dotProduct, Fin.sum_univ_two, mul_apply] <;> norm_num
    have hr' : ∀ i, Jvp (fun _ => (![0, 1] : Fin 2 → ℝ) i) 0 (r i) := by
      intro i
      fin_cases i
      · exact ((Jvp.con 0 0).sub (Jvp.con 0 0)).congr' fun _ => by norm_num
      · exact ((Jvp.con 1 0).sub (Jvp.con 0 0)).congr' fun _ => by norm_num
    have := (Jvp.sci 5 true 1 0).neg.mul (jvp_fsum fun i => (hr' i).mul (hy i))
    obtain ⟨f', h1, -, h3⟩ := this
    refine ⟨_, ?_, h3.trans (congrArg Xr.fin ?_)⟩
    · rw [loglikeD_parts]
      rfl
    · refine h1.unique ?_
      have h := ((hasDerivAt_id (0 : ℝ)).const_add 1).const_mul (-(1 / 2) : ℝ)
      rw [mul_one] at h
      refine h.congr_of_eventuallyEq (Filter.Eventually.of_forall fun s => ?_)
      simp [Fin.sum_univ_two]
      norm_num

/-! ## C129: the whole pipeline -/

theorem JvpE.bind' {α β γ δ : Type} {R : (ℝ → α) → β → Prop} {Q : (ℝ → γ) → δ → Prop}
    {F : ℝ → Except PyErr α} {d : Except PyErr β} {K : ℝ → α → Except PyErr γ} {k : β → Except PyErr δ}
    (h : JvpE R F d) (hk : ∀ G g, (∀ r, F r = .ok (G r)) → R G g → JvpE Q (fun r => K r (G r)) (k g)) :
    JvpE Q (fun r => F r >>= K r) (d >>= k) := by
  rcases h with ⟨e, h1, h2⟩ | ⟨G, g, h1, h2, h3⟩
  · exact .inl ⟨e, fun r => by beta_reduce; rw [h1]; rfl, by rw [h2]; rfl⟩
  · have := hk G g h1 h3
    rw [h2]
    exact this.congr' fun r => by rw [h1]; rfl

theorem survey_posDef {p : Params} {ells : List ℝ} {probes : List Probe} {Tr : ℝ → ℝ}
    {nl : Params → ℝ → ℝ → (ℝ → ℝ) → Except PyErr ℝ} {f_sky zmax : ℝ}
    (hell : ells.Pairwise (· < ·)) (hell0 : ∀ l ∈ ells, 0 ≤ l) (h2 : 2 ≤ ells.length)
    (hf : 0 < f_sky) (hz : probesZmax probes = .ok zmax) (hz0 : 0 ≤ zmax)
    (hc : ∀ pr ∈ probes, pr.Consistent) (hpos : ∀ pr ∈ probes, pr.Noisy)
    (hP : ∀ k a v, 0 < k → 0 < a → a ≤ 1 → nl p k a Tr = .ok v → 0 ≤ v)
    {signal noise : List (List ℝ)} (hs : angularCl p ells probes Tr nl = .ok signal)
    (hn : noiseCl ells probes = .ok noise) :
    ∃ S : Sp ℝ (pairCount (tracers probes).length) (pairCount (tracers probes).length) ells.length,
      gaussianClCovariance ells probes signal noise f_sky true = .ok (.d3 _ _ _ S) ∧
      (denseEntry S).PosDef := by
  obtain ⟨hrs, hval⟩ := angularCl_rect hs
  have hmode : ∀ l < ells.length, 0 < modeCount ells f_sky l := by
    obtain ⟨norm, e, hnorm⟩ := C62_pos ells f_sky h2 hell hell0 hf
    obtain ⟨norm', e', hnorm'⟩ := covNorm_eq ells f_sky h2
    intro l hl
    rw [e] at e'
    rw [← hnorm' l hl, ← Except.ok.inj e']
    exact hnorm l hl
  refine C60_posDef ells probes signal noise f_sky h2 hrs (noiseCl_rect hn) hmode fun l hl => ?_
  obtain ⟨col, hcol, hv⟩ := hval l hl
  have hpsd := C56_psd p Tr nl probes _ zmax hz hz0 (hell0 _ (List.getElem_mem hl)) hP hcol
  have e : symMat (tracers probes).length (column signal l)
      = symMat (tracers probes).length col :=
    symMat_congr fun I hI => by rw [rowAt_column, hv I hI]
  rw [obsMat, e]
  exact (noise_posDef hc hpos hn hl).posSemidef_add hpsd

theorem denseCov_of {ells : List ℝ} {probes : List Probe} {signal noise : List (List ℝ)} {f_sky : ℝ}
    {a P : ℕ} {S : Sp ℝ a a P}
    (h : gaussianClCovariance ells probes signal noise f_sky true = .ok (.d3 a a P S)) :
    gaussianClCovariance ells probes signal noise f_sky false = .ok (.d2 (a * P) (a * P) (denseEntry S)) := by
  rw [← C61_representation, h]
  exact C34_api (.d3 a a P S)

/-- The covariance computed by the pipeline can be inverted. -/
theorem survey_point {probes : List (ProbeTree Leaf)} {ells : List ℝ} {f_sky : ℝ} {sparse : Bool}
    {nl : Params → ℝ → ℝ → (ℝ → ℝ) → Except PyErr ℝ} {zm : ℝ}
    (hell : ells.Pairwise (· < ·)) (hell0 : ∀ l ∈ ells, 0 ≤ l) (hf : 0 < f_sky)
    (hz : treeZmax probes = .ok zm) (hz0 : 0 ≤ zm)
    (hc : ∀ t ∈ probes, (probeAt t θ).Consistent) (hpos : ∀ t ∈ probes, (probeAt t θ).Noisy)
    (hP : ∀ k a v, 0 < k → 0 < a → a ≤ 1 → nl (P θ) k a (T θ) = .ok v → 0 ≤ v)
    {G : ℝ → List ℝ × NdArr ℝ}
    (hG : ∀ r, gaussianClCovarianceAndMean (P r) ells (probes.map fun t => probeAt t r) (T r) nl f_sky sparse
      = .ok (G r)) (method : String) : LikelihoodPoint θ (fun r => (G r).2) method := by
  have h2 : 2 ≤ ells.length := by
    by_contra h2
    obtain ⟨-, -, signal, noise, -, -, hcov⟩ := C61_mean_order _ _ _ _ _ _ _ (hG θ)
    unfold gaussianClCovariance at hcov
    rw [(C62_value ells f_sky).2 (by omega)] at hcov
    exact absurd hcov (by simp [bind, Except.bind])
  obtain ⟨-, -, signal, noise, hs, hn, hcov⟩ := C61_mean_order _ _ _ _ _ _ _ (hG θ)
  obtain ⟨S, hS, hpd⟩ := survey_posDef hell hell0 h2 hf ((probesZmax_at probes θ).trans hz) hz0
    (fun pr h => by obtain ⟨t, ht, rfl⟩ := List.mem_map.1 h; exact hc t ht)
    (fun pr h => by obtain ⟨t, ht, rfl⟩ := List.mem_map.1 h; exact hpos t ht) hP hs hn
  cases sparse with
  | true =>
    have e : (G θ).2 = .d3 _ _ _ S := Except.ok.inj (hcov.symm.trans hS)
    have he : ∀ r, ∃ a P S, (G r).2 = .d3 a a P S := fun r => by
      obtain ⟨-, -, signal, noise, hs, hn, hcov⟩ := C61_mean_order _ _ _ _ _ _ _ (hG r)
      obtain ⟨S, hS, -⟩ := C59_symmetric ells _ signal noise f_sky h2 (angularCl_rect hs).1 (noiseCl_rect hn)
      exact ⟨_, _, S, Except.ok.inj (hcov.symm.trans hS)⟩
    refine ⟨fun n M h => ?_, fun _ r n M h => ?_, fun _ n M h => ?_, fun n Q S' h m hm => ?_⟩
    · beta_reduce at h; rw [e] at h; cases h
    · obtain ⟨a, Q, S', e'⟩ := he r
      beta_reduce at h; rw [e'] at h; cases h
    · beta_reduce at h; rw [e] at h; cases h
    · beta_reduce at h; rw [e] at h; cases h
      exact isUnit_iff_ne_zero.2 (trailing_posDef hpd m).det_pos.ne'
  | false =>
    have e : (G θ).2 = .d2 _ _ (denseEntry S) := Except.ok.inj (hcov.symm.trans (denseCov_of hS))
    refine ⟨fun n M h => ?_, fun _ r n M h => ?_, fun _ n M h => ?_, fun n Q S' h m hm => ?_⟩
    · beta_reduce at h; rw [e] at h; cases h
      exact hpd.det_pos.ne'
    · obtain ⟨-, -, signal, noise, hs, hn, hcov⟩ := C61_mean_order _ _ _ _ _ _ _ (hG r)
      obtain ⟨S', hS', hsym, -⟩ := C59_symmetric ells _ signal noise f_sky h2 (angularCl_rect hs).1
        (noiseCl_rect hn)
      have e' : (G r).2 = .d2 _ _ (denseEntry S') := Except.ok.inj (hcov.symm.trans (denseCov_of hS'))
      beta_reduce at h; rw [e'] at h; cases h
      exact hsym
    · beta_reduce at h; rw [e] at h; cases h
      exact hpd
    · beta_reduce at h; rw [e] at h; cases h

theorem jvp_pipeline {probes : List (ProbeTree Leaf)} {ells : List ℝ} {f_sky : ℝ} {sparse : Bool}
    {nl : Params → ℝ → ℝ → (ℝ → ℝ) → Except PyErr ℝ} {D : DParams}
    {nlD : DParams → Du → Du → (Du → Du) → Except PyErr Du} {zm : ℝ}
    (hell : ells.Pairwise (· < ·)) (hell0 : ∀ l ∈ ells, 0 ≤ l) (hf : 0 < f_sky)
    (hz : treeZmax probes = .ok zm) (hz0 : 0 ≤ zm)
    (hc : ∀ t ∈ probes, (probeAt t θ).Consistent) (hpos : ∀ t ∈ probes, (probeAt t θ).Noisy)
    (hP : ∀ k a v, 0 < k → 0 < a → a ≤ 1 → nl (P θ) k a (T θ) = .ok v → 0 ≤ v)
    (h : JvpE (JvpMeanCov θ)
      (fun r => gaussianClCovarianceAndMean (P r) ells (probes.map fun t => probeAt t r) (T r) nl f_sky sparse)
      (Dm.gaussianClCovarianceAndMean D ells (probes.map probeDual) TD nlD f_sky sparse))
    (data : Fin N → ℝ) (incl : Bool) (method : String) :
    JvpE (fun F d => Jvp F θ d)
      (fun r => gaussianClCovarianceAndMean (P r) ells (probes.map fun t => probeAt t r) (T r) nl f_sky sparse
        >>= fun mc => gaussianLogLikelihood data (fun i => mc.1.getD i 0) mc.2 incl method)
      (Dm.gaussianClCovarianceAndMean D ells (probes.map probeDual) TD nlD f_sky sparse
        >>= fun mc => Dm.gaussianLogLikelihood (fun i => Du.con (data i)) (fun i => mc.1.getD i 0) mc.2 incl
          method) :=
  JvpE.bind' h fun _ _ hG hR => jvp_loglike (data := fun _ => data) (fun i => Jvp.con (data i) θ)
    (fun i => hR.1.getD i) hR.2 (survey_point hell hell0 hf hz hz0 hc hpos hP hG method) incl

/-- C129: the gradient of the log likelihood of a survey, from cosmology and probe parameters through
distances, growth, power, kernels, Limber integral, noise and covariance to the likelihood, is exact: with
the linear power spectrum, the covariance moving with the parameters, dense or sparse. -/
theorem C129_linear (h : Along P v θ) (hp : Physical (P θ)) (hT : TransferJvp θ T TD)
    (hn : T θ (Real.exp (-4)) ≠ 0) {probes : List (ProbeTree Leaf)} (ht : ∀ t ∈ probes, GoodProbe θ t)
    (hg : ∀ t ∈ probes, GoodCounts θ t) (hc : ∀ t ∈ probes, (probeAt t θ).Consistent)
    (hpos : ∀ t ∈ probes, (probeAt t θ).Noisy)
    {zm : ℝ} (hm : treeZmax probes = .ok zm) (h2 : 2 ≤ zm) (h9 : zm ≤ 899) {ells : List ℝ}
    (hi : ells.Pairwise (· < ·)) (hl : ∀ ell ∈ ells, 1 ≤ ell ∨ ell = 0) {f_sky : ℝ} (hf : 0 < f_sky)
    (sparse : Bool) (data : Fin N → ℝ) (incl : Bool) (method : String) :
    JvpE (fun F d => Jvp F θ d)
      (fun r => gaussianClCovarianceAndMean (P r) ells (probes.map fun t => probeAt t r) (T r) linear f_sky
          sparse
        >>= fun mc => gaussianLogLikelihood data (fun i => mc.1.getD i 0) mc.2 incl method)
      (Dm.gaussianClCovarianceAndMean (seedParams (P θ) v) ells (probes.map probeDual) TD Dm.linear f_sky
          sparse
        >>= fun mc => Dm.gaussianLogLikelihood (fun i => Du.con (data i)) (fun i => mc.1.getD i 0) mc.2 incl
          method) :=
  jvp_pipeline hi (fun l h => by rcases hl l h with h | h <;> linarith) hf hm (by linarith) hc hpos
    (fun k a v hk _ _ e => by rw [← Except.ok.inj e]; exact linear_nonneg _ _ hk _)
    (C127_linear h hp hT hn ht hg hm h2 h9 hi hl hf sparse) data incl method

/-- C129: the same with halofit, under the condition of C122 at the nodes of the Limber integral. -/
theorem C129_halofit_partial (h : Along P v θ) (hp : Physical (P θ)) (hT : TransferJvp θ T TD)
    {probes : List (ProbeTree Leaf)} (ht : ∀ t ∈ probes, GoodProbe θ t) (hg : ∀ t ∈ probes, GoodCounts θ t)
    (hc : ∀ t ∈ probes, (probeAt t θ).Consistent) (hpos : ∀ t ∈ probes, (probeAt t θ).Noisy)
    {zm : ℝ} (hm : treeZmax probes = .ok zm) (h2 : 2 ≤ zm) (h9 : zm ≤ 899)
    (hpt : ∀ i ≤ 512, HalofitPoint (P θ) (T θ) (linspace (z2a zm) 1 513 i))
    (hα : ∀ i ≤ 512, 6.0835 + 1.3373 * Halofit.n_eff (P θ) (T θ) (linspace (z2a zm) 1 513 i)
      - 0.1959 * Halofit.n_eff (P θ) (T θ) (linspace (z2a zm) 1 513 i) ^ 2
      - 5.5274 * Halofit.curv (P θ) (T θ) (linspace (z2a zm) 1 513 i) ≠ 0) {ells : List ℝ}
    (hi : ells.Pairwise (· < ·)) (hl : ∀ ell ∈ ells, 1 ≤ ell ∨ ell = 0) {f_sky : ℝ} (hf : 0 < f_sky)
    (sparse : Bool) (data : Fin N → ℝ) (incl : Bool) (method : String) :
    JvpE (fun F d => Jvp F θ d)
      (fun r => gaussianClCovarianceAndMean (P r) ells (probes.map fun t => probeAt t r) (T r)
          (f_sky := f_sky) (sparse := sparse)
        >>= fun mc => gaussianLogLikelihood data (fun i => mc.1.getD i 0) mc.2 incl method)
      (Dm.gaussianClCovarianceAndMean (seedParams (P θ) v) ells (probes.map probeDual) TD
          (fun p k a T => Dm.halofit p k a T) f_sky sparse
        >>= fun mc => Dm.gaussianLogLikelihood (fun i => Du.con (data i)) (fun i => mc.1.getD i 0) mc.2 incl
          method) :=
  jvp_pipeline hi (fun l h => by rcases hl l h with h | h <;> linarith) hf hm (by linarith) hc hpos
    (C66_default (P θ) hp (T θ)).2
    (C127_halofit_partial h hp hT ht hg hm h2 h9 hpt hα hi hl hf sparse) data incl method

theorem lsum_tan_nan {l : List Du} {x : Du} (hx : x ∈ l) (h : x.tan = some .nan) :
    (Dm.lsum l).tan = some .nan := by
  induction l with
  | nil => exact absurd hx (by simp)
  | cons y l ih =>
    change (y + Dm.lsum l).tan = _
    rcases List.mem_cons.1 hx with rfl | hx
    · exact add_tan_nan_left _ h
    · change Du.tadd y.tan (Dm.lsum l).tan = _
      rw [ih hx, tadd_nan_right]

theorem fsum_tan_nan {n : ℕ} {f : Fin n → Du} (i : Fin n) (h : (f i).tan = some .nan) :
    (Dm.fsum f).tan = some .nan :=
  lsum_tan_nan (List.mem_ofFn.2 ⟨i, rfl⟩) h

theorem sub_tan_nan_left {x : Du} (y : Du) (h : x.tan = some .nan) : (x - y).tan = some .nan := by
  change Du.tadd x.tan _ = _; rw [h, tadd_nan_left]

theorem loglike_tan_nan {N : ℕ} (hN : 0 < N) (data mu : Fin N → Du) (hm : ∀ i, (mu i).tan = some .nan)
    {C : NdArr Du} (hC : (∃ a P S, N = a * P ∧ 0 < a ∧ C = .d3 a a P S) ∨ ∃ M, C = .d2 N N M)
    (incl : Bool) {method : String} (hmm : method = "inverse" ∨ method = "cholesky") :
    ∃ d, Dm.gaussianLogLikelihood data mu C incl method = .ok d ∧ d.tangent = .nan := by
  have hb : ∀ {α β : Type} (x : α) (f : α → Except PyErr β), (Except.ok x >>= f) = f x := fun _ _ => rfl
  have hr : ∀ i, (mu i - data i).tan = some .nan := fun i => sub_tan_nan_left _ (hm i)
  obtain ⟨q, hq, hqn⟩ : ∃ q, quadPartD (fun i => mu i - data i) C method = .ok q ∧ q.tan = some .nan := by
    rcases hC with ⟨a, P, S, rfl, -, rfl⟩ | ⟨M, rfl⟩
    · simp only [quadPartD, and_self, dif_pos]
      exact ⟨_, rfl, fsum_tan_nan ⟨0, hN⟩ (mul_tan_nan_left _ (hr _))⟩
    · simp only [quadPartD, and_self, dif_pos]
      rcases hmm with h | h
      · simp only [if_pos h]
        exact ⟨_, rfl, fsum_tan_nan ⟨0, hN⟩ (mul_tan_nan_left _ (hr _))⟩
      · have h1 : method ≠ "inverse" := by rw [h]; decide
        simp only [if_neg h1, if_pos h]
        exact ⟨_, rfl, fsum_tan_nan ⟨0, hN⟩ (mul_tan_nan_left _ (hr _))⟩
  obtain ⟨l, hl⟩ : ∃ l, logdetPartD C = .ok l := by
    rcases hC with ⟨a, P, S, rfl, ha, rfl⟩ | ⟨M, rfl⟩
    · obtain ⟨n, rfl⟩ : ∃ n, a = n + 1 := ⟨a - 1, by omega⟩
      simp only [logdetPartD, Dm.slogdetApi, dif_pos]
      exact ⟨_, rfl⟩
    · simp only [logdetPartD, dif_pos]
      exact ⟨_, rfl⟩
  rw [loglikeD_parts, hq, hb]
  cases incl with
  | false => exact ⟨_, rfl, by rw [Du.tangent, mul_tan_nan_right _ hqn]; rfl⟩
  | true =>
    rw [hl]
    exact ⟨_, rfl, by rw [Du.tangent, mul_tan_nan_right _ (sub_tan_nan_left _ hqn)]; rfl⟩

/-- C127: for one clustering bin with exponent below one the derivative of every entry of the data vector and of its
covariance with respect to the scale of the bin comes out as NaN. -/
theorem C127_refuted {a b z0 : ℝ} (zm : ℝ) (g β : Du) (ha : 0 < a) (hb : 0 < b) (hb1 : b < 1) (hz0 : 0 < z0)
    (v : ℝ) (D : DParams) (hD : D.gamma = none) (rsd : Bool) (TD : Du → Du)
    {nlD : DParams → Du → Du → (Du → Du) → Except PyErr Du} (hnl : ∀ k a, ∃ x, nlD D k a TD = .ok x)
    {ells : List ℝ} (h2 : 2 ≤ ells.length) (f_sky : ℝ) :
    ∃ (mean : List Du) (S : Sp Du 1 1 ells.length),
      Dm.gaussianClCovarianceAndMean D ells [scaledBin a b z0 v g β zm rsd] TD nlD f_sky true
        = .ok (mean, .d3 1 1 ells.length S) ∧ mean.length = ells.length ∧
      (∀ x ∈ mean, x.tangent = .nan) ∧ ∀ l, (S 0 0 l).tangent = .nan := by
  have hbind : ∀ {α β : Type} (x : α) (f : α → Except PyErr β), (Except.ok x >>= f) = f x := fun _ _ => rfl
  obtain ⟨row, hrow, hlen, hnan⟩ := C125_refuted zm g β ha hb hb1 hz0 v D hD rsd TD hnl (ells.map Du.con)
  rw [List.length_map] at hlen
  obtain ⟨noise, hnoise, hnl'⟩ : ∃ n : List Du, Dm.noiseCl (ells.map Du.con) [scaledBin a b z0 v g β zm rsd]
    = .ok [n] ∧ n.length = ells.length := ⟨_, rfl, by simp⟩
  obtain ⟨norm, hn, -⟩ := (C62_value ells f_sky).1 h2
  have htan : ∀ i < row.length, (row.getD i 0).tan = some .nan := fun i hi => by
    rw [List.getD_eq_getElem _ _ hi]
    have := hnan _ (List.getElem_mem hi)
    unfold Du.tangent at this
    cases h : row[i].tan with
    | none => rw [h] at this; exact absurd this (by simp)
    | some t => rw [h] at this; exact congrArg some this
  obtain ⟨S, hS, hv⟩ : ∃ S : Sp Du 1 1 ells.length,
      Dm.gaussianClCovariance ells [scaledBin a b z0 v g β zm rsd] [row] [noise] f_sky true
        = .ok (.d3 1 1 ells.length S) ∧ ∃ q : ℕ → Du, ∀ l, S 0 0 l
        = (Dm.rowAt (Dm.addCl [row] [noise]) 0 l * Dm.rowAt (Dm.addCl [row] [noise]) 0 l
          + Dm.rowAt (Dm.addCl [row] [noise]) 0 l * Dm.rowAt (Dm.addCl [row] [noise]) 0 l) / q l := by
    unfold Dm.gaussianClCovariance Dm.covNorm
    rw [xm_covNorm, hn]
    exact ⟨_, rfl, fun l => ⟨.fin (norm l), none⟩, fun l => rfl⟩
  obtain ⟨q, hq⟩ := hv
  have hmc : Dm.gaussianClCovarianceAndMean D ells [scaledBin a b z0 v g β zm rsd] TD nlD f_sky true
      = .ok ([row].flatten, .d3 1 1 ells.length S) := by
    unfold Dm.gaussianClCovarianceAndMean
    simp only [hrow, hnoise, hS, hbind, pure, Except.pure]
  refine ⟨_, S, hmc, by simpa using hlen, by simpa using hnan, fun l => ?_⟩
  have ho : (Dm.rowAt (Dm.addCl [row] [noise]) 0 l).tan = some .nan := by
    have hl1 : (l : ℕ) < row.length := by omega
    have hl2 : (l : ℕ) < noise.length := by omega
    have e : Dm.rowAt (Dm.addCl [row] [noise]) 0 l = row.getD l 0 + noise.getD l 0 := by
      change (List.zipWith (· + ·) row noise).getD l 0 = _
      simp [hl1, hl2]
    rw [e]
    exact add_tan_nan_left _ (htan _ hl1)
  rw [hq, Du.tangent, div_tan_nan_left _ (add_tan_nan_left _ (mul_tan_nan_left _ ho))]
  rfl

/-- C129: for one clustering bin with exponent below one the gradient of the log likelihood with respect to
the scale of the bin is NaN, whatever the cosmology, the bias, the power spectrum, the data and the options. -/
theorem C129_refuted {a b z0 : ℝ} (zm : ℝ) (g β : Du) (ha : 0 < a) (hb : 0 < b) (hb1 : b < 1) (hz0 : 0 < z0)
    (v : ℝ) (D : DParams) (hD : D.gamma = none) (rsd : Bool) (TD : Du → Du)
    {nlD : DParams → Du → Du → (Du → Du) → Except PyErr Du} (hnl : ∀ k a, ∃ x, nlD D k a TD = .ok x)
    {ells : List ℝ} (h2 : 2 ≤ ells.length) (f_sky : ℝ) (sparse incl : Bool) {method : String}
    (hm : method = "inverse" ∨ method = "cholesky") (data : Fin ells.length → Du) :
    ∃ d, (Dm.gaussianClCovarianceAndMean D ells [scaledBin a b z0 v g β zm rsd] TD nlD f_sky sparse
      >>= fun mc => Dm.gaussianLogLikelihood data (fun i => mc.1.getD i 0) mc.2 incl method) = .ok d ∧
      d.tangent = .nan := by
  have hbind : ∀ {α β : Type} (x : α) (f : α → Except PyErr β), (Except.ok x >>= f) = f x := fun _ _ => rfl
  obtain ⟨row, hrow, hlen, hnan⟩ := C125_refuted zm g β ha hb hb1 hz0 v D hD rsd TD hnl (ells.map Du.con)
  rw [List.length_map] at hlen
  obtain ⟨noise, hnoise⟩ : ∃ n : List Du, Dm.noiseCl (ells.map Du.con) [scaledBin a b z0 v g β zm rsd]
    = .ok [n] := ⟨_, rfl⟩
  obtain ⟨norm, hn, -⟩ := (C62_value ells f_sky).1 h2
  have htan : ∀ i < row.length, (row.getD i 0).tan = some .nan := fun i hi => by
    rw [List.getD_eq_getElem _ _ hi]
    have := hnan _ (List.getElem_mem hi)
    unfold Du.tangent at this
    cases h : row[i].tan with
    | none => rw [h] at this; exact absurd this (by simp)
    | some t => rw [h] at this; exact congrArg some this
  obtain ⟨C, hC, hsh⟩ : ∃ C, Dm.gaussianClCovariance ells [scaledBin a b z0 v g β zm rsd] [row] [noise] f_sky sparse
      = .ok C ∧ ((∃ S : Sp Du 1 1 ells.length, C = .d3 1 1 ells.length S) ∨
        ∃ M, C = .d2 (1 * ells.length) (1 * ells.length) M) := by
    unfold Dm.gaussianClCovariance Dm.covNorm
    rw [xm_covNorm, hn]
    cases sparse with
    | true => exact ⟨_, rfl, .inl ⟨_, rfl⟩⟩
    | false => exact ⟨_, rfl, .inr ⟨_, rfl⟩⟩
  unfold Dm.gaussianClCovarianceAndMean
  simp only [hrow, hnoise, hC, hbind, pure, Except.pure]
  refine loglike_tan_nan (by omega) data _ (fun i => ?_) ?_ incl hm
  · simp only [List.flatten_cons, List.flatten_nil, List.append_nil]
    exact htan i (by omega)
  · rcases hsh with ⟨S, rfl⟩ | ⟨M, rfl⟩
    · exact .inl ⟨1, ells.length, S, (one_mul _).symm, one_pos, rfl⟩
    · have key : ∀ {n m : ℕ}, n = m → ∀ M : Matrix (Fin n) (Fin n) Du, ∃ M', NdArr.d2 n n M = .d2 m m M' := by
        rintro n _ rfl M; exact ⟨M, rfl⟩
      exact .inr (key (one_mul _) M)

/-! ## Witnesses -/

theorem two_ells_lt : [(10 : ℝ), 100].Pairwise (· < ·) := by simp; norm_num

theorem twoProbes_consistent : ∀ t ∈ twoProbes, (probeAt t 0).Consistent := by
  intro t ht
  simp only [twoProbes, List.mem_cons, List.not_mem_nil, or_false] at ht
  rcases ht with rfl | rfl
  · intro h; exact absurd h (by decide)
  · intro _; trivial

theorem twoProbes_noisy : ∀ t ∈ twoProbes, (probeAt t 0).Noisy := by
  intro t ht
  simp only [twoProbes, List.mem_cons, List.not_mem_nil, or_false] at ht
  rcases ht with rfl | rfl
  · refine ⟨fun b hb => ?_, ?_⟩
    · simp only [probeAt, ProbeTree.map, ProbeTree.real, Probe.bins, List.map_cons, List.map_nil, NzTree.map,
        NzTree.real, List.mem_cons, List.not_mem_nil, or_false] at hb
      rcases hb with rfl | rfl
      · norm_num [Nz.gals, Leaf.con]
      · norm_num [Nz.gals, Leaf.con]
    · change (0.26 : ℝ) ≠ 0
      norm_num
  · refine ⟨fun b hb => ?_, trivial⟩
    simp only [probeAt, ProbeTree.map, ProbeTree.real, Probe.bins, List.map_cons, List.map_nil, NzTree.map,
      NzTree.real, List.mem_cons, List.not_mem_nil, or_false] at hb
    rw [hb]
    norm_num [Nz.gals, Leaf.var]

/-- Witness for `C127_linear`, and with it for `C127_covariance`. -/
example (sparse : Bool) : JvpE (JvpMeanCov 0)
    (fun r => gaussianClCovarianceAndMean (shifted Planck15 allTogether r) [10, 100]
      (twoProbes.map fun t => probeAt t r) (EH.wiggle (shifted Planck15 allTogether r)) linear 0.25 sparse)
    (Dm.gaussianClCovarianceAndMean (seedParams (shifted Planck15 allTogether 0) allTogether) [10, 100]
      (twoProbes.map probeDual) (Dm.EH.wiggle (seedParams (shifted Planck15 allTogether 0) allTogether))
      Dm.linear 0.25 sparse) :=
  C127_linear planck_line (by rw [planck_line_zero]; exact planck_physical)
    (transferJvp_oscillating planck_line planck_line_baryonic) (by rw [planck_line_zero]; exact C113_planck.1.ne')
    twoProbes_good twoProbes_counts twoProbes_zmax (by norm_num) (by norm_num) two_ells_lt two_ells (by norm_num)
    sparse

/-- Witness for `C127_halofit_partial`. -/
example (sparse : Bool) : ∃ σ, 0 < σ ∧ JvpE (JvpMeanCov 0)
    (fun r => gaussianClCovarianceAndMean (faintLine σ r) [10, 100] (twoProbes.map fun t => probeAt t r)
      (EH.nowiggle (faintLine σ r)) (f_sky := 0.25) (sparse := sparse))
    (Dm.gaussianClCovarianceAndMean (seedParams (faintLine σ 0) allTogether) [10, 100]
      (twoProbes.map probeDual) (Dm.EH.nowiggle (seedParams (faintLine σ 0) allTogether))
      (fun p k a T => Dm.halofit p k a T) 0.25 sparse) := by
  obtain ⟨σ, h8, hl, hp, hT, h1, h2⟩ := faint_survey
  exact ⟨σ, h8, C127_halofit_partial hl hp hT twoProbes_good twoProbes_counts twoProbes_zmax (by norm_num)
    (by norm_num) h1 h2 two_ells_lt two_ells (by norm_num) sparse⟩

/-- Witness for `C128_likelihood` and `C128_gradient`: a mean `(s, 3 s)` and the covariance
`[[2, s], [s, 2]]`, differentiated at `s = 1`. -/
example (incl : Bool) : ∃ d, Dm.gaussianLogLikelihood (fun i => Du.con (![1, 2] i))
      ![⟨.fin 1, some (.fin 1)⟩, Du.con 3 * ⟨.fin 1, some (.fin 1)⟩]
      (.d2 2 2 !![Du.con 2, ⟨.fin 1, some (.fin 1)⟩; ⟨.fin 1, some (.fin 1)⟩, Du.con 2]) incl "cholesky" = .ok d ∧
    d.tangent = Xr.fin ((![1, 2] - ![1, 3 * 1]) ⬝ᵥ ((!![2, 1; 1, 2] : Matrix _ _ ℝ)⁻¹ *ᵥ ![1, 3])
        + 1 / 2 * ((![1, 2] - ![1, 3 * 1]) ⬝ᵥ (((!![2, 1; 1, 2] : Matrix _ _ ℝ)⁻¹ * !![0, 1; 1, 0]
          * (!![2, 1; 1, 2] : Matrix _ _ ℝ)⁻¹) *ᵥ (![1, 2] - ![1, 3 * 1])))
        + if incl then 1 / 2 * ((!![2, 1; 1, 2] : Matrix _ _ ℝ)⁻¹ * !![0, 1; 1, 0]).trace else 0) := by
  have hs : Jvp (fun s : ℝ => s) 1 ⟨.fin 1, some (.fin 1)⟩ := ⟨1, hasDerivAt_id _, rfl, rfl⟩
  obtain ⟨d, h1, -, h2⟩ := C128_gradient (θ := 1) (mu := fun s => ![s, 3 * s]) (mu' := ![1, 3])
    (muD := ![⟨.fin 1, some (.fin 1)⟩, Du.con 3 * ⟨.fin 1, some (.fin 1)⟩]) ![1, 2]
    (fun i => by
      fin_cases i
      · exact hs
      · exact (Jvp.con 3 1).mul hs)
    (fun i => by
      fin_cases i
      · exact hasDerivAt_id _
      · simpa using (hasDerivAt_id (1 : ℝ)).const_mul 3)
    (C := fun s => !![2, s; s, 2]) (C' := !![0, 1; 1, 0])
    (D := !![Du.con 2, ⟨.fin 1, some (.fin 1)⟩; ⟨.fin 1, some (.fin 1)⟩, Du.con 2])
    (fun i j => by
      fin_cases i <;> fin_cases j
      · exact Jvp.con 2 1
      · exact hs
      · exact hs
      · exact Jvp.con 2 1)
    (fun i j => by
      fin_cases i <;> fin_cases j
      · exact hasDerivAt_const _ _
      · exact hasDerivAt_id _
      · exact hasDerivAt_id _
      · exact hasDerivAt_const _ _)
    (fun s => by ext i j; fin_cases i <;> fin_cases j <;> rfl) posDef_two incl (method := "cholesky") (.inr rfl)
  exact ⟨d, h1, h2⟩

/-- Witness for `C129_linear`. -/
example (sparse incl : Bool) (data : Fin 12 → ℝ) : JvpE (fun F d => Jvp F 0 d)
    (fun r => gaussianClCovarianceAndMean (shifted Planck15 allTogether r) [10, 100]
        (twoProbes.map fun t => probeAt t r) (EH.wiggle (shifted Planck15 allTogether r)) linear 0.25 sparse
      >>= fun mc => gaussianLogLikelihood data (fun i => mc.1.getD i 0) mc.2 incl "inverse")
    (Dm.gaussianClCovarianceAndMean (seedParams (shifted Planck15 allTogether 0) allTogether) [10, 100]
        (twoProbes.map probeDual) (Dm.EH.wiggle (seedParams (shifted Planck15 allTogether 0) allTogether))
        Dm.linear 0.25 sparse
      >>= fun mc => Dm.gaussianLogLikelihood (fun i => Du.con (data i)) (fun i => mc.1.getD i 0) mc.2 incl
        "inverse") :=
  C129_linear planck_line (by rw [planck_line_zero]; exact planck_physical)
    (transferJvp_oscillating planck_line planck_line_baryonic) (by rw [planck_line_zero]; exact C113_planck.1.ne')
    twoProbes_good twoProbes_counts twoProbes_consistent twoProbes_noisy twoProbes_zmax (by norm_num)
    (by norm_num) two_ells_lt two_ells (by norm_num) sparse data incl _

/-- Witness for `C129_halofit_partial`. -/
example (sparse incl : Bool) (data : Fin 12 → ℝ) : ∃ σ, 0 < σ ∧ JvpE (fun F d => Jvp F 0 d)
    (fun r => gaussianClCovarianceAndMean (faintLine σ r) [10, 100] (twoProbes.map fun t => probeAt t r)
        (EH.nowiggle (faintLine σ r)) (f_sky := 0.25) (sparse := sparse)
      >>= fun mc => gaussianLogLikelihood data (fun i => mc.1.getD i 0) mc.2 incl "cholesky")
    (Dm.gaussianClCovarianceAndMean (seedParams (faintLine σ 0) allTogether) [10, 100]
        (twoProbes.map probeDual) (Dm.EH.nowiggle (seedParams (faintLine σ 0) allTogether))
        (fun p k a T => Dm.halofit p k a T) 0.25 sparse
      >>= fun mc => Dm.gaussianLogLikelihood (fun i => Du.con (data i)) (fun i => mc.1.getD i 0) mc.2 incl
        "cholesky") := by
  obtain ⟨σ, h8, hl, hp, hT, h1, h2⟩ := faint_survey
  exact ⟨σ, h8, C129_halofit_partial hl hp hT twoProbes_good twoProbes_counts twoProbes_consistent
    twoProbes_noisy twoProbes_zmax (by norm_num) (by norm_num) h1 h2 two_ells_lt two_ells (by norm_num) sparse
    data incl _⟩

/-- Witness for `C129_refuted`: the bin of C125, `b = 0.9`. -/
example (D : DParams) (hD : D.gamma = none) (TD : Du → Du) (sparse incl : Bool) (data : Fin 2 → Du) :
    ∃ d, (Dm.gaussianClCovarianceAndMean D [10, 100]
        [.nc [.smail (Du.con 2) (Du.con 0.9) ⟨.fin 0.28, some (.fin 1)⟩ (Du.con 10) 10]
          (.bias (.constant (Du.con 1))) false] TD Dm.linear 0.25 sparse
      >>= fun mc => Dm.gaussianLogLikelihood data (fun i => mc.1.getD i 0) mc.2 incl "inverse") = .ok d ∧
      d.tangent = .nan :=
  C129_refuted 10 (Du.con 10) (Du.con 1) (a := 2) (b := 0.9) (z0 := 0.28) (by norm_num) (by norm_num)
    (by norm_num) (by norm_num) 1 D hD false TD (nlD := Dm.linear) (fun k a => ⟨_, rfl⟩) (ells := [10, 100])
    (by simp) 0.25 sparse incl (.inl rfl) data

end JaxCosmo
