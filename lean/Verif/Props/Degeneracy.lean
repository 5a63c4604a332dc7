import Verif.Proofs.Degeneracy
import Verif.Props.Relabel
import Verif.Props.Limber
import Verif.Props.Halofit
import Mathlib.LinearAlgebra.Matrix.Notation
import Mathlib.LinearAlgebra.Matrix.Determinant.Basic

/-! # C146: what linear spectra can and cannot tell about amplitudes -/

namespace JaxCosmo
open Spec Matrix

/-- C146: multiply `sigma8` by `s` and the response of every probe -- galaxy biases, `1 + m` of the shears -- by `u`: every
linear angular spectrum is multiplied by `(s u)²`, and whatever raised before raises the same. -/
theorem C146_scaling (s u : ℝ) (p : Params) (ells : List ℝ) (T : ℝ → ℝ) (probes : List Probe) :
    angularCl { p with sigma8 := s * p.sigma8 } ells (probes.map (amplify u)) T linear
      = (angularCl p ells probes T linear).map (List.map (List.map ((s * u) ^ 2 * ·))) := by
  unfold angularCl
  rw [getClOrdering_map _ (bins_amplify u),
    show clAt { p with sigma8 := s * p.sigma8 } T linear (probes.map (amplify u))
      = fun ell => (clAt p T linear probes ell).map (List.map ((s * u) ^ 2 * ·)) from
      funext fun ell => clAt_amplify s u p T probes ell, mapM_exceptMap]
  cases ells.mapM (clAt p T linear probes) with
  | error e => rfl
  | ok cols =>
    simp only [Except.map, bind, Except.bind, pure, Except.pure, List.map_map]
    congr 1
    refine List.map_congr_left fun c _ => ?_
    simp only [Function.comp_apply, List.map_map]
    refine List.map_congr_left fun col _ => ?_
    simp only [Function.comp_apply]
    exact getD_map_mul _ col c

theorem scale_one (cl : List (List ℝ)) {c : ℝ} (h : c = 1) : cl.map (List.map (c * ·)) = cl := by
  subst h
  simp

/-- C146: so a survey analysed with the linear power spectrum cannot tell a larger `sigma8` from larger biases: mean,
covariance and with them the likelihood of any data are exactly the same along `s ↦ (s sigma8, b / s, (1 + m) / s)`. -/
theorem C146_degenerate {s : ℝ} (hs : s ≠ 0) (p : Params) (ells : List ℝ) (T : ℝ → ℝ) (probes : List Probe)
    (f_sky : ℝ) (sparse : Bool) :
    gaussianClCovarianceAndMean { p with sigma8 := s * p.sigma8 } ells (probes.map (amplify s⁻¹)) T linear f_sky sparse
      = gaussianClCovarianceAndMean p ells probes T linear f_sky sparse := by
  have h1 : angularCl { p with sigma8 := s * p.sigma8 } ells (probes.map (amplify s⁻¹)) T linear
      = angularCl p ells probes T linear := by
    rw [C146_scaling]
    cases angularCl p ells probes T linear with
    | error e => rfl
    | ok cl =>
      simp only [Except.map]
      rw [scale_one cl (by rw [mul_inv_cancel₀ hs, one_pow])]
  have h2 : noiseCl ells (probes.map (amplify s⁻¹)) = noiseCl ells probes := by
    unfold noiseCl
    rw [getClOrdering_map _ (bins_amplify _), List.mapM_map]
    simp only [Function.comp_def, noise_amplify]
  have h3 : ∀ sig noi, gaussianClCovariance ells (probes.map (amplify s⁻¹)) sig noi f_sky sparse
      = gaussianClCovariance ells probes sig noi f_sky sparse := fun sig noi => by
    simp only [gaussianClCovariance, covBlockDiag, getCovBlocksOrdering, getClOrdering_map _ (bins_amplify s⁻¹)]
  unfold gaussianClCovarianceAndMean
  rw [h1, h2]
  simp only [h3]

/-- The Fisher matrix of two parameters. -/
noncomputable def fisher2 {N : ℕ} (C : Matrix (Fin N) (Fin N) ℝ) (x y : Fin N → ℝ) : Matrix (Fin 2) (Fin 2) ℝ :=
  !![fisher C x x, fisher C x y; fisher C y x, fisher C y y]

/-- C146: the spectra are differentiable in the two amplitudes, the two derivatives are the same vector, and whatever the
covariance the Fisher matrix is singular. -/
theorem C146_fisher (p : Params) (ells : List ℝ) (T : ℝ → ℝ) (probes : List Probe) {cl : List (List ℝ)}
    (h : angularCl p ells probes T linear = .ok cl) :
    ∃ (M : ℝ → ℝ → List (List ℝ)) (ds du : Fin cl.flatten.length → ℝ),
      (∀ s u, angularCl { p with sigma8 := s * p.sigma8 } ells (probes.map (amplify u)) T linear = .ok (M s u)) ∧
      (M 1 1).flatten = cl.flatten ∧
      (∀ r : Fin cl.flatten.length, HasDerivAt (fun s => (M s 1).flatten.getD r 0) (ds r) 1 ∧
        HasDerivAt (fun u => (M 1 u).flatten.getD r 0) (du r) 1) ∧
      ds = du ∧ ∀ C : Matrix (Fin cl.flatten.length) (Fin cl.flatten.length) ℝ, (fisher2 C ds du).det = 0 := by
  have hent : ∀ (c : ℝ) (r : ℕ), (cl.map (List.map (c * ·))).flatten.getD r 0 = c * cl.flatten.getD r 0 := fun c r => by
    rw [← List.map_flatten]
    exact getD_map_mul c _ r
  refine ⟨fun s u => cl.map (List.map ((s * u) ^ 2 * ·)), fun r => 2 * cl.flatten.getD r 0,
    fun r => 2 * cl.flatten.getD r 0, fun s u => ?_, ?_, fun r => ⟨?_, ?_⟩, rfl, fun C => ?_⟩
  · rw [C146_scaling, h]
    rfl
  · exact congrArg List.flatten (scale_one cl (c := (1 * 1) ^ 2) (by norm_num))
  · simp only [hent, mul_one]
    simpa using ((hasDerivAt_id (1 : ℝ)).pow 2).mul_const (cl.flatten.getD r 0)
  · simp only [hent, one_mul]
    simpa using ((hasDerivAt_id (1 : ℝ)).pow 2).mul_const (cl.flatten.getD r 0)
  · rw [fisher2, Matrix.det_fin_two_of]
    ring

/-! ## Shapes and positions together -/

/-- Factor by which the kernel of a tracer is multiplied. -/
noncomputable def countsFactor (u : ℝ) : Probe → ℝ
  | .wl _ => 1
  | .nc _ => u

/-- Its derivative. -/
noncomputable def countsExp : Probe → ℝ
  | .wl _ => 0
  | .nc _ => 1

theorem countsFactor_one (pr : Probe) : countsFactor 1 pr = 1 := by cases pr <;> rfl

theorem countsFactor_deriv (pr : Probe) : HasDerivAt (fun u => countsFactor u pr) (countsExp pr) 1 := by
  cases pr with
  | wl o => exact hasDerivAt_const _ _
  | nc o => exact hasDerivAt_id _

theorem countsExp_nonneg (pr : Probe) : 0 ≤ countsExp pr := by cases pr <;> simp [countsExp]

theorem countsExp_counts {x : Probe × ℕ} (h : IsCounts x) : countsExp x.1 = 1 := by
  obtain ⟨pr, t⟩ := x
  cases pr with
  | wl o => exact h.elim
  | nc o => rfl

theorem countsExp_not {x : Probe × ℕ} (h : ¬ IsCounts x) : countsExp x.1 = 0 := by
  obtain ⟨pr, t⟩ := x
  cases pr with
  | wl o => rfl
  | nc o => exact (h trivial).elim

theorem kernel_amplifyCounts (u : ℝ) (pr : Probe) (p : Params) (z ell : ℝ) :
    (amplifyCounts u pr).kernel p z ell = (pr.kernel p z ell).map (List.map (countsFactor u pr * ·)) := by
  cases pr with
  | nc o => exact density_amplify u p o.bins o.bias z ell
  | wl o =>
    simp only [amplifyCounts, countsFactor, one_mul]
    cases (Probe.wl o).kernel p z ell with
    | error e => rfl
    | ok k => simp [Except.map]

theorem consistent_amplifyCounts {u : ℝ} {pr : Probe} (h : pr.Consistent) : (amplifyCounts u pr).Consistent := by
  cases pr with
  | wl o => exact h
  | nc o =>
    intro h1
    have := h h1
    simp only
    cases hb : o.bias with
    | biases bs => rw [hb] at this; simpa [amplifyBiases, Val.single] using this
    | nums xs => rw [hb] at this; exact this
    | _ => trivial

theorem tracers_map {g : Probe → Probe} (hg : ∀ pr, (g pr).bins = pr.bins) (probes : List Probe) :
    tracers (probes.map g) = (tracers probes).map fun x => (g x.1, x.2) := by
  induction probes with
  | nil => rfl
  | cons pr l ih =>
    simp only [tracers, List.map_cons, List.flatMap_cons, List.map_append, List.map_map] at ih ⊢
    rw [ih, hg]
    rfl

theorem counts_clAt {p : Params} {T : ℝ → ℝ} {probes : List Probe} (hc : ∀ pr ∈ probes, pr.Consistent) {ell : ℝ}
    {col : List ℝ} (h : clAt p T linear probes ell = .ok col) (s u : ℝ) :
    ∃ col', clAt { p with sigma8 := s * p.sigma8 } T linear (probes.map (amplifyCounts u)) ell = .ok col' ∧
      ∀ i j : Fin (tracers probes).length,
        col'.getD (pairPos (tracers probes).length i j) 0
          = s ^ 2 * (countsFactor u (tracers probes)[i].1 * countsFactor u (tracers probes)[j].1)
            * col.getD (pairPos (tracers probes).length i j) 0 := by
  have h1 := C79_sigma8 p T probes ell s h
  obtain ⟨zmax, hz, -, hn⟩ := clAt_ok h1
  have hz' : probesZmax (probes.map (amplifyCounts u)) = .ok zmax := by
    rw [probesZmax_map _ (bins_amplifyCounts u), hz]
  obtain ⟨col', hcol'⟩ := clAt_returns (p := { p with sigma8 := s * p.sigma8 }) (T := T) (nl := linear) (ell := ell) hz'
    fun i hi => by
      obtain ⟨w, hw⟩ := hn i hi
      obtain ⟨-, h2⟩ := clIntegrand_parts hw
      refine clIntegrand_returns ⟨_, rfl⟩ fun pr hpr => ?_
      obtain ⟨q, hq, rfl⟩ := List.mem_map.1 hpr
      obtain ⟨k, hk⟩ := h2 q hq
      exact ⟨_, by rw [kernel_amplifyCounts, hk]; rfl⟩
  refine ⟨col', hcol', fun i j => ?_⟩
  have hlen : (tracers (probes.map (amplifyCounts u))).length = (tracers probes).length := by
    rw [tracers_map (bins_amplifyCounts u), List.length_map]
  have ht : ∀ i : Fin (tracers probes).length, (tracers (probes.map (amplifyCounts u)))[(i : ℕ)]?
      = some (amplifyCounts u (tracers probes)[i].1, (tracers probes)[i].2) := fun i => by
    rw [tracers_map (bins_amplifyCounts u), List.getElem?_map, List.getElem?_eq_getElem i.2]
    rfl
  have hamp : ∀ x : Probe × ℕ, Amplified { p with sigma8 := s * p.sigma8 } ell (countsFactor u x.1) x
      (amplifyCounts u x.1, x.2) := fun x z r r' hr hr' => by
    rw [kernel_amplifyCounts, hr] at hr'
    rw [← Except.ok.inj (hr' : Except.ok _ = _)]
    exact getD_map_mul _ r x.2
  have key := C79_amplitude _ T linear probes (probes.map (amplifyCounts u)) ell zmax _ _ hz hz' hc
    (fun pr hpr => by
      obtain ⟨q, hq, rfl⟩ := List.mem_map.1 hpr
      exact consistent_amplifyCounts (hc q hq)) h1 hcol' (i := i) (j := j) (i' := i) (j' := j)
    (List.getElem?_eq_getElem i.2) (List.getElem?_eq_getElem j.2) (ht i) (ht j) (hamp _) (hamp _)
  rw [hlen, getD_map_mul] at key
  rw [key]
  change countsFactor u (tracers probes)[i].1 * countsFactor u (tracers probes)[j].1 * _ = _
  ring

/-- Two directions in data space that are not proportional have a regular Fisher matrix. -/
theorem fisher2_pos {N : ℕ} {C : Matrix (Fin N) (Fin N) ℝ} (hC : C.PosDef) {x y : Fin N → ℝ}
    (h : ∀ a b : ℝ, (fun i => a * x i + b * y i) = 0 → a = 0 ∧ b = 0) : 0 < (fisher2 C x y).det := by
  have hy : y ≠ 0 := fun h0 => by
    have := (h 0 1 (by rw [h0]; funext i; simp)).2
    norm_num at this
  have hyy := ((C88_information hC y).2).2 hy
  have hsym : fisher C y x = fisher C x y := by
    unfold fisher
    rw [dotProduct_mulVec, ← mulVec_transpose, symm_of_posDef hC.inv, dotProduct_comm]
  set t := fisher C x y / fisher C y y with ht
  have hne : x - t • y ≠ 0 := fun h0 => by
    have := (h 1 (-t) (by
      funext i
      have := congrFun h0 i
      simp only [Pi.sub_apply, Pi.smul_apply, smul_eq_mul, Pi.zero_apply] at this ⊢
      linarith)).1
    norm_num at this
  have hpos := ((C88_information hC (x - t • y)).2).2 hne
  have hexp : fisher C (x - t • y) (x - t • y)
      = fisher C x x - 2 * t * fisher C x y + t ^ 2 * fisher C y y := by
    have e : fisher C (x - t • y) (x - t • y)
        = fisher C x x - t * fisher C x y - t * fisher C y x + t ^ 2 * fisher C y y := by
      simp only [fisher, mulVec_sub, mulVec_smul, sub_dotProduct, dotProduct_sub, smul_dotProduct,
        dotProduct_smul, smul_eq_mul]
      ring
    rw [e, hsym]
    ring
  rw [hexp] at hpos
  rw [fisher2, Matrix.det_fin_two_of, hsym]
  have : fisher C x x * fisher C y y - fisher C x y * fisher C x y
      = fisher C y y * (fisher C x x - 2 * t * fisher C x y + t ^ 2 * fisher C y y) := by
    rw [ht]
    field_simp
    ring
  rw [this]
  exact mul_pos hyy hpos

/-- C146: shapes and positions together tell them apart.  If some spectrum of two lensing bins and some spectrum with a
sample of galaxies are not zero, the Fisher matrix of `sigma8` and the galaxy biases is regular, for every positive
definite covariance. -/
theorem C146_joint (p : Params) (ells : List ℝ) (T : ℝ → ℝ) (probes : List Probe)
    (hc : ∀ pr ∈ probes, pr.Consistent) {cl : List (List ℝ)}
    (h : angularCl p ells probes T linear = .ok cl)
    (hl : ∃ (i j : Fin (tracers probes).length) (l : ℕ), l < ells.length ∧ ¬ IsCounts (tracers probes)[i] ∧
      ¬ IsCounts (tracers probes)[j] ∧ symMat (tracers probes).length (column cl l) i j ≠ 0)
    (hg : ∃ (i j : Fin (tracers probes).length) (l : ℕ), l < ells.length ∧ IsCounts (tracers probes)[i] ∧
      symMat (tracers probes).length (column cl l) i j ≠ 0) :
    ∃ (M : ℝ → ℝ → List (List ℝ)) (ds du : Fin cl.flatten.length → ℝ),
      (∀ s u, angularCl { p with sigma8 := s * p.sigma8 } ells (probes.map (amplifyCounts u)) T linear = .ok (M s u)) ∧
      (∀ r : Fin cl.flatten.length, HasDerivAt (fun s => (M s 1).flatten.getD r 0) (ds r) 1 ∧
        HasDerivAt (fun u => (M 1 u).flatten.getD r 0) (du r) 1) ∧
      ∀ C : Matrix (Fin cl.flatten.length) (Fin cl.flatten.length) ℝ, C.PosDef → 0 < (fisher2 C ds du).det := by
  obtain ⟨hr, hv⟩ := angularCl_rect h
  set N := (tracers probes).length with hN
  set L := ells.length with hL
  have hret : ∀ s u, ∃ m, angularCl { p with sigma8 := s * p.sigma8 } ells (probes.map (amplifyCounts u)) T linear
      = .ok m := fun s u => by
    unfold angularCl at h ⊢
    obtain ⟨cols, hcols, -⟩ := bind_ok h
    obtain ⟨cols', hcols'⟩ := mapM_exists (l := ells)
      (f := clAt { p with sigma8 := s * p.sigma8 } T linear (probes.map (amplifyCounts u))) fun ell hell => by
        obtain ⟨col, -, hcol⟩ := mapM_mem hcols hell
        obtain ⟨col', h', -⟩ := counts_clAt hc hcol s u
        exact ⟨col', h'⟩
    rw [hcols']
    exact ⟨_, rfl⟩
  choose M hM using hret
  have hlen : (tracers (probes.map (amplifyCounts 1))).length = N := by
    rw [tracers_map (bins_amplifyCounts 1), List.length_map]
  obtain ⟨f1, f2⟩ := flatten_getElem hr
  have hent : ∀ s u (I : Fin (pairCount N)) (l : ℕ), l < L →
      (M s u).flatten.getD (I * L + l) 0
        = s ^ 2 * (countsFactor u (tracers probes)[(pairOf N I).1].1 * countsFactor u (tracers probes)[(pairOf N I).2].1)
          * rowAt cl I l := by
    intro s u I l hl'
    obtain ⟨rM, vM⟩ := angularCl_rect (hM s u)
    have hlen' : (tracers (probes.map (amplifyCounts u))).length = N := by
      rw [tracers_map (bins_amplifyCounts u), List.length_map]
    rw [hlen'] at rM vM
    obtain ⟨-, g2⟩ := flatten_getElem rM
    rw [List.getD_eq_getElem?_getD, g2 I l I.2 hl', Option.getD_some]
    obtain ⟨col, hcol, ecol⟩ := hv l hl'
    obtain ⟨colM, hcolM, ecolM⟩ := vM l hl'
    obtain ⟨col', h', e'⟩ := counts_clAt hc hcol s u
    obtain rfl := Except.ok.inj (h'.symm.trans hcolM)
    rw [ecolM I I.2, ecol I I.2]
    have hI : pairPos N (pairOf N I).1 (pairOf N I).2 = I := congrArg Fin.val (pairFin_pairOf I)
    have := e' (pairOf N I).1 (pairOf N I).2
    rw [hI] at this
    exact this
  have hr0 : ∀ r : Fin cl.flatten.length, ((Fin.cast f1 r).divNat : ℕ) * L + (Fin.cast f1 r).modNat = r := fun r => by
    change (r : ℕ) / L * L + (r : ℕ) % L = r
    rw [Nat.mul_comm]
    exact Nat.div_add_mod _ _
  have hflat : ∀ r : Fin cl.flatten.length,
      cl.flatten.getD r 0 = rowAt cl (Fin.cast f1 r).divNat (Fin.cast f1 r).modNat := fun r => by
    conv_lhs => rw [← hr0 r, List.getD_eq_getElem?_getD, f2 _ _ (Fin.cast f1 r).divNat.2 (Fin.cast f1 r).modNat.2]
    rfl
  set E : Fin (pairCount N) → ℝ := fun I => countsExp (tracers probes)[(pairOf N I).1].1
    + countsExp (tracers probes)[(pairOf N I).2].1 with hE
  refine ⟨M, fun r => 2 * cl.flatten.getD r 0, fun r => E (Fin.cast f1 r).divNat * cl.flatten.getD r 0, hM,
    fun r => ⟨?_, ?_⟩, fun C hC => fisher2_pos hC fun a b hab => ?_⟩
  · beta_reduce
    rw [hflat]
    have e : (fun s => (M s 1).flatten.getD r 0)
        = fun s => s ^ 2 * rowAt cl (Fin.cast f1 r).divNat (Fin.cast f1 r).modNat := funext fun s => by
      rw [← hr0 r, hent s 1 _ _ (Fin.cast f1 r).modNat.2, countsFactor_one, countsFactor_one]
      ring
    rw [e]
    simpa using ((hasDerivAt_id (1 : ℝ)).pow 2).mul_const (rowAt cl (Fin.cast f1 r).divNat (Fin.cast f1 r).modNat)
  · beta_reduce
    rw [hflat]
    have e : (fun u => (M 1 u).flatten.getD r 0)
        = fun u => (countsFactor u (tracers probes)[(pairOf N (Fin.cast f1 r).divNat).1].1
          * countsFactor u (tracers probes)[(pairOf N (Fin.cast f1 r).divNat).2].1)
          * rowAt cl (Fin.cast f1 r).divNat (Fin.cast f1 r).modNat := funext fun u => by
      rw [← hr0 r, hent 1 u _ _ (Fin.cast f1 r).modNat.2]
      ring
    rw [e]
    have := ((countsFactor_deriv (tracers probes)[(pairOf N (Fin.cast f1 r).divNat).1].1).mul
      (countsFactor_deriv (tracers probes)[(pairOf N (Fin.cast f1 r).divNat).2].1)).mul_const
      (rowAt cl (Fin.cast f1 r).divNat (Fin.cast f1 r).modNat)
    rwa [countsFactor_one, countsFactor_one, mul_one, one_mul] at this
  · have hpos : ∀ (i j : Fin N) (l : ℕ), l < L → symMat N (column cl l) i j ≠ 0 →
        2 * a + b * (countsExp (tracers probes)[i].1 + countsExp (tracers probes)[j].1) = 0 := by
      intro i j l hl' hne
      have hlt : (pairFin N i j : ℕ) * L + l < cl.flatten.length := by
        rw [f1]
        calc (pairFin N i j : ℕ) * L + l < (pairFin N i j : ℕ) * L + L := by omega
          _ = ((pairFin N i j : ℕ) + 1) * L := by ring
          _ ≤ pairCount N * L := Nat.mul_le_mul_right _ (pairFin N i j).2
      have h1 := congrFun hab ⟨_, hlt⟩
      have hdiv : (Fin.cast f1 ⟨_, hlt⟩).divNat = pairFin N i j := Fin.ext (by
        change ((pairFin N i j : ℕ) * L + l) / L = (pairFin N i j : ℕ)
        rw [Nat.mul_comm, Nat.mul_add_div (by omega), Nat.div_eq_of_lt hl', add_zero])
      simp only [hdiv, Pi.zero_apply] at h1
      have hv' : cl.flatten.getD ((pairFin N i j : ℕ) * L + l) 0 ≠ 0 := by
        rw [List.getD_eq_getElem?_getD, f2 _ _ (pairFin N i j).2 hl', Option.getD_some, ← rowAt_column]
        exact hne
      have hEij : E (pairFin N i j) = countsExp (tracers probes)[i].1 + countsExp (tracers probes)[j].1 := by
        rcases le_total i j with hij | hij
        · simp only [hE, pairOf_pairFin hij]
        · rw [pairFin_comm]
          simp only [hE, pairOf_pairFin hij]
          ring
      rw [hEij] at h1
      have h2 : (2 * a + b * (countsExp (tracers probes)[i].1 + countsExp (tracers probes)[j].1))
          * cl.flatten.getD ((pairFin N i j : ℕ) * L + l) 0 = 0 := by linarith
      exact (mul_eq_zero.1 h2).resolve_right hv'
    obtain ⟨i, j, l, hl1, hi, hj, hne⟩ := hl
    obtain ⟨i', j', l', hl2, hi', hne'⟩ := hg
    have h1 := hpos i j l hl1 hne
    have h2 := hpos i' j' l' hl2 hne'
    rw [countsExp_not hi, countsExp_not hj] at h1
    have ha : a = 0 := by linarith
    refine ⟨ha, ?_⟩
    have h3 := countsExp_nonneg (tracers probes)[j'].1
    rw [ha, countsExp_counts hi'] at h2
    have : b * (1 + countsExp (tracers probes)[j'].1) = 0 := by linarith
    exact (mul_eq_zero.1 this).resolve_right (by positivity)

/-! ## Spectra that are not zero -/

theorem simpson_pos_between {f : ℝ → ℝ} {a b : ℝ} {m : ℕ} (hm : 0 < m) (hab : a < b)
    (h0 : ∀ x, a ≤ x → x ≤ b → 0 ≤ f x) (h : ∀ x, a < x → x < b → 0 < f x) : 0 < simpson f a b m := by
  unfold simpson
  have hm' : (0 : ℝ) < m := by exact_mod_cast hm
  have hd : 0 < (b - a) / (2 * (m : ℝ)) := by
    have : 0 < b - a := by linarith
    positivity
  have hb : a + 2 * m * ((b - a) / (2 * (m : ℝ))) = b := by field_simp; ring
  refine mul_pos (by positivity) (Finset.sum_pos (fun j hj => ?_) (by simp; omega))
  have hj0 : (0 : ℝ) ≤ j := by positivity
  have hj1 : (j : ℝ) + 1 ≤ m := by exact_mod_cast Finset.mem_range.1 hj
  have e1 := h0 (a + (2 * j) * ((b - a) / (2 * (m : ℝ)))) (by nlinarith) (by nlinarith)
  have e2 := h (a + (2 * j + 1) * ((b - a) / (2 * (m : ℝ)))) (by nlinarith) (by nlinarith)
  have e3 := h0 (a + (2 * j + 2) * ((b - a) / (2 * (m : ℝ)))) (by nlinarith) (by nlinarith)
  linarith

/-- C146: two tracers whose kernels are positive between the observer and `zmax` have a positive linear spectrum, if the
transfer function does not vanish. -/
theorem C146_positive (p : Params) (hp : Physical p) (hg : p.gamma = none) (h8 : p.sigma8 ≠ 0) {T : ℝ → ℝ}
    (hT : ∀ k, 0 < k → T k ≠ 0)
    {probes : List Probe} (hc : ∀ pr ∈ probes, pr.Consistent) {zmax ell : ℝ} (hz : probesZmax probes = .ok zmax)
    (h0 : 0 < zmax) (h9 : zmax ≤ 899) (hell : 0 ≤ ell) {col : List ℝ} (h : clAt p T linear probes ell = .ok col)
    {i j : ℕ} {x y : Probe × ℕ} (hi : (tracers probes)[i]? = some x) (hj : (tracers probes)[j]? = some y)
    (hx : ∀ z r, 0 ≤ z → x.1.kernel p z ell = .ok r → 0 ≤ r.getD x.2 0 ∧ (0 < z → z < zmax → 0 < r.getD x.2 0))
    (hy : ∀ z r, 0 ≤ z → y.1.kernel p z ell = .ok r → 0 ≤ r.getD y.2 0 ∧ (0 < z → z < zmax → 0 < r.getD y.2 0)) :
    0 < col.getD (pairPos (tracers probes).length i j) 0 := by
  rw [clAt_entry h hz (tracers_lt hi) (tracers_lt hj)]
  refine div_pos ?_ (by norm_num [const_c])
  obtain ⟨z1, hz1, -, hn⟩ := clAt_ok h
  obtain rfl : z1 = zmax := Except.ok.inj (hz1.symm.trans hz)
  classical
  set g : ℝ → ℝ := fun a => if ∃ v, clIntegrand p T linear probes ell a = .ok v
    then limberIntegrand p T linear probes ell i j a else 1 with hg'
  have hcong : simpson (limberIntegrand p T linear probes ell i j) (1 / (1 + z1)) 1 256
      = simpson g (1 / (1 + z1)) 1 256 := simpson_congr_node fun k hk => by
    rw [hg']
    exact (if_pos (hn k hk)).symm
  rw [hcong]
  have hlo : 1 / (1 + z1) < 1 := by rw [div_lt_one (by linarith)]; linarith
  have hgen : ∀ a, 1 / (1 + z1) ≤ a → a ≤ 1 → 0 ≤ g a ∧ (1 / (1 + z1) < a → a < 1 → 0 < g a) := by
    intro a ha ha1
    rw [hg']
    beta_reduce
    by_cases hv : ∃ v, clIntegrand p T linear probes ell a = .ok v
    · rw [if_pos hv]
      obtain ⟨v, hv⟩ := hv
      have ha0 : 0 < a := lt_of_lt_of_le (by positivity) ha
      obtain ⟨r, a1, a2⟩ := limberKernels_tracer hv hc (i := i) (pr := x.1) (t := x.2) hi
      obtain ⟨r', b1, b2⟩ := limberKernels_tracer hv hc (i := j) (pr := y.1) (t := y.2) hj
      have hz0 : 0 ≤ 1 / a - 1 := by rw [sub_nonneg, le_div_iff₀ ha0]; linarith
      have c1 := hx _ _ hz0 a1
      have c2 := hy _ _ hz0 b1
      have hk : 0 < (ell + 1 / 2) / max (chiOf p a) 1 := by
        have : 0 < max (chiOf p a) 1 := lt_max_of_lt_right one_pos
        positivity
      have hP : 0 < limberPower p T linear ell a :=
        C40_pos p T _ a hk (hT _ hk) (C10_pos_ode p hp hg (by
          refine le_trans ?_ ha
          rw [div_le_div_iff₀ (by norm_num) (by linarith)]
          linarith)).ne' h8 (hT _ (Real.exp_pos _))
      have hd := dchioverda_pos hp.esqrPos ha0 ha1
      have hm : 0 < max (chiOf p a ^ 2) 1 := lt_max_of_lt_right one_pos
      rw [limberIntegrand, a2, b2]
      refine ⟨?_, fun h1 h2 => ?_⟩
      · have := c1.1
        have := c2.1
        positivity
      · have hz' : 0 < 1 / a - 1 := by rw [sub_pos, lt_div_iff₀ ha0]; linarith
        have hz'' : 1 / a - 1 < z1 := by
          rw [div_lt_iff₀ (by linarith)] at h1
          rw [sub_lt_iff_lt_add, div_lt_iff₀ ha0]
          linarith
        have := c1.2 hz' hz''
        have := c2.2 hz' hz''
        positivity
    · rw [if_neg hv]
      exact ⟨one_pos.le, fun _ _ => one_pos⟩
  exact simpson_pos_between (by norm_num) hlo (fun a h1 h2 => (hgen a h1 h2).1)
    fun a h1 h2 => (hgen a h1.le h2.le).2 h1 h2

/-- The lensing kernel of an extended bin is positive in front of the sources. -/
theorem binKernel_pos {p : Params} (hE : EsqrPos p) (hm : 0 < p.Omega_m) {b : Nz} (hb : b.isDelta = false)
    (hn : ∀ z, 0 < z → 0 < b.eval z) {z zmax ell : ℝ} (h0 : 0 < z) (h1 : z < zmax) (hl : 1 < ell) :
    0 < binKernel p zmax z ell b := by
  have hS : 0 < simpson (fun z' => b.eval z' * lensWeight (chiZ p) z z') z zmax 128 := by
    refine simpson_pos h1 (fun x hx => mul_nonneg (hn x (h0.trans_le hx)).le
      (lensWeight_nonneg _ _ _)) fun x hx => mul_pos (hn x (h0.trans hx)) ?_
    unfold lensWeight
    have := chiZ_lt hE h0 hx
    exact div_pos (lt_max_of_lt_left (by linarith)) (lt_max_of_lt_right one_pos)
  have hb' : binKernel p zmax z ell b = lensKernel p.Omega_m const_H0 const_c (chiZ p)
      z ell (simpson (fun z' => b.eval z' * lensWeight (chiZ p) z z') z zmax 128) := by
    cases b <;> first | rfl | simp [Nz.isDelta] at hb
  rw [hb']
  have h2 : 0 < chiZ p z := C06_pos_before (by norm_num) (by norm_num) hE (by
    unfold z2a; rw [div_lt_one (by linarith)]; linarith)
  have h3 := spinFactor_pos hl
  unfold lensKernel const_H0 const_c
  positivity

/-- One lensing bin and one sample of galaxies. -/
noncomputable def jointProbes : List Probe :=
  [.wl (.init [.smail 1 2 1 1 4]), .nc (.init [.smail 1 2 1 1 4] (.bias (.constant 1.5)))]

/-- Witness for `C146_joint` and `C146_fisher`: Planck15, the smooth transfer function, one lensing bin and one sample of
galaxies, one multipole. -/
example : ∃ cl, angularCl Planck15 [10] jointProbes (EH.nowiggle Planck15) linear = .ok cl ∧
    (∃ (i j : Fin (tracers jointProbes).length) (l : ℕ), l < [(10 : ℝ)].length ∧ ¬ IsCounts (tracers jointProbes)[i] ∧
      ¬ IsCounts (tracers jointProbes)[j] ∧ symMat (tracers jointProbes).length (column cl l) i j ≠ 0) ∧
    ∃ (i j : Fin (tracers jointProbes).length) (l : ℕ), l < [(10 : ℝ)].length ∧ IsCounts (tracers jointProbes)[i] ∧
      symMat (tracers jointProbes).length (column cl l) i j ≠ 0 := by
  set T := EH.nowiggle Planck15 with hT
  have hz : probesZmax jointProbes = .ok 4 := by
    norm_num [probesZmax, jointProbes, Probe.zmax, Probe.bins, WeakLensing.init, NumberCounts.init,
      pyMax, Nz.zmax, List.mapM_cons, bind, Except.bind, pure, Except.pure]
  have hwl : ∀ z ell, (Probe.wl (.init [.smail 1 2 1 1 4])).kernel Planck15 z ell
      = .ok [binKernel Planck15 4 z ell (.smail 1 2 1 1 4) * (1 + 0)] := fun z ell => by
    simp only [Probe.kernel, WeakLensing.init, WeakLensing.kernel, Option.getD_none]
    rw [C48_order Planck15 rfl _ z ell 4 rfl]
    rfl
  have hnc : ∀ z ell, (Probe.nc (.init [.smail 1 2 1 1 4] (.bias (.constant 1.5)))).kernel Planck15 z ell
      = .ok [(Nz.smail 1 2 1 1 4).eval z * 1.5 * H Planck15 (z2a z)] := fun z ell => by
    simp only [Probe.kernel, NumberCounts.init, NumberCounts.kernel]
    rw [density_rows Planck15 rfl [.smail 1 2 1 1 4] (by simp) (by simp [Nz.isDelta])
      (.constant 1.5) z ell]
    simp [Bias.call]
  have hev : ∀ z, 0 ≤ z → 0 ≤ (Nz.smail 1 2 1 1 4).eval z := fun z hz => by
    rcases hz.eq_or_lt with rfl | hz
    · rw [Nz.eval_extended rfl]
      simp [Nz.pzFn]
    · exact (smail_eval_pos hz (by norm_num)).le
  have hzmax : pyMax ([Nz.smail 1 2 1 1 4].map Nz.zmax) = .ok 4 := rfl
  have hx : ∀ z r, 0 ≤ z → (Probe.wl (.init [.smail 1 2 1 1 4])).kernel Planck15 z 10 = .ok r →
      0 ≤ r.getD 0 0 ∧ (0 < z → z < 4 → 0 < r.getD 0 0) := fun z r hz0 hr => by
    rw [hwl] at hr
    obtain rfl := Except.ok.inj hr
    constructor
    · have := C49_nonneg Planck15 rfl planck_physical.esqrPos planck_physical.m_pos.le [.smail 1 2 1 1 4]
        (by simp [Nz.zmax]) (by simpa using hev) hz0 (C48_order Planck15 rfl _ z 10 4 hzmax)
        (binKernel Planck15 4 z 10 (.smail 1 2 1 1 4)) (by simp)
      simpa using this
    · intro h1 h2
      have := binKernel_pos planck_physical.esqrPos planck_physical.m_pos (b := .smail 1 2 1 1 4) rfl
        (fun z hz => smail_eval_pos hz (by norm_num)) h1 h2 (ell := 10) (by norm_num)
      simpa using this
  have hy : ∀ z r, 0 ≤ z → (Probe.nc (.init [.smail 1 2 1 1 4] (.bias (.constant 1.5)))).kernel Planck15 z 10
      = .ok r → 0 ≤ r.getD 0 0 ∧ (0 < z → z < 4 → 0 < r.getD 0 0) := fun z r hz0 hr => by
    rw [hnc] at hr
    obtain rfl := Except.ok.inj hr
    have hH : 0 < H Planck15 (z2a z) := by
      unfold H const_H0
      have := planck_physical.esqrPos (z2a z) (by unfold z2a; positivity) (by
        unfold z2a; rw [div_le_one (by linarith)]; linarith)
      positivity
    refine ⟨?_, fun h1 _ => ?_⟩
    · have := hev z hz0
      simp only [List.getD_cons_zero]
      positivity
    · have := smail_eval_pos h1 (zm := 4) (by norm_num)
      simp only [List.getD_cons_zero]
      positivity
  have hc : ∀ pr ∈ jointProbes, pr.Consistent := by
    intro pr hpr
    simp only [jointProbes, List.mem_cons, List.not_mem_nil, or_false] at hpr
    rcases hpr with rfl | rfl
    · exact fun _ => ⟨trivial, (fun v hv => by cases hv), trivial⟩
    · intro _; trivial
  obtain ⟨col, hcol⟩ := clAt_returns (p := Planck15) (T := T) (nl := linear) (ell := 10) hz fun i _ =>
    clIntegrand_returns ⟨_, C42_linear _ _ _ _⟩ fun pr hpr => by
      simp only [jointProbes, List.mem_cons, List.not_mem_nil, or_false] at hpr
      rcases hpr with rfl | rfl
      · exact ⟨_, hwl _ _⟩
      · exact ⟨_, hnc _ _⟩
  have hT0 : ∀ k, 0 < k → T k ≠ 0 := fun k hk => planck_nowiggle_pos hk
  have p00 := C146_positive Planck15 planck_physical rfl (by norm_num [Planck15]) hT0 hc hz (by norm_num) (by norm_num)
    (by norm_num) hcol (i := 0) (j := 0) (x := (.wl (.init [.smail 1 2 1 1 4]), 0))
    (y := (.wl (.init [.smail 1 2 1 1 4]), 0)) rfl rfl hx hx
  have p11 := C146_positive Planck15 planck_physical rfl (by norm_num [Planck15]) hT0 hc hz (by norm_num) (by norm_num)
    (by norm_num) hcol (i := 1) (j := 1) (x := (.nc (.init [.smail 1 2 1 1 4] (.bias (.constant 1.5))), 0))
    (y := (.nc (.init [.smail 1 2 1 1 4] (.bias (.constant 1.5))), 0)) rfl rfl hy hy
  have hA : angularCl Planck15 [10] jointProbes T linear = .ok ((List.range 3).map fun c =>
      [col.getD c 0]) := by
    unfold angularCl
    rw [mapM_ok_of (g := fun _ => col) fun a ha => by rw [List.mem_singleton.1 ha]; exact hcol]
    rfl
  refine ⟨_, hA, ⟨⟨0, by decide⟩, ⟨0, by decide⟩, 0, by simp, ?_, ?_, ?_⟩, ⟨⟨1, by decide⟩, ⟨1, by decide⟩, 0, by simp, ?_, ?_⟩⟩
  · exact fun h => h
  · exact fun h => h
  · exact p00.ne'
  · exact trivial
  · exact p11.ne'

/-- Two lensing bins and a sample of galaxies with twice the `sigma8`, half the bias and half the response to shear have
the data vector and covariance they had before (and these are computed, not errors). -/
example (T : ℝ → ℝ) : ∃ r, gaussianClCovarianceAndMean Planck15 [10, 20, 30] demoProbes T linear 0.25 true = .ok r ∧
    gaussianClCovarianceAndMean { Planck15 with sigma8 := 2 * Planck15.sigma8 } [10, 20, 30]
      (demoProbes.map (amplify 2⁻¹)) T linear 0.25 true = .ok r := by
  obtain ⟨r, h⟩ := C66_returns Planck15 [10, 20, 30] demoProbes T linear 0.25 4 true (by simp) demo_zmax
    (fun k a => ⟨_, C42_linear _ _ _ _⟩)
    (fun pr hpr z ell => (demo_kernels Planck15 rfl pr hpr z ell).imp fun _ h => h.1) (by
      intro pr hpr
      simp only [demoProbes, List.mem_cons, List.not_mem_nil, or_false] at hpr
      rcases hpr with rfl | rfl
      · exact ⟨_, C58_lensing _ _ _ _⟩
      · exact ⟨_, C58_clustering _ _⟩)
  exact ⟨r, h, (C146_degenerate two_ne_zero _ _ _ _ _ _).trans h⟩

end JaxCosmo
