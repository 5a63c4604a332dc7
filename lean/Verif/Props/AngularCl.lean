import Verif.Props.ClOrdering
import Verif.Props.Probes
import Verif.Props.Power
import Mathlib.Analysis.Matrix.Order
import Mathlib.Algebra.QuadraticDiscriminant

/-! # C56–C58: angular power spectra and noise -/

namespace JaxCosmo
open Spec Matrix

/-! ## Preliminaries -/

/-- The power spectrum entering the Limber integral at scale factor `a` (0 if it raises). -/
noncomputable def limberPower (p : Params) (T : ℝ → ℝ)
    (nl : Params → ℝ → ℝ → (ℝ → ℝ) → Except PyErr ℝ) (ell a : ℝ) : ℝ :=
  match nl p ((ell + 1 / 2) / max (chiOf p a) 1) a T with
  | .ok v => v
  | .error _ => 0

/-- The kernels of all probes at scale factor `a`, one after the other (empty if one raises). -/
noncomputable def limberKernels (p : Params) (probes : List Probe) (ell a : ℝ) : List ℝ :=
  match probes.mapM fun pr => pr.kernel p (1 / a - 1) ell with
  | .ok rows => rows.flatten
  | .error _ => []

/-- The Limber integrand of tracers `i` and `j`. -/
noncomputable def limberIntegrand (p : Params) (T : ℝ → ℝ)
    (nl : Params → ℝ → ℝ → (ℝ → ℝ) → Except PyErr ℝ) (probes : List Probe) (ell : ℝ) (i j : ℕ)
    (a : ℝ) : ℝ :=
  limberPower p T nl ell a * (gather (limberKernels p probes ell a) i
    * gather (limberKernels p probes ell a) j) * dchioverda p a / max (chiOf p a ^ 2) 1

theorem clIntegrand_ok {p : Params} {T : ℝ → ℝ}
    {nl : Params → ℝ → ℝ → (ℝ → ℝ) → Except PyErr ℝ} {probes : List Probe} {ell a : ℝ} {v : List ℝ}
    (h : clIntegrand p T nl probes ell a = .ok v) :
    v = (getClOrdering probes).map fun ij => limberIntegrand p T nl probes ell ij.1 ij.2 a := by
  unfold clIntegrand at h
  obtain ⟨pk, hpk, h⟩ := bind_ok h
  obtain ⟨rows, hrows, h⟩ := bind_ok h
  simp only [pure, Except.pure, Except.ok.injEq] at h
  subst h
  have e1 : limberPower p T nl ell a = pk := by
    unfold limberPower
    have : nl p ((ell + 1 / 2) / max (chiOf p a) 1) a T = .ok pk := by
      rw [← hpk]; norm_num [nonlinearMatterPower, clipLo]
    rw [this]
  have e2 : limberKernels p probes ell a = rows.flatten := by
    unfold limberKernels
    have : (probes.mapM fun pr => pr.kernel p (1 / a - 1) ell) = .ok rows := hrows
    rw [this]
  rw [List.map_map]
  apply List.map_congr_left
  intro ij _
  simp only [Function.comp_apply, limberIntegrand, e1, e2, clipLo]

theorem clIntegrand_returns {p : Params} {T : ℝ → ℝ}
    {nl : Params → ℝ → ℝ → (ℝ → ℝ) → Except PyErr ℝ} {probes : List Probe} {ell a : ℝ}
    (hP : ∃ v, nl p ((ell + 1 / 2) / max (chiOf p a) 1) a T = .ok v)
    (hK : ∀ pr ∈ probes, ∃ k, pr.kernel p (1 / a - 1) ell = .ok k) :
    ∃ v, clIntegrand p T nl probes ell a = .ok v := by
  obtain ⟨v, hv⟩ := hP
  obtain ⟨rows, hrows⟩ := mapM_exists hK
  have hv' : nonlinearMatterPower p ((ell + 0.5) / clipLo (chiOf p a) 1) a T nl = .ok v := by
    rw [← hv]; norm_num [nonlinearMatterPower, clipLo]
  have hr' : (probes.mapM fun pr => pr.kernel p (a2z a) ell) = .ok rows := hrows
  unfold clIntegrand
  simp only [hv', hr', bind, Except.bind, pure, Except.pure]
  exact ⟨_, rfl⟩

theorem clIntegrand_parts {p : Params} {T : ℝ → ℝ}
    {nl : Params → ℝ → ℝ → (ℝ → ℝ) → Except PyErr ℝ} {probes : List Probe} {ell a : ℝ} {v : List ℝ}
    (h : clIntegrand p T nl probes ell a = .ok v) :
    (∃ v, nl p ((ell + 1 / 2) / max (chiOf p a) 1) a T = .ok v) ∧
    ∀ pr ∈ probes, ∃ k, pr.kernel p (1 / a - 1) ell = .ok k := by
  unfold clIntegrand at h
  obtain ⟨pk, hpk, h⟩ := bind_ok h
  obtain ⟨rows, hrows, h⟩ := bind_ok h
  refine ⟨⟨pk, ?_⟩, fun pr hpr => ?_⟩
  · rw [← hpk]; norm_num [nonlinearMatterPower, clipLo]
  · obtain ⟨y, _, hy⟩ := mapM_mem hrows hpr
    exact ⟨y, hy⟩

theorem simpsE_ok {f : ℝ → Except PyErr (List ℝ)} {a b : ℝ} {N m : ℕ} {v : List ℝ} (hN : Even N)
    (g : ℕ → ℝ → ℝ) (hf : ∀ i ≤ N, ∀ w, f (linspace a b (N + 1) i) = .ok w →
      w = (List.range m).map fun c => g c (linspace a b (N + 1) i))
    (h : simpsE f a b N = .ok v) :
    v = (List.range m).map (fun c => simpsBody (g c) a b N) ∧
    ∀ i ≤ N, ∃ w, f (linspace a b (N + 1) i) = .ok w := by
  unfold simpsE at h
  rw [if_neg (by rcases hN with ⟨k, rfl⟩; omega)] at h
  obtain ⟨ys, hys, h⟩ := bind_ok h
  simp only [pure, Except.pure, Except.ok.injEq] at h
  have hlen : ys.length = N + 1 := by rw [mapM_length hys, List.length_range]
  have hy : ∀ i ≤ N, f (linspace a b (N + 1) i) = .ok (ys.getD i []) := by
    intro i hi
    have := mapM_getElem hys i (by rw [List.length_range]; omega)
    rw [List.getElem_range] at this
    rw [this, List.getD_eq_getElem]
  have hy' : ∀ i ≤ N, ys.getD i [] = (List.range m).map fun c => g c (linspace a b (N + 1) i) :=
    fun i hi => hf i hi _ (hy i hi)
  have hhead : (ys.headD []).length = m := by
    have : ys.headD [] = ys.getD 0 [] := by cases ys <;> rfl
    rw [this, hy' 0 (by omega)]; simp
  refine ⟨?_, fun i hi => ⟨_, hy i hi⟩⟩
  rw [← h, hhead]
  apply List.map_congr_left
  intro c hc
  have hc' : c < m := List.mem_range.1 hc
  have hyc : ∀ i ≤ N, (ys.getD i []).getD c 0 = g c (linspace a b (N + 1) i) := by
    intro i hi
    rw [hy' i hi, List.getD_eq_getElem _ _ (by simpa using hc')]
    simp
  unfold simpsBody
  congr 1
  apply Finset.sum_congr rfl
  intro i hi
  have hi' : i < N / 2 := Finset.mem_range.1 hi
  rw [hyc _ (by omega), hyc _ (by omega), hyc _ (by omega)]

theorem simpsE_returns {f : ℝ → Except PyErr (List ℝ)} {a b : ℝ} {N : ℕ} (hN : Even N)
    (hf : ∀ i ≤ N, ∃ w, f (linspace a b (N + 1) i) = .ok w) : ∃ v, simpsE f a b N = .ok v := by
  obtain ⟨ys, hys⟩ := mapM_exists (f := fun i => f (linspace a b (N + 1) i))
    (l := List.range (N + 1)) fun i hi => hf i (by have := List.mem_range.1 hi; omega)
  unfold simpsE
  rw [if_neg (by rcases hN with ⟨k, rfl⟩; omega), hys]
  exact ⟨_, rfl⟩

theorem simpsBody_512 (f : ℝ → ℝ) (a b : ℝ) : simpsBody f a b 512 = simpson f a b 256 := by
  simp only [simpsBody, simpson, linspace_succ]
  norm_num

/-- The scale factors at which the integrand is sampled. -/
noncomputable def limberNode (zmax : ℝ) (i : ℕ) : ℝ := linspace (1 / (1 + zmax)) 1 513 i

/-- What `cl(ell)` returns, entry by entry. -/
theorem clAt_ok {p : Params} {T : ℝ → ℝ}
    {nl : Params → ℝ → ℝ → (ℝ → ℝ) → Except PyErr ℝ} {probes : List Probe} {ell : ℝ} {col : List ℝ}
    (h : clAt p T nl probes ell = .ok col) :
    ∃ zmax, probesZmax probes = .ok zmax ∧
      col = (getClOrdering probes).map (fun ij =>
        simpson (limberIntegrand p T nl probes ell ij.1 ij.2) (1 / (1 + zmax)) 1 256 / const_c ^ 2) ∧
      ∀ i ≤ 512, ∃ w, clIntegrand p T nl probes ell (limberNode zmax i) = .ok w := by
  unfold clAt at h
  obtain ⟨zmax, hz, h⟩ := bind_ok h
  obtain ⟨s, hs, h⟩ := bind_ok h
  simp only [pure, Except.pure, Except.ok.injEq] at h
  refine ⟨zmax, hz, ?_⟩
  obtain ⟨h1, h2⟩ := simpsE_ok (m := (getClOrdering probes).length) (by decide)
    (fun c a => limberIntegrand p T nl probes ell ((getClOrdering probes).getD c (0, 0)).1
      ((getClOrdering probes).getD c (0, 0)).2 a) (by
    intro i _ w hw
    rw [clIntegrand_ok hw]
    apply List.ext_getElem (by simp)
    intro c h1 h2
    simp only [List.getElem_map, List.getElem_range]
    rw [List.getD_eq_getElem]) hs
  refine ⟨?_, h2⟩
  rw [← h, h1, List.map_map]
  apply List.ext_getElem (by simp)
  intro c h1 h2
  simp only [List.getElem_map, List.getElem_range, Function.comp_apply]
  rw [List.getD_eq_getElem, simpsBody_512]
  rfl

theorem clAt_returns {p : Params} {T : ℝ → ℝ}
    {nl : Params → ℝ → ℝ → (ℝ → ℝ) → Except PyErr ℝ} {probes : List Probe} {ell zmax : ℝ}
    (hz : probesZmax probes = .ok zmax)
    (h : ∀ i ≤ 512, ∃ w, clIntegrand p T nl probes ell (limberNode zmax i) = .ok w) :
    ∃ col, clAt p T nl probes ell = .ok col := by
  obtain ⟨s, hs⟩ := simpsE_returns (f := clIntegrand p T nl probes ell) (a := z2a zmax) (b := 1)
    (N := 512) (by decide) h
  unfold clAt
  simp only [hz, hs, bind, Except.bind, pure, Except.pure]
  exact ⟨_, rfl⟩

/-- Entry of the spectrum of tracers `i`, `j` (either order). -/
theorem clAt_entry {p : Params} {T : ℝ → ℝ}
    {nl : Params → ℝ → ℝ → (ℝ → ℝ) → Except PyErr ℝ} {probes : List Probe} {ell zmax : ℝ}
    {col : List ℝ} (h : clAt p T nl probes ell = .ok col) (hz : probesZmax probes = .ok zmax)
    {i j : ℕ} (hi : i < (tracers probes).length) (hj : j < (tracers probes).length) :
    col.getD (pairPos (tracers probes).length i j) 0
      = simpson (limberIntegrand p T nl probes ell i j) (1 / (1 + zmax)) 1 256 / const_c ^ 2 := by
  obtain ⟨z, hz', hcol, _⟩ := clAt_ok h
  have : z = zmax := by rw [hz] at hz'; exact (Except.ok.inj hz').symm
  subst this
  have key : ∀ i j, i ≤ j → j < (tracers probes).length →
      col.getD (pairPos (tracers probes).length i j) 0
      = simpson (limberIntegrand p T nl probes ell i j) (1 / (1 + z)) 1 256 / const_c ^ 2 := by
    intro i j hij hj
    rw [hcol, List.getD_eq_getElem?_getD, List.getElem?_map]
    have := clIndex_pairPos hij hj
    rw [getClOrdering, nTracers_eq, this]
    rfl
  rcases le_total i j with hij | hij
  · exact key i j hij hj
  · rw [pairPos_comm, key j i hij hi]
    congr 2
    funext a
    simp only [limberIntegrand]
    ring

/-! ## C56 -/

/-- C56: what is computed: one spectrum per pair of tracers, each the composite Simpson value
(512 intervals in the scale factor, up to the maximum redshift of the probes) of the Limber
integrand `P(k, a) K_i K_j (dχ/da) / max(χ², 1)`, `k = (ell + 1/2)/max(χ, 1)`, over `c²`. -/
theorem C56_limber (p : Params) (T : ℝ → ℝ)
    (nl : Params → ℝ → ℝ → (ℝ → ℝ) → Except PyErr ℝ) (probes : List Probe) (ell zmax : ℝ)
    (P : ℝ → ℝ) (K : Probe → ℝ → List ℝ) (hz : probesZmax probes = .ok zmax)
    (hP : ∀ a, nl p ((ell + 1 / 2) / max (chiOf p a) 1) a T = .ok (P a))
    (hK : ∀ pr ∈ probes, ∀ a, pr.kernel p (1 / a - 1) ell = .ok (K pr a))
    (hlen : ∀ pr ∈ probes, ∀ a, (K pr a).length = pr.bins.length) :
    ∃ col, clAt p T nl probes ell = .ok col ∧ col.length = pairCount (tracers probes).length ∧
      ∀ i j : Fin (tracers probes).length, symMat (tracers probes).length col i j
        = simpson (fun a => P a * (((probes.map (K · a)).flatten.getD i 0)
            * ((probes.map (K · a)).flatten.getD j 0)) * dchioverda p a / max (chiOf p a ^ 2) 1)
          (1 / (1 + zmax)) 1 256 / const_c ^ 2 := by
  obtain ⟨col, hcol⟩ := clAt_returns (p := p) (T := T) (nl := nl) (ell := ell) hz fun i _ =>
    clIntegrand_returns ⟨_, hP _⟩ fun pr hpr => ⟨_, hK pr hpr _⟩
  refine ⟨col, hcol, ?_, ?_⟩
  · obtain ⟨_, _, h, _⟩ := clAt_ok hcol
    rw [h, List.length_map, C54_count]
  · intro i j
    rw [symMat, clAt_entry hcol hz i.2 j.2]
    congr 2
    funext a
    have e1 : limberPower p T nl ell a = P a := by unfold limberPower; rw [hP]
    have e2 : limberKernels p probes ell a = (probes.map (K · a)).flatten := by
      unfold limberKernels
      rw [mapM_ok_of (g := (K · a)) fun pr hpr => hK pr hpr a]
    have hl : (probes.map (K · a)).flatten.length = (tracers probes).length := by
      rw [← nTracers_eq, nTracers, List.length_flatten, List.map_map]
      congr 1
      exact List.map_congr_left fun pr hpr => hlen pr hpr a
    have eg : ∀ t < (tracers probes).length, gather ((probes.map (K · a)).flatten) t
        = (probes.map (K · a)).flatten.getD t 0 := by
      intro t ht
      unfold gather
      congr 1
      rw [hl]; unfold ix; omega
    rw [limberIntegrand, e1, e2, eg i i.2, eg j j.2]

theorem dchioverda_nonneg (p : Params) (a : ℝ) : 0 ≤ dchioverda p a := by
  unfold dchioverda
  have : (0 : ℝ) ≤ const_rh := by norm_num [const_rh, const_c, const_H0]
  positivity

/-- Simpson's rule with nodes and weights spelled out. -/
theorem simpson_weights (a b : ℝ) (hab : a ≤ b) (m : ℕ) :
    ∃ w : ℕ → ℝ, (∀ k, 0 ≤ w k) ∧ ∀ f : ℝ → ℝ, simpson f a b m
      = ∑ k ∈ Finset.range (3 * m), w k * f (a + ((2 * (k / 3) + k % 3 : ℕ) : ℝ)
          * ((b - a) / (2 * m))) := by
  refine ⟨fun k => (b - a) / (2 * m) / 3 * (if k % 3 = 1 then 4 else 1), fun k => ?_, fun f => ?_⟩
  · have : 0 ≤ b - a := by linarith
    simp only
    split_ifs <;> positivity
  · have key : ∀ (g : ℕ → ℝ) (m : ℕ), ∑ k ∈ Finset.range (3 * m), g k
        = ∑ j ∈ Finset.range m, (g (3 * j) + g (3 * j + 1) + g (3 * j + 2)) := by
      intro g m
      induction m with
      | zero => simp
      | succ m ih =>
        rw [show 3 * (m + 1) = 3 * m + 1 + 1 + 1 by ring, Finset.sum_range_succ,
          Finset.sum_range_succ, Finset.sum_range_succ, ih, Finset.sum_range_succ]
        ring
    rw [key, simpson, Finset.mul_sum]
    apply Finset.sum_congr rfl
    intro j _
    have e0 : 3 * j / 3 = j := by omega
    have e1 : (3 * j + 1) / 3 = j := by omega
    have e2 : (3 * j + 2) / 3 = j := by omega
    have f0 : 3 * j % 3 = 0 := by omega
    have f1 : (3 * j + 1) % 3 = 1 := by omega
    have f2 : (3 * j + 2) % 3 = 2 := by omega
    simp only [e0, e1, e2, f0, f1, f2, if_true, if_false, show (0 : ℕ) ≠ 1 by decide,
      show (2 : ℕ) ≠ 1 by decide]
    push_cast
    ring_nf

/-- C56: for a non-negative power spectrum the matrix of spectra `C_ij(ell)` is positive
semi-definite, for any probes. -/
theorem C56_psd (p : Params) (T : ℝ → ℝ)
    (nl : Params → ℝ → ℝ → (ℝ → ℝ) → Except PyErr ℝ) (probes : List Probe) (ell zmax : ℝ)
    {col : List ℝ} (hz : probesZmax probes = .ok zmax) (hz0 : 0 ≤ zmax) (hell : 0 ≤ ell)
    (hP : ∀ k a v, 0 < k → 0 < a → a ≤ 1 → nl p k a T = .ok v → 0 ≤ v)
    (h : clAt p T nl probes ell = .ok col) :
    (symMat (tracers probes).length col).PosSemidef := by
  have hab : 1 / (1 + zmax) ≤ 1 := by rw [div_le_one (by linarith)]; linarith
  obtain ⟨w, hw, hs⟩ := simpson_weights (1 / (1 + zmax)) 1 hab 256
  set x : ℕ → ℝ := fun k => 1 / (1 + zmax) + ((2 * (k / 3) + k % 3 : ℕ) : ℝ)
    * ((1 - 1 / (1 + zmax)) / (2 * (256 : ℕ)))
  set F : ℕ → ℝ := fun k => w k * (limberPower p T nl ell (x k) * dchioverda p (x k)
    / max (chiOf p (x k) ^ 2) 1) / const_c ^ 2
  have hx : ∀ k < 3 * 256, 0 < x k ∧ x k ≤ 1 := by
    intro k hk
    have h0 : 0 < 1 / (1 + zmax) := by positivity
    have hn : 2 * (k / 3) + k % 3 ≤ 512 := by omega
    have hn' : ((2 * (k / 3) + k % 3 : ℕ) : ℝ) ≤ 512 := by exact_mod_cast hn
    have hn0 : (0 : ℝ) ≤ ((2 * (k / 3) + k % 3 : ℕ) : ℝ) := Nat.cast_nonneg _
    simp only [x]
    generalize ((2 * (k / 3) + k % 3 : ℕ) : ℝ) = r at *
    generalize 1 / (1 + zmax) = u at *
    push_cast
    constructor
    · have : 0 ≤ r * ((1 - u) / (2 * 256)) := mul_nonneg hn0 (by linarith)
      linarith
    · nlinarith
  have hF : ∀ k < 3 * 256, 0 ≤ F k := by
    intro k hk
    have h1 : 0 ≤ limberPower p T nl ell (x k) := by
      unfold limberPower
      split
      · rename_i v hv
        exact hP _ _ _ (by positivity) (hx k hk).1 (hx k hk).2 hv
      · exact le_rfl
    have h2 := dchioverda_nonneg p (x k)
    have h3 := hw k
    have h4 : 0 < max (chiOf p (x k) ^ 2) 1 := lt_max_of_lt_right one_pos
    positivity
  have hM : symMat (tracers probes).length col
      = ∑ k ∈ Finset.range (3 * 256), F k • vecMulVec
        (fun i : Fin (tracers probes).length => gather (limberKernels p probes ell (x k)) i)
        (fun i : Fin (tracers probes).length => gather (limberKernels p probes ell (x k)) i) := by
    ext i j
    rw [symMat, clAt_entry h hz i.2 j.2, hs, Matrix.sum_apply, Finset.sum_div]
    apply Finset.sum_congr rfl
    intro k _
    simp only [limberIntegrand, Matrix.smul_apply, vecMulVec_apply, smul_eq_mul, F, x]
    ring
  rw [hM]
  refine Matrix.posSemidef_sum _ fun k hk => ?_
  refine PosSemidef.smul ?_ (hF k (Finset.mem_range.1 hk))
  have := posSemidef_vecMulVec_self_star (R := ℝ)
    (fun i : Fin (tracers probes).length => gather (limberKernels p probes ell (x k)) i)
  simpa using this

/-- C56: auto-spectra are non-negative and cross-spectra obey the Cauchy–Schwarz inequality. -/
theorem C56_cauchy_schwarz (p : Params) (T : ℝ → ℝ)
    (nl : Params → ℝ → ℝ → (ℝ → ℝ) → Except PyErr ℝ) (probes : List Probe) (ell zmax : ℝ)
    {col : List ℝ} (hz : probesZmax probes = .ok zmax) (hz0 : 0 ≤ zmax) (hell : 0 ≤ ell)
    (hP : ∀ k a v, 0 < k → 0 < a → a ≤ 1 → nl p k a T = .ok v → 0 ≤ v)
    (h : clAt p T nl probes ell = .ok col) {i j : ℕ} (hi : i < (tracers probes).length)
    (hj : j < (tracers probes).length) :
    let C := fun i j => col.getD (pairPos (tracers probes).length i j) 0
    0 ≤ C i i ∧ C i j ^ 2 ≤ C i i * C j j := by
  have hps := C56_psd p T nl probes ell zmax hz hz0 hell hP h
  set C := symMat (tracers probes).length col with hC
  have hd : ∀ i, 0 ≤ C i i := fun i => hps.diag_nonneg
  have hq : ∀ s t : ℝ, 0 ≤ s ^ 2 * C ⟨i, hi⟩ ⟨i, hi⟩ + 2 * s * t * C ⟨i, hi⟩ ⟨j, hj⟩
      + t ^ 2 * C ⟨j, hj⟩ ⟨j, hj⟩ := by
    intro s t
    have := hps.dotProduct_mulVec_nonneg (Pi.single ⟨i, hi⟩ s + Pi.single ⟨j, hj⟩ t)
    have hsym : C ⟨j, hj⟩ ⟨i, hi⟩ = C ⟨i, hi⟩ ⟨j, hj⟩ := by
      simp only [hC, symMat, pairPos_comm]
    simp only [mulVec_add, dotProduct_add, star_trivial, add_dotProduct, single_dotProduct,
      mulVec_single, col_apply, MulOpposite.smul_eq_mul_unop,
      MulOpposite.unop_op, Pi.smul_apply, hsym] at this
    linarith
  refine ⟨hd ⟨i, hi⟩, ?_⟩
  change C ⟨i, hi⟩ ⟨j, hj⟩ ^ 2 ≤ C ⟨i, hi⟩ ⟨i, hi⟩ * C ⟨j, hj⟩ ⟨j, hj⟩
  have hdis := discrim_le_zero (a := C ⟨i, hi⟩ ⟨i, hi⟩) (b := 2 * C ⟨i, hi⟩ ⟨j, hj⟩)
    (c := C ⟨j, hj⟩ ⟨j, hj⟩) fun x => by have := hq x 1; linarith
  unfold discrim at hdis
  linarith

/-- The kernels of one lensing and one clustering probe exist in the Planck cosmology. -/
noncomputable def demoProbes : List Probe :=
  [.wl (.init [.smail 1 2 1 1 4, .smail 1 2 2 1 4]),
   .nc (.init [.smail 1 2 1 1 4] (.bias (.constant 1.5)))]

theorem demo_zmax : probesZmax demoProbes = .ok 4 := by
  norm_num [probesZmax, demoProbes, Probe.zmax, Probe.bins, WeakLensing.init, NumberCounts.init,
    pyMax, Nz.zmax, List.mapM_cons, bind, Except.bind, pure, Except.pure]

theorem demo_kernels (p : Params) (hg : p.gamma = none) :
    ∀ pr ∈ demoProbes, ∀ z ell, ∃ k, pr.kernel p z ell = .ok k ∧ k.length = pr.bins.length := by
  intro pr hpr z ell
  simp only [demoProbes, List.mem_cons, List.not_mem_nil, or_false] at hpr
  rcases hpr with rfl | rfl
  · have h : ∃ k, (Probe.wl (.init [.smail 1 2 1 1 4, .smail 1 2 2 1 4])).kernel p z ell = .ok k := by
      simp only [Probe.kernel, WeakLensing.init, WeakLensing.kernel, Option.getD_none]
      rw [C48_order p hg _ z ell 4 (by norm_num [pyMax, Nz.zmax])]
      exact ⟨_, rfl⟩
    obtain ⟨k, hk⟩ := h
    refine ⟨k, hk, ?_⟩
    simp only [Probe.kernel, WeakLensing.init, WeakLensing.kernel, Option.getD_none] at hk
    rw [C48_order p hg _ z ell 4 (by norm_num [pyMax, Nz.zmax])] at hk
    simp only [bind, Except.bind, pure, Except.pure, applyM, Bool.false_eq_true, if_false,
      Except.ok.injEq] at hk
    rw [← hk]
    simp [Probe.bins, WeakLensing.init]
  · refine ⟨_, density_rows p hg _ (by simp [NumberCounts.init]) ?_ _ z ell, ?_⟩
    · simp [NumberCounts.init, Nz.isDelta]
    · simp [Probe.bins, NumberCounts.init]

/-- Witness: three tracers from two probes, linear power spectrum, any transfer function. -/
example (T : ℝ → ℝ) : ∃ col, clAt Planck15 T linear demoProbes 10 = .ok col ∧ col.length = 6 ∧
    (symMat 3 col).PosSemidef := by
  have hk := demo_kernels Planck15 rfl
  choose! K hK using hk
  obtain ⟨col, h1, h2, -⟩ := C56_limber Planck15 T linear demoProbes 10 4
    (fun a => linearMatterPower Planck15 T ((10 + 1 / 2) / max (chiOf Planck15 a) 1) a)
    (fun pr a => K pr (1 / a - 1) 10) demo_zmax (fun a => C42_linear _ _ _ _)
    (fun pr hpr a => (hK pr hpr _ _).1) (fun pr hpr a => (hK pr hpr _ _).2)
  have hN : (tracers demoProbes).length = 3 := rfl
  refine ⟨col, h1, by rw [h2, hN]; rfl, ?_⟩
  have := C56_psd Planck15 T linear demoProbes 10 4 demo_zmax (by norm_num) (by norm_num)
    (fun k a v hk _ _ h => by
      rw [← Except.ok.inj (h : Except.ok _ = _)]; exact C40_nonneg _ _ _ _ hk) h1
  rwa [hN] at this

/-! ## C69: one row per tracer -/

/-- A list argument has exactly one entry (scalars and single objects always qualify). -/
def Val.single : Val → Prop
  | .nums xs => xs.length = 1
  | .biases bs => bs.length = 1
  | _ => True

/-- The list arguments of a probe that has only one bin have one entry. -/
def Probe.Consistent : Probe → Prop
  | .wl o => o.bins.length = 1 → o.param1.single ∧ (∀ v, o.param2 = some v → v.single) ∧
      o.sigma_e.single
  | .nc o => o.bins.length = 1 → o.bias.single

theorem bcast_length {f : ℝ → ℝ → ℝ} {xs ys zs : List ℝ} (h : bcast f xs ys = .ok zs)
    (h1 : xs.length = 1 → ys.length = 1) : zs.length = xs.length := by
  unfold bcast at h
  split_ifs at h with e
  · rw [← Except.ok.inj h, List.length_zipWith, ← e, min_self]
  · split at h
    · rename_i x ys'
      exact absurd (h1 rfl).symm e
    · rw [← Except.ok.inj h, List.length_map]
    · cases h

theorem bcast_length' {f : ℝ → ℝ → ℝ} {xs ys zs : List ℝ} (h : bcast f xs ys = .ok zs)
    (h1 : ys.length = 1 → xs.length = 1) : zs.length = ys.length := by
  unfold bcast at h
  split_ifs at h with e
  · rw [← Except.ok.inj h, List.length_zipWith, e, min_self]
  · split at h
    · rw [← Except.ok.inj h, List.length_map]
    · rename_i y _
      exact absurd (h1 rfl) e
    · cases h

theorem biasRows_single {p : Params} {b : Val} {z : ℝ} {r : List ℝ} (h : biasRows p b z = .ok r)
    (hb : b.single) : r.length = 1 := by
  unfold biasRows at h
  split at h
  · rw [← Except.ok.inj h]; rfl
  · cases h
  · rw [← Except.ok.inj h, List.length_map]; exact hb
  · cases h
  · cases h

theorem density_length {p : Params} {pzs : List Nz} {b : Val} {z ell : ℝ} {k : List ℝ}
    (h : densityKernel p pzs b z ell = .ok k) (hb : pzs.length = 1 → b.single) :
    k.length = pzs.length := by
  unfold densityKernel at h
  obtain ⟨q, _, h⟩ := bind_ok h
  split_ifs at h
  obtain ⟨r, hr, h⟩ := bind_ok h
  obtain ⟨s, hs, h⟩ := bind_ok h
  have := bcast_length hs fun h1 => biasRows_single hr (hb (by simpa using h1))
  rw [← Except.ok.inj h, List.length_map, this, List.length_map]

theorem nla_length {p : Params} {pzs : List Nz} {b : Val} {z ell : ℝ} {k : List ℝ}
    (h : nlaKernel p pzs b z ell = .ok k) (hb : pzs.length = 1 → b.single) :
    k.length = pzs.length := by
  unfold nlaKernel at h
  obtain ⟨q, _, h⟩ := bind_ok h
  split_ifs at h
  obtain ⟨r, hr, h⟩ := bind_ok h
  obtain ⟨s, hs, h⟩ := bind_ok h
  have := bcast_length hs fun h1 => biasRows_single hr (hb (by simpa using h1))
  rw [← Except.ok.inj h, List.length_map, this, List.length_map]

/-- C69 (list arguments of one-bin probes have one entry): whenever the kernel of a probe is
computed, it has one row per tracer.  Missing from C69: probes with a single bin that are given a
longer list of biases, for which it is false (`C69_refuted`). -/
theorem C69_kernel_partial (pr : Probe) (hc : pr.Consistent) (p : Params) (z ell : ℝ) {k : List ℝ}
    (h : pr.kernel p z ell = .ok k) : k.length = pr.nTracers := by
  cases pr with
  | nc o => exact density_length (ell := ell) h hc
  | wl o =>
    simp only [Probe.kernel, WeakLensing.kernel] at h
    obtain ⟨k0, h0, h⟩ := bind_ok h
    have hl0 := (wl_length p o.bins z ell h0).1
    have key : ∀ k1 : List ℝ, k1.length = o.bins.length → applyM k1 o.param1 = .ok k →
        k.length = o.bins.length := by
      intro k1 hl1 h
      unfold applyM at h
      split at h
      · rw [← Except.ok.inj h, List.length_map, hl1]
      · cases h
      · rename_i ms _ hm
        rw [bcast_length h (fun e => ?_), hl1]
        have := (hc (hl1 ▸ e)).1
        rw [hm] at this
        exact this
      · cases h
    change k.length = o.bins.length
    split_ifs at h
    · split at h
      · cases h
      · rename_i b hb
        obtain ⟨ia, hia, h⟩ := bind_ok h
        obtain ⟨k1, h1, h⟩ := bind_ok h
        have hlia := nla_length hia fun e => (hc e).2.1 b hb
        exact key k1 (by rw [bcast_length h1 (fun e => by rw [hlia, ← hl0, e]), hl0]) h
    · exact key k0 hl0 h

/-- C69 (same restriction): and one noise level per tracer. -/
theorem C69_noise_partial (pr : Probe) (hc : pr.Consistent) {n : List ℝ} (h : pr.noise = .ok n) :
    n.length = pr.nTracers := by
  cases pr with
  | nc o =>
    rw [← Except.ok.inj (h : Except.ok _ = _)]
    simp [Probe.nTracers, Probe.bins]
  | wl o =>
    change n.length = o.bins.length
    simp only [Probe.noise, WeakLensing.noise] at h
    split at h
    · rw [← Except.ok.inj h]; simp
    · rename_i ss hs
      rw [bcast_length' h (fun e => ?_), List.length_map]
      have := (hc (by simpa using e)).2.2
      rw [hs] at this
      exact this
    · cases h

/-- C69 is false in general: a clustering probe with one bin and two biases has one tracer but two
kernel rows, in every cosmology without `gamma`. -/
theorem C69_refuted (p : Params) (hg : p.gamma = none) (z ell b1 b2 : ℝ) :
    ∃ k, (Probe.nc (.init [.smail 1 2 1 1 4] (.biases [.constant b1, .constant b2]))).kernel p z ell
      = .ok k ∧ k.length = 2 ∧
      (Probe.nc (.init [.smail 1 2 1 1 4] (.biases [.constant b1, .constant b2]))).nTracers = 1 := by
  refine ⟨[(Nz.smail 1 2 1 1 4).eval z * b1 * H p (z2a z),
    (Nz.smail 1 2 1 1 4).eval z * b2 * H p (z2a z)], ?_, rfl, rfl⟩
  simp only [Probe.kernel, NumberCounts.kernel, NumberCounts.init]
  unfold densityKernel
  rw [jitCosmo_none hg]
  simp [bind, Except.bind, pure, Except.pure, Nz.isDelta, biasRows, bcast, Bias.call]

/-! ## Numbering of tracers -/

theorem flatten_tracers {f : Probe → Except PyErr (List ℝ)} {probes : List Probe}
    {rows : List (List ℝ)} (h : probes.mapM f = .ok rows)
    (hl : ∀ pr ∈ probes, ∀ r, f pr = .ok r → r.length = pr.bins.length) :
    rows.flatten.length = (tracers probes).length ∧
    ∀ (i : ℕ) pr t, (tracers probes)[i]? = some (pr, t) →
      ∃ r, f pr = .ok r ∧ t < r.length ∧ rows.flatten[i]? = some (r.getD t 0) := by
  induction probes generalizing rows with
  | nil =>
    obtain rfl : rows = [] := (Except.ok.inj (h : Except.ok [] = _)).symm
    simp [tracers]
  | cons a l ih =>
    obtain ⟨r, rows', h1, h2, rfl⟩ := mapM_cons_ok.1 h
    have hr := hl a (by simp) r h1
    obtain ⟨ih1, ih2⟩ := ih h2 fun pr hpr => hl pr (by simp [hpr])
    have ht : tracers (a :: l) = (List.range a.bins.length).map (fun t => (a, t)) ++ tracers l := by
      simp [tracers]
    refine ⟨by simp [ht, hr, ← ih1], fun i pr t hi => ?_⟩
    rw [ht] at hi
    rw [List.flatten_cons]
    rcases lt_or_ge i a.bins.length with hlt | hge
    · rw [List.getElem?_append_left (by simpa using hlt)] at hi
      simp only [List.getElem?_map, List.getElem?_range hlt, Option.map_some, Option.some.injEq,
        Prod.mk.injEq] at hi
      obtain ⟨rfl, rfl⟩ := hi
      refine ⟨r, h1, by omega, ?_⟩
      rw [List.getElem?_append_left (by omega), List.getD_eq_getElem _ _ (by omega),
        List.getElem?_eq_getElem (by omega)]
    · rw [List.getElem?_append_right (by simpa using hge)] at hi
      simp only [List.length_map, List.length_range] at hi
      obtain ⟨r', a1, a2, a3⟩ := ih2 _ _ _ hi
      exact ⟨r', a1, a2, by rw [List.getElem?_append_right (by omega), hr, a3]⟩

/-! ## C57 -/

theorem gather_some {l : List ℝ} {i : ℕ} {x : ℝ} (h : l[i]? = some x) : gather l i = x := by
  obtain ⟨hi, e⟩ := List.getElem?_eq_some_iff.1 h
  unfold gather
  rw [show ix l.length (i : ℤ) = i by unfold ix; omega, List.getD_eq_getElem _ _ hi, e]

/-- Kernel of tracer number `i`: that of its bin, in its probe alone. -/
theorem limberKernels_tracer {p : Params} {T : ℝ → ℝ}
    {nl : Params → ℝ → ℝ → (ℝ → ℝ) → Except PyErr ℝ} {probes : List Probe} {ell a : ℝ} {v : List ℝ}
    (h : clIntegrand p T nl probes ell a = .ok v) (hc : ∀ pr ∈ probes, pr.Consistent) {i t : ℕ}
    {pr : Probe} (hi : (tracers probes)[i]? = some (pr, t)) :
    ∃ r, pr.kernel p (1 / a - 1) ell = .ok r ∧
      gather (limberKernels p probes ell a) i = r.getD t 0 := by
  obtain ⟨_, hK⟩ := clIntegrand_parts h
  obtain ⟨rows, hrows⟩ := mapM_exists hK
  have e : limberKernels p probes ell a = rows.flatten := by unfold limberKernels; rw [hrows]
  obtain ⟨r, h1, _, h3⟩ := (flatten_tracers hrows fun pr hpr r hr =>
    C69_kernel_partial pr (hc pr hpr) p _ ell hr).2 i pr t hi
  exact ⟨r, h1, by rw [e, gather_some h3]⟩

theorem tracers_lt {probes : List Probe} {i : ℕ} {x : Probe × ℕ}
    (h : (tracers probes)[i]? = some x) : i < (tracers probes).length :=
  (List.getElem?_eq_some_iff.1 h).1

theorem limberNode_eq (zmax : ℝ) (k : ℕ) : limberNode zmax k
    = 1 / (1 + zmax) + k * ((1 - 1 / (1 + zmax)) / 512) := by
  unfold limberNode linspace; norm_num

theorem simpson_congr_node {f g : ℝ → ℝ} {zmax : ℝ}
    (h : ∀ i ≤ 512, f (limberNode zmax i) = g (limberNode zmax i)) :
    simpson f (1 / (1 + zmax)) 1 256 = simpson g (1 / (1 + zmax)) 1 256 := by
  rw [← simpsBody_512, ← simpsBody_512]
  exact simpsBody_congr f g _ _ 512 (by norm_num) h

/-- C57: the spectrum of two tracers is the same in any two lists of probes containing them that
reach the same maximum redshift, wherever they are placed in either list. -/
theorem C57_independent (p : Params) (T : ℝ → ℝ)
    (nl : Params → ℝ → ℝ → (ℝ → ℝ) → Except PyErr ℝ) (A B : List Probe) (ell zmax : ℝ)
    {colA colB : List ℝ} (hzA : probesZmax A = .ok zmax) (hzB : probesZmax B = .ok zmax)
    (hcA : ∀ pr ∈ A, pr.Consistent) (hcB : ∀ pr ∈ B, pr.Consistent)
    (hA : clAt p T nl A ell = .ok colA) (hB : clAt p T nl B ell = .ok colB)
    {i j i' j' : ℕ} {x y : Probe × ℕ} (hi : (tracers A)[i]? = some x)
    (hj : (tracers A)[j]? = some y) (hi' : (tracers B)[i']? = some x)
    (hj' : (tracers B)[j']? = some y) :
    colA.getD (pairPos (tracers A).length i j) 0
      = colB.getD (pairPos (tracers B).length i' j') 0 := by
  rw [clAt_entry hA hzA (tracers_lt hi) (tracers_lt hj),
    clAt_entry hB hzB (tracers_lt hi') (tracers_lt hj')]
  congr 1
  apply simpson_congr_node
  intro k hk
  obtain ⟨z1, hz1, -, nA⟩ := clAt_ok hA
  obtain ⟨z2, hz2, -, nB⟩ := clAt_ok hB
  obtain rfl : z1 = zmax := Except.ok.inj (hz1.symm.trans hzA)
  obtain rfl : z2 = z1 := Except.ok.inj (hz2.symm.trans hzB)
  obtain ⟨vA, hvA⟩ := nA k hk
  obtain ⟨vB, hvB⟩ := nB k hk
  have key : ∀ {i i' : ℕ} {x : Probe × ℕ}, (tracers A)[i]? = some x → (tracers B)[i']? = some x →
      gather (limberKernels p A ell (limberNode z2 k)) i
        = gather (limberKernels p B ell (limberNode z2 k)) i' := by
    intro i i' x h h'
    obtain ⟨r, a1, a2⟩ := limberKernels_tracer hvA hcA (i := i) (pr := x.1) (t := x.2) h
    obtain ⟨r', b1, b2⟩ := limberKernels_tracer hvB hcB (i := i') (pr := x.1) (t := x.2) h'
    rw [a2, b2, Except.ok.inj (a1.symm.trans b1)]
  simp only [limberIntegrand, key hi hi', key hj hj']

/-- C57: and if the spectra can be computed for a list of probes, they can for any sub-list
reaching the same redshift. -/
theorem C57_sublist (p : Params) (T : ℝ → ℝ)
    (nl : Params → ℝ → ℝ → (ℝ → ℝ) → Except PyErr ℝ) (A B : List Probe) (ell zmax : ℝ)
    {colA : List ℝ} (hzA : probesZmax A = .ok zmax) (hzB : probesZmax B = .ok zmax) (hsub : B ⊆ A)
    (hA : clAt p T nl A ell = .ok colA) : ∃ colB, clAt p T nl B ell = .ok colB := by
  obtain ⟨z1, hz1, -, nA⟩ := clAt_ok hA
  obtain rfl : z1 = zmax := Except.ok.inj (hz1.symm.trans hzA)
  refine clAt_returns hzB fun k hk => ?_
  obtain ⟨v, hv⟩ := nA k hk
  obtain ⟨h1, h2⟩ := clIntegrand_parts hv
  exact clIntegrand_returns h1 fun pr hpr => h2 pr (hsub hpr)

theorem pyMax_mem {l : List ℝ} {m : ℝ} (h : pyMax l = .ok m) : m ∈ l := by
  cases l with
  | nil => simp [pyMax] at h
  | cons a l =>
    simp only [pyMax, Except.ok.injEq] at h
    subst h
    have key : ∀ (l : List ℝ) (a : ℝ), l.foldl max a ∈ a :: l := by
      intro l
      induction l with
      | nil => intro a; simp
      | cons b l ih =>
        intro a
        have := ih (max a b)
        simp only [List.foldl_cons, List.mem_cons] at this ⊢
        rcases this with h | h
        · rw [h]; rcases max_choice a b with h | h <;> simp [h]
        · exact Or.inr (Or.inr h)
    exact key l a

theorem pyMax_perm {l l' : List ℝ} (h : l.Perm l') {m : ℝ} (hm : pyMax l = .ok m) :
    pyMax l' = .ok m := by
  rcases h' : pyMax l' with e | m'
  · cases l' with
    | nil => rw [h.eq_nil] at hm; simp [pyMax] at hm
    | cons a l' => simp [pyMax] at h'
  · rw [le_antisymm (pyMax_ok hm m' (h.mem_iff.2 (pyMax_mem h')))
      (pyMax_ok h' m (h.mem_iff.1 (pyMax_mem hm)))]

theorem mapM_perm {α β : Type*} {f : α → Except PyErr β} {l l' : List α} {ys : List β}
    (h : l.Perm l') (hy : l.mapM f = .ok ys) : ∃ ys', l'.mapM f = .ok ys' ∧ ys.Perm ys' := by
  obtain ⟨ys', hys'⟩ := mapM_exists (f := f) (l := l') fun x hx => by
    obtain ⟨y, _, hy⟩ := mapM_mem hy (h.mem_iff.2 hx)
    exact ⟨y, hy⟩
  refine ⟨ys', hys', ?_⟩
  have e : ∀ {l : List α} {ys : List β}, l.mapM f = .ok ys → l.map f = ys.map .ok := by
    intro l ys h
    rw [← List.forall₂_eq_eq_eq, List.forall₂_map_left_iff, List.forall₂_map_right_iff]
    exact mapM_ok_iff.1 h
  have h1 := h.map f
  rw [e hy, e hys'] at h1
  have h2 := h1.map (fun x : Except PyErr β => match x with | .ok y => some y | .error _ => none)
  simp only [List.map_map, Function.comp_def] at h2
  exact (List.map_perm_map_iff (Option.some_injective β)).1 h2

theorem probesZmax_perm {A B : List Probe} (h : A.Perm B) {zmax : ℝ}
    (hz : probesZmax A = .ok zmax) : probesZmax B = .ok zmax := by
  unfold probesZmax at hz ⊢
  obtain ⟨zs, h1, h2⟩ := bind_ok hz
  obtain ⟨zs', h3, h4⟩ := mapM_perm h h1
  rw [h3]
  exact pyMax_perm h4 h2

/-- C57: permuting the probes permutes the spectra: the matrix of spectra of the permuted list is
the old one with its rows and columns renumbered so that every tracer keeps its spectra. -/
theorem C57_perm (p : Params) (T : ℝ → ℝ)
    (nl : Params → ℝ → ℝ → (ℝ → ℝ) → Except PyErr ℝ) (A B : List Probe) (hAB : A.Perm B)
    (ell : ℝ) {colA : List ℝ} (hc : ∀ pr ∈ A, pr.Consistent)
    (hA : clAt p T nl A ell = .ok colA) :
    ∃ colB, clAt p T nl B ell = .ok colB ∧
      ∃ σ : Fin (tracers A).length ≃ Fin (tracers B).length,
        (∀ i, (tracers A)[i] = (tracers B)[σ i]) ∧
        symMat (tracers A).length colA = (symMat (tracers B).length colB).submatrix σ σ := by
  classical
  obtain ⟨zmax, hz, -, -⟩ := clAt_ok hA
  have hzB := probesZmax_perm hAB hz
  obtain ⟨colB, hB⟩ := C57_sublist p T nl A B ell zmax hz hzB hAB.symm.subset hA
  have ht : (tracers A).Perm (tracers B) := hAB.flatMap_right _
  let σ : Fin (tracers A).length ≃ Fin (tracers B).length :=
    ⟨ht.idxBij, ht.symm.idxBij, ht.idxBij_rightInverse_idxBij_symm,
      ht.idxBij_leftInverse_idxBij_symm⟩
  have hσ : ∀ i, (tracers A)[i] = (tracers B)[σ i] := fun i => (ht.getElem_idxBij_eq_getElem i).symm
  refine ⟨colB, hB, σ, hσ, ?_⟩
  ext i j
  have g : ∀ i : Fin (tracers A).length, (tracers B)[(σ i : ℕ)]? = some (tracers A)[i] := by
    intro i; rw [hσ i]; exact List.getElem?_eq_getElem (σ i).2
  exact C57_independent p T nl A B ell zmax hz hzB hc (fun pr h => hc pr (hAB.mem_iff.2 h)) hA hB
    (List.getElem?_eq_getElem i.2) (List.getElem?_eq_getElem j.2) (g i) (g j)

/-- Witness: the lensing and the clustering probe the other way round. -/
example (T : ℝ → ℝ) : ∃ colA colB, clAt Planck15 T linear demoProbes 10 = .ok colA ∧
    clAt Planck15 T linear demoProbes.reverse 10 = .ok colB ∧
    symMat 3 colA 0 2 = symMat 3 colB 1 0 := by
  have hk := demo_kernels Planck15 rfl
  choose! K hK using hk
  obtain ⟨colA, h1, h2, -⟩ := C56_limber Planck15 T linear demoProbes 10 4
    (fun a => linearMatterPower Planck15 T ((10 + 1 / 2) / max (chiOf Planck15 a) 1) a)
    (fun pr a => K pr (1 / a - 1) 10) demo_zmax (fun a => C42_linear _ _ _ _)
    (fun pr hpr a => (hK pr hpr _ _).1) (fun pr hpr a => (hK pr hpr _ _).2)
  have hperm : demoProbes.Perm demoProbes.reverse := (List.reverse_perm _).symm
  have hc : ∀ pr ∈ demoProbes, pr.Consistent := by
    intro pr hpr
    simp only [demoProbes, List.mem_cons, List.not_mem_nil, or_false] at hpr
    rcases hpr with rfl | rfl
    · intro h; simp [WeakLensing.init] at h
    · intro _; trivial
  obtain ⟨colB, hB, -⟩ := C57_perm Planck15 T linear _ _ hperm 10 hc h1
  exact ⟨colA, colB, h1, hB, C57_independent Planck15 T linear demoProbes demoProbes.reverse 10 4
    demo_zmax (probesZmax_perm hperm demo_zmax) hc (fun pr h => hc pr (hperm.mem_iff.2 h)) h1 hB
    (i := 0) (j := 2) (i' := 1) (j' := 0) rfl rfl rfl rfl⟩

/-! ## C58 -/

theorem delta_eq (i j : ℕ) : (1 : ℝ) - clip |(i : ℝ) - (j : ℝ)| 0 1 = if i = j then 1 else 0 := by
  unfold clip
  split_ifs with h
  · simp [h]
  · have : (1 : ℝ) ≤ |(i : ℝ) - (j : ℝ)| := by
      have h' : (1 : ℤ) ≤ |(i : ℤ) - (j : ℤ)| := Int.one_le_abs (by omega)
      exact_mod_cast h'
    rw [max_eq_left (by linarith), min_eq_right this, sub_self]

/-- C58: `noise_cl` has one row per spectrum, in the order of `angular_cl`, one entry per
multipole; the entry of tracers `i ≤ j` is the noise of the tracer if `i = j` and zero otherwise,
the same at all multipoles. -/
theorem C58_auto_only (ells : List ℝ) (probes : List Probe) (hc : ∀ pr ∈ probes, pr.Consistent)
    {n : List (List ℝ)} (h : noiseCl ells probes = .ok n) :
    n.length = pairCount (tracers probes).length ∧ (∀ row ∈ n, row.length = ells.length) ∧
    ∀ i j l, i ≤ j → l < ells.length → ∀ pr t, (tracers probes)[i]? = some (pr, t) →
      j < (tracers probes).length → ∃ r, pr.noise = .ok r ∧ t < r.length ∧
        rowAt n (pairPos (tracers probes).length i j) l = if i = j then r.getD t 0 else 0 := by
  unfold noiseCl at h
  obtain ⟨ns, hns, h⟩ := bind_ok h
  simp only [pure, Except.pure, Except.ok.injEq] at h
  obtain ⟨_, hf⟩ := flatten_tracers hns fun pr hpr r hr => C69_noise_partial pr (hc pr hpr) hr
  refine ⟨by rw [← h, List.length_map, C54_count], ?_, ?_⟩
  · intro row hrow
    rw [← h, List.mem_map] at hrow
    obtain ⟨ij, _, rfl⟩ := hrow
    simp
  · intro i j l hij hl pr t hi hj
    obtain ⟨r, h1, h2, h3⟩ := hf i pr t hi
    refine ⟨r, h1, h2, ?_⟩
    have hpos := clIndex_pairPos hij hj
    have hrow : n.getD (pairPos (tracers probes).length i j) []
        = ells.map fun _ => gather ns.flatten i * (1 - clip |(i : ℝ) - (j : ℝ)| 0 1) * 1 := by
      rw [← h, List.getD_eq_getElem?_getD, List.getElem?_map, getClOrdering, nTracers_eq, hpos]
      rfl
    rw [rowAt, hrow, List.getD_eq_getElem _ _ (by simpa using hl), List.getElem_map, delta_eq, gather_some h3]
    split_ifs <;> simp

/-- C58: the noise of a lensing bin is `sigma_e² / n̄`, `n̄` the galaxies per steradian. -/
theorem C58_lensing (bins : List Nz) (ia m : Val) (s : ℝ) :
    (Probe.wl (.init bins ia m (.num s))).noise
      = .ok (bins.map fun b => s ^ 2 / (b.gals * 11818102.86004228)) := by
  cases ia <;> simp [Probe.noise, WeakLensing.noise, WeakLensing.init, Nz.galsPerSteradian,
    steradian_to_arcmin2, Function.comp_def]

/-- C58: with one shape noise per bin, bin by bin. -/
theorem C58_lensing_list (bins : List Nz) (ia m : Val) (ss : List ℝ)
    (h : ss.length = bins.length) : (Probe.wl (.init bins ia m (.nums ss))).noise
      = .ok (List.zipWith (fun s b => s ^ 2 / (b.gals * 11818102.86004228)) ss bins) := by
  have key : bcast (fun s n => s ^ 2 / n) ss (bins.map Nz.galsPerSteradian)
      = .ok (List.zipWith (fun s b => s ^ 2 / (b.gals * 11818102.86004228)) ss bins) := by
    rw [bcast_same _ _ _ (by simpa using h), List.zipWith_map_right]
    rfl
  cases ia <;> exact key

/-- C58: the noise of a clustering bin is `1 / n̄`. -/
theorem C58_clustering (bins : List Nz) (b : Val) :
    (Probe.nc (.init bins b)).noise
      = .ok (bins.map fun b => 1 / (b.gals * 11818102.86004228)) := by
  simp [Probe.noise, NumberCounts.noise, NumberCounts.init, Nz.galsPerSteradian,
    steradian_to_arcmin2, Function.comp_def]

/-- Galaxies in every bin and shape noise that is not zero. -/
def Probe.Noisy (pr : Probe) : Prop :=
  (∀ b ∈ pr.bins, 0 < b.gals) ∧
    match pr with
    | .wl o => match o.sigma_e with
      | .num s => s ≠ 0
      | .nums ss => ∀ s ∈ ss, s ≠ 0
      | _ => True
    | .nc _ => True

/-- C58: noise levels are strictly positive. -/
theorem C58_pos (pr : Probe) (h : pr.Noisy) {n : List ℝ} (hn : pr.noise = .ok n) :
    ∀ x ∈ n, 0 < x := by
  obtain ⟨hg, hs⟩ := h
  have hgal : ∀ b ∈ pr.bins, 0 < b.galsPerSteradian := fun b hb =>
    mul_pos (hg b hb) (by norm_num [steradian_to_arcmin2])
  cases pr with
  | nc o =>
    rw [← Except.ok.inj (hn : Except.ok _ = _)]
    intro x hx
    simp only [List.map_map, List.mem_map, Function.comp_apply] at hx
    obtain ⟨b, hb, rfl⟩ := hx
    exact one_div_pos.2 (hgal b hb)
  | wl o =>
    simp only [Probe.noise, WeakLensing.noise] at hn
    simp only at hs
    intro x hx
    split at hn
    · rename_i s e
      rw [e] at hs
      rw [← Except.ok.inj hn] at hx
      simp only [List.map_map, List.mem_map, Function.comp_apply] at hx
      obtain ⟨b, hb, rfl⟩ := hx
      have h1 := hgal b hb
      have h2 : s ≠ 0 := hs
      positivity
    · rename_i ss e
      rw [e] at hs
      have hs' : ∀ s ∈ ss, s ≠ 0 := hs
      have hq : ∀ s ∈ ss, ∀ g ∈ o.bins.map Nz.galsPerSteradian, 0 < s ^ 2 / g := by
        intro s h1 g h2
        obtain ⟨b, hb, rfl⟩ := List.mem_map.1 h2
        have := hgal b hb
        have := hs' s h1
        positivity
      unfold bcast at hn
      split_ifs at hn
      · rw [← Except.ok.inj hn] at hx
        rw [List.mem_iff_getElem] at hx
        obtain ⟨k, hk, rfl⟩ := hx
        rw [List.getElem_zipWith]
        exact hq _ (List.getElem_mem _) _ (List.getElem_mem _)
      · split at hn
        · rw [← Except.ok.inj hn] at hx
          obtain ⟨g, h1, rfl⟩ := List.mem_map.1 hx
          exact hq _ (by simp) _ h1
        · rename_i y e' _
          rw [← Except.ok.inj hn] at hx
          obtain ⟨s, h1, rfl⟩ := List.mem_map.1 hx
          exact hq _ h1 _ (by rw [e']; simp)
        · cases hn
    · cases hn

/-- Witness: noise of the two lensing bins and the clustering bin, at three multipoles. -/
example : ∃ n, noiseCl [10, 20, 30] demoProbes = .ok n ∧ n.length = 6 ∧
    rowAt n 1 2 = 0 ∧ rowAt n 5 1 = 1 / 11818102.86004228 := by
  have hc : ∀ pr ∈ demoProbes, pr.Consistent := by
    intro pr hpr
    simp only [demoProbes, List.mem_cons, List.not_mem_nil, or_false] at hpr
    rcases hpr with rfl | rfl
    · intro h; simp [WeakLensing.init] at h
    · intro _; trivial
  have hn : ∃ n, noiseCl [10, 20, 30] demoProbes = .ok n := by
    unfold noiseCl demoProbes
    simp only [List.mapM_cons, C58_lensing, C58_clustering]
    exact ⟨_, rfl⟩
  obtain ⟨n, hn⟩ := hn
  obtain ⟨h1, -, h3⟩ := C58_auto_only _ _ hc hn
  refine ⟨n, hn, h1, ?_, ?_⟩
  · obtain ⟨r, -, -, h⟩ := h3 0 1 2 (by norm_num) (by simp) _ _ rfl (by simp [tracers, demoProbes,
      Probe.bins, WeakLensing.init, NumberCounts.init])
    exact h
  · obtain ⟨r, a, -, h⟩ := h3 2 2 1 le_rfl (by simp) _ _ rfl (by simp [tracers, demoProbes,
      Probe.bins, WeakLensing.init, NumberCounts.init])
    have : r = [1 / (1 * 11818102.86004228)] := by
      rw [C58_clustering] at a
      rw [← Except.ok.inj a]; simp [Nz.gals]
    rw [if_pos rfl, this] at h
    refine Eq.trans h ?_
    norm_num

end JaxCosmo
