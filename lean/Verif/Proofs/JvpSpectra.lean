import Verif.Proofs.JvpKernels
import Verif.Proofs.JvpHalofit
import Verif.Proofs.Lists

/-! # Helper lemmas: derivatives of angular spectra -/

namespace JaxCosmo.Spec
open Xr

variable {s : ℝ}

/-! ## Tables -/

/-- A loop that may raise. -/
theorem JvpE.mapM {α : Type} (T : List α) {F : α → ℝ → Except PyErr (List ℝ)}
    {d : α → Except PyErr (List Du)} (h : ∀ t ∈ T, JvpE (JvpList s) (F t) (d t)) :
    JvpE (JvpTable s) (fun r => T.mapM fun t => F t r) (T.mapM d) := by
  induction T with
  | nil => exact JvpE.ok (R := JvpTable s) (G := fun _ => []) (g := []) ⟨[], by simp, fun _ => rfl, rfl⟩
  | cons t T ih =>
    simp only [List.mapM_cons]
    refine JvpE.bind (h t List.mem_cons_self) fun K k hK => ?_
    refine JvpE.bind (ih fun t ht => h t (List.mem_cons_of_mem _ ht)) fun M m hM => ?_
    obtain ⟨L, hL, e1, rfl⟩ := hK
    obtain ⟨N, hN, e2, rfl⟩ := hM
    refine JvpE.ok (G := fun r => K r :: M r) ⟨L :: N, fun q hq => ?_, fun r => ?_, rfl⟩
    · rcases List.mem_cons.1 hq with rfl | hq
      · exact hL
      · exact hN q hq
    · beta_reduce; rw [e1, e2, List.map_cons]

namespace JvpTable
variable {G : ℝ → List (List ℝ)} {g : List (List Du)}

theorem flatten (h : JvpTable s G g) : JvpList s (fun r => (G r).flatten) g.flatten := by
  obtain ⟨L, hL, e1, rfl⟩ := h
  refine ⟨L.flatten, fun l hl => ?_, fun r => ?_, ?_⟩
  · obtain ⟨q, hq, hl⟩ := List.mem_flatten.1 hl
    exact hL q hq l hl
  · beta_reduce; rw [e1, List.map_flatten]
  · rw [List.map_flatten]

theorem row (h : JvpTable s G g) (i : ℕ) : JvpList s (fun r => (G r).getD i []) (g.getD i []) := by
  obtain ⟨L, hL, e1, rfl⟩ := h
  simp only [e1]
  rcases lt_or_ge i L.length with hi | hi
  · refine ⟨L[i], hL _ (List.getElem_mem hi), fun r => ?_, ?_⟩
    · beta_reduce; rw [List.getD_eq_getElem _ _ (by simpa using hi), List.getElem_map]
    · rw [List.getD_eq_getElem _ _ (by simpa using hi), List.getElem_map]
  · refine ⟨[], by simp, fun r => ?_, ?_⟩
    · beta_reduce; rw [List.getD_eq_default _ _ (by simpa using hi)]; rfl
    · rw [List.getD_eq_default _ _ (by simpa using hi)]; rfl

theorem head_length (h : JvpTable s G g) (r : ℝ) :
    ((G r).headD []).length = (g.headD []).length := by
  obtain ⟨L, -, e1, rfl⟩ := h
  rw [e1]
  cases L <;> simp

theorem of_list {α : Type} (T : List α) {F : α → ℝ → List ℝ} {d : α → List Du}
    (h : ∀ t ∈ T, JvpList s (F t) (d t)) : JvpTable s (fun r => T.map fun t => F t r) (T.map d) := by
  induction T with
  | nil => exact ⟨[], by simp, fun _ => rfl, rfl⟩
  | cons t T ih =>
    obtain ⟨L, hL, e1, e2⟩ := h t List.mem_cons_self
    obtain ⟨N, hN, e3, e4⟩ := ih fun t ht => h t (List.mem_cons_of_mem _ ht)
    refine ⟨L :: N, fun q hq => ?_, fun r => ?_, ?_⟩
    · rcases List.mem_cons.1 hq with rfl | hq
      · exact hL
      · exact hN q hq
    · have := e3 r
      simp only [List.map_cons, e1] at this ⊢
      rw [this]
    · rw [List.map_cons, List.map_cons, e2, e4]

/-- One column of a table. -/
theorem column (h : JvpTable s G g) (c : ℕ) :
    JvpList s (fun r => (G r).map fun col => col.getD c 0) (g.map fun col => col.getD c 0) := by
  obtain ⟨L, hL, e1, rfl⟩ := h
  have := JvpList.of_list (s := s) L (F := fun q r => (q.map fun l => l.1 r).getD c 0)
    (d := fun q => (q.map Prod.snd).getD c 0)
    fun q hq => JvpList.getD ⟨q, hL q hq, fun _ => rfl, rfl⟩ c
  rw [List.map_map]
  simp only [e1, List.map_map]
  exact this

end JvpTable

theorem JvpList.gather {G : ℝ → List ℝ} {g : List Du} (h : JvpList s G g) (i : ℕ) :
    Jvp (fun r => JaxCosmo.gather (G r) i) s (Dm.gather g i) := by
  unfold JaxCosmo.gather Dm.gather
  simp only [h.length]
  exact h.getD _

/-- Simpson's rule for an array-valued integrand that may raise. -/
theorem jvp_simpsE {f : ℝ → ℝ → Except PyErr (List ℝ)} {fD : Du → Except PyErr (List Du)} {a b : ℝ} {N : ℕ}
    (hN : 0 < N) (h : ∀ i ≤ N, JvpE (JvpList s) (fun r => f r (linspace a b (N + 1) i))
      (fD (Du.con (linspace a b (N + 1) i)))) :
    JvpE (JvpList s) (fun r => simpsE (f r) a b N) (Dm.simpsE fD (Du.con a) (Du.con b) N) := by
  unfold simpsE Dm.simpsE
  by_cases h2 : N % 2 = 1
  · simp only [if_pos h2]
    exact JvpE.err _
  simp only [if_neg h2]
  have hm := JvpE.mapM (s := s) (List.range (N + 1)) (F := fun i r => f r (linspace a b (N + 1) i))
    (d := fun i => fD (Dm.linspace (Du.con a) (Du.con b) (N + 1) i)) fun i hi => by
      rw [con_linspace _ _ (by omega)]
      exact h i (by have := List.mem_range.1 hi; omega)
  refine JvpE.bind hm fun Y y hY => ?_
  simp only [hY.head_length]
  refine JvpE.ok (JvpList.of_list _ fun c _ => ?_)
  have hy : ∀ i, Jvp (fun r => ((Y r).getD i []).getD c 0) s ((y.getD i []).getD c 0) :=
    fun i => (hY.row i).getD c
  have hs := Jvp.sum (s := s) (n := N / 2)
    (f := fun i r => ((Y r).getD (2 * i) []).getD c 0 + 4 * ((Y r).getD (2 * i + 1) []).getD c 0
      + ((Y r).getD (2 * i + 2) []).getD c 0)
    (d := fun i => (y.getD (2 * i) []).getD c 0 + 4 * (y.getD (2 * i + 1) []).getD c 0
      + (y.getD (2 * i + 2) []).getD c 0)
    fun i _ => ((hy (2 * i)).add ((Jvp.nat 4 s).mul (hy (2 * i + 1)))).add (hy (2 * i + 2))
  have hN0 : (N : ℝ) ≠ 0 := by exact_mod_cast hN.ne'
  exact ((((Jvp.con b s).sub (Jvp.con a s)).div (Jvp.con (N : ℝ) s) hN0).div (Jvp.nat 3 s)
    (by norm_num)).mul hs

/-! ## The power spectrum handed to `angular_cl` -/

variable {P : ℝ → Params} {D : DParams} {T : ℝ → ℝ → ℝ} {TD : Du → Du}

theorem spectrumJvp_linear (h : Seeded P s D) (hT : TransferJvp s T TD) {a : ℝ}
    (hp : PowerPoint (P s) (T s) a) : SpectrumJvp s P D T TD linear Dm.linear a :=
  fun _ _ hK h0 => JvpE.ok (jvp_linear h hT hp (.con a s) hK h0)

theorem spectrumJvp_takahashi (h : Seeded P s D) (hT : TransferJvp s T TD) {a : ℝ}
    (hp : HalofitPoint (P s) (T s) a)
    (hα : 6.0835 + 1.3373 * Halofit.n_eff (P s) (T s) a - 0.1959 * Halofit.n_eff (P s) (T s) a ^ 2
      - 5.5274 * Halofit.curv (P s) (T s) a ≠ 0) :
    SpectrumJvp s P D T TD (fun p k a T => halofit p k a T) (fun p k a T => Dm.halofit p k a T) a := by
  intro K k hK h0
  refine .inr ⟨_, _, fun s => rfl, rfl, ?_⟩
  have ha0 : 0 < a := lt_of_lt_of_le (by norm_num) hp.early
  have ha : Jvp (fun _ => a) s (Du.con a) := .con a s
  have hE := (C05_Esqr_pos _ a ha0 hp.phys.m_pos hp.phys.k_nonneg hp.phys.de_nonneg).ne'
  have hm := omega_m_a_pos hp.phys ha0
  have hma := jvp_Omega_m_a h ha ha0 hE
  have hpk := linear_nonneg (P s) (T s) h0 a
  refine jvp_assemble (c := fun s => Halofit.takahashi2012 _ _ _ _)
    (jvp_takahashi (jvp_n_eff h hT hp ha).1 (jvp_n_eff h hT hp ha).2
      (jvp_Omega_de_a h ha ha0 hE) (jvp_w h ha) hα) hK
    (jvp_linear h hT hp.toPowerPoint ha hK h0) (jvp_k_nl h hT hp ha)
    (hma.rpow (Jvp.sci _ _ _ s).neg hm) (hma.rpow (Jvp.sci _ _ _ s).neg hm)
    (hma.rpow (Jvp.sci _ _ _ s) hm) h0 hpk (knl_pos _ _ _)
    (Real.rpow_pos_of_pos (by norm_num) _) (Real.rpow_pos_of_pos (by norm_num) _)
    (Real.rpow_pos_of_pos hm _) le_rfl (Real.rpow_pos_of_pos (by norm_num) _) ?_
  have h2 : 0 ≤ (Halofit.takahashi2012 (Halofit.n_eff (P s) (T s) a) (Halofit.curv (P s) (T s) a)
    (Omega_de_a (P s) a) (w (P s) a)).alpha_n := abs_nonneg _
  have := Real.pi_pos
  positivity

/-! ## Spectra -/

theorem ntracers_at (probes : List (ProbeTree Leaf)) (r : ℝ) :
    getClOrdering (probes.map fun t => probeAt t r) = clIndex (probes.map fun t => t.bins.length).sum := by
  unfold getClOrdering nTracers
  rw [List.map_map]
  congr 3
  funext t
  cases t <;> simp [probeAt, ProbeTree.map, ProbeTree.real, Probe.nTracers, Probe.bins, ProbeTree.bins]
theorem ntracers_dual (probes : List (ProbeTree Leaf)) :
    Dm.getClOrdering (probes.map probeDual) = clIndex (probes.map fun t => t.bins.length).sum := by
  unfold Dm.getClOrdering
  rw [List.map_map]
  congr 3
  funext t
  cases t <;> simp [probeDual, ProbeTree.map, ProbeTree.bins]

theorem mapM_map' {α β γ : Type} (l : List α) (f : α → β) (g : β → Except PyErr γ) :
    (l.map f).mapM g = l.mapM fun x => g (f x) := by
  induction l with
  | nil => rfl
  | cons x l ih => simp only [List.map_cons, List.mapM_cons, ih]

theorem zmax_at (t : ProbeTree Leaf) (r : ℝ) : (probeAt t r).zmax = t.zmax := by
  cases t with
  | wl bins p1 p2 se ia =>
    change pyMax (((bins.map (NzTree.map fun l => l.1 r)).map NzTree.real).map Nz.zmax) = _
    rw [binsAt, zmaxes_at]; rfl
  | nc bins b rsd =>
    change pyMax (((bins.map (NzTree.map fun l => l.1 r)).map NzTree.real).map Nz.zmax) = _
    rw [binsAt, zmaxes_at]; rfl
theorem zmax_dual (t : ProbeTree Leaf) : (probeDual t).zmax = t.zmax := by
  cases t with
  | wl bins p1 p2 se ia => exact congrArg pyMax (zmaxes_dual bins)
  | nc bins b rsd => exact congrArg pyMax (zmaxes_dual bins)

theorem probesZmax_at (probes : List (ProbeTree Leaf)) (r : ℝ) :
    probesZmax (probes.map fun t => probeAt t r) = treeZmax probes := by
  unfold probesZmax treeZmax
  rw [mapM_map']
  simp only [zmax_at]
theorem probesZmax_dual (probes : List (ProbeTree Leaf)) :
    Dm.probesZmax (probes.map probeDual) = treeZmax probes := by
  unfold Dm.probesZmax treeZmax
  rw [mapM_map']
  simp only [zmax_dual]

theorem linspace_lo {a b : ℝ} (hab : a ≤ b) {N : ℕ} (hN : 0 < N) (i : ℕ) :
    a ≤ linspace a b (N + 1) i := by
  rw [linspace_succ]
  have := sub_nonneg.2 hab
  have : 0 ≤ (i : ℝ) * ((b - a) / N) := by positivity
  linarith

variable {nl : Params → ℝ → ℝ → (ℝ → ℝ) → Except PyErr ℝ}
  {nlD : DParams → Du → Du → (Du → Du) → Except PyErr Du}

theorem jvp_clIntegrand (h : Seeded P s D) (hp : Physical (P s)) {a : ℝ} (ha0 : 1 / 900 ≤ a) (ha1 : a ≤ 1)
    (hc : chiOf (P s) a ≠ 1) (hpk : SpectrumJvp s P D T TD nl nlD a) {probes : List (ProbeTree Leaf)}
    (ht : ∀ t ∈ probes, ProbePoint s (P s) (a2z a) t) {ell : ℝ} (hl : 1 ≤ ell ∨ ell = 0) :
    JvpE (JvpList s) (fun r => clIntegrand (P r) (T r) nl (probes.map fun t => probeAt t r) ell a)
      (Dm.clIntegrand D TD nlD (probes.map probeDual) (Du.con ell) (Du.con a)) := by
  have h0 : 0 < a := lt_of_lt_of_le (by norm_num) ha0
  have hz : 0 ≤ a2z a := by
    unfold a2z
    rw [sub_nonneg, le_div_iff₀ h0]; linarith
  have hz9 : a2z a ≤ 899 := by
    unfold a2z
    rw [sub_le_iff_le_add, div_le_iff₀ h0]; linarith
  have hchi := jvp_chiOf h hp.esqrPos (Jvp.con a s)
  have hchi0 : 0 ≤ chiOf (P s) a := le_max_right _ _
  have hk : Jvp (fun r => (ell + 0.5) / clipLo (chiOf (P r) a) 1) s
      ((Du.con ell + 0.5) / (Dm.chiOf D (Du.con a)).max 1) :=
    ((Jvp.con ell s).add (Jvp.sci _ _ _ s)).div (jvp_clip1 hchi hc) (clipLo_one_ne _)
  have hk0 : 0 < (ell + 0.5) / clipLo (chiOf (P s) a) 1 := by
    refine div_pos ?_ (lt_of_lt_of_le one_pos (le_max_right _ _))
    rcases hl with hl | rfl
    · linarith
    · norm_num
  unfold clIntegrand Dm.clIntegrand
  simp only [ntracers_at, ntracers_dual, con_a2z h0, mapM_map']
  refine JvpE.bind (hpk _ _ hk hk0) fun F f hF => ?_
  refine JvpE.bind (JvpE.mapM probes fun t htp => jvp_kernel h hp hz hz9 hl (ht t htp)) fun M m hM => ?_
  refine JvpE.ok ?_
  have hd := jvp_dchioverda h (Jvp.con a s) h0 (hp.esqrPos _ h0 ha1)
  have hc2 : chiOf (P s) a ^ 2 ≠ 1 := fun e => hc (by nlinarith)
  exact JvpList.map (f := fun r kk => F r * kk * dchioverda (P r) a / clipLo (chiOf (P r) a ^ 2) 1)
    (fD := fun kk => f * kk * Dm.dchioverda D (Du.con a) / ((Dm.chiOf D (Du.con a)) ^ 2).max 1)
    (JvpList.of_list _ fun ij _ => (hM.flatten.gather ij.1).mul (hM.flatten.gather ij.2))
    fun X x hX => ((hF.mul hX).mul hd).div (jvp_clip1 (hchi.npow 2) hc2) (clipLo_one_ne _)

theorem jvp_clAt (h : Seeded P s D) {probes : List (ProbeTree Leaf)}
    (hs : SurveyPoint s P D T TD nl nlD probes) {ell : ℝ} (hl : 1 ≤ ell ∨ ell = 0) :
    JvpE (JvpList s) (fun r => clAt (P r) (T r) nl (probes.map fun t => probeAt t r) ell)
      (Dm.clAt D TD nlD (probes.map probeDual) (Du.con ell)) := by
  unfold clAt Dm.clAt
  simp only [probesZmax_at, probesZmax_dual]
  cases hm : treeZmax probes with
  | error e => exact JvpE.err e
  | ok zm =>
    obtain ⟨hz0, hz9, hn⟩ := hs.nodes zm hm
    have hb : ∀ {α β : Type} (x : α) (f : α → Except PyErr β), (Except.ok x >>= f) = f x := fun _ _ => rfl
    simp only [hb]
    rw [con_z2a hz0]
    have h9 : 1 / 900 ≤ z2a zm := by
      unfold z2a
      exact one_div_le_one_div_of_le (by linarith) (by linarith)
    refine JvpE.bind (jvp_simpsE (s := s) (by norm_num) fun i hi => ?_) fun F f hF => ?_
    · obtain ⟨h1, h2, h3⟩ := hn i hi
      exact jvp_clIntegrand h hs.phys (h9.trans (linspace_lo (z2a_mem hz0).2 (by norm_num) i))
        (linspace_le (z2a_mem hz0).2 le_rfl (by norm_num) (show i < 512 + 1 by omega)) h1 h2 h3 hl
    · refine JvpE.ok (JvpList.map (f := fun _ x => x / const_c ^ 2)
        (fD := fun x => x / Du.con const_c ^ 2) hF fun X x hX => ?_)
      exact hX.div ((Jvp.con const_c s).npow 2) (by norm_num [const_c])

theorem jvp_angularCl (h : Seeded P s D) {probes : List (ProbeTree Leaf)}
    (hs : SurveyPoint s P D T TD nl nlD probes) {ells : List ℝ} (hl : ∀ ell ∈ ells, 1 ≤ ell ∨ ell = 0) :
    JvpE (JvpTable s) (fun r => angularCl (P r) ells (probes.map fun t => probeAt t r) (T r) nl)
      (Dm.angularCl D (ells.map Du.con) (probes.map probeDual) TD nlD) := by
  unfold angularCl Dm.angularCl
  simp only [ntracers_at, ntracers_dual, mapM_map']
  refine JvpE.bind (JvpE.mapM ells fun ell he => jvp_clAt h hs (hl ell he)) fun C c hC => ?_
  exact JvpE.ok (JvpTable.of_list _ fun k _ => hC.column k)

/-! ## Noise -/

theorem jvp_gals (t : NzTree Leaf) (h : t.gals.OK s) :
    Jvp (fun r => (nzAt t r).galsPerSteradian) s (Dm.galsPerSteradian (nzDual t)) := by
  cases t <;> exact Jvp.mul h (Jvp.con _ s)

theorem gals_at (t : NzTree Leaf) (r : ℝ) : (nzAt t r).galsPerSteradian = t.gals.1 r * steradian_to_arcmin2 := by
  cases t <;> rfl

theorem jvp_noise {t : ProbeTree Leaf} (hg : ∀ b ∈ t.bins, b.gals.OK s ∧ b.gals.1 s ≠ 0) :
    JvpE (JvpList s) (fun r => (probeAt t r).noise) (Dm.noise (probeDual t)) := by
  have hne : ∀ b ∈ t.bins, (nzAt b s).galsPerSteradian ≠ 0 := fun b hb => by
    rw [gals_at]
    exact mul_ne_zero (hg b hb).2 (by norm_num [steradian_to_arcmin2])
  cases t with
  | nc bins b rsd =>
    have h1 := JvpList.of_list (s := s) bins (F := fun b r => 1 / (nzAt b r).galsPerSteradian)
      (d := fun b => 1 / Dm.galsPerSteradian (nzDual b))
      fun b hb => (Jvp.one s).div (jvp_gals b (hg b hb).1) (hne b hb)
    have e : Dm.noise (probeDual (.nc bins b rsd)) = .ok (bins.map fun b => 1 / Dm.galsPerSteradian (nzDual b)) := by
      change Except.ok _ = Except.ok _
      rw [List.map_map, List.map_map]; rfl
    rw [e]
    refine (JvpE.ok h1).congr' fun r => ?_
    change Except.ok _ = Except.ok _
    rw [List.map_map, List.map_map, List.map_map]; rfl
  | wl bins p1 p2 se ia =>
    have hj : ∀ σ, ∀ b ∈ bins, Jvp (fun r => σ ^ 2 / (nzAt b r).galsPerSteradian) s
        (Du.con σ ^ 2 / Dm.galsPerSteradian (nzDual b)) :=
      fun σ b hb => ((Jvp.con σ s).npow 2).div (jvp_gals b (hg b hb).1) (hne b hb)
    have e : ∀ r, ((bins.map (NzTree.map fun l => l.1 r)).map NzTree.real).map Nz.galsPerSteradian
        = bins.map fun b => (nzAt b r).galsPerSteradian := fun r => by
      rw [binsAt, List.map_map]; rfl
    have eD : (bins.map (NzTree.map Prod.snd)).map Dm.galsPerSteradian
        = bins.map fun b => Dm.galsPerSteradian (nzDual b) := by rw [List.map_map]; rfl
    cases se with
    | num σ =>
      have h1 := JvpE.ok (JvpList.of_list bins (hj σ))
      have e2 : Dm.noise (probeDual (.wl bins p1 p2 (.num σ) ia))
          = .ok (bins.map fun b => Du.con σ ^ 2 / Dm.galsPerSteradian (nzDual b)) := by
        change Except.ok (((bins.map (NzTree.map Prod.snd)).map Dm.galsPerSteradian).map _) = _
        rw [eD, List.map_map]; rfl
      rw [e2]
      refine h1.congr' fun r => ?_
      change Except.ok ((((bins.map (NzTree.map fun l => l.1 r)).map NzTree.real).map Nz.galsPerSteradian).map _) = _
      rw [e, List.map_map]; rfl
    | nums σs =>
      have h1 := JvpList.bcast_of (s := s) σs bins (f := fun σ n => σ ^ 2 / n)
        (fD := fun σ n => Du.con σ ^ 2 / n) (x := fun σ _ => σ) (xD := id)
        (y := fun b r => (nzAt b r).galsPerSteradian) (yD := fun b => Dm.galsPerSteradian (nzDual b))
        fun σ _ b hb => hj σ b hb
      simp only [List.map_id, List.map_id'] at h1
      have e2 : Dm.noise (probeDual (.wl bins p1 p2 (.nums σs) ia))
          = Dm.bcast (fun σ n => Du.con σ ^ 2 / n) σs (bins.map fun b => Dm.galsPerSteradian (nzDual b)) := by
        rw [← eD]; rfl
      rw [e2]
      refine h1.congr' fun r => ?_
      rw [← e]; rfl
    | none => exact JvpE.err _
    | bias => exact JvpE.err _
    | biases => exact JvpE.err _

/-- Everything the noise of a survey asks for: galaxy densities that do not vanish. -/
def NoisePoint (s : ℝ) (probes : List (ProbeTree Leaf)) : Prop :=
  ∀ t ∈ probes, ∀ b ∈ t.bins, b.gals.OK s ∧ b.gals.1 s ≠ 0

theorem jvp_delta (i j : ℕ) : Jvp (fun _ => 1 - clip |(i : ℝ) - (j : ℝ)| 0 1) s
    (1 - ((Du.con (i : ℝ) - Du.con (j : ℝ)).abs.max 0).min 1) := by
  rw [con_sub]
  have h1 : Jvp (fun _ => clip |(i : ℝ) - (j : ℝ)| 0 1) s ((Du.con ((i : ℝ) - j)).abs.max 0 |>.min 1) :=
    ⟨0, hasDerivAt_const _ _, rfl, rfl⟩
  exact (Jvp.one s).sub h1

theorem jvp_noiseCl {probes : List (ProbeTree Leaf)} (hg : NoisePoint s probes) (ells : List ℝ) :
    JvpE (JvpTable s) (fun r => noiseCl ells (probes.map fun t => probeAt t r))
      (Dm.noiseCl (ells.map Du.con) (probes.map probeDual)) := by
  unfold noiseCl Dm.noiseCl
  simp only [ntracers_at, ntracers_dual, mapM_map', List.map_map]
  refine JvpE.bind (JvpE.mapM probes fun t ht => jvp_noise (hg t ht)) fun N n hN => ?_
  exact JvpE.ok (JvpTable.of_list _ fun ij _ => JvpList.of_list _ fun _ _ =>
    ((hN.flatten.gather ij.1).mul (jvp_delta ij.1 ij.2)).mul (Jvp.one s))

end JaxCosmo.Spec
