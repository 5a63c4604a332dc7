import Verif.Props.Amplitude
import Verif.Props.Kernels

/-! # C108: merging galaxy samples -/

namespace JaxCosmo
open Spec

/-! ## Distributions -/

/-- C108: a sample made of several populations, `α i` objects per unit of the raw density of
population `i`, has the average of their normalised distributions, weighted with the number of objects
in each; the weights add up to one. -/
theorem C108_mixture {ι : Type} [Fintype ι] (b : ι → Nz) (mix : Nz) (α : ι → ℝ)
    (hd : ∀ i, (b i).isDelta = false) (hd' : mix.isDelta = false) (hz : ∀ i, (b i).zmax = mix.zmax)
    (hmix : ∀ z, mix.pzFn z = ∑ i, α i * (b i).pzFn z) (N : ι → ℝ)
    (hN : ∀ i, simps (b i).pzFn 0 mix.zmax 256 = .ok (N i)) (h0 : ∀ i, N i ≠ 0)
    (hs : ∑ i, α i * N i ≠ 0) :
    (∀ z, mix.eval z = ∑ i, α i * N i / (∑ j, α j * N j) * (b i).eval z) ∧
      ∑ i, α i * N i / (∑ j, α j * N j) = 1 := by
  have hN' : ∀ i, (b i).computedNorm = N i := fun i => by
    have := hN i
    rw [← hz i] at this
    simpa [simps, Nz.computedNorm] using this
  have hM : mix.computedNorm = ∑ i, α i * N i := by
    unfold Nz.computedNorm
    simp only [hmix]
    rw [simpsBody_sum]
    refine Finset.sum_congr rfl fun i _ => ?_
    rw [simpsBody_smul, ← hN' i, Nz.computedNorm, hz i]
  refine ⟨fun z => ?_, ?_⟩
  · rw [Nz.eval_extended hd', hM, hmix, Finset.sum_div]
    refine Finset.sum_congr rfl fun i _ => ?_
    rw [Nz.eval_extended (hd i), hN' i]
    have := h0 i
    field_simp
  · rw [← Finset.sum_div, div_self hs]

/-- C108: joining two catalogues merges two populations, in proportion to their total weights. -/
theorem C108_catalogues (c1 c2 : List (ℝ × ℝ)) (bw g zm z : ℝ)
    (h1 : (c1.map fun e => e.2).sum ≠ 0) (h2 : (c2.map fun e => e.2).sum ≠ 0) :
    (Nz.kde (c1 ++ c2) bw g zm).pzFn z
      = (c1.map fun e => e.2).sum / ((c1.map fun e => e.2).sum + (c2.map fun e => e.2).sum)
          * (Nz.kde c1 bw g zm).pzFn z
        + (c2.map fun e => e.2).sum / ((c1.map fun e => e.2).sum + (c2.map fun e => e.2).sum)
          * (Nz.kde c2 bw g zm).pzFn z := by
  simp only [Nz.pzFn, List.map_append, List.sum_append]
  generalize (c1.map fun e => e.2).sum = q1 at *
  generalize (c2.map fun e => e.2).sum = q2 at *
  generalize (c1.map fun e => Nz.kdeKernel bw e.1 z * e.2).sum = s1
  generalize (c2.map fun e => Nz.kdeKernel bw e.1 z * e.2).sum = s2
  rcases eq_or_ne (q1 + q2) 0 with h | h
  · simp [h]
  · field_simp

/-! ## Kernels -/

/-- The kernel of tracer `y` is the combination, with weights `w`, of the kernels of the tracers `x`. -/
def Blend {ι : Type} [Fintype ι] (p : Params) (ell : ℝ) (w : ι → ℝ) (x : ι → Probe × ℕ)
    (y : Probe × ℕ) : Prop :=
  ∀ z (r : ι → List ℝ) r', (∀ i, (x i).1.kernel p z ell = .ok (r i)) → y.1.kernel p z ell = .ok r' →
    r'.getD y.2 0 = ∑ i, w i * (r i).getD (x i).2 0

theorem binKernel_extended (p : Params) (zmax z ell : ℝ) {pz : Nz} (h : pz.isDelta = false) :
    binKernel p zmax z ell pz = lensKernel p.Omega_m const_H0 const_c (chiZ p) z ell
      (simpson (fun z' => pz.eval z' * lensWeight (chiZ p) z z') z zmax 128) := by
  cases pz <;> first | rfl | simp [Nz.isDelta] at h

theorem simpson_sum {ι : Type} [Fintype ι] (w : ι → ℝ) (f : ι → ℝ → ℝ) (a b : ℝ) (m : ℕ) :
    simpson (fun x => ∑ i, w i * f i x) a b m = ∑ i, w i * simpson (f i) a b m := by
  simp only [simpson, Finset.mul_sum]
  rw [Finset.sum_comm]
  refine Finset.sum_congr rfl fun i _ => ?_
  simp only [mul_left_comm _ (w _), ← mul_add, ← Finset.sum_add_distrib]
  simp only [Finset.mul_sum, mul_add]
  refine Finset.sum_congr rfl fun j _ => ?_
  ring

theorem binKernel_blend {ι : Type} [Fintype ι] (p : Params) (zmax z ell : ℝ) {b : ι → Nz} {mix : Nz}
    {w : ι → ℝ} (hd : ∀ i, (b i).isDelta = false) (hd' : mix.isDelta = false)
    (h : ∀ z, mix.eval z = ∑ i, w i * (b i).eval z) :
    binKernel p zmax z ell mix = ∑ i, w i * binKernel p zmax z ell (b i) := by
  rw [binKernel_extended _ _ _ _ hd']
  simp only [fun i => binKernel_extended p zmax z ell (hd i), h, Finset.sum_mul, mul_assoc]
  rw [simpson_sum]
  unfold lensKernel
  simp only [Finset.mul_sum]
  refine Finset.sum_congr rfl fun i _ => ?_
  ring

/-- The part of a kernel that a single bias, alignment and calibration make of a bin. -/
theorem getD_map_bin (l : List Nz) (f : Nz → ℝ) {t : ℕ} {pz : Nz} (h : l[t]? = some pz) :
    (l.map f).getD t 0 = f pz := by
  simp [List.getD_eq_getElem?_getD, h]

/-- C108: merged lensing bins, with no alignment and one calibration bias. -/
theorem C108_lensing {ι : Type} [Fintype ι] (p : Params) (hg : p.gamma = none) (bins bins' : List Nz)
    (m ell : ℝ) {zmax : ℝ} (hz : pyMax (bins.map Nz.zmax) = .ok zmax)
    (hz' : pyMax (bins'.map Nz.zmax) = .ok zmax) {b : ι → Nz} {mix : Nz} {w : ι → ℝ}
    (hd : ∀ i, (b i).isDelta = false) (hd' : mix.isDelta = false)
    (h : ∀ z, mix.eval z = ∑ i, w i * (b i).eval z) (t : ι → ℕ) (t' : ℕ)
    (ht : ∀ i, bins[t i]? = some (b i)) (ht' : bins'[t']? = some mix) :
    Blend p ell w (fun i => (.wl (.init bins .none (.num m)), t i))
      (.wl (.init bins' .none (.num m)), t') := by
  have key : ∀ (bs : List Nz) (z : ℝ), pyMax (bs.map Nz.zmax) = .ok zmax →
      (Probe.wl (.init bs .none (.num m))).kernel p z ell
        = .ok (bs.map fun pz => binKernel p zmax z ell pz * (1 + m)) := by
    intro bs z hb
    simp [Probe.kernel, WeakLensing.init, WeakLensing.kernel, C48_order p hg bs z ell zmax hb, bind,
      Except.bind, pure, Except.pure, applyM, Function.comp_def]
  intro z r r' hr hr'
  have e : ∀ i, r i = bins.map fun pz => binKernel p zmax z ell pz * (1 + m) := fun i =>
    (Except.ok.inj ((key bins z hz).symm.trans (hr i))).symm
  rw [← Except.ok.inj ((key bins' z hz').symm.trans hr'), getD_map_bin _ _ ht',
    binKernel_blend p zmax z ell hd hd' h, Finset.sum_mul]
  refine Finset.sum_congr rfl fun i _ => ?_
  rw [e i, getD_map_bin _ _ (ht i)]
  ring

/-- C108: merged lensing bins with alignments of one amplitude and one calibration bias. -/
theorem C108_alignment {ι : Type} [Fintype ι] (p : Params) (hg : p.gamma = none) (bins bins' : List Nz)
    (a : Bias) (m ell : ℝ) {zmax : ℝ} (hz : pyMax (bins.map Nz.zmax) = .ok zmax)
    (hz' : pyMax (bins'.map Nz.zmax) = .ok zmax) (hb : ∀ pz ∈ bins, pz.isDelta = false)
    (hb' : ∀ pz ∈ bins', pz.isDelta = false) {b : ι → Nz} {mix : Nz} {w : ι → ℝ}
    (h : ∀ z, mix.eval z = ∑ i, w i * (b i).eval z) (t : ι → ℕ) (t' : ℕ)
    (ht : ∀ i, bins[t i]? = some (b i)) (ht' : bins'[t']? = some mix) :
    Blend p ell w (fun i => (.wl (.init bins (.bias a) (.num m)), t i))
      (.wl (.init bins' (.bias a) (.num m)), t') := by
  intro z r r' hr hr'
  have hd : ∀ i, (b i).isDelta = false := fun i => hb _ (List.mem_of_getElem? (ht i))
  have hd' := hb' _ (List.mem_of_getElem? ht')
  have e : ∀ i, _ = r i := fun i =>
    Except.ok.inj ((C106_bin p hg bins hz hb a m z ell).symm.trans (hr i))
  rw [← Except.ok.inj ((C106_bin p hg bins' hz' hb' a m z ell).symm.trans hr'), getD_map_bin _ _ ht']
  have hk := binKernel_blend p zmax z ell hd hd' h
  rw [binKernel_extended _ _ _ _ hd'] at hk
  rw [hk, h z, Finset.sum_mul, Finset.mul_sum, ← Finset.sum_add_distrib, Finset.sum_mul]
  refine Finset.sum_congr rfl fun i _ => ?_
  rw [← e i, getD_map_bin _ _ (ht i), ← binKernel_extended p zmax z ell (hd i)]
  ring

/-- C108: merged clustering bins with one bias. -/
theorem C108_clustering {ι : Type} [Fintype ι] (p : Params) (hg : p.gamma = none)
    (bins bins' : List Nz) (a : Bias) (ell : ℝ) (hb : ∀ pz ∈ bins, pz.isDelta = false)
    (hb' : ∀ pz ∈ bins', pz.isDelta = false) {b : ι → Nz} {mix : Nz} {w : ι → ℝ}
    (h : ∀ z, mix.eval z = ∑ i, w i * (b i).eval z) (t : ι → ℕ) (t' : ℕ)
    (ht : ∀ i, bins[t i]? = some (b i)) (ht' : bins'[t']? = some mix) :
    Blend p ell w (fun i => (.nc (.init bins (.bias a)), t i)) (.nc (.init bins' (.bias a)), t') := by
  intro z r r' hr hr'
  have n0' : bins' ≠ [] := by rintro rfl; simp at ht'
  have e : ∀ i, _ = r i := fun i => Except.ok.inj ((density_rows p hg bins
    (by rintro rfl; simpa using ht i) hb a z ell).symm.trans (hr i))
  rw [← Except.ok.inj ((density_rows p hg bins' n0' hb' a z ell).symm.trans hr'), getD_map_bin _ _ ht',
    h z, Finset.sum_mul, Finset.sum_mul]
  refine Finset.sum_congr rfl fun i _ => ?_
  rw [← e i, getD_map_bin _ _ (ht i)]
  ring

/-- A tracer that is left as it is. -/
theorem Blend.refl (p : Params) (ell : ℝ) (x : Probe × ℕ) :
    Blend (ι := Unit) p ell (fun _ => 1) (fun _ => x) x := by
  intro z r r' hr hr'
  simp [Except.ok.inj (hr'.symm.trans (hr ()))]

/-! ## Spectra -/

/-- C108: the spectrum of two merged tracers is the sum, over the tracers they are made of, of the
spectra weighted with the shares, whatever else is in the two lists of probes. -/
theorem C108_spectra {ι κ : Type} [Fintype ι] [Fintype κ] (p : Params) (T : ℝ → ℝ)
    (nl : Params → ℝ → ℝ → (ℝ → ℝ) → Except PyErr ℝ) (A B : List Probe) (ell zmax : ℝ)
    {colA colB : List ℝ} (hzA : probesZmax A = .ok zmax) (hzB : probesZmax B = .ok zmax)
    (hcA : ∀ pr ∈ A, pr.Consistent) (hcB : ∀ pr ∈ B, pr.Consistent)
    (hA : clAt p T nl A ell = .ok colA) (hB : clAt p T nl B ell = .ok colB)
    {i : ι → ℕ} {j : κ → ℕ} {i' j' : ℕ} {x : ι → Probe × ℕ} {y : κ → Probe × ℕ} {x' y' : Probe × ℕ}
    (hi : ∀ s, (tracers A)[i s]? = some (x s)) (hj : ∀ s, (tracers A)[j s]? = some (y s))
    (hi' : (tracers B)[i']? = some x') (hj' : (tracers B)[j']? = some y') {w : ι → ℝ} {v : κ → ℝ}
    (hx : Blend p ell w x x') (hy : Blend p ell v y y') :
    colB.getD (pairPos (tracers B).length i' j') 0
      = ∑ s, ∑ t, w s * v t * colA.getD (pairPos (tracers A).length (i s) (j t)) 0 := by
  have e1 : ∀ s t, w s * v t * colA.getD (pairPos (tracers A).length (i s) (j t)) 0
      = w s * (v t * simpson (limberIntegrand p T nl A ell (i s) (j t)) (1 / (1 + zmax)) 1 256)
        / const_c ^ 2 := by
    intro s t
    rw [clAt_entry hA hzA (tracers_lt (hi s)) (tracers_lt (hj t))]
    ring
  simp only [e1, ← Finset.sum_div, ← Finset.mul_sum, ← simpson_sum]
  rw [clAt_entry hB hzB (tracers_lt hi') (tracers_lt hj')]
  congr 1
  apply simpson_congr_node
  intro k hk
  obtain ⟨z1, hz1, -, nA⟩ := clAt_ok hA
  obtain ⟨z2, hz2, -, nB⟩ := clAt_ok hB
  obtain rfl : z1 = zmax := Except.ok.inj (hz1.symm.trans hzA)
  obtain rfl : z2 = z1 := Except.ok.inj (hz2.symm.trans hzB)
  obtain ⟨vA, hvA⟩ := nA k hk
  obtain ⟨vB, hvB⟩ := nB k hk
  have key : ∀ {μ : Type} [Fintype μ] {i : μ → ℕ} {i' : ℕ} {x : μ → Probe × ℕ} {x' : Probe × ℕ}
      {u : μ → ℝ}, (∀ s, (tracers A)[i s]? = some (x s)) → (tracers B)[i']? = some x' →
      Blend p ell u x x' → gather (limberKernels p B ell (limberNode z2 k)) i'
        = ∑ s, u s * gather (limberKernels p A ell (limberNode z2 k)) (i s) := by
    intro μ _ i i' x x' u h h' hxx
    choose r a1 a2 using fun s => limberKernels_tracer hvA hcA (i := i s) (pr := (x s).1)
      (t := (x s).2) (h s)
    obtain ⟨r', b1, b2⟩ := limberKernels_tracer hvB hcB (i := i') (pr := x'.1) (t := x'.2) h'
    rw [b2, hxx _ r r' a1 b1]
    exact Finset.sum_congr rfl fun s _ => by rw [a2 s]
  simp only [limberIntegrand, key hi hi' hx, key hj hj' hy, Finset.sum_mul, Finset.mul_sum,
    Finset.sum_div]
  rw [Finset.sum_comm]
  refine Finset.sum_congr rfl fun s _ => Finset.sum_congr rfl fun t _ => ?_
  ring

theorem smail_norm_pos (a b z0 g : ℝ) {zm : ℝ} (hzm : 0 < zm) :
    0 < simpsBody (Nz.smail a b z0 g zm).pzFn 0 zm 256 := by
  refine simpsBody_pos hzm 256 (by norm_num) (by norm_num) ?_ (i := 0) (by norm_num) ?_
  · intro x hx _
    exact mul_nonneg (Real.rpow_nonneg hx _) (Real.exp_pos _).le
  · refine smail_pos ?_ g zm
    rw [linspace_succ]
    positivity

/-- Witness: the two lensing bins of the demonstration survey merged into one.  The lensing spectrum
of the merged bin is the average of the four spectra, with positive shares that add up to one. -/
example (T : ℝ → ℝ) : ∃ colA colB w, clAt Planck15 T linear demoProbes 10 = .ok colA ∧
    clAt Planck15 T linear [.wl (.init [.user (fun z => (Nz.smail 1 2 1 1 4).pzFn z
      + (Nz.smail 1 2 2 1 4).pzFn z) 2 4])] 10 = .ok colB ∧ 0 < w ∧ w < 1 ∧
    symMat 1 colB 0 0 = w * w * symMat 3 colA 0 0 + w * (1 - w) * symMat 3 colA 0 1
      + ((1 - w) * w * symMat 3 colA 1 0 + (1 - w) * (1 - w) * symMat 3 colA 1 1) := by
  have hk := demo_kernels Planck15 rfl
  set mix : Nz := .user (fun z => (Nz.smail 1 2 1 1 4).pzFn z + (Nz.smail 1 2 2 1 4).pzFn z) 2 4 with hmix
  set B : List Probe := [.wl (.init [mix])] with hBdef
  have hzB : probesZmax B = .ok 4 := by
    norm_num [probesZmax, hBdef, Probe.zmax, Probe.bins, WeakLensing.init,
      pyMax, hmix, Nz.zmax, List.mapM_cons, bind, Except.bind, pure, Except.pure]
  have hkB : ∀ pr ∈ B, ∀ z ell, ∃ k, pr.kernel Planck15 z ell = .ok k ∧
      k.length = pr.bins.length := by
    intro pr hpr z ell
    simp only [hBdef, List.mem_cons, List.not_mem_nil, or_false] at hpr
    subst hpr
    refine ⟨[binKernel Planck15 4 z ell mix * (1 + 0)], ?_, rfl⟩
    simp [Probe.kernel, WeakLensing.init, WeakLensing.kernel, C48_order Planck15 rfl [mix] z ell 4 rfl,
      bind, Except.bind, pure, Except.pure, applyM]
  choose! K hK using hk
  choose! L hL using hkB
  obtain ⟨colA, hA, -, -⟩ := C56_limber Planck15 T linear demoProbes 10 4
    (fun a => linearMatterPower Planck15 T ((10 + 1 / 2) / max (chiOf Planck15 a) 1) a)
    (fun pr a => K pr (1 / a - 1) 10) demo_zmax (fun a => C42_linear _ _ _ _)
    (fun pr hpr a => (hK pr hpr _ _).1) (fun pr hpr a => (hK pr hpr _ _).2)
  obtain ⟨colB, hB, -, -⟩ := C56_limber Planck15 T linear B 10 4
    (fun a => linearMatterPower Planck15 T ((10 + 1 / 2) / max (chiOf Planck15 a) 1) a)
    (fun pr a => L pr (1 / a - 1) 10) hzB (fun a => C42_linear _ _ _ _)
    (fun pr hpr a => (hL pr hpr _ _).1) (fun pr hpr a => (hL pr hpr _ _).2)
  have hcA : ∀ pr ∈ demoProbes, pr.Consistent := by
    intro pr hpr
    simp only [demoProbes, List.mem_cons, List.not_mem_nil, or_false] at hpr
    rcases hpr with rfl | rfl
    · intro h; simp [WeakLensing.init] at h
    · intro _; trivial
  have hcB : ∀ pr ∈ B, pr.Consistent := by
    intro pr hpr
    simp only [hBdef, List.mem_cons, List.not_mem_nil, or_false] at hpr
    subst hpr
    intro _; exact ⟨trivial, by simp [WeakLensing.init], trivial⟩
  set N : Fin 2 → ℝ := fun i => simpsBody (![Nz.smail 1 2 1 1 4, Nz.smail 1 2 2 1 4] i).pzFn 0 4 256 with hN
  have n0 : 0 < N 0 := smail_norm_pos 1 2 1 1 (by norm_num)
  have n1 : 0 < N 1 := smail_norm_pos 1 2 2 1 (by norm_num)
  obtain ⟨hm, hone⟩ := C108_mixture ![Nz.smail 1 2 1 1 4, Nz.smail 1 2 2 1 4] mix (fun _ => 1)
    (by intro i; fin_cases i <;> rfl) rfl (by intro i; fin_cases i <;> rfl)
    (by intro z; simp [hmix, Nz.pzFn]) N (by intro i; fin_cases i <;> simp [simps, hN, hmix, Nz.zmax])
    (by intro i; fin_cases i <;> [exact n0.ne'; exact n1.ne'])
    (by simp only [Fin.sum_univ_two, one_mul]; positivity)
  have hb := C108_lensing Planck15 rfl [.smail 1 2 1 1 4, .smail 1 2 2 1 4] [mix] 0 10 (zmax := 4)
    (by norm_num [pyMax, Nz.zmax]) rfl (by intro i; fin_cases i <;> rfl) rfl hm
    (fun i => i.1) 0 (by intro i; fin_cases i <;> rfl) rfl
  have hs := C108_spectra Planck15 T linear demoProbes B 10 4 demo_zmax hzB hcA hcB hA hB
    (i := fun i : Fin 2 => i.1) (j := fun i : Fin 2 => i.1) (i' := 0) (j' := 0)
    (by intro i; fin_cases i <;> rfl) (by intro i; fin_cases i <;> rfl) rfl rfl hb hb
  simp only [Fin.sum_univ_two, one_mul] at hs hone
  refine ⟨colA, colB, N 0 / (N 0 + N 1), hA, hB, by positivity, ?_, ?_⟩
  · rw [div_lt_one (by positivity)]; linarith
  · rw [show 1 - N 0 / (N 0 + N 1) = N 1 / (N 0 + N 1) by linarith]
    exact hs

end JaxCosmo
