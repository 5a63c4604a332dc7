import Verif.Props.AngularCl

/-! # C79: how the spectra scale with amplitudes -/

namespace JaxCosmo
open Spec

/-! ## `sigma8` -/

theorem biasRows_sigma8 (p : Params) (s z : ℝ) (b : Val) :
    biasRows { p with sigma8 := s } b z = biasRows p b z := rfl

theorem kernel_sigma8 (pr : Probe) (p : Params) (s z ell : ℝ) :
    pr.kernel { p with sigma8 := s } z ell = pr.kernel p z ell := by
  have hj : ∀ (β : Type) (f : Params → Except PyErr β),
      (∀ s, f { p with sigma8 := s } = f p) →
      (jitCosmo { p with sigma8 := s } >>= f) = (jitCosmo p >>= f) := by
    intro β f hf
    rcases hg : p.gamma with _ | g
    · have e1 := jitCosmo_none hg
      have e2 := jitCosmo_none (p := { p with sigma8 := s }) hg
      rw [hg] at e2
      rw [e1, e2]
      have := hf s
      rw [hg] at this
      exact this
    · have e1 := jitCosmo_some hg
      have e2 := jitCosmo_some (p := { p with sigma8 := s }) hg
      rw [hg] at e2
      rw [e1, e2]
  have hd : ∀ pzs b, densityKernel { p with sigma8 := s } pzs b z ell
      = densityKernel p pzs b z ell := fun pzs b => hj _ _ fun _ => rfl
  have hn : ∀ pzs b, nlaKernel { p with sigma8 := s } pzs b z ell
      = nlaKernel p pzs b z ell := fun pzs b => hj _ _ fun _ => rfl
  have hw : ∀ pzs, weakLensingKernel { p with sigma8 := s } pzs z ell
      = weakLensingKernel p pzs z ell := fun pzs => hj _ _ fun _ => rfl
  cases pr with
  | nc o => exact hd _ _
  | wl o =>
    simp only [Probe.kernel, WeakLensing.kernel, hw, hn]

theorem limberIntegrand_sigma8 (p : Params) (T : ℝ → ℝ) (probes : List Probe) (ell s : ℝ) (i j : ℕ)
    (a : ℝ) : limberIntegrand { p with sigma8 := s * p.sigma8 } T linear probes ell i j a
      = s ^ 2 * limberIntegrand p T linear probes ell i j a := by
  have e1 : limberPower { p with sigma8 := s * p.sigma8 } T linear ell a
      = s ^ 2 * limberPower p T linear ell a := by
    simp only [limberPower, linear]
    exact C40_sigma8 p T _ a s
  have e2 : limberKernels { p with sigma8 := s * p.sigma8 } probes ell a
      = limberKernels p probes ell a := by
    simp only [limberKernels, kernel_sigma8]
  have e3 : dchioverda { p with sigma8 := s * p.sigma8 } a = dchioverda p a := rfl
  have e4 : chiOf { p with sigma8 := s * p.sigma8 } a = chiOf p a := rfl
  simp only [limberIntegrand, e1, e2, e3, e4]
  ring

theorem simpson_smul (c : ℝ) (f : ℝ → ℝ) (a b : ℝ) (m : ℕ) :
    simpson (fun x => c * f x) a b m = c * simpson f a b m := by
  simp only [simpson, Finset.mul_sum]
  exact Finset.sum_congr rfl fun i _ => by ring

/-- C79: with the linear power spectrum every angular spectrum is proportional to `sigma8²`. -/
theorem C79_sigma8 (p : Params) (T : ℝ → ℝ) (probes : List Probe) (ell s : ℝ) {col : List ℝ}
    (h : clAt p T linear probes ell = .ok col) :
    clAt { p with sigma8 := s * p.sigma8 } T linear probes ell = .ok (col.map fun c => s ^ 2 * c) := by
  obtain ⟨zmax, hz, hcol, hn⟩ := clAt_ok h
  obtain ⟨col', hcol'⟩ := clAt_returns (p := { p with sigma8 := s * p.sigma8 }) (T := T)
    (nl := linear) (ell := ell) hz fun i hi => by
      obtain ⟨w, hw⟩ := hn i hi
      obtain ⟨_, h2⟩ := clIntegrand_parts hw
      exact clIntegrand_returns ⟨_, rfl⟩ fun pr hpr => by rw [kernel_sigma8]; exact h2 pr hpr
  rw [hcol']
  obtain ⟨z', hz', hc', _⟩ := clAt_ok hcol'
  obtain rfl : z' = zmax := Except.ok.inj (hz'.symm.trans hz)
  rw [hc', hcol, List.map_map]
  congr 1
  refine List.map_congr_left fun ij _ => ?_
  simp only [Function.comp_apply]
  rw [show limberIntegrand { p with sigma8 := s * p.sigma8 } T linear probes ell ij.1 ij.2
    = fun a => s ^ 2 * limberIntegrand p T linear probes ell ij.1 ij.2 a from
    funext fun a => limberIntegrand_sigma8 p T probes ell s ij.1 ij.2 a, simpson_smul, mul_div_assoc]

/-- C79: the same for the whole array of spectra. -/
theorem C79_sigma8_all (p : Params) (ells : List ℝ) (T : ℝ → ℝ) (probes : List Probe) (s : ℝ)
    {cl : List (List ℝ)} (h : angularCl p ells probes T linear = .ok cl) :
    angularCl { p with sigma8 := s * p.sigma8 } ells probes T linear
      = .ok (cl.map fun row => row.map fun c => s ^ 2 * c) := by
  unfold angularCl at h ⊢
  obtain ⟨cols, hcols, h⟩ := bind_ok h
  simp only [pure, Except.pure, Except.ok.injEq] at h
  have h' : ells.mapM (clAt { p with sigma8 := s * p.sigma8 } T linear probes)
      = .ok (cols.map fun col => col.map fun c => s ^ 2 * c) := by
    rw [mapM_ok_iff] at hcols ⊢
    rw [List.forall₂_map_right_iff]
    exact hcols.imp fun ell col hc => C79_sigma8 p T probes ell s hc
  rw [h']
  simp only [bind, Except.bind, pure, Except.pure, Except.ok.injEq]
  rw [← h, List.map_map]
  refine List.map_congr_left fun c _ => ?_
  simp only [Function.comp_apply, List.map_map]
  refine List.map_congr_left fun col _ => ?_
  simp only [Function.comp_apply, List.getD_eq_getElem?_getD, List.getElem?_map]
  cases col[c]? <;> simp

/-! ## Biases -/

/-- The kernel of tracer `x'` is `u` times that of tracer `x`. -/
def Amplified (p : Params) (ell u : ℝ) (x x' : Probe × ℕ) : Prop :=
  ∀ z r r', x.1.kernel p z ell = .ok r → x'.1.kernel p z ell = .ok r' →
    r'.getD x'.2 0 = u * r.getD x.2 0

/-- C79: if the kernels of two tracers are multiplied by `u` and `v`, whatever else changes in the
list of probes (as long as it reaches the same redshift), their spectrum is multiplied by `u v`. -/
theorem C79_amplitude (p : Params) (T : ℝ → ℝ)
    (nl : Params → ℝ → ℝ → (ℝ → ℝ) → Except PyErr ℝ) (A B : List Probe) (ell zmax u v : ℝ)
    {colA colB : List ℝ} (hzA : probesZmax A = .ok zmax) (hzB : probesZmax B = .ok zmax)
    (hcA : ∀ pr ∈ A, pr.Consistent) (hcB : ∀ pr ∈ B, pr.Consistent)
    (hA : clAt p T nl A ell = .ok colA) (hB : clAt p T nl B ell = .ok colB)
    {i j i' j' : ℕ} {x y x' y' : Probe × ℕ} (hi : (tracers A)[i]? = some x)
    (hj : (tracers A)[j]? = some y) (hi' : (tracers B)[i']? = some x')
    (hj' : (tracers B)[j']? = some y') (hx : Amplified p ell u x x') (hy : Amplified p ell v y y') :
    colB.getD (pairPos (tracers B).length i' j') 0
      = u * v * colA.getD (pairPos (tracers A).length i j) 0 := by
  rw [clAt_entry hA hzA (tracers_lt hi) (tracers_lt hj),
    clAt_entry hB hzB (tracers_lt hi') (tracers_lt hj'), ← mul_div_assoc, ← simpson_smul]
  congr 1
  apply simpson_congr_node
  intro k hk
  obtain ⟨z1, hz1, -, nA⟩ := clAt_ok hA
  obtain ⟨z2, hz2, -, nB⟩ := clAt_ok hB
  obtain rfl : z1 = zmax := Except.ok.inj (hz1.symm.trans hzA)
  obtain rfl : z2 = z1 := Except.ok.inj (hz2.symm.trans hzB)
  obtain ⟨vA, hvA⟩ := nA k hk
  obtain ⟨vB, hvB⟩ := nB k hk
  have key : ∀ {i i' : ℕ} {x x' : Probe × ℕ} {u : ℝ}, (tracers A)[i]? = some x →
      (tracers B)[i']? = some x' → Amplified p ell u x x' →
      gather (limberKernels p B ell (limberNode z2 k)) i'
        = u * gather (limberKernels p A ell (limberNode z2 k)) i := by
    intro i i' x x' u h h' hxx
    obtain ⟨r, a1, a2⟩ := limberKernels_tracer hvA hcA (i := i) (pr := x.1) (t := x.2) h
    obtain ⟨r', b1, b2⟩ := limberKernels_tracer hvB hcB (i := i') (pr := x'.1) (t := x'.2) h'
    rw [a2, b2, hxx _ r r' a1 b1]
  simp only [limberIntegrand, key hi hi' hx, key hj hj' hy]
  ring

theorem getD_map_mul (u : ℝ) (l : List ℝ) (t : ℕ) :
    (l.map fun x => u * x).getD t 0 = u * l.getD t 0 := by
  simp only [List.getD_eq_getElem?_getD, List.getElem?_map]
  cases l[t]? <;> simp

theorem density_scale (p : Params) (pzs : List Nz) (b b' : Bias) (u z ell : ℝ)
    (hb : ∀ q, b'.call q z = u * b.call q z) {r : List ℝ}
    (h : densityKernel p pzs (.bias b) z ell = .ok r) :
    densityKernel p pzs (.bias b') z ell = .ok (r.map fun x => u * x) := by
  unfold densityKernel at h ⊢
  obtain ⟨q, hq, h⟩ := bind_ok h
  rw [hq]
  simp only [bind, Except.bind] at h ⊢
  split_ifs at h ⊢
  have hbc : ∀ c : ℝ, bcast (· * ·) (pzs.map fun pz => pz.eval z) [c]
      = .ok (pzs.map fun pz => pz.eval z * c) := by
    intro c
    unfold bcast
    split_ifs with hl
    · simp only [List.length_map, List.length_cons, List.length_nil] at hl
      obtain ⟨a, ha⟩ := List.length_eq_one_iff.1 hl
      subst ha
      rfl
    · split
      · next he => simp [he] at hl
      · next hc _ =>
        obtain rfl : _ = _ := List.singleton_inj.1 hc
        simp [Function.comp_def]
      · next he => exact absurd rfl (he c)
  simp only [biasRows, hbc] at h ⊢
  simp only [pure, Except.pure, Except.ok.injEq] at h ⊢
  rw [← h, hb]
  simp only [List.map_map]
  refine List.map_congr_left fun pz _ => ?_
  simp only [Function.comp_apply]
  ring

/-- C79: multiplying a constant (or inverse-growth) galaxy bias by `u` multiplies the kernels of all
bins of the probe by `u`. -/
theorem C79_galaxy_bias (p : Params) (bins : List Nz) (b u ell : ℝ) (t : ℕ) :
    Amplified p ell u (.nc (.init bins (.bias (.constant b))), t)
      (.nc (.init bins (.bias (.constant (u * b)))), t) ∧
    Amplified p ell u (.nc (.init bins (.bias (.invGrowth b))), t)
      (.nc (.init bins (.bias (.invGrowth (u * b)))), t) := by
  constructor
  · intro z r r' h h'
    have := density_scale p bins (.constant b) (.constant (u * b)) u z ell
      (fun q => by simp only [Bias.call]; ring) h
    rw [Except.ok.inj (h'.symm.trans this), getD_map_mul]
  · intro z r r' h h'
    have := density_scale p bins (.invGrowth b) (.invGrowth (u * b)) u z ell
      (fun q => by simp only [Bias.call]; ring) h
    rw [Except.ok.inj (h'.symm.trans this), getD_map_mul]

/-- C79: a multiplicative shear bias `m` multiplies the kernels of the probe, alignments included, by
`1 + m`. -/
theorem C79_shear_bias (p : Params) (bins : List Nz) (ia : Val) (m ell : ℝ) (t : ℕ) :
    Amplified p ell (1 + m) (.wl (.init bins ia (.num 0)), t) (.wl (.init bins ia (.num m)), t) := by
  intro z r r' h h'
  have h1 : (WeakLensing.init bins ia (.num m)).kernel p z ell = .ok r' := h'
  have h0 : (WeakLensing.init bins ia (.num 0)).kernel p z ell = .ok r := h
  rw [C51_m_scalar, h0] at h1
  rw [← Except.ok.inj (h1 : Except.ok _ = _), ← getD_map_mul]
  simp only [mul_comm (1 + m)]

theorem Amplified.refl (p : Params) (ell : ℝ) (x : Probe × ℕ) : Amplified p ell 1 x x := by
  intro z r r' h h'
  rw [Except.ok.inj (h'.symm.trans h), one_mul]

/-- Witness: the linear spectra of a lensing and a clustering probe at twice `sigma8`; then the same
probes with a galaxy bias of 6 instead of 1.5, for which the lensing–clustering spectrum is four times
and the clustering spectrum sixteen times as large. -/
example (T : ℝ → ℝ) : ∃ colA colB, clAt Planck15 T linear demoProbes 10 = .ok colA ∧
    clAt { Planck15 with sigma8 := 2 * Planck15.sigma8 } T linear demoProbes 10
      = .ok (colA.map fun c => 2 ^ 2 * c) ∧
    clAt Planck15 T linear [.wl (.init [.smail 1 2 1 1 4, .smail 1 2 2 1 4]),
      .nc (.init [.smail 1 2 1 1 4] (.bias (.constant (4 * 1.5))))] 10 = .ok colB ∧
    symMat 3 colB 0 2 = 1 * 4 * symMat 3 colA 0 2 ∧ symMat 3 colB 2 2 = 4 * 4 * symMat 3 colA 2 2 := by
  have hk := demo_kernels Planck15 rfl
  set B : List Probe := [.wl (.init [.smail 1 2 1 1 4, .smail 1 2 2 1 4]),
      .nc (.init [.smail 1 2 1 1 4] (.bias (.constant (4 * 1.5))))] with hBdef
  have hkB : ∀ pr ∈ B, ∀ z ell, ∃ k, pr.kernel Planck15 z ell = .ok k ∧
      k.length = pr.bins.length := by
    intro pr hpr z ell
    simp only [hBdef, List.mem_cons, List.not_mem_nil, or_false] at hpr
    rcases hpr with rfl | rfl
    · exact hk _ (by simp [demoProbes]) z ell
    · refine ⟨_, density_rows Planck15 rfl _ (by simp [NumberCounts.init]) ?_ _ z ell, ?_⟩
      · simp [NumberCounts.init, Nz.isDelta]
      · simp [Probe.bins, NumberCounts.init]
  have hzB : probesZmax B = .ok 4 := by
    norm_num [probesZmax, hBdef, Probe.zmax, Probe.bins, WeakLensing.init, NumberCounts.init,
      pyMax, Nz.zmax, List.mapM_cons, bind, Except.bind, pure, Except.pure]
  choose! K hK using hk
  choose! L hL using hkB
  obtain ⟨colA, hA, -, -⟩ := C56_limber Planck15 T linear demoProbes 10 4
    (fun a => linearMatterPower Planck15 T ((10 + 1 / 2) / max (chiOf Planck15 a) 1) a)
    (fun pr a => K pr (1 / a - 1) 10) demo_zmax (fun a => C42_linear _ _ _ _)
    (fun pr hpr a => (hK pr hpr _ _).1) (fun pr hpr a => (hK pr hpr _ _).2)
  obtain ⟨colB, hB, -, -⟩ := C56_limber Planck15 T linear B 10 4
    (fun a => linearMatterPower Planck15 T ((10 + 1 / 2) / max (chiOf Planck15 a) 1) a)
    (fun pr a => L pr (1 / a - 1) 10) hzB (fun a => C42_linear _ _ _ _)
    (fun pr hpr a => (hL pr hpr _ _).1) (fun pr hpr a => (hL pr hpr _ _).2)
  have hcA : ∀ pr ∈ demoProbes, pr.Consistent := by
    intro pr hpr
    simp only [demoProbes, List.mem_cons, List.not_mem_nil, or_false] at hpr
    rcases hpr with rfl | rfl
    · intro h; simp [WeakLensing.init] at h
    · intro _; trivial
  have hcB : ∀ pr ∈ B, pr.Consistent := by
    intro pr hpr
    simp only [hBdef, List.mem_cons, List.not_mem_nil, or_false] at hpr
    rcases hpr with rfl | rfl
    · intro h; simp [WeakLensing.init] at h
    · intro _; trivial
  have hg := (C79_galaxy_bias Planck15 [.smail 1 2 1 1 4] 1.5 4 10 0).1
  exact ⟨colA, colB, hA, C79_sigma8 _ _ _ _ _ hA, hB,
    C79_amplitude Planck15 T linear demoProbes B 10 4 1 4 demo_zmax hzB hcA hcB hA hB
      (i := 0) (j := 2) (i' := 0) (j' := 2) rfl rfl rfl rfl (Amplified.refl _ _ _) hg,
    C79_amplitude Planck15 T linear demoProbes B 10 4 4 4 demo_zmax hzB hcA hcB hA hB
      (i := 2) (j := 2) (i' := 2) (j' := 2) rfl rfl rfl rfl hg hg⟩

end JaxCosmo
