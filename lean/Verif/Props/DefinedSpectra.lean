import Verif.Proofs.XrSpectra
import Verif.Proofs.Lists

/-! # C115: kernels and angular power spectra are finite numbers -/

namespace JaxCosmo
open Xr EH

/-- C115: the kernels of a probe are finite at every redshift that is not negative, as long as the
growth factor there is not zero: no distribution, distance or bias is divided by zero, and no square
root is taken of a negative number. -/
theorem C115_kernels {p : Params} (h : Physical p) (hg : p.gamma = none) {pr : Probe} (hp : pr.OK)
    {z ell : ℝ} (hz : 0 ≤ z) (hgr : growthOf p (z2a z) ≠ 0) (hl : pr.EllOK ell) :
    Xm.kernel pr p (fin z) (fin ell) = (pr.kernel p z ell).map (List.map fin) :=
  xm_kernel h hg hp hz hgr hl

/-- What the finiteness theorem asks of a survey: transfer function and cosmology as in C114, probes
as in `Probe.OK`, no bin reaching beyond redshift 899 (where the growth table starts to read zero). -/
structure SurveyOK (p : Params) (TX : Xr → Xr) (T : ℝ → ℝ) (probes : List Probe) : Prop where
  power : PowerOK p TX T 1
  gamma : p.gamma = none
  each : ∀ pr ∈ probes, pr.OK
  range : ∀ pr ∈ probes, ∀ nz ∈ pr.bins, nz.zmax ≤ 899

theorem ok_bind {α β : Type} (x : α) (f : α → Except PyErr β) : (Except.ok x >>= f) = f x := rfl

theorem PowerOK.at {p : Params} {TX : Xr → Xr} {T : ℝ → ℝ} {a b : ℝ} (h : PowerOK p TX T a)
    (hg : growthOf p b ≠ 0) : PowerOK p TX T b :=
  ⟨h.phys, h.fin_T, h.norm, h.start, h.amp, hg⟩

theorem probesZmax_range {probes : List Probe} {zm : ℝ} (h : probesZmax probes = .ok zm)
    (h0 : ∀ pr ∈ probes, pr.OK) (hr : ∀ pr ∈ probes, ∀ nz ∈ pr.bins, nz.zmax ≤ 899) :
    0 ≤ zm ∧ zm ≤ 899 := by
  have key : ∀ (l : List Probe) (zs : List ℝ), (∀ pr ∈ l, pr ∈ probes) → l.mapM Probe.zmax = .ok zs →
      ∀ z ∈ zs, 0 ≤ z ∧ z ≤ 899 := by
    intro l
    induction l with
    | nil =>
      intro zs _ e z hz
      rw [List.mapM_nil] at e
      have : zs = [] := (Except.ok.inj e).symm
      simp [this] at hz
    | cons pr l ih =>
      intro zs hl e z hz
      rw [List.mapM_cons] at e
      rcases h1 : pr.zmax with e' | z1
      · rw [h1] at e; cases e
      · rcases h2 : l.mapM Probe.zmax with e' | z2
        · rw [h1, h2] at e; cases e
        · rw [h1, h2] at e
          have : zs = z1 :: z2 := (Except.ok.inj e).symm
          rw [this] at hz
          have hpr := hl pr List.mem_cons_self
          rcases List.mem_cons.1 hz with rfl | hz
          · refine pyMax_range h1 (fun y hy => ?_) (fun y hy => ?_)
            · obtain ⟨nz, hn, rfl⟩ := List.mem_map.1 hy
              exact ((h0 pr hpr).bins nz hn).1.zmax_nonneg
            · obtain ⟨nz, hn, rfl⟩ := List.mem_map.1 hy
              exact hr pr hpr nz hn
          · exact ih z2 (fun q hq => hl q (List.mem_cons_of_mem _ hq)) h2 z hz
  unfold probesZmax at h
  rcases h1 : probes.mapM Probe.zmax with e' | zs
  · rw [h1] at h; cases h
  · rw [h1] at h
    have h' : pyMax zs = .ok zm := h
    have hk := key probes zs (fun _ h => h) h1
    exact pyMax_range h' (fun y hy => (hk y hy).1) fun y hy => (hk y hy).2

theorem xm_clIntegrand {p : Params} {TX : Xr → Xr} {T : ℝ → ℝ} {probes : List Probe}
    (h : SurveyOK p TX T probes) {ell a : ℝ} (ha : 1 / 900 ≤ a) (ha1 : a ≤ 1) (hl0 : 0 ≤ ell)
    (hl : ∀ pr ∈ probes, pr.EllOK ell) :
    Xm.clIntegrand p TX (fun p k a T => Xm.halofit p k a T) probes (fin ell) (fin a)
      = efin (clIntegrand p T (fun p k a T => halofit p k a T) probes ell a) := by
  have hph := h.power.phys
  have ha0 : 0 < a := by linarith
  have hgr : growthOf p a ≠ 0 := (C10_pos_ode p hph h.gamma ha).ne'
  have hE := hph.esqrPos
  have hchi : 0 < Max.max (chiOf p a) 1 := lt_of_lt_of_le one_pos (le_max_right _ _)
  have hk : 0 < (ell + 0.5) / Max.max (chiOf p a) 1 := by positivity
  have hz : 0 ≤ a2z a := by
    unfold a2z
    have : 1 ≤ 1 / a := by rw [le_div_iff₀ ha0]; linarith
    linarith
  have hza : z2a (a2z a) = a := by
    unfold z2a a2z
    field_simp
    ring
  obtain ⟨v, hv, hvX⟩ := C114_takahashi (h.power.at hgr) ha0 hk
  unfold Xm.clIntegrand clIntegrand nonlinearMatterPower
  simp only [xm_chiOf_fin p hE, lit_sci, lit_one, add_fin, max_fin, div_fin _ hchi.ne', clipLo]
  rw [hvX, hv, xm_a2z ha0]
  change _ = efin ((probes.mapM fun pr => pr.kernel p (a2z a) ell) >>= _)
  change ((probes.mapM fun pr => Xm.kernel pr p (fin (a2z a)) (fin ell)) >>= _) = _
  rw [mapM_map (List.map fin) (g := fun pr : Probe => pr.kernel p (a2z a) ell) probes fun pr hpr =>
    xm_kernel hph h.gamma (h.each pr hpr) hz (by rwa [hza]) (hl pr hpr)]
  cases probes.mapM fun pr : Probe => pr.kernel p (a2z a) ell with
  | error e => rfl
  | ok rows =>
    change Except.ok _ = Except.ok _
    congr 1
    rw [← List.map_flatten]
    simp only [List.map_map]
    refine List.map_congr_left fun ij _ => ?_
    simp only [Function.comp_apply, gather_fin, mul_fin, npow_fin, max_fin,
      xm_dchioverda_fin p ha0 (hE a ha0 ha1), div_fin _ (clipLo_one_ne _)]

/-- C115: one column of spectra. -/
theorem xm_clAt {p : Params} {TX : Xr → Xr} {T : ℝ → ℝ} {probes : List Probe}
    (h : SurveyOK p TX T probes) {ell : ℝ} (hl0 : 0 ≤ ell) (hl : ∀ pr ∈ probes, pr.EllOK ell) :
    Xm.clAt p TX (fun p k a T => Xm.halofit p k a T) probes (fin ell)
      = efin (clAt p T (fun p k a T => halofit p k a T) probes ell) := by
  have hc : const_c ^ 2 ≠ 0 := by norm_num [const_c]
  unfold Xm.clAt clAt
  cases hz : probesZmax probes with
  | error e => rfl
  | ok zm =>
    obtain ⟨h0, h9⟩ := probesZmax_range hz h.each h.range
    have hlo : 1 / 900 ≤ z2a zm := by
      unfold z2a
      exact one_div_le_one_div_of_le (by linarith) (by linarith)
    have hhi : z2a zm ≤ 1 := by
      unfold z2a
      rw [div_le_one (by linarith)]
      linarith
    rw [ok_bind, ok_bind, xm_z2a' h0, lit_one, xm_simpsE
      (f := clIntegrand p T (fun p k a T => halofit p k a T) probes ell) (by norm_num)]
    · generalize simpsE (clIntegrand p T (fun p k a T => halofit p k a T) probes ell) (z2a zm) 1 512 = S
      cases S with
      | error e => rfl
      | ok l =>
        rw [efin_ok, ok_bind, ok_bind]
        change Except.ok _ = Except.ok _
        rw [List.map_map, List.map_map]
        congr 1
        refine List.map_congr_left fun x _ => ?_
        simp only [Function.comp_apply, npow_fin, div_fin _ hc]
    · intro i hi
      refine xm_clIntegrand h ?_ (linspace_le hhi le_rfl (by norm_num) (by omega)) hl0 hl
      have := linspace_nonneg (a := z2a zm - 1 / 900) (b := 1 - 1 / 900) (n := 512 + 1) (i := i)
        (by linarith) (by norm_num) (by norm_num) (by omega)
      have e : linspace (z2a zm - 1 / 900) (1 - 1 / 900) (512 + 1) i
          = linspace (z2a zm) 1 (512 + 1) i - 1 / 900 := by
        unfold linspace
        ring
      linarith

/-- C115: every angular power spectrum of a survey is a finite number: the call on numbers that may
be exceptional gives the spectra of `Model/AngularCl.lean` (or raises the same exception).  Only
for lensing probes are multipoles between 0 and 1 excluded. -/
theorem C115_spectra {p : Params} {TX : Xr → Xr} {T : ℝ → ℝ} {probes : List Probe}
    (h : SurveyOK p TX T probes) (ells : List ℝ) (hl0 : ∀ ell ∈ ells, 0 ≤ ell)
    (hl : ∀ ell ∈ ells, ∀ pr ∈ probes, pr.EllOK ell) :
    Xm.angularCl p (ells.map fin) probes TX
      = (angularCl p ells probes T).map (List.map (List.map fin)) := by
  unfold Xm.angularCl angularCl
  rw [mapM_comp, mapM_map (gX := Xm.clAt p TX (fun p k a T => Xm.halofit p k a T) probes ∘ fin)
    (List.map fin) (g := clAt p T (fun p k a T => halofit p k a T) probes) ells fun ell he => xm_clAt h (hl0 ell he) (hl ell he)]
  cases ells.mapM (clAt p T (fun p k a T => halofit p k a T) probes) with
  | error e => rfl
  | ok cols =>
    change Except.ok _ = Except.ok _
    congr 1
    simp only [List.map_map]
    refine List.map_congr_left fun c _ => ?_
    simp only [Function.comp_apply, List.map_map]
    exact List.map_congr_left fun col _ => getD_fin col c

/-! ## The conditions are met -/

theorem smail_OK {a b z0 g zm : ℝ} (ha : 0 < a) (hb : 0 < b) (hz : 0 < z0) (hzm : 0 < zm) :
    (Nz.smail a b z0 g zm).OK where
  params := ⟨ha, hb, hz⟩
  zmax_nonneg := hzm.le
  norm _ := by
    have h := C45_smail a b z0 g zm hzm []
    intro h0
    have e : ∀ z, (((NzObj.new (.smail a b z0 g zm)).after []).call z).2 = 0 := by
      intro z
      change (Nz.smail a b z0 g zm).eval z = 0
      rw [Nz.eval_extended rfl, h0, div_zero]
    simp only [e] at h
    simp [simps, simpsBody] at h

theorem kde_OK {cat : List (ℝ × ℝ)} {bw g zm : ℝ} (hb : 0 < bw) (hw : ∀ e ∈ cat, 0 ≤ e.2)
    (hq : 0 < (cat.map fun e => e.2).sum) (hzm : 0 < zm) : (Nz.kde cat bw g zm).OK where
  params := ⟨hb.ne', hq.ne'⟩
  zmax_nonneg := hzm.le
  norm _ := by
    have h := C45_kde cat bw g zm hzm hb hw hq []
    intro h0
    have e : ∀ z, (((NzObj.new (.kde cat bw g zm)).after []).call z).2 = 0 := by
      intro z
      change (Nz.kde cat bw g zm).eval z = 0
      rw [Nz.eval_extended rfl, h0, div_zero]
    simp only [e] at h
    simp [simps, simpsBody] at h

/-- Witness: a lensing and a clustering sample of the library's tests, with intrinsic alignments. -/
noncomputable def exampleProbes : List Probe :=
  [.wl (WeakLensing.init [.smail 1 2 1 10 10, .delta 1 10 10] ),
   .nc (NumberCounts.init [.smail 1 2 1 10 10, .kde [(0.5, 1), (1, 2)] 0.1 10 10] (.bias (.invGrowth 1)))]

theorem exampleProbes_ok {pr : Probe} (h : pr ∈ exampleProbes) :
    pr.OK ∧ ∀ nz ∈ pr.bins, nz.zmax ≤ 899 := by
  have h1 : (Nz.smail 1 2 1 10 10).OK := smail_OK (by norm_num) (by norm_num) (by norm_num) (by norm_num)
  have h2 : (Nz.kde [(0.5, 1), (1, 2)] 0.1 10 10).OK :=
    kde_OK (by norm_num) (by norm_num) (by norm_num) (by norm_num)
  have h3 : (Nz.delta 1 10 10).OK := ⟨trivial, by norm_num [Nz.zmax], fun h => by simp [Nz.isDelta] at h⟩
  have hn : ∀ x : ℝ, 0 ≤ x → x ≠ -1 := fun x hx h => by linarith
  rw [exampleProbes, List.mem_cons, List.mem_singleton] at h
  rcases h with rfl | rfl
  · refine ⟨⟨?_, ?_⟩, ?_⟩
    · simp only [BinsOK, Probe.bins, WeakLensing.init, List.mem_cons, List.not_mem_nil, or_false,
        forall_eq_or_imp, forall_eq]
      exact ⟨⟨h1, hn _ le_rfl⟩, h3, hn _ zero_le_one⟩
    · simp [WeakLensing.init]
    · simp only [Probe.bins, WeakLensing.init, List.mem_cons, List.not_mem_nil, or_false,
        forall_eq_or_imp, forall_eq, Nz.zmax]
      norm_num
  · refine ⟨⟨?_, trivial⟩, ?_⟩
    · simp only [BinsOK, Probe.bins, NumberCounts.init, List.mem_cons, List.not_mem_nil, or_false,
        forall_eq_or_imp, forall_eq]
      exact ⟨⟨h1, hn _ le_rfl⟩, h2, hn _ le_rfl⟩
    · simp only [Probe.bins, NumberCounts.init, List.mem_cons, List.not_mem_nil, or_false,
        forall_eq_or_imp, forall_eq, Nz.zmax]
      norm_num

theorem example_SurveyOK : SurveyOK Planck15 (Xm.EH.wiggle Planck15) (wiggle Planck15) exampleProbes :=
  ⟨planck_powerOK_wiggle, rfl, fun _ h => (exampleProbes_ok h).1, fun _ h => (exampleProbes_ok h).2⟩

example : Xm.angularCl Planck15 [fin 10, fin 100] exampleProbes (Xm.EH.wiggle Planck15)
    = (angularCl Planck15 [10, 100] exampleProbes (wiggle Planck15)).map (List.map (List.map fin)) := by
  refine C115_spectra example_SurveyOK [10, 100] (by simp) fun ell he pr _ => ?_
  have : 1 ≤ ell := by
    simp only [List.mem_cons, List.not_mem_nil, or_false] at he
    rcases he with rfl | rfl <;> norm_num
  cases pr
  · exact Or.inl this
  · trivial

/-! ## Where the conditions fail -/

theorem xm_ellFactor_nan {ell : ℝ} (h0 : 0 < ell) (h1 : ell < 1) : Xm.ellFactor (fin ell) = nan := by
  have : (ell - 1) * ell * (ell + 1) * (ell + 2) < 0 := by
    have h2 : 0 < 1 - ell := by linarith
    have : 0 < (1 - ell) * ell * (ell + 1) * (ell + 2) := by positivity
    linarith
  unfold Xm.ellFactor
  simp only [lit_one, lit_nat, lit_sci, sub_fin, add_fin, mul_fin, Xr.sqrt_neg this, nan_div]

theorem xm_weakLensingKernel_nan {p : Params} {pzs : List Nz} {z : Xr} {ell : ℝ} (h0 : 0 < ell)
    (h1 : ell < 1) {l : List Xr} (h : Xm.weakLensingKernel p pzs z (fin ell) = .ok l) :
    ∀ x ∈ l, x = nan := by
  unfold Xm.weakLensingKernel at h
  obtain ⟨q, -, h⟩ := bind_ok h
  obtain ⟨zm, -, h⟩ := bind_ok h
  have h' := Except.ok.inj h
  intro x hx
  rw [← h'] at hx
  obtain ⟨r, -, rfl⟩ := List.mem_map.1 hx
  simp only [xm_ellFactor_nan h0 h1, mul_nan, nan_mul]

theorem bcast_nan {α : Type*} {f : Xr → α → Xr} (hf : ∀ y, f nan y = nan) {xs : List Xr} {ys : List α}
    (hx : ∀ x ∈ xs, x = nan) {l : List Xr} (h : Xm.bcast f xs ys = .ok l) : ∀ x ∈ l, x = nan := by
  have key : ∀ (xs : List Xr) (ys : List α), (∀ x ∈ xs, x = nan) → ∀ x ∈ List.zipWith f xs ys, x = nan := by
    intro xs
    induction xs with
    | nil => intro ys _ x hx; simp at hx
    | cons a xs ih =>
      intro ys ha x hx
      cases ys with
      | nil => simp at hx
      | cons y ys =>
        rw [List.zipWith_cons_cons] at hx
        rcases List.mem_cons.1 hx with rfl | hx
        · rw [ha a List.mem_cons_self, hf]
        · exact ih ys (fun b hb => ha b (List.mem_cons_of_mem _ hb)) x hx
  unfold Xm.bcast at h
  split_ifs at h with hl
  · rw [← Except.ok.inj h]
    exact key xs ys hx
  · rcases xs with - | ⟨a, - | ⟨a', xs⟩⟩
    · rcases ys with - | ⟨b, - | ⟨b', ys⟩⟩
      · cases h
      · rw [← Except.ok.inj h]; simp
      · cases h
    · rw [← Except.ok.inj h]
      intro v hv
      obtain ⟨y, -, rfl⟩ := List.mem_map.1 hv
      rw [hx a List.mem_cons_self, hf]
    · rcases ys with - | ⟨b, - | ⟨b', ys⟩⟩
      · cases h
      · rw [← Except.ok.inj h]
        intro v hv
        obtain ⟨y, hy, rfl⟩ := List.mem_map.1 hv
        rw [hx y hy, hf]
      · cases h

/-- C115: between the multipoles 0 and 1 every value of every lensing kernel is NaN, whatever the
cosmology, the bins, the alignment model and the shear calibration. -/
theorem C115_low_multipole {p : Params} {o : WeakLensing} {z : Xr} {ell : ℝ} (h0 : 0 < ell)
    (h1 : ell < 1) {l : List Xr} (h : Xm.kernel (.wl o) p z (fin ell) = .ok l) : ∀ x ∈ l, x = nan := by
  have hm : ∀ {k l : List Xr} {m : Val}, (∀ x ∈ k, x = nan) → Xm.applyM k m = .ok l →
      ∀ x ∈ l, x = nan := by
    intro k l m hk hl
    unfold Xm.applyM at hl
    split at hl
    · rw [← Except.ok.inj hl]
      intro v hv
      obtain ⟨y, hy, rfl⟩ := List.mem_map.1 hv
      rw [hk y hy, nan_mul]
    · cases hl
    · exact bcast_nan (f := fun k x => k * (1 + fin x)) (fun y => nan_mul _) hk hl
    · cases hl
  change Xm.wlKernel o p z (fin ell) = .ok l at h
  unfold Xm.wlKernel at h
  rcases hk : Xm.weakLensingKernel p o.bins z (fin ell) with e | k
  · rw [hk] at h; cases h
  · have hnan := xm_weakLensingKernel_nan h0 h1 hk
    rw [hk] at h
    cases hia : o.ia_enabled with
    | false =>
      rw [hia] at h
      exact hm hnan h
    | true =>
      rw [hia] at h
      cases h2 : o.param2 with
      | none => rw [h2] at h; cases h
      | some v =>
        rw [h2] at h
        rcases hn : Xm.nlaKernel p o.bins v z (fin ell) with e | ia
        · simp only [if_true, hn] at h; cases h
        · rcases hb : Xm.bcast (· + ·) k ia with e | k2
          · simp only [if_true, hn] at h
            change (Xm.bcast (· + ·) k ia >>= _) = _ at h
            rw [hb] at h; cases h
          · simp only [if_true, hn] at h
            change (Xm.bcast (· + ·) k ia >>= _) = _ at h
            rw [hb] at h
            exact hm (bcast_nan (fun y => nan_add y) hnan hb) h

/-- C115: so the condition on the multipoles is needed: at `ell = 1/2` a single source plane already
gives a NaN. -/
theorem C115_half : Xm.kernel (.wl (WeakLensing.init [.delta 1 10 10])) Planck15 (fin (1 / 2))
    (fin (1 / 2)) = .ok [nan] := by
  have e : ∀ r : Xr, r * Xm.ellFactor (fin 2⁻¹) = nan := fun r => by
    rw [xm_ellFactor_nan (by norm_num) (by norm_num), mul_nan]
  have hj : jitCosmo Planck15 = .ok Planck15 := jitCosmo_none rfl
  simp [Xm.kernel, Xm.wlKernel, WeakLensing.init, Xm.weakLensingKernel, hj, pyMax, extIdx, deltaIdx, argsort,
    Nz.isDelta, e, Xm.applyM, bind, Except.bind, pure, Except.pure]

/-- C115: a shifted single plane is accepted by the constructors but has no normalisation: unless a
node of Simpson's rule happens to hit the plane, its density is not a number at any redshift. -/
theorem C115_shifted_plane (z0 bias g zm g' zm' : ℝ)
    (h : ∀ i ≤ 256, Max.max (linspace 0 zm (256 + 1) i - bias) 0 ≠ z0) (z : ℝ) :
    ¬ (Xm.nzEval (.shift (.delta z0 g' zm') bias g zm) (fin z)).IsFinite := by
  have hn : Xm.computedNorm (.shift (.delta z0 g' zm') bias g zm) = fin 0 := by
    unfold Xm.computedNorm
    rw [lit_zero]
    have := Xm.simps_fin (f := fun _ => 0) (a := 0) (b := zm) (N := 256)
      (fX := fun t => Xm.pzFn (.shift (.delta z0 g' zm') bias g zm) t) (by norm_num) fun i hi => by
        have e : Xm.pzFn (.shift (.delta z0 g' zm') bias g zm) (fin (linspace 0 zm (256 + 1) i))
            = fin ((Nz.shift (.delta z0 g' zm') bias g zm).pzFn (linspace 0 zm (256 + 1) i)) := by
          unfold Xm.pzFn Nz.pzFn
          rw [sub_fin, lit_zero, max_fin]
          exact xm_pzFn (.delta z0 g' zm') trivial (le_max_right _ _)
        simp only [e]
        unfold Nz.pzFn Nz.pzFn
        rw [if_neg]
        exact h i hi
    rw [Nz.zmax, this]
    simp [simpsBody]
  have e : Xm.pzFn (.shift (.delta z0 g' zm') bias g zm) (fin z)
      = fin ((Nz.shift (.delta z0 g' zm') bias g zm).pzFn z) := by
    unfold Xm.pzFn Nz.pzFn
    rw [sub_fin, lit_zero, max_fin]
    exact xm_pzFn (.delta z0 g' zm') trivial (le_max_right _ _)
  unfold Xm.nzEval
  rw [hn, e, if_neg (by simp [Nz.isDelta])]
  change ¬ (Xr.div (fin _) (fin 0)).IsFinite
  simp only [Xr.div, if_true, infSign]
  split_ifs <;> simp [IsFinite]

example (z : ℝ) : ¬ (Xm.nzEval (.shift (.delta 0.5 1 10) (1 / 1000) 1 10) (fin z)).IsFinite := by
  refine C115_shifted_plane _ _ _ _ _ _ (fun i hi h => ?_) z
  have h2 : linspace (0 : ℝ) 10 (256 + 1) i = i * (10 / 256) := by
    unfold linspace; push_cast; ring
  rw [h2] at h
  rcases max_choice ((i : ℝ) * (10 / 256) - 1 / 1000) 0 with h3 | h3
  · rw [h3] at h
    have h4 : (i : ℝ) * 10000 = 128256 := by linarith
    have : i * 10000 = 128256 := by exact_mod_cast h4
    omega
  · rw [h3] at h; norm_num at h

end JaxCosmo
