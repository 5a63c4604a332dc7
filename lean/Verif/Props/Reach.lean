import Verif.Props.Limber

/-! # C151: spectra next to probes that reach further -/

namespace JaxCosmo
open Spec Set

theorem simpsBody_pos_left {f : ℝ → ℝ} {a b : ℝ} (hab : a < b) (N : ℕ) (hN : 2 ≤ N) (hev : N % 2 = 0)
    (hf : ∀ x, a ≤ x → x ≤ b → 0 ≤ f x) (hp : 0 < f a) : 0 < simpsBody f a b N := by
  have hN' : (0 : ℝ) < N := by exact_mod_cast (show 0 < N by omega)
  have hn : ∀ j ≤ N, 0 ≤ f (linspace a b (N + 1) j) := fun j hj => by
    rw [linspace_succ]
    have h1 : (j : ℝ) ≤ N := by exact_mod_cast hj
    have h2 : (j : ℝ) * ((b - a) / N) ≤ b - a := by
      rw [mul_div_assoc', div_le_iff₀ hN']; nlinarith
    have h3 : 0 ≤ (j : ℝ) * ((b - a) / N) := by
      have : 0 ≤ b - a := by linarith
      positivity
    exact hf _ (by linarith) (by linarith)
  simp only [simpsBody]
  refine mul_pos (div_pos (div_pos (by linarith) hN') (by norm_num)) ?_
  refine Finset.sum_pos' (fun j hj => ?_) ⟨0, Finset.mem_range.2 (by omega), ?_⟩
  · have := Finset.mem_range.1 hj
    have h1 := hn (2 * j) (by omega)
    have h2 := hn (2 * j + 1) (by omega)
    have h3 := hn (2 * j + 2) (by omega)
    linarith
  · have h1 : f (linspace a b (N + 1) (2 * 0)) = f a := by rw [linspace_succ]; simp
    have h2 := hn (2 * 0 + 1) (by omega)
    have h3 := hn (2 * 0 + 2) (by omega)
    rw [h1]
    linarith

/-- Matter that clusters only before scale factor `s`. -/
noncomputable def earlyPower (s : ℝ) : Params → ℝ → ℝ → (ℝ → ℝ) → Except PyErr ℝ := fun _ _ a _ => .ok (max (s - a) 0)

/-- A sample of galaxies with a Smail distribution. -/
noncomputable def smailProbe (α β z0 zmax : ℝ) : Probe := .nc (.init [.smail α β z0 1 zmax] (.bias (.constant 1)))

theorem smail_density_pos {α β z0 g zmax z : ℝ} (h : 0 < zmax) (hz : 0 < z) : 0 < (Nz.smail α β z0 g zmax).eval z := by
  rw [Nz.eval_extended rfl]
  refine div_pos (smail_pos hz _ _) ?_
  refine simpsBody_pos h 256 (by norm_num) (by norm_num) ?_ (i := 0) (by norm_num) ?_
  · intro x hx _
    exact mul_nonneg (Real.rpow_nonneg hx _) (Real.exp_pos _).le
  · refine smail_pos ?_ _ _
    rw [linspace_succ]
    push_cast
    linarith

/-- The kernel of such a sample. -/
noncomputable def smailRow (p : Params) (α β z0 zmax a : ℝ) : ℝ :=
  (Nz.smail α β z0 1 zmax).eval (1 / a - 1) * (Bias.constant 1).call p (1 / a - 1) * H p (z2a (1 / a - 1))

theorem smailProbe_kernel (p : Params) (hg : p.gamma = none) (α β z0 zmax ell a : ℝ) :
    (smailProbe α β z0 zmax).kernel p (1 / a - 1) ell = .ok [smailRow p α β z0 zmax a] :=
  density_rows p hg [.smail α β z0 1 zmax] (by simp) (by simp [Nz.isDelta]) (.constant 1) _ ell

theorem smailRow_ne {p : Params} (hE : EsqrPos p) {α β z0 zmax a : ℝ} (h : 0 < zmax) (h0 : 0 < a) (h1 : a < 1) :
    smailRow p α β z0 zmax a ≠ 0 := by
  have e : z2a (1 / a - 1) = a := by unfold z2a; field_simp; ring
  have hz : 0 < 1 / a - 1 := by rw [sub_pos, lt_div_iff₀ h0]; linarith
  have hH : 0 < H p a := by
    have := hE a h0 h1.le
    have : 0 < const_H0 := by norm_num [const_H0]
    unfold H
    positivity
  rw [smailRow, e]
  have := smail_density_pos (α := α) (β := β) (z0 := z0) (g := 1) h hz
  simp only [Bias.call]
  positivity

/-- C151: the galaxies of a sample are not cut at the largest redshift of its distribution.  Alone, they see
nothing of matter that clusters only before that redshift; next to a sample that reaches further, the same
galaxies have a spectrum that is not zero. -/
theorem C151_counts (p : Params) (hg : p.gamma = none) (hE : EsqrPos p) (T : ℝ → ℝ) {α β z0 α' β' z0' Z Z' : ℝ}
    (hZ : 0 < Z) (hZ' : Z < Z') (ell : ℝ) :
    ∃ x y u v, clAt p T (earlyPower (1 / (1 + Z))) [smailProbe α β z0 Z] ell = .ok [x] ∧
      clAt p T (earlyPower (1 / (1 + Z))) [smailProbe α β z0 Z, smailProbe α' β' z0' Z'] ell = .ok [y, u, v] ∧
      x = 0 ∧ 0 < y := by
  set s := 1 / (1 + Z) with hs
  have hc2 : 0 < const_c ^ 2 := by norm_num [const_c]
  have ha0 : 0 < 1 / (1 + Z') := by have : 0 < 1 + Z' := by linarith
                                    positivity
  have has : 1 / (1 + Z') < s := one_div_lt_one_div_of_lt (by linarith) (by linarith)
  have hs1 : s < 1 := by rw [hs, div_lt_one (by linarith)]; linarith
  have mA : probesZmax [smailProbe α β z0 Z] = .ok Z := rfl
  have mB : probesZmax [smailProbe α β z0 Z, smailProbe α' β' z0' Z'] = .ok Z' := by
    simp [probesZmax, smailProbe, Probe.zmax, Probe.bins, NumberCounts.init,
      pyMax, Nz.zmax, List.mapM_cons, bind, Except.bind, pure, Except.pure, hZ'.le]
  obtain ⟨colA, a1, a2, a3⟩ := C56_limber p T (earlyPower s) [smailProbe α β z0 Z] ell Z (fun a => max (s - a) 0)
    (fun _ a => [smailRow p α β z0 Z a]) mA (fun _ => rfl)
    (by
      intro pr hpr a
      rw [List.mem_singleton] at hpr
      subst hpr
      exact smailProbe_kernel p hg ..)
    (by intro pr hpr a; rw [List.mem_singleton] at hpr; subst hpr; rfl)
  obtain ⟨K, hK⟩ : ∃ K : Probe → ℝ → List ℝ, ∀ pr ∈ [smailProbe α β z0 Z, smailProbe α' β' z0' Z'], ∀ a,
      pr.kernel p (1 / a - 1) ell = .ok (K pr a) ∧ (K pr a).length = pr.bins.length := by
    have : ∀ pr, ∃ k : ℝ → List ℝ, pr ∈ [smailProbe α β z0 Z, smailProbe α' β' z0' Z'] → ∀ a,
      pr.kernel p (1 / a - 1) ell = .ok (k a) ∧ (k a).length = pr.bins.length := by
      intro pr
      by_cases h : pr ∈ [smailProbe α β z0 Z, smailProbe α' β' z0' Z']
      · simp only [List.mem_cons, List.not_mem_nil, or_false] at h
        rcases h with rfl | rfl
        · exact ⟨_, fun _ a => ⟨smailProbe_kernel p hg _ _ _ _ ell a, rfl⟩⟩
        · exact ⟨_, fun _ a => ⟨smailProbe_kernel p hg _ _ _ _ ell a, rfl⟩⟩
      · exact ⟨fun _ => [], fun h' => absurd h' h⟩
    choose K hK using this
    exact ⟨K, hK⟩
  obtain ⟨colB, b1, b2, -⟩ := C56_limber p T (earlyPower s) [smailProbe α β z0 Z, smailProbe α' β' z0' Z'] ell Z'
    (fun a => max (s - a) 0) K mB (fun _ => rfl) (fun pr hpr a => (hK pr hpr a).1) (fun pr hpr a => (hK pr hpr a).2)
  have nA : (tracers [smailProbe α β z0 Z]).length = 1 := rfl
  have nB : (tracers [smailProbe α β z0 Z, smailProbe α' β' z0' Z']).length = 2 := rfl
  have eA := clAt_entry a1 mA (i := 0) (j := 0) (by rw [nA]; norm_num) (by rw [nA]; norm_num)
  have eB := clAt_entry b1 mB (i := 0) (j := 0) (by rw [nB]; norm_num) (by rw [nB]; norm_num)
  rw [nA] at a2 eA
  rw [nB] at b2 eB
  obtain ⟨x, rfl⟩ := List.length_eq_one_iff.1 (a2.trans (by rfl))
  obtain ⟨y, u, v, rfl⟩ := List.length_eq_three.1 (b2.trans (by rfl))
  refine ⟨x, y, u, v, a1, b1, ?_, ?_⟩
  · have e : [x].getD (pairPos 1 0 0) 0 = x := rfl
    rw [← e, eA, ← simpsBody_512, simpsBody_congr _ (fun _ => 0) _ _ 512 (by norm_num) (fun k hk => ?_)]
    · simp [simpsBody]
    · have hn : s ≤ linspace (1 / (1 + Z)) 1 (512 + 1) k := by
        rw [linspace_succ, ← hs]
        have : 0 ≤ (1 - s) := by linarith
        have : 0 ≤ (k : ℝ) * ((1 - s) / (512 : ℕ)) := by positivity
        linarith
      have : limberPower p T (earlyPower s) ell (linspace (1 / (1 + Z)) 1 (512 + 1) k) = 0 := by
        simp only [limberPower, earlyPower]
        exact max_eq_right (by linarith)
      rw [limberIntegrand, this]
      simp
  · have e : [y, u, v].getD (pairPos 2 0 0) 0 = y := rfl
    have hk0 : ∀ a, gather (limberKernels p [smailProbe α β z0 Z, smailProbe α' β' z0' Z'] ell a) 0
        = smailRow p α β z0 Z a := by
      intro a
      have : limberKernels p [smailProbe α β z0 Z, smailProbe α' β' z0' Z'] ell a
          = [smailRow p α β z0 Z a, smailRow p α' β' z0' Z' a] := by
        unfold limberKernels
        simp only [List.mapM_cons, List.mapM_nil, smailProbe_kernel p hg, bind, Except.bind, pure, Except.pure]
        rfl
      rw [this]
      exact gather_some rfl
    have hf : ∀ a, limberIntegrand p T (earlyPower s) [smailProbe α β z0 Z, smailProbe α' β' z0' Z'] ell 0 0 a
        = max (s - a) 0 * (smailRow p α β z0 Z a * smailRow p α β z0 Z a) * dchioverda p a / max (chiOf p a ^ 2) 1 := by
      intro a; rw [limberIntegrand, hk0]; rfl
    rw [← e, eB, ← simpsBody_512]
    refine div_pos (simpsBody_pos_left (by linarith) 512 (by norm_num) (by norm_num) (fun a h h' => ?_) ?_) hc2
    · rw [hf]
      have := dchioverda_pos hE (ha0.trans_le h) h'
      have := mul_self_nonneg (smailRow p α β z0 Z a)
      positivity
    · rw [hf]
      have h1 := dchioverda_pos hE ha0 (by linarith)
      have h2 := mul_self_pos.2 (smailRow_ne hE (α := α) (β := β) (z0 := z0) hZ ha0 (by linarith))
      have h3 : 0 < max (s - 1 / (1 + Z')) 0 := lt_max_of_lt_left (by linarith)
      positivity

/-- C151 as stated: the spectrum of two tracers does not depend on what else is in the list of probes. -/
theorem C151_refuted : ¬ ∀ (p : Params) (T : ℝ → ℝ) (nl : Params → ℝ → ℝ → (ℝ → ℝ) → Except PyErr ℝ)
    (A B : List Probe) (ell : ℝ) (colA colB : List ℝ) (i j i' j' : ℕ) (x y : Probe × ℕ), p.gamma = none → Physical p →
    (∀ pr ∈ A, pr.Consistent) → (∀ pr ∈ B, pr.Consistent) →
    clAt p T nl A ell = .ok colA → clAt p T nl B ell = .ok colB →
    (tracers A)[i]? = some x → (tracers A)[j]? = some y → (tracers B)[i']? = some x → (tracers B)[j']? = some y →
    colA.getD (pairPos (tracers A).length i j) 0 = colB.getD (pairPos (tracers B).length i' j') 0 := by
  intro h
  obtain ⟨x, y, u, v, h1, h2, h3, h4⟩ := C151_counts Planck15 rfl planck_physical.esqrPos (fun _ => 1)
    (α := 1) (β := 2) (z0 := 1) (α' := 1) (β' := 2) (z0' := 2) (Z := 1) (Z' := 3) (by norm_num) (by norm_num) 10
  have := h Planck15 (fun _ => 1) _ _ _ 10 _ _ 0 0 0 0 _ _ rfl planck_physical
    (by intro pr hpr; rw [List.mem_singleton] at hpr; subst hpr; simp [smailProbe, NumberCounts.init, Probe.Consistent, Val.single])
    (by
      intro pr hpr
      simp only [List.mem_cons, List.not_mem_nil, or_false] at hpr
      rcases hpr with rfl | rfl <;> simp [smailProbe, NumberCounts.init, Probe.Consistent, Val.single])
    h1 h2 rfl rfl rfl rfl
  have e1 : [x].getD (pairPos (tracers [smailProbe 1 2 1 1]).length 0 0) 0 = x := rfl
  have e2 : [y, u, v].getD (pairPos (tracers [smailProbe 1 2 1 1, smailProbe 1 2 2 3]).length 0 0) 0 = y := rfl
  rw [e1, e2] at this
  linarith

/-- C151: the number of galaxies projected grows with the reach of the other probes. -/
theorem C151_number {α β z0 g Z Z' : ℝ} (hα : 0 ≤ α) (hβ : 0 ≤ β) (hZ : 0 < Z) (hZ' : Z < Z') :
    ∫ z in (0 : ℝ)..Z, (Nz.smail α β z0 g Z).eval z < ∫ z in (0 : ℝ)..Z', (Nz.smail α β z0 g Z).eval z := by
  have hc : Continuous ((Nz.smail α β z0 g Z).eval) := by
    have : (Nz.smail α β z0 g Z).eval = fun z => z ^ α * Real.exp (-((z / z0) ^ β)) / (Nz.smail α β z0 g Z).computedNorm := by
      funext z; rw [Nz.eval_extended rfl]; rfl
    rw [this]
    exact ((Real.continuous_rpow_const hα).mul (Real.continuous_exp.comp
      ((Real.continuous_rpow_const hβ).comp (continuous_id.div_const _)).neg)).div_const _
  rw [← intervalIntegral.integral_add_adjacent_intervals (hc.intervalIntegrable 0 Z) (hc.intervalIntegrable Z Z')]
  have := intervalIntegral.intervalIntegral_pos_of_pos_on (hc.intervalIntegrable Z Z')
    (fun z hz => smail_density_pos hZ (hZ.trans hz.1)) hZ'
  linarith

theorem wl_kernel_beyond {p : Params} (hg : p.gamma = none) (hE : EsqrPos p) {o : WeakLensing} (hia : o.ia_enabled = false)
    (hd : ∀ pz ∈ o.bins, pz.isDelta = false) {zo z ell : ℝ} (hp : pyMax (o.bins.map Nz.zmax) = .ok zo) (h0 : 0 ≤ zo)
    (hz : zo ≤ z) {k : List ℝ} (hk : o.kernel p z ell = .ok k) : ∀ x ∈ k, x = 0 := by
  unfold WeakLensing.kernel at hk
  obtain ⟨k0, h1, h2⟩ := bind_ok hk
  have hz0 := C49_beyond p hg hE o.bins hp h0 hd hz h1
  rw [hia] at h2
  obtain ⟨k1, h3, h4⟩ := bind_ok h2
  obtain rfl : k0 = k1 := Except.ok.inj h3
  unfold applyM at h4
  split at h4
  · rw [← Except.ok.inj h4]
    intro x hx
    obtain ⟨y, hy, rfl⟩ := List.mem_map.1 hx
    rw [hz0 y hy, zero_mul]
  · cases h4
  · beta_reduce at h4
    unfold bcast at h4
    split at h4
    · rw [← Except.ok.inj h4]
      intro x hx
      obtain ⟨i, hi, rfl⟩ := List.mem_iff_getElem.1 hx
      rw [List.getElem_zipWith, hz0 _ (List.getElem_mem _), zero_mul]
    · split at h4
      · rw [← Except.ok.inj h4]
        intro x hx
        obtain ⟨y, hy, rfl⟩ := List.mem_map.1 hx
        beta_reduce
        rw [hz0 _ (List.mem_singleton.2 rfl), zero_mul]
      · rw [← Except.ok.inj h4]
        intro x hx
        obtain ⟨y, hy, rfl⟩ := List.mem_map.1 hx
        beta_reduce
        rw [hz0 y hy, zero_mul]
      · cases h4
  · cases h4

/-- C151, what holds: the spectrum of a lensing tracer without intrinsic alignments with any tracer is, in a longer
list of probes that reaches further, Simpson's rule for the same integral. -/
theorem C151_lensing_partial (p : Params) (hg : p.gamma = none) (hE : EsqrPos p) (T : ℝ → ℝ)
    (nl : Params → ℝ → ℝ → (ℝ → ℝ) → Except PyErr ℝ) (A B : List Probe) (ell : ℝ) {Z Z' : ℝ} (hZ : 0 ≤ Z) (hZ' : Z ≤ Z')
    (hcA : ∀ pr ∈ A, pr.Consistent) (hcB : ∀ pr ∈ B, pr.Consistent)
    {i j i' j' : ℕ} {o : WeakLensing} {t : ℕ} {y : Probe × ℕ} (hia : o.ia_enabled = false)
    (hd : ∀ pz ∈ o.bins, pz.isDelta = false)
    {zo : ℝ} (hzo : (Probe.wl o).zmax = .ok zo) (h0 : 0 ≤ zo) (hzo' : zo ≤ Z)
    (hi : (tracers A)[i]? = some (.wl o, t)) (hj : (tracers A)[j]? = some y)
    (hi' : (tracers B)[i']? = some (.wl o, t)) (hj' : (tracers B)[j']? = some y)
    (hvA : ∀ a ∈ Icc (1 / (1 + Z)) 1, ∃ v, clIntegrand p T nl A ell a = .ok v)
    (hvB : ∀ a ∈ Icc (1 / (1 + Z')) 1, ∃ v, clIntegrand p T nl B ell a = .ok v) :
    (∀ a ∈ Icc (1 / (1 + Z')) (1 / (1 + Z)), limberIntegrand p T nl B ell i' j' a = 0) ∧
    (∀ a ∈ Icc (1 / (1 + Z)) 1, limberIntegrand p T nl B ell i' j' a = limberIntegrand p T nl A ell i j a) ∧
    ∫ a in (1 / (1 + Z'))..1, limberIntegrand p T nl B ell i' j' a
      = ∫ a in (1 / (1 + Z))..1, limberIntegrand p T nl A ell i j a := by
  have ha0 : 0 < 1 / (1 + Z') := by have : 0 < 1 + Z' := by linarith
                                    positivity
  have has : 1 / (1 + Z') ≤ 1 / (1 + Z) := one_div_le_one_div_of_le (by linarith) (by linarith)
  have hs1 : 1 / (1 + Z) ≤ 1 := (div_le_one (by linarith)).2 (by linarith)
  have hv : ∀ a ∈ Icc (1 / (1 + Z')) (1 / (1 + Z)), limberIntegrand p T nl B ell i' j' a = 0 := by
    intro a ha
    obtain ⟨v, hv⟩ := hvB a ⟨ha.1, ha.2.trans hs1⟩
    obtain ⟨r, h1, h2⟩ := limberKernels_tracer hv hcB hi'
    have hz : zo ≤ 1 / a - 1 := by
      have := one_div_le_one_div_of_le (ha0.trans_le ha.1) ha.2
      rw [one_div_one_div] at this
      linarith
    have hr := wl_kernel_beyond hg hE hia hd hzo h0 hz h1
    have : r.getD t 0 = 0 := by
      rcases lt_or_ge t r.length with h | h
      · rw [List.getD_eq_getElem _ _ h]; exact hr _ (List.getElem_mem _)
      · rw [List.getD_eq_default _ _ h]
    rw [limberIntegrand, h2, this]
    simp
  have he : ∀ a ∈ Icc (1 / (1 + Z)) 1, limberIntegrand p T nl B ell i' j' a = limberIntegrand p T nl A ell i j a := by
    intro a ha
    obtain ⟨vA, hvA⟩ := hvA a ha
    obtain ⟨vB, hvB⟩ := hvB a ⟨has.trans ha.1, ha.2⟩
    have key : ∀ {i i' : ℕ} {x : Probe × ℕ}, (tracers A)[i]? = some x → (tracers B)[i']? = some x →
        gather (limberKernels p B ell a) i' = gather (limberKernels p A ell a) i := by
      intro i i' x h h'
      obtain ⟨r, a1, a2⟩ := limberKernels_tracer hvA hcA (i := i) (pr := x.1) (t := x.2) h
      obtain ⟨r', b1, b2⟩ := limberKernels_tracer hvB hcB (i := i') (pr := x.1) (t := x.2) h'
      rw [a2, b2, Except.ok.inj (a1.symm.trans b1)]
    simp only [limberIntegrand, key hi hi', key hj hj']
  refine ⟨hv, he, ?_⟩
  rw [intervalIntegral.integral_of_le (has.trans hs1), intervalIntegral.integral_of_le hs1]
  rw [MeasureTheory.setIntegral_eq_of_subset_of_forall_sdiff_eq_zero measurableSet_Ioc (Ioc_subset_Ioc_left has)
    (fun a ha => hv a ⟨ha.1.1.le, ?_⟩)]
  · exact MeasureTheory.setIntegral_congr_fun measurableSet_Ioc fun a ha => he a ⟨ha.1.le, ha.2⟩
  · by_contra hlt
    exact ha.2 ⟨not_le.1 hlt, ha.1.2⟩

/-- C151: galaxies with distributions up to redshift 1 and 3 in the Planck cosmology. -/
example : ∃ x y u v, clAt Planck15 (fun _ => 1) (earlyPower (1 / (1 + 1))) [smailProbe 1 2 1 1] 10 = .ok [x] ∧
    clAt Planck15 (fun _ => 1) (earlyPower (1 / (1 + 1))) [smailProbe 1 2 1 1, smailProbe 1 2 2 3] 10 = .ok [y, u, v] ∧
    x ≠ y := by
  obtain ⟨x, y, u, v, h1, h2, h3, h4⟩ := C151_counts Planck15 rfl planck_physical.esqrPos (fun _ => 1)
    (α := 1) (β := 2) (z0 := 1) (α' := 1) (β' := 2) (z0' := 2) (Z := 1) (Z' := 3) (by norm_num) (by norm_num) 10
  exact ⟨x, y, u, v, h1, h2, by rw [h3]; exact h4.ne⟩

/-- C151: sources up to redshift 2 next to galaxies up to redshift 4. -/
example (T : ℝ → ℝ) : ∃ F G : ℝ → ℝ,
    F = limberIntegrand Planck15 T linear [.wl (.init [.smail 1 2 1 1 2])] 10 0 0 ∧
    G = limberIntegrand Planck15 T linear [.nc (.init [.smail 1 2 1 1 4] (.bias (.constant 1))), .wl (.init [.smail 1 2 1 1 2])] 10 1 1 ∧
    ∫ a in (1 / (1 + 4) : ℝ)..1, G a = ∫ a in (1 / (1 + 2) : ℝ)..1, F a := by
  refine ⟨_, _, rfl, rfl, ?_⟩
  have hw : ∀ z ell, ∃ k, (Probe.wl (.init [.smail 1 2 1 1 2])).kernel Planck15 z ell = .ok k := by
    intro z ell
    have := C48_order Planck15 rfl [.smail 1 2 1 1 2] z ell 2 rfl
    simp only [Probe.kernel, WeakLensing.kernel, WeakLensing.init]
    rw [this]
    exact ⟨_, rfl⟩
  have hn : ∀ z ell, ∃ k, (Probe.nc (.init [.smail 1 2 1 1 4] (.bias (.constant 1)))).kernel Planck15 z ell = .ok k :=
    fun z ell => ⟨_, density_rows Planck15 rfl [.smail 1 2 1 1 4] (by simp) (by simp [Nz.isDelta]) (.constant 1) z ell⟩
  refine (C151_lensing_partial Planck15 rfl planck_physical.esqrPos T linear _ _ 10 (Z := 2) (Z' := 4) (by norm_num)
    (by norm_num) ?_ ?_ (o := .init [.smail 1 2 1 1 2]) (t := 0) (y := (.wl (.init [.smail 1 2 1 1 2]), 0)) rfl ?_
    (zo := 2) rfl (by norm_num) le_rfl rfl rfl rfl rfl ?_ ?_).2.2
  · intro pr hpr
    rw [List.mem_singleton] at hpr
    subst hpr
    simp [WeakLensing.init, Probe.Consistent, Val.single]
  · intro pr hpr
    simp only [List.mem_cons, List.not_mem_nil, or_false] at hpr
    rcases hpr with rfl | rfl <;> simp [WeakLensing.init, NumberCounts.init, Probe.Consistent, Val.single]
  · simp [WeakLensing.init, Nz.isDelta]
  · intro a _
    exact clIntegrand_returns ⟨_, C42_linear _ _ _ _⟩ (by
      intro pr hpr; rw [List.mem_singleton] at hpr; subst hpr; exact hw _ _)
  · intro a _
    refine clIntegrand_returns ⟨_, C42_linear _ _ _ _⟩ ?_
    intro pr hpr
    simp only [List.mem_cons, List.not_mem_nil, or_false] at hpr
    rcases hpr with rfl | rfl
    · exact hn _ _
    · exact hw _ _

end JaxCosmo
