import Verif.Model.Probes
import Verif.Spec.Probes
import Verif.Proofs.Argsort
import Verif.Props.Distances
import Verif.Props.Growth
import Verif.Props.Redshift
import Mathlib.Topology.Algebra.Order.Field
import Mathlib.Topology.Order.OrderClosed
import Mathlib.Order.Filter.AtTopBot.Field

/-! # C48–C53: probes -/

namespace JaxCosmo
open Spec Topology
open Filter (Tendsto atTop tendsto_pow_atTop tendsto_atTop_add_const_right tendsto_id
  eventually_ge_atTop)

/-! ## Preliminaries -/

theorem jitCosmo_none {p : Params} (h : p.gamma = none) : jitCosmo p = .ok p := by
  cases p
  simp only at h
  subst h
  rfl

theorem jitCosmo_some {p : Params} {g : ℝ} (h : p.gamma = some g) :
    jitCosmo p = .error .attributeError := by
  cases p
  simp only at h
  subst h
  rfl

theorem simpsBody_simpson (f : ℝ → ℝ) (a b : ℝ) : simpsBody f a b 256 = simpson f a b 128 := by
  simp only [simpsBody, simpson, linspace_succ]
  norm_num

theorem ellFactor_eq (l : ℝ) : ellFactor l = spinFactor l := by
  unfold ellFactor spinFactor; norm_num

theorem pyMax_ok {l : List ℝ} {m : ℝ} (h : pyMax l = .ok m) : ∀ x ∈ l, x ≤ m := by
  cases l with
  | nil => simp [pyMax] at h
  | cons a l =>
    simp only [pyMax, Except.ok.injEq] at h
    subst h
    have key : ∀ (l : List ℝ) (a : ℝ), a ≤ l.foldl max a ∧ ∀ x ∈ l, x ≤ l.foldl max a := by
      intro l
      induction l with
      | nil => intro a; simp
      | cons b l ih =>
        intro a
        simp only [List.foldl_cons, List.mem_cons, forall_eq_or_imp]
        obtain ⟨h1, h2⟩ := ih (max a b)
        exact ⟨le_trans (le_max_left _ _) h1, le_trans (le_max_right _ _) h1, h2⟩
    intro x hx
    rcases List.mem_cons.1 hx with rfl | hx
    · exact (key l x).1
    · exact (key l a).2 x hx

/-- The comoving distance as a function of redshift, as used by the kernels. -/
noncomputable def chiZ (p : Params) (z : ℝ) : ℝ := chiOf p (z2a z)

theorem chiZ_nonneg (p : Params) (z : ℝ) : 0 ≤ chiZ p z := C06_nonneg p (-3) 256 _

theorem chiZ_mono {p : Params} (hE : EsqrPos p) {z z' : ℝ} (hz : 0 ≤ z) (h : z ≤ z') :
    chiZ p z ≤ chiZ p z' := by
  refine C06_antitone (by norm_num) (by norm_num) hE ?_
  unfold z2a
  exact one_div_le_one_div_of_le (by linarith) (by linarith)

/-! ## C48 -/

/-- Spec: the kernel of one bin. -/
noncomputable def binKernel (p : Params) (zmax z ell : ℝ) (pz : Nz) : ℝ :=
  lensKernel p.Omega_m const_H0 const_c (chiZ p) z ell
    (match pz with
      | .delta z0 _ _ => lensWeight (chiZ p) z z0
      | _ => simpson (fun z' => pz.eval z' * lensWeight (chiZ p) z z') z zmax 128)

/-- C48: for any mixture and order of bins, entry `i` of the weak lensing kernel is the kernel of
bin `i`, computed with the common `zmax`. -/
theorem C48_order (p : Params) (hg : p.gamma = none) (pzs : List Nz) (z ell zmax : ℝ)
    (hz : pyMax (pzs.map Nz.zmax) = .ok zmax) :
    weakLensingKernel p pzs z ell = .ok (pzs.map (binKernel p zmax z ell)) := by
  have hrows : (extIdx pzs).map (fun i => extRow p zmax z (pzs.getD i (.delta 0 0 0)))
      ++ (deltaIdx pzs).map (fun i => deltaRow p z (pzs.getD i (.delta 0 0 0)))
      = (extIdx pzs ++ deltaIdx pzs).map (fun i =>
          if (pzs.getD i (.delta 0 0 0)).isDelta then deltaRow p z (pzs.getD i (.delta 0 0 0))
          else extRow p zmax z (pzs.getD i (.delta 0 0 0))) := by
    rw [List.map_append]
    congr 1
    · apply List.map_congr_left
      intro i hi
      have h2 := List.mem_filter.1 hi
      have hi' : i < pzs.length := List.mem_range.1 h2.1
      have h3 := h2.2
      rw [List.getElem?_eq_getElem hi'] at h3
      rw [List.getD_eq_getElem _ _ hi']
      simp only [Option.map_some, Option.getD_some, Bool.not_eq_true'] at h3
      simp [h3]
    · apply List.map_congr_left
      intro i hi
      have h2 := List.mem_filter.1 hi
      have hi' : i < pzs.length := List.mem_range.1 h2.1
      have h3 := h2.2
      rw [List.getElem?_eq_getElem hi'] at h3
      rw [List.getD_eq_getElem _ _ hi']
      simp only [Option.map_some, Option.getD_some] at h3
      simp [h3]
  unfold weakLensingKernel
  rw [jitCosmo_none hg]
  simp only [bind, Except.bind, hz, pure, Except.pure, Except.ok.injEq]
  rw [hrows, argsort_rows _ pzs.length (ext_delta_perm pzs), List.map_map]
  apply List.ext_getElem
  · simp
  · intro i h1 h2
    have hi : i < pzs.length := by simpa using h2
    simp only [List.getElem_map, List.getElem_range, Function.comp_apply]
    rw [List.getD_eq_getElem _ _ hi]
    generalize pzs[i] = pz
    rw [ellFactor_eq]
    cases pz <;>
      simp only [Nz.isDelta, if_true, if_false, Bool.false_eq_true, extRow, deltaRow, binKernel,
        lensKernel, lensWeight, Nz.plane, clipLo, chiZ, simpsBody_simpson, mul_div_assoc] <;> ring

/-- C48: in particular the order of the bins is preserved under any permutation of the list. -/
theorem C48_perm (p : Params) (hg : p.gamma = none) (pzs pzs' : List Nz) (h : pzs.Perm pzs')
    (z ell zmax : ℝ) (hz : pyMax (pzs.map Nz.zmax) = .ok zmax)
    (hz' : pyMax (pzs'.map Nz.zmax) = .ok zmax) :
    ∃ k k', weakLensingKernel p pzs z ell = .ok k ∧ weakLensingKernel p pzs' z ell = .ok k' ∧
      k.Perm k' :=
  ⟨_, _, C48_order p hg pzs z ell zmax hz, C48_order p hg pzs' z ell zmax hz', h.map _⟩

/-- C48: an empty list of bins is refused, and so is any cosmology with `gamma`. -/
theorem C48_rejects (p : Params) (z ell : ℝ) :
    (p.gamma = none → weakLensingKernel p [] z ell = .error .valueError) ∧
    (∀ g, p.gamma = some g → ∀ pzs, weakLensingKernel p pzs z ell = .error .attributeError) := by
  constructor
  · intro h
    unfold weakLensingKernel
    rw [jitCosmo_none h]; rfl
  · intro g h pzs
    unfold weakLensingKernel
    rw [jitCosmo_some h]; rfl

/-- Witness: three bins, the plane in the middle, different `zmax`. -/
example (z ell : ℝ) : weakLensingKernel Planck15
    [.smail 1 2 1 1 4, .delta 1 1 10, .kde [(0.5, 1)] 0.1 1 3] z ell
    = .ok [binKernel Planck15 10 z ell (.smail 1 2 1 1 4), binKernel Planck15 10 z ell (.delta 1 1 10),
        binKernel Planck15 10 z ell (.kde [(0.5, 1)] 0.1 1 3)] :=
  C48_order Planck15 rfl _ z ell 10 (by norm_num [pyMax, Nz.zmax])

/-! ## C50 -/

theorem spin_poly (l : ℝ) : (l - 1) * l * (l + 1) * (l + 2)
    = ((l + 1 / 2) ^ 2 - 1 / 4) * ((l + 1 / 2) ^ 2 - 9 / 4) := by ring

/-- C50: the factor used by both kernels is in `[0, 1)` for every `ell ≥ 1`. -/
theorem C50_range (l : ℝ) (hl : 1 ≤ l) : 0 ≤ ellFactor l ∧ ellFactor l < 1 := by
  unfold ellFactor
  have h0 : (0 : ℝ) < (l + 0.5) ^ 2 := by positivity
  refine ⟨div_nonneg (Real.sqrt_nonneg _) h0.le, ?_⟩
  rw [div_lt_one h0, Real.sqrt_lt' h0, spin_poly]
  norm_num
  have : (9 : ℝ) / 4 ≤ (l + 1 / 2) ^ 2 := by nlinarith
  nlinarith

/-- C50: it vanishes at `ell = 1`. -/
theorem C50_one : ellFactor 1 = 0 := by simp [ellFactor]

/-- C50: it is strictly increasing on `ell ≥ 1`. -/
theorem C50_strictMono {l m : ℝ} (hl : 1 ≤ l) (h : l < m) : ellFactor l < ellFactor m := by
  have key : ∀ x : ℝ, 1 ≤ x → ellFactor x
      = √((1 - 1 / 4 / (x + 1 / 2) ^ 2) * (1 - 9 / 4 / (x + 1 / 2) ^ 2)) := by
    intro x hx
    have h0 : 0 < (x + 1 / 2) ^ 2 := by positivity
    rw [ellFactor_eq, spinFactor, spin_poly, ← Real.sqrt_sq h0.le, ← Real.sqrt_div' _ (by positivity),
      Real.sqrt_sq h0.le]
    congr 1
    field_simp
  rw [key l hl, key m (by linarith)]
  have h1 : (9 : ℝ) / 4 ≤ (l + 1 / 2) ^ 2 := by nlinarith
  have h2 : (l + 1 / 2) ^ 2 < (m + 1 / 2) ^ 2 := by nlinarith
  generalize (l + 1 / 2) ^ 2 = u at *
  generalize (m + 1 / 2) ^ 2 = v at *
  have e1 : 9 / 4 / v < 9 / 4 / u := div_lt_div_of_pos_left (by norm_num) (by linarith) h2
  have e2 : 1 / 4 / v < 1 / 4 / u := div_lt_div_of_pos_left (by norm_num) (by linarith) h2
  have e3 : 9 / 4 / u ≤ 1 := (div_le_one (by linarith)).2 h1
  have e4 : 1 / 4 / u ≤ 1 / 9 := by
    rw [div_le_iff₀ (by linarith)]; linarith
  refine Real.sqrt_lt_sqrt (mul_nonneg (by linarith) (by linarith)) ?_
  exact mul_lt_mul'' (by linarith) (by linarith) (by linarith) (by linarith)

/-- C50: it tends to one at small scales. -/
theorem C50_tendsto : Tendsto ellFactor atTop (𝓝 1) := by
  have hx : Tendsto (fun x : ℝ => (x + 1 / 2) ^ 2) atTop atTop :=
    (tendsto_pow_atTop two_ne_zero).comp (tendsto_atTop_add_const_right _ _ tendsto_id)
  have h1 : Tendsto (fun x : ℝ => √((1 - 1 / 4 / (x + 1 / 2) ^ 2) * (1 - 9 / 4 / (x + 1 / 2) ^ 2)))
      atTop (𝓝 1) := by
    have a := (hx.const_div_atTop (1 / 4)).const_sub 1
    have b := (hx.const_div_atTop (9 / 4)).const_sub 1
    have := (a.mul b).sqrt
    simpa using this
  refine h1.congr' ?_
  filter_upwards [eventually_ge_atTop 1] with x hx
  have h0 : 0 < (x + 1 / 2) ^ 2 := by positivity
  rw [ellFactor_eq, spinFactor, spin_poly, ← Real.sqrt_sq h0.le, ← Real.sqrt_div' _ (by positivity),
    Real.sqrt_sq h0.le]
  congr 1
  field_simp

/-- Witness: quadrupole, dipole. -/
example : 0 ≤ ellFactor 2 ∧ ellFactor 2 < 1 ∧ ellFactor 1 < ellFactor 2 :=
  ⟨(C50_range 2 (by norm_num)).1, (C50_range 2 (by norm_num)).2,
    C50_strictMono le_rfl (by norm_num)⟩

/-! ## C49 -/

theorem lensWeight_nonneg (chi : ℝ → ℝ) (z z' : ℝ) : 0 ≤ lensWeight chi z z' :=
  div_nonneg (le_max_right _ _) (le_trans zero_le_one (le_max_right _ _))

theorem lensWeight_behind {p : Params} (hE : EsqrPos p) {z z' : ℝ} (h0 : 0 ≤ z') (h : z' ≤ z) :
    lensWeight (chiZ p) z z' = 0 := by
  unfold lensWeight
  rw [max_eq_right (sub_nonpos.2 (chiZ_mono hE h0 h)), zero_div]

theorem prefactor_nonneg {p : Params} (hm : 0 ≤ p.Omega_m) {z ell q : ℝ} (hz : 0 ≤ z)
    (hq : 0 ≤ q) : 0 ≤ lensKernel p.Omega_m const_H0 const_c (chiZ p) z ell q := by
  have := chiZ_nonneg p z
  unfold lensKernel const_H0 const_c spinFactor
  positivity

theorem simpson_eq_zero {f : ℝ → ℝ} {a b : ℝ} (h : ∀ x, min a b ≤ x → x ≤ max a b → f x = 0) :
    simpson f a b 128 = 0 := by
  rw [← simpsBody_simpson, simpsBody_congr f (fun _ => 0) a b 256 (by norm_num), simpsBody_zero]
  intro i hi
  apply h
  · rcases le_total a b with hab | hab
    · rw [min_eq_left hab]; exact (linspace_mem a b hab 256 i hi (by norm_num)).1
    · rw [min_eq_right hab, linspace_succ]
      have h2 : (i : ℝ) ≤ 256 := by exact_mod_cast hi
      push_cast
      nlinarith
  · rcases le_total a b with hab | hab
    · rw [max_eq_right hab]; exact (linspace_mem a b hab 256 i hi (by norm_num)).2
    · rw [max_eq_left hab, linspace_succ]
      have h2 : (0 : ℝ) ≤ i := by positivity
      push_cast
      nlinarith

/-- C49: for non-negative `n(z)` the lensing kernel is non-negative at every `z ≥ 0`. -/
theorem C49_nonneg (p : Params) (hg : p.gamma = none) (hE : EsqrPos p) (hm : 0 ≤ p.Omega_m)
    (pzs : List Nz) (hzm : ∀ pz ∈ pzs, 0 ≤ pz.zmax)
    (hn : ∀ pz ∈ pzs, ∀ z, 0 ≤ z → 0 ≤ pz.eval z) {z ell : ℝ} (hz : 0 ≤ z) {k : List ℝ}
    (hk : weakLensingKernel p pzs z ell = .ok k) : ∀ x ∈ k, 0 ≤ x := by
  rcases hp : pyMax (pzs.map Nz.zmax) with e | zmax
  · cases pzs with
    | nil => rw [(C48_rejects p z ell).1 hg] at hk; simp at hk
    | cons a l => simp [pyMax] at hp
  rw [C48_order p hg pzs z ell zmax hp, Except.ok.injEq] at hk
  subst hk
  intro x hx
  obtain ⟨pz, hpz, rfl⟩ := List.mem_map.1 hx
  have hzmax : 0 ≤ zmax :=
    le_trans (hzm pz hpz) (pyMax_ok hp pz.zmax (List.mem_map.2 ⟨pz, hpz, rfl⟩))
  have hS : 0 ≤ simpson (fun z' => pz.eval z' * lensWeight (chiZ p) z z') z zmax 128 := by
    rcases le_total z zmax with h | h
    · rw [← simpsBody_simpson]
      exact simpsBody_nonneg _ _ _ h 256 (by norm_num) fun x h1 _ =>
        mul_nonneg (hn pz hpz x (hz.trans h1)) (lensWeight_nonneg _ _ _)
    · rw [simpson_eq_zero]
      intro x h1 h2
      rw [min_eq_right h] at h1
      rw [max_eq_left h] at h2
      rw [lensWeight_behind hE (hzmax.trans h1) h2, mul_zero]
  unfold binKernel
  apply prefactor_nonneg hm hz
  cases pz <;> first | exact hS | exact lensWeight_nonneg _ _ _

/-- C49: it vanishes at and beyond the largest redshift of the sources. -/
theorem C49_beyond (p : Params) (hg : p.gamma = none) (hE : EsqrPos p) (pzs : List Nz)
    {zmax : ℝ} (hp : pyMax (pzs.map Nz.zmax) = .ok zmax) (h0 : 0 ≤ zmax)
    (hd : ∀ pz ∈ pzs, pz.isDelta = false) {z ell : ℝ} (hz : zmax ≤ z) {k : List ℝ}
    (hk : weakLensingKernel p pzs z ell = .ok k) : ∀ x ∈ k, x = 0 := by
  rw [C48_order p hg pzs z ell zmax hp, Except.ok.injEq] at hk
  subst hk
  intro x hx
  obtain ⟨pz, hpz, rfl⟩ := List.mem_map.1 hx
  have hS : simpson (fun z' => pz.eval z' * lensWeight (chiZ p) z z') z zmax 128 = 0 := by
    rw [simpson_eq_zero]
    intro x h1 h2
    rw [min_eq_right hz] at h1
    rw [max_eq_left hz] at h2
    rw [lensWeight_behind hE (h0.trans h1) h2, mul_zero]
  have := hd pz hpz
  unfold binKernel
  cases pz <;> simp_all [lensKernel, Nz.isDelta]

/-- C49: a single-plane bin does not lens at or behind its plane, whatever the other bins. -/
theorem C49_plane (p : Params) (hg : p.gamma = none) (hE : EsqrPos p) (pzs : List Nz)
    {z0 g zm : ℝ} {i : ℕ} (hi : pzs[i]? = some (.delta z0 g zm)) (h0 : 0 ≤ z0) {z ell : ℝ}
    (hz : z0 ≤ z) {k : List ℝ} (hk : weakLensingKernel p pzs z ell = .ok k) :
    k[i]? = some 0 := by
  rcases hp : pyMax (pzs.map Nz.zmax) with e | zmax
  · cases pzs with
    | nil => simp at hi
    | cons a l => simp [pyMax] at hp
  rw [C48_order p hg pzs z ell zmax hp, Except.ok.injEq] at hk
  subst hk
  rw [List.getElem?_map, hi, Option.map_some]
  simp [binKernel, lensWeight_behind hE h0 hz, lensKernel]

/-- C49: it also vanishes at the observer. -/
theorem C49_observer (p : Params) (hg : p.gamma = none) (pzs : List Nz) {ell : ℝ} {k : List ℝ}
    (hk : weakLensingKernel p pzs 0 ell = .ok k) : ∀ x ∈ k, x = 0 := by
  rcases hp : pyMax (pzs.map Nz.zmax) with e | zmax
  · cases pzs with
    | nil => rw [(C48_rejects p 0 ell).1 hg] at hk; simp at hk
    | cons a l => simp [pyMax] at hp
  rw [C48_order p hg pzs 0 ell zmax hp, Except.ok.injEq] at hk
  subst hk
  intro x hx
  obtain ⟨pz, _, rfl⟩ := List.mem_map.1 hx
  have : chiZ p 0 = 0 := by
    have := C06_zero_today p (lo := -3) (n := 256) (by norm_num) (by norm_num)
    simpa [chiZ, z2a, chiOf] using this
  simp [binKernel, lensKernel, this]

/-- C49: and it is positive in front of a plane: the kernel is not identically zero. -/
theorem C49_front (p : Params) (hg : p.gamma = none) (hE : EsqrPos p) (hm : 0 < p.Omega_m)
    {z0 g zm z ell : ℝ} (hz : 0 < z) (hz0 : z < z0) (hl : 1 < ell) :
    ∃ x, weakLensingKernel p [.delta z0 g zm] z ell = .ok [x] ∧ 0 < x := by
  refine ⟨_, C48_order p hg [.delta z0 g zm] z ell zm rfl, ?_⟩
  have h1 : 0 < chiZ p z := C06_pos_before (by norm_num) (by norm_num) hE (by
    unfold z2a; rw [div_lt_one (by linarith)]; linarith)
  have h2 : chiZ p z < chiZ p z0 := by
    refine C06_strictAnti (by norm_num) (by norm_num) hE ?_ ?_
    · unfold z2a; exact one_div_lt_one_div_of_lt (by linarith) (by linarith)
    · unfold z2a; rw [div_le_one (by linarith)]; linarith
  have h3 : 0 < spinFactor ell := by
    unfold spinFactor
    have : 0 < (ell - 1) * ell * (ell + 1) * (ell + 2) := by
      have : 0 < ell - 1 := by linarith
      positivity
    have := Real.sqrt_pos.2 this
    positivity
  unfold binKernel lensKernel lensWeight const_H0 const_c
  simp only
  rw [max_eq_left (show 0 ≤ chiZ p z0 - chiZ p z by linarith)]
  have h4 : 0 < chiZ p z0 - chiZ p z := by linarith
  have h5 : 0 < max (chiZ p z0) 1 := lt_max_of_lt_right one_pos
  positivity

/-- Witness: one Smail bin and one plane in the Planck cosmology. -/
example {z ell : ℝ} (hz : 0 ≤ z) {k : List ℝ}
    (hk : weakLensingKernel Planck15 [.smail 1 2 1 1 4, .delta 1 1 10] z ell = .ok k) :
    ∀ x ∈ k, 0 ≤ x := by
  refine C49_nonneg _ rfl planck_physical.esqrPos planck_physical.m_pos.le _ ?_ ?_ hz hk
  · simp [Nz.zmax]
  · simp only [List.mem_cons, List.not_mem_nil, or_false, forall_eq_or_imp, forall_eq]
    constructor
    · intro z hz
      rw [Nz.eval_extended rfl]
      refine div_nonneg ?_ (simpsBody_nonneg _ _ _ (by norm_num [Nz.zmax]) _ (by norm_num) ?_)
      · unfold Nz.pzFn; positivity
      · intro x hx _; unfold Nz.pzFn; positivity
    · intro z _
      simp only [Nz.eval, NzObj.call, NzObj.new, Nz.isDelta, Nz.pzFn]
      split_ifs <;> norm_num

/-! ## C52 -/

/-- C52: the density kernel is refused as soon as some bin is a delta distribution. -/
theorem C52_density (p : Params) (hg : p.gamma = none) (pzs : List Nz) (bias : Val) (z ell : ℝ)
    (h : ∃ pz ∈ pzs, pz.isDelta = true) :
    densityKernel p pzs bias z ell = .error .notImplementedError := by
  unfold densityKernel
  rw [jitCosmo_none hg]
  have : pzs.any Nz.isDelta = true := List.any_eq_true.2 h
  simp [bind, Except.bind, this]

/-- C52: so is the alignment kernel. -/
theorem C52_nla (p : Params) (hg : p.gamma = none) (pzs : List Nz) (bias : Val) (z ell : ℝ)
    (h : ∃ pz ∈ pzs, pz.isDelta = true) :
    nlaKernel p pzs bias z ell = .error .notImplementedError := by
  unfold nlaKernel
  rw [jitCosmo_none hg]
  have : pzs.any Nz.isDelta = true := List.any_eq_true.2 h
  simp [bind, Except.bind, this]

theorem bcast_not_impl (f : ℝ → ℝ → ℝ) (xs ys : List ℝ) (e : PyErr) (h : bcast f xs ys = .error e) :
    e = .typeError := by
  unfold bcast at h
  split_ifs at h
  split at h <;> simp_all

theorem biasRows_not_impl (p : Params) (bias : Val) (z : ℝ) :
    biasRows p bias z ≠ .error .notImplementedError := by
  unfold biasRows
  split <;> simp

/-- C52: and only then. -/
theorem C52_only (p : Params) (pzs : List Nz) (bias : Val) (z ell : ℝ)
    (h : densityKernel p pzs bias z ell = .error .notImplementedError ∨
      nlaKernel p pzs bias z ell = .error .notImplementedError) :
    ∃ pz ∈ pzs, pz.isDelta = true := by
  by_contra hno
  have ha : pzs.any Nz.isDelta = false := by
    rw [Bool.eq_false_iff]
    exact fun hc => hno (List.any_eq_true.1 hc)
  have hj : ∀ e, jitCosmo p = .error e → e = .attributeError := by
    intro e he
    cases hg : p.gamma with
    | none => rw [jitCosmo_none hg] at he; simp at he
    | some g => rw [jitCosmo_some hg] at he; simpa using he.symm
  rcases h with h | h
  · unfold densityKernel at h
    rcases hp : jitCosmo p with e | q
    · rw [hp] at h
      simp only [bind, Except.bind, Except.error.injEq] at h
      rw [hj e hp] at h; simp at h
    · rw [hp] at h
      simp only [bind, Except.bind, ha, Bool.false_eq_true, if_false] at h
      split_ifs at h with hemp
      · simp at h
      · rcases hb : biasRows q bias z with e | b
        · rw [hb] at h
          simp only [Except.error.injEq] at h
          exact biasRows_not_impl q bias z (by rw [hb, h])
        · rw [hb] at h
          simp only at h
          rcases hc : bcast (· * ·) (pzs.map fun pz => pz.eval z) b with e | r
          · rw [hc] at h
            simp only [Except.error.injEq] at h
            have := bcast_not_impl _ _ _ _ hc
            simp_all
          · rw [hc] at h; simp [pure, Except.pure] at h
  · unfold nlaKernel at h
    rcases hp : jitCosmo p with e | q
    · rw [hp] at h
      simp only [bind, Except.bind, Except.error.injEq] at h
      rw [hj e hp] at h; simp at h
    · rw [hp] at h
      simp only [bind, Except.bind, ha, Bool.false_eq_true, if_false] at h
      split_ifs at h with hemp
      · simp at h
      · rcases hb : biasRows q bias z with e | b
        · rw [hb] at h
          simp only [Except.error.injEq] at h
          exact biasRows_not_impl q bias z (by rw [hb, h])
        · rw [hb] at h
          simp only at h
          rcases hc : bcast (· * ·) (pzs.map fun pz => pz.eval z) b with e | r
          · rw [hc] at h
            simp only [Except.error.injEq] at h
            have := bcast_not_impl _ _ _ _ hc
            simp_all
          · rw [hc] at h; simp [pure, Except.pure] at h

/-- Witness: a plane hidden behind an extended bin. -/
example (z ell : ℝ) : densityKernel Planck15 [.smail 1 2 1 1 4, .delta 1 1 10]
    (.bias (.constant 1)) z ell = .error .notImplementedError :=
  C52_density _ rfl _ _ _ _ ⟨.delta 1 1 10, by simp, rfl⟩

/-! ## C51 -/

theorem bcast_single_right (f : ℝ → ℝ → ℝ) (xs : List ℝ) (y : ℝ) (h : xs ≠ []) :
    bcast f xs [y] = .ok (xs.map (f · y)) := by
  unfold bcast
  split_ifs with hl
  · obtain ⟨x, rfl⟩ := List.length_eq_one_iff.1 (by simpa using hl)
    rfl
  · match xs, h with
    | [x], _ => simp at hl
    | x :: x' :: l, _ => rfl

theorem bcast_same (f : ℝ → ℝ → ℝ) (xs ys : List ℝ) (h : xs.length = ys.length) :
    bcast f xs ys = .ok (List.zipWith f xs ys) := by
  unfold bcast; rw [if_pos h]

theorem zipWith_replicate (f : ℝ → ℝ → ℝ) (xs : List ℝ) (y : ℝ) :
    List.zipWith f xs (List.replicate xs.length y) = xs.map (f · y) := by
  induction xs with
  | nil => rfl
  | cons x xs ih => simp [List.replicate_succ, ih]

/-- The number-count kernel of a list of extended bins with one bias. -/
theorem density_rows (p : Params) (hg : p.gamma = none) (pzs : List Nz) (h0 : pzs ≠ [])
    (hd : ∀ pz ∈ pzs, pz.isDelta = false) (b : Bias) (z ell : ℝ) :
    densityKernel p pzs (.bias b) z ell
      = .ok (pzs.map fun pz => pz.eval z * b.call p z * H p (z2a z)) := by
  have ha : pzs.any Nz.isDelta = false := by
    rw [List.any_eq_false]; exact fun pz h => by simp [hd pz h]
  have he : pzs.isEmpty = false := by simpa using h0
  unfold densityKernel
  rw [jitCosmo_none hg]
  simp only [bind, Except.bind, ha, he, Bool.false_eq_true, if_false, biasRows]
  rw [bcast_single_right _ _ _ (by simpa using h0)]
  simp [pure, Except.pure, Function.comp_def]

/-- The alignment kernel of a list of extended bins with one bias. -/
theorem nla_rows (p : Params) (hg : p.gamma = none) (pzs : List Nz) (h0 : pzs ≠ [])
    (hd : ∀ pz ∈ pzs, pz.isDelta = false) (b : Bias) (z ell : ℝ) :
    nlaKernel p pzs (.bias b) z ell
      = .ok (pzs.map fun pz => ellFactor ell * (pz.eval z * b.call p z * H p (z2a z)
          * (-(5e-14 * const_rhocrit) * p.Omega_m / growthOf p (z2a z)))) := by
  have ha : pzs.any Nz.isDelta = false := by
    rw [List.any_eq_false]; exact fun pz h => by simp [hd pz h]
  have he : pzs.isEmpty = false := by simpa using h0
  unfold nlaKernel
  rw [jitCosmo_none hg]
  simp only [bind, Except.bind, ha, he, Bool.false_eq_true, if_false, biasRows]
  rw [bcast_single_right _ _ _ (by simpa using h0)]
  simp [pure, Except.pure, Function.comp_def]

theorem map_replicate (b : Bias) (p : Params) (z : ℝ) (n : ℕ) :
    (List.replicate n b).map (fun b => b.call p z) = List.replicate n (b.call p z) := by simp

/-- C51: a list with the same bias for every bin behaves like the single bias (number counts and
alignments). -/
theorem C51_list_bias (p : Params) (hg : p.gamma = none) (pzs : List Nz) (h0 : pzs ≠ [])
    (hd : ∀ pz ∈ pzs, pz.isDelta = false) (b : Bias) (z ell : ℝ) :
    densityKernel p pzs (.biases (List.replicate pzs.length b)) z ell
      = densityKernel p pzs (.bias b) z ell ∧
    nlaKernel p pzs (.biases (List.replicate pzs.length b)) z ell
      = nlaKernel p pzs (.bias b) z ell := by
  have ha : pzs.any Nz.isDelta = false := by
    rw [List.any_eq_false]; exact fun pz h => by simp [hd pz h]
  have he : pzs.isEmpty = false := by simpa using h0
  have hb : biasRows p (.biases (List.replicate pzs.length b)) z
      = .ok (List.replicate pzs.length (b.call p z)) := by
    unfold biasRows
    cases pzs with
    | nil => exact absurd rfl h0
    | cons a l => simp [List.replicate_succ]
  have hz : bcast (· * ·) (pzs.map fun pz => pz.eval z) (List.replicate pzs.length (b.call p z))
      = bcast (· * ·) (pzs.map fun pz => pz.eval z) [b.call p z] := by
    rw [bcast_same _ _ _ (by simp), bcast_single_right _ _ _ (by simpa using h0)]
    have := zipWith_replicate (· * ·) (pzs.map fun pz => pz.eval z) (b.call p z)
    rw [List.length_map] at this
    rw [this]
  constructor
  · unfold densityKernel
    rw [jitCosmo_none hg]
    simp only [bind, Except.bind, ha, he, Bool.false_eq_true, if_false, hb]
    rw [hz]; rfl
  · unfold nlaKernel
    rw [jitCosmo_none hg]
    simp only [bind, Except.bind, ha, he, Bool.false_eq_true, if_false, hb]
    rw [hz]; rfl

/-- C51: with one bias per bin, entry `i` of the number-count kernel uses bias `i`. -/
theorem C51_per_bin (p : Params) (hg : p.gamma = none) (pzs : List Nz) (h0 : pzs ≠ [])
    (hd : ∀ pz ∈ pzs, pz.isDelta = false) (bs : List Bias) (hl : bs.length = pzs.length)
    (z ell : ℝ) :
    densityKernel p pzs (.biases bs) z ell = .ok ((List.zipWith (fun (pz : Nz) (b : Bias) =>
      pz.eval z * b.call p z * H p (z2a z)) pzs bs)) := by
  have ha : pzs.any Nz.isDelta = false := by
    rw [List.any_eq_false]; exact fun pz h => by simp [hd pz h]
  have he : pzs.isEmpty = false := by simpa using h0
  have hb : biasRows p (.biases bs) z = .ok (bs.map fun b => b.call p z) := by
    unfold biasRows
    cases bs with
    | nil => exact absurd (List.length_eq_zero_iff.1 hl.symm) h0
    | cons a l => rfl
  unfold densityKernel
  rw [jitCosmo_none hg]
  simp only [bind, Except.bind, ha, he, Bool.false_eq_true, if_false, hb]
  rw [bcast_same _ _ _ (by simp [hl])]
  simp only [pure, Except.pure, List.zipWith_map, List.map_zipWith, one_mul]

/-- C51: lists of the wrong length are refused. -/
theorem C51_length (p : Params) (hg : p.gamma = none) (pzs : List Nz) (hn : 2 ≤ pzs.length)
    (hd : ∀ pz ∈ pzs, pz.isDelta = false) (bs : List Bias) (hb2 : 2 ≤ bs.length)
    (hl : bs.length ≠ pzs.length) (z ell : ℝ) :
    densityKernel p pzs (.biases bs) z ell = .error .typeError ∧
      nlaKernel p pzs (.biases bs) z ell = .error .typeError := by
  have ha : pzs.any Nz.isDelta = false := by
    rw [List.any_eq_false]; exact fun pz h => by simp [hd pz h]
  have he : pzs.isEmpty = false := by
    cases pzs with
    | nil => simp at hn
    | cons a l => rfl
  have hb : biasRows p (.biases bs) z = .ok (bs.map fun b => b.call p z) := by
    unfold biasRows
    cases bs with
    | nil => simp at hb2
    | cons a l => rfl
  have hc : bcast (· * ·) (pzs.map fun pz => pz.eval z) (bs.map fun b => b.call p z)
      = .error .typeError := by
    match pzs, bs, hn, hb2, hl with
    | a :: a' :: l, b :: b' :: l', _, _, hl =>
      unfold bcast
      rw [if_neg (by simp only [List.map_cons, List.length_cons, List.length_map] at hl ⊢; omega)]
      rfl
  constructor
  · unfold densityKernel
    rw [jitCosmo_none hg]
    simp only [bind, Except.bind, ha, he, Bool.false_eq_true, if_false, hb, hc]
  · unfold nlaKernel
    rw [jitCosmo_none hg]
    simp only [bind, Except.bind, ha, he, Bool.false_eq_true, if_false, hb, hc]

/-- C51: number counts and alignments are linear in the bias function. -/
theorem C51_linear (p : Params) (hg : p.gamma = none) (pzs : List Nz) (h0 : pzs ≠ [])
    (hd : ∀ pz ∈ pzs, pz.isDelta = false) (b b1 b2 : Bias) (u v z ell : ℝ)
    (hb : b.call p z = u * b1.call p z + v * b2.call p z) :
    (∃ k1 k2, densityKernel p pzs (.bias b1) z ell = .ok k1 ∧
      densityKernel p pzs (.bias b2) z ell = .ok k2 ∧
      densityKernel p pzs (.bias b) z ell
        = .ok (List.zipWith (fun x y => u * x + v * y) k1 k2)) ∧
    (∃ k1 k2, nlaKernel p pzs (.bias b1) z ell = .ok k1 ∧
      nlaKernel p pzs (.bias b2) z ell = .ok k2 ∧
      nlaKernel p pzs (.bias b) z ell
        = .ok (List.zipWith (fun x y => u * x + v * y) k1 k2)) := by
  constructor
  · refine ⟨_, _, density_rows p hg pzs h0 hd b1 z ell, density_rows p hg pzs h0 hd b2 z ell, ?_⟩
    rw [density_rows p hg pzs h0 hd b z ell, List.zipWith_map, List.zipWith_self, hb]
    congr 2
    funext pz
    ring
  · refine ⟨_, _, nla_rows p hg pzs h0 hd b1 z ell, nla_rows p hg pzs h0 hd b2 z ell, ?_⟩
    rw [nla_rows p hg pzs h0 hd b z ell, List.zipWith_map, List.zipWith_self, hb]
    congr 2
    funext pz
    ring

/-- C51: a scalar multiplicative bias rescales the whole kernel by `1 + m`. -/
theorem C51_m_scalar (p : Params) (bins : List Nz) (ia : Val) (m z ell : ℝ) :
    (WeakLensing.init bins ia (.num m)).kernel p z ell
      = ((WeakLensing.init bins ia (.num 0)).kernel p z ell).map
          (List.map fun k => k * (1 + m)) := by
  have key : ∀ k : List ℝ, applyM k (.num m)
      = (applyM k (.num 0)).map (List.map fun k => k * (1 + m)) := by
    intro k
    simp [applyM, Except.map]
  cases ia <;> simp only [WeakLensing.init, WeakLensing.kernel, Option.getD_none] <;>
    · rcases weakLensingKernel p bins z ell with e | k
      · rfl
      · simp only [bind, Except.bind, if_true, Bool.false_eq_true, if_false, pure, Except.pure]
        first
          | exact key k
          | (split
             · rfl
             · split
               · rfl
               · exact key _)

theorem wl_length (p : Params) (bins : List Nz) (z ell : ℝ) {k : List ℝ}
    (h : weakLensingKernel p bins z ell = .ok k) : k.length = bins.length ∧ k ≠ [] := by
  cases hg : p.gamma with
  | some g => rw [(C48_rejects p z ell).2 g hg] at h; simp at h
  | none =>
    rcases hp : pyMax (bins.map Nz.zmax) with e | zmax
    · cases bins with
      | nil => rw [(C48_rejects p z ell).1 hg] at h; simp at h
      | cons a l => simp [pyMax] at hp
    · rw [C48_order p hg bins z ell zmax hp, Except.ok.injEq] at h
      subst h
      cases bins with
      | nil => simp [pyMax] at hp
      | cons a l => simp

/-- C51: a list of multiplicative biases acts bin by bin. -/
theorem C51_m_list (p : Params) (bins : List Nz) (ms : List ℝ) (hl : ms.length = bins.length)
    (z ell : ℝ) {k : List ℝ} (hk : (WeakLensing.init bins).kernel p z ell = .ok k) :
    (WeakLensing.init bins .none (.nums ms)).kernel p z ell
      = .ok (List.zipWith (fun x m => x * (1 + m)) k ms) := by
  simp only [WeakLensing.init, WeakLensing.kernel, Option.getD_none] at hk ⊢
  rcases hw : weakLensingKernel p bins z ell with e | k0
  · rw [hw] at hk; simp [bind, Except.bind] at hk
  · obtain ⟨h1, h2⟩ := wl_length p bins z ell hw
    rw [hw] at hk
    simp only [bind, Except.bind, Bool.false_eq_true, if_false, pure, Except.pure, applyM] at hk ⊢
    simp only [add_zero, mul_one, List.map_id', Except.ok.injEq] at hk
    subst hk
    cases ms with
    | nil =>
      rw [List.length_nil] at hl
      exact absurd (List.length_eq_zero_iff.1 (h1.trans hl.symm)) h2
    | cons m ms => exact bcast_same _ _ _ (by rw [h1, hl])

/-- C51: a list of equal multiplicative biases is the scalar one. -/
theorem C51_m_equal (p : Params) (bins : List Nz) (m z ell : ℝ) {k : List ℝ}
    (hk : (WeakLensing.init bins).kernel p z ell = .ok k) :
    (WeakLensing.init bins .none (.nums (List.replicate bins.length m))).kernel p z ell
      = (WeakLensing.init bins .none (.num m)).kernel p z ell := by
  have hlen : k.length = bins.length := by
    simp only [WeakLensing.init, WeakLensing.kernel, Option.getD_none] at hk
    rcases hw : weakLensingKernel p bins z ell with e | k0
    · rw [hw] at hk; simp [bind, Except.bind] at hk
    · rw [hw] at hk
      simp only [bind, Except.bind, Bool.false_eq_true, if_false, pure, Except.pure, applyM,
        add_zero, mul_one, List.map_id', Except.ok.injEq] at hk
      subst hk
      exact (wl_length p bins z ell hw).1
  rw [C51_m_list p bins _ (by simp) z ell hk, C51_m_scalar, hk, ← hlen, zipWith_replicate]
  rfl

/-- C51: the alignment term adds to the lensing kernel, entry by entry. -/
theorem C51_ia_additive (p : Params) (hg : p.gamma = none) (bins : List Nz) (h0 : bins ≠ [])
    (hd : ∀ pz ∈ bins, pz.isDelta = false) (b : Bias) (z ell : ℝ) {k ia : List ℝ}
    (hk : (WeakLensing.init bins).kernel p z ell = .ok k)
    (hia : nlaKernel p bins (.bias b) z ell = .ok ia) :
    (WeakLensing.init bins (.bias b)).kernel p z ell = .ok (List.zipWith (· + ·) k ia) := by
  simp only [WeakLensing.init, WeakLensing.kernel, Option.getD_none] at hk ⊢
  rcases hw : weakLensingKernel p bins z ell with e | k0
  · rw [hw] at hk; simp [bind, Except.bind] at hk
  · rw [hw] at hk
    simp only [bind, Except.bind, Bool.false_eq_true, if_false, pure, Except.pure, applyM,
      add_zero, mul_one, List.map_id', Except.ok.injEq] at hk
    subst hk
    have h1 := (wl_length p bins z ell hw).1
    have h2 : ia.length = bins.length := by
      rw [nla_rows p hg bins h0 hd, Except.ok.injEq] at hia
      rw [← hia]; simp
    simp only [bind, Except.bind, if_true, hia]
    rw [bcast_same _ _ _ (h1.trans h2.symm)]
    simp [applyM]

/-- C51: an alignment of zero amplitude changes nothing. -/
theorem C51_ia_zero (p : Params) (hg : p.gamma = none) (bins : List Nz)
    (hd : ∀ pz ∈ bins, pz.isDelta = false) (eta z0 z ell : ℝ) {k : List ℝ}
    (hk : (WeakLensing.init bins).kernel p z ell = .ok k) :
    (WeakLensing.init bins (.bias (.desY1 0 eta z0))).kernel p z ell = .ok k := by
  have hw : weakLensingKernel p bins z ell = .ok k := by
    simp only [WeakLensing.init, WeakLensing.kernel, Option.getD_none] at hk
    rcases hw : weakLensingKernel p bins z ell with e | k0
    · rw [hw] at hk; simp [bind, Except.bind] at hk
    · rw [hw] at hk
      simpa [bind, Except.bind, pure, Except.pure, applyM] using hk
  obtain ⟨h1, h2⟩ := wl_length p bins z ell hw
  have h0 : bins ≠ [] := by rintro rfl; exact h2 (List.length_eq_zero_iff.1 h1)
  rw [C51_ia_additive p hg bins h0 hd _ z ell hk (nla_rows p hg bins h0 hd _ z ell)]
  have : (bins.map fun pz => ellFactor ell * (pz.eval z * (Bias.desY1 0 eta z0).call p z
      * H p (z2a z) * (-(5e-14 * const_rhocrit) * p.Omega_m / growthOf p (z2a z))))
      = List.replicate k.length 0 := by
    simp [Bias.call, h1]
  rw [this, zipWith_replicate]
  simp

/-- Witness: two extended bins with different `m`, in the Planck cosmology. -/
example (z ell : ℝ) : ∃ x y,
    (WeakLensing.init [.smail 1 2 1 1 4, .smail 1 2 2 1 4] .none (.nums [0.1, -0.2])).kernel
      Planck15 z ell = .ok [x * (1 + 0.1), y * (1 + -0.2)] := by
  have hk : (WeakLensing.init [.smail 1 2 1 1 4, .smail 1 2 2 1 4]).kernel Planck15 z ell
      = .ok [binKernel Planck15 4 z ell (.smail 1 2 1 1 4),
          binKernel Planck15 4 z ell (.smail 1 2 2 1 4)] := by
    simp only [WeakLensing.init, WeakLensing.kernel, Option.getD_none]
    rw [C48_order Planck15 rfl _ z ell 4 (by norm_num [pyMax, Nz.zmax])]
    simp [bind, Except.bind, pure, Except.pure, applyM]
  exact ⟨_, _, C51_m_list Planck15 _ [0.1, -0.2] rfl z ell hk⟩

/-! ## C53 -/

/-- C53: the constant bias does not depend on redshift or cosmology. -/
theorem C53_constant (p q : Params) (b z z' : ℝ) :
    (Bias.constant b).call p z = b ∧ (Bias.constant b).call p z = (Bias.constant b).call q z' := by
  simp [Bias.call]

/-- C53: the inverse-growth bias is `b` today. -/
theorem C53_invGrowth_today (p : Params) (h : Physical p) (b : ℝ) :
    (Bias.invGrowth b).call p 0 = b := by
  simp [Bias.call, z2a, C10_one p h]

/-- C53: it is never below `b` where the growth factor is positive. -/
theorem C53_invGrowth_ge (p : Params) (b z : ℝ) (hb : 0 ≤ b) (hD : 0 < growthOf p (z2a z)) :
    b ≤ (Bias.invGrowth b).call p z := by
  unfold Bias.call
  rw [le_div_iff₀ hD]
  exact mul_le_of_le_one_right hb (C10_range p _).2

/-- C53: and does not decrease with redshift. -/
theorem C53_invGrowth_mono (p : Params) (h : Physical p) (hg : p.gamma = none) (b z z' : ℝ)
    (hb : 0 ≤ b) (hz : -1 < z) (hzz : z ≤ z') (hD : 0 < growthOf p (z2a z')) :
    (Bias.invGrowth b).call p z ≤ (Bias.invGrowth b).call p z' := by
  unfold Bias.call
  refine div_le_div_of_nonneg_left hb hD (C10_mono_ode p h hg ?_)
  unfold z2a
  exact one_div_le_one_div_of_le (by linarith) (by linarith)

/-- C53: both hold outright in every physical cosmology up to redshift 899. -/
theorem C53_invGrowth_physical (p : Params) (h : Physical p) (hg : p.gamma = none) (b z z' : ℝ)
    (hb : 0 < b) (hz : 0 ≤ z) (hzz : z < z') (hz' : z' ≤ 899) :
    b ≤ (Bias.invGrowth b).call p z ∧
      (Bias.invGrowth b).call p z < (Bias.invGrowth b).call p z' := by
  have e : ∀ y : ℝ, 0 ≤ y → y ≤ 899 → z2a y ∈ Set.Icc (1 / 900 : ℝ) 1 := fun y h0 h1 => by
    unfold z2a
    exact ⟨one_div_le_one_div_of_le (by linarith) (by linarith),
      by rw [div_le_one (by linarith)]; linarith⟩
  have hz1 := e z hz (by linarith)
  have hz2 := e z' (by linarith) hz'
  refine ⟨C53_invGrowth_ge p b z hb.le (C10_pos_ode p h hg hz1.1), ?_⟩
  unfold Bias.call
  refine div_lt_div_of_pos_left hb (C10_pos_ode p h hg hz2.1) (C10_strict_ode p h hg hz2 hz1 ?_)
  unfold z2a
  exact one_div_lt_one_div_of_lt (by linarith) (by linarith)

/-- C53: the alignment amplitude is `A` at the pivot redshift. -/
theorem C53_desY1_pivot (p : Params) (A eta z0 : ℝ) (h : z0 ≠ -1) :
    (Bias.desY1 A eta z0).call p z0 = A := by
  have : 1 + z0 ≠ 0 := fun h' => h (by linarith)
  simp only [Bias.call]
  rw [div_self this, Real.one_rpow, mul_one]

/-- C53: and scales as the power `eta` of `1 + z` between any two redshifts. -/
theorem C53_desY1_power (p : Params) (A eta z0 z z' : ℝ) (h0 : -1 < z0) (h : -1 < z)
    (h' : -1 < z') : (Bias.desY1 A eta z0).call p z'
      = (Bias.desY1 A eta z0).call p z * ((1 + z') / (1 + z)) ^ eta := by
  simp only [Bias.call]
  have a0 : 0 < 1 + z0 := by linarith
  have a1 : 0 < 1 + z := by linarith
  have a2 : 0 < 1 + z' := by linarith
  rw [mul_assoc, ← Real.mul_rpow (by positivity) (by positivity)]
  congr 2
  field_simp

/-- Witness: bias 1.5 in the Planck cosmology. -/
example : (Bias.invGrowth 1.5).call Planck15 0 = 1.5 ∧
    (Bias.invGrowth 1.5).call Planck15 0.5 < (Bias.invGrowth 1.5).call Planck15 1 :=
  ⟨C53_invGrowth_today _ planck_physical _,
    (C53_invGrowth_physical _ planck_physical rfl 1.5 0.5 1 (by norm_num) (by norm_num)
      (by norm_num) (by norm_num)).2⟩

end JaxCosmo
