import Verif.Props.ClSensitivity
import Verif.Spec.Lensing

/-! # C106, C107: alignments and curvature in the lensing kernel -/

namespace JaxCosmo
open Spec

/-! ## C106 -/

theorem spinFactor_pos {ell : ℝ} (hl : 1 < ell) : 0 < spinFactor ell := by
  unfold spinFactor
  have : 0 < (ell - 1) * ell * (ell + 1) * (ell + 2) := by
    have : 0 < ell - 1 := by linarith
    positivity
  have := Real.sqrt_pos.2 this
  positivity

/-- C106: for any bins and any bias argument, accepted or refused, the alignment kernel is the galaxy
density kernel of the same arguments multiplied by the response of the alignment model at unit
amplitude and by the spin factor. -/
theorem C106_alignment (p : Params) (hg : p.gamma = none) (pzs : List Nz) (bias : Val) (z ell : ℝ) :
    nlaKernel p pzs bias z ell = (densityKernel p pzs bias z ell).map
      (List.map fun k => alignment 1 p.Omega_m (growthOf p (z2a z)) * spinFactor ell * k) := by
  have hr : 5e-14 * const_rhocrit = 0.013875 := by norm_num [const_rhocrit]
  unfold nlaKernel densityKernel
  rw [jitCosmo_none hg]
  simp only [bind, Except.bind]
  split_ifs
  · rfl
  · rfl
  · rcases biasRows p bias z with e | b
    · rfl
    · simp only
      generalize bcast (fun x1 x2 => x1 * x2) (pzs.map fun pz => pz.eval z) b = y
      rcases y with e | r
      · rfl
      · simp only [pure, Except.pure, Except.map, List.map_map]
        congr 1
        refine List.map_congr_left fun x _ => ?_
        simp only [Function.comp_apply, hr, alignment, ellFactor_eq]
        ring

/-- C106: a shear bin with alignments and multiplicative bias, for one bias and one `m` for all bins:
`(lensing + alignment · density) (1 + m)`. -/
theorem C106_bin (p : Params) (hg : p.gamma = none) (bins : List Nz) {zmax : ℝ}
    (hz : pyMax (bins.map Nz.zmax) = .ok zmax) (hd : ∀ pz ∈ bins, pz.isDelta = false) (b : Bias)
    (m z ell : ℝ) :
    (WeakLensing.init bins (.bias b) (.num m)).kernel p z ell = .ok (bins.map fun pz =>
      (lensKernel p.Omega_m const_H0 const_c (chiZ p) z ell
          (simpson (fun z' => pz.eval z' * lensWeight (chiZ p) z z') z zmax 128)
        + alignment (b.call p z) p.Omega_m (growthOf p (z2a z)) * spinFactor ell
          * (pz.eval z * H p (z2a z))) * (1 + m)) := by
  have h0 : bins ≠ [] := by rintro rfl; simp [pyMax] at hz
  have hr : 5e-14 * const_rhocrit = 0.013875 := by norm_num [const_rhocrit]
  simp only [WeakLensing.init, WeakLensing.kernel, Option.getD_none, C48_order p hg bins z ell zmax hz,
    bind, Except.bind, if_true, nla_rows p hg bins h0 hd b z ell]
  rw [bcast_same _ _ _ (by simp)]
  simp only [applyM, List.zipWith_map, List.zipWith_self, List.map_map]
  congr 1
  refine List.map_congr_left fun pz hpz => ?_
  have hb : binKernel p zmax z ell pz = lensKernel p.Omega_m const_H0 const_c (chiZ p) z ell
      (simpson (fun z' => pz.eval z' * lensWeight (chiZ p) z z') z zmax 128) := by
    have := hd pz hpz
    cases pz <;> first | rfl | simp [Nz.isDelta] at this
  simp only [Function.comp_apply, hb, hr, alignment, ellFactor_eq]
  ring

/-- C106: alignments of positive amplitude lower the kernel of every bin wherever it has galaxies, and
leave it alone elsewhere. -/
theorem C106_sign (p : Params) (hg : p.gamma = none) (hm : 0 < p.Omega_m) (bins : List Nz)
    {zmax : ℝ} (hz : pyMax (bins.map Nz.zmax) = .ok zmax) (hd : ∀ pz ∈ bins, pz.isDelta = false)
    (b : Bias) (z ell : ℝ) (hb : 0 < b.call p z) (hD : 0 < growthOf p (z2a z)) (hH : 0 < H p (z2a z))
    (hl : 1 < ell) :
    ∃ k k', (WeakLensing.init bins (.bias b)).kernel p z ell = .ok k ∧
      (WeakLensing.init bins).kernel p z ell = .ok k' ∧ k.length = bins.length ∧
      k'.length = bins.length ∧ ∀ (i : ℕ) (h : i < bins.length) (h1 : i < k.length) (h2 : i < k'.length),
        (k[i] < k'[i] ↔ 0 < bins[i].eval z) ∧ (k[i] = k'[i] ↔ bins[i].eval z = 0) := by
  have hk' : (WeakLensing.init bins).kernel p z ell
      = .ok ((bins.map (binKernel p zmax z ell)).map fun k => k * (1 + 0)) := by
    simp only [WeakLensing.init, WeakLensing.kernel, Option.getD_none,
      C48_order p hg bins z ell zmax hz, bind, Except.bind, Bool.false_eq_true, if_false, pure,
      Except.pure, applyM]
  refine ⟨_, _, C106_bin p hg bins hz hd b 0 z ell, hk', by simp, by simp, fun i h h1 h2 => ?_⟩
  · have hb' : binKernel p zmax z ell bins[i] = lensKernel p.Omega_m const_H0 const_c (chiZ p) z ell
        (simpson (fun z' => bins[i].eval z' * lensWeight (chiZ p) z z') z zmax 128) := by
      have := hd bins[i] (List.getElem_mem h)
      revert this
      cases bins[i] <;> intro this <;> first | rfl | simp [Nz.isDelta] at this
    have hs := spinFactor_pos hl
    have hc : 0 < b.call p z * 0.013875 * p.Omega_m / growthOf p (z2a z) * spinFactor ell
        * H p (z2a z) := by positivity
    have he : alignment (b.call p z) p.Omega_m (growthOf p (z2a z)) * spinFactor ell
        * (bins[i].eval z * H p (z2a z)) = -(b.call p z * 0.013875 * p.Omega_m
          / growthOf p (z2a z) * spinFactor ell * H p (z2a z) * bins[i].eval z) := by
      unfold alignment; ring
    simp only [List.getElem_map, he, hb', add_zero, mul_one]
    generalize b.call p z * 0.013875 * p.Omega_m / growthOf p (z2a z) * spinFactor ell
        * H p (z2a z) = c at hc
    constructor
    · rw [← mul_pos_iff_of_pos_left hc]
      constructor <;> intro h <;> linarith
    · constructor
      · intro h
        have : c * bins[i].eval z = 0 := by linarith
        exact (mul_eq_zero.1 this).resolve_left hc.ne'
      · intro h; rw [h]; ring

/-- Witness: one Smail bin in the Planck 2015 cosmology. -/
example (z ell : ℝ) : ∃ k, (WeakLensing.init [.smail 1 2 1 1 10] (.bias (.constant 2))
    (.num 0.01)).kernel Planck15 z ell = .ok [k] :=
  ⟨_, C106_bin Planck15 rfl [.smail 1 2 1 1 10] (zmax := 10) rfl (by simp [Nz.isDelta]) _ _ z ell⟩

/-- Witness: alignments lower the kernel of that bin at `z = 1` in every physical cosmology. -/
example (p : Params) (hp : Physical p) (hg : p.gamma = none) : ∃ k k',
    (WeakLensing.init [.smail 1 2 1 1 10] (.bias (.constant 2))).kernel p 1 10 = .ok [k] ∧
    (WeakLensing.init [.smail 1 2 1 1 10]).kernel p 1 10 = .ok [k'] ∧ k < k' := by
  obtain ⟨k, k', h1, h2, h3, h4, h⟩ := C106_sign p hg hp.m_pos [.smail 1 2 1 1 10] (zmax := 10) rfl
    (by simp [Nz.isDelta]) (.constant 2) 1 10 (by norm_num [Bias.call])
    (C10_pos_ode p hp hg (by norm_num [z2a])) (C05_H_pos p _ (by norm_num [z2a]) hp.m_pos hp.k_nonneg
      hp.de_nonneg) (by norm_num)
  obtain ⟨x, rfl⟩ := List.length_eq_one_iff.1 h3
  obtain ⟨y, rfl⟩ := List.length_eq_one_iff.1 h4
  refine ⟨x, y, h1, h2, ((h 0 (by simp) (by simp) (by simp)).1).2 ?_⟩
  simp only [List.getElem_cons_zero]
  rw [Nz.eval_extended rfl]
  refine div_pos (by simp only [Nz.pzFn, Real.one_rpow, one_mul]; exact Real.exp_pos _) ?_
  refine simpsBody_pos (by norm_num [Nz.zmax]) 256 (by norm_num) (by norm_num) ?_ (i := 0) (by norm_num) ?_
  · intro x hx _
    exact mul_nonneg (Real.rpow_nonneg hx _) (Real.exp_pos _).le
  · refine smail_pos ?_ 1 10
    rw [linspace_succ]
    norm_num [Nz.zmax]

/-! ## C107 -/

theorem sinh_lt_mul_cosh {x : ℝ} (hx : 0 < x) : Real.sinh x < x * Real.cosh x := by
  have hm : StrictMonoOn (fun x => x * Real.cosh x - Real.sinh x) (Set.Ici 0) := by
    refine strictMonoOn_of_deriv_pos (convex_Ici 0) (by fun_prop) fun y hy => ?_
    rw [interior_Ici] at hy
    have hd : HasDerivAt (fun x => x * Real.cosh x - Real.sinh x) (y * Real.sinh y) y := by
      refine (((hasDerivAt_id y).fun_mul (Real.hasDerivAt_cosh y)).fun_sub
        (Real.hasDerivAt_sinh y)).congr_deriv ?_
      simp
    rw [hd.deriv]
    exact mul_pos hy (Real.sinh_pos_iff.2 hy)
  have := hm (Set.mem_Ici.2 le_rfl) (Set.mem_Ici.2 hx.le) hx
  simp only [zero_mul, Real.sinh_zero, sub_zero] at this
  linarith

theorem mul_cos_lt_sin_pi {x : ℝ} (hx : 0 < x) (hp : x ≤ Real.pi) : x * Real.cos x < Real.sin x := by
  have hm : StrictMonoOn (fun x => Real.sin x - x * Real.cos x) (Set.Icc 0 Real.pi) := by
    refine strictMonoOn_of_deriv_pos (convex_Icc 0 _) (by fun_prop) fun y hy => ?_
    rw [interior_Icc] at hy
    have hd : HasDerivAt (fun x => Real.sin x - x * Real.cos x) (y * Real.sin y) y := by
      refine ((Real.hasDerivAt_sin y).fun_sub ((hasDerivAt_id y).fun_mul
        (Real.hasDerivAt_cos y))).congr_deriv ?_
      simp
    rw [hd.deriv]
    exact mul_pos hy.1 (Real.sin_pos_of_pos_of_lt_pi hy.1 hy.2)
  have := hm ⟨le_rfl, Real.pi_pos.le⟩ ⟨hx.le, hp⟩ hx
  simp only [zero_mul, Real.sin_zero, sub_zero] at this
  linarith

theorem open_efficiency {a b : ℝ} (ha : 0 < a) (hb : 0 < b) :
    Real.sinh a * Real.sinh b / Real.sinh (a + b) < a * b / (a + b) := by
  have sa := Real.sinh_pos_iff.2 ha
  have sb := Real.sinh_pos_iff.2 hb
  have sab := Real.sinh_pos_iff.2 (add_pos ha hb)
  rw [div_lt_div_iff₀ sab (by positivity), Real.sinh_add]
  have h1 := mul_lt_mul_of_pos_left (sinh_lt_mul_cosh ha) (mul_pos hb sb)
  have h2 := mul_lt_mul_of_pos_left (sinh_lt_mul_cosh hb) (mul_pos ha sa)
  nlinarith

theorem closed_efficiency {a b : ℝ} (ha : 0 < a) (hb : 0 < b) (h : a + b < Real.pi) :
    a * b / (a + b) < Real.sin a * Real.sin b / Real.sin (a + b) := by
  have sa := Real.sin_pos_of_pos_of_lt_pi ha (by linarith)
  have sb := Real.sin_pos_of_pos_of_lt_pi hb (by linarith)
  have sab := Real.sin_pos_of_pos_of_lt_pi (add_pos ha hb) h
  rw [div_lt_div_iff₀ (by positivity) sab, Real.sin_add]
  have h1 := mul_lt_mul_of_pos_left (mul_cos_lt_sin_pi ha (by linarith)) (mul_pos hb sb)
  have h2 := mul_lt_mul_of_pos_left (mul_cos_lt_sin_pi hb (by linarith)) (mul_pos ha sa)
  nlinarith

/-- The lensing efficiency with and without curvature. -/
theorem fK_open {Ok R χ χs : ℝ} (hk : 0 < Ok) (hR : 0 < R) (h0 : 0 < χ) (h1 : χ < χs) :
    fK Ok R χ * fK Ok R (χs - χ) / fK Ok R χs < χ * (χs - χ) / χs := by
  have hs := Real.sqrt_pos.2 hk
  have key := open_efficiency (a := √Ok * χ / R) (b := √Ok * (χs - χ) / R) (by positivity)
    (by have := sub_pos.2 h1; positivity)
  have e : √Ok * χ / R + √Ok * (χs - χ) / R = √Ok * χs / R := by ring
  rw [e] at key
  simp only [fK, if_pos hk]
  have hχs : 0 < χs := h0.trans h1
  have hsh := Real.sinh_pos_iff.2 (show 0 < √Ok * χs / R by positivity)
  have h2 := mul_lt_mul_of_pos_left key (show 0 < R / √Ok by positivity)
  have e1 : R / √Ok * (√Ok * χ / R * (√Ok * (χs - χ) / R) / (√Ok * χs / R)) = χ * (χs - χ) / χs := by
    field_simp
  rw [e1] at h2
  refine lt_of_eq_of_lt ?_ h2
  field_simp

theorem fK_closed {Ok R χ χs : ℝ} (hk : Ok < 0) (hR : 0 < R) (h0 : 0 < χ) (h1 : χ < χs)
    (hπ : √(-Ok) * χs / R < Real.pi) :
    χ * (χs - χ) / χs < fK Ok R χ * fK Ok R (χs - χ) / fK Ok R χs := by
  have hs := Real.sqrt_pos.2 (neg_pos.2 hk)
  have e : √(-Ok) * χ / R + √(-Ok) * (χs - χ) / R = √(-Ok) * χs / R := by ring
  have key := closed_efficiency (a := √(-Ok) * χ / R) (b := √(-Ok) * (χs - χ) / R) (by positivity)
    (by have := sub_pos.2 h1; positivity) (by rw [e]; exact hπ)
  rw [e] at key
  simp only [fK, if_neg hk.not_gt, if_pos hk]
  have hχs : 0 < χs := h0.trans h1
  have hsh := Real.sin_pos_of_pos_of_lt_pi (show 0 < √(-Ok) * χs / R by positivity) hπ
  have h2 := mul_lt_mul_of_pos_left key (show 0 < R / √(-Ok) by positivity)
  have e1 : R / √(-Ok) * (√(-Ok) * χ / R * (√(-Ok) * (χs - χ) / R) / (√(-Ok) * χs / R))
      = χ * (χs - χ) / χs := by field_simp
  rw [e1] at h2
  refine lt_of_lt_of_eq h2 ?_
  field_simp

/-- C107: the library's own transverse distance is `f_K`. -/
theorem C107_transverse (p : Params) (χ : ℝ) : transverseOf p χ = fK p.Omega_k const_rh χ := by
  unfold fK
  split_ifs with h h'
  · exact transverseOf_open p h χ
  · exact transverseOf_closed p h' χ
  · exact transverseOf_flat p (le_antisymm (not_lt.1 h) (not_lt.1 h')) χ

/-- What the kernel of a plane of sources is, beyond 1 Mpc/h. -/
theorem plane_kernel (p : Params) (hg : p.gamma = none) {z0 g zm z ell : ℝ}
    (h1 : 1 ≤ chiZ p z0) (h2 : chiZ p z ≤ chiZ p z0) :
    weakLensingKernel p [.delta z0 g zm] z ell = .ok [3 / 2 * p.Omega_m * const_H0 ^ 2 / const_c
      * spinFactor ell * ((1 + z) * (chiZ p z * (chiZ p z0 - chiZ p z) / chiZ p z0))] := by
  rw [C48_order p hg [.delta z0 g zm] z ell zm rfl]
  simp only [List.map_cons, List.map_nil, binKernel, lensKernel, lensWeight]
  rw [max_eq_left (sub_nonneg.2 h2), max_eq_left h1]
  congr 2
  ring

/-- C107, partial: in a flat universe the kernel of a plane of sources beyond 1 Mpc/h is that of
lensing theory.  What is missing is curvature: see `C107_open`, `C107_closed`. -/
theorem C107_flat_partial (p : Params) (hg : p.gamma = none) (hk : p.Omega_k = 0) {z0 g zm z ell : ℝ}
    (h1 : 1 ≤ chiZ p z0) (h2 : chiZ p z ≤ chiZ p z0) :
    weakLensingKernel p [.delta z0 g zm] z ell = .ok [curvedKernel p.Omega_m const_H0 const_c
      p.Omega_k const_rh z ell (chiZ p z) (chiZ p z0)] := by
  rw [plane_kernel p hg h1 h2]
  simp [curvedKernel, fK, hk]

theorem prefactor_pos {p : Params} (hm : 0 < p.Omega_m) {z ell : ℝ} (hz : 0 < z) (hl : 1 < ell) :
    0 < 3 / 2 * p.Omega_m * const_H0 ^ 2 / const_c * spinFactor ell ∧ 0 < 1 + z := by
  have := spinFactor_pos hl
  refine ⟨?_, by linarith⟩
  unfold const_H0 const_c
  positivity

theorem chiZ_lt {p : Params} (hE : EsqrPos p) {z z0 : ℝ} (hz : 0 < z) (hz0 : z < z0) :
    0 < chiZ p z ∧ chiZ p z < chiZ p z0 := by
  constructor
  · exact C06_pos_before (by norm_num) (by norm_num) hE (by
      unfold z2a; rw [div_lt_one (by linarith)]; linarith)
  · refine C06_strictAnti (by norm_num) (by norm_num) hE ?_ ?_
    · unfold z2a; exact one_div_lt_one_div_of_lt (by linarith) (by linarith)
    · unfold z2a; rw [div_le_one (by linarith)]; linarith

/-- C107: in every open universe the library overestimates the lensing of every plane of sources
(it uses radial distances where the curved ones are needed). -/
theorem C107_open (p : Params) (hg : p.gamma = none) (hp : Physical p) (hk : 0 < p.Omega_k)
    {z0 g zm z ell : ℝ} (hz : 0 < z) (hz0 : z < z0) (h799 : 1 / 799 ≤ z0) (hl : 1 < ell) :
    ∃ x, weakLensingKernel p [.delta z0 g zm] z ell = .ok [x] ∧
      curvedKernel p.Omega_m const_H0 const_c p.Omega_k const_rh z ell (chiZ p z) (chiZ p z0) < x := by
  obtain ⟨c0, c1⟩ := chiZ_lt hp.esqrPos hz hz0
  have h1 : 1 < chiZ p z0 := chi_gt_one hp (by
    unfold z2a
    have := one_div_le_one_div_of_le (by norm_num) (by linarith : 1 + 1 / 799 ≤ 1 + z0)
    norm_num at this ⊢
    linarith)
  refine ⟨_, plane_kernel p hg h1.le c1.le, ?_⟩
  obtain ⟨q1, q2⟩ := prefactor_pos hp.m_pos hz hl
  exact mul_lt_mul_of_pos_left (mul_lt_mul_of_pos_left
    (fK_open hk (by norm_num [const_rh]) c0 c1) q2) q1

/-- C107: in every closed universe it underestimates it, for sources in front of the antipode. -/
theorem C107_closed (p : Params) (hg : p.gamma = none) (hE : EsqrPos p) (hm : 0 < p.Omega_m)
    (hk : p.Omega_k < 0) {z0 g zm z ell : ℝ} (hz : 0 < z) (hz0 : z < z0) (h1 : 1 ≤ chiZ p z0)
    (hπ : √(-p.Omega_k) * chiZ p z0 / const_rh < Real.pi) (hl : 1 < ell) :
    ∃ x, weakLensingKernel p [.delta z0 g zm] z ell = .ok [x] ∧
      x < curvedKernel p.Omega_m const_H0 const_c p.Omega_k const_rh z ell (chiZ p z) (chiZ p z0) := by
  obtain ⟨c0, c1⟩ := chiZ_lt hE hz hz0
  refine ⟨_, plane_kernel p hg h1 c1.le, ?_⟩
  obtain ⟨q1, q2⟩ := prefactor_pos hm hz hl
  exact mul_lt_mul_of_pos_left (mul_lt_mul_of_pos_left
    (fK_closed hk (by norm_num [const_rh]) c0 c1 hπ) q2) q1

theorem openPlanck_physical : Physical { Planck15 with Omega_k := 0.1 } := by
  refine ⟨?_, ?_, ?_, fun a _ _ => ?_⟩
  all_goals norm_num [Planck15, Params.Omega_m, Params.Omega_de, Params.Omega, w]

/-- C107, refuted: the kernel is not that of lensing theory in a curved universe. -/
theorem C107_refuted : ¬ ∀ (p : Params), p.gamma = none → Physical p → ∀ (z z0 ell : ℝ), 0 < z → z < z0 →
    1 / 799 ≤ z0 → 1 < ell → weakLensingKernel p [.delta z0 1 10] z ell
      = .ok [curvedKernel p.Omega_m const_H0 const_c p.Omega_k const_rh z ell (chiZ p z) (chiZ p z0)] := by
  intro h
  obtain ⟨x, h1, h2⟩ := C107_open { Planck15 with Omega_k := 0.1 } rfl openPlanck_physical
    (by norm_num) (z := 1 / 2) (z0 := 1) (ell := 10) (g := 1) (zm := 10) (by norm_num) (by norm_num)
    (by norm_num) (by norm_num)
  rw [h _ rfl openPlanck_physical (1 / 2) 1 10 (by norm_num) (by norm_num) (by norm_num) (by norm_num)] at h1
  have := Except.ok.inj h1
  rw [List.cons.injEq] at this
  exact h2.ne this.1

/-- The Planck 2015 cosmology, slightly closed. -/
noncomputable def closedPlanck : Params := { Planck15 with Omega_k := -0.01 }

theorem closedPlanck_esqr {a : ℝ} (ha : 0 < a) (h1 : a ≤ 1) :
    0.7 ≤ Esqr closedPlanck a ∧ Esqr closedPlanck a ≤ 0.31 * (a⁻¹) ^ 3 + 0.71 := by
  have hf : f_de closedPlanck a = 0 := by norm_num [f_de, closedPlanck, Planck15]
  have hi : 1 ≤ a⁻¹ := (one_le_inv₀ ha).2 h1
  have e3 : a ^ (-3 : ℤ) = (a⁻¹) ^ 3 := by rw [zpow_neg, inv_pow]; norm_cast
  have e2 : a ^ (-2 : ℤ) = (a⁻¹) ^ 2 := by rw [zpow_neg, inv_pow]; norm_cast
  have hm : 0.3 ≤ closedPlanck.Omega_m ∧ closedPlanck.Omega_m ≤ 0.31 := by
    norm_num [closedPlanck, Planck15, Params.Omega_m]
  have hde : 0.7 ≤ closedPlanck.Omega_de ∧ closedPlanck.Omega_de ≤ 0.71 := by
    norm_num [closedPlanck, Planck15, Params.Omega_m, Params.Omega_de, Params.Omega]
  have hk : closedPlanck.Omega_k = -0.01 := rfl
  unfold Esqr
  rw [hf, hk, e3, e2, Real.exp_zero, mul_one]
  have h23 : (a⁻¹) ^ 2 ≤ (a⁻¹) ^ 3 := pow_le_pow_right₀ hi (by norm_num)
  have h2 : 0 ≤ (a⁻¹) ^ 2 := by positivity
  constructor <;> nlinarith

/-- Witness for the closed case. -/
example : ∃ z0 x, weakLensingKernel closedPlanck [.delta z0 1 10] (z0 / 2) 10 = .ok [x] ∧
    x < curvedKernel closedPlanck.Omega_m const_H0 const_c closedPlanck.Omega_k const_rh (z0 / 2) 10
      (chiZ closedPlanck (z0 / 2)) (chiZ closedPlanck z0) := by
  have hE : EsqrPos closedPlanck := fun a h0 h1 => by
    have := (closedPlanck_esqr h0 h1).1
    norm_num at this; linarith
  have hinc := logspace_increasing (lo := -3) (n := 256) (by norm_num) (by norm_num)
  have hone : logspace (-3) 0 256 255 = 1 := logspace_end (-3) (by norm_num : 2 ≤ 256)
  set t := 3 * Real.log 10 / 255 with ht
  have hX : logspace (-3) 0 256 254 = Real.exp (-t) := by
    rw [logspace, linspace, Real.rpow_def_of_pos (by norm_num), ht]
    congr 1
    push_cast
    ring
  have hl : 1 < Real.log 10 := by
    rw [Real.lt_log_iff_exp_lt (by norm_num)]
    exact Real.exp_one_lt_d9.trans (by norm_num)
  have ht1 : t ≤ 1 / 12 := by
    have := Real.log_le_sub_one_of_pos (show (0 : ℝ) < 10 / 4 by norm_num)
    have h4 := Real.log_le_sub_one_of_pos (show (0 : ℝ) < 4 by norm_num)
    have : Real.log 10 = Real.log (10 / 4) + Real.log 4 := by
      rw [← Real.log_mul (by norm_num) (by norm_num)]; norm_num
    rw [ht]; linarith
  have ht0 : 1 / 85 ≤ t := by rw [ht]; linarith
  have hrate : ∀ x, -t ≤ x → x ≤ 0 → const_rh / 2 ≤ chiRate closedPlanck x ∧
      chiRate closedPlanck x ≤ 3 * const_rh := by
    intro x hx hx0
    have e1 : 1 ≤ Real.exp (-x) := Real.one_le_exp (by linarith)
    have e1' : Real.exp (-x) ≤ 3 / 2 := by
      have : Real.exp (-x) ≤ 1 / (1 - -x) := by
        have := Real.add_one_le_exp x
        rw [Real.exp_neg, ← one_div]
        exact one_div_le_one_div_of_le (by linarith) (by linarith)
      refine this.trans ?_
      rw [div_le_iff₀ (by linarith)]; linarith
    obtain ⟨l, u⟩ := closedPlanck_esqr (Real.exp_pos x) (Real.exp_le_one_iff.2 hx0)
    rw [← Real.exp_neg] at u
    have u3 : Real.exp (-x) ^ 3 ≤ (3 / 2) ^ 3 := pow_le_pow_left₀ (Real.exp_pos _).le e1' 3
    have e2 : Real.sqrt (Esqr closedPlanck (Real.exp x)) ≤ 2 := by
      rw [Real.sqrt_le_left (by norm_num)]
      norm_num at u u3 ⊢; linarith
    have e3 : 1 / 2 ≤ Real.sqrt (Esqr closedPlanck (Real.exp x)) := by
      refine Real.le_sqrt_of_sq_le ?_
      norm_num at l ⊢; linarith
    have hrh : 0 < const_rh := by norm_num [const_rh]
    rw [chiRate_eq]
    constructor
    · rw [le_div_iff₀ (by linarith)]
      have := mul_le_mul_of_nonneg_left e1 hrh.le
      nlinarith
    · rw [div_le_iff₀ (by linarith)]
      have := mul_le_mul_of_nonneg_left e1' hrh.le
      have := mul_le_mul_of_nonneg_left e3 hrh.le
      linarith
  have hchi : chiZ closedPlanck (1 / Real.exp (-t) - 1) = max (panel (chiRate closedPlanck) (-t) 0) 0 := by
    have e : z2a (1 / Real.exp (-t) - 1) = logspace (-3) 0 256 254 := by
      rw [hX]; unfold z2a; have := (Real.exp_pos (-t)).ne'; field_simp; ring
    change chiOf closedPlanck (z2a _) = _
    rw [e]
    change max (interp 256 (logspace (-3) 0 256) (chiTable closedPlanck (-3) 256).chi _) 0 = _
    rw [C19_nodes_partial hinc _ (i := 254) (Or.inl (by norm_num)) (by norm_num),
      chiTable_chi closedPlanck (-3) 256 254 (by norm_num)]
    have : Finset.Ico 254 (256 - 1) = {254} := rfl
    rw [this, Finset.sum_singleton, hone, hX, Real.log_exp, Real.log_one]
  obtain ⟨a1, b1⟩ := hrate (-t) le_rfl (by linarith)
  obtain ⟨a2, b2⟩ := hrate ((-t + 0) / 2) (by linarith) (by linarith)
  obtain ⟨a3, b3⟩ := hrate 0 (by linarith) le_rfl
  have hrh : const_rh = 2997.92458 := by norm_num [const_rh]
  rw [hrh] at a1 a2 a3 b1 b2 b3
  have lo : 1 ≤ panel (chiRate closedPlanck) (-t) 0 := by
    rw [panel]; norm_num at a1 a2 a3 ⊢; nlinarith
  have hi : panel (chiRate closedPlanck) (-t) 0 ≤ 1000 := by
    rw [panel]; norm_num at b1 b2 b3 ⊢; nlinarith
  have hz : 0 < 1 / Real.exp (-t) - 1 := by
    have : Real.exp (-t) < 1 := Real.exp_lt_one_iff.2 (by linarith)
    have := one_lt_one_div (Real.exp_pos _) this
    linarith
  rw [max_eq_left (by linarith)] at hchi
  obtain ⟨x, h⟩ := C107_closed closedPlanck rfl hE (by norm_num [closedPlanck, Planck15, Params.Omega_m])
    (by norm_num [closedPlanck]) (z0 := 1 / Real.exp (-t) - 1) (g := 1) (zm := 10)
    (z := (1 / Real.exp (-t) - 1) / 2) (ell := 10) (by linarith) (by linarith) (by rw [hchi]; exact lo)
    (by
      have hs : √(-closedPlanck.Omega_k) ≤ 1 := by
        rw [Real.sqrt_le_left (by norm_num)]; norm_num [closedPlanck]
      have := Real.pi_gt_three
      rw [hchi, hrh, div_lt_iff₀ (by norm_num)]
      have h0 := Real.sqrt_nonneg (-closedPlanck.Omega_k)
      norm_num
      nlinarith)
    (by norm_num)
  exact ⟨_, x, h⟩

/-- Witness for the flat case. -/
example : ∃ x, weakLensingKernel Planck15 [.delta 1 1 10] (1 / 2) 10 = .ok [x] ∧
    x = curvedKernel Planck15.Omega_m const_H0 const_c 0 const_rh (1 / 2) 10 (chiZ Planck15 (1 / 2))
      (chiZ Planck15 1) := by
  obtain ⟨-, c1⟩ := chiZ_lt planck_physical.esqrPos (z := 1 / 2) (z0 := 1) (by norm_num) (by norm_num)
  have h1 : 1 < chiZ Planck15 1 := chi_gt_one planck_physical (by norm_num [z2a])
  exact ⟨_, C107_flat_partial Planck15 rfl rfl h1.le c1.le, rfl⟩

end JaxCosmo
