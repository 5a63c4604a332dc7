import Verif.Proofs.JvpBackground

/-! # C120 and C87: derivatives computed by forward-mode differentiation, background quantities -/

namespace JaxCosmo
open Spec Xr

/-- The cosmology handed to the differentiated code by `jax.jvp`: parameters `p`, tangents `v`. -/
def seedParams (p v : Params) : DParams where
  Omega_c := ⟨fin p.Omega_c, some (fin v.Omega_c)⟩
  Omega_b := ⟨fin p.Omega_b, some (fin v.Omega_b)⟩
  h := ⟨fin p.h, some (fin v.h)⟩
  n_s := ⟨fin p.n_s, some (fin v.n_s)⟩
  sigma8 := ⟨fin p.sigma8, some (fin v.sigma8)⟩
  Omega_k := ⟨fin p.Omega_k, some (fin v.Omega_k)⟩
  w0 := ⟨fin p.w0, some (fin v.w0)⟩
  wa := ⟨fin p.wa, some (fin v.wa)⟩
  gamma := match p.gamma, v.gamma with
    | some g, some g' => some ⟨fin g, some (fin g')⟩
    | _, _ => none

theorem seeded_of_along {P : ℝ → Params} {v : Params} {θ : ℝ} (h : Along P v θ) :
    Seeded P θ (seedParams (P θ) v) where
  Omega_c := .seed h.Omega_c
  Omega_b := .seed h.Omega_b
  h := .seed h.h
  n_s := .seed h.n_s
  sigma8 := .seed h.sigma8
  Omega_k := .seed h.Omega_k
  w0 := .seed h.w0
  wa := .seed h.wa
  gamma := by
    have hg := h.gamma
    unfold seedParams
    cases hv : v.gamma with
    | none =>
      rw [hv] at hg
      simpa using hg
    | some g' =>
      rw [hv] at hg
      obtain ⟨γ, hd, hs⟩ := hg
      simp only [hs θ]
      exact ⟨γ, .seed hd, hs⟩

section
variable {P : ℝ → Params} {v : Params} {θ : ℝ} {A : ℝ → ℝ} {a' : ℝ}

/-- C120: the derivatives of the expansion rate and the density parameters with respect to all
cosmological parameters and the scale factor are finite and exact. -/
theorem C120_expansion (h : Along P v θ) (hA : HasDerivAt A a' θ) (h0 : 0 < A θ)
    (hE : 0 < Esqr (P θ) (A θ)) :
    Jvp (fun s => Esqr (P s) (A s)) θ
        (Dm.Esqr (seedParams (P θ) v) ⟨fin (A θ), some (fin a')⟩) ∧
      Jvp (fun s => H (P s) (A s)) θ (Dm.H (seedParams (P θ) v) ⟨fin (A θ), some (fin a')⟩) ∧
      Jvp (fun s => Omega_m_a (P s) (A s)) θ
        (Dm.Omega_m_a (seedParams (P θ) v) ⟨fin (A θ), some (fin a')⟩) ∧
      Jvp (fun s => Omega_de_a (P s) (A s)) θ
        (Dm.Omega_de_a (seedParams (P θ) v) ⟨fin (A θ), some (fin a')⟩) :=
  ⟨jvp_Esqr (seeded_of_along h) (.seed hA) h0, jvp_H (seeded_of_along h) (.seed hA) h0 hE,
    jvp_Omega_m_a (seeded_of_along h) (.seed hA) h0 hE.ne',
    jvp_Omega_de_a (seeded_of_along h) (.seed hA) h0 hE.ne'⟩

/-- C120: the derivatives of the radial comoving distance with respect to all cosmological parameters
are finite and exact, at every scale factor (today included, where the clip is met with equality). -/
theorem C120_distance (h : Along P v θ) (hE : EsqrPos (P θ)) (a : ℝ) :
    Jvp (fun s => chiOf (P s) a) θ (Dm.chiOf (seedParams (P θ) v) (Du.con a)) :=
  jvp_chiOf (seeded_of_along h) hE (.con a θ)

/-- C120: with respect to the scale factor, jointly with all parameters: exact except at the points of
the table. -/
theorem C120_distance_a (h : Along P v θ) (hE : EsqrPos (P θ)) (hA : HasDerivAt A a' θ)
    (hoff : ∀ i < 256, A θ ≠ logspace (-3) 0 256 i) :
    Jvp (fun s => chiOf (P s) (A s)) θ
      (Dm.chiOf (seedParams (P θ) v) ⟨fin (A θ), some (fin a')⟩) := by
  have hinc := logspace_increasing (lo := -3) (n := 256) (by norm_num) (by norm_num)
  have hs := seeded_of_along h
  have hi : Jvp (fun r => interp 256 (logspace (-3) 0 256) (chiTable (P r) (-3) 256).chi (A r)) θ
      (Dm.interp 256 (Dm.chiTable (seedParams (P θ) v) (-3) 256).1
        (Dm.chiTable (seedParams (P θ) v) (-3) 256).2 ⟨fin (A θ), some (fin a')⟩) := by
    obtain ⟨j, h1, h2, h3, h4⟩ := exists_seg (n := 256) (by norm_num) (logspace (-3) 0 256) (A θ)
    refine Jvp.interp_inc (by norm_num) hinc (.seed hA) (fun i _ => jvp_logspace _ (by norm_num) i θ)
      (fun i hi => jvp_chiTable hs hE (by norm_num) (by norm_num) hi) h1 (by omega)
      (h3.imp_right fun h => lt_of_le_of_ne h (hoff _ (by omega)).symm)
      (h4.imp_right fun h => lt_of_le_of_ne h (hoff _ (by omega)))
  have h1 : A θ ≠ 1 := by
    have := hoff 255 (by norm_num)
    rwa [logspace_end (-3) (by norm_num : 2 ≤ 256)] at this
  refine Jvp.max hi (Jvp.zero θ) ?_
  rcases lt_or_gt_of_ne h1 with hx | hx
  · have := C06_pos_before (p := P θ) (lo := -3) (n := 256) (by norm_num) (by norm_num) hE hx
    rw [readChi, clipLo, lt_max_iff] at this
    exact (this.resolve_right (lt_irrefl _)).ne'
  · have := C21_strictAnti (by norm_num) hinc (fp := (chiTable (P θ) (-3) 256).chi)
      (fun i hi => chiTable_step _ (by norm_num) (by norm_num) hE i (by omega)) hx
    rw [interp_chi_one (by norm_num) (by norm_num)] at this
    exact this.ne

/-- C120: the derivatives of the growth factor and the growth rate with respect to all cosmological
parameters are finite and exact, with the growth equation and with the growth index. -/
theorem C120_growth (h : Along P v θ) (hp : Physical (P θ)) {a : ℝ} (ha0 : 1 / 900 ≤ a)
    (ha1 : a ≤ 1) :
    Jvp (fun s => growthOf (P s) a) θ (Dm.growthOf (seedParams (P θ) v) (Du.con a)) ∧
      Jvp (fun s => growthRateOf (P s) a) θ (Dm.growthRateOf (seedParams (P θ) v) (Du.con a)) :=
  ⟨jvp_growthOf (seeded_of_along h) hp ha0 ha1 (.con a θ),
    jvp_growthRateOf (seeded_of_along h) hp (by linarith) (.con a θ)⟩

/-- C87 for the algorithm of `jax.jvp`: in curved universes the derivatives of the transverse and the
angular diameter distance are finite and exact. -/
theorem C87_jvp_partial (h : Along P v θ) (hE : EsqrPos (P θ)) (hk : (P θ).Omega_k ≠ 0) (a : ℝ) :
    Jvp (fun s => transverseOf (P s) (chiOf (P s) a)) θ
        (Dm.transverse (seedParams (P θ) v) (Du.con a)) ∧
      Jvp (fun s => a * transverseOf (P s) (chiOf (P s) a)) θ
        (Dm.angularDiameter (seedParams (P θ) v) (Du.con a)) :=
  have ht := jvp_transverse (seeded_of_along h) hE hk (.con a θ)
  ⟨ht, (Jvp.con a θ).mul ht⟩

/-- C87: in flat universes `jax.jvp` returns the derivative of the radial distance, whatever the tangent
of the curvature; the true derivative is larger by `Ω_k' χ³/(6 R_H²)`. -/
theorem C87_jvp_flat (h : Along P v θ) (hE : EsqrPos (P θ)) (hflat : (P θ).Omega_k = 0) (a : ℝ) :
    ∃ d, (Dm.transverse (seedParams (P θ) v) (Du.con a)).tangent = fin d ∧
      HasDerivAt (fun s => transverseOf (P s) (chiOf (P s) a))
        (d + v.Omega_k * chiOf (P θ) a ^ 3 / (6 * const_rh ^ 2)) θ := by
  obtain ⟨d, hd, -, ht⟩ := C120_distance h hE a
  exact ⟨d, by rw [dm_transverse_flat (seeded_of_along h) hflat, ht], C87_flat h hflat hd⟩

end

/-- C87 as stated is false of `jax.jvp`: the derivative with respect to `Ω_k` in the Planck 2015
cosmology. -/
theorem C87_jvp_refuted : ¬ ∀ (P : ℝ → Params) (v : Params) (θ a : ℝ), Along P v θ → EsqrPos (P θ) →
    Jvp (fun s => transverseOf (P s) (chiOf (P s) a)) θ
      (Dm.transverse (seedParams (P θ) v) (Du.con a)) := by
  intro H
  have hE : EsqrPos (curvedPlanck 0) := by rw [curvedPlanck_zero]; exact planck_EsqrPos
  obtain ⟨d, hd, -, ht⟩ := H _ _ 0 (1 / 2) (curvedPlanck_along 0) hE
  obtain ⟨d', ht', hd'⟩ := C87_jvp_flat (curvedPlanck_along 0) hE rfl (1 / 2)
  obtain rfl : d' = d := by
    rw [ht] at ht'
    exact (Xr.fin.inj ht').symm
  have := hd.unique hd'
  have hpos : 0 < chiOf (curvedPlanck 0) (1 / 2) :=
    C06_pos_before (lo := -3) (n := 256) (by norm_num) (by norm_num) hE (by norm_num)
  have hrh : 0 < const_rh := by norm_num [const_rh]
  have h1 : 0 < (1 : ℝ) * chiOf (curvedPlanck 0) (1 / 2) ^ 3 / (6 * const_rh ^ 2) := by positivity
  linarith

/-- The tangent vector along the curvature. -/
noncomputable def alongCurvature : Params :=
  { Omega_c := 0, Omega_b := 0, h := 0, n_s := 0, sigma8 := 0, Omega_k := 1, w0 := 0, wa := 0,
    gamma := none }

/-- Witness for `C120_expansion`: Planck 2015, today. -/
example : Jvp (fun s => H (curvedPlanck s) 1) 0
    (Dm.H (seedParams (curvedPlanck 0) alongCurvature) ⟨fin 1, some (fin 0)⟩) :=
  (C120_expansion (A := fun _ => 1) (curvedPlanck_along 0) (hasDerivAt_const _ _) one_pos (by
    rw [curvedPlanck_zero]; exact planck_EsqrPos 1 one_pos le_rfl)).2.1

/-- Witness for `C120_distance` and `C120_growth`: Planck 2015, varying the
curvature. -/
example : Jvp (fun s => growthOf (curvedPlanck s) (1 / 2)) 0
    (Dm.growthOf (seedParams (curvedPlanck 0) alongCurvature) (Du.con (1 / 2))) :=
  (C120_growth (curvedPlanck_along 0) (by rw [curvedPlanck_zero]; exact planck_physical)
    (by norm_num) (by norm_num)).1

example : Jvp (fun s => chiOf (curvedPlanck s) 1) 0
    (Dm.chiOf (seedParams (curvedPlanck 0) alongCurvature) (Du.con 1)) :=
  C120_distance (curvedPlanck_along 0) (by rw [curvedPlanck_zero]; exact planck_EsqrPos) 1

/-- Witness for `C120_distance_a`: a redshift beyond the table. -/
example : Jvp (fun s => chiOf (curvedPlanck 0) s) (1 / 2000)
    (Dm.chiOf (seedParams (curvedPlanck 0) { Planck15 with
      Omega_c := 0, Omega_b := 0, h := 0, n_s := 0, sigma8 := 0, w0 := 0, wa := 0 })
      ⟨fin (1 / 2000), some (fin 1)⟩) := by
  have h : Along (fun _ => curvedPlanck 0) { Planck15 with
      Omega_c := 0, Omega_b := 0, h := 0, n_s := 0, sigma8 := 0, w0 := 0, wa := 0 } (1 / 2000) :=
    ⟨hasDerivAt_const _ _, hasDerivAt_const _ _, hasDerivAt_const _ _, hasDerivAt_const _ _,
      hasDerivAt_const _ _, hasDerivAt_const _ _, hasDerivAt_const _ _, hasDerivAt_const _ _,
      fun _ => rfl⟩
  refine C120_distance_a (P := fun _ => curvedPlanck 0) (A := id) h
    (by rw [curvedPlanck_zero]; exact planck_EsqrPos) (hasDerivAt_id _) fun i hi => ne_of_lt ?_
  have h0 : logspace (-3) 0 256 0 ≤ logspace (-3) 0 256 i :=
    (logspace_strictMono (lo := -3) (by norm_num) (n := 256) (by norm_num)).monotone (Nat.zero_le i)
  have h1 : logspace (-3) 0 256 0 = 1 / 1000 := by
    unfold logspace linspace
    rw [show (-3 : ℝ) + ((0 : ℕ) : ℝ) * ((0 - -3) / (((256 : ℕ) : ℝ) - 1)) = ((-3 : ℤ) : ℝ) by norm_num,
      Real.rpow_intCast]
    norm_num
  rw [h1] at h0
  simp only [id]
  linarith

/-- Witness for `C87_jvp_partial`: an open universe. -/
example : Jvp (fun s => transverseOf (curvedPlanck s) (chiOf (curvedPlanck s) (1 / 2))) (1 / 10)
    (Dm.transverse (seedParams (curvedPlanck (1 / 10)) alongCurvature) (Du.con (1 / 2))) :=
  (C87_jvp_partial (curvedPlanck_along (1 / 10)) (fun a ha _ => C05_Esqr_pos _ a ha
    (by norm_num [curvedPlanck, Planck15, Params.Omega_m]) (by norm_num [curvedPlanck])
    (by norm_num [curvedPlanck, Planck15, Params.Omega_de, Params.Omega, Params.Omega_m]))
    (by norm_num [curvedPlanck]) _).1

end JaxCosmo
