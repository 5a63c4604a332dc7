import Verif.Props.TableConvergence
import Verif.Props.GrowthSensitivity
import Verif.Props.GrowthBound
import Verif.Props.Hubble

/-! # C162: the growth rate is the logarithmic slope of the growth factor -/

namespace JaxCosmo
open Spec Filter Topology Set

variable {p : Params} {lo : ℝ} {n : ℕ}

/-- The slope of a growth table between nodes `j` and `j + 1`. -/
noncomputable def growthSlope (c : GrowthCache) (j : ℕ) : ℝ := (c.g (j + 1) - c.g j) / (c.a (j + 1) - c.a j)

/-- What differentiation returns between two nodes, where the table is within its range. -/
theorem readGrowth_deriv {c : GrowthCache} (hn : 3 ≤ c.n) (hx : Increasing c.n c.a) {j : ℕ} (hj : 1 ≤ j)
    (hj' : j + 1 < c.n) {a : ℝ} (h1 : c.a j < a) (h2 : a < c.a (j + 1)) (h0 : 0 < readGrowth c a)
    (hlt : readGrowth c a < 1) :
    HasDerivAt (readGrowth c) (growthSlope c j) a ∧ readGrowth c a = c.g j + growthSlope c j * (a - c.a j) := by
  have hs : ∀ y, c.a j ≤ y → y ≤ c.a (j + 1) → interp c.n c.a c.g y = chord c.a c.g j y := fun y y1 y2 =>
    interp_inc_seg hn hx _ hj hj' (Or.inr y1) (Or.inr y2)
  have hc : HasDerivAt (chord c.a c.g j) (growthSlope c j) a := by
    unfold chord
    have := (((hasDerivAt_id a).sub_const (c.a j)).div_const (c.a (j + 1) - c.a j)).const_mul (c.g (j + 1) - c.g j)
    refine (this.const_add _).congr_deriv ?_
    unfold growthSlope
    ring
  have hi : HasDerivAt (interp c.n c.a c.g) (growthSlope c j) a := by
    refine hc.congr_of_eventuallyEq ?_
    filter_upwards [lt_mem_nhds h1, gt_mem_nhds h2] with y y1 y2
    exact hs y y1.le y2.le
  refine ⟨clip_deriv hi h0 hlt, ?_⟩
  have e : readGrowth c a = clip (chord c.a c.g j a) 0 1 := by rw [readGrowth, hs a h1.le h2.le]
  rw [e] at h0 hlt ⊢
  have e0 : 0 < chord c.a c.g j a := by
    by_contra hc
    rw [clip, max_eq_right (not_lt.1 hc), min_eq_left zero_le_one] at h0
    exact lt_irrefl _ h0
  have e1 : chord c.a c.g j a < 1 := by
    by_contra hc
    rw [clip, max_eq_left e0.le, min_eq_right (not_lt.1 hc)] at hlt
    exact lt_irrefl _ hlt
  rw [clip, max_eq_left e0.le, min_eq_left e1.le, chord, growthSlope]
  ring

/-- The slope of a chord through two points near a curve. -/
theorem growth_slope_near {F F' : ℝ → ℝ} {s t L : ℝ} (hF : ∀ x ∈ Icc s t, HasDerivWithinAt F (F' x) (Icc s t) x)
    (hL : ∀ x ∈ Icc s t, ∀ y ∈ Icc s t, |F' x - F' y| ≤ L * |x - y|) (hL0 : 0 ≤ L) {u v a g0 g1 e : ℝ}
    (hu : s ≤ u) (hv : v ≤ t) (huv : u < v) (ha : a ∈ Icc u v) (h0 : |g0 - F u| ≤ e) (h1 : |g1 - F v| ≤ e) :
    |(g1 - g0) / (v - u) - F' a| ≤ 2 * e / (v - u) + L * (v - u) := by
  have hsub : Icc u v ⊆ Icc s t := Icc_subset_Icc hu hv
  obtain ⟨ξ, hξ, he⟩ := exists_hasDerivAt_eq_slope F F' huv
    (fun x hx => ((hF x (hsub hx)).continuousWithinAt).mono hsub)
    (fun x hx => (hF x (hsub (Ioo_subset_Icc_self hx))).hasDerivAt
      (Icc_mem_nhds (hu.trans_lt hx.1) (hx.2.trans_le hv)))
  have hd : 0 < v - u := by linarith
  have e1 : (g1 - g0) / (v - u) - F' a = ((g1 - F v) - (g0 - F u)) / (v - u) + (F' ξ - F' a) := by
    rw [he]; field_simp; ring
  rw [e1]
  refine (abs_add_le _ _).trans (add_le_add ?_ ?_)
  · rw [abs_div, abs_of_pos hd]
    gcongr
    exact (abs_sub _ _).trans (by linarith)
  · refine (hL _ (hsub (Ioo_subset_Icc_self hξ)) _ (hsub ha)).trans ?_
    gcongr
    rw [abs_le]
    exact ⟨by linarith [hξ.1, ha.2], by linarith [hξ.2, ha.1]⟩

theorem lipschitz_of_smooth {F : ℝ → ℝ} {s t : ℝ} (hst : s < t) (hF : ContDiffOn ℝ 2 F (Icc s t)) :
    ∃ L, 0 ≤ L ∧ ∀ x ∈ Icc s t, ∀ y ∈ Icc s t, |F x - F y| ≤ L * |x - y| := by
  have hu := uniqueDiffOn_Icc hst
  obtain ⟨M, hM⟩ := isCompact_Icc.exists_bound_of_continuousOn
    (hF.continuousOn_derivWithin hu (by norm_num))
  refine ⟨max M 0, le_max_right _ _, fun x hx y hy => ?_⟩
  have := (convex_Icc s t).norm_image_sub_le_of_norm_derivWithin_le (C := max M 0)
    (hF.differentiableOn (by norm_num)) (fun z hz => (hM z hz).trans (le_max_left _ _)) hy hx
  simpa [Real.norm_eq_abs] using this

theorem logspace_gap_ge (hlo : lo < 0) (hn : 1 ≤ n) (i : ℕ) :
    (10 : ℝ) ^ lo * (-lo * Real.log 10 / n) ≤ logspace lo 0 (n + 1) (i + 1) - logspace lo 0 (n + 1) i := by
  have h0 := logspace_pos lo 0 (n + 1) i
  have h1 := logspace_pos lo 0 (n + 1) (i + 1)
  have hs := log_logspace_step lo (n := n + 1) i
  have hle : (10 : ℝ) ^ lo ≤ logspace lo 0 (n + 1) i := by
    have := (logspace_strictMono hlo (n := n + 1) (by omega)).monotone (Nat.zero_le i)
    rwa [logspace_zero] at this
  have e : logspace lo 0 (n + 1) (i + 1)
      = logspace lo 0 (n + 1) i * Real.exp (-lo * Real.log 10 / n) := by
    have : -lo * Real.log 10 / n = -lo / (((n + 1 : ℕ) : ℝ) - 1) * Real.log 10 := by push_cast; ring
    rw [this, ← hs, Real.exp_sub, Real.exp_log h1, Real.exp_log h0]; field_simp
  rw [e]
  have hh : 0 ≤ -lo * Real.log 10 / n := by
    have := neg_pos.2 hlo
    have := Real.log_pos (by norm_num : (1 : ℝ) < 10)
    positivity
  nlinarith [Real.add_one_le_exp (-lo * Real.log 10 / n)]

section Growth
variable (hlo : lo < 0) (hE : EsqrPos p) (hm : 0 ≤ p.Omega_m) {D D' : ℝ → ℝ}
  (hD : IsGrowthOn (expansion p) p.Omega_m ((10 : ℝ) ^ lo) 1 D D') (hi : D ((10 : ℝ) ^ lo) = 10 ^ lo)
  (hi' : D' ((10 : ℝ) ^ lo) = 1)
include hlo hE hD hi hi' hm

/-- The slopes of the table converge to the derivative of the exact growth factor. -/
theorem growthSlope_error : ∃ (C : ℝ) (n0 : ℕ), 0 ≤ C ∧ 1 ≤ n0 ∧ ∀ n ≥ n0, ∀ j < n,
    ∀ a ∈ Icc (logspace lo 0 (n + 1) j) (logspace lo 0 (n + 1) (j + 1)),
      |growthSlope (growthTableODE p lo (n + 1)) j - D' a / D 1| ≤ C / n := by
  have h1 : (10 : ℝ) ^ lo < 1 := Real.rpow_lt_one_of_one_lt_of_neg (by norm_num) hlo
  have h0 : (0 : ℝ) < 10 ^ lo := by positivity
  obtain ⟨-, h2', hpos⟩ := growth_facts hlo hE hm hD hi hi'
  obtain ⟨C, n0, hC⟩ := C90_growth hlo hE hm hD hi hi'
  obtain ⟨L, hL0, hL⟩ := lipschitz_of_smooth h1 (h2'.div_const (D 1))
  set H := -lo * Real.log 10 with hH
  have hH0 : 0 < H := mul_pos (neg_pos.2 hlo) (Real.log_pos (by norm_num))
  refine ⟨2 * |C| / (10 ^ lo * H) + L * H, max n0 1, by positivity, le_max_right _ _, fun n hn j hj a ha => ?_⟩
  have hn0 : n0 ≤ n := (le_max_left _ _).trans hn
  have hn1 : 1 ≤ n := (le_max_right _ _).trans hn
  have hnR : (1 : ℝ) ≤ n := by exact_mod_cast hn1
  have hC' : ∀ i ≤ n, |(growthTableODE p lo (n + 1)).g i - D (logspace lo 0 (n + 1) i) / D 1| ≤ |C| / n ^ 4 :=
    fun i hi => (hC n hn0 i hi).trans (by gcongr; exact le_abs_self C)
  have hgap := logspace_gap_ge hlo hn1 j
  have hmesh := (logspace_mesh hlo hn1 hj).2
  have hmem := fun i (hi : i < n + 1) => logspace_Icc hlo (n := n + 1) (by omega) (i := i) (by omega)
  have hlt : logspace lo 0 (n + 1) j < logspace lo 0 (n + 1) (j + 1) :=
    logspace_strictMono hlo (n := n + 1) (by omega) (Nat.lt_succ_self j)
  have key := growth_slope_near (F := fun a => D a / D 1) (F' := fun a => D' a / D 1)
    (fun x hx => ((hD x hx).1.div_const (D 1))) hL hL0
    (hmem j (by omega)).1 (hmem (j + 1) (by omega)).2 hlt ha (hC' j hj.le) (hC' (j + 1) hj)
  refine key.trans ?_
  rw [add_div]
  refine add_le_add ?_ ?_
  · calc 2 * (|C| / n ^ 4) / (logspace lo 0 (n + 1) (j + 1) - logspace lo 0 (n + 1) j)
        ≤ 2 * (|C| / n ^ 4) / (10 ^ lo * (H / n)) := by gcongr
      _ = 2 * |C| / (10 ^ lo * H) / n * (1 / n ^ 2) := by field_simp
      _ ≤ 2 * |C| / (10 ^ lo * H) / n * 1 := by
          gcongr
          rw [div_le_one (by positivity)]
          exact one_le_pow₀ hnR
      _ = _ := mul_one _
  · calc L * (logspace lo 0 (n + 1) (j + 1) - logspace lo 0 (n + 1) j) ≤ L * (H / n) := by gcongr
      _ = L * H / n := by ring

/-- C162, partial: for fine tables, between the nodes the growth factor is differentiable and its logarithmic slope
differs from the growth rate of the library by at most `C/n`.  What is missing is equality: see `C162_refuted`. -/
theorem C162_converges_partial : ∃ (C : ℝ) (n0 : ℕ), ∀ n ≥ n0, ∃ f, (growthTableODE p lo (n + 1)).f = some f ∧
    ∀ j, 1 ≤ j → j < n → ∀ a ∈ Ioo (logspace lo 0 (n + 1) j) (logspace lo 0 (n + 1) (j + 1)),
      ∃ d, HasDerivAt (readGrowth (growthTableODE p lo (n + 1))) d a ∧
        0 < readGrowth (growthTableODE p lo (n + 1)) a ∧
        |a * d / readGrowth (growthTableODE p lo (n + 1)) a
          - interp (n + 1) (logspace lo 0 (n + 1)) f a| ≤ C / n := by
  have h1 : (10 : ℝ) ^ lo < 1 := Real.rpow_lt_one_of_one_lt_of_neg (by norm_num) hlo
  have h0 : (0 : ℝ) < 10 ^ lo := by positivity
  obtain ⟨h2, h2', hpos⟩ := growth_facts hlo hE hm hD hi hi'
  have hpos' := secondOrder_pos h1.le (friction_contDiffOn h0 hE 0).continuousOn
    (source_nonneg h0 hE hm) ((isGrowthOn_iff h0 hE D D').1 hD) (by rw [hi]; exact h0)
    (by rw [hi']; exact one_pos)
  rw [hi] at hpos'
  obtain ⟨Cs, ns, hCs0, hns, hCs⟩ := growthSlope_error hlo hE hm hD hi hi'
  obtain ⟨Cg, ng, hCg⟩ := C91_growth hlo hE hm hD hi hi'
  obtain ⟨Cf, nf, hCf⟩ := C91_rate hlo hE hm hD hi hi'
  have hD1 : 0 < D 1 := (hpos 1 (right_mem_Icc.2 h1.le)).1
  obtain ⟨b, hb, hbmin⟩ := isCompact_Icc.exists_isMinOn (nonempty_Icc.2 h1.le) h2'.continuousOn
  obtain ⟨M, hM⟩ := isCompact_Icc.exists_bound_of_continuousOn h2'.continuousOn
  have hδ : 0 < D' b := (hpos' b hb).2
  have hM0 : 0 ≤ M := (norm_nonneg _).trans (hM b hb)
  -- beyond this many steps the slopes are positive and the growth factor is at least half of the exact one
  obtain ⟨n1, hn1⟩ := exists_nat_gt (Cs * D 1 / D' b)
  obtain ⟨n2, hn2⟩ := exists_nat_gt (|Cg| * (2 * D 1) / 10 ^ lo)
  refine ⟨(Cs * D 1 + M * |Cg|) / (10 ^ lo / (2 * D 1) * 10 ^ lo) + |Cf|,
    max (max (max ns ng) (max nf 2)) (max n1 n2), fun n hn => ?_⟩
  simp only [ge_iff_le, max_le_iff] at hn
  obtain ⟨⟨⟨hnns, hnng⟩, hnnf, hnn2⟩, hnn1, hnn2'⟩ := hn
  obtain ⟨f, hf, hfe⟩ := hCf n hnnf
  have hnR : (1 : ℝ) ≤ n := by exact_mod_cast (by omega : 1 ≤ n)
  have hnpos : (0 : ℝ) < n := by linarith
  refine ⟨f, hf, fun j hj hjn a ha => ?_⟩
  set c := growthTableODE p lo (n + 1) with hc
  have hca : c.a = logspace lo 0 (n + 1) := rfl
  have hcn : c.n = n + 1 := rfl
  have hx : Increasing c.n c.a := logspace_increasing hlo (by omega)
  have hmem := fun i (hi : i < n + 1) => logspace_Icc hlo (n := n + 1) (by omega) (i := i) (by omega)
  have haI : a ∈ Icc ((10 : ℝ) ^ lo) 1 :=
    ⟨(hmem j (by omega)).1.trans ha.1.le, ha.2.le.trans (hmem (j + 1) (by omega)).2⟩
  have ha0 : 0 < a := h0.trans_le haI.1
  -- slopes are positive
  have hslope : ∀ i < n, 0 < growthSlope c i := fun i hin => by
    have hi0 := hmem i (by omega)
    have := hCs n hnns i hin (logspace lo 0 (n + 1) i) ⟨le_rfl, (logspace_mesh hlo (by omega) hin).1⟩
    rw [abs_le] at this
    have k1 : D' b ≤ D' (logspace lo 0 (n + 1) i) := hbmin hi0
    have k2 : Cs / n < D' b / D 1 := by
      rw [div_lt_div_iff₀ hnpos hD1]
      rw [div_lt_iff₀ hδ] at hn1
      have : (n1 : ℝ) ≤ n := by exact_mod_cast hnn1
      nlinarith
    have k3 : D' b / D 1 ≤ D' (logspace lo 0 (n + 1) i) / D 1 := by gcongr
    linarith [this.1]
  have hinc : ∀ i < n, c.g i < c.g (i + 1) := fun i hin => by
    have hlt : c.a i < c.a (i + 1) := logspace_strictMono hlo (n := n + 1) (by omega) (Nat.lt_succ_self i)
    have := hslope i hin
    rw [growthSlope, div_pos_iff_of_pos_right (by linarith)] at this
    linarith
  have hgn : c.g n = 1 := by
    have hne : (odeint (growthDerivs p) (logspace lo 0 (n + 1) 0, 1) (logspace lo 0 (n + 1)) n).1 ≠ 0 := by
      intro h
      have e : c.g n = _ / (odeint (growthDerivs p) (logspace lo 0 (n + 1) 0, 1) (logspace lo 0 (n + 1))
        (ix (n + 1) (-1))).1 := rfl
      have e' : c.g (n - 1) = _ / (odeint (growthDerivs p) (logspace lo 0 (n + 1) 0, 1) (logspace lo 0 (n + 1))
        (ix (n + 1) (-1))).1 := rfl
      have hix : ix (n + 1) (-1) = n := by rw [ix_last]; omega
      rw [hix, h, div_zero] at e e'
      have := hinc (n - 1) (by omega)
      rw [show n - 1 + 1 = n by omega] at this
      linarith
    have := growthTableODE_last (p := p) (lo := lo) (n := n + 1) (by simpa using hne)
    simpa using this
  have hle1 : ∀ k ≤ n, c.g (n - k) ≤ 1 := by
    intro k
    induction k with
    | zero => intro _; rw [Nat.sub_zero, hgn]
    | succ k ih =>
      intro hk
      have := hinc (n - (k + 1)) (by omega)
      rw [show n - (k + 1) + 1 = n - k by omega] at this
      linarith [ih (by omega)]
  have hgj1 : c.g (j + 1) ≤ 1 := by
    have := hle1 (n - (j + 1)) (by omega)
    rwa [show n - (n - (j + 1)) = j + 1 by omega] at this
  -- the value read is close to the exact one, hence positive
  have hge := hCg n hnng a haI
  have hDa : 10 ^ lo ≤ D a := (hpos' a haI).1
  have hG2 : |readGrowth c a - D a / D 1| ≤ |Cg| / n := by
    refine hge.trans ((div_le_div_of_nonneg_right (le_abs_self Cg) (by positivity)).trans ?_)
    gcongr
    nlinarith
  have hsmall : |Cg| / n ≤ 10 ^ lo / (2 * D 1) := by
    rw [div_le_div_iff₀ hnpos (by positivity)]
    rw [div_lt_iff₀ h0] at hn2
    have : (n2 : ℝ) ≤ n := by exact_mod_cast hnn2'
    nlinarith
  have hGlow : 10 ^ lo / (2 * D 1) ≤ readGrowth c a := by
    have := (abs_le.1 hG2).1
    have e : (10 : ℝ) ^ lo / D 1 ≤ D a / D 1 := by gcongr
    have e2 : (10 : ℝ) ^ lo / D 1 = 2 * (10 ^ lo / (2 * D 1)) := by field_simp
    linarith
  have hGpos : 0 < readGrowth c a := lt_of_lt_of_le (by positivity) hGlow
  have hs : interp c.n c.a c.g a = chord c.a c.g j a :=
    interp_inc_seg (by omega) hx _ hj (by omega) (Or.inr ha.1.le) (Or.inr ha.2.le)
  have hGlt : readGrowth c a < 1 := by
    have hch : chord c.a c.g j a < c.g (j + 1) := by
      have hlt : c.a j < c.a (j + 1) := logspace_strictMono hlo (n := n + 1) (by omega) (Nat.lt_succ_self j)
      have hd : (0 : ℝ) < c.a (j + 1) - c.a j := by linarith
      have hm' := hslope j hjn
      have e : chord c.a c.g j a = c.g (j + 1) - growthSlope c j * (c.a (j + 1) - a) := by
        rw [chord, growthSlope]; field_simp; ring
      rw [e]
      have : 0 < c.a (j + 1) - a := by have := ha.2; rw [hca]; linarith
      nlinarith [mul_pos hm' this]
    rw [readGrowth, hs, clip]
    refine (min_le_left _ _).trans_lt (max_lt ?_ one_pos)
    linarith
  obtain ⟨hder, -⟩ := readGrowth_deriv (c := c) (by omega) hx hj (by omega) ha.1 ha.2 hGpos hGlt
  refine ⟨_, hder, hGpos, ?_⟩
  set G := readGrowth c a with hG
  set m := growthSlope c j with hmd
  have hme : |m - D' a / D 1| ≤ Cs / n := hCs n hnns j hjn a ⟨ha.1.le, ha.2.le⟩
  have hfa : |interp (n + 1) (logspace lo 0 (n + 1)) f a - a * D' a / D a| ≤ |Cf| / n := by
    refine (hfe a haI).trans ((div_le_div_of_nonneg_right (le_abs_self Cf) (by positivity)).trans ?_)
    gcongr
    nlinarith
  have hDpos : 0 < D a := (hpos a haI).1
  have e : a * m / G - a * D' a / D a
      = a * ((m - D' a / D 1) * D a - D' a * (G - D a / D 1)) / (G * D a) := by
    field_simp; ring
  have hmain : |a * m / G - a * D' a / D a|
      ≤ (Cs * D 1 + M * |Cg|) / (10 ^ lo / (2 * D 1) * 10 ^ lo) / n := by
    rw [e, abs_div, abs_of_pos (mul_pos hGpos hDpos), abs_mul, abs_of_pos ha0]
    have k1 : |(m - D' a / D 1) * D a - D' a * (G - D a / D 1)| ≤ (Cs * D 1 + M * |Cg|) / n := by
      refine (abs_sub _ _).trans ?_
      rw [abs_mul, abs_mul, abs_of_pos hDpos, add_div]
      have hMa : |D' a| ≤ M := hM a haI
      have hDle := (hpos a haI).2
      refine add_le_add ?_ ?_
      · calc |m - D' a / D 1| * D a ≤ Cs / n * D 1 := by gcongr
          _ = _ := by ring
      · calc |D' a| * |G - D a / D 1| ≤ M * (|Cg| / n) := by gcongr
          _ = _ := by ring
    have ha1 := haI.2
    calc a * |(m - D' a / D 1) * D a - D' a * (G - D a / D 1)| / (G * D a)
        ≤ 1 * ((Cs * D 1 + M * |Cg|) / n) / (10 ^ lo / (2 * D 1) * 10 ^ lo) := by gcongr
      _ = _ := by ring
  rw [add_div]
  calc |a * m / G - interp (n + 1) (logspace lo 0 (n + 1)) f a|
      ≤ |a * m / G - a * D' a / D a| + |a * D' a / D a - interp (n + 1) (logspace lo 0 (n + 1)) f a| :=
        abs_sub_le _ _ _
    _ ≤ _ := add_le_add hmain (by rw [abs_sub_comm]; exact hfa)

end Growth

/-- The whole statement at the Planck parameters: the exact growth factor it mentions exists. -/
example : ∃ (C : ℝ) (n0 : ℕ), ∀ n ≥ n0, ∃ f, (growthTableODE Planck15 (-3) (n + 1)).f = some f ∧
    ∀ j, 1 ≤ j → j < n → ∀ a ∈ Ioo (logspace (-3) 0 (n + 1) j) (logspace (-3) 0 (n + 1) (j + 1)),
      ∃ d, HasDerivAt (readGrowth (growthTableODE Planck15 (-3) (n + 1))) d a ∧
        0 < readGrowth (growthTableODE Planck15 (-3) (n + 1)) a ∧
        |a * d / readGrowth (growthTableODE Planck15 (-3) (n + 1)) a
          - interp (n + 1) (logspace (-3) 0 (n + 1)) f a| ≤ C / n := by
  have hm : 0 ≤ Planck15.Omega_m := planck_physical.m_pos.le
  have h1 : (10 : ℝ) ^ (-3 : ℝ) < 1 := Real.rpow_lt_one_of_one_lt_of_neg (by norm_num) (by norm_num)
  obtain ⟨D, D', hD, hi, hi', -⟩ := C90_solution (a0 := (10 : ℝ) ^ (-3 : ℝ)) (by positivity) planck_EsqrPos h1 hm
  exact C162_converges_partial (by norm_num) planck_EsqrPos hm hD hi hi'

/-- The logarithmic slope of a straight line is linear only if the line goes through the origin. -/
theorem slope_cell {u v g0 m α β : ℝ} (huv : u < v) (hg : ∀ a ∈ Ioo u v, 0 < g0 + m * (a - u)) (hm : 0 < m)
    (h : ∀ a ∈ Ioo u v, a * m / (g0 + m * (a - u)) = α + β * (a - u)) : g0 = m * u ∧ α = 1 ∧ β = 0 := by
  have key : ∀ t ∈ Ioo (0 : ℝ) 1, (u + t * (v - u)) * m
      = (α + β * (t * (v - u))) * (g0 + m * (t * (v - u))) := fun t ht => by
    have hd : 0 < v - u := by linarith
    have hmem : u + t * (v - u) ∈ Ioo u v := ⟨by nlinarith [mul_pos ht.1 hd], by nlinarith [mul_pos (sub_pos.2 ht.2) hd]⟩
    have := h _ hmem
    have hp := hg _ hmem
    rw [add_sub_cancel_left] at this hp
    rwa [div_eq_iff hp.ne'] at this
  have k1 := key (1 / 4) (by norm_num)
  have k2 := key (1 / 2) (by norm_num)
  have k3 := key (3 / 4) (by norm_num)
  have hd : v - u ≠ 0 := by linarith
  have hd2 : (v - u) ^ 2 ≠ 0 := pow_ne_zero 2 hd
  have hβ : β = 0 := by
    have : β * m * (v - u) ^ 2 = 0 := by linear_combination 8 * (2 * k2 - k1 - k3)
    rcases mul_eq_zero.1 this with h | h
    · exact (mul_eq_zero.1 h).resolve_right hm.ne'
    · exact absurd h hd2
  subst hβ
  have hα : α = 1 := by
    have : (1 - α) * (m * (v - u)) = 0 := by linear_combination 4 * (k2 - k1)
    rcases mul_eq_zero.1 this with h | h
    · linarith
    · exact absurd h (mul_ne_zero hm.ne' hd)
  subst hα
  refine ⟨?_, rfl, rfl⟩
  linear_combination - k2

/-- C162: between two nodes of the table of the growth equation, the logarithmic slope of the growth factor is the
growth rate interpolated from any tabulated rates `f` (in the library, those of the cache) only where these rates are
both exactly one. -/
theorem C162_where (hlo : lo < 0) (hn : 3 ≤ n) {f : ℕ → ℝ} {j : ℕ}
    (hj : 1 ≤ j) (hj' : j + 1 < n) (h0 : 0 < (growthTableODE p lo n).g j)
    (hg : (growthTableODE p lo n).g j < (growthTableODE p lo n).g (j + 1)) (h1 : (growthTableODE p lo n).g (j + 1) ≤ 1)
    (h : ∀ a ∈ Ioo (logspace lo 0 n j) (logspace lo 0 n (j + 1)), ∀ d, HasDerivAt (readGrowth (growthTableODE p lo n)) d a →
      a * d / readGrowth (growthTableODE p lo n) a = interp n (logspace lo 0 n) f a) : f j = 1 ∧ f (j + 1) = 1 := by
  set c := growthTableODE p lo n with hc
  have hx : Increasing c.n c.a := logspace_increasing (n := n) hlo (by omega)
  have hlt : c.a j < c.a (j + 1) := logspace_strictMono hlo (n := n) (by omega) (Nat.lt_succ_self j)
  have hd : 0 < c.a (j + 1) - c.a j := by linarith
  have hm : 0 < growthSlope c j := div_pos (by linarith) hd
  have hend : c.g j + growthSlope c j * (c.a (j + 1) - c.a j) = c.g (j + 1) := by
    rw [growthSlope]; field_simp; ring
  have hval : ∀ a ∈ Ioo (c.a j) (c.a (j + 1)), 0 < c.g j + growthSlope c j * (a - c.a j) ∧
      HasDerivAt (readGrowth c) (growthSlope c j) a ∧
      readGrowth c a = c.g j + growthSlope c j * (a - c.a j) := fun a ha => by
    have k0 : 0 < c.g j + growthSlope c j * (a - c.a j) := by nlinarith [mul_pos hm (sub_pos.2 ha.1)]
    have k1 : c.g j + growthSlope c j * (a - c.a j) < 1 := by nlinarith [mul_pos hm (sub_pos.2 ha.2)]
    have hs : interp c.n c.a c.g a = chord c.a c.g j a :=
      interp_inc_seg hn hx _ hj hj' (Or.inr ha.1.le) (Or.inr ha.2.le)
    have e : readGrowth c a = c.g j + growthSlope c j * (a - c.a j) := by
      have e1 : chord c.a c.g j a = c.g j + growthSlope c j * (a - c.a j) := by rw [chord, growthSlope]; ring
      rw [readGrowth, hs, e1, clip, max_eq_left k0.le, min_eq_left k1.le]
    refine ⟨k0, ?_, e⟩
    exact (readGrowth_deriv (c := c) hn hx hj hj' ha.1 ha.2 (by rw [e]; exact k0) (by rw [e]; exact k1)).1
  have key := slope_cell hlt (fun a ha => (hval a ha).1) hm (α := f j)
    (β := (f (j + 1) - f j) / (c.a (j + 1) - c.a j)) fun a ha => by
      obtain ⟨-, k2, k3⟩ := hval a ha
      have := h a ha _ k2
      have hs : interp n (logspace lo 0 n) f a = chord c.a f j a :=
        interp_inc_seg hn hx _ hj hj' (Or.inr ha.1.le) (Or.inr ha.2.le)
      rw [k3, hs] at this
      rw [this, chord]
      ring
  obtain ⟨-, hα, hβ⟩ := key
  refine ⟨hα, ?_⟩
  rw [div_eq_zero_iff] at hβ
  rcases hβ with hβ | hβ
  · linarith
  · exact absurd hβ hd.ne'

/-- C162: in an Einstein–de Sitter universe, whose tabulated rates are all one, the statement holds as it stands. -/
theorem C162_eds {p : Params} (hp : EdS p) {a d : ℝ} (h0 : 0 < a) (h1 : a < 1) (hd : HasDerivAt (growthOf p) d a) :
    a * d / growthOf p a = growthRateOf p a := by
  have e : HasDerivAt (growthOf p) 1 a := by
    refine (hasDerivAt_id a).congr_of_eventuallyEq ?_
    filter_upwards [lt_mem_nhds h0, gt_mem_nhds h1] with y y0 y1
    exact C11_eds_growth hp y0.le y1.le
  rw [hd.unique e, C11_eds_growth hp h0.le h1.le, C11_eds_rate hp h0]
  field_simp

/-- The hypotheses of `C162_where` are met in the last segment of the table of an Einstein–de Sitter universe. -/
example {p : Params} (hp : EdS p) (hg : p.gamma = none) : ∃ f, (growthTableODE p (-3) 128).f = some f ∧ f 126 = 1 ∧ f 127 = 1 := by
  have ht : growthTable p = growthTableODE p (-3) 128 := by simp [growthTable, hg]
  have hG : growthOf p = readGrowth (growthTableODE p (-3) 128) := by funext a; rw [growthOf, ht]
  have hgi : ∀ i, (growthTableODE p (-3) 128).g i = logspace (-3) 0 128 i := fun i => by
    change (odeint (growthDerivs p) (logspace (-3) 0 128 0, 1) (logspace (-3) 0 128) i).1 /
      (odeint (growthDerivs p) (logspace (-3) 0 128 0, 1) (logspace (-3) 0 128) (ix 128 (-1))).1 = _
    rw [eds_odeint hp (logspace_pos _ _ _), eds_odeint hp (logspace_pos _ _ _), ix_last]
    simp only
    rw [logspace_end (-3) (by norm_num), div_one]
  have hend : logspace (-3) 0 128 127 = 1 := logspace_end (-3) (n := 128) (by norm_num)
  obtain ⟨f, hf⟩ : ∃ f, (growthTableODE p (-3) 128).f = some f := ⟨_, rfl⟩
  refine ⟨f, hf, C162_where (p := p) (f := f) (lo := -3) (n := 128) (j := 126) (by norm_num) (by norm_num) (by norm_num)
    (by norm_num) (by rw [hgi]; exact logspace_pos _ _ _ _) (by
      rw [hgi, hgi]; exact logspace_strictMono (lo := -3) (n := 128) (by norm_num) (by norm_num) (by norm_num))
    (by rw [hgi, hend]) fun a ha d hd => ?_⟩
  rw [← hG] at hd ⊢
  have ha0 : 0 < a := (logspace_pos _ _ _ _).trans ha.1
  have ha1 : a < 1 := ha.2.trans_eq hend
  rw [C162_eds hp ha0 ha1 hd]
  simp only [growthRateOf, hg]
  cases Option.some.inj hf
  rfl

/-- The Planck universe with a growth index of one. -/
noncomputable def planckIndex : Params := { Planck15 with gamma := some 1 }

theorem planckIndex_physical : Physical planckIndex :=
  ⟨planck_physical.m_pos, planck_physical.k_nonneg, planck_physical.de_nonneg, planck_physical.w_range⟩

theorem planckIndex_rate {a : ℝ} (ha : 0 < a) :
    growthRateGamma planckIndex 1 a = 0.3075 / (0.3075 + 0.6925 * a ^ 3) := by
  have hE : Esqr planckIndex a = 0.3075 * (a ^ 3)⁻¹ + 0.6925 := by
    have := planck_Esqr (x := Real.log a)
    rw [Real.exp_log ha, Real.exp_neg, Real.exp_log ha, inv_pow] at this
    exact this
  have hO : planckIndex.Omega_m = 0.3075 := by norm_num [planckIndex, Planck15, Params.Omega_m]
  rw [growthRateGamma, Real.rpow_one, Omega_m_a, hE, hO, zpow_neg]
  norm_cast
  field_simp

/-- C162, refuted as stated: with a growth index, the growth rate returned is not the logarithmic slope of the growth
factor returned. -/
theorem C162_refuted : ¬ ∀ p, Physical p → ∀ a ∈ Ioo (1 / 900 : ℝ) 1, ∀ d, HasDerivAt (growthOf p) d a →
    a * d / growthOf p a = growthRateOf p a := by
  intro hall
  have h := hall planckIndex planckIndex_physical
  have ht : growthTable planckIndex = growthTableGamma planckIndex 1 (-3) 128 := rfl
  set c := growthTableGamma planckIndex 1 (-3) 128 with hc
  have hG : growthOf planckIndex = readGrowth c := by funext a; rw [growthOf, ht]
  have hx : Increasing c.n c.a := logspace_increasing (n := 128) (lo := -3) (by norm_num) (by norm_num)
  have hend : c.a 127 = 1 := logspace_end (-3) (n := 128) (by norm_num)
  have hlt : c.a 126 < c.a 127 := logspace_strictMono (lo := -3) (n := 128) (by norm_num) (by norm_num) (by norm_num)
  have hg127 : c.g 127 = 1 := growthTableGamma_last planckIndex 1 (-3) 128
  have hg126 : c.g 126 < 1 := by
    rw [growthTableGamma_g (n := 128) _ _ _ (by norm_num), Real.exp_lt_one_iff, neg_neg_iff_pos]
    rw [show (128 - 1 : ℕ) = 126 + 1 from rfl, Finset.sum_Ico_succ_top (by norm_num), Finset.Ico_self,
      Finset.sum_empty, zero_add, panel]
    have hr : ∀ x, 0 < growthRateGamma planckIndex 1 (Real.exp x) := fun x => by
      rw [planckIndex_rate (Real.exp_pos x)]
      have := Real.exp_pos x
      positivity
    have hlog : 0 < Real.log (logspace (-3) 0 128 (126 + 1)) - Real.log (logspace (-3) 0 128 126) :=
      sub_pos.2 (Real.log_lt_log (logspace_pos _ _ _ _) hlt)
    have := hr (Real.log (logspace (-3) 0 128 126))
    have := hr (Real.log (logspace (-3) 0 128 (126 + 1)))
    have := hr ((Real.log (logspace (-3) 0 128 126) + Real.log (logspace (-3) 0 128 (126 + 1))) / 2)
    positivity
  have hg0 : 0 < c.g 126 := by
    rw [growthTableGamma_g (n := 128) _ _ _ (by norm_num)]; exact Real.exp_pos _
  set m := growthSlope c 126 with hm
  have hd : 0 < c.a 127 - c.a 126 := by linarith
  have hm0 : 0 < m := div_pos (by rw [hg127]; linarith) hd
  have hg : c.g 126 = 1 - m * (1 - c.a 126) := by
    have h1 : 1 - c.a 126 ≠ 0 := by rw [← hend]; exact hd.ne'
    rw [hm, growthSlope, hg127, hend]; field_simp; ring
  have key : ∀ a, c.a 126 < a → 1 / 900 < a → a < 1 → m * 0.6925 * a ^ 4 = 0.3075 * (1 - m) := fun a a1 a2 a3 => by
    have ha0 : 0 < a := by linarith
    have k0 : 0 < 1 - m * (1 - a) := by nlinarith [mul_pos hm0 (sub_pos.2 a1)]
    have k1 : 1 - m * (1 - a) < 1 := by nlinarith [mul_pos hm0 (sub_pos.2 a3)]
    have hs : interp c.n c.a c.g a = chord c.a c.g 126 a :=
      interp_inc_seg (n := 128) (by norm_num) hx _ (by norm_num) (by norm_num) (Or.inr a1.le)
        (Or.inr (by rw [hend]; exact a3.le))
    have e1 : chord c.a c.g 126 a = 1 - m * (1 - a) := by
      have : chord c.a c.g 126 a = c.g 126 + m * (a - c.a 126) := by rw [chord, hm, growthSlope]; ring
      rw [this, hg]; ring
    have e : readGrowth c a = 1 - m * (1 - a) := by
      rw [readGrowth, hs, e1, clip, max_eq_left k0.le, min_eq_left k1.le]
    have hder := (readGrowth_deriv (c := c) (j := 126) (by change 3 ≤ 128; norm_num) hx (by norm_num)
      (by change 127 < 128; norm_num) a1 (by rw [hend]; exact a3) (by rw [e]; exact k0) (by rw [e]; exact k1)).1
    have := h a ⟨a2, a3⟩ m (by rw [hG]; exact hder)
    have hr : growthRateOf planckIndex a = growthRateGamma planckIndex 1 a := rfl
    rw [hr, planckIndex_rate ha0, hG, e, div_eq_div_iff k0.ne' (by positivity)] at this
    linear_combination this
  set w := max (c.a 126) (1 / 900) with hw
  have hw1 : w < 1 := max_lt (by rw [← hend]; exact hlt) (by norm_num)
  have hwa : c.a 126 ≤ w := le_max_left _ _
  have hwb : 1 / 900 ≤ w := le_max_right _ _
  have q1 := key ((w + 1) / 2) (by linarith) (by linarith) (by linarith)
  have q2 := key ((w + 3) / 4) (by linarith) (by linarith) (by linarith)
  have hpow : ((w + 1) / 2) ^ 4 < ((w + 3) / 4) ^ 4 := pow_lt_pow_left₀ (by linarith) (by linarith) (by norm_num)
  have : m * 0.6925 * ((w + 1) / 2) ^ 4 < m * 0.6925 * ((w + 3) / 4) ^ 4 := by gcongr
  linarith

end JaxCosmo
