import Verif.Props.NonlinearScale
import Verif.Props.Continuity

/-! # C81: the non-linear scale as a function of `sigma8` -/

namespace JaxCosmo
open Spec

theorem argminUpTo_smul {c : ℝ} (hc : 0 < c) (d : ℕ → ℝ) (m : ℕ) :
    argminUpTo (fun i => c * d i) m = argminUpTo d m := by
  induction m with
  | zero => rfl
  | succ m ih =>
    unfold argminUpTo
    rw [ih]
    simp only [mul_lt_mul_iff_right₀ hc]

theorem nearest_smul {c : ℝ} (hc : 0 < c) (n : ℕ) (xp : ℕ → ℝ) (x : ℝ) :
    nearest n (fun i => c * xp i) (c * x) = nearest n xp x := by
  unfold nearest argmin
  have : (fun i => (c * x - c * xp i) ^ 2) = fun i => c ^ 2 * (x - xp i) ^ 2 := by
    funext i; ring
  rw [this, argminUpTo_smul (by positivity)]

/-- Rescaling a decreasing table and the query. -/
theorem interp_dec_smul {c : ℝ} (hc : 0 < c) {n : ℕ} (hn : 3 ≤ n) {xp : ℕ → ℝ} (hx : Decreasing n xp)
    (fp : ℕ → ℝ) (x : ℝ) : interp n (fun i => c * xp i) fp (c * x) = interp n xp fp x := by
  have hx' : Decreasing n (fun i => c * xp i) := fun i j hij hj =>
    mul_lt_mul_of_pos_left (hx i j hij hj) hc
  have hch : ∀ j, chord (fun i => c * xp i) fp j (c * x) = chord xp fp j x := by
    intro j
    unfold chord
    rw [← mul_sub, ← mul_sub, mul_div_mul_left _ _ hc.ne']
  rw [interp_dec hn hx', interp_dec hn hx]
  unfold nearestIn
  rw [nearest_smul hc, hch, hch]

/-- Nodes of the search grid in `ln R`. -/
noncomputable def scaleNode (j : ℕ) : ℝ := Real.log 1e-4 + j * (Real.log 10 / 51)

theorem scaleNode_eq (j : ℕ) : scaleNode j = Halofit.logr j := by
  rw [scaleNode, logr_eq, logrStep_eq]

section
variable {p : Params} {T : ℝ → ℝ} {a : ℝ} {S : ℝ → ℝ}

theorem sigma_table (hg : growthOf p 1 = 1)
    (hS : ∀ x, simps (gaussIntegrand (dimensionless fun k => linearMatterPower p T k a)
      (Real.exp x)) (Real.log 1e-4) (Real.log 1e4) 256 = .ok (S x)) (i : ℕ) :
    Halofit.sigma p T a i = S (scaleNode i) := by
  have := sigma_eq p T a hg i
  rw [← scaleNode_eq, hS] at this
  exact (Except.ok.inj this).symm

theorem table_decreasing (hanti : StrictAnti S) :
    Decreasing 256 fun i => S (scaleNode i) := fun i j hij _ => by
  refine hanti ?_
  rw [scaleNode_eq, scaleNode_eq, logr_eq, logr_eq]
  have : (i : ℝ) < j := by exact_mod_cast hij
  have := mul_lt_mul_of_pos_right this logrStep_pos
  linarith

/-- The root found with rescaled `sigma8`. -/
theorem root_sigma8 (hg : growthOf p 1 = 1)
    (hS : ∀ x, simps (gaussIntegrand (dimensionless fun k => linearMatterPower p T k a)
      (Real.exp x)) (Real.log 1e-4) (Real.log 1e4) 256 = .ok (S x)) (hanti : StrictAnti S)
    {s : ℝ} (hs : 0 < s) :
    interp 256 (Halofit.sigma { p with sigma8 := s * p.sigma8 } T a) Halofit.logr 1
      = interp 256 (fun i => S (scaleNode i)) Halofit.logr (1 / s ^ 2) := by
  rw [← interp_dec_smul (c := s ^ 2) (by positivity) (by norm_num) (table_decreasing hanti)]
  congr 1
  · funext i
    rw [sigma_sigma8, sigma_table hg hS]
  · field_simp

/-- C81 where it holds: the non-linear scale depends continuously on `sigma8` except where the
variance at the midpoint of two grid values is one. -/
theorem C81_partial (hg : growthOf p 1 = 1)
    (hS : ∀ x, simps (gaussIntegrand (dimensionless fun k => linearMatterPower p T k a)
      (Real.exp x)) (Real.log 1e-4) (Real.log 1e4) 256 = .ok (S x)) (hanti : StrictAnti S)
    {s : ℝ} (hs : 0 < s)
    (hm : ∀ j, j + 1 < 256 → s ^ 2 * ((S (scaleNode j) + S (scaleNode (j + 1))) / 2) ≠ 1) :
    ContinuousAt (fun s => Halofit.R_nl { p with sigma8 := s * p.sigma8 } T a) s := by
  have hc := C80_decreasing_partial (by norm_num) (table_decreasing hanti) Halofit.logr
    (x := 1 / s ^ 2) (fun j hj h => hm j hj (by rw [← h]; field_simp))
  have hc' : ContinuousAt (fun s => interp 256 (fun i => S (scaleNode i)) Halofit.logr (1 / s ^ 2)) s :=
    ContinuousAt.comp (f := fun s : ℝ => 1 / s ^ 2) (x := s) hc
      (continuousAt_const.div (continuousAt_id.pow 2) (by positivity))
  have : ContinuousAt (fun s => max (Real.exp
      (interp 256 (fun i => S (scaleNode i)) Halofit.logr (1 / s ^ 2))) 1e-6) s :=
    (Real.continuous_exp.continuousAt.comp hc').max continuousAt_const
  refine this.congr ?_
  filter_upwards [lt_mem_nhds hs] with t ht
  simp only [Halofit.R_nl, clipLo]
  rw [root_sigma8 hg hS hanti ht]

/-- C81: where the variance is one at the midpoint of two inner grid values, the non-linear scale
jumps, unless three successive variances are equally spaced. -/
theorem C81_jump (hg : growthOf p 1 = 1)
    (hS : ∀ x, simps (gaussIntegrand (dimensionless fun k => linearMatterPower p T k a)
      (Real.exp x)) (Real.log 1e-4) (Real.log 1e4) 256 = .ok (S x)) (hanti : StrictAnti S)
    {j : ℕ} (h1 : 1 ≤ j) (hj : j + 3 < 256) {s : ℝ} (hs : 0 < s)
    (hm : s ^ 2 * ((S (scaleNode j) + S (scaleNode (j + 1))) / 2) = 1) :
    ContinuousAt (fun s => Halofit.R_nl { p with sigma8 := s * p.sigma8 } T a) s ↔
      S (scaleNode (j - 1)) - S (scaleNode j) = S (scaleNode j) - S (scaleNode (j + 1)) := by
  have hd := table_decreasing hanti
  set m := (S (scaleNode j) + S (scaleNode (j + 1))) / 2 with hmd
  have hm0 : 0 < m := by
    by_contra h
    have := mul_nonpos_of_nonneg_of_nonpos (sq_nonneg s) (not_lt.1 h)
    linarith
  have hms : 1 / s ^ 2 = m := by field_simp; linarith
  have d1 := hd j (j + 1) (by omega) (by omega)
  have d0 := hd (j - 1) j (by omega) (by omega)
  simp only at d0 d1
  have hstep : ∀ i : ℕ, Halofit.logr (i + 1) - Halofit.logr i = logrStep := by
    intro i; rw [logr_eq, logr_eq]; push_cast; ring
  have hslope : (Halofit.logr j - Halofit.logr (j - 1)) / (S (scaleNode j) - S (scaleNode (j - 1)))
      = (Halofit.logr (j + 1) - Halofit.logr j) / (S (scaleNode (j + 1)) - S (scaleNode j)) ↔
      S (scaleNode (j - 1)) - S (scaleNode j) = S (scaleNode j) - S (scaleNode (j + 1)) := by
    obtain ⟨i, rfl⟩ : ∃ i, j = i + 1 := ⟨j - 1, by omega⟩
    simp only [Nat.add_sub_cancel] at d0 d1 ⊢
    rw [hstep, hstep, div_eq_div_iff (by linarith) (by linarith)]
    constructor
    · intro h
      have := mul_left_cancel₀ logrStep_pos.ne' h
      linarith
    · intro h; congr 1; linarith
  rw [← hslope, ← C80_jump hd Halofit.logr h1 hj]
  change _ ↔ ContinuousAt _ m
  have hcomp : ∀ᶠ t in nhds s, Halofit.R_nl { p with sigma8 := t * p.sigma8 } T a
      = Real.exp (interp 256 (fun i => S (scaleNode i)) Halofit.logr (1 / t ^ 2)) := by
    have hcont : ContinuousAt (fun t : ℝ => 1 / t ^ 2) s :=
      continuousAt_const.div (continuousAt_id.pow 2) (by positivity)
    have hmem : (1 / s ^ 2 : ℝ) ∈ Set.Ioo (S (scaleNode (j + 1))) (S (scaleNode j)) := by
      rw [hms]; constructor <;> linarith
    filter_upwards [hcont (Ioo_mem_nhds hmem.1 hmem.2), lt_mem_nhds hs] with t ht ht0
    have hsig : ∀ i, Halofit.sigma { p with sigma8 := t * p.sigma8 } T a i = t ^ 2 * S (scaleNode i) :=
      fun i => by rw [sigma_sigma8, sigma_table hg hS]
    have hdec : Decreasing 256 (Halofit.sigma { p with sigma8 := t * p.sigma8 } T a) :=
      fun i k hik hk => by
        rw [hsig, hsig]; exact mul_lt_mul_of_pos_left (hd i k hik hk) (by positivity)
    obtain ⟨t1, t2⟩ := ht
    simp only at t1 t2
    have ht2 : 0 < t ^ 2 := by positivity
    have hcell := root_in_cell hdec (sigma_gap _ T a) (j := j) (by omega) (by omega)
      (by rw [hsig]; rw [lt_div_iff₀ ht2] at t1; linarith)
      (by rw [hsig]; rw [div_lt_iff₀ ht2] at t2; linarith)
    have := log_R_nl hcell.1
    rw [root_sigma8 hg hS hanti ht0] at this
    rw [← this, Real.exp_log]
    unfold Halofit.R_nl clipLo
    exact lt_max_of_lt_right (by norm_num)
  constructor
  · intro hc
    have h1 : ContinuousAt (fun t : ℝ => interp 256 (fun i => S (scaleNode i)) Halofit.logr (1 / t ^ 2)) s := by
      have := (hc.congr hcomp).log (Real.exp_ne_zero _)
      simpa using this
    have h2 : ContinuousAt (fun x : ℝ => 1 / Real.sqrt x) m :=
      continuousAt_const.div Real.continuous_sqrt.continuousAt (Real.sqrt_pos.2 hm0).ne'
    have hsm : 1 / Real.sqrt m = s := by
      rw [← hms, Real.sqrt_div zero_le_one, Real.sqrt_one, Real.sqrt_sq hs.le]
      simp
    rw [← hsm] at h1
    have h3 := ContinuousAt.comp (f := fun x : ℝ => 1 / Real.sqrt x) (x := m) h1 h2
    refine h3.congr ?_
    filter_upwards [lt_mem_nhds hm0] with x hx
    simp only [Function.comp_apply]
    rw [div_pow, Real.sq_sqrt hx.le]
    simp
  · intro hc
    rw [← hms] at hc
    have : ContinuousAt (fun t : ℝ => interp 256 (fun i => S (scaleNode i)) Halofit.logr (1 / t ^ 2)) s :=
      ContinuousAt.comp (f := fun t : ℝ => 1 / t ^ 2) (x := s) hc
        (continuousAt_const.div (continuousAt_id.pow 2) (by positivity))
    exact (Real.continuous_exp.continuousAt.comp this).congr (hcomp.mono fun t h => h.symm)

end

/-! ## Spectra with a small-scale cut-off -/

theorem simpsBody_lt_node {f g : ℝ → ℝ} (h : ∀ t, f t ≤ g t) (h0 : f 0 < g 0) :
    simpsBody f (Real.log 1e-4) (Real.log 1e4) 256 < simpsBody g (Real.log 1e-4) (Real.log 1e4) 256 := by
  have key : ∀ t, f t + (g 0 - f 0) * (if t = 0 then (1 : ℝ) else 0) ≤ g t := by
    intro t
    split_ifs with ht
    · rw [ht]; linarith
    · have := h t; linarith
  have := simpsBody_le (N := 256) log_range.le key
  rw [simpsBody_add, simpsBody_smul] at this
  have := mul_pos (sub_pos.2 h0) spike_weight
  linarith

/-- Three Gaussians at widths in geometric progression, all wide. -/
theorem gauss_concave {u q : ℝ} (hq : 1 < q) (hu : 0 < u) (h : q * u < 1 / 2) :
    Real.exp (-u) + Real.exp (-(q * (q * u))) < 2 * Real.exp (-(q * u)) := by
  set α := (q - 1) * u with hα
  have hα0 : 0 < α := mul_pos (by linarith) hu
  have hqα : q * α = (q - 1) * (q * u) := by rw [hα]; ring
  have hlt : 2 * (q * α) < q - 1 := by
    rw [hqα]
    have := mul_lt_mul_of_pos_left h (by linarith : (0 : ℝ) < q - 1)
    linarith
  have hα1 : α < 1 := by
    have : q * α < q * 1 := by linarith
    exact lt_of_mul_lt_mul_left this (by linarith)
  have e1 : Real.exp (-u) = Real.exp (-(q * u)) * Real.exp α := by
    rw [← Real.exp_add, hα]; ring_nf
  have e2 : Real.exp (-(q * (q * u))) = Real.exp (-(q * u)) * Real.exp (-(q * α)) := by
    rw [← Real.exp_add, hα]; ring_nf
  have b1 : Real.exp α ≤ 1 / (1 - α) := by
    rw [le_div_iff₀ (by linarith)]
    have := Real.add_one_le_exp (-α)
    calc Real.exp α * (1 - α) ≤ Real.exp α * Real.exp (-α) :=
          mul_le_mul_of_nonneg_left (by linarith) (Real.exp_pos _).le
      _ = 1 := by rw [← Real.exp_add]; simp
  have hqα0 : 0 < q * α := mul_pos (by linarith) hα0
  have b2 : Real.exp (-(q * α)) ≤ 1 / (1 + q * α) := by
    rw [le_div_iff₀ (by linarith)]
    have := Real.add_one_le_exp (q * α)
    calc Real.exp (-(q * α)) * (1 + q * α) ≤ Real.exp (-(q * α)) * Real.exp (q * α) :=
          mul_le_mul_of_nonneg_left (by linarith) (Real.exp_pos _).le
      _ = 1 := by rw [← Real.exp_add]; simp
  have b3 : 1 / (1 - α) + 1 / (1 + q * α) < 2 := by
    rw [div_add_div _ _ (by linarith) (by linarith), div_lt_iff₀ (mul_pos (by linarith) (by linarith))]
    have := mul_lt_mul_of_pos_right hlt hα0
    linarith
  rw [e1, e2, ← mul_add, mul_comm (2 : ℝ)]
  exact mul_lt_mul_of_pos_left (by linarith) (Real.exp_pos _)

/-- The filtered variance decreases strictly with the radius. -/
theorem variance_anti (p : Params) (T : ℝ → ℝ) (a : ℝ) (hP : 0 < linearMatterPower p T 1 a) :
    StrictAnti (fun x => simpsBody (gaussIntegrand (dimensionless fun k =>
      linearMatterPower p T k a) (Real.exp x)) (Real.log 1e-4) (Real.log 1e4) 256) ∧
    ∀ x, 0 < (fun x => simpsBody (gaussIntegrand (dimensionless fun k =>
      linearMatterPower p T k a) (Real.exp x)) (Real.log 1e-4) (Real.log 1e4) 256) x := by
  set S : ℝ → ℝ := fun x => simpsBody (gaussIntegrand (dimensionless fun k =>
    linearMatterPower p T k a) (Real.exp x)) (Real.log 1e-4) (Real.log 1e4) 256 with hS
  have hΔ : ∀ t, 0 ≤ dimensionless (fun k => linearMatterPower p T k a) (Real.exp t) := by
    intro t
    have := C40_nonneg p T (Real.exp t) a (Real.exp_pos t)
    unfold dimensionless
    positivity
  have hΔ0 : 0 < dimensionless (fun k => linearMatterPower p T k a) (Real.exp 0) := by
    unfold dimensionless
    rw [Real.exp_zero]
    have := Real.pi_pos
    positivity
  have hanti : StrictAnti S := by
    intro y z hyz
    have hlt : ∀ t, Real.exp (-(Real.exp t * Real.exp z) ^ 2) < Real.exp (-(Real.exp t * Real.exp y) ^ 2) :=
      fun t => Real.exp_lt_exp.2 (neg_lt_neg (pow_lt_pow_left₀
        (mul_lt_mul_of_pos_left (Real.exp_lt_exp.2 hyz) (Real.exp_pos t)) (by positivity) (by norm_num)))
    exact simpsBody_lt_node (fun t => mul_le_mul_of_nonneg_left (hlt t).le (hΔ t))
      (mul_lt_mul_of_pos_left (hlt 0) hΔ0)
  have hpos : ∀ x, 0 < S x := by
    intro x
    have := simpsBody_lt_node (f := fun _ => 0) (g := gaussIntegrand (dimensionless fun k =>
      linearMatterPower p T k a) (Real.exp x)) (fun t => mul_nonneg (hΔ t) (Real.exp_pos _).le)
      (mul_pos hΔ0 (Real.exp_pos _))
    rwa [simpsBody_zero] at this
  exact ⟨hanti, hpos⟩

/-- C81 fails for every transfer function cut off below `k = 5000 h/Mpc` (warm dark matter, a
simulation box, …): at some `sigma8` the non-linear scale jumps. -/
theorem C81_cutoff (p : Params) (T : ℝ → ℝ) (a : ℝ) (hg : growthOf p 1 = 1)
    (hT : ∀ k, 5000 < k → T k = 0) (hP : 0 < linearMatterPower p T 1 a) :
    ∃ s, 0 < s ∧ ¬ ContinuousAt (fun s => Halofit.R_nl { p with sigma8 := s * p.sigma8 } T a) s := by
  set S : ℝ → ℝ := fun x => simpsBody (gaussIntegrand (dimensionless fun k =>
    linearMatterPower p T k a) (Real.exp x)) (Real.log 1e-4) (Real.log 1e4) 256 with hS
  have hΔ : ∀ t, 0 ≤ dimensionless (fun k => linearMatterPower p T k a) (Real.exp t) := by
    intro t
    have := C40_nonneg p T (Real.exp t) a (Real.exp_pos t)
    unfold dimensionless
    positivity
  have hΔ0 : 0 < dimensionless (fun k => linearMatterPower p T k a) (Real.exp 0) := by
    unfold dimensionless
    rw [Real.exp_zero]
    have := Real.pi_pos
    positivity
  obtain ⟨hanti, hpos⟩ : StrictAnti S ∧ ∀ x, 0 < S x := variance_anti p T a hP
  set q := Real.exp (2 * logrStep) with hq
  have hq1 : 1 < q := Real.one_lt_exp_iff.2 (by have := logrStep_pos; linarith)
  have hw : ∀ (j : ℕ) (t : ℝ), (Real.exp t * Real.exp (scaleNode (j + 1))) ^ 2
      = q * (Real.exp t * Real.exp (scaleNode j)) ^ 2 := by
    intro j t
    rw [hq, scaleNode_eq, scaleNode_eq, logr_eq, logr_eq, mul_pow, mul_pow, ← Real.exp_nat_mul (_ + _),
      ← Real.exp_nat_mul (_ + _), mul_left_comm, ← Real.exp_add]
    congr 2
    push_cast; ring
  have hwide : ∀ t, Real.exp t ≤ 5000 → q * (Real.exp t * Real.exp (scaleNode 0)) ^ 2 < 1 / 2 := by
    intro t ht
    have e0 : Real.exp (scaleNode 0) = 1e-4 := by
      rw [scaleNode, Nat.cast_zero, zero_mul, add_zero, Real.exp_log (by norm_num)]
    have hq2 : q < 2 := by
      rw [hq, logrStep_eq, ← Real.lt_log_iff_exp_lt (by norm_num)]
      have : Real.log (10 ^ 2) < Real.log (2 ^ 51) := Real.log_lt_log (by norm_num) (by norm_num)
      rw [Real.log_pow, Real.log_pow] at this
      push_cast at this
      linarith
    rw [e0]
    have h1 : Real.exp t * 1e-4 ≤ 1 / 2 := by
      have := mul_le_mul_of_nonneg_right ht (by norm_num : (0 : ℝ) ≤ 1e-4)
      norm_num at this ⊢
      linarith
    have h2 : (Real.exp t * 1e-4) ^ 2 ≤ (1 / 2) ^ 2 :=
      pow_le_pow_left₀ (mul_nonneg (Real.exp_pos t).le (by norm_num)) h1 2
    have h3 : 0 < (Real.exp t * 1e-4) ^ 2 := pow_pos (mul_pos (Real.exp_pos t) (by norm_num)) 2
    have := mul_lt_mul_of_pos_right hq2 h3
    linarith
  have hgap : ∀ t, Real.exp t ≤ 5000 →
      Real.exp (-(Real.exp t * Real.exp (scaleNode 0)) ^ 2)
        + Real.exp (-(Real.exp t * Real.exp (scaleNode 2)) ^ 2)
        < 2 * Real.exp (-(Real.exp t * Real.exp (scaleNode 1)) ^ 2) := by
    intro t ht
    rw [hw 1 t, hw 0 t]
    exact gauss_concave hq1 (by positivity) (hwide t ht)
  have hne : S (scaleNode 0) + S (scaleNode 2) < 2 * S (scaleNode 1) := by
    simp only [hS]
    rw [← simpsBody_add, ← simpsBody_smul]
    refine simpsBody_lt_node (fun t => ?_) ?_
    · unfold gaussIntegrand
      rw [← mul_add, mul_left_comm]
      rcases le_or_gt (Real.exp t) 5000 with h | h
      · exact mul_le_mul_of_nonneg_left (hgap t h).le (hΔ t)
      · have : dimensionless (fun k => linearMatterPower p T k a) (Real.exp t) = 0 := by
          simp only [dimensionless, linearMatterPower, hT _ h]
          ring
        rw [this, zero_mul, zero_mul]
    · unfold gaussIntegrand
      rw [← mul_add, mul_left_comm]
      exact mul_lt_mul_of_pos_left (hgap 0 (by rw [Real.exp_zero]; norm_num)) hΔ0
  have hm : 0 < (S (scaleNode 1) + S (scaleNode (1 + 1))) / 2 := by
    have := hpos (scaleNode 1)
    have := hpos (scaleNode (1 + 1))
    linarith
  refine ⟨1 / Real.sqrt ((S (scaleNode 1) + S (scaleNode (1 + 1))) / 2), by positivity, fun hc => ?_⟩
  have := (C81_jump (S := S) hg (fun x => simps_256 _ _ _) hanti (j := 1) le_rfl (by norm_num)
    (by positivity) (by rw [div_pow, Real.sq_sqrt hm.le, one_pow]; exact one_div_mul_cancel hm.ne')).1 hc
  norm_num at this
  linarith

/-- A transfer function with a cut-off: the smooth Planck one below `k = 1000 h/Mpc`. -/
noncomputable def cutoffT (k : ℝ) : ℝ := if k ≤ 1000 then EH.nowiggle Planck15 k else 0

theorem cutoff_power : 0 < linearMatterPower Planck15 cutoffT 1 1 := by
  have hg1 : growthOf Planck15 1 = 1 := C10_one _ planck_physical
  refine C40_pos _ _ _ _ one_pos ?_ (by rw [hg1]; norm_num) (by norm_num [Planck15]) ?_
  · rw [cutoffT, if_pos (by norm_num)]; exact planck_nowiggle_pos one_pos
  · rw [cutoffT, if_pos ((Real.exp_le_one_iff.2 (by norm_num)).trans (by norm_num))]
    exact planck_nowiggle_pos (Real.exp_pos _)

/-- C81 as stated is false. -/
theorem C81_refuted : ¬ ∀ (p : Params) (T : ℝ → ℝ) (a : ℝ), Physical p →
    (∀ k, 0 < k → k ≤ 1000 → 0 < linearMatterPower p T k a) →
    ∀ s, 0 < s → ContinuousAt (fun s => Halofit.R_nl { p with sigma8 := s * p.sigma8 } T a) s := by
  intro h
  have hg1 : growthOf Planck15 1 = 1 := C10_one _ planck_physical
  obtain ⟨s, hs, hn⟩ := C81_cutoff Planck15 cutoffT 1 hg1 (fun k hk => by
    rw [cutoffT, if_neg (by linarith)]) cutoff_power
  refine hn (h Planck15 cutoffT 1 planck_physical (fun k hk hk' => ?_) s hs)
  refine C40_pos _ _ _ _ hk ?_ (by rw [hg1]; norm_num) (by norm_num [Planck15]) ?_
  · rw [cutoffT, if_pos hk']; exact planck_nowiggle_pos hk
  · rw [cutoffT, if_pos ((Real.exp_le_one_iff.2 (by norm_num)).trans (by norm_num))]
    exact planck_nowiggle_pos (Real.exp_pos _)

/-- Witness for `C81_partial`: continuous at a small enough amplitude, with the same spectrum. -/
example : ∃ s, 0 < s ∧
    ContinuousAt (fun s => Halofit.R_nl { Planck15 with sigma8 := s * Planck15.sigma8 } cutoffT 1) s := by
  obtain ⟨hanti, hpos⟩ := variance_anti Planck15 cutoffT 1 cutoff_power
  generalize hS : (fun x => simpsBody (gaussIntegrand (dimensionless fun k =>
    linearMatterPower Planck15 cutoffT k 1) (Real.exp x)) (Real.log 1e-4) (Real.log 1e4) 256) = S
    at hanti hpos
  have h0 := hpos (scaleNode 0)
  refine ⟨1 / (1 + S (scaleNode 0)), by positivity, C81_partial (S := S) (C10_one _ planck_physical)
    (fun x => by rw [← hS]; exact simps_256 _ _ _) hanti (by positivity) fun j hj h => ?_⟩
  have hle : ∀ i, S (scaleNode i) ≤ S (scaleNode 0) := fun i => hanti.antitone (by
    rw [scaleNode, scaleNode, Nat.cast_zero, zero_mul, add_zero]
    have : 0 < Real.log 10 := Real.log_pos (by norm_num)
    have : 0 ≤ (i : ℝ) * (Real.log 10 / 51) := by positivity
    linarith)
  rw [div_pow, one_pow, one_div_mul_eq_div, div_eq_one_iff_eq (by positivity)] at h
  have := hle j
  have := hle (j + 1)
  have := sq_nonneg (S (scaleNode 0))
  linarith [add_sq 1 (S (scaleNode 0))]

end JaxCosmo
