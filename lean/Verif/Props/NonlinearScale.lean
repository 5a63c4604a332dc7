import Verif.Props.Halofit

/-! # C78: the non-linear scale brackets the crossing `σ²(R) = 1` -/

namespace JaxCosmo
open Spec

/-! ## Order of Simpson's rule -/

theorem simpsBody_lt {f g : ℝ → ℝ} {a b : ℝ} (hab : a < b) {N : ℕ} (hN : 0 < N) (hev : N % 2 = 0)
    (h : ∀ x, f x < g x) : simpsBody f a b N < simpsBody g a b N := by
  simp only [simpsBody]
  have hN' : (0 : ℝ) < N := by exact_mod_cast hN
  have hba : 0 < b - a := by linarith
  refine mul_lt_mul_of_pos_left ?_ (by positivity)
  refine Finset.sum_lt_sum_of_nonempty ⟨0, Finset.mem_range.2 (by omega)⟩ fun i _ => ?_
  have h1 := h (linspace a b (N + 1) (2 * i))
  have h2 := h (linspace a b (N + 1) (2 * i + 1))
  have h3 := h (linspace a b (N + 1) (2 * i + 2))
  linarith

theorem simpsBody_le {f g : ℝ → ℝ} {a b : ℝ} (hab : a ≤ b) {N : ℕ}
    (h : ∀ x, f x ≤ g x) : simpsBody f a b N ≤ simpsBody g a b N := by
  simp only [simpsBody]
  have hba : 0 ≤ b - a := by linarith
  refine mul_le_mul_of_nonneg_left ?_ (by positivity)
  refine Finset.sum_le_sum fun i _ => ?_
  have h1 := h (linspace a b (N + 1) (2 * i))
  have h2 := h (linspace a b (N + 1) (2 * i + 1))
  have h3 := h (linspace a b (N + 1) (2 * i + 2))
  linarith

theorem simps_256 (f : ℝ → ℝ) (a b : ℝ) : simps f a b 256 = .ok (simpsBody f a b 256) := rfl

theorem log_range : Real.log 1e-4 < Real.log 1e4 := Real.log_lt_log (by norm_num) (by norm_num)

/-! ## The table of variances -/

/-- Step of the table of radii. -/
noncomputable def logrStep : ℝ := (Real.log 1e1 - Real.log 1e-4) / 255

theorem logr_eq (i : ℕ) : Halofit.logr i = Real.log 1e-4 + i * logrStep := by
  unfold Halofit.logr logrStep
  rw [linspace_succ _ _ 255 i]
  norm_num

theorem logrStep_eq : logrStep = Real.log 10 / 51 := by
  unfold logrStep
  rw [show (1e-4 : ℝ) = 10⁻¹ ^ 4 by norm_num, show (1e1 : ℝ) = 10 by norm_num, Real.log_pow,
    Real.log_inv]
  push_cast; ring

theorem logrStep_pos : 0 < logrStep := by
  rw [logrStep_eq]
  have := Real.log_pos (show (1 : ℝ) < 10 by norm_num)
  positivity

/-- One step of the table multiplies the squared radius by less than two. -/
theorem logrStep_le : Real.exp (2 * logrStep) ≤ 2 := by
  refine (Real.le_log_iff_exp_le (by norm_num)).1 ?_
  rw [logrStep_eq]
  have : Real.log (10 ^ 2) ≤ Real.log (2 ^ 51) := Real.log_le_log (by norm_num) (by norm_num)
  rw [Real.log_pow, Real.log_pow] at this
  push_cast at this
  linarith

/-- The table of variances is the specified quadrature of the specified integrand. -/
theorem sigma_eq (p : Params) (T : ℝ → ℝ) (a : ℝ) (hg : growthOf p 1 = 1) (i : ℕ) :
    simps (gaussIntegrand (dimensionless fun k => linearMatterPower p T k a)
      (Real.exp (Halofit.logr i))) (Real.log 1e-4) (Real.log 1e4) 256
      = .ok (Halofit.sigma p T a i) := by
  have e : gaussIntegrand (dimensionless fun k => linearMatterPower p T k a)
      (Real.exp (Halofit.logr i)) = Halofit.intSigma p T a (Real.exp (Halofit.logr i)) := by
    funext t
    unfold gaussIntegrand dimensionless Halofit.intSigma
    simp only
    rw [C40_growth p T _ a hg]
    ring
  rw [e]
  rfl

/-- The integrand of the table of variances. -/
theorem intSigma_eq (p : Params) (T : ℝ → ℝ) (a r t : ℝ) :
    Halofit.intSigma p T a r t = Real.exp (-((Real.exp t * r) ^ 2)) *
      (linearMatterPower p T (Real.exp t) * Real.exp t ^ 3 / (2 * Real.pi ^ 2)
        * growthOf p a ^ 2) := by
  unfold Halofit.intSigma
  simp only
  ring

/-- The variance decreases strictly with the radius. -/
theorem sigma_decreasing (p : Params) (T : ℝ → ℝ) (a : ℝ)
    (hP : ∀ k, 0 < k → 0 < linearMatterPower p T k) (hg : growthOf p a ≠ 0) :
    ∀ i j, i < j → Halofit.sigma p T a j < Halofit.sigma p T a i := by
  intro i j hij
  refine simpsBody_lt log_range (by norm_num) (by norm_num) fun t => ?_
  rw [intSigma_eq, intSigma_eq]
  have hpi := Real.pi_pos
  have := hP _ (Real.exp_pos t)
  refine mul_lt_mul_of_pos_right ?_ (by positivity)
  refine Real.exp_lt_exp.2 (neg_lt_neg ?_)
  have hl : Halofit.logr i < Halofit.logr j := by
    rw [logr_eq, logr_eq]
    have : (i : ℝ) < j := by exact_mod_cast hij
    have := mul_lt_mul_of_pos_right this logrStep_pos
    linarith
  have := Real.exp_lt_exp.2 hl
  have h1 := Real.exp_pos t
  have h2 := Real.exp_pos (Halofit.logr i)
  exact pow_lt_pow_left₀ (mul_lt_mul_of_pos_left this h1) (by positivity) (by norm_num)

theorem gauss_gap {u q : ℝ} (hq : 1 ≤ q) :
    Real.exp (-(q * u)) - Real.exp (-(q * (q * u)))
      ≤ q * (Real.exp (-u) - Real.exp (-(q * u))) := by
  have h0 := Real.exp_pos (-(q * u))
  have e1 : Real.exp (-u) = Real.exp (-(q * u)) * Real.exp ((q - 1) * u) := by
    rw [← Real.exp_add]; ring_nf
  have e2 : Real.exp (-(q * (q * u))) = Real.exp (-(q * u)) * Real.exp (-(q * ((q - 1) * u))) := by
    rw [← Real.exp_add]; ring_nf
  have h1 := Real.add_one_le_exp ((q - 1) * u)
  have h2 := Real.add_one_le_exp (-(q * ((q - 1) * u)))
  have h3 : q * (1 + (q - 1) * u - 1) ≤ q * (Real.exp ((q - 1) * u) - 1) :=
    mul_le_mul_of_nonneg_left (by linarith) (by linarith)
  rw [e1, e2]
  have : Real.exp (-(q * u)) * (1 - Real.exp (-(q * ((q - 1) * u))))
      ≤ Real.exp (-(q * u)) * (q * (Real.exp ((q - 1) * u) - 1)) :=
    mul_le_mul_of_nonneg_left (by linarith) h0.le
  linarith

/-- Consecutive differences of the table grow by less than a factor two. -/
theorem sigma_gap (p : Params) (T : ℝ → ℝ) (a : ℝ) (i : ℕ) :
    Halofit.sigma p T a (i + 1) - Halofit.sigma p T a (i + 2)
      ≤ 2 * (Halofit.sigma p T a i - Halofit.sigma p T a (i + 1)) := by
  have key : ∀ t, 3 * Halofit.intSigma p T a (Real.exp (Halofit.logr (i + 1))) t
      ≤ 2 * Halofit.intSigma p T a (Real.exp (Halofit.logr i)) t
        + Halofit.intSigma p T a (Real.exp (Halofit.logr (i + 2))) t := by
    intro t
    rw [intSigma_eq, intSigma_eq, intSigma_eq]
    have hW : 0 ≤ linearMatterPower p T (Real.exp t) * Real.exp t ^ 3 / (2 * Real.pi ^ 2)
        * growthOf p a ^ 2 := by
      have := C40_nonneg p T (Real.exp t) 1 (Real.exp_pos t)
      positivity
    generalize linearMatterPower p T (Real.exp t) * Real.exp t ^ 3 / (2 * Real.pi ^ 2)
        * growthOf p a ^ 2 = W at hW
    set u := (Real.exp t * Real.exp (Halofit.logr i)) ^ 2 with hu
    set q := Real.exp (2 * logrStep) with hq
    have s : ∀ j, (Real.exp t * Real.exp (Halofit.logr (j + 1))) ^ 2
        = q * (Real.exp t * Real.exp (Halofit.logr j)) ^ 2 := by
      intro j
      rw [hq, logr_eq, logr_eq, mul_pow, mul_pow, ← Real.exp_nat_mul (_ + _), ← Real.exp_nat_mul (_ + _),
        mul_left_comm, ← Real.exp_add]
      congr 2
      push_cast; ring
    rw [s (i + 1), s i, ← hu]
    have hq1 : 1 ≤ q := Real.one_le_exp (by have := logrStep_pos; linarith)
    have hu0 : 0 ≤ u := by positivity
    have h1 := gauss_gap (u := u) hq1
    have h2 : q * (Real.exp (-u) - Real.exp (-(q * u))) ≤ 2 * (Real.exp (-u) - Real.exp (-(q * u))) := by
      refine mul_le_mul_of_nonneg_right logrStep_le (sub_nonneg.2 (Real.exp_le_exp.2 ?_))
      have := mul_le_mul_of_nonneg_right hq1 hu0
      linarith
    have h3 := mul_le_mul_of_nonneg_right (h1.trans h2) hW
    linarith
  have hb := simpsBody_le (N := 256) log_range.le key
  rw [simpsBody_smul] at hb
  have hadd : ∀ f g : ℝ → ℝ, simpsBody (fun t => 2 * f t + g t) (Real.log 1e-4) (Real.log 1e4) 256
      = 2 * simpsBody f (Real.log 1e-4) (Real.log 1e4) 256
        + simpsBody g (Real.log 1e-4) (Real.log 1e4) 256 := by
    intro f g
    rw [← simpsBody_smul, ← simpsBody_add]
  rw [hadd] at hb
  unfold Halofit.sigma
  linarith

/-- Interpolated root: within the bracketing cell. -/
theorem root_in_cell {s : ℕ → ℝ} (hs : Decreasing 256 s)
    (hgap : ∀ i, s (i + 1) - s (i + 2) ≤ 2 * (s i - s (i + 1))) {j : ℕ} (hj : j < 255)
    (hj' : j ≠ 253) (h1 : s (j + 1) ≤ 1) (h2 : 1 ≤ s j) :
    Halofit.logr j ≤ interp 256 s Halofit.logr 1 ∧
      interp 256 s Halofit.logr 1 ≤ Halofit.logr (j + 1) := by
  have hd := logrStep_pos
  have hstep : ∀ i : ℕ, Halofit.logr (i + 1) - Halofit.logr i = logrStep := by
    intro i; rw [logr_eq, logr_eq]; push_cast; ring
  have hcell : ∀ i, i + 1 < 256 → 0 < s i - s (i + 1) := fun i hi =>
    sub_pos.2 (hs i (i + 1) (by omega) hi)
  have hch : ∀ i, i + 1 < 256 → chord s Halofit.logr i 1
      = Halofit.logr i + logrStep * ((s i - 1) / (s i - s (i + 1))) := by
    intro i hi
    have := hcell i hi
    unfold chord
    rw [hstep, ← neg_div_neg_eq, neg_sub, neg_sub]
  -- the chord of the cell itself
  have hself : Halofit.logr j ≤ chord s Halofit.logr j 1 ∧
      chord s Halofit.logr j 1 ≤ Halofit.logr (j + 1) := by
    rw [hch j (by omega)]
    have hc := hcell j (by omega)
    have t0 : 0 ≤ (s j - 1) / (s j - s (j + 1)) := div_nonneg (by linarith) hc.le
    have t1 : (s j - 1) / (s j - s (j + 1)) ≤ 1 := (div_le_one hc).2 (by linarith)
    have m0 := mul_nonneg hd.le t0
    have m1 := mul_le_mul_of_nonneg_left t1 hd.le
    have := hstep j
    exact ⟨by linarith, by linarith⟩
  have n1 := nearest_le_of_le_dec hs (k := j + 1) (by omega) h1
  have n2 := le_nearest_of_le_dec hs (k := j) (by omega) h2
  rw [interp_dec (by norm_num) hs]
  by_cases hj4 : j = 254
  · have : nearestIn 256 s 1 = 256 - 2 := by unfold nearestIn; omega
    rw [if_pos this, show 256 - 2 = j by omega]
    exact hself
  have hne : nearestIn 256 s 1 ≠ 256 - 2 := by unfold nearestIn; omega
  rw [if_neg hne]
  by_cases hn : nearest 256 s 1 = j + 1 ∨ j = 0
  · have : nearestIn 256 s 1 = j + 1 := by unfold nearestIn; omega
    rw [this, Nat.add_sub_cancel]
    exact hself
  · -- nearer to the left end: the code extends the previous chord
    have hnj : nearest 256 s 1 = j := by omega
    obtain ⟨i, rfl⟩ : ∃ i, j = i + 1 := ⟨j - 1, by omega⟩
    have hin : nearestIn 256 s 1 = i + 1 := by unfold nearestIn; omega
    have hmin := nearest_min 256 s 1 (i + 1 + 1) (by omega)
    rw [hnj, abs_of_nonpos (by linarith), abs_of_nonneg (by linarith)] at hmin
    rw [hin, Nat.add_sub_cancel, hch i (by omega)]
    have hc := hcell i (by omega)
    have hg : s (i + 1) - s (i + 1 + 1) ≤ 2 * (s i - s (i + 1)) := hgap i
    have t0 : 1 ≤ (s i - 1) / (s i - s (i + 1)) := (one_le_div hc).2 (by linarith)
    have t1 : (s i - 1) / (s i - s (i + 1)) ≤ 2 := (div_le_iff₀ hc).2 (by linarith)
    have m0 := mul_le_mul_of_nonneg_left t0 hd.le
    have m1 := mul_le_mul_of_nonneg_left t1 hd.le
    have e1 := hstep i
    have e2 := hstep (i + 1)
    exact ⟨by linarith, by linarith⟩

/-- The radius is never below the search range when the root is within it. -/
theorem log_R_nl {p : Params} {T : ℝ → ℝ} {a : ℝ} {j : ℕ}
    (h : Halofit.logr j ≤ interp 256 (Halofit.sigma p T a) Halofit.logr 1) :
    Real.log (Halofit.R_nl p T a) = interp 256 (Halofit.sigma p T a) Halofit.logr 1 := by
  have h0 : Real.log 1e-4 ≤ interp 256 (Halofit.sigma p T a) Halofit.logr 1 := by
    refine le_trans ?_ h
    rw [logr_eq]
    have := logrStep_pos
    have : 0 ≤ (j : ℝ) * logrStep := by positivity
    linarith
  unfold Halofit.R_nl clipLo
  simp only
  rw [max_eq_left, Real.log_exp]
  have h1 := Real.exp_le_exp.2 h0
  rw [Real.exp_log (by norm_num)] at h1
  exact le_trans (by norm_num) h1

/-! ## C78 -/

/-- C78, up to one cell of the search grid: if `x` is the logarithm of a radius at which the
variance, with the library's quadrature, is one, and `x` lies within the search range but not in its
last but one cell, the non-linear scale is within a factor `10^(1/51)` (4.6 per cent) of it.
Missing: the cell number 253 of 255, where the code uses a wrong chord (`C78_refuted`). -/
theorem C78_scale_partial (p : Params) (T : ℝ → ℝ) (a : ℝ) (hg : growthOf p 1 = 1)
    (hP : ∀ k, 0 < k → 0 < linearMatterPower p T k a) {S : ℝ → ℝ}
    (hS : ∀ x, simps (gaussIntegrand (dimensionless fun k => linearMatterPower p T k a)
      (Real.exp x)) (Real.log 1e-4) (Real.log 1e4) 256 = .ok (S x))
    {x : ℝ} (hx : S x = 1) (h0 : Real.log 1e-4 ≤ x)
    (h1 : x ≤ Real.log 1e-4 + 253 * (Real.log 10 / 51) ∨
      (Real.log 1e-4 + 254 * (Real.log 10 / 51) ≤ x ∧ x ≤ Real.log 1e1)) :
    |Real.log (Halofit.R_nl p T a) - x| ≤ Real.log 10 / 51 := by
  have hd := logrStep_pos
  have hga : growthOf p a ≠ 0 := by
    intro h
    have := hP 1 one_pos
    rw [C40_growth p T _ a hg, h] at this
    norm_num at this
  have hP1 : ∀ k, 0 < k → 0 < linearMatterPower p T k := by
    intro k hk
    have := hP k hk
    rw [C40_growth p T _ a hg] at this
    exact pos_of_mul_pos_right this (by positivity)
  have hdec := sigma_decreasing p T a hP1 hga
  have hSs : ∀ i, S (Halofit.logr i) = Halofit.sigma p T a i := fun i =>
    Except.ok.inj ((hS _).symm.trans (sigma_eq p T a hg i))
  have hSd : StrictAnti S := by
    intro y z hyz
    rw [← Except.ok.inj (hS y), ← Except.ok.inj (hS z)]
    refine simpsBody_lt log_range (by norm_num) (by norm_num) fun t => ?_
    unfold gaussIntegrand
    have h1 := hP _ (Real.exp_pos t)
    have hpi := Real.pi_pos
    refine mul_lt_mul_of_pos_left ?_ (by unfold dimensionless; positivity)
    refine Real.exp_lt_exp.2 (neg_lt_neg ?_)
    exact pow_lt_pow_left₀ (mul_lt_mul_of_pos_left (Real.exp_lt_exp.2 hyz) (Real.exp_pos t))
      (by positivity) (by norm_num)
  -- the cell of `x`
  have hcell : ∃ j : ℕ, j < 255 ∧ j ≠ 253 ∧ Halofit.logr j ≤ x ∧ x ≤ Halofit.logr (j + 1) := by
    rw [← logrStep_eq] at h1
    rcases h1 with h1 | ⟨h1, h2⟩
    · have hn : 0 ≤ (x - Real.log 1e-4) / logrStep := div_nonneg (by linarith) hd.le
      by_cases hend : x = Real.log 1e-4 + 253 * logrStep
      · refine ⟨252, by norm_num, by norm_num, ?_, ?_⟩
        · rw [logr_eq, hend]; push_cast; linarith
        · rw [logr_eq, hend]; push_cast; linarith
      · have hlt : x < Real.log 1e-4 + 253 * logrStep := lt_of_le_of_ne h1 hend
        have f0 := Nat.floor_le hn
        have f1 := Nat.lt_floor_add_one ((x - Real.log 1e-4) / logrStep)
        rw [le_div_iff₀ hd] at f0
        rw [div_lt_iff₀ hd] at f1
        have hlt' : ⌊(x - Real.log 1e-4) / logrStep⌋₊ < 253 := by
          rw [Nat.floor_lt hn, div_lt_iff₀ hd]; push_cast; linarith
        refine ⟨⌊(x - Real.log 1e-4) / logrStep⌋₊, by omega, by omega, ?_, ?_⟩
        · rw [logr_eq]; linarith
        · rw [logr_eq]; push_cast; linarith
    · refine ⟨254, by norm_num, by norm_num, ?_, ?_⟩
      · rw [logr_eq]; push_cast; linarith
      · rw [logr_eq]; push_cast
        have : logrStep * 255 = Real.log 1e1 - Real.log 1e-4 := by
          unfold logrStep; field_simp
        linarith
  obtain ⟨j, hj, hj', hl, hr⟩ := hcell
  have r1 : Halofit.sigma p T a (j + 1) ≤ 1 := by
    rw [← hSs, ← hx]; exact hSd.antitone hr
  have r2 : 1 ≤ Halofit.sigma p T a j := by
    rw [← hSs, ← hx]; exact hSd.antitone hl
  obtain ⟨q1, q2⟩ := root_in_cell (s := Halofit.sigma p T a) (fun i j hij _ => hdec i j hij)
    (sigma_gap p T a) hj hj' r1 r2
  rw [log_R_nl q1, ← logrStep_eq, abs_le]
  have : Halofit.logr (j + 1) = Halofit.logr j + logrStep := by
    rw [logr_eq, logr_eq]; push_cast; ring
  exact ⟨by linarith, by linarith⟩

/-! ## The last but one cell -/

/-- A transfer function concentrated on two wavenumbers. -/
noncomputable def spikeT (k : ℝ) : ℝ := if k = 1 ∨ k = Real.exp (-4) then 1 else 0

theorem log_ten_bounds : 128 < 56 * Real.log 10 ∧ 55 * Real.log 10 < 128 := by
  have h1 : Real.log (10 ^ 3) ≤ Real.log (2 ^ 10) := Real.log_le_log (by norm_num) (by norm_num)
  have h2 : Real.log (2 ^ 33) ≤ Real.log (10 ^ 10) := Real.log_le_log (by norm_num) (by norm_num)
  rw [Real.log_pow, Real.log_pow] at h1 h2
  have h3 := Real.log_two_lt_d9
  have h4 := Real.log_two_gt_d9
  push_cast at h1 h2
  exact ⟨by linarith, by linarith⟩

/-- Only the node `k = 1` of the quadrature sees the two spikes. -/
theorem spike_node {i : ℕ} (h : linspace (Real.log 1e-4) (Real.log 1e4) (256 + 1) i ≠ 0) :
    spikeT (Real.exp (linspace (Real.log 1e-4) (Real.log 1e4) (256 + 1) i)) = 0 := by
  unfold spikeT
  rw [if_neg]
  rintro (h1 | h1)
  · exact h (by rw [← Real.exp_zero] at h1; exact Real.exp_injective h1)
  · have h1 := Real.exp_injective h1
    rw [linspace_succ, show (1e-4 : ℝ) = 10⁻¹ ^ 4 by norm_num, show (1e4 : ℝ) = 10 ^ 4 by norm_num,
      Real.log_pow, Real.log_pow, Real.log_inv] at h1
    push_cast at h1
    obtain ⟨b1, b2⟩ := log_ten_bounds
    have hl : 0 < Real.log 10 := by linarith
    have e : (128 - (i : ℝ)) * Real.log 10 = 128 := by linarith
    have c1 : (128 : ℝ) - i < 56 := by
      by_contra hc
      have := mul_le_mul_of_nonneg_right (not_lt.1 hc) hl.le
      linarith
    have c2 : (55 : ℝ) < 128 - i := by
      by_contra hc
      have := mul_le_mul_of_nonneg_right (not_lt.1 hc) hl.le
      linarith
    have c3 : (72 : ℝ) < (i : ℝ) := by linarith
    have c4 : (i : ℝ) < 73 := by linarith
    have c3' : 72 < i := by exact_mod_cast c3
    have c4' : i < 73 := by exact_mod_cast c4
    omega

theorem node_128 : linspace (Real.log 1e-4) (Real.log 1e4) (256 + 1) 128 = 0 := by
  rw [linspace_succ, show (1e-4 : ℝ) = 10⁻¹ ^ 4 by norm_num, show (1e4 : ℝ) = 10 ^ 4 by norm_num,
    Real.log_pow, Real.log_pow, Real.log_inv]
  push_cast; ring

theorem spike_weight :
    0 < simpsBody (fun t : ℝ => if t = 0 then (1 : ℝ) else 0) (Real.log 1e-4) (Real.log 1e4) 256 := by
  have hr := log_range
  simp only [simpsBody]
  refine mul_pos (by have : 0 < Real.log 1e4 - Real.log 1e-4 := by linarith
                     positivity) ?_
  have h0 : ∀ t : ℝ, 0 ≤ (if t = 0 then (1 : ℝ) else 0) := fun t => by split <;> norm_num
  refine Finset.sum_pos' (fun i _ => ?_) ⟨64, Finset.mem_range.2 (by norm_num), ?_⟩
  · have := h0 (linspace (Real.log 1e-4) (Real.log 1e4) (256 + 1) (2 * i))
    have := h0 (linspace (Real.log 1e-4) (Real.log 1e4) (256 + 1) (2 * i + 1))
    have := h0 (linspace (Real.log 1e-4) (Real.log 1e4) (256 + 1) (2 * i + 2))
    linarith
  · have e : (if linspace (Real.log 1e-4) (Real.log 1e4) (256 + 1) (2 * 64) = 0 then (1 : ℝ) else 0)
        = 1 := if_pos node_128
    have := h0 (linspace (Real.log 1e-4) (Real.log 1e4) (256 + 1) (2 * 64 + 1))
    have := h0 (linspace (Real.log 1e-4) (Real.log 1e4) (256 + 1) (2 * 64 + 2))
    linarith

/-- The variance of the spiky spectrum is an exact Gaussian in the radius, of any amplitude. -/
theorem exists_spike {A : ℝ} (hA : 0 < A) : ∃ p : Params, Physical p ∧
    ∀ x, simpsBody (gaussIntegrand (dimensionless fun k => linearMatterPower p spikeT k 1)
      (Real.exp x)) (Real.log 1e-4) (Real.log 1e4) 256 = A * Real.exp (-Real.exp (2 * x)) := by
  have hg1 : growthOf Planck15 1 = 1 := C10_one _ planck_physical
  have hT1 : spikeT 1 = 1 := by simp [spikeT]
  have hT4 : spikeT (Real.exp (-4)) = 1 := by simp [spikeT]
  have hW : 0 < linearMatterPower Planck15 spikeT 1 1 :=
    C40_pos _ _ _ _ one_pos (by rw [hT1]; norm_num) (by rw [hg1]; norm_num)
      (by norm_num [Planck15]) (by rw [hT4]; norm_num)
  have hD := spike_weight
  set D := simpsBody (fun t : ℝ => if t = 0 then (1 : ℝ) else 0) (Real.log 1e-4) (Real.log 1e4) 256
  set W := linearMatterPower Planck15 spikeT 1 1 with hWd
  have hpi := Real.pi_pos
  set s := Real.sqrt (A / (W / (2 * Real.pi ^ 2) * D)) with hs
  have hs2 : s ^ 2 = A / (W / (2 * Real.pi ^ 2) * D) := Real.sq_sqrt (by positivity)
  refine ⟨{ Planck15 with sigma8 := s * Planck15.sigma8 }, ⟨planck_physical.m_pos,
    planck_physical.k_nonneg, planck_physical.de_nonneg, planck_physical.w_range⟩, fun x => ?_⟩
  have key : simpsBody (gaussIntegrand (dimensionless fun k =>
      linearMatterPower { Planck15 with sigma8 := s * Planck15.sigma8 } spikeT k 1)
      (Real.exp x)) (Real.log 1e-4) (Real.log 1e4) 256
      = simpsBody (fun t => (s ^ 2 * W / (2 * Real.pi ^ 2) * Real.exp (-Real.exp (2 * x)))
        * (if t = 0 then (1 : ℝ) else 0)) (Real.log 1e-4) (Real.log 1e4) 256 := by
    refine simpsBody_congr _ _ _ _ _ (by norm_num) fun i _ => ?_
    by_cases h : linspace (Real.log 1e-4) (Real.log 1e4) (256 + 1) i = 0
    · rw [h, if_pos rfl]
      unfold gaussIntegrand dimensionless
      simp only [Real.exp_zero]
      rw [C40_sigma8, ← hWd, show Real.exp (2 * x) = (1 * Real.exp x) ^ 2 by
        rw [one_mul, ← Real.exp_nat_mul]; push_cast; rfl]
      ring
    · rw [if_neg h]
      unfold gaussIntegrand dimensionless linearMatterPower
      simp only
      rw [spike_node h]
      ring
  rw [key, simpsBody_smul, hs2, show simpsBody (fun t : ℝ => if t = 0 then (1 : ℝ) else 0)
    (Real.log 1e-4) (Real.log 1e4) 256 = D from rfl]
  field_simp

/-- C78 as stated is false: a variance that is exactly `A exp(-R²)`, with amplitude such that the
crossing is in the last but one cell of the search grid; the code extends the last chord backwards
and misses the root by more than seven cells. -/
theorem C78_refuted : ¬ ∀ (p : Params) (T : ℝ → ℝ) (a : ℝ), Physical p → ∀ S : ℝ → ℝ,
    (∀ x, simps (gaussIntegrand (dimensionless fun k => linearMatterPower p T k a)
      (Real.exp x)) (Real.log 1e-4) (Real.log 1e4) 256 = .ok (S x)) →
    StrictAnti S → ∀ x, S x = 1 → Real.log 1e-4 ≤ x → x ≤ Real.log 1e1 →
    |Real.log (Halofit.R_nl p T a) - x| ≤ Real.log 10 / 51 := by
  intro hall
  have hd := logrStep_pos
  -- squared radii at the last three nodes
  set u : ℕ → ℝ := fun i => Real.exp (2 * Halofit.logr i) with hu
  have hu255 : Halofit.logr 255 = Real.log 10 := by
    rw [logr_eq]; unfold logrStep; push_cast
    rw [show (1e1 : ℝ) = 10 by norm_num]; ring
  have hlog : ∀ i : ℕ, Halofit.logr (i + 1) = Halofit.logr i + logrStep := by
    intro i; rw [logr_eq, logr_eq]; push_cast; ring
  have hstep : ∀ i, u (i + 1) = Real.exp (2 * logrStep) * u i := by
    intro i; simp only [hu]; rw [hlog, ← Real.exp_add]; ring_nf
  have h255 : u 255 = 100 := by
    simp only [hu]
    rw [hu255, show (2 : ℝ) * Real.log 10 = ((2 : ℕ) : ℝ) * Real.log 10 by push_cast; rfl,
      ← Real.log_pow, Real.exp_log (by norm_num)]
    norm_num
  have hq1 : 1 + 2 * logrStep ≤ Real.exp (2 * logrStep) := by
    have := Real.add_one_le_exp (2 * logrStep); linarith
  have hq2 : Real.exp (2 * logrStep) ≤ 3 / 2 := by
    refine (Real.le_log_iff_exp_le (by norm_num)).1 ?_
    rw [logrStep_eq]
    have : Real.log (10 ^ 2) ≤ Real.log ((3 / 2) ^ 51) := Real.log_le_log (by norm_num) (by norm_num)
    rw [Real.log_pow, Real.log_pow] at this
    push_cast at this
    linarith
  have e1 := hstep 254
  have e2 := hstep 253
  have hu3 : 44 ≤ u 253 := by
    have p3 : 0 < u 253 := Real.exp_pos _
    have p4 : 0 < u 254 := Real.exp_pos _
    have m1 := mul_le_mul_of_nonneg_right hq2 p3.le
    have m2 := mul_le_mul_of_nonneg_right hq2 p4.le
    have e1 : u 255 = Real.exp (2 * logrStep) * u 254 := e1
    have e2 : u 254 = Real.exp (2 * logrStep) * u 253 := e2
    linarith
  have hgap : 3 / 2 * Real.log 10 ≤ u 254 - u 253 := by
    have e2 : u 254 = Real.exp (2 * logrStep) * u 253 := e2
    have m1 := mul_le_mul_of_nonneg_right hq1 (by linarith : (0 : ℝ) ≤ u 253)
    have m2 := mul_le_mul_of_nonneg_left hu3 hd.le
    have e3 : Real.log 10 = 51 * logrStep := by rw [logrStep_eq]; ring
    linarith
  have hu45 : u 254 < u 255 := Real.exp_lt_exp.2 (by have := hlog 254; linarith)
  obtain ⟨b1, b2⟩ := log_ten_bounds
  -- the cosmology
  obtain ⟨p, hp, hS⟩ := exists_spike (A := Real.exp (u 254) / 10) (by positivity)
  have hg : growthOf p 1 = 1 := C10_one p hp
  have hanti : StrictAnti fun x : ℝ => Real.exp (u 254) / 10 * Real.exp (-Real.exp (2 * x)) := by
    intro x y hxy
    refine mul_lt_mul_of_pos_left (Real.exp_lt_exp.2 (neg_lt_neg (Real.exp_lt_exp.2 ?_)))
      (by positivity)
    linarith
  have hsig : ∀ i, Halofit.sigma p spikeT 1 i = Real.exp (u 254) / 10 * Real.exp (-u i) := by
    intro i
    rw [← hS]
    exact (Except.ok.inj (sigma_eq p spikeT 1 hg i)).symm
  have hpos : 0 < u 254 - Real.log 10 := by linarith
  have hx1 : Halofit.logr 253 ≤ Real.log (u 254 - Real.log 10) / 2 := by
    have : 2 * Halofit.logr 253 ≤ Real.log (u 254 - Real.log 10) := by
      rw [Real.le_log_iff_exp_le hpos]
      change u 253 ≤ _
      linarith
    linarith
  have hx2 : Real.log (u 254 - Real.log 10) / 2 ≤ Real.log 1e1 := by
    have : Real.log (u 254 - Real.log 10) ≤ Real.log (10 ^ 2) :=
      Real.log_le_log hpos (by linarith)
    rw [Real.log_pow] at this
    push_cast at this
    rw [show (1e1 : ℝ) = 10 by norm_num]
    linarith
  have hbad := hall p spikeT 1 hp _ (fun x => (simps_256 _ _ _).trans (congrArg _ (hS x))) hanti
    (Real.log (u 254 - Real.log 10) / 2) (by
      rw [mul_div_cancel₀ _ (by norm_num : (2 : ℝ) ≠ 0), Real.exp_log hpos, neg_sub, Real.exp_sub,
        Real.exp_log (by norm_num)]
      have := Real.exp_pos (u 254)
      field_simp) (by
      refine le_trans ?_ hx1
      rw [logr_eq]; push_cast; linarith) hx2
  -- the value returned by the code
  have hdec : Decreasing 256 (Halofit.sigma p spikeT 1) := by
    intro i j hij _
    rw [hsig, hsig]
    refine mul_lt_mul_of_pos_left (Real.exp_lt_exp.2 (neg_lt_neg (Real.exp_lt_exp.2 ?_)))
      (by positivity)
    rw [logr_eq, logr_eq]
    have : (i : ℝ) < j := by exact_mod_cast hij
    have := mul_lt_mul_of_pos_right this hd
    linarith
  have s4 : Halofit.sigma p spikeT 1 254 = 1 / 10 := by
    rw [hsig, Real.exp_neg]
    have := Real.exp_pos (u 254)
    field_simp
  have s5 : 0 < Halofit.sigma p spikeT 1 255 := by rw [hsig]; positivity
  have s45 := hdec 254 255 (by norm_num) (by norm_num)
  have s3 : 2 ≤ Halofit.sigma p spikeT 1 253 := by
    rw [hsig, div_mul_eq_mul_div, ← Real.exp_add, le_div_iff₀ (by norm_num)]
    rw [← Real.log_le_iff_le_exp (by norm_num)]
    have h1 : Real.log ((2 * 10) ^ 2) ≤ Real.log (10 ^ 3) :=
      Real.log_le_log (by norm_num) (by norm_num)
    rw [Real.log_pow, Real.log_pow] at h1
    push_cast at h1
    linarith
  have n1 := nearest_le_of_le_dec hdec (x := 1) (k := 254) (by norm_num) (by rw [s4]; norm_num)
  have n2 := le_nearest_of_le_dec hdec (x := 1) (k := 253) (by norm_num) (by linarith)
  have n3 : nearest 256 (Halofit.sigma p spikeT 1) 1 ≠ 253 := by
    intro e
    have := nearest_min 256 (Halofit.sigma p spikeT 1) 1 254 (by norm_num)
    rw [e, s4, abs_of_nonpos (by linarith), abs_of_nonneg (by norm_num)] at this
    linarith
  have hin : nearestIn 256 (Halofit.sigma p spikeT 1) 1 = 256 - 2 := by unfold nearestIn; omega
  have hroot : interp 256 (Halofit.sigma p spikeT 1) Halofit.logr 1
      ≤ Halofit.logr 254 - 9 * logrStep := by
    rw [interp_dec (by norm_num) hdec, if_pos hin]
    unfold chord
    change Halofit.logr 254 + (Halofit.logr (254 + 1) - Halofit.logr 254) * ((1 -
      Halofit.sigma p spikeT 1 254) / (Halofit.sigma p spikeT 1 255 - Halofit.sigma p spikeT 1 254))
      ≤ _
    rw [hlog 254, add_sub_cancel_left, s4]
    rw [s4] at s45
    generalize Halofit.sigma p spikeT 1 255 = z at *
    have : (1 - 1 / 10) / (z - 1 / 10) ≤ -9 := by
      rw [div_le_iff_of_neg (by linarith)]
      linarith
    have := mul_le_mul_of_nonneg_left this hd.le
    linarith
  have hR : Halofit.R_nl p spikeT 1 ≤ Real.exp (Halofit.logr 254 - 9 * logrStep) := by
    unfold Halofit.R_nl clipLo
    refine max_le (Real.exp_le_exp.2 hroot) ?_
    rw [← Real.log_le_iff_le_exp (by norm_num)]
    have : Real.log 1e-6 ≤ Real.log 1e-4 := Real.log_le_log (by norm_num) (by norm_num)
    rw [logr_eq]; push_cast; linarith
  have hR' := Real.log_le_log (R_nl_pos p spikeT 1) hR
  rw [Real.log_exp] at hR'
  rw [← logrStep_eq] at hbad
  have := (abs_le.1 hbad).1
  have := hlog 253
  have : Halofit.logr 254 = Halofit.logr 253 + logrStep := this
  linarith

/-! ## A cosmology whose non-linear scale is a node of the grid -/

/-- The variance is proportional to `sigma8²`. -/
theorem sigma_sigma8 (p : Params) (T : ℝ → ℝ) (a s : ℝ) (i : ℕ) :
    Halofit.sigma { p with sigma8 := s * p.sigma8 } T a i = s ^ 2 * Halofit.sigma p T a i := by
  unfold Halofit.sigma
  rw [← simpsBody_smul]
  congr 1
  funext t
  rw [intSigma_eq, intSigma_eq, C40_sigma8, show growthOf { p with sigma8 := s * p.sigma8 } a
    = growthOf p a from rfl]
  ring

/-- `sigma8` can be tuned so that the variance is one at a given node. -/
theorem exists_tuned (p : Params) (T : ℝ → ℝ) (a : ℝ)
    (hP : ∀ k, 0 < k → 0 < linearMatterPower p T k) (hg : growthOf p a ≠ 0) (i : ℕ) :
    ∃ s, 0 < s ∧ Halofit.sigma { p with sigma8 := s * p.sigma8 } T a i = 1 := by
  have h0 : 0 < Halofit.sigma p T a i := by
    have := simpsBody_lt log_range (N := 256) (by norm_num) (by norm_num)
      (f := fun _ => 0) (g := Halofit.intSigma p T a (Real.exp (Halofit.logr i))) fun t => by
        rw [intSigma_eq]
        have := hP _ (Real.exp_pos t)
        have hpi := Real.pi_pos
        positivity
    rwa [simpsBody_zero] at this
  refine ⟨1 / Real.sqrt (Halofit.sigma p T a i), by positivity, ?_⟩
  rw [sigma_sigma8, div_pow, Real.sq_sqrt h0.le]
  field_simp

/-- Witness: the Planck 2015 cosmology with the smooth transfer function and `sigma8` such that the
variance is one at radius `1e-4 · 10^(200/51)` Mpc/h.  All hypotheses of `C76_index` and
`C78_scale_partial` hold there. -/
example : ∃ (p : Params) (S : ℝ → ℝ), Physical p ∧
    (∀ x, simps (gaussIntegrand (dimensionless fun k => linearMatterPower p (EH.nowiggle Planck15) k 1)
      (Real.exp x)) (Real.log 1e-4) (Real.log 1e4) 256 = .ok (S x)) ∧
    S (Real.log (Halofit.R_nl p (EH.nowiggle Planck15) 1)) = 1 ∧
    Halofit.n_eff p (EH.nowiggle Planck15) 1 = -3 - deriv (fun x => Real.log (S x))
      (Real.log (Halofit.R_nl p (EH.nowiggle Planck15) 1)) ∧
    |Real.log (Halofit.R_nl p (EH.nowiggle Planck15) 1) - Halofit.logr 200| ≤ Real.log 10 / 51 := by
  set T := EH.nowiggle Planck15
  have hg1 : growthOf Planck15 1 = 1 := C10_one _ planck_physical
  have hP0 : ∀ k, 0 < k → 0 < linearMatterPower Planck15 T k := fun k hk =>
    C40_pos _ _ _ _ hk (planck_nowiggle_pos hk) (by rw [hg1]; norm_num) (by norm_num [Planck15])
      (planck_nowiggle_pos (Real.exp_pos _))
  obtain ⟨s, hs0, hs⟩ := exists_tuned Planck15 T 1 hP0 (by rw [hg1]; norm_num) 200
  set p : Params := { Planck15 with sigma8 := s * Planck15.sigma8 } with hp
  have hphys : Physical p :=
    ⟨planck_physical.m_pos, planck_physical.k_nonneg, planck_physical.de_nonneg,
      planck_physical.w_range⟩
  have hg : growthOf p 1 = 1 := hg1
  have hP : ∀ k, 0 < k → 0 < linearMatterPower p T k := fun k hk => by
    rw [hp, C40_sigma8]
    have := hP0 k hk
    positivity
  have hdec : Decreasing 256 (Halofit.sigma p T 1) := fun i j hij _ =>
    sigma_decreasing p T 1 hP (by rw [hg]; norm_num) i j hij
  have hroot : interp 256 (Halofit.sigma p T 1) Halofit.logr 1 = Halofit.logr 200 := by
    have := C20_nodes (by norm_num) hdec Halofit.logr (i := 200) (by norm_num)
    rwa [hs] at this
  have hR := log_R_nl (p := p) (T := T) (a := 1) (j := 200) (by rw [hroot])
  refine ⟨p, fun x => simpsBody (gaussIntegrand (dimensionless fun k => linearMatterPower p T k 1)
    (Real.exp x)) (Real.log 1e-4) (Real.log 1e4) 256, hphys, fun x => simps_256 _ _ _, ?_⟩
  have h1 : simpsBody (gaussIntegrand (dimensionless fun k => linearMatterPower p T k 1)
      (Real.exp (Halofit.logr 200))) (Real.log 1e-4) (Real.log 1e4) 256 = 1 := by
    have := Except.ok.inj (sigma_eq p T 1 hg 200)
    rw [hs] at this
    exact this
  refine ⟨by rw [hR, hroot]; exact h1, ?_, ?_⟩
  · exact (C76_index p T 1 hg (fun x => simps_256 _ _ _) (by rw [hR, hroot]; exact h1)).1
  · have hd := logrStep_pos
    refine C78_scale_partial p T 1 hg hP (fun x => simps_256 _ _ _) (x := Halofit.logr 200) h1 ?_ (Or.inl ?_)
    · rw [logr_eq]; push_cast; linarith
    · rw [logr_eq, ← logrStep_eq]; push_cast; linarith

end JaxCosmo
