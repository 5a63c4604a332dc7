import Verif.Proofs.Tables
import Mathlib.MeasureTheory.Integral.IntervalIntegral.IntegrationByParts
import Mathlib.Analysis.SpecialFunctions.Trigonometric.DerivHyp
import Mathlib.Analysis.SpecialFunctions.Trigonometric.Bounds
import Mathlib.Analysis.Calculus.IteratedDeriv.Lemmas
import Mathlib.Analysis.Calculus.ContDiff.Operations
import Mathlib.Analysis.SpecialFunctions.ExpDeriv
import Mathlib.Analysis.SpecialFunctions.Sqrt
import Mathlib.Analysis.Convex.SpecificFunctions.Basic

/-! # C06–C09: distances

`readChi (chiTable p lo n)` is what `radial_comoving_distance(cosmo, ·, lo, n)` computes, element by
element, on a fresh object (`C06_call`); `lo < 0` and `n ≥ 2` are arbitrary, the defaults are
`lo = -3`, `n = 256`. -/

namespace JaxCosmo
open Spec

/-! ## C06 -/

/-- A call on a fresh object never fails and returns the table reading of each element. -/
theorem C06_call (p : Params) (as : List ℝ) (lo : ℝ) (n : ℕ) :
    (radialComovingDistance (Cosmology.init p) (.vec as) lo n).2
      = .ok (as.map (readChi (chiTable p lo n))) ∧
    ∀ a, (radialComovingDistance (Cosmology.init p) (.scalar a) lo n).2
      = .ok [readChi (chiTable p lo n) a] := ⟨rfl, fun _ => rfl⟩

/-- C06: never negative, at any `a`, even outside the table. -/
theorem C06_nonneg (p : Params) (lo : ℝ) (n : ℕ) (a : ℝ) : 0 ≤ readChi (chiTable p lo n) a :=
  le_max_right _ _

variable {p : Params} {lo : ℝ} {n : ℕ}

theorem interp_chi_one (hlo : lo < 0) (hn : 2 ≤ n) :
    interp n (logspace lo 0 n) (chiTable p lo n).chi 1 = 0 := by
  rw [← logspace_end lo hn,
    C19_nodes_partial (logspace_increasing hlo hn) _ (by omega) (by omega), chiTable_last]

/-- C06: the distance to today is zero. -/
theorem C06_zero_today (p : Params) (hlo : lo < 0) (hn : 2 ≤ n) :
    readChi (chiTable p lo n) 1 = 0 := by
  rw [readChi, chiTable_a, chiTable_n, interp_chi_one hlo hn, clipLo, max_self]

/-- C06: the distance never increases when the scale factor increases. -/
theorem C06_antitone (hlo : lo < 0) (hn : 2 ≤ n) (hE : EsqrPos p) :
    Antitone (readChi (chiTable p lo n)) := by
  intro a b hab
  refine max_le_max ?_ le_rfl
  exact C21_anti hn (logspace_increasing hlo hn)
    (fun i hi => (chiTable_step p hlo hn hE i (by omega)).le) hab

/-- C06: the distance is zero from today on. -/
theorem C06_zero_after (hlo : lo < 0) (hn : 2 ≤ n) (hE : EsqrPos p) {a : ℝ} (ha : 1 ≤ a) :
    readChi (chiTable p lo n) a = 0 :=
  le_antisymm (by rw [← C06_zero_today p hlo hn]; exact C06_antitone hlo hn hE ha)
    (C06_nonneg p lo n a)

/-- C06: strictly positive before today. -/
theorem C06_pos_before (hlo : lo < 0) (hn : 2 ≤ n) (hE : EsqrPos p) {a : ℝ} (ha : a < 1) :
    0 < readChi (chiTable p lo n) a := by
  have hx := logspace_increasing hlo hn
  have hstep : (chiTable p lo n).chi (n - 1) < (chiTable p lo n).chi (n - 2) := by
    have := chiTable_step p hlo hn hE (n - 2) (by omega)
    rwa [show n - 2 + 1 = n - 1 by omega] at this
  rw [chiTable_last] at hstep
  have hxl : logspace lo 0 n (n - 2) < 1 := by
    rw [← logspace_end lo hn]; exact logspace_strictMono hlo hn (by omega)
  refine lt_max_of_lt_left ?_
  change 0 < interp n (logspace lo 0 n) (chiTable p lo n).chi a
  have hchord : ∀ x, x < 1 → 0 < chord (logspace lo 0 n) (chiTable p lo n).chi (n - 2) x := by
    intro x hx1
    have : chord (logspace lo 0 n) (chiTable p lo n).chi (n - 2) x
        = (chiTable p lo n).chi (n - 2) * ((1 - x) / (1 - logspace lo 0 n (n - 2))) := by
      rw [chord, show n - 2 + 1 = n - 1 by omega, chiTable_last, logspace_end lo hn]
      have : (1 : ℝ) - logspace lo 0 n (n - 2) ≠ 0 := by linarith
      field_simp; ring
    rw [this]
    exact mul_pos hstep (div_pos (by linarith) (by linarith))
  rcases Nat.lt_or_ge n 3 with h | h
  · obtain rfl : n = 2 := by omega
    rw [interp_two]
    exact hchord a ha
  · rcases le_total a (logspace lo 0 n (n - 2)) with h' | h'
    · refine lt_of_lt_of_le ?_ (C21_anti hn hx
        (fun i hi => (chiTable_step p hlo hn hE i (by omega)).le) h')
      rw [C19_nodes_partial hx _ (by omega) (by omega)]
      exact hstep
    · rw [interp_inc_seg h hx _ (j := n - 2) (by omega) (by omega) (Or.inr h') (Or.inl (by omega))]
      exact hchord a ha

/-- C06: strictly decreasing in `a` up to today. -/
theorem C06_strictAnti (hlo : lo < 0) (hn : 2 ≤ n) (hE : EsqrPos p) {a b : ℝ} (hab : a < b)
    (hb : b ≤ 1) : readChi (chiTable p lo n) b < readChi (chiTable p lo n) a := by
  have hs := C21_strictAnti hn (logspace_increasing hlo hn) (fp := (chiTable p lo n).chi)
    (fun i hi => chiTable_step p hlo hn hE i (by omega))
  rcases hb.lt_or_eq with h | rfl
  · exact max_lt (lt_max_of_lt_left (hs hab)) (C06_pos_before hlo hn hE (hab.trans h))
  · rw [C06_zero_today p hlo hn]; exact C06_pos_before hlo hn hE hab

/-- The hypotheses hold for the default table and the Planck cosmology. -/
theorem planck_EsqrPos : EsqrPos Planck15 := fun a ha _ =>
  C05_Esqr_pos Planck15 a ha (by norm_num [Planck15, Params.Omega_m])
    (by norm_num [Planck15]) (by norm_num [Planck15, Params.Omega_de, Params.Omega, Params.Omega_m])

example : Antitone (chiOf Planck15) ∧ chiOf Planck15 1 = 0 ∧ 0 < chiOf Planck15 (1 / 2) :=
  ⟨C06_antitone (by norm_num) (by norm_num) planck_EsqrPos, C06_zero_today _ (by norm_num) (by norm_num),
    C06_pos_before (by norm_num) (by norm_num) planck_EsqrPos (by norm_num)⟩

/-! ## C07 -/

theorem chiTable_simps (p : Params) (lo : ℝ) {n i : ℕ} (hi : i < n) :
    simpsBody (chiRate p) (Real.log (logspace lo 0 n i)) 0 (2 * (n - 1 - i))
      = (chiTable p lo n).chi i := by
  rw [chiTable_chi p lo n i (by omega), simpsBody_eq_panels, Finset.sum_Ico_eq_sum_range,
    Nat.mul_div_cancel_left _ (by norm_num : 0 < 2)]
  refine Finset.sum_congr rfl fun k hk => ?_
  have hk' : k < n - 1 - i := Finset.mem_range.mp hk
  have hn1 : ((n : ℝ) - 1) ≠ 0 := by
    have : (2 : ℝ) ≤ n := by exact_mod_cast (by omega : 2 ≤ n)
    linarith
  have hm : ((n - 1 - i : ℕ) : ℝ) = (n : ℝ) - 1 - i := by
    rw [Nat.cast_sub (by omega), Nat.cast_sub (by omega)]; simp
  have hm0 : ((n : ℝ) - 1 - i) ≠ 0 := by
    rw [← hm]; exact_mod_cast (by omega : n - 1 - i ≠ 0)
  have hdx : (0 - Real.log (logspace lo 0 n i)) / ((2 * (n - 1 - i) : ℕ) : ℝ)
      = -lo / ((n : ℝ) - 1) * Real.log 10 / 2 := by
    rw [log_logspace, linspace, Nat.cast_mul, hm]
    push_cast
    field_simp
    ring
  have hx : linspace (Real.log (logspace lo 0 n i)) 0 (2 * (n - 1 - i) + 1) (2 * k)
      = Real.log (logspace lo 0 n (i + k)) := by
    rw [linspace_succ, hdx, log_logspace, log_logspace, linspace, linspace]
    push_cast
    ring
  have hstep := log_logspace_step lo (n := n) (i + k)
  rw [hdx, hx, panel, hstep]
  have e1 : (Real.log (logspace lo 0 n (i + k)) + Real.log (logspace lo 0 n (i + k + 1))) / 2
      = Real.log (logspace lo 0 n (i + k)) + -lo / ((n : ℝ) - 1) * Real.log 10 / 2 := by linarith
  have e2 : Real.log (logspace lo 0 n (i + k)) + 2 * (-lo / ((n : ℝ) - 1) * Real.log 10 / 2)
      = Real.log (logspace lo 0 n (i + k + 1)) := by linarith
  rw [e1, e2]
  ring

theorem readChi_node (hlo : lo < 0) (hn : 2 ≤ n) (hE : EsqrPos p) {i : ℕ} (hi : 1 ≤ i ∨ n = 2)
    (hin : i < n) : readChi (chiTable p lo n) (logspace lo 0 n i) = (chiTable p lo n).chi i := by
  rw [readChi, chiTable_a, chiTable_n, C19_nodes_partial (logspace_increasing hlo hn) _ hi hin]
  refine max_eq_left ?_
  rw [← chiTable_last p lo n]
  exact (chiTable_decreasing p hlo hn hE).le (by omega) (by omega)

/-- C07 at every node but the first: the distance returned at the tabulated scale factor number
`i` is the composite Simpson rule (two subintervals per table step) in `x = ln a` for
`R_H ∫ da / (a² E) = ∫ R_H e^{-x} / E(e^x) dx` from `ln aᵢ` to `0`. Missing: `i = 0`, where the
claim is false (`C07_refuted`). -/
theorem C07_partial (hlo : lo < 0) (hn : 2 ≤ n) (hE : EsqrPos p) {i : ℕ} (hi : 1 ≤ i ∨ n = 2)
    (hin : i < n) :
    simps (fun x => const_rh * Real.exp (-x) / Real.sqrt (Esqr p (Real.exp x)))
      (Real.log (logspace lo 0 n i)) 0 (2 * (n - 1 - i))
      = .ok (readChi (chiTable p lo n) (logspace lo 0 n i)) := by
  rw [readChi_node hlo hn hE hi hin, ← chiTable_simps p lo hin, simps, if_neg (by omega)]
  congr 2
  funext x
  exact (chiRate_eq p x).symm

theorem Esqr_exp_contDiff (p : Params) : ContDiff ℝ 5 fun x => Esqr p (Real.exp x) := by
  have : (fun x => Esqr p (Real.exp x)) = fun x => p.Omega_m * Real.exp (-3 * x)
      + p.Omega_k * Real.exp (-2 * x) + p.Omega_de *
        Real.exp (-3 * (1 + p.w0 + p.wa) * x + 3 * p.wa * (Real.exp x - 1)) := by
    funext x
    rw [Esqr, f_de, Real.log_exp]
    congr 2
    · congr 1
      rw [show -3 * x = -(((3 : ℕ) : ℝ) * x) by push_cast; ring, Real.exp_neg, zpow_neg,
        Real.exp_nat_mul]
      norm_cast
    · congr 1
      rw [show -2 * x = -(((2 : ℕ) : ℝ) * x) by push_cast; ring, Real.exp_neg, zpow_neg,
        Real.exp_nat_mul]
      norm_cast
  rw [this]
  fun_prop

theorem chiRate_contDiffAt (p : Params) (x : ℝ) (h : 0 < Esqr p (Real.exp x)) :
    ContDiffAt ℝ 5 (chiRate p) x := by
  have : chiRate p = fun x => const_rh * Real.exp (-x) / Real.sqrt (Esqr p (Real.exp x)) :=
    funext (chiRate_eq p)
  rw [this]
  have hs : ContDiffAt ℝ 5 (fun x => Real.sqrt (Esqr p (Real.exp x))) x :=
    (Esqr_exp_contDiff p).contDiffAt.sqrt h.ne'
  exact ContDiffAt.div (by fun_prop) hs (Real.sqrt_pos.mpr h).ne'

theorem chiRate_iter (p : Params) (x : ℝ) (h : 0 < Esqr p (Real.exp x)) (k : ℕ) (hk : k ≤ 4) :
    HasDerivAt (iteratedDeriv k (chiRate p)) (iteratedDeriv (k + 1) (chiRate p) x) x := by
  rw [iteratedDeriv_succ]
  apply DifferentiableAt.hasDerivAt
  rw [iteratedDeriv_eq_equiv_comp]
  have h5 : ((k : ℕ) : WithTop ℕ∞) < 5 := by exact_mod_cast (by omega : k < 5)
  have := ContDiffAt.differentiableAt_iteratedFDeriv (chiRate_contDiffAt p x h) h5
  exact (LinearIsometryEquiv.differentiable _).differentiableAt.comp x this

/-- C07, accuracy: at every node but the first the distance differs from the true line-of-sight
integral `R_H ∫ da / (a² E(a))` by at most the Simpson error. -/
theorem C07_accuracy (hlo : lo < 0) (hn : 2 ≤ n) (hE : EsqrPos p) {i : ℕ} (hi : 1 ≤ i ∨ n = 2)
    (hin : i + 1 < n) {M : ℝ}
    (hM : ∀ x, Real.log (logspace lo 0 n i) < x → x < 0 →
      |iteratedDeriv 4 (fun x => const_rh * Real.exp (-x) / Real.sqrt (Esqr p (Real.exp x))) x| ≤ M) :
    |readChi (chiTable p lo n) (logspace lo 0 n i)
      - ∫ a in (logspace lo 0 n i)..1, const_rh / (a ^ 2 * Real.sqrt (Esqr p a))|
      ≤ (-Real.log (logspace lo 0 n i)) ^ 5 * M / (2880 * ((n : ℝ) - 1 - i) ^ 4) := by
  have hfun : (fun x => const_rh * Real.exp (-x) / Real.sqrt (Esqr p (Real.exp x))) = chiRate p :=
    (funext (chiRate_eq p)).symm
  have hs := C07_partial hlo hn hE hi (by omega : i < n)
  rw [hfun] at hs hM
  have ha := logspace_pos lo 0 n i
  have hlog : Real.log (logspace lo 0 n i) ≤ 0 := by
    apply Real.log_nonpos ha.le
    rw [← logspace_end lo hn]
    exact (logspace_strictMono hlo hn).monotone (by omega)
  have hpos : ∀ x ≤ 0, 0 < Esqr p (Real.exp x) := fun x hx =>
    hE _ (Real.exp_pos x) (Real.exp_le_one_iff.mpr hx)
  have hd : ∀ k ≤ 4, ∀ x ∈ Set.Ioo (Real.log (logspace lo 0 n i)) 0,
      HasDerivAt (iteratedDeriv k (chiRate p)) (iteratedDeriv (k + 1) (chiRate p) x) x :=
    fun k hk x hx => chiRate_iter p x (hpos x hx.2.le) k hk
  have hb := C23_error_bound hlog
    (fun x hx => (chiRate_contDiffAt p x (hpos x hx.2)).continuousAt.continuousWithinAt)
    (by simpa using hd 0 (by omega)) (hd 1 (by omega)) (hd 2 (by omega)) (hd 3 (by omega))
    (fun x hx => hM x hx.1 hx.2) (2 * (n - 1 - i)) (by omega) hs
  have hint : ∫ x in (Real.log (logspace lo 0 n i))..0, chiRate p x
      = ∫ a in (logspace lo 0 n i)..1, const_rh / (a ^ 2 * Real.sqrt (Esqr p a)) := by
    have := intervalIntegral.integral_comp_mul_deriv_of_deriv_nonneg
      (a := Real.log (logspace lo 0 n i)) (b := 0) (f := Real.exp) (f' := Real.exp)
      (g := fun a => const_rh / (a ^ 2 * Real.sqrt (Esqr p a)))
      Real.continuous_exp.continuousOn (fun x _ => Real.hasDerivAt_exp x)
      (fun x _ => (Real.exp_pos x).le)
    rw [Real.exp_log ha, Real.exp_zero] at this
    rw [← this]
    rfl
  rw [hint] at hb
  refine hb.trans (le_of_eq ?_)
  have hm : ((n - 1 - i : ℕ) : ℝ) = (n : ℝ) - 1 - i := by
    rw [Nat.cast_sub (by omega), Nat.cast_sub (by omega)]; simp
  rw [Nat.cast_mul, hm, zero_sub]
  push_cast
  rw [mul_pow, ← mul_assoc]
  norm_num

/-- An empty universe (Milne): no matter, no dark energy, pure curvature. -/
def Milne (p : Params) : Prop := p.Omega_m = 0 ∧ p.Omega_k = 1

theorem milne_Esqr (hp : Milne p) (a : ℝ) : Esqr p a = a ^ (-2 : ℤ) := by
  simp [Esqr, Params.Omega_de, Params.Omega, hp.1, hp.2]

theorem milne_EsqrPos (hp : Milne p) : EsqrPos p := fun a ha _ => by
  rw [milne_Esqr hp]; positivity

theorem milne_chiRate (hp : Milne p) (x : ℝ) : chiRate p x = const_rh := by
  rw [chiRate_eq, milne_Esqr hp, zpow_neg, Real.exp_neg, Real.sqrt_inv]
  have := Real.sqrt_sq (Real.exp_pos x).le
  have h0 := (Real.exp_pos x).ne'
  rw [show (Real.exp x) ^ (2 : ℤ) = Real.exp x ^ 2 by norm_cast, this]
  field_simp

theorem milne_chi (hp : Milne p) (lo : ℝ) {n i : ℕ} (hn : 2 ≤ n) (hi : i < n) :
    (chiTable p lo n).chi i = -const_rh * Real.log (logspace lo 0 n i) := by
  have hsum : ∀ (x : ℕ → ℝ) (m : ℕ), i ≤ m →
      ∑ j ∈ Finset.Ico i m, panel (fun _ => const_rh) (x j) (x (j + 1))
        = const_rh * (x m - x i) := by
    intro x m hm
    induction m, hm using Nat.le_induction with
    | base => simp
    | succ m hm ih => rw [Finset.sum_Ico_succ_top hm, ih, panel]; ring
  rw [chiTable_chi p lo n i (by omega), show chiRate p = fun _ => const_rh from
    funext (milne_chiRate hp), hsum (fun j => Real.log (logspace lo 0 n j)) (n - 1) (by omega)]
  rw [logspace_end lo hn, Real.log_one]; ring

/-- C07 in the empty universe: exactly `-R_H ln a`, at every node but the first. -/
theorem C07_milne_partial (hp : Milne p) (hlo : lo < 0) (hn : 2 ≤ n) {i : ℕ} (hi : 1 ≤ i ∨ n = 2)
    (hin : i < n) : readChi (chiTable p lo n) (logspace lo 0 n i)
      = -const_rh * Real.log (logspace lo 0 n i) := by
  rw [readChi_node hlo hn (milne_EsqrPos hp) hi hin, milne_chi hp lo hn hin]

/-- Some parameters of an empty universe. -/
def milneParams : Params :=
  { Omega_c := 0, Omega_b := 0, h := 1, n_s := 1, sigma8 := 1, Omega_k := 1, w0 := -1, wa := 0,
    gamma := none }

theorem milneParams_milne : Milne milneParams := by
  simp [Milne, milneParams, Params.Omega_m]

theorem logspace_ratio (lo : ℝ) (n i : ℕ) :
    logspace lo 0 n (i + 1) = logspace lo 0 n i * 10 ^ (-lo / ((n : ℝ) - 1)) := by
  rw [logspace, logspace, ← Real.rpow_add (by norm_num)]
  congr 1
  unfold linspace; push_cast; ring

/-- The table spacing in `a` grows. -/
theorem logspace_gap (hlo : lo < 0) (hn : 2 ≤ n) (i : ℕ) :
    logspace lo 0 n (i + 1) - logspace lo 0 n i
      < logspace lo 0 n (i + 2) - logspace lo 0 n (i + 1) := by
  have h1 := logspace_strictMono hlo hn (Nat.lt_succ_self i)
  have h0 := logspace_pos lo 0 n i
  rw [logspace_ratio lo n (i + 1)]
  rw [logspace_ratio lo n i] at h1 ⊢
  have hr : (1 : ℝ) < 10 ^ (-lo / ((n : ℝ) - 1)) := by
    by_contra hc
    nlinarith
  nlinarith [mul_pos h0 (mul_pos (sub_pos.mpr hr) (sub_pos.mpr hr))]

/-- In the empty universe the distance table is equally spaced. -/
theorem milne_chi_step (hp : Milne p) (lo : ℝ) {n i : ℕ} (hi : i + 1 < n) :
    (chiTable p lo n).chi i - (chiTable p lo n).chi (i + 1)
      = const_rh * (-lo / ((n : ℝ) - 1) * Real.log 10) := by
  rw [milne_chi hp lo (by omega) hi, milne_chi hp lo (by omega) (by omega), ← log_logspace_step lo (n := n) i]
  ring

/-- C07 at the first node: in the empty universe with three table points or more, the distance
returned at the smallest tabulated scale factor is strictly less than `-R_H ln a`. -/
theorem C07_first_node (hp : Milne p) (hlo : lo < 0) (hn : 3 ≤ n) :
    readChi (chiTable p lo n) (logspace lo 0 n 0) < -const_rh * Real.log (logspace lo 0 n 0) := by
  have hx := logspace_increasing hlo (by omega : 2 ≤ n)
  have hd := chiTable_decreasing p hlo (by omega : 2 ≤ n) (milne_EsqrPos hp)
  rw [← milne_chi hp lo (by omega) (by omega)]
  have h0 : 0 < (chiTable p lo n).chi 0 := by
    rw [← chiTable_last p lo n]; exact hd 0 (n - 1) (by omega) (by omega)
  refine max_lt ?_ h0
  rw [chiTable_a, chiTable_n, C19_first_segment hn hx _ (hx 0 1 (by omega) (by omega)).le, chord]
  have e1 := milne_chi_step hp lo (n := n) (i := 0) (by omega)
  have e2 := milne_chi_step hp lo (n := n) (i := 1) (by omega)
  have hgap := logspace_gap hlo (by omega : 2 ≤ n) 0
  have h12 := hd 1 2 (by omega) (by omega)
  simp only [zero_add] at *
  have hpos : 0 < logspace lo 0 n 2 - logspace lo 0 n 1 :=
    sub_pos.mpr (hx 1 2 (by omega) (by omega))
  have hq : (logspace lo 0 n 1 - logspace lo 0 n 0) / (logspace lo 0 n 2 - logspace lo 0 n 1) < 1 :=
    (div_lt_one hpos).mpr hgap
  have : (logspace lo 0 n 0 - logspace lo 0 n 1) / (logspace lo 0 n 2 - logspace lo 0 n 1)
      = -((logspace lo 0 n 1 - logspace lo 0 n 0) / (logspace lo 0 n 2 - logspace lo 0 n 1)) := by
    ring
  rw [this]
  nlinarith

/-- C07 as stated is false: at the first node of the default table. -/
theorem C07_refuted : ¬ ∀ (p : Params) (i : ℕ), EsqrPos p → i < 256 →
    simps (fun x => const_rh * Real.exp (-x) / Real.sqrt (Esqr p (Real.exp x)))
      (Real.log (logspace (-3) 0 256 i)) 0 (2 * (256 - 1 - i))
      = .ok (readChi (chiTable p (-3) 256) (logspace (-3) 0 256 i)) := by
  intro h
  have h1 := h milneParams 0 (milne_EsqrPos milneParams_milne) (by norm_num)
  have h2 := C07_first_node milneParams_milne (lo := -3) (n := 256) (by norm_num) (by norm_num)
  rw [← milne_chi milneParams_milne (-3) (by norm_num) (by norm_num),
    ← chiTable_simps milneParams (-3) (by norm_num)] at h2
  rw [simps, if_neg (by norm_num), ← funext (chiRate_eq milneParams)] at h1
  have h3 := Except.ok.inj h1
  exact absurd h3 h2.ne'

/-! ## C08 -/

/-- C08 where the code gets it right: in the upper half of every table segment `[aⱼ, aⱼ₊₁]`,
`1 ≤ j ≤ n - 4`, and on the whole last segment. Missing: the lower halves, where the claim is
false (`C08_refuted`), and the first segment. -/
theorem C08_partial (hlo : lo < 0) (hn : 4 ≤ n) (hE : EsqrPos p) {a : ℝ} {j : ℕ} (hj1 : 1 ≤ j)
    (hj : j + 1 < n) (hl : logspace lo 0 n j ≤ a) (hr : a ≤ logspace lo 0 n (j + 1))
    (h : j + 2 = n ∨ (j + 3 < n ∧ logspace lo 0 n (j + 1) - a < a - logspace lo 0 n j)) :
    readAOfChi (chiTable p lo n) (readChi (chiTable p lo n) a) = a := by
  have hx := logspace_increasing hlo (by omega : 2 ≤ n)
  have hd := chiTable_decreasing p hlo (by omega : 2 ≤ n) hE
  have hc := hd j (j + 1) (by omega) hj
  have ha := hx j (j + 1) (by omega) hj
  have h0 : 0 ≤ (chiTable p lo n).chi (j + 1) := by
    rw [← chiTable_last p lo n]; exact hd.le (by omega) (by omega)
  obtain ⟨t, ht⟩ : ∃ t, (a - logspace lo 0 n j) / (logspace lo 0 n (j + 1) - logspace lo 0 n j) = t :=
    ⟨_, rfl⟩
  have hpos : 0 < logspace lo 0 n (j + 1) - logspace lo 0 n j := by linarith
  have hat : a = logspace lo 0 n j + t * (logspace lo 0 n (j + 1) - logspace lo 0 n j) := by
    rw [← ht]; field_simp; ring
  have ht0 : 0 ≤ t := by rw [← ht]; exact div_nonneg (by linarith) hpos.le
  have ht1 : t ≤ 1 := by rw [← ht, div_le_one hpos]; linarith
  have hread : readChi (chiTable p lo n) a = (chiTable p lo n).chi j
      + ((chiTable p lo n).chi (j + 1) - (chiTable p lo n).chi j) * t := by
    rw [readChi, chiTable_a, chiTable_n, interp_inc_seg (by omega) hx _ hj1 hj (Or.inr hl)
      (Or.inr hr), chord, ht, clipLo]
    exact max_eq_left (by nlinarith)
  rw [hread, readAOfChi, chiTable_a, chiTable_n, interp_dec_seg hn hd _ hj (by nlinarith)
    (by nlinarith), chord]
  · have hne : (chiTable p lo n).chi (j + 1) - (chiTable p lo n).chi j ≠ 0 := by linarith
    rw [add_sub_cancel_left, mul_div_cancel_left₀ _ hne, hat]
    ring
  · rcases h with h | ⟨h, h'⟩
    · exact Or.inr (Or.inl h)
    · refine Or.inr (Or.inr ⟨h, ?_⟩)
      have : 1 < 2 * t := by
        by_contra hc'
        nlinarith
      nlinarith

/-- C08 at the nodes: `a_of_chi` inverts the distance at every tabulated scale factor but the
first. -/
theorem C08_nodes_partial (hlo : lo < 0) (hn : 4 ≤ n) (hE : EsqrPos p) {i : ℕ} (hi : 1 ≤ i)
    (hin : i < n) :
    readAOfChi (chiTable p lo n) (readChi (chiTable p lo n) (logspace lo 0 n i))
      = logspace lo 0 n i := by
  rw [readChi_node hlo (by omega) hE (Or.inl hi) hin, readAOfChi, chiTable_n,
    C20_nodes hn (chiTable_decreasing p hlo (by omega) hE) _ hin, chiTable_a]

/-- C08 as stated is false: in the empty universe with the default table, a quarter of the way
into a table segment. -/
theorem C08_refuted : ¬ ∀ (p : Params) (a : ℝ), EsqrPos p → logspace (-3) 0 256 0 ≤ a → a ≤ 1 →
    aOf p (chiOf p a) = a := by
  intro h
  have hlo : (-3 : ℝ) < 0 := by norm_num
  have hx := logspace_increasing hlo (by norm_num : 2 ≤ 256)
  have hp := milneParams_milne
  have hE := milne_EsqrPos hp
  have hd := chiTable_decreasing milneParams hlo (by norm_num : 2 ≤ 256) hE
  have h12 := hx 1 2 (by norm_num) (by norm_num)
  have h23 := hx 2 3 (by norm_num) (by norm_num)
  have h02 := hx 0 2 (by norm_num) (by norm_num)
  have h3 : logspace (-3) 0 256 3 ≤ 1 := by
    rw [← logspace_end (-3) (by norm_num : 2 ≤ 256)]
    exact hx.le (by norm_num) (by norm_num)
  have hgap := logspace_gap hlo (by norm_num : 2 ≤ 256) 1
  have e1 := milne_chi_step hp (-3) (n := 256) (i := 1) (by norm_num)
  have e2 := milne_chi_step hp (-3) (n := 256) (i := 2) (by norm_num)
  have c12 := hd 1 2 (by norm_num) (by norm_num)
  have c23 := hd 2 3 (by norm_num) (by norm_num)
  have c3 : 0 ≤ (chiTable milneParams (-3) 256).chi 3 := by
    rw [← chiTable_last milneParams (-3) 256]; exact hd.le (by norm_num) (by norm_num)
  simp only [Nat.reduceAdd] at *
  have := h milneParams (logspace (-3) 0 256 2
    + (logspace (-3) 0 256 3 - logspace (-3) 0 256 2) / 4) hE (by linarith) (by linarith)
  have hread : chiOf milneParams (logspace (-3) 0 256 2
      + (logspace (-3) 0 256 3 - logspace (-3) 0 256 2) / 4)
      = (chiTable milneParams (-3) 256).chi 2 + ((chiTable milneParams (-3) 256).chi 3
        - (chiTable milneParams (-3) 256).chi 2) / 4 := by
    rw [chiOf, readChi, chiTable_a, chiTable_n, interp_inc_seg (by norm_num) hx _ (j := 2)
      (by norm_num) (by norm_num) (Or.inr (by linarith)) (Or.inr (by simp only [Nat.reduceAdd]; linarith)), chord, clipLo]
    simp only [Nat.reduceAdd]
    have : logspace (-3) 0 256 3 - logspace (-3) 0 256 2 ≠ 0 := by linarith
    rw [add_sub_cancel_left, div_div_cancel_left' this]
    rw [max_eq_left] <;> nlinarith
  rw [hread, aOf, readAOfChi, chiTable_a, chiTable_n, C20_wrong_segment hd _ (j := 2)
    (by norm_num) (by norm_num) (by simp only [Nat.reduceAdd]; linarith) (by linarith)
    (by simp only [Nat.reduceAdd]; linarith), chord] at this
  simp only [Nat.reduceSub, Nat.reduceAdd] at this
  have hq : ((chiTable milneParams (-3) 256).chi 2 + ((chiTable milneParams (-3) 256).chi 3
      - (chiTable milneParams (-3) 256).chi 2) / 4 - (chiTable milneParams (-3) 256).chi 1)
      / ((chiTable milneParams (-3) 256).chi 2 - (chiTable milneParams (-3) 256).chi 1) = 5 / 4 := by
    rw [div_eq_iff (by linarith)]
    linarith
  rw [hq] at this
  linarith

/-! ## C09 -/

theorem transverseOf_flat (p : Params) (h : p.Omega_k = 0) (chi : ℝ) : transverseOf p chi = chi := by
  have hk : p.k = 0 := by simp [Params.k, sgn, h]
  simp [transverseOf, hk, iclip]

theorem transverseOf_open (p : Params) (h : 0 < p.Omega_k) (chi : ℝ) : transverseOf p chi
    = const_rh / Real.sqrt p.Omega_k * Real.sinh (Real.sqrt p.Omega_k * chi / const_rh) := by
  have hk : p.k = -1 := by simp [Params.k, sgn, not_lt.mpr h.le, h.ne']
  simp [transverseOf, hk, iclip, Params.sqrtk, abs_of_pos h]

theorem transverseOf_closed (p : Params) (h : p.Omega_k < 0) (chi : ℝ) : transverseOf p chi
    = const_rh / Real.sqrt (-p.Omega_k) * Real.sin (Real.sqrt (-p.Omega_k) * chi / const_rh) := by
  have hk : p.k = 1 := by simp [Params.k, sgn, h]
  simp [transverseOf, hk, iclip, Params.sqrtk, abs_of_neg h]

/-- The transverse distance call applies the curvature branch to the radial distance. -/
theorem C09_call (p : Params) (as : List ℝ) :
    (transverseComovingDistance (Cosmology.init p) (.vec as)).2
      = .ok (as.map fun a => transverseOf p (chiOf p a)) := by
  simp only [transverseComovingDistance, radialComovingDistance, ensureChi, Cosmology.init,
    ArrayLike.atleast1d, vmap1, Except.map, List.map_map]
  rfl

/-- C09: in a flat universe the transverse distance is the radial one. -/
theorem C09_flat (p : Params) (h : p.Omega_k = 0) (as : List ℝ) :
    (transverseComovingDistance (Cosmology.init p) (.vec as)).2
      = (radialComovingDistance (Cosmology.init p) (.vec as)).2 := by
  rw [C09_call, (C06_call p as (-3) 256).1]
  congr 1
  exact List.map_congr_left fun a _ => transverseOf_flat p h _

/-- C09: open universe, `R_H/√Ω_k · sinh(√Ω_k χ/R_H)`, never below `χ`. -/
theorem C09_open (p : Params) (h : 0 < p.Omega_k) (chi : ℝ) (hc : 0 ≤ chi) :
    transverseOf p chi = const_rh / Real.sqrt p.Omega_k *
      Real.sinh (Real.sqrt p.Omega_k * chi / const_rh) ∧ chi ≤ transverseOf p chi := by
  have e := transverseOf_open p h chi
  refine ⟨e, ?_⟩
  have hs := Real.sqrt_pos.mpr h
  have hr : 0 < const_rh := by norm_num [const_rh]
  rw [e]
  have h1 := Real.self_le_sinh_iff.mpr (by positivity : 0 ≤ Real.sqrt p.Omega_k * chi / const_rh)
  calc chi = const_rh / Real.sqrt p.Omega_k * (Real.sqrt p.Omega_k * chi / const_rh) := by
        field_simp
    _ ≤ _ := mul_le_mul_of_nonneg_left h1 (by positivity)

/-- C09: closed universe, `R_H/√|Ω_k| · sin(√|Ω_k| χ/R_H)`, never above `χ`. -/
theorem C09_closed (p : Params) (h : p.Omega_k < 0) (chi : ℝ) (hc : 0 ≤ chi) :
    transverseOf p chi = const_rh / Real.sqrt |p.Omega_k| *
      Real.sin (Real.sqrt |p.Omega_k| * chi / const_rh) ∧ transverseOf p chi ≤ chi := by
  have e := transverseOf_closed p h chi
  refine ⟨by rw [abs_of_neg h, e], ?_⟩
  have hs := Real.sqrt_pos.mpr (neg_pos.mpr h)
  have hr : 0 < const_rh := by norm_num [const_rh]
  rw [e]
  have h1 := Real.sin_le (by positivity : 0 ≤ Real.sqrt (-p.Omega_k) * chi / const_rh)
  calc _ ≤ const_rh / Real.sqrt (-p.Omega_k) * (Real.sqrt (-p.Omega_k) * chi / const_rh) :=
        mul_le_mul_of_nonneg_left h1 (by positivity)
    _ = chi := by field_simp

/-- C09: continuity at zero curvature, at fixed radial distance. -/
theorem C09_limit (p : Params) (chi : ℝ) :
    Filter.Tendsto (fun ok => transverseOf { p with Omega_k := ok } chi) (nhds 0) (nhds chi) := by
  have hr : 0 < const_rh := by norm_num [const_rh]
  -- one function of `s = √|Ω_k|` for each branch
  have key : ∀ (g : ℝ → ℝ), HasDerivAt g 1 0 → g 0 = 0 → Filter.Tendsto
      (fun s : ℝ => const_rh / s * g (s * chi / const_rh)) (nhdsWithin 0 {0}ᶜ) (nhds chi) := by
    intro g hg hg0
    have hlin : HasDerivAt (fun s : ℝ => s * chi / const_rh) (chi / const_rh) 0 := by
      have := ((hasDerivAt_id' (0 : ℝ)).mul_const (chi / const_rh))
      rw [one_mul] at this
      refine this.congr_of_eventuallyEq (Filter.Eventually.of_forall fun s => ?_)
      ring
    have hcomp : HasDerivAt (fun s : ℝ => g (s * chi / const_rh)) (1 * (chi / const_rh)) 0 := by
      refine HasDerivAt.comp (0 : ℝ) (h₂ := g) ?_ hlin
      rw [zero_mul, zero_div]; exact hg
    have hs := (hasDerivAt_iff_tendsto_slope.mp hcomp).const_mul const_rh
    rw [one_mul, mul_div_cancel₀ _ hr.ne'] at hs
    refine hs.congr' ?_
    refine Filter.eventually_of_mem self_mem_nhdsWithin fun s hs0 => ?_
    beta_reduce
    rw [slope_def_field, zero_mul, zero_div, hg0, sub_zero, sub_zero]
    ring
  have hsin := key Real.sin (by simpa using Real.hasDerivAt_sin 0) Real.sin_zero
  have hsinh := key Real.sinh (by simpa using Real.hasDerivAt_sinh 0) Real.sinh_zero
  have hsqrt : Filter.Tendsto (fun ok : ℝ => Real.sqrt |ok|) (nhdsWithin 0 {0}ᶜ)
      (nhdsWithin 0 {0}ᶜ) := by
    apply tendsto_nhdsWithin_of_tendsto_nhds_of_eventually_within
    · have : Continuous fun ok : ℝ => Real.sqrt |ok| := by fun_prop
      have h0 := this.tendsto 0
      simp only [abs_zero, Real.sqrt_zero] at h0
      exact h0.mono_left nhdsWithin_le_nhds
    · refine Filter.eventually_of_mem self_mem_nhdsWithin fun ok hok => ?_
      exact (Real.sqrt_pos.mpr (abs_pos.mpr hok)).ne'
  rw [← nhdsNE_sup_pure, Filter.tendsto_sup]
  constructor
  · have h1 := hsin.comp hsqrt
    have h2 := hsinh.comp hsqrt
    rw [Metric.tendsto_nhds] at *
    intro ε hε
    filter_upwards [h1 ε hε, h2 ε hε, self_mem_nhdsWithin] with ok a1 a2 hok
    rcases lt_or_gt_of_ne hok with hneg | hpos
    · rw [transverseOf_closed _ hneg]
      simpa [abs_of_neg hneg] using a1
    · rw [transverseOf_open _ hpos]
      simpa [abs_of_pos hpos] using a2
  · rw [Filter.tendsto_pure_left]
    intro s hs
    rw [transverseOf_flat _ rfl]
    exact mem_of_mem_nhds hs

/-- C09: the angular diameter distance is `a` times the transverse distance. -/
theorem C09_angular (p : Params) (as : List ℝ) :
    (angularDiameterDistance (Cosmology.init p) (.vec as)).2
      = .ok (as.map fun a => a * transverseOf p (chiOf p a)) ∧
    ∀ a, (angularDiameterDistance (Cosmology.init p) (.scalar a)).2
      = .ok [a * transverseOf p (chiOf p a)] := by
  constructor
  · simp only [angularDiameterDistance, transverseComovingDistance, radialComovingDistance,
      ensureChi, Cosmology.init, ArrayLike.atleast1d, vmap1, Except.map, List.map_map]
    congr 1
    induction as with
    | nil => rfl
    | cons a as ih => simp only [List.map_cons, List.zipWith_cons_cons, ih]; rfl
  · intro a; rfl

/-- A non-trivial instance: `Ω_k = 1/10` does not shrink the distance, `Ω_k = -1/10` does not enlarge
it. -/
example (chi : ℝ) (h : 0 < chi) :
    chi ≤ transverseOf { Planck15 with Omega_k := 1 / 10 } chi ∧
      transverseOf { Planck15 with Omega_k := -1 / 10 } chi ≤ chi :=
  ⟨(C09_open _ (by norm_num) chi h.le).2, (C09_closed _ (by norm_num) chi h.le).2⟩

end JaxCosmo
