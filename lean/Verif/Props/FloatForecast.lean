import Verif.Model.FloatForecast
import Verif.Props.FloatLikelihood
import Verif.Props.FloatProbes

/-! # C170: a forecast for one tracer in floating point -/

namespace JaxCosmo
open Spec

variable {A : Rounding} {S : ℕ → LimberInput} {noise ell data : ℕ → ℝ} {zmax f_sky : ℝ} {t : ℕ → SumTree} {s : SumTree} {n d : ℕ}

/-- Number of modes in the band around entry `l`. -/
noncomputable def modes (n : ℕ) (ell : ℕ → ℝ) (f_sky : ℝ) (l : ℕ) : ℝ :=
  (2 * ell l + 1) * (if l = 0 then ell 1 - ell 0 else if l = n - 1 then ell (n - 1) - ell (n - 2)
    else (ell (l + 1) - ell (l - 1)) / 2) * f_sky

/-- The spectrum without rounding, from the same numbers at the nodes. -/
noncomputable def signal (A : Rounding) (S : ℕ → LimberInput) (zmax : ℝ) (l : ℕ) : ℝ :=
  exactCl (S l) (z2aF A zmax) ((S l).kernel 0) ((S l).kernel 0)

/-- Variance of a measured spectrum of a Gaussian field. -/
noncomputable def variance (C N ν : ℝ) : ℝ := 2 * (C + N) ^ 2 / ν

/-- C170: for one tracer the covariance has one block, and with exact operations the norm is that of the exact model. -/
theorem C170_exact {probes : List Probe} (hp : nTracers probes = 1) (obs : ℕ → ℝ) (m : ℕ) (norm : ℕ → ℝ) :
    covBlockDiagF A probes [(List.range m).map obs] norm
      = .ok [fun l => if l < m then oneCovF A obs norm l else A.div (A.add (A.mul 0 0) (A.mul 0 0)) (norm l)] ∧
    ∀ ells : List ℝ, 2 ≤ ells.length → covNorm ells f_sky = .ok (covNormF exactArith ells.length (fun i => ells.getD i 0) f_sky) ∧
      covNorm ells f_sky = .ok (modes ells.length (fun i => ells.getD i 0) f_sky) := by
  constructor
  · have hb : getCovBlocksOrdering probes = .ok [(0, 0, 0, 0)] := by
      rw [getCovBlocksOrdering, getClOrdering, hp]; rfl
    simp only [covBlockDiagF, hb, bind, Except.bind, pure, Except.pure, List.map_cons, List.map_nil]
    congr 2
    funext l
    have hr : rowAt [(List.range m).map obs] 0 l = if l < m then obs l else 0 := by
      simp only [rowAt, List.getD_eq_getElem?_getD, List.getElem?_cons_zero, Option.getD_some, List.getElem?_map]
      split_ifs with h
      · simp [List.getElem?_range h]
      · simp [List.getElem?_eq_none (l := List.range m) (i := l) (by simpa using h)]
    rw [hr]
    split_ifs <;> rfl
  · intro ells h
    have h1 : covNorm ells f_sky = .ok (modes ells.length (fun i => ells.getD i 0) f_sky) := by
      simp only [covNorm, gradient, if_neg (by omega : ¬ ells.length < 2), bind, Except.bind, pure, Except.pure]
      rfl
    exact ⟨h1, h1⟩

theorem Near.div_near {k j : ℕ} {M y x c c' : ℝ} (h : Near A.u k M y x) (hc : 0 < c) (h' : Near A.u j c c' c)
    (hg : (1 + A.u) ^ j ≤ 3 / 2) : Near A.u (k + 2 * j) (M / c) (y / c') (x / c) := by
  have g := one_le_growth (A := A) j
  have h1 := abs_le.1 h'.1
  have hl : c / 2 ≤ c' := by
    have := mul_le_mul_of_nonneg_right hg hc.le
    linarith
  have c0 : 0 < c' := by linarith
  have hr : Near A.u (2 * j) 1 (c / c') 1 := by
    refine ⟨?_, by simp⟩
    rw [div_sub_one c0.ne', abs_div, abs_of_pos c0, div_le_iff₀ c0, abs_sub_comm, mul_one, mul_comm 2 j, pow_mul]
    refine h'.1.trans ?_
    have h2 : 2 * ((1 + A.u) ^ j - 1) ≤ ((1 + A.u) ^ j) ^ 2 - 1 := by nlinarith [sq_nonneg ((1 + A.u) ^ j - 1)]
    have h3 : ((1 + A.u) ^ j - 1) * c ≤ 2 * ((1 + A.u) ^ j - 1) * c' := by
      have := mul_le_mul_of_nonneg_left hl (by linarith : 0 ≤ 2 * ((1 + A.u) ^ j - 1))
      linarith
    exact h3.trans (mul_le_mul_of_nonneg_right h2 c0.le)
  have := (h.quot c).prod hr
  rw [abs_of_pos hc, mul_one, mul_one] at this
  have e : y / c * (c / c') = y / c' := by field_simp
  rw [e] at this
  exact this

/-- Increasing multipoles that start at zero or later. -/
structure Band (n : ℕ) (ell : ℕ → ℝ) : Prop where
  two : 2 ≤ n
  first : 0 ≤ ell 0
  step : ∀ i, i + 1 < n → ell i < ell (i + 1)

theorem Band.nonneg (h : Band n ell) {l : ℕ} (hl : l < n) : 0 ≤ ell l := by
  induction l with
  | zero => exact h.first
  | succ l ih => exact (ih (by omega)).trans (h.step l hl).le

theorem Band.width (h : Band n ell) {l : ℕ} (hl : l < n) :
    0 < (if l = 0 then ell 1 - ell 0 else if l = n - 1 then ell (n - 1) - ell (n - 2) else (ell (l + 1) - ell (l - 1)) / 2) := by
  have h2 := h.two
  split_ifs with h0 h1
  · linarith [h.step 0 (by omega)]
  · have := h.step (n - 2) (by omega)
    rw [show n - 2 + 1 = n - 1 by omega] at this
    linarith
  · have a := h.step l (by omega)
    have b := h.step (l - 1) (by omega)
    rw [show l - 1 + 1 = l by omega] at b
    linarith

theorem modes_pos (h : Band n ell) (hf : 0 < f_sky) {l : ℕ} (hl : l < n) : 0 < modes n ell f_sky l :=
  mul_pos (mul_pos (by linarith [h.nonneg hl]) (h.width hl)) hf

theorem norm_near (h : Band n ell) (hf : 0 < f_sky) {l : ℕ} (hl : l < n) :
    Near A.u 6 (modes n ell f_sky l) (covNormF A n ell f_sky l) (modes n ell f_sky l) := by
  have hg : Near A.u 2 (if l = 0 then ell 1 - ell 0 else if l = n - 1 then ell (n - 1) - ell (n - 2)
      else (ell (l + 1) - ell (l - 1)) / 2) (gradientF A n ell l) (if l = 0 then ell 1 - ell 0
      else if l = n - 1 then ell (n - 1) - ell (n - 2) else (ell (l + 1) - ell (l - 1)) / 2) := by
    have w := h.width hl
    rw [gradientF]
    split_ifs with h0 h1
    · rw [if_pos h0] at w
      have := ((Near.self (A := A) (ell 1 - ell 0)).rd).mono (by norm_num : _ ≤ 2)
      rwa [abs_of_pos w] at this
    · rw [if_neg h0, if_pos h1] at w
      have := ((Near.self (A := A) (ell (n - 1) - ell (n - 2))).rd).mono (by norm_num : _ ≤ 2)
      rwa [abs_of_pos w] at this
    · rw [if_neg h0, if_neg h1] at w
      have := (Near.self (A := A) (ell (l + 1) - ell (l - 1))).rd.div 2
      rwa [abs_of_pos (by linarith), abs_of_pos (by norm_num : (0 : ℝ) < 2)] at this
  have h0 := h.nonneg hl
  have a1 := (Near.self (A := A) 2).mul (Near.self (A := A) (ell l))
  have a2 := a1.add ((Near.self (A := A) 1).mono (by norm_num : 0 ≤ 1))
  rw [abs_of_pos (by norm_num : (0 : ℝ) < 2), abs_of_nonneg h0, abs_one] at a2
  have := (a2.mul hg).mul (Near.self (A := A) f_sky)
  rw [abs_of_pos hf] at this
  exact this.mono (by norm_num)

/-- What is assumed of the inputs. -/
structure Survey (S : ℕ → LimberInput) (noise : ℕ → ℝ) (zmax : ℝ) (t : ℕ → SumTree) (d n : ℕ) (ell : ℕ → ℝ) (f_sky : ℝ) : Prop where
  power : ∀ l k, 0 ≤ (S l).pk k
  element : ∀ l k, 0 ≤ (S l).dchi k
  depth : 0 ≤ zmax
  noisy : 0 < noise 0
  noise_nonneg : ∀ i, 0 ≤ noise i
  order : ∀ l, (t l).leaves.Perm (List.range 256)
  order_depth : ∀ l, (t l).depth ≤ d
  band : Band n ell
  sky : 0 < f_sky

theorem signal_nonneg (h : Survey S noise zmax t d n ell f_sky) (l : ℕ) : 0 ≤ signal A S zmax l := by
  obtain ⟨s, w, x, hw, hs⟩ := exactCl_weights (h.power l) (h.element l) (end_range (A := A) h.depth).2
  rw [signal, hs]
  exact Finset.sum_nonneg fun k _ => mul_nonneg (hw k) (mul_self_nonneg _)

/-- C170: the mean is right to a fraction of its standard deviation that grows with the square root of the number of modes. -/
theorem C170_mean (h : Survey S noise zmax t d n ell f_sky) {l : ℕ} (hl : l < n) :
    (forecastMeanF A S zmax t l - signal A S zmax l) ^ 2 ≤ ((1 + A.u) ^ (d + 16) - 1) ^ 2 * (modes n ell f_sky l / 2)
      * variance (signal A S zmax l) (noise 0) (modes n ell f_sky l) := by
  have hC := signal_nonneg (A := A) h l
  have hN := h.noisy
  have hm := modes_pos h.band h.sky hl
  have h1 := C168_relative (A := A) (h.power l) (h.element l) h.depth (h.order l) (i := 0) (j := 0) fun k => mul_self_nonneg _
  have g := one_le_growth (A := A) (d + 16)
  have h2 : |forecastMeanF A S zmax t l - signal A S zmax l| ≤ ((1 + A.u) ^ (d + 16) - 1) * (signal A S zmax l + noise 0) := by
    refine h1.trans (mul_le_mul ?_ (by rw [signal]; linarith) hC (by linarith))
    have := pow_le_pow_right₀ (by linarith [A.u_nonneg] : 1 ≤ 1 + A.u) (by have := h.order_depth l; omega : (t l).depth + 16 ≤ d + 16)
    linarith
  have h3 := pow_le_pow_left₀ (abs_nonneg _) h2 2
  rw [sq_abs] at h3
  refine h3.trans (le_of_eq ?_)
  rw [variance]
  field_simp

/-- C170: the variance has a small relative error. -/
theorem C170_variance (h : Survey S noise zmax t d n ell f_sky) (hg : (1 + A.u) ^ 6 ≤ 3 / 2) {l : ℕ} (hl : l < n) :
    Near A.u (2 * d + 49) (variance (signal A S zmax l) (noise 0) (modes n ell f_sky l))
      (forecastCovF A S noise zmax t n ell f_sky l) (variance (signal A S zmax l) (noise 0) (modes n ell f_sky l)) := by
  have ho := obs_near (A := A) (h.power l) (h.element l) h.depth (h.order l) h.noise_nonneg (h.order_depth l) 0 0
  have e : exactCl (S l) (z2aF A zmax) (fun k => |(S l).kernel 0 k|) (fun k => |(S l).kernel 0 k|) = signal A S zmax l := by
    simp only [signal, exactCl, abs_mul_abs_self]
  rw [e, if_pos rfl] at ho
  have hs := ((ho.mul ho).add (ho.mul ho)).div_near (modes_pos h.band h.sky hl) (norm_near (A := A) h.band h.sky hl) hg
  have hr := hs.rd.mono (by omega : _ ≤ 2 * d + 49)
  have e2 : ((signal A S zmax l + noise 0) * (signal A S zmax l + noise 0)
      + (signal A S zmax l + noise 0) * (signal A S zmax l + noise 0)) / modes n ell f_sky l
      = variance (signal A S zmax l) (noise 0) (modes n ell f_sky l) := by rw [variance]; ring
  rw [signal] at e2 hr ⊢
  rw [e2] at hr
  exact hr

/-- What the fit would be without rounding. -/
noncomputable def forecastChi2 (A : Rounding) (S : ℕ → LimberInput) (noise : ℕ → ℝ) (zmax : ℝ) (n : ℕ) (ell : ℕ → ℝ)
    (f_sky : ℝ) (data : ℕ → ℝ) : ℝ :=
  chiSum (List.range n) data (signal A S zmax) fun l => variance (signal A S zmax l) (noise 0) (modes n ell f_sky l)

/-- All modes of the survey. -/
noncomputable def allModes (n : ℕ) (ell : ℕ → ℝ) (f_sky : ℝ) : ℝ := ((List.range n).map (modes n ell f_sky)).sum

theorem variance_pos (h : Survey S noise zmax t d n ell f_sky) {l : ℕ} (hl : l < n) :
    0 < variance (signal A S zmax l) (noise 0) (modes n ell f_sky l) := by
  have := signal_nonneg (A := A) h l
  have := h.noisy
  have := modes_pos h.band h.sky hl
  rw [variance]; positivity

theorem Near.trans_rel {k j : ℕ} {y x w : ℝ} (h : Near A.u k x y x) (h' : Near A.u j w x w) : Near A.u (k + j) w y w := by
  refine ⟨?_, h'.2⟩
  have g := one_le_growth (A := A) k
  have h1 := abs_le.1 h.1
  have h2 := abs_le.1 h'.1
  rw [pow_add]
  have h3 : ((1 + A.u) ^ k - 1) * x ≤ ((1 + A.u) ^ k - 1) * ((1 + A.u) ^ j * w) :=
    mul_le_mul_of_nonneg_left (by linarith) (by linarith)
  rw [abs_le]
  constructor <;> nlinarith

theorem Near.sum_rel {k : ℕ} (is : List ℕ) {x y : ℕ → ℝ} (h : ∀ i ∈ is, Near A.u k (x i) (y i) (x i)) :
    Near A.u k (is.map x).sum (is.map y).sum (is.map x).sum := by
  induction is with
  | nil => simp [Near]
  | cons a is ih =>
    simp only [List.map_cons, List.sum_cons]
    exact (h a (by simp)).sum (ih fun i hi => h i (by simp [hi]))

theorem chiSum_perm {is js : List ℕ} (h : is.Perm js) (data mu C : ℕ → ℝ) : chiSum is data mu C = chiSum js data mu C :=
  (h.map _).sum_eq

theorem list_sum_le {is : List ℕ} {x y : ℕ → ℝ} (h : ∀ i ∈ is, x i ≤ y i) : (is.map x).sum ≤ (is.map y).sum :=
  List.sum_le_sum h

/-- The computed fit against the one with the computed mean and the exact variance. -/
theorem fit_near (h : Survey S noise zmax t d n ell f_sky) (hs : s.leaves.Perm (List.range n))
    (hg : (1 + A.u) ^ (2 * d + 49) ≤ 3 / 2) :
    Near A.u (5 + s.depth + 2 * (2 * d + 49)) (chiSum (List.range n) data (forecastMeanF A S zmax t)
        fun l => variance (signal A S zmax l) (noise 0) (modes n ell f_sky l))
      (forecastChi2F A S noise zmax t n ell f_sky s data) (chiSum (List.range n) data (forecastMeanF A S zmax t)
        fun l => variance (signal A S zmax l) (noise 0) (modes n ell f_sky l)) := by
  have h6 : (1 + A.u) ^ 6 ≤ 3 / 2 :=
    (pow_le_pow_right₀ (by linarith [A.u_nonneg] : 1 ≤ 1 + A.u) (by omega : 6 ≤ 2 * d + 49)).trans hg
  have hv : ∀ l < n, Near A.u (2 * d + 49) _ _ _ := fun l hl => C170_variance (A := A) h h6 hl
  have hC : ∀ l ∈ s.leaves, 0 < forecastCovF A S noise zmax t n ell f_sky l := fun l hl => by
    have hl := List.mem_range.1 (hs.mem_iff.1 hl)
    have v := variance_pos (A := A) h hl
    have a := abs_le.1 (hv l hl).1
    have := mul_le_mul_of_nonneg_right hg v.le
    linarith
  refine (chi2F_near (A := A) (data := data) (mu := forecastMeanF A S zmax t) hC).trans_rel ?_
  rw [chiSum_perm hs]
  refine Near.sum_rel _ fun l hl => ?_
  have hl := List.mem_range.1 hl
  have := (Near.self (A := A) ((forecastMeanF A S zmax t l - data l) ^ 2)).div_near (variance_pos (A := A) h hl) (hv l hl) hg
  rw [abs_of_nonneg (sq_nonneg _), zero_add] at this
  exact this

/-- The error of the mean in units of the standard deviation. -/
theorem mean_share (h : Survey S noise zmax t d n ell f_sky) {l : ℕ} (hl : l < n) :
    (forecastMeanF A S zmax t l - signal A S zmax l) ^ 2 / variance (signal A S zmax l) (noise 0) (modes n ell f_sky l)
      ≤ ((1 + A.u) ^ (d + 16) - 1) ^ 2 / 2 * modes n ell f_sky l := by
  rw [div_le_iff₀ (variance_pos (A := A) h hl)]
  exact (C170_mean h hl).trans (le_of_eq (by ring))

theorem sum_mul_left (is : List ℕ) (c : ℝ) (x : ℕ → ℝ) : (is.map fun i => c * x i).sum = c * (is.map x).sum :=
  List.sum_map_mul_left _ _ _

/-- C170: at the truth the computed `χ²` is not zero, but at most proportional to the number of modes. -/
theorem C170_truth (h : Survey S noise zmax t d n ell f_sky) (hs : s.leaves.Perm (List.range n))
    (hg : (1 + A.u) ^ (2 * d + 49) ≤ 3 / 2) :
    |forecastChi2F A S noise zmax t n ell f_sky s (signal A S zmax)|
      ≤ (1 + A.u) ^ (5 + s.depth + 2 * (2 * d + 49)) * (((1 + A.u) ^ (d + 16) - 1) ^ 2 / 2 * allModes n ell f_sky) := by
  have h1 := (fit_near (A := A) (data := signal A S zmax) h hs hg).1
  set P := chiSum (List.range n) (signal A S zmax) (forecastMeanF A S zmax t)
    fun l => variance (signal A S zmax l) (noise 0) (modes n ell f_sky l) with hP
  have P0 : 0 ≤ P := List.sum_nonneg fun x hx => by
    obtain ⟨i, hi, rfl⟩ := List.mem_map.1 hx
    have := variance_pos (A := A) h (List.mem_range.1 hi)
    positivity
  have h2 : P ≤ ((1 + A.u) ^ (d + 16) - 1) ^ 2 / 2 * allModes n ell f_sky := by
    rw [allModes, ← sum_mul_left]
    exact list_sum_le fun i hi => mean_share (A := A) h (List.mem_range.1 hi)
  have g := one_le_growth (A := A) (5 + s.depth + 2 * (2 * d + 49))
  refine le_trans ?_ (mul_le_mul_of_nonneg_left h2 (by linarith))
  have := abs_le.1 h1
  rw [abs_le]
  constructor <;> nlinarith

/-- C170: for any data the computed `χ²` follows the exact one. -/
theorem C170_chi2 (h : Survey S noise zmax t d n ell f_sky) (hs : s.leaves.Perm (List.range n))
    (hg : (1 + A.u) ^ (2 * d + 49) ≤ 3 / 2) (data : ℕ → ℝ) {η : ℝ} (hη : 0 < η) :
    |forecastChi2F A S noise zmax t n ell f_sky s data - forecastChi2 A S noise zmax n ell f_sky data|
      ≤ ((1 + A.u) ^ (5 + s.depth + 2 * (2 * d + 49)) - 1) * forecastChi2 A S noise zmax n ell f_sky data
        + (1 + A.u) ^ (5 + s.depth + 2 * (2 * d + 49)) * (η * forecastChi2 A S noise zmax n ell f_sky data
          + (1 + 1 / η) * (((1 + A.u) ^ (d + 16) - 1) ^ 2 / 2 * allModes n ell f_sky)) := by
  have h1 := (fit_near (A := A) (data := data) h hs hg).1
  set v := fun l => variance (signal A S zmax l) (noise 0) (modes n ell f_sky l) with hv
  set m := forecastMeanF A S zmax t with hm
  set X := signal A S zmax with hX
  have v0 : ∀ l < n, 0 < v l := fun l hl => variance_pos (A := A) h hl
  have hE : chiSum (List.range n) X m v ≤ ((1 + A.u) ^ (d + 16) - 1) ^ 2 / 2 * allModes n ell f_sky := by
    rw [allModes, ← sum_mul_left]
    exact list_sum_le fun i hi => mean_share (A := A) h (List.mem_range.1 hi)
  set E := ((1 + A.u) ^ (d + 16) - 1) ^ 2 / 2 * allModes n ell f_sky with hEd
  have hQ : forecastChi2 A S noise zmax n ell f_sky data = chiSum (List.range n) data X v := rfl
  rw [hQ]
  set Q := chiSum (List.range n) data X v with hQd
  set P := chiSum (List.range n) data m v with hPd
  have Q0 : 0 ≤ Q := List.sum_nonneg fun x hx => by
    obtain ⟨i, hi, rfl⟩ := List.mem_map.1 hx
    have := v0 i (List.mem_range.1 hi)
    positivity
  have R0 : 0 ≤ chiSum (List.range n) X m v := List.sum_nonneg fun x hx => by
    obtain ⟨i, hi, rfl⟩ := List.mem_map.1 hx
    have := v0 i (List.mem_range.1 hi)
    positivity
  have up : P ≤ (1 + η) * Q + (1 + 1 / η) * chiSum (List.range n) X m v := by
    rw [hPd, hQd, chiSum, chiSum, chiSum, ← sum_mul_left, ← sum_mul_left, ← List.sum_map_add]
    refine list_sum_le fun i hi => ?_
    have c := v0 i (List.mem_range.1 hi)
    rw [← mul_div_assoc, ← mul_div_assoc, ← add_div]
    refine div_le_div_of_nonneg_right ?_ c.le
    have e : (1 + η) * (X i - data i) ^ 2 + (1 + 1 / η) * (m i - X i) ^ 2 - (m i - data i) ^ 2
        = (η * (X i - data i) - (m i - X i)) ^ 2 / η := by field_simp; ring
    have : 0 ≤ (η * (X i - data i) - (m i - X i)) ^ 2 / η := by positivity
    linarith
  have lo : (1 - η) * Q + (1 - 1 / η) * chiSum (List.range n) X m v ≤ P := by
    rw [hPd, hQd, chiSum, chiSum, chiSum, ← sum_mul_left, ← sum_mul_left, ← List.sum_map_add]
    refine list_sum_le fun i hi => ?_
    have c := v0 i (List.mem_range.1 hi)
    rw [← mul_div_assoc, ← mul_div_assoc, ← add_div]
    refine div_le_div_of_nonneg_right ?_ c.le
    have e : (m i - data i) ^ 2 - ((1 - η) * (X i - data i) ^ 2 + (1 - 1 / η) * (m i - X i) ^ 2)
        = (η * (X i - data i) + (m i - X i)) ^ 2 / η := by field_simp; ring
    have : 0 ≤ (η * (X i - data i) + (m i - X i)) ^ 2 / η := by positivity
    linarith
  have g := one_le_growth (A := A) (5 + s.depth + 2 * (2 * d + 49))
  generalize (1 + A.u) ^ (5 + s.depth + 2 * (2 * d + 49)) = G at *
  have hη' : 0 < 1 / η := by positivity
  have hE2 : (1 + 1 / η) * chiSum (List.range n) X m v ≤ (1 + 1 / η) * E := mul_le_mul_of_nonneg_left hE (by positivity)
  have hPQ : |P - Q| ≤ η * Q + (1 + 1 / η) * E := by
    rw [abs_le]
    constructor <;> nlinarith
  have h5 : |forecastChi2F A S noise zmax t n ell f_sky s data - Q| ≤ (G - 1) * P + |P - Q| :=
    (abs_sub_le _ P _).trans (add_le_add h1 le_rfl)
  have h6 := abs_le.1 hPQ
  nlinarith [mul_le_mul_of_nonneg_left h6.2 (by linarith : 0 ≤ G - 1)]

theorem single_growth {j k : ℕ} {c : ℝ} (hj : j ≤ k) (hk : k ≤ 10000 ∧ (k : ℝ) / (2 ^ 24 - k) ≤ c) : (1 + float32.u) ^ j ≤ 1 + c := by
  have hu : (0 : ℝ) ≤ float32.u := by rw [float32_u]; positivity
  have hk' : (k : ℝ) ≤ 10000 := by exact_mod_cast hk.1
  refine (pow_le_pow_right₀ (le_add_of_nonneg_right hu) hj).trans ((growth_le hu ?_).trans ?_)
  · rw [float32_u]; linarith
  · rw [float32_u]
    have h2 := hk.2
    have e : 1 / (1 - (k : ℝ) * (1 / 2 ^ 24)) = 1 + k / (2 ^ 24 - k) := by
      have a : (2 : ℝ) ^ 24 - k ≠ 0 := by linarith
      have b : (1 - (k : ℝ) * (1 / 2 ^ 24)) ≠ 0 := by linarith
      field_simp
      ring
    linarith

theorem single_core {g G M Q T F η : ℝ} (h0 : 1 ≤ g) (h1 : g ≤ 1 + 1.63e-5) (hG : G ≤ 1 + 1.3e-4) (M0 : 0 ≤ M) (Q0 : 0 ≤ Q)
    (hη : 0 < η) (t1 : |T| ≤ G * ((g - 1) ^ 2 / 2 * M))
    (t2 : |F - Q| ≤ (G - 1) * Q + G * (η * Q + (1 + 1 / η) * ((g - 1) ^ 2 / 2 * M))) :
    |T| ≤ 1.4e-10 * M ∧ |F - Q| ≤ (2e-4 + 1.1 * η) * Q + (1 + 1 / η) * (1.4e-10 * M) := by
  have hE : (g - 1) ^ 2 / 2 * M ≤ 1.33e-10 * M := by
    refine mul_le_mul_of_nonneg_right ?_ M0
    have := pow_le_pow_left₀ (sub_nonneg.2 h0) (sub_le_iff_le_add'.2 h1) 2
    norm_num at this ⊢
    linarith
  have E0 : 0 ≤ (g - 1) ^ 2 / 2 * M := by positivity
  generalize (g - 1) ^ 2 / 2 * M = E at *
  have hGE : G * E ≤ 1.4e-10 * M := by
    have := mul_le_mul_of_nonneg_right hG E0
    linarith
  refine ⟨t1.trans hGE, t2.trans ?_⟩
  have a1 := mul_le_mul_of_nonneg_right hG Q0
  have a2 := mul_le_mul_of_nonneg_right hG (mul_nonneg hη.le Q0)
  have a3 := mul_le_mul_of_nonneg_left hGE (by positivity : 0 ≤ 1 + 1 / η)
  have b : 0 ≤ η * Q := mul_nonneg hη.le Q0
  linarith

/-- C170: in single precision, in any order of summation, for up to a thousand multipoles. -/
theorem C170_single (h : Survey S noise zmax t 255 n ell f_sky) (hn : n ≤ 1000) (hs : s.leaves.Perm (List.range n)) (data : ℕ → ℝ)
    {η : ℝ} (hη : 0 < η) :
    |forecastChi2F float32 S noise zmax t n ell f_sky s (signal float32 S zmax)| ≤ 1.4e-10 * allModes n ell f_sky ∧
    |forecastChi2F float32 S noise zmax t n ell f_sky s data - forecastChi2 float32 S noise zmax n ell f_sky data|
      ≤ (2e-4 + 1.1 * η) * forecastChi2 float32 S noise zmax n ell f_sky data + (1 + 1 / η) * (1.4e-10 * allModes n ell f_sky) := by
  have hD : s.depth < n := by
    have := depth_lt_leaves s
    rwa [hs.length_eq, List.length_range] at this
  have hg : (1 + float32.u) ^ (2 * 255 + 49) ≤ 3 / 2 := 
    (single_growth (k := 559) (c := 1 / 2) (by norm_num) (by norm_num)).trans (by norm_num)
  have hG : (1 + float32.u) ^ (5 + s.depth + 2 * (2 * 255 + 49)) ≤ 1 + 1.3e-4 :=
    single_growth (k := 2122) (by omega) (by norm_num)
  have h1 : (1 + float32.u) ^ (255 + 16) ≤ 1 + 1.63e-5 := single_growth (k := 271) (by norm_num) (by norm_num)
  have h0 := one_le_growth (A := float32) (255 + 16)
  have M0 : 0 ≤ allModes n ell f_sky := List.sum_nonneg fun x hx => by
    obtain ⟨i, hi, rfl⟩ := List.mem_map.1 hx
    exact (modes_pos h.band h.sky (List.mem_range.1 hi)).le
  have Q0 : 0 ≤ forecastChi2 float32 S noise zmax n ell f_sky data := List.sum_nonneg fun x hx => by
    obtain ⟨i, hi, rfl⟩ := List.mem_map.1 hx
    exact div_nonneg (sq_nonneg _) (variance_pos (A := float32) h (List.mem_range.1 hi)).le
  exact single_core h0 h1 hG M0 Q0 hη (C170_truth (A := float32) h hs hg) (C170_chi2 (A := float32) h hs hg data hη)

theorem demo_survey : Survey (fun _ => twoTracers) (fun _ => 1) 3 (fun _ => pairwise 8 0) 255 64 (fun l => 10 * (l + 1 : ℝ)) (1 / 4) where
  power _ _ := zero_le_one
  element _ _ := zero_le_one
  depth := by norm_num
  noisy := one_pos
  noise_nonneg _ := zero_le_one
  order _ := by rw [pairwise_leaves, ← List.range_eq_range']; norm_num
  order_depth _ := by rw [pairwise_depth]; norm_num
  band := ⟨by norm_num, by norm_num, fun i _ => by push_cast; linarith⟩
  sky := by norm_num

/-- Sixty-four bands over a quarter of the sky; the first has 52.5 modes. -/
example : modes 64 (fun l => 10 * (l + 1 : ℝ)) (1 / 4) 0 = 105 / 2 ∧
    |forecastChi2F float32 (fun _ => twoTracers) (fun _ => 1) 3 (fun _ => pairwise 8 0) 64 (fun l => 10 * (l + 1 : ℝ)) (1 / 4)
      (pairwise 6 0) (signal float32 (fun _ => twoTracers) 3)| ≤ 1.4e-10 * allModes 64 (fun l => 10 * (l + 1 : ℝ)) (1 / 4) :=
  ⟨by norm_num [modes], (C170_single demo_survey (by norm_num) (by rw [pairwise_range]; norm_num) (fun _ => 0) one_pos).1⟩

/-- One tracer. -/
example : nTracers [demoProbes[1]] = 1 := by decide

end JaxCosmo
