import Verif.Props.Romberg
import Verif.Props.Simpson
import Mathlib.Topology.ContinuousMap.Weierstrass
import Mathlib.MeasureTheory.Integral.IntervalIntegral.Basic
import Mathlib.Topology.UniformSpace.HeineCantor

/-! # C94: both quadratures converge for every continuous integrand

No smoothness is needed: positive weights make `simps` as accurate as the modulus of continuity of
the integrand, and `romb` as accurate as its best polynomial approximation. -/

namespace JaxCosmo
open Spec Set

variable {f : ℝ → ℝ} {a b : ℝ}

/-! ### Simpson -/

theorem panel_modulus {u h ω : ℝ} (hh : 0 ≤ h) (hf : ContinuousOn f (Icc u (u + 2 * h)))
    (hω : ∀ x ∈ Icc u (u + 2 * h), ∀ y ∈ Icc u (u + 2 * h), |f x - f y| ≤ ω) :
    |h / 3 * (f u + 4 * f (u + h) + f (u + 2 * h)) - ∫ x in u..(u + 2 * h), f x| ≤ 2 * h * ω := by
  have huv : u ≤ u + 2 * h := by linarith
  have hint : IntervalIntegrable f MeasureTheory.volume u (u + 2 * h) :=
    ContinuousOn.intervalIntegrable (by rwa [uIcc_of_le huv])
  have e : h / 3 * (f u + 4 * f (u + h) + f (u + 2 * h)) - ∫ x in u..(u + 2 * h), f x
      = ∫ x in u..(u + 2 * h), ((f u + 4 * f (u + h) + f (u + 2 * h)) / 6 - f x) := by
    rw [intervalIntegral.integral_sub intervalIntegrable_const hint,
      intervalIntegral.integral_const, smul_eq_mul]
    ring
  rw [e]
  have := intervalIntegral.norm_integral_le_of_norm_le_const (a := u) (b := u + 2 * h) (C := ω)
    (f := fun x => (f u + 4 * f (u + h) + f (u + 2 * h)) / 6 - f x) fun x hx => by
      rw [uIoc_of_le huv] at hx
      have hx' : x ∈ Icc u (u + 2 * h) := ⟨hx.1.le, hx.2⟩
      have h0 := abs_le.1 (hω u ⟨le_rfl, huv⟩ x hx')
      have h1 := abs_le.1 (hω (u + h) ⟨by linarith, by linarith⟩ x hx')
      have h2 := abs_le.1 (hω (u + 2 * h) ⟨huv, le_rfl⟩ x hx')
      rw [Real.norm_eq_abs, abs_le]
      constructor <;> linarith [h0.1, h0.2, h1.1, h1.2, h2.1, h2.2]
  refine this.trans (le_of_eq ?_)
  rw [add_sub_cancel_left, abs_of_nonneg (by linarith)]
  ring

/-- C94: the error of `simps` is at most the length of the interval times the oscillation of the
integrand over one panel. -/
theorem C94_simps_modulus (hab : a ≤ b) (hf : ContinuousOn f (Icc a b)) {N : ℕ} (hN : 0 < N)
    {v ω : ℝ} (hv : simps f a b N = .ok v)
    (hω : ∀ x ∈ Icc a b, ∀ y ∈ Icc a b, |x - y| ≤ 2 * ((b - a) / N) → |f x - f y| ≤ ω) :
    |v - ∫ x in a..b, f x| ≤ (b - a) * ω := by
  have hev : N % 2 = 0 := by
    by_contra h
    rw [simps, if_pos (by omega)] at hv
    cases hv
  rw [simps, if_neg (by omega), Except.ok.injEq] at hv
  rw [← hv, simpsBody_eq_panels]
  have hN' : (0 : ℝ) < N := by exact_mod_cast hN
  set h := (b - a) / (N : ℝ) with hh
  have hh0 : 0 ≤ h := div_nonneg (by linarith) hN'.le
  set x : ℕ → ℝ := fun i => linspace a b (N + 1) (2 * i) with hx
  have hstep : ∀ i, x i + 2 * h = x (i + 1) := fun i => by
    simp only [hx, linspace_succ, ← hh]; push_cast; ring
  have h2 : 2 * (N / 2) = N := by omega
  have hmem : ∀ i ≤ N / 2, x i ∈ Icc a b := fun i hi => by
    have := linspace_mem a b hab N (2 * i) (by omega) hN
    exact ⟨this.1, this.2⟩
  have hsub : ∀ i < N / 2, Icc (x i) (x i + 2 * h) ⊆ Icc a b := fun i hi => by
    rw [hstep]
    exact Icc_subset_Icc (hmem i hi.le).1 (hmem (i + 1) hi).2
  have hint : ∀ i < N / 2, IntervalIntegrable f MeasureTheory.volume (x i) (x (i + 1)) := fun i hi => by
    refine ContinuousOn.intervalIntegrable ?_
    rw [← hstep, uIcc_of_le (by linarith)]
    exact hf.mono (hsub i hi)
  have hsum := intervalIntegral.sum_integral_adjacent_intervals hint
  have hx0 : x 0 = a := linspace_zero a b (N + 1)
  have hxN : x (N / 2) = b := by simp only [hx, h2]; exact linspace_last a b N hN.ne'
  rw [hx0, hxN] at hsum
  rw [← hsum, ← Finset.sum_sub_distrib]
  refine (Finset.abs_sum_le_sum_abs _ _).trans ?_
  calc ∑ i ∈ Finset.range (N / 2), |h / 3 * (f (x i) + 4 * f (x i + h) + f (x i + 2 * h))
        - ∫ t in (x i)..(x (i + 1)), f t|
      ≤ ∑ _i ∈ Finset.range (N / 2), 2 * h * ω := by
        refine Finset.sum_le_sum fun i hi => ?_
        have hi := Finset.mem_range.1 hi
        rw [← hstep]
        refine panel_modulus hh0 (hf.mono (hsub i hi)) fun s hs t ht => ?_
        refine hω s (hsub i hi hs) t (hsub i hi ht) ?_
        rw [abs_le]; constructor <;> linarith [hs.1, hs.2, ht.1, ht.2]
    _ = ((2 * (N / 2) : ℕ) : ℝ) * h * ω := by
        rw [Finset.sum_const, Finset.card_range, nsmul_eq_mul]; push_cast; ring
    _ = (b - a) * ω := by rw [h2, hh, mul_div_cancel₀ _ hN'.ne']

/-- C94: `simps` converges for every continuous integrand. -/
theorem C94_simps (hab : a ≤ b) (hf : ContinuousOn f (Icc a b)) {ε : ℝ} (hε : 0 < ε) :
    ∃ N0, ∀ N ≥ N0, N % 2 = 0 → ∃ v, simps f a b N = .ok v ∧ |v - ∫ x in a..b, f x| ≤ ε := by
  have hu := isCompact_Icc.uniformContinuousOn_of_continuous hf
  rw [Metric.uniformContinuousOn_iff_le] at hu
  have hω : 0 < ε / (b - a + 1) := div_pos hε (by linarith)
  obtain ⟨δ, hδ, hu⟩ := hu _ hω
  obtain ⟨N0, hN0⟩ := exists_nat_ge (2 * (b - a) / δ)
  refine ⟨N0 + 1, fun N hN hev => ⟨_, by rw [simps, if_neg (by omega)], ?_⟩⟩
  have hN' : (0 : ℝ) < N := by exact_mod_cast (by omega : 0 < N)
  have hle : 2 * ((b - a) / N) ≤ δ := by
    have h1 : (N0 : ℝ) ≤ N := by exact_mod_cast (by omega : N0 ≤ N)
    rw [← mul_div_assoc, div_le_iff₀ hN']
    rw [div_le_iff₀ hδ] at hN0
    nlinarith
  refine (C94_simps_modulus hab hf (by omega : 0 < N) (by rw [simps, if_neg (by omega)])
    fun x hx y hy hxy => hu x hx y hy (hxy.trans hle)).trans ?_
  rw [mul_div_assoc', div_le_iff₀ (by linarith)]
  nlinarith

/-! ### Romberg -/

/-- C94: the error of `romb` is at most twice the length of the interval times the distance of the
integrand from the polynomials of degree `2 divmax + 1`. -/
theorem C94_romb_best (hab : a ≤ b) (hf : ContinuousOn f (Icc a b)) {m : ℕ} (hm : 1 ≤ m)
    (P : Polynomial ℝ) (hP : P.natDegree ≤ 2 * m + 1) {ε : ℝ}
    (hε : ∀ x ∈ Icc a b, |f x - P.eval x| ≤ ε) {v : ℝ} (hv : romb f a b m = .ok v) :
    |v - ∫ x in a..b, f x| ≤ 2 * ε * (b - a) := by
  have hPm := C24_exact_integral P m hm hP a b
  have hc : romb (fun _ => ε) a b m = .ok (ε * (b - a)) := by
    have := C24_exact_integral (Polynomial.C ε) m hm (by simp) a b
    simp only [Polynomial.eval_C, intervalIntegral.integral_const, smul_eq_mul] at this
    rw [this, mul_comm]
  have hd := C24_linear f (fun x => P.eval x) 1 (-1) a b m hv hPm
  have hneg := C24_linear (fun _ => ε) (fun _ => ε) (-1) 0 a b m hc hc
  have h1 := C24_mono hab (fun x h1 h2 => by
    have := (abs_le.1 (hε x ⟨h1, h2⟩)).2
    show 1 * f x + -1 * P.eval x ≤ ε
    linarith) hd hc
  have h2 := C24_mono hab (fun x h1 h2 => by
    have := (abs_le.1 (hε x ⟨h1, h2⟩)).1
    show -1 * ε + 0 * ε ≤ 1 * f x + -1 * P.eval x
    linarith) hneg hd
  have hi : IntervalIntegrable f MeasureTheory.volume a b :=
    ContinuousOn.intervalIntegrable (by rwa [uIcc_of_le hab])
  have hiP : IntervalIntegrable (fun x => P.eval x) MeasureTheory.volume a b :=
    P.continuous.intervalIntegrable a b
  have h3 : |(∫ x in a..b, f x) - ∫ x in a..b, P.eval x| ≤ ε * (b - a) := by
    rw [← intervalIntegral.integral_sub hi hiP]
    have := intervalIntegral.norm_integral_le_of_norm_le_const (a := a) (b := b) (C := ε)
      (f := fun x => f x - P.eval x) fun x hx => by
        rw [uIoc_of_le hab] at hx
        exact hε x ⟨hx.1.le, hx.2⟩
    rwa [abs_of_nonneg (by linarith)] at this
  rw [abs_le] at *
  constructor <;> linarith [h3.1, h3.2]

/-- C94: `romb` converges for every continuous integrand. -/
theorem C94_romb (hab : a ≤ b) (hf : ContinuousOn f (Icc a b)) {ε : ℝ} (hε : 0 < ε) :
    ∃ M, ∀ m ≥ M, ∃ v, romb f a b m = .ok v ∧ |v - ∫ x in a..b, f x| ≤ ε := by
  have hδ : 0 < ε / (2 * (b - a) + 1) := div_pos hε (by linarith)
  obtain ⟨P, hP⟩ := exists_polynomial_near_of_continuousOn a b f hf _ hδ
  refine ⟨P.natDegree + 1, fun m hm => ⟨_, C24_tableau f a b m (by omega), ?_⟩⟩
  refine (C94_romb_best hab hf (by omega : 1 ≤ m) P (by omega)
    (fun x hx => by rw [abs_sub_comm]; exact (hP x hx).le) (C24_tableau f a b m (by omega))).trans ?_
  have e : 2 * (ε / (2 * (b - a) + 1)) * (b - a) = ε * (2 * (b - a)) / (2 * (b - a) + 1) := by ring
  rw [e, div_le_iff₀ (by linarith)]
  nlinarith

/-- C94 on an integrand with a corner and one with an infinite slope. -/
example : (∃ N0, ∀ N ≥ N0, N % 2 = 0 → ∃ v, simps (fun x : ℝ => abs x) (-1) 2 N = .ok v ∧
      |v - ∫ x in (-1 : ℝ)..2, abs x| ≤ 1 / 1000) ∧
    ∃ M, ∀ m ≥ M, ∃ v, romb (fun x : ℝ => Real.sqrt x) 0 1 m = .ok v ∧
      |v - ∫ x in (0 : ℝ)..1, Real.sqrt x| ≤ 1 / 1000 :=
  ⟨C94_simps (by norm_num) continuous_abs.continuousOn (by norm_num),
    C94_romb (by norm_num) Real.continuous_sqrt.continuousOn (by norm_num)⟩

end JaxCosmo
