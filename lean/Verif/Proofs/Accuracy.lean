import Mathlib.Analysis.Calculus.MeanValue
import Mathlib.Analysis.Calculus.Deriv.Pow
import Mathlib.Analysis.Calculus.Deriv.Shift
import Mathlib.MeasureTheory.Integral.IntervalIntegral.FundThmCalculus

/-! # Error bounds with explicit constants

Simpson's rule from a bound on the second derivative, and the chord of the integral of a decreasing
function. -/

namespace JaxCosmo
open Set

/-- A function starting at zero is dominated by a function whose derivative dominates. -/
theorem dominated {f f' B B' : ℝ → ℝ} {T : ℝ} (hf : ∀ t ∈ Icc 0 T, HasDerivAt f (f' t) t)
    (h0 : f 0 = 0) (hB0 : B 0 = 0) (hB : ∀ t, HasDerivAt B (B' t) t)
    (hb : ∀ t ∈ Icc 0 T, |f' t| ≤ B' t) {t : ℝ} (ht : t ∈ Icc 0 T) : |f t| ≤ B t := by
  refine image_norm_le_of_norm_deriv_right_le_deriv_boundary (f' := f') (B' := B')
    (fun x hx => (hf x hx).continuousAt.continuousWithinAt)
    (fun x hx => (hf x (Ico_subset_Icc_self hx)).hasDerivWithinAt) (by rw [h0, hB0, norm_zero]) hB
    (fun x hx => hb x (Ico_subset_Icc_self hx)) ht

section Simpson
variable {R r r1 r2 : ℝ → ℝ} {c T M : ℝ}
  (hr : ∀ x ∈ Icc (c - T) (c + T), HasDerivAt R (r x) x)
  (h1 : ∀ x ∈ Icc (c - T) (c + T), HasDerivAt r (r1 x) x)
  (h2 : ∀ x ∈ Icc (c - T) (c + T), HasDerivAt r1 (r2 x) x)
  (hM : ∀ x ∈ Icc (c - T) (c + T), |r2 x| ≤ M)

theorem hasDerivAt_shifts {f f' : ℝ → ℝ} (h : ∀ x ∈ Icc (c - T) (c + T), HasDerivAt f (f' x) x) {t : ℝ}
    (ht : t ∈ Icc 0 T) : HasDerivAt (fun s => f (c + s)) (f' (c + t)) t ∧
      HasDerivAt (fun s => f (c - s)) (-f' (c - t)) t := by
  obtain ⟨a, b⟩ := ht
  constructor
  · exact (h (c + t) ⟨by linarith, by linarith⟩).comp_const_add c t
  · exact (h (c - t) ⟨by linarith, by linarith⟩).comp_const_sub c t

include h2 hM in
theorem odd_bound {t : ℝ} (ht : t ∈ Icc 0 T) : |r1 (c + t) - r1 (c - t)| ≤ 2 * M * t := by
  refine dominated (f := fun t => r1 (c + t) - r1 (c - t)) (f' := fun t => r2 (c + t) - -r2 (c - t))
    (B := fun t => 2 * M * t) (B' := fun _ => 2 * M) (T := T) ?_ (by simp) (by simp)
    (fun t => by simpa using (hasDerivAt_id t).const_mul (2 * M)) ?_ ht
  · intro s hs
    obtain ⟨a, b⟩ := hasDerivAt_shifts h2 hs
    exact a.sub b
  · intro s hs
    have a := hM (c + s) ⟨by linarith [hs.1, hs.2], by linarith [hs.2]⟩
    have b := hM (c - s) ⟨by linarith [hs.2], by linarith [hs.1, hs.2]⟩
    rw [sub_neg_eq_add]
    exact (abs_add_le _ _).trans (by linarith)

include h1 h2 hM in
theorem even_bound {t : ℝ} (ht : t ∈ Icc 0 T) : |r (c + t) + r (c - t) - 2 * r c| ≤ M * t ^ 2 := by
  refine dominated (f := fun t => r (c + t) + r (c - t) - 2 * r c)
    (f' := fun t => r1 (c + t) + -r1 (c - t))
    (B := fun t => M * t ^ 2) (B' := fun t => 2 * M * t) (T := T) ?_ (by simp; ring) (by simp)
    (fun t => ((hasDerivAt_pow 2 t).const_mul M).congr_deriv (by ring)) ?_ ht
  · intro s hs
    obtain ⟨a, b⟩ := hasDerivAt_shifts h1 hs
    exact (a.add b).sub_const _
  · intro s hs
    rw [← sub_eq_add_neg]
    exact odd_bound h2 hM hs

include hr h1 h2 hM in
/-- Simpson's rule on `[c - T, c + T]`, with a bound on the second derivative. -/
theorem simpson_second (hT : 0 ≤ T) :
    |R (c + T) - R (c - T) - T / 3 * (r (c - T) + 4 * r c + r (c + T))| ≤ 4 / 9 * M * T ^ 3 := by
  refine dominated (f := fun t => R (c + t) - R (c - t) - t / 3 * (r (c - t) + 4 * r c + r (c + t)))
    (f' := fun t => 2 / 3 * (r (c + t) + r (c - t) - 2 * r c) - t / 3 * (r1 (c + t) - r1 (c - t)))
    (B := fun t => 4 / 9 * M * t ^ 3) (B' := fun t => 4 / 3 * M * t ^ 2) (T := T) ?_ (by simp) (by simp)
    (fun t => ((hasDerivAt_pow 3 t).const_mul (4 / 9 * M)).congr_deriv (by ring)) ?_ ⟨hT, le_rfl⟩
  · intro s hs
    obtain ⟨a, b⟩ := hasDerivAt_shifts hr hs
    obtain ⟨a1, b1⟩ := hasDerivAt_shifts h1 hs
    refine ((a.sub b).sub (((hasDerivAt_id s).div_const 3).mul ((b1.add_const (4 * r c)).add a1))).congr_deriv ?_
    simp only [id, Pi.add_apply]
    ring
  · intro s hs
    have a := even_bound h1 h2 hM hs
    have b := odd_bound h2 hM hs
    have s0 := hs.1
    refine (abs_sub _ _).trans ?_
    rw [abs_mul, abs_mul, abs_of_nonneg (by norm_num : (0 : ℝ) ≤ 2 / 3), abs_of_nonneg (by positivity : 0 ≤ s / 3)]
    have := mul_le_mul_of_nonneg_left b (by positivity : 0 ≤ s / 3)
    nlinarith

end Simpson

/-- The chord of the integral of a decreasing function lies above it, by no more than a quarter of
the step times the total decrease. -/
theorem chord_antitone {ρ : ℝ → ℝ} {u v a : ℝ} (huv : u < v) (ha : a ∈ Icc u v) (hρ : AntitoneOn ρ (Icc u v)) :
    0 ≤ (v - a) / (v - u) * (∫ x in u..v, ρ x) - ∫ x in a..v, ρ x ∧
      (v - a) / (v - u) * (∫ x in u..v, ρ x) - (∫ x in a..v, ρ x) ≤ (v - u) * (ρ u - ρ v) / 4 := by
  have hi1 : IntervalIntegrable ρ MeasureTheory.volume u a :=
    AntitoneOn.intervalIntegrable (by rw [uIcc_of_le ha.1]; exact hρ.mono (Icc_subset_Icc_right ha.2))
  have hi2 : IntervalIntegrable ρ MeasureTheory.volume a v :=
    AntitoneOn.intervalIntegrable (by rw [uIcc_of_le ha.2]; exact hρ.mono (Icc_subset_Icc_left ha.1))
  have hs := intervalIntegral.integral_add_adjacent_intervals hi1 hi2
  have hu : u ∈ Icc u v := left_mem_Icc.2 huv.le
  have hv : v ∈ Icc u v := right_mem_Icc.2 huv.le
  have b1 : (a - u) * ρ a ≤ ∫ x in u..a, ρ x := by
    have := intervalIntegral.integral_mono_on ha.1 (intervalIntegrable_const (c := ρ a)) hi1
      (fun x hx => hρ ⟨hx.1, hx.2.trans ha.2⟩ ha hx.2)
    simpa [intervalIntegral.integral_const] using this
  have b2 : (∫ x in u..a, ρ x) ≤ (a - u) * ρ u := by
    have := intervalIntegral.integral_mono_on ha.1 hi1 (intervalIntegrable_const (c := ρ u))
      (fun x hx => hρ hu ⟨hx.1, hx.2.trans ha.2⟩ hx.1)
    simpa [intervalIntegral.integral_const] using this
  have b3 : (v - a) * ρ v ≤ ∫ x in a..v, ρ x := by
    have := intervalIntegral.integral_mono_on ha.2 (intervalIntegrable_const (c := ρ v)) hi2
      (fun x hx => hρ ⟨ha.1.trans hx.1, hx.2⟩ hv hx.2)
    simpa [intervalIntegral.integral_const] using this
  have b4 : (∫ x in a..v, ρ x) ≤ (v - a) * ρ a := by
    have := intervalIntegral.integral_mono_on ha.2 hi2 (intervalIntegrable_const (c := ρ a))
      (fun x hx => hρ ha ⟨ha.1.trans hx.1, hx.2⟩ hx.1)
    simpa [intervalIntegral.integral_const] using this
  rw [← hs]
  set I := ∫ x in u..a, ρ x
  set J := ∫ x in a..v, ρ x
  have hd : 0 < v - u := by linarith
  have e : (v - a) / (v - u) * (I + J) - J = ((v - a) * I - (a - u) * J) / (v - u) := by
    field_simp; ring
  have p1 : 0 ≤ v - a := by linarith [ha.2]
  have p2 : 0 ≤ a - u := by linarith [ha.1]
  rw [e]
  constructor
  · refine div_nonneg ?_ hd.le
    nlinarith [mul_le_mul_of_nonneg_left b1 p1, mul_le_mul_of_nonneg_left b4 p2]
  · rw [div_le_iff₀ hd]
    have k1 := mul_le_mul_of_nonneg_left b2 p1
    have k2 := mul_le_mul_of_nonneg_left b3 p2
    have k3 : 0 ≤ ρ u - ρ v := sub_nonneg.2 (hρ hu hv huv.le)
    have k4 : (v - a) * (a - u) ≤ (v - u) ^ 2 / 4 := by nlinarith [sq_nonneg (v - a - (a - u))]
    nlinarith [mul_le_mul_of_nonneg_right k4 k3]

end JaxCosmo
