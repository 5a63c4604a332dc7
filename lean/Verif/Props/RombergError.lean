import Verif.Props.Quadrature

/-! # C137: the error estimate of `romb` -/

namespace JaxCosmo
open Spec Set

section Estimate
variable {K : Type*} [Field K] [LinearOrder K] [IsStrictOrderedRing K]

/-- C137: the second value returned with `return_error=True` is the distance of the last two diagonal entries of the
Romberg tableau. -/
theorem C137_estimate (f : K → K) (a b : K) (m : ℕ) :
    rombErr f a b (m + 1) = .ok |romberg f a b m m - romberg f a b (m + 1) (m + 1)| := by
  rw [rombErr, if_neg (Nat.succ_ne_zero m), Nat.add_sub_cancel, C24_state f a b m m le_rfl,
    C24_state f a b (m + 1) (m + 1) le_rfl]

omit [IsStrictOrderedRing K] in
/-- C137: with `divmax = 0` there is neither a value nor an estimate. -/
theorem C137_zero (f : K → K) (a b : K) : rombErr f a b 0 = .error .unboundLocalError := rfl

/-- C137: polynomials that `divmax - 1` already integrates exactly have estimate zero. -/
theorem C137_exact (F : Polynomial K) (m : ℕ) (hm : 1 ≤ m) (hF : F.natDegree ≤ 2 * m + 2) (a b : K) :
    rombErr (fun x => F.derivative.eval x) a b (m + 1) = .ok 0 := by
  have h1 := C24_exact F m hm hF a b
  have h2 := C24_exact F (m + 1) (by omega) (by omega) a b
  rw [C24_tableau _ _ _ _ hm] at h1
  rw [C24_tableau _ _ _ _ (by omega)] at h2
  rw [C137_estimate, Except.ok.inj h1, Except.ok.inj h2, sub_self, abs_zero]

end Estimate

variable {f : ℝ → ℝ} {a b : ℝ}

/-- C137 (partial): the estimate bounds the error of the value returned with `divmax - 1`, up to the error of the value
it is returned with; it does not bound the latter (`C137_refuted`). -/
theorem C137_partial (m : ℕ) (hm : 1 ≤ m) (I : ℝ) {u v e : ℝ} (hu : romb f a b m = .ok u) (hv : romb f a b (m + 1) = .ok v)
    (he : rombErr f a b (m + 1) = .ok e) : |(|u - I|) - e| ≤ |v - I| := by
  rw [C24_tableau _ _ _ _ hm] at hu
  rw [C24_tableau _ _ _ _ (by omega)] at hv
  rw [C137_estimate] at he
  rw [← Except.ok.inj hu, ← Except.ok.inj hv, ← Except.ok.inj he]
  have h := abs_abs_sub_abs_le_abs_sub (romberg f a b m m - I) (romberg f a b m m - romberg f a b (m + 1) (m + 1))
  rwa [sub_sub_sub_cancel_left] at h

/-- C137: the estimate tends to zero for every continuous integrand. -/
theorem C137_converges (hab : a ≤ b) (hf : ContinuousOn f (Icc a b)) {ε : ℝ} (hε : 0 < ε) :
    ∃ M, ∀ m ≥ M, ∃ e, rombErr f a b m = .ok e ∧ e ≤ ε := by
  obtain ⟨M, hM⟩ := C94_romb hab hf (half_pos hε)
  refine ⟨M + 2, fun m hm => ?_⟩
  obtain ⟨n, rfl⟩ : ∃ n, m = n + 1 := ⟨m - 1, by omega⟩
  obtain ⟨u, hu, hu'⟩ := hM n (by omega)
  obtain ⟨v, hv, hv'⟩ := hM (n + 1) (by omega)
  refine ⟨_, C137_estimate f a b n, ?_⟩
  have h := C137_partial n (by omega) (∫ x in a..b, f x) hu hv (C137_estimate f a b n)
  linarith [(abs_le.1 h).1, (abs_le.1 h).2]

/-- An integrand that vanishes at all the points `romb` evaluates. -/
theorem romberg_vanish (m i j : ℕ) (hi : i ≤ m) :
    romberg (fun x : ℝ => 1 - Real.cos (2 * Real.pi * 2 ^ m * x)) 0 1 i j = 0 := by
  induction j generalizing i with
  | zero =>
    have hz : ∀ k : ℕ, 1 - Real.cos (2 * Real.pi * 2 ^ m * (0 + k * ((1 - 0) / (2 ^ i : ℕ)))) = 0 := by
      intro k
      have e : 2 * Real.pi * 2 ^ m * (0 + k * ((1 - 0) / ((2 ^ i : ℕ) : ℝ))) = ((k * 2 ^ (m - i) : ℕ) : ℝ) * (2 * Real.pi) := by
        have : (2 : ℝ) ^ m = 2 ^ (m - i) * 2 ^ i := by rw [← pow_add, Nat.sub_add_cancel hi]
        push_cast
        rw [this]
        field_simp
        ring
      rw [e, Real.cos_nat_mul_two_pi, sub_self]
    have h0 := hz 0
    have h1 := hz (2 ^ i)
    rw [Nat.cast_zero, zero_mul, add_zero] at h0
    rw [sub_zero, mul_one_div, div_self (by positivity), zero_add] at h1
    rw [romberg, trapezoid, h0, h1]
    rw [Finset.sum_eq_zero fun k _ => hz k]
    simp
  | succ j ih =>
    cases i with
    | zero => rfl
    | succ i => rw [romberg, ih (i + 1) hi, ih i (by omega)]; simp

/-- C137 fails for every `divmax`: a smooth integrand with value zero, estimated error zero, and integral one. -/
theorem C137_refuted (m : ℕ) (hm : 1 ≤ m) :
    let f : ℝ → ℝ := fun x => 1 - Real.cos (2 * Real.pi * 2 ^ m * x)
    romb f 0 1 m = .ok 0 ∧ rombErr f 0 1 m = .ok 0 ∧ ∫ x in (0 : ℝ)..1, f x = 1 := by
  refine ⟨?_, ?_, ?_⟩
  · rw [C24_tableau _ _ _ _ hm, romberg_vanish m m m le_rfl]
  · obtain ⟨n, rfl⟩ : ∃ n, m = n + 1 := ⟨m - 1, by omega⟩
    rw [C137_estimate, romberg_vanish (n + 1) n n (by omega), romberg_vanish (n + 1) (n + 1) (n + 1) le_rfl, sub_self,
      abs_zero]
  · have hc : (2 * Real.pi * 2 ^ m : ℝ) ≠ 0 := by positivity
    rw [intervalIntegral.integral_sub (by simp) (Continuous.intervalIntegrable (by fun_prop) _ _),
      intervalIntegral.integral_comp_mul_left (fun x => Real.cos x) hc, integral_cos]
    have e : Real.sin (2 * Real.pi * 2 ^ m * 1) = 0 := by
      have : 2 * Real.pi * 2 ^ m * 1 = ((2 ^ (m + 1) : ℕ) : ℝ) * Real.pi := by push_cast; ring
      rw [this, Real.sin_nat_mul_pi]
    rw [e]
    simp

/-- C137 on `x³` with `divmax = 2`: estimate zero. -/
example : rombErr (fun x => (Polynomial.X ^ 4 : Polynomial ℚ).derivative.eval x) 0 1 2 = .ok 0 :=
  C137_exact _ 1 le_rfl (by simp) 0 1

/-- C137 on `x²` with `divmax = 1`: the estimate is the error of the one-panel trapezoid, `1/2 - 1/3`. -/
example : rombErr (fun x : ℚ => x ^ 2) 0 1 1 = .ok (1 / 6) := by
  rw [C137_estimate]
  norm_num [romberg, trapezoid, abs_of_pos]

/-- C137: an integrand for which `C137_partial` and `C137_converges` apply. -/
example : ∃ M, ∀ m ≥ M, ∃ e, rombErr (fun x : ℝ => Real.sqrt x) 0 1 m = .ok e ∧ e ≤ 1 / 1000 :=
  C137_converges zero_le_one Real.continuous_sqrt.continuousOn (by norm_num)

end JaxCosmo
