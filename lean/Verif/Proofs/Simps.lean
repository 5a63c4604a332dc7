import Verif.Model.Integrate
import Verif.Proofs.Tactics
import Mathlib.Algebra.BigOperators.Ring.Finset
import Mathlib.Algebra.BigOperators.Intervals
import Mathlib.Algebra.Order.BigOperators.Group.Finset

/-! Helper lemmas about the composite Simpson rule. -/

namespace JaxCosmo
variable {K : Type*} [Field K]

/-- The nodes of `simps`: `x_i = a + i * dx`. -/
theorem linspace_succ [CharZero K] (a b : K) (N i : ℕ) :
    linspace a b (N + 1) i = a + (i : K) * ((b - a) / (N : K)) := by
  simp [linspace]

theorem linspace_zero (a b : K) (N : ℕ) : linspace a b N 0 = a := by simp [linspace]

theorem linspace_last [CharZero K] (a b : K) (N : ℕ) (hN : N ≠ 0) :
    linspace a b (N + 1) N = b := by
  rw [linspace_succ]
  have : (N : K) ≠ 0 := by exact_mod_cast hN
  field_simp; ring

/-- Simpson's rule as a sum over panels `[x_{2i}, x_{2i+2}]`. -/
theorem simpsBody_eq_panels [CharZero K] (f : K → K) (a b : K) (N : ℕ) :
    simpsBody f a b N = ∑ i ∈ Finset.range (N / 2),
      (b - a) / (N : K) / 3 * (f (linspace a b (N + 1) (2 * i))
        + 4 * f (linspace a b (N + 1) (2 * i) + (b - a) / (N : K))
        + f (linspace a b (N + 1) (2 * i) + 2 * ((b - a) / (N : K)))) := by
  simp only [simpsBody]
  rw [Finset.mul_sum]
  refine Finset.sum_congr rfl fun i _ => ?_
  have h1 : linspace a b (N + 1) (2 * i + 1)
      = linspace a b (N + 1) (2 * i) + (b - a) / (N : K) := by
    rw [linspace_succ, linspace_succ]; push_cast; ring
  have h2 : linspace a b (N + 1) (2 * i + 2)
      = linspace a b (N + 1) (2 * i) + 2 * ((b - a) / (N : K)) := by
    rw [linspace_succ, linspace_succ]; push_cast; ring
  rw [h1, h2]

/-- If the basic rule integrates `f` exactly with primitive `F`, so does the composite rule. -/
theorem simpsBody_of_panel_exact [CharZero K] (f F : K → K) (a b : K) (N : ℕ) (hN : 0 < N)
    (hev : N % 2 = 0)
    (h : ∀ x h, h / 3 * (f x + 4 * f (x + h) + f (x + 2 * h)) = F (x + 2 * h) - F x) :
    simpsBody f a b N = F b - F a := by
  rw [simpsBody_eq_panels]
  have hstep : ∀ i, linspace a b (N + 1) (2 * i) + 2 * ((b - a) / (N : K))
      = linspace a b (N + 1) (2 * (i + 1)) := by
    intro i; rw [linspace_succ, linspace_succ]; push_cast; ring
  have : ∀ i ∈ Finset.range (N / 2), (b - a) / (N : K) / 3 * (f (linspace a b (N + 1) (2 * i))
        + 4 * f (linspace a b (N + 1) (2 * i) + (b - a) / (N : K))
        + f (linspace a b (N + 1) (2 * i) + 2 * ((b - a) / (N : K))))
      = F (linspace a b (N + 1) (2 * (i + 1))) - F (linspace a b (N + 1) (2 * i)) := by
    intro i _; rw [h, hstep]
  rw [Finset.sum_congr rfl this, Finset.sum_range_sub (fun i => F (linspace a b (N + 1) (2 * i)))]
  have h2 : 2 * (N / 2) = N := by omega
  rw [h2, linspace_last a b N hN.ne', mul_zero, linspace_zero]

theorem simpsBody_add (f g : K → K) (a b : K) (N : ℕ) :
    simpsBody (fun x => f x + g x) a b N = simpsBody f a b N + simpsBody g a b N := by
  simp only [simpsBody]
  rw [← mul_add, ← Finset.sum_add_distrib]
  congr 1; refine Finset.sum_congr rfl fun i _ => ?_; ring

theorem simpsBody_smul (c : K) (f : K → K) (a b : K) (N : ℕ) :
    simpsBody (fun x => c * f x) a b N = c * simpsBody f a b N := by
  simp only [simpsBody, Finset.mul_sum]
  refine Finset.sum_congr rfl fun i _ => ?_; ring

theorem simpsBody_zero (a b : K) (N : ℕ) : simpsBody (fun _ => (0 : K)) a b N = 0 := by
  simp [simpsBody]

theorem simpsBody_sum {ι : Type*} (s : Finset ι) (f : ι → K → K) (a b : K) (N : ℕ) :
    simpsBody (fun x => ∑ j ∈ s, f j x) a b N = ∑ j ∈ s, simpsBody (f j) a b N := by
  classical
  induction s using Finset.induction_on with
  | empty => simp [simpsBody_zero]
  | insert j s hj ih => simp only [Finset.sum_insert hj]; rw [simpsBody_add, ih]

theorem simpsBody_self (f : K → K) (a : K) (N : ℕ) : simpsBody f a a N = 0 := by
  simp [simpsBody]

/-- Only the values at the nodes matter. -/
theorem simpsBody_congr (f g : K → K) (a b : K) (N : ℕ) (hev : N % 2 = 0)
    (h : ∀ i ≤ N, f (linspace a b (N + 1) i) = g (linspace a b (N + 1) i)) :
    simpsBody f a b N = simpsBody g a b N := by
  simp only [simpsBody]
  congr 1
  refine Finset.sum_congr rfl fun i hi => ?_
  have hi := Finset.mem_range.mp hi
  rw [h _ (by omega), h _ (by omega), h _ (by omega)]

section Order
variable [LinearOrder K] [IsStrictOrderedRing K]

theorem linspace_mem (a b : K) (hab : a ≤ b) (N i : ℕ) (hi : i ≤ N) (hN : 0 < N) :
    a ≤ linspace a b (N + 1) i ∧ linspace a b (N + 1) i ≤ b := by
  rw [linspace_succ]
  have hN' : (0 : K) < N := by exact_mod_cast hN
  have hi' : (i : K) ≤ N := by exact_mod_cast hi
  have h0 : 0 ≤ (b - a) / (N : K) := div_nonneg (by linarith) hN'.le
  refine ⟨by have : (0 : K) ≤ i := by positivity
             nlinarith, ?_⟩
  have : (i : K) * ((b - a) / N) ≤ N * ((b - a) / N) := mul_le_mul_of_nonneg_right hi' h0
  have e : (N : K) * ((b - a) / N) = b - a := by field_simp
  linarith

theorem simpsBody_nonneg (f : K → K) (a b : K) (hab : a ≤ b) (N : ℕ) (hev : N % 2 = 0)
    (hf : ∀ x, a ≤ x → x ≤ b → 0 ≤ f x) : 0 ≤ simpsBody f a b N := by
  rcases Nat.eq_zero_or_pos N with rfl | hN
  · simp [simpsBody]
  simp only [simpsBody]
  have hN' : (0 : K) < N := by exact_mod_cast hN
  apply mul_nonneg
  · exact div_nonneg (div_nonneg (by linarith) hN'.le) (by norm_num)
  · refine Finset.sum_nonneg fun i hi => ?_
    have hi := Finset.mem_range.mp hi
    have m0 := linspace_mem a b hab N (2 * i) (by omega) hN
    have m1 := linspace_mem a b hab N (2 * i + 1) (by omega) hN
    have m2 := linspace_mem a b hab N (2 * i + 2) (by omega) hN
    have := hf _ m0.1 m0.2
    have := hf _ m1.1 m1.2
    have := hf _ m2.1 m2.2
    positivity

end Order

end JaxCosmo
