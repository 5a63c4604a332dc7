import Verif.Model.Integrate
import Verif.Spec.Romberg
import Verif.Proofs.Tactics
import Mathlib.NumberTheory.Bernoulli
import Mathlib.Algebra.Polynomial.Derivative
import Mathlib.Algebra.Polynomial.Eval.Degree
import Mathlib.Analysis.SpecialFunctions.Integrals.Basic
import Mathlib.Analysis.Calculus.Deriv.Polynomial
import Mathlib.Topology.Algebra.Polynomial

/-! # C24, C25: Romberg integration `romb` -/

namespace JaxCosmo
open Spec
variable {K : Type*} [Field K]

section Tableau
variable [CharZero K]

/-- `ordsum` of the loop is the trapezoid sum. -/
theorem romb_ordsum (f : K → K) (a b : K) (m : ℕ) :
    (rombLoop f a b m).1 = (f a + f b) / 2 + ∑ j ∈ Finset.Ico 1 (2 ^ m : ℕ),
      f (a + j * ((b - a) / (2 ^ m : ℕ))) := by
  induction m with
  | zero => simp [rombLoop, difftrap1]; ring
  | succ m ih =>
    have hstep : (rombLoop f a b (m + 1)).1
        = (rombLoop f a b m).1 + difftrapn f a b (2 ^ (m + 1)) := rfl
    rw [hstep, ih]
    have h2 : (2 ^ (m + 1)) / 2 = 2 ^ m := by rw [pow_succ]; omega
    simp only [difftrapn, h2]
    rw [add_assoc]
    congr 1
    -- even and odd nodes
    have key : ∀ (g : ℕ → K) (n : ℕ), 0 < n → ∑ j ∈ Finset.Ico 1 (2 * n), g j
        = ∑ j ∈ Finset.Ico 1 n, g (2 * j) + ∑ j ∈ Finset.range n, g (2 * j + 1) := by
      intro g n hn
      induction n with
      | zero => omega
      | succ n ihn =>
        rcases Nat.eq_zero_or_pos n with rfl | hn'
        · simp
        · rw [show 2 * (n + 1) = 2 * n + 1 + 1 by ring, Finset.sum_Ico_succ_top (by omega),
            Finset.sum_Ico_succ_top (by omega), ihn hn', Finset.sum_Ico_succ_top (by omega),
            Finset.sum_range_succ]
          ring
    rw [show (2 ^ (m + 1) : ℕ) = 2 * 2 ^ m by ring, key _ _ (by positivity)]
    congr 1
    · refine Finset.sum_congr rfl fun j _ => ?_
      congr 1; push_cast; field_simp
    · refine Finset.sum_congr rfl fun j _ => ?_
      congr 1; push_cast; field_simp; ring

theorem romb_first (f : K → K) (a b : K) (m : ℕ) :
    (rombLoop f a b m).2 0 = trapezoid f a b (2 ^ m) := by
  have h := romb_ordsum f a b m
  cases m with
  | zero => simp only [rombLoop, difftrap1, trapezoid]; simp; left; ring
  | succ m =>
    have : (rombLoop f a b (m + 1)).2 0
        = (b - a) * (rombLoop f a b (m + 1)).1 / ((2 ^ (m + 1) : ℕ) : K) := rfl
    rw [this, h, trapezoid]
    ring

omit [CharZero K] in
/-- One entry of the new state from the entry before it. -/
theorem romb_state_succ (f : K → K) (a b : K) (m j : ℕ) :
    (rombLoop f a b (m + 1)).2 (j + 1)
      = rombergDiff ((rombLoop f a b m).2 j) ((rombLoop f a b (m + 1)).2 j) (j + 1) := by
  set st := (rombLoop f a b m).2 with hst
  set x := (rombLoop f a b (m + 1)).2 0 with hx
  have hout : ∀ j, (rombLoop f a b (m + 1)).2 (j + 1) = scanOut rombScanFn (x, 0) st j := fun _ => rfl
  have hcarry : ∀ j, scanCarry rombScanFn (x, 0) st j = ((rombLoop f a b (m + 1)).2 j, j) := by
    intro j
    induction j with
    | zero => rfl
    | succ j ih =>
      have : scanCarry rombScanFn (x, 0) st (j + 1)
          = (rombScanFn (scanCarry rombScanFn (x, 0) st j) (st j)).1 := rfl
      rw [this, ih, hout]
      simp only [scanOut, rombScanFn, ih]
  rw [hout, scanOut, hcarry]
  rfl

/-- C24: entries `j ≤ m` of the state after `m` iterations are row `m` of the Romberg tableau. -/
theorem C24_state (f : K → K) (a b : K) (m j : ℕ) (hj : j ≤ m) :
    (rombLoop f a b m).2 j = romberg f a b m j := by
  induction m generalizing j with
  | zero =>
    obtain rfl : j = 0 := by omega
    rw [romb_first]; rfl
  | succ m ih =>
    induction j with
    | zero => rw [romb_first]; rfl
    | succ j ihj =>
      rw [romb_state_succ, ihj (by omega), ih j (by omega)]
      have h4 : (4 : K) ^ (j + 1) - 1 ≠ 0 := by
        have : ((4 ^ (j + 1) : ℕ) : K) ≠ ((1 : ℕ) : K) := by
          rw [Ne, Nat.cast_inj]; exact (Nat.one_lt_pow (by omega) (by norm_num)).ne'
        push_cast at this
        exact sub_ne_zero.mpr this
      simp only [rombergDiff, romberg]
      field_simp; ring

/-- C24: `romb` returns the last diagonal entry of the Romberg tableau. -/
theorem C24_tableau (f : K → K) (a b : K) (m : ℕ) (hm : 1 ≤ m) :
    romb f a b m = .ok (romberg f a b m m) := by
  rw [romb, if_neg (by omega), C24_state f a b m m le_rfl]

end Tableau

/-! ## Linearity -/

theorem trapezoid_add (f g : K → K) (c d a b : K) (n : ℕ) :
    trapezoid (fun x => c * f x + d * g x) a b n = c * trapezoid f a b n + d * trapezoid g a b n := by
  simp only [trapezoid, Finset.sum_add_distrib, ← Finset.mul_sum]; ring

theorem romberg_linear (f g : K → K) (c d a b : K) (i j : ℕ) :
    romberg (fun x => c * f x + d * g x) a b i j
      = c * romberg f a b i j + d * romberg g a b i j := by
  induction j generalizing i with
  | zero => cases i <;> simp only [romberg, trapezoid_add]
  | succ j ih =>
    cases i with
    | zero => simp [romberg]
    | succ i => simp only [romberg, ih]; ring

/-- C24: `romb` is linear in the integrand. -/
theorem C24_linear [CharZero K] (f g : K → K) (c d a b : K) (m : ℕ) {u v : K}
    (hf : romb f a b m = .ok u) (hg : romb g a b m = .ok v) :
    romb (fun x => c * f x + d * g x) a b m = .ok (c * u + d * v) := by
  have hm : 1 ≤ m := by
    by_contra h
    simp [romb, show m = 0 by omega] at hf
  rw [C24_tableau _ _ _ _ hm, Except.ok.injEq] at *
  rw [romberg_linear, hf, hg]

/-! ## Exactness on polynomials -/

section Exact
variable [CharZero K]

omit [CharZero K] in
theorem sum_even_odd (g : ℕ → K) (m : ℕ) :
    ∑ i ∈ Finset.range (2 * m), g i = ∑ r ∈ Finset.range m, (g (2 * r) + g (2 * r + 1)) := by
  induction m with
  | zero => simp
  | succ m ih =>
    rw [show 2 * (m + 1) = 2 * m + 1 + 1 by ring, Finset.sum_range_succ, Finset.sum_range_succ, ih,
      Finset.sum_range_succ]
    ring

/-- Trapezoid rule of a monomial on `[0, 1]`: only even powers of the step appear. -/
theorem trapezoid_monomial (d m : ℕ) (hd : d ≤ 2 * m + 1) :
    ∃ e : ℕ → K, ∀ n : ℕ, 0 < n → trapezoid (fun x : K => x ^ d) 0 1 n
      = 1 / ((d : K) + 1) + ∑ r ∈ Finset.range m, e r / (n : K) ^ (2 * (r + 1)) := by
  rcases Nat.eq_zero_or_pos d with rfl | hd0
  · refine ⟨fun _ => 0, fun n hn => ?_⟩
    have hn' : (n : K) ≠ 0 := by exact_mod_cast hn.ne'
    simp [trapezoid, Nat.cast_sub hn]
    field_simp
  set β : ℕ → K := fun i =>
    if i ≤ d then ((bernoulli i * (d + 1).choose i / (d + 1) : ℚ) : K) else 0 with hβ
  refine ⟨fun r => β (2 * (r + 1)), fun n hn => ?_⟩
  have hn' : (n : K) ≠ 0 := by exact_mod_cast hn.ne'
  -- Faulhaber
  have hF : ∑ j ∈ Finset.range n, (j : K) ^ d
      = ∑ i ∈ Finset.range (d + 1), β i * (n : K) ^ (d + 1 - i) := by
    have h := congrArg (Rat.cast : ℚ → K) (sum_range_pow n d)
    push_cast at h
    rw [h]
    refine Finset.sum_congr rfl fun i hi => ?_
    have hi : i ≤ d := by have := Finset.mem_range.mp hi; omega
    simp only [hβ, if_pos hi]
    push_cast; ring
  have hS : ∑ j ∈ Finset.Ico 1 n, (j : K) ^ d = ∑ j ∈ Finset.range n, (j : K) ^ d := by
    rw [Finset.range_eq_Ico, Finset.sum_eq_sum_Ico_succ_bot hn]
    simp [hd0.ne']
  have hT : trapezoid (fun x : K => x ^ d) 0 1 n
      = 1 / (2 * n) + ∑ i ∈ Finset.range (d + 1), β i / (n : K) ^ i := by
    have : ∑ j ∈ Finset.Ico 1 n, ((0 : K) + j * ((1 - 0) / n)) ^ d
        = (∑ j ∈ Finset.Ico 1 n, (j : K) ^ d) / (n : K) ^ d := by
      rw [Finset.sum_div]
      refine Finset.sum_congr rfl fun j _ => ?_
      rw [← div_pow]; congr 1; ring
    simp only [trapezoid]
    rw [this, hS, hF, Finset.sum_div, zero_pow hd0.ne', one_pow, mul_add, Finset.mul_sum]
    congr 1
    · field_simp; ring
    · refine Finset.sum_congr rfl fun i hi => ?_
      have hi : i ≤ d := by have := Finset.mem_range.mp hi; omega
      have e : (n : K) ^ (d + 1 - i) * (n : K) ^ i = (n : K) ^ d * n := by
        rw [← pow_add, ← pow_succ]; congr 1; omega
      field_simp
      linear_combination β i * e
  -- extend the sum to `2 m + 2` terms and drop the odd ones
  have hext : ∑ i ∈ Finset.range (d + 1), β i / (n : K) ^ i
      = ∑ i ∈ Finset.range (2 * (m + 1)), β i / (n : K) ^ i := by
    apply Finset.sum_subset
    · intro i hi; rw [Finset.mem_range] at *; omega
    · intro i _ hi
      have : ¬ i ≤ d := by rw [Finset.mem_range] at hi; omega
      simp [hβ, this]
  have hd1 : ((d : ℚ) + 1) ≠ 0 := by positivity
  have hd1K : ((d : K) + 1) ≠ 0 := by exact_mod_cast (Nat.succ_ne_zero d)
  have hβ0 : β 0 = 1 / ((d : K) + 1) := by simp [hβ]
  have hβ1 : β 1 = -1 / 2 := by
    have : (1 : ℕ) ≤ d := hd0
    simp only [hβ, if_pos this, bernoulli_one, Nat.choose_one_right]
    push_cast; field_simp
  have hodd : ∀ r, 1 ≤ r → β (2 * r + 1) = 0 := by
    intro r hr
    have : bernoulli (2 * r + 1) = 0 := bernoulli_eq_zero_of_odd ⟨r, rfl⟩ (by omega)
    simp [hβ, this]
  rw [hT, hext, sum_even_odd, Finset.sum_range_succ']
  have hrest : ∑ r ∈ Finset.range m, (β (2 * (r + 1)) / (n : K) ^ (2 * (r + 1))
      + β (2 * (r + 1) + 1) / (n : K) ^ (2 * (r + 1) + 1))
      = ∑ r ∈ Finset.range m, β (2 * (r + 1)) / (n : K) ^ (2 * (r + 1)) := by
    refine Finset.sum_congr rfl fun r _ => ?_
    rw [hodd (r + 1) (by omega)]; simp
  rw [hrest]
  simp only [mul_zero, zero_add, pow_zero, pow_one, hβ0, hβ1]
  field_simp; ring

/-- Trapezoid rule of a polynomial derivative on `[a, b]`. -/
theorem trapezoid_poly (F : Polynomial K) (m : ℕ) (hF : F.natDegree ≤ 2 * m + 2) (a b : K) :
    ∃ e : ℕ → K, ∀ n : ℕ, 0 < n → trapezoid (fun x => F.derivative.eval x) a b n
      = (F.eval b - F.eval a) + ∑ r ∈ Finset.range m, e r / (n : K) ^ (2 * (r + 1)) := by
  -- pull back to `[0, 1]`
  set L : Polynomial K := Polynomial.C a + Polynomial.C (b - a) * Polynomial.X with hL
  set G := F.comp L with hG
  have hGdeg : G.natDegree ≤ 2 * m + 2 := by
    refine Polynomial.natDegree_comp_le.trans ?_
    have : L.natDegree ≤ 1 := by
      refine (Polynomial.natDegree_add_le _ _).trans (max_le (by simp) ?_)
      exact (Polynomial.natDegree_C_mul_le _ _).trans Polynomial.natDegree_X_le
    calc F.natDegree * L.natDegree ≤ F.natDegree * 1 := Nat.mul_le_mul_left _ this
      _ ≤ 2 * m + 2 := by omega
  have hG0 : G.eval 0 = F.eval a := by simp [hG, hL]
  have hG1 : G.eval 1 = F.eval b := by simp [hG, hL]
  have hGd : ∀ t, G.derivative.eval t = (b - a) * F.derivative.eval (a + (b - a) * t) := by
    intro t; simp [hG, hL, Polynomial.derivative_comp, Polynomial.eval_comp]
  have hTG : ∀ n, trapezoid (fun x => F.derivative.eval x) a b n
      = trapezoid (fun t => G.derivative.eval t) 0 1 n := by
    intro n
    simp only [trapezoid, hGd, ← Finset.mul_sum]
    have : ∀ j : ℕ, a + (b - a) * (0 + (j : K) * ((1 - 0) / n)) = a + j * ((b - a) / n) := by
      intro j; ring
    simp only [this, mul_zero, mul_one, add_zero, add_sub_cancel]
    ring
  -- expand in monomials
  have hval : ∀ t, G.derivative.eval t
      = ∑ d ∈ Finset.range (2 * m + 2), (G.derivative.coeff d) * t ^ d := by
    intro t
    apply Polynomial.eval_eq_sum_range'
    have := Polynomial.natDegree_derivative_le G
    omega
  choose e he using fun d : {d // d ≤ 2 * m + 1} => trapezoid_monomial (K := K) d.1 m d.2
  let e' : ℕ → ℕ → K := fun d => if h : d ≤ 2 * m + 1 then e ⟨d, h⟩ else 0
  have he' : ∀ d ≤ 2 * m + 1, ∀ n, 0 < n → trapezoid (fun x : K => x ^ d) 0 1 n
      = 1 / ((d : K) + 1) + ∑ r ∈ Finset.range m, e' d r / (n : K) ^ (2 * (r + 1)) := by
    intro d hd n hn
    simp only [e', dif_pos hd]; exact he ⟨d, hd⟩ n hn
  refine ⟨fun r => ∑ d ∈ Finset.range (2 * m + 2), G.derivative.coeff d * e' d r, fun n hn => ?_⟩
  rw [hTG]
  have hlin : trapezoid (fun t => G.derivative.eval t) 0 1 n
      = ∑ d ∈ Finset.range (2 * m + 2),
          G.derivative.coeff d * trapezoid (fun x : K => x ^ d) 0 1 n := by
    simp only [trapezoid, hval]
    rw [Finset.sum_comm]
    rw [← Finset.sum_add_distrib, Finset.sum_div, ← Finset.sum_add_distrib, Finset.mul_sum]
    refine Finset.sum_congr rfl fun d _ => ?_
    rw [← Finset.mul_sum]; ring
  rw [hlin]
  have hI : G.eval 1 - G.eval 0
      = ∑ d ∈ Finset.range (2 * m + 2), G.derivative.coeff d * (1 / ((d : K) + 1)) := by
    have h1 : ∀ d : ℕ, G.derivative.coeff d * (1 / ((d : K) + 1)) = G.coeff (d + 1) := by
      intro d
      rw [Polynomial.coeff_derivative]
      have : ((d : K) + 1) ≠ 0 := by exact_mod_cast (Nat.succ_ne_zero d)
      field_simp
    simp only [h1]
    rw [Polynomial.eval_eq_sum_range' (n := 2 * m + 3) (by omega), Finset.sum_range_succ']
    rw [← Polynomial.coeff_zero_eq_eval_zero]
    simp
  rw [← hG0, ← hG1, hI]
  have : ∀ d ∈ Finset.range (2 * m + 2),
      G.derivative.coeff d * trapezoid (fun x : K => x ^ d) 0 1 n
      = G.derivative.coeff d * (1 / ((d : K) + 1))
        + ∑ r ∈ Finset.range m, G.derivative.coeff d * e' d r / (n : K) ^ (2 * (r + 1)) := by
    intro d hd
    have := Finset.mem_range.mp hd
    rw [he' d (by omega) n hn, mul_add, Finset.mul_sum]
    congr 1
    refine Finset.sum_congr rfl fun r _ => ?_
    ring
  rw [Finset.sum_congr rfl this, Finset.sum_add_distrib, Finset.sum_comm]
  congr 1
  refine Finset.sum_congr rfl fun r _ => ?_
  rw [Finset.sum_div]

/-- Richardson extrapolation removes one power of `h²` per column. -/
theorem romberg_eliminates (f : K → K) (a b I : K) (m : ℕ) (e : ℕ → K)
    (h : ∀ n : ℕ, 0 < n → trapezoid f a b n
      = I + ∑ r ∈ Finset.range m, e r / (n : K) ^ (2 * (r + 1))) (j : ℕ) (hj : j ≤ m) :
    ∃ e' : ℕ → K, ∀ i, j ≤ i → romberg f a b i j
      = I + ∑ r ∈ Finset.Ico j m, e' r * ((4 : K)⁻¹ ^ (r + 1)) ^ i := by
  induction j with
  | zero =>
    refine ⟨e, fun i _ => ?_⟩
    have : romberg f a b i 0 = trapezoid f a b (2 ^ i) := by cases i <;> rfl
    rw [this, h _ (by positivity), Finset.range_eq_Ico]
    congr 1
    refine Finset.sum_congr rfl fun r _ => ?_
    rw [div_eq_mul_inv]
    congr 1
    push_cast
    rw [← pow_mul, ← pow_mul, inv_pow, inv_inj, show (4 : K) = 2 ^ 2 by norm_num, ← pow_mul]
    congr 1; ring
  | succ j ih =>
    obtain ⟨e', he'⟩ := ih (by omega)
    refine ⟨fun r => e' r * (1 + (1 - 4 ^ (r + 1)) / (4 ^ (j + 1) - 1)), fun i hi => ?_⟩
    obtain ⟨i, rfl⟩ : ∃ i', i = i' + 1 := ⟨i - 1, by omega⟩
    have h4 : (4 : K) ^ (j + 1) - 1 ≠ 0 := by
      have : ((4 ^ (j + 1) : ℕ) : K) ≠ ((1 : ℕ) : K) := by
        rw [Ne, Nat.cast_inj]; exact (Nat.one_lt_pow (by omega) (by norm_num)).ne'
      push_cast at this
      exact sub_ne_zero.mpr this
    simp only [romberg]
    rw [he' (i + 1) (by omega), he' i (by omega)]
    have hterm : ∀ r, e' r * ((4 : K)⁻¹ ^ (r + 1)) ^ (i + 1)
        + (e' r * ((4 : K)⁻¹ ^ (r + 1)) ^ (i + 1) - e' r * ((4 : K)⁻¹ ^ (r + 1)) ^ i)
          / (4 ^ (j + 1) - 1)
        = e' r * (1 + (1 - 4 ^ (r + 1)) / (4 ^ (j + 1) - 1)) * ((4 : K)⁻¹ ^ (r + 1)) ^ (i + 1) := by
      intro r
      have hx : ((4 : K)⁻¹ ^ (r + 1)) * 4 ^ (r + 1) = 1 := by
        rw [← mul_pow]; norm_num
      have hxi : ((4 : K)⁻¹ ^ (r + 1)) ^ i
          = ((4 : K)⁻¹ ^ (r + 1)) ^ (i + 1) * 4 ^ (r + 1) := by
        rw [pow_succ (((4 : K)⁻¹ ^ (r + 1))) i, mul_assoc, hx, mul_one]
      rw [hxi]
      generalize ((4 : K)⁻¹ ^ (r + 1)) ^ (i + 1) = y
      field_simp
    have hsum : ∀ (s : Finset ℕ) (u v : ℕ → K) (c : K), (I + ∑ r ∈ s, u r)
        + ((I + ∑ r ∈ s, u r) - (I + ∑ r ∈ s, v r)) / c = I + ∑ r ∈ s, (u r + (u r - v r) / c) := by
      intro s u v c
      rw [Finset.sum_add_distrib, ← Finset.sum_div, Finset.sum_sub_distrib]; ring
    rw [hsum, Finset.sum_congr rfl fun r _ => hterm r]
    congr 1
    rw [Finset.sum_eq_sum_Ico_succ_bot (by omega : j < m)]
    have : (1 : K) + (1 - 4 ^ (j + 1)) / (4 ^ (j + 1) - 1) = 0 := by field_simp; ring
    rw [this]; ring

/-- C24: `romb` with `divmax = m` integrates every polynomial of degree at most `2 m + 1` exactly
(written as `F'` with `deg F ≤ 2 m + 2`, over any field of characteristic zero). -/
theorem C24_exact (F : Polynomial K) (m : ℕ) (hm : 1 ≤ m) (hF : F.natDegree ≤ 2 * m + 2) (a b : K) :
    romb (fun x => F.derivative.eval x) a b m = .ok (F.eval b - F.eval a) := by
  rw [C24_tableau _ _ _ _ hm]
  obtain ⟨e, he⟩ := trapezoid_poly F m hF a b
  obtain ⟨e', he'⟩ := romberg_eliminates _ a b _ m e he m le_rfl
  rw [he' m le_rfl]; simp

end Exact

/-- C24: over the reals, for a polynomial of degree at most `2 m + 1` the value is the integral. -/
theorem C24_exact_integral (P : Polynomial ℝ) (m : ℕ) (hm : 1 ≤ m) (hP : P.natDegree ≤ 2 * m + 1)
    (a b : ℝ) : romb (fun x => P.eval x) a b m = .ok (∫ x in a..b, P.eval x) := by
  -- a primitive of `P`
  set F : Polynomial ℝ := ∑ d ∈ Finset.range (2 * m + 2),
    Polynomial.monomial (d + 1) (P.coeff d / ((d : ℝ) + 1)) with hF
  have hder : F.derivative = P := by
    rw [hF, Polynomial.derivative_sum]
    conv_rhs => rw [P.as_sum_range' (2 * m + 2) (by omega)]
    refine Finset.sum_congr rfl fun d _ => ?_
    rw [Polynomial.derivative_monomial]
    have : ((d : ℝ) + 1) ≠ 0 := by positivity
    congr 1
    push_cast; field_simp
  have hdeg : F.natDegree ≤ 2 * m + 2 := by
    rw [hF]
    apply Polynomial.natDegree_sum_le_of_forall_le
    intro d hd
    refine (Polynomial.natDegree_monomial_le _).trans ?_
    have := Finset.mem_range.mp hd; omega
  have h := C24_exact F m hm hdeg a b
  rw [hder] at h
  rw [h]
  congr 1
  rw [intervalIntegral.integral_eq_sub_of_hasDerivAt (f := fun x => F.eval x)]
  · intro x _; have := F.hasDerivAt x; rwa [hder] at this
  · exact P.continuous.intervalIntegrable _ _

/-- A non-trivial instance: `∫₀¹ 6 x⁵ = 1` with `divmax = 2`. -/
example : romb (fun x => (Polynomial.X ^ 6 : Polynomial ℚ).derivative.eval x) 0 1 2 = .ok 1 := by
  rw [C24_exact _ 2 (by norm_num) (by simp)]; simp

/-! ## C25 -/

/-- C25 (partial): `romb` returns a value for every `divmax ≥ 1`. The full statement, including
`divmax = 0`, is refuted by `C25_refuted`. -/
theorem C25_partial (f : K → K) (a b : K) (m : ℕ) (hm : 1 ≤ m) : ∃ v, romb f a b m = .ok v :=
  ⟨_, if_neg (by omega)⟩

/-- C25 is false as stated: `divmax = 0` fails with an unbound loop variable for every
integrand. -/
theorem C25_refuted (f : K → K) (a b : K) : romb f a b 0 = .error .unboundLocalError := rfl

/-! ## Positivity -/

section Positive
variable {K : Type*} [Field K] [LinearOrder K] [IsStrictOrderedRing K]

/-- Modulus of the weight of the `l`-th finest trapezoid rule in column `j` of the tableau. -/
def rombD : ℕ → ℕ → K
  | 0, 0 => 1
  | 0, _ + 1 => 0
  | j + 1, 0 => 4 ^ (j + 1) * rombD j 0 / (4 ^ (j + 1) - 1)
  | j + 1, l + 1 => (4 ^ (j + 1) * rombD j (l + 1) + rombD j l) / (4 ^ (j + 1) - 1)

omit [LinearOrder K] [IsStrictOrderedRing K] in
theorem rombD_zero {j l : ℕ} (h : j < l) : (rombD j l : K) = 0 := by
  induction j generalizing l with
  | zero => obtain ⟨l, rfl⟩ := Nat.exists_eq_add_of_lt h; rw [Nat.zero_add, rombD]
  | succ j ih =>
    obtain ⟨l, rfl⟩ := Nat.exists_eq_succ_of_ne_zero (by omega : l ≠ 0)
    rw [rombD, ih (by omega), ih (by omega)]; simp

theorem four_pow_gt (j : ℕ) : (0 : K) < 4 ^ (j + 1) - 1 := by
  have h : (1 : K) ≤ 4 ^ j := one_le_pow₀ (by norm_num)
  rw [pow_succ]; linarith

theorem rombD_nonneg (j l : ℕ) : (0 : K) ≤ rombD j l := by
  induction j generalizing l with
  | zero => cases l <;> simp [rombD]
  | succ j ih =>
    have := four_pow_gt (K := K) j
    cases l with
    | zero => rw [rombD]; have := ih 0; positivity
    | succ l => rw [rombD]; have := ih l; have := ih (l + 1); positivity

/-- The ratio of the first two weights stays below one third. -/
theorem rombD_ratio (j : ℕ) : 3 * (rombD j 1 : K) ≤ (1 - 1 / 4 ^ j) * rombD j 0 := by
  induction j with
  | zero => simp [rombD]
  | succ j ih =>
    have hp := four_pow_gt (K := K) j
    have h4 : (0 : K) < 4 ^ j := by positivity
    rw [rombD, rombD, ← mul_div_assoc, ← mul_div_assoc]
    refine div_le_div_of_nonneg_right ?_ hp.le
    have e : (1 - 1 / 4 ^ (j + 1) : K) * (4 ^ (j + 1) * rombD j 0)
        = 4 ^ (j + 1) * ((1 - 1 / 4 ^ j) * rombD j 0) + 3 * rombD j 0 := by
      rw [pow_succ]; field_simp; ring
    rw [e]
    nlinarith

theorem rombD_half (j l : ℕ) : 2 * (rombD j (l + 1) : K) ≤ rombD j l := by
  induction j generalizing l with
  | zero => cases l <;> simp [rombD]
  | succ j ih =>
    cases l with
    | zero =>
      have h := rombD_ratio (K := K) (j + 1)
      have h0 := rombD_nonneg (K := K) (j + 1) 0
      have h4 : (0 : K) < 1 / 4 ^ (j + 1) := by positivity
      have h1 := rombD_nonneg (K := K) (j + 1) 1
      have := mul_nonneg h4.le h0
      nlinarith
    | succ l =>
      have hp := four_pow_gt (K := K) j
      rw [rombD, rombD, ← mul_div_assoc]
      refine div_le_div_of_nonneg_right ?_ hp.le
      have h1 := ih l
      have h2 := mul_le_mul_of_nonneg_left (ih (l + 1)) (by positivity : (0 : K) ≤ 4 ^ (j + 1))
      linarith

theorem romberg_weights (f : K → K) (a b : K) (i j : ℕ) (h : j ≤ i) :
    romberg f a b i j = ∑ l ∈ Finset.range (j + 1),
      (-1) ^ l * (rombD j l * trapezoid f a b (2 ^ (i - l))) := by
  induction j generalizing i with
  | zero => simp [romberg, rombD]
  | succ j ih =>
    obtain ⟨i, rfl⟩ := Nat.exists_eq_succ_of_ne_zero (by omega : i ≠ 0)
    have hp := (four_pow_gt (K := K) j).ne'
    have e0 : romberg f a b i.succ (j + 1)
        = (4 ^ (j + 1) * romberg f a b (i + 1) j - romberg f a b i j) / (4 ^ (j + 1) - 1) := by
      rw [romberg]; field_simp; ring
    rw [e0, ih (i + 1) (by omega), ih i (by omega), Finset.sum_range_succ' _ (j + 1)]
    have e1 : ∑ l ∈ Finset.range (j + 1), (-1 : K) ^ l * (rombD j l
          * trapezoid f a b (2 ^ (i + 1 - l)))
        = ∑ l ∈ Finset.range (j + 1), (-1) ^ (l + 1) * (rombD j (l + 1)
          * trapezoid f a b (2 ^ (i + 1 - (l + 1))))
          + (-1) ^ 0 * (rombD j 0 * trapezoid f a b (2 ^ (i + 1 - 0))) := by
      rw [← Finset.sum_range_succ' (fun l => (-1 : K) ^ l * (rombD j l
          * trapezoid f a b (2 ^ (i + 1 - l)))), Finset.sum_range_succ _ (j + 1),
        rombD_zero (by omega : j < j + 1)]
      simp
    rw [e1, div_eq_iff hp, add_mul, Finset.sum_mul, mul_add, Finset.mul_sum, add_sub_right_comm,
      ← Finset.sum_sub_distrib]
    congr 1
    · refine Finset.sum_congr rfl fun l _ => ?_
      simp only [rombD, Nat.succ_eq_add_one, Nat.add_sub_add_right]
      field_simp; ring
    · simp only [rombD, Nat.succ_eq_add_one]
      field_simp

/-- An alternating sum of nonnegative decreasing terms lies between zero and its first term. -/
theorem alternating_range (n : ℕ) (a : ℕ → K) (h0 : ∀ l, 0 ≤ a l) (ha : ∀ l, a (l + 1) ≤ a l) :
    0 ≤ ∑ l ∈ Finset.range n, (-1) ^ l * a l ∧ ∑ l ∈ Finset.range n, (-1) ^ l * a l ≤ a 0 := by
  induction n generalizing a with
  | zero => simpa using h0 0
  | succ n ih =>
    obtain ⟨h1, h2⟩ := ih (fun l => a (l + 1)) (fun l => h0 _) (fun l => ha _)
    have e : ∑ l ∈ Finset.range (n + 1), (-1) ^ l * a l
        = a 0 - ∑ l ∈ Finset.range n, (-1) ^ l * a (l + 1) := by
      rw [Finset.sum_range_succ', sub_eq_add_neg, ← Finset.sum_neg_distrib, add_comm]
      congr 1
      · simp
      · exact Finset.sum_congr rfl fun l _ => by rw [pow_succ]; ring
    rw [e]
    have := ha 0
    constructor <;> linarith

theorem trapezoid_nonneg {f : K → K} {a b : K} (hab : a ≤ b)
    (hf : ∀ x, a ≤ x → x ≤ b → 0 ≤ f x) (n : ℕ) : 0 ≤ trapezoid f a b n := by
  unfold trapezoid
  have hn : (0 : K) ≤ n := Nat.cast_nonneg n
  have h0 : 0 ≤ (b - a) / n := div_nonneg (by linarith) hn
  refine mul_nonneg h0 (add_nonneg ?_ (Finset.sum_nonneg fun j hj => ?_))
  · have := hf a le_rfl hab; have := hf b hab le_rfl; linarith
  · obtain ⟨h1, h2⟩ := Finset.mem_Ico.1 hj
    have hn' : (0 : K) < n := by exact_mod_cast (by omega : 0 < n)
    have hj' : (j : K) ≤ n := by exact_mod_cast h2.le
    refine hf _ ?_ ?_
    · have := mul_nonneg (Nat.cast_nonneg (α := K) j) h0; linarith
    · have := mul_le_mul_of_nonneg_right hj' h0
      rw [mul_div_cancel₀ _ hn'.ne'] at this; linarith

/-- Halving the panels at most halves the trapezoid sum of a nonnegative function. -/
theorem trapezoid_halve {f : K → K} {a b : K} (hab : a ≤ b)
    (hf : ∀ x, a ≤ x → x ≤ b → 0 ≤ f x) {n : ℕ} (hn : 0 < n) :
    trapezoid f a b n ≤ 2 * trapezoid f a b (2 * n) := by
  unfold trapezoid
  have hn' : (0 : K) < n := by exact_mod_cast hn
  have e : 2 * ((b - a) / ((2 * n : ℕ) : K) * ((f a + f b) / 2 + ∑ j ∈ Finset.Ico 1 (2 * n),
      f (a + j * ((b - a) / ((2 * n : ℕ) : K)))))
      = (b - a) / n * ((f a + f b) / 2 + ∑ j ∈ Finset.Ico 1 (2 * n),
      f (a + j * ((b - a) / ((2 * n : ℕ) : K)))) := by
    push_cast; field_simp
  rw [e]
  have h0 : 0 ≤ (b - a) / n := div_nonneg (by linarith) hn'.le
  refine mul_le_mul_of_nonneg_left ?_ h0
  refine add_le_add_right ?_ _
  have e2 : ∑ j ∈ Finset.Ico 1 n, f (a + j * ((b - a) / n))
      = ∑ j ∈ (Finset.Ico 1 n).image (fun j : ℕ => 2 * j),
        f (a + (j : ℕ) * ((b - a) / ((2 * n : ℕ) : K))) := by
    rw [Finset.sum_image fun x _ y _ h => by simpa using h]
    refine Finset.sum_congr rfl fun j _ => ?_
    congr 2; push_cast; field_simp
  rw [e2]
  refine Finset.sum_le_sum_of_subset_of_nonneg ?_ fun j hj _ => ?_
  · intro j hj
    obtain ⟨i, hi, rfl⟩ := Finset.mem_image.1 hj
    rw [Finset.mem_Ico] at hi ⊢; omega
  · obtain ⟨h1, h2⟩ := Finset.mem_Ico.1 hj
    have hj' : (j : K) ≤ ((2 * n : ℕ) : K) := by exact_mod_cast h2.le
    have h3 : (0 : K) < ((2 * n : ℕ) : K) := by exact_mod_cast (by omega : 0 < 2 * n)
    have h4 : 0 ≤ (b - a) / ((2 * n : ℕ) : K) := div_nonneg (by linarith) h3.le
    refine hf _ ?_ ?_
    · have := mul_nonneg (Nat.cast_nonneg (α := K) j) h4; linarith
    · have := mul_le_mul_of_nonneg_right hj' h4
      rw [mul_div_cancel₀ _ h3.ne'] at this; linarith

/-- The Romberg value of a nonnegative function is at least a third of its finest trapezoid sum. -/
theorem romberg_lower {f : K → K} {a b : K} (hab : a ≤ b)
    (hf : ∀ x, a ≤ x → x ≤ b → 0 ≤ f x) (m : ℕ) :
    1 / 3 * trapezoid f a b (2 ^ m) ≤ romberg f a b m m := by
  rw [romberg_weights f a b m m le_rfl]
  have ht := fun n => trapezoid_nonneg hab hf n
  have hd := fun l => rombD_nonneg (K := K) m l
  have hstep : ∀ l, rombD m (l + 1) * trapezoid f a b (2 ^ (m - (l + 1)))
      ≤ rombD m l * trapezoid f a b (2 ^ (m - l)) := by
    intro l
    have h2 := rombD_half (K := K) m l
    have h3 : trapezoid f a b (2 ^ (m - (l + 1))) ≤ 2 * trapezoid f a b (2 ^ (m - l)) := by
      by_cases hl : l + 1 ≤ m
      · rw [show m - l = (m - (l + 1)) + 1 by omega, pow_succ, mul_comm (2 ^ _) 2]
        exact trapezoid_halve hab hf (by positivity)
      · rw [show m - (l + 1) = 0 by omega, show m - l = 0 by omega]
        have := ht (2 ^ 0); linarith
    calc rombD m (l + 1) * trapezoid f a b (2 ^ (m - (l + 1)))
        ≤ rombD m (l + 1) * (2 * trapezoid f a b (2 ^ (m - l))) :=
          mul_le_mul_of_nonneg_left h3 (hd _)
      _ = 2 * rombD m (l + 1) * trapezoid f a b (2 ^ (m - l)) := by ring
      _ ≤ _ := mul_le_mul_of_nonneg_right h2 (ht _)
  obtain ⟨-, h2⟩ := alternating_range m
    (fun l => rombD m (l + 1) * trapezoid f a b (2 ^ (m - (l + 1))))
    (fun l => mul_nonneg (hd _) (ht _)) (fun l => hstep _)
  rw [Finset.sum_range_succ']
  have e : ∑ l ∈ Finset.range m, (-1 : K) ^ (l + 1)
      * (rombD m (l + 1) * trapezoid f a b (2 ^ (m - (l + 1))))
      = -∑ l ∈ Finset.range m, (-1 : K) ^ l
      * (rombD m (l + 1) * trapezoid f a b (2 ^ (m - (l + 1)))) := by
    rw [← Finset.sum_neg_distrib]
    exact Finset.sum_congr rfl fun l _ => by rw [pow_succ]; ring
  rw [e]
  have hr := rombD_ratio (K := K) m
  have h1 : (1 : K) ≤ rombD m 0 := by
    clear hr e h2 hstep
    induction m with
    | zero => simp [rombD]
    | succ m ih =>
      rw [rombD, le_div_iff₀ (four_pow_gt m), one_mul]
      have := ih (fun l => rombD_nonneg m l)
      have h4 : (0 : K) < 4 ^ (m + 1) := by positivity
      nlinarith
  have hT := ht (2 ^ m)
  have h3 : trapezoid f a b (2 ^ (m - (0 + 1))) ≤ 2 * trapezoid f a b (2 ^ m) := by
    rcases Nat.eq_zero_or_pos m with rfl | hm
    · have := ht (2 ^ 0); linarith
    · rw [show (2 : ℕ) ^ m = 2 * 2 ^ (m - (0 + 1)) by
        rw [← pow_succ']; congr 1; omega]
      exact trapezoid_halve hab hf (by positivity)
  have h5 : rombD m (0 + 1) * trapezoid f a b (2 ^ (m - (0 + 1)))
      ≤ 2 / 3 * (rombD m 0 * trapezoid f a b (2 ^ m)) := by
    have h4 : (0 : K) < 1 / 4 ^ m := by positivity
    have h6 : 3 * (rombD m 1 : K) ≤ rombD m 0 := by
      have := mul_nonneg h4.le (hd 0); linarith
    calc rombD m (0 + 1) * trapezoid f a b (2 ^ (m - (0 + 1)))
        ≤ rombD m 1 * (2 * trapezoid f a b (2 ^ m)) := mul_le_mul_of_nonneg_left h3 (hd _)
      _ = (3 * rombD m 1) * (2 / 3 * trapezoid f a b (2 ^ m)) := by ring
      _ ≤ rombD m 0 * (2 / 3 * trapezoid f a b (2 ^ m)) :=
        mul_le_mul_of_nonneg_right h6 (by linarith)
      _ = _ := by ring
  have h7 := mul_le_mul_of_nonneg_right h1 hT
  simp only [pow_zero, one_mul, Nat.sub_zero]
  linarith

/-- If moreover the integrand is positive at the left end, the Romberg value is positive. -/
theorem romberg_pos {f : K → K} {a b : K} (hab : a < b)
    (hf : ∀ x, a ≤ x → x ≤ b → 0 ≤ f x) (ha : 0 < f a) (m : ℕ) : 0 < romberg f a b m m := by
  refine lt_of_lt_of_le ?_ (romberg_lower hab.le hf m)
  unfold trapezoid
  have h2 : (0 : K) < ((2 ^ m : ℕ) : K) := by positivity
  have h0 : 0 < (b - a) / ((2 ^ m : ℕ) : K) := div_pos (by linarith) h2
  refine mul_pos (by norm_num) (mul_pos h0 (add_pos_of_pos_of_nonneg ?_
    (Finset.sum_nonneg fun j hj => ?_)))
  · have := hf b hab.le le_rfl; linarith
  · obtain ⟨h1, h3⟩ := Finset.mem_Ico.1 hj
    have hj' : (j : K) ≤ ((2 ^ m : ℕ) : K) := by exact_mod_cast h3.le
    refine hf _ ?_ ?_
    · have := mul_nonneg (Nat.cast_nonneg (α := K) j) h0.le; linarith
    · have := mul_le_mul_of_nonneg_right hj' h0.le
      rw [mul_div_cancel₀ _ h2.ne'] at this; linarith

/-- C24: `romb` of a nonnegative integrand over an increasing interval is nonnegative, for every
`divmax`. -/
theorem C24_nonneg {f : K → K} {a b : K} (hab : a ≤ b)
    (hf : ∀ x, a ≤ x → x ≤ b → 0 ≤ f x) {m : ℕ} {v : K} (h : romb f a b m = .ok v) : 0 ≤ v := by
  have hm : 1 ≤ m := by
    by_contra hm
    simp [romb, show m = 0 by omega] at h
  rw [C24_tableau _ _ _ _ hm, Except.ok.injEq] at h
  have h1 := romberg_lower hab hf m
  have h2 := trapezoid_nonneg hab hf (2 ^ m)
  linarith

/-- C24: `romb` is monotone in the integrand. -/
theorem C24_mono {f g : K → K} {a b : K} (hab : a ≤ b)
    (hfg : ∀ x, a ≤ x → x ≤ b → f x ≤ g x) {m : ℕ} {u v : K} (hf : romb f a b m = .ok u)
    (hg : romb g a b m = .ok v) : u ≤ v := by
  have h := C24_linear g f 1 (-1) a b m hg hf
  have := C24_nonneg hab (fun x h1 h2 => by
    have := hfg x h1 h2
    show 0 ≤ 1 * g x + -1 * f x
    linarith) h
  linarith

/-- Witness: the indicator of the right half of `[0, 1]`. -/
example : ∃ v, romb (fun x : ℚ => if 1 / 2 < x then 1 else 0) 0 1 7 = .ok v ∧ 0 ≤ v :=
  ⟨_, C24_tableau _ _ _ _ (by norm_num), C24_nonneg zero_le_one
    (fun x _ _ => by split_ifs <;> norm_num) (C24_tableau _ _ _ _ (by norm_num))⟩

end Positive

end JaxCosmo
