import Verif.Model.Ode
import Verif.Spec.RungeKutta
import Verif.Proofs.Tactics
import Mathlib.Tactic.Module
import Mathlib.Algebra.BigOperators.Intervals
import Mathlib.Algebra.Module.Prod
import Mathlib.Data.Rat.Cast.CharZero

/-! # C26: `odeint` is the classical RK4 scheme -/

namespace JaxCosmo
open Spec
variable {K Y : Type*} [Field K] [AddCommGroup Y] [Module K Y]

theorem rk4_eq_step (fn : Y → K → Y) [CharZero K] (y : Y) (t0 t : K) :
    rk4 fn (y, t0) t = ((rk4Step fn y t0 (t - t0), t), rk4Step fn y t0 (t - t0)) := by
  have e1 : ∀ k : Y, ((t - t0) / 2) • k = (t - t0) • ((1 / 2 : K) • k) := by
    intro k; rw [smul_smul]; congr 1; ring
  have e2 : t0 + (t - t0) / 2 = t0 + (1 / 2) * (t - t0) := by ring
  have e3 : t0 + (t - t0) = t := by ring
  simp only [rk4, rk4Step, e1, e2, e3]
  have e4 : ∀ k1 k2 k3 k4 : Y, (1 / 6 * (t - t0)) • (k1 + (2 : K) • k2 + (2 : K) • k3 + k4)
      = (t - t0) • ((1 / 6 : K) • k1 + (1 / 3 : K) • k2 + (1 / 3 : K) • k3 + (1 / 6 : K) • k4) := by
    intro k1 k2 k3 k4; module
  rw [e4]

theorem rk4Step_zero (fn : Y → K → Y) (y : Y) (t : K) : rk4Step fn y t 0 = y := by
  simp [rk4Step]

/-- State carried by the scan before item `i + 1`. -/
theorem odeint_carry [CharZero K] (fn : Y → K → Y) (y0 : Y) (t : ℕ → K) (i : ℕ) :
    scanCarry (rk4 fn) (y0, t 0) t (i + 1) = (odeint fn y0 t i, t i) := by
  have : scanCarry (rk4 fn) (y0, t 0) t (i + 1)
      = (rk4 fn (scanCarry (rk4 fn) (y0, t 0) t i) (t i)).1 := rfl
  rw [this, odeint, scanOut]
  generalize scanCarry (rk4 fn) (y0, t 0) t i = c
  obtain ⟨y, t'⟩ := c
  rw [rk4_eq_step]

/-- C26: the first returned state is the initial one. -/
theorem C26_first [CharZero K] (fn : Y → K → Y) (y0 : Y) (t : ℕ → K) : odeint fn y0 t 0 = y0 := by
  have : odeint fn y0 t 0 = (rk4 fn (y0, t 0) (t 0)).2 := rfl
  rw [this, rk4_eq_step, sub_self, rk4Step_zero]

/-- C26: each further state is one classical RK4 step from the previous grid point. -/
theorem C26_step [CharZero K] (fn : Y → K → Y) (y0 : Y) (t : ℕ → K) (i : ℕ) :
    odeint fn y0 t (i + 1) = rk4Step fn (odeint fn y0 t i) (t i) (t (i + 1) - t i) := by
  have : odeint fn y0 t (i + 1) = (rk4 fn (scanCarry (rk4 fn) (y0, t 0) t (i + 1)) (t (i + 1))).2 :=
    rfl
  rw [this, odeint_carry, rk4_eq_step]

/-- C26: the result on a prefix of the grid is the prefix of the result. -/
theorem C26_prefix [CharZero K] (fn : Y → K → Y) (y0 : Y) (t t' : ℕ → K) (n : ℕ)
    (h : ∀ j ≤ n, t j = t' j) : ∀ i ≤ n, odeint fn y0 t i = odeint fn y0 t' i := by
  intro i hi
  induction i with
  | zero => rw [C26_first, C26_first]
  | succ i ih => rw [C26_step, C26_step, ih (by omega), h i (by omega), h (i + 1) hi]

/-- C26: restarting from an intermediate state continues the same solution. -/
theorem C26_restart [CharZero K] (fn : Y → K → Y) (y0 : Y) (t : ℕ → K) (m i : ℕ) :
    odeint fn y0 t (m + i) = odeint fn (odeint fn y0 t m) (fun j => t (m + j)) i := by
  induction i with
  | zero => rw [C26_first]; rfl
  | succ i ih => rw [← add_assoc, C26_step, C26_step, ih]; rfl

/-- C26: if the right-hand side does not depend on the state, a step is Simpson's rule. -/
theorem C26_simpson [CharZero K] (g : K → Y) (y0 : Y) (t : ℕ → K) (i : ℕ) :
    odeint (fun _ => g) y0 t i = y0 + ∑ j ∈ Finset.range i, ((t (j + 1) - t j) / 6) •
      (g (t j) + (4 : K) • g ((t j + t (j + 1)) / 2) + g (t (j + 1))) := by
  induction i with
  | zero => rw [C26_first]; simp
  | succ i ih =>
    rw [C26_step, ih, Finset.sum_range_succ, rk4Step]
    have e1 : t i + 1 / 2 * (t (i + 1) - t i) = (t i + t (i + 1)) / 2 := by ring
    have e2 : t i + (t (i + 1) - t i) = t (i + 1) := by ring
    simp only [e1, e2]
    module

/-- C26: a right-hand side that is a cubic polynomial in `t` alone is solved exactly on every
grid. -/
theorem C26_cubic_exact [CharZero K] (c0 c1 c2 c3 y0 : K) (t : ℕ → K) (i : ℕ) :
    odeint (fun _ x => c0 + c1 * x + c2 * x ^ 2 + c3 * x ^ 3) y0 t i
      = y0 + ((c0 * t i + c1 * t i ^ 2 / 2 + c2 * t i ^ 3 / 3 + c3 * t i ^ 4 / 4)
        - (c0 * t 0 + c1 * t 0 ^ 2 / 2 + c2 * t 0 ^ 3 / 3 + c3 * t 0 ^ 4 / 4)) := by
  rw [C26_simpson]
  congr 1
  rw [← Finset.sum_range_sub
    (fun i => c0 * t i + c1 * t i ^ 2 / 2 + c2 * t i ^ 3 / 3 + c3 * t i ^ 4 / 4)]
  refine Finset.sum_congr rfl fun j _ => ?_
  simp only [smul_eq_mul]
  ring

/-- C26: on `y' = λ y` a step multiplies by the fourth-order Taylor polynomial of `exp`. -/
theorem C26_linear [CharZero K] (lam : K) (y0 : Y) (t : ℕ → K) (i : ℕ) :
    odeint (fun y _ => lam • y) y0 t (i + 1) =
      (let z := lam * (t (i + 1) - t i); 1 + z + z ^ 2 / 2 + z ^ 3 / 6 + z ^ 4 / 24)
        • odeint (fun y _ => lam • y) y0 t i := by
  rw [C26_step, rk4Step]
  module

/-- A non-trivial instance: `y' = 3 t²` on the uneven grid `0, 1, 3` gives `y(3) = 27`. -/
example : odeint (fun (_ : ℚ) x => 0 + 0 * x + 3 * x ^ 2 + 0 * x ^ 3) (0 : ℚ)
    (fun i => if i = 0 then 0 else if i = 1 then 1 else 3) 2 = 27 := by
  rw [C26_cubic_exact]; norm_num

end JaxCosmo
