import Verif.Model.Float
import Verif.Model.Integrate

/-! # `romb` in floating point -/

namespace JaxCosmo
variable (A : Rounding)

/-- `scipy/integrate.py:22-35` `_difftrap1` with every `+ - * /` rounded; `fn` is the integrand as computed. -/
noncomputable def difftrap1F (fn : ℝ → ℝ) (a b : ℝ) : ℝ := A.mul (1 / 2) (A.add (fn a) (fn b))

/-- `scipy/integrate.py:52-55`: entry `j` of `points`. -/
noncomputable def trapPointF (a b : ℝ) (numtraps j : ℕ) : ℝ :=
  let numtosum := numtraps / 2
  let h := A.div (A.sub (A.mul 1 b) (A.mul 1 a)) (numtosum : ℝ)
  let lox := A.add a (A.mul (1 / 2) h)
  A.add lox (A.mul h (j : ℝ))

/-- `scipy/integrate.py:38-56` `_difftrapn`; `t` is the order in which `np.sum` adds. -/
noncomputable def difftrapnF (fn : ℝ → ℝ) (a b : ℝ) (numtraps : ℕ) (t : SumTree) : ℝ :=
  t.sum A fun j => fn (trapPointF A a b numtraps j)

/-- `scipy/integrate.py:59-65` `_romberg_diff`; the power is taken to be correctly rounded. -/
noncomputable def rombergDiffF (b c : ℝ) (k : ℕ) : ℝ :=
  let tmp := A.rd (4 ^ k)
  A.div (A.sub (A.mul tmp c) b) (A.sub tmp 1)

/-- `scipy/integrate.py:140-143` `scan_fn`. -/
noncomputable def rombScanFnF (carry : ℝ × ℕ) (y : ℝ) : (ℝ × ℕ) × ℝ :=
  let x := rombergDiffF A y carry.1 (carry.2 + 1)
  ((x, carry.2 + 1), x)

/-- `scipy/integrate.py:131-155`: `(ordsum, state)` after iterations `i = 1, …, m`, as in `rombLoop`; `t i` is the
order of summation in iteration `i`. -/
noncomputable def rombLoopF (fn : ℝ → ℝ) (a b : ℝ) (t : ℕ → SumTree) : ℕ → ℝ × (ℕ → ℝ)
  | 0 =>
    let ordsum := difftrap1F A fn a b
    let result := A.mul (A.sub b a) ordsum
    (ordsum, fun _ => result)
  | m + 1 =>
    let (ordsum0, state) := rombLoopF fn a b t m
    let i := m + 1
    let n : ℕ := 2 ^ i
    let ordsum := A.add ordsum0 (difftrapnF A fn a b n (t i))
    let x := A.div (A.mul (A.sub b a) ordsum) (n : ℝ)
    let newState : ℕ → ℝ := fun j => if j = 0 then x else scanOut (rombScanFnF A) (x, 0) state (j - 1)
    (ordsum, newState)

/-- `scipy/integrate.py:68-160` `romb` with `return_error=False`. -/
noncomputable def rombF (fn : ℝ → ℝ) (a b : ℝ) (divmax : ℕ) (t : ℕ → SumTree) : Except PyErr ℝ :=
  if divmax = 0 then .error .unboundLocalError
  else .ok ((rombLoopF A fn a b t divmax).2 divmax)

end JaxCosmo
