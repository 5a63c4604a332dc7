import Mathlib.Algebra.Order.Round
import Mathlib.Data.Int.Log
import Mathlib.Algebra.Order.Archimedean.Real.Basic
import Mathlib.Algebra.Order.Floor.Ring
import Verif.Model.AngularCl
import Verif.Model.Ode

/-!
# Floating-point arithmetic

The other model files compute with exact numbers.  Here the operations round.  JAX computes in
IEEE 754 binary32 (binary64 with `jax_enable_x64`): the result of `+ - * /` is the exact result
rounded to nearest, ties to even.  Exponents are unbounded: overflow to infinity and gradual
underflow are not modelled.
-/

namespace JaxCosmo

/-- Nearest integer, ties to even. -/
noncomputable def roundEven (x : ℝ) : ℤ :=
  if Int.fract x < 1 / 2 then ⌊x⌋
  else if 1 / 2 < Int.fract x then ⌊x⌋ + 1
  else if Even ⌊x⌋ then ⌊x⌋ else ⌊x⌋ + 1

/-- Nearest number with `p` binary digits, ties to even. -/
noncomputable def roundBinary (p : ℕ) (x : ℝ) : ℝ :=
  let s := (2 : ℝ) ^ ((p : ℤ) - 1 - Int.log 2 |x|)
  roundEven (x * s) / s

/-- What the proofs use of a rounding: relative error at most `u`, monotone, exact on one. -/
structure Rounding where
  rd : ℝ → ℝ
  u : ℝ
  u_nonneg : 0 ≤ u
  u_le : u ≤ 1 / 8
  err : ∀ x, |rd x - x| ≤ u * |x|
  mono : Monotone rd
  one : rd 1 = 1

/-- Exact arithmetic is the rounding with `u = 0`. -/
def exactArith : Rounding where
  rd := id
  u := 0
  u_nonneg := le_rfl
  u_le := by norm_num
  err x := by simp
  mono := monotone_id
  one := rfl

variable (A : Rounding)

namespace Rounding

/-- `x + y` -/
def add (x y : ℝ) : ℝ := A.rd (x + y)
/-- `x - y` -/
def sub (x y : ℝ) : ℝ := A.rd (x - y)
/-- `x * y` -/
def mul (x y : ℝ) : ℝ := A.rd (x * y)
/-- `x / y` -/
noncomputable def div (x y : ℝ) : ℝ := A.rd (x / y)

end Rounding

/-! ### `utils.py` -/

/-- `utils.py:2-4` `z2a`. -/
noncomputable def z2aF (z : ℝ) : ℝ := A.div 1 (A.add 1 z)

/-- `utils.py:7-9` `a2z`. -/
noncomputable def a2zF (a : ℝ) : ℝ := A.sub (A.div 1 a) 1

/-! ### `scipy/integrate.py` -/

/-- The order in which XLA adds the entries of an array is not specified: a binary tree whose
leaves are the positions. -/
inductive SumTree
  | leaf (i : ℕ)
  | node (l r : SumTree)

namespace SumTree

/-- Positions, from left to right. -/
def leaves : SumTree → List ℕ
  | leaf i => [i]
  | node l r => l.leaves ++ r.leaves

/-- Largest number of additions an entry takes part in. -/
def depth : SumTree → ℕ
  | leaf _ => 0
  | node l r => max l.depth r.depth + 1

/-- `np.sum` of the array `x` in this order. -/
def sum (x : ℕ → ℝ) : SumTree → ℝ
  | leaf i => x i
  | node l r => A.add (l.sum x) (r.sum x)

end SumTree

/-- `scipy/integrate.py:196-200`: the body of `simps` given the array `y` that the integrand
returned; `t` is the order of summation. -/
noncomputable def simpsF (y : ℕ → ℝ) (a b : ℝ) (N : ℕ) (t : SumTree) : ℝ :=
  let dx := A.div (A.sub b a) N
  A.mul (A.div dx 3)
    (t.sum A fun i => A.add (A.add (y (2 * i)) (A.mul 4 (y (2 * i + 1)))) (y (2 * i + 2)))

/-! ### `scipy/ode.py` -/

/-- An array of floating-point numbers: each entry is rounded. -/
def Rounding.vrd {ι : Type*} (v : ι → ℝ) : ι → ℝ := fun i => A.rd (v i)

/-- `scipy/ode.py:11-19` `rk4`, for states that are arrays; `fn` is the right-hand side as computed.
The Python constant `1.0 / 6.0` enters as the nearest floating-point number. -/
noncomputable def rk4F {ι : Type*} (fn : (ι → ℝ) → ℝ → (ι → ℝ)) (carry : (ι → ℝ) × ℝ) (t : ℝ) :
    ((ι → ℝ) × ℝ) × (ι → ℝ) :=
  let y := carry.1
  let t_prev := carry.2
  let h := A.sub t t_prev
  let k1 := fn y t_prev
  let k2 := fn (A.vrd (y + A.vrd ((1 / 2 : ℝ) • A.vrd (h • k1)))) (A.add t_prev (A.div h 2))
  let k3 := fn (A.vrd (y + A.vrd ((1 / 2 : ℝ) • A.vrd (h • k2)))) (A.add t_prev (A.div h 2))
  let k4 := fn (A.vrd (y + A.vrd (h • k3))) t
  let s := A.vrd (A.vrd (A.vrd (k1 + A.vrd ((2 : ℝ) • k2)) + A.vrd ((2 : ℝ) • k3)) + k4)
  let y' := A.vrd (y + A.vrd (A.mul (A.div 1 6) h • s))
  ((y', t), y')

/-- `scipy/ode.py:6-22` `odeint`: entry `i` of the returned array. -/
noncomputable def odeintF {ι : Type*} (fn : (ι → ℝ) → ℝ → (ι → ℝ)) (y0 : ι → ℝ) (t : ℕ → ℝ)
    (i : ℕ) : ι → ℝ :=
  scanOut (rk4F A fn) (y0, t 0) t i

/-! ### `angular_cl.py` -/

/-- `angular_cl.py:145-156`: the blocks' diagonals, as in `covBlockDiag`. -/
noncomputable def covBlockDiagF (probes : List Probe) (cl_obs : List (List ℝ)) (norm : ℕ → ℝ) :
    Except PyErr (List (ℕ → ℝ)) := do
  let blocks ← getCovBlocksOrdering probes
  return blocks.map fun abcd l =>
    A.div (A.add (A.mul (rowAt cl_obs abcd.1 l) (rowAt cl_obs abcd.2.1 l))
      (A.mul (rowAt cl_obs abcd.2.2.1 l) (rowAt cl_obs abcd.2.2.2 l))) (norm l)

end JaxCosmo
