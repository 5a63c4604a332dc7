import Verif.Model.Core
import Mathlib.Analysis.SpecialFunctions.Trigonometric.Basic

/-!
# Real numbers with the exceptional values of floating point

The other model files compute with real numbers, where Lean's conventions give every operation a
value (`x / 0 = 0`, `log (-1) = 0`, …).  Here a number is a real number, an infinity or a NaN, and
the operations follow IEEE 754 and NumPy: dividing a positive number by zero is `+∞`, `0 / 0`,
`0 * ∞`, `∞ - ∞`, the logarithm or the square root of a negative number are NaN, and a NaN operand
makes the result NaN.  Finite results are exact (rounding, overflow and underflow are not
modelled) and zero has no sign: dividing by it behaves like dividing by `+0`.
-/

namespace JaxCosmo

/-- A number that may be exceptional. -/
inductive Xr
  | fin (x : ℝ)
  | pinf
  | ninf
  | nan

namespace Xr

/-- The number is neither infinite nor NaN (`np.isfinite`). -/
def IsFinite : Xr → Prop
  | fin _ => True
  | _ => False

/-- Negation. -/
def neg : Xr → Xr
  | fin x => fin (-x)
  | pinf => ninf
  | ninf => pinf
  | nan => nan

/-- Addition. -/
def add : Xr → Xr → Xr
  | nan, _ => nan
  | _, nan => nan
  | fin x, fin y => fin (x + y)
  | pinf, ninf => nan
  | ninf, pinf => nan
  | pinf, _ => pinf
  | ninf, _ => ninf
  | _, pinf => pinf
  | _, ninf => ninf

/-- An infinity with the sign of `x`; NaN for zero. -/
noncomputable def infSign (x : ℝ) : Xr := if 0 < x then pinf else if x < 0 then ninf else nan

/-- Multiplication. -/
noncomputable def mul : Xr → Xr → Xr
  | nan, _ => nan
  | _, nan => nan
  | fin x, fin y => fin (x * y)
  | fin x, pinf => infSign x
  | fin x, ninf => infSign (-x)
  | pinf, fin y => infSign y
  | ninf, fin y => infSign (-y)
  | pinf, pinf => pinf
  | pinf, ninf => ninf
  | ninf, pinf => ninf
  | ninf, ninf => pinf

/-- Division. -/
noncomputable def div : Xr → Xr → Xr
  | nan, _ => nan
  | _, nan => nan
  | fin x, fin y => if y = 0 then infSign x else fin (x / y)
  | fin _, pinf => fin 0
  | fin _, ninf => fin 0
  | pinf, fin y => if y < 0 then ninf else pinf
  | ninf, fin y => if y < 0 then pinf else ninf
  | _, _ => nan

instance : Zero Xr := ⟨fin 0⟩
instance : One Xr := ⟨fin 1⟩
instance : Neg Xr := ⟨neg⟩
instance : Add Xr := ⟨add⟩
instance : Sub Xr := ⟨fun x y => add x (neg y)⟩
noncomputable instance : Mul Xr := ⟨mul⟩
noncomputable instance : Div Xr := ⟨div⟩
instance : Coe ℝ Xr := ⟨fin⟩
noncomputable instance {n : ℕ} [n.AtLeastTwo] : OfNat Xr n := ⟨fin (OfNat.ofNat n)⟩
noncomputable instance : OfScientific Xr := ⟨fun m s e => fin (OfScientific.ofScientific m s e)⟩
noncomputable instance : SMul Xr Xr := ⟨mul⟩

/-- `x ** n` for a natural number `n`: repeated multiplication. -/
noncomputable def npow (x : Xr) : ℕ → Xr
  | 0 => fin 1
  | n + 1 => npow x n * x

noncomputable instance : Pow Xr ℕ := ⟨npow⟩

/-- `np.power(x, -n)` for a natural number `n`. -/
noncomputable def ninvpow (x : Xr) (n : ℕ) : Xr := fin 1 / x ^ n

/-- `x ** r` for a floating-point exponent: one for base one or exponent zero, NaN for a negative
base (the exponents in the library are not integers), limits for infinite arguments. -/
noncomputable def rpow : Xr → Xr → Xr
  | fin x, fin r =>
    if 0 < x then fin (x ^ r)
    else if x < 0 then (if r = 0 then fin 1 else nan)
    else if 0 < r then fin 0 else if r < 0 then pinf else fin 1
  | pinf, fin r => if 0 < r then pinf else if r < 0 then fin 0 else fin 1
  | ninf, fin r => if 0 < r then pinf else if r < 0 then fin 0 else fin 1
  | nan, fin r => if r = 0 then fin 1 else nan
  | fin x, pinf => if |x| < 1 then fin 0 else if 1 < |x| then pinf else fin 1
  | fin x, ninf => if |x| < 1 then pinf else if 1 < |x| then fin 0 else fin 1
  | fin x, nan => if x = 1 then fin 1 else nan
  | pinf, pinf => pinf
  | ninf, pinf => pinf
  | pinf, ninf => fin 0
  | ninf, ninf => fin 0
  | _, _ => nan

/-- `np.exp`. -/
noncomputable def exp : Xr → Xr
  | fin x => fin (Real.exp x)
  | pinf => pinf
  | ninf => fin 0
  | nan => nan

/-- `np.log`. -/
noncomputable def log : Xr → Xr
  | fin x => if 0 < x then fin (Real.log x) else if x < 0 then nan else ninf
  | pinf => pinf
  | _ => nan

/-- `np.sqrt`. -/
noncomputable def sqrt : Xr → Xr
  | fin x => if x < 0 then nan else fin (√x)
  | pinf => pinf
  | _ => nan

/-- `np.sin`. -/
noncomputable def sin : Xr → Xr
  | fin x => fin (Real.sin x)
  | _ => nan

/-- `np.cos`. -/
noncomputable def cos : Xr → Xr
  | fin x => fin (Real.cos x)
  | _ => nan

/-- `np.sinh`. -/
noncomputable def sinh : Xr → Xr
  | fin x => fin (Real.sinh x)
  | x => x

/-- `np.abs`. -/
noncomputable def abs : Xr → Xr
  | fin x => fin |x|
  | nan => nan
  | _ => pinf

/-- `x < y` as floating-point numbers compare (false when one of them is NaN). -/
def lt : Xr → Xr → Prop
  | fin x, fin y => x < y
  | fin _, pinf => True
  | ninf, fin _ => True
  | ninf, pinf => True
  | _, _ => False

/-- `np.maximum` (a NaN operand gives NaN). -/
noncomputable def max : Xr → Xr → Xr
  | nan, _ => nan
  | _, nan => nan
  | fin x, fin y => fin (Max.max x y)
  | pinf, _ => pinf
  | _, pinf => pinf
  | ninf, y => y
  | x, ninf => x

/-- `np.minimum` (a NaN operand gives NaN). -/
noncomputable def min : Xr → Xr → Xr
  | nan, _ => nan
  | _, nan => nan
  | fin x, fin y => fin (Min.min x y)
  | ninf, _ => ninf
  | _, ninf => ninf
  | pinf, y => y
  | x, pinf => x

open Classical in
/-- `np.sinc(x)`: `jnp.where(x == 0, 1, sin(pi x) / (pi x))`. -/
noncomputable def sinc (x : Xr) : Xr :=
  if x = fin 0 then fin 1 else sin (fin Real.pi * x) / (fin Real.pi * x)

/-- Sum of the first `n` entries (`np.sum`). -/
noncomputable def sum (n : ℕ) (f : ℕ → Xr) : Xr :=
  match n with
  | 0 => fin 0
  | n + 1 => sum n f + f n

end Xr

end JaxCosmo
