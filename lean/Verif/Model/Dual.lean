import Verif.Model.Xr

/-!
# Forward-mode differentiation

What `jax.jvp` (and so `jax.jacfwd`) computes with: a number together with its tangent.  The numbers
and the tangents are `Xr`, so an infinite or NaN derivative is visible.  A value that does not depend
on the differentiated input carries JAX's symbolic zero (`none`), and JAX then leaves the
corresponding term out altogether: `0 * ∞` does not occur for constants.  The rules below are the
`defjvp` rules of the primitives in JAX's `lax.py` (the library declares no rule of its own,
`scipy/ode.py:8`); the same linear maps are transposed by reverse-mode differentiation.
-/

namespace JaxCosmo
open Xr

/-- A number and its tangent; `none` is the symbolic zero. -/
structure Du where
  val : Xr
  tan : Option Xr

namespace Du

/-- Sum of two tangents, `add_jaxvals` with symbolic zeros. -/
def tadd : Option Xr → Option Xr → Option Xr
  | none, t => t
  | some s, none => some s
  | some s, some t => some (s + t)

/-- A number independent of the differentiated input. -/
def con (x : ℝ) : Du := ⟨fin x, none⟩

/-- `neg`. -/
def neg (x : Du) : Du := ⟨-x.val, x.tan.map fun g => -g⟩

/-- `add`. -/
def add (x y : Du) : Du := ⟨x.val + y.val, tadd x.tan y.tan⟩

/-- `sub`. -/
def sub (x y : Du) : Du := ⟨x.val - y.val, tadd x.tan (y.tan.map fun g => -g)⟩

/-- `mul`. -/
noncomputable def mul (x y : Du) : Du :=
  ⟨x.val * y.val, tadd (x.tan.map fun g => g * y.val) (y.tan.map fun g => x.val * g)⟩

/-- `div`: `g / y` for the numerator, `(-g * x) * y ** -2` for the denominator. -/
noncomputable def div (x y : Du) : Du :=
  ⟨x.val / y.val, tadd (x.tan.map fun g => g / y.val)
    (y.tan.map fun g => -g * x.val * ninvpow y.val 2)⟩

instance : Zero Du := ⟨con 0⟩
instance : One Du := ⟨con 1⟩
instance : Neg Du := ⟨neg⟩
instance : Add Du := ⟨add⟩
instance : Sub Du := ⟨sub⟩
noncomputable instance : Mul Du := ⟨mul⟩
noncomputable instance : Div Du := ⟨div⟩
noncomputable instance {n : ℕ} [n.AtLeastTwo] : OfNat Du n := ⟨con (OfNat.ofNat n)⟩
noncomputable instance : OfScientific Du := ⟨fun m s e => con (OfScientific.ofScientific m s e)⟩
noncomputable instance : SMul Du Du := ⟨mul⟩

/-- `integer_pow` with a natural exponent: `g * (n * x ** (n - 1))`, zero for `n = 0`. -/
noncomputable def npow (x : Du) (n : ℕ) : Du :=
  ⟨x.val ^ n, x.tan.map fun g => if n = 0 then fin 0 else g * (fin (n : ℝ) * x.val ^ (n - 1))⟩

noncomputable instance : Pow Du ℕ := ⟨npow⟩

/-- `integer_pow` with exponent `-n`. -/
noncomputable def ninvpow (x : Du) (n : ℕ) : Du :=
  ⟨x.val.ninvpow n, x.tan.map fun g =>
    if n = 0 then fin 0 else g * (fin (-(n : ℝ)) * x.val.ninvpow (n + 1))⟩

open Classical in
/-- `pow` with floating-point exponent: for the base `g * where(y == 0, 0, y * x ** (y - 1))`, for the
exponent `g * (log(where(x == 0, 1, x)) * x ** y)`. -/
noncomputable def rpow (x y : Du) : Du :=
  ⟨x.val.rpow y.val, tadd
    (x.tan.map fun g => g * (if y.val = fin 0 then fin 0 else y.val * x.val.rpow (y.val - 1)))
    (y.tan.map fun g => g * ((if x.val = fin 0 then (1 : Xr) else x.val).log * x.val.rpow y.val))⟩

/-- `exp`. -/
noncomputable def exp (x : Du) : Du := ⟨x.val.exp, x.tan.map fun g => g * x.val.exp⟩

/-- `log`. -/
noncomputable def log (x : Du) : Du := ⟨x.val.log, x.tan.map fun g => g / x.val⟩

/-- `sqrt`: `g * (0.5 / sqrt(x))`. -/
noncomputable def sqrt (x : Du) : Du := ⟨x.val.sqrt, x.tan.map fun g => g * (0.5 / x.val.sqrt)⟩

/-- `sin`. -/
noncomputable def sin (x : Du) : Du := ⟨x.val.sin, x.tan.map fun g => g * x.val.cos⟩

/-- `cos`. -/
noncomputable def cos (x : Du) : Du := ⟨x.val.cos, x.tan.map fun g => -(g * x.val.sin)⟩

/-- `np.cosh`. -/
noncomputable def xcosh : Xr → Xr
  | .fin x => .fin (Real.cosh x)
  | .nan => .nan
  | _ => .pinf

/-- `sinh`. -/
noncomputable def sinh (x : Du) : Du := ⟨x.val.sinh, x.tan.map fun g => g * xcosh x.val⟩

/-- `np.sign`. -/
noncomputable def xsign : Xr → Xr
  | .fin x => .fin (SignType.sign x : ℝ)
  | .pinf => .fin 1
  | .ninf => .fin (-1)
  | .nan => .nan

/-- `abs`. -/
noncomputable def abs (x : Du) : Du := ⟨x.val.abs, x.tan.map fun g => g * xsign x.val⟩

open Classical in
/-- `_balanced_eq(x, z, y)`: one if only `x` equals `z`, one half if both do, zero otherwise. -/
noncomputable def balancedEq (x z y : Xr) : Xr :=
  (if x = z ∧ x ≠ .nan then fin 1 else fin 0) / (if y = z ∧ y ≠ .nan then fin 2 else fin 1)

/-- `max`. -/
noncomputable def max (x y : Du) : Du :=
  let z := x.val.max y.val
  ⟨z, tadd (x.tan.map fun g => g * balancedEq x.val z y.val)
    (y.tan.map fun g => g * balancedEq y.val z x.val)⟩

/-- `min`. -/
noncomputable def min (x y : Du) : Du :=
  let z := x.val.min y.val
  ⟨z, tadd (x.tan.map fun g => g * balancedEq x.val z y.val)
    (y.tan.map fun g => g * balancedEq y.val z x.val)⟩

open Classical in
/-- `jnp.where(c, x, y)` (`select`): the tangent of the chosen argument, a symbolic zero being
instantiated when the other argument has a tangent. -/
noncomputable def sel (c : Prop) (x y : Du) : Du :=
  ⟨if c then x.val else y.val, match x.tan, y.tan with
    | none, none => none
    | s, t => some (if c then s.getD (fin 0) else t.getD (fin 0))⟩

/-- `jnp.sinc`: away from zero `sin(pi x) / (pi x)`, with the argument replaced where it is zero; at
zero the constant one (first derivative zero). -/
noncomputable def sinc (x : Du) : Du :=
  let c := x.val = fin 0
  let y := con Real.pi * x
  let safe := sel c 1 y
  sel c (1 + 0 * y) (safe.sin / safe)

/-- Sum of the first `n` entries (`np.sum`). -/
noncomputable def sum (n : ℕ) (f : ℕ → Du) : Du :=
  match n with
  | 0 => con 0
  | n + 1 => sum n f + f n

end Du

end JaxCosmo
