import Mathlib.Algebra.Order.Field.Basic
import Mathlib.Algebra.BigOperators.Group.Finset.Basic
import Mathlib.Algebra.Module.Defs

/-!
# The parts of Python / NumPy / JAX the library calls

Contracts of the external functions used by `/repo/jax_cosmo`.  Numbers are exact
(a linearly ordered field `K`); one-dimensional arrays are a length together with
an index function `ℕ → K`, whose values beyond the length are never meant to be read.
-/

namespace JaxCosmo

/-- The Python exceptions the library can raise (explicitly or through Python itself). -/
inductive PyErr
  | valueError
  | notImplementedError
  | assertionError
  | attributeError
  | typeError
  | keyError
  | unboundLocalError
  | indexError
  deriving DecidableEq, Repr

section Elementwise
variable {K : Type*} [Field K] [LinearOrder K]

/-- `np.clip(x, lo, hi)`: JAX computes `minimum(maximum(x, lo), hi)`, so the upper bound
wins when `hi < lo`. Used at `scipy/interpolate.py:35`, `background.py:488`. -/
def clip (x lo hi : K) : K := min (max x lo) hi

/-- `np.clip(x, lo)`: lower bound only. Used at `background.py:242`, `probes.py:51`. -/
def clipLo (x lo : K) : K := max x lo

/-- `np.sign(x).astype(int)`. Used at `scipy/interpolate.py:35`, `core.py:171`. -/
def sgn (x : K) : ℤ := if x < 0 then -1 else if x = 0 then 0 else 1

end Elementwise

/-- `np.copysign(1, s).astype(int)` for an integer `s`; `copysign(1, 0) = +1`.
Used at `scipy/interpolate.py:36-37`. -/
def copysign1 (s : ℤ) : ℤ := if s < 0 then -1 else 1

/-- `np.clip(i, lo, hi)` on integers (upper bound wins).
Used at `scipy/interpolate.py:31`, `:293`. -/
def iclip (i lo hi : ℤ) : ℤ := min (max i lo) hi

/-- Position read by `arr[i]` for an array of length `n`: negative indices count from the
end; out-of-range indices are clamped, which is what JAX does when gathering. -/
def ix (n : ℕ) (i : ℤ) : ℕ :=
  (min (max (if i < 0 then i + n else i) 0) ((n : ℤ) - 1)).toNat

section Arrays
variable {K : Type*} [Field K] [LinearOrder K]

/-- Position of the first minimum of `d 0, …, d m` (scan from the left, strict improvement). -/
def argminUpTo (d : ℕ → K) : ℕ → ℕ
  | 0 => 0
  | m + 1 => if d (m + 1) < d (argminUpTo d m) then m + 1 else argminUpTo d m

/-- `np.argmin` of an array of length `n`: position of the first minimum.
Used at `scipy/interpolate.py:28`. -/
def argmin (n : ℕ) (d : ℕ → K) : ℕ := argminUpTo d (n - 1)

/-- `np.digitize(x, bins)` for increasing `bins` of length `n` (`right=False`): the number of
bins that are `≤ x`.  Used at `scipy/interpolate.py:291`, `:377`. -/
def digitize (n : ℕ) (bins : ℕ → K) (x : K) : ℕ :=
  ((List.range n).filter (fun i => decide (bins i ≤ x))).length

omit [LinearOrder K] in
/-- `np.linspace(a, b, n)[i]` in exact arithmetic.
Used at `scipy/integrate.py:197`, `power.py:94`. -/
def linspace (a b : K) (n : ℕ) (i : ℕ) : K := a + (i : K) * ((b - a) / ((n : K) - 1))

omit [LinearOrder K] in
/-- `np.diff(x)[i]`. Used at `scipy/interpolate.py:115`. -/
def diff (x : ℕ → K) (i : ℕ) : K := x (i + 1) - x i

omit [LinearOrder K] in
/-- `np.concatenate([zeros(1), np.cumsum(x)])[i]`: the sum of the first `i` entries.
Used at `scipy/interpolate.py:386`. -/
def cumsum0 (x : ℕ → K) : ℕ → K
  | 0 => 0
  | i + 1 => cumsum0 x i + x i

omit [LinearOrder K] in
/-- `np.gradient(f)` with unit spacing for an array of length `n`: one-sided at the ends,
central inside; JAX/NumPy raise `ValueError` for fewer than two entries.
Used at `angular_cl.py:142`. -/
def gradient (n : ℕ) (f : ℕ → K) : Except PyErr (ℕ → K) :=
  if n < 2 then .error .valueError
  else .ok fun i =>
    if i = 0 then f 1 - f 0
    else if i = n - 1 then f (n - 1) - f (n - 2)
    else (f (i + 1) - f (i - 1)) / 2

end Arrays

section Scan
variable {C X Y : Type*}

/-- Carry of `jax.lax.scan(f, c0, xs)` before processing item `i`.
Used at `scipy/ode.py:21`, `scipy/integrate.py:150`. -/
def scanCarry (f : C → X → C × Y) (c0 : C) (xs : ℕ → X) : ℕ → C
  | 0 => c0
  | i + 1 => (f (scanCarry f c0 xs i) (xs i)).1

/-- Stacked output number `i` of `jax.lax.scan(f, c0, xs)`. -/
def scanOut (f : C → X → C × Y) (c0 : C) (xs : ℕ → X) (i : ℕ) : Y :=
  (f (scanCarry f c0 xs i) (xs i)).2

end Scan

end JaxCosmo
