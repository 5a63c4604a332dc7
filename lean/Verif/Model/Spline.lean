import Verif.Model.Numpy
import Mathlib.LinearAlgebra.Matrix.NonsingularInverse

/-!
# Model of `InterpolatedUnivariateSpline` in `jax_cosmo/scipy/interpolate.py`

Arrays are `ℕ → K` with a length; `np.linalg.solve(A, s)` is `A⁻¹ *ᵥ s` with Mathlib's inverse
(meaningful when `A` is nonsingular, which is proved in `Props/Spline.lean`).
-/

namespace JaxCosmo
variable {K : Type*} [Field K]

/-- `np.diag(v, k)` as an `m × m` matrix (`v` of length `m - |k|`). -/
def diagK (m : ℕ) (v : ℕ → K) (k : ℤ) : Matrix (Fin m) (Fin m) K :=
  fun i j => if (j : ℤ) - i = k then v (min i j) else 0

/-- `np.linalg.solve(A, s)`, as an array. -/
noncomputable def npSolve (m : ℕ) (A : Matrix (Fin m) (Fin m) K) (s : ℕ → K) : ℕ → K :=
  fun i => if h : i < m then (A⁻¹.mulVec fun j : Fin m => s j) ⟨i, h⟩ else 0

namespace Spline

/-- `scipy/interpolate.py:136-144`, `:277-285`, `:364-372`: the `n + 1` knots of the quadratic
spline through `n` points. -/
def quadKnots (n : ℕ) (x : ℕ → K) (i : ℕ) : K :=
  if i = 0 then x 0 - (x 1 - x 0) / 2
  else if i = n then x (n - 1) + (x (n - 1) - x (n - 2)) / 2
  else (x i + x (i - 1)) / 2

/-- `scipy/interpolate.py:147-187`: the system matrix for `k = 2`, of size `n + 1` for `n` data
points (`len(knots) = n + 1`). -/
def quadA (n : ℕ) (x : ℕ → K) : Matrix (Fin (n + 1)) (Fin (n + 1)) K :=
  let knots := quadKnots n x
  let h := diff knots
  let dt := fun i => x i - knots i
  diagK (n + 1) (fun i => if i = 0 then 1 else if i = n then 1 else
      2 * dt i - dt i ^ 2 / h i - dt (i - 1) ^ 2 / h (i - 1) + h (i - 1)) 0
  + diagK (n + 1) (fun i => if i = 0 then -(1 + h 0 / h 1) else dt i ^ 2 / h i) 1
  + diagK (n + 1) (fun i => if i = 0 then h 0 / h 1 else 0) 2
  + diagK (n + 1) (fun i => if i = n - 1 then -(1 + h (n - 1) / h (n - 2)) else
      h i - 2 * dt i + dt i ^ 2 / h i) (-1)
  + diagK (n + 1) (fun i => if i = n - 2 then h (n - 1) / h (n - 2) else 0) (-2)

/-- `scipy/interpolate.py:190`: right-hand side for `k = 2`. -/
def quadS (n : ℕ) (y : ℕ → K) (i : ℕ) : K :=
  if i = 0 then 0 else if i = n then 0 else 2 * diff y (i - 1)

/-- `scipy/interpolate.py:201-219`: the system matrix for `k = 3` and `n` data points. -/
def cubicA (n : ℕ) (x : ℕ → K) (natural : Bool) : Matrix (Fin n) (Fin n) K :=
  let h := diff x
  let A00 := if natural then 1 else h 1
  let A01 := if natural then 0 else -(h 0 + h 1)
  let A02 := if natural then 0 else h 0
  let ANN := if natural then 1 else h (n - 3)
  let AN1 := if natural then -1 else -(h (n - 3) + h (n - 2))
  let AN2 := if natural then 0 else h (n - 2)
  diagK n (fun i => if i = 0 then A00 else if i = n - 1 then ANN else 2 * (h (i - 1) + h i)) 0
  + (diagK n (fun i => if i = 0 then A01 else h i) 1
    + diagK n (fun i => if i = 0 then A02 else 0) 2
    + diagK n (fun i => if i = n - 2 then AN1 else h i) (-1)
    + diagK n (fun i => if i = n - 3 then AN2 else 0) (-2))

/-- `scipy/interpolate.py:222-223`: right-hand side for `k = 3`. -/
def cubicS (n : ℕ) (x y : ℕ → K) (i : ℕ) : K :=
  let h := diff x
  let p := diff y
  if i = 0 then 0 else if i = n - 1 then 0 else 3 * (p i / h i - p (i - 1) / h (i - 1))

end Spline

/-- An `InterpolatedUnivariateSpline` object (`scipy/interpolate.py:228-232`); `x` and `y` have
length `n`. -/
structure Spline (K : Type*) where
  k : ℕ
  n : ℕ
  x : ℕ → K
  y : ℕ → K
  coef : ℕ → K
  endpoints : String

namespace Spline

/-- `scipy/interpolate.py:45-232` `__init__`. -/
noncomputable def init (nx ny : ℕ) (x y : ℕ → K) (k : ℕ := 3) (endpoints : String := "not-a-knot")
    (coefficients : Option (ℕ → K) := none) : Except PyErr (Spline K) :=
  if ¬(k = 1 ∨ k = 2 ∨ k = 3) then .error .assertionError
  else if nx ≠ ny then .error .assertionError
  else
    let n := nx
    match coefficients with
    | some c => .ok { k, n, x, y, coef := c, endpoints }
    | none =>
      if k = 1 then
        if ¬ n > 1 then .error .assertionError
        else .ok { k, n, x, y, coef := fun i => diff y i / diff x i, endpoints }
      else if k = 2 then
        if ¬ n > 2 then .error .assertionError
        else if endpoints ≠ "not-a-knot" then .error .assertionError
        else .ok { k, n, x, y, coef := npSolve (n + 1) (quadA n x) (quadS n y), endpoints }
      else
        if ¬ n > 3 then .error .assertionError
        else
          let endpoints' :=
            if endpoints = "natural" ∨ endpoints = "not-a-knot" then endpoints else "natural"
          .ok { k, n, x, y, endpoints := endpoints'
                coef := npSolve n (cubicA n x (endpoints' = "natural")) (cubicS n x y) }

/-- `scipy/interpolate.py:235-238` `tree_flatten`: children `(x, y, coefficients)` (arrays carry
their length), auxiliary data `(endpoints, k)`. -/
def treeFlatten (s : Spline K) :
    ((ℕ × (ℕ → K)) × (ℕ × (ℕ → K)) × (ℕ → K)) × (String × ℕ) :=
  (((s.n, s.x), (s.n, s.y), s.coef), (s.endpoints, s.k))

/-- `scipy/interpolate.py:240-243` `tree_unflatten`. -/
noncomputable def treeUnflatten (aux : String × ℕ)
    (children : (ℕ × (ℕ → K)) × (ℕ × (ℕ → K)) × (ℕ → K)) : Except PyErr (Spline K) :=
  init children.1.1 children.2.1.1 children.1.2 children.2.1.2 (k := aux.2) (endpoints := aux.1)
    (coefficients := some children.2.2)

/-- `scipy/interpolate.py:276-287`: the breakpoints. -/
def knots (s : Spline K) : ℕ → K := if s.k = 2 then quadKnots s.n s.x else s.x

/-- Number of breakpoints. -/
def nKnots (s : Spline K) : ℕ := if s.k = 2 then s.n + 1 else s.n

/-- Coefficients of one polynomial piece `a + b t + c t² + d t³`. -/
structure Piece (K : Type*) where
  a : K
  b : K
  c : K
  d : K

/-- `scipy/interpolate.py:294-315`, `:382-408`: the coefficients of piece `i`
(`c = d = 0` for `k = 1`, `d = 0` for `k = 2`). -/
def piece (s : Spline K) (i : ℕ) : Piece K :=
  let h := diff s.knots i
  if s.k = 1 then { a := s.y i, b := s.coef i, c := 0, d := 0 }
  else if s.k = 2 then
    let dt := s.x i - s.knots i
    let b := s.coef i
    let b1 := s.coef (i + 1)
    { a := s.y i - b * dt - (b1 - b) * dt ^ 2 / (2 * h), b, c := (b1 - b) / (2 * h), d := 0 }
  else
    let c := s.coef i
    let c1 := s.coef (i + 1)
    let a := s.y i
    let a1 := s.y (i + 1)
    { a, b := (a1 - a) / h - (2 * c + c1) * h / 3, c, d := (c1 - c) / (3 * h) }

variable [LinearOrder K]

/-- `scipy/interpolate.py:290-292`, `:377-379`: the piece used at `xs`. -/
def pieceIx (s : Spline K) (xs : K) : ℕ :=
  (iclip ((digitize s.nKnots s.knots xs : ℤ) - 1) 0 ((s.nKnots : ℤ) - 2)).toNat

/-- `scipy/interpolate.py:245-268` `__call__` at one point (`k = 1`: `a + b t`; `k = 2` adds
`c t²`, `k = 3` adds `d t³`). -/
def call (s : Spline K) (xs : K) : K :=
  let i := s.pieceIx xs
  let t := xs - s.knots i
  let q := s.piece i
  if s.k = 1 then q.a + q.b * t
  else if s.k = 2 then q.a + q.b * t + q.c * t ^ 2
  else q.a + q.b * t + q.c * t ^ 2 + q.d * t ^ 3

/-- `scipy/interpolate.py:319-353` `derivative` at one point. -/
def derivative (s : Spline K) (xs : K) (n : ℕ := 1) : Except PyErr K :=
  if ¬ n < s.k + 1 then .error .assertionError
  else if n = 0 then .ok (s.call xs)
  else
    let i := s.pieceIx xs
    let t := xs - s.knots i
    let q := s.piece i
    if s.k = 1 then .ok q.b
    else if s.k = 2 then
      if n = 1 then .ok (q.b + 2 * q.c * t) else .ok (2 * q.c)
    else
      if n = 1 then .ok (q.b + 2 * q.c * t + 3 * q.d * t ^ 2)
      else if n = 2 then .ok (2 * q.c + 6 * q.d * t)
      else .ok (6 * q.d)

/-- `scipy/interpolate.py:355-421` `antiderivative` at one point. -/
def antiderivative (s : Spline K) (xs : K) : K :=
  let i := s.pieceIx xs
  let t := xs - s.knots i
  let h := diff s.knots
  let q := s.piece
  if s.k = 1 then
    let cst := cumsum0 fun j => (q j).a * h j + (q j).b * h j ^ 2 / 2
    cst i + (q i).a * t + (q i).b * t ^ 2 / 2
  else if s.k = 2 then
    let cst := cumsum0 fun j => (q j).a * h j + (q j).b * h j ^ 2 / 2 + (q j).c * h j ^ 3 / 3
    cst i + (q i).a * t + (q i).b * t ^ 2 / 2 + (q i).c * t ^ 3 / 3
  else
    let cst := cumsum0 fun j => (q j).a * h j + (q j).b * h j ^ 2 / 2 + (q j).c * h j ^ 3 / 3
      + (q j).d * h j ^ 4 / 4
    cst i + (q i).a * t + (q i).b * t ^ 2 / 2 + (q i).c * t ^ 3 / 3 + (q i).d * t ^ 4 / 4

/-- `scipy/interpolate.py:423-443` `integral`. -/
def integral (s : Spline K) (a b : K) : K :=
  let sign : K := if b < a then -1 else 1
  let lo := if b < a then b else a
  let hi := if b < a then a else b
  sign * (s.antiderivative hi - s.antiderivative lo)

end Spline

end JaxCosmo
