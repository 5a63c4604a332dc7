import Verif.Model.Numpy

/-! # Model of `jax_cosmo/scipy/integrate.py` -/

namespace JaxCosmo
variable {K : Type*} [Field K]

/-- `scipy/integrate.py:22-35` `_difftrap1` with `interval = [a, b]`. -/
def difftrap1 (f : K → K) (a b : K) : K := (1 / 2) * (f a + f b)

/-- `scipy/integrate.py:38-56` `_difftrapn` with `interval = [a, b]`:
the sum of `f` over the midpoints of `numtraps // 2` equal panels. -/
def difftrapn (f : K → K) (a b : K) (numtraps : ℕ) : K :=
  let numtosum := numtraps / 2
  let h := (b - a) / (numtosum : K)
  let lox := a + (1 / 2) * h
  ∑ j ∈ Finset.range numtosum, f (lox + h * (j : K))

/-- `scipy/integrate.py:59-65` `_romberg_diff`. -/
def rombergDiff (b c : K) (k : ℕ) : K :=
  let tmp : K := 4 ^ k
  (tmp * c - b) / (tmp - 1)

/-- `scipy/integrate.py:140-143` `scan_fn`: carry `(x, k)`, item `y`. -/
def rombScanFn (carry : K × ℕ) (y : K) : (K × ℕ) × K :=
  let x := rombergDiff y carry.1 (carry.2 + 1)
  ((x, carry.2 + 1), x)

/-- `scipy/integrate.py:145-155`: variables `(ordsum, state, err)` after iterations
`i = 1, …, m` of the loop, `state` being an array of length `divmax + 1`
(initially the one-panel trapezoid repeated, lines 135-138).  `np.concatenate([[x], new_state])`
is the array whose entry 0 is `x` and whose entry `j + 1` is output `j` of the scan over
`state[:-1]`. -/
def rombLoop (f : K → K) (a b : K) : ℕ → K × (ℕ → K)
  | 0 =>
    let ordsum := difftrap1 f a b
    let result := (b - a) * ordsum
    (ordsum, fun _ => result)
  | m + 1 =>
    let (ordsum0, state) := rombLoop f a b m
    let i := m + 1
    let n : ℕ := 2 ^ i
    let ordsum := ordsum0 + difftrapn f a b n
    let x := (b - a) * ordsum / (n : K)
    let newState : ℕ → K := fun j => if j = 0 then x else scanOut rombScanFn (x, 0) state (j - 1)
    (ordsum, newState)

/-- `scipy/integrate.py:68-160` `romb` with `return_error=False`.  For `divmax = 0` the loop body
never runs and the loop variable `i` of the final `return state[i]` is unbound. -/
def romb (f : K → K) (a b : K) (divmax : ℕ) : Except PyErr K :=
  if divmax = 0 then .error .unboundLocalError
  else .ok ((rombLoop f a b divmax).2 divmax)

/-- `scipy/integrate.py:153`, `:157-158`: the `err` returned with `return_error=True`. -/
def rombErr [LinearOrder K] (f : K → K) (a b : K) (divmax : ℕ) : Except PyErr K :=
  if divmax = 0 then .error .unboundLocalError
  else .ok |(rombLoop f a b (divmax - 1)).2 (divmax - 1) - (rombLoop f a b divmax).2 divmax|

/-- `scipy/integrate.py:196-200`: the body of `simps` for one component of the integrand.
`y[0:-1:2]`, `y[1::2]`, `y[2::2]` are the entries `2i`, `2i+1`, `2i+2` for `i < N/2`. -/
def simpsBody (f : K → K) (a b : K) (N : ℕ) : K :=
  let dx := (b - a) / (N : K)
  let x := linspace a b (N + 1)
  let y := fun i => f (x i)
  dx / 3 * ∑ i ∈ Finset.range (N / 2), (y (2 * i) + 4 * y (2 * i + 1) + y (2 * i + 2))

/-- `scipy/integrate.py:163-200` `simps`. -/
def simps (f : K → K) (a b : K) (N : ℕ) : Except PyErr K :=
  if N % 2 = 1 then .error .valueError
  else .ok (simpsBody f a b N)

end JaxCosmo
