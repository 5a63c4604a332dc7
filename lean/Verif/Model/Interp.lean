import Verif.Model.Numpy

/-! # Model of `interp` in `jax_cosmo/scipy/interpolate.py` -/

namespace JaxCosmo
variable {K : Type*} [Field K] [LinearOrder K]

/-- `scipy/interpolate.py:15-40` `interp` at one query point `x` (the function is vmapped over
`x`), for tables `xp`, `fp` of length `n`. -/
def interp (n : ℕ) (xp fp : ℕ → K) (x : K) : K :=
  -- First we find the nearest neighbour
  let ind0 : ℕ := argmin n (fun i => (x - xp i) ^ 2)
  -- Perform linear interpolation
  let ind : ℤ := iclip ind0 1 ((n : ℤ) - 2)
  let xi := xp (ix n ind)
  -- Figure out if we are on the right or the left of nearest
  let s := sgn (clip x (xp (ix n 1)) (xp (ix n (-2))) - xi)
  let nb : ℤ := ind + copysign1 s
  let a := (fp (ix n nb) - fp (ix n ind)) / (xp (ix n nb) - xp (ix n ind))
  let b := fp (ix n ind) - a * xp (ix n ind)
  a * x + b

end JaxCosmo
