import Verif.Model.Float
import Verif.Model.Interp

/-! # `interp` in floating point -/

namespace JaxCosmo
variable (A : Rounding)

/-- `scipy/interpolate.py:15-40` `interp` at one query point with every `+ - * /` rounded (`x ** 2` is one
multiplication). -/
noncomputable def interpF (n : ℕ) (xp fp : ℕ → ℝ) (x : ℝ) : ℝ :=
  let ind0 : ℕ := argmin n (fun i => A.mul (A.sub x (xp i)) (A.sub x (xp i)))
  let ind : ℤ := iclip ind0 1 ((n : ℤ) - 2)
  let xi := xp (ix n ind)
  let s := sgn (A.sub (clip x (xp (ix n 1)) (xp (ix n (-2)))) xi)
  let nb : ℤ := ind + copysign1 s
  let a := A.div (A.sub (fp (ix n nb)) (fp (ix n ind))) (A.sub (xp (ix n nb)) (xp (ix n ind)))
  let b := A.sub (fp (ix n ind)) (A.mul a (xp (ix n ind)))
  A.add (A.mul a x) b

end JaxCosmo
