import Verif.Model.Xr
import Verif.Model.Float

/-! # Floating-point arithmetic with a limited range of exponents

`Model/Float.lean` rounds but lets exponents grow without limit, `Model/Xr.lean` has infinities but does not round.  Here
operations do both: too large a result becomes an infinity and too small a one loses digits or becomes zero.  Zero has no
sign, as in `Model/Xr.lean`. -/

namespace JaxCosmo

/-- A binary format: digits, smallest and largest exponent of a normal number, and whether numbers below the normal ones are
replaced by zero, as XLA does on some processors. -/
structure Format where
  p : ℕ
  hp : 3 ≤ p
  emin : ℤ
  emax : ℤ
  flush : Bool

/-- IEEE 754 binary32, JAX's default. -/
def single (flush : Bool) : Format := ⟨24, by norm_num, -126, 127, flush⟩

namespace Format
variable (F : Format)

/-- The exact result `x` as stored. -/
noncomputable def rnd (x : ℝ) : Xr :=
  let s := (2 : ℝ) ^ ((F.p : ℤ) - 1 - max (Int.log 2 |x|) F.emin)
  let y := roundEven (x * s) / s
  if 2 ^ (F.emax + 1) ≤ |y| then Xr.infSign x
  else if F.flush ∧ |y| < 2 ^ F.emin then .fin 0
  else .fin y

/-- Results that are already exceptional stay as they are. -/
noncomputable def store : Xr → Xr
  | .fin x => F.rnd x
  | x => x

/-- `x + y` -/
noncomputable def add (x y : Xr) : Xr := F.store (x + y)
/-- `x - y` -/
noncomputable def sub (x y : Xr) : Xr := F.store (x - y)
/-- `x * y` -/
noncomputable def mul (x y : Xr) : Xr := F.store (x * y)
/-- `x / y` -/
noncomputable def div (x y : Xr) : Xr := F.store (x / y)

end Format

variable (F : Format)

/-- `np.sum` in the order `t`. -/
noncomputable def SumTree.sumR (x : ℕ → Xr) : SumTree → Xr
  | leaf i => x i
  | node l r => F.add (l.sumR x) (r.sumR x)

/-- `angular_cl.py:145-156` for one tracer, as `oneCovF`. -/
noncomputable def oneCovR (obs norm : ℕ → Xr) (l : ℕ) : Xr :=
  F.div (F.add (F.mul (obs l) (obs l)) (F.mul (obs l) (obs l))) (norm l)

/-- `likelihood.py:37-41` for one spectrum, as `chi2F`. -/
noncomputable def chi2R (t : SumTree) (data mu C : ℕ → Xr) : Xr :=
  let r := fun i => F.sub (mu i) (data i)
  let Cinv := fun i => F.div (.fin 1) (C i)
  t.sumR F fun i => F.mul (r i) (F.mul (Cinv i) (r i))

/-- `likelihood.py:6-61` without the determinant, for one spectrum with its Gaussian covariance. -/
noncomputable def fitR (t : SumTree) (data mu obs norm : ℕ → Xr) : Xr := chi2R F t data mu (oneCovR F obs norm)

end JaxCosmo
