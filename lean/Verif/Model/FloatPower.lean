import Verif.Model.FloatRomb
import Verif.Model.Power

/-! # `sigmasqr` in floating point -/

namespace JaxCosmo

/-- Elementary functions as the library computes them. -/
structure Libm where
  exp : ℝ → ℝ
  sin : ℝ → ℝ
  cos : ℝ → ℝ

/-- The best possible library: every value is the rounding of the exact one. -/
noncomputable def Rounding.libm (A : Rounding) : Libm where
  exp x := A.rd (Real.exp x)
  sin x := A.rd (Real.sin x)
  cos x := A.rd (Real.cos x)

variable (A : Rounding) (L : Libm)

/-- `power.py:74` `w` with every operation rounded. -/
noncomputable def windowF (x : ℝ) : ℝ :=
  A.div (A.mul 3 (A.sub (L.sin x) (A.mul x (L.cos x)))) (A.mul (A.mul x x) x)

/-- `power.py:71-76` `int_sigma`; `P k` stands for `pk` as computed (line 75). -/
noncomputable def sigmaIntegrandF (P : ℝ → ℝ) (R logk : ℝ) : ℝ :=
  let k := L.exp logk
  let x := A.mul k R
  let w := windowF A L x
  let kw := A.mul k w
  A.mul (A.mul k (A.mul kw kw)) (P k)

/-- `power.py:57-79` `sigmasqr` with the default limits, whose logarithms are `-4` and `3`; `c` is the constant
`1 / (2 π ** 2)` as computed and `t` the orders of summation. -/
noncomputable def sigmasqrF (P : ℝ → ℝ) (R c : ℝ) (t : ℕ → SumTree) : Except PyErr ℝ := do
  let y ← rombF A (sigmaIntegrandF A L P R) (-4) 3 7 t
  return A.mul c y

end JaxCosmo
