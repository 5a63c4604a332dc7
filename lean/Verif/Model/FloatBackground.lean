import Verif.Model.FloatInterp
import Verif.Model.Background

/-! # `radial_comoving_distance` in floating point -/

namespace JaxCosmo
variable (A : Rounding)

/-- `background.py:223-235`: the cache entry with every operation rounded.  `rate x` stands for `dchioverdlna` as
computed at the number `x` (lines 227-229), `a` for `np.logspace` as computed (line 225) and `t` for its logarithm as
computed (line 231). -/
noncomputable def chiTableF (rate : ℝ → ℝ) (a t : ℕ → ℝ) (steps : ℕ) : ChiCache :=
  let chitab := fun i => odeintF A (fun (_ : Unit → ℝ) x _ => rate x) (fun _ => 0) t i ()
  { n := steps, a := a, chi := fun i => A.sub (chitab (ix steps (-1))) (chitab i) }

/-- `background.py:240-242`: what is returned for one scale factor. -/
noncomputable def readChiF (c : ChiCache) (a : ℝ) : ℝ := clipLo (interpF A c.n c.a c.chi a) 0

/-! ### The expansion rate -/

/-- Elementary functions as the library computes them; `pow a n` is `np.power` with an integer exponent. -/
structure Elem where
  exp : ℝ → ℝ
  log : ℝ → ℝ
  sqrt : ℝ → ℝ
  pow : ℝ → ℤ → ℝ

/-- The best possible library: every value is the rounding of the exact one. -/
noncomputable def Rounding.elem (A : Rounding) : Elem where
  exp x := A.rd (Real.exp x)
  log x := A.rd (Real.log x)
  sqrt x := A.rd (Real.sqrt x)
  pow a n := A.rd (a ^ n)

namespace Params
variable (P : Params)

/-- `core.py:146-147` -/
def OmegaF : ℝ := A.sub 1 P.Omega_k
/-- `core.py:158-159` -/
def OmegaMF : ℝ := A.add P.Omega_b P.Omega_c
/-- `core.py:162-163` -/
def OmegaDeF : ℝ := A.sub (P.OmegaF A) (P.OmegaMF A)

end Params

variable (L : Elem) (P : Params)

/-- `background.py:90` `f_de` with every operation rounded. -/
noncomputable def f_deF (a : ℝ) : ℝ :=
  A.add (A.mul (A.mul (-3) (A.add (A.add 1 P.w0) P.wa)) (L.log a)) (A.mul (A.mul 3 P.wa) (A.sub a 1))

/-- `background.py:122-126` `Esqr` with every operation rounded. -/
noncomputable def EsqrF (a : ℝ) : ℝ :=
  A.add (A.add (A.mul (P.OmegaMF A) (L.pow a (-3))) (A.mul P.Omega_k (L.pow a (-2))))
    (A.mul (P.OmegaDeF A) (L.exp (f_deF A L P a)))

/-- `background.py:142` `H` with every operation rounded. -/
noncomputable def HF (a : ℝ) : ℝ := A.mul const_H0 (L.sqrt (EsqrF A L P a))

/-- `background.py:168` `Omega_m_a` with every operation rounded. -/
noncomputable def Omega_m_aF (a : ℝ) : ℝ := A.div (A.mul (P.OmegaMF A) (L.pow a (-3))) (EsqrF A L P a)

/-- `background.py:196` `Omega_de_a` with every operation rounded. -/
noncomputable def Omega_de_aF (a : ℝ) : ℝ :=
  A.div (A.mul (P.OmegaDeF A) (L.exp (f_deF A L P a))) (EsqrF A L P a)

/-- `background.py:294` `dchioverda` with every operation rounded; the Python constant `const.rh` enters as the nearest
floating-point number. -/
noncomputable def dchioverdaF (a : ℝ) : ℝ :=
  A.div (A.rd const_rh) (A.mul (A.mul a a) (L.sqrt (EsqrF A L P a)))

/-- `background.py:227-229` `dchioverdlna` with every operation rounded. -/
noncomputable def dchioverdlnaF (x : ℝ) : ℝ :=
  let xa := L.exp x
  A.mul (dchioverdaF A L P xa) xa

/-! ### Growth -/

/-- `background.py:53` `w` with every operation rounded. -/
noncomputable def wF (a : ℝ) : ℝ := A.add P.w0 (A.mul (A.sub 1 a) P.wa)

/-- `background.py:465-475` `D_derivs` with every operation rounded. -/
noncomputable def growthDerivsF (y : Fin 2 → ℝ) (x : ℝ) : Fin 2 → ℝ :=
  let q := A.div (A.sub 2 (A.mul (1 / 2) (A.add (Omega_m_aF A L P x)
    (A.mul (A.add 1 (A.mul 3 (wF A P x))) (Omega_de_aF A L P x))))) x
  let r := A.div (A.div (A.mul (3 / 2) (Omega_m_aF A L P x)) x) x
  ![y 1, A.add (A.mul (-q) (y 1)) (A.mul r (y 0))]

/-- `background.py:461-485`: the cache entry with every operation rounded; `a` stands for `np.logspace` as computed
(line 463). -/
noncomputable def growthTableF (a : ℕ → ℝ) (steps : ℕ) : GrowthCache :=
  let y := odeintF A (growthDerivsF A L P) ![a 0, 1] a
  let y1 := fun i => y i 0
  let gtab := fun i => A.div (y1 i) (y1 (ix steps (-1)))
  let ftab := fun i => A.div (A.mul (A.div (y i 1) (y1 (ix steps (-1)))) (a i)) (gtab i)
  { n := steps, a := a, g := gtab, f := some ftab }

/-- `background.py:488`: what is returned for one scale factor. -/
noncomputable def readGrowthF (c : GrowthCache) (a : ℝ) : ℝ := clip (interpF A c.n c.a c.g a) 0 1

end JaxCosmo
