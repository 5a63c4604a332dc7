import Verif.Model.Dual
import Verif.Model.XrBackground
import Verif.Model.Background
import Verif.Model.Integrate

/-!
# Forward-mode differentiation of `background.py`, `interp`, `odeint`, `simps` and `romb`

The same functions as in `Model/Background.lean`, `Model/Interp.lean`, `Model/Ode.lean` and
`Model/Integrate.lean`, computed with numbers that carry a tangent (`Model/Dual.lean`).  Any
cosmological parameter and any argument may carry a tangent; the end points and lengths of static
grids do not.  `lax.scan` instantiates symbolic zeros of its carry; the model keeps them symbolic,
which makes no difference where all numbers are finite.
-/

namespace JaxCosmo

/-- The constructor arguments of `Cosmology` (`core.py:14`) with tangents. -/
structure DParams where
  Omega_c : Du
  Omega_b : Du
  h : Du
  n_s : Du
  sigma8 : Du
  Omega_k : Du
  w0 : Du
  wa : Du
  gamma : Option Du

namespace DParams
variable (p : DParams)

/-- `core.py:146-147`. -/
noncomputable def Omega : Du := 1 - p.Omega_k
/-- `core.py:158-159`. -/
noncomputable def Omega_m : Du := p.Omega_b + p.Omega_c
/-- `core.py:162-163`. -/
noncomputable def Omega_de : Du := p.Omega - p.Omega_m
/-- `core.py:170-171` `k = -sign(Omega_k)`, converted to an integer: no tangent. -/
noncomputable def k : ℤ := -Xm.sgn p.Omega_k.val
/-- `core.py:174-175`. -/
noncomputable def sqrtk : Du := p.Omega_k.abs.sqrt

end DParams

namespace Dm
open Du

/-! ## `scipy/interpolate.py`, `scipy/ode.py`, `scipy/integrate.py` -/

/-- `scipy/interpolate.py:15-40` `interp` at one query point; `argmin` and the sign are integers and carry no
tangent. -/
noncomputable def interp (n : ℕ) (xp fp : ℕ → Du) (x : Du) : Du :=
  let ind0 : ℕ := Xm.argminUpTo (fun i => ((x - xp i) ^ 2).val) (n - 1)
  let ind : ℤ := iclip ind0 1 ((n : ℤ) - 2)
  let xi := xp (ix n ind)
  let s := Xm.sgn (Du.min (Du.max x (xp (ix n 1))) (xp (ix n (-2))) - xi).val
  let nb : ℤ := ind + copysign1 s
  let a := (fp (ix n nb) - fp (ix n ind)) / (xp (ix n nb) - xp (ix n ind))
  let b := fp (ix n ind) - a * xp (ix n ind)
  a * x + b

/-- `scipy/ode.py:11-19` `rk4`. -/
noncomputable def rk4 {Y : Type*} [Add Y] [SMul Du Y] (fn : Y → Du → Y) (carry : Y × Du) (t : Du) :
    (Y × Du) × Y :=
  let y := carry.1
  let t_prev := carry.2
  let h := t - t_prev
  let k1 := fn y t_prev
  let k2 := fn (y + (h / 2) • k1) (t_prev + h / 2)
  let k3 := fn (y + (h / 2) • k2) (t_prev + h / 2)
  let k4 := fn (y + h • k3) t
  let y' := y + (1 / 6 * h) • (k1 + (2 : Du) • k2 + (2 : Du) • k3 + k4)
  ((y', t), y')

/-- `scipy/ode.py:6-22` `odeint`. -/
noncomputable def odeint {Y : Type*} [Add Y] [SMul Du Y] (fn : Y → Du → Y) (y0 : Y) (t : ℕ → Du)
    (i : ℕ) : Y := scanOut (rk4 fn) (y0, t 0) t i

/-- `np.linspace(a, b, n)[i]`. -/
noncomputable def linspace (a b : Du) (n i : ℕ) : Du :=
  a + Du.con (i : ℝ) * ((b - a) / (Du.con (n : ℝ) - 1))

/-- `scipy/integrate.py:163-200` `simps` for even `N`. -/
noncomputable def simps (f : Du → Du) (a b : Du) (N : ℕ) : Du :=
  let dx := (b - a) / Du.con (N : ℝ)
  let x := linspace a b (N + 1)
  let y := fun i => f (x i)
  dx / 3 * Du.sum (N / 2) fun i => y (2 * i) + 4 * y (2 * i + 1) + y (2 * i + 2)

/-- `scipy/integrate.py:59-65` `_romberg_diff`. -/
noncomputable def rombergDiff (b c : Du) (k : ℕ) : Du :=
  let tmp : Du := (4 : Du) ^ k
  (tmp * c - b) / (tmp - 1)

/-- `scipy/integrate.py:38-56` `_difftrapn`. -/
noncomputable def difftrapn (f : Du → Du) (a b : Du) (numtraps : ℕ) : Du :=
  let numtosum := numtraps / 2
  let h := (b - a) / Du.con (numtosum : ℝ)
  let lox := a + 1 / 2 * h
  Du.sum numtosum fun j => f (lox + h * Du.con (j : ℝ))

/-- `scipy/integrate.py:140-143` `scan_fn`. -/
noncomputable def rombScanFn (carry : Du × ℕ) (y : Du) : (Du × ℕ) × Du :=
  let x := rombergDiff y carry.1 (carry.2 + 1)
  ((x, carry.2 + 1), x)

/-- `scipy/integrate.py:135-155`: `(ordsum, state)` after `m` iterations. -/
noncomputable def rombLoop (f : Du → Du) (a b : Du) : ℕ → Du × (ℕ → Du)
  | 0 =>
    let ordsum := 1 / 2 * (f a + f b)
    (ordsum, fun _ => (b - a) * ordsum)
  | m + 1 =>
    let (ordsum0, state) := rombLoop f a b m
    let n : ℕ := 2 ^ (m + 1)
    let ordsum := ordsum0 + difftrapn f a b n
    let x := (b - a) * ordsum / Du.con (n : ℝ)
    (ordsum, fun j => if j = 0 then x else scanOut rombScanFn (x, 0) state (j - 1))

/-! ## `background.py` -/

/-- `background.py:25-53` `w`. -/
noncomputable def w (p : DParams) (a : Du) : Du := p.w0 + (1 - a) * p.wa

/-- `background.py:56-90` `f_de`. -/
noncomputable def f_de (p : DParams) (a : Du) : Du :=
  -3 * (1 + p.w0 + p.wa) * a.log + 3 * p.wa * (a - 1)

/-- `background.py:93-126` `Esqr`. -/
noncomputable def Esqr (p : DParams) (a : Du) : Du :=
  p.Omega_m * a.ninvpow 3 + p.Omega_k * a.ninvpow 2 + p.Omega_de * (f_de p a).exp

/-- `background.py:129-142` `H`. -/
noncomputable def H (p : DParams) (a : Du) : Du := Du.con const_H0 * (Esqr p a).sqrt

/-- `background.py:145-168` `Omega_m_a`. -/
noncomputable def Omega_m_a (p : DParams) (a : Du) : Du := p.Omega_m * a.ninvpow 3 / Esqr p a

/-- `background.py:171-196` `Omega_de_a`. -/
noncomputable def Omega_de_a (p : DParams) (a : Du) : Du :=
  p.Omega_de * (f_de p a).exp / Esqr p a

/-- `background.py:270-294` `dchioverda`. -/
noncomputable def dchioverda (p : DParams) (a : Du) : Du :=
  Du.con const_rh / (a ^ 2 * (Esqr p a).sqrt)

/-- `np.logspace(lo, 0.0, steps)[i]`. -/
noncomputable def logspace (lo : ℝ) (n i : ℕ) : Du :=
  (10 : Du).rpow (linspace (Du.con lo) 0 n i)

/-- `background.py:223-235`: the columns `(a, chi)` of the distance table. -/
noncomputable def chiTable (p : DParams) (log10_amin : ℝ) (steps : ℕ) : (ℕ → Du) × (ℕ → Du) :=
  let atab := logspace log10_amin steps
  let dchioverdlna : Du → Du → Du := fun _ x => let xa := x.exp; dchioverda p xa * xa
  let chitab := odeint dchioverdlna 0 (fun i => (atab i).log)
  (atab, fun i => chitab (ix steps (-1)) - chitab i)

/-- `background.py:465-475` `D_derivs`. -/
noncomputable def growthDerivs (p : DParams) (y : Du × Du) (x : Du) : Du × Du :=
  let q := (2 - 1 / 2 * (Omega_m_a p x + (1 + 3 * w p x) * Omega_de_a p x)) / x
  let r := 3 / 2 * Omega_m_a p x / x / x
  (y.2, -q * y.2 + r * y.1)

/-- `background.py:461-485`: the columns `(a, g, f)` of the growth table. -/
noncomputable def growthTableODE (p : DParams) (log10_amin : ℝ) (steps : ℕ) :
    (ℕ → Du) × (ℕ → Du) × (ℕ → Du) :=
  let atab := logspace log10_amin steps
  let y := odeint (growthDerivs p) (atab 0, 1) atab
  let y1 := fun i => (y i).1
  let gtab := fun i => y1 i / y1 (ix steps (-1))
  let ftab := fun i => (y i).2 / y1 (ix steps (-1)) * atab i / gtab i
  (atab, gtab, ftab)

/-- `background.py:551-582` `_growth_rate_gamma`. -/
noncomputable def growthRateGamma (p : DParams) (γ : Du) (a : Du) : Du :=
  (Omega_m_a p a).rpow γ

/-- `background.py:534-545`: the columns `(a, g)` of the growth table of `_growth_factor_gamma`. -/
noncomputable def growthTableGamma (p : DParams) (γ : Du) (log10_amin : ℝ) (steps : ℕ) :
    (ℕ → Du) × (ℕ → Du) :=
  let atab := logspace log10_amin steps
  let integrand : Du → Du → Du := fun _ loga => growthRateGamma p γ loga.exp
  let gtab := fun i => (odeint integrand (atab 0).log (fun i => (atab i).log) i).exp
  (atab, fun i => gtab i / gtab (ix steps (-1)))

/-- `background.py:199-242` `radial_comoving_distance` at one scale factor. -/
noncomputable def chiOf (p : DParams) (a : Du) : Du :=
  let c := chiTable p (-3) 256
  Du.max (interp 256 c.1 c.2 a) 0

/-- `background.py:245-267` `a_of_chi` at one distance. -/
noncomputable def aOf (p : DParams) (chi : Du) : Du :=
  let c := chiTable p (-3) 256
  interp 256 c.2 c.1 chi

/-- `background.py:371-398`, `:443-488`, `:515-548` `growth_factor` at one scale factor. -/
noncomputable def growthOf (p : DParams) (a : Du) : Du :=
  let c := match p.gamma with
    | none => ((growthTableODE p (-3) 128).1, (growthTableODE p (-3) 128).2.1)
    | some γ => growthTableGamma p γ (-3) 128
  Du.min (Du.max (interp 128 c.1 c.2 a) 0) 1

/-- `background.py:401-440`, `:491-512`, `:551-582` `growth_rate` at one scale factor. -/
noncomputable def growthRateOf (p : DParams) (a : Du) : Du :=
  match p.gamma with
  | some γ => growthRateGamma p γ a
  | none =>
    let c := growthTableODE p (-3) 128
    interp 128 c.1 c.2.2 a

/-- `background.py:297-344` `transverse_comoving_distance` at one scale factor. -/
noncomputable def transverse (p : DParams) (a : Du) : Du :=
  let chi := chiOf p a
  match (iclip (p.k + 1) 0 2).toNat with
  | 0 => Du.con const_rh / p.sqrtk * (p.sqrtk * chi / Du.con const_rh).sinh
  | 1 => chi
  | _ => Du.con const_rh / p.sqrtk * (p.sqrtk * chi / Du.con const_rh).sin

/-- `background.py:347-368` `angular_diameter_distance` at one scale factor. -/
noncomputable def angularDiameter (p : DParams) (a : Du) : Du := a * transverse p a

end Dm

end JaxCosmo
