import Verif.Model.Xr
import Verif.Model.Background
import Verif.Model.Integrate

/-!
# `background.py`, `interp`, `odeint`, `simps` and `romb` on numbers that may be exceptional

The same functions as in `Model/Background.lean`, `Model/Interp.lean`, `Model/Ode.lean` and
`Model/Integrate.lean`, computed with `Xr`.  Cosmological parameters and the end points and lengths
of static grids are finite; everything computed from them may be exceptional.
-/

namespace JaxCosmo.Xm
open Xr

/-! ## `scipy/interpolate.py`, `scipy/ode.py`, `scipy/integrate.py` -/

open Classical in
/-- `np.argmin` of `d 0, …, d m`: the first minimum, a NaN counting as smallest. -/
noncomputable def argminUpTo (d : ℕ → Xr) : ℕ → ℕ
  | 0 => 0
  | m + 1 =>
    let c := argminUpTo d m
    if d c = nan then c
    else if d (m + 1) = nan ∨ lt (d (m + 1)) (d c) then m + 1 else c

/-- `np.sign(x).astype(int)`. -/
noncomputable def sgn : Xr → ℤ
  | fin x => JaxCosmo.sgn x
  | pinf => 1
  | ninf => -1
  | nan => 0

/-- `scipy/interpolate.py:15-40` `interp` at one query point. -/
noncomputable def interp (n : ℕ) (xp fp : ℕ → Xr) (x : Xr) : Xr :=
  let ind0 : ℕ := argminUpTo (fun i => (x - xp i) ^ 2) (n - 1)
  let ind : ℤ := iclip ind0 1 ((n : ℤ) - 2)
  let xi := xp (ix n ind)
  let s := sgn (Xr.min (Xr.max x (xp (ix n 1))) (xp (ix n (-2))) - xi)
  let nb : ℤ := ind + copysign1 s
  let a := (fp (ix n nb) - fp (ix n ind)) / (xp (ix n nb) - xp (ix n ind))
  let b := fp (ix n ind) - a * xp (ix n ind)
  a * x + b

/-- `scipy/ode.py:11-19` `rk4`. -/
noncomputable def rk4 {Y : Type*} [Add Y] [SMul Xr Y] (fn : Y → Xr → Y) (carry : Y × Xr) (t : Xr) :
    (Y × Xr) × Y :=
  let y := carry.1
  let t_prev := carry.2
  let h := t - t_prev
  let k1 := fn y t_prev
  let k2 := fn (y + (h / 2) • k1) (t_prev + h / 2)
  let k3 := fn (y + (h / 2) • k2) (t_prev + h / 2)
  let k4 := fn (y + h • k3) t
  let y' := y + (1 / 6 * h) • (k1 + (2 : Xr) • k2 + (2 : Xr) • k3 + k4)
  ((y', t), y')

/-- `scipy/ode.py:6-22` `odeint`. -/
noncomputable def odeint {Y : Type*} [Add Y] [SMul Xr Y] (fn : Y → Xr → Y) (y0 : Y) (t : ℕ → Xr)
    (i : ℕ) : Y := scanOut (rk4 fn) (y0, t 0) t i

/-- `np.linspace(a, b, n)[i]`. -/
noncomputable def linspace (a b : Xr) (n i : ℕ) : Xr :=
  a + fin (i : ℝ) * ((b - a) / (fin (n : ℝ) - 1))

/-- `scipy/integrate.py:163-200` `simps` for even `N`. -/
noncomputable def simps (f : Xr → Xr) (a b : Xr) (N : ℕ) : Xr :=
  let dx := (b - a) / fin (N : ℝ)
  let x := linspace a b (N + 1)
  let y := fun i => f (x i)
  dx / 3 * Xr.sum (N / 2) fun i => y (2 * i) + 4 * y (2 * i + 1) + y (2 * i + 2)

/-- `scipy/integrate.py:59-65` `_romberg_diff`. -/
noncomputable def rombergDiff (b c : Xr) (k : ℕ) : Xr :=
  let tmp : Xr := (4 : Xr) ^ k
  (tmp * c - b) / (tmp - 1)

/-- `scipy/integrate.py:38-56` `_difftrapn`. -/
noncomputable def difftrapn (f : Xr → Xr) (a b : Xr) (numtraps : ℕ) : Xr :=
  let numtosum := numtraps / 2
  let h := (b - a) / fin (numtosum : ℝ)
  let lox := a + 1 / 2 * h
  Xr.sum numtosum fun j => f (lox + h * fin (j : ℝ))

/-- `scipy/integrate.py:140-143` `scan_fn`. -/
noncomputable def rombScanFn (carry : Xr × ℕ) (y : Xr) : (Xr × ℕ) × Xr :=
  let x := rombergDiff y carry.1 (carry.2 + 1)
  ((x, carry.2 + 1), x)

/-- `scipy/integrate.py:135-155`: `(ordsum, state)` after `m` iterations. -/
noncomputable def rombLoop (f : Xr → Xr) (a b : Xr) : ℕ → Xr × (ℕ → Xr)
  | 0 =>
    let ordsum := 1 / 2 * (f a + f b)
    (ordsum, fun _ => (b - a) * ordsum)
  | m + 1 =>
    let (ordsum0, state) := rombLoop f a b m
    let n : ℕ := 2 ^ (m + 1)
    let ordsum := ordsum0 + difftrapn f a b n
    let x := (b - a) * ordsum / fin (n : ℝ)
    (ordsum, fun j => if j = 0 then x else scanOut rombScanFn (x, 0) state (j - 1))

/-! ## `background.py` -/

/-- `background.py:25-53` `w`. -/
noncomputable def w (p : Params) (a : Xr) : Xr := fin p.w0 + (1 - a) * fin p.wa

/-- `background.py:56-90` `f_de`. -/
noncomputable def f_de (p : Params) (a : Xr) : Xr :=
  -3 * (1 + fin p.w0 + fin p.wa) * a.log + 3 * fin p.wa * (a - 1)

/-- `background.py:93-126` `Esqr`. -/
noncomputable def Esqr (p : Params) (a : Xr) : Xr :=
  fin p.Omega_m * a.ninvpow 3 + fin p.Omega_k * a.ninvpow 2 + fin p.Omega_de * (f_de p a).exp

/-- `background.py:129-142` `H`. -/
noncomputable def H (p : Params) (a : Xr) : Xr := fin const_H0 * (Esqr p a).sqrt

/-- `background.py:145-168` `Omega_m_a`. -/
noncomputable def Omega_m_a (p : Params) (a : Xr) : Xr := fin p.Omega_m * a.ninvpow 3 / Esqr p a

/-- `background.py:171-196` `Omega_de_a`. -/
noncomputable def Omega_de_a (p : Params) (a : Xr) : Xr :=
  fin p.Omega_de * (f_de p a).exp / Esqr p a

/-- `background.py:270-294` `dchioverda`. -/
noncomputable def dchioverda (p : Params) (a : Xr) : Xr :=
  fin const_rh / (a ^ 2 * (Esqr p a).sqrt)

/-- `np.logspace(lo, 0.0, steps)[i]`. -/
noncomputable def logspace (lo : ℝ) (n i : ℕ) : Xr :=
  rpow 10 (linspace (fin lo) 0 n i)

/-- `background.py:223-235`: the columns `(a, chi)` of the distance table. -/
noncomputable def chiTable (p : Params) (log10_amin : ℝ) (steps : ℕ) : (ℕ → Xr) × (ℕ → Xr) :=
  let atab := logspace log10_amin steps
  let dchioverdlna : Xr → Xr → Xr := fun _ x => let xa := x.exp; dchioverda p xa * xa
  let chitab := odeint dchioverdlna 0 (fun i => (atab i).log)
  (atab, fun i => chitab (ix steps (-1)) - chitab i)

/-- `background.py:465-475` `D_derivs`. -/
noncomputable def growthDerivs (p : Params) (y : Xr × Xr) (x : Xr) : Xr × Xr :=
  let q := (2 - 1 / 2 * (Omega_m_a p x + (1 + 3 * w p x) * Omega_de_a p x)) / x
  let r := 3 / 2 * Omega_m_a p x / x / x
  (y.2, -q * y.2 + r * y.1)

/-- `background.py:461-485`: the columns `(a, g, f)` of the growth table. -/
noncomputable def growthTableODE (p : Params) (log10_amin : ℝ) (steps : ℕ) :
    (ℕ → Xr) × (ℕ → Xr) × (ℕ → Xr) :=
  let atab := logspace log10_amin steps
  let y := odeint (growthDerivs p) (atab 0, 1) atab
  let y1 := fun i => (y i).1
  let gtab := fun i => y1 i / y1 (ix steps (-1))
  let ftab := fun i => (y i).2 / y1 (ix steps (-1)) * atab i / gtab i
  (atab, gtab, ftab)

/-- `background.py:551-582` `_growth_rate_gamma`. -/
noncomputable def growthRateGamma (p : Params) (γ : ℝ) (a : Xr) : Xr :=
  rpow (Omega_m_a p a) (fin γ)

/-- `background.py:534-545`: the columns `(a, g)` of the growth table of `_growth_factor_gamma`. -/
noncomputable def growthTableGamma (p : Params) (γ log10_amin : ℝ) (steps : ℕ) :
    (ℕ → Xr) × (ℕ → Xr) :=
  let atab := logspace log10_amin steps
  let integrand : Xr → Xr → Xr := fun _ loga => growthRateGamma p γ loga.exp
  let gtab := fun i => (odeint integrand (atab 0).log (fun i => (atab i).log) i).exp
  (atab, fun i => gtab i / gtab (ix steps (-1)))

/-- `background.py:199-242` `radial_comoving_distance` at one scale factor. -/
noncomputable def chiOf (p : Params) (a : Xr) : Xr :=
  let c := chiTable p (-3) 256
  Xr.max (interp 256 c.1 c.2 a) 0

/-- `background.py:245-267` `a_of_chi` at one distance. -/
noncomputable def aOf (p : Params) (chi : Xr) : Xr :=
  let c := chiTable p (-3) 256
  interp 256 c.2 c.1 chi

/-- `background.py:371-398`, `:443-488`, `:515-548` `growth_factor` at one scale factor. -/
noncomputable def growthOf (p : Params) (a : Xr) : Xr :=
  let c := match p.gamma with
    | none => ((growthTableODE p (-3) 128).1, (growthTableODE p (-3) 128).2.1)
    | some γ => growthTableGamma p γ (-3) 128
  Xr.min (Xr.max (interp 128 c.1 c.2 a) 0) 1

/-- `background.py:401-440`, `:491-512`, `:551-582` `growth_rate` at one scale factor. -/
noncomputable def growthRateOf (p : Params) (a : Xr) : Xr :=
  match p.gamma with
  | some γ => growthRateGamma p γ a
  | none =>
    let c := growthTableODE p (-3) 128
    interp 128 c.1 c.2.2 a

/-- `background.py:297-344` `transverse_comoving_distance` at one scale factor. -/
noncomputable def transverse (p : Params) (a : Xr) : Xr :=
  let chi := chiOf p a
  let sqrtk := (fin p.Omega_k).abs.sqrt
  match (iclip (p.k + 1) 0 2).toNat with
  | 0 => fin const_rh / sqrtk * (sqrtk * chi / fin const_rh).sinh
  | 1 => chi
  | _ => fin const_rh / sqrtk * (sqrtk * chi / fin const_rh).sin

/-- `background.py:347-368` `angular_diameter_distance` at one scale factor. -/
noncomputable def angularDiameter (p : Params) (a : Xr) : Xr := a * transverse p a

end JaxCosmo.Xm
