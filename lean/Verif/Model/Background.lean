import Verif.Model.Core
import Verif.Model.Ode
import Verif.Model.Interp
import Mathlib.Analysis.SpecialFunctions.Trigonometric.Deriv

/-! # Model of `jax_cosmo/background.py` -/

namespace JaxCosmo

/-! ## Closed-form functions of the scale factor -/

/-- `background.py:25-53` `w`. -/
noncomputable def w (p : Params) (a : ℝ) : ℝ := p.w0 + (1 - a) * p.wa

/-- `background.py:56-90` `f_de`. -/
noncomputable def f_de (p : Params) (a : ℝ) : ℝ :=
  -3 * (1 + p.w0 + p.wa) * Real.log a + 3 * p.wa * (a - 1)

/-- `background.py:93-126` `Esqr`; `np.power(a, -3)` is `a` to the integer power `-3`. -/
noncomputable def Esqr (p : Params) (a : ℝ) : ℝ :=
  p.Omega_m * a ^ (-3 : ℤ) + p.Omega_k * a ^ (-2 : ℤ) + p.Omega_de * Real.exp (f_de p a)

/-- `background.py:129-142` `H`. -/
noncomputable def H (p : Params) (a : ℝ) : ℝ := const_H0 * Real.sqrt (Esqr p a)

/-- `background.py:145-168` `Omega_m_a`. -/
noncomputable def Omega_m_a (p : Params) (a : ℝ) : ℝ := p.Omega_m * a ^ (-3 : ℤ) / Esqr p a

/-- `background.py:171-196` `Omega_de_a`. -/
noncomputable def Omega_de_a (p : Params) (a : ℝ) : ℝ :=
  p.Omega_de * Real.exp (f_de p a) / Esqr p a

/-- `background.py:270-294` `dchioverda`. -/
noncomputable def dchioverda (p : Params) (a : ℝ) : ℝ :=
  const_rh / (a ^ 2 * Real.sqrt (Esqr p a))

/-! ## Tables -/

/-- `np.logspace(log10_amin, 0.0, steps)[i]`, used at `background.py:225`, `:463`, `:536`. -/
noncomputable def logspace (lo hi : ℝ) (n : ℕ) (i : ℕ) : ℝ := (10 : ℝ) ^ linspace lo hi n i

/-- `background.py:223-235`: the cache entry computed by `radial_comoving_distance`. -/
noncomputable def chiTable (p : Params) (log10_amin : ℝ) (steps : ℕ) : ChiCache :=
  let atab := logspace log10_amin 0 steps
  let dchioverdlna : ℝ → ℝ → ℝ := fun _ x => let xa := Real.exp x; dchioverda p xa * xa
  let chitab := odeint dchioverdlna 0 (fun i => Real.log (atab i))
  { n := steps, a := atab, chi := fun i => chitab (ix steps (-1)) - chitab i }

/-- `background.py:465-475` `D_derivs`. -/
noncomputable def growthDerivs (p : Params) (y : ℝ × ℝ) (x : ℝ) : ℝ × ℝ :=
  let q := (2 - (1 / 2) * (Omega_m_a p x + (1 + 3 * w p x) * Omega_de_a p x)) / x
  let r := 3 / 2 * Omega_m_a p x / x / x
  (y.2, -q * y.2 + r * y.1)

/-- `background.py:461-485`: the cache entry computed by `_growth_factor_ODE`. -/
noncomputable def growthTableODE (p : Params) (log10_amin : ℝ) (steps : ℕ) : GrowthCache :=
  let atab := logspace log10_amin 0 steps
  let y0 : ℝ × ℝ := (atab 0, 1)
  let y := odeint (growthDerivs p) y0 atab
  let y1 := fun i => (y i).1
  let gtab := fun i => y1 i / y1 (ix steps (-1))
  let ftab := fun i => (y i).2 / y1 (ix steps (-1)) * atab i / gtab i
  { n := steps, a := atab, g := gtab, f := some ftab }

/-- `background.py:551-582` `_growth_rate_gamma` for a given value of `cosmo.gamma`. -/
noncomputable def growthRateGamma (p : Params) (γ a : ℝ) : ℝ := Omega_m_a p a ^ γ

/-- `background.py:534-545`: the cache entry computed by `_growth_factor_gamma`. -/
noncomputable def growthTableGamma (p : Params) (γ log10_amin : ℝ) (steps : ℕ) : GrowthCache :=
  let atab := logspace log10_amin 0 steps
  let integrand : ℝ → ℝ → ℝ := fun _ loga => let xa := Real.exp loga; growthRateGamma p γ xa
  let gtab := fun i => Real.exp (odeint integrand (Real.log (atab 0)) (fun i => Real.log (atab i)) i)
  let gtab' := fun i => gtab i / gtab (ix steps (-1))
  { n := steps, a := atab, g := gtab', f := none }

/-! ## Reading the tables -/

/-- `background.py:242`: what `radial_comoving_distance` returns from a cache entry. -/
noncomputable def readChi (c : ChiCache) (a : ℝ) : ℝ := clipLo (interp c.n c.a c.chi a) 0

/-- `background.py:267`: what `a_of_chi` returns from a cache entry. -/
noncomputable def readAOfChi (c : ChiCache) (chi : ℝ) : ℝ := interp c.n c.chi c.a chi

/-- `background.py:488`, `:548`: what `growth_factor` returns from a cache entry. -/
noncomputable def readGrowth (c : GrowthCache) (a : ℝ) : ℝ := clip (interp c.n c.a c.g a) 0 1

/-- `background.py:329-344`: the curvature branch of `transverse_comoving_distance`.
`lax.switch` clamps its index to the number of branches. -/
noncomputable def transverseOf (p : Params) (chi : ℝ) : ℝ :=
  let open_universe := fun chi : ℝ => const_rh / p.sqrtk * Real.sinh (p.sqrtk * chi / const_rh)
  let flat_universe := fun chi : ℝ => chi
  let close_universe := fun chi : ℝ => const_rh / p.sqrtk * Real.sin (p.sqrtk * chi / const_rh)
  match (iclip (p.k + 1) 0 2).toNat with
  | 0 => open_universe chi
  | 1 => flat_universe chi
  | _ => close_universe chi

/-! ## Calls on a `Cosmology` object -/

/-- An `array_like` argument: a scalar or a 1-d array. -/
inductive ArrayLike
  | scalar (x : ℝ)
  | vec (xs : List ℝ)

/-- `np.atleast_1d`. -/
def ArrayLike.atleast1d : ArrayLike → ArrayLike
  | .scalar x => .vec [x]
  | .vec xs => .vec xs

/-- A function vmapped over axis 0 (`scipy/interpolate.py:15`): a scalar operand raises
`ValueError`. -/
def vmap1 (f : ℝ → ℝ) : ArrayLike → Except PyErr (List ℝ)
  | .scalar _ => .error .valueError
  | .vec xs => .ok (xs.map f)

/-- Lines `background.py:222-240`: the object after making sure that the distance table exists. -/
noncomputable def ensureChi (o : Cosmology) (log10_amin : ℝ) (steps : ℕ) : Cosmology × ChiCache :=
  match o.wsChi with
  | none =>
    let cache := chiTable o.params log10_amin steps
    ({ o with wsChi := some cache }, cache)
  | some cache => (o, cache)

/-- `background.py:199-242` `radial_comoving_distance(cosmo, a, log10_amin=-3, steps=256)`. -/
noncomputable def radialComovingDistance (o : Cosmology) (a : ArrayLike) (log10_amin : ℝ := -3)
    (steps : ℕ := 256) : Cosmology × Except PyErr (List ℝ) :=
  let (o', cache) := ensureChi o log10_amin steps
  (o', vmap1 (readChi cache) a.atleast1d)

/-- `background.py:245-267` `a_of_chi`: a missing table is created by
`radial_comoving_distance(cosmo, 1.0)`. -/
noncomputable def aOfChi (o : Cosmology) (chi : ArrayLike) : Cosmology × Except PyErr (List ℝ) :=
  let o' := match o.wsChi with
    | none => (radialComovingDistance o (.scalar 1)).1
    | some _ => o
  match o'.wsChi with
  | none => (o', .error .keyError)
  | some cache => (o', vmap1 (readAOfChi cache) chi.atleast1d)

/-- `background.py:297-344` `transverse_comoving_distance`. -/
noncomputable def transverseComovingDistance (o : Cosmology) (a : ArrayLike) :
    Cosmology × Except PyErr (List ℝ) :=
  let (o', chi) := radialComovingDistance o a
  (o', chi.map (List.map (transverseOf o.params)))

/-- `background.py:347-368` `angular_diameter_distance`: `a * f_k`, element by element (a scalar
multiplies the one-element array). -/
noncomputable def angularDiameterDistance (o : Cosmology) (a : ArrayLike) :
    Cosmology × Except PyErr (List ℝ) :=
  let (o', fk) := transverseComovingDistance o a
  (o', fk.map fun l => match a with
    | .scalar x => l.map (x * ·)
    | .vec xs => List.zipWith (· * ·) xs l)

/-- `background.py:443-488` `_growth_factor_ODE` (default settings). -/
noncomputable def growthFactorODE (o : Cosmology) (a : ArrayLike) :
    Cosmology × Except PyErr (List ℝ) :=
  match o.wsGrowth with
  | none =>
    let cache := growthTableODE o.params (-3) 128
    ({ o with wsGrowth := some cache }, vmap1 (readGrowth cache) a)
  | some cache => (o, vmap1 (readGrowth cache) a)

/-- `background.py:491-512` `_growth_rate_ODE`: a missing table is created by
`_growth_factor_ODE`; an entry without key `"f"` raises `KeyError`. -/
noncomputable def growthRateODE (o : Cosmology) (a : ArrayLike) :
    Cosmology × Except PyErr (List ℝ) :=
  let o' := match o.wsGrowth with
    | none => (growthFactorODE o (.vec [1])).1
    | some _ => o
  match o'.wsGrowth with
  | none => (o', .error .keyError)
  | some cache =>
    match cache.f with
    | none => (o', .error .keyError)
    | some f => (o', vmap1 (interp cache.n cache.a f) a)

/-- `background.py:515-548` `_growth_factor_gamma` (default settings); `x ** None` would raise
`TypeError`. -/
noncomputable def growthFactorGamma (o : Cosmology) (a : ArrayLike) :
    Cosmology × Except PyErr (List ℝ) :=
  match o.wsGrowth with
  | none =>
    match o.params.gamma with
    | none => (o, .error .typeError)
    | some γ =>
      let cache := growthTableGamma o.params γ (-3) 128
      ({ o with wsGrowth := some cache }, vmap1 (readGrowth cache) a)
  | some cache => (o, vmap1 (readGrowth cache) a)

/-- `background.py:371-398` `growth_factor`. -/
noncomputable def growthFactor (o : Cosmology) (a : ArrayLike) :
    Cosmology × Except PyErr (List ℝ) :=
  if o.gammaGrowth then growthFactorGamma o a else growthFactorODE o a

/-- `background.py:401-440` `growth_rate`; `_growth_rate_gamma` is elementwise, a scalar gives a
scalar (returned here as a one-element list). -/
noncomputable def growthRate (o : Cosmology) (a : ArrayLike) :
    Cosmology × Except PyErr (List ℝ) :=
  if o.gammaGrowth then
    match o.params.gamma with
    | none => (o, .error .typeError)
    | some γ => (o, .ok (match a with
        | .scalar x => [growthRateGamma o.params γ x]
        | .vec xs => xs.map (growthRateGamma o.params γ)))
  else growthRateODE o a

/-! ## Values on a fresh object, element by element

Downstream modules only call the functions above with default settings on 1-d arrays; these are
the values such a call returns (proved in `Props/Cache.lean` for every call history). -/

/-- Value of `radial_comoving_distance(cosmo, a)` at one scale factor. -/
noncomputable def chiOf (p : Params) (a : ℝ) : ℝ := readChi (chiTable p (-3) 256) a

/-- Value of `a_of_chi(cosmo, chi)` at one distance. -/
noncomputable def aOf (p : Params) (chi : ℝ) : ℝ := readAOfChi (chiTable p (-3) 256) chi

/-- The growth table of a fresh object. -/
noncomputable def growthTable (p : Params) : GrowthCache :=
  match p.gamma with
  | none => growthTableODE p (-3) 128
  | some γ => growthTableGamma p γ (-3) 128

/-- Value of `growth_factor(cosmo, a)` at one scale factor. -/
noncomputable def growthOf (p : Params) (a : ℝ) : ℝ := readGrowth (growthTable p) a

/-- Value of `growth_rate(cosmo, a)` at one scale factor. -/
noncomputable def growthRateOf (p : Params) (a : ℝ) : ℝ :=
  match p.gamma with
  | some γ => growthRateGamma p γ a
  | none =>
    let c := growthTableODE p (-3) 128
    match c.f with
    | some f => interp c.n c.a f a
    | none => 0

end JaxCosmo
