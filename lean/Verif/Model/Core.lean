import Verif.Model.Numpy
import Mathlib.Analysis.SpecialFunctions.Pow.Real
import Mathlib.Analysis.SpecialFunctions.Sqrt

/-! # Model of `jax_cosmo/core.py`, `jax_cosmo/constants.py` and `jax_cosmo/parameters.py` -/

namespace JaxCosmo

/-! `constants.py` -/

/-- `constants.py:9` speed of light in km/s. -/
noncomputable def const_c : ℝ := 299792.458
/-- `constants.py:12` CMB temperature in K. -/
noncomputable def const_tcmb : ℝ := 2.726
/-- `constants.py:15` Hubble radius in Mpc/h. -/
noncomputable def const_rh : ℝ := 2997.92458
/-- `constants.py:21` Hubble constant in km/s/(Mpc/h). -/
noncomputable def const_H0 : ℝ := 100
/-- `constants.py:27` critical density. -/
noncomputable def const_rhocrit : ℝ := 2.7750 * 10 ^ 11

/-- The constructor arguments of `Cosmology`, `core.py:14`; `gamma` is optional. -/
structure Params where
  Omega_c : ℝ
  Omega_b : ℝ
  h : ℝ
  n_s : ℝ
  sigma8 : ℝ
  Omega_k : ℝ
  w0 : ℝ
  wa : ℝ
  gamma : Option ℝ

namespace Params
variable (p : Params)

/-- `core.py:146-147`. -/
noncomputable def Omega : ℝ := 1 - p.Omega_k
/-- `core.py:158-159`. -/
noncomputable def Omega_m : ℝ := p.Omega_b + p.Omega_c
/-- `core.py:162-163`. -/
noncomputable def Omega_de : ℝ := p.Omega - p.Omega_m
/-- `core.py:170-171` `k = -sign(Omega_k)` as an integer. -/
noncomputable def k : ℤ := -sgn p.Omega_k
/-- `core.py:174-175`. -/
noncomputable def sqrtk : ℝ := Real.sqrt |p.Omega_k|

end Params

/-- Entry of `cosmo._workspace["background.radial_comoving_distance"]`, `background.py:235`:
two tables of the same length. -/
structure ChiCache where
  n : ℕ
  a : ℕ → ℝ
  chi : ℕ → ℝ

/-- Entry of `cosmo._workspace["background.growth_factor"]`: with key `"f"` when written by
`_growth_factor_ODE` (`background.py:484`), without it when written by `_growth_factor_gamma`
(`background.py:544`). -/
structure GrowthCache where
  n : ℕ
  a : ℕ → ℝ
  g : ℕ → ℝ
  f : Option (ℕ → ℝ)

/-- A `Cosmology` object: parameters, the flag `_flags["gamma_growth"]` and the workspace
(`core.py:48-65`; the workspace dictionary only ever has two keys). -/
structure Cosmology where
  params : Params
  gammaGrowth : Bool
  wsChi : Option ChiCache
  wsGrowth : Option GrowthCache

/-- `core.py:48-65` `Cosmology.__init__`. -/
def Cosmology.init (p : Params) : Cosmology :=
  { params := p, gammaGrowth := p.gamma.isSome, wsChi := none, wsGrowth := none }

/-- What `tree_flatten` returns: the children and the flag dictionary (`core.py:114-117`). -/
structure FlatCosmology where
  children : List ℝ
  gammaGrowth : Bool

/-- `core.py:99-117` `tree_flatten`.  `self._gamma` is only read when the flag is set; it is then
a number because the flag is set from `gamma is not None`. -/
def Cosmology.treeFlatten (o : Cosmology) : FlatCosmology :=
  let params := [o.params.Omega_c, o.params.Omega_b, o.params.h, o.params.n_s, o.params.sigma8,
    o.params.Omega_k, o.params.w0, o.params.wa]
  { children := if o.gammaGrowth then params ++ o.params.gamma.toList else params
    gammaGrowth := o.gammaGrowth }

/-- `core.py:119-142` `tree_unflatten`.  Line 123 binds `children` to the result of
`list.reverse()`, which is `None`; so for a set flag `children.pop()` (line 128) raises
`AttributeError`. -/
def Cosmology.treeUnflatten (aux : Bool) (children : List ℝ) : Except PyErr Cosmology :=
  match children with
  | Omega_c :: Omega_b :: h :: n_s :: sigma8 :: Omega_k :: w0 :: wa :: _ =>
    if aux then .error .attributeError
    else .ok (Cosmology.init
      { Omega_c, Omega_b, h, n_s, sigma8, Omega_k, w0, wa, gamma := none })
  | _ => .error .valueError

/-- `parameters.py:10-20` `Planck15()`. -/
noncomputable def Planck15 : Params :=
  { Omega_c := 0.2589, Omega_b := 0.04860, Omega_k := 0, h := 0.6774, n_s := 0.9667,
    sigma8 := 0.8159, w0 := -1, wa := 0, gamma := none }

end JaxCosmo
