import Verif.Model.Probes

/-!
# Model of the pytree registrations: `jax_utils.py`, `redshift.py:50-59`, `core.py:99-142`

Passing an object to a `jit`/`grad`/`vmap` function flattens it with `tree_flatten` into children
and static data, and rebuilds it with `tree_unflatten`.  Children that are themselves registered
objects (redshift bins, bias objects) or lists are flattened and rebuilt recursively; `None` is an
empty pytree; the static data (the configuration dictionary) is passed on unchanged.
-/

namespace JaxCosmo

/-- The registered subclasses of `container`: `bias.py`, `redshift.py`, `probes.py`, and a
user-defined subclass of `redshift_distribution` with its own `pz_fn`. -/
inductive Cls
  | constantLinearBias | inverseGrowthLinearBias | desY1IaBias
  | smailNz | deltaNz | kdeNz | systematicShift | userNz (pz : ℝ → ℝ)
  | weakLensing | numberCounts

/-- Is the class a subclass of `redshift_distribution`? -/
def Cls.isNz : Cls → Bool
  | .smailNz | .deltaNz | .kdeNz | .systematicShift | .userNz _ => true
  | _ => false

/-- Python values.  An object carries its class, `self.params` (a tuple), `self.config` (a
dictionary) and, for redshift distributions, `self._gals_per_arcmin2` and `self._norm` (for other
classes `gals` is `.none` and `norm` is `none`). -/
inductive PyVal
  | none
  | bool (b : Bool)
  | num (x : ℝ)
  | arr (xs : List ℝ)
  | list (xs : List PyVal)
  | obj (cls : Cls) (params : List PyVal) (config : List (String × PyVal)) (gals : PyVal)
      (norm : Option ℝ)

/-- Value of a keyword argument. -/
def kwGet (kw : List (String × PyVal)) (key : String) : Option PyVal :=
  (kw.find? fun e => e.1 == key).map (·.2)

/-- The keyword arguments not among the named parameters: what `**kwargs` collects. -/
def kwRest (kw : List (String × PyVal)) (names : List String) : List (String × PyVal) :=
  kw.filter fun e => !names.contains e.1

/-- Python's binding of positional and keyword arguments to named parameters: too many positional
arguments, or a parameter given twice, raise `TypeError`. -/
def bindArgs (names : List String) (args : List PyVal) (kw : List (String × PyVal)) :
    Except PyErr (List (String × PyVal)) :=
  let pos := names.zip args
  if args.length > names.length then .error .typeError
  else if kw.any fun e => pos.any fun q => q.1 == e.1 then .error .typeError
  else .ok (pos ++ kw.filter fun e => names.contains e.1)

/-- `redshift.py:19`, `:92`: `_norm` of a new object. -/
def Cls.initNorm : Cls → Option ℝ
  | .deltaNz => some 1
  | _ => Option.none

/-- `cls(*args, **kw)`: `jax_utils.py:15-17` (`container.__init__`), `redshift.py:17-21` and
`:89-92`, `probes.py:152-170` (`WeakLensing`), `probes.py:241-244` (`NumberCounts`). -/
noncomputable def construct (cls : Cls) (args : List PyVal) (kw : List (String × PyVal)) :
    Except PyErr PyVal :=
  match cls with
  | .constantLinearBias | .inverseGrowthLinearBias | .desY1IaBias =>
    .ok (.obj cls args kw .none Option.none)
  | .smailNz | .deltaNz | .kdeNz | .systematicShift | .userNz _ =>
    let gals := (kwGet kw "gals_per_arcmin2").getD (.num 1)
    let zmax := (kwGet kw "zmax").getD (.num 10)
    .ok (.obj cls args (("zmax", zmax) :: kwRest kw ["gals_per_arcmin2", "zmax"]) gals cls.initNorm)
  | .weakLensing => do
    let names := ["redshift_bins", "ia_bias", "multiplicative_bias", "sigma_e"]
    let b ← bindArgs names args kw
    match kwGet b "redshift_bins" with
    | Option.none => .error .typeError
    | some bins =>
      let ia := (kwGet b "ia_bias").getD .none
      let m := (kwGet b "multiplicative_bias").getD (.num 0)
      let sigma_e := (kwGet b "sigma_e").getD (.num 0.26)
      let rest := kwRest kw names
      let (ia_enabled, params) := match ia with
        | .none => (false, [bins, m])
        | ia => (true, [bins, m, ia])
      let rest := if (kwGet rest "ia_enabled").isSome then rest
        else rest ++ [("ia_enabled", .bool ia_enabled)]
      .ok (.obj cls params (("sigma_e", sigma_e) :: rest) .none Option.none)
  | .numberCounts => do
    let names := ["redshift_bins", "bias", "has_rsd"]
    let b ← bindArgs names args kw
    match kwGet b "redshift_bins", kwGet b "bias" with
    | some bins, some bias =>
      let has_rsd := (kwGet b "has_rsd").getD (.bool false)
      .ok (.obj cls [bins, bias] (("has_rsd", has_rsd) :: kwRest kw names) .none Option.none)
    | _, _ => .error .typeError

/-- `tree_unflatten`: `jax_utils.py:28-30`; for redshift distributions `redshift.py:56-59`. -/
noncomputable def unflatten (cls : Cls) (config : List (String × PyVal)) (params : List PyVal)
    (gals : PyVal) : Except PyErr PyVal :=
  if cls.isNz then construct cls params (("gals_per_arcmin2", gals) :: config)
  else construct cls params config

mutual

/-- A trip through a `jit` boundary: `tree_flatten` (`jax_utils.py:23-26`, `redshift.py:51-54`), the
children rebuilt recursively, `tree_unflatten`. -/
noncomputable def PyVal.trip : PyVal → Except PyErr PyVal
  | .list xs => do return .list (← PyVal.tripAll xs)
  | .obj cls params config gals _ => do
    let params' ← PyVal.tripAll params
    let gals' ← gals.trip
    unflatten cls config params' gals'
  | .none => .ok .none
  | .bool b => .ok (.bool b)
  | .num x => .ok (.num x)
  | .arr xs => .ok (.arr xs)

/-- `trip` on every entry. -/
noncomputable def PyVal.tripAll : List PyVal → Except PyErr (List PyVal)
  | [] => .ok []
  | x :: xs => do
    let y ← x.trip
    let ys ← PyVal.tripAll xs
    return y :: ys

end

/-! ## The library's objects as Python values -/

/-- A bias object (`bias.py`). -/
def Bias.py : Bias → PyVal
  | .constant b => .obj .constantLinearBias [.num b] [] .none Option.none
  | .invGrowth b => .obj .inverseGrowthLinearBias [.num b] [] .none Option.none
  | .desY1 A eta z0 => .obj .desY1IaBias [.num A, .num eta, .num z0] [] .none Option.none

/-- An optional argument of a probe. -/
def Val.py : Val → PyVal
  | .none => .none
  | .num x => .num x
  | .nums xs => .list (xs.map .num)
  | .bias b => b.py
  | .biases bs => .list (bs.map Bias.py)

/-- A redshift distribution with attribute `_norm = norm` (`redshift.py`); the parent of a
`systematic_shift` is never called itself (`redshift.py:146` uses `parent_pz.pz_fn`). -/
def Nz.py : Nz → Option ℝ → PyVal
  | .smail a b z0 gals zmax, norm =>
    .obj .smailNz [.num a, .num b, .num z0] [("zmax", .num zmax)] (.num gals) norm
  | .delta z0 gals zmax, norm => .obj .deltaNz [.num z0] [("zmax", .num zmax)] (.num gals) norm
  | .kde cat bw gals zmax, norm =>
    .obj .kdeNz [.arr (cat.map (·.1)), .arr (cat.map (·.2))]
      [("zmax", .num zmax), ("bw", .num bw)] (.num gals) norm
  | .shift parent bias gals zmax, norm =>
    .obj .systematicShift [parent.py (if parent.isDelta then some 1 else Option.none), .num bias]
      [("zmax", .num zmax)] (.num gals) norm
  | .user pz gals zmax, norm => .obj (.userNz pz) [] [("zmax", .num zmax)] (.num gals) norm

/-- A distribution object. -/
def NzObj.py (o : NzObj) : PyVal := o.nz.py o.norm

/-- A newly made distribution. -/
def Nz.pyNew (nz : Nz) : PyVal := (NzObj.new nz).py

/-- A `NumberCounts` object. -/
def NumberCounts.py (o : NumberCounts) : PyVal :=
  .obj .numberCounts [.list (o.bins.map Nz.pyNew), o.bias.py] [("has_rsd", .bool o.has_rsd)]
    .none Option.none

/-- A `WeakLensing` object. -/
def WeakLensing.py (o : WeakLensing) : PyVal :=
  .obj .weakLensing (.list (o.bins.map Nz.pyNew) :: o.param1.py :: o.param2.toList.map Val.py)
    [("sigma_e", o.sigma_e.py), ("ia_enabled", .bool o.ia_enabled)] .none Option.none

/-! ## `WeakLensing` and `Cosmology` -/

/-- Children and auxiliary data of a `WeakLensing` object (`jax_utils.py:23-26`): the params tuple
and the configuration. -/
structure FlatWL where
  bins : List Nz
  rest : List Val
  sigma_e : Val
  ia_enabled : Bool

/-- `jax_utils.py:23-26` `tree_flatten`. -/
def WeakLensing.treeFlatten (o : WeakLensing) : FlatWL :=
  { bins := o.bins, rest := o.param1 :: o.param2.toList, sigma_e := o.sigma_e,
    ia_enabled := o.ia_enabled }

/-- `jax_utils.py:28-30` `tree_unflatten`: `WeakLensing(*children, sigma_e=…, ia_enabled=…)`.  The
children are positional, so they bind to `redshift_bins, ia_bias, multiplicative_bias` in this
order (`probes.py:152-159`); a fourth one would collide with the keyword `sigma_e`
(`TypeError`). -/
noncomputable def WeakLensing.treeUnflatten (f : FlatWL) : Except PyErr WeakLensing :=
  match f.rest with
  | [] => .ok (.init f.bins (sigma_e := f.sigma_e) (iaEnabledKw := some f.ia_enabled))
  | [ia] => .ok (.init f.bins ia (sigma_e := f.sigma_e) (iaEnabledKw := some f.ia_enabled))
  | [ia, m] => .ok (.init f.bins ia m f.sigma_e (some f.ia_enabled))
  | _ => .error .typeError

/-- A trip of a `WeakLensing` object through a `jit` boundary (the children come back unchanged;
proved equal to `PyVal.trip` in `Props/Pytree.lean`). -/
noncomputable def WeakLensing.roundTrip (o : WeakLensing) : Except PyErr WeakLensing :=
  WeakLensing.treeUnflatten o.treeFlatten

/-- Round trip of a cosmology (`core.py:99-142`). -/
def Cosmology.roundTrip (o : Cosmology) : Except PyErr Cosmology :=
  Cosmology.treeUnflatten o.treeFlatten.gammaGrowth o.treeFlatten.children

end JaxCosmo
