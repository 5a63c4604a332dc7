import Verif.Model.Core
import Verif.Model.Integrate
import Mathlib.Analysis.SpecialFunctions.Trigonometric.Basic

/-!
# Model of `jax_cosmo/redshift.py`

`Nz` lists the redshift distributions of the library plus a user-defined subclass of
`redshift_distribution` (the abstract method `pz_fn` is meant to be overridden).  Every constructor
carries the keyword arguments `gals_per_arcmin2` and `zmax`.
-/

namespace JaxCosmo

/-- `redshift.py:11`. -/
noncomputable def steradian_to_arcmin2 : ℝ := 11818102.86004228

/-- Instances of `redshift_distribution` (`redshift.py:16-146`).  Simplification: the catalogue of
`kde_nz` is a list of pairs (redshift, weight), i.e. `zcat` and `weights` have the same length. -/
inductive Nz
  /-- `smail_nz(a, b, z0)`, `redshift.py:62-78`. -/
  | smail (a b z0 gals zmax : ℝ)
  /-- `delta_nz(z0)`, `redshift.py:81-96`. -/
  | delta (z0 gals zmax : ℝ)
  /-- `kde_nz(zcat, weights, bw=bw)`, `redshift.py:99-131`. -/
  | kde (cat : List (ℝ × ℝ)) (bw gals zmax : ℝ)
  /-- `systematic_shift(parent, mean_bias)`, `redshift.py:134-146`. -/
  | shift (parent : Nz) (bias gals zmax : ℝ)
  /-- A user-defined subclass with its own `pz_fn`. -/
  | user (pz : ℝ → ℝ) (gals zmax : ℝ)

namespace Nz

/-- `systematic_shift(parent, mean_bias, gals_per_arcmin2=…, zmax=…)`: the constructor is the one of
the base class with its defaults, `redshift.py:17-21` and `:134-146`. -/
def systematicShift (parent : Nz) (bias : ℝ) (gals : ℝ := 1) (zmax : ℝ := 10) : Nz :=
  shift parent bias gals zmax

/-- `redshift.py:34-36` property `zmax`. -/
def zmax : Nz → ℝ
  | smail _ _ _ _ zm | delta _ _ zm | kde _ _ _ zm | shift _ _ _ zm | user _ _ zm => zm

/-- `redshift.py:38-43` property `gals_per_arcmin2`. -/
def gals : Nz → ℝ
  | smail _ _ _ g _ | delta _ g _ | kde _ _ g _ | shift _ _ g _ | user _ g _ => g

/-- `redshift.py:45-48` property `gals_per_steradian`. -/
noncomputable def galsPerSteradian (nz : Nz) : ℝ := nz.gals * steradian_to_arcmin2

/-- `redshift.py:118-122` `kde_nz._kernel`. -/
noncomputable def kdeKernel (bw X x : ℝ) : ℝ :=
  1 / √(2 * Real.pi) / bw * Real.exp (-((X - x) ^ 2) / (bw ^ 2 * 2))

/-- `pz_fn`: `redshift.py:76-78`, `:94-96`, `:124-131`, `:144-146`.  Simplification: line 96
compares `z` with the tuple `self.params`; the model compares with its only entry. -/
noncomputable def pzFn : Nz → ℝ → ℝ
  | smail a b z0 _ _, z => z ^ a * Real.exp (-((z / z0) ^ b))
  | delta z0 _ _, z => if z = z0 then 1 else 0
  | kde cat bw _ _, z =>
    let q := (cat.map fun e => e.2).sum
    (cat.map fun e => kdeKernel bw e.1 z * e.2).sum / q
  | shift parent bias _ _, z => parent.pzFn (clipLo (z - bias) 0)
  | user pz _ _, z => pz z

/-- `isinstance(pz, delta_nz)`. -/
def isDelta : Nz → Bool
  | delta .. => true
  | _ => false

end Nz

/-- A distribution object: the distribution together with its attribute `_norm`. -/
structure NzObj where
  nz : Nz
  norm : Option ℝ

/-- `redshift.py:17-21` and `:89-92`: a new object has `_norm = None`, except `delta_nz`
(`_norm = 1.0`). -/
def NzObj.new (nz : Nz) : NzObj := { nz, norm := if nz.isDelta then some 1 else none }

/-- `redshift.py:31`: the normalisation computed by the first call. -/
noncomputable def Nz.computedNorm (nz : Nz) : ℝ := simpsBody (fun t => nz.pzFn t) 0 nz.zmax 256

/-- `redshift.py:28-32` `__call__` at one redshift: the object afterwards and the value. -/
noncomputable def NzObj.call (o : NzObj) (z : ℝ) : NzObj × ℝ :=
  let norm := match o.norm with
    | none => o.nz.computedNorm
    | some n => n
  ({ o with norm := some norm }, o.nz.pzFn z / norm)

/-- Value of a call on a new object. -/
noncomputable def Nz.eval (nz : Nz) (z : ℝ) : ℝ := ((NzObj.new nz).call z).2

/-- `max([pz.zmax for pz in pzs])`, `probes.py:27`, `:188`, `:253`; `angular_cl.py:66`: Python's
`max` of an empty list raises `ValueError`. -/
noncomputable def pyMax : List ℝ → Except PyErr ℝ
  | [] => .error .valueError
  | x :: xs => .ok (xs.foldl max x)

end JaxCosmo
