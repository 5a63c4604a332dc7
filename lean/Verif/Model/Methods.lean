import Verif.Model.Pytree

/-!
# Methods of the library's objects, on Python objects

What `pz_fn`, `zmax`, `gals_per_steradian`, `n_tracers`, `noise` and bias calls do with the attributes stored by a
constructor (`construct` in `Model/Pytree.lean`), including what they raise when the attributes are not what they
expect.  Simplification: a parameter documented as a number is a number, and a catalogue an array; anything else in
such a place is a `TypeError` here.
-/

namespace JaxCosmo

/-- The number in a value. -/
def PyVal.toNum : PyVal → Except PyErr ℝ
  | .num x => .ok x
  | _ => .error .typeError

/-- The array in a value, a number standing for a one-element array (`np.atleast_1d`, `redshift.py:127`). -/
def PyVal.toArr : PyVal → Except PyErr (List ℝ)
  | .num x => .ok [x]
  | .arr xs => .ok xs
  | _ => .error .typeError

/-- `pz_fn` of a distribution object as a function of redshift: `redshift.py:76-78` (unpacking three parameters,
`ValueError` for another number of them), `:94-96`, `:124-131` (`self.params[:2]`, `ValueError` when there are fewer;
`self.config["bw"]`, `KeyError` when absent; `np.dot` of incompatible shapes, `TypeError`), `:144-146`. -/
noncomputable def PyVal.pz : PyVal → Except PyErr (ℝ → ℝ)
  | .obj .smailNz [a, b, z0] _ _ _ => do
    let a ← a.toNum
    let b ← b.toNum
    let z0 ← z0.toNum
    return fun z => z ^ a * Real.exp (-((z / z0) ^ b))
  | .obj .smailNz _ _ _ _ => .error .valueError
  | .obj .deltaNz [z0] _ _ _ => do
    let z0 ← z0.toNum
    return fun z => if z = z0 then 1 else 0
  | .obj .deltaNz _ _ _ _ => .error .typeError
  | .obj .kdeNz (zcat :: weight :: _) config _ _ => do
    let w ← weight.toArr
    let q := w.sum
    let X ← zcat.toArr
    match kwGet config "bw" with
    | Option.none => .error .keyError
    | some bw => do
      let bw ← bw.toNum
      if X.length = w.length then
        return fun z => (List.zipWith (fun x w => Nz.kdeKernel bw x z * w) X w).sum / q
      else .error .typeError
  | .obj .kdeNz _ _ _ _ => .error .valueError
  | .obj .systematicShift (parent :: bias :: _) _ _ _ => do
    let f ← parent.pz
    let bias ← bias.toNum
    return fun z => f (clipLo (z - bias) 0)
  | .obj .systematicShift _ _ _ _ => .error .valueError
  | .obj (.userNz pz) _ _ _ _ => .ok pz
  | _ => .error .attributeError

/-- `redshift.py:34-36` property `zmax`. -/
def PyVal.zmaxOf : PyVal → Except PyErr ℝ
  | .obj cls _ config _ _ =>
    if cls.isNz then
      match kwGet config "zmax" with
      | Option.none => .error .keyError
      | some v => v.toNum
    else .error .attributeError
  | _ => .error .attributeError

/-- `redshift.py:45-48` property `gals_per_steradian`. -/
noncomputable def PyVal.galsPerSteradianOf : PyVal → Except PyErr ℝ
  | .obj cls _ _ gals _ => if cls.isNz then do return (← gals.toNum) * steradian_to_arcmin2 else .error .attributeError
  | _ => .error .attributeError

/-- `redshift.py:28-32` `__call__` at one redshift: the value. -/
noncomputable def PyVal.callNz (o : PyVal) (z : ℝ) : Except PyErr ℝ :=
  match o with
  | .obj _ _ _ _ norm => do
    let f ← o.pz
    match norm with
    | some n => return f z / n
    | Option.none => do
      let zm ← o.zmaxOf
      return f z / simpsBody f 0 zm 256
  | _ => .error .typeError

/-- A bias object called at one redshift: `bias.py:21-23`, `:38-40` (`self.params[0]`, `IndexError` when absent),
`:56-58` (three parameters unpacked, `ValueError` for another number of them). -/
noncomputable def PyVal.callBias (o : PyVal) (p : Params) (z : ℝ) : Except PyErr ℝ :=
  match o with
  | .obj .constantLinearBias (b :: _) _ _ _ => do return (← b.toNum) * 1
  | .obj .constantLinearBias [] _ _ _ => .error .indexError
  | .obj .inverseGrowthLinearBias (b :: _) _ _ _ => do return (← b.toNum) / growthOf p (z2a z)
  | .obj .inverseGrowthLinearBias [] _ _ _ => .error .indexError
  | .obj .desY1IaBias [A, eta, z0] _ _ _ => do
    return (← A.toNum) * ((1 + z) / (1 + (← z0.toNum))) ^ (← eta.toNum)
  | .obj .desY1IaBias _ _ _ _ => .error .valueError
  | _ => .error .typeError

/-- The redshift bins of a probe, `self.params[0]`. -/
def PyVal.binsOf : PyVal → Except PyErr (List PyVal)
  | .obj _ (.list bins :: _) _ _ _ => .ok bins
  | _ => .error .typeError

/-- `probes.py:172-179`, `:255-260` property `n_tracers`. -/
def PyVal.nTracersOf (o : PyVal) : Except PyErr ℕ := do return (← o.binsOf).length

/-- `probes.py:212-225` and `:276-283` `noise`. -/
noncomputable def PyVal.noiseOf (o : PyVal) : Except PyErr (List ℝ) :=
  match o with
  | .obj .weakLensing _ config _ _ => do
    let ngals ← (← o.binsOf).mapM PyVal.galsPerSteradianOf
    match kwGet config "sigma_e" with
    | some (.num s) => .ok (ngals.map fun n => s ^ 2 / n)
    | some (.list ss) => do bcast (fun s n => s ^ 2 / n) (← ss.mapM PyVal.toNum) ngals
    | _ => .error .typeError
  | .obj .numberCounts _ _ _ _ => do
    let ngals ← (← o.binsOf).mapM PyVal.galsPerSteradianOf
    return ngals.map fun n => 1 / n
  | _ => .error .attributeError

end JaxCosmo
