import Verif.Model.Redshift
import Verif.Model.Bias

/-!
# Model of `jax_cosmo/probes.py`

Kernels are given at one redshift and one multipole (the code broadcasts over redshifts); a kernel
is a list with one entry per redshift bin, i.e. one column of the `(nbins, nz)` array.
-/

namespace JaxCosmo

/-- What can sit in an optional argument of a probe: nothing, a number, a list of numbers, a bias
object, a list of bias objects. -/
inductive Val
  | none
  | num (x : ℝ)
  | nums (xs : List ℝ)
  | bias (b : Bias)
  | biases (bs : List Bias)

/-- Broadcasting of two arrays along the leading (bin) axis, elementwise operation `f`;
incompatible lengths raise `TypeError` (JAX, for operands of the same rank). -/
def bcast (f : ℝ → ℝ → ℝ) (xs ys : List ℝ) : Except PyErr (List ℝ) :=
  if xs.length = ys.length then .ok (List.zipWith f xs ys)
  else match xs, ys with
    | [x], _ => .ok (ys.map (f x))
    | _, [y] => .ok (xs.map (f · y))
    | _, _ => .error .typeError

/-- The cosmology seen inside a `@jit` function (`probes.py:18`, `:79`, `:104`): the argument is
flattened and unflattened (`core.py:99-142`). -/
def jitCosmo (p : Params) : Except PyErr Params :=
  let flat := (Cosmology.init p).treeFlatten
  (Cosmology.treeUnflatten flat.gammaGrowth flat.children).map (·.params)

/-- `probes.py:75`, `:130`: the ell-dependent factor. -/
noncomputable def ellFactor (ell : ℝ) : ℝ :=
  √((ell - 1) * ell * (ell + 1) * (ell + 2)) / (ell + 0.5) ^ 2

/-- `probes.py:33-35`: indices of extended distributions. -/
def extIdx (pzs : List Nz) : List ℕ :=
  (List.range pzs.length).filter fun i => !((pzs[i]?.map Nz.isDelta).getD false)

/-- `probes.py:36`: indices of delta distributions. -/
def deltaIdx (pzs : List Nz) : List ℕ :=
  (List.range pzs.length).filter fun i => (pzs[i]?.map Nz.isDelta).getD false

/-- `np.argsort` of a list of integers (stable), `probes.py:40`. -/
def argsort (l : List ℕ) : List ℕ :=
  (List.range l.length).mergeSort fun i j => decide (l.getD i 0 ≤ l.getD j 0)

/-- The redshift plane `pzs[i].params[0]` of a delta distribution (`probes.py:63`). -/
def Nz.plane : Nz → ℝ
  | .delta z0 _ _ => z0
  | _ => 0

/-- `probes.py:46-53`: the row of an extended distribution. -/
noncomputable def extRow (p : Params) (zmax z : ℝ) (pz : Nz) : ℝ :=
  let chi := chiOf p (z2a z)
  simpsBody (fun z' =>
    let chi' := chiOf p (z2a z')
    pz.eval z' * clipLo (chi' - chi) 0 / clipLo chi' 1) z zmax 256 * (1 + z) * chi

/-- `probes.py:57-66`: the row of a single plane. -/
noncomputable def deltaRow (p : Params) (z : ℝ) (pz : Nz) : ℝ :=
  let chi := chiOf p (z2a z)
  let chi' := chiOf p (z2a pz.plane)
  clipLo (chi' - chi) 0 / clipLo chi' 1 * (1 + z) * chi

/-- `probes.py:18-76` `weak_lensing_kernel(cosmo, pzs, z, ell)`. -/
noncomputable def weakLensingKernel (p0 : Params) (pzs : List Nz) (z ell : ℝ) :
    Except PyErr (List ℝ) := do
  let p ← jitCosmo p0
  let zmax ← pyMax (pzs.map Nz.zmax)
  let ext := extIdx pzs
  let del := deltaIdx pzs
  let perm := ext ++ del
  let inv := argsort perm
  let extRows := ext.map fun i => extRow p zmax z (pzs.getD i (.delta 0 0 0))
  let delRows := del.map fun i => deltaRow p z (pzs.getD i (.delta 0 0 0))
  let radial := extRows ++ delRows
  let radial := inv.map fun i => radial.getD i 0
  let constant_factor := 3 * const_H0 ^ 2 * p.Omega_m / 2 / const_c
  return radial.map fun r => constant_factor * ellFactor ell * r

/-- `probes.py:91-95`, `:116-120`: bias per bin; calling something that is not a bias raises
`TypeError`; `np.stack` of an empty list raises `ValueError`. -/
noncomputable def biasRows (p : Params) (bias : Val) (z : ℝ) : Except PyErr (List ℝ) :=
  match bias with
  | .bias b => .ok [b.call p z]
  | .biases [] => .error .valueError
  | .biases bs => .ok (bs.map fun b => b.call p z)
  | .nums [] => .error .valueError
  | _ => .error .typeError

/-- `probes.py:79-101` `density_kernel(cosmo, pzs, bias, z, ell)`. -/
noncomputable def densityKernel (p0 : Params) (pzs : List Nz) (bias : Val) (z _ell : ℝ) :
    Except PyErr (List ℝ) := do
  let p ← jitCosmo p0
  if pzs.any Nz.isDelta then .error .notImplementedError
  else if pzs.isEmpty then .error .valueError
  else
    let dndz := pzs.map fun pz => pz.eval z
    let b ← biasRows p bias z
    let radial ← bcast (· * ·) dndz b
    return radial.map fun r => 1 * 1 * (r * H p (z2a z))

/-- `probes.py:104-131` `nla_kernel(cosmo, pzs, bias, z, ell)`. -/
noncomputable def nlaKernel (p0 : Params) (pzs : List Nz) (bias : Val) (z ell : ℝ) :
    Except PyErr (List ℝ) := do
  let p ← jitCosmo p0
  if pzs.any Nz.isDelta then .error .notImplementedError
  else if pzs.isEmpty then .error .valueError
  else
    let dndz := pzs.map fun pz => pz.eval z
    let b ← biasRows p bias z
    let radial ← bcast (· * ·) dndz b
    let norm := -(5e-14 * const_rhocrit) * p.Omega_m / growthOf p (z2a z)
    return radial.map fun r => 1 * ellFactor ell * (r * H p (z2a z) * norm)

/-- A `WeakLensing` object: `params = (redshift_bins, param1) + (param2,)?` and the configuration
(`probes.py:152-170`). -/
structure WeakLensing where
  bins : List Nz
  param1 : Val
  param2 : Option Val
  sigma_e : Val
  ia_enabled : Bool

/-- `probes.py:152-170` `WeakLensing.__init__`; `iaEnabledKw` is the keyword `ia_enabled` that
`tree_unflatten` passes on. -/
noncomputable def WeakLensing.init (bins : List Nz) (ia_bias : Val := .none)
    (multiplicative_bias : Val := .num 0) (sigma_e : Val := .num 0.26)
    (iaEnabledKw : Option Bool := none) : WeakLensing :=
  match ia_bias with
  | .none =>
    { bins, param1 := multiplicative_bias, param2 := none, sigma_e,
      ia_enabled := iaEnabledKw.getD false }
  | ia =>
    { bins, param1 := multiplicative_bias, param2 := some ia, sigma_e,
      ia_enabled := iaEnabledKw.getD true }

/-- `probes.py:207-209` and the trailing `kernel *= 1.0 + m`. -/
noncomputable def applyM (kernel : List ℝ) (m : Val) : Except PyErr (List ℝ) :=
  match m with
  | .num x => .ok (kernel.map fun k => k * (1 + x))
  | .nums [] => .error .valueError
  | .nums ms => bcast (fun k x => k * (1 + x)) kernel ms
  | _ => .error .typeError

/-- `probes.py:190-210` `WeakLensing.kernel`. -/
noncomputable def WeakLensing.kernel (o : WeakLensing) (p : Params) (z ell : ℝ) :
    Except PyErr (List ℝ) := do
  let kernel ← weakLensingKernel p o.bins z ell
  let kernel ←
    if o.ia_enabled then
      match o.param2 with
      | none => .error .indexError
      | some bias => do
        let ia ← nlaKernel p o.bins bias z ell
        bcast (· + ·) kernel ia
    else pure kernel
  applyM kernel o.param1

/-- `probes.py:212-225` `WeakLensing.noise`. -/
noncomputable def WeakLensing.noise (o : WeakLensing) : Except PyErr (List ℝ) :=
  let ngals := o.bins.map Nz.galsPerSteradian
  match o.sigma_e with
  | .num s => .ok (ngals.map fun n => s ^ 2 / n)
  | .nums ss => bcast (fun s n => s ^ 2 / n) ss ngals
  | _ => .error .typeError

/-- A `NumberCounts` object (`probes.py:229-244`). -/
structure NumberCounts where
  bins : List Nz
  bias : Val
  has_rsd : Bool

/-- `probes.py:241-244` `NumberCounts.__init__`. -/
def NumberCounts.init (bins : List Nz) (bias : Val) (has_rsd : Bool := false) : NumberCounts :=
  { bins, bias, has_rsd }

/-- `probes.py:262-274` `NumberCounts.kernel`. -/
noncomputable def NumberCounts.kernel (o : NumberCounts) (p : Params) (z ell : ℝ) :
    Except PyErr (List ℝ) := densityKernel p o.bins o.bias z ell

/-- `probes.py:276-283` `NumberCounts.noise`. -/
noncomputable def NumberCounts.noise (o : NumberCounts) : Except PyErr (List ℝ) :=
  .ok ((o.bins.map Nz.galsPerSteradian).map fun n => 1 / n)

/-- A probe. -/
inductive Probe
  | wl (o : WeakLensing)
  | nc (o : NumberCounts)

namespace Probe

/-- The first parameter of a probe: its redshift bins. -/
def bins : Probe → List Nz
  | wl o => o.bins
  | nc o => o.bins

/-- `probes.py:172-179`, `:255-260`. -/
def nTracers (pr : Probe) : ℕ := pr.bins.length

/-- `probes.py:181-188`, `:246-253`. -/
noncomputable def zmax (pr : Probe) : Except PyErr ℝ := pyMax (pr.bins.map Nz.zmax)

/-- `kernel` of either class. -/
noncomputable def kernel (pr : Probe) (p : Params) (z ell : ℝ) : Except PyErr (List ℝ) :=
  match pr with
  | wl o => o.kernel p z ell
  | nc o => o.kernel p z ell

/-- `noise` of either class. -/
noncomputable def noise (pr : Probe) : Except PyErr (List ℝ) :=
  match pr with
  | wl o => o.noise
  | nc o => o.noise

end Probe

end JaxCosmo
