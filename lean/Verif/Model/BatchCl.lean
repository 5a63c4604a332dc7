import Verif.Model.Batch
import Verif.Model.AngularCl

/-!
# `redshift.py`, `bias.py`, `probes.py` and `angular_cl.py` on arrays

`Model/Probes.lean` and `Model/AngularCl.lean` work at one redshift and one multipole.  Here the same functions act on
the arrays the code uses, with its `stack`, `concatenate`, `expand_dims`, transpositions and `vmap`s.  Shapes and indices
are written last axis first (`Model/Batch.lean`).

Simplifications: those of `Model/Batch.lean`; `vmap` with `out_axes=1` and a 1-d result is `vmap` followed by a
transposition; a user-defined `pz_fn` is elementwise.
-/

namespace JaxCosmo

namespace Nd

/-- `np.stack(xs, axis=0)`: nothing to stack, and different shapes, raise `ValueError`. -/
def stack0 (xs : List (Nd ℝ)) : Except PyErr (Nd ℝ) :=
  match xs with
  | [] => .error .valueError
  | x :: l =>
    if ∀ y ∈ l, y.shape = x.shape then
      .ok { shape := x.shape ++ [xs.length]
            val := fun i => (xs.getD (i.getLastD 0) x).val i.dropLast }
    else .error .valueError

/-- The slices along the first axis. -/
def rows (x : Nd ℝ) : List (Nd ℝ) := (List.range (x.shape.getLastD 0)).map x.at0

/-- `np.concatenate(xs, axis=0)`, also `np.vstack` of 2-d arrays: nothing to concatenate raises `ValueError`, other axes
of different lengths `TypeError`. -/
def concat0 (xs : List (Nd ℝ)) : Except PyErr (Nd ℝ) :=
  match xs with
  | [] => .error .valueError
  | x :: l =>
    if ∀ y ∈ l, y.shape.dropLast = x.shape.dropLast then
      .ok { shape := x.shape.dropLast ++ [(xs.flatMap rows).length]
            val := fun i => ((xs.flatMap rows).getD (i.getLastD 0) x).val i.dropLast }
    else .error .typeError

/-- `x[inds]` for a list of indices of the first axis. -/
def take0 (x : Nd ℝ) (inds : List ℕ) : Nd ℝ :=
  { shape := x.shape.dropLast ++ [inds.length]
    val := fun i => x.val (i.dropLast ++ [inds.getD (i.getLastD 0) 0]) }

/-- `x.T`. -/
def transpose (x : Nd ℝ) : Nd ℝ := { shape := x.shape.reverse, val := fun i => x.val i.reverse }

/-- `np.dot(x, w)` for a 1-d array `w`: the sum over the last axis. -/
noncomputable def dotVec (x : Nd ℝ) (w : List ℝ) : Except PyErr (Nd ℝ) :=
  if x.shape.headD 0 = w.length then
    .ok { shape := x.shape.tail
          val := fun i => ∑ c ∈ Finset.range w.length, x.val (c :: i) * w.getD c 0 }
  else .error .typeError

end Nd

/-- `scipy/integrate.py:163-200` `simps` with an array of lower limits, as called at `probes.py:53`: `np.linspace` puts
the nodes on a new first axis. -/
noncomputable def simpsLim (f : Nd ℝ → Except PyErr (Nd ℝ)) (a : Nd ℝ) (b : ℝ) (N : ℕ) : Except PyErr (Nd ℝ) :=
  if N % 2 = 1 then .error .valueError
  else do
    let dx := a.map fun a => (b - a) / (N : ℝ)
    let x : Nd ℝ := { shape := a.shape ++ [N + 1], val := fun i => linspace (a.val i.dropLast) b (N + 1) (i.getLastD 0) }
    let y ← f x
    let S : Nd ℝ :=
      { shape := y.shape.dropLast
        val := fun i => ∑ j ∈ Finset.range (N / 2),
          (y.val (i ++ [2 * j]) + 4 * y.val (i ++ [2 * j + 1]) + y.val (i ++ [2 * j + 2])) }
    Nd.map2 (fun dx S => dx / 3 * S) dx S

/-- `background.py:199-243` `radial_comoving_distance` on an array. -/
noncomputable def chiNd (p : Params) (a : Nd ℝ) : Except PyErr (Nd ℝ) :=
  let t := chiTable p (-3) 256
  (interpNd t.n t.a t.chi a.atleast1d).map (Nd.map fun x => clipLo x 0)

namespace Nz

/-- `pz_fn` on an array: `redshift.py:76-78`, `:94-96`, `:124-131`, `:144-146`. -/
noncomputable def pzNd : Nz → Nd ℝ → Except PyErr (Nd ℝ)
  | smail a b z0 _ _, z => .ok (z.map fun z => z ^ a * Real.exp (-((z / z0) ^ b)))
  | delta z0 _ _, z => .ok (z.map fun z => if z = z0 then 1 else 0)
  | kde cat bw _ _, z => do
    let w := cat.map fun e => e.2
    let q := w.sum
    let X := (Nd.vec cat.length fun c => (cat.map fun e => e.1).getD c 0).expand1
    let k ← Nd.map2 (kdeKernel bw) X z
    let s ← k.transpose.dotVec w
    .ok (s.map (· / q))
  | shift parent bias _ _, z => parent.pzNd (z.map fun z => clipLo (z - bias) 0)
  | user pz _ _, z => .ok (z.map pz)

/-- `redshift.py:28-32`: the normalisation `self._norm`. -/
noncomputable def normNd (nz : Nz) : Except PyErr (Nd ℝ) :=
  if nz.isDelta then .ok (.scalar 1) else simpsNd nz.pzNd 0 nz.zmax 256

/-- `redshift.py:28-32` `__call__` on an array, on a new object. -/
noncomputable def callNd (nz : Nz) (z : Nd ℝ) : Except PyErr (Nd ℝ) := do
  let norm ← nz.normNd
  let pz ← nz.pzNd z
  Nd.map2 (· / ·) pz norm

end Nz

/-- `bias.py:21-23`, `:38-40`, `:56-58`: calling a bias with an array. -/
noncomputable def Bias.callNd (p : Params) (z : Nd ℝ) : Bias → Except PyErr (Nd ℝ)
  | .constant b => .ok (z.map fun _ => b * 1)
  | .invGrowth b => (growthNd p (z.map z2a)).map (Nd.map (b / ·))
  | .desY1 A eta z0 => .ok (z.map fun z => A * ((1 + z) / (1 + z0)) ^ eta)

/-- `probes.py:46-51`: `integrand`, before `vmap`. -/
noncomputable def extIntegrandNd (p : Params) (pzs : List Nz) (chi z' : Nd ℝ) : Except PyErr (Nd ℝ) := do
  let chi' ← chiNd p (z'.map z2a)
  let rows ← pzs.mapM fun pz => pz.callNd z'
  let dndz ← Nd.stack0 rows
  let d ← Nd.map2 (fun u v => clipLo (u - v) 0) chi' chi
  let t ← Nd.map2 (· * ·) dndz d
  Nd.map2 (fun t c => t / clipLo c 1) t chi'

/-- `probes.py:57-60`: `integrand_single`, before `vmap`. -/
noncomputable def deltaIntegrandNd (p : Params) (chi z' : Nd ℝ) : Except PyErr (Nd ℝ) := do
  let chi' ← chiNd p (z'.map z2a)
  let d ← Nd.map2 (fun u v => clipLo (u - v) 0) chi' chi
  Nd.map2 (fun d c => d / clipLo c 1) d chi'

/-- `probes.py:53`, `:64-65`: the factors `* (1.0 + z) * chi`. -/
noncomputable def timesLens (K z chi : Nd ℝ) : Except PyErr (Nd ℝ) := do
  let K ← Nd.map2 (fun K z => K * (1 + z)) K z
  Nd.map2 (· * ·) K chi

/-- `probes.py:44-53`: the part of the extended distributions, if there are any. -/
noncomputable def extKernelNd (p : Params) (pzs : List Nz) (zmax : ℝ) (z chi : Nd ℝ) : Except PyErr (List (Nd ℝ)) :=
  if pzs = [] then .ok []
  else do
    let K ← simpsLim (fun x => x.vmap (extIntegrandNd p pzs chi)) z zmax 256
    let K ← timesLens K z chi
    .ok [K]

/-- `probes.py:55-65`: the part of the source planes, if there are any. -/
noncomputable def deltaKernelNd (p : Params) (planes : List ℝ) (z chi : Nd ℝ) : Except PyErr (List (Nd ℝ)) :=
  if planes = [] then .ok []
  else do
    let K ← (Nd.vec planes.length fun i => planes.getD i 0).vmap (deltaIntegrandNd p chi)
    let K ← timesLens K z chi
    .ok [K]

/-- `probes.py:18-76` `weak_lensing_kernel` on an array of redshifts. -/
noncomputable def weakLensingKernelNd (p0 : Params) (pzs : List Nz) (z : Nd ℝ) (ell : ℝ) : Except PyErr (Nd ℝ) := do
  let p ← jitCosmo p0
  let z := z.atleast1d
  let zmax ← pyMax (pzs.map Nz.zmax)
  let chi ← chiNd p (z.map z2a)
  let ext := extIdx pzs
  let del := deltaIdx pzs
  let inv := argsort (ext ++ del)
  let extK ← extKernelNd p (ext.map fun i => pzs.getD i (.delta 0 0 0)) zmax z chi
  let delK ← deltaKernelNd p (del.map fun i => (pzs.getD i (.delta 0 0 0)).plane) z chi
  let radial ← Nd.concat0 (extK ++ delK)
  let radial := radial.take0 inv
  let constant_factor := 3 * const_H0 ^ 2 * p.Omega_m / 2 / const_c
  return radial.map fun r => constant_factor * ellFactor ell * r

/-- `probes.py:91-95`, `:116-120`. -/
noncomputable def biasNd (p : Params) (bias : Val) (z : Nd ℝ) : Except PyErr (Nd ℝ) :=
  match bias with
  | .bias b => b.callNd p z
  | .biases bs => do
    let rows ← bs.mapM fun b => b.callNd p z
    Nd.stack0 rows
  | .nums [] => .error .valueError
  | _ => .error .typeError

/-- `probes.py:89-96`, `:114-121`: `dndz * b * H`. -/
noncomputable def radialNd (p : Params) (pzs : List Nz) (bias : Val) (z : Nd ℝ) : Except PyErr (Nd ℝ) := do
  let rows ← pzs.mapM fun pz => pz.callNd z
  let dndz ← Nd.stack0 rows
  let b ← biasNd p bias z
  let t ← Nd.map2 (· * ·) dndz b
  Nd.map2 (· * ·) t (z.map fun z => H p (z2a z))

/-- `probes.py:79-101` `density_kernel` on an array of redshifts. -/
noncomputable def densityKernelNd (p0 : Params) (pzs : List Nz) (bias : Val) (z : Nd ℝ) (_ell : ℝ) :
    Except PyErr (Nd ℝ) := do
  let p ← jitCosmo p0
  if pzs.any Nz.isDelta then .error .notImplementedError
  else
    let radial ← radialNd p pzs bias z
    return radial.map fun r => 1 * 1 * r

/-- `probes.py:104-131` `nla_kernel` on an array of redshifts. -/
noncomputable def nlaKernelNd (p0 : Params) (pzs : List Nz) (bias : Val) (z : Nd ℝ) (ell : ℝ) : Except PyErr (Nd ℝ) := do
  let p ← jitCosmo p0
  if pzs.any Nz.isDelta then .error .notImplementedError
  else
    let radial ← radialNd p pzs bias z
    let g ← growthNd p (z.map z2a)
    let radial ← Nd.map2 (fun r g => r * (-(5e-14 * const_rhocrit) * p.Omega_m / g)) radial g
    return radial.map fun r => 1 * ellFactor ell * r

/-- `probes.py:207-209`. -/
noncomputable def applyMNd (kernel : Nd ℝ) (m : Val) : Except PyErr (Nd ℝ) :=
  match m with
  | .num x => .ok (kernel.map fun k => k * (1 + x))
  | .nums [] => .error .valueError
  | .nums ms => Nd.map2 (fun k x => k * (1 + x)) kernel (Nd.vec ms.length fun i => ms.getD i 0).expand1
  | _ => .error .typeError

/-- `probes.py:190-210` `WeakLensing.kernel` on an array of redshifts. -/
noncomputable def WeakLensing.kernelNd (o : WeakLensing) (p : Params) (z : Nd ℝ) (ell : ℝ) : Except PyErr (Nd ℝ) := do
  let z := z.atleast1d
  let kernel ← weakLensingKernelNd p o.bins z ell
  let kernel ←
    if o.ia_enabled then
      match o.param2 with
      | none => .error .indexError
      | some bias => do
        let ia ← nlaKernelNd p o.bins bias z ell
        Nd.map2 (· + ·) kernel ia
    else pure kernel
  applyMNd kernel o.param1

/-- `probes.py:262-274` `NumberCounts.kernel` on an array of redshifts. -/
noncomputable def NumberCounts.kernelNd (o : NumberCounts) (p : Params) (z : Nd ℝ) (ell : ℝ) : Except PyErr (Nd ℝ) :=
  densityKernelNd p o.bins o.bias z.atleast1d ell

/-- `kernel` of either class. -/
noncomputable def Probe.kernelNd (pr : Probe) (p : Params) (z : Nd ℝ) (ell : ℝ) : Except PyErr (Nd ℝ) :=
  match pr with
  | .wl o => o.kernelNd p z ell
  | .nc o => o.kernelNd p z ell

/-- A nonlinear power spectrum on arrays (`power.py:270-277`). -/
abbrev NlNd := Params → Nd ℝ → Nd ℝ → (ℝ → ℝ) → Except PyErr (Nd ℝ)

/-- `angular_cl.py:71-96`: `result`, on the array of nodes. -/
noncomputable def limberNd (p : Params) (T : ℝ → ℝ) (nonlinear_fn : NlNd) (probes : List Probe) (ell : ℝ)
    (a : Nd ℝ) : Except PyErr (Nd ℝ) := do
  -- Step 1: retrieve the associated comoving distance
  let chi ← chiNd p a
  -- Step 2: get the power spectrum for this combination of chi and a
  let k := chi.map fun chi => (ell + 0.5) / clipLo chi 1
  let pk ← nonlinear_fn p k a T
  -- Compute the kernels for all probes
  let kernels ← probes.mapM fun pr => pr.kernelNd p (a.map a2z) ell
  let kernels ← Nd.concat0 kernels
  -- Compute all combinations of tracers
  let n := kernels.shape.getLastD 0
  let products ← (getClOrdering probes).mapM fun ij =>
    Nd.map2 (· * ·) (kernels.at0 (ix n ij.1)) (kernels.at0 (ix n ij.2))
  let kernels ← Nd.stack0 products
  let r ← Nd.map2 (· * ·) pk kernels
  let r ← Nd.map2 (fun r a => r * dchioverda p a) r a
  Nd.map2 (fun r chi => r / clipLo (chi ^ 2) 1) r chi

/-- `angular_cl.py:71-97` `integrand(a)`: `result.T`. -/
noncomputable def clIntegrandNd (p : Params) (T : ℝ → ℝ) (nonlinear_fn : NlNd) (probes : List Probe) (ell : ℝ)
    (a : Nd ℝ) : Except PyErr (Nd ℝ) := do
  let r ← limberNd p T nonlinear_fn probes ell a
  .ok r.transpose

/-- `angular_cl.py:69-99` `cl(ell)`, before `vmap`. -/
noncomputable def clNd (p : Params) (T : ℝ → ℝ) (nonlinear_fn : NlNd) (probes : List Probe) (zmax ell : ℝ) :
    Except PyErr (Nd ℝ) := do
  let s ← simpsNd (clIntegrandNd p T nonlinear_fn probes ell) (z2a zmax) 1 512
  return s.map fun x => x / const_c ^ 2

/-- `angular_cl.py:52-101` `angular_cl` with a multipole or a 1-d array of multipoles. -/
noncomputable def angularClNd (p : Params) (ell : NdArg) (probes : List Probe) (T : ℝ → ℝ)
    (nonlinear_fn : NlNd := fun p k a T => halofitNd p k a T) : Except PyErr (Nd ℝ) := do
  let zmax ← probesZmax probes
  let c ← ell.toNd.vmap fun ell => clNd p T nonlinear_fn probes zmax (ell.val [])
  return c.transpose

end JaxCosmo
