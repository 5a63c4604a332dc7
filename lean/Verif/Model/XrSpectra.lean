import Verif.Model.XrPower
import Verif.Model.AngularCl

/-!
# `redshift.py`, `bias.py`, `probes.py` and `angular_cl.py` on numbers that may be exceptional

The same functions as in `Model/Redshift.lean`, `Model/Bias.lean`, `Model/Probes.lean` and
`Model/AngularCl.lean`, computed with `Xr`.  The parameters of distributions, biases and probes are
finite; redshifts, multipoles and everything computed from them may be exceptional.
-/

namespace JaxCosmo.Xm
open Xr

/-- `utils.py:2-4` `z2a`. -/
noncomputable def z2a (z : Xr) : Xr := 1 / (1 + z)

/-- `utils.py:7-9` `a2z`. -/
noncomputable def a2z (a : Xr) : Xr := 1 / a - 1

/-- `np.sum` of a list. -/
noncomputable def lsum (l : List Xr) : Xr := l.foldr (· + ·) (fin 0)

/-! ## `redshift.py` -/

/-- `redshift.py:118-122` `kde_nz._kernel`. -/
noncomputable def kdeKernel (bw X : ℝ) (x : Xr) : Xr :=
  1 / (2 * fin Real.pi).sqrt / fin bw * (-((fin X - x) ^ 2) / (fin bw ^ 2 * 2)).exp

open Classical in
/-- `pz_fn`: `redshift.py:76-78`, `:94-96`, `:124-131`, `:144-146`.  A user-defined distribution
gives a finite number at a finite redshift and NaN otherwise. -/
noncomputable def pzFn : Nz → Xr → Xr
  | .smail a b z0 _ _, z => z.rpow (fin a) * (-((z / fin z0).rpow (fin b))).exp
  | .delta z0 _ _, z => if z = fin z0 then 1 else 0
  | .kde cat bw _ _, z =>
    let q := lsum (cat.map fun e => fin e.2)
    lsum (cat.map fun e => kdeKernel bw e.1 z * fin e.2) / q
  | .shift parent bias _ _, z => pzFn parent ((z - fin bias).max 0)
  | .user pz _ _, .fin z => fin (pz z)
  | .user _ _ _, _ => nan

/-- `redshift.py:31`: the normalisation computed by the first call. -/
noncomputable def computedNorm (nz : Nz) : Xr := simps (fun t => pzFn nz t) 0 (fin nz.zmax) 256

/-- `redshift.py:28-32` `__call__` on a new object (`_norm = 1.0` for `delta_nz`,
`redshift.py:89-92`). -/
noncomputable def nzEval (nz : Nz) (z : Xr) : Xr :=
  pzFn nz z / (if nz.isDelta then 1 else computedNorm nz)

/-! ## `bias.py` -/

/-- `__call__(cosmo, z)` at one redshift: `bias.py:21-23`, `:38-40`, `:56-58`. -/
noncomputable def biasCall (p : Params) (z : Xr) : Bias → Xr
  | .constant b => fin b * 1
  | .invGrowth b => fin b / growthOf p (z2a z)
  | .desY1 A eta z0 => fin A * ((1 + z) / (1 + fin z0)).rpow (fin eta)

/-! ## `probes.py` -/

/-- Broadcasting of two arrays along the leading (bin) axis, see `Model/Probes.lean`. -/
def bcast {α β : Type*} (f : α → β → Xr) (xs : List α) (ys : List β) : Except PyErr (List Xr) :=
  if xs.length = ys.length then .ok (List.zipWith f xs ys)
  else match xs, ys with
    | [x], _ => .ok (ys.map (f x))
    | _, [y] => .ok (xs.map (f · y))
    | _, _ => .error .typeError

/-- `probes.py:75`, `:130`: the ell-dependent factor. -/
noncomputable def ellFactor (ell : Xr) : Xr :=
  ((ell - 1) * ell * (ell + 1) * (ell + 2)).sqrt / (ell + 0.5) ^ 2

/-- `probes.py:46-53`: the row of an extended distribution. -/
noncomputable def extRow (p : Params) (zmax : ℝ) (z : Xr) (pz : Nz) : Xr :=
  let chi := chiOf p (z2a z)
  simps (fun z' =>
    let chi' := chiOf p (z2a z')
    nzEval pz z' * (chi' - chi).max 0 / chi'.max 1) z (fin zmax) 256 * (1 + z) * chi

/-- `probes.py:57-66`: the row of a single plane. -/
noncomputable def deltaRow (p : Params) (z : Xr) (pz : Nz) : Xr :=
  let chi := chiOf p (z2a z)
  let chi' := chiOf p (z2a (fin pz.plane))
  (chi' - chi).max 0 / chi'.max 1 * (1 + z) * chi

/-- `probes.py:18-76` `weak_lensing_kernel(cosmo, pzs, z, ell)`. -/
noncomputable def weakLensingKernel (p0 : Params) (pzs : List Nz) (z ell : Xr) :
    Except PyErr (List Xr) := do
  let p ← jitCosmo p0
  let zmax ← pyMax (pzs.map Nz.zmax)
  let ext := extIdx pzs
  let del := deltaIdx pzs
  let perm := ext ++ del
  let inv := argsort perm
  let extRows := ext.map fun i => extRow p zmax z (pzs.getD i (.delta 0 0 0))
  let delRows := del.map fun i => deltaRow p z (pzs.getD i (.delta 0 0 0))
  let radial := extRows ++ delRows
  let radial := inv.map fun i => radial.getD i 0
  let constant_factor := 3 * fin const_H0 ^ 2 * fin p.Omega_m / 2 / fin const_c
  return radial.map fun r => constant_factor * ellFactor ell * r

/-- `probes.py:91-95`, `:116-120`: bias per bin. -/
noncomputable def biasRows (p : Params) (bias : Val) (z : Xr) : Except PyErr (List Xr) :=
  match bias with
  | .bias b => .ok [biasCall p z b]
  | .biases [] => .error .valueError
  | .biases bs => .ok (bs.map fun b => biasCall p z b)
  | .nums [] => .error .valueError
  | _ => .error .typeError

/-- `probes.py:79-101` `density_kernel(cosmo, pzs, bias, z, ell)`. -/
noncomputable def densityKernel (p0 : Params) (pzs : List Nz) (bias : Val) (z _ell : Xr) :
    Except PyErr (List Xr) := do
  let p ← jitCosmo p0
  if pzs.any Nz.isDelta then .error .notImplementedError
  else if pzs.isEmpty then .error .valueError
  else
    let dndz := pzs.map fun pz => nzEval pz z
    let b ← biasRows p bias z
    let radial ← bcast (· * ·) dndz b
    return radial.map fun r => 1 * 1 * (r * H p (z2a z))

/-- `probes.py:104-131` `nla_kernel(cosmo, pzs, bias, z, ell)`. -/
noncomputable def nlaKernel (p0 : Params) (pzs : List Nz) (bias : Val) (z ell : Xr) :
    Except PyErr (List Xr) := do
  let p ← jitCosmo p0
  if pzs.any Nz.isDelta then .error .notImplementedError
  else if pzs.isEmpty then .error .valueError
  else
    let dndz := pzs.map fun pz => nzEval pz z
    let b ← biasRows p bias z
    let radial ← bcast (· * ·) dndz b
    let norm := -(5e-14 * fin const_rhocrit) * fin p.Omega_m / growthOf p (z2a z)
    return radial.map fun r => 1 * ellFactor ell * (r * H p (z2a z) * norm)

/-- `probes.py:207-209` and the trailing `kernel *= 1.0 + m`. -/
noncomputable def applyM (kernel : List Xr) (m : Val) : Except PyErr (List Xr) :=
  match m with
  | .num x => .ok (kernel.map fun k => k * (1 + fin x))
  | .nums [] => .error .valueError
  | .nums ms => bcast (fun k x => k * (1 + fin x)) kernel ms
  | _ => .error .typeError

/-- `probes.py:190-210` `WeakLensing.kernel`. -/
noncomputable def wlKernel (o : WeakLensing) (p : Params) (z ell : Xr) :
    Except PyErr (List Xr) := do
  let kernel ← weakLensingKernel p o.bins z ell
  let kernel ←
    if o.ia_enabled then
      match o.param2 with
      | none => .error .indexError
      | some bias => do
        let ia ← nlaKernel p o.bins bias z ell
        bcast (· + ·) kernel ia
    else pure kernel
  applyM kernel o.param1

/-- `kernel` of either class: `probes.py:190-210`, `:262-274`. -/
noncomputable def kernel (pr : Probe) (p : Params) (z ell : Xr) : Except PyErr (List Xr) :=
  match pr with
  | .wl o => wlKernel o p z ell
  | .nc o => densityKernel p o.bins o.bias z ell

/-- `redshift.py:45-48` property `gals_per_steradian`. -/
noncomputable def galsPerSteradian (nz : Nz) : Xr := fin nz.gals * fin steradian_to_arcmin2

/-- `probes.py:212-225` `WeakLensing.noise`, `:276-283` `NumberCounts.noise`. -/
noncomputable def noise (pr : Probe) : Except PyErr (List Xr) :=
  match pr with
  | .wl o =>
    let ngals := o.bins.map galsPerSteradian
    match o.sigma_e with
    | .num s => .ok (ngals.map fun n => fin s ^ 2 / n)
    | .nums ss => bcast (fun s n => fin s ^ 2 / n) ss ngals
    | _ => .error .typeError
  | .nc o => .ok ((o.bins.map galsPerSteradian).map fun n => 1 / n)

/-! ## `angular_cl.py` -/

/-- `arr[i]` inside `lax.map` (`angular_cl.py:89`, `:118`): out-of-range indices are clamped. -/
noncomputable def gather (l : List Xr) (i : ℕ) : Xr := l.getD (ix l.length i) 0

/-- `scipy/integrate.py:163-200` `simps` for an array-valued integrand that may raise. -/
noncomputable def simpsE (f : Xr → Except PyErr (List Xr)) (a b : Xr) (N : ℕ) :
    Except PyErr (List Xr) := do
  if N % 2 = 1 then .error .valueError
  else
    let dx := (b - a) / fin (N : ℝ)
    let ys ← (List.range (N + 1)).mapM fun i => f (linspace a b (N + 1) i)
    let y := fun (i c : ℕ) => (ys.getD i []).getD c 0
    return (List.range (ys.headD []).length).map fun c =>
      dx / 3 * Xr.sum (N / 2) fun i => y (2 * i) c + 4 * y (2 * i + 1) c + y (2 * i + 2) c

/-- `angular_cl.py:71-97` `integrand(a)` at one scale factor. -/
noncomputable def clIntegrand (p : Params) (T : Xr → Xr)
    (nonlinear_fn : Params → Xr → Xr → (Xr → Xr) → Except PyErr Xr) (probes : List Probe)
    (ell a : Xr) : Except PyErr (List Xr) := do
  let chi := chiOf p a
  let k := (ell + 0.5) / chi.max 1
  let pk ← nonlinear_fn p k a T
  let rows ← probes.mapM fun pr => kernel pr p (a2z a) ell
  let kernels := rows.flatten
  let cl_index := getClOrdering probes
  let products := cl_index.map fun ij => gather kernels ij.1 * gather kernels ij.2
  return products.map fun kk => pk * kk * dchioverda p a / (chi ^ 2).max 1

/-- `angular_cl.py:69-99` `cl(ell)` at one multipole. -/
noncomputable def clAt (p : Params) (T : Xr → Xr)
    (nonlinear_fn : Params → Xr → Xr → (Xr → Xr) → Except PyErr Xr) (probes : List Probe)
    (ell : Xr) : Except PyErr (List Xr) := do
  let zmax ← probesZmax probes
  let s ← simpsE (clIntegrand p T nonlinear_fn probes ell) (z2a (fin zmax)) 1 512
  return s.map fun x => x / fin const_c ^ 2

/-- `angular_cl.py:52-101` `angular_cl`. -/
noncomputable def angularCl (p : Params) (ells : List Xr) (probes : List Probe) (T : Xr → Xr)
    (nonlinear_fn : Params → Xr → Xr → (Xr → Xr) → Except PyErr Xr :=
      fun p k a T => halofit p k a T) :
    Except PyErr (List (List Xr)) := do
  let cols ← ells.mapM (clAt p T nonlinear_fn probes)
  return (List.range (getClOrdering probes).length).map fun c => cols.map fun col => col.getD c 0

/-- `angular_cl.py:104-120` `noise_cl`. -/
noncomputable def noiseCl (ells : List Xr) (probes : List Probe) :
    Except PyErr (List (List Xr)) := do
  let ns ← probes.mapM noise
  let noise := ns.flatten
  return (getClOrdering probes).map fun ij =>
    let delta := 1 - ((fin (ij.1 : ℝ) - fin (ij.2 : ℝ)).abs.max 0).min 1
    ells.map fun _ => gather noise ij.1 * delta * 1

/-- Row `a` of an array of spectra, at multipole number `l`. -/
noncomputable def rowAt (cl : List (List Xr)) (a l : ℕ) : Xr := (cl.getD a []).getD l 0

/-- `angular_cl.py:138`: `cl_signal + cl_noise`. -/
noncomputable def addCl (s n : List (List Xr)) : List (List Xr) :=
  List.zipWith (List.zipWith (· + ·)) s n

/-- `np.gradient(f)` with unit spacing, see `Model/Numpy.lean`. -/
noncomputable def gradient (n : ℕ) (f : ℕ → Xr) : Except PyErr (ℕ → Xr) :=
  if n < 2 then .error .valueError
  else .ok fun i =>
    if i = 0 then f 1 - f 0
    else if i = n - 1 then f (n - 1) - f (n - 2)
    else (f (i + 1) - f (i - 1)) / 2

/-- `angular_cl.py:142`: `norm`. -/
noncomputable def covNorm (ells : List Xr) (f_sky : ℝ) : Except PyErr (ℕ → Xr) := do
  let g ← gradient ells.length (fun i => ells.getD i 0)
  return fun l => (2 * ells.getD l 0 + 1) * g l * fin f_sky

/-- `angular_cl.py:145-156`: the diagonals of the blocks. -/
noncomputable def covBlockDiag (probes : List Probe) (cl_obs : List (List Xr)) (norm : ℕ → Xr) :
    Except PyErr (List (ℕ → Xr)) := do
  let blocks ← getCovBlocksOrdering probes
  return blocks.map fun abcd l =>
    (rowAt cl_obs abcd.1 l * rowAt cl_obs abcd.2.1 l
      + rowAt cl_obs abcd.2.2.1 l * rowAt cl_obs abcd.2.2.2 l) / norm l

/-- `angular_cl.py:123-166` `gaussian_cl_covariance`. -/
noncomputable def gaussianClCovariance (ells : List Xr) (probes : List Probe)
    (cl_signal cl_noise : List (List Xr)) (f_sky : ℝ := 0.25) (sparse : Bool := true) :
    Except PyErr (NdArr Xr) := do
  let n_ell := ells.length
  let cl_obs := addCl cl_signal cl_noise
  let n_cls := cl_obs.length
  let norm ← covNorm ells f_sky
  let blocks ← covBlockDiag probes cl_obs norm
  if blocks.length = n_cls * n_cls then
    let block := fun (i j : Fin n_cls) => blocks.getD (i * n_cls + j) fun _ => 0
    if sparse then
      return .d3 n_cls n_cls n_ell fun i j l => block i j l
    else
      let cov4 := fun (i j : Fin n_cls) (l l' : Fin n_ell) =>
        block i j l' * (if l = l' then 1 else 0)
      return .d2 (n_cls * n_ell) (n_cls * n_ell) fun r c =>
        cov4 r.divNat c.divNat r.modNat c.modNat
  else .error .typeError

/-- `angular_cl.py:169-199` `gaussian_cl_covariance_and_mean`. -/
noncomputable def gaussianClCovarianceAndMean (p : Params) (ells : List Xr) (probes : List Probe)
    (T : Xr → Xr)
    (nonlinear_fn : Params → Xr → Xr → (Xr → Xr) → Except PyErr Xr :=
      fun p k a T => halofit p k a T)
    (f_sky : ℝ := 0.25) (sparse : Bool := false) : Except PyErr (List Xr × NdArr Xr) := do
  let cl_signal ← angularCl p ells probes T nonlinear_fn
  let cl_noise ← noiseCl ells probes
  let cov_mat ← gaussianClCovariance ells probes cl_signal cl_noise f_sky sparse
  return (cl_signal.flatten, cov_mat)

end JaxCosmo.Xm
