import Verif.Model.DualPower
import Verif.Model.AngularCl

/-!
# Forward-mode differentiation of `redshift.py`, `bias.py`, `probes.py` and `angular_cl.py`

The objects of these modules are pytrees (`jax_utils.py`): the parameters are the leaves, to which a
tangent can be attached, and the configuration (`zmax`, `bw`, `sigma_e`, `ia_enabled`) is static.
The types below are those of `Model/Redshift.lean`, `Model/Bias.lean` and `Model/Probes.lean` with
the leaves left open; with leaves `Du` they are what differentiation works on, with leaves `ℝ` they
are the objects of the other files (`NzTree.real`, …).  A user-defined distribution is left out: its
function would have to be differentiated too.  The functions are those of `Model/Redshift.lean`,
`Model/Bias.lean`, `Model/Probes.lean` and `Model/AngularCl.lean` on numbers with tangents.
-/

namespace JaxCosmo

/-- `redshift.py:16-146`: a distribution with leaves `X`. -/
inductive NzTree (X : Type)
  /-- `smail_nz(a, b, z0)`, `redshift.py:62-78`. -/
  | smail (a b z0 gals : X) (zmax : ℝ)
  /-- `delta_nz(z0)`, `redshift.py:81-96`. -/
  | delta (z0 gals : X) (zmax : ℝ)
  /-- `kde_nz(zcat, weights, bw=bw)`, `redshift.py:99-131`. -/
  | kde (cat : List (X × X)) (bw : ℝ) (gals : X) (zmax : ℝ)
  /-- `systematic_shift(parent, mean_bias)`, `redshift.py:134-146`. -/
  | shift (parent : NzTree X) (bias gals : X) (zmax : ℝ)

namespace NzTree
variable {X Y : Type}

/-- A function applied to every leaf (`jax_utils.py:22-30` flattens to the parameters and rebuilds). -/
def map (f : X → Y) : NzTree X → NzTree Y
  | smail a b z0 gals zmax => smail (f a) (f b) (f z0) (f gals) zmax
  | delta z0 gals zmax => delta (f z0) (f gals) zmax
  | kde cat bw gals zmax => kde (cat.map fun e => (f e.1, f e.2)) bw (f gals) zmax
  | shift parent bias gals zmax => shift (parent.map f) (f bias) (f gals) zmax

/-- The distribution of `Model/Redshift.lean`. -/
def real : NzTree ℝ → Nz
  | smail a b z0 gals zmax => .smail a b z0 gals zmax
  | delta z0 gals zmax => .delta z0 gals zmax
  | kde cat bw gals zmax => .kde cat bw gals zmax
  | shift parent bias gals zmax => .shift parent.real bias gals zmax

/-- `redshift.py:34-36` property `zmax`. -/
def zmax : NzTree X → ℝ
  | smail _ _ _ _ zm | delta _ _ zm | kde _ _ _ zm | shift _ _ _ zm => zm

/-- `redshift.py:38-43` property `gals_per_arcmin2`. -/
def gals : NzTree X → X
  | smail _ _ _ g _ | delta _ g _ | kde _ _ g _ | shift _ _ g _ => g

/-- `isinstance(pz, delta_nz)`. -/
def isDelta : NzTree X → Bool
  | delta .. => true
  | _ => false

end NzTree

/-- `bias.py`: a bias with leaves `X`. -/
inductive BiasTree (X : Type)
  /-- `constant_linear_bias(b)`, `bias.py:12-23`. -/
  | constant (b : X)
  /-- `inverse_growth_linear_bias(b)`, `bias.py:27-40`. -/
  | invGrowth (b : X)
  /-- `des_y1_ia_bias(A, eta, z0)`, `bias.py:44-58`. -/
  | desY1 (A eta z0 : X)

namespace BiasTree
variable {X Y : Type}

/-- A function applied to every leaf (`jax_utils.py:22-30` flattens to the parameters and rebuilds). -/
def map (f : X → Y) : BiasTree X → BiasTree Y
  | constant b => constant (f b)
  | invGrowth b => invGrowth (f b)
  | desY1 A eta z0 => desY1 (f A) (f eta) (f z0)

/-- The bias of `Model/Bias.lean`. -/
def real : BiasTree ℝ → Bias
  | constant b => .constant b
  | invGrowth b => .invGrowth b
  | desY1 A eta z0 => .desY1 A eta z0

end BiasTree

/-- `Val` of `Model/Probes.lean` with leaves `X`. -/
inductive ValTree (X : Type)
  | none
  | num (x : X)
  | nums (xs : List X)
  | bias (b : BiasTree X)
  | biases (bs : List (BiasTree X))

namespace ValTree
variable {X Y : Type}

/-- A function applied to every leaf (`jax_utils.py:22-30` flattens to the parameters and rebuilds). -/
def map (f : X → Y) : ValTree X → ValTree Y
  | none => none
  | num x => num (f x)
  | nums xs => nums (xs.map f)
  | bias b => bias (b.map f)
  | biases bs => biases (bs.map (BiasTree.map f))

/-- The argument of `Model/Probes.lean`. -/
def real : ValTree ℝ → Val
  | none => .none
  | num x => .num x
  | nums xs => .nums xs
  | bias b => .bias b.real
  | biases bs => .biases (bs.map BiasTree.real)

end ValTree

/-- `probes.py:134-283`: a probe with leaves `X`. -/
inductive ProbeTree (X : Type)
  /-- `WeakLensing`, `probes.py:152-170`. -/
  | wl (bins : List (NzTree X)) (param1 : ValTree X) (param2 : Option (ValTree X)) (sigma_e : Val)
      (ia_enabled : Bool)
  /-- `NumberCounts`, `probes.py:241-244`. -/
  | nc (bins : List (NzTree X)) (bias : ValTree X) (has_rsd : Bool)

namespace ProbeTree
variable {X Y : Type}

/-- A function applied to every leaf (`jax_utils.py:22-30` flattens to the parameters and rebuilds). -/
def map (f : X → Y) : ProbeTree X → ProbeTree Y
  | wl bins p1 p2 s ia =>
    wl (bins.map (NzTree.map f)) (p1.map f) (p2.map (ValTree.map f)) s ia
  | nc bins b rsd => nc (bins.map (NzTree.map f)) (b.map f) rsd

/-- The probe of `Model/Probes.lean`. -/
def real : ProbeTree ℝ → Probe
  | wl bins p1 p2 s ia =>
    .wl ⟨bins.map NzTree.real, p1.real, p2.map ValTree.real, s, ia⟩
  | nc bins b rsd => .nc ⟨bins.map NzTree.real, b.real, rsd⟩

/-- The redshift bins of a probe. -/
def bins : ProbeTree X → List (NzTree X)
  | wl bins .. => bins
  | nc bins .. => bins

/-- `probes.py:181-188`, `:246-253`. -/
noncomputable def zmax (pr : ProbeTree X) : Except PyErr ℝ := pyMax (pr.bins.map NzTree.zmax)

end ProbeTree

namespace Dm
open Du Xr

/-- `utils.py:2-4` `z2a`. -/
noncomputable def z2a (z : Du) : Du := 1 / (1 + z)

/-- `utils.py:7-9` `a2z`. -/
noncomputable def a2z (a : Du) : Du := 1 / a - 1

/-- `np.sum` of a list. -/
noncomputable def lsum (l : List Du) : Du := l.foldr (· + ·) 0

/-! ## `redshift.py` -/

/-- `redshift.py:118-122` `kde_nz._kernel`. -/
noncomputable def kdeKernel (bw : ℝ) (X x : Du) : Du :=
  1 / (2 * con Real.pi).sqrt / con bw * (-((X - x) ^ 2) / (con bw ^ 2 * 2)).exp

open Classical in
/-- `pz_fn`: `redshift.py:76-78`, `:94-96`, `:124-131`, `:144-146`.  The comparison in line 96
carries no tangent. -/
noncomputable def pzFn : NzTree Du → Du → Du
  | .smail a b z0 _ _, z => z.rpow a * (-((z / z0).rpow b)).exp
  | .delta z0 _ _, z => if z.val = z0.val then 1 else 0
  | .kde cat bw _ _, z =>
    let q := lsum (cat.map fun e => e.2)
    lsum (cat.map fun e => kdeKernel bw e.1 z * e.2) / q
  | .shift parent bias _ _, z => pzFn parent ((z - bias).max 0)

/-- `redshift.py:31`: the normalisation computed by the first call. -/
noncomputable def computedNorm (nz : NzTree Du) : Du :=
  simps (fun t => pzFn nz t) 0 (con nz.zmax) 256

/-- `redshift.py:28-32` `__call__` on a new object (`_norm = 1.0` for `delta_nz`,
`redshift.py:89-92`). -/
noncomputable def nzEval (nz : NzTree Du) (z : Du) : Du :=
  pzFn nz z / (if nz.isDelta then 1 else computedNorm nz)

/-! ## `bias.py` -/

/-- `__call__(cosmo, z)` at one redshift: `bias.py:21-23`, `:38-40`, `:56-58`. -/
noncomputable def biasCall (p : DParams) (z : Du) : BiasTree Du → Du
  | .constant b => b * 1
  | .invGrowth b => b / growthOf p (z2a z)
  | .desY1 A eta z0 => A * ((1 + z) / (1 + z0)).rpow eta

/-! ## `probes.py` -/

/-- Broadcasting of two arrays along the leading (bin) axis, see `Model/Probes.lean`. -/
def bcast {α β γ : Type*} (f : α → β → γ) (xs : List α) (ys : List β) : Except PyErr (List γ) :=
  if xs.length = ys.length then .ok (List.zipWith f xs ys)
  else match xs, ys with
    | [x], _ => .ok (ys.map (f x))
    | _, [y] => .ok (xs.map (f · y))
    | _, _ => .error .typeError

/-- The cosmology inside a `@jit` function, see `Model/Probes.lean`: rebuilding a cosmology that
carries `gamma` raises `AttributeError` (`core.py:99-142`). -/
def jitCosmo (p : DParams) : Except PyErr DParams :=
  match p.gamma with
  | none => .ok p
  | some _ => .error .attributeError

/-- `probes.py:75`, `:130`: the ell-dependent factor. -/
noncomputable def ellFactor (ell : Du) : Du :=
  ((ell - 1) * ell * (ell + 1) * (ell + 2)).sqrt / (ell + 0.5) ^ 2

/-- `probes.py:33-35`: indices of extended distributions. -/
def extIdx (pzs : List (NzTree Du)) : List ℕ :=
  (List.range pzs.length).filter fun i => !((pzs[i]?.map NzTree.isDelta).getD false)

/-- `probes.py:36`: indices of delta distributions. -/
def deltaIdx (pzs : List (NzTree Du)) : List ℕ :=
  (List.range pzs.length).filter fun i => (pzs[i]?.map NzTree.isDelta).getD false

/-- The redshift plane `pzs[i].params[0]` of a delta distribution (`probes.py:63`). -/
def plane : NzTree Du → Du
  | .delta z0 _ _ => z0
  | _ => 0

/-- `probes.py:46-53`: the row of an extended distribution. -/
noncomputable def extRow (p : DParams) (zmax : ℝ) (z : Du) (pz : NzTree Du) : Du :=
  let chi := chiOf p (z2a z)
  simps (fun z' =>
    let chi' := chiOf p (z2a z')
    nzEval pz z' * (chi' - chi).max 0 / chi'.max 1) z (con zmax) 256 * (1 + z) * chi

/-- `probes.py:57-66`: the row of a single plane. -/
noncomputable def deltaRow (p : DParams) (z : Du) (pz : NzTree Du) : Du :=
  let chi := chiOf p (z2a z)
  let chi' := chiOf p (z2a (plane pz))
  (chi' - chi).max 0 / chi'.max 1 * (1 + z) * chi

/-- `probes.py:18-76` `weak_lensing_kernel(cosmo, pzs, z, ell)`. -/
noncomputable def weakLensingKernel (p0 : DParams) (pzs : List (NzTree Du)) (z ell : Du) :
    Except PyErr (List Du) := do
  let p ← jitCosmo p0
  let zmax ← pyMax (pzs.map NzTree.zmax)
  let ext := extIdx pzs
  let del := deltaIdx pzs
  let perm := ext ++ del
  let inv := argsort perm
  let extRows := ext.map fun i => extRow p zmax z (pzs.getD i (.delta 0 0 0))
  let delRows := del.map fun i => deltaRow p z (pzs.getD i (.delta 0 0 0))
  let radial := extRows ++ delRows
  let radial := inv.map fun i => radial.getD i 0
  let constant_factor := 3 * con const_H0 ^ 2 * p.Omega_m / 2 / con const_c
  return radial.map fun r => constant_factor * ellFactor ell * r

/-- `probes.py:91-95`, `:116-120`: bias per bin. -/
noncomputable def biasRows (p : DParams) (bias : ValTree Du) (z : Du) : Except PyErr (List Du) :=
  match bias with
  | .bias b => .ok [biasCall p z b]
  | .biases [] => .error .valueError
  | .biases bs => .ok (bs.map fun b => biasCall p z b)
  | .nums [] => .error .valueError
  | _ => .error .typeError

/-- `probes.py:79-101` `density_kernel(cosmo, pzs, bias, z, ell)`. -/
noncomputable def densityKernel (p0 : DParams) (pzs : List (NzTree Du)) (bias : ValTree Du)
    (z _ell : Du) : Except PyErr (List Du) := do
  let p ← jitCosmo p0
  if pzs.any NzTree.isDelta then .error .notImplementedError
  else if pzs.isEmpty then .error .valueError
  else
    let dndz := pzs.map fun pz => nzEval pz z
    let b ← biasRows p bias z
    let radial ← bcast (· * ·) dndz b
    return radial.map fun r => 1 * 1 * (r * H p (z2a z))

/-- `probes.py:104-131` `nla_kernel(cosmo, pzs, bias, z, ell)`. -/
noncomputable def nlaKernel (p0 : DParams) (pzs : List (NzTree Du)) (bias : ValTree Du)
    (z ell : Du) : Except PyErr (List Du) := do
  let p ← jitCosmo p0
  if pzs.any NzTree.isDelta then .error .notImplementedError
  else if pzs.isEmpty then .error .valueError
  else
    let dndz := pzs.map fun pz => nzEval pz z
    let b ← biasRows p bias z
    let radial ← bcast (· * ·) dndz b
    let norm := -(5e-14 * con const_rhocrit) * p.Omega_m / growthOf p (z2a z)
    return radial.map fun r => 1 * ellFactor ell * (r * H p (z2a z) * norm)

/-- `probes.py:207-209` and the trailing `kernel *= 1.0 + m`. -/
noncomputable def applyM (kernel : List Du) (m : ValTree Du) : Except PyErr (List Du) :=
  match m with
  | .num x => .ok (kernel.map fun k => k * (1 + x))
  | .nums [] => .error .valueError
  | .nums ms => bcast (fun k x => k * (1 + x)) kernel ms
  | _ => .error .typeError

/-- `kernel` of either class: `probes.py:190-210`, `:262-274`. -/
noncomputable def kernel (pr : ProbeTree Du) (p : DParams) (z ell : Du) : Except PyErr (List Du) :=
  match pr with
  | .wl bins param1 param2 _ ia_enabled => do
    let kernel ← weakLensingKernel p bins z ell
    let kernel ←
      if ia_enabled then
        match param2 with
        | none => .error .indexError
        | some bias => do
          let ia ← nlaKernel p bins bias z ell
          bcast (· + ·) kernel ia
      else pure kernel
    applyM kernel param1
  | .nc bins bias _ => densityKernel p bins bias z ell

/-- `redshift.py:45-48` property `gals_per_steradian`. -/
noncomputable def galsPerSteradian (nz : NzTree Du) : Du := nz.gals * con steradian_to_arcmin2

/-- `probes.py:212-225` `WeakLensing.noise`, `:276-283` `NumberCounts.noise`. -/
noncomputable def noise (pr : ProbeTree Du) : Except PyErr (List Du) :=
  match pr with
  | .wl bins _ _ sigma_e _ =>
    let ngals := bins.map galsPerSteradian
    match sigma_e with
    | .num s => .ok (ngals.map fun n => con s ^ 2 / n)
    | .nums ss => bcast (fun s n => con s ^ 2 / n) ss ngals
    | _ => .error .typeError
  | .nc bins _ _ => .ok ((bins.map galsPerSteradian).map fun n => 1 / n)

/-! ## `angular_cl.py` -/

/-- `power.py:82-84` `linear`. -/
noncomputable def linear (p : DParams) (k a : Du) (T : Du → Du) : Except PyErr Du :=
  .ok (linearMatterPower p T k a)

/-- `angular_cl.py:18-28` `_get_cl_ordering`. -/
def getClOrdering (probes : List (ProbeTree Du)) : List (ℕ × ℕ) :=
  clIndex (probes.map fun pr => pr.bins.length).sum

/-- `arr[i]` inside `lax.map` (`angular_cl.py:89`, `:118`): out-of-range indices are clamped. -/
noncomputable def gather (l : List Du) (i : ℕ) : Du := l.getD (ix l.length i) 0

/-- `scipy/integrate.py:163-200` `simps` for an array-valued integrand that may raise. -/
noncomputable def simpsE (f : Du → Except PyErr (List Du)) (a b : Du) (N : ℕ) :
    Except PyErr (List Du) := do
  if N % 2 = 1 then .error .valueError
  else
    let dx := (b - a) / con (N : ℝ)
    let ys ← (List.range (N + 1)).mapM fun i => f (linspace a b (N + 1) i)
    let y := fun (i c : ℕ) => (ys.getD i []).getD c 0
    return (List.range (ys.headD []).length).map fun c =>
      dx / 3 * Du.sum (N / 2) fun i => y (2 * i) c + 4 * y (2 * i + 1) c + y (2 * i + 2) c

/-- `angular_cl.py:71-97` `integrand(a)` at one scale factor. -/
noncomputable def clIntegrand (p : DParams) (T : Du → Du)
    (nonlinear_fn : DParams → Du → Du → (Du → Du) → Except PyErr Du) (probes : List (ProbeTree Du))
    (ell a : Du) : Except PyErr (List Du) := do
  let chi := chiOf p a
  let k := (ell + 0.5) / chi.max 1
  let pk ← nonlinear_fn p k a T
  let rows ← probes.mapM fun pr => kernel pr p (a2z a) ell
  let kernels := rows.flatten
  let cl_index := getClOrdering probes
  let products := cl_index.map fun ij => gather kernels ij.1 * gather kernels ij.2
  return products.map fun kk => pk * kk * dchioverda p a / (chi ^ 2).max 1

/-- `angular_cl.py:65-66`. -/
noncomputable def probesZmax (probes : List (ProbeTree Du)) : Except PyErr ℝ := do
  let zs ← probes.mapM ProbeTree.zmax
  pyMax zs

/-- `angular_cl.py:69-99` `cl(ell)` at one multipole. -/
noncomputable def clAt (p : DParams) (T : Du → Du)
    (nonlinear_fn : DParams → Du → Du → (Du → Du) → Except PyErr Du) (probes : List (ProbeTree Du))
    (ell : Du) : Except PyErr (List Du) := do
  let zmax ← probesZmax probes
  let s ← simpsE (clIntegrand p T nonlinear_fn probes ell) (z2a (con zmax)) 1 512
  return s.map fun x => x / con const_c ^ 2

/-- `angular_cl.py:52-101` `angular_cl`. -/
noncomputable def angularCl (p : DParams) (ells : List Du) (probes : List (ProbeTree Du))
    (T : Du → Du) (nonlinear_fn : DParams → Du → Du → (Du → Du) → Except PyErr Du) :
    Except PyErr (List (List Du)) := do
  let cols ← ells.mapM (clAt p T nonlinear_fn probes)
  return (List.range (getClOrdering probes).length).map fun c => cols.map fun col => col.getD c 0

/-- `angular_cl.py:104-120` `noise_cl`. -/
noncomputable def noiseCl (ells : List Du) (probes : List (ProbeTree Du)) :
    Except PyErr (List (List Du)) := do
  let ns ← probes.mapM noise
  let noise := ns.flatten
  return (getClOrdering probes).map fun ij =>
    let delta := 1 - (Du.abs (con (ij.1 : ℝ) - con (ij.2 : ℝ)) |>.max 0).min 1
    ells.map fun _ => gather noise ij.1 * delta * 1

end Dm

end JaxCosmo
