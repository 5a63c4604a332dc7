import Verif.Model.Probes
import Verif.Model.Power
import Verif.Model.Sparse

/-!
# Model of `jax_cosmo/angular_cl.py`

Spectra are lists (one entry per pair of tracers) of lists (one entry per multipole).
-/

namespace JaxCosmo

/-- `angular_cl.py:24-28`: the pairs `(i, j)`, `i ≤ j`, for `n` tracers. -/
def clIndex (n : ℕ) : List (ℕ × ℕ) :=
  (List.range n).flatMap fun i => (List.range' i (n - i)).map fun j => (i, j)

/-- `angular_cl.py:22`: total number of tracers. -/
def nTracers (probes : List Probe) : ℕ := (probes.map Probe.nTracers).sum

/-- `angular_cl.py:18-28` `_get_cl_ordering`. -/
def getClOrdering (probes : List Probe) : List (ℕ × ℕ) := clIndex (nTracers probes)

/-- `angular_cl.py:37-41` `find_index`.  `list.index` raises `ValueError` for a missing item. -/
def findIndex (cl : List (ℕ × ℕ)) (a b : ℕ) : Except PyErr ℕ :=
  if (a, b) ∈ cl then .ok (cl.idxOf (a, b))
  else if (b, a) ∈ cl then .ok (cl.idxOf (b, a))
  else .error .valueError

/-- `angular_cl.py:43-49`. -/
def covBlocks (cl : List (ℕ × ℕ)) : Except PyErr (List (ℕ × ℕ × ℕ × ℕ)) :=
  (cl.flatMap fun ij => cl.map fun mn => (ij, mn)).mapM fun e => do
    let a ← findIndex cl e.1.1 e.2.1
    let b ← findIndex cl e.1.2 e.2.2
    let c ← findIndex cl e.1.1 e.2.2
    let d ← findIndex cl e.1.2 e.2.1
    return (a, b, c, d)

/-- `angular_cl.py:31-49` `_get_cov_blocks_ordering`. -/
def getCovBlocksOrdering (probes : List Probe) : Except PyErr (List (ℕ × ℕ × ℕ × ℕ)) :=
  covBlocks (getClOrdering probes)

/-- `arr[i]` inside `lax.map` (`angular_cl.py:89`, `:118`): out-of-range indices are clamped. -/
noncomputable def gather (l : List ℝ) (i : ℕ) : ℝ := l.getD (ix l.length i) 0

/-- `scipy/integrate.py:163-200` `simps` for an array-valued integrand that may raise. -/
noncomputable def simpsE (f : ℝ → Except PyErr (List ℝ)) (a b : ℝ) (N : ℕ) :
    Except PyErr (List ℝ) := do
  if N % 2 = 1 then .error .valueError
  else
    let dx := (b - a) / (N : ℝ)
    let ys ← (List.range (N + 1)).mapM fun i => f (linspace a b (N + 1) i)
    let y := fun (i c : ℕ) => (ys.getD i []).getD c 0
    return (List.range (ys.headD []).length).map fun c =>
      dx / 3 * ∑ i ∈ Finset.range (N / 2), (y (2 * i) c + 4 * y (2 * i + 1) c + y (2 * i + 2) c)

/-- `angular_cl.py:71-97` `integrand(a)` at one scale factor. -/
noncomputable def clIntegrand (p : Params) (T : ℝ → ℝ)
    (nonlinear_fn : Params → ℝ → ℝ → (ℝ → ℝ) → Except PyErr ℝ) (probes : List Probe) (ell a : ℝ) :
    Except PyErr (List ℝ) := do
  -- Step 1: retrieve the associated comoving distance
  let chi := chiOf p a
  -- Step 2: get the power spectrum for this combination of chi and a
  let k := (ell + 0.5) / clipLo chi 1
  let pk ← nonlinearMatterPower p k a T nonlinear_fn
  -- Compute the kernels for all probes
  let rows ← probes.mapM fun pr => pr.kernel p (a2z a) ell
  let kernels := rows.flatten
  let cl_index := getClOrdering probes
  let products := cl_index.map fun ij => gather kernels ij.1 * gather kernels ij.2
  return products.map fun kk => pk * kk * dchioverda p a / clipLo (chi ^ 2) 1

/-- `angular_cl.py:65-66`. -/
noncomputable def probesZmax (probes : List Probe) : Except PyErr ℝ := do
  let zs ← probes.mapM Probe.zmax
  pyMax zs

/-- `angular_cl.py:69-99` `cl(ell)` at one multipole. -/
noncomputable def clAt (p : Params) (T : ℝ → ℝ)
    (nonlinear_fn : Params → ℝ → ℝ → (ℝ → ℝ) → Except PyErr ℝ) (probes : List Probe) (ell : ℝ) :
    Except PyErr (List ℝ) := do
  let zmax ← probesZmax probes
  let s ← simpsE (clIntegrand p T nonlinear_fn probes ell) (z2a zmax) 1 512
  return s.map fun x => x / const_c ^ 2

/-- `angular_cl.py:52-101` `angular_cl`: the vmap over `ell` puts the multipoles on axis 1. -/
noncomputable def angularCl (p : Params) (ells : List ℝ) (probes : List Probe) (T : ℝ → ℝ)
    (nonlinear_fn : Params → ℝ → ℝ → (ℝ → ℝ) → Except PyErr ℝ := fun p k a T => halofit p k a T) :
    Except PyErr (List (List ℝ)) := do
  let cols ← ells.mapM (clAt p T nonlinear_fn probes)
  return (List.range (getClOrdering probes).length).map fun c => cols.map fun col => col.getD c 0

/-- `angular_cl.py:104-120` `noise_cl`. -/
noncomputable def noiseCl (ells : List ℝ) (probes : List Probe) :
    Except PyErr (List (List ℝ)) := do
  let ns ← probes.mapM Probe.noise
  let noise := ns.flatten
  return (getClOrdering probes).map fun ij =>
    let delta := 1 - clip |(ij.1 : ℝ) - (ij.2 : ℝ)| 0 1
    ells.map fun _ => gather noise ij.1 * delta * 1

/-- Row `a` of an array of spectra, at multipole number `l`. -/
noncomputable def rowAt (cl : List (List ℝ)) (a l : ℕ) : ℝ := (cl.getD a []).getD l 0

/-- `angular_cl.py:138`: `cl_signal + cl_noise` (two arrays of the same shape). -/
noncomputable def addCl (s n : List (List ℝ)) : List (List ℝ) :=
  List.zipWith (List.zipWith (· + ·)) s n

/-- `angular_cl.py:142`: `norm`. -/
noncomputable def covNorm (ells : List ℝ) (f_sky : ℝ) : Except PyErr (ℕ → ℝ) := do
  let g ← gradient ells.length (fun i => ells.getD i 0)
  return fun l => (2 * ells.getD l 0 + 1) * g l * f_sky

/-- `angular_cl.py:145-156`: the list of blocks' diagonals `get_cov_block(inds)` for
`sparse=True`; block number `q`, multipole `l`. -/
noncomputable def covBlockDiag (probes : List Probe) (cl_obs : List (List ℝ)) (norm : ℕ → ℝ) :
    Except PyErr (List (ℕ → ℝ)) := do
  let blocks ← getCovBlocksOrdering probes
  return blocks.map fun abcd l =>
    (rowAt cl_obs abcd.1 l * rowAt cl_obs abcd.2.1 l
      + rowAt cl_obs abcd.2.2.1 l * rowAt cl_obs abcd.2.2.2 l) / norm l

/-- `angular_cl.py:123-166` `gaussian_cl_covariance`.  With `n_cls` rows in `cl_obs`:
`sparse=True` reshapes the blocks to `(n_cls, n_cls, n_ell)`; `sparse=False` multiplies each by
`eye(n_ell)`, reshapes to `(n_cls, n_cls, n_ell, n_ell)`, transposes `(0, 2, 1, 3)` and reshapes to
a square matrix.  A reshape to an incompatible size raises `TypeError` (JAX). -/
noncomputable def gaussianClCovariance (ells : List ℝ) (probes : List Probe)
    (cl_signal cl_noise : List (List ℝ)) (f_sky : ℝ := 0.25) (sparse : Bool := true) :
    Except PyErr (NdArr ℝ) := do
  let n_ell := ells.length
  let cl_obs := addCl cl_signal cl_noise
  let n_cls := cl_obs.length
  let norm ← covNorm ells f_sky
  let blocks ← covBlockDiag probes cl_obs norm
  if blocks.length = n_cls * n_cls then
    let block := fun (i j : Fin n_cls) => blocks.getD (i * n_cls + j) 0
    if sparse then
      return .d3 n_cls n_cls n_ell fun i j l => block i j l
    else
      let cov4 := fun (i j : Fin n_cls) (l l' : Fin n_ell) =>
        block i j l' * (if l = l' then 1 else 0)
      return .d2 (n_cls * n_ell) (n_cls * n_ell) fun r c =>
        cov4 r.divNat c.divNat r.modNat c.modNat
  else .error .typeError

/-- `angular_cl.py:169-199` `gaussian_cl_covariance_and_mean`. -/
noncomputable def gaussianClCovarianceAndMean (p : Params) (ells : List ℝ) (probes : List Probe)
    (T : ℝ → ℝ)
    (nonlinear_fn : Params → ℝ → ℝ → (ℝ → ℝ) → Except PyErr ℝ := fun p k a T => halofit p k a T)
    (f_sky : ℝ := 0.25) (sparse : Bool := false) : Except PyErr (List ℝ × NdArr ℝ) := do
  let cl_signal ← angularCl p ells probes T nonlinear_fn
  let cl_noise ← noiseCl ells probes
  let cov_mat ← gaussianClCovariance ells probes cl_signal cl_noise f_sky sparse
  return (cl_signal.flatten, cov_mat)

end JaxCosmo
