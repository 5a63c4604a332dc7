# A Lean 4 model of jax_cosmo

## Layout

* `properties.jsonl` – the semantic properties (C01 …).
* `lean/Verif/Model/*.lean` – the model, one module per source file; every
  definition cites the file and lines of `/repo` it models.
* `lean/Verif/Spec/*.lean` – small independent specifications (what the English
  property says, without the model's helpers).
* `lean/Verif/Proofs/*.lean` – helper lemmas.
* `lean/Verif/Props/*.lean` – the property theorems (`Cnn_…`), one module per area,
  each with an `example` showing its hypotheses met by a non-trivial case.
* `MANIFEST.json` – property → theorems and status.
* `seeded/LOG.jsonl` – the wrong programs tried against the theorems.  `broke_at` names
  (up to 15) declarations at which the build of the wrong program reported an error, and
  `failed` the property theorems among all of these: both were observed.  `dependents` are further property
  theorems that rest on a declaration that broke.  They are inferred, not observed: they
  come from the dependencies of the present development, so the line of an early attempt
  also lists theorems written since, which were never rebuilt against that program, and a
  theorem resting on a broken lemma need not be false of the program.  In more than half of
  the lines only helper lemmas or examples broke and `failed` is empty.  The file is written anew
  from the recorded results when theorems are added.  Identifiers `M…` are edits made by
  hand, with the claim written beforehand; `A…` are generated edits, whose `claim` was
  filled in afterwards from the theorems concerned.  Generated edits that
  are not well-formed programs are left out (19).
  Known defect: an error reported at the comment before a declaration (a timeout or a kernel error)
  was attributed to the declaration preceding it, in all lines but M484, M486 and M487.  Only names were kept, so these cannot be told apart
  afterwards; in 115 of 869 lines two neighbouring declarations are named, and the earlier of the two may be
  spurious.  A line naming one declaration may mean the next one.  M484, M486 and M487 were
  run again with this put right; the names from the second builds of M480 to M488 mentioned in their notes were not.

## Modelling decisions

* **Numbers.** Floats are modelled by exact numbers: an arbitrary linearly
  ordered field where the code only uses field operations and comparisons
  (`interp`, `simps`, `romb`, `odeint`, splines, sparse products; executable over
  ℚ), and ℝ where it uses `exp/log/sqrt/pow/sin/sinh` or a linear solver.
  Overflow is not modelled.  Infinities and NaN are modelled in
  `Model/Xr*.lean` (C111 ff.): exact real arithmetic extended by the IEEE exceptional
  values, one unsigned zero (division by zero takes the sign of the numerator),
  in which the code is transcribed a second time; the theorems say when this
  evaluation is finite and then that it equals the real-number model.  Rounding is modelled
  separately, in `Model/Float*.lean`, for `utils.py`, `simps`, `odeint`, `interp` and the
  covariance blocks (C95-C98, C131): every operation rounds (relative error at most
  `u`, monotone; nearest-even binary rounding is an instance), exponents are
  unbounded.  Lean's total
  conventions (`x/0 = 0`, `log` of a non-positive number, `0⁻¹`, `M⁻¹ = 0` for
  singular `M`) do not coincide with IEEE: theorems that could be true for that
  wrong reason carry the guard (non-zero denominator, positive argument,
  invertible matrix) explicitly.
* **Arrays.** 1-d arrays are a length and an index function `ℕ → K`, or a `List`
  when the code uses a Python list; arrays with a matrix reading are
  `Fin`-indexed with Mathlib's `Matrix`.  `reshape` is row-major
  (`finProdFinEquiv`).  `vmap`, `jit`, `lax.map` are modelled by their pointwise
  meaning; `lax.scan` by the recursion it unrolls to; `lax.switch` by its clamped
  branch choice.  Element-wise functions are modelled at one element; where
  the shape of the result is itself the issue (C15) a rank-level model is used,
  and `linear_matter_power` and `halofit` are also modelled on n-d arrays with
  shapes, broadcasting and `squeeze` (`Model/Batch.lean`, C138; kernels and angular spectra in `Model/BatchCl.lean`, C139).
  Broadcasting in `probes.py` is modelled for equal lengths and length one
  (`bcast`), everything else is a shape error.
* **Exceptions** are values of `Except PyErr`.
* **Mutation.** The workspace of a `Cosmology` and the cached `_norm` of a
  redshift distribution are explicit state threaded through calls.
* **Pytrees.** `tree_flatten`/`tree_unflatten` are modelled on a small universe
  of Python values; crossing a `jit` boundary is the recursive flatten–unflatten.
* **External code** (trusted, modelled by contract): `np.linalg.inv`/`solve` =
  Mathlib's matrix inverse (used only where the matrix is proved or assumed
  invertible), `np.linalg.slogdet` = sign and log|det|, `cho_factor/cho_solve` =
  solve with the symmetric matrix read from the lower triangle,
  `np.argmin/argsort/digitize/gradient/linspace/logspace/clip/sign/copysign` =
  their NumPy contracts, spelled out in `Model/Numpy.lean`.
* **Gradients.** C82–C88 speak of the mathematical derivative of the modelled
  functions.  What `jax.jvp` computes is modelled in `Model/Dual*.lean` (C87, C120 on):
  every function is run on pairs (value, tangent) with the `defjvp` rules of the JAX
  primitives, in arithmetic with infinities and NaN, symbolic zeros included.  Trusted:
  the reading of these rules (`max`/`min` split ties evenly, `pow` masks a zero base in
  the derivative with respect to the exponent only, `select` and `lax.switch`
  differentiate the chosen branch, `clip = minimum(maximum(x, lo), hi)`; inverse, solve,
  `slogdet` and Cholesky follow the usual matrix rules).  The layer covers background,
  transfer functions, linear power, halofit, redshift distributions, biases, probes,
  angular spectra, noise, covariance, the sparse operations of the likelihood and the
  likelihood.  Reverse mode
  transposes the same linear maps and is not modelled separately.

## Simplifications

* Sparse arrays have axes of positive length in the theorems about `det`/`slogdet`.
* `kde_nz` takes its catalogue as a list of (redshift, weight) pairs.
* `delta_nz.pz_fn` compares `z` with the parameter tuple (an error in the code); only its
  `n(z)`-free uses (the single-plane rows of the kernels) are modelled as running.
* `signal + noise` in `gaussian_cl_covariance` is modelled for arrays of equal shape.
* The transfer function is a function `ℝ → ℝ` of the wavenumber; the two
  Eisenstein–Hu forms are instances.
* `ksteps` of `linear_matter_power`/`sigmasqr` is unused by the code and absent.
* `dtype`, devices, `sharding`, static-argument caching of `jit` are absent.

## Trusted base

Lean 4.33.0's kernel; Mathlib as installed; axioms `propext`,
`Classical.choice`, `Quot.sound` only (see the end of this file); the reading of
the code recorded in the comments of `Model/`.  No own axioms, no `sorry`, no
`native_decide`/`bv_decide`.

## Not modelled

Floating-point rounding outside the functions of `Model/Float.lean` and `Model/FloatInterp.lean`, XLA compilation and tracing (tracer leaks), reverse-mode
and higher-order differentiation, dtype promotion, broadcasting of exotic ranks, `__str__`,
package metadata (`__init__.py` version lookup), performance.


## Coverage, function by function

Lines of `/repo/jax_cosmo` → definition of the model.

**angular_cl.py** – 18-28 → `getClOrdering`; 18-28 → `getClOrdering`; 22 → `nTracers`; 24-28 → `clIndex`; 31-49 → `getCovBlocksOrdering`; 36-49 → `getCovBlocksOrdering`; 37-41 → `findIndex`; 43-49 → `covBlocks`; 52-101 → `angularCl`; 52-101 → `angularCl`; 52-101 → `angularCl`; 52-101 → `angularClNd`; 65-66 → `probesZmax`; 65-66 → `probesZmax`; 69-99 → `clAt`; 69-99 → `clAt`; 69-99 → `clAt`; 69-99 → `clNd`; 71-96 → `limberNd`; 71-97 → `clIntegrand`; 71-97 → `clIntegrand`; 71-97 → `clIntegrand`; 71-97 → `clIntegrandNd`; 74-83 → `LimberInput`; 88-95 → `limberF`; 89 → `gather`; 89 → `gather`; 89 → `gather`; 100 → `clF`; 104-120 → `noiseCl`; 104-120 → `noiseCl`; 104-120 → `noiseCl`; 113-118 → `noiseF`; 123-166 → `gaussianClCovariance`; 123-166 → `gaussianClCovariance`; 123-166 → `gaussianClCovariance`; 138 → `addCl`; 138 → `addCl`; 138 → `addCl`; 138 → `clObsF`; 142 → `covNorm`; 142 → `covNorm`; 142 → `covNorm`; 142 → `covNormF`; 142 → `gradient`; 142 → `gradientF`; 145-156 → `covBlockDiag`; 145-156 → `covBlockDiag`; 145-156 → `covBlockDiag`; 145-156 → `covBlockDiagF`; 145-156 → `oneCovF`; 145-156 → `oneCovR`; 169-199 → `gaussianClCovarianceAndMean`; 169-199 → `gaussianClCovarianceAndMean`; 169-199 → `gaussianClCovarianceAndMean`; 184-186 → `forecastMeanF`; 187-199 → `forecastCovF`.

**background.py** – 25-53 → `w`; 25-53 → `w`; 25-53 → `w`; 53 → `wF`; 53 → `wNd`; 56-90 → `f_de`; 56-90 → `f_de`; 56-90 → `f_de`; 90 → `fDeNd`; 90 → `f_deF`; 93-126 → `Esqr`; 93-126 → `Esqr`; 93-126 → `Esqr`; 122-126 → `EsqrF`; 122-126 → `EsqrNd`; 129-142 → `H`; 129-142 → `H`; 129-142 → `H`; 142 → `HF`; 142 → `HNd`; 145-168 → `Omega_m_a`; 145-168 → `Omega_m_a`; 145-168 → `Omega_m_a`; 168 → `OmegaMNd`; 168 → `Omega_m_aF`; 171-196 → `Omega_de_a`; 171-196 → `Omega_de_a`; 171-196 → `Omega_de_a`; 196 → `OmegaDeNd`; 196 → `Omega_de_aF`; 199-242 → `chiOf`; 199-242 → `chiOf`; 199-242 → `radialComovingDistance`; 199-243 → `chiNd`; 199-440 → `BgCall`; 222 → `Cell`; 222-240 → `ensureChi`; 223-235 → `chiTable`; 223-235 → `chiTable`; 223-235 → `chiTable`; 223-235 → `chiTableF`; 225 → `logspace`; 227-229 → `dchioverdlnaF`; 235 → `ChiCache`; 240-242 → `readChiF`; 242 → `clipLo`; 242 → `readChi`; 245-267 → `aOf`; 245-267 → `aOf`; 245-267 → `aOfChi`; 245-267 → `aOfNd`; 267 → `readAOfChi`; 270-294 → `dchioverda`; 270-294 → `dchioverda`; 270-294 → `dchioverda`; 294 → `dchioverdaF`; 294 → `dchioverdaNd`; 297-344 → `transverse`; 297-344 → `transverse`; 297-344 → `transverseComovingDistance`; 325-344 → `BgCall.extra`; 329-344 → `transverseNd`; 329-344 → `transverseOf`; 347-368 → `angularDiameter`; 347-368 → `angularDiameter`; 347-368 → `angularDiameterDistance`; 368 → `angularNd`; 371-398 → `growthFactor`; 371-398 → `growthNd`; 371-398 → `growthOf`; 371-398 → `growthOf`; 401-435 → `growthRateNd`; 401-440 → `growthRate`; 401-440 → `growthRateOf`; 401-440 → `growthRateOf`; 443-488 → `growthFactorODE`; 461-485 → `growthTableF`; 461-485 → `growthTableODE`; 461-485 → `growthTableODE`; 461-485 → `growthTableODE`; 465-475 → `growthDerivs`; 465-475 → `growthDerivs`; 465-475 → `growthDerivs`; 465-475 → `growthDerivsF`; 484 → `GrowthCache`; 488 → `readGrowth`; 488 → `readGrowthF`; 491-512 → `growthRateODE`; 515-548 → `growthFactorGamma`; 534-545 → `growthTableGamma`; 534-545 → `growthTableGamma`; 534-545 → `growthTableGamma`; 551-582 → `growthRateGamma`; 551-582 → `growthRateGamma`; 551-582 → `growthRateGamma`.

**bias.py** – 12-23 → `Bias.call`; 12-23 → `map`; 21-23 → `Bias.callNd`; 21-23 → `PyVal.callBias`; 21-23 → `biasCall`; 21-23 → `biasCall`; 21-23 → `biasF`.

**constants.py** – 9 → `const_c`; 12 → `const_tcmb`; 15 → `const_rh`; 21 → `const_H0`; 27 → `const_rhocrit`.

**core.py** – 14 → `DParams`; 14 → `Params`; 14 → `callCosmology`; 14 → `cosmoNames`; 48-65 → `Cosmology`; 48-65 → `Cosmology.init`; 67-93 → `Params.text`; 99-117 → `Cosmology.treeFlatten`; 99-142 → `Cosmology.roundTrip`; 99-142 → `Prog`; 99-142 → `jitCosmo`; 114-117 → `FlatCosmology`; 119-142 → `Cosmology.treeUnflatten`; 146-147 → `Omega`; 146-147 → `Omega`; 146-147 → `OmegaF`; 158-159 → `OmegaMF`; 158-159 → `Omega_m`; 158-159 → `Omega_m`; 162-163 → `OmegaDeF`; 162-163 → `Omega_de`; 162-163 → `Omega_de`; 170-171 → `k`; 170-171 → `k`; 174-175 → `sqrtk`; 174-175 → `sqrtk`.

**jax_utils.py** – 15-17 → `construct`; 19-20 → `PyVal.repr`; 22-30 → `map`; 23-26 → `FlatWL`; 23-26 → `PyVal.trip`; 23-26 → `WeakLensing.treeFlatten`; 28-30 → `WeakLensing.treeUnflatten`; 28-30 → `unflatten`.

**likelihood.py** – 6-61 → `fitR`; 9-61 → `gaussianLogLikelihood`; 9-61 → `gaussianLogLikelihood`; 9-61 → `gaussianLogLikelihood`; 37-41 → `chi2F`; 37-41 → `chi2R`; 40-53 → `quadForm`; 41-46 → `forecastChi2F`; 47 → `minv`; 49 → `choSolve`; 49 → `chol`; 49 → `lowerSym`; 54-61 → `logLikelihoodF`; 57-60 → `logdetPart`; 60 → `logdet`.

**parameters.py** – 10-20 → `Planck15`; 10-20 → `callPlanck15`; 12-20 → `planckKw`.

**power.py** – 15-19 → `primordialMatterPower`; 15-19 → `primordialMatterPower`; 15-19 → `primordialMatterPower`; 22-54 → `linearMatterPower`; 22-54 → `linearMatterPower`; 22-54 → `linearMatterPower`; 22-54 → `linearNd`; 22-54 → `linearPowerF`; 57-79 → `sigmasqr`; 57-79 → `sigmasqr`; 57-79 → `sigmasqr`; 57-79 → `sigmasqrF`; 71-76 → `sigmaIntegrand`; 71-76 → `sigmaIntegrand`; 71-76 → `sigmaIntegrand`; 71-76 → `sigmaIntegrandF`; 74 → `windowF`; 75 → `shapeF`; 82-84 → `linear`; 82-84 → `linear`; 87-142 → `halofitParametersNd`; 94 → `logr`; 94 → `logr`; 94 → `logr`; 97-116 → `R_nl`; 97-116 → `R_nl`; 97-116 → `R_nl`; 97-116 → `R_nlBody`; 99-110 → `intSigma`; 99-110 → `intSigma`; 99-110 → `intSigma`; 99-110 → `intSigmaNd`; 112 → `sigma`; 112 → `sigma`; 112 → `sigma`; 119 → `k_nl`; 119 → `k_nl`; 119 → `k_nl`; 119 → `k_nlNd`; 122-135 → `integrandNd`; 123-132 → `res`; 123-132 → `res`; 123-132 → `res`; 133 → `res0`; 133 → `res0`; 133 → `res0`; 134 → `res1`; 134 → `res1`; 134 → `res1`; 139 → `n_eff`; 139 → `n_eff`; 139 → `n_eff`; 140 → `curv`; 140 → `curv`; 140 → `curv`; 145-267 → `halofit`; 145-267 → `halofit`; 145-267 → `halofit`; 145-267 → `halofitNd`; 183-199 → `smith2003`; 183-199 → `smith2003`; 183-199 → `smith2003`; 183-231 → `Coeffs`; 183-231 → `Coeffs`; 183-231 → `Coeffs`; 200-229 → `takahashi2012`; 200-229 → `takahashi2012`; 200-229 → `takahashi2012`; 233-247 → `fSmith`; 233-247 → `fSmith`; 233-247 → `fSmith`; 240-249 → `fTakahashi`; 240-249 → `fTakahashi`; 240-249 → `fTakahashi`; 251-265 → `assemble`; 251-265 → `assemble`; 251-265 → `assemble`; 251-267 → `assembleNd`; 270-277 → `NlNd`; 270-277 → `nonlinearMatterPower`.

**probes.py** – 18 → `jitCosmo`; 18-76 → `weakLensingKernel`; 18-76 → `weakLensingKernel`; 18-76 → `weakLensingKernel`; 18-76 → `weakLensingKernelNd`; 27 → `pyMax`; 33-35 → `extIdx`; 33-35 → `extIdx`; 36 → `deltaIdx`; 36 → `deltaIdx`; 40 → `argsort`; 44-53 → `extKernelNd`; 46-51 → `extIntegrandNd`; 46-53 → `extRow`; 46-53 → `extRow`; 46-53 → `extRow`; 46-53 → `extRowF`; 53 → `timesLens`; 55-65 → `deltaKernelNd`; 57-60 → `deltaIntegrandNd`; 57-60 → `planeF`; 57-66 → `deltaRow`; 57-66 → `deltaRow`; 57-66 → `deltaRow`; 62-66 → `deltaRowF`; 63 → `Nz.plane`; 63 → `plane`; 73 → `lensConstF`; 75 → `ellFactor`; 75 → `ellFactor`; 75 → `ellFactor`; 75 → `ellFactorF`; 76 → `lensKernelF`; 79-101 → `densityKernel`; 79-101 → `densityKernel`; 79-101 → `densityKernel`; 79-101 → `densityKernelNd`; 89-96 → `radialNd`; 91-95 → `biasNd`; 91-95 → `biasRows`; 91-95 → `biasRows`; 91-95 → `biasRows`; 96 → `radialF`; 96-101 → `densityF`; 104-131 → `nlaKernel`; 104-131 → `nlaKernel`; 104-131 → `nlaKernel`; 104-131 → `nlaKernelNd`; 121-131 → `nlaF`; 124-126 → `nlaNormF`; 134-283 → `ProbeTree`; 152-170 → `WeakLensing`; 152-170 → `WeakLensing.init`; 152-170 → `map`; 172-179 → `PyVal.nTracersOf`; 172-179 → `nTracers`; 181-188 → `zmax`; 181-188 → `zmax`; 190-210 → `WeakLensing.kernel`; 190-210 → `WeakLensing.kernelNd`; 190-210 → `kernel`; 190-210 → `kernel`; 190-210 → `wlKernel`; 201-209 → `shearF`; 207-209 → `applyM`; 207-209 → `applyM`; 207-209 → `applyM`; 207-209 → `applyMNd`; 212-225 → `PyVal.noiseOf`; 212-225 → `WeakLensing.noise`; 212-225 → `noise`; 212-225 → `noise`; 229-244 → `NumberCounts`; 241-244 → `NumberCounts.init`; 262-274 → `NumberCounts.kernel`; 262-274 → `NumberCounts.kernelNd`; 276-283 → `NumberCounts.noise`.

**redshift.py** – 11 → `steradian_to_arcmin2`; 16-146 → `Nz`; 16-146 → `NzTree`; 17-21 → `NzObj.new`; 19 → `Cls.initNorm`; 28-32 → `NzObj.call`; 28-32 → `PyVal.callNz`; 28-32 → `TNz.call`; 28-32 → `callNd`; 28-32 → `normNd`; 28-32 → `nzEval`; 28-32 → `nzEval`; 30-32 → `nzF`; 31 → `Nz.computedNorm`; 31 → `computedNorm`; 31 → `computedNorm`; 34-36 → `PyVal.zmaxOf`; 34-36 → `zmax`; 34-36 → `zmax`; 38-43 → `gals`; 38-43 → `gals`; 45-48 → `PyVal.galsPerSteradianOf`; 45-48 → `galsPerSteradian`; 45-48 → `galsPerSteradian`; 45-48 → `galsPerSteradian`; 62-78 → `map`; 62-78 → `systematicShift`; 76-78 → `PyVal.pz`; 76-78 → `pzFn`; 76-78 → `pzFn`; 76-78 → `pzFn`; 76-78 → `pzNd`; 118-122 → `kdeKernel`; 118-122 → `kdeKernel`; 118-122 → `kdeKernel`; 127 → `PyVal.toArr`; 146 → `Nz.py`.

**scipy/integrate.py** – 22-35 → `difftrap1`; 22-35 → `difftrap1F`; 38-56 → `difftrapn`; 38-56 → `difftrapn`; 38-56 → `difftrapn`; 38-56 → `difftrapnF`; 52-55 → `trapPointF`; 59-65 → `rombergDiff`; 59-65 → `rombergDiff`; 59-65 → `rombergDiff`; 59-65 → `rombergDiffF`; 68-160 → `romb`; 68-160 → `rombF`; 131-155 → `rombLoopF`; 135-155 → `rombLoop`; 135-155 → `rombLoop`; 140-143 → `rombScanFn`; 140-143 → `rombScanFn`; 140-143 → `rombScanFn`; 140-143 → `rombScanFnF`; 145-155 → `rombLoop`; 153 → `rombErr`; 163-200 → `simps`; 163-200 → `simps`; 163-200 → `simps`; 163-200 → `simpsE`; 163-200 → `simpsE`; 163-200 → `simpsE`; 163-200 → `simpsLim`; 163-200 → `simpsNd`; 196-200 → `simpsBody`; 196-200 → `simpsF`; 197 → `linspace`.

**scipy/interpolate.py** – 15 → `vmap1`; 15-40 → `interp`; 15-40 → `interp`; 15-40 → `interp`; 15-40 → `interpF`; 15-40 → `interpNd`; 16-40 → `interpBody`; 28 → `argmin`; 31 → `iclip`; 35 → `clip`; 35 → `sgn`; 36-37 → `copysign1`; 45-232 → `init`; 115 → `diff`; 136-144 → `quadKnots`; 147-187 → `quadA`; 190 → `quadS`; 201-219 → `cubicA`; 222-223 → `cubicS`; 228-232 → `Spline`; 235-238 → `treeFlatten`; 240-243 → `treeUnflatten`; 245-268 → `call`; 276-287 → `knots`; 290-292 → `pieceIx`; 291 → `digitize`; 294-315 → `piece`; 319-353 → `derivative`; 355-421 → `antiderivative`; 386 → `cumsum0`; 423-443 → `integral`.

**scipy/ode.py** – 6-22 → `odeint`; 6-22 → `odeint`; 6-22 → `odeint`; 6-22 → `odeintF`; 11-19 → `rk4`; 11-19 → `rk4`; 11-19 → `rk4`; 11-19 → `rk4F`; 21 → `scanCarry`.

**sparse.py** – 1-30 → `Sp`; 37-39 → `isSparse`; 42-49 → `checkSparse`; 52-68 → `toDenseApi`; 68 → `toDense`; 71-137 → `dot`; 141-162 → `sparseDotVec`; 141-162 → `sparseDotVec`; 141-162 → `sparseDotVec`; 166-184 → `sparseDotDense`; 188-209 → `vecDotSparse`; 213-231 → `denseDotSparse`; 235-263 → `sparseDotSparse`; 235-263 → `sparseDotSparse`; 235-263 → `sparseDotSparse`; 253-263 → `sparseDotSparseRaw`; 267-292 → `denseDotSparseDotDense`; 267-292 → `denseDotSparseDotDense`; 295-315 → `invApi`; 315 → `Lapack`; 315 → `spInv`; 315 → `spInv`; 315 → `spInv`; 323-331 → `blockDet`; 323-331 → `blockDet`; 324-328 → `schurM`; 324-328 → `schurM`; 324-328 → `schurM`; 334-366 → `slogdetApi`; 334-366 → `slogdetApi`; 334-366 → `slogdetApi`; 357-366 → `slogdetBody`; 357-366 → `slogdetBody`; 357-366 → `slogdetBody`; 357-366 → `slogdetF`; 369-389 → `detApi`; 369-389 → `detApi`; 388-389 → `detBody`; 388-389 → `detF`.

**transfer.py** – 10-156 → `Eisenstein_Hu`; 47 → `T_2_7_sqr`; 47 → `T_2_7_sqr`; 47 → `T_2_7_sqr`; 48 → `h2`; 48 → `h2`; 48 → `h2`; 48-50 → `alphaGammaF`; 49 → `w_m`; 49 → `w_m`; 49 → `w_m`; 50 → `w_b`; 50 → `w_b`; 50 → `w_b`; 51 → `fb`; 51 → `fb`; 51 → `fb`; 52 → `fc`; 52 → `fc`; 52 → `fc`; 54 → `k_eq`; 54 → `k_eq`; 54 → `k_eq`; 55 → `z_eq`; 55 → `z_eq`; 55 → `z_eq`; 58 → `zd_b1`; 58 → `zd_b1`; 58 → `zd_b1`; 59 → `zd_b2`; 59 → `zd_b2`; 59 → `zd_b2`; 60-65 → `z_d`; 60-65 → `z_d`; 60-65 → `z_d`; 68 → `R_d`; 68 → `R_d`; 68 → `R_d`; 70 → `R_eq`; 70 → `R_eq`; 70 → `R_eq`; 72-77 → `sh_d`; 72-77 → `sh_d`; 72-77 → `sh_d`; 79-85 → `k_silk`; 79-85 → `k_silk`; 79-85 → `k_silk`; 88-92 → `alpha_gamma`; 88-92 → `alpha_gamma`; 88-92 → `alpha_gamma`; 93-97 → `gammaEffF`; 93-97 → `gamma_eff`; 93-97 → `gamma_eff`; 93-97 → `gamma_eff`; 99-105 → `nowiggle`; 99-105 → `nowiggle`; 99-105 → `nowiggle`; 99-105 → `nowiggleF`; 111 → `a1`; 111 → `a1`; 111 → `a1`; 112 → `a2`; 112 → `a2`; 112 → `a2`; 113 → `alpha_c`; 113 → `alpha_c`; 113 → `alpha_c`; 114 → `bc1`; 114 → `bc1`; 114 → `bc1`; 115 → `bc2`; 115 → `bc2`; 115 → `bc2`; 116-117 → `beta_c`; 116-117 → `beta_c`; 116-117 → `beta_c`; 120-126 → `T_tilde`; 120-126 → `T_tilde`; 120-126 → `T_tilde`; 120-126 → `tildeF`; 129-130 → `Tc`; 129-130 → `Tc`; 129-130 → `Tc`; 129-130 → `cdmF`; 134-136 → `G`; 134-136 → `G`; 134-136 → `G`; 137 → `alpha_b`; 137 → `alpha_b`; 137 → `alpha_b`; 139 → `beta_node`; 139 → `beta_node`; 139 → `beta_node`; 140 → `tilde_s`; 140 → `tilde_s`; 140 → `tilde_s`; 142 → `beta_b`; 142 → `beta_b`; 142 → `beta_b`; 145-150 → `Tb`; 145-150 → `Tb`; 145-150 → `Tb`; 150 → `npSinc`; 153 → `wiggle`; 153 → `wiggle`; 153 → `wiggle`.

**utils.py** – 2-4 → `z2a`; 2-4 → `z2a`; 2-4 → `z2a`; 2-4 → `z2aF`; 7-9 → `a2z`; 7-9 → `a2z`; 7-9 → `a2z`; 7-9 → `a2zF`.


Not modelled: `core.py` `__str__`/`__repr__` (67-97), `jax_utils.py` `__repr__` (19-21),
`__init__.py` (version lookup).


## Where the code disagrees with its claims

Each has a machine-checked witness.

| claim | what the code does | witness |
|-------|--------------------|---------|
| C07 | the first cell of an interpolated table is read with the chord of the second, so the distance at the first node is wrong | `C07_refuted` |
| C08 | `a_of_chi` queries a decreasing table, on which `interp` may use the neighbouring chord | `C08_refuted` |
| C14 | `log10_amin`/`steps` are ignored once a table is cached | `C14_refuted` |
| C15 | `growth_factor` (and `growth_rate` in ODE mode) raise `ValueError` on a scalar: the vmapped `interp` has no axis to map over | `C15_refuted` |
| C16 | a `Cosmology` built with `gamma` cannot cross a `jit` boundary (`tree_unflatten` raises) | `C16_refuted` |
| C18 | `WeakLensing` swaps or loses `m` and `ia_bias` when rebuilt | `C18_refuted` |
| C19, C20 | `interp` is not linear interpolation on the first cell, nor on decreasing tables | `C19_refuted`, `C20_refuted` |
| C25 | `romb(divmax=0)` raises `UnboundLocalError` | `C25_refuted` |
| C30 | cubic "natural" endpoints: the last condition zeroes the third derivative, not the second | `C30_refuted` |
| C36 | `dot` of two sparse arrays of equal total but different block size returns a wrong product | `C36_refuted` |
| C38 | `det`/`slogdet` are wrong when a trailing block matrix is singular | `C38_refuted` |
| C41 | `sigmasqr` integrates over `ln k` between `log10` bounds | `C41_refuted` |
| C64 | the log-determinant enters the likelihood with the wrong sign | `C64_refuted`, `C64_rewards_variance` |
| C126 | hence the gradient with a parameter-dependent covariance does not average to zero at the true parameters, and no amplitude of the covariance maximises the value | `C126_refuted`, `C126_mean`, `C126_unbounded` |
| C68 | `systematic_shift` drops its parent's galaxy density and range | `C68_refuted` |
| C69 | a one-bin probe with several biases returns several rows | `C69_refuted` |
| C78 | the non-linear scale is wrong in one cell of its search grid | `C78_refuted` |
| C80 | `a_of_chi` jumps at cell midpoints | `C80_refuted` |
| C81 | the non-linear scale jumps with σ₈ | `C81_refuted` |
| C87 | the gradient with respect to Ω_k is wrong at flat universes | `C87_refuted`, `C87_jvp_refuted` |
| C107 | lensing kernels ignore spatial curvature | `C107_refuted`, `C107_open`, `C107_closed` |
| C109 | norm and lensing efficiency of a bin use different quadrature nodes | `C109_refuted` |
| C110 | the lensing kernel of a bin depends on the `zmax` of the other bins | `C110_refuted` |
| C111 | distances are NaN at every scale factor in closed universes without a big bang | `C111_bounce`, `C111_poisoned` |
| C111 | with a cosmological constant (`w0 = -1`, `wa = 0`) the expansion rate at `a = 0` is NaN, not infinite: `log 0` times zero in `f_de` | `C111_bang` |
| C112 | both transfer functions are NaN at every wavenumber without baryons | `C112_no_baryons` |
| C115 | lensing kernels are NaN for multipoles between 0 and 1; a shifted `delta_nz` has no finite density | `C115_low_multipole`, `C115_half`, `C115_shifted_plane` |
| C116 | dense and sparse covariance differ (NaN off the diagonal) when a multipole has no modes | `C116_no_modes` |
| C117 | the antiderivative of a quadratic spline is not zero at the first data point | `C117_refuted`, `C117_quadratic` |
| C122 | at amplitudes where the non-linear scale jumps (C81) there is no derivative, but a finite one is returned | `C122_refuted` |
| C123 | for a Smail distribution with `b < 1` the gradient with respect to `z0`, and to a mean shift at zero, is NaN at every redshift | `C123_refuted`, `C123_shift_refuted` |
| C124, C125 | the same NaN reaches every row of the clustering kernel and every multipole of the spectrum | `C124_refuted`, `C125_refuted` |
| C130 | with a covariance that depends on the parameters, minus the averaged Hessian (the README's Fisher matrix) differs from the Fisher information and can be negative | `C130_refuted` |
| C131 | values of a table below the rounding unit of their neighbour are lost even at their node; nodes closer than the rounding unit make the code extrapolate | `C131_lost`, `C131_close_nodes` |
| C133 | `str(cosmo)` omits `gamma`; the `repr` of a container omits its class and configuration | `C133_refuted`, `C133_container_refuted` |
| C134 | the Limber integral divides by the radial distance also in a curved universe, where the transverse distance belongs | `C134_refuted`, `C134_open` |
| C135 | constructors accept and ignore any keyword: a misspelt `gals_per_arcmin2` gives the noise of one galaxy per square arcminute; wrong numbers of parameters are noticed only at evaluation | `C135_refuted`, `C135_misspelt`, `C135_late` |
| C136 | a compiled function closing over a new cosmology (or redshift distribution) stores tracers in its `_workspace` (`_norm`): every later call outside raises `UnexpectedTracerError` | `C136_poisoned`, `C136_norm`, `C136_refuted` |
| C137 | the error estimate of `romb` does not bound its error: for every `divmax` there is a smooth integrand with value 0, estimate 0 and integral 1 | `C137_refuted`, `C137_partial` |
| C138 | `halofit` with a column of n wavenumbers returns n × n numbers, because the linear spectrum it multiplies with has lost the axis of length one; a 2-d array of scale factors is refused, or answered wrongly if its rows are as long as the growth table | `C138_column`, `C138_refuted`, `C138_rows`, `C138_rows_wrong`, `C138_partial` |
| C140 | `radial_comoving_distance`, `a_of_chi`, `transverse_comoving_distance`, `angular_diameter_distance`, `growth_factor` and `growth_rate` document `array_like` arguments but handle only arrays with one axis longer than one, the first: `interp` looks for one table position per slice. Other arrays are refused, or, for example for shape (1, 2, 1), answered with distances extrapolated from the wrong table segment; a scalar gives an array of length one, or `ValueError` from the growth functions | `C140_rows`, `C140_shared`, `C140_refuted`, `C140_scalar`, `C140_partial` |
| C141 | `gaussian_log_likelihood` is not a number for a sparse covariance with a singular trailing block, though the dense form of the same invertible matrix gives one (no positive definite matrix is affected) | `C141_indefinite`, `C141_sparse` |
| C142 | `slogdet` and `det` are documented to return NaN for the zero matrix; with one block per side they return `(0, -inf)` and 0 | `C142_zero` |
| C128 | with `inverse_method="cholesky"` the tangent responds to the upper triangle of the covariance although the value ignores it | `C128_refuted` |
| C129 | the gradient of the log likelihood with respect to `z0` is NaN for a clustering bin with `b < 1` | `C129_refuted` |
| C114 | `smith2003` is NaN in an Einstein–de Sitter universe | `C114_einstein_de_sitter` |
| C143 | the lensing kernel of a bin is integrated up to the largest `zmax` of all bins of the probe, past the range over which its n(z) was normalised: adding a deeper bin to a probe changes the kernels (and spectra) of the others | `C143_refuted`, `C143_overrun` |
| C147 | distances at small redshift are too large: below the last table step (z < 0.027) the table is a straight line in `a`, 2 % too steep for Planck15 and the default table | `C147_planck`, `C147_refuted` |
| C151 | `n(z)` is normalised over `[0, zmax]` but not cut at `zmax`: next to a probe that reaches further, the clustering (and alignment) signal of galaxies beyond `zmax` is projected too, so spectra change and the galaxy number exceeds the one used for the noise | `C151_counts`, `C151_number`, `C151_refuted`, `C151_lensing_partial` |
| C153 | `n(z)` is normalised with 256 Simpson steps over `[0, zmax]` (default 10): a `kde_nz` narrower than a step (0.04) is normalised wrongly, by factors from 0 to arbitrarily large depending on where its galaxies sit relative to the nodes | `C153_between`, `C153_node`, `C153_narrow`, `C153_refuted`, `C153_kde` |
| C154 | distances to redshifts far beyond the start of the table (a < 10⁻³) are too short: a chord is extrapolated, missing up to a Hubble radius of that time (1.3 % at z = 10⁵ in Einstein–de Sitter); harmless at z = 1100 | `C154_line`, `C154_short`, `C154_refuted`, `C154_recombination` |
| C155 | `np.gradient(ell)` gives the width of the band around `ell`, but `2 ell + 1` is taken at the grid point instead of the middle of the band: on uneven grids fewer modes are counted than the band has (a factor three for 10, 100, 1000; negligible on fine grids) | `C155_uneven`, `C155_refuted`, `C155_geometric_partial` |
| C156 | kernels and the Limber integral use radial distances only, so linear spectra cannot tell a curved universe from a flat one with the same expansion | `C156_refuted`, `C156_linear_spectra`, `C156_transverse` |
| C158 | `sigmasqr` computes the window as `3 (sin x - x cos x) / x³`, which cancels at small `x`: in single precision it is lost below `x = 10⁻⁴` and the variance in spheres of radius up to `10⁻⁷` is zero; at the radius 8 of the normalisation the window is right to four decimals | `C158_lost`, `C158_small`, `C158_refuted`, `C158_sigma8` |
| C160 | bins of sources narrower than a step of the quadrature (`zmax`/256, 0.04 by default) do not lens like a plane: normalisation and lensing integral use different nodes, so the kernel tends to zero, to a wrong multiple, or to infinity as the bin narrows | `C160_refuted`, `C160_lost`, `C160_common`, `C160_divergent` |
| C161 | the derivative of the distance with respect to redshift, taken through the table, is the slope of a chord and not `c/H(z)`; it jumps at the nodes and is off by up to a few per cent with the default table | `C161_refuted`, `C161_accuracy_partial` |
| C162 | `growth_rate` is not the logarithmic derivative of `growth_factor`: the first is interpolated from a table of its own (or computed directly from the growth index), the second has the slope of a chord | `C162_refuted`, `C162_where` |
| C163 | near today the distance is computed as the difference of two numbers of the size of the Hubble radius: in single precision it is a multiple of 0.00024 Mpc/h, and at the last number before `a = 1` it is off by more than a third in every universe | `C163_refuted`, `C163_lost`, `C163_grain` |
| C164 | with curvature the energy budget does not close in floating point: for `Ω_k = -2^-24` the curvature disappears from `Ω_de = 1 - Ω_k - Ω_m` but not from `Esqr`, and `Esqr(1)` is not 1 | `C164_refuted`, `C164_curved` |
| C166 | Read from a table whose last cell starts before a = 1/2, the growth factor today is one unit in the last place below one in single precision. With the default 128 nodes it is exactly one. | `C166_refuted`, `C166_today_partial`, `C166_default` |
| C167 | In single precision a log determinant of size 2^24 swallows a χ² below one: fits of different quality have the same log likelihood when the determinant is included. `det` returns zero for positive definite matrices whose log determinant is below −104. | `C167_refuted`, `C167_rounding_partial`, `C167_single_partial` |
| C168 | Angular spectra computed without noise can violate the Cauchy–Schwarz inequality by one unit in the last place, so the matrix of spectra of nearly proportional tracers is not positive semi-definite in single precision. | `C168_refuted`, `C168_psd_partial`, `C168_single_partial` |
| C169 | In single precision the spin-2 prefactor √((ℓ−1)ℓ(ℓ+1)(ℓ+2))/(ℓ+½)² is above one at ℓ = 7003 and smaller at ℓ = 437 than at ℓ = 436. It is right to one part in a million. | `C169_refuted`, `C169_spin_partial`, `C169_spin_single` |
| C171 | In single precision a lensing kernel with alignments can be computed as negative where it is positive, when the two parts cancel to a few parts in 10⁸; the error is small relative to the sizes of the parts, not to their sum. | `C171_refuted`, `C171_shear_partial`, `C171_safe` |
| C172 | A fit in single precision depends on the unit of the data unless units differ by a power of two: with a factor of five a chi-square of 1 becomes 1 − 2⁻²⁴. | `C172_refuted` |
| C173 | The variance of a spectrum leaves the range of single precision long before the spectrum does: with spectra of 2⁻⁷⁶ a perfect fit is NaN, with spectra of 2⁶⁴ a misfit of ten standard deviations has a chi-square of zero. | `C173_refuted` |
| C174 | A chi-square in single precision depends on the order in which its terms are added, already for three bands. | `C174_refuted` |
| C175 | Every mode is suppressed by the smooth transfer function, and smaller scales more. In single precision the function is exactly one for every wavenumber below the effective shape over 2^21, since the quadratic term is absorbed by the logarithm. | `C175_refuted`, `C175_unity`, `C175_below_partial` |
| C177 | More noise is always seen in the observed spectrum. In single precision noise below the last digit of the spectrum is lost: 2^-81 and 2^-80 give the same observed spectrum. | `C177_refuted`, `C177_tells_partial` |
| C179 | The spectrum of a primordial index of one bends on every scale. In single precision it is straight on the largest: at the wavenumber 2^-22 (shape one) doubling the wavenumber doubles the power exactly. | `C179_refuted` |

Noticed in the code and recorded only here: `delta_nz.pz_fn` compares `z` with a tuple; the
docstring of `gaussian_cl_covariance_and_mean` promises signal plus noise but the mean is the signal;
`angular_cl` returns shape `[ncls, n_ell]`, not `[nell, ncls]`; the jitted kernels raise `AttributeError` for any
cosmology carrying `gamma` (through C16).


## Properties

Status as in `MANIFEST.json`; *partial* means that the claim as stated is false of the code (a
`_refuted` theorem gives a concrete witness) or proved on part of its domain (`_partial`).

### C01 Redshift and scale factor convert back and forth exactly – proved

`z2a`, `a2z` over an ordered field; field algebra, order.

Note: Over any linearly ordered field.

Theorems: `C01_a2z_z2a`, `C01_z2a_a2z`, `C01_range`, `C01_onto`, `C01_strictAnti`.

### C02 Friedmann closure today – proved

`Cosmology` densities; algebra.

Theorems: `C02_Esqr_one`, `C02_H_one`.

### C03 Density fractions sum to one at every epoch – proved

`Omega_m_a`, `Omega_de_a`, curvature term; field algebra given E² ≠ 0.

Theorems: `C03_fractions_sum`, `C03_fractions_range`.

### C04 Dark-energy evolution is the integral of its equation of state – proved

`f_de` against the integral of `1+w`; fundamental theorem of calculus.

Theorems: `C04_f_de_integral`, `C04_f_de_one`, `C04_lambda_const`, `C04_density_rate`.

### C05 Expansion rate is positive and decreases with time – proved

`Esqr`, `Omega_*_a`; positivity of each term, derivative sign of `f_de`.

Theorems: `C05_Esqr_pos`, `C05_H_pos`, `C05_Esqr_antitone`, `C05_H_antitone`.

### C06 Radial comoving distance: zero today, never negative, decreasing in a – proved

`odeint` + table + `interp` + clip; the table is strictly decreasing, monotone interpolant lemma.

Theorems: `C06_call`, `C06_nonneg`, `C06_zero_today`, `C06_antitone`, `C06_zero_after`, `C06_pos_before`, `C06_strictAnti`.

### C07 Radial comoving distance is the quadrature of R_H/(a^2 E) – partial

RK4 of a right-hand side independent of `y` is Simpson; Peano kernel for the error bound.

Note: Refuted at the first table node (C07_refuted, witness Milne universe): interp uses the wrong chord below the second node. Proved at every other node, plus an error bound against the true integral.

Theorems: `C07_partial`, `C07_accuracy`, `C07_milne_partial`, `C07_first_node`, `C07_refuted`.

### C08 a_of_chi inverts radial_comoving_distance – partial

`a_of_chi`; true at nodes, witness table for the refutation.

Note: Refuted (C08_refuted): a_of_chi reads a decreasing table, on which interp may select the wrong segment. Proved where the segment lookup is right, including nodes.

Theorems: `C08_partial`, `C08_nodes_partial`, `C08_refuted`.

### C09 Transverse distance follows the curvature of the universe – proved

`lax.switch` on `k+1`; `sinh x ≥ x`, `sin x ≤ x`, limits.

Theorems: `C09_call`, `C09_flat`, `C09_open`, `C09_closed`, `C09_limit`, `C09_angular`.

### C10 Growth factor is normalised to one today and lies in [0,1] – proved

Both growth paths; value at last node and clip.

Note: growth_factor(1)=1 in the ODE branch uses a positivity hypothesis that is proved for every physical cosmology.

Theorems: `C10_call`, `C10_range`, `C10_one_gamma`, `C10_one_ode_guard`, `C10_one`, `C10_mono_ode`, `C10_pos_ode`, `C10_strict_ode`.

### C11 Einstein-de Sitter growth is exact – proved

RK4 invariance of `(a,1)` in Einstein–de Sitter.

Theorems: `C11_eds_growth`, `C11_eds_rate`, `C11_gamma_zero`.

### C12 Gamma growth rate is Omega_m(a)^gamma – proved

`_growth_rate_gamma`, `_growth_factor_gamma`; algebra and the RK4 quadrature of Ω_m(a)^γ/a.

Theorems: `C12_call`, `C12_range`, `C12_mono`.

### C13 Cached background tables are transparent – proved

Workspace as state, `step : Obj → Call → Obj × Result`; invariant by induction over call lists.

Theorems: `C13_transparent`, `C13_params`, `C13_total`, `C13_no_keyError`, `C13_values`, `C13_history_free`.

### C14 Table settings passed to radial_comoving_distance take effect – partial

Same machine; witness history.

Note: Refuted (C14_refuted, C14_settings_ignored): once a table is cached, later resolution settings are ignored. Proved for a first call and for repeated settings.

Theorems: `C14_first_call_partial`, `C14_same_settings_partial`, `C14_settings_ignored`, `C14_refuted`.

### C15 Background functions accept scalars as documented – partial

Rank-level model of `vmap`; decision.

Note: Refuted (C15_refuted, C15_growth_factor_scalar, C15_growth_rate_scalar): growth_factor in both modes and growth_rate in ODE mode raise ValueError on a scalar because interp is vmapped over it. Proved for the distances and for growth_rate with gamma.

Theorems: `C15_distances_partial`, `C15_growth_rate_gamma_partial`, `C15_growth_factor_scalar`, `C15_growth_rate_scalar`, `C15_refuted`.

### C16 A Cosmology survives JAX flattening – partial

Pytree universe; structural induction.

Note: Refuted (C16_refuted, C16_gamma_fails): gamma given to the constructor makes tree_unflatten fail. Proved for cosmologies without gamma.

Theorems: `C16_short`, `C16_partial`, `C16_gamma_fails`, `C16_refuted`, `C16_kernels_fail`, `C16_jit_partial`.

### C17 Containers, redshift distributions, biases and NumberCounts survive JAX flattening – proved

Pytree universe; structural induction.

Theorems: `C17_roundtrip`, `C17_repeat`, `C17_fields`, `C17_redshift`, `C17_bias`, `C17_numberCounts`.

### C18 A WeakLensing probe survives JAX flattening – partial

Pytree universe; witness probes.

Note: Refuted (C18_refuted, C18_m_lost, C18_ia_fails): WeakLensing loses its multiplicative bias or fails on rebuild. Proved for the configurations that survive.

Theorems: `C18_partial`, `C18_m_lost`, `C18_period_two`, `C18_ia_fails`, `C18_refuted`.

### C19 interp is piecewise-linear interpolation of the table – partial

`interp`; argmin characterisation.

Note: Refuted on the first segment (C19_refuted, C19_first_segment gives the exact wrong value); proved on all other segments.

Theorems: `C19_partial`, `C19_nodes_partial`, `C19_first_segment`, `C19_fp0_ignored`, `C19_first_segment_iff`, `C19_refuted`.

### C20 interp on decreasing tables – partial

`interp` on decreasing tables.

Note: Refuted on decreasing tables (C20_refuted); proved at nodes and whenever the nearest node is the upper end of the segment.

Theorems: `C20_partial`, `C20_nodes`, `C20_wrong_segment`, `C20_refuted`.

### C21 interp reproduces affine tables everywhere and preserves order – proved

`interp` on affine and on monotone tables; bounds and extrapolation.

Theorems: `C21_affine`, `C21_mono`, `C21_anti`, `C21_linear`, `C21_strictMono`, `C21_strictAnti`.

### C22 Simpson rule: exact on cubics, linear, positive, oriented – proved

`simps`; algebra over `Finset.sum`.

Theorems: `C22_odd_rejected`, `C22_linear`, `C22_exact_cubic`, `C22_mono`, `C22_nonneg`, `C22_swap`, `C22_exact_cubic_integral`.

### C23 Simpson rule converges at fourth order – proved

`simps`; Taylor/Peano-kernel argument.

Theorems: `C23_error_bound`, `C23_converges`.

### C24 Romberg integration builds the Romberg tableau and is exact on polynomials – proved

`romb` including the padded scan state; invariant of the scan, Bernoulli even expansion of the trapezoid sums.

Note: Tableau specified independently in Spec.Romberg; exactness for polynomials of degree <= 2m+1.

Theorems: `C24_state`, `C24_tableau`, `C24_linear`, `C24_exact`, `C24_exact_integral`, `C24_nonneg`, `C24_mono`.

### C25 Romberg integration accepts every divmax – partial

`romb` at 0.

Note: Refuted at divmax = 0 (the loop body never binds the result: UnboundLocalError); proved for every divmax >= 1.

Theorems: `C25_partial`, `C25_refuted`.

### C26 The ODE solver is the classical RK4 scheme on the given grid – proved

`odeint`; recursion and algebra.

Theorems: `C26_first`, `C26_step`, `C26_prefix`, `C26_restart`, `C26_simpson`, `C26_cubic_exact`, `C26_linear`.

### C27 Splines pass through their data – proved

Spline class, `np.linalg.solve` as matrix inverse; algebra per piece.

Theorems: `C27_interpolates`.

### C28 Splines are smooth of order k-1 – proved

Pieces agree at knots; diagonal dominance for solvability.

Theorems: `C28_total`, `C28_quadratic_solvable`, `C28_cubic_solvable`, `C28_smooth`.

### C29 Cubic not-a-knot endpoints – proved

Not-a-knot; uniqueness of the solution.

Theorems: `C29_cubic_exact`, `C29_quadratic_exact`, `C29_single_cubic`, `C29_third_derivative`.

### C30 Cubic natural endpoints – partial

Natural end; witness data.

Note: Refuted at the right end (C30_refuted: second derivative 24/19). Left end proved; the condition the code imposes on the right (third derivative zero on the last piece) is proved instead.

Theorems: `C30_left_partial`, `C30_right_condition`, `C30_affine_exact`, `C30_refuted`.

### C31 Spline derivative() is the derivative of the spline – proved

`derivative`; differentiation of pieces.

Note: Order n = k away from the breakpoints between pieces.

Theorems: `C31_rejected`, `C31_derivative`.

### C32 Spline integral is the integral of the spline – proved

`antiderivative`, `integral`; FTC.

Theorems: `C32_antiderivative`, `C32_integral`, `C32_antisymm`, `C32_additive`.

### C33 A spline survives JAX flattening – proved

`tree_flatten`/`tree_unflatten` of the spline; case analysis.

Theorems: `C33_roundtrip`, `C33_built`.

### C34 to_dense places each diagonal where the format says – proved

`to_dense`; `Matrix.blockDiagonal` correspondence.

Theorems: `C34_toDense`, `C34_entry`, `C34_injective`, `C34_linear`, `C34_api`.

### C35 Every sparse product equals the dense product – proved

`dot` in all operand combinations.

Theorems: `C35_sparse_vec`, `C35_sparse_dense`, `C35_vec_sparse`, `C35_dense_sparse`, `C35_sparse_sparse`, `C35_bilinear`.

### C36 dot rejects operands whose shapes do not multiply – partial

`dot` shape checks.

Note: Refuted for sparse x sparse with equal total size but different block sizes (C36_refuted; C36_mismatch_wrong: never right). Rejection of incompatible shapes proved in full; results proved correct whenever block sizes agree.

Theorems: `C36_rejects`, `C36_count`, `C36_triple_rejects`, `C36_returns_partial`, `C36_triple_returns`, `C36_mismatch_wrong`, `C36_refuted`.

### C37 Sparse inverse is the inverse – proved

`inv`; Schur complements.

Theorems: `C37_inverse`, `C37_involution`, `C37_rejects`.

### C38 Sparse determinant is the determinant – partial

`det`, `slogdet`.

Note: Refuted when a trailing block matrix is singular (C38_refuted). Proved when all trailing block matrices are invertible, hence for every positive definite matrix (C38_posDef).

Theorems: `C38_slogdet_partial`, `C38_det_partial`, `C38_posDef`, `C38_rejects`, `C38_refuted`.

### C39 Linear power spectrum has the requested sigma8 – proved

`linear_matter_power`, `sigmasqr`; linearity of `romb`, non-zero normalisation as hypothesis (discharged for the smooth form).

Theorems: `C39_sigma8`, `C39_normalisable`, `C39_rescale`.

### C40 Linear power scales with growth squared – proved

`linear_matter_power`; algebra, with the growth factor of C10.

Theorems: `C40_growth`, `C40_sigma8`, `C40_nonneg`, `C40_pos`, `C40_le_today`.

### C41 sigmasqr integrates over the requested wavenumbers – partial

`sigmasqr` bounds; witness transfer function.

Note: The integrand is right but the bounds passed to the quadrature in ln k are log10(kmin), log10(kmax): proved C41_range and refuted with a continuous transfer function for which sigmasqr is 0 though the integral is positive.

Theorems: `C41_integrand_partial`, `C41_range`, `C41_refuted`.

### C42 Non-linear power is positive and dispatches on the prescription – proved

`halofit` positivity and dispatch.

Theorems: `C42_k_nl`, `C42_takahashi_pos`, `C42_smith_pos`, `C42_unknown`, `C42_linear`, `C42_default`.

### C43 No-wiggle transfer function lies in (0,1] and falls with q – proved

`Eisenstein_Hu` without wiggles; inequalities.

Theorems: `C43_range`, `C43_shape`, `C43_zero`, `C43_decreasing`, `C43_unknown`.

### C44 Transfer function tends to one on large scales – proved

Both Eisenstein–Hu forms; limits k → 0.

Theorems: `C44_large_scales`.

### C45 Redshift distributions are normalised by the library's quadrature – proved

Redshift objects with cached norm; linearity of `simps`.

Note: delta_nz has its norm fixed to 1 (C45_delta). Norms of smail_nz and kde_nz proved positive.

Theorems: `C45_history`, `C45_normalised`, `C45_rescale`, `C45_delta`, `C45_smail`, `C45_kde`.

### C46 KDE redshift distribution is a weighted mixture – proved

`kde_nz`; Gaussian integral, sums over permutations.

Theorems: `C46_nonneg`, `C46_integral`, `C46_weights`, `C46_perm`, `C46_merge`.

### C47 systematic_shift shifts the parent distribution – proved

Shift composition.

Theorems: `C47_shift`, `C47_below`, `C47_zero`, `C47_compose`, `C47_compose_eval`.

### C48 Lensing kernel keeps bins in order – proved

Rows of `weak_lensing_kernel` after `argsort` of the two kinds of bins; permutation lemma.

Theorems: `C48_order`, `C48_perm`, `C48_rejects`.

### C49 Lensing kernel is non-negative and vanishes behind the sources – proved

Lensing kernel; monotonicity of χ.

Theorems: `C49_nonneg`, `C49_beyond`, `C49_plane`, `C49_observer`, `C49_front`.

### C50 Spin-2 prefactor is within [0,1) – proved

Prefactor; algebra, limit.

Theorems: `C50_range`, `C50_one`, `C50_strictMono`, `C50_tendsto`.

### C51 Probe systematics act linearly – proved

Systematics; linearity.

Theorems: `C51_list_bias`, `C51_per_bin`, `C51_length`, `C51_linear`, `C51_m_scalar`, `C51_m_list`, `C51_m_equal`, `C51_ia_additive`, `C51_ia_zero`.

### C52 Unsupported single-plane kernels are refused – proved

`density_kernel`/`nla_kernel` on single-plane bins; case analysis.

Theorems: `C52_density`, `C52_nla`, `C52_only`.

### C53 Bias models have their documented normalisation – proved

`bias.py`; evaluation, with C10.

Theorems: `C53_constant`, `C53_invGrowth_today`, `C53_invGrowth_ge`, `C53_invGrowth_mono`, `C53_invGrowth_physical`, `C53_desY1_pivot`, `C53_desY1_power`.

### C54 Spectra ordering enumerates each tracer pair once – proved

Ordering of spectra; list combinatorics.

Theorems: `C54_count`, `C54_enumerates`.

### C55 Covariance blocks pair the right spectra – proved

Covariance block ordering.

Theorems: `C55_missing`, `C55_blocks`.

### C56 Auto spectra are non-negative and spectra obey Cauchy-Schwarz – proved

Limber integral as a Simpson sum with non-negative weights; Cauchy–Schwarz for finite sums.

Theorems: `C56_limber`, `C56_psd`, `C56_cauchy_schwarz`.

### C57 Angular spectra do not depend on which other probes are present – proved

Row lookup in the flattened kernel list.

Note: For probes whose per-bin lists match their bins (Consistent); without that C69 fails and tracers are renumbered.

Theorems: `C57_independent`, `C57_sublist`, `C57_perm`.

### C58 Noise enters only auto-spectra – proved

Noise spectra.

Note: C58_auto_only assumes Consistent probes (see C69). Positivity assumes galaxies in every bin and non-zero shape noise.

Theorems: `C58_auto_only`, `C58_lensing`, `C58_lensing_list`, `C58_clustering`, `C58_pos`.

### C59 Covariance is the Gaussian (Wick) covariance and symmetric – proved

Wick formula.

Theorems: `C59_wick`, `C59_default`, `C59_wrong_rows`, `C59_symmetric`.

### C60 Covariance is positive (semi-)definite – proved

Gram matrix; symmetric-square argument.

Note: Also instantiated for spectra computed by the library in C66.

Theorems: `C60_posSemidef`, `C60_posDef`.

### C61 Sparse and dense covariances are the same matrix – proved

`gaussian_cl_covariance` in both formats; index arithmetic of `reshape`.

Theorems: `C61_representation`, `C61_mean_order`.

### C62 Bandwidth weights are positive – proved

`np.gradient` weights.

Theorems: `C62_value`, `C62_pos`, `C62_uniform`.

### C63 Log-likelihood does not depend on the covariance representation – proved

Likelihood representations.

Note: np.linalg.inv and cho_solve are modelled by the exact inverse.

Theorems: `C63_representation`, `C63_method`, `C63_unknown_method`, `C63_wrong_shape`.

### C64 Log-likelihood is the Gaussian log density up to a constant – partial

Comparison with the Gaussian density.

Note: Refuted: the log-determinant enters with the wrong sign (C64_refuted, C64_rewards_variance). Proved: for fixed covariance the value differs from the log density by log det C + (N/2) log 2 pi.

Theorems: `C64_partial`, `C64_sparse_partial`, `C64_refuted`, `C64_rewards_variance`.

### C65 Log-likelihood without determinant is minus half chi-squared – proved

χ² form.

Theorems: `C65_chiSq`, `C65_sparse`.

### C66 The forecast pipeline is well posed end to end – proved

Composition of the above.

Note: C66_default discharges the positivity hypothesis for the default halofit spectrum; C66_returns shows the pipeline does not raise.

Theorems: `C66_pipeline`, `C66_default`, `C66_returns`.

### C67 Transfer function depends only on physical densities and physical wavenumber – proved

Transfer function as a function of ω_m, ω_b and physical k; substitution.

Theorems: `C67_physical_units`, `C67_independent`.

### C68 A systematic shift keeps the galaxy density and range of its parent – partial

Constructor defaults; witness.

Note: Refuted: systematic_shift falls back to gals_per_arcmin2=1, zmax=10 unless the keywords are repeated.

Theorems: `C68_explicit_partial`, `C68_defaults`, `C68_refuted`, `C68_zero_shift`.

### C69 Every probe yields one kernel row and one noise level per tracer – partial

Row counts under `bcast`; witness.

Note: Refuted: a one-bin probe given a list of several biases/shape noises returns several rows. Proved when the lists of one-bin probes have one entry.

Theorems: `C69_kernel_partial`, `C69_noise_partial`, `C69_refuted`.

### C70 The growth ODE is the linear growth equation – proved

`D_derivs` against the linear growth equation with the derivative of E computed by Mathlib; Heath integral by FTC.

Theorems: `C70_equation`, `C70_solutions`, `C70_decaying`, `C70_growing`.

### C71 Distance integrand, redshift integral and number conservation agree – proved

`dchioverda`; substitution a = 1/(1+z).

Theorems: `C71_rate`, `C71_redshift`, `C71_number`.

### C72 Faster expansion means smaller distances – proved

Comparison of RK4 tables; monotonicity of Simpson sums.

Theorems: `C72_nodes`, `C72_radial`, `C72_default`, `C72_matter`.

### C73 Physical constants are consistent – proved

Constants; rational arithmetic.

Theorems: `C73_units`.

### C74 Structure never grows faster than in Einstein-de Sitter – proved

RK4 invariant: growth below the EdS solution.

Theorems: `C74_ratio`, `C74_growth`, `C74_rate`.

### C75 Halofit is the published fitting formula – proved

`halofit` against a formula written out independently in `Spec/Halofit`.

Note: Smith et al. constants are those in the code (nu_n uses 0.9585; not checked against the paper).

Theorems: `C75_takahashi`, `C75_smith`.

### C76 Effective index and curvature are logarithmic derivatives of the variance – proved

Differentiation under the (finite) quadrature sum.

Theorems: `C76_variance`, `C76_index`.

### C77 Non-linear corrections vanish on large scales – proved

Limit k → 0 of the correction.

Note: C77_eisenstein_hu keeps 'sigma8-normalisable' as a hypothesis for the oscillating form; the Planck example discharges everything for the smooth one.

Theorems: `C77_takahashi`, `C77_smith`, `C77_eisenstein_hu`.

### C78 The non-linear scale is where the variance is one – partial

Root of the interpolated variance; witness power law.

Note: Refuted in the last but one cell of the search grid (R between 9.1 and 9.6 Mpc/h), where interp extends the wrong chord on a decreasing table (C78_refuted). Proved for roots in all other cells.

Theorems: `C78_scale_partial`, `C78_refuted`.

### C79 Angular spectra scale with their amplitudes – proved

Scaling through kernels, Limber sum and σ₈.

Theorems: `C79_sigma8`, `C79_sigma8_all`, `C79_amplitude`, `C79_galaxy_bias`, `C79_shear_bias`.

### C80 Interpolated quantities vary continuously – partial

Continuity of the clipped interpolant; jump at midpoints of decreasing tables.

Note: Refuted for a_of_chi, which queries a decreasing table: interp then uses the chord next to the nearest node, so it jumps at the midpoint of every inner cell where neighbouring slopes differ (C80_jump, C80_a_of_chi, C80_refuted). Proved for increasing tables, radial distance and growth, and away from midpoints.

Theorems: `C80_steepness`, `C80_increasing`, `C80_decreasing_partial`, `C80_jump`, `C80_distance`, `C80_growth`, `C80_a_of_chi`, `C80_refuted`.

### C81 The non-linear scale depends continuously on sigma8 – partial

Intermediate values; witness cut-off spectrum.

Note: Refuted (C81_refuted; C81_cutoff for every transfer function cut off below k = 5000 h/Mpc): R_nl jumps where the variance at a midpoint of the search grid is one. Proved continuous at all other amplitudes.

Theorems: `C81_partial`, `C81_jump`, `C81_cutoff`, `C81_refuted`.

### C82 Differentiating the ODE solver solves the variational equation – proved

Induction over RK4 steps, chain rule per stage.

Note: Derivatives are mathematical derivatives of the modelled functions; the AD of jax is not modelled.

Theorems: `C82_variational`.

### C83 Distances respond to parameters as the quadrature of the response – proved

C82 for the distance table, quadrature form.

Theorems: `C83_Esqr`, `C83_distance`, `C83_today`.

### C84 Growth factor and rate are differentiable in the parameters – proved

C82 for the growth table; the clips are never active.

Theorems: `C84_table`, `C84_growth`, `C84_today`, `C84_rate_gamma`, `C84_growth_gamma`, `C84_differentiable`, `C84_rate`.

### C85 Transfer function and linear power are differentiable in parameters and wavenumber – proved

Chain rule through `transfer.py`; Romberg sums commute with d/dθ.

Note: The smooth transfer function needs gamma_eff > 0 (implied by alpha_gamma >= 0). C85_power takes a non-zero sigma8 normalisation as hypothesis; discharged in C85_power_smooth.

Theorems: `C85_smooth`, `C85_oscillating`, `C85_sigmasqr`, `C85_power`, `C85_power_smooth`.

### C86 Angular spectra are differentiable in the parameters – proved

Chain rule through kernels and Limber sum; lower bound χ > 1 away from today.

Note: Linear power; gamma absent because the jitted kernels raise for cosmologies with gamma. The only kinks are samples exactly 1 Mpc/h away (C86_smooth), excluded for zmax >= 2 by C86_regular.

Theorems: `C86_kernel`, `C86_spectra`, `C86_oscillating`, `C86_smooth`, `C86_regular`.

### C87 Curvature gradient of the transverse distance – partial

The entire function sin(√y)/√y extended through y = 0; derivative 1/6 at 0.

Note: Refuted at flat universes (C87_refuted, C87_flat_wrong): the branch selected by lax.switch is chi, whose derivative lacks Omega_k' chi^3/(6 R_H^2) (C87_flat). Differentiability everywhere (C87_differentiable) and the switch derivative in curved universes (C87_partial) are proved. The same with the algorithm of jax.jvp itself (Model/Dual*.lean): C87_jvp_refuted, C87_jvp_flat, C87_jvp_partial.

Theorems: `C87_differentiable`, `C87_flat`, `C87_partial`, `C87_flat_wrong`, `C87_refuted`, `C87_jvp_partial`, `C87_jvp_flat`, `C87_jvp_refuted`.

### C88 Score and Fisher matrix of the likelihood – proved

Bilinear calculus; Hessian of a composition at a critical point.

Note: For a covariance that does not vary with the parameters (the log-determinant sign defect C64 then only shifts the value). C88_pipeline uses linear power (C86).

Theorems: `C88_score`, `C88_sparse`, `C88_fisher`, `C88_information`, `C88_pipeline`.

### C89 odeint converges at fourth order – proved

Stages compared with the exact solution at the midpoint (uniform big-O calculus in `Proofs/Oh`); local error O(h⁵), Lipschitz step, induction over the grid.

Note: Exact arithmetic: rounding is not modelled, so the bound holds until rounding error dominates.

Theorems: `C89_order`, `C89_uniform`.

### C90 The growth table converges at fourth order – proved

Existence by Picard-Lindelöf on a clamped system with a Grönwall bound, uniqueness by Grönwall, positivity by a first-zero argument, smoothness by bootstrapping; then C89.

Note: The exact solution starts from the code's initial values at the first node; how far that is from the growing mode started at a = 0 is not covered. The rates hold from some n0 on (before that the last tabulated value could vanish).

Theorems: `C90_solution`, `C90_unique`, `C90_growth`, `C90_rate`.

### C91 Distances and growth converge at every scale factor – proved

C89/C90 at the nodes; interpolation error from the tangent-line remainder, with the extrapolated first chord; exact integrals by the fundamental theorem of calculus.

Note: Second order, not fourth: linear interpolation dominates. The first-cell defect (C19) does not spoil the order because neighbouring cells of a logarithmic grid have comparable widths.

Theorems: `C91_distance`, `C91_growth`, `C91_rate`, `C91_gamma`.

### C92 Shape of the Smail distribution – proved

Logarithmic derivative, monotonicity by its sign, tail by substitution u = (z/z0)^b.

Note: Shape on z > 0, where the real power agrees with np.power.

Theorems: `C92_ratio`, `C92_slope`, `C92_rise`, `C92_fall`, `C92_tail`.

### C93 Moments of the kernel density estimate – proved

The kernel is Mathlib's Gaussian density; linearity of the integral over the catalogue.

Note: pz_fn itself; __call__ additionally divides by the Simpson norm over [0, zmax] (C45).

Theorems: `C93_mixture`, `C93_mean`, `C93_second`.

### C94 Quadratures converge for every continuous integrand – proved

From positivity, linearity and polynomial exactness of the tableau (C24) with Weierstrass' theorem; panel-wise oscillation for Simpson.

Note: Weights are positive and exact on polynomials, so a Weierstrass argument applies; no differentiability is assumed (C23 has the rates for smooth integrands).

Theorems: `C94_simps_modulus`, `C94_simps`, `C94_romb_best`, `C94_romb`.

### C95 Redshift conversions in floating point – proved

Standard model of floating-point arithmetic; concrete binary rounding for the loss of small redshifts.

Note: Rounding model: relative error at most u, monotone, exact on one; rounding to nearest even with p binary digits is shown to be such a rounding. Overflow and gradual underflow are not modelled. C01 is the statement in exact arithmetic; C95_lost shows that it does not hold bit for bit.

Theorems: `C95_exact`, `C95_range`, `C95_scale`, `C95_roundtrip`, `C95_lost`.

### C96 Simpson's rule in floating point – proved

Error propagation calculus for +, *, / (Near) and induction over summation trees.

Note: The order in which np.sum adds is an arbitrary binary tree over the panels; depth is at most N/2 for sequential summation and log2(N/2) for pairwise.

Theorems: `C96_exact`, `C96_rounding`, `C96_positive`, `C96_total`.

### C97 The covariance is exactly symmetric in floating point – proved

From the ordering of C55 and commutativity of rounded multiplication.

Note: Spectra and weights are whatever was computed before; multiplication commutes also after rounding.

Theorems: `C97_symmetric`, `C97_accurate`.

### C98 odeint in floating point – proved

Local rounding error of a step by an error-propagation calculus, then discrete Gronwall together with the local truncation error of C89.

Note: The state is an array rounded entry by entry; the norm is the maximum norm. Extends C89 from exact to rounded arithmetic.

Theorems: `C98_exact`, `C98_order`.

### C99 Growth factor is Heath's integral when dark energy is a cosmological constant – proved

Uniqueness of C90 applied to the solutions of C70, elementary bounds on the integral, and convergence of C91.

Note: Exact arithmetic. The bound on the decaying admixture is explicit (below 1e-11 for Planck15 and the default range); the constant C of the discretisation error is not.

Theorems: `C99_general`, `C99_closed`, `C99_admixture`, `C99_library`.

### C100 Information grows with sky coverage and shrinks with noise – proved

Wick's covariance is a congruence of C (x) C (C60), which is monotone in C; inversion reverses the Loewner order.

Note: Exact arithmetic; the signal is the same in both surveys.

Theorems: `C100_sky`, `C100_noise`, `C100_survey`.

### C101 Multipoles are independent data – proved

The sparse inverse is block by block (C37), the determinant is a product (C38).

Theorems: `C101_fisher`, `C101_likelihood`.

### C102 Gaussian covariance is the covariance of estimated spectra – proved

Fourth moments of a real Gaussian from its moment generating function, polarisation to four variables (Wick), bilinearity of covariance, and the formula for the library's entries of C59-C61.

Note: The number of modes has to be an integer for the statement to have a meaning; the harmonic modes on a masked sky are idealised as independent, as the formula itself supposes.

Theorems: `C102_unbiased`, `C102_covariance`, `C102_library`.

### C103 What the likelihood gives on average over data – proved

Second and fourth moments of C102, trace identities for C^-1 C, and the derivative of C88.

Note: Exact arithmetic; covariance does not depend on the parameters (as in the library's examples) and the determinant is left out of the averaged value.

Theorems: `C103_mean`, `C103_truth`, `C103_variance`, `C103_score`.

### C104 Transfer functions are the published Eisenstein & Hu formulae – proved

Independent transcription of the paper in Spec/EisensteinHu; each intermediate quantity is shown to be the paper's, up to its power of h.

Note: The sound horizon in the effective shape is the exact (6), not the approximation (26) that the paper offers for it.

Theorems: `C104_oscillating`, `C104_smooth`.

### C105 Shape of the linear power spectrum – proved

Asymptotics of log(A + B q)/log k, dominated terms by squeezing; extreme value theorem on a compact interval for the turnover.

Note: The theorems on the power spectrum assume of the transfer function what C105_shape_oscillating and C105_shape_smooth prove of the two in the library.

Theorems: `C105_oscillating`, `C105_smooth`, `C105_shape_oscillating`, `C105_shape_smooth`, `C105_large_scales`, `C105_small_scales`, `C105_vanishes`, `C105_turnover`.

### C106 Intrinsic alignments follow the non-linear alignment model – proved

Case analysis on the refusals, then algebra; the alignment response is specified in Spec/Lensing from the literature value of C1 rho_crit.

Note: Bins of delta type are refused by the code (C52).

Theorems: `C106_alignment`, `C106_bin`, `C106_sign`.

### C107 Lensing kernels in curved universes – partial

sinh x < x cosh x and x cos x < sin x give strict inequalities between the two efficiencies; a concrete open universe refutes the claim.

Note: Refuted: the code uses radial distances whatever the curvature. Flat universes are right (C107_flat_partial); in every open universe every kernel in front of its source is too large (C107_open), in every closed one too small (C107_closed).

Theorems: `C107_transverse`, `C107_flat_partial`, `C107_open`, `C107_closed`, `C107_refuted`.

### C108 Merging galaxy samples averages kernels and spectra – proved

Linearity of Simpson's rule carries the mixture through the norm, the lensing efficiency and the Limber integral; a relation between tracers (Blend) separates the kernels from the spectra.

Note: Shares are those of the library's own Simpson norm.

Theorems: `C108_mixture`, `C108_catalogues`, `C108_lensing`, `C108_alignment`, `C108_clustering`, `C108_spectra`.

### C109 No sources lens more than infinitely distant ones – partial

Bounds by monotonicity of Simpson's rule; the counterexample places the galaxy halfway between nodes of the norm and on a node of the efficiency, with explicit bounds on exp and on the distance in the last cell of the table.

Note: Refuted: norm and efficiency are quadratures on different nodes (256 intervals from 0, respectively from the lens, to zmax). For one galaxy smoothed by 0.001 in redshift the kernel exceeds the bound 500-fold in every physical cosmology. True for source planes, and for extended sources up to the fraction the quadrature finds behind the lens, which is one at the observer.

Theorems: `C109_plane_partial`, `C109_extended_partial`, `C109_observer_partial`, `C109_refuted`.

### C110 The lensing kernel of a bin does not depend on the other bins – partial

Rows by C48; for the counterexample an increasing integrand over a longer range, node by node.

Note: Refuted: every bin is integrated up to the largest zmax in the list, beyond the range on which it was normalised. A bin reaching z = 1 has its kernel multiplied by more than (2-z)/(1-z) when any bin reaching z = 2 is added. True among lists with the same largest zmax, and for source planes.

Theorems: `C110_same_reach_partial`, `C110_plane_partial`, `C110_refuted`.

### C111 Background quantities are finite numbers – proved

Term by term: each operation of the extended model agrees with the real one under its domain condition; the conditions follow from positivity of the squared expansion rate and of the tables (C09, C10).

Note: Exact arithmetic extended by +inf, -inf and NaN (Model/Xr.lean); signed zeros and overflow are not modelled. C111_bounce: the constructor accepts closed universes without a big bang, for which every distance, also to today, is NaN (C111_poisoned: one tabulated scale factor with negative squared expansion rate suffices).

Theorems: `C111_expansion`, `C111_distance`, `C111_growth`, `C111_poisoned`, `C111_bounce`, `C111_negative`, `C111_bang`.

### C112 Transfer functions and linear power are finite numbers – proved

Domain conditions of each operation from positivity of the fit's intermediate quantities; bounds on logarithms for the shape parameter of the smooth form.

Note: Exact arithmetic with exceptional values (Model/XrPower.lean). At zero wavenumber the oscillating form divides by zero and still returns one (C112_zero), which the real-number model with x/0 = 0 does not reproduce. Without baryons both forms are NaN at every wavenumber (C112_no_baryons).

Theorems: `C112_oscillating`, `C112_smooth`, `C112_zero`, `C112_no_baryons`, `C112_variance`, `C112_linear`, `C112_poisoned`.

### C113 The oscillating transfer function is positive above the sound horizon – proved

Positivity of the suppression function G from a truncated series of the inverse hyperbolic tangent, of the sinc factor below its first zero, and numerical bounds on the sound horizon.

Theorems: `C113_dark_matter`, `C113_positive`, `C113_planck`.

### C114 The non-linear power spectrum is a finite number – proved

Strict decrease of the variance table from power at its first wavenumber, and signs of the fitted coefficients.

Note: Exact arithmetic with exceptional values. In an Einstein-de Sitter universe the Smith et al. prescription interpolates with weight 0/0 and is NaN at every wavenumber but one (C114_einstein_de_sitter).

Theorems: `C114_takahashi`, `C114_smith`, `C114_einstein_de_sitter`.

### C115 Kernels and angular power spectra are finite numbers – proved

A homomorphism argument function by function: lists, broadcasting, exceptions and Simpson's rule commute with the embedding of the real numbers, and each division, power and square root is shown to be inside its domain.

Note: Exact arithmetic with exceptional values (Model/XrSpectra.lean). For multipoles strictly between 0 and 1 every lensing kernel is NaN (C115_low_multipole, C115_half); a shifted single plane is accepted but its density is never finite (C115_shifted_plane).

Theorems: `C115_kernels`, `C115_spectra`, `C115_low_multipole`, `C115_half`, `C115_shifted_plane`.

### C116 Noise and covariance are finite numbers – proved

The homomorphism argument of C115 continued through noise, mode counts and block assembly; positivity of the mode counts from C62.

Note: Exact arithmetic with exceptional values. A sample without galaxies has infinite or NaN noise (C116_no_galaxies). With a repeated multipole the dense form has NaN off its diagonal where the sparse form is fine (C116_no_modes): the equality of the two forms (C61) then fails.

Theorems: `C116_noise`, `C116_no_galaxies`, `C116_covariance`, `C116_pipeline`, `C116_no_modes`.

### C117 Antiderivatives of splines start at the first data point – partial

The accumulated constant is zero at the first breakpoint and the antiderivative is differentiable with the spline as its derivative (C32); fundamental theorem of calculus.

Note: False for k = 2 (C117_refuted): the accumulated constant starts at an artificial knot half a spacing before the first data point (C117_quadratic gives the exact value). Proved for k = 1 and k = 3 (C117_origin_partial).

Theorems: `C117_origin_partial`, `C117_quadratic`, `C117_refuted`.

### C118 The splines computed are the not-a-knot interpolating splines – proved

Both directions: the function computed satisfies the definition (from C27-C29), and the second derivatives (slopes for k = 2) of any function satisfying the definition solve the linear system of the code, whose solution is unique (C28).

Note: Exact arithmetic. Spec/Spline.lean contains the definition of the splines, independent of the code.

Theorems: `C118_cubic_unique`, `C118_cubic_is`, `C118_quadratic_unique`, `C118_quadratic_is`.

### C119 Splines are linear in the data and indifferent to units and direction – proved

Linearity of the solution of the system in its right-hand side; scaled coefficients solve the scaled system; the mirror image satisfies the definition of C118, which determines the spline.

Note: Exact arithmetic. The mirror statement is false for the natural endpoint condition, whose last equation is not the natural one (C30).

Theorems: `C119_linear`, `C119_affine`, `C119_mirror_cubic`, `C119_mirror_quadratic`.

### C120 Derivatives of background quantities computed by JAX are exact – proved

The relation Spec.Jvp (finite value and finite tangent equal to the derivative) is preserved by every primitive under its side condition, by RK4 loops and by interp; the side conditions come from C05, C06, C10.

Note: Model/Dual.lean and Model/DualBackground.lean run the code on pairs value/tangent in arithmetic with infinities and NaN, with the JVP rules of the JAX primitives. The transverse distance is in C87.

Theorems: `C120_expansion`, `C120_distance`, `C120_distance_a`, `C120_growth`.

### C121 Derivatives of transfer functions and linear power spectra computed by JAX are exact – proved

Each Eisenstein-Hu coefficient is differentiated rule by rule (tactic jvp), the side conditions being the positivity lemmas of C43; the Romberg tableau by Jvp.rombLoop; growth by C120.

Note: Model/DualPower.lean is power.py and transfer.py on pairs value/tangent. The smooth transfer function is covered at k=0 too.

Theorems: `C121_smooth`, `C121_oscillating`, `C121_variance`, `C121_linear`.

### C122 Derivatives of halofit computed by JAX are exact – partial

Jvp.interp_dec: off the midpoints the nearest node is locally constant, so the lookup is locally one chord with moving end points; the refutation uses C81_cutoff with a continuously differentiable cut-off.

Note: False as stated (C122_refuted): at amplitudes where 1 is half-way between two neighbouring variances the non-linear scale jumps and has no derivative, while a finite one is returned. Proved (C122_*_partial) off those amplitudes, off the clip at 1e-6, off the kink of the absolute value in the Takahashi alpha_n, and for Smith et al. where C114 requires it.

Theorems: `C122_scale_partial`, `C122_takahashi_partial`, `C122_smith_partial`, `C122_unknown`, `C122_refuted`.

### C123 Derivatives of redshift distributions computed by JAX are exact – partial

Rules for powers at base zero split by exponent (PzPoint); the clip of a mean shift is differentiable through the corner because the density vanishes there to first order (hasDerivAt_corner); NaN propagates from node 0 through the sum to every redshift (sum_tan_nan).

Note: False as stated: for every Smail distribution with 0<b<1 (b=0.9 is the usual LSST value) the tangent with respect to z0 is NaN at every redshift although the derivative exists (C123_refuted), and the same happens to a mean shift at zero (C123_shift_refuted). Proved for b>=1, or z0 not differentiated (C123_smail_partial), for kernel density estimates without restriction (C123_kde) and for mean shifts of Smail distributions with a>1, b>=1 at every shift (C123_shift_partial). Not covered: the shift of a kernel density estimate exactly where z equals the shift (a kink).

Theorems: `C123_smail_partial`, `C123_kde`, `C123_shift_partial`, `C123_refuted`, `C123_shift_refuted`.

### C124 Derivatives of tracer kernels computed by JAX are exact – partial

JvpE relates a raising computation along a curve with its dual run; jvp_extRow differentiates under the quadrature (the clip at the first node is 0/0-free because both distances coincide there for every parameter value: max_same); chi_ne_one keeps every node off the clip.

Note: False as stated: with one Smail bin of exponent b<1 the tangent of the clustering kernel with respect to z0 is NaN at every redshift (C124_refuted, from C123). Proved for every probe made of the distributions for which C123 holds and of source planes at fixed redshift beyond 1/799 (C124_kernel); a moving source plane is proved off the nodes of the distance table (C124_plane). Missing: redshifts strictly between 0 and 1/799, where a distance may sit on the clip at 1 Mpc/h.

Theorems: `C124_kernel`, `C124_plane`, `C124_refuted`.

### C125 Derivatives of angular power spectra and noise computed by JAX are exact – partial

mapM, flatten, gather and Simpson's rule for raising integrands commute with the JvpE relation (Proofs/JvpSpectra); the witness for halofit is a cosmology faint enough to put the non-linear scale at its floor at all 513 nodes (faint_halofit).

Note: False as stated: for a clustering bin with b<1 the tangent with respect to z0 is NaN at every multipole for every cosmology and every power spectrum that returns (C125_refuted). Proved with the linear power spectrum (C125_linear) and for the noise (C125_noise); with halofit under the condition of C122 at the 513 scale factors of the Limber integral (C125_halofit_partial). Missing: the amplitudes at which the non-linear scale jumps at one of these scale factors (no derivative exists there, C81/C122).

Theorems: `C125_linear`, `C125_halofit_partial`, `C125_noise`, `C125_refuted`.

### C126 The gradient of the likelihood vanishes on average at the true parameters when the covariance depends on them – partial

Jacobi's formula and the derivative of the inverse are proved entry by entry in Proofs/MatrixCalculus; averages over Gaussian data come from C103's moments.

Note: False as stated, a consequence of C64: the gradient is the gradient of the quadratic form PLUS half tr(C^-1 C') (C126_gradient), the density has MINUS half (C126_density); on data drawn from the model the gradient averages to tr(C^-1 C') (half of it without the determinant), and scaling the covariance drives the value to infinity, so there is no maximum (C126_mean, C126_unbounded, C126_refuted).

Theorems: `C126_gradient`, `C126_density`, `C126_mean`, `C126_unbounded`, `C126_refuted`.

### C127 Differentiating the Gaussian covariance gives the derivative of every entry – partial

C125 for the spectra and noise; the assembly is a composition of differentiable entry formulas.

Note: Proved for the linear power spectrum and, for any signal and noise tables with derivatives, for the assembly itself; with halofit under the condition of C122 at the nodes of the Limber integral (C127_halofit_partial).

Theorems: `C127_covariance`, `C127_linear`, `C127_halofit_partial`, `C127_refuted`.

### C128 Differentiating the likelihood gives its gradient in both representations and with both methods – partial

Derivative rules of inverse, slogdet and cholesky as jax defines them in Model/DualLikelihood; the sparse recursion by induction over blocks.

Note: Holds when the covariance stays symmetric (C128_likelihood, C128_gradient). False for an asymmetric direction with cholesky: the value does not depend on the upper triangle yet its tangent does (C128_refuted).

Theorems: `C128_likelihood`, `C128_gradient`, `C128_refuted`.

### C129 The gradient of the log likelihood of a survey with respect to all parameters is exact – partial

Composition of C127 and C128; invertibility of the covariance at the point is proved, not assumed (noise positive definite plus signal positive semidefinite).

Note: Proved for the linear power spectrum (C129_linear) and for halofit under the condition of C122 (C129_halofit_partial). False for clustering bins with Smail exponent below one (as used for LSST): the gradient is NaN whatever the rest (C129_refuted).

Theorems: `C129_linear`, `C129_halofit_partial`, `C129_refuted`.

### C130 Minus the Hessian of the likelihood is the Fisher matrix – partial

Second derivatives of inverse and log-determinant from Proofs/MatrixCalculus; Gaussian moments from C103.

Note: False as stated: the average is mu'^T C^-1 mu' + 3/2 tr(C^-1 C' C^-1 C') - tr(C^-1 C'') (C130_mean; with 1 and 1/2 in place of 3/2 and 1 without the determinant), which can be negative (C130_refuted). Holds for a covariance that does not move (C130_fixed), and at data equal to the model mean without the determinant it is the Fisher matrix of the mean even if the covariance moves (C130_at_mean).

Theorems: `C130_hessian`, `C130_density`, `C130_at_mean`, `C130_mean`, `C130_fixed`, `C130_refuted`.

### C131 Table interpolation in floating point – proved

Model/FloatInterp.lean rounds every operation; rounded squares of distances that differ by a factor 1+8u keep their order; the line by the Near calculus of Proofs/Float.

Note: C131_lost: a table value below the rounding unit next to one of size one is returned as zero at its own node, because a*x + b is anchored at x = 0. C131_close_nodes: two nodes closer than the rounding unit make the code extrapolate the line through them. The first segment is excluded as in C19, decreasing tables as in C20.

Theorems: `C131_exact`, `C131_rounding`, `C131_table`, `C131_lost`, `C131_close_nodes`.

### C132 Constructing a cosmology by name, by position and from Planck defaults – proved

Model/CosmologyCall.lean: Python argument binding and functools.partial as dictionary update.

Theorems: `C132_override`, `C132_planck`, `C132_unknown`, `C132_positional`, `C132_call`, `C132_missing`.

### C133 The printed form of an object identifies it – partial

Lines are split at the end-of-line character; the text is then injective in the printed values.

Note: False as stated: gamma is not printed (C133_refuted), and a container prints neither its class nor its configuration, so samples of different depth and density print alike (C133_container_refuted). C133_partial: the eight base parameters are determined by the text.

Theorems: `C133_partial`, `C133_refuted`, `C133_container`, `C133_container_refuted`.

### C134 Angular spectra are Limber projections along the line of sight – partial

Change of variables by Mathlib's Jacobian formula on the strictly decreasing exact distance; Simpson error from C94_simps_modulus.

Note: C134_distance: the code's integral over the scale factor is the integral over distance, for every integrand (change of variables with the exact distance). C134_spectrum: every entry equals the Limber integral /c^2 to within the variation of the integrand over two Simpson steps. False as stated with curvature: the radial distance is used where the transverse one belongs (C134_refuted; in an open universe the spectrum of a Smail sample always comes out too large, C134_open). C134_flat_partial: without curvature it is right.

Theorems: `C134_distance`, `C134_spectrum`, `C134_flat_partial`, `C134_open`, `C134_refuted`.

### C135 Constructing redshift distributions, biases and probes – partial

Model/Methods.lean: methods on untyped Python objects, proved to agree with the typed model (C135_methods, C135_density, C135_bias, C135_noise_*), then evaluated on what construct returns.

Note: The refusal part is false: any keyword is accepted and ignored (C135_refuted); a misspelt gals_per_arcmin2 silently gives the noise of one galaxy per square arcminute (C135_misspelt); a Smail distribution with the wrong number of parameters fails only when evaluated (C135_late), a kde without bandwidth likewise (C135_kde).

Theorems: `C135_methods`, `C135_density`, `C135_bias`, `C135_noise_counts`, `C135_noise_lensing`, `C135_keywords`, `C135_smail`, `C135_delta`, `C135_shift`, `C135_kde`, `C135_late`, `C135_lensing_default`, `C135_lensing`, `C135_counts`, `C135_misspelt`, `C135_refuted`.

### C136 Using a cosmology inside transformed functions leaves it usable – partial

Model/Trace.lean: traces with identities, tags of arrays, execution of nested programs; invariant TraceInv proved by induction over programs.

Note: False for compiled closures over a new object: the tables (and the norm of a redshift distribution) stored by the first call are tracers, and every later call outside raises UnexpectedTracerError (C136_poisoned, C136_norm, C136_refuted). True when compiled functions take the cosmology as an argument and only grad, jvp, vmap close over it (C136_partial), and for all closures once the tables exist (C136_warm, C136_norm_warm).

Theorems: `C136_partial`, `C136_warm`, `C136_poisoned`, `C136_refuted`, `C136_norm`, `C136_norm_warm`, `C136_leaked`.

### C137 Romberg's error estimate – partial

On the Romberg tableau of Spec/Romberg.lean, with C24 and C94.

Note: The last part is false for every order: an integrand vanishing at all sample points has value 0, estimate 0 and integral 1 (C137_refuted). What the estimate does bound, up to the error of the value itself, is the error at the previous order (C137_partial).

Theorems: `C137_estimate`, `C137_zero`, `C137_exact`, `C137_partial`, `C137_converges`, `C137_refuted`.

### C138 Power spectra over arrays are elementwise – partial

Model/Batch.lean has n-d arrays with shapes; both functions are written out with the axes the code creates and drops, and compared entry by entry with the scalar functions of Model/Power.lean.

Note: Proved for scalars and 1-d arrays in every combination (C138_partial), and for linear_matter_power with wavenumbers of any shape (C138_linear). False for a column of wavenumbers, where halofit multiplies a column with the squeezed linear spectrum and returns a square (C138_column, C138_refuted), and for rows of scale factors, which growth_factor refuses unless they are as long as its table and then answers wrongly (C138_rows, C138_rows_wrong).

Theorems: `C138_linear`, `C138_linear_vec`, `C138_mismatch`, `C138_partial`, `C138_column`, `C138_refuted`, `C138_rows`, `C138_rows_wrong`.

### C139 Angular spectra over arrays agree with one redshift and multipole at a time – proved

Model/BatchCl.lean writes the functions with the arrays, stacks, transpositions and vmaps of the code; the proofs compare them column by column with the functions at one redshift and one multipole of Model/Probes.lean and Model/AngularCl.lean.

Note: Arrays of multipoles are 1-d and not empty. The power spectrum may be any that acts elementwise on two arrays of the 513 nodes; C139_power shows this for halofit with both prescriptions and for linear. `angular_cl` returns (pairs, multipoles), not the (multipoles, pairs) of its docstring.

Theorems: `C139_distribution`, `C139_kernels`, `C139_probe`, `C139_spectra`, `C139_power`, `C139_default`, `C139_scalar`.

### C140 Background functions over arrays are elementwise – partial

Model/BatchBackground.lean writes the functions with the array operations of the code; the entries are compared with the functions at one scale factor.

Note: True for the functions given by a formula (C140_formula). For those read off a table it holds for arrays all of whose axes but the first have length one (C140_partial); C140_rows says which exception other shapes raise, C140_shared what shape (1, 2, 1) returns, and C140_refuted that this is wrong in the empty universe.

Theorems: `C140_formula`, `C140_partial`, `C140_scalar`, `C140_rows`, `C140_shared`, `C140_refuted`.

### C141 The log likelihood is a number for positive definite covariances – proved

Model/XrLikelihood.lean computes with numbers that may be infinite or NaN; the matrix routines are any routines with the properties listed in Xm.Lapack, which nanLapack shows to be consistent.

Note: The exact condition for a finite result is proved for each branch (C141_inverse, C141_cholesky, C141_sparse). The sparse branch with the determinant needs every trailing block matrix to be invertible; C141_indefinite gives an invertible symmetric matrix for which the dense form is finite and the sparse one is not.

Theorems: `C141_inverse`, `C141_cholesky`, `C141_sparse`, `C141_posDef`, `C141_indefinite`, `C141_finite`, `C141_pipeline`.

### C142 The sparse determinant is exact or NaN – proved

Same model as C141; the singular trailing block closest to the end contributes minus infinity and the one before it plus infinity or NaN.

Note: Sharpens C38, where a singular block met a conventional inverse. C142_zero: the docstring promises NaN for the zero matrix; with one block per side the code returns (0, -inf) and determinant 0.

Theorems: `C142_nan`, `C142_det`, `C142_zero`, `C142_infinite`.

### C143 A tracer depends only on its own redshift bin – partial

The relation SameBin compares what belongs to one bin and nothing else; entry-by-entry reading of the broadcast arrays gives each kernel as a function of it and of the probe's zmax.

Note: Refuted for lensing bins of different zmax: the kernel of every bin is integrated to the largest zmax of the probe, past the range over which the bin was normalised (C143_overrun). Holds for clustering bins, for noise, and for lensing bins of probes that reach the same redshift.

Theorems: `C143_counts`, `C143_lensing_partial`, `C143_noise`, `C143_overrun`, `C143_refuted`.

### C144 Reorganising a survey renumbers its data – proved

C143 gives equal kernels and noise, the Limber integrals then agree node by node, Wick's formula is symmetric in each pair, and chi squared and determinant are invariant under a permutation of rows.

Note: The renumbering is pinned down by the documented position of a pair of tracers (Renumbers), not by the code's own index lists. Equal zmax is needed for the reason given in C143.

Theorems: `C144_select`, `C144_likelihood`, `C144_order`.

### C145 More tracers never mean less information – proved

The covariance of the selection is a principal submatrix (C144); a quadratic form argument bounds its inverse by the compression of the inverse.

Note: Complements C100 (sky and noise) and C101 (multipoles).

Theorems: `C145_information`.

### C146 Linear spectra do not separate the amplitude of matter from the response of the tracers – proved

Kernels are linear in the responses, the linear spectrum in sigma8 squared; derivatives of the spectra along both directions are proportional entry by entry, with factor 0, 1 or 2 in the joint case, and a positive definite form of two independent vectors has positive determinant.

Note: Exceptions included: a survey that raises raises the same after the change. The regularity theorem needs a nonzero lensing spectrum and a nonzero galaxy spectrum; C146_positive supplies them from positive kernels and a transfer function without zeros.

Theorems: `C146_scaling`, `C146_degenerate`, `C146_fisher`, `C146_joint`, `C146_positive`.

### C147 Hubble's law at small redshift – partial

The last segment of the table is one Runge-Kutta step, that is one Simpson panel in ln a, of a rate that stays strictly above R_H a because a^4 E^2 < 1 before today; Simpson's rule overestimates the exponential. For Planck15 interval bounds on 10^(1/170).

Note: Refuted: the limit is the slope of the last segment of the interpolated table, which exceeds the Hubble radius in every such cosmology - by at least two per cent for Planck15 and the default table (C147_planck) - and by at most one and a half table steps (C147_bounds_partial); it converges to it as the number of steps grows (C147_converges).

Theorems: `C147_last`, `C147_limit`, `C147_bounds_partial`, `C147_converges`, `C147_planck`, `C147_refuted`.

### C148 Accuracy of the tabulated distance with constants – proved

(aE)^2 as a function of ln a has logarithmic slope at most 2, so the integrand varies by at most a factor e^h in a cell, and its second derivative is at most (2 + 1.5 |wa|) times the integrand by Cauchy-Schwarz. A Simpson error bound from the second derivative turns this into a relative error of each cell. The integrand in a is decreasing, so the chord lies above the integral by at most a quarter of the step times the decrease.

Note: Exact arithmetic. The first cell of the table is excluded because interp uses the wrong chord there (C19). C147 shows that the term with the Hubble radius is needed.

Theorems: `C148_nodes`, `C148_accuracy`, `C148_default`.

### C149 Which parameters each quantity depends on – proved

Each function is rewritten with the equality of the function it calls, from Esqr upwards; the constant factor of the transfer function cancels against the normalisation because Romberg's rule is linear.

Note: Distances are in Mpc/h, so the Hubble constant does not enter. C149_needed shows that no parameter can be dropped from the list.

Theorems: `C149_expansion`, `C149_background`, `C149_kernels`, `C149_linear`, `C149_halofit`, `C149_spectra`, `C149_default`, `C149_needed`.

### C150 Fitting a linear model with the likelihood gives the best estimate with Fisher errors – proved

Completing the square with the normal equations; moments of linear forms of a Gaussian vector; Gauss-Markov by splitting an estimator's weights into the optimal ones and a part orthogonal to them.

Note: The mean of the pipeline is linear in the amplitudes of its spectra but not in the cosmological parameters; for those the statement holds for the linearised model only. With a fixed covariance the wrong sign of the determinant (C64) does not matter.

Theorems: `C150_parabola`, `C150_sparse`, `C150_errors`, `C150_optimal`, `C150_estimator`.

### C151 Spectra next to probes that reach further – partial

Entries of the spectra as Simpson sums of the Limber integrand (C56); the lensing kernel vanishes behind its sources (C49).

Note: False as stated (C151_refuted, C151_counts): zmax normalises n(z) over [0, zmax] but nothing cuts n(z) there, so next to a probe that reaches further, galaxies beyond zmax are projected too; the number of galaxies then exceeds the one the noise is computed from (C151_number). For lensing tracers without intrinsic alignments the two runs approximate the same integral, with different Simpson nodes (C151_lensing_partial). Same maximum redshift: C57.

Theorems: `C151_counts`, `C151_refuted`, `C151_number`, `C151_lensing_partial`.

### C152 Recombining the data does not change the comparison of models – proved

Congruence of quadratic forms and determinants; the two methods and the sparse path reduce to the same formula (C63).

Note: The common shift is +log|det A|, where a probability density has -log|det A|: the sign of C64 again (C152_sign).

Theorems: `C152_chi`, `C152_shift`, `C152_ratio`, `C152_sparse`, `C152_fisher`, `C152_sign`.

### C153 Redshift distributions integrate to one – partial

Simpson's error with a fourth derivative bounded through the fourth Hermite polynomial; direct estimates of the Simpson sum at the nodes for narrow Gaussians.

Note: False for catalogues narrower than the grid of the quadrature (C153_refuted): galaxies halfway between nodes are missed by the norm and n(z) comes out too large without bound as the bandwidth shrinks (C153_between), galaxies on a node are counted too often and n(z) comes out too small (C153_node); with the default zmax = 10 and bandwidth 1/256 the factors are above 100 and below 1/5 (C153_narrow). True to within 3/sqrt(2 pi) (zmax/bw)^5/(180 256^4) relative to the norm (C153_kde; two per cent for zmax = 10, bw = 0.1), and for every continuous distribution to within its variation over two steps (C153_modulus).

Theorems: `C153_density`, `C153_modulus`, `C153_kde`, `C153_between`, `C153_node`, `C153_narrow`, `C153_refuted`.

### C154 Distances to sources older than the start of the table – partial

The chord through the second and third nodes against an antitone integrand; lower bound from sqrt(a) times the integrand being antitone when pressure is not positive.

Note: False (C154_refuted): before the second tabulated scale factor the code follows a straight line (C154_line) that misses at least the local Hubble radius times (1 - sqrt(a/a1))^2 (C154_short), more than one per cent of the distance at redshift 99999. The line never overshoots and the deficit is bounded (C154_line_bounds); down to redshift 1100 the distance is right to 0.017 per cent plus 4 per cent of the Hubble radius at that time (C154_recombination).

Theorems: `C154_line`, `C154_line_bounds`, `C154_short`, `C154_recombination`, `C154_refuted`.

### C155 Bands of multipoles count every mode once – partial

np.gradient as a difference of band edges; telescoping sums of 2l+1.

Note: The bands tile the range (C155_tile). The weight counts the harmonics of the band exactly on grids with constant odd spacing (C155_modes_partial), where the covariance is that of averages over the single multipoles (C155_average_partial). False for uneven grids (C155_refuted): the multipole is not the middle of its band and the weight lacks the width times half the change of spacing (C155_uneven), a factor three for 10, 100, 1000; on geometric grids of ratio r at most a relative (r-1)^2/(4r) (C155_geometric_partial).

Theorems: `C155_tile`, `C155_uneven`, `C155_geometric_partial`, `C155_modes_partial`, `C155_average_partial`, `C155_refuted`.

### C156 The curvature of space is seen by angular spectra – partial

Congruence of the tables and integrals at positive scale factors.

Note: False (C156_refuted): a flat universe whose dark energy has w = -1/3 and the open universe with the same expansion have the same radial distances and growth (C156_background), different transverse distances (C156_transverse), and identical kernels (C156_kernels) and linear spectra in every survey (C156_spectra, C156_linear_spectra): kernels and Limber integral use the radial distance only.

Theorems: `C156_background`, `C156_kernels`, `C156_spectra`, `C156_linear_spectra`, `C156_transverse`, `C156_refuted`.

### C157 Romberg integration in floating point – proved

Model/FloatRomb: nodes, sums and extrapolation with every operation rounded. Extrapolations enlarge errors by a factor of at most 2 altogether.

Note: The error is at most 2 |b - a| (eta + ((1 + u)^(d + 9 m + 5) - 1) (B + eta)) for samples bounded by B and computed to eta, sums of depth d and divmax = m (C157_rounding); positive for non-negative samples while 2^(m+2) ((1 + u)^(d + 9 m + 5) - 1) < 1/3, which holds in single precision with the settings of sigmasqr (C157_positive).

Theorems: `C157_exact`, `C157_rounding`, `C157_positive`, `C157_safe`.

### C158 The variance in spheres in floating point – partial

Model/FloatPower: the integrand and romb with every operation rounded. Missing: an expansion of the window at small argument, without which accuracy is lost.

Note: True at R = 8, which normalises the spectrum: the window is right to 1e-4 at every wavenumber in the range (C158_sigma8) and the variance positive (C158_normalisation). In general the window is off by a few (u + v)/x^2 (C158_window_partial); below x^2 = 2^-(p+2) it comes out as zero or three times too large whatever library is used (C158_lost), and for R <= 1e-7 the variance is zero (C158_small, C158_refuted).

Theorems: `C158_exact`, `C158_window_partial`, `C158_sigma8`, `C158_lost`, `C158_zero`, `C158_normalisation`, `C158_small`, `C158_refuted`.

### C159 A universe with few baryons is close to one without – proved

The sound horizon is bounded uniformly in the share of baryons (shd_bounded), so the suppressed baryon part is bounded and its weight tends to zero; the dark part is a convex mean of two functions with the same limit.

Note: Real numbers, no rounding. The limits are formula (19) of the paper with alpha = beta = 1 (C159_oscillating) and the smooth function with Gamma = Omega_m h (C159_smooth). The code does not attain its own limit: with Omega_b exactly 0 it returns NaN (C159_at_zero, from C112).

Theorems: `C159_oscillating`, `C159_smooth`, `C159_at_zero`.

### C160 Sources at nearly the same redshift lens like a plane – partial

Pointwise limits of the normalised Gaussian on the finitely many nodes. Missing: adaptive or common nodes; C94 and C153 give convergence for bins that are resolved.

Note: False. Normalisation and kernel use different nodes; a bin narrower than a step is seen by whichever node is nearest. If the normalisation has a node at z0 the limit is the plane's kernel times a ratio of weights (C160_limit_partial): zero when the kernel's rule misses z0 (C160_lost, C160_refuted), 1 - z/zmax when it has a node of the same kind there (C160_common). If only the kernel's rule has a node at z0 the kernel diverges (C160_divergent).

Theorems: `C160_limit_partial`, `C160_lost`, `C160_common`, `C160_divergent`, `C160_refuted`.

### C161 Differentiating the distance by redshift gives the Hubble radius – partial

The slope is Simpson's rule for the segment divided by its length; neighbouring rates are within exp(+-h) (rate_ratio). Real numbers; C120 says that automatic differentiation returns the derivative of the interpolant. Missing: interpolation of higher order.

Note: False as an equality: the derivative is the slope of the table (C161_derivative), never equal to c/H throughout the last segment, in any such universe and for any table (C161_refuted). It is within exp(+-2h) of c/H, h the step in ln a (C161_accuracy_partial), i.e. six per cent for the default table (C161_default).

Theorems: `C161_derivative`, `C161_accuracy_partial`, `C161_default`, `C161_refuted`.

### C162 The growth rate is the logarithmic slope of the growth factor – partial

The slope of the table is compared with the derivative of the exact solution by the mean value theorem, using the fourth-order error of the nodes (C90) and the gap of logspace; positivity of the slopes keeps the value within the clip. C91 bounds growth factor and rate. The refutation compares powers of a in a LambdaCDM universe with gamma = 1. Real numbers. Missing: an explicit constant for the default table.

Note: False as an equality: with a growth index the two differ in the last segment of the table (C162_refuted), and with the growth equation they agree throughout a segment only if both tabulated rates are exactly 1 (C162_where), as they are in an Einstein-de Sitter universe, where the statement holds (C162_eds). For the growth equation the difference is at most C/n for a table of n steps, at every point between nodes (C162_converges_partial).

Theorems: `C162_converges_partial`, `C162_where`, `C162_eds`, `C162_refuted`.

### C163 Distances in floating point – partial

Near algebra of Proofs/Float.lean through rk4, then C131. For the grain: both terms of a * x + b exceed 2048 because the Hubble radius is 2998 Mpc/h, so they are multiples of 2^(12-p). The elementary functions enter through the error of the computed rates and nodes; overflow and underflow are not modelled. Missing: a bound for the rates from those of exp, log, sqrt and power.

Note: The table is exactly zero today and never increases (C163_order). Its errors are (q + 8 + n) roundings of the whole distance it covers (C163_table), and the distance read has in addition seven roundings of the two terms of a * x + b (C163_distance_partial). As a fraction of the distance the error is unbounded below a third: within the last segment the value is zero or at least 2^(12-p) Mpc/h (C163_grain), so at the last number before today it is wrong by more than a third in every universe, for every table, for every number of digits (C163_lost, C163_refuted).

Theorems: `C163_exact`, `C163_table`, `C163_order`, `C163_distance_partial`, `C163_grain`, `C163_lost`, `C163_refuted`.

### C164 Expansion rate and energy budget in floating point – partial

Model/FloatBackground.lean rounds every operation of core.py and background.py. C164_flat: above one half 1 - m is exact (Sterbenz), below it the error is at most 2^-(p+1), which rounds to one with ties to even (Proofs/FloatGrid.lean). Every operation is in one format: parameters that are Python floats are first combined in double precision, not modelled.

Note: In a flat universe the budget closes exactly for every sum of densities up to two, in every binary format (C164_flat), so H today is exactly 100 and the densities today are those given. With curvature it does not: Omega_k = -2^-p is rounded off in 1 - Omega_k but not in the sum, and Esqr today is 1 - 2^-p (C164_curved, C164_refuted); it is within four roundings (C164_today_partial). At any scale factor the error is q + 4 roundings of the magnitudes, times the error of the exponent (C164_rate, C164_exponent), which is zero for a cosmological constant (C164_constant).

Theorems: `C164_exact`, `C164_flat`, `C164_exponent`, `C164_constant`, `C164_rate`, `C164_today_partial`, `C164_curved`, `C164_refuted`.

### C165 Distance table in single precision against the line-of-sight integral – proved

Ratios of positive numbers on a logarithmic scale: products and quotients add, roots halve, a rounding adds 2u. The absolute error of Omega_de is harmless because dark energy alone does not outpace the expansion (Calm). The integrand is 1-Lipschitz in ln a on that scale (C161), so a rounded midpoint costs its own error. Reading between the nodes is C163_distance_partial. Overflow and underflow are not modelled; computed nodes enter as they are, not compared with logspace.

Note: C165_expansion, C165_hubble and C165_rate bound the relative errors of Esqr, H and the integrand (H within 2.1e-6 for a cosmological constant, C165_hubble_constant); C165_rates discharges the hypothesis of C163; C165_table combines it with the quadrature error of C148; C165_constant and C165_default are the numbers.

Theorems: `C165_expansion`, `C165_hubble`, `C165_rate`, `C165_rates`, `C165_table`, `C165_hubble_constant`, `C165_constant`, `C165_default`.

### C166 Growth factor today in floating point – partial

Model growthTableF/readGrowthF; evaluate the line through the last two entries with exact-grid arguments (differences from one are exact, the slope error is damped by the cell width, ties go to even).

Note: Without the restriction on the last cell the claim is refuted: single precision, second-last node 12507729/2^25 (the second-last of eight nodes from 10^-3), entry 946285/2^21: one unit in the last place is lost.

Theorems: `C166_exact`, `C166_range`, `C166_last`, `C166_today_partial`, `C166_computed`, `C166_default`, `C166_rounded`, `C166_refuted`.

### C167 Log likelihood of one spectrum in floating point – partial

Model chi2F/slogdetF/detF/logLikelihoodF; identify them with the exact model when nothing is rounded, bound them by the error algebra, and show on the grid that adding less than half a unit to the log determinant is lost.

Note: The last two claims are refuted in single precision: with 2^18 multipoles of variance 2^-93 a fit with chi^2 = 1/2 has exactly the likelihood of a perfect fit, and the determinant of two such entries is zero although slogdet is finite.

Theorems: `C167_exact`, `C167_chi2`, `C167_relative`, `C167_rounding_partial`, `C167_absorbed`, `C167_same`, `C167_refuted`, `C167_single_partial`.

### C168 Angular spectra in floating point – partial

Model limberF/clF/noiseF/clObsF; identify with clAt when nothing is rounded; error algebra with division by rounded numbers; the quadratic form of the errors is bounded by the number of tracers times the diagonal.

Note: Without noise the last claim is refuted in single precision: kernels 1 and 4097/4096 at one node violate the Cauchy-Schwarz inequality. It is proved when the noise exceeds the rounding error: for up to ten tracers a noise of 2e-4 of each auto-spectrum.

Theorems: `C168_exact`, `C168_symmetric`, `C168_rounding`, `C168_relative`, `C168_auto`, `C168_psd_partial`, `C168_single_partial`, `C168_refuted`.

### C169 Redshift distributions and lensing kernels in floating point – partial

Model nzF/extRowF/planeF/deltaRowF/ellFactorF/lensKernelF; identify with the exact rows when nothing is rounded; monotone rounding for signs, order and zeros; error algebra for the rest; evaluate the prefactor digit by digit for the refutation.

Note: The claims on the prefactor are refuted in single precision even with a correctly rounded square root: it is 8388609/8388608 at ell = 7003 and falls from ell = 436 to 437. It is right to one part in a million.

Theorems: `C169_exact`, `C169_distribution`, `C169_total`, `C169_row`, `C169_behind`, `C169_plane`, `C169_spin_partial`, `C169_spin_single`, `C169_kernel`, `C169_refuted`.

### C170 A forecast for one tracer in floating point – proved

Model gradientF/covNormF/oneCovF and compose clF, clObsF and chi2F; identify block and norm with the exact model; error algebra with a division by a rounded denominator; weigh the error of the mean against the standard deviation and split the square with a free parameter.

Note: The numbers that enter the Limber sum at the nodes are given; their own errors are bounded in other properties. Sparse covariance, one tracer, no overflow or underflow.

Theorems: `C170_exact`, `C170_mean`, `C170_variance`, `C170_truth`, `C170_chi2`, `C170_single`.

### C171 Biases, clustering and alignment kernels in floating point – partial

Model biasF/radialF/densityF/nlaNormF/nlaF/shearF; identify with the exact model when nothing is rounded; monotone rounding for order and sign; error algebra for the rest; evaluate a near cancellation digit by digit for the refutation.

Note: The sign claim is refuted in single precision with the best possible square root: lensing and alignments that cancel to a few parts in 10^8 give a negative kernel where the exact one is positive. Away from cancellation the relative error is small.

Theorems: `C171_exact`, `C171_pivot`, `C171_order`, `C171_density`, `C171_alignment`, `C171_shear_partial`, `C171_safe`, `C171_refuted`.

### C172 Changes of unit in floating point – partial

Show that rounding to p binary digits commutes with powers of two; carry the factor through each floating-point model (sums in any order, Simpson, Romberg, Runge-Kutta, interpolation, Limber, covariance, chi-square); add linearPowerF and identify it with the exact model; evaluate five digit by digit for the refutation.

Note: Proved for c a power of two of either sign (distances: positive). For other factors the claim is refuted: in single precision a factor of five changes a chi-square of one to 1 - 2^-24. Exponents are unbounded in this model, so overflow and underflow are outside it.

Theorems: `C172_binary`, `C172_kernels`, `C172_spectra`, `C172_covariance`, `C172_chi2`, `C172_forecast`, `C172_interp`, `C172_distance`, `C172_exact`, `C172_power`, `C172_refuted`.

### C173 Overflow and underflow in a fit – partial

Model rounding with subnormal numbers, flushing and overflow (Format.rnd) and oneCovR/chi2R/fitR on it; show that powers of two bound every intermediate result; evaluate the two cases outside the range.

Note: Without a restriction the last two claims are refuted: variances are products of spectra, so that in units in which spectra are about 2^-76 a perfect fit is NaN, and in units in which they are about 2^64 a misfit of ten standard deviations has a chi-square of zero, although all inputs are single-precision numbers. Proved for spectra between 2^-45 and 2^45, 2^-33 to 2^33 modes, and residuals of zero or 2^-20 to 2^20 standard deviations.

Theorems: `C173_normal`, `C173_small`, `C173_variance`, `C173_chi2`, `C173_fit`, `C173_units_partial`, `C173_refuted`.

### C174 Orders of summation in floating point – partial

Induction over trees of additions; commutativity for exchanged operands, exactness of small integers for whole multiples, monotone and idempotent rounding for the inequalities, the error algebra for the bounds, and three numbers evaluated digit by digit for the refutation.

Note: The last claim is refuted in single precision with three bands; with exact operations it holds. What remains is a bound: chi-squares and spectra in two orders differ by at most twice the rounding error of the deeper one.

Theorems: `C174_mirror`, `C174_two`, `C174_whole`, `C174_monotone`, `C174_largest`, `C174_spread`, `C174_chi2_partial`, `C174_spectrum_partial`, `C174_refuted`.

### C175 Transfer functions in floating point – partial

Monotone rounding and a lemma that a number and its complement add up to one; the error algebra with a lemma that logarithms of numbers from e on keep relative errors; absorption of a small summand for the refutation.

Note: The last claim holds in exact arithmetic and is refuted in single precision: for every wavenumber below the shape over 2^21 the result is exactly one, so modes are neither suppressed nor ordered there. It is kept where the exact value is below one by more than the accuracy.

Theorems: `C175_exact`, `C175_smooth`, `C175_tilde`, `C175_cdm`, `C175_shape`, `C175_accuracy`, `C175_fit`, `C175_unity`, `C175_below_partial`, `C175_refuted`.

### C176 The shape of the linear power spectrum in floating point – proved

Error algebra from the wavenumber to the power, with the effective shape, the smooth transfer function and the primordial power; the normalisation cancels in ratios and is positive by C158.

Note: The figure is for alpha_gamma and the sound horizon as the exact model has them; with alpha_gamma as computed and the sound horizon good to 69 roundings it is one and a half per cent (C176_computed). The computation of the sound horizon is not followed, and only the smooth transfer function is.

Theorems: `C176_gamma`, `C176_transfer`, `C176_linear`, `C176_ratio`, `C176_power`, `C176_single`, `C176_any`, `C176_gamma_inputs`, `C176_inputs`, `C176_alpha_exact`, `C176_alpha`, `C176_computed`.

### C177 Better and worse surveys in floating point – partial

Monotone rounding carried through products, quotients and trees of additions, with the sign of the residual distinguished; absorption of a small summand for the refutation.

Note: The last claim holds with exact operations and is refuted in single precision, where two noise levels below the last digit of the spectrum give the same number; it is kept for noise that stands out from two roundings.

Theorems: `C177_power`, `C177_spectrum`, `C177_noise`, `C177_variance`, `C177_chi2`, `C177_survey`, `C177_tells_partial`, `C177_refuted`.

### C178 Accuracy of the cold dark matter transfer function in floating point – proved

Error algebra with magnitudes; the second part is at most the first, so that the error of the weight is within three times the sum; a lemma that powers between one and two at most double relative errors.

Note: k_eq, the sound horizon, alpha_c and beta_c enter as computed; the accuracy of the power is asked for at the argument in question with the exponent as the format holds it.

Theorems: `C178_fit`, `C178_tilde`, `C178_cdm`, `C178_mix`.

### C179 The linear power on the largest scales in floating point – partial

The computed effective shape is at least its small-scale value (C175), which puts the wavenumber in the range where the transfer function rounds to one; doubling commutes with rounding (C172); the exact half is the strict decrease of the transfer function.

Note: The growth factor, alpha_gamma and the sound horizon enter as computed; the primordial spectrum of index one is taken as max(k, 0).

Theorems: `C179_transfer`, `C179_primordial`, `C179_slope`, `C179_refuted`.


## Axioms per theorem

`#print axioms` was run on 849 theorems of the manifest.  All of them use exactly `propext`,
`Classical.choice`, `Quot.sound`, except: `C32_additive` (propext, Quot.sound), `C32_antisymm` (propext, Quot.sound), `C55_missing` (propext, Quot.sound).
