import Verif.Model.Background
import Verif.Model.Integrate
import Verif.Model.Transfer
import Mathlib.Analysis.SpecialFunctions.Log.Base

/-!
# Model of `jax_cosmo/power.py`

A transfer function is the map `k ↦ transfer_fn(cosmo, k, **kwargs)` at fixed cosmology.  All
functions are given at one wavenumber and one scale factor (the code maps over arrays).
`romb` with `divmax = 7` and `simps` with even `N` return normally, so their values
(`rombLoop`, `simpsBody`) are used directly.
-/

namespace JaxCosmo

/-- `power.py:15-19` `primordial_matter_power`. -/
noncomputable def primordialMatterPower (p : Params) (k : ℝ) : ℝ := k ^ p.n_s

/-- `power.py:71-76` `int_sigma`. -/
noncomputable def sigmaIntegrand (p : Params) (T : ℝ → ℝ) (R logk : ℝ) : ℝ :=
  let k := Real.exp logk
  let x := k * R
  let w := 3 * (Real.sin x - x * Real.cos x) / (x * x * x)
  let pk := T k ^ 2 * primordialMatterPower p k
  k * (k * w) ^ 2 * pk

/-- `power.py:57-79` `sigmasqr` (`ksteps` is never used by the code). -/
noncomputable def sigmasqr (p : Params) (R : ℝ) (T : ℝ → ℝ) (kmin : ℝ := 0.0001)
    (kmax : ℝ := 1000) : ℝ :=
  let y := (rombLoop (sigmaIntegrand p T R) (Real.logb 10 kmin) (Real.logb 10 kmax) 7).2 7
  1 / (2 * Real.pi ^ (2 : ℝ)) * y

/-- `power.py:22-54` `linear_matter_power`. -/
noncomputable def linearMatterPower (p : Params) (T : ℝ → ℝ) (k : ℝ) (a : ℝ := 1) : ℝ :=
  let g := growthOf p a
  let t := T k
  let pknorm := p.sigma8 ^ 2 / sigmasqr p 8 T
  let pk := primordialMatterPower p k * t ^ 2 * g ^ 2
  pk * pknorm

namespace Halofit

/-- `power.py:94`: `logr[i]`. -/
noncomputable def logr (i : ℕ) : ℝ := linspace (Real.log 1e-4) (Real.log 1e1) 256 i

/-- `power.py:99-110`: the integrand `int_sigma` for one radius `r`. -/
noncomputable def intSigma (p : Params) (T : ℝ → ℝ) (a r logk : ℝ) : ℝ :=
  let k := Real.exp logk
  let y := k * r
  let pk := linearMatterPower p T k
  let g := growthOf p a
  pk * k ^ 3 * Real.exp (-(y ^ 2)) / (2 * Real.pi ^ 2) * g ^ 2

/-- `power.py:112`: `sigma[i]`. -/
noncomputable def sigma (p : Params) (T : ℝ → ℝ) (a : ℝ) (i : ℕ) : ℝ :=
  simpsBody (intSigma p T a (Real.exp (logr i))) (Real.log 1e-4) (Real.log 1e4) 256

/-- `power.py:97-116` `R_nl`. -/
noncomputable def R_nl (p : Params) (T : ℝ → ℝ) (a : ℝ) : ℝ :=
  let root := interp 256 (sigma p T a) logr 1
  clipLo (Real.exp root) 1e-6

/-- `power.py:119` `k_nl`. -/
noncomputable def k_nl (p : Params) (T : ℝ → ℝ) (a : ℝ) : ℝ := 1 / R_nl p T a

/-- `power.py:123-132`: `res` inside `integrand`. -/
noncomputable def res (p : Params) (T : ℝ → ℝ) (a logk : ℝ) : ℝ :=
  let k := Real.exp logk
  let y := k * (1 / k_nl p T a)
  let pk := linearMatterPower p T k
  let g := growthOf p a
  pk * k ^ 3 * Real.exp (-(y ^ 2)) * g ^ 2 / (2 * Real.pi ^ 2)

/-- `power.py:133`, `:137`: `res[0]`. -/
noncomputable def res0 (p : Params) (T : ℝ → ℝ) (a : ℝ) : ℝ :=
  simpsBody (fun logk => let y := Real.exp logk * (1 / k_nl p T a); 2 * res p T a logk * y ^ 2)
    (Real.log 1e-4) (Real.log 1e4) 256

/-- `power.py:134`, `:137`: `res[1]`. -/
noncomputable def res1 (p : Params) (T : ℝ → ℝ) (a : ℝ) : ℝ :=
  simpsBody
    (fun logk => let y := Real.exp logk * (1 / k_nl p T a); 4 * res p T a logk * (y ^ 2 - y ^ 4))
    (Real.log 1e-4) (Real.log 1e4) 256

/-- `power.py:139`. -/
noncomputable def n_eff (p : Params) (T : ℝ → ℝ) (a : ℝ) : ℝ := res0 p T a - 3

/-- `power.py:140`. -/
noncomputable def curv (p : Params) (T : ℝ → ℝ) (a : ℝ) : ℝ := res0 p T a ^ 2 + res1 p T a

/-- The fitted coefficients chosen by the prescription, `power.py:183-231`. -/
structure Coeffs where
  a_n : ℝ
  b_n : ℝ
  c_n : ℝ
  gamma_n : ℝ
  alpha_n : ℝ
  beta_n : ℝ
  mu_n : ℝ
  nu_n : ℝ

/-- `power.py:183-199`. -/
noncomputable def smith2003 (n C : ℝ) : Coeffs where
  a_n := (10 : ℝ) ^ (1.4861 + 1.8369 * n + 1.6762 * n ^ 2 + 0.7940 * n ^ 3 + 0.1670 * n ^ 4
    - 0.6206 * C)
  b_n := (10 : ℝ) ^ (0.9463 + 0.9466 * n + 0.3084 * n ^ 2 - 0.9400 * C)
  c_n := (10 : ℝ) ^ (-0.2807 + 0.6669 * n + 0.3214 * n ^ 2 - 0.0793 * C)
  gamma_n := 0.8649 + 0.2989 * n + 0.1631 * C
  alpha_n := 1.3884 + 0.3700 * n - 0.1452 * n ^ 2
  beta_n := 0.8291 + 0.9854 * n + 0.3401 * n ^ 2
  mu_n := (10 : ℝ) ^ (-3.5442 + 0.1908 * n)
  nu_n := (10 : ℝ) ^ (0.9585 + 1.2857 * n)

/-- `power.py:200-229`. -/
noncomputable def takahashi2012 (n C om_de w : ℝ) : Coeffs where
  a_n := (10 : ℝ) ^ (1.5222 + 2.8553 * n + 2.3706 * n ^ 2 + 0.9903 * n ^ 3 + 0.2250 * n ^ 4
    - 0.6038 * C + 0.1749 * om_de * (1 + w))
  b_n := (10 : ℝ) ^ (-0.5642 + 0.5864 * n + 0.5716 * n ^ 2 - 1.5474 * C + 0.2279 * om_de * (1 + w))
  c_n := (10 : ℝ) ^ (0.3698 + 2.0404 * n + 0.8161 * n ^ 2 + 0.5869 * C)
  gamma_n := 0.1971 - 0.0843 * n + 0.8460 * C
  alpha_n := |6.0835 + 1.3373 * n - 0.1959 * n ^ 2 - 5.5274 * C|
  beta_n := 2.0379 - 0.7354 * n + 0.3157 * n ^ 2 + 1.2490 * n ^ 3 + 0.3980 * n ^ 4 - 0.1682 * C
  mu_n := 0
  nu_n := (10 : ℝ) ^ (5.2105 + 3.6902 * n)

/-- `power.py:240-249`: `(f1, f2, f3)` for `"takahashi2012"`. -/
noncomputable def fTakahashi (om_m : ℝ) : ℝ × ℝ × ℝ :=
  (om_m ^ (-0.0307 : ℝ), om_m ^ (-0.0585 : ℝ), om_m ^ (0.0743 : ℝ))

/-- `power.py:233-247`: `(f1, f2, f3)` for `"smith2003"`. -/
noncomputable def fSmith (om_m frac : ℝ) : ℝ × ℝ × ℝ :=
  let f1a := om_m ^ (-0.0732 : ℝ)
  let f2a := om_m ^ (-0.1423 : ℝ)
  let f3a := om_m ^ (0.0725 : ℝ)
  let f1b := om_m ^ (-0.0307 : ℝ)
  let f2b := om_m ^ (-0.0585 : ℝ)
  let f3b := om_m ^ (0.0743 : ℝ)
  (frac * f1b + (1 - frac) * f1a, frac * f2b + (1 - frac) * f2a, frac * f3b + (1 - frac) * f3a)

/-- `power.py:251-265`: the assembly of the spectrum from the coefficients. -/
noncomputable def assemble (k pklin knl : ℝ) (c : Coeffs) (f123 : ℝ × ℝ × ℝ) : ℝ :=
  let f1 := f123.1
  let f2 := f123.2.1
  let f3 := f123.2.2
  let f := fun x : ℝ => x / 4 + x ^ 2 / 8
  let d2l := k ^ 3 * pklin / (2 * Real.pi ^ 2)
  let y := k / knl
  let d2q := d2l * ((1 + d2l) ^ c.beta_n / (1 + c.alpha_n * d2l)) * Real.exp (-f y)
  let d2hprime := c.a_n * y ^ (3 * f1)
    / (1 + c.b_n * y ^ f2 + (c.c_n * f3 * y) ^ (3 - c.gamma_n))
  let d2h := d2hprime / (1 + c.mu_n / y + c.nu_n / y ^ 2)
  let d2nl := d2q + d2h
  2 * Real.pi ^ 2 / k ^ 3 * d2nl

end Halofit

/-- `power.py:145-267` `halofit(cosmo, k, a, transfer_fn, prescription)`. -/
noncomputable def halofit (p : Params) (k a : ℝ) (T : ℝ → ℝ)
    (prescription : String := "takahashi2012") : Except PyErr ℝ :=
  let pklin := linearMatterPower p T k a
  let k_nl := Halofit.k_nl p T a
  let n := Halofit.n_eff p T a
  let C := Halofit.curv p T a
  let om_m := Omega_m_a p a
  let om_de := Omega_de_a p a
  let w := w p a
  let frac := om_de / (1 - om_m)
  if prescription = "smith2003" then
    .ok (Halofit.assemble k pklin k_nl (Halofit.smith2003 n C) (Halofit.fSmith om_m frac))
  else if prescription = "takahashi2012" then
    .ok (Halofit.assemble k pklin k_nl (Halofit.takahashi2012 n C om_de w)
      (Halofit.fTakahashi om_m))
  else .error .notImplementedError

/-- `power.py:82-84` `linear`. -/
noncomputable def linear (p : Params) (k a : ℝ) (T : ℝ → ℝ) : Except PyErr ℝ :=
  .ok (linearMatterPower p T k a)

/-- `power.py:270-277` `nonlinear_matter_power`: calls `nonlinear_fn`. -/
noncomputable def nonlinearMatterPower (p : Params) (k a : ℝ) (T : ℝ → ℝ)
    (nonlinear_fn : Params → ℝ → ℝ → (ℝ → ℝ) → Except PyErr ℝ :=
      fun p k a T => halofit p k a T) : Except PyErr ℝ :=
  nonlinear_fn p k a T

end JaxCosmo
