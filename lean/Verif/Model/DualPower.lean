import Verif.Model.DualBackground
import Verif.Model.Power

/-!
# Forward-mode differentiation of `transfer.py` and `power.py`

The same code as `Model/Transfer.lean` and `Model/Power.lean`, computed with numbers that carry a
tangent (`Model/Dual.lean`).  A transfer function is a map on such numbers, the cosmology being
captured.
-/

namespace JaxCosmo.Dm
open Du

namespace EH
variable (p : DParams)

/-- `transfer.py:47`. -/
noncomputable def T_2_7_sqr : Du := (Du.con const_tcmb / 2.7) ^ 2
/-- `transfer.py:48`. -/
noncomputable def h2 : Du := p.h ^ 2
/-- `transfer.py:49`. -/
noncomputable def w_m : Du := p.Omega_m * h2 p
/-- `transfer.py:50`. -/
noncomputable def w_b : Du := p.Omega_b * h2 p
/-- `transfer.py:51`. -/
noncomputable def fb : Du := p.Omega_b / p.Omega_m
/-- `transfer.py:52`. -/
noncomputable def fc : Du := (p.Omega_m - p.Omega_b) / p.Omega_m
/-- `transfer.py:54`. -/
noncomputable def k_eq : Du := 7.46e-2 * w_m p / T_2_7_sqr / p.h
/-- `transfer.py:55`. -/
noncomputable def z_eq : Du := 2.50e4 * w_m p / T_2_7_sqr ^ 2
/-- `transfer.py:58`. -/
noncomputable def zd_b1 : Du :=
  0.313 * (w_m p).rpow (-0.419) * (1 + 0.607 * (w_m p).rpow 0.674)
/-- `transfer.py:59`. -/
noncomputable def zd_b2 : Du := 0.238 * (w_m p).rpow 0.223
/-- `transfer.py:60-65`. -/
noncomputable def z_d : Du :=
  1291 * (w_m p).rpow 0.251 / (1 + 0.659 * (w_m p).rpow 0.828)
    * (1 + zd_b1 p * (w_b p).rpow (zd_b2 p))
/-- `transfer.py:68`. -/
noncomputable def R_d : Du := 31.5 * w_b p / T_2_7_sqr ^ 2 * (1.0e3 / z_d p)
/-- `transfer.py:70`. -/
noncomputable def R_eq : Du := 31.5 * w_b p / T_2_7_sqr ^ 2 * (1.0e3 / z_eq p)
/-- `transfer.py:72-77`. -/
noncomputable def sh_d : Du :=
  2 / (3 * k_eq p) * (6 / R_eq p).sqrt
    * (((1 + R_d p).sqrt + (R_eq p + R_d p).sqrt) / (1 + (R_eq p).sqrt)).log
/-- `transfer.py:79-85`. -/
noncomputable def k_silk : Du :=
  1.6 * (w_b p).rpow 0.52 * (w_m p).rpow 0.73 * (1 + (10.4 * w_m p).rpow (-0.95)) / p.h
/-- `transfer.py:88-92`. -/
noncomputable def alpha_gamma : Du :=
  1 - 0.328 * (431 * w_m p).log * w_b p / w_m p
    + 0.38 * (22.3 * w_m p).log * (p.Omega_b / p.Omega_m) ^ 2
/-- `transfer.py:93-97`. -/
noncomputable def gamma_eff (k : Du) : Du :=
  p.Omega_m * p.h
    * (alpha_gamma p + (1 - alpha_gamma p) / (1 + (0.43 * k * sh_d p) ^ 4))

/-- `transfer.py:99-105`: type `"eisenhu"`. -/
noncomputable def nowiggle (k : Du) : Du :=
  let q := k * (Du.con const_tcmb / 2.7) ^ 2 / gamma_eff p k
  let L := (2 * (1 : Du).exp + 1.8 * q).log
  let C := 14.2 + 731 / (1 + 62.5 * q)
  L / (L + C * q * q)

/-- `transfer.py:111`. -/
noncomputable def a1 : Du := (46.9 * w_m p).rpow 0.670 * (1 + (32.1 * w_m p).rpow (-0.532))
/-- `transfer.py:112`. -/
noncomputable def a2 : Du := (12.0 * w_m p).rpow 0.424 * (1 + (45.0 * w_m p).rpow (-0.582))
/-- `transfer.py:113`. -/
noncomputable def alpha_c : Du := (a1 p).rpow (-fb p) * (a2 p).rpow (-(fb p ^ 3))
/-- `transfer.py:114`. -/
noncomputable def bc1 : Du := 0.944 / (1 + (458 * w_m p).rpow (-0.708))
/-- `transfer.py:115`. -/
noncomputable def bc2 : Du := (0.395 * w_m p).rpow (-0.0266)
/-- `transfer.py:116-117`. -/
noncomputable def beta_c : Du := 1 / (1 + bc1 p * ((fc p).rpow (bc2 p) - 1))
/-- `transfer.py:120-126` `T_tilde`. -/
noncomputable def T_tilde (k1 alpha beta : Du) : Du :=
  let q := k1 / (13.41 * k_eq p)
  let L := ((1 : Du).exp + 1.8 * beta * q).log
  let C := 14.2 / alpha + 386 / (1 + 69.9 * q.rpow 1.08)
  L / (L + C * q * q)
/-- `transfer.py:129-130`. -/
noncomputable def Tc (k : Du) : Du :=
  let f := 1 / (1 + (k * sh_d p / 5.4) ^ 4)
  f * T_tilde p k 1 (beta_c p) + (1 - f) * T_tilde p k (alpha_c p) (beta_c p)
/-- `transfer.py:134-136` `G_EH98`. -/
noncomputable def G : Du :=
  let y := (1 + z_eq p) / (1 + z_d p)
  let x := (1 + y).sqrt
  y * (-6 * x + (2 + 3 * y) * ((x + 1) / (x - 1)).log)
/-- `transfer.py:137`. -/
noncomputable def alpha_b : Du := 2.07 * k_eq p * sh_d p * (1 + R_d p).rpow (-0.75) * G p
/-- `transfer.py:139`. -/
noncomputable def beta_node : Du := 8.41 * (w_m p).rpow 0.435
/-- `transfer.py:140`. -/
noncomputable def tilde_s (k : Du) : Du :=
  sh_d p / (1 + (beta_node p / (k * sh_d p)) ^ 3).rpow (1 / 3)
/-- `transfer.py:142`. -/
noncomputable def beta_b : Du := 0.5 + fb p + (3 - 2 * fb p) * ((17.2 * w_m p) ^ 2 + 1).sqrt
/-- `transfer.py:145-150`. -/
noncomputable def Tb (k : Du) : Du :=
  (T_tilde p k 1 1 / (1 + (k * sh_d p / 5.2) ^ 2)
    + alpha_b p / (1 + (beta_b p / (k * sh_d p)) ^ 3) * (-((k / k_silk p).rpow 1.4)).exp)
    * (k * tilde_s p k / Du.con Real.pi).sinc
/-- `transfer.py:153`: type `"eisenhu_osc"`. -/
noncomputable def wiggle (k : Du) : Du := fb p * Tb p k + fc p * Tc p k

end EH

/-- `power.py:15-19` `primordial_matter_power`. -/
noncomputable def primordialMatterPower (p : DParams) (k : Du) : Du := k.rpow (p.n_s)

/-- `power.py:71-76` `int_sigma`. -/
noncomputable def sigmaIntegrand (p : DParams) (T : Du → Du) (R logk : Du) : Du :=
  let k := logk.exp
  let x := k * R
  let w := 3 * (x.sin - x * x.cos) / (x * x * x)
  let pk := T k ^ 2 * primordialMatterPower p k
  k * (k * w) ^ 2 * pk

/-- `power.py:57-79` `sigmasqr`. -/
noncomputable def sigmasqr (p : DParams) (R : Du) (T : Du → Du) (kmin : ℝ := 0.0001)
    (kmax : ℝ := 1000) : Du :=
  let y := (rombLoop (sigmaIntegrand p T R) (Du.con (Real.logb 10 kmin)) (Du.con (Real.logb 10 kmax)) 7).2 7
  1 / (2 * (Du.con Real.pi).rpow 2) * y

/-- `power.py:22-54` `linear_matter_power`. -/
noncomputable def linearMatterPower (p : DParams) (T : Du → Du) (k : Du) (a : Du := 1) : Du :=
  let g := growthOf p a
  let t := T k
  let pknorm := p.sigma8 ^ 2 / sigmasqr p 8 T
  let pk := primordialMatterPower p k * t ^ 2 * g ^ 2
  pk * pknorm

namespace Halofit

/-- `power.py:94`: `logr[i]`. -/
noncomputable def logr (i : ℕ) : Du := linspace ((1e-4 : Du).log) ((1e1 : Du).log) 256 i

/-- `power.py:99-110`: the integrand `int_sigma` for one radius `r`. -/
noncomputable def intSigma (p : DParams) (T : Du → Du) (a r logk : Du) : Du :=
  let k := logk.exp
  let y := k * r
  let pk := linearMatterPower p T k
  let g := growthOf p a
  pk * k ^ 3 * (-(y ^ 2)).exp / (2 * Du.con Real.pi ^ 2) * g ^ 2

/-- `power.py:112`: `sigma[i]`. -/
noncomputable def sigma (p : DParams) (T : Du → Du) (a : Du) (i : ℕ) : Du :=
  simps (intSigma p T a (logr i).exp) ((1e-4 : Du).log) ((1e4 : Du).log) 256

/-- `power.py:97-116` `R_nl`. -/
noncomputable def R_nl (p : DParams) (T : Du → Du) (a : Du) : Du :=
  (interp 256 (sigma p T a) logr 1).exp.max 1e-6

/-- `power.py:119` `k_nl`. -/
noncomputable def k_nl (p : DParams) (T : Du → Du) (a : Du) : Du := 1 / R_nl p T a

/-- `power.py:123-132`: `res` inside `integrand`. -/
noncomputable def res (p : DParams) (T : Du → Du) (a logk : Du) : Du :=
  let k := logk.exp
  let y := k * (1 / k_nl p T a)
  let pk := linearMatterPower p T k
  let g := growthOf p a
  pk * k ^ 3 * (-(y ^ 2)).exp * g ^ 2 / (2 * Du.con Real.pi ^ 2)

/-- `power.py:133`, `:137`: `res[0]`. -/
noncomputable def res0 (p : DParams) (T : Du → Du) (a : Du) : Du :=
  simps (fun logk => let y := logk.exp * (1 / k_nl p T a); 2 * res p T a logk * y ^ 2)
    ((1e-4 : Du).log) ((1e4 : Du).log) 256

/-- `power.py:134`, `:137`: `res[1]`. -/
noncomputable def res1 (p : DParams) (T : Du → Du) (a : Du) : Du :=
  simps (fun logk => let y := logk.exp * (1 / k_nl p T a); 4 * res p T a logk * (y ^ 2 - y ^ 4))
    ((1e-4 : Du).log) ((1e4 : Du).log) 256

/-- `power.py:139`. -/
noncomputable def n_eff (p : DParams) (T : Du → Du) (a : Du) : Du := res0 p T a - 3

/-- `power.py:140`. -/
noncomputable def curv (p : DParams) (T : Du → Du) (a : Du) : Du := res0 p T a ^ 2 + res1 p T a

/-- The fitted coefficients chosen by the prescription, `power.py:183-231`. -/
structure Coeffs where
  a_n : Du
  b_n : Du
  c_n : Du
  gamma_n : Du
  alpha_n : Du
  beta_n : Du
  mu_n : Du
  nu_n : Du

/-- `power.py:183-199`. -/
noncomputable def smith2003 (n C : Du) : Coeffs where
  a_n := (10 : Du).rpow (1.4861 + 1.8369 * n + 1.6762 * n ^ 2 + 0.7940 * n ^ 3 + 0.1670 * n ^ 4
    - 0.6206 * C)
  b_n := (10 : Du).rpow (0.9463 + 0.9466 * n + 0.3084 * n ^ 2 - 0.9400 * C)
  c_n := (10 : Du).rpow (-0.2807 + 0.6669 * n + 0.3214 * n ^ 2 - 0.0793 * C)
  gamma_n := 0.8649 + 0.2989 * n + 0.1631 * C
  alpha_n := 1.3884 + 0.3700 * n - 0.1452 * n ^ 2
  beta_n := 0.8291 + 0.9854 * n + 0.3401 * n ^ 2
  mu_n := (10 : Du).rpow (-3.5442 + 0.1908 * n)
  nu_n := (10 : Du).rpow (0.9585 + 1.2857 * n)

/-- `power.py:200-229`. -/
noncomputable def takahashi2012 (n C om_de w : Du) : Coeffs where
  a_n := (10 : Du).rpow (1.5222 + 2.8553 * n + 2.3706 * n ^ 2 + 0.9903 * n ^ 3 + 0.2250 * n ^ 4
    - 0.6038 * C + 0.1749 * om_de * (1 + w))
  b_n := (10 : Du).rpow (-0.5642 + 0.5864 * n + 0.5716 * n ^ 2 - 1.5474 * C
    + 0.2279 * om_de * (1 + w))
  c_n := (10 : Du).rpow (0.3698 + 2.0404 * n + 0.8161 * n ^ 2 + 0.5869 * C)
  gamma_n := 0.1971 - 0.0843 * n + 0.8460 * C
  alpha_n := (6.0835 + 1.3373 * n - 0.1959 * n ^ 2 - 5.5274 * C).abs
  beta_n := 2.0379 - 0.7354 * n + 0.3157 * n ^ 2 + 1.2490 * n ^ 3 + 0.3980 * n ^ 4 - 0.1682 * C
  mu_n := 0
  nu_n := (10 : Du).rpow (5.2105 + 3.6902 * n)

/-- `power.py:240-249`: `(f1, f2, f3)` for `"takahashi2012"`. -/
noncomputable def fTakahashi (om_m : Du) : Du × Du × Du :=
  (om_m.rpow (-0.0307), om_m.rpow (-0.0585), om_m.rpow 0.0743)

/-- `power.py:233-247`: `(f1, f2, f3)` for `"smith2003"`. -/
noncomputable def fSmith (om_m frac : Du) : Du × Du × Du :=
  let f1a := om_m.rpow (-0.0732)
  let f2a := om_m.rpow (-0.1423)
  let f3a := om_m.rpow 0.0725
  let f1b := om_m.rpow (-0.0307)
  let f2b := om_m.rpow (-0.0585)
  let f3b := om_m.rpow 0.0743
  (frac * f1b + (1 - frac) * f1a, frac * f2b + (1 - frac) * f2a, frac * f3b + (1 - frac) * f3a)

/-- `power.py:251-265`: the assembly of the spectrum from the coefficients. -/
noncomputable def assemble (k pklin knl : Du) (c : Coeffs) (f123 : Du × Du × Du) : Du :=
  let f1 := f123.1
  let f2 := f123.2.1
  let f3 := f123.2.2
  let f := fun x : Du => x / 4 + x ^ 2 / 8
  let d2l := k ^ 3 * pklin / (2 * Du.con Real.pi ^ 2)
  let y := k / knl
  let d2q := d2l * ((1 + d2l).rpow c.beta_n / (1 + c.alpha_n * d2l)) * (-f y).exp
  let d2hprime := c.a_n * y.rpow (3 * f1)
    / (1 + c.b_n * y.rpow f2 + (c.c_n * f3 * y).rpow (3 - c.gamma_n))
  let d2h := d2hprime / (1 + c.mu_n / y + c.nu_n / y ^ 2)
  let d2nl := d2q + d2h
  2 * Du.con Real.pi ^ 2 / k ^ 3 * d2nl

end Halofit

/-- `power.py:145-267` `halofit(cosmo, k, a, transfer_fn, prescription)`. -/
noncomputable def halofit (p : DParams) (k a : Du) (T : Du → Du)
    (prescription : String := "takahashi2012") : Except PyErr Du :=
  let pklin := linearMatterPower p T k a
  let k_nl := Halofit.k_nl p T a
  let n := Halofit.n_eff p T a
  let C := Halofit.curv p T a
  let om_m := Omega_m_a p a
  let om_de := Omega_de_a p a
  let w := w p a
  let frac := om_de / (1 - om_m)
  if prescription = "smith2003" then
    .ok (Halofit.assemble k pklin k_nl (Halofit.smith2003 n C) (Halofit.fSmith om_m frac))
  else if prescription = "takahashi2012" then
    .ok (Halofit.assemble k pklin k_nl (Halofit.takahashi2012 n C om_de w)
      (Halofit.fTakahashi om_m))
  else .error .notImplementedError

end JaxCosmo.Dm
