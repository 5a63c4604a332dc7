import Verif.Model.Core
import Mathlib.Analysis.SpecialFunctions.Trigonometric.Basic

/-! # Model of `jax_cosmo/transfer.py` (Eisenstein & Hu transfer functions) -/

namespace JaxCosmo

/-- `np.sinc(x) = sin(pi x)/(pi x)`, `np.sinc(0) = 1`. Used at `transfer.py:150`. -/
noncomputable def npSinc (x : ℝ) : ℝ :=
  if x = 0 then 1 else Real.sin (Real.pi * x) / (Real.pi * x)

namespace EH
variable (p : Params)

/-- `transfer.py:47`. -/
noncomputable def T_2_7_sqr : ℝ := (const_tcmb / 2.7) ^ 2
/-- `transfer.py:48`. -/
noncomputable def h2 : ℝ := p.h ^ 2
/-- `transfer.py:49`. -/
noncomputable def w_m : ℝ := p.Omega_m * h2 p
/-- `transfer.py:50`. -/
noncomputable def w_b : ℝ := p.Omega_b * h2 p
/-- `transfer.py:51`. -/
noncomputable def fb : ℝ := p.Omega_b / p.Omega_m
/-- `transfer.py:52`. -/
noncomputable def fc : ℝ := (p.Omega_m - p.Omega_b) / p.Omega_m
/-- `transfer.py:54`. -/
noncomputable def k_eq : ℝ := 7.46e-2 * w_m p / T_2_7_sqr / p.h
/-- `transfer.py:55`. -/
noncomputable def z_eq : ℝ := 2.50e4 * w_m p / T_2_7_sqr ^ 2
/-- `transfer.py:58`. -/
noncomputable def zd_b1 : ℝ := 0.313 * w_m p ^ (-0.419 : ℝ) * (1 + 0.607 * w_m p ^ (0.674 : ℝ))
/-- `transfer.py:59`. -/
noncomputable def zd_b2 : ℝ := 0.238 * w_m p ^ (0.223 : ℝ)
/-- `transfer.py:60-65`. -/
noncomputable def z_d : ℝ :=
  1291 * w_m p ^ (0.251 : ℝ) / (1 + 0.659 * w_m p ^ (0.828 : ℝ)) * (1 + zd_b1 p * w_b p ^ zd_b2 p)
/-- `transfer.py:68`. -/
noncomputable def R_d : ℝ := 31.5 * w_b p / T_2_7_sqr ^ 2 * (1.0e3 / z_d p)
/-- `transfer.py:70`. -/
noncomputable def R_eq : ℝ := 31.5 * w_b p / T_2_7_sqr ^ 2 * (1.0e3 / z_eq p)
/-- `transfer.py:72-77`. -/
noncomputable def sh_d : ℝ :=
  2 / (3 * k_eq p) * √(6 / R_eq p)
    * Real.log ((√(1 + R_d p) + √(R_eq p + R_d p)) / (1 + √(R_eq p)))
/-- `transfer.py:79-85`. -/
noncomputable def k_silk : ℝ :=
  1.6 * w_b p ^ (0.52 : ℝ) * w_m p ^ (0.73 : ℝ) * (1 + (10.4 * w_m p) ^ (-0.95 : ℝ)) / p.h
/-- `transfer.py:88-92`. -/
noncomputable def alpha_gamma : ℝ :=
  1 - 0.328 * Real.log (431 * w_m p) * w_b p / w_m p
    + 0.38 * Real.log (22.3 * w_m p) * (p.Omega_b / p.Omega_m) ^ 2
/-- `transfer.py:93-97`. -/
noncomputable def gamma_eff (k : ℝ) : ℝ :=
  p.Omega_m * p.h * (alpha_gamma p + (1 - alpha_gamma p) / (1 + (0.43 * k * sh_d p) ^ 4))

/-- `transfer.py:99-105`: type `"eisenhu"`. -/
noncomputable def nowiggle (k : ℝ) : ℝ :=
  let q := k * (const_tcmb / 2.7) ^ 2 / gamma_eff p k
  let L := Real.log (2 * Real.exp 1 + 1.8 * q)
  let C := 14.2 + 731 / (1 + 62.5 * q)
  L / (L + C * q * q)

/-- `transfer.py:111`. -/
noncomputable def a1 : ℝ := (46.9 * w_m p) ^ (0.670 : ℝ) * (1 + (32.1 * w_m p) ^ (-0.532 : ℝ))
/-- `transfer.py:112`. -/
noncomputable def a2 : ℝ := (12.0 * w_m p) ^ (0.424 : ℝ) * (1 + (45.0 * w_m p) ^ (-0.582 : ℝ))
/-- `transfer.py:113`. -/
noncomputable def alpha_c : ℝ := a1 p ^ (-fb p) * a2 p ^ (-(fb p ^ 3))
/-- `transfer.py:114`. -/
noncomputable def bc1 : ℝ := 0.944 / (1 + (458 * w_m p) ^ (-0.708 : ℝ))
/-- `transfer.py:115`. -/
noncomputable def bc2 : ℝ := (0.395 * w_m p) ^ (-0.0266 : ℝ)
/-- `transfer.py:116-117`. -/
noncomputable def beta_c : ℝ := 1 / (1 + bc1 p * (fc p ^ bc2 p - 1))
/-- `transfer.py:120-126` `T_tilde`. -/
noncomputable def T_tilde (k1 alpha beta : ℝ) : ℝ :=
  let q := k1 / (13.41 * k_eq p)
  let L := Real.log (Real.exp 1 + 1.8 * beta * q)
  let C := 14.2 / alpha + 386 / (1 + 69.9 * q ^ (1.08 : ℝ))
  L / (L + C * q * q)
/-- `transfer.py:129-130`. -/
noncomputable def Tc (k : ℝ) : ℝ :=
  let f := 1 / (1 + (k * sh_d p / 5.4) ^ 4)
  f * T_tilde p k 1 (beta_c p) + (1 - f) * T_tilde p k (alpha_c p) (beta_c p)
/-- `transfer.py:134-136` `G_EH98`. -/
noncomputable def G : ℝ :=
  let y := (1 + z_eq p) / (1 + z_d p)
  let x := √(1 + y)
  y * (-6 * x + (2 + 3 * y) * Real.log ((x + 1) / (x - 1)))
/-- `transfer.py:137`. -/
noncomputable def alpha_b : ℝ := 2.07 * k_eq p * sh_d p * (1 + R_d p) ^ (-0.75 : ℝ) * G p
/-- `transfer.py:139`. -/
noncomputable def beta_node : ℝ := 8.41 * w_m p ^ (0.435 : ℝ)
/-- `transfer.py:140`. -/
noncomputable def tilde_s (k : ℝ) : ℝ :=
  sh_d p / (1 + (beta_node p / (k * sh_d p)) ^ 3) ^ (1 / 3 : ℝ)
/-- `transfer.py:142`. -/
noncomputable def beta_b : ℝ := 0.5 + fb p + (3 - 2 * fb p) * √((17.2 * w_m p) ^ 2 + 1)
/-- `transfer.py:145-150`. -/
noncomputable def Tb (k : ℝ) : ℝ :=
  (T_tilde p k 1 1 / (1 + (k * sh_d p / 5.2) ^ 2)
    + alpha_b p / (1 + (beta_b p / (k * sh_d p)) ^ 3) * Real.exp (-((k / k_silk p) ^ (1.4 : ℝ))))
    * npSinc (k * tilde_s p k / Real.pi)
/-- `transfer.py:153`: type `"eisenhu_osc"`. -/
noncomputable def wiggle (k : ℝ) : ℝ := fb p * Tb p k + fc p * Tc p k

end EH

/-- `transfer.py:10-156` `Eisenstein_Hu(cosmo, k, type)` at one wavenumber. -/
noncomputable def Eisenstein_Hu (p : Params) (k : ℝ) (type : String := "eisenhu_osc") :
    Except PyErr ℝ :=
  if type = "eisenhu" then .ok (EH.nowiggle p k)
  else if type = "eisenhu_osc" then .ok (EH.wiggle p k)
  else .error .notImplementedError

end JaxCosmo
