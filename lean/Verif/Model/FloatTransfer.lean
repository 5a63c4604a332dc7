import Verif.Model.FloatBackground
import Verif.Model.Transfer

/-! # `Eisenstein_Hu` in floating point: the smooth transfer function and that of cold dark matter

The quantities computed from the cosmology alone (`transfer.py:47-86`, `:111-117`) enter as computed, but for `alpha_gamma`.  Python constants
enter as the nearest floating-point number, and `x ** 4` is the square of a square. -/

namespace JaxCosmo
variable (A : Rounding) (L : Elem) (powr : ℝ → ℝ → ℝ)

/-- `x ** 4` -/
def pow4F (x : ℝ) : ℝ := A.mul (A.mul x x) (A.mul x x)

/-- `transfer.py:48-50`, `:88-92` `alpha_gamma`. -/
noncomputable def alphaGammaF (Omega_b Omega_m h : ℝ) : ℝ :=
  let h2 := A.mul h h
  let w_m := A.mul Omega_m h2
  let w_b := A.mul Omega_b h2
  let f := A.div Omega_b Omega_m
  A.add (A.sub 1 (A.div (A.mul (A.mul (A.rd 0.328) (L.log (A.mul (A.rd 431) w_m))) w_b) w_m))
    (A.mul (A.mul (A.rd 0.38) (L.log (A.mul (A.rd 22.3) w_m))) (A.mul f f))

/-- `transfer.py:93-97` `gamma_eff`; `ag` is `alpha_gamma` and `sh` the sound horizon. -/
noncomputable def gammaEffF (Omega_m h ag sh k : ℝ) : ℝ :=
  A.mul (A.mul Omega_m h) (A.add ag (A.div (A.sub 1 ag) (A.add 1 (pow4F A (A.mul (A.mul (A.rd 0.43) k) sh)))))

/-- `transfer.py:99-105`: type `"eisenhu"`; `gamma` is `gamma_eff` as computed. -/
noncomputable def nowiggleF (gamma k : ℝ) : ℝ :=
  let t := A.rd (const_tcmb / 2.7)
  let q := A.div (A.mul k (A.mul t t)) gamma
  let l := L.log (A.add (A.mul 2 (L.exp 1)) (A.mul (A.rd 1.8) q))
  let C := A.add (A.rd 14.2) (A.div (A.rd 731) (A.add 1 (A.mul (A.rd 62.5) q)))
  A.div l (A.add l (A.mul (A.mul C q) q))

/-- `transfer.py:120-126` `T_tilde`; `keq` is `k_eq`. -/
noncomputable def tildeF (keq k1 alpha beta : ℝ) : ℝ :=
  let q := A.div k1 (A.mul (A.rd 13.41) keq)
  let l := L.log (A.add (L.exp 1) (A.mul (A.mul (A.rd 1.8) beta) q))
  let C := A.add (A.div (A.rd 14.2) alpha) (A.div (A.rd 386) (A.add 1 (A.mul (A.rd 69.9) (powr q (A.rd 1.08)))))
  A.div l (A.add l (A.mul (A.mul C q) q))

/-- `transfer.py:129-130` `Tc`. -/
noncomputable def cdmF (keq sh alpha_c beta_c k : ℝ) : ℝ :=
  let f := A.div 1 (A.add 1 (pow4F A (A.div (A.mul k sh) (A.rd 5.4))))
  A.add (A.mul f (tildeF A L powr keq k 1 beta_c)) (A.mul (A.sub 1 f) (tildeF A L powr keq k alpha_c beta_c))

end JaxCosmo
