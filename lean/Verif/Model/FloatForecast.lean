import Verif.Model.FloatAngularCl
import Verif.Model.FloatLikelihood

/-! # Model of the forecast for one tracer in floating point

`angular_cl.py` `gaussian_cl_covariance_and_mean` followed by `likelihood.py` `gaussian_log_likelihood`, for one tracer and the
sparse covariance.  What enters the Limber sum is given at every multipole. -/

namespace JaxCosmo
variable (A : Rounding)

/-- `np.gradient` of an array of `n ≥ 2` entries with unit spacing (`angular_cl.py:142`). -/
noncomputable def gradientF (n : ℕ) (f : ℕ → ℝ) (i : ℕ) : ℝ :=
  if i = 0 then A.sub (f 1) (f 0)
  else if i = n - 1 then A.sub (f (n - 1)) (f (n - 2))
  else A.div (A.sub (f (i + 1)) (f (i - 1))) 2

/-- `angular_cl.py:142`: `norm` at entry `l`. -/
noncomputable def covNormF (n : ℕ) (ell : ℕ → ℝ) (f_sky : ℝ) (l : ℕ) : ℝ :=
  A.mul (A.mul (A.add (A.mul 2 (ell l)) 1) (gradientF A n ell l)) f_sky

/-- `angular_cl.py:145-156` for one tracer: the only block. -/
noncomputable def oneCovF (obs norm : ℕ → ℝ) (l : ℕ) : ℝ :=
  A.div (A.add (A.mul (obs l) (obs l)) (A.mul (obs l) (obs l))) (norm l)

/-- `angular_cl.py:184-186`: the mean at multipole `l`. -/
noncomputable def forecastMeanF (S : ℕ → LimberInput) (zmax : ℝ) (t : ℕ → SumTree) (l : ℕ) : ℝ := clF A (S l) zmax (t l) 0 0

/-- `angular_cl.py:187-199`: the variance at multipole `l`. -/
noncomputable def forecastCovF (S : ℕ → LimberInput) (noise : ℕ → ℝ) (zmax : ℝ) (t : ℕ → SumTree) (n : ℕ) (ell : ℕ → ℝ)
    (f_sky : ℝ) : ℕ → ℝ :=
  oneCovF A (fun l => clObsF A (S l) noise zmax (t l) 0 0) (covNormF A n ell f_sky)

/-- `likelihood.py:41-46` with this mean and covariance; `s` is the order of summation. -/
noncomputable def forecastChi2F (S : ℕ → LimberInput) (noise : ℕ → ℝ) (zmax : ℝ) (t : ℕ → SumTree) (n : ℕ) (ell : ℕ → ℝ)
    (f_sky : ℝ) (s : SumTree) (data : ℕ → ℝ) : ℝ :=
  chi2F A s data (forecastMeanF A S zmax t) (forecastCovF A S noise zmax t n ell f_sky)

end JaxCosmo
