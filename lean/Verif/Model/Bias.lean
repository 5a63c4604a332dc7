import Verif.Model.Background
import Verif.Model.Utils

/-! # Model of `jax_cosmo/bias.py` -/

namespace JaxCosmo

/-- The bias classes of `bias.py`. -/
inductive Bias
  /-- `constant_linear_bias(b)`, `bias.py:12-23`. -/
  | constant (b : ℝ)
  /-- `inverse_growth_linear_bias(b)`, `bias.py:27-40`. -/
  | invGrowth (b : ℝ)
  /-- `des_y1_ia_bias(A, eta, z0)`, `bias.py:44-58`. -/
  | desY1 (A eta z0 : ℝ)

/-- `__call__(cosmo, z)` at one redshift: `bias.py:21-23`, `:38-40`, `:56-58`. -/
noncomputable def Bias.call (p : Params) (z : ℝ) : Bias → ℝ
  | constant b => b * 1
  | invGrowth b => b / growthOf p (z2a z)
  | desY1 A eta z0 => A * ((1 + z) / (1 + z0)) ^ eta

end JaxCosmo
