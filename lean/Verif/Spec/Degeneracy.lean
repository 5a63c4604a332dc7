import Verif.Model.Probes

/-! # Specification for C146: surveys with all amplitudes changed -/

namespace JaxCosmo.Spec

/-- The same bias model with its amplitude multiplied by `u`. -/
noncomputable def amplifyBias (u : ℝ) : Bias → Bias
  | .constant b => .constant (u * b)
  | .invGrowth b => .invGrowth (u * b)
  | .desY1 A eta z0 => .desY1 (u * A) eta z0

/-- The same for one model or a list of models (anything else is left alone). -/
noncomputable def amplifyBiases (u : ℝ) : Val → Val
  | .bias b => .bias (amplifyBias u b)
  | .biases bs => .biases (bs.map (amplifyBias u))
  | v => v

/-- Multiplicative shear biases `m'` with `1 + m' = u (1 + m)`. -/
noncomputable def amplifyShear (u : ℝ) : Val → Val
  | .num m => .num (u * (1 + m) - 1)
  | .nums ms => .nums (ms.map fun m => u * (1 + m) - 1)
  | v => v

/-- The same probe with galaxy bias, or response to shear, multiplied by `u`. -/
noncomputable def amplify (u : ℝ) : Probe → Probe
  | .wl o => .wl { o with param1 := amplifyShear u o.param1 }
  | .nc o => .nc { o with bias := amplifyBiases u o.bias }

/-- Only the galaxies are amplified. -/
noncomputable def amplifyCounts (u : ℝ) : Probe → Probe
  | .wl o => .wl o
  | .nc o => .nc { o with bias := amplifyBiases u o.bias }

/-- The tracer is a sample of galaxies (and not of their shapes). -/
def IsCounts : Probe × ℕ → Prop
  | (.nc _, _) => True
  | _ => False

end JaxCosmo.Spec
