import Mathlib.Algebra.Order.Field.Basic

/-! # Model of `jax_cosmo/utils.py` -/

namespace JaxCosmo
variable {K : Type*} [Field K]

/-- `utils.py:2-4` `z2a`. -/
def z2a (z : K) : K := 1 / (1 + z)

/-- `utils.py:7-9` `a2z`. -/
def a2z (a : K) : K := 1 / a - 1

end JaxCosmo
