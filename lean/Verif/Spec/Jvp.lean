import Verif.Model.DualBackground
import Mathlib.Analysis.Calculus.Deriv.Basic

/-! # Specification: what a differentiated computation has to return -/

namespace JaxCosmo

/-- The tangent that `jax.jvp` returns (a symbolic zero is returned as zero). -/
def Du.tangent (d : Du) : Xr := d.tan.getD (.fin 0)

namespace Spec

/-- The value is `F s` and the tangent is the derivative of `F` at `s`; both are finite. -/
def Jvp (F : ℝ → ℝ) (s : ℝ) (d : Du) : Prop :=
  ∃ F', HasDerivAt F F' s ∧ d.val = .fin (F s) ∧ d.tangent = .fin F'

/-- A cosmology with tangents is a curve of cosmologies to first order: every parameter has its value
and its derivative; `gamma` is absent all along or present all along. -/
structure Seeded (P : ℝ → Params) (s : ℝ) (D : DParams) : Prop where
  Omega_c : Jvp (fun r => (P r).Omega_c) s D.Omega_c
  Omega_b : Jvp (fun r => (P r).Omega_b) s D.Omega_b
  h : Jvp (fun r => (P r).h) s D.h
  n_s : Jvp (fun r => (P r).n_s) s D.n_s
  sigma8 : Jvp (fun r => (P r).sigma8) s D.sigma8
  Omega_k : Jvp (fun r => (P r).Omega_k) s D.Omega_k
  w0 : Jvp (fun r => (P r).w0) s D.w0
  wa : Jvp (fun r => (P r).wa) s D.wa
  gamma : match D.gamma with
    | none => ∀ r, (P r).gamma = none
    | some γ => ∃ g : ℝ → ℝ, Jvp g s γ ∧ ∀ r, (P r).gamma = some (g r)

end Spec
end JaxCosmo
