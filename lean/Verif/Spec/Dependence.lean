import Verif.Model.Core

/-! # Which parameters a quantity may depend on (C149) -/

namespace JaxCosmo.Spec
open JaxCosmo

/-- The two universes expand in the same way and have the same growth index: total matter, curvature,
equation of state. They may differ in the Hubble constant, in the share of baryons, in the spectral
index and in the amplitude of the fluctuations. -/
structure SameExpansion (p q : Params) : Prop where
  matter : p.Omega_b + p.Omega_c = q.Omega_b + q.Omega_c
  curvature : p.Omega_k = q.Omega_k
  w0 : p.w0 = q.w0
  wa : p.wa = q.wa
  gamma : p.gamma = q.gamma

/-- In addition the same initial fluctuations: spectral index and amplitude. -/
structure SameFluctuations (p q : Params) : Prop extends SameExpansion p q where
  n_s : p.n_s = q.n_s
  sigma8 : p.sigma8 = q.sigma8

end JaxCosmo.Spec
