import Verif.Model.Core

/-! # Curvature against a fluid that dilutes like it (C156) -/

namespace JaxCosmo.Spec
open JaxCosmo

/-- Two universes that differ only in how much of their density is curvature and how much is a fluid
with equation of state `-1/3`, which dilutes in the same way. -/
structure Sliding (p q : Params) : Prop where
  w0_left : p.w0 = -1 / 3
  wa_left : p.wa = 0
  same : q = { p with Omega_k := q.Omega_k }

end JaxCosmo.Spec
