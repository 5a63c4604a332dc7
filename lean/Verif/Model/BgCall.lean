import Verif.Model.Background

/-! # The background functions as calls on an object -/

namespace JaxCosmo

/-- A background call with default table settings (`background.py:199-440`). -/
inductive BgCall
  | chi (a : ArrayLike)
  | ofChi (c : ArrayLike)
  | transverse (a : ArrayLike)
  | angular (a : ArrayLike)
  | growth (a : ArrayLike)
  | rate (a : ArrayLike)

/-- One call on an object: the object afterwards and the outcome. -/
noncomputable def BgCall.run (o : Cosmology) : BgCall → Cosmology × Except PyErr (List ℝ)
  | .chi a => radialComovingDistance o a
  | .ofChi c => aOfChi o c
  | .transverse a => transverseComovingDistance o a
  | .angular a => angularDiameterDistance o a
  | .growth a => growthFactor o a
  | .rate a => growthRate o a

end JaxCosmo
