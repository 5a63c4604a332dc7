import Verif.Spec.JvpSpectra
import Verif.Props.Growth

/-! # Specification: surveys whose spectra are differentiated exactly -/

namespace JaxCosmo.Spec

/-- Distributions whose derivative is exact at every redshift (`C123`): the exponent of a Smail
distribution is at least one or its scale is not differentiated; a shifted one starts more than
linearly. -/
def GoodBin (s : ℝ) : NzTree Leaf → Prop
  | .smail a b z0 g zm => NzLeaves s (.smail a b z0 g zm) ∧ 0 < a.1 s ∧ 0 < b.1 s ∧ 0 < z0.1 s ∧ 0 < zm ∧
      (1 ≤ b.1 s ∨ z0.2.tan = none)
  | .kde cat bw g zm => NzLeaves s (.kde cat bw g zm) ∧ 0 < bw ∧ (∀ e ∈ cat, 0 ≤ e.2.1 s) ∧
      0 < (cat.map fun e => e.2.1 s).sum ∧ 0 < zm
  | .shift (.smail a b z0 g zm) β g' zm' => NzLeaves s (.shift (.smail a b z0 g zm) β g' zm') ∧
      1 < a.1 s ∧ 1 ≤ b.1 s ∧ 0 < z0.1 s ∧
      (nzAt (.shift (.smail a b z0 g zm) β g' zm') s).computedNorm ≠ 0
  | _ => False

/-- A source plane at a fixed redshift beyond 1/799. -/
def GoodPlane : NzTree Leaf → Prop
  | .delta z0 _ _ => ∃ c, z0 = Leaf.con c ∧ 1 / 799 ≤ c
  | _ => False

/-- Every bias among the arguments is defined: its pivot redshift is above minus one. -/
def GoodBias (s : ℝ) : BiasTree Leaf → Prop
  | .desY1 _ _ z0 => -1 < z0.1 s
  | _ => True

/-- The argument of a probe: its parameters are right and its biases defined. -/
def GoodVal (s : ℝ) (v : ValTree Leaf) : Prop :=
  ValLeaves s v ∧ match v with
    | .bias b => GoodBias s b
    | .biases bs => ∀ b ∈ bs, GoodBias s b
    | _ => True

/-- A probe made of such distributions; a lensing probe reaches at least redshift 1/3. -/
def GoodProbe (s : ℝ) : ProbeTree Leaf → Prop
  | .wl bins p1 p2 _ ia => ValLeaves s p1 ∧ (∀ t ∈ bins, GoodBin s t ∨ GoodPlane t) ∧
      (∀ zp, pyMax (bins.map NzTree.zmax) = .ok zp → 1 / 3 ≤ zp) ∧ (ia = true → ∀ v ∈ p2, GoodVal s v)
  | .nc bins b _ => GoodVal s b ∧ ∀ t ∈ bins, GoodBin s t ∨ GoodPlane t

/-- Galaxy densities that do not vanish. -/
def GoodCounts (s : ℝ) (t : ProbeTree Leaf) : Prop := ∀ b ∈ t.bins, b.gals.OK s ∧ b.gals.1 s ≠ 0

end JaxCosmo.Spec
