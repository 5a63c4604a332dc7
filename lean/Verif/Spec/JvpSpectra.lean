import Verif.Spec.Jvp
import Verif.Model.DualSpectra

/-! # Specification: derivatives through distributions, probes and arrays -/

namespace JaxCosmo.Spec

/-- A parameter of a distribution, bias or probe: as a function of the variable that is
differentiated, and as the number with tangent that the code works on. -/
abbrev Leaf := (ℝ → ℝ) × Du

/-- The number with tangent is right for the function. -/
def Leaf.OK (s : ℝ) (l : Leaf) : Prop := Jvp l.1 s l.2

/-- A parameter that does not move. -/
def Leaf.con (x : ℝ) : Leaf := (fun _ => x, Du.con x)

/-- A parameter with value `x` and derivative `v` at zero. -/
noncomputable def Leaf.var (x v : ℝ) : Leaf := (fun r => x + v * r, ⟨.fin x, some (.fin v)⟩)

/-- Every parameter of a distribution is right. -/
def NzLeaves (s : ℝ) : NzTree Leaf → Prop
  | .smail a b z0 g _ => a.OK s ∧ b.OK s ∧ z0.OK s ∧ g.OK s
  | .delta z0 g _ => z0.OK s ∧ g.OK s
  | .kde cat _ g _ => (∀ e ∈ cat, e.1.OK s ∧ e.2.OK s) ∧ g.OK s
  | .shift parent b g _ => NzLeaves s parent ∧ b.OK s ∧ g.OK s

/-- Every parameter of a bias is right. -/
def BiasLeaves (s : ℝ) : BiasTree Leaf → Prop
  | .constant b => b.OK s
  | .invGrowth b => b.OK s
  | .desY1 A eta z0 => A.OK s ∧ eta.OK s ∧ z0.OK s

/-- Every parameter of an optional argument is right. -/
def ValLeaves (s : ℝ) : ValTree Leaf → Prop
  | .none => True
  | .num x => x.OK s
  | .nums xs => ∀ x ∈ xs, x.OK s
  | .bias b => BiasLeaves s b
  | .biases bs => ∀ b ∈ bs, BiasLeaves s b

/-- The distribution at one value of the variable. -/
def nzAt (t : NzTree Leaf) (r : ℝ) : Nz := (t.map fun l => l.1 r).real
/-- The distribution with tangents. -/
def nzDual (t : NzTree Leaf) : NzTree Du := t.map Prod.snd
/-- The bias at one value of the variable. -/
def biasAt (t : BiasTree Leaf) (r : ℝ) : Bias := (t.map fun l => l.1 r).real
/-- The bias with tangents. -/
def biasDual (t : BiasTree Leaf) : BiasTree Du := t.map Prod.snd
/-- The argument at one value of the variable. -/
def valAt (t : ValTree Leaf) (r : ℝ) : Val := (t.map fun l => l.1 r).real
/-- The argument with tangents. -/
def valDual (t : ValTree Leaf) : ValTree Du := t.map Prod.snd
/-- The probe at one value of the variable. -/
def probeAt (t : ProbeTree Leaf) (r : ℝ) : Probe := (t.map fun l => l.1 r).real
/-- The probe with tangents. -/
def probeDual (t : ProbeTree Leaf) : ProbeTree Du := t.map Prod.snd

/-- A computation that may raise: it raises the same error all along, differentiated or not, or its
results are related by `R`. -/
def JvpE {α β : Type} (R : (ℝ → α) → β → Prop) (F : ℝ → Except PyErr α) (d : Except PyErr β) : Prop :=
  (∃ e, (∀ r, F r = .error e) ∧ d = .error e) ∨
    ∃ G g, (∀ r, F r = .ok (G r)) ∧ d = .ok g ∧ R G g

/-- A list of fixed length, every entry with its derivative. -/
def JvpList (s : ℝ) (G : ℝ → List ℝ) (g : List Du) : Prop :=
  ∃ L : List Leaf, (∀ l ∈ L, l.OK s) ∧ (∀ r, G r = L.map fun l => l.1 r) ∧ g = L.map Prod.snd

/-- A list of lists of fixed lengths, every entry with its derivative. -/
def JvpTable (s : ℝ) (G : ℝ → List (List ℝ)) (g : List (List Du)) : Prop :=
  ∃ L : List (List Leaf), (∀ q ∈ L, ∀ l ∈ q, l.OK s) ∧
    (∀ r, G r = L.map fun q => q.map fun l => l.1 r) ∧ g = L.map fun q => q.map Prod.snd

end JaxCosmo.Spec
