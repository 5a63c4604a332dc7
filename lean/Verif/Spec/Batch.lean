import Verif.Model.Batch

/-! # Specification: elementwise evaluation with broadcasting -/

namespace JaxCosmo

/-- The entry of an array that stands at an index of a larger array: axes of length one are repeated. -/
def Nd.ent {α : Type*} (x : Nd α) (i : List ℕ) : α := x.val (bix x.shape i)

namespace Spec

/-- An index of an array. -/
def InShape (s i : List ℕ) : Prop := List.Forall₂ (· < ·) i s

/-- Index without the axes of length one. -/
def squeezeIx : List ℕ → List ℕ → List ℕ
  | [], _ => []
  | m :: s, i => if m = 1 then squeezeIx s i.tail else i.headD 0 :: squeezeIx s i.tail

/-- Number of entries. -/
def len : NdArg → ℕ
  | .scalar _ => 1
  | .vec n _ => n

/-- Entry `j`; a single entry stands for all. -/
def item (x : NdArg) (j : ℕ) : ℝ :=
  match x with
  | .scalar x => x
  | .vec n f => if n = 1 then f 0 else f j

/-- Two arguments of lengths `m` and `n` give an array of length `d`. -/
def Broadcast (m n d : ℕ) : Prop := m = d ∧ n = d ∨ m = 1 ∧ n = d ∨ m = d ∧ n = 1

/-- An array of shape `(m, n)` has the columns `ls 0`, …, `ls (n - 1)`, of length `m`. -/
def IsCols (n m : ℕ) (R : Nd ℝ) (ls : ℕ → List ℝ) : Prop :=
  R.shape = [n, m] ∧ ∀ j, (ls j).length = m ∧ (j < n → ∀ i < m, R.val [j, i] = (ls j).getD i 0)

/-- The outcomes `X q` of a computation on an array with `n` entries agree with the outcomes `Y q j` of the computation
at the entries: the same exception, whatever `q`, or arrays with these columns. -/
def Columns {ι : Type} (n : ℕ) (X : ι → Except PyErr (Nd ℝ)) (Y : ι → ℕ → Except PyErr (List ℝ)) : Prop :=
  (∃ e, ∀ q, X q = .error e ∧ ∀ j, Y q j = .error e) ∨
    ∃ (m : ℕ) (R : ι → Nd ℝ) (ls : ι → ℕ → List ℝ), ∀ q, X q = .ok (R q) ∧ (∀ j, Y q j = .ok (ls q j)) ∧ IsCols n m (R q) (ls q)

/-- A computation on an array gives an array of the same shape holding the values of `f` at its entries. -/
def Each (a : Nd ℝ) (X : Except PyErr (Nd ℝ)) (f : ℝ → ℝ) : Prop :=
  ∃ R, X = .ok R ∧ R.shape = a.shape ∧ ∀ i, InShape a.shape i → R.val i = f (a.val i)

/-- A nonlinear power spectrum on two arrays of length `n` is the spectrum at their entries; an exception does not depend
on the entries. -/
def Elementwise (n : ℕ) (nlNd : Params → Nd ℝ → Nd ℝ → (ℝ → ℝ) → Except PyErr (Nd ℝ))
    (nl : Params → ℝ → ℝ → (ℝ → ℝ) → Except PyErr ℝ) : Prop :=
  ∀ (p : Params) (T : ℝ → ℝ) (α : ℕ → ℝ),
    (∃ e, ∀ k : Nd ℝ, k.shape = [n] → nlNd p k (.vec n α) T = .error e ∧ ∀ x j, nl p x (α j) T = .error e) ∨
    ∃ v : ℝ → ℝ → ℝ, (∀ x j, nl p x (α j) T = .ok (v x (α j))) ∧ ∀ k : Nd ℝ, k.shape = [n] →
      ∃ R, nlNd p k (.vec n α) T = .ok R ∧ R.shape = [n] ∧ ∀ j < n, R.val [j] = v (k.val [j]) (α j)

end Spec
end JaxCosmo
