import Verif.Model.Numpy
import Mathlib.Data.List.Basic
import Mathlib.Data.List.Forall2

/-! # `mapM` in the exception monad -/

namespace JaxCosmo
variable {α β : Type*}

theorem mapM_cons_ok {f : α → Except PyErr β} {a : α} {l : List α} {ys : List β} :
    (a :: l).mapM f = .ok ys ↔ ∃ y ys', f a = .ok y ∧ l.mapM f = .ok ys' ∧ ys = y :: ys' := by
  rw [List.mapM_cons]
  rcases f a with e | y
  · simp [bind, Except.bind]
  · rcases l.mapM f with e | ys'
    · simp [bind, Except.bind]
    · simp only [bind, Except.bind, pure, Except.pure, Except.ok.injEq]
      constructor
      · rintro rfl; exact ⟨_, _, rfl, rfl, rfl⟩
      · rintro ⟨_, _, rfl, rfl, rfl⟩; rfl

/-- `mapM` returns iff every call returns, and collects the results in order. -/
theorem mapM_ok_iff {f : α → Except PyErr β} {l : List α} {ys : List β} :
    l.mapM f = .ok ys ↔ List.Forall₂ (fun x y => f x = .ok y) l ys := by
  induction l generalizing ys with
  | nil => simp [pure, Except.pure, eq_comm]
  | cons a l ih =>
    rw [mapM_cons_ok, List.forall₂_cons_left_iff]
    constructor
    · rintro ⟨y, ys', h1, h2, rfl⟩; exact ⟨y, ys', h1, ih.1 h2, rfl⟩
    · rintro ⟨y, ys', h1, h2, rfl⟩; exact ⟨y, ys', h1, ih.2 h2, rfl⟩

theorem mapM_length {f : α → Except PyErr β} {l : List α} {ys : List β}
    (h : l.mapM f = .ok ys) : ys.length = l.length := (mapM_ok_iff.1 h).length_eq.symm

theorem mapM_getElem {f : α → Except PyErr β} {l : List α} {ys : List β}
    (h : l.mapM f = .ok ys) (i : ℕ) (hi : i < l.length) :
    f l[i] = .ok (ys[i]'(by rw [mapM_length h]; exact hi)) :=
  List.Forall₂.get (mapM_ok_iff.1 h) hi (by rw [mapM_length h]; exact hi)

theorem mapM_ok_of {f : α → Except PyErr β} {g : α → β} {l : List α}
    (h : ∀ x ∈ l, f x = .ok (g x)) : l.mapM f = .ok (l.map g) := by
  rw [mapM_ok_iff, List.forall₂_map_right_iff]
  exact List.forall₂_same.2 h

theorem mapM_mem {f : α → Except PyErr β} {l : List α} {ys : List β}
    (h : l.mapM f = .ok ys) {x : α} (hx : x ∈ l) : ∃ y ∈ ys, f x = .ok y := by
  obtain ⟨i, hi, rfl⟩ := List.getElem_of_mem hx
  exact ⟨_, List.getElem_mem _, mapM_getElem h i hi⟩

theorem mapM_exists {f : α → Except PyErr β} {l : List α}
    (h : ∀ x ∈ l, ∃ y, f x = .ok y) : ∃ ys, l.mapM f = .ok ys := by
  induction l with
  | nil => exact ⟨[], rfl⟩
  | cons a l ih =>
    obtain ⟨y, hy⟩ := h a (by simp)
    obtain ⟨ys, hys⟩ := ih fun x hx => h x (by simp [hx])
    exact ⟨y :: ys, mapM_cons_ok.2 ⟨y, ys, hy, hys, rfl⟩⟩

theorem bind_ok {α β : Type} {f : Except PyErr α} {g : α → Except PyErr β} {y : β}
    (h : (f >>= g) = .ok y) : ∃ x, f = .ok x ∧ g x = .ok y := by
  rcases f with e | x
  · simp [bind, Except.bind] at h
  · exact ⟨x, rfl, h⟩

end JaxCosmo
