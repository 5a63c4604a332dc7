import Verif.Model.Probes
import Mathlib.Data.List.Sort
import Mathlib.Data.List.Perm.Basic
import Mathlib.Data.List.GetD

/-! # `argsort` of a permutation of `0 … n-1` is its inverse -/

namespace JaxCosmo

theorem argsort_perm (l : List ℕ) : (argsort l).Perm (List.range l.length) :=
  List.mergeSort_perm _ _

theorem getD_range_map (l : List ℕ) : (List.range l.length).map (fun i => l.getD i 0) = l := by
  apply List.ext_getElem
  · simp
  · intro i h1 h2
    simp only [List.getElem_map, List.getElem_range]
    exact List.getD_eq_getElem l 0 h2

/-- Reading a permutation of `range n` through its `argsort` gives `range n`. -/
theorem argsort_map (l : List ℕ) (n : ℕ) (h : l.Perm (List.range n)) :
    (argsort l).map (fun i => l.getD i 0) = List.range n := by
  have hp : ((argsort l).map (fun i => l.getD i 0)).Perm (List.range n) := by
    refine ((argsort_perm l).map _).trans ?_
    rw [getD_range_map]
    exact h
  have hs : ((argsort l).map (fun i => l.getD i 0)).Pairwise (· ≤ ·) := by
    rw [List.pairwise_map]
    have := List.pairwise_mergeSort (le := fun i j => decide (l.getD i 0 ≤ l.getD j 0))
      (fun a b c h1 h2 => by simp only [decide_eq_true_eq] at *; omega)
      (fun a b => by simp only [Bool.or_eq_true, decide_eq_true_eq]; omega) (List.range l.length)
    exact this.imp (fun h => by simpa using h)
  exact hp.eq_of_pairwise' hs (List.pairwise_le_range (n := n))

/-- Undoing the permutation: rows computed in the order `l`, then read through `argsort l`, are the
rows in the order `0 … n-1`. -/
theorem argsort_rows (l : List ℕ) (n : ℕ) (h : l.Perm (List.range n)) (row : ℕ → ℝ) :
    (argsort l).map (fun i => (l.map row).getD i 0) = (List.range n).map row := by
  rw [← argsort_map l n h, List.map_map]
  apply List.map_congr_left
  intro i hi
  have hi' : i < l.length := by
    have := (argsort_perm l).mem_iff.1 hi
    simpa using this
  rw [List.getD_eq_getElem _ _ (by simpa using hi'), List.getElem_map, Function.comp_apply,
    List.getD_eq_getElem _ _ hi']

theorem ext_delta_perm (pzs : List Nz) :
    (extIdx pzs ++ deltaIdx pzs).Perm (List.range pzs.length) := by
  unfold extIdx deltaIdx
  exact (List.perm_append_comm).trans
    (List.filter_append_perm (fun i => (pzs[i]?.map Nz.isDelta).getD false) (List.range pzs.length))

end JaxCosmo
