import Verif.Model.AngularCl
import Verif.Spec.AngularCl
import Verif.Proofs.Lists
import Mathlib.Data.List.GetD

/-! # C54, C55: ordering of spectra and of covariance blocks -/

namespace JaxCosmo
open Spec

/-! ## C54 -/

theorem mem_clIndex {N i j : ℕ} : (i, j) ∈ clIndex N ↔ i ≤ j ∧ j < N := by
  simp only [clIndex, List.mem_flatMap, List.mem_range, List.mem_map, List.mem_range'_1,
    Prod.mk.injEq]
  constructor
  · rintro ⟨a, ha, b, hb, rfl, rfl⟩; omega
  · rintro ⟨h1, h2⟩; exact ⟨i, by omega, j, by omega, rfl, rfl⟩

/-- Number of pairs in the first `i` rows. -/
theorem length_rows (N i : ℕ) (hi : i ≤ N) :
    ((List.range i).flatMap fun i => (List.range' i (N - i)).map fun j => (i, j)).length
      = i * N - i * (i - 1) / 2 ∧ i * (i - 1) / 2 ≤ i * N := by
  induction i with
  | zero => simp
  | succ i ih =>
    obtain ⟨h1, h2⟩ := ih (by omega)
    rw [List.range_succ, List.flatMap_append, List.length_append, h1, Nat.triangle_succ,
      Nat.succ_mul]
    simp only [List.flatMap_cons, List.flatMap_nil, List.append_nil, List.length_map,
      List.length_range']
    omega

theorem nTracers_eq (probes : List Probe) : nTracers probes = (tracers probes).length := by
  simp only [nTracers, tracers, List.length_flatMap, List.length_map, List.length_range]
  rfl

/-- C54: there are `N (N + 1) / 2` spectra. -/
theorem C54_count (probes : List Probe) :
    (getClOrdering probes).length = pairCount (tracers probes).length := by
  have hN := nTracers_eq probes
  unfold getClOrdering
  rw [hN]
  set N := (tracers probes).length
  obtain ⟨h1, h2⟩ := length_rows N N le_rfl
  rw [clIndex, h1, pairCount]
  have h3 := Nat.triangle_succ N
  rw [Nat.add_sub_cancel] at h3
  have e1 : N * (N + 1) / 2 = N * (N - 1) / 2 + N := by rw [Nat.mul_comm]; exact h3
  have e2 : 2 * (N * (N - 1) / 2) = N * (N - 1) :=
    Nat.mul_div_cancel' (Nat.even_mul_pred_self N).two_dvd
  have e3 : N * N = N * (N - 1) + N := by
    cases N with
    | zero => rfl
    | succ n => simp only [Nat.add_sub_cancel]; ring
  omega

/-- C54: the pair `(i, j)`, `i ≤ j`, sits at position `i N - i (i - 1) / 2 + (j - i)`. -/
theorem clIndex_pairPos {N i j : ℕ} (hij : i ≤ j) (hj : j < N) :
    (clIndex N)[pairPos N i j]? = some (i, j) := by
  have hs : List.range N = List.range i ++ (i :: List.range' (i + 1) (N - i - 1)) := by
    rw [List.range_eq_range', List.range_eq_range', ← List.range'_succ, Nat.sub_add_cancel
      (by omega : 1 ≤ N - i)]
    have := List.range'_append_1 (s := 0) (m := i) (n := N - i)
    rw [Nat.zero_add] at this
    rw [this]
    congr 1; omega
  obtain ⟨h1, h2⟩ := length_rows N i (by omega)
  unfold clIndex
  rw [hs, List.flatMap_append, List.getElem?_append_right]
  · rw [h1]
    have : pairPos N i j - (i * N - i * (i - 1) / 2) = j - i := by
      simp only [pairPos, min_eq_left hij, max_eq_right hij]; omega
    rw [this, List.flatMap_cons, List.getElem?_append_left (by simp; omega)]
    simp [List.getElem?_range' (show j - i < N - i by omega)]
    omega
  · rw [h1]
    simp only [pairPos, min_eq_left hij, max_eq_right hij]; omega

theorem pairPos_comm (N i j : ℕ) : pairPos N i j = pairPos N j i := by
  simp only [pairPos, min_comm, max_comm]

theorem clIndex_nodup (N : ℕ) : (clIndex N).Nodup := by
  unfold clIndex
  rw [List.nodup_flatMap]
  refine ⟨fun i _ => (List.nodup_range' (step := 1)).map fun a b h => by simpa using h, ?_⟩
  refine List.nodup_range.imp ?_
  intro a b hab
  simp only [Function.onFun, List.disjoint_left, List.mem_map, not_exists, not_and]
  rintro x ⟨y, _, rfl⟩ z _ h
  simp only [Prod.mk.injEq] at h
  exact hab h.1.symm

/-- C54: every pair `i ≤ j` of tracers, and nothing else, is listed, exactly once, the pair
`(i, j)` at its position in the row-by-row reading of the upper triangle. -/
theorem C54_enumerates (probes : List Probe) :
    (getClOrdering probes).Nodup ∧
    (∀ i j, (i, j) ∈ getClOrdering probes ↔ i ≤ j ∧ j < (tracers probes).length) ∧
    (∀ i j, i ≤ j → j < (tracers probes).length →
      (getClOrdering probes)[i * (tracers probes).length - i * (i - 1) / 2 + (j - i)]?
        = some (i, j)) := by
  have hN := nTracers_eq probes
  unfold getClOrdering
  rw [hN]
  refine ⟨clIndex_nodup _, fun i j => mem_clIndex, fun i j hij hj => ?_⟩
  have := clIndex_pairPos hij hj
  rwa [pairPos, min_eq_left hij, max_eq_right hij] at this

/-- Witness: one lensing probe with two bins and one clustering probe with one bin. -/
example (b1 b2 b3 : Nz) : getClOrdering [.wl (.init [b1, b2]), .nc (.init [b3] (.bias (.constant 1)))]
    = [(0, 0), (0, 1), (0, 2), (1, 1), (1, 2), (2, 2)] := by
  simp [getClOrdering, nTracers, Probe.nTracers, Probe.bins, WeakLensing.init, NumberCounts.init,
    clIndex, List.range_succ]
  rfl

/-! ## C55 -/

theorem idxOf_pairPos {N i j : ℕ} (hij : i ≤ j) (hj : j < N) :
    (clIndex N).idxOf (i, j) = pairPos N i j := by
  obtain ⟨h, e⟩ := List.getElem?_eq_some_iff.1 (clIndex_pairPos hij hj)
  rw [← e]
  exact (clIndex_nodup N).idxOf_getElem _ _

/-- The lookup finds the spectrum of any two tracers, irrespective of order. -/
theorem findIndex_ok {N a b : ℕ} (ha : a < N) (hb : b < N) :
    findIndex (clIndex N) a b = .ok (pairPos N a b) := by
  unfold findIndex
  rcases le_or_gt a b with h | h
  · rw [if_pos (mem_clIndex.2 ⟨h, hb⟩), idxOf_pairPos h hb]
  · rw [if_neg (fun hc => by have := (mem_clIndex.1 hc).1; omega),
      if_pos (mem_clIndex.2 ⟨h.le, ha⟩), idxOf_pairPos h.le ha, pairPos_comm]

theorem length_clIndex (N : ℕ) : (clIndex N).length = pairCount N := by
  have h := C54_count [.wl (.init (List.replicate N (.delta 0 0 0)))]
  simpa [getClOrdering, nTracers, Probe.nTracers, Probe.bins, WeakLensing.init, tracers] using h

theorem pairPos_lt {N i j : ℕ} (hi : i < N) (hj : j < N) : pairPos N i j < pairCount N := by
  rw [← length_clIndex]
  rcases le_total i j with h | h
  · exact (List.getElem?_eq_some_iff.1 (clIndex_pairPos h hj)).1
  · rw [pairPos_comm]; exact (List.getElem?_eq_some_iff.1 (clIndex_pairPos h hi)).1

/-- The list of blocks, spelled out. -/
theorem covBlocks_eq (N : ℕ) : covBlocks (clIndex N) = .ok
    (((clIndex N).flatMap fun ij => (clIndex N).map fun mn => (ij, mn)).map fun e =>
      (pairPos N e.1.1 e.2.1, pairPos N e.1.2 e.2.2, pairPos N e.1.1 e.2.2,
        pairPos N e.1.2 e.2.1)) := by
  refine mapM_ok_of ?_
  rintro ⟨⟨i, j⟩, ⟨m, n⟩⟩ h
  simp only [List.mem_flatMap, List.mem_map, Prod.mk.injEq] at h
  obtain ⟨⟨i', j'⟩, h1, ⟨m', n'⟩, h2, ⟨rfl, rfl⟩, rfl, rfl⟩ := h
  have a := mem_clIndex.1 h1
  have b := mem_clIndex.1 h2
  simp only
  rw [findIndex_ok (by omega) (by omega), findIndex_ok (by omega) (by omega),
    findIndex_ok (by omega) (by omega), findIndex_ok (by omega) (by omega)]
  rfl

theorem getElem?_product {α β : Type*} (l : List α) (l' : List β) {r s : ℕ} {x : α} {y : β}
    (hr : l[r]? = some x) (hs : l'[s]? = some y) :
    (l.flatMap fun a => l'.map fun b => (a, b))[r * l'.length + s]? = some (x, y) := by
  induction l generalizing r with
  | nil => simp at hr
  | cons a l ih =>
    have hs' : s < l'.length := (List.getElem?_eq_some_iff.1 hs).1
    rw [List.flatMap_cons]
    cases r with
    | zero =>
      rw [List.getElem?_append_left (by simpa using hs')]
      simp only [List.getElem?_cons_zero, Option.some.injEq] at hr
      simp [hs, hr]
    | succ r =>
      rw [List.getElem?_append_right (by simp only [List.length_map]; rw [Nat.succ_mul]; omega)]
      rw [List.length_map, show (r + 1) * l'.length + s - l'.length = r * l'.length + s by
        rw [Nat.succ_mul]; omega]
      exact ih (by simpa using hr)

/-- C55: a pair that is in the list in neither order is reported, as `list.index` does. -/
theorem C55_missing (cl : List (ℕ × ℕ)) (a b : ℕ) (h1 : (a, b) ∉ cl) (h2 : (b, a) ∉ cl) :
    findIndex cl a b = .error .valueError := by
  rw [findIndex, if_neg h1, if_neg h2]

example : findIndex [(0, 0), (0, 1), (1, 1)] 2 0 = .error .valueError :=
  C55_missing _ _ _ (by decide) (by decide)

/-- C55: the lookup never fails; there is one block for each ordered pair of spectra; and the block
of the spectra `(i, j)` and `(m, n)` (row-major in their positions) refers to the spectra of the
pairs `{i, m}`, `{j, n}`, `{i, n}`, `{j, m}`, whichever way round these are stored. -/
theorem C55_blocks (probes : List Probe) :
    ∃ blocks, getCovBlocksOrdering probes = .ok blocks ∧
      blocks.length = pairCount (tracers probes).length * pairCount (tracers probes).length ∧
      ∀ I J i j m n, (getClOrdering probes)[I]? = some (i, j) →
        (getClOrdering probes)[J]? = some (m, n) →
        ∃ a b c d, blocks[I * (getClOrdering probes).length + J]? = some (a, b, c, d) ∧
          (getClOrdering probes)[a]? = some (min i m, max i m) ∧
          (getClOrdering probes)[b]? = some (min j n, max j n) ∧
          (getClOrdering probes)[c]? = some (min i n, max i n) ∧
          (getClOrdering probes)[d]? = some (min j m, max j m) := by
  have hN := nTracers_eq probes
  unfold getCovBlocksOrdering getClOrdering
  rw [hN]
  set N := (tracers probes).length
  refine ⟨_, covBlocks_eq N, ?_, ?_⟩
  · simp [List.length_flatMap, length_clIndex]
  · intro I J i j m n hI hJ
    have h1 := mem_clIndex.1 (List.mem_of_getElem? hI)
    have h2 := mem_clIndex.1 (List.mem_of_getElem? hJ)
    refine ⟨pairPos N i m, pairPos N j n, pairPos N i n, pairPos N j m, ?_, ?_, ?_, ?_, ?_⟩
    · rw [List.getElem?_map, getElem?_product _ _ hI hJ, Option.map_some]
    all_goals
      have key : ∀ a b, a < N → b < N →
          (clIndex N)[pairPos N a b]? = some (min a b, max a b) := by
        intro a b ha hb
        rcases le_total a b with h | h
        · rw [clIndex_pairPos h hb, min_eq_left h, max_eq_right h]
        · rw [pairPos_comm, clIndex_pairPos h ha, min_eq_right h, max_eq_left h]
      exact key _ _ (by omega) (by omega)

/-- Witness: two tracers, three spectra; block row 1 (spectrum (0,1)) and column 2 (spectrum
(1,1)) pairs (0,1),(1,1),(0,1),(1,1). -/
example : (covBlocks (clIndex 2)).map (·[1 * 3 + 2]?) = .ok (some (1, 2, 1, 2)) := by
  rw [covBlocks_eq]
  rfl

end JaxCosmo
