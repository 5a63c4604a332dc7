import Verif.Model.BatchCl
import Verif.Proofs.BatchHalofit
import Mathlib.Data.List.GetD

/-! # Kernels on arrays of redshifts, column by column -/

namespace JaxCosmo
open Spec

/-! ## Array operations -/

namespace Nd
variable {α β γ : Type*}

theorem ent_row {x : Nd α} {n : ℕ} (hx : x.shape = [n]) {j : ℕ} (hj : j < n) (t : List ℕ) : x.ent (j :: t) = x.val [j] := by
  rw [ent, hx]
  by_cases h : n = 1
  · have : j = 0 := by omega
    simp [bix, h, this]
  · simp [bix, h]

theorem ent_mat {x : Nd α} {n m : ℕ} (hx : x.shape = [n, m]) {j i : ℕ} (hj : j < n) (hi : i < m) :
    x.ent [j, i] = x.val [j, i] := by
  rw [ent, hx, bix_of_in (.cons hj (.cons hi .nil))]

theorem ent_scalar {x : Nd α} (hx : x.shape = []) (i : List ℕ) : x.ent i = x.val [] := by
  rw [ent, hx]; rfl

theorem map2_row (f : α → β → γ) {x : Nd α} {y : Nd β} {n : ℕ} (hx : x.shape = [n]) (hy : y.shape = [n]) :
    ∃ z, map2 f x y = .ok z ∧ z.shape = [n] ∧ ∀ j < n, z.val [j] = f (x.val [j]) (y.val [j]) := by
  refine ⟨_, map2_ok (s := [n]) f (by rw [hx, hy]; exact bshape_self _), rfl, fun j hj => ?_⟩
  rw [← ent_row hx hj [], ← ent_row hy hj []]

theorem map2_mat_row (f : α → β → γ) {x : Nd α} {y : Nd β} {n m : ℕ} (hx : x.shape = [n, m]) (hy : y.shape = [n]) :
    ∃ z, map2 f x y = .ok z ∧ z.shape = [n, m] ∧ ∀ j < n, ∀ i < m, z.val [j, i] = f (x.val [j, i]) (y.val [j]) := by
  refine ⟨_, map2_ok (s := [n, m]) f (by rw [hx, hy]; simp [bshape, bdim_self]), rfl, fun j hj i hi => ?_⟩
  rw [← ent_mat hx hj hi, ← ent_row hy hj [i]]

theorem map2_row_mat (f : α → β → γ) {x : Nd α} {y : Nd β} {n m : ℕ} (hx : x.shape = [n]) (hy : y.shape = [n, m]) :
    ∃ z, map2 f x y = .ok z ∧ z.shape = [n, m] ∧ ∀ j < n, ∀ i < m, z.val [j, i] = f (x.val [j]) (y.val [j, i]) := by
  refine ⟨_, map2_ok (s := [n, m]) f (by rw [hx, hy]; simp [bshape, bdim_self]), rfl, fun j hj i hi => ?_⟩
  rw [← ent_mat hy hj hi, ← ent_row hx hj [i]]

theorem stack0_rows {xs : List (Nd ℝ)} {n : ℕ} (h0 : xs ≠ []) (h : ∀ x ∈ xs, x.shape = [n]) :
    ∃ z, stack0 xs = .ok z ∧ z.shape = [n, xs.length] ∧ ∀ j i (hi : i < xs.length), z.val [j, i] = xs[i].val [j] := by
  cases xs with
  | nil => exact absurd rfl h0
  | cons x l =>
    have hall : ∀ y ∈ l, y.shape = x.shape := fun y hy => by rw [h y (by simp [hy]), h x (by simp)]
    simp only [stack0]
    rw [if_pos hall]
    refine ⟨_, rfl, by simp [h x (by simp)], fun j i hi => ?_⟩
    change ((x :: l).getD i x).val [j] = _
    rw [List.getD_eq_getElem _ _ hi]

end Nd

theorem mapM_ok {α β : Type} {f : α → Except PyErr β} {g : α → β} (l : List α) (h : ∀ a ∈ l, f a = .ok (g a)) :
    l.mapM f = .ok (l.map g) := by
  induction l with
  | nil => rfl
  | cons a l ih =>
    rw [List.mapM_cons, h a (by simp), ih fun b hb => h b (by simp [hb])]
    rfl

/-- Rows computed one by one and stacked. -/
theorem stack_mapM {α : Type} {f : α → Except PyErr (Nd ℝ)} {n : ℕ} {v : α → ℕ → ℝ} {l : List α} (h0 : l ≠ [])
    (h : ∀ a ∈ l, ∃ y, f a = .ok y ∧ y.shape = [n] ∧ ∀ j < n, y.val [j] = v a j) :
    ∃ rows z, l.mapM f = .ok rows ∧ Nd.stack0 rows = .ok z ∧ z.shape = [n, l.length] ∧
      ∀ j < n, ∀ i (hi : i < l.length), z.val [j, i] = v l[i] j := by
  classical
  have h' : ∀ a : α, ∃ y, a ∈ l → f a = .ok y ∧ y.shape = [n] ∧ ∀ j < n, y.val [j] = v a j := by
    intro a
    by_cases ha : a ∈ l
    · obtain ⟨y, hy⟩ := h a ha
      exact ⟨y, fun _ => hy⟩
    · exact ⟨.scalar 0, fun h => absurd h ha⟩
  choose g hg using h'
  obtain ⟨z, hz1, hz2, hz3⟩ := Nd.stack0_rows (xs := l.map g) (n := n) (by simpa using h0) (by
    intro x hx
    obtain ⟨a, ha, rfl⟩ := List.mem_map.1 hx
    exact (hg a ha).2.1)
  refine ⟨_, z, mapM_ok l fun a ha => (hg a ha).1, hz1, by simpa using hz2, fun j hj i hi => ?_⟩
  rw [hz3 j i (by simpa using hi), List.getElem_map, (hg _ (List.getElem_mem hi)).2.2 j hj]

/-! ## Distances, redshift distributions, biases -/

theorem chiTable_n256 (p : Params) : (chiTable p (-3) 256).n = 256 := rfl

theorem chiNd_row (p : Params) {a : Nd ℝ} {n : ℕ} (ha : a.shape = [n]) :
    ∃ y, chiNd p a = .ok y ∧ y.shape = [n] ∧ ∀ j, y.val [j] = chiOf p (a.val [j]) := by
  have e : a.atleast1d = a := by
    unfold Nd.atleast1d
    rw [ha]
  obtain ⟨y, h1, h2, h3⟩ := interpNd_col (n := (chiTable p (-3) 256).n) (by rw [chiTable_n256]; norm_num)
    (chiTable p (-3) 256).a (chiTable p (-3) 256).chi (x := a) (s := []) (r := n) ha (by simp)
  refine ⟨y.map fun x => clipLo x 0, ?_, by rw [← ha, ← h2]; rfl, fun j => ?_⟩
  · unfold chiNd
    simp only [e, h1]
    rfl
  · have := h3 j
    change clipLo (y.val [j]) 0 = _
    rw [show y.val [j] = _ from this]
    rfl

theorem chiNd_scalar (p : Params) {a : Nd ℝ} (ha : a.shape = []) :
    ∃ y, chiNd p a = .ok y ∧ y.shape = [1] ∧ y.val [0] = chiOf p (a.val []) := by
  have e : a.atleast1d = { shape := [1], val := fun _ => a.val [] } := by
    unfold Nd.atleast1d
    rw [ha]
  obtain ⟨y, h1, h2, h3⟩ := chiNd_row p (a := { shape := [1], val := fun _ => a.val [] }) (n := 1) rfl
  refine ⟨y, ?_, h2, h3 0⟩
  rw [← h1]
  unfold chiNd
  rw [e]
  rfl

theorem growthNd_row (p : Params) {a : Nd ℝ} {n : ℕ} (ha : a.shape = [n]) :
    ∃ y, growthNd p a = .ok y ∧ y.shape = [n] ∧ ∀ j, y.val [j] = growthOf p (a.val [j]) := by
  obtain ⟨y, h1, h2, h3⟩ := growthNd_col p (a := a) (s := []) (r := n) ha (by simp)
  exact ⟨y, h1, by rw [h2, ha], h3⟩

theorem sum_map_range {α : Type*} (l : List α) (d : α) (g : α → ℝ) :
    (l.map g).sum = ∑ c ∈ Finset.range l.length, g (l.getD c d) := by
  induction l with
  | nil => simp
  | cons a l ih =>
    rw [List.map_cons, List.sum_cons, ih, List.length_cons, Finset.sum_range_succ']
    simp [add_comm]

theorem pzNd_row (nz : Nz) {z : Nd ℝ} {n : ℕ} (hz : z.shape = [n]) :
    ∃ y, nz.pzNd z = .ok y ∧ y.shape = [n] ∧ ∀ j < n, y.val [j] = nz.pzFn (z.val [j]) := by
  induction nz generalizing z with
  | smail a b z0 _ _ => exact ⟨_, rfl, hz, fun j _ => rfl⟩
  | delta z0 _ _ => exact ⟨_, rfl, hz, fun j _ => rfl⟩
  | user pz _ _ => exact ⟨_, rfl, hz, fun j _ => rfl⟩
  | shift parent bias _ _ ih => exact ih (z := z.map fun z => clipLo (z - bias) 0) hz
  | kde cat bw _ _ =>
    unfold Nz.pzNd
    have hb : bshape (Nd.vec cat.length fun c => (cat.map fun e => e.1).getD c 0).expand1.shape z.shape
        = some [n, cat.length] := by
      rw [hz]
      change bshape [1, cat.length] [n] = _
      simp [bshape, bdim_one]
    simp only [Nd.map2_ok (Nz.kdeKernel bw) hb, okBind']
    unfold Nd.dotVec
    rw [if_pos (by simp [Nd.transpose])]
    refine ⟨_, rfl, by simp [Nd.map, Nd.transpose], fun j hj => ?_⟩
    simp only [Nd.map, Nd.transpose, Nz.pzFn, List.length_map, List.reverse_cons, List.reverse_nil, List.nil_append,
      List.singleton_append]
    rw [sum_map_range cat (0, 0) fun e => Nz.kdeKernel bw e.1 (z.val [j]) * e.2]
    congr 1
    refine Finset.sum_congr rfl fun c hc => ?_
    have hc := Finset.mem_range.1 hc
    rw [Nd.ent_row hz hj [c]]
    have e : (Nd.vec cat.length fun c => (cat.map fun e => e.1).getD c 0).expand1.ent [j, c]
        = (cat.map fun e => e.1).getD c 0 := by
      change (fun c => (cat.map fun e => e.1).getD c 0) ((bix [1, cat.length] [j, c]).tail.headD 0) = _
      by_cases h1 : cat.length = 1
      · have : c = 0 := by omega
        simp [bix, h1, this]
      · simp [bix, h1]
    rw [e]
    simp only [List.getD_eq_getElem _ _ hc, List.getD_eq_getElem _ _ (show c < (cat.map fun e => e.1).length by simpa using hc),
      List.getD_eq_getElem _ _ (show c < (cat.map fun e => e.2).length by simpa using hc), List.getElem_map]

theorem callNd_row (nz : Nz) {z : Nd ℝ} {n : ℕ} (hz : z.shape = [n]) :
    ∃ y, nz.callNd z = .ok y ∧ y.shape = [n] ∧ ∀ j < n, y.val [j] = nz.eval (z.val [j]) := by
  obtain ⟨y, h1, h2, h3⟩ := pzNd_row nz hz
  have hnorm : ∃ N : Nd ℝ, nz.normNd = .ok N ∧ N.shape = [] ∧
      N.val [] = (if nz.isDelta then 1 else nz.computedNorm) := by
    unfold Nz.normNd
    by_cases hd : nz.isDelta = true
    · simp only [hd, if_true]
      exact ⟨_, rfl, rfl, rfl⟩
    · simp only [hd]
      obtain ⟨w, k1, k2, k3⟩ := pzNd_row nz (z := Nd.vec (256 + 1) (linspace 0 nz.zmax (256 + 1))) rfl
      obtain ⟨S, s1, s2, s3⟩ := simpsNd_ok (t := []) k1 k2
      exact ⟨S, s1, s2, s3 [] _ fun j hj => k3 j (by omega)⟩
  obtain ⟨N, n1, n2, n3⟩ := hnorm
  unfold Nz.callNd
  rw [n1]
  simp only [okBind', h1]
  refine ⟨_, Nd.map2_ok (s := [n]) _ (by rw [h2, n2]; exact bshape_nil _), rfl, fun j hj => ?_⟩
  change y.ent [j] / N.ent [j] = _
  rw [Nd.ent_row h2 hj, Nd.ent_scalar n2, h3 j hj, n3]
  unfold Nz.eval NzObj.call NzObj.new
  by_cases hd : nz.isDelta = true <;> simp [hd]

theorem biasCallNd_row (p : Params) (b : Bias) {z : Nd ℝ} {n : ℕ} (hz : z.shape = [n]) :
    ∃ y, b.callNd p z = .ok y ∧ y.shape = [n] ∧ ∀ j < n, y.val [j] = b.call p (z.val [j]) := by
  cases b with
  | constant b => exact ⟨_, rfl, hz, fun j _ => rfl⟩
  | desY1 A eta z0 => exact ⟨_, rfl, hz, fun j _ => rfl⟩
  | invGrowth b =>
    obtain ⟨y, h1, h2, h3⟩ := growthNd_row p (a := z.map z2a) hz
    refine ⟨y.map (b / ·), ?_, h2, fun j _ => ?_⟩
    · unfold Bias.callNd
      rw [h1]
      rfl
    · change b / y.val [j] = _
      rw [h3]
      rfl

end JaxCosmo
