import Verif.Spec.Batch
import Verif.Proofs.Interp
import Mathlib.Tactic.Ring
import Mathlib.Tactic.Linarith

/-! # Array operations entry by entry -/

namespace JaxCosmo
open Spec

/-! ## Broadcasting -/

theorem bdim_self (m : ℕ) : bdim m m = some m := by simp [bdim]

theorem bdim_one (m : ℕ) : bdim 1 m = some m := by
  by_cases h : 1 = m
  · simp [bdim, h]
  · simp [bdim, h]

theorem bdim_one' (m : ℕ) : bdim m 1 = some m := by
  by_cases h : m = 1
  · simp [bdim, h]
  · simp [bdim, h]

theorem bshape_self (s : List ℕ) : bshape s s = some s := by
  induction s with
  | nil => rfl
  | cons m s ih => simp [bshape, bdim_self, ih]

theorem bshape_nil (s : List ℕ) : bshape s [] = some s := by cases s <;> rfl

theorem bix_bix (s i : List ℕ) : bix s (bix s i) = bix s i := by
  induction s generalizing i with
  | nil => rfl
  | cons m s ih =>
    simp only [bix, List.headD_cons, List.tail_cons, ih]
    by_cases h : m = 1 <;> simp [h]

theorem bix_length (s i : List ℕ) : (bix s i).length = s.length := by
  induction s generalizing i with
  | nil => rfl
  | cons m s ih => simp [bix, ih]

theorem bix_of_in {s i : List ℕ} (h : InShape s i) : bix s i = i := by
  induction h with
  | nil => rfl
  | @cons a b l₁ l₂ h _ ih =>
    simp only [bix, List.headD_cons, List.tail_cons, ih]
    by_cases hb : b = 1
    · have : a = 0 := by omega
      rw [if_pos hb, this]
    · rw [if_neg hb]

theorem bshape_left {s t u : List ℕ} (h : bshape s t = some u) (i : List ℕ) : bix s (bix u i) = bix s i := by
  induction s generalizing t u i with
  | nil => rfl
  | cons m s ih =>
    cases t with
    | nil =>
      rw [bshape_nil] at h
      obtain rfl := Option.some.inj h
      exact bix_bix _ _
    | cons n t =>
      simp only [bshape, Option.bind_eq_some_iff, Option.map_eq_some_iff] at h
      obtain ⟨d, hd, v, hv, rfl⟩ := h
      simp only [bix, List.headD_cons, List.tail_cons, ih hv]
      by_cases hm : m = 1
      · simp [hm]
      · have : d = m := by
          unfold bdim at hd
          split_ifs at hd <;> simp_all
        simp [this, hm]

theorem bshape_comm (s t : List ℕ) : bshape s t = bshape t s := by
  induction s generalizing t with
  | nil => rw [bshape_nil]; cases t <;> rfl
  | cons m s ih =>
    cases t with
    | nil => rfl
    | cons n t =>
      have : bdim m n = bdim n m := by
        unfold bdim
        split_ifs <;> simp_all
      simp [bshape, this, ih]

theorem bshape_right {s t u : List ℕ} (h : bshape s t = some u) (i : List ℕ) : bix t (bix u i) = bix t i :=
  bshape_left (by rwa [bshape_comm] at h) i

namespace Nd
variable {α β γ : Type*}

theorem map2_ok {x : Nd α} {y : Nd β} {s : List ℕ} (f : α → β → γ) (h : bshape x.shape y.shape = some s) :
    map2 f x y = .ok { shape := s, val := fun i => f (x.ent i) (y.ent i) } := by
  unfold map2
  rw [h]
  rfl

theorem ent_map (f : α → β) (x : Nd α) (i : List ℕ) : (x.map f).ent i = f (x.ent i) := rfl

/-- Shapes that fit into a 1-d array of length `d`. -/
def Fits (d : ℕ) (x : Nd α) : Prop := x.shape = [] ∨ x.shape = [1] ∨ x.shape = [d]

theorem map2_fits {d : ℕ} {x : Nd α} {y : Nd β} (f : α → β → γ) (hx : x.Fits d) (hy : y.Fits d) :
    ∃ z, map2 f x y = .ok z ∧ z.Fits d ∧ (x.shape = [d] ∨ y.shape = [d] → z.shape = [d]) ∧
      ∀ j, z.ent [j] = f (x.ent [j]) (y.ent [j]) := by
  have key : ∃ s, bshape x.shape y.shape = some s ∧ (s = [] ∨ s = [1] ∨ s = [d]) ∧
      (x.shape = [d] ∨ y.shape = [d] → s = [d]) := by
    by_cases h1 : d = 1
    · subst h1
      rcases hx with h | h | h <;> rcases hy with h' | h' | h' <;> rw [h, h'] <;>
        simp [bshape, bdim_self]
    · rcases hx with h | h | h <;> rcases hy with h' | h' | h' <;> rw [h, h'] <;>
        simp [bshape, bdim_one, bdim_one', bdim_self, h1]
  obtain ⟨s, hs, hf, hd⟩ := key
  refine ⟨_, map2_ok f hs, hf, hd, fun j => ?_⟩
  change f (x.val (bix x.shape (bix s [j]))) (y.val (bix y.shape (bix s [j]))) = _
  rw [bshape_left hs, bshape_right hs]
  rfl

end Nd

/-! ## Tables -/

section Tables
variable {K : Type*} [Field K] [LinearOrder K]

theorem argminUpTo_congr {d e : ℕ → K} {m : ℕ} (h : ∀ i ≤ m, d i = e i) : argminUpTo d m = argminUpTo e m := by
  induction m with
  | zero => rfl
  | succ m ih =>
    have ih := ih fun i hi => h i (by omega)
    rw [argminUpTo, argminUpTo, ih, h (m + 1) le_rfl, h _ ((argminUpTo_le e m).trans (by omega))]

theorem ix_lt {n : ℕ} (hn : 0 < n) (i : ℤ) : ix n i < n := by
  unfold ix
  split_ifs <;> omega

/-- Only entries of the tables matter. -/
theorem interp_congr {n : ℕ} (hn : 0 < n) {xp fp xp' fp' : ℕ → K} (hx : ∀ i < n, xp i = xp' i)
    (hf : ∀ i < n, fp i = fp' i) (x : K) : interp n xp fp x = interp n xp' fp' x := by
  have ha : argmin n (fun i => (x - xp i) ^ 2) = argmin n fun i => (x - xp' i) ^ 2 :=
    argminUpTo_congr fun i hi => by simp only [hx i (by omega)]
  unfold interp
  simp only [ha, hx _ (ix_lt hn _), hf _ (ix_lt hn _)]

end Tables

theorem growthTable_n (p : Params) : (growthTable p).n = 128 := by
  unfold growthTable
  cases p.gamma <;> rfl

/-! ## `interp` -/

theorem bshape_ones {s : List ℕ} (h : ∀ m ∈ s, m = 1) (n : ℕ) :
    bshape s [n] = some (n :: s.tail) := by
  cases s with
  | nil => rfl
  | cons m s =>
    rw [h m (by simp)]
    simp [bshape, bdim_one, bshape_nil]

theorem bix_ones {s : List ℕ} (h : ∀ m ∈ s, m = 1) (i : List ℕ) : bix s i = List.replicate s.length 0 := by
  induction s generalizing i with
  | nil => rfl
  | cons m s ih =>
    rw [bix, if_pos (h m (by simp)), ih (fun m hm => h m (by simp [hm])), List.length_cons, List.replicate_succ]

theorem prod_ones {s : List ℕ} (h : ∀ m ∈ s, m = 1) : s.prod = 1 := List.prod_eq_one h

/-- On an array with one entry the body of `interp` is `interp`. -/
theorem interpBody_one {n : ℕ} (hn : 0 < n) (xp fp : ℕ → ℝ) {x : Nd ℝ} (h : ∀ m ∈ x.shape, m = 1) :
    ∃ y, interpBody n xp fp x = .ok y ∧ y.shape = x.shape ∧
      y.val (List.replicate x.shape.length 0) = interp n xp fp (x.val (List.replicate x.shape.length 0)) := by
  have hb := bshape_ones h n
  rw [interpBody, Nd.map2_ok (y := .vec n xp) _ hb]
  refine ⟨_, rfl, rfl, ?_⟩
  set x0 := x.val (List.replicate x.shape.length 0) with hx0
  set d : Nd ℝ := { shape := n :: x.shape.tail, val := fun i => (x.ent i - (Nd.vec n xp).ent i) ^ 2 } with hd
  have hs : d.size = n := by
    have : (x.shape.tail).prod = 1 := prod_ones fun m hm => h m (List.mem_of_mem_tail hm)
    simp [Nd.size, hd, this]
  have hv : ∀ i < n, d.val (unravel d.shape i) = (x0 - xp i) ^ 2 := by
    intro i hi
    simp only [hd, unravel, Nd.ent, bix_ones h, Nd.vec, bix, List.headD_cons, Nat.mod_eq_of_lt hi]
    by_cases h1 : n = 1
    · have : i = 0 := by omega
      simp [h1, this, hx0]
    · simp [h1, hx0]
  have ha : argmin d.size (fun i => d.val (unravel d.shape i)) = argmin n fun i => (x0 - xp i) ^ 2 := by
    rw [hs]
    exact argminUpTo_congr fun i hi => hv i (by omega)
  simp only [ha, Nd.map, interp]
  rfl

/-- `vmap` of a function that succeeds on every slice with the same shape. -/
theorem vmap_ok {α : Type*} {f : Nd α → Except PyErr (Nd ℝ)} {x : Nd α} {s t : List ℕ} {r : ℕ} (hx : x.shape = s ++ [r])
    {y : ℕ → Nd ℝ} (hf : ∀ j, f (x.at0 j) = .ok (y j)) (ht : (y 0).shape = t) :
    ∃ z, x.vmap f = .ok z ∧ z.shape = t ++ [r] ∧ ∀ i j, z.val (i ++ [j]) = (y j).val i := by
  have hl : x.shape.getLast? = some r := by simp [hx]
  unfold Nd.vmap
  rw [hl]
  simp only [hf]
  exact ⟨_, rfl, by rw [ht], fun i j => by simp⟩

theorem interpNd_col {n : ℕ} (hn : 0 < n) (xp fp : ℕ → ℝ) {x : Nd ℝ} {s : List ℕ} {r : ℕ} (hx : x.shape = s ++ [r])
    (hs : ∀ m ∈ s, m = 1) :
    ∃ y, interpNd n xp fp x = .ok y ∧ y.shape = x.shape ∧
      ∀ j, y.val (List.replicate s.length 0 ++ [j]) = interp n xp fp (x.val (List.replicate s.length 0 ++ [j])) := by
  have hsh : ∀ j, (x.at0 j).shape = s := fun j => by simp [Nd.at0, hx]
  have h1 : ∀ j, ∃ y, interpBody n xp fp (x.at0 j) = .ok y ∧ y.shape = s ∧
      y.val (List.replicate s.length 0) = interp n xp fp (x.val (List.replicate s.length 0 ++ [j])) := by
    intro j
    have := interpBody_one hn xp fp (x := x.at0 j) (by rw [hsh]; exact hs)
    rw [hsh] at this
    exact this
  choose y hy1 hy2 hy3 using h1
  obtain ⟨z, hz1, hz2, hz3⟩ := vmap_ok hx hy1 (hy2 0)
  exact ⟨z, hz1, by rw [hz2, hx], fun j => by rw [hz3, hy3]⟩

theorem growthNd_col (p : Params) {a : Nd ℝ} {s : List ℕ} {r : ℕ} (ha : a.shape = s ++ [r]) (hs : ∀ m ∈ s, m = 1) :
    ∃ g, growthNd p a = .ok g ∧ g.shape = a.shape ∧
      ∀ j, g.val (List.replicate s.length 0 ++ [j]) = growthOf p (a.val (List.replicate s.length 0 ++ [j])) := by
  obtain ⟨y, h1, h2, h3⟩ := interpNd_col (n := (growthTable p).n) (by rw [growthTable_n]; norm_num) (growthTable p).a
    (growthTable p).g ha hs
  refine ⟨y.map fun x => clip x 0 1, by rw [growthNd, h1]; rfl, h2, fun j => ?_⟩
  change clip (y.val _) 0 1 = _
  rw [h3]
  rfl

/-- Entries of a column that fits into an index. -/
theorem bix_col {s : List ℕ} (hs : ∀ m ∈ s, m = 1) (r : ℕ) (i : List ℕ) :
    ∃ j, bix (s ++ [r]) i = List.replicate s.length 0 ++ [j] := by
  induction s generalizing i with
  | nil => exact ⟨_, rfl⟩
  | cons m s ih =>
    obtain ⟨j, hj⟩ := ih (fun m hm => hs m (by simp [hm])) i.tail
    refine ⟨j, ?_⟩
    rw [List.cons_append, bix, if_pos (hs m (by simp)), hj, List.length_cons, List.replicate_succ, List.cons_append]

theorem growthNd_ent (p : Params) {a : Nd ℝ} {s : List ℕ} {r : ℕ} (ha : a.shape = s ++ [r]) (hs : ∀ m ∈ s, m = 1) :
    ∃ g, growthNd p a = .ok g ∧ g.shape = a.shape ∧ ∀ i, g.ent i = growthOf p (a.ent i) := by
  obtain ⟨g, h1, h2, h3⟩ := growthNd_col p ha hs
  refine ⟨g, h1, h2, fun i => ?_⟩
  obtain ⟨j, hj⟩ := bix_col hs r i
  rw [Nd.ent, Nd.ent, h2, ha, hj, h3]

theorem unsqueeze_squeezeIx {s i : List ℕ} (h : InShape s i) : unsqueeze s (squeezeIx s i) = i := by
  induction h with
  | nil => rfl
  | @cons a b l₁ l₂ h _ ih =>
    by_cases hb : b = 1
    · have : a = 0 := by omega
      simp only [unsqueeze, squeezeIx, hb, if_true, List.tail_cons, ih, this]
    · simp only [unsqueeze, squeezeIx, hb, if_false, List.headD_cons, List.tail_cons, ih]

theorem linearNd_ok (p : Params) (T : ℝ → ℝ) (k a : Nd ℝ) {s t : List ℕ} {r : ℕ}
    (ha : a.atleast1d.shape = s ++ [r]) (hs : ∀ m ∈ s, m = 1)
    (ht : bshape k.atleast1d.shape a.atleast1d.shape = some t) :
    linearNd p T k a = .ok (Nd.squeeze
      { shape := t
        val := fun i => linearMatterPower p T (k.atleast1d.ent i) (a.atleast1d.ent i) }) := by
  obtain ⟨g, h1, h2, h3⟩ := growthNd_ent p ha hs
  unfold linearNd
  simp only [h1]
  change (Nd.map2 _ (k.atleast1d.map (primordialMatterPower p)) (k.atleast1d.map T) >>= _) = _
  rw [Nd.map2_ok (x := k.atleast1d.map (primordialMatterPower p)) (y := k.atleast1d.map T) (s := k.atleast1d.shape) _
    (bshape_self _)]
  change (Nd.map2 _ _ g >>= _) = _
  rw [Nd.map2_ok (s := t) _ (by rw [h2]; exact ht)]
  change Except.ok _ = _
  congr 1
  unfold Nd.squeeze Nd.map
  congr 1
  funext i
  have e : (bix k.atleast1d.shape (bix k.atleast1d.shape (unsqueeze t i))) = bix k.atleast1d.shape (unsqueeze t i) :=
    bix_bix _ _
  simp only [Nd.ent, e, linearMatterPower]
  have := h3 (unsqueeze t i)
  unfold Nd.ent at this
  rw [this]

end JaxCosmo
