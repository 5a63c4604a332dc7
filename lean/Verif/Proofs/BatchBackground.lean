import Verif.Model.BatchBackground
import Verif.Proofs.BatchCl
import Verif.Proofs.Interp

/-! # Lemmas about the background on arrays -/

namespace JaxCosmo
open Spec

theorem Spec.Each.congr {a : Nd ℝ} {X : Except PyErr (Nd ℝ)} {f g : ℝ → ℝ} (h : Each a X f) (hfg : ∀ x, f x = g x) :
    Each a X g := by
  obtain ⟨R, h1, h2, h3⟩ := h
  exact ⟨R, h1, h2, fun i hi => by rw [h3 i hi, hfg]⟩

theorem Spec.Each.ok_map (a : Nd ℝ) (f : ℝ → ℝ) : Each a (.ok (a.map f)) f := ⟨_, rfl, rfl, fun _ _ => rfl⟩

theorem Spec.Each.bind_map {a : Nd ℝ} {X : Except PyErr (Nd ℝ)} {f : ℝ → ℝ} (h : Each a X f) (g : ℝ → ℝ) :
    Each a (X >>= fun x => pure (x.map g)) fun x => g (f x) := by
  obtain ⟨R, h1, h2, h3⟩ := h
  refine ⟨R.map g, by rw [h1]; rfl, h2, fun i hi => ?_⟩
  change g (R.val i) = _
  rw [h3 i hi]

/-- Arrays of the same shape combine entry by entry. -/
theorem Spec.Each.map2 {a x y : Nd ℝ} {f g : ℝ → ℝ} (hx : x.shape = a.shape) (hy : y.shape = a.shape)
    (hf : ∀ i, InShape a.shape i → x.val i = f (a.val i)) (hg : ∀ i, InShape a.shape i → y.val i = g (a.val i))
    (F : ℝ → ℝ → ℝ) : Each a (Nd.map2 F x y) fun u => F (f u) (g u) := by
  have hb : bshape x.shape y.shape = some a.shape := by rw [hx, hy]; exact bshape_self _
  refine ⟨_, Nd.map2_ok F hb, rfl, fun i hi => ?_⟩
  simp only [Nd.ent, hx, hy, bix_of_in hi, hf i hi, hg i hi]

/-- An index of a column. -/
theorem inShape_col {s : List ℕ} (hs : ∀ m ∈ s, m = 1) {r : ℕ} {i : List ℕ} (h : InShape (s ++ [r]) i) :
    ∃ j, i = List.replicate s.length 0 ++ [j] := by
  obtain ⟨j, hj⟩ := bix_col hs r i
  exact ⟨j, by rw [← bix_of_in h, hj]⟩

theorem interpNd_each {n : ℕ} (hn : 0 < n) (xp fp : ℕ → ℝ) {x : Nd ℝ} {s : List ℕ} {r : ℕ} (hx : x.shape = s ++ [r])
    (hs : ∀ m ∈ s, m = 1) : Each x (interpNd n xp fp x) (interp n xp fp) := by
  obtain ⟨y, h1, h2, h3⟩ := interpNd_col hn xp fp hx hs
  refine ⟨y, h1, h2, fun i hi => ?_⟩
  rw [hx] at hi
  obtain ⟨j, rfl⟩ := inShape_col hs hi
  exact h3 j

theorem atleast1d_col {x : Nd ℝ} {s : List ℕ} {r : ℕ} (hx : x.shape = s ++ [r]) : x.atleast1d = x := by
  unfold Nd.atleast1d
  rw [hx]
  cases s <;> rfl

/-- Rows whose length is neither one nor the length of the table. -/
theorem interpNd_rows {n m : ℕ} (hn : n ≠ 1) (xp fp : ℕ → ℝ) {x : Nd ℝ} {s : List ℕ} {r : ℕ}
    (hx : x.shape = m :: (s ++ [r])) (h1 : m ≠ 1) (h2 : m ≠ n) :
    interpNd n xp fp x = .error (if s = [] then .typeError else .valueError) := by
  have hl : x.shape.getLast? = some r := by
    rw [hx, ← List.cons_append, List.getLast?_append]
    rfl
  have hd : (x.at0 0).shape = m :: s := by
    change x.shape.dropLast = _
    rw [hx, ← List.cons_append, List.dropLast_concat]
  have hb : bshape (m :: s) [n] = none := by simp [bshape, bdim, h1, h2, hn]
  have : interpBody n xp fp (x.at0 0) = .error (if s = [] then .typeError else .valueError) := by
    unfold interpBody Nd.map2
    simp only [hd, Nd.vec, hb]
    cases s <;> simp
  unfold interpNd Nd.vmap
  rw [hl]
  simp only [this]

theorem argminUpTo_first {d : ℕ → ℝ} {m j : ℕ} (hj : j ≤ m) (h0 : ∀ i < j, d j < d i) (h1 : ∀ i ≤ m, d j ≤ d i) :
    argminUpTo d m = j := by
  induction m with
  | zero =>
    obtain rfl : j = 0 := by omega
    rfl
  | succ m ih =>
    unfold argminUpTo
    rcases Nat.lt_or_ge m j with h | h
    · obtain rfl : j = m + 1 := by omega
      have := argminUpTo_le d m
      rw [if_pos (h0 _ (by omega))]
    · rw [ih h fun i hi => h1 i (by omega), if_neg (not_lt.mpr (h1 _ le_rfl))]

/-- Two queries in one slice share the position in the table of the nearest: a query beside one that is tabulated is
read off the segment that starts there. -/
theorem interpNd_shared {n : ℕ} (hn : 3 ≤ n) {xp : ℕ → ℝ} (hinc : Increasing n xp) (fp : ℕ → ℝ) {x : Nd ℝ} {r : ℕ}
    (hx : x.shape = [1, 2, r]) {j : ℕ} (hj1 : 1 ≤ j) (hj2 : j + 1 < n) {t : ℕ} (h0 : x.val [0, 0, t] = xp j)
    (h1 : xp j ≤ x.val [0, 1, t]) :
    ∃ y, interpBody n xp fp (x.at0 t) = .ok y ∧ y.shape = [1, 2] ∧ y.val [0, 1] = chord xp fp j (x.val [0, 1, t]) := by
  have hb : bshape (x.at0 t).shape (Nd.vec n xp).shape = some [n, 2] := by
    simp [Nd.at0, hx, Nd.vec, bshape, bdim_one]
  have hn1 : n ≠ 1 := by omega
  rw [interpBody, Nd.map2_ok (y := .vec n xp) _ hb]
  have ha : argmin (Nd.size ({ shape := [n, 2], val := fun i => ((x.at0 t).ent i - (Nd.vec n xp).ent i) ^ 2 } : Nd ℝ))
      (fun i => ((x.at0 t).ent (unravel [n, 2] i) - (Nd.vec n xp).ent (unravel [n, 2] i)) ^ 2) = j := by
    have hv : ∀ i < n, ((x.at0 t).ent (unravel [n, 2] i) - (Nd.vec n xp).ent (unravel [n, 2] i)) ^ 2 = (xp j - xp i) ^ 2 := by
      intro i hi
      simp [Nd.ent, Nd.at0, hx, bix, unravel, Nd.vec, hn1, Nat.mod_eq_of_lt hi, Nat.div_eq_of_lt hi, h0]
    refine argminUpTo_first ?_ (fun i hi => ?_) fun i _ => ?_
    · simp [Nd.size]; omega
    · rw [hv j (by omega), hv i (by omega), sub_self]
      have : 0 < xp j - xp i := sub_pos.mpr (hinc i j hi (by omega))
      nlinarith
    · rw [hv j (by omega), sub_self]
      nlinarith [sq_nonneg ((x.at0 t).ent (unravel [n, 2] i) - (Nd.vec n xp).ent (unravel [n, 2] i))]
  refine ⟨_, rfl, by simp [Nd.map, Nd.at0, hx], ?_⟩
  have hi : iclip (j : ℤ) 1 ((n : ℤ) - 2) = j := by unfold iclip; omega
  have e1 : ix n (j : ℤ) = j := ix_nonneg (by omega)
  have hle : xp j ≤ clip (x.val [0, 1, t]) (xp (ix n 1)) (xp (ix n (-2))) := by
    have e2 : ix n (-2) = n - 2 := ix_neg (i := 2) (by omega) (by omega)
    have : xp j ≤ xp (n - 2) := by
      rcases (show j = n - 2 ∨ j < n - 2 by omega) with h | h
      · rw [h]
      · exact (hinc _ _ h (by omega)).le
    rw [e2]
    exact le_min (le_trans h1 (le_max_left _ _)) this
  have hs : copysign1 (sgn (clip (x.val [0, 1, t]) (xp (ix n 1)) (xp (ix n (-2))) - xp j)) = 1 := by
    have : 0 ≤ clip (x.val [0, 1, t]) (xp (ix n 1)) (xp (ix n (-2))) - xp j := sub_nonneg.mpr hle
    unfold sgn copysign1
    split_ifs <;> first | rfl | (exfalso; linarith)
  have e3 : ix n ((j : ℤ) + 1) = j + 1 := by
    have := ix_nonneg (n := n) (i := j + 1) (by omega)
    push_cast at this
    exact this
  have hv : (x.at0 t).val [0, 1] = x.val [0, 1, t] := rfl
  simp only [Nd.map, ha, hi, e1, hv, hs, e3]
  rw [← lineAt_right]
  rfl

end JaxCosmo
