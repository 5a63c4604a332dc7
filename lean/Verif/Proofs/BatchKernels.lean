import Verif.Proofs.BatchCl

/-! # Kernels on arrays of redshifts, column by column (continued) -/

namespace JaxCosmo
open Spec

variable {n : ℕ} {ι : Type}

namespace Spec

theorem Columns.error {e : PyErr} : Columns (ι := ι) n (fun _ => .error e) fun _ _ => .error e :=
  Or.inl ⟨e, fun _ => ⟨rfl, fun _ => rfl⟩⟩

theorem Columns.ok {m : ℕ} {R : ι → Nd ℝ} {ls : ι → ℕ → List ℝ} (h : ∀ q, IsCols n m (R q) (ls q)) :
    Columns n (fun q => .ok (R q)) fun q j => .ok (ls q j) :=
  Or.inr ⟨m, R, ls, fun q => ⟨rfl, fun _ => rfl, h q⟩⟩

theorem Columns.bind {X : ι → Except PyErr (Nd ℝ)} {Y : ι → ℕ → Except PyErr (List ℝ)}
    {F : ι → Nd ℝ → Except PyErr (Nd ℝ)} {G : ι → ℕ → List ℝ → Except PyErr (List ℝ)} (h : Columns n X Y)
    (hF : ∀ (m : ℕ) (R : ι → Nd ℝ) (ls : ι → ℕ → List ℝ), (∀ q, IsCols n m (R q) (ls q)) → Columns n (fun q => F q (R q)) fun q j => G q j (ls q j)) :
    Columns n (fun q => X q >>= F q) fun q j => Y q j >>= G q j := by
  rcases h with ⟨e, h1⟩ | ⟨m, R, ls, h1⟩
  · exact Or.inl ⟨e, fun q => ⟨by simp only [(h1 q).1]; rfl, fun j => by simp only [(h1 q).2]; rfl⟩⟩
  · have := hF m R ls fun q => (h1 q).2.2
    simp only [fun q => (h1 q).1, fun q j => (h1 q).2.1 j]
    exact this

theorem IsCols.map {m : ℕ} {R : Nd ℝ} {ls : ℕ → List ℝ} (h : IsCols n m R ls) (f : ℝ → ℝ) :
    IsCols n m (R.map f) fun j => (ls j).map f := by
  refine ⟨h.1, fun j => ⟨by simpa using (h.2 j).1, fun hj i hi => ?_⟩⟩
  have h1 := (h.2 j).1
  change f (R.val [j, i]) = _
  rw [(h.2 j).2 hj i hi, List.getD_eq_getElem _ _ (by omega), List.getD_eq_getElem _ _ (by simpa [h1] using hi),
    List.getElem_map]

/-- Factor that depends on the column. -/
theorem IsCols.map2_row {m : ℕ} {R v : Nd ℝ} {ls : ℕ → List ℝ} (h : IsCols n m R ls) (hv : v.shape = [n])
    (f : ℝ → ℝ → ℝ) : ∃ Z, Nd.map2 f R v = .ok Z ∧ IsCols n m Z fun j => (ls j).map (f · (v.val [j])) := by
  obtain ⟨Z, h1, h2, h3⟩ := Nd.map2_mat_row f h.1 hv
  refine ⟨Z, h1, h2, fun j => ⟨by simpa using (h.2 j).1, fun hj i hi => ?_⟩⟩
  have h1 := (h.2 j).1
  rw [h3 j hj i hi, (h.2 j).2 hj i hi, List.getD_eq_getElem _ _ (by omega),
    List.getD_eq_getElem _ _ (by simpa [h1] using hi), List.getElem_map]

end Spec

theorem bcast_of_length (f : ℝ → ℝ → ℝ) (xs ys : List ℝ) :
    bcast f xs ys =
      if xs.length = ys.length then .ok (List.zipWith f xs ys)
      else if xs.length = 1 then .ok (ys.map (f (xs.getD 0 0)))
      else if ys.length = 1 then .ok (xs.map (f · (ys.getD 0 0)))
      else .error .typeError := by
  unfold bcast
  by_cases h : xs.length = ys.length
  · rw [if_pos h, if_pos h]
  rw [if_neg h, if_neg h]
  match xs, ys, h with
  | [], [], h => exact absurd rfl h
  | [x], _, _ => simp
  | [], [y], _ => simp
  | [], y :: y' :: l, _ => simp
  | x :: x' :: l, [], _ => simp
  | x :: x' :: l, [y], _ => simp
  | x :: x' :: l, y :: y' :: l', _ => simp

theorem Columns.bcast {m m' : ℕ} {R S : ι → Nd ℝ} {ls ks : ι → ℕ → List ℝ} (hR : ∀ q, IsCols n m (R q) (ls q))
    (hS : ∀ q, IsCols n m' (S q) (ks q)) (f : ℝ → ℝ → ℝ) :
    Columns n (fun q => Nd.map2 f (R q) (S q)) fun q j => JaxCosmo.bcast f (ls q j) (ks q j) := by
  have hl : ∀ q j, (ls q j).length = m := fun q j => ((hR q).2 j).1
  have hk : ∀ q j, (ks q j).length = m' := fun q j => ((hS q).2 j).1
  simp only [bcast_of_length, hl, hk]
  by_cases h : m = m'
  · subst h
    simp only [if_true]
    simp only [fun q => Nd.map2_ok (s := [n, m]) f (x := R q) (y := S q) (by rw [(hR q).1, (hS q).1]; exact bshape_self _)]
    refine Columns.ok (m := m) fun q => ⟨rfl, fun j => ⟨by simp [hl, hk], fun hj i hi => ?_⟩⟩
    change f ((R q).ent [j, i]) ((S q).ent [j, i]) = _
    rw [Nd.ent_mat (hR q).1 hj hi, Nd.ent_mat (hS q).1 hj hi, ((hR q).2 j).2 hj i hi, ((hS q).2 j).2 hj i hi,
      List.getD_eq_getElem _ _ (by rw [hl]; exact hi), List.getD_eq_getElem _ _ (by rw [hk]; exact hi),
      List.getD_eq_getElem _ _ (by simpa [hl, hk] using hi), List.getElem_zipWith]
  · simp only [if_neg h]
    by_cases h1 : m = 1
    · subst h1
      simp only [if_true]
      simp only [fun q => Nd.map2_ok (s := [n, m']) f (x := R q) (y := S q) (by
        rw [(hR q).1, (hS q).1]; simp [bshape, bdim_self, bdim_one])]
      refine Columns.ok (m := m') fun q => ⟨rfl, fun j => ⟨by simp [hk], fun hj i hi => ?_⟩⟩
      change f ((R q).ent [j, i]) ((S q).ent [j, i]) = _
      have e : (R q).ent [j, i] = (R q).ent [j, 0] := by
        rw [Nd.ent, Nd.ent, (hR q).1]
        simp [bix]
      rw [e, Nd.ent_mat (hR q).1 hj Nat.one_pos, Nd.ent_mat (hS q).1 hj hi, ((hR q).2 j).2 hj 0 Nat.one_pos,
        ((hS q).2 j).2 hj i hi, List.getD_eq_getElem (ks q j) _ (by rw [hk]; exact hi),
        List.getD_eq_getElem ((ks q j).map _) _ (by simpa [hk] using hi), List.getElem_map]
    · simp only [if_neg h1]
      by_cases h2 : m' = 1
      · subst h2
        simp only [if_true]
        simp only [fun q => Nd.map2_ok (s := [n, m]) f (x := R q) (y := S q) (by
          rw [(hR q).1, (hS q).1]; simp [bshape, bdim_self, bdim_one'])]
        refine Columns.ok (m := m) fun q => ⟨rfl, fun j => ⟨by simp [hl], fun hj i hi => ?_⟩⟩
        change f ((R q).ent [j, i]) ((S q).ent [j, i]) = _
        have e : (S q).ent [j, i] = (S q).ent [j, 0] := by
          rw [Nd.ent, Nd.ent, (hS q).1]
          simp [bix]
        rw [e, Nd.ent_mat (hS q).1 hj Nat.one_pos, Nd.ent_mat (hR q).1 hj hi, ((hS q).2 j).2 hj 0 Nat.one_pos,
          ((hR q).2 j).2 hj i hi, List.getD_eq_getElem (ls q j) _ (by rw [hl]; exact hi),
          List.getD_eq_getElem ((ls q j).map _) _ (by simpa [hl] using hi), List.getElem_map]
      · simp only [if_neg h2]
        have : ∀ q, Nd.map2 f (R q) (S q) = .error .typeError := by
          intro q
          unfold Nd.map2
          have hb : bshape [n, m] [n, m'] = none := by simp [bshape, bdim, h, h1, h2]
          simp only [(hR q).1, (hS q).1, hb]
          rfl
        simp only [this]
        exact Columns.error

/-- A number per row, the same in every column. -/
theorem expand1_cols (ms : List ℝ) {R : ι → Nd ℝ} {m : ℕ} {ls : ι → ℕ → List ℝ} (hR : ∀ q, IsCols n m (R q) (ls q))
    (f : ℝ → ℝ → ℝ) :
    Columns n (fun q => Nd.map2 f (R q) (Nd.vec ms.length fun i => ms.getD i 0).expand1) fun q j => bcast f (ls q j) ms := by
  -- as if the column were repeated
  have hS : ∀ _ : ι, IsCols n ms.length { shape := [n, ms.length], val := fun i => ms.getD (i.tail.headD 0) 0 } fun _ => ms :=
    fun _ => ⟨rfl, fun j => ⟨rfl, fun _ i _ => rfl⟩⟩
  have h := Columns.bcast hR hS f
  have e : ∀ q, Nd.map2 f (R q) (Nd.vec ms.length fun i => ms.getD i 0).expand1
      = Nd.map2 f (R q) { shape := [n, ms.length], val := fun i => ms.getD (i.tail.headD 0) 0 } := by
    intro q
    unfold Nd.map2
    simp only [(hR q).1, Nd.expand1, Nd.vec]
    have hb : bshape [n, m] [1, ms.length] = bshape [n, m] [n, ms.length] := by
      simp only [bshape, bdim_self, bdim_one']
    rw [hb]
    rcases bshape [n, m] [n, ms.length] with _ | s <;> rfl
  simp only [e]
  exact h

/-! ## Concatenation -/

theorem rows_map {m : ℕ} {R : Nd ℝ} {ls : ℕ → List ℝ} (h : IsCols n m R ls) {j : ℕ} (hj : j < n) :
    R.rows.map (fun r => r.val [j]) = ls j := by
  have hl := (h.2 j).1
  refine List.ext_getElem (by simp [Nd.rows, h.1, hl]) fun i h1 h2 => ?_
  have hi : i < m := by omega
  simp only [Nd.rows, List.getElem_map, List.getElem_range, Nd.at0]
  change R.val [j, i] = _
  rw [(h.2 j).2 hj i hi, List.getD_eq_getElem _ _ h2]

theorem concat0_cols {xs : List (Nd ℝ)} {es : List (ℕ × (ℕ → List ℝ))} (h0 : xs ≠ [])
    (h : List.Forall₂ (fun x e => IsCols n e.1 x e.2) xs es) :
    ∃ Z, Nd.concat0 xs = .ok Z ∧ IsCols n (es.map Prod.fst).sum Z fun j => (es.map (·.2 j)).flatten := by
  have hsh : ∀ x ∈ xs, ∃ m, x.shape = [n, m] := by
    intro x hx
    induction h with
    | nil => simp at hx
    | cons h1 _ ih =>
      rcases List.mem_cons.1 hx with rfl | hx
      · exact ⟨_, h1.1⟩
      · exact ih (List.ne_nil_of_mem hx) hx
  have hlen : ∀ j, ((es.map (·.2 j)).flatten).length = (es.map Prod.fst).sum := by
    intro j
    clear h0 hsh
    induction h with
    | nil => rfl
    | cons h1 _ ih =>
      simp only [List.map_cons, List.flatten_cons, List.length_append, List.sum_cons, ih, (h1.2 j).1]
  have hrows : (xs.flatMap Nd.rows).length = (es.map Prod.fst).sum := by
    clear h0 hsh hlen
    induction h with
    | nil => rfl
    | cons h1 _ ih =>
      simp only [List.map_cons, List.length_append, List.sum_cons, List.flatMap_cons, ih]
      simp [Nd.rows, h1.1]
  have hval : ∀ j < n, (xs.flatMap Nd.rows).map (fun r => r.val [j]) = (es.map (·.2 j)).flatten := by
    intro j hj
    clear h0 hsh hlen hrows
    induction h with
    | nil => rfl
    | cons h1 _ ih =>
      simp only [List.map_cons, List.flatten_cons, List.flatMap_cons, List.map_append, ih, rows_map h1 hj]
  cases xs with
  | nil => exact absurd rfl h0
  | cons x l =>
    obtain ⟨m0, hm0⟩ := hsh x (by simp)
    have hall : ∀ y ∈ l, y.shape.dropLast = x.shape.dropLast := fun y hy => by
      obtain ⟨m1, hm1⟩ := hsh y (by simp [hy])
      rw [hm0, hm1]
      rfl
    simp only [Nd.concat0]
    rw [if_pos hall, ← hrows]
    refine ⟨_, rfl, by simp [hm0], fun j => ⟨by rw [hlen, hrows], fun hj i hi => ?_⟩⟩
    simp only [← hval j hj]
    change (((x :: l).flatMap Nd.rows).getD i x).val [j] = _
    rw [List.getD_eq_getElem _ _ hi, List.getD_eq_getElem (List.map _ _) _ (by simpa using hi), List.getElem_map]

/-- Arrays computed one by one. -/
theorem mapM_columns {α : Type} {F : α → ι → Except PyErr (Nd ℝ)} {G : α → ι → ℕ → Except PyErr (List ℝ)} (l : List α)
    (h : ∀ a ∈ l, Columns n (F a) (G a)) :
    (∃ e, ∀ q, l.mapM (F · q) = .error e ∧ ∀ j, l.mapM (G · q j) = .error e) ∨
    ∃ (ms : List ℕ) (xs : ι → List (Nd ℝ)) (es : ι → List (ℕ × (ℕ → List ℝ))), ∀ q,
      l.mapM (F · q) = .ok (xs q) ∧ (∀ j, l.mapM (G · q j) = .ok ((es q).map (·.2 j))) ∧ (es q).map Prod.fst = ms ∧
      (xs q).length = l.length ∧ List.Forall₂ (fun x e => IsCols n e.1 x e.2) (xs q) (es q) := by
  induction l with
  | nil => exact Or.inr ⟨[], fun _ => [], fun _ => [], fun q => ⟨rfl, fun _ => rfl, rfl, rfl, .nil⟩⟩
  | cons a l ih =>
    simp only [List.mapM_cons]
    rcases h a (by simp) with ⟨e, h1⟩ | ⟨m, R, ls, h1⟩
    · exact Or.inl ⟨e, fun q => ⟨by rw [(h1 q).1]; rfl, fun j => by rw [(h1 q).2]; rfl⟩⟩
    · rcases ih fun b hb => h b (by simp [hb]) with ⟨e, h2⟩ | ⟨ms, xs, es, h2⟩
      · refine Or.inl ⟨e, fun q => ⟨?_, fun j => ?_⟩⟩
        · rw [(h1 q).1, (h2 q).1]; rfl
        · rw [(h1 q).2.1, (h2 q).2]; rfl
      · refine Or.inr ⟨m :: ms, fun q => R q :: xs q, fun q => (m, ls q) :: es q, fun q => ?_⟩
        obtain ⟨k1, k2, k3, k4, k5⟩ := h2 q
        refine ⟨?_, fun j => ?_, ?_, ?_, .cons (h1 q).2.2 k5⟩
        · rw [(h1 q).1, k1]; rfl
        · rw [(h1 q).2.1, k2]; rfl
        · simp [k3]
        · simp [k4]

end JaxCosmo
