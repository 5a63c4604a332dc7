import Verif.Props.FloatScale

/-! # C174: orders of summation in floating point -/

namespace JaxCosmo
variable {A : Rounding} {L : Elem} {t t' : SumTree} {y z : ℕ → ℝ} {data mu C : ℕ → ℝ}

/-- The same additions, some with their operands exchanged. -/
inductive Mirror : SumTree → SumTree → Prop
  | leaf (i : ℕ) : Mirror (.leaf i) (.leaf i)
  | same {l l' r r' : SumTree} : Mirror l l' → Mirror r r' → Mirror (.node l r) (.node l' r')
  | swap {l l' r r' : SumTree} : Mirror l l' → Mirror r r' → Mirror (.node l r) (.node r' l')

/-- C174: exchanging the operands of additions changes nothing. -/
theorem C174_mirror (h : Mirror t t') : t.sum A y = t'.sum A y := by
  induction h with
  | leaf i => rfl
  | same _ _ hl hr => rw [SumTree.sum, SumTree.sum, hl, hr]
  | swap _ _ hl hr => rw [SumTree.sum, SumTree.sum, hl, hr, Rounding.add, Rounding.add, add_comm]

theorem leaves_pos (t : SumTree) : 1 ≤ t.leaves.length := by
  induction t with
  | leaf i => simp [SumTree.leaves]
  | node l r hl hr => simp only [SumTree.leaves, List.length_append]; omega

/-- C174: two numbers have one sum. -/
theorem C174_two (h : t.leaves.Perm t'.leaves) (h2 : t.leaves.length ≤ 2) : t.sum A y = t'.sum A y := by
  have shape : ∀ s : SumTree, s.leaves.length ≤ 2 → (∃ i, s = .leaf i) ∨ ∃ i j, s = .node (.leaf i) (.leaf j) := fun s hs => by
    cases s with
    | leaf i => exact .inl ⟨i, rfl⟩
    | node l r =>
      simp only [SumTree.leaves, List.length_append] at hs
      have h1 := leaves_pos l
      have h2 := leaves_pos r
      have one : ∀ s : SumTree, s.leaves.length ≤ 1 → ∃ i, s = .leaf i := fun s hs => by
        cases s with
        | leaf i => exact ⟨i, rfl⟩
        | node l r =>
          simp only [SumTree.leaves, List.length_append] at hs
          have h1 := leaves_pos l
          have h2 := leaves_pos r
          omega
      obtain ⟨i, rfl⟩ := one l (by omega)
      obtain ⟨j, rfl⟩ := one r (by omega)
      exact .inr ⟨i, j, rfl⟩
  rcases shape t h2 with ⟨i, rfl⟩ | ⟨i, j, rfl⟩ <;> rcases shape t' (by rw [← h.length_eq]; exact h2) with ⟨k, rfl⟩ | ⟨k, l, rfl⟩
  · simp only [SumTree.leaves, List.perm_singleton, List.cons.injEq, and_true] at h
    rw [h]
  · simpa [SumTree.leaves] using h.length_eq
  · simpa [SumTree.leaves] using h.length_eq
  · simp only [SumTree.leaves, List.cons_append, List.nil_append] at h
    have hm : k ∈ [i, j] := h.symm.subset (by simp)
    rcases List.mem_cons.1 hm with rfl | hm
    · have := List.perm_singleton.1 ((List.perm_cons k).1 h)
      simp only [List.cons.injEq, and_true] at this
      rw [this]
    · rw [List.mem_singleton.1 hm] at h ⊢
      have := List.perm_singleton.1 ((List.perm_cons j).1 ((List.Perm.swap i j []).trans h))
      simp only [List.cons.injEq, and_true] at this
      rw [this]
      exact congrArg A.rd (add_comm _ _)

/-- C174: whole multiples of a power of two have one sum while their sizes add up to less than the largest integer of the format. -/
theorem C174_whole {p : ℕ} (hp : 3 ≤ p) {n : ℕ → ℤ} {e : ℤ} (hn : (t.leaves.map fun i => |n i|).sum < 2 ^ p) :
    (t.sum (binary p hp) fun i => n i * 2 ^ e) = ((t.leaves.map n).sum : ℤ) * 2 ^ e := by
  have key : ∀ s : SumTree, (s.leaves.map fun i => |n i|).sum < 2 ^ p →
      (s.sum (binary p hp) fun i => n i * 2 ^ e) = ((s.leaves.map n).sum : ℤ) * 2 ^ e ∧
        |(s.leaves.map n).sum| ≤ (s.leaves.map fun i => |n i|).sum := fun s => by
    induction s with
    | leaf i => intro _; simp [SumTree.leaves, SumTree.sum]
    | node l r hl hr =>
      simp only [SumTree.leaves, List.map_append, List.sum_append, SumTree.sum]
      intro h
      have nn : ∀ s : SumTree, 0 ≤ (s.leaves.map fun i => |n i|).sum := fun s =>
        List.sum_nonneg fun x hx => by
          obtain ⟨i, -, rfl⟩ := List.mem_map.1 hx
          exact abs_nonneg _
      obtain ⟨e1, b1⟩ := hl (by linarith [nn r])
      obtain ⟨e2, b2⟩ := hr (by linarith [nn l])
      have hb := (abs_add_le (l.leaves.map n).sum (r.leaves.map n).sum).trans (add_le_add b1 b2)
      refine ⟨?_, hb⟩
      rw [e1, e2, Rounding.add, ← add_mul, ← Int.cast_add]
      have hx : roundBinary p ((((l.leaves.map n).sum + (r.leaves.map n).sum : ℤ) : ℝ) * 2 ^ e)
          = (((l.leaves.map n).sum + (r.leaves.map n).sum : ℤ) : ℝ) * 2 ^ e := by
        generalize (l.leaves.map n).sum + (r.leaves.map n).sum = N at hb
        exact roundBinary_dyadic (hb.trans_lt h) _
      exact hx
  exact (key t hn).1

/-- C174: sums are monotone in every entry. -/
theorem C174_monotone (h : ∀ i ∈ t.leaves, y i ≤ z i) : t.sum A y ≤ t.sum A z := by
  induction t with
  | leaf i => exact h i (by simp [SumTree.leaves])
  | node l r hl hr =>
    exact A.mono (add_le_add (hl fun i hi => h i (by simp [SumTree.leaves, hi])) (hr fun i hi => h i (by simp [SumTree.leaves, hi])))

/-- C174: a sum of non-negative numbers is in no order less than one of them. -/
theorem C174_largest {p : ℕ} (hp : 3 ≤ p) (h : ∀ i ∈ t.leaves, 0 ≤ y i) (hy : ∀ i ∈ t.leaves, (binary p hp).rd (y i) = y i) {i : ℕ}
    (hi : i ∈ t.leaves) : y i ≤ t.sum (binary p hp) y := by
  have fix : ∀ s : SumTree, (∀ i ∈ s.leaves, (binary p hp).rd (y i) = y i) → (binary p hp).rd (s.sum (binary p hp) y) = s.sum (binary p hp) y :=
    fun s hs => by
    cases s with
    | leaf i => exact hs i (by simp [SumTree.leaves])
    | node l r => exact roundBinary_fixed (by omega) _
  have nn : ∀ s : SumTree, (∀ i ∈ s.leaves, 0 ≤ y i) → 0 ≤ s.sum (binary p hp) y := fun s => by
    induction s with
    | leaf i => exact fun h => h i (by simp [SumTree.leaves])
    | node l r hl hr =>
      exact fun h => (binary p hp).nonneg (add_nonneg (hl fun i hi => h i (by simp [SumTree.leaves, hi])) (hr fun i hi => h i (by simp [SumTree.leaves, hi])))
  induction t with
  | leaf j => rw [List.mem_singleton.1 hi]; rfl
  | node l r hl hr =>
    have l1 : ∀ i ∈ l.leaves, i ∈ (SumTree.node l r).leaves := fun i hi => by simp [SumTree.leaves, hi]
    have r1 : ∀ i ∈ r.leaves, i ∈ (SumTree.node l r).leaves := fun i hi => by simp [SumTree.leaves, hi]
    have l0 := nn l fun i hi => h i (l1 i hi)
    have r0 := nn r fun i hi => h i (r1 i hi)
    rw [SumTree.sum, Rounding.add]
    rcases List.mem_append.1 hi with hi | hi
    · refine (hl (fun i hi => h i (l1 i hi)) (fun i hi => hy i (l1 i hi)) hi).trans ?_
      rw [← fix l fun i hi => hy i (l1 i hi)]
      exact (binary p hp).mono (by rw [fix l fun i hi => hy i (l1 i hi)]; linarith)
    · refine (hr (fun i hi => h i (r1 i hi)) (fun i hi => hy i (r1 i hi)) hi).trans ?_
      rw [← fix r fun i hi => hy i (r1 i hi)]
      exact (binary p hp).mono (by rw [fix r fun i hi => hy i (r1 i hi)]; linarith)

/-- C174: how far two orders can be apart. -/
theorem C174_spread (h : t.leaves.Perm t'.leaves) {d : ℕ} (hd : t.depth ≤ d) (hd' : t'.depth ≤ d) :
    |t.sum A y - t'.sum A y| ≤ 2 * ((1 + A.u) ^ d - 1) * (t.leaves.map fun i => |y i|).sum := by
  have h1 := ((Near.tree (A := A) (k := 0) (X := y) (Y := y) (B := fun i => |y i|) t fun i _ => Near.self _).mono (j := d) (by omega)).1
  have h2 := ((Near.tree (A := A) (k := 0) (X := y) (Y := y) (B := fun i => |y i|) t' fun i _ => Near.self _).mono (j := d) (by omega)).1
  rw [← (h.map y).sum_eq, ← (h.map fun i => |y i|).sum_eq] at h2
  rw [abs_sub_comm] at h2
  have := abs_sub_le (t.sum A y) (t.leaves.map y).sum (t'.sum A y)
  linarith

/-- C174: the same for the chi-square, relative to its exact value. -/
theorem C174_chi2_partial (h : t.leaves.Perm t'.leaves) {d : ℕ} (hd : t.depth ≤ d) (hd' : t'.depth ≤ d) (hC : ∀ i ∈ t.leaves, 0 < C i) :
    |chi2F A t data mu C - chi2F A t' data mu C| ≤ 2 * ((1 + A.u) ^ (5 + d) - 1) * chiSum t.leaves data mu C := by
  have h1 := ((chi2F_near (A := A) (data := data) (mu := mu) hC).mono (j := 5 + d) (by omega)).1
  have h2 := ((chi2F_near (A := A) (t := t') (data := data) (mu := mu) fun i hi => hC i (h.symm.subset hi)).mono (j := 5 + d) (by omega)).1
  have e : chiSum t'.leaves data mu C = chiSum t.leaves data mu C := ((h.map _).sum_eq).symm
  rw [e, abs_sub_comm] at h2
  have := abs_sub_le (chi2F A t data mu C) (chiSum t.leaves data mu C) (chi2F A t' data mu C)
  linarith

/-- C174: and for a spectrum, relative to the spectrum of the sizes of the kernels. -/
theorem C174_spectrum_partial {S : LimberInput} {zmax : ℝ} (hp : ∀ n, 0 ≤ S.pk n) (hd : ∀ n, 0 ≤ S.dchi n) (hz : 0 ≤ zmax)
    (ht : t.leaves.Perm (List.range 256)) (ht' : t'.leaves.Perm (List.range 256)) {d : ℕ} (h : t.depth ≤ d) (h' : t'.depth ≤ d) (i j : ℕ) :
    |clF A S zmax t i j - clF A S zmax t' i j| ≤ 2 * ((1 + A.u) ^ (d + 16) - 1)
      * exactCl S (z2aF A zmax) (fun n => |S.kernel i n|) (fun n => |S.kernel j n|) := by
  have h1 := ((clF_near (A := A) hp hd hz ht i j).mono (j := d + 16) (by omega)).1
  have h2 := ((clF_near (A := A) hp hd hz ht' i j).mono (j := d + 16) (by omega)).1
  rw [abs_sub_comm] at h2
  have := abs_sub_le (clF A S zmax t i j) (exactCl S (z2aF A zmax) (S.kernel i) (S.kernel j)) (clF A S zmax t' i j)
  linarith

/-- A fit gives the same number in all orders of summation. -/
def OrderFree (A : Rounding) : Prop := ∀ (t t' : SumTree) (data mu C : ℕ → ℝ), t.leaves.Perm t'.leaves → (∀ i, 0 < C i) →
  chi2F A t data mu C = chi2F A t' data mu C

/-- C174: exact operations do; single precision already has two values for three numbers. -/
theorem C174_refuted : OrderFree exactArith ∧ ¬ OrderFree float32 := by
  refine ⟨fun t t' data mu C h _ => ?_, fun h => ?_⟩
  · rw [chi2F, chi2F, tree_exact, tree_exact]
    exact (h.map _).sum_eq
  · have := h (.node (.node (.leaf 0) (.leaf 1)) (.leaf 2)) (.node (.leaf 0) (.node (.leaf 1) (.leaf 2))) (fun _ => 0)
      (fun i => if i = 0 then 1 else 1 / 4096) (fun _ => 1) (by simp [SumTree.leaves]) fun _ => one_pos
    have d1 : float32.rd 1 = 1 := float32.one
    have a : float32.rd (1 / 4096) = 1 / 4096 := float32_dyadic 1 (-12) (by norm_num) (by norm_num)
    have b : float32.rd (1 / 4096 * (1 / 4096)) = 1 / 16777216 := by
      rw [float32_dyadic 1 (-24) (by norm_num) (by norm_num)]; norm_num
    have c : float32.rd (1 + 1 / 16777216) = 1 := by
      rw [float32_to 8388608 0 (by norm_num) (by norm_num) (Or.inr ⟨by norm_num [abs_le], by decide⟩)]; norm_num
    have e : float32.rd (1 / 16777216 + 1 / 16777216) = 1 / 8388608 := by
      rw [float32_dyadic 1 (-23) (by norm_num) (by norm_num)]; norm_num
    have f : float32.rd (1 + 1 / 8388608) = 1 + 1 / 8388608 := float32_dyadic 8388609 (-23) (by norm_num) (by norm_num)
    simp only [chi2F, SumTree.sum, Rounding.sub, Rounding.mul, Rounding.div, Rounding.add, if_true, OfNat.ofNat_ne_zero, one_ne_zero, if_false,
      sub_zero, div_one, d1, a, one_mul, mul_one, b, c, e, f] at this
    norm_num at this

/-- Three whole numbers of modes in single precision. -/
example : ((SumTree.node (.node (.leaf 0) (.leaf 1)) (.leaf 2)).sum float32 fun i => ((2 * i + 1 : ℕ) : ℤ) * 2 ^ (0 : ℤ)) = 9 := by
  rw [show float32 = binary 24 (by norm_num) from rfl, C174_whole (by norm_num) (by simp [SumTree.leaves])]
  simp [SumTree.leaves]

/-- A thousand and twenty-four terms summed in pairs by two machines. -/
example {t : SumTree} (h : t.leaves.Perm (List.range (2 ^ 10))) (ht : t.depth ≤ 10) :
    |t.sum float32 y - (pairwise 10 0).sum float32 y| ≤ 2 * ((1 + float32.u) ^ 10 - 1) * (t.leaves.map fun i => |y i|).sum :=
  C174_spread (by rw [pairwise_range]; exact h) ht (by rw [pairwise_depth])

end JaxCosmo
