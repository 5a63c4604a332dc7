import Verif.Props.Information

/-! # Lemmas for C143–C145: selecting and relabelling tracers -/

namespace JaxCosmo
open Spec Matrix

/-! ## Sub-vectors of Gaussian data -/

/-- Part of the data carries at most the information of the whole. -/
theorem fisher_submatrix {M N : ℕ} {C : Matrix (Fin N) (Fin N) ℝ} (hC : C.PosDef)
    {e : Fin M → Fin N} (he : Function.Injective e) (u : Fin N → ℝ) :
    fisher (C.submatrix e e) (u ∘ e) (u ∘ e) ≤ fisher C u u := by
  have hS := hC.submatrix he
  have iC : IsUnit C.det := isUnit_iff_ne_zero.2 hC.det_pos.ne'
  have iS : IsUnit (C.submatrix e e).det := isUnit_iff_ne_zero.2 hS.det_pos.ne'
  set x := (C.submatrix e e)⁻¹ *ᵥ (u ∘ e) with hx
  have hSx : C.submatrix e e *ᵥ x = u ∘ e := by
    rw [hx, mulVec_mulVec, mul_nonsing_inv _ iS, one_mulVec]
  set y : Fin N → ℝ := fun i => ∑ k, if i = e k then x k else 0 with hy
  have hdot : ∀ v : Fin N → ℝ, v ⬝ᵥ y = (v ∘ e) ⬝ᵥ x := fun v => by
    simp only [dotProduct, hy, Finset.mul_sum, mul_ite, mul_zero, Function.comp_apply]
    rw [Finset.sum_comm]
    simp
  have hCy : (C *ᵥ y) ∘ e = u ∘ e := by
    rw [← hSx]
    funext k
    exact hdot fun j => C (e k) j
  have hCu : C *ᵥ (C⁻¹ *ᵥ u) = u := by rw [mulVec_mulVec, mul_nonsing_inv _ iC, one_mulVec]
  have h1 := hC.posSemidef.dotProduct_mulVec_nonneg (y - C⁻¹ *ᵥ u)
  have hs : (C⁻¹ *ᵥ u) ⬝ᵥ (C *ᵥ y) = u ⬝ᵥ y := by
    rw [dotProduct_mulVec, ← mulVec_transpose, symm_of_posDef hC, hCu]
  rw [star_trivial, mulVec_sub, hCu, sub_dotProduct, dotProduct_sub, dotProduct_sub, hs] at h1
  have e1 : y ⬝ᵥ u = (u ∘ e) ⬝ᵥ x := by rw [dotProduct_comm, hdot]
  have e2 : (C⁻¹ *ᵥ u) ⬝ᵥ u = u ⬝ᵥ (C⁻¹ *ᵥ u) := dotProduct_comm _ _
  have e3 : y ⬝ᵥ (C *ᵥ y) = (u ∘ e) ⬝ᵥ x := by rw [dotProduct_comm, hdot, hCy]
  rw [e1, e2, e3, hdot] at h1
  change (u ∘ e) ⬝ᵥ x ≤ u ⬝ᵥ (C⁻¹ *ᵥ u)
  linarith

/-- Renumbering the data changes neither `χ²` nor the determinant. -/
theorem chiSq_equiv {M N : ℕ} (C : Matrix (Fin N) (Fin N) ℝ) (e : Fin M ≃ Fin N)
    (x mu : Fin N → ℝ) : chiSq (x ∘ e) (mu ∘ e) (C.submatrix e e) = chiSq x mu C := by
  unfold chiSq
  rw [inv_submatrix_equiv]
  have h : x ∘ e - mu ∘ e = (x - mu) ∘ e := rfl
  rw [h, submatrix_mulVec_equiv]
  have h2 : ((x - mu) ∘ e) ∘ e.symm = x - mu := by funext i; simp
  rw [h2, comp_equiv_dotProduct_comp_equiv]

/-! ## Pairs of tracers -/

/-- Position of the pair `(i, j)`. -/
noncomputable def pairFin (N : ℕ) (i j : Fin N) : Fin (pairCount N) :=
  ⟨pairPos N i j, pairPos_lt i.2 j.2⟩

theorem pairFin_comm {N : ℕ} (i j : Fin N) : pairFin N i j = pairFin N j i :=
  Fin.ext (pairPos_comm N i j)

theorem pairOf_pairFin {N : ℕ} {i j : Fin N} (h : i ≤ j) : pairOf N (pairFin N i j) = (i, j) := by
  have h1 := pairOf_get N (pairFin N i j)
  have h2 : (clIndex N)[pairPos N i j]? = some ((i : ℕ), (j : ℕ)) := clIndex_pairPos h j.2
  have h3 := Option.some.inj (h1.symm.trans h2)
  rw [Prod.mk.injEq] at h3
  exact Prod.ext (Fin.ext h3.1) (Fin.ext h3.2)

theorem pairFin_pairOf {N : ℕ} (I : Fin (pairCount N)) :
    pairFin N (pairOf N I).1 (pairOf N I).2 = I :=
  pairOf_injective N (by rw [pairOf_pairFin (pairOf_le N I)])

theorem pairFin_eq {N : ℕ} {i j m n : Fin N} (h : pairFin N i j = pairFin N m n) :
    (i = m ∧ j = n) ∨ (i = n ∧ j = m) := by
  rcases le_total i j with hij | hij <;> rcases le_total m n with hmn | hmn
  · have := congrArg (pairOf N) h
    rw [pairOf_pairFin hij, pairOf_pairFin hmn, Prod.mk.injEq] at this
    exact .inl this
  · have := congrArg (pairOf N) h
    rw [pairFin_comm m n, pairOf_pairFin hij, pairOf_pairFin hmn, Prod.mk.injEq] at this
    exact .inr this
  · have := congrArg (pairOf N) h
    rw [pairFin_comm i j, pairOf_pairFin hij, pairOf_pairFin hmn, Prod.mk.injEq] at this
    exact .inr ⟨this.2, this.1⟩
  · have := congrArg (pairOf N) h
    rw [pairFin_comm i j, pairFin_comm m n, pairOf_pairFin hij, pairOf_pairFin hmn,
      Prod.mk.injEq] at this
    exact .inl ⟨this.2, this.1⟩

/-- The pair of the selected tracers. -/
noncomputable def pairMap {M N : ℕ} (σ : Fin M → Fin N) (I : Fin (pairCount M)) :
    Fin (pairCount N) := pairFin N (σ (pairOf M I).1) (σ (pairOf M I).2)

theorem pairMap_pairFin {M N : ℕ} (σ : Fin M → Fin N) (i j : Fin M) :
    pairMap σ (pairFin M i j) = pairFin N (σ i) (σ j) := by
  rcases le_total i j with h | h
  · rw [pairMap, pairOf_pairFin h]
  · rw [pairMap, pairFin_comm i j, pairOf_pairFin h, pairFin_comm]

theorem pairMap_injective {M N : ℕ} {σ : Fin M → Fin N} (h : Function.Injective σ) :
    Function.Injective (pairMap σ) := by
  intro I J e
  rw [← pairFin_pairOf I, ← pairFin_pairOf J]
  rcases pairFin_eq e with ⟨a, b⟩ | ⟨a, b⟩
  · rw [h a, h b]
  · rw [h a, h b, pairFin_comm]

theorem pairMap_surjective {M N : ℕ} {σ : Fin M → Fin N} (h : Function.Surjective σ) :
    Function.Surjective (pairMap σ) := by
  intro I
  obtain ⟨i, hi⟩ := h (pairOf N I).1
  obtain ⟨j, hj⟩ := h (pairOf N I).2
  exact ⟨pairFin M i j, by rw [pairMap_pairFin, hi, hj, pairFin_pairOf]⟩

/-- The row of the data vector for the selected tracers. -/
noncomputable def rowMap {M N L : ℕ} (σ : Fin M → Fin N) (r : Fin (pairCount M * L)) :
    Fin (pairCount N * L) :=
  finProdFinEquiv (pairMap σ (finProdFinEquiv.symm r).1, (finProdFinEquiv.symm r).2)

theorem rowMap_apply {M N L : ℕ} (σ : Fin M → Fin N) (I : Fin (pairCount M)) (l : Fin L) :
    rowMap σ (finProdFinEquiv (I, l)) = finProdFinEquiv (pairMap σ I, l) := by
  rw [rowMap, Equiv.symm_apply_apply]

theorem rowMap_injective {M N L : ℕ} {σ : Fin M → Fin N} (h : Function.Injective σ) :
    Function.Injective (rowMap (L := L) σ) := by
  intro r s e
  obtain ⟨⟨I, l⟩, rfl⟩ := finProdFinEquiv.surjective r
  obtain ⟨⟨J, k⟩, rfl⟩ := finProdFinEquiv.surjective s
  rw [rowMap_apply, rowMap_apply, EmbeddingLike.apply_eq_iff_eq, Prod.mk.injEq] at e
  rw [pairMap_injective h e.1, e.2]

theorem rowMap_surjective {M N L : ℕ} {σ : Fin M → Fin N} (h : Function.Surjective σ) :
    Function.Surjective (rowMap (L := L) σ) := by
  intro s
  obtain ⟨⟨J, k⟩, rfl⟩ := finProdFinEquiv.surjective s
  obtain ⟨I, rfl⟩ := pairMap_surjective h J
  exact ⟨finProdFinEquiv (I, k), rowMap_apply σ I k⟩

theorem wick_symm_pair {ι : Type*} (C : ι → ι → ℝ) (i j m n : ι) :
    wick C j i m n = wick C i j m n ∧ wick C i j n m = wick C i j m n := by
  unfold wick
  constructor <;> ring

theorem wick_pairOf {N : ℕ} (C : Fin N → Fin N → ℝ) (i j m n : Fin N) :
    wick C (pairOf N (pairFin N i j)).1 (pairOf N (pairFin N i j)).2
      (pairOf N (pairFin N m n)).1 (pairOf N (pairFin N m n)).2 = wick C i j m n := by
  have h1 : ∀ a b : Fin N, wick C (pairOf N (pairFin N i j)).1 (pairOf N (pairFin N i j)).2 a b
      = wick C i j a b := fun a b => by
    rcases le_total i j with h | h
    · rw [pairOf_pairFin h]
    · rw [pairFin_comm, pairOf_pairFin h]; exact (wick_symm_pair C i j a b).1
  rw [h1]
  rcases le_total m n with h | h
  · rw [pairOf_pairFin h]
  · rw [pairFin_comm, pairOf_pairFin h]; exact (wick_symm_pair C i j m n).2

/-- The covariance of selected tracers. -/
theorem wickSparse_select {M N L : ℕ} (σ : Fin M → Fin N) (ells : List ℝ) (f : ℝ)
    {s n s' n' : List (List ℝ)}
    (h : ∀ l < L, obsMat M s' n' l = (obsMat N s n l).submatrix σ σ) :
    denseEntry (wickSparse M L ells s' n' f)
      = (denseEntry (wickSparse N L ells s n f)).submatrix (rowMap σ) (rowMap σ) := by
  ext r c
  obtain ⟨⟨I, l⟩, rfl⟩ := finProdFinEquiv.surjective r
  obtain ⟨⟨J, k⟩, rfl⟩ := finProdFinEquiv.surjective c
  rw [submatrix_apply, rowMap_apply, rowMap_apply, ← C34_toDense, ← C34_toDense, toDense_apply,
    toDense_apply]
  split_ifs with hl
  · simp only [wickSparse, pairMap]
    refine congrArg (· / modeCount ells f l) ?_
    rw [h l l.2]
    exact (wick_pairOf (obsMat N s n l) _ _ _ _).symm
  · rfl

end JaxCosmo
