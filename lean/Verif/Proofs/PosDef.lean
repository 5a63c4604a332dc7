import Verif.Proofs.Sparse
import Verif.Spec.AngularCl
import Mathlib.Analysis.Matrix.Order

/-! # Positive (semi-)definiteness of block diagonal matrices and of Wick's covariance -/

namespace JaxCosmo
open Matrix Spec
open scoped Kronecker

theorem blockDiagonal_quad {n o : Type*} [Fintype n] [Fintype o] [DecidableEq o]
    (M : o → Matrix n n ℝ) (x : n × o → ℝ) :
    x ⬝ᵥ (blockDiagonal M *ᵥ x) = ∑ k, (fun i => x (i, k)) ⬝ᵥ (M k *ᵥ fun i => x (i, k)) := by
  have h : ∀ i k, (blockDiagonal M *ᵥ x) (i, k) = (M k *ᵥ fun i => x (i, k)) i := by
    intro i k
    simp only [mulVec, dotProduct, Fintype.sum_prod_type, blockDiagonal_apply, ite_mul, zero_mul]
    apply Finset.sum_congr rfl
    intro j _
    rw [Finset.sum_ite_eq]
    simp
  simp only [dotProduct, Fintype.sum_prod_type]
  rw [Finset.sum_comm]
  simp only [h]

theorem blockDiagonal_hermitian {n o : Type*} [DecidableEq o]
    {M : o → Matrix n n ℝ} (h : ∀ k, (M k).IsHermitian) : (blockDiagonal M).IsHermitian := by
  unfold IsHermitian
  rw [blockDiagonal_conjTranspose]
  congr 1
  funext k
  exact h k

theorem blockDiagonal_posSemidef {n o : Type*} [Fintype n] [Fintype o] [DecidableEq o]
    {M : o → Matrix n n ℝ} (h : ∀ k, (M k).PosSemidef) : (blockDiagonal M).PosSemidef := by
  refine .of_dotProduct_mulVec_nonneg (blockDiagonal_hermitian fun k => (h k).1) fun x => ?_
  rw [star_trivial, blockDiagonal_quad]
  refine Finset.sum_nonneg fun k _ => ?_
  have := (h k).dotProduct_mulVec_nonneg fun i => x (i, k)
  rwa [star_trivial] at this

theorem blockDiagonal_posDef {n o : Type*} [Fintype n] [Fintype o] [DecidableEq o]
    {M : o → Matrix n n ℝ} (h : ∀ k, (M k).PosDef) : (blockDiagonal M).PosDef := by
  refine .of_dotProduct_mulVec_pos (blockDiagonal_hermitian fun k => (h k).1) fun x hx => ?_
  rw [star_trivial, blockDiagonal_quad]
  obtain ⟨⟨i, k⟩, hik⟩ := Function.ne_iff.1 hx
  refine Finset.sum_pos' (fun k _ => ?_) ⟨k, Finset.mem_univ _, ?_⟩
  · have := (h k).posSemidef.dotProduct_mulVec_nonneg fun i => x (i, k)
    rwa [star_trivial] at this
  · have := (h k).dotProduct_mulVec_pos (x := fun i => x (i, k)) (Function.ne_iff.2 ⟨i, hik⟩)
    rwa [star_trivial] at this

theorem toDense_posSemidef {N P : ℕ} {S : Sp ℝ N N P} (h : ∀ p, (slice S p).PosSemidef) :
    (toDense S).PosSemidef := by
  rw [toDense_eq]
  exact (blockDiagonal_posSemidef h).submatrix _

theorem toDense_posDef {N P : ℕ} {S : Sp ℝ N N P} (h : ∀ p, (slice S p).PosDef) :
    (toDense S).PosDef := by
  rw [toDense_eq]
  exact (blockDiagonal_posDef h).submatrix finProdFinEquiv.symm.injective

section Wick
variable {N M : ℕ} (pr : Fin M → Fin N × Fin N) (C : Matrix (Fin N) (Fin N) ℝ)

/-- Each pair once as `(i, j)` and once as `(j, i)`. -/
noncomputable def pairMat : Matrix (Fin M) (Fin N × Fin N) ℝ :=
  fun I => Pi.single (pr I) 1 + Pi.single (pr I).swap 1

theorem wick_eq (I J : Fin M) :
    (pairMat pr * (C ⊗ₖ C) * (pairMat pr)ᴴ) I J
      = 2 * wick C (pr I).1 (pr I).2 (pr J).1 (pr J).2 := by
  have h : (pairMat pr * (C ⊗ₖ C) * (pairMat pr)ᴴ) I J
      = pairMat pr I ⬝ᵥ ((C ⊗ₖ C) *ᵥ pairMat pr J) := by
    rw [Matrix.mul_assoc, mul_apply']
    congr 1
  rw [h]
  simp only [pairMat, mulVec_add, dotProduct_add, add_dotProduct, single_dotProduct, mulVec_single,
    MulOpposite.op_one, one_smul, one_mul, col_apply, kroneckerMap_apply, Prod.fst_swap,
    Prod.snd_swap, wick]
  ring

/-- Wick's covariance of the spectra of the listed pairs. -/
noncomputable def wickMat : Matrix (Fin M) (Fin M) ℝ :=
  fun I J => wick C (pr I).1 (pr I).2 (pr J).1 (pr J).2

theorem wickMat_eq : wickMat pr C = (1 / 2 : ℝ) • (pairMat pr * (C ⊗ₖ C) * (pairMat pr)ᴴ) := by
  ext I J
  rw [Matrix.smul_apply, wick_eq, wickMat, smul_eq_mul]
  ring

theorem wickMat_posSemidef (h : C.PosSemidef) : (wickMat pr C).PosSemidef := by
  rw [wickMat_eq]
  exact ((h.kronecker h).mul_mul_conjTranspose_same _).smul (by norm_num)

theorem wickMat_posDef (h : C.PosDef) (hinj : Function.Injective pr)
    (hle : ∀ I, (pr I).1 ≤ (pr I).2) : (wickMat pr C).PosDef := by
  rw [wickMat_eq]
  refine ((h.kronecker h).mul_mul_conjTranspose_same ?_).smul (by norm_num)
  intro v w hvw
  funext I
  have h0 := congrFun hvw (pr I)
  have key : ∀ v : Fin M → ℝ, (v ᵥ* pairMat pr) (pr I)
      = v I + if (pr I).1 = (pr I).2 then v I else 0 := by
    intro v
    simp only [vecMul, dotProduct, pairMat, Pi.add_apply, mul_add, Finset.sum_add_distrib]
    congr 1
    · rw [Finset.sum_eq_single I]
      · simp
      · intro J _ hJ
        rw [Pi.single_eq_of_ne (fun e => hJ (hinj e.symm)), mul_zero]
      · simp
    · split_ifs with e
      · rw [Finset.sum_eq_single I]
        · have : (pr I).swap = pr I := Prod.ext e.symm e
          rw [this]; simp
        · intro J _ hJ
          rw [Pi.single_eq_of_ne, mul_zero]
          intro e'
          have h1 : pr J = (pr I).swap := by rw [e']; simp
          have h2 : (pr I).swap = pr I := Prod.ext e.symm e
          exact hJ (hinj (h1.trans h2))
        · simp
      · apply Finset.sum_eq_zero
        intro J _
        rw [Pi.single_eq_of_ne, mul_zero]
        intro e'
        have h1 : pr J = (pr I).swap := by rw [e']; simp
        have h2 := hle J
        rw [h1] at h2
        exact e (le_antisymm (hle I) h2)
  simp only at h0
  rw [key, key] at h0
  split_ifs at h0 <;> linarith

end Wick

end JaxCosmo
