import Verif.Model.Sparse
import Mathlib.Data.Matrix.Block
import Mathlib.LinearAlgebra.Matrix.SchurComplement
import Mathlib.Algebra.BigOperators.Fin
import Mathlib.Analysis.SpecialFunctions.Log.Basic
import Mathlib.Tactic.Ring
import Mathlib.Tactic.NormNum

/-! # The dense form as a reindexed block-diagonal matrix, and the Schur recursion -/

set_option linter.unusedSectionVars false

namespace JaxCosmo
open Matrix Finset
variable {K : Type*} [Field K]

theorem npDiag_eq {P : ℕ} (v : Fin P → K) : npDiag v = Matrix.diagonal v := rfl

theorem toDense_eq {a b P : ℕ} (S : Sp K a b P) :
    toDense S = (blockDiagonal (slice S)).submatrix finProdFinEquiv.symm finProdFinEquiv.symm := by
  ext r c
  simp [toDense, vstack, hstack, npDiag, slice, blockDiagonal_apply]

theorem toDense_apply {a b P : ℕ} (S : Sp K a b P) (i : Fin a) (j : Fin b) (p q : Fin P) :
    toDense S (finProdFinEquiv (i, p)) (finProdFinEquiv (j, q)) = if p = q then S i j p else 0 := by
  rw [toDense_eq]; simp [blockDiagonal_apply, slice]

theorem toDense_inj {a b P : ℕ} {S T : Sp K a b P} (h : toDense S = toDense T) : S = T := by
  funext i j p
  have := congrFun (congrFun h (finProdFinEquiv (i, p))) (finProdFinEquiv (j, p))
  simpa [toDense_apply] using this

theorem slice_mul {a b c P : ℕ} (S : Sp K a b P) (T : Sp K b c P) (p : Fin P) :
    slice (sparseDotSparse S T) p = slice S p * slice T p := by
  ext i j; simp [slice, sparseDotSparse, Matrix.mul_apply]

theorem toDense_mul {a b c P : ℕ} (S : Sp K a b P) (T : Sp K b c P) :
    toDense (sparseDotSparse S T) = toDense S * toDense T := by
  rw [toDense_eq, toDense_eq S, toDense_eq T, submatrix_mul_equiv, ← blockDiagonal_mul]
  rw [show slice (sparseDotSparse S T) = fun p => slice S p * slice T p from
    funext fun p => slice_mul S T p]

theorem sparseDotVec_eq {a b P : ℕ} (S : Sp K a b P) (v : Fin (b * P) → K) :
    sparseDotVec S v = toDense S *ᵥ v := by
  funext r
  obtain ⟨⟨i, p⟩, rfl⟩ := finProdFinEquiv.surjective r
  rw [Matrix.mulVec, dotProduct, ← finProdFinEquiv.sum_comp, Fintype.sum_prod_type]
  simp only [toDense_apply]
  have e := finProdFinEquiv.symm_apply_apply (i, p)
  rw [finProdFinEquiv_symm_apply, Prod.mk.injEq] at e
  simp only [sparseDotVec, flat, unflat, e.1, e.2]
  refine sum_congr rfl fun j _ => ?_
  simp

theorem vecDotSparse_eq {a b P : ℕ} (S : Sp K a b P) (v : Fin (a * P) → K) :
    vecDotSparse v S = v ᵥ* toDense S := by
  funext r
  obtain ⟨⟨j, p⟩, rfl⟩ := finProdFinEquiv.surjective r
  rw [Matrix.vecMul, dotProduct, ← finProdFinEquiv.sum_comp, Fintype.sum_prod_type]
  simp only [toDense_apply]
  have e := finProdFinEquiv.symm_apply_apply (j, p)
  rw [finProdFinEquiv_symm_apply, Prod.mk.injEq] at e
  simp only [vecDotSparse, flat, unflat, e.1, e.2]
  refine sum_congr rfl fun j _ => ?_
  simp

theorem sparseDotDense_eq {a b P c : ℕ} (S : Sp K a b P) (D : Matrix (Fin (b * P)) (Fin c) K) :
    sparseDotDense S D = toDense S * D := by
  ext r j
  simp only [sparseDotDense, sparseDotVec_eq, Matrix.mul_apply, Matrix.mulVec, dotProduct]

theorem denseDotSparse_eq {r a b P : ℕ} (D : Matrix (Fin r) (Fin (a * P)) K) (S : Sp K a b P) :
    denseDotSparse D S = D * toDense S := by
  ext i j
  simp only [denseDotSparse, vecDotSparse_eq, Matrix.mul_apply, Matrix.vecMul, dotProduct]

theorem denseDotSparseDotDense_eq {a b c d P : ℕ} (X : Matrix (Fin a) (Fin (b * P)) K)
    (Y : Sp K b c P) (Z : Matrix (Fin (c * P)) (Fin d) K) :
    denseDotSparseDotDense X Y Z = X * (toDense Y * Z) := by
  ext r j
  simp only [denseDotSparseDotDense, sparseDotVec_eq, Matrix.mul_apply, Matrix.mulVec, dotProduct]

theorem det_toDense {N P : ℕ} (S : Sp K N N P) : (toDense S).det = ∏ p, (slice S p).det := by
  rw [toDense_eq, det_submatrix_equiv_self, det_blockDiagonal]

theorem slice_isUnit {N P : ℕ} {S : Sp K N N P} (h : IsUnit (toDense S).det) (p : Fin P) :
    IsUnit (slice S p).det := by
  rw [det_toDense, isUnit_iff_ne_zero, prod_ne_zero_iff] at h
  exact isUnit_iff_ne_zero.2 (h p (mem_univ p))

theorem slice_inv {N P : ℕ} (S : Sp K N N P) (p : Fin P) : slice (spInv S) p = (slice S p)⁻¹ := rfl

/-- The trailing block `A[m:, m:]`. -/
def trail {N : ℕ} (A : Matrix (Fin N) (Fin N) K) (m : ℕ) :
    Matrix (Fin (N - m)) (Fin (N - m)) K :=
  A.submatrix (fun i => ⟨m + i, by omega⟩) (fun i => ⟨m + i, by omega⟩)

/-- Split the first index off. -/
noncomputable def headTail {N m : ℕ} (h : m < N) : Unit ⊕ Fin (N - (m + 1)) ≃ Fin (N - m) :=
  Equiv.ofBijective (Sum.elim (fun _ => ⟨0, by omega⟩) (fun i => ⟨i + 1, by omega⟩)) (by
    rw [Fintype.bijective_iff_injective_and_card]
    constructor
    · rintro (x | x) (y | y) hxy
      · rfl
      · simp at hxy
      · simp at hxy
      · simp only [Sum.elim_inr, Fin.mk.injEq] at hxy
        congr 1; exact Fin.ext (by omega)
    · simp; omega)

theorem trail_det {N : ℕ} (A : Matrix (Fin N) (Fin N) K) (k : Fin N)
    (hu : IsUnit (trail A (k + 1)).det) :
    (trail A k).det = (A k k - ∑ i, A k (tailIx i) * ∑ j, (trail A (k + 1))⁻¹ i j * A (tailIx j) k)
      * (trail A (k + 1)).det := by
  have hk := k.2
  rw [← det_submatrix_equiv_self (headTail hk)]
  have e : (trail A k).submatrix (headTail hk) (headTail hk) = fromBlocks
      (Matrix.of fun _ _ : Unit => A k k) (Matrix.of fun _ j => A k (tailIx j))
      (Matrix.of fun i _ => A (tailIx i) k) (trail A (k + 1)) := by
    ext x y
    rcases x with x | x <;> rcases y with y | y <;>
      simp [headTail, trail, tailIx, add_assoc, add_comm 1]
  rw [e]
  have := invertibleOfIsUnitDet _ hu
  rw [det_fromBlocks₂₂, mul_comm]
  congr 1
  rw [det_unique, Matrix.sub_apply, Matrix.mul_assoc]
  simp only [Matrix.mul_apply, invOf_eq_nonsing_inv, Matrix.of_apply]

theorem trail_zero {N : ℕ} (A : Matrix (Fin N) (Fin N) K) : (trail A 0).det = A.det := by
  congr 1
  ext i j; simp [trail]

theorem trail_last {n : ℕ} (A : Matrix (Fin (n + 1)) (Fin (n + 1)) K) :
    (trail A n).det = A (Fin.last n) (Fin.last n) := by
  have e : Fin (n + 1 - n) ≃ Fin 1 := finCongr (by omega)
  rw [← det_submatrix_equiv_self e.symm, det_unique]
  simp only [trail, submatrix_apply, Fin.default_eq_zero]
  have : ∀ i : Fin (n + 1 - n), (⟨n + i, by omega⟩ : Fin (n + 1)) = Fin.last n := fun i =>
    Fin.ext (by simp; omega)
  rw [this]

theorem trail_slice {N P : ℕ} (S : Sp K N N P) (k : Fin N) (p : Fin P) :
    trail (slice S p) (k + 1)
      = slice (fun i j => S (tailIx (k := k) i) (tailIx (k := k) j)) p := rfl

theorem schurM_eq {N P : ℕ} (S : Sp ℝ N N P) (k : Fin N) (p : Fin P) :
    schurM S k p = slice S p k k - ∑ i, slice S p k (tailIx i)
      * ∑ j, (trail (slice S p) (k + 1))⁻¹ i j * slice S p (tailIx j) k := by
  simp only [schurM, sparseDotSparse, spInv, trail_slice]
  rfl

/-- The determinant of a slice as the product of the Schur complements. -/
theorem det_slice {n P : ℕ} (S : Sp ℝ (n + 1) (n + 1) P) (p : Fin P)
    (hu : ∀ m, 1 ≤ m → m ≤ n → IsUnit (trail (slice S p) m).det) :
    (slice S p).det
      = (∏ k : Fin n, schurM S k.castSucc p) * S (Fin.last n) (Fin.last n) p := by
  have step : ∀ j (hj : j ≤ n), (slice S p).det
      = (∏ k : Fin j, schurM S ⟨k, by omega⟩ p) * (trail (slice S p) j).det := by
    intro j
    induction j with
    | zero => intro _; rw [trail_zero]; simp
    | succ j ih =>
      intro hj
      rw [ih (by omega), Fin.prod_univ_castSucc, mul_assoc]
      congr 1
      rw [trail_det (slice S p) ⟨j, by omega⟩ (hu (j + 1) (by omega) hj), schurM_eq]
      rfl
  rw [step n le_rfl, trail_last]
  rfl

theorem signR_mul (x y : ℝ) : signR (x * y) = signR x * signR y := by
  unfold signR sgn
  rcases lt_trichotomy x 0 with hx | hx | hx <;> rcases lt_trichotomy y 0 with hy | hy | hy
  · simp [hx, hy, (mul_pos_of_neg_of_neg hx hy).not_gt, (mul_pos_of_neg_of_neg hx hy).ne']
  · simp [hy]
  · simp [hx, hy.not_gt, hy.ne', mul_neg_of_neg_of_pos hx hy]
  · simp [hx]
  · simp [hx]
  · simp [hx]
  · simp [hy, hx.not_gt, hx.ne', mul_neg_of_pos_of_neg hx hy]
  · simp [hy]
  · simp [hx.not_gt, hy.not_gt, hx.ne', hy.ne', (mul_pos hx hy).not_gt]

theorem signR_one : signR 1 = 1 := by
  simp [signR, sgn, not_lt.2 (zero_le_one' ℝ)]

theorem signR_prod {ι : Type*} (s : Finset ι) (f : ι → ℝ) :
    signR (∏ i ∈ s, f i) = ∏ i ∈ s, signR (f i) := by
  induction s using Finset.cons_induction with
  | empty => simp [signR_one]
  | cons a s ha ih => rw [prod_cons, prod_cons, signR_mul, ih]

theorem signR_mul_abs (x : ℝ) : signR x * |x| = x := by
  unfold signR sgn
  rcases lt_trichotomy x 0 with hx | hx | hx
  · simp [hx, abs_of_neg hx]
  · simp [hx]
  · simp [hx.not_gt, hx.ne', abs_of_pos hx]

theorem foldl_pair {ι : Type*} (l : List ι) (f g : ι → ℝ) (a b : ℝ) :
    l.foldl (fun acc i => (acc.1 * f i, acc.2 + g i)) (a, b)
      = (a * (l.map f).prod, b + (l.map g).sum) := by
  induction l generalizing a b with
  | nil => simp
  | cons x l ih => simp [ih, mul_assoc, add_assoc]

/-- The body of `slogdet` when every trailing block is invertible. -/
theorem slogdetBody_eq {n P : ℕ} (S : Sp ℝ (n + 1) (n + 1) P)
    (hu : ∀ p m, m ≤ n → IsUnit (trail (slice S p) m).det) :
    slogdetBody S = (signR (toDense S).det, Real.log |(toDense S).det|) := by
  have hd : ∀ p, (slice S p).det
      = (∏ k : Fin n, schurM S k.castSucc p) * S (Fin.last n) (Fin.last n) p :=
    fun p => det_slice S p fun m _ hm => hu p m hm
  have h0 : ∀ p, (slice S p).det ≠ 0 := fun p => by
    have := hu p 0 (by omega)
    rw [trail_zero] at this
    exact this.ne_zero
  have hM : ∀ p (k : Fin n), schurM S k.castSucc p ≠ 0 := fun p k => by
    have := h0 p
    rw [hd p] at this
    exact prod_ne_zero_iff.1 (left_ne_zero_of_mul this) k (mem_univ k)
  have hL : ∀ p, S (Fin.last n) (Fin.last n) p ≠ 0 := fun p => by
    have := h0 p
    rw [hd p] at this
    exact right_ne_zero_of_mul this
  unfold slogdetBody
  simp only
  rw [foldl_pair, ← Fin.prod_univ_def, ← Fin.sum_univ_def, det_toDense]
  simp only [blockDet]
  refine Prod.ext ?_ ?_
  · simp only
    rw [signR_prod, prod_comm, ← prod_mul_distrib]
    refine prod_congr rfl fun p _ => ?_
    rw [hd, signR_mul, signR_prod, mul_comm]
  · simp only
    rw [abs_prod, Real.log_prod fun p _ => abs_ne_zero.2 (h0 p), sum_comm, ← sum_add_distrib]
    refine sum_congr rfl fun p _ => ?_
    rw [hd, abs_mul, Real.log_mul (abs_ne_zero.2 (prod_ne_zero_iff.2 fun k _ => hM p k))
      (abs_ne_zero.2 (hL p)), abs_prod, Real.log_prod fun k _ => abs_ne_zero.2 (hM p k), add_comm]

theorem checkSparse_square {N P : ℕ} (S : Sp K N N P) : checkSparse (.d3 N N P S) true = .ok (.d3 N N P S) := by
  simp [checkSparse]

theorem invApi_d3 {a b P : ℕ} (S : Sp K a b P) : invApi (.d3 a b P S)
    = if h : a = b then .ok (.d3 a a P (spInv fun i j => S i (j.cast h))) else .error .valueError := by
  by_cases h : a = b
  · subst h
    simp only [invApi, checkSparse_square, dif_pos]
  · simp [invApi, checkSparse, h]

theorem slogdetApi_d3 {a b P : ℕ} (S : Sp ℝ a b P) : slogdetApi (.d3 a b P S)
    = if h : a = b then
        match a, S, h with
        | 0, _, _ => .error .indexError
        | _ + 1, S, h => .ok (slogdetBody fun i j => S i (j.cast h))
      else .error .valueError := by
  by_cases h : a = b
  · subst h
    cases a <;> simp only [slogdetApi, checkSparse_square, dif_pos]
  · simp [slogdetApi, checkSparse, h]

end JaxCosmo
