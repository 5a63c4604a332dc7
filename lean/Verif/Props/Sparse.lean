import Verif.Spec.Dense
import Verif.Proofs.Sparse
import Mathlib.LinearAlgebra.Matrix.PosDef
import Mathlib.Analysis.Matrix.PosDef
import Mathlib.LinearAlgebra.Matrix.Notation

/-! # C34–C38: sparse matrices with diagonal blocks -/

set_option linter.unusedSectionVars false

namespace JaxCosmo
open Spec Matrix
variable {K : Type*} [Field K]

/-! ## C34 -/

/-- C34: `to_dense` is the matrix the format describes. -/
theorem C34_toDense {a b P : ℕ} (S : Sp K a b P) : toDense S = denseEntry S := rfl

/-- C34: entry `(i * P + p, j * P + q)` is `S i j p` if `p = q` and `0` otherwise. -/
theorem C34_entry {a b P : ℕ} (S : Sp K a b P) (i : Fin a) (j : Fin b) (p q : Fin P)
    (r : Fin (a * P)) (c : Fin (b * P)) (hr : r.val = i * P + p) (hc : c.val = j * P + q) :
    toDense S r c = if p = q then S i j p else 0 := by
  have e1 : r = finProdFinEquiv (i, p) := Fin.ext (by
    rw [hr, finProdFinEquiv_apply_val, Nat.mul_comm, Nat.add_comm])
  have e2 : c = finProdFinEquiv (j, q) := Fin.ext (by
    rw [hc, finProdFinEquiv_apply_val, Nat.mul_comm, Nat.add_comm])
  rw [e1, e2, toDense_apply]

/-- C34: different arrays have different dense forms. -/
theorem C34_injective {a b P : ℕ} : Function.Injective (toDense : Sp K a b P → _) :=
  fun _ _ h => toDense_inj h

/-- C34: `to_dense` is additive and compatible with scaling. -/
theorem C34_linear {a b P : ℕ} (S T : Sp K a b P) (c : K) :
    toDense (fun i j p => S i j p + c * T i j p) = toDense S + c • toDense T := by
  ext r k
  by_cases h : r.modNat = k.modNat <;> simp [toDense, vstack, hstack, npDiag, h]

/-- C34: the checked entry point returns that matrix for 3-dimensional input and raises
`ValueError` for every other rank. -/
theorem C34_api (A : NdArr K) :
    toDenseApi A = match A with
      | .d3 a b P S => .ok (.d2 (a * P) (b * P) (denseEntry S))
      | _ => .error .valueError := by
  cases A <;> rfl

/-- Witness: a 1 × 2 arrangement of 2 × 2 diagonal blocks. -/
example : toDense (fun (_ : Fin 1) (j : Fin 2) (p : Fin 2) => (10 * j + p + 1 : ℚ))
    = !![1, 0, 11, 0; 0, 2, 0, 12] := by
  ext r c
  fin_cases r <;> fin_cases c <;>
    simp [toDense, vstack, hstack, npDiag, Fin.divNat, Fin.modNat] <;> norm_num

/-! ## C35 -/

theorem bcastDim_self (b : ℕ) : bcastDim b b = some ⟨b, Or.inl rfl, Or.inl rfl⟩ := by
  simp [bcastDim]

theorem sparseDotSparseRaw_self {a b c P : ℕ} (S : Sp K a b P) (T : Sp K b c P) :
    sparseDotSparseRaw S T = .ok ⟨P, sparseDotSparse S T⟩ := by
  simp only [sparseDotSparseRaw, bcastDim_self]
  have e : ∀ (m : ℕ) (h : m = m ∨ m = 1) (k : Fin m), bcastIx h k = k := by
    intro m h k; simp [bcastIx]
  simp only [e]
  rfl

/-- C35: sparse times vector. -/
theorem C35_sparse_vec {a b P : ℕ} (S : Sp K a b P) (v : Fin (b * P) → K) :
    dot [.d3 a b P S, .d1 (b * P) v] = .ok (.d1 (a * P) (denseEntry S *ᵥ v)) := by
  simp only [dot, Fin.cast_eq_self, dif_pos]
  rw [sparseDotVec_eq, C34_toDense]

/-- C35: sparse times dense. -/
theorem C35_sparse_dense {a b P c : ℕ} (S : Sp K a b P) (D : Matrix (Fin (b * P)) (Fin c) K) :
    dot [.d3 a b P S, .d2 (b * P) c D] = .ok (.d2 (a * P) c (denseEntry S * D)) := by
  simp only [dot, dif_pos]
  exact congrArg (fun M => Except.ok (NdArr.d2 (a * P) c M)) (sparseDotDense_eq S D)

/-- C35: vector times sparse. -/
theorem C35_vec_sparse {a b P : ℕ} (v : Fin (a * P) → K) (S : Sp K a b P) :
    dot [.d1 (a * P) v, .d3 a b P S] = .ok (.d1 (b * P) (v ᵥ* denseEntry S)) := by
  simp only [dot, Fin.cast_eq_self, dif_pos]
  rw [vecDotSparse_eq, C34_toDense]

/-- C35: dense times sparse. -/
theorem C35_dense_sparse {r a b P : ℕ} (D : Matrix (Fin r) (Fin (a * P)) K) (S : Sp K a b P) :
    dot [.d2 r (a * P) D, .d3 a b P S] = .ok (.d2 r (b * P) (D * denseEntry S)) := by
  simp only [dot, dif_pos]
  exact congrArg (fun M => Except.ok (NdArr.d2 r (b * P) M)) (denseDotSparse_eq D S)

/-- C35: sparse times sparse with matching blocks is sparse, and its dense form is the product. -/
theorem C35_sparse_sparse {a b c P : ℕ} (S : Sp K a b P) (T : Sp K b c P) :
    ∃ U : Sp K a c P, dot [.d3 a b P S, .d3 b c P T] = .ok (.d3 a c P U) ∧
      denseEntry U = denseEntry S * denseEntry T := by
  refine ⟨sparseDotSparse S T, ?_, toDense_mul S T⟩
  simp only [dot, if_true, sparseDotSparseRaw_self]

/-- C35: dense times sparse times dense. -/
theorem C35_bilinear {r b c P d : ℕ} (X : Matrix (Fin r) (Fin (b * P)) K) (Y : Sp K b c P)
    (Z : Matrix (Fin (c * P)) (Fin d) K) :
    dot [.d2 r (b * P) X, .d3 b c P Y, .d2 (c * P) d Z]
      = .ok (.d2 r d (X * denseEntry Y * Z)) := by
  simp only [dot, and_self, dif_pos]
  rw [Matrix.mul_assoc]
  exact congrArg (fun M => Except.ok (NdArr.d2 r d M)) (denseDotSparseDotDense_eq X Y Z)

/-- Witness: a 1 × 2 block matrix with blocks of size 2 applied to a vector. -/
example : dot [.d3 1 2 2 (fun _ j p => (10 * j + p + 1 : ℚ)), .d1 4 ![1, 2, 3, 4]]
    = .ok (.d1 2 ![34, 52]) := by
  refine (C35_sparse_vec (b := 2) (P := 2) _ _).trans ?_
  refine congrArg (fun v => Except.ok (NdArr.d1 2 v)) ?_
  ext r
  fin_cases r <;>
    simp [denseEntry, Matrix.mulVec, dotProduct, Fin.sum_univ_four, Fin.divNat, Fin.modNat] <;>
    norm_num

/-! ## C36 -/

/-- The block sizes of two sparse operands agree (no condition otherwise). -/
def SameBlocks : NdArr K → NdArr K → Prop
  | .d3 _ _ P _, .d3 _ _ Q _ => P = Q
  | _, _ => True

/-- C36: operands that have no matrix product are rejected with `ValueError`, whatever their
ranks and shapes. -/
theorem C36_rejects (A B : NdArr K)
    (h : ∀ X Y, asLeft A = some X → asRight B = some Y → X.mul Y = none) :
    dot [A, B] = .error .valueError := by
  have key : ∀ X Y : DMat K, X.mul Y = none → X.n ≠ Y.m := by
    intro X Y hm e; simp [DMat.mul, e] at hm
  cases A <;> cases B <;> try rfl
  all_goals
    have hk := key _ _ (h _ _ rfl rfl)
    simp only at hk
    simp [dot, hk]

/-- C36: the only accepted numbers of operands are two and three. -/
theorem C36_count (l : List (NdArr K)) (h : l.length ≠ 2) (h' : l.length ≠ 3) :
    dot l = .error .valueError := by
  match l with
  | [] => rfl
  | [a] => cases a <;> rfl
  | [_, _] => simp at h
  | [_, _, _] => simp at h'
  | a :: b :: c :: d :: l => cases a <;> cases b <;> cases c <;> rfl

/-- C36: three operands whose ranks are not dense, sparse, dense, or whose shapes do not multiply,
are rejected. -/
theorem C36_triple_rejects (A B C : NdArr K)
    (h : ∀ r n X b c P Y m d Z, A = .d2 r n X → B = .d3 b c P Y → C = .d2 m d Z →
      ¬(n = b * P ∧ c * P = m)) :
    dot [A, B, C] = .error .valueError := by
  cases A <;> cases B <;> cases C <;> try rfl
  have := h _ _ _ _ _ _ _ _ _ _ rfl rfl rfl
  simp only [dot]
  rw [dif_neg this]

theorem denotes_left {r : NdArr K} {m n : ℕ} {M M' : Matrix (Fin m) (Fin n) K}
    (h : asLeft r = some ⟨m, n, M⟩) (e : M = M') : Denotes r ⟨m, n, M'⟩ := Or.inl (e ▸ h)

/-- C36 (same block size): whenever `dot` of two operands returns, the operands have a matrix
product and the result stands for it.  Missing from C36: two sparse operands with different block
sizes, for which this is false (`C36_mismatch_wrong`, `C36_refuted`). -/
theorem C36_returns_partial (A B r : NdArr K) (hs : SameBlocks A B) (h : dot [A, B] = .ok r)
    (hP : ∀ a b P S, A = .d3 a b P S → 0 < P) :
    ∃ X Y Z, asLeft A = some X ∧ asRight B = some Y ∧ X.mul Y = some Z ∧ Denotes r Z := by
  cases A with
  | d0 x => cases B <;> cases h
  | hi k => cases B <;> cases h
  | d1 n v =>
    cases B with
    | d0 | hi | d1 => cases h
    | d2 m c D =>
      simp only [dot] at h
      split_ifs at h with e
      subst e
      cases h
      refine ⟨_, _, _, rfl, rfl, dif_pos rfl, denotes_left rfl ?_⟩
      ext i j; simp [Matrix.mul_apply]
    | d3 a b P S =>
      simp only [dot] at h
      split_ifs at h with e
      subst e
      cases h
      refine ⟨_, _, _, rfl, rfl, dif_pos rfl, denotes_left rfl ?_⟩
      ext i j
      simp [vecDotSparse_eq, C34_toDense, Matrix.mul_apply, Matrix.vecMul, dotProduct]
  | d2 r' n A =>
    cases B with
    | d0 | hi | d1 => cases h
    | d2 m c D =>
      simp only [dot] at h
      split_ifs at h with e
      subst e
      cases h
      refine ⟨_, _, _, rfl, rfl, dif_pos rfl, denotes_left rfl ?_⟩
      ext i j; simp [Matrix.mul_apply]
    | d3 a b P S =>
      simp only [dot] at h
      split_ifs at h with e
      subst e
      cases h
      refine ⟨_, _, _, rfl, rfl, dif_pos rfl, denotes_left rfl ?_⟩
      exact denseDotSparse_eq A S
  | d3 a b P S =>
    cases B with
    | d0 | hi => cases h
    | d1 n v =>
      simp only [dot] at h
      split_ifs at h with e
      subst e
      cases h
      refine ⟨_, _, _, rfl, rfl, dif_pos rfl, Or.inr ?_⟩
      simp only [asRight, Option.some.injEq]
      congr 1
      ext i j
      simp [sparseDotVec_eq, C34_toDense, Matrix.mul_apply, Matrix.mulVec, dotProduct]
    | d2 m c D =>
      simp only [dot] at h
      split_ifs at h with e
      subst e
      cases h
      refine ⟨_, _, _, rfl, rfl, dif_pos rfl, denotes_left rfl ?_⟩
      exact sparseDotDense_eq S D
    | d3 c d Q T =>
      obtain rfl : P = Q := hs
      simp only [dot] at h
      split_ifs at h with e
      obtain rfl : b = c := Nat.eq_of_mul_eq_mul_right (hP _ _ _ _ rfl) e
      rw [sparseDotSparseRaw_self] at h
      cases h
      refine ⟨_, _, _, rfl, rfl, dif_pos rfl, denotes_left rfl ?_⟩
      exact toDense_mul S T

/-- C36: whenever `dot` of three operands returns, the result is the bilinear form. -/
theorem C36_triple_returns (A B C r : NdArr K) (h : dot [A, B, C] = .ok r) :
    ∃ X Y Z W V, asLeft A = some X ∧ asLeft B = some Y ∧ asRight C = some Z ∧ X.mul Y = some W ∧
      W.mul Z = some V ∧ Denotes r V := by
  cases A <;> cases B <;> try cases h
  cases C <;> try cases h
  simp only [dot] at h
  split_ifs at h with e
  obtain ⟨e1, e2⟩ := e
  subst e1 e2
  cases h
  refine ⟨_, _, _, _, _, rfl, rfl, rfl, dif_pos rfl, dif_pos rfl, denotes_left rfl ?_⟩
  exact (denseDotSparseDotDense_eq _ _ _).trans (Matrix.mul_assoc _ _ _).symm

/-- C36: two sparse operands of different block sizes (and no empty axis) never give the right
answer: either `ValueError`, or a result of the wrong shape. -/
theorem C36_mismatch_wrong {a b c d P Q : ℕ} (S : Sp K a b P) (T : Sp K c d Q) (hPQ : P ≠ Q)
    (ha : 0 < a) (hb : 0 < b) (hd : 0 < d) (hshape : b * P = c * Q) :
    dot [.d3 a b P S, .d3 c d Q T] = .error .valueError ∨
    ∃ R U, dot [.d3 a b P S, .d3 c d Q T] = .ok (.d3 a d R U) ∧
      (a * R ≠ a * P ∨ d * R ≠ d * Q) := by
  have hbc : b ≠ c := by
    rintro rfl; exact hPQ (Nat.eq_of_mul_eq_mul_left hb hshape)
  simp only [dot, if_pos hshape]
  rcases hraw : sparseDotSparseRaw S T with e | ⟨R, U⟩
  · left
    unfold sparseDotSparseRaw at hraw
    split at hraw <;> cases hraw
    rfl
  · right
    refine ⟨R, U, rfl, ?_⟩
    unfold sparseDotSparseRaw at hraw
    split at hraw
    swap
    · cases hraw
    rename_i m hm R' hR _ _
    have eR : R' = R := by injection hraw with h; exact congrArg Sigma.fst h
    rw [← eR]
    by_contra hcon
    push Not at hcon
    have := Nat.eq_of_mul_eq_mul_left ha hcon.1
    have := Nat.eq_of_mul_eq_mul_left hd hcon.2
    omega

/-- C36 fails: a sparse 2 × 2 diagonal matrix (one block of size 2) times a sparse 2 × 1 matrix
(two blocks of size 1) has a 2 × 1 product, but `dot` returns an array for a 2 × 2 matrix. -/
theorem C36_refuted : ∃ (A B r : NdArr ℚ) (X Y Z : DMat ℚ), asLeft A = some X ∧ asRight B = some Y ∧
    X.mul Y = some Z ∧ dot [A, B] = .ok r ∧ ¬ Denotes r Z := by
  refine ⟨.d3 1 1 2 (fun _ _ p => p + 1), .d3 2 1 1 (fun i _ _ => i + 5), _, _, _, _, rfl, rfl,
    dif_pos rfl, rfl, ?_⟩
  rintro (h | h)
  · have := congrArg (Option.map DMat.n) h
    simp [asLeft] at this
  · have := congrArg (Option.map DMat.n) h
    simp [asRight] at this

/-! ## C37 -/

/-- C37: the dense form of `inv(S)` is the inverse of the dense form of `S`, on both sides. -/
theorem C37_inverse {N P : ℕ} (S : Sp K N N P) (h : IsUnit (denseEntry S).det) :
    ∃ T : Sp K N N P, invApi (.d3 N N P S) = .ok (.d3 N N P T) ∧
      denseEntry T * denseEntry S = 1 ∧ denseEntry S * denseEntry T = 1 ∧
      denseEntry T = (denseEntry S)⁻¹ := by
  have e : toDense (spInv S) * toDense S = 1 := by
    rw [toDense_eq, toDense_eq S, submatrix_mul_equiv, ← blockDiagonal_mul]
    have : (fun p => slice (spInv S) p * slice S p) = fun _ => 1 := funext fun p => by
      rw [slice_inv, nonsing_inv_mul _ (slice_isUnit h p)]
    rw [this]
    have : blockDiagonal (fun _ : Fin P => (1 : Matrix (Fin N) (Fin N) K)) = 1 := blockDiagonal_one
    rw [this, submatrix_one_equiv]
  refine ⟨spInv S, by simp [invApi, checkSparse], e, mul_eq_one_comm.1 e, ?_⟩
  exact (inv_eq_left_inv e).symm

/-- C37: inverting twice gives the matrix back. -/
theorem C37_involution {N P : ℕ} (S : Sp K N N P) (h : IsUnit (denseEntry S).det) :
    ∃ T : Sp K N N P, invApi (.d3 N N P S) = .ok (.d3 N N P T) ∧
      invApi (.d3 N N P T) = .ok (.d3 N N P S) := by
  refine ⟨spInv S, by simp [invApi, checkSparse], ?_⟩
  have : spInv (spInv S) = S := by
    funext i j p
    change (slice (spInv S) p)⁻¹ i j = S i j p
    rw [slice_inv, nonsing_inv_nonsing_inv _ (slice_isUnit h p)]
    rfl
  simp [invApi, checkSparse, this]

/-- C37: everything that is not a square sparse matrix is rejected. -/
theorem C37_rejects (A : NdArr K) (h : ∀ N P S, A ≠ .d3 N N P S) :
    invApi A = .error .valueError := by
  cases A with
  | d3 a b P S =>
    by_cases e : a = b
    · subst e; exact absurd rfl (h _ _ _)
    · simp [invApi, checkSparse, e]
  | _ => rfl

/-- Witness: a 2 × 2 arrangement of blocks of size 2 with invertible dense form. -/
example : IsUnit (denseEntry (fun (i j : Fin 2) (p : Fin 2) =>
    if i = j then (p + 2 : ℚ) else 1)).det := by
  rw [← C34_toDense, det_toDense, isUnit_iff_ne_zero]
  simp [Fin.prod_univ_two, slice, Matrix.det_fin_two]
  norm_num

/-! ## C38 -/

theorem slice_trailing {N P : ℕ} (S : Sp ℝ N N P) (m : ℕ) (p : Fin P) :
    slice (trailing S m) p = trail (slice S p) m := rfl

/-- C38 (invertible trailing blocks): `slogdet` returns the sign and the log of the modulus of the
determinant of the dense matrix when, besides the matrix itself, every trailing block matrix is
invertible.  Missing from C38: matrices that are invertible while some trailing block is not, for
which it is false (`C38_refuted`). -/
theorem C38_slogdet_partial {n P : ℕ} (S : Sp ℝ (n + 1) (n + 1) P)
    (h : ∀ m ≤ n, IsUnit (denseEntry (trailing S m)).det) :
    ∃ sign logdet, slogdetApi (.d3 (n + 1) (n + 1) P S) = .ok (sign, logdet) ∧
      (sign = 1 ∧ 0 < (denseEntry S).det ∨ sign = -1 ∧ (denseEntry S).det < 0) ∧
      logdet = Real.log |(denseEntry S).det| ∧ sign * Real.exp logdet = (denseEntry S).det := by
  have hu : ∀ p m, m ≤ n → IsUnit (trail (slice S p) m).det := fun p m hm => by
    rw [← slice_trailing]; exact slice_isUnit (h m hm) p
  have h0 : (toDense S).det ≠ 0 := by
    rw [det_toDense, Finset.prod_ne_zero_iff]
    intro p _
    have := hu p 0 (Nat.zero_le n)
    rw [trail_zero] at this
    exact this.ne_zero
  have hs : slogdetApi (.d3 (n + 1) (n + 1) P S)
      = .ok (signR (toDense S).det, Real.log |(toDense S).det|) := by
    simp only [slogdetApi, checkSparse_square, dif_pos, Fin.cast_eq_self]; rw [slogdetBody_eq S hu]
  refine ⟨_, _, hs, ?_, rfl, ?_⟩
  · rw [← C34_toDense]
    rcases lt_or_gt_of_ne h0 with hd | hd
    · right; exact ⟨by simp [signR, sgn, hd], hd⟩
    · left; exact ⟨by simp [signR, sgn, hd.not_gt, hd.ne'], hd⟩
  · rw [Real.exp_log (abs_pos.2 h0), signR_mul_abs]; rfl

/-- C38 (invertible trailing blocks): `det` returns the determinant of the dense matrix. -/
theorem C38_det_partial {n P : ℕ} (S : Sp ℝ (n + 1) (n + 1) P)
    (h : ∀ m ≤ n, IsUnit (denseEntry (trailing S m)).det) :
    detApi (.d3 (n + 1) (n + 1) P S) = .ok (denseEntry S).det := by
  obtain ⟨s, l, h1, -, -, h2⟩ := C38_slogdet_partial S h
  simp only [detApi, h1, h2]

theorem trailing_posDef {N P : ℕ} {S : Sp ℝ N N P} (h : (denseEntry S).PosDef) (m : ℕ) :
    (denseEntry (trailing S m)).PosDef := by
  have e : denseEntry (trailing S m) = (denseEntry S).submatrix
      (fun r : Fin ((N - m) * P) => finProdFinEquiv (⟨m + r.divNat, by omega⟩, r.modNat))
      (fun r : Fin ((N - m) * P) => finProdFinEquiv (⟨m + r.divNat, by omega⟩, r.modNat)) := by
    ext r c
    rw [submatrix_apply, ← C34_toDense S, toDense_apply]
    rfl
  rw [e]
  refine h.submatrix fun r s hrs => ?_
  have := finProdFinEquiv.injective hrs
  simp only [Prod.mk.injEq, Fin.mk.injEq] at this
  apply finProdFinEquiv.symm.injective
  simp only [finProdFinEquiv_symm_apply, Prod.mk.injEq]
  exact ⟨Fin.ext (by omega), this.2⟩

/-- C38 for covariance matrices: for every sparse matrix with positive definite dense form
`slogdet` returns `(1, log det)` and `det` the determinant. -/
theorem C38_posDef {n P : ℕ} (S : Sp ℝ (n + 1) (n + 1) P) (h : (denseEntry S).PosDef) :
    slogdetApi (.d3 (n + 1) (n + 1) P S) = .ok (1, Real.log (denseEntry S).det) ∧
    detApi (.d3 (n + 1) (n + 1) P S) = .ok (denseEntry S).det := by
  have hu : ∀ m ≤ n, IsUnit (denseEntry (trailing S m)).det := fun m _ =>
    isUnit_iff_ne_zero.2 (trailing_posDef h m).det_pos.ne'
  obtain ⟨s, l, h1, h2, h3, h4⟩ := C38_slogdet_partial S hu
  refine ⟨?_, C38_det_partial S hu⟩
  have hd := h.det_pos
  rcases h2 with ⟨rfl, -⟩ | ⟨-, h2⟩
  · rw [h1, h3, abs_of_pos hd]
  · exact absurd h2 hd.not_gt

/-- C38: everything that is not a square sparse matrix is rejected. -/
theorem C38_rejects (A : NdArr ℝ) (h : ∀ N P S, A ≠ .d3 N N P S) :
    detApi A = .error .valueError := by
  cases A with
  | d3 a b P S =>
    by_cases e : a = b
    · subst e; exact absurd rfl (h _ _ _)
    · simp [detApi, slogdetApi, checkSparse, e]
  | _ => rfl

/-- Witness: blocks `[[2, 1], [1, 2]]`, both for the trailing blocks and for positivity of the
determinant. -/
example : ∀ m ≤ 1, IsUnit (denseEntry (trailing (fun (i j : Fin 2) (_ : Fin 1) =>
    if i = j then (2 : ℝ) else 1) m)).det := by
  intro m hm
  rw [← C34_toDense, det_toDense, isUnit_iff_ne_zero]
  interval_cases m
  · simp [slice, trailing, Matrix.det_fin_two]
    norm_num
  · simp [slice, trailing]

/-- C38 fails: for the exchange matrix `[[0, 1], [1, 0]]` (blocks of size 1), whose determinant is
`-1`, the returned sign is `0` (the code multiplies by the sign of the last diagonal entry). -/
theorem C38_refuted : ∃ (S : Sp ℝ 2 2 1), IsUnit (denseEntry S).det ∧ (denseEntry S).det = -1 ∧
    ∃ logdet, slogdetApi (.d3 2 2 1 S) = .ok (0, logdet) ∧ detApi (.d3 2 2 1 S) = .ok 0 := by
  refine ⟨fun i j _ => if i = j then 0 else 1, ?_, ?_, ?_⟩
  · rw [← C34_toDense, det_toDense, isUnit_iff_ne_zero]
    simp [slice, Matrix.det_fin_two]
  · rw [← C34_toDense, det_toDense]
    simp [slice, Matrix.det_fin_two]
  · have h : (slogdetBody (fun (i j : Fin 2) (_ : Fin 1) => if i = j then (0 : ℝ) else 1)).1 = 0 := by
      simp [slogdetBody, foldl_pair, signR, sgn]
    refine ⟨(slogdetBody (fun (i j : Fin 2) (_ : Fin 1) => if i = j then (0 : ℝ) else 1)).2, ?_, ?_⟩
    · simp only [slogdetApi, checkSparse_square, dif_pos, Fin.cast_eq_self]
      exact congrArg Except.ok (Prod.ext h rfl)
    · simp only [detApi, slogdetApi, checkSparse_square, dif_pos, Fin.cast_eq_self]
      rw [h, zero_mul]

end JaxCosmo
