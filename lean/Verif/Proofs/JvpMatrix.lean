import Verif.Model.DualLikelihood
import Verif.Spec.JvpArrays
import Verif.Proofs.MatrixCalculus
import Verif.Proofs.JvpSpectra
import Mathlib.Analysis.Matrix.LDL
import Mathlib.LinearAlgebra.Matrix.Block

/-! # Helper lemmas: derivatives of dense linear algebra -/

namespace JaxCosmo
open Matrix Xr

/-! ## Finite matrices -/

namespace Xr

theorem foldr_fin (l : List Xr) (g : List ℝ) (h : l = g.map fin) :
    l.foldr (· + ·) 0 = fin g.sum := by
  subst h
  induction g with
  | nil => rfl
  | cons a g ih => rw [List.map_cons, List.foldr_cons, ih, List.sum_cons]; rfl

theorem asum_fin {n : ℕ} {f : Fin n → Xr} {g : Fin n → ℝ} (h : ∀ i, f i = fin (g i)) :
    asum f = fin (∑ i, g i) := by
  unfold asum
  rw [foldr_fin _ (List.ofFn g), List.sum_ofFn]
  rw [List.map_ofFn]
  congr 1
  funext i
  exact h i

/-- The matrix with real entries. -/
def ofMat {m n : ℕ} (A : Matrix (Fin m) (Fin n) ℝ) : Matrix (Fin m) (Fin n) Xr := fun i j => fin (A i j)
/-- The vector with real entries. -/
def ofVec {n : ℕ} (v : Fin n → ℝ) : Fin n → Xr := fun i => fin (v i)

theorem mmul_ofMat {m n k : ℕ} (A : Matrix (Fin m) (Fin n) ℝ) (B : Matrix (Fin n) (Fin k) ℝ) :
    mmul (ofMat A) (ofMat B) = ofMat (A * B) := by
  funext i j
  exact asum_fin fun l => rfl

theorem mvec_ofVec {m n : ℕ} (A : Matrix (Fin m) (Fin n) ℝ) (v : Fin n → ℝ) :
    mvec (ofMat A) (ofVec v) = ofVec (A *ᵥ v) := by
  funext i
  exact asum_fin fun l => rfl

theorem reMat_ofMat {m n : ℕ} (A : Matrix (Fin m) (Fin n) ℝ) : reMat (ofMat A) = A := rfl
theorem finiteMat_ofMat {m n : ℕ} (A : Matrix (Fin m) (Fin n) ℝ) : FiniteMat (ofMat A) := fun _ _ => rfl

theorem minv_ofMat {n : ℕ} {A : Matrix (Fin n) (Fin n) ℝ} (h : A.det ≠ 0) :
    Xr.minv (ofMat A) = ofMat A⁻¹ := by
  exact if_pos (α := Matrix (Fin n) (Fin n) Xr) ⟨finiteMat_ofMat A, h⟩

theorem mlogdet_ofMat {n : ℕ} {A : Matrix (Fin n) (Fin n) ℝ} (h : A.det ≠ 0) :
    mlogdet (ofMat A) = fin (Real.log |A.det|) := by
  unfold mlogdet
  rw [if_pos (finiteMat_ofMat A), reMat_ofMat, if_neg h]

end Xr

/-! ## Cholesky factors -/

/-- The real counterpart of `phi`. -/
noncomputable def rphi {n : ℕ} (X : Matrix (Fin n) (Fin n) ℝ) : Matrix (Fin n) (Fin n) ℝ :=
  fun i j => (if j ≤ i then X i j else 0) / (if i = j then 2 else 1)

theorem phi_ofMat {n : ℕ} (X : Matrix (Fin n) (Fin n) ℝ) : phi (ofMat X) = ofMat (rphi X) := by
  funext i j
  unfold phi ofMat rphi
  split_ifs <;> rw [div_fin _ (by norm_num)]

theorem rphi_add {n : ℕ} {X : Matrix (Fin n) (Fin n) ℝ} (h : Xᵀ = X) : rphi X + (rphi X)ᵀ = X := by
  ext i j
  have hij : X j i = X i j := congrFun (congrFun h i) j
  simp only [Matrix.add_apply, transpose_apply, rphi]
  rcases lt_trichotomy i j with hlt | rfl | hlt
  · rw [if_neg (not_le.2 hlt), if_neg hlt.ne, if_pos hlt.le, if_neg hlt.ne', hij]
    ring
  · simp
  · rw [if_pos hlt.le, if_neg hlt.ne', if_neg (not_le.2 hlt), if_neg hlt.ne]
    ring

theorem Xr.IsCholesky.det_ne {n : ℕ} {M L : Matrix (Fin n) (Fin n) ℝ} (h : IsCholesky M L) : L.det ≠ 0 := by
  rw [det_of_isLowerTriangular L fun i j hij => h.1 i j hij]
  exact Finset.prod_ne_zero_iff.2 fun i _ => (h.2.1 i).ne'

/-- A positive definite matrix has a Cholesky factor. -/
theorem exists_cholesky {n : ℕ} {M : Matrix (Fin n) (Fin n) ℝ} (h : M.PosDef) : ∃ L, IsCholesky M L := by
  set Li := LDL.lowerInv h with hLi
  have hinv : IsUnit Li.det := (Matrix.isUnit_iff_isUnit_det _).1 (isUnit_of_invertible Li)
  have hD : LDL.diag h = Li * M * Liᴴ := LDL.diag_eq_lowerInv_conj h
  have hpos : ∀ i, 0 < LDL.diagEntries h i := by
    have hpd : (LDL.diag h).PosDef := by
      rw [hD]
      refine h.mul_mul_conjTranspose_same ?_
      exact Matrix.vecMul_injective_of_isUnit ((Matrix.isUnit_iff_isUnit_det _).2 hinv)
    intro i
    have := hpd.diag_pos (i := i)
    rwa [LDL.diag, diagonal_apply_eq] at this
  have htri : Li.BlockTriangular OrderDual.toDual := fun i j hij => LDL.lowerInv_triangular h hij
  have : Invertible Li := LDL.invertibleLowerInv h
  have htri' : (LDL.lower h).BlockTriangular OrderDual.toDual :=
    blockTriangular_inv_of_blockTriangular htri
  set W : Matrix (Fin n) (Fin n) ℝ := LDL.lower h * diagonal fun i => √(LDL.diagEntries h i) with hW
  have hWW : W * Wᵀ = M := by
    have e : (diagonal fun i => √(LDL.diagEntries h i)) * (diagonal fun i => √(LDL.diagEntries h i))
        = LDL.diag h := by
      rw [diagonal_mul_diagonal, LDL.diag]
      congr 1
      funext i
      exact Real.mul_self_sqrt (hpos i).le
    have := LDL.lower_conj_diag h
    rw [conjTranspose_eq_transpose_of_trivial] at this
    rw [hW, transpose_mul, diagonal_transpose, ← Matrix.mul_assoc, Matrix.mul_assoc (LDL.lower h), e, this]
  have hWt : ∀ i j, i < j → W i j = 0 := by
    intro i j hij
    rw [hW, mul_diagonal, htri' (by exact hij), zero_mul]
  have hWd : W.det ≠ 0 := by
    intro h0
    have := congrArg det hWW
    rw [det_mul, h0, zero_mul] at this
    exact h.det_pos.ne this
  have hWi : ∀ i, W i i ≠ 0 := by
    rw [det_of_isLowerTriangular W fun i j hij => hWt i j hij] at hWd
    exact fun i => Finset.prod_ne_zero_iff.1 hWd i (Finset.mem_univ i)
  refine ⟨W * diagonal fun i => (SignType.sign (W i i) : ℝ), fun i j hij => ?_, fun i => ?_, ?_⟩
  · rw [mul_diagonal, hWt i j hij, zero_mul]
  · rw [mul_diagonal, mul_comm]
    have := abs_pos.2 (hWi i)
    rwa [← sign_mul_self] at this
  · rw [transpose_mul, diagonal_transpose, ← Matrix.mul_assoc, Matrix.mul_assoc W, diagonal_mul_diagonal]
    have e : (diagonal fun i => (SignType.sign (W i i) : ℝ) * (SignType.sign (W i i) : ℝ))
        = (1 : Matrix (Fin n) (Fin n) ℝ) := by
      rw [← diagonal_one]
      congr 1
      funext i
      rcases lt_or_gt_of_ne (hWi i) with hi | hi
      · simp [sign_neg hi]
      · simp [sign_pos hi]
    rw [e, Matrix.mul_one, hWW]

theorem chol_ofMat {n : ℕ} {A : Matrix (Fin n) (Fin n) ℝ} (h : A.PosDef) (hs : lowerSym A = A) :
    ∃ L, IsCholesky A L ∧ chol (ofMat A) = ofMat L := by
  have hc : FiniteMat (ofMat A) ∧ ∃ L, IsCholesky (lowerSym (reMat (ofMat A))) L :=
    ⟨finiteMat_ofMat A, by rw [reMat_ofMat, hs]; exact exists_cholesky h⟩
  refine ⟨Classical.choose hc.2, ?_, dif_pos (α := Matrix (Fin n) (Fin n) Xr) hc⟩
  have key : ∀ {M M' L : Matrix (Fin n) (Fin n) ℝ}, M = M' → IsCholesky M L → IsCholesky M' L :=
    fun e h => e ▸ h
  exact key (by rw [reMat_ofMat, hs]) (Classical.choose_spec hc.2)

namespace Spec

variable {s : ℝ} {m n k : ℕ}

theorem jvp_fsum {f : Fin n → ℝ → ℝ} {d : Fin n → Du} (h : ∀ i, Jvp (f i) s (d i)) :
    Jvp (fun r => ∑ i, f i r) s (Dm.fsum d) := by
  have := jvp_lsum (s := s) (List.ofFn fun i => ((f i, d i) : Leaf)) fun l hl => by
    obtain ⟨i, rfl⟩ := (List.mem_ofFn' _ _).1 hl
    exact h i
  unfold Dm.fsum
  simp only [List.map_ofFn, Function.comp_def, List.sum_ofFn] at this
  exact this

namespace JvpMat
variable {A : ℝ → Matrix (Fin m) (Fin n) ℝ} {D : Matrix (Fin m) (Fin n) Du}

theorem val (h : JvpMat s A D) : Dm.matVal D = ofMat (A s) := by
  funext i j
  exact (h i j).val

theorem deriv (h : JvpMat s A D) : ∃ A', MatDeriv A A' s ∧
    (Dm.matTan D = some (ofMat A') ∨ Dm.matTan D = none ∧ A' = 0) := by
  choose A' h1 _ h3 using h
  refine ⟨A', h1, ?_⟩
  unfold Dm.matTan
  split_ifs with hn
  · refine .inr ⟨rfl, ?_⟩
    ext i j
    have := h3 i j
    rw [Du.tangent, hn i j] at this
    exact (Xr.fin.inj this).symm
  · left
    congr 1
    funext i j
    exact h3 i j

end JvpMat

namespace JvpVec
variable {v : ℝ → Fin n → ℝ} {d : Fin n → Du}

theorem val (h : JvpVec s v d) : (fun i => (d i).val) = ofVec (v s) := by
  funext i
  exact (h i).val

theorem deriv (h : JvpVec s v d) : ∃ v' : Fin n → ℝ, (∀ i, HasDerivAt (fun r => v r i) (v' i) s) ∧
    (Dm.vecTan d = some (ofVec v') ∨ Dm.vecTan d = none ∧ v' = 0) := by
  choose v' h1 _ h3 using h
  refine ⟨v', h1, ?_⟩
  unfold Dm.vecTan
  split_ifs with hn
  · refine .inr ⟨rfl, ?_⟩
    ext i
    have := h3 i
    rw [Du.tangent, hn i] at this
    exact (Xr.fin.inj this).symm
  · left
    congr 1
    funext i
    exact h3 i

end JvpVec

/-- The inverse of a matrix. -/
theorem JvpMat.inv {A : ℝ → Matrix (Fin n) (Fin n) ℝ} {D : Matrix (Fin n) (Fin n) Du} (h : JvpMat s A D)
    (h0 : (A s).det ≠ 0) : JvpMat s (fun r => (A r)⁻¹) (Dm.minv D) := by
  obtain ⟨A', hA, ht⟩ := h.deriv
  have hi := hA.inv h0
  intro i j
  refine ⟨_, hi i j, ?_, ?_⟩
  · change Xr.minv (Dm.matVal D) i j = _
    rw [h.val, minv_ofMat h0]; rfl
  · change ((Dm.matTan D).map fun dA => mmul (Xr.minv (Dm.matVal D))
      (fun k l => -(mmul dA (Xr.minv (Dm.matVal D)) k l)) i j).getD (fin 0) = _
    rw [h.val, minv_ofMat h0]
    rcases ht with ht | ⟨ht, rfl⟩
    · rw [ht]
      change mmul (ofMat (A s)⁻¹) (fun k l => -(mmul (ofMat A') (ofMat (A s)⁻¹) k l)) i j = _
      rw [mmul_ofMat]
      have e : (fun k l => -(ofMat (A' * (A s)⁻¹) k l)) = ofMat (-(A' * (A s)⁻¹)) := rfl
      rw [e, mmul_ofMat, Matrix.mul_neg, ← Matrix.mul_assoc]
      rfl
    · rw [ht]
      simp

/-- The logarithm of the determinant. -/
theorem JvpMat.logdet {A : ℝ → Matrix (Fin n) (Fin n) ℝ} {D : Matrix (Fin n) (Fin n) Du} (h : JvpMat s A D)
    (h0 : (A s).det ≠ 0) : Jvp (fun r => Real.log |(A r).det|) s (Dm.logdet D) := by
  obtain ⟨A', hA, ht⟩ := h.deriv
  refine ⟨_, hA.logdet h0, ?_, ?_⟩
  · change mlogdet (Dm.matVal D) = _
    rw [h.val, mlogdet_ofMat h0]
  · change ((Dm.matTan D).map fun dA => Xr.asum fun i => mmul (Xr.minv (Dm.matVal D)) dA i i).getD (fin 0) = _
    rw [h.val, minv_ofMat h0]
    rcases ht with ht | ⟨ht, rfl⟩
    · rw [ht]
      change Xr.asum (fun i => mmul (ofMat (A s)⁻¹) (ofMat A') i i) = _
      rw [mmul_ofMat]
      exact asum_fin fun i => rfl
    · rw [ht]
      simp

/-- Matrix times vector. -/
theorem mulVec_deriv' {A : ℝ → Matrix (Fin m) (Fin n) ℝ} {A' : Matrix (Fin m) (Fin n) ℝ}
    {v : ℝ → Fin n → ℝ} {v' : Fin n → ℝ} (hA : MatDeriv A A' s)
    (hv : ∀ i, HasDerivAt (fun r => v r i) (v' i) s) (i : Fin m) :
    HasDerivAt (fun r => (A r *ᵥ v r) i) ((A' *ᵥ v s + A s *ᵥ v') i) s := by
  have h := HasDerivAt.fun_sum (u := Finset.univ) fun l _ => (hA i l).mul (hv l)
  refine (h.congr_deriv ?_).congr_of_eventuallyEq (Filter.Eventually.of_forall fun r => ?_)
  · rw [Finset.sum_add_distrib]; rfl
  · simp only [mulVec, dotProduct, Pi.mul_apply]

/-- The algebra of the two triangular solves: with `L Lᵀ = A` and `dL = L phi(L⁻¹ dA L⁻ᵀ)` they give the
derivative of `A⁻¹ r`. -/
theorem cho_algebra {A L A' : Matrix (Fin n) (Fin n) ℝ} (hL : L * Lᵀ = A) (h0 : L.det ≠ 0) (hs : A'ᵀ = A')
    (r r' : Fin n → ℝ) :
    (L⁻¹)ᵀ *ᵥ (-((L * rphi (L⁻¹ * (A' * (L⁻¹)ᵀ)))ᵀ *ᵥ ((L⁻¹)ᵀ *ᵥ (L⁻¹ *ᵥ r))))
      + (L⁻¹)ᵀ *ᵥ (L⁻¹ *ᵥ (-((L * rphi (L⁻¹ * (A' * (L⁻¹)ᵀ))) *ᵥ (L⁻¹ *ᵥ r))) + L⁻¹ *ᵥ r')
      = -(A⁻¹ * A' * A⁻¹) *ᵥ r + A⁻¹ *ᵥ r' := by
  have hu : IsUnit L.det := isUnit_iff_ne_zero.2 h0
  have hA : A⁻¹ = (L⁻¹)ᵀ * L⁻¹ := by rw [← hL, Matrix.mul_inv_rev, transpose_nonsing_inv]
  set X := L⁻¹ * (A' * (L⁻¹)ᵀ) with hX
  have hXs : Xᵀ = X := by
    rw [hX, transpose_mul, transpose_mul, transpose_transpose, hs, Matrix.mul_assoc]
  have hφ := rphi_add hXs
  have e1 : L⁻¹ * (L * rphi X) = rphi X := by
    rw [← Matrix.mul_assoc, nonsing_inv_mul _ hu, Matrix.one_mul]
  have e2 : (L * rphi X)ᵀ * (L⁻¹)ᵀ = (rphi X)ᵀ := by
    rw [← transpose_mul, e1]
  have e3 : A⁻¹ * A' * A⁻¹ = (L⁻¹)ᵀ * X * L⁻¹ := by
    rw [hA, hX]
    simp only [Matrix.mul_assoc]
  have e4 : (L⁻¹)ᵀ * X * L⁻¹ = (L⁻¹)ᵀ * (rphi X + (rphi X)ᵀ) * L⁻¹ := by rw [hφ]
  rw [e3, e4, hA]
  generalize rphi X = Y at *
  simp only [mulVec_add, mulVec_neg, neg_mulVec, mulVec_mulVec, Matrix.mul_assoc, Matrix.mul_add,
    Matrix.add_mul, add_mulVec]
  rw [← Matrix.mul_assoc ((L * Y)ᵀ), e2, ← Matrix.mul_assoc L⁻¹ L, nonsing_inv_mul _ hu, Matrix.one_mul]
  abel

/-- Solving with a Cholesky factor. -/
theorem JvpMat.choSolve {A : ℝ → Matrix (Fin n) (Fin n) ℝ} {D : Matrix (Fin n) (Fin n) Du} (h : JvpMat s A D)
    (hs : ∀ r, (A r).IsSymm) (hp : (A s).PosDef) {v : ℝ → Fin n → ℝ} {d : Fin n → Du} (hv : JvpVec s v d) :
    JvpVec s (fun r => (lowerSym (A r))⁻¹ *ᵥ v r) (Dm.choSolve D d) := by
  have hls : ∀ r, lowerSym (A r) = A r := fun r => by
    ext i j
    unfold lowerSym
    split_ifs
    · rfl
    · exact (hs r).apply i j
  simp only [hls]
  obtain ⟨A', hA, ht⟩ := h.deriv
  obtain ⟨v', hv', hu⟩ := hv.deriv
  obtain ⟨L, hL, hch⟩ := chol_ofMat hp (hls s)
  have hAs : A'ᵀ = A' := by
    refine (hA.transpose).unique (s := s) ?_
    simp only [(hs _).eq]
    exact hA
  have h0 := hL.det_ne
  have hi : Xr.minv (chol (Dm.matVal D)) = ofMat L⁻¹ := by rw [h.val, hch, minv_ofMat h0]
  have hT : (fun i j => ofMat L⁻¹ j i) = ofMat (L⁻¹)ᵀ := rfl
  have hAi : (A s)⁻¹ = (L⁻¹)ᵀ * L⁻¹ := by rw [← hL.2.2, Matrix.mul_inv_rev, transpose_nonsing_inv]
  intro i
  refine ⟨_, mulVec_deriv' (hA.inv hp.det_pos.ne') hv' i, ?_, ?_⟩
  · change mvec (fun i j => Xr.minv (chol (Dm.matVal D)) j i)
      (mvec (Xr.minv (chol (Dm.matVal D))) fun i => (d i).val) i = _
    rw [hi, hT, hv.val, mvec_ofVec, mvec_ofVec, mulVec_mulVec, ← hAi]
    rfl
  · have key := cho_algebra hL.2.2 h0 hAs (v s) v'
    unfold Dm.choSolve
    simp only [Du.tangent]
    rw [h.val, hch, minv_ofMat h0, hv.val, hT]
    rw [← key]
    have neg_of : ∀ w : Fin n → ℝ, (fun i => -(ofVec w i)) = ofVec (-w) := fun _ => rfl
    have tr_of : ∀ M : Matrix (Fin n) (Fin n) ℝ, (fun i j => ofMat M j i) = ofMat Mᵀ := fun _ => rfl
    rcases ht with ht | ⟨ht, rfl⟩ <;> rcases hu with hu | ⟨hu, rfl⟩
    · rw [ht, hu]
      simp only [Option.map_some, Dm.vtadd, mmul_ofMat, phi_ofMat, mvec_ofVec, neg_of, tr_of, Option.getD_some]
      have add_of : ∀ w x : Fin n → ℝ, (fun i => ofVec w i + ofVec x i) = ofVec (w + x) := fun _ _ => rfl
      rw [add_of, mvec_ofVec]
      rfl
    · rw [ht, hu]
      simp only [Option.map_some, Option.map_none, Dm.vtadd, mmul_ofMat, phi_ofMat, mvec_ofVec, neg_of, tr_of,
        Option.getD_some]
      rw [mulVec_zero, add_zero]
      rfl
    · rw [ht, hu]
      simp only [Option.map_some, Option.map_none, Dm.vtadd, mvec_ofVec, Option.getD_some]
      have hz : rphi (L⁻¹ * ((0 : Matrix (Fin n) (Fin n) ℝ) * (L⁻¹)ᵀ)) = 0 := by
        ext i j; simp [rphi]
      rw [hz]
      simp only [Matrix.mul_zero, transpose_zero, zero_mulVec, neg_zero, mulVec_zero, zero_add]
      rfl
    · rw [ht, hu]
      have hz : rphi (L⁻¹ * ((0 : Matrix (Fin n) (Fin n) ℝ) * (L⁻¹)ᵀ)) = 0 := by
        ext i j; simp [rphi]
      rw [hz]
      simp [Dm.vtadd]

end Spec

end JaxCosmo
