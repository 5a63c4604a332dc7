import Verif.Props.DefinedCovariance
import Verif.Props.Pipeline
import Verif.Proofs.XrLikelihood

/-! # C141, C142: when the log likelihood and the determinant are numbers -/

namespace JaxCosmo
open Xr Spec Matrix EH

/-! ## There are such matrix routines -/

open Classical in
/-- Routines that answer NaN wherever nothing is promised. -/
noncomputable def nanLapack : Xm.Lapack where
  inv M := if h : ∃ A : Matrix _ _ ℝ, M = Xm.ofReal A ∧ A.det ≠ 0 then Xm.ofReal h.choose⁻¹ else Matrix.of fun _ _ => nan
  cho M r :=
    if h : ∃ x : Matrix _ _ ℝ × (_ → ℝ), M = Xm.ofReal x.1 ∧ (lowerSym x.1).PosDef ∧ r = fun i => fin (x.2 i) then
      fun i => fin (((lowerSym h.choose.1)⁻¹.mulVec h.choose.2) i)
    else fun _ => nan
  logdet M := if h : ∃ A : Matrix _ _ ℝ, M = Xm.ofReal A then (fin h.choose.det).abs.log else nan
  inv_ok {n} A hA := by
    have inj : ∀ B, Xm.ofReal A = Xm.ofReal B → A = B := fun B e => by
      ext i j; exact Xr.fin.inj (congrFun (congrFun e i) j)
    have h : ∃ B : Matrix (Fin n) (Fin n) ℝ, Xm.ofReal A = Xm.ofReal B ∧ B.det ≠ 0 := ⟨A, rfl, hA⟩
    rw [dif_pos h, ← inj _ h.choose_spec.1]
  inv_bad {n} A hA := by
    have inj : ∀ B, Xm.ofReal A = Xm.ofReal B → A = B := fun B e => by
      ext i j; exact Xr.fin.inj (congrFun (congrFun e i) j)
    have h : ¬ ∃ B : Matrix (Fin n) (Fin n) ℝ, Xm.ofReal A = Xm.ofReal B ∧ B.det ≠ 0 := by
      rintro ⟨B, e, hB⟩
      rw [← inj B e] at hB
      exact hB hA
    rw [dif_neg h]
    rcases n with _ | n
    · simp at hA
    · exact ⟨0, 0, id⟩
  cho_ok {n} A r hA := by
    have h : ∃ x : Matrix (Fin n) (Fin n) ℝ × (Fin n → ℝ), Xm.ofReal A = Xm.ofReal x.1 ∧ (lowerSym x.1).PosDef ∧
      (fun i => fin (r i)) = fun i => fin (x.2 i) := ⟨(A, r), rfl, hA, rfl⟩
    have e1 : A = h.choose.1 := by
      ext i j; exact Xr.fin.inj (congrFun (congrFun h.choose_spec.1 i) j)
    have e2 : r = h.choose.2 := funext fun i => Xr.fin.inj (congrFun h.choose_spec.2.2 i)
    rw [dif_pos h, ← e1, ← e2]
  cho_bad {n} A r hA := by
    have h : ¬ ∃ x : Matrix (Fin n) (Fin n) ℝ × (Fin n → ℝ), Xm.ofReal A = Xm.ofReal x.1 ∧ (lowerSym x.1).PosDef ∧
        (fun i => fin (r i)) = fun i => fin (x.2 i) := by
      rintro ⟨x, e, hx, -⟩
      have : A = x.1 := by ext i j; exact Xr.fin.inj (congrFun (congrFun e i) j)
      rw [← this] at hx
      exact hA hx
    rw [dif_neg h]
    exact fun _ => rfl
  logdet_ok {n} A := by
    have h : ∃ B : Matrix (Fin n) (Fin n) ℝ, Xm.ofReal A = Xm.ofReal B := ⟨A, rfl⟩
    have e : A = h.choose := by
      ext i j; exact Xr.fin.inj (congrFun (congrFun h.choose_spec i) j)
    rw [dif_pos h, ← e]

variable (L : Xm.Lapack)

/-! ## C141 -/

/-- The value the log likelihood is meant to have (with the sign of the determinant that the code uses, see C64). -/
noncomputable def loglikeValue {N : ℕ} (data mu : Fin N → ℝ) (C : Matrix (Fin N) (Fin N) ℝ) (incl : Bool) : ℝ :=
  -(1 / 2) * (chiSq data mu C - if incl then Real.log |C.det| else 0)

theorem xm_half (q : ℝ) : fin (-(1 / 2)) * fin q = fin (-(1 / 2) * q) := mul_fin _ _

theorem xm_residual {N : ℕ} (data mu : Fin N → ℝ) :
    (fun i => fin (mu i) - fin (data i)) = fun i => fin ((mu - data) i) :=
  funext fun _ => sub_fin _ _

theorem xm_finish {N : ℕ} {data mu : Fin N → ℝ} {C : NdArr Xr} {m : String} {q l : Xr}
    (hq : Xm.quadForm L (fun i => fin ((mu - data) i)) C m = .ok q) (hl : Xm.logdetPart L C = .ok l) (incl : Bool) :
    Xm.gaussianLogLikelihood L (fun i => fin (data i)) (fun i => fin (mu i)) C incl m
      = .ok (fin (-(1 / 2)) * if incl then q - l else q) := by
  unfold Xm.gaussianLogLikelihood
  rw [xm_residual, hq]
  cases incl
  · rfl
  · change (Xm.logdetPart L C >>= _) = _
    rw [hl]
    rfl

theorem quadForm_inverse {N : ℕ} (r : Fin N → Xr) (M : Matrix (Fin N) (Fin N) Xr) :
    Xm.quadForm L r (.d2 N N M) "inverse" = .ok (Xm.dotVec r (Xm.mulVec (L.inv M) r)) := by
  exact dif_pos (c := N = N ∧ N = N) ⟨rfl, rfl⟩

theorem quadForm_cholesky {N : ℕ} (r : Fin N → Xr) (M : Matrix (Fin N) (Fin N) Xr) :
    Xm.quadForm L r (.d2 N N M) "cholesky" = .ok (Xm.dotVec r (L.cho M r)) := by
  exact dif_pos (c := N = N ∧ N = N) ⟨rfl, rfl⟩

theorem quadForm_sparse {a P : ℕ} (r : Fin (a * P) → Xr) (S : Sp Xr a a P) (m : String) :
    Xm.quadForm L r (.d3 a a P S) m = .ok (Xm.dotVec r (Xm.sparseDotVec (Xm.spInv L S) r)) := by
  change (if h : a = a ∧ a * P = a * P then _ else _) = _
  rw [dif_pos ⟨rfl, rfl⟩]
  rfl

theorem logdetPart_dense {N : ℕ} (M : Matrix (Fin N) (Fin N) Xr) :
    Xm.logdetPart L (.d2 N N M) = .ok (L.logdet M) := by
  exact dif_pos (c := N = N) rfl

theorem logdetPart_sparse {n P : ℕ} (S : Sp Xr (n + 1) (n + 1) P) :
    Xm.logdetPart L (.d3 (n + 1) (n + 1) P S) = .ok (Xm.slogdetBody L S).2 := by
  have : Xm.slogdetApi L (.d3 (n + 1) (n + 1) P S) = .ok (Xm.slogdetBody L S) := dif_pos (c := n + 1 = n + 1) rfl
  unfold Xm.logdetPart
  simp only [this]
  rfl

theorem xm_dense_isFinite (q l : Xr) (incl : Bool) :
    (fin (-(1 / 2)) * if incl then q - l else q).IsFinite ↔ q.IsFinite ∧ (incl = true → l.IsFinite) := by
  rw [isFinite_mul]
  cases incl
  · simp [isFinite_fin]
  · simp [isFinite_fin, isFinite_sub]

/-- C141: on a dense covariance with the method "inverse", the log likelihood of finite data is finite exactly when the
covariance is invertible, and then it has the intended value. -/
theorem C141_inverse {N : ℕ} (data mu : Fin N → ℝ) (C : Matrix (Fin N) (Fin N) ℝ) (incl : Bool) :
    ∃ v, Xm.gaussianLogLikelihood L (fun i => fin (data i)) (fun i => fin (mu i)) (.d2 N N fun i j => fin (C i j)) incl
        "inverse" = .ok v ∧
      (v.IsFinite ↔ C.det ≠ 0) ∧ (C.det ≠ 0 → v = fin (loglikeValue data mu C incl)) := by
  refine ⟨_, xm_finish L (quadForm_inverse L _ _) (logdetPart_dense L _) incl, ?_, fun h => ?_⟩
  · rw [xm_dense_isFinite, Xm.dotVec_isFinite]
    have e : (∀ i, (Xm.mulVec (L.inv (Xm.ofReal C)) (fun i => fin ((mu - data) i)) i).IsFinite)
        ↔ ∀ i j, (L.inv (Xm.ofReal C) i j).IsFinite := by
      unfold Xm.mulVec Xm.dotVec
      simp only [Xm.fsum_isFinite, isFinite_mul]
      exact ⟨fun h i j => (h i j).1, fun h i j => ⟨h i j, trivial⟩⟩
    refine (and_congr_left' (e.trans (Xm.inv_isFinite L C))).trans ⟨fun h => h.1, fun h => ⟨h, fun _ => ?_⟩⟩
    change (L.logdet (Xm.ofReal C)).IsFinite
    rw [L.logdet_ok, isFinite_logAbs]
    exact ⟨_, h, rfl⟩
  · have e1 : Xm.mulVec (L.inv (Xm.ofReal C)) (fun i => fin ((mu - data) i))
        = fun i => fin ((C⁻¹ *ᵥ (mu - data)) i) := by
      rw [L.inv_ok C h]
      exact funext fun i => Xm.dotVec_fin _ _
    have e2 : L.logdet (Xm.ofReal C) = fin (Real.log |C.det|) := by rw [L.logdet_ok, logAbs_fin h]
    change (fin (-(1 / 2)) * if incl then Xm.dotVec _ (Xm.mulVec (L.inv (Xm.ofReal C)) _) - L.logdet (Xm.ofReal C)
      else Xm.dotVec _ (Xm.mulVec (L.inv (Xm.ofReal C)) _)) = _
    rw [e1, e2, Xm.dotVec_fin, loglikeValue, chiSq_comm]
    cases incl
    · simp only [Bool.false_eq_true, if_false, sub_zero]
      exact xm_half _
    · simp only [if_true, sub_fin]
      exact xm_half _

/-- C141: with the method "cholesky", on a symmetric matrix, it is finite exactly when that is positive definite. -/
theorem C141_cholesky {N : ℕ} (data mu : Fin N → ℝ) {C : Matrix (Fin N) (Fin N) ℝ} (hC : C.IsSymm) (incl : Bool) :
    ∃ v, Xm.gaussianLogLikelihood L (fun i => fin (data i)) (fun i => fin (mu i)) (.d2 N N fun i j => fin (C i j)) incl
        "cholesky" = .ok v ∧
      (v.IsFinite ↔ C.PosDef) ∧ (C.PosDef → v = fin (loglikeValue data mu C incl)) := by
  refine ⟨_, xm_finish L (quadForm_cholesky L _ _) (logdetPart_dense L _) incl, ?_, fun h => ?_⟩
  · rw [xm_dense_isFinite, Xm.dotVec_isFinite]
    have e := Xm.cho_isFinite L C (mu - data)
    rw [lowerSym_eq hC] at e
    refine (and_congr_left' e).trans ⟨fun h => h.1, fun h => ⟨h, fun _ => ?_⟩⟩
    change (L.logdet (Xm.ofReal C)).IsFinite
    rw [L.logdet_ok, isFinite_logAbs]
    exact ⟨_, h.det_pos.ne', rfl⟩
  · have e1 : L.cho (Xm.ofReal C) (fun i => fin ((mu - data) i)) = fun i => fin ((C⁻¹ *ᵥ (mu - data)) i) := by
      have := L.cho_ok C (mu - data) (by rwa [lowerSym_eq hC])
      rwa [lowerSym_eq hC] at this
    have e2 : L.logdet (Xm.ofReal C) = fin (Real.log |C.det|) := by rw [L.logdet_ok, logAbs_fin h.det_pos.ne']
    change (fin (-(1 / 2)) * if incl then Xm.dotVec _ (L.cho (Xm.ofReal C) _) - L.logdet (Xm.ofReal C)
      else Xm.dotVec _ (L.cho (Xm.ofReal C) _)) = _
    rw [e1, e2, Xm.dotVec_fin, loglikeValue, chiSq_comm]
    cases incl
    · simp only [Bool.false_eq_true, if_false, sub_zero]
      exact xm_half _
    · simp only [if_true, sub_fin]
      exact xm_half _

theorem det_dense_iff {N P : ℕ} (S : Sp ℝ N N P) : (denseEntry S).det ≠ 0 ↔ ∀ p, (slice S p).det ≠ 0 := by
  rw [← C34_toDense, det_toDense, Finset.prod_ne_zero_iff]
  simp

theorem det_trailing_iff {n P : ℕ} (S : Sp ℝ (n + 1) (n + 1) P) :
    (∀ m ≤ n, (denseEntry (trailing S m)).det ≠ 0) ↔ ∀ p m, m ≤ n → (trail (slice S p) m).det ≠ 0 := by
  simp only [det_dense_iff, slice_trailing]
  exact ⟨fun h p m hm => h m hm p, fun h m hm p => h p m hm⟩

theorem trailing_zero_det {n P : ℕ} (S : Sp ℝ (n + 1) (n + 1) P) :
    (denseEntry (trailing S 0)).det ≠ 0 ↔ (denseEntry S).det ≠ 0 := by
  rw [det_dense_iff, det_dense_iff]
  simp only [slice_trailing, trail_zero]

theorem quad_chiSq {N P : ℕ} {S : Sp ℝ N N P} (h : (denseEntry S).det ≠ 0) (data mu : Fin (N * P) → ℝ) :
    ∑ k, (mu - data) k * sparseDotVec (spInv S) (mu - data) k = chiSq data mu (denseEntry S) := by
  obtain ⟨T, h1, -, -, h2⟩ := C37_inverse S (isUnit_iff_ne_zero.2 h)
  have : T = spInv S := by
    rw [invApi_d3, dif_pos rfl] at h1
    exact (eq_of_heq (NdArr.d3.inj (Except.ok.inj h1)).2.2.2).symm
  subst this
  rw [chiSq_comm, chiSq, ← h2, sparseDotVec_eq]
  rfl

/-- C141: on a sparse covariance the log likelihood without the determinant is finite exactly when the covariance is
invertible; with the determinant every trailing block matrix has to be invertible.  Then it has the intended value,
whichever method is named. -/
theorem C141_sparse {n P : ℕ} (data mu : Fin ((n + 1) * P) → ℝ) (S : Sp ℝ (n + 1) (n + 1) P) (incl : Bool) (m : String) :
    ∃ v, Xm.gaussianLogLikelihood L (fun i => fin (data i)) (fun i => fin (mu i))
        (.d3 (n + 1) (n + 1) P fun i j p => fin (S i j p)) incl m = .ok v ∧
      (v.IsFinite ↔ (denseEntry S).det ≠ 0 ∧
        (incl = true → ∀ m ≤ n, (denseEntry (trailing S m)).det ≠ 0)) ∧
      (v.IsFinite → v = fin (loglikeValue data mu (denseEntry S) incl)) := by
  have key : ∀ q l : Xr, q = Xm.dotVec (fun i => fin ((mu - data) i))
        (Xm.sparseDotVec (Xm.spInv L (Xm.spReal S)) fun i => fin ((mu - data) i)) → l = (Xm.slogdetBody L (Xm.spReal S)).2 →
      ((fin (-(1 / 2)) * if incl then q - l else q).IsFinite ↔ (denseEntry S).det ≠ 0 ∧
        (incl = true → ∀ m ≤ n, (denseEntry (trailing S m)).det ≠ 0)) ∧
      ((fin (-(1 / 2)) * if incl then q - l else q).IsFinite →
        (fin (-(1 / 2)) * if incl then q - l else q) = fin (loglikeValue data mu (denseEntry S) incl)) := by
    rintro q l rfl rfl
    have hq := (Xm.quad_isFinite L S (mu - data)).trans (det_dense_iff S).symm
    have hl := (Xm.slogdet_isFinite L S).trans (det_trailing_iff S).symm
    have hiff := (xm_dense_isFinite (Xm.dotVec (fun i => fin ((mu - data) i))
        (Xm.sparseDotVec (Xm.spInv L (Xm.spReal S)) fun i => fin ((mu - data) i)))
        (Xm.slogdetBody L (Xm.spReal S)).2 incl).trans (and_congr hq (imp_congr_right fun _ => hl))
    refine ⟨hiff, fun hf => ?_⟩
    obtain ⟨hd, ht⟩ := hiff.1 hf
    rw [Xm.quad_real L ((det_dense_iff S).1 hd), quad_chiSq hd, loglikeValue]
    cases incl
    · simp only [Bool.false_eq_true, if_false, sub_zero]
      exact xm_half _
    · have ht' := (det_trailing_iff S).1 (ht rfl)
      rw [Xm.slogdet_real L ht', slogdetBody_eq S fun p m hm => isUnit_iff_ne_zero.2 (ht' p m hm)]
      simp only [if_true, sub_fin, C34_toDense]
      exact xm_half _
  exact ⟨_, xm_finish L (quadForm_sparse L _ _ m) (logdetPart_sparse L _) incl, key _ _ rfl rfl⟩

/-- C141: a positive definite covariance gives the same finite number in both representations and with both methods. -/
theorem C141_posDef {n P : ℕ} (data mu : Fin ((n + 1) * P) → ℝ) {S : Sp ℝ (n + 1) (n + 1) P} (hS : (denseEntry S).PosDef)
    (incl : Bool) (m m' : String) (hm : m = "inverse" ∨ m = "cholesky") :
    Xm.gaussianLogLikelihood L (fun i => fin (data i)) (fun i => fin (mu i))
        (.d2 _ _ fun i j => fin (denseEntry S i j)) incl m = .ok (fin (loglikeValue data mu (denseEntry S) incl)) ∧
      Xm.gaussianLogLikelihood L (fun i => fin (data i)) (fun i => fin (mu i))
        (.d3 (n + 1) (n + 1) P fun i j p => fin (S i j p)) incl m'
        = .ok (fin (loglikeValue data mu (denseEntry S) incl)) := by
  constructor
  · rcases hm with rfl | rfl
    · obtain ⟨v, h1, -, h2⟩ := C141_inverse L data mu (denseEntry S) incl
      rw [h1, h2 hS.det_pos.ne']
    · obtain ⟨v, h1, -, h2⟩ := C141_cholesky L data mu (symm_of_posDef hS) incl
      rw [h1, h2 hS]
  · obtain ⟨v, h1, h2, h3⟩ := C141_sparse L data mu S incl m'
    rw [h1, h3 (h2.2 ⟨hS.det_pos.ne', fun _ m _ => (trailing_posDef hS m).det_pos.ne'⟩)]

/-- C141: the condition on the trailing blocks is needed.  For the matrix that exchanges two numbers the log likelihood of
any data is finite in the dense representation and not in the sparse one. -/
theorem C141_indefinite : ∃ S : Sp ℝ 2 2 1, (denseEntry S).IsSymm ∧ (denseEntry S).det ≠ 0 ∧
    ∀ data mu : Fin (2 * 1) → ℝ,
      (∃ v, v.IsFinite ∧ Xm.gaussianLogLikelihood L (fun i => fin (data i)) (fun i => fin (mu i))
        (.d2 _ _ fun i j => fin (denseEntry S i j)) = .ok v) ∧
      ∃ v, ¬ v.IsFinite ∧ Xm.gaussianLogLikelihood L (fun i => fin (data i)) (fun i => fin (mu i))
        (.d3 2 2 1 fun i j p => fin (S i j p)) = .ok v := by
  have hd : (denseEntry (fun (i j : Fin 2) (_ : Fin 1) => if i = j then (0 : ℝ) else 1)).det ≠ 0 := by
    rw [det_dense_iff]
    intro p
    simp [slice, Matrix.det_fin_two]
  refine ⟨fun i j _ => if i = j then 0 else 1, ?_, hd, fun data mu => ⟨?_, ?_⟩⟩
  · ext r c
    simp only [transpose_apply, denseEntry, eq_comm]
  · obtain ⟨v, h1, h2, -⟩ := C141_inverse L data mu
      (denseEntry (fun (i j : Fin 2) (_ : Fin 1) => if i = j then (0 : ℝ) else 1)) true
    exact ⟨v, h2.2 hd, h1⟩
  · obtain ⟨v, h1, h2, -⟩ := C141_sparse L data mu
      (fun (i j : Fin 2) (_ : Fin 1) => if i = j then (0 : ℝ) else 1) true "inverse"
    refine ⟨v, fun hv => ?_, h1⟩
    have := (det_trailing_iff _).1 ((h2.1 hv).2 rfl) 0 1 le_rfl
    rw [trail_last] at this
    exact this (by simp [slice])

/-- C141: with a positive definite covariance (dense or sparse) the log likelihood of finite data is the finite number the
exact computation returns; inputs of the wrong shape are refused in the same way. -/
theorem C141_finite {N : ℕ} (data mu : Fin N → ℝ) (C : NdArr ℝ) (incl : Bool) (m : String)
    (hd : ∀ n M, C = .d2 n n M → M.PosDef) (hs : ∀ a P S, C = .d3 a a P S → (denseEntry S).PosDef) :
    Xm.gaussianLogLikelihood L (fun i => fin (data i)) (fun i => fin (mu i)) (ndFin C) incl m
      = (gaussianLogLikelihood data mu C incl m).map fin := by
  have other : ∀ (C : NdArr ℝ) (e : PyErr), Xm.quadForm L (fun i => fin (mu i) - fin (data i)) (ndFin C) m = .error e →
      gaussianLogLikelihood data mu C incl m = .error e →
      Xm.gaussianLogLikelihood L (fun i => fin (data i)) (fun i => fin (mu i)) (ndFin C) incl m
        = (gaussianLogLikelihood data mu C incl m).map fin := by
    intro C e h1 h2
    unfold Xm.gaussianLogLikelihood
    rw [h1, h2]
    rfl
  have low : ∀ C : NdArr ℝ, isSparse C = false → (∀ m n M, C ≠ .d2 m n M) →
      gaussianLogLikelihood data mu C incl m
        = .error (if m = "inverse" ∨ m = "cholesky" then .valueError else .notImplementedError) := by
    intro C h1 h2
    unfold gaussianLogLikelihood
    by_cases e1 : m = "inverse"
    · cases C with
      | d2 a b M => exact absurd rfl (h2 a b M)
      | d3 => simp [isSparse] at h1
      | _ => simp [isSparse, e1, bind, Except.bind]
    · by_cases e2 : m = "cholesky"
      · cases C with
        | d2 a b M => exact absurd rfl (h2 a b M)
        | d3 => simp [isSparse] at h1
        | _ => simp [isSparse, e2, bind, Except.bind]
      · cases C with
        | d2 a b M => exact absurd rfl (h2 a b M)
        | d3 => simp [isSparse] at h1
        | _ => simp [isSparse, e1, e2, bind, Except.bind]
  have low' : ∀ C : NdArr ℝ, isSparse C = false → (∀ m n M, C ≠ .d2 m n M) →
      Xm.quadForm L (fun i => fin (mu i) - fin (data i)) (ndFin C) m
        = .error (if m = "inverse" ∨ m = "cholesky" then .valueError else .notImplementedError) := by
    intro C h1 h2
    cases C with
    | d2 a b M => exact absurd rfl (h2 a b M)
    | d3 => simp [isSparse] at h1
    | _ => unfold Xm.quadForm ndFin; split_ifs <;> rfl
  cases C with
  | d0 x => exact other _ _ (low' _ rfl nofun) (low _ rfl nofun)
  | d1 n v => exact other _ _ (low' _ rfl nofun) (low _ rfl nofun)
  | hi n => exact other _ _ (low' _ rfl nofun) (low _ rfl nofun)
  | d2 a b M =>
    by_cases hm : m = "inverse" ∨ m = "cholesky"
    · by_cases hN : a = N ∧ b = N
      · obtain ⟨rfl, rfl⟩ := hN
        have hp := hd _ M rfl
        rw [loglike_dense data mu M (symm_of_posDef hp) incl hm]
        rcases hm with rfl | rfl
        · obtain ⟨v, h1, -, h2⟩ := C141_inverse L data mu M incl
          exact h1.trans (congrArg Except.ok (h2 hp.det_pos.ne'))
        · obtain ⟨v, h1, -, h2⟩ := C141_cholesky L data mu (symm_of_posDef hp) incl
          exact h1.trans (congrArg Except.ok (h2 hp))
      · rcases hm with rfl | rfl
        · by_cases hab : a = b
          · refine other _ .typeError ?_ ?_
            · unfold Xm.quadForm ndFin
              simp [hab]
              intro h; exact absurd ⟨hab.trans h, h⟩ hN
            · unfold gaussianLogLikelihood
              simp [isSparse, hab, bind, Except.bind]
              intro h; exact absurd ⟨hab.trans h, h⟩ hN
          · refine other _ .valueError ?_ ?_
            · unfold Xm.quadForm ndFin
              simp [hN, hab]
            · unfold gaussianLogLikelihood
              simp [isSparse, hN, hab, bind, Except.bind]
        · refine other _ .valueError ?_ ?_
          · unfold Xm.quadForm ndFin
            simp [hN]
          · unfold gaussianLogLikelihood
            simp [isSparse, hN, bind, Except.bind]
    · obtain ⟨h1, h2⟩ := not_or.1 hm
      refine other _ .notImplementedError ?_ ?_
      · unfold Xm.quadForm ndFin
        simp [h1, h2]
      · unfold gaussianLogLikelihood
        simp [isSparse, h1, h2, bind, Except.bind]
  | d3 a b P S =>
    by_cases hab : a = b
    · subst hab
      by_cases hN : N = a * P
      · subst hN
        cases a with
        | zero =>
          have hq := quadForm_sparse L (fun i => fin ((mu - data) i)) (Xm.spReal S) m
          rw [Xm.quad_real L (fun p => by rw [det_isEmpty]; exact one_ne_zero)] at hq
          have hr : gaussianLogLikelihood data mu (.d3 0 0 P S) incl m = if incl then .error .indexError
              else .ok (-(1 / 2) * ∑ k, (mu - data) k * sparseDotVec (spInv S) (mu - data) k) := by
            unfold gaussianLogLikelihood
            cases incl <;>
              simp [isSparse, bind, Except.bind, invApi_d3, slogdetApi_d3, dot, Except.map, pure, Except.pure]
            rfl
          rw [hr]
          unfold Xm.gaussianLogLikelihood
          rw [xm_residual]
          change (Xm.quadForm L _ (.d3 0 0 P (Xm.spReal S)) m >>= _) = _
          rw [hq]
          cases incl
          · exact congrArg Except.ok (xm_half _)
          · rfl
        | succ n =>
          have hp := hs _ _ S rfl
          rw [loglike_sparse data mu S hp incl m]
          exact (C141_posDef L data mu hp incl "inverse" m (Or.inl rfl)).2
      · refine other _ .valueError ?_ ?_
        · unfold Xm.quadForm ndFin
          simp [hN]
        · unfold gaussianLogLikelihood
          simp [isSparse, hN, bind, Except.bind, invApi_d3, dot]
    · refine other _ .valueError ?_ ?_
      · unfold Xm.quadForm ndFin
        simp [hab]
      · unfold gaussianLogLikelihood
        simp [isSparse, hab, bind, Except.bind, invApi_d3]

theorem getD_fin' (l : List ℝ) (i : ℕ) : (l.map fin).getD i 0 = fin (l.getD i 0) := getD_fin l i

/-- C141: under the conditions of C116 and C66 the log likelihood of any finite data, computed from the mean and the
covariance of a survey in either representation, is a finite number. -/
theorem C141_pipeline {p : Params} {TX : Xr → Xr} {T : ℝ → ℝ} {probes : List Probe} {zm : ℝ}
    (h : SurveyOK p TX T probes) (hc : ∀ pr ∈ probes, pr.Consistent) (hpos : ∀ pr ∈ probes, pr.Noisy)
    (hne : tracers probes ≠ []) (hz : probesZmax probes = .ok zm) (ells : List ℝ) (hi : ells.Pairwise (· < ·))
    (hl0 : ∀ ell ∈ ells, 0 ≤ ell) (hl : ∀ ell ∈ ells, ∀ pr ∈ probes, pr.EllOK ell) {f_sky : ℝ} (hf : 0 < f_sky)
    (sparse : Bool) {N : ℕ} (data : Fin N → ℝ) (incl : Bool) (m : String) :
    (Xm.gaussianClCovarianceAndMean p (ells.map fin) probes TX (f_sky := f_sky) (sparse := sparse)
        >>= fun mc => Xm.gaussianLogLikelihood L (fun i => fin (data i)) (fun i => mc.1.getD i 0) mc.2 incl m)
      = (gaussianClCovarianceAndMean p ells probes T (f_sky := f_sky) (sparse := sparse)
        >>= fun mc => gaussianLogLikelihood data (fun i => mc.1.getD i 0) mc.2 incl m).map fin := by
  rw [C116_pipeline h (fun pr hpr nz hnz => ((hpos pr hpr).1 nz hnz).ne') ells hi hl0 hl hf sparse]
  cases hrun : gaussianClCovarianceAndMean p ells probes T (f_sky := f_sky) (sparse := sparse) with
  | error e => rfl
  | ok mc =>
    obtain ⟨mean, cov⟩ := mc
    change Xm.gaussianLogLikelihood L (fun i => fin (data i)) (fun i => (mean.map fin).getD i 0) (ndFin cov) incl m
      = (gaussianLogLikelihood data (fun i => mean.getD i 0) cov incl m).map fin
    simp only [getD_fin']
    obtain ⟨-, -, signal, noise, hs, hn, hcov⟩ := C61_mean_order _ _ _ _ _ _ _ hrun
    have h2 : 2 ≤ ells.length := by
      by_contra h2
      unfold gaussianClCovariance at hcov
      rw [(C62_value ells f_sky).2 (by omega)] at hcov
      exact absurd hcov (by simp [bind, Except.bind])
    have hrun' : ∃ c, gaussianClCovariance ells probes signal noise f_sky true = .ok c := by
      cases sparse with
      | true => exact ⟨_, hcov⟩
      | false =>
        rw [← C61_representation] at hcov
        obtain ⟨c, hc, -⟩ := bind_ok hcov
        exact ⟨c, hc⟩
    obtain ⟨c, hc'⟩ := hrun'
    have hfull : gaussianClCovarianceAndMean p ells probes T (f_sky := f_sky) (sparse := true)
        = .ok (signal.flatten, c) := by
      unfold gaussianClCovarianceAndMean
      rw [hs, hn]
      change (gaussianClCovariance ells probes signal noise f_sky true >>= _) = _
      rw [hc']
      rfl
    obtain ⟨n, -, -, S, -, hS, hpd, -⟩ := C66_pipeline p ells probes T _ f_sky zm hi hl0 h2 hf hz
      (probesZmax_range hz h.each h.range).1 hc hpos hne (C66_default p h.power.phys T).2 hfull
    subst hS
    refine C141_finite L data _ cov incl m (fun k M e => ?_) (fun a P S' e => ?_)
    · cases sparse with
      | true =>
        rw [hc'] at hcov
        cases (Except.ok.inj hcov).trans e
      | false =>
        rw [← C61_representation, hc'] at hcov
        have : NdArr.d2 _ _ (denseEntry S) = cov := Except.ok.inj ((C34_api (.d3 _ _ _ S)).symm.trans hcov)
        cases this.trans e
        exact hpd
    · cases sparse with
      | true =>
        rw [hc'] at hcov
        cases (Except.ok.inj hcov).trans e
        exact hpd
      | false =>
        rw [← C61_representation, hc'] at hcov
        have : NdArr.d2 _ _ (denseEntry S) = cov := Except.ok.inj ((C34_api (.d3 _ _ _ S)).symm.trans hcov)
        cases this.trans e

example (sparse incl : Bool) (m : String) (data : Fin 30 → ℝ) :
    (Xm.gaussianClCovarianceAndMean Planck15 ([10, 20, 30].map fin) exampleProbes (Xm.EH.wiggle Planck15) (f_sky := 0.25)
        (sparse := sparse)
      >>= fun mc => Xm.gaussianLogLikelihood nanLapack (fun i => fin (data i)) (fun i => mc.1.getD i 0) mc.2 incl m)
      = (gaussianClCovarianceAndMean Planck15 [10, 20, 30] exampleProbes (wiggle Planck15) (f_sky := 0.25)
        (sparse := sparse)
      >>= fun mc => gaussianLogLikelihood data (fun i => mc.1.getD i 0) mc.2 incl m).map fin := by
  have hb : ∀ ell ∈ ([10, 20, 30] : List ℝ), 1 ≤ ell := by
    intro ell he
    simp only [List.mem_cons, List.not_mem_nil, or_false] at he
    rcases he with rfl | rfl | rfl <;> norm_num
  have hz : probesZmax exampleProbes = .ok 10 := by
    norm_num [probesZmax, exampleProbes, Probe.zmax, Probe.bins, WeakLensing.init, NumberCounts.init,
      pyMax, Nz.zmax, List.mapM_cons, bind, Except.bind, pure, Except.pure]
  refine C141_pipeline nanLapack example_SurveyOK ?_ ?_ ?_ hz [10, 20, 30] ?_
    (fun l hl => zero_le_one.trans (hb l hl)) (fun ell he pr _ => ?_) (by norm_num) sparse data incl m
  · intro pr hpr
    rw [exampleProbes, List.mem_cons, List.mem_singleton] at hpr
    rcases hpr with rfl | rfl
    · intro h; simp [WeakLensing.init] at h
    · intro h; simp [NumberCounts.init] at h
  · intro pr hpr
    rw [exampleProbes, List.mem_cons, List.mem_singleton] at hpr
    rcases hpr with rfl | rfl
    · refine ⟨?_, ?_⟩
      · simp [Probe.bins, WeakLensing.init, Nz.gals]
      · norm_num [WeakLensing.init]
    · exact ⟨by simp [Probe.bins, NumberCounts.init, Nz.gals], trivial⟩
  · rw [← List.length_pos_iff]
    change 0 < 4
    norm_num
  · simp only [List.pairwise_cons, List.mem_cons, List.not_mem_nil, or_false, forall_eq_or_imp, forall_eq,
      List.Pairwise.nil, and_true, false_imp_iff, implies_true]
    norm_num
  · cases pr
    · exact Or.inl (hb ell he)
    · trivial

/-! ## C142 -/

/-- `-∞` or NaN. -/
def Low (x : Xr) : Prop := x = ninf ∨ x = nan

/-- `+∞` or NaN. -/
def High (x : Xr) : Prop := x = pinf ∨ x = nan

theorem low_add {x y : Xr} (h : Low x ∨ Low y) : Low (x + y) := by
  unfold Low at *
  cases x <;> cases y <;> first | exact Or.inl rfl | exact Or.inr rfl | simp at h

theorem high_add {x y : Xr} (h : High x ∨ High y) : High (x + y) := by
  unfold High at *
  cases x <;> cases y <;> first | exact Or.inl rfl | exact Or.inr rfl | simp at h

theorem foldl_of_mem {Q : Xr → Prop} (hQ : ∀ {x y}, Q x ∨ Q y → Q (x + y)) {l : List Xr} {a : Xr}
    (h : Q a ∨ ∃ x ∈ l, Q x) : Q (l.foldl (· + ·) a) := by
  induction l generalizing a with
  | nil => simpa using h
  | cons x l ih =>
    rw [List.foldl_cons]
    refine ih ?_
    rcases h with h | ⟨y, hy, h⟩
    · exact Or.inl (hQ (Or.inl h))
    · rcases List.mem_cons.1 hy with rfl | hy
      · exact Or.inl (hQ (Or.inr h))
      · exact Or.inr ⟨y, hy, h⟩

theorem fsum_of_mem {Q : Xr → Prop} (hQ : ∀ {x y}, Q x ∨ Q y → Q (x + y)) {n : ℕ} {f : Fin n → Xr} {i : Fin n}
    (h : Q (f i)) : Q (Xm.fsum f) :=
  foldl_of_mem hQ (Or.inr ⟨f i, (List.mem_ofFn' f _).2 ⟨i, rfl⟩, h⟩)

/-- Finite or `-∞`. -/
def Bdd (x : Xr) : Prop := x = ninf ∨ ∃ r, x = fin r

theorem bdd_add {x y : Xr} (hx : Bdd x) (hy : Bdd y) : Bdd (x + y) := by
  unfold Bdd at *
  rcases hx with rfl | ⟨r, rfl⟩ <;> rcases hy with rfl | ⟨s, rfl⟩
  · exact Or.inl rfl
  · exact Or.inl rfl
  · exact Or.inl rfl
  · exact Or.inr ⟨_, add_fin r s⟩

theorem foldl_bdd {l : List Xr} {a : Xr} (ha : Bdd a) (h : ∀ x ∈ l, Bdd x) : Bdd (l.foldl (· + ·) a) := by
  induction l generalizing a with
  | nil => exact ha
  | cons x l ih =>
    exact ih (bdd_add ha (h x (List.mem_cons_self ..))) fun y hy => h y (List.mem_cons_of_mem _ hy)

theorem fsum_bdd {n : ℕ} {f : Fin n → Xr} (h : ∀ i, Bdd (f i)) : Bdd (Xm.fsum f) :=
  foldl_bdd (Or.inr ⟨0, rfl⟩) fun x hx => by
    obtain ⟨i, rfl⟩ := (List.mem_ofFn' f x).1 hx
    exact h i

theorem logAbs_zero : (fin 0).abs.log = ninf := by
  simp [Xr.abs, Xr.log]

theorem logAbs_bdd (r : ℝ) : Bdd (fin r).abs.log := by
  by_cases h : r = 0
  · subst h; exact Or.inl logAbs_zero
  · exact Or.inr ⟨_, logAbs_fin h⟩

theorem logAbs_high {x : Xr} (h : ¬ x.IsFinite) : High x.abs.log := by
  cases x with
  | fin r => exact absurd trivial h
  | pinf => exact Or.inl rfl
  | ninf => exact Or.inl rfl
  | nan => exact Or.inr rfl

theorem exp_low_bdd {x : Xr} (h1 : Low x) (h2 : Bdd x) : x = ninf := by
  rcases h1 with rfl | rfl
  · rfl
  · rcases h2 with h | ⟨r, h⟩ <;> cases h

/-- One trailing block is singular and the next smaller one is not. -/
theorem exists_last_singular {n P : ℕ} (S : Sp ℝ (n + 1) (n + 1) P) {p : Fin P} {m : ℕ} (hm : m ≤ n)
    (h : (trail (slice S p) m).det = 0) :
    ∃ k, m ≤ k ∧ k ≤ n ∧ (trail (slice S p) k).det = 0 ∧ ∀ j, k < j → j ≤ n → (trail (slice S p) j).det ≠ 0 := by
  by_contra hc
  push Not at hc
  have key : ∀ d, ∃ k, m + d ≤ k ∧ k ≤ n ∧ (trail (slice S p) k).det = 0 := by
    intro d
    induction d with
    | zero => exact ⟨m, le_rfl, hm, h⟩
    | succ d ih =>
      obtain ⟨k, h1, h2, h3⟩ := ih
      obtain ⟨j, h4, h5, h6⟩ := hc k (by omega) h2 h3
      exact ⟨j, by omega, h5, h6⟩
  obtain ⟨k, h1, h2, -⟩ := key (n + 1)
  omega

theorem slogdet_snd {n P : ℕ} (S : Sp Xr (n + 1) (n + 1) P) : (Xm.slogdetBody L S).2
    = ((List.finRange n).map fun i => (Xm.blockDet L S i.castSucc).2).foldl (· + ·)
      (Xm.fsum fun p => (S (Fin.last n) (Fin.last n) p).abs.log) := Xm.foldl_snd _ _ _ _

theorem slogdet_fst {n P : ℕ} (S : Sp Xr (n + 1) (n + 1) P) : (Xm.slogdetBody L S).1
    = ((List.finRange n).map fun i => (Xm.blockDet L S i.castSucc).1).foldl (· * ·)
      (Xm.fprod fun p => Xm.sign (S (Fin.last n) (Fin.last n) p)) := Xm.foldl_fst _ _ _ _

/-- The pivot of a singular trailing block above an invertible one is zero. -/
theorem slogdet_low {n P : ℕ} (S : Sp ℝ (n + 1) (n + 1) P) {p : Fin P} {k : ℕ} (hk : k ≤ n)
    (h0 : (trail (slice S p) k).det = 0) (h1 : ∀ j, k < j → j ≤ n → (trail (slice S p) j).det ≠ 0) :
    Low (Xm.slogdetBody L (Xm.spReal S)).2 := by
  rw [slogdet_snd]
  rcases Nat.lt_or_ge k n with hlt | hge
  · refine foldl_of_mem low_add (Or.inr ⟨_, List.mem_map.2 ⟨⟨k, hlt⟩, List.mem_finRange _, rfl⟩, ?_⟩)
    refine fsum_of_mem low_add (i := p) (Or.inl ?_)
    have ht : (trail (slice S p) ((Fin.castSucc ⟨k, hlt⟩ : Fin (n + 1)) + 1)).det ≠ 0 := h1 (k + 1) (by omega) (by omega)
    have hd := trail_det (slice S p) (Fin.castSucc ⟨k, hlt⟩) (isUnit_iff_ne_zero.2 ht)
    rw [← schurM_eq] at hd
    have hz : schurM S (Fin.castSucc ⟨k, hlt⟩) p = 0 :=
      (mul_eq_zero.1 (hd.symm.trans h0)).resolve_right ht
    rw [Xm.schurM_real L ht, hz, logAbs_zero]
  · obtain rfl : k = n := by omega
    refine foldl_of_mem low_add (Or.inl (fsum_of_mem low_add (i := p) (Or.inl ?_)))
    rw [trail_last] at h0
    change (fin (slice S p (Fin.last k) (Fin.last k))).abs.log = _
    rw [h0, logAbs_zero]

/-- With invertible proper trailing blocks the log determinant is finite or `-∞`. -/
theorem slogdet_bdd {n P : ℕ} (S : Sp ℝ (n + 1) (n + 1) P)
    (ht : ∀ p m, 1 ≤ m → m ≤ n → (trail (slice S p) m).det ≠ 0) : Bdd (Xm.slogdetBody L (Xm.spReal S)).2 := by
  rw [slogdet_snd]
  refine foldl_bdd (fsum_bdd fun p => logAbs_bdd (S (Fin.last n) (Fin.last n) p)) fun x hx => ?_
  obtain ⟨k, -, rfl⟩ := List.mem_map.1 hx
  refine fsum_bdd fun p => ?_
  have hk := k.2
  have h : (trail (slice S p) ((k.castSucc : ℕ) + 1)).det ≠ 0 := ht p (k + 1) (by omega) (by omega)
  rw [Xm.schurM_real L h]
  exact logAbs_bdd _

/-- C142: the log determinant is NaN exactly when a proper trailing block matrix is singular. -/
theorem C142_nan {n P : ℕ} (S : Sp ℝ (n + 1) (n + 1) P) :
    (∃ s, Xm.slogdetApi L (.d3 (n + 1) (n + 1) P fun i j p => fin (S i j p)) = .ok (s, nan)) ↔
      ∃ m, 1 ≤ m ∧ m ≤ n ∧ (denseEntry (trailing S m)).det = 0 := by
  have hv : Xm.slogdetApi L (.d3 (n + 1) (n + 1) P fun i j p => fin (S i j p)) = .ok (Xm.slogdetBody L (Xm.spReal S)) :=
    dif_pos (c := n + 1 = n + 1) rfl
  have hnan : (∃ s, Xm.slogdetApi L (.d3 (n + 1) (n + 1) P fun i j p => fin (S i j p)) = .ok (s, nan))
      ↔ (Xm.slogdetBody L (Xm.spReal S)).2 = nan := by
    rw [hv]
    constructor
    · rintro ⟨s, h⟩
      exact congrArg Prod.snd (Except.ok.inj h)
    · intro h
      exact ⟨_, congrArg Except.ok (Prod.ext rfl h)⟩
  rw [hnan]
  constructor
  · intro h
    by_contra hc
    push Not at hc
    have ht : ∀ p m, 1 ≤ m → m ≤ n → (trail (slice S p) m).det ≠ 0 := fun p m h1 h2 => by
      have := hc m h1 h2
      rw [Ne, ← Ne, det_dense_iff] at this
      exact this p
    have hb := slogdet_bdd L S ht
    rw [h] at hb
    rcases hb with h | ⟨r, h⟩ <;> cases h
  · rintro ⟨m, h1, h2, h3⟩
    obtain ⟨p, hp⟩ : ∃ p, (trail (slice S p) m).det = 0 := by
      by_contra hc
      push Not at hc
      exact (det_dense_iff _).2 hc h3
    obtain ⟨k, hmk, hkn, hk0, hk1⟩ := exists_last_singular S h2 hp
    have hlow := slogdet_low L S hkn hk0 hk1
    have hhigh : High (Xm.slogdetBody L (Xm.spReal S)).2 := by
      rw [slogdet_snd]
      refine foldl_of_mem high_add (Or.inr ⟨_, List.mem_map.2 ⟨⟨k - 1, by omega⟩, List.mem_finRange _, rfl⟩, ?_⟩)
      refine fsum_of_mem high_add (i := p) (logAbs_high fun hf => ?_)
      have := Xm.schurM_isFinite L hf
      have e : ((Fin.castSucc ⟨k - 1, by omega⟩ : Fin (n + 1)) : ℕ) + 1 = k := by
        simp; omega
      rw [e] at this
      exact this hk0
    rcases hlow with h | h
    · rcases hhigh with h' | h'
      · rw [h] at h'; cases h'
      · exact h'
    · exact h

/-- C142: `det` returns the determinant when every proper trailing block matrix is invertible, also when the determinant
is zero; otherwise it returns NaN. -/
theorem C142_det {n P : ℕ} (S : Sp ℝ (n + 1) (n + 1) P) :
    ((∀ m, 1 ≤ m → m ≤ n → (denseEntry (trailing S m)).det ≠ 0) →
      Xm.detApi L (.d3 (n + 1) (n + 1) P fun i j p => fin (S i j p)) = .ok (fin (denseEntry S).det)) ∧
    ((∃ m, 1 ≤ m ∧ m ≤ n ∧ (denseEntry (trailing S m)).det = 0) →
      Xm.detApi L (.d3 (n + 1) (n + 1) P fun i j p => fin (S i j p)) = .ok nan) := by
  have hv : Xm.slogdetApi L (.d3 (n + 1) (n + 1) P fun i j p => fin (S i j p)) = .ok (Xm.slogdetBody L (Xm.spReal S)) :=
    dif_pos (c := n + 1 = n + 1) rfl
  have hdet : Xm.detApi L (.d3 (n + 1) (n + 1) P fun i j p => fin (S i j p))
      = .ok ((Xm.slogdetBody L (Xm.spReal S)).1 * (Xm.slogdetBody L (Xm.spReal S)).2.exp) := by
    unfold Xm.detApi
    rw [hv]
  constructor
  · intro h
    by_cases h0 : (denseEntry S).det = 0
    · have ht : ∀ p m, 1 ≤ m → m ≤ n → (trail (slice S p) m).det ≠ 0 := fun p m h1 h2 => (det_dense_iff _).1 (h m h1 h2) p
      obtain ⟨p, hp⟩ : ∃ p, (slice S p).det = 0 := by
        by_contra hc
        push Not at hc
        exact (det_dense_iff _).2 hc h0
      have hs : ∀ (k : Fin n) p, Xm.schurM L (Xm.spReal S) k.castSucc p = fin (schurM S k.castSucc p) := fun k p =>
        Xm.schurM_real L (ht p (k + 1) (by omega) (by have := k.2; omega))
      have e2 : (Xm.slogdetBody L (Xm.spReal S)).2 = ninf := by
        exact exp_low_bdd (slogdet_low L S (Nat.zero_le n) ((trail_zero _).trans hp) fun j h1 h2 => ht p j h1 h2)
          (slogdet_bdd L S ht)
      have e1 : ∃ s, (Xm.slogdetBody L (Xm.spReal S)).1 = fin s := by
        rw [slogdet_fst]
        have a1 : (Xm.fprod fun p => Xm.sign (Xm.spReal S (Fin.last n) (Fin.last n) p))
            = fin (∏ p, signR (S (Fin.last n) (Fin.last n) p)) := Xm.fprod_fin _
        have a2 : ((List.finRange n).map fun i => (Xm.blockDet L (Xm.spReal S) i.castSucc).1)
            = ((List.finRange n).map fun i => ∏ p, signR (schurM S i.castSucc p)).map fin := by
          rw [List.map_map]
          refine List.map_congr_left fun k _ => ?_
          simp only [Xm.blockDet, hs, Function.comp_apply]
          exact Xm.fprod_fin _
        rw [a1, a2, Xm.foldl_mul_fin]
        exact ⟨_, rfl⟩
      obtain ⟨s, hs⟩ := e1
      rw [hdet, hs, e2, h0]
      change Except.ok (fin s * fin 0) = _
      rw [mul_fin, mul_zero]
    · have ht : ∀ m ≤ n, (denseEntry (trailing S m)).det ≠ 0 := fun m hm => by
        rcases Nat.eq_zero_or_pos m with rfl | h1
        · exact (trailing_zero_det S).2 h0
        · exact h m h1 hm
      have ht' := (det_trailing_iff S).1 ht
      rw [hdet, Xm.slogdet_real L ht', slogdetBody_eq S fun p m hm => isUnit_iff_ne_zero.2 (ht' p m hm)]
      simp only [exp_fin, mul_fin, C34_toDense]
      rw [Real.exp_log (abs_pos.2 h0), signR_mul_abs]
  · intro h
    obtain ⟨s, hs⟩ := (C142_nan L S).2 h
    rw [hv] at hs
    rw [hdet, congrArg Prod.snd (Except.ok.inj hs)]
    exact congrArg Except.ok (mul_nan' _)

/-- C142: for the zero matrix `slogdet` and `det` return NaN, as documented, when there is more than one block per side;
with a single block they return `(0, -∞)` and the right determinant 0. -/
theorem C142_zero {n P : ℕ} (hP : 0 < P) :
    (1 ≤ n → (∃ s, Xm.slogdetApi L (.d3 (n + 1) (n + 1) P fun _ _ _ => fin 0) = .ok (s, nan)) ∧
      Xm.detApi L (.d3 (n + 1) (n + 1) P fun _ _ _ => fin 0) = .ok nan) ∧
    Xm.slogdetApi L (.d3 1 1 P fun _ _ _ => fin 0) = .ok (fin 0, ninf) ∧
    Xm.detApi L (.d3 1 1 P fun _ _ _ => fin 0) = .ok (fin 0) := by
  have hz : ∀ k, 0 < k → (denseEntry (fun (_ _ : Fin k) (_ : Fin P) => (0 : ℝ))).det = 0 := by
    intro k hk
    by_contra h
    have : Nonempty (Fin k) := ⟨⟨0, hk⟩⟩
    exact (det_dense_iff _).1 h ⟨0, hP⟩ det_zero
  refine ⟨fun hn => ?_, ?_, ?_⟩
  · have h : ∃ m, 1 ≤ m ∧ m ≤ n ∧
        (denseEntry (trailing (fun (_ _ : Fin (n + 1)) (_ : Fin P) => (0 : ℝ)) m)).det = 0 :=
      ⟨n, hn, le_rfl, hz (n + 1 - n) (by omega)⟩
    exact ⟨(C142_nan L _).2 h, (C142_det L _).2 h⟩
  · have hv : Xm.slogdetApi L (.d3 1 1 P fun _ _ _ => fin 0)
        = .ok (Xm.fprod fun _ : Fin P => Xm.sign (fin 0), Xm.fsum fun _ : Fin P => (fin 0).abs.log) := rfl
    rw [hv]
    congr 2
    · have : (Xm.fprod fun _ : Fin P => Xm.sign (fin 0)) = fin (∏ _p : Fin P, signR 0) := Xm.fprod_fin _
      rw [this, Finset.prod_eq_zero (Finset.mem_univ ⟨0, hP⟩)]
      simp [signR, sgn]
    · exact exp_low_bdd (fsum_of_mem low_add (i := ⟨0, hP⟩) (Or.inl logAbs_zero)) (fsum_bdd fun _ => logAbs_bdd _)
  · have := (C142_det L (fun (_ _ : Fin 1) (_ : Fin P) => (0 : ℝ))).1 fun m h1 h2 => by omega
    rw [hz 1 one_pos] at this
    exact this

/-- C142: a single block on a single diagonal holding an infinite value or NaN gives it back, with the right sign. -/
theorem C142_infinite :
    Xm.slogdetApi L (.d3 1 1 1 fun _ _ _ => pinf) = .ok (fin 1, pinf) ∧
    Xm.slogdetApi L (.d3 1 1 1 fun _ _ _ => ninf) = .ok (fin (-1), pinf) ∧
    ∀ x, x = pinf ∨ x = ninf ∨ x = nan → Xm.detApi L (.d3 1 1 1 fun _ _ _ => x) = .ok x := by
  have hv : ∀ x, Xm.slogdetApi L (.d3 1 1 1 fun _ _ _ => x) = .ok (fin 1 * Xm.sign x, fin 0 + x.abs.log) := fun x => rfl
  have h1 : Xm.slogdetApi L (.d3 1 1 1 fun _ _ _ => pinf) = .ok (fin 1, pinf) := by
    rw [hv]
    refine congrArg Except.ok (Prod.ext ?_ rfl)
    change fin (1 * 1) = _
    rw [one_mul]
  have h2 : Xm.slogdetApi L (.d3 1 1 1 fun _ _ _ => ninf) = .ok (fin (-1), pinf) := by
    rw [hv]
    refine congrArg Except.ok (Prod.ext ?_ rfl)
    change fin (1 * -1) = _
    rw [one_mul]
  refine ⟨h1, h2, ?_⟩
  rintro x (rfl | rfl | rfl) <;> unfold Xm.detApi
  · rw [h1]
    change Except.ok (Xr.infSign 1) = _
    simp [Xr.infSign]
  · rw [h2]
    change Except.ok (Xr.infSign (-1)) = _
    norm_num [Xr.infSign]
  · rw [hv]
    rfl

/-- Witness: `[[1, 2], [2, 4]]` is singular with an invertible trailing block, `[[1, 2], [3, 0]]` the other way round. -/
example (L : Xm.Lapack) :
    Xm.detApi L (.d3 2 2 1 fun i j _ => fin (!![1, 2; 2, 4] i j)) = .ok (fin 0) ∧
    Xm.detApi L (.d3 2 2 1 fun i j _ => fin (!![1, 2; 3, 0] i j)) = .ok nan := by
  constructor
  · rw [(C142_det L (fun i j _ => !![1, 2; 2, 4] i j)).1]
    · congr 2
      rw [← C34_toDense, det_toDense]
      simp [slice, Matrix.det_fin_two]
      norm_num
    · intro m h1 h2
      obtain rfl : m = 1 := by omega
      rw [det_dense_iff]
      intro p
      rw [slice_trailing, trail_last]
      simp [slice]
  · refine (C142_det L (fun i j _ => !![1, 2; 3, 0] i j)).2 ⟨1, le_rfl, le_rfl, ?_⟩
    rw [← C34_toDense, det_toDense]
    refine Finset.prod_eq_zero (Finset.mem_univ 0) ?_
    rw [slice_trailing, trail_last]
    simp [slice]

end JaxCosmo
