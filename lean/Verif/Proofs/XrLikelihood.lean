import Verif.Model.XrLikelihood
import Verif.Proofs.Xr
import Verif.Proofs.Sparse

/-! # Lemmas about matrices of numbers that may be exceptional -/

namespace JaxCosmo
open Xr

namespace Xr

theorem isFinite_iff {x : Xr} : x.IsFinite ↔ ∃ r, x = fin r := by
  cases x <;> simp [IsFinite]

theorem isFinite_fin (x : ℝ) : (fin x).IsFinite := trivial

theorem isFinite_add {x y : Xr} : (x + y).IsFinite ↔ x.IsFinite ∧ y.IsFinite := by
  change (Xr.add x y).IsFinite ↔ _
  cases x <;> cases y <;> simp [Xr.add, IsFinite]

theorem isFinite_neg {x : Xr} : (Xr.neg x).IsFinite ↔ x.IsFinite := by
  cases x <;> simp [Xr.neg, IsFinite]

theorem isFinite_sub {x y : Xr} : (x - y).IsFinite ↔ x.IsFinite ∧ y.IsFinite := by
  change (x + Xr.neg y).IsFinite ↔ _
  rw [isFinite_add, isFinite_neg]

theorem not_isFinite_infSign (x : ℝ) : ¬ (infSign x).IsFinite := by
  unfold infSign
  split_ifs <;> exact id

theorem isFinite_mul {x y : Xr} : (x * y).IsFinite ↔ x.IsFinite ∧ y.IsFinite := by
  change (Xr.mul x y).IsFinite ↔ _
  cases x <;> cases y <;> simp [Xr.mul, IsFinite] <;>
    exact not_isFinite_infSign _

theorem isFinite_logAbs {x : Xr} : x.abs.log.IsFinite ↔ ∃ r, r ≠ 0 ∧ x = fin r := by
  cases x with
  | fin r =>
    by_cases h : r = 0
    · subst h
      simp [Xr.abs, Xr.log, IsFinite]
    · have : 0 < |r| := abs_pos.2 h
      simp only [Xr.abs, Xr.log, if_pos this]
      exact ⟨fun _ => ⟨r, h, rfl⟩, fun _ => trivial⟩
  | _ => simp [Xr.abs, Xr.log, IsFinite]

theorem logAbs_fin {r : ℝ} (h : r ≠ 0) : (fin r).abs.log = fin (Real.log |r|) := by
  have : 0 < |r| := abs_pos.2 h
  simp only [Xr.abs, Xr.log, if_pos this]

theorem nan_mul' (x : Xr) : nan * x = nan := by cases x <;> rfl
theorem mul_nan' (x : Xr) : x * nan = nan := by cases x <;> rfl
theorem nan_add' (x : Xr) : nan + x = nan := by cases x <;> rfl
theorem add_nan' (x : Xr) : x + nan = nan := by cases x <;> rfl

end Xr

namespace Xm
variable (L : Lapack)

theorem foldl_add_fin (l : List ℝ) (a : ℝ) : (l.map fin).foldl (· + ·) (fin a) = fin (a + l.sum) := by
  induction l generalizing a with
  | nil => simp
  | cons x l ih => rw [List.map_cons, List.foldl_cons, add_fin, ih, List.sum_cons, add_assoc]

theorem foldl_mul_fin (l : List ℝ) (a : ℝ) : (l.map fin).foldl (· * ·) (fin a) = fin (a * l.prod) := by
  induction l generalizing a with
  | nil => simp
  | cons x l ih => rw [List.map_cons, List.foldl_cons, mul_fin, ih, List.prod_cons, mul_assoc]

theorem ofFn_fin {n : ℕ} (g : Fin n → ℝ) : List.ofFn (fun i => fin (g i)) = (List.ofFn g).map fin := by
  rw [List.map_ofFn]; rfl

theorem fsum_fin {n : ℕ} (g : Fin n → ℝ) : fsum (fun i => fin (g i)) = fin (∑ i, g i) := by
  unfold fsum
  rw [ofFn_fin, foldl_add_fin, zero_add, List.sum_ofFn]

theorem fprod_fin {n : ℕ} (g : Fin n → ℝ) : fprod (fun i => fin (g i)) = fin (∏ i, g i) := by
  unfold fprod
  rw [ofFn_fin, foldl_mul_fin, one_mul, List.prod_ofFn]

theorem foldl_add_isFinite (l : List Xr) (a : Xr) :
    (l.foldl (· + ·) a).IsFinite ↔ a.IsFinite ∧ ∀ x ∈ l, x.IsFinite := by
  induction l generalizing a with
  | nil => simp
  | cons x l ih =>
    rw [List.foldl_cons, ih, isFinite_add, List.forall_mem_cons, and_assoc]

theorem fsum_isFinite {n : ℕ} (f : Fin n → Xr) : (fsum f).IsFinite ↔ ∀ i, (f i).IsFinite := by
  unfold fsum
  rw [foldl_add_isFinite, List.forall_mem_ofFn_iff]
  exact and_iff_right trivial

theorem foldl_add_nan {l : List Xr} (a : Xr) (h : nan ∈ l) : l.foldl (· + ·) a = nan := by
  have hn : ∀ l : List Xr, l.foldl (· + ·) nan = nan := fun l => by
    induction l with
    | nil => rfl
    | cons x l ih => rw [List.foldl_cons, nan_add', ih]
  induction l generalizing a with
  | nil => simp at h
  | cons x l ih =>
    rw [List.foldl_cons]
    rcases List.mem_cons.1 h with rfl | h
    · rw [add_nan', hn]
    · exact ih _ h

theorem fsum_nan {n : ℕ} {f : Fin n → Xr} {i : Fin n} (h : f i = nan) : fsum f = nan :=
  foldl_add_nan _ ((List.mem_ofFn' f nan).2 ⟨i, h⟩)

theorem foldl_mul_nan {l : List Xr} (a : Xr) (h : nan ∈ l) : l.foldl (· * ·) a = nan := by
  have hn : ∀ l : List Xr, l.foldl (· * ·) nan = nan := fun l => by
    induction l with
    | nil => rfl
    | cons x l ih => rw [List.foldl_cons, nan_mul', ih]
  induction l generalizing a with
  | nil => simp at h
  | cons x l ih =>
    rw [List.foldl_cons]
    rcases List.mem_cons.1 h with rfl | h
    · rw [mul_nan', hn]
    · exact ih _ h

theorem fprod_nan {n : ℕ} {f : Fin n → Xr} {i : Fin n} (h : f i = nan) : fprod f = nan :=
  foldl_mul_nan _ ((List.mem_ofFn' f nan).2 ⟨i, h⟩)

theorem dotVec_fin {n : ℕ} (v w : Fin n → ℝ) :
    dotVec (fun i => fin (v i)) (fun i => fin (w i)) = fin (∑ i, v i * w i) := by
  unfold dotVec
  simp only [mul_fin]
  exact fsum_fin _

theorem dotVec_isFinite {n : ℕ} (v : Fin n → ℝ) (w : Fin n → Xr) :
    (dotVec (fun i => fin (v i)) w).IsFinite ↔ ∀ i, (w i).IsFinite := by
  unfold dotVec
  rw [fsum_isFinite]
  exact forall_congr' fun i => by rw [isFinite_mul]; exact and_iff_right trivial

theorem inv_isFinite {n : ℕ} (A : Matrix (Fin n) (Fin n) ℝ) :
    (∀ i j, (L.inv (ofReal A) i j).IsFinite) ↔ A.det ≠ 0 := by
  constructor
  · intro h hd
    obtain ⟨i, j, hij⟩ := L.inv_bad A hd
    exact hij (h i j)
  · intro h i j
    rw [L.inv_ok A h]
    trivial

theorem cho_isFinite {n : ℕ} (A : Matrix (Fin n) (Fin n) ℝ) (r : Fin n → ℝ) :
    (∀ i, (L.cho (ofReal A) (fun i => fin (r i)) i).IsFinite) ↔ (lowerSym A).PosDef := by
  constructor
  · intro h
    by_contra hd
    rcases Nat.eq_zero_or_pos n with rfl | hn
    · refine hd ⟨by ext i; exact i.elim0, fun x hx => absurd (Subsingleton.elim x 0) hx⟩
    · have := h ⟨0, hn⟩
      rw [L.cho_bad A r hd] at this
      exact this
  · intro h i
    rw [L.cho_ok A r h]
    trivial

/-- A sparse matrix of finite numbers. -/
def spReal {a b P : ℕ} (S : Sp ℝ a b P) : Sp Xr a b P := fun i j p => fin (S i j p)

theorem spInv_real {N P : ℕ} {S : Sp ℝ N N P} {p : Fin P} (h : (slice S p).det ≠ 0) (i j : Fin N) :
    spInv L (spReal S) i j p = fin (JaxCosmo.spInv S i j p) := by
  unfold spInv
  exact congrFun (congrFun (L.inv_ok (slice S p) h) i) j

theorem quad_isFinite {N P : ℕ} (S : Sp ℝ N N P) (r : Fin (N * P) → ℝ) :
    (dotVec (fun k => fin (r k)) (sparseDotVec (spInv L (spReal S)) fun k => fin (r k))).IsFinite
      ↔ ∀ p, (slice S p).det ≠ 0 := by
  rw [dotVec_isFinite]
  have key : (∀ k, (sparseDotVec (spInv L (spReal S)) (fun k => fin (r k)) k).IsFinite)
      ↔ ∀ p i j, (L.inv (ofReal (slice S p)) i j).IsFinite := by
    unfold sparseDotVec flat
    simp only [fsum_isFinite, isFinite_mul]
    constructor
    · intro h p i j
      have := (h (finProdFinEquiv (i, p)) j).1
      have e1 : (finProdFinEquiv (i, p)).divNat = i := by
        have := finProdFinEquiv.symm_apply_apply (i, p)
        exact congrArg Prod.fst this
      have e2 : (finProdFinEquiv (i, p)).modNat = p := by
        have := finProdFinEquiv.symm_apply_apply (i, p)
        exact congrArg Prod.snd this
      rw [e1, e2] at this
      exact this
    · exact fun h k j => ⟨h _ _ _, trivial⟩
  rw [key]
  exact forall_congr' fun p => inv_isFinite L _

theorem quad_real {N P : ℕ} {S : Sp ℝ N N P} (h : ∀ p, (slice S p).det ≠ 0) (r : Fin (N * P) → ℝ) :
    dotVec (fun k => fin (r k)) (sparseDotVec (spInv L (spReal S)) fun k => fin (r k))
      = fin (∑ k, r k * JaxCosmo.sparseDotVec (JaxCosmo.spInv S) r k) := by
  rw [← dotVec_fin]
  congr 1
  funext k
  unfold sparseDotVec JaxCosmo.sparseDotVec flat
  rw [← fsum_fin]
  change fsum _ = _
  refine congrArg fsum (funext fun j => ?_)
  rw [spInv_real L (h _), ← mul_fin]
  rfl

theorem schurM_real {N P : ℕ} {S : Sp ℝ N N P} {k : Fin N} {p : Fin P}
    (h : (trail (slice S p) (k + 1)).det ≠ 0) : schurM L (spReal S) k p = fin (JaxCosmo.schurM S k p) := by
  unfold schurM JaxCosmo.schurM sparseDotSparse JaxCosmo.sparseDotSparse
  have e : ∀ i j, spInv L (fun i j => spReal S (tailIx (k := k) i) (tailIx (k := k) j)) i j p
      = fin (JaxCosmo.spInv (fun i j => S (tailIx (k := k) i) (tailIx (k := k) j)) i j p) := fun i j =>
    spInv_real L (S := fun i j => S (tailIx (k := k) i) (tailIx (k := k) j)) h i j
  simp only [e]
  simp only [spReal, mul_fin, fsum_fin, sub_fin]

theorem schurM_isFinite {N P : ℕ} {S : Sp ℝ N N P} {k : Fin N} {p : Fin P}
    (h : (schurM L (spReal S) k p).IsFinite) : (trail (slice S p) (k + 1)).det ≠ 0 := by
  unfold schurM sparseDotSparse at h
  simp only [isFinite_sub, fsum_isFinite, isFinite_mul] at h
  refine (inv_isFinite L _).1 fun i j => ?_
  exact ((h.2 i).2 j).1

theorem foldl_snd (l : List α) (f g : α → Xr) (x : Xr × Xr) :
    (l.foldl (fun acc i => (acc.1 * f i, acc.2 + g i)) x).2 = (l.map g).foldl (· + ·) x.2 := by
  induction l generalizing x with
  | nil => rfl
  | cons a l ih => rw [List.foldl_cons, ih]; rfl

theorem foldl_fst (l : List α) (f g : α → Xr) (x : Xr × Xr) :
    (l.foldl (fun acc i => (acc.1 * f i, acc.2 + g i)) x).1 = (l.map f).foldl (· * ·) x.1 := by
  induction l generalizing x with
  | nil => rfl
  | cons a l ih => rw [List.foldl_cons, ih]; rfl

theorem slogdet_isFinite {n P : ℕ} (S : Sp ℝ (n + 1) (n + 1) P) :
    (slogdetBody L (spReal S)).2.IsFinite ↔ ∀ p m, m ≤ n → (trail (slice S p) m).det ≠ 0 := by
  unfold slogdetBody
  simp only
  rw [foldl_snd, foldl_add_isFinite, fsum_isFinite]
  simp only [List.mem_map, List.mem_finRange, true_and, forall_exists_index, forall_apply_eq_imp_iff,
    blockDet, fsum_isFinite, isFinite_logAbs]
  constructor
  · rintro ⟨h1, h2⟩ p m hm
    rcases Nat.lt_or_ge m n with hlt | hge
    · obtain ⟨x, hx, e⟩ := h2 ⟨m, hlt⟩ p
      have ht := schurM_isFinite L (by rw [e]; trivial : (schurM L (spReal S) (Fin.castSucc ⟨m, hlt⟩) p).IsFinite)
      rw [schurM_real L ht] at e
      have e' := Xr.fin.inj e
      have := trail_det (slice S p) (Fin.castSucc ⟨m, hlt⟩) (isUnit_iff_ne_zero.2 ht)
      rw [← schurM_eq, e'] at this
      change (trail (slice S p) m).det = _ at this
      rw [this]
      exact mul_ne_zero hx ht
    · have : m = n := by omega
      subst this
      rw [trail_last]
      obtain ⟨x, hx, e⟩ := h1 p
      have e' : S (Fin.last m) (Fin.last m) p = x := Xr.fin.inj e
      change S (Fin.last m) (Fin.last m) p ≠ 0
      rwa [e']
  · intro h
    refine ⟨fun p => ⟨_, ?_, rfl⟩, fun k p => ?_⟩
    · have := h p n le_rfl
      rwa [trail_last] at this
    · have hk := k.2
      have ht : (trail (slice S p) ((k.castSucc : ℕ) + 1)).det ≠ 0 := h p (k + 1) (by omega)
      refine ⟨_, ?_, schurM_real L ht⟩
      have := trail_det (slice S p) k.castSucc (isUnit_iff_ne_zero.2 ht)
      rw [← schurM_eq] at this
      intro h0
      rw [h0, zero_mul] at this
      exact h p k (by omega) this

theorem slogdet_real {n P : ℕ} {S : Sp ℝ (n + 1) (n + 1) P}
    (h : ∀ p m, m ≤ n → (trail (slice S p) m).det ≠ 0) :
    slogdetBody L (spReal S) = (fin (JaxCosmo.slogdetBody S).1, fin (JaxCosmo.slogdetBody S).2) := by
  have hs : ∀ (k : Fin n) p, schurM L (spReal S) k.castSucc p = fin (JaxCosmo.schurM S k.castSucc p) := fun k p =>
    schurM_real L (h p (k + 1) (by have := k.2; omega))
  have h0 : ∀ (k : Fin n) p, JaxCosmo.schurM S k.castSucc p ≠ 0 := fun k p h0 => by
    have ht : (trail (slice S p) ((k.castSucc : ℕ) + 1)).det ≠ 0 := h p (k + 1) (by have := k.2; omega)
    have := trail_det (slice S p) k.castSucc (isUnit_iff_ne_zero.2 ht)
    rw [← schurM_eq, h0, zero_mul] at this
    exact h p k (by have := k.2; omega) this
  have hl : ∀ p, S (Fin.last n) (Fin.last n) p ≠ 0 := fun p => by
    have := h p n le_rfl
    rwa [trail_last] at this
  have e1 : (fprod fun p => sign (spReal S (Fin.last n) (Fin.last n) p))
      = fin (∏ p, signR (S (Fin.last n) (Fin.last n) p)) := fprod_fin _
  have e2 : (fsum fun p => (spReal S (Fin.last n) (Fin.last n) p).abs.log)
      = fin (∑ p, Real.log |S (Fin.last n) (Fin.last n) p|) := by
    rw [← fsum_fin]
    exact congrArg _ (funext fun p => logAbs_fin (hl p))
  have e3 : ∀ k : Fin n, blockDet L (spReal S) k.castSucc
      = (fin (JaxCosmo.blockDet S k.castSucc).1, fin (JaxCosmo.blockDet S k.castSucc).2) := fun k => by
    unfold blockDet JaxCosmo.blockDet
    simp only [hs]
    congr 1
    · exact fprod_fin _
    · rw [← fsum_fin]
      exact congrArg _ (funext fun p => logAbs_fin (h0 k p))
  unfold slogdetBody JaxCosmo.slogdetBody
  simp only [e1, e2, e3]
  have key : ∀ (l : List (Fin n)) (a b : ℝ),
      l.foldl (fun acc i => (acc.1 * fin (JaxCosmo.blockDet S i.castSucc).1,
        acc.2 + fin (JaxCosmo.blockDet S i.castSucc).2)) (fin a, fin b)
      = (fin (l.foldl (fun acc i => (acc.1 * (JaxCosmo.blockDet S i.castSucc).1,
          acc.2 + (JaxCosmo.blockDet S i.castSucc).2)) (a, b)).1,
        fin (l.foldl (fun acc i => (acc.1 * (JaxCosmo.blockDet S i.castSucc).1,
          acc.2 + (JaxCosmo.blockDet S i.castSucc).2)) (a, b)).2) := by
    intro l
    induction l with
    | nil => intros; rfl
    | cons x l ih =>
      intro a b
      simp only [List.foldl_cons, mul_fin, add_fin, ih]
  exact key _ _ _

end Xm
end JaxCosmo
