import Verif.Proofs.JvpMatrix
import Verif.Proofs.Sparse
import Verif.Props.Sparse

set_option linter.unusedSimpArgs false

/-! # Helper lemmas: derivatives of the sparse operations and of the likelihood -/

namespace JaxCosmo
open Matrix Xr

namespace Spec
variable {s : ℝ} {m n k N P a b c d : ℕ}

/-! ## Sparse operations -/

theorem JvpSp.slice {S : ℝ → Sp ℝ a b P} {D : Sp Du a b P} (h : JvpSp s S D) (p : Fin P) :
    JvpMat s (fun r => JaxCosmo.slice (S r) p) fun i j => D i j p := fun i j => h i j p

theorem JvpSp.inv {S : ℝ → Sp ℝ N N P} {D : Sp Du N N P} (h : JvpSp s S D)
    (h0 : ∀ p, (JaxCosmo.slice (S s) p).det ≠ 0) : JvpSp s (fun r => JaxCosmo.spInv (S r)) (Dm.spInv D) :=
  fun i j p => (h.slice p).inv (h0 p) i j

theorem JvpSp.mul {S : ℝ → Sp ℝ a b P} {D : Sp Du a b P} {T : ℝ → Sp ℝ b c P} {E : Sp Du b c P}
    (h : JvpSp s S D) (h' : JvpSp s T E) :
    JvpSp s (fun r => JaxCosmo.sparseDotSparse (S r) (T r)) (Dm.sparseDotSparse D E) :=
  fun i j p => jvp_fsum fun l => (h i l p).mul (h' l j p)

theorem JvpSp.mulVec {S : ℝ → Sp ℝ a b P} {D : Sp Du a b P} {v : ℝ → Fin (b * P) → ℝ}
    {w : Fin (b * P) → Du} (h : JvpSp s S D) (h' : JvpVec s v w) :
    JvpVec s (fun r => JaxCosmo.sparseDotVec (S r) (v r)) (Dm.sparseDotVec D w) :=
  fun i => jvp_fsum fun l => (h i.divNat l i.modNat).mul (h' (finProdFinEquiv (l, i.modNat)))

theorem JvpSp.bilinear {X : ℝ → Matrix (Fin a) (Fin (b * P)) ℝ} {XD : Matrix (Fin a) (Fin (b * P)) Du}
    {Y : ℝ → Sp ℝ b c P} {YD : Sp Du b c P} {Z : ℝ → Matrix (Fin (c * P)) (Fin d) ℝ}
    {ZD : Matrix (Fin (c * P)) (Fin d) Du} (hX : JvpMat s X XD) (hY : JvpSp s Y YD) (hZ : JvpMat s Z ZD) :
    JvpMat s (fun r => JaxCosmo.denseDotSparseDotDense (X r) (Y r) (Z r)) (Dm.denseDotSparseDotDense XD YD ZD) :=
  fun i j => jvp_fsum fun l => (hX i l).mul (hY.mulVec (v := fun r l => Z r l j) (w := fun l => ZD l j)
    (fun l => hZ l j) l)

theorem JvpSp.schur {S : ℝ → Sp ℝ N N P} {D : Sp Du N N P} (h : JvpSp s S D) (k : Fin N) (p : Fin P)
    (h0 : ∀ p, (trail (JaxCosmo.slice (S s) p) (k + 1)).det ≠ 0) :
    Jvp (fun r => JaxCosmo.schurM (S r) k p) s (Dm.schurM D k p) := by
  have hT : JvpSp s (fun r (i j : Fin (N - (k + 1))) => S r (tailIx i) (tailIx j))
      (fun i j => D (tailIx i) (tailIx j)) := fun i j p => h (tailIx i) (tailIx j) p
  have hi := hT.inv fun p => by
    have e : JaxCosmo.slice (fun (i j : Fin (N - (k + 1))) => S s (tailIx i) (tailIx j)) p
        = trail (JaxCosmo.slice (S s) p) (k + 1) := rfl
    rw [e]
    exact h0 p
  have hv : JvpSp s (fun r (i : Fin (N - (k + 1))) (_ : Fin 1) => S r (tailIx i) k)
      (fun i _ => D (tailIx i) k) := fun i _ p => h (tailIx i) k p
  have hu : JvpSp s (fun r (_ : Fin 1) (j : Fin (N - (k + 1))) => S r k (tailIx j))
      (fun _ j => D k (tailIx j)) := fun _ j p => h k (tailIx j) p
  exact (h k k p).sub ((hu.mul (hi.mul hv)) 0 0 p)

theorem jvp_logabs {f : ℝ → ℝ} {d : Du} (h : Jvp f s d) (h0 : f s ≠ 0) :
    Jvp (fun r => Real.log |f r|) s d.abs.log :=
  (h.abs h0).log (abs_pos.2 h0)

theorem slogdetBody_snd (S : Sp ℝ (n + 1) (n + 1) P) : (JaxCosmo.slogdetBody S).2
    = (List.finRange n).foldl (fun acc i => acc + ∑ p, Real.log |JaxCosmo.schurM S i.castSucc p|)
      (∑ p, Real.log |S (Fin.last n) (Fin.last n) p|) := by
  unfold JaxCosmo.slogdetBody
  generalize (∏ p, signR (S (Fin.last n) (Fin.last n) p)) = x
  generalize (∑ p, Real.log |S (Fin.last n) (Fin.last n) p|) = y
  simp only
  generalize List.finRange n = l
  induction l generalizing x y with
  | nil => rfl
  | cons i l ih =>
    rw [List.foldl_cons, List.foldl_cons, ih]
    rfl

theorem jvp_foldl {α : Type} (l : List α) {F : α → ℝ → ℝ} {d : α → Du} (h : ∀ i ∈ l, Jvp (F i) s (d i))
    {f : ℝ → ℝ} {g : Du} (hf : Jvp f s g) :
    Jvp (fun r => l.foldl (fun acc i => acc + F i r) (f r)) s (l.foldl (fun acc i => acc + d i) g) := by
  induction l generalizing f g with
  | nil => exact hf
  | cons i l ih =>
    exact ih (fun j hj => h j (List.mem_cons_of_mem _ hj)) (hf.add (h i List.mem_cons_self))

theorem JvpSp.slogdet {S : ℝ → Sp ℝ (n + 1) (n + 1) P} {D : Sp Du (n + 1) (n + 1) P} (h : JvpSp s S D)
    (hu : ∀ p m, m ≤ n → IsUnit (trail (JaxCosmo.slice (S s) p) m).det) :
    Jvp (fun r => (JaxCosmo.slogdetBody (S r)).2) s (Dm.slogdetBody D) := by
  have hd : ∀ p, (JaxCosmo.slice (S s) p).det
      = (∏ k : Fin n, JaxCosmo.schurM (S s) k.castSucc p) * S s (Fin.last n) (Fin.last n) p :=
    fun p => det_slice (S s) p fun m _ hm => hu p m hm
  have h0 : ∀ p, (JaxCosmo.slice (S s) p).det ≠ 0 := fun p => by
    have := hu p 0 (by omega)
    rw [trail_zero] at this
    exact this.ne_zero
  have hM : ∀ p (k : Fin n), JaxCosmo.schurM (S s) k.castSucc p ≠ 0 := fun p k => by
    have := h0 p
    rw [hd p] at this
    exact Finset.prod_ne_zero_iff.1 (left_ne_zero_of_mul this) k (Finset.mem_univ k)
  have hL : ∀ p, S s (Fin.last n) (Fin.last n) p ≠ 0 := fun p => by
    have := h0 p
    rw [hd p] at this
    exact right_ne_zero_of_mul this
  simp only [slogdetBody_snd]
  unfold Dm.slogdetBody
  have start : Jvp (fun r => ∑ p, Real.log |S r (Fin.last n) (Fin.last n) p|) s
      (Dm.fsum fun p => (D (Fin.last n) (Fin.last n) p).abs.log) :=
    jvp_fsum fun p => jvp_logabs (h _ _ p) (hL p)
  have step : ∀ i : Fin n, Jvp (fun r => ∑ p, Real.log |JaxCosmo.schurM (S r) i.castSucc p|) s
      (Dm.fsum fun p => (Dm.schurM D i.castSucc p).abs.log) := fun i =>
    jvp_fsum fun p => jvp_logabs (h.schur i.castSucc p fun p => (hu p (i + 1) (by omega)).ne_zero) (hM p i)
  exact jvp_foldl _ (fun i _ => step i) start

/-! ## The likelihood -/

/-- The quadratic form of the likelihood. -/
noncomputable def quadPart {N : ℕ} (r : Fin N → ℝ) (C : NdArr ℝ) (inverse_method : String) : Except PyErr ℝ :=
  match C with
  | .d3 a b P S =>
    if h : a = b ∧ N = a * P then
      .ok (JaxCosmo.denseDotSparseDotDense (fun (_ : Fin 1) k => r (k.cast h.2.symm))
        (JaxCosmo.spInv fun i j => S i (j.cast h.1)) (fun k (_ : Fin 1) => r (k.cast h.2.symm)) 0 0)
    else .error .valueError
  | .d2 m n M =>
    if inverse_method = "inverse" then
      if h : m = N ∧ n = N then
        .ok (r ⬝ᵥ ((fun i j => M (i.cast h.1.symm) (j.cast h.2.symm) : Matrix (Fin N) (Fin N) ℝ)⁻¹) *ᵥ r)
      else if m = n then .error .typeError
      else .error .valueError
    else if inverse_method = "cholesky" then
      if h : m = N ∧ n = N then
        .ok (r ⬝ᵥ ((lowerSym (fun i j => M (i.cast h.1.symm) (j.cast h.2.symm)
          : Matrix (Fin N) (Fin N) ℝ))⁻¹) *ᵥ r)
      else .error .valueError
    else .error .notImplementedError
  | _ =>
    if inverse_method = "inverse" ∨ inverse_method = "cholesky" then .error .valueError
    else .error .notImplementedError

/-- The logarithm of the determinant. -/
noncomputable def logdetPart (C : NdArr ℝ) : Except PyErr ℝ :=
  match C with
  | .d3 a b P S => (JaxCosmo.slogdetApi (.d3 a b P S)).map (·.2)
  | .d2 m n M =>
    if h : m = n then .ok (Real.log |det (fun i j => M i (j.cast h) : Matrix (Fin m) (Fin m) ℝ)|)
    else .error .valueError
  | _ => .error .valueError

theorem loglike_parts {N : ℕ} (data mu : Fin N → ℝ) (C : NdArr ℝ) (incl : Bool) (method : String) :
    gaussianLogLikelihood data mu C incl method
      = quadPart (mu - data) C method >>= fun q =>
        if !incl then .ok (-(1 / 2) * q) else logdetPart C >>= fun l => .ok (-(1 / 2) * (q - l)) := by
  have hb : ∀ {α β : Type} (x : α) (f : α → Except PyErr β), (Except.ok x >>= f) = f x := fun _ _ => rfl
  have he : ∀ {α β : Type} (e : PyErr) (f : α → Except PyErr β), (Except.error e >>= f) = .error e :=
    fun _ _ => rfl
  have hp : ∀ {α : Type} (x : α), (pure x : Except PyErr α) = .ok x := fun _ => rfl
  unfold gaussianLogLikelihood quadPart logdetPart
  cases C with
  | d0 x =>
    simp only [isSparse, Bool.false_eq_true, if_false]
    by_cases h1 : method = "inverse"
    · simp only [h1, if_true, true_or, he]
    · by_cases h2 : method = "cholesky"
      · simp only [h2, if_true, or_true, he, ite_self]
      · simp only [h1, h2, if_false, or_self, he]
  | d1 n v =>
    simp only [isSparse, Bool.false_eq_true, if_false]
    by_cases h1 : method = "inverse"
    · simp only [h1, if_true, true_or, he]
    · by_cases h2 : method = "cholesky"
      · simp only [h2, if_true, or_true, he, ite_self]
      · simp only [h1, h2, if_false, or_self, he]
  | hi n =>
    simp only [isSparse, Bool.false_eq_true, if_false]
    by_cases h1 : method = "inverse"
    · simp only [h1, if_true, true_or, he]
    · by_cases h2 : method = "cholesky"
      · simp only [h2, if_true, or_true, he, ite_self]
      · simp only [h1, h2, if_false, or_self, he]
  | d2 m n M =>
    simp only [isSparse, Bool.false_eq_true, if_false, hp]
    cases incl <;> by_cases hm : m = n <;> split_ifs <;> simp_all only [hb, he, dif_pos, dif_neg, Bool.not_true,
      Bool.not_false, Bool.false_eq_true, if_true, if_false, not_false_eq_true, not_true_eq_false]
  | d3 a b P S =>
    simp only [isSparse, if_true, hp, invApi_d3]
    by_cases h : a = b
    · subst h
      simp only [dif_pos, hb, dot]
      by_cases h2 : N = a * P
      · simp only [h2, dif_pos, and_self, hb, true_and]
      · simp only [h2, false_and, and_false, dif_neg, he, not_false_eq_true]
    · simp only [h, false_and, dif_neg, he, not_false_eq_true]

/-- The quadratic form with tangents. -/
noncomputable def quadPartD {N : ℕ} (r : Fin N → Du) (C : NdArr Du) (inverse_method : String) : Except PyErr Du :=
  match C with
  | .d3 a b P S =>
    if h : a = b ∧ N = a * P then
      .ok (Dm.denseDotSparseDotDense (fun (_ : Fin 1) k => r (k.cast h.2.symm))
        (Dm.spInv fun i j => S i (j.cast h.1)) (fun k (_ : Fin 1) => r (k.cast h.2.symm)) 0 0)
    else .error .valueError
  | .d2 m n M =>
    if inverse_method = "inverse" then
      if h : m = N ∧ n = N then
        .ok (Dm.fsum fun i => r i * Dm.fsum fun j =>
          Dm.minv (fun i j => M (i.cast h.1.symm) (j.cast h.2.symm)) i j * r j)
      else if m = n then .error .typeError
      else .error .valueError
    else if inverse_method = "cholesky" then
      if h : m = N ∧ n = N then
        .ok (Dm.fsum fun i => r i * Dm.choSolve (fun i j => M (i.cast h.1.symm) (j.cast h.2.symm)) r i)
      else .error .valueError
    else .error .notImplementedError
  | _ =>
    if inverse_method = "inverse" ∨ inverse_method = "cholesky" then .error .valueError
    else .error .notImplementedError

/-- The logarithm of the determinant with tangents. -/
noncomputable def logdetPartD (C : NdArr Du) : Except PyErr Du :=
  match C with
  | .d3 a b P S => Dm.slogdetApi (.d3 a b P S)
  | .d2 m n M =>
    if h : m = n then .ok (Dm.logdet (fun i j => M i (j.cast h) : Matrix (Fin m) (Fin m) Du))
    else .error .valueError
  | _ => .error .valueError

theorem loglikeD_parts {N : ℕ} (data mu : Fin N → Du) (C : NdArr Du) (incl : Bool) (method : String) :
    Dm.gaussianLogLikelihood data mu C incl method
      = quadPartD (fun i => mu i - data i) C method >>= fun q =>
        if !incl then .ok (-0.5 * q) else logdetPartD C >>= fun l => .ok (-0.5 * (q - l)) := by
  have hb : ∀ {α β : Type} (x : α) (f : α → Except PyErr β), (Except.ok x >>= f) = f x := fun _ _ => rfl
  have he : ∀ {α β : Type} (e : PyErr) (f : α → Except PyErr β), (Except.error e >>= f) = .error e :=
    fun _ _ => rfl
  have hp : ∀ {α : Type} (x : α), (pure x : Except PyErr α) = .ok x := fun _ => rfl
  unfold Dm.gaussianLogLikelihood quadPartD logdetPartD
  cases C <;> simp only [hp] <;> split_ifs <;> simp only [hb, he]

/-- The relation between numbers. -/
abbrev JvpNum (s : ℝ) (F : ℝ → ℝ) (d : Du) : Prop := Jvp F s d

theorem jvp_quad {v : ℝ → Fin N → ℝ} {w : Fin N → Du} (hv : JvpVec s v w) {C : ℝ → NdArr ℝ} {D : NdArr Du}
    (hC : JvpArr s C D) {method : String} (hp : LikelihoodPoint s C method) :
    JvpE (JvpNum s) (fun r => quadPart (v r) (C r) method) (quadPartD w D method) := by
  cases D with
  | d0 x =>
    obtain ⟨F, hF, -⟩ := hC
    simp only [hF, quadPart, quadPartD]
    split_ifs <;> exact JvpE.err _
  | d1 n x =>
    obtain ⟨F, hF, -⟩ := hC
    simp only [hF, quadPart, quadPartD]
    split_ifs <;> exact JvpE.err _
  | hi n =>
    have hF : ∀ r, C r = .hi n := hC
    simp only [hF, quadPart, quadPartD]
    split_ifs <;> exact JvpE.err _
  | d2 m n M =>
    obtain ⟨F, hF, hM⟩ := hC
    simp only [hF, quadPart, quadPartD]
    by_cases h : m = N ∧ n = N
    · obtain ⟨rfl, rfl⟩ := h
      have h0 := hp.dense _ _ (hF s)
      by_cases h1 : method = "inverse"
      · simp only [if_pos h1, and_self, dif_pos]
        refine JvpE.ok (jvp_fsum fun i => (hv i).mul (jvp_fsum fun j => (hM.inv h0 i j).mul (hv j)))
      · by_cases h2 : method = "cholesky"
        · simp only [if_neg h1, if_pos h2, and_self, dif_pos]
          have := hM.choSolve (fun r => hp.symm h2 r _ _ (hF r)) (hp.posDef h2 _ _ (hF s)) hv
          exact JvpE.ok (jvp_fsum fun i => (hv i).mul (this i))
        · simp only [if_neg h1, if_neg h2]
          exact JvpE.err _
    · simp only [dif_neg h]
      split_ifs <;> exact JvpE.err _
  | d3 a b P S =>
    obtain ⟨F, hF, hM⟩ := hC
    simp only [hF, quadPart, quadPartD]
    by_cases h : a = b ∧ N = a * P
    · obtain ⟨rfl, rfl⟩ := h
      simp only [dif_pos, and_self]
      have h0 : ∀ p, (JaxCosmo.slice (F s) p).det ≠ 0 := fun p => by
        rcases Nat.eq_zero_or_pos a with rfl | ha
        · rw [det_isEmpty]; exact one_ne_zero
        · have := slice_isUnit (hp.sparse _ _ _ (hF s) 0 ha) p
          rw [slice_trailing, trail_zero] at this
          exact this.ne_zero
      exact JvpE.ok ((JvpSp.bilinear (s := s) (fun _ k => hv k) (hM.inv h0) (fun k _ => hv k)) 0 0)
    · simp only [dif_neg h]
      exact JvpE.err _

theorem jvp_logdet {C : ℝ → NdArr ℝ} {D : NdArr Du}
    (hC : JvpArr s C D) {method : String} (hp : LikelihoodPoint s C method) :
    JvpE (JvpNum s) (fun r => logdetPart (C r)) (logdetPartD D) := by
  cases D with
  | d0 x =>
    obtain ⟨F, hF, -⟩ := hC
    simp only [hF, logdetPart, logdetPartD]
    exact JvpE.err _
  | d1 n x =>
    obtain ⟨F, hF, -⟩ := hC
    simp only [hF, logdetPart, logdetPartD]
    exact JvpE.err _
  | hi n =>
    have hF : ∀ r, C r = .hi n := hC
    simp only [hF, logdetPart, logdetPartD]
    exact JvpE.err _
  | d2 m n M =>
    obtain ⟨F, hF, hM⟩ := hC
    simp only [hF, logdetPart, logdetPartD]
    by_cases h : m = n
    · subst h
      simp only [dif_pos]
      exact JvpE.ok (hM.logdet (hp.dense _ _ (hF s)))
    · simp only [dif_neg h]
      exact JvpE.err _
  | d3 a b P S =>
    obtain ⟨F, hF, hM⟩ := hC
    simp only [hF, logdetPart, logdetPartD, slogdetApi_d3, Dm.slogdetApi]
    by_cases h : a = b
    · subst h
      simp only [dif_pos]
      cases a with
      | zero => exact JvpE.err _
      | succ n =>
        refine JvpE.ok (hM.slogdet fun p m hm => ?_)
        have := slice_isUnit (hp.sparse _ _ _ (hF s) m (by omega)) p
        rwa [slice_trailing] at this
    · simp only [dif_neg h]
      exact JvpE.err _

theorem jvp_loglike {data mu : ℝ → Fin N → ℝ} {dataD muD : Fin N → Du} (hd : JvpVec s data dataD)
    (hm : JvpVec s mu muD) {C : ℝ → NdArr ℝ} {D : NdArr Du} (hC : JvpArr s C D) {method : String}
    (hp : LikelihoodPoint s C method) (incl : Bool) :
    JvpE (JvpNum s) (fun r => gaussianLogLikelihood (data r) (mu r) (C r) incl method)
      (Dm.gaussianLogLikelihood dataD muD D incl method) := by
  simp only [loglike_parts, loglikeD_parts]
  have hhalf : ∀ {f : ℝ → ℝ} {d : Du}, Jvp f s d → Jvp (fun r => -(1 / 2) * f r) s (-0.5 * d) := fun h =>
    ((Jvp.sci 5 true 1 s).neg.mul h).congr' fun r => by norm_num
  refine JvpE.bind (jvp_quad (v := fun r => mu r - data r) (fun i => (hm i).sub (hd i)) hC hp)
    fun q qD hq => ?_
  cases incl with
  | false => exact JvpE.ok (hhalf hq)
  | true => exact JvpE.bind (jvp_logdet hC hp) fun l lD hl => JvpE.ok (hhalf (hq.sub hl))

end Spec

end JaxCosmo
