import Verif.Model.FloatLikelihood
import Verif.Model.Likelihood
import Verif.Props.FloatGrowth
import Verif.Props.FloatRate
import Verif.Props.FloatRomb

/-! # C167: the log likelihood of one spectrum in floating point -/

namespace JaxCosmo

variable {A : Rounding} {L : Elem} {t t' : SumTree} {data mu C : ℕ → ℝ} {n : ℕ}

/-- The quadratic form, added up over the given positions. -/
noncomputable def chiSum (is : List ℕ) (data mu C : ℕ → ℝ) : ℝ := (is.map fun i => (mu i - data i) ^ 2 / C i).sum

/-- The logarithm of the determinant of a diagonal matrix. -/
noncomputable def logSum (is : List ℕ) (C : ℕ → ℝ) : ℝ := (is.map fun i => Real.log |C i|).sum

/-- The size of the logarithms. -/
noncomputable def logSize (is : List ℕ) (C : ℕ → ℝ) : ℝ := (is.map fun i => |Real.log (|C i|)|).sum

theorem tree_exact (s : SumTree) (y : ℕ → ℝ) : s.sum exactArith y = (s.leaves.map y).sum := by
  induction s with
  | leaf i => simp [SumTree.sum, SumTree.leaves]
  | node l r hl hr =>
    simp only [SumTree.sum, SumTree.leaves, List.map_append, List.sum_append, ← hl, ← hr]
    rfl

theorem sum_perm {s : SumTree} (hs : s.leaves.Perm (List.range n)) (y : ℕ → ℝ) :
    (s.leaves.map y).sum = ∑ p : Fin n, y p := by
  rw [(hs.map y).sum_eq, Fin.sum_univ_eq_sum_range]
  rfl

/-- C167: with exact operations this is the likelihood of the exact model. -/
theorem C167_exact {P : ℕ} (ht : t.leaves.Perm (List.range P)) (ht' : t'.leaves.Perm (List.range P)) (data mu C : ℕ → ℝ)
    (incl : Bool) (m : String) :
    gaussianLogLikelihood (fun k : Fin (1 * P) => data k) (fun k => mu k) (.d3 1 1 P fun _ _ p => C p) incl m
      = .ok (logLikelihoodF exactArith exactArith.elem t t' data mu C incl) ∧
    detApi (.d3 1 1 P fun _ _ p => C p) = .ok (detF exactArith exactArith.elem t C) := by
  have hs : ∀ {s : SumTree}, s.leaves.Perm (List.range P) →
      slogdetF exactArith exactArith.elem s C = slogdetBody (n := 0) (P := P) fun _ _ p => C p := fun {s} hs => by
    have h1 : (s.leaves.map fun i => signR (C i)).prod = ∏ p : Fin P, signR (C p) := by
      rw [(hs.map _).prod_eq, Fin.prod_univ_eq_prod_range (fun i => signR (C i))]
      rfl
    have h2 : s.sum exactArith (fun i => exactArith.elem.log |C i|) = ∑ p : Fin P, Real.log |C p| := by
      rw [tree_exact, sum_perm hs]; rfl
    rw [slogdetF, h1, h2]
    rfl
  have hq : chi2F exactArith t data mu C
      = denseDotSparseDotDense (a := 1) (d := 1) (fun _ (k : Fin (1 * P)) => mu k - data k)
        (spInv fun (_ _ : Fin 1) (p : Fin P) => C p) (fun (k : Fin (1 * P)) _ => mu k - data k) 0 0 := by
    rw [chi2F, tree_exact, sum_perm ht]
    change _ = ∑ k : Fin (1 * P), (mu k - data k) *
      sparseDotVec (spInv fun (_ _ : Fin 1) (p : Fin P) => C p) (fun l => mu l - data l) k
    rw [← finProdFinEquiv.sum_comp, Fintype.sum_prod_type]
    simp only [Finset.univ_unique, Finset.sum_singleton]
    refine Finset.sum_congr rfl fun p _ => ?_
    have hv : ((finProdFinEquiv ((default : Fin 1), p) : Fin (1 * P)) : ℕ) = p := by simp [finProdFinEquiv]
    have hd : (finProdFinEquiv ((default : Fin 1), p) : Fin (1 * P)).modNat = p := by
      have := congrArg Prod.snd (finProdFinEquiv.symm_apply_apply ((default : Fin 1), p))
      exact this
    have hin : (slice (fun (_ _ : Fin 1) (p : Fin P) => C p) p)⁻¹ = !![(C p)⁻¹] := by
      rw [Matrix.inv_subsingleton]
      ext i j
      fin_cases i; fin_cases j
      simp [slice]
    simp only [sparseDotVec, flat, unflat, hd, spInv, hin, Finset.univ_unique, Finset.sum_singleton, hv]
    rw [Subsingleton.elim (finProdFinEquiv (default, p) : Fin (1 * P)).divNat 0]
    change (mu p - data p) * (1 / C p * (mu p - data p)) = (mu p - data p) * ((C p)⁻¹ * (mu p - data p))
    rw [one_div]
  have hinv : invApi (.d3 1 1 P fun _ _ p => C p) = .ok (.d3 1 1 P (spInv fun (_ _ : Fin 1) (p : Fin P) => C p)) := rfl
  have hsl : slogdetApi (.d3 1 1 P fun _ _ p => C p) = .ok (slogdetBody (n := 0) (P := P) fun _ _ p => C p) := rfl
  have hdot : dot [.d2 1 (1 * P) fun _ k => mu k - data k, .d3 1 1 P (spInv fun (_ _ : Fin 1) (p : Fin P) => C p),
      .d2 (1 * P) 1 fun k _ => mu k - data k] = .ok (.d2 1 1 (denseDotSparseDotDense (fun _ (k : Fin (1 * P)) => mu k - data k)
        (spInv fun (_ _ : Fin 1) (p : Fin P) => C p) (fun (k : Fin (1 * P)) _ => mu k - data k))) := by
    simp [dot]
  constructor
  · unfold gaussianLogLikelihood
    simp only [isSparse, if_true, hinv, hsl, bind, Except.bind, pure, Except.pure, Pi.sub_apply, hdot]
    cases incl
    · simp only [Bool.not_false, if_true, logLikelihoodF, hq]
      rfl
    · simp only [Bool.not_true, Bool.false_eq_true, if_false, logLikelihoodF, hq, hs ht']
      rfl
  · rw [detApi, hsl, detF, hs ht]
    rfl

/-- Two multipoles, added in either order. -/
example : gaussianLogLikelihood (fun k : Fin (1 * 2) => ((k : ℕ) : ℝ)) (fun _ => 3) (.d3 1 1 2 fun _ _ p => ((p : ℕ) : ℝ) + 1) true "inverse"
      = .ok (logLikelihoodF exactArith exactArith.elem (.node (.leaf 0) (.leaf 1)) (.node (.leaf 1) (.leaf 0)) (fun k => k)
        (fun _ => 3) (fun p => p + 1)) :=
  (C167_exact (by decide) (by decide) (fun k => k) (fun _ => 3) (fun p => p + 1) true "inverse").1

/-- C167: the quadratic form is computed to a relative error that depends only on the order of summation. -/
theorem C167_chi2 (hC : ∀ i ∈ t.leaves, 0 < C i) :
    |chi2F A t data mu C - chiSum t.leaves data mu C| ≤ ((1 + A.u) ^ (5 + t.depth) - 1) * chiSum t.leaves data mu C := by
  have h : ∀ i ∈ t.leaves, Near A.u 5 ((mu i - data i) ^ 2 / C i)
      (A.mul (A.sub (mu i) (data i)) (A.mul (A.div 1 (C i)) (A.sub (mu i) (data i)))) ((mu i - data i) ^ 2 / C i) :=
    fun i hi => by
    have hr : Near A.u 1 |mu i - data i| (A.sub (mu i) (data i)) (mu i - data i) := (Near.self (A := A) _).rd
    have hc := (Near.self (A := A) 1).div (C i)
    have := hr.mul (hc.mul hr)
    have e : |mu i - data i| * (|1| / |C i| * |mu i - data i|) = (mu i - data i) ^ 2 / C i := by
      rw [abs_of_pos (hC i hi), abs_one, ← sq_abs (mu i - data i)]; ring
    have e' : (mu i - data i) * (1 / C i * (mu i - data i)) = (mu i - data i) ^ 2 / C i := by ring
    rw [e, e'] at this
    exact this.mono (by norm_num)
  exact (Near.tree t h).1

theorem chiSum_nonneg (hC : ∀ i ∈ t.leaves, 0 < C i) : 0 ≤ chiSum t.leaves data mu C :=
  List.sum_nonneg fun x hx => by
    obtain ⟨i, hi, rfl⟩ := List.mem_map.1 hx
    have := hC i hi
    positivity

theorem chi2F_near (hC : ∀ i ∈ t.leaves, 0 < C i) :
    Near A.u (5 + t.depth) (chiSum t.leaves data mu C) (chi2F A t data mu C) (chiSum t.leaves data mu C) :=
  ⟨C167_chi2 hC, by rw [abs_of_nonneg (chiSum_nonneg hC)]⟩

theorem logdetF_near {q : ℕ} (hL : ∀ x, 0 < x → Near A.u q |Real.log x| (L.log x) (Real.log x))
    (hC : ∀ i ∈ t.leaves, 0 < C i) :
    Near A.u (q + t.depth) (logSize t.leaves C) (slogdetF A L t C).2 (logSum t.leaves C) :=
  Near.tree t fun i hi => hL _ (abs_pos.2 (hC i hi).ne')

/-- C167: without the determinant the relative error depends only on the order of summation. -/
theorem C167_relative (hC : ∀ i ∈ t.leaves, 0 < C i) :
    |logLikelihoodF A L t t' data mu C false - -(1 / 2) * chiSum t.leaves data mu C|
      ≤ ((1 + A.u) ^ (6 + t.depth) - 1) * (1 / 2 * chiSum t.leaves data mu C) := by
  have := (Near.self (A := A) (-(1 / 2))).mul (chi2F_near (A := A) (data := data) (mu := mu) hC)
  rw [show |(-(1 / 2) : ℝ)| = 1 / 2 by norm_num, show 0 + (5 + t.depth) + 1 = 6 + t.depth by ring] at this
  exact this.1

/-- Two multipoles in single precision: seven roundings. -/
example (C : ℕ → ℝ) (h : ∀ i, 0 < C i) (data mu : ℕ → ℝ) :
    |logLikelihoodF float32 float32.elem (.node (.leaf 0) (.leaf 1)) (.leaf 0) data mu C false - -(1 / 2) * chiSum [0, 1] data mu C|
      ≤ ((1 + float32.u) ^ 7 - 1) * (1 / 2 * chiSum [0, 1] data mu C) :=
  C167_relative (t := .node (.leaf 0) (.leaf 1)) fun i _ => h i

/-- C167: with the determinant the error is measured by the size of the logarithms too. -/
theorem C167_rounding_partial {q d : ℕ} (hL : ∀ x, 0 < x → Near A.u q |Real.log x| (L.log x) (Real.log x))
    (hC : ∀ i ∈ t.leaves, 0 < C i) (hC' : ∀ i ∈ t'.leaves, 0 < C i) (h1 : 5 + t.depth ≤ d) (h2 : q + t'.depth ≤ d) :
    |logLikelihoodF A L t t' data mu C - -(1 / 2) * (chiSum t.leaves data mu C - logSum t'.leaves C)|
      ≤ ((1 + A.u) ^ (d + 2) - 1) * (1 / 2 * (chiSum t.leaves data mu C + logSize t'.leaves C)) := by
  have h3 := ((chi2F_near (A := A) (data := data) (mu := mu) hC).mono h1).sub ((logdetF_near hL hC').mono h2)
  have := (Near.self (A := A) (-(1 / 2))).mul h3
  rw [show |(-(1 / 2) : ℝ)| = 1 / 2 by norm_num, show 0 + (d + 1) + 1 = d + 2 by ring] at this
  exact this.1

/-- C167: a log determinant of size `2 ^ k` swallows the quality of the fit below `2 ^ (k - p)`. -/
theorem C167_absorbed {p : ℕ} (hp : 3 ≤ p) {l q : ℝ} {k : ℤ} (hl : (binary p hp).rd l = l) (h1 : l ≤ -2 ^ k) (q0 : 0 ≤ q)
    (hq : q < 2 ^ (k - p)) : (binary p hp).sub q l = -l := by
  have hd : roundBinary p (-l) = -l := by
    rw [roundBinary_neg]; exact congrArg Neg.neg hl
  have d0 : 0 < -l := lt_of_lt_of_le (by positivity : (0 : ℝ) < 2 ^ k) (by linarith)
  set e := Int.log 2 (-l) with he
  have l1 : (2 : ℝ) ^ e ≤ -l := by exact_mod_cast Int.zpow_log_le_self (b := 2) (by norm_num) d0
  have l2 : -l < 2 ^ (e + 1) := by exact_mod_cast Int.lt_zpow_succ_log_self (b := 2) (by norm_num) (-l)
  have hke : k ≤ e := by
    rw [he, ← Int.zpow_le_iff_le_log (by norm_num) d0]; push_cast; linarith
  obtain ⟨N, hN⟩ := on_grid (p := p) (y := -l) (e := e) (by rw [abs_of_pos d0]; exact l1)
  rw [hd] at hN
  have hs : (2 : ℝ) ^ ((p : ℤ) - 1 - e) * 2 ^ (e - p + 1) = 1 := by
    rw [← zpow_add₀ (by norm_num), show (p : ℤ) - 1 - e + (e - p + 1) = 0 by ring, zpow_zero]
  have hs0 : (0 : ℝ) < 2 ^ ((p : ℤ) - 1 - e) := by positivity
  have hqe : q * 2 ^ ((p : ℤ) - 1 - e) < 1 / 2 := by
    have h2 : q < 2 ^ (e - p) := hq.trans_le (zpow_le_zpow_right₀ (by norm_num) (by omega))
    calc q * 2 ^ ((p : ℤ) - 1 - e) < 2 ^ (e - p) * 2 ^ ((p : ℤ) - 1 - e) := mul_lt_mul_of_pos_right h2 hs0
      _ = 1 / 2 := by
        rw [← zpow_add₀ (by norm_num), show e - p + ((p : ℤ) - 1 - e) = -1 by ring]; norm_num
  have hNl : -l * 2 ^ ((p : ℤ) - 1 - e) = N := by
    rw [hN, mul_assoc, mul_comm (2 ^ (e - p + 1) : ℝ), hs, mul_one]
  have hyl : (q - l) * 2 ^ ((p : ℤ) - 1 - e) - N = q * 2 ^ ((p : ℤ) - 1 - e) := by
    rw [← hNl]; ring
  change roundBinary p (q - l) = -l
  rw [roundBinary_to (N := N) e (by linarith) ?_ (Or.inl ?_)]
  · rw [← hNl]; field_simp
  · -- still below the next power of two
    have hNp : (N : ℝ) ≤ 2 ^ p - 1 := by
      have h3 : (N : ℝ) < 2 ^ p := by
        rw [← hNl]
        calc -l * 2 ^ ((p : ℤ) - 1 - e) < 2 ^ (e + 1) * 2 ^ ((p : ℤ) - 1 - e) := mul_lt_mul_of_pos_right l2 hs0
          _ = 2 ^ p := by
            rw [← zpow_add₀ (by norm_num), show e + 1 + ((p : ℤ) - 1 - e) = p by ring, zpow_natCast]
      have h4 : N < 2 ^ p := by exact_mod_cast h3
      have h5 : N ≤ 2 ^ p - 1 := by omega
      exact_mod_cast h5
    refine lt_of_mul_lt_mul_right ?_ hs0.le
    calc (q - l) * 2 ^ ((p : ℤ) - 1 - e) = q * 2 ^ ((p : ℤ) - 1 - e) + N := by linarith
      _ < 2 ^ p := by linarith
      _ = 2 ^ (e + 1) * 2 ^ ((p : ℤ) - 1 - e) := by
        rw [← zpow_add₀ (by norm_num), show e + 1 + ((p : ℤ) - 1 - e) = p by ring, zpow_natCast]
  · rw [hyl, abs_of_nonneg (by positivity)]; exact hqe

example : float32.sub (1 / 2) (-2 ^ 24) = 2 ^ 24 := by
  have := C167_absorbed (p := 24) (by norm_num) (l := -2 ^ 24) (q := 1 / 2) (k := 24)
    (float32_dyadic (-1) 24 (by norm_num) (by norm_num)) (by norm_num) (by norm_num) (by norm_num)
  exact this.trans (neg_neg _)

/-- A worse fit has a smaller log likelihood. -/
def SeparatesFits (A : Rounding) (L : Elem) : Prop := ∀ (n : ℕ) (t t' : SumTree) (data mu C : ℕ → ℝ),
  t.leaves.Perm (List.range n) → t'.leaves.Perm (List.range n) → (∀ i, 0 < C i) →
  1 / 2 ≤ chiSum (List.range n) data mu C →
    logLikelihoodF A L t t' data mu C < logLikelihoodF A L t t' data data C

/-- The determinant of a positive diagonal matrix is not zero. -/
def DetNonzero (A : Rounding) (L : Elem) : Prop := ∀ (n : ℕ) (t : SumTree) (C : ℕ → ℝ),
  t.leaves.Perm (List.range n) → (∀ i, 0 < C i) → detF A L t C ≠ 0

theorem chiSum_self (is : List ℕ) (data C : ℕ → ℝ) : chiSum is data data C = 0 :=
  List.sum_eq_zero fun x hx => by
    obtain ⟨i, -, rfl⟩ := List.mem_map.1 hx
    simp

theorem chi2F_self (hC : ∀ i ∈ t.leaves, 0 < C i) : chi2F A t data data C = 0 := by
  have := C167_chi2 (A := A) (data := data) (mu := data) hC
  rw [chiSum_self, sub_zero, mul_zero] at this
  exact abs_eq_zero.1 (le_antisymm this (abs_nonneg _))

/-- C167: fits that differ by less than the grain of the log determinant have the same likelihood. -/
theorem C167_same {p : ℕ} (hp : 3 ≤ p) {k : ℤ} (hC : ∀ i ∈ t.leaves, 0 < C i)
    (hl : (binary p hp).rd (slogdetF (binary p hp) L t' C).2 = (slogdetF (binary p hp) L t' C).2)
    (h1 : (slogdetF (binary p hp) L t' C).2 ≤ -2 ^ k) (hg : (1 + (binary p hp).u) ^ (5 + t.depth) ≤ 3 / 2)
    (hq : 3 / 2 * chiSum t.leaves data mu C < 2 ^ (k - p)) :
    logLikelihoodF (binary p hp) L t t' data mu C = logLikelihoodF (binary p hp) L t t' data data C := by
  have h0 := chiSum_nonneg (data := data) (mu := mu) hC
  have hc := abs_le.1 ((C167_chi2 (A := binary p hp) (data := data) (mu := mu) hC).trans
    (mul_le_mul_of_nonneg_right (by linarith : _ ≤ (1 / 2 : ℝ)) h0))
  simp only [logLikelihoodF, Bool.not_true, Bool.false_eq_true, if_false]
  rw [C167_absorbed hp hl h1 (by linarith) (by linarith), chi2F_self hC, C167_absorbed hp hl h1 le_rfl (by positivity)]

theorem sum_const (is : List ℕ) (c : ℝ) : (is.map fun _ => c).sum = is.length * c := by
  simp

theorem log_two_pow (m : ℕ) : Real.log |((2 : ℝ) ^ m)⁻¹| = -(m * Real.log 2) := by
  rw [abs_of_pos (by positivity), Real.log_inv, Real.log_pow]

/-- The logarithm of the determinant of `2 ^ n` equal entries `2 ^ -93`, against `64` and `65` per entry. -/
theorem logdet_small {q n : ℕ} (hL : ∀ x, 0 < x → Near float32.u q |Real.log x| (L.log x) (Real.log x)) (hq : q + n ≤ 1000) :
    (slogdetF float32 L (pairwise n 0) fun _ => ((2 : ℝ) ^ 93)⁻¹).2 ≤ -(2 ^ n * 64) := by
  have h := (logdetF_near (t := pairwise n 0) (C := fun _ => ((2 : ℝ) ^ 93)⁻¹) hL fun _ _ => by positivity).1
  have e1 : logSum (pairwise n 0).leaves (fun _ => ((2 : ℝ) ^ 93)⁻¹) = -(2 ^ n * (93 * Real.log 2)) := by
    simp only [logSum]
    rw [sum_const, log_two_pow, pairwise_leaves, List.length_range']
    push_cast; ring
  have e2 : logSize (pairwise n 0).leaves (fun _ => ((2 : ℝ) ^ 93)⁻¹) = 2 ^ n * (93 * Real.log 2) := by
    simp only [logSize]
    rw [sum_const, log_two_pow, pairwise_leaves, List.length_range', abs_neg, abs_of_pos (by positivity)]
    push_cast; ring
  rw [e1, e2, pairwise_depth] at h
  have hu : (0 : ℝ) ≤ float32.u := by rw [float32_u]; positivity
  have hg : (1 + float32.u) ^ (q + n) ≤ 1 + 1 / 10000 := by
    calc (1 + float32.u) ^ (q + n) ≤ (1 + float32.u) ^ 1000 := pow_le_pow_right₀ (by linarith) hq
      _ ≤ 1 / (1 - (1000 : ℕ) * float32.u) := growth_le hu (by rw [float32_u]; norm_num)
      _ ≤ 1 + 1 / 10000 := by rw [float32_u]; norm_num
  have hl := Real.log_two_gt_d9
  have hn : (0 : ℝ) < 2 ^ n := by positivity
  have hm : (0 : ℝ) ≤ 2 ^ n * (93 * Real.log 2) := by positivity
  have h3 := (abs_le.1 (h.trans (mul_le_mul_of_nonneg_right (by linarith : _ ≤ (1 / 10000 : ℝ)) hm))).2
  have h4 : (2 : ℝ) ^ n * 64.01 ≤ 2 ^ n * (93 * Real.log 2) := mul_le_mul_of_nonneg_left (by linarith) hn.le
  linarith

/-- One entry of the residuals is not zero. -/
noncomputable def oneOff (i : ℕ) : ℝ := if i = 0 then (2 ^ 47)⁻¹ else 0

theorem chiSum_oneOff {n : ℕ} (hn : 0 < n) :
    chiSum (List.range n) (fun _ => 0) oneOff (fun _ => ((2 : ℝ) ^ 93)⁻¹) = 1 / 2 := by
  obtain ⟨m, rfl⟩ := Nat.exists_eq_succ_of_ne_zero hn.ne'
  rw [chiSum, List.range_succ_eq_map, List.map_cons, List.sum_cons, List.map_map, List.sum_eq_zero]
  · simp only [oneOff]; norm_num
  · intro x hx
    obtain ⟨i, -, rfl⟩ := List.mem_map.1 hx
    simp [oneOff]

theorem pairwise_range (n : ℕ) : (pairwise n 0).leaves = List.range (2 ^ n) := by
  rw [pairwise_leaves, ← List.range_eq_range']

/-- C167: in single precision, whatever the library: a worse fit may have the same likelihood, and where `exp`
underflows the determinant of a positive matrix may vanish. -/
theorem C167_refuted {q : ℕ} (hL : ∀ x, 0 < x → Near float32.u q |Real.log x| (L.log x) (Real.log x)) (hq : q ≤ 900) :
    ¬ SeparatesFits float32 L ∧ ((∀ x ≤ -104, L.exp x = 0) → ¬ DetNonzero float32 L) := by
  constructor
  · intro h
    have h1 := h (2 ^ 18) (pairwise 18 0) (pairwise 18 0) (fun _ => 0) oneOff (fun _ => ((2 : ℝ) ^ 93)⁻¹)
      (by rw [pairwise_range]) (by rw [pairwise_range]) (fun _ => by positivity) (chiSum_oneOff (by positivity)).ge
    refine h1.ne (C167_same (p := 24) (by norm_num) (k := 24) (fun _ _ => by positivity) ?_ ?_ ?_ ?_)
    · exact roundBinary_fixed (by norm_num) _
    · have := logdet_small (n := 18) hL (by omega)
      refine this.trans (le_of_eq ?_)
      norm_num
    · rw [pairwise_depth]
      change (1 + float32.u) ^ (5 + 18) ≤ 3 / 2
      rw [float32_u]; norm_num
    · rw [pairwise_range, chiSum_oneOff (by positivity)]
      norm_num
  · intro he h
    refine h 2 (pairwise 1 0) (fun _ => ((2 : ℝ) ^ 93)⁻¹) (by rw [pairwise_range, pow_one]) (fun _ => by positivity) ?_
    have := logdet_small (n := 1) hL (by omega)
    simp only [detF, he _ (this.trans (by norm_num)), Rounding.mul, mul_zero]
    exact roundBinary_zero _

/-- The best possible library with an exponential that underflows. -/
noncomputable def underflowing : Elem := { float32.elem with exp := fun x => if x ≤ -104 then 0 else float32.rd (Real.exp x) }

theorem rounded_log (x : ℝ) (_ : 0 < x) : Near float32.u 1 |Real.log x| (float32.rd (Real.log x)) (Real.log x) :=
  (Near.self (A := float32) _).rd

/-- A library as in `C167_refuted`. -/
example : ¬ SeparatesFits float32 underflowing ∧ ¬ DetNonzero float32 underflowing :=
  have h := C167_refuted (L := underflowing) (q := 1) rounded_log (by norm_num)
  ⟨h.1, h.2 fun _ hx => if_pos hx⟩

/-- C167 in single precision: sums of depth at most `900`, a logarithm good to `90` roundings. -/
theorem C167_single_partial {q : ℕ} (hL : ∀ x, 0 < x → Near float32.u q |Real.log x| (L.log x) (Real.log x)) (hq : q ≤ 90)
    (hC : ∀ i ∈ t.leaves, 0 < C i) (hC' : ∀ i ∈ t'.leaves, 0 < C i) (h1 : t.depth ≤ 900) (h2 : t'.depth ≤ 900) :
    |logLikelihoodF float32 L t t' data mu C - -(1 / 2) * (chiSum t.leaves data mu C - logSum t'.leaves C)|
      ≤ 3e-5 * (chiSum t.leaves data mu C + logSize t'.leaves C) := by
  have hu : (0 : ℝ) ≤ float32.u := by rw [float32_u]; positivity
  have h := C167_rounding_partial (A := float32) (data := data) (mu := mu) (d := 990) hL hC hC' (by omega) (by omega)
  have hg : (1 + float32.u) ^ (990 + 2) ≤ 1 + 6e-5 := by
    refine (growth_le hu (by rw [float32_u]; norm_num)).trans ?_
    rw [float32_u]; norm_num
  generalize (1 + float32.u) ^ (990 + 2) = g at h hg
  have h0 : 0 ≤ chiSum t.leaves data mu C + logSize t'.leaves C := add_nonneg (chiSum_nonneg hC) (List.sum_nonneg fun x hx => by
    obtain ⟨i, -, rfl⟩ := List.mem_map.1 hx
    exact abs_nonneg _)
  have := mul_le_mul_of_nonneg_right (by linarith : g - 1 ≤ (6e-5 : ℝ)) h0
  linarith

/-- Fifty multipoles with a variance of `2⁻⁶⁶`, about `10⁻²⁰`, each: an error below `0.07` when the fit is exact. -/
example (t : SumTree) (ht : t.leaves = List.range 50) (hd : t.depth ≤ 900) (data : ℕ → ℝ) :
    |logLikelihoodF float32 float32.elem t t data data (fun _ => (2 ^ 66)⁻¹) - -(1 / 2) * (0 - logSum t.leaves fun _ => (2 ^ 66)⁻¹)|
      ≤ 0.07 := by
  have h := C167_single_partial (L := float32.elem) (q := 1) (data := data) (mu := data) (C := fun _ => (2 ^ 66)⁻¹) rounded_log
    (by norm_num) (fun _ _ => by positivity) (fun _ _ => by positivity) hd hd
  rw [chiSum_self] at h
  have e : logSize t.leaves (fun _ => ((2 : ℝ) ^ 66)⁻¹) ≤ 50 * 46 := by
    simp only [logSize]
    rw [sum_const, ht, List.length_range, log_two_pow, abs_neg, abs_of_pos (by positivity)]
    have := Real.log_two_lt_d9
    push_cast; linarith
  exact h.trans (by linarith)

end JaxCosmo
