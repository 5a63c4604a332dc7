import Verif.Spec.InitialValue
import Mathlib.Analysis.ODE.ExistUnique
import Mathlib.Analysis.ODE.Gronwall
import Mathlib.Analysis.Calculus.ContDiff.Basic
import Mathlib.Analysis.Calculus.ContDiff.Operations
import Mathlib.Analysis.Calculus.MeanValue
import Mathlib.Analysis.Calculus.Deriv.MeanValue
import Mathlib.Analysis.Calculus.Deriv.Prod

/-! # Second-order linear initial value problems

`D'' = -q D' + r D` on `[a, b]` has a solution for every initial value, it is unique, as smooth as
the coefficients, and stays positive when `r ≥ 0` and it starts positive and increasing. -/

namespace JaxCosmo
open Spec Set

/-- The right-hand side of the first-order system. -/
def secondOrder (q r : ℝ → ℝ) (y : ℝ × ℝ) (t : ℝ) : ℝ × ℝ := (y.2, -q t * y.2 + r t * y.1)

/-- Its derivative in the state. -/
noncomputable def secondOrderMap (q r : ℝ → ℝ) (t : ℝ) : ℝ × ℝ →L[ℝ] ℝ × ℝ :=
  (ContinuousLinearMap.snd ℝ ℝ ℝ).prod
    (-q t • ContinuousLinearMap.snd ℝ ℝ ℝ + r t • ContinuousLinearMap.fst ℝ ℝ ℝ)

theorem secondOrder_eq (q r : ℝ → ℝ) (t : ℝ) (y : ℝ × ℝ) :
    secondOrder q r y t = secondOrderMap q r t y := by
  simp [secondOrder, secondOrderMap]

variable {q r : ℝ → ℝ} {a b : ℝ}

theorem pair_bound {Q R : ℝ} (q1 r1 : ℝ) (y : ℝ × ℝ) (hq : |q1| ≤ Q) (hr : |r1| ≤ R) :
    ‖-q1 * y.2 + r1 * y.1‖ ≤ (Q + R) * ‖y‖ := by
  have h1 : |y.1| ≤ ‖y‖ := norm_fst_le y
  have h2 : |y.2| ≤ ‖y‖ := norm_snd_le y
  rw [Real.norm_eq_abs]
  calc |-q1 * y.2 + r1 * y.1| ≤ |-q1 * y.2| + |r1 * y.1| := abs_add_le _ _
    _ = |q1| * |y.2| + |r1| * |y.1| := by rw [abs_mul, abs_mul, abs_neg]
    _ ≤ Q * ‖y‖ + R * ‖y‖ := by
      have := (abs_nonneg q1).trans hq
      have := (abs_nonneg r1).trans hr
      gcongr
    _ = _ := by ring

theorem secondOrderMap_norm {Q R : ℝ} {t : ℝ} (hq : |q t| ≤ Q) (hr : |r t| ≤ R) :
    ‖secondOrderMap q r t‖ ≤ 1 + Q + R := by
  have hQ := (abs_nonneg _).trans hq
  have hR := (abs_nonneg _).trans hr
  refine ContinuousLinearMap.opNorm_le_bound _ (by positivity) fun y => ?_
  rw [← secondOrder_eq, secondOrder]
  refine max_le ?_ ?_
  · calc ‖y.2‖ ≤ ‖y‖ := norm_snd_le y
      _ ≤ (1 + Q + R) * ‖y‖ := by
        have hy := norm_nonneg y
        have h1 := mul_nonneg hQ hy
        have h2 := mul_nonneg hR hy
        linarith
  · refine (pair_bound _ _ y hq hr).trans ?_
    nlinarith [norm_nonneg y]

theorem secondOrderMap_sub {s t : ℝ} :
    ‖secondOrderMap q r s - secondOrderMap q r t‖ ≤ |q s - q t| + |r s - r t| := by
  refine ContinuousLinearMap.opNorm_le_bound _ (by positivity) fun y => ?_
  have : (secondOrderMap q r s - secondOrderMap q r t) y
      = (0, -(q s - q t) * y.2 + (r s - r t) * y.1) := by
    rw [_root_.sub_apply, ← secondOrder_eq, ← secondOrder_eq, secondOrder, secondOrder]
    ext
    · simp
    · simp; ring
  rw [this]
  refine max_le ?_ (pair_bound _ _ y le_rfl le_rfl)
  rw [norm_zero]; positivity

/-- Restriction of both components to `[-R, R]`. -/
noncomputable def clampTo (R : ℝ) (y : ℝ × ℝ) : ℝ × ℝ :=
  (max (-R) (min R y.1), max (-R) (min R y.2))

theorem clamp1_lip (R x y : ℝ) : |max (-R) (min R x) - max (-R) (min R y)| ≤ |x - y| := by
  refine (abs_max_sub_max_le_max _ _ _ _).trans ?_
  rw [sub_self, abs_zero]
  refine max_le (abs_nonneg _) ((abs_min_sub_min_le_max _ _ _ _).trans ?_)
  rw [sub_self, abs_zero]
  exact max_le (abs_nonneg _) le_rfl

theorem clampTo_lip (R : ℝ) (x y : ℝ × ℝ) : ‖clampTo R x - clampTo R y‖ ≤ ‖x - y‖ :=
  max_le ((clamp1_lip R x.1 y.1).trans (norm_fst_le (x - y)))
    ((clamp1_lip R x.2 y.2).trans (norm_snd_le (x - y)))

theorem clampTo_zero {R : ℝ} (hR : 0 ≤ R) : clampTo R 0 = 0 := by
  simp [clampTo, hR]

theorem clampTo_le_self {R : ℝ} (hR : 0 ≤ R) (x : ℝ × ℝ) : ‖clampTo R x‖ ≤ ‖x‖ := by
  have := clampTo_lip R x 0
  rwa [clampTo_zero hR, sub_zero, sub_zero] at this

theorem clamp1_le {R : ℝ} (hR : 0 ≤ R) (x : ℝ) : |max (-R) (min R x)| ≤ R := by
  rw [abs_le]
  exact ⟨le_max_left _ _, max_le (by linarith) (min_le_left _ _)⟩

theorem clampTo_le {R : ℝ} (hR : 0 ≤ R) (x : ℝ × ℝ) : ‖clampTo R x‖ ≤ R :=
  max_le (clamp1_le hR _) (clamp1_le hR _)

theorem clamp1_eq {R x : ℝ} (h : |x| ≤ R) : max (-R) (min R x) = x := by
  rw [abs_le] at h
  rw [min_eq_right h.2, max_eq_right h.1]

theorem clampTo_eq {R : ℝ} {x : ℝ × ℝ} (h : ‖x‖ ≤ R) : clampTo R x = x := by
  ext
  · exact clamp1_eq ((norm_fst_le x).trans h)
  · exact clamp1_eq ((norm_snd_le x).trans h)

/-- Global existence: the clamped system is bounded and Lipschitz, and its solution never reaches
the clamp. -/
theorem secondOrder_exists (hab : a ≤ b) (hq : ContinuousOn q (Icc a b))
    (hr : ContinuousOn r (Icc a b)) (y0 : ℝ × ℝ) :
    ∃ y : ℝ → ℝ × ℝ, y a = y0 ∧
      ∀ t ∈ Icc a b, HasDerivWithinAt y (secondOrder q r (y t) t) (Icc a b) t := by
  obtain ⟨Q, hQ⟩ := isCompact_Icc.exists_bound_of_continuousOn hq
  obtain ⟨R', hR'⟩ := isCompact_Icc.exists_bound_of_continuousOn hr
  have ha : a ∈ Icc a b := left_mem_Icc.2 hab
  have hQ0 : 0 ≤ Q := (norm_nonneg _).trans (hQ a ha)
  have hR0 : 0 ≤ R' := (norm_nonneg _).trans (hR' a ha)
  set K : ℝ := 1 + Q + R' with hK
  have hK0 : 0 ≤ K := by positivity
  have hn : ∀ t ∈ Icc a b, ‖secondOrderMap q r t‖ ≤ K := fun t ht =>
    secondOrderMap_norm (hQ t ht) (hR' t ht)
  set R : ℝ := ‖y0‖ * Real.exp (K * (b - a)) with hR
  have hRn : 0 ≤ R := by positivity
  set g : ℝ → ℝ × ℝ → ℝ × ℝ := fun t x => secondOrder q r (clampTo R x) t with hg
  have hlip : ∀ t ∈ Icc a b, ∀ x x', ‖g t x - g t x'‖ ≤ K * ‖x - x'‖ := fun t ht x x' => by
    simp only [hg, secondOrder_eq]
    rw [← map_sub]
    exact (ContinuousLinearMap.le_opNorm _ _).trans
      (mul_le_mul (hn t ht) (clampTo_lip R x x') (norm_nonneg _) hK0)
  have hbd : ∀ t ∈ Icc a b, ∀ x, ‖g t x‖ ≤ K * ‖clampTo R x‖ := fun t ht x => by
    simp only [hg, secondOrder_eq]
    exact (ContinuousLinearMap.le_opNorm _ _).trans
      (mul_le_mul_of_nonneg_right (hn t ht) (norm_nonneg _))
  have hpl : IsPicardLindelof g (tmin := a) (tmax := b) ⟨a, ha⟩ y0
      (⟨K * R * (b - a), by have := sub_nonneg.2 hab; positivity⟩) 0 ⟨K * R, by positivity⟩
      ⟨K, hK0⟩ := by
    refine ⟨fun t ht => LipschitzOnWith.of_dist_le_mul fun x _ x' _ => ?_, fun x _ => ?_,
      fun t ht x _ => ?_, ?_⟩
    · rw [dist_eq_norm, dist_eq_norm]
      exact hlip t ht x x'
    · simp only [hg, secondOrder]
      exact continuousOn_const.prodMk ((hq.neg.mul continuousOn_const).add (hr.mul continuousOn_const))
    · refine (hbd t ht x).trans ?_
      exact mul_le_mul_of_nonneg_left (clampTo_le hRn x) hK0
    · simp only [sub_self, NNReal.coe_zero, sub_zero]
      rw [max_eq_left (sub_nonneg.2 hab)]
      exact le_rfl
  obtain ⟨y, hy0, hy⟩ := hpl.exists_eq_forall_mem_Icc_hasDerivWithinAt₀
  change y a = y0 at hy0
  have hcont : ContinuousOn y (Icc a b) := fun t ht => (hy t ht).continuousWithinAt
  have hbound : ∀ t ∈ Icc a b, ‖y t‖ ≤ R := fun t ht => by
    have h := norm_le_gronwallBound_of_norm_deriv_right_le (f := y) (f' := fun t => g t (y t))
      (δ := ‖y0‖) (K := K) (ε := 0) hcont
      (fun x hx => (hy x (Ico_subset_Icc_self hx)).mono_of_mem_nhdsWithin
        (Icc_mem_nhdsGE_of_mem hx)) (by rw [hy0])
      (fun x hx => by
        rw [add_zero]
        exact (hbd x (Ico_subset_Icc_self hx) _).trans
          (mul_le_mul_of_nonneg_left (clampTo_le_self hRn _) hK0)) t ht
    rw [gronwallBound_ε0] at h
    refine h.trans (mul_le_mul_of_nonneg_left (Real.exp_le_exp.2 ?_) (norm_nonneg _))
    exact mul_le_mul_of_nonneg_left (by linarith [ht.2]) hK0
  refine ⟨y, hy0, fun t ht => ?_⟩
  have := hy t ht
  simp only [hg] at this
  rwa [clampTo_eq (hbound t ht)] at this

theorem secondOrder_unique (hab : a ≤ b) (hq : ContinuousOn q (Icc a b))
    (hr : ContinuousOn r (Icc a b)) {y z : ℝ → ℝ × ℝ}
    (hy : ∀ t ∈ Icc a b, HasDerivWithinAt y (secondOrder q r (y t) t) (Icc a b) t)
    (hz : ∀ t ∈ Icc a b, HasDerivWithinAt z (secondOrder q r (z t) t) (Icc a b) t)
    (h0 : y a = z a) : EqOn y z (Icc a b) := by
  obtain ⟨Q, hQ⟩ := isCompact_Icc.exists_bound_of_continuousOn hq
  obtain ⟨R', hR'⟩ := isCompact_Icc.exists_bound_of_continuousOn hr
  have ha : a ∈ Icc a b := left_mem_Icc.2 hab
  have hQ0 : 0 ≤ Q := (norm_nonneg _).trans (hQ a ha)
  have hR0 : 0 ≤ R' := (norm_nonneg _).trans (hR' a ha)
  refine ODE_solution_unique_of_mem_Icc_right (v := fun t x => secondOrder q r x t)
    (s := fun _ => univ) (K := ⟨1 + Q + R', by positivity⟩) (fun t ht => ?_)
    (fun t ht => (hy t ht).continuousWithinAt)
    (fun t ht => (hy t (Ico_subset_Icc_self ht)).mono_of_mem_nhdsWithin (Icc_mem_nhdsGE_of_mem ht))
    (fun _ _ => trivial) (fun t ht => (hz t ht).continuousWithinAt)
    (fun t ht => (hz t (Ico_subset_Icc_self ht)).mono_of_mem_nhdsWithin (Icc_mem_nhdsGE_of_mem ht))
    (fun _ _ => trivial) h0
  have ht' := Ico_subset_Icc_self ht
  refine LipschitzOnWith.of_dist_le_mul fun x _ x' _ => ?_
  rw [dist_eq_norm, dist_eq_norm, secondOrder_eq, secondOrder_eq, ← map_sub]
  exact (ContinuousLinearMap.le_opNorm _ _).trans
    (mul_le_mul_of_nonneg_right (secondOrderMap_norm (hQ t ht') (hR' t ht')) (norm_nonneg _))

theorem secondOrder_smooth (hab : a < b) {m : ℕ} (hq : ContDiffOn ℝ m q (Icc a b))
    (hr : ContDiffOn ℝ m r (Icc a b)) {y : ℝ → ℝ × ℝ}
    (hy : ∀ t ∈ Icc a b, HasDerivWithinAt y (secondOrder q r (y t) t) (Icc a b) t) :
    ∀ k ≤ m + 1, ContDiffOn ℝ k y (Icc a b) := by
  have hu : UniqueDiffOn ℝ (Icc a b) := uniqueDiffOn_Icc hab
  intro k
  induction k with
  | zero =>
    intro _
    exact contDiffOn_zero.2 fun t ht => (hy t ht).continuousWithinAt
  | succ k ih =>
    intro hk
    have hk' := ih (by omega)
    have hq' : ContDiffOn ℝ k q (Icc a b) := hq.of_le (by exact_mod_cast (by omega : k ≤ m))
    have hr' : ContDiffOn ℝ k r (Icc a b) := hr.of_le (by exact_mod_cast (by omega : k ≤ m))
    have e : ((k + 1 : ℕ) : WithTop ℕ∞) = (k : WithTop ℕ∞) + 1 := by push_cast; rfl
    rw [e, contDiffOn_succ_iff_derivWithin hu]
    refine ⟨fun t ht => (hy t ht).differentiableWithinAt, by simp, ?_⟩
    have h2 : ContDiffOn ℝ k (fun t => secondOrder q r (y t) t) (Icc a b) := by
      unfold secondOrder
      exact hk'.snd.prodMk ((hq'.neg.mul hk'.snd).add (hr'.mul hk'.fst))
    exact h2.congr fun t ht => (hy t ht).derivWithin (hu t ht)

theorem lipschitz_Icc {g : ℝ → ℝ} (hab : a < b) (hg : ContDiffOn ℝ 1 g (Icc a b)) :
    ∃ B, 0 ≤ B ∧ ∀ s ∈ Icc a b, ∀ t ∈ Icc a b, |g s - g t| ≤ B * |s - t| := by
  have hu : UniqueDiffOn ℝ (Icc a b) := uniqueDiffOn_Icc hab
  obtain ⟨B, hB⟩ := isCompact_Icc.exists_bound_of_continuousOn
    (hg.continuousOn_derivWithin hu le_rfl)
  refine ⟨B, (norm_nonneg _).trans (hB a (left_mem_Icc.2 hab.le)), fun s hs t ht => ?_⟩
  exact Convex.norm_image_sub_le_of_norm_derivWithin_le (hg.differentiableOn (by simp)) hB
    (convex_Icc a b) ht hs

theorem secondOrder_smoothIVP (hab : a < b) (hq : ContDiffOn ℝ 4 q (Icc a b))
    (hr : ContDiffOn ℝ 4 r (Icc a b)) {y : ℝ → ℝ × ℝ}
    (hy : ∀ t ∈ Icc a b, HasDerivWithinAt y (secondOrder q r (y t) t) (Icc a b) t) :
    SmoothIVP (secondOrder q r) (fun t _ => secondOrderMap q r t) y a b := by
  refine ⟨fun t _ x => ?_, ?_, ?_, hy, ?_⟩
  · have : (fun x => secondOrder q r x t) = secondOrderMap q r t :=
      funext fun x => secondOrder_eq q r t x
    rw [this]
    exact (secondOrderMap q r t).hasFDerivAt
  · obtain ⟨Q, hQ⟩ := isCompact_Icc.exists_bound_of_continuousOn hq.continuousOn
    obtain ⟨R', hR'⟩ := isCompact_Icc.exists_bound_of_continuousOn hr.continuousOn
    exact ⟨1 + Q + R', fun t ht _ => secondOrderMap_norm (hQ t ht) (hR' t ht)⟩
  · obtain ⟨B, hB0, hB⟩ := lipschitz_Icc hab (hq.of_le (by norm_num))
    obtain ⟨B', hB0', hB'⟩ := lipschitz_Icc hab (hr.of_le (by norm_num))
    refine ⟨B + B', fun s hs t ht x x' => secondOrderMap_sub.trans ?_⟩
    calc |q s - q t| + |r s - r t| ≤ B * |s - t| + B' * |s - t| := add_le_add (hB s hs t ht) (hB' s hs t ht)
      _ = (B + B') * |s - t| := by ring
      _ ≤ (B + B') * (|s - t| + ‖x - x'‖) := by
        have := norm_nonneg (x - x')
        gcongr
        linarith
  · have := secondOrder_smooth (m := 4) hab (by exact_mod_cast hq) (by exact_mod_cast hr) hy 5 le_rfl
    exact_mod_cast this

theorem secondOrder_pos (hab : a ≤ b) (hq : ContinuousOn q (Icc a b))
    (hr : ∀ t ∈ Icc a b, 0 ≤ r t) {y : ℝ → ℝ × ℝ}
    (hy : ∀ t ∈ Icc a b, HasDerivWithinAt y (secondOrder q r (y t) t) (Icc a b) t)
    (h1 : 0 < (y a).1) (h2 : 0 < (y a).2) :
    ∀ t ∈ Icc a b, (y a).1 ≤ (y t).1 ∧ 0 < (y t).2 := by
  have hF : ∀ t ∈ Icc a b, HasDerivWithinAt (fun t => (y t).1) ((y t).2) (Icc a b) t :=
    fun t ht => (hy t ht).fst
  have hG : ∀ t ∈ Icc a b, HasDerivWithinAt (fun t => (y t).2) (-q t * (y t).2 + r t * (y t).1)
      (Icc a b) t := fun t ht => (hy t ht).snd
  obtain ⟨Q, hQ⟩ := isCompact_Icc.exists_bound_of_continuousOn hq
  have hmono : ∀ x ∈ Icc a b, (∀ t ∈ Ico a x, 0 < (y t).2) → ∀ t ∈ Icc a x, (y a).1 ≤ (y t).1 := by
    intro x hx hpos t ht
    have hsub : Icc a x ⊆ Icc a b := Icc_subset_Icc_right hx.2
    have hm : MonotoneOn (fun t => (y t).1) (Icc a x) := by
      refine monotoneOn_of_hasDerivWithinAt_nonneg (convex_Icc a x) (f' := fun t => (y t).2)
        (fun t ht => ((hF t (hsub ht)).mono hsub).continuousWithinAt) (fun t ht => ?_) fun t ht => ?_
      · exact (hF t (hsub (interior_subset ht))).mono (interior_subset.trans hsub)
      · rw [interior_Icc] at ht
        exact (hpos t ⟨ht.1.le, ht.2⟩).le
    exact hm (left_mem_Icc.2 (ht.1.trans ht.2)) ht ht.1
  have key : ∀ t ∈ Icc a b, 0 < (y t).2 := by
    by_contra hcon
    push Not at hcon
    obtain ⟨s, hs, hs0⟩ := hcon
    have hGc : ContinuousOn (fun t => (y t).2) (Icc a b) := fun t ht => (hG t ht).continuousWithinAt
    have hclosed : IsClosed (Icc a b ∩ (fun t => (y t).2) ⁻¹' Iic 0) :=
      hGc.preimage_isClosed_of_isClosed isClosed_Icc isClosed_Iic
    obtain ⟨x, ⟨hx, hx0⟩, hleast⟩ := (isCompact_Icc.of_isClosed_subset hclosed
      inter_subset_left).exists_isLeast ⟨s, hs, hs0⟩
    have hpos : ∀ t ∈ Ico a x, 0 < (y t).2 := fun t ht => by
      by_contra hn
      exact absurd (hleast ⟨⟨ht.1, ht.2.le.trans hx.2⟩, not_lt.1 hn⟩) (not_le.2 ht.2)
    have hsub : Icc a x ⊆ Icc a b := Icc_subset_Icc_right hx.2
    have hF' := hmono x hx hpos
    have hm : MonotoneOn (fun t => (y t).2 * Real.exp (Q * t)) (Icc a x) := by
      have hd : ∀ t ∈ Icc a b, HasDerivWithinAt (fun t => (y t).2 * Real.exp (Q * t))
          ((-q t * (y t).2 + r t * (y t).1) * Real.exp (Q * t)
            + (y t).2 * (Real.exp (Q * t) * Q)) (Icc a b) t := fun t ht => by
        have he : HasDerivAt (fun t => Real.exp (Q * t)) (Real.exp (Q * t) * Q) t := by
          have := ((hasDerivAt_id t).const_mul Q).exp
          simpa using this
        exact (hG t ht).mul he.hasDerivWithinAt
      refine monotoneOn_of_hasDerivWithinAt_nonneg (convex_Icc a x)
        (fun t ht => ((hd t (hsub ht)).mono hsub).continuousWithinAt)
        (fun t ht => (hd t (hsub (interior_subset ht))).mono (interior_subset.trans hsub))
        fun t ht => ?_
      have htm := interior_subset ht
      rw [interior_Icc] at ht
      have g0 := hpos t ⟨ht.1.le, ht.2⟩
      have f0 := h1.trans_le (hF' t htm)
      have hq' := hQ t (hsub htm)
      rw [Real.norm_eq_abs, abs_le] at hq'
      have r0 := hr t (hsub htm)
      have : (-q t * (y t).2 + r t * (y t).1) * Real.exp (Q * t) + (y t).2 * (Real.exp (Q * t) * Q)
          = ((Q - q t) * (y t).2 + r t * (y t).1) * Real.exp (Q * t) := by ring
      rw [this]
      have : 0 ≤ Q - q t := by linarith [hq'.2]
      positivity
    have := hm (left_mem_Icc.2 hx.1) (right_mem_Icc.2 hx.1) hx.1
    have e1 : 0 < (y a).2 * Real.exp (Q * a) := by positivity
    have e2 : (y x).2 * Real.exp (Q * x) ≤ 0 := mul_nonpos_of_nonpos_of_nonneg hx0 (Real.exp_pos _).le
    simp only at this
    linarith
  exact fun t ht => ⟨hmono b (right_mem_Icc.2 hab) (fun t ht => key t (Ico_subset_Icc_self ht)) t ht,
    key t ht⟩

end JaxCosmo
