import Verif.Proofs.SplineCalculus
import Mathlib.Tactic.NormNum
import Mathlib.Tactic.Ring

/-! # C27–C33: `InterpolatedUnivariateSpline` -/

set_option linter.unusedSectionVars false

namespace JaxCosmo
open Spec
open scoped Interval

section Generic
variable {K : Type*} [Field K] [LinearOrder K] [IsStrictOrderedRing K]

/-! ## C27 -/

/-- C27: the spline passes through every data point, the last one included. -/
theorem C27_interpolates {n k : ℕ} {x y : ℕ → K} {ep : String} {s : Spline K}
    (hx : Increasing n x) (h : Spline.init n n x y k ep = .ok s) :
    ∀ i < n, s.call (x i) = y i := by
  intro i hi
  have hf : s.Fits n x y k ep := ⟨hx, h⟩
  have hkn := hf.knots_inc
  rw [Spline.call_eq hf]
  rcases hf.cases with ⟨rfl, hn, rfl⟩ | ⟨rfl, hn, -, rfl⟩ | ⟨rfl, hn, -, rfl⟩ | ⟨rfl, hn, -, rfl⟩
  case inr.inl =>
    have hlt := Spline.quadKnots_lt hn hx hi
    simp only [Spline.nKnots, Spline.knots, if_true] at hkn ⊢
    rw [pwIx_eq hkn (j := i) (by omega) (Or.inr hlt.1.le) (Or.inr hlt.2)]
    have hh : Spline.quadKnots n x (i + 1) - Spline.quadKnots n x i ≠ 0 :=
      (sub_pos.mpr (hkn i (i + 1) (by omega) (by omega))).ne'
    simp only [Spline.P0, Spline.piece, Spline.knots, diff, if_true, if_false, OfNat.ofNat_ne_one]
    field_simp; ring
  all_goals
    simp only [Spline.nKnots, Spline.knots, Nat.reduceEqDiff, OfNat.one_ne_ofNat, if_false] at hkn ⊢
    by_cases hl : i + 1 < n
    · rw [pwIx_eq hkn (j := i) hl (Or.inr le_rfl) (Or.inr (hx _ _ (by omega) hl))]
      simp [Spline.P0, Spline.piece, Spline.knots]
    · have e : i = n - 1 := by omega
      have hlt : x (n - 2) < x (n - 2 + 1) := hx _ _ (by omega) (by omega)
      have hh := (sub_pos.mpr hlt).ne'
      rw [pwIx_eq hkn (j := n - 2) (by omega) (Or.inr (by
        rw [e]; exact (hx _ _ (by omega) (by omega)).le)) (Or.inl (by omega)),
        show i = n - 2 + 1 by omega]
      simp only [Spline.P0, Spline.piece, Spline.knots, diff, if_false, OfNat.ofNat_ne_one,
        Nat.reduceEqDiff, OfNat.one_ne_ofNat, if_true]
      field_simp; ring

/-- Witness: a cubic spline through five unevenly spaced points. -/
example : ∃ s : Spline ℚ, Spline.init 5 5 (fun i => (i : ℚ) ^ 2) (fun i => (-1) ^ i) 3 = .ok s ∧
    ∀ i : ℕ, i < 5 → s.call ((i : ℚ) ^ 2) = (-1) ^ i := by
  refine ⟨_, rfl, C27_interpolates (n := 5) (k := 3) (ep := "not-a-knot") ?_ rfl⟩
  intro i j hij _
  have : (i : ℚ) < j := by exact_mod_cast hij
  have : (0 : ℚ) ≤ i := by positivity
  nlinarith

/-! ## C28: solvability -/

/-- C28: the constructor accepts every data set of admissible length. -/
theorem C28_total {n k : ℕ} (x y : ℕ → K) (hk : k = 1 ∨ k = 2 ∨ k = 3) (hn : k < n) :
    ∃ s, Spline.init n n x y k "not-a-knot" = .ok s := by
  rcases hk with rfl | rfl | rfl
  · exact ⟨_, by simp [Spline.init, hn]; rfl⟩
  · exact ⟨_, by simp [Spline.init, hn]; rfl⟩
  · exact ⟨_, by simp [Spline.init, hn]; rfl⟩

/-- C28: the quadratic system is nonsingular for every strictly increasing data set. -/
theorem C28_quadratic_solvable {n : ℕ} {x : ℕ → K} (hn : 3 ≤ n) (hx : Increasing n x) :
    IsUnit (Spline.quadA n x).det :=
  isUnit_det_of_ker _ (Spline.quad_ker hn hx)

/-- C28: the cubic system is nonsingular, for both endpoint conditions. -/
theorem C28_cubic_solvable {n : ℕ} {x : ℕ → K} (hn : 4 ≤ n) (hx : Increasing n x) (nat : Bool) :
    IsUnit (Spline.cubicA n x nat).det :=
  isUnit_det_of_ker _ (Spline.cubic_ker hn hx nat)

example : Increasing 4 (fun i => (i : ℚ)) := fun i j h _ => by simpa using h

end Generic

/-! ## C28: smoothness -/

/-- C28: the degree-`k` spline is `k - 1` times continuously differentiable on the whole line. -/
theorem C28_smooth {n k : ℕ} {x y : ℕ → ℝ} {ep : String} {s : Spline ℝ}
    (hx : Increasing n x) (h : Spline.init n n x y k ep = .ok s) :
    ContDiff ℝ (k - 1 : ℕ) s.call := by
  have hf : s.Fits n x y k ep := ⟨hx, h⟩
  have hk : k = 1 ∨ k = 2 ∨ k = 3 := by
    rcases hf.cases with ⟨h, -⟩ | ⟨h, -⟩ | ⟨h, -⟩ | ⟨h, -⟩ <;> simp [h]
  rcases hk with rfl | rfl | rfl
  · simpa using Spline.continuous_call hf
  · refine Spline.contDiff_one_of (Spline.hasDerivAt_call hf le_rfl) 0 ?_
    simpa using Spline.continuous_pw1 hf le_rfl
  · refine Spline.contDiff_one_of (Spline.hasDerivAt_call hf (by omega)) 1 ?_
    refine Spline.contDiff_one_of (Spline.hasDerivAt_pw1 hf rfl) 0 ?_
    simpa using Spline.continuous_pw2 hf rfl

/-- Data used in the concrete cases: four points. -/
theorem increasing_cast (n : ℕ) : Increasing n (fun i => (i : ℝ)) := fun i j h _ => by
  simpa using h

/-- Witness: a quadratic spline through `0, 1, 0, 1` is continuously differentiable. -/
example : ∃ s : Spline ℝ, Spline.init 4 4 (fun i => (i : ℝ)) (fun i => ((i % 2 : ℕ) : ℝ)) 2 = .ok s ∧
    ContDiff ℝ 1 s.call := by
  obtain ⟨s, hs⟩ := C28_total (n := 4) (k := 2) (fun i => (i : ℝ)) (fun i => ((i % 2 : ℕ) : ℝ))
    (by simp) (by omega)
  exact ⟨s, hs, by simpa using C28_smooth (increasing_cast 4) hs⟩

/-! ## C29 -/

section Generic
variable {K : Type*} [Field K] [LinearOrder K] [IsStrictOrderedRing K]

/-- C29: a not-a-knot cubic spline of data sampled from a cubic is that cubic, everywhere. -/
theorem C29_cubic_exact {n : ℕ} {x y : ℕ → K} {s : Spline K} (hx : Increasing n x)
    (h : Spline.init n n x y 3 "not-a-knot" = .ok s) (α β γ δ : K)
    (hy : ∀ i < n, y i = α + β * x i + γ * x i ^ 2 + δ * x i ^ 3) (u : K) :
    s.call u = α + β * u + γ * u ^ 2 + δ * u ^ 3 := by
  have hf : s.Fits n x y 3 "not-a-knot" := ⟨hx, h⟩
  have hkn := hf.knots_inc
  have h2m := hf.two_le
  rw [Spline.call_eq hf]
  obtain ⟨hj, -, -⟩ := pwIx_spec h2m hkn u
  generalize pwIx s.nKnots s.knots u = j at *
  rcases hf.cases with ⟨hc, -⟩ | ⟨hc, -⟩ | ⟨-, hn, -, rfl⟩ | ⟨-, -, hc, -⟩
  · omega
  · omega
  swap
  · exact absurd rfl hc
  have hd : ∀ i, i + 1 < n → diff x i ≠ 0 := fun i hi => (Spline.diff_pos hx hi).ne'
  have hc : ∀ i < n, npSolve n (Spline.cubicA n x false) (Spline.cubicS n x y) i
      = γ + 3 * δ * x i := by
    refine npSolve_unique _ _ _ (Spline.cubic_ker hn hx false) ?_
    intro i
    rcases Nat.eq_zero_or_pos i.1 with h0 | h0
    · have e : i = ⟨0, by omega⟩ := Fin.ext h0
      rw [e, Spline.cubicA_first hn]
      simp [Spline.cubicS, diff]; ring
    · by_cases hl : i.1 + 1 < n
      · have hi := Spline.cubicA_interior hn x false (fun i => γ + 3 * δ * x i) (i := i.1) h0 hl
        rw [hi]
        obtain ⟨m, hm⟩ := Nat.exists_eq_add_of_le' h0
        rw [hm] at hl ⊢
        have d1 := hd m (by omega)
        have d2 := hd (m + 1) (by omega)
        simp only [Spline.cubicS, Nat.add_sub_cancel]
        rw [if_neg (by omega), if_neg (by omega)]
        simp only [diff] at d1 d2 ⊢
        rw [hy m (by omega), hy (m + 1) (by omega), hy (m + 1 + 1) (by omega)]
        field_simp; ring
      · have e : i = ⟨n - 1, by omega⟩ := Fin.ext (by simp; omega)
        rw [e, Spline.cubicA_last hn]
        simp only [Spline.cubicS, diff, Bool.false_eq_true, if_false, if_true]
        rw [if_neg (by omega), show n - 3 + 1 = n - 2 by omega, show n - 2 + 1 = n - 1 by omega]
        ring
  simp only [Spline.nKnots, Nat.reduceEqDiff, if_false] at hj
  have d1 := hd j hj
  simp only [Spline.P0, Spline.piece, Spline.knots, diff, if_false, OfNat.ofNat_ne_one,
    Nat.reduceEqDiff] at d1 ⊢
  rw [hc j (by omega), hc (j + 1) hj, hy j (by omega), hy (j + 1) hj]
  field_simp; ring

/-- Witness: `u³ - 2u` sampled at `0, 1, 4, 9`. -/
example : ∃ s : Spline ℚ, Spline.init 4 4 (fun i => (i : ℚ) ^ 2)
      (fun i => ((i : ℚ) ^ 2) ^ 3 - 2 * (i : ℚ) ^ 2) 3 = .ok s ∧ s.call 5 = 115 := by
  refine ⟨_, rfl, ?_⟩
  rw [C29_cubic_exact (n := 4) ?_ rfl 0 (-2) 0 1 (fun i _ => by ring)]
  · norm_num
  intro i j hij _
  have : (i : ℚ) < j := by exact_mod_cast hij
  have : (0 : ℚ) ≤ i := by positivity
  nlinarith

/-- C29 (`k = 2`): a quadratic spline of data sampled from a quadratic is that quadratic. -/
theorem C29_quadratic_exact {n : ℕ} {x y : ℕ → K} {s : Spline K} (hx : Increasing n x)
    (h : Spline.init n n x y 2 "not-a-knot" = .ok s) (α β γ : K)
    (hy : ∀ i < n, y i = α + β * x i + γ * x i ^ 2) (u : K) :
    s.call u = α + β * u + γ * u ^ 2 := by
  have hf : s.Fits n x y 2 "not-a-knot" := ⟨hx, h⟩
  have hkn := hf.knots_inc
  have h2m := hf.two_le
  rw [Spline.call_eq hf]
  obtain ⟨hj, -, -⟩ := pwIx_spec h2m hkn u
  generalize pwIx s.nKnots s.knots u = j at *
  rcases hf.cases with ⟨hc, -⟩ | ⟨-, hn, -, rfl⟩ | ⟨hc, -⟩ | ⟨hc, -⟩
  · omega
  swap
  · omega
  swap
  · omega
  simp only [Spline.nKnots, if_true, Spline.knots] at hj hkn
  have hd : ∀ i, i < n → diff (Spline.quadKnots n x) i ≠ 0 := fun i hi =>
    (sub_pos.mpr (hkn i (i + 1) (by omega) (by omega))).ne'
  have hc : ∀ i < n + 1, npSolve (n + 1) (Spline.quadA n x) (Spline.quadS n y) i
      = β + 2 * γ * Spline.quadKnots n x i := by
    refine npSolve_unique _ _ _ (Spline.quad_ker hn hx) ?_
    intro i
    rcases Nat.eq_zero_or_pos i.1 with h0 | h0
    · have e : i = ⟨0, by omega⟩ := Fin.ext h0
      have d0 := hd 0 (by omega)
      have d1 := hd 1 (by omega)
      rw [e, Spline.quadA_first hn]
      simp only [Spline.quadS, diff, if_true] at d0 d1 ⊢
      field_simp; ring
    · by_cases hl : i.1 < n
      · have hi := Spline.quadA_interior hn x (fun i => β + 2 * γ * Spline.quadKnots n x i)
          (i := i.1) h0 hl
        rw [hi]
        obtain ⟨m, hm⟩ := Nat.exists_eq_add_of_le' h0
        rw [hm] at hl ⊢
        have d1 := hd m (by omega)
        have d2 := hd (m + 1) (by omega)
        simp only [Spline.quadS, Nat.add_sub_cancel]
        rw [if_neg (by omega), if_neg (by omega)]
        simp only [diff] at d1 d2 ⊢
        rw [hy m (by omega), hy (m + 1) (by omega)]
        field_simp; ring
      · have e : i = ⟨n, by omega⟩ := Fin.ext (by simp; omega)
        have d0 := hd (n - 1) (by omega)
        have d1 := hd (n - 2) (by omega)
        rw [e, Spline.quadA_last hn]
        simp only [Spline.quadS, diff, if_true] at d0 d1 ⊢
        rw [if_neg (by omega)]
        rw [show n - 2 + 1 = n - 1 by omega] at d1 ⊢
        rw [show n - 1 + 1 = n by omega] at d0 ⊢
        field_simp; ring
  have d1 := hd j (by omega)
  simp only [Spline.P0, Spline.piece, Spline.knots, diff, if_true, if_false,
    OfNat.ofNat_ne_one] at d1 ⊢
  rw [hc j (by omega), hc (j + 1) hj, hy j (by omega)]
  field_simp; ring

example : ∃ s : Spline ℚ, Spline.init 3 3 (fun i => (i : ℚ) ^ 2)
      (fun i => 1 - ((i : ℚ) ^ 2) ^ 2) 2 = .ok s ∧ s.call 7 = -48 := by
  refine ⟨_, rfl, ?_⟩
  rw [C29_quadratic_exact (n := 3) ?_ rfl 1 0 (-1) (fun i _ => by ring)]
  · norm_num
  intro i j hij _
  have : (i : ℚ) < j := by exact_mod_cast hij
  have : (0 : ℚ) ≤ i := by positivity
  nlinarith

/-- Second and second-to-last knots carry no jump in the cubic coefficient. -/
theorem notAKnot_d {n : ℕ} {x y : ℕ → K} {s : Spline K} (hx : Increasing n x)
    (h : Spline.init n n x y 3 "not-a-knot" = .ok s) :
    4 ≤ n ∧ (s.piece 0).d = (s.piece 1).d ∧ (s.piece (n - 3)).d = (s.piece (n - 2)).d := by
  have hf : s.Fits n x y 3 "not-a-knot" := ⟨hx, h⟩
  rcases hf.cases with ⟨hc, -⟩ | ⟨hc, -⟩ | ⟨-, hn, -, rfl⟩ | ⟨-, -, hc, -⟩
  · omega
  · omega
  swap
  · exact absurd rfl hc
  have hd : ∀ i, i + 1 < n → diff x i ≠ 0 := fun i hi => (Spline.diff_pos hx hi).ne'
  have r0 := Spline.cubic_row_first (y := y) hn hx false
  have r1 := Spline.cubic_row_last (y := y) hn hx false
  simp only [Bool.false_eq_true, if_false] at r0 r1
  have a := hd 0 (by omega)
  have b := hd 1 (by omega)
  have c := hd (n - 3) (by omega)
  have d := hd (n - 2) (by omega)
  refine ⟨hn, ?_, ?_⟩
  · simp only [Spline.piece, Spline.knots, if_false, OfNat.ofNat_ne_one, Nat.reduceEqDiff]
    field_simp
    simp only [zero_add, Nat.reduceAdd]
    linear_combination -r0
  · simp only [Spline.piece, Spline.knots, if_false, OfNat.ofNat_ne_one, Nat.reduceEqDiff]
    rw [show n - 3 + 1 = n - 2 by omega, show n - 2 + 1 = n - 1 by omega]
    field_simp
    linear_combination -r1

/-- C29: with not-a-knot endpoints the first two pieces are one cubic polynomial, and so are the
last two: the second and the second-to-last data points are not knots. -/
theorem C29_single_cubic {n : ℕ} {x y : ℕ → K} {s : Spline K} (hx : Increasing n x)
    (h : Spline.init n n x y 3 "not-a-knot" = .ok s) :
    (∃ a b c d : K, ∀ u < x 2, s.call u = a + b * u + c * u ^ 2 + d * u ^ 3) ∧
    (∃ a b c d : K, ∀ u, x (n - 3) ≤ u → s.call u = a + b * u + c * u ^ 2 + d * u ^ 3) := by
  have hf : s.Fits n x y 3 "not-a-knot" := ⟨hx, h⟩
  obtain ⟨hn, hd1, hd2⟩ := notAKnot_d hx h
  have hkn := hf.knots_inc
  obtain ⟨hk, hsn, hsx, -⟩ := hf.ks
  have hm : s.nKnots = n := by simp [Spline.nKnots, hk, hsn]
  have ht : s.knots = x := by simp [Spline.knots, hk, hsx]
  have same := fun j (hj : j + 2 < n) => Spline.same_piece
    (Spline.agree0 hf (hm.symm ▸ hj)) (Spline.agree1 hf (by omega) (hm.symm ▸ hj))
    (Spline.agree2 hf rfl (hm.symm ▸ hj))
  have expand : ∀ j, ∃ a b c d : K, ∀ u, s.P0 j u = a + b * u + c * u ^ 2 + d * u ^ 3 := by
    intro j
    refine ⟨(s.piece j).a - (s.piece j).b * s.knots j + (s.piece j).c * s.knots j ^ 2
        - (s.piece j).d * s.knots j ^ 3,
      (s.piece j).b - 2 * (s.piece j).c * s.knots j + 3 * (s.piece j).d * s.knots j ^ 2,
      (s.piece j).c - 3 * (s.piece j).d * s.knots j, (s.piece j).d, fun u => ?_⟩
    simp only [Spline.P0]; ring
  constructor
  · obtain ⟨a, b, c, d, he⟩ := expand 0
    refine ⟨a, b, c, d, fun u hu => ?_⟩
    rw [← he, Spline.call_eq hf]
    rw [hm, ht]
    obtain ⟨h1, h2, h3⟩ := pwIx_spec (by omega : 2 ≤ n) hx u
    have hlt : pwIx n x u < 2 := by
      by_contra hge
      rcases h2 with h2 | h2
      · omega
      rcases Nat.lt_or_ge 2 (pwIx n x u) with hgt | hle
      · have := hx 2 _ hgt (by omega); linarith
      · rw [show pwIx n x u = 2 by omega] at h2; linarith
    interval_cases hq : pwIx n x u
    · rfl
    · exact (same 0 (by omega) hd1 u).symm
  · obtain ⟨a, b, c, d, he⟩ := expand (n - 2)
    refine ⟨a, b, c, d, fun u hu => ?_⟩
    rw [← he, Spline.call_eq hf]
    rw [hm, ht]
    obtain ⟨h1, h2, h3⟩ := pwIx_spec (by omega : 2 ≤ n) hx u
    have hge : n - 3 ≤ pwIx n x u := by
      by_contra hlt
      rcases h3 with h3 | h3
      · omega
      rcases Nat.lt_or_ge (pwIx n x u + 1) (n - 3) with hgt | hle
      · have := hx _ (n - 3) hgt (by omega); linarith
      · rw [show pwIx n x u + 1 = n - 3 by omega] at h3; linarith
    rcases Nat.lt_or_ge (pwIx n x u) (n - 2) with hl | hl
    · rw [show pwIx n x u = n - 3 by omega]
      have := same (n - 3) (by omega) (by rw [show n - 3 + 1 = n - 2 by omega]; exact hd2) u
      rwa [show n - 3 + 1 = n - 2 by omega] at this
    · rw [show pwIx n x u = n - 2 by omega]

/-! ## C30 -/

/-- C30 (left end only): with natural endpoints the second derivative vanishes at the first data
point.  Missing from C30: the last data point, where the code imposes something else
(`C30_right_condition`, `C30_refuted`). -/
theorem C30_left_partial {n : ℕ} {x y : ℕ → K} {s : Spline K} (hx : Increasing n x)
    (h : Spline.init n n x y 3 "natural" = .ok s) : s.derivative (x 0) 2 = .ok 0 := by
  have hf : s.Fits n x y 3 "natural" := ⟨hx, h⟩
  rw [Spline.derivative_two hf (by omega)]
  have hkn := hf.knots_inc
  rcases hf.cases with ⟨hc, -⟩ | ⟨hc, -⟩ | ⟨-, -, hc, -⟩ | ⟨-, hn, -, rfl⟩
  · omega
  · omega
  · exact absurd hc (by decide)
  simp only [Spline.nKnots, Spline.knots, Nat.reduceEqDiff, if_false] at hkn ⊢
  rw [pwIx_eq hkn (j := 0) (by omega) (Or.inl rfl) (Or.inr (hx 0 1 (by omega) (by omega)))]
  have r0 := Spline.cubic_row_first (y := y) hn hx true
  simp only [if_true] at r0
  simp [Spline.P2, Spline.piece, Spline.knots, r0]

/-- C30: what the code imposes at the right end instead: the *third* derivative vanishes on the
last interval and beyond (the last piece is a parabola). -/
theorem C30_right_condition {n : ℕ} {x y : ℕ → K} {s : Spline K} (hx : Increasing n x)
    (h : Spline.init n n x y 3 "natural" = .ok s) (u : K) (hu : x (n - 2) ≤ u) :
    s.derivative u 3 = .ok 0 := by
  have hf : s.Fits n x y 3 "natural" := ⟨hx, h⟩
  rw [Spline.derivative_three hf rfl]
  have hkn := hf.knots_inc
  rcases hf.cases with ⟨hc, -⟩ | ⟨hc, -⟩ | ⟨-, -, hc, -⟩ | ⟨-, hn, -, rfl⟩
  · omega
  · omega
  · exact absurd hc (by decide)
  simp only [Spline.nKnots, Spline.knots, Nat.reduceEqDiff, if_false] at hkn ⊢
  rw [pwIx_eq hkn (j := n - 2) (by omega) (Or.inr hu) (Or.inl (by omega))]
  have r1 := Spline.cubic_row_last (y := y) hn hx true
  simp only [if_true] at r1
  simp only [Spline.P3, Spline.piece, Spline.knots, Nat.reduceEqDiff, if_false,
    OfNat.ofNat_ne_one]
  rw [show n - 2 + 1 = n - 1 by omega, r1]
  simp

/-- C30: with natural endpoints a straight line is reproduced exactly. -/
theorem C30_affine_exact {n : ℕ} {x y : ℕ → K} {s : Spline K} (hx : Increasing n x)
    (h : Spline.init n n x y 3 "natural" = .ok s) (α β : K)
    (hy : ∀ i < n, y i = α + β * x i) (u : K) : s.call u = α + β * u := by
  have hf : s.Fits n x y 3 "natural" := ⟨hx, h⟩
  have hkn := hf.knots_inc
  have h2m := hf.two_le
  rw [Spline.call_eq hf]
  obtain ⟨hj, -, -⟩ := pwIx_spec h2m hkn u
  generalize pwIx s.nKnots s.knots u = j at *
  rcases hf.cases with ⟨hc, -⟩ | ⟨hc, -⟩ | ⟨-, -, hc, -⟩ | ⟨-, hn, -, rfl⟩
  · omega
  · omega
  · exact absurd hc (by decide)
  have hd : ∀ i, i + 1 < n → diff x i ≠ 0 := fun i hi => (Spline.diff_pos hx hi).ne'
  have hc : ∀ i < n, npSolve n (Spline.cubicA n x true) (Spline.cubicS n x y) i = 0 := by
    refine npSolve_unique _ _ (fun _ => 0) (Spline.cubic_ker hn hx true) ?_
    intro i
    rw [show rowSum (Spline.cubicA n x true) (fun _ => 0) i = 0 by simp [rowSum] ]
    symm
    simp only [Spline.cubicS]
    split_ifs with h1 h2
    · rfl
    · rfl
    have d1 := hd i.1 (by omega)
    have d2 := hd (i.1 - 1) (by omega)
    simp only [diff, show i.1 - 1 + 1 = i.1 by omega] at d1 d2 ⊢
    rw [hy (i.1 + 1) (by omega), hy i.1 (by omega), hy (i.1 - 1) (by omega)]
    field_simp; ring
  simp only [Spline.nKnots, Nat.reduceEqDiff, if_false] at hj
  have d1 := hd j hj
  simp only [Spline.P0, Spline.piece, Spline.knots, diff, if_false, OfNat.ofNat_ne_one,
    Nat.reduceEqDiff] at d1 ⊢
  rw [hc j (by omega), hc (j + 1) hj, hy j (by omega), hy (j + 1) hj]
  field_simp; ring

end Generic

/-- C29: at the second and at the second-to-last data points the not-a-knot spline has
continuous derivatives of every order, the third in particular. -/
theorem C29_third_derivative {n : ℕ} {x y : ℕ → ℝ} {s : Spline ℝ} (hx : Increasing n x)
    (h : Spline.init n n x y 3 "not-a-knot" = .ok s) (m : ℕ) :
    ContDiffAt ℝ m s.call (x 1) ∧ ContDiffAt ℝ m s.call (x (n - 2)) := by
  obtain ⟨hn, -, -⟩ := notAKnot_d hx h
  obtain ⟨⟨a, b, c, d, h1⟩, ⟨a', b', c', d', h2⟩⟩ := C29_single_cubic hx h
  have poly : ∀ a b c d : ℝ, ContDiff ℝ m fun u : ℝ => a + b * u + c * u ^ 2 + d * u ^ 3 := by
    intro a b c d
    exact ((contDiff_const.add (contDiff_const.mul contDiff_id)).add
      (contDiff_const.mul (contDiff_id.pow 2))).add (contDiff_const.mul (contDiff_id.pow 3))
  constructor
  · refine (poly a b c d).contDiffAt.congr_of_eventuallyEq ?_
    filter_upwards [gt_mem_nhds (hx 1 2 (by omega) (by omega))] with u hu
    exact h1 u hu
  · refine (poly a' b' c' d').contDiffAt.congr_of_eventuallyEq ?_
    filter_upwards [lt_mem_nhds (hx (n - 3) (n - 2) (by omega) (by omega))] with u hu
    exact h2 u (le_of_lt hu)

/-- C30 fails: for the data `(0,0), (1,0), (2,0), (3,1)` the "natural" spline has second
derivative `24/19` at the last data point. -/
theorem C30_refuted : ∃ (n : ℕ) (x y : ℕ → ℚ) (s : Spline ℚ), Increasing n x ∧
    Spline.init n n x y 3 "natural" = .ok s ∧ s.derivative (x (n - 1)) 2 = .ok (24 / 19) := by
  have hx : Increasing 4 (fun i => (i : ℚ)) := fun i j h _ => by simpa using h
  refine ⟨4, fun i => (i : ℚ), fun i => if i = 3 then 1 else 0, _, hx, rfl, ?_⟩
  rw [Spline.derivative_two (n := 4) (k := 3) (ep := "natural") ⟨hx, rfl⟩ (by omega)]
  have hc : ∀ i < 4, npSolve 4 (Spline.cubicA 4 (fun i => (i : ℚ)) true)
      (Spline.cubicS 4 (fun i => (i : ℚ)) (fun i => if i = 3 then 1 else 0)) i
      = if i = 0 then 0 else if i = 1 then -3 / 19 else 12 / 19 := by
    refine npSolve_unique _ _ _ (Spline.cubic_ker le_rfl hx true) ?_
    intro i
    fin_cases i <;> simp [rowSum, Spline.cubicA, diagK, Fin.sum_univ_four, Spline.cubicS, diff] <;>
      norm_num
  have hi : pwIx 4 (fun i => (i : ℚ)) 3 = 2 :=
    pwIx_eq hx (by omega) (Or.inr (by norm_num)) (Or.inl rfl)
  simp only [Spline.nKnots, Spline.knots, Nat.reduceEqDiff, if_false, Nat.reduceSub, Nat.cast_ofNat,
    hi, Spline.P2, Spline.piece, diff]
  have h2 := hc 2 (by omega)
  have h3 := hc 3 (by omega)
  simp only [decide_true, if_true, if_false, OfNat.ofNat_ne_one, true_or, Nat.reduceAdd] at h2 h3 ⊢
  rw [h2, h3]
  norm_num

/-! ## C31 -/

/-- C31: derivatives of order above `k` are rejected. -/
theorem C31_rejected {n k : ℕ} {x y : ℕ → ℝ} {ep : String} {s : Spline ℝ}
    (h : Spline.init n n x y k ep = .ok s) (hx : Increasing n x) (u : ℝ) (m : ℕ) (hm : k < m) :
    s.derivative u m = .error .assertionError := by
  obtain ⟨hk, -⟩ := Spline.Fits.ks ⟨hx, h⟩
  rw [Spline.derivative, if_pos (by omega)]

/-- `u` is not one of the breakpoints between pieces: data points for `k = 1, 3`, midpoints for
`k = 2`. -/
def NotBreak (n k : ℕ) (x : ℕ → ℝ) (u : ℝ) : Prop :=
  if k = 2 then ∀ j, j + 1 < n → u ≠ (x j + x (j + 1)) / 2
  else ∀ j, 1 ≤ j → j + 1 < n → u ≠ x j

theorem away_of_notBreak {n k : ℕ} {x y : ℕ → ℝ} {ep : String} {s : Spline ℝ} {u : ℝ}
    (hf : s.Fits n x y k ep) (hu : NotBreak n k x u) : Away s.nKnots s.knots u := by
  intro j h1 h2
  obtain ⟨hk, hn, hx, -⟩ := hf.ks
  subst hk hn hx
  unfold NotBreak at hu
  by_cases h : s.k = 2
  · rw [if_pos h] at hu
    simp only [Spline.nKnots, Spline.knots, if_pos h, Spline.quadKnots] at h2 ⊢
    rw [if_neg (by omega), if_neg (by omega), add_comm]
    have := hu (j - 1) (by omega)
    rwa [show j - 1 + 1 = j by omega] at this
  · rw [if_neg h] at hu
    simp only [Spline.nKnots, Spline.knots, if_neg h] at h2 ⊢
    exact hu j h1 h2

/-- C31: `derivative(u, m)` is the `m`-th derivative of the function computed by calling the
spline: at every `u` for `m < k`, and away from the breakpoints for `m = k`. -/
theorem C31_derivative {n k : ℕ} {x y : ℕ → ℝ} {ep : String} {s : Spline ℝ}
    (hx : Increasing n x) (h : Spline.init n n x y k ep = .ok s) (u : ℝ) (m : ℕ) (hm : m ≤ k)
    (hu : m = k → NotBreak n k x u) :
    s.derivative u m = .ok (iteratedDeriv m s.call u) ∧
      ∀ l < m, DifferentiableAt ℝ (iteratedDeriv l s.call) u := by
  have hf : s.Fits n x y k ep := ⟨hx, h⟩
  have hk : k = 1 ∨ k = 2 ∨ k = 3 := by
    rcases hf.cases with ⟨h, -⟩ | ⟨h, -⟩ | ⟨h, -⟩ | ⟨h, -⟩ <;> simp [h]
  have d0 : iteratedDeriv 0 s.call = s.call := iteratedDeriv_zero
  have d1 : 2 ≤ k → iteratedDeriv 1 s.call = pw s.nKnots s.knots s.P1 := fun hk => by
    rw [iteratedDeriv_one]; exact funext fun u => (Spline.hasDerivAt_call hf hk u).deriv
  have d2 : k = 3 → iteratedDeriv 2 s.call = pw s.nKnots s.knots s.P2 := fun hk => by
    rw [iteratedDeriv_succ, d1 (by omega)]
    exact funext fun u => (Spline.hasDerivAt_pw1 hf hk u).deriv
  -- derivatives at `u`
  have e1 : 1 ≤ m → HasDerivAt s.call (pw s.nKnots s.knots s.P1 u) u := fun h1 => by
    by_cases hk2 : 2 ≤ k
    · exact Spline.hasDerivAt_call hf hk2 u
    · rw [Spline.call_pw hf]
      exact pw_hasDerivAt_away hf.two_le hf.knots_inc s.hasDerivAt_P0
        (away_of_notBreak hf (hu (by omega)))
  have e2 : 2 ≤ m → HasDerivAt (pw s.nKnots s.knots s.P1) (pw s.nKnots s.knots s.P2 u) u :=
    fun h1 => by
    by_cases hk2 : k = 3
    · exact Spline.hasDerivAt_pw1 hf hk2 u
    · exact pw_hasDerivAt_away hf.two_le hf.knots_inc s.hasDerivAt_P1
        (away_of_notBreak hf (hu (by omega)))
  have e3 : m = 3 → HasDerivAt (pw s.nKnots s.knots s.P2) (pw s.nKnots s.knots s.P3 u) u :=
    fun h1 => pw_hasDerivAt_away hf.two_le hf.knots_inc s.hasDerivAt_P2
        (away_of_notBreak hf (hu (by omega)))
  have hm3 : m = 0 ∨ m = 1 ∨ m = 2 ∨ m = 3 := by omega
  rcases hm3 with rfl | rfl | rfl | rfl
  · exact ⟨by rw [d0]; simp [Spline.derivative], fun l hl => by omega⟩
  · refine ⟨?_, fun l hl => ?_⟩
    · rw [Spline.derivative_one hf, iteratedDeriv_one, (e1 le_rfl).deriv]; rfl
    · obtain rfl : l = 0 := by omega
      rw [d0]; exact (e1 le_rfl).differentiableAt
  · refine ⟨?_, fun l hl => ?_⟩
    · rw [Spline.derivative_two hf hm, iteratedDeriv_succ, d1 hm, (e2 le_rfl).deriv]; rfl
    · interval_cases l
      · rw [d0]; exact (e1 (by omega)).differentiableAt
      · rw [d1 hm]; exact (e2 le_rfl).differentiableAt
  · have hk3 : k = 3 := by omega
    refine ⟨?_, fun l hl => ?_⟩
    · rw [Spline.derivative_three hf hk3, iteratedDeriv_succ, d2 hk3, (e3 rfl).deriv]; rfl
    · interval_cases l
      · rw [d0]; exact (e1 (by omega)).differentiableAt
      · rw [d1 (by omega)]; exact (e2 (by omega)).differentiableAt
      · rw [d2 hk3]; exact (e3 rfl).differentiableAt

/-- Witness: at the data point `1` of a cubic spline the first two derivatives are returned. -/
example : ∃ s : Spline ℝ, Spline.init 4 4 (fun i => (i : ℝ)) (fun i => ((i % 2 : ℕ) : ℝ)) = .ok s ∧
    s.derivative 1 2 = .ok (iteratedDeriv 2 s.call 1) := by
  obtain ⟨s, hs⟩ := C28_total (n := 4) (k := 3) (fun i => (i : ℝ)) (fun i => ((i % 2 : ℕ) : ℝ))
    (by simp) (by omega)
  exact ⟨s, hs, (C31_derivative (increasing_cast 4) hs 1 2 (by omega) (by omega)).1⟩

/-! ## C32 -/

/-- C32: the antiderivative is an antiderivative, everywhere. -/
theorem C32_antiderivative {n k : ℕ} {x y : ℕ → ℝ} {ep : String} {s : Spline ℝ}
    (hx : Increasing n x) (h : Spline.init n n x y k ep = .ok s) (u : ℝ) :
    HasDerivAt s.antiderivative (s.call u) u :=
  Spline.hasDerivAt_antiderivative ⟨hx, h⟩ u

/-- C32: `integral(a, b)` is the integral of the spline, for all limits in any order. -/
theorem C32_integral {n k : ℕ} {x y : ℕ → ℝ} {ep : String} {s : Spline ℝ}
    (hx : Increasing n x) (h : Spline.init n n x y k ep = .ok s) (a b : ℝ) :
    s.integral a b = ∫ u in a..b, s.call u := by
  have hf : s.Fits n x y k ep := ⟨hx, h⟩
  rw [intervalIntegral.integral_eq_sub_of_hasDerivAt
    (fun u _ => Spline.hasDerivAt_antiderivative hf u)
    ((Spline.continuous_call hf).intervalIntegrable a b)]
  unfold Spline.integral
  split_ifs <;> simp

/-- C32: swapping the limits changes the sign (any data, any field). -/
theorem C32_antisymm {K : Type*} [Field K] [LinearOrder K] (s : Spline K) (a b : K) :
    s.integral a b = -s.integral b a := by
  unfold Spline.integral
  rcases lt_trichotomy a b with h | h | h
  · simp [h, h.not_gt]
  · simp [h]
  · simp [h, h.not_gt]

/-- C32: the integral is additive over adjacent ranges. -/
theorem C32_additive {K : Type*} [Field K] [LinearOrder K] (s : Spline K) (a b c : K) :
    s.integral a b + s.integral b c = s.integral a c := by
  have e : ∀ p q : K, s.integral p q = s.antiderivative q - s.antiderivative p := by
    intro p q; unfold Spline.integral; split_ifs <;> simp
  rw [e, e, e]; ring

/-- Witness: the integral of the cubic `u³` fitted on `[0, 3]`, far outside the data range. -/
example : ∃ s : Spline ℝ, Spline.init 4 4 (fun i => (i : ℝ)) (fun i => (i : ℝ) ^ 3) = .ok s ∧
    s.integral (-2) 10 = ∫ u in (-2 : ℝ)..10, u ^ 3 := by
  obtain ⟨s, hs⟩ := C28_total (n := 4) (k := 3) (fun i => (i : ℝ)) (fun i => (i : ℝ) ^ 3)
    (by simp) (by omega)
  refine ⟨s, hs, ?_⟩
  rw [C32_integral (increasing_cast 4) hs]
  congr 1
  funext u
  rw [C29_cubic_exact (increasing_cast 4) hs 0 0 0 1 (fun i _ => by ring)]
  ring

/-! ## C33 -/

/-- C33: flattening and rebuilding a spline gives back the very same object, whatever its stored
coefficients: nothing is solved again. -/
theorem C33_roundtrip {K : Type*} [Field K] (s : Spline K) (hk : s.k = 1 ∨ s.k = 2 ∨ s.k = 3) :
    Spline.treeUnflatten s.treeFlatten.2 s.treeFlatten.1 = .ok s := by
  simp [Spline.treeUnflatten, Spline.treeFlatten, Spline.init, hk]

/-- C33: every spline the constructor can build qualifies. -/
theorem C33_built {K : Type*} [Field K] {nx ny k : ℕ} {x y : ℕ → K} {ep : String}
    {c : Option (ℕ → K)} {s : Spline K} (h : Spline.init nx ny x y k ep c = .ok s) :
    Spline.treeUnflatten s.treeFlatten.2 s.treeFlatten.1 = .ok s := by
  apply C33_roundtrip
  unfold Spline.init at h
  by_cases hk : k = 1 ∨ k = 2 ∨ k = 3
  swap
  · rw [if_pos hk] at h; cases h
  rw [if_neg (not_not.mpr hk)] at h
  have : s.k = k := by
    split at h
    · cases h
    · cases c with
      | some c => cases h; rfl
      | none =>
        simp only at h
        split_ifs at h <;> cases h <;> rfl
  rwa [this]

/-- Witness: a spline with coefficients that solve no system survives unchanged. -/
example : Spline.treeUnflatten ("natural", 3) ((4, fun i => (i : ℚ)), (4, fun _ => 0), fun _ => 7)
    = .ok ⟨3, 4, fun i => (i : ℚ), fun _ => 0, fun _ => 7, "natural"⟩ :=
  C33_roundtrip ⟨3, 4, fun i => (i : ℚ), fun _ => 0, fun _ => 7, "natural"⟩ (by simp)

end JaxCosmo
