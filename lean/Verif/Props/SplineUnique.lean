import Verif.Props.Spline
import Verif.Proofs.SplineUnique

/-! # C118: the splines computed are the not-a-knot interpolating splines of the textbook -/

namespace JaxCosmo
open Spec

/-! ## Cubic -/

/-- The second derivatives of a not-a-knot cubic spline solve the system of the code. -/
theorem cubic_coef_unique {n : ℕ} {x y : ℕ → ℝ} (hn : 4 ≤ n) (hx : Increasing n x) {f : ℝ → ℝ}
    (hf : NotAKnotCubic n x y f) : ∀ i < n,
    npSolve n (Spline.cubicA n x false) (Spline.cubicS n x y) i = deriv (deriv f) (x i) / 2 := by
  have hd : ∀ i, i + 1 < n → x i < x (i + 1) := fun i hi => hx i (i + 1) (by omega) hi
  refine npSolve_unique _ _ _ (Spline.cubic_ker hn hx false) ?_
  intro i
  rcases Nat.eq_zero_or_pos i.1 with h0 | h0
  · have e : i = ⟨0, by omega⟩ := Fin.ext h0
    rw [e, Spline.cubicA_first hn]
    obtain ⟨α, β, γ, δ, he⟩ := hf.first
    have a := hd 0 (by omega)
    have b := hd 1 (by omega)
    simp only [zero_add, Nat.reduceAdd] at a b
    have h2 := (cubic_deriv hf.smooth (a.trans b) he).2
    simp only [Spline.cubicS, diff, Bool.false_eq_true, if_false, if_true, zero_add, Nat.reduceAdd]
    rw [h2 (x 0) ⟨le_rfl, (a.trans b).le⟩, h2 (x 1) ⟨a.le, b.le⟩, h2 (x 2) ⟨(a.trans b).le, le_rfl⟩]
    ring
  · by_cases hl : i.1 + 1 < n
    · have hi := Spline.cubicA_interior hn x false (fun i => deriv (deriv f) (x i) / 2)
        (i := i.1) h0 hl
      rw [hi]
      obtain ⟨m, hm⟩ := Nat.exists_eq_add_of_le' h0
      rw [hm] at hl ⊢
      have a := hd m (by omega)
      have b := hd (m + 1) (by omega)
      obtain ⟨-, p, -⟩ := cubic_of_ends hf.smooth a (hf.piece m (by omega))
      obtain ⟨q, -, -⟩ := cubic_of_ends hf.smooth b (hf.piece (m + 1) (by omega))
      simp only [hf.through m (by omega), hf.through (m + 1) (by omega),
        hf.through (m + 1 + 1) (by omega)] at p q
      simp only [Spline.cubicS, Nat.add_sub_cancel]
      rw [if_neg (by omega), if_neg (by omega)]
      simp only [diff]
      linear_combination 3 * (p.symm.trans q)
    · have e : i = ⟨n - 1, by omega⟩ := Fin.ext (by simp; omega)
      rw [e, Spline.cubicA_last hn]
      obtain ⟨α, β, γ, δ, he⟩ := hf.last
      have a : x (n - 3) < x (n - 2) := hx _ _ (by omega) (by omega)
      have b : x (n - 2) < x (n - 1) := hx _ _ (by omega) (by omega)
      have h2 := (cubic_deriv hf.smooth (a.trans b) he).2
      simp only [Spline.cubicS, diff, Bool.false_eq_true, if_false, if_true]
      rw [if_neg (by omega), show n - 3 + 1 = n - 2 by omega, show n - 2 + 1 = n - 1 by omega,
        h2 (x (n - 3)) ⟨le_rfl, (a.trans b).le⟩, h2 (x (n - 2)) ⟨a.le, b.le⟩,
        h2 (x (n - 1)) ⟨(a.trans b).le, le_rfl⟩]
      ring

/-- C118: whatever function is a not-a-knot cubic spline through the data, the code evaluates to
it, at every point of the data range. -/
theorem C118_cubic_unique {n : ℕ} {x y : ℕ → ℝ} {s : Spline ℝ} (hx : Increasing n x)
    (h : Spline.init n n x y 3 "not-a-knot" = .ok s) {f : ℝ → ℝ} (hf : NotAKnotCubic n x y f)
    (u : ℝ) (hu : u ∈ Set.Icc (x 0) (x (n - 1))) : s.call u = f u := by
  have hfit : s.Fits n x y 3 "not-a-knot" := ⟨hx, h⟩
  rw [Spline.call_eq hfit]
  obtain ⟨hj, hl, hr⟩ := pwIx_spec hfit.two_le hfit.knots_inc u
  generalize pwIx s.nKnots s.knots u = j at *
  rcases hfit.cases with ⟨hc, -⟩ | ⟨hc, -⟩ | ⟨-, hn, -, rfl⟩ | ⟨-, -, hc, -⟩
  · omega
  · omega
  swap
  · exact absurd rfl hc
  have hc := cubic_coef_unique hn hx hf
  simp only [Spline.nKnots, Spline.knots, Nat.reduceEqDiff, if_false] at hj hl hr
  have hlu : x j ≤ u := by
    rcases hl with rfl | hl
    · exact hu.1
    · exact hl
  have hru : u ≤ x (j + 1) := by
    rcases hr with hr | hr
    · rw [show j + 1 = n - 1 by omega]; exact hu.2
    · exact hr.le
  obtain ⟨-, -, he⟩ := cubic_of_ends hf.smooth (hx j (j + 1) (by omega) hj) (hf.piece j hj)
  rw [he u ⟨hlu, hru⟩, hf.through j (by omega), hf.through (j + 1) hj]
  simp only [Spline.P0, Spline.piece, Spline.knots, diff, if_false, OfNat.ofNat_ne_one,
    Nat.reduceEqDiff]
  rw [hc j (by omega), hc (j + 1) hj]

/-- C118: the function computed is a not-a-knot cubic spline through the data. -/
theorem C118_cubic_is {n : ℕ} {x y : ℕ → ℝ} {s : Spline ℝ} (hx : Increasing n x)
    (h : Spline.init n n x y 3 "not-a-knot" = .ok s) : NotAKnotCubic n x y s.call := by
  have hf : s.Fits n x y 3 "not-a-knot" := ⟨hx, h⟩
  have hcont := Spline.continuous_call hf
  obtain ⟨hk, hsn, hsx, -⟩ := hf.ks
  have hm : s.nKnots = n := by simp [Spline.nKnots, hk, hsn]
  have ht : s.knots = x := by simp [Spline.knots, hk, hsx]
  obtain ⟨⟨a, b, c, d, h1⟩, ⟨a', b', c', d', h2⟩⟩ := C29_single_cubic hx h
  have hn := (notAKnot_d hx h).1
  refine ⟨?_, ?_, ⟨a, b, c, d, fun u hu => ?_⟩, ⟨a', b', c', d', fun u hu => h2 u hu.1⟩,
    C27_interpolates hx h⟩
  · simpa using C28_smooth hx h
  · intro i hi
    have expand : ∃ a b c d : ℝ, ∀ u, s.P0 i u = a + b * u + c * u ^ 2 + d * u ^ 3 := by
      refine ⟨(s.piece i).a - (s.piece i).b * s.knots i + (s.piece i).c * s.knots i ^ 2
          - (s.piece i).d * s.knots i ^ 3,
        (s.piece i).b - 2 * (s.piece i).c * s.knots i + 3 * (s.piece i).d * s.knots i ^ 2,
        (s.piece i).c - 3 * (s.piece i).d * s.knots i, (s.piece i).d, fun u => ?_⟩
      simp only [Spline.P0]; ring
    obtain ⟨a, b, c, d, he⟩ := expand
    refine ⟨a, b, c, d, fun u hu => ?_⟩
    rw [← he, Spline.call_eq hf, hm, ht]
    rcases hu.2.lt_or_eq with hlt | heq
    · rw [pwIx_eq hx hi (Or.inr hu.1) (Or.inr hlt)]
    · by_cases hl : i + 2 = n
      · rw [pwIx_eq hx hi (Or.inr hu.1) (Or.inl hl)]
      · rw [heq, pwIx_eq hx (j := i + 1) (by omega) (Or.inr le_rfl)
          (Or.inr (hx _ _ (by omega) (by omega)))]
        have := Spline.agree0 hf (j := i) (by omega)
        rw [ht] at this
        exact this.symm
  · have hcl : IsClosed {u | s.call u = a + b * u + c * u ^ 2 + d * u ^ 3} :=
      isClosed_eq hcont (by fun_prop)
    have hsub : Set.Iio (x 2) ⊆ {u | s.call u = a + b * u + c * u ^ 2 + d * u ^ 3} :=
      fun u hu => h1 u hu
    have := hcl.closure_subset_iff.mpr hsub
    rw [closure_Iio] at this
    exact this hu.2

/-! ## Quadratic -/

/-- One row of the quadratic system, for two quadratics that meet at `t1` with slope `c1`. -/
theorem quad_row_scalar {t0 t1 t2 x0 x1 a0 b0 g0 a1 b1 g1 c0 c1 c2 : ℝ} (d0 : t1 - t0 ≠ 0)
    (d1 : t2 - t1 ≠ 0) (e : a0 + b0 * t1 + g0 * t1 ^ 2 = a1 + b1 * t1 + g1 * t1 ^ 2)
    (k0 : c0 = b0 + 2 * g0 * t0) (k1 : c1 = b0 + 2 * g0 * t1) (k1' : c1 = b1 + 2 * g1 * t1)
    (k2 : c2 = b1 + 2 * g1 * t2) :
    ((t1 - t0) - 2 * (x0 - t0) + (x0 - t0) ^ 2 / (t1 - t0)) * c0
      + (2 * (x1 - t1) - (x1 - t1) ^ 2 / (t2 - t1) - (x0 - t0) ^ 2 / (t1 - t0) + (t1 - t0)) * c1
      + (x1 - t1) ^ 2 / (t2 - t1) * c2
      = 2 * (a1 + b1 * x1 + g1 * x1 ^ 2 - (a0 + b0 * x0 + g0 * x0 ^ 2)) := by
  have h0 : (x0 - t0) ^ 2 / (t1 - t0) * (c0 - c1) = -2 * g0 * (x0 - t0) ^ 2 := by
    rw [k0, k1]; field_simp; ring
  have h1 : (x1 - t1) ^ 2 / (t2 - t1) * (c2 - c1) = 2 * g1 * (x1 - t1) ^ 2 := by
    rw [k2, k1']; field_simp; ring
  linear_combination h0 + h1 + 2 * e + ((t1 - t0) - 2 * (x0 - t0)) * k0 + (t1 - t0) * k1
    + 2 * (x1 - t1) * k1'

/-- C118: whatever function is a not-a-knot quadratic spline through the data, the code evaluates
to it, at every point of the data range. -/
theorem C118_quadratic_unique {n : ℕ} {x y : ℕ → ℝ} {s : Spline ℝ} (hx : Increasing n x)
    (h : Spline.init n n x y 2 "not-a-knot" = .ok s) {f : ℝ → ℝ} (hf : NotAKnotQuadratic n x y f)
    (u : ℝ) (hu : u ∈ Set.Icc (x 0) (x (n - 1))) : s.call u = f u := by
  have hfit : s.Fits n x y 2 "not-a-knot" := ⟨hx, h⟩
  rw [Spline.call_eq hfit]
  have hkn := hfit.knots_inc
  obtain ⟨hj, hl, hr⟩ := pwIx_spec hfit.two_le hfit.knots_inc u
  generalize pwIx s.nKnots s.knots u = j at *
  rcases hfit.cases with ⟨hc, -⟩ | ⟨-, hn, -, rfl⟩ | ⟨hc, -⟩ | ⟨hc, -⟩
  · omega
  swap
  · omega
  swap
  · omega
  simp only [Spline.nKnots, Spline.knots, if_true] at hj hl hr hkn
  set t := Spline.quadKnots n x with ht
  have tmid : ∀ i, 1 ≤ i → i < n → t i = (x (i - 1) + x i) / 2 := fun i h1 h2 => by
    rw [ht, Spline.quadKnots, if_neg (by omega), if_neg (by omega)]; ring
  have tx := fun i (hi : i < n) => Spline.quadKnots_lt hn hx hi
  have tlt : ∀ i, i < n → t i < t (i + 1) := fun i hi => hkn i (i + 1) (by omega) (by omega)
  have hd : ∀ i, i < n → diff t i ≠ 0 := fun i hi => (sub_pos.mpr (tlt i hi)).ne'
  -- the polynomial of each piece, and the interval on which `f` is known to be that polynomial
  let lo : ℕ → ℝ := fun i => if i = 0 then x 0 else if i = n - 1 then t (n - 2) else t i
  let hi : ℕ → ℝ := fun i => if i = 0 then t 2 else if i = n - 1 then x (n - 1) else t (i + 1)
  have hpoly : ∀ i, ∃ q : ℝ × ℝ × ℝ, i < n → ∀ v ∈ Set.Icc (lo i) (hi i),
      f v = q.1 + q.2.1 * v + q.2.2 * v ^ 2 := by
    intro i
    by_cases hin : i < n
    swap
    · exact ⟨0, fun h => absurd h hin⟩
    have : QuadraticOn f (lo i) (hi i) := by
      simp only [lo, hi]
      by_cases h0 : i = 0
      · rw [if_pos h0, if_pos h0, tmid 2 (by omega) (by omega)]; exact hf.first
      rw [if_neg h0, if_neg h0]
      by_cases h1 : i = n - 1
      · rw [if_pos h1, if_pos h1, tmid (n - 2) (by omega) (by omega),
          show n - 2 - 1 = n - 3 by omega]; exact hf.last
      rw [if_neg h1, if_neg h1, tmid i (by omega) hin, tmid (i + 1) (by omega) (by omega),
        Nat.add_sub_cancel]
      exact hf.piece i (by omega) (by omega)
    obtain ⟨α, β, γ, he⟩ := this
    exact ⟨(α, β, γ), fun _ => he⟩
  choose q hq using hpoly
  have lohi : ∀ i < n, lo i < hi i := by
    intro i hin
    simp only [lo, hi]
    by_cases h0 : i = 0
    · rw [if_pos h0, if_pos h0]
      exact (tx 0 (by omega)).2.trans (tlt 1 (by omega))
    rw [if_neg h0, if_neg h0]
    by_cases h1 : i = n - 1
    · rw [if_pos h1, if_pos h1]
      have a := tlt (n - 2) (by omega)
      rw [show n - 2 + 1 = n - 1 by omega] at a
      exact a.trans (tx (n - 1) (by omega)).1
    rw [if_neg h1, if_neg h1]
    exact tlt i hin
  have hq' : ∀ i < n, ∀ v ∈ Set.Icc (lo i) (hi i), deriv f v = (q i).2.1 + 2 * (q i).2.2 * v :=
    fun i hin => quadratic_deriv hf.smooth (lohi i hin) (hq i hin)
  -- membership of the points used
  have mx : ∀ i < n, x i ∈ Set.Icc (lo i) (hi i) := by
    intro i hin
    have a := tx i hin
    simp only [lo, hi]
    by_cases h0 : i = 0
    · rw [if_pos h0, if_pos h0, h0]
      exact ⟨le_rfl, ((tx 0 (by omega)).2.trans (tlt 1 (by omega))).le⟩
    rw [if_neg h0, if_neg h0]
    by_cases h1 : i = n - 1
    · rw [if_pos h1, if_pos h1, h1]
      have a := tlt (n - 2) (by omega)
      rw [show n - 2 + 1 = n - 1 by omega] at a
      exact ⟨(a.trans (tx (n - 1) (by omega)).1).le, le_rfl⟩
    rw [if_neg h1, if_neg h1]
    exact ⟨a.1.le, a.2.le⟩
  have mr : ∀ i, i + 1 < n → t (i + 1) ∈ Set.Icc (lo i) (hi i) := by
    intro i hin
    simp only [lo, hi]
    by_cases h0 : i = 0
    · rw [if_pos h0, if_pos h0, h0]
      exact ⟨(tx 0 (by omega)).2.le, (tlt 1 (by omega)).le⟩
    rw [if_neg h0, if_neg h0, if_neg (by omega), if_neg (by omega)]
    exact ⟨(tlt i (by omega)).le, le_rfl⟩
  have ml : ∀ i, 1 ≤ i → i < n → t i ∈ Set.Icc (lo i) (hi i) := by
    intro i hi1 hin
    have h0 : i ≠ 0 := by omega
    simp only [lo, hi]
    rw [if_neg h0, if_neg h0]
    by_cases h1 : i = n - 1
    · rw [if_pos h1, if_pos h1, h1]
      have a := tlt (n - 2) (by omega)
      rw [show n - 2 + 1 = n - 1 by omega] at a
      exact ⟨a.le, (tx (n - 1) (by omega)).1.le⟩
    rw [if_neg h1, if_neg h1]
    exact ⟨le_rfl, (tlt i hin).le⟩
  -- slopes at the breakpoints
  let c : ℕ → ℝ := fun i => if i = 0 then (q 0).2.1 + 2 * (q 0).2.2 * t 0
    else if i = n then (q (n - 1)).2.1 + 2 * (q (n - 1)).2.2 * t n else deriv f (t i)
  have cl : ∀ i < n, c i = (q i).2.1 + 2 * (q i).2.2 * t i := by
    intro i hin
    simp only [c]
    by_cases h0 : i = 0
    · rw [if_pos h0, h0]
    rw [if_neg h0, if_neg (by omega)]
    exact hq' i hin _ (ml i (by omega) hin)
  have cr : ∀ i < n, c (i + 1) = (q i).2.1 + 2 * (q i).2.2 * t (i + 1) := by
    intro i hin
    simp only [c]
    rw [if_neg (by omega)]
    by_cases h1 : i + 1 = n
    · rw [if_pos h1, ← h1, Nat.add_sub_cancel]
    rw [if_neg h1]
    exact hq' i hin _ (mr i (by omega))
  have c2 : c 2 = (q 0).2.1 + 2 * (q 0).2.2 * t 2 := by
    have e : deriv f (t 2) = (q 0).2.1 + 2 * (q 0).2.2 * t 2 := by
      refine hq' 0 (by omega) _ ?_
      simp only [lo, hi, if_true]
      exact ⟨((tx 0 (by omega)).2.trans (tlt 1 (by omega))).le, le_rfl⟩
    simp only [c]
    rw [if_neg (by omega), if_neg (by omega), e]
  have cn2 : c (n - 2) = (q (n - 1)).2.1 + 2 * (q (n - 1)).2.2 * t (n - 2) := by
    have e : deriv f (t (n - 2)) = (q (n - 1)).2.1 + 2 * (q (n - 1)).2.2 * t (n - 2) := by
      refine hq' (n - 1) (by omega) _ ?_
      simp only [lo, hi]
      have h0 : ¬ n - 1 = 0 := by omega
      rw [if_neg h0, if_neg h0, if_pos trivial, if_pos trivial]
      have a := tlt (n - 2) (by omega)
      rw [show n - 2 + 1 = n - 1 by omega] at a
      exact ⟨le_rfl, (a.trans (tx (n - 1) (by omega)).1).le⟩
    simp only [c]
    rw [if_neg (by omega), if_neg (by omega), e]
  have hc : ∀ i < n + 1, npSolve (n + 1) (Spline.quadA n x) (Spline.quadS n y) i = c i := by
    refine npSolve_unique _ _ _ (Spline.quad_ker hn hx) ?_
    intro i
    rcases Nat.eq_zero_or_pos i.1 with h0 | h0
    · have e : i = ⟨0, by omega⟩ := Fin.ext h0
      have d0 := hd 0 (by omega)
      have d1 := hd 1 (by omega)
      rw [e, Spline.quadA_first hn, cl 0 (by omega), cr 0 (by omega), c2]
      simp only [Spline.quadS, diff, if_true, ← ht] at d0 d1 ⊢
      field_simp; ring
    · by_cases hl : i.1 < n
      · have hi := Spline.quadA_interior hn x c (i := i.1) h0 hl
        rw [hi]
        obtain ⟨m, hm⟩ := Nat.exists_eq_add_of_le' h0
        rw [hm] at hl ⊢
        have d1 := hd m (by omega)
        have d2 := hd (m + 1) (by omega)
        have e0 := (hf.through m (by omega)).symm.trans (hq m (by omega) _ (mx m (by omega)))
        have e1 := (hf.through (m + 1) hl).symm.trans (hq (m + 1) hl _ (mx (m + 1) hl))
        have e2 := (hq m (by omega) _ (mr m hl)).symm.trans
          (hq (m + 1) hl _ (ml (m + 1) (by omega) hl))
        have k0 := cl m (by omega)
        have k1 := cl (m + 1) hl
        have k2 := cr (m + 1) hl
        have k1' := cr m (by omega)
        simp only [Spline.quadS, Nat.add_sub_cancel]
        rw [if_neg (by omega), if_neg (by omega)]
        simp only [diff, ← ht] at d1 d2 ⊢
        rw [e0, e1]
        exact quad_row_scalar d1 d2 e2 k0 k1' k1 k2
      · have e : i = ⟨n, by omega⟩ := Fin.ext (by simp; omega)
        have d0 := hd (n - 1) (by omega)
        have d1 := hd (n - 2) (by omega)
        have k0 := cl (n - 1) (by omega)
        have k1 := cr (n - 1) (by omega)
        rw [show n - 1 + 1 = n by omega] at k1
        rw [e, Spline.quadA_last hn, cn2, k0, k1]
        simp only [Spline.quadS, diff, if_true, ← ht] at d0 d1 ⊢
        rw [if_neg (by omega)]
        rw [show n - 2 + 1 = n - 1 by omega] at d1 ⊢
        rw [show n - 1 + 1 = n by omega] at d0 ⊢
        field_simp; ring
  have hjn : j < n := by omega
  have hmem : u ∈ Set.Icc (lo j) (hi j) := by
    simp only [lo, hi]
    by_cases h0 : j = 0
    · rw [if_pos h0, if_pos h0]
      rcases hr with hr | hr
      · omega
      · rw [h0] at hr
        exact ⟨hu.1, (hr.trans (tlt 1 (by omega))).le⟩
    rw [if_neg h0, if_neg h0]
    have hl' := hl.resolve_left h0
    by_cases h1 : j = n - 1
    · rw [if_pos h1, if_pos h1]
      have a := tlt (n - 2) (by omega)
      rw [show n - 2 + 1 = n - 1 by omega] at a
      rw [h1] at hl'
      exact ⟨a.le.trans hl', hu.2⟩
    rw [if_neg h1, if_neg h1]
    exact ⟨hl', (hr.resolve_left (by omega)).le⟩
  rw [hq j hjn u hmem]
  have d1 := hd j hjn
  have e0 := (hf.through j hjn).symm.trans (hq j hjn _ (mx j hjn))
  simp only [Spline.P0, Spline.piece, Spline.knots, if_true, if_false,
    OfNat.ofNat_ne_one, ← ht]
  rw [hc j (by omega), hc (j + 1) (by omega), cl j hjn, cr j hjn, e0]
  simp only [diff] at d1 ⊢
  field_simp; ring

/-- C118: the function computed is a not-a-knot quadratic spline through the data. -/
theorem C118_quadratic_is {n : ℕ} {x y : ℕ → ℝ} {s : Spline ℝ} (hx : Increasing n x)
    (h : Spline.init n n x y 2 "not-a-knot" = .ok s) : NotAKnotQuadratic n x y s.call := by
  have hf : s.Fits n x y 2 "not-a-knot" := ⟨hx, h⟩
  have hkn := hf.knots_inc
  have hsm : ContDiff ℝ 1 s.call := by simpa using C28_smooth hx h
  have ha0 := fun j hj => Spline.agree0 hf (j := j) hj
  have ha1 := fun j hj => Spline.agree1 hf le_rfl (j := j) hj
  have hcall := Spline.call_eq hf
  have hthr := C27_interpolates hx h
  have hcase := hf.cases
  clear hf h
  rcases hcase with ⟨hc, -⟩ | ⟨-, hn, -, rfl⟩ | ⟨hc, -⟩ | ⟨hc, -⟩
  · omega
  swap
  · omega
  swap
  · omega
  have hr0 := Spline.quadA_first hn x (npSolve (n + 1) (Spline.quadA n x) (Spline.quadS n y))
  have hr1 := Spline.quadA_last hn x (npSolve (n + 1) (Spline.quadA n x) (Spline.quadS n y))
  rw [npSolve_spec _ _ (Spline.quad_ker hn hx)] at hr0 hr1
  have tx := fun i (hi : i < n) => Spline.quadKnots_lt hn hx hi
  have tmid : ∀ i, 1 ≤ i → i < n → (x (i - 1) + x i) / 2 = Spline.quadKnots n x i :=
    fun i h1 h2 => by rw [Spline.quadKnots, if_neg (by omega), if_neg (by omega)]; ring
  simp only [Spline.nKnots, Spline.knots, if_true] at hkn ha0 ha1 hcall
  set s : Spline ℝ := ⟨2, n, x, y, npSolve (n + 1) (Spline.quadA n x) (Spline.quadS n y),
    "not-a-knot"⟩ with hs
  set t := Spline.quadKnots n x with ht
  have tlt : ∀ i, i < n → t i < t (i + 1) := fun i hi => hkn i (i + 1) (by omega) (by omega)
  have hdt : ∀ i, i < n → diff t i ≠ 0 := fun i hi => (sub_pos.mpr (tlt i hi)).ne'
  have hpd : ∀ i, (s.piece i).d = 0 := fun i => rfl
  have expand : ∀ j, ∃ a b c : ℝ, ∀ u, s.P0 j u = a + b * u + c * u ^ 2 := fun j =>
    ⟨(s.piece j).a - (s.piece j).b * s.knots j + (s.piece j).c * s.knots j ^ 2,
      (s.piece j).b - 2 * (s.piece j).c * s.knots j, (s.piece j).c, fun u => by
      simp only [Spline.P0, hpd]; ring⟩
  have hpc : ∀ i, (s.piece i).c = (s.coef (i + 1) - s.coef i) / (2 * diff t i) := fun i => rfl
  have same : ∀ j, j + 2 < n + 1 → (s.piece j).c = (s.piece (j + 1)).c → ∀ u,
      s.P0 j u = s.P0 (j + 1) u := fun j hj hc u => by
    refine Spline.same_piece (ha0 j hj) (ha1 j hj) ?_ (by rw [hpd, hpd]) u
    simp only [Spline.P2, hpd, hc]; ring
  have c01 : (s.piece 0).c = (s.piece 1).c := by
    have a := hdt 0 (by omega)
    have b := hdt 1 (by omega)
    rw [hpc, hpc]
    simp only [Spline.quadS, if_true] at hr0
    have hr0' : s.coef 0 - (1 + diff t 0 / diff t 1) * s.coef 1 + diff t 0 / diff t 1 * s.coef 2
      = 0 := by
      simp only [s]; linear_combination -hr0
    field_simp at hr0' ⊢
    linear_combination -hr0'
  have c11 : (s.piece (n - 2)).c = (s.piece (n - 1)).c := by
    have a := hdt (n - 1) (by omega)
    have b := hdt (n - 2) (by omega)
    rw [hpc, hpc, show n - 2 + 1 = n - 1 by omega, show n - 1 + 1 = n by omega]
    simp only [Spline.quadS, if_true] at hr1
    rw [if_neg (by omega)] at hr1
    have hr1' : s.coef n - (1 + diff t (n - 1) / diff t (n - 2)) * s.coef (n - 1)
      + diff t (n - 1) / diff t (n - 2) * s.coef (n - 2) = 0 := by
      simp only [s]; linear_combination -hr1
    field_simp at hr1' ⊢
    linear_combination -hr1'
  have hon : ∀ j < n, ∀ u, (j = 0 ∨ t j ≤ u) → (j + 1 = n ∨ u ≤ t (j + 1)) →
      s.call u = s.P0 j u := by
    intro j hj u hl hr
    rw [hcall]
    rcases hr with hr | hr
    · rw [pwIx_eq hkn (by omega) hl (Or.inl (by omega))]
    rcases hr.lt_or_eq with hlt | heq
    · rw [pwIx_eq hkn (by omega) hl (Or.inr hlt)]
    · by_cases hl' : j + 1 = n
      · rw [pwIx_eq hkn (by omega) hl (Or.inl (by omega))]
      · rw [heq, pwIx_eq hkn (j := j + 1) (by omega) (Or.inr le_rfl)
          (Or.inr (tlt _ (by omega)))]
        have := ha0 j (by omega)
        exact this.symm
  refine ⟨hsm, ?_, ?_, ?_, hthr⟩
  · intro i h1 h2
    obtain ⟨a, b, c, he⟩ := expand i
    have e := tmid (i + 1) (by omega) h2
    rw [Nat.add_sub_cancel] at e
    rw [tmid i h1 (by omega), e]
    exact ⟨a, b, c, fun u hu => by
      rw [← he, hon i (by omega) u (Or.inr hu.1) (Or.inr hu.2)]⟩
  · obtain ⟨a, b, c, he⟩ := expand 0
    have e := tmid 2 (by omega) (by omega)
    simp only [Nat.reduceSub] at e
    rw [e]
    refine ⟨a, b, c, fun u hu => ?_⟩
    rw [← he]
    rcases le_total u (t 1) with hle | hle
    · exact hon 0 (by omega) u (Or.inl rfl) (Or.inr hle)
    · rw [same 0 (by omega) c01]
      exact hon 1 (by omega) u (Or.inr hle) (Or.inr hu.2)
  · obtain ⟨a, b, c, he⟩ := expand (n - 1)
    have e := tmid (n - 2) (by omega) (by omega)
    rw [show n - 2 - 1 = n - 3 by omega] at e
    rw [e]
    refine ⟨a, b, c, fun u hu => ?_⟩
    rw [← he]
    have hsame := same (n - 2) (by omega) (by rw [show n - 2 + 1 = n - 1 by omega]; exact c11) u
    rw [show n - 2 + 1 = n - 1 by omega] at hsame
    rcases le_total u (t (n - 1)) with hle | hle
    · rw [← hsame]
      exact hon (n - 2) (by omega) u (Or.inr hu.1)
        (Or.inr (by rw [show n - 2 + 1 = n - 1 by omega]; exact hle))
    · exact hon (n - 1) (by omega) u (Or.inr hle) (Or.inl (by omega))

/-! ## A concrete case

`f u = 0` for `u < 2` and `(u - 2)³` from there on is a not-a-knot cubic spline on `0, 1, 2, 3, 4`
with a jump in the third derivative at 2. -/

/-- The pieces `0` and `c (u - 2)^k`. -/
noncomputable def truncPiece (c : ℝ) (k : ℕ) (j : ℕ) (u : ℝ) : ℝ :=
  if j = 0 then 0 else c * (u - 2) ^ k

/-- `c (u - 2)^k` from 2 on, zero before. -/
noncomputable def trunc (c : ℝ) (k : ℕ) (u : ℝ) : ℝ := pw 3 (fun i => 2 * (i : ℝ)) (truncPiece c k) u

theorem trunc_knots : Increasing 3 (fun i => 2 * (i : ℝ)) := fun i j h _ => by simpa using h

theorem trunc_lt {c u : ℝ} {k : ℕ} (h : u < 2) : trunc c k u = 0 := by
  rw [trunc, pw, pwIx_eq trunc_knots (j := 0) (by omega) (Or.inl rfl) (Or.inr (by norm_num; exact h))]
  simp [truncPiece]

theorem trunc_ge {c u : ℝ} {k : ℕ} (h : 2 ≤ u) : trunc c k u = c * (u - 2) ^ k := by
  rw [trunc, pw, pwIx_eq trunc_knots (j := 1) (by omega) (Or.inr (by norm_num; exact h)) (Or.inl rfl)]
  simp [truncPiece]

theorem trunc_agree (c : ℝ) {k : ℕ} (hk : k ≠ 0) : Agree 3 (fun i => 2 * (i : ℝ)) (truncPiece c k) := by
  intro j hj
  obtain rfl : j = 0 := by omega
  simp [truncPiece, hk]

theorem trunc_contDiff (c : ℝ) (k : ℕ) : ContDiff ℝ k (trunc c (k + 1)) := by
  induction k generalizing c with
  | zero =>
    simp only [CharP.cast_eq_zero, zero_add, contDiff_zero]
    refine pw_continuous (by omega) trunc_knots (fun j => ?_) (trunc_agree c one_ne_zero)
    unfold truncPiece
    split_ifs
    · exact continuous_const
    · fun_prop
  | succ k ih =>
    refine Spline.contDiff_one_of (f' := trunc (c * (k + 2 : ℕ)) (k + 1)) (fun u => ?_) k (ih _)
    refine pw_hasDerivAt (by omega) trunc_knots (fun j u => ?_) (trunc_agree c (by omega))
      (trunc_agree _ (by omega)) u
    unfold truncPiece
    split_ifs
    · exact hasDerivAt_const u 0
    · have h := (((hasDerivAt_id u).sub_const 2).pow (k + 2)).const_mul c
      refine h.congr_deriv ?_
      simp; ring

theorem trunc_notAKnot : NotAKnotCubic 5 (fun i => (i : ℝ)) (fun i => trunc 1 3 i) (trunc 1 3) := by
  have low : ∀ l r : ℝ, r ≤ 2 → CubicOn (trunc 1 3) l r := fun l r hr =>
    ⟨0, 0, 0, 0, fun u hu => by
      rcases lt_or_ge u 2 with h | h
      · rw [trunc_lt h]; ring
      · rw [trunc_ge h, le_antisymm (hu.2.trans hr) h]; ring⟩
  have high : ∀ l r : ℝ, 2 ≤ l → CubicOn (trunc 1 3) l r := fun l r hl =>
    ⟨-8, 12, -6, 1, fun u hu => by rw [trunc_ge (hl.trans hu.1)]; ring⟩
  refine ⟨by exact_mod_cast trunc_contDiff 1 2, fun i hi => ?_, low _ _ (by norm_num),
    high _ _ (by norm_num), fun i _ => rfl⟩
  rcases Nat.lt_or_ge i 2 with h | h
  · exact low _ _ (by exact_mod_cast (by omega : i + 1 ≤ 2))
  · exact high _ _ (by exact_mod_cast h)

/-- Witness: the code's spline through `0, 0, 0, 1, 8` is this function; at 3.5 it is 27/8. -/
example : ∃ s : Spline ℝ, Spline.init 5 5 (fun i => (i : ℝ)) (fun i => trunc 1 3 i) = .ok s ∧
    s.call (7 / 2) = 27 / 8 ∧ s.call (3 / 2) = 0 := by
  obtain ⟨s, hs⟩ := C28_total (n := 5) (k := 3) (fun i => (i : ℝ)) (fun i => trunc 1 3 i)
    (by simp) (by omega)
  refine ⟨s, hs, ?_, ?_⟩
  · rw [C118_cubic_unique (increasing_cast 5) hs trunc_notAKnot _ ⟨by norm_num, by norm_num⟩,
      trunc_ge (by norm_num)]
    norm_num
  · rw [C118_cubic_unique (increasing_cast 5) hs trunc_notAKnot _ ⟨by norm_num, by norm_num⟩,
      trunc_lt (by norm_num)]

/-- Witness: `u²` is the quadratic spline through its values at `0, 1, 2, 3`. -/
example : NotAKnotQuadratic 4 (fun i => (i : ℝ)) (fun i => (i : ℝ) ^ 2) (fun u => u ^ 2) :=
  ⟨by fun_prop, fun _ _ _ => ⟨0, 0, 1, fun u _ => by ring⟩, ⟨0, 0, 1, fun u _ => by ring⟩,
    ⟨0, 0, 1, fun u _ => by ring⟩, fun _ _ => rfl⟩

end JaxCosmo
