import Verif.Props.SplineUnique

/-! # C119: splines are linear in the data and do not depend on the units or direction of the axis -/

set_option linter.unusedSectionVars false

namespace JaxCosmo
open Spec Finset

section Generic
variable {K : Type*} [Field K] [LinearOrder K] [IsStrictOrderedRing K]

/-! ## Linearity in the ordinates -/

theorem npSolve_linear (m : ℕ) (A : Matrix (Fin m) (Fin m) K) (α β : K) (s t : ℕ → K) (i : ℕ) :
    npSolve m A (fun i => α * s i + β * t i) i = α * npSolve m A s i + β * npSolve m A t i := by
  unfold npSolve
  split_ifs
  · simp only [Matrix.mulVec, dotProduct, mul_sum, ← sum_add_distrib]
    exact sum_congr rfl fun j _ => by ring
  · ring

theorem quadS_linear (n : ℕ) (α β : K) (y z : ℕ → K) :
    Spline.quadS n (fun i => α * y i + β * z i)
      = fun i => α * Spline.quadS n y i + β * Spline.quadS n z i := by
  funext i
  unfold Spline.quadS
  split_ifs
  · ring
  · ring
  · simp only [diff]; ring

theorem cubicS_linear (n : ℕ) (x : ℕ → K) (α β : K) (y z : ℕ → K) :
    Spline.cubicS n x (fun i => α * y i + β * z i)
      = fun i => α * Spline.cubicS n x y i + β * Spline.cubicS n x z i := by
  funext i
  unfold Spline.cubicS
  simp only
  split_ifs
  · ring
  · ring
  · simp only [diff]; ring

/-- C119: the spline of a combination of data sets is the combination of the splines, at every
point and for every degree and endpoint condition. -/
theorem C119_linear {n k : ℕ} {x y z : ℕ → K} {ep : String} {α β : K} {s t w : Spline K}
    (hx : Increasing n x) (hs : Spline.init n n x y k ep = .ok s)
    (ht : Spline.init n n x z k ep = .ok t)
    (hw : Spline.init n n x (fun i => α * y i + β * z i) k ep = .ok w) (u : K) :
    w.call u = α * s.call u + β * t.call u := by
  have fs : s.Fits n x y k ep := ⟨hx, hs⟩
  have ft : t.Fits n x z k ep := ⟨hx, ht⟩
  have fw : w.Fits n x _ k ep := ⟨hx, hw⟩
  rw [Spline.call_eq fs, Spline.call_eq ft, Spline.call_eq fw]
  rcases fs.cases with ⟨rfl, hn, rfl⟩ | ⟨rfl, hn, he, rfl⟩ | ⟨rfl, hn, he, rfl⟩ | ⟨rfl, hn, he, rfl⟩ <;>
  rcases ft.cases with ⟨h1, -, rfl⟩ | ⟨h1, -, h2, rfl⟩ | ⟨h1, -, h2, rfl⟩ | ⟨h1, -, h2, rfl⟩ <;>
  first
  | omega
  | exact absurd he h2
  | exact absurd h2 he
  | (rcases fw.cases with ⟨h1, -, rfl⟩ | ⟨h1, -, h2, rfl⟩ | ⟨h1, -, h2, rfl⟩ | ⟨h1, -, h2, rfl⟩ <;>
     first
     | omega
     | exact absurd he h2
     | exact absurd h2 he
     | (simp only [Spline.nKnots, Spline.knots, Nat.reduceEqDiff, OfNat.one_ne_ofNat, if_false,
          if_true, quadS_linear, cubicS_linear]
        simp only [Spline.P0, Spline.piece, Spline.knots, diff, if_false, OfNat.ofNat_ne_one,
          Nat.reduceEqDiff, OfNat.one_ne_ofNat, if_true, npSolve_linear]
        ring))

/-! ## Change of units of the abscissa -/

theorem affine_increasing {n : ℕ} {x : ℕ → K} (hx : Increasing n x) {l m : K} (hl : 0 < l) :
    Increasing n (fun i => l * x i + m) := fun i j hij hj => by
  have := mul_lt_mul_of_pos_left (hx i j hij hj) hl
  simpa using this

theorem pwIx_affine {m : ℕ} (hm : 2 ≤ m) {t : ℕ → K} (ht : Increasing m t) {l b : K} (hl : 0 < l)
    (u : K) : pwIx m (fun i => l * t i + b) (l * u + b) = pwIx m t u := by
  obtain ⟨h1, h2, h3⟩ := pwIx_spec hm ht u
  refine pwIx_eq (affine_increasing ht hl) h1 (h2.imp_right fun h => ?_) (h3.imp_right fun h => ?_)
  · have := mul_le_mul_of_nonneg_left h hl.le
    linarith
  · have := mul_lt_mul_of_pos_left h hl
    linarith

theorem quadKnots_affine (n : ℕ) (x : ℕ → K) (l b : K) :
    Spline.quadKnots n (fun i => l * x i + b) = fun i => l * Spline.quadKnots n x i + b := by
  funext i
  unfold Spline.quadKnots
  split_ifs <;> ring

theorem diff_affine (x : ℕ → K) (l b : K) (i : ℕ) :
    diff (fun i => l * x i + b) i = l * diff x i := by simp only [diff]; ring

theorem quad_coef_affine {n : ℕ} (hn : 3 ≤ n) {x y : ℕ → K} (hx : Increasing n x) {l b : K}
    (hl : 0 < l) : ∀ i < n + 1,
    npSolve (n + 1) (Spline.quadA n fun i => l * x i + b) (Spline.quadS n y) i
      = npSolve (n + 1) (Spline.quadA n x) (Spline.quadS n y) i / l := by
  have hkn := Spline.quadKnots_increasing hn hx
  have hd : ∀ i, i < n → diff (Spline.quadKnots n x) i ≠ 0 := fun i hi =>
    (sub_pos.mpr (hkn i (i + 1) (by omega) (by omega))).ne'
  have r0 := Spline.quadA_first hn x (npSolve (n + 1) (Spline.quadA n x) (Spline.quadS n y))
  have r1 := Spline.quadA_last hn x (npSolve (n + 1) (Spline.quadA n x) (Spline.quadS n y))
  rw [npSolve_spec _ _ (Spline.quad_ker hn hx)] at r0 r1
  have rm := fun i h1 h2 => Spline.quad_rows (y := y) hn hx (i := i) h1 h2
  simp only [Spline.quadS, if_true, ite_self] at r0 r1
  simp only at rm
  have hl' := hl.ne'
  refine npSolve_unique _ _ _ (Spline.quad_ker hn (affine_increasing hx hl)) ?_
  intro i
  generalize npSolve (n + 1) (Spline.quadA n x) (Spline.quadS n y) = c at *
  rcases Nat.eq_zero_or_pos i.1 with h0 | h0
  · have e : i = ⟨0, by omega⟩ := Fin.ext h0
    have d0 := hd 0 (by omega)
    have d1 := hd 1 (by omega)
    rw [e, Spline.quadA_first hn]
    simp only [quadKnots_affine, diff_affine, Spline.quadS, if_true, mul_div_mul_left _ _ hl']
    linear_combination -r0 / l
  · by_cases hlt : i.1 < n
    · have hi := Spline.quadA_interior hn (fun i => l * x i + b) (fun i => c i / l)
        (i := i.1) h0 hlt
      rw [hi]
      have d1 := hd (i.1 - 1) (by omega)
      have d2 := hd i.1 hlt
      simp only [Spline.quadS]
      rw [if_neg (by omega), if_neg (by omega), ← rm i.1 h0 hlt]
      simp only [quadKnots_affine, diff_affine]
      field_simp
      ring
    · have e : i = ⟨n, by omega⟩ := Fin.ext (by simp; omega)
      rw [e, Spline.quadA_last hn]
      simp only [quadKnots_affine, diff_affine, Spline.quadS, if_true, ite_self,
        mul_div_mul_left _ _ hl']
      linear_combination -r1 / l

theorem cubic_coef_affine {n : ℕ} (hn : 4 ≤ n) {x y : ℕ → K} (hx : Increasing n x) (nat : Bool)
    {l b : K} (hl : 0 < l) : ∀ i < n,
    npSolve n (Spline.cubicA n (fun i => l * x i + b) nat) (Spline.cubicS n (fun i => l * x i + b) y) i
      = npSolve n (Spline.cubicA n x nat) (Spline.cubicS n x y) i / l ^ 2 := by
  have hd : ∀ i, i + 1 < n → diff x i ≠ 0 := fun i hi => (Spline.diff_pos hx hi).ne'
  have r0 := Spline.cubic_row_first (y := y) hn hx nat
  have r1 := Spline.cubic_row_last (y := y) hn hx nat
  have rm := fun i h1 h2 => Spline.cubic_rows (y := y) hn hx nat (i := i) h1 h2
  simp only at r0 r1 rm
  have hl' := hl.ne'
  refine npSolve_unique _ _ _ (Spline.cubic_ker hn (affine_increasing hx hl) nat) ?_
  intro i
  generalize npSolve n (Spline.cubicA n x nat) (Spline.cubicS n x y) = c at *
  rcases Nat.eq_zero_or_pos i.1 with h0 | h0
  · have e : i = ⟨0, by omega⟩ := Fin.ext h0
    rw [e, Spline.cubicA_first hn]
    simp only [diff_affine, Spline.cubicS, if_true]
    cases nat
    · simp only [Bool.false_eq_true, if_false] at r0 ⊢
      field_simp
      linear_combination r0
    · simp only [if_true] at r0 ⊢
      rw [r0, zero_div]
  · by_cases hlt : i.1 + 1 < n
    · have hi := Spline.cubicA_interior hn (fun i => l * x i + b) nat (fun i => c i / l ^ 2)
        (i := i.1) h0 hlt
      rw [hi]
      have d1 := hd (i.1 - 1) (by omega)
      have d2 := hd i.1 hlt
      simp only [Spline.cubicS]
      rw [if_neg (by omega), if_neg (by omega)]
      simp only [diff_affine]
      have := rm i.1 h0 hlt
      rw [show 3 * (diff y i.1 / (l * diff x i.1) - diff y (i.1 - 1) / (l * diff x (i.1 - 1)))
        = 3 * (diff y i.1 / diff x i.1 - diff y (i.1 - 1) / diff x (i.1 - 1)) / l by field_simp,
        ← this]
      field_simp
    · have e : i = ⟨n - 1, by omega⟩ := Fin.ext (by simp; omega)
      rw [e, Spline.cubicA_last hn]
      simp only [diff_affine, Spline.cubicS, if_true, ite_self]
      cases nat
      · simp only [Bool.false_eq_true, if_false] at r1 ⊢
        field_simp
        linear_combination r1
      · simp only [if_true] at r1 ⊢
        rw [← sub_div, r1, zero_div]

/-- C119: stretching and shifting the abscissa, of the data and of the evaluation point alike, does
not change the value. -/
theorem C119_affine {n k : ℕ} {x y : ℕ → K} {ep : String} {l b : K} {s t : Spline K}
    (hx : Increasing n x) (hl : 0 < l) (hs : Spline.init n n x y k ep = .ok s)
    (ht : Spline.init n n (fun i => l * x i + b) y k ep = .ok t) (u : K) :
    t.call (l * u + b) = s.call u := by
  have fs : s.Fits n x y k ep := ⟨hx, hs⟩
  have ft : t.Fits n _ y k ep := ⟨affine_increasing hx hl, ht⟩
  have hl' := hl.ne'
  rw [Spline.call_eq fs, Spline.call_eq ft]
  rcases fs.cases with ⟨rfl, hn, rfl⟩ | ⟨rfl, hn, he, rfl⟩ | ⟨rfl, hn, he, rfl⟩ | ⟨rfl, hn, he, rfl⟩ <;>
  rcases ft.cases with ⟨h1, -, rfl⟩ | ⟨h1, -, h2, rfl⟩ | ⟨h1, -, h2, rfl⟩ | ⟨h1, -, h2, rfl⟩ <;>
  first
  | omega
  | exact absurd he h2
  | exact absurd h2 he
  | skip
  · simp only [Spline.nKnots, Spline.knots, OfNat.one_ne_ofNat, if_false]
    rw [pwIx_affine hn hx hl]
    simp only [Spline.P0, Spline.piece, Spline.knots, if_false, OfNat.one_ne_ofNat, if_true,
      diff_affine]
    generalize pwIx n x u = j
    field_simp
    ring
  · simp only [Spline.nKnots, Spline.knots, if_true, quadKnots_affine]
    have hkn := Spline.quadKnots_increasing hn hx
    rw [pwIx_affine (by omega) hkn hl]
    obtain ⟨hj, -, -⟩ := pwIx_spec (by omega : 2 ≤ n + 1) hkn u
    generalize pwIx (n + 1) (Spline.quadKnots n x) u = j at *
    have d : diff (Spline.quadKnots n x) j ≠ 0 :=
      (sub_pos.mpr (hkn j (j + 1) (by omega) (by omega))).ne'
    simp only [Spline.P0, Spline.piece, Spline.knots, if_false, OfNat.ofNat_ne_one, if_true,
      quadKnots_affine, diff_affine]
    rw [quad_coef_affine hn hx hl j (by omega), quad_coef_affine hn hx hl (j + 1) (by omega)]
    field_simp
    ring
  all_goals
    simp only [Spline.nKnots, Spline.knots, Nat.reduceEqDiff, if_false]
    rw [pwIx_affine (by omega) hx hl]
    obtain ⟨hj, -, -⟩ := pwIx_spec (by omega : 2 ≤ n) hx u
    generalize pwIx n x u = j at *
    have d : diff x j ≠ 0 := (Spline.diff_pos hx hj).ne'
    simp only [Spline.P0, Spline.piece, Spline.knots, if_false, OfNat.ofNat_ne_one,
      Nat.reduceEqDiff, diff_affine]
    rw [cubic_coef_affine hn hx _ hl j (by omega), cubic_coef_affine hn hx _ hl (j + 1) (by omega)]
    field_simp
    ring

end Generic

/-! ## Reversing the abscissa -/

theorem mirror_increasing {n : ℕ} {x : ℕ → ℝ} (hx : Increasing n x) :
    Increasing n (fun i => -x (n - 1 - i)) := fun i j hij hj => by
  have := hx (n - 1 - j) (n - 1 - i) (by omega) (by omega)
  simpa using this

theorem CubicOn.mirror {f : ℝ → ℝ} {l r : ℝ} (h : CubicOn f l r) :
    CubicOn (fun u => f (-u)) (-r) (-l) := by
  obtain ⟨α, β, γ, δ, he⟩ := h
  exact ⟨α, -β, γ, -δ, fun u hu => by
    simp only [he (-u) ⟨by linarith [hu.2], by linarith [hu.1]⟩]; ring⟩

theorem QuadraticOn.mirror {f : ℝ → ℝ} {l r : ℝ} (h : QuadraticOn f l r) :
    QuadraticOn (fun u => f (-u)) (-r) (-l) := by
  obtain ⟨α, β, γ, he⟩ := h
  exact ⟨α, -β, γ, fun u hu => by
    simp only [he (-u) ⟨by linarith [hu.2], by linarith [hu.1]⟩]; ring⟩

/-- C119: listing the data in the opposite direction (abscissae negated) mirrors the not-a-knot
cubic spline. -/
theorem C119_mirror_cubic {n : ℕ} {x y : ℕ → ℝ} {s t : Spline ℝ} (hx : Increasing n x)
    (hs : Spline.init n n x y 3 "not-a-knot" = .ok s)
    (ht : Spline.init n n (fun i => -x (n - 1 - i)) (fun i => y (n - 1 - i)) 3 "not-a-knot" = .ok t)
    (u : ℝ) (hu : u ∈ Set.Icc (x 0) (x (n - 1))) : t.call (-u) = s.call u := by
  have hn := (notAKnot_d hx hs).1
  have hc := C118_cubic_is hx hs
  have hm : NotAKnotCubic n (fun i => -x (n - 1 - i)) (fun i => y (n - 1 - i))
      (fun v => s.call (-v)) := by
    refine ⟨hc.smooth.comp contDiff_neg, fun i hi => ?_, ?_, ?_, fun i hi => ?_⟩
    · have := CubicOn.mirror (hc.piece (n - 1 - (i + 1)) (by omega))
      rwa [show n - 1 - (i + 1) + 1 = n - 1 - i by omega] at this
    · have := CubicOn.mirror hc.last
      simpa [show n - 1 - 2 = n - 3 by omega] using this
    · have := CubicOn.mirror hc.first
      rwa [show n - 1 - (n - 3) = 2 by omega, show n - 1 - (n - 1) = 0 by omega]
    · simp only [neg_neg]
      exact hc.through _ (by omega)
  have := C118_cubic_unique (mirror_increasing hx) ht hm (-u)
    ⟨by simpa using hu.2, by simpa using hu.1⟩
  simpa using this

/-- C119: the same for the quadratic spline. -/
theorem C119_mirror_quadratic {n : ℕ} {x y : ℕ → ℝ} {s t : Spline ℝ} (hx : Increasing n x)
    (hs : Spline.init n n x y 2 "not-a-knot" = .ok s)
    (ht : Spline.init n n (fun i => -x (n - 1 - i)) (fun i => y (n - 1 - i)) 2 "not-a-knot" = .ok t)
    (u : ℝ) (hu : u ∈ Set.Icc (x 0) (x (n - 1))) : t.call (-u) = s.call u := by
  have hn : 3 ≤ n := by
    have hf : s.Fits n x y 2 "not-a-knot" := ⟨hx, hs⟩
    rcases hf.cases with ⟨hc, -⟩ | ⟨-, hn, -, -⟩ | ⟨hc, -⟩ | ⟨hc, -⟩ <;> omega
  have hc := C118_quadratic_is hx hs
  have hm : NotAKnotQuadratic n (fun i => -x (n - 1 - i)) (fun i => y (n - 1 - i))
      (fun v => s.call (-v)) := by
    refine ⟨hc.smooth.comp contDiff_neg, fun i h1 hi => ?_, ?_, ?_, fun i hi => ?_⟩
    · have := QuadraticOn.mirror (hc.piece (n - 1 - i) (by omega) (by omega))
      rw [show n - 1 - i + 1 = n - 1 - (i - 1) by omega,
        show n - 1 - i - 1 = n - 1 - (i + 1) by omega] at this
      convert this using 1 <;> ring
    · have := QuadraticOn.mirror hc.last
      rw [show n - 3 = n - 1 - 2 by omega, show n - 2 = n - 1 - 1 by omega] at this
      convert this using 1
      · simp
      · ring
    · have := QuadraticOn.mirror hc.first
      rw [show n - 1 - (n - 1) = 0 by omega, show n - 1 - (n - 2) = 1 by omega,
        show n - 1 - (n - 3) = 2 by omega]
      convert this using 1
      ring
    · simp only [neg_neg]
      exact hc.through _ (by omega)
  have := C118_quadratic_unique (mirror_increasing hx) ht hm (-u)
    ⟨by simpa using hu.2, by simpa using hu.1⟩
  simpa using this

/-- Witness: data `0, 0, 0, 1, 8` and `0, 1, 2, 3, 4` on `0, 1, 2, 3, 4`: the spline of the sum at
3.5 is `27/8 + 7/2`; on the axis stretched by two and shifted by one it is read off at 8. -/
example : ∃ w v : Spline ℝ,
    Spline.init 5 5 (fun i => (i : ℝ)) (fun i => 1 * trunc 1 3 i + 1 * (i : ℝ)) = .ok w ∧
    Spline.init 5 5 (fun i => 2 * (i : ℝ) + 1) (fun i => 1 * trunc 1 3 i + 1 * (i : ℝ)) = .ok v ∧
    w.call (7 / 2) = 27 / 8 + 7 / 2 ∧ v.call 8 = 27 / 8 + 7 / 2 := by
  obtain ⟨s, hs⟩ := C28_total (n := 5) (k := 3) (fun i => (i : ℝ)) (fun i => trunc 1 3 i)
    (by simp) (by omega)
  obtain ⟨t, ht⟩ := C28_total (n := 5) (k := 3) (fun i => (i : ℝ)) (fun i => (i : ℝ))
    (by simp) (by omega)
  obtain ⟨w, hw⟩ := C28_total (n := 5) (k := 3) (fun i => (i : ℝ))
    (fun i => 1 * trunc 1 3 i + 1 * (i : ℝ)) (by simp) (by omega)
  obtain ⟨v, hv⟩ := C28_total (n := 5) (k := 3) (fun i => 2 * (i : ℝ) + 1)
    (fun i => 1 * trunc 1 3 i + 1 * (i : ℝ)) (by simp) (by omega)
  have e : w.call (7 / 2) = 27 / 8 + 7 / 2 := by
    rw [C119_linear (increasing_cast 5) hs ht hw,
      C118_cubic_unique (increasing_cast 5) hs trunc_notAKnot _ ⟨by norm_num, by norm_num⟩,
      trunc_ge (by norm_num), C29_cubic_exact (increasing_cast 5) ht 0 1 0 0 (fun i _ => by ring)]
    norm_num
  refine ⟨w, v, hw, hv, e, ?_⟩
  rw [← e, ← C119_affine (increasing_cast 5) (by norm_num) hw hv]
  norm_num

end JaxCosmo
