import Verif.Proofs.Simps
import Mathlib.Analysis.SpecialFunctions.Integrals.Basic
import Mathlib.Analysis.Calculus.MeanValue
import Mathlib.MeasureTheory.Integral.IntervalIntegral.FundThmCalculus

/-! # C22, C23: the composite Simpson rule `simps` -/

namespace JaxCosmo

section C22
variable {K : Type*} [Field K]

/-- C22: `simps` refuses an odd number of intervals and nothing else. -/
theorem C22_odd_rejected (f : K → K) (a b : K) (N : ℕ) :
    (N % 2 = 1 → simps f a b N = .error .valueError) ∧
      (N % 2 = 0 → ∃ v, simps f a b N = .ok v) := by
  constructor
  · intro h; simp [simps, h]
  · intro h; exact ⟨simpsBody f a b N, by simp [simps, h]⟩

/-- C22: linear in the integrand. -/
theorem C22_linear (f g : K → K) (c d a b : K) (N : ℕ) (hev : N % 2 = 0) {u v : K}
    (hf : simps f a b N = .ok u) (hg : simps g a b N = .ok v) :
    simps (fun x => c * f x + d * g x) a b N = .ok (c * u + d * v) := by
  simp only [simps, hev, if_neg (by omega : ¬ 0 = 1), Except.ok.injEq] at *
  rw [simpsBody_add, simpsBody_smul, simpsBody_smul, hf, hg]

variable [LinearOrder K] [IsStrictOrderedRing K]

/-- C22: exact on every cubic, over any ordered field (the right-hand side is the difference of the
primitive). -/
theorem C22_exact_cubic (c0 c1 c2 c3 a b : K) (N : ℕ) (hN : 0 < N) (hev : N % 2 = 0) :
    simps (fun x => c0 + c1 * x + c2 * x ^ 2 + c3 * x ^ 3) a b N =
      .ok ((c0 * b + c1 * b ^ 2 / 2 + c2 * b ^ 3 / 3 + c3 * b ^ 4 / 4)
        - (c0 * a + c1 * a ^ 2 / 2 + c2 * a ^ 3 / 3 + c3 * a ^ 4 / 4)) := by
  have h := simpsBody_of_panel_exact (fun x => c0 + c1 * x + c2 * x ^ 2 + c3 * x ^ 3)
    (fun x => c0 * x + c1 * x ^ 2 / 2 + c2 * x ^ 3 / 3 + c3 * x ^ 4 / 4) a b N hN hev
    (by intro x h; ring)
  simp [simps, hev, h]

/-- C22: monotone (hence non-negative on non-negative integrands). -/
theorem C22_mono (f g : K → K) (a b : K) (hab : a ≤ b) (N : ℕ) (hev : N % 2 = 0)
    (hfg : ∀ x, a ≤ x → x ≤ b → f x ≤ g x) {u v : K}
    (hf : simps f a b N = .ok u) (hg : simps g a b N = .ok v) : u ≤ v := by
  simp only [simps, hev, if_neg (by omega : ¬ 0 = 1), Except.ok.injEq] at hf hg
  have h := simpsBody_nonneg (fun x => g x + (-1) * f x) a b hab N hev
    (by intro x h0 h1; have := hfg x h0 h1; linarith)
  rw [simpsBody_add, simpsBody_smul, hf, hg] at h
  linarith

/-- C22: non-negative on non-negative integrands. -/
theorem C22_nonneg (f : K → K) (a b : K) (hab : a ≤ b) (N : ℕ) {u : K}
    (hf : ∀ x, a ≤ x → x ≤ b → 0 ≤ f x) (hu : simps f a b N = .ok u) : 0 ≤ u := by
  have hev : N % 2 = 0 := by
    by_contra h
    simp [simps, show N % 2 = 1 by omega] at hu
  simp only [simps, hev, if_neg (by omega : ¬ 0 = 1), Except.ok.injEq] at hu
  exact hu ▸ simpsBody_nonneg f a b hab N hev hf

/-- C22: swapping the limits changes the sign. -/
theorem C22_swap (f : K → K) (a b : K) (N : ℕ) (hN : 0 < N) (hev : N % 2 = 0) {u : K}
    (hu : simps f a b N = .ok u) : simps f b a N = .ok (-u) := by
  simp only [simps, hev, if_neg (by omega : ¬ 0 = 1), Except.ok.injEq] at hu ⊢
  rw [← hu]
  simp only [simpsBody]
  have hN' : (N : K) ≠ 0 := by exact_mod_cast hN.ne'
  have hrev : ∀ i ≤ N, linspace b a (N + 1) i = linspace a b (N + 1) (N - i) := by
    intro i hi
    rw [linspace_succ, linspace_succ, Nat.cast_sub hi]
    field_simp; ring
  rw [← Finset.sum_range_reflect]
  have : (a - b) / (N : K) / 3 = -((b - a) / N / 3) := by ring
  rw [this, neg_mul]
  congr 2
  refine Finset.sum_congr rfl fun i hi => ?_
  have hi := Finset.mem_range.mp hi
  rw [hrev _ (by omega), hrev _ (by omega), hrev _ (by omega)]
  have e0 : N - 2 * (N / 2 - 1 - i) = 2 * i + 2 := by omega
  have e1 : N - (2 * (N / 2 - 1 - i) + 1) = 2 * i + 1 := by omega
  have e2 : N - (2 * (N / 2 - 1 - i) + 2) = 2 * i := by omega
  rw [e0, e1, e2]; ring

/-- A non-trivial instance: `∫₀² x³ = 4` with two intervals. -/
example : simps (fun x : ℚ => 0 + 0 * x + 0 * x ^ 2 + 1 * x ^ 3) 0 2 2 = .ok 4 := by
  rw [C22_exact_cubic _ _ _ _ _ _ _ (by norm_num) (by norm_num)]; norm_num

end C22

/-- C22: for real cubics the value is the integral. -/
theorem C22_exact_cubic_integral (c0 c1 c2 c3 a b : ℝ) (N : ℕ) (hN : 0 < N) (hev : N % 2 = 0) :
    simps (fun x => c0 + c1 * x + c2 * x ^ 2 + c3 * x ^ 3) a b N =
      .ok (∫ x in a..b, (c0 + c1 * x + c2 * x ^ 2 + c3 * x ^ 3)) := by
  rw [C22_exact_cubic _ _ _ _ _ _ _ hN hev]
  congr 1
  have hd : ∀ x, HasDerivAt (fun x => c0 * x + c1 * x ^ 2 / 2 + c2 * x ^ 3 / 3 + c3 * x ^ 4 / 4)
      (c0 + c1 * x + c2 * x ^ 2 + c3 * x ^ 3) x := by
    intro x
    have h := ((((hasDerivAt_id x).const_mul c0).add
      (((hasDerivAt_pow 2 x).const_mul c1).div_const 2)).add
      (((hasDerivAt_pow 3 x).const_mul c2).div_const 3)).add
      (((hasDerivAt_pow 4 x).const_mul c3).div_const 4)
    refine h.congr_deriv ?_
    norm_num; ring
  rw [intervalIntegral.integral_eq_sub_of_hasDerivAt (fun x _ => hd x)]
  apply Continuous.intervalIntegrable
  fun_prop

/-! ## C23: the error bound -/

section C23

/-- If `g 0 = 0` and `|g'(s)| ≤ c sⁿ` on `[0, t)` then `|g(t)| ≤ c tⁿ⁺¹/(n+1)`. -/
theorem abs_le_of_deriv_le {g g' : ℝ → ℝ} {t c : ℝ} (n : ℕ) (h0 : g 0 = 0) (ht : 0 ≤ t)
    (hc : ContinuousOn g (Set.Icc 0 t))
    (hd : ∀ s, 0 ≤ s → s < t → HasDerivAt g (g' s) s)
    (hb : ∀ s, 0 ≤ s → s < t → |g' s| ≤ c * s ^ n) :
    |g t| ≤ c * t ^ (n + 1) / (n + 1) := by
  have := image_norm_le_of_norm_deriv_right_le_deriv_boundary (f := g) (f' := g') (a := 0) (b := t)
    (B := fun t => c * t ^ (n + 1) / (n + 1)) (B' := fun t => c * t ^ n)
    hc
    (fun x hx => (hd x hx.1 hx.2).hasDerivWithinAt)
    (by simp [h0])
    (fun x => by
      have := ((hasDerivAt_pow (n + 1) x).const_mul c).div_const ((n : ℝ) + 1)
      refine this.congr_deriv ?_
      have : (n : ℝ) + 1 ≠ 0 := by positivity
      push_cast; field_simp)
    (fun x hx => by rw [Real.norm_eq_abs]; exact hb x hx.1 hx.2)
    (Set.right_mem_Icc.mpr ht)
  simpa [Real.norm_eq_abs] using this

variable {f f1 f2 f3 f4 : ℝ → ℝ} {a b M : ℝ}

/-- Error of the basic Simpson rule on `[m - h, m + h]`. -/
theorem simpson_panel_error {m h : ℝ} (hh : 0 ≤ h)
    (hcont : ContinuousOn f (Set.Icc (m - h) (m + h)))
    (d0 : ∀ x ∈ Set.Ioo (m - h) (m + h), HasDerivAt f (f1 x) x)
    (d1 : ∀ x ∈ Set.Ioo (m - h) (m + h), HasDerivAt f1 (f2 x) x)
    (d2 : ∀ x ∈ Set.Ioo (m - h) (m + h), HasDerivAt f2 (f3 x) x)
    (d3 : ∀ x ∈ Set.Ioo (m - h) (m + h), HasDerivAt f3 (f4 x) x)
    (hM : ∀ x ∈ Set.Ioo (m - h) (m + h), |f4 x| ≤ M) :
    |(∫ x in (m - h)..(m + h), f x) - h / 3 * (f (m - h) + 4 * f m + f (m + h))|
      ≤ M * h ^ 5 / 90 := by
  have mp : ∀ t, 0 ≤ t → t < h → m + t ∈ Set.Ioo (m - h) (m + h) := fun t h0 h1 =>
    ⟨by linarith, by linarith⟩
  have mm : ∀ t, 0 ≤ t → t < h → m - t ∈ Set.Ioo (m - h) (m + h) := fun t h0 h1 =>
    ⟨by linarith, by linarith⟩
  -- derivatives along `m + t` and `m - t`
  have cp : ∀ {g g' : ℝ → ℝ} (_ : ∀ x ∈ Set.Ioo (m - h) (m + h), HasDerivAt g (g' x) x) (t : ℝ),
      0 ≤ t → t < h → HasDerivAt (fun t => g (m + t)) (g' (m + t)) t := by
    intro g g' hg t h0 h1
    exact HasDerivAt.comp_const_add m t (hg _ (mp t h0 h1))
  have cm : ∀ {g g' : ℝ → ℝ} (_ : ∀ x ∈ Set.Ioo (m - h) (m + h), HasDerivAt g (g' x) x) (t : ℝ),
      0 ≤ t → t < h → HasDerivAt (fun t => g (m - t)) (-g' (m - t)) t := by
    intro g g' hg t h0 h1
    exact HasDerivAt.comp_const_sub m t (hg _ (mm t h0 h1))
  -- third derivative of the error term
  have b3 : ∀ t, 0 ≤ t → t < h → |f3 (m + t) - f3 (m - t)| ≤ 2 * M * t := by
    intro t h0 h1
    have hbound := (convex_Ioo (m - h) (m + h)).norm_image_sub_le_of_norm_hasDerivWithin_le
      (f := f3) (f' := f4) (C := M) (fun x hx => (d3 x hx).hasDerivWithinAt)
      (fun x hx => by rw [Real.norm_eq_abs]; exact hM x hx) (mm t h0 h1) (mp t h0 h1)
    rw [Real.norm_eq_abs, Real.norm_eq_abs] at hbound
    have e : |m + t - (m - t)| = 2 * t := by
      rw [show m + t - (m - t) = 2 * t by ring, abs_of_nonneg (by linarith)]
    rw [e] at hbound; linarith
  -- second derivative
  have D2 : ∀ t, 0 ≤ t → t < h → HasDerivAt
      (fun t => (1 / 3) * (f1 (m + t) - f1 (m - t)) - t / 3 * (f2 (m + t) + f2 (m - t)))
      (-(t / 3) * (f3 (m + t) - f3 (m - t))) t := by
    intro t h0 h1
    have A := ((cp d1 t h0 h1).fun_sub (cm d1 t h0 h1)).const_mul (1 / 3)
    have B := ((hasDerivAt_id' t).div_const 3).fun_mul ((cp d2 t h0 h1).fun_add (cm d2 t h0 h1))
    refine (A.fun_sub B).congr_deriv ?_
    ring
  have e2 : ∀ t, 0 ≤ t → t < h →
      |(1 / 3) * (f1 (m + t) - f1 (m - t)) - t / 3 * (f2 (m + t) + f2 (m - t))|
        ≤ 2 * M / 9 * t ^ 3 := by
    intro t h0 h1
    have := abs_le_of_deriv_le (c := 2 * M / 3) 2 (by simp) h0
      (fun s hs => (D2 s hs.1 (by linarith [hs.2])).continuousAt.continuousWithinAt)
      (fun s hs0 hs1 => D2 s hs0 (by linarith))
      (by
        intro t h0 h1
        rw [abs_mul, abs_neg, abs_of_nonneg (by linarith : (0 : ℝ) ≤ t / 3)]
        have := mul_le_mul_of_nonneg_left (b3 t h0 (by linarith)) (by linarith : (0 : ℝ) ≤ t / 3)
        nlinarith)
    refine this.trans (le_of_eq ?_)
    norm_num; ring
  -- first derivative
  have D1 : ∀ t, 0 ≤ t → t < h → HasDerivAt
      (fun t => (2 / 3) * (f (m + t) + f (m - t)) - (4 / 3) * f m
        - t / 3 * (f1 (m + t) - f1 (m - t)))
      ((1 / 3) * (f1 (m + t) - f1 (m - t)) - t / 3 * (f2 (m + t) + f2 (m - t))) t := by
    intro t h0 h1
    have A := (((cp d0 t h0 h1).fun_add (cm d0 t h0 h1)).const_mul (2 / 3)).sub_const (4 / 3 * f m)
    have B := ((hasDerivAt_id' t).div_const 3).fun_mul ((cp d1 t h0 h1).fun_sub (cm d1 t h0 h1))
    refine (A.fun_sub B).congr_deriv ?_
    ring
  have e1 : ∀ t, 0 ≤ t → t < h →
      |(2 / 3) * (f (m + t) + f (m - t)) - (4 / 3) * f m - t / 3 * (f1 (m + t) - f1 (m - t))|
        ≤ M / 18 * t ^ 4 := by
    intro t h0 h1
    have := abs_le_of_deriv_le (c := 2 * M / 9) 3 (by simp; ring) h0
      (fun s hs => (D1 s hs.1 (by linarith [hs.2])).continuousAt.continuousWithinAt)
      (fun s hs0 hs1 => D1 s hs0 (by linarith))
      (fun s hs0 hs1 => e2 s hs0 (by linarith))
    refine this.trans (le_of_eq ?_)
    norm_num; ring
  -- a primitive of `f`
  have hint : ∀ t ∈ Set.Icc 0 h, IntervalIntegrable f MeasureTheory.volume (m - t) (m + t) := by
    intro t ht
    apply ContinuousOn.intervalIntegrable_of_Icc (by linarith [ht.1])
    exact hcont.mono (Set.Icc_subset_Icc (by linarith [ht.2]) (by linarith [ht.2]))
  obtain ⟨F, hFc, hFd⟩ : ∃ F : ℝ → ℝ, ContinuousOn F (Set.Icc (m - h) (m + h)) ∧
      ∀ x ∈ Set.Ioo (m - h) (m + h), HasDerivAt F (f x) x := by
    refine ⟨fun x => ∫ y in (m - h)..x, f y, ?_, ?_⟩
    · have hi : MeasureTheory.IntegrableOn f (Set.uIcc (m - h) (m + h)) := by
        rw [Set.uIcc_of_le (by linarith)]; exact hcont.integrableOn_Icc
      have := intervalIntegral.continuousOn_primitive_interval hi
      rwa [Set.uIcc_of_le (by linarith)] at this
    · intro x hx
      apply intervalIntegral.integral_hasDerivAt_right
      · exact (hcont.mono (Set.Icc_subset_Icc le_rfl hx.2.le)).intervalIntegrable_of_Icc hx.1.le
      · exact (hcont.mono Set.Ioo_subset_Icc_self).stronglyMeasurableAtFilter isOpen_Ioo x hx
      · exact hcont.continuousAt (Icc_mem_nhds hx.1 hx.2)
  have hF : ∀ t, 0 ≤ t → t ≤ h → ∫ x in (m - t)..(m + t), f x = F (m + t) - F (m - t) := by
    intro t h0 h1
    apply intervalIntegral.integral_eq_sub_of_hasDeriv_right_of_le (by linarith)
    · exact hFc.mono (Set.Icc_subset_Icc (by linarith) (by linarith))
    · intro x hx
      exact (hFd x ⟨by linarith [hx.1], by linarith [hx.2]⟩).hasDerivWithinAt
    · exact hint t ⟨h0, h1⟩
  rw [hF h hh le_rfl]
  -- the error itself
  have := abs_le_of_deriv_le (t := h) (c := M / 18)
    (g := fun t => F (m + t) - F (m - t) - t / 3 * (f (m - t) + 4 * f m + f (m + t)))
    (g' := fun t => (2 / 3) * (f (m + t) + f (m - t)) - (4 / 3) * f m
        - t / 3 * (f1 (m + t) - f1 (m - t))) 4 (by simp) hh
    (by
      have p1 : Set.MapsTo (fun t => m + t) (Set.Icc 0 h) (Set.Icc (m - h) (m + h)) :=
        fun t ht => ⟨by linarith [ht.1, ht.2], by linarith [ht.2]⟩
      have p2 : Set.MapsTo (fun t => m - t) (Set.Icc 0 h) (Set.Icc (m - h) (m + h)) :=
        fun t ht => ⟨by linarith [ht.1, ht.2], by linarith [ht.1, ht.2]⟩
      have c1 : ContinuousOn (fun t => m + t) (Set.Icc 0 h) := by fun_prop
      have c2 : ContinuousOn (fun t => m - t) (Set.Icc 0 h) := by fun_prop
      have := hFc.comp c1 p1
      have := hFc.comp c2 p2
      have := hcont.comp c1 p1
      have := hcont.comp c2 p2
      apply ContinuousOn.sub
      · exact ContinuousOn.sub (hFc.comp c1 p1) (hFc.comp c2 p2)
      · apply ContinuousOn.mul (by fun_prop)
        exact ((hcont.comp c2 p2).add continuousOn_const).add (hcont.comp c1 p1))
    (by
      intro t h0 h1
      have A := (cp hFd t h0 h1).fun_sub (cm hFd t h0 h1)
      have B := ((hasDerivAt_id' t).div_const 3).fun_mul
        (((cm d0 t h0 h1).add_const (4 * f m)).fun_add (cp d0 t h0 h1))
      refine (A.fun_sub B).congr_deriv ?_
      ring)
    (fun s h0 h1 => e1 s h0 h1)
  refine this.trans (le_of_eq ?_)
  norm_num; ring

/-- C23: fourth-order convergence.  `f` is continuous on `[a, b]`, four times differentiable inside
with fourth derivative bounded by `M`. -/
theorem C23_error_bound (hab : a ≤ b) (hcont : ContinuousOn f (Set.Icc a b))
    (d0 : ∀ x ∈ Set.Ioo a b, HasDerivAt f (f1 x) x)
    (d1 : ∀ x ∈ Set.Ioo a b, HasDerivAt f1 (f2 x) x)
    (d2 : ∀ x ∈ Set.Ioo a b, HasDerivAt f2 (f3 x) x)
    (d3 : ∀ x ∈ Set.Ioo a b, HasDerivAt f3 (f4 x) x)
    (hM : ∀ x ∈ Set.Ioo a b, |f4 x| ≤ M) (N : ℕ) (hN : 0 < N) {u : ℝ}
    (hu : simps f a b N = .ok u) :
    |u - ∫ x in a..b, f x| ≤ (b - a) ^ 5 * M / (180 * (N : ℝ) ^ 4) := by
  have hev : N % 2 = 0 := by
    by_contra h
    simp [simps, show N % 2 = 1 by omega] at hu
  simp only [simps, hev, if_neg (by omega : ¬ 0 = 1), Except.ok.injEq] at hu
  rw [← hu, simpsBody_eq_panels]
  set h := (b - a) / (N : ℝ) with hh
  have hN' : (0 : ℝ) < N := by exact_mod_cast hN
  have h0 : 0 ≤ h := div_nonneg (by linarith) hN'.le
  set x : ℕ → ℝ := fun i => linspace a b (N + 1) (2 * i) with hx
  have hxs : ∀ i, x (i + 1) = x i + 2 * h := by
    intro i; simp only [hx, linspace_succ]; push_cast; ring
  have hxm : ∀ i, i ≤ N / 2 → a ≤ x i ∧ x i ≤ b := fun i hi =>
    linspace_mem a b hab N (2 * i) (by omega) hN
  have hx0 : x 0 = a := by simp [hx, linspace_zero]
  have hxN : x (N / 2) = b := by
    simp only [hx]; rw [show 2 * (N / 2) = N by omega, linspace_last a b N hN.ne']
  have hsum : ∫ y in a..b, f y = ∑ i ∈ Finset.range (N / 2), ∫ y in (x i)..(x (i + 1)), f y := by
    rw [intervalIntegral.sum_integral_adjacent_intervals, hx0, hxN]
    intro i hi
    apply ContinuousOn.intervalIntegrable_of_Icc (by rw [hxs]; linarith)
    exact hcont.mono (Set.Icc_subset_Icc (hxm i hi.le).1 (hxm (i + 1) hi).2)
  rw [hsum, ← Finset.sum_sub_distrib]
  refine (Finset.abs_sum_le_sum_abs _ _).trans ?_
  have hpanel : ∀ i ∈ Finset.range (N / 2),
      |h / 3 * (f (x i) + 4 * f (x i + h) + f (x i + 2 * h)) - ∫ y in (x i)..(x (i + 1)), f y|
        ≤ M * h ^ 5 / 90 := by
    intro i hi
    have hi := Finset.mem_range.mp hi
    have s1 : Set.Ioo (x i + h - h) (x i + h + h) ⊆ Set.Ioo a b := by
      apply Set.Ioo_subset_Ioo
      · have := (hxm i hi.le).1; linarith
      · have := (hxm (i + 1) hi).2; rw [hxs] at this; linarith
    have s2 : Set.Icc (x i + h - h) (x i + h + h) ⊆ Set.Icc a b := by
      apply Set.Icc_subset_Icc
      · have := (hxm i hi.le).1; linarith
      · have := (hxm (i + 1) hi).2; rw [hxs] at this; linarith
    have := simpson_panel_error (m := x i + h) h0 (hcont.mono s2) (fun y hy => d0 y (s1 hy))
      (fun y hy => d1 y (s1 hy)) (fun y hy => d2 y (s1 hy)) (fun y hy => d3 y (s1 hy))
      (fun y hy => hM y (s1 hy))
    rw [abs_sub_comm, hxs]
    rw [show x i + h - h = x i by ring, show x i + h + h = x i + 2 * h by ring] at this
    exact this
  refine (Finset.sum_le_sum hpanel).trans (le_of_eq ?_)
  rw [Finset.sum_const, Finset.card_range, nsmul_eq_mul]
  have h2 : ((N / 2 : ℕ) : ℝ) = N / 2 := by
    have : 2 * (N / 2) = N := by omega
    have : (2 : ℝ) * ((N / 2 : ℕ) : ℝ) = N := by exact_mod_cast this
    linarith
  rw [h2, hh]
  field_simp; ring

/-- The hypotheses of C23 are met by `exp` on `[0, 1]` with `M = e`. -/
example (N : ℕ) (hN : 0 < N) {u : ℝ} (hu : simps Real.exp 0 1 N = .ok u) :
    |u - ∫ x in (0 : ℝ)..1, Real.exp x| ≤ (1 - 0) ^ 5 * Real.exp 1 / (180 * (N : ℝ) ^ 4) :=
  C23_error_bound zero_le_one Real.continuous_exp.continuousOn
    (fun x _ => Real.hasDerivAt_exp x) (fun x _ => Real.hasDerivAt_exp x)
    (fun x _ => Real.hasDerivAt_exp x) (fun x _ => Real.hasDerivAt_exp x)
    (fun x hx => by rw [abs_of_pos (Real.exp_pos x)]; exact Real.exp_le_exp.mpr hx.2.le) N hN hu

/-- C23: hence the values converge to the integral as `N` grows. -/
theorem C23_converges (hab : a ≤ b) (hcont : ContinuousOn f (Set.Icc a b))
    (d0 : ∀ x ∈ Set.Ioo a b, HasDerivAt f (f1 x) x)
    (d1 : ∀ x ∈ Set.Ioo a b, HasDerivAt f1 (f2 x) x)
    (d2 : ∀ x ∈ Set.Ioo a b, HasDerivAt f2 (f3 x) x)
    (d3 : ∀ x ∈ Set.Ioo a b, HasDerivAt f3 (f4 x) x)
    (hM : ∀ x ∈ Set.Ioo a b, |f4 x| ≤ M) :
    Filter.Tendsto (fun n : ℕ => (simps f a b (2 * (n + 1))).toOption.getD 0) Filter.atTop
      (nhds (∫ x in a..b, f x)) := by
  have hval : ∀ n : ℕ, simps f a b (2 * (n + 1)) = .ok (simpsBody f a b (2 * (n + 1))) := by
    intro n; simp [simps]
  have hb : ∀ n : ℕ, |(simps f a b (2 * (n + 1))).toOption.getD 0 - ∫ x in a..b, f x|
      ≤ |(b - a) ^ 5 * M / 2880| * (1 / ((n : ℝ) + 1)) := by
    intro n
    have := C23_error_bound hab hcont d0 d1 d2 d3 hM (2 * (n + 1)) (by omega) (hval n)
    rw [hval n]
    simp only [Except.toOption, Option.getD_some]
    refine this.trans ?_
    have hn : (0 : ℝ) < (n : ℝ) + 1 := by positivity
    have e : (b - a) ^ 5 * M / (180 * ((2 * (n + 1) : ℕ) : ℝ) ^ 4)
        = (b - a) ^ 5 * M / 2880 * (1 / ((n : ℝ) + 1) ^ 4) := by
      push_cast; field_simp; ring
    rw [e]
    apply mul_le_mul (le_abs_self _) _ (by positivity) (abs_nonneg _)
    apply one_div_le_one_div_of_le hn
    have : (1 : ℝ) ≤ (n : ℝ) + 1 := by have : (0 : ℝ) ≤ n := by positivity
                                       linarith
    nlinarith [pow_le_pow_right₀ this (by norm_num : 1 ≤ 4)]
  rw [tendsto_iff_norm_sub_tendsto_zero]
  have hz : Filter.Tendsto (fun n : ℕ => |(b - a) ^ 5 * M / 2880| * (1 / ((n : ℝ) + 1)))
      Filter.atTop (nhds 0) := by
    have := (tendsto_one_div_add_atTop_nhds_zero_nat (𝕜 := ℝ)).const_mul
      |(b - a) ^ 5 * M / 2880|
    simpa using this
  exact squeeze_zero (fun n => norm_nonneg _) (fun n => by rw [Real.norm_eq_abs]; exact hb n) hz

end C23

end JaxCosmo
