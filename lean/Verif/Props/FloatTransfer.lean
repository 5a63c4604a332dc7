import Verif.Model.FloatTransfer
import Verif.Props.FloatRange
import Verif.Props.FloatLikelihood
import Mathlib.Analysis.Complex.ExponentialBounds

/-! # C175: transfer functions in floating point -/

namespace JaxCosmo

/-- C175: without rounding these are the functions of the exact model. -/
theorem C175_exact (p : Params) (k : ℝ) :
    gammaEffF exactArith p.Omega_m p.h (EH.alpha_gamma p) (EH.sh_d p) k = EH.gamma_eff p k ∧
    nowiggleF exactArith exactArith.elem (EH.gamma_eff p k) k = EH.nowiggle p k ∧
    (∀ alpha beta, tildeF exactArith exactArith.elem (fun x y => x ^ y) (EH.k_eq p) k alpha beta = EH.T_tilde p k alpha beta) ∧
    cdmF exactArith exactArith.elem (fun x y => x ^ y) (EH.k_eq p) (EH.sh_d p) (EH.alpha_c p) (EH.beta_c p) k = EH.Tc p k := by
  have e4 : ∀ x : ℝ, x * x * (x * x) = x ^ 4 := fun x => by ring
  have ht : ∀ alpha beta, tildeF exactArith exactArith.elem (fun x y => x ^ y) (EH.k_eq p) k alpha beta = EH.T_tilde p k alpha beta :=
    fun alpha beta => rfl
  refine ⟨?_, ?_, ht, ?_⟩
  · simp only [gammaEffF, EH.gamma_eff, pow4F, Rounding.mul, Rounding.div, Rounding.add, Rounding.sub, exactArith, id, e4]
  · simp only [nowiggleF, EH.nowiggle, Rounding.elem, Rounding.mul, Rounding.div, Rounding.add, exactArith, id, ← sq]
  · simp only [cdmF, ht, EH.Tc]
    simp only [pow4F, Rounding.mul, Rounding.div, Rounding.add, Rounding.sub, exactArith, id, e4]

/-! ### Range -/

/-- What the range needs of the library: logarithms are numbers of the format and positive from two on, `e` is at least two, and powers
of numbers that are not negative are not negative. -/
structure SaneLib (A : Rounding) (L : Elem) (powr : ℝ → ℝ → ℝ) : Prop where
  log_held : ∀ x, A.rd (L.log x) = L.log x
  log_pos : ∀ x, 2 ≤ x → 0 < L.log x
  exp_one : 2 ≤ L.exp 1
  pow_nonneg : ∀ x y, 0 ≤ x → 0 ≤ powr x y

section Range
variable {p : ℕ} {hp : 3 ≤ p} {L : Elem} {powr : ℝ → ℝ → ℝ}

local notation "B" => binary p hp

theorem quotient_range {l D : ℝ} (hl : (B).rd l = l) (l0 : 0 < l) (hD : 0 ≤ D) : 0 < (B).div l ((B).add l D) ∧ (B).div l ((B).add l D) ≤ 1 := by
  have h1 : l ≤ (B).add l D := by
    conv_lhs => rw [← hl]
    exact (B).mono (by linarith)
  have h0 : 0 < (B).add l D := l0.trans_le h1
  refine ⟨rd_pos (div_pos l0 h0), ?_⟩
  rw [← (B).one]
  exact (B).mono ((div_le_one h0).2 h1)

theorem quotient_one {l : ℝ} (hl : (B).rd l = l) (l0 : 0 < l) : (B).div l ((B).add l 0) = 1 := by
  rw [Rounding.add, add_zero, hl, Rounding.div, div_self l0.ne', (B).one]

theorem rd_two : (B).rd 2 = 2 := by
  have := rd_two_pow hp 1
  rwa [zpow_one] at this

/-- C175: the smooth transfer function lies between zero and one, and is one on the largest scales. -/
theorem C175_smooth (hL : SaneLib (B) L powr) {gamma k : ℝ} (hg : 0 < gamma) (hk : 0 ≤ k) :
    0 < nowiggleF (B) L gamma k ∧ nowiggleF (B) L gamma k ≤ 1 ∧ nowiggleF (B) L gamma 0 = 1 := by
  have arg : ∀ z, 0 ≤ z → 2 ≤ (B).add ((B).mul 2 (L.exp 1)) z := fun z hz => by
    have h1 : 2 ≤ (B).mul 2 (L.exp 1) := by
      conv_lhs => rw [← rd_two (hp := hp)]
      exact (B).mono (by linarith [hL.exp_one])
    conv_lhs => rw [← rd_two (hp := hp)]
    exact (B).mono (by linarith)
  have pos : ∀ {c : ℝ}, 0 ≤ c → 0 ≤ (B).rd c := fun h => (B).nonneg h
  have hq : ∀ {k}, 0 ≤ k → 0 ≤ (B).div ((B).mul k ((B).mul ((B).rd (const_tcmb / 2.7)) ((B).rd (const_tcmb / 2.7)))) gamma := fun hk =>
    pos (div_nonneg (pos (mul_nonneg hk (pos (mul_self_nonneg _)))) hg.le)
  have main := fun {k : ℝ} (hk : 0 ≤ k) => quotient_range (hp := hp) (hL.log_held _) (hL.log_pos _ (arg _ (pos (mul_nonneg (pos (by norm_num : (0 : ℝ) ≤ 1.8)) (hq hk)))))
    (pos (mul_nonneg (pos (mul_nonneg (pos (add_nonneg (pos (by norm_num : (0 : ℝ) ≤ 14.2)) (pos (div_nonneg (pos (by norm_num : (0 : ℝ) ≤ 731))
      (pos (add_nonneg zero_le_one (pos (mul_nonneg (pos (by norm_num : (0 : ℝ) ≤ 62.5)) (hq hk))))))))) (hq hk))) (hq hk)))
  refine ⟨(main hk).1, (main hk).2, ?_⟩
  have z : (B).mul 0 ((B).mul ((B).rd (const_tcmb / 2.7)) ((B).rd (const_tcmb / 2.7))) = 0 := by rw [Rounding.mul, zero_mul, (B).zero]
  have z' : (B).div 0 gamma = 0 := by rw [Rounding.div, zero_div, (B).zero]
  have z'' : ∀ x, (B).mul x 0 = 0 := fun x => by rw [Rounding.mul, mul_zero, (B).zero]
  simp only [nowiggleF, z, z', z'']
  exact quotient_one (hL.log_held _) (hL.log_pos _ (arg 0 le_rfl))

/-- C175: so does each transfer function of cold dark matter. -/
theorem C175_tilde (hL : SaneLib (B) L powr) {keq k alpha beta : ℝ} (hq : 0 < keq) (hk : 0 ≤ k) (ha : 0 < alpha) (hb : 0 ≤ beta) :
    0 < tildeF (B) L powr keq k alpha beta ∧ tildeF (B) L powr keq k alpha beta ≤ 1 ∧ tildeF (B) L powr keq 0 alpha beta = 1 := by
  have arg : ∀ z, 0 ≤ z → 2 ≤ (B).add (L.exp 1) z := fun z hz => by
    conv_lhs => rw [← rd_two (hp := hp)]
    exact (B).mono (by linarith [hL.exp_one])
  have pos : ∀ {c : ℝ}, 0 ≤ c → 0 ≤ (B).rd c := fun h => (B).nonneg h
  have hq : ∀ {k}, 0 ≤ k → 0 ≤ (B).div k ((B).mul ((B).rd 13.41) keq) := fun hk =>
    pos (div_nonneg hk (pos (mul_nonneg (pos (by norm_num)) hq.le)))
  have main := fun {k : ℝ} (hk : 0 ≤ k) => quotient_range (hp := hp) (hL.log_held _)
    (hL.log_pos _ (arg _ (pos (mul_nonneg (pos (mul_nonneg (pos (by norm_num : (0 : ℝ) ≤ 1.8)) hb)) (hq hk)))))
    (pos (mul_nonneg (pos (mul_nonneg (pos (add_nonneg (pos (div_nonneg (pos (by norm_num : (0 : ℝ) ≤ 14.2)) ha.le))
      (pos (div_nonneg (pos (by norm_num : (0 : ℝ) ≤ 386)) (pos (add_nonneg zero_le_one (pos (mul_nonneg (pos (by norm_num : (0 : ℝ) ≤ 69.9))
      (hL.pow_nonneg _ ((B).rd 1.08) (hq hk)))))))))) (hq hk))) (hq hk)))
  refine ⟨(main hk).1, (main hk).2, ?_⟩
  have z' : ∀ x, (B).div 0 x = 0 := fun x => by rw [Rounding.div, zero_div, (B).zero]
  have z'' : ∀ x, (B).mul x 0 = 0 := fun x => by rw [Rounding.mul, mul_zero, (B).zero]
  simp only [tildeF, z', z'']
  exact quotient_one (hL.log_held _) (hL.log_pos _ (arg 0 le_rfl))

/-- A number and its complement do not add up to more than one. -/
theorem complement_le {f a b : ℝ} (f0 : 0 ≤ f) (f1 : f ≤ 1) (ha : a ≤ f) (hb : b ≤ (B).sub 1 f) : (B).add a b ≤ 1 := by
  have h : |(B).rd (1 - f) - (1 - f)| ≤ 2 ^ (-1 - p : ℤ) := by
    rcases eq_or_lt_of_le f0 with h0 | h0
    · rw [← h0, sub_zero, (B).one, sub_self, abs_zero]; positivity
    · exact half_ulp (e := -1) (by rw [abs_of_nonneg (by linarith)]; norm_num; exact h0)
  have h2 : (2 : ℝ) ^ (-1 - p : ℤ) ≤ 1 / 2 ^ p := by
    rw [one_div, ← zpow_natCast, ← zpow_neg]
    exact zpow_le_zpow_right₀ (by norm_num) (by omega)
  have h3 := (abs_le.1 h).2
  have h4 : a + b ≤ 1 + 1 / 2 ^ p := by
    rw [Rounding.sub] at hb
    linarith
  refine ((B).mono h4).trans (le_of_eq ?_)
  exact roundBinary_above_one (by omega) (le_add_of_nonneg_right (by positivity)) le_rfl

/-- A number and its complement add up to one. -/
theorem complement_one {f : ℝ} (f0 : 0 ≤ f) (f1 : f ≤ 1) : (B).add f ((B).sub 1 f) = 1 := by
  have h : |(B).rd (1 - f) - (1 - f)| ≤ 2 ^ (-1 - p : ℤ) := by
    rcases eq_or_lt_of_le f0 with h0 | h0
    · rw [← h0, sub_zero, (B).one, sub_self, abs_zero]; positivity
    · exact half_ulp (e := -1) (by rw [abs_of_nonneg (by linarith)]; norm_num; exact h0)
  refine le_antisymm (complement_le f0 f1 le_rfl le_rfl) ?_
  have h3 := (abs_le.1 h).1
  rcases le_or_gt 1 (f + (B).sub 1 f) with h1 | h1
  · conv_lhs => rw [← (B).one]
    exact (B).mono h1
  · have e1 : (2 : ℝ) ^ (-1 - p : ℤ) * 2 ^ (p : ℤ) = 1 / 2 := by rw [← zpow_add₀ (by norm_num)]; norm_num
    have h4 : (2 : ℝ) ^ (-1 - p : ℤ) ≤ 1 / 2 := by
      calc (2 : ℝ) ^ (-1 - p : ℤ) ≤ 2 ^ (-1 : ℤ) := zpow_le_zpow_right₀ (by norm_num) (by omega)
        _ = 1 / 2 := by norm_num
    have hs : (1 : ℝ) - 2 ^ (-1 - p : ℤ) ≤ f + (B).sub 1 f := by rw [Rounding.sub]; linarith
    have e0 : ((p : ℤ) - 1 - -1) = (p : ℤ) := by ring
    have pw : (0 : ℝ) < 2 ^ (p : ℤ) := by positivity
    have := roundBinary_to (p := p) (y := f + (B).sub 1 f) (N := 2 ^ p) (-1) (by norm_num; linarith) (by norm_num; exact h1) (.inr ⟨by
      rw [e0, abs_le]
      push_cast
      rw [← zpow_natCast (2 : ℝ) p]
      have a := mul_le_mul_of_nonneg_right hs pw.le
      have b := mul_le_mul_of_nonneg_right h1.le pw.le
      rw [sub_mul, e1, one_mul] at a
      constructor <;> linarith, ⟨2 ^ (p - 1), by rw [← two_mul, ← pow_succ']; congr 1; omega⟩⟩)
    rw [e0] at this
    refine le_of_eq (Eq.symm (this.trans ?_))
    push_cast
    rw [zpow_natCast, div_self (by positivity)]

/-- C175: their weighted mean, the transfer function of cold dark matter, is not negative nor above one, whatever the rounding of the weights. -/
theorem C175_cdm (hL : SaneLib (B) L powr) {keq sh alpha beta k : ℝ} (hq : 0 < keq) (hk : 0 ≤ k) (ha : 0 < alpha) (hb : 0 ≤ beta) :
    0 ≤ cdmF (B) L powr keq sh alpha beta k ∧ cdmF (B) L powr keq sh alpha beta k ≤ 1 ∧ cdmF (B) L powr keq sh alpha beta 0 = 1 := by
  have h1 := C175_tilde hL hq hk one_pos hb
  have h2 := C175_tilde hL hq hk ha hb
  have p0 : ∀ x, 0 ≤ pow4F (B) x := fun x => (B).nonneg (mul_self_nonneg _)
  have key : ∀ x, 1 ≤ (B).add 1 (pow4F (B) x) := fun x => by
    conv_lhs => rw [← (B).one]
    exact (B).mono (by linarith [p0 x])
  have f0 : ∀ x, 0 ≤ (B).div 1 ((B).add 1 (pow4F (B) x)) := fun x => (B).nonneg (div_nonneg zero_le_one (by linarith [key x]))
  have f1 : ∀ x, (B).div 1 ((B).add 1 (pow4F (B) x)) ≤ 1 := fun x => by
    conv_rhs => rw [← (B).one]
    exact (B).mono ((div_le_one (by linarith [key x])).2 (key x))
  have fix : ∀ x, (B).rd ((B).rd x) = (B).rd x := fun x => roundBinary_fixed (by omega) x
  refine ⟨?_, ?_, ?_⟩
  · exact (B).nonneg (add_nonneg ((B).nonneg (mul_nonneg (f0 _) h1.1.le))
      ((B).nonneg (mul_nonneg ((B).nonneg (by linarith [f1 ((B).div ((B).mul k sh) ((B).rd 5.4))])) h2.1.le)))
  · refine complement_le (f0 ((B).div ((B).mul k sh) ((B).rd 5.4))) (f1 _) ?_ ?_
    · refine ((B).mono (mul_le_of_le_one_right (f0 _) h1.2.1)).trans (le_of_eq (fix _))
    · exact ((B).mono (mul_le_of_le_one_right ((B).nonneg (by linarith [f1 ((B).div ((B).mul k sh) ((B).rd 5.4))])) h2.2.1)).trans (le_of_eq (fix _))
  · have z0 : (B).mul 0 sh = 0 := by rw [Rounding.mul, zero_mul, (B).zero]
    have z1 : ∀ x, (B).div 0 x = 0 := fun x => by rw [Rounding.div, zero_div, (B).zero]
    have z2 : pow4F (B) 0 = 0 := by simp only [pow4F, Rounding.mul, mul_zero, (B).zero]
    have z3 : (B).add 1 0 = 1 := by rw [Rounding.add, add_zero, (B).one]
    have z4 : (B).div 1 1 = 1 := by rw [Rounding.div, div_one, (B).one]
    have z5 : (B).sub 1 1 = 0 := by rw [Rounding.sub, sub_self, (B).zero]
    have z6 : (B).mul 1 1 = 1 := by rw [Rounding.mul, mul_one, (B).one]
    have z7 : (B).mul 0 1 = 0 := by rw [Rounding.mul, zero_mul, (B).zero]
    simp only [cdmF, z0, z1, z2, z3, z4, z5, (C175_tilde hL hq hk one_pos hb).2.2, (C175_tilde hL hq hk ha hb).2.2, z6, z7]

/-- C175: the effective shape lies between its limits on small and on large scales. -/
theorem C175_shape {Om h ag sh k : ℝ} (hO : 0 ≤ Om) (hh : 0 ≤ h) (a0 : 0 ≤ ag) (a1 : ag ≤ 1) (ha : (B).rd ag = ag) :
    (B).mul ((B).mul Om h) ag ≤ gammaEffF (B) Om h ag sh k ∧ gammaEffF (B) Om h ag sh k ≤ (B).mul Om h ∧
    gammaEffF (B) Om h ag sh 0 = (B).mul Om h := by
  have fix : ∀ x, (B).rd ((B).rd x) = (B).rd x := fun x => roundBinary_fixed (by omega) x
  have g0 : 0 ≤ (B).mul Om h := (B).nonneg (mul_nonneg hO hh)
  have c0 : 0 ≤ (B).sub 1 ag := (B).nonneg (by linarith)
  have p0 : ∀ x, 0 ≤ pow4F (B) x := fun x => (B).nonneg (mul_self_nonneg _)
  have key : ∀ x, 1 ≤ (B).add 1 (pow4F (B) x) := fun x => by
    conv_lhs => rw [← (B).one]
    exact (B).mono (by linarith [p0 x])
  have le : ∀ x, (B).add ag ((B).div ((B).sub 1 ag) ((B).add 1 (pow4F (B) x))) ≤ 1 := fun x => by
    refine complement_le a0 a1 le_rfl ?_
    conv_rhs => rw [Rounding.sub, ← fix]
    exact (B).mono (div_le_self c0 (key x))
  have ge : ∀ x, ag ≤ (B).add ag ((B).div ((B).sub 1 ag) ((B).add 1 (pow4F (B) x))) := fun x => by
    conv_lhs => rw [← ha]
    exact (B).mono (le_add_of_nonneg_right ((B).nonneg (div_nonneg c0 (by linarith [key x]))))
  refine ⟨(B).mono (mul_le_mul_of_nonneg_left (ge _) g0), ((B).mono (mul_le_of_le_one_right g0 (le _))).trans (le_of_eq (fix _)), ?_⟩
  have z0 : (B).mul ((B).mul ((B).rd 0.43) 0) sh = 0 := by simp only [Rounding.mul, mul_zero, (B).zero, zero_mul]
  have z2 : pow4F (B) 0 = 0 := by simp only [pow4F, Rounding.mul, mul_zero, (B).zero]
  have z3 : (B).add 1 0 = 1 := by rw [Rounding.add, add_zero, (B).one]
  have z4 : (B).div ((B).sub 1 ag) 1 = (B).sub 1 ag := by rw [Rounding.div, div_one, Rounding.sub, fix]
  have z5 : (B).mul ((B).mul Om h) 1 = (B).mul Om h := by rw [Rounding.mul, mul_one, Rounding.mul, fix]
  rw [gammaEffF, z0, z2, z3, z4, complement_one a0 a1, z5]

end Range

/-! ### Accuracy -/

section Accuracy
variable {A : Rounding} {L : Elem}

/-- `y` has the relative error of `k` roundings. -/
abbrev Rel (A : Rounding) (k : ℕ) (y x : ℝ) : Prop := Near A.u k x y x

theorem Rel.const {c : ℝ} (hc : 0 ≤ c) : Rel A 1 (A.rd c) c := by
  have := (Near.self (A := A) c).rd
  rwa [abs_of_nonneg hc] at this

theorem Rel.refl {c : ℝ} (hc : 0 ≤ c) : Rel A 0 c c := by
  have := Near.self (A := A) c
  rwa [abs_of_nonneg hc] at this

theorem Rel.div {k j n : ℕ} {y x c' c : ℝ} (h : Rel A k y x) (hc : 0 < c) (h' : Rel A j c' c) (hg : (1 + A.u) ^ j ≤ 3 / 2)
    (hn : k + 2 * j + 1 ≤ n) : Rel A n (A.div y c') (x / c) := (h.div_near hc h' hg).rd.mono hn

theorem Rel.mul {k j n : ℕ} {y x y' x' : ℝ} (h : Rel A k y x) (h' : Rel A j y' x') (hn : k + j + 1 ≤ n) : Rel A n (A.mul y y') (x * x') :=
  (Near.mul h h').mono hn

theorem Rel.add {k j n : ℕ} {y x y' x' : ℝ} (h : Rel A k y x) (h' : Rel A j y' x') (hn : max k j + 1 ≤ n) : Rel A n (A.add y y') (x + x') :=
  (Near.add (h.mono (le_max_left k j)) (h'.mono (le_max_right k j))).mono hn

/-- The logarithm of numbers from `e` on does not amplify relative errors. -/
theorem Rel.log {k : ℕ} {y x : ℝ} (h : Rel A k y x) (hx : Real.exp 1 ≤ x) (hg : (1 + A.u) ^ k ≤ 3 / 2) :
    Rel A (2 * k) (Real.log y) (Real.log x) := by
  have x0 : 0 < x := (Real.exp_pos 1).trans_le hx
  have l1 : 1 ≤ Real.log x := by rw [Real.le_log_iff_exp_le x0]; exact hx
  refine ⟨?_, by rw [abs_of_nonneg (by linarith)]⟩
  rw [pow_mul', sq]
  have g1 := one_le_growth (A := A) k
  set g := (1 + A.u) ^ k with hgd
  have hb := abs_le.1 h.1
  have y1 : (2 - g) * x ≤ y := by linarith
  have y2 : y ≤ g * x := by linarith
  have y0 : 0 < y := lt_of_lt_of_le (mul_pos (by linarith) x0) y1
  have up : Real.log y - Real.log x ≤ g - 1 := by
    rw [← Real.log_div y0.ne' x0.ne']
    exact (Real.log_le_sub_one_of_pos (div_pos y0 x0)).trans (by linarith [(div_le_iff₀ x0).2 y2])
  have lo : Real.log x - Real.log y ≤ g * g - 1 := by
    rw [← Real.log_div x0.ne' y0.ne']
    refine (Real.log_le_sub_one_of_pos (div_pos x0 y0)).trans ?_
    have : x / y ≤ g * g := by
      rw [div_le_iff₀ y0]
      have := mul_le_mul_of_nonneg_left y1 (by positivity : 0 ≤ g * g)
      nlinarith [mul_nonneg (mul_nonneg (sub_nonneg.2 g1) (sub_nonneg.2 hg)) x0.le, mul_nonneg (sub_nonneg.2 g1) x0.le]
    linarith
  have gg : g ≤ g * g := by nlinarith
  rw [abs_le]
  have m : g * g - 1 ≤ (g * g - 1) * Real.log x := le_mul_of_one_le_right (by nlinarith) l1
  constructor <;> linarith

/-- The fit of Eisenstein & Hu for the smooth transfer function, as a function of the scaled wavenumber. -/
noncomputable def smoothT (q : ℝ) : ℝ :=
  Real.log (2 * Real.exp 1 + 1.8 * q) / (Real.log (2 * Real.exp 1 + 1.8 * q) + (14.2 + 731 / (1 + 62.5 * q)) * q ^ 2)

/-- C175: accuracy of the smooth transfer function, with `s` the error of the library's functions in roundings. -/
theorem C175_accuracy {s : ℕ} (hs : 1 ≤ s) (hlog : ∀ x, 0 < x → Near A.u s |Real.log x| (L.log x) (Real.log x))
    (hexp : Near A.u s (Real.exp 1) (L.exp 1) (Real.exp 1)) (hg : (1 + A.u) ^ (3 * s + 34) ≤ 3 / 2) {gamma k : ℝ} (h0 : 0 < gamma) (hk : 0 ≤ k) :
    Rel A (9 * s + 150) (nowiggleF A L gamma k) (smoothT (k * (const_tcmb / 2.7) ^ 2 / gamma)) := by
  have small : ∀ {n : ℕ}, n ≤ 3 * s + 34 → (1 + A.u) ^ n ≤ 3 / 2 := fun hn =>
    (pow_le_pow_right₀ (by linarith [A.u_nonneg]) hn).trans hg
  have t0 : 0 ≤ const_tcmb / 2.7 := by norm_num [const_tcmb]
  have ht := Rel.const (A := A) t0
  have hq0 := ((Rel.refl (A := A) hk).mul (ht.mul ht le_rfl) le_rfl).div h0 (Rel.refl h0.le) (small (by omega)) (n := 5) (by norm_num)
  have e : k * (const_tcmb / 2.7 * (const_tcmb / 2.7)) / gamma = k * (const_tcmb / 2.7) ^ 2 / gamma := by rw [sq]
  rw [e] at hq0
  simp only [nowiggleF]
  set q' := A.div (A.mul k (A.mul (A.rd (const_tcmb / 2.7)) (A.rd (const_tcmb / 2.7)))) gamma
  set q := k * (const_tcmb / 2.7) ^ 2 / gamma with hq
  have q0 : 0 ≤ q := by positivity
  have hx := ((Rel.refl (A := A) (by norm_num : (0 : ℝ) ≤ 2)).mul hexp le_rfl).add ((Rel.const (A := A) (by norm_num : (0 : ℝ) ≤ 1.8)).mul hq0 le_rfl)
    (n := s + 8) (by omega)
  have xe : Real.exp 1 ≤ 2 * Real.exp 1 + 1.8 * q := by linarith [Real.exp_pos 1, (by positivity : 0 ≤ 1.8 * q)]
  have hl := hx.log xe (small (by omega))
  set x' := A.add (A.mul 2 (L.exp 1)) (A.mul (A.rd 1.8) q')
  set x := 2 * Real.exp 1 + 1.8 * q
  have x0 : 0 < x := (Real.exp_pos 1).trans_le xe
  have l1 : 1 ≤ Real.log x := by rw [Real.le_log_iff_exp_le x0]; exact xe
  have x'0 : 0 < x' := by
    have := (abs_le.1 hx.1).1
    have := mul_le_mul_of_nonneg_right (small (n := s + 8) (by omega)) x0.le
    linarith
  have lx' : 0 ≤ Real.log x' := by
    have h1 := (abs_le.1 hl.1).1
    have h2 := mul_le_mul_of_nonneg_right (small (n := 2 * (s + 8)) (by omega)) (by linarith : 0 ≤ Real.log x)
    linarith
  have hll : Rel A (s + 2 * (s + 8)) (L.log x') (Real.log x) := by
    have := hlog x' x'0
    rw [abs_of_nonneg lx'] at this
    exact this.trans_rel hl
  have hD := (((Rel.const (A := A) (by norm_num : (0 : ℝ) ≤ 14.2)).add ((Rel.const (A := A) (by norm_num : (0 : ℝ) ≤ 731)).div
    (by positivity : (0 : ℝ) < 1 + 62.5 * q) ((Rel.refl (A := A) zero_le_one).add ((Rel.const (A := A) (by norm_num : (0 : ℝ) ≤ 62.5)).mul hq0
      le_rfl) (n := 8) (by norm_num)) (small (by omega)) (n := 18) (by norm_num)) (n := 19) (by norm_num)).mul hq0 (n := 25) (by norm_num)).mul hq0 (n := 31) (by norm_num)
  have hden := hll.add hD (n := 3 * s + 33) (by omega)
  have hpos : 0 < Real.log x + (14.2 + 731 / (1 + 62.5 * q)) * q * q := by positivity
  have := hll.div hpos hden (small (by omega)) (n := 9 * s + 150) (by omega)
  have e2 : (14.2 + 731 / (1 + 62.5 * q)) * q * q = (14.2 + 731 / (1 + 62.5 * q)) * q ^ 2 := by ring
  rw [e2] at this
  exact this

/-- The exact model is this fit. -/
theorem C175_fit (p : Params) (k : ℝ) : EH.nowiggle p k = smoothT (k * (const_tcmb / 2.7) ^ 2 / EH.gamma_eff p k) := by
  simp only [EH.nowiggle, smoothT, sq, mul_assoc]

end Accuracy

/-! ### Where the transfer function is lost -/

section Unity
variable {p : ℕ} {hp : 3 ≤ p} {L : Elem} {powr : ℝ → ℝ → ℝ}

local notation "B" => binary p hp

theorem rd_le_pow {x : ℝ} {k : ℤ} (h : x ≤ 2 ^ k) : (B).rd x ≤ 2 ^ k := by
  rw [← rd_two_pow hp k]; exact (B).mono h

/-- C175: on scales beyond about the square root of the precision the transfer function is exactly one. -/
theorem C175_unity (hL : SaneLib (B) L powr) (hlog : ∀ x, 2 ≤ x → 1 / 2 ≤ L.log x) {gamma k : ℝ} {j : ℕ} (hg : 0 < gamma) (hr : (B).rd gamma = gamma)
    (hj : p + 16 < 2 * j) (hk : 0 ≤ k) (hs : k ≤ 2 ^ (-j : ℤ) * gamma) : nowiggleF (B) L gamma k = 1 := by
  have pos : ∀ {c : ℝ}, 0 ≤ c → 0 ≤ (B).rd c := fun h => (B).nonneg h
  have t0 : 0 ≤ (B).rd (const_tcmb / 2.7) := pos (by norm_num [const_tcmb])
  have t1 : (B).rd (const_tcmb / 2.7) ≤ 2 := by
    have := rd_le_pow (hp := hp) (x := const_tcmb / 2.7) (k := 1) (by norm_num [const_tcmb])
    rwa [zpow_one] at this
  simp only [nowiggleF]
  generalize (B).rd (const_tcmb / 2.7) = t at t0 t1 ⊢
  have tt : (B).mul t t ≤ 2 ^ (2 : ℤ) := rd_le_pow (by norm_num; nlinarith)
  have tt0 : 0 ≤ (B).mul t t := pos (mul_self_nonneg t)
  generalize (B).mul t t = w at tt tt0 ⊢
  have e1 : (2 : ℝ) ^ (2 - j : ℤ) = 2 ^ (-j : ℤ) * 2 ^ (2 : ℤ) := by rw [← zpow_add₀ (by norm_num)]; congr 1; ring
  have num : (B).mul k w ≤ 2 ^ (2 - j : ℤ) * gamma := by
    conv_rhs => rw [← hr, ← (C172_binary p hp (2 - j)).1 gamma]
    refine (B).mono ?_
    rw [e1]
    calc k * w ≤ (2 ^ (-j : ℤ) * gamma) * 2 ^ (2 : ℤ) := mul_le_mul hs tt tt0 (by positivity)
      _ = _ := by ring
  have q1 : (B).div ((B).mul k w) gamma ≤ 2 ^ (2 - j : ℤ) := rd_le_pow ((div_le_iff₀ hg).2 num)
  have q0 : 0 ≤ (B).div ((B).mul k w) gamma := pos (div_nonneg (pos (mul_nonneg hk tt0)) hg.le)
  generalize (B).div ((B).mul k w) gamma = q at q0 q1 ⊢
  have x2 : 2 ≤ (B).add ((B).mul 2 (L.exp 1)) ((B).mul ((B).rd 1.8) q) := by
    have h1 : 2 ≤ (B).mul 2 (L.exp 1) := by
      conv_lhs => rw [← rd_two (hp := hp)]
      exact (B).mono (by linarith [hL.exp_one])
    conv_lhs => rw [← rd_two (hp := hp)]
    exact (B).mono (h1.trans (le_add_of_nonneg_right (pos (mul_nonneg (pos (by norm_num : (0 : ℝ) ≤ 1.8)) q0))))
  have l2 := hlog _ x2
  have lh := hL.log_held ((B).add ((B).mul 2 (L.exp 1)) ((B).mul ((B).rd 1.8) q))
  generalize L.log _ = l at l2 lh ⊢
  have d1 : 1 ≤ (B).add 1 ((B).mul ((B).rd 62.5) q) := by
    conv_lhs => rw [← (B).one]
    exact (B).mono (le_add_of_nonneg_right (pos (mul_nonneg (pos (by norm_num : (0 : ℝ) ≤ 62.5)) q0)))
  generalize (B).add 1 ((B).mul ((B).rd 62.5) q) = d at d1 ⊢
  have r1 : (B).rd 731 ≤ 2 ^ (10 : ℤ) := rd_le_pow (by norm_num)
  have r0 : 0 ≤ (B).rd 731 := pos (by norm_num)
  have r2 : (B).rd 14.2 ≤ 2 ^ (10 : ℤ) := rd_le_pow (by norm_num)
  have r3 : 0 ≤ (B).rd 14.2 := pos (by norm_num)
  have dv : (B).div ((B).rd 731) d ≤ 2 ^ (10 : ℤ) := rd_le_pow ((div_le_self r0 d1).trans r1)
  have dv0 : 0 ≤ (B).div ((B).rd 731) d := pos (div_nonneg r0 (by linarith))
  have C1 : (B).add ((B).rd 14.2) ((B).div ((B).rd 731) d) ≤ 2 ^ (11 : ℤ) := rd_le_pow (by norm_num at r2 dv ⊢; linarith)
  have C0 : 0 ≤ (B).add ((B).rd 14.2) ((B).div ((B).rd 731) d) := pos (by linarith)
  generalize (B).add ((B).rd 14.2) ((B).div ((B).rd 731) d) = C at C0 C1 ⊢
  have Cq : (B).mul C q ≤ 2 ^ (13 - j : ℤ) := rd_le_pow (by
    have := mul_le_mul C1 q1 q0 (by positivity)
    rw [← zpow_add₀ (by norm_num)] at this
    rwa [show (13 - j : ℤ) = 11 + (2 - j) by ring])
  have Cq0 : 0 ≤ (B).mul C q := pos (mul_nonneg C0 q0)
  have D1 : (B).mul ((B).mul C q) q ≤ 2 ^ (15 - 2 * j : ℤ) := rd_le_pow (by
    have := mul_le_mul Cq q1 q0 (by positivity)
    rw [← zpow_add₀ (by norm_num)] at this
    rwa [show (15 - 2 * j : ℤ) = 13 - j + (2 - j) by ring])
  have D0 : 0 ≤ (B).mul ((B).mul C q) q := pos (mul_nonneg Cq0 q0)
  generalize (B).mul ((B).mul C q) q = D at D0 D1 ⊢
  have ln : (B).rd (-l) = -l := (roundBinary_neg p l).trans (congrArg Neg.neg lh)
  have := C167_absorbed hp (k := -1) ln (by norm_num; linarith) D0
    (D1.trans_lt (zpow_lt_zpow_right₀ (by norm_num) (by omega)))
  rw [Rounding.sub, sub_neg_eq_add, neg_neg, add_comm] at this
  rw [Rounding.add, this, Rounding.div, div_self (by linarith), (B).one]

end Unity

/-- C175: below one by more than the accuracy, the smooth transfer function is computed below one. -/
theorem C175_below_partial {A : Rounding} {L : Elem} {s : ℕ} (hs : 1 ≤ s) (hlog : ∀ x, 0 < x → Near A.u s |Real.log x| (L.log x) (Real.log x))
    (hexp : Near A.u s (Real.exp 1) (L.exp 1) (Real.exp 1)) (hg : (1 + A.u) ^ (3 * s + 34) ≤ 3 / 2) {gamma k : ℝ} (h0 : 0 < gamma) (hk : 0 ≤ k)
    (h : (1 + A.u) ^ (9 * s + 150) * smoothT (k * (const_tcmb / 2.7) ^ 2 / gamma) < 1) : nowiggleF A L gamma k < 1 := by
  have := (abs_le.1 (C175_accuracy hs hlog hexp hg h0 hk).1).2
  linarith

/-- The fit itself is below one on every scale. -/
theorem smoothT_lt {q : ℝ} (hq : 0 < q) : 0 < smoothT q ∧ smoothT q < 1 := by
  have h : 0 < Real.log (2 * Real.exp 1 + 1.8 * q) := Real.log_pos (by
    have := Real.add_one_lt_exp (one_ne_zero)
    linarith [(by positivity : 0 < 1.8 * q)])
  have hd : 0 < (14.2 + 731 / (1 + 62.5 * q)) * q ^ 2 := by positivity
  rw [smoothT]
  exact ⟨by positivity, (div_lt_one (by positivity)).2 (by linarith)⟩

/-- Every mode is suppressed. -/
def Suppresses (A : Rounding) (L : Elem) : Prop := ∀ gamma k, 0 < gamma → 0 < k → nowiggleF A L gamma k < 1

/-- Smaller scales are suppressed more. -/
def Falls (A : Rounding) (L : Elem) : Prop := ∀ gamma k l, 0 < gamma → 0 < k → k < l → nowiggleF A L gamma l < nowiggleF A L gamma k

theorem float32_sane : SaneLib float32 float32.elem (fun x y => float32.rd (x ^ y)) where
  log_held x := roundBinary_fixed (by omega) _
  log_pos x hx := by
    have h : 0 < Real.log x := Real.log_pos (by linarith)
    exact rd_pos (A := float32) h
  exp_one := by
    have : float32.rd 2 = 2 := rd_two
    change 2 ≤ float32.rd (Real.exp 1)
    conv_lhs => rw [← this]
    exact float32.mono (by linarith [Real.add_one_lt_exp (one_ne_zero (α := ℝ))])
  pow_nonneg x y hx := float32.nonneg (Real.rpow_nonneg hx y)

theorem float32_log_half (x : ℝ) (hx : 2 ≤ x) : 1 / 2 ≤ float32.elem.log x := by
  have h : float32.rd (1 / 2) = 1 / 2 := by
    have := rd_two_pow (p := 24) (by omega) (-1)
    norm_num at this ⊢
    exact this
  change 1 / 2 ≤ float32.rd (Real.log x)
  conv_lhs => rw [← h]
  exact float32.mono (by linarith [Real.log_two_gt_d9, Real.log_le_log (by norm_num) hx])

/-- C175: in exact arithmetic every mode is suppressed; in single precision those beyond a scale are not, and are not ordered. -/
theorem C175_refuted : Suppresses exactArith exactArith.elem ∧ ¬ Suppresses float32 float32.elem ∧ ¬ Falls float32 float32.elem := by
  have one : ∀ k : ℝ, 0 ≤ k → k ≤ 2 ^ (-21 : ℤ) → nowiggleF float32 float32.elem 1 k = 1 := fun k k0 hk =>
    C175_unity (p := 24) (hp := by omega) (j := 21) float32_sane float32_log_half one_pos float32.one (by norm_num) k0 (by norm_num at hk ⊢; exact hk)
  refine ⟨fun gamma k hg hk => ?_, fun h => ?_, fun h => ?_⟩
  · have e : nowiggleF exactArith exactArith.elem gamma k = smoothT (k * (const_tcmb / 2.7) ^ 2 / gamma) := by
      simp only [nowiggleF, smoothT, Rounding.elem, Rounding.mul, Rounding.div, Rounding.add, exactArith, id, sq, mul_assoc]
    rw [e]
    have : 0 < const_tcmb := by norm_num [const_tcmb]
    exact (smoothT_lt (by positivity)).2
  · exact absurd (h 1 (2 ^ (-21 : ℤ)) one_pos (by positivity)) (by rw [one _ (by positivity) le_rfl]; exact lt_irrefl _)
  · have := h 1 (2 ^ (-22 : ℤ)) (2 ^ (-21 : ℤ)) one_pos (by positivity) (by norm_num)
    rw [one _ (by positivity) le_rfl, one _ (by positivity) (by norm_num)] at this
    exact lt_irrefl _ this

/-- A library as in `C175_smooth` and `C175_cdm`. -/
example : 0 < nowiggleF float32 float32.elem 0.2 0.1 ∧ nowiggleF float32 float32.elem 0.2 0.1 ≤ 1 ∧
    cdmF float32 float32.elem (fun x y => float32.rd (x ^ y)) 0.015 100 0.9 1.1 0.1 ≤ 1 :=
  have h := C175_smooth float32_sane (gamma := 0.2) (k := 0.1) (by norm_num) (by norm_num)
  ⟨h.1, h.2.1, (C175_cdm float32_sane (by norm_num) (by norm_num) (by norm_num) (by norm_num)).2.1⟩

/-- Numbers as in `C175_shape`. -/
example : gammaEffF float32 0.3 0.7 1 100 0.1 ≤ float32.mul 0.3 0.7 :=
  (C175_shape (p := 24) (hp := by omega) (by norm_num) (by norm_num) zero_le_one le_rfl float32.one).2.1

/-- Numbers as in `C175_accuracy`: in single precision the smooth transfer function is good to a part in a hundred thousand. -/
example {gamma k : ℝ} (hg : 0 < gamma) (hk : 0 ≤ k) :
    |nowiggleF float32 float32.elem gamma k - smoothT (k * (const_tcmb / 2.7) ^ 2 / gamma)| ≤ 1e-5 * smoothT (k * (const_tcmb / 2.7) ^ 2 / gamma) := by
  have hu : ∀ n : ℕ, n ≤ 159 → (1 + float32.u) ^ n ≤ 1 + 1e-5 := fun n hn =>
    (pow_le_pow_right₀ (by linarith [float32.u_nonneg]) hn).trans ((growth_le float32.u_nonneg (by rw [float32_u]; norm_num)).trans (by rw [float32_u]; norm_num))
  have h := C175_accuracy (A := float32) (L := float32.elem) (s := 1) le_rfl rounded_log (by
    have := (Near.self (A := float32) (Real.exp 1)).rd
    rwa [abs_of_pos (Real.exp_pos 1)] at this) ((hu _ (by norm_num)).trans (by norm_num)) hg hk
  have h0 : 0 ≤ smoothT (k * (const_tcmb / 2.7) ^ 2 / gamma) := (abs_nonneg _).trans h.2
  exact h.1.trans (mul_le_mul_of_nonneg_right (by linarith [hu (9 * 1 + 150) (by norm_num)]) h0)

end JaxCosmo
