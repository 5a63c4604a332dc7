import Verif.Props.FloatEsqr
import Verif.Props.FloatDistance

/-!
# C165: the distance table in single precision, from the library functions to the line-of-sight integral

`C163` bounds the rounding of the table given the accuracy of the rates.  Here the rates are those that `dchioverda`
computes, the library being accurate to a few roundings.
-/

namespace JaxCosmo
open Spec

/-! ### Ratios -/

/-- `y` stands for `x > 0`, their ratio being between `exp (-c)` and `exp c`. -/
structure Ratio (c y x : ℝ) : Prop where
  pos : 0 < x
  pos' : 0 < y
  log : |Real.log y - Real.log x| ≤ c

namespace Ratio
variable {c c' x y z x' y' ε : ℝ} {A : Rounding}

theorem self (hx : 0 < x) : Ratio 0 x x := ⟨hx, hx, by simp⟩

theorem mono (h : Ratio c y x) (hc : c ≤ c') : Ratio c' y x := ⟨h.pos, h.pos', h.log.trans hc⟩

theorem trans (h : Ratio c z y) (h' : Ratio c' y x) : Ratio (c + c') z x :=
  ⟨h'.pos, h.pos', (abs_sub_le _ _ _).trans (add_le_add h.log h'.log)⟩

theorem of_abs (hx : 0 < x) (hε : ε ≤ 1 / 2) (h : |y - x| ≤ ε * x) : Ratio (2 * ε) y x := by
  obtain ⟨h1, h2⟩ := abs_le.1 h
  have hε0 : 0 ≤ ε := by
    by_contra hn
    have := (abs_nonneg _).trans h
    nlinarith
  have hy : 0 < y := by nlinarith
  refine ⟨hx, hy, ?_⟩
  have hr : 0 < y / x := div_pos hy hx
  rw [← Real.log_div hy.ne' hx.ne', abs_le]
  have e1 : 1 - ε ≤ y / x := by rw [le_div_iff₀ hx]; linarith
  have e2 : y / x ≤ 1 + ε := by rw [div_le_iff₀ hx]; linarith
  constructor
  · have := Real.one_sub_inv_le_log_of_pos hr
    have h3 : (y / x)⁻¹ ≤ 1 + 2 * ε := by
      rw [inv_le_iff_one_le_mul₀ hr]
      nlinarith
    linarith
  · have := Real.log_le_sub_one_of_pos hr
    linarith

theorem near {q : ℕ} (hx : 0 < x) (hq : (1 + A.u) ^ q - 1 ≤ 1 / 2) (h : Near A.u q x y x) :
    Ratio (2 * ((1 + A.u) ^ q - 1)) y x := of_abs hx hq h.1

theorem rd (h : Ratio c y x) : Ratio (c + 2 * A.u) (A.rd y) x := by
  have h1 := of_abs (ε := A.u) (y := A.rd y) h.pos' (by linarith [A.u_le]) (by
    have := A.err y
    rwa [abs_of_pos h.pos'] at this)
  have := h1.trans h
  rwa [add_comm] at this

theorem prod (h : Ratio c y x) (h' : Ratio c' y' x') : Ratio (c + c') (y * y') (x * x') := by
  refine ⟨mul_pos h.pos h'.pos, mul_pos h.pos' h'.pos', ?_⟩
  rw [Real.log_mul h.pos'.ne' h'.pos'.ne', Real.log_mul h.pos.ne' h'.pos.ne',
    show Real.log y + Real.log y' - (Real.log x + Real.log x') = (Real.log y - Real.log x) + (Real.log y' - Real.log x') by ring]
  exact (abs_add_le _ _).trans (add_le_add h.log h'.log)

theorem quot (h : Ratio c y x) (h' : Ratio c' y' x') : Ratio (c + c') (y / y') (x / x') := by
  refine ⟨div_pos h.pos h'.pos, div_pos h.pos' h'.pos', ?_⟩
  rw [Real.log_div h.pos'.ne' h'.pos'.ne', Real.log_div h.pos.ne' h'.pos.ne',
    show Real.log y - Real.log y' - (Real.log x - Real.log x') = (Real.log y - Real.log x) - (Real.log y' - Real.log x') by ring]
  exact (abs_sub _ _).trans (add_le_add h.log h'.log)

theorem root (h : Ratio c y x) : Ratio (c / 2) (Real.sqrt y) (Real.sqrt x) := by
  refine ⟨Real.sqrt_pos.2 h.pos, Real.sqrt_pos.2 h.pos', ?_⟩
  rw [Real.log_sqrt h.pos'.le, Real.log_sqrt h.pos.le, ← sub_div, abs_div, abs_two]
  exact div_le_div_of_nonneg_right h.log (by norm_num)

theorem of_exp (hx : 0 < x) (h1 : Real.exp (-c) * x ≤ y) (h2 : y ≤ Real.exp c * x) : Ratio c y x := by
  have hy : 0 < y := lt_of_lt_of_le (mul_pos (Real.exp_pos _) hx) h1
  refine ⟨hx, hy, ?_⟩
  have l1 := Real.log_le_log (mul_pos (Real.exp_pos _) hx) h1
  have l2 := Real.log_le_log hy h2
  rw [Real.log_mul (Real.exp_pos _).ne' hx.ne', Real.log_exp] at l1 l2
  rw [abs_le]; constructor <;> linarith

theorem abs_le_exp (h : Ratio c y x) : |y - x| ≤ (Real.exp c - 1) * x := by
  obtain ⟨h1, h2⟩ := abs_le.1 h.log
  have e : y = Real.exp (Real.log y - Real.log x) * x := by
    rw [Real.exp_sub, Real.exp_log h.pos', Real.exp_log h.pos, div_mul_cancel₀ _ h.pos.ne']
  set d := Real.log y - Real.log x
  have u1 : Real.exp d ≤ Real.exp c := Real.exp_le_exp.2 h2
  have u2 : Real.exp (-c) ≤ Real.exp d := Real.exp_le_exp.2 h1
  have u3 : Real.exp (-c) * Real.exp c = 1 := by rw [← Real.exp_add, neg_add_cancel, Real.exp_zero]
  have u4 : 2 - Real.exp c ≤ Real.exp (-c) := by
    nlinarith [sq_nonneg (Real.exp c - 1), Real.exp_pos c, Real.exp_pos (-c)]
  rw [e, show Real.exp d * x - x = (Real.exp d - 1) * x by ring, abs_mul, abs_of_pos h.pos]
  refine mul_le_mul_of_nonneg_right ?_ h.pos.le
  rw [abs_le]; constructor <;> linarith

theorem toNear (h : Ratio c y x) {q : ℕ} (hc : c * (1 + A.u) ≤ q * A.u) : Near A.u q x y x := by
  refine ⟨h.abs_le_exp.trans (mul_le_mul_of_nonneg_right ?_ h.pos.le), by rw [abs_of_pos h.pos]⟩
  have hu := A.u_nonneg
  have h1 : c ≤ q * Real.log (1 + A.u) := by
    have := Real.one_sub_inv_le_log_of_pos (x := 1 + A.u) (by linarith)
    have e : 1 - (1 + A.u)⁻¹ = A.u / (1 + A.u) := by field_simp; ring
    rw [e] at this
    calc c ≤ q * (A.u / (1 + A.u)) := by
          rw [← mul_div_assoc, le_div_iff₀ (by linarith)]; exact hc
      _ ≤ _ := mul_le_mul_of_nonneg_left this (Nat.cast_nonneg _)
  have h2 : Real.exp c ≤ (1 + A.u) ^ q := by
    calc Real.exp c ≤ Real.exp (q * Real.log (1 + A.u)) := Real.exp_le_exp.2 h1
      _ = _ := by rw [Real.exp_nat_mul, Real.exp_log (by linarith)]
  linarith

end Ratio

/-! ### The universes -/

/-- A mild universe whose densities are not negative and in which the expansion is not slower than it would be if there
were dark energy only. -/
structure Calm (P : Params) : Prop where
  mild : Mild P
  b_nonneg : 0 ≤ P.Omega_b
  c_nonneg : 0 ≤ P.Omega_c
  dark_le : ∀ a, 0 < a → a ≤ 1 → Real.exp (f_de P a) ≤ Esqr P a

/-- Dark energy that never slows the expansion down. -/
theorem calm_of_w {P : Params} (h : Mild P) (hb : 0 ≤ P.Omega_b) (hc : 0 ≤ P.Omega_c)
    (hw : ∀ a, 0 < a → a ≤ 1 → w P a ≤ -(1 / 3)) : Calm P := by
  refine ⟨h, hb, hc, fun a ha h1 => ?_⟩
  have w1 := hw 1 one_pos le_rfl
  simp only [w, sub_self, zero_mul, add_zero] at w1
  have w0 : P.w0 + P.wa ≤ -(1 / 3) := by
    by_contra hn
    push Not at hn
    set e := P.w0 + P.wa + 1 / 3 with he
    have he0 : 0 < e := by linarith
    have hwa : 0 < P.wa := by linarith
    have := hw (min 1 (e / (2 * P.wa))) (lt_min one_pos (by positivity)) (min_le_left _ _)
    have h2 : min 1 (e / (2 * P.wa)) * P.wa ≤ e / 2 := by
      calc _ ≤ e / (2 * P.wa) * P.wa := mul_le_mul_of_nonneg_right (min_le_right _ _) hwa.le
        _ = e / 2 := by field_simp
    simp only [w] at this
    nlinarith
  have hl := Real.log_le_sub_one_of_pos ha
  have hf : f_de P a ≤ -2 * Real.log a := by
    unfold f_de
    nlinarith [mul_nonneg (by linarith : 0 ≤ -(1 + 3 * P.w0 + 3 * P.wa)) (sub_nonneg.2 hl),
      mul_nonneg (by linarith : 0 ≤ -(1 + 3 * P.w0)) (sub_nonneg.2 h1)]
  have e2 : Real.exp (f_de P a) ≤ a ^ (-2 : ℤ) := by
    calc _ ≤ Real.exp (-2 * Real.log a) := Real.exp_le_exp.2 hf
      _ = _ := by
        rw [show (-2 : ℝ) * Real.log a = Real.log a * ((-2 : ℤ) : ℝ) by push_cast; ring, ← Real.rpow_def_of_pos ha,
          Real.rpow_intCast]
  have e3 : a ^ (-2 : ℤ) ≤ a ^ (-3 : ℤ) := zpow_le_zpow_right_of_le_one₀ ha h1 (by norm_num)
  have hm := h.phys.m_pos
  have hk := h.phys.k_nonneg
  have hs : P.Omega_m + P.Omega_k + P.Omega_de = 1 := by simp only [Params.Omega_de, Params.Omega]; ring
  have i1 := mul_le_mul_of_nonneg_left (e2.trans e3) hm.le
  have i2 := mul_le_mul_of_nonneg_left e2 hk
  have : Real.exp (f_de P a) = (P.Omega_m + P.Omega_k + P.Omega_de) * Real.exp (f_de P a) := by rw [hs, one_mul]
  rw [this]
  unfold Esqr
  linarith

variable {A : Rounding} {L : Elem} {P : Params} {q : ℕ} {a δ : ℝ}

theorem rateScale_le (hP : Calm P) (ha : 0 < a) (h1 : a ≤ 1) : rateScale P a ≤ 3 * Esqr P a ∧ 0 < Esqr P a := by
  have hd := hP.dark_le a ha h1
  have hk := hP.mild.phys.k_nonneg
  have hde := hP.mild.phys.de_nonneg
  have hm := hP.mild.phys.m_pos
  have hs : P.Omega_de = 1 - P.Omega_k - P.Omega_m := rfl
  have he := Real.exp_pos (f_de P a)
  refine ⟨?_, lt_of_lt_of_le he hd⟩
  have e : rateScale P a = Esqr P a + 2 * ((P.Omega_k + P.Omega_m) * Real.exp (f_de P a)) := by
    unfold rateScale Esqr
    rw [abs_of_nonneg hk, abs_of_nonneg hP.b_nonneg, abs_of_nonneg hP.c_nonneg, hs]
    simp only [Params.Omega_m]
    ring
  have : (P.Omega_k + P.Omega_m) * Real.exp (f_de P a) ≤ 1 * Real.exp (f_de P a) :=
    mul_le_mul_of_nonneg_right (by linarith) he.le
  linarith

/-- The relative error of the square of the expansion rate. -/
noncomputable def rateError (A : Rounding) (q : ℕ) (δ : ℝ) : ℝ := 3 * ((1 + A.u) ^ (q + 4) * Real.exp δ - 1)

/-- C165: the square of the expansion rate is accurate relative to itself. -/
theorem C165_expansion (hL : L.Accurate A q) (hP : Calm P) (ha : 0 < a) (h1 : a ≤ 1)
    (hf : |f_deF A L P a - f_de P a| ≤ δ) : |EsqrF A L P a - Esqr P a| ≤ rateError A q δ * Esqr P a := by
  obtain ⟨s1, s2⟩ := rateScale_le hP ha h1
  refine (C164_rate hL P ha hf).trans ?_
  have hδ : 1 ≤ Real.exp δ := Real.one_le_exp ((abs_nonneg _).trans hf)
  have g := one_le_growth (A := A) (q + 4)
  have : 0 ≤ (1 + A.u) ^ (q + 4) * Real.exp δ - 1 := by nlinarith
  unfold rateError
  nlinarith

/-- C165: so is the Hubble rate. -/
theorem C165_hubble (hL : L.Accurate A q) (hP : Calm P) (ha : 0 < a) (h1 : a ≤ 1)
    (hf : |f_deF A L P a - f_de P a| ≤ δ) (he : rateError A q δ ≤ 1 / 2) (hq : (1 + A.u) ^ q - 1 ≤ 1 / 2) :
    Ratio (rateError A q δ + 2 * ((1 + A.u) ^ q - 1) + 2 * A.u) (HF A L P a) (H P a) := by
  have hE := Ratio.of_abs (rateScale_le hP ha h1).2 he (C165_expansion hL hP ha h1 hf)
  have hs := (Ratio.near (Real.sqrt_pos.2 hE.pos') hq (hL.sqrt _ hE.pos'.le)).trans hE.root
  have h0 := Ratio.self (x := const_H0) (by norm_num [const_H0])
  exact ((h0.prod hs).rd (A := A)).mono (by linarith)

/-- C165: and so is the integrand of the distance, at a point that is off by at most `η`. -/
theorem C165_rate (hL : L.Accurate A q) (h0 : ∀ x ≤ 0, L.exp x ≤ 1) (hP : Calm P) {x x' η : ℝ} (hx : x ≤ 0) (hx' : x' ≤ 0)
    (hη : |x' - x| ≤ η) (hf : |f_deF A L P (L.exp x') - f_de P (L.exp x')| ≤ δ) (he : rateError A q δ ≤ 1 / 2)
    (hq : (1 + A.u) ^ q - 1 ≤ 1 / 2) :
    Ratio (rateError A q δ + 4 * ((1 + A.u) ^ q - 1) + 10 * A.u + η) (dchioverdlnaF A L P x') (chiRate P x) := by
  have hexp := Ratio.near (Real.exp_pos x') hq (hL.exp x')
  set b := L.exp x' with hb
  have hb0 : 0 < b := hexp.pos'
  have hb1 : b ≤ 1 := h0 x' hx'
  have hE := Ratio.of_abs (rateScale_le hP hb0 hb1).2 he (C165_expansion hL hP hb0 hb1 hf)
  have hs := (Ratio.near (Real.sqrt_pos.2 hE.pos') hq (hL.sqrt _ hE.pos'.le)).trans hE.root
  have hbb := Ratio.self hb0
  have hden := (((hbb.prod hbb).rd (A := A)).prod hs).rd (A := A)
  have hrh := (Ratio.self (x := const_rh) (by norm_num [const_rh])).rd (A := A)
  have hall := (((hrh.quot hden).rd (A := A)).prod hbb).rd (A := A)
  have e : const_rh / (b * b * Real.sqrt (Esqr P b)) * b = chiRate P (Real.log b) := by
    unfold chiRate dchioverda
    rw [Real.exp_log hb0, sq]
  rw [e] at hall
  have hlog : |Real.log b - x| ≤ 2 * ((1 + A.u) ^ q - 1) + η := by
    have := hexp.log
    rw [Real.log_exp] at this
    exact (abs_sub_le _ x' _).trans (add_le_add this hη)
  obtain ⟨r1, r2⟩ := rate_near hP.mild (Real.log_nonpos hb0.le hb1) hx hlog
  exact (hall.trans (Ratio.of_exp (rate_pos hP.mild.phys x) r1 r2)).mono (by linarith)

/-! ### The table -/

/-- The nodes of the table, `ln a`, as computed: numbers of the format that increase to zero from above `-7`. -/
structure LogNodes (A : Rounding) (t : ℕ → ℝ) (n : ℕ) (d : ℝ) : Prop where
  held : ∀ i < n, A.rd (t i) = t i
  incr : ∀ i, i + 1 < n → t i < t (i + 1)
  mesh : ∀ i, i + 1 < n → t (i + 1) - t i ≤ d
  first : -7 ≤ t 0
  last : t (n - 1) = 0

theorem LogNodes.le {t : ℕ → ℝ} {n : ℕ} {d : ℝ} (h : LogNodes A t n d) {i j : ℕ} (hij : i ≤ j) (hj : j < n) :
    t i ≤ t j := by
  induction j, hij using Nat.le_induction with
  | base => exact le_rfl
  | succ k _ ih => exact (ih (by omega)).trans (h.incr k hj).le

theorem LogNodes.mem {t : ℕ → ℝ} {n : ℕ} {d : ℝ} (h : LogNodes A t n d) {i : ℕ} (hi : i < n) : -7 ≤ t i ∧ t i ≤ 0 :=
  ⟨h.first.trans (h.le (Nat.zero_le i) hi), h.last ▸ h.le (by omega : i ≤ n - 1) (by omega)⟩

/-- The midpoint as computed does not pass today and is off by three roundings. -/
theorem mid_computed {p : ℕ} (hp : 3 ≤ p) {s t : ℝ} (hs : -7 ≤ s) (hst : s ≤ t) (ht : t ≤ 0)
    (hrep : (binary p hp).rd s = s) :
    (binary p hp).add s ((binary p hp).div ((binary p hp).sub t s) 2) ≤ 0 ∧
      |(binary p hp).add s ((binary p hp).div ((binary p hp).sub t s) 2) - (s + t) / 2|
        ≤ ((1 + (binary p hp).u) ^ 3 - 1) * (21 / 2) := by
  set A := binary p hp with hA
  constructor
  · have hneg : A.rd (-s) = -s := by
      have : A.rd (-s) = -A.rd s := roundBinary_neg p s
      rw [this, hrep]
    have h1 : A.sub t s ≤ -s := by rw [← hneg]; exact A.mono (by linarith)
    have h2 : A.div (A.sub t s) 2 ≤ -s := by rw [← hneg]; exact A.mono (by linarith)
    have := A.mono (by linarith : s + A.div (A.sub t s) 2 ≤ 0)
    rwa [A.zero] at this
  · have h := ((Near.self (A := A) s).mono (by omega : 0 ≤ 2)).add (((Near.self (A := A) (t - s)).rd.div 2))
    have h1 := h.1
    rw [show s + (t - s) / 2 = (s + t) / 2 by ring] at h1
    refine h1.trans (mul_le_mul_of_nonneg_left ?_ (by linarith [one_le_growth (A := A) (2 + 1)]))
    rw [abs_of_nonpos (by linarith), abs_of_nonneg (by linarith : 0 ≤ t - s), abs_two]
    linarith

/-- C165: the rates that `dchioverda` computes are as accurate as `C163` asks. -/
theorem C165_rates {p : ℕ} (hp : 3 ≤ p) (hL : L.Accurate (binary p hp) q) (h0 : ∀ x ≤ 0, L.exp x ≤ 1) (hP : Calm P)
    {t : ℕ → ℝ} {n : ℕ} {d : ℝ} (ht : LogNodes (binary p hp) t n d)
    (hf : ∀ x, -8 ≤ x → x ≤ 0 → |f_deF (binary p hp) L P (L.exp x) - f_de P (L.exp x)| ≤ δ)
    (he : rateError (binary p hp) q δ ≤ 1 / 2) (hq : (1 + (binary p hp).u) ^ q - 1 ≤ 1 / 2)
    (h3 : ((1 + (binary p hp).u) ^ 3 - 1) * (21 / 2) ≤ 1) {Q : ℕ}
    (hQ : (rateError (binary p hp) q δ + 4 * ((1 + (binary p hp).u) ^ q - 1) + 10 * (binary p hp).u
      + ((1 + (binary p hp).u) ^ 3 - 1) * (21 / 2)) * (1 + (binary p hp).u) ≤ Q * (binary p hp).u) :
    RatesNear (binary p hp) Q (chiRate P) (dchioverdlnaF (binary p hp) L P) t n := by
  set A := binary p hp with hA
  have hη : 0 ≤ ((1 + A.u) ^ 3 - 1) * (21 / 2) := mul_nonneg (by linarith [one_le_growth (A := A) 3]) (by norm_num)
  refine ⟨fun i hi => ?_, fun i hi => ?_, fun i hi => (ht.incr i hi).le⟩
  · obtain ⟨m1, m2⟩ := ht.mem hi
    exact (C165_rate hL h0 hP m2 m2 (by rw [sub_self, abs_zero]; exact hη) (hf _ (by linarith) m2) he hq).toNear hQ
  · obtain ⟨m1, m2⟩ := ht.mem (by omega : i < n)
    obtain ⟨m3, m4⟩ := ht.mem hi
    obtain ⟨c1, c2⟩ := mid_computed hp m1 (ht.incr i hi).le m4 (ht.held i (by omega))
    have c3 := (abs_le.1 c2).1
    exact (C165_rate hL h0 hP (by linarith) c1 c2 (hf _ (by linarith) c1) he hq).toNear hQ

/-- Distance to the scale factor `exp x`. -/
theorem distance_exp (P : Params) (x : ℝ) :
    comovingDistance const_rh (expansion P) (Real.exp x) = ∫ y in x..0, chiRate P y := by
  rw [comovingDistance_log P (Real.exp_pos x), Real.log_exp]

theorem exp_le_one_div {x : ℝ} (hx : x < 1) : Real.exp x ≤ 1 / (1 - x) := by
  rw [le_div_iff₀ (by linarith)]
  have := Real.add_one_le_exp (-x)
  rw [Real.exp_neg] at this
  have h5 := Real.exp_pos x
  have h6 := mul_le_mul_of_nonneg_left this h5.le
  rw [mul_inv_cancel₀ h5.ne'] at h6
  linarith

theorem growth_le {u : ℝ} (hu : 0 ≤ u) {n : ℕ} (hn : n * u < 1) : (1 + u) ^ n ≤ 1 / (1 - n * u) := by
  refine le_trans ?_ (exp_le_one_div hn)
  rw [Real.exp_nat_mul]
  exact pow_le_pow_left₀ (by linarith) (by linarith [Real.add_one_le_exp u]) n

theorem growth_budget {u B : ℝ} (hu : 0 ≤ u) {n : ℕ} (hn : n * u < 1) (hB : 2.001 * (1 / (1 - n * u) - 1) ≤ B) :
    2.001 * ((1 + u) ^ n - 1) ≤ B := by
  have := growth_le hu hn
  linarith

/-- The sums over the nodes against the distances. -/
theorem run_distance (hP : Mild P) {t : ℕ → ℝ} {n : ℕ} (ht : LogNodes A t n (272 / 10000)) {i : ℕ} (hi : i < n) :
    |runOf (chiRate P) t (n - 1) - runOf (chiRate P) t i - comovingDistance const_rh (expansion P) (Real.exp (t i))|
      ≤ 1.71e-4 * comovingDistance const_rh (expansion P) (Real.exp (t i)) := by
  have hc := rate_continuous hP.phys
  have hsum : comovingDistance const_rh (expansion P) (Real.exp (t i))
      = ∑ j ∈ Finset.Ico i (n - 1), ∫ x in (t j)..(t (j + 1)), chiRate P x := by
    rw [distance_exp, intervalIntegral.sum_integral_adjacent_intervals_Ico (by omega)
      (fun k _ => hc.intervalIntegrable _ _), ht.last]
  have hrun : runOf (chiRate P) t (n - 1) - runOf (chiRate P) t i
      = ∑ j ∈ Finset.Ico i (n - 1), panel (chiRate P) (t j) (t (j + 1)) := by
    unfold runOf
    rw [Finset.sum_Ico_eq_sub _ (by omega)]
  rw [hrun, hsum, ← Finset.sum_sub_distrib, Finset.mul_sum]
  refine (Finset.abs_sum_le_sum_abs _ _).trans (Finset.sum_le_sum fun j hj => ?_)
  rw [Finset.mem_Ico] at hj
  have h1 := ht.incr j (by omega)
  have h2 := (ht.mem (by omega : j + 1 < n)).2
  refine (panel_error hP h1 h2).trans (mul_le_mul_of_nonneg_right ?_
    (intervalIntegral.integral_nonneg h1.le fun x _ => (rate_pos hP.phys x).le))
  have hm := ht.mesh j (by omega)
  have hd : 0 ≤ t (j + 1) - t j := by linarith
  have hwa := Mild.wa_le hP
  have hexp : Real.exp (t (j + 1) - t j) ≤ 1.03 := by
    refine (exp_le_one_div (by linarith)).trans ?_
    rw [div_le_iff₀ (by linarith)]
    linarith
  have hK : (2 + 3 / 2 * |P.wa|) / 18 ≤ 0.22362 := by linarith
  have hsq : (t (j + 1) - t j) ^ 2 ≤ 0.0272 ^ 2 := pow_le_pow_left₀ hd (by linarith) 2
  calc (2 + 3 / 2 * |P.wa|) / 18 * (t (j + 1) - t j) ^ 2 * Real.exp (t (j + 1) - t j)
      ≤ (0.22362 : ℝ) * 0.0272 ^ 2 * 1.03 := by gcongr
    _ ≤ 1.71e-4 := by norm_num

/-- C165: the tabulated distances against the line-of-sight integral, in any binary format: the error of the quadrature
relative to the distance, and the rounding relative to the whole distance the table covers. -/
theorem C165_table {p : ℕ} (hp : 3 ≤ p) (hP : Mild P) (a : ℕ → ℝ) {t : ℕ → ℝ} {n Q : ℕ}
    (ht : LogNodes (binary p hp) t n (272 / 10000)) {rate : ℝ → ℝ}
    (hr : RatesNear (binary p hp) Q (chiRate P) rate t n) {i : ℕ} (hi : i < n) :
    |(chiTableF (binary p hp) rate a t n).chi i - comovingDistance const_rh (expansion P) (Real.exp (t i))|
      ≤ 1.71e-4 * comovingDistance const_rh (expansion P) (Real.exp (t i))
        + 2.001 * ((1 + (binary p hp).u) ^ (Q + 8 + n) - 1) * comovingDistance const_rh (expansion P) (Real.exp (t 0)) := by
  set A := binary p hp with hA
  have b1 := run_distance hP ht hi
  have b2 := run_distance hP ht (i := 0) (by omega)
  have b3 := C163_table a hr hi
  have r0 : runOf (chiRate P) t 0 = 0 := by simp [runOf]
  rw [r0, sub_zero] at b2
  set D := comovingDistance const_rh (expansion P) (Real.exp (t i))
  set D0 := comovingDistance const_rh (expansion P) (Real.exp (t 0)) with hD0
  have hD0n : 0 ≤ D0 := by
    rw [hD0, distance_exp]
    exact intervalIntegral.integral_nonneg (ht.mem (by omega)).2 fun x _ => (rate_pos hP.phys x).le
  have hmono : runOf (chiRate P) t i ≤ runOf (chiRate P) t (n - 1) := by
    unfold runOf
    refine Finset.sum_le_sum_of_subset_of_nonneg (Finset.range_mono (by omega)) fun k hk _ => ?_
    rw [Finset.mem_range] at hk
    exact hr.panel_nonneg (by omega)
  have hg := one_le_growth (A := A) (Q + 8 + n)
  have c := (abs_le.1 b2).2
  have b4 : ((1 + A.u) ^ (Q + 8 + n) - 1) * (runOf (chiRate P) t (n - 1) + runOf (chiRate P) t i)
      ≤ ((1 + A.u) ^ (Q + 8 + n) - 1) * (2.001 * D0) := by
    refine mul_le_mul_of_nonneg_left ?_ (by linarith)
    norm_num at c ⊢
    linarith
  have tri := abs_sub_le ((chiTableF A rate a t n).chi i)
    (runOf (chiRate P) t (n - 1) - runOf (chiRate P) t i) D
  linarith

/-! ### Single precision, 256 nodes, library functions within four roundings (two units in the last place) -/

theorem float32_u : float32.u = 1 / 2 ^ 24 := rfl

theorem calm_exponent (hL : L.Accurate float32 4) (h0 : ∀ x ≤ 0, L.exp x ≤ 1) (hP : Calm P) {x : ℝ} (h8 : -8 ≤ x)
    (hx : x ≤ 0) : |f_deF float32 L P (L.exp x) - f_de P (L.exp x)| ≤ 4.57e-5 := by
  have hr := Ratio.near (Real.exp_pos x) (by rw [float32_u]; norm_num) (hL.exp x)
  have hl := hr.log
  rw [Real.log_exp] at hl
  have hb0 := hr.pos'
  have hb1 := h0 x hx
  set b := L.exp x with hb
  refine (C164_exponent hL P hb0).trans ?_
  have hs : (2 : ℝ) * ((1 + float32.u) ^ 4 - 1) ≤ 0.01 := by rw [float32_u]; norm_num
  have hlog : |Real.log b| ≤ 8.01 := by
    have := abs_sub_abs_le_abs_sub (Real.log b) x
    have : |x| ≤ 8 := abs_le.2 ⟨h8, by linarith⟩
    linarith
  have hw0 : |P.w0| ≤ 1 := by
    have := hP.mild.phys.w_range 1 one_pos le_rfl
    simp only [w, sub_self, zero_mul, add_zero] at this
    exact abs_le.2 this
  have hwa := Mild.wa_le hP.mild
  have hb2 : |b - 1| ≤ 1 := abs_le.2 ⟨by linarith, by linarith⟩
  have hd : deScale P b ≤ 85 := by
    unfold deScale
    rw [abs_one, abs_neg, abs_of_pos (by norm_num : (0 : ℝ) < 3)]
    have i1 : (1 + |P.w0| + |P.wa|) * |Real.log b| ≤ 3.35 * 8.01 :=
      mul_le_mul (by linarith) hlog (abs_nonneg _) (by norm_num)
    have i2 : |P.wa| * |b - 1| ≤ 1.35 * 1 := mul_le_mul hwa hb2 (abs_nonneg _) (by norm_num)
    norm_num at i1 i2 ⊢
    linarith
  calc _ ≤ ((1 + float32.u) ^ (4 + 5) - 1) * 85 :=
        mul_le_mul_of_nonneg_left hd (by linarith [one_le_growth (A := float32) (4 + 5)])
    _ ≤ 4.57e-5 := by rw [float32_u]; norm_num

/-- C165: in single precision, with a cosmological constant, the Hubble rate is accurate to 2.1e-6. -/
theorem C165_hubble_constant (hL : L.Accurate float32 4) (hP : Calm P) (hw : P.w0 = -1) (hwa : P.wa = 0) (ha : 0 < a)
    (h1 : a ≤ 1) : |HF float32 L P a - H P a| ≤ 2.1e-6 * H P a := by
  have hr := C165_hubble hL hP ha h1 (δ := 0)
    (by rw [(C164_constant hw hwa).1, (C164_constant (A := float32) (L := L) hw hwa).2]; simp)
    (by rw [rateError, Real.exp_zero, float32_u]; norm_num) (by rw [float32_u]; norm_num)
  refine hr.abs_le_exp.trans (mul_le_mul_of_nonneg_right ?_ hr.pos.le)
  have hc : rateError float32 4 0 + 2 * ((1 + float32.u) ^ 4 - 1) + 2 * float32.u ≤ 2.05e-6 := by
    rw [rateError, Real.exp_zero, float32_u]; norm_num
  have h2 := Real.exp_le_exp.2 hc
  have h3 : Real.exp 2.05e-6 ≤ 1 / (1 - 2.05e-6) := exp_le_one_div (by norm_num)
  have h4 : (1 : ℝ) / (1 - 2.05e-6) ≤ 1 + 2.1e-6 := by norm_num
  linarith

/-- C165: in single precision, with a cosmological constant, the rounding of every tabulated distance is at most 4.2e-5
of the distance to the beginning of the table. -/
theorem C165_constant (hL : L.Accurate float32 4) (h0 : ∀ x ≤ 0, L.exp x ≤ 1) (hP : Calm P) (hw : P.w0 = -1)
    (hwa : P.wa = 0) (a : ℕ → ℝ) {t : ℕ → ℝ} (ht : LogNodes float32 t 256 (272 / 10000)) {i : ℕ} (hi : i < 256) :
    |(chiTableF float32 (dchioverdlnaF float32 L P) a t 256).chi i
        - comovingDistance const_rh (expansion P) (Real.exp (t i))|
      ≤ 1.71e-4 * comovingDistance const_rh (expansion P) (Real.exp (t i))
        + 4.2e-5 * comovingDistance const_rh (expansion P) (Real.exp (t 0)) := by
  have hu : (binary 24 (by norm_num)).u = 1 / 2 ^ 24 := rfl
  have hr := C165_rates (p := 24) (by norm_num) hL h0 hP ht (δ := 0) (Q := 83)
    (fun x _ _ => by rw [(C164_constant hw hwa).1, (C164_constant (A := float32) (L := L) hw hwa).2]; simp)
    (by rw [rateError, Real.exp_zero, hu]; norm_num) (by rw [hu]; norm_num) (by rw [hu]; norm_num)
    (by rw [rateError, Real.exp_zero, hu]; norm_num)
  refine (C165_table (p := 24) (by norm_num) hP.mild a ht hr hi).trans ?_
  have hD : 0 ≤ comovingDistance const_rh (expansion P) (Real.exp (t 0)) := by
    rw [distance_exp]
    exact intervalIntegral.integral_nonneg (ht.mem (by norm_num)).2 fun x _ => (rate_pos hP.mild.phys x).le
  refine add_le_add le_rfl (mul_le_mul_of_nonneg_right ?_ hD)
  exact growth_budget (n := 83 + 8 + 256) (binary 24 (by norm_num)).u_nonneg (by rw [hu]; norm_num) (by rw [hu]; norm_num)

/-- C165: in single precision, in every calm universe, it is at most 3.2e-4 of that distance. -/
theorem C165_default (hL : L.Accurate float32 4) (h0 : ∀ x ≤ 0, L.exp x ≤ 1) (hP : Calm P) (a : ℕ → ℝ) {t : ℕ → ℝ}
    (ht : LogNodes float32 t 256 (272 / 10000)) {i : ℕ} (hi : i < 256) :
    |(chiTableF float32 (dchioverdlnaF float32 L P) a t 256).chi i
        - comovingDistance const_rh (expansion P) (Real.exp (t i))|
      ≤ 1.71e-4 * comovingDistance const_rh (expansion P) (Real.exp (t i))
        + 3.2e-4 * comovingDistance const_rh (expansion P) (Real.exp (t 0)) := by
  have hu : (binary 24 (by norm_num)).u = 1 / 2 ^ 24 := rfl
  have hexp : Real.exp 4.57e-5 ≤ 1 / (1 - 4.57e-5) := exp_le_one_div (by norm_num)
  have he : rateError float32 4 4.57e-5 ≤ 2325 / 2 ^ 24 := by
    unfold rateError
    have : (1 + float32.u) ^ (4 + 4) * Real.exp 4.57e-5 ≤ (1 + float32.u) ^ (4 + 4) * (1 / (1 - 4.57e-5)) :=
      mul_le_mul_of_nonneg_left hexp (by linarith [one_le_growth (A := float32) (4 + 4)])
    have h2 : 3 * ((1 + float32.u) ^ (4 + 4) * (1 / (1 - 4.57e-5)) - 1) ≤ 2325 / 2 ^ 24 := by
      rw [float32_u]; norm_num
    linarith
  have hr := C165_rates (p := 24) (by norm_num) hL h0 hP ht (δ := 4.57e-5) (Q := 2390)
    (fun x h8 hx => calm_exponent hL h0 hP h8 hx) (he.trans (by norm_num)) (by rw [hu]; norm_num) (by rw [hu]; norm_num)
    (by
      have : (rateError float32 4 4.57e-5 + 4 * ((1 + float32.u) ^ 4 - 1) + 10 * float32.u
          + ((1 + float32.u) ^ 3 - 1) * (21 / 2)) * (1 + float32.u) ≤ (2325 / 2 ^ 24 + 4 * ((1 + float32.u) ^ 4 - 1)
          + 10 * float32.u + ((1 + float32.u) ^ 3 - 1) * (21 / 2)) * (1 + float32.u) :=
        mul_le_mul_of_nonneg_right (by linarith) (by linarith [float32.u_nonneg])
      refine this.trans ?_
      rw [float32_u, hu]; norm_num)
  refine (C165_table (p := 24) (by norm_num) hP.mild a ht hr hi).trans ?_
  have hD : 0 ≤ comovingDistance const_rh (expansion P) (Real.exp (t 0)) := by
    rw [distance_exp]
    exact intervalIntegral.integral_nonneg (ht.mem (by norm_num)).2 fun x _ => (rate_pos hP.mild.phys x).le
  refine add_le_add le_rfl (mul_le_mul_of_nonneg_right ?_ hD)
  exact growth_budget (n := 2390 + 8 + 256) (binary 24 (by norm_num)).u_nonneg (by rw [hu]; norm_num) (by rw [hu]; norm_num)

theorem planck_calm : Calm Planck15 :=
  calm_of_w planck_mild (by norm_num [Planck15]) (by norm_num [Planck15]) fun a _ _ => by norm_num [w, Planck15]

/-- Nodes in steps of `1 / 64`. -/
theorem nodes_example : LogNodes float32 (fun i => ((i : ℝ) - 255) / 64) 256 (272 / 10000) where
  held i hi := by
    have := roundBinary_dyadic (p := 24) (n := (i : ℤ) - 255) (by rw [abs_lt]; norm_num; omega) (-6)
    push_cast at this
    rw [show ((i : ℝ) - 255) / 64 = ((i : ℝ) - 255) * 2 ^ (-6 : ℤ) by norm_num; ring]
    exact this
  incr i _ := by push_cast; linarith
  mesh i _ := by push_cast; linarith
  first := by norm_num
  last := by norm_num

/-- The universe of Planck 2015, with the best possible library. -/
example {i : ℕ} (hi : i < 256) :
    |(chiTableF float32 (dchioverdlnaF float32 float32.elem Planck15) (fun _ => 0) (fun i => ((i : ℝ) - 255) / 64) 256).chi i
        - comovingDistance const_rh (expansion Planck15) (Real.exp (((i : ℝ) - 255) / 64))|
      ≤ 1.71e-4 * comovingDistance const_rh (expansion Planck15) (Real.exp (((i : ℝ) - 255) / 64))
        + 4.2e-5 * comovingDistance const_rh (expansion Planck15) (Real.exp (((0 : ℕ) - 255) / 64)) :=
  C165_constant (L := float32.elem) (t := fun i => ((i : ℝ) - 255) / 64)
    ⟨fun x => ((elem_accurate float32).exp x).mono (by norm_num), fun a h => ((elem_accurate float32).log a h).mono (by norm_num),
      fun x h => ((elem_accurate float32).sqrt x h).mono (by norm_num),
      fun a n h => ((elem_accurate float32).pow a n h).mono (by norm_num)⟩
    (fun x hx => by
      have := float32.mono (Real.exp_le_one_iff.2 hx)
      rwa [float32.one] at this)
    planck_calm (by norm_num [Planck15]) (by norm_num [Planck15]) _ nodes_example hi

end JaxCosmo
