import Verif.Props.Distances

/-! # C10–C12: growth factor and growth rate -/

namespace JaxCosmo
open Spec

/-! ## The growth equation solved by RK4 stays positive -/

/-- The stages of one RK4 step of `D'' = -A D' + B D`, in numbers. -/
theorem rk4_growth_stages {A1 A2 A3 B1 B2 B3 D u h D2 u2 D3 u3 D4 u4 : ℝ} (hh : 0 < h)
    (hD : 0 < D) (hu : 0 < u) (hA1 : 0 ≤ h * A1 ∧ h * A1 ≤ 1 / 5)
    (hA2 : 0 ≤ h * A2 ∧ h * A2 ≤ 1 / 5) (hA3 : 0 ≤ h * A3 ∧ h * A3 ≤ 1 / 5) (hB1 : 0 ≤ B1)
    (hB3 : 0 ≤ B3) (hB12 : B1 / 10 ≤ B2) (hB2 : h * (h * B2) ≤ 1) (hD2 : D2 = D + h / 2 * u)
    (hu2 : u2 = u + h / 2 * (-A1 * u + B1 * D)) (hD3 : D3 = D + h / 2 * u2)
    (hu3 : u3 = u + h / 2 * (-A2 * u2 + B2 * D2)) (hD4 : D4 = D + h * u3)
    (hu4 : u4 = u + h * (-A2 * u3 + B2 * D3)) :
    0 < u + 2 * u2 + 2 * u3 + u4 ∧
    0 < u + h / 6 * ((-A1 * u + B1 * D) + 2 * (-A2 * u2 + B2 * D2) + 2 * (-A2 * u3 + B2 * D3)
        + (-A3 * u4 + B3 * D4)) := by
  have hB2' : 0 ≤ B2 := by linarith
  have hD2p : D < D2 := by rw [hD2]; have := mul_pos hh hu; linarith
  have a1 : 0 ≤ h * A1 * u := mul_nonneg hA1.1 hu.le
  have a2 : h * A1 * u ≤ 1 / 5 * u := mul_le_mul_of_nonneg_right hA1.2 hu.le
  have h1 : 0 ≤ h * (B1 * D) := by positivity
  have hu2e : u2 = u - (h * A1 * u) / 2 + h * (B1 * D) / 2 := by rw [hu2]; ring
  have hu2l : 9 / 10 * u ≤ u2 := by linarith
  have hu2u : u2 ≤ u + h * (B1 * D) / 2 := by linarith
  have hu2p : 0 < u2 := by linarith
  have hD3p : D < D3 := by rw [hD3]; have := mul_pos hh hu2p; linarith
  have hu3e : u3 = u - (h * A2 * u2) / 2 + h * (B2 * D2) / 2 := by rw [hu3]; ring
  have a3 : 0 ≤ h * A2 * u2 := mul_nonneg hA2.1 hu2p.le
  have a4 : h * A2 * u2 ≤ 1 / 5 * u2 := mul_le_mul_of_nonneg_right hA2.2 hu2p.le
  have hBD : h * (B1 * D / 10) ≤ h * (B2 * D2) := by
    apply mul_le_mul_of_nonneg_left _ hh.le
    calc B1 * D / 10 = B1 / 10 * D := by ring
      _ ≤ B2 * D2 := mul_le_mul hB12 hD2p.le hD.le hB2'
  have hu3l : 9 / 10 * u ≤ u3 := by linarith
  have hu3u : u3 ≤ u + h * (B2 * D2) / 2 := by linarith
  have hu3p : 0 < u3 := by linarith
  have hu4e : u4 = u - (h * A2 * u3) + h * (B2 * D3) := by rw [hu4]; ring
  have a6 : h * A2 * u3 ≤ 1 / 5 * u3 := mul_le_mul_of_nonneg_right hA2.2 hu3p.le
  have h2 : h * (B2 * D) ≤ h * (B2 * D3) := by gcongr
  have h3 : h * (B2 * D2) = h * (B2 * D) + h * (h * B2) * u / 2 := by rw [hD2]; ring
  have h4 : h * (h * B2) * u ≤ 1 * u := mul_le_mul_of_nonneg_right hB2 hu.le
  have h5 : 0 ≤ h * (B2 * D) := by positivity
  have hu4l : 7 / 10 * u ≤ u4 := by linarith
  have hu4p : 0 < u4 := by linarith
  have hD4p : 0 < D4 := by rw [hD4]; have := mul_pos hh hu3p; linarith
  refine ⟨by linarith, ?_⟩
  have e : u + h / 6 * ((-A1 * u + B1 * D) + 2 * (-A2 * u2 + B2 * D2)
      + 2 * (-A2 * u3 + B2 * D3) + (-A3 * u4 + B3 * D4))
      = (u2 + 2 * u3 + u4 - u) / 3 - (h * A3 * u4) / 6 + h / 6 * (B3 * D4) := by
    rw [hu4, hu3, hu2]; ring
  rw [e]
  have h6 : 0 ≤ h / 6 * (B3 * D4) := by positivity
  have h7 : h * A3 * u4 ≤ 1 / 5 * u4 := mul_le_mul_of_nonneg_right hA3.2 hu4p.le
  linarith

/-- One RK4 step of `D'' = -A D' + B D` keeps `D` and `D'` positive when the step is small. -/
theorem rk4_growth_pos {fn : ℝ × ℝ → ℝ → ℝ × ℝ} {A B : ℝ → ℝ}
    (hfn : ∀ y x, fn y x = (y.2, -A x * y.2 + B x * y.1)) {y : ℝ × ℝ} {x h : ℝ} (hh : 0 < h)
    (hD : 0 < y.1) (hu : 0 < y.2)
    (hA1 : 0 ≤ h * A x ∧ h * A x ≤ 1 / 5)
    (hA2 : 0 ≤ h * A (x + 1 / 2 * h) ∧ h * A (x + 1 / 2 * h) ≤ 1 / 5)
    (hA3 : 0 ≤ h * A (x + h) ∧ h * A (x + h) ≤ 1 / 5)
    (hB1 : 0 ≤ B x) (hB3 : 0 ≤ B (x + h))
    (hB12 : B x / 10 ≤ B (x + 1 / 2 * h)) (hB2 : h * (h * B (x + 1 / 2 * h)) ≤ 1) :
    y.1 < (rk4Step fn y x h).1 ∧ 0 < (rk4Step fn y x h).2 := by
  obtain ⟨D, u⟩ := y
  simp only at hD hu
  simp only [rk4Step, hfn, Prod.smul_mk, Prod.mk_add_mk, smul_eq_mul]
  generalize A x = A1 at *
  generalize A (x + 1 / 2 * h) = A2 at *
  generalize A (x + h) = A3 at *
  generalize B x = B1 at *
  generalize B (x + 1 / 2 * h) = B2 at *
  generalize B (x + h) = B3 at *
  obtain ⟨k1, k2⟩ := rk4_growth_stages hh hD hu hA1 hA2 hA3 hB1 hB3 hB12 hB2 rfl rfl rfl rfl rfl rfl
  constructor
  · refine lt_of_lt_of_eq (lt_add_of_pos_right D (mul_pos (by linarith : 0 < h / 6) k1)) ?_
    ring
  · refine lt_of_lt_of_eq k2 ?_
    ring

/-- The conditions under which the growth equation is the physical one: matter present, nothing
negative, `-1 ≤ w ≤ 1` up to today. -/
structure Physical (p : Params) : Prop where
  m_pos : 0 < p.Omega_m
  k_nonneg : 0 ≤ p.Omega_k
  de_nonneg : 0 ≤ p.Omega_de
  w_range : ∀ a, 0 < a → a ≤ 1 → -1 ≤ w p a ∧ w p a ≤ 1

theorem Physical.esqrPos {p : Params} (h : Physical p) : EsqrPos p := fun a ha _ =>
  C05_Esqr_pos p a ha h.m_pos h.k_nonneg h.de_nonneg

/-- The friction coefficient of the growth equation, times `a`. -/
noncomputable def growthQ (p : Params) (x : ℝ) : ℝ :=
  2 - (1 / 2) * (Omega_m_a p x + (1 + 3 * w p x) * Omega_de_a p x)

theorem growthQ_range {p : Params} (h : Physical p) {x : ℝ} (hx : 0 < x) (hx1 : x ≤ 1) :
    0 ≤ growthQ p x ∧ growthQ p x ≤ 3 := by
  have hE := (h.esqrPos x hx hx1).ne'
  obtain ⟨⟨m0, m1⟩, ⟨d0, d1⟩, ⟨k0, k1⟩⟩ :=
    C03_fractions_range p x hx hE h.m_pos.le h.k_nonneg h.de_nonneg
  have hs := C03_fractions_sum p x hE
  obtain ⟨w0, w1⟩ := h.w_range x hx hx1
  unfold growthQ
  constructor <;> nlinarith

theorem growthR_eq {p : Params} {x : ℝ} (hx : 0 < x) :
    3 / 2 * Omega_m_a p x / x / x = 3 / 2 * p.Omega_m / (x ^ 5 * Esqr p x) := by
  unfold Omega_m_a
  rw [zpow_neg, show x ^ (3 : ℤ) = x ^ 3 by norm_cast]
  have := hx.ne'
  rcases eq_or_ne (Esqr p x) 0 with h0 | h0
  · simp [h0]
  · field_simp

/-- On a step of the growth grid the coefficients of the growth equation are within the bounds that
`rk4_growth_pos` needs. -/
theorem growth_step_coeffs {p : Params} (h : Physical p) {x x' : ℝ} (hx : 0 < x)
    (hxx : x < x') (hx1 : x' ≤ 1) (hr : x' ≤ 16 / 15 * x) :
    (∀ z, x ≤ z → z ≤ x' → 0 ≤ (x' - x) * (growthQ p z / z) ∧
      (x' - x) * (growthQ p z / z) ≤ 1 / 5) ∧
    (∀ z, 0 < z → z ≤ 1 → 0 ≤ 3 / 2 * Omega_m_a p z / z / z ∧
      3 / 2 * Omega_m_a p z / z / z ≤ 3 / 2 / z / z) ∧
    3 / 2 * Omega_m_a p x / x / x / 10 ≤
      3 / 2 * Omega_m_a p ((x + x') / 2) / ((x + x') / 2) / ((x + x') / 2) ∧
    (x' - x) * ((x' - x) *
      (3 / 2 * Omega_m_a p ((x + x') / 2) / ((x + x') / 2) / ((x + x') / 2))) ≤ 1 := by
  have hA : ∀ z, x ≤ z → z ≤ x' → 0 ≤ (x' - x) * (growthQ p z / z) ∧
      (x' - x) * (growthQ p z / z) ≤ 1 / 5 := by
    intro z hz hz'
    have hz0 : 0 < z := by linarith
    obtain ⟨q0, q1⟩ := growthQ_range h hz0 (by linarith)
    refine ⟨mul_nonneg (by linarith) (div_nonneg q0 hz0.le), ?_⟩
    rw [← mul_div_assoc, div_le_iff₀ hz0]
    nlinarith
  have hOm : ∀ z, 0 < z → z ≤ 1 → 0 ≤ 3 / 2 * Omega_m_a p z / z / z ∧
      3 / 2 * Omega_m_a p z / z / z ≤ 3 / 2 / z / z := by
    intro z hz hz1
    obtain ⟨⟨m0, m1⟩, -⟩ := C03_fractions_range p z hz (h.esqrPos z hz hz1).ne' h.m_pos.le
      h.k_nonneg h.de_nonneg
    constructor
    · positivity
    · gcongr; linarith
  refine ⟨hA, hOm, ?_, ?_⟩
  · have hz0 : 0 < (x + x') / 2 := by linarith
    rw [growthR_eq hx, growthR_eq hz0]
    have hE1 := h.esqrPos x hx (by linarith)
    have hE2 := h.esqrPos ((x + x') / 2) hz0 (by linarith)
    have hanti := C05_Esqr_antitone p h.m_pos.le h.k_nonneg h.de_nonneg
      (fun a ha ha1 => (h.w_range a ha ha1).1) ⟨hx, by linarith⟩
      (⟨hz0, by linarith⟩ : (x + x') / 2 ∈ Set.Ioc (0 : ℝ) 1) (by linarith)
    have hpow : ((x + x') / 2) ^ 5 ≤ 10 * x ^ 5 := by
      calc ((x + x') / 2) ^ 5 ≤ (16 / 15 * x) ^ 5 := by
            apply pow_le_pow_left₀ hz0.le; linarith
        _ = (16 / 15) ^ 5 * x ^ 5 := by ring
        _ ≤ 10 * x ^ 5 := by
            have : (0 : ℝ) < x ^ 5 := by positivity
            nlinarith [show ((16 : ℝ) / 15) ^ 5 ≤ 10 by norm_num]
    have := h.m_pos
    rw [div_div]
    apply div_le_div_of_nonneg_left (by positivity) (by positivity)
    calc ((x + x') / 2) ^ 5 * Esqr p ((x + x') / 2) ≤ (10 * x ^ 5) * Esqr p x := by
          apply mul_le_mul hpow hanti hE2.le (by positivity)
      _ = x ^ 5 * Esqr p x * 10 := by ring
  · have hz0 : 0 < (x + x') / 2 := by linarith
    have := (hOm _ hz0 (by linarith)).2
    have hb : (x' - x) ≤ 1 / 15 * ((x + x') / 2) := by linarith
    calc (x' - x) * ((x' - x) * (3 / 2 * Omega_m_a p ((x + x') / 2) / ((x + x') / 2) / ((x + x') / 2)))
        ≤ (1 / 15 * ((x + x') / 2)) * ((1 / 15 * ((x + x') / 2)) *
          (3 / 2 / ((x + x') / 2) / ((x + x') / 2))) := by
          have h0 := (hOm _ hz0 (by linarith)).1
          gcongr
      _ = 1 / 150 := by
          generalize (x + x') / 2 = z at *
          field_simp; norm_num
      _ ≤ 1 := by norm_num

/-- One step of the growth integration increases the solution and keeps its slope positive. -/
theorem growth_step_pos {p : Params} (h : Physical p) {y : ℝ × ℝ} {x x' : ℝ} (hx : 0 < x)
    (hxx : x < x') (hx1 : x' ≤ 1) (hr : x' ≤ 16 / 15 * x) (hD : 0 < y.1) (hu : 0 < y.2) :
    y.1 < (rk4Step (growthDerivs p) y x (x' - x)).1 ∧
      0 < (rk4Step (growthDerivs p) y x (x' - x)).2 := by
  obtain ⟨hA, hOm, h1, h2⟩ := growth_step_coeffs h hx hxx hx1 hr
  have hm : x + 1 / 2 * (x' - x) = (x + x') / 2 := by ring
  have he : x + (x' - x) = x' := by ring
  refine rk4_growth_pos (A := fun z => growthQ p z / z)
    (B := fun z => 3 / 2 * Omega_m_a p z / z / z) (fun y x => rfl) (by linarith) hD hu
    (hA x le_rfl hxx.le) ?_ ?_ (hOm x hx (by linarith)).1 ?_ ?_ ?_
  · rw [hm]; exact hA _ (by linarith) (by linarith)
  · rw [he]; exact hA _ (by linarith) (by linarith)
  · rw [he]; exact (hOm x' (by linarith) hx1).1
  · rw [hm]; exact h1
  · rw [hm]; exact h2

/-- The (unnormalised) growth solution on the grid is positive, with positive slope, and strictly
increasing. -/
theorem growth_table_pos {p : Params} (h : Physical p) {lo : ℝ} (hlo : lo < 0) {n : ℕ} (hn : 2 ≤ n)
    (hr : (10 : ℝ) ^ (-lo / ((n : ℝ) - 1)) ≤ 16 / 15) (i : ℕ) (hi : i < n) :
    0 < (odeint (growthDerivs p) (logspace lo 0 n 0, 1) (logspace lo 0 n) i).1 ∧
    0 < (odeint (growthDerivs p) (logspace lo 0 n 0, 1) (logspace lo 0 n) i).2 ∧
    (i + 1 < n → (odeint (growthDerivs p) (logspace lo 0 n 0, 1) (logspace lo 0 n) i).1
      < (odeint (growthDerivs p) (logspace lo 0 n 0, 1) (logspace lo 0 n) (i + 1)).1) := by
  have hx1 : ∀ i < n, logspace lo 0 n i ≤ 1 := fun i hi => by
    rw [← logspace_end lo hn]; exact (logspace_strictMono hlo hn).monotone (by omega)
  have key : ∀ i < n,
      0 < (odeint (growthDerivs p) (logspace lo 0 n 0, 1) (logspace lo 0 n) i).1 ∧
      0 < (odeint (growthDerivs p) (logspace lo 0 n 0, 1) (logspace lo 0 n) i).2 := by
    intro i
    induction i with
    | zero => intro _; rw [C26_first]; exact ⟨logspace_pos _ _ _ _, one_pos⟩
    | succ i ih =>
      intro hi
      obtain ⟨a, b⟩ := ih (by omega)
      have := growth_step_pos h (logspace_pos lo 0 n i)
        (logspace_strictMono hlo hn (Nat.lt_succ_self i)) (hx1 _ hi)
        (by rw [logspace_ratio, mul_comm]
            exact mul_le_mul_of_nonneg_right hr (logspace_pos _ _ _ _).le) a b
      rw [C26_step]
      exact ⟨lt_trans a this.1, this.2⟩
  obtain ⟨a, b⟩ := key i hi
  refine ⟨a, b, fun hi1 => ?_⟩
  rw [C26_step]
  exact (growth_step_pos h (logspace_pos lo 0 n i)
    (logspace_strictMono hlo hn (Nat.lt_succ_self i)) (hx1 _ hi1)
    (by rw [logspace_ratio, mul_comm]
        exact mul_le_mul_of_nonneg_right hr (logspace_pos _ _ _ _).le) a b).1

/-- The default growth table (`log10_amin = -3`, `steps = 128`) is fine enough. -/
theorem default_ratio : (10 : ℝ) ^ (-(-3) / (((128 : ℕ) : ℝ) - 1)) ≤ 16 / 15 := by
  have h127 : ((10 : ℝ) ^ (-(-3) / (((128 : ℕ) : ℝ) - 1))) ^ (127 : ℕ) = 1000 := by
    rw [← Real.rpow_natCast, ← Real.rpow_mul (by norm_num)]
    norm_num
  refine le_of_pow_le_pow_left₀ (n := 127) (by norm_num) (by norm_num) ?_
  rw [h127]
  norm_num

/-! ## C10 -/

/-- A growth-factor call on a fresh object returns the table reading of each element. -/
theorem C10_call (p : Params) (as : List ℝ) :
    (growthFactor (Cosmology.init p) (.vec as)).2 = .ok (as.map (growthOf p)) := by
  unfold growthFactor growthOf growthTable Cosmology.init
  cases hg : p.gamma with
  | none => simp [growthFactorODE, vmap1]
  | some γ => simp [growthFactorGamma, vmap1, hg]

theorem growthTableODE_last {p : Params} {lo : ℝ} {n : ℕ}
    (h : (odeint (growthDerivs p) (logspace lo 0 n 0, 1) (logspace lo 0 n) (n - 1)).1 ≠ 0) :
    (growthTableODE p lo n).g (n - 1) = 1 := by
  have : (growthTableODE p lo n).g (n - 1)
      = (odeint (growthDerivs p) (logspace lo 0 n 0, 1) (logspace lo 0 n) (n - 1)).1
        / (odeint (growthDerivs p) (logspace lo 0 n 0, 1) (logspace lo 0 n) (ix n (-1))).1 := rfl
  rw [this, ix_last, div_self h]

theorem growthTableGamma_last (p : Params) (γ lo : ℝ) (n : ℕ) :
    (growthTableGamma p γ lo n).g (n - 1) = 1 := by
  have : ∀ x : ℝ, Real.exp x / Real.exp x = 1 := fun x => div_self (Real.exp_ne_zero x)
  have e : (growthTableGamma p γ lo n).g (n - 1) = _ / _ := rfl
  rw [e, ix_last, this]

theorem readGrowth_one {c : GrowthCache} {lo : ℝ} (hlo : lo < 0) (hn : 2 ≤ c.n)
    (ha : c.a = logspace lo 0 c.n) (hg : c.g (c.n - 1) = 1) : readGrowth c 1 = 1 := by
  have h1 : interp c.n c.a c.g 1 = 1 := by
    rw [ha]
    conv_lhs => rw [← logspace_end lo hn]
    rw [C19_nodes_partial (logspace_increasing hlo hn) _ (by omega) (by omega), hg]
  rw [readGrowth, h1]; norm_num [clip]

/-- C10: the growth factor is in `[0, 1]` at every scale factor, in both modes. -/
theorem C10_range (p : Params) (a : ℝ) : 0 ≤ growthOf p a ∧ growthOf p a ≤ 1 :=
  ⟨le_min (le_max_right _ _) zero_le_one, min_le_right _ _⟩

/-- C10, `gamma` given: the growth factor today is 1, with no condition on the parameters. -/
theorem C10_one_gamma (p : Params) (γ : ℝ) (h : p.gamma = some γ) : growthOf p 1 = 1 := by
  have ht : growthTable p = growthTableGamma p γ (-3) 128 := by simp [growthTable, h]
  rw [growthOf, ht]
  exact readGrowth_one (lo := -3) (by norm_num) (by norm_num [growthTableGamma]) rfl
    (growthTableGamma_last p γ (-3) 128)

/-- C10, growth equation: the growth factor today is 1 provided the solution does not vanish
today, the only way the normalisation can go wrong. -/
theorem C10_one_ode_guard (p : Params) (h : p.gamma = none)
    (h0 : (odeint (growthDerivs p) (logspace (-3) 0 128 0, 1) (logspace (-3) 0 128) 127).1 ≠ 0) :
    growthOf p 1 = 1 := by
  have ht : growthTable p = growthTableODE p (-3) 128 := by simp [growthTable, h]
  rw [growthOf, ht]
  exact readGrowth_one (lo := -3) (by norm_num) (by norm_num [growthTableODE]) rfl
    (growthTableODE_last h0)

/-- C10: for every physical cosmology the growth factor today is 1, in both modes. -/
theorem C10_one (p : Params) (h : Physical p) : growthOf p 1 = 1 := by
  cases hg : p.gamma with
  | some γ => exact C10_one_gamma p γ hg
  | none =>
    exact C10_one_ode_guard p hg
      (growth_table_pos h (lo := -3) (n := 128) (by norm_num) (by norm_num) default_ratio 127
        (by norm_num)).1.ne'

theorem readGrowth_mono {c : GrowthCache} {lo : ℝ} (hlo : lo < 0) (hn : 2 ≤ c.n)
    (ha : c.a = logspace lo 0 c.n) (hg : ∀ i, i + 1 < c.n → c.g i ≤ c.g (i + 1)) :
    Monotone (readGrowth c) := by
  intro x y hxy
  refine min_le_min (max_le_max ?_ le_rfl) le_rfl
  rw [ha]
  exact C21_mono hn (logspace_increasing hlo hn) hg hxy

/-- C10: for every physical cosmology solved with the growth equation, the growth factor never
decreases with the scale factor. -/
theorem C10_mono_ode (p : Params) (h : Physical p) (hg : p.gamma = none) :
    Monotone (growthOf p) := by
  have ht : growthTable p = growthTableODE p (-3) 128 := by simp [growthTable, hg]
  have hpos := growth_table_pos h (lo := -3) (n := 128) (by norm_num) (by norm_num) default_ratio
  have : growthOf p = readGrowth (growthTableODE p (-3) 128) := by funext a; rw [growthOf, ht]
  rw [this]
  refine readGrowth_mono (lo := -3) (by norm_num) (by norm_num [growthTableODE]) rfl ?_
  intro i hi
  have hi' : i + 1 < 128 := hi
  change (odeint (growthDerivs p) (logspace (-3) 0 128 0, 1) (logspace (-3) 0 128) i).1 /
    (odeint (growthDerivs p) (logspace (-3) 0 128 0, 1) (logspace (-3) 0 128) (ix 128 (-1))).1 ≤
    (odeint (growthDerivs p) (logspace (-3) 0 128 0, 1) (logspace (-3) 0 128) (i + 1)).1 /
    (odeint (growthDerivs p) (logspace (-3) 0 128 0, 1) (logspace (-3) 0 128) (ix 128 (-1))).1
  rw [ix_last]
  exact div_le_div_of_nonneg_right ((hpos i (by omega)).2.2 hi').le (hpos _ (by norm_num)).1.le

theorem readGrowth_pos {c : GrowthCache} (hn : c.n = 128)
    (ha : c.a = logspace (-3) 0 128) (hg : ∀ i, i + 1 < c.n → c.g i ≤ c.g (i + 1))
    (h1 : 0 < c.g 1) {a : ℝ} (h : 1 / 900 ≤ a) : 0 < readGrowth c a := by
  have hm : Monotone (readGrowth c) :=
    readGrowth_mono (lo := -3) (by norm_num) (by omega) (by rw [ha, hn]) hg
  have hnode : logspace (-3) 0 128 1 ≤ a := by
    refine le_trans ?_ h
    have hr := logspace_ratio (-3) 128 0
    rw [zero_add] at hr
    rw [hr]
    have h0 : logspace (-3) 0 128 0 = 1 / 1000 := by
      norm_num [logspace, linspace]
    rw [h0]
    have := default_ratio
    linarith
  refine lt_of_lt_of_le ?_ (hm hnode)
  have : interp c.n c.a c.g (logspace (-3) 0 128 1) = c.g 1 := by
    have := C19_nodes_partial (logspace_increasing (lo := -3) (by norm_num)
      (by norm_num : 2 ≤ 128)) c.g (i := 1) (Or.inl le_rfl) (by norm_num)
    rw [hn, ha, this]
  rw [readGrowth, this]
  exact lt_min (lt_max_of_lt_left h1) one_pos

/-- C10: for every physical cosmology solved with the growth equation the growth factor is
strictly positive from `z = 899` on. -/
theorem C10_pos_ode (p : Params) (h : Physical p) (hg : p.gamma = none) {a : ℝ}
    (ha : 1 / 900 ≤ a) : 0 < growthOf p a := by
  have ht : growthTable p = growthTableODE p (-3) 128 := by simp [growthTable, hg]
  have hpos := growth_table_pos h (lo := -3) (n := 128) (by norm_num) (by norm_num) default_ratio
  rw [growthOf, ht]
  refine readGrowth_pos rfl rfl ?_ ?_ ha
  · intro i hi
    have hi' : i + 1 < 128 := hi
    change (odeint (growthDerivs p) (logspace (-3) 0 128 0, 1) (logspace (-3) 0 128) i).1 /
      (odeint (growthDerivs p) (logspace (-3) 0 128 0, 1) (logspace (-3) 0 128) (ix 128 (-1))).1 ≤
      (odeint (growthDerivs p) (logspace (-3) 0 128 0, 1) (logspace (-3) 0 128) (i + 1)).1 /
      (odeint (growthDerivs p) (logspace (-3) 0 128 0, 1) (logspace (-3) 0 128) (ix 128 (-1))).1
    rw [ix_last]
    exact div_le_div_of_nonneg_right ((hpos i (by omega)).2.2 hi').le (hpos _ (by norm_num)).1.le
  · change 0 < (odeint (growthDerivs p) (logspace (-3) 0 128 0, 1) (logspace (-3) 0 128) 1).1 /
      (odeint (growthDerivs p) (logspace (-3) 0 128 0, 1) (logspace (-3) 0 128) (ix 128 (-1))).1
    rw [ix_last]
    exact div_pos (hpos 1 (by norm_num)).1 (hpos _ (by norm_num)).1

/-- C10: from `z = 899` to today the growth factor is strictly increasing in the scale factor. -/
theorem C10_strict_ode (p : Params) (h : Physical p) (hg : p.gamma = none) :
    StrictMonoOn (growthOf p) (Set.Icc (1 / 900) 1) := by
  have ht : growthTable p = growthTableODE p (-3) 128 := by simp [growthTable, hg]
  have hpos := growth_table_pos h (lo := -3) (n := 128) (by norm_num) (by norm_num) default_ratio
  have hs : StrictMono (interp 128 (logspace (-3) 0 128) (growthTableODE p (-3) 128).g) := by
    refine C21_strictMono (by norm_num) (logspace_increasing (by norm_num) (by norm_num)) ?_
    intro i hi'
    change (odeint (growthDerivs p) (logspace (-3) 0 128 0, 1) (logspace (-3) 0 128) i).1 /
      (odeint (growthDerivs p) (logspace (-3) 0 128 0, 1) (logspace (-3) 0 128) (ix 128 (-1))).1 <
      (odeint (growthDerivs p) (logspace (-3) 0 128 0, 1) (logspace (-3) 0 128) (i + 1)).1 /
      (odeint (growthDerivs p) (logspace (-3) 0 128 0, 1) (logspace (-3) 0 128) (ix 128 (-1))).1
    rw [ix_last]
    exact div_lt_div_of_pos_right ((hpos i (by omega)).2.2 hi') (hpos _ (by norm_num)).1
  have heq : ∀ a, growthOf p a
      = min (max (interp 128 (logspace (-3) 0 128) (growthTableODE p (-3) 128).g a) 0) 1 := by
    intro a; rw [growthOf, ht]; rfl
  intro a ha b hb hab
  have h0 := C10_pos_ode p h hg ha.1
  have hlt := hs hab
  have hb1 : interp 128 (logspace (-3) 0 128) (growthTableODE p (-3) 128).g b ≤ 1 := by
    refine le_trans (hs.monotone hb.2) ?_
    have hl : (logspace (-3) 0 128) 127 = 1 := logspace_end (-3) (by norm_num : 2 ≤ 128)
    have h127 := C19_nodes_partial (logspace_increasing (lo := -3) (by norm_num)
      (by norm_num : 2 ≤ 128)) (growthTableODE p (-3) 128).g (i := 127)
      (Or.inl (by norm_num)) (by norm_num)
    rw [hl] at h127
    rw [h127]
    exact (growthTableODE_last (hpos 127 (by norm_num)).1.ne').le
  rw [heq] at h0 ⊢
  rw [heq b]
  simp only [lt_min_iff, lt_max_iff, lt_irrefl, or_false] at h0
  have h0 := h0.1
  rw [max_eq_left h0.le, max_eq_left (h0.trans hlt).le, min_eq_left hb1,
    min_eq_left (hlt.le.trans hb1)]
  exact hlt

theorem planck_physical : Physical Planck15 where
  m_pos := by norm_num [Planck15, Params.Omega_m]
  k_nonneg := by norm_num [Planck15]
  de_nonneg := by norm_num [Planck15, Params.Omega_de, Params.Omega, Params.Omega_m]
  w_range := fun a _ _ => by norm_num [w, Planck15]

example : growthOf Planck15 1 = 1 ∧ growthOf { Planck15 with gamma := some 0.55 } 1 = 1 ∧
    Monotone (growthOf Planck15) ∧ 0 < growthOf Planck15 0.01 ∧
    growthOf Planck15 0.25 < growthOf Planck15 0.5 :=
  ⟨C10_one _ planck_physical, C10_one_gamma _ 0.55 rfl, C10_mono_ode _ planck_physical rfl,
    C10_pos_ode _ planck_physical rfl (by norm_num),
    C10_strict_ode _ planck_physical rfl (by norm_num) (by norm_num) (by norm_num)⟩

/-! ## C11 -/

/-- Einstein–de Sitter: all matter, flat. -/
def EdS (p : Params) : Prop := p.Omega_m = 1 ∧ p.Omega_k = 0

theorem eds_Omega_m_a {p : Params} (hp : EdS p) {a : ℝ} (ha : 0 < a) : Omega_m_a p a = 1 := by
  simp [Omega_m_a, Esqr, Params.Omega_de, Params.Omega, hp.1, hp.2]
  have := ha.ne'
  field_simp

theorem eds_Omega_de_a {p : Params} (hp : EdS p) (a : ℝ) : Omega_de_a p a = 0 := by
  simp [Omega_de_a, Params.Omega_de, Params.Omega, hp.1, hp.2]

theorem eds_derivs {p : Params} (hp : EdS p) {x : ℝ} (hx : 0 < x) :
    growthDerivs p (x, 1) x = (1, 0) := by
  unfold growthDerivs
  rw [eds_Omega_m_a hp hx, eds_Omega_de_a hp]
  ext
  · rfl
  · simp only
    field_simp
    ring

theorem eds_odeint {p : Params} (hp : EdS p) {t : ℕ → ℝ} (ht : ∀ i, 0 < t i) (i : ℕ) :
    odeint (growthDerivs p) (t 0, 1) t i = (t i, 1) := by
  induction i with
  | zero => rw [C26_first]
  | succ i ih =>
    rw [C26_step, ih, rk4Step]
    have h0 := ht i
    have h1 := ht (i + 1)
    have k1 := eds_derivs hp h0
    have hmid : 0 < t i + 1 / 2 * (t (i + 1) - t i) := by linarith
    have k2 := eds_derivs hp hmid
    have k4 : growthDerivs p (t i + (t (i + 1) - t i), 1) (t i + (t (i + 1) - t i)) = (1, 0) :=
      eds_derivs hp (by linarith)
    have e1 : (t i, (1 : ℝ)) + (t (i + 1) - t i) • ((1 / 2 : ℝ) • ((1 : ℝ), (0 : ℝ)))
        = (t i + 1 / 2 * (t (i + 1) - t i), 1) := by
      ext <;> simp; ring
    have e2 : (t i, (1 : ℝ)) + (t (i + 1) - t i) • ((1 : ℝ), (0 : ℝ))
        = (t i + (t (i + 1) - t i), 1) := by
      ext <;> simp
    simp only [k1, e1, k2, e2, k4]
    ext
    · simp; ring
    · simp

theorem interp_logspace_affine {lo : ℝ} (hlo : lo < 0) {n : ℕ} (hn : 2 ≤ n) {f : ℕ → ℝ} (s c : ℝ)
    (hf : ∀ i < n, f i = s * logspace lo 0 n i + c) (x : ℝ) :
    interp n (logspace lo 0 n) f x = s * x + c :=
  C21_affine hn (fun _ _ _ _ h => (logspace_strictMono hlo hn).injective h) s c hf x

theorem readGrowth_id {c : GrowthCache} {lo : ℝ} (hlo : lo < 0) (hn : 2 ≤ c.n)
    (ha : c.a = logspace lo 0 c.n) (hg : ∀ i < c.n, c.g i = logspace lo 0 c.n i) {a : ℝ}
    (h0 : 0 ≤ a) (h1 : a ≤ 1) : readGrowth c a = a := by
  have : interp c.n c.a c.g a = a := by
    rw [ha, interp_logspace_affine hlo hn 1 0 (fun i hi => by rw [hg i hi]; ring)]; ring
  rw [readGrowth, this, clip, max_eq_left h0, min_eq_left h1]

/-- The gamma table when the growth rate is identically one. -/
theorem growthTableGamma_rate_one {p : Params} {γ lo : ℝ} {n : ℕ} (hn : 2 ≤ n)
    (h : ∀ a, 0 < a → growthRateGamma p γ a = 1) (i : ℕ) :
    (growthTableGamma p γ lo n).g i = logspace lo 0 n i := by
  have hrate : (fun (_ : ℝ) (loga : ℝ) => growthRateGamma p γ (Real.exp loga))
      = fun _ x => 1 + 0 * x + 0 * x ^ 2 + 0 * x ^ 3 := by
    funext _ x; rw [h _ (Real.exp_pos x)]; ring
  have hi : ∀ i, Real.exp (odeint (fun (_ : ℝ) loga => growthRateGamma p γ (Real.exp loga))
      (Real.log (logspace lo 0 n 0)) (fun i => Real.log (logspace lo 0 n i)) i)
      = logspace lo 0 n i := by
    intro i
    rw [hrate, C26_cubic_exact]
    simp only [one_mul, zero_mul, zero_div, add_zero]
    rw [add_sub_cancel, Real.exp_log (logspace_pos _ _ _ _)]
  have e : (growthTableGamma p γ lo n).g i
      = Real.exp (odeint (fun (_ : ℝ) loga => growthRateGamma p γ (Real.exp loga))
      (Real.log (logspace lo 0 n 0)) (fun i => Real.log (logspace lo 0 n i)) i) /
        Real.exp (odeint (fun (_ : ℝ) loga => growthRateGamma p γ (Real.exp loga))
      (Real.log (logspace lo 0 n 0)) (fun i => Real.log (logspace lo 0 n i)) (ix n (-1))) := rfl
  rw [e, hi, hi, ix_last, logspace_end lo hn, div_one]

/-- C11: in an Einstein–de Sitter universe `D(a) = a` on `[0, 1]`, in both modes and for every
`gamma`. -/
theorem C11_eds_growth {p : Params} (hp : EdS p) {a : ℝ} (h0 : 0 ≤ a) (h1 : a ≤ 1) :
    growthOf p a = a := by
  cases hg : p.gamma with
  | none =>
    have ht : growthTable p = growthTableODE p (-3) 128 := by simp [growthTable, hg]
    rw [growthOf, ht]
    refine readGrowth_id (lo := -3) (by norm_num) (by norm_num [growthTableODE]) rfl ?_ h0 h1
    intro i _
    change (odeint (growthDerivs p) (logspace (-3) 0 128 0, 1) (logspace (-3) 0 128) i).1 /
      (odeint (growthDerivs p) (logspace (-3) 0 128 0, 1) (logspace (-3) 0 128) (ix 128 (-1))).1
      = logspace (-3) 0 128 i
    rw [eds_odeint hp (logspace_pos _ _ _), eds_odeint hp (logspace_pos _ _ _), ix_last]
    simp only
    rw [logspace_end (-3) (by norm_num), div_one]
  | some γ =>
    have ht : growthTable p = growthTableGamma p γ (-3) 128 := by simp [growthTable, hg]
    rw [growthOf, ht]
    refine readGrowth_id (lo := -3) (by norm_num) (by norm_num [growthTableGamma]) rfl ?_ h0 h1
    intro i _
    exact growthTableGamma_rate_one (by norm_num) (fun a ha => by
      rw [growthRateGamma, eds_Omega_m_a hp ha, Real.one_rpow]) i

/-- C11: in an Einstein–de Sitter universe the growth rate is 1, in both modes. -/
theorem C11_eds_rate {p : Params} (hp : EdS p) {a : ℝ} (ha : 0 < a) : growthRateOf p a = 1 := by
  cases hg : p.gamma with
  | some γ => simp [growthRateOf, hg, growthRateGamma, eds_Omega_m_a hp ha]
  | none =>
    have : growthRateOf p a = interp 128 (logspace (-3) 0 128)
      (fun i => (odeint (growthDerivs p) (logspace (-3) 0 128 0, 1) (logspace (-3) 0 128) i).2 /
        (odeint (growthDerivs p) (logspace (-3) 0 128 0, 1) (logspace (-3) 0 128) (ix 128 (-1))).1
        * logspace (-3) 0 128 i /
        ((odeint (growthDerivs p) (logspace (-3) 0 128 0, 1) (logspace (-3) 0 128) i).1 /
        (odeint (growthDerivs p) (logspace (-3) 0 128 0, 1) (logspace (-3) 0 128)
          (ix 128 (-1))).1)) a := by
      simp only [growthRateOf, hg]; rfl
    rw [this, interp_logspace_affine (by norm_num) (by norm_num) 0 1]
    · ring
    · intro i _
      simp only [eds_odeint hp (logspace_pos _ _ _)]
      have := logspace_pos (-3) 0 128 i
      have h1 := logspace_pos (-3) 0 128 (ix 128 (-1))
      field_simp
      ring

/-- C11: with `gamma = 0`, `D(a) = a` and growth rate 1 in any cosmology. -/
theorem C11_gamma_zero {p : Params} (hg : p.gamma = some 0) :
    (∀ a, 0 ≤ a → a ≤ 1 → growthOf p a = a) ∧ ∀ a, growthRateOf p a = 1 := by
  constructor
  · intro a h0 h1
    have ht : growthTable p = growthTableGamma p 0 (-3) 128 := by simp [growthTable, hg]
    rw [growthOf, ht]
    refine readGrowth_id (lo := -3) (by norm_num) (by norm_num [growthTableGamma]) rfl ?_ h0 h1
    intro i _
    exact growthTableGamma_rate_one (by norm_num) (fun a _ => by simp [growthRateGamma]) i
  · intro a; simp [growthRateOf, hg, growthRateGamma]

example : EdS { Planck15 with Omega_c := 0.95, Omega_b := 0.05, Omega_k := 0 } := by
  norm_num [EdS, Params.Omega_m]

/-! ## C12 -/

/-- C12: the growth rate call with `gamma` returns `Ω_m(a)^γ`, for arrays and scalars, whatever
is in the workspace. -/
theorem C12_call (p : Params) (γ : ℝ) (h : p.gamma = some γ) (o : Cosmology) (hp : o.params = p)
    (hf : o.gammaGrowth = true) (as : List ℝ) :
    (growthRate o (.vec as)).2
      = .ok (as.map fun a => (p.Omega_m / (a ^ 3 * Esqr p a)) ^ γ) := by
  simp only [growthRate, hf, if_true, hp, h]
  congr 1
  refine List.map_congr_left fun a _ => ?_
  rw [growthRateGamma, Omega_m_a, zpow_neg, show a ^ (3 : ℤ) = a ^ 3 by norm_cast]
  congr 1
  rw [← div_eq_mul_inv, div_div]

/-- C12: for `gamma ≥ 0` and non-negative densities with matter present the growth rate lies in
`(0, 1]`. -/
theorem C12_range (p : Params) (γ : ℝ) (hγ : 0 ≤ γ) (h : p.gamma = some γ) (hm : 0 < p.Omega_m)
    (hk : 0 ≤ p.Omega_k) (hde : 0 ≤ p.Omega_de) {a : ℝ} (ha : 0 < a) :
    0 < growthRateOf p a ∧ growthRateOf p a ≤ 1 := by
  have hE := C05_Esqr_pos p a ha hm hk hde
  obtain ⟨⟨m0, m1⟩, -⟩ := C03_fractions_range p a ha hE.ne' hm.le hk hde
  have hpos : 0 < Omega_m_a p a := by unfold Omega_m_a; positivity
  simp only [growthRateOf, h, growthRateGamma]
  exact ⟨Real.rpow_pos_of_pos hpos γ, Real.rpow_le_one m0 m1 hγ⟩

/-- C12: with `gamma` and positive matter density the growth factor never decreases with `a`. -/
theorem C12_mono (p : Params) (γ : ℝ) (h : p.gamma = some γ) (hm : 0 ≤ p.Omega_m)
    (hE : EsqrPos p) : Monotone (growthOf p) := by
  have ht : growthTable p = growthTableGamma p γ (-3) 128 := by simp [growthTable, h]
  have : growthOf p = readGrowth (growthTableGamma p γ (-3) 128) := by funext a; rw [growthOf, ht]
  rw [this]
  refine readGrowth_mono (lo := -3) (by norm_num) (by norm_num [growthTableGamma]) rfl ?_
  intro i hi
  have hi' : i + 1 < 128 := hi
  refine div_le_div_of_nonneg_right (Real.exp_le_exp.mpr ?_) (Real.exp_pos _).le
  change odeint (fun (_ : ℝ) x => growthRateGamma p γ (Real.exp x)) _
    (fun i => Real.log (logspace (-3) 0 128 i)) i ≤
    odeint (fun (_ : ℝ) x => growthRateGamma p γ (Real.exp x)) _
    (fun i => Real.log (logspace (-3) 0 128 i)) (i + 1)
  rw [odeint_panel (fun x => growthRateGamma p γ (Real.exp x)),
    odeint_panel (fun x => growthRateGamma p γ (Real.exp x)), Finset.sum_range_succ, ← add_assoc]
  have hnn : ∀ x, x ≤ 0 → 0 ≤ growthRateGamma p γ (Real.exp x) := by
    intro x hx
    have hE' := hE _ (Real.exp_pos x) (Real.exp_le_one_iff.mpr hx)
    have : 0 < Real.exp x := Real.exp_pos x
    unfold growthRateGamma Omega_m_a
    positivity
  have hle : ∀ j < 128, Real.log (logspace (-3) 0 128 j) ≤ 0 := by
    intro j hj
    apply Real.log_nonpos (logspace_pos _ _ _ _).le
    rw [← logspace_end (-3) (by norm_num : 2 ≤ 128)]
    exact (logspace_strictMono (by norm_num) (by norm_num)).monotone (by omega)
  have hlt := log_logspace_strictMono (lo := -3) (by norm_num) (by norm_num : 2 ≤ 128)
    (Nat.lt_succ_self i)
  have h0 := hle i (by omega)
  have h1 := hle (i + 1) hi'
  have : 0 ≤ panel (fun x => growthRateGamma p γ (Real.exp x))
      (Real.log (logspace (-3) 0 128 i)) (Real.log (logspace (-3) 0 128 (i + 1))) := by
    unfold panel
    have a1 := hnn _ h0
    have a2 := hnn _ h1
    have a3 := hnn ((Real.log (logspace (-3) 0 128 i) + Real.log (logspace (-3) 0 128 (i + 1))) / 2)
      (by linarith)
    simp only at hlt
    have : 0 ≤ (Real.log (logspace (-3) 0 128 (i + 1)) - Real.log (logspace (-3) 0 128 i)) / 6 := by
      have : Real.log (logspace (-3) 0 128 i) < Real.log (logspace (-3) 0 128 (i + 1)) := hlt
      linarith
    exact mul_nonneg this (by linarith)
  linarith

example : 0 < growthRateOf { Planck15 with gamma := some 0.55 } (1 / 2) :=
  (C12_range { Planck15 with gamma := some 0.55 } 0.55 (by norm_num) rfl
    (by norm_num [Planck15, Params.Omega_m]) (by norm_num [Planck15])
    (by norm_num [Planck15, Params.Omega_de, Params.Omega, Params.Omega_m]) (by norm_num)).1

end JaxCosmo
