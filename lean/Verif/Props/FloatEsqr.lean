import Verif.Model.FloatBackground
import Verif.Proofs.FloatGrid

/-!
# C164: the expansion rate in floating point

The energy budget closes: `Ω_m + Ω_k + Ω_de = 1`, so that the expansion rate today is the Hubble constant.  In exact
arithmetic this is immediate.  In floating point `Ω_de` is computed by subtraction and the budget is added up again.
-/

namespace JaxCosmo

/-- What is asked of the library today: the values that are exact are returned exactly. -/
structure Elem.Today (L : Elem) : Prop where
  log : L.log 1 = 0
  exp : L.exp 0 = 1
  sqrt : L.sqrt 1 = 1
  pow : ∀ n, L.pow 1 n = 1

/-- Every value of the library is within `q` roundings. -/
structure Elem.Accurate (L : Elem) (A : Rounding) (q : ℕ) : Prop where
  exp : ∀ x, Near A.u q (Real.exp x) (L.exp x) (Real.exp x)
  log : ∀ a, 0 < a → Near A.u q |Real.log a| (L.log a) (Real.log a)
  sqrt : ∀ x, 0 ≤ x → Near A.u q (Real.sqrt x) (L.sqrt x) (Real.sqrt x)
  pow : ∀ a n, 0 < a → Near A.u q (a ^ n) (L.pow a n) (a ^ n)

theorem elem_today (A : Rounding) : A.elem.Today where
  log := by simp [Rounding.elem, A.zero]
  exp := by simp [Rounding.elem, A.one]
  sqrt := by simp [Rounding.elem, A.one]
  pow n := by simp [Rounding.elem, A.one]

theorem near_rd_nonneg {A : Rounding} {x : ℝ} (hx : 0 ≤ x) : Near A.u 1 x (A.rd x) x := by
  have := (Near.self (A := A) x).rd
  rwa [abs_of_nonneg hx] at this

theorem elem_accurate (A : Rounding) : A.elem.Accurate A 1 where
  exp x := near_rd_nonneg (Real.exp_pos x).le
  log _ _ := (Near.self (A := A) _).rd
  sqrt x _ := near_rd_nonneg (Real.sqrt_nonneg x)
  pow _ n ha := near_rd_nonneg (zpow_pos ha n).le

variable {A : Rounding} {L : Elem} {P : Params} {q : ℕ} {a δ : ℝ}

/-- With exact operations these are the functions of the exact model. -/
theorem C164_exact (P : Params) (x : ℝ) :
    EsqrF exactArith exactArith.elem P x = Esqr P x ∧ HF exactArith exactArith.elem P x = H P x ∧
      Omega_m_aF exactArith exactArith.elem P x = Omega_m_a P x ∧
      Omega_de_aF exactArith exactArith.elem P x = Omega_de_a P x ∧
      dchioverdaF exactArith exactArith.elem P x = dchioverda P x ∧
      dchioverdlnaF exactArith exactArith.elem P x = dchioverda P (Real.exp x) * Real.exp x := by
  refine ⟨rfl, rfl, rfl, rfl, ?_, ?_⟩
  · change const_rh / (x * x * _) = const_rh / (x ^ 2 * _)
    rw [sq]; rfl
  · change const_rh / (Real.exp x * Real.exp x * _) * _ = const_rh / (Real.exp x ^ 2 * _) * _
    rw [sq]; rfl

/-! ### Today -/

theorem f_deF_today (hL : L.Today) : f_deF A L P 1 = 0 := by
  simp [f_deF, Rounding.add, Rounding.mul, Rounding.sub, hL.log, A.zero]

/-- C164: in a flat universe the budget closes exactly, in any binary format, whatever the densities and the equation of
state: the expansion rate today is the Hubble constant and the densities today are those given. -/
theorem C164_flat {p : ℕ} (hp : 5 ≤ p) (hL : L.Today) (hk : P.Omega_k = 0) (h0 : 0 ≤ P.Omega_b + P.Omega_c)
    (h2 : P.Omega_b + P.Omega_c ≤ 2) :
    EsqrF (binary p (by omega)) L P 1 = 1 ∧ HF (binary p (by omega)) L P 1 = 100 ∧
      Omega_m_aF (binary p (by omega)) L P 1 = P.OmegaMF (binary p (by omega)) ∧
      Omega_de_aF (binary p (by omega)) L P 1 = P.OmegaDeF (binary p (by omega)) := by
  set A := binary p (by omega) with hA
  have hrd : ∀ x, A.rd x = roundBinary p x := fun _ => rfl
  have hfix : ∀ x, A.rd (A.rd x) = A.rd x := fun x => by rw [hrd, hrd]; exact roundBinary_fixed (by omega) x
  set m := P.OmegaMF A with hm
  have hmr : m = A.rd (P.Omega_b + P.Omega_c) := rfl
  have hmf : A.rd m = m := by rw [hmr]; exact hfix _
  have hm0 : 0 ≤ m := by rw [hmr]; exact A.nonneg h0
  have two : A.rd 2 = 2 := by
    have := roundBinary_dyadic (p := p) (n := 1) (by
      rw [abs_one]; exact_mod_cast Nat.one_lt_two_pow (by omega)) 1
    rw [hrd]; simpa using this
  have hm2 : m ≤ 2 := by rw [hmr, ← two]; exact A.mono h2
  have hd : P.OmegaDeF A = A.rd (1 - m) := by
    change A.rd (A.rd (1 - P.Omega_k) - m) = _
    rw [hk, sub_zero, A.one]
  have hE : EsqrF A L P 1 = 1 := by
    change A.rd (A.rd (A.rd (m * L.pow 1 (-3)) + A.rd (P.Omega_k * L.pow 1 (-2)))
      + A.rd (P.OmegaDeF A * L.exp (f_deF A L P 1))) = 1
    rw [f_deF_today hL, hL.exp, hL.pow, hL.pow, hk, hd, mul_one, mul_one, mul_one, A.zero, add_zero, hmf, hmf, hfix]
    exact closure_one (by omega) hmf hm0 hm2
  refine ⟨hE, ?_, ?_, ?_⟩
  · change A.rd (const_H0 * L.sqrt (EsqrF A L P 1)) = 100
    rw [hE, hL.sqrt, mul_one, const_H0, hrd]
    have := roundBinary_dyadic (p := p) (n := 25) (by
      have : (2 : ℤ) ^ 5 ≤ 2 ^ p := pow_le_pow_right₀ (by norm_num) hp
      norm_num at this ⊢; linarith) 2
    norm_num at this
    exact this
  · change A.rd (A.rd (m * L.pow 1 (-3)) / EsqrF A L P 1) = m
    rw [hE, hL.pow, mul_one, div_one, hfix, hmf]
  · change A.rd (A.rd (P.OmegaDeF A * L.exp (f_deF A L P 1)) / EsqrF A L P 1) = _
    rw [hE, f_deF_today hL, hL.exp, mul_one, div_one, hfix, hd, hfix]

/-- A flat universe with a quarter of matter, in single precision. -/
example : ∃ P : Params, P.Omega_k = 0 ∧ P.Omega_b + P.Omega_c = 1 / 4 ∧ EsqrF float32 float32.elem P 1 = 1 :=
  ⟨⟨1 / 5, 1 / 20, 1, 1, 1, 0, -1, 0, none⟩, rfl, by norm_num,
    (C164_flat (p := 24) (by norm_num) (elem_today _) rfl (by norm_num) (by norm_num)).1⟩

/-! ### Any scale factor -/

/-- The magnitudes that enter `f_de`. -/
noncomputable def deScale (P : Params) (a : ℝ) : ℝ :=
  (|(-3 : ℝ)| * (|(1 : ℝ)| + |P.w0| + |P.wa|)) * |Real.log a| + (|(3 : ℝ)| * |P.wa|) * |a - 1|

/-- C164: the exponent of the dark energy is off by at most `q + 5` roundings of the magnitudes that enter. -/
theorem C164_exponent (hL : L.Accurate A q) (P : Params) (ha : 0 < a) :
    |f_deF A L P a - f_de P a| ≤ ((1 + A.u) ^ (q + 5) - 1) * deScale P a := by
  have s : ∀ x : ℝ, Near A.u 0 |x| x x := Near.self
  have h1 := ((s 1).add (s P.w0)).add ((s P.wa).mono (by omega))
  have h2 := ((s (-3)).mul h1).mul (hL.log a ha)
  have h3 := ((s 3).mul (s P.wa)).mul ((s (a - 1)).rd)
  have h4 := (h2.mono (by omega : _ ≤ q + 4)).add (h3.mono (by omega : _ ≤ q + 4))
  exact h4.1

/-- C164: for a cosmological constant the exponent is exactly zero. -/
theorem C164_constant (hw : P.w0 = -1) (hwa : P.wa = 0) : f_deF A L P a = 0 ∧ f_de P a = 0 := by
  constructor
  · simp [f_deF, Rounding.add, Rounding.mul, hw, hwa, A.zero]
  · simp [f_de, hw, hwa]

/-- The magnitudes that enter `Esqr`. -/
noncomputable def rateScale (P : Params) (a : ℝ) : ℝ :=
  (|P.Omega_b| + |P.Omega_c|) * a ^ (-3 : ℤ) + |P.Omega_k| * a ^ (-2 : ℤ)
    + (1 + |P.Omega_k| + (|P.Omega_b| + |P.Omega_c|)) * Real.exp (f_de P a)

/-- C164: the square of the expansion rate is off by at most `q + 4` roundings of the magnitudes that enter, times the
error of the exponent of the dark energy. -/
theorem C164_rate (hL : L.Accurate A q) (P : Params) (ha : 0 < a) (hf : |f_deF A L P a - f_de P a| ≤ δ) :
    |EsqrF A L P a - Esqr P a| ≤ ((1 + A.u) ^ (q + 4) * Real.exp δ - 1) * rateScale P a := by
  have g1 : ∀ k, 1 ≤ (1 + A.u) ^ k := one_le_growth
  have hu := A.u_nonneg
  have hδ : 1 ≤ Real.exp δ := Real.one_le_exp ((abs_nonneg _).trans hf)
  have s : ∀ x : ℝ, Near A.u 0 |x| x x := Near.self
  have hm := (s P.Omega_b).add (s P.Omega_c)
  have hd : Near A.u 2 _ (P.OmegaDeF A) P.Omega_de := ((s 1).sub (s P.Omega_k)).sub hm
  have t1 := hm.mul (hL.pow a (-3) ha)
  have t2 := (s P.Omega_k).mul (hL.pow a (-2) ha)
  have t12 := t1.add (t2.mono (by omega))
  have he : Within ((1 + A.u) ^ q * Real.exp δ) _ (L.exp (f_deF A L P a)) (Real.exp (f_de P a)) :=
    Within.exp hf (hL.exp _) (g1 q)
  have t3 := ((show Within ((1 + A.u) ^ 2) _ _ _ from hd).prod he (g1 2)).rd (A := A)
  have e3 : (1 + A.u) ^ 2 * ((1 + A.u) ^ q * Real.exp δ) * (1 + A.u) = (1 + A.u) ^ (q + 3) * Real.exp δ := by ring
  rw [e3] at t3
  have t12' : Within ((1 + A.u) ^ (q + 3) * Real.exp δ) _ _ _ :=
    Within.mono (show Within ((1 + A.u) ^ (0 + 0 + 1 + q + 1 + 1)) _ _ _ from t12) (by
      rw [show 0 + 0 + 1 + q + 1 + 1 = q + 3 by omega]
      nlinarith [g1 (q + 3)])
  have t := (t12'.sum t3).rd (A := A)
  have e4 : (1 + A.u) ^ (q + 3) * Real.exp δ * (1 + A.u) = (1 + A.u) ^ (q + 4) * Real.exp δ := by ring
  rw [e4, abs_one] at t
  exact t.1

/-- A quarter of matter and a cosmological constant at half the present size, with the best possible library. -/
example : |EsqrF float32 float32.elem ⟨1 / 5, 1 / 20, 1, 1, 1, 0, -1, 0, none⟩ (1 / 2) - 11 / 4| ≤ 2 / 10 ^ 6 := by
  have h := C164_rate (elem_accurate float32) ⟨1 / 5, 1 / 20, 1, 1, 1, 0, -1, 0, none⟩ (a := 1 / 2) (δ := 0) (by norm_num)
    (by rw [(C164_constant rfl rfl).1, (C164_constant (A := float32) (L := float32.elem) rfl rfl).2]; simp)
  have e : Esqr ⟨1 / 5, 1 / 20, 1, 1, 1, 0, -1, 0, none⟩ (1 / 2) = 11 / 4 := by
    norm_num [Esqr, f_de, Params.Omega_m, Params.Omega_de, Params.Omega]
  have e' : rateScale ⟨1 / 5, 1 / 20, 1, 1, 1, 0, -1, 0, none⟩ (1 / 2) = 13 / 4 := by
    norm_num [rateScale, f_de, abs_of_pos]
  rw [e, e'] at h
  refine h.trans ?_
  rw [show float32.u = 1 / 2 ^ 24 from rfl, Real.exp_zero]
  norm_num

/-- C164: with curvature the budget closes up to four roundings. -/
theorem C164_today_partial (hL : L.Today) (P : Params) :
    |EsqrF A L P 1 - 1| ≤ ((1 + A.u) ^ 4 - 1) * (1 + 2 * |P.Omega_k| + 2 * (|P.Omega_b| + |P.Omega_c|)) := by
  have s : ∀ x : ℝ, Near A.u 0 |x| x x := Near.self
  have hm := (s P.Omega_b).add (s P.Omega_c)
  have hd : Near A.u 2 _ (P.OmegaDeF A) P.Omega_de := ((s 1).sub (s P.Omega_k)).sub hm
  have t := ((hm.rd.add ((s P.Omega_k).rd.mono (by omega))).add hd.rd)
  have e : EsqrF A L P 1 = A.add (A.add (A.rd (A.add P.Omega_b P.Omega_c)) (A.rd P.Omega_k)) (A.rd (P.OmegaDeF A)) := by
    simp only [EsqrF, f_deF_today hL, hL.exp, hL.pow, Rounding.mul, mul_one, Params.OmegaMF]
  rw [e]
  have t1 := t.1
  rw [abs_one] at t1
  have e1 : P.Omega_b + P.Omega_c + P.Omega_k + P.Omega_de = 1 := by
    simp only [Params.Omega_de, Params.Omega, Params.Omega_m]; ring
  rw [e1] at t1
  refine t1.trans (le_of_eq ?_)
  ring

/-- The budget closes: for all densities that the format holds the square of the expansion rate today is one. -/
def BudgetCloses (A : Rounding) (L : Elem) : Prop := ∀ P : Params, A.rd P.Omega_b = P.Omega_b → A.rd P.Omega_c = P.Omega_c →
  A.rd P.Omega_k = P.Omega_k → 0 < P.Omega_b → 0 < P.Omega_c → P.Omega_b + P.Omega_c < 1 → |P.Omega_k| < 1 →
  EsqrF A L P 1 = 1

/-- C164: with curvature the budget need not close.  With a quarter of matter and `Ω_k = -2 ^ -p` the curvature is
rounded off in `Ω = 1 - Ω_k` but not when the budget is added up. -/
theorem C164_curved {p : ℕ} (hp : 4 ≤ p) (hL : L.Today) (hb : P.Omega_b = 1 / 16) (hc : P.Omega_c = 3 / 16)
    (hk : P.Omega_k = -(1 / 2 ^ p)) : EsqrF (binary p (by omega)) L P 1 = 1 - 1 / 2 ^ p := by
  set A := binary p (by omega) with hA
  have hrd : ∀ x, A.rd x = roundBinary p x := fun _ => rfl
  obtain ⟨r, rfl⟩ : ∃ r, p = r + 2 := ⟨p - 2, by omega⟩
  have h2p : (2 : ℤ) ^ 4 ≤ 2 ^ (r + 2) := pow_le_pow_right₀ (by norm_num) hp
  have h2p' : (16 : ℝ) ≤ 2 ^ (r + 2) := by exact_mod_cast h2p
  have dy : ∀ (n : ℤ) (e : ℤ) (x : ℝ), |n| < 2 ^ (r + 2) → x = n * 2 ^ e → A.rd x = x := fun n e x hn hx => by
    rw [hx, hrd]; exact roundBinary_dyadic hn e
  have q1 : A.rd (1 / 4) = 1 / 4 := dy 1 (-2) _ (by rw [abs_one]; linarith) (by norm_num)
  have q2 : A.rd (3 / 4) = 3 / 4 := dy 3 (-2) _ (by norm_num; linarith) (by norm_num)
  have hm : P.OmegaMF A = 1 / 4 := by
    change A.rd (P.Omega_b + P.Omega_c) = _
    rw [hb, hc, show (1 / 16 + 3 / 16 : ℝ) = 1 / 4 by norm_num, q1]
  have hO : P.OmegaF A = 1 := by
    change A.rd (1 - P.Omega_k) = 1
    rw [hk, sub_neg_eq_add, hrd]
    -- a tie, resolved to the even neighbour
    have hl := log_two_one (x := 1 + 1 / 2 ^ (r + 2)) (by
      have : (0 : ℝ) < 1 / 2 ^ (r + 2) := by positivity
      linarith) (by
      have : (1 : ℝ) / 2 ^ (r + 2) ≤ 1 / 16 := one_div_le_one_div_of_le (by norm_num) h2p'
      linarith)
    simp only [roundBinary]
    rw [hl]
    have es : (2 : ℝ) ^ (((r + 2 : ℕ) : ℤ) - 1 - 0) = 2 ^ (r + 1) := by
      rw [show ((r + 2 : ℕ) : ℤ) - 1 - 0 = ((r + 1 : ℕ) : ℤ) by push_cast; ring, zpow_natCast]
    have ex : (1 + 1 / 2 ^ (r + 2) : ℝ) * 2 ^ (r + 1) = ((2 ^ (r + 1) : ℤ) : ℝ) + 1 / 2 := by
      push_cast; rw [pow_succ 2 (r + 1)]; field_simp
    have hfl : ⌊((2 ^ (r + 1) : ℤ) : ℝ) + 1 / 2⌋ = 2 ^ (r + 1) := by
      rw [Int.floor_eq_iff]; constructor <;> push_cast <;> linarith
    have hfr : Int.fract (((2 ^ (r + 1) : ℤ) : ℝ) + 1 / 2) = 1 / 2 := by
      rw [Int.fract, hfl]; ring
    have hev : Even ((2 : ℤ) ^ (r + 1)) := Int.even_pow.2 ⟨even_two, by omega⟩
    rw [es, ex, roundEven, hfr, hfl, if_neg (by norm_num), if_neg (by norm_num), if_pos hev]
    push_cast
    rw [div_self (by positivity)]
  have hd : P.OmegaDeF A = 3 / 4 := by
    change A.rd (P.OmegaF A - P.OmegaMF A) = _
    rw [hO, hm, show (1 - 1 / 4 : ℝ) = 3 / 4 by norm_num, q2]
  have hkr : A.rd P.Omega_k = P.Omega_k := dy (-1) (-((r + 2 : ℕ) : ℤ)) _ (by norm_num; linarith) (by
    rw [hk, zpow_neg, zpow_natCast]; push_cast; ring)
  change A.rd (A.rd (A.rd (P.OmegaMF A * L.pow 1 (-3)) + A.rd (P.Omega_k * L.pow 1 (-2)))
      + A.rd (P.OmegaDeF A * L.exp (f_deF A L P 1))) = _
  rw [f_deF_today hL, hL.exp, hL.pow, hL.pow, hm, hd, mul_one, mul_one, mul_one, q1, q2, hkr, hk]
  have hr1 : (1 : ℤ) ≤ 2 ^ r := one_le_pow₀ (by norm_num)
  have s1 : A.rd (1 / 4 + -(1 / 2 ^ (r + 2))) = 1 / 4 + -(1 / 2 ^ (r + 2)) :=
    dy (2 ^ r - 1) (-((r + 2 : ℕ) : ℤ)) _ (by
      rw [abs_of_nonneg (by linarith), pow_add]; linarith) (by
      rw [zpow_neg, zpow_natCast]; push_cast; rw [pow_add]; field_simp; ring)
  have s2 : A.rd (1 / 4 + -(1 / 2 ^ (r + 2)) + 3 / 4) = 1 - 1 / 2 ^ (r + 2) := by
    rw [show (1 / 4 + -(1 / 2 ^ (r + 2)) + 3 / 4 : ℝ) = 1 - 1 / 2 ^ (r + 2) by ring]
    exact dy (2 ^ (r + 2) - 1) (-((r + 2 : ℕ) : ℤ)) _ (by
      rw [abs_of_nonneg (by linarith)]; linarith) (by
      rw [zpow_neg, zpow_natCast]; push_cast; field_simp)
  rw [s1, s2]

/-- C164: the budget does not close in single precision, however good the library, though it does in exact arithmetic. -/
theorem C164_refuted : (∀ L : Elem, L.Today → ¬ BudgetCloses float32 L) ∧
    ∀ P : Params, Esqr P 1 = 1 := by
  refine ⟨fun L hL h => ?_, fun P => ?_⟩
  · have dy : ∀ (n : ℤ) (e : ℤ) (x : ℝ), |n| < 2 ^ 24 → x = n * 2 ^ e → float32.rd x = x := fun n e x hn hx => by
      rw [hx]; exact roundBinary_dyadic hn e
    have e := h ⟨3 / 16, 1 / 16, 1, 1, 1, -(1 / 2 ^ 24), -1, 0, none⟩ (dy 1 (-4) _ (by norm_num) (by norm_num))
      (dy 3 (-4) _ (by norm_num) (by norm_num)) (dy (-1) (-24) _ (by norm_num) (by norm_num)) (by norm_num)
      (by norm_num) (by norm_num) (by norm_num)
    have e' := C164_curved (P := ⟨3 / 16, 1 / 16, 1, 1, 1, -(1 / 2 ^ 24), -1, 0, none⟩) (p := 24) (by norm_num) hL rfl rfl rfl
    have : (1 : ℝ) = 1 - 1 / 2 ^ 24 := e.symm.trans e'
    norm_num at this
  · simp [Esqr, f_de, Params.Omega_de, Params.Omega]; ring

end JaxCosmo
