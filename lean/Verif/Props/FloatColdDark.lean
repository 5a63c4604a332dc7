import Verif.Props.FloatSpectrum

/-! # C178: accuracy of the transfer function of cold dark matter in floating point -/

namespace JaxCosmo
variable {A : Rounding} {L : Elem} {powr : ℝ → ℝ → ℝ}

/-- A power between one and two at most doubles relative errors. -/
theorem Rel.rpow {k : ℕ} {y x e : ℝ} (h : Rel A k y x) (hx : 0 ≤ x) (e1 : 1 ≤ e) (e2 : e ≤ 2) (hg : (1 + A.u) ^ k ≤ 3 / 2) :
    Rel A (2 * k) (y ^ e) (x ^ e) := by
  refine ⟨?_, (abs_of_nonneg (Real.rpow_nonneg hx e)).le⟩
  rcases eq_or_lt_of_le hx with h0 | x0
  · have : y = 0 := by
      have := h.1
      rw [← h0, mul_zero, sub_zero] at this
      exact abs_nonpos_iff.1 this
    rw [this, ← h0, sub_self, abs_zero, Real.zero_rpow (by linarith), mul_zero]
  · have g1 := one_le_growth (A := A) k
    rw [pow_mul', pow_two]
    have hb := abs_le.1 h.1
    have y0 := h.pos x0 hg
    set g := (1 + A.u) ^ k
    obtain ⟨r, hr⟩ : ∃ r, r = y / x := ⟨_, rfl⟩
    have r0 : 0 < r := hr ▸ div_pos y0 x0
    have hy : y = r * x := by rw [hr, div_mul_cancel₀ _ x0.ne']
    have r1 : r ≤ g := by rw [hr, div_le_iff₀ x0]; linarith
    have r2 : 2 - g ≤ r := by rw [hr, le_div_iff₀ x0]; linarith
    rw [hy, Real.mul_rpow r0.le hx, ← sub_one_mul, abs_mul, abs_of_pos (Real.rpow_pos_of_pos x0 e)]
    refine mul_le_mul_of_nonneg_right ?_ (Real.rpow_nonneg hx e)
    have up : r ^ e ≤ g * g := by
      calc r ^ e ≤ g ^ e := Real.rpow_le_rpow r0.le r1 (by linarith)
        _ ≤ g ^ (2 : ℝ) := Real.rpow_le_rpow_of_exponent_le g1 e2
        _ = g * g := by rw [Real.rpow_two, pow_two]
    have lo : 2 - g * g ≤ r ^ e := by
      rcases le_total 1 r with h1 | h1
      · have := Real.one_le_rpow h1 (by linarith : 0 ≤ e)
        nlinarith
      · calc 2 - g * g ≤ (2 - g) * (2 - g) := by nlinarith [mul_self_nonneg (1 - g)]
          _ ≤ r * r := mul_self_le_mul_self (by linarith) r2
          _ = r ^ (2 : ℝ) := by rw [Real.rpow_two, pow_two]
          _ ≤ r ^ e := Real.rpow_le_rpow_of_exponent_ge r0 h1 e2
    rw [abs_le]
    constructor <;> linarith

/-- The fit of Eisenstein & Hu for the transfer function without baryons, as a function of the scaled wavenumber. -/
noncomputable def coldT (alpha beta q : ℝ) : ℝ :=
  Real.log (Real.exp 1 + 1.8 * beta * q) / (Real.log (Real.exp 1 + 1.8 * beta * q) + (14.2 / alpha + 386 / (1 + 69.9 * q ^ (1.08 : ℝ))) * q ^ 2)

/-- The exact model is this fit. -/
theorem C178_fit (p : Params) (k alpha beta : ℝ) : EH.T_tilde p k alpha beta = coldT alpha beta (k / (13.41 * EH.k_eq p)) := by
  simp only [EH.T_tilde, coldT, pow_two, mul_assoc]

/-- The power as the library computes it, at one argument; its exponent is the nearest number to 1.08. -/
def PowNear (A : Rounding) (powr : ℝ → ℝ → ℝ) (s : ℕ) (q : ℝ) : Prop := Rel A s (powr q (A.rd 1.08)) (q ^ (1.08 : ℝ))

/-- The scaled wavenumber as computed. -/
noncomputable def coldQ (A : Rounding) (keq k : ℝ) : ℝ := A.div k (A.mul (A.rd 13.41) keq)

/-- C178: accuracy of one transfer function of cold dark matter. -/
theorem C178_tilde {s : ℕ} (hlog : ∀ x, 0 < x → Near A.u s |Real.log x| (L.log x) (Real.log x)) (hexp : Rel A s (L.exp 1) (Real.exp 1))
    (hg : (1 + A.u) ^ (3 * s + 42) ≤ 3 / 2) {keq k alpha beta : ℝ} (hq : 0 < keq) (hk : 0 ≤ k) (ha : 0 < alpha) (hb : 0 ≤ beta)
    (hpow : PowNear A powr s (coldQ A keq k)) :
    Rel A (9 * s + 103) (tildeF A L powr keq k alpha beta) (coldT alpha beta (k / (13.41 * keq))) := by
  have small : ∀ {n : ℕ}, n ≤ 3 * s + 42 → (1 + A.u) ^ n ≤ 3 / 2 := fun hn =>
    (pow_le_pow_right₀ (by linarith [A.u_nonneg]) hn).trans hg
  have hq0 : Rel A 5 (A.div k (A.mul (A.rd 13.41) keq)) (k / (13.41 * keq)) :=
    (Rel.refl hk).div (by positivity) ((Rel.const (by norm_num)).mul (Rel.refl hq.le) (n := 2) le_rfl) (small (by omega)) (by norm_num)
  have q0 : 0 ≤ k / (13.41 * keq) := by positivity
  have hp : Rel A (s + 10) (powr (A.div k (A.mul (A.rd 13.41) keq)) (A.rd 1.08)) ((k / (13.41 * keq)) ^ (1.08 : ℝ)) :=
    Near.trans_rel hpow (hq0.rpow q0 (by norm_num) (by norm_num) (small (by omega)))
  simp only [tildeF]
  set q' := A.div k (A.mul (A.rd 13.41) keq)
  set q := k / (13.41 * keq)
  have hx := hexp.add ((((Rel.const (A := A) (by norm_num : (0 : ℝ) ≤ 1.8)).mul (Rel.refl hb) (n := 2) le_rfl).mul hq0 (n := 8) le_rfl)) (n := s + 9) (by omega)
  have xe : Real.exp 1 ≤ Real.exp 1 + 1.8 * beta * q := by linarith [(by positivity : 0 ≤ 1.8 * beta * q)]
  have hl := Rel.libLog hlog hx xe (small (by omega)) (n := 3 * s + 18) (by omega)
  have l1 : 1 ≤ Real.log (Real.exp 1 + 1.8 * beta * q) := by
    rw [Real.le_log_iff_exp_le ((Real.exp_pos 1).trans_le xe)]; exact xe
  have r0 : 0 ≤ q ^ (1.08 : ℝ) := Real.rpow_nonneg q0 _
  have hD := ((((Rel.const (A := A) (by norm_num : (0 : ℝ) ≤ 14.2)).div ha (Rel.refl ha.le) (small (by omega)) (n := 2) le_rfl).add
    ((Rel.const (A := A) (by norm_num : (0 : ℝ) ≤ 386)).div (by positivity : 0 < 1 + 69.9 * q ^ (1.08 : ℝ)) ((Rel.refl (A := A) zero_le_one).add
      ((Rel.const (A := A) (by norm_num : (0 : ℝ) ≤ 69.9)).mul hp (n := s + 12) (by omega)) (n := s + 13) (by omega)) (small (by omega)) (n := 2 * s + 28) (by omega))
      (n := 2 * s + 29) (by omega)).mul hq0 (n := 2 * s + 35) (by omega)).mul hq0 (n := 2 * s + 41) (by omega)
  have hden := hl.add hD (n := 3 * s + 42) (by omega)
  have hpos : 0 < Real.log (Real.exp 1 + 1.8 * beta * q) + (14.2 / alpha + 386 / (1 + 69.9 * q ^ (1.08 : ℝ))) * q * q := by positivity
  have := hl.div hpos hden (small le_rfl) (n := 9 * s + 103) (by omega)
  rw [mul_assoc _ q q, ← pow_two] at this
  exact this

/-- Without baryons more is left of the power. -/
theorem coldT_le {alpha beta q : ℝ} (ha : 0 < alpha) (a1 : alpha ≤ 1) (hb : 0 ≤ beta) (q0 : 0 ≤ q) : 0 < coldT alpha beta q ∧ coldT alpha beta q ≤ coldT 1 beta q := by
  have xe : Real.exp 1 ≤ Real.exp 1 + 1.8 * beta * q := by linarith [(by positivity : 0 ≤ 1.8 * beta * q)]
  have l1 : 1 ≤ Real.log (Real.exp 1 + 1.8 * beta * q) := by
    rw [Real.le_log_iff_exp_le ((Real.exp_pos 1).trans_le xe)]; exact xe
  have r0 : 0 ≤ q ^ (1.08 : ℝ) := Real.rpow_nonneg q0 _
  have c : (14.2 : ℝ) / 1 ≤ 14.2 / alpha := div_le_div_of_nonneg_left (by norm_num) ha a1
  have c0 : 0 ≤ (14.2 / alpha + 386 / (1 + 69.9 * q ^ (1.08 : ℝ))) * q ^ 2 := by positivity
  have c1 : 0 ≤ (14.2 / 1 + 386 / (1 + 69.9 * q ^ (1.08 : ℝ))) * q ^ 2 := by positivity
  refine ⟨div_pos (by linarith) (by linarith), div_le_div_of_nonneg_left (by linarith) (by linarith) ?_⟩
  exact add_le_add le_rfl (mul_le_mul_of_nonneg_right (add_le_add c le_rfl) (sq_nonneg q))

/-- The transfer function of cold dark matter next to baryons. -/
noncomputable def coldMix (keq sh alpha beta k : ℝ) : ℝ :=
  let f := 1 / (1 + (k * sh / 5.4) ^ 4)
  f * coldT 1 beta (k / (13.41 * keq)) + (1 - f) * coldT alpha beta (k / (13.41 * keq))

/-- C178: accuracy of the transfer function of cold dark matter; the cancellation in `1 - f` does no harm. -/
theorem C178_cdm {s : ℕ} (hlog : ∀ x, 0 < x → Near A.u s |Real.log x| (L.log x) (Real.log x)) (hexp : Rel A s (L.exp 1) (Real.exp 1))
    (hg : (1 + A.u) ^ (3 * s + 42) ≤ 3 / 2) {keq sh k alpha beta : ℝ} (hq : 0 < keq) (hs : 0 ≤ sh) (hk : 0 ≤ k) (ha : 0 < alpha) (a1 : alpha ≤ 1) (hb : 0 ≤ beta)
    (hpow : PowNear A powr s (coldQ A keq k)) :
    Rel A (27 * s + 441) (cdmF A L powr keq sh alpha beta k) (coldMix keq sh alpha beta k) := by
  have small : ∀ {n : ℕ}, n ≤ 3 * s + 42 → (1 + A.u) ^ n ≤ 3 / 2 := fun hn =>
    (pow_le_pow_right₀ (by linarith [A.u_nonneg]) hn).trans hg
  have hx : Rel A 4 (A.div (A.mul k sh) (A.rd 5.4)) (k * sh / 5.4) :=
    ((Rel.refl hk).mul (Rel.refl hs) (n := 1) le_rfl).div (by norm_num) (Rel.const (by norm_num)) (small (by omega)) le_rfl
  have h4 : Rel A 19 (pow4F A (A.div (A.mul k sh) (A.rd 5.4))) ((k * sh / 5.4) ^ 4) := by
    have := (hx.sq (n := 9) le_rfl).sq (n := 19) le_rfl
    rwa [← pow_mul] at this
  have y0 : 0 ≤ (k * sh / 5.4) ^ 4 := by positivity
  have hf : Rel A 41 (A.div 1 (A.add 1 (pow4F A (A.div (A.mul k sh) (A.rd 5.4))))) (1 / (1 + (k * sh / 5.4) ^ 4)) :=
    (Rel.refl zero_le_one).div (by positivity) ((Rel.refl zero_le_one).add h4 (n := 20) (by norm_num)) (small (by omega)) (by norm_num)
  have f0 : 0 ≤ 1 / (1 + (k * sh / 5.4) ^ 4) := by positivity
  have f1 : 1 / (1 + (k * sh / 5.4) ^ 4) ≤ 1 := (div_le_one (by positivity)).2 (by linarith)
  have t1 := C178_tilde hlog hexp hg hq hk one_pos hb hpow
  have t2 := C178_tilde hlog hexp hg hq hk ha hb hpow
  have hle := coldT_le ha a1 hb (by positivity : 0 ≤ k / (13.41 * keq))
  simp only [cdmF, coldMix]
  generalize A.div 1 (A.add 1 (pow4F A (A.div (A.mul k sh) (A.rd 5.4)))) = f' at hf
  generalize 1 / (1 + (k * sh / 5.4) ^ 4) = f at hf f0 f1
  generalize coldT 1 beta (k / (13.41 * keq)) = T1 at t1 hle
  generalize coldT alpha beta (k / (13.41 * keq)) = T2 at t2 hle
  have h1 : Rel A (9 * s + 146) _ _ := hf.mul t1 (by omega)
  have hn : Near A.u 42 (1 + f) (A.sub 1 f') (1 - f) := Near.sub ((Rel.refl zero_le_one).mono (Nat.zero_le 41)) hf
  have h2 : Near A.u (9 * s + 146) ((1 + f) * T2) _ _ := (Near.mul hn t2).mono (by omega)
  have v0 : 0 ≤ f * T1 + (1 - f) * T2 := add_nonneg (mul_nonneg f0 (hle.1.le.trans hle.2)) (mul_nonneg (by linarith) hle.1.le)
  refine (Rel.of_triple (Near.add h1 h2) ?_ v0).mono (by omega)
  nlinarith [mul_le_mul_of_nonneg_left hle.2 f0, mul_nonneg (sub_nonneg.2 f1) hle.1.le, hle.1]

/-- C178: this is the function of the exact model. -/
theorem C178_mix (p : Params) (k : ℝ) : EH.Tc p k = coldMix (EH.k_eq p) (EH.sh_d p) (EH.alpha_c p) (EH.beta_c p) k := by
  simp only [EH.Tc, coldMix, C178_fit]

/-- Single precision: the transfer function of cold dark matter is good to three parts in a hundred thousand. -/
example {k : ℝ} (hk : 0 ≤ k) :
    |cdmF float32 float32.elem (fun x _ => float32.rd (x ^ (1.08 : ℝ))) 0.015 100 0.9 1.1 k - coldMix 0.015 100 0.9 1.1 k| ≤ 3e-5 * coldMix 0.015 100 0.9 1.1 k :=
  have hg : ∀ n : ℕ, n ≤ 480 → (1 + float32.u) ^ n ≤ 1 + 3e-5 := fun n hn => float32_growth (m := 480) (by norm_num) hn (by norm_num)
  have q0 : 0 ≤ coldQ float32 0.015 k := float32.nonneg (div_nonneg hk (float32.nonneg (mul_nonneg (float32.nonneg (by norm_num)) (by norm_num))))
  Rel.le (C178_cdm (s := 1) rounded_log (Rel.const (Real.exp_pos 1).le) ((hg _ (by norm_num)).trans (by norm_num)) (by norm_num) (by norm_num) hk (by norm_num)
    (by norm_num) (by norm_num) (Rel.const (Real.rpow_nonneg q0 _))) (hg _ (by norm_num))

end JaxCosmo
