import Verif.Props.FloatSpectrum

/-! # C179: the linear power on the largest scales in floating point -/

namespace JaxCosmo
variable {M : Libm}

section Primordial
variable {p : ℕ} {hp : 3 ≤ p} {L : Elem} {powr : ℝ → ℝ → ℝ}

local notation "B" => binary p hp

/-- C179: the smooth transfer function, with its effective shape, is exactly one on the largest scales. -/
theorem C179_transfer (hL : SaneLib (B) L powr) (hlog : ∀ x, 2 ≤ x → 1 / 2 ≤ L.log x) {Om h ag sh k : ℝ} {j : ℕ} (hO : 0 < Om) (hh : 0 < h) (a0 : 0 < ag) (a1 : ag ≤ 1)
    (ha : (B).rd ag = ag) (hj : p + 16 < 2 * j) (hk : 0 ≤ k) (hs : k ≤ 2 ^ (-j : ℤ) * (B).mul ((B).mul Om h) ag) : smoothF (B) L Om h ag sh k = 1 := by
  have g0 : 0 < (B).mul ((B).mul Om h) ag := rd_pos (mul_pos (rd_pos (mul_pos hO hh)) a0)
  have g1 := (C175_shape (hp := hp) (sh := sh) (k := k) hO.le hh.le a0.le a1 ha).1
  exact C175_unity hL hlog (g0.trans_le g1) (roundBinary_fixed (by omega) _) hj hk (hs.trans (mul_le_mul_of_nonneg_left g1 (by positivity)))

/-- C179: there the computed power is the primordial one times a constant, and nothing else is rounded in. -/
theorem C179_primordial (hL : SaneLib (B) L powr) (hlog : ∀ x, 2 ≤ x → 1 / 2 ≤ L.log x) {Om h ag sh k : ℝ} {j : ℕ} (hO : 0 < Om) (hh : 0 < h) (a0 : 0 < ag) (a1 : ag ≤ 1)
    (ha : (B).rd ag = ag) (hj : p + 16 < 2 * j) (hk : 0 ≤ k) (hs : k ≤ 2 ^ (-j : ℤ) * (B).mul ((B).mul Om h) ag) {prim : ℝ → ℝ} (hprim : (B).rd (prim k) = prim k)
    {g sigma8 c S : ℝ} {t : ℕ → SumTree} (hS : sigmasqrF (B) M (shapeF (B) (smoothF (B) L Om h ag sh) prim) 8 c t = .ok S) :
    linearPowerF (B) M (smoothF (B) L Om h ag sh) prim g sigma8 c t k
      = .ok ((B).mul ((B).mul (prim k) ((B).mul g g)) ((B).div ((B).mul sigma8 sigma8) S)) := by
  rw [linearPowerF, hS]
  simp only [bind, Except.bind, pure, Except.pure, C179_transfer hL hlog hO hh a0 a1 ha hj hk hs]
  have e : (B).mul (prim k) ((B).mul 1 1) = prim k := by rw [Rounding.mul, Rounding.mul, mul_one, (B).one, mul_one, hprim]
  rw [e]

/-- C179: for a primordial spectrum proportional to the wavenumber, half the wavelength has twice the power, to the last digit. -/
theorem C179_slope (hL : SaneLib (B) L powr) (hlog : ∀ x, 2 ≤ x → 1 / 2 ≤ L.log x) {Om h ag sh k : ℝ} {j : ℕ} (hO : 0 < Om) (hh : 0 < h) (a0 : 0 < ag) (a1 : ag ≤ 1)
    (ha : (B).rd ag = ag) (hj : p + 16 < 2 * j) (hk : 0 ≤ k) (hr : (B).rd k = k) (hs : 2 * k ≤ 2 ^ (-j : ℤ) * (B).mul ((B).mul Om h) ag)
    {g sigma8 c S P : ℝ} {t : ℕ → SumTree} (hS : sigmasqrF (B) M (shapeF (B) (smoothF (B) L Om h ag sh) fun k => max k 0) 8 c t = .ok S)
    (hP : linearPowerF (B) M (smoothF (B) L Om h ag sh) (fun k => max k 0) g sigma8 c t k = .ok P) :
    linearPowerF (B) M (smoothF (B) L Om h ag sh) (fun k => max k 0) g sigma8 c t (2 * k) = .ok (2 * P) := by
  have sc : Scales (B) 2 := by
    have := (C172_binary p hp 1).1
    rwa [zpow_one] at this
  have m1 : max k 0 = k := max_eq_left hk
  have m2 : max (2 * k) 0 = 2 * k := max_eq_left (by linarith)
  have h1 := C179_primordial (prim := fun k => max k 0) (g := g) (sigma8 := sigma8) hL hlog hO hh a0 a1 ha hj hk (by linarith) (by simp only [m1]; exact hr) hS
  have h2 := C179_primordial (prim := fun k => max k 0) (g := g) (sigma8 := sigma8) hL hlog hO hh a0 a1 ha hj (by linarith : 0 ≤ 2 * k) hs
    (by simp only [m2]; rw [sc, hr]) hS
  rw [h1, Except.ok.injEq] at hP
  rw [h2, ← hP]
  simp only [m1, m2, sc.mulF]

end Primordial

/-- The spectrum bends on every scale: below twice the power at half the wavelength, for a primordial spectrum proportional to the wavenumber. -/
def Bends (A : Rounding) (L : Elem) (M : Libm) : Prop := ∀ (Om h ag sh g sigma8 c S k P Q : ℝ) (t : ℕ → SumTree), 0 < Om → 0 < h → 0 < ag → ag ≤ 1 → 0 ≤ sh →
  0 < g → 0 < sigma8 → 0 < k → sigmasqrF A M (shapeF A (smoothF A L Om h ag sh) fun k => max k 0) 8 c t = .ok S → 0 < S →
  linearPowerF A M (smoothF A L Om h ag sh) (fun k => max k 0) g sigma8 c t k = .ok P →
  linearPowerF A M (smoothF A L Om h ag sh) (fun k => max k 0) g sigma8 c t (2 * k) = .ok Q → Q < 2 * P

/-- The exact transfer function falls. -/
theorem smooth_falls {Om h ag sh k : ℝ} (hO : 0 < Om) (hh : 0 < h) (a0 : 0 < ag) (a1 : ag ≤ 1) (hs : 0 ≤ sh) (hk : 0 < k) :
    0 < smoothF exactArith exactArith.elem Om h ag sh (2 * k) ∧
    smoothF exactArith exactArith.elem Om h ag sh (2 * k) < smoothF exactArith exactArith.elem Om h ag sh k := by
  have e : ∀ k, smoothF exactArith exactArith.elem Om h ag sh k = smoothT (k * (const_tcmb / 2.7) ^ 2 / effectiveShape Om h ag sh k) := fun k => by
    have e4 : ∀ x : ℝ, x * x * (x * x) = x ^ 4 := fun x => by ring
    simp only [smoothF, nowiggleF, gammaEffF, pow4F, effectiveShape, smoothT, Rounding.elem, Rounding.mul, Rounding.div, Rounding.add, Rounding.sub, exactArith, id, e4]
    simp only [← pow_two, mul_assoc]
  have gp : ∀ k, 0 ≤ k → 0 < effectiveShape Om h ag sh k := fun k _ =>
    mul_pos (mul_pos hO hh) (add_pos_of_pos_of_nonneg a0 (div_nonneg (by linarith) (by positivity)))
  have hT : 0 < (const_tcmb / 2.7) ^ 2 := by norm_num [const_tcmb]
  have gle : effectiveShape Om h ag sh (2 * k) ≤ effectiveShape Om h ag sh k := by
    refine mul_le_mul_of_nonneg_left (add_le_add le_rfl (div_le_div_of_nonneg_left (by linarith) (by positivity) (add_le_add le_rfl ?_))) (by positivity)
    exact pow_le_pow_left₀ (by positivity) (mul_le_mul_of_nonneg_right (by linarith) hs) 4
  have g1 := gp k hk.le
  have g2 := gp (2 * k) (by linarith)
  rw [e, e]
  refine ⟨(smoothT_lt (by positivity)).1, ?_⟩
  have hq : k * (const_tcmb / 2.7) ^ 2 / effectiveShape Om h ag sh k < 2 * k * (const_tcmb / 2.7) ^ 2 / effectiveShape Om h ag sh (2 * k) :=
    calc _ < 2 * k * (const_tcmb / 2.7) ^ 2 / effectiveShape Om h ag sh k :=
          div_lt_div_of_pos_right (mul_lt_mul_of_pos_right (by linarith) hT) g1
      _ ≤ _ := div_le_div_of_nonneg_left (by positivity) g2 gle
  have n := nowiggleOfQ_strictAnti (by positivity) hq
  have f : ∀ q, Spec.nowiggleOfQ q = smoothT q := fun q => by
    simp only [Spec.nowiggleOfQ, smoothT, pow_two]
  rwa [f, f] at n

/-- C179: exact operations bend the spectrum on every scale; in single precision it is straight on the largest. -/
theorem C179_refuted : Bends exactArith exactArith.elem ⟨Real.exp, Real.sin, Real.cos⟩ ∧ ¬ Bends float32 float32.elem float32.libm := by
  refine ⟨fun Om h ag sh g s8 c S k P Q t hO hh a0 a1 hs g0 h8 hk hS S0 hP hQ => ?_, fun h => ?_⟩
  · obtain ⟨t0, t1⟩ := smooth_falls hO hh a0 a1 hs hk
    rw [linearPowerF, hS] at hP hQ
    simp only [bind, Except.bind, pure, Except.pure, Except.ok.injEq, max_eq_left hk.le, max_eq_left (by linarith : 0 ≤ 2 * k), Rounding.mul, Rounding.div,
      exactArith, id] at hP hQ
    rw [← hP, ← hQ]
    have hN : 0 < g * g * (s8 * s8 / S) := by positivity
    have := mul_lt_mul_of_pos_right (mul_self_lt_mul_self t0.le t1) (mul_pos (by linarith : 0 < 2 * k) hN)
    simp only [exactArith] at this
    nlinarith
  · have sane := float32_sane
    have T1 : ∀ k, 0 < k → 0 < smoothF float32 float32.elem 1 1 1 0 k := fun k hk => by
      have g1 := (C175_shape (p := 24) (hp := by omega) (sh := 0) (k := k) (Om := 1) (h := 1) zero_le_one zero_le_one zero_le_one le_rfl float32.one).1
      have g0 : 0 < float32.mul (float32.mul 1 1) 1 := rd_pos (A := float32) (mul_pos (rd_pos (A := float32) (by norm_num)) one_pos)
      exact (C175_smooth float32_sane (g0.trans_le g1) hk.le).1
    have hM := libm_good
    obtain ⟨S, hS, S0⟩ := C158_normalisation hM (P := shapeF float32 (smoothF float32 float32.elem 1 1 1 0) fun k => max k 0)
      (fun k => float32.nonneg (mul_nonneg (float32.nonneg (mul_self_nonneg _)) (le_max_right k 0)))
      (rd_pos (A := float32) (mul_pos (rd_pos (A := float32) (mul_pos (T1 _ (hM.exp_pos _)) (T1 _ (hM.exp_pos _)))) (lt_max_of_lt_left (hM.exp_pos _))))
      one_pos (t := fun i => pairwise (i - 1) 0) fun i hi => ⟨(pairwise_ok 7 i hi).1, (pairwise_ok 7 i hi).2.trans (by norm_num)⟩
    have one : float32.mul (float32.mul 1 1) 1 = 1 := by simp only [Rounding.mul, mul_one, float32.one]
    obtain ⟨P, hP⟩ : ∃ P, linearPowerF float32 float32.libm (smoothF float32 float32.elem 1 1 1 0) (fun k => max k 0) 1 1 1 (fun i => pairwise (i - 1) 0)
        (2 ^ (-22 : ℤ)) = .ok P := by rw [linearPowerF, hS]; exact ⟨_, rfl⟩
    have hQ := C179_slope (p := 24) (hp := by omega) (j := 21) (M := float32.libm) float32_sane float32_log_half one_pos one_pos one_pos le_rfl float32.one
      (by norm_num) (by positivity) (rd_two_pow (by omega) _) (by
        have : float32.mul (float32.mul 1 1) 1 = 1 := one
        change 2 * (2 : ℝ) ^ (-22 : ℤ) ≤ _ * float32.mul (float32.mul 1 1) 1
        rw [this]; norm_num) hS hP
    exact lt_irrefl _ (h 1 1 1 0 1 1 1 S _ P _ _ one_pos one_pos one_pos le_rfl le_rfl one_pos one_pos (by positivity) hS S0 hP hQ)

/-- An Einstein-de Sitter universe without baryons in single precision: one number on the largest scales. -/
example : smoothF float32 float32.elem 1 1 1 0 (2 ^ (-22 : ℤ)) = 1 :=
  C179_transfer (p := 24) (hp := by omega) (j := 21) float32_sane float32_log_half one_pos one_pos one_pos le_rfl float32.one (by norm_num) (by positivity) (by
    change (2 : ℝ) ^ (-22 : ℤ) ≤ _ * float32.mul (float32.mul 1 1) 1
    simp only [Rounding.mul, mul_one, float32.one]; norm_num)

/-- Its power there, for any normalisation that is computed at all. -/
example {S : ℝ} {t : ℕ → SumTree} (hS : sigmasqrF float32 float32.libm (shapeF float32 (smoothF float32 float32.elem 1 1 1 0) fun k => max k 0) 8 1 t = .ok S) :
    linearPowerF float32 float32.libm (smoothF float32 float32.elem 1 1 1 0) (fun k => max k 0) 1 1 1 t (2 ^ (-22 : ℤ))
      = .ok (float32.mul (float32.mul (max (2 ^ (-22 : ℤ)) 0) (float32.mul 1 1)) (float32.div (float32.mul 1 1) S)) :=
  C179_primordial (p := 24) (hp := by omega) (j := 21) (prim := fun k => max k 0) float32_sane float32_log_half one_pos one_pos one_pos le_rfl float32.one
    (by norm_num) (by positivity) (by
      change (2 : ℝ) ^ (-22 : ℤ) ≤ _ * float32.mul (float32.mul 1 1) 1
      simp only [Rounding.mul, mul_one, float32.one]; norm_num)
    (by rw [max_eq_left (by positivity)]; exact rd_two_pow (by omega) _) hS

end JaxCosmo
