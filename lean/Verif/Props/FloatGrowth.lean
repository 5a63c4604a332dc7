import Verif.Props.FloatEsqr
import Verif.Props.FloatInterp
import Verif.Props.FloatOde
import Verif.Props.GrowthBound

/-! # C166: the growth factor in floating point -/

namespace JaxCosmo

/-! ### The line through the last two nodes, today -/

theorem roundBinary_above_one {p : ℕ} (hp : 2 ≤ p) {y : ℝ} (h1 : 1 ≤ y) (h2 : y ≤ 1 + 1 / 2 ^ p) : roundBinary p y = 1 := by
  refine le_antisymm ?_ (by rw [← roundBinary_one (p := p) (by omega)]; exact roundBinary_mono (by omega) h1)
  refine (roundBinary_mono (by omega) h2).trans (le_of_eq ?_)
  obtain ⟨r, rfl⟩ : ∃ r, p = r + 2 := ⟨p - 2, by omega⟩
  have h4 : (4 : ℝ) ≤ 2 ^ (r + 2) := by
    calc (4 : ℝ) = 2 ^ 2 := by norm_num
      _ ≤ 2 ^ (r + 2) := pow_le_pow_right₀ (by norm_num) (by omega)
  have hl := log_two_one (x := 1 + 1 / 2 ^ (r + 2)) (by
    have : (0 : ℝ) < 1 / 2 ^ (r + 2) := by positivity
    linarith) (by
    have : (1 : ℝ) / 2 ^ (r + 2) ≤ 1 / 4 := one_div_le_one_div_of_le (by norm_num) h4
    linarith)
  simp only [roundBinary]
  rw [hl]
  have es : (2 : ℝ) ^ (((r + 2 : ℕ) : ℤ) - 1 - 0) = 2 ^ (r + 1) := by
    rw [show ((r + 2 : ℕ) : ℤ) - 1 - 0 = ((r + 1 : ℕ) : ℤ) by push_cast; ring, zpow_natCast]
  have ex : (1 + 1 / 2 ^ (r + 2) : ℝ) * 2 ^ (r + 1) = ((2 ^ (r + 1) : ℤ) : ℝ) + 1 / 2 := by
    push_cast; rw [pow_succ 2 (r + 1)]; field_simp
  have hfl : ⌊((2 ^ (r + 1) : ℤ) : ℝ) + 1 / 2⌋ = 2 ^ (r + 1) := by
    rw [Int.floor_eq_iff]; constructor <;> push_cast <;> linarith
  have hfr : Int.fract (((2 ^ (r + 1) : ℤ) : ℝ) + 1 / 2) = 1 / 2 := by
    rw [Int.fract, hfl]; ring
  have hev : Even ((2 : ℤ) ^ (r + 1)) := Int.even_pow.2 ⟨even_two, by omega⟩
  rw [es, ex, roundEven, hfr, hfl, if_neg (by norm_num), if_neg (by norm_num), if_pos hev]
  push_cast
  rw [div_self (by positivity)]

theorem half_ulp {p : ℕ} {y : ℝ} {e : ℤ} (hy : |y| < 2 ^ (e + 1)) : |roundBinary p y - y| ≤ 2 ^ (e - p) := by
  rcases eq_or_ne y 0 with rfl | h0
  · rw [roundBinary_zero, sub_zero, abs_zero]; positivity
  refine (roundBinary_half p y).trans (zpow_le_zpow_right₀ (by norm_num) ?_)
  have : Int.log 2 |y| < e + 1 := by
    rw [← Int.lt_zpow_iff_log_lt (by norm_num) (abs_pos.2 h0)]; exact_mod_cast hy
  omega

/-- Rounded numbers of size at least `2 ^ e` are whole multiples of `2 ^ (e - p + 1)`. -/
theorem on_grid {p : ℕ} {y : ℝ} {e : ℤ} (hy : 2 ^ e ≤ |y|) : ∃ N : ℤ, roundBinary p y = N * 2 ^ (e - p + 1) := by
  refine roundBinary_grid ?_
  have h0 : (0 : ℝ) < |y| := lt_of_lt_of_le (by positivity) hy
  rw [← Int.zpow_le_iff_le_log (by norm_num) h0]; exact_mod_cast hy

theorem whole_le {g y : ℝ} (hg : 0 < g) {N : ℤ} (hy : y = N * g) {K : ℤ} (h : |y| < (K + 1) * g) : |y| ≤ K * g := by
  rw [hy, abs_mul, abs_of_pos hg] at h ⊢
  have h1 := lt_of_mul_lt_mul_right h hg.le
  have h2 : |N| < K + 1 := by exact_mod_cast h1
  refine mul_le_mul_of_nonneg_right ?_ hg.le
  have h3 : |N| ≤ K := by omega
  exact_mod_cast h3

theorem unit_facts {p : ℕ} (hp : 3 ≤ p) {U : ℝ} (hU : U = 2 ^ (-(p : ℤ))) :
    0 < U ∧ U = 1 / 2 ^ p ∧ U * 2 ^ p = 1 ∧ U ≤ 1 / 8 ∧ U / 2 = 1 / 2 ^ (p + 1) ∧ (1 : ℝ) = ((2 ^ p : ℤ) : ℝ) * U := by
  have hUp : U = 1 / 2 ^ p := by rw [hU, zpow_neg, zpow_natCast, one_div]
  have hUN : U * 2 ^ p = 1 := by rw [hUp]; field_simp
  refine ⟨by rw [hU]; positivity, hUp, hUN, ?_, by rw [hUp, pow_succ]; field_simp, by
    push_cast; rw [mul_comm]; exact hUN.symm⟩
  rw [hUp]
  refine one_div_le_one_div_of_le (by norm_num) ?_
  calc (8 : ℝ) = 2 ^ 3 := by norm_num
    _ ≤ 2 ^ p := pow_le_pow_right₀ (by norm_num) hp

theorem zpow_unit {p : ℕ} {U : ℝ} (hU : U = 2 ^ (-(p : ℤ))) (k : ℤ) : (2 : ℝ) ^ (k - p) = 2 ^ k * U := by
  rw [sub_eq_add_neg, zpow_add₀ (by norm_num), hU]

theorem ulp_half {p : ℕ} {U : ℝ} (hU : U = 2 ^ (-(p : ℤ))) {y : ℝ} (e : ℤ) (h : |y| < 2 ^ (e + 1)) :
    |roundBinary p y - y| ≤ 2 ^ e * U := by
  rw [← zpow_unit hU]; exact half_ulp h

theorem ulp_grid {p : ℕ} {U : ℝ} (hU : U = 2 ^ (-(p : ℤ))) {y : ℝ} (e : ℤ) (h : 2 ^ e ≤ |y|) :
    ∃ N : ℤ, roundBinary p y = N * (2 ^ (e + 1) * U) := by
  obtain ⟨N, hN⟩ := on_grid (p := p) h
  exact ⟨N, by rw [hN, show e - p + 1 = e + 1 - p by ring, zpow_unit hU]⟩

theorem ulp_exact {p : ℕ} {U : ℝ} (hU : U = 2 ^ (-(p : ℤ))) (N k : ℤ) (h : |N| < 2 ^ p) :
    roundBinary p (N * (2 ^ k * U)) = N * (2 ^ k * U) := by
  rw [← zpow_unit hU]; exact roundBinary_dyadic h _

/-- The line when its slope is below a half. -/
theorem line_shallow {p : ℕ} (hp : 3 ≤ p) {U x f δ σ s m : ℝ} (hU : U = 2 ^ (-(p : ℤ))) {F : ℤ}
    (hF : f = F * U) (hδ : δ = 1 - x) (x1 : 1 / 2 < x) (x2 : x < 1) (f1 : 1 / 2 ≤ f) (f2 : f < 1) (hσ0 : 0 < σ)
    (hσδ : σ * δ = 1 - f) (hs : s = roundBinary p σ) (hm : m = roundBinary p (s * x)) (hs0 : 0 < s) (hm0 : 0 ≤ m)
    (key : f - m = 1 - s + ((s - σ) * δ + (s * x - m))) (c2 : σ < 1 / 2) :
    roundBinary p (s + roundBinary p (f - m)) = 1 := by
  have hp1 : 1 ≤ p := by omega
  have one := roundBinary_one hp1
  obtain ⟨hU0, hUp, hUN, h8, hUP, eN⟩ := unit_facts hp hU
  have z0 : (2 : ℝ) ^ (-1 + 1 : ℤ) = 1 := by norm_num
  have hδ0 : 0 < δ := by linarith
  have hδ2 : δ < 1 / 2 := by linarith
  set e := Int.log 2 σ with he
  have he2 : e ≤ -2 := by
    have : e < -1 := by rw [he, ← Int.lt_zpow_iff_log_lt (by norm_num) hσ0]; norm_num; linarith
    omega
  have l1 : (2 : ℝ) ^ e ≤ σ := by exact_mod_cast Int.zpow_log_le_self (b := 2) (by norm_num) hσ0
  have l2 : σ < 2 ^ (e + 1) := by exact_mod_cast Int.lt_zpow_succ_log_self (b := 2) (by norm_num) σ
  set g : ℝ := 2 ^ (e + 1) * U with hg
  have hg0 : 0 < g := by positivity
  have eg : (2 : ℝ) ^ e * U = g / 2 := by rw [hg, zpow_add_one₀ (by norm_num)]; ring
  obtain ⟨S, hS⟩ := ulp_grid hU (y := σ) e (by rw [abs_of_pos hσ0]; exact l1)
  rw [← hs] at hS
  have es := ulp_half hU (y := σ) e (by rw [abs_of_pos hσ0]; exact l2)
  rw [← hs, eg] at es
  have hsle : s ≤ 2 ^ (e + 1) := by
    rw [hs]
    have := (roundBinary_pos_bounds hp1 hσ0).2
    rwa [abs_of_pos hσ0] at this
  have em := ulp_half hU (y := s * x) e (by rw [abs_of_pos (mul_pos hs0 (by linarith))]; exact lt_of_lt_of_le (mul_lt_of_lt_one_right hs0 x2) hsle)
  rw [← hm, eg] at em
  have het : (2 : ℝ) ^ (e + 1) ≤ 1 / 2 := by
    calc (2 : ℝ) ^ (e + 1) ≤ 2 ^ (-1 : ℤ) := zpow_le_zpow_right₀ (by norm_num) (by omega)
      _ = 1 / 2 := by norm_num
  have hgU : g ≤ U / 2 := by rw [hg]; exact (mul_le_mul_of_nonneg_right het hU0.le).trans (by linarith)
  have e1 : |(s - σ) * δ| ≤ g / 4 := by
    rw [abs_mul, abs_of_pos hδ0]; exact (mul_le_mul es hδ2.le hδ0.le (by linarith)).trans (by linarith)
  have dev : |(s - σ) * δ + (s * x - m)| ≤ 3 / 4 * g := by
    rw [abs_sub_comm] at em
    exact (abs_add_le _ _).trans (by linarith)
  obtain ⟨d1, d2⟩ := abs_le.1 dev
  have hfm0 : 0 < f - m := by rw [key]; linarith
  have eb := ulp_half hU (y := f - m) (-1) (by rw [abs_of_pos hfm0]; norm_num; linarith)
  obtain ⟨B, hB⟩ : ∃ N : ℤ, roundBinary p (f - m) = N * g := by
    rcases le_or_gt (1 / 2) (f - m) with hb | hb
    · obtain ⟨N, hN⟩ := ulp_grid hU (y := f - m) (-1) (by rw [abs_of_pos hfm0]; norm_num; linarith)
      obtain ⟨k, hk⟩ : ∃ k : ℕ, (k : ℤ) = -(e + 1) := ⟨(-(e + 1)).toNat, by omega⟩
      refine ⟨N * 2 ^ k, ?_⟩
      have hk2 : (2 : ℝ) ^ k * 2 ^ (e + 1) = 1 := by
        rw [← zpow_natCast (2 : ℝ) k, hk, ← zpow_add₀ (by norm_num), neg_add_cancel, zpow_zero]
      rw [hN, z0, one_mul, hg]
      push_cast
      calc (N : ℝ) * U = N * (2 ^ k * 2 ^ (e + 1)) * U := by rw [hk2, mul_one]
        _ = _ := by ring
    · have he3 : e = -2 := by
        by_contra hne
        have : (2 : ℝ) ^ (e + 1) ≤ 2 ^ (-2 : ℤ) := zpow_le_zpow_right₀ (by norm_num) (by omega)
        norm_num at this
        linarith
      obtain ⟨N, hN⟩ := ulp_grid hU (y := f - m) (-2) (by rw [abs_of_pos hfm0]; norm_num; linarith)
      exact ⟨N, by rw [hN, hg, he3]⟩
  obtain ⟨k, hk⟩ : ∃ k : ℕ, (k : ℤ) = -(e + 2) := ⟨(-(e + 2)).toNat, by omega⟩
  have eK : U / 2 = ((2 ^ k : ℤ) : ℝ) * g := by
    push_cast
    rw [hg, ← zpow_natCast (2 : ℝ) k, hk, ← mul_assoc, ← zpow_add₀ (by norm_num), show -(e + 2) + (e + 1) = -1 by ring]
    norm_num; ring
  obtain ⟨k', hk'⟩ : ∃ k : ℕ, (k : ℤ) = -(e + 1) := ⟨(-(e + 1)).toNat, by omega⟩
  have eO : (1 : ℝ) = ((2 ^ p * 2 ^ k' : ℤ) : ℝ) * g := by
    push_cast
    rw [hg, ← zpow_natCast (2 : ℝ) k', hk']
    calc (1 : ℝ) = U * 2 ^ p * 1 := by rw [hUN, mul_one]
      _ = U * 2 ^ p * (2 ^ (-(e + 1)) * 2 ^ (e + 1)) := by rw [← zpow_add₀ (by norm_num), neg_add_cancel, zpow_zero]
      _ = _ := by ring
  refine roundBinary_near_one hp1 ?_
  have hv : s + roundBinary p (f - m) - 1 = ((S + B - 2 ^ p * 2 ^ k' : ℤ) : ℝ) * g := by
    rw [Int.cast_sub, sub_mul, ← eO, hB, hS]; push_cast; ring
  have hlt : |s + roundBinary p (f - m) - 1| < ((2 ^ k : ℤ) + 1) * g := by
    have e2 : s + roundBinary p (f - m) - 1 = (roundBinary p (f - m) - (f - m)) + ((s - σ) * δ + (s * x - m)) := by
      rw [key]; ring
    rw [e2, add_mul, ← eK]
    refine lt_of_le_of_lt (abs_add_le _ _) ?_
    norm_num at eb
    linarith
  have := whole_le hg0 hv hlt
  rw [← eK] at this
  rwa [hUP] at this

/-- The line when its slope is between a half and one. -/
theorem line_steep {p : ℕ} (hp : 3 ≤ p) {U x f δ σ s m : ℝ} (hU : U = 2 ^ (-(p : ℤ))) {F : ℤ}
    (hF : f = F * U) (hδ : δ = 1 - x) (x1 : 1 / 2 < x) (x2 : x < 1) (f1 : 1 / 2 ≤ f) (f2 : f < 1) (hσ0 : 0 < σ)
    (hσδ : σ * δ = 1 - f) (hs : s = roundBinary p σ) (hm : m = roundBinary p (s * x)) (hs0 : 0 < s) (hm0 : 0 ≤ m)
    (key : f - m = 1 - s + ((s - σ) * δ + (s * x - m))) (c1 : σ < 1) (c2 : 1 / 2 ≤ σ) :
    roundBinary p (s + roundBinary p (f - m)) = 1 := by
  have hp1 : 1 ≤ p := by omega
  have one := roundBinary_one hp1
  obtain ⟨hU0, hUp, hUN, h8, hUP, eN⟩ := unit_facts hp hU
  have z0 : (2 : ℝ) ^ (-1 + 1 : ℤ) = 1 := by norm_num
  have hδ0 : 0 < δ := by linarith
  have hδ2 : δ < 1 / 2 := by linarith
  obtain ⟨S, hS⟩ := ulp_grid hU (y := σ) (-1) (by rw [abs_of_pos hσ0]; norm_num; linarith)
  have es := ulp_half hU (y := σ) (-1) (by rw [abs_of_pos hσ0]; norm_num; linarith)
  rw [← hs] at hS es
  rw [z0, one_mul] at hS
  have zh : (2 : ℝ) ^ (-1 : ℤ) * U = U / 2 := by norm_num; ring
  have zq : (2 : ℝ) ^ (-2 : ℤ) * U = U / 4 := by norm_num; ring
  have zr : (2 : ℝ) ^ (-2 + 1 : ℤ) * U = U / 2 := by norm_num; ring
  rw [zh] at es
  have s1 : s ≤ 1 := by
    rw [hs, ← one]; exact roundBinary_mono hp1 c1.le
  have s2 : 1 / 2 ≤ s := by
    have := roundBinary_mono hp1 c2
    rw [show (1 / 2 : ℝ) = (1 : ℤ) * 2 ^ (-1 : ℤ) by norm_num,
      roundBinary_dyadic (p := p) (n := 1) (by rw [abs_one]; exact one_lt_pow₀ (by norm_num) (by omega))] at this
    rw [hs]; norm_num at this ⊢; exact this
  have e1 : |(s - σ) * δ| ≤ U / 4 := by
    rw [abs_mul, abs_of_pos hδ0]; exact (mul_le_mul es hδ2.le hδ0.le (by linarith)).trans (by linarith)
  obtain ⟨d1, d2⟩ := abs_le.1 e1
  have sx0 : 0 < s * x := by positivity
  rcases le_or_gt (1 / 2) (s * x) with c3 | c3
  · obtain ⟨M, hM⟩ := ulp_grid hU (y := s * x) (-1) (by rw [abs_of_pos sx0]; norm_num; linarith)
    have em := ulp_half hU (y := s * x) (-1) (by rw [abs_of_pos sx0]; norm_num; nlinarith)
    rw [← hm] at hM em
    rw [z0, one_mul] at hM
    rw [zh] at em
    obtain ⟨m1, m2⟩ := abs_le.1 em
    have hfm : f - m = ((F - M : ℤ) : ℝ) * (2 ^ (0 : ℤ) * U) := by rw [hF, hM]; push_cast; ring
    have hsm : |f - m| < 1 := abs_lt.2 ⟨by rw [key]; linarith, by rw [key]; linarith⟩
    have hb : roundBinary p (f - m) = f - m := by
      rw [hfm]
      refine ulp_exact hU _ _ ?_
      rw [hfm, zpow_zero, one_mul, abs_mul, abs_of_pos hU0] at hsm
      have : |((F - M : ℤ) : ℝ)| * U < 2 ^ p * U := by rw [mul_comm _ U, mul_comm _ U, hUN, mul_comm]; exact hsm
      have := lt_of_mul_lt_mul_right this hU0.le
      exact_mod_cast this
    have hv : s + (f - m) - 1 = ((S + F - M - 2 ^ p : ℤ) : ℝ) * U := by
      rw [Int.cast_sub, sub_mul, ← eN, hF, hM, hS]; push_cast; ring
    have := whole_le hU0 hv (K := 0) (by
      push_cast; rw [key, zero_add, one_mul]; exact abs_lt.2 ⟨by linarith, by linarith⟩)
    rw [Int.cast_zero, zero_mul, abs_nonpos_iff] at this
    rw [hb, show s + (f - m) = 1 by linarith, one]
  · obtain ⟨M, hM⟩ := ulp_grid hU (y := s * x) (-2) (by rw [abs_of_pos sx0]; norm_num; nlinarith)
    have em := ulp_half hU (y := s * x) (-2) (by rw [abs_of_pos sx0]; norm_num; linarith)
    rw [← hm] at hM em
    rw [zr] at hM
    rw [zq] at em
    obtain ⟨m1, m2⟩ := abs_le.1 em
    have hfm : f - m = ((2 * F - M : ℤ) : ℝ) * (2 ^ (-1 : ℤ) * U) := by
      rw [zh, hF, hM]; push_cast; ring
    rcases le_or_gt (f - m) (1 / 2) with c4 | c4
    · have hb : roundBinary p (f - m) = f - m := by
        rcases c4.eq_or_lt with c5 | c5
        · rw [c5, show (1 / 2 : ℝ) = (1 : ℤ) * 2 ^ (-1 : ℤ) by norm_num,
            roundBinary_dyadic (p := p) (n := 1) (by rw [abs_one]; exact one_lt_pow₀ (by norm_num) (by omega))]
        rw [hfm]
        refine ulp_exact hU _ _ ?_
        have hsm : |f - m| < 1 / 2 := abs_lt.2 ⟨by rw [key]; linarith, c5⟩
        rw [hfm, zh, abs_mul, abs_of_pos (by linarith : 0 < U / 2)] at hsm
        have : |((2 * F - M : ℤ) : ℝ)| * U < 2 ^ p * U := by rw [mul_comm (2 ^ p) U, hUN]; linarith
        have := lt_of_mul_lt_mul_right this hU0.le
        exact_mod_cast this
      refine roundBinary_near_one hp1 ?_
      rw [hb, ← hUP, key]
      exact abs_le.2 ⟨by linarith, by linarith⟩
    · -- the tie
      obtain ⟨B, hB⟩ := ulp_grid hU (y := f - m) (-1) (by rw [abs_of_pos (by linarith)]; norm_num; linarith)
      have hlt : f - m < 1 := by rw [key]; linarith
      have eb := ulp_half hU (y := f - m) (-1) (by rw [abs_of_pos (by linarith)]; norm_num; linarith)
      rw [z0, one_mul] at hB
      rw [zh] at eb
      obtain ⟨b1, b2⟩ := abs_le.1 eb
      have hb3 : 1 / 2 ≤ roundBinary p (f - m) := by
        have := roundBinary_mono hp1 c4.le
        rw [show (1 / 2 : ℝ) = (1 : ℤ) * 2 ^ (-1 : ℤ) by norm_num,
          roundBinary_dyadic (p := p) (n := 1) (by rw [abs_one]; exact one_lt_pow₀ (by norm_num) (by omega))] at this
        norm_num at this ⊢; exact this
      refine roundBinary_above_one (by omega) (by linarith) ?_
      rw [← hUp]
      have := key
      linarith

/-- The line when the table is at or a little below the expansion factor. -/
theorem line_below {p : ℕ} (hp : 3 ≤ p) {U x f δ σ s m : ℝ} (hU : U = 2 ^ (-(p : ℤ))) {F : ℤ}
    (hF : f = F * U) (hδ : δ = 1 - x) (x1 : 1 / 2 < x) (x2 : x < 1) (f1 : 1 / 2 ≤ f) (f2 : f < 1) (hσ0 : 0 < σ)
    (hσδ : σ * δ = 1 - f) (hs : s = roundBinary p σ) (hm : m = roundBinary p (s * x)) (hs0 : 0 < s) (hm0 : 0 ≤ m)
    (key : f - m = 1 - s + ((s - σ) * δ + (s * x - m))) {X : ℤ} (hX : x = X * U)
    (hx : roundBinary p x = x) (hxf : x - f ≤ δ ^ 2 / 2) (c1 : 1 ≤ σ) :
    roundBinary p (s + roundBinary p (f - m)) = 1 := by
  have hp1 : 1 ≤ p := by omega
  have one := roundBinary_one hp1
  obtain ⟨hU0, hUp, hUN, h8, hUP, eN⟩ := unit_facts hp hU
  have z0 : (2 : ℝ) ^ (-1 + 1 : ℤ) = 1 := by norm_num
  have hδ0 : 0 < δ := by linarith
  have hδ2 : δ < 1 / 2 := by linarith
  have hσ2 : σ ≤ 1 + δ / 2 := by
    refine le_of_mul_le_mul_right ?_ hδ0
    have : (1 + δ / 2) * δ = δ + δ ^ 2 / 2 := by ring
    rw [hσδ]; linarith
  rcases c1.eq_or_lt with c1 | c1
  · have hfx : f = x := by rw [← c1] at hσδ; linarith
    have : s = 1 := by rw [hs, ← c1, one]
    rw [this, one_mul] at hm
    rw [hm, hx, hfx, sub_self, roundBinary_zero, this, add_zero, one]
  have hfx : f < x := by have := mul_lt_mul_of_pos_right c1 hδ0; linarith
  have hgap : U ≤ x - f := by
    have h1 : (F : ℝ) * U < X * U := by rw [← hF, ← hX]; exact hfx
    have h2 : (F : ℝ) < X := lt_of_mul_lt_mul_right h1 hU0.le
    have h3 : F + 1 ≤ X := by exact_mod_cast h2
    have h4 : (F : ℝ) + 1 ≤ X := by exact_mod_cast h3
    have := mul_le_mul_of_nonneg_right h4 hU0.le
    rw [hX, hF]; linarith
  have hδU : 4 * U ≤ δ := by
    have h1 : δ * δ ≤ 1 / 2 * δ := mul_le_mul_of_nonneg_right hδ2.le hδ0.le
    rw [sq] at hxf; linarith
  obtain ⟨S, hS⟩ := ulp_grid hU (y := σ) 0 (by rw [abs_of_pos hσ0]; norm_num; linarith)
  have es := ulp_half hU (y := σ) 0 (by rw [abs_of_pos hσ0]; norm_num; linarith)
  rw [← hs] at hS es
  have zt : (2 : ℝ) ^ (0 + 1 : ℤ) * U = 2 * U := by norm_num
  have zh : (2 : ℝ) ^ (-1 : ℤ) * U = U / 2 := by norm_num; ring
  rw [zt] at hS
  rw [zpow_zero, one_mul] at es
  obtain ⟨s1, s2⟩ := abs_le.1 es
  have s3 : 1 ≤ s := by rw [hs, ← one]; exact roundBinary_mono hp1 c1.le
  have e1 : |(s - σ) * δ| < U / 2 := by
    rw [abs_mul, abs_of_pos hδ0]; exact lt_of_le_of_lt (mul_le_mul_of_nonneg_right es hδ0.le) (by
      have := mul_lt_mul_of_pos_left hδ2 hU0; linarith)
  obtain ⟨d1, d2⟩ := abs_lt.1 e1
  have hxd : x = 1 - δ := by rw [hδ]; ring
  have sx0 : 1 / 2 < s * x := by have := le_mul_of_one_le_left (by linarith : 0 ≤ x) s3; linarith
  have sx1 : s * x < 1 := by
    have : s * x ≤ (1 + δ / 2 + U) * (1 - δ) := by
      rw [hxd]; exact mul_le_mul_of_nonneg_right (by linarith) (by linarith)
    have h2 : (1 + δ / 2 + U) * (1 - δ) = 1 - δ / 2 + U - δ * δ / 2 - U * δ := by ring
    have := mul_pos hδ0 hδ0
    have := mul_pos hU0 hδ0
    linarith
  obtain ⟨M, hM⟩ := ulp_grid hU (y := s * x) (-1) (by rw [abs_of_pos (by linarith)]; norm_num; linarith)
  have em := ulp_half hU (y := s * x) (-1) (by rw [abs_of_pos (by linarith)]; norm_num; linarith)
  rw [← hm] at hM em
  rw [z0, one_mul] at hM
  rw [zh] at em
  obtain ⟨m1, m2⟩ := abs_le.1 em
  have hfm : f - m = ((F - M : ℤ) : ℝ) * (2 ^ (0 : ℤ) * U) := by rw [hF, hM]; push_cast; ring
  have hsm : |f - m| < 1 := abs_lt.2 ⟨by linarith, by linarith⟩
  have hb : roundBinary p (f - m) = f - m := by
    rw [hfm]
    refine ulp_exact hU _ _ ?_
    rw [hfm, zpow_zero, one_mul, abs_mul, abs_of_pos hU0] at hsm
    have : |((F - M : ℤ) : ℝ)| * U < 2 ^ p * U := by rw [mul_comm _ U, mul_comm _ U, hUN, mul_comm]; exact hsm
    have := lt_of_mul_lt_mul_right this hU0.le
    exact_mod_cast this
  have hv : s + (f - m) - 1 = ((S * 2 + F - M - 2 ^ p : ℤ) : ℝ) * U := by
    rw [Int.cast_sub, sub_mul, ← eN, hF, hM, hS]; push_cast; ring
  have := whole_le hU0 hv (K := 0) (by
    push_cast; rw [key, zero_add, one_mul]; exact abs_lt.2 ⟨by linarith, by linarith⟩)
  rw [Int.cast_zero, zero_mul, abs_nonpos_iff] at this
  rw [hb, show s + (f - m) = 1 by linarith, one]

/-- The line `a * x + b` through `(x, f)` and `(1, 1)` as `interp` computes it, at one: it is exactly one if `f` is not
much below `x`. -/
theorem line_today {p : ℕ} (hp : 3 ≤ p) {x f : ℝ} (hx : roundBinary p x = x) (hf : roundBinary p f = f) (x1 : 1 / 2 < x)
    (x2 : x < 1) (f1 : 1 / 2 ≤ f) (f2 : f ≤ 1) (hxf : x - f ≤ (1 - x) ^ 2 / 2) :
    let s := roundBinary p (roundBinary p (1 - f) / roundBinary p (1 - x))
    roundBinary p (roundBinary p (s * 1) + roundBinary p (f - roundBinary p (s * x))) = 1 := by
  intro s
  have hp1 : 1 ≤ p := by omega
  have one := roundBinary_one hp1
  rw [mul_one]
  have hss : roundBinary p s = s := roundBinary_fixed hp1 _
  rw [hss]
  have hs : s = roundBinary p ((1 - f) / (1 - x)) := by
    change roundBinary p (roundBinary p (1 - f) / roundBinary p (1 - x)) = _
    rw [sterbenz_one hp1 hf f1 (by linarith), sterbenz_one hp1 hx x1.le (by linarith)]
  rcases f2.eq_or_lt with rfl | f2
  · rw [hs, sub_self, zero_div, roundBinary_zero, zero_mul, roundBinary_zero, sub_zero, one, zero_add, one]
  set U : ℝ := 2 ^ (-(p : ℤ)) with hU
  obtain ⟨X, hX⟩ : ∃ N : ℤ, x = N * U := by
    obtain ⟨N, hN⟩ := ulp_grid hU (y := x) (-1) (by rw [abs_of_pos (by linarith)]; norm_num; linarith)
    exact ⟨N, by rw [← hx, hN]; norm_num⟩
  obtain ⟨F, hF⟩ : ∃ N : ℤ, f = N * U := by
    obtain ⟨N, hN⟩ := ulp_grid hU (y := f) (-1) (by rw [abs_of_pos (by linarith)]; norm_num; linarith)
    exact ⟨N, by rw [← hf, hN]; norm_num⟩
  obtain ⟨σ, hσ⟩ : ∃ σ, σ = (1 - f) / (1 - x) := ⟨_, rfl⟩
  have hδ0 : 0 < 1 - x := by linarith
  have hσ0 : 0 < σ := by rw [hσ]; exact div_pos (by linarith) hδ0
  have hσδ : σ * (1 - x) = 1 - f := by rw [hσ]; field_simp
  rw [← hσ] at hs
  have hs0 : 0 < s := by
    rw [hs]
    exact lt_of_lt_of_le (by positivity) (roundBinary_pos_bounds hp1 hσ0).1
  obtain ⟨m, hm⟩ : ∃ m, m = roundBinary p (s * x) := ⟨_, rfl⟩
  have hm0 : 0 ≤ m := by
    have := roundBinary_mono hp1 (mul_pos hs0 (by linarith : 0 < x)).le
    rwa [roundBinary_zero, ← hm] at this
  have key : f - m = 1 - s + ((s - σ) * (1 - x) + (s * x - m)) := by linarith
  rw [← hm]
  rcases lt_or_ge σ 1 with c1 | c1
  · rcases lt_or_ge σ (1 / 2) with c2 | c2
    · exact line_shallow hp hU hF rfl x1 x2 f1 f2 hσ0 hσδ hs hm hs0 hm0 key c2
    · exact line_steep hp hU hF rfl x1 x2 f1 f2 hσ0 hσδ hs hm hs0 hm0 key c1 c2
  · exact line_below hp hU hF rfl x1 x2 f1 f2 hσ0 hσδ hs hm hs0 hm0 key hX hx hxf c1

/-! ### Rounding evaluated -/

theorem roundEven_eq {y : ℝ} {N : ℤ} (h : |y - N| < 1 / 2 ∨ |y - N| ≤ 1 / 2 ∧ Even N) : roundEven y = N := by
  have hf := Int.floor_add_fract y
  have h0 := Int.fract_nonneg y
  have h1 := Int.fract_lt_one y
  have hle : |y - N| ≤ 1 / 2 := h.elim le_of_lt And.left
  obtain ⟨l, r⟩ := abs_le.1 hle
  have hcase : ⌊y⌋ = N ∨ ⌊y⌋ = N - 1 := by
    have a1 : (⌊y⌋ : ℝ) < N + 1 := by linarith
    have a2 : (N : ℝ) - 2 < ⌊y⌋ := by linarith
    have b1 : ⌊y⌋ < N + 1 := by exact_mod_cast a1
    have b2 : N - 2 < ⌊y⌋ := by exact_mod_cast a2
    omega
  have hlt : Odd N → |y - N| < 1 / 2 := fun ho => h.elim id fun hh => absurd hh.2 (Int.not_even_iff_odd.2 ho)
  unfold roundEven
  rcases hcase with hc | hc
  · rw [hc] at hf ⊢
    split_ifs with c1 c2 c3
    · rfl
    · linarith
    · rfl
    · have := (abs_lt.1 (hlt (Int.not_even_iff_odd.1 c3))).2
      linarith
  · rw [hc] at hf ⊢
    push_cast at hf
    split_ifs with c1 c2 c3
    · linarith
    · omega
    · have ho : Odd N := by
        rw [← Int.not_even_iff_odd]; intro he
        have := Int.even_sub_one.1 c3
        exact this he
      have := (abs_lt.1 (hlt ho)).1
      linarith
    · omega

/-- Rounding evaluated: `N` units in the last place. -/
theorem roundBinary_to {p : ℕ} {y : ℝ} {N : ℤ} (e : ℤ) (h1 : 2 ^ e ≤ y) (h2 : y < 2 ^ (e + 1))
    (h : |y * 2 ^ ((p : ℤ) - 1 - e) - N| < 1 / 2 ∨ |y * 2 ^ ((p : ℤ) - 1 - e) - N| ≤ 1 / 2 ∧ Even N) :
    roundBinary p y = N / 2 ^ ((p : ℤ) - 1 - e) := by
  have h0 : 0 < y := lt_of_lt_of_le (by positivity) h1
  have hl : Int.log 2 |y| = e := by
    rw [abs_of_pos h0]
    refine le_antisymm ?_ ?_
    · have : Int.log 2 y < e + 1 := by
        rw [← Int.lt_zpow_iff_log_lt (by norm_num) h0]; exact_mod_cast h2
      omega
    · rw [← Int.zpow_le_iff_le_log (by norm_num) h0]; exact_mod_cast h1
  simp only [roundBinary]
  rw [hl, roundEven_eq h]

/-! ### The growth table -/

/-- A pair as an array of two numbers. -/
def pairVec (y : ℝ × ℝ) : Fin 2 → ℝ := ![y.1, y.2]

theorem pairVec_add (y z : ℝ × ℝ) : pairVec (y + z) = pairVec y + pairVec z := by
  funext i; fin_cases i <;> rfl

theorem pairVec_smul (k : ℝ) (y : ℝ × ℝ) : pairVec (k • y) = k • pairVec y := by
  funext i; fin_cases i <;> rfl

theorem odeint_pairVec {f : ℝ × ℝ → ℝ → ℝ × ℝ} {F : (Fin 2 → ℝ) → ℝ → (Fin 2 → ℝ)}
    (h : ∀ y t, F (pairVec y) t = pairVec (f y t)) (y0 : ℝ × ℝ) (t : ℕ → ℝ) (i : ℕ) :
    odeint F (pairVec y0) t i = pairVec (odeint f y0 t i) := by
  have step : ∀ (y : ℝ × ℝ) (a b : ℝ), (rk4 F (pairVec y, a) b).2 = pairVec (rk4 f (y, a) b).2 := fun y a b => by
    simp only [rk4, h, ← pairVec_smul, ← pairVec_add]
  induction i with
  | zero => exact step y0 (t 0) (t 0)
  | succ i ih =>
    change (rk4 F (odeint F (pairVec y0) t i, t i) (t (i + 1))).2 = pairVec (rk4 f (odeint f y0 t i, t i) (t (i + 1))).2
    rw [ih, step]

/-- C166: with exact operations this is the table of the exact model, and the same value is read from it. -/
theorem C166_exact (P : Params) (lo : ℝ) (n : ℕ) (a : ℝ) :
    growthTableF exactArith exactArith.elem P (logspace lo 0 n) n = growthTableODE P lo n ∧
      ∀ c : GrowthCache, readGrowthF exactArith c a = readGrowth c a := by
  have h : ∀ i, odeintF exactArith (growthDerivsF exactArith exactArith.elem P) ![logspace lo 0 n 0, 1] (logspace lo 0 n) i
      = pairVec (odeint (growthDerivs P) (logspace lo 0 n 0, 1) (logspace lo 0 n) i) := fun i => by
    rw [C98_exact]
    exact odeint_pairVec (fun y t => rfl) (logspace lo 0 n 0, 1) _ i
  refine ⟨?_, fun c => by rw [readGrowthF, C131_exact, readGrowth]⟩
  simp only [growthTableF, growthTableODE, h]
  rfl

/-- The growth factor is never negative and never above one. -/
theorem C166_range (A : Rounding) (c : GrowthCache) (a : ℝ) : 0 ≤ readGrowthF A c a ∧ readGrowthF A c a ≤ 1 :=
  ⟨le_min (le_max_right _ _) zero_le_one, min_le_right _ _⟩

/-- The last entry of the computed table is exactly one, whatever the integration returned. -/
theorem C166_last (A : Rounding) (L : Elem) (P : Params) (a : ℕ → ℝ) {n : ℕ} (hn : 1 ≤ n)
    (h0 : odeintF A (growthDerivsF A L P) ![a 0, 1] a (n - 1) 0 ≠ 0) : (growthTableF A L P a n).g (n - 1) = 1 := by
  have e : ix n (-1) = n - 1 := ix_neg (n := n) (i := 1) (by omega) (by omega)
  simp only [growthTableF, e, Rounding.div, div_self h0, A.one]

theorem nearF_last {A : Rounding} {n : ℕ} (hn : 3 ≤ n) {xp : ℕ → ℝ} (hne : ∀ i, i < n - 1 → xp i ≠ xp (n - 1)) :
    nearF A n xp (xp (n - 1)) = n - 2 := by
  have hu := A.u_le
  set f : ℕ → ℝ := fun i => A.mul (A.sub (xp (n - 1)) (xp i)) (A.sub (xp (n - 1)) (xp i)) with hf
  have hmin := argminUpTo_min f (n - 1) (n - 1) le_rfl
  have hle := argminUpTo_le f (n - 1)
  have h0 : f (n - 1) = 0 := by
    simp only [hf, Rounding.sub, Rounding.mul, sub_self, Rounding.zero, mul_zero]
  have hk : argmin n f = n - 1 := by
    by_contra hc
    have hpos : 0 < f (argmin n f) := by
      have h3 := (sq_bounds (A := A) (xp (n - 1) - xp (argmin n f))).1
      have h4 : 0 < 1 - A.u := by linarith
      have h5 : xp (n - 1) - xp (argmin n f) ≠ 0 := sub_ne_zero.2
        (hne _ (by have : argmin n f = argminUpTo f (n - 1) := rfl
                   omega)).symm
      exact lt_of_lt_of_le (by positivity) h3
    have : f (argmin n f) ≤ f (n - 1) := hmin
    linarith
  unfold nearF
  rw [← hf, hk]
  omega

/-- What is read today is the line through the last two entries. -/
theorem readGrowthF_today {A : Rounding} {c : GrowthCache} (hn : 3 ≤ c.n) (inc : Spec.Increasing c.n c.a)
    (h1 : c.a (c.n - 1) = 1) (g1 : c.g (c.n - 1) = 1) :
    readGrowthF A c 1 = clip (A.rd (A.rd (A.rd (A.rd (1 - c.g (c.n - 2)) / A.rd (1 - c.a (c.n - 2))) * 1) +
      A.rd (c.g (c.n - 2) - A.rd (A.rd (A.rd (1 - c.g (c.n - 2)) / A.rd (1 - c.a (c.n - 2))) * c.a (c.n - 2))))) 0 1 := by
  have hk : nearF A c.n c.a 1 = c.n - 2 := by
    rw [← h1]; exact nearF_last hn fun i hi => (inc i (c.n - 1) hi (by omega)).ne
  have h2 : c.a (c.n - 2) < 1 := h1 ▸ inc (c.n - 2) (c.n - 1) (by omega) (by omega)
  have h3 : c.a 1 ≤ c.a (c.n - 2) := by
    rcases (by omega : 1 = c.n - 2 ∨ 1 < c.n - 2) with h | h
    · rw [← h]
    · exact (inc 1 (c.n - 2) h (by omega)).le
  have hc : clip 1 (c.a 1) (c.a (c.n - 2)) = c.a (c.n - 2) :=
    min_eq_right (h2.le.trans (le_max_left _ _))
  rw [readGrowthF, interpF_eq c.n hn, hk, hc, if_neg (lt_irrefl _), lineF, show c.n - 2 + 1 = c.n - 1 by omega, h1, g1]
  rfl

/-- Reading the growth factor today gives exactly one, for every table of the shape the code builds. -/
def GrowthToday (A : Rounding) : Prop := ∀ c : GrowthCache, 3 ≤ c.n → Spec.Increasing c.n c.a → Spec.Increasing c.n c.g →
  c.a (c.n - 1) = 1 → c.g (c.n - 1) = 1 → (∀ i < c.n, 0 < c.a i ∧ A.rd (c.a i) = c.a i ∧ A.rd (c.g i) = c.g i ∧
    c.a i ≤ c.g i) → readGrowthF A c 1 = 1

/-- C166: exactly one, in every binary format, when the last cell of the table starts after `a = 1/2` and the table is
not much below the scale factor there. -/
theorem C166_today_partial {p : ℕ} (hp : 3 ≤ p) {c : GrowthCache} (hn : 3 ≤ c.n) (inc : Spec.Increasing c.n c.a)
    (h1 : c.a (c.n - 1) = 1) (g1 : c.g (c.n - 1) = 1) (ha : (binary p hp).rd (c.a (c.n - 2)) = c.a (c.n - 2))
    (hg : (binary p hp).rd (c.g (c.n - 2)) = c.g (c.n - 2)) (a1 : 1 / 2 < c.a (c.n - 2)) (f1 : 1 / 2 ≤ c.g (c.n - 2))
    (f2 : c.g (c.n - 2) ≤ 1) (hag : c.a (c.n - 2) - c.g (c.n - 2) ≤ (1 - c.a (c.n - 2)) ^ 2 / 2) :
    readGrowthF (binary p hp) c 1 = 1 := by
  have h2 : c.a (c.n - 2) < 1 := h1 ▸ inc (c.n - 2) (c.n - 1) (by omega) (by omega)
  rw [readGrowthF_today hn inc h1 g1]
  have := line_today hp ha hg a1 h2 f1 f2 hag
  simp only [binary_rd] at this ⊢
  rw [this]
  simp [clip]

/-- A table of three entries whose last cell starts late enough. -/
noncomputable def shortTable : GrowthCache where
  n := 3
  a := fun i => if i = 0 then 1 / 2 else if i = 1 then 3 / 4 else 1
  g := fun i => if i = 0 then 5 / 8 else if i = 1 then 7 / 8 else 1
  f := none

theorem short_increasing : Spec.Increasing 3 shortTable.a := by
  intro i j hij hj
  interval_cases j <;> interval_cases i <;> norm_num [shortTable]

theorem float32_dyadic {x : ℝ} (n e : ℤ) (hn : |n| < 2 ^ 24) (hx : x = n * 2 ^ e) : float32.rd x = x := by
  rw [hx]; exact roundBinary_dyadic hn e

example : readGrowthF float32 shortTable 1 = 1 :=
  C166_today_partial (p := 24) (by norm_num) (c := shortTable) (by norm_num [shortTable]) short_increasing
    (by norm_num [shortTable]) (by norm_num [shortTable])
    (float32_dyadic 3 (-2) (by norm_num) (by norm_num [shortTable]))
    (float32_dyadic 7 (-3) (by norm_num) (by norm_num [shortTable])) (by norm_num [shortTable])
    (by norm_num [shortTable]) (by norm_num [shortTable]) (by norm_num [shortTable])

/-- C166: the table as computed: the integration only has to return increasing values that grow no faster than the
scale factor over the last cell. -/
theorem C166_computed {p : ℕ} (hp : 3 ≤ p) (L : Elem) (P : Params) {a : ℕ → ℝ} {n : ℕ} (hn : 3 ≤ n)
    (inc : Spec.Increasing n a) (h1 : a (n - 1) = 1) (ha : (binary p hp).rd (a (n - 2)) = a (n - 2))
    (a1 : 1 / 2 < a (n - 2)) {D D' : ℝ}
    (hD : odeintF (binary p hp) (growthDerivsF (binary p hp) L P) ![a 0, 1] a (n - 1) 0 = D)
    (hD' : odeintF (binary p hp) (growthDerivsF (binary p hp) L P) ![a 0, 1] a (n - 2) 0 = D') (h0 : 0 < D)
    (hle : D' ≤ D) (hge : a (n - 2) * D ≤ D') :
    readGrowthF (binary p hp) (growthTableF (binary p hp) L P a n) 1 = 1 := by
  have e : ix n (-1) = n - 1 := ix_neg (n := n) (i := 1) (by omega) (by omega)
  have hg : (growthTableF (binary p hp) L P a n).g (n - 2) = (binary p hp).rd (D' / D) := by
    simp only [growthTableF, e, hD, hD', Rounding.div]
  have g0 : a (n - 2) ≤ (binary p hp).rd (D' / D) := by
    rw [← ha]; exact (binary p hp).mono (by rw [le_div_iff₀ h0]; exact hge)
  have g2 : (binary p hp).rd (D' / D) ≤ 1 := by
    rw [← (binary p hp).one]; exact (binary p hp).mono (by rw [div_le_one h0]; exact hle)
  refine C166_today_partial hp (c := growthTableF (binary p hp) L P a n) hn inc h1
    (C166_last _ L P a (by omega) (by rw [hD]; exact h0.ne')) ha ?_ a1 ?_ ?_ ?_
  · change (binary p hp).rd ((growthTableF (binary p hp) L P a n).g (n - 2)) = (growthTableF (binary p hp) L P a n).g (n - 2)
    rw [hg]; exact roundBinary_fixed (by omega) _
  · change 1 / 2 ≤ (growthTableF (binary p hp) L P a n).g (n - 2)
    rw [hg]; linarith
  · change (growthTableF (binary p hp) L P a n).g (n - 2) ≤ 1
    rw [hg]; exact g2
  · change a (n - 2) - (growthTableF (binary p hp) L P a n).g (n - 2) ≤ (1 - a (n - 2)) ^ 2 / 2
    rw [hg]
    have := sq_nonneg (1 - a (n - 2))
    linarith

/-- A library and a universe in which the growth equation is `D'' = 0`, in floating point too. -/
noncomputable def idleElem : Elem where
  exp _ := 1
  log _ := 0
  sqrt _ := 1
  pow _ _ := 1

noncomputable def stiffUniverse : Params :=
  { Planck15 with Omega_b := 0, Omega_c := 0, Omega_k := 0, w0 := 1, wa := 0 }

theorem idle_derivs (y : Fin 2 → ℝ) (x : ℝ) : growthDerivsF float32 idleElem stiffUniverse y x = ![y 1, 0] := by
  have d : ∀ n : ℤ, |n| < 2 ^ 24 → float32.rd n = n := fun n hn => by
    have := roundBinary_dyadic (p := 24) hn 0
    rwa [zpow_zero, mul_one] at this
  have d2 : float32.rd 2 = 2 := by exact_mod_cast d 2 (by norm_num)
  have d3 : float32.rd 3 = 3 := by exact_mod_cast d 3 (by norm_num)
  have d4 : float32.rd 4 = 4 := by exact_mod_cast d 4 (by norm_num)
  simp [growthDerivsF, Omega_m_aF, Omega_de_aF, EsqrF, Params.OmegaMF, Params.OmegaDeF, Params.OmegaF, wF, f_deF, idleElem, stiffUniverse,
    Rounding.add, Rounding.sub, Rounding.mul, Rounding.div, float32.zero, float32.one]
  norm_num [d2, d3, d4, float32.zero, float32.one]

theorem idle_step {v t t' h : ℝ} (hh : float32.rd (t' - t) = h) (hv : float32.rd (v + h) = v + h)
    (hs : float32.rd (float32.rd (float32.rd (1 / 6) * h) * 6) = h) :
    (rk4F float32 (growthDerivsF float32 idleElem stiffUniverse) (![v, 1], t) t').2 = ![v + h, 1] := by
  have d3 : float32.rd 3 = 3 := float32_dyadic 3 0 (by norm_num) (by norm_num)
  have d5 : float32.rd 5 = 5 := float32_dyadic 5 0 (by norm_num) (by norm_num)
  have d6 : float32.rd 6 = 6 := float32_dyadic 6 0 (by norm_num) (by norm_num)
  have d2 : float32.rd 2 = 2 := float32_dyadic 2 0 (by norm_num) (by norm_num)
  have vr : ∀ x y : ℝ, float32.vrd ![x, y] = ![float32.rd x, float32.rd y] := fun x y => by
    funext i; fin_cases i <;> rfl
  have va : ∀ x y z w : ℝ, ![x, y] + ![z, w] = ![x + z, y + w] := fun x y z w => by
    funext i; fin_cases i <;> rfl
  have vs : ∀ k x y : ℝ, k • ![x, y] = ![k * x, k * y] := fun k x y => by
    funext i; fin_cases i <;> rfl
  have v1 : ∀ x y : ℝ, ![x, y] 1 = y := fun _ _ => rfl
  have e3 : (1 : ℝ) + 2 = 3 := by norm_num
  have e5 : (3 : ℝ) + 2 = 5 := by norm_num
  have e6 : (5 : ℝ) + 1 = 6 := by norm_num
  simp only [rk4F, idle_derivs, vr, va, vs, v1, Rounding.sub, Rounding.mul, Rounding.div, hh, mul_zero, mul_one, add_zero,
    float32.zero, float32.one, d2, e3, d3, e5, d5, e6, d6, hs, hv]

theorem idle_values : odeintF float32 (growthDerivsF float32 idleElem stiffUniverse) ![shortTable.a 0, 1] shortTable.a 1
      = ![3 / 4, 1] ∧
    odeintF float32 (growthDerivsF float32 idleElem stiffUniverse) ![shortTable.a 0, 1] shortTable.a 2 = ![1, 1] := by
  have s1 : float32.rd (1 / 6) = 11184811 / 2 ^ 26 := by
    change roundBinary 24 (1 / 6) = _
    rw [roundBinary_to (N := 11184811) (-3) (by norm_num) (by norm_num) (Or.inl (by norm_num [abs_lt]))]; norm_num
  have s2 : float32.rd (11184811 / 2 ^ 26 * (1 / 4)) = 11184811 / 2 ^ 28 := by
    rw [float32_dyadic 11184811 (-28) (by norm_num) (by norm_num)]; norm_num
  have s3 : float32.rd (11184811 / 2 ^ 28 * 6) = 1 / 4 := by
    change roundBinary 24 _ = _
    rw [roundBinary_to (N := 8388608) (-2) (by norm_num) (by norm_num) (Or.inr ⟨by norm_num [abs_le], by decide⟩)]; norm_num
  have h4 : float32.rd (1 / 4) = 1 / 4 := float32_dyadic 1 (-2) (by norm_num) (by norm_num)
  have a0 : shortTable.a 0 = 1 / 2 := by norm_num [shortTable]
  have a1 : shortTable.a 1 = 3 / 4 := by norm_num [shortTable]
  have a2 : shortTable.a 2 = 1 := by norm_num [shortTable]
  have y0 : odeintF float32 (growthDerivsF float32 idleElem stiffUniverse) ![shortTable.a 0, 1] shortTable.a 0
      = ![1 / 2, 1] := by
    rw [odeintF_zero, a0, idle_step (h := 0) (by rw [sub_self, float32.zero]) ?_ ?_, add_zero]
    · rw [add_zero]; exact float32_dyadic 1 (-1) (by norm_num) (by norm_num)
    · simp [float32.zero]
  have y1 : odeintF float32 (growthDerivsF float32 idleElem stiffUniverse) ![shortTable.a 0, 1] shortTable.a 1
      = ![3 / 4, 1] := by
    rw [odeintF_succ, y0, a0, a1, idle_step (h := 1 / 4) ?_ ?_ ?_]
    · norm_num
    · norm_num [h4]
    · exact float32_dyadic 3 (-2) (by norm_num) (by norm_num)
    · rw [s1, s2, s3]
  refine ⟨y1, ?_⟩
  rw [odeintF_succ, y1, a1, a2, idle_step (h := 1 / 4) ?_ ?_ ?_]
  · norm_num
  · norm_num [h4]
  · exact float32_dyadic 1 0 (by norm_num) (by norm_num)
  · rw [s1, s2, s3]

example : readGrowthF float32 (growthTableF float32 idleElem stiffUniverse shortTable.a 3) 1 = 1 :=
  C166_computed (p := 24) (by norm_num) idleElem stiffUniverse (n := 3) (by norm_num) short_increasing
    (by norm_num [shortTable]) (float32_dyadic 3 (-2) (by norm_num) (by norm_num [shortTable])) (by norm_num [shortTable])
    (congrFun idle_values.2 0) (congrFun idle_values.1 0) (by norm_num) (by norm_num) (by norm_num [shortTable])

theorem default_last_node : 9 / 10 < logspace (-3) 0 128 126 ∧ logspace (-3) 0 128 126 < 95 / 100 := by
  have h0 := logspace_pos (-3) 0 128 126
  have e : logspace (-3) 0 128 126 ^ (127 : ℕ) = 1 / 1000 := by
    rw [logspace, linspace, ← Real.rpow_natCast, ← Real.rpow_mul (by norm_num)]
    norm_num
  constructor
  · refine lt_of_pow_lt_pow_left₀ 127 h0.le ?_
    rw [e]; norm_num
  · refine lt_of_pow_lt_pow_left₀ 127 (by norm_num) ?_
    rw [e]; norm_num

/-- C166: with the default table of a physical universe there is room for errors of one part in a thousand in the
table: any such table reads exactly one today. -/
theorem C166_default {p : ℕ} (hp : 3 ≤ p) {P : Params} (h : Physical P) {c : GrowthCache} (hn : c.n = 128)
    (inc : Spec.Increasing c.n c.a) (h1 : c.a (c.n - 1) = 1) (g1 : c.g (c.n - 1) = 1)
    (ha : (binary p hp).rd (c.a (c.n - 2)) = c.a (c.n - 2)) (hg : (binary p hp).rd (c.g (c.n - 2)) = c.g (c.n - 2))
    (f2 : c.g (c.n - 2) ≤ 1) (da : |c.a (c.n - 2) - logspace (-3) 0 128 126| ≤ 1 / 1000000)
    (dg : |c.g (c.n - 2) - (growthTableODE P (-3) 128).g 126| ≤ 1 / 1000) : readGrowthF (binary p hp) c 1 = 1 := by
  obtain ⟨l1, l2⟩ := default_last_node
  have hpos := (growth_table_pos h (lo := -3) (n := 128) (by norm_num) (by norm_num) default_ratio 127 (by norm_num)).1
  have hcone := (growth_table_cone h (lo := -3) (n := 128) (by norm_num) (by norm_num) default_ratio 126 (by norm_num)).2
    (by norm_num)
  have e127 : logspace (-3) 0 128 (126 + 1) = 1 := logspace_end (-3) (n := 128) (by norm_num)
  rw [e127, mul_one] at hcone
  have e : ix 128 (-1) = 127 := ix_neg (n := 128) (i := 1) (by omega) (by omega)
  have hge : logspace (-3) 0 128 126 ≤ (growthTableODE P (-3) 128).g 126 := by
    simp only [growthTableODE, e]
    rw [le_div_iff₀ hpos, mul_comm]
    exact hcone
  obtain ⟨a1, a2⟩ := abs_le.1 da
  obtain ⟨b1, b2⟩ := abs_le.1 dg
  refine C166_today_partial hp (by omega) inc h1 g1 ha hg (by linarith) (by linarith) f2 ?_
  have h5 : (49999 / 1000000 : ℝ) ≤ 1 - c.a (c.n - 2) := by linarith
  have h6 : (49999 / 1000000 : ℝ) ^ 2 ≤ (1 - c.a (c.n - 2)) ^ 2 := pow_le_pow_left₀ (by norm_num) h5 2
  norm_num at h6
  linarith

theorem default_growing {i j : ℕ} (hij : i < j) : logspace (-3) 0 128 i ≤ 95 / 100 * logspace (-3) 0 128 j := by
  have hr := logspace_ratio (-3) 128
  have e127 : logspace (-3) 0 128 (126 + 1) = 1 := logspace_end (-3) (n := 128) (by norm_num)
  have h1 := hr 126
  rw [e127] at h1
  have h2 := default_last_node.2
  have hpos := logspace_pos (-3) 0 128 126
  generalize (10 : ℝ) ^ (-(-3) / (((128 : ℕ) : ℝ) - 1)) = q at *
  have hq : 1 ≤ 95 / 100 * q := by
    have hq0 : 0 < q := by
      by_contra hc
      nlinarith [not_lt.1 hc]
    nlinarith
  have h3 : logspace (-3) 0 128 (i + 1) ≤ logspace (-3) 0 128 j :=
    (logspace_strictMono (by norm_num) (by norm_num)).monotone hij
  rw [hr i] at h3
  have := mul_le_mul_of_nonneg_left hq (logspace_pos (-3) 0 128 i).le
  linarith

/-- The exact default table, rounded entry by entry. -/
noncomputable def roundedGrowth (A : Rounding) (P : Params) : GrowthCache where
  n := 128
  a := fun i => A.rd (logspace (-3) 0 128 i)
  g := fun i => A.rd ((growthTableODE P (-3) 128).g i)
  f := none

/-- C166: the exact default table of a physical universe, rounded entry by entry to twenty digits or more, reads
exactly one today. -/
theorem C166_rounded {p : ℕ} (hp : 20 ≤ p) {P : Params} (h : Physical P) :
    readGrowthF (binary p (by omega)) (roundedGrowth (binary p (by omega)) P) 1 = 1 := by
  set A := binary p (by omega) with hA
  have hu0 := A.u_nonneg
  have hu : A.u ≤ 1 / 1000000 := by
    change (1 : ℝ) / 2 ^ p ≤ _
    refine one_div_le_one_div_of_le (by norm_num) ?_
    calc (1000000 : ℝ) ≤ 2 ^ 20 := by norm_num
      _ ≤ 2 ^ p := pow_le_pow_right₀ (by norm_num) hp
  have hfix : ∀ y, A.rd (A.rd y) = A.rd y := fun y => roundBinary_fixed (by omega) y
  have hpos := growth_table_pos h (lo := -3) (n := 128) (by norm_num) (by norm_num) default_ratio
  have e : ix 128 (-1) = 127 := ix_neg (n := 128) (i := 1) (by omega) (by omega)
  have e127 : logspace (-3) 0 128 127 = 1 := logspace_end (-3) (n := 128) (by norm_num)
  have g127 : (growthTableODE P (-3) 128).g 127 = 1 := by
    simp only [growthTableODE, e]
    exact div_self (hpos 127 (by norm_num)).1.ne'
  have g126 : 0 ≤ (growthTableODE P (-3) 128).g 126 ∧ (growthTableODE P (-3) 128).g 126 ≤ 1 := by
    simp only [growthTableODE, e]
    have h1 := (hpos 126 (by norm_num)).1
    have h2 := (hpos 126 (by norm_num)).2.2 (by norm_num)
    have h3 := (hpos 127 (by norm_num)).1
    exact ⟨div_nonneg h1.le h3.le, (div_le_one h3).2 h2.le⟩
  refine C166_default (p := p) (by omega) h rfl ?_ ?_ ?_ (hfix _) (hfix _) ?_ ?_ ?_
  · intro i j hij hj
    have h1 := default_growing hij
    have h2 := logspace_pos (-3) 0 128 i
    have h3 := logspace_pos (-3) 0 128 j
    have r1 := (abs_le.1 (A.err (logspace (-3) 0 128 i))).2
    have r2 := (abs_le.1 (A.err (logspace (-3) 0 128 j))).1
    rw [abs_of_pos h2] at r1
    rw [abs_of_pos h3] at r2
    change A.rd _ < A.rd _
    have b1 := mul_le_mul_of_nonneg_right hu h2.le
    have b2 := mul_le_mul_of_nonneg_right hu h3.le
    linarith
  · change A.rd (logspace (-3) 0 128 127) = 1
    rw [e127, A.one]
  · change A.rd ((growthTableODE P (-3) 128).g 127) = 1
    rw [g127, A.one]
  · change A.rd ((growthTableODE P (-3) 128).g 126) ≤ 1
    rw [← A.one]; exact A.mono g126.2
  · change |A.rd (logspace (-3) 0 128 126) - logspace (-3) 0 128 126| ≤ _
    have h3 := logspace_pos (-3) 0 128 126
    refine (A.err _).trans ?_
    rw [abs_of_pos h3]
    have := mul_le_mul hu (by linarith [default_last_node.2] : logspace (-3) 0 128 126 ≤ 1) h3.le (by norm_num)
    linarith
  · change |A.rd ((growthTableODE P (-3) 128).g 126) - (growthTableODE P (-3) 128).g 126| ≤ _
    refine (A.err _).trans ?_
    rw [abs_of_nonneg g126.1]
    have := mul_le_mul hu g126.2 g126.1 (by norm_num)
    linarith

example : readGrowthF float32 (roundedGrowth float32 Planck15) 1 = 1 :=
  C166_rounded (p := 24) (by norm_num) planck_physical

/-! ### A coarse table -/

/-- Three entries: a second node near `10 ^ (-3 / 7)`, the one before last of eight nodes from `10 ^ -3`. -/
noncomputable def coarseTable : GrowthCache where
  n := 3
  a := fun i => if i = 0 then 1 / 8 else if i = 1 then 12507729 / 2 ^ 25 else 1
  g := fun i => if i = 0 then 1 / 4 else if i = 1 then 946285 / 2 ^ 21 else 1
  f := none

theorem coarse_value : readGrowthF float32 coarseTable 1 = 1 - 1 / 2 ^ 24 := by
  have inc : Spec.Increasing coarseTable.n coarseTable.a := by
    intro i j hij hj
    have hj : j < 3 := hj
    interval_cases j <;> interval_cases i <;> norm_num [coarseTable]
  rw [readGrowthF_today (by norm_num [coarseTable]) inc (by norm_num [coarseTable]) (by norm_num [coarseTable])]
  have ea : coarseTable.a (coarseTable.n - 2) = 12507729 / 2 ^ 25 := by norm_num [coarseTable]
  have eg : coarseTable.g (coarseTable.n - 2) = 946285 / 2 ^ 21 := by norm_num [coarseTable]
  rw [ea, eg]
  have r : ∀ x, float32.rd x = roundBinary 24 x := fun _ => rfl
  simp only [r, mul_one]
  have v1 : roundBinary 24 (1 - 946285 / 2 ^ 21) = 1150867 / 2 ^ 21 := by
    rw [roundBinary_to (N := 9206936) (-1) (by norm_num) (by norm_num) (Or.inl (by norm_num))]; norm_num
  have v2 : roundBinary 24 (1 - 12507729 / 2 ^ 25) = 1315419 / 2 ^ 21 := by
    rw [roundBinary_to (N := 10523352) (-1) (by norm_num) (by norm_num) (Or.inr ⟨by norm_num [abs_le], by decide⟩)]; norm_num
  have v3 : roundBinary 24 (1150867 / 2 ^ 21 / (1315419 / 2 ^ 21)) = 7339237 / 2 ^ 23 := by
    rw [roundBinary_to (N := 14678474) (-1) (by norm_num) (by norm_num) (Or.inl (by norm_num [abs_lt]))]; norm_num
  have v4 : roundBinary 24 (7339237 / 2 ^ 23 * (12507729 / 2 ^ 25)) = 5471539 / 2 ^ 24 := by
    rw [roundBinary_to (N := 10943078) (-2) (by norm_num) (by norm_num) (Or.inl (by norm_num [abs_lt]))]; norm_num
  have v5 : roundBinary 24 (946285 / 2 ^ 21 - 5471539 / 2 ^ 24) = 2098741 / 2 ^ 24 := by
    rw [roundBinary_to (N := 8394964) (-3) (by norm_num) (by norm_num) (Or.inl (by norm_num))]; norm_num
  have v6 : roundBinary 24 (7339237 / 2 ^ 23 + 2098741 / 2 ^ 24) = 1 - 1 / 2 ^ 24 := by
    rw [roundBinary_to (N := 16777215) (-1) (by norm_num) (by norm_num) (Or.inl (by norm_num))]; norm_num
  have v7 : roundBinary 24 (7339237 / 2 ^ 23) = 7339237 / 2 ^ 23 := by
    rw [roundBinary_to (N := 14678474) (-1) (by norm_num) (by norm_num) (Or.inl (by norm_num))]; norm_num
  rw [v1, v2, v3, v4, v5, v7, v6]
  norm_num [clip]

/-- C166: with few nodes the growth factor today is not one: it comes out one unit too small. -/
theorem C166_refuted : ¬ GrowthToday float32 := by
  intro h
  have h3 := h coarseTable (by norm_num [coarseTable]) ?_ ?_ (by norm_num [coarseTable]) (by norm_num [coarseTable]) ?_
  · rw [coarse_value] at h3
    norm_num at h3
  · intro i j hij hj
    have hj : j < 3 := hj
    interval_cases j <;> interval_cases i <;> norm_num [coarseTable]
  · intro i j hij hj
    have hj : j < 3 := hj
    interval_cases j <;> interval_cases i <;> norm_num [coarseTable]
  · intro i hi
    have r : ∀ (x : ℝ) (n : ℤ) (e : ℤ), |n| < 2 ^ 24 → x = n * 2 ^ e → float32.rd x = x := fun x n e hn hx => by
      rw [hx]; exact roundBinary_dyadic hn e
    have hi : i < 3 := hi
    interval_cases i
    · exact ⟨by norm_num [coarseTable], r _ 1 (-3) (by norm_num) (by norm_num [coarseTable]),
        r _ 1 (-2) (by norm_num) (by norm_num [coarseTable]), by norm_num [coarseTable]⟩
    · exact ⟨by norm_num [coarseTable], r _ 12507729 (-25) (by norm_num) (by norm_num [coarseTable]),
        r _ 946285 (-21) (by norm_num) (by norm_num [coarseTable]), by norm_num [coarseTable]⟩
    · exact ⟨by norm_num [coarseTable], r _ 1 0 (by norm_num) (by norm_num [coarseTable]),
        r _ 1 0 (by norm_num) (by norm_num [coarseTable]), by norm_num [coarseTable]⟩

end JaxCosmo
