import Verif.Model.FloatTracers
import Verif.Props.FloatForecast

/-! # C171: biases, clustering and alignment kernels in floating point -/

namespace JaxCosmo
open Spec

variable {A : Rounding} {L : Elem} {powr : ℝ → ℝ → ℝ} {D z dndz b H' Omega_m ell m : ℝ}

/-- C171: with exact operations these are the biases and kernels of the exact model. -/
theorem C171_exact (p : Params) (β : Bias) (z b H' D : ℝ) :
    biasF exactArith (· ^ ·) (growthOf p (z2a z)) z β = β.call p z ∧
    densityF exactArith dndz b H' = 1 * 1 * (dndz * b * H') ∧
    nlaF exactArith exactArith.elem dndz b H' Omega_m D ell
      = 1 * ellFactor ell * (dndz * b * H' * (-(5e-14 * const_rhocrit) * Omega_m / D)) ∧
    ∀ lens ia m : ℝ, [shearF exactArith lens ia m] = [lens + ia].map fun k => k * (1 + m) := by
  refine ⟨by cases β <;> rfl, ?_, ?_, fun _ _ _ => rfl⟩
  · rw [one_mul]; rfl
  · have e : ellFactorF exactArith exactArith.elem ell = ellFactor ell := by
      rw [ellFactor, sq (ell + _)]
      norm_num
      rfl
    rw [← e]
    rfl

/-- C171: the amplitude of a bias is reproduced to the last digit: everywhere for a constant bias, where the growth factor is
one for a bias that follows its inverse, and at the pivot for a power law. -/
theorem C171_pivot {b z0 eta : ℝ} (hb : A.rd b = b) (h1 : powr 1 eta = 1) (hz : 0 ≤ z0) :
    biasF A powr D z (.constant b) = b ∧ biasF A powr 1 z (.invGrowth b) = b ∧ biasF A powr D z0 (.desY1 b eta z0) = b := by
  refine ⟨by simp [biasF, Rounding.mul, hb], by simp [biasF, Rounding.div, hb], ?_⟩
  have : A.add 1 z0 ≠ 0 := (rd_pos (A := A) (by linarith : (0 : ℝ) < 1 + z0)).ne'
  simp [biasF, Rounding.mul, Rounding.div, div_self this, A.one, h1, hb]

/-- C171: the bias keeps the order of the growth factors and, with a power that keeps the order of its base, of the redshifts. -/
theorem C171_order {b z0 eta z₁ z₂ D₁ D₂ : ℝ} (hb : 0 ≤ b) (hD : 0 < D₁) (hD' : D₁ ≤ D₂) (hz0 : 0 ≤ z0) (hz : 0 ≤ z₁) (hz' : z₁ ≤ z₂)
    (hp : ∀ x y, 0 < x → x ≤ y → powr x eta ≤ powr y eta) :
    biasF A powr D₂ z (.invGrowth b) ≤ biasF A powr D₁ z (.invGrowth b) ∧
    biasF A powr D z₁ (.desY1 b eta z0) ≤ biasF A powr D z₂ (.desY1 b eta z0) := by
  constructor
  · exact A.mono (div_le_div_of_nonneg_left hb hD hD')
  · have h0 : 0 < A.add 1 z0 := rd_pos (by linarith : (0 : ℝ) < 1 + z0)
    refine A.mono (mul_le_mul_of_nonneg_left (hp _ _ ?_ ?_) hb)
    · exact rd_pos (div_pos (rd_pos (by linarith : (0 : ℝ) < 1 + z₁)) h0)
    · exact A.mono (div_le_div_of_nonneg_right (A.mono (by linarith)) h0.le)

theorem radial_near (dndz b H' : ℝ) : Near A.u 2 |dndz * b * H'| (radialF A dndz b H') (dndz * b * H') := by
  have := ((Near.self (A := A) dndz).mul (Near.self (A := A) b)).mul (Near.self (A := A) H')
  rw [← abs_mul, ← abs_mul] at this
  exact this

/-- C171: the clustering kernel is right to three roundings, has the sign of the bias, and is zero exactly where there are no
galaxies. -/
theorem C171_density (dndz b H' : ℝ) :
    |densityF A dndz b H' - dndz * b * H'| ≤ ((1 + A.u) ^ 3 - 1) * |dndz * b * H'| ∧
    (0 ≤ dndz → 0 ≤ b → 0 ≤ H' → 0 ≤ densityF A dndz b H') ∧
    (dndz = 0 → densityF A dndz b H' = 0) := by
  refine ⟨?_, fun h1 h2 h3 => ?_, fun h => ?_⟩
  · have := (radial_near (A := A) dndz b H').rd
    rw [densityF, Rounding.mul, A.one, one_mul]
    exact this.1
  · exact A.nonneg (mul_nonneg (A.nonneg zero_le_one) (A.nonneg (mul_nonneg (A.nonneg (mul_nonneg h1 h2)) h3)))
  · simp [densityF, radialF, Rounding.mul, h, A.zero]

/-- The alignment kernel without rounding. -/
noncomputable def alignment (dndz b H' Omega_m D ell : ℝ) : ℝ :=
  ellFactor ell * (dndz * b * H' * (-(5e-14 * const_rhocrit) * Omega_m / D))

theorem spin_near {q : ℕ} (hL : ∀ x, 0 ≤ x → Near A.u q √x (L.sqrt x) √x) (hl : 1 ≤ ell) :
    Near A.u (q + 13) (ellFactor ell) (ellFactorF A L ell) (ellFactor ell) :=
  ⟨C169_spin_partial hL hl, by rw [abs_of_nonneg (C50_range ell hl).1]⟩

theorem nla_near {q : ℕ} (hL : ∀ x, 0 ≤ x → Near A.u q √x (L.sqrt x) √x) (hl : 1 ≤ ell) (dndz b H' Omega_m D : ℝ) :
    Near A.u (q + 21) |alignment dndz b H' Omega_m D ell| (nlaF A L dndz b H' Omega_m D ell) (alignment dndz b H' Omega_m D ell) := by
  have hn := (((Near.self (A := A) (-(5e-14 * const_rhocrit))).rd.mul (Near.self (A := A) Omega_m)).div D)
  have he := (Near.self (A := A) 1).mul (spin_near hL hl)
  rw [abs_one, one_mul] at he
  have := (he.mul ((radial_near (A := A) dndz b H').mul hn)).mono (by omega : _ ≤ q + 21)
  rw [alignment, abs_mul, abs_mul (dndz * b * H') (_ / _), abs_div, abs_mul (-_) Omega_m, abs_of_nonneg (C50_range ell hl).1]
  exact this

/-- C171: the alignment kernel has a small relative error, the sign opposite to the bias, and is zero where there are no galaxies. -/
theorem C171_alignment {q : ℕ} (hL : ∀ x, 0 ≤ x → Near A.u q √x (L.sqrt x) √x) (hl : 1 ≤ ell) (dndz b H' Omega_m D : ℝ) :
    |nlaF A L dndz b H' Omega_m D ell - alignment dndz b H' Omega_m D ell|
      ≤ ((1 + A.u) ^ (q + 21) - 1) * |alignment dndz b H' Omega_m D ell| ∧
    ((∀ x, 0 ≤ L.sqrt x) → 0 ≤ dndz → 0 ≤ b → 0 ≤ H' → 0 ≤ Omega_m → 0 < D → nlaF A L dndz b H' Omega_m D ell ≤ 0) ∧
    (dndz = 0 → nlaF A L dndz b H' Omega_m D ell = 0) := by
  refine ⟨(nla_near hL hl ..).1, fun hs h1 h2 h3 h4 h5 => ?_, fun h => ?_⟩
  · have np : ∀ {x : ℝ}, x ≤ 0 → A.rd x ≤ 0 := fun h => (A.mono h).trans A.zero.le
    have e : 0 ≤ A.mul 1 (ellFactorF A L ell) :=
      A.nonneg (mul_nonneg zero_le_one (A.nonneg (div_nonneg (hs _) (A.nonneg (mul_self_nonneg _)))))
    have r : 0 ≤ radialF A dndz b H' := A.nonneg (mul_nonneg (A.nonneg (mul_nonneg h1 h2)) h3)
    have n : nlaNormF A Omega_m D ≤ 0 :=
      np (div_nonpos_of_nonpos_of_nonneg (np (mul_nonpos_of_nonpos_of_nonneg (np (by norm_num [const_rhocrit])) h4)) h5.le)
    exact np (mul_nonpos_of_nonneg_of_nonpos e (np (mul_nonpos_of_nonneg_of_nonpos r n)))
  · simp [nlaF, radialF, Rounding.mul, h, A.zero]

/-- The lensing kernel without rounding, for a given row. -/
noncomputable def lensing (Omega_m ell row : ℝ) : ℝ := 3 * const_H0 ^ 2 * Omega_m / 2 / const_c * ellFactor ell * row

theorem lens_near {q : ℕ} (hL : ∀ x, 0 ≤ x → Near A.u q √x (L.sqrt x) √x) (hl : 1 ≤ ell) (Omega_m row : ℝ) :
    Near A.u (q + 21) |lensing Omega_m ell row| (lensKernelF A L Omega_m ell row) (lensing Omega_m ell row) := by
  have hc : (0 : ℝ) < const_c := by norm_num [const_c]
  have h1 := ((((Near.self (A := A) (3 * const_H0 ^ 2)).rd.mul (Near.self (A := A) Omega_m)).div 2).div_rd hc).rd
  have := ((h1.mul (spin_near hL hl)).mul (Near.self (A := A) row)).mono (by omega : _ ≤ q + 21)
  rw [lensing, abs_mul, abs_mul, abs_div, abs_div, abs_mul, abs_of_nonneg (C50_range ell hl).1, abs_of_pos hc]
  exact this

/-- C171: lensing and alignments together, against the sum of their sizes.  What is missing is a bound by the kernel itself. -/
theorem C171_shear_partial {q : ℕ} (hL : ∀ x, 0 ≤ x → Near A.u q √x (L.sqrt x) √x) (hl : 1 ≤ ell) (row dndz b H' Omega_m D m : ℝ) :
    |shearF A (lensKernelF A L Omega_m ell row) (nlaF A L dndz b H' Omega_m D ell) m
        - (lensing Omega_m ell row + alignment dndz b H' Omega_m D ell) * (1 + m)|
      ≤ ((1 + A.u) ^ (q + 24) - 1)
        * ((|lensing Omega_m ell row| + |alignment dndz b H' Omega_m D ell|) * |1 + m|) :=
  ((((lens_near hL hl Omega_m row).add (nla_near hL hl dndz b H' Omega_m D)).mul (Near.self (A := A) (1 + m)).rd).mono
    (by omega : _ ≤ q + 24)).1

/-- C171: away from cancellation the relative error is small: alignments at most half of lensing, or of the same sign. -/
theorem C171_safe {q : ℕ} (hL : ∀ x, 0 ≤ x → Near A.u q √x (L.sqrt x) √x) (hl : 1 ≤ ell) (row dndz b H' Omega_m D m : ℝ)
    (h : 2 * |alignment dndz b H' Omega_m D ell| ≤ |lensing Omega_m ell row| ∨
      0 ≤ lensing Omega_m ell row * alignment dndz b H' Omega_m D ell) :
    |shearF A (lensKernelF A L Omega_m ell row) (nlaF A L dndz b H' Omega_m D ell) m
        - (lensing Omega_m ell row + alignment dndz b H' Omega_m D ell) * (1 + m)|
      ≤ 3 * ((1 + A.u) ^ (q + 24) - 1) * |(lensing Omega_m ell row + alignment dndz b H' Omega_m D ell) * (1 + m)| := by
  refine (C171_shear_partial hL hl row dndz b H' Omega_m D m).trans ?_
  have g := one_le_growth (A := A) (q + 24)
  generalize lensing Omega_m ell row = x at *
  generalize alignment dndz b H' Omega_m D ell = y at *
  have hs : |x| + |y| ≤ 3 * |x + y| := by
    rcases h with h | h
    · have := abs_sub_abs_le_abs_sub x (-y)
      rw [abs_neg, sub_neg_eq_add] at this
      linarith
    · rw [(abs_add_eq_add_abs_iff x y).2 (by rcases mul_nonneg_iff.1 h with h | h <;> tauto)]
      linarith [abs_nonneg x, abs_nonneg y]
  rw [abs_mul, mul_comm 3, mul_assoc, ← mul_assoc 3]
  exact mul_le_mul_of_nonneg_left (mul_le_mul_of_nonneg_right hs (abs_nonneg _)) (by linarith)

/-- Where the kernel is positive it is not computed as negative. -/
def ShearSign (A : Rounding) (L : Elem) : Prop := ∀ row dndz b H' Omega_m D : ℝ, ∀ l : ℕ, 2 ≤ l → 0 ≤ row → 0 ≤ dndz → 0 ≤ b → 0 ≤ H' →
  0 < Omega_m → 0 < D → 0 < lensing Omega_m l row + alignment dndz b H' Omega_m D l →
    0 ≤ shearF A (lensKernelF A L Omega_m l row) (nlaF A L dndz b H' Omega_m D l) 0

theorem float32_neg (x : ℝ) : float32.rd (-x) = -float32.rd x := roundBinary_neg _ _

/-- C171: in single precision, with the best possible square root, lensing and alignments that nearly cancel have the wrong sign. -/
theorem C171_refuted : ¬ ShearSign float32 float32.elem := by
  intro h
  have := h 1415 1 (1306273 / 65536) 128 (1 / 4) (1 / 2) 436 (by norm_num) (by norm_num) (by norm_num) (by norm_num) (by norm_num)
    (by norm_num) (by norm_num) ?_
  · rw [Nat.cast_ofNat] at this
    have hl : lensKernelF float32 float32.elem (1 / 4) 436 1415 = 9279703 / 524288 := by
      have a : float32.rd (3 * const_H0 ^ 2) = 30000 := by
        rw [show (3 * const_H0 ^ 2 : ℝ) = 30000 by norm_num [const_H0]]; exact float32_dyadic 30000 0 (by norm_num) (by norm_num)
      have b : float32.rd (30000 * (1 / 4)) = 7500 := by
        rw [float32_dyadic 7500 0 (by norm_num) (by norm_num)]; norm_num
      have c : float32.rd (7500 / 2) = 3750 := by
        rw [float32_dyadic 3750 0 (by norm_num) (by norm_num)]; norm_num
      have d : float32.rd const_c = 9593359 / 32 := by
        rw [const_c, float32_to 9593359 18 (by norm_num) (by norm_num) (Or.inl (by norm_num [abs_lt]))]; norm_num
      have e : float32.rd (3750 / (9593359 / 32)) = 1678883 / 134217728 := by
        rw [float32_to 13431064 (-7) (by norm_num) (by norm_num) (Or.inl (by norm_num [abs_lt]))]; norm_num
      have f : float32.rd (1678883 / 134217728 * (16777107 / 16777216)) = 13430977 / 1073741824 := by
        rw [float32_to 13430977 (-7) (by norm_num) (by norm_num) (Or.inl (by norm_num [abs_lt]))]; norm_num
      have g : float32.rd (13430977 / 1073741824 * 1415) = 9279703 / 524288 := by
        rw [float32_to 9279703 4 (by norm_num) (by norm_num) (Or.inl (by norm_num [abs_lt]))]; norm_num
      simp only [lensKernelF, lensConstF, spin_436, Rounding.mul, Rounding.div, a, b, c, d, e, f, g]
    have hn : nlaF float32 float32.elem 1 (1306273 / 65536) 128 (1 / 4) (1 / 2) 436 = -(1159963 / 65536) := by
      have a : float32.rd (1 * (16777107 / 16777216)) = 16777107 / 16777216 := by
        rw [float32_dyadic 16777107 (-24) (by norm_num) (by norm_num)]; norm_num
      have b : float32.rd (1 * (1306273 / 65536)) = 1306273 / 65536 := by
        rw [float32_dyadic 1306273 (-16) (by norm_num) (by norm_num)]; norm_num
      have c : float32.rd (1306273 / 65536 * 128) = 1306273 / 512 := by
        rw [float32_dyadic 1306273 (-9) (by norm_num) (by norm_num)]; norm_num
      have d : float32.rd (5e-14 * const_rhocrit) = 1862271 / 134217728 := by
        rw [const_rhocrit, float32_to 14898168 (-7) (by norm_num) (by norm_num) (Or.inl (by norm_num [abs_lt]))]; norm_num
      have e : float32.rd (1862271 / 134217728 * (1 / 4)) = 1862271 / 536870912 := by
        rw [float32_dyadic 1862271 (-29) (by norm_num) (by norm_num)]; norm_num
      have f : float32.rd (1862271 / 536870912 / (1 / 2)) = 1862271 / 268435456 := by
        rw [float32_dyadic 1862271 (-28) (by norm_num) (by norm_num)]; norm_num
      have g : float32.rd (1306273 / 512 * (1862271 / 268435456)) = 2319941 / 131072 := by
        rw [float32_to 9279764 4 (by norm_num) (by norm_num) (Or.inl (by norm_num [abs_lt]))]; norm_num
      have i : float32.rd (16777107 / 16777216 * (2319941 / 131072)) = 1159963 / 65536 := by
        rw [float32_to 9279704 4 (by norm_num) (by norm_num) (Or.inl (by norm_num [abs_lt]))]; norm_num
      simp only [nlaF, nlaNormF, radialF, spin_436, Rounding.mul, Rounding.div, float32_neg, neg_mul, mul_neg, neg_div, a, b, c, d, e, f, g, i]
    rw [hl, hn] at this
    have s : float32.rd (9279703 / 524288 + -(1159963 / 65536)) = -(1 / 524288) := by
      rw [float32_dyadic (-1) (-19) (by norm_num) (by norm_num)]; norm_num
    have o : float32.rd (-(1 / 524288)) = -(1 / 524288) := by
      rw [float32_dyadic (-1) (-19) (by norm_num) (by norm_num)]
    simp only [shearF, Rounding.mul, Rounding.add, s, add_zero, float32.one, mul_one, o] at this
    norm_num at this
  · have hp : 0 < ellFactor ((436 : ℕ) : ℝ) := by
      rw [ellFactor]
      norm_num
    have : lensing (1 / 4) ((436 : ℕ) : ℝ) 1415 + alignment 1 (1306273 / 65536) 128 (1 / 4) (1 / 2) ((436 : ℕ) : ℝ)
        = ellFactor ((436 : ℕ) : ℝ) * (3 * const_H0 ^ 2 * (1 / 4) / 2 / const_c * 1415
          - 5e-14 * const_rhocrit * (1 / 4) / (1 / 2) * (1306273 / 65536 * 128)) := by
      rw [lensing, alignment]; ring
    rw [this]
    refine mul_pos hp ?_
    norm_num [const_H0, const_c, const_rhocrit]

/-- A bias of 1.5, a power law pivoting at redshift one half, and a library that rounds the exact power. -/
example : biasF float32 (fun x y => float32.rd (x ^ y)) 1 (1 / 2) (.desY1 (3 / 2) 0.7 (1 / 2)) = 3 / 2 ∧
    biasF float32 (fun x y => float32.rd (x ^ y)) 1 0.2 (.desY1 (3 / 2) 0.7 (1 / 2))
      ≤ biasF float32 (fun x y => float32.rd (x ^ y)) 1 0.3 (.desY1 (3 / 2) 0.7 (1 / 2)) :=
  ⟨(C171_pivot (A := float32) (powr := fun x y => float32.rd (x ^ y)) (b := 3 / 2) (z0 := 1 / 2) (eta := 0.7) (z := 0) (D := 1)
      (float32_dyadic 3 (-1) (by norm_num) (by norm_num)) (by rw [Real.one_rpow, float32.one]) (by norm_num)).2.2,
    (C171_order (A := float32) (powr := fun x y => float32.rd (x ^ y)) (b := 3 / 2) (z0 := 1 / 2) (eta := 0.7) (z := 0) (D := 1)
      (z₁ := 0.2) (z₂ := 0.3) (D₁ := 1) (D₂ := 1) (by norm_num) (by norm_num) le_rfl (by norm_num) (by norm_num) (by norm_num)
      fun x y hx hy => float32.mono (Real.rpow_le_rpow hx.le hy (by norm_num))).2⟩

example : nlaF float32 float32.elem 1 1 128 (1 / 4) (1 / 2) 436 ≤ 0 ∧
    |nlaF float32 float32.elem 1 1 128 (1 / 4) (1 / 2) 436 - alignment 1 1 128 (1 / 4) (1 / 2) 436|
      ≤ ((1 + float32.u) ^ 22 - 1) * |alignment 1 1 128 (1 / 4) (1 / 2) 436| :=
  have h := C171_alignment (A := float32) (L := float32.elem) (ell := 436) rounded_sqrt (by norm_num) 1 1 128 (1 / 4) (1 / 2)
  ⟨h.2.1 (fun x => float32.nonneg (Real.sqrt_nonneg x)) (by norm_num) (by norm_num) (by norm_num) (by norm_num) (by norm_num), h.1⟩

end JaxCosmo
