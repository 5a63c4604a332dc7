import Verif.Props.Simpson
import Verif.Props.Quadrature
import Verif.Props.KdeMoments
import Mathlib.Analysis.Real.Pi.Bounds
import Mathlib.Analysis.Complex.ExponentialBounds

/-! # C153: redshift distributions integrate to one -/

namespace JaxCosmo
open MeasureTheory Set

/-- Number of galaxies of a distribution: its integral over the range it is normalised on. -/
noncomputable def totalNumber (nz : Nz) : ℝ := ∫ z in (0 : ℝ)..nz.zmax, nz.eval z

theorem totalNumber_eq {nz : Nz} (hd : nz.isDelta = false) :
    totalNumber nz = (∫ z in (0 : ℝ)..nz.zmax, nz.pzFn z) / nz.computedNorm := by
  unfold totalNumber
  simp only [Nz.eval_extended hd]
  rw [intervalIntegral.integral_div]

theorem totalNumber_error {nz : Nz} (hd : nz.isDelta = false) (h0 : nz.computedNorm ≠ 0) :
    |totalNumber nz - 1| = |nz.computedNorm - ∫ z in (0 : ℝ)..nz.zmax, nz.pzFn z| / |nz.computedNorm| := by
  rw [totalNumber_eq hd, div_sub_one h0, abs_div, abs_sub_comm]

/-- C153: what is returned is the true density times the number of galaxies above; clustering spectra carry the
square of it. -/
theorem C153_density {nz : Nz} (hd : nz.isDelta = false) (h0 : (∫ z in (0 : ℝ)..nz.zmax, nz.pzFn z) ≠ 0) (z : ℝ) :
    nz.eval z = totalNumber nz * (nz.pzFn z / ∫ z in (0 : ℝ)..nz.zmax, nz.pzFn z) := by
  rw [totalNumber_eq hd, Nz.eval_extended hd]
  field_simp

/-- C153: the integral is one to within the variation of the distribution over two of the 256 steps. -/
theorem C153_modulus {nz : Nz} (hd : nz.isDelta = false) (hz : 0 ≤ nz.zmax) (h0 : nz.computedNorm ≠ 0)
    (hc : ContinuousOn nz.pzFn (Icc 0 nz.zmax)) {ω : ℝ}
    (hω : ∀ x ∈ Icc 0 nz.zmax, ∀ y ∈ Icc 0 nz.zmax, |x - y| ≤ nz.zmax / 128 → |nz.pzFn x - nz.pzFn y| ≤ ω) :
    |totalNumber nz - 1| ≤ nz.zmax * ω / |nz.computedNorm| := by
  rw [totalNumber_error hd h0]
  refine div_le_div_of_nonneg_right ?_ (abs_nonneg _)
  have hs : simps nz.pzFn 0 nz.zmax 256 = .ok nz.computedNorm := by simp [simps, Nz.computedNorm]
  have := C94_simps_modulus hz hc (by norm_num) hs (ω := ω) (fun x hx y hy h => hω x hx y hy (by
    refine h.trans_eq ?_
    push_cast
    ring))
  simpa using this

/-! ### The error of Simpson's rule on a Gaussian -/

theorem hermite_bound (t : ℝ) (ht : 0 ≤ t) : |t ^ 2 - 6 * t + 3| * Real.exp (-(t / 2)) ≤ 3 := by
  have h := Real.quadratic_le_exp_of_nonneg (x := t / 2) (by positivity)
  have he := Real.exp_pos (t / 2)
  rw [Real.exp_neg, ← div_eq_mul_inv, div_le_iff₀ he, abs_le]
  constructor
  · nlinarith [sq_nonneg (t - 18 / 11)]
  · have h3 := Real.sum_le_exp_of_nonneg (x := t / 2) (by positivity) 4
    simp only [Finset.sum_range_succ, Finset.sum_range_zero, Nat.factorial] at h3
    norm_num at h3
    nlinarith [mul_nonneg ht (sq_nonneg (t - 5)), sq_nonneg t]

section
variable {bw X : ℝ}

/-- The exponential of the kernel. -/
noncomputable def bell (bw X z : ℝ) : ℝ := Real.exp (-((X - z) ^ 2) / (bw ^ 2 * 2))

theorem kdeKernel_eq_bell (bw X z : ℝ) : Nz.kdeKernel bw X z = 1 / √(2 * Real.pi) / bw * bell bw X z := rfl

theorem bell_deriv (hb : 0 < bw) (z : ℝ) : HasDerivAt (bell bw X) (bell bw X z * ((X - z) / bw ^ 2)) z := by
  have h1 : HasDerivAt (fun z => -((X - z) ^ 2) / (bw ^ 2 * 2)) ((X - z) / bw ^ 2) z := by
    refine HasDerivAt.congr_deriv ((((hasDerivAt_id z).const_sub X).pow 2).neg.div_const _) ?_
    simp only [id]
    field_simp
    ring
  exact h1.exp

theorem bell_poly (hb : 0 < bw) {P P' : ℝ → ℝ} (z : ℝ) (hP : HasDerivAt P (P' z) z) :
    HasDerivAt (fun z => bell bw X z * P z) (bell bw X z * (P' z + P z * ((X - z) / bw ^ 2))) z :=
  ((bell_deriv hb z).mul hP).congr_deriv (by ring)

theorem bell_error (hb : 0 < bw) {zm : ℝ} (hz : 0 ≤ zm) :
    |simpsBody (bell bw X) 0 zm 256 - ∫ z in (0 : ℝ)..zm, bell bw X z| ≤ zm ^ 5 * (3 / bw ^ 4) / (180 * 256 ^ 4) := by
  have hbne := hb.ne'
  have hX : ∀ z, HasDerivAt (fun z => X - z) (-1) z := fun z => (hasDerivAt_id z).const_sub X
  have hs : simps (bell bw X) 0 zm 256 = .ok (simpsBody (bell bw X) 0 zm 256) := by simp [simps]
  have hcont : Continuous (bell bw X) := by unfold bell; fun_prop
  have := C23_error_bound (f1 := fun z => bell bw X z * ((X - z) / bw ^ 2))
    (f2 := fun z => bell bw X z * (((X - z) / bw ^ 2) ^ 2 - 1 / bw ^ 2))
    (f3 := fun z => bell bw X z * (((X - z) / bw ^ 2) ^ 3 - 3 / bw ^ 2 * ((X - z) / bw ^ 2)))
    (f4 := fun z => bell bw X z * (((X - z) / bw ^ 2) ^ 4 - 6 / bw ^ 2 * ((X - z) / bw ^ 2) ^ 2 + 3 / bw ^ 4))
    (M := 3 / bw ^ 4) hz hcont.continuousOn (fun z _ => bell_deriv hb z)
    (fun z _ => by
      refine (bell_poly hb (P := fun z => (X - z) / bw ^ 2) (P' := fun _ => -1 / bw ^ 2) z
        ((hX z).div_const _)).congr_deriv ?_
      ring)
    (fun z _ => by
      refine (bell_poly hb (P := fun z => ((X - z) / bw ^ 2) ^ 2 - 1 / bw ^ 2)
        (P' := fun z => 2 * ((X - z) / bw ^ 2) * (-1 / bw ^ 2)) z
        (((((hX z).div_const _).pow 2).sub_const _).congr_deriv (by push_cast; ring))).congr_deriv ?_
      ring)
    (fun z _ => by
      refine (bell_poly hb (P := fun z => ((X - z) / bw ^ 2) ^ 3 - 3 / bw ^ 2 * ((X - z) / bw ^ 2))
        (P' := fun z => 3 * ((X - z) / bw ^ 2) ^ 2 * (-1 / bw ^ 2) - 3 / bw ^ 2 * (-1 / bw ^ 2)) z
        (((((hX z).div_const _).pow 3).sub (((hX z).div_const _).const_mul _)).congr_deriv (by push_cast; ring))).congr_deriv ?_
      field_simp
      ring)
    (fun z _ => by
      have h := hermite_bound (((X - z) / bw) ^ 2) (by positivity)
      have e1 : bell bw X z = Real.exp (-(((X - z) / bw) ^ 2 / 2)) := by
        unfold bell; congr 1; field_simp
      have e2 : ((X - z) / bw ^ 2) ^ 4 - 6 / bw ^ 2 * ((X - z) / bw ^ 2) ^ 2 + 3 / bw ^ 4
          = ((((X - z) / bw) ^ 2) ^ 2 - 6 * ((X - z) / bw) ^ 2 + 3) / bw ^ 4 := by field_simp
      rw [e1, e2, abs_mul, abs_of_pos (Real.exp_pos _), abs_div, abs_of_pos (by positivity : 0 < bw ^ 4),
        mul_div_assoc', mul_comm]
      exact div_le_div_of_nonneg_right h (by positivity))
    256 (by norm_num) hs
  simpa using this

end

/-- Bound on the error of the norm of a kernel density estimate. -/
noncomputable def kdeNormError (bw zm : ℝ) : ℝ := 3 / √(2 * Real.pi) * (zm / bw) ^ 5 / (180 * 256 ^ 4)

theorem kdeKernel_error {bw X zm : ℝ} (hb : 0 < bw) (hz : 0 ≤ zm) :
    |simpsBody (Nz.kdeKernel bw X) 0 zm 256 - ∫ z in (0 : ℝ)..zm, Nz.kdeKernel bw X z| ≤ kdeNormError bw zm := by
  have e : Nz.kdeKernel bw X = fun z => 1 / √(2 * Real.pi) / bw * bell bw X z := rfl
  have hp : 0 < 1 / √(2 * Real.pi) / bw := by
    have : 0 < √(2 * Real.pi) := Real.sqrt_pos.2 (by positivity)
    positivity
  rw [e, simpsBody_smul, intervalIntegral.integral_const_mul, ← mul_sub, abs_mul, abs_of_pos hp]
  refine (mul_le_mul_of_nonneg_left (bell_error hb hz) hp.le).trans_eq ?_
  unfold kdeNormError
  field_simp

theorem kdeKernel_continuous (bw X : ℝ) : Continuous (Nz.kdeKernel bw X) := by
  unfold Nz.kdeKernel; fun_prop

theorem kdeSum_error {bw zm : ℝ} (hb : 0 < bw) (hz : 0 ≤ zm) (cat : List (ℝ × ℝ)) (hw : ∀ e ∈ cat, 0 ≤ e.2) :
    Continuous (fun z => (cat.map fun e => Nz.kdeKernel bw e.1 z * e.2).sum) ∧
    |simpsBody (fun z => (cat.map fun e => Nz.kdeKernel bw e.1 z * e.2).sum) 0 zm 256
      - ∫ z in (0 : ℝ)..zm, (cat.map fun e => Nz.kdeKernel bw e.1 z * e.2).sum|
      ≤ (cat.map fun e => e.2).sum * kdeNormError bw zm := by
  induction cat with
  | nil => simp [simpsBody_zero, continuous_const]
  | cons e cat ih =>
    obtain ⟨ih1, ih2⟩ := ih fun e he => hw e (by simp [he])
    have hk : Continuous fun z => e.2 * Nz.kdeKernel bw e.1 z := continuous_const.mul (kdeKernel_continuous _ _)
    have ef : (fun z => ((e :: cat).map fun e => Nz.kdeKernel bw e.1 z * e.2).sum)
        = fun z => e.2 * Nz.kdeKernel bw e.1 z + (cat.map fun e => Nz.kdeKernel bw e.1 z * e.2).sum := by
      funext z; simp [mul_comm]
    have h0 := hw e (by simp)
    simp only [ef]
    refine ⟨hk.add ih1, ?_⟩
    rw [simpsBody_add, simpsBody_smul, intervalIntegral.integral_add (hk.intervalIntegrable _ _) (ih1.intervalIntegrable _ _),
      intervalIntegral.integral_const_mul]
    have h1 := kdeKernel_error (X := e.1) hb hz
    rw [List.map_cons, List.sum_cons, add_mul]
    have e3 : ∀ a b c d : ℝ, e.2 * a + b - (e.2 * c + d) = e.2 * (a - c) + (b - d) := fun a b c d => by ring
    rw [e3]
    refine (abs_add_le _ _).trans (add_le_add ?_ ih2)
    rw [abs_mul, abs_of_nonneg h0]
    exact mul_le_mul_of_nonneg_left h1 h0

/-- C153: for a kernel density estimate with bandwidth `bw` the norm is right to within
`3/√(2π) (zmax/bw)⁵ / (180 · 256⁴)`, whatever the catalogue. -/
theorem C153_kde {cat : List (ℝ × ℝ)} {bw zm g : ℝ} (hb : 0 < bw) (hz : 0 < zm) (hw : ∀ e ∈ cat, 0 ≤ e.2)
    (hq : 0 < (cat.map fun e => e.2).sum) :
    |(Nz.kde cat bw g zm).computedNorm - ∫ z in (0 : ℝ)..zm, (Nz.kde cat bw g zm).pzFn z| ≤ kdeNormError bw zm ∧
    |totalNumber (.kde cat bw g zm) - 1| ≤ kdeNormError bw zm / (Nz.kde cat bw g zm).computedNorm := by
  set q := (cat.map fun e => e.2).sum with hqd
  have hp : 0 < (Nz.kde cat bw g zm).computedNorm :=
    simpsBody_pos hz 256 (by norm_num) (by norm_num) (fun x _ _ => (kde_pos hb hw hq g zm x).le)
      (i := 0) (by norm_num) (kde_pos hb hw hq g zm _)
  have h1 : |(Nz.kde cat bw g zm).computedNorm - ∫ z in (0 : ℝ)..zm, (Nz.kde cat bw g zm).pzFn z| ≤ kdeNormError bw zm := by
    have e : (Nz.kde cat bw g zm).pzFn = fun z => q⁻¹ * (cat.map fun e => Nz.kdeKernel bw e.1 z * e.2).sum := by
      funext z; rw [Nz.pzFn, div_eq_inv_mul]
    have e2 : (Nz.kde cat bw g zm).computedNorm
        = q⁻¹ * simpsBody (fun z => (cat.map fun e => Nz.kdeKernel bw e.1 z * e.2).sum) 0 zm 256 := by
      rw [← simpsBody_smul, Nz.computedNorm, e]; rfl
    rw [e2, e, intervalIntegral.integral_const_mul, ← mul_sub, abs_mul, abs_of_pos (inv_pos.2 hq), inv_mul_le_iff₀ hq]
    exact (kdeSum_error hb hz.le cat hw).2
  refine ⟨h1, ?_⟩
  rw [totalNumber_error rfl hp.ne', abs_of_pos hp]
  exact div_le_div_of_nonneg_right h1 hp.le

/-! ### Catalogues narrower than the grid -/

theorem simpsBody_node_le {f : ℝ → ℝ} {b M : ℝ} (hb : 0 ≤ b) (h : ∀ i ≤ 256, f (linspace 0 b (256 + 1) i) ≤ M) :
    simpsBody f 0 b 256 ≤ b * M := by
  simp only [simpsBody]
  have hs : ∑ i ∈ Finset.range (256 / 2), (f (linspace 0 b (256 + 1) (2 * i))
      + 4 * f (linspace 0 b (256 + 1) (2 * i + 1)) + f (linspace 0 b (256 + 1) (2 * i + 2)))
      ≤ ∑ i ∈ Finset.range (256 / 2), 6 * M := by
    refine Finset.sum_le_sum fun i hi => ?_
    have := Finset.mem_range.1 hi
    have h1 := h (2 * i) (by omega)
    have h2 := h (2 * i + 1) (by omega)
    have h3 := h (2 * i + 2) (by omega)
    linarith
  refine (mul_le_mul_of_nonneg_left hs (by positivity)).trans_eq ?_
  rw [Finset.sum_const, Finset.card_range]
  push_cast
  ring

theorem simpsBody_ge_node {f : ℝ → ℝ} {b : ℝ} (hb : 0 ≤ b) (hf : ∀ z, 0 ≤ f z) {i : ℕ} (hi : i < 128) :
    b / 256 / 3 * (4 * f (linspace 0 b (256 + 1) (2 * i + 1))) ≤ simpsBody f 0 b 256 := by
  simp only [simpsBody, sub_zero]
  push_cast
  refine mul_le_mul_of_nonneg_left ?_ (by positivity)
  have := Finset.single_le_sum (f := fun i => f (linspace 0 b (256 + 1) (2 * i))
      + 4 * f (linspace 0 b (256 + 1) (2 * i + 1)) + f (linspace 0 b (256 + 1) (2 * i + 2))) (s := Finset.range (256 / 2))
      (fun i _ => by
        have h1 := hf (linspace 0 b (256 + 1) (2 * i))
        have h2 := hf (linspace 0 b (256 + 1) (2 * i + 1))
        have h3 := hf (linspace 0 b (256 + 1) (2 * i + 2))
        positivity) (Finset.mem_range.2 (by omega : i < 256 / 2))
  refine le_trans ?_ this
  have h1 := hf (linspace 0 b (256 + 1) (2 * i))
  have h3 := hf (linspace 0 b (256 + 1) (2 * i + 2))
  linarith

theorem kde_one (X bw g zm : ℝ) : (Nz.kde [(X, 1)] bw g zm).pzFn = Nz.kdeKernel bw X := by
  funext z; simp [Nz.pzFn]

/-- C153: galaxies at one redshift halfway between two of the 257 nodes of the library's quadrature: the number of
galaxies comes out at least `2 bw/zmax exp(h²/(8 bw²) - 1/2)`, `h = zmax/256`. -/
theorem C153_between {bw zm g : ℝ} (hz : 0 < zm) (hb : 0 < bw) (hbh : bw ≤ zm / 512) {j : ℕ} (hj : j < 256) :
    2 * bw / zm * Real.exp ((zm / 256) ^ 2 / (8 * bw ^ 2) - 1 / 2)
      ≤ totalNumber (.kde [((j + 1 / 2) * (zm / 256), 1)] bw g zm) := by
  set h := zm / 256 with hh
  have hh0 : 0 < h := by positivity
  set X := ((j : ℝ) + 1 / 2) * h with hX
  set A := 1 / √(2 * Real.pi) / bw with hA
  have hA0 : 0 < A := by
    have : 0 < √(2 * Real.pi) := Real.sqrt_pos.2 (by positivity)
    positivity
  have hjr : (j : ℝ) ≤ 255 := by exact_mod_cast (by omega : j ≤ 255)
  have hj0 : (0 : ℝ) ≤ j := Nat.cast_nonneg j
  have hzh : zm = 256 * h := by rw [hh]; ring
  have hnorm : (Nz.kde [(X, 1)] bw g zm).computedNorm ≤ zm * (A * Real.exp (-(h ^ 2 / (8 * bw ^ 2)))) := by
    have : (Nz.kde [(X, 1)] bw g zm).computedNorm = simpsBody (Nz.kdeKernel bw X) 0 zm 256 := by
      rw [Nz.computedNorm, kde_one]; rfl
    rw [this]
    refine simpsBody_node_le hz.le fun i _ => ?_
    rw [kdeKernel_eq_bell]
    refine mul_le_mul_of_nonneg_left (Real.exp_le_exp.2 ?_) hA0.le
    have hd : h ^ 2 / 4 ≤ (X - linspace 0 zm (256 + 1) i) ^ 2 := by
      have e : X - linspace 0 zm (256 + 1) i = ((j : ℝ) - i + 1 / 2) * h := by
        rw [linspace_succ, hX, hh]; push_cast; ring
      have : (1 / 4 : ℝ) ≤ ((j : ℝ) - i + 1 / 2) ^ 2 := by
        rcases le_or_gt i j with hij | hij
        · have : (i : ℝ) ≤ j := by exact_mod_cast hij
          nlinarith
        · have : (j : ℝ) + 1 ≤ i := by exact_mod_cast hij
          nlinarith
      rw [e, mul_pow]
      nlinarith [sq_nonneg h]
    rw [neg_div, neg_le_neg_iff, div_le_div_iff₀ (by positivity) (by positivity)]
    nlinarith [mul_le_mul_of_nonneg_right hd (by positivity : 0 ≤ bw ^ 2 * 8)]
  have hint : 2 * bw * (A * Real.exp (-(1 / 2))) ≤ ∫ z in (0 : ℝ)..zm, (Nz.kde [(X, 1)] bw g zm).pzFn z := by
    rw [kde_one]
    have hc := kdeKernel_continuous bw X
    have h1 : ∫ z in (X - bw)..(X + bw), Nz.kdeKernel bw X z ≤ ∫ z in (0 : ℝ)..zm, Nz.kdeKernel bw X z :=
      intervalIntegral.integral_mono_interval (by rw [hX]; nlinarith) (by linarith) (by rw [hX]; nlinarith)
        (Filter.Eventually.of_forall fun z => (kdeKernel_pos hb X z).le) (hc.intervalIntegrable _ _)
    refine le_trans ?_ h1
    have h2 := intervalIntegral.integral_mono_on (μ := volume) (a := X - bw) (b := X + bw) (by linarith)
      (f := fun _ => A * Real.exp (-(1 / 2))) (g := Nz.kdeKernel bw X) (continuous_const.intervalIntegrable _ _)
      (hc.intervalIntegrable _ _) (fun z hzz => by
        rw [kdeKernel_eq_bell]
        refine mul_le_mul_of_nonneg_left (Real.exp_le_exp.2 ?_) hA0.le
        rw [neg_div, neg_le_neg_iff, div_le_div_iff₀ (by positivity) (by positivity)]
        nlinarith [hzz.1, hzz.2])
    refine le_trans (le_of_eq ?_) h2
    rw [intervalIntegral.integral_const, smul_eq_mul]
    ring
  have hp : 0 < (Nz.kde [(X, 1)] bw g zm).computedNorm :=
    simpsBody_pos hz 256 (by norm_num) (by norm_num) (fun x _ _ => by rw [kde_one]; exact (kdeKernel_pos hb X x).le)
      (i := 0) (by norm_num) (by rw [kde_one]; exact kdeKernel_pos hb X _)
  rw [totalNumber_eq rfl, le_div_iff₀ hp]
  refine le_trans ?_ hint
  refine (mul_le_mul_of_nonneg_left hnorm (by positivity)).trans_eq ?_
  have e : Real.exp (h ^ 2 / (8 * bw ^ 2) - 1 / 2) * Real.exp (-(h ^ 2 / (8 * bw ^ 2))) = Real.exp (-(1 / 2)) := by
    rw [← Real.exp_add]; congr 1; ring
  rw [← e]
  field_simp

/-- C153: at an odd node it comes out at most `3/4 √(2π) bw/h`. -/
theorem C153_node {bw zm g : ℝ} (hz : 0 < zm) (hb : 0 < bw) {i : ℕ} (hi : i < 128) :
    totalNumber (.kde [((2 * i + 1) * (zm / 256), 1)] bw g zm) ≤ 3 / 4 * √(2 * Real.pi) * bw / (zm / 256) := by
  set h := zm / 256 with hh
  have hh0 : 0 < h := by positivity
  set X := (2 * (i : ℝ) + 1) * h with hX
  have hs0 : 0 < √(2 * Real.pi) := Real.sqrt_pos.2 (by positivity)
  set A := 1 / √(2 * Real.pi) / bw with hA
  have hA0 : 0 < A := by positivity
  have hnorm : h / 3 * (4 * A) ≤ (Nz.kde [(X, 1)] bw g zm).computedNorm := by
    have e : (Nz.kde [(X, 1)] bw g zm).computedNorm = simpsBody (Nz.kdeKernel bw X) 0 zm 256 := by
      rw [Nz.computedNorm, kde_one]; rfl
    rw [e]
    refine le_trans (le_of_eq ?_) (simpsBody_ge_node hz.le (fun z => (kdeKernel_pos hb X z).le) hi)
    have : linspace 0 zm (256 + 1) (2 * i + 1) = X := by rw [linspace_succ, hX, hh]; push_cast; ring
    rw [this, kdeKernel_eq_bell]
    simp [bell, hh, hA]
  have hint : ∫ z in (0 : ℝ)..zm, (Nz.kde [(X, 1)] bw g zm).pzFn z ≤ 1 := by
    rw [kde_one, intervalIntegral.integral_of_le hz.le]
    have h1 := integral_pdf_mul (X := X) hb (fun _ => 1)
    simp only [one_mul] at h1
    rw [integral_const] at h1
    simp at h1
    have hi := integrable_pdf_mul (X := X) hb (f := fun _ => 1) (integrable_const _)
    simp only [one_mul] at hi
    rw [← h1]
    exact setIntegral_le_integral hi (Filter.Eventually.of_forall fun z => (kdeKernel_pos hb X z).le)
  have hlow : 0 < h / 3 * (4 * A) := by positivity
  rw [totalNumber_eq rfl]
  refine (div_le_div_of_nonneg_right hint (hlow.trans_le hnorm).le).trans ?_
  refine (one_div_le_one_div_of_le hlow hnorm).trans_eq ?_
  rw [hA]
  field_simp

/-- The default range with a bandwidth of 1/256: a catalogue at redshift 5.02 has over a hundred times its galaxies,
one at redshift 5.04 less than a fifth. -/
theorem C153_narrow : 100 ≤ totalNumber (.kde [((128 + 1 / 2) * (10 / 256), 1)] (1 / 256) 1 10) ∧
    totalNumber (.kde [((2 * 64 + 1) * (10 / 256), 1)] (1 / 256) 1 10) ≤ 1 / 5 := by
  constructor
  · have := C153_between (bw := 1 / 256) (zm := 10) (g := 1) (by norm_num) (by norm_num) (by norm_num) (j := 128) (by norm_num)
    refine le_trans ?_ (by exact_mod_cast this)
    have he : (10 / 256 : ℝ) ^ 2 / (8 * (1 / 256) ^ 2) - 1 / 2 = 12 := by norm_num
    rw [he]
    have h1 : (2.7 : ℝ) ^ 12 ≤ Real.exp 12 := by
      have := Real.exp_one_gt_d9
      rw [show (12 : ℝ) = (12 : ℕ) * 1 by norm_num, Real.exp_nat_mul]
      exact pow_le_pow_left₀ (by norm_num) (by linarith) _
    have h2 : (2.7 : ℝ) ^ 12 ≥ 128000 := by norm_num
    nlinarith
  · have := C153_node (bw := 1 / 256) (zm := 10) (g := 1) (by norm_num) (by norm_num) (i := 64) (by norm_num)
    refine le_trans (by exact_mod_cast this) ?_
    have hs : √(2 * Real.pi) ≤ 2.52 := by
      rw [Real.sqrt_le_left (by norm_num)]
      have := Real.pi_lt_d2
      nlinarith
    nlinarith

/-- C153 as stated fails. -/
theorem C153_refuted : ¬ ∀ (cat : List (ℝ × ℝ)) (bw : ℝ), 0 < bw → (∀ e ∈ cat, 0 < e.1 ∧ e.1 < 10 ∧ e.2 = 1) → cat ≠ [] →
    |totalNumber (.kde cat bw 1 10) - 1| ≤ 1 / 2 := by
  intro h
  have h1 := h [((128 + 1 / 2) * (10 / 256), 1)] (1 / 256) (by norm_num) (by
    intro e he; rw [List.mem_singleton] at he; subst he; norm_num) (by simp)
  have := C153_narrow.1
  rw [abs_le] at h1
  linarith [h1.2]

/-- C153: the documented example has bandwidth 0.1; with the default range the norm is right to two per cent. -/
example {cat : List (ℝ × ℝ)} (hw : ∀ e ∈ cat, 0 ≤ e.2) (hq : 0 < (cat.map fun e => e.2).sum) :
    |(Nz.kde cat 0.1 1 10).computedNorm - ∫ z in (0 : ℝ)..10, (Nz.kde cat 0.1 1 10).pzFn z| ≤ 0.02 := by
  refine (C153_kde (by norm_num) (by norm_num) hw hq).1.trans ?_
  have hs : 2.5 ≤ √(2 * Real.pi) := by
    rw [Real.le_sqrt (by norm_num) (by positivity)]
    have := Real.pi_gt_d2
    nlinarith
  have h3 : 3 / √(2 * Real.pi) ≤ 1.2 := by
    rw [div_le_iff₀ (by linarith)]; nlinarith
  unfold kdeNormError
  rw [div_le_iff₀ (by norm_num)]
  refine (mul_le_mul_of_nonneg_right h3 (by norm_num)).trans ?_
  norm_num

end JaxCosmo
