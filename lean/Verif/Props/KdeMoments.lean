import Verif.Props.Redshift
import Mathlib.Probability.Distributions.Gaussian.Real

/-! # C93: moments of the kernel density estimate

`kde_nz` is the weighted mixture of Gaussians of width `bw` at the catalogue redshifts: its mean
is the weighted mean of the catalogue, its second moment that of the catalogue plus `bw²`. -/

namespace JaxCosmo
open MeasureTheory ProbabilityTheory
open scoped NNReal

/-- `bw²` as a variance. -/
def bandVar (bw : ℝ) : ℝ≥0 := ⟨bw ^ 2, sq_nonneg bw⟩

theorem bandVar_ne {bw : ℝ} (hb : 0 < bw) : bandVar bw ≠ 0 := by
  intro h
  have := congrArg NNReal.toReal h
  change bw ^ 2 = 0 at this
  exact (pow_pos hb 2).ne' this

/-- The kernel is the Gaussian density. -/
theorem kdeKernel_gaussian {bw : ℝ} (hb : 0 < bw) (X x : ℝ) :
    Nz.kdeKernel bw X x = gaussianPDFReal X (bandVar bw) x := by
  have hv : ((bandVar bw : ℝ≥0) : ℝ) = bw ^ 2 := rfl
  rw [gaussianPDFReal, Nz.kdeKernel, hv, Real.sqrt_mul (by positivity : (0 : ℝ) ≤ 2 * Real.pi) (bw ^ 2),
    Real.sqrt_sq hb.le]
  have e : (X - x) ^ 2 = (x - X) ^ 2 := by ring
  rw [e, mul_comm (bw ^ 2) 2, mul_inv, one_div, div_eq_mul_inv]

theorem integrable_pdf_mul {bw X : ℝ} (hb : 0 < bw) {f : ℝ → ℝ}
    (hf : Integrable f (gaussianReal X (bandVar bw))) :
    Integrable fun z => f z * Nz.kdeKernel bw X z := by
  rw [gaussianReal_of_var_ne_zero X (bandVar_ne hb)] at hf
  rw [integrable_withDensity_iff_integrable_smul' (measurable_gaussianPDF _ _)
    (Filter.Eventually.of_forall fun x => gaussianPDF_lt_top)] at hf
  refine hf.congr (Filter.Eventually.of_forall fun z => ?_)
  simp only [toReal_gaussianPDF, smul_eq_mul]
  rw [kdeKernel_gaussian hb, mul_comm]

theorem integral_pdf_mul {bw X : ℝ} (hb : 0 < bw) (f : ℝ → ℝ) :
    ∫ z, f z * Nz.kdeKernel bw X z = ∫ z, f z ∂gaussianReal X (bandVar bw) := by
  rw [integral_gaussianReal_eq_integral_smul (bandVar_ne hb)]
  refine integral_congr_ae (Filter.Eventually.of_forall fun z => ?_)
  simp only [smul_eq_mul]
  rw [kdeKernel_gaussian hb, mul_comm]

theorem integral_list_sum {f : ℝ → ℝ} {bw : ℝ} (hb : 0 < bw) (cat : List (ℝ × ℝ))
    (hf : ∀ e ∈ cat, Integrable f (gaussianReal e.1 (bandVar bw))) :
    Integrable (fun z => f z * (cat.map fun e => Nz.kdeKernel bw e.1 z * e.2).sum) ∧
    ∫ z, f z * (cat.map fun e => Nz.kdeKernel bw e.1 z * e.2).sum
      = (cat.map fun e => e.2 * ∫ z, f z ∂gaussianReal e.1 (bandVar bw)).sum := by
  induction cat with
  | nil => simp
  | cons e cat ih =>
    obtain ⟨i1, i2⟩ := ih fun e he => hf e (List.mem_cons_of_mem _ he)
    have h0 := (integrable_pdf_mul hb (hf e List.mem_cons_self)).const_mul e.2
    have hfun : (fun z => f z * ((e :: cat).map fun e => Nz.kdeKernel bw e.1 z * e.2).sum)
        = fun z => e.2 * (f z * Nz.kdeKernel bw e.1 z)
          + f z * (cat.map fun e => Nz.kdeKernel bw e.1 z * e.2).sum := by
      funext z
      simp only [List.map_cons, List.sum_cons]
      ring
    rw [hfun]
    refine ⟨h0.add i1, ?_⟩
    rw [integral_add h0 i1, i2, integral_const_mul, integral_pdf_mul hb, List.map_cons, List.sum_cons]

/-- C93: expectations under the estimate are weighted means of expectations under Gaussians centred
at the catalogue redshifts. -/
theorem C93_mixture {bw : ℝ} (hb : 0 < bw) (cat : List (ℝ × ℝ)) (g zm : ℝ) {f : ℝ → ℝ}
    (hf : ∀ e ∈ cat, Integrable f (gaussianReal e.1 (bandVar bw))) :
    ∫ z, f z * (Nz.kde cat bw g zm).pzFn z
      = (cat.map fun e => e.2 * ∫ z, f z ∂gaussianReal e.1 (bandVar bw)).sum
        / (cat.map fun e => e.2).sum := by
  have := (integral_list_sum hb cat hf).2
  rw [← this, ← integral_div]
  refine integral_congr_ae (Filter.Eventually.of_forall fun z => ?_)
  simp only [Nz.pzFn]
  ring

/-- C93: the mean redshift is the weighted mean of the catalogue. -/
theorem C93_mean {bw : ℝ} (hb : 0 < bw) (cat : List (ℝ × ℝ)) (g zm : ℝ) :
    ∫ z, z * (Nz.kde cat bw g zm).pzFn z
      = (cat.map fun e => e.2 * e.1).sum / (cat.map fun e => e.2).sum := by
  have := C93_mixture hb cat g zm (f := fun z => z) fun e _ =>
    (memLp_id_gaussianReal (μ := e.1) (v := bandVar bw) 1).integrable (by norm_num)
  simpa only [integral_id_gaussianReal] using this

theorem gaussian_second {X : ℝ} {v : ℝ≥0} :
    Integrable (fun z : ℝ => z ^ 2) (gaussianReal X v) ∧ ∫ z, z ^ 2 ∂gaussianReal X v = X ^ 2 + v := by
  have h2 : MemLp (fun z : ℝ => z) 2 (gaussianReal X v) := memLp_id_gaussianReal (μ := X) (v := v) 2
  refine ⟨h2.integrable_sq, ?_⟩
  have hv := variance_fun_id_gaussianReal (μ := X) (v := v)
  rw [variance_eq_sub h2, integral_id_gaussianReal] at hv
  simp only [Pi.pow_apply] at hv
  linarith

/-- C93: the second moment is that of the catalogue plus the squared bandwidth. -/
theorem C93_second {bw : ℝ} (hb : 0 < bw) (cat : List (ℝ × ℝ)) (g zm : ℝ) :
    ∫ z, z ^ 2 * (Nz.kde cat bw g zm).pzFn z
      = (cat.map fun e => e.2 * (e.1 ^ 2 + bw ^ 2)).sum / (cat.map fun e => e.2).sum := by
  have := C93_mixture hb cat g zm (f := fun z => z ^ 2) fun e _ => gaussian_second.1
  simp only [gaussian_second.2] at this
  exact this

/-- C93 on a catalogue of two galaxies with weights 1 and 3: mean 7/8. -/
example : ∫ z, z * (Nz.kde [(1 / 2, 1), (1, 3)] (1 / 10) 1 10).pzFn z = 7 / 8 := by
  rw [C93_mean (by norm_num)]
  norm_num

end JaxCosmo
