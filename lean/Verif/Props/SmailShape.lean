import Verif.Props.Redshift
import Mathlib.Analysis.SpecialFunctions.Pow.Deriv
import Mathlib.Analysis.SpecialFunctions.Log.Deriv
import Mathlib.Analysis.Calculus.Deriv.MeanValue
import Mathlib.Analysis.SpecialFunctions.Pow.Asymptotics

/-! # C92: shape of the Smail distribution

Whatever was evaluated before, `smail_nz(a, b, z0)` is a multiple of `z^a exp(-(z/z0)^b)`: its
logarithmic slope is `a - b (z/z0)^b`, so it rises up to `z0 (a/b)^(1/b)`, falls afterwards and
vanishes at high redshift. -/

namespace JaxCosmo
open Set

variable {a b z0 g zm : ℝ}

theorem smailNorm_pos (hzm : 0 < zm) : 0 < (Nz.smail a b z0 g zm).computedNorm := by
  refine simpsBody_pos hzm 256 (by norm_num) (by norm_num) ?_ (i := 0) (by norm_num) ?_
  · intro x hx _
    unfold Nz.pzFn
    have := Real.rpow_nonneg hx a
    positivity
  · refine smail_pos ?_ g zm
    rw [linspace_succ]
    positivity

/-- The value of a Smail distribution at `z`, after evaluations at `zs`. -/
noncomputable def smailAt (a b z0 g zm : ℝ) (zs : List ℝ) (z : ℝ) : ℝ :=
  (((NzObj.new (.smail a b z0 g zm)).after zs).call z).2

theorem smailAt_eq (zs : List ℝ) (z : ℝ) : smailAt a b z0 g zm zs z
    = z ^ a * Real.exp (-((z / z0) ^ b)) / (Nz.smail a b z0 g zm).computedNorm := by
  rw [smailAt, C45_history, Nz.eval_extended rfl]
  rfl

/-- C92: relative abundances. -/
theorem C92_ratio (hzm : 0 < zm) (zs zs' : List ℝ) {z z' : ℝ} (hz : 0 < z)
    (hz' : 0 < z') :
    smailAt a b z0 g zm zs z' / smailAt a b z0 g zm zs' z
      = Real.exp (a * Real.log (z' / z) - ((z' / z0) ^ b - (z / z0) ^ b)) := by
  have hN := (smailNorm_pos (a := a) (b := b) (z0 := z0) (g := g) hzm).ne'
  rw [smailAt_eq, smailAt_eq, div_div_div_cancel_right₀ hN, Real.rpow_def_of_pos hz',
    Real.rpow_def_of_pos hz, ← Real.exp_add, ← Real.exp_add, ← Real.exp_sub,
    Real.log_div hz'.ne' hz.ne']
  congr 1
  ring

/-- C92: the logarithmic slope is `a - b (z/z0)^b`. -/
theorem C92_slope (hz0 : 0 < z0) (zs : List ℝ) {z : ℝ} (hz : 0 < z) :
    HasDerivAt (smailAt a b z0 g zm zs)
      (smailAt a b z0 g zm zs z / z * (a - b * (z / z0) ^ b)) z := by
  have hf : smailAt a b z0 g zm zs
      = fun z => z ^ a * Real.exp (-((z / z0) ^ b)) / (Nz.smail a b z0 g zm).computedNorm :=
    funext fun z => smailAt_eq zs z
  have hd : 0 < z / z0 := div_pos hz hz0
  have h1 := Real.hasDerivAt_rpow_const (x := z) (p := a) (Or.inl hz.ne')
  have h2 : HasDerivAt (fun z => (z / z0) ^ b) (1 / z0 * b * (z / z0) ^ (b - 1)) z :=
    ((hasDerivAt_id z).div_const z0).rpow_const (Or.inl hd.ne')
  have h3 := (h1.fun_mul h2.fun_neg.exp).div_const (Nz.smail a b z0 g zm).computedNorm
  rw [hf]
  refine h3.congr_deriv ?_
  simp only
  rw [Real.rpow_sub_one hz.ne', Real.rpow_sub_one hd.ne']
  have := hz.ne'
  have := hz0.ne'
  field_simp
  ring

theorem smailAt_pos (hzm : 0 < zm) (zs : List ℝ) {z : ℝ} (hz : 0 < z) :
    0 < smailAt a b z0 g zm zs z := by
  rw [smailAt_eq]
  have := smailNorm_pos (a := a) (b := b) (z0 := z0) (g := g) hzm
  have := Real.rpow_pos_of_pos hz a
  positivity

/-- The redshift of the peak. -/
theorem smail_peak (ha : 0 < a) (hb : 0 < b) (hz0 : 0 < z0) {z : ℝ} (hz : 0 < z) :
    (z < z0 * (a / b) ^ (1 / b) ↔ b * (z / z0) ^ b < a) ∧
      (z0 * (a / b) ^ (1 / b) < z ↔ a < b * (z / z0) ^ b) := by
  have hab : 0 < a / b := div_pos ha hb
  have hd : 0 < z / z0 := div_pos hz hz0
  have hc : ((a / b) ^ (1 / b)) ^ b = a / b := by
    rw [← Real.rpow_mul hab.le, one_div_mul_cancel hb.ne', Real.rpow_one]
  have hp : 0 ≤ (a / b) ^ (1 / b) := Real.rpow_nonneg hab.le _
  constructor
  · rw [← div_lt_iff₀' hz0, ← Real.rpow_lt_rpow_iff hd.le hp hb, hc, lt_div_iff₀' hb]
  · rw [← lt_div_iff₀' hz0, ← Real.rpow_lt_rpow_iff hp hd.le hb, hc, div_lt_iff₀' hb]

/-- C92: rising before the peak. -/
theorem C92_rise (ha : 0 < a) (hb : 0 < b) (hz0 : 0 < z0) (hzm : 0 < zm) (zs : List ℝ) :
    StrictMonoOn (smailAt a b z0 g zm zs) (Ioc 0 (z0 * (a / b) ^ (1 / b))) := by
  refine strictMonoOn_of_deriv_pos (convex_Ioc _ _)
    (fun z hz => (C92_slope hz0 zs hz.1).continuousAt.continuousWithinAt) fun z hz => ?_
  rw [interior_Ioc] at hz
  rw [(C92_slope hz0 zs hz.1).deriv]
  have h1 := ((smail_peak ha hb hz0 hz.1).1).1 hz.2
  have := smailAt_pos (a := a) (b := b) (z0 := z0) (g := g) hzm zs hz.1
  have := hz.1
  have : 0 < a - b * (z / z0) ^ b := by linarith
  positivity

/-- C92: falling after the peak. -/
theorem C92_fall (ha : 0 < a) (hb : 0 < b) (hz0 : 0 < z0) (hzm : 0 < zm) (zs : List ℝ) :
    StrictAntiOn (smailAt a b z0 g zm zs) (Ici (z0 * (a / b) ^ (1 / b))) := by
  have hpk : 0 < z0 * (a / b) ^ (1 / b) := mul_pos hz0 (Real.rpow_pos_of_pos (div_pos ha hb) _)
  refine strictAntiOn_of_deriv_neg (convex_Ici _)
    (fun z hz => (C92_slope hz0 zs (hpk.trans_le hz)).continuousAt.continuousWithinAt) fun z hz => ?_
  rw [interior_Ici] at hz
  have hz' : 0 < z := hpk.trans hz
  rw [(C92_slope hz0 zs hz').deriv]
  have h1 := ((smail_peak ha hb hz0 hz').2).1 hz
  have := smailAt_pos (a := a) (b := b) (z0 := z0) (g := g) hzm zs hz'
  exact mul_neg_of_pos_of_neg (by positivity) (by linarith)

/-- C92: no galaxies at infinite redshift. -/
theorem C92_tail (hb : 0 < b) (hz0 : 0 < z0) (zs : List ℝ) :
    Filter.Tendsto (smailAt a b z0 g zm zs) Filter.atTop (nhds 0) := by
  have h1 := tendsto_rpow_mul_exp_neg_mul_atTop_nhds_zero (a / b) 1 one_pos
  have h2 : Filter.Tendsto (fun z : ℝ => (z / z0) ^ b) Filter.atTop Filter.atTop :=
    (tendsto_rpow_atTop hb).comp (Filter.tendsto_id.atTop_div_const hz0)
  have h3 := ((h1.comp h2).const_mul (z0 ^ a)).div_const (Nz.smail a b z0 g zm).computedNorm
  rw [mul_zero, zero_div] at h3
  refine h3.congr' ?_
  filter_upwards [Filter.eventually_gt_atTop 0] with z hz
  have hd : 0 < z / z0 := div_pos hz hz0
  rw [smailAt_eq]
  simp only [Function.comp]
  rw [← Real.rpow_mul hd.le, mul_div_cancel₀ _ hb.ne', Real.div_rpow hz.le hz0.le, neg_one_mul,
    ← mul_assoc, mul_div_cancel₀ _ (Real.rpow_pos_of_pos hz0 a).ne']

/-- C92 for `smail_nz(1, 2, 1)`: more galaxies at `z = 1/2` than at `z = 1/4`, fewer at `z = 2` than
at `z = 1`. -/
example : smailAt 1 2 1 1 10 [] (1 / 4) < smailAt 1 2 1 1 10 [3] (1 / 2) ∧
    smailAt 1 2 1 1 10 [] 2 < smailAt 1 2 1 1 10 [] 1 := by
  have hpk : (1 : ℝ) / 2 ≤ 1 * (1 / 2) ^ ((1 : ℝ) / 2) := by
    rw [one_mul]
    calc (1 : ℝ) / 2 = (1 / 2) ^ (1 : ℝ) := by rw [Real.rpow_one]
      _ ≤ _ := Real.rpow_le_rpow_of_exponent_ge (by norm_num) (by norm_num) (by norm_num)
  have hpk' : (1 : ℝ) * (1 / 2) ^ ((1 : ℝ) / 2) ≤ 1 := by
    rw [one_mul]; exact Real.rpow_le_one (by norm_num) (by norm_num) (by norm_num)
  constructor
  · have := C92_rise (a := 1) (b := 2) (z0 := 1) (g := 1) (zm := 10) one_pos two_pos one_pos
      (by norm_num) [] ⟨by norm_num, le_trans (by norm_num : (1 : ℝ) / 4 ≤ 1 / 2) hpk⟩
      ⟨by norm_num, hpk⟩ (by norm_num : (1 : ℝ) / 4 < 1 / 2)
    have e : smailAt 1 2 1 1 10 [3] (1 / 2) = smailAt 1 2 1 1 10 [] (1 / 2) := by
      rw [smailAt_eq, smailAt_eq]
    rw [e]; exact this
  · exact C92_fall (a := 1) (b := 2) (z0 := 1) (g := 1) (zm := 10) one_pos two_pos one_pos
      (by norm_num) [] (mem_Ici.2 hpk') (mem_Ici.2 (hpk'.trans (by norm_num))) (by norm_num)

end JaxCosmo
