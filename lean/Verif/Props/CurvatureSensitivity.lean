import Verif.Props.GrowthSensitivity
import Mathlib.Analysis.SpecialFunctions.Trigonometric.DerivHyp

/-! # C87: derivative of the transverse distance with respect to curvature -/

namespace JaxCosmo
open Spec

/-! ## `sinh √y / √y` across zero -/

/-- `sinh √y / √y`, continued to `y ≤ 0` as `sin √(-y) / √(-y)`. -/
noncomputable def curv (y : ℝ) : ℝ :=
  if y < 0 then Real.sin (Real.sqrt (-y)) / Real.sqrt (-y)
  else if y = 0 then 1 else Real.sinh (Real.sqrt y) / Real.sqrt y

theorem sinh_bound {x : ℝ} (hx : |x| ≤ 1) : |Real.sinh x - (x + x ^ 3 / 6)| ≤ |x| ^ 5 / 100 := by
  have h1 := Real.exp_bound hx (n := 5) (by norm_num)
  have h2 := Real.exp_bound (x := -x) (by rwa [abs_neg]) (n := 5) (by norm_num)
  simp only [Finset.sum_range_succ, Finset.sum_range_zero] at h1 h2
  norm_num [Nat.factorial] at h1 h2
  rw [abs_le] at h1 h2 ⊢
  rw [Real.sinh_eq]
  constructor <;> nlinarith [h1.1, h1.2, h2.1, h2.2]

theorem curv_bound {y : ℝ} (hy : |y| ≤ 1) : |curv y - 1 - y / 6| ≤ |y| ^ 2 / 100 := by
  rcases lt_trichotomy y 0 with h | h | h
  · have hs : 0 < Real.sqrt (-y) := Real.sqrt_pos.2 (by linarith)
    have hsq : Real.sqrt (-y) ^ 2 = -y := Real.sq_sqrt (by linarith)
    rw [curv, if_pos h]
    have hx1 : |Real.sqrt (-y)| ≤ 1 := by
      rw [abs_of_neg h] at hy
      rw [abs_of_pos hs, Real.sqrt_le_iff]; exact ⟨zero_le_one, by linarith⟩
    generalize Real.sqrt (-y) = x at *
    have hb := Real.sin_bound hx1
    rw [abs_of_pos hs] at hb
    obtain rfl : y = -x ^ 2 := by linarith
    have e : Real.sin x / x - 1 - -x ^ 2 / 6 = (Real.sin x - (x - x ^ 3 / 6)) / x := by
      field_simp; ring
    rw [e, abs_div, abs_of_pos hs, div_le_iff₀ hs]
    refine hb.trans (le_of_eq ?_)
    rw [abs_neg, abs_of_nonneg (sq_nonneg x)]; ring
  · simp [h, curv]
  · have hs : 0 < Real.sqrt y := Real.sqrt_pos.2 h
    have hsq : Real.sqrt y ^ 2 = y := Real.sq_sqrt h.le
    rw [curv, if_neg (by linarith), if_neg h.ne']
    have hx1 : |Real.sqrt y| ≤ 1 := by
      rw [abs_of_pos h] at hy
      rw [abs_of_pos hs, Real.sqrt_le_iff]; exact ⟨zero_le_one, by linarith⟩
    generalize Real.sqrt y = x at *
    have hb := sinh_bound hx1
    rw [abs_of_pos hs] at hb
    obtain rfl : y = x ^ 2 := hsq.symm
    have e : Real.sinh x / x - 1 - x ^ 2 / 6 = (Real.sinh x - (x + x ^ 3 / 6)) / x := by
      field_simp; ring
    rw [e, abs_div, abs_of_pos hs, div_le_iff₀ hs]
    refine hb.trans (le_of_eq ?_)
    rw [abs_of_nonneg (sq_nonneg x)]; ring

theorem curv_zero : curv 0 = 1 := by simp [curv]

theorem curv_deriv_zero : HasDerivAt curv (1 / 6) 0 := by
  rw [hasDerivAt_iff_isLittleO_nhds_zero]
  refine Asymptotics.IsBigO.trans_isLittleO (g := fun y : ℝ => y ^ 2) ?_ ?_
  · refine Asymptotics.IsBigO.of_bound (1 / 100) ?_
    filter_upwards [Metric.closedBall_mem_nhds (0 : ℝ) one_pos] with y hy
    have hy' : |y| ≤ 1 := by simpa using hy
    have := curv_bound hy'
    rw [Real.norm_eq_abs, Real.norm_eq_abs, zero_add, curv_zero, smul_eq_mul, abs_pow,
      show curv y - 1 - y * (1 / 6) = curv y - 1 - y / 6 by ring]
    linarith
  · exact Asymptotics.isLittleO_pow_id (by norm_num)

theorem curv_diff (y : ℝ) : DifferentiableAt ℝ curv y := by
  rcases lt_trichotomy y 0 with h | rfl | h
  · have hs : 0 < Real.sqrt (-y) := Real.sqrt_pos.2 (by linarith)
    have hd : DifferentiableAt ℝ (fun y => Real.sqrt (-y)) y :=
      differentiableAt_id.neg.sqrt (by simpa using h.ne)
    refine (hd.sin.fun_div hd hs.ne').congr_of_eventuallyEq ?_
    filter_upwards [gt_mem_nhds h] with z hz
    rw [curv, if_pos hz]
  · exact curv_deriv_zero.differentiableAt
  · have hs : 0 < Real.sqrt y := Real.sqrt_pos.2 h
    have hd : DifferentiableAt ℝ (fun y => Real.sqrt y) y := differentiableAt_id.sqrt h.ne'
    refine (hd.sinh.fun_div hd hs.ne').congr_of_eventuallyEq ?_
    filter_upwards [lt_mem_nhds h] with z hz
    rw [curv, if_neg (by linarith), if_neg hz.ne']

/-- The transverse distance as a smooth function of curvature and radial distance. -/
theorem transverse_curv (p : Params) {chi : ℝ} (h0 : 0 ≤ chi) :
    transverseOf p chi = chi * curv (p.Omega_k * (chi / const_rh) ^ 2) := by
  have hrh : 0 < const_rh := by norm_num [const_rh]
  rcases h0.eq_or_lt with rfl | h0
  · rw [zero_mul]
    rcases lt_trichotomy p.Omega_k 0 with h | h | h
    · rw [transverseOf_closed p h]; simp
    · rw [transverseOf_flat p h]
    · rw [transverseOf_open p h]; simp
  have hr : 0 < chi / const_rh := by positivity
  rcases lt_trichotomy p.Omega_k 0 with h | h | h
  · have hneg : p.Omega_k * (chi / const_rh) ^ 2 < 0 := mul_neg_of_neg_of_pos h (by positivity)
    have hs : Real.sqrt (-(p.Omega_k * (chi / const_rh) ^ 2)) = Real.sqrt (-p.Omega_k) * (chi / const_rh) := by
      rw [← neg_mul, Real.sqrt_mul (by linarith), Real.sqrt_sq hr.le]
    have h1 : 0 < Real.sqrt (-p.Omega_k) := Real.sqrt_pos.2 (by linarith)
    rw [transverseOf_closed p h, curv, if_pos hneg, hs, mul_div_assoc]
    field_simp
  · rw [transverseOf_flat p h, h, zero_mul, curv_zero, mul_one]
  · have hpos : 0 < p.Omega_k * (chi / const_rh) ^ 2 := by positivity
    have hs : Real.sqrt (p.Omega_k * (chi / const_rh) ^ 2) = Real.sqrt p.Omega_k * (chi / const_rh) := by
      rw [Real.sqrt_mul h.le, Real.sqrt_sq hr.le]
    have h1 : 0 < Real.sqrt p.Omega_k := Real.sqrt_pos.2 h
    rw [transverseOf_open p h, curv, if_neg (by linarith), if_neg hpos.ne', hs, mul_div_assoc]
    field_simp

section
variable {P : ℝ → Params} {v : Params} {θ : ℝ}

theorem chi_diff' (h : Along P v θ) (hE : EsqrPos (P θ)) (a : ℝ) :
    DifferentiableAt ℝ (fun s => chiOf (P s) a) θ := by
  rcases lt_or_ge a 1 with ha | ha
  · exact (C83_distance h hE ha).differentiableAt
  · exact (C83_today h hE ha).differentiableAt

/-- C87: the transverse distance is a differentiable function of all parameters, also across
`Ω_k = 0`. -/
theorem C87_differentiable (h : Along P v θ) (hE : EsqrPos (P θ)) (a : ℝ) :
    DifferentiableAt ℝ (fun s => transverseOf (P s) (chiOf (P s) a)) θ := by
  have hc := chi_diff' h hE a
  have e : (fun s => transverseOf (P s) (chiOf (P s) a))
      = fun s => chiOf (P s) a * curv ((P s).Omega_k * (chiOf (P s) a / const_rh) ^ 2) :=
    funext fun s => transverse_curv _ (C06_nonneg _ _ _ _)
  rw [e]
  exact hc.mul ((curv_diff _).comp θ (h.Omega_k.differentiableAt.mul ((hc.div_const _).pow 2)))

/-- C87: in a flat universe its derivative is `χ' + Ω_k' χ³/(6 R_H²)`. -/
theorem C87_flat (h : Along P v θ) (hflat : (P θ).Omega_k = 0) {a χ' : ℝ}
    (hc : HasDerivAt (fun s => chiOf (P s) a) χ' θ) :
    HasDerivAt (fun s => transverseOf (P s) (chiOf (P s) a))
      (χ' + v.Omega_k * chiOf (P θ) a ^ 3 / (6 * const_rh ^ 2)) θ := by
  have e : (fun s => transverseOf (P s) (chiOf (P s) a))
      = fun s => chiOf (P s) a * curv ((P s).Omega_k * (chiOf (P s) a / const_rh) ^ 2) :=
    funext fun s => transverse_curv _ (C06_nonneg _ _ _ _)
  rw [e]
  have hin := h.Omega_k.mul ((hc.div_const const_rh).pow 2)
  have hcu := curv_deriv_zero
  have h0 : (P θ).Omega_k * (chiOf (P θ) a / const_rh) ^ 2 = 0 := by rw [hflat, zero_mul]
  rw [← h0] at hcu
  have := hc.mul (HasDerivAt.comp θ hcu hin)
  refine this.congr_deriv ?_
  have hrh : const_rh ≠ 0 := by norm_num [const_rh]
  simp only [Function.comp_apply, Pi.mul_apply, Pi.pow_apply, h0, curv_zero]
  rw [hflat]
  field_simp
  ring

/-- C87 as far as it is true: where the universe is curved, differentiating the selected branch gives
the derivative of the transverse distance.  In flat universes it does not (`C87_refuted`). -/
theorem C87_partial (h : Along P v θ) (hcurved : (P θ).Omega_k ≠ 0) {a d : ℝ}
    (hd : HasDerivAt (fun s => curvatureBranch (P θ).k (P s).Omega_k const_rh (chiOf (P s) a)) d θ) :
    HasDerivAt (fun s => transverseOf (P s) (chiOf (P s) a)) d θ := by
  refine hd.congr_of_eventuallyEq ?_
  have hcont := h.Omega_k.continuousAt
  rcases lt_or_gt_of_ne hcurved with hk | hk
  · filter_upwards [hcont.eventually (gt_mem_nhds hk)] with s hs
    have e : (P θ).k = 1 := by simp [Params.k, sgn, hk]
    rw [transverseOf_closed _ hs, curvatureBranch, e, abs_of_neg hs]
    norm_num
  · filter_upwards [hcont.eventually (lt_mem_nhds hk)] with s hs
    have e : (P θ).k = -1 := by simp [Params.k, sgn, hk.not_gt, hk.ne']
    rw [transverseOf_open _ hs, curvatureBranch, e, abs_of_pos hs]
    norm_num

/-- C87: at a flat universe, when the curvature varies, the derivative of the selected branch is never
the derivative of the transverse distance to anything in the past. -/
theorem C87_flat_wrong (h : Along P v θ) (hE : EsqrPos (P θ)) (hflat : (P θ).Omega_k = 0)
    (hv : v.Omega_k ≠ 0) {a d : ℝ} (ha : a < 1)
    (hd : HasDerivAt (fun s => curvatureBranch (P θ).k (P s).Omega_k const_rh (chiOf (P s) a)) d θ) :
    ¬ HasDerivAt (fun s => transverseOf (P s) (chiOf (P s) a)) d θ := by
  intro hd'
  have e : (P θ).k = 0 := by simp [Params.k, sgn, hflat]
  have hb : HasDerivAt (fun s => chiOf (P s) a) d θ := by
    simpa [curvatureBranch, e] using hd
  have := hd'.unique (C87_flat h hflat hb)
  have hpos := C06_pos_before (p := P θ) (lo := -3) (n := 256) (by norm_num) (by norm_num) hE ha
  have hpos' : 0 < chiOf (P θ) a := hpos
  have hrh : 0 < const_rh := by norm_num [const_rh]
  have h0 : v.Omega_k * chiOf (P θ) a ^ 3 / (6 * const_rh ^ 2) = 0 := by linarith
  rw [div_eq_zero_iff] at h0
  rcases h0 with h0 | h0
  · rcases mul_eq_zero.1 h0 with h0 | h0
    · exact hv h0
    · exact (pow_pos hpos' 3).ne' h0
  · exact (by positivity : (6 * const_rh ^ 2 : ℝ) ≠ 0) h0

end

/-- Planck 2015 with curvature `s`. -/
noncomputable def curvedPlanck (s : ℝ) : Params := { Planck15 with Omega_k := s }

theorem curvedPlanck_along (s : ℝ) : Along curvedPlanck
    { Omega_c := 0, Omega_b := 0, h := 0, n_s := 0, sigma8 := 0, Omega_k := 1, w0 := 0, wa := 0,
      gamma := none } s where
  Omega_c := hasDerivAt_const _ _
  Omega_b := hasDerivAt_const _ _
  h := hasDerivAt_const _ _
  n_s := hasDerivAt_const _ _
  sigma8 := hasDerivAt_const _ _
  Omega_k := hasDerivAt_id _
  w0 := hasDerivAt_const _ _
  wa := hasDerivAt_const _ _
  gamma := fun _ => rfl

theorem curvedPlanck_zero : curvedPlanck 0 = Planck15 := by simp [curvedPlanck, Planck15]

/-- C87 as stated is false: with respect to `Ω_k` in the Planck 2015 cosmology. -/
theorem C87_refuted : ¬ ∀ (P : ℝ → Params) (v : Params) (θ a d : ℝ), Along P v θ → EsqrPos (P θ) →
    HasDerivAt (fun s => curvatureBranch (P θ).k (P s).Omega_k const_rh (chiOf (P s) a)) d θ →
    HasDerivAt (fun s => transverseOf (P s) (chiOf (P s) a)) d θ := by
  intro H
  have hE : EsqrPos (curvedPlanck 0) := by rw [curvedPlanck_zero]; exact planck_EsqrPos
  have e : (curvedPlanck 0).k = 0 := by simp [Params.k, sgn, curvedPlanck]
  have hd : HasDerivAt (fun s => curvatureBranch (curvedPlanck 0).k (curvedPlanck s).Omega_k const_rh
      (chiOf (curvedPlanck s) (1 / 2))) (deriv (fun s => chiOf (curvedPlanck s) (1 / 2)) 0) 0 := by
    simp only [e, curvatureBranch, lt_irrefl, if_false, if_true]
    exact (chi_diff' (curvedPlanck_along 0) hE (1 / 2)).hasDerivAt
  exact C87_flat_wrong (curvedPlanck_along 0) hE rfl one_ne_zero (by norm_num) hd
    (H _ _ _ _ _ (curvedPlanck_along 0) hE hd)

/-- Witness for `C87_differentiable` in the Planck 2015 cosmology (which is flat). -/
example : DifferentiableAt ℝ (fun s => transverseOf (curvedPlanck s) (chiOf (curvedPlanck s) (1 / 2))) 0 :=
  C87_differentiable (curvedPlanck_along 0) (by rw [curvedPlanck_zero]; exact planck_EsqrPos) _

/-- Witness for `C87_partial` in an open universe. -/
example : ∃ d, HasDerivAt
      (fun s => transverseOf (curvedPlanck s) (chiOf (curvedPlanck s) (1 / 2))) d (1 / 10) := by
  have hE : EsqrPos (curvedPlanck (1 / 10)) := fun a ha _ => C05_Esqr_pos _ a ha
    (by norm_num [curvedPlanck, Planck15, Params.Omega_m]) (by norm_num [curvedPlanck])
    (by norm_num [curvedPlanck, Planck15, Params.Omega_de, Params.Omega, Params.Omega_m])
  have hc := chi_diff' (curvedPlanck_along (1 / 10)) hE (1 / 2)
  have e : (curvedPlanck (1 / 10)).k = -1 := by norm_num [Params.k, sgn, curvedPlanck]
  have hs : DifferentiableAt ℝ (fun s : ℝ => Real.sqrt |(curvedPlanck s).Omega_k|) (1 / 10) := by
    refine (differentiableAt_id.sqrt (by norm_num)).congr_of_eventuallyEq ?_
    filter_upwards [lt_mem_nhds (show (0 : ℝ) < 1 / 10 by norm_num)] with s hs
    simp [curvedPlanck, abs_of_pos hs]
  have hs0 : Real.sqrt |(curvedPlanck (1 / 10)).Omega_k| ≠ 0 :=
    (Real.sqrt_pos.2 (by norm_num [curvedPlanck])).ne'
  have hd : DifferentiableAt ℝ (fun s => curvatureBranch (curvedPlanck (1 / 10)).k
      (curvedPlanck s).Omega_k const_rh (chiOf (curvedPlanck s) (1 / 2))) (1 / 10) := by
    simp only [e, curvatureBranch]
    norm_num
    exact ((differentiableAt_const _).fun_div hs hs0).mul ((hs.mul hc).div_const _).sinh
  exact ⟨_, C87_partial (curvedPlanck_along (1 / 10)) (by norm_num [curvedPlanck]) hd.hasDerivAt⟩

end JaxCosmo
