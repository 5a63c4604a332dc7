import Verif.Spec.Gaussian
import Mathlib.Probability.Moments.Covariance
import Mathlib.Probability.Moments.MGFAnalytic
import Mathlib.LinearAlgebra.Matrix.Symmetric

/-! # Moments of Gaussian vectors -/

namespace JaxCosmo
open MeasureTheory ProbabilityTheory Matrix Spec
open scoped NNReal

/-! ### One variable -/

theorem gaussMgf_deriv (v : ℝ) (p p' : ℝ → ℝ) (hp : ∀ t, HasDerivAt p (p' t) t) :
    deriv (fun t => p t * Real.exp (v * t ^ 2 / 2))
      = fun t => (p' t + v * t * p t) * Real.exp (v * t ^ 2 / 2) := by
  funext t
  have h1 : HasDerivAt (fun t : ℝ => v * t ^ 2 / 2) (v * t) t := by
    have := ((hasDerivAt_pow 2 t).const_mul v).div_const 2
    refine this.congr_deriv ?_
    norm_num
    ring
  rw [((hp t).fun_mul h1.exp).deriv]
  ring

theorem gauss_moment (v : ℝ≥0) : (∫ x, x ^ 2 ∂gaussianReal 0 v) = v ∧
    (∫ x, x ^ 4 ∂gaussianReal 0 v) = 3 * (v : ℝ) ^ 2 := by
  have h0 : (0 : ℝ) ∈ interior (integrableExpSet id (gaussianReal 0 v)) := by
    simp [integrableExpSet_id_gaussianReal]
  have hm : mgf id (gaussianReal 0 v) = fun t => (1 : ℝ) * Real.exp (v * t ^ 2 / 2) := by
    rw [mgf_id_gaussianReal]; funext t; ring_nf
  have d1 := gaussMgf_deriv v (fun _ => 1) (fun _ => 0) fun t => hasDerivAt_const t 1
  have d2 := gaussMgf_deriv v (fun t => v * t) (fun _ => v) fun t => by
    simpa using (hasDerivAt_id t).const_mul (v : ℝ)
  have d3 := gaussMgf_deriv v (fun t => v + v ^ 2 * t ^ 2) (fun t => 2 * v ^ 2 * t) fun t => by
    have := ((hasDerivAt_pow 2 t).const_mul ((v : ℝ) ^ 2)).const_add (v : ℝ)
    refine this.congr_deriv ?_
    norm_num
    ring
  have d4 := gaussMgf_deriv v (fun t => 3 * v ^ 2 * t + v ^ 3 * t ^ 3) (fun t => 3 * v ^ 2 + 3 * v ^ 3 * t ^ 2)
    fun t => by
    have := ((hasDerivAt_id t).const_mul (3 * (v : ℝ) ^ 2)).add
      ((hasDerivAt_pow 3 t).const_mul ((v : ℝ) ^ 3))
    refine this.congr_deriv ?_
    norm_num
    ring
  have i2 : iteratedDeriv 2 (mgf id (gaussianReal 0 v)) = fun t => (v + v ^ 2 * t ^ 2) * Real.exp (v * t ^ 2 / 2) := by
    rw [iteratedDeriv_succ, iteratedDeriv_one, hm, d1]
    simp only [zero_add, mul_one]
    rw [d2]
    funext t; ring
  have i4 : iteratedDeriv 4 (mgf id (gaussianReal 0 v))
      = fun t => (3 * v ^ 2 + 3 * v ^ 3 * t ^ 2 + v * t * (3 * v ^ 2 * t + v ^ 3 * t ^ 3))
        * Real.exp (v * t ^ 2 / 2) := by
    rw [iteratedDeriv_succ, iteratedDeriv_succ, i2, d3]
    have : (fun t : ℝ => (2 * (v : ℝ) ^ 2 * t + v * t * (v + v ^ 2 * t ^ 2)) * Real.exp (v * t ^ 2 / 2))
        = fun t => (3 * v ^ 2 * t + v ^ 3 * t ^ 3) * Real.exp (v * t ^ 2 / 2) := by
      funext t; ring
    rw [this, d4]
  have m2 := iteratedDeriv_mgf_zero h0 2
  have m4 := iteratedDeriv_mgf_zero h0 4
  rw [i2] at m2
  rw [i4] at m4
  simp at m2 m4
  exact ⟨m2.symm, m4.symm⟩

/-! ### Vectors -/

section
variable {Ω ι : Type*} [MeasurableSpace Ω] [Fintype ι] [DecidableEq ι] {P : Measure Ω}
  {X : ι → Ω → ℝ} {C : Matrix ι ι ℝ}

omit [DecidableEq ι] in
theorem Spec.GaussianVec.memLp (h : GaussianVec P X C) (t : ι → ℝ) (p : ℝ≥0) :
    MemLp (fun ω => ∑ i, t i * X i ω) p P := by
  have hm := memLp_id_gaussianReal (μ := 0) (v := (t ⬝ᵥ (C *ᵥ t)).toNNReal) p
  rw [← (h.law t).map_eq] at hm
  exact (memLp_map_measure_iff aestronglyMeasurable_id (h.law t).aemeasurable).1 hm

theorem Spec.GaussianVec.coord (h : GaussianVec P X C) (i : ι) (p : ℝ≥0) : MemLp (X i) p P := by
  have := h.memLp (Pi.single i 1) p
  simpa [Pi.single_apply] using this

omit [DecidableEq ι] in
theorem Spec.GaussianVec.second (h : GaussianVec P X C) (t : ι → ℝ) :
    ∫ ω, (∑ i, t i * X i ω) ^ 2 ∂P = t ⬝ᵥ (C *ᵥ t) := by
  have h1 := (h.law t).integral_comp (f := fun x => x ^ 2) (by fun_prop)
  simp only [Function.comp_def] at h1
  rw [h1, (gauss_moment _).1, Real.coe_toNNReal _ (h.nonneg t)]

omit [DecidableEq ι] in
theorem Spec.GaussianVec.fourth (h : GaussianVec P X C) (t : ι → ℝ) :
    ∫ ω, (∑ i, t i * X i ω) ^ 4 ∂P = 3 * (t ⬝ᵥ (C *ᵥ t)) ^ 2 := by
  have h1 := (h.law t).integral_comp (f := fun x => x ^ 4) (by fun_prop)
  simp only [Function.comp_def] at h1
  rw [h1, (gauss_moment _).2, Real.coe_toNNReal _ (h.nonneg t)]

omit [MeasurableSpace Ω] in
/-- The combination `Xₐ + e X_b + f X_c + g X_d`. -/
theorem comb_eq (a b c d : ι) (e f g : ℝ) (ω : Ω) :
    ∑ i, (Pi.single a (1 : ℝ) + Pi.single b e + Pi.single c f + Pi.single d g : ι → ℝ) i * X i ω
      = X a ω + e * X b ω + f * X c ω + g * X d ω := by
  simp [add_mul, Finset.sum_add_distrib, Pi.single_apply]

theorem quad_eq (hC : C.IsSymm) (a b c d : ι) (e f g : ℝ) :
    (Pi.single a (1 : ℝ) + Pi.single b e + Pi.single c f + Pi.single d g : ι → ℝ)
        ⬝ᵥ (C *ᵥ (Pi.single a 1 + Pi.single b e + Pi.single c f + Pi.single d g))
      = C a a + e ^ 2 * C b b + f ^ 2 * C c c + g ^ 2 * C d d
        + 2 * (e * C a b + f * C a c + g * C a d + e * f * C b c + e * g * C b d + f * g * C c d) := by
  have hs : ∀ i j, C j i = C i j := fun i j => hC.apply i j
  simp only [mulVec_add, dotProduct_add, add_dotProduct, single_dotProduct, mulVec_single,
    MulOpposite.op_one, one_smul, one_mul, Pi.smul_apply, col_apply, MulOpposite.smul_eq_mul_unop,
    MulOpposite.unop_op]
  rw [hs a b, hs a c, hs a d, hs b c, hs b d, hs c d]
  ring

theorem Spec.GaussianVec.four (h : GaussianVec P X C) (a b c d : ι) (e f g : ℝ) :
    Integrable (fun ω => (X a ω + e * X b ω + f * X c ω + g * X d ω) ^ 4) P ∧
    ∫ ω, (X a ω + e * X b ω + f * X c ω + g * X d ω) ^ 4 ∂P
      = 3 * (C a a + e ^ 2 * C b b + f ^ 2 * C c c + g ^ 2 * C d d
        + 2 * (e * C a b + f * C a c + g * C a d + e * f * C b c + e * g * C b d + f * g * C c d)) ^ 2 := by
  have h4 := h.fourth (Pi.single a (1 : ℝ) + Pi.single b e + Pi.single c f + Pi.single d g)
  have hL := h.memLp (Pi.single a (1 : ℝ) + Pi.single b e + Pi.single c f + Pi.single d g) 4
  simp only [comb_eq, quad_eq h.symm] at h4 hL
  refine ⟨?_, h4⟩
  have := hL.integrable_norm_pow (p := 4) (by norm_num)
  refine this.congr (Filter.Eventually.of_forall fun ω => ?_)
  simp only [Real.norm_eq_abs]
  exact Even.pow_abs (by decide) _

/-- Wick's theorem for four centred Gaussian variables. -/
theorem Spec.GaussianVec.wick4 (h : GaussianVec P X C) (a b c d : ι) :
    Integrable (fun ω => X a ω * X b ω * (X c ω * X d ω)) P ∧
    ∫ ω, X a ω * X b ω * (X c ω * X d ω) ∂P
      = C a b * C c d + C a c * C b d + C a d * C b c := by
  let e : Bool → ℝ := fun x => if x then 1 else -1
  have key : (fun ω => X a ω * X b ω * (X c ω * X d ω)) = fun ω => ∑ s : Bool × Bool × Bool,
      e s.1 * e s.2.1 * e s.2.2 / 192
        * (X a ω + e s.1 * X b ω + e s.2.1 * X c ω + e s.2.2 * X d ω) ^ 4 := by
    funext ω
    simp only [Fintype.sum_prod_type, Fintype.sum_bool, e, if_true, Bool.false_eq_true, if_false]
    ring
  rw [key]
  have hi : ∀ s : Bool × Bool × Bool, Integrable (fun ω => e s.1 * e s.2.1 * e s.2.2 / 192
        * (X a ω + e s.1 * X b ω + e s.2.1 * X c ω + e s.2.2 * X d ω) ^ 4) P := fun s =>
    (h.four a b c d _ _ _).1.const_mul _
  refine ⟨integrable_finsetSum _ fun s _ => hi s, ?_⟩
  rw [integral_finsetSum _ fun s _ => hi s]
  simp only [integral_const_mul, (h.four a b c d _ _ _).2]
  simp only [Fintype.sum_prod_type, Fintype.sum_bool, e, if_true, Bool.false_eq_true, if_false]
  ring

/-- Second moments. -/
theorem Spec.GaussianVec.two (h : GaussianVec P X C) (a b : ι) :
    Integrable (fun ω => X a ω * X b ω) P ∧ ∫ ω, X a ω * X b ω ∂P = C a b := by
  have hi : ∀ e : ℝ, Integrable (fun ω => (X a ω + e * X b ω) ^ 2) P ∧
      ∫ ω, (X a ω + e * X b ω) ^ 2 ∂P = C a a + e ^ 2 * C b b + 2 * (e * C a b) := fun e => by
    have h2 := h.second (Pi.single a (1 : ℝ) + Pi.single b e + Pi.single b 0 + Pi.single b 0)
    have hL := h.memLp (Pi.single a (1 : ℝ) + Pi.single b e + Pi.single b 0 + Pi.single b 0) 2
    simp only [comb_eq, quad_eq h.symm] at h2 hL
    simp only [zero_mul, add_zero, mul_zero, ne_eq, OfNat.ofNat_ne_zero, not_false_eq_true, zero_pow]
      at h2 hL
    exact ⟨hL.integrable_sq, h2⟩
  have key : (fun ω => X a ω * X b ω) = fun ω => (1 / 4 : ℝ) * ((X a ω + 1 * X b ω) ^ 2
      - (X a ω + (-1) * X b ω) ^ 2) := by
    funext ω; ring
  rw [key]
  refine ⟨((hi 1).1.sub (hi (-1)).1).const_mul _, ?_⟩
  rw [integral_const_mul, integral_sub (hi 1).1 (hi (-1)).1, (hi 1).2, (hi (-1)).2]
  ring

theorem Spec.GaussianVec.prod_memLp (h : GaussianVec P X C) (a b : ι) :
    MemLp (fun ω => X a ω * X b ω) 2 P := by
  have hm := (h.coord a 4).1.mul (h.coord b 4).1
  refine (memLp_two_iff_integrable_sq hm).2 ?_
  have := (h.wick4 a b a b).1
  refine this.congr (Filter.Eventually.of_forall fun ω => ?_)
  simp only [Pi.mul_apply]
  ring

/-- Wick's covariance is the covariance of products. -/
theorem Spec.GaussianVec.cov_prod [IsProbabilityMeasure P] (h : GaussianVec P X C) (a b c d : ι) :
    cov[fun ω => X a ω * X b ω, fun ω => X c ω * X d ω; P] = C a c * C b d + C a d * C b c := by
  rw [covariance_eq_sub (h.prod_memLp a b) (h.prod_memLp c d)]
  simp only [Pi.mul_apply]
  rw [(h.wick4 a b c d).2, (h.two a b).2, (h.two c d).2]
  ring

end
end JaxCosmo
