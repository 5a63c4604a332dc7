import Verif.Props.MovingCovariance

/-! # C130: minus the Hessian of the likelihood as a Fisher matrix, when the covariance moves -/

namespace JaxCosmo
open MeasureTheory ProbabilityTheory Matrix Spec

section
variable {N : ℕ} {θ : ℝ} {C C₁ : ℝ → Matrix (Fin N) (Fin N) ℝ} {C₂ : Matrix (Fin N) (Fin N) ℝ}
  {μ μ₁ : ℝ → Fin N → ℝ} {μ₂ : Fin N → ℝ}

/-- Second derivative of minus half the quadratic form. -/
noncomputable def chiCurv (W C₁ C₂ : Matrix (Fin N) (Fin N) ℝ) (r m₁ m₂ : Fin N → ℝ) : ℝ :=
  -(m₁ ⬝ᵥ (W *ᵥ m₁)) - 2 * (r ⬝ᵥ ((W * C₁ * W) *ᵥ m₁)) + r ⬝ᵥ (W *ᵥ m₂)
    - r ⬝ᵥ ((W * C₁ * W * C₁ * W) *ᵥ r) + 1 / 2 * (r ⬝ᵥ ((W * C₂ * W) *ᵥ r))

theorem dot_symm {A : Matrix (Fin N) (Fin N) ℝ} (hA : A.IsSymm) (u v : Fin N → ℝ) :
    u ⬝ᵥ (A *ᵥ v) = v ⬝ᵥ (A *ᵥ u) := by
  rw [dotProduct_mulVec, ← mulVec_transpose, hA, dotProduct_comm]

theorem quad_curvature (data : Fin N → ℝ) (hC : MatDeriv C (C₁ θ) θ) (hC₁ : MatDeriv C₁ C₂ θ)
    (hμ : ∀ i, HasDerivAt (fun s => μ s i) (μ₁ θ i) θ) (hμ₁ : ∀ i, HasDerivAt (fun s => μ₁ s i) (μ₂ i) θ)
    (hpd : (C θ).PosDef) (hs : ∀ s, (C s).IsSymm) :
    HasDerivAt (fun s => fisher (C s) (data - μ s) (μ₁ s)
        + 1 / 2 * ((data - μ s) ⬝ᵥ (((C s)⁻¹ * C₁ s * (C s)⁻¹) *ᵥ (data - μ s))))
      (chiCurv (C θ)⁻¹ (C₁ θ) C₂ (data - μ θ) (μ₁ θ) μ₂) θ := by
  have hr : ∀ i, HasDerivAt (fun s => (data - μ s) i) ((-μ₁ θ) i) θ := fun i => (hμ i).const_sub (data i)
  have hW := hC.inv hpd.det_pos.ne'
  have hQ := (hW.mul hC₁).mul hW
  have h1 := vec_dot_deriv hr (mulVec_deriv hW hμ₁)
  have h2 := vec_dot_deriv hr (mulVec_deriv hQ hr)
  have sC₁ : (C₁ θ).IsSymm := by
    have : MatDeriv C (C₁ θ)ᵀ θ := by
      have := hC.transpose
      simp only [(hs _).eq] at this
      exact this
    exact this.unique hC
  have sW : ((C θ)⁻¹).IsSymm := by rw [Matrix.IsSymm, transpose_nonsing_inv, symm_of_posDef hpd]
  refine (h1.add (h2.const_mul (1 / 2))).congr_deriv ?_
  generalize (C θ)⁻¹ = W at *
  generalize data - μ θ = r at *
  generalize C₁ θ = A at *
  generalize μ₁ θ = m at *
  have sQ : (W * A * W).IsSymm := by
    rw [Matrix.IsSymm, transpose_mul, transpose_mul, sW.eq, sC₁.eq, Matrix.mul_assoc]
  have e1 : m ⬝ᵥ ((W * A * W) *ᵥ r) = r ⬝ᵥ ((W * A * W) *ᵥ m) := dot_symm sQ m r
  have e2 : (-(W * A * W) * A + W * C₂) * W + W * A * -(W * A * W)
      = W * C₂ * W - (W * A * W * A * W + W * A * W * A * W) := by
    noncomm_ring
  rw [e2, chiCurv]
  simp only [neg_dotProduct, dotProduct_add, dotProduct_neg, neg_mulVec, mulVec_neg, sub_mulVec, add_mulVec,
    dotProduct_sub, e1]
  ring

/-- Derivative of the trace term. -/
theorem trace_curvature (hC : MatDeriv C (C₁ θ) θ) (hC₁ : MatDeriv C₁ C₂ θ) (hpd : (C θ).PosDef) :
    HasDerivAt (fun s => ((C s)⁻¹ * C₁ s).trace)
      (((C θ)⁻¹ * C₂).trace - ((C θ)⁻¹ * C₁ θ * (C θ)⁻¹ * C₁ θ).trace) θ := by
  have h := (hC.inv hpd.det_pos.ne').mul hC₁
  have h' : HasDerivAt (fun s => ∑ i, ((C s)⁻¹ * C₁ s) i i) _ θ := HasDerivAt.fun_sum fun i _ => h i i
  refine h'.congr_deriv ?_
  rw [← trace_sub]
  refine congrArg Matrix.trace ?_
  noncomm_ring

/-- C130: along any twice differentiable curve of means and covariances the value returned has a second
derivative, and this is its formula. -/
theorem C130_hessian (data : Fin N → ℝ) (hC : ∀ᶠ s in nhds θ, MatDeriv C (C₁ s) s) (hC₁ : MatDeriv C₁ C₂ θ)
    (hμ : ∀ᶠ s in nhds θ, ∀ i, HasDerivAt (fun s => μ s i) (μ₁ s i) s)
    (hμ₁ : ∀ i, HasDerivAt (fun s => μ₁ s i) (μ₂ i) θ)
    (hpd : ∀ᶠ s in nhds θ, (C s).PosDef) (hs : ∀ s, (C s).IsSymm)
    (incl : Bool) {m : String} (hm : m = "inverse" ∨ m = "cholesky") :
    ∃ L L' : ℝ → ℝ, (∀ s, gaussianLogLikelihood data (μ s) (.d2 N N (C s)) incl m = .ok (L s)) ∧
      (∀ᶠ s in nhds θ, HasDerivAt L (L' s) s) ∧
      HasDerivAt L' (chiCurv (C θ)⁻¹ (C₁ θ) C₂ (data - μ θ) (μ₁ θ) μ₂
        + if incl then 1 / 2 * (((C θ)⁻¹ * C₂).trace - ((C θ)⁻¹ * C₁ θ * (C θ)⁻¹ * C₁ θ).trace) else 0) θ := by
  refine ⟨_, fun s => fisher (C s) (data - μ s) (μ₁ s)
      + 1 / 2 * ((data - μ s) ⬝ᵥ (((C s)⁻¹ * C₁ s * (C s)⁻¹) *ᵥ (data - μ s)))
      + if incl then 1 / 2 * ((C s)⁻¹ * C₁ s).trace else 0,
    fun s => loglike_dense data (μ s) (C s) (hs s) incl hm, ?_, ?_⟩
  rotate_left
  · have h := quad_curvature data hC.self_of_nhds hC₁ hμ.self_of_nhds hμ₁ hpd.self_of_nhds hs
    refine h.add ?_
    cases incl with
    | true =>
      simp only [if_true]
      exact (trace_curvature hC.self_of_nhds hC₁ hpd.self_of_nhds).const_mul _
    | false => exact hasDerivAt_const _ _
  · filter_upwards [hC, hμ, hpd] with s h1 h2 h3
    obtain ⟨L, hL, hd⟩ := C126_gradient data h1 h2 h3 hs incl hm
    have : L = _ := funext fun s => Except.ok.inj ((hL s).symm.trans (loglike_dense data (μ s) (C s) (hs s) incl hm))
    rwa [this] at hd

/-- The same for the logarithm of the Gaussian density. -/
theorem C130_density (data : Fin N → ℝ) (hC : ∀ᶠ s in nhds θ, MatDeriv C (C₁ s) s) (hC₁ : MatDeriv C₁ C₂ θ)
    (hμ : ∀ᶠ s in nhds θ, ∀ i, HasDerivAt (fun s => μ s i) (μ₁ s i) s)
    (hμ₁ : ∀ i, HasDerivAt (fun s => μ₁ s i) (μ₂ i) θ)
    (hpd : ∀ᶠ s in nhds θ, (C s).PosDef) (hs : ∀ s, (C s).IsSymm) :
    ∃ L' : ℝ → ℝ,
      (∀ᶠ s in nhds θ, HasDerivAt (fun s => Real.log (gaussianDensity data (μ s) (C s))) (L' s) s) ∧
      HasDerivAt L' (chiCurv (C θ)⁻¹ (C₁ θ) C₂ (data - μ θ) (μ₁ θ) μ₂
        - 1 / 2 * (((C θ)⁻¹ * C₂).trace - ((C θ)⁻¹ * C₁ θ * (C θ)⁻¹ * C₁ θ).trace)) θ := by
  refine ⟨_, ?_, (quad_curvature data hC.self_of_nhds hC₁ hμ.self_of_nhds hμ₁ hpd.self_of_nhds hs).sub
    ((trace_curvature hC.self_of_nhds hC₁ hpd.self_of_nhds).const_mul _)⟩
  filter_upwards [hC, hμ, hpd] with s h1 h2 h3
  exact C126_density data h1 h2 h3

theorem chiCurv_zero (W A B : Matrix (Fin N) (Fin N) ℝ) (m₁ m₂ : Fin N → ℝ) :
    chiCurv W A B 0 m₁ m₂ = -(m₁ ⬝ᵥ (W *ᵥ m₁)) := by
  simp [chiCurv]

/-- C130: at data equal to the model mean (the recipe of the README) minus the second derivative is the
Fisher matrix of the mean when the determinant is left out, even if the covariance moves. -/
theorem C130_at_mean (hC : ∀ᶠ s in nhds θ, MatDeriv C (C₁ s) s) (hC₁ : MatDeriv C₁ C₂ θ)
    (hμ : ∀ᶠ s in nhds θ, ∀ i, HasDerivAt (fun s => μ s i) (μ₁ s i) s)
    (hμ₁ : ∀ i, HasDerivAt (fun s => μ₁ s i) (μ₂ i) θ)
    (hpd : ∀ᶠ s in nhds θ, (C s).PosDef) (hs : ∀ s, (C s).IsSymm)
    {m : String} (hm : m = "inverse" ∨ m = "cholesky") :
    ∃ L L' : ℝ → ℝ, (∀ s, gaussianLogLikelihood (μ θ) (μ s) (.d2 N N (C s)) false m = .ok (L s)) ∧
      (∀ᶠ s in nhds θ, HasDerivAt L (L' s) s) ∧ HasDerivAt L' (-fisher (C θ) (μ₁ θ) (μ₁ θ)) θ := by
  obtain ⟨L, L', h1, h2, h3⟩ := C130_hessian (μ θ) hC hC₁ hμ hμ₁ hpd hs false hm
  refine ⟨L, L', h1, h2, h3.congr_deriv ?_⟩
  rw [sub_self, chiCurv_zero]
  simp [fisher]

end

section
variable {Ω : Type*} [MeasurableSpace Ω] {P : Measure Ω} [IsProbabilityMeasure P] {N : ℕ} {θ : ℝ}
  {X : Fin N → Ω → ℝ} {C C₁ : ℝ → Matrix (Fin N) (Fin N) ℝ} {C₂ : Matrix (Fin N) (Fin N) ℝ}
  {μ μ₁ : ℝ → Fin N → ℝ} {μ₂ : Fin N → ℝ}

/-- Average over data of the second derivative of the quadratic form. -/
theorem chiCurv_mean {K : Matrix (Fin N) (Fin N) ℝ} (h : GaussianVec P X K) (hpd : K.PosDef)
    (A B : Matrix (Fin N) (Fin N) ℝ) (m m₁ m₂ : Fin N → ℝ) (c : ℝ) :
    ∫ ω, (chiCurv K⁻¹ A B ((fun i => m i + X i ω) - m) m₁ m₂ + c) ∂P
      = -fisher K m₁ m₁ - (K⁻¹ * A * K⁻¹ * A).trace + 1 / 2 * (K⁻¹ * B).trace + c := by
  have e : ∀ ω, (fun i => m i + X i ω) - m = fun i => X i ω := fun ω => by
    funext i; simp only [Pi.sub_apply]; ring
  simp only [e, chiCurv]
  obtain ⟨i1, e1⟩ := linear_mean h ((K⁻¹ * A * K⁻¹) *ᵥ m₁)
  obtain ⟨i2, e2⟩ := linear_mean h (K⁻¹ *ᵥ m₂)
  obtain ⟨i3, e3⟩ := quad_mean h (K⁻¹ * A * K⁻¹ * A * K⁻¹)
  obtain ⟨i4, e4⟩ := quad_mean h (K⁻¹ * B * K⁻¹)
  have hu : K⁻¹ * K = 1 := nonsing_inv_mul _ (isUnit_iff_ne_zero.2 hpd.det_pos.ne')
  have t3 : K⁻¹ * A * K⁻¹ * A * K⁻¹ * Kᵀ = K⁻¹ * A * K⁻¹ * A := by
    rw [symm_of_posDef hpd, Matrix.mul_assoc _ K⁻¹ K, hu, Matrix.mul_one]
  have t4 : K⁻¹ * B * K⁻¹ * Kᵀ = K⁻¹ * B := by
    rw [symm_of_posDef hpd, Matrix.mul_assoc _ K⁻¹ K, hu, Matrix.mul_one]
  rw [t3] at e3
  rw [t4] at e4
  have j0 : Integrable (fun _ : Ω => -(m₁ ⬝ᵥ (K⁻¹ *ᵥ m₁))) P := integrable_const _
  have j1 := j0.sub (i1.const_mul 2)
  have j2 := j1.add i2
  have j3 := j2.sub i3
  have j4 := j3.add (i4.const_mul (1 / 2))
  have k := integral_add j4 (integrable_const (μ := P) c)
  rw [integral_add' j3 (i4.const_mul (1 / 2)), integral_sub' j2 i3, integral_add' j1 i2,
    integral_sub' j0 (i1.const_mul 2), integral_const_mul, integral_const_mul, e1, e2, e3, e4] at k
  refine (Eq.trans ?_ k).trans ?_
  · rfl
  · simp [fisher]

/-- C130: averaged over data drawn from the model, minus the second derivative of the value returned is
`μ'ᵀC⁻¹μ' + 3/2 tr(C⁻¹C'C⁻¹C') - tr(C⁻¹C'')` (`… + tr(C⁻¹C'C⁻¹C') - ½tr(C⁻¹C'')` without the
determinant), whereas the Fisher information, minus the averaged second derivative of the log density, is
`μ'ᵀC⁻¹μ' + ½tr(C⁻¹C'C⁻¹C')`. -/
theorem C130_mean (h : GaussianVec P X (C θ)) (hC : ∀ᶠ s in nhds θ, MatDeriv C (C₁ s) s)
    (hC₁ : MatDeriv C₁ C₂ θ) (hμ : ∀ᶠ s in nhds θ, ∀ i, HasDerivAt (fun s => μ s i) (μ₁ s i) s)
    (hμ₁ : ∀ i, HasDerivAt (fun s => μ₁ s i) (μ₂ i) θ)
    (hpd : ∀ᶠ s in nhds θ, (C s).PosDef) (hs : ∀ s, (C s).IsSymm)
    (incl : Bool) {meth : String} (hm : meth = "inverse" ∨ meth = "cholesky") :
    ∃ (L L' D' : Ω → ℝ → ℝ) (L'' D'' : Ω → ℝ),
      (∀ ω s, gaussianLogLikelihood (fun i => μ θ i + X i ω) (μ s) (.d2 N N (C s)) incl meth
        = .ok (L ω s)) ∧
      (∀ ω, ∀ᶠ s in nhds θ, HasDerivAt (L ω) (L' ω s) s) ∧ (∀ ω, HasDerivAt (L' ω) (L'' ω) θ) ∧
      (∀ ω, ∀ᶠ s in nhds θ, HasDerivAt
        (fun s => Real.log (gaussianDensity (fun i => μ θ i + X i ω) (μ s) (C s))) (D' ω s) s) ∧
      (∀ ω, HasDerivAt (D' ω) (D'' ω) θ) ∧
      -∫ ω, L'' ω ∂P = fisher (C θ) (μ₁ θ) (μ₁ θ)
        + (if incl then 3 / 2 else 1) * ((C θ)⁻¹ * C₁ θ * (C θ)⁻¹ * C₁ θ).trace
        - (if incl then 1 else 1 / 2) * ((C θ)⁻¹ * C₂).trace ∧
      -∫ ω, D'' ω ∂P = fisher (C θ) (μ₁ θ) (μ₁ θ) + 1 / 2 * ((C θ)⁻¹ * C₁ θ * (C θ)⁻¹ * C₁ θ).trace := by
  choose L L' h1 h2 h3 using fun ω => C130_hessian (fun i => μ θ i + X i ω) hC hC₁ hμ hμ₁ hpd hs incl hm
  choose D' h4 h5 using fun ω => C130_density (fun i => μ θ i + X i ω) hC hC₁ hμ hμ₁ hpd hs
  refine ⟨L, L', D', _, _, h1, h2, h3, h4, h5, ?_, ?_⟩
  · rw [chiCurv_mean h hpd.self_of_nhds]
    cases incl <;> simp <;> ring
  · simp only [sub_eq_add_neg (chiCurv _ _ _ _ _ _)]
    rw [chiCurv_mean h hpd.self_of_nhds]
    ring

end

/-- C130: with a covariance that does not move, the recipe gives the Fisher matrix, on average over data and
with or without the determinant. -/
theorem C130_fixed {Ω : Type*} [MeasurableSpace Ω] {P : Measure Ω} [IsProbabilityMeasure P] {N : ℕ} {θ : ℝ}
    {X : Fin N → Ω → ℝ} {K : Matrix (Fin N) (Fin N) ℝ} {μ μ₁ : ℝ → Fin N → ℝ} {μ₂ : Fin N → ℝ}
    (h : GaussianVec P X K) (hμ : ∀ᶠ s in nhds θ, ∀ i, HasDerivAt (fun s => μ s i) (μ₁ s i) s)
    (hμ₁ : ∀ i, HasDerivAt (fun s => μ₁ s i) (μ₂ i) θ) (hpd : K.PosDef)
    (incl : Bool) {meth : String} (hm : meth = "inverse" ∨ meth = "cholesky") :
    ∃ (L L' : Ω → ℝ → ℝ) (L'' : Ω → ℝ),
      (∀ ω s, gaussianLogLikelihood (fun i => μ θ i + X i ω) (μ s) (.d2 N N K) incl meth = .ok (L ω s)) ∧
      (∀ ω, ∀ᶠ s in nhds θ, HasDerivAt (L ω) (L' ω s) s) ∧ (∀ ω, HasDerivAt (L' ω) (L'' ω) θ) ∧
      -∫ ω, L'' ω ∂P = fisher K (μ₁ θ) (μ₁ θ) := by
  obtain ⟨L, L', -, L'', -, h1, h2, h3, -, -, h4, -⟩ := C130_mean (C := fun _ => K) (C₁ := fun _ => 0) (C₂ := 0) h
    (.of_forall fun s i j => hasDerivAt_const _ _) (fun i j => hasDerivAt_const _ _) hμ hμ₁
    (.of_forall fun _ => hpd) (fun _ => symm_of_posDef hpd) incl hm
  exact ⟨L, L', L'', h1, h2, h3, by simpa using h4⟩

/-- C130 fails when the covariance moves: minus the Hessian is not the Fisher matrix, and can be negative.
One datum of variance `1 + s²` at `s = 0`, where nothing can be learnt about `s`: the averaged value is `-2`
(`-1` without the determinant). -/
theorem C130_refuted : ∃ (L L' D' : EuclideanSpace ℝ (Fin 1) → Bool → ℝ → ℝ)
    (L'' D'' : EuclideanSpace ℝ (Fin 1) → Bool → ℝ),
    (∀ x incl s, gaussianLogLikelihood (fun i => x i) 0 (.d2 1 1 !![1 + s ^ 2]) incl "inverse"
      = .ok (L x incl s)) ∧
    (∀ x incl, ∀ᶠ s in nhds 0, HasDerivAt (L x incl) (L' x incl s) s) ∧
    (∀ x incl, HasDerivAt (L' x incl) (L'' x incl) 0) ∧
    (∀ x incl, ∀ᶠ s in nhds 0, HasDerivAt
      (fun s => Real.log (gaussianDensity (fun i => x i) 0 !![1 + s ^ 2])) (D' x incl s) s) ∧
    (∀ x incl, HasDerivAt (D' x incl) (D'' x incl) 0) ∧
    GaussianVec (multivariateGaussian 0 !![1]) (fun i (x : EuclideanSpace ℝ (Fin 1)) => x i) !![1] ∧
    -∫ x, L'' x true ∂(multivariateGaussian 0 !![1]) = -2 ∧
    -∫ x, L'' x false ∂(multivariateGaussian 0 !![1]) = -1 ∧
    -∫ x, D'' x true ∂(multivariateGaussian 0 !![1]) = 0 := by
  have hd : ∀ s : ℝ, MatDeriv (fun s : ℝ => !![1 + s ^ 2]) !![2 * s] s := fun s i j => by
    rw [Subsingleton.elim i 0, Subsingleton.elim j 0]
    simpa using (hasDerivAt_pow 2 s).const_add 1
  have hd2 : MatDeriv (fun s : ℝ => !![2 * s]) !![2] 0 := fun i j => by
    rw [Subsingleton.elim i 0, Subsingleton.elim j 0]
    simpa using (hasDerivAt_id (0 : ℝ)).const_mul 2
  have hpd : ∀ s : ℝ, (!![1 + s ^ 2]).PosDef := fun s => posDef_scalar (by positivity)
  have hg : GaussianVec (multivariateGaussian 0 !![1]) (fun i (x : EuclideanSpace ℝ (Fin 1)) => x i) !![1] :=
    gaussian_data_exist (posDef_scalar one_pos)
  have hg' : GaussianVec (multivariateGaussian 0 !![1]) (fun i (x : EuclideanSpace ℝ (Fin 1)) => x i)
      !![1 + (0 : ℝ) ^ 2] := by simpa using hg
  choose L L' D' L'' D'' h1 h2 h3 h4 h5 h6 h7 using fun incl : Bool =>
    C130_mean (θ := 0) (C := fun s : ℝ => !![1 + s ^ 2]) (C₁ := fun s => !![2 * s]) (C₂ := !![2])
      (μ := fun _ => 0) (μ₁ := fun _ => 0) (μ₂ := 0) hg' (.of_forall hd) hd2
      (.of_forall fun s i => hasDerivAt_const _ _) (fun i => hasDerivAt_const _ _) (.of_forall hpd)
      (fun s => symm_of_posDef (hpd s)) incl (meth := "inverse") (.inl rfl)
  have e : ∀ x : EuclideanSpace ℝ (Fin 1), (fun i => (0 : Fin 1 → ℝ) i + x i) = fun i => x i := fun x => by
    funext i; simp
  simp only [e] at h1 h4
  have t2 : ((!![1 + (0 : ℝ) ^ 2])⁻¹ * !![(2 : ℝ)]).trace = 2 := by
    simp [Matrix.trace]
  refine ⟨fun x b => L b x, fun x b => L' b x, fun x b => D' b x, fun x b => L'' b x, fun x b => D'' b x,
    fun x b => h1 b x, fun x b => h2 b x, fun x b => h3 b x, fun x b => h4 b x, fun x b => h5 b x, hg, ?_, ?_, ?_⟩
  · have := h6 true
    simp only [t2] at this
    rw [this]
    simp [fisher, Matrix.trace]
  · have := h6 false
    simp only [t2] at this
    rw [this]
    simp [fisher, Matrix.trace]
  · rw [h7 true]
    simp [fisher, Matrix.trace]

/-- Witness for `C130_hessian`, `C130_mean` and `C130_at_mean`: mean `(s, s²)`, covariance `[[2, s], [s, 2]]`
at `s = 1`. -/
example : ∃ L L' : ℝ → ℝ,
    (∀ s, gaussianLogLikelihood ![1, 1 ^ 2] ![s, s ^ 2] (.d2 2 2 !![2, s; s, 2]) false "cholesky" = .ok (L s)) ∧
      (∀ᶠ s in nhds 1, HasDerivAt L (L' s) s) ∧
      HasDerivAt L' (-fisher !![2, 1; 1, 2] ![1, 2 * 1] ![1, 2 * 1]) 1 := by
  have hd : ∀ s : ℝ, MatDeriv (fun s : ℝ => !![2, s; s, 2]) !![0, 1; 1, 0] s := fun s i j => by
    fin_cases i <;> fin_cases j
    · exact hasDerivAt_const _ _
    · exact hasDerivAt_id _
    · exact hasDerivAt_id _
    · exact hasDerivAt_const _ _
  have hsym : ∀ s : ℝ, (!![2, s; s, 2]).IsSymm := fun s => by
    ext i j; fin_cases i <;> fin_cases j <;> rfl
  refine C130_at_mean (θ := 1) (C := fun s => !![2, s; s, 2]) (C₁ := fun _ => !![0, 1; 1, 0]) (C₂ := 0)
    (μ := fun s => ![s, s ^ 2]) (μ₁ := fun s => ![1, 2 * s]) (μ₂ := ![0, 2])
    (.of_forall hd) (fun i j => hasDerivAt_const _ _) (.of_forall fun s i => ?_) (fun i => ?_) ?_ hsym (.inr rfl)
  · fin_cases i
    · exact hasDerivAt_id _
    · simpa using hasDerivAt_pow 2 s
  · fin_cases i
    · exact hasDerivAt_const _ _
    · simpa using (hasDerivAt_id (1 : ℝ)).const_mul 2
  · have : ∀ᶠ s : ℝ in nhds 1, -2 < s ∧ s < 2 :=
      (lt_mem_nhds (by norm_num)).and (gt_mem_nhds (by norm_num))
    filter_upwards [this] with s hs
    refine .of_dotProduct_mulVec_pos (by
      rw [Matrix.IsHermitian, conjTranspose_eq_transpose_of_trivial]; exact hsym s) fun x hx => ?_
    have h : star x ⬝ᵥ (!![2, s; s, 2] *ᵥ x)
        = (2 - s ^ 2 / 2) * (x 0) ^ 2 + 2 * (x 1 + s / 2 * x 0) ^ 2 := by
      simp [dotProduct, mulVec, Fin.sum_univ_two]; ring
    rw [h]
    have h2 : 0 < 2 - s ^ 2 / 2 := by nlinarith [hs.1, hs.2]
    by_cases h0 : x 0 = 0
    · have h1 : x 1 ≠ 0 := fun h1 => hx (funext fun i => by fin_cases i <;> assumption)
      rw [h0]
      simp only [mul_zero, add_zero]
      positivity
    · positivity

/-- Witness for `C130_fixed`: Gaussian data exist for any positive definite covariance. -/
example (incl : Bool) : ∃ (L L' : EuclideanSpace ℝ (Fin 2) → ℝ → ℝ) (L'' : EuclideanSpace ℝ (Fin 2) → ℝ),
    (∀ x s, gaussianLogLikelihood (fun i => ![1, 1 ^ 2] i + x i) ![s, s ^ 2] (.d2 2 2 !![2, 1; 1, 2]) incl "inverse"
      = .ok (L x s)) ∧
      (∀ x, ∀ᶠ s in nhds 1, HasDerivAt (L x) (L' x s) s) ∧ (∀ x, HasDerivAt (L' x) (L'' x) 1) ∧
      -∫ x, L'' x ∂(multivariateGaussian 0 !![2, 1; 1, 2]) = fisher !![2, 1; 1, 2] ![1, 2 * 1] ![1, 2 * 1] := by
  refine C130_fixed (θ := 1) (μ := fun s => ![s, s ^ 2]) (μ₁ := fun s => ![1, 2 * s]) (μ₂ := ![0, 2])
    (gaussian_data_exist posDef_two) (.of_forall fun s i => ?_) (fun i => ?_) posDef_two incl (.inl rfl)
  · fin_cases i
    · exact hasDerivAt_id _
    · simpa using hasDerivAt_pow 2 s
  · fin_cases i
    · exact hasDerivAt_const _ _
    · simpa using (hasDerivAt_id (1 : ℝ)).const_mul 2

end JaxCosmo
