import Verif.Proofs.Wick
import Verif.Props.Covariance
import Mathlib.Probability.Independence.InfinitePi

/-! # C102: the covariance is that of estimated spectra of Gaussian fields -/

namespace JaxCosmo
open MeasureTheory ProbabilityTheory Matrix Spec

section
variable {Ω ι : Type*} [MeasurableSpace Ω] [Fintype ι] [DecidableEq ι] {P : Measure Ω}
  [IsProbabilityMeasure P] {ν : ℕ} {X : Fin ν → ι → Ω → ℝ} {C : Matrix ι ι ℝ}

omit [IsProbabilityMeasure P] in
/-- C102: the estimated spectra are unbiased. -/
theorem C102_unbiased (hν : 0 < ν) (h : ∀ m, GaussianVec P (X m) C) (i j : ι) :
    ∫ ω, spectrumEstimate X i j ω ∂P = C i j := by
  unfold spectrumEstimate
  rw [integral_div, integral_finsetSum _ fun m _ => ((h m).two i j).1]
  simp only [((h _).two i j).2, Finset.sum_const, Finset.card_univ, Fintype.card_fin, nsmul_eq_mul]
  have : (ν : ℝ) ≠ 0 := by positivity
  field_simp

/-- C102: their covariance is Wick's product divided by the number of modes. -/
theorem C102_covariance (hν : 0 < ν) (h : ∀ m, GaussianVec P (X m) C)
    (hind : iIndepFun (fun m ω i => X m i ω) P) (i j k l : ι) :
    cov[spectrumEstimate X i j, spectrumEstimate X k l; P] = wick C i j k l / ν := by
  have hmem : ∀ m a b, MemLp (fun ω => X m a ω * X m b ω) 2 P := fun m a b => (h m).prod_memLp a b
  change cov[fun ω => (∑ m, X m i ω * X m j ω) / ν, fun ω => (∑ m, X m k ω * X m l ω) / ν; P] = _
  rw [covariance_fun_div_left, covariance_fun_div_right,
    covariance_fun_sum_fun_sum (fun m => hmem m i j) fun m => hmem m k l]
  have hoff : ∀ m m', m ≠ m' → cov[fun ω => X m i ω * X m j ω, fun ω => X m' k ω * X m' l ω; P] = 0 := by
    intro m m' hne
    have h1 : Measurable fun x : ι → ℝ => x i * x j := by fun_prop
    have h2 : Measurable fun x : ι → ℝ => x k * x l := by fun_prop
    exact ((hind.indepFun hne).comp h1 h2).covariance_eq_zero (hmem m i j) (hmem m' k l)
  have hsum : ∑ m, ∑ m', cov[fun ω => X m i ω * X m j ω, fun ω => X m' k ω * X m' l ω; P]
      = ν * wick C i j k l := by
    have : ∀ m, ∑ m', cov[fun ω => X m i ω * X m j ω, fun ω => X m' k ω * X m' l ω; P]
        = wick C i j k l := fun m => by
      rw [Finset.sum_eq_single m (fun m' _ hne => hoff m m' hne.symm) (by simp), (h m).cov_prod]
      rfl
    simp only [this, Finset.sum_const, Finset.card_univ, Fintype.card_fin, nsmul_eq_mul]
  rw [hsum]
  have : (ν : ℝ) ≠ 0 := by positivity
  field_simp

end

/-- C102: what `gaussian_cl_covariance` returns for the spectra `(i, j)` and `(m, n)` at a multipole
with `ν = (2ℓ+1) Δℓ f_sky` modes is the covariance of the spectra estimated from `ν` independent
modes of Gaussian fields whose spectra are the observed ones. -/
theorem C102_library (ells : List ℝ) (probes : List Probe) (signal noise : List (List ℝ))
    (f_sky : ℝ) (hL : 2 ≤ ells.length)
    (hs : Rect (pairCount (tracers probes).length) ells.length signal)
    (hn : Rect (pairCount (tracers probes).length) ells.length noise) :
    ∃ S : Sp ℝ (pairCount (tracers probes).length) (pairCount (tracers probes).length) ells.length,
      gaussianClCovariance ells probes signal noise f_sky true = .ok (.d3 _ _ _ S) ∧
      ∀ (I J : Fin (pairCount (tracers probes).length)) (i j m n : Fin (tracers probes).length),
        (getClOrdering probes)[(I : ℕ)]? = some (i.val, j.val) →
        (getClOrdering probes)[(J : ℕ)]? = some (m.val, n.val) →
        ∀ (l : Fin ells.length) (ν : ℕ), 0 < ν → (ν : ℝ) = modeCount ells f_sky l →
        ∀ {Ω : Type} [MeasurableSpace Ω] (P : Measure Ω) [IsProbabilityMeasure P]
          (X : Fin ν → Fin (tracers probes).length → Ω → ℝ),
          (∀ a, GaussianVec P (X a) (obsMat (tracers probes).length signal noise l)) →
          iIndepFun (fun a ω i => X a i ω) P →
          S I J l = cov[spectrumEstimate X i j, spectrumEstimate X m n; P] := by
  obtain ⟨S, h1, h2⟩ := C59_wick ells probes signal noise f_sky hL hs hn
  refine ⟨S, h1, fun I J i j m n hI hJ l ν hν hν' Ω _ P _ X hX hind => ?_⟩
  rw [h2 I J i j m n hI hJ l, C102_covariance hν hX hind, hν']

/-! ### Witness -/

/-- `ν` independent modes of one field with variance `c²`. -/
theorem modes_exist (c : ℝ) (ν : ℕ) :
    (∀ a : Fin ν, GaussianVec (Measure.pi fun _ : Fin ν => gaussianReal 0 1)
      (fun (_ : Fin 1) (ω : Fin ν → ℝ) => c * ω a) (diagonal fun _ => c ^ 2)) ∧
    iIndepFun (fun (a : Fin ν) (ω : Fin ν → ℝ) (_ : Fin 1) => c * ω a)
      (Measure.pi fun _ : Fin ν => gaussianReal 0 1) := by
  constructor
  · intro a
    refine ⟨isSymm_diagonal _, fun t => ?_, fun t => ?_⟩
    · simp only [mulVec_diagonal, dotProduct, Finset.univ_unique, Finset.sum_singleton]
      nlinarith [sq_nonneg (c * t default)]
    · have hl : HasLaw (fun ω : Fin ν → ℝ => ω a) (gaussianReal 0 1)
          (Measure.pi fun _ : Fin ν => gaussianReal 0 1) :=
        ⟨(measurable_pi_apply a).aemeasurable, (measurePreserving_eval _ a).map_eq⟩
      have := gaussianReal_const_mul hl (t 0 * c)
      simp only [Finset.univ_unique, Finset.sum_singleton, Fin.default_eq_zero, ← mul_assoc]
      convert this using 2
      · simp
      · simp only [mulVec_diagonal, dotProduct, Finset.univ_unique, Finset.sum_singleton]
        ext
        rw [Real.coe_toNNReal _ (by nlinarith [sq_nonneg (c * t default)])]
        simp
        ring
  · exact (iIndepFun_pi (X := fun (a : Fin ν) (x : ℝ) (_ : Fin 1) => c * x)
      (μ := fun _ => gaussianReal 0 1) fun a => by fun_prop)

/-- One lensing bin with signal 3 and noise 1 at `ℓ = 10`, where the whole sky has 210 modes: the
hypotheses can be met, and the covariance is `2 · 4² / 210`. -/
example (b : Nz) : ∃ S : Sp ℝ 1 1 2,
    gaussianClCovariance [10, 20] [.wl (.init [b])] [[3, 3]] [[1, 1]] 1 true = .ok (.d3 1 1 2 S) ∧
    S 0 0 0 = cov[spectrumEstimate (fun (a : Fin 210) (_ : Fin 1) (ω : Fin 210 → ℝ) => 2 * ω a) 0 0,
      spectrumEstimate (fun (a : Fin 210) (_ : Fin 1) (ω : Fin 210 → ℝ) => 2 * ω a) 0 0;
        Measure.pi fun _ : Fin 210 => gaussianReal 0 1] ∧
    S 0 0 0 = 2 * 4 ^ 2 / 210 := by
  have hN : (tracers [.wl (.init [b])]).length = 1 := rfl
  have hr : ∀ x : ℝ, Rect (pairCount (tracers [.wl (.init [b])]).length) ([10, 20] : List ℝ).length
      [[x, x]] := fun x => ⟨by rw [hN]; rfl, by simp⟩
  have key := C102_library [10, 20] [.wl (.init [b])] [[3, 3]] [[1, 1]] 1 (by simp) (hr 3) (hr 1)
  rw [hN, show pairCount 1 = 1 from rfl] at key
  obtain ⟨S, h1, h2⟩ := key
  obtain ⟨hX, hind⟩ := modes_exist 2 210
  have hobs : obsMat 1 [[3, 3]] [[1, 1]] 0 = diagonal fun _ : Fin 1 => (2 : ℝ) ^ 2 := by
    ext i j
    have : i = j := Subsingleton.elim _ _
    subst this
    rw [diagonal_apply_eq]
    norm_num [obsMat, symMat, column, pairPos]
  have e := h2 0 0 0 0 0 0 rfl rfl 0 210 (by norm_num) (by norm_num [modeCount, bandwidth])
    (Measure.pi fun _ : Fin 210 => gaussianReal 0 1) (fun a _ (ω : Fin 210 → ℝ) => 2 * ω a) (fun a => hobs ▸ hX a) hind
  refine ⟨S, h1, e, ?_⟩
  rw [e, C102_covariance (by norm_num) hX hind]
  norm_num [wick]

end JaxCosmo
