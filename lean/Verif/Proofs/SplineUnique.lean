import Verif.Proofs.SplineCalculus
import Verif.Spec.Spline
import Mathlib.Analysis.Calculus.Deriv.Slope

/-! # Derivatives of functions that are polynomials on an interval, and the pieces they determine -/

namespace JaxCosmo
open Spec

/-- A derivative is determined by the values on one side. -/
theorem deriv_eq_of_eqOn {f p : ℝ → ℝ} {l r u f' p' : ℝ} (hlr : l < r) (hu : u ∈ Set.Icc l r)
    (hf : HasDerivAt f f' u) (hp : HasDerivAt p p' u) (he : ∀ v ∈ Set.Icc l r, f v = p v) :
    f' = p' := by
  have hU := uniqueDiffOn_Icc hlr u hu
  exact hU.eq_deriv _ hf.hasDerivWithinAt (hp.hasDerivWithinAt.congr he (he u hu))

theorem cubic_deriv {f : ℝ → ℝ} (hf : ContDiff ℝ 2 f) {l r α β γ δ : ℝ} (hlr : l < r)
    (he : ∀ u ∈ Set.Icc l r, f u = α + β * u + γ * u ^ 2 + δ * u ^ 3) :
    (∀ u ∈ Set.Icc l r, deriv f u = β + 2 * γ * u + 3 * δ * u ^ 2) ∧
    (∀ u ∈ Set.Icc l r, deriv (deriv f) u = 2 * γ + 6 * δ * u) := by
  have h1 : Differentiable ℝ f := hf.differentiable (by norm_num)
  have h2 : Differentiable ℝ (deriv f) := by
    have : ContDiff ℝ 1 (deriv f) := ((contDiff_succ_iff_deriv (n := 1)).mp (by exact_mod_cast hf)).2.2
    exact this.differentiable (by norm_num)
  have hd : ∀ u ∈ Set.Icc l r, deriv f u = β + 2 * γ * u + 3 * δ * u ^ 2 := fun u hu => by
    refine deriv_eq_of_eqOn hlr hu (h1 u).hasDerivAt ?_ he
    have h := hasDerivAt_id u
    have := (((h.const_mul β).const_add α).add ((h.pow 2).const_mul γ)).add ((h.pow 3).const_mul δ)
    refine this.congr_deriv ?_
    simp; ring
  refine ⟨hd, fun u hu => ?_⟩
  refine deriv_eq_of_eqOn hlr hu (h2 u).hasDerivAt ?_ hd
  have h := hasDerivAt_id u
  have := ((h.const_mul (2 * γ)).const_add β).add ((h.pow 2).const_mul (3 * δ))
  refine this.congr_deriv ?_
  simp; ring

theorem quadratic_deriv {f : ℝ → ℝ} (hf : ContDiff ℝ 1 f) {l r α β γ : ℝ} (hlr : l < r)
    (he : ∀ u ∈ Set.Icc l r, f u = α + β * u + γ * u ^ 2) :
    ∀ u ∈ Set.Icc l r, deriv f u = β + 2 * γ * u := by
  have h1 : Differentiable ℝ f := hf.differentiable (by norm_num)
  intro u hu
  refine deriv_eq_of_eqOn hlr hu (h1 u).hasDerivAt ?_ he
  have h := hasDerivAt_id u
  have := ((h.const_mul β).const_add α).add ((h.pow 2).const_mul γ)
  refine this.congr_deriv ?_
  simp; ring

/-- What a cubic between `l` and `r` is, in terms of its values and second derivatives there. -/
theorem cubic_of_ends {f : ℝ → ℝ} (hf : ContDiff ℝ 2 f) {l r : ℝ} (hlr : l < r)
    (hc : CubicOn f l r) :
    deriv f l = (f r - f l) / (r - l)
        - (2 * (deriv (deriv f) l / 2) + deriv (deriv f) r / 2) * (r - l) / 3 ∧
    deriv f r = (f r - f l) / (r - l)
        + (deriv (deriv f) l / 2 + 2 * (deriv (deriv f) r / 2)) * (r - l) / 3 ∧
    ∀ u ∈ Set.Icc l r, f u = f l + ((f r - f l) / (r - l)
        - (2 * (deriv (deriv f) l / 2) + deriv (deriv f) r / 2) * (r - l) / 3) * (u - l)
      + deriv (deriv f) l / 2 * (u - l) ^ 2
      + (deriv (deriv f) r / 2 - deriv (deriv f) l / 2) / (3 * (r - l)) * (u - l) ^ 3 := by
  obtain ⟨α, β, γ, δ, he⟩ := hc
  obtain ⟨h1, h2⟩ := cubic_deriv hf hlr he
  have hl : l ∈ Set.Icc l r := ⟨le_rfl, hlr.le⟩
  have hr : r ∈ Set.Icc l r := ⟨hlr.le, le_rfl⟩
  have hne : r - l ≠ 0 := (sub_pos.mpr hlr).ne'
  refine ⟨?_, ?_, fun u hu => ?_⟩
  · rw [h1 l hl, h2 l hl, h2 r hr, he l hl, he r hr]; field_simp; ring
  · rw [h1 r hr, h2 l hl, h2 r hr, he l hl, he r hr]; field_simp; ring
  · rw [he u hu, h2 l hl, h2 r hr, he l hl, he r hr]; field_simp; ring

end JaxCosmo
