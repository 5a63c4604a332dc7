import Verif.Props.Kernels
import Verif.Props.Normalisation

/-! # C160: sources at nearly the same redshift lens like a plane of sources -/

namespace JaxCosmo
open Filter Topology Spec

/-- The weight that the library's rule with 256 steps gives to the point `x` of `[a, b]`: nothing unless `x` is
one of its nodes. -/
noncomputable def nodeWeight (x a b : ℝ) : ℝ := simpson (fun t => if t = x then 1 else 0) a b 128

theorem simpson_tendsto {ι : Type*} {l : Filter ι} {f : ι → ℝ → ℝ} {g : ℝ → ℝ}
    (h : ∀ x, Tendsto (fun i => f i x) l (𝓝 (g x))) (a b : ℝ) (m : ℕ) :
    Tendsto (fun i => simpson (f i) a b m) l (𝓝 (simpson g a b m)) := by
  unfold simpson
  exact (tendsto_finsetSum _ fun j _ => ((h _).add ((h _).const_mul 4)).add (h _)).const_mul _

theorem simpson_smul (c : ℝ) (f : ℝ → ℝ) (a b : ℝ) (m : ℕ) :
    simpson (fun x => c * f x) a b m = c * simpson f a b m := by
  simp only [simpson]
  rw [mul_left_comm]
  congr 1
  rw [Finset.mul_sum]
  exact Finset.sum_congr rfl fun j _ => by ring

theorem simpson_congr {f g : ℝ → ℝ} (h : ∀ x, f x = g x) (a b : ℝ) (m : ℕ) :
    simpson f a b m = simpson g a b m := by rw [funext h]

/-- The shape of a bin of width `bw` around `z0`, one at `z0`. -/
noncomputable def bump (z0 bw x : ℝ) : ℝ := Real.exp (-((z0 - x) ^ 2) / (bw ^ 2 * 2))

theorem bump_tendsto (z0 x : ℝ) :
    Tendsto (fun bw => bump z0 bw x) (𝓝[>] 0) (𝓝 (if x = z0 then 1 else 0)) := by
  split_ifs with h
  · subst h
    simp [bump]
  · have hd : 0 < (z0 - x) ^ 2 / 2 := by
      have : z0 - x ≠ 0 := sub_ne_zero.2 (Ne.symm h)
      positivity
    refine Real.tendsto_exp_atBot.comp ?_
    have h1 : Tendsto (fun bw : ℝ => (bw ^ 2)⁻¹) (𝓝[>] 0) atTop := by
      refine Tendsto.inv_tendsto_nhdsGT_zero ?_
      rw [tendsto_nhdsWithin_iff]
      constructor
      · have : Tendsto (fun bw : ℝ => bw ^ 2) (𝓝 0) (𝓝 (0 ^ 2)) := (continuous_pow 2).tendsto 0
        rw [zero_pow two_ne_zero] at this
        exact this.mono_left nhdsWithin_le_nhds
      · filter_upwards [self_mem_nhdsWithin] with b hb
        exact pow_pos (Set.mem_Ioi.1 hb) 2
    have h2 := tendsto_neg_atTop_atBot.comp (h1.const_mul_atTop hd)
    refine h2.congr fun bw => ?_
    simp only [Function.comp]
    rw [div_eq_mul_inv, div_eq_mul_inv, mul_inv]
    ring

/-- One galaxy at `z0`, smoothed with `bw`: the normalised distribution. -/
theorem narrow_eval {z0 bw g Z : ℝ} (hb : 0 < bw) (x : ℝ) :
    (Nz.kde [(z0, 1)] bw g Z).eval x = bump z0 bw x / simpson (bump z0 bw) 0 Z 128 := by
  have hA : (1 / √(2 * Real.pi) / bw : ℝ) ≠ 0 := by
    have : 0 < √(2 * Real.pi) := Real.sqrt_pos.2 (by positivity)
    positivity
  have e : (Nz.kde [(z0, 1)] bw g Z).computedNorm
      = 1 / √(2 * Real.pi) / bw * simpson (bump z0 bw) 0 Z 128 := by
    rw [Nz.computedNorm, kde_one, simpsBody_simpson, ← simpson_smul]
    rfl
  rw [Nz.eval_extended rfl, e, kde_one]
  exact mul_div_mul_left _ _ hA

theorem bump_norm_pos {z0 bw Z : ℝ} (hZ : 0 < Z) : 0 < simpson (bump z0 bw) 0 Z 128 := by
  rw [← simpsBody_simpson]
  exact simpsBody_pos hZ 256 (by norm_num) (by norm_num) (fun x _ _ => (Real.exp_pos _).le)
    (i := 0) (by norm_num) (Real.exp_pos _)

/-- Kernel of one bin, in the notation of lensing theory, with the mean weight split off. -/
theorem narrow_kernel (p : Params) (hg : p.gamma = none) {z0 bw g Z z ell : ℝ} (hb : 0 < bw) :
    weakLensingKernel p [.kde [(z0, 1)] bw g Z] z ell = .ok [lensKernel p.Omega_m const_H0 const_c (chiZ p) z ell
      (simpson (fun x => bump z0 bw x * lensWeight (chiZ p) z x) z Z 128 / simpson (bump z0 bw) 0 Z 128)] := by
  rw [C48_order p hg _ z ell Z rfl]
  simp only [List.map_cons, List.map_nil, binKernel]
  congr 3
  rw [div_eq_inv_mul, ← simpson_smul]
  refine simpson_congr (fun x => ?_) _ _ _
  rw [narrow_eval hb]
  ring

theorem plane_weight (p : Params) (hg : p.gamma = none) {z0 g Z z ell : ℝ} :
    weakLensingKernel p [.delta z0 g Z] z ell
      = .ok [lensKernel p.Omega_m const_H0 const_c (chiZ p) z ell (lensWeight (chiZ p) z z0)] :=
  C48_order p hg _ z ell Z rfl

theorem weight_tendsto (p : Params) (z0 z Z : ℝ) :
    Tendsto (fun bw => simpson (fun x => bump z0 bw x * lensWeight (chiZ p) z x) z Z 128) (𝓝[>] 0)
      (𝓝 (lensWeight (chiZ p) z z0 * nodeWeight z0 z Z)) := by
  have h := simpson_tendsto (fun x => (bump_tendsto z0 x).mul_const (lensWeight (chiZ p) z x)) z Z 128
  have e : simpson (fun x => (if x = z0 then (1 : ℝ) else 0) * lensWeight (chiZ p) z x) z Z 128
      = lensWeight (chiZ p) z z0 * nodeWeight z0 z Z := by
    rw [nodeWeight, ← simpson_smul]
    refine simpson_congr (fun x => ?_) _ _ _
    split_ifs with hx
    · rw [hx]; ring
    · ring
  rw [e] at h
  exact h

theorem lensKernel_smul (Om H0 c : ℝ) (chi : ℝ → ℝ) (z l a q : ℝ) :
    lensKernel Om H0 c chi z l (a * q) = a * lensKernel Om H0 c chi z l q := by
  unfold lensKernel; ring

/-- C160, partial: for sources at a redshift where the normalisation has a node, the kernel tends to that of the
plane times the ratio of the weights that the two quadratures give to the redshift of the sources.  What is missing
is that the ratio be one: see `C160_lost`, `C160_common`, `C160_divergent`. -/
theorem C160_limit_partial (p : Params) (hg : p.gamma = none) {z0 g Z z ell : ℝ} (hW : nodeWeight z0 0 Z ≠ 0) :
    ∃ K : ℝ → ℝ, ∃ P, (∀ bw, 0 < bw → weakLensingKernel p [.kde [(z0, 1)] bw g Z] z ell = .ok [K bw]) ∧
      weakLensingKernel p [.delta z0 g Z] z ell = .ok [P] ∧
      Tendsto K (𝓝[>] 0) (𝓝 (nodeWeight z0 z Z / nodeWeight z0 0 Z * P)) := by
  refine ⟨_, _, fun bw hb => narrow_kernel p hg hb, plane_weight p hg, ?_⟩
  rw [← lensKernel_smul]
  have h := (weight_tendsto p z0 z Z).div (simpson_tendsto (bump_tendsto z0) 0 Z 128) hW
  unfold lensKernel
  have h2 := (h.const_mul ((1 + z) * chiZ p z)).const_mul
    (3 / 2 * p.Omega_m * const_H0 ^ 2 / const_c * spinFactor ell)
  rwa [show lensWeight (chiZ p) z z0 * nodeWeight z0 z Z / simpson (fun x => if x = z0 then 1 else 0) 0 Z 128
    = nodeWeight z0 z Z / nodeWeight z0 0 Z * lensWeight (chiZ p) z z0 by rw [nodeWeight, nodeWeight]; ring] at h2

theorem nodeWeight_zero {x a b : ℝ} (h : ∀ i : ℕ, i ≤ 256 → x ≠ a + i * ((b - a) / 256)) :
    nodeWeight x a b = 0 := by
  unfold nodeWeight simpson
  refine mul_eq_zero_of_right _ (Finset.sum_eq_zero fun j hj => ?_)
  have hj' := Finset.mem_range.1 hj
  have h0 := h (2 * j) (by omega)
  have h1 := h (2 * j + 1) (by omega)
  have h2 := h (2 * j + 2) (by omega)
  push_cast at h0 h1 h2
  norm_num at h0 h1 h2 ⊢
  rw [if_neg (Ne.symm h0), if_neg (Ne.symm h1), if_neg (Ne.symm h2)]
  norm_num

theorem nodeWeight_odd {a b : ℝ} (hab : a < b) {i : ℕ} (hi : i < 128) :
    nodeWeight (a + (2 * i + 1) * ((b - a) / 256)) a b = 4 * ((b - a) / 256) / 3 := by
  have hh : (b - a) / 256 ≠ 0 := by
    have : 0 < b - a := sub_pos.2 hab
    positivity
  unfold nodeWeight simpson
  have key : ∀ c d : ℝ, a + c * ((b - a) / 256) = a + d * ((b - a) / 256) ↔ c = d := fun c d =>
    ⟨fun h => mul_right_cancel₀ hh (add_left_cancel h), fun h => by rw [h]⟩
  have e : (2 : ℝ) * ((128 : ℕ) : ℝ) = 256 := by norm_num
  rw [e]
  rw [Finset.sum_eq_single_of_mem i (Finset.mem_range.2 hi)]
  · simp only [key]
    have h0 : ¬ (2 * (i : ℝ) = 2 * i + 1) := by linarith
    have h2 : ¬ (2 * (i : ℝ) + 2 = 2 * i + 1) := by intro h; linarith
    rw [if_neg h0, if_neg h2, if_pos trivial]
    ring
  · intro j _ hji
    simp only [key]
    have h0 : ¬ (2 * (j : ℝ) = 2 * i + 1) := by
      intro h; have : 2 * j = 2 * i + 1 := by exact_mod_cast h
      omega
    have h1 : ¬ (2 * (j : ℝ) + 1 = 2 * i + 1) := by
      intro h; have : 2 * j + 1 = 2 * i + 1 := by exact_mod_cast h
      omega
    have h2 : ¬ (2 * (j : ℝ) + 2 = 2 * i + 1) := by
      intro h; have : 2 * j + 2 = 2 * i + 1 := by exact_mod_cast h
      omega
    rw [if_neg h0, if_neg h1, if_neg h2]
    norm_num

/-- C160: sources at an odd node of the normalisation, seen from a redshift whose quadrature does not hit them:
their lensing is lost, though a plane of them lenses. -/
theorem C160_lost (p : Params) (hg : p.gamma = none) {g Z z ell : ℝ} (hZ : 0 < Z) {i : ℕ} (hi : i < 128)
    (h : ∀ j : ℕ, j ≤ 256 → (2 * i + 1) * (Z / 256) ≠ z + j * ((Z - z) / 256)) :
    ∃ K : ℝ → ℝ, (∀ bw, 0 < bw →
      weakLensingKernel p [.kde [((2 * i + 1) * (Z / 256), 1)] bw g Z] z ell = .ok [K bw]) ∧
      Tendsto K (𝓝[>] 0) (𝓝 0) := by
  have hW := nodeWeight_odd hZ hi
  rw [sub_zero, zero_add] at hW
  obtain ⟨K, P, h1, -, h2⟩ := C160_limit_partial p hg (z0 := (2 * i + 1) * (Z / 256)) (g := g) (Z := Z) (z := z)
    (ell := ell) (by rw [hW]; positivity)
  rw [nodeWeight_zero h, zero_div, zero_mul] at h2
  exact ⟨K, h1, h2⟩

/-- C160: sources at an odd node of both rules: the kernel falls short by the factor `1 - z / Z`, the ratio of the
two steps. -/
theorem C160_common (p : Params) (hg : p.gamma = none) {z0 g Z z ell : ℝ} (hz : 0 ≤ z) (hzZ : z < Z) {i j : ℕ}
    (hi : i < 128) (hj : j < 128) (h0 : z0 = (2 * i + 1) * (Z / 256))
    (h1 : z0 = z + (2 * j + 1) * ((Z - z) / 256)) :
    ∃ K : ℝ → ℝ, ∃ P, (∀ bw, 0 < bw → weakLensingKernel p [.kde [(z0, 1)] bw g Z] z ell = .ok [K bw]) ∧
      weakLensingKernel p [.delta z0 g Z] z ell = .ok [P] ∧ Tendsto K (𝓝[>] 0) (𝓝 ((1 - z / Z) * P)) := by
  have hZ : 0 < Z := hz.trans_lt hzZ
  have hW : nodeWeight z0 0 Z = 4 * (Z / 256) / 3 := by
    have := nodeWeight_odd hZ hi
    rw [sub_zero, zero_add] at this
    rw [h0, this]
  have hV : nodeWeight z0 z Z = 4 * ((Z - z) / 256) / 3 := by
    rw [h1]
    exact nodeWeight_odd hzZ hj
  obtain ⟨K, P, k1, k2, k3⟩ := C160_limit_partial p hg (z0 := z0) (g := g) (Z := Z) (z := z)
    (ell := ell) (by rw [hW]; positivity)
  rw [hW, hV, show 4 * ((Z - z) / 256) / 3 / (4 * (Z / 256) / 3) = 1 - z / Z by field_simp] at k3
  exact ⟨K, P, k1, k2, k3⟩

/-- C160: sources at an odd node of the kernel's rule that the normalisation misses: the kernel grows without
bound as the bin narrows. -/
theorem C160_divergent (p : Params) (hg : p.gamma = none) (hE : EsqrPos p) (hm : 0 < p.Omega_m) {g Z z ell : ℝ}
    (hz : 0 < z) (hzZ : z < Z) (hl : 1 < ell) {j : ℕ} (hj : j < 128)
    (h : ∀ i : ℕ, i ≤ 256 → z + (2 * j + 1) * ((Z - z) / 256) ≠ i * (Z / 256)) :
    ∃ K : ℝ → ℝ, (∀ bw, 0 < bw →
      weakLensingKernel p [.kde [(z + (2 * j + 1) * ((Z - z) / 256), 1)] bw g Z] z ell = .ok [K bw]) ∧
      Tendsto K (𝓝[>] 0) atTop := by
  set z0 := z + (2 * j + 1) * ((Z - z) / 256) with hz0
  have hzz : z < z0 := by
    have : 0 < Z - z := sub_pos.2 hzZ
    have : 0 < (2 * (j : ℝ) + 1) * ((Z - z) / 256) := by positivity
    linarith
  refine ⟨_, fun bw hb => narrow_kernel p hg hb, ?_⟩
  obtain ⟨c1, c2⟩ := chiZ_lt hE hz hzz
  obtain ⟨d1, d2⟩ := prefactor_pos hm hz hl
  have hw : 0 < lensWeight (chiZ p) z z0 := by
    unfold lensWeight
    rw [max_eq_left (sub_nonneg.2 c2.le)]
    exact div_pos (sub_pos.2 c2) (lt_of_lt_of_le one_pos (le_max_right _ _))
  have hV : 0 < nodeWeight z0 z Z := by
    rw [nodeWeight_odd hzZ hj]
    have : 0 < Z - z := sub_pos.2 hzZ
    positivity
  have hN : Tendsto (fun bw => simpson (bump z0 bw) 0 Z 128) (𝓝[>] 0) (𝓝[>] 0) := by
    rw [tendsto_nhdsWithin_iff]
    refine ⟨?_, Eventually.of_forall fun bw => bump_norm_pos (hz.trans hzZ)⟩
    have := simpson_tendsto (bump_tendsto z0) 0 Z 128
    rwa [show simpson (fun x => if x = z0 then (1 : ℝ) else 0) 0 Z 128 = 0 from
      nodeWeight_zero (fun i hi => by rw [zero_add, sub_zero]; exact h i hi)] at this
  have hq := (weight_tendsto p z0 z Z).pos_mul_atTop (mul_pos hw hV) hN.inv_tendsto_nhdsGT_zero
  unfold lensKernel
  have := (hq.const_mul_atTop (mul_pos d2 c1)).const_mul_atTop d1
  refine this.congr fun bw => ?_
  simp only [Pi.inv_apply, div_eq_mul_inv]

/-- The redshift 1.289 is a node of the default normalisation but not of the kernel at redshift 1/2. -/
theorem narrow_missed : ∀ j : ℕ, j ≤ 256 → (2 * ((16 : ℕ) : ℝ) + 1) * (10 / 256) ≠ 1 / 2 + j * ((10 - 1 / 2) / 256) := by
  intro j hj h
  have h1 : (404 : ℝ) = 19 * j := by
    have := congrArg (fun t : ℝ => 512 * t) h
    norm_num at this
    linarith
  have h2 : 404 = 19 * j := by exact_mod_cast h1
  omega

/-- C160 as stated fails, for Planck 2015 and the default range of redshifts. -/
theorem C160_refuted : ¬ ∀ (p : Params) (z0 Z z ell : ℝ) (K : ℝ → ℝ) (P : ℝ), p.gamma = none → Physical p →
    0 < z → z < z0 → z0 < Z → 1 < ell →
    (∀ bw, 0 < bw → weakLensingKernel p [.kde [(z0, 1)] bw 1 Z] z ell = .ok [K bw]) →
    weakLensingKernel p [.delta z0 1 Z] z ell = .ok [P] → Tendsto K (𝓝[>] 0) (𝓝 P) := by
  intro h
  obtain ⟨K, h1, h2⟩ := C160_lost Planck15 rfl (g := 1) (Z := 10) (z := 1 / 2) (ell := 100) (by norm_num)
    (i := 16) (by norm_num) narrow_missed
  have h3 := h Planck15 _ 10 (1 / 2) 100 K _ rfl planck_physical (by norm_num) (by norm_num) (by norm_num)
    (by norm_num) h1 (plane_weight Planck15 rfl)
  have h4 := tendsto_nhds_unique h2 h3
  have hm : 0 < Planck15.Omega_m := by norm_num [Planck15, Params.Omega_m]
  obtain ⟨c1, c2⟩ := chiZ_lt planck_physical.esqrPos (z := 1 / 2) (z0 := (2 * ((16 : ℕ) : ℝ) + 1) * (10 / 256))
    (by norm_num) (by norm_num)
  obtain ⟨d1, d2⟩ := prefactor_pos hm (z := 1 / 2) (ell := 100) (by norm_num) (by norm_num)
  have hw : 0 < lensWeight (chiZ Planck15) (1 / 2) ((2 * ((16 : ℕ) : ℝ) + 1) * (10 / 256)) := by
    unfold lensWeight
    rw [max_eq_left (sub_nonneg.2 c2.le)]
    exact div_pos (sub_pos.2 c2) (lt_of_lt_of_le one_pos (le_max_right _ _))
  have : 0 < lensKernel Planck15.Omega_m const_H0 const_c (chiZ Planck15) (1 / 2) 100
      (lensWeight (chiZ Planck15) (1 / 2) ((2 * ((16 : ℕ) : ℝ) + 1) * (10 / 256))) :=
    mul_pos d1 (mul_pos (mul_pos d2 c1) hw)
  linarith

/-- Planck 2015, sources at redshift 1.289, lenses at redshift 1/2. -/
example : ∃ K : ℝ → ℝ, (∀ bw, 0 < bw →
    weakLensingKernel Planck15 [.kde [((2 * (16 : ℕ) + 1) * (10 / 256), 1)] bw 1 10] (1 / 2) 100 = .ok [K bw]) ∧
    Tendsto K (𝓝[>] 0) (𝓝 0) :=
  C160_lost Planck15 rfl (by norm_num) (by norm_num) narrow_missed

/-- Lenses at redshift 4: sources at 4.02 are on both grids, and lens at 6/10 of their strength. -/
example : ∃ K : ℝ → ℝ, ∃ P, (∀ bw, 0 < bw → weakLensingKernel Planck15 [.kde [(1030 / 256, 1)] bw 1 10] 4 100 = .ok [K bw]) ∧
    weakLensingKernel Planck15 [.delta (1030 / 256) 1 10] 4 100 = .ok [P] ∧
    Tendsto K (𝓝[>] 0) (𝓝 ((1 - 4 / 10) * P)) :=
  C160_common Planck15 rfl (by norm_num) (by norm_num) (i := 51) (j := 0) (by norm_num) (by norm_num)
    (by norm_num) (by norm_num)

/-- Lenses at redshift 1/2, sources at 1.279: the kernel diverges. -/
example : ∃ K : ℝ → ℝ, (∀ bw, 0 < bw → weakLensingKernel Planck15
      [.kde [(1 / 2 + (2 * (10 : ℕ) + 1) * ((10 - 1 / 2) / 256), 1)] bw 1 10] (1 / 2) 100 = .ok [K bw]) ∧
    Tendsto K (𝓝[>] 0) atTop := by
  refine C160_divergent Planck15 rfl planck_physical.esqrPos (by norm_num [Planck15, Params.Omega_m]) (by norm_num)
    (by norm_num) (by norm_num) (by norm_num) ?_
  intro i _ h
  have h1 : (655 : ℝ) = 20 * i := by
    have := congrArg (fun t : ℝ => 512 * t) h
    norm_num at this
    linarith
  have h2 : 655 = 20 * i := by exact_mod_cast h1
  omega

end JaxCosmo
