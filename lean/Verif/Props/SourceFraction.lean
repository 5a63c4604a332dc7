import Verif.Props.Merging
import Verif.Props.SmailShape

/-! # C109, C110: the sources behind a lens -/

namespace JaxCosmo
open Spec

/-! ## C109 -/

theorem lensWeight_le_one (p : Params) (z z' : ℝ) : lensWeight (chiZ p) z z' ≤ 1 := by
  have h := chiZ_nonneg p z
  have h' := chiZ_nonneg p z'
  unfold lensWeight
  rw [div_le_one (by positivity)]
  exact max_le ((by linarith : chiZ p z' - chiZ p z ≤ chiZ p z').trans (le_max_left _ _)) (by positivity)

theorem lensKernel_le {p : Params} (hm : 0 ≤ p.Omega_m) {z ell q u : ℝ} (hz : 0 ≤ z) (h : q ≤ u) :
    lensKernel p.Omega_m const_H0 const_c (chiZ p) z ell q
      ≤ farKernel p.Omega_m const_H0 const_c z ell (chiZ p z) * u := by
  have := chiZ_nonneg p z
  have h0 : 0 ≤ 3 / 2 * p.Omega_m * const_H0 ^ 2 / const_c * spinFactor ell * ((1 + z) * chiZ p z) := by
    unfold const_H0 const_c spinFactor
    positivity
  have := mul_le_mul_of_nonneg_left h h0
  unfold lensKernel farKernel
  linarith

/-- C109, partial: a plane of sources never lenses more than infinitely distant sources. -/
theorem C109_plane_partial (p : Params) (hg : p.gamma = none) (hm : 0 ≤ p.Omega_m) {z0 g zm z ell : ℝ}
    (hz : 0 ≤ z) : ∃ k, weakLensingKernel p [.delta z0 g zm] z ell = .ok [k] ∧
      k ≤ farKernel p.Omega_m const_H0 const_c z ell (chiZ p z) := by
  refine ⟨_, C48_order p hg [.delta z0 g zm] z ell zm rfl, ?_⟩
  have := lensKernel_le hm (ell := ell) hz (lensWeight_le_one p z z0)
  rwa [mul_one] at this

/-- C109, partial: an extended distribution of sources lenses at most as much as infinitely distant
sources times the fraction `F` of sources that the library's quadrature finds behind the lens.  What is
missing is `F ≤ 1`: see `C109_refuted`. -/
theorem C109_extended_partial (p : Params) (hg : p.gamma = none) (hm : 0 ≤ p.Omega_m) (pz : Nz)
    (hd : pz.isDelta = false) {z ell : ℝ} (hz : 0 ≤ z) (hzm : z ≤ pz.zmax)
    (hn : ∀ x, z ≤ x → x ≤ pz.zmax → 0 ≤ pz.eval x) : ∃ k F, weakLensingKernel p [pz] z ell = .ok [k] ∧
      simps pz.eval z pz.zmax 256 = .ok F ∧
      k ≤ farKernel p.Omega_m const_H0 const_c z ell (chiZ p z) * F := by
  refine ⟨_, _, C48_order p hg [pz] z ell pz.zmax rfl, rfl, ?_⟩
  rw [binKernel_extended p _ _ _ hd]
  refine lensKernel_le hm hz ?_
  rw [← simpsBody_simpson, ← sub_nonneg]
  have e : simpsBody pz.eval z pz.zmax 256 - simpsBody (fun z' => pz.eval z' * lensWeight (chiZ p) z z') z
      pz.zmax 256 = simpsBody (fun z' => pz.eval z' + -1 * (pz.eval z' * lensWeight (chiZ p) z z')) z
        pz.zmax 256 := by rw [simpsBody_add, simpsBody_smul]; ring
  rw [e]
  refine simpsBody_nonneg _ _ _ hzm 256 (by norm_num) fun x h1 h2 => ?_
  have := lensWeight_le_one p z x
  nlinarith [hn x h1 h2]

/-- C109, partial: at the observer that fraction is one. -/
theorem C109_observer_partial (pz : Nz) (hd : pz.isDelta = false) {n : ℝ}
    (hn : simps pz.pzFn 0 pz.zmax 256 = .ok n) (h0 : n ≠ 0) : simps pz.eval 0 pz.zmax 256 = .ok 1 :=
  C45_normalised pz hd hn h0 []

/-- In the last cell of the table the distance is proportional to `1 - a`. -/
theorem chi_last_cell {p : Params} (h : Physical p) : ∃ s, const_rh / 2 ≤ s ∧
    ∀ a, logspace (-3) 0 256 254 ≤ a → a ≤ 1 → chiOf p a = (1 - a) * s := by
  have hinc := logspace_increasing (lo := -3) (n := 256) (by norm_num) (by norm_num)
  have hone : logspace (-3) 0 256 255 = 1 := logspace_end (-3) (by norm_num : 2 ≤ 256)
  have hlast : (chiTable p (-3) 256).chi 255 = 0 := chiTable_last p (-3) 256
  have hd : 0 < 1 - logspace (-3) 0 256 254 := by
    rw [← hone, sub_pos]; exact hinc 254 255 (by norm_num) (by norm_num)
  have key : ∀ a, logspace (-3) 0 256 254 ≤ a → interp 256 (logspace (-3) 0 256)
      (chiTable p (-3) 256).chi a
        = (1 - a) * ((chiTable p (-3) 256).chi 254 / (1 - logspace (-3) 0 256 254)) := by
    intro a ha
    rw [interp_inc_seg (by norm_num) hinc (chiTable p (-3) 256).chi (x := a) (j := 254)
      (by norm_num) (by norm_num) (Or.inr ha) (Or.inl rfl), chord, hone, hlast]
    field_simp; ring
  have hl := chi_lower h le_rfl (sub_nonneg.1 hd.le)
  have hrh : 0 < const_rh := by norm_num [const_rh]
  have hc : 0 < chiOf p (logspace (-3) 0 256 254) := lt_of_lt_of_le (by positivity) hl
  have hk := key _ le_rfl
  have hc' : chiOf p (logspace (-3) 0 256 254) = interp 256 (logspace (-3) 0 256)
      (chiTable p (-3) 256).chi (logspace (-3) 0 256 254) := by
    refine max_eq_left ?_
    by_contra hneg
    have : chiOf p (logspace (-3) 0 256 254) = 0 := max_eq_right (not_le.1 hneg).le
    linarith
  have hs : const_rh / 2 ≤ (chiTable p (-3) 256).chi 254 / (1 - logspace (-3) 0 256 254) := by
    rw [hc', hk, mul_div_assoc] at hl
    exact le_of_mul_le_mul_left hl hd
  refine ⟨_, hs, fun a ha h1 => ?_⟩
  rw [← key a ha]
  refine max_eq_left ?_
  change 0 ≤ interp 256 (logspace (-3) 0 256) (chiTable p (-3) 256).chi a
  rw [key a ha]
  exact mul_nonneg (by linarith) (by linarith)

theorem last_cell_reach : logspace (-3) 0 256 254 ≤ 0.98 := by
  rw [logspace, linspace, Real.rpow_def_of_pos (by norm_num)]
  have hl : 2 < Real.log 10 := by
    rw [Real.lt_log_iff_exp_lt (by norm_num), show (2 : ℝ) = 1 + 1 by norm_num, Real.exp_add]
    have := Real.exp_one_lt_d9
    have h0 := Real.exp_pos 1
    norm_num at this ⊢
    nlinarith
  have h2 : Real.log 10 * (-3 + ((254 : ℕ) : ℝ) * ((0 - -3) / (((256 : ℕ) : ℝ) - 1))) ≤ -(6 / 255) := by
    push_cast
    linarith
  refine (Real.exp_le_exp.2 h2).trans ?_
  have : Real.exp (-(6 / 255)) ≤ 1 / (1 + 6 / 255) := by
    rw [Real.exp_neg, ← one_div]
    refine one_div_le_one_div_of_le (by norm_num) ?_
    have := Real.add_one_le_exp (6 / 255 : ℝ)
    linarith
  exact this.trans (by norm_num)

/-- One galaxy, smoothed by 0.001 in redshift. -/
noncomputable def oneGalaxy : Nz := .kde [(0.005 + 2.555 / 256, 1)] 0.001 1 2.56

theorem oneGalaxy_pz (z : ℝ) : oneGalaxy.pzFn z = 1 / √(2 * Real.pi) / 0.001
    * Real.exp (-((0.005 + 2.555 / 256 - z) ^ 2) / (0.001 ^ 2 * 2)) := by
  simp [oneGalaxy, Nz.pzFn, Nz.kdeKernel]

/-- The norm misses the galaxy, which sits halfway between two nodes. -/
theorem oneGalaxy_norm : 0 < oneGalaxy.computedNorm ∧
    oneGalaxy.computedNorm ≤ 1 / √(2 * Real.pi) / 0.001 * (2.56 / 150000) := by
  have hc : 0 < 1 / √(2 * Real.pi) / 0.001 := by
    have : 0 < √(2 * Real.pi) := Real.sqrt_pos.2 (by positivity)
    positivity
  constructor
  · refine simpsBody_pos (by norm_num [oneGalaxy, Nz.zmax]) 256 (by norm_num) (by norm_num) ?_ (i := 0)
      (by norm_num) ?_
    · intro x _ _
      rw [oneGalaxy_pz]; positivity
    · rw [oneGalaxy_pz]; positivity
  · have hnode : ∀ i : ℕ, Real.exp (-((0.005 + 2.555 / 256 - linspace (0 : ℝ) 2.56 257 i) ^ 2)
        / (0.001 ^ 2 * 2)) ≤ 1 / 150000 := by
      intro i
      have e : linspace (0 : ℝ) 2.56 257 i = i * 0.01 := by
        unfold linspace; push_cast; ring
      rw [e]
      have hd : 0.0049 ^ 2 ≤ ((0.005 : ℝ) + 2.555 / 256 - i * 0.01) ^ 2 := by
        rcases Nat.lt_or_ge i 2 with h | h
        · have : (i : ℝ) ≤ 1 := by exact_mod_cast Nat.lt_succ_iff.1 h
          have : 0.0049 ≤ (0.005 : ℝ) + 2.555 / 256 - i * 0.01 := by linarith
          exact pow_le_pow_left₀ (by norm_num) this 2
        · have : (2 : ℝ) ≤ i := by exact_mod_cast h
          have : 0.0049 ≤ -((0.005 : ℝ) + 2.555 / 256 - i * 0.01) := by linarith
          have := pow_le_pow_left₀ (by norm_num) this 2
          rwa [neg_sq] at this
      have h12 : -((0.005 + 2.555 / 256 - (i : ℝ) * 0.01) ^ 2) / (0.001 ^ 2 * 2) ≤ -12 := by
        rw [div_le_iff₀ (by norm_num)]
        norm_num at hd ⊢
        linarith
      refine (Real.exp_le_exp.2 h12).trans ?_
      rw [Real.exp_neg, ← one_div]
      refine one_div_le_one_div_of_le (by norm_num) ?_
      have h1 : (2.7 : ℝ) ^ 12 ≤ Real.exp 1 ^ 12 := by
        refine pow_le_pow_left₀ (by norm_num) ?_ 12
        have := Real.exp_one_gt_d9
        norm_num at this ⊢
        linarith
      rw [← Real.exp_nat_mul] at h1
      norm_num at h1 ⊢
      linarith
    have hle : simpsBody oneGalaxy.pzFn 0 2.56 256
        ≤ simpsBody (fun _ => 1 / √(2 * Real.pi) / 0.001 * (1 / 150000)) (0 : ℝ) 2.56 256 := by
      simp only [simpsBody]
      refine mul_le_mul_of_nonneg_left (Finset.sum_le_sum fun i _ => ?_) (by norm_num)
      simp only [oneGalaxy_pz]
      have h1 := mul_le_mul_of_nonneg_left (hnode (2 * i)) hc.le
      have h2 := mul_le_mul_of_nonneg_left (hnode (2 * i + 1)) hc.le
      have h3 := mul_le_mul_of_nonneg_left (hnode (2 * i + 2)) hc.le
      linarith
    refine hle.trans (le_of_eq ?_)
    simp only [simpsBody, Finset.sum_const, Finset.card_range, nsmul_eq_mul]
    generalize 1 / √(2 * Real.pi) / 0.001 = c
    norm_num
    ring

/-- C109, refuted: in every physical cosmology a narrow distribution of sources lenses 500 times more
than infinitely distant sources.  The norm is computed on nodes that miss the peak, the lensing
efficiency on nodes (between the lens and `zmax`) one of which hits it. -/
theorem C109_refuted (p : Params) (hg : p.gamma = none) (hp : Physical p) {ell : ℝ} (hl : 1 < ell) :
    ∃ k, weakLensingKernel p [oneGalaxy] 0.005 ell = .ok [k] ∧
      500 * farKernel p.Omega_m const_H0 const_c 0.005 ell (chiZ p 0.005) < k := by
  refine ⟨_, C48_order p hg [oneGalaxy] 0.005 ell 2.56 rfl, ?_⟩
  rw [binKernel_extended p _ _ _ rfl]
  have hc : 0 < 1 / √(2 * Real.pi) / 0.001 := by
    have : 0 < √(2 * Real.pi) := Real.sqrt_pos.2 (by positivity)
    positivity
  obtain ⟨n0, n1⟩ := oneGalaxy_norm
  have hpos : ∀ x, 0 ≤ oneGalaxy.eval x := fun x => by
    rw [Nz.eval_extended rfl, oneGalaxy_pz]; positivity
  -- the weight of the galaxy
  obtain ⟨s, hs, hchi⟩ := chi_last_cell hp
  have hrh : (2997 : ℝ) / 2 ≤ const_rh / 2 := by norm_num [const_rh]
  have w1 : chiZ p 0.005 = (1 - 1 / 1.005) * s := by
    rw [chiZ, hchi _ (last_cell_reach.trans (by norm_num [z2a])) (by norm_num [z2a])]
    norm_num [z2a]
  have w2 : chiZ p (0.005 + 2.555 / 256) = (1 - 1 / (1.005 + 2.555 / 256)) * s := by
    rw [chiZ, hchi _ (last_cell_reach.trans (by norm_num [z2a])) (by norm_num [z2a])]
    norm_num [z2a]
  have hw : 0.66 ≤ lensWeight (chiZ p) 0.005 (0.005 + 2.555 / 256) := by
    unfold lensWeight
    rw [w1, w2]
    have hb : 1 ≤ (1 - 1 / (1.005 + 2.555 / 256)) * s := by norm_num at hs hrh ⊢; linarith
    rw [max_eq_left hb, le_div_iff₀ (by linarith)]
    refine le_trans ?_ (le_max_left _ _)
    norm_num at hs hrh ⊢; linarith
  -- its density
  have he : 150000 / 2.56 ≤ oneGalaxy.eval (0.005 + 2.555 / 256) := by
    rw [Nz.eval_extended rfl, oneGalaxy_pz, le_div_iff₀ n0]
    simp only [sub_self]
    norm_num at n1 ⊢
    linarith
  -- one term of the sum
  have hq : 500 < simpson (fun z' => oneGalaxy.eval z' * lensWeight (chiZ p) 0.005 z') 0.005 2.56 128 := by
    have h1 : 4 * (oneGalaxy.eval (0.005 + 2.555 / 256) * lensWeight (chiZ p) 0.005 (0.005 + 2.555 / 256))
        ≤ ∑ j ∈ Finset.range 128, ((fun z' => oneGalaxy.eval z' * lensWeight (chiZ p) 0.005 z')
            (0.005 + (2 * j) * ((2.56 - 0.005) / (2 * (128 : ℕ))))
          + 4 * (fun z' => oneGalaxy.eval z' * lensWeight (chiZ p) 0.005 z')
            (0.005 + (2 * j + 1) * ((2.56 - 0.005) / (2 * (128 : ℕ))))
          + (fun z' => oneGalaxy.eval z' * lensWeight (chiZ p) 0.005 z')
            (0.005 + (2 * j + 2) * ((2.56 - 0.005) / (2 * (128 : ℕ))))) := by
      have hnn : ∀ x, 0 ≤ oneGalaxy.eval x * lensWeight (chiZ p) 0.005 x := fun x =>
        mul_nonneg (hpos x) (lensWeight_nonneg _ _ _)
      refine le_trans ?_ (Finset.single_le_sum (f := fun j : ℕ =>
          ((fun z' => oneGalaxy.eval z' * lensWeight (chiZ p) 0.005 z')
            (0.005 + (2 * j) * ((2.56 - 0.005) / (2 * (128 : ℕ))))
          + 4 * (fun z' => oneGalaxy.eval z' * lensWeight (chiZ p) 0.005 z')
            (0.005 + (2 * j + 1) * ((2.56 - 0.005) / (2 * (128 : ℕ))))
          + (fun z' => oneGalaxy.eval z' * lensWeight (chiZ p) 0.005 z')
            (0.005 + (2 * j + 2) * ((2.56 - 0.005) / (2 * (128 : ℕ)))))) (fun j _ => ?_)
          (Finset.mem_range.2 (by norm_num : 0 < 128)))
      · have e : (0.005 : ℝ) + (2 * ((0 : ℕ) : ℝ) + 1) * ((2.56 - 0.005) / (2 * ((128 : ℕ) : ℝ)))
            = 0.005 + 2.555 / 256 := by norm_num
        simp only [e]
        have a1 := hnn (0.005 + (2 * ((0 : ℕ) : ℝ)) * ((2.56 - 0.005) / (2 * ((128 : ℕ) : ℝ))))
        have a2 := hnn (0.005 + (2 * ((0 : ℕ) : ℝ) + 2) * ((2.56 - 0.005) / (2 * ((128 : ℕ) : ℝ))))
        linarith
      · have a1 := hnn (0.005 + (2 * (j : ℝ)) * ((2.56 - 0.005) / (2 * ((128 : ℕ) : ℝ))))
        have a2 := hnn (0.005 + (2 * (j : ℝ) + 1) * ((2.56 - 0.005) / (2 * ((128 : ℕ) : ℝ))))
        have a3 := hnn (0.005 + (2 * (j : ℝ) + 2) * ((2.56 - 0.005) / (2 * ((128 : ℕ) : ℝ))))
        simp only
        linarith
    have h2 : 150000 / 2.56 * 0.66 ≤ oneGalaxy.eval (0.005 + 2.555 / 256)
        * lensWeight (chiZ p) 0.005 (0.005 + 2.555 / 256) :=
      mul_le_mul he hw (by norm_num) (hpos _)
    unfold simpson
    have h3 := mul_le_mul_of_nonneg_left (h1.trans' (mul_le_mul_of_nonneg_left h2 (by norm_num : (0 : ℝ) ≤ 4)))
      (show (0 : ℝ) ≤ (2.56 - 0.005) / (2 * ((128 : ℕ) : ℝ)) / 3 by norm_num)
    refine lt_of_lt_of_le ?_ h3
    norm_num
  have hχ : 0 < chiZ p 0.005 := by rw [w1]; norm_num at hs hrh ⊢; linarith
  have hf : 0 < farKernel p.Omega_m const_H0 const_c 0.005 ell (chiZ p 0.005) := by
    obtain ⟨q1, q2⟩ := prefactor_pos hp.m_pos (z := 0.005) (by norm_num) hl
    unfold farKernel
    positivity
  have := mul_lt_mul_of_pos_left hq hf
  unfold lensKernel farKernel at *
  linarith

/-! ## C110 -/

/-- C110, partial: among lists of bins with the same largest `zmax`, the kernel of a bin does not depend
on the other bins.  Missing: lists whose largest `zmax` differ, see `C110_refuted`. -/
theorem C110_same_reach_partial (p : Params) (hg : p.gamma = none) (bins bins' : List Nz) (pz : Nz)
    {zmax z ell : ℝ} (hz : pyMax (bins.map Nz.zmax) = .ok zmax)
    (hz' : pyMax (bins'.map Nz.zmax) = .ok zmax) {t t' : ℕ} (ht : bins[t]? = some pz)
    (ht' : bins'[t']? = some pz) : ∃ k k', weakLensingKernel p bins z ell = .ok k ∧
      weakLensingKernel p bins' z ell = .ok k' ∧ k.getD t 0 = k'.getD t' 0 := by
  refine ⟨_, _, C48_order p hg bins z ell zmax hz, C48_order p hg bins' z ell zmax hz', ?_⟩
  rw [getD_map_bin _ _ ht, getD_map_bin _ _ ht']

/-- C110, partial: the kernel of a plane of sources never depends on the other bins. -/
theorem C110_plane_partial (p : Params) (hg : p.gamma = none) (bins bins' : List Nz)
    {z0 g zm zmax zmax' z ell : ℝ} (hz : pyMax (bins.map Nz.zmax) = .ok zmax)
    (hz' : pyMax (bins'.map Nz.zmax) = .ok zmax') {t t' : ℕ} (ht : bins[t]? = some (.delta z0 g zm))
    (ht' : bins'[t']? = some (.delta z0 g zm)) : ∃ k k', weakLensingKernel p bins z ell = .ok k ∧
      weakLensingKernel p bins' z ell = .ok k' ∧ k.getD t 0 = k'.getD t' 0 := by
  refine ⟨_, _, C48_order p hg bins z ell zmax hz, C48_order p hg bins' z ell zmax' hz', ?_⟩
  rw [getD_map_bin _ _ ht, getD_map_bin _ _ ht']
  rfl

theorem weight_mono {c x y : ℝ} (hc : 0 ≤ c) (h : x ≤ y) :
    max (x - c) 0 / max x 1 ≤ max (y - c) 0 / max y 1 := by
  rcases le_total x c with hx | hx
  · rw [max_eq_right (sub_nonpos.2 hx), zero_div]
    exact div_nonneg (le_max_right _ _) (by positivity)
  · rw [max_eq_left (sub_nonneg.2 hx), max_eq_left (sub_nonneg.2 (hx.trans h))]
    rw [div_le_div_iff₀ (by positivity) (by positivity)]
    rcases le_total x 1 with h1 | h1 <;> rcases le_total y 1 with h2 | h2
    · rw [max_eq_right h1, max_eq_right h2]; linarith
    · rw [max_eq_right h1, max_eq_left h2]; nlinarith
    · rw [max_eq_left h1, max_eq_right h2]; nlinarith
    · rw [max_eq_left h1, max_eq_left h2]; nlinarith

/-- Simpson's rule for an increasing non-negative function over a longer range. -/
theorem simpson_longer {f : ℝ → ℝ} {a b c : ℝ} (hab : a < b) (hbc : b < c)
    (hm : ∀ x y, a ≤ x → x ≤ y → y ≤ c → f x ≤ f y)
    (hs : ∀ x y, a < x → x < y → y ≤ c → f x < f y) :
    (c - a) / (b - a) * simpson f a b 128 < simpson f a c 128 := by
  have hba : 0 < b - a := by linarith
  unfold simpson
  rw [← mul_assoc, show (c - a) / (b - a) * ((b - a) / (2 * ((128 : ℕ) : ℝ)) / 3)
    = (c - a) / (2 * ((128 : ℕ) : ℝ)) / 3 by field_simp]
  refine mul_lt_mul_of_pos_left ?_ (by have : 0 < c - a := by linarith
                                       positivity)
  have hr : ∀ r : ℝ, 0 ≤ r → r ≤ 256 → f (a + r * ((b - a) / (2 * ((128 : ℕ) : ℝ))))
      ≤ f (a + r * ((c - a) / (2 * ((128 : ℕ) : ℝ)))) := by
    intro r h0 h1
    refine hm _ _ ?_ ?_ ?_
    · have := mul_nonneg h0 (div_nonneg hba.le (by norm_num : (0 : ℝ) ≤ 2 * ((128 : ℕ) : ℝ)))
      linarith
    · have : (b - a) / (2 * ((128 : ℕ) : ℝ)) ≤ (c - a) / (2 * ((128 : ℕ) : ℝ)) := by gcongr
      have := mul_le_mul_of_nonneg_left this h0
      linarith
    · push_cast; nlinarith
  have hr' : ∀ r : ℝ, 0 < r → r ≤ 256 → f (a + r * ((b - a) / (2 * ((128 : ℕ) : ℝ))))
      < f (a + r * ((c - a) / (2 * ((128 : ℕ) : ℝ)))) := by
    intro r h0 h1
    refine hs _ _ ?_ ?_ ?_
    · have := mul_pos h0 (div_pos hba (by norm_num : (0 : ℝ) < 2 * ((128 : ℕ) : ℝ)))
      linarith
    · have : (b - a) / (2 * ((128 : ℕ) : ℝ)) < (c - a) / (2 * ((128 : ℕ) : ℝ)) := by gcongr
      have := mul_lt_mul_of_pos_left this h0
      linarith
    · push_cast; nlinarith
  refine Finset.sum_lt_sum_of_nonempty ⟨0, by simp⟩ fun j hj => ?_
  have hj' : (j : ℝ) ≤ 127 := by
    have := Finset.mem_range.1 hj
    exact_mod_cast (by omega : j ≤ 127)
  have hj0 : (0 : ℝ) ≤ j := by positivity
  have h1 := hr (2 * j) (by linarith) (by linarith)
  have h2 := hr (2 * j + 1) (by linarith) (by linarith)
  have h3 := hr' (2 * j + 2) (by linarith) (by linarith)
  linarith

/-- C110, refuted: in every physical cosmology, a bin of galaxies observed up to redshift 1 has its
lensing kernel multiplied by more than `(2 - z)/(1 - z)` when a bin reaching redshift 2 is added to the
probe: its distribution, normalised up to its own `zmax`, is integrated up to the largest `zmax`. -/
theorem C110_refuted (p : Params) (hg : p.gamma = none) (hp : Physical p) {z ell : ℝ} (hz : 0 < z)
    (hz1 : z < 1) (hl : 1 < ell) (other : Nz) (ho : other.zmax = 2) :
    ∃ k k' k'', weakLensingKernel p [.smail 1 2 10 1 1] z ell = .ok [k] ∧
      weakLensingKernel p [.smail 1 2 10 1 1, other] z ell = .ok [k', k''] ∧
      (2 - z) / (1 - z) * k < k' := by
  refine ⟨_, _, _, C48_order p hg [.smail 1 2 10 1 1] z ell 1 rfl,
    C48_order p hg [.smail 1 2 10 1 1, other] z ell 2 (by
      simp only [List.map_cons, List.map_nil, ho, pyMax, List.foldl_cons, List.foldl_nil]
      norm_num [Nz.zmax]), ?_⟩
  rw [binKernel_extended p _ _ _ rfl, binKernel_extended p _ _ _ rfl]
  have hE := hp.esqrPos
  have hpk : (2 : ℝ) ≤ 10 * (1 / 2) ^ ((1 : ℝ) / 2) := by
    rw [← Real.sqrt_eq_rpow]
    have : (0.2 : ℝ) ≤ √(1 / 2) := Real.le_sqrt_of_sq_le (by norm_num)
    norm_num at this ⊢; linarith
  have hinc := C92_rise (a := 1) (b := 2) (z0 := 10) (g := 1) (zm := 1) (by norm_num) (by norm_num)
    (by norm_num) (by norm_num) []
  have hw : ∀ x y, 0 ≤ x → x ≤ y → lensWeight (chiZ p) z x ≤ lensWeight (chiZ p) z y := fun x y h0 h =>
    weight_mono (chiZ_nonneg p z) (chiZ_mono hE h0 h)
  have hwp : ∀ y, z < y → 0 < lensWeight (chiZ p) z y := fun y h => by
    unfold lensWeight
    refine div_pos (lt_max_of_lt_left (sub_pos.2 (chiZ_lt hE hz h).2)) (by positivity)
  have hpos : ∀ x, 0 < x → 0 < (Nz.smail 1 2 10 1 1).eval x := fun x h =>
    smailAt_pos (by norm_num) [] h
  have hs : ∀ x y, z ≤ x → x < y → y ≤ 2 → (Nz.smail 1 2 10 1 1).eval x * lensWeight (chiZ p) z x
      < (Nz.smail 1 2 10 1 1).eval y * lensWeight (chiZ p) z y := by
    intro x y h1 h2 h3
    have e : (Nz.smail 1 2 10 1 1).eval x < (Nz.smail 1 2 10 1 1).eval y :=
      hinc ⟨by linarith, by linarith⟩ ⟨by linarith, by linarith⟩ h2
    have p1 := hpos x (by linarith)
    have p2 := hwp y (by linarith)
    have p3 := hw x y (by linarith) h2.le
    nlinarith
  have key := simpson_longer (f := fun z' => (Nz.smail 1 2 10 1 1).eval z' * lensWeight (chiZ p) z z')
    hz1 (by norm_num : (1 : ℝ) < 2) (fun x y h1 h2 h3 => by
      rcases h2.eq_or_lt with rfl | h2
      · rfl
      · exact (hs x y h1 h2 h3).le) (fun x y h1 h2 h3 => hs x y h1.le h2 h3)
  obtain ⟨q1, q2⟩ := prefactor_pos hp.m_pos hz hl
  have hχ := (chiZ_lt hE hz hz1).1
  have hf : 0 < 3 / 2 * p.Omega_m * const_H0 ^ 2 / const_c * spinFactor ell * ((1 + z) * chiZ p z) := by
    positivity
  have := mul_lt_mul_of_pos_left key hf
  unfold lensKernel
  linarith

/-- Witness: Planck 2015, at `z = 1/2`: the kernel is multiplied by more than three. -/
example : ∃ k k' k'', weakLensingKernel Planck15 [.smail 1 2 10 1 1] (1 / 2) 10 = .ok [k] ∧
    weakLensingKernel Planck15 [.smail 1 2 10 1 1, .smail 1 2 1 1 2] (1 / 2) 10 = .ok [k', k''] ∧
    3 * k < k' := by
  obtain ⟨k, k', k'', h1, h2, h3⟩ := C110_refuted Planck15 rfl planck_physical (z := 1 / 2) (ell := 10)
    (by norm_num) (by norm_num) (by norm_num) (.smail 1 2 1 1 2) rfl
  exact ⟨k, k', k'', h1, h2, by norm_num at h3; linarith⟩

/-- Witness: a Smail bin meets the hypotheses of `C109_extended_partial`. -/
example : ∃ k F, weakLensingKernel Planck15 [.smail 1 2 1 1 4] 1 10 = .ok [k] ∧
    simps (Nz.smail 1 2 1 1 4).eval 1 4 256 = .ok F ∧
    k ≤ farKernel Planck15.Omega_m const_H0 const_c 1 10 (chiZ Planck15 1) * F :=
  C109_extended_partial Planck15 rfl planck_physical.m_pos.le (.smail 1 2 1 1 4) rfl (by norm_num)
    (by norm_num [Nz.zmax]) fun x h _ => (smailAt_pos (by norm_num) [] (by linarith)).le

end JaxCosmo
