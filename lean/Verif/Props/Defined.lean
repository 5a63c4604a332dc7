import Verif.Proofs.Xr
import Verif.Props.Growth

/-! # C111: background quantities are finite numbers -/

namespace JaxCosmo
open Xr

/-! ## The closed-form functions -/

theorem xm_f_de_fin (p : Params) {a : ℝ} (ha : 0 < a) : Xm.f_de p (fin a) = fin (f_de p a) := by
  unfold Xm.f_de f_de
  simp only [lit_nat, lit_one, neg_fin, add_fin, mul_fin, sub_fin, log_fin ha]

theorem xm_Esqr_fin (p : Params) {a : ℝ} (ha : 0 < a) : Xm.Esqr p (fin a) = fin (Esqr p a) := by
  unfold Xm.Esqr Esqr
  simp only [ninvpow_fin ha.ne', xm_f_de_fin p ha, exp_fin, mul_fin, add_fin]
  rfl

theorem xm_H_fin (p : Params) {a : ℝ} (ha : 0 < a) (hE : 0 ≤ Esqr p a) :
    Xm.H p (fin a) = fin (H p a) := by
  unfold Xm.H H
  rw [xm_Esqr_fin p ha, sqrt_fin hE, mul_fin]

theorem xm_Omega_m_a_fin (p : Params) {a : ℝ} (ha : 0 < a) (hE : Esqr p a ≠ 0) :
    Xm.Omega_m_a p (fin a) = fin (Omega_m_a p a) := by
  unfold Xm.Omega_m_a Omega_m_a
  rw [xm_Esqr_fin p ha, ninvpow_fin ha.ne', mul_fin, div_fin _ hE]
  rfl

theorem xm_Omega_de_a_fin (p : Params) {a : ℝ} (ha : 0 < a) (hE : Esqr p a ≠ 0) :
    Xm.Omega_de_a p (fin a) = fin (Omega_de_a p a) := by
  unfold Xm.Omega_de_a Omega_de_a
  rw [xm_Esqr_fin p ha, xm_f_de_fin p ha, exp_fin, mul_fin, div_fin _ hE]

theorem xm_dchioverda_fin (p : Params) {a : ℝ} (ha : 0 < a) (hE : 0 < Esqr p a) :
    Xm.dchioverda p (fin a) = fin (dchioverda p a) := by
  have : a ^ 2 * √(Esqr p a) ≠ 0 := (mul_pos (pow_pos ha 2) (Real.sqrt_pos.mpr hE)).ne'
  unfold Xm.dchioverda dchioverda
  rw [xm_Esqr_fin p ha, sqrt_fin hE.le, npow_fin, mul_fin, div_fin _ this]

theorem xm_w_fin (p : Params) (a : ℝ) : Xm.w p (fin a) = fin (w p a) := by
  unfold Xm.w w
  simp only [lit_one, sub_fin, mul_fin, add_fin]

/-- C111: the expansion rate, the density fractions and the distance integrand are finite (they
never divide by zero nor take a logarithm or square root outside its domain) at every positive
scale factor at which the squared expansion rate is positive; they are then the values of
`Model/Background.lean`. -/
theorem C111_expansion (p : Params) {a : ℝ} (ha : 0 < a) (hE : 0 < Esqr p a) :
    Xm.Esqr p (fin a) = fin (Esqr p a) ∧ Xm.H p (fin a) = fin (H p a) ∧
      Xm.Omega_m_a p (fin a) = fin (Omega_m_a p a) ∧
      Xm.Omega_de_a p (fin a) = fin (Omega_de_a p a) ∧
      Xm.dchioverda p (fin a) = fin (dchioverda p a) :=
  ⟨xm_Esqr_fin p ha, xm_H_fin p ha hE.le, xm_Omega_m_a_fin p ha hE.ne', xm_Omega_de_a_fin p ha hE.ne',
    xm_dchioverda_fin p ha hE⟩

/-! ## The distance table -/

theorem xm_logspace_fin (lo : ℝ) {n : ℕ} (hn : 2 ≤ n) (i : ℕ) :
    Xm.logspace lo n i = fin (logspace lo 0 n i) := by
  unfold Xm.logspace logspace
  rw [lit_zero, Xm.linspace_fin lo 0 hn, lit_nat, rpow_fin (by norm_num)]

theorem logspace_le_one {lo : ℝ} (hlo : lo < 0) {n : ℕ} (hn : 2 ≤ n) {i : ℕ} (hi : i ≤ n - 1) :
    logspace lo 0 n i ≤ 1 := by
  rw [← logspace_end lo hn]; exact (logspace_strictMono hlo hn).monotone hi

theorem xm_log_logspace_fin (lo : ℝ) {n : ℕ} (hn : 2 ≤ n) (i : ℕ) :
    (Xm.logspace lo n i).log = fin (Real.log (logspace lo 0 n i)) := by
  rw [xm_logspace_fin lo hn, log_fin (logspace_pos _ _ _ _)]

theorem xm_chiTable_fin (p : Params) {lo : ℝ} (hlo : lo < 0) {n : ℕ} (hn : 2 ≤ n) (hE : EsqrPos p)
    {i : ℕ} (hi : i < n) : (Xm.chiTable p lo n).1 i = fin ((chiTable p lo n).a i) ∧
      (Xm.chiTable p lo n).2 i = fin ((chiTable p lo n).chi i) := by
  refine ⟨xm_logspace_fin lo hn i, ?_⟩
  have key : ∀ j ≤ n - 1, Xm.odeint
      (fun _ x => Xm.dchioverda p x.exp * x.exp) (0 : Xr) (fun i => (Xm.logspace lo n i).log) j
      = fin (odeint (fun _ x => dchioverda p (Real.exp x) * Real.exp x) 0
        (fun i => Real.log (logspace lo 0 n i)) j) := by
    intro j hj
    refine Xm.odeint_fin fin (fun _ _ => rfl) (fun _ _ => rfl) (Set.Iic 0) ?_ ?_ (0 : ℝ)
      (N := n - 1) (t := fun i => Real.log (logspace lo 0 n i)) ?_ ?_ hj
    · intro s hs t ht
      simp only [Set.mem_Iic] at hs ht ⊢
      linarith
    · intro _ t ht
      have := hE _ (Real.exp_pos t) (Real.exp_le_one_iff.mpr ht)
      simp only [exp_fin]
      rw [xm_dchioverda_fin p (Real.exp_pos t) this, mul_fin]
    · intro i hi
      exact Real.log_nonpos (logspace_pos _ _ _ _).le (logspace_le_one hlo hn hi)
    · intro i _
      exact xm_log_logspace_fin lo hn i
  unfold Xm.chiTable chiTable
  simp only
  rw [key _ (by unfold ix; omega), key i (by omega), sub_fin]

theorem xm_chiOf_fin (p : Params) (hE : EsqrPos p) (a : ℝ) :
    Xm.chiOf p (fin a) = fin (chiOf p a) := by
  unfold Xm.chiOf chiOf readChi
  simp only
  have hm := logspace_strictMono (lo := -3) (by norm_num) (n := 256) (by norm_num)
  rw [Xm.interp_fin (by norm_num) (fun i hi => (xm_chiTable_fin p (by norm_num) (by norm_num) hE hi).1)
    (fun i hi => (xm_chiTable_fin p (by norm_num) (by norm_num) hE hi).2)
    (fun i j _ _ h => hm.injective.ne h), lit_zero, max_fin]
  rfl

theorem xm_aOf_fin (p : Params) (hE : EsqrPos p) (chi : ℝ) :
    Xm.aOf p (fin chi) = fin (aOf p chi) := by
  unfold Xm.aOf aOf readAOfChi
  simp only
  have hd := chiTable_decreasing p (lo := -3) (by norm_num) (n := 256) (by norm_num) hE
  refine Xm.interp_fin (by norm_num)
    (fun i hi => (xm_chiTable_fin p (by norm_num) (by norm_num) hE hi).2)
    (fun i hi => (xm_chiTable_fin p (by norm_num) (by norm_num) hE hi).1) (fun i j hi hj h => ?_) chi
  rcases lt_or_gt_of_ne h with h | h
  · exact (hd i j h hj).ne'
  · exact (hd j i h hi).ne

theorem xm_transverse_fin (p : Params) (hE : EsqrPos p) (a : ℝ) :
    Xm.transverse p (fin a) = fin (transverseOf p (chiOf p a)) := by
  have hrh : const_rh ≠ 0 := by norm_num [const_rh]
  have hsq : (fin p.Omega_k).abs.sqrt = fin p.sqrtk := sqrt_fin (abs_nonneg _)
  unfold Xm.transverse
  simp only [xm_chiOf_fin p hE, hsq]
  rcases lt_trichotomy p.Omega_k 0 with h | h | h
  · have hs : p.sqrtk ≠ 0 := (Real.sqrt_pos.mpr (abs_pos.mpr h.ne)).ne'
    have hk : (iclip (p.k + 1) 0 2).toNat = 2 := by simp [Params.k, sgn, h, iclip]
    rw [transverseOf_closed p h, hk]
    simp only [mul_fin, div_fin _ hrh, div_fin _ hs, sin_fin]
    rw [Params.sqrtk, abs_of_neg h]
  · have hk : (iclip (p.k + 1) 0 2).toNat = 1 := by simp [Params.k, sgn, h, iclip]
    rw [transverseOf_flat p h, hk]
    rfl
  · have hs : p.sqrtk ≠ 0 := (Real.sqrt_pos.mpr (abs_pos.mpr h.ne')).ne'
    have hk : (iclip (p.k + 1) 0 2).toNat = 0 := by
      simp [Params.k, sgn, h.not_gt, h.ne', iclip]
    rw [transverseOf_open p h, hk]
    simp only [mul_fin, div_fin _ hrh, div_fin _ hs, sinh_fin]
    rw [Params.sqrtk, abs_of_pos h]

/-- C111: distances are finite at every scale factor, whatever the curvature, when the squared
expansion rate is positive from the big bang until today. -/
theorem C111_distance (p : Params) (hE : EsqrPos p) (a : ℝ) :
    Xm.chiOf p (fin a) = fin (chiOf p a) ∧ Xm.aOf p (fin a) = fin (aOf p a) ∧
      Xm.transverse p (fin a) = fin (transverseOf p (chiOf p a)) ∧
      Xm.angularDiameter p (fin a) = fin (a * transverseOf p (chiOf p a)) :=
  ⟨xm_chiOf_fin p hE a, xm_aOf_fin p hE a, xm_transverse_fin p hE a, by
    rw [Xm.angularDiameter, xm_transverse_fin p hE, mul_fin]⟩

/-! ## The growth table -/

theorem xm_growthDerivs_fin (p : Params) {x : ℝ} (hx : 0 < x) (hE : Esqr p x ≠ 0) (y : ℝ × ℝ) :
    Xm.growthDerivs p (fin y.1, fin y.2) (fin x)
      = (fin (growthDerivs p y x).1, fin (growthDerivs p y x).2) := by
  unfold Xm.growthDerivs growthDerivs
  simp only [xm_Omega_m_a_fin p hx hE, xm_Omega_de_a_fin p hx hE, xm_w_fin, lit_one, lit_nat,
    div_fin_lit, mul_fin, add_fin, sub_fin, div_fin _ hx.ne', neg_fin]

theorem xm_growthTableODE_fin (p : Params) (h : Physical p) {i : ℕ} (hi : i < 128) :
    (Xm.growthTableODE p (-3) 128).1 i = fin (logspace (-3) 0 128 i) ∧
      (Xm.growthTableODE p (-3) 128).2.1 i = fin ((growthTableODE p (-3) 128).g i) ∧
      ∃ f, (growthTableODE p (-3) 128).f = some f ∧
        (Xm.growthTableODE p (-3) 128).2.2 i = fin (f i) := by
  have hlo : (-3 : ℝ) < 0 := by norm_num
  have key : ∀ j ≤ 127, Xm.odeint (Xm.growthDerivs p) (Xm.logspace (-3) 128 0, (1 : Xr))
      (Xm.logspace (-3) 128) j
      = (fin (odeint (growthDerivs p) (logspace (-3) 0 128 0, 1) (logspace (-3) 0 128) j).1,
          fin (odeint (growthDerivs p) (logspace (-3) 0 128 0, 1) (logspace (-3) 0 128) j).2) := by
    intro j hj
    rw [xm_logspace_fin _ (by norm_num)]
    refine Xm.odeint_fin (fun y : ℝ × ℝ => (fin y.1, fin y.2)) (fun _ _ => rfl) (fun _ _ => rfl)
      (Set.Ioc 0 1) ?_ ?_ (logspace (-3) 0 128 0, 1) (N := 127) (t := logspace (-3) 0 128) ?_ ?_ hj
    · rintro s ⟨hs, hs1⟩ t ⟨ht, ht1⟩
      exact ⟨by linarith, by linarith⟩
    · rintro y t ⟨ht, ht1⟩
      exact xm_growthDerivs_fin p ht (h.esqrPos t ht ht1).ne' y
    · intro i hi
      exact ⟨logspace_pos _ _ _ _, logspace_le_one hlo (by norm_num) hi⟩
    · intro i _
      exact xm_logspace_fin _ (by norm_num) i
  have hpos := growth_table_pos h hlo (n := 128) (by norm_num) default_ratio
  have e127 : ix 128 (-1) = 127 := by decide
  have h127 := (hpos 127 (by norm_num)).1
  have hposi := (hpos i hi).1
  refine ⟨xm_logspace_fin _ (by norm_num) i, ?_, _, rfl, ?_⟩
  · unfold Xm.growthTableODE growthTableODE
    simp only [key _ (show i ≤ 127 by omega), e127, key 127 le_rfl, div_fin _ h127.ne']
  · unfold Xm.growthTableODE
    simp only [key _ (show i ≤ 127 by omega), e127, key 127 le_rfl, div_fin _ h127.ne',
      xm_logspace_fin (-3) (show 2 ≤ 128 by norm_num) i, mul_fin]
    rw [div_fin _ (div_pos hposi h127).ne']

theorem xm_growthRateGamma_fin (p : Params) (hm : 0 < p.Omega_m) (γ : ℝ) {a : ℝ} (ha : 0 < a)
    (hE : 0 < Esqr p a) :
    Xm.growthRateGamma p γ (fin a) = fin (growthRateGamma p γ a) := by
  have : 0 < Omega_m_a p a := div_pos (mul_pos hm (zpow_pos ha _)) hE
  unfold Xm.growthRateGamma growthRateGamma
  rw [xm_Omega_m_a_fin p ha hE.ne', rpow_fin this]

theorem xm_growthTableGamma_fin (p : Params) (hm : 0 < p.Omega_m) (hE : EsqrPos p) (γ : ℝ) {i : ℕ}
    (hi : i < 128) : (Xm.growthTableGamma p γ (-3) 128).1 i = fin (logspace (-3) 0 128 i) ∧
      (Xm.growthTableGamma p γ (-3) 128).2 i = fin ((growthTableGamma p γ (-3) 128).g i) := by
  have hlo : (-3 : ℝ) < 0 := by norm_num
  refine ⟨xm_logspace_fin _ (by norm_num) i, ?_⟩
  have key : ∀ j ≤ 127, Xm.odeint (fun _ x => Xm.growthRateGamma p γ x.exp)
      (Xm.logspace (-3) 128 0).log (fun i => (Xm.logspace (-3) 128 i).log) j
      = fin (odeint (fun _ x => growthRateGamma p γ (Real.exp x)) (Real.log (logspace (-3) 0 128 0))
        (fun i => Real.log (logspace (-3) 0 128 i)) j) := by
    intro j hj
    rw [xm_log_logspace_fin _ (by norm_num)]
    refine Xm.odeint_fin fin (fun _ _ => rfl) (fun _ _ => rfl) (Set.Iic 0) ?_ ?_ _
      (N := 127) (t := fun i => Real.log (logspace (-3) 0 128 i)) ?_ ?_ hj
    · intro s hs t ht
      simp only [Set.mem_Iic] at hs ht ⊢
      linarith
    · intro _ t ht
      exact xm_growthRateGamma_fin p hm γ (Real.exp_pos t)
        (hE _ (Real.exp_pos t) (Real.exp_le_one_iff.mpr ht))
    · intro i hi
      exact Real.log_nonpos (logspace_pos _ _ _ _).le (logspace_le_one hlo (by norm_num) hi)
    · intro i _
      exact xm_log_logspace_fin _ (by norm_num) i
  have e127 : ix 128 (-1) = 127 := by decide
  unfold Xm.growthTableGamma growthTableGamma
  simp only [key _ (show i ≤ 127 by omega), e127, key 127 le_rfl, exp_fin,
    div_fin _ (Real.exp_pos _).ne']

theorem xm_growthOf_fin (p : Params) (h : Physical p) (a : ℝ) :
    Xm.growthOf p (fin a) = fin (growthOf p a) := by
  have hm := logspace_strictMono (lo := -3) (by norm_num) (n := 128) (by norm_num)
  unfold Xm.growthOf growthOf growthTable readGrowth
  cases hg : p.gamma with
  | none =>
    simp only
    rw [Xm.interp_fin (by norm_num) (fun i hi => (xm_growthTableODE_fin p h hi).1)
      (fun i hi => (xm_growthTableODE_fin p h hi).2.1) (fun i j _ _ h => hm.injective.ne h),
      lit_zero, lit_one, max_fin, min_fin]
    rfl
  | some γ =>
    simp only
    rw [Xm.interp_fin (by norm_num) (fun i hi => (xm_growthTableGamma_fin p h.m_pos h.esqrPos γ hi).1)
      (fun i hi => (xm_growthTableGamma_fin p h.m_pos h.esqrPos γ hi).2)
      (fun i j _ _ h => hm.injective.ne h), lit_zero, lit_one, max_fin, min_fin]
    rfl

/-- C111: growth factor and growth rate are finite at every positive scale factor. -/
theorem C111_growth (p : Params) (h : Physical p) {a : ℝ} (ha : 0 < a) :
    Xm.growthOf p (fin a) = fin (growthOf p a) ∧
      Xm.growthRateOf p (fin a) = fin (growthRateOf p a) := by
  refine ⟨xm_growthOf_fin p h a, ?_⟩
  have hm := logspace_strictMono (lo := -3) (by norm_num) (n := 128) (by norm_num)
  unfold Xm.growthRateOf growthRateOf
  cases hg : p.gamma with
  | some γ =>
    exact xm_growthRateGamma_fin p h.m_pos γ ha (C05_Esqr_pos p a ha h.m_pos h.k_nonneg h.de_nonneg)
  | none =>
    obtain ⟨f, hf, -⟩ := (xm_growthTableODE_fin p h (i := 0) (by norm_num)).2.2
    simp only [hf]
    refine Xm.interp_fin (by norm_num) (fun i hi => (xm_growthTableODE_fin p h hi).1)
      (fun i hi => ?_) (fun i j _ _ h => hm.injective.ne h) a
    obtain ⟨g, hg, e⟩ := (xm_growthTableODE_fin p h hi).2.2
    rw [hf] at hg
    rw [e, Option.some.inj hg]

example : Xm.chiOf Planck15 (fin (1 / 2)) = fin (chiOf Planck15 (1 / 2)) ∧
    Xm.growthOf Planck15 (fin (1 / 2)) = fin (growthOf Planck15 (1 / 2)) :=
  ⟨(C111_distance _ planck_EsqrPos _).1, (C111_growth _ planck_physical (by norm_num)).1⟩

/-! ## A single bad sample -/

/-- C111: if the squared expansion rate is negative at one of the 256 tabulated scale factors, the
distance is NaN at every scale factor, including those after the bad epoch. -/
theorem C111_poisoned (p : Params) {i : ℕ} (hi : i < 256)
    (hE : Esqr p (logspace (-3) 0 256 i) < 0) (a : Xr) :
    Xm.chiOf p a = nan ∧ Xm.transverse p a = nan := by
  set fn : Xr → Xr → Xr := fun _ x => Xm.dchioverda p x.exp * x.exp with hfn
  set t : ℕ → Xr := fun i => (Xm.logspace (-3) 256 i).log with ht
  have hbad : ∀ y, fn y (t i) = nan := by
    intro y
    have e : (t i).exp = fin (logspace (-3) 0 256 i) := by
      rw [ht]
      simp only
      rw [xm_log_logspace_fin _ (by norm_num), exp_fin, Real.exp_log (logspace_pos _ _ _ _)]
    rw [hfn]
    simp only [e, Xm.dchioverda, xm_Esqr_fin p (logspace_pos _ _ _ _), Xr.sqrt_neg hE, mul_nan, div_nan,
      nan_mul]
  have hcarry : ∀ j, i < j → (scanCarry (Xm.rk4 fn) (0, t 0) t j).1 = nan := by
    intro j hj
    induction j, hj using Nat.le_induction with
    | base =>
      rw [scanCarry]
      simp only [Xm.rk4, hbad, add_nan, smul_nan]
    | succ j _ ih =>
      rw [scanCarry]
      simp only [Xm.rk4, ih, nan_add]
  have hlast : Xm.odeint fn 0 t (ix 256 (-1)) = nan := by
    have e : ix 256 (-1) = 255 := by decide
    rw [e]
    unfold Xm.odeint scanOut
    rcases Nat.lt_or_ge i 255 with h | h
    · have := hcarry 255 h
      simp only [Xm.rk4, this, nan_add]
    · have e : i = 255 := by omega
      rw [e] at hbad
      simp only [Xm.rk4, hbad, add_nan, smul_nan]
  have hchi : ∀ j, (Xm.chiTable p (-3) 256).2 j = nan := by
    intro j
    have : (Xm.chiTable p (-3) 256).2 j
        = Xm.odeint fn 0 t (ix 256 (-1)) - Xm.odeint fn 0 t j := rfl
    rw [this, hlast, nan_sub]
  have h1 : Xm.chiOf p a = nan := by
    unfold Xm.chiOf Xm.interp
    simp only [hchi, nan_sub, nan_div, nan_mul, nan_add, nan_max]
  refine ⟨h1, ?_⟩
  unfold Xm.transverse
  simp only [h1]
  split
  · simp only [mul_nan, nan_div]
    exact mul_nan _
  · rfl
  · simp only [mul_nan, nan_div]
    exact mul_nan _

/-- A closed universe without a big bang: `Omega_m = 0.1`, `Omega_k = -2`, `Omega_de = 2.9`. -/
noncomputable def bounceParams : Params := { Planck15 with Omega_c := 0.05, Omega_b := 0.05, Omega_k := -2 }

/-- C111: the condition on the expansion rate is needed; not every cosmology the constructor accepts has finite distances; with positive
matter and dark energy and enough positive curvature even the distance to today is NaN. -/
theorem C111_bounce : ∃ p : Params, 0 < p.Omega_m ∧ 0 < p.Omega_de ∧ Esqr p 1 = 1 ∧
    ∀ a, Xm.chiOf p a = nan := by
  refine ⟨bounceParams, ?_, ?_, C02_Esqr_one _, fun a =>
    (C111_poisoned bounceParams (i := 170) (by norm_num) ?_ a).1⟩
  · norm_num [bounceParams, Params.Omega_m]
  · norm_num [bounceParams, Params.Omega_de, Params.Omega, Params.Omega_m]
  · have e : logspace (-3) 0 256 170 = 1 / 10 := by
      unfold logspace linspace
      rw [show (-3 : ℝ) + ((170 : ℕ) : ℝ) * ((0 - -3) / (((256 : ℕ) : ℝ) - 1)) = -1 by norm_num,
        Real.rpow_neg_one]
      norm_num
    rw [e]
    norm_num [Esqr, f_de, bounceParams, Planck15, Params.Omega_de, Params.Omega, Params.Omega_m]

/-- C111: at a negative scale factor (outside the domain) nothing is a number: the expansion rate, the density fractions
and the distance integrand are NaN, and never an infinity. -/
theorem C111_negative (p : Params) {a : ℝ} (ha : a < 0) :
    Xm.Esqr p (fin a) = nan ∧ Xm.H p (fin a) = nan ∧ Xm.Omega_m_a p (fin a) = nan ∧
      Xm.Omega_de_a p (fin a) = nan ∧ Xm.dchioverda p (fin a) = nan := by
  have hl : (fin a).log = nan := by
    change (if 0 < a then fin (Real.log a) else if a < 0 then nan else ninf) = nan
    rw [if_neg ha.not_gt, if_pos ha]
  have hf : Xm.f_de p (fin a) = nan := by rw [Xm.f_de, hl, mul_nan, nan_add]
  have hE : Xm.Esqr p (fin a) = nan := by rw [Xm.Esqr, hf, exp_nan, mul_nan, add_nan]
  refine ⟨hE, ?_, ?_, ?_, ?_⟩
  · rw [Xm.H, hE, sqrt_nan, mul_nan]
  · rw [Xm.Omega_m_a, hE, div_nan]
  · rw [Xm.Omega_de_a, hE, div_nan]
  · rw [Xm.dchioverda, hE, sqrt_nan, mul_nan, div_nan]

/-- C111: at the big bang, `a = 0`, a cosmological constant (`w0 = -1`, `wa = 0`, the default) gives NaN and not the
infinite expansion rate: the exponent of the dark energy is zero times the logarithm of zero. -/
theorem C111_bang (p : Params) (h0 : p.w0 = -1) (ha : p.wa = 0) :
    Xm.f_de p (fin 0) = nan ∧ Xm.Esqr p (fin 0) = nan ∧ Xm.H p (fin 0) = nan := by
  have hl : (fin 0).log = ninf := by
    change (if (0 : ℝ) < 0 then fin (Real.log 0) else if (0 : ℝ) < 0 then nan else ninf) = ninf
    rw [if_neg (lt_irrefl _), if_neg (lt_irrefl _)]
  have hc : (-3 * (1 + fin p.w0 + fin p.wa) : Xr) = fin 0 := by
    rw [h0, ha]
    change fin (-3 * (1 + -1 + 0)) = fin 0
    norm_num
  have hf : Xm.f_de p (fin 0) = nan := by
    rw [Xm.f_de, hl, hc]
    change infSign (-0) + _ = nan
    rw [infSign, if_neg (by norm_num), if_neg (by norm_num), nan_add]
  have hE : Xm.Esqr p (fin 0) = nan := by rw [Xm.Esqr, hf, exp_nan, mul_nan, add_nan]
  exact ⟨hf, hE, by rw [Xm.H, hE, sqrt_nan, mul_nan]⟩

/-- C111: the hypotheses of `C111_bang` and of `C111_expansion` hold for Planck15. -/
example : Planck15.w0 = -1 ∧ Planck15.wa = 0 ∧ (0 : ℝ) < 0.5 ∧ (-0.5 : ℝ) < 0 :=
  ⟨by norm_num [Planck15], by norm_num [Planck15], by norm_num, by norm_num⟩

end JaxCosmo
