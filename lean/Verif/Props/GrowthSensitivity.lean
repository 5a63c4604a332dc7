import Verif.Props.Sensitivity
import Verif.Props.GrowthBound
import Mathlib.Analysis.Calculus.FDeriv.Mul
import Mathlib.Analysis.SpecialFunctions.Pow.Deriv

/-! # C84: derivatives of the growth factor with respect to the parameters -/

namespace JaxCosmo
open Spec

section
variable {P : ℝ → Params} {v : Params} {θ : ℝ}

/-- Response of the matter fraction. -/
theorem Omega_m_a_deriv (h : Along P v θ) {a : ℝ} (hE : Esqr (P θ) a ≠ 0) :
    HasDerivAt (fun s => Omega_m_a (P s) a)
      (((v.Omega_b + v.Omega_c) / a ^ 3 - Omega_m_a (P θ) a * dE2 (P θ) v a) / Esqr (P θ) a) θ := by
  refine (((along_Omega_m h).mul_const (a ^ (-3 : ℤ))).div (C83_Esqr h a) hE).congr_deriv ?_
  unfold Omega_m_a
  rw [zpow_neg, show a ^ (3 : ℤ) = a ^ 3 by norm_cast]
  field_simp

/-- First-order change of the dark-energy density `(1 - Ω_k - Ω_m) X(a)`. -/
noncomputable def dDE (p v : Params) (a : ℝ) : ℝ :=
  dE2 p v a - (v.Omega_b + v.Omega_c) / a ^ 3 - v.Omega_k / a ^ 2

theorem Omega_de_a_deriv (h : Along P v θ) {a : ℝ} (hE : Esqr (P θ) a ≠ 0) :
    HasDerivAt (fun s => Omega_de_a (P s) a)
      ((dDE (P θ) v a - Omega_de_a (P θ) a * dE2 (P θ) v a) / Esqr (P θ) a) θ := by
  refine (((along_Omega_de h).mul (along_f_de h a).exp).div (C83_Esqr h a) hE).congr_deriv ?_
  have : (-(v.Omega_k + (v.Omega_b + v.Omega_c))) * Real.exp (f_de (P θ) a)
      + (P θ).Omega_de * (Real.exp (f_de (P θ) a)
        * (-3 * (v.w0 + v.wa) * Real.log a + 3 * v.wa * (a - 1))) = dDE (P θ) v a := by
    unfold dDE dE2 f_de Params.Omega_de Params.Omega Params.Omega_m
    ring
  rw [this]
  unfold Omega_de_a
  simp only [Pi.mul_apply]
  field_simp

/-- Response of the friction coefficient of the growth equation. -/
noncomputable def dQ (p v : Params) (x : ℝ) : ℝ :=
  -(1 / 2 * (((v.Omega_b + v.Omega_c) / x ^ 3 - Omega_m_a p x * dE2 p v x) / Esqr p x
    + (3 * (v.w0 + (1 - x) * v.wa) * Omega_de_a p x
      + (1 + 3 * w p x) * ((dDE p v x - Omega_de_a p x * dE2 p v x) / Esqr p x)))) / x

/-- Response of the source coefficient of the growth equation. -/
noncomputable def dR (p v : Params) (x : ℝ) : ℝ :=
  3 / 2 * (((v.Omega_b + v.Omega_c) / x ^ 3 - Omega_m_a p x * dE2 p v x) / Esqr p x) / x / x

theorem Q_deriv (h : Along P v θ) {x : ℝ} (hE : Esqr (P θ) x ≠ 0) :
    HasDerivAt (fun s => growthQ (P s) x / x) (dQ (P θ) v x) θ := by
  have hw : HasDerivAt (fun s => w (P s) x) (v.w0 + (1 - x) * v.wa) θ := h.w0.add (h.wa.const_mul _)
  have := ((((Omega_m_a_deriv h hE).add (((hw.const_mul 3).const_add 1).mul
    (Omega_de_a_deriv h hE))).const_mul (1 / 2)).const_sub 2).div_const x
  exact this

theorem R_deriv (h : Along P v θ) {x : ℝ} (hE : Esqr (P θ) x ≠ 0) :
    HasDerivAt (fun s => 3 / 2 * Omega_m_a (P s) x / x / x) (dR (P θ) v x) θ :=
  (((Omega_m_a_deriv h hE).const_mul (3 / 2)).div_const x).div_const x

/-- The growth equation together with its variational equation, for `((D, D'), (δD, δD'))`. -/
noncomputable def growthVariation (p v : Params) (s : (ℝ × ℝ) × (ℝ × ℝ)) (x : ℝ) :
    (ℝ × ℝ) × (ℝ × ℝ) :=
  (growthDerivs p s.1 x,
    (s.2.2, -(growthQ p x / x) * s.2.2 + 3 / 2 * Omega_m_a p x / x / x * s.2.1
      - dQ p v x * s.1.2 + dR p v x * s.1.1))

theorem growthDerivs_fderiv (h : Along P v θ) {x : ℝ} (hE : Esqr (P θ) x ≠ 0) (y : ℝ × ℝ) :
    ∃ L : ℝ × (ℝ × ℝ) →L[ℝ] ℝ × ℝ,
      HasFDerivAt (fun q : ℝ × (ℝ × ℝ) => growthDerivs (P q.1) q.2 x) L (θ, y) ∧
      ∀ z : ℝ × ℝ, L (1, z) = (growthVariation (P θ) v (y, z) x).2 := by
  have f1 : HasFDerivAt (fun q : ℝ × (ℝ × ℝ) => q.1) (ContinuousLinearMap.fst ℝ ℝ (ℝ × ℝ)) (θ, y) :=
    hasFDerivAt_fst
  have f2 : HasFDerivAt (fun q : ℝ × (ℝ × ℝ) => q.2) (ContinuousLinearMap.snd ℝ ℝ (ℝ × ℝ)) (θ, y) :=
    hasFDerivAt_snd
  have hq := (Q_deriv h hE).hasFDerivAt.comp (θ, y) f1
  have hr := (R_deriv h hE).hasFDerivAt.comp (θ, y) f1
  have hD := f2.fst
  have hu := f2.snd
  refine ⟨_, hu.prodMk ((hq.neg.mul hu).add (hr.mul hD)), fun z => ?_⟩
  ext
  · simp [growthVariation]
  · simp [growthVariation]
    ring

theorem logspace_mem {i : ℕ} (hi : i ≤ 127) : logspace (-3) 0 128 i ∈ Set.Ioc (0 : ℝ) 1 := by
  refine ⟨logspace_pos _ _ _ _, ?_⟩
  rw [← logspace_end (-3) (n := 128) (by norm_num)]
  exact (logspace_strictMono (by norm_num) (by norm_num)).monotone hi

theorem _root_.HasDerivAt.fst' {f : ℝ → ℝ × ℝ} {f' : ℝ × ℝ} (hf : HasDerivAt f f' θ) :
    HasDerivAt (fun s => (f s).1) f'.1 θ :=
  HasFDerivAt.comp_hasDerivAt θ (ContinuousLinearMap.fst ℝ ℝ ℝ).hasFDerivAt hf

theorem _root_.HasDerivAt.snd' {f : ℝ → ℝ × ℝ} {f' : ℝ × ℝ} (hf : HasDerivAt f f' θ) :
    HasDerivAt (fun s => (f s).2) f'.2 θ :=
  HasFDerivAt.comp_hasDerivAt θ (ContinuousLinearMap.snd ℝ ℝ ℝ).hasFDerivAt hf

/-- C84: differentiating the tabulated solution of the growth equation gives the solution the library
would compute for the variational equation. -/
theorem C84_table (h : Along P v θ) (hE : EsqrPos (P θ)) {i : ℕ} (hi : i ≤ 127) :
    (odeint (growthVariation (P θ) v) ((logspace (-3) 0 128 0, 1), (0, 0)) (logspace (-3) 0 128) i).1
      = odeint (growthDerivs (P θ)) (logspace (-3) 0 128 0, 1) (logspace (-3) 0 128) i ∧
    HasDerivAt
      (fun s => odeint (growthDerivs (P s)) (logspace (-3) 0 128 0, 1) (logspace (-3) 0 128) i)
      (odeint (growthVariation (P θ) v) ((logspace (-3) 0 128 0, 1), (0, 0))
        (logspace (-3) 0 128) i).2 θ := by
  choose! L hL hLv using fun (x : ℝ) (hx : x ∈ Set.Ioc (0 : ℝ) 1) (y : ℝ × ℝ) =>
    growthDerivs_fderiv h (hE x hx.1 hx.2).ne' y
  have hconst : HasDerivAt (fun _ : ℝ => ((logspace (-3) 0 128 0, 1) : ℝ × ℝ)) ((0, 0) : ℝ × ℝ) θ :=
    hasDerivAt_const _ _
  have key := C82_variational (fn := fun s => growthDerivs (P s)) (convex_Ioc (0 : ℝ) 1) hL hconst
    (t := logspace (-3) 0 128) (n := 127) (fun i hi => logspace_mem hi)
  have hsame : ∀ i ≤ 127, odeint (variational (growthDerivs (P θ)) L)
      ((logspace (-3) 0 128 0, 1), (0, 0)) (logspace (-3) 0 128) i
      = odeint (growthVariation (P θ) v) ((logspace (-3) 0 128 0, 1), (0, 0))
        (logspace (-3) 0 128) i := by
    intro i hi
    induction i with
    | zero => rw [C26_first, C26_first]
    | succ i ih =>
      rw [C26_step, C26_step, ih (by omega)]
      have ha := logspace_mem (i := i) (by omega)
      have hb := logspace_mem hi
      have heq : ∀ (s : (ℝ × ℝ) × (ℝ × ℝ)) (x : ℝ), x ∈ Set.Ioc (0 : ℝ) 1 →
          variational (growthDerivs (P θ)) L s x = growthVariation (P θ) v s x := fun s x hx => by
        rw [variational, hLv x hx]
        rfl
      have hm : logspace (-3) 0 128 i + 1 / 2 * (logspace (-3) 0 128 (i + 1) - logspace (-3) 0 128 i)
          ∈ Set.Ioc (0 : ℝ) 1 := by
        obtain ⟨a1, a2⟩ := ha
        obtain ⟨b1, b2⟩ := hb
        constructor <;> linarith
      simp only [rk4Step, add_sub_cancel]
      rw [heq _ _ ha, heq _ _ hm, heq _ _ hm, heq _ _ hb]
  obtain ⟨e, hd⟩ := key i hi
  rw [hsame i hi] at e hd
  exact ⟨e, hd⟩

theorem clip_deriv {u : ℝ → ℝ} {u' : ℝ} (hu : HasDerivAt u u' θ) (h0 : 0 < clip (u θ) 0 1)
    (h1 : clip (u θ) 0 1 < 1) : HasDerivAt (fun s => clip (u s) 0 1) u' θ := by
  have e0 : 0 < u θ := by
    by_contra hc
    rw [clip, max_eq_right (not_lt.1 hc), min_eq_left zero_le_one] at h0
    exact lt_irrefl _ h0
  have e1 : u θ < 1 := by
    by_contra hc
    rw [clip, max_eq_left e0.le, min_eq_right (not_lt.1 hc)] at h1
    exact lt_irrefl _ h1
  refine hu.congr_of_eventuallyEq ?_
  filter_upwards [hu.continuousAt.eventually (lt_mem_nhds e0),
    hu.continuousAt.eventually (gt_mem_nhds e1)] with s hs0 hs1
  rw [clip, max_eq_left hs0.le, min_eq_left hs1.le]

/-- C84: where the growth factor is within its range, its derivative with respect to the parameters is
`(δD - g δD(1))/D(1)`, interpolated like the growth factor, with `D` and `δD` the library's
solutions of the growth equation and of its variation. -/
theorem C84_growth (h : Along P v θ) (hg : v.gamma = none) (hE : EsqrPos (P θ))
    (hN : (odeint (growthDerivs (P θ)) (logspace (-3) 0 128 0, 1) (logspace (-3) 0 128) 127).1 ≠ 0)
    {a : ℝ} (h0 : 0 < growthOf (P θ) a) (h1 : growthOf (P θ) a < 1) :
    HasDerivAt (fun s => growthOf (P s) a)
      (let Y := odeint (growthVariation (P θ) v) ((logspace (-3) 0 128 0, 1), (0, 0))
        (logspace (-3) 0 128)
      interp 128 (logspace (-3) 0 128)
        (fun i => ((Y i).2.1 - (Y i).1.1 / (Y 127).1.1 * (Y 127).2.1) / (Y 127).1.1) a) θ := by
  have hnone : ∀ s, (P s).gamma = none := by have := h.gamma; rw [hg] at this; exact this
  have hof : ∀ s, growthOf (P s) a = clip (interp 128 (logspace (-3) 0 128)
      (growthTableODE (P s) (-3) 128).g a) 0 1 := fun s => by
    simp only [growthOf, growthTable, hnone s]; rfl
  rw [hof] at h0 h1
  simp only [hof]
  refine clip_deriv (interp_deriv (n := 128) _ (by norm_num) (fun i hi => ?_) a) h0 h1
  obtain ⟨e1, d1⟩ := C84_table h hE (i := i) (by omega)
  obtain ⟨e2, d2⟩ := C84_table h hE (i := 127) (by omega)
  have := (d1.fst').div d2.fst' hN
  refine HasDerivAt.congr_deriv this ?_
  simp only [← e1, ← e2] at hN ⊢
  field_simp

/-- C84: the growth factor today stays one. -/
theorem C84_today (h : Along P v θ) (hE : EsqrPos (P θ))
    (hN : v.gamma = none →
      (odeint (growthDerivs (P θ)) (logspace (-3) 0 128 0, 1) (logspace (-3) 0 128) 127).1 ≠ 0) :
    HasDerivAt (fun s => growthOf (P s) 1) 0 θ := by
  refine (hasDerivAt_const θ (1 : ℝ)).congr_of_eventuallyEq ?_
  have hgam := h.gamma
  cases hg : v.gamma with
  | none =>
    rw [hg] at hgam
    have hd := (C84_table h hE (i := 127) (by omega)).2.fst'
    filter_upwards [hd.continuousAt.eventually_ne (hN hg)] with s hs
    exact C10_one_ode_guard (P s) (hgam s) hs
  | some γ' =>
    rw [hg] at hgam
    obtain ⟨γ, -, hγ⟩ := hgam
    exact Filter.Eventually.of_forall fun s => C10_one_gamma (P s) (γ s) (hγ s)

/-! ### The `gamma` parametrisation -/

/-- Response of the growth rate `Ω_m(a)^γ`. -/
theorem C84_rate_gamma (h : Along P v θ) {γ : ℝ → ℝ} {γ' : ℝ} (hγ : HasDerivAt γ γ' θ) {a : ℝ}
    (hE : Esqr (P θ) a ≠ 0) (hm : 0 < Omega_m_a (P θ) a) :
    HasDerivAt (fun s => growthRateGamma (P s) (γ s) a)
      (Omega_m_a (P θ) a ^ γ θ * (γ' * Real.log (Omega_m_a (P θ) a) + γ θ *
        (((v.Omega_b + v.Omega_c) / a ^ 3 / Omega_m_a (P θ) a - dE2 (P θ) v a) / Esqr (P θ) a))) θ := by
  refine ((Omega_m_a_deriv h hE).rpow hγ hm).congr_deriv ?_
  rw [Real.rpow_sub_one hm.ne']
  field_simp
  ring

theorem growthTableGamma_g (p : Params) (γ lo : ℝ) {n i : ℕ} (hi : i ≤ n - 1) :
    (growthTableGamma p γ lo n).g i = Real.exp (-∑ j ∈ Finset.Ico i (n - 1),
      panel (fun x => growthRateGamma p γ (Real.exp x)) (Real.log (logspace lo 0 n j))
        (Real.log (logspace lo 0 n (j + 1)))) := by
  have e : (growthTableGamma p γ lo n).g i
      = Real.exp (odeint (fun _ => fun x => growthRateGamma p γ (Real.exp x))
        (Real.log (logspace lo 0 n 0)) (fun i => Real.log (logspace lo 0 n i)) i)
      / Real.exp (odeint (fun _ => fun x => growthRateGamma p γ (Real.exp x))
        (Real.log (logspace lo 0 n 0)) (fun i => Real.log (logspace lo 0 n i)) (ix n (-1))) := rfl
  rw [e, odeint_panel, odeint_panel, ix_last, ← Real.exp_sub, Finset.sum_Ico_eq_sub _ hi]
  congr 1
  ring

/-- C84 with `gamma`: the derivative of the growth factor is `-g ∫ d(Ω_m^γ) dln a`, with the
library's quadrature, interpolated. -/
theorem C84_growth_gamma (h : Along P v θ) {γ' : ℝ} (hg : v.gamma = some γ') (hE : EsqrPos (P θ))
    (hm : 0 < (P θ).Omega_m) {a : ℝ} (h0 : 0 < growthOf (P θ) a) (h1 : growthOf (P θ) a < 1) :
    ∃ γ, (P θ).gamma = some γ ∧ HasDerivAt (fun s => growthOf (P s) a)
      (interp 128 (logspace (-3) 0 128)
        (fun i => (growthTableGamma (P θ) γ (-3) 128).g i * -∑ j ∈ Finset.Ico i 127,
          panel (fun x => Omega_m_a (P θ) (Real.exp x) ^ γ
            * (γ' * Real.log (Omega_m_a (P θ) (Real.exp x)) + γ *
              (((v.Omega_b + v.Omega_c) / Real.exp x ^ 3 / Omega_m_a (P θ) (Real.exp x)
                - dE2 (P θ) v (Real.exp x)) / Esqr (P θ) (Real.exp x))))
            (Real.log (logspace (-3) 0 128 j)) (Real.log (logspace (-3) 0 128 (j + 1)))) a) θ := by
  have hgam := h.gamma
  rw [hg] at hgam
  obtain ⟨γ, hγ, hs⟩ := hgam
  refine ⟨γ θ, hs θ, ?_⟩
  have hof : ∀ s, growthOf (P s) a = clip (interp 128 (logspace (-3) 0 128)
      (growthTableGamma (P s) (γ s) (-3) 128).g a) 0 1 := fun s => by
    simp only [growthOf, growthTable, hs s]; rfl
  rw [hof] at h0 h1
  simp only [hof]
  refine clip_deriv (interp_deriv (n := 128) _ (by norm_num) (fun i hi => ?_) a) h0 h1
  simp only [growthTableGamma_g _ _ (-3) (by omega : i ≤ 128 - 1)]
  refine HasDerivAt.exp (HasDerivAt.fun_neg (HasDerivAt.fun_sum fun j hj => ?_))
  have hj' := (Finset.mem_Ico.1 hj).2
  have hmono := (log_logspace_strictMono (lo := -3) (n := 128) (by norm_num) (by norm_num)).monotone
  refine panel_deriv (hmono (by omega : j ≤ j + 1)) fun x _ hx => ?_
  have hx1 : Real.exp x ≤ 1 := by
    rw [Real.exp_le_one_iff]
    refine hx.trans ((hmono (by omega : j + 1 ≤ 127)).trans ?_)
    simp only [show (127 : ℕ) = 128 - 1 from rfl, logspace_end (-3) (n := 128) (by norm_num),
      Real.log_one, le_refl]
  have hEx := hE _ (Real.exp_pos x) hx1
  exact C84_rate_gamma h hγ hEx.ne' (by unfold Omega_m_a; positivity)

/-- With `gamma` the growth factor is strictly within its range between `z = 899` and today. -/
theorem growth_gamma_interior {p : Params} {γ : ℝ} (hg : p.gamma = some γ) (hE : EsqrPos p)
    (hm : 0 < p.Omega_m) {a : ℝ} (h0 : 1 / 900 ≤ a) (h1 : a < 1) :
    0 < growthOf p a ∧ growthOf p a < 1 := by
  have ht : growthTable p = growthTableGamma p γ (-3) 128 := by simp [growthTable, hg]
  have hstep : ∀ i, i + 1 < 128 →
      (growthTableGamma p γ (-3) 128).g i < (growthTableGamma p γ (-3) 128).g (i + 1) := by
    intro i hi
    rw [growthTableGamma_g _ _ _ (by omega), growthTableGamma_g _ _ _ (by omega),
      Real.exp_lt_exp, neg_lt_neg_iff, Finset.sum_eq_sum_Ico_succ_bot (by omega : i < 128 - 1)]
    have hmono := log_logspace_strictMono (lo := -3) (n := 128) (by norm_num) (by norm_num)
    have := panel_pos (fun x => growthRateGamma p γ (Real.exp x)) _ _ (hmono (Nat.lt_succ_self i))
      fun x _ hx => by
        have hx1 : Real.exp x ≤ 1 := by
          rw [Real.exp_le_one_iff]
          refine hx.trans ((hmono.monotone (by omega : i.succ ≤ 127)).trans ?_)
          simp only [show (127 : ℕ) = 128 - 1 from rfl, logspace_end (-3) (n := 128) (by norm_num),
            Real.log_one, le_refl]
        have hEx := hE _ (Real.exp_pos x) hx1
        have := Real.exp_pos x
        exact Real.rpow_pos_of_pos (by unfold Omega_m_a; positivity) _
    simp only [Nat.succ_eq_add_one] at this
    linarith
  constructor
  · rw [growthOf, ht]
    exact readGrowth_pos rfl rfl (fun i hi => (hstep i hi).le) (by
      rw [growthTableGamma_g _ _ _ (by norm_num)]; exact Real.exp_pos _) h0
  · have hs := C21_strictMono (by norm_num) (logspace_increasing (lo := -3) (n := 128) (by norm_num)
      (by norm_num)) hstep
    have hl := C19_nodes_partial (logspace_increasing (lo := -3) (by norm_num)
      (by norm_num : 2 ≤ 128)) (growthTableGamma p γ (-3) 128).g (i := 127)
      (Or.inl (by norm_num)) (by norm_num)
    have hone : logspace (-3) 0 128 127 = 1 := logspace_end (-3) (by norm_num : 2 ≤ 128)
    have hlast : (growthTableGamma p γ (-3) 128).g 127 = 1 := growthTableGamma_last p γ (-3) 128
    rw [hone, hlast] at hl
    have := hs h1
    rw [hl] at this
    rw [growthOf, ht]
    exact min_lt_of_left_lt (max_lt this one_pos)

theorem growth_ode_interior {p : Params} (h : Physical p) (hg : p.gamma = none) {a : ℝ} (h0 : 0 < a)
    (h1 : a < 1) : 0 < growthOf p a ∧ growthOf p a < 1 := by
  refine ⟨h0.trans_le (C74_growth p h hg h0.le h1.le), ?_⟩
  have hs := C10_strict_ode p h hg
  rcases le_or_gt (1 / 900) a with h9 | h9
  · have := hs ⟨h9, h1.le⟩ ⟨by norm_num, le_rfl⟩ h1
    rwa [C10_one p h] at this
  · have e := hs (a := 1 / 2) ⟨by norm_num, by norm_num⟩ ⟨by norm_num, le_rfl⟩ (by norm_num)
    rw [C10_one p h] at e
    exact (C10_mono_ode p h hg (by linarith : a ≤ 1 / 2)).trans_lt e

/-- C84: in every physical cosmology, from `z = 899` to today, the growth factor is differentiable
with respect to all parameters, in both growth modes. -/
theorem C84_differentiable (h : Along P v θ) (hp : Physical (P θ)) {a : ℝ} (h0 : 1 / 900 ≤ a)
    (h1 : a ≤ 1) : DifferentiableAt ℝ (fun s => growthOf (P s) a) θ := by
  have hpos := fun hi => (growth_table_pos hp (lo := -3) (n := 128) (by norm_num) (by norm_num)
    default_ratio 127 hi).1
  rcases h1.eq_or_lt with rfl | h1
  · exact (C84_today h hp.esqrPos fun _ => (hpos (by norm_num)).ne').differentiableAt
  cases hg : v.gamma with
  | none =>
    have hn : (P θ).gamma = none := by have := h.gamma; rw [hg] at this; exact this θ
    obtain ⟨i0, i1⟩ := growth_ode_interior hp hn (by linarith : 0 < a) h1
    exact (C84_growth h hg hp.esqrPos (hpos (by norm_num)).ne' i0 i1).differentiableAt
  | some γ' =>
    have hgam := h.gamma
    rw [hg] at hgam
    obtain ⟨γ, -, hs⟩ := hgam
    obtain ⟨i0, i1⟩ := growth_gamma_interior (hs θ) hp.esqrPos hp.m_pos h0 h1
    obtain ⟨_, _, hd⟩ := C84_growth_gamma h hg hp.esqrPos hp.m_pos i0 i1
    exact hd.differentiableAt

/-- C84: the growth rate solved from the growth equation responds as `d ln D'/D`. -/
theorem C84_rate (h : Along P v θ) (hg : v.gamma = none) (hp : Physical (P θ)) (a : ℝ) :
    HasDerivAt (fun s => growthRateOf (P s) a)
      (let Y := odeint (growthVariation (P θ) v) ((logspace (-3) 0 128 0, 1), (0, 0))
        (logspace (-3) 0 128)
      interp 128 (logspace (-3) 0 128) (fun i => logspace (-3) 0 128 i *
        ((Y i).2.2 * (Y i).1.1 - (Y i).1.2 * (Y i).2.1) / (Y i).1.1 ^ 2) a) θ := by
  have hnone : ∀ s, (P s).gamma = none := by have := h.gamma; rw [hg] at this; exact this
  have hof : ∀ s, growthRateOf (P s) a = interp 128 (logspace (-3) 0 128)
      (fun i => (odeint (growthDerivs (P s)) (logspace (-3) 0 128 0, 1) (logspace (-3) 0 128) i).2 /
        (odeint (growthDerivs (P s)) (logspace (-3) 0 128 0, 1) (logspace (-3) 0 128) 127).1
        * logspace (-3) 0 128 i /
        ((odeint (growthDerivs (P s)) (logspace (-3) 0 128 0, 1) (logspace (-3) 0 128) i).1 /
        (odeint (growthDerivs (P s)) (logspace (-3) 0 128 0, 1) (logspace (-3) 0 128) 127).1)) a :=
    fun s => by
      simp only [growthRateOf, hnone s]
      rfl
  simp only [hof]
  refine interp_deriv (n := 128) _ (by norm_num) (fun i hi => ?_) a
  have hpos := growth_table_pos hp (lo := -3) (n := 128) (by norm_num) (by norm_num) default_ratio
  obtain ⟨e1, d1⟩ := C84_table h hp.esqrPos (i := i) (by omega)
  obtain ⟨-, d2⟩ := C84_table h hp.esqrPos (i := 127) (by omega)
  have p1 := (hpos i hi).1
  have p2 := (hpos 127 (by norm_num)).1
  have hd := (d1.snd'.mul_const (logspace (-3) 0 128 i)).div d1.fst' p1.ne'
  refine (hd.congr_of_eventuallyEq ?_).congr_deriv ?_
  · filter_upwards [d2.fst'.continuousAt.eventually_ne p2.ne'] with s hs
    rw [div_mul_eq_mul_div, div_div_div_cancel_right₀ hs]
    rfl
  · simp only [e1]
    ring

end

/-- Matter and dark energy vary: a curve through Planck15. -/
noncomputable def planckCurve (s : ℝ) : Params :=
  { Planck15 with Omega_c := 0.2589 + s, w0 := -1 + 2 * s, n_s := 0.9667 - s }

theorem planckCurve_along : Along planckCurve
    { Omega_c := 1, Omega_b := 0, h := 0, n_s := -1, sigma8 := 0, Omega_k := 0, w0 := 2, wa := 0,
      gamma := none } 0 where
  Omega_c := (hasDerivAt_id 0).const_add _
  Omega_b := hasDerivAt_const _ _
  h := hasDerivAt_const _ _
  n_s := (hasDerivAt_id 0).const_sub _
  sigma8 := hasDerivAt_const _ _
  Omega_k := hasDerivAt_const _ _
  w0 := (((hasDerivAt_id (0 : ℝ)).const_mul 2).const_add _).congr_deriv (by norm_num)
  wa := hasDerivAt_const _ _
  gamma := fun _ => rfl

theorem planckCurve_zero : planckCurve 0 = Planck15 := by
  simp [planckCurve, Planck15]

example : DifferentiableAt ℝ (fun s => growthOf (planckCurve s) (1 / 2)) 0 :=
  C84_differentiable planckCurve_along (by rw [planckCurve_zero]; exact planck_physical)
    (by norm_num) (by norm_num)

example : DifferentiableAt ℝ (fun s => chiOf (planckCurve s) (1 / 2)) 0 :=
  (C83_distance planckCurve_along (by rw [planckCurve_zero]; exact planck_EsqrPos)
    (by norm_num)).differentiableAt

/-- Witness for `C82_variational`: `y' = θ y` with `y(0) = 1` at `θ = 0`; after one step of length one
the derivative with respect to `θ` is one. -/
example : HasDerivAt (fun θ : ℝ => odeint (fun (y : ℝ) (_ : ℝ) => θ * y) 1 (fun i => (i : ℝ)) 1) 1 0 := by
  have hL : ∀ x ∈ (Set.univ : Set ℝ), ∀ y : ℝ, HasFDerivAt (fun q : ℝ × ℝ => q.1 * q.2)
      (((0 : ℝ), y).1 • ContinuousLinearMap.snd ℝ ℝ ℝ + ((0 : ℝ), y).2 • ContinuousLinearMap.fst ℝ ℝ ℝ)
      ((0 : ℝ), y) := fun x _ y => hasFDerivAt_fst.mul hasFDerivAt_snd
  have := (C82_variational (fn := fun θ y _ => θ * y) convex_univ hL (hasDerivAt_const (0 : ℝ) (1 : ℝ))
    (t := fun i => (i : ℝ)) (n := 1) (fun i _ => trivial) 1 le_rfl).2
  refine this.congr_deriv ?_
  rw [C26_step, C26_first]
  simp [rk4Step, variational]
  norm_num

end JaxCosmo
