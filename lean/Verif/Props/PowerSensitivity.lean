import Verif.Props.GrowthSensitivity
import Verif.Props.Transfer
import Verif.Props.Power
import Mathlib.Analysis.SpecialFunctions.Pow.Deriv
import Mathlib.Analysis.SpecialFunctions.Trigonometric.Deriv

/-! # C85: derivatives of the transfer function and the linear power spectrum -/

namespace JaxCosmo
open Spec EH

section
variable {P : ℝ → Params} {v : Params} {θ : ℝ} {K : ℝ → ℝ}

local notation "D[" f "]" => DifferentiableAt ℝ f θ

theorem diff_rpow {f : ℝ → ℝ} (hf : D[f]) (h0 : 0 < f θ) (e : ℝ) : D[fun s => f s ^ e] :=
  hf.rpow (differentiableAt_const e) h0.ne'

theorem diff_om (h : Along P v θ) : D[fun s => (P s).Omega_m] := (along_Omega_m h).differentiableAt

theorem diff_wm (h : Along P v θ) : D[fun s => w_m (P s)] :=
  (diff_om h).mul (h.h.differentiableAt.fun_pow 2)

theorem diff_wb (h : Along P v θ) : D[fun s => w_b (P s)] :=
  h.Omega_b.differentiableAt.mul (h.h.differentiableAt.fun_pow 2)

variable (h : Along P v θ) (hb : (P θ).Baryonic)
include h hb

theorem diff_fb : D[fun s => fb (P s)] := h.Omega_b.differentiableAt.fun_div (diff_om h) (om_pos hb).ne'

theorem diff_fc : D[fun s => fc (P s)] :=
  ((diff_om h).sub h.Omega_b.differentiableAt).fun_div (diff_om h) (om_pos hb).ne'

theorem diff_keq : D[fun s => k_eq (P s)] :=
  (((diff_wm h).const_mul _).div_const _).div h.h.differentiableAt hb.h_pos.ne'

omit hb in
theorem diff_zeq : D[fun s => z_eq (P s)] := ((diff_wm h).const_mul _).div_const _

theorem diff_zd : D[fun s => z_d (P s)] := by
  have hm := wm_pos hb
  have r := fun e => diff_rpow (diff_wm h) hm e
  have p1 : 0 < 1 + 0.659 * w_m (P θ) ^ (0.828 : ℝ) := by
    have := Real.rpow_pos_of_pos hm (0.828 : ℝ); positivity
  have b1 : D[fun s => zd_b1 (P s)] := ((r _).const_mul _).mul (((r _).const_mul _).const_add 1)
  have b2 : D[fun s => zd_b2 (P s)] := (r _).const_mul _
  exact (((r _).const_mul _).fun_div (((r _).const_mul _).const_add 1) p1.ne').mul
    ((b1.mul ((diff_wb h).rpow b2 (wb_pos hb).ne')).const_add 1)

theorem diff_Rd : D[fun s => R_d (P s)] :=
  (((diff_wb h).const_mul _).div_const _).mul
    ((differentiableAt_const _).fun_div (diff_zd h hb) (zd_pos hb).ne')

theorem diff_Req : D[fun s => R_eq (P s)] :=
  (((diff_wb h).const_mul _).div_const _).mul
    ((differentiableAt_const _).fun_div (diff_zeq h) (zeq_pos hb).ne')

theorem diff_shd : D[fun s => sh_d (P s)] := by
  have h1 := keq_pos hb
  have h2 := Req_pos hb
  have h3 := Rd_pos hb
  have d1 := diff_keq h hb
  have d2 := diff_Req h hb
  have d3 := diff_Rd h hb
  have s1 : D[fun s => √(6 / R_eq (P s))] :=
    ((differentiableAt_const _).fun_div d2 h2.ne').sqrt (by positivity)
  have s2 : D[fun s => √(1 + R_d (P s))] := (d3.const_add 1).sqrt (by positivity)
  have s3 : D[fun s => √(R_eq (P s) + R_d (P s))] := (d2.fun_add d3).sqrt (by positivity)
  have s4 : D[fun s => √(R_eq (P s))] := d2.sqrt h2.ne'
  have q0 : 0 < 1 + √(R_eq (P θ)) := by positivity
  have q1 : (√(1 + R_d (P θ)) + √(R_eq (P θ) + R_d (P θ))) / (1 + √(R_eq (P θ))) ≠ 0 := by
    have : 0 < √(1 + R_d (P θ)) := Real.sqrt_pos.2 (by positivity)
    positivity
  exact (((differentiableAt_const _).fun_div (d1.const_mul 3) (by positivity)).mul s1).mul
    (((s2.add s3).fun_div (s4.const_add 1) q0.ne').log q1)

theorem diff_ksilk : D[fun s => k_silk (P s)] := by
  have hm := wm_pos hb
  have r := fun e => diff_rpow (diff_wm h) hm e
  exact (((((diff_rpow (diff_wb h) (wb_pos hb) _).const_mul _).mul (r _)).mul
    ((diff_rpow ((diff_wm h).const_mul _) (by positivity) _).const_add 1))).div h.h.differentiableAt
    hb.h_pos.ne'

theorem diff_alpha_gamma : D[fun s => alpha_gamma (P s)] := by
  have hm := wm_pos hb
  have hq := diff_fb h hb
  exact ((((((((diff_wm h).const_mul _).log (by positivity)).const_mul _).mul (diff_wb h)).div
    (diff_wm h) hm.ne').const_sub 1).add
    (((((diff_wm h).const_mul _).log (by positivity)).const_mul _).mul (hq.fun_pow 2)))

theorem diff_gamma_eff (hK : D[K]) : D[fun s => gamma_eff (P s) (K s)] := by
  have a := diff_alpha_gamma h hb
  have d : D[fun s => 1 + (0.43 * K s * sh_d (P s)) ^ 4] :=
    ((((hK.const_mul _).mul (diff_shd h hb)).fun_pow 4).const_add 1)
  have : 0 ≤ (0.43 * K θ * sh_d (P θ)) ^ 4 := by positivity
  exact ((diff_om h).mul h.h.differentiableAt).mul (a.add ((a.const_sub 1).div d (by linarith)))

/-- C85: the smooth transfer function is differentiable in all parameters and in the wavenumber. -/
theorem C85_smooth (hK : D[K]) (hk : 0 ≤ K θ) (hΓ : 0 < gamma_eff (P θ) (K θ)) :
    D[fun s => nowiggle (P s) (K s)] := by
  have g := diff_gamma_eff h hb hK
  have hq : D[fun s => K s * (const_tcmb / 2.7) ^ 2 / gamma_eff (P s) (K s)] :=
    (hK.mul_const _).div g hΓ.ne'
  have q0 : 0 ≤ K θ * (const_tcmb / 2.7) ^ 2 / gamma_eff (P θ) (K θ) := by positivity
  have hL0 := log_two_e q0
  have he := Real.exp_pos 1
  have hL : D[fun s => Real.log (2 * Real.exp 1 + 1.8 * (K s * (const_tcmb / 2.7) ^ 2
      / gamma_eff (P s) (K s)))] := ((hq.const_mul _).const_add _).log (by positivity)
  have hC : D[fun s => 14.2 + 731 / (1 + 62.5 * (K s * (const_tcmb / 2.7) ^ 2
      / gamma_eff (P s) (K s)))] :=
    (((differentiableAt_const _).fun_div ((hq.const_mul _).const_add 1) (by positivity)).const_add _)
  exact hL.fun_div (hL.add ((hC.mul hq).mul hq)) (by positivity)

theorem diff_alpha_c : D[fun s => alpha_c (P s)] := by
  have hm := wm_pos hb
  have a1d : D[fun s => a1 (P s)] := (diff_rpow ((diff_wm h).const_mul _) (by positivity) _).mul
    ((diff_rpow ((diff_wm h).const_mul _) (by positivity) _).const_add 1)
  have a2d : D[fun s => a2 (P s)] := (diff_rpow ((diff_wm h).const_mul _) (by positivity) _).mul
    ((diff_rpow ((diff_wm h).const_mul _) (by positivity) _).const_add 1)
  have p1 : 0 < a1 (P θ) := by unfold a1; positivity
  have p2 : 0 < a2 (P θ) := by unfold a2; positivity
  exact (a1d.rpow (diff_fb h hb).neg p1.ne').mul (a2d.rpow ((diff_fb h hb).fun_pow 3).neg p2.ne')

omit h in
theorem alpha_c_pos : 0 < alpha_c (P θ) := by
  have hm := wm_pos hb
  have p1 : 0 < a1 (P θ) := by unfold a1; positivity
  have p2 : 0 < a2 (P θ) := by unfold a2; positivity
  unfold alpha_c; positivity

omit h in
theorem fc_range : 0 < fc (P θ) ∧ fc (P θ) < 1 := by
  have h1 := om_pos hb
  have h2 := hb.c_pos
  have h3 := hb.b_pos
  unfold fc
  rw [div_lt_one h1]
  constructor
  · refine div_pos ?_ h1; unfold Params.Omega_m; linarith
  · linarith

omit h in
theorem beta_c_den : 0 < 1 + bc1 (P θ) * (fc (P θ) ^ bc2 (P θ) - 1) := by
  have hm := wm_pos hb
  obtain ⟨c0, c1⟩ := fc_range hb
  have e1 : 0 < fc (P θ) ^ bc2 (P θ) := Real.rpow_pos_of_pos c0 _
  have e2 : 0 < (458 * w_m (P θ)) ^ (-0.708 : ℝ) := Real.rpow_pos_of_pos (by positivity) _
  have b0 : 0 < bc1 (P θ) := by unfold bc1; positivity
  have b1 : bc1 (P θ) < 1 := by
    unfold bc1
    rw [div_lt_one (by positivity)]
    norm_num
    linarith
  have : 0 < bc1 (P θ) * fc (P θ) ^ bc2 (P θ) := mul_pos b0 e1
  linarith

theorem diff_beta_c : D[fun s => beta_c (P s)] := by
  have hm := wm_pos hb
  have e2 : 0 < (458 * w_m (P θ)) ^ (-0.708 : ℝ) := Real.rpow_pos_of_pos (by positivity) _
  have b1 : D[fun s => bc1 (P s)] := (differentiableAt_const _).div
    ((diff_rpow ((diff_wm h).const_mul _) (by positivity) _).const_add 1) (by positivity)
  have b2 : D[fun s => bc2 (P s)] := diff_rpow ((diff_wm h).const_mul _) (by positivity) _
  exact (differentiableAt_const _).fun_div ((b1.mul (((diff_fc h hb).rpow b2
    (fc_range hb).1.ne').sub_const 1)).const_add 1) (beta_c_den hb).ne'

theorem diff_T_tilde {α β : ℝ → ℝ} (hα : D[α]) (hβ : D[β]) (a0 : 0 < α θ) (b0 : 0 ≤ β θ) (hK : D[K])
    (hk : 0 < K θ) : D[fun s => T_tilde (P s) (K s) (α s) (β s)] := by
  have hke := keq_pos hb
  have hq : D[fun s => K s / (13.41 * k_eq (P s))] :=
    hK.fun_div ((diff_keq h hb).const_mul _) (by positivity)
  have q0 : 0 < K θ / (13.41 * k_eq (P θ)) := by positivity
  have he := Real.exp_pos 1
  have hL : D[fun s => Real.log (Real.exp 1 + 1.8 * β s * (K s / (13.41 * k_eq (P s))))] :=
    (((hβ.const_mul _).fun_mul hq).const_add _).log (by positivity)
  have hL0 : 0 < Real.log (Real.exp 1 + 1.8 * β θ * (K θ / (13.41 * k_eq (P θ)))) := by
    refine Real.log_pos ?_
    have : 1 < Real.exp 1 := Real.one_lt_exp_iff.2 one_pos
    have : 0 ≤ 1.8 * β θ * (K θ / (13.41 * k_eq (P θ))) := by positivity
    linarith
  have hr := Real.rpow_pos_of_pos q0 (1.08 : ℝ)
  have hC : D[fun s => 14.2 / α s + 386 / (1 + 69.9 * (K s / (13.41 * k_eq (P s))) ^ (1.08 : ℝ))] :=
    ((differentiableAt_const _).div hα a0.ne').add
      ((differentiableAt_const _).fun_div (((diff_rpow hq q0 _).const_mul _).const_add 1) (by positivity))
  exact hL.fun_div (hL.add ((hC.mul hq).mul hq)) (by positivity)

theorem diff_Tc (hK : D[K]) (hk : 0 < K θ) : D[fun s => Tc (P s) (K s)] := by
  have hβ := diff_beta_c h hb
  have β0 : 0 ≤ beta_c (P θ) := by have := beta_c_den hb; unfold beta_c; positivity
  have hs := shd_pos hb
  have hf : D[fun s => 1 / (1 + (K s * sh_d (P s) / 5.4) ^ 4)] :=
    (differentiableAt_const _).fun_div ((((hK.fun_mul (diff_shd h hb)).div_const _).fun_pow 4).const_add 1)
      (by positivity)
  exact (hf.mul (diff_T_tilde h hb (differentiableAt_const 1) hβ one_pos β0 hK hk)).add
    ((hf.const_sub 1).mul (diff_T_tilde h hb (diff_alpha_c h hb) hβ (alpha_c_pos hb) β0 hK hk))

theorem diff_G : D[fun s => EH.G (P s)] := by
  have z1 := zeq_pos hb
  have z2 := zd_pos hb
  have hy : D[fun s => (1 + z_eq (P s)) / (1 + z_d (P s))] :=
    ((diff_zeq h).const_add 1).fun_div ((diff_zd h hb).const_add 1) (by positivity)
  have y0 : 0 < (1 + z_eq (P θ)) / (1 + z_d (P θ)) := by positivity
  have hx : D[fun s => √(1 + (1 + z_eq (P s)) / (1 + z_d (P s)))] := (hy.const_add 1).sqrt (by positivity)
  have x1 : 1 < √(1 + (1 + z_eq (P θ)) / (1 + z_d (P θ))) := by
    rw [Real.lt_sqrt zero_le_one]; linarith
  have hl : D[fun s => Real.log ((√(1 + (1 + z_eq (P s)) / (1 + z_d (P s))) + 1)
      / (√(1 + (1 + z_eq (P s)) / (1 + z_d (P s))) - 1))] := by
    refine ((hx.add_const 1).fun_div (hx.sub_const 1) (by linarith)).log ?_
    exact (div_pos (by linarith) (by linarith)).ne'
  exact hy.mul ((hx.const_mul _).fun_add (((hy.const_mul _).const_add _).mul hl))

theorem diff_Tb (hK : D[K]) (hk : 0 < K θ) : D[fun s => Tb (P s) (K s)] := by
  have hs := diff_shd h hb
  have s0 := shd_pos hb
  have n0 := betanode_pos hb
  have hbn : D[fun s => beta_node (P s)] := (diff_rpow (diff_wm h) (wm_pos hb) _).const_mul _
  have hm := wm_pos hb
  have hbb : D[fun s => beta_b (P s)] := ((diff_fb h hb).const_add _).add
    ((((diff_fb h hb).const_mul 2).const_sub 3).mul
      (((((diff_wm h).const_mul _).fun_pow 2).add_const 1).sqrt (by positivity)))
  have b0 := betab_pos hb
  have hR := Rd_pos hb
  have hab : D[fun s => alpha_b (P s)] := ((((diff_keq h hb).const_mul _).fun_mul hs).mul
    (diff_rpow ((diff_Rd h hb).const_add 1) (by positivity) _)).mul (diff_G h hb)
  have hks : D[fun s => k_silk (P s)] := diff_ksilk h hb
  have ks0 : 0 < k_silk (P θ) := by
    have h1 := wb_pos hb
    have h2 := hb.h_pos
    unfold k_silk; positivity
  have hkK : D[fun s => K s * sh_d (P s)] := hK.mul hs
  have hkK0 : 0 < K θ * sh_d (P θ) := by positivity
  have hts : D[fun s => tilde_s (P s) (K s)] := hs.div
    (diff_rpow (((hbn.fun_div hkK hkK0.ne').fun_pow 3).const_add 1) (by positivity) _)
    (Real.rpow_pos_of_pos (by positivity) _).ne'
  have ts0 : 0 < tilde_s (P θ) (K θ) := by
    unfold tilde_s
    exact div_pos s0 (Real.rpow_pos_of_pos (by positivity) _)
  have hx : D[fun s => K s * tilde_s (P s) (K s) / Real.pi] := (hK.mul hts).div_const _
  have hpi := Real.pi_pos
  have x0 : 0 < K θ * tilde_s (P θ) (K θ) / Real.pi := by positivity
  have hsinc : D[fun s => npSinc (K s * tilde_s (P s) (K s) / Real.pi)] := by
    have hd : D[fun s => Real.sin (Real.pi * (K s * tilde_s (P s) (K s) / Real.pi))
        / (Real.pi * (K s * tilde_s (P s) (K s) / Real.pi))] :=
      (hx.const_mul _).sin.fun_div (hx.const_mul _) (by positivity)
    refine hd.congr_of_eventuallyEq ?_
    filter_upwards [hx.continuousAt.eventually_ne x0.ne'] with s hs
    rw [npSinc, if_neg hs]
  have t1 := diff_T_tilde h hb (differentiableAt_const 1) (differentiableAt_const 1) one_pos
    zero_le_one hK hk
  exact ((t1.fun_div (((hkK.div_const _).fun_pow 2).const_add 1) (by positivity)).add
    ((hab.fun_div (((hbb.fun_div hkK hkK0.ne').fun_pow 3).const_add 1) (by positivity)).mul
      (diff_rpow (hK.fun_div hks ks0.ne') (by positivity) _).fun_neg.exp)).mul hsinc

/-- C85: the transfer function with baryon oscillations (the default) is differentiable in all
parameters and in the wavenumber, with no further condition. -/
theorem C85_oscillating (hK : D[K]) (hk : 0 < K θ) : D[fun s => wiggle (P s) (K s)] :=
  ((diff_fb h hb).mul (diff_Tb h hb hK hk)).fun_add ((diff_fc h hb).mul (diff_Tc h hb hK hk))

end

/-! ## The linear power spectrum -/

section
variable {P : ℝ → Params} {v : Params} {θ : ℝ}

/-- Romberg integration of a family of integrands. -/
theorem romb_deriv {f : ℝ → ℝ → ℝ} {f' : ℝ → ℝ} (hf : ∀ x, HasDerivAt (fun s => f s x) (f' x) θ)
    (a b : ℝ) (m : ℕ) :
    HasDerivAt (fun s => (rombLoop (f s) a b m).1) (rombLoop f' a b m).1 θ ∧
    ∀ j, HasDerivAt (fun s => (rombLoop (f s) a b m).2 j) ((rombLoop f' a b m).2 j) θ := by
  induction m with
  | zero =>
    have h1 : HasDerivAt (fun s => difftrap1 (f s) a b) (difftrap1 f' a b) θ :=
      ((hf a).add (hf b)).const_mul _
    exact ⟨h1, fun j => h1.const_mul _⟩
  | succ m ih =>
    obtain ⟨i1, i2⟩ := ih
    have ho : HasDerivAt (fun s => (rombLoop (f s) a b (m + 1)).1) (rombLoop f' a b (m + 1)).1 θ :=
      i1.add (HasDerivAt.fun_sum fun j _ => hf _)
    have hx := (ho.const_mul (b - a)).div_const (((2 : ℕ) ^ (m + 1) : ℕ) : ℝ)
    refine ⟨ho, fun j => ?_⟩
    have hcarry : ∀ j, HasDerivAt (fun s => (scanCarry rombScanFn
          ((b - a) * (rombLoop (f s) a b (m + 1)).1 / (((2 : ℕ) ^ (m + 1) : ℕ) : ℝ), 0)
          (rombLoop (f s) a b m).2 j).1)
        (scanCarry rombScanFn
          ((b - a) * (rombLoop f' a b (m + 1)).1 / (((2 : ℕ) ^ (m + 1) : ℕ) : ℝ), 0)
          (rombLoop f' a b m).2 j).1 θ ∧
        (∀ s, (scanCarry rombScanFn
          ((b - a) * (rombLoop (f s) a b (m + 1)).1 / (((2 : ℕ) ^ (m + 1) : ℕ) : ℝ), 0)
          (rombLoop (f s) a b m).2 j).2 = j) ∧
        (scanCarry rombScanFn
          ((b - a) * (rombLoop f' a b (m + 1)).1 / (((2 : ℕ) ^ (m + 1) : ℕ) : ℝ), 0)
          (rombLoop f' a b m).2 j).2 = j := by
      intro j
      induction j with
      | zero => exact ⟨hx, fun s => rfl, rfl⟩
      | succ j ihj =>
        obtain ⟨c1, c2, c3⟩ := ihj
        refine ⟨?_, fun s => ?_, ?_⟩
        · simp only [scanCarry, rombScanFn, rombergDiff, c2, c3]
          exact ((c1.const_mul _).sub (i2 j)).div_const _
        · simp only [scanCarry, rombScanFn, c2 s]
        · simp only [scanCarry, rombScanFn, c3]
    rcases j with _ | j
    · exact hx
    · obtain ⟨c1, c2, c3⟩ := hcarry j
      have e : ∀ g : ℝ → ℝ, (rombLoop g a b (m + 1)).2 (j + 1)
          = scanOut rombScanFn ((b - a) * (rombLoop g a b (m + 1)).1 / (((2 : ℕ) ^ (m + 1) : ℕ) : ℝ), 0)
            (rombLoop g a b m).2 j := fun g => rfl
      simp only [e, scanOut, rombScanFn, rombergDiff, c2, c3]
      exact ((c1.const_mul _).sub (i2 j)).div_const _

/-- C85: for every transfer function differentiable in the parameters, the variance that normalises
the spectrum is differentiable, and its derivative is the Romberg integral of the derivative. -/
theorem C85_sigmasqr (h : Along P v θ) {T : ℝ → ℝ → ℝ} {T' : ℝ → ℝ}
    (hT : ∀ k, 0 < k → HasDerivAt (fun s => T s k) (T' k) θ) (R kmin kmax : ℝ) :
    HasDerivAt (fun s => sigmasqr (P s) R (T s) kmin kmax)
      (1 / (2 * Real.pi ^ (2 : ℝ)) * (rombLoop (fun x =>
        Real.exp x * (Real.exp x * (3 * (Real.sin (Real.exp x * R)
          - Real.exp x * R * Real.cos (Real.exp x * R))
          / (Real.exp x * R * (Real.exp x * R) * (Real.exp x * R)))) ^ 2
        * (Real.exp x ^ (P θ).n_s * (2 * T θ (Real.exp x) * T' (Real.exp x)
          + T θ (Real.exp x) ^ 2 * (x * v.n_s)))) (Real.logb 10 kmin) (Real.logb 10 kmax) 7).2 7) θ := by
  refine ((romb_deriv (fun x => ?_) (Real.logb 10 kmin) (Real.logb 10 kmax) 7).2 7).const_mul _
  have hp : HasDerivAt (fun s => Real.exp x ^ (P s).n_s) (Real.exp x ^ (P θ).n_s * (x * v.n_s)) θ := by
    have := h.n_s.const_rpow (Real.exp_pos x)
    refine this.congr_deriv ?_
    rw [Real.log_exp]; ring
  refine ((((hT _ (Real.exp_pos x)).pow 2).mul hp).const_mul _).congr_deriv ?_
  simp only [Pi.pow_apply]
  push_cast
  ring

/-- C85: the linear power spectrum is differentiable in all parameters and in the wavenumber, at
every epoch at which the growth factor is. -/
theorem C85_power (h : Along P v θ) {T : ℝ → ℝ → ℝ} {K : ℝ → ℝ}
    (hT : ∀ k, 0 < k → DifferentiableAt ℝ (fun s => T s k) θ)
    (hTK : DifferentiableAt ℝ (fun s => T s (K s)) θ) (hK : DifferentiableAt ℝ K θ) (hk : 0 < K θ)
    (hσ : sigmasqr (P θ) 8 (T θ) ≠ 0) {a : ℝ}
    (ha : DifferentiableAt ℝ (fun s => growthOf (P s) a) θ) :
    DifferentiableAt ℝ (fun s => linearMatterPower (P s) (T s) (K s) a) θ := by
  have hs := (C85_sigmasqr h (T' := fun k => deriv (fun s => T s k) θ)
    (fun k hk => (hT k hk).hasDerivAt) 8 0.0001 1000).differentiableAt
  have hp : DifferentiableAt ℝ (fun s => K s ^ (P s).n_s) θ :=
    hK.rpow h.n_s.differentiableAt hk.ne'
  exact ((hp.mul (hTK.pow 2)).mul (ha.pow 2)).mul ((h.sigma8.differentiableAt.pow 2).div hs hσ)

/-- C85: with the Eisenstein–Hu transfer function without oscillations, the linear power spectrum of
every physical cosmology with `0 ≤ alpha_gamma` is differentiable in all parameters and in the
wavenumber. -/
theorem C85_power_smooth (h : Along P v θ) (hp : Physical (P θ)) (hb : (P θ).Baryonic)
    (hα : 0 ≤ alpha_gamma (P θ)) {K : ℝ → ℝ} (hK : DifferentiableAt ℝ K θ) (hk : 0 < K θ) {a : ℝ}
    (h1 : 1 / 900 ≤ a) (h2 : a ≤ 1) :
    DifferentiableAt ℝ (fun s => linearMatterPower (P s) (nowiggle (P s)) (K s) a) θ := by
  refine C85_power (T := fun s => nowiggle (P s)) h (fun k hk => ?_) ?_ hK hk ?_
    (C84_differentiable h hp h1 h2)
  · exact C85_smooth (K := fun _ => k) h hb (differentiableAt_const _) hk.le (gamma_pos hb hα _)
  · exact C85_smooth h hb hK hk.le (gamma_pos hb hα _)
  · refine (sigmasqr_pos _ _ ?_).ne'
    obtain ⟨u, hu, h0, _⟩ := C43_shape (P θ) hb hα (Real.exp (-4)) (Real.exp_pos _).le
    simp only [Eisenstein_Hu, if_true, Except.ok.injEq] at hu
    rw [hu]; exact h0.ne'

/-- Witness: along a curve through the Planck 2015 cosmology, with the wavenumber varying too. -/
example : DifferentiableAt ℝ (fun s => linearMatterPower (planckCurve s) (nowiggle (planckCurve s))
    (0.1 + s) (1 / 2)) 0 := by
  have e := planckCurve_zero
  refine C85_power_smooth planckCurve_along (by rw [e]; exact planck_physical)
    (by rw [e]; exact planck_baryonic) (by rw [e]; exact planck_alpha.1.le)
    (differentiableAt_id.const_add _) (by norm_num) (by norm_num) (by norm_num)

/-- Witness: the oscillating transfer function, and its variance inside 8 Mpc/h. -/
example : DifferentiableAt ℝ (fun s => wiggle (planckCurve s) (0.1 + s)) 0 ∧
    DifferentiableAt ℝ (fun s => sigmasqr (planckCurve s) 8 (wiggle (planckCurve s))) 0 := by
  have hb : (planckCurve 0).Baryonic := by rw [planckCurve_zero]; exact planck_baryonic
  exact ⟨C85_oscillating planckCurve_along hb (differentiableAt_id.const_add _) (by norm_num),
    (C85_sigmasqr planckCurve_along (T := fun s => wiggle (planckCurve s)) (fun k hk =>
      (C85_oscillating (K := fun _ => k) planckCurve_along hb (differentiableAt_const _) hk).hasDerivAt)
      8 0.0001 1000).differentiableAt⟩

end

end JaxCosmo
