import Verif.Props.EisensteinHu
import Verif.Props.TransferSign
import Verif.Props.DefinedPower

/-! # C159: a universe with few baryons is close to one without

The matter density is kept and the share of baryons is sent to zero. -/

namespace JaxCosmo
open Filter Topology Spec EH

/-- The same universe with a density `b` of baryons; the rest of the matter is dark. -/
noncomputable def dilute (p : Params) (b : ℝ) : Params :=
  { p with Omega_b := b, Omega_c := p.Omega_m - b }

namespace FewBaryons
variable {p : Params}

theorem om (b : ℝ) : (dilute p b).Omega_m = p.Omega_m := by
  unfold dilute Params.Omega_m; ring

theorem wm (b : ℝ) : w_m (dilute p b) = w_m p := by
  unfold w_m; rw [om]; rfl

theorem keq (b : ℝ) : k_eq (dilute p b) = k_eq p := by
  unfold k_eq; rw [wm]; rfl

theorem zeq (b : ℝ) : z_eq (dilute p b) = z_eq p := by
  unfold z_eq; rw [wm]

theorem tilde (b k α β : ℝ) : T_tilde (dilute p b) k α β = T_tilde p k α β := by
  unfold T_tilde; rw [keq]

theorem bary (hh : 0 < p.h) {b : ℝ} (hb : 0 < b) (hm : b < p.Omega_m) : (dilute p b).Baryonic :=
  ⟨hb, sub_pos.2 hm, hh⟩

theorem near (hm : 0 < p.Omega_m) : ∀ᶠ b in 𝓝[>] (0 : ℝ), 0 < b ∧ b < p.Omega_m := by
  filter_upwards [self_mem_nhdsWithin, nhdsWithin_le_nhds (gt_mem_nhds hm)] with b h1 h2
  exact ⟨h1, h2⟩

theorem toZero : Tendsto (fun b : ℝ => b) (𝓝[>] 0) (𝓝 0) := nhdsWithin_le_nhds

theorem fb_tendsto : Tendsto (fun b => fb (dilute p b)) (𝓝[>] 0) (𝓝 0) := by
  have := toZero.div_const p.Omega_m
  rw [zero_div] at this
  refine this.congr fun b => ?_
  unfold fb
  rw [om]
  rfl

theorem wb_tendsto : Tendsto (fun b => w_b (dilute p b)) (𝓝[>] 0) (𝓝 0) := by
  have := toZero.mul_const (h2 p)
  rw [zero_mul] at this
  exact this

/-- The redshift of the drag epoch without baryons. -/
noncomputable def zd0 (p : Params) : ℝ :=
  1291 * w_m p ^ (0.251 : ℝ) / (1 + 0.659 * w_m p ^ (0.828 : ℝ))

theorem zd0_pos (hw : 0 < w_m p) : 0 < zd0 p := by
  have := Real.rpow_pos_of_pos hw 0.251
  have := Real.rpow_pos_of_pos hw 0.828
  unfold zd0
  positivity

theorem zd_eq (b : ℝ) : z_d (dilute p b) = zd0 p * (1 + zd_b1 p * w_b (dilute p b) ^ zd_b2 p) := by
  unfold z_d zd0 zd_b1 zd_b2
  rw [wm]

theorem zd_tendsto (hw : 0 < w_m p) : Tendsto (fun b => z_d (dilute p b)) (𝓝[>] 0) (𝓝 (zd0 p)) := by
  have h2 : 0 < zd_b2 p := by
    have := Real.rpow_pos_of_pos hw 0.223
    unfold zd_b2; positivity
  have h := (wb_tendsto (p := p)).rpow_const (p := zd_b2 p) (Or.inr h2.le)
  rw [Real.zero_rpow h2.ne'] at h
  have h3 := ((h.const_mul (zd_b1 p)).const_add 1).const_mul (zd0 p)
  rw [mul_zero, add_zero, mul_one] at h3
  exact h3.congr fun b => (zd_eq b).symm

theorem zd_ge (hh : 0 < p.h) {b : ℝ} (hb : 0 < b) (hm : b < p.Omega_m) : zd0 p ≤ z_d (dilute p b) := by
  have hw : 0 < w_m p := mul_pos (hb.trans hm) (pow_pos hh 2)
  have h0 := zd0_pos hw
  have h1 : 0 ≤ zd_b1 p := by
    have := Real.rpow_pos_of_pos hw (-0.419)
    have := Real.rpow_pos_of_pos hw 0.674
    unfold zd_b1; positivity
  have h2 : 0 ≤ w_b (dilute p b) ^ zd_b2 p := Real.rpow_nonneg (wb_pos (bary hh hb hm)).le _
  rw [zd_eq]
  have := mul_nonneg h0.le (mul_nonneg h1 h2)
  linarith

/-- However few baryons there are, the sound horizon stays below a fixed length. -/
theorem shd_bounded (hh : 0 < p.h) (hm : 0 < p.Omega_m) :
    ∃ S, ∀ b, 0 < b → b < p.Omega_m → sh_d (dilute p b) ≤ S := by
  have hw : 0 < w_m p := mul_pos hm (pow_pos hh 2)
  have hz0 := zd0_pos hw
  have hT := T27_pos
  have hz : 0 < z_eq p := by unfold z_eq; positivity
  have hk : 0 < k_eq p := by unfold k_eq; positivity
  set c := z_eq p / zd0 p with hc
  have hc0 : 0 < c := by positivity
  set M := 31.5 * w_m p / T_2_7_sqr ^ 2 * (1.0e3 / z_eq p) with hM
  have hM0 : 0 < M := by positivity
  refine ⟨2 / (3 * k_eq p) * √6 * (c * √M / 2 + √(1 + c)), fun b hb hbm => ?_⟩
  have hB := bary hh hb hbm
  have hR := Req_pos hB
  have hD := Rd_pos hB
  set R := R_eq (dilute p b) with hRdef
  set D := R_d (dilute p b) with hDdef
  have hwb : w_b (dilute p b) ≤ w_m p := mul_le_mul_of_nonneg_right hbm.le (pow_pos hh 2).le
  have hRM : R ≤ M := by
    rw [hRdef, R_eq, zeq, hM]
    gcongr
  have hDR : D ≤ c * R := by
    rw [hRdef, hDdef, R_eq, R_d, zeq, hc]
    have h1 : 31.5 * w_b (dilute p b) / T_2_7_sqr ^ 2 * (1.0e3 / z_d (dilute p b))
        ≤ 31.5 * w_b (dilute p b) / T_2_7_sqr ^ 2 * (1.0e3 / zd0 p) := by
      have := wb_pos hB
      have := zd_ge hh hb hbm
      gcongr
    refine h1.trans (le_of_eq ?_)
    field_simp
  set r := √R with hr
  have hr0 : 0 < r := Real.sqrt_pos.2 hR
  have hrr : r * r = R := Real.mul_self_sqrt hR.le
  have hrM : r ≤ √M := Real.sqrt_le_sqrt hRM
  have h1 : √(1 + D) ≤ 1 + D / 2 := by
    rw [Real.sqrt_le_left (by positivity)]
    nlinarith [sq_nonneg D]
  have h2 : √(R + D) ≤ r * √(1 + c) := by
    rw [hr, ← Real.sqrt_mul hR.le]
    exact Real.sqrt_le_sqrt (by linarith)
  have hlog : Real.log ((√(1 + D) + √(R + D)) / (1 + r)) ≤ r * (c * √M / 2 + √(1 + c)) := by
    have hpos : 0 < (√(1 + D) + √(R + D)) / (1 + r) := by positivity
    refine (Real.log_le_sub_one_of_pos hpos).trans ?_
    rw [sub_le_iff_le_add, div_le_iff₀ (by positivity)]
    have h3 : D / 2 ≤ r * (c * √M / 2) := by
      have := mul_le_mul_of_nonneg_left hrM (mul_nonneg hc0.le hr0.le)
      nlinarith
    have h4 : 0 ≤ r * (c * √M / 2 + √(1 + c)) := by positivity
    nlinarith
  have h6 : √(6 / R) = √6 / r := Real.sqrt_div' _ hR.le
  unfold sh_d
  rw [keq, ← hRdef, ← hDdef, h6, ← hr]
  calc 2 / (3 * k_eq p) * (√6 / r) * Real.log ((√(1 + D) + √(R + D)) / (1 + r))
      ≤ 2 / (3 * k_eq p) * (√6 / r) * (r * (c * √M / 2 + √(1 + c))) := by gcongr
    _ = 2 / (3 * k_eq p) * √6 * (c * √M / 2 + √(1 + c)) := by field_simp

theorem G_tendsto (hh : 0 < p.h) (hm : 0 < p.Omega_m) :
    ∃ g, Tendsto (fun b => G (dilute p b)) (𝓝[>] 0) (𝓝 g) := by
  have hw : 0 < w_m p := mul_pos hm (pow_pos hh 2)
  have hz0 := zd0_pos hw
  have hT := T27_pos
  have hz : 0 < z_eq p := by unfold z_eq; positivity
  have hy : Tendsto (fun b => (1 + z_eq p) / (1 + z_d (dilute p b))) (𝓝[>] 0)
      (𝓝 ((1 + z_eq p) / (1 + zd0 p))) :=
    tendsto_const_nhds.div ((zd_tendsto hw).const_add 1) (by positivity)
  set y := (1 + z_eq p) / (1 + zd0 p) with hyd
  have hy0 : 0 < y := by positivity
  have hx : Tendsto (fun b => √(1 + (1 + z_eq p) / (1 + z_d (dilute p b)))) (𝓝[>] 0) (𝓝 √(1 + y)) :=
    (hy.const_add 1).sqrt
  have hx1 : 1 < √(1 + y) := by
    rw [Real.lt_sqrt (by norm_num)]; linarith
  have hl := ((hx.add_const 1).div (hx.sub_const 1) (by linarith)).log
    (div_pos (by linarith) (by linarith)).ne'
  refine ⟨_, (hy.mul ((hx.const_mul (-6)).add (((hy.const_mul 3).const_add 2).mul hl))).congr
    fun b => ?_⟩
  unfold G
  rw [zeq]
  rfl

theorem Ttilde_le_one (h : p.Baryonic) {k α β : ℝ} (hk : 0 ≤ k) (hα : 0 < α) (hβ : 0 < β) :
    T_tilde p k α β ≤ 1 := by
  have hke := keq_pos h
  unfold T_tilde
  simp only
  have hq : 0 ≤ k / (13.41 * k_eq p) := by positivity
  generalize k / (13.41 * k_eq p) = q at hq
  have h1 : 1 < Real.exp 1 + 1.8 * β * q := by
    have := Real.exp_one_gt_two
    have : 0 ≤ 1.8 * β * q := by positivity
    linarith
  have h2 := Real.log_pos h1
  have := Real.rpow_nonneg hq 1.08
  have h3 : 0 ≤ (14.2 / α + 386 / (1 + 69.9 * q ^ (1.08 : ℝ))) * q * q := by positivity
  rw [div_le_one (by linarith)]
  linarith

/-- The baryon part stays bounded however few baryons there are. -/
theorem Tb_bounded (hh : 0 < p.h) (hm : 0 < p.Omega_m) {k : ℝ} (hk : 0 < k) :
    ∃ A, ∀ᶠ b in 𝓝[>] (0 : ℝ), |Tb (dilute p b) k| ≤ A := by
  obtain ⟨S, hS⟩ := shd_bounded hh hm
  obtain ⟨g, hg⟩ := G_tendsto hh hm
  have hw : 0 < w_m p := mul_pos hm (pow_pos hh 2)
  have hT := T27_pos
  have hke : 0 < k_eq p := by unfold k_eq; positivity
  refine ⟨1 + 2.07 * k_eq p * S * (g + 1), ?_⟩
  filter_upwards [near hm, hg.eventually_lt_const (lt_add_one g)] with b hb hG
  have hB := bary hh hb.1 hb.2
  have hs := shd_pos hB
  have hbb := betab_pos hB
  have ha := alphab_pos hB
  have hTp := T_tilde_pos hB hk.le one_pos one_pos
  have hT1 := Ttilde_le_one hB hk.le one_pos one_pos
  have hGp := EH_G_pos hB
  have hSb := hS b hb.1 hb.2
  have haS : alpha_b (dilute p b) ≤ 2.07 * k_eq p * S * (g + 1) := by
    have hD := Rd_pos hB
    have h1 : (1 + R_d (dilute p b)) ^ (-0.75 : ℝ) ≤ 1 :=
      Real.rpow_le_one_of_one_le_of_nonpos (by linarith) (by norm_num)
    have h0 := Real.rpow_pos_of_pos (show 0 < 1 + R_d (dilute p b) by linarith) (-0.75)
    unfold alpha_b
    rw [keq]
    have h2 : 2.07 * k_eq p * sh_d (dilute p b) * (1 + R_d (dilute p b)) ^ (-0.75 : ℝ)
        ≤ 2.07 * k_eq p * S * 1 := by
      have : 0 ≤ S := hs.le.trans hSb
      gcongr
    rw [mul_one] at h2
    exact mul_le_mul h2 hG.le hGp.le (le_trans (by positivity) h2)
  unfold Tb
  rw [abs_mul, npSinc_eq]
  have hsinc := Real.abs_sinc_le_one (Real.pi * (k * tilde_s (dilute p b) k / Real.pi))
  have e1 : T_tilde (dilute p b) k 1 1 / (1 + (k * sh_d (dilute p b) / 5.2) ^ 2) ≤ 1 := by
    rw [div_le_one (by positivity)]
    have : 0 ≤ (k * sh_d (dilute p b) / 5.2) ^ 2 := by positivity
    linarith
  have e2 : alpha_b (dilute p b) / (1 + (beta_b (dilute p b) / (k * sh_d (dilute p b))) ^ 3)
      * Real.exp (-((k / k_silk (dilute p b)) ^ (1.4 : ℝ))) ≤ alpha_b (dilute p b) := by
    have h1 : Real.exp (-((k / k_silk (dilute p b)) ^ (1.4 : ℝ))) ≤ 1 := by
      rw [Real.exp_le_one_iff, neg_nonpos]
      have := wb_pos hB
      have := wm_pos hB
      have : 0 < (dilute p b).h := hh
      exact Real.rpow_nonneg (by unfold k_silk; positivity) _
    have h2 : alpha_b (dilute p b) / (1 + (beta_b (dilute p b) / (k * sh_d (dilute p b))) ^ 3)
        ≤ alpha_b (dilute p b) := by
      refine div_le_self ha.le ?_
      have : 0 ≤ (beta_b (dilute p b) / (k * sh_d (dilute p b))) ^ 3 := by positivity
      linarith
    calc _ ≤ alpha_b (dilute p b) * 1 := mul_le_mul h2 h1 (Real.exp_pos _).le ha.le
      _ = _ := mul_one _
  have hnn : 0 ≤ T_tilde (dilute p b) k 1 1 / (1 + (k * sh_d (dilute p b) / 5.2) ^ 2)
      + alpha_b (dilute p b) / (1 + (beta_b (dilute p b) / (k * sh_d (dilute p b))) ^ 3)
      * Real.exp (-((k / k_silk (dilute p b)) ^ (1.4 : ℝ))) := by positivity
  rw [abs_of_nonneg hnn]
  calc _ ≤ (1 + 2.07 * k_eq p * S * (g + 1)) * 1 :=
        mul_le_mul (by linarith) hsinc (abs_nonneg _) (by linarith)
    _ = _ := mul_one _

theorem alphac_tendsto (hw : 0 < w_m p) : Tendsto (fun b => alpha_c (dilute p b)) (𝓝[>] 0) (𝓝 1) := by
  have ha1 : 0 < a1 p := by
    have := Real.rpow_pos_of_pos (show 0 < 46.9 * w_m p by positivity) 0.670
    have := Real.rpow_pos_of_pos (show 0 < 32.1 * w_m p by positivity) (-0.532)
    unfold a1; positivity
  have ha2 : 0 < a2 p := by
    have := Real.rpow_pos_of_pos (show 0 < 12.0 * w_m p by positivity) 0.424
    have := Real.rpow_pos_of_pos (show 0 < 45.0 * w_m p by positivity) (-0.582)
    unfold a2; positivity
  have h1 := (tendsto_const_nhds (x := a1 p)).rpow (fb_tendsto (p := p)).neg (Or.inl ha1.ne')
  have h2 := (tendsto_const_nhds (x := a2 p)).rpow ((fb_tendsto (p := p)).pow 3).neg (Or.inl ha2.ne')
  have h := h1.mul h2
  norm_num at h
  refine h.congr fun b => ?_
  unfold alpha_c a1 a2
  rw [wm]

theorem betac_tendsto (hm : 0 < p.Omega_m) :
    Tendsto (fun b => beta_c (dilute p b)) (𝓝[>] 0) (𝓝 1) := by
  have hfc : Tendsto (fun b => fc (dilute p b)) (𝓝[>] 0) (𝓝 1) := by
    have := (fb_tendsto (p := p)).const_sub 1
    rw [sub_zero] at this
    exact this.congr fun b => fc_paper (by rw [om]; exact hm.ne')
  have h := hfc.rpow_const (p := bc2 p) (Or.inl one_ne_zero)
  rw [Real.one_rpow] at h
  have h2 := ((h.sub_const 1).const_mul (bc1 p)).const_add 1
  have h3 := (tendsto_const_nhds (x := (1 : ℝ))).div h2 (by simp)
  simp only [sub_self, mul_zero, add_zero, div_one] at h3
  refine h3.congr fun b => ?_
  unfold beta_c bc1 bc2
  rw [wm]
  rfl

theorem Ttilde_cont (hke : 0 < k_eq p) {k : ℝ} (hk : 0 ≤ k) {f g : ℝ → ℝ}
    (hf : Tendsto f (𝓝[>] 0) (𝓝 1)) (hg : Tendsto g (𝓝[>] 0) (𝓝 1)) :
    Tendsto (fun b => T_tilde p k (f b) (g b)) (𝓝[>] 0) (𝓝 (T_tilde p k 1 1)) := by
  unfold T_tilde
  simp only
  have hq : 0 ≤ k / (13.41 * k_eq p) := by positivity
  generalize k / (13.41 * k_eq p) = q at hq
  have h1 : 1 < Real.exp 1 + 1.8 * 1 * q := by
    have := Real.exp_one_gt_two
    linarith
  have h2 := Real.log_pos h1
  have := Real.rpow_nonneg hq 1.08
  have hL := (((hg.const_mul 1.8).mul_const q).const_add (Real.exp 1)).log (by linarith)
  have hC : Tendsto (fun b => 14.2 / f b + 386 / (1 + 69.9 * q ^ (1.08 : ℝ))) (𝓝[>] 0)
      (𝓝 (14.2 / 1 + 386 / (1 + 69.9 * q ^ (1.08 : ℝ)))) :=
    (tendsto_const_nhds.div hf one_ne_zero).add_const _
  refine hL.div (hL.add ((hC.mul_const q).mul_const q)) ?_
  have h3 : 0 ≤ (14.2 / 1 + 386 / (1 + 69.9 * q ^ (1.08 : ℝ))) * q * q := by positivity
  linarith

/-- The dark matter part loses all trace of the baryons. -/
theorem Tc_tendsto (hh : 0 < p.h) (hm : 0 < p.Omega_m) {k : ℝ} (hk : 0 ≤ k) :
    Tendsto (fun b => Tc (dilute p b) k) (𝓝[>] 0) (𝓝 (T_tilde p k 1 1)) := by
  have hw : 0 < w_m p := mul_pos hm (pow_pos hh 2)
  have hT := T27_pos
  have hke : 0 < k_eq p := by unfold k_eq; positivity
  have h1 := Ttilde_cont hke hk (tendsto_const_nhds (x := (1 : ℝ))) (betac_tendsto hm)
  have h2 := Ttilde_cont hke hk (alphac_tendsto hw) (betac_tendsto hm)
  have h3 := (h1.sub_const (T_tilde p k 1 1)).abs.add (h2.sub_const (T_tilde p k 1 1)).abs
  rw [sub_self, abs_zero, add_zero] at h3
  rw [← tendsto_sub_nhds_zero_iff]
  refine squeeze_zero_norm (fun b => ?_) h3
  unfold Tc
  simp only [tilde, Real.norm_eq_abs]
  have hu : 0 ≤ (k * sh_d (dilute p b) / 5.4) ^ 4 := by positivity
  generalize (k * sh_d (dilute p b) / 5.4) ^ 4 = u at hu
  have hf0 : 0 ≤ 1 / (1 + u) := by positivity
  have hf1 : 1 / (1 + u) ≤ 1 := by rw [div_le_one (by positivity)]; linarith
  generalize 1 / (1 + u) = f at hf0 hf1
  generalize T_tilde p k 1 (beta_c (dilute p b)) = x
  generalize T_tilde p k (alpha_c (dilute p b)) (beta_c (dilute p b)) = y
  generalize T_tilde p k 1 1 = t
  calc |f * x + (1 - f) * y - t| = |f * (x - t) + (1 - f) * (y - t)| := by ring_nf
    _ ≤ f * |x - t| + (1 - f) * |y - t| := by
        refine (abs_add_le _ _).trans (le_of_eq ?_)
        rw [abs_mul, abs_mul, abs_of_nonneg hf0, abs_of_nonneg (sub_nonneg.2 hf1)]
    _ ≤ |x - t| + |y - t| := by nlinarith [abs_nonneg (x - t), abs_nonneg (y - t)]

end FewBaryons
open FewBaryons

/-- C159: as the baryons are taken away the default transfer function tends to that of cold dark
matter alone, formula (19) of the paper with neither suppression nor shift. -/
theorem C159_oscillating {p : Params} (hh : 0 < p.h) (hm : 0 < p.Omega_m) {k : ℝ} (hk : 0 < k) :
    ∃ T : ℝ → ℝ, (∀ b, Eisenstein_Hu (dilute p b) k = .ok (T b)) ∧
      Tendsto T (𝓝[>] 0)
        (𝓝 (EH98.T₀ (EH98.q (p.Omega_m * p.h ^ 2) cmbTheta (k * p.h)) 1 1)) := by
  refine ⟨fun b => wiggle (dilute p b) k, fun b => by simp [Eisenstein_Hu], ?_⟩
  rw [show EH98.T₀ (EH98.q (p.Omega_m * p.h ^ 2) cmbTheta (k * p.h)) 1 1 = T_tilde p k 1 1 from
    Ttilde_paper hh.ne' k 1 1]
  obtain ⟨A, hA⟩ := Tb_bounded hh hm hk
  have h1 : Tendsto (fun b => fb (dilute p b) * Tb (dilute p b) k) (𝓝[>] 0) (𝓝 0) := by
    have h := (fb_tendsto (p := p)).abs.mul_const A
    rw [abs_zero, zero_mul] at h
    refine squeeze_zero_norm' ?_ h
    filter_upwards [hA] with b hb
    rw [Real.norm_eq_abs, abs_mul]
    exact mul_le_mul_of_nonneg_left hb (abs_nonneg _)
  have hfc : Tendsto (fun b => fc (dilute p b)) (𝓝[>] 0) (𝓝 1) := by
    have := (fb_tendsto (p := p)).const_sub 1
    rw [sub_zero] at this
    exact this.congr fun b => fc_paper (by rw [om]; exact hm.ne')
  have := h1.add (hfc.mul (Tc_tendsto hh hm hk.le))
  rw [zero_add, one_mul] at this
  exact this

/-- C159: the transfer function without oscillations tends to the one of the shape `Γ = Ω_m h` that
was in use before baryons were considered; the sound horizon `s` plays no part in it. -/
theorem C159_smooth {p : Params} (hh : 0 < p.h) (hm : 0 < p.Omega_m) {k : ℝ} (hk : 0 ≤ k) (s : ℝ) :
    ∃ T : ℝ → ℝ, (∀ b, Eisenstein_Hu (dilute p b) k "eisenhu" = .ok (T b)) ∧
      Tendsto T (𝓝[>] 0) (𝓝 (EH98.Tsmooth (p.Omega_m * p.h ^ 2) 0 cmbTheta s (k * p.h))) := by
  refine ⟨fun b => nowiggle (dilute p b) k, fun b => by simp [Eisenstein_Hu], ?_⟩
  have hw : 0 < w_m p := mul_pos hm (pow_pos hh 2)
  have hα : Tendsto (fun b => alpha_gamma (dilute p b)) (𝓝[>] 0) (𝓝 1) := by
    have h1 := ((wb_tendsto (p := p)).const_mul (0.328 * Real.log (431 * w_m p))).div_const (w_m p)
    have h2 := ((fb_tendsto (p := p)).pow 2).const_mul (0.38 * Real.log (22.3 * w_m p))
    have h3 := (h1.const_sub 1).add h2
    norm_num at h3
    refine h3.congr fun b => ?_
    unfold alpha_gamma fb
    rw [wm]
    norm_num
  have hγ : Tendsto (fun b => gamma_eff (dilute p b) k) (𝓝[>] 0) (𝓝 (p.Omega_m * p.h)) := by
    have h0 : Tendsto (fun b => (1 - alpha_gamma (dilute p b))
        / (1 + (0.43 * k * sh_d (dilute p b)) ^ 4)) (𝓝[>] 0) (𝓝 0) := by
      have h := (hα.const_sub 1).abs
      rw [sub_self, abs_zero] at h
      refine squeeze_zero_norm (fun b => ?_) h
      rw [Real.norm_eq_abs, abs_div]
      refine div_le_self (abs_nonneg _) ?_
      rw [abs_of_nonneg (by positivity)]
      have : 0 ≤ (0.43 * k * sh_d (dilute p b)) ^ 4 := by positivity
      linarith
    have h := (hα.add h0).const_mul (p.Omega_m * p.h)
    rw [add_zero, mul_one] at h
    refine h.congr fun b => ?_
    unfold gamma_eff
    rw [om]
    rfl
  have hq : Tendsto (fun b => k * T_2_7_sqr / gamma_eff (dilute p b) k) (𝓝[>] 0)
      (𝓝 (k * T_2_7_sqr / (p.Omega_m * p.h))) :=
    tendsto_const_nhds.div hγ (mul_pos hm hh).ne'
  have hT := T27_pos
  have hq0 : 0 ≤ k * T_2_7_sqr / (p.Omega_m * p.h) := by positivity
  have hlim : EH98.Tsmooth (p.Omega_m * p.h ^ 2) 0 cmbTheta s (k * p.h)
      = nowiggleOfQ (k * T_2_7_sqr / (p.Omega_m * p.h)) := by
    have e : k * p.h * cmbTheta ^ 2 / EH98.shape (p.Omega_m * p.h ^ 2) 0 s (k * p.h)
        = k * T_2_7_sqr / (p.Omega_m * p.h) := by
      simp only [EH98.shape, EH98.alphaGamma, T27_eq]
      norm_num
      field_simp
    simp only [EH98.Tsmooth, e, nowiggleOfQ]
  rw [hlim]
  have hc : ContinuousAt nowiggleOfQ (k * T_2_7_sqr / (p.Omega_m * p.h)) := by
    generalize k * T_2_7_sqr / (p.Omega_m * p.h) = q at hq0
    have he := log_two_e hq0
    unfold nowiggleOfQ
    have hL : ContinuousAt (fun q : ℝ => Real.log (2 * Real.exp 1 + 1.8 * q)) q := by
      refine ContinuousAt.log (by fun_prop) ?_
      have := Real.exp_pos 1
      positivity
    refine hL.div (hL.add (ContinuousAt.mul (continuousAt_const.add
      (continuousAt_const.div (by fun_prop) (by positivity))) (by fun_prop))) ?_
    have : 0 ≤ (14.2 + 731 / (1 + 62.5 * q)) * q ^ 2 := by positivity
    linarith
  exact (hc.tendsto.comp hq).congr fun b => (nowiggle_eq k).symm

/-- C159: the code does not reach the limit.  With exactly no baryons it returns a NaN at every
wavenumber, for both transfer functions. -/
theorem C159_at_zero {p : Params} (hh : 0 < p.h) (hm : 0 < p.Omega_m) (k : Xr) :
    Xm.EH.wiggle (dilute p 0) k = Xr.nan ∧ Xm.EH.nowiggle (dilute p 0) k = Xr.nan :=
  (C112_no_baryons (p := dilute p 0) rfl (by simpa [dilute] using hm) hh k).symm

/-- Planck 2015 with fewer and fewer baryons, at `k = 0.1 h/Mpc`. -/
example : ∃ T : ℝ → ℝ, (∀ b, Eisenstein_Hu (dilute Planck15 b) 0.1 = .ok (T b)) ∧
    Tendsto T (𝓝[>] 0) (𝓝 (EH98.T₀ (EH98.q (Planck15.Omega_m * Planck15.h ^ 2) cmbTheta
      (0.1 * Planck15.h)) 1 1)) :=
  C159_oscillating planck_baryonic.h_pos (om_pos planck_baryonic) (by norm_num)

end JaxCosmo
