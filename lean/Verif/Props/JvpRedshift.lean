import Verif.Proofs.JvpRedshift
import Verif.Props.DefinedSpectra

/-! # C123: derivatives of redshift distributions with respect to their parameters -/

namespace JaxCosmo
open Xr Spec

variable {s : ℝ} {a b z0 β g g' : Leaf} {zm zm' : ℝ}

theorem pzGood_smail (ha : 0 < a.1 s) (hb : 0 < b.1 s) (hz : 0 < z0.1 s)
    (h : 1 ≤ b.1 s ∨ z0.2.tan = none) {z : ℝ} (h0 : 0 ≤ z) : PzGood s (.smail a b z0 g zm) z := by
  refine ⟨hz, ?_⟩
  rcases h0.eq_or_lt with rfl | h0
  · exact .inr ⟨.rfl, ha, hb, .inl rfl, h.symm.imp_left fun h => ⟨rfl, h⟩⟩
  · exact .inl h0

theorem Leaf.var_OK (x v : ℝ) : (Leaf.var x v).OK 0 :=
  ⟨v, by simpa [Leaf.var] using ((hasDerivAt_id (0 : ℝ)).const_mul v).const_add x, by simp [Leaf.var], rfl⟩

theorem linspace_zmax_nonneg (hzm : 0 < zm) {i : ℕ} (hi : i ≤ 256) : 0 ≤ linspace 0 zm 257 i :=
  linspace_nonneg le_rfl hzm.le (by norm_num) (by omega)

/-- C123: the derivative of the Smail distribution `n(z)` with respect to all its parameters at once is
finite and exact at every redshift, provided the exponent `b` is at least one or the scale `z0` is not
differentiated. -/
theorem C123_smail_partial (ha : a.OK s) (hb : b.OK s) (hz : z0.OK s) (hg : g.OK s) (ha0 : 0 < a.1 s)
    (hb0 : 0 < b.1 s) (hz0 : 0 < z0.1 s) (hzm : 0 < zm) (h : 1 ≤ b.1 s ∨ z0.2.tan = none) {z : ℝ}
    (h0 : 0 ≤ z) :
    Jvp (fun r => (Nz.smail (a.1 r) (b.1 r) (z0.1 r) (g.1 r) zm).eval z) s
      (Dm.nzEval (.smail a.2 b.2 z0.2 g.2 zm) (Du.con z)) :=
  jvp_nzEval (t := .smail a b z0 g zm) ⟨⟨ha, hb, hz, hg⟩,
    fun _ hi => pzGood_smail ha0 hb0 hz0 h (linspace_zmax_nonneg hzm hi),
    (smail_OK ha0 hb0 hz0 hzm).norm rfl⟩ rfl (pzGood_smail ha0 hb0 hz0 h h0)

/-- C123: the derivative of a kernel density estimate with respect to its catalogue (redshifts and
weights) is finite and exact at every redshift. -/
theorem C123_kde {cat : List (Leaf × Leaf)} {bw : ℝ} (hc : ∀ e ∈ cat, e.1.OK s ∧ e.2.OK s) (hg : g.OK s)
    (hbw : 0 < bw) (hw : ∀ e ∈ cat, 0 ≤ e.2.1 s) (hq : 0 < (cat.map fun e => e.2.1 s).sum)
    (hzm : 0 < zm) (z : ℝ) :
    Jvp (fun r => (Nz.kde (cat.map fun e => (e.1.1 r, e.2.1 r)) bw (g.1 r) zm).eval z) s
      (Dm.nzEval (.kde (cat.map fun e => (e.1.2, e.2.2)) bw g.2 zm) (Du.con z)) := by
  have e1 : ∀ r, nzAt (.kde cat bw g zm) r = .kde (cat.map fun e => (e.1.1 r, e.2.1 r)) bw (g.1 r) zm :=
    fun _ => rfl
  have e2 : nzDual (.kde cat bw g zm) = .kde (cat.map fun e => (e.1.2, e.2.2)) bw g.2 zm := rfl
  have hn : (nzAt (.kde cat bw g zm) s).computedNorm ≠ 0 := by
    rw [e1]
    refine (kde_OK hbw (fun e he => ?_) ?_ hzm).norm rfl
    · obtain ⟨q, hq, rfl⟩ := List.mem_map.1 he
      exact hw q hq
    · simpa [Function.comp_def] using hq
  have h := jvp_nzEval (t := .kde cat bw g zm) (z := z) ⟨⟨hc, hg⟩, fun _ _ => ⟨hbw.ne', hq.ne'⟩, hn⟩ rfl
    ⟨hbw.ne', hq.ne'⟩
  rw [e2] at h
  exact h.congr' fun r => by rw [e1]

theorem pzGood_shift (hβ : β.OK s) (ha1 : 1 < a.1 s) (hb1 : 1 ≤ b.1 s) (hz0 : 0 < z0.1 s) (z : ℝ) :
    PzGood s (.shift (.smail a b z0 g zm) β g' zm') z := by
  by_cases he : z = β.1 s
  · exact .inr ⟨he, hz0, ha1, hb1⟩
  · refine .inl ⟨he, hz0, ?_⟩
    rcases lt_or_gt_of_ne he with h | h
    · refine .inr ⟨?_, by linarith, by linarith, .inr ha1.le, .inr hb1⟩
      have hc : ContinuousAt (fun r => β.1 r) s := Jvp.contAt hβ
      filter_upwards [hc.eventually (lt_mem_nhds h)] with r hr
      exact max_eq_right (by linarith)
    · exact .inl (lt_max_of_lt_left (by linarith))

/-- C123: the derivative of a shifted Smail distribution with respect to the shift and all parameters of
its parent is finite and exact at every redshift, also where the shift cuts the argument off, provided
the parent starts more than linearly and its exponent `b` is at least one. -/
theorem C123_shift_partial (ha : a.OK s) (hb : b.OK s) (hz : z0.OK s) (hg : g.OK s) (hβ : β.OK s)
    (hg' : g'.OK s) (ha1 : 1 < a.1 s) (hb1 : 1 ≤ b.1 s) (hz0 : 0 < z0.1 s)
    (hn : (Nz.shift (.smail (a.1 s) (b.1 s) (z0.1 s) (g.1 s) zm) (β.1 s) (g'.1 s) zm').computedNorm ≠ 0)
    (z : ℝ) :
    Jvp (fun r => (Nz.shift (.smail (a.1 r) (b.1 r) (z0.1 r) (g.1 r) zm) (β.1 r) (g'.1 r) zm').eval z) s
      (Dm.nzEval (.shift (.smail a.2 b.2 z0.2 g.2 zm) β.2 g'.2 zm') (Du.con z)) := by
  have key := fun z => pzGood_shift (g := g) (zm := zm) (g' := g') (zm' := zm') hβ ha1 hb1 hz0 z
  exact jvp_nzEval (t := .shift (.smail a b z0 g zm) β g' zm')
    ⟨⟨⟨ha, hb, hz, hg⟩, hβ, hg'⟩, fun i _ => key _, hn⟩ rfl (key z)

/-! ## The condition on `b` cannot be dropped -/

theorem linspace_zmax_zero (zm : ℝ) : linspace 0 zm 257 0 = 0 := by simp [linspace]

/-- The rule for a power whose exponent is below one, at base zero. -/
theorem pow_tangent_nan {b c : ℝ} (hb : 0 < b) (hb1 : b < 1) {u q : Du} (hu : u.val = fin 0)
    (hq : q.val = fin 0) (hq' : q.tan = some (fin c)) :
    (u * (-(q.rpow (Du.con b))).exp).tan = some nan := by
  have hp : (fin 0).rpow (fin b - 1) = pinf := by
    rw [lit_one, sub_fin]
    simp [Xr.rpow, show ¬ (1 < b) by linarith, hb1]
  have hv : (q.rpow (Du.con b)).val = fin 0 := by
    change q.val.rpow (fin b) = _
    rw [hq, rpow_fin_zero hb, Real.zero_rpow hb.ne']
  have ht : (q.rpow (Du.con b)).tan = some (fin c * (fin b * pinf)) := by
    change Du.tadd (q.tan.map _) none = _
    rw [hq']
    simp only [Option.map_some, Du.tadd]
    rw [if_neg (by simpa [Du.con] using hb.ne'), hq]
    change some (fin c * (fin b * (fin 0).rpow (fin b - 1))) = _
    rw [hp]
  have hbp : fin b * pinf = pinf := by change infSign b = _; exact if_pos hb
  rw [hbp] at ht
  have he : (-(q.rpow (Du.con b))).exp.tan = some (-(fin c * pinf) * fin 1) := by
    change Option.map _ (Option.map _ (q.rpow (Du.con b)).tan) = _
    rw [ht]
    simp only [Option.map_some]
    change some (-(fin c * pinf) * (-(q.rpow (Du.con b)).val).exp) = _
    rw [hv, neg_fin, exp_fin, neg_zero, Real.exp_zero]
  have h0 : fin 0 * (-(fin c * pinf) * fin 1) = nan := by
    have h1 : fin c * pinf = infSign c := rfl
    have e : ∀ x : Xr, x = pinf ∨ x = ninf ∨ x = nan → fin 0 * (-x * fin 1) = nan := by
      rintro x (rfl | rfl | rfl)
      · change fin 0 * infSign (-1) = nan
        rw [infSign, if_neg (by norm_num), if_pos (by norm_num)]
        change infSign (-0) = nan
        simp [infSign]
      · change fin 0 * infSign 1 = nan
        rw [infSign, if_pos (by norm_num)]
        change infSign 0 = nan
        simp [infSign]
      · rfl
    rw [h1]
    apply e
    unfold infSign
    split_ifs <;> simp
  change Du.tadd _ (Option.map _ (-(q.rpow (Du.con b))).exp.tan) = _
  rw [he]
  simp only [Option.map_some]
  rw [hu, h0]
  exact tadd_nan_right _

/-- C123: for an exponent `b` below one the derivative with respect to the scale `z0` comes out as NaN
at every redshift, although `n(z)` has a derivative there: the normalisation takes the point at
redshift zero, where the rule for the power multiplies zero by infinity. -/
theorem C123_refuted {a b z0 zm : ℝ} (g : Leaf) (ha : 0 < a) (hb : 0 < b) (hb1 : b < 1) (hz0 : 0 < z0)
    (hzm : 0 < zm) {z : ℝ} (hz : 0 ≤ z) (v : ℝ) :
    (Dm.nzEval (.smail (Du.con a) (Du.con b) ⟨fin z0, some (fin v)⟩ g.2 zm) (Du.con z)).tangent = nan ∧
      ∃ n', HasDerivAt (fun u => (Nz.smail a b u (g.1 0) zm).eval z) n' z0 := by
  constructor
  · have h : (Dm.nzEval (.smail (Du.con a) (Du.con b) ⟨fin z0, some (fin v)⟩ g.2 zm) (Du.con z)).tan
        = some nan := by
      refine nzEval_tan_nan rfl ?_ _
      change (Dm.pzFn _ (Du.con (linspace 0 zm 257 0))).tan = _
      rw [linspace_zmax_zero]
      have hq : (Du.con 0 / ⟨fin z0, some (fin v)⟩ : Du).val = fin 0 := by
        change fin 0 / fin z0 = _
        rw [div_fin _ hz0.ne', zero_div]
      refine pow_tangent_nan (c := 0) hb hb1 ?_ hq ?_
      · change (fin 0).rpow (fin a) = _
        rw [rpow_fin_zero ha, Real.zero_rpow ha.ne']
      · change some (-fin v * fin 0 * ninvpow (fin z0) 2) = _
        rw [ninvpow_fin hz0.ne', neg_fin, mul_fin, mul_fin, mul_zero, zero_mul]
    rw [Du.tangent, h]; rfl
  · have hpz : ∀ z, 0 ≤ z → ∃ d, Jvp (fun u => (Nz.smail a b u (g.1 0) zm).pzFn z) z0 d := by
      intro z hz
      rcases hz.eq_or_lt with rfl | hz
      · refine ⟨0, (Jvp.zero _).congr' fun u => ?_⟩
        change (0 : ℝ) ^ a * _ = 0
        rw [Real.zero_rpow ha.ne', zero_mul]
      · exact ⟨_, jvp_pzFn (.smail (.con a) (.con b) (fun u => u, ⟨fin z0, some (fin 1)⟩)
          (.con (g.1 0)) zm) ⟨.con a _, .con b _, .seed (hasDerivAt_id _), .con _ _⟩ (.con z _)
          ⟨hz0, .inl hz⟩⟩
    obtain ⟨d, hd⟩ := hpz z hz
    choose! e he using hpz
    have hN : Jvp (fun u => (Nz.smail a b u (g.1 0) zm).computedNorm) z0
        (Dm.simps (fun x => match x.val with | fin y => e y | _ => 0) (Du.con 0) (Du.con zm) 256) := by
      refine Jvp.simps (f := fun u t => (Nz.smail a b u (g.1 0) zm).pzFn t) (Jvp.con 0 _) (Jvp.con zm _)
        (by norm_num) fun i hi => ?_
      rw [con_linspace _ _ (by norm_num)]
      exact he _ (linspace_zmax_nonneg hzm hi)
    obtain ⟨n', hn', -⟩ := hd.div hN ((smail_OK ha hb hz0 hzm).norm rfl)
    exact ⟨n', hn'⟩

theorem shift_zero_norm {a b z0 g zm g' zm' : ℝ} (hzm : 0 < zm') :
    (Nz.shift (.smail a b z0 g zm) 0 g' zm').computedNorm = (Nz.smail a b z0 0 zm').computedNorm := by
  have e : ∀ i ≤ 256, (Nz.shift (.smail a b z0 g zm) 0 g' zm').pzFn (linspace 0 zm' 257 i)
      = (Nz.smail a b z0 0 zm').pzFn (linspace 0 zm' 257 i) := by
    intro i hi
    change (Nz.smail a b z0 g zm).pzFn (Max.max (linspace 0 zm' 257 i - 0) 0) = _
    rw [sub_zero, max_eq_left (linspace_zmax_nonneg hzm hi)]
    rfl
  unfold Nz.computedNorm simpsBody
  refine congrArg _ (Finset.sum_congr rfl fun i hi => ?_)
  have := Finset.mem_range.1 hi
  change (_ + 4 * _ + _ : ℝ) = _ + 4 * _ + _
  exact congrArg₂ _ (congrArg₂ _ (e _ (by omega)) (congrArg _ (e _ (by omega)))) (e _ (by omega))

/-- C123: with respect to a mean shift, at the fiducial shift zero: NaN at every redshift for a parent
with `b` below one, although the shifted distribution has a derivative if it starts more than
linearly. -/
theorem C123_shift_refuted {a b z0 zm zm' : ℝ} (g g' : Leaf) (ha : 1 < a) (hb : 0 < b) (hb1 : b < 1)
    (hz0 : 0 < z0) (hzm : 0 < zm') {z : ℝ} (hz : 0 ≤ z) (v : ℝ) :
    (Dm.nzEval (.shift (.smail (Du.con a) (Du.con b) (Du.con z0) g.2 zm) ⟨fin 0, some (fin v)⟩ g'.2 zm')
        (Du.con z)).tangent = nan ∧
      ∃ n', HasDerivAt (fun u => (Nz.shift (.smail a b z0 (g.1 0) zm) u (g'.1 0) zm').eval z) n' 0 := by
  constructor
  · have h : (Dm.nzEval (.shift (.smail (Du.con a) (Du.con b) (Du.con z0) g.2 zm)
        ⟨fin 0, some (fin v)⟩ g'.2 zm') (Du.con z)).tan = some nan := by
      refine nzEval_tan_nan rfl ?_ _
      change (Dm.pzFn _ (Du.con (linspace 0 zm' 257 0))).tan = _
      rw [linspace_zmax_zero]
      have hx : ((Du.con 0 - ⟨fin 0, some (fin v)⟩ : Du).max 0).val = fin 0 := by
        change (fin 0 - fin 0).max (fin 0) = _
        rw [sub_fin, sub_zero, max_fin, max_self]
      have ht : ((Du.con 0 - ⟨fin 0, some (fin v)⟩ : Du).max 0).tan = some (fin (-v * (1 / 2))) := by
        change some (-fin v * Du.balancedEq (fin 0 - fin 0) ((fin 0 - fin 0).max (fin 0)) (fin 0)) = _
        rw [sub_fin, sub_zero, max_fin, max_self, Jvp.balanced_tie, neg_fin, mul_fin]
      change ((((Du.con 0 - ⟨fin 0, some (fin v)⟩ : Du).max 0).rpow (Du.con a)) *
        (-((((Du.con 0 - ⟨fin 0, some (fin v)⟩ : Du).max 0) / Du.con z0).rpow (Du.con b))).exp).tan = _
      generalize (Du.con 0 - ⟨fin 0, some (fin v)⟩ : Du).max 0 = x0 at hx ht
      refine pow_tangent_nan (c := -v * (1 / 2) / z0) hb hb1 ?_ ?_ ?_
      · change x0.val.rpow (fin a) = _
        rw [hx, rpow_fin_zero (by linarith), Real.zero_rpow (by linarith)]
      · change x0.val / fin z0 = _
        rw [hx, div_fin _ hz0.ne', zero_div]
      · change Du.tadd (x0.tan.map fun g => g / fin z0) none = _
        rw [ht]
        change some (fin _ / fin z0) = _
        rw [div_fin _ hz0.ne']
    rw [Du.tangent, h]; rfl
  · have hpz : ∀ z, 0 ≤ z →
        ∃ d, Jvp (fun u => (Nz.shift (.smail a b z0 (g.1 0) zm) u (g'.1 0) zm').pzFn z) 0 d := by
      intro z hz
      rcases hz.eq_or_lt with rfl | hz
      · refine ⟨⟨fin 0, none⟩, 0, hasDerivAt_corner (A := fun _ => a) (B := fun _ => b) (Z := fun _ => z0)
          ((hasDerivAt_id (0 : ℝ)).const_sub 0) (by simp) continuousAt_const ha (.of_forall fun _ => hz0),
          ?_, rfl⟩
        change fin 0 = fin (Max.max ((0 : ℝ) - 0) 0 ^ a * _)
        rw [sub_zero, max_self, Real.zero_rpow (by linarith), zero_mul]
      · exact ⟨_, jvp_pzFn (.shift (.smail (.con a) (.con b) (.con z0) (.con (g.1 0)) zm)
          (fun u => u, ⟨fin 0, some (fin 1)⟩) (.con (g'.1 0)) zm')
          ⟨⟨.con a _, .con b _, .con z0 _, .con _ _⟩, .seed (hasDerivAt_id _), .con _ _⟩ (.con z _)
          (.inl ⟨hz.ne', hz0, .inl (lt_max_of_lt_left (by simpa using hz))⟩)⟩
    obtain ⟨d, hd⟩ := hpz z hz
    choose! e he using hpz
    have hN : Jvp (fun u => (Nz.shift (.smail a b z0 (g.1 0) zm) u (g'.1 0) zm').computedNorm) 0
        (Dm.simps (fun x => match x.val with | fin y => e y | _ => 0) (Du.con 0) (Du.con zm') 256) := by
      refine Jvp.simps (f := fun u t => (Nz.shift (.smail a b z0 (g.1 0) zm) u (g'.1 0) zm').pzFn t)
        (Jvp.con 0 _) (Jvp.con zm' _) (by norm_num) fun i hi => ?_
      rw [con_linspace _ _ (by norm_num)]
      exact he _ (linspace_zmax_nonneg hzm hi)
    have hne : (Nz.shift (.smail a b z0 (g.1 0) zm) 0 (g'.1 0) zm').computedNorm ≠ 0 := by
      rw [shift_zero_norm hzm]
      exact (smail_OK (g := 0) (by linarith) hb hz0 hzm).norm rfl
    obtain ⟨n', hn', -⟩ := hd.div hN hne
    exact ⟨n', hn'⟩

/-! ## Witnesses -/

/-- Witness for `C123_smail_partial`: all parameters of the distribution of the library's tests. -/
example : Jvp (fun r => (Nz.smail (1 + 1 * r) (2 + 3 * r) (1 + 1 * r) 10 10).eval (1 / 2)) 0
    (Dm.nzEval (.smail ⟨fin 1, some (fin 1)⟩ ⟨fin 2, some (fin 3)⟩ ⟨fin 1, some (fin 1)⟩ (Du.con 10) 10)
      (Du.con (1 / 2))) :=
  C123_smail_partial (a := .var 1 1) (b := .var 2 3) (z0 := .var 1 1) (g := .con 10) (Leaf.var_OK 1 1)
    (Leaf.var_OK 2 3) (Leaf.var_OK 1 1) (Jvp.con 10 0) (by norm_num [Leaf.var]) (by norm_num [Leaf.var])
    (by norm_num [Leaf.var]) (by norm_num) (.inl (by norm_num [Leaf.var])) (by norm_num)

/-- Witness for `C123_kde`: one galaxy moving, another changing its weight. -/
example : Jvp (fun r => (Nz.kde [(0.5 + 1 * r, 1), (1, 2 + 1 * r)] 0.1 10 10).eval (1 / 2)) 0
    (Dm.nzEval (.kde [(⟨fin 0.5, some (fin 1)⟩, Du.con 1), (Du.con 1, ⟨fin 2, some (fin 1)⟩)] 0.1
      (Du.con 10) 10) (Du.con (1 / 2))) :=
  C123_kde (cat := [(.var 0.5 1, .con 1), (.con 1, .var 2 1)]) (g := .con 10)
    (fun e he => by
      simp only [List.mem_cons, List.not_mem_nil, or_false] at he
      rcases he with rfl | rfl
      · exact ⟨Leaf.var_OK _ _, Jvp.con 1 0⟩
      · exact ⟨Jvp.con 1 0, Leaf.var_OK _ _⟩)
    (Jvp.con 10 0) (by norm_num) (by simp [Leaf.var, Leaf.con]) (by norm_num [Leaf.var, Leaf.con])
    (by norm_num) _

/-- Witness for `C123_shift_partial`: the mean shift of a distribution, at shift zero. -/
example : Jvp (fun r => (Nz.shift (.smail 2 1.5 0.3 10 10) (0 + 1 * r) 10 10).eval (1 / 2)) 0
    (Dm.nzEval (.shift (.smail (Du.con 2) (Du.con 1.5) (Du.con 0.3) (Du.con 10) 10)
      ⟨fin 0, some (fin 1)⟩ (Du.con 10) 10) (Du.con (1 / 2))) :=
  C123_shift_partial (a := .con 2) (b := .con 1.5) (z0 := .con 0.3) (g := .con 10) (β := .var 0 1)
    (g' := .con 10) (Jvp.con _ 0) (Jvp.con _ 0) (Jvp.con _ 0) (Jvp.con _ 0) (Leaf.var_OK _ _)
    (Jvp.con _ 0) (by norm_num [Leaf.con]) (by norm_num [Leaf.con]) (by norm_num [Leaf.con])
    (by
      have e : (Leaf.var 0 1).1 0 = 0 := by simp [Leaf.var]
      rw [e, shift_zero_norm (by norm_num)]
      exact (smail_OK (by norm_num [Leaf.con]) (by norm_num [Leaf.con]) (by norm_num [Leaf.con])
        (by norm_num)).norm rfl) _

/-- Witness for `C123_refuted`: a distribution of the shape used for LSST (`b = 0.9`). -/
example : (Dm.nzEval (.smail (Du.con 2) (Du.con 0.9) ⟨fin 0.28, some (fin 1)⟩ (Du.con 10) 10)
    (Du.con 1)).tangent = nan :=
  (C123_refuted (.con 10) (by norm_num) (by norm_num) (by norm_num) (by norm_num) (by norm_num)
    (by norm_num) 1).1

/-- Witness for `C123_shift_refuted`. -/
example : (Dm.nzEval (.shift (.smail (Du.con 2) (Du.con 0.9) (Du.con 0.28) (Du.con 10) 10)
    ⟨fin 0, some (fin 1)⟩ (Du.con 10) 10) (Du.con 1)).tangent = nan :=
  (C123_shift_refuted (.con 10) (.con 10) (by norm_num) (by norm_num) (by norm_num) (by norm_num)
    (by norm_num) (by norm_num) 1).1

end JaxCosmo
