import Verif.Proofs.JvpLoops
import Verif.Props.CurvatureSensitivity
import Verif.Props.Defined

/-! # Differentiating `background.py` -/

namespace JaxCosmo.Spec
open Xr

variable {P : ℝ → Params} {s : ℝ} {D : DParams} {A : ℝ → ℝ} {a : Du}

theorem Seeded.Omega_m (h : Seeded P s D) : Jvp (fun r => (P r).Omega_m) s D.Omega_m :=
  h.Omega_b.add h.Omega_c
theorem Seeded.Omega (h : Seeded P s D) : Jvp (fun r => (P r).Omega) s D.Omega :=
  (Jvp.one s).sub h.Omega_k
theorem Seeded.Omega_de (h : Seeded P s D) : Jvp (fun r => (P r).Omega_de) s D.Omega_de :=
  h.Omega.sub h.Omega_m

theorem jvp_w (h : Seeded P s D) (ha : Jvp A s a) :
    Jvp (fun r => w (P r) (A r)) s (Dm.w D a) :=
  h.w0.add (((Jvp.one s).sub ha).mul h.wa)

theorem jvp_f_de (h : Seeded P s D) (ha : Jvp A s a) (h0 : 0 < A s) :
    Jvp (fun r => f_de (P r) (A r)) s (Dm.f_de D a) :=
  (((Jvp.nat 3 s).neg.mul (((Jvp.one s).add h.w0).add h.wa)).mul (ha.log h0)).add
    (((Jvp.nat 3 s).mul h.wa).mul (ha.sub (Jvp.one s)))

theorem jvp_Esqr (h : Seeded P s D) (ha : Jvp A s a) (h0 : 0 < A s) :
    Jvp (fun r => Esqr (P r) (A r)) s (Dm.Esqr D a) :=
  ((h.Omega_m.mul (ha.ninvpow3 h0.ne')).add (h.Omega_k.mul (ha.ninvpow2 h0.ne'))).add
    (h.Omega_de.mul (jvp_f_de h ha h0).exp)

theorem jvp_H (h : Seeded P s D) (ha : Jvp A s a) (h0 : 0 < A s) (hE : 0 < Esqr (P s) (A s)) :
    Jvp (fun r => H (P r) (A r)) s (Dm.H D a) :=
  (Jvp.con const_H0 s).mul ((jvp_Esqr h ha h0).sqrt hE)

theorem jvp_Omega_m_a (h : Seeded P s D) (ha : Jvp A s a) (h0 : 0 < A s)
    (hE : Esqr (P s) (A s) ≠ 0) : Jvp (fun r => Omega_m_a (P r) (A r)) s (Dm.Omega_m_a D a) :=
  (h.Omega_m.mul (ha.ninvpow3 h0.ne')).div (jvp_Esqr h ha h0) hE

theorem jvp_Omega_de_a (h : Seeded P s D) (ha : Jvp A s a) (h0 : 0 < A s)
    (hE : Esqr (P s) (A s) ≠ 0) : Jvp (fun r => Omega_de_a (P r) (A r)) s (Dm.Omega_de_a D a) :=
  (h.Omega_de.mul (jvp_f_de h ha h0).exp).div (jvp_Esqr h ha h0) hE

theorem jvp_dchioverda (h : Seeded P s D) (ha : Jvp A s a) (h0 : 0 < A s)
    (hE : 0 < Esqr (P s) (A s)) : Jvp (fun r => dchioverda (P r) (A r)) s (Dm.dchioverda D a) :=
  (Jvp.con const_rh s).div ((ha.npow 2).mul ((jvp_Esqr h ha h0).sqrt hE))
    (mul_pos (pow_pos h0 2) (Real.sqrt_pos.2 hE)).ne'

theorem jvp_logspace (lo : ℝ) {n : ℕ} (hn : 2 ≤ n) (i : ℕ) (s : ℝ) :
    Jvp (fun _ => logspace lo 0 n i) s (Dm.logspace lo n i) :=
  (Jvp.nat 10 s).rpow (Jvp.linspace (Jvp.con lo s) (Jvp.zero s) hn i) (by norm_num)

theorem jvp_chiTable (h : Seeded P s D) (hE : EsqrPos (P s)) {lo : ℝ} (hlo : lo < 0) {n : ℕ}
    (hn : 2 ≤ n) {i : ℕ} (hi : i < n) :
    Jvp (fun r => (chiTable (P r) lo n).chi i) s ((Dm.chiTable D lo n).2 i) := by
  have key : ∀ j ≤ n - 1, Jvp (fun r => odeint (fun _ x => dchioverda (P r) (Real.exp x) * Real.exp x)
      0 (fun i => Real.log (logspace lo 0 n i)) j) s
      (Dm.odeint (fun _ x => Dm.dchioverda D x.exp * x.exp) 0 (fun i => (Dm.logspace lo n i).log) j) := by
    intro j hj
    refine Jvp.odeint (Y := ℝ) (fun u uD => Jvp u s uD) (fun _ _ _ _ => Jvp.add)
      (fun _ _ _ _ => Jvp.smul) (Set.Iic 0) ?_ ?_ (Jvp.zero s) (N := n - 1)
      (t := fun i _ => Real.log (logspace lo 0 n i)) ?_ ?_ hj
    · intro x hx y hy
      simp only [Set.mem_Iic] at hx hy ⊢
      linarith
    · intro _ _ t tD _ ht hts
      have he := ht.exp
      exact (jvp_dchioverda h he (Real.exp_pos _) (hE _ (Real.exp_pos _)
        (Real.exp_le_one_iff.2 hts))).mul he
    · intro i hi
      exact Real.log_nonpos (logspace_pos _ _ _ _).le (logspace_le_one hlo hn hi)
    · intro i _
      exact (jvp_logspace lo hn i s).log (logspace_pos _ _ _ _)
  exact (key _ (by unfold ix; omega)).sub (key i (by omega))

theorem jvp_chi_interp (h : Seeded P s D) (hE : EsqrPos (P s)) {x : ℝ}
    (ha : Jvp (fun _ => x) s a) :
    Jvp (fun r => interp 256 (logspace (-3) 0 256) (chiTable (P r) (-3) 256).chi x) s
      (Dm.interp 256 (Dm.chiTable D (-3) 256).1 (Dm.chiTable D (-3) 256).2 a) := by
  have hm := logspace_strictMono (lo := -3) (by norm_num) (n := 256) (by norm_num)
  exact Jvp.interp_const (by norm_num) ha (fun i _ => jvp_logspace _ (by norm_num) i s)
    (fun i hi => jvp_chiTable h hE (by norm_num) (by norm_num) hi) fun i j _ _ h => hm.injective.ne h

theorem jvp_chiOf (h : Seeded P s D) (hE : EsqrPos (P s)) {x : ℝ} (ha : Jvp (fun _ => x) s a) :
    Jvp (fun r => chiOf (P r) x) s (Dm.chiOf D a) := by
  have hi := jvp_chi_interp h hE ha
  rcases lt_trichotomy x 1 with hx | rfl | hx
  · refine Jvp.max hi (Jvp.zero s) (ne_of_gt ?_)
    have := C06_pos_before (p := P s) (lo := -3) (n := 256) (by norm_num) (by norm_num) hE hx
    rw [readChi, clipLo, lt_max_iff] at this
    exact this.resolve_right (lt_irrefl _)
  · have h0 : ∀ r, interp 256 (logspace (-3) 0 256) (chiTable (P r) (-3) 256).chi 1 = 0 :=
      fun r => interp_chi_one (by norm_num) (by norm_num)
    simp only [h0] at hi
    exact (Jvp.max_same hi (Jvp.zero s)).congr' fun r => C06_zero_today (P r) (by norm_num) (by norm_num)
  · refine Jvp.max hi (Jvp.zero s) (ne_of_lt ?_)
    have := C21_strictAnti (by norm_num) (logspace_increasing (lo := -3) (n := 256) (by norm_num)
      (by norm_num)) (fp := (chiTable (P s) (-3) 256).chi)
      (fun i hi => chiTable_step _ (by norm_num) (by norm_num) hE i (by omega)) hx
    rwa [interp_chi_one (by norm_num) (by norm_num)] at this

theorem jvp_transverse (h : Seeded P s D) (hE : EsqrPos (P s)) (hk : (P s).Omega_k ≠ 0) {x : ℝ}
    (ha : Jvp (fun _ => x) s a) :
    Jvp (fun r => transverseOf (P r) (chiOf (P r) x)) s (Dm.transverse D a) := by
  have hc := jvp_chiOf h hE ha
  have hrh : const_rh ≠ 0 := by norm_num [const_rh]
  have hval : D.Omega_k.val = fin (P s).Omega_k := h.Omega_k.fst_const
  obtain ⟨_, hd, -⟩ := h.Omega_k
  have hsq := (h.Omega_k.abs hk).sqrt (abs_pos.2 hk)
  have hs0 : √|(P s).Omega_k| ≠ 0 := (Real.sqrt_pos.2 (abs_pos.2 hk)).ne'
  have harg := (hsq.mul hc).div (Jvp.con const_rh s) hrh
  unfold Dm.transverse
  rcases lt_or_gt_of_ne hk with hneg | hpos
  · have hk' : (iclip (D.k + 1) 0 2).toNat = 2 := by
      simp [DParams.k, hval, Xm.sgn, sgn, hneg, iclip]
    simp only [hk']
    refine (((Jvp.con const_rh s).div hsq hs0).mul harg.sin).congr ?_
    filter_upwards [hd.continuousAt.eventually (gt_mem_nhds hneg)] with r hr
    rw [transverseOf_closed _ hr, abs_of_neg hr]
  · have hk' : (iclip (D.k + 1) 0 2).toNat = 0 := by
      simp [DParams.k, hval, Xm.sgn, sgn, hpos.not_gt, hpos.ne', iclip]
    simp only [hk']
    refine (((Jvp.con const_rh s).div hsq hs0).mul harg.sinh).congr ?_
    filter_upwards [hd.continuousAt.eventually (lt_mem_nhds hpos)] with r hr
    rw [transverseOf_open _ hr, abs_of_pos hr]

/-- At `Ω_k = 0` the differentiated code takes the flat branch. -/
theorem dm_transverse_flat (h : Seeded P s D) (hk : (P s).Omega_k = 0) :
    Dm.transverse D a = Dm.chiOf D a := by
  have hval : D.Omega_k.val = fin (P s).Omega_k := h.Omega_k.fst_const
  have hk' : (iclip (D.k + 1) 0 2).toNat = 1 := by
    simp [DParams.k, hval, Xm.sgn, sgn, hk, iclip]
  unfold Dm.transverse
  simp only [hk']

/-! ## Growth -/

theorem jvp_growthDerivs (h : Seeded P s D) {y1 y2 t : ℝ → ℝ} {y : Du × Du} {tD : Du}
    (h1 : Jvp y1 s y.1) (h2 : Jvp y2 s y.2) (ht : Jvp t s tD) (h0 : 0 < t s)
    (hE : Esqr (P s) (t s) ≠ 0) :
    Jvp (fun r => (growthDerivs (P r) (y1 r, y2 r) (t r)).1) s (Dm.growthDerivs D y tD).1 ∧
      Jvp (fun r => (growthDerivs (P r) (y1 r, y2 r) (t r)).2) s (Dm.growthDerivs D y tD).2 := by
  have hm := jvp_Omega_m_a h ht h0 hE
  have hde := jvp_Omega_de_a h ht h0 hE
  have hw := jvp_w h ht
  have q := ((Jvp.nat 2 s).sub ((Jvp.half s).mul (hm.add (((Jvp.one s).add
    ((Jvp.nat 3 s).mul hw)).mul hde)))).div ht h0.ne'
  have r := (((((Jvp.nat 3 s).div (Jvp.nat 2 s) two_ne_zero).mul hm).div ht h0.ne').div ht h0.ne')
  exact ⟨h2, (q.neg.mul h2).add (r.mul h1)⟩

theorem jvp_growth_solution (h : Seeded P s D) (hE : EsqrPos (P s)) {i : ℕ} (hi : i ≤ 127) :
    Jvp (fun r => (odeint (growthDerivs (P r)) (logspace (-3) 0 128 0, 1) (logspace (-3) 0 128) i).1) s
      (Dm.odeint (Dm.growthDerivs D) (Dm.logspace (-3) 128 0, 1) (Dm.logspace (-3) 128) i).1 ∧
    Jvp (fun r => (odeint (growthDerivs (P r)) (logspace (-3) 0 128 0, 1) (logspace (-3) 0 128) i).2) s
      (Dm.odeint (Dm.growthDerivs D) (Dm.logspace (-3) 128 0, 1) (Dm.logspace (-3) 128) i).2 := by
  refine Jvp.odeint (Y := ℝ × ℝ) (YD := Du × Du)
    (fun u uD => Jvp (fun r => (u r).1) s uD.1 ∧ Jvp (fun r => (u r).2) s uD.2)
    (fun _ _ _ _ hu hv => ⟨hu.1.add hv.1, hu.2.add hv.2⟩)
    (fun _ _ _ _ hc hu => ⟨hc.smul hu.1, hc.smul hu.2⟩) (Set.Ioc 0 1) ?_ ?_
    ⟨jvp_logspace _ (by norm_num) 0 s, Jvp.one s⟩ (N := 127)
    (t := fun i _ => logspace (-3) 0 128 i) ?_ ?_ hi
  · rintro x ⟨hx, hx1⟩ y ⟨hy, hy1⟩
    exact ⟨by linarith, by linarith⟩
  · rintro u uD t tD ⟨hu1, hu2⟩ ht ⟨ht0, ht1⟩
    exact jvp_growthDerivs h hu1 hu2 ht ht0 (hE _ ht0 ht1).ne'
  · intro i hi
    exact ⟨logspace_pos _ _ _ _, logspace_le_one (by norm_num) (by norm_num) hi⟩
  · intro i _
    exact jvp_logspace _ (by norm_num) i s

theorem jvp_growthTableODE (h : Seeded P s D) (hp : Physical (P s)) {i : ℕ} (hi : i < 128) :
    Jvp (fun r => (growthTableODE (P r) (-3) 128).g i) s ((Dm.growthTableODE D (-3) 128).2.1 i) ∧
      Jvp (fun r => ((growthTableODE (P r) (-3) 128).f.getD fun _ => 0) i) s
        ((Dm.growthTableODE D (-3) 128).2.2 i) := by
  have hpos := growth_table_pos hp (lo := -3) (by norm_num) (n := 128) (by norm_num) default_ratio
  have e127 : ix 128 (-1) = 127 := by decide
  have h127 := (hpos 127 (by norm_num)).1
  have hposi := (hpos i hi).1
  obtain ⟨a1, a2⟩ := jvp_growth_solution h hp.esqrPos (show i ≤ 127 by omega)
  obtain ⟨b1, -⟩ := jvp_growth_solution h hp.esqrPos (show ix 128 (-1) ≤ 127 by rw [e127])
  have hne : (odeint (growthDerivs (P s)) (logspace (-3) 0 128 0, 1) (logspace (-3) 0 128)
      (ix 128 (-1))).1 ≠ 0 := by rw [e127]; exact h127.ne'
  have g := a1.div b1 hne
  refine ⟨g, ((a2.div b1 hne).mul (jvp_logspace _ (by norm_num) i s)).div g ?_⟩
  exact div_ne_zero hposi.ne' hne

theorem jvp_growthRateGamma (h : Seeded P s D) {g : ℝ → ℝ} {γ : Du} (hγ : Jvp g s γ)
    (hm : 0 < (P s).Omega_m) (ha : Jvp A s a) (h0 : 0 < A s) (hE : 0 < Esqr (P s) (A s)) :
    Jvp (fun r => growthRateGamma (P r) (g r) (A r)) s (Dm.growthRateGamma D γ a) :=
  (jvp_Omega_m_a h ha h0 hE.ne').rpow hγ (div_pos (mul_pos hm (zpow_pos h0 _)) hE)

theorem jvp_growthTableGamma (h : Seeded P s D) {g : ℝ → ℝ} {γ : Du} (hγ : Jvp g s γ)
    (hm : 0 < (P s).Omega_m) (hE : EsqrPos (P s)) {i : ℕ} (hi : i < 128) :
    Jvp (fun r => (growthTableGamma (P r) (g r) (-3) 128).g i) s
      ((Dm.growthTableGamma D γ (-3) 128).2 i) := by
  have key : ∀ j ≤ 127, Jvp (fun r => odeint (fun _ x => growthRateGamma (P r) (g r) (Real.exp x))
      (Real.log (logspace (-3) 0 128 0)) (fun i => Real.log (logspace (-3) 0 128 i)) j) s
      (Dm.odeint (fun _ x => Dm.growthRateGamma D γ x.exp) (Dm.logspace (-3) 128 0).log
        (fun i => (Dm.logspace (-3) 128 i).log) j) := by
    intro j hj
    refine Jvp.odeint (Y := ℝ) (fun u uD => Jvp u s uD) (fun _ _ _ _ => Jvp.add)
      (fun _ _ _ _ => Jvp.smul) (Set.Iic 0) ?_ ?_
      ((jvp_logspace (-3) (by norm_num) 0 s).log (logspace_pos _ _ _ _)) (N := 127)
      (t := fun i _ => Real.log (logspace (-3) 0 128 i)) ?_ ?_ hj
    · intro x hx y hy
      simp only [Set.mem_Iic] at hx hy ⊢
      linarith
    · intro _ _ t tD _ ht hts
      exact jvp_growthRateGamma h hγ hm ht.exp (Real.exp_pos _)
        (hE _ (Real.exp_pos _) (Real.exp_le_one_iff.2 hts))
    · intro i hi
      exact Real.log_nonpos (logspace_pos _ _ _ _).le
        (logspace_le_one (by norm_num) (by norm_num) hi)
    · intro i _
      exact (jvp_logspace (-3) (by norm_num) i s).log (logspace_pos _ _ _ _)
  exact (key i (by omega)).exp.div (key _ (by unfold ix; omega)).exp (Real.exp_pos _).ne'

theorem clip_iff {u : ℝ} : (0 < clip u 0 1 ↔ 0 < u) ∧ (0 < u → (clip u 0 1 < 1 ↔ u < 1)) := by
  unfold clip
  refine ⟨?_, fun h => ?_⟩
  · simp
  · rw [max_eq_left h.le]; simp

theorem jvp_clip {u : ℝ → ℝ} {d : Du} (hu : Jvp u s d) (h0 : 0 < clip (u s) 0 1)
    (h1 : clip (u s) 0 1 < 1) : Jvp (fun r => clip (u r) 0 1) s (Du.min (Du.max d 0) 1) := by
  have e0 := clip_iff.1.1 h0
  have e1 := (clip_iff.2 e0).1 h1
  refine (hu.max (Jvp.zero s) e0.ne').min (Jvp.one s) ?_
  rw [max_eq_left e0.le]
  exact e1.ne

theorem jvp_clip_one {u : ℝ → ℝ} {d : Du} (hu : Jvp u s d) (h1 : ∀ᶠ r in nhds s, u r = 1) :
    Jvp (fun r => clip (u r) 0 1) s (Du.min (Du.max d 0) 1) := by
  have hu1 : u s = 1 := h1.self_of_nhds
  have hone : Jvp (fun _ => (1 : ℝ)) s (Du.max d 0) := by
    refine (hu.max (Jvp.zero s) (by rw [hu1]; exact one_ne_zero)).congr ?_
    filter_upwards [h1] with r hr
    rw [hr]; norm_num
  refine (Jvp.min_same hone (Jvp.one s)).congr ?_
  filter_upwards [h1] with r hr
  rw [hr]; norm_num [clip]

theorem interp_growth_one {g : ℕ → ℝ} (h : g 127 = 1) : interp 128 (logspace (-3) 0 128) g 1 = 1 := by
  have hl : logspace (-3) 0 128 127 = 1 := logspace_end (-3) (by norm_num : 2 ≤ 128)
  have h127 := C19_nodes_partial (logspace_increasing (lo := -3) (by norm_num)
    (by norm_num : 2 ≤ 128)) g (i := 127) (Or.inl (by norm_num)) (by norm_num)
  rwa [hl, h] at h127

theorem jvp_growthOf (h : Seeded P s D) (hp : Physical (P s)) {x : ℝ} (hx0 : 1 / 900 ≤ x)
    (hx1 : x ≤ 1) (ha : Jvp (fun _ => x) s a) :
    Jvp (fun r => growthOf (P r) x) s (Dm.growthOf D a) := by
  have hm := logspace_strictMono (lo := -3) (by norm_num) (n := 128) (by norm_num)
  have hpos := growth_table_pos hp (lo := -3) (by norm_num) (n := 128) (by norm_num) default_ratio
  have hgam := h.gamma
  unfold Dm.growthOf
  cases hg : D.gamma with
  | none =>
    rw [hg] at hgam
    have hof : ∀ r y, growthOf (P r) y = clip (interp 128 (logspace (-3) 0 128)
        (growthTableODE (P r) (-3) 128).g y) 0 1 := fun r y => by
      simp only [growthOf, growthTable, hgam r]; rfl
    have hi := Jvp.interp_const (n := 128) (by norm_num) ha
      (fun i _ => jvp_logspace (-3) (by norm_num) i s)
      (fun i hi => (jvp_growthTableODE h hp hi).1) fun i j _ _ h => hm.injective.ne h
    simp only [hof]
    rcases hx1.eq_or_lt with rfl | hx1
    · refine jvp_clip_one hi ?_
      obtain ⟨_, hd, -⟩ := (jvp_growth_solution h hp.esqrPos (le_refl 127)).1
      filter_upwards [hd.continuousAt.eventually_ne (hpos 127 (by norm_num)).1.ne'] with r hr
      exact interp_growth_one (growthTableODE_last (n := 128) hr)
    · have hin := growth_ode_interior hp (hgam s) (by linarith : 0 < x) hx1
      rw [hof] at hin
      exact jvp_clip hi hin.1 hin.2
  | some γ =>
    rw [hg] at hgam
    obtain ⟨g, hγ, hgs⟩ := hgam
    have hof : ∀ r y, growthOf (P r) y = clip (interp 128 (logspace (-3) 0 128)
        (growthTableGamma (P r) (g r) (-3) 128).g y) 0 1 := fun r y => by
      simp only [growthOf, growthTable, hgs r]; rfl
    have hi := Jvp.interp_const (n := 128) (by norm_num) ha
      (fun i _ => jvp_logspace (-3) (by norm_num) i s)
      (fun i hi => jvp_growthTableGamma h hγ hp.m_pos hp.esqrPos hi) fun i j _ _ h => hm.injective.ne h
    simp only [hof]
    rcases hx1.eq_or_lt with rfl | hx1
    · exact jvp_clip_one hi (.of_forall fun r => interp_growth_one
        (growthTableGamma_last (P r) (g r) (-3) 128))
    · have hin := growth_gamma_interior (hgs s) hp.esqrPos hp.m_pos hx0 hx1
      rw [hof] at hin
      exact jvp_clip hi hin.1 hin.2

theorem jvp_growthRateOf (h : Seeded P s D) (hp : Physical (P s)) {x : ℝ} (hx0 : 0 < x)
    (ha : Jvp (fun _ => x) s a) :
    Jvp (fun r => growthRateOf (P r) x) s (Dm.growthRateOf D a) := by
  have hm := logspace_strictMono (lo := -3) (by norm_num) (n := 128) (by norm_num)
  have hgam := h.gamma
  unfold Dm.growthRateOf
  cases hg : D.gamma with
  | none =>
    rw [hg] at hgam
    have hi := Jvp.interp_const (n := 128) (by norm_num) ha
      (fun i _ => jvp_logspace (-3) (by norm_num) i s)
      (fun i hi => (jvp_growthTableODE h hp hi).2) fun i j _ _ h => hm.injective.ne h
    refine hi.congr' fun r => ?_
    simp only [growthRateOf, hgam r]
    rfl
  | some γ =>
    rw [hg] at hgam
    obtain ⟨g, hγ, hgs⟩ := hgam
    refine (jvp_growthRateGamma h hγ hp.m_pos ha hx0
      (C05_Esqr_pos _ _ hx0 hp.m_pos hp.k_nonneg hp.de_nonneg)).congr' fun r => ?_
    simp only [growthRateOf, hgs r]

end JaxCosmo.Spec
