import Verif.Proofs.JvpSpectra
import Verif.Spec.JvpSurvey
import Verif.Props.JvpRedshift
import Verif.Props.JvpPower
import Verif.Props.ClSensitivity

/-! # C124, C125: derivatives of kernels, angular spectra and noise -/

namespace JaxCosmo
open Xr Spec EH

variable {P : ℝ → Params} {v : Params} {θ : ℝ} {T : ℝ → ℝ → ℝ} {TD : Du → Du}

theorem goodBin_pz {s : ℝ} {t : NzTree Leaf} (h : GoodBin s t) :
    NormOK s t ∧ ∀ z, 0 ≤ z → PzGood s t z := by
  cases t with
  | delta => exact h.elim
  | smail a b z0 g zm =>
    obtain ⟨hl, ha, hb, hz, hzm, h1⟩ := h
    exact ⟨⟨hl, fun _ hi => pzGood_smail ha hb hz h1 (linspace_zmax_nonneg hzm hi),
      (smail_OK ha hb hz hzm).norm rfl⟩, fun z h0 => pzGood_smail ha hb hz h1 h0⟩
  | kde cat bw g zm =>
    obtain ⟨hl, hbw, hw, hq, hzm⟩ := h
    have hg : ∀ z, PzGood s (.kde cat bw g zm) z := fun _ => ⟨hbw.ne', hq.ne'⟩
    refine ⟨⟨hl, fun _ _ => hg _, ?_⟩, fun z _ => hg z⟩
    have e1 : nzAt (.kde cat bw g zm) s = .kde (cat.map fun e => (e.1.1 s, e.2.1 s)) bw (g.1 s) zm := rfl
    rw [e1]
    refine (kde_OK hbw (fun e he => ?_) ?_ hzm).norm rfl
    · obtain ⟨q, hq, rfl⟩ := List.mem_map.1 he
      exact hw q hq
    · simpa [Function.comp_def] using hq
  | shift t β g' zm' =>
    cases t with
    | delta => exact h.elim
    | kde => exact h.elim
    | shift => exact h.elim
    | smail a b z0 g zm =>
      obtain ⟨hl, ha, hb, hz, hn⟩ := h
      have key := fun z => pzGood_shift (g := g) (zm := zm) (g' := g') (zm' := zm') hl.2.1 ha hb hz z
      exact ⟨⟨hl, fun _ _ => key _, hn⟩, fun z _ => key z⟩

theorem goodBin_ext {s : ℝ} {t : NzTree Leaf} (h : GoodBin s t) : t.isDelta = false := by
  cases t with
  | delta => exact h.elim
  | smail => rfl
  | kde => rfl
  | shift => rfl

theorem far_ne_one {p : Params} (hp : Physical p) {z : ℝ} (hz : z = 0 ∨ 1 / 799 ≤ z) : chiOf p (z2a z) ≠ 1 := by
  refine chi_ne_one hp ?_
  rcases hz with rfl | hz
  · left; norm_num [z2a]
  · right
    have := one_div_le_one_div_of_le (by norm_num) (by linarith : 1 + 1 / 799 ≤ 1 + z)
    unfold z2a
    norm_num at this ⊢
    linarith

theorem ray_far {z zp : ℝ} (hz : z = 0 ∨ 1 / 799 ≤ z) (hzp : 1 / 3 ≤ zp) {j : ℕ} (hj : j ≤ 256) :
    linspace z zp 257 j = 0 ∨ 1 / 799 ≤ linspace z zp 257 j := by
  have hj' : (j : ℝ) ≤ 256 := by exact_mod_cast hj
  have hj0 : (0 : ℝ) ≤ j := Nat.cast_nonneg j
  rw [show (257 : ℕ) = 256 + 1 from rfl, linspace_succ]
  push_cast
  rcases hz with rfl | hz
  · rcases Nat.eq_zero_or_pos j with rfl | hj1
    · left; simp
    · right
      have hj1' : (1 : ℝ) ≤ j := by exact_mod_cast hj1
      nlinarith
  · right
    nlinarith

theorem lensPoint_of_good {s : ℝ} {p : Params} (hp : Physical p) {z zp : ℝ} (hz : z = 0 ∨ 1 / 799 ≤ z)
    (hzp : 1 / 3 ≤ zp) {t : NzTree Leaf} (h : GoodBin s t ∨ GoodPlane t) : LensPoint s p zp z t := by
  have hz0 : 0 ≤ z := by rcases hz with rfl | hz <;> linarith
  rcases h with h | h
  · obtain ⟨h1, h2⟩ := goodBin_pz h
    have key : ExtPoint s p zp z t := ⟨h1, h2 z hz0,
      fun j hj => h2 _ (linspace_nonneg hz0 (by linarith) (by norm_num) (by omega)),
      fun j hj => far_ne_one hp (ray_far hz hzp hj)⟩
    have hd := goodBin_ext h
    cases t with
    | delta => simp [NzTree.isDelta] at hd
    | smail => exact key
    | kde => exact key
    | shift => exact key
  · cases t with
    | smail => exact h.elim
    | kde => exact h.elim
    | shift => exact h.elim
    | delta z0 g zm =>
      obtain ⟨c, hc, hc0⟩ := h
      subst hc
      exact ⟨Jvp.con c s, by change 0 ≤ c; linarith, far_ne_one hp (.inr hc0), .inl ⟨c, rfl⟩⟩

theorem countPoint_of_good {s : ℝ} {z : ℝ} (hz : 0 ≤ z) {t : NzTree Leaf} (h : GoodBin s t ∨ GoodPlane t) :
    CountPoint s z t := fun hd => by
  rcases h with h | h
  · exact ⟨(goodBin_pz h).1, (goodBin_pz h).2 z hz⟩
  · cases t with
    | delta => simp [NzTree.isDelta] at hd
    | smail => exact h.elim
    | kde => exact h.elim
    | shift => exact h.elim

theorem valPoint_of_good {s : ℝ} {v : ValTree Leaf} (h : GoodVal s v) : ValPoint s v := by
  obtain ⟨h1, h2⟩ := h
  refine ⟨h1, ?_⟩
  have hb : ∀ b : BiasTree Leaf, GoodBias s b → BiasPoint s b := fun b hb => by cases b <;> exact hb
  cases v with
  | bias b => exact hb b h2
  | biases bs => exact fun b hm => hb b (h2 b hm)
  | _ => trivial

theorem probePoint_of_good {s : ℝ} {p : Params} (hp : Physical p) {z : ℝ} (hz : z = 0 ∨ 1 / 799 ≤ z)
    {t : ProbeTree Leaf} (h : GoodProbe s t) : ProbePoint s p z t := by
  have hz0 : 0 ≤ z := by rcases hz with rfl | hz <;> linarith
  cases t with
  | nc bins b rsd => exact ⟨valPoint_of_good h.1, fun t ht => countPoint_of_good hz0 (h.2 t ht)⟩
  | wl bins p1 p2 se ia =>
    obtain ⟨h1, h2, h3, h4⟩ := h
    exact ⟨h1, fun zp hm => ⟨by linarith [h3 zp hm], fun t ht => lensPoint_of_good hp hz (h3 zp hm) (h2 t ht)⟩,
      fun hia v hv => ⟨valPoint_of_good (h4 hia v hv), fun t ht => countPoint_of_good hz0 (h2 t ht)⟩⟩

/-- C124: the derivative of the kernel of a probe with respect to every cosmological parameter and every
parameter of the probe is exact, and the same error is raised with and without differentiation. -/
theorem C124_kernel (h : Along P v θ) (hp : Physical (P θ)) {t : ProbeTree Leaf} (ht : GoodProbe θ t) {z : ℝ}
    (hz : z = 0 ∨ 1 / 799 ≤ z) (hz9 : z ≤ 899) {ell : ℝ} (hl : 1 ≤ ell ∨ ell = 0) :
    JvpE (JvpList θ) (fun r => (probeAt t r).kernel (P r) z ell)
      (Dm.kernel (probeDual t) (seedParams (P θ) v) (Du.con z) (Du.con ell)) :=
  jvp_kernel (seeded_of_along h) hp (by rcases hz with rfl | hz <;> linarith) hz9 hl
    (probePoint_of_good hp hz ht)

/-- C124: a source plane may move too, off the points of the distance table and off the redshift at which
the kernel is taken. -/
theorem C124_plane (h : Along P v θ) (hp : Physical (P θ)) {z0 g : Leaf} {zm : ℝ} (h0 : z0.OK θ) {z : ℝ}
    (hz : 0 ≤ z) (hz0 : 1 / 799 ≤ z0.1 θ) (hzm : 0 ≤ zm) (hne : z0.1 θ ≠ z)
    (hoff : ∀ i < 256, z2a (z0.1 θ) ≠ logspace (-3) 0 256 i) {ell : ℝ} (hl : 1 ≤ ell ∨ ell = 0) :
    JvpE (JvpList θ) (fun r => weakLensingKernel (P r) [.delta (z0.1 r) (g.1 r) zm] z ell)
      (Dm.weakLensingKernel (seedParams (P θ) v) [.delta z0.2 g.2 zm] (Du.con z) (Du.con ell)) :=
  jvp_weakLensingKernel (seeded_of_along h) hp.esqrPos (bins := [.delta z0 g zm]) hz (fun zp hm => by
    have : zp = zm := by
      have e : pyMax ([NzTree.delta z0 g zm].map NzTree.zmax) = .ok zm := rfl
      rw [e] at hm
      exact (Except.ok.inj hm).symm
    subst this
    refine ⟨hzm, fun t ht => ?_⟩
    rw [List.mem_singleton.1 ht]
    exact ⟨h0, by linarith, far_ne_one hp (.inr hz0), .inr ⟨hne, hoff⟩⟩) hl

/-- The scale factors at which the spectra are integrated. -/
theorem limber_far {zm : ℝ} (h2 : 2 ≤ zm) {i : ℕ} (hi : i ≤ 512) :
    linspace (z2a zm) 1 513 i = 1 ∨ linspace (z2a zm) 1 513 i ≤ 1 - 1 / 800 := by
  have hu : z2a zm ≤ 1 / 3 := one_div_le_one_div_of_le (by norm_num) (by linarith)
  rw [show (513 : ℕ) = 512 + 1 from rfl, linspace_succ]
  generalize z2a zm = u at *
  rcases hi.eq_or_lt with rfl | hi
  · left; push_cast; ring
  · right
    have hi' : (i : ℝ) ≤ 511 := by exact_mod_cast (by omega : i ≤ 511)
    push_cast
    nlinarith

theorem surveyPoint_of_good (hp : Physical (P θ)) {D : DParams} {probes : List (ProbeTree Leaf)}
    (ht : ∀ t ∈ probes, GoodProbe θ t) {nl : Params → ℝ → ℝ → (ℝ → ℝ) → Except PyErr ℝ}
    {nlD : DParams → Du → Du → (Du → Du) → Except PyErr Du} {zm : ℝ} (hm : treeZmax probes = .ok zm)
    (h2 : 2 ≤ zm) (h9 : zm ≤ 899)
    (hs : ∀ i ≤ 512, SpectrumJvp θ P D T TD nl nlD (linspace (z2a zm) 1 513 i)) :
    SurveyPoint θ P D T TD nl nlD probes := by
  refine ⟨hp, fun zm' hm' => ?_⟩
  rw [hm] at hm'
  obtain rfl := Except.ok.inj hm'
  refine ⟨by linarith, h9, fun i hi => ⟨chi_ne_one hp (limber_far h2 hi), hs i hi, fun t htp => ?_⟩⟩
  refine probePoint_of_good hp ?_ (ht t htp)
  have hpos : 0 < linspace (z2a zm) 1 513 i := by
    have := linspace_lo (z2a_mem (by linarith : 0 ≤ zm)).2 (N := 512) (by norm_num) i
    exact lt_of_lt_of_le (z2a_mem (by linarith : 0 ≤ zm)).1 this
  rcases limber_far h2 hi with e | e
  · left; rw [e]; norm_num [a2z]
  · right
    have := one_div_le_one_div_of_le hpos e
    unfold a2z
    norm_num at this ⊢
    linarith

/-- C125: with the linear power spectrum, the derivative of every angular spectrum with respect to every
cosmological parameter and every parameter of every probe is exact. -/
theorem C125_linear (h : Along P v θ) (hp : Physical (P θ)) (hT : TransferJvp θ T TD)
    (hn : T θ (Real.exp (-4)) ≠ 0) {probes : List (ProbeTree Leaf)} (ht : ∀ t ∈ probes, GoodProbe θ t)
    {zm : ℝ} (hm : treeZmax probes = .ok zm) (h2 : 2 ≤ zm) (h9 : zm ≤ 899) {ells : List ℝ}
    (hl : ∀ ell ∈ ells, 1 ≤ ell ∨ ell = 0) :
    JvpE (JvpTable θ) (fun r => angularCl (P r) ells (probes.map fun t => probeAt t r) (T r) linear)
      (Dm.angularCl (seedParams (P θ) v) (ells.map Du.con) (probes.map probeDual) TD Dm.linear) := by
  have hs := seeded_of_along h
  have hz : 0 ≤ zm := by linarith
  refine jvp_angularCl hs (surveyPoint_of_good hp ht hm h2 h9 fun i hi => ?_) hl
  refine spectrumJvp_linear hs hT ⟨hp, hn, ?_, ?_⟩
  · refine le_trans ?_ (linspace_lo (z2a_mem hz).2 (N := 512) (by norm_num) i)
    unfold z2a
    exact one_div_le_one_div_of_le (by linarith) (by linarith)
  · exact linspace_le (z2a_mem hz).2 le_rfl (by norm_num) (show i < 512 + 1 by omega)

/-- C125: the same with the default non-linear power spectrum, when its derivative is exact at the scale
factors at which the spectra are integrated (`C122`). -/
theorem C125_halofit_partial (h : Along P v θ) (hp : Physical (P θ)) (hT : TransferJvp θ T TD)
    {probes : List (ProbeTree Leaf)} (ht : ∀ t ∈ probes, GoodProbe θ t)
    {zm : ℝ} (hm : treeZmax probes = .ok zm) (h2 : 2 ≤ zm) (h9 : zm ≤ 899)
    (hpt : ∀ i ≤ 512, HalofitPoint (P θ) (T θ) (linspace (z2a zm) 1 513 i))
    (hα : ∀ i ≤ 512, 6.0835 + 1.3373 * Halofit.n_eff (P θ) (T θ) (linspace (z2a zm) 1 513 i)
      - 0.1959 * Halofit.n_eff (P θ) (T θ) (linspace (z2a zm) 1 513 i) ^ 2
      - 5.5274 * Halofit.curv (P θ) (T θ) (linspace (z2a zm) 1 513 i) ≠ 0) {ells : List ℝ}
    (hl : ∀ ell ∈ ells, 1 ≤ ell ∨ ell = 0) :
    JvpE (JvpTable θ) (fun r => angularCl (P r) ells (probes.map fun t => probeAt t r) (T r))
      (Dm.angularCl (seedParams (P θ) v) (ells.map Du.con) (probes.map probeDual) TD
        fun p k a T => Dm.halofit p k a T) :=
  jvp_angularCl (seeded_of_along h) (surveyPoint_of_good hp ht hm h2 h9 fun i hi =>
    spectrumJvp_takahashi (seeded_of_along h) hT (hpt i hi) (hα i hi)) hl

/-- C125: the derivative of the noise spectra with respect to the galaxy densities is exact. -/
theorem C125_noise {probes : List (ProbeTree Leaf)} (hg : ∀ t ∈ probes, GoodCounts θ t) (ells : List ℝ) :
    JvpE (JvpTable θ) (fun r => noiseCl ells (probes.map fun t => probeAt t r))
      (Dm.noiseCl (ells.map Du.con) (probes.map probeDual)) :=
  jvp_noiseCl hg ells

/-! ## Exponents below one -/

theorem smail_tan_nan {a b z0 zm : ℝ} (g : Du) (ha : 0 < a) (hb : 0 < b) (hb1 : b < 1) (hz0 : 0 < z0)
    (v : ℝ) (x : Du) :
    (Dm.nzEval (.smail (Du.con a) (Du.con b) ⟨fin z0, some (fin v)⟩ g zm) x).tan = some nan := by
  refine nzEval_tan_nan rfl ?_ _
  change (Dm.pzFn _ (Du.con (linspace 0 zm 257 0))).tan = _
  rw [linspace_zmax_zero]
  have hq : (Du.con 0 / ⟨fin z0, some (fin v)⟩ : Du).val = fin 0 := by
    change fin 0 / fin z0 = _
    rw [div_fin _ hz0.ne', zero_div]
  refine pow_tangent_nan (c := 0) hb hb1 ?_ hq ?_
  · change (fin 0).rpow (fin a) = _
    rw [rpow_fin_zero ha, Real.zero_rpow ha.ne']
  · change some (-fin v * fin 0 * ninvpow (fin z0) 2) = _
    rw [ninvpow_fin hz0.ne', neg_fin, mul_fin, mul_fin, mul_zero, zero_mul]

/-- A clustering probe with one Smail bin, its scale differentiated. -/
def scaledBin (a b z0 v : ℝ) (g β : Du) (zm : ℝ) (rsd : Bool) : ProbeTree Du :=
  .nc [.smail (Du.con a) (Du.con b) ⟨fin z0, some (fin v)⟩ g zm] (.bias (.constant β)) rsd

/-- C124: for a clustering probe with one Smail bin of exponent below one, the derivative of the kernel
with respect to the scale of the bin comes out as NaN at every redshift, although the derivative exists
(`C123_refuted`). -/
theorem C124_refuted {a b z0 : ℝ} (zm : ℝ) (g β : Du) (ha : 0 < a) (hb : 0 < b) (hb1 : b < 1) (hz0 : 0 < z0)
    (v : ℝ) (D : DParams) (hD : D.gamma = none) (rsd : Bool) (z ell : Du) :
    ∃ x : Du, Dm.kernel (scaledBin a b z0 v g β zm rsd) D z ell = .ok [x] ∧ x.tan = some nan := by
  have hj : Dm.jitCosmo D = .ok D := by simp [Dm.jitCosmo, hD]
  refine ⟨1 * 1 * (Dm.nzEval (.smail (Du.con a) (Du.con b) ⟨fin z0, some (fin v)⟩ g zm) z * (β * 1)
    * Dm.H D (Dm.z2a z)), ?_, ?_⟩
  · change (Dm.jitCosmo D >>= _) = _
    rw [hj]
    rfl
  · exact mul_tan_nan_right _ (mul_tan_nan_left _ (mul_tan_nan_left _ (smail_tan_nan g ha hb hb1 hz0 v z)))

theorem du_sum_congr {n : ℕ} {f g : ℕ → Du} (h : ∀ i < n, f i = g i) : Du.sum n f = Du.sum n g := by
  induction n with
  | zero => rfl
  | succ n ih =>
    change Du.sum n f + f n = Du.sum n g + g n
    rw [ih fun i hi => h i (by omega), h n (by omega)]

theorem simpsE_single {f : Du → Except PyErr (List Du)} {g : Du → Du} (h : ∀ x, f x = .ok [g x]) (a b : Du)
    {N : ℕ} (hN : N % 2 = 0) :
    Dm.simpsE f a b N = .ok [(b - a) / Du.con (N : ℝ) / 3 * Du.sum (N / 2) fun i =>
      g (Dm.linspace a b (N + 1) (2 * i)) + 4 * g (Dm.linspace a b (N + 1) (2 * i + 1))
        + g (Dm.linspace a b (N + 1) (2 * i + 2))] := by
  unfold Dm.simpsE
  have e : ((List.range (N + 1)).mapM fun i => f (Dm.linspace a b (N + 1) i))
      = .ok ((List.range (N + 1)).map fun i => [g (Dm.linspace a b (N + 1) i)]) := mapM_ok_of fun i _ => h _
  have hb : ∀ {α β : Type} (x : α) (f : α → Except PyErr β), (Except.ok x >>= f) = f x := fun _ _ => rfl
  have hl : (((List.range (N + 1)).map fun i => [g (Dm.linspace a b (N + 1) i)]).headD []).length = 1 := by
    rw [List.range_succ_eq_map]; rfl
  rw [if_neg (by omega)]
  simp only [hb, e, pure, Except.pure]
  rw [hl]
  have hy : ∀ i ≤ N, ((((List.range (N + 1)).map fun i => [g (Dm.linspace a b (N + 1) i)]).getD i []).getD 0 0)
      = g (Dm.linspace a b (N + 1) i) := fun i hi => by
    have : i < N + 1 := by omega
    simp [this]
  simp only [List.range_one, List.map_cons, List.map_nil]
  refine congrArg (fun x => Except.ok [_ * x]) (du_sum_congr fun i hi => ?_)
  rw [hy _ (by omega), hy _ (by omega), hy _ (by omega)]

/-- C125: for such a probe the derivative of the angular power spectrum with respect to the scale of the
bin comes out as NaN at every multipole, whatever the cosmology, the bias and the power spectrum. -/
theorem C125_refuted {a b z0 : ℝ} (zm : ℝ) (g β : Du) (ha : 0 < a) (hb : 0 < b) (hb1 : b < 1) (hz0 : 0 < z0)
    (v : ℝ) (D : DParams) (hD : D.gamma = none) (rsd : Bool) (TD : Du → Du)
    {nlD : DParams → Du → Du → (Du → Du) → Except PyErr Du} (hnl : ∀ k a, ∃ x, nlD D k a TD = .ok x)
    (ells : List Du) :
    ∃ row : List Du, Dm.angularCl D ells [scaledBin a b z0 v g β zm rsd] TD nlD = .ok [row] ∧
      row.length = ells.length ∧ ∀ x ∈ row, x.tangent = nan := by
  have hk := C124_refuted zm g β ha hb hb1 hz0 v D hD rsd
  have hm : Dm.probesZmax [scaledBin a b z0 v g β zm rsd] = .ok zm := rfl
  have hlen : (Dm.getClOrdering [scaledBin a b z0 v g β zm rsd]) = [(0, 0)] := rfl
  generalize scaledBin a b z0 v g β zm rsd = t at *
  have hb : ∀ {α β : Type} (x : α) (f : α → Except PyErr β), (Except.ok x >>= f) = f x := fun _ _ => rfl
  have hi : ∀ ell x, ∃ y : Du, Dm.clIntegrand D TD nlD [t] ell x = .ok [y] ∧ y.tan = some nan := by
    intro ell x
    obtain ⟨k, hk, hkn⟩ := hk (Dm.a2z x) ell
    obtain ⟨q, hq⟩ := hnl ((ell + 0.5) / (Dm.chiOf D x).max 1) x
    refine ⟨q * (k * k) * Dm.dchioverda D x / (Dm.chiOf D x ^ 2).max 1, ?_,
      div_tan_nan_left _ (mul_tan_nan_left _ (mul_tan_nan_right _ (mul_tan_nan_left _ hkn)))⟩
    unfold Dm.clIntegrand
    have e : ([t].mapM fun pr => Dm.kernel pr D (Dm.a2z x) ell) = .ok [[k]] :=
      mapM_ok_iff.2 (List.Forall₂.cons hk .nil)
    simp only [hq, hb, e, hlen, pure, Except.pure, List.map_cons, List.map_nil]
    rfl
  have hc : ∀ ell, ∃ y : Du, Dm.clAt D TD nlD [t] ell = .ok [y] ∧ y.tan = some nan := by
    intro ell
    choose g hg hgn using hi ell
    have e := simpsE_single hg (Dm.z2a (Du.con zm)) 1 (N := 512) (by norm_num)
    obtain ⟨x, hx, hxn⟩ : ∃ x : Du, Dm.simpsE (Dm.clIntegrand D TD nlD [t] ell) (Dm.z2a (Du.con zm)) 1 512
        = .ok [x] ∧ x.tan = some nan := ⟨_, e, mul_tan_nan_right _
      (sum_tan_nan (i := 0) (by norm_num) (add_tan_nan_left _ (add_tan_nan_left _ (hgn _))))⟩
    refine ⟨x / Du.con const_c ^ 2, ?_, div_tan_nan_left _ hxn⟩
    unfold Dm.clAt
    rw [hm]
    simp only [hb, hx, pure, Except.pure, List.map_cons, List.map_nil]
  choose y hy hyn using hc
  refine ⟨ells.map y, ?_, by simp, fun x hx => ?_⟩
  · unfold Dm.angularCl
    have e : ells.mapM (Dm.clAt D TD nlD [t]) = .ok (ells.map fun l => [y l]) :=
      mapM_ok_of fun l _ => hy l
    simp only [hb, e, hlen, pure, Except.pure]
    simp
  · obtain ⟨l, -, rfl⟩ := List.mem_map.1 hx
    rw [Du.tangent, hyn]; rfl

open Topology in
/-- With little enough amplitude the non-linear scale is at its floor, away from every tie. -/
theorem faint_halofit {p : Params} {T : ℝ → ℝ} {a : ℝ} (hp : PowerPoint p T a) (hT : T 1e-4 ≠ 0)
    (h8 : p.sigma8 ≠ 0) (hg : growthOf p a ≠ 0) :
    ∀ᶠ s in 𝓝[>] (0 : ℝ), HalofitPoint { p with sigma8 := s * p.sigma8 } T a ∧
      6.0835 + 1.3373 * Halofit.n_eff { p with sigma8 := s * p.sigma8 } T a
      - 0.1959 * Halofit.n_eff { p with sigma8 := s * p.sigma8 } T a ^ 2
      - 5.5274 * Halofit.curv { p with sigma8 := s * p.sigma8 } T a ≠ 0 := by
  have hOK : PowerOK p (fun y => match y with | .fin k => fin (T k) | _ => nan) T a :=
    ⟨hp.phys, fun _ _ => rfl, hp.norm, hT, h8, hg⟩
  have hdec : Decreasing 256 (Halofit.sigma p T a) := fun i j hij _ => sigma_decreasing' hOK hij
  have h01 := sigma_decreasing' hOK (show 0 < 1 by norm_num)
  set S := Halofit.sigma p T a with hS
  have hd := logrStep_pos
  -- the integrals at the floor
  obtain ⟨A, hA⟩ : ∃ A, simpsBody (fun logk => 2 * (linearMatterPower p T (Real.exp logk) * Real.exp logk ^ 3
      * Real.exp (-((Real.exp logk * 1e-6) ^ 2)) * growthOf p a ^ 2 / (2 * Real.pi ^ 2))
      * (Real.exp logk * 1e-6) ^ 2) (Real.log 1e-4) (Real.log 1e4) 256 = A := ⟨_, rfl⟩
  obtain ⟨B, hB⟩ : ∃ B, simpsBody (fun logk => 4 * (linearMatterPower p T (Real.exp logk) * Real.exp logk ^ 3
      * Real.exp (-((Real.exp logk * 1e-6) ^ 2)) * growthOf p a ^ 2 / (2 * Real.pi ^ 2))
      * ((Real.exp logk * 1e-6) ^ 2 - (Real.exp logk * 1e-6) ^ 4)) (Real.log 1e-4) (Real.log 1e4) 256 = B :=
    ⟨_, rfl⟩
  have e1 : ∀ᶠ s in 𝓝 (0 : ℝ), s ^ 2 * S 0 < 1 :=
    (Continuous.tendsto (by fun_prop : Continuous fun s : ℝ => s ^ 2 * S 0) 0).eventually
      (gt_mem_nhds (by norm_num))
  have e2 : ∀ᶠ s in 𝓝 (0 : ℝ), s ^ 2 * (S 0 * logrStep + (S 0 - S 1) * Real.log 1000) < logrStep :=
    (Continuous.tendsto (by fun_prop : Continuous fun s : ℝ =>
      s ^ 2 * (S 0 * logrStep + (S 0 - S 1) * Real.log 1000)) 0).eventually (gt_mem_nhds (by simpa using hd))
  have e3 : ∀ᶠ s in 𝓝 (0 : ℝ), 0 < 6.0835 + 1.3373 * (s ^ 2 * A - 3) - 0.1959 * (s ^ 2 * A - 3) ^ 2
      - 5.5274 * ((s ^ 2 * A) ^ 2 + s ^ 2 * B) :=
    (Continuous.tendsto (by fun_prop : Continuous fun s : ℝ =>
      6.0835 + 1.3373 * (s ^ 2 * A - 3) - 0.1959 * (s ^ 2 * A - 3) ^ 2
      - 5.5274 * ((s ^ 2 * A) ^ 2 + s ^ 2 * B)) 0).eventually (lt_mem_nhds (by norm_num))
  filter_upwards [nhdsWithin_le_nhds e1, nhdsWithin_le_nhds e2, nhdsWithin_le_nhds e3, self_mem_nhdsWithin]
    with s h1 h2 h3 hs
  have hs0 : 0 < s := hs
  have hs2 : 0 < s ^ 2 := by positivity
  have hσ : Halofit.sigma { p with sigma8 := s * p.sigma8 } T a = fun i => s ^ 2 * S i :=
    funext fun i => sigma_sigma8 p T a s i
  have hdec' : Decreasing 256 (fun i => s ^ 2 * S i) := fun i j hij hj =>
    mul_lt_mul_of_pos_left (hdec i j hij hj) hs2
  have hlt : ∀ i, s ^ 2 * S i < 1 := fun i => by
    rcases Nat.eq_zero_or_pos i with rfl | hi
    · exact h1
    · exact (mul_lt_mul_of_pos_left (sigma_decreasing' hOK hi) hs2).trans h1
  have hroot : Real.exp (interp 256 (fun i => s ^ 2 * S i) Halofit.logr 1) ≤ 1e-7 := by
    have hn := nearest_le_of_le_dec hdec' (k := 0) (x := 1) (by norm_num) (hlt 0).le
    rw [interp_dec (by norm_num) hdec']
    have : nearestIn 256 (fun i => s ^ 2 * S i) 1 = 1 := by unfold nearestIn; omega
    rw [this, if_neg (by norm_num), ← Real.le_log_iff_exp_le (by norm_num)]
    unfold chord
    simp only [logr_eq]
    have hl : Real.log 1e-7 = Real.log 1e-4 - Real.log 1000 := by
      rw [← Real.log_div (by norm_num) (by norm_num)]; norm_num
    have hv := mul_lt_mul_of_pos_left h01 hs2
    have hq : logrStep * ((1 - s ^ 2 * S 0) / (s ^ 2 * S 1 - s ^ 2 * S 0)) ≤ -Real.log 1000 := by
      rw [mul_div_assoc', div_le_iff_of_neg (by linarith)]
      linarith
    rw [hl]
    push_cast
    rw [show Real.log 1e-4 + 1 * logrStep - (Real.log 1e-4 + 0 * logrStep) = logrStep by ring]
    linarith
  have hR : Halofit.R_nl { p with sigma8 := s * p.sigma8 } T a = 1e-6 := by
    unfold Halofit.R_nl
    simp only [clipLo]
    rw [hσ, max_eq_right]
    norm_num at hroot ⊢
    linarith
  have hk : 1 / Halofit.k_nl { p with sigma8 := s * p.sigma8 } T a = 1e-6 := by
    unfold Halofit.k_nl; rw [one_div_one_div, hR]
  have hA' : Halofit.res0 { p with sigma8 := s * p.sigma8 } T a = s ^ 2 * A := by
    rw [← hA, ← simpsBody_smul]
    unfold Halofit.res0 Halofit.res
    simp only [hk, C40_sigma8, show growthOf { p with sigma8 := s * p.sigma8 } a = growthOf p a from rfl]
    congr 1
    funext t
    ring
  have hB' : Halofit.res1 { p with sigma8 := s * p.sigma8 } T a = s ^ 2 * B := by
    rw [← hB, ← simpsBody_smul]
    unfold Halofit.res1 Halofit.res
    simp only [hk, C40_sigma8, show growthOf { p with sigma8 := s * p.sigma8 } a = growthOf p a from rfl]
    congr 1
    funext t
    ring
  refine ⟨⟨⟨⟨hp.phys.m_pos, hp.phys.k_nonneg, hp.phys.de_nonneg, hp.phys.w_range⟩, hp.norm, hp.early, hp.late⟩,
    hT, mul_ne_zero hs0.ne' h8, hg, fun j _ => ?_, ?_⟩, ?_⟩
  · rw [hσ]
    have := hlt j
    have := hlt (j + 1)
    intro h
    simp only at h
    linarith
  · rw [hσ]
    intro h
    rw [h] at hroot
    norm_num at hroot
  · unfold Halofit.n_eff Halofit.curv
    rw [hA', hB']
    exact h3.ne'

/-! ## Witnesses -/

/-- A tomographic survey: two lensing bins (one a plane) with a calibration bias, intrinsic alignments off;
one clustering bin with a bias.  The scale of a bin, the calibration, the galaxy bias and a galaxy density
are differentiated. -/
noncomputable def twoProbes : List (ProbeTree Leaf) :=
  [.wl [.smail (.con 2) (.con 1.5) (.var 0.3 1) (.con 10) 3, .delta (.con 1) (.con 5) 3] (.num (.var 0 1)) none (.num 0.26)
     false,
   .nc [.smail (.con 2) (.con 1.5) (.var 0.2 (-1)) (.var 10 1) 3] (.bias (.constant (.var 1 2))) false]

theorem twoProbes_good : ∀ t ∈ twoProbes, GoodProbe 0 t := by
  have hs : ∀ (z v : ℝ) (g : Leaf), 0 < z → g.OK 0 →
      GoodBin 0 (.smail (.con 2) (.con 1.5) (.var z v) g 3) := fun z v g hz hg =>
    ⟨⟨Jvp.con 2 0, Jvp.con 1.5 0, Leaf.var_OK z v, hg⟩, by norm_num [Leaf.con], by norm_num [Leaf.con],
      by simpa [Leaf.var] using hz, by norm_num, .inl (by norm_num [Leaf.con])⟩
  intro t ht
  simp only [twoProbes, List.mem_cons, List.not_mem_nil, or_false] at ht
  rcases ht with rfl | rfl
  · refine ⟨Leaf.var_OK 0 1, fun b hb => ?_, fun zp hm => ?_, fun h => by simp at h⟩
    · simp only [List.mem_cons, List.not_mem_nil, or_false] at hb
      rcases hb with rfl | rfl
      · exact .inl (hs 0.3 1 _ (by norm_num) (Jvp.con 10 0))
      · exact .inr ⟨1, rfl, by norm_num⟩
    · have e : pyMax ([NzTree.smail (Leaf.con 2) (.con 1.5) (.var 0.3 1) (.con 10) 3,
          .delta (.con 1) (.con 5) 3].map NzTree.zmax) = .ok (Max.max 3 3) := rfl
      rw [e] at hm
      rw [← Except.ok.inj hm]
      norm_num
  · refine ⟨⟨Leaf.var_OK 1 2, trivial⟩, fun b hb => ?_⟩
    rw [List.mem_singleton.1 hb]
    exact .inl (hs 0.2 (-1) _ (by norm_num) (Leaf.var_OK 10 1))

theorem twoProbes_zmax : treeZmax twoProbes = .ok 3 := by
  have e : treeZmax twoProbes = .ok (Max.max (Max.max 3 3) 3) := rfl
  rw [e]; norm_num

/-- Witness for `C124_kernel`: cosmology and survey changing together. -/
example (t : ProbeTree Leaf) (ht : t ∈ twoProbes) :
    JvpE (JvpList 0) (fun r => (probeAt t r).kernel (shifted Planck15 allTogether r) 0.5 100)
      (Dm.kernel (probeDual t) (seedParams (shifted Planck15 allTogether 0) allTogether) (Du.con 0.5)
        (Du.con 100)) :=
  C124_kernel planck_line (by rw [planck_line_zero]; exact planck_physical) (twoProbes_good t ht)
    (.inr (by norm_num)) (by norm_num) (.inl (by norm_num))

/-- Witness for `C125_linear`. -/
example : JvpE (JvpTable 0) (fun r => angularCl (shifted Planck15 allTogether r) [10, 100]
      (twoProbes.map fun t => probeAt t r) (wiggle (shifted Planck15 allTogether r)) linear)
    (Dm.angularCl (seedParams (shifted Planck15 allTogether 0) allTogether) ([10, 100].map Du.con)
      (twoProbes.map probeDual) (Dm.EH.wiggle (seedParams (shifted Planck15 allTogether 0) allTogether))
      Dm.linear) :=
  C125_linear planck_line (by rw [planck_line_zero]; exact planck_physical)
    (transferJvp_oscillating planck_line planck_line_baryonic) (by rw [planck_line_zero]; exact C113_planck.1.ne')
    twoProbes_good twoProbes_zmax (by norm_num) (by norm_num) (fun ell h => by
      simp only [List.mem_cons, List.not_mem_nil, or_false] at h
      rcases h with rfl | rfl <;> norm_num)

/-- The cosmology of the halofit witnesses: Planck with amplitude `σ`, all parameters moving. -/
noncomputable abbrev faintLine (σ : ℝ) : ℝ → Params := shifted { Planck15 with sigma8 := σ } allTogether

/-- For some amplitude the conditions of C122 hold at all nodes of the Limber integral of `twoProbes`. -/
theorem faint_survey : ∃ σ, 0 < σ ∧ Along (faintLine σ) allTogether 0 ∧ Physical (faintLine σ 0) ∧
    TransferJvp 0 (fun r => nowiggle (faintLine σ r)) (Dm.EH.nowiggle (seedParams (faintLine σ 0) allTogether)) ∧
    (∀ i ≤ 512, HalofitPoint (faintLine σ 0) (nowiggle (faintLine σ 0)) (linspace (z2a 3) 1 513 i)) ∧
    ∀ i ≤ 512, 6.0835 + 1.3373 * Halofit.n_eff (faintLine σ 0) (nowiggle (faintLine σ 0)) (linspace (z2a 3) 1 513 i)
      - 0.1959 * Halofit.n_eff (faintLine σ 0) (nowiggle (faintLine σ 0)) (linspace (z2a 3) 1 513 i) ^ 2
      - 5.5274 * Halofit.curv (faintLine σ 0) (nowiggle (faintLine σ 0)) (linspace (z2a 3) 1 513 i) ≠ 0 := by
  have hT : ∀ k, 0 < k → nowiggle Planck15 k ≠ 0 := fun k hk => (planck_nowiggle_range hk.le).1.ne'
  have hlo : ∀ i, (1 : ℝ) / 900 ≤ linspace (z2a 3) 1 513 i := fun i =>
    le_trans (by norm_num [z2a]) (linspace_lo (z2a_mem (by norm_num : (0 : ℝ) ≤ 3)).2 (N := 512) (by norm_num) i)
  have key : ∀ᶠ s in nhdsWithin (0 : ℝ) (Set.Ioi 0), ∀ i ∈ Finset.range 513,
      HalofitPoint { Planck15 with sigma8 := s * Planck15.sigma8 } (nowiggle Planck15) (linspace (z2a 3) 1 513 i) ∧
      6.0835 + 1.3373 * Halofit.n_eff { Planck15 with sigma8 := s * Planck15.sigma8 } (nowiggle Planck15)
          (linspace (z2a 3) 1 513 i)
      - 0.1959 * Halofit.n_eff { Planck15 with sigma8 := s * Planck15.sigma8 } (nowiggle Planck15)
          (linspace (z2a 3) 1 513 i) ^ 2
      - 5.5274 * Halofit.curv { Planck15 with sigma8 := s * Planck15.sigma8 } (nowiggle Planck15)
          (linspace (z2a 3) 1 513 i) ≠ 0 := by
    rw [Filter.eventually_all_finset]
    intro i hi
    have hi' : i < 512 + 1 := Finset.mem_range.1 hi
    have hle : linspace (z2a (3 : ℝ)) 1 513 i ≤ 1 :=
      linspace_le (z2a_mem (by norm_num : (0 : ℝ) ≤ 3)).2 le_rfl (by norm_num) hi'
    exact faint_halofit ⟨planck_physical, hT _ (Real.exp_pos _), hlo i, hle⟩ (hT _ (by norm_num))
      (by norm_num [Planck15]) (C10_pos_ode Planck15 planck_physical rfl (hlo i)).ne'
  obtain ⟨s, hk, hs⟩ := (key.and self_mem_nhdsWithin).exists
  have hs0 : 0 < s := hs
  have h8 : 0 < s * Planck15.sigma8 := mul_pos hs0 (by norm_num [Planck15])
  generalize s * Planck15.sigma8 = σ at *
  have hz : faintLine σ 0 = { Planck15 with sigma8 := σ } :=
    shifted_zero _ _ rfl
  have hl : Along (faintLine σ) allTogether 0 := shifted_along _ allTogether rfl
  have eT : nowiggle { Planck15 with sigma8 := σ } = nowiggle Planck15 := rfl
  refine ⟨σ, h8, hl, by rw [hz]; exact ⟨planck_physical.m_pos, planck_physical.k_nonneg,
      planck_physical.de_nonneg, planck_physical.w_range⟩,
    transferJvp_smooth hl (by rw [hz]; exact ⟨planck_baryonic.b_pos, planck_baryonic.c_pos, planck_baryonic.h_pos⟩)
      (by rw [hz]; exact planck_alpha.1.le), fun i hi => ?_, fun i hi => ?_⟩
  · rw [hz, eT]; exact (hk i (Finset.mem_range.2 (by omega))).1
  · rw [hz, eT]; exact (hk i (Finset.mem_range.2 (by omega))).2

theorem two_ells : ∀ ell ∈ [(10 : ℝ), 100], 1 ≤ ell ∨ ell = 0 := fun ell h => by
  simp only [List.mem_cons, List.not_mem_nil, or_false] at h
  rcases h with rfl | rfl <;> norm_num

/-- Witness for `C125_halofit_partial`: the same with the default power spectrum, in a faint cosmology. -/
example : ∃ σ, 0 < σ ∧ JvpE (JvpTable 0)
    (fun r => angularCl (faintLine σ r) [10, 100] (twoProbes.map fun t => probeAt t r) (nowiggle (faintLine σ r)))
    (Dm.angularCl (seedParams (faintLine σ 0) allTogether)
      ([10, 100].map Du.con) (twoProbes.map probeDual)
      (Dm.EH.nowiggle (seedParams (faintLine σ 0) allTogether))
      fun p k a T => Dm.halofit p k a T) := by
  obtain ⟨σ, h8, hl, hp, hT, h1, h2⟩ := faint_survey
  exact ⟨σ, h8, C125_halofit_partial hl hp hT twoProbes_good twoProbes_zmax (by norm_num) (by norm_num) h1 h2
    two_ells⟩

theorem twoProbes_counts : ∀ t ∈ twoProbes, GoodCounts 0 t := by
  intro t ht
  simp only [twoProbes, List.mem_cons, List.not_mem_nil, or_false] at ht
  rcases ht with rfl | rfl <;> intro b hb
  · simp only [ProbeTree.bins, List.mem_cons, List.not_mem_nil, or_false] at hb
    rcases hb with rfl | rfl
    · exact ⟨Jvp.con 10 0, by norm_num [NzTree.gals, Leaf.con]⟩
    · exact ⟨Jvp.con 5 0, by norm_num [NzTree.gals, Leaf.con]⟩
  · rw [List.mem_singleton.1 hb]
    exact ⟨Leaf.var_OK 10 1, by norm_num [NzTree.gals, Leaf.var]⟩

/-- Witness for `C125_noise`. -/
example : JvpE (JvpTable 0) (fun r => noiseCl [10, 100] (twoProbes.map fun t => probeAt t r))
    (Dm.noiseCl ([10, 100].map Du.con) (twoProbes.map probeDual)) :=
  C125_noise twoProbes_counts _

/-- Witness for `C125_refuted`: a bin of the shape used for LSST (`b = 0.9`). -/
example (D : DParams) (hD : D.gamma = none) (TD : Du → Du) :
    ∃ x y : Du, Dm.angularCl D [Du.con 10, Du.con 100]
      [.nc [.smail (Du.con 2) (Du.con 0.9) ⟨fin 0.28, some (fin 1)⟩ (Du.con 10) 10]
        (.bias (.constant (Du.con 1))) false] TD Dm.linear = .ok [[x, y]] ∧ x.tangent = nan ∧ y.tangent = nan := by
  obtain ⟨row, h, hl, hn⟩ := C125_refuted 10 (Du.con 10) (Du.con 1) (a := 2) (b := 0.9) (z0 := 0.28)
    (by norm_num) (by norm_num) (by norm_num) (by norm_num) 1 D hD false TD (nlD := Dm.linear)
    (fun k a => ⟨_, rfl⟩) [Du.con 10, Du.con 100]
  match row, hl with
  | [x, y], _ => exact ⟨x, y, h, hn x (by simp), hn y (by simp)⟩

end JaxCosmo
