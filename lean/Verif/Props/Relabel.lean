import Verif.Proofs.Relabel
import Verif.Props.Kernels
import Verif.Spec.Relabel

/-! # C143–C145: bins on their own, relabelled surveys, and subsets of the data -/

namespace JaxCosmo
open Spec Matrix

/-! ## Entries of broadcast arrays -/

/-- Entry `t` of an array broadcast along the bins. -/
noncomputable def entryOf (ys : List ℝ) (t : ℕ) : ℝ :=
  if ys.length = 1 then ys.getD 0 0 else ys.getD t 0

theorem getD_zipWith {f : ℝ → ℝ → ℝ} {xs ys : List ℝ} {t : ℕ} (h : xs.length = ys.length)
    (ht : t < xs.length) : (List.zipWith f xs ys).getD t 0 = f (xs.getD t 0) (ys.getD t 0) := by
  rw [List.getD_eq_getElem _ _ (by simp; omega), List.getElem_zipWith,
    List.getD_eq_getElem _ _ ht, List.getD_eq_getElem _ _ (by omega)]

theorem getD_map {α : Type*} {f : α → ℝ} {xs : List α} {t : ℕ} (ht : t < xs.length) :
    (xs.map f).getD t 0 = f xs[t] := by
  rw [List.getD_eq_getElem _ _ (by simpa using ht), List.getElem_map]

theorem bcast_entry {f : ℝ → ℝ → ℝ} {xs ys zs : List ℝ} {t : ℕ} (h : bcast f xs ys = .ok zs)
    (h1 : xs.length = 1 → ys.length = 1) (ht : t < xs.length) :
    zs.getD t 0 = f (xs.getD t 0) (entryOf ys t) := by
  unfold bcast at h
  split_ifs at h with he
  · rw [← Except.ok.inj h, getD_zipWith he ht, entryOf]
    split_ifs with h2
    · rw [show t = 0 by omega]
    · rfl
  · split at h
    · rename_i x
      exact absurd (h1 rfl).symm he
    · rename_i y _
      rw [← Except.ok.inj h, getD_map ht, List.getD_eq_getElem _ _ ht]
      rfl
    · cases h

theorem bcast_entry' {f : ℝ → ℝ → ℝ} {xs ys zs : List ℝ} {t : ℕ} (h : bcast f xs ys = .ok zs)
    (h1 : ys.length = 1 → xs.length = 1) (ht : t < ys.length) :
    zs.getD t 0 = f (entryOf xs t) (ys.getD t 0) := by
  unfold bcast at h
  split_ifs at h with he
  · rw [← Except.ok.inj h, getD_zipWith he (by omega), entryOf]
    split_ifs with h2
    · rw [show t = 0 by omega]
    · rfl
  · split at h
    · rename_i x _
      rw [← Except.ok.inj h, getD_map ht, List.getD_eq_getElem _ _ ht]
      rfl
    · rename_i y _
      exact absurd (h1 rfl) he
    · cases h

/-- Value of a bias that belongs to one bin. -/
noncomputable def biasOf (p : Params) (z : ℝ) : Val → ℝ
  | .bias b => b.call p z
  | _ => 0

theorem biasRows_entry {p : Params} {v : Val} {z : ℝ} {bs : List ℝ} (h : biasRows p v z = .ok bs)
    (t : ℕ) : entryOf bs t = biasOf p z (ofBin v t) := by
  have key : ∀ l : List Bias, entryOf (l.map fun b => b.call p z) t
      = biasOf p z (ofBin (.biases l) t) := by
    intro l
    have h0 : (Bias.constant 0).call p z = 0 := by simp [Bias.call]
    have hg : ∀ k, (l.map fun b => b.call p z).getD k 0 = (l.getD k (.constant 0)).call p z := by
      intro k
      have := List.getD_map (l := l) (n := k) (d := Bias.constant 0) fun b : Bias => b.call p z
      rwa [h0] at this
    simp only [entryOf, ofBin, biasOf, List.length_map, hg]
    split_ifs <;> rfl
  cases v with
  | none => cases h
  | num x => cases h
  | nums xs => cases xs <;> cases h
  | bias b => rw [← Except.ok.inj h]; rfl
  | biases l =>
    cases l with
    | nil => cases h
    | cons b l => rw [← Except.ok.inj h]; exact key (b :: l)

theorem applyM_entry {k r : List ℝ} {m : Val} (h : applyM k m = .ok r)
    (h1 : k.length = 1 → m.single) {t : ℕ} (ht : t < k.length) :
    r.getD t 0 = k.getD t 0 * (1 + match ofBin m t with | .num x => x | _ => 0) := by
  cases m with
  | none => cases h
  | bias b => cases h
  | biases bs => cases h
  | num x =>
    rw [← Except.ok.inj h, getD_map ht, List.getD_eq_getElem _ _ ht]
    rfl
  | nums ms =>
    have h' : bcast (fun k x => k * (1 + x)) k ms = .ok r := by
      cases ms with
      | nil => cases h
      | cons a l => exact h
    exact bcast_entry h' h1 ht

theorem jitCosmo_eq {p q : Params} (h : jitCosmo p = .ok q) : q = p := by
  cases hg : p.gamma with
  | none => rw [jitCosmo_none hg] at h; exact (Except.ok.inj h).symm
  | some g => rw [jitCosmo_some hg] at h; cases h

theorem density_entry {p : Params} {pzs : List Nz} {b : Val} {z ell : ℝ} {k : List ℝ}
    (h : densityKernel p pzs b z ell = .ok k) (hb : pzs.length = 1 → b.single) {t : ℕ} {pz : Nz}
    (ht : pzs[t]? = some pz) :
    k.getD t 0 = pz.eval z * biasOf p z (ofBin b t) * H p (z2a z) := by
  unfold densityKernel at h
  obtain ⟨q, hq, h⟩ := bind_ok h
  rw [jitCosmo_eq hq] at h
  split_ifs at h
  obtain ⟨r, hr, h⟩ := bind_ok h
  obtain ⟨s, hs, h⟩ := bind_ok h
  have hsingle := fun h1 : (pzs.map fun pz => pz.eval z).length = 1 =>
    biasRows_single hr (hb (by simpa using h1))
  obtain ⟨hlt, he⟩ := List.getElem?_eq_some_iff.1 ht
  have hl := bcast_length hs hsingle
  rw [List.length_map] at hl
  have hent := bcast_entry hs hsingle (t := t) (by simpa using hlt)
  rw [getD_map hlt, biasRows_entry hr, he] at hent
  rw [← Except.ok.inj h, getD_map (by omega), ← List.getD_eq_getElem s 0 (by omega), hent]
  ring

theorem nla_entry {p : Params} {pzs : List Nz} {b : Val} {z ell : ℝ} {k : List ℝ}
    (h : nlaKernel p pzs b z ell = .ok k) (hb : pzs.length = 1 → b.single) {t : ℕ} {pz : Nz}
    (ht : pzs[t]? = some pz) :
    k.getD t 0 = ellFactor ell * (pz.eval z * biasOf p z (ofBin b t) * H p (z2a z)
      * (-(5e-14 * const_rhocrit) * p.Omega_m / growthOf p (z2a z))) := by
  unfold nlaKernel at h
  obtain ⟨q, hq, h⟩ := bind_ok h
  rw [jitCosmo_eq hq] at h
  split_ifs at h
  obtain ⟨r, hr, h⟩ := bind_ok h
  obtain ⟨s, hs, h⟩ := bind_ok h
  have hsingle := fun h1 : (pzs.map fun pz => pz.eval z).length = 1 =>
    biasRows_single hr (hb (by simpa using h1))
  obtain ⟨hlt, he⟩ := List.getElem?_eq_some_iff.1 ht
  have hl := bcast_length hs hsingle
  rw [List.length_map] at hl
  have hent := bcast_entry hs hsingle (t := t) (by simpa using hlt)
  rw [getD_map hlt, biasRows_entry hr, he] at hent
  rw [← Except.ok.inj h, getD_map (by omega), ← List.getD_eq_getElem s 0 (by omega), hent]
  ring

theorem wl_entry {p : Params} {pzs : List Nz} {z ell zmax : ℝ} {k : List ℝ}
    (h : weakLensingKernel p pzs z ell = .ok k) (hz : pyMax (pzs.map Nz.zmax) = .ok zmax) {t : ℕ}
    {pz : Nz} (ht : pzs[t]? = some pz) : k.getD t 0 = binKernel p zmax z ell pz := by
  obtain ⟨hlt, he⟩ := List.getElem?_eq_some_iff.1 ht
  cases hg : p.gamma with
  | some g => rw [(C48_rejects p z ell).2 g hg] at h; cases h
  | none =>
    rw [C48_order p hg pzs z ell zmax hz] at h
    rw [← Except.ok.inj h, getD_map hlt, he]

/-- The multiplicative bias of one bin. -/
noncomputable def multOf : Val → ℝ
  | .num x => x
  | _ => 0

/-- The kernel of bin `t` of a lensing probe. -/
theorem lensing_entry {o : WeakLensing} (hc : (Probe.wl o).Consistent) {p : Params} {z ell zmax : ℝ}
    {r : List ℝ} (h : o.kernel p z ell = .ok r) (hz : pyMax (o.bins.map Nz.zmax) = .ok zmax) {t : ℕ}
    {pz : Nz} (ht : o.bins[t]? = some pz) :
    r.getD t 0 = (binKernel p zmax z ell pz
      + (if o.ia_enabled then ellFactor ell * (pz.eval z
          * biasOf p z ((o.param2.map (ofBin · t)).getD .none) * H p (z2a z)
          * (-(5e-14 * const_rhocrit) * p.Omega_m / growthOf p (z2a z))) else 0))
        * (1 + multOf (ofBin o.param1 t)) := by
  obtain ⟨hlt, he⟩ := List.getElem?_eq_some_iff.1 ht
  unfold WeakLensing.kernel at h
  obtain ⟨k, hk, h⟩ := bind_ok h
  have hl := (wl_length p o.bins z ell hk).1
  have hwl := wl_entry hk hz ht
  by_cases hia : o.ia_enabled = true
  · rw [if_pos hia] at h ⊢
    cases h3 : o.param2 with
    | none => rw [h3] at h; cases h
    | some b =>
      rw [h3] at h
      obtain ⟨ia, hi, h⟩ := bind_ok h
      obtain ⟨k2, h2, h⟩ := bind_ok h
      have hb : o.bins.length = 1 → b.single := fun h1 => (hc h1).2.1 b h3
      have hl2 := nla_length hi hb
      have e1 := bcast_entry h2 (fun h => by omega) (t := t) (by omega)
      have e2 : entryOf ia t = ia.getD t 0 := by
        unfold entryOf
        split_ifs with h1
        · rw [show t = 0 by omega]
        · rfl
      rw [hwl, e2, nla_entry hi hb ht] at e1
      have hl3 := bcast_length h2 fun h => by omega
      have e3 := applyM_entry h (fun h1 => (hc (by omega)).1) (t := t) (by omega)
      rw [e3, e1]
      rfl
  · rw [if_neg hia] at h ⊢
    obtain ⟨k2, h2, h⟩ := bind_ok h
    obtain rfl : k = k2 := Except.ok.inj h2
    have e3 := applyM_entry h (fun h1 => (hc (by omega)).1) (t := t) (by omega)
    rw [e3, hwl, add_zero]
    rfl

/-- The shape noise of bin `t`. -/
theorem lensing_noise_entry {o : WeakLensing} (hc : (Probe.wl o).Consistent) {r : List ℝ}
    (h : o.noise = .ok r) {t : ℕ} {pz : Nz} (ht : o.bins[t]? = some pz) :
    r.getD t 0 = multOf (ofBin o.sigma_e t) ^ 2 / pz.galsPerSteradian := by
  obtain ⟨hlt, he⟩ := List.getElem?_eq_some_iff.1 ht
  unfold WeakLensing.noise at h
  cases hs : o.sigma_e with
  | none => rw [hs] at h; cases h
  | bias b => rw [hs] at h; cases h
  | biases b => rw [hs] at h; cases h
  | num x =>
    rw [hs] at h
    rw [← Except.ok.inj h, List.map_map, getD_map hlt, he]
    rfl
  | nums xs =>
    rw [hs] at h
    have h' : bcast (fun s n => s ^ 2 / n) xs (o.bins.map Nz.galsPerSteradian) = .ok r := h
    have e := bcast_entry' h' (fun h1 => by
      have := (hc (by simpa using h1)).2.2
      rw [hs] at this
      exact this) (t := t) (by simpa using hlt)
    rw [e, getD_map hlt, he]
    rfl

/-! ## C143 -/

/-- C143 (clustering): the kernel of a clustering bin depends only on that bin and its bias: two
probes that share a bin have the same kernel for it, whatever their other bins. -/
theorem C143_counts {o o' : NumberCounts} {t t' : ℕ} (h : SameBin (.nc o, t) (.nc o', t'))
    (hc : (Probe.nc o).Consistent) (hc' : (Probe.nc o').Consistent) {p : Params} {z ell : ℝ}
    {r r' : List ℝ} (hr : o.kernel p z ell = .ok r) (hr' : o'.kernel p z ell = .ok r') :
    r.getD t 0 = r'.getD t' 0 := by
  obtain ⟨⟨b, h1, h2⟩, h3⟩ := h
  rw [density_entry hr hc h1, density_entry hr' hc' h2, h3]

/-- C143 (lensing): so does the kernel of a lensing bin, if the two probes reach the same redshift.
Missing: probes that do not (see `C143_refuted`). -/
theorem C143_lensing_partial {o o' : WeakLensing} {t t' : ℕ} (h : SameBin (.wl o, t) (.wl o', t'))
    (hz : (Probe.wl o).zmax = (Probe.wl o').zmax)
    (hc : (Probe.wl o).Consistent) (hc' : (Probe.wl o').Consistent) {p : Params} {z ell : ℝ}
    {r r' : List ℝ} (hr : o.kernel p z ell = .ok r) (hr' : o'.kernel p z ell = .ok r') :
    r.getD t 0 = r'.getD t' 0 := by
  obtain ⟨⟨b, h1, h2⟩, h3, h4, h5, -⟩ := h
  rcases hp : pyMax (o.bins.map Nz.zmax) with e | zmax
  · obtain ⟨hlt, -⟩ := List.getElem?_eq_some_iff.1 h1
    cases hb : o.bins with
    | nil => rw [hb] at hlt; simp at hlt
    | cons a l => rw [hb] at hp; simp [pyMax] at hp
  have hp' : pyMax (o'.bins.map Nz.zmax) = .ok zmax := by
    have : pyMax (o.bins.map Nz.zmax) = pyMax (o'.bins.map Nz.zmax) := hz
    rw [← this, hp]
  rw [lensing_entry hc hr hp h1, lensing_entry hc' hr' hp' h2, h3, ← h4]
  by_cases hia : o.ia_enabled = true
  · rw [h5 hia]
  · rw [if_neg hia, if_neg hia]

/-- C143: the noise of a bin depends only on that bin and its shape noise, in either probe. -/
theorem C143_noise {x y : Probe × ℕ} (h : SameBin x y) (hc : x.1.Consistent) (hc' : y.1.Consistent)
    {r r' : List ℝ} (hr : x.1.noise = .ok r) (hr' : y.1.noise = .ok r') :
    r.getD x.2 0 = r'.getD y.2 0 := by
  obtain ⟨pr, t⟩ := x
  obtain ⟨pr', t'⟩ := y
  cases pr with
  | wl o =>
    cases pr' with
    | wl o' =>
      obtain ⟨⟨b, h1, h2⟩, -, -, -, h3⟩ := h
      exact (lensing_noise_entry hc hr h1).trans
        ((congrArg (fun v => multOf v ^ 2 / b.galsPerSteradian) h3).trans
          (lensing_noise_entry hc' hr' h2).symm)
    | nc o' => exact h.elim
  | nc o =>
    cases pr' with
    | wl o' => exact h.elim
    | nc o' =>
      obtain ⟨⟨b, h1, h2⟩, -⟩ := h
      obtain ⟨l1, e1⟩ := List.getElem?_eq_some_iff.1 h1
      obtain ⟨l2, e2⟩ := List.getElem?_eq_some_iff.1 h2
      have a1 : r = o.bins.map fun b => 1 / b.galsPerSteradian := by
        rw [← Except.ok.inj (hr : Except.ok _ = _), List.map_map]; rfl
      have a2 : r' = o'.bins.map fun b => 1 / b.galsPerSteradian := by
        rw [← Except.ok.inj (hr' : Except.ok _ = _), List.map_map]; rfl
      change r.getD t 0 = r'.getD t' 0
      rw [a1, a2, getD_map l1, getD_map l2, e1, e2]

theorem simpson_pos {f : ℝ → ℝ} {a b : ℝ} (hab : a < b) (h0 : ∀ x, a ≤ x → 0 ≤ f x)
    (h : ∀ x, a < x → 0 < f x) : 0 < simpson f a b 128 := by
  unfold simpson
  have hd : 0 < (b - a) / (2 * (128 : ℕ)) := by
    have : 0 < b - a := by linarith
    positivity
  refine mul_pos (by positivity) (Finset.sum_pos (fun j _ => ?_) (by simp))
  have hj : (0 : ℝ) ≤ j := by positivity
  have e1 := h0 (a + (2 * j) * ((b - a) / (2 * (128 : ℕ)))) (by nlinarith)
  have e2 := h (a + (2 * j + 1) * ((b - a) / (2 * (128 : ℕ)))) (by nlinarith)
  have e3 := h0 (a + (2 * j + 2) * ((b - a) / (2 * (128 : ℕ)))) (by nlinarith)
  linarith

/-- C143: what goes wrong.  The lensing kernel of a bin is integrated up to the largest `zmax` of
the probe, past the `zmax` up to which the bin's distribution was normalised: at the redshift where
the bin ends, its kernel is zero if the bin is alone in its probe, and positive if any bin of the
probe reaches further. -/
theorem C143_overrun (p : Params) (hg : p.gamma = none) (hE : EsqrPos p) (hm : 0 < p.Omega_m)
    {b c : Nz} (hb : b.isDelta = false) (h0 : 0 < b.zmax) (hbc : b.zmax < c.zmax)
    (hn : ∀ z, 0 < z → 0 < b.eval z) {ell : ℝ} (hl : 1 < ell) :
    weakLensingKernel p [b] b.zmax ell = .ok [0] ∧
    ∃ x y, weakLensingKernel p [b, c] b.zmax ell = .ok [x, y] ∧ 0 < x := by
  constructor
  · obtain ⟨k, hk⟩ : ∃ k, weakLensingKernel p [b] b.zmax ell = .ok k :=
      ⟨_, C48_order p hg [b] b.zmax ell b.zmax rfl⟩
    have hk0 := C49_beyond p hg hE [b] (zmax := b.zmax) rfl h0.le (by simpa using hb) le_rfl hk
    have hlen := (wl_length p [b] _ _ hk).1
    obtain ⟨x, rfl⟩ := List.length_eq_one_iff.1 hlen
    rw [hk, hk0 x (by simp)]
  · have hz : pyMax ([b, c].map Nz.zmax) = .ok c.zmax := by
      simp [pyMax, max_eq_right hbc.le]
    refine ⟨_, _, C48_order p hg [b, c] b.zmax ell c.zmax hz, ?_⟩
    have hS : 0 < simpson (fun z' => b.eval z' * lensWeight (chiZ p) b.zmax z') b.zmax c.zmax 128 := by
      refine simpson_pos hbc (fun x hx => mul_nonneg (hn x (h0.trans_le hx)).le
        (lensWeight_nonneg _ _ _)) fun x hx => mul_pos (hn x (h0.trans hx)) ?_
      unfold lensWeight
      have := chiZ_lt hE h0 hx
      exact div_pos (lt_max_of_lt_left (by linarith)) (lt_max_of_lt_right one_pos)
    have hb' : binKernel p c.zmax b.zmax ell b = lensKernel p.Omega_m const_H0 const_c (chiZ p)
        b.zmax ell (simpson (fun z' => b.eval z' * lensWeight (chiZ p) b.zmax z') b.zmax c.zmax 128) := by
      cases b <;> first | rfl | simp [Nz.isDelta] at hb
    rw [hb']
    have h1 : 0 < chiZ p b.zmax := C06_pos_before (by norm_num) (by norm_num) hE (by
      unfold z2a; rw [div_lt_one (by linarith)]; linarith)
    have h3 := spinFactor_pos hl
    unfold lensKernel const_H0 const_c
    positivity

theorem smail_eval_pos {z zm : ℝ} (hz : 0 < z) (hzm : 0 < zm) :
    0 < (Nz.smail 1 2 1 1 zm).eval z := by
  rw [Nz.eval_extended rfl]
  have hp : ∀ x, 0 < x → 0 < (Nz.smail 1 2 1 1 zm).pzFn x := fun x hx => by
    unfold Nz.pzFn; positivity
  refine div_pos (hp z hz) ?_
  unfold Nz.computedNorm
  rw [simpsBody_simpson]
  refine simpson_pos hzm (fun x hx => ?_) hp
  unfold Nz.pzFn; positivity

/-- C143 refuted: the lensing kernel of a bin depends on the other bins of its probe: in the Planck
cosmology, galaxies normalised up to `z = 1` do not feel a lens at `z = 1` if they are on their own,
but do if the probe has another bin that extends to `z = 2`. -/
theorem C143_refuted : ¬ ∀ (p : Params), p.gamma = none → Physical p →
    ∀ (o o' : WeakLensing) (t t' : ℕ), SameBin (.wl o, t) (.wl o', t') →
      (Probe.wl o).Consistent → (Probe.wl o').Consistent → ∀ (z ell : ℝ) (r r' : List ℝ),
      o.kernel p z ell = .ok r → o'.kernel p z ell = .ok r' → r.getD t 0 = r'.getD t' 0 := by
  intro h
  obtain ⟨h1, x, y, h2, hx⟩ := C143_overrun Planck15 rfl planck_physical.esqrPos planck_physical.m_pos
    (b := .smail 1 2 1 1 1) (c := .smail 1 2 1 1 2) rfl (by norm_num [Nz.zmax])
    (by norm_num [Nz.zmax]) (fun z hz => smail_eval_pos hz one_pos) (ell := 10) (by norm_num)
  have k1 : (WeakLensing.init [.smail 1 2 1 1 1]).kernel Planck15 1 10 = .ok [0 * (1 + 0)] := by
    have h1' : weakLensingKernel Planck15 [.smail 1 2 1 1 1] 1 10 = .ok [0] := h1
    simp only [WeakLensing.kernel, WeakLensing.init, h1']
    rfl
  have k2 : (WeakLensing.init [.smail 1 2 1 1 1, .smail 1 2 1 1 2]).kernel Planck15 1 10
      = .ok [x * (1 + 0), y * (1 + 0)] := by
    have h2' : weakLensingKernel Planck15 [.smail 1 2 1 1 1, .smail 1 2 1 1 2] 1 10 = .ok [x, y] := h2
    simp only [WeakLensing.kernel, WeakLensing.init, h2']
    rfl
  have := h Planck15 rfl planck_physical (.init [.smail 1 2 1 1 1])
    (.init [.smail 1 2 1 1 1, .smail 1 2 1 1 2]) 0 0
    ⟨⟨_, rfl, rfl⟩, rfl, rfl, (fun h => by cases h), rfl⟩
    (fun _ => ⟨trivial, (fun v hv => by cases hv), trivial⟩)
    (fun h => by simp [WeakLensing.init] at h) 1 10 _ _ k1 k2
  simp at this
  exact hx.ne this

/-! ## C144 -/

/-- The spectrum of two tracers, in any two surveys that contain the same two bins. -/
theorem select_spectrum (p : Params) (T : ℝ → ℝ) (nl : Params → ℝ → ℝ → (ℝ → ℝ) → Except PyErr ℝ)
    {A B : List Probe} {σ : Fin (tracers B).length → Fin (tracers A).length} (hσ : Selects A B σ)
    {ell zmax : ℝ} {colA colB : List ℝ} (hzA : probesZmax A = .ok zmax)
    (hzB : probesZmax B = .ok zmax) (hcA : ∀ pr ∈ A, pr.Consistent) (hcB : ∀ pr ∈ B, pr.Consistent)
    (hA : clAt p T nl A ell = .ok colA) (hB : clAt p T nl B ell = .ok colB) :
    symMat (tracers B).length colB = (symMat (tracers A).length colA).submatrix σ σ := by
  ext i j
  change colB.getD (pairPos (tracers B).length i j) 0
    = colA.getD (pairPos (tracers A).length (σ i) (σ j)) 0
  rw [clAt_entry hA hzA (σ i).2 (σ j).2, clAt_entry hB hzB i.2 j.2]
  congr 1
  apply simpson_congr_node
  intro k hk
  obtain ⟨z1, hz1, -, nA⟩ := clAt_ok hA
  obtain ⟨z2, hz2, -, nB⟩ := clAt_ok hB
  obtain rfl : z1 = zmax := Except.ok.inj (hz1.symm.trans hzA)
  obtain rfl : z2 = z1 := Except.ok.inj (hz2.symm.trans hzB)
  obtain ⟨vA, hvA⟩ := nA k hk
  obtain ⟨vB, hvB⟩ := nB k hk
  have key : ∀ i : Fin (tracers B).length, gather (limberKernels p B ell (limberNode z2 k)) i
      = gather (limberKernels p A ell (limberNode z2 k)) (σ i) := by
    intro i
    have mem : ∀ {C : List Probe} {x : Probe × ℕ}, x ∈ tracers C → x.1 ∈ C := by
      intro C x hx
      simp only [tracers, List.mem_flatMap, List.mem_map] at hx
      obtain ⟨q, hq, s, -, rfl⟩ := hx
      exact hq
    obtain ⟨h1, h2⟩ := hσ i
    have mB := hcB _ (mem (List.getElem_mem i.2))
    have mA := hcA _ (mem (List.getElem_mem (σ i).2))
    obtain ⟨r, a1, a2⟩ := limberKernels_tracer hvB hcB (i := i) (pr := (tracers B)[i].1)
      (t := (tracers B)[i].2) (List.getElem?_eq_getElem i.2)
    obtain ⟨r', b1, b2⟩ := limberKernels_tracer hvA hcA (i := σ i) (pr := (tracers A)[σ i].1)
      (t := (tracers A)[σ i].2) (List.getElem?_eq_getElem (σ i).2)
    rw [a2, b2]
    clear a2 b2
    change (tracers B)[i].1.Consistent at mB
    change (tracers A)[σ i].1.Consistent at mA
    revert h1 h2 a1 b1 mA mB
    generalize (tracers B)[i] = x
    generalize (tracers A)[σ i] = y
    obtain ⟨pr, t⟩ := x
    obtain ⟨pr', t'⟩ := y
    intro h1 h2 a1 b1 mB mA
    cases pr with
    | wl o =>
      cases pr' with
      | wl o' => exact C143_lensing_partial h1 (h2 o rfl) mB mA a1 b1
      | nc o' => exact h1.elim
    | nc o =>
      cases pr' with
      | wl o' => exact h1.elim
      | nc o' => exact C143_counts h1 mB mA a1 b1
  simp only [limberIntegrand, key]

/-- The noise of two tracers. -/
theorem select_noise {A B : List Probe} {σ : Fin (tracers B).length → Fin (tracers A).length}
    (hσ : Selects A B σ) (hinj : Function.Injective σ) (hcA : ∀ pr ∈ A, pr.Consistent)
    (hcB : ∀ pr ∈ B, pr.Consistent) {ells : List ℝ} {nA nB : List (List ℝ)}
    (hA : noiseCl ells A = .ok nA) (hB : noiseCl ells B = .ok nB) {l : ℕ} (hl : l < ells.length) :
    symMat (tracers B).length (column nB l)
      = (symMat (tracers A).length (column nA l)).submatrix σ σ := by
  obtain ⟨dA, eA, vA⟩ := noise_diagonal hcA hA hl
  obtain ⟨dB, eB, vB⟩ := noise_diagonal hcB hB hl
  rw [eA, eB]
  ext i j
  rw [submatrix_apply, diagonal_apply, diagonal_apply]
  by_cases hij : i = j
  · subst hij
    rw [if_pos rfl, if_pos rfl]
    have mem : ∀ {C : List Probe} {x : Probe × ℕ}, x ∈ tracers C → x.1 ∈ C := by
      intro C x hx
      simp only [tracers, List.mem_flatMap, List.mem_map] at hx
      obtain ⟨q, hq, s, -, rfl⟩ := hx
      exact hq
    obtain ⟨r, a1, a2⟩ := vB i (tracers B)[i].1 (tracers B)[i].2 (List.getElem?_eq_getElem i.2)
    obtain ⟨r', b1, b2⟩ := vA (σ i) (tracers A)[σ i].1 (tracers A)[σ i].2
      (List.getElem?_eq_getElem (σ i).2)
    rw [a2, b2]
    exact C143_noise (hσ i).1 (hcB _ (mem (List.getElem_mem i.2)))
      (hcA _ (mem (List.getElem_mem (σ i).2))) a1 b1
  · rw [if_neg hij, if_neg fun h => hij (hinj h)]

/-- C144: if every tracer of survey `B` is also a tracer of survey `A` -- `B` is `A` with its probes
listed in another order, its bins distributed differently over probes, or some of them left out --
and both reach the same redshift, then the data vector and the covariance of `B` are those of `A`
with rows renumbered accordingly (and left out). -/
theorem C144_select (p : Params) (ells : List ℝ) (T : ℝ → ℝ)
    (nl : Params → ℝ → ℝ → (ℝ → ℝ) → Except PyErr ℝ) (f_sky zmax : ℝ) (hL : 2 ≤ ells.length)
    (A B : List Probe) (σ : Fin (tracers B).length → Fin (tracers A).length)
    (hσ : Selects A B σ) (hinj : Function.Injective σ) (hzA : probesZmax A = .ok zmax)
    (hzB : probesZmax B = .ok zmax) (hcA : ∀ pr ∈ A, pr.Consistent) (hcB : ∀ pr ∈ B, pr.Consistent)
    {meanA meanB : List ℝ} {covA covB : NdArr ℝ}
    (hA : gaussianClCovarianceAndMean p ells A T nl f_sky true = .ok (meanA, covA))
    (hB : gaussianClCovarianceAndMean p ells B T nl f_sky true = .ok (meanB, covB)) :
    ∃ (SA : Sp ℝ (pairCount (tracers A).length) (pairCount (tracers A).length) ells.length)
      (SB : Sp ℝ (pairCount (tracers B).length) (pairCount (tracers B).length) ells.length)
      (ρ : Fin (pairCount (tracers B).length * ells.length)
        → Fin (pairCount (tracers A).length * ells.length)),
      covA = .d3 _ _ _ SA ∧ covB = .d3 _ _ _ SB ∧ Renumbers σ _ _ ρ ∧ Function.Injective ρ ∧
      (Function.Surjective σ → Function.Surjective ρ) ∧
      denseEntry SB = (denseEntry SA).submatrix ρ ρ ∧
      ∀ r : Fin (pairCount (tracers B).length * ells.length), meanB[(r : ℕ)]? = meanA[(ρ r : ℕ)]? := by
  obtain ⟨lA, mA, sA, nA, hsA, hnA, hcovA⟩ := C61_mean_order p ells A T nl f_sky true hA
  obtain ⟨lB, mB, sB, nB, hsB, hnB, hcovB⟩ := C61_mean_order p ells B T nl f_sky true hB
  obtain ⟨rA, vA⟩ := angularCl_rect hsA
  obtain ⟨rB, vB⟩ := angularCl_rect hsB
  have cA : covA = _ := Except.ok.inj (hcovA.symm.trans
    (covariance_eq ells A sA nA f_sky hL rA (noiseCl_rect hnA)))
  have cB : covB = _ := Except.ok.inj (hcovB.symm.trans
    (covariance_eq ells B sB nB f_sky hL rB (noiseCl_rect hnB)))
  refine ⟨_, _, rowMap σ, cA, cB, ?_, rowMap_injective hinj, rowMap_surjective, ?_, ?_⟩
  · intro i j l r hl hr
    have e : r = finProdFinEquiv (pairFin _ i j, (⟨l, hl⟩ : Fin ells.length)) := Fin.ext (by
      rw [hr, finProdFinEquiv_apply_val]
      simp only [pairFin]
      ring)
    rw [e, rowMap_apply, pairMap_pairFin, finProdFinEquiv_apply_val]
    simp only [pairFin]
    ring
  · refine wickSparse_select σ ells f_sky fun l hl => ?_
    obtain ⟨colA, hcolA, eA⟩ := vA l hl
    obtain ⟨colB, hcolB, eB⟩ := vB l hl
    have e1 : symMat (tracers A).length (column sA l) = symMat (tracers A).length colA :=
      symMat_congr fun I hI => by rw [rowAt_column, eA I hI]
    have e2 : symMat (tracers B).length (column sB l) = symMat (tracers B).length colB :=
      symMat_congr fun I hI => by rw [rowAt_column, eB I hI]
    rw [obsMat, obsMat, e1, e2, select_noise hσ hinj hcA hcB hnA hnB hl,
      select_spectrum p T nl hσ hzA hzB hcA hcB hcolA hcolB]
    rfl
  · intro r
    obtain ⟨⟨I, l⟩, rfl⟩ := finProdFinEquiv.surjective r
    rw [rowMap_apply, finProdFinEquiv_apply_val, finProdFinEquiv_apply_val, Nat.mul_comm,
      Nat.mul_comm ells.length (pairMap σ I : ℕ), Nat.add_comm, Nat.add_comm (l : ℕ)]
    obtain ⟨colA, hcolA, eA⟩ := mA (pairMap σ I) l l.2 (pairMap σ I).2
    obtain ⟨colB, hcolB, eB⟩ := mB I l l.2 I.2
    rw [eA, eB]
    have := congrFun (congrFun (select_spectrum p T nl hσ hzA hzB hcA hcB hcolA hcolB)
      (pairOf _ I).1) (pairOf _ I).2
    have hI : pairPos (tracers B).length (pairOf _ I).1 (pairOf _ I).2 = I :=
      congrArg Fin.val (pairFin_pairOf I)
    change colB.getD (pairPos (tracers B).length (pairOf _ I).1 (pairOf _ I).2) 0
      = colA.getD (pairMap σ I : ℕ) 0 at this
    rw [hI] at this
    rw [this]

theorem loglike_sparse' {M P : ℕ} (hM : 0 < M) (data mu : Fin (M * P) → ℝ) (S : Sp ℝ M M P)
    (hS : (denseEntry S).PosDef) (incl : Bool) (m : String) :
    gaussianLogLikelihood data mu (.d3 _ _ P S) incl m
      = .ok (-(1 / 2) * (chiSq data mu (denseEntry S)
          - if incl then Real.log |(denseEntry S).det| else 0)) := by
  obtain ⟨n, rfl⟩ : ∃ n, M = n + 1 := ⟨M - 1, by omega⟩
  exact loglike_sparse data mu S hS incl m

/-- C144: if moreover nothing is left out, the likelihood of any data for any model is the same in
both surveys, with or without the determinant and by either method. -/
theorem C144_likelihood (p : Params) (ells : List ℝ) (T : ℝ → ℝ)
    (nl : Params → ℝ → ℝ → (ℝ → ℝ) → Except PyErr ℝ) (f_sky zmax : ℝ) (hL : 2 ≤ ells.length)
    (A B : List Probe) (σ : Fin (tracers B).length → Fin (tracers A).length)
    (hσ : Selects A B σ) (hbij : Function.Bijective σ) (hzA : probesZmax A = .ok zmax)
    (hzB : probesZmax B = .ok zmax) (hcA : ∀ pr ∈ A, pr.Consistent) (hcB : ∀ pr ∈ B, pr.Consistent)
    (hne : tracers A ≠ []) {meanA meanB : List ℝ} {covA covB : NdArr ℝ}
    (hA : gaussianClCovarianceAndMean p ells A T nl f_sky true = .ok (meanA, covA))
    (hB : gaussianClCovarianceAndMean p ells B T nl f_sky true = .ok (meanB, covB))
    (hpd : ∀ S : Sp ℝ (pairCount (tracers A).length) (pairCount (tracers A).length) ells.length,
      covA = .d3 _ _ _ S → (denseEntry S).PosDef) :
    ∃ ρ : Fin (pairCount (tracers B).length * ells.length)
        → Fin (pairCount (tracers A).length * ells.length),
      Renumbers σ _ _ ρ ∧ Function.Bijective ρ ∧
      ∀ (data mu : Fin (pairCount (tracers A).length * ells.length) → ℝ) (incl : Bool) (m : String),
        ∃ v, gaussianLogLikelihood data mu covA incl m = .ok v ∧
          gaussianLogLikelihood (data ∘ ρ) (mu ∘ ρ) covB incl m = .ok v := by
  obtain ⟨SA, SB, ρ, rfl, rfl, h1, h2, h3, h4, -⟩ := C144_select p ells T nl f_sky zmax hL A B σ hσ
    hbij.1 hzA hzB hcA hcB hA hB
  have hρ : Function.Bijective ρ := ⟨h2, h3 hbij.2⟩
  refine ⟨ρ, h1, hρ, fun data mu incl m => ⟨_, loglike_sparse' ?_ data mu SA (hpd SA rfl) incl m, ?_⟩⟩
  · exact pairCount_pos (List.length_pos_iff.2 hne)
  · have hB' : (denseEntry SB).PosDef := by rw [h4]; exact (hpd SA rfl).submatrix h2
    have hlen : (tracers B).length = (tracers A).length := by
      simpa using Fintype.card_of_bijective hbij
    rw [loglike_sparse' (by rw [hlen]; exact pairCount_pos (List.length_pos_iff.2 hne)) _ _ SB hB']
    have e := chiSq_equiv (denseEntry SA) (Equiv.ofBijective ρ hρ) data mu
    have d := det_submatrix_equiv_self (Equiv.ofBijective ρ hρ) (denseEntry SA)
    rw [h4]
    simp only [Equiv.coe_ofBijective] at e d
    change chiSq (data ∘ ρ) (mu ∘ ρ) ((denseEntry SA).submatrix ρ ρ) = _ at e
    change ((denseEntry SA).submatrix ρ ρ).det = _ at d
    rw [e, d]

/-- C144: in particular the order in which probes are listed does not matter: if the pipeline
returns for one order it does for any other, and the likelihood is the same. -/
theorem C144_order (p : Params) (ells : List ℝ) (T : ℝ → ℝ)
    (nl : Params → ℝ → ℝ → (ℝ → ℝ) → Except PyErr ℝ) (f_sky : ℝ) (hL : 2 ≤ ells.length)
    (A B : List Probe) (hAB : B.Perm A) (hc : ∀ pr ∈ A, pr.Consistent) {meanA : List ℝ}
    {covA : NdArr ℝ}
    (hA : gaussianClCovarianceAndMean p ells A T nl f_sky true = .ok (meanA, covA)) :
    ∃ (σ : Fin (tracers B).length → Fin (tracers A).length) (meanB : List ℝ) (covB : NdArr ℝ),
      Function.Bijective σ ∧ Selects A B σ ∧ (∀ i, (tracers B)[i] = (tracers A)[σ i]) ∧
      gaussianClCovarianceAndMean p ells B T nl f_sky true = .ok (meanB, covB) := by
  classical
  obtain ⟨-, -, sA, nA, hsA, hnA, -⟩ := C61_mean_order p ells A T nl f_sky true hA
  obtain ⟨-, vA⟩ := angularCl_rect hsA
  have hs : ∃ signal, angularCl p ells B T nl = .ok signal := by
    obtain ⟨cols, hcols⟩ := mapM_exists (f := clAt p T nl B) (l := ells) fun ell hell => by
      obtain ⟨l, hl, rfl⟩ := List.getElem_of_mem hell
      obtain ⟨col, hcol, -⟩ := vA l hl
      obtain ⟨colB, hB, -⟩ := C57_perm p T nl A B hAB.symm _ hc hcol
      exact ⟨colB, hB⟩
    exact ⟨_, by unfold angularCl; rw [hcols]; rfl⟩
  have hn : ∃ noise, noiseCl ells B = .ok noise := by
    unfold noiseCl at hnA
    obtain ⟨ns, hns, -⟩ := bind_ok hnA
    obtain ⟨ns', hns'⟩ := mapM_exists (f := Probe.noise) (l := B) fun pr hpr => by
      obtain ⟨y, -, hy⟩ := mapM_mem hns (hAB.mem_iff.1 hpr)
      exact ⟨y, hy⟩
    exact ⟨_, by unfold noiseCl; rw [hns']; rfl⟩
  obtain ⟨signal, hs⟩ := hs
  obtain ⟨noise, hn⟩ := hn
  have hcov := covariance_eq ells B signal noise f_sky hL (angularCl_rect hs).1 (noiseCl_rect hn)
  have ht : (tracers B).Perm (tracers A) := hAB.flatMap_right _
  have hσ : ∀ i, (tracers B)[i] = (tracers A)[ht.idxBij i] := fun i =>
    (ht.getElem_idxBij_eq_getElem i).symm
  refine ⟨ht.idxBij, signal.flatten, .d3 _ _ _ (wickSparse (tracers B).length ells.length ells signal
    noise f_sky), ⟨ht.idxBij_rightInverse_idxBij_symm.injective, ht.idxBij_leftInverse_idxBij_symm.surjective⟩, fun i => ?_, hσ, ?_⟩
  · rw [← hσ i]
    refine ⟨?_, fun _ _ => rfl⟩
    have hm := List.getElem_mem i.2
    change (tracers B)[i] ∈ tracers B at hm
    revert hm
    generalize (tracers B)[i] = x
    intro hm
    simp only [tracers, List.mem_flatMap, List.mem_map, List.mem_range] at hm
    obtain ⟨q, hq, s, hs, rfl⟩ := hm
    cases q with
    | wl o => exact ⟨⟨_, List.getElem?_eq_getElem hs, List.getElem?_eq_getElem hs⟩, rfl, rfl, fun _ => rfl, rfl⟩
    | nc o => exact ⟨⟨_, List.getElem?_eq_getElem hs, List.getElem?_eq_getElem hs⟩, rfl⟩
  · unfold gaussianClCovarianceAndMean
    rw [hs, hn]
    change (gaussianClCovariance ells B signal noise f_sky true >>= _) = _
    rw [hcov]
    rfl

/-! ## C145 -/

/-- C145: a survey that has all the tracers of another knows at least as much: the Fisher
information about any parameter and the `χ²` of any deviation are no smaller. -/
theorem C145_information (p : Params) (ells : List ℝ) (T : ℝ → ℝ)
    (nl : Params → ℝ → ℝ → (ℝ → ℝ) → Except PyErr ℝ) (f_sky zmax : ℝ) (hL : 2 ≤ ells.length)
    (A B : List Probe) (σ : Fin (tracers B).length → Fin (tracers A).length)
    (hσ : Selects A B σ) (hinj : Function.Injective σ) (hzA : probesZmax A = .ok zmax)
    (hzB : probesZmax B = .ok zmax) (hcA : ∀ pr ∈ A, pr.Consistent) (hcB : ∀ pr ∈ B, pr.Consistent)
    {meanA meanB : List ℝ} {covA covB : NdArr ℝ}
    (hA : gaussianClCovarianceAndMean p ells A T nl f_sky true = .ok (meanA, covA))
    (hB : gaussianClCovarianceAndMean p ells B T nl f_sky true = .ok (meanB, covB))
    (hpd : ∀ S : Sp ℝ (pairCount (tracers A).length) (pairCount (tracers A).length) ells.length,
      covA = .d3 _ _ _ S → (denseEntry S).PosDef) :
    ∃ (SA : Sp ℝ (pairCount (tracers A).length) (pairCount (tracers A).length) ells.length)
      (SB : Sp ℝ (pairCount (tracers B).length) (pairCount (tracers B).length) ells.length)
      (ρ : Fin (pairCount (tracers B).length * ells.length)
        → Fin (pairCount (tracers A).length * ells.length)),
      covA = .d3 _ _ _ SA ∧ covB = .d3 _ _ _ SB ∧ Renumbers σ _ _ ρ ∧ (denseEntry SB).PosDef ∧
      (∀ u, fisher (denseEntry SB) (u ∘ ρ) (u ∘ ρ) ≤ fisher (denseEntry SA) u u) ∧
      ∀ x mu, chiSq (x ∘ ρ) (mu ∘ ρ) (denseEntry SB) ≤ chiSq x mu (denseEntry SA) := by
  obtain ⟨SA, SB, ρ, e1, e2, h1, h2, -, h4, -⟩ := C144_select p ells T nl f_sky zmax hL A B σ hσ
    hinj hzA hzB hcA hcB hA hB
  have hP := hpd SA e1
  refine ⟨SA, SB, ρ, e1, e2, h1, by rw [h4]; exact hP.submatrix h2, fun u => ?_, fun x mu => ?_⟩
  · rw [h4]; exact fisher_submatrix hP h2 u
  · rw [h4]
    exact fisher_submatrix hP h2 (x - mu)

/-! ## Witness: the demonstration survey with its lensing bins in separate probes -/

/-- The tracers of `demoProbes`, last first, each lensing bin in a probe of its own. -/
noncomputable def splitProbes : List Probe :=
  [.nc (.init [.smail 1 2 1 1 4] (.bias (.constant 1.5))), .wl (.init [.smail 1 2 2 1 4]),
   .wl (.init [.smail 1 2 1 1 4])]

/-- One of the lensing bins of `demoProbes`. -/
noncomputable def keptProbes : List Probe := [.wl (.init [.smail 1 2 2 1 4])]

/-- Where the tracers of `splitProbes` are in `demoProbes`. -/
def splitIdx : Fin 3 → Fin 3 := ![2, 1, 0]

/-- Where the tracer of `keptProbes` is in `demoProbes`. -/
def keptIdx : Fin 1 → Fin 3 := ![1]

theorem demo_selects : Selects demoProbes splitProbes splitIdx ∧
    Selects demoProbes keptProbes keptIdx := by
  have h4 : ∀ o : WeakLensing, (∀ b ∈ o.bins, b.zmax = 4) → o.bins ≠ [] →
      (Probe.wl o).zmax = .ok 4 := by
    intro o h h0
    have : o.bins.map Nz.zmax = List.replicate o.bins.length 4 :=
      List.eq_replicate_iff.2 ⟨by simp, by simpa using h⟩
    obtain ⟨n, hn⟩ : ∃ n, o.bins.length = n + 1 :=
      ⟨o.bins.length - 1, by have := List.length_pos_iff.2 h0; omega⟩
    rw [Probe.zmax, Probe.bins, this, hn, List.replicate_succ]
    simp only [pyMax]
    congr 1
    clear hn
    induction n with
    | zero => rfl
    | succ n ih => rw [List.replicate_succ, List.foldl_cons, max_self, ih]
  have a1 := h4 (.init [.smail 1 2 1 1 4, .smail 1 2 2 1 4])
    (by simp [WeakLensing.init, Nz.zmax]) (by simp [WeakLensing.init])
  have a2 := h4 (.init [.smail 1 2 2 1 4]) (by simp [WeakLensing.init, Nz.zmax])
    (by simp [WeakLensing.init])
  have a3 := h4 (.init [.smail 1 2 1 1 4]) (by simp [WeakLensing.init, Nz.zmax])
    (by simp [WeakLensing.init])
  have s2 : SameBin (.wl (.init [.smail 1 2 2 1 4]), 0)
      (.wl (.init [.smail 1 2 1 1 4, .smail 1 2 2 1 4]), 1) :=
    ⟨⟨_, rfl, rfl⟩, rfl, rfl, (fun h => by cases h), rfl⟩
  have s3 : SameBin (.wl (.init [.smail 1 2 1 1 4]), 0)
      (.wl (.init [.smail 1 2 1 1 4, .smail 1 2 2 1 4]), 0) :=
    ⟨⟨_, rfl, rfl⟩, rfl, rfl, (fun h => by cases h), rfl⟩
  constructor
  · intro (i : Fin 3)
    fin_cases i
    · exact ⟨⟨⟨_, rfl, rfl⟩, rfl⟩, fun o h => by cases h⟩
    · exact ⟨s2, fun _ _ => a2.trans a1.symm⟩
    · exact ⟨s3, fun _ _ => a3.trans a1.symm⟩
  · intro (i : Fin 1)
    fin_cases i
    exact ⟨s2, fun _ _ => a2.trans a1.symm⟩

theorem wl_init_returns (p : Params) (hg : p.gamma = none) (b : Nz) (l : List Nz) (z ell : ℝ) :
    ∃ k, (Probe.wl (.init (b :: l))).kernel p z ell = .ok k := by
  simp only [Probe.kernel, WeakLensing.init, WeakLensing.kernel, Option.getD_none]
  rw [C48_order p hg _ z ell _ rfl]
  exact ⟨_, rfl⟩

/-- Witness for C144 and C145: in the Planck cosmology at multipoles 10, 20, 30 with the default
power spectrum, the demonstration survey and its split version have the same likelihood for any
data, and a single bin of it has at most its information. -/
example (T : ℝ → ℝ) : ∃ (mean meanS meanK : List ℝ) (cov covS covK : NdArr ℝ),
    gaussianClCovarianceAndMean Planck15 [10, 20, 30] demoProbes T (fun p k a T => halofit p k a T)
      0.25 true = .ok (mean, cov) ∧
    gaussianClCovarianceAndMean Planck15 [10, 20, 30] splitProbes T (fun p k a T => halofit p k a T)
      0.25 true = .ok (meanS, covS) ∧
    gaussianClCovarianceAndMean Planck15 [10, 20, 30] keptProbes T (fun p k a T => halofit p k a T)
      0.25 true = .ok (meanK, covK) ∧
    (∃ ρ : Fin 18 → Fin 18, Function.Bijective ρ ∧ (ρ 0).val = 15 ∧ ∀ data mu incl m, ∃ v,
      gaussianLogLikelihood data mu cov incl m = .ok v ∧
        gaussianLogLikelihood (data ∘ ρ) (mu ∘ ρ) covS incl m = .ok v) ∧
    ∃ (S : Sp ℝ 6 6 3) (K : Sp ℝ 1 1 3) (ρ : Fin 3 → Fin 18), cov = .d3 6 6 3 S ∧
      covK = .d3 1 1 3 K ∧ (ρ 0).val = 9 ∧
      ∀ u, fisher (denseEntry K) (u ∘ ρ) (u ∘ ρ) ≤ fisher (denseEntry S) u u := by
  obtain ⟨hret, hnn⟩ := C66_default Planck15 planck_physical T
  have hnz : ∀ pr ∈ demoProbes, ∃ n, pr.noise = .ok n := by
    intro pr hpr
    simp only [demoProbes, List.mem_cons, List.not_mem_nil, or_false] at hpr
    rcases hpr with rfl | rfl
    · exact ⟨_, C58_lensing _ _ _ _⟩
    · exact ⟨_, C58_clustering _ _⟩
  have hzS : probesZmax splitProbes = .ok 4 := by
    norm_num [probesZmax, splitProbes, Probe.zmax, Probe.bins, WeakLensing.init, NumberCounts.init,
      pyMax, Nz.zmax, List.mapM_cons, bind, Except.bind, pure, Except.pure]
  have hzK : probesZmax keptProbes = .ok 4 := by
    norm_num [probesZmax, keptProbes, Probe.zmax, Probe.bins, WeakLensing.init, NumberCounts.init,
      pyMax, Nz.zmax, List.mapM_cons, bind, Except.bind, pure, Except.pure]
  obtain ⟨⟨mean, cov⟩, h⟩ := C66_returns Planck15 [10, 20, 30] demoProbes T
    (fun p k a T => halofit p k a T) 0.25 4 true (by simp) demo_zmax hret
    (fun pr hpr z ell => (demo_kernels Planck15 rfl pr hpr z ell).imp fun _ h => h.1) hnz
  obtain ⟨⟨meanS, covS⟩, hS⟩ := C66_returns Planck15 [10, 20, 30] splitProbes T
    (fun p k a T => halofit p k a T) 0.25 4 true (by simp) hzS hret (by
      intro pr hpr z ell
      simp only [splitProbes, List.mem_cons, List.not_mem_nil, or_false] at hpr
      rcases hpr with rfl | rfl | rfl
      · exact (demo_kernels Planck15 rfl _ (by simp [demoProbes]) z ell).imp fun _ h => h.1
      · exact wl_init_returns _ rfl _ _ _ _
      · exact wl_init_returns _ rfl _ _ _ _) (by
      intro pr hpr
      simp only [splitProbes, List.mem_cons, List.not_mem_nil, or_false] at hpr
      rcases hpr with rfl | rfl | rfl
      · exact ⟨_, C58_clustering _ _⟩
      · exact ⟨_, C58_lensing _ _ _ _⟩
      · exact ⟨_, C58_lensing _ _ _ _⟩)
  obtain ⟨⟨meanK, covK⟩, hK⟩ := C66_returns Planck15 [10, 20, 30] keptProbes T
    (fun p k a T => halofit p k a T) 0.25 4 true (by simp) hzK hret (by
      intro pr hpr z ell
      simp only [keptProbes, List.mem_cons, List.not_mem_nil, or_false] at hpr
      subst hpr
      exact wl_init_returns _ rfl _ _ _ _) (by
      intro pr hpr
      simp only [keptProbes, List.mem_cons, List.not_mem_nil, or_false] at hpr
      subst hpr
      exact ⟨_, C58_lensing _ _ _ _⟩)
  have hc : ∀ pr ∈ demoProbes, pr.Consistent := by
    intro pr hpr
    simp only [demoProbes, List.mem_cons, List.not_mem_nil, or_false] at hpr
    rcases hpr with rfl | rfl
    · intro h; simp [WeakLensing.init] at h
    · intro _; trivial
  have hwl : ∀ b : Nz, (Probe.wl (.init [b])).Consistent := fun b _ =>
    ⟨trivial, (fun v hv => by cases hv), trivial⟩
  have hcS : ∀ pr ∈ splitProbes, pr.Consistent := by
    intro pr hpr
    simp only [splitProbes, List.mem_cons, List.not_mem_nil, or_false] at hpr
    rcases hpr with rfl | rfl | rfl
    · intro _; trivial
    · exact hwl _
    · exact hwl _
  have hcK : ∀ pr ∈ keptProbes, pr.Consistent := by
    intro pr hpr
    simp only [keptProbes, List.mem_cons, List.not_mem_nil, or_false] at hpr
    subst hpr
    exact hwl _
  have hN : (tracers demoProbes).length = 3 := rfl
  have hne : tracers demoProbes ≠ [] := by rw [← List.length_pos_iff, hN]; norm_num
  have hpd : ∀ S : Sp ℝ (pairCount (tracers demoProbes).length) (pairCount (tracers demoProbes).length)
      ([10, 20, 30] : List ℝ).length, cov = .d3 _ _ _ S → (denseEntry S).PosDef := by
    obtain ⟨n, hn, hm, S, T', hS, hpd, -⟩ := C66_pipeline Planck15 [10, 20, 30] demoProbes T _ 0.25 4
      (by norm_num) (by norm_num) (by simp) (by norm_num) demo_zmax (by norm_num) hc (by
        intro pr hpr
        simp only [demoProbes, List.mem_cons, List.not_mem_nil, or_false] at hpr
        rcases hpr with rfl | rfl
        · refine ⟨?_, ?_⟩
          · simp [Probe.bins, WeakLensing.init, Nz.gals]
          · norm_num [WeakLensing.init]
        · exact ⟨by simp [Probe.bins, NumberCounts.init, Nz.gals], trivial⟩)
      hne hnn h
    rw [hn]
    intro S' hS'
    rw [hS] at hS'
    cases hS'
    exact hpd
  refine ⟨mean, meanS, meanK, cov, covS, covK, h, hS, hK, ?_, ?_⟩
  · obtain ⟨ρ, h1, h2, h3⟩ := C144_likelihood Planck15 [10, 20, 30] T _ 0.25 4 (by simp) demoProbes
      splitProbes splitIdx demo_selects.1 (by unfold splitIdx; decide : Function.Bijective splitIdx) demo_zmax hzS hc hcS hne h hS hpd
    exact ⟨ρ, h2, h1 (0 : Fin 3) (0 : Fin 3) 0 (0 : Fin 18) (by simp) rfl, h3⟩
  · obtain ⟨S, K, ρ, e1, e2, h1, -, h3, -⟩ := C145_information Planck15 [10, 20, 30] T _ 0.25 4
      (by simp) demoProbes keptProbes keptIdx demo_selects.2
      (by unfold keptIdx; decide : Function.Injective keptIdx) demo_zmax hzK hc hcK h hK hpd
    exact ⟨S, K, ρ, e1, e2, h1 (0 : Fin 1) (0 : Fin 1) 0 (0 : Fin 3) (by simp) rfl, h3⟩

end JaxCosmo
