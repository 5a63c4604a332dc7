import Verif.Proofs.BatchSpectra

/-! # C138: power spectra of arrays are arrays of power spectra -/

namespace JaxCosmo
open Spec Halofit

/-- C138: `linear_matter_power` on wavenumbers of any shape and scale factors in a column (1-d arrays, or `(m, 1)`, …):
the result has the broadcast shape without its axes of length one, and its entries are the spectra at the entries. -/
theorem C138_linear (p : Params) (T : ℝ → ℝ) (k a : Nd ℝ) {s t : List ℕ} {r : ℕ}
    (ha : a.atleast1d.shape = s ++ [r]) (hs : ∀ m ∈ s, m = 1)
    (ht : bshape k.atleast1d.shape a.atleast1d.shape = some t) :
    ∃ P, linearNd p T k a = .ok P ∧ P.shape = t.filter (· ≠ 1) ∧ ∀ i, InShape t i →
      P.val (squeezeIx t i) = linearMatterPower p T (k.atleast1d.ent i) (a.atleast1d.ent i) := by
  refine ⟨_, linearNd_ok p T k a ha hs ht, rfl, fun i hi => ?_⟩
  simp only [Nd.squeeze, unsqueeze_squeezeIx hi]

/-- C138: `linear_matter_power` on scalars and 1-d arrays. -/
theorem C138_linear_vec (p : Params) (T : ℝ → ℝ) (k a : NdArg) {d : ℕ} (h : Broadcast (len k) (len a) d) :
    ∃ P, linearNd p T k.toNd a.toNd = .ok P ∧ P.shape = (if d = 1 then [] else [d]) ∧
      ∀ j < d, P.val (if d = 1 then [] else [j]) = linearMatterPower p T (item k j) (item a j) := by
  obtain ⟨P, h1, h2, h3⟩ := C138_linear p T k.toNd a.toNd (s := []) (t := [d]) (r := len a) (atleast_shape a) (by simp)
    (by rw [atleast_shape, atleast_shape]; exact h.bshape)
  refine ⟨P, h1, ?_, fun j hj => ?_⟩
  · rw [h2]
    by_cases hd : d = 1 <;> simp [hd]
  · have := h3 [j] (.cons hj .nil)
    rw [atleast_ent, atleast_ent, List.headD_cons] at this
    rw [← this]
    by_cases hd : d = 1 <;> simp [hd, squeezeIx]

/-- C138: arrays of different lengths, neither one, are refused. -/
theorem C138_mismatch (p : Params) (T : ℝ → ℝ) (m n : ℕ) (κ α : ℕ → ℝ) (h : m ≠ n) (hk : m ≠ 1)
    (ha : n ≠ 1) (prescription : String) :
    linearNd p T (NdArg.vec m κ).toNd (NdArg.vec n α).toNd = .error .typeError ∧
    halofitNd p (NdArg.vec m κ).toNd (NdArg.vec n α).toNd T prescription = .error .typeError := by
  have key : linearNd p T (NdArg.vec m κ).toNd (NdArg.vec n α).toNd = .error .typeError := by
    obtain ⟨g, h1, h2, -⟩ := growthNd_ent p (a := (NdArg.vec n α).toNd.atleast1d) (s := []) (r := n) rfl
      (by simp)
    unfold linearNd
    simp only [h1]
    change (Nd.map2 _ ((NdArg.vec m κ).toNd.map (primordialMatterPower p)) ((NdArg.vec m κ).toNd.map T) >>= _) = _
    rw [Nd.map2_ok (x := (NdArg.vec m κ).toNd.map (primordialMatterPower p)) (y := (NdArg.vec m κ).toNd.map T)
      (s := [m]) _ (bshape_self _)]
    change (Nd.map2 _ _ g >>= _) = _
    have hb : bshape [m] [n] = none := by simp [bshape, bdim, h, hk, ha]
    have h2' : g.shape = [n] := h2
    unfold Nd.map2
    simp only [h2', hb]
    rfl
  refine ⟨key, ?_⟩
  unfold halofitNd
  have e : (NdArg.vec n α).toNd.atleast1d = (NdArg.vec n α).toNd := rfl
  simp only [e, key]
  rfl

/-- C138 (partial): `halofit` on scalars and 1-d arrays that broadcast: shape and entries are those of `halofit` at the
entries.  False for columns of wavenumbers at one scale factor (`C138_refuted`). -/
theorem C138_partial (p : Params) (T : ℝ → ℝ) (k a : NdArg) {d : ℕ} (h : Broadcast (len k) (len a) d)
    (prescription : String) (hp : prescription = "smith2003" ∨ prescription = "takahashi2012") :
    ∃ P, halofitNd p k.toNd a.toNd T prescription = .ok P ∧ P.shape = (if d = 1 then [] else [d]) ∧
      ∀ j < d, halofit p (item k j) (item a j) T prescription = .ok (P.val (if d = 1 then [] else [j])) := by
  refine halofitNd_entries p T k.toNd a (item k) ?_ (by rw [atleast_shape]; exact h.bshape) (fun j _ => ?_)
    (toNd_fits k ?_) (fun j _ => toNd_ent k j) prescription hp
  · rcases h with ⟨h1, h2⟩ | ⟨h1, h2⟩ | ⟨h1, h2⟩ <;> omega
  · rw [atleast_ent, List.headD_cons]
  · rcases h with ⟨h1, h2⟩ | ⟨h1, h2⟩ | ⟨h1, h2⟩ <;> omega

/-- C138 fails for a column of wavenumbers at one scale factor: `linear_matter_power` drops the axis of length one, so
`halofit` returns a square in which row `j`, column `i` mixes wavenumber `j` with the linear power at wavenumber `i`. -/
theorem C138_column (p : Params) (T : ℝ → ℝ) (n : ℕ) (hn : 2 ≤ n) (κ : ℕ → ℝ) (a : ℝ) :
    ∃ L P, linearNd p T { shape := [1, n], val := fun i => κ (i.tail.headD 0) } (.scalar a) = .ok L ∧ L.shape = [n] ∧
      halofitNd p { shape := [1, n], val := fun i => κ (i.tail.headD 0) } (Nd.scalar a) T = .ok P ∧ P.shape = [n, n] ∧
      ∀ i < n, ∀ j < n, P.val [i, j] = assemble (κ j) (linearMatterPower p T (κ i) a) (Halofit.k_nl p T a)
        (takahashi2012 (n_eff p T a) (curv p T a) (Omega_de_a p a) (w p a)) (fTakahashi (Omega_m_a p a)) := by
  have hn1 : n ≠ 1 := by omega
  set k : Nd ℝ := { shape := [1, n], val := fun i => κ (i.tail.headD 0) } with hk
  have hka : k.atleast1d = k := rfl
  have hbs : bshape [1, n] [1] = some [1, n] := by simp [bshape, bdim_self]
  have hL := linearNd_ok p T k (.scalar a) (s := []) (t := [1, n]) (r := 1) rfl (by simp) (by rw [hka]; exact hbs)
  have hL' := linearNd_ok p T k (Nd.scalar a).atleast1d (s := []) (t := [1, n]) (r := 1) rfl (by simp)
    (by rw [hka]; exact hbs)
  rw [hka] at hL hL'
  obtain ⟨K, nn, C, h0, hK, hnn, hC, hKv, hnv, hCv⟩ := halofitParametersNd_arr p T (.scalar a)
  obtain ⟨nC, c, hc1, hc2, hc3, hc4⟩ := coeffsNd_ok hnn hC hnv hCv fun nC bg =>
    (takahashi2012 nC.1 nC.2 bg.2.1 bg.2.2, fTakahashi bg.1)
  have hK' : K.shape = [] := by simp [hK, len]
  have hc3' : c.shape = [1] := hc3
  set pk : Nd ℝ := Nd.squeeze
    { shape := [1, n], val := fun i => linearMatterPower p T (k.ent i) ((Nd.scalar a).atleast1d.atleast1d.ent i) } with hpk
  have hps : pk.shape = [n] := by simp [hpk, Nd.squeeze, hn1]
  have hne : ¬ ("takahashi2012" = "smith2003") := by decide
  have hasm : ∃ P, assembleNd k pk K c = .ok P ∧ P.shape = [n, n] ∧ ∀ i < n, ∀ j < n,
      P.val [i, j] = assemble (k.ent [i, j]) (pk.ent [i, j]) (K.ent [i, j]) (c.ent [i, j]).1 (c.ent [i, j]).2 := by
    have s1 : bshape k.shape pk.shape = some [n, n] := by
      rw [hps]; change bshape [1, n] [n] = _; simp [bshape, bdim_one]
    have s2 : bshape k.shape K.shape = some [1, n] := by rw [hK']; rfl
    have s3 : bshape [n, n] c.shape = some [n, n] := by rw [hc3']; simp [bshape, bdim_one']
    have s4 : bshape [n, n] [1, n] = some [n, n] := by simp [bshape, bdim_one', bdim_self]
    have s5 : bshape c.shape [1, n] = some [1, n] := by rw [hc3']; simp [bshape, bdim_self]
    have s6 : bshape [1, n] [n, n] = some [n, n] := by simp [bshape, bdim_one, bdim_self]
    unfold assembleNd
    rw [Nd.map2_ok (x := k) (y := pk) _ s1]
    simp only [okBind']
    rw [Nd.map2_ok (x := k) (y := K) _ s2]
    simp only [okBind']
    rw [Nd.map2_ok (y := c) _ s3]
    simp only [okBind']
    rw [Nd.map2_ok _ s4]
    simp only [okBind']
    rw [Nd.map2_ok (x := c) _ s5]
    simp only [okBind']
    rw [Nd.map2_ok (x := c) _ s5]
    simp only [okBind']
    rw [Nd.map2_ok _ (bshape_self [1, n])]
    simp only [okBind']
    rw [Nd.map2_ok _ s4]
    simp only [okBind']
    rw [Nd.map2_ok (x := k) _ s6]
    simp only [okBind']
    refine ⟨_, rfl, by simp [Nd.squeeze, hn1], fun i hi j hj => ?_⟩
    have hb : bix [n, n] [i, j] = [i, j] := bix_of_in (.cons hi (.cons hj .nil))
    have hb' : bix [1, n] [i, j] = [0, j] := by simp [bix, hn1]
    have hu : unsqueeze [n, n] [i, j] = [i, j] := by simp [unsqueeze, hn1]
    have e1 : ∀ {α : Type} (x : Nd α) (s : List ℕ) (h : x.shape = s) (i : List ℕ), x.ent i = x.val (bix s i) := by
      intro α x s h i
      rw [Nd.ent, h]
    have hk0 : k.ent [0, j] = k.ent [i, j] := by simp [hk, Nd.ent, bix, hn1]
    have hK0 : K.ent [0, j] = K.ent [i, j] := by rw [e1 K _ hK', e1 K _ hK']; rfl
    have hc0 : c.ent [0, j] = c.ent [i, j] := by rw [e1 c _ hc3', e1 c _ hc3']; simp [bix]
    have hbb : bix [1, n] [0, j] = [0, j] := by simp [bix, hn1]
    have em : ∀ v : List ℕ → ℝ, (Nd.mk [n, n] v).ent [i, j] = v [i, j] := fun v => by rw [e1 _ _ rfl, hb]
    have em1 : ∀ v : List ℕ → ℝ, (Nd.mk [1, n] v).ent [i, j] = v [0, j] := fun v => by rw [e1 _ _ rfl, hb']
    have em0 : ∀ v : List ℕ → ℝ, (Nd.mk [1, n] v).ent [0, j] = v [0, j] := fun v => by rw [e1 _ _ rfl, hbb]
    simp only [Nd.squeeze, hu, em, em1, em0, hk0, hK0, hc0]
    rfl
  obtain ⟨P, hP1, hP2, hP3⟩ := hasm
  refine ⟨_, P, hL, by simp [Nd.squeeze, hn1], ?_, hP2, fun i hi j hj => ?_⟩
  · unfold halofitNd
    change (linearNd p T k (Nd.scalar a).atleast1d >>= _) = _
    rw [hL']
    simp only [okBind']
    simp only [NdArg.toNd] at h0 hc2
    rw [h0]
    simp only [okBind', hc1]
    rw [if_neg hne, if_pos trivial]
    rw [hc2]
    exact hP1
  · rw [hP3 i hi j hj, hKv, hc4 [i, j] (Or.inl rfl)]
    have ek : k.ent [i, j] = κ j := by simp [hk, Nd.ent, bix, hn1]
    have ep : pk.ent [i, j] = linearMatterPower p T (κ i) a := by
      rw [Nd.ent, hps]
      simp [hpk, Nd.squeeze, unsqueeze, bix, hn1, hk, Nd.ent, Nd.scalar, Nd.atleast1d]
    rw [ek, ep]
    rfl

/-- C138 fails: the spectrum of a column of two wavenumbers has four entries. -/
theorem C138_refuted : ¬ ∀ (p : Params) (T : ℝ → ℝ) (k : Nd ℝ) (a : ℝ) (P L : Nd ℝ), linearNd p T k (.scalar a) = .ok L →
    halofitNd p k (.scalar a) T = .ok P → P.size = L.size := by
  intro h
  obtain ⟨L, P, h1, h2, h3, h4, -⟩ := C138_column Planck15 (fun _ => 1) 2 le_rfl (fun j => j + 1) 1
  have := h _ _ _ _ _ _ h1 h3
  simp [Nd.size, h2, h4] at this

/-- C138: scale factors in rows of length `m` are refused unless `m` is 1 or the length of the table. -/
theorem C138_rows (p : Params) (m r : ℕ) (α : List ℕ → ℝ) :
    (m ≠ 1 ∧ m ≠ 128 → growthNd p { shape := [m, r], val := α } = .error .typeError) ∧
    (m = 1 → ∃ g, growthNd p { shape := [m, r], val := α } = .ok g ∧ g.shape = [m, r] ∧
      ∀ j, g.val [0, j] = growthOf p (α [0, j])) ∧
    (m = 128 → ∃ g, growthNd p { shape := [m, r], val := α } = .ok g ∧ g.shape = [m, r]) := by
  refine ⟨fun ⟨h1, h2⟩ => ?_, fun h => ?_, fun h => ?_⟩
  · have hb : bshape [m] [(growthTable p).n] = none := by
      rw [growthTable_n]
      simp [bshape, bdim, h1, h2]
    have he : ∀ x : Nd ℝ, x.shape = [m] →
        interpBody (growthTable p).n (growthTable p).a (growthTable p).g x = .error .typeError := by
      intro x hx
      unfold interpBody Nd.map2
      simp only [hx, Nd.vec, hb]
      rfl
    unfold growthNd interpNd Nd.vmap
    simp only [List.getLast?_cons_cons, List.getLast?_singleton]
    rw [he _ rfl]
    rfl
  · subst h
    exact growthNd_col p (a := { shape := [1, r], val := α }) (s := [1]) (r := r) rfl (by simp)
  · subst h
    have hb : bshape [128] [(growthTable p).n] = some [128] := by
      rw [growthTable_n]
      exact bshape_self _
    have he : ∀ x : Nd ℝ, x.shape = [128] →
        ∃ y, interpBody (growthTable p).n (growthTable p).a (growthTable p).g x = .ok y ∧ y.shape = [128] := by
      intro x hx
      unfold interpBody Nd.map2
      simp only [hx, Nd.vec, hb]
      exact ⟨_, rfl, hx⟩
    have h1 : ∀ j, ∃ y, interpBody (growthTable p).n (growthTable p).a (growthTable p).g
        (Nd.at0 { shape := [128, r], val := α } j) = .ok y ∧ y.shape = [128] := fun j => he _ rfl
    choose y hy1 hy2 using h1
    obtain ⟨z, hz1, hz2, -⟩ := vmap_ok (x := { shape := [128, r], val := α }) (s := [128]) (r := r) rfl hy1 (hy2 0)
    exact ⟨z.map fun x => clip x 0 1, by unfold growthNd interpNd; rw [hz1]; rfl, hz2⟩

/-- C138: … in which case the entries are wrong: the squares at the nodes 0, 1, 2, 3 queried in the row 3, 1, 2, 0 give 7
where the table says 9. -/
theorem C138_rows_wrong : ∃ y, interpNd 4 (fun i => (i : ℝ)) (fun i => (i : ℝ) ^ 2)
      { shape := [4, 1], val := fun i => [3, 1, 2, 0].getD (i.headD 0) 0 } = .ok y ∧ y.shape = [4, 1] ∧
    y.val [0, 0] = 7 ∧ interp 4 (fun i => (i : ℝ)) (fun i => (i : ℝ) ^ 2) 3 = 9 := by
  have hz : ∀ f : ℕ → ℝ, f 0 = 9 → f 1 = 0 → f 2 = 0 → f 3 = 9 → argmin 4 f = 1 := by
    intro f h0 h1 h2 h3
    simp [argmin, argminUpTo, h0, h1, h2, h3]
  have i1 : ix 4 1 = 1 := by decide
  have i2 : ix 4 2 = 2 := by decide
  have i3 : ix 4 3 = 3 := by decide
  have im : ix 4 (-2) = 2 := by decide
  have hb : ∀ j, ∃ y, interpBody 4 (fun i => (i : ℝ)) (fun i => (i : ℝ) ^ 2)
      (Nd.at0 { shape := [4, 1], val := fun i => [3, 1, 2, 0].getD (i.headD 0) 0 } j) = .ok y ∧ y.shape = [4] ∧
      y.val [0] = 7 := by
    intro j
    unfold interpBody
    rw [Nd.map2_ok (s := [4]) _ (by rfl)]
    refine ⟨_, rfl, rfl, ?_⟩
    simp only [Nd.map]
    rw [show Nd.size (Nd.mk [4] _) = 4 from rfl, hz]
    · norm_num [Nd.at0, iclip, i1, i2, im, sgn, clip, copysign1]
    all_goals simp [unravel, Nd.ent, Nd.at0, Nd.vec, bix]
    all_goals norm_num
  choose y hy1 hy2 hy3 using hb
  obtain ⟨z, hz1, hz2, hz3⟩ := vmap_ok (f := interpBody 4 (fun i => (i : ℝ)) (fun i => (i : ℝ) ^ 2)) (x := { shape := [4, 1], val := fun i => [3, 1, 2, 0].getD (i.headD 0) 0 })
    (s := [4]) (r := 1) rfl hy1 (hy2 0)
  refine ⟨z, hz1, hz2, (hz3 [0] 0).trans (hy3 0), ?_⟩
  have hz' : argmin 4 (fun i => ((3 : ℝ) - (i : ℝ)) ^ 2) = 3 := by
    simp [argmin, argminUpTo]; norm_num
  norm_num [interp, hz', iclip, i1, i2, i3, im, sgn, clip, copysign1]

/-- Two wavenumbers at one scale factor, and at two; three wavenumbers at two scale factors are refused. -/
example : (∃ P, halofitNd Planck15 (NdArg.vec 2 fun i => i + 1).toNd (.scalar 1) (fun _ => 1) "smith2003" = .ok P ∧
      P.shape = [2]) ∧
    (∃ P, halofitNd Planck15 (NdArg.vec 2 fun i => i + 1).toNd (.vec 2 fun i => 1 / (i + 1)) (fun _ => 1) = .ok P ∧ P.shape = [2]) ∧
    linearNd Planck15 (fun _ => 1) (NdArg.vec 3 fun i => i + 1).toNd (NdArg.vec 2 fun i => 1 / (i + 1)).toNd = .error .typeError := by
  refine ⟨?_, ?_, ?_⟩
  · obtain ⟨P, h1, h2, -⟩ := C138_partial Planck15 (fun _ => 1) (.vec 2 fun i => i + 1) (.scalar 1) (d := 2)
      (by simp [Broadcast, len]) "smith2003" (Or.inl rfl)
    exact ⟨P, h1, by simpa using h2⟩
  · obtain ⟨P, h1, h2, -⟩ := C138_partial Planck15 (fun _ => 1) (.vec 2 fun i => i + 1) (.vec 2 fun i => 1 / (i + 1))
      (d := 2) (by simp [Broadcast, len]) "takahashi2012" (Or.inr rfl)
    exact ⟨P, h1, by simpa using h2⟩
  · exact (C138_mismatch Planck15 (fun _ => 1) 3 2 _ _ (by simp) (by simp) (by simp) "smith2003").1

/-- A row of two wavenumbers at a column of three scale factors: a table of three rows. -/
example : ∃ P, linearNd Planck15 (fun _ => 1) (NdArg.vec 2 fun i => i + 1).toNd
    { shape := [1, 3], val := fun i => 1 / (i.tail.headD 0 + 1) } = .ok P ∧ P.shape = [2, 3] ∧
    P.val [1, 2] = linearMatterPower Planck15 (fun _ => 1) 2 (1 / 3) := by
  obtain ⟨P, h1, h2, h3⟩ := C138_linear Planck15 (fun _ => 1) (NdArg.vec 2 fun i => i + 1).toNd
    { shape := [1, 3], val := fun i => 1 / (i.tail.headD 0 + 1) } (s := [1]) (t := [2, 3]) (r := 3) rfl (by simp) (by decide)
  refine ⟨P, h1, h2, ?_⟩
  have := h3 [1, 2] (.cons (by decide) (.cons (by decide) .nil))
  norm_num [squeezeIx, Nd.ent, Nd.atleast1d, bix, NdArg.toNd, Nd.vec] at this
  rw [this]

end JaxCosmo
