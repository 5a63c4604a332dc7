import Verif.Proofs.BatchHalofit

/-! # Power spectra on arrays: the assembly -/

namespace JaxCosmo
open Spec Halofit

theorem toNd_fits (x : NdArg) {d : ℕ} (h : len x = d ∨ len x = 1) : x.toNd.Fits d := by
  cases x with
  | scalar x => exact Or.inl rfl
  | vec n f =>
    rcases h with h | h
    · exact Or.inr (Or.inr (by change [n] = _; rw [← h]; rfl))
    · exact Or.inr (Or.inl (by change [n] = _; rw [show n = 1 from h]))

theorem toNd_ent (x : NdArg) (j : ℕ) : x.toNd.ent [j] = item x j := by
  cases x with
  | scalar x => rfl
  | vec n f =>
    simp only [NdArg.toNd, Nd.ent, Nd.vec, bix, List.headD_cons, item]
    split_ifs <;> rfl

theorem atleast_shape (x : NdArg) : x.toNd.atleast1d.shape = [len x] := by cases x <;> rfl

theorem atleast_ent (x : NdArg) (i : List ℕ) : x.toNd.atleast1d.ent i = item x (i.headD 0) := by
  cases x with
  | scalar x => rfl
  | vec n f =>
    change (Nd.vec n f).ent i = _
    simp only [Nd.ent, Nd.vec, bix, List.headD_cons, item]
    split_ifs <;> rfl

theorem Spec.Broadcast.bshape {m n d : ℕ} (h : Broadcast m n d) : bshape [m] [n] = some [d] := by
  rcases h with ⟨rfl, rfl⟩ | ⟨rfl, rfl⟩ | ⟨rfl, rfl⟩ <;> simp [JaxCosmo.bshape, bdim_self, bdim_one, bdim_one']

/-- The assembly on arrays that fit into length `d`. -/
theorem assembleNd_fits {d : ℕ} {k pklin knl : Nd ℝ} {c : Nd (Coeffs × (ℝ × ℝ × ℝ))} (hk : k.Fits d) (hp : pklin.Fits d)
    (hn : knl.Fits d) (hc : c.Fits d) (h1 : pklin.shape = [d] ∨ c.shape = [d]) :
    ∃ z : Nd ℝ, assembleNd k pklin knl c = .ok z.squeeze ∧ z.shape = [d] ∧
      ∀ j, z.ent [j] = assemble (k.ent [j]) (pklin.ent [j]) (knl.ent [j]) (c.ent [j]).1 (c.ent [j]).2 := by
  obtain ⟨d2l, a1, b1, c1, e1⟩ := Nd.map2_fits (fun k pklin : ℝ => k ^ 3 * pklin / (2 * Real.pi ^ 2)) hk hp
  obtain ⟨y, a2, b2, c2, e2⟩ := Nd.map2_fits (fun x y : ℝ => x / y) hk hn
  obtain ⟨q, a3, b3, c3, e3⟩ := Nd.map2_fits (fun (d2l : ℝ) (c : Coeffs × (ℝ × ℝ × ℝ)) =>
    d2l * ((1 + d2l) ^ c.1.beta_n / (1 + c.1.alpha_n * d2l))) b1 hc
  obtain ⟨d2q, a4, b4, c4, e4⟩ := Nd.map2_fits (fun q y : ℝ => q * Real.exp (-(y / 4 + y ^ 2 / 8))) b3 b2
  obtain ⟨d2hp, a5, b5, c5, e5⟩ := Nd.map2_fits (fun (c : Coeffs × (ℝ × ℝ × ℝ)) (y : ℝ) => c.1.a_n * y ^ (3 * c.2.1)
    / (1 + c.1.b_n * y ^ c.2.2.1 + (c.1.c_n * c.2.2.2 * y) ^ (3 - c.1.gamma_n))) hc b2
  obtain ⟨v, a6, b6, c6, e6⟩ := Nd.map2_fits (fun (c : Coeffs × (ℝ × ℝ × ℝ)) (y : ℝ) =>
    1 + c.1.mu_n / y + c.1.nu_n / y ^ 2) hc b2
  obtain ⟨d2h, a7, b7, c7, e7⟩ := Nd.map2_fits (fun x y : ℝ => x / y) b5 b6
  obtain ⟨d2nl, a8, b8, c8, e8⟩ := Nd.map2_fits (fun x y : ℝ => x + y) b4 b7
  obtain ⟨z, a9, b9, c9, e9⟩ := Nd.map2_fits (fun k d : ℝ => 2 * Real.pi ^ 2 / k ^ 3 * d) hk b8
  refine ⟨z, ?_, ?_, fun j => ?_⟩
  · unfold assembleNd
    simp only [a1, a2, a3, a4, a5, a6, a7, a8, a9, okBind']
  · refine c9 (Or.inr (c8 (Or.inl (c4 (Or.inl (c3 ?_))))))
    rcases h1 with h1 | h1
    · exact Or.inl (c1 (Or.inr h1))
    · exact Or.inr h1
  · rw [e9, e8, e7, e6, e5, e4, e3, e2, e1]
    rfl

theorem halofitParametersNd_arr (p : Params) (T : ℝ → ℝ) (a : NdArg) :
    ∃ K n C, halofitParametersNd p T a.toNd.atleast1d = .ok (K, n, C) ∧ K.shape = [len a].filter (· ≠ 1) ∧
      n.shape = [len a] ∧ C.shape = [len a] ∧ (∀ i, K.ent i = Halofit.k_nl p T (item a (i.headD 0))) ∧
      (∀ i < len a, n.val [i] = n_eff p T (item a i)) ∧ ∀ i < len a, C.val [i] = curv p T (item a i) := by
  cases a with
  | scalar x =>
    obtain ⟨K, n, C, h0, h1, h2, h3, h4, h5, h6⟩ := halofitParametersNd_ok p T 1 fun _ => x
    exact ⟨K, n, C, h0, h1, h2, h3, h4, h5, h6⟩
  | vec m f =>
    obtain ⟨K, n, C, h0, h1, h2, h3, h4, h5, h6⟩ := halofitParametersNd_ok p T m f
    have e : ∀ i < m, item (.vec m f) i = f i := by
      intro i hi
      simp only [item]
      split_ifs with h
      · have : i = 0 := by omega
        rw [this]
      · rfl
    refine ⟨K, n, C, h0, h1, h2, h3, fun i => ?_, fun i hi => ?_, fun i hi => ?_⟩
    · rw [h4, item]
      split_ifs <;> rfl
    · rw [h5 i hi, e i hi]
    · rw [h6 i hi, e i hi]

/-- The coefficients on arrays. -/
theorem coeffsNd_ok {p : Params} {T : ℝ → ℝ} {a : NdArg} {n C : Nd ℝ} (hn : n.shape = [len a]) (hC : C.shape = [len a])
    (hn' : ∀ i < len a, n.val [i] = n_eff p T (item a i)) (hC' : ∀ i < len a, C.val [i] = curv p T (item a i))
    (F : ℝ × ℝ → ℝ × ℝ × ℝ → Coeffs × (ℝ × ℝ × ℝ)) :
    ∃ nC c, Nd.map2 Prod.mk n C = .ok nC ∧
      Nd.map2 F nC (a.toNd.atleast1d.map fun a => (Omega_m_a p a, Omega_de_a p a, w p a)) = .ok c ∧ c.shape = [len a] ∧
      ∀ i : List ℕ, (len a = 1 ∨ i.headD 0 < len a) → c.ent i = F (n_eff p T (item a (i.headD 0)), curv p T (item a (i.headD 0)))
        (Omega_m_a p (item a (i.headD 0)), Omega_de_a p (item a (i.headD 0)), w p (item a (i.headD 0))) := by
  have hit : len a = 1 → ∀ j, item a j = item a 0 := by
    intro h j
    cases a with
    | scalar x => rfl
    | vec n f => simp only [item, if_pos (show n = 1 from h)]
  refine ⟨_, _, Nd.map2_ok (s := [len a]) _ (by rw [hn, hC]; exact bshape_self _),
    Nd.map2_ok (y := a.toNd.atleast1d.map _) (s := [len a]) _ (by
      change bshape [len a] a.toNd.atleast1d.shape = _
      rw [atleast_shape]; exact bshape_self _), rfl, fun i hi => ?_⟩
  rw [Nd.ent]
  simp only [Nd.ent_map, atleast_ent]
  simp only [Nd.ent, hn, hC, bix_bix]
  by_cases h1 : len a = 1
  · have hb : bix [len a] i = [0] := by simp [bix, h1]
    rw [hb, hn' 0 (by omega), hC' 0 (by omega), hit h1 (i.headD 0)]
    rfl
  · have hb : bix [len a] i = [i.headD 0] := by simp [bix, h1]
    have hi' := hi.resolve_left h1
    rw [hb, hn' _ hi', hC' _ hi']
    rfl

/-- `halofit` on scale factors that are a scalar or a 1-d array, with wavenumbers that fit. -/
theorem halofitNd_entries (p : Params) (T : ℝ → ℝ) (k : Nd ℝ) (a : NdArg) {d : ℕ} (κ : ℕ → ℝ)
    (hla : len a = 1 ∨ len a = d) (hkb : JaxCosmo.bshape k.atleast1d.shape [len a] = some [d])
    (hk1 : ∀ j < d, k.atleast1d.ent [j] = κ j) (hkf : k.Fits d) (hk2 : ∀ j < d, k.ent [j] = κ j)
    (prescription : String) (hp : prescription = "smith2003" ∨ prescription = "takahashi2012") :
    ∃ P, halofitNd p k a.toNd T prescription = .ok P ∧ P.shape = (if d = 1 then [] else [d]) ∧
      ∀ j < d, halofit p (κ j) (item a j) T prescription = .ok (P.val (if d = 1 then [] else [j])) := by
  have hL := linearNd_ok p T k a.toNd.atleast1d (s := []) (t := [d]) (r := len a)
    (by cases a <;> rfl) (by simp) (by
      have : a.toNd.atleast1d.atleast1d = a.toNd.atleast1d := by cases a <;> rfl
      rw [this, atleast_shape]; exact hkb)
  have haa : a.toNd.atleast1d.atleast1d = a.toNd.atleast1d := by cases a <;> rfl
  rw [haa] at hL
  set pklin : Nd ℝ := Nd.squeeze
    { shape := [d], val := fun i => linearMatterPower p T (k.atleast1d.ent i) (a.toNd.atleast1d.ent i) } with hpk
  obtain ⟨K, n, C, h0, hK, hn, hC, hKv, hnv, hCv⟩ := halofitParametersNd_arr p T a
  have hpf : pklin.Fits d := by
    by_cases hd : d = 1
    · exact Or.inl (by simp [hpk, Nd.squeeze, hd])
    · exact Or.inr (Or.inr (by simp [hpk, Nd.squeeze, hd]))
  have hKf : K.Fits d := by
    by_cases hd : len a = 1
    · exact Or.inl (by simp [hK, hd])
    · exact Or.inr (Or.inr (by rw [hK, hla.resolve_left hd]; rw [hla.resolve_left hd] at hd; simp [hd]))
  have hpe : ∀ j < d, pklin.ent [j] = linearMatterPower p T (κ j) (item a j) := by
    intro j hj
    have : pklin.ent [j] = linearMatterPower p T (k.atleast1d.ent [j]) (a.toNd.atleast1d.ent [j]) := by
      by_cases hd : d = 1
      · have : j = 0 := by omega
        simp [hpk, Nd.ent, Nd.squeeze, hd, this, bix, unsqueeze]
      · simp [hpk, Nd.ent, Nd.squeeze, hd, bix, unsqueeze]
    rw [this, hk1 j hj, atleast_ent, List.headD_cons]
  have fin : ∀ F : ℝ × ℝ → ℝ × ℝ × ℝ → Coeffs × (ℝ × ℝ × ℝ), ∃ P nC c, Nd.map2 Prod.mk n C = .ok nC ∧
      Nd.map2 F nC (a.toNd.atleast1d.map fun a => (Omega_m_a p a, Omega_de_a p a, w p a)) = .ok c ∧
      assembleNd k pklin K c = .ok P ∧ P.shape = (if d = 1 then [] else [d]) ∧ ∀ j < d,
        P.val (if d = 1 then [] else [j]) = (
          let c := F (n_eff p T (item a j), curv p T (item a j)) (Omega_m_a p (item a j), Omega_de_a p (item a j), w p (item a j))
          assemble (κ j) (linearMatterPower p T (κ j) (item a j)) (Halofit.k_nl p T (item a j)) c.1 c.2) := by
    intro F
    obtain ⟨nC, c, hc1, hc2, hc3, hc4⟩ := coeffsNd_ok hn hC hnv hCv F
    have hcf : c.Fits d := by
      rcases hla with h | h
      · exact Or.inr (Or.inl (by rw [hc3, h]))
      · exact Or.inr (Or.inr (by rw [hc3, h]))
    obtain ⟨z, hz1, hz2, hz3⟩ := assembleNd_fits hkf hpf hKf hcf (by
      by_cases hd : d = 1
      · right
        rw [hc3]
        rcases hla with h | h
        · rw [h, hd]
        · rw [h]
      · left
        simp [hpk, Nd.squeeze, hd])
    refine ⟨_, nC, c, hc1, hc2, hz1, ?_, fun j hj => ?_⟩
    · by_cases hd : d = 1 <;> simp [Nd.squeeze, hz2, hd]
    · have e : z.squeeze.val (if d = 1 then [] else [j]) = z.ent [j] := by
        by_cases hd : d = 1
        · have : j = 0 := by omega
          simp [Nd.ent, Nd.squeeze, hz2, hd, this, bix, unsqueeze]
        · simp [Nd.ent, Nd.squeeze, hz2, hd, bix, unsqueeze]
      rw [e, hz3, hk2 j hj, hpe j hj, hKv, hc4 [j] (by
        rcases hla with h | h
        · exact Or.inl h
        · exact Or.inr (by simpa [h] using hj))]
      rfl
  unfold halofitNd
  simp only [hL, h0, okBind']
  rcases hp with rfl | rfl
  · obtain ⟨P, nC, c, h1, h2, h3, h4, h5⟩ := fin fun nC bg =>
      (smith2003 nC.1 nC.2, fSmith bg.1 (bg.2.1 / (1 - bg.1)))
    simp only [h1, okBind', if_true, h2, h3]
    refine ⟨P, rfl, h4, fun j hj => ?_⟩
    rw [h5 j hj]
    rfl
  · obtain ⟨P, nC, c, h1, h2, h3, h4, h5⟩ := fin fun nC bg =>
      (takahashi2012 nC.1 nC.2 bg.2.1 bg.2.2, fTakahashi bg.1)
    have hne : ¬ ("takahashi2012" = "smith2003") := by decide
    simp only [h1, okBind', if_neg hne, if_true, h2, h3]
    refine ⟨P, rfl, h4, fun j hj => ?_⟩
    rw [h5 j hj]
    rfl

end JaxCosmo
