import Verif.Proofs.BatchProbes
import Verif.Proofs.BatchSpectra
import Verif.Props.Probes

/-! # Angular spectra on arrays -/

namespace JaxCosmo
open Spec

variable {n : ℕ} {ι : Type}

theorem applyM_cols (mb : Val) {m : ℕ} {R : ι → Nd ℝ} {ls : ι → ℕ → List ℝ} (hR : ∀ q, IsCols n m (R q) (ls q)) :
    Columns n (fun q => applyMNd (R q) mb) fun q j => applyM (ls q j) mb := by
  unfold applyMNd applyM
  match mb with
  | .num x => exact Columns.ok fun q => (hR q).map _
  | .nums [] => exact Columns.error
  | .nums (x :: l) => exact expand1_cols (x :: l) hR _
  | .none => exact Columns.error
  | .bias _ => exact Columns.error
  | .biases _ => exact Columns.error

theorem wlKernel_cols (o : WeakLensing) (p : Params) {z : Nd ℝ} (hz : z.shape = [n]) :
    Columns n (fun ell => o.kernelNd p z ell) fun ell j => o.kernel p (z.val [j]) ell := by
  have hz1 : z.atleast1d = z := by
    unfold Nd.atleast1d
    rw [hz]
  unfold WeakLensing.kernelNd WeakLensing.kernel
  simp only [hz1]
  refine Columns.bind (lensing_cols p o.bins hz) fun m R ls hR => ?_
  by_cases hi : o.ia_enabled = true
  · simp only [hi, if_true]
    rcases o.param2 with _ | bias
    · exact Columns.error
    · refine Columns.bind (nla_cols p o.bins bias hz) fun m' S ks hS => ?_
      exact Columns.bind (Columns.bcast hR hS _) fun m'' Q cs hQ => applyM_cols _ hQ
  · simp only [hi]
    exact applyM_cols _ hR

theorem kernel_cols (pr : Probe) (p : Params) {z : Nd ℝ} (hz : z.shape = [n]) :
    Columns n (fun ell => pr.kernelNd p z ell) fun ell j => pr.kernel p (z.val [j]) ell := by
  have hz1 : z.atleast1d = z := by
    unfold Nd.atleast1d
    rw [hz]
  cases pr with
  | wl o => exact wlKernel_cols o p hz
  | nc o =>
    unfold Probe.kernelNd Probe.kernel NumberCounts.kernelNd NumberCounts.kernel
    simp only [hz1]
    exact density_cols p o.bins o.bias hz

/-! ## Kernels have rows -/

theorem bcast_ne_nil {f : ℝ → ℝ → ℝ} {xs ys l : List ℝ} (hx : xs ≠ []) (hy : ys ≠ []) (h : bcast f xs ys = .ok l) :
    l ≠ [] := by
  rw [bcast_of_length] at h
  split_ifs at h
  · cases h
    cases xs with
    | nil => exact absurd rfl hx
    | cons x xs =>
      cases ys with
      | nil => exact absurd rfl hy
      | cons y ys => simp
  · cases h
    simpa using hy
  · cases h
    simpa using hx

theorem biasRows_ne_nil {p : Params} {bias : Val} {z : ℝ} {l : List ℝ} (h : biasRows p bias z = .ok l) : l ≠ [] := by
  unfold biasRows at h
  match bias, h with
  | .bias b, h => cases h; simp
  | .biases (b :: bs), h => cases h; simp
  | .nums [], h => cases h
  | .nums (_ :: _), h => cases h

theorem radialRows_ne_nil {p : Params} {pzs : List Nz} {bias : Val} {z : ℝ} {l : List ℝ}
    (h : radialRows p pzs bias z = .ok l) : l ≠ [] := by
  unfold radialRows at h
  split_ifs at h with h0
  rcases hb : biasRows p bias z with e | b
  · rw [hb] at h
    cases h
  · rw [hb] at h
    exact bcast_ne_nil (by simpa using h0) (biasRows_ne_nil hb) h

theorem map_ne_nil_of {f : ℝ → ℝ} {X : Except PyErr (List ℝ)} {l : List ℝ} (hX : ∀ k, X = .ok k → k ≠ [])
    (h : (X >>= fun k => .ok (k.map f)) = .ok l) : l ≠ [] := by
  rcases X with e | k
  · cases h
  · have := hX k rfl
    cases h
    simpa using this

theorem density_ne_nil {p0 : Params} {pzs : List Nz} {bias : Val} {z ell : ℝ} {l : List ℝ}
    (h : densityKernel p0 pzs bias z ell = .ok l) : l ≠ [] := by
  rw [densityKernel_eq] at h
  rcases jitCosmo_cases p0 with ⟨e, hj⟩ | ⟨p, hj⟩
  · rw [hj] at h
    cases h
  · rw [hj] at h
    simp only [okBind'] at h
    split_ifs at h
    exact map_ne_nil_of (fun k hk => map_ne_nil_of (fun k hk => radialRows_ne_nil hk) hk) h

theorem nla_ne_nil {p0 : Params} {pzs : List Nz} {bias : Val} {z ell : ℝ} {l : List ℝ}
    (h : nlaKernel p0 pzs bias z ell = .ok l) : l ≠ [] := by
  rw [nlaKernel_eq] at h
  rcases jitCosmo_cases p0 with ⟨e, hj⟩ | ⟨p, hj⟩
  · rw [hj] at h
    cases h
  · rw [hj] at h
    simp only [okBind', List.map_map] at h
    split_ifs at h
    exact map_ne_nil_of (fun k hk => map_ne_nil_of (fun k hk => radialRows_ne_nil hk) hk) h

theorem applyM_ne_nil {k l : List ℝ} {m : Val} (hk : k ≠ []) (h : applyM k m = .ok l) : l ≠ [] := by
  unfold applyM at h
  match m, h with
  | .num x, h => cases h; simpa using hk
  | .nums (x :: xs), h => exact bcast_ne_nil hk (by simp) h

theorem kernel_ne_nil {pr : Probe} {p : Params} {z ell : ℝ} {l : List ℝ} (h : pr.kernel p z ell = .ok l) : l ≠ [] := by
  cases pr with
  | nc o => exact density_ne_nil (ell := ell) h
  | wl o =>
    change o.kernel p z ell = _ at h
    unfold WeakLensing.kernel at h
    rcases hw : weakLensingKernel p o.bins z ell with e | k
    · rw [hw] at h
      cases h
    · have hk := (wl_length p o.bins z ell hw).2
      rw [hw] at h
      simp only [okBind'] at h
      by_cases hi : o.ia_enabled = true
      · simp only [hi, if_true] at h
        rcases hp : o.param2 with _ | bias
        · rw [hp] at h
          cases h
        · rw [hp] at h
          rcases hn : nlaKernel p o.bins bias z ell with e | ia
          · simp only [hn] at h
            cases h
          · simp only [hn, okBind'] at h
            rcases hb : bcast (· + ·) k ia with e | s
            · simp only [hb] at h
              cases h
            · simp only [hb, okBind'] at h
              exact applyM_ne_nil (bcast_ne_nil hk (nla_ne_nil hn) hb) h
      · simp only [hi] at h
        exact applyM_ne_nil hk h

/-! ## The integrand -/

theorem limber_cols (p : Params) (T : ℝ → ℝ) {nlNd : NlNd} {nl : Params → ℝ → ℝ → (ℝ → ℝ) → Except PyErr ℝ}
    (hnl : Elementwise n nlNd nl) (probes : List Probe) (hp : probes ≠ []) (h0 : getClOrdering probes ≠ [])
    (α : ℕ → ℝ) :
    Columns n (fun ell => limberNd p T nlNd probes ell (.vec n α)) fun ell j => clIntegrand p T nl probes ell (α j) := by
  unfold limberNd clIntegrand nonlinearMatterPower
  obtain ⟨chi, c1, c2, c3⟩ := chiNd_row p (a := Nd.vec n α) (n := n) rfl
  have c3' : ∀ j, chi.val [j] = chiOf p (α j) := c3
  simp only [c1, okBind']
  rcases hnl p T α with ⟨e, he⟩ | ⟨v, hv, hR⟩
  · simp only [fun q : ℝ => (he (chi.map fun chi => (q + 0.5) / clipLo chi 1) c2).1, fun x j => (he chi c2).2 x j]
    exact Columns.error
  choose P p1 p2 p3 using fun q : ℝ => hR (chi.map fun chi => (q + 0.5) / clipLo chi 1) c2
  simp only [p1, hv, okBind']
  rcases mapM_columns (n := n) probes (F := fun pr ell => pr.kernelNd p ((Nd.vec n α).map a2z) ell)
    (G := fun pr ell j => pr.kernel p (a2z (α j)) ell) (fun pr _ => kernel_cols pr p rfl) with ⟨e, he⟩ | ⟨ms, xs, es, hk⟩
  · simp only [fun q => (he q).1, fun q j => (he q).2 j]
    exact Columns.error
  choose k1 k2 k3 k4 k5 using hk
  choose Z z1 z2 using fun q => concat0_cols (n := n) (xs := xs q) (es := es q)
    (by intro h; have := k4 q; rw [h] at this; exact hp (List.length_eq_zero_iff.1 this.symm)) (k5 q)
  simp only [k3] at z2
  -- there are rows
  have hN : 0 < ms.sum := by
    obtain ⟨pr, l, rfl⟩ := List.exists_cons_of_ne_nil hp
    have h2 := k2 0 0
    rw [List.mapM_cons] at h2
    rcases hkr : pr.kernel p (a2z (α 0)) 0 with e | r
    · rw [hkr] at h2
      cases h2
    · rw [hkr] at h2
      rcases hl : l.mapM (fun pr => pr.kernel p (a2z (α 0)) 0) with e | rs
      · rw [hl] at h2
        cases h2
      · rw [hl] at h2
        have h3 : r :: rs = (es 0).map (·.2 0) := by
          injection h2
        have h4 := ((z2 0).2 0).1
        simp only [← h3, List.flatten_cons, List.length_append] at h4
        have := List.length_pos_iff.2 (kernel_ne_nil hkr)
        omega
  have key : ∀ q : ℝ, ∃ R, (do
        let kernels ← Nd.concat0 (xs q)
        let products ← (getClOrdering probes).mapM fun ij : ℕ × ℕ =>
          Nd.map2 (· * ·) (kernels.at0 (ix (kernels.shape.getLastD 0) ij.1)) (kernels.at0 (ix (kernels.shape.getLastD 0) ij.2))
        let kernels ← Nd.stack0 products
        let r ← Nd.map2 (· * ·) (P q) kernels
        let r ← Nd.map2 (fun r a => r * dchioverda p a) r (.vec n α)
        Nd.map2 (fun r chi => r / clipLo (chi ^ 2) 1) r chi) = .ok R ∧
      IsCols n (getClOrdering probes).length R fun j => ((getClOrdering probes).map fun ij =>
        gather ((es q).map (·.2 j)).flatten ij.1 * gather ((es q).map (·.2 j)).flatten ij.2).map fun kk =>
          v ((q + 0.5) / clipLo (chiOf p (α j)) 1) (α j) * kk * dchioverda p (α j) / clipLo (chiOf p (α j) ^ 2) 1 := by
    intro q
    have hs : (Z q).shape.getLastD 0 = ms.sum := by rw [(z2 q).1]; rfl
    have hrow : ∀ i, ((Z q).at0 i).shape = [n] := fun i => by simp [Nd.at0, (z2 q).1]
    have hval : ∀ (i : ℕ) (j : ℕ), j < n → ((Z q).at0 (ix ms.sum i)).val [j] = gather ((es q).map (·.2 j)).flatten i := by
      intro i j hj
      change (Z q).val [j, ix ms.sum i] = _
      rw [((z2 q).2 j).2 hj _ (ix_lt hN _), gather, ((z2 q).2 j).1]
    obtain ⟨rows, D, d1, d2, d3, d4⟩ := stack_mapM (n := n) (l := getClOrdering probes) (f := fun ij : ℕ × ℕ =>
        Nd.map2 (fun x1 x2 : ℝ => x1 * x2) ((Z q).at0 (ix ms.sum ij.1)) ((Z q).at0 (ix ms.sum ij.2)))
      (v := fun ij j => gather ((es q).map (·.2 j)).flatten ij.1 * gather ((es q).map (·.2 j)).flatten ij.2) h0 (by
        intro ij _
        obtain ⟨y, y1, y2, y3⟩ := Nd.map2_row (fun x1 x2 : ℝ => x1 * x2) (hrow (ix ms.sum ij.1)) (hrow (ix ms.sum ij.2))
        exact ⟨y, y1, y2, fun j hj => by rw [y3 j hj, hval _ j hj, hval _ j hj]⟩)
    obtain ⟨A, a1, a2, a3⟩ := Nd.map2_row_mat (fun x1 x2 : ℝ => x1 * x2) (p2 q) d3
    obtain ⟨B, b1, b2, b3⟩ := Nd.map2_mat_row (fun r a : ℝ => r * dchioverda p a) a2 (y := Nd.vec n α) rfl
    obtain ⟨C, e1, e2, e3⟩ := Nd.map2_mat_row (fun r chi : ℝ => r / clipLo (chi ^ 2) 1) b2 c2
    refine ⟨C, ?_, e2, fun j => ⟨by simp, fun hj i hi => ?_⟩⟩
    · simp only [z1 q, okBind', hs, d1, d2, a1, b1]
      exact e1
    · rw [e3 j hj i hi, b3 j hj i hi, a3 j hj i hi, d4 j hj i hi, p3 q j hj, c3',
        List.getD_eq_getElem _ _ (by simpa using hi), List.getElem_map, List.getElem_map]
      change v ((q + 0.5) / clipLo (chi.val [j]) 1) (α j) * _ * _ / _ = _
      rw [c3']
      rfl
  choose R r1 r2 using key
  simp only [k1, k2, okBind', r1]
  exact Columns.ok r2

/-! ## Integrals -/

theorem probesZmax_ne {probes : List Probe} {zmax : ℝ} (h : probesZmax probes = .ok zmax) :
    probes ≠ [] ∧ getClOrdering probes ≠ [] := by
  unfold probesZmax at h
  cases probes with
  | nil => cases h
  | cons pr l =>
    refine ⟨by simp, ?_⟩
    rw [List.mapM_cons] at h
    rcases hz : pr.zmax with e | z
    · rw [hz] at h
      cases h
    · have hb : pr.bins ≠ [] := by
        intro h0
        unfold Probe.zmax at hz
        rw [h0] at hz
        cases hz
      have hn : 0 < nTracers (pr :: l) := by
        have := List.length_pos_iff.2 hb
        simp only [nTracers, List.map_cons, List.sum_cons, Probe.nTracers]
        omega
      intro h0
      have : ((0, 0) : ℕ × ℕ) ∈ getClOrdering (pr :: l) := by
        unfold getClOrdering clIndex
        rw [List.mem_flatMap]
        exact ⟨0, List.mem_range.2 hn, List.mem_map.2 ⟨0, by simp [List.mem_range'_1, hn], rfl⟩⟩
      rw [h0] at this
      simp at this

theorem probesZmax_error {probes : List Probe} {e : PyErr} (h : probesZmax probes = .error e) : e = .valueError := by
  have hm : ∀ (l : List ℝ) e, pyMax l = .error e → e = .valueError := by
    intro l e h
    cases l with
    | nil => cases h; rfl
    | cons x l => cases h
  have hz : ∀ (l : List Probe) e, l.mapM Probe.zmax = .error e → e = .valueError := by
    intro l
    induction l with
    | nil => intro e h; cases h
    | cons pr l ih =>
      intro e h
      rw [List.mapM_cons] at h
      rcases h1 : pr.zmax with e1 | z
      · rw [h1] at h
        cases h
        exact hm _ _ h1
      · rw [h1] at h
        rcases h2 : l.mapM Probe.zmax with e2 | zs
        · rw [h2] at h
          cases h
          exact ih _ h2
        · rw [h2] at h
          cases h
  unfold probesZmax at h
  rcases h1 : probes.mapM Probe.zmax with e1 | zs
  · rw [h1] at h
    cases h
    exact hz _ _ h1
  · rw [h1] at h
    exact hm _ _ h

theorem mapM_error {α β : Type} {f : α → Except PyErr β} {e : PyErr} {l : List α} (h0 : l ≠ []) (h : ∀ a, f a = .error e) :
    l.mapM f = .error e := by
  cases l with
  | nil => exact absurd rfl h0
  | cons a l =>
    rw [List.mapM_cons, h a]
    rfl

theorem simpsNd_val {f : Nd ℝ → Except PyErr (Nd ℝ)} {a b : ℝ} {N : ℕ} {y : Nd ℝ} {t : List ℕ}
    (hf : f (.vec (N + 1) (linspace a b (N + 1))) = .ok y) (hy : y.shape = t ++ [N + 1]) :
    ∃ S, simpsNd f a b N = .ok S ∧ S.shape = t ∧ ∀ i, S.val i = (b - a) / (N : ℝ) / 3 * ∑ j ∈ Finset.range (N / 2),
      (y.val (i ++ [2 * j]) + 4 * y.val (i ++ [2 * j + 1]) + y.val (i ++ [2 * j + 2])) := by
  have hl : y.shape.getLast? = some (N + 1) := by simp [hy]
  unfold simpsNd
  rw [hf]
  simp only [if_pos hl]
  exact ⟨_, rfl, by simp [hy], fun i => rfl⟩

theorem cl_cases (p : Params) (T : ℝ → ℝ) {nlNd : NlNd} {nl : Params → ℝ → ℝ → (ℝ → ℝ) → Except PyErr ℝ}
    (hnl : Elementwise 513 nlNd nl) {probes : List Probe} {zmax : ℝ} (hz : probesZmax probes = .ok zmax) :
    (∃ e, ∀ ell, clNd p T nlNd probes zmax ell = .error e ∧ clAt p T nl probes ell = .error e) ∨
    ∃ (R : ℝ → Nd ℝ) (ls : ℝ → List ℝ), ∀ ell, clNd p T nlNd probes zmax ell = .ok (R ell) ∧
      clAt p T nl probes ell = .ok (ls ell) ∧ (R ell).shape = [(getClOrdering probes).length] ∧
      (ls ell).length = (getClOrdering probes).length ∧
      ∀ c < (getClOrdering probes).length, (R ell).val [c] = (ls ell).getD c 0 := by
  obtain ⟨hp, h0⟩ := probesZmax_ne hz
  have hlim := limber_cols p T hnl probes hp h0 (linspace (z2a zmax) 1 (512 + 1))
  rcases hlim with ⟨e, he⟩ | ⟨m, R, ls, hR⟩
  · refine Or.inl ⟨e, fun ell => ⟨?_, ?_⟩⟩
    · have : clIntegrandNd p T nlNd probes ell (.vec (512 + 1) (linspace (z2a zmax) 1 (512 + 1))) = .error e := by
        unfold clIntegrandNd
        rw [show limberNd p T nlNd probes ell (.vec (512 + 1) _) = _ from (he ell).1]
        rfl
      unfold clNd simpsNd
      simp only [this]
      rfl
    · unfold clAt
      simp only [hz, okBind']
      unfold simpsE
      rw [if_neg (by decide), mapM_error (by simp) fun i => (he ell).2 i]
      rfl
  · -- the number of rows
    have hm : m = (getClOrdering probes).length := by
      obtain ⟨h1, h2, h3⟩ := hR 0
      have h4 := h2 0
      unfold clIntegrand at h4
      rcases hk : nonlinearMatterPower p ((0 + 0.5) / clipLo (chiOf p (linspace (z2a zmax) 1 (512 + 1) 0)) 1)
        (linspace (z2a zmax) 1 (512 + 1) 0) T nl with e | pk
      · simp only [hk] at h4
        cases h4
      · simp only [hk, okBind'] at h4
        rcases hr : probes.mapM (fun pr => pr.kernel p (a2z (linspace (z2a zmax) 1 (512 + 1) 0)) 0) with e | rows
        · simp only [hr] at h4
          cases h4
        · simp only [hr, okBind'] at h4
          have h5 := Except.ok.inj h4
          rw [← (h3.2 0).1, ← h5]
          simp
    subst hm
    have key : ∀ ell, ∃ S l, clNd p T nlNd probes zmax ell = .ok S ∧ clAt p T nl probes ell = .ok l ∧
        S.shape = [(getClOrdering probes).length] ∧ l.length = (getClOrdering probes).length ∧
        ∀ c < (getClOrdering probes).length, S.val [c] = l.getD c 0 := by
      intro ell
      obtain ⟨h1, h2, h3⟩ := hR ell
      have hi : clIntegrandNd p T nlNd probes ell (.vec (512 + 1) (linspace (z2a zmax) 1 (512 + 1))) = .ok (R ell).transpose := by
        unfold clIntegrandNd
        rw [show limberNd p T nlNd probes ell (.vec (512 + 1) _) = _ from h1]
        rfl
      have hsh : (R ell).transpose.shape = [(getClOrdering probes).length, 512 + 1] := by simp [Nd.transpose, h3.1]
      obtain ⟨S, s1, s2, s3⟩ := simpsNd_val (t := [(getClOrdering probes).length]) hi hsh
      have hys : (List.range (512 + 1)).mapM (fun i => clIntegrand p T nl probes ell (linspace (z2a zmax) 1 (512 + 1) i))
          = .ok ((List.range (512 + 1)).map (ls ell)) := mapM_ok _ fun i _ => h2 i
      have hget : ∀ i ≤ 512, ((List.range (512 + 1)).map (ls ell)).getD i [] = ls ell i := by
        intro i hi
        rw [List.getD_eq_getElem _ _ (by simp; omega), List.getElem_map, List.getElem_range]
      have hhead : (((List.range (512 + 1)).map (ls ell)).headD []).length = (getClOrdering probes).length := by
        rw [List.range_succ_eq_map]
        exact (h3.2 0).1
      have hcl : clAt p T nl probes ell = .ok (((List.range (getClOrdering probes).length).map fun c =>
          (1 - z2a zmax) / ((512 : ℕ) : ℝ) / 3 * ∑ i ∈ Finset.range (512 / 2), ((ls ell (2 * i)).getD c 0
            + 4 * (ls ell (2 * i + 1)).getD c 0 + (ls ell (2 * i + 2)).getD c 0)).map fun x => x / const_c ^ 2) := by
        unfold clAt simpsE
        simp only [hz, okBind']
        rw [if_neg (by decide), hys]
        simp only [okBind', hhead]
        refine congrArg Except.ok (congrArg (List.map _) (List.map_congr_left fun c _ => ?_))
        refine congrArg (fun t : ℝ => (1 - z2a zmax) / ((512 : ℕ) : ℝ) / 3 * t) (Finset.sum_congr rfl fun i hi => ?_)
        have := Finset.mem_range.1 hi
        rw [hget _ (by omega), hget _ (by omega), hget _ (by omega)]
      refine ⟨S.map fun x => x / const_c ^ 2, _, ?_, hcl, s2, by simp, fun c hc => ?_⟩
      · unfold clNd
        rw [s1]
        rfl
      · rw [List.getD_eq_getElem _ _ (by simpa using hc), List.getElem_map, List.getElem_map, List.getElem_range]
        refine congrArg (fun t : ℝ => t / const_c ^ 2) ?_
        rw [s3]
        refine congrArg (fun t : ℝ => (1 - z2a zmax) / ((512 : ℕ) : ℝ) / 3 * t) (Finset.sum_congr rfl fun i hi => ?_)
        have := Finset.mem_range.1 hi
        have ht : ∀ j ≤ 512, (R ell).transpose.val ([c] ++ [j]) = (ls ell j).getD c 0 :=
          fun j hj => (h3.2 j).2 (by omega) c hc
        rw [ht _ (by omega), ht _ (by omega), ht _ (by omega)]
    choose S l h using key
    exact Or.inr ⟨S, l, h⟩

/-! ## Power spectra -/

theorem halofit_elementwise {n : ℕ} (hn : 2 ≤ n) (prescription : String)
    (hp : prescription = "smith2003" ∨ prescription = "takahashi2012") :
    Elementwise n (fun p k a T => halofitNd p k a T prescription) fun p k a T => halofit p k a T prescription := by
  intro p T α
  have hok : ∀ x a, ∃ v, halofit p x a T prescription = .ok v := by
    intro x a
    have hne : ¬ ("takahashi2012" = "smith2003") := by decide
    rcases hp with rfl | rfl
    · unfold halofit
      rw [if_pos rfl]
      exact ⟨_, rfl⟩
    · unfold halofit
      rw [if_neg hne, if_pos rfl]
      exact ⟨_, rfl⟩
  choose v hv using hok
  refine Or.inr ⟨v, fun x j => hv x (α j), fun k hk => ?_⟩
  have hk1 : k.atleast1d = k := by
    unfold Nd.atleast1d
    rw [hk]
  obtain ⟨P, h1, h2, h3⟩ := halofitNd_entries p T k (.vec n α) (d := n) (fun j => k.val [j]) (Or.inr rfl)
    (by rw [hk1, hk]; exact bshape_self _) (fun j hj => by rw [hk1]; exact Nd.ent_row hk hj [])
    (Or.inr (Or.inr hk)) (fun j hj => Nd.ent_row hk hj []) prescription hp
  have hn1 : n ≠ 1 := by omega
  refine ⟨P, h1, by rw [h2, if_neg hn1], fun j hj => ?_⟩
  have := h3 j hj
  rw [if_neg hn1, hv] at this
  have hit : item (.vec n α) j = α j := by simp [item, hn1]
  rw [hit] at this
  exact (Except.ok.inj this).symm

theorem linear_elementwise {n : ℕ} (hn : 2 ≤ n) :
    Elementwise n (fun p k a T => linearNd p T k a) fun p k a T => linear p k a T := by
  intro p T α
  refine Or.inr ⟨fun x a => linearMatterPower p T x a, fun x j => rfl, fun k hk => ?_⟩
  have hk1 : k.atleast1d = k := by
    unfold Nd.atleast1d
    rw [hk]
  have hn1 : n ≠ 1 := by omega
  have hL := linearNd_ok p T k (.vec n α) (s := []) (t := [n]) (r := n) rfl (by simp) (by
    rw [hk1, hk]; exact bshape_self _)
  refine ⟨_, hL, by simp [Nd.squeeze, hn1], fun j hj => ?_⟩
  have hu : unsqueeze [n] [j] = [j] := by simp [unsqueeze, hn1]
  simp only [Nd.squeeze, hu, hk1, Nd.ent_row hk hj]
  congr 1
  exact Nd.ent_row (x := Nd.vec n α) rfl hj []

end JaxCosmo
