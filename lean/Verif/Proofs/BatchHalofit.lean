import Verif.Proofs.Batch

/-! # `halofit` on arrays, entry by entry -/

namespace JaxCosmo
open Halofit Spec

theorem linear_nodes (p : Params) (T : ℝ → ℝ) {N : ℕ} (hN : N ≠ 1) (f : ℕ → ℝ) :
    ∃ L, linearNd p T ((Nd.vec N f).map Real.exp) (.scalar 1) = .ok L ∧ L.shape = [N] ∧
      ∀ j, L.val [j] = linearMatterPower p T (Real.exp (f j)) := by
  have h := linearNd_ok p T ((Nd.vec N f).map Real.exp) (.scalar 1) (s := []) (t := [N]) (r := 1) rfl (by simp)
    (by change bshape [N] [1] = _; simp [bshape, bdim_one'])
  refine ⟨_, h, ?_, fun j => ?_⟩
  · simp [Nd.squeeze, hN]
  · change linearMatterPower p T (Real.exp (f ((bix [N] (unsqueeze [N] [j])).headD 0))) 1 = _
    simp [unsqueeze, bix, hN]

theorem simpsNd_ok {f : Nd ℝ → Except PyErr (Nd ℝ)} {a b : ℝ} {N : ℕ} {y : Nd ℝ} {t : List ℕ}
    (hf : f (.vec (N + 1) (linspace a b (N + 1))) = .ok y) (hy : y.shape = t ++ [N + 1]) :
    ∃ S, simpsNd f a b N = .ok S ∧ S.shape = t ∧ ∀ (i : List ℕ) (g : ℝ → ℝ),
      (∀ j ≤ N, y.val (i ++ [j]) = g (linspace a b (N + 1) j)) → S.val i = simpsBody g a b N := by
  have hl : y.shape.getLast? = some (N + 1) := by simp [hy]
  unfold simpsNd
  rw [hf]
  simp only [if_pos hl]
  refine ⟨_, rfl, by simp [hy], fun i g hg => ?_⟩
  simp only [simpsBody]
  congr 1
  refine Finset.sum_congr rfl fun j hj => ?_
  rw [Finset.mem_range] at hj
  rw [hg (2 * j) (by omega), hg (2 * j + 1) (by omega), hg (2 * j + 2) (by omega)]

theorem okBind' {α β : Type} (x : α) (f : α → Except PyErr β) : (Except.ok x >>= f) = f x := rfl

/-- The integrand of step 1 on the nodes. -/
theorem intSigmaNd_ok (p : Params) (T : ℝ → ℝ) {a : Nd ℝ} (ha : a.shape = []) {N : ℕ} (hN : N ≠ 1) (f : ℕ → ℝ) :
    ∃ y, intSigmaNd p T a (.vec N f) = .ok y ∧ y.shape = [256, N] ∧
      ∀ i < 256, ∀ j < N, y.val [i, j] = intSigma p T (a.val []) (Real.exp (logr i)) (f j) := by
  obtain ⟨L, hL1, hL2, hL3⟩ := linear_nodes p T hN f
  have ha1 : a.atleast1d = { shape := [1], val := fun _ => a.val [] } := by
    unfold Nd.atleast1d
    rw [ha]
  obtain ⟨g, hg1, hg2, hg3⟩ := growthNd_ent p (a := a.atleast1d) (s := []) (r := 1) (by rw [ha1]; rfl) (by simp)
  rw [ha1] at hg2 hg3
  unfold intSigmaNd
  simp only [hL1, hg1, okBind']
  rw [Nd.map2_ok (x := L) (y := (Nd.vec N f).map Real.exp) (s := [N]) _ (by rw [hL2]; exact bshape_self _)]
  simp only [okBind']
  rw [Nd.map2_ok (s := [256, N]) _ (by
    change bshape [1, N] [_, _] = _
    simp [bshape, bdim_one, Nd.size, Nd.map, Nd.vec, bdim_self])]
  simp only [okBind']
  rw [Nd.map2_ok (s := [256, N]) _ (by
    rw [hg2]
    change bshape [256, N] [1] = _
    simp [bshape, bdim_one'])]
  refine ⟨_, rfl, rfl, fun i hi j hj => ?_⟩
  have eg : g.ent [i, j] = growthOf p (a.val []) := hg3 [i, j]
  simp only [eg]
  simp only [Nd.ent, Nd.expand1, Nd.outer, Nd.map, Nd.vec, Nd.size, bix, unravel, List.prod_cons, List.prod_nil, mul_one,
    List.headD_cons, List.tail_cons, hN, hL2, if_false, Nat.mod_eq_of_lt hj, Nat.mod_eq_of_lt hi, hL3,
    show (256 : ℕ) ≠ 1 by norm_num]
  simp only [intSigma]

theorem R_nlBody_ok (p : Params) (T : ℝ → ℝ) {a : Nd ℝ} (ha : a.shape = []) :
    ∃ R, R_nlBody p T a = .ok R ∧ R.shape = [1] ∧ R.val [0] = R_nl p T (a.val []) := by
  obtain ⟨y, hy1, hy2, hy3⟩ := intSigmaNd_ok p T ha (N := 256 + 1) (by norm_num)
    (linspace (Real.log 1e-4) (Real.log 1e4) (256 + 1))
  obtain ⟨S, hS1, hS2, hS3⟩ := simpsNd_ok (t := [256]) hy1 hy2
  have hS : ∀ i < 256, S.val [i] = sigma p T (a.val []) i := fun i hi =>
    hS3 [i] _ fun j hj => hy3 i hi j (by omega)
  obtain ⟨r, hr1, hr2, hr3⟩ := interpNd_col (n := 256) (by norm_num) (fun i => S.val [i]) logr
    (x := (Nd.scalar (1 : ℝ)).atleast1d) (s := []) (r := 1) rfl (by simp)
  unfold R_nlBody
  simp only [hS1, okBind', hr1]
  refine ⟨_, rfl, hr2, ?_⟩
  have h0 := hr3 0
  simp only [List.length_nil, List.replicate_zero, List.nil_append] at h0
  change clipLo (Real.exp (r.val [0])) 1e-6 = _
  rw [h0, interp_congr (by norm_num) hS fun _ _ => rfl]
  rfl

/-- `k_nl` as an array: one entry per scale factor, without axis if there is only one. -/
theorem k_nlNd_ok (p : Params) (T : ℝ → ℝ) (m : ℕ) (α : ℕ → ℝ) :
    ∃ K, k_nlNd p T (.vec m α) = .ok K ∧ K.shape = [m].filter (· ≠ 1) ∧ K.size = m ∧
      (∀ j < m, K.val (unravel K.shape j) = Halofit.k_nl p T (α j)) ∧
      ∀ i, K.ent i = Halofit.k_nl p T (α (if m = 1 then 0 else i.headD 0)) := by
  have h1 : ∀ j, ∃ R, R_nlBody p T ((Nd.vec m α).at0 j) = .ok R ∧ R.shape = [1] ∧ R.val [0] = R_nl p T (α j) :=
    fun j => R_nlBody_ok p T (a := (Nd.vec m α).at0 j) rfl
  choose R hR1 hR2 hR3 using h1
  obtain ⟨z, hz1, hz2, hz3⟩ := vmap_ok (x := Nd.vec m α) (s := []) (r := m) rfl hR1 (hR2 0)
  have hv : ∀ j, z.val [0, j] = R_nl p T (α j) := fun j => by
    rw [← hR3 j]
    exact hz3 [0] j
  have e0 : (Nd.vec m α).atleast1d = Nd.vec m α := rfl
  unfold k_nlNd
  rw [e0, hz1]
  refine ⟨_, rfl, ?_, ?_, ?_, ?_⟩
  · simp [Nd.map, Nd.squeeze, hz2]
  · by_cases hm : m = 1 <;> simp [Nd.size, Nd.map, Nd.squeeze, hz2, hm]
  · intro j hj
    by_cases hm : m = 1
    · subst hm
      have : j = 0 := by omega
      subst this
      simp [Nd.map, Nd.squeeze, hz2, unravel, unsqueeze, hv, Halofit.k_nl]
    · simp [Nd.map, Nd.squeeze, hz2, unravel, unsqueeze, hv, hm, Nat.mod_eq_of_lt hj, Halofit.k_nl]
  · intro i
    by_cases hm : m = 1
    · subst hm
      simp [Nd.ent, Nd.map, Nd.squeeze, hz2, unsqueeze, bix, hv, Halofit.k_nl]
    · simp [Nd.ent, Nd.map, Nd.squeeze, hz2, unsqueeze, bix, hv, hm, Halofit.k_nl]

theorem integrandNd_ok (p : Params) (T : ℝ → ℝ) (m : ℕ) (α : ℕ → ℝ) {K : Nd ℝ} (hK2 : K.size = m)
    (hK : ∀ j < m, K.val (unravel K.shape j) = Halofit.k_nl p T (α j)) {N : ℕ} (hN : N ≠ 1) (f : ℕ → ℝ) :
    ∃ y, integrandNd p T K (.vec m α) (.vec N f) = .ok y ∧ y.shape = [m, 2, N] ∧
      ∀ i < m, ∀ j < N,
        y.val [i, 0, j] = (let y := Real.exp (f j) * (1 / Halofit.k_nl p T (α i)); 2 * res p T (α i) (f j) * y ^ 2) ∧
        y.val [i, 1, j]
          = (let y := Real.exp (f j) * (1 / Halofit.k_nl p T (α i)); 4 * res p T (α i) (f j) * (y ^ 2 - y ^ 4)) := by
  obtain ⟨L, hL1, hL2, hL3⟩ := linear_nodes p T hN f
  have e0 : (Nd.vec m α).atleast1d = Nd.vec m α := rfl
  obtain ⟨g, hg1, hg2, hg3⟩ := growthNd_col p (a := Nd.vec m α) (s := []) (r := m) rfl (by simp)
  have hg2' : g.shape = [m] := hg2
  have hg3' : ∀ j, g.val [j] = growthOf p (α j) := hg3
  have hKs : (K.map (1 / ·)).size = m := hK2
  have hks : ((Nd.vec N f).map Real.exp).size = N := by simp [Nd.size, Nd.map, Nd.vec]
  set Y := Nd.outer ((Nd.vec N f).map Real.exp) (K.map (1 / ·)) with hY
  have hYs : Y.shape = [m, N] := by simp only [hY, Nd.outer, hKs, hks]
  have hYv : ∀ i < m, ∀ j < N, Y.val [i, j] = Real.exp (f j) * (1 / Halofit.k_nl p T (α i)) := by
    intro i hi j hj
    change Real.exp (f ((unravel [N] j).headD 0)) * (1 / K.val (unravel K.shape i)) = _
    rw [hK i hi]
    simp [unravel, Nat.mod_eq_of_lt hj]
  unfold integrandNd
  simp only [e0, hL1, hg1, okBind', ← hY]
  rw [Nd.map2_ok (x := L) (y := (Nd.vec N f).map Real.exp) (s := [N]) _ (by rw [hL2]; exact bshape_self _)]
  simp only [okBind']
  rw [Nd.map2_ok (y := Y) (s := [m, N]) _ (by
    rw [hYs]
    change bshape [1, N] [m, N] = _
    simp [bshape, bdim_one, bdim_self])]
  simp only [okBind']
  rw [Nd.map2_ok (y := g.expand0) (s := [m, N]) _ (by
    change bshape [m, N] (g.shape ++ [1]) = _
    rw [hg2']
    simp [bshape, bdim_one', bdim_self])]
  simp only [okBind']
  rw [Nd.map2_ok (y := Y) (s := [m, N]) _ (by rw [hYs]; exact bshape_self _)]
  simp only [okBind']
  rw [Nd.map2_ok (y := Y) (s := [m, N]) _ (by rw [hYs]; exact bshape_self _)]
  simp only [okBind']
  refine ⟨_, rfl, rfl, fun i hi j hj => ?_⟩
  have hb : bix [m, N] [i, j] = [i, j] := bix_of_in (.cons hi (.cons hj .nil))
  have hbm : bix [m] [i] = [i] := bix_of_in (.cons hi .nil)
  have hYe : Y.ent [i, j] = Real.exp (f j) * (1 / Halofit.k_nl p T (α i)) := by
    rw [Nd.ent, hYs, hb, hYv i hi j hj]
  have hge : g.expand0.ent [i, j] = growthOf p (α i) := by
    have : bix (g.shape ++ [1]) [i, j] = [i, 0] := by
      rw [hg2']
      change (bix [m, 1] [i, j]) = _
      have : i = if m = 1 then 0 else i := by split_ifs <;> omega
      simp only [bix, List.headD_cons, List.tail_cons, if_true, ← this]
    change g.val (bix (g.shape ++ [1]) [i, j]).dropLast = _
    rw [this]
    exact hg3' i
  have hpk : (Nd.expand1 { shape := [N], val := fun i => L.ent i * ((Nd.vec N f).map Real.exp).ent i ^ 3 }).ent [i, j]
      = linearMatterPower p T (Real.exp (f j)) * Real.exp (f j) ^ 3 := by
    simp [Nd.ent, Nd.expand1, bix, hL2, hL3, hN, Nd.map, Nd.vec]
  simp only [Nd.stack1, List.headD_cons, List.tail_cons, if_true, one_ne_zero, if_false, hYe]
  simp only [Nd.ent] at hpk hge hYe
  simp only [Nd.ent, hb, hYe, hge, hpk, res]
  exact ⟨trivial, trivial⟩

theorem halofitParametersNd_ok (p : Params) (T : ℝ → ℝ) (m : ℕ) (α : ℕ → ℝ) :
    ∃ K n C, halofitParametersNd p T (.vec m α) = .ok (K, n, C) ∧ K.shape = [m].filter (· ≠ 1) ∧ n.shape = [m] ∧
      C.shape = [m] ∧ (∀ i, K.ent i = Halofit.k_nl p T (α (if m = 1 then 0 else i.headD 0))) ∧
      (∀ i < m, n.val [i] = n_eff p T (α i)) ∧ ∀ i < m, C.val [i] = curv p T (α i) := by
  obtain ⟨K, hK1, hK2, hK3, hK4, hK5⟩ := k_nlNd_ok p T m α
  obtain ⟨y, hy1, hy2, hy3⟩ := integrandNd_ok p T m α hK3 hK4 (N := 256 + 1) (by norm_num)
    (linspace (Real.log 1e-4) (Real.log 1e4) (256 + 1))
  obtain ⟨S, hS1, hS2, hS3⟩ := simpsNd_ok (t := [m, 2]) hy1 hy2
  have h0 : ∀ i < m, S.val [i, 0] = res0 p T (α i) := fun i hi =>
    hS3 [i, 0] _ fun j hj => (hy3 i hi j (by omega)).1
  have h1 : ∀ i < m, S.val [i, 1] = res1 p T (α i) := fun i hi =>
    hS3 [i, 1] _ fun j hj => (hy3 i hi j (by omega)).2
  unfold halofitParametersNd
  simp only [hK1, hS1, okBind']
  have e : ∀ c, (S.at0 c).shape = [m] := fun c => by simp [Nd.at0, hS2]
  rw [Nd.map2_ok (s := [m]) _ (by rw [e, e]; exact bshape_self _)]
  refine ⟨K, _, _, rfl, hK2, e 0, rfl, hK5, fun i hi => ?_, fun i hi => ?_⟩
  · change S.val [i, 0] - 3 = _
    rw [h0 i hi]
    rfl
  · have hb : bix [m] [i] = [i] := bix_of_in (.cons hi .nil)
    change S.val (bix (S.at0 0).shape [i] ++ [0]) ^ 2 + S.val (bix (S.at0 1).shape [i] ++ [1]) = _
    rw [e, e, hb]
    change S.val [i, 0] ^ 2 + S.val [i, 1] = _
    rw [h0 i hi, h1 i hi]
    rfl

end JaxCosmo
