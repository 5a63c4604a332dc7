import Verif.Proofs.BatchKernels

/-! # Kernels of probes on arrays of redshifts -/

namespace JaxCosmo
open Spec

variable {n : ℕ} {ι : Type}

/-! ## Stacks of distributions and biases -/

theorem dndz_cols (pzs : List Nz) (h0 : pzs ≠ []) {z : Nd ℝ} (hz : z.shape = [n]) :
    ∃ rows D, (pzs.mapM fun pz => pz.callNd z) = .ok rows ∧ Nd.stack0 rows = .ok D ∧
      IsCols n pzs.length D fun j => pzs.map fun pz => pz.eval (z.val [j]) := by
  obtain ⟨rows, D, h1, h2, h3, h4⟩ := stack_mapM (f := fun pz : Nz => pz.callNd z) (n := n)
    (v := fun pz j => pz.eval (z.val [j])) h0 fun pz _ => callNd_row pz hz
  refine ⟨rows, D, h1, h2, h3, fun j => ⟨by simp, fun hj i hi => ?_⟩⟩
  rw [h4 j hj i hi, List.getD_eq_getElem _ _ (by simpa using hi), List.getElem_map]

theorem mapM_nil_stack {α : Type} (f : α → Except PyErr (Nd ℝ)) :
    (([] : List α).mapM f >>= Nd.stack0) = .error .valueError := rfl

/-- The product of the distributions with the biases. -/
theorem bias_cols (p : Params) (bias : Val) {z : Nd ℝ} (hz : z.shape = [n]) {m : ℕ} {D : Nd ℝ} {ls : ℕ → List ℝ}
    (hD : IsCols n m D ls) :
    Columns (ι := ι) n (fun _ => biasNd p bias z >>= fun b => Nd.map2 (· * ·) D b)
      fun _ j => biasRows p bias (z.val [j]) >>= fun b => bcast (· * ·) (ls j) b := by
  unfold biasNd biasRows
  match bias with
  | .bias b =>
    obtain ⟨y, h1, h2, h3⟩ := biasCallNd_row p b hz
    simp only [h1, okBind']
    obtain ⟨Z, k1, k2⟩ := hD.map2_row h2 (· * ·)
    simp only [k1]
    have e : ∀ j, bcast (· * ·) (ls j) [b.call p (z.val [j])] = .ok ((ls j).map (· * b.call p (z.val [j]))) := by
      intro j
      rw [bcast_of_length]
      by_cases h : (ls j).length = 1
      · obtain ⟨x, hx⟩ := List.length_eq_one_iff.1 h
        simp [hx]
      · simp [h]
    simp only [e]
    refine Columns.ok (m := m) fun _ => ⟨k2.1, fun j => ⟨by simpa using (k2.2 j).1, fun hj i hi => ?_⟩⟩
    rw [(k2.2 j).2 hj i hi]
    simp only [h3 j hj]
  | .biases [] => exact Columns.error
  | .biases (b :: bs) =>
    obtain ⟨rows, B, h1, h2, h3, h4⟩ := stack_mapM (f := fun b : Bias => b.callNd p z) (n := n)
      (v := fun b j => b.call p (z.val [j])) (l := b :: bs) (by simp) fun b _ => biasCallNd_row p b hz
    have hB : IsCols n (b :: bs).length B fun j => (b :: bs).map fun b => b.call p (z.val [j]) := by
      refine ⟨h3, fun j => ⟨by simp, fun hj i hi => ?_⟩⟩
      rw [h4 j hj i hi, List.getD_eq_getElem _ _ (by simpa using hi), List.getElem_map]
    simp only [h1, h2, okBind']
    exact Columns.bcast (fun _ => hD) (fun _ => hB) _
  | .nums [] => exact Columns.error
  | .nums (_ :: _) => exact Columns.error
  | .num _ => exact Columns.error
  | .none => exact Columns.error

theorem Columns.mapRow {m : ℕ} {R : ι → Nd ℝ} {ls : ι → ℕ → List ℝ} (hR : ∀ q, IsCols n m (R q) (ls q)) {v : Nd ℝ}
    (hv : v.shape = [n]) (f : ℝ → ℝ → ℝ) {F : ι → Nd ℝ → Except PyErr (Nd ℝ)} {G : ι → ℕ → Except PyErr (List ℝ)}
    (h : ∀ Z : ι → Nd ℝ, (∀ q, IsCols n m (Z q) fun j => (ls q j).map (f · (v.val [j]))) →
      Columns n (fun q => F q (Z q)) G) :
    Columns n (fun q => Nd.map2 f (R q) v >>= F q) G := by
  choose Z h1 h2 using fun q => (hR q).map2_row hv f
  simp only [h1, okBind']
  exact h Z h2

/-- `dndz * b * H` in the scalar model. -/
noncomputable def radialRows (p : Params) (pzs : List Nz) (bias : Val) (z : ℝ) : Except PyErr (List ℝ) :=
  if pzs.isEmpty then .error .valueError
  else biasRows p bias z >>= fun b => bcast (· * ·) (pzs.map fun pz => pz.eval z) b

theorem radial_cols (p : Params) (pzs : List Nz) (bias : Val) {z : Nd ℝ} (hz : z.shape = [n]) :
    Columns (ι := ι) n (fun _ => radialNd p pzs bias z)
      fun _ j => radialRows p pzs bias (z.val [j]) >>= fun l => .ok (l.map (· * H p (z2a (z.val [j])))) := by
  unfold radialRows radialNd
  cases pzs with
  | nil => exact Columns.error
  | cons pz pzs =>
    obtain ⟨rows, D, h1, h2, h3⟩ := dndz_cols (pz :: pzs) (by simp) hz
    simp only [h1, h2, okBind']
    have e : (do
        let b ← biasNd p bias z
        let t ← Nd.map2 (· * ·) D b
        Nd.map2 (· * ·) t (z.map fun z => H p (z2a z)))
      = ((biasNd p bias z >>= fun b => Nd.map2 (· * ·) D b) >>= fun t =>
          Nd.map2 (· * ·) t (z.map fun z => H p (z2a z)) >>= fun r => .ok r) := by
      rw [bind_assoc]
      congr 1
      funext b
      congr 1
      funext t
      exact (bind_pure _).symm
    rw [e]
    refine Columns.bind (bias_cols p bias hz h3) fun m R ls hR => ?_
    exact Columns.mapRow hR (v := z.map fun z => H p (z2a z)) hz (· * ·) (F := fun _ r => .ok r) fun Z hZ => Columns.ok hZ

theorem jitCosmo_cases (p0 : Params) : (∃ e, jitCosmo p0 = .error e) ∨ ∃ p, jitCosmo p0 = .ok p := by
  rcases jitCosmo p0 with e | p
  · exact Or.inl ⟨e, rfl⟩
  · exact Or.inr ⟨p, rfl⟩

theorem densityKernel_eq (p0 : Params) (pzs : List Nz) (bias : Val) (x ell : ℝ) :
    densityKernel p0 pzs bias x ell = jitCosmo p0 >>= fun p =>
      if pzs.any Nz.isDelta then .error .notImplementedError
      else (radialRows p pzs bias x >>= fun l => .ok (l.map (· * H p (z2a x)))) >>= fun l =>
        .ok (l.map fun r => 1 * 1 * r) := by
  unfold densityKernel radialRows
  congr 1
  funext p
  split_ifs
  · rfl
  · rfl
  · rw [bind_assoc, bind_assoc]
    change (biasRows p bias x >>= _) = _
    congr 1
    funext b
    congr 1
    funext l
    change Except.ok _ = Except.ok _
    rw [List.map_map]
    rfl

theorem density_cols (p0 : Params) (pzs : List Nz) (bias : Val) {z : Nd ℝ} (hz : z.shape = [n]) :
    Columns n (fun ell => densityKernelNd p0 pzs bias z ell) fun ell j => densityKernel p0 pzs bias (z.val [j]) ell := by
  simp only [densityKernel_eq]
  unfold densityKernelNd
  rcases jitCosmo_cases p0 with ⟨e, h⟩ | ⟨p, h⟩
  · simp only [h]
    exact Columns.error
  · simp only [h, okBind']
    by_cases hd : pzs.any Nz.isDelta = true
    · simp only [hd, if_true]
      exact Columns.error
    · simp only [hd]
      exact Columns.bind (radial_cols p pzs bias hz) fun m R ls hR => Columns.ok fun q => (hR q).map _

theorem nlaKernel_eq (p0 : Params) (pzs : List Nz) (bias : Val) (x ell : ℝ) :
    nlaKernel p0 pzs bias x ell = jitCosmo p0 >>= fun p =>
      if pzs.any Nz.isDelta then .error .notImplementedError
      else (radialRows p pzs bias x >>= fun l => .ok (l.map (· * H p (z2a x)))) >>= fun l =>
        .ok ((l.map fun r => r * (-(5e-14 * const_rhocrit) * p.Omega_m / growthOf p (z2a x))).map
          fun r => 1 * ellFactor ell * r) := by
  unfold nlaKernel radialRows
  congr 1
  funext p
  split_ifs
  · rfl
  · rfl
  · rw [bind_assoc, bind_assoc]
    change (biasRows p bias x >>= _) = _
    congr 1
    funext b
    congr 1
    funext l
    change Except.ok _ = Except.ok _
    rw [List.map_map, List.map_map]
    rfl

theorem nla_cols (p0 : Params) (pzs : List Nz) (bias : Val) {z : Nd ℝ} (hz : z.shape = [n]) :
    Columns n (fun ell => nlaKernelNd p0 pzs bias z ell) fun ell j => nlaKernel p0 pzs bias (z.val [j]) ell := by
  simp only [nlaKernel_eq]
  unfold nlaKernelNd
  rcases jitCosmo_cases p0 with ⟨e, h⟩ | ⟨p, h⟩
  · simp only [h]
    exact Columns.error
  · simp only [h, okBind']
    by_cases hd : pzs.any Nz.isDelta = true
    · simp only [hd, if_true]
      exact Columns.error
    · simp only [hd]
      obtain ⟨g, g1, g2, g3⟩ := growthNd_row p (a := z.map z2a) (n := n) hz
      refine Columns.bind (radial_cols p pzs bias hz) fun m R ls hR => ?_
      simp only [g1, okBind']
      refine Columns.mapRow hR g2 _ fun Z hZ => ?_
      refine Columns.ok (m := m) fun q => ?_
      have := (hZ q).map fun r => 1 * ellFactor q * r
      simp only [g3] at this
      exact this

/-! ## Lensing -/

theorem extIntegrandNd_ok (p : Params) (pzs : List Nz) (h0 : pzs ≠ []) {chi z' : Nd ℝ} (hc : chi.shape = [n])
    (hz : z'.shape = [n]) :
    ∃ y, extIntegrandNd p pzs chi z' = .ok y ∧ y.shape = [n, pzs.length] ∧ ∀ j < n, ∀ i (hi : i < pzs.length),
      y.val [j, i] = pzs[i].eval (z'.val [j]) * clipLo (chiOf p (z2a (z'.val [j])) - chi.val [j]) 0
        / clipLo (chiOf p (z2a (z'.val [j]))) 1 := by
  obtain ⟨chi', a1, a2, a3⟩ := chiNd_row p (a := z'.map z2a) (n := n) hz
  obtain ⟨rows, D, b1, b2, b3, b4⟩ := stack_mapM (f := fun pz : Nz => pz.callNd z') (n := n)
    (v := fun pz j => pz.eval (z'.val [j])) h0 fun pz _ => callNd_row pz hz
  obtain ⟨d, c1, c2, c3⟩ := Nd.map2_row (fun u v : ℝ => clipLo (u - v) 0) a2 hc
  obtain ⟨t, d1, d2, d3⟩ := Nd.map2_mat_row (fun x1 x2 : ℝ => x1 * x2) b3 c2
  obtain ⟨y, e1, e2, e3⟩ := Nd.map2_mat_row (fun t c : ℝ => t / clipLo c 1) d2 a2
  refine ⟨y, ?_, e2, fun j hj i hi => ?_⟩
  · unfold extIntegrandNd
    simp only [a1, b1, b2, c1, d1, okBind']
    exact e1
  · rw [e3 j hj i hi, d3 j hj i hi, c3 j hj, a3, b4 j hj i hi]
    rfl

theorem deltaIntegrandNd_ok (p : Params) {chi z' : Nd ℝ} (hc : chi.shape = [n]) (hz : z'.shape = []) :
    ∃ y, deltaIntegrandNd p chi z' = .ok y ∧ y.shape = [n] ∧ ∀ j < n,
      y.val [j] = clipLo (chiOf p (z2a (z'.val [])) - chi.val [j]) 0 / clipLo (chiOf p (z2a (z'.val []))) 1 := by
  obtain ⟨chi', a1, a2, a3⟩ := chiNd_scalar p (a := z'.map z2a) hz
  have s1 : bshape chi'.shape chi.shape = some [n] := by rw [a2, hc]; simp [bshape, bdim_one]
  have s2 : bshape [n] chi'.shape = some [n] := by rw [a2]; simp [bshape, bdim_one']
  have hce : ∀ j, chi'.ent [j] = chiOf p (z2a (z'.val [])) := by
    intro j
    rw [Nd.ent, a2, ← show chi'.val [0] = chiOf p (z2a (z'.val [])) from a3]
    simp [bix]
  unfold deltaIntegrandNd
  simp only [a1, okBind']
  rw [Nd.map2_ok _ s1]
  simp only [okBind']
  refine ⟨_, Nd.map2_ok _ s2, rfl, fun j hj => ?_⟩
  have e : ∀ v : List ℕ → ℝ, (Nd.mk [n] v).ent [j] = v [j] := fun v => Nd.ent_row (x := Nd.mk [n] v) rfl hj []
  simp only [e, hce, Nd.ent_row hc hj]

theorem timesLens_cols {m : ℕ} {K z chi : Nd ℝ} {ls : ℕ → List ℝ} (hK : IsCols n m K ls) (hz : z.shape = [n])
    (hc : chi.shape = [n]) :
    ∃ R, timesLens K z chi = .ok R ∧ IsCols n m R fun j => (ls j).map fun x => x * (1 + z.val [j]) * chi.val [j] := by
  obtain ⟨A, a1, a2⟩ := hK.map2_row hz fun K z => K * (1 + z)
  obtain ⟨B, b1, b2⟩ := a2.map2_row hc fun x1 x2 => x1 * x2
  refine ⟨B, ?_, ?_⟩
  · unfold timesLens
    simp only [a1, okBind']
    exact b1
  · simp only [List.map_map] at b2
    exact b2

theorem extKernelNd_ok (p : Params) (pzs : List Nz) (h0 : pzs ≠ []) (zmax : ℝ) {z chi : Nd ℝ} (hz : z.shape = [n])
    (hc : chi.shape = [n]) (hv : ∀ j, chi.val [j] = chiOf p (z2a (z.val [j]))) :
    ∃ K, extKernelNd p pzs zmax z chi = .ok [K] ∧ IsCols n pzs.length K fun j => pzs.map fun pz => extRow p zmax (z.val [j]) pz := by
  set x : Nd ℝ := { shape := z.shape ++ [256 + 1], val := fun i => linspace (z.val i.dropLast) zmax (256 + 1) (i.getLastD 0) }
    with hx
  have hat : ∀ t, (x.at0 t).shape = [n] := by
    intro t
    simp [hx, Nd.at0, hz]
  choose y y1 y2 y3 using fun t => extIntegrandNd_ok p pzs h0 hc (hat t)
  obtain ⟨Y, k1, k2, k3⟩ := vmap_ok (x := x) (s := [n]) (t := [n, pzs.length]) (r := 256 + 1) (by simp [hx, hz]) y1 (y2 0)
  set S : Nd ℝ := { shape := Y.shape.dropLast, val := fun i => ∑ j ∈ Finset.range (256 / 2),
      (Y.val (i ++ [2 * j]) + 4 * Y.val (i ++ [2 * j + 1]) + Y.val (i ++ [2 * j + 2])) } with hS
  obtain ⟨K, m1, m2, m3⟩ := Nd.map2_row_mat (fun dx S : ℝ => dx / 3 * S)
    (x := z.map fun a => (zmax - a) / ((256 : ℕ) : ℝ)) (y := S) (n := n) (m := pzs.length) hz (by simp [hS, k2])
  have hs : simpsLim (fun x => x.vmap (extIntegrandNd p pzs chi)) z zmax 256 = .ok K := by
    unfold simpsLim
    rw [if_neg (by decide)]
    simp only [← hx, k1, okBind']
    exact m1
  have hK : IsCols n pzs.length K fun j => pzs.map fun pz => simpsBody (fun z' => pz.eval z'
      * clipLo (chiOf p (z2a z') - chiOf p (z2a (z.val [j]))) 0 / clipLo (chiOf p (z2a z')) 1) (z.val [j]) zmax 256 := by
    refine ⟨m2, fun j => ⟨by simp, fun hj i hi => ?_⟩⟩
    rw [m3 j hj i hi, List.getD_eq_getElem _ _ (by simpa using hi), List.getElem_map]
    have e : ∀ t, Y.val ([j, i] ++ [t]) = pzs[i].eval (linspace (z.val [j]) zmax (256 + 1) t)
        * clipLo (chiOf p (z2a (linspace (z.val [j]) zmax (256 + 1) t)) - chiOf p (z2a (z.val [j]))) 0
        / clipLo (chiOf p (z2a (linspace (z.val [j]) zmax (256 + 1) t))) 1 := by
      intro t
      have hxt : (x.at0 t).val [j] = linspace (z.val [j]) zmax (256 + 1) t := rfl
      rw [k3, y3 t j hj i hi, hxt, hv]
    simp only [hS, e, simpsBody]
    rfl
  obtain ⟨R, r1, r2⟩ := timesLens_cols hK hz hc
  refine ⟨R, ?_, ?_⟩
  · unfold extKernelNd
    rw [if_neg h0]
    simp only [hs, r1, okBind']
  · simp only [List.map_map, hv] at r2
    exact r2

theorem deltaKernelNd_ok (p : Params) (planes : List ℝ) (h0 : planes ≠ []) {z chi : Nd ℝ} (hz : z.shape = [n])
    (hc : chi.shape = [n]) (hv : ∀ j, chi.val [j] = chiOf p (z2a (z.val [j]))) :
    ∃ K, deltaKernelNd p planes z chi = .ok [K] ∧ IsCols n planes.length K fun j => planes.map fun s =>
      clipLo (chiOf p (z2a s) - chiOf p (z2a (z.val [j]))) 0 / clipLo (chiOf p (z2a s)) 1 * (1 + z.val [j])
        * chiOf p (z2a (z.val [j])) := by
  choose y y1 y2 y3 using fun t => deltaIntegrandNd_ok p (z' := (Nd.vec planes.length fun i => planes.getD i 0).at0 t) hc rfl
  obtain ⟨Y, k1, k2, k3⟩ := vmap_ok (x := Nd.vec planes.length fun i => planes.getD i 0) (s := []) (t := [n])
    (r := planes.length) rfl y1 (y2 0)
  have hK : IsCols n planes.length Y fun j => planes.map fun s =>
      clipLo (chiOf p (z2a s) - chiOf p (z2a (z.val [j]))) 0 / clipLo (chiOf p (z2a s)) 1 := by
    refine ⟨k2, fun j => ⟨by simp, fun hj i hi => ?_⟩⟩
    have hx : ((Nd.vec planes.length fun i => planes.getD i 0).at0 i).val [] = planes.getD i 0 := rfl
    rw [show Y.val [j, i] = _ from k3 [j] i, y3 i j hj, hx, hv, List.getD_eq_getElem _ _ hi,
      List.getD_eq_getElem _ _ (by simpa using hi), List.getElem_map]
  obtain ⟨R, r1, r2⟩ := timesLens_cols hK hz hc
  refine ⟨R, ?_, ?_⟩
  · unfold deltaKernelNd
    rw [if_neg h0]
    simp only [k1, r1, okBind']
  · simp only [List.map_map, hv] at r2
    exact r2

theorem argsort_lt {l : List ℕ} {i : ℕ} (h : i ∈ argsort l) : i < l.length := by
  unfold argsort at h
  rw [(List.mergeSort_perm _ _).mem_iff] at h
  exact List.mem_range.1 h

theorem take0_cols {m : ℕ} {R : Nd ℝ} {ls : ℕ → List ℝ} (hR : IsCols n m R ls) {inds : List ℕ} (hi : ∀ i ∈ inds, i < m) :
    IsCols n inds.length (R.take0 inds) fun j => inds.map fun i => (ls j).getD i 0 := by
  refine ⟨by simp [Nd.take0, hR.1], fun j => ⟨by simp, fun hj i h => ?_⟩⟩
  rw [List.getD_eq_getElem _ _ (by simpa using h), List.getElem_map]
  change R.val [j, inds.getD i 0] = _
  rw [List.getD_eq_getElem _ _ h, (hR.2 j).2 hj _ (hi _ (List.getElem_mem h))]

theorem lensing_cols (p0 : Params) (pzs : List Nz) {z : Nd ℝ} (hz : z.shape = [n]) :
    Columns n (fun ell => weakLensingKernelNd p0 pzs z ell) fun ell j => weakLensingKernel p0 pzs (z.val [j]) ell := by
  unfold weakLensingKernelNd weakLensingKernel
  rcases jitCosmo_cases p0 with ⟨e, h⟩ | ⟨p, h⟩
  · simp only [h]
    exact Columns.error
  · simp only [h, okBind']
    have hz1 : z.atleast1d = z := by
      unfold Nd.atleast1d
      rw [hz]
    rcases hm : pyMax (pzs.map Nz.zmax) with e | zmax
    · exact Columns.error
    · simp only [okBind', hz1]
      obtain ⟨chi, c1, c2, c3⟩ := chiNd_row p (a := z.map z2a) (n := n) hz
      simp only [c1, okBind']
      have hc3 : ∀ j, chi.val [j] = chiOf p (z2a (z.val [j])) := c3
      -- the two parts
      have hE : ∃ xs es, extKernelNd p ((extIdx pzs).map fun i => pzs.getD i (.delta 0 0 0)) zmax z chi = .ok xs ∧
          List.Forall₂ (fun x (e : ℕ × (ℕ → List ℝ)) => IsCols n e.1 x e.2) xs es ∧ (es.map Prod.fst).sum = (extIdx pzs).length ∧
          (xs = [] → extIdx pzs = []) ∧
          ∀ j, (es.map (·.2 j)).flatten = (extIdx pzs).map fun i => extRow p zmax (z.val [j]) (pzs.getD i (.delta 0 0 0)) := by
        by_cases h0 : extIdx pzs = []
        · exact ⟨[], [], by simp [extKernelNd, h0], .nil, by simp [h0], fun _ => h0, fun j => by simp [h0]⟩
        · obtain ⟨K, k1, k2⟩ := extKernelNd_ok p ((extIdx pzs).map fun i => pzs.getD i (.delta 0 0 0)) (by simpa using h0)
            zmax hz c2 hc3
          exact ⟨[K], [(_, _)], k1, .cons k2 .nil, by simp, by simp, fun j => by simp [List.map_map, Function.comp_def]⟩
      have hD : ∃ xs es, deltaKernelNd p ((deltaIdx pzs).map fun i => (pzs.getD i (.delta 0 0 0)).plane) z chi = .ok xs ∧
          List.Forall₂ (fun x (e : ℕ × (ℕ → List ℝ)) => IsCols n e.1 x e.2) xs es ∧ (es.map Prod.fst).sum = (deltaIdx pzs).length ∧
          (xs = [] → deltaIdx pzs = []) ∧
          ∀ j, (es.map (·.2 j)).flatten = (deltaIdx pzs).map fun i => deltaRow p (z.val [j]) (pzs.getD i (.delta 0 0 0)) := by
        by_cases h0 : deltaIdx pzs = []
        · exact ⟨[], [], by simp [deltaKernelNd, h0], .nil, by simp [h0], fun _ => h0, fun j => by simp [h0]⟩
        · obtain ⟨K, k1, k2⟩ := deltaKernelNd_ok p ((deltaIdx pzs).map fun i => (pzs.getD i (.delta 0 0 0)).plane)
            (by simpa using h0) hz c2 hc3
          exact ⟨[K], [(_, _)], k1, .cons k2 .nil, by simp, by simp,
            fun j => by simp [List.map_map, Function.comp_def, deltaRow]⟩
      obtain ⟨xs, es, x1, x2, x3, x4, x5⟩ := hE
      obtain ⟨ys, fs, y1, y2, y3, y4, y5⟩ := hD
      have hne : xs ++ ys ≠ [] := by
        intro h0
        obtain ⟨h1, h2⟩ := List.append_eq_nil_iff.1 h0
        have e1 := x4 h1
        have e2 := y4 h2
        cases pzs with
        | nil => simp [pyMax] at hm
        | cons pz l =>
          unfold extIdx at e1
          unfold deltaIdx at e2
          rw [List.filter_eq_nil_iff] at e1 e2
          have m0 : 0 ∈ List.range (pz :: l).length := by simp
          have f1 := e1 0 m0
          have f2 := e2 0 m0
          simp at f1 f2
          rw [f1] at f2
          exact absurd f2 (by decide)
      obtain ⟨Z, z1, z2⟩ := concat0_cols hne (List.rel_append x2 y2)
      simp only [x1, y1, okBind', z1]
      refine Columns.ok (m := (argsort (extIdx pzs ++ deltaIdx pzs)).length) fun q => ?_
      have z3 : IsCols n (extIdx pzs ++ deltaIdx pzs).length Z fun j =>
          ((extIdx pzs).map fun i => extRow p zmax (z.val [j]) (pzs.getD i (.delta 0 0 0)))
            ++ (deltaIdx pzs).map fun i => deltaRow p (z.val [j]) (pzs.getD i (.delta 0 0 0)) := by
        have : (fun j => ((es ++ fs).map (·.2 j)).flatten) = fun j =>
            ((extIdx pzs).map fun i => extRow p zmax (z.val [j]) (pzs.getD i (.delta 0 0 0)))
              ++ (deltaIdx pzs).map fun i => deltaRow p (z.val [j]) (pzs.getD i (.delta 0 0 0)) := by
          funext j
          rw [List.map_append, List.flatten_append, x5, y5]
        rw [this, List.map_append, List.sum_append, x3, y3, ← List.length_append] at z2
        exact z2
      exact (take0_cols z3 fun i hi => argsort_lt hi).map fun r => 3 * const_H0 ^ 2 * p.Omega_m / 2 / const_c * ellFactor q * r

end JaxCosmo
