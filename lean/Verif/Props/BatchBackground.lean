import Verif.Proofs.BatchBackground
import Verif.Props.Distances

/-! # C140: background functions over arrays -/

namespace JaxCosmo
open Spec

/-- `f_de` and `Esqr` on arrays. -/
theorem fDeNd_each (p : Params) (a : Nd ℝ) : Each a (fDeNd p a) (f_de p) :=
  Each.map2 (a := a) (x := a.map fun a => -3 * (1 + p.w0 + p.wa) * Real.log a) (y := a.map fun a => 3 * p.wa * (a - 1))
    (f := fun a => -3 * (1 + p.w0 + p.wa) * Real.log a) (g := fun a => 3 * p.wa * (a - 1)) rfl rfl (fun _ _ => rfl)
    (fun _ _ => rfl) (· + ·)

theorem EsqrNd_each (p : Params) (a : Nd ℝ) : Each a (EsqrNd p a) (Esqr p) := by
  obtain ⟨F, f1, f2, f3⟩ := fDeNd_each p a
  obtain ⟨S, s1, s2, s3⟩ := Each.map2 (a := a) (x := a.map fun a => p.Omega_m * a ^ (-3 : ℤ))
    (y := a.map fun a => p.Omega_k * a ^ (-2 : ℤ)) (f := fun a => p.Omega_m * a ^ (-3 : ℤ))
    (g := fun a => p.Omega_k * a ^ (-2 : ℤ)) rfl rfl (fun _ _ => rfl) (fun _ _ => rfl) (· + ·)
  have := Each.map2 (a := a) (x := S) (y := F.map fun f => p.Omega_de * Real.exp f) s2 f2 s3
    (f := fun a => p.Omega_m * a ^ (-3 : ℤ) + p.Omega_k * a ^ (-2 : ℤ)) (g := fun a => p.Omega_de * Real.exp (f_de p a))
    (fun i hi => by simp only [Nd.map, f3 i hi]) (· + ·)
  unfold EsqrNd
  rw [f1, okBind', s1, okBind']
  exact this

/-- C140: the functions given by a formula take arrays of every shape. -/
theorem C140_formula (p : Params) (a : Nd ℝ) :
    Each a (.ok (wNd p a)) (w p) ∧ Each a (fDeNd p a) (f_de p) ∧ Each a (EsqrNd p a) (Esqr p) ∧ Each a (HNd p a) (H p) ∧
    Each a (OmegaMNd p a) (Omega_m_a p) ∧ Each a (OmegaDeNd p a) (Omega_de_a p) ∧
    Each a (dchioverdaNd p a) (dchioverda p) ∧ (p.gamma ≠ none → Each a (growthRateNd p a) (growthRateOf p)) := by
  obtain ⟨F, f1, f2, f3⟩ := fDeNd_each p a
  obtain ⟨E, e1, e2, e3⟩ := EsqrNd_each p a
  have hm : Each a (OmegaMNd p a) (Omega_m_a p) := by
    unfold OmegaMNd
    rw [e1, okBind']
    exact Each.map2 (a := a) (x := a.map fun a => p.Omega_m * a ^ (-3 : ℤ)) (f := fun a => p.Omega_m * a ^ (-3 : ℤ))
      rfl e2 (fun _ _ => rfl) e3 _
  refine ⟨Each.ok_map _ _, fDeNd_each p a, EsqrNd_each p a, (EsqrNd_each p a).bind_map _, hm, ?_, ?_, fun hg => ?_⟩
  · unfold OmegaDeNd
    rw [f1, okBind', e1, okBind']
    exact Each.map2 (x := F.map fun f => p.Omega_de * Real.exp f) (f := fun a => p.Omega_de * Real.exp (f_de p a)) f2 e2
      (fun i hi => by simp only [Nd.map, f3 i hi]) e3 _
  · unfold dchioverdaNd
    rw [e1, okBind']
    exact (Each.map2 (a := a) (x := a.map (· ^ 2)) (y := E.map Real.sqrt) (f := (· ^ 2))
      (g := fun a => Real.sqrt (Esqr p a)) rfl e2 (fun _ _ => rfl) (fun i hi => by simp only [Nd.map, e3 i hi]) (· * ·)).bind_map (const_rh / ·)
  · cases hγ : p.gamma with
    | none => exact absurd hγ hg
    | some γ =>
      have : growthRateNd p a = OmegaMNd p a >>= fun o => pure (o.map (· ^ γ)) := by simp only [growthRateNd, hγ]
      rw [this]
      exact (hm.bind_map _).congr fun x => by simp only [growthRateOf, hγ, growthRateGamma]

/-- C140 for the functions read off a table: arrays all of whose axes but the first have length one. Missing: other
shapes, which are refused (`C140_rows`) or give wrong values (`C140_shared`, `C140_refuted`). -/
theorem C140_partial (p : Params) (a : Nd ℝ) {s : List ℕ} {r : ℕ} (ha : a.shape = s ++ [r]) (hs : ∀ m ∈ s, m = 1) :
    Each a (chiNd p a) (chiOf p) ∧ Each a (aOfNd p a) (aOf p) ∧
    Each a (transverseNd p a) (fun x => transverseOf p (chiOf p x)) ∧
    Each a (angularNd p a) (fun x => x * transverseOf p (chiOf p x)) ∧
    Each a (growthNd p a) (growthOf p) ∧ Each a (growthRateNd p a) (growthRateOf p) := by
  have hc : Each a (chiNd p a) (chiOf p) := by
    obtain ⟨y, h1, h2, h3⟩ := interpNd_each (n := 256) (by norm_num) (chiTable p (-3) 256).a (chiTable p (-3) 256).chi ha hs
    refine ⟨y.map fun x => clipLo x 0, ?_, h2, fun i hi => ?_⟩
    · unfold chiNd
      rw [atleast1d_col ha]
      change Except.map _ (interpNd 256 _ _ a) = _
      rw [h1]
      rfl
    · change clipLo (y.val i) 0 = _
      rw [h3 i hi]
      rfl
  have ht : Each a (transverseNd p a) (fun x => transverseOf p (chiOf p x)) := hc.bind_map _
  refine ⟨hc, ?_, ht, ?_, ?_, ?_⟩
  · unfold aOfNd
    rw [atleast1d_col ha]
    exact interpNd_each (n := 256) (by norm_num) _ _ ha hs
  · obtain ⟨T, t1, t2, t3⟩ := ht
    unfold angularNd
    rw [t1, okBind']
    exact Each.map2 (f := fun x => x) rfl t2 (fun _ _ => rfl) t3 _
  · obtain ⟨g, h1, h2, h3⟩ := growthNd_col p ha hs
    refine ⟨g, h1, h2, fun i hi => ?_⟩
    rw [ha] at hi
    obtain ⟨j, rfl⟩ := inShape_col hs hi
    exact h3 j
  · by_cases hg : p.gamma = none
    · have : growthRateNd p a = interpNd 128 (logspace (-3) 0 128) (fun i =>
          (odeint (growthDerivs p) (logspace (-3) 0 128 0, 1) (logspace (-3) 0 128) i).2 /
          (odeint (growthDerivs p) (logspace (-3) 0 128 0, 1) (logspace (-3) 0 128) (ix 128 (-1))).1
          * logspace (-3) 0 128 i / ((odeint (growthDerivs p) (logspace (-3) 0 128 0, 1) (logspace (-3) 0 128) i).1 /
          (odeint (growthDerivs p) (logspace (-3) 0 128 0, 1) (logspace (-3) 0 128) (ix 128 (-1))).1)) a := by
        simp only [growthRateNd, hg]
        rfl
      rw [this]
      refine (interpNd_each (by norm_num) _ _ ha hs).congr fun x => ?_
      simp only [growthRateOf, hg]
      rfl
    · exact (C140_formula p a).2.2.2.2.2.2.2 hg

/-- C140: with a scalar the distances come as arrays of length one; the growth factor, and the growth rate unless it is
the power of the matter density, raise `ValueError`. -/
theorem C140_scalar (p : Params) (x : ℝ) :
    (∃ R, chiNd p (.scalar x) = .ok R ∧ R.shape = [1] ∧ R.val [0] = chiOf p x) ∧
    (∃ R, aOfNd p (.scalar x) = .ok R ∧ R.shape = [1] ∧ R.val [0] = aOf p x) ∧
    (∃ R, transverseNd p (.scalar x) = .ok R ∧ R.shape = [1] ∧ R.val [0] = transverseOf p (chiOf p x)) ∧
    (∃ R, angularNd p (.scalar x) = .ok R ∧ R.shape = [1] ∧ R.val [0] = x * transverseOf p (chiOf p x)) ∧
    growthNd p (.scalar x) = .error .valueError ∧ (p.gamma = none → growthRateNd p (.scalar x) = .error .valueError) := by
  obtain ⟨y, h1, h2, h3⟩ := chiNd_scalar p (a := .scalar x) rfl
  refine ⟨⟨y, h1, h2, h3⟩, ?_, ⟨y.map (transverseOf p), by rw [transverseNd, h1]; rfl, h2, ?_⟩, ?_, rfl, fun hg => ?_⟩
  · obtain ⟨z, z1, z2, z3⟩ := interpNd_each (n := 256) (by norm_num) (chiTable p (-3) 256).chi (chiTable p (-3) 256).a
      (x := (Nd.scalar x).atleast1d) (s := []) (r := 1) rfl (by simp)
    exact ⟨z, z1, z2, z3 [0] (.cons (by norm_num) .nil)⟩
  · change transverseOf p (y.val [0]) = _
    rw [h3]
    rfl
  · have ht : transverseNd p (.scalar x) = .ok (y.map (transverseOf p)) := by rw [transverseNd, h1]; rfl
    have hb : bshape (Nd.scalar x).shape (y.map (transverseOf p)).shape = some [1] := by
      change bshape [] y.shape = _
      rw [h2]
      rfl
    refine ⟨_, by rw [angularNd, ht, okBind', Nd.map2_ok _ hb], rfl, ?_⟩
    simp only [Nd.ent, Nd.map, h2, bix, if_true, h3]
    rfl
  · simp only [growthRateNd, hg]
    rfl

/-- C140: arrays whose last axis has neither length one nor the length of the table are refused, with `TypeError` for
2-d arrays and `ValueError` for others. -/
theorem C140_rows (p : Params) (a : Nd ℝ) {m r : ℕ} {s : List ℕ} (ha : a.shape = m :: (s ++ [r])) (h1 : m ≠ 1) :
    (m ≠ 256 → chiNd p a = .error (if s = [] then .typeError else .valueError) ∧
      aOfNd p a = .error (if s = [] then .typeError else .valueError) ∧
      transverseNd p a = .error (if s = [] then .typeError else .valueError) ∧
      angularNd p a = .error (if s = [] then .typeError else .valueError)) ∧
    (m ≠ 128 → growthNd p a = .error (if s = [] then .typeError else .valueError) ∧
      (p.gamma = none → growthRateNd p a = .error (if s = [] then .typeError else .valueError))) := by
  have e : a.atleast1d = a := atleast1d_col (s := m :: s) (r := r) (by rw [ha]; rfl)
  refine ⟨fun h2 => ?_, fun h2 => ⟨?_, fun hg => ?_⟩⟩
  · have hc : chiNd p a = .error (if s = [] then .typeError else .valueError) := by
      unfold chiNd
      rw [e]
      change Except.map _ (interpNd 256 _ _ a) = _
      rw [interpNd_rows (by norm_num) _ _ ha h1 h2]
      rfl
    have ht : transverseNd p a = .error (if s = [] then .typeError else .valueError) := by
      rw [transverseNd, hc]
      rfl
    refine ⟨hc, ?_, ht, by rw [angularNd, ht]; rfl⟩
    unfold aOfNd
    rw [e]
    exact interpNd_rows (n := 256) (by norm_num) _ _ ha h1 h2
  · unfold growthNd
    rw [interpNd_rows (by rw [growthTable_n]; norm_num) _ _ ha h1 (by rw [growthTable_n]; exact h2)]
    rfl
  · simp only [growthRateNd, hg]
    exact interpNd_rows (n := 128) (by norm_num) _ _ ha h1 h2

/-- C140: in an array of shape `(1, 2, 1)` holding a tabulated scale factor and a later one, the later distance is
extrapolated from the table segment that starts at the first. -/
theorem C140_shared (p : Params) (a : Nd ℝ) (ha : a.shape = [1, 2, 1]) {j : ℕ} (hj1 : 1 ≤ j) (hj2 : j + 1 < 256)
    (h0 : a.val [0, 0, 0] = logspace (-3) 0 256 j) (h1 : logspace (-3) 0 256 j ≤ a.val [0, 1, 0]) :
    ∃ R, chiNd p a = .ok R ∧ R.shape = a.shape ∧
      R.val [0, 1, 0] = max (chord (logspace (-3) 0 256) (chiTable p (-3) 256).chi j (a.val [0, 1, 0])) 0 := by
  have hinc := logspace_increasing (lo := -3) (by norm_num) (by norm_num : 2 ≤ 256)
  obtain ⟨y, y1, y2, y3⟩ := interpNd_shared (n := 256) (by norm_num) hinc (chiTable p (-3) 256).chi ha hj1 hj2 h0 h1
  have hl : a.shape.getLast? = some 1 := by rw [ha]; rfl
  have e : a.atleast1d = a := atleast1d_col (s := [1, 2]) (r := 1) ha
  have hi : interpNd 256 (logspace (-3) 0 256) (chiTable p (-3) 256).chi a = .ok
      { shape := y.shape ++ [1]
        val := fun i => match interpBody 256 (logspace (-3) 0 256) (chiTable p (-3) 256).chi (a.at0 (i.getLastD 0)) with
          | .ok z => z.val i.dropLast
          | .error _ => 0 } := by
    unfold interpNd Nd.vmap
    rw [hl]
    simp only [y1]
    rfl
  refine ⟨_, by rw [chiNd, e]; change Except.map _ (interpNd 256 (logspace (-3) 0 256) _ a) = _; rw [hi]; rfl, ?_, ?_⟩
  · change y.shape ++ [1] = _
    rw [y2, ha]
    rfl
  · change clipLo (match interpBody 256 (logspace (-3) 0 256) (chiTable p (-3) 256).chi (a.at0 0) with
      | .ok z => z.val [0, 1] | .error _ => 0) 0 = _
    rw [y1]
    change clipLo (y.val [0, 1]) 0 = _
    rw [y3, clipLo]

/-- The scale factors of the counterexample, of shape `(1, 2, 1)`: the second and the fourth of the table. -/
noncomputable def twoNodes : Nd ℝ :=
  { shape := [1, 2, 1], val := fun i => logspace (-3) 0 256 (if i.tail.headD 0 = 0 then 1 else 3) }

/-- C140 as stated is false: in the empty universe, `radial_comoving_distance` of an array of shape `(1, 2, 1)` is not the
array of the distances. -/
theorem C140_refuted : ¬ ∀ (p : Params) (a : Nd ℝ) (R : Nd ℝ), EsqrPos p → chiNd p a = .ok R →
    Each a (chiNd p a) (chiOf p) := by
  intro h
  have hlo : (-3 : ℝ) < 0 := by norm_num
  have hx := logspace_increasing hlo (by norm_num : 2 ≤ 256)
  have hp := milneParams_milne
  have hE := milne_EsqrPos hp
  have hd := chiTable_decreasing milneParams hlo (by norm_num : 2 ≤ 256) hE
  have h13 := hx 1 3 (by norm_num) (by norm_num)
  obtain ⟨R, r1, r2, r3⟩ := C140_shared milneParams twoNodes rfl (j := 1) le_rfl (by norm_num) rfl h13.le
  obtain ⟨R', q1, q2, q3⟩ := h milneParams twoNodes R hE r1
  rw [r1] at q1
  obtain rfl := Except.ok.inj q1
  have q4 := q3 [0, 1, 0] (.cons (by norm_num) (.cons (by norm_num) (.cons (by norm_num) .nil)))
  rw [r3] at q4
  change max (chord _ _ 1 (logspace (-3) 0 256 3)) 0 = chiOf milneParams (logspace (-3) 0 256 3) at q4
  rw [chiOf, readChi_node hlo (by norm_num) hE (Or.inl (by norm_num)) (by norm_num)] at q4
  have hpos : 0 < (chiTable milneParams (-3) 256).chi 3 := by
    rw [← chiTable_last milneParams (-3) 256]
    exact hd 3 255 (by norm_num) (by norm_num)
  have e1 := milne_chi_step hp (-3) (n := 256) (i := 1) (by norm_num)
  have e2 := milne_chi_step hp (-3) (n := 256) (i := 2) (by norm_num)
  have g1 := logspace_gap hlo (by norm_num : 2 ≤ 256) 1
  have h12 := hx 1 2 (by norm_num) (by norm_num)
  have c12 := hd 1 2 (by norm_num) (by norm_num)
  refine absurd q4 (ne_of_lt (max_lt ?_ hpos))
  rw [chord]
  norm_num only at e1 e2 g1
  have hp2 : 0 < logspace (-3) 0 256 2 - logspace (-3) 0 256 1 := by linarith
  have hq : 2 < (logspace (-3) 0 256 3 - logspace (-3) 0 256 1) / (logspace (-3) 0 256 2 - logspace (-3) 0 256 1) := by
    rw [lt_div_iff₀ hp2]
    linarith
  nlinarith

/-- C140 is not empty: three scale factors as a 1-d array. -/
example : ∃ R, angularNd Planck15 (.vec 3 fun i => (i + 1) / 4) = .ok R ∧ R.shape = [3] ∧
    R.val [1] = 1 / 2 * transverseOf Planck15 (chiOf Planck15 (1 / 2)) := by
  obtain ⟨R, h1, h2, h3⟩ := (C140_partial Planck15 (.vec 3 fun i => (i + 1) / 4) (s := []) (r := 3) rfl (by simp)).2.2.2.1
  refine ⟨R, h1, h2, ?_⟩
  rw [h3 [1] (.cons (by norm_num) .nil)]
  norm_num [Nd.vec]

/-- C140: a table of shape `(2, 3)` of expansion rates, and the distances at the same entries refused. -/
example (α : List ℕ → ℝ) : (∃ R, EsqrNd Planck15 { shape := [3, 2], val := α } = .ok R ∧
      R.val [2, 1] = Esqr Planck15 (α [2, 1])) ∧
    chiNd Planck15 { shape := [3, 2], val := α } = .error .typeError := by
  refine ⟨?_, ((C140_rows Planck15 _ (m := 3) (r := 2) (s := []) rfl (by norm_num)).1 (by norm_num)).1⟩
  obtain ⟨R, h1, -, h3⟩ := (C140_formula Planck15 { shape := [3, 2], val := α }).2.2.1
  exact ⟨R, h1, h3 _ (.cons (by norm_num) (.cons (by norm_num) .nil))⟩

end JaxCosmo
