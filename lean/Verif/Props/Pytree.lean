import Verif.Proofs.Pytree
import Verif.Props.Distances

/-! # C16–C18: objects passing through JAX flattening -/

namespace JaxCosmo
open Spec

/-! ## C16 -/

/-- An object made by the constructor, with any workspace: the flag says whether `gamma` was
given. -/
def Cosmology.Valid (o : Cosmology) : Prop := o.gammaGrowth = o.params.gamma.isSome

/-- C16: fewer than eight parameters are refused, whatever the growth mode. -/
theorem C16_short (aux : Bool) (children : List ℝ) (h : children.length < 8) :
    Cosmology.treeUnflatten aux children = .error .valueError := by
  unfold Cosmology.treeUnflatten
  split
  · simp at h; omega
  · rfl

example : ([0.25, 0.05, 0.7, 0.96, 0.8, 0, -1] : List ℝ).length < 8 := by simp

/-- C16 holds for every cosmology without `gamma`: all parameters survive, the growth mode too, and
the workspace is empty. -/
theorem C16_partial (o : Cosmology) (hv : o.Valid) (h : o.params.gamma = none) :
    ∃ o', o.roundTrip = .ok o' ∧ o'.params = o.params ∧ o'.gammaGrowth = o.gammaGrowth ∧
      o'.wsChi = none ∧ o'.wsGrowth = none := by
  obtain ⟨⟨Oc, Ob, hh, ns, s8, Ok, w0, wa, g⟩, fl, c, gr⟩ := o
  simp only at h
  subst h
  have hf : fl = false := hv
  subst hf
  exact ⟨_, rfl, rfl, rfl, rfl, rfl⟩

/-- What happens with `gamma`: rebuilding always raises `AttributeError`. -/
theorem C16_gamma_fails (o : Cosmology) (hv : o.Valid) (γ : ℝ) (h : o.params.gamma = some γ) :
    o.roundTrip = .error .attributeError := by
  obtain ⟨⟨Oc, Ob, hh, ns, s8, Ok, w0, wa, g⟩, fl, c, gr⟩ := o
  simp only at h
  subst h
  have hf : fl = true := hv
  subst hf
  rfl

/-- C16 is false: the Planck cosmology with `gamma = 0.55` cannot be rebuilt. -/
theorem C16_refuted : ¬ ∀ o : Cosmology, o.Valid → ∃ o', o.roundTrip = .ok o' ∧
    o'.params = o.params := by
  intro h
  obtain ⟨o', ho, -⟩ := h (Cosmology.init { Planck15 with gamma := some 0.55 }) rfl
  have := C16_gamma_fails (Cosmology.init { Planck15 with gamma := some 0.55 }) rfl 0.55 rfl
  rw [this] at ho
  cases ho

/-- Consequence: every `jit` kernel (`probes.py:18`, `:79`, `:104`) fails for every cosmology with
`gamma`, whatever the bins, biases, redshift and multipole. -/
theorem C16_kernels_fail (p : Params) (γ : ℝ) (h : p.gamma = some γ) (pzs : List Nz) (bias : Val)
    (z ell : ℝ) :
    weakLensingKernel p pzs z ell = .error .attributeError ∧
    densityKernel p pzs bias z ell = .error .attributeError ∧
    nlaKernel p pzs bias z ell = .error .attributeError := by
  have hj : jitCosmo p = .error .attributeError := by
    obtain ⟨Oc, Ob, hh, ns, s8, Ok, w0, wa, g⟩ := p
    simp only at h
    subst h
    rfl
  simp only [weakLensingKernel, densityKernel, nlaKernel, hj]
  exact ⟨rfl, rfl, rfl⟩

/-- Without `gamma` the cosmology seen inside a `jit` function is the one passed. -/
theorem C16_jit_partial (p : Params) (h : p.gamma = none) : jitCosmo p = .ok p := by
  obtain ⟨Oc, Ob, hh, ns, s8, Ok, w0, wa, g⟩ := p
  simp only at h
  subst h
  rfl

example : (Cosmology.init Planck15).Valid ∧ (Cosmology.init Planck15).params.gamma = none :=
  ⟨rfl, rfl⟩

/-! ## C17 -/

mutual

/-- The same value with the attribute `_norm` of every object inside it as in a new object: the
only thing a trip is allowed to change. -/
noncomputable def PyVal.fresh : PyVal → PyVal
  | .list xs => .list (PyVal.freshAll xs)
  | .obj cls params config gals norm =>
    .obj cls (PyVal.freshAll params) config gals.fresh (if cls.isNz then cls.initNorm else norm)
  | .none => .none
  | .bool b => .bool b
  | .num x => .num x
  | .arr xs => .arr xs

/-- `fresh` of every entry. -/
noncomputable def PyVal.freshAll : List PyVal → List PyVal
  | [] => []
  | x :: xs => x.fresh :: PyVal.freshAll xs

end

/-- Values a program can build from numbers, arrays, lists and constructor calls of every class but
`WeakLensing` (nested at will: lists of bins, shifted distributions, lists of biases), with
redshift distributions possibly called in between (which sets `_norm`). -/
inductive Built : PyVal → Prop
  | none : Built .none
  | bool (b) : Built (.bool b)
  | num (x) : Built (.num x)
  | arr (xs) : Built (.arr xs)
  | list (xs) : (∀ x ∈ xs, Built x) → Built (.list xs)
  | call (cls args kw v) : cls ≠ .weakLensing → (∀ x ∈ args, Built x) →
      (∀ e ∈ kw, Built e.2) → construct cls args kw = .ok v → Built v
  | called (cls params config gals norm x) : cls.isNz = true → cls ≠ .deltaNz →
      Built (.obj cls params config gals norm) → Built (.obj cls params config gals (some x))

/-- Structural form of `Built`. -/
inductive WF : PyVal → Prop
  | none : WF .none
  | bool (b) : WF (.bool b)
  | num (x) : WF (.num x)
  | arr (xs) : WF (.arr xs)
  | list (xs) : (∀ x ∈ xs, WF x) → WF (.list xs)
  | bias (cls params config) : cls = .constantLinearBias ∨ cls = .inverseGrowthLinearBias ∨
      cls = .desY1IaBias → (∀ x ∈ params, WF x) → WF (.obj cls params config .none Option.none)
  | nz (cls params z rest gals norm) : cls.isNz = true → (∀ x ∈ params, WF x) →
      Avoids rest ["gals_per_arcmin2", "zmax"] → WF gals →
      WF (.obj cls params (("zmax", z) :: rest) gals norm)
  | nc (bins bias r rest) : WF bins → WF bias →
      Avoids rest ["redshift_bins", "bias", "has_rsd"] →
      WF (.obj .numberCounts [bins, bias] (("has_rsd", r) :: rest) .none Option.none)

theorem kwGet_mem {kw : List (String × PyVal)} {k : String} {v : PyVal} (h : kwGet kw k = some v) :
    ∃ e ∈ kw, e.2 = v := by
  simp only [kwGet, Option.map_eq_some_iff] at h
  obtain ⟨e, he, rfl⟩ := h
  exact ⟨e, List.mem_of_find?_eq_some he, rfl⟩

theorem Built.wf {v : PyVal} (h : Built v) : WF v := by
  induction h with
  | none => exact .none
  | bool b => exact .bool b
  | num x => exact .num x
  | arr xs => exact .arr xs
  | list xs _ ih => exact .list xs ih
  | call cls args kw v hcls _ _ hv ihA ihK =>
    by_cases hz : cls.isNz = true
    · rw [construct_nz hz] at hv
      cases hv
      refine WF.nz _ _ _ _ _ _ hz ihA (kwRest_avoids _ _) ?_
      cases hg : kwGet kw "gals_per_arcmin2" with
      | none => exact .num 1
      | some g =>
        obtain ⟨e, he, rfl⟩ := kwGet_mem hg
        exact ihK e he
    · cases cls with
      | constantLinearBias => cases hv; exact .bias _ _ _ (Or.inl rfl) ihA
      | inverseGrowthLinearBias => cases hv; exact .bias _ _ _ (Or.inr (Or.inl rfl)) ihA
      | desY1IaBias => cases hv; exact .bias _ _ _ (Or.inr (Or.inr rfl)) ihA
      | weakLensing => exact absurd rfl hcls
      | numberCounts =>
        unfold construct at hv
        simp only at hv
        rcases hb : bindArgs ["redshift_bins", "bias", "has_rsd"] args kw with e | b
        · rw [hb] at hv; cases hv
        · rw [hb] at hv
          change (match kwGet b "redshift_bins", kwGet b "bias" with
            | some bins, some bias => _
            | _, _ => _) = _ at hv
          have hmem : ∀ e ∈ b, WF e.2 := by
            unfold bindArgs at hb
            simp only at hb
            split at hb
            · cases hb
            split at hb
            · cases hb
            cases hb
            intro e he
            rcases List.mem_append.mp he with he | he
            · exact ihA _ (List.of_mem_zip he).2
            · exact ihK _ (List.mem_of_mem_filter he)
          rcases h1 : kwGet b "redshift_bins" with _ | bins
          · rw [h1] at hv; cases hv
          rcases h2 : kwGet b "bias" with _ | bias
          · rw [h1, h2] at hv; cases hv
          rw [h1, h2] at hv
          cases hv
          obtain ⟨e1, he1, rfl⟩ := kwGet_mem h1
          obtain ⟨e2, he2, rfl⟩ := kwGet_mem h2
          exact .nc _ _ _ _ (hmem _ he1) (hmem _ he2) (kwRest_avoids _ _)
      | smailNz => exact absurd rfl hz
      | deltaNz => exact absurd rfl hz
      | kdeNz => exact absurd rfl hz
      | systematicShift => exact absurd rfl hz
      | userNz pz => exact absurd rfl hz
  | called cls params config gals norm x hz _ _ ih =>
    cases ih with
    | bias _ _ _ hc _ => rcases hc with rfl | rfl | rfl <;> simp [Cls.isNz] at hz
    | nz _ _ z rest _ _ _ hp hr hg => exact .nz _ _ _ _ _ _ hz hp hr hg
    | nc => simp [Cls.isNz] at hz

theorem tripAll_of {xs : List PyVal} (h : ∀ x ∈ xs, x.trip = .ok x.fresh) :
    PyVal.tripAll xs = .ok (PyVal.freshAll xs) := by
  induction xs with
  | nil => simp [PyVal.tripAll, PyVal.freshAll]
  | cons x xs ih =>
    have h1 := h x (List.mem_cons_self ..)
    have h2 := ih fun y hy => h y (List.mem_cons_of_mem _ hy)
    simp only [PyVal.tripAll, PyVal.freshAll, h1, h2]
    rfl

theorem freshAll_mem {xs : List PyVal} {y : PyVal} (h : y ∈ PyVal.freshAll xs) :
    ∃ x ∈ xs, y = x.fresh := by
  induction xs with
  | nil => simp [PyVal.freshAll] at h
  | cons x xs ih =>
    simp only [PyVal.freshAll, List.mem_cons] at h
    rcases h with rfl | h
    · exact ⟨x, List.mem_cons_self .., rfl⟩
    · obtain ⟨z, hz, rfl⟩ := ih h
      exact ⟨z, List.mem_cons_of_mem _ hz, rfl⟩

theorem WF.trip {v : PyVal} (h : WF v) : v.trip = .ok v.fresh ∧ WF v.fresh := by
  induction h with
  | none => exact ⟨by simp [PyVal.trip, PyVal.fresh], by simpa [PyVal.fresh] using WF.none⟩
  | bool b => exact ⟨by simp [PyVal.trip, PyVal.fresh], by simpa [PyVal.fresh] using WF.bool b⟩
  | num x => exact ⟨by simp [PyVal.trip, PyVal.fresh], by simpa [PyVal.fresh] using WF.num x⟩
  | arr xs => exact ⟨by simp [PyVal.trip, PyVal.fresh], by simpa [PyVal.fresh] using WF.arr xs⟩
  | list xs _ ih =>
    refine ⟨?_, ?_⟩
    · simp only [PyVal.trip, PyVal.fresh, tripAll_of fun x hx => (ih x hx).1]
      rfl
    · simp only [PyVal.fresh]
      refine .list _ fun y hy => ?_
      obtain ⟨x, hx, rfl⟩ := freshAll_mem hy
      exact (ih x hx).2
  | bias cls params config hc _ ih =>
    refine ⟨?_, ?_⟩
    · simp only [PyVal.trip, PyVal.fresh, tripAll_of fun x hx => (ih x hx).1]
      rcases hc with rfl | rfl | rfl <;> rfl
    · have : (PyVal.obj cls params config .none Option.none).fresh
          = .obj cls (PyVal.freshAll params) config .none Option.none := by
        rcases hc with rfl | rfl | rfl <;> simp [PyVal.fresh, Cls.isNz]
      rw [this]
      refine .bias _ _ _ hc fun y hy => ?_
      obtain ⟨x, hx, rfl⟩ := freshAll_mem hy
      exact (ih x hx).2
  | nz cls params z rest gals norm hz _ hr _ ih ihg =>
    refine ⟨?_, ?_⟩
    · simp only [PyVal.trip, PyVal.fresh, tripAll_of fun x hx => (ih x hx).1, ihg.1, hz, if_true]
      exact unflatten_nz hz _ _ _ hr _
    · simp only [PyVal.fresh]
      refine .nz _ _ _ _ _ _ hz (fun y hy => ?_) hr ihg.2
      obtain ⟨x, hx, rfl⟩ := freshAll_mem hy
      exact (ih x hx).2
  | nc bins bias r rest _ _ hr ih1 ih2 =>
    refine ⟨?_, ?_⟩
    · simp only [PyVal.trip, PyVal.fresh, PyVal.tripAll, PyVal.freshAll, ih1.1, ih2.1]
      exact unflatten_nc _ _ _ _ hr .none
    · simp only [PyVal.fresh, PyVal.freshAll]
      exact .nc _ _ _ _ ih1.2 ih2.2 hr

mutual

theorem fresh_fresh : ∀ v : PyVal, v.fresh.fresh = v.fresh
  | .list xs => by simp only [PyVal.fresh, freshAll_freshAll xs]
  | .obj cls params config gals norm => by
    simp only [PyVal.fresh, freshAll_freshAll params, fresh_fresh gals]
    split <;> rfl
  | .none | .bool _ | .num _ | .arr _ => by simp only [PyVal.fresh]

theorem freshAll_freshAll : ∀ xs : List PyVal,
    PyVal.freshAll (PyVal.freshAll xs) = PyVal.freshAll xs
  | [] => by simp only [PyVal.freshAll]
  | x :: xs => by simp only [PyVal.freshAll, fresh_fresh x, freshAll_freshAll xs]

end

/-- C17: every value built from the library's classes (other than `WeakLensing`), nested in any
way, survives flattening and unflattening: classes, parameters, configurations and galaxy
densities are the same at every level; only `_norm` is as new. -/
theorem C17_roundtrip {v : PyVal} (h : Built v) : v.trip = .ok v.fresh := h.wf.trip.1

/-- `n` trips one after the other. -/
noncomputable def trips : ℕ → PyVal → Except PyErr PyVal
  | 0, v => .ok v
  | n + 1, v => do
    let w ← v.trip
    trips n w

/-- C17: any number of trips (at least one) gives the same value as one trip. -/
theorem C17_repeat {v : PyVal} (h : Built v) (n : ℕ) : trips (n + 1) v = .ok v.fresh := by
  have key : ∀ (n : ℕ) (v : PyVal), WF v → trips (n + 1) v = .ok v.fresh := by
    intro n
    induction n with
    | zero => intro v h; simp only [trips, h.trip.1]; rfl
    | succ n ih =>
      intro v h
      rw [trips, h.trip.1]
      exact (ih _ h.trip.2).trans (by rw [fresh_fresh])
  exact key n v h.wf

/-- C17 on objects: class, configuration and (up to `_norm` inside) parameters and galaxy density
are those of the original. -/
theorem C17_fields {cls : Cls} {params : List PyVal} {config : List (String × PyVal)} {gals : PyVal}
    {norm : Option ℝ} (h : Built (.obj cls params config gals norm)) :
    ∃ norm', (PyVal.obj cls params config gals norm).trip
      = .ok (.obj cls (params.map PyVal.fresh) config gals.fresh norm') := by
  refine ⟨if cls.isNz then cls.initNorm else norm, (C17_roundtrip h).trans ?_⟩
  have : ∀ xs : List PyVal, PyVal.freshAll xs = xs.map PyVal.fresh := by
    intro xs; induction xs with
    | nil => rfl
    | cons x xs ih => simp only [PyVal.freshAll, List.map_cons, ih]
  simp only [PyVal.fresh, this]

/-! The library's own objects are such values, and are unchanged. -/

theorem map_fresh_id {xs : List PyVal} (h : ∀ x ∈ xs, x.fresh = x) : PyVal.freshAll xs = xs := by
  induction xs with
  | nil => rfl
  | cons x xs ih =>
    simp only [PyVal.freshAll, h x (List.mem_cons_self ..),
      ih fun y hy => h y (List.mem_cons_of_mem _ hy)]

theorem Bias.py_spec (b : Bias) : Built b.py ∧ b.py.fresh = b.py := by
  cases b with
  | constant b =>
    refine ⟨.call .constantLinearBias [.num b] [] _ nofun ?_ (by simp) rfl, ?_⟩
    · simpa using Built.num b
    · simp [Bias.py, PyVal.fresh, PyVal.freshAll, Cls.isNz]
  | invGrowth b =>
    refine ⟨.call .inverseGrowthLinearBias [.num b] [] _ nofun ?_ (by simp) rfl, ?_⟩
    · simpa using Built.num b
    · simp [Bias.py, PyVal.fresh, PyVal.freshAll, Cls.isNz]
  | desY1 A eta z0 =>
    refine ⟨.call .desY1IaBias [.num A, .num eta, .num z0] [] _ nofun ?_ (by simp) rfl, ?_⟩
    · simpa using ⟨Built.num A, Built.num eta, Built.num z0⟩
    · simp [Bias.py, PyVal.fresh, PyVal.freshAll, Cls.isNz]

theorem Val.py_spec (v : Val) : Built v.py ∧ v.py.fresh = v.py := by
  cases v with
  | none => exact ⟨.none, by simp [Val.py, PyVal.fresh]⟩
  | num x => exact ⟨.num x, by simp [Val.py, PyVal.fresh]⟩
  | nums xs =>
    refine ⟨.list _ ?_, ?_⟩
    · intro y hy
      obtain ⟨x, -, rfl⟩ := List.mem_map.mp hy
      exact .num x
    · simp only [Val.py, PyVal.fresh]
      rw [map_fresh_id]
      intro y hy
      obtain ⟨x, -, rfl⟩ := List.mem_map.mp hy
      simp [PyVal.fresh]
  | bias b => exact b.py_spec
  | biases bs =>
    refine ⟨.list _ ?_, ?_⟩
    · intro y hy
      obtain ⟨x, -, rfl⟩ := List.mem_map.mp hy
      exact x.py_spec.1
    · simp only [Val.py, PyVal.fresh]
      rw [map_fresh_id]
      intro y hy
      obtain ⟨x, -, rfl⟩ := List.mem_map.mp hy
      exact x.py_spec.2

/-- The value of `construct` for each distribution (`redshift.py:17-21`), by keyword arguments as
documented. -/
theorem Nz.py_built (nz : Nz) : Built nz.pyNew := by
  induction nz with
  | smail a b z0 g zm =>
    refine .call .smailNz [.num a, .num b, .num z0]
      [("gals_per_arcmin2", .num g), ("zmax", .num zm)] _ nofun ?_ ?_ rfl
    · simpa using ⟨Built.num a, Built.num b, Built.num z0⟩
    · simpa using ⟨Built.num g, Built.num zm⟩
  | delta z0 g zm =>
    refine .call .deltaNz [.num z0] [("gals_per_arcmin2", .num g), ("zmax", .num zm)] _ nofun ?_ ?_
      rfl
    · simpa using Built.num z0
    · simpa using ⟨Built.num g, Built.num zm⟩
  | kde cat bw g zm =>
    refine .call .kdeNz [.arr (cat.map (·.1)), .arr (cat.map (·.2))]
      [("bw", .num bw), ("gals_per_arcmin2", .num g), ("zmax", .num zm)] _ nofun ?_ ?_ rfl
    · simpa using ⟨Built.arr _, Built.arr _⟩
    · simpa using ⟨Built.num bw, Built.num g, Built.num zm⟩
  | shift parent bias g zm ih =>
    refine .call .systematicShift [parent.pyNew, .num bias]
      [("gals_per_arcmin2", .num g), ("zmax", .num zm)] _ nofun ?_ ?_ rfl
    · simpa using ⟨ih, Built.num bias⟩
    · simpa using ⟨Built.num g, Built.num zm⟩
  | user pz g zm =>
    refine .call (.userNz pz) [] [("gals_per_arcmin2", .num g), ("zmax", .num zm)] _ nofun ?_ ?_ rfl
    · simp
    · simpa using ⟨Built.num g, Built.num zm⟩

theorem Nz.py_fresh (nz : Nz) : ∀ norm, (nz.py norm).fresh = nz.pyNew := by
  induction nz with
  | shift parent bias g zm ih =>
    intro norm
    simp only [Nz.py, PyVal.fresh, PyVal.freshAll, ih]
    rfl
  | _ => intro norm; simp [Nz.py, Nz.pyNew, NzObj.py, NzObj.new, PyVal.fresh, PyVal.freshAll,
      Cls.isNz, Cls.initNorm, Nz.isDelta]

/-- The states of a distribution object reached from a new one by calls. -/
def NzObj.Reached (o : NzObj) : Prop :=
  ∃ (nz : Nz) (zs : List ℝ), o = zs.foldl (fun o z => (o.call z).1) (NzObj.new nz)

theorem NzObj.Reached.norm {o : NzObj} (h : o.Reached) :
    o.norm = (NzObj.new o.nz).norm ∨
      (o.nz.isDelta = false ∧ o.norm = some o.nz.computedNorm) := by
  obtain ⟨nz, zs, rfl⟩ := h
  have key : ∀ (zs : List ℝ) (o : NzObj), (o.norm = (NzObj.new o.nz).norm ∨
      (o.nz.isDelta = false ∧ o.norm = some o.nz.computedNorm)) →
      ((zs.foldl (fun o z => (o.call z).1) o).norm
          = (NzObj.new (zs.foldl (fun o z => (o.call z).1) o).nz).norm ∨
      ((zs.foldl (fun o z => (o.call z).1) o).nz.isDelta = false ∧
        (zs.foldl (fun o z => (o.call z).1) o).norm
          = some (zs.foldl (fun o z => (o.call z).1) o).nz.computedNorm)) := by
    intro zs
    induction zs with
    | nil => exact fun o h => h
    | cons z zs ih =>
      intro o h
      rw [List.foldl_cons]
      apply ih
      obtain ⟨nz, norm⟩ := o
      rcases h with h | ⟨hd, h⟩
      · simp only [NzObj.new] at h
        by_cases hd : nz.isDelta = true
        · left; simp [NzObj.call, NzObj.new, hd, h]
        · right; simp [NzObj.call, hd, h]
      · simp only at h hd
        subst h
        right; exact ⟨hd, rfl⟩
  exact key zs _ (Or.inl rfl)

/-- C17: a redshift distribution that has been called any number of times comes back as new; every
later call gives the same value as on the original. -/
theorem C17_redshift (o : NzObj) (h : o.Reached) :
    o.py.trip = .ok o.nz.pyNew ∧ ∀ z, ((NzObj.new o.nz).call z).2 = (o.call z).2 := by
  constructor
  · have hb : Built o.py := by
      have h0 := Nz.py_built o.nz
      obtain ⟨nz, norm⟩ := o
      rcases h.norm with hn | ⟨hd, hn⟩
      · simp only at hn
        subst hn
        exact h0
      · simp only at hn hd
        subst hn
        cases nz with
        | delta => simp [Nz.isDelta] at hd
        | _ => exact .called _ _ _ _ _ _ rfl nofun h0
    rw [C17_roundtrip hb]
    exact congrArg _ (Nz.py_fresh _ _)
  · intro z
    obtain ⟨nz, norm⟩ := o
    rcases h.norm with hn | ⟨hd, hn⟩
    · simp only at hn
      subst hn; rfl
    · simp only at hn hd
      subst hn
      simp [NzObj.call, NzObj.new, hd]

/-- C17: bias objects come back identical. -/
theorem C17_bias (b : Bias) : b.py.trip = .ok b.py := by
  rw [C17_roundtrip b.py_spec.1, b.py_spec.2]

theorem NumberCounts.py_built (o : NumberCounts) : Built o.py := by
  refine .call .numberCounts [.list (o.bins.map Nz.pyNew), o.bias.py]
    [("has_rsd", .bool o.has_rsd)] _ nofun ?_ ?_ rfl
  · intro x hx
    simp only [List.mem_cons, List.not_mem_nil, or_false] at hx
    rcases hx with rfl | rfl
    · refine .list _ fun y hy => ?_
      obtain ⟨nz, -, rfl⟩ := List.mem_map.mp hy
      exact nz.py_built
    · exact o.bias.py_spec.1
  · simpa using Built.bool _

theorem bins_fresh (bins : List Nz) :
    (PyVal.list (bins.map Nz.pyNew)).fresh = .list (bins.map Nz.pyNew) := by
  simp only [PyVal.fresh]
  rw [map_fresh_id]
  intro y hy
  obtain ⟨nz, -, rfl⟩ := List.mem_map.mp hy
  exact Nz.py_fresh nz _

/-- C17: a number-counts probe (bins, bias or list of biases, `has_rsd`) comes back identical. -/
theorem C17_numberCounts (o : NumberCounts) : o.py.trip = .ok o.py := by
  rw [C17_roundtrip o.py_built]
  congr 1
  simp only [NumberCounts.py, PyVal.fresh, PyVal.freshAll]
  have := bins_fresh o.bins
  simp only [PyVal.fresh] at this
  simp only [this, o.bias.py_spec.2, Cls.isNz]
  simp

/-- Encodings lose nothing: two bias objects with the same encoding are equal. -/
theorem Bias.py_injective : Function.Injective Bias.py := by
  intro a b h
  cases a <;> cases b <;> simp_all [Bias.py]

/-- A nested value that meets the hypothesis: a twice shifted, already called distribution with
its own density, inside a list with a bias. -/
example : Built (.list [.obj .systematicShift
    [(Nz.shift (.smail 1 2 0.5 3 2) 0.1 1 10).pyNew, .num 0.05]
    [("zmax", .num 4)] (.num 30) (some 0.7), (Bias.constant 2).py]) := by
  refine .list _ ?_
  intro x hx
  simp only [List.mem_cons, List.not_mem_nil, or_false] at hx
  rcases hx with rfl | rfl
  · exact .called _ _ _ _ _ _ rfl nofun (Nz.py_built (.shift (.shift (.smail 1 2 0.5 3 2) 0.1 1 10)
      0.05 30 4))
  · exact Bias.py_spec _ |>.1

/-! ## C18 -/

theorem tripAll_vals (vs : List Val) : PyVal.tripAll (vs.map Val.py) = .ok (vs.map Val.py) := by
  induction vs with
  | nil => rfl
  | cons v vs ih =>
    have : v.py.trip = .ok v.py := by rw [C17_roundtrip v.py_spec.1, v.py_spec.2]
    simp only [List.map_cons, PyVal.tripAll, this, ih]
    rfl

/-- `WeakLensing.roundTrip` is the trip of the Python object. -/
theorem WeakLensing.trip_eq (o : WeakLensing) : o.py.trip = o.roundTrip.map WeakLensing.py := by
  obtain ⟨bins, p1, p2, σ, en⟩ := o
  have hb : (PyVal.list (bins.map Nz.pyNew)).trip = .ok (.list (bins.map Nz.pyNew)) := by
    rw [C17_roundtrip, bins_fresh]
    refine .list _ fun y hy => ?_
    obtain ⟨nz, -, rfl⟩ := List.mem_map.mp hy
    exact nz.py_built
  have hall : PyVal.tripAll (.list (bins.map Nz.pyNew) :: p1.py :: p2.toList.map Val.py)
      = .ok (.list (bins.map Nz.pyNew) :: p1.py :: p2.toList.map Val.py) := by
    rw [PyVal.tripAll, hb, ← List.map_cons (f := Val.py), tripAll_vals]
    rfl
  have hg : PyVal.none.trip = .ok .none := by simp [PyVal.trip]
  have ht : (WeakLensing.py ⟨bins, p1, p2, σ, en⟩).trip
      = unflatten .weakLensing [("sigma_e", σ.py), ("ia_enabled", .bool en)]
        (.list (bins.map Nz.pyNew) :: p1.py :: p2.toList.map Val.py) .none := by
    simp only [WeakLensing.py, PyVal.trip, hall]
    rfl
  rw [ht]
  rcases p2 with _ | v2 <;> cases p1 with
  | bias b => cases b <;> rfl
  | _ => rfl

/-- C18 in part: the redshift bins and the intrinsic ellipticity survive, and with the default
multiplicative bias and without intrinsic alignments the kernel and the noise are unchanged by any
number of trips. Missing: a non-zero multiplicative bias, and intrinsic alignments. -/
theorem C18_partial (bins : List Nz) (σ : Val) :
    ∃ o', (WeakLensing.init bins .none (.num 0) σ).roundTrip = .ok o' ∧ o'.bins = bins ∧
      o'.sigma_e = σ ∧
      (∀ p z ell, o'.kernel p z ell = (WeakLensing.init bins .none (.num 0) σ).kernel p z ell) ∧
      o'.noise = (WeakLensing.init bins .none (.num 0) σ).noise ∧ o'.roundTrip = .ok o' :=
  ⟨_, rfl, rfl, rfl, fun _ _ _ => rfl, rfl, rfl⟩

/-- What happens to a multiplicative bias without intrinsic alignments: it is silently replaced by
`0` (and reappears as an unused intrinsic-alignment argument). -/
theorem C18_m_lost (bins : List Nz) (m : ℝ) (σ : Val) :
    ∃ o', (WeakLensing.init bins .none (.num m) σ).roundTrip = .ok o' ∧
      ∀ p z ell, o'.kernel p z ell = (WeakLensing.init bins .none (.num 0) σ).kernel p z ell :=
  ⟨_, rfl, fun _ _ _ => rfl⟩

/-- Two trips bring the multiplicative bias back: kernels alternate. -/
theorem C18_period_two (bins : List Nz) (m : ℝ) (σ : Val) :
    ∃ o' o'', (WeakLensing.init bins .none (.num m) σ).roundTrip = .ok o' ∧
      o'.roundTrip = .ok o'' ∧
      ∀ p z ell, o''.kernel p z ell = (WeakLensing.init bins .none (.num m) σ).kernel p z ell :=
  ⟨_, _, rfl, rfl, fun _ _ _ => rfl⟩

/-- What happens with intrinsic alignments: after a trip every kernel call raises. -/
theorem C18_ia_fails (bins : List Nz) (ia : Bias) (m : ℝ) (σ : Val) :
    ∃ o', (WeakLensing.init bins (.bias ia) (.num m) σ).roundTrip = .ok o' ∧
      ∀ p z ell, ∃ e, o'.kernel p z ell = .error e := by
  refine ⟨_, rfl, fun p z ell => ?_⟩
  change ∃ e, (weakLensingKernel p bins z ell >>= fun kernel =>
    nlaKernel p bins (.num m) z ell >>= fun ia' => bcast (· + ·) kernel ia' >>= fun kernel =>
      applyM kernel (.bias ia)) = .error e
  rcases weakLensingKernel p bins z ell with e | k
  · exact ⟨e, rfl⟩
  rcases nlaKernel p bins (.num m) z ell with e | k2
  · exact ⟨e, rfl⟩
  change ∃ e, (bcast (· + ·) k k2 >>= fun kernel => applyM kernel (.bias ia)) = .error e
  rcases bcast (· + ·) k k2 with e | k3
  · exact ⟨e, rfl⟩
  · exact ⟨.typeError, rfl⟩

/-- The kernel of a single source plane at `z0 = 1`, with multiplicative bias `m`. -/
theorem delta_kernel (m z ell : ℝ) :
    (WeakLensing.init [.delta 1 1 10] .none (.num m) (.num 0.26)).kernel Planck15 z ell
      = .ok [3 * const_H0 ^ 2 * Planck15.Omega_m / 2 / const_c * ellFactor ell
          * deltaRow Planck15 z (.delta 1 1 10) * (1 + m)] := by
  have hj := C16_jit_partial Planck15 rfl
  have hi : argsort [0] = [0] := by simp [argsort]
  simp [WeakLensing.kernel, WeakLensing.init, weakLensingKernel, hj, pyMax, Nz.zmax, extIdx,
    deltaIdx, Nz.isDelta, hi, applyM, pure, bind, Except.bind, Except.pure]

/-- C18 is false: for one source plane at `z = 1`, multiplicative bias `1` and the Planck
cosmology, the kernel at `z = 1/2`, `ell = 2` changes when the probe crosses a `jit` boundary. -/
theorem C18_refuted : ¬ ∀ (bins : List Nz) (ia m σ : Val), ∃ o',
    (WeakLensing.init bins ia m σ).roundTrip = .ok o' ∧
      ∀ p z ell, o'.kernel p z ell = (WeakLensing.init bins ia m σ).kernel p z ell := by
  intro h
  obtain ⟨o', ho, hk⟩ := h [.delta 1 1 10] .none (.num 1) (.num 0.26)
  obtain ⟨o'', ho', hk'⟩ := C18_m_lost [.delta 1 1 10] 1 (.num 0.26)
  rw [ho] at ho'
  cases ho'
  have e := (hk Planck15 (1 / 2) 2).symm.trans (hk' Planck15 (1 / 2) 2)
  rw [delta_kernel, delta_kernel] at e
  simp only [Except.ok.injEq, List.cons.injEq, and_true] at e
  have hE := planck_EsqrPos
  have hz1 : 0 < chiOf Planck15 (z2a (1 / 2)) :=
    C06_pos_before (by norm_num) (by norm_num) hE (by norm_num [z2a])
  have hz2 : chiOf Planck15 (z2a (1 / 2)) < chiOf Planck15 (z2a 1) :=
    C06_strictAnti (by norm_num) (by norm_num) hE (by norm_num [z2a]) (by norm_num [z2a])
  have hell : 0 < ellFactor 2 := by unfold ellFactor; norm_num
  have hrow : 0 < deltaRow Planck15 (1 / 2) (.delta 1 1 10) := by
    simp only [deltaRow, Nz.plane, clipLo]
    have h1 : 0 < max (chiOf Planck15 (z2a 1) - chiOf Planck15 (z2a (1 / 2))) 0 :=
      lt_max_of_lt_left (sub_pos.mpr hz2)
    have h2 : 0 < max (chiOf Planck15 (z2a 1)) 1 := lt_max_of_lt_right one_pos
    positivity
  have hc : 0 < 3 * const_H0 ^ 2 * Planck15.Omega_m / 2 / const_c := by
    norm_num [const_H0, const_c, Planck15, Params.Omega_m]
  nlinarith [mul_pos (mul_pos hc hell) hrow]

end JaxCosmo
