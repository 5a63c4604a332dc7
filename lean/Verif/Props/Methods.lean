import Verif.Model.Methods
import Verif.Model.CosmologyCall
import Verif.Proofs.Lists
import Mathlib.Tactic.NormNum

/-! # C135: constructing redshift distributions, biases and probes -/

namespace JaxCosmo
namespace Spec

/-- Keywords documented for a class (docstrings of `redshift.py`, `probes.py`). -/
def documented : Cls → List String
  | .smailNz | .deltaNz | .systematicShift | .userNz _ => ["gals_per_arcmin2", "zmax"]
  | .kdeNz => ["gals_per_arcmin2", "zmax", "bw"]
  | .weakLensing => ["redshift_bins", "ia_bias", "multiplicative_bias", "sigma_e", "ia_enabled"]
  | .numberCounts => ["redshift_bins", "bias", "has_rsd"]
  | .constantLinearBias | .inverseGrowthLinearBias | .desY1IaBias => []

end Spec
open Spec

/-- Numbers passed by keyword. -/
def numKw (kw : Kw) : List (String × PyVal) := kw.map fun e => (e.1, .num e.2)

theorem kwGet_cons (k' : String) (v : PyVal) (kw : List (String × PyVal)) (k : String) :
    kwGet ((k', v) :: kw) k = if k' = k then some v else kwGet kw k := by
  by_cases h : k' = k <;> simp [kwGet, h]

theorem okBind {α β : Type} (x : α) (f : α → Except PyErr β) : ((Except.ok x : Except PyErr α) >>= f) = f x := rfl

theorem kwGet_nil (k : String) : kwGet [] k = none := rfl

theorem kwGet_append (a b : List (String × PyVal)) (k : String) :
    kwGet (a ++ b) k = (kwGet a k).or (kwGet b k) := by
  simp only [kwGet, List.find?_append]
  cases List.find? (fun e => e.1 == k) a <;> rfl

theorem kwGet_numKw (kw : Kw) (k : String) : kwGet (numKw kw) k = (kw.look k).map PyVal.num := by
  induction kw with
  | nil => rfl
  | cons e kw ih =>
    obtain ⟨k', v⟩ := e
    rw [numKw, List.map_cons, kwGet_cons, ← numKw, ih]
    by_cases h : k' = k <;> simp [Kw.look, h]

theorem kwGet_filter (kw : List (String × PyVal)) (P : String → Bool) (k : String) :
    kwGet (kw.filter fun e => P e.1) k = if P k then kwGet kw k else none := by
  induction kw with
  | nil => simp [kwGet]
  | cons e kw ih =>
    obtain ⟨k', v⟩ := e
    by_cases h : P k'
    · rw [List.filter_cons_of_pos (by simpa using h), kwGet_cons, kwGet_cons, ih]
      by_cases hk : k' = k
      · subst hk; simp [h]
      · simp [hk]
    · rw [List.filter_cons_of_neg (by simpa using h), kwGet_cons, ih]
      by_cases hk : k' = k
      · subst hk; simp [h]
      · simp [hk]

theorem kwGet_rest (kw : List (String × PyVal)) (names : List String) (k : String) :
    kwGet (kwRest kw names) k = if names.contains k then none else kwGet kw k := by
  rw [kwRest, kwGet_filter kw (fun n => !names.contains n)]
  cases names.contains k <;> simp

/-! ## Methods of Python objects are those of the typed model -/

/-- C135: density, range and number density read off a distribution object are those of the distribution. -/
theorem C135_methods (nz : Nz) (norm : Option ℝ) : (nz.py norm).pz = .ok nz.pzFn ∧
    (nz.py norm).zmaxOf = .ok nz.zmax ∧ (nz.py norm).galsPerSteradianOf = .ok nz.galsPerSteradian := by
  induction nz generalizing norm with
  | smail a b z0 g zm => exact ⟨rfl, rfl, rfl⟩
  | delta z0 g zm => exact ⟨rfl, rfl, rfl⟩
  | kde cat bw g zm =>
    refine ⟨?_, rfl, rfl⟩
    rw [Nz.py, PyVal.pz]
    simp only [PyVal.toArr, okBind]
    rw [kwGet_cons, if_neg (by decide), kwGet_cons, if_pos rfl]
    simp only [PyVal.toNum, okBind, List.length_map, if_true]
    refine congrArg Except.ok (funext fun z => ?_)
    rw [Nz.pzFn]
    simp only [List.zipWith_map, List.zipWith_self]
  | shift parent b g zm ih =>
    refine ⟨?_, rfl, rfl⟩
    rw [Nz.py, PyVal.pz, (ih _).1]
    rfl
  | user f g zm => exact ⟨rfl, rfl, rfl⟩

/-- C135: so is the normalised density of a newly made object. -/
theorem C135_density (nz : Nz) (z : ℝ) : nz.pyNew.callNz z = .ok (nz.eval z) := by
  obtain ⟨h1, h2, -⟩ := C135_methods nz (NzObj.new nz).norm
  have e : nz.pyNew = nz.py (NzObj.new nz).norm := rfl
  rw [e]
  have hobj : ∃ cls params config gals, nz.py (NzObj.new nz).norm
      = .obj cls params config gals (NzObj.new nz).norm := by
    cases nz <;> exact ⟨_, _, _, _, rfl⟩
  obtain ⟨cls, params, config, gals, ho⟩ := hobj
  rw [ho] at h1 h2 ⊢
  rw [PyVal.callNz, h1, okBind]
  rw [Nz.eval, NzObj.call]
  have hn : (NzObj.new nz).nz = nz := rfl
  rw [hn]
  cases hnorm : (NzObj.new nz).norm with
  | some n => rfl
  | none =>
    rw [hnorm] at h2
    simp only [h2, okBind]
    rfl

/-- C135: and the value of a bias. -/
theorem C135_bias (b : Bias) (p : Params) (z : ℝ) : b.py.callBias p z = .ok (b.call p z) := by
  cases b <;> rfl

theorem gals_bins (bins : List Nz) :
    (bins.map Nz.pyNew).mapM PyVal.galsPerSteradianOf = .ok (bins.map Nz.galsPerSteradian) := by
  induction bins with
  | nil => rfl
  | cons b bins ih =>
    rw [List.map_cons, List.mapM_cons, ih]
    have := (C135_methods b (NzObj.new b).norm).2.2
    rw [show b.pyNew = b.py (NzObj.new b).norm from rfl, this]
    rfl

/-- C135: noise and number of tracers of a probe object are those of the probe. -/
theorem C135_noise_counts (o : NumberCounts) : o.py.noiseOf = o.noise ∧ o.py.nTracersOf = .ok (Probe.nc o).nTracers := by
  constructor
  · rw [NumberCounts.py, PyVal.noiseOf, PyVal.binsOf, okBind, gals_bins]
    rfl
  · rw [NumberCounts.py, PyVal.nTracersOf, PyVal.binsOf, okBind, List.length_map]
    rfl

/-- C135: noise and number of tracers of a lensing object, with one shape dispersion or one per bin. -/
theorem C135_noise_lensing (o : WeakLensing) (hσ : (∃ s, o.sigma_e = .num s) ∨ ∃ ss, o.sigma_e = .nums ss) :
    o.py.noiseOf = o.noise ∧ o.py.nTracersOf = .ok (Probe.wl o).nTracers := by
  constructor
  · rw [WeakLensing.py, PyVal.noiseOf, PyVal.binsOf, okBind, gals_bins, okBind, kwGet_cons, if_pos rfl,
      WeakLensing.noise]
    rcases hσ with ⟨s, hs⟩ | ⟨ss, hs⟩
    · rw [hs]; rfl
    · rw [hs]
      have : ∀ ss : List ℝ, (ss.map PyVal.num).mapM PyVal.toNum = .ok ss := by
        intro ss
        induction ss with
        | nil => rfl
        | cons s ss ih => rw [List.map_cons, List.mapM_cons, ih]; rfl
      simp only [Val.py, this, okBind]
  · rw [WeakLensing.py, PyVal.nTracersOf, PyVal.binsOf, okBind, List.length_map]
    rfl

/-! ## Constructor calls -/

/-- C135: whatever else is passed, a distribution has the range and the number density passed by keyword, 10 and one
galaxy per square arcminute when they are not. -/
theorem C135_keywords {cls : Cls} (hc : cls.isNz = true) (args : List PyVal) (kw : Kw) :
    ∃ o, construct cls args (numKw kw) = .ok o ∧ o.zmaxOf = .ok ((kw.look "zmax").getD 10) ∧
      o.galsPerSteradianOf = .ok ((kw.look "gals_per_arcmin2").getD 1 * 11818102.86004228) := by
  refine ⟨.obj cls args (("zmax", (kwGet (numKw kw) "zmax").getD (.num 10))
    :: kwRest (numKw kw) ["gals_per_arcmin2", "zmax"])
    ((kwGet (numKw kw) "gals_per_arcmin2").getD (.num 1)) cls.initNorm, ?_, ?_, ?_⟩
  · cases cls <;> first | rfl | simp [Cls.isNz] at hc
  · rw [PyVal.zmaxOf, if_pos hc, kwGet_cons, if_pos rfl, kwGet_numKw]
    cases kw.look "zmax" <;> rfl
  · rw [PyVal.galsPerSteradianOf, if_pos hc, kwGet_numKw]
    cases kw.look "gals_per_arcmin2" <;> rfl

/-- C135: `smail_nz(a, b, z0, …)` has the Smail density, whatever is passed by keyword. -/
theorem C135_smail (a b z0 : ℝ) (kw : List (String × PyVal)) :
    ∃ o, construct .smailNz [.num a, .num b, .num z0] kw = .ok o ∧
      o.pz = .ok fun z => z ^ a * Real.exp (-((z / z0) ^ b)) := ⟨_, rfl, rfl⟩

/-- C135: `delta_nz(z0, …)` is the plane at `z0`. -/
theorem C135_delta (z0 : ℝ) (kw : List (String × PyVal)) :
    ∃ o, construct .deltaNz [.num z0] kw = .ok o ∧ o.pz = .ok fun z => if z = z0 then 1 else 0 := ⟨_, rfl, rfl⟩

/-- C135: `systematic_shift(parent, bias, …)` is the parent's density shifted. -/
theorem C135_shift (parent : Nz) (bias : ℝ) (kw : List (String × PyVal)) :
    ∃ o, construct .systematicShift [parent.pyNew, .num bias] kw = .ok o ∧
      o.pz = .ok fun z => parent.pzFn (max (z - bias) 0) := by
  refine ⟨_, rfl, ?_⟩
  rw [PyVal.pz, show parent.pyNew = parent.py (NzObj.new parent).norm from rfl, (C135_methods parent _).1]
  rfl

/-- C135: `kde_nz(zcat, weights, bw=bw, …)` averages Gaussians of width `bw` around the redshifts of the catalogue;
without `bw` the constructor succeeds and the first evaluation raises `KeyError`. -/
theorem C135_kde (zs ws : List ℝ) (hl : zs.length = ws.length) (kw : Kw) :
    ∃ o, construct .kdeNz [.arr zs, .arr ws] (numKw kw) = .ok o ∧
      o.pz = match kw.look "bw" with
        | none => .error .keyError
        | some bw => .ok fun z => (List.zipWith (fun x w => 1 / √(2 * Real.pi) / bw
            * Real.exp (-((x - z) ^ 2) / (bw ^ 2 * 2)) * w) zs ws).sum / ws.sum := by
  refine ⟨_, rfl, ?_⟩
  rw [PyVal.pz]
  simp only [PyVal.toArr, okBind]
  rw [kwGet_cons, if_neg (by decide), kwGet_rest, if_neg (by decide), kwGet_numKw]
  cases kw.look "bw" with
  | none => rfl
  | some bw =>
    simp only [Option.map_some, PyVal.toNum, okBind, if_pos hl]
    rfl

/-- C135: a Smail distribution given another number of parameters than three is accepted by the constructor and
refused only when it is evaluated. -/
theorem C135_late (args : List PyVal) (h : args.length ≠ 3) (kw : List (String × PyVal)) :
    ∃ o, construct .smailNz args kw = .ok o ∧ o.pz = .error .valueError ∧ ∀ z, o.callNz z = .error .valueError := by
  refine ⟨_, rfl, ?_⟩
  have : ∀ config gals norm, (PyVal.obj .smailNz args config gals norm).pz = .error .valueError := by
    intro config gals norm
    match args, h with
    | [], _ => rfl
    | [_], _ => rfl
    | [_, _], _ => rfl
    | [_, _, _], h => exact absurd rfl h
    | _ :: _ :: _ :: _ :: _, _ => rfl
  refine ⟨this _ _ _, fun z => ?_⟩
  rw [PyVal.callNz, this]
  rfl

/-- C135: `WeakLensing(bins)` has no intrinsic alignments, no calibration bias and shape dispersion 0.26. -/
theorem C135_lensing_default (bins : List Nz) :
    construct .weakLensing [.list (bins.map Nz.pyNew)] [] = .ok (WeakLensing.init bins).py ∧
    (WeakLensing.init bins).noise = .ok (bins.map fun b => (13 / 50) ^ 2 / b.galsPerSteradian) ∧
    ∀ p z ell, (WeakLensing.init bins).kernel p z ell = weakLensingKernel p bins z ell := by
  refine ⟨?_, ?_, fun p z ell => ?_⟩
  · rfl
  · have : (0.26 : ℝ) = 13 / 50 := by norm_num
    rw [← this]
    change Except.ok (List.map _ (List.map _ bins)) = _
    rw [List.map_map]
    rfl
  · rw [WeakLensing.kernel, WeakLensing.init]
    simp only [Option.getD_none, Bool.false_eq_true, if_false, applyM, add_zero, mul_one, List.map_id']
    cases weakLensingKernel p bins z ell <;> rfl

/-- C135: keywords of `WeakLensing`, in any order, go where their names say; `ia_enabled` follows `ia_bias`. -/
theorem C135_lensing (bins : PyVal) (kw : List (String × PyVal)) (hb : kwGet kw "redshift_bins" = none)
    (he : kwGet kw "ia_enabled" = none) :
    ∃ params config, construct .weakLensing [bins] kw = .ok (.obj .weakLensing params config .none none) ∧
      (params[0]? = some bins ∧ params[1]? = some ((kwGet kw "multiplicative_bias").getD (.num 0)) ∧
        ((kwGet kw "ia_bias").getD .none = .none → params.length = 2 ∧
          kwGet config "ia_enabled" = some (.bool false)) ∧
        (∀ ia, (kwGet kw "ia_bias").getD .none = ia → ia ≠ .none → params[2]? = some ia ∧ params.length = 3 ∧
          kwGet config "ia_enabled" = some (.bool true)) ∧
        kwGet config "sigma_e" = some ((kwGet kw "sigma_e").getD (.num (13 / 50)))) := by
  have hnb : ¬ (kw.any fun e => (["redshift_bins", "ia_bias", "multiplicative_bias", "sigma_e"].zip [bins]).any
      fun q => q.1 == e.1) = true := by
    intro h
    simp only [List.any_eq_true, List.zip_cons_cons, List.zip_nil_right, List.mem_singleton, exists_eq_left,
      beq_iff_eq] at h
    obtain ⟨e, h1, h2⟩ := h
    rw [kwGet, Option.map_eq_none_iff, List.find?_eq_none] at hb
    exact hb e h1 (by simpa using h2.symm)
  have hbind : bindArgs ["redshift_bins", "ia_bias", "multiplicative_bias", "sigma_e"] [bins] kw
      = .ok (("redshift_bins", bins) :: kw.filter fun e =>
        ["redshift_bins", "ia_bias", "multiplicative_bias", "sigma_e"].contains e.1) := by
    rw [bindArgs]
    simp only [List.length_cons, List.length_nil]
    rw [if_neg (by decide), if_neg hnb]
    rfl
  have hg : ∀ k, k ≠ "redshift_bins" → ["redshift_bins", "ia_bias", "multiplicative_bias", "sigma_e"].contains k = true →
      kwGet (("redshift_bins", bins) :: kw.filter fun e =>
        ["redshift_bins", "ia_bias", "multiplicative_bias", "sigma_e"].contains e.1) k = kwGet kw k := by
    intro k h1 h2
    rw [kwGet_cons, if_neg (Ne.symm h1), kwGet_filter kw (fun n =>
      ["redshift_bins", "ia_bias", "multiplicative_bias", "sigma_e"].contains n), if_pos h2]
  have hr : kwGet (kwRest kw ["redshift_bins", "ia_bias", "multiplicative_bias", "sigma_e"]) "ia_enabled" = none := by
    rw [kwGet_rest, if_neg (by decide), he]
  have h26 : (0.26 : ℝ) = 13 / 50 := by norm_num
  have key : construct .weakLensing [bins] kw = (match (kwGet kw "ia_bias").getD .none with
        | .none => .ok (.obj .weakLensing [bins, (kwGet kw "multiplicative_bias").getD (.num 0)]
            (("sigma_e", (kwGet kw "sigma_e").getD (.num (13 / 50))) ::
              (kwRest kw ["redshift_bins", "ia_bias", "multiplicative_bias", "sigma_e"]
                ++ [("ia_enabled", .bool false)])) .none none)
        | ia => .ok (.obj .weakLensing [bins, (kwGet kw "multiplicative_bias").getD (.num 0), ia]
            (("sigma_e", (kwGet kw "sigma_e").getD (.num (13 / 50))) ::
              (kwRest kw ["redshift_bins", "ia_bias", "multiplicative_bias", "sigma_e"]
                ++ [("ia_enabled", .bool true)])) .none none)) := by
    rw [construct]
    simp only [hbind, okBind]
    rw [kwGet_cons, if_pos rfl]
    simp only [hg "ia_bias" (by decide) (by decide), hg "multiplicative_bias" (by decide) (by decide),
      hg "sigma_e" (by decide) (by decide), hr, h26, Option.isSome_none, Bool.false_eq_true, if_false]
    cases (kwGet kw "ia_bias").getD .none <;> rfl
  rw [key]
  have hen : ∀ b, kwGet (("sigma_e", (kwGet kw "sigma_e").getD (.num (13 / 50))) ::
      (kwRest kw ["redshift_bins", "ia_bias", "multiplicative_bias", "sigma_e"]
        ++ [("ia_enabled", .bool b)])) "ia_enabled" = some (.bool b) := by
    intro b
    rw [kwGet_cons, if_neg (by decide), kwGet_append, hr, kwGet_cons, if_pos rfl]
    rfl
  cases hia : (kwGet kw "ia_bias").getD .none with
  | none =>
    exact ⟨_, _, rfl, rfl, rfl, fun _ => ⟨rfl, hen false⟩, fun ia h1 h2 => absurd h1.symm h2,
      by rw [kwGet_cons, if_pos rfl]⟩
  | _ =>
    exact ⟨_, _, rfl, rfl, rfl, fun h => absurd h (by simp), fun ia h1 _ => ⟨by rw [← h1]; rfl, rfl, hen true⟩,
      by rw [kwGet_cons, if_pos rfl]⟩

/-- C135: `NumberCounts(bins, bias)`, the bias by position or by name. -/
theorem C135_counts (bins : List Nz) (b : Val) :
    construct .numberCounts [.list (bins.map Nz.pyNew), b.py] [] = .ok (NumberCounts.init bins b).py ∧
    construct .numberCounts [.list (bins.map Nz.pyNew)] [("bias", b.py)] = .ok (NumberCounts.init bins b).py ∧
    construct .numberCounts [] [("bias", b.py), ("redshift_bins", .list (bins.map Nz.pyNew))]
      = .ok (NumberCounts.init bins b).py ∧
    construct .numberCounts [.list (bins.map Nz.pyNew)] [] = .error .typeError := ⟨rfl, rfl, rfl, rfl⟩

/-- C135: a misspelt number density is accepted and replaced by one galaxy per square arcminute. -/
theorem C135_misspelt (k : String) (hk : k ≠ "gals_per_arcmin2") (g a b z0 : ℝ) (bias : PyVal) :
    ∃ bin probe, construct .smailNz [.num a, .num b, .num z0] [(k, .num g)] = .ok bin ∧
      construct .numberCounts [.list [bin], bias] [] = .ok probe ∧
      probe.noiseOf = .ok [1 / 11818102.86004228] := by
  obtain ⟨o, h1, -, h3⟩ := C135_keywords (cls := .smailNz) rfl [.num a, .num b, .num z0] [(k, g)]
  refine ⟨o, _, h1, rfl, ?_⟩
  rw [PyVal.noiseOf, PyVal.binsOf, okBind, List.mapM_cons, h3]
  have : Kw.look [(k, g)] "gals_per_arcmin2" = none := by simp [Kw.look, hk]
  rw [this, Option.getD_none, one_mul]
  rfl

/-- C135 fails: keywords a class does not know are not refused. -/
theorem C135_refuted : ¬ ∀ (cls : Cls) (args : List PyVal) (kw : List (String × PyVal)) (o : PyVal),
    construct cls args kw = .ok o → ∀ e ∈ kw, e.1 ∈ documented cls := by
  intro h
  obtain ⟨bin, -, h1, -⟩ := C135_misspelt "gals_per_arcmin" (by decide) 20 1 2 1 .none
  have := h _ _ _ _ h1 ("gals_per_arcmin", .num 20) (by simp)
  revert this
  decide

/-- C135: the hypotheses of `C135_lensing` are met by a call naming dispersion and calibration out of order. -/
example : kwGet [("sigma_e", .num 0.3), ("multiplicative_bias", .num 0.01)] "redshift_bins" = none ∧
    kwGet [("sigma_e", .num 0.3), ("multiplicative_bias", .num 0.01)] "ia_enabled" = none := by
  simp [kwGet]

/-- C135: a survey of 20 galaxies per square arcminute, the keyword misspelt. -/
example : ∃ bin, construct .smailNz [.num 1, .num 2, .num 1] [("gals_per_arcmin", .num 20)] = .ok bin ∧
    bin.galsPerSteradianOf = .ok 11818102.86004228 := by
  obtain ⟨o, h1, -, h3⟩ := C135_keywords (cls := .smailNz) rfl [.num 1, .num 2, .num 1] [("gals_per_arcmin", 20)]
  refine ⟨o, h1, ?_⟩
  rw [h3]
  simp [Kw.look]

end JaxCosmo
