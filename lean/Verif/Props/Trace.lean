import Verif.Model.Trace
import Verif.Props.Cache

/-! # C136: using a cosmology inside transformed functions leaves it usable -/

namespace JaxCosmo
namespace Spec

mutual

/-- The background calls of a program in the order in which they are made. -/
def calls : Prog → List BgCall
  | .call c _ => [c]
  | .closure _ body => callsAll body
  | .argument _ body => callsAll body

/-- … of a sequence of programs. -/
def callsAll : List Prog → List BgCall
  | [] => []
  | q :: qs => calls q ++ callsAll qs

end

/-- Programs in which no `jit`-compiled function closes over a cosmology whose tables may be missing (`w`: the tables
exist already). -/
inductive Safe : Bool → Prog → Prop
  | call (w : Bool) (c : BgCall) (d : Option ℕ) : Safe w (.call c d)
  | data (w : Bool) (body : List Prog) (h : ∀ q ∈ body, Safe w q) : Safe w (.closure .data body)
  | stage (body : List Prog) (h : ∀ q ∈ body, Safe true q) : Safe true (.closure .stage body)
  | argument (w : Bool) (k : TraceKind) (body : List Prog) (h : ∀ q ∈ body, Safe false q) : Safe w (.argument k body)

end Spec
open Spec

/-- What every execution of a safe program maintains: `L` are the traces around the place where the object was made. -/
structure TraceInv (p : Params) (w : Bool) (L live : List Frame) (next : ℕ) (o : TCosmo) : Prop where
  split : ∃ D, live = D ++ L ∧ (w = false → ∀ f ∈ D, f.kind = .data)
  nodup : (live.map Frame.id).Nodup
  lt : ∀ f ∈ live, f.id < next
  warm : Warm p o.obj
  par : o.par = L.head?.map Frame.id
  chi : o.obj.wsChi ≠ none → o.chi = L.head?.map Frame.id
  growth : o.obj.wsGrowth ≠ none → o.growth = L.head?.map Frame.id
  tables : w = true → o.obj.wsChi ≠ none ∧ o.obj.wsGrowth ≠ none

open Classical in
theorem opTag_ok {live : List Frame} {ins : List Tag} (h : ∀ t ∈ ins, ∀ i, t = some i → i ∈ live.map Frame.id) :
    ∃ t, opTag live ins = .ok t := by
  rw [opTag, if_neg]
  · exact ⟨_, rfl⟩
  · rintro ⟨t, ht, i, hi, hn⟩
    exact hn (h t ht i hi)

theorem TraceInv.base_mem {p : Params} {w : Bool} {L live : List Frame} {next : ℕ} {o : TCosmo}
    (hi : TraceInv p w L live next o) (i : ℕ) (h : L.head?.map Frame.id = some i) : i ∈ live.map Frame.id := by
  obtain ⟨D, hD, -⟩ := hi.split
  rw [hD]
  cases L with
  | nil => simp at h
  | cons f L =>
    simp only [List.head?_cons, Option.map_some, Option.some.injEq] at h
    subst h
    simp

open Classical in
/-- A table computed where the object is young belongs where the object belongs. -/
theorem TraceInv.new_tag {p : Params} {L live : List Frame} {next : ℕ} {o : TCosmo}
    (hi : TraceInv p false L live next o) : opTag live [o.par] = .ok (L.head?.map Frame.id) := by
  rw [opTag, if_neg]
  · congr 1
    obtain ⟨D, hD, hk⟩ := hi.split
    have hnd := hi.nodup
    rw [hD, List.map_append, List.nodup_append] at hnd
    have h1 : D.find? (fun f => decide (f.kind = .stage ∨ some f.id ∈ [o.par])) = none := by
      rw [List.find?_eq_none]
      intro f hf
      simp only [decide_eq_true_eq, not_or, List.mem_singleton, hk rfl f hf, reduceCtorEq, not_false_eq_true, true_and]
      intro h
      rw [hi.par] at h
      cases L with
      | nil => simp at h
      | cons g L =>
        simp only [List.head?_cons, Option.map_some, Option.some.injEq] at h
        exact hnd.2.2 f.id (List.mem_map_of_mem hf) g.id (by simp) h
    rw [hD, List.find?_append, h1, Option.none_or]
    cases L with
    | nil => rfl
    | cons g L =>
      have : o.par = some g.id := hi.par
      rw [List.find?_cons_of_pos (by simp [this])]
      rfl
  · rintro ⟨t, ht, i, rfl, hn⟩
    rw [List.mem_singleton] at ht
    exact hn (hi.base_mem i (by rw [← hi.par, ← ht]))

theorem arg_mem (live : List Frame) (d : Option ℕ) (i : ℕ) (h : (d.bind fun d => live[d]?).map Frame.id = some i) :
    i ∈ live.map Frame.id := by
  rw [Option.map_eq_some_iff] at h
  obtain ⟨f, hf, rfl⟩ := h
  rw [Option.bind_eq_some_iff] at hf
  obtain ⟨d, -, hf⟩ := hf
  exact List.mem_map_of_mem (List.mem_of_getElem? hf)

/-- Calls leave tables that exist in place and make the one they read. -/
theorem run_tables (c : BgCall) {p : Params} {o : Cosmology} (_ho : Warm p o) :
    (o.wsChi ≠ none → (c.run o).1.wsChi ≠ none) ∧ (o.wsGrowth ≠ none → (c.run o).1.wsGrowth ≠ none) ∧
    (c.cell o ≠ .chi → (c.run o).1.wsChi = o.wsChi) ∧ (c.cell o ≠ .growth → (c.run o).1.wsGrowth = o.wsGrowth) := by
  have hchi : ∀ a, (radialComovingDistance o a).1.wsChi ≠ none ∧ (radialComovingDistance o a).1.wsGrowth = o.wsGrowth := by
    intro a
    unfold radialComovingDistance ensureChi
    cases h : o.wsChi <;> simp [h]
  have hg : ∀ a, ((growthFactorODE o a).1.wsGrowth ≠ none) ∧ (growthFactorODE o a).1.wsChi = o.wsChi := by
    intro a
    unfold growthFactorODE
    cases h : o.wsGrowth <;> simp [h]
  have hgg : ∀ a, (o.wsGrowth ≠ none → (growthFactorGamma o a).1.wsGrowth ≠ none) ∧
      (growthFactorGamma o a).1.wsChi = o.wsChi := by
    intro a
    unfold growthFactorGamma
    cases h : o.wsGrowth
    · cases h' : o.params.gamma <;> simp [h]
    · simp [h]
  cases c with
  | chi a =>
    exact ⟨fun _ => (hchi a).1, fun h => by simpa [BgCall.run, (hchi a).2] using h,
      fun h => absurd rfl h, fun _ => (hchi a).2⟩
  | transverse a =>
    exact ⟨fun _ => (hchi a).1, fun h => by simpa [BgCall.run, transverseComovingDistance, (hchi a).2] using h,
      fun h => absurd rfl h, fun _ => (hchi a).2⟩
  | angular a =>
    exact ⟨fun _ => (hchi a).1, fun h => by
        simpa [BgCall.run, angularDiameterDistance, transverseComovingDistance, (hchi a).2] using h,
      fun h => absurd rfl h, fun _ => (hchi a).2⟩
  | ofChi a =>
    have h1 : (aOfChi o a).1.wsChi ≠ none ∧ (aOfChi o a).1.wsGrowth = o.wsGrowth := by
      unfold aOfChi
      cases h : o.wsChi with
      | none =>
        obtain ⟨h1, h2⟩ := hchi (.scalar 1)
        cases h' : (radialComovingDistance o (.scalar 1)).1.wsChi with
        | none => exact absurd h' h1
        | some c => simp [h', h2]
      | some c => simp [h]
    exact ⟨fun _ => h1.1, fun h => by simpa [BgCall.run, h1.2] using h, fun h => absurd rfl h, fun _ => h1.2⟩
  | growth a =>
    by_cases hf : o.gammaGrowth
    · have e : growthFactor o a = growthFactorGamma o a := by simp [growthFactor, hf]
      simp only [BgCall.run, e, BgCall.cell]
      exact ⟨fun h => by rw [(hgg a).2]; exact h, (hgg a).1, fun _ => (hgg a).2, fun h => absurd rfl h⟩
    · have e : growthFactor o a = growthFactorODE o a := by simp [growthFactor, hf]
      simp only [BgCall.run, e, BgCall.cell]
      exact ⟨fun h => by rw [(hg a).2]; exact h, fun _ => (hg a).1, fun _ => (hg a).2, fun h => absurd rfl h⟩
  | rate a =>
    by_cases hf : o.gammaGrowth
    · have e : (growthRate o a).1 = o := by
        unfold growthRate
        rw [if_pos hf]
        cases o.params.gamma <;> rfl
      simp only [BgCall.run, e]
      exact ⟨id, id, fun _ => trivial, fun _ => trivial⟩
    · have e : growthRate o a = growthRateODE o a := by simp [growthRate, hf]
      have h1 : (growthRateODE o a).1.wsGrowth ≠ none ∧ (growthRateODE o a).1.wsChi = o.wsChi := by
        unfold growthRateODE
        cases h : o.wsGrowth with
        | none =>
          obtain ⟨h1, h2⟩ := hg (.vec [1])
          cases h' : (growthFactorODE o (.vec [1])).1.wsGrowth with
          | none => exact absurd h' h1
          | some c => cases hc : c.f <;> simp [h', h2, hc]
        | some c => cases hc : c.f <;> simp [h, hc]
      simp only [BgCall.run, e, BgCall.cell, if_neg hf]
      exact ⟨fun h => by rw [h1.2]; exact h, fun _ => h1.1, fun _ => h1.2, fun h => absurd rfl h⟩

/-- One call of a safe program. -/
theorem callT_ok {p : Params} {w : Bool} {L live : List Frame} {next : ℕ} {o : TCosmo}
    (hi : TraceInv p w L live next o) (c : BgCall) (d : Option ℕ) :
    TraceInv p w L live next (callT live o c ((d.bind fun d => live[d]?).map Frame.id)).1 ∧
      (callT live o c ((d.bind fun d => live[d]?).map Frame.id)).2 = .ok (c.outcome p) := by
  set arg := (d.bind fun d => live[d]?).map Frame.id with harg
  have harg' : ∀ i, arg = some i → i ∈ live.map Frame.id := fun i h => arg_mem live d i h
  have hpar : ∀ i, o.par = some i → i ∈ live.map Frame.id := fun i h => hi.base_mem i (by rw [← hi.par, h])
  have hex : ∀ t ∈ c.extra o, ∀ i, t = some i → i ∈ live.map Frame.id := by
    intro t ht i h
    have : t = o.par := by
      cases c <;> simp only [BgCall.extra, List.mem_singleton, List.not_mem_nil] at ht <;> exact ht
    exact hpar i (by rw [← this, h])
  obtain ⟨hw, hout⟩ := run_warm hi.warm c
  obtain ⟨t1, t2, t3, t4⟩ := run_tables c hi.warm
  rw [← hout]
  unfold callT
  cases hc : c.cell o.obj with
  | params =>
    obtain ⟨t, ht⟩ := opTag_ok (live := live) (ins := [o.par, arg]) (by
      intro t ht i h
      rcases List.mem_cons.1 ht with rfl | ht
      · exact hpar i h
      · rw [List.mem_singleton] at ht; subst ht; exact harg' i h)
    simp only [ht]
    have e1 := t3 (by rw [hc]; simp)
    have e2 := t4 (by rw [hc]; simp)
    exact ⟨⟨hi.split, hi.nodup, hi.lt, hw, hi.par, fun h => hi.chi (by rw [← e1]; exact h),
      fun h => hi.growth (by rw [← e2]; exact h), fun h => by rw [e1, e2]; exact hi.tables h⟩, trivial⟩
  | chi =>
    have e2 := t4 (by rw [hc]; simp)
    cases hws : o.obj.wsChi with
    | some cc =>
      have hne : o.obj.wsChi ≠ none := by rw [hws]; simp
      obtain ⟨t, ht⟩ := opTag_ok (live := live) (ins := o.chi :: arg :: c.extra o) (by
        intro t ht i h
        rcases List.mem_cons.1 ht with rfl | ht
        · exact hi.base_mem i (by rw [← hi.chi hne, h])
        rcases List.mem_cons.1 ht with rfl | ht
        · exact harg' i h
        · exact hex t ht i h)
      simp only [ht]
      exact ⟨⟨hi.split, hi.nodup, hi.lt, hw, hi.par, fun _ => hi.chi hne,
        fun h => hi.growth (by rw [← e2]; exact h), fun h => ⟨t1 hne, by rw [e2]; exact (hi.tables h).2⟩⟩, trivial⟩
    | none =>
      have hwf : w = false := by
        cases w
        · rfl
        · exact absurd hws (hi.tables rfl).1
      subst hwf
      rw [hi.new_tag]
      obtain ⟨t, ht⟩ := opTag_ok (live := live) (ins := L.head?.map Frame.id :: arg :: c.extra o) (by
        intro t ht i h
        rcases List.mem_cons.1 ht with rfl | ht
        · exact hi.base_mem i h
        rcases List.mem_cons.1 ht with rfl | ht
        · exact harg' i h
        · exact hex t ht i h)
      simp only [ht]
      exact ⟨⟨hi.split, hi.nodup, hi.lt, hw, hi.par, fun _ => rfl,
        fun h => hi.growth (by rw [← e2]; exact h), fun h => by simp at h⟩, trivial⟩
  | growth =>
    have e1 := t3 (by rw [hc]; simp)
    cases hws : o.obj.wsGrowth with
    | some cc =>
      have hne : o.obj.wsGrowth ≠ none := by rw [hws]; simp
      obtain ⟨t, ht⟩ := opTag_ok (live := live) (ins := [o.growth, arg]) (by
        intro t ht i h
        rcases List.mem_cons.1 ht with rfl | ht
        · exact hi.base_mem i (by rw [← hi.growth hne, h])
        · rw [List.mem_singleton] at ht; subst ht; exact harg' i h)
      simp only [ht]
      exact ⟨⟨hi.split, hi.nodup, hi.lt, hw, hi.par, fun h => hi.chi (by rw [← e1]; exact h),
        fun _ => hi.growth hne, fun h => ⟨by rw [e1]; exact (hi.tables h).1, t2 hne⟩⟩, trivial⟩
    | none =>
      have hwf : w = false := by
        cases w
        · rfl
        · exact absurd hws (hi.tables rfl).2
      subst hwf
      rw [hi.new_tag]
      obtain ⟨t, ht⟩ := opTag_ok (live := live) (ins := [L.head?.map Frame.id, arg]) (by
        intro t ht i h
        rcases List.mem_cons.1 ht with rfl | ht
        · exact hi.base_mem i h
        · rw [List.mem_singleton] at ht; subst ht; exact harg' i h)
      simp only [ht]
      exact ⟨⟨hi.split, hi.nodup, hi.lt, hw, hi.par, fun h => hi.chi (by rw [← e1]; exact h),
        fun _ => rfl, fun h => by simp at h⟩, trivial⟩

theorem TraceInv.enter {p : Params} {w : Bool} {L live : List Frame} {next : ℕ} {o : TCosmo}
    (hi : TraceInv p w L live next o) {k : TraceKind} (hk : w = false → k = .data) :
    TraceInv p w L (⟨next, k⟩ :: live) (next + 1) o := by
  refine ⟨?_, ?_, ?_, hi.warm, hi.par, hi.chi, hi.growth, hi.tables⟩
  · obtain ⟨D, hD, h⟩ := hi.split
    refine ⟨⟨next, k⟩ :: D, by rw [hD]; rfl, fun hw f hf => ?_⟩
    rcases List.mem_cons.1 hf with rfl | hf
    · exact hk hw
    · exact h hw f hf
  · rw [List.map_cons, List.nodup_cons]
    refine ⟨fun h => ?_, hi.nodup⟩
    obtain ⟨f, hf, he⟩ := List.mem_map.1 h
    exact absurd he (hi.lt f hf).ne
  · intro f hf
    rcases List.mem_cons.1 hf with rfl | hf
    · exact Nat.lt_succ_self _
    · exact (hi.lt f hf).trans (Nat.lt_succ_self _)

theorem TraceInv.leave {p : Params} {w : Bool} {L live : List Frame} {next next' : ℕ} {o o' : TCosmo} {f : Frame}
    (h0 : TraceInv p w L live next o) (hi : TraceInv p w L (f :: live) next' o') (hn : next ≤ next') :
    TraceInv p w L live next' o' :=
  ⟨h0.split, h0.nodup, fun f hf => (h0.lt f hf).trans_le hn, hi.warm, hi.par, hi.chi, hi.growth, hi.tables⟩

/-- The object a transformed function receives in place of its argument. -/
theorem copy_eq {p : Params} (hγ : p.gamma = none) {o : Cosmology} (ho : Warm p o) :
    Cosmology.treeUnflatten o.treeFlatten.gammaGrowth o.treeFlatten.children = .ok (Cosmology.init p) := by
  have hf : o.gammaGrowth = false := by rw [ho.flag, hγ]; rfl
  have hp := ho.params
  simp only [Cosmology.treeFlatten, hf, Cosmology.treeUnflatten, hp]
  simp only [Bool.false_eq_true, if_false]
  congr 2
  cases p
  simp only at hγ
  simp [hγ]

mutual

theorem exec_ok {p : Params} (hγ : p.gamma = none) (q : Prog) {w : Bool} (hs : Safe w q) {L live : List Frame}
    {next : ℕ} {o : TCosmo} (hi : TraceInv p w L live next o) :
    next ≤ (q.exec next live o).1 ∧ TraceInv p w L live (q.exec next live o).1 (q.exec next live o).2.1 ∧
      (q.exec next live o).2.2 = (calls q).map fun c => .ok (c.outcome p) := by
  match q, hs with
  | .call c d, _ =>
    obtain ⟨h1, h2⟩ := callT_ok hi c d
    rw [Prog.exec]
    exact ⟨le_rfl, h1, by rw [h2]; rfl⟩
  | .closure k body, hs =>
    have hk : w = false → k = .data := by
      intro hw
      cases hs with
      | data => rfl
      | stage => simp at hw
    have hb : ∀ q ∈ body, Safe w q := by
      cases hs with
      | data _ _ h => exact h
      | stage _ h => exact h
    obtain ⟨h1, h2, h3⟩ := execAll_ok hγ body hb (hi.enter hk)
    rw [Prog.exec, calls]
    exact ⟨(Nat.le_succ _).trans h1, hi.leave h2 ((Nat.le_succ _).trans h1), h3⟩
  | .argument k body, hs =>
    have hb : ∀ q ∈ body, Safe false q := by
      cases hs with
      | argument _ _ _ h => exact h
    rw [Prog.exec, calls]
    simp only [copy_eq hγ hi.warm]
    have hi' : TraceInv p false (⟨next, k⟩ :: live) (⟨next, k⟩ :: live) (next + 1)
        { obj := Cosmology.init p, par := some next, chi := none, growth := none } := by
      refine ⟨⟨[], rfl, fun _ f hf => by simp at hf⟩, ?_, ?_, Warm.init p, rfl, fun h => absurd rfl h,
        fun h => absurd rfl h, fun h => by simp at h⟩
      · rw [List.map_cons, List.nodup_cons]
        refine ⟨fun h => ?_, hi.nodup⟩
        obtain ⟨f, hf, he⟩ := List.mem_map.1 h
        exact absurd he (hi.lt f hf).ne
      · intro f hf
        rcases List.mem_cons.1 hf with rfl | hf
        · exact Nat.lt_succ_self _
        · exact (hi.lt f hf).trans (Nat.lt_succ_self _)
    obtain ⟨h1, -, h3⟩ := execAll_ok hγ body hb hi'
    refine ⟨(Nat.le_succ _).trans h1, ?_, h3⟩
    exact ⟨hi.split, hi.nodup, fun f hf => (hi.lt f hf).trans_le ((Nat.le_succ _).trans h1), hi.warm, hi.par, hi.chi,
      hi.growth, hi.tables⟩

theorem execAll_ok {p : Params} (hγ : p.gamma = none) (qs : List Prog) {w : Bool} (hs : ∀ q ∈ qs, Safe w q)
    {L live : List Frame} {next : ℕ} {o : TCosmo} (hi : TraceInv p w L live next o) :
    next ≤ (Prog.execAll next live o qs).1 ∧
      TraceInv p w L live (Prog.execAll next live o qs).1 (Prog.execAll next live o qs).2.1 ∧
      (Prog.execAll next live o qs).2.2 = (callsAll qs).map fun c => .ok (c.outcome p) := by
  match qs with
  | [] => exact ⟨le_rfl, by rw [Prog.execAll]; exact hi, by rw [Prog.execAll, callsAll]; rfl⟩
  | q :: qs =>
    obtain ⟨h1, h2, h3⟩ := exec_ok hγ q (hs q (by simp)) hi
    obtain ⟨h4, h5, h6⟩ := execAll_ok hγ qs (fun q hq => hs q (by simp [hq])) h2
    rw [Prog.execAll, callsAll]
    refine ⟨h1.trans h4, h5, ?_⟩
    rw [List.map_append, ← h3, ← h6]

end

theorem TraceInv.init (p : Params) : TraceInv p false [] [] 0 (TCosmo.new p) :=
  ⟨⟨[], rfl, fun _ f hf => by simp at hf⟩, List.nodup_nil, fun f hf => by simp at hf, Warm.init p, rfl,
    fun h => absurd rfl h, fun h => absurd rfl h, fun h => by simp at h⟩

/-- C136: in a program that hands the cosmology to its `jit`-compiled functions as an argument, and uses closures over
it only with `grad`, `jvp` and `vmap`, nested in any way, every background call returns what it returns on a new
object outside any transformation. -/
theorem C136_partial (p : Params) (hγ : p.gamma = none) (qs : List Prog) (hs : ∀ q ∈ qs, Safe false q) :
    (Prog.execAll 0 [] (TCosmo.new p) qs).2.2 = (callsAll qs).map fun c => .ok (c.run (Cosmology.init p)).2 := by
  rw [(execAll_ok hγ qs hs (TraceInv.init p)).2.2]
  refine List.map_congr_left fun c _ => ?_
  rw [(run_warm (Warm.init p) c).2]

/-- C136: after one distance and one growth call outside, `jit`-compiled closures over it are harmless too. -/
theorem C136_warm (p : Params) (hγ : p.gamma = none) (a b : ArrayLike) (qs : List Prog) (hs : ∀ q ∈ qs, Safe true q) :
    (Prog.execAll 0 [] (TCosmo.new p) (.call (.chi a) none :: .call (.growth b) none :: qs)).2.2
      = (callsAll (.call (.chi a) none :: .call (.growth b) none :: qs)).map
        fun c => .ok (c.run (Cosmology.init p)).2 := by
  have hi := TraceInv.init p
  obtain ⟨h1, h2, h3⟩ := exec_ok hγ (.call (.chi a) none) (.call false _ _) hi
  obtain ⟨h4, h5, h6⟩ := exec_ok hγ (.call (.growth b) none) (.call false _ _) h2
  rw [Prog.execAll, Prog.execAll]
  simp only
  set s1 := (Prog.call (.chi a) none).exec 0 [] (TCosmo.new p) with hs1
  set s2 := (Prog.call (.growth b) none).exec s1.1 [] s1.2.1 with hs2
  have hchi1 : s1.2.1.obj.wsChi ≠ none := by
    have e : s1.2.1.obj = (BgCall.run (Cosmology.init p) (.chi a)).1 := by
      rw [hs1, Prog.exec]
      simp [callT, BgCall.cell, TCosmo.new, Cosmology.init, opTag, BgCall.extra]
    rw [e]
    simp [BgCall.run, radialComovingDistance, ensureChi, Cosmology.init]
  have e2 : s2.2.1.obj = (BgCall.run s1.2.1.obj (.growth b)).1 := by
    have hok := (callT_ok h2 (.growth b) none)
    rw [hs2, Prog.exec]
    simp only
    unfold callT
    simp only [BgCall.cell]
    cases hws : s1.2.1.obj.wsGrowth with
    | some c => simp [opTag, (h2.growth (by rw [hws]; simp))]
    | none =>
      rw [h2.new_tag]
      simp [opTag]
  have hw : TraceInv p true [] [] s2.1 s2.2.1 := by
    refine ⟨⟨[], rfl, fun h => by simp at h⟩, h5.nodup, h5.lt, h5.warm, h5.par, h5.chi, h5.growth, fun _ => ⟨?_, ?_⟩⟩
    · rw [e2]
      exact (run_tables (.growth b) h2.warm).1 hchi1
    · rw [e2]
      have hf : s1.2.1.obj.gammaGrowth = false := by rw [h2.warm.flag, hγ]; rfl
      simp only [BgCall.run, growthFactor, hf, Bool.false_eq_true, if_false, growthFactorODE]
      cases h : s1.2.1.obj.wsGrowth <;> simp [h]
  obtain ⟨-, -, h9⟩ := execAll_ok hγ qs hs hw
  rw [h3, h6, h9, callsAll, callsAll, List.map_append, List.map_append]
  have e : ∀ l : List BgCall, (l.map fun c => (Except.ok (c.outcome p) : Outcome))
      = l.map fun c => .ok (c.run (Cosmology.init p)).2 := fun l =>
    List.map_congr_left fun c _ => by rw [(run_warm (Warm.init p) c).2]
  rw [e, e, e]

/-- C136: once a `jit`-compiled closure has filled the distance table, every later distance call outside raises
`UnexpectedTracerError`, for ever. -/
theorem C136_poisoned (p : Params) (a : ArrayLike) (d : Option ℕ) (cs : List BgCall)
    (hc : ∀ c ∈ cs, c.cell (Cosmology.init p) = .chi) :
    (Prog.execAll 0 [] (TCosmo.new p) (.closure .stage [.call (.chi a) d] :: cs.map fun c => .call c none)).2.2
      = .ok (BgCall.run (Cosmology.init p) (.chi a)).2 :: cs.map fun _ => .error .unexpectedTracer := by
  have hcell : ∀ c ∈ cs, ∀ o, c.cell o = .chi := by
    intro c h o
    have := hc c h
    cases c <;> simp only [BgCall.cell] at this ⊢
    · simp at this
    · split at this <;> simp at this
  have key : ∀ (o : TCosmo), o.chi = some 0 → o.obj.wsChi ≠ none → ∀ (cs : List BgCall),
      (∀ c ∈ cs, ∀ o, c.cell o = .chi) →
      (Prog.execAll 1 [] o (cs.map fun c => .call c none)).2.2 = cs.map fun _ => .error .unexpectedTracer := by
    intro o h1 h2 cs
    induction cs with
    | nil => intro _; rw [List.map_nil, Prog.execAll]; rfl
    | cons c cs ih =>
      intro h
      have e : callT [] o c none = (o, .error .unexpectedTracer) := by
        unfold callT
        rw [h c (by simp)]
        obtain ⟨t, ht⟩ := Option.ne_none_iff_exists'.1 h2
        simp only [ht, h1]
        have : opTag [] (some 0 :: none :: c.extra o) = .error .unexpectedTracer := by
          rw [opTag, if_pos ⟨some 0, by simp, 0, rfl, by simp⟩]
        rw [this]
      rw [List.map_cons, List.map_cons, Prog.execAll, Prog.exec]
      simp only [Option.bind_none, Option.map_none, e]
      rw [ih fun c hc => h c (by simp [hc])]
      rfl
  have h0 : (Prog.closure .stage [.call (.chi a) d]).exec 0 [] (TCosmo.new p)
      = (1, { obj := (BgCall.run (Cosmology.init p) (.chi a)).1, par := none, chi := some 0, growth := none },
        [.ok (BgCall.run (Cosmology.init p) (.chi a)).2]) := by
    rw [Prog.exec, Prog.execAll, Prog.exec, Prog.execAll]
    have e1 : opTag [⟨0, .stage⟩] [none] = .ok (some 0) := by
      rw [opTag, if_neg (by simp)]
      simp
    obtain ⟨t, e2⟩ := opTag_ok (live := [⟨0, .stage⟩])
      (ins := [some 0, (d.bind fun d => [(⟨0, .stage⟩ : Frame)][d]?).map Frame.id]) (by
        intro t ht i h
        rcases List.mem_cons.1 ht with rfl | ht
        · simp only [Option.some.injEq] at h; subst h; simp
        · rw [List.mem_singleton] at ht
          subst ht
          exact arg_mem _ d i h)
    have : callT [⟨0, .stage⟩] (TCosmo.new p) (.chi a) ((d.bind fun d => [(⟨0, .stage⟩ : Frame)][d]?).map Frame.id)
        = ({ obj := (BgCall.run (Cosmology.init p) (.chi a)).1, par := none, chi := some 0, growth := none },
          .ok (BgCall.run (Cosmology.init p) (.chi a)).2) := by
      unfold callT
      simp only [BgCall.cell, TCosmo.new, Cosmology.init, BgCall.extra, e1]
      rw [e2]
    simp only [zero_add, this]
    rfl
  rw [Prog.execAll, h0]
  simp only
  rw [key _ rfl (by simp [BgCall.run, radialComovingDistance, ensureChi, Cosmology.init]) cs hcell]
  rfl

/-- C136 fails: after a `jit`-compiled function that closes over the cosmology, the same call outside raises. -/
theorem C136_refuted : ¬ ∀ (p : Params), p.gamma = none → ∀ qs : List Prog,
    (Prog.execAll 0 [] (TCosmo.new p) qs).2.2 = (callsAll qs).map fun c => .ok (c.run (Cosmology.init p)).2 := by
  intro h
  have h1 := h Planck15 rfl [.closure .stage [.call (.chi (.vec [0.5])) (some 0)], .call (.chi (.vec [0.5])) none]
  have h2 := C136_poisoned Planck15 (.vec [0.5]) (some 0) [.chi (.vec [0.5])] (by simp [BgCall.cell])
  rw [List.map_cons, List.map_nil, List.map_cons, List.map_nil] at h2
  rw [h2] at h1
  simp [callsAll, calls] at h1

/-- C136: the same for the norm of a redshift distribution: evaluated for the first time inside a compiled function that
closes over it, it raises at every later evaluation outside (a `delta_nz`, whose norm is a constant, does not). -/
theorem C136_norm (nz : Nz) (z : ℝ) (zs : List ℝ) :
    let o := (TNz.call [⟨0, .stage⟩] (TNz.new nz) z (some 0)).1
    (TNz.call [⟨0, .stage⟩] (TNz.new nz) z (some 0)).2 = .ok (nz.eval z) ∧
    ∀ z ∈ zs, (TNz.call [] o z none).2 = if nz.isDelta then .ok (nz.eval z) else .error .unexpectedTracer := by
  have e1 : opTag [⟨0, .stage⟩] [none] = .ok (some 0) := by
    rw [opTag, if_neg (by simp)]
    simp
  have e2 : opTag [⟨0, .stage⟩] [none, some 0, some 0] = .ok (some 0) := by
    rw [opTag, if_neg (by simp)]
    simp
  have e3 : opTag [⟨0, .stage⟩] [none, some 0, none] = .ok (some 0) := by
    rw [opTag, if_neg (by simp)]
    simp
  have e4 : opTag [] [none, none, some 0] = .error .unexpectedTracer := by
    rw [opTag, if_pos ⟨some 0, by simp, 0, rfl, by simp⟩]
  have e5 : opTag [] [none, none, none] = .ok none := by
    rw [opTag, if_neg (by simp)]
    simp
  by_cases hd : nz.isDelta
  · simp [TNz.call, TNz.new, NzObj.new, NzObj.call, Nz.eval, hd, e3, e5]
  · simp [TNz.call, TNz.new, NzObj.new, NzObj.call, Nz.eval, hd, e1, e2, e4]

/-- C136: a distribution already evaluated outside can be evaluated anywhere. -/
theorem C136_norm_warm (nz : Nz) (z₀ z : ℝ) (live : List Frame) (d : Option ℕ) :
    (TNz.call live (TNz.call [] (TNz.new nz) z₀ none).1 z ((d.bind fun d => live[d]?).map Frame.id)).2
      = .ok (nz.eval z) := by
  obtain ⟨t, ht⟩ := opTag_ok (live := live) (ins := [none, (d.bind fun d => live[d]?).map Frame.id, none]) (by
    intro t ht i h
    simp only [List.mem_cons, List.not_mem_nil, or_false] at ht
    rcases ht with rfl | rfl | rfl
    · simp at h
    · exact arg_mem live d i h
    · simp at h)
  have e1 : opTag [] [none] = .ok none := by
    rw [opTag, if_neg (by simp)]
    simp
  have e5 : opTag [] [none, none, none] = .ok none := by
    rw [opTag, if_neg (by simp)]
    simp
  generalize (d.bind fun d => live[d]?).map Frame.id = arg at ht ⊢
  by_cases hd : nz.isDelta
  · simp [TNz.call, TNz.new, NzObj.new, NzObj.call, Nz.eval, hd, e5, ht]
  · simp [TNz.call, TNz.new, NzObj.new, NzObj.call, Nz.eval, hd, e1, e5, ht]

/-- C136: a cosmology built from tracers and kept after their trace has ended is useless: every call that has to
compute a table, and every distance that needs the curvature, raises `UnexpectedTracerError` and changes nothing. -/
theorem C136_leaked (live : List Frame) (o : TCosmo) {i : ℕ} (hp : o.par = some i) (hi : i ∉ live.map Frame.id)
    (arg : Tag) (c : BgCall)
    (hc : match c with
      | .chi _ | .ofChi _ => o.obj.wsChi = none
      | .transverse _ | .angular _ => True
      | .growth _ => o.obj.wsGrowth = none
      | .rate _ => o.obj.gammaGrowth = true ∨ o.obj.wsGrowth = none) :
    callT live o c arg = (o, .error .unexpectedTracer) := by
  have e : ∀ ins : List Tag, o.par ∈ ins → opTag live ins = .error .unexpectedTracer := fun ins h => by
    rw [opTag, if_pos ⟨o.par, h, i, hp, hi⟩]
  have h1 := e [o.par] (by simp)
  cases c with
  | chi a => simp only [callT, BgCall.cell, hc, h1]
  | ofChi a => simp only [callT, BgCall.cell, hc, h1]
  | transverse a =>
    simp only [callT, BgCall.cell, BgCall.extra]
    cases o.obj.wsChi with
    | none => simp only [h1]
    | some t => simp only [e (o.chi :: arg :: [o.par]) (by simp)]
  | angular a =>
    simp only [callT, BgCall.cell, BgCall.extra]
    cases o.obj.wsChi with
    | none => simp only [h1]
    | some t => simp only [e (o.chi :: arg :: [o.par]) (by simp)]
  | growth a => simp only [callT, BgCall.cell, hc, h1]
  | rate a =>
    simp only [callT, BgCall.cell]
    by_cases hg : o.obj.gammaGrowth = true
    · simp only [hg, if_true, e [o.par, arg] (by simp)]
    · simp only [hg, hc.resolve_left hg, h1]
      simp

/-- C136: an object made inside trace 0, used outside it. -/
example : (callT [] { TCosmo.new Planck15 with par := some 0 } (.growth (.vec [0.5])) none).2 = .error .unexpectedTracer := by
  rw [C136_leaked [] _ (i := 0) rfl (by simp) none (.growth (.vec [0.5])) rfl]

/-- C136: a program meeting the hypotheses of `C136_partial`: a gradient with respect to the scale factor, a compiled
function of the cosmology that itself takes a gradient, and calls outside. -/
example : ∀ q ∈ [Prog.closure .data [.call (.growth (.vec [0.5])) (some 0)],
    .argument .stage [.call (.chi (.vec [0.5])) none, .closure .data [.call (.rate (.vec [0.3])) (some 1)]],
    .call (.chi (.vec [1])) none], Safe false q := by
  intro q hq
  simp only [List.mem_cons, List.not_mem_nil, or_false] at hq
  rcases hq with rfl | rfl | rfl
  · exact .data _ _ fun q hq => by
      rw [List.mem_singleton] at hq; subst hq; exact .call _ _ _
  · refine .argument _ _ _ fun q hq => ?_
    simp only [List.mem_cons, List.not_mem_nil, or_false] at hq
    rcases hq with rfl | rfl
    · exact .call _ _ _
    · exact .data _ _ fun q hq => by
        rw [List.mem_singleton] at hq; subst hq; exact .call _ _ _
  · exact .call _ _ _

/-- C136: `C136_poisoned` with two later calls. -/
example : ∀ c ∈ [BgCall.chi (.vec [0.5]), .angular (.vec [0.2])], c.cell (Cosmology.init Planck15) = .chi := by
  simp [BgCall.cell]

/-- C136: a compiled closure, safe once the tables exist. -/
example : Safe true (.closure .stage [.call (.transverse (.vec [0.5])) (some 0)]) :=
  .stage _ fun q hq => by rw [List.mem_singleton] at hq; subst hq; exact .call _ _ _

end JaxCosmo
