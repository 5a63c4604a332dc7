import Verif.Model.CosmologyCall
import Mathlib.Tactic.Linarith
import Mathlib.Tactic.NormNum
import Mathlib.Algebra.Order.Archimedean.Real.Basic
import Mathlib.Algebra.Order.Floor.Semiring

/-! # C132, C133: constructing a cosmology by name or position, defaults, printing -/

namespace JaxCosmo
namespace Spec

/-- The parameter of a given name. -/
def field (p : Params) : String → Option ℝ
  | "Omega_c" => some p.Omega_c
  | "Omega_b" => some p.Omega_b
  | "h" => some p.h
  | "n_s" => some p.n_s
  | "sigma8" => some p.sigma8
  | "Omega_k" => some p.Omega_k
  | "w0" => some p.w0
  | "wa" => some p.wa
  | "gamma" => p.gamma
  | _ => none

end Spec
open Spec

/-- No key twice. -/
def Kw.Dict (kw : Kw) : Prop := (kw.map (·.1)).Nodup

theorem Kw.look_mem {kw : Kw} (h : kw.Dict) {k : String} {v : ℝ} (hm : (k, v) ∈ kw) : kw.look k = some v := by
  induction kw with
  | nil => simp at hm
  | cons e kw ih =>
    rw [Kw.Dict, List.map_cons, List.nodup_cons] at h
    rcases List.mem_cons.1 hm with rfl | hm
    · simp [Kw.look]
    · have hne : e.1 ≠ k := fun he => h.1 (he ▸ List.mem_map_of_mem hm)
      have := ih h.2 hm
      simpa [Kw.look, List.find?_cons, hne] using this

theorem Kw.look_none {kw : Kw} {k : String} (hm : ∀ v, (k, v) ∉ kw) : kw.look k = none := by
  rw [Kw.look, Option.map_eq_none_iff, List.find?_eq_none]
  rintro ⟨k', v⟩ he
  simp only [beq_iff_eq]
  rintro rfl
  exact hm v he

theorem Kw.look_some {kw : Kw} {k : String} {v : ℝ} (h : kw.look k = some v) : (k, v) ∈ kw := by
  rw [Kw.look, Option.map_eq_some_iff] at h
  obtain ⟨⟨k', v'⟩, h1, rfl⟩ := h
  have h2 := List.find?_some h1
  simp only [beq_iff_eq] at h2
  subst h2
  exact List.mem_of_find?_eq_some h1

theorem Kw.look_append (a b : Kw) (k : String) : Kw.look (a ++ b) k = (a.look k).or (b.look k) := by
  simp only [Kw.look, List.find?_append]
  cases List.find? (fun e => e.1 == k) a <;> rfl

theorem Kw.look_cons (k' : String) (v : ℝ) (b : Kw) (k : String) :
    Kw.look ((k', v) :: b) k = if k' = k then some v else b.look k := by
  by_cases h : k' = k <;> simp [Kw.look, h]

theorem Kw.look_nil (k : String) : Kw.look [] k = none := rfl

theorem Kw.look_filter (b : Kw) (P : String → Bool) (k : String) (hk : P k = true) :
    Kw.look (b.filter fun x => P x.1) k = b.look k := by
  induction b with
  | nil => rfl
  | cons e b ih =>
    obtain ⟨k', v⟩ := e
    by_cases h : P k'
    · rw [List.filter_cons_of_pos (by simpa using h), look_cons, look_cons, ih]
    · have hne : k' ≠ k := by rintro rfl; exact h hk
      rw [List.filter_cons_of_neg (by simpa using h), look_cons, if_neg hne, ih]

theorem Kw.look_filter_not (b : Kw) (P : String → Bool) (k : String) (hk : P k = false) :
    Kw.look (b.filter fun x => P x.1) k = none := by
  refine look_none fun v hv => ?_
  rw [List.mem_filter] at hv
  rw [hk] at hv
  exact absurd hv.2 (by simp)

theorem Kw.look_update (d e : Kw) (k : String) : (d.update e).look k = (e.look k).or (d.look k) := by
  rw [Kw.update, look_append]
  have h1 : Kw.look (d.map fun x => (x.1, (e.look x.1).getD x.2)) k
      = (d.look k).map fun v => (e.look k).getD v := by
    induction d with
    | nil => rfl
    | cons x d ih =>
      obtain ⟨k', v⟩ := x
      rw [List.map_cons, look_cons, look_cons, ih]
      by_cases h : k' = k
      · subst h; simp
      · simp [h]
  rw [h1]
  cases hd : d.look k with
  | none =>
    have : (d.any fun y => y.1 == k) = false := by
      rw [List.any_eq_false]
      rintro ⟨k', v⟩ hm
      simp only [beq_iff_eq]
      rintro rfl
      rw [Kw.look, Option.map_eq_none_iff, List.find?_eq_none] at hd
      exact hd _ hm (by simp)
    have h2 := Kw.look_filter e (fun k' => !d.any fun y => y.1 == k') k (by simp [this])
    rw [Option.map_none, Option.none_or, h2, Option.or_none]
  | some v =>
    cases e.look k <;> rfl

theorem callCosmology_ok {args : List ℝ} {kw : Kw} (h1 : args.length ≤ cosmoNames.length)
    (h2 : ∀ e ∈ kw, e.1 ∈ cosmoNames) (h3 : ∀ e ∈ kw, e.1 ∉ cosmoNames.take args.length)
    (hb : ∀ k ∈ cosmoNames.take 8, ∃ v, Kw.look (cosmoNames.zip args ++ kw) k = some v) :
    ∃ p, callCosmology args kw = .ok p ∧
      ∀ k ∈ cosmoNames, field p k = Kw.look (cosmoNames.zip args ++ kw) k := by
  have a1 : ¬ args.length > cosmoNames.length := by omega
  have a2 : ¬ (kw.any fun e => !cosmoNames.contains e.1) = true := by
    simp only [List.any_eq_true, not_exists, not_and]
    intro e he
    simp [h2 e he]
  have a3 : ¬ (kw.any fun e => (cosmoNames.zip args).any fun q => q.1 == e.1) = true := by
    simp only [List.any_eq_true, not_exists, not_and]
    rintro e he ⟨k, v⟩ hq hk
    simp only [beq_iff_eq] at hk
    refine h3 e he ?_
    rw [← hk]
    obtain ⟨i, hi, hq⟩ := List.mem_iff_getElem.1 hq
    rw [List.getElem_zip, Prod.mk.injEq] at hq
    rw [List.length_zip] at hi
    rw [List.mem_iff_getElem]
    exact ⟨i, by rw [List.length_take]; omega, by rw [List.getElem_take]; exact hq.1⟩
  unfold callCosmology
  simp only [if_neg a1, if_neg a2, if_neg a3]
  generalize (cosmoNames.zip args ++ kw) = b at hb
  have hb' : ∀ k ∈ ["Omega_c", "Omega_b", "h", "n_s", "sigma8", "Omega_k", "w0", "wa"], ∃ v, Kw.look b k = some v := hb
  simp only [List.mem_cons, List.not_mem_nil, or_false, forall_eq_or_imp, forall_eq] at hb'
  obtain ⟨⟨v1, e1⟩, ⟨v2, e2⟩, ⟨v3, e3⟩, ⟨v4, e4⟩, ⟨v5, e5⟩, ⟨v6, e6⟩, ⟨v7, e7⟩, ⟨v8, e8⟩⟩ := hb'
  rw [e1, e2, e3, e4, e5, e6, e7, e8]
  refine ⟨_, rfl, ?_⟩
  intro k hk
  simp only [cosmoNames, List.mem_cons, List.not_mem_nil, or_false] at hk
  rcases hk with rfl | rfl | rfl | rfl | rfl | rfl | rfl | rfl | rfl <;>
    simp only [field, e1, e2, e3, e4, e5, e6, e7, e8]

theorem planckKw_names : ∀ e ∈ planckKw, e.1 ∈ cosmoNames := by
  intro e he
  simp only [planckKw, List.mem_cons, List.not_mem_nil, or_false] at he
  rcases he with rfl | rfl | rfl | rfl | rfl | rfl | rfl | rfl <;> simp [cosmoNames]

theorem planckKw_look : ∀ k ∈ cosmoNames, planckKw.look k = field Planck15 k := by
  intro k hk
  simp only [cosmoNames, List.mem_cons, List.not_mem_nil, or_false] at hk
  rcases hk with rfl | rfl | rfl | rfl | rfl | rfl | rfl | rfl | rfl <;>
    (simp [planckKw, Kw.look_cons, Kw.look_nil, field, Planck15] <;> norm_num)

theorem update_names {kw : Kw} (h : ∀ e ∈ kw, e.1 ∈ cosmoNames) : ∀ e ∈ planckKw.update kw, e.1 ∈ cosmoNames := by
  intro e he
  rw [Kw.update, List.mem_append] at he
  rcases he with he | he
  · obtain ⟨x, hx, rfl⟩ := List.mem_map.1 he
    exact planckKw_names x hx
  · exact h e (List.mem_filter.1 he).1

/-- C132: `Planck15(**kw)` has the values given and the Planck values for the rest; no `gamma` unless given. -/
theorem C132_override {kw : Kw} (hd : kw.Dict) (hn : ∀ e ∈ kw, e.1 ∈ cosmoNames) :
    ∃ p, callPlanck15 [] kw = .ok p ∧ (∀ k v, (k, v) ∈ kw → field p k = some v) ∧
      ∀ k, (∀ v, (k, v) ∉ kw) → field p k = field Planck15 k := by
  have hz : cosmoNames.zip ([] : List ℝ) = [] := rfl
  obtain ⟨p, h1, h2⟩ := callCosmology_ok (args := []) (kw := planckKw.update kw) (by simp) (update_names hn)
    (by simp) (by
      intro k hk
      have hk' : k ∈ cosmoNames := List.mem_of_mem_take hk
      rw [hz, List.nil_append, Kw.look_update, planckKw_look k hk']
      simp only [cosmoNames, List.take, List.mem_cons, List.not_mem_nil, or_false] at hk
      cases kw.look k with
      | some v => exact ⟨v, rfl⟩
      | none =>
        rcases hk with rfl | rfl | rfl | rfl | rfl | rfl | rfl | rfl <;> exact ⟨_, rfl⟩)
  refine ⟨p, h1, ?_, ?_⟩
  · intro k v hm
    rw [h2 k (hn _ hm), hz, List.nil_append, Kw.look_update, Kw.look_mem hd hm, Option.some_or]
  · intro k hm
    by_cases hk : k ∈ cosmoNames
    · rw [h2 k hk, hz, List.nil_append, Kw.look_update, Kw.look_none hm, Option.none_or, planckKw_look k hk]
    · have hno : ∀ q : Params, field q k = none := by
        intro q
        simp only [cosmoNames, List.mem_cons, List.not_mem_nil, or_false, not_or] at hk
        unfold field
        split <;> simp_all
      rw [hno, hno]

/-- C132: `Planck15()` is the cosmology of `Model/Core.lean`. -/
theorem C132_planck : callPlanck15 [] [] = .ok Planck15 := by
  obtain ⟨p, h1, -, h2⟩ := C132_override (kw := []) (by simp [Kw.Dict]) (by simp)
  rw [h1]
  have e : ∀ k, field p k = field Planck15 k := fun k => h2 k (by simp)
  have e1 := e "Omega_c"
  have e2 := e "Omega_b"
  have e3 := e "h"
  have e4 := e "n_s"
  have e5 := e "sigma8"
  have e6 := e "Omega_k"
  have e7 := e "w0"
  have e8 := e "wa"
  have e9 := e "gamma"
  simp only [field, Option.some.injEq] at e1 e2 e3 e4 e5 e6 e7 e8 e9
  cases p
  simp_all

/-- C132: an unknown keyword is refused. -/
theorem C132_unknown (args : List ℝ) {kw : Kw} {e : String × ℝ} (he : e ∈ kw) (hn : e.1 ∉ cosmoNames) :
    callPlanck15 args kw = .error .typeError ∧ callCosmology args kw = .error .typeError := by
  have key : ∀ kw' : Kw, e ∈ kw' → callCosmology args kw' = .error .typeError := by
    intro kw' he'
    unfold callCosmology
    have : (kw'.any fun e => !cosmoNames.contains e.1) = true := by
      rw [List.any_eq_true]
      exact ⟨e, he', by simp [hn]⟩
    simp only [if_pos this, ite_self]
  refine ⟨key _ ?_, key _ he⟩
  rw [Kw.update, List.mem_append]
  refine Or.inr (List.mem_filter.2 ⟨he, ?_⟩)
  simp only [Bool.not_eq_true', List.any_eq_false, beq_iff_eq]
  intro y hy h
  exact hn (h ▸ planckKw_names y hy)

/-- C132: the Planck cosmology takes no positional arguments. -/
theorem C132_positional (x : ℝ) (args : List ℝ) (kw : Kw) :
    callPlanck15 (x :: args) kw = .error .typeError := by
  unfold callPlanck15 callCosmology
  have : ((planckKw.update kw).any fun e => (cosmoNames.zip (x :: args)).any fun q => q.1 == e.1) = true := by
    rw [List.any_eq_true]
    refine ⟨("Omega_c", (kw.look "Omega_c").getD 0.2589), ?_, ?_⟩
    · simp [Kw.update, planckKw]
    · simp [cosmoNames]
  simp only [if_pos this, ite_self]

/-- C132: keywords and positions in the documented order build the same cosmology. -/
theorem C132_call (p : Params) :
    callCosmology ([p.Omega_c, p.Omega_b, p.h, p.n_s, p.sigma8, p.Omega_k, p.w0, p.wa] ++ p.gamma.toList) [] = .ok p ∧
    callCosmology [] ([("Omega_c", p.Omega_c), ("Omega_b", p.Omega_b), ("h", p.h), ("n_s", p.n_s),
      ("sigma8", p.sigma8), ("Omega_k", p.Omega_k), ("w0", p.w0), ("wa", p.wa)]
        ++ p.gamma.toList.map fun g => ("gamma", g)) = .ok p := by
  rcases p with ⟨a, b, c, d, e, f, g, h, _ | γ⟩ <;>
    simp [callCosmology, cosmoNames, Kw.look_cons, Kw.look_nil]

/-- C132: a parameter left out of `Cosmology(...)` is an error; only `gamma` may be. -/
theorem C132_missing {kw : Kw} {k : String} (hk : k ∈ cosmoNames) (hg : k ≠ "gamma") (hm : ∀ v, (k, v) ∉ kw) :
    callCosmology [] kw = .error .typeError := by
  have h0 := Kw.look_none hm
  have hz : cosmoNames.zip ([] : List ℝ) = [] := rfl
  unfold callCosmology
  simp only [hz, List.nil_append]
  split_ifs
  · rfl
  · rfl
  · rfl
  · simp only [cosmoNames, List.mem_cons, List.not_mem_nil, or_false] at hk
    rcases hk with rfl | rfl | rfl | rfl | rfl | rfl | rfl | rfl | rfl
    all_goals first | exact absurd rfl hg | skip
    all_goals
      rw [h0]
      try (split <;> simp_all)

/-- C132: `Planck15(h=0.7, gamma=0.55)`. -/
example : ∃ p, callPlanck15 [] [("h", 0.7), ("gamma", 0.55)] = .ok p ∧ p.h = 0.7 ∧ p.gamma = some 0.55 ∧
    p.sigma8 = 0.8159 := by
  obtain ⟨p, h1, h2, h3⟩ := C132_override (kw := [("h", 0.7), ("gamma", 0.55)]) (by simp [Kw.Dict])
    (by simp [cosmoNames])
  refine ⟨p, h1, ?_, ?_, ?_⟩
  · exact Option.some.inj (h2 "h" 0.7 (by simp))
  · exact h2 "gamma" 0.55 (by simp)
  · exact Option.some.inj (h3 "sigma8" (by simp))

/-! ## C133 -/

/-- Reading up to the first end of line. -/
theorem line_inj {s t r r' : List Char} (hs : '\n' ∉ s) (ht : '\n' ∉ t)
    (h : s ++ " \n".toList ++ r = t ++ " \n".toList ++ r') : s = t ∧ r = r' := by
  have e : " \n".toList = [' ', '\n'] := rfl
  rw [e] at h
  have key : ∀ {s t : List Char}, '\n' ∉ s → '\n' ∉ t → s ++ '\n' :: r = t ++ '\n' :: r' → s = t ∧ r = r' := by
    intro s
    induction s with
    | nil =>
      intro t _ ht h
      cases t with
      | nil => simpa using h
      | cons c t =>
        simp only [List.nil_append, List.cons_append, List.cons.injEq] at h
        exact absurd (h.1 ▸ List.mem_cons_self) ht
    | cons c s ih =>
      intro t hs ht h
      cases t with
      | nil =>
        simp only [List.nil_append, List.cons_append, List.cons.injEq] at h
        exact absurd (h.1 ▸ List.mem_cons_self) hs
      | cons c' t =>
        simp only [List.cons_append, List.cons.injEq] at h
        obtain ⟨h1, h2⟩ := ih (fun h => hs (List.mem_cons_of_mem _ h)) (fun h => ht (List.mem_cons_of_mem _ h)) h.2
        exact ⟨by rw [h.1, h1], h2⟩
  have h' : (s ++ [' ']) ++ '\n' :: r = (t ++ [' ']) ++ '\n' :: r' := by simpa using h
  obtain ⟨h1, h2⟩ := key (by simp [hs]) (by simp [ht]) h'
  exact ⟨List.append_cancel_right h1, h2⟩

/-- The eight base parameters. -/
def Params.base (p : Params) : List ℝ := [p.Omega_c, p.Omega_b, p.h, p.n_s, p.sigma8, p.Omega_k, p.w0, p.wa]

/-- C133: the printed form determines the eight base parameters, when they are among numbers `S` (the floats) that
Python prints differently and on one line. -/
theorem C133_partial {str : ℝ → List Char} {S : Set ℝ} (hs : Set.InjOn str S) (hl : ∀ x ∈ S, '\n' ∉ str x)
    {p q : Params} (hp : ∀ x ∈ p.base, x ∈ S) (hq : ∀ x ∈ q.base, x ∈ S) (h : p.text str = q.text str) :
    p.base = q.base := by
  unfold Params.text at h
  simp only [List.append_assoc] at h
  simp only [Params.base, List.mem_cons, List.not_mem_nil, or_false, forall_eq_or_imp, forall_eq] at hp hq
  obtain ⟨p3, p2, p1, p7, p8, p4, p5, p6⟩ := hp
  obtain ⟨q3, q2, q1, q7, q8, q4, q5, q6⟩ := hq
  have step : ∀ {x y : ℝ} {r r' : List Char} {l : List Char}, x ∈ S → y ∈ S →
      l ++ (str x ++ (" \n".toList ++ r)) = l ++ (str y ++ (" \n".toList ++ r')) → x = y ∧ r = r' := by
    intro x y r r' l hx hy h
    have h1 := List.append_cancel_left h
    rw [← List.append_assoc, ← List.append_assoc] at h1
    obtain ⟨h2, h3⟩ := line_inj (hl x hx) (hl y hy) h1
    exact ⟨hs hx hy h2, h3⟩
  have h0 := List.append_cancel_left h
  obtain ⟨e1, h0⟩ := step p1 q1 h0
  obtain ⟨e2, h0⟩ := step p2 q2 h0
  obtain ⟨e3, h0⟩ := step p3 q3 h0
  obtain ⟨e4, h0⟩ := step p4 q4 h0
  obtain ⟨e5, h0⟩ := step p5 q5 h0
  obtain ⟨e6, h0⟩ := step p6 q6 h0
  obtain ⟨e7, h0⟩ := step p7 q7 h0
  have e8 := hs p8 q8 (List.append_cancel_left h0)
  simp only [Params.base, e1, e2, e3, e4, e5, e6, e7, e8]

/-- C133 with numbers written in unary: a printer that satisfies the hypotheses. -/
example {p q : Params} (hp : ∀ x ∈ p.base, ∃ n : ℕ, x = n) (hq : ∀ x ∈ q.base, ∃ n : ℕ, x = n)
    (h : p.text (fun x => List.replicate ⌊x⌋₊ '1') = q.text (fun x => List.replicate ⌊x⌋₊ '1')) :
    p.base = q.base := by
  refine C133_partial (S := {x | ∃ n : ℕ, x = n}) ?_ ?_ hp hq h
  · rintro _ ⟨n, rfl⟩ _ ⟨m, rfl⟩ h
    have := congrArg List.length h
    simp only [Nat.floor_natCast, List.length_replicate] at this
    rw [this]
  · rintro _ ⟨n, rfl⟩ hm
    simp [List.mem_replicate] at hm

/-- C133: it does not show the growth index: models with and without it print alike. -/
theorem C133_refuted (str : ℝ → List Char) : ¬ ∀ p q : Params, p.text str = q.text str → p = q := by
  intro h
  have h1 := h Planck15 { Planck15 with gamma := some 0.55 } rfl
  have h2 := congrArg Params.gamma h1
  simp [Planck15] at h2

/-- C133: a container shows its traced parameters and nothing else. -/
theorem C133_container (num : ℝ → String) (arr : List ℝ → String) (cls cls' : Cls) (params : List PyVal)
    (config config' : List (String × PyVal)) (gals gals' : PyVal) (norm norm' : Option ℝ) :
    (PyVal.obj cls params config gals norm).repr num arr = (PyVal.obj cls' params config' gals' norm').repr num arr := by
  rw [PyVal.repr, PyVal.repr]

/-- C133: a redshift distribution and an alignment amplitude print alike, and so do samples of different depth and
density. -/
theorem C133_container_refuted (num : ℝ → String) (arr : List ℝ → String) :
    ¬ ∀ v w : PyVal, v.repr num arr = w.repr num arr → v = w := by
  intro h
  have h1 := h (Nz.py (.smail 1 2 1 30 3) none) (Nz.py (.smail 1 2 1 5 1) none)
    (by unfold Nz.py; exact C133_container ..)
  unfold Nz.py at h1
  simp at h1

end JaxCosmo
