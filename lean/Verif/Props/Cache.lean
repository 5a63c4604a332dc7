import Verif.Model.BgCall
import Verif.Props.Distances
import Verif.Props.Growth

/-! # C13–C15: the workspace cache of a `Cosmology` object -/

namespace JaxCosmo
open Spec

/-! ## Call sequences -/

/-- The object after a sequence of calls (a call that raises still leaves its cache entry). -/
noncomputable def runCalls (o : Cosmology) (cs : List BgCall) : Cosmology :=
  cs.foldl (fun o c => (c.run o).1) o

/-- What can be observed of a `Cosmology` with parameters `p` after default calls. -/
structure Warm (p : Params) (o : Cosmology) : Prop where
  params : o.params = p
  flag : o.gammaGrowth = p.gamma.isSome
  chi : o.wsChi = none ∨ o.wsChi = some (chiTable p (-3) 256)
  growth : o.wsGrowth = none ∨ o.wsGrowth = some (growthTable p)

theorem Warm.init (p : Params) : Warm p (Cosmology.init p) :=
  ⟨rfl, rfl, Or.inl rfl, Or.inl rfl⟩

theorem growthTable_f (p : Params) (h : p.gamma = none) :
    growthTable p = growthTableODE p (-3) 128 := by simp [growthTable, h]

theorem radial_warm {p : Params} {o : Cosmology} (ho : Warm p o) (a : ArrayLike) :
    Warm p (radialComovingDistance o a).1 ∧
      (radialComovingDistance o a).1.wsChi = some (chiTable p (-3) 256) ∧
      (radialComovingDistance o a).2 = vmap1 (chiOf p) a.atleast1d := by
  obtain ⟨hp, hf, hc, hg⟩ := ho
  rcases hc with hc | hc
  · have e : ensureChi o (-3) 256
        = ({ o with wsChi := some (chiTable p (-3) 256) }, chiTable p (-3) 256) := by
      simp only [ensureChi, hc, hp]
    simp only [radialComovingDistance, e]
    exact ⟨⟨hp, hf, Or.inr rfl, hg⟩, trivial, rfl⟩
  · have e : ensureChi o (-3) 256 = (o, chiTable p (-3) 256) := by
      simp only [ensureChi, hc]
    simp only [radialComovingDistance, e]
    exact ⟨⟨hp, hf, Or.inr hc, hg⟩, hc, rfl⟩

theorem aOfChi_warm {p : Params} {o : Cosmology} (ho : Warm p o) (c : ArrayLike) :
    Warm p (aOfChi o c).1 ∧ (aOfChi o c).2 = vmap1 (aOf p) c.atleast1d := by
  have hr := radial_warm ho (.scalar 1)
  rcases ho.chi with hc | hc
  · simp only [aOfChi, hc, hr.2.1]
    exact ⟨hr.1, rfl⟩
  · simp only [aOfChi, hc]
    exact ⟨ho, rfl⟩

theorem growthODE_warm {p : Params} {o : Cosmology} (ho : Warm p o) (h : p.gamma = none)
    (a : ArrayLike) : Warm p (growthFactorODE o a).1 ∧
      (growthFactorODE o a).1.wsGrowth = some (growthTable p) ∧
      (growthFactorODE o a).2 = vmap1 (growthOf p) a := by
  obtain ⟨hp, hf, hc, hg⟩ := ho
  rcases hg with hg | hg
  · simp only [growthFactorODE, hg, hp, ← growthTable_f p h]
    exact ⟨⟨rfl, hf, hc, Or.inr rfl⟩, trivial, rfl⟩
  · simp only [growthFactorODE, hg]
    exact ⟨⟨hp, hf, hc, Or.inr hg⟩, trivial, rfl⟩

theorem growth_warm {p : Params} {o : Cosmology} (ho : Warm p o) (a : ArrayLike) :
    Warm p (growthFactor o a).1 ∧ (growthFactor o a).2 = vmap1 (growthOf p) a := by
  rcases hγ : p.gamma with _ | γ
  · have hf : o.gammaGrowth = false := by rw [ho.flag, hγ]; rfl
    simp only [growthFactor, hf, Bool.false_eq_true, if_false]
    exact ⟨(growthODE_warm ho hγ a).1, (growthODE_warm ho hγ a).2.2⟩
  · have hf : o.gammaGrowth = true := by rw [ho.flag, hγ]; rfl
    have ht : growthTable p = growthTableGamma p γ (-3) 128 := by simp [growthTable, hγ]
    simp only [growthFactor, hf, if_true]
    obtain ⟨hp, -, hc, hg⟩ := ho
    rcases hg with hg | hg
    · simp only [growthFactorGamma, hg, hp, hγ, ← ht]
      exact ⟨⟨rfl, by rw [hγ]; exact hf, hc, Or.inr rfl⟩, rfl⟩
    · simp only [growthFactorGamma, hg]
      exact ⟨⟨hp, by rw [hγ]; exact hf, hc, Or.inr hg⟩, rfl⟩

/-- Outcome of `growth_rate` as documented: elementwise; without `gamma` a scalar is refused. -/
noncomputable def rateOutcome (p : Params) (a : ArrayLike) : Except PyErr (List ℝ) :=
  if p.gamma.isSome then vmap1 (growthRateOf p) a.atleast1d else vmap1 (growthRateOf p) a

theorem rate_warm {p : Params} {o : Cosmology} (ho : Warm p o) (a : ArrayLike) :
    Warm p (growthRate o a).1 ∧ (growthRate o a).2 = rateOutcome p a := by
  rcases hγ : p.gamma with _ | γ
  · have hf : o.gammaGrowth = false := by rw [ho.flag, hγ]; rfl
    have hr : growthRateOf p = interp (growthTable p).n (growthTable p).a
        (fun i => match (growthTable p).f with | some f => f i | none => 0) := by
      funext x; simp only [growthRateOf, hγ, growthTable_f p hγ]; rfl
    have hff : ∃ f, (growthTable p).f = some f := by rw [growthTable_f p hγ]; exact ⟨_, rfl⟩
    obtain ⟨f, hff⟩ := hff
    have hr' : growthRateOf p = interp (growthTable p).n (growthTable p).a f := by
      rw [hr, hff]
    have hro : rateOutcome p a = vmap1 (growthRateOf p) a := by simp [rateOutcome, hγ]
    simp only [growthRate, hf, Bool.false_eq_true, if_false]
    have hw := growthODE_warm ho hγ (.vec [1])
    rcases ho.growth with hg | hg
    · simp only [growthRateODE, hg, hw.2.1, hff]
      exact ⟨hw.1, by rw [hro, hr']⟩
    · simp only [growthRateODE, hg, hff]
      exact ⟨ho, by rw [hro, hr']⟩
  · have hf : o.gammaGrowth = true := by rw [ho.flag, hγ]; rfl
    have hr : growthRateOf p = growthRateGamma p γ := by funext x; simp [growthRateOf, hγ]
    simp only [growthRate, hf, if_true, ho.params, hγ]
    refine ⟨ho, ?_⟩
    cases a <;> simp [rateOutcome, hγ, hr, ArrayLike.atleast1d, vmap1]

/-- The outcome of a call as a function of the parameters and the arguments only. -/
noncomputable def BgCall.outcome (p : Params) : BgCall → Except PyErr (List ℝ)
  | .chi a => vmap1 (chiOf p) a.atleast1d
  | .ofChi c => vmap1 (aOf p) c.atleast1d
  | .transverse a => (vmap1 (chiOf p) a.atleast1d).map (List.map (transverseOf p))
  | .angular a => ((vmap1 (chiOf p) a.atleast1d).map (List.map (transverseOf p))).map fun l =>
      match a with
      | .scalar x => l.map (x * ·)
      | .vec xs => List.zipWith (· * ·) xs l
  | .growth a => vmap1 (growthOf p) a
  | .rate a => rateOutcome p a

theorem run_warm {p : Params} {o : Cosmology} (ho : Warm p o) (c : BgCall) :
    Warm p (c.run o).1 ∧ (c.run o).2 = c.outcome p := by
  cases c with
  | chi a => exact ⟨(radial_warm ho a).1, (radial_warm ho a).2.2⟩
  | ofChi c => exact aOfChi_warm ho c
  | transverse a =>
    have h := radial_warm ho a
    refine ⟨h.1, ?_⟩
    simp only [BgCall.run, transverseComovingDistance, BgCall.outcome, h.2.2, ho.params]
  | angular a =>
    have h := radial_warm ho a
    refine ⟨h.1, ?_⟩
    simp only [BgCall.run, angularDiameterDistance, transverseComovingDistance, BgCall.outcome,
      h.2.2, ho.params]
    cases a <;> rfl
  | growth a => exact growth_warm ho a
  | rate a => exact rate_warm ho a

theorem runCalls_warm {p : Params} (cs : List BgCall) {o : Cosmology} (ho : Warm p o) :
    Warm p (runCalls o cs) := by
  induction cs generalizing o with
  | nil => exact ho
  | cons c cs ih => exact ih (run_warm ho c).1

/-! ## C13 -/

/-- C13: whatever default background calls were made before on the object, in whatever order, and
whether or not they raised, a call has the same outcome as on a fresh object. -/
theorem C13_transparent (p : Params) (cs : List BgCall) (c : BgCall) :
    (c.run (runCalls (Cosmology.init p) cs)).2 = (c.run (Cosmology.init p)).2 := by
  rw [(run_warm (runCalls_warm cs (Warm.init p)) c).2, (run_warm (Warm.init p) c).2]

/-- C13: no sequence of calls changes the parameters or the growth mode. -/
theorem C13_params (p : Params) (cs : List BgCall) :
    (runCalls (Cosmology.init p) cs).params = p ∧
      (runCalls (Cosmology.init p) cs).gammaGrowth = p.gamma.isSome :=
  ⟨(runCalls_warm cs (Warm.init p)).params, (runCalls_warm cs (Warm.init p)).flag⟩

/-- C13: on arrays no call ever fails, so none fails on a missing cache entry. -/
theorem C13_total (p : Params) (cs : List BgCall) (xs : List ℝ) (c : BgCall)
    (hc : c = .chi (.vec xs) ∨ c = .ofChi (.vec xs) ∨ c = .transverse (.vec xs) ∨
      c = .angular (.vec xs) ∨ c = .growth (.vec xs) ∨ c = .rate (.vec xs)) :
    ∃ ys : List ℝ, ys.length = xs.length ∧
      (c.run (runCalls (Cosmology.init p) cs)).2 = .ok ys := by
  rw [(run_warm (runCalls_warm cs (Warm.init p)) c).2]
  rcases hc with h | h | h | h | h | h <;> subst h <;>
    simp [BgCall.outcome, ArrayLike.atleast1d, vmap1, rateOutcome, Except.map]

/-- C13: no call of any kind, scalar arguments included, ever fails on a missing cache entry
(`KeyError`) or on a missing `gamma` (`TypeError`). -/
theorem C13_no_keyError (p : Params) (cs : List BgCall) (c : BgCall) :
    (c.run (runCalls (Cosmology.init p) cs)).2 ≠ .error .keyError ∧
      (c.run (runCalls (Cosmology.init p) cs)).2 ≠ .error .typeError := by
  rw [(run_warm (runCalls_warm cs (Warm.init p)) c).2]
  rcases c with a | a | a | a | a | a <;> cases a <;>
    simp [BgCall.outcome, ArrayLike.atleast1d, vmap1, rateOutcome, Except.map] <;>
    split <;> simp

/-- C13: the values of the six calls, for every call history. -/
theorem C13_values (p : Params) (cs : List BgCall) (xs : List ℝ) :
    let o := runCalls (Cosmology.init p) cs
    (radialComovingDistance o (.vec xs)).2 = .ok (xs.map (chiOf p)) ∧
    (aOfChi o (.vec xs)).2 = .ok (xs.map (aOf p)) ∧
    (transverseComovingDistance o (.vec xs)).2 = .ok (xs.map fun a => transverseOf p (chiOf p a)) ∧
    (angularDiameterDistance o (.vec xs)).2
      = .ok (xs.map fun a => a * transverseOf p (chiOf p a)) ∧
    (growthFactor o (.vec xs)).2 = .ok (xs.map (growthOf p)) ∧
    (growthRate o (.vec xs)).2 = .ok (xs.map (growthRateOf p)) := by
  have h := fun c => (run_warm (runCalls_warm cs (Warm.init p)) c).2
  refine ⟨h (.chi (.vec xs)), h (.ofChi (.vec xs)), (h (.transverse (.vec xs))).trans ?_,
    (h (.angular (.vec xs))).trans ?_, h (.growth (.vec xs)), (h (.rate (.vec xs))).trans ?_⟩
  · simp [BgCall.outcome, ArrayLike.atleast1d, vmap1, Except.map]
  · simp [BgCall.outcome, ArrayLike.atleast1d, vmap1, Except.map, List.zipWith_map_right,
      List.zipWith_self]
  · simp [BgCall.outcome, ArrayLike.atleast1d, vmap1, rateOutcome]

/-- C13: object identity matters only through the parameters: two objects with any call histories
give the same results. -/
theorem C13_history_free (p : Params) (cs ds : List BgCall) (c : BgCall) :
    (c.run (runCalls (Cosmology.init p) cs)).2 = (c.run (runCalls (Cosmology.init p) ds)).2 := by
  rw [C13_transparent, C13_transparent]

/-- A non-trivial history: a growth-rate call, a failing scalar growth call, a distance call. -/
example : (BgCall.run (runCalls (Cosmology.init Planck15)
      [.rate (.vec [0.5]), .growth (.scalar 1), .angular (.scalar 0.2)]) (.chi (.vec [0.5, 1]))).2
    = .ok [chiOf Planck15 0.5, chiOf Planck15 1] :=
  (C13_values Planck15 _ [0.5, 1]).1

/-! ## C14 -/

/-- C14 holds for the first call on an object: the table is built with the settings given. -/
theorem C14_first_call_partial (p : Params) (a : ArrayLike) (lo : ℝ) (n : ℕ) :
    (radialComovingDistance (Cosmology.init p) a lo n).2
      = vmap1 (readChi (chiTable p lo n)) a.atleast1d := rfl

/-- C14 holds as long as every call uses the same settings. -/
theorem C14_same_settings_partial (p : Params) (as : List ArrayLike) (a : ArrayLike) (lo : ℝ)
    (n : ℕ) :
    (radialComovingDistance
        (as.foldl (fun o b => (radialComovingDistance o b lo n).1) (Cosmology.init p)) a lo n).2
      = vmap1 (readChi (chiTable p lo n)) a.atleast1d := by
  have key : ∀ (as : List ArrayLike) (o : Cosmology), o.params = p →
      (o.wsChi = none ∨ o.wsChi = some (chiTable p lo n)) →
      (radialComovingDistance
        (as.foldl (fun o b => (radialComovingDistance o b lo n).1) o) a lo n).2
      = vmap1 (readChi (chiTable p lo n)) a.atleast1d := by
    intro as
    induction as with
    | nil =>
      intro o hp hc
      rcases hc with hc | hc <;>
        simp only [List.foldl_nil, radialComovingDistance, ensureChi, hc, hp]
    | cons b as ih =>
      intro o hp hc
      rw [List.foldl_cons]
      apply ih
      · rcases hc with hc | hc <;> simp only [radialComovingDistance, ensureChi, hc, hp]
      · rcases hc with hc | hc <;> right <;> simp only [radialComovingDistance, ensureChi, hc, hp]
  exact key as _ rfl (Or.inl rfl)

/-- What happens instead: once a table exists the settings are ignored. -/
theorem C14_settings_ignored (o : Cosmology) (c : ChiCache) (h : o.wsChi = some c) (a : ArrayLike)
    (lo lo' : ℝ) (n n' : ℕ) :
    radialComovingDistance o a lo n = radialComovingDistance o a lo' n' := by
  simp only [radialComovingDistance, ensureChi, h]

/-- C14 is false: after a call with two table points, a call with three table points returns a
different distance from the same call on a fresh object (empty universe, `a = 10^(-1/2)`). -/
theorem C14_refuted : ¬ ∀ (p : Params) (b a : ArrayLike) (lo lo' : ℝ) (n n' : ℕ),
    (radialComovingDistance (radialComovingDistance (Cosmology.init p) b lo n).1 a lo' n').2
      = (radialComovingDistance (Cosmology.init p) a lo' n').2 := by
  intro h
  have hx := h milneParams (.scalar 1) (.scalar (logspace (-1) 0 3 1)) (-1) (-1) 2 3
  have hL : (radialComovingDistance
      (radialComovingDistance (Cosmology.init milneParams) (.scalar 1) (-1) 2).1
        (.scalar (logspace (-1) 0 3 1)) (-1) 3).2
      = .ok [readChi (chiTable milneParams (-1) 2) (logspace (-1) 0 3 1)] := rfl
  have hR : (radialComovingDistance (Cosmology.init milneParams)
        (.scalar (logspace (-1) 0 3 1)) (-1) 3).2
      = .ok [readChi (chiTable milneParams (-1) 3) (logspace (-1) 0 3 1)] := rfl
  rw [hL, hR] at hx
  simp only [Except.ok.injEq, List.cons.injEq, and_true] at hx
  rw [C07_milne_partial milneParams_milne (by norm_num) (by norm_num) (Or.inl le_rfl)
    (by norm_num)] at hx
  have hrh : 0 < const_rh := by norm_num [const_rh]
  have hlog : 0 < Real.log 10 := Real.log_pos (by norm_num)
  set s : ℝ := logspace (-1) 0 3 1 with hs
  have hlogs : Real.log s = -(1 / 2) * Real.log 10 := by
    rw [hs, log_logspace]; norm_num [linspace]
  have hs0 : 0 < s := logspace_pos _ _ _ _
  have hs2 : s * s = 1 / 10 := by
    rw [← Real.exp_log (mul_pos hs0 hs0), Real.log_mul hs0.ne' hs0.ne', hlogs,
      show -(1 / 2) * Real.log 10 + -(1 / 2) * Real.log 10 = -Real.log 10 by ring, Real.exp_neg,
      Real.exp_log (by norm_num)]
    norm_num
  have hsle : s < 2 / 5 := by nlinarith
  have hinc := logspace_increasing (lo := -1) (by norm_num) (le_refl 2)
  have hc0 : (chiTable milneParams (-1) 2).chi 0 = const_rh * Real.log 10 := by
    rw [milne_chi milneParams_milne _ le_rfl (by norm_num), log_logspace]; norm_num [linspace]
  have hc1 : (chiTable milneParams (-1) 2).chi 1 = 0 := chiTable_last milneParams (-1) 2
  have hl : readChi (chiTable milneParams (-1) 2) s
      = max (const_rh * Real.log 10 * ((1 - s) / (9 / 10))) 0 := by
    unfold readChi clipLo
    rw [chiTable_a, chiTable_n, interp_two, chord, hc0, hc1]
    have e0 : logspace (-1) 0 2 0 = 1 / 10 := by
      rw [logspace_zero, Real.rpow_neg_one]; norm_num
    have e1 : logspace (-1) 0 2 (0 + 1) = 1 := logspace_end (-1) (le_refl 2)
    rw [e0, e1]
    congr 1
    field_simp; ring
  rw [hl, hlogs] at hx
  have hm := le_max_left (const_rh * Real.log 10 * ((1 - s) / (9 / 10))) 0
  rw [hx] at hm
  nlinarith [mul_pos hrh hlog]

/-! ## C15 -/

/-- C15 holds for the four distance functions, for every call history: a scalar gives the
one-element array of its value. -/
theorem C15_distances_partial (p : Params) (cs : List BgCall) (x : ℝ) :
    let o := runCalls (Cosmology.init p) cs
    (radialComovingDistance o (.scalar x)).2 = .ok [chiOf p x] ∧
    (aOfChi o (.scalar x)).2 = .ok [aOf p x] ∧
    (transverseComovingDistance o (.scalar x)).2 = .ok [transverseOf p (chiOf p x)] ∧
    (angularDiameterDistance o (.scalar x)).2 = .ok [x * transverseOf p (chiOf p x)] := by
  have h := fun c => (run_warm (runCalls_warm cs (Warm.init p)) c).2
  exact ⟨h (.chi (.scalar x)), h (.ofChi (.scalar x)), h (.transverse (.scalar x)),
    h (.angular (.scalar x))⟩

/-- C15 holds for `growth_rate` when `gamma` is given. -/
theorem C15_growth_rate_gamma_partial (p : Params) (γ : ℝ) (hγ : p.gamma = some γ)
    (cs : List BgCall) (x : ℝ) :
    (growthRate (runCalls (Cosmology.init p) cs) (.scalar x)).2 = .ok [growthRateOf p x] := by
  have h := (run_warm (runCalls_warm cs (Warm.init p)) (.rate (.scalar x))).2
  refine Eq.trans h ?_
  simp [BgCall.outcome, rateOutcome, hγ, ArrayLike.atleast1d, vmap1]

/-- C15 fails for `growth_factor`: for every cosmology, in every growth mode and after every call
history, a scalar scale factor raises `ValueError`. -/
theorem C15_growth_factor_scalar (p : Params) (cs : List BgCall) (x : ℝ) :
    (growthFactor (runCalls (Cosmology.init p) cs) (.scalar x)).2 = .error .valueError :=
  (run_warm (runCalls_warm cs (Warm.init p)) (.growth (.scalar x))).2

/-- C15 fails for `growth_rate` without `gamma`. -/
theorem C15_growth_rate_scalar (p : Params) (hγ : p.gamma = none) (cs : List BgCall) (x : ℝ) :
    (growthRate (runCalls (Cosmology.init p) cs) (.scalar x)).2 = .error .valueError := by
  refine Eq.trans (run_warm (runCalls_warm cs (Warm.init p)) (.rate (.scalar x))).2 ?_
  simp [BgCall.outcome, rateOutcome, hγ, vmap1]

/-- C15 is false: some background call on a scalar fails. -/
theorem C15_refuted : ¬ ∀ (p : Params) (x : ℝ), ∃ ys,
    (growthFactor (Cosmology.init p) (.scalar x)).2 = .ok ys := by
  intro h
  obtain ⟨ys, hy⟩ := h Planck15 1
  have := C15_growth_factor_scalar Planck15 [] 1
  simp only [runCalls, List.foldl_nil] at this
  rw [this] at hy
  cases hy

end JaxCosmo
