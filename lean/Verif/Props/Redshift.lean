import Verif.Model.Redshift
import Verif.Proofs.Simps
import Mathlib.Analysis.SpecialFunctions.Gaussian.GaussianIntegral
import Mathlib.MeasureTheory.Group.Integral

/-! # C45–C47, C68: redshift distributions -/

namespace JaxCosmo

/-- Simpson's rule on a non-negative integrand that is positive at an inner odd node is positive. -/
theorem simpsBody_pos {f : ℝ → ℝ} {a b : ℝ} (hab : a < b) (N : ℕ) (hN : 2 ≤ N) (hev : N % 2 = 0)
    (hf : ∀ x, a ≤ x → x ≤ b → 0 ≤ f x) {i : ℕ} (hi : 2 * i + 1 < N)
    (hp : 0 < f (linspace a b (N + 1) (2 * i + 1))) : 0 < simpsBody f a b N := by
  simp only [simpsBody]
  have hN' : (0 : ℝ) < N := by exact_mod_cast (show 0 < N by omega)
  refine mul_pos (div_pos (div_pos (by linarith) hN') (by norm_num)) ?_
  refine Finset.sum_pos' (fun j hj => ?_) ⟨i, Finset.mem_range.2 (by omega), ?_⟩
  all_goals
    try have hj := Finset.mem_range.mp hj
  · have m0 := linspace_mem a b hab.le N (2 * j) (by omega) (by omega)
    have m1 := linspace_mem a b hab.le N (2 * j + 1) (by omega) (by omega)
    have m2 := linspace_mem a b hab.le N (2 * j + 2) (by omega) (by omega)
    have := hf _ m0.1 m0.2
    have := hf _ m1.1 m1.2
    have := hf _ m2.1 m2.2
    positivity
  · have m0 := linspace_mem a b hab.le N (2 * i) (by omega) (by omega)
    have m2 := linspace_mem a b hab.le N (2 * i + 2) (by omega) (by omega)
    have := hf _ m0.1 m0.2
    have := hf _ m2.1 m2.2
    positivity

/-! ## C45 -/

/-- The object after calls at the redshifts `zs`, in that order. -/
noncomputable def NzObj.after (o : NzObj) (zs : List ℝ) : NzObj :=
  zs.foldl (fun o z => (o.call z).1) o

theorem NzObj.call_of_norm {o : NzObj} {n : ℝ} (h : o.norm = some n) (z : ℝ) :
    o.call z = (o, o.nz.pzFn z / n) := by
  cases o; simp_all [NzObj.call]

theorem NzObj.after_of_norm {o : NzObj} {n : ℝ} (h : o.norm = some n) (zs : List ℝ) :
    o.after zs = o := by
  induction zs with
  | nil => rfl
  | cons z zs ih =>
    rw [NzObj.after, List.foldl_cons, NzObj.call_of_norm h]
    exact ih

/-- C45: the value returned does not depend on the history of calls on the object. -/
theorem C45_history (nz : Nz) (zs : List ℝ) (z : ℝ) :
    (((NzObj.new nz).after zs).call z).2 = nz.eval z := by
  cases zs with
  | nil => rfl
  | cons y ys =>
    have h : (((NzObj.new nz).call y).1).norm
        = some (match (NzObj.new nz).norm with | none => nz.computedNorm | some n => n) := rfl
    rw [NzObj.after, List.foldl_cons]
    change ((((NzObj.new nz).call y).1.after ys).call z).2 = _
    rw [NzObj.after_of_norm h, NzObj.call_of_norm h]
    rfl

theorem Nz.eval_extended {nz : Nz} (hd : nz.isDelta = false) (z : ℝ) :
    nz.eval z = nz.pzFn z / nz.computedNorm := by
  simp [Nz.eval, NzObj.call, NzObj.new, hd]

/-- C45: after any history of calls the normalised distribution has Simpson integral one. -/
theorem C45_normalised (nz : Nz) (hd : nz.isDelta = false) {n : ℝ}
    (hn : simps nz.pzFn 0 nz.zmax 256 = .ok n) (h0 : n ≠ 0) (zs : List ℝ) :
    simps (fun z => (((NzObj.new nz).after zs).call z).2) 0 nz.zmax 256 = .ok 1 := by
  have hn' : nz.computedNorm = n := by
    simpa [simps, Nz.computedNorm] using hn
  simp only [simps, show ¬ (256 % 2 = 1) by norm_num, if_false, Except.ok.injEq]
  have : (fun z => (((NzObj.new nz).after zs).call z).2) = fun z => n⁻¹ * nz.pzFn z := by
    funext z
    rw [C45_history, Nz.eval_extended hd, hn', div_eq_inv_mul]
  rw [this, simpsBody_smul]
  change n⁻¹ * nz.computedNorm = 1
  rw [hn', inv_mul_cancel₀ h0]

/-- C45: rescaling the unnormalised density changes nothing. -/
theorem C45_rescale (nz : Nz) (hd : nz.isDelta = false) (c g z : ℝ) (hc : c ≠ 0) :
    (Nz.user (fun z => c * nz.pzFn z) g nz.zmax).eval z = nz.eval z := by
  rw [Nz.eval_extended rfl, Nz.eval_extended hd]
  have : (Nz.user (fun z => c * nz.pzFn z) g nz.zmax).computedNorm = c * nz.computedNorm :=
    simpsBody_smul c (fun t => nz.pzFn t) 0 nz.zmax 256
  rw [this]
  exact mul_div_mul_left _ _ hc

/-- C45: the single-plane distribution is not renormalised. -/
theorem C45_delta (z0 g zm z : ℝ) (zs : List ℝ) :
    (((NzObj.new (.delta z0 g zm)).after zs).call z).2 = if z = z0 then 1 else 0 := by
  rw [C45_history]
  simp [Nz.eval, NzObj.call, NzObj.new, Nz.isDelta, Nz.pzFn]

theorem smail_pos {a b z0 z : ℝ} (hz : 0 < z) (g zm : ℝ) : 0 < (Nz.smail a b z0 g zm).pzFn z := by
  unfold Nz.pzFn
  have := Real.rpow_pos_of_pos hz a
  positivity

/-- C45: a Smail distribution always has a positive norm, so it is always normalised. -/
theorem C45_smail (a b z0 g zm : ℝ) (hzm : 0 < zm) (zs : List ℝ) :
    simps (fun z => (((NzObj.new (.smail a b z0 g zm)).after zs).call z).2) 0 zm 256 = .ok 1 := by
  have hp : 0 < simpsBody (Nz.smail a b z0 g zm).pzFn 0 zm 256 := by
    refine simpsBody_pos hzm 256 (by norm_num) (by norm_num) ?_ (i := 0) (by norm_num) ?_
    · intro x hx _
      unfold Nz.pzFn
      have := Real.rpow_nonneg hx a
      positivity
    · refine smail_pos ?_ g zm
      rw [linspace_succ]
      positivity
  exact C45_normalised (.smail a b z0 g zm) rfl (n := simpsBody (Nz.smail a b z0 g zm).pzFn 0 zm 256)
    (by simp [simps, Nz.zmax]) hp.ne' zs

theorem kdeKernel_pos {bw : ℝ} (hb : 0 < bw) (X x : ℝ) : 0 < Nz.kdeKernel bw X x := by
  unfold Nz.kdeKernel
  have : 0 < √(2 * Real.pi) := Real.sqrt_pos.2 (by positivity)
  positivity

theorem kde_pos {cat : List (ℝ × ℝ)} {bw : ℝ} (hb : 0 < bw) (hw : ∀ e ∈ cat, 0 ≤ e.2)
    (hq : 0 < (cat.map fun e => e.2).sum) (g zm z : ℝ) : 0 < (Nz.kde cat bw g zm).pzFn z := by
  unfold Nz.pzFn
  refine div_pos ?_ hq
  induction cat with
  | nil => simp at hq
  | cons e l ih =>
    simp only [List.map_cons, List.sum_cons] at hq ⊢
    have h1 : 0 ≤ e.2 := hw e (by simp)
    have h2 : ∀ e ∈ l, 0 ≤ e.2 := fun e he => hw e (by simp [he])
    have h3 : 0 ≤ (l.map fun e => Nz.kdeKernel bw e.1 z * e.2).sum := by
      refine List.sum_nonneg fun x hx => ?_
      obtain ⟨e, he, rfl⟩ := List.mem_map.1 hx
      exact mul_nonneg (kdeKernel_pos hb _ _).le (h2 e he)
    have hk := kdeKernel_pos hb e.1 z
    rcases h1.eq_or_lt with h | h
    · rw [← h] at hq ⊢
      have := ih h2 (by linarith)
      linarith
    · have := mul_pos hk h
      linarith

/-- C45: so has a kernel density estimate with non-negative weights of positive sum. -/
theorem C45_kde (cat : List (ℝ × ℝ)) (bw g zm : ℝ) (hzm : 0 < zm) (hb : 0 < bw)
    (hw : ∀ e ∈ cat, 0 ≤ e.2) (hq : 0 < (cat.map fun e => e.2).sum) (zs : List ℝ) :
    simps (fun z => (((NzObj.new (.kde cat bw g zm)).after zs).call z).2) 0 zm 256 = .ok 1 := by
  have hp : 0 < simpsBody (Nz.kde cat bw g zm).pzFn 0 zm 256 :=
    simpsBody_pos hzm 256 (by norm_num) (by norm_num) (fun x _ _ => (kde_pos hb hw hq g zm x).le)
      (i := 0) (by norm_num) (kde_pos hb hw hq g zm _)
  exact C45_normalised (.kde cat bw g zm) rfl (n := simpsBody (Nz.kde cat bw g zm).pzFn 0 zm 256)
    (by simp [simps, Nz.zmax]) hp.ne' zs

/-- Witness: the distribution of the library's tests, evaluated twice before. -/
example : simps (fun z => (((NzObj.new (.smail 1 2 1 1 10)).after [0.5, 1]).call z).2) 0 10 256
    = .ok 1 := C45_smail 1 2 1 1 10 (by norm_num) [0.5, 1]

/-- Witness: a shifted Smail distribution meets the hypotheses of `C45_normalised`. -/
example (zs : List ℝ) : simps (fun z => (((NzObj.new
    (.shift (.smail 1 2 1 1 10) 0.1 1 10)).after zs).call z).2) 0 10 256 = .ok 1 := by
  refine C45_normalised (.shift (.smail 1 2 1 1 10) 0.1 1 10) rfl
    (n := simpsBody (Nz.shift (.smail 1 2 1 1 10) 0.1 1 10).pzFn 0 10 256)
    (by simp [simps, Nz.zmax]) (simpsBody_pos (by norm_num) 256 (by norm_num) (by norm_num) ?_
      (i := 3) (by norm_num) ?_).ne' zs
  · intro x _ _
    simp only [Nz.pzFn, clipLo]
    have : 0 ≤ max (x - 0.1) 0 := le_max_right _ _
    positivity
  · rw [linspace_succ]
    simp only [Nz.pzFn, clipLo]
    rw [max_eq_left (by norm_num)]
    norm_num
    positivity

/-! ## C46 -/

/-- C46: the density is non-negative, and positive everywhere when the weights have positive sum. -/
theorem C46_nonneg (cat : List (ℝ × ℝ)) (bw g zm z : ℝ) (hb : 0 < bw) (hw : ∀ e ∈ cat, 0 ≤ e.2) :
    0 ≤ (Nz.kde cat bw g zm).pzFn z ∧
      (0 < (cat.map fun e => e.2).sum → 0 < (Nz.kde cat bw g zm).pzFn z) := by
  refine ⟨?_, fun hq => kde_pos hb hw hq g zm z⟩
  unfold Nz.pzFn
  refine div_nonneg (List.sum_nonneg fun x hx => ?_) (List.sum_nonneg fun x hx => ?_)
  · obtain ⟨e, he, rfl⟩ := List.mem_map.1 hx
    exact mul_nonneg (kdeKernel_pos hb _ _).le (hw e he)
  · obtain ⟨e, he, rfl⟩ := List.mem_map.1 hx
    exact hw e he

theorem kdeKernel_eq (bw X x : ℝ) : Nz.kdeKernel bw X x
    = 1 / √(2 * Real.pi) / bw * Real.exp (-(1 / (2 * bw ^ 2)) * (x - X) ^ 2) := by
  unfold Nz.kdeKernel
  congr 2
  ring

theorem kdeKernel_integrable {bw : ℝ} (hb : 0 < bw) (X : ℝ) :
    MeasureTheory.Integrable (Nz.kdeKernel bw X) := by
  rw [show Nz.kdeKernel bw X = fun x => 1 / √(2 * Real.pi) / bw
    * Real.exp (-(1 / (2 * bw ^ 2)) * (x - X) ^ 2) from funext (kdeKernel_eq bw X)]
  exact ((integrable_exp_neg_mul_sq (b := 1 / (2 * bw ^ 2)) (by positivity)).comp_sub_right
    X).const_mul _

/-- The Gaussian kernel has unit mass. -/
theorem kdeKernel_integral {bw : ℝ} (hb : 0 < bw) (X : ℝ) : ∫ x, Nz.kdeKernel bw X x = 1 := by
  simp_rw [kdeKernel_eq]
  rw [MeasureTheory.integral_const_mul,
    MeasureTheory.integral_sub_right_eq_self
      (fun x => Real.exp (-(1 / (2 * bw ^ 2)) * x ^ 2)) X, integral_gaussian]
  rw [show Real.pi / (1 / (2 * bw ^ 2)) = (2 * Real.pi) * bw ^ 2 by field_simp,
    Real.sqrt_mul (show 0 ≤ 2 * Real.pi by positivity) (bw ^ 2), Real.sqrt_sq hb.le]
  have : 0 < √(2 * Real.pi) := Real.sqrt_pos.2 (by positivity)
  field_simp

/-- C46: the density integrates to one over the real line. -/
theorem C46_integral (cat : List (ℝ × ℝ)) (bw g zm : ℝ) (hb : 0 < bw)
    (hq : (cat.map fun e => e.2).sum ≠ 0) : ∫ z, (Nz.kde cat bw g zm).pzFn z = 1 := by
  have key : ∀ l : List (ℝ × ℝ),
      MeasureTheory.Integrable (fun z => (l.map fun e => Nz.kdeKernel bw e.1 z * e.2).sum) ∧
        ∫ z, (l.map fun e => Nz.kdeKernel bw e.1 z * e.2).sum = (l.map fun e => e.2).sum := by
    intro l
    induction l with
    | nil => simp
    | cons e l ih =>
      simp only [List.map_cons, List.sum_cons]
      have h1 := (kdeKernel_integrable hb e.1).mul_const e.2
      refine ⟨h1.add ih.1, ?_⟩
      rw [MeasureTheory.integral_add h1 ih.1, ih.2, MeasureTheory.integral_mul_const,
        kdeKernel_integral hb, one_mul]
  unfold Nz.pzFn
  simp only
  rw [MeasureTheory.integral_div, (key cat).2, div_self hq]

/-- C46: rescaling all weights changes nothing. -/
theorem C46_weights (cat : List (ℝ × ℝ)) (bw g zm z c : ℝ) (hc : c ≠ 0) :
    (Nz.kde (cat.map fun e => (e.1, c * e.2)) bw g zm).pzFn z = (Nz.kde cat bw g zm).pzFn z := by
  unfold Nz.pzFn
  simp only [List.map_map]
  have h1 : ∀ l : List (ℝ × ℝ),
      (l.map ((fun e => Nz.kdeKernel bw e.1 z * e.2) ∘ fun e => (e.1, c * e.2))).sum
        = c * (l.map fun e => Nz.kdeKernel bw e.1 z * e.2).sum := by
    intro l
    rw [← List.sum_map_mul_left]
    congr 2; funext e; simp [mul_left_comm]
  have h2 : ∀ l : List (ℝ × ℝ), (l.map ((fun e => e.2) ∘ fun e => (e.1, c * e.2))).sum
      = c * (l.map fun e => e.2).sum := by
    intro l
    rw [← List.sum_map_mul_left]
    congr 2
  rw [h1, h2, mul_div_mul_left _ _ hc]

/-- C46: the order of the catalogue does not matter. -/
theorem C46_perm (cat cat' : List (ℝ × ℝ)) (bw g zm z : ℝ) (h : cat.Perm cat') :
    (Nz.kde cat bw g zm).pzFn z = (Nz.kde cat' bw g zm).pzFn z := by
  unfold Nz.pzFn
  simp only
  rw [(h.map _).sum_eq, (h.map fun e => e.2).sum_eq (l₂ := cat'.map fun e => e.2)]

/-- C46: a galaxy listed twice counts like one with the sum of the weights. -/
theorem C46_merge (cat : List (ℝ × ℝ)) (bw g zm z x v w : ℝ) :
    (Nz.kde ((x, v) :: (x, w) :: cat) bw g zm).pzFn z
      = (Nz.kde ((x, v + w) :: cat) bw g zm).pzFn z := by
  unfold Nz.pzFn
  simp only [List.map_cons, List.sum_cons]
  congr 1 <;> ring

/-- Witness: two galaxies of different weight. -/
example : ∫ z, (Nz.kde [(0.5, 1), (1, 0.25)] 0.1 1 10).pzFn z = 1 :=
  C46_integral _ _ _ _ (by norm_num) (by norm_num)

/-! ## C47 -/

/-- C47: above the bias the shifted density is the parent's at `z - bias`, up to the ratio of the
norms. -/
theorem C47_shift (parent : Nz) (bias g zm : ℝ) (hp : parent.isDelta = false)
    (h0 : parent.computedNorm ≠ 0) (z : ℝ) (hz : bias ≤ z) :
    (Nz.shift parent bias g zm).eval z
      = parent.computedNorm / (Nz.shift parent bias g zm).computedNorm
          * parent.eval (z - bias) := by
  rw [Nz.eval_extended rfl, Nz.eval_extended hp]
  have : (Nz.shift parent bias g zm).pzFn z = parent.pzFn (z - bias) := by
    rw [Nz.pzFn, clipLo, max_eq_left (by linarith)]
  rw [this]
  field_simp

/-- C47: below the bias the density is constant, equal to the parent's at redshift zero. -/
theorem C47_below (parent : Nz) (bias g zm z : ℝ) (hz : z ≤ bias) :
    (Nz.shift parent bias g zm).eval z = (Nz.shift parent bias g zm).eval bias := by
  rw [Nz.eval_extended rfl, Nz.eval_extended rfl]
  congr 1
  rw [Nz.pzFn, Nz.pzFn, clipLo, clipLo, max_eq_right (by linarith), max_eq_right (by linarith)]

/-- C47: no shift and the same `zmax` give back the parent. -/
theorem C47_zero (parent : Nz) (g z : ℝ) (hp : parent.isDelta = false) (hzm : 0 ≤ parent.zmax)
    (hz : 0 ≤ z) : (Nz.shift parent 0 g parent.zmax).eval z = parent.eval z := by
  have h : ∀ x, 0 ≤ x → (Nz.shift parent 0 g parent.zmax).pzFn x = parent.pzFn x := by
    intro x hx
    rw [Nz.pzFn, clipLo, sub_zero, max_eq_left hx]
  rw [Nz.eval_extended rfl, Nz.eval_extended hp, h z hz]
  congr 1
  refine simpsBody_congr _ _ _ _ _ (by norm_num) fun i hi => ?_
  exact h _ (linspace_mem 0 parent.zmax hzm 256 i hi (by norm_num)).1

/-- C47: shifts compose additively as long as the inner argument is not clipped. -/
theorem C47_compose (parent : Nz) (b1 b2 g1 z1 g2 z2 z : ℝ) (h2 : b2 ≤ z) :
    (Nz.shift (.shift parent b1 g1 z1) b2 g2 z2).pzFn z
      = (Nz.shift parent (b1 + b2) g2 z2).pzFn z := by
  simp only [Nz.pzFn, clipLo]
  rw [max_eq_left (show (0 : ℝ) ≤ z - b2 by linarith)]
  congr 2
  ring

/-- C47: with non-negative shifts they compose on all of `z ≥ 0`, normalisation included. -/
theorem C47_compose_eval (parent : Nz) (b1 b2 g1 z1 g2 z2 z : ℝ) (hb1 : 0 ≤ b1) :
    (Nz.shift (.shift parent b1 g1 z1) b2 g2 z2).eval z
      = (Nz.shift parent (b1 + b2) g2 z2).eval z := by
  have h : ∀ x, (Nz.shift (.shift parent b1 g1 z1) b2 g2 z2).pzFn x
      = (Nz.shift parent (b1 + b2) g2 z2).pzFn x := by
    intro x
    rcases le_total b2 x with hx | hx
    · exact C47_compose parent b1 b2 g1 z1 g2 z2 x hx
    · simp only [Nz.pzFn, clipLo]
      rw [max_eq_right (show x - b2 ≤ 0 by linarith), max_eq_right (show 0 - b1 ≤ 0 by linarith),
        max_eq_right (show x - (b1 + b2) ≤ 0 by linarith)]
  rw [Nz.eval_extended rfl, Nz.eval_extended rfl, h z]
  congr 1
  unfold Nz.computedNorm
  congr 1
  exact funext h

/-- Witness: a Smail parent with positive norm, shifted by `0.1`, at `z = 0.6`. -/
example : (Nz.shift (.smail 1 2 1 1 10) 0.1 1 10).eval 0.6
    = (Nz.smail 1 2 1 1 10).computedNorm
        / (Nz.shift (.smail 1 2 1 1 10) 0.1 1 10).computedNorm
        * (Nz.smail 1 2 1 1 10).eval (0.6 - 0.1) := by
  refine C47_shift _ _ _ _ rfl ?_ _ (by norm_num)
  refine (simpsBody_pos (by norm_num [Nz.zmax]) 256 (by norm_num) (by norm_num) ?_ (i := 0)
    (by norm_num) ?_).ne'
  · intro x hx _
    unfold Nz.pzFn
    positivity
  · refine smail_pos ?_ 1 10
    rw [linspace_succ]
    norm_num [Nz.zmax]

/-! ## C68 -/

/-- C68 where it holds: keywords given explicitly are kept.  Missing: without keywords the galaxy
density and the range of the parent are not inherited (`C68_defaults`, `C68_refuted`). -/
theorem C68_explicit_partial (parent : Nz) (bias : ℝ) :
    (Nz.systematicShift parent bias (gals := parent.gals) (zmax := parent.zmax)).gals = parent.gals ∧
    (Nz.systematicShift parent bias (gals := parent.gals) (zmax := parent.zmax)).zmax
      = parent.zmax := ⟨rfl, rfl⟩

/-- C68: what happens without keywords: one galaxy per square arcminute and `zmax = 10`, whatever
the parent. -/
theorem C68_defaults (parent : Nz) (bias : ℝ) :
    (Nz.systematicShift parent bias).gals = 1 ∧ (Nz.systematicShift parent bias).zmax = 10 ∧
    (Nz.systematicShift parent bias).galsPerSteradian = steradian_to_arcmin2 :=
  ⟨rfl, rfl, by simp [Nz.galsPerSteradian, Nz.systematicShift, Nz.gals]⟩

/-- C68 fails: a parent with 20 galaxies per square arcminute below redshift 4. -/
theorem C68_refuted : ¬ ∀ (parent : Nz) (bias : ℝ),
    (Nz.systematicShift parent bias).gals = parent.gals ∧
      (Nz.systematicShift parent bias).zmax = parent.zmax := by
  intro h
  have := (h (.smail 1 2 1 20 4) 0.01).1
  simp [Nz.systematicShift, Nz.gals] at this

/-- C68: with a zero shift the default construction is still not the parent: a flat parent on
`[0, 4]` has density `1/4`, its zero shift `1/10`. -/
theorem C68_zero_shift : (Nz.user (fun _ => 1) 1 4).eval 1 = 1 / 4 ∧
    (Nz.systematicShift (.user (fun _ => 1) 1 4) 0).eval 1 = 1 / 10 := by
  constructor
  · rw [Nz.eval_extended rfl]
    simp only [Nz.computedNorm, Nz.pzFn, Nz.zmax, simpsBody]
    norm_num
  · rw [Nz.eval_extended rfl]
    simp only [Nz.systematicShift, Nz.computedNorm, Nz.pzFn, Nz.zmax, simpsBody]
    norm_num

end JaxCosmo
