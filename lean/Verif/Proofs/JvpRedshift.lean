import Verif.Spec.JvpSpectra
import Verif.Proofs.JvpBackground
import Verif.Proofs.JvpPower
import Verif.Proofs.JvpInterp
import Verif.Proofs.XrSpectra
import Mathlib.Analysis.InnerProductSpace.NormPow

/-! # Helper lemmas: derivatives of redshift distributions -/

namespace JaxCosmo.Spec
open Xr

namespace Jvp
variable {F G : ℝ → ℝ} {s : ℝ} {x y : Du}

theorem val (h : Jvp F s x) : x.val = fin (F s) := h.choose_spec.2.1

/-- A function that stays at zero has tangent zero. -/
theorem tan_zero (h : Jvp F s x) (h0 : F =ᶠ[nhds s] fun _ => 0) : x.tangent = fin 0 := by
  obtain ⟨F', hF, -, ht⟩ := h
  have h2 : HasDerivAt F 0 s := (hasDerivAt_const s (0 : ℝ)).congr_of_eventuallyEq h0
  rw [ht, hF.unique h2]

open Classical in
/-- A power of a base that stays at zero: the rule needs an exponent of at least one as soon as the
base carries a tangent, even one equal to zero. -/
theorem rpow_zero (hx : Jvp F s x) (hy : Jvp G s y) (h0 : F =ᶠ[nhds s] fun _ => 0) (hG : 0 < G s)
    (h1 : x.tan = none ∨ 1 ≤ G s) : Jvp (fun r => F r ^ G r) s (x.rpow y) := by
  have hF0 : F s = 0 := h0.self_of_nhds
  have hxv : x.val = fin 0 := by rw [hx.val, hF0]
  have ht := hx.tan_zero h0
  obtain ⟨G', hdG, hw, hu⟩ := hy
  have hev : (fun r => F r ^ G r) =ᶠ[nhds s] fun _ => 0 := by
    filter_upwards [h0, hdG.continuousAt.eventually (lt_mem_nhds hG)] with r hr hg
    rw [hr, Real.zero_rpow hg.ne']
  refine ⟨0, (hasDerivAt_const s (0 : ℝ)).congr_of_eventuallyEq hev, ?_, ?_⟩
  · change x.val.rpow y.val = _
    rw [hxv, hw, rpow_fin_zero hG]
    simp only [hF0]
  · have hr : (fin 0).rpow (fin (G s)) = fin 0 := by rw [rpow_fin_zero hG, Real.zero_rpow hG.ne']
    have e : ((y.tan.map fun g => g * ((if x.val = fin 0 then (1 : Xr) else x.val).log
        * x.val.rpow y.val)).getD (fin 0)) = fin 0 := by
      cases hyt : y.tan with
      | none => rfl
      | some g =>
        have : g = fin G' := by rw [← hu]; unfold Du.tangent; rw [hyt]; rfl
        simp only [Option.map_some, Option.getD_some]
        rw [if_pos hxv, hxv, hw, hr, this, lit_one, log_fin one_pos, Real.log_one]
        simp [mul_fin]
    have e2 : ((x.tan.map fun g => g * (if y.val = fin 0 then fin 0
        else y.val * x.val.rpow (y.val - 1))).getD (fin 0)) = fin 0 := by
      cases hxt : x.tan with
      | none => rfl
      | some g =>
        have hg : g = fin 0 := by rw [← ht]; unfold Du.tangent; rw [hxt]; rfl
        have h1 : 1 ≤ G s := h1.resolve_left (by rw [hxt]; simp)
        simp only [Option.map_some, Option.getD_some]
        rw [hw, if_neg (by simpa using hG.ne'), hxv, hg, lit_one, sub_fin]
        rcases h1.eq_or_lt with h | h
        · rw [← h, sub_self, show (fin 0).rpow (fin 0) = fin 1 by simp [Xr.rpow]]; simp [mul_fin]
        · rw [rpow_fin_zero (by linarith)]; simp [mul_fin]
    change (Du.tadd _ _).getD (fin 0) = _
    rw [tadd_getD e2 e, add_zero]

end Jvp

/-- A finite value and a finite tangent. -/
def TanFin (v : ℝ) (x : Du) : Prop := x.val = fin v ∧ ∃ g, x.tangent = fin g

namespace TanFin
variable {u v : ℝ} {x y : Du}

theorem of_jvp {F : ℝ → ℝ} {s : ℝ} (h : Jvp F s x) : TanFin (F s) x := by
  obtain ⟨g, -, h1, h2⟩ := h
  exact ⟨h1, g, h2⟩

theorem line (hx : TanFin u x) : ∃ g, Jvp (fun r => u + g * r) 0 x := by
  obtain ⟨h1, g, h2⟩ := hx
  exact ⟨g, g, by simpa using ((hasDerivAt_id (0 : ℝ)).const_mul g).const_add u, by simpa using h1, h2⟩

theorem div (hx : TanFin u x) (hy : TanFin v y) (h : v ≠ 0) : TanFin (u / v) (x / y) := by
  obtain ⟨g, hg⟩ := hx.line
  obtain ⟨k, hk⟩ := hy.line
  simpa using of_jvp (hg.div hk (by simpa using h))

theorem mul (hx : TanFin u x) (hy : TanFin v y) : TanFin (u * v) (x * y) := by
  obtain ⟨g, hg⟩ := hx.line
  obtain ⟨k, hk⟩ := hy.line
  simpa using of_jvp (hg.mul hk)

theorem neg_exp (hx : TanFin u x) : TanFin (Real.exp (-u)) (-x).exp := by
  obtain ⟨g, hg⟩ := hx.line
  simpa using of_jvp hg.neg.exp

open Classical in
/-- A power of a base that is zero, with exponent at least one: finite; with exponent above one the
tangent is zero. -/
theorem rpow (hx : TanFin 0 x) (hy : TanFin v y) (h : 1 ≤ v) :
    TanFin 0 (x.rpow y) ∧ (1 < v → (x.rpow y).tangent = fin 0) := by
  obtain ⟨hxv, g, hg⟩ := hx
  obtain ⟨hyv, k, hk⟩ := hy
  have hv : 0 < v := by linarith
  have hr : (fin 0).rpow (fin v) = fin 0 := by rw [rpow_fin_zero hv, Real.zero_rpow hv.ne']
  have e : ((y.tan.map fun g => g * ((if x.val = fin 0 then (1 : Xr) else x.val).log
      * x.val.rpow y.val)).getD (fin 0)) = fin 0 := by
    cases hyt : y.tan with
    | none => rfl
    | some k' =>
      have : k' = fin k := by rw [← hk]; unfold Du.tangent; rw [hyt]; rfl
      simp only [Option.map_some, Option.getD_some]
      rw [if_pos hxv, hxv, hyv, hr, this, lit_one, log_fin one_pos, Real.log_one]
      simp [mul_fin]
  have e2 : ∃ c, ((x.tan.map fun g => g * (if y.val = fin 0 then fin 0
      else y.val * x.val.rpow (y.val - 1))).getD (fin 0)) = fin c ∧ (1 < v → c = 0) := by
    cases hxt : x.tan with
    | none => exact ⟨0, rfl, fun _ => rfl⟩
    | some g' =>
      have hg' : g' = fin g := by rw [← hg]; unfold Du.tangent; rw [hxt]; rfl
      simp only [Option.map_some, Option.getD_some]
      rw [hyv, if_neg (by simpa using hv.ne'), hxv, hg', lit_one, sub_fin]
      rcases h.eq_or_lt with h | h
      · rw [← h, sub_self, show (fin 0).rpow (fin 0) = fin 1 by simp [Xr.rpow]]
        exact ⟨g, by simp [mul_fin], fun h => absurd h (lt_irrefl _)⟩
      · rw [rpow_fin_zero (by linarith), Real.zero_rpow (by linarith)]
        exact ⟨0, by simp [mul_fin], fun _ => rfl⟩
  obtain ⟨c, e2, hc⟩ := e2
  have ht : (x.rpow y).tangent = fin c := by
    change (Du.tadd _ _).getD (fin 0) = _
    rw [Jvp.tadd_getD e2 e, add_zero]
  have hval : (x.rpow y).val = fin 0 := by
    change x.val.rpow y.val = _
    rw [hxv, hyv, hr]
  exact ⟨⟨hval, c, ht⟩, fun h => by rw [ht, hc h]⟩

/-- The value and the tangent of the unnormalised Smail distribution at zero. -/
theorem smail {a b z0 : ℝ} {A B Z : Du} (hx : TanFin 0 x) (hA : TanFin a A) (hB : TanFin b B)
    (hZ : TanFin z0 Z) (h0 : z0 ≠ 0) (ha : 1 < a) (hb : 1 ≤ b) :
    (x.rpow A * (-((x / Z).rpow B)).exp).val = fin 0 ∧
      (x.rpow A * (-((x / Z).rpow B)).exp).tangent = fin 0 := by
  obtain ⟨⟨p1, g, p2⟩, p3⟩ := hx.rpow hA ha.le
  have hq : TanFin 0 (x / Z) := by simpa using hx.div hZ h0
  obtain ⟨q1, k, q2⟩ := (hq.rpow hB hb).1.neg_exp
  constructor
  · change Du.val _ * Du.val _ = _
    rw [p1, q1]; simp
  · refine (Jvp.tadd_tangent (by rw [q1]; simp) (by rw [p1]; simp) (p3 ha) q2
      (c := 0) (d := 0) (by rw [q1]; simp) (by rw [p1]; simp)).trans (by simp)

end TanFin

/-- The unnormalised Smail distribution at an argument that is cut off at zero exactly where it would
become negative: differentiable if the distribution starts more than linearly. -/
theorem hasDerivAt_corner {D A B Z : ℝ → ℝ} {s : ℝ} {D' : ℝ} (hD : HasDerivAt D D' s) (hD0 : D s = 0)
    (hA : ContinuousAt A s) (ha : 1 < A s) (hZ : ∀ᶠ r in nhds s, 0 < Z r) :
    HasDerivAt (fun r => Max.max (D r) 0 ^ A r * Real.exp (-((Max.max (D r) 0 / Z r) ^ B r))) 0 s := by
  have hc : 1 < (1 + A s) / 2 := by linarith
  have hG : HasDerivAt (fun r => |D r| ^ ((1 + A s) / 2)) 0 s := by
    have := (hasDerivAt_abs_rpow (D s) hc).comp s hD
    rw [hD0, mul_zero, zero_mul] at this
    exact this
  rw [hasDerivAt_iff_isLittleO] at hG ⊢
  simp only [hD0, max_self, abs_zero, smul_zero, sub_zero,
    Real.zero_rpow (show (1 + A s) / 2 ≠ 0 by linarith), Real.zero_rpow (show A s ≠ 0 by linarith),
    zero_mul] at hG ⊢
  refine Asymptotics.IsBigO.trans_isLittleO (Asymptotics.IsBigO.of_bound 1 ?_) hG
  have h1 : ∀ᶠ r in nhds s, |D r| < 1 := by
    have : ContinuousAt (fun r => |D r|) s := hD.continuousAt.abs
    exact this.eventually (gt_mem_nhds (by simp [hD0]))
  have h2 : ∀ᶠ r in nhds s, (1 + A s) / 2 < A r := hA.eventually (lt_mem_nhds (by linarith))
  filter_upwards [h1, h2, hZ] with r h1 h2 h3
  have hm0 : 0 ≤ Max.max (D r) 0 := le_max_right _ _
  have hm1 : Max.max (D r) 0 ≤ |D r| := max_le (le_abs_self _) (abs_nonneg _)
  have he : Real.exp (-((Max.max (D r) 0 / Z r) ^ B r)) ≤ 1 := by
    rw [Real.exp_le_one_iff]
    have := Real.rpow_nonneg (div_nonneg hm0 h3.le) (B r)
    linarith
  rw [Real.norm_eq_abs, Real.norm_eq_abs, one_mul, abs_of_nonneg (by positivity),
    abs_of_nonneg (by positivity)]
  calc Max.max (D r) 0 ^ A r * Real.exp (-((Max.max (D r) 0 / Z r) ^ B r))
      ≤ Max.max (D r) 0 ^ A r := mul_le_of_le_one_right (Real.rpow_nonneg hm0 _) he
    _ ≤ |D r| ^ A r := Real.rpow_le_rpow hm0 hm1 (by linarith)
    _ ≤ |D r| ^ ((1 + A s) / 2) := by
      rcases (abs_nonneg (D r)).eq_or_lt with h | h
      · rw [← h, Real.zero_rpow (by linarith), Real.zero_rpow (by linarith)]
      · exact Real.rpow_le_rpow_of_exponent_ge h h1.le h2.le

/-- A distribution whose derivative is exact also where a shift cuts its argument off. -/
def PzCorner (s : ℝ) : NzTree Leaf → Prop
  | .smail a b z0 _ _ => 0 < z0.1 s ∧ 1 < a.1 s ∧ 1 ≤ b.1 s
  | _ => False

/-- Where the derivative of an unnormalised distribution is exact, at an argument `X` with tangent
`x`. -/
def PzPoint (s : ℝ) : NzTree Leaf → (ℝ → ℝ) → Du → Prop
  | .smail a b z0 _ _, X, x => 0 < z0.1 s ∧ (0 < X s ∨ (X =ᶠ[nhds s] fun _ => 0) ∧ 0 < a.1 s ∧ 0 < b.1 s ∧
      (x.tan = none ∨ 1 ≤ a.1 s) ∧ (x.tan = none ∧ z0.2.tan = none ∨ 1 ≤ b.1 s))
  | .delta z0 _ _, X, _ => X s ≠ z0.1 s
  | .kde cat bw _ _, _, _ => bw ≠ 0 ∧ (cat.map fun e => e.2.1 s).sum ≠ 0
  | .shift parent b _ _, X, x =>
    X s ≠ b.1 s ∧ PzPoint s parent (fun r => max (X r - b.1 r) 0) ((x - b.2).max 0) ∨
      X s = b.1 s ∧ PzCorner s parent

theorem jvp_lsum {s : ℝ} (L : List Leaf) (h : ∀ l ∈ L, l.OK s) :
    Jvp (fun r => (L.map fun l => l.1 r).sum) s (Dm.lsum (L.map Prod.snd)) := by
  induction L with
  | nil => exact Jvp.zero s
  | cons l L ih =>
    exact ((h l List.mem_cons_self).add (ih fun q hq => h q (List.mem_cons_of_mem _ hq))).congr'
      fun r => by simp

theorem jvp_kdeKernel {s bw : ℝ} (hbw : bw ≠ 0) {A X : ℝ → ℝ} {a x : Du} (ha : Jvp A s a)
    (hx : Jvp X s x) :
    Jvp (fun r => Nz.kdeKernel bw (A r) (X r)) s (Dm.kdeKernel bw a x) := by
  have h2 : (0 : ℝ) < 2 * Real.pi := by positivity
  exact (((Jvp.one s).div (((Jvp.nat 2 s).mul (Jvp.con Real.pi s)).sqrt h2)
    (Real.sqrt_pos.2 h2).ne').div (Jvp.con bw s) hbw).mul
    ((((ha.sub hx).npow 2).neg.div (((Jvp.con bw s).npow 2).mul (Jvp.nat 2 s))
      (mul_ne_zero (pow_ne_zero 2 hbw) two_ne_zero)).exp)

open Classical in
theorem jvp_pzFn {s : ℝ} (t : NzTree Leaf) (hl : NzLeaves s t) {X : ℝ → ℝ} {x : Du} (hx : Jvp X s x)
    (h : PzPoint s t X x) : Jvp (fun r => (nzAt t r).pzFn (X r)) s (Dm.pzFn (nzDual t) x) := by
  induction t generalizing X x with
  | smail a b z0 g zm =>
    obtain ⟨ha, hb, hz, -⟩ := hl
    obtain ⟨h0, hc⟩ := h
    have hq : Jvp (fun r => X r / z0.1 r) s (x / z0.2) := hx.div hz h0.ne'
    rcases hc with hc | ⟨he, ha0, hb0, h1, h2⟩
    · exact (hx.rpow ha hc).mul (hq.rpow hb (div_pos hc h0)).neg.exp
    · refine (hx.rpow_zero ha he ha0 h1).mul (hq.rpow_zero hb ?_ hb0 ?_).neg.exp
      · filter_upwards [he] with r hr
        rw [hr, zero_div]
      · refine h2.imp_left fun ⟨e1, e2⟩ => ?_
        change Du.tadd (x.tan.map _) (z0.2.tan.map _) = none
        rw [e1, e2]; rfl
  | delta z0 g zm =>
    have hz : Jvp z0.1 s z0.2 := hl.1
    have hne : X s ≠ z0.1 s := h
    have e : Dm.pzFn (nzDual (.delta z0 g zm)) x = 0 := by
      change (if x.val = z0.2.val then (1 : Du) else 0) = 0
      rw [if_neg]
      rw [hx.val, hz.val]
      exact fun h => hne (Xr.fin.inj h)
    rw [e]
    refine (Jvp.zero s).congr ?_
    have hc : ContinuousAt (fun r => X r - z0.1 r) s := (hx.sub hz).contAt
    filter_upwards [hc.eventually_ne (sub_ne_zero.2 hne)] with r hr
    exact if_neg (sub_ne_zero.1 hr)
  | kde cat bw g zm =>
    obtain ⟨hc, -⟩ := hl
    obtain ⟨hbw, hq⟩ := h
    have h1 := jvp_lsum (s := s) (cat.map fun e =>
      ((fun r => Nz.kdeKernel bw (e.1.1 r) (X r) * e.2.1 r, Dm.kdeKernel bw e.1.2 x * e.2.2) : Leaf))
      fun l hl => by
        obtain ⟨e, he, rfl⟩ := List.mem_map.1 hl
        exact (jvp_kdeKernel hbw (hc e he).1 hx).mul (hc e he).2
    have h2 := jvp_lsum (s := s) (cat.map fun e => e.2) fun l hl => by
      obtain ⟨e, he, rfl⟩ := List.mem_map.1 hl
      exact (hc e he).2
    have h3 := h1.div h2 (by simpa [Function.comp_def] using hq)
    have e : Dm.pzFn (nzDual (.kde cat bw g zm)) x
        = Dm.lsum (List.map Prod.snd (cat.map fun e =>
      ((fun r => Nz.kdeKernel bw (e.1.1 r) (X r) * e.2.1 r, Dm.kdeKernel bw e.1.2 x * e.2.2) : Leaf)))
        / Dm.lsum (List.map Prod.snd (cat.map fun e => e.2)) := by
      simp [nzDual, NzTree.map, Dm.pzFn, Function.comp_def]
    rw [e]
    refine h3.congr' fun r => ?_
    simp [nzAt, NzTree.map, NzTree.real, Nz.pzFn, Function.comp_def]
  | shift parent b g zm ih =>
    obtain ⟨hp, hb, -⟩ := hl
    have hd := hx.sub hb
    rcases h with ⟨hne, hp2⟩ | ⟨he, hc⟩
    · exact ih hp (hd.max (Jvp.zero s) (sub_ne_zero.2 hne)) hp2
    · cases parent with
      | smail a c z0 g' zm' =>
        obtain ⟨h0, ha1, hc1⟩ := hc
        obtain ⟨ha, hc', hz, -⟩ := hp
        have hD0 : X s - b.1 s = 0 := sub_eq_zero.2 he
        have hm : TanFin 0 ((x - b.2).max 0) := by
          obtain ⟨d, hd1, hd2, hd3⟩ := hd
          have hv : (x - b.2).val = fin 0 := by rw [hd2]; simp [hD0]
          refine ⟨?_, d * (1 / 2), ?_⟩
          · change Xr.max (x - b.2).val (fin 0) = _
            rw [hv]; simp
          · have hb : Du.balancedEq (x - b.2).val (Xr.max (x - b.2).val (fin 0)) (fin 0)
                = fin (1 / 2) := by
              rw [hv, max_fin, max_self]; exact Jvp.balanced_tie 0
            refine (Jvp.tadd_getD (a := d * (1 / 2)) (b := 0) ?_ rfl).trans (by rw [add_zero])
            change ((x - b.2).tan.map fun g => g * Du.balancedEq (x - b.2).val
              (Xr.max (x - b.2).val (fin 0)) (fin 0)).getD (fin 0) = _
            rw [hb, Jvp.map_getD (by simp)]
            change (x - b.2).tangent * _ = _
            rw [hd3, mul_fin]
        obtain ⟨k1, k2⟩ := hm.smail (.of_jvp ha) (.of_jvp hc') (.of_jvp hz) h0.ne' ha1 hc1
        obtain ⟨d, hd1, -⟩ := hd
        refine ⟨0, hasDerivAt_corner (B := c.1) (Z := z0.1) hd1 hD0 ha.contAt ha1
          (hz.contAt.eventually (lt_mem_nhds h0)), ?_, k2⟩
        refine k1.trans ?_
        have : (fun r => (nzAt (.shift (.smail a c z0 g' zm') b g zm) r).pzFn (X r)) s
            = Max.max (X s - b.1 s) 0 ^ a.1 s
              * Real.exp (-((Max.max (X s - b.1 s) 0 / z0.1 s) ^ c.1 s)) := rfl
        rw [this, hD0, max_self, Real.zero_rpow (by linarith), zero_mul]
      | delta => exact hc.elim
      | kde => exact hc.elim
      | shift => exact hc.elim

/-! ## Constants -/

theorem con_add (x y : ℝ) : Du.con x + Du.con y = Du.con (x + y) := rfl
theorem con_sub (x y : ℝ) : Du.con x - Du.con y = Du.con (x - y) := by
  change Du.mk (fin x - fin y) none = _
  rw [sub_fin]; rfl
theorem con_mul (x y : ℝ) : Du.con x * Du.con y = Du.con (x * y) := rfl
theorem con_div (x : ℝ) {y : ℝ} (h : y ≠ 0) : Du.con x / Du.con y = Du.con (x / y) := by
  change Du.mk (fin x / fin y) none = _
  rw [div_fin _ h]; rfl

theorem con_linspace (a b : ℝ) {n : ℕ} (hn : 2 ≤ n) (i : ℕ) :
    Dm.linspace (Du.con a) (Du.con b) n i = Du.con (linspace a b n i) := by
  have : (n : ℝ) - 1 ≠ 0 := by
    have : (2 : ℝ) ≤ n := by exact_mod_cast hn
    linarith
  unfold Dm.linspace linspace
  rw [con_sub, show (1 : Du) = Du.con 1 from rfl, con_sub, con_div _ this, con_mul, con_add]

/-! ## Normalised distributions -/

/-- The derivative of the unnormalised distribution is exact at a fixed redshift. -/
def PzGood (s : ℝ) (t : NzTree Leaf) (z : ℝ) : Prop := PzPoint s t (fun _ => z) (Du.con z)

/-- The derivative of the normalisation is exact. -/
structure NormOK (s : ℝ) (t : NzTree Leaf) : Prop where
  leaves : NzLeaves s t
  nodes : ∀ i ≤ 256, PzGood s t (linspace 0 t.zmax 257 i)
  norm : (nzAt t s).computedNorm ≠ 0

theorem nzAt_zmax (t : NzTree Leaf) (r : ℝ) : (nzAt t r).zmax = t.zmax := by cases t <;> rfl
theorem nzDual_zmax (t : NzTree Leaf) : (nzDual t).zmax = t.zmax := by cases t <;> rfl
theorem nzAt_isDelta (t : NzTree Leaf) (r : ℝ) : (nzAt t r).isDelta = t.isDelta := by cases t <;> rfl
theorem nzDual_isDelta (t : NzTree Leaf) : (nzDual t).isDelta = t.isDelta := by cases t <;> rfl

theorem jvp_computedNorm {s : ℝ} {t : NzTree Leaf} (hl : NzLeaves s t)
    (hn : ∀ i ≤ 256, PzGood s t (linspace 0 t.zmax 257 i)) :
    Jvp (fun r => (nzAt t r).computedNorm) s (Dm.computedNorm (nzDual t)) := by
  unfold Nz.computedNorm Dm.computedNorm
  simp only [nzAt_zmax, nzDual_zmax]
  refine Jvp.simps (f := fun r t' => (nzAt t r).pzFn t') (Jvp.zero s) (Jvp.con _ s) (by norm_num)
    fun i hi => ?_
  rw [show (0 : Du) = Du.con 0 from rfl, con_linspace _ _ (by norm_num)]
  exact jvp_pzFn t hl (Jvp.con _ s) (hn i hi)

theorem jvp_nzEval {s : ℝ} {t : NzTree Leaf} (h : NormOK s t) (hd : t.isDelta = false) {z : ℝ}
    (hz : PzGood s t z) :
    Jvp (fun r => (nzAt t r).eval z) s (Dm.nzEval (nzDual t) (Du.con z)) := by
  unfold Dm.nzEval
  rw [nzDual_isDelta, hd]
  refine ((jvp_pzFn t h.leaves (Jvp.con z s) hz).div (jvp_computedNorm h.leaves h.nodes) h.norm).congr'
    fun r => ?_
  rw [Nz.eval_extended (by rw [nzAt_isDelta, hd])]

/-! ## NaN -/

theorem sum_tan_nan {n : ℕ} {f : ℕ → Du} {i : ℕ} (hi : i < n) (h : (f i).tan = some nan) :
    (Du.sum n f).tan = some nan := by
  induction n with
  | zero => omega
  | succ n ih =>
    change Du.tadd (Du.sum n f).tan (f n).tan = _
    rcases (Nat.lt_succ_iff_lt_or_eq.1 hi) with hi | rfl
    · rw [ih hi]; cases (f n).tan <;> simp [Du.tadd]
    · rw [h]; cases (Du.sum i f).tan <;> simp [Du.tadd]

theorem tadd_nan_left (t : Option Xr) : Du.tadd (some nan) t = some nan := by cases t <;> simp [Du.tadd]
theorem tadd_nan_right (t : Option Xr) : Du.tadd t (some nan) = some nan := by cases t <;> simp [Du.tadd]

theorem add_tan_nan_left {x : Du} (y : Du) (h : x.tan = some nan) : (x + y).tan = some nan := by
  change Du.tadd x.tan y.tan = _; rw [h, tadd_nan_left]
theorem mul_tan_nan_right (x : Du) {y : Du} (h : y.tan = some nan) : (x * y).tan = some nan := by
  change Du.tadd _ (y.tan.map _) = _; rw [h]
  simp only [Option.map_some, mul_nan]; exact tadd_nan_right _
theorem mul_tan_nan_left {x : Du} (y : Du) (h : x.tan = some nan) : (x * y).tan = some nan := by
  change Du.tadd (x.tan.map _) _ = _; rw [h]
  simp only [Option.map_some, nan_mul]; exact tadd_nan_left _
theorem div_tan_nan_right (x : Du) {y : Du} (h : y.tan = some nan) : (x / y).tan = some nan := by
  change Du.tadd _ (y.tan.map _) = _; rw [h]
  simp only [Option.map_some, neg_nan, nan_mul]; exact tadd_nan_right _
theorem div_tan_nan_left {x : Du} (y : Du) (h : x.tan = some nan) : (x / y).tan = some nan := by
  change Du.tadd (x.tan.map _) _ = _; rw [h]
  simp only [Option.map_some, nan_div]; exact tadd_nan_left _

/-- A distribution whose unnormalised value at redshift zero has tangent NaN has tangent NaN at every
redshift. -/
theorem nzEval_tan_nan {d : NzTree Du} (hd : d.isDelta = false)
    (h : (Dm.pzFn d (Du.con (linspace 0 d.zmax 257 0))).tan = some nan) (x : Du) :
    (Dm.nzEval d x).tan = some nan := by
  unfold Dm.nzEval
  rw [hd]
  refine div_tan_nan_right _ ?_
  unfold Dm.computedNorm Dm.simps
  refine mul_tan_nan_right _ (sum_tan_nan (i := 0) (by norm_num) ?_)
  refine add_tan_nan_left _ (add_tan_nan_left _ ?_)
  change (Dm.pzFn d (Dm.linspace (Du.con 0) (Du.con d.zmax) 257 0)).tan = _
  rw [con_linspace _ _ (by norm_num)]
  exact h

end JaxCosmo.Spec
