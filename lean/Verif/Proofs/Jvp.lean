import Verif.Spec.Jvp
import Verif.Proofs.Xr
import Mathlib.Analysis.SpecialFunctions.Pow.Deriv
import Mathlib.Analysis.SpecialFunctions.Sqrt
import Mathlib.Analysis.SpecialFunctions.Trigonometric.Deriv
import Mathlib.Analysis.SpecialFunctions.Trigonometric.DerivHyp
import Mathlib.Analysis.Calculus.Deriv.Abs

/-! # The differentiation rules are sound where the operations are smooth -/

namespace JaxCosmo.Spec.Jvp
open Xr

variable {F G : ℝ → ℝ} {s : ℝ} {x y : Du}

theorem map_getD {f : Xr → Xr} (hf : f (fin 0) = fin 0) (t : Option Xr) :
    (t.map f).getD (fin 0) = f (t.getD (fin 0)) := by cases t <;> simp [hf]

theorem tadd_getD {s t : Option Xr} {a b : ℝ} (hs : s.getD (fin 0) = fin a)
    (ht : t.getD (fin 0) = fin b) : (Du.tadd s t).getD (fin 0) = fin (a + b) := by
  cases s <;> cases t <;> simp_all [Du.tadd]

theorem tadd_tangent {x y : Option Xr} {f g : Xr → Xr} {a b c d : ℝ} (hf0 : f (fin 0) = fin 0)
    (hg0 : g (fin 0) = fin 0) (hx : x.getD (fin 0) = fin a) (hy : y.getD (fin 0) = fin b)
    (hf : f (fin a) = fin c) (hg : g (fin b) = fin d) :
    (Du.tadd (x.map f) (y.map g)).getD (fin 0) = fin (c + d) :=
  tadd_getD (by rw [map_getD hf0, hx, hf]) (by rw [map_getD hg0, hy, hg])

theorem con (c s : ℝ) : Jvp (fun _ => c) s (Du.con c) := ⟨0, hasDerivAt_const s c, rfl, rfl⟩

theorem zero (s : ℝ) : Jvp (fun _ => 0) s 0 := con 0 s
theorem one (s : ℝ) : Jvp (fun _ => 1) s 1 := con 1 s
theorem nat (n : ℕ) [n.AtLeastTwo] (s : ℝ) : Jvp (fun _ => ofNat(n)) s ofNat(n) := con _ s
theorem sci (m : ℕ) (b : Bool) (e : ℕ) (s : ℝ) :
    Jvp (fun _ => (OfScientific.ofScientific m b e : ℝ)) s (OfScientific.ofScientific m b e) := con _ s

theorem congr (h : Jvp F s x) (e : G =ᶠ[nhds s] F) : Jvp G s x := by
  obtain ⟨F', hF, hv, ht⟩ := h
  exact ⟨F', hF.congr_of_eventuallyEq e, by rw [hv, e.eq_of_nhds], ht⟩

theorem congr' (h : Jvp F s x) (e : ∀ r, G r = F r) : Jvp G s x := by
  rwa [show G = F from funext e]

/-- The tangent and the value of a sound pair. -/
theorem seed {v : ℝ} (h : HasDerivAt F v s) : Jvp F s ⟨fin (F s), some (fin v)⟩ := ⟨v, h, rfl, rfl⟩

theorem neg (hx : Jvp F s x) : Jvp (fun r => -F r) s (-x) := by
  obtain ⟨F', hF, hv, ht⟩ := hx
  refine ⟨-F', hF.neg, ?_, ?_⟩
  · change -x.val = _; rw [hv]; rfl
  · change (x.tan.map fun g => -g).getD (fin 0) = _
    rw [map_getD (by simp), show x.tan.getD (fin 0) = fin F' from ht]; rfl

theorem add (hx : Jvp F s x) (hy : Jvp G s y) : Jvp (fun r => F r + G r) s (x + y) := by
  obtain ⟨F', hF, hv, ht⟩ := hx
  obtain ⟨G', hG, hw, hu⟩ := hy
  refine ⟨F' + G', hF.add hG, ?_, tadd_getD ht hu⟩
  change x.val + y.val = _
  rw [hv, hw]; rfl

theorem sub (hx : Jvp F s x) (hy : Jvp G s y) : Jvp (fun r => F r - G r) s (x - y) := by
  obtain ⟨F', hF, hv, ht⟩ := hx
  obtain ⟨G', hG, hw, hu⟩ := hy
  refine ⟨F' - G', hF.sub hG, ?_, ?_⟩
  · change x.val - y.val = _; rw [hv, hw, sub_fin]
  · change (Du.tadd x.tan (y.tan.map fun g => -g)).getD (fin 0) = _
    rw [tadd_getD ht (b := -G') (by rw [map_getD (by simp), show y.tan.getD (fin 0) = _ from hu]; rfl),
      sub_eq_add_neg]

theorem mul (hx : Jvp F s x) (hy : Jvp G s y) : Jvp (fun r => F r * G r) s (x * y) := by
  obtain ⟨F', hF, hv, ht⟩ := hx
  obtain ⟨G', hG, hw, hu⟩ := hy
  refine ⟨_, hF.mul hG, ?_, ?_⟩
  · change x.val * y.val = _; rw [hv, hw]; rfl
  · exact tadd_tangent (by simp [hw]) (by simp [hv]) ht hu (by simp [hw]) (by simp [hv])

theorem smul (hx : Jvp F s x) (hy : Jvp G s y) : Jvp (fun r => F r * G r) s (x • y) := mul hx hy

theorem div (hx : Jvp F s x) (hy : Jvp G s y) (h : G s ≠ 0) :
    Jvp (fun r => F r / G r) s (x / y) := by
  obtain ⟨F', hF, hv, ht⟩ := hx
  obtain ⟨G', hG, hw, hu⟩ := hy
  refine ⟨_, hF.div hG h, ?_, ?_⟩
  · change x.val / y.val = _; rw [hv, hw, div_fin _ h]
  · have := tadd_tangent (x := x.tan) (y := y.tan) (f := fun g => g / y.val)
      (g := fun g => -g * x.val * ninvpow y.val 2) (c := F' / G s) (d := -G' * F s * G s ^ (-((2 : ℕ) : ℤ)))
      (by simp only [hw, div_fin _ h, zero_div])
      (by simp only [hv, hw, ninvpow_fin h, neg_fin, mul_fin]; simp) ht hu
      (by simp only [hw, div_fin _ h])
      (by simp only [hv, hw, ninvpow_fin h, neg_fin, mul_fin])
    refine this.trans ?_
    congr 1
    rw [zpow_neg, zpow_natCast]
    field_simp
    ring

theorem div_con (hx : Jvp F s x) {c : ℝ} (hy : Jvp (fun _ => c) s y) (h : c ≠ 0) :
    Jvp (fun r => F r / c) s (x / y) := div hx hy h

theorem npow (hx : Jvp F s x) (n : ℕ) : Jvp (fun r => F r ^ n) s (x ^ n) := by
  obtain ⟨F', hF, hv, ht⟩ := hx
  refine ⟨_, hF.pow n, ?_, ?_⟩
  · change x.val ^ n = _; rw [hv, npow_fin]
  · change (x.tan.map _).getD (fin 0) = _
    rw [map_getD, show x.tan.getD (fin 0) = fin F' from ht]
    · by_cases h : n = 0
      · simp [h]
      · rw [if_neg h, hv]; simp only [npow_fin, mul_fin]; congr 1; ring
    · by_cases h : n = 0
      · simp [h]
      · rw [if_neg h, hv]; simp

theorem ninvpow (hx : Jvp F s x) (n : ℕ) (h0 : F s ≠ 0) :
    Jvp (fun r => F r ^ (-(n : ℤ))) s (x.ninvpow n) := by
  obtain ⟨F', hF, hv, ht⟩ := hx
  refine ⟨_, (hasDerivAt_zpow (-(n : ℤ)) (F s) (Or.inl h0)).comp s hF, ?_, ?_⟩
  · change x.val.ninvpow n = _; rw [hv, ninvpow_fin h0]
  · change (x.tan.map _).getD (fin 0) = _
    rw [map_getD, show x.tan.getD (fin 0) = fin F' from ht]
    · by_cases h : n = 0
      · simp [h]
      · rw [if_neg h, hv]
        simp only [ninvpow_fin h0, mul_fin]
        rw [show -(n : ℤ) - 1 = -((n + 1 : ℕ) : ℤ) by push_cast; ring]
        congr 1; push_cast; ring
    · by_cases h : n = 0
      · simp [h]
      · rw [if_neg h, hv]
        simp only [ninvpow_fin h0, mul_fin, zero_mul]

theorem ninvpow3 (hx : Jvp F s x) (h0 : F s ≠ 0) : Jvp (fun r => F r ^ (-3 : ℤ)) s (x.ninvpow 3) :=
  ninvpow hx 3 h0
theorem ninvpow2 (hx : Jvp F s x) (h0 : F s ≠ 0) : Jvp (fun r => F r ^ (-2 : ℤ)) s (x.ninvpow 2) :=
  ninvpow hx 2 h0

open Classical in
theorem rpow (hx : Jvp F s x) (hy : Jvp G s y) (h : 0 < F s) :
    Jvp (fun r => F r ^ G r) s (x.rpow y) := by
  obtain ⟨F', hF, hv, ht⟩ := hx
  obtain ⟨G', hG, hw, hu⟩ := hy
  refine ⟨_, hF.rpow hG h, ?_, ?_⟩
  · change x.val.rpow y.val = _; rw [hv, hw, rpow_fin h]
  · have hne : ¬ (fin (F s) = fin 0) := by simpa using h.ne'
    have e1 : (if y.val = fin 0 then fin 0 else y.val * x.val.rpow (y.val - 1))
        = fin (G s * F s ^ (G s - 1)) := by
      rw [hv, hw, lit_one, sub_fin, rpow_fin h, mul_fin]
      split_ifs with h0
      · simp at h0; simp [h0]
      · rfl
    have e2 : (if x.val = fin 0 then (1 : Xr) else x.val).log * x.val.rpow y.val
        = fin (Real.log (F s) * F s ^ G s) := by
      rw [hv, hw, if_neg hne, rpow_fin h, log_fin h, mul_fin]
    have := tadd_tangent (x := x.tan) (y := y.tan)
      (f := fun g => g * (if y.val = fin 0 then fin 0 else y.val * x.val.rpow (y.val - 1)))
      (g := fun g => g * ((if x.val = fin 0 then (1 : Xr) else x.val).log * x.val.rpow y.val))
      (by simp only [e1]; simp) (by simp only [e2]; simp) ht hu
      (by simp only [e1]; rfl) (by simp only [e2]; rfl)
    refine Eq.trans (by unfold Du.tangent Du.rpow; convert this) ?_
    congr 1; ring

theorem exp (hx : Jvp F s x) : Jvp (fun r => Real.exp (F r)) s x.exp := by
  obtain ⟨F', hF, hv, ht⟩ := hx
  refine ⟨_, hF.exp, ?_, ?_⟩
  · change x.val.exp = _; rw [hv]; rfl
  · change (x.tan.map _).getD (fin 0) = _
    rw [map_getD (by simp [hv]), show x.tan.getD (fin 0) = fin F' from ht, hv]
    simp [mul_comm]

theorem log (hx : Jvp F s x) (h : 0 < F s) : Jvp (fun r => Real.log (F r)) s x.log := by
  obtain ⟨F', hF, hv, ht⟩ := hx
  refine ⟨_, hF.log h.ne', ?_, ?_⟩
  · change x.val.log = _; rw [hv, log_fin h]
  · change (x.tan.map _).getD (fin 0) = _
    rw [map_getD (by simp [hv, div_fin _ h.ne']), show x.tan.getD (fin 0) = fin F' from ht, hv,
      div_fin _ h.ne']

theorem sqrt (hx : Jvp F s x) (h : 0 < F s) : Jvp (fun r => √(F r)) s x.sqrt := by
  obtain ⟨F', hF, hv, ht⟩ := hx
  have h2 : √(F s) ≠ 0 := (Real.sqrt_pos.2 h).ne'
  refine ⟨_, hF.sqrt h.ne', ?_, ?_⟩
  · change x.val.sqrt = _; rw [hv, sqrt_fin h.le]
  · change (x.tan.map _).getD (fin 0) = _
    have e : (0.5 : Xr) / x.val.sqrt = fin (0.5 / √(F s)) := by
      rw [hv, sqrt_fin h.le, lit_sci, div_fin _ h2]
    rw [map_getD (by simp [e]), show x.tan.getD (fin 0) = fin F' from ht, e, mul_fin]
    congr 1
    field_simp
    norm_num
    ring

theorem sin (hx : Jvp F s x) : Jvp (fun r => Real.sin (F r)) s x.sin := by
  obtain ⟨F', hF, hv, ht⟩ := hx
  refine ⟨_, hF.sin, ?_, ?_⟩
  · change x.val.sin = _; rw [hv]; rfl
  · change (x.tan.map _).getD (fin 0) = _
    rw [map_getD (by simp [hv]), show x.tan.getD (fin 0) = fin F' from ht, hv]
    simp [mul_comm]

theorem cos (hx : Jvp F s x) : Jvp (fun r => Real.cos (F r)) s x.cos := by
  obtain ⟨F', hF, hv, ht⟩ := hx
  refine ⟨_, hF.cos, ?_, ?_⟩
  · change x.val.cos = _; rw [hv]; rfl
  · change (x.tan.map _).getD (fin 0) = _
    rw [map_getD (by simp [hv]), show x.tan.getD (fin 0) = fin F' from ht, hv]
    simp [mul_comm]

theorem sinh (hx : Jvp F s x) : Jvp (fun r => Real.sinh (F r)) s x.sinh := by
  obtain ⟨F', hF, hv, ht⟩ := hx
  refine ⟨_, hF.sinh, ?_, ?_⟩
  · change x.val.sinh = _; rw [hv]; rfl
  · change (x.tan.map _).getD (fin 0) = _
    rw [map_getD (by simp [hv, Du.xcosh]), show x.tan.getD (fin 0) = fin F' from ht, hv]
    simp [Du.xcosh, mul_comm]

theorem abs (hx : Jvp F s x) (h : F s ≠ 0) : Jvp (fun r => |F r|) s x.abs := by
  obtain ⟨F', hF, hv, ht⟩ := hx
  refine ⟨_, (hasDerivAt_abs h).comp s hF, ?_, ?_⟩
  · change x.val.abs = _; rw [hv]; rfl
  · change (x.tan.map _).getD (fin 0) = _
    rw [map_getD (by simp [hv, Du.xsign]), show x.tan.getD (fin 0) = fin F' from ht, hv]
    simp [Du.xsign, mul_comm]

theorem balanced_self {a b : ℝ} (h : a ≠ b) : Du.balancedEq (fin a) (fin a) (fin b) = fin 1 := by
  unfold Du.balancedEq
  rw [if_pos ⟨rfl, by simp⟩, if_neg (by simpa using h.symm), div_fin _ one_ne_zero, div_one]

theorem balanced_other {a b : ℝ} (h : a ≠ b) : Du.balancedEq (fin b) (fin a) (fin a) = fin 0 := by
  unfold Du.balancedEq
  rw [if_neg (by simpa using h.symm), if_pos ⟨rfl, by simp⟩, div_fin _ two_ne_zero, zero_div]

theorem balanced_tie (a : ℝ) : Du.balancedEq (fin a) (fin a) (fin a) = fin (1 / 2) := by
  unfold Du.balancedEq
  rw [if_pos ⟨rfl, by simp⟩, if_pos ⟨rfl, by simp⟩, div_fin _ two_ne_zero]

theorem max (hx : Jvp F s x) (hy : Jvp G s y) (h : F s ≠ G s) :
    Jvp (fun r => Max.max (F r) (G r)) s (x.max y) := by
  obtain ⟨F', hF, hv, ht⟩ := hx
  obtain ⟨G', hG, hw, hu⟩ := hy
  rcases h.lt_or_gt with h | h
  · refine ⟨G', hG.congr_of_eventuallyEq ?_, ?_, ?_⟩
    · filter_upwards [hF.continuousAt.eventually_lt hG.continuousAt h] with r hr
      exact max_eq_right hr.le
    · change x.val.max y.val = _; rw [hv, hw]; rfl
    · refine (tadd_tangent (c := 0) (d := G') ?_ ?_ ht hu ?_ ?_).trans (by simp) <;>
      simp [hv, hw, max_eq_right h.le, balanced_other h.ne', balanced_self h.ne']
  · refine ⟨F', hF.congr_of_eventuallyEq ?_, ?_, ?_⟩
    · filter_upwards [hG.continuousAt.eventually_lt hF.continuousAt h] with r hr
      exact max_eq_left hr.le
    · change x.val.max y.val = _; rw [hv, hw]; rfl
    · refine (tadd_tangent (c := F') (d := 0) ?_ ?_ ht hu ?_ ?_).trans (by simp) <;>
      simp [hv, hw, max_eq_left h.le, balanced_other h.ne', balanced_self h.ne']

/-- At a tie of two functions with the same derivative the rule is exact as well. -/
theorem max_same {x y : Du} (hx : Jvp F s x) (hy : Jvp F s y) : Jvp F s (x.max y) := by
  obtain ⟨F', hF, hv, ht⟩ := hx
  obtain ⟨G', hG, hw, hu⟩ := hy
  obtain rfl := hF.unique hG
  refine ⟨F', hF, ?_, ?_⟩
  · change x.val.max y.val = _; rw [hv, hw]; simp
  · refine (tadd_tangent (c := F' * (1 / 2)) (d := F' * (1 / 2)) ?_ ?_ ht hu ?_ ?_).trans (by congr 1; ring) <;>
    simp [hv, hw, balanced_tie]

theorem min (hx : Jvp F s x) (hy : Jvp G s y) (h : F s ≠ G s) :
    Jvp (fun r => Min.min (F r) (G r)) s (x.min y) := by
  obtain ⟨F', hF, hv, ht⟩ := hx
  obtain ⟨G', hG, hw, hu⟩ := hy
  rcases h.lt_or_gt with h | h
  · refine ⟨F', hF.congr_of_eventuallyEq ?_, ?_, ?_⟩
    · filter_upwards [hF.continuousAt.eventually_lt hG.continuousAt h] with r hr
      exact min_eq_left hr.le
    · change x.val.min y.val = _; rw [hv, hw]; rfl
    · refine (tadd_tangent (c := F') (d := 0) ?_ ?_ ht hu ?_ ?_).trans (by simp) <;>
      simp [hv, hw, min_eq_left h.le, balanced_other h.ne, balanced_self h.ne]
  · refine ⟨G', hG.congr_of_eventuallyEq ?_, ?_, ?_⟩
    · filter_upwards [hG.continuousAt.eventually_lt hF.continuousAt h] with r hr
      exact min_eq_right hr.le
    · change x.val.min y.val = _; rw [hv, hw]; rfl
    · refine (tadd_tangent (c := 0) (d := G') ?_ ?_ ht hu ?_ ?_).trans (by simp) <;>
      simp [hv, hw, min_eq_right h.le, balanced_other h.ne, balanced_self h.ne]

theorem min_same {x y : Du} (hx : Jvp F s x) (hy : Jvp F s y) : Jvp F s (x.min y) := by
  obtain ⟨F', hF, hv, ht⟩ := hx
  obtain ⟨G', hG, hw, hu⟩ := hy
  obtain rfl := hF.unique hG
  refine ⟨F', hF, ?_, ?_⟩
  · change x.val.min y.val = _; rw [hv, hw]; simp
  · refine (tadd_tangent (c := F' * (1 / 2)) (d := F' * (1 / 2)) ?_ ?_ ht hu ?_ ?_).trans (by congr 1; ring) <;>
    simp [hv, hw, balanced_tie]

theorem sum {f : ℕ → ℝ → ℝ} {d : ℕ → Du} {n : ℕ} (h : ∀ i < n, Jvp (f i) s (d i)) :
    Jvp (fun r => ∑ i ∈ Finset.range n, f i r) s (Du.sum n d) := by
  induction n with
  | zero => exact (con 0 s).congr' (by simp)
  | succ n ih =>
    exact ((ih fun i hi => h i (by omega)).add (h n (by omega))).congr'
      fun r => Finset.sum_range_succ _ _

theorem sinc (hx : Jvp F s x) (h : F s ≠ 0) :
    Jvp (fun r => if F r = 0 then 1 else Real.sin (Real.pi * F r) / (Real.pi * F r)) s x.sinc := by
  have hy := (con Real.pi s).mul hx
  have hne : Real.pi * F s ≠ 0 := mul_ne_zero Real.pi_ne_zero h
  have hq := hy.sin.div hy hne
  have hev : (fun r => if F r = 0 then 1 else Real.sin (Real.pi * F r) / (Real.pi * F r))
      =ᶠ[nhds s] fun r => Real.sin (Real.pi * F r) / (Real.pi * F r) := by
    obtain ⟨F', hF, _⟩ := hx
    filter_upwards [hF.continuousAt.eventually_ne h] with r hr
    exact if_neg hr
  refine congr ?_ hev
  have hc : ¬ x.val = fin 0 := by
    obtain ⟨F', hF, hv, _⟩ := hx
    rw [hv]; simpa using h
  have hsel : ∀ a b : Du, Jvp F s b → (Du.sel (x.val = fin 0) a b).val = b.val ∧
      (Du.sel (x.val = fin 0) a b).tangent = b.tangent := by
    intro a b _
    unfold Du.sel Du.tangent
    refine ⟨if_neg hc, ?_⟩
    rcases a with ⟨_, _ | _⟩ <;> rcases b with ⟨_, _ | _⟩ <;> simp [hc]
  have sel_jvp : ∀ {H : ℝ → ℝ} (a b : Du), Jvp H s b → Jvp H s (Du.sel (x.val = fin 0) a b) := by
    rintro H a b ⟨H', hH, hv, ht⟩
    refine ⟨H', hH, ?_, ?_⟩
    · unfold Du.sel; rw [if_neg hc, hv]
    · rw [← ht]
      unfold Du.sel Du.tangent
      rcases a with ⟨_, _ | _⟩ <;> rcases b with ⟨_, _ | _⟩ <;> simp [hc]
  have hs := sel_jvp 1 _ hy
  exact sel_jvp _ _ (hs.sin.div hs hne)

/-- `jnp.where` with a true condition: only the chosen argument matters. -/
theorem sel_pos {c : Prop} (hc : c) {x y : Du} (hx : Jvp F s x) : Jvp F s (Du.sel c x y) := by
  obtain ⟨F', hF, hv, ht⟩ := hx
  refine ⟨F', hF, ?_, ?_⟩
  · unfold Du.sel; rw [if_pos hc, hv]
  · unfold Du.tangent Du.sel at *
    cases hxt : x.tan <;> cases hyt : y.tan <;> simp_all

theorem sel_neg {c : Prop} (hc : ¬ c) {x y : Du} (hy : Jvp F s y) : Jvp F s (Du.sel c x y) := by
  obtain ⟨F', hF, hv, ht⟩ := hy
  refine ⟨F', hF, ?_, ?_⟩
  · unfold Du.sel; rw [if_neg hc, hv]
  · unfold Du.tangent Du.sel at *
    cases hxt : x.tan <;> cases hyt : y.tan <;> simp_all

end JaxCosmo.Spec.Jvp
