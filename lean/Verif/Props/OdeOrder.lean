import Verif.Props.Ode
import Verif.Proofs.Oh
import Verif.Proofs.Simps
import Verif.Spec.InitialValue
import Mathlib.Analysis.Calculus.IteratedDeriv.Lemmas
import Mathlib.Analysis.SpecialFunctions.ExpDeriv
import Mathlib.Analysis.Calculus.ContDiff.Operations

/-! # C89: `odeint` converges at fourth order -/

namespace JaxCosmo
open Spec
variable {Y : Type*} [NormedAddCommGroup Y] [NormedSpace ℝ Y]

section Local
variable {a b M K B : ℝ} {g : ℕ → ℝ → Y} {f : Y → ℝ → Y} {D : ℝ → Y →L[ℝ] Y}

theorem win_left {q : ℝ × ℝ} (hq : q ∈ Win a b) : q.1 ∈ Set.Icc a b :=
  ⟨hq.1, by linarith [hq.2.1, hq.2.2]⟩

theorem win_mid {q : ℝ × ℝ} (hq : q ∈ Win a b) : q.1 + q.2 / 2 ∈ Set.Icc a b :=
  ⟨by linarith [hq.1, hq.2.1], by linarith [hq.2.1, hq.2.2]⟩

theorem win_right {q : ℝ × ℝ} (hq : q ∈ Win a b) : q.1 + q.2 ∈ Set.Icc a b :=
  ⟨by linarith [hq.1, hq.2.1], hq.2.2⟩

/-- Taylor expansion about the middle of the step, towards either end. -/
theorem taylor_mid (n : ℕ) (hd : ∀ j < n, ∀ t ∈ Set.Icc a b,
      HasDerivWithinAt (g j) (g (j + 1) t) (Set.Icc a b) t)
    (hM : ∀ t ∈ Set.Icc a b, ‖g n t‖ ≤ M) {σ : ℝ × ℝ → ℝ} (c : ℝ) (hc : |c| ≤ 1)
    (hσ : ∀ q ∈ Win a b, σ q ∈ Set.Icc a b) (hσc : ∀ q, σ q - (q.1 + q.2 / 2) = c * q.2) :
    Oh a b (fun q => g 0 (σ q)
      - ∑ j ∈ Finset.range n, ((c * q.2) ^ j / (j.factorial : ℝ)) • g j (q.1 + q.2 / 2)) n := by
  refine ⟨|M|, abs_nonneg M, fun q hq => ?_⟩
  have h := taylor_bound (convex_Icc a b) n hd hM _ (win_mid hq) _ (hσ q hq)
  rw [hσc] at h
  refine h.trans ?_
  have h2 : |c * q.2| ≤ q.2 := by
    rw [abs_mul, abs_of_nonneg hq.2.1]
    exact mul_le_of_le_one_left hq.2.1 hc
  exact mul_le_mul (le_abs_self M) (pow_le_pow_left₀ (abs_nonneg _) h2 n) (by positivity)
    (abs_nonneg M)

theorem oh_chain {j : ℕ} (hM : ∀ t ∈ Set.Icc a b, ‖g j t‖ ≤ M) :
    Oh a b (fun q => g j (q.1 + q.2 / 2)) 0 := oh_of_bound fun _ hq => hM _ (win_mid hq)

/-- A stage evaluated near the exact solution, up to fourth order. -/
theorem stage (hquad : ∀ s ∈ Set.Icc a b, ∀ u, ‖f (g 0 s + u) s - g 1 s - D s u‖ ≤ B * ‖u‖ ^ 2)
    (hD : ∀ s ∈ Set.Icc a b, ‖D s‖ ≤ K) {σ : ℝ × ℝ → ℝ} (hσ : ∀ q ∈ Win a b, σ q ∈ Set.Icc a b)
    {U V : ℝ × ℝ → Y} (hUV : Oh a b (fun q => U q - V q) 4) (hV : Oh a b V 2) :
    Oh a b (fun q => f (g 0 (σ q) + U q) (σ q) - g 1 (σ q) - D (σ q) (V q)) 4 := by
  have hU : Oh a b U 2 := ((hUV.mono (by norm_num)).add hV).congr fun q _ => by module
  have h1 : Oh a b (fun q => f (g 0 (σ q) + U q) (σ q) - g 1 (σ q) - D (σ q) (U q)) 4 := by
    obtain ⟨C, h0, h⟩ := hU
    refine ⟨|B| * C ^ 2, by positivity, fun q hq => (hquad _ (hσ q hq) _).trans ?_⟩
    calc B * ‖U q‖ ^ 2 ≤ |B| * (C * q.2 ^ 2) ^ 2 :=
          mul_le_mul (le_abs_self B) (pow_le_pow_left₀ (norm_nonneg _) (h q hq) 2) (by positivity)
            (abs_nonneg B)
      _ = |B| * C ^ 2 * q.2 ^ 4 := by ring
  have h2 : Oh a b (fun q => D (σ q) (U q - V q)) 4 :=
    hUV.clm (A := fun q => D (σ q)) fun q hq => hD _ (hσ q hq)
  exact (h1.add h2).congr fun q _ => by rw [map_sub]; module

/-- The local error of one step of the scheme, started on the exact solution, is of fifth order. -/
theorem local_error (hd : ∀ j < 5, ∀ t ∈ Set.Icc a b,
      HasDerivWithinAt (g j) (g (j + 1) t) (Set.Icc a b) t)
    (hM : ∀ j ≤ 5, ∀ t ∈ Set.Icc a b, ‖g j t‖ ≤ M)
    (hsol : ∀ t ∈ Set.Icc a b, f (g 0 t) t = g 1 t)
    (hquad : ∀ s ∈ Set.Icc a b, ∀ u, ‖f (g 0 s + u) s - g 1 s - D s u‖ ≤ B * ‖u‖ ^ 2)
    (hD : ∀ s ∈ Set.Icc a b, ‖D s‖ ≤ K)
    (hDl : ∀ s ∈ Set.Icc a b, ∀ t ∈ Set.Icc a b, ‖D s - D t‖ ≤ B * |s - t|) :
    Oh a b (fun q => rk4Step f (g 0 q.1) q.1 q.2 - g 0 (q.1 + q.2)) 5 := by
  -- expansions about the midpoint
  have c1 : |(-(1 / 2) : ℝ)| ≤ 1 := by norm_num [abs_of_nonpos]
  have c2 : |(1 / 2 : ℝ)| ≤ 1 := by norm_num [abs_of_nonneg]
  have L5 := taylor_mid 5 hd (hM 5 le_rfl) (σ := fun q => q.1) _ c1 (fun _ => win_left)
    (fun q => by ring)
  have R5 := taylor_mid 5 hd (hM 5 le_rfl) (σ := fun q => q.1 + q.2) _ c2 (fun _ => win_right)
    (fun q => by ring)
  have L4 := taylor_mid (g := fun j => g (j + 1)) 4 (fun j hj => hd (j + 1) (by omega)) (hM 5 le_rfl)
    (σ := fun q => q.1) _ c1 (fun _ => win_left) (fun q => by ring)
  have R4 := taylor_mid (g := fun j => g (j + 1)) 4 (fun j hj => hd (j + 1) (by omega)) (hM 5 le_rfl)
    (σ := fun q => q.1 + q.2) _ c2 (fun _ => win_right) (fun q => by ring)
  simp only [Finset.sum_range_succ, Finset.sum_range_zero, Nat.factorial, zero_add, pow_zero,
    Nat.cast_one, div_one, one_smul, Nat.reduceAdd, pow_one] at L5 R5 L4 R4
  have B2 : Oh a b (fun q => g 2 (q.1 + q.2 / 2)) 0 := oh_chain (hM 2 (by norm_num))
  have B3 : Oh a b (fun q => g 3 (q.1 + q.2 / 2)) 0 := oh_chain (hM 3 (by norm_num))
  have B4 : Oh a b (fun q => g 4 (q.1 + q.2 / 2)) 0 := oh_chain (hM 4 (by norm_num))
  have hDm : ∀ q ∈ Win a b, ‖D (q.1 + q.2 / 2)‖ ≤ K := fun q hq => hD _ (win_mid hq)
  have BD2 : Oh a b (fun q => D (q.1 + q.2 / 2) (g 2 (q.1 + q.2 / 2))) 0 := B2.clm hDm
  have BD3 : Oh a b (fun q => D (q.1 + q.2 / 2) (g 3 (q.1 + q.2 / 2))) 0 := B3.clm hDm
  -- stage 2
  have hV2 : Oh a b (fun q => q.2 ^ 2 • ((-(1 / 8) : ℝ) • g 2 (q.1 + q.2 / 2))
      + q.2 ^ 3 • ((1 / 24 : ℝ) • g 3 (q.1 + q.2 / 2))) 2 :=
    ((B2.smul _).steps 2).add (((B3.smul _).steps 3).mono (by norm_num))
  have hU2 : Oh a b (fun q => (g 0 q.1 + q.2 • ((1 / 2 : ℝ) • g 1 q.1) - g 0 (q.1 + q.2 / 2))
      - (q.2 ^ 2 • ((-(1 / 8) : ℝ) • g 2 (q.1 + q.2 / 2))
      + q.2 ^ 3 • ((1 / 24 : ℝ) • g 3 (q.1 + q.2 / 2)))) 4 := by
    refine ((L5.mono (by norm_num : 4 ≤ 5)).add
      (((L4.mono (by norm_num : 3 ≤ 4)).smul (1 / 2)).step.add
        ((B4.smul (-(1 / 96) + 1 / 384)).steps 4))).congr fun q _ => ?_
    module
  have k2 := stage hquad hD (fun _ => win_mid) hU2 hV2
  set K2 : ℝ × ℝ → Y := fun q => f (g 0 q.1 + q.2 • ((1 / 2 : ℝ) • g 1 q.1)) (q.1 + q.2 / 2) with hK2
  have k2 : Oh a b (fun q => K2 q - g 1 (q.1 + q.2 / 2)
      - (q.2 ^ 2 • ((-(1 / 8) : ℝ) • D (q.1 + q.2 / 2) (g 2 (q.1 + q.2 / 2)))
      + q.2 ^ 3 • ((1 / 24 : ℝ) • D (q.1 + q.2 / 2) (g 3 (q.1 + q.2 / 2))))) 4 := by
    refine k2.congr fun q _ => ?_
    rw [add_sub_cancel, map_add, map_smul, map_smul, map_smul, map_smul]
  -- stage 3
  have hV3 : Oh a b (fun q => q.2 ^ 2 • ((1 / 8 : ℝ) • g 2 (q.1 + q.2 / 2))
      + q.2 ^ 3 • ((-(1 / 48) : ℝ) • g 3 (q.1 + q.2 / 2)
        + (-(1 / 16) : ℝ) • D (q.1 + q.2 / 2) (g 2 (q.1 + q.2 / 2)))) 2 :=
    ((B2.smul _).steps 2).add ((((B3.smul _).add (BD2.smul _)).steps 3).mono (by norm_num))
  have hU3 : Oh a b (fun q => (g 0 q.1 + q.2 • ((1 / 2 : ℝ) • K2 q) - g 0 (q.1 + q.2 / 2))
      - (q.2 ^ 2 • ((1 / 8 : ℝ) • g 2 (q.1 + q.2 / 2))
      + q.2 ^ 3 • ((-(1 / 48) : ℝ) • g 3 (q.1 + q.2 / 2)
        + (-(1 / 16) : ℝ) • D (q.1 + q.2 / 2) (g 2 (q.1 + q.2 / 2))))) 4 := by
    refine ((L5.mono (by norm_num : 4 ≤ 5)).add (((k2.smul (1 / 2)).step.mono (by norm_num)).add
        (((B4.smul (1 / 384)).add (BD3.smul (1 / 48))).steps 4))).congr fun q _ => ?_
    module
  have k3 := stage hquad hD (fun _ => win_mid) hU3 hV3
  set K3 : ℝ × ℝ → Y := fun q => f (g 0 q.1 + q.2 • ((1 / 2 : ℝ) • K2 q)) (q.1 + q.2 / 2) with hK3
  have k3 : Oh a b (fun q => K3 q - g 1 (q.1 + q.2 / 2)
      - (q.2 ^ 2 • ((1 / 8 : ℝ) • D (q.1 + q.2 / 2) (g 2 (q.1 + q.2 / 2)))
      + q.2 ^ 3 • ((-(1 / 48) : ℝ) • D (q.1 + q.2 / 2) (g 3 (q.1 + q.2 / 2))
        + (-(1 / 16) : ℝ) • D (q.1 + q.2 / 2) (D (q.1 + q.2 / 2) (g 2 (q.1 + q.2 / 2)))))) 4 := by
    refine k3.congr fun q _ => ?_
    rw [add_sub_cancel, map_add, map_smul, map_smul, map_smul, map_add, map_smul, map_smul]
  -- stage 4
  have BDD : Oh a b (fun q => D (q.1 + q.2 / 2) (D (q.1 + q.2 / 2) (g 2 (q.1 + q.2 / 2)))) 0 :=
    BD2.clm hDm
  have hV4 : Oh a b (fun q => q.2 ^ 3 • ((-(1 / 24) : ℝ) • g 3 (q.1 + q.2 / 2)
        + (1 / 8 : ℝ) • D (q.1 + q.2 / 2) (g 2 (q.1 + q.2 / 2)))) 3 :=
    ((B3.smul _).add (BD2.smul _)).steps 3
  have hU4 : Oh a b (fun q => (g 0 q.1 + q.2 • K3 q - g 0 (q.1 + q.2))
      - q.2 ^ 3 • ((-(1 / 24) : ℝ) • g 3 (q.1 + q.2 / 2)
        + (1 / 8 : ℝ) • D (q.1 + q.2 / 2) (g 2 (q.1 + q.2 / 2)))) 4 := by
    refine (((L5.sub R5).mono (by norm_num : 4 ≤ 5)).add ((k3.step.mono (by norm_num)).add
        (((BD3.smul (-(1 / 48))).add (BDD.smul (-(1 / 16)))).steps 4))).congr fun q _ => ?_
    module
  have k4 := stage hquad hD (fun _ => win_right) hU4 (hV4.mono (by norm_num))
  set K4 : ℝ × ℝ → Y := fun q => f (g 0 q.1 + q.2 • K3 q) (q.1 + q.2) with hK4
  have hδ : Oh a b (fun q => (D (q.1 + q.2) - D (q.1 + q.2 / 2))
      (q.2 ^ 3 • ((-(1 / 24) : ℝ) • g 3 (q.1 + q.2 / 2)
        + (1 / 8 : ℝ) • D (q.1 + q.2 / 2) (g 2 (q.1 + q.2 / 2))))) 4 := by
    obtain ⟨C, h0, h⟩ := hV4
    refine ⟨|B| * C, by positivity, fun q hq => (ContinuousLinearMap.le_opNorm _ _).trans ?_⟩
    have h1 := hDl _ (win_right hq) _ (win_mid hq)
    have h2 : B * |q.1 + q.2 - (q.1 + q.2 / 2)| ≤ |B| * q.2 := by
      refine mul_le_mul (le_abs_self B) ?_ (abs_nonneg _) (abs_nonneg B)
      rw [abs_of_nonneg (by linarith [hq.2.1])]
      linarith [hq.2.1]
    calc _ ≤ (|B| * q.2) * (C * q.2 ^ 3) :=
          mul_le_mul (h1.trans h2) (h q hq) (norm_nonneg _) (mul_nonneg (abs_nonneg B) hq.2.1)
      _ = |B| * C * q.2 ^ 4 := by ring
  have k4 : Oh a b (fun q => K4 q - g 1 (q.1 + q.2)
      - q.2 ^ 3 • ((-(1 / 24) : ℝ) • D (q.1 + q.2 / 2) (g 3 (q.1 + q.2 / 2))
        + (1 / 8 : ℝ) • D (q.1 + q.2 / 2) (D (q.1 + q.2 / 2) (g 2 (q.1 + q.2 / 2))))) 4 := by
    refine (k4.add hδ).congr fun q _ => ?_
    rw [add_sub_cancel, _root_.sub_apply]
    have e : D (q.1 + q.2 / 2) (q.2 ^ 3 • ((-(1 / 24) : ℝ) • g 3 (q.1 + q.2 / 2)
        + (1 / 8 : ℝ) • D (q.1 + q.2 / 2) (g 2 (q.1 + q.2 / 2))))
        = q.2 ^ 3 • ((-(1 / 24) : ℝ) • D (q.1 + q.2 / 2) (g 3 (q.1 + q.2 / 2))
        + (1 / 8 : ℝ) • D (q.1 + q.2 / 2) (D (q.1 + q.2 / 2) (g 2 (q.1 + q.2 / 2)))) := by
      rw [map_smul, map_add, map_smul, map_smul]
    rw [← e]
    module
  -- assembly
  have hsum := (((k2.add k3).smul (1 / 3)).add ((k4.add (L4.add R4)).smul (1 / 6))).step
  refine ((L5.sub R5).add hsum).congr fun q hq => ?_
  have e1 : (1 / 2 : ℝ) * q.2 = q.2 / 2 := by ring
  have hstep : rk4Step f (g 0 q.1) q.1 q.2 = g 0 q.1 + q.2 • ((1 / 6 : ℝ) • g 1 q.1
      + (1 / 3 : ℝ) • K2 q + (1 / 3 : ℝ) • K3 q + (1 / 6 : ℝ) • K4 q) := by
    simp only [rk4Step, e1, hsol _ (win_left hq), hK2, hK3, hK4]
  rw [hstep]
  module

end Local

section Global
variable {a b : ℝ} {f : Y → ℝ → Y} {D : ℝ → Y → Y →L[ℝ] Y} {y : ℝ → Y}

/-- The derivatives of the solution as a bounded chain. -/
theorem ivp_chain (h : SmoothIVP f D y a b) (hab : a < b) :
    ∃ (g : ℕ → ℝ → Y) (M : ℝ), (∀ t, g 0 t = y t) ∧
      (∀ t ∈ Set.Icc a b, g 1 t = f (y t) t) ∧
      (∀ j < 5, ∀ t ∈ Set.Icc a b, HasDerivWithinAt (g j) (g (j + 1) t) (Set.Icc a b) t) ∧
      ∀ j ≤ 5, ∀ t ∈ Set.Icc a b, ‖g j t‖ ≤ M := by
  have hu := uniqueDiffOn_Icc hab
  have hb : ∀ j ≤ 5, ∃ M, ∀ t ∈ Set.Icc a b, ‖iteratedDerivWithin j y (Set.Icc a b) t‖ ≤ M := by
    intro j hj
    exact isCompact_Icc.exists_bound_of_continuousOn
      (h.smooth.continuousOn_iteratedDerivWithin (by exact_mod_cast hj) hu)
  choose! M hM using hb
  refine ⟨fun j => iteratedDerivWithin j y (Set.Icc a b), ∑ j ∈ Finset.range 6, |M j|,
    fun t => by simp [iteratedDerivWithin_zero], fun t ht => ?_, fun j hj t ht => ?_,
    fun j hj t ht => ?_⟩
  · simp only [iteratedDerivWithin_one]
    exact (h.solves t ht).derivWithin (hu t ht)
  · have hd := (h.smooth.differentiableOn_iteratedDerivWithin (by exact_mod_cast hj) hu) t ht
    have := hd.hasDerivWithinAt
    rwa [← iteratedDerivWithin_succ] at this
  · refine (hM j hj t ht).trans ((le_abs_self _).trans ?_)
    exact Finset.single_le_sum (f := fun j => |M j|) (fun _ _ => abs_nonneg _)
      (Finset.mem_range.2 (by omega))

/-- The scheme is Lipschitz in the state. -/
theorem rk4Step_lipschitz {K H : ℝ} (hK : 0 ≤ K) (hH : 0 ≤ H)
    (hf : ∀ t ∈ Set.Icc a b, ∀ x x', ‖f x t - f x' t‖ ≤ K * ‖x - x'‖) {q : ℝ × ℝ} (hq : q ∈ Win a b)
    (hqH : q.2 ≤ H) (x x' : Y) :
    ‖rk4Step f x q.1 q.2 - rk4Step f x' q.1 q.2‖
      ≤ (1 + q.2 * (K * (1 + H * K) ^ 3)) * ‖x - x'‖ := by
  obtain ⟨t, h⟩ := q
  have h0 : 0 ≤ h := hq.2.1
  have e1 : (1 / 2 : ℝ) * h = h / 2 := by ring
  have hm := win_mid hq
  have hl := win_left hq
  have hr := win_right hq
  simp only at hm hl hr hqH ⊢
  simp only [rk4Step, e1]
  set d := ‖x - x'‖
  have hd : 0 ≤ d := norm_nonneg _
  set k1 := f x t
  set k1' := f x' t
  have b1 : ‖k1 - k1'‖ ≤ K * d := hf t hl x x'
  set k2 := f (x + h • ((1 / 2 : ℝ) • k1)) (t + h / 2)
  set k2' := f (x' + h • ((1 / 2 : ℝ) • k1')) (t + h / 2)
  have hz : 0 ≤ H * K := mul_nonneg hH hK
  have arg : ∀ (c : ℝ) (k k' : Y) (β : ℝ), 0 ≤ c → c ≤ 1 → ‖k - k'‖ ≤ K * d * β → 1 ≤ β →
      ‖(x + h • (c • k)) - (x' + h • (c • k'))‖ ≤ d * (β * (1 + H * K)) := by
    intro c k k' β hc hc1 hk hβ
    have e : (x + h • (c • k)) - (x' + h • (c • k')) = (x - x') + (h * c) • (k - k') := by module
    rw [e]
    refine (norm_add_le _ _).trans ?_
    rw [norm_smul, Real.norm_eq_abs, abs_of_nonneg (mul_nonneg h0 hc)]
    have h1 : h * c ≤ H := (mul_le_of_le_one_right h0 hc1).trans hqH
    have h2 : h * c * ‖k - k'‖ ≤ H * (K * d * β) :=
      mul_le_mul h1 hk (norm_nonneg _) hH
    have h3 : d ≤ d * β := le_mul_of_one_le_right hd hβ
    calc d + h * c * ‖k - k'‖ ≤ d * β + H * (K * d * β) := add_le_add h3 h2
      _ = d * (β * (1 + H * K)) := by ring
  have one : 1 ≤ 1 + H * K := by linarith
  have b2 : ‖k2 - k2'‖ ≤ K * d * (1 + H * K) := by
    refine (hf _ hm _ _).trans ?_
    rw [mul_assoc]
    refine mul_le_mul_of_nonneg_left ?_ hK
    have := arg (1 / 2) k1 k1' 1 (by norm_num) (by norm_num) (by rw [mul_one]; exact b1) le_rfl
    rwa [one_mul] at this
  set k3 := f (x + h • ((1 / 2 : ℝ) • k2)) (t + h / 2)
  set k3' := f (x' + h • ((1 / 2 : ℝ) • k2')) (t + h / 2)
  have b3 : ‖k3 - k3'‖ ≤ K * d * (1 + H * K) ^ 2 := by
    refine (hf _ hm _ _).trans ?_
    rw [mul_assoc]
    refine mul_le_mul_of_nonneg_left ?_ hK
    have := arg (1 / 2) k2 k2' (1 + H * K) (by norm_num) (by norm_num) b2 one
    rwa [← pow_two] at this
  set k4 := f (x + h • k3) (t + h)
  set k4' := f (x' + h • k3') (t + h)
  have b4 : ‖k4 - k4'‖ ≤ K * d * (1 + H * K) ^ 3 := by
    refine (hf _ hr _ _).trans ?_
    rw [mul_assoc]
    refine mul_le_mul_of_nonneg_left ?_ hK
    have := arg 1 k3 k3' ((1 + H * K) ^ 2) (by norm_num) (by norm_num) b3 (one_le_pow₀ one)
    rwa [one_smul, one_smul, ← pow_succ] at this
  set L := (1 + H * K) with hL
  have kd : 0 ≤ K * d := mul_nonneg hK hd
  have c1 : ‖k1 - k1'‖ ≤ K * d * L ^ 3 := b1.trans (le_mul_of_one_le_right kd (one_le_pow₀ one))
  have c2 : ‖k2 - k2'‖ ≤ K * d * L ^ 3 := b2.trans (mul_le_mul_of_nonneg_left
    (le_self_pow₀ one (by norm_num)) kd)
  have c3 : ‖k3 - k3'‖ ≤ K * d * L ^ 3 := b3.trans (mul_le_mul_of_nonneg_left
    (pow_le_pow_right₀ one (by norm_num)) kd)
  have e : x + h • ((1 / 6 : ℝ) • k1 + (1 / 3 : ℝ) • k2 + (1 / 3 : ℝ) • k3 + (1 / 6 : ℝ) • k4)
      - (x' + h • ((1 / 6 : ℝ) • k1' + (1 / 3 : ℝ) • k2' + (1 / 3 : ℝ) • k3' + (1 / 6 : ℝ) • k4'))
      = (x - x') + ((h / 6) • (k1 - k1') + (h / 3) • (k2 - k2') + (h / 3) • (k3 - k3')
        + (h / 6) • (k4 - k4')) := by module
  rw [e]
  have n : ∀ (c : ℝ) (v : Y), 0 ≤ c → ‖c • v‖ = c * ‖v‖ := fun c v hc => by
    rw [norm_smul, Real.norm_eq_abs, abs_of_nonneg hc]
  refine (norm_add_le _ _).trans ?_
  refine (add_le_add_right ((norm_add_le _ _).trans (add_le_add_left ((norm_add_le _ _).trans
    (add_le_add_left (norm_add_le _ _) _)) _)) _).trans ?_
  rw [n _ _ (by positivity), n _ _ (by positivity), n _ _ (by positivity), n _ _ (by positivity)]
  have h6 : 0 ≤ h / 6 := by positivity
  have h3 : 0 ≤ h / 3 := by positivity
  have := mul_le_mul_of_nonneg_left c1 h6
  have := mul_le_mul_of_nonneg_left c2 h3
  have := mul_le_mul_of_nonneg_left c3 h3
  have := mul_le_mul_of_nonneg_left b4 h6
  have e2 : (1 + h * (K * L ^ 3)) * d = d + (h / 6 * (K * d * L ^ 3) + h / 3 * (K * d * L ^ 3)
    + h / 3 * (K * d * L ^ 3) + h / 6 * (K * d * L ^ 3)) := by ring
  rw [e2]
  linarith

/-- Stability and local error of the scheme on a smooth problem. -/
theorem ivp_local (h : SmoothIVP f D y a b) (hab : a < b) :
    ∃ K C M, 0 ≤ K ∧ 0 ≤ C ∧ (∀ t ∈ Set.Icc a b, ∀ x x', ‖f x t - f x' t‖ ≤ K * ‖x - x'‖) ∧
      (∀ t ∈ Set.Icc a b, ‖y t‖ ≤ M ∧ ‖f (y t) t‖ ≤ M) ∧
      ∀ q ∈ Win a b, ‖rk4Step f (y q.1) q.1 q.2 - y (q.1 + q.2)‖ ≤ C * q.2 ^ 5 := by
  obtain ⟨g, M, g0, g1, hd, hM⟩ := ivp_chain h hab
  obtain ⟨K, hK⟩ := h.bounded
  obtain ⟨B, hB⟩ := h.lipschitz
  have ha : a ∈ Set.Icc a b := ⟨le_rfl, hab.le⟩
  have hK0 : 0 ≤ K := (norm_nonneg _).trans (hK a ha 0)
  have hM0 : 0 ≤ M := (norm_nonneg _).trans (hM 0 (by norm_num) a ha)
  have hlip : ∀ t ∈ Set.Icc a b, ∀ x x', ‖f x t - f x' t‖ ≤ K * ‖x - x'‖ := fun t ht x x' =>
    Convex.norm_image_sub_le_of_norm_hasFDerivWithin_le (f := fun x => f x t)
      (fun z _ => (h.deriv t ht z).hasFDerivWithinAt) (fun z _ => hK t ht z) convex_univ
      (Set.mem_univ x') (Set.mem_univ x)
  have hquad : ∀ s ∈ Set.Icc a b, ∀ u, ‖f (g 0 s + u) s - g 1 s - D s (y s) u‖
      ≤ |B| * (1 + M) * ‖u‖ ^ 2 := by
    intro s hs u
    rw [g0, g1 s hs]
    have := Convex.norm_image_sub_le_of_norm_hasFDerivWithin_le' (f := fun x => f x s)
      (s := Metric.closedBall (y s) ‖u‖) (C := |B| * ‖u‖) (φ := D s (y s))
      (fun z _ => (h.deriv s hs z).hasFDerivWithinAt) (fun z hz => by
        refine (hB s hs s hs z (y s)).trans ?_
        rw [sub_self, abs_zero, zero_add]
        exact mul_le_mul (le_abs_self B) (by rwa [Metric.mem_closedBall, dist_eq_norm] at hz)
          (norm_nonneg _) (abs_nonneg B))
      (convex_closedBall _ _) (x := y s) (y := y s + u)
      (Metric.mem_closedBall_self (norm_nonneg u)) (by simp [dist_eq_norm])
    simp only [add_sub_cancel_left] at this
    refine this.trans ?_
    have : |B| * ‖u‖ * ‖u‖ = |B| * 1 * ‖u‖ ^ 2 := by ring
    rw [this]
    gcongr
    linarith
  have hDl : ∀ s ∈ Set.Icc a b, ∀ t ∈ Set.Icc a b,
      ‖D s (y s) - D t (y t)‖ ≤ |B| * (1 + M) * |s - t| := by
    intro s hs t ht
    have hy := Convex.norm_image_sub_le_of_norm_hasDerivWithin_le (f := g 0)
      (fun z hz => hd 0 (by norm_num) z hz) (fun z hz => hM 1 (by norm_num) z hz) (convex_Icc a b) ht hs
    rw [g0, g0, Real.norm_eq_abs] at hy
    refine (hB s hs t ht _ _).trans ?_
    calc B * (|s - t| + ‖y s - y t‖) ≤ |B| * (|s - t| + M * |s - t|) :=
          mul_le_mul (le_abs_self B) (by linarith) (by positivity) (abs_nonneg B)
      _ = |B| * (1 + M) * |s - t| := by ring
  obtain ⟨C, hC0, hC⟩ := local_error (D := fun s => D s (y s)) hd hM
    (fun t ht => by rw [g0, g1 t ht]) hquad (fun s hs => hK s hs _) hDl
  refine ⟨K, C, M, hK0, hC0, hlip, fun t ht => ⟨?_, ?_⟩, fun q hq => ?_⟩
  · rw [← g0]; exact hM 0 (by norm_num) t ht
  · rw [← g1 t ht]; exact hM 1 (by norm_num) t ht
  · have := hC q hq
    simpa only [g0] using this

/-- C89: on every grid inside `[a, b]` with steps at most `η` the returned states differ from the
solution by at most a constant times `η⁴` plus the error of the initial state. -/
theorem C89_order (h : SmoothIVP f D y a b) (hab : a < b) :
    ∃ C, ∀ (t : ℕ → ℝ) (n : ℕ) (η : ℝ) (y0 : Y), (∀ i ≤ n, t i ∈ Set.Icc a b) →
      (∀ i < n, t i ≤ t (i + 1) ∧ t (i + 1) - t i ≤ η) → 0 ≤ η →
      ∀ i ≤ n, ‖odeint f y0 t i - y (t i)‖ ≤ C * (η ^ 4 + ‖y0 - y (t 0)‖) := by
  obtain ⟨K, C, M, hK0, hC0, hlip, -, hC⟩ := ivp_local h hab
  set Λ := K * (1 + (b - a) * K) ^ 3 with hΛ
  have hba : 0 ≤ b - a := by linarith
  have hΛ0 : 0 ≤ Λ := by positivity
  refine ⟨(C * (b - a) + 1) * Real.exp (Λ * (b - a)), fun t n η y0 ht hs hη => ?_⟩
  have hmono : ∀ i ≤ n, t 0 ≤ t i := by
    intro i
    induction i with
    | zero => exact fun _ => le_rfl
    | succ i ih => exact fun hi => (ih (by omega)).trans (hs i (by omega)).1
  have key : ∀ i ≤ n, ‖odeint f y0 t i - y (t i)‖
      ≤ (C * η ^ 4 * (t i - t 0) + ‖y0 - y (t 0)‖) * Real.exp (Λ * (t i - t 0)) := by
    intro i
    induction i with
    | zero => intro _; rw [C26_first]; simp
    | succ i ih =>
      intro hi
      have hi' := ih (by omega)
      obtain ⟨s1, s2⟩ := hs i (by omega)
      have hw : (t i, t (i + 1) - t i) ∈ Win a b :=
        ⟨(ht i (by omega)).1, by simpa using s1, by simpa using (ht (i + 1) hi).2⟩
      have hloc := hC _ hw
      simp only [add_sub_cancel] at hloc
      have hst := rk4Step_lipschitz hK0 hba hlip hw
        (by simp only; linarith [(ht i (by omega)).1, (ht (i + 1) hi).2]) (odeint f y0 t i) (y (t i))
      rw [C26_step]
      have e : rk4Step f (odeint f y0 t i) (t i) (t (i + 1) - t i) - y (t (i + 1))
          = (rk4Step f (odeint f y0 t i) (t i) (t (i + 1) - t i)
              - rk4Step f (y (t i)) (t i) (t (i + 1) - t i))
            + (rk4Step f (y (t i)) (t i) (t (i + 1) - t i) - y (t (i + 1))) := by abel
      rw [e]
      refine (norm_add_le _ _).trans ?_
      simp only at hst
      rw [← hΛ] at hst
      set δ := t (i + 1) - t i with hδ
      have hδ0 : 0 ≤ δ := by rw [hδ]; linarith
      have hτ : 0 ≤ t i - t 0 := by linarith [hmono i (by omega)]
      have e2 : t (i + 1) - t 0 = (t i - t 0) + δ := by rw [hδ]; ring
      rw [e2]
      set τ := t i - t 0
      set E0 := ‖y0 - y (t 0)‖ with hE0
      have hE : 0 ≤ E0 := norm_nonneg _
      have hexp : 1 + δ * Λ ≤ Real.exp (Λ * δ) := by
        have := Real.add_one_le_exp (Λ * δ)
        linarith
      have hexp1 : 1 ≤ Real.exp (Λ * (τ + δ)) := Real.one_le_exp (by positivity)
      have hpow : C * δ ^ 5 ≤ C * η ^ 4 * δ := by
        rw [pow_succ, ← mul_assoc]
        gcongr
      calc ‖rk4Step f (odeint f y0 t i) (t i) δ - rk4Step f (y (t i)) (t i) δ‖
            + ‖rk4Step f (y (t i)) (t i) δ - y (t (i + 1))‖
          ≤ Real.exp (Λ * δ) * ((C * η ^ 4 * τ + E0) * Real.exp (Λ * τ)) + C * η ^ 4 * δ * 1 := by
            refine add_le_add (hst.trans ?_) (by rw [mul_one]; exact hloc.trans hpow)
            exact mul_le_mul hexp hi' (norm_nonneg _) (Real.exp_pos _).le
        _ ≤ Real.exp (Λ * δ) * ((C * η ^ 4 * τ + E0) * Real.exp (Λ * τ))
            + C * η ^ 4 * δ * Real.exp (Λ * (τ + δ)) := by gcongr
        _ = (C * η ^ 4 * (τ + δ) + E0) * Real.exp (Λ * (τ + δ)) := by
            rw [mul_add Λ, Real.exp_add]; ring
  intro i hi
  refine (key i hi).trans ?_
  have hτ : 0 ≤ t i - t 0 := by linarith [hmono i hi]
  have hτb : t i - t 0 ≤ b - a := by linarith [(ht i hi).2, (ht 0 (Nat.zero_le n)).1]
  have hE : 0 ≤ ‖y0 - y (t 0)‖ := norm_nonneg _
  calc (C * η ^ 4 * (t i - t 0) + ‖y0 - y (t 0)‖) * Real.exp (Λ * (t i - t 0))
      ≤ (C * η ^ 4 * (b - a) + ‖y0 - y (t 0)‖) * Real.exp (Λ * (b - a)) := by gcongr
    _ ≤ ((C * (b - a) + 1) * (η ^ 4 + ‖y0 - y (t 0)‖)) * Real.exp (Λ * (b - a)) := by
        gcongr
        have h1 : 0 ≤ η ^ 4 := by positivity
        have h2 : 0 ≤ C * (b - a) * ‖y0 - y (t 0)‖ := by positivity
        nlinarith
    _ = _ := by ring

/-- C89: on uniform grids of `n` steps the error at every grid point is at most `C/n⁴`. -/
theorem C89_uniform (h : SmoothIVP f D y a b) (hab : a < b) :
    ∃ C, ∀ n : ℕ, 0 < n → ∀ i ≤ n,
      ‖odeint f (y a) (linspace a b (n + 1)) i - y (linspace a b (n + 1) i)‖ ≤ C / n ^ 4 := by
  obtain ⟨C, hC⟩ := C89_order h hab
  refine ⟨C * (b - a) ^ 4, fun n hn i hi => ?_⟩
  have hn' : (0 : ℝ) < n := by exact_mod_cast hn
  have hba : 0 < b - a := by linarith
  have hval : ∀ j, linspace a b (n + 1) j = a + j * ((b - a) / n) := fun j => by
    rw [linspace_succ]
  have hstep : 0 ≤ (b - a) / n := by positivity
  have := hC (linspace a b (n + 1)) n ((b - a) / n) (y a) (fun j hj => by
      rw [hval]
      have hj' : (j : ℝ) ≤ n := by exact_mod_cast hj
      constructor
      · have : 0 ≤ (j : ℝ) * ((b - a) / n) := by positivity
        linarith
      · have := mul_le_mul_of_nonneg_right hj' hstep
        rw [mul_div_cancel₀ _ hn'.ne'] at this
        linarith)
    (fun j _ => by
      rw [hval, hval]; push_cast
      constructor <;> nlinarith) hstep i hi
  have e0 : linspace a b (n + 1) 0 = a := by rw [hval]; simp
  rw [e0, sub_self, norm_zero, add_zero, div_pow, ← mul_div_assoc] at this
  exact this

end Global

/-- Witness: `y' = y` on `[0, 1]`. -/
example : ∃ C, ∀ n : ℕ, 0 < n →
    ‖odeint (fun (y : ℝ) (_ : ℝ) => y) 1 (linspace 0 1 (n + 1)) n - Real.exp 1‖ ≤ C / n ^ 4 := by
  have h : SmoothIVP (fun (y : ℝ) (_ : ℝ) => y) (fun _ _ => ContinuousLinearMap.id ℝ ℝ) Real.exp 0 1 :=
    { deriv := fun _ _ x => hasFDerivAt_id x
      bounded := ⟨1, fun _ _ _ => ContinuousLinearMap.norm_id_le⟩
      lipschitz := ⟨0, fun _ _ _ _ _ _ => by simp⟩
      solves := fun t _ => (Real.hasDerivAt_exp t).hasDerivWithinAt
      smooth := Real.contDiff_exp.contDiffOn }
  obtain ⟨C, hC⟩ := C89_uniform h zero_lt_one
  refine ⟨C, fun n hn => ?_⟩
  have := hC n hn n le_rfl
  have hn' : (n : ℝ) ≠ 0 := by positivity
  have e : linspace (0 : ℝ) 1 (n + 1) n = 1 := by
    rw [linspace_succ]; field_simp; ring
  rwa [e, Real.exp_zero] at this

end JaxCosmo
