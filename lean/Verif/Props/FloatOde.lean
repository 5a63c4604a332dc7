import Verif.Proofs.FloatOde
import Verif.Props.OdeOrder
import Mathlib.Analysis.Calculus.Deriv.Prod

/-! # C98: rounding errors of the ODE solver -/

namespace JaxCosmo
open Spec

variable {ι : Type*} [Fintype ι] {f : (ι → ℝ) → ℝ → (ι → ℝ)}
  {D : ℝ → (ι → ℝ) → (ι → ℝ) →L[ℝ] (ι → ℝ)} {y : ℝ → (ι → ℝ)} {a b : ℝ}

omit [Fintype ι] in
/-- C98: without rounding `odeintF` is `odeint`. -/
theorem C98_exact (f : (ι → ℝ) → ℝ → (ι → ℝ)) (y0 : ι → ℝ) (t : ℕ → ℝ) (i : ℕ) :
    odeintF exactArith f y0 t i = odeint f y0 t i := by
  have h : rk4F exactArith f = rk4 f := by
    funext c s
    have e : ∀ v : ι → ℝ, (1 / 2 : ℝ) • (s - c.2) • v = ((s - c.2) / 2) • v := fun v => by
      rw [smul_smul]; congr 1; ring
    have e1 : ∀ v : ι → ℝ, exactArith.vrd v = v := fun _ => rfl
    have e2 : ∀ x y, exactArith.sub x y = x - y := fun _ _ => rfl
    have e3 : ∀ x y, exactArith.add x y = x + y := fun _ _ => rfl
    have e4 : ∀ x y, exactArith.mul x y = x * y := fun _ _ => rfl
    have e5 : ∀ x y, exactArith.div x y = x / y := fun _ _ => rfl
    simp only [rk4F, rk4, e1, e2, e3, e4, e5, e]
  unfold odeintF odeint
  rw [h]

omit [Fintype ι] in
theorem odeintF_zero (A : Rounding) (fn : (ι → ℝ) → ℝ → (ι → ℝ)) (y0 : ι → ℝ) (t : ℕ → ℝ) :
    odeintF A fn y0 t 0 = (rk4F A fn (y0, t 0) (t 0)).2 := rfl

omit [Fintype ι] in
theorem odeintF_succ (A : Rounding) (fn : (ι → ℝ) → ℝ → (ι → ℝ)) (y0 : ι → ℝ) (t : ℕ → ℝ) (i : ℕ) :
    odeintF A fn y0 t (i + 1) = (rk4F A fn (odeintF A fn y0 t i, t i) (t (i + 1))).2 := rfl

/-- One step of Gronwall's inequality. -/
theorem grow {e G X x g : ℝ} (hG : 0 ≤ G) (hx : 0 ≤ x) (hg : 0 ≤ g) (hX : 0 ≤ X)
    (he : e ≤ G * Real.exp X) : (1 + x) * e + g ≤ (G + g) * Real.exp (X + x) := by
  have h1 : (1 + x) * e ≤ (1 + x) * (G * Real.exp X) := by gcongr
  have h2 : 1 + x ≤ Real.exp x := by linarith [Real.add_one_le_exp x]
  have h3 : 1 ≤ Real.exp (X + x) := Real.one_le_exp (by positivity)
  have h4 : (1 + x) * (G * Real.exp X) ≤ Real.exp x * (G * Real.exp X) := by gcongr
  have h5 : g * 1 ≤ g * Real.exp (X + x) := by gcongr
  have h6 : Real.exp x * (G * Real.exp X) = G * Real.exp (X + x) := by
    rw [Real.exp_add]; ring
  linarith

/-- C98: on a smooth problem the states computed in floating point differ from the exact solution
by at most a constant times `η⁴` (truncation, `η` the largest step) plus the error of the initial
value plus `(n + 1) u` (one rounding per step) plus the error `φ` of the computed right-hand
side. -/
theorem C98_order (h : SmoothIVP f D y a b) (hab : a < b) :
    ∃ C, ∀ (A : Rounding) (fn : (ι → ℝ) → ℝ → (ι → ℝ)) (φ : ℝ) (t : ℕ → ℝ) (n : ℕ) (η : ℝ)
      (y0 : ι → ℝ), Computes A fn f φ a b → 0 ≤ φ → φ ≤ 1 → n * A.u ≤ 1 →
      (∀ i ≤ n, t i ∈ Set.Icc a b) → (∀ i < n, t i ≤ t (i + 1) ∧ t (i + 1) - t i ≤ η) → 0 ≤ η →
      ∀ i ≤ n, ‖odeintF A fn y0 t i - y (t i)‖
        ≤ C * (η ^ 4 + ‖y0 - y (t 0)‖ + (n + 1) * A.u + φ) := by
  obtain ⟨K, C, M, hK0, hC0, hlip, hM, hloc⟩ := ivp_local h hab
  have hM0 : 0 ≤ M := (norm_nonneg _).trans (hM a ⟨le_rfl, hab.le⟩).1
  have hbd : ∀ t ∈ Set.Icc a b, ∀ x, ‖f x t‖ ≤ (M + K * M + K) * (1 + ‖x‖) := fun t ht x => by
    have h1 := hlip t ht x (y t)
    have h2 := norm_add_le (f x t - f (y t) t) (f (y t) t)
    rw [sub_add_cancel] at h2
    have h3 := mul_le_mul_of_nonneg_left (norm_sub_le x (y t)) hK0
    have h4 := mul_le_mul_of_nonneg_left (hM t ht).1 hK0
    have h5 : 0 ≤ (M + K * M) * ‖x‖ := by positivity
    linarith [(hM t ht).2]
  obtain ⟨c, hc0, hc⟩ := rk4F_local (f := f) (a := a) (b := b) hK0 (by positivity) hlip hbd
  set Λ := K * (1 + (b - a) * K) ^ 3 with hΛ
  have hba : 0 ≤ b - a := by linarith
  have hΛ0 : 0 ≤ Λ := by positivity
  refine ⟨(C * (b - a) + c * (1 + M) * (1 + (b - a)) + 1)
    * Real.exp ((Λ + c) * (b - a) + 2 * c), fun A fn φ t n η y0 hfn hφ0 hφ1 hnu ht hs hη => ?_⟩
  have hu0 := A.u_nonneg
  have hu := A.u_le
  have hmono : ∀ i ≤ n, t 0 ≤ t i := by
    intro i
    induction i with
    | zero => exact fun _ => le_rfl
    | succ i ih => exact fun hi => (ih (by omega)).trans (hs i (by omega)).1
  -- one computed step from `x`
  have step : ∀ x : ι → ℝ, ∀ s δ : ℝ, s ∈ Set.Icc a b → s + δ ∈ Set.Icc a b → 0 ≤ δ → δ ≤ η →
      ‖(rk4F A fn (x, s) (s + δ)).2 - y (s + δ)‖ ≤ (1 + (Λ * δ + c * (A.u + δ * φ))) * ‖x - y s‖
        + (C * η ^ 4 * δ + c * (1 + M) * (A.u + δ * φ)) := by
    intro x s δ hsI hsd hδ hδη
    have hw : (s, δ) ∈ Win a b := ⟨hsI.1, hδ, hsd.2⟩
    have h1 := hc ⟨A, fn, φ, x, s, δ⟩ ⟨hfn, hφ0, hφ1, hδ, hsI.1, hsd.2⟩
    have h2 := hloc _ hw
    have h3 := rk4Step_lipschitz hK0 hba hlip hw (by simp only; linarith [hsI.1, hsd.2]) x (y s)
    rw [← hΛ] at h3
    simp only [rk4_eq_step, add_sub_cancel_left] at h1 h2 h3
    have hx : ‖x‖ ≤ M + ‖x - y s‖ := by
      have := norm_add_le (x - y s) (y s)
      rw [sub_add_cancel] at this
      linarith [(hM s hsI).1]
    have hpow : C * δ ^ 5 ≤ C * η ^ 4 * δ := by
      rw [pow_succ, ← mul_assoc]
      gcongr
    have e : (rk4F A fn (x, s) (s + δ)).2 - y (s + δ)
        = ((rk4F A fn (x, s) (s + δ)).2 - rk4Step f x s δ)
          + ((rk4Step f x s δ - rk4Step f (y s) s δ) + (rk4Step f (y s) s δ - y (s + δ))) := by abel
    rw [e]
    refine (norm_add_le _ _).trans ((add_le_add h1 ((norm_add_le _ _).trans
      (add_le_add h3 (h2.trans hpow)))).trans ?_)
    have h4 : c * (A.u + δ * φ) * (1 + ‖x‖) ≤ c * (A.u + δ * φ) * (1 + (M + ‖x - y s‖)) := by
      gcongr
    linarith
  set E0 := ‖y0 - y (t 0)‖ with hE0
  have hE : 0 ≤ E0 := norm_nonneg _
  have key : ∀ i ≤ n, ‖odeintF A fn y0 t i - y (t i)‖
      ≤ (E0 + (C * η ^ 4 * (t i - t 0) + c * (1 + M) * ((i + 1) * A.u + (t i - t 0) * φ)))
        * Real.exp (Λ * (t i - t 0) + c * ((i + 1) * A.u + (t i - t 0) * φ)) := by
    intro i
    induction i with
    | zero =>
      intro _
      have h1 := step y0 (t 0) 0 (ht 0 (Nat.zero_le n)) (by rw [add_zero]; exact ht 0 (Nat.zero_le n))
        le_rfl hη
      rw [add_zero, ← hE0] at h1
      rw [odeintF_zero]
      refine h1.trans ((grow (G := E0) (X := 0) hE (by positivity) (by positivity) le_rfl
        (by simp)).trans (le_of_eq ?_))
      push_cast
      congr 1
      · ring
      · congr 1; ring
    | succ i ih =>
      intro hi
      obtain ⟨s1, s2⟩ := hs i (by omega)
      have hτ : 0 ≤ t i - t 0 := by linarith [hmono i (by omega)]
      have h1 := step (odeintF A fn y0 t i) (t i) (t (i + 1) - t i) (ht i (by omega))
        (by rw [add_sub_cancel]; exact ht (i + 1) hi) (by linarith) s2
      rw [add_sub_cancel] at h1
      rw [odeintF_succ]
      set δ := t (i + 1) - t i with hδ
      have hδ0 : 0 ≤ δ := by rw [hδ]; linarith
      have e2 : t (i + 1) - t 0 = (t i - t 0) + δ := by rw [hδ]; ring
      rw [e2]
      refine h1.trans ((grow ?_ (by positivity) (by positivity) ?_ (ih (by omega))).trans
        (le_of_eq ?_))
      · positivity
      · positivity
      · push_cast
        congr 1
        · ring
        · congr 1; ring
  intro i hi
  refine (key i hi).trans ?_
  have hτ : 0 ≤ t i - t 0 := by linarith [hmono i hi]
  have hτb : t i - t 0 ≤ b - a := by linarith [(ht i hi).2, (ht 0 (Nat.zero_le n)).1]
  have hin : (i : ℝ) + 1 ≤ n + 1 := by
    have : (i : ℝ) ≤ n := by exact_mod_cast hi
    linarith
  have hnu' : ((n : ℝ) + 1) * A.u ≤ 2 := by linarith
  have hiu : ((i : ℝ) + 1) * A.u ≤ (n + 1) * A.u := by gcongr
  have hτφ : (t i - t 0) * φ ≤ (b - a) * φ := by gcongr
  have hbφ : (b - a) * φ ≤ (b - a) * 1 := by gcongr
  calc _ ≤ (E0 + (C * η ^ 4 * (b - a) + c * (1 + M) * ((n + 1) * A.u + (b - a) * φ)))
        * Real.exp ((Λ + c) * (b - a) + 2 * c) := by
        refine mul_le_mul ?_ (Real.exp_le_exp.2 ?_) (Real.exp_pos _).le (by positivity)
        · gcongr
        · have h1 : Λ * (t i - t 0) ≤ Λ * (b - a) := by gcongr
          have h2 : c * (((i : ℝ) + 1) * A.u + (t i - t 0) * φ) ≤ c * (2 + (b - a)) :=
            mul_le_mul_of_nonneg_left (by linarith) hc0
          linarith
    _ ≤ ((C * (b - a) + c * (1 + M) * (1 + (b - a)) + 1) * (η ^ 4 + E0 + (n + 1) * A.u + φ))
        * Real.exp ((Λ + c) * (b - a) + 2 * c) := by
        refine mul_le_mul_of_nonneg_right ?_ (Real.exp_pos _).le
        have h4 : 0 ≤ η ^ 4 := by positivity
        have hP : 0 ≤ C * (b - a) := by positivity
        have hQ : 0 ≤ c * (1 + M) := by positivity
        rw [show C * η ^ 4 * (b - a) = C * (b - a) * η ^ 4 by ring]
        generalize c * (1 + M) = Q at *
        generalize C * (b - a) = P at *
        have hnu0 : 0 ≤ ((n : ℝ) + 1) * A.u := by positivity
        generalize ((n : ℝ) + 1) * A.u = U at *
        generalize b - a = L at *
        have e1 : 0 ≤ P * (E0 + U + φ) := by positivity
        have e2 : 0 ≤ Q * (η ^ 4 + E0 + φ) := by positivity
        have e3 : 0 ≤ Q * L * (η ^ 4 + E0 + U) := by positivity
        linarith
    _ = _ := by ring

/-- C98 in single precision for `y' = y` on `[0, 1]`, where the computed right-hand side is exact:
with `n` steps of any size up to `η` the error is at most `C (η⁴ + (n + 1) / 2 ^ 24)`. -/
example : ∃ C, ∀ (t : ℕ → ℝ) (n : ℕ) (η : ℝ), (n : ℝ) ≤ 2 ^ 24 → t 0 = 0 →
    (∀ i ≤ n, t i ∈ Set.Icc (0 : ℝ) 1) → (∀ i < n, t i ≤ t (i + 1) ∧ t (i + 1) - t i ≤ η) → 0 ≤ η →
    ∀ i ≤ n, ‖odeintF float32 (fun (y : Fin 1 → ℝ) _ => y) 1 t i - fun _ => Real.exp (t i)‖
      ≤ C * (η ^ 4 + (n + 1) / 2 ^ 24) := by
  have h : SmoothIVP (fun (y : Fin 1 → ℝ) (_ : ℝ) => y)
      (fun _ _ => ContinuousLinearMap.id ℝ (Fin 1 → ℝ)) (fun s _ => Real.exp s) 0 1 :=
    { deriv := fun _ _ x => hasFDerivAt_id x
      bounded := ⟨1, fun _ _ _ => ContinuousLinearMap.norm_id_le⟩
      lipschitz := ⟨0, fun _ _ _ _ _ _ => by simp⟩
      solves := fun t _ => (hasDerivAt_pi.2 fun _ => Real.hasDerivAt_exp t).hasDerivWithinAt
      smooth := (contDiff_pi.2 fun _ => Real.contDiff_exp).contDiffOn }
  obtain ⟨C, hC⟩ := C98_order h zero_lt_one
  refine ⟨C, fun t n η hn h0 ht hs hη i hi => ?_⟩
  have hu : float32.u = 1 / 2 ^ 24 := rfl
  have := hC float32 (fun y _ => y) 0 t n η 1 (fun x s _ s' _ => by simp) le_rfl zero_le_one
    (by rw [hu]; rw [mul_one_div, div_le_one (by positivity)]; exact hn) ht hs hη i hi
  have e : ‖(1 : Fin 1 → ℝ) - fun _ => Real.exp (t 0)‖ = 0 := by
    rw [norm_eq_zero, sub_eq_zero]; funext _; simp [h0]
  rw [e, hu, add_zero, add_zero, mul_one_div] at this
  exact this

end JaxCosmo
