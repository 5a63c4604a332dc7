import Verif.Props.Distances
import Verif.Spec.Sensitivity
import Mathlib.Analysis.Calculus.FDeriv.Prod
import Mathlib.Analysis.Calculus.Deriv.Prod
import Mathlib.Analysis.Calculus.Deriv.Add
import Mathlib.Analysis.Calculus.Deriv.Mul
import Mathlib.Analysis.Calculus.Deriv.Comp
import Mathlib.Analysis.Convex.Basic

/-! # C82: derivatives through the ODE solver -/

namespace JaxCosmo
open Spec

section
variable {Y : Type*} [NormedAddCommGroup Y] [NormedSpace ℝ Y]

variable {fn : ℝ → Y → ℝ → Y} {θ : ℝ} {L : ℝ → Y → (ℝ × Y →L[ℝ] Y)} {S : Set ℝ}

theorem stage_deriv (hL : ∀ x ∈ S, ∀ y, HasFDerivAt (fun q : ℝ × Y => fn q.1 q.2 x) (L x y) (θ, y))
    {y : ℝ → Y} {y' : Y} (hy : HasDerivAt y y' θ) {x : ℝ} (hx : x ∈ S) :
    HasDerivAt (fun s => fn s (y s) x) (L x (y θ) (1, y')) θ :=
  HasFDerivAt.comp_hasDerivAt (f := fun s => (s, y s)) θ (hL x hx (y θ)) ((hasDerivAt_id θ).prodMk hy)

/-- One step of the solver applied to the variational equation. -/
theorem step_deriv (hS : Convex ℝ S)
    (hL : ∀ x ∈ S, ∀ y, HasFDerivAt (fun q : ℝ × Y => fn q.1 q.2 x) (L x y) (θ, y))
    {y : ℝ → Y} {y' : Y} (hy : HasDerivAt y y' θ) {x h : ℝ} (hx : x ∈ S) (hxh : x + h ∈ S) :
    (rk4Step (variational (fn θ) L) (y θ, y') x h).1 = rk4Step (fn θ) (y θ) x h ∧
    HasDerivAt (fun s => rk4Step (fn s) (y s) x h)
      (rk4Step (variational (fn θ) L) (y θ, y') x h).2 θ := by
  have hm : x + 1 / 2 * h ∈ S := by
    have := hS hx hxh (a := 1 / 2) (b := 1 / 2) (by norm_num) (by norm_num) (by norm_num)
    convert this using 1
    simp only [smul_eq_mul]; ring
  refine ⟨rfl, ?_⟩
  have k1 := stage_deriv hL hy hx
  have k2 := stage_deriv hL (hy.add ((k1.const_smul (1 / 2 : ℝ)).const_smul h)) hm
  have k3 := stage_deriv hL (hy.add ((k2.const_smul (1 / 2 : ℝ)).const_smul h)) hm
  have k4 := stage_deriv hL (hy.add (k3.const_smul h)) hxh
  exact hy.add (((((k1.const_smul (1 / 6 : ℝ)).add (k2.const_smul (1 / 3 : ℝ))).add
    (k3.const_smul (1 / 3 : ℝ))).add (k4.const_smul (1 / 6 : ℝ))).const_smul h)

/-- C82: differentiating the computed solution with respect to a parameter gives the solution that
`odeint` computes for the variational equation. -/
theorem C82_variational (hS : Convex ℝ S)
    (hL : ∀ x ∈ S, ∀ y, HasFDerivAt (fun q : ℝ × Y => fn q.1 q.2 x) (L x y) (θ, y))
    {y0 : ℝ → Y} {y0' : Y} (hy : HasDerivAt y0 y0' θ) {t : ℕ → ℝ} {n : ℕ} (ht : ∀ i ≤ n, t i ∈ S) :
    ∀ i ≤ n,
    (odeint (variational (fn θ) L) (y0 θ, y0') t i).1 = odeint (fn θ) (y0 θ) t i ∧
    HasDerivAt (fun s => odeint (fn s) (y0 s) t i)
      (odeint (variational (fn θ) L) (y0 θ, y0') t i).2 θ := by
  intro i hi
  induction i with
  | zero =>
    simp only [C26_first]
    exact ⟨trivial, hy⟩
  | succ i ih =>
    obtain ⟨e, hd⟩ := ih (by omega)
    simp only [C26_step]
    have hs := step_deriv hS hL hd (x := t i) (h := t (i + 1) - t i) (ht i (by omega))
      (by rw [add_sub_cancel]; exact ht _ hi)
    rw [← e] at hs ⊢
    exact hs

end

/-! ## Distances -/

section
variable {P : ℝ → Params} {v : Params} {θ : ℝ}

theorem along_Omega_m (h : Along P v θ) :
    HasDerivAt (fun s => (P s).Omega_m) (v.Omega_b + v.Omega_c) θ := h.Omega_b.add h.Omega_c

theorem along_Omega_de (h : Along P v θ) :
    HasDerivAt (fun s => (P s).Omega_de) (-(v.Omega_k + (v.Omega_b + v.Omega_c))) θ := by
  have := (h.Omega_k.const_sub 1).sub (along_Omega_m h)
  exact this.congr_deriv (by ring)

theorem along_f_de (h : Along P v θ) (a : ℝ) : HasDerivAt (fun s => f_de (P s) a)
    (-3 * (v.w0 + v.wa) * Real.log a + 3 * v.wa * (a - 1)) θ := by
  have := ((((h.w0.const_add 1).add h.wa).const_mul (-3)).mul_const (Real.log a)).add
    ((h.wa.const_mul 3).mul_const (a - 1))
  exact this

/-- C83: the response of the squared expansion rate to the parameters. -/
theorem C83_Esqr (h : Along P v θ) (a : ℝ) :
    HasDerivAt (fun s => Esqr (P s) a) (dE2 (P θ) v a) θ := by
  have := (((along_Omega_m h).mul_const (a ^ (-3 : ℤ))).add (h.Omega_k.mul_const (a ^ (-2 : ℤ)))).add
    ((along_Omega_de h).mul (along_f_de h a).exp)
  refine this.congr_deriv ?_
  unfold dE2 JaxCosmo.f_de Params.Omega_de Params.Omega Params.Omega_m
  rw [zpow_neg, zpow_neg, show a ^ (3 : ℤ) = a ^ 3 by norm_cast, show a ^ (2 : ℤ) = a ^ 2 by norm_cast]
  ring

/-- Response of the distance integrand `dχ/dln a`. -/
theorem chiRate_deriv (h : Along P v θ) {x : ℝ} (hE : 0 < Esqr (P θ) (Real.exp x)) :
    HasDerivAt (fun s => chiRate (P s) x)
      (-(const_rh * Real.exp (-x) * dE2 (P θ) v (Real.exp x)
        / (2 * Real.sqrt (Esqr (P θ) (Real.exp x)) ^ 3))) θ := by
  have hs := (C83_Esqr h (Real.exp x)).sqrt hE.ne'
  have hp := Real.sqrt_pos.2 hE
  have := (hasDerivAt_const θ (const_rh * Real.exp (-x))).div hs hp.ne'
  simp only [chiRate_eq]
  refine this.congr_deriv ?_
  field_simp
  ring

theorem panel_deriv {g : ℝ → ℝ → ℝ} {g' : ℝ → ℝ} {a b : ℝ} (hab : a ≤ b)
    (hg : ∀ x, a ≤ x → x ≤ b → HasDerivAt (fun s => g s x) (g' x) θ) :
    HasDerivAt (fun s => panel (g s) a b) (panel g' a b) θ :=
  (((hg a le_rfl hab).add ((hg _ (by linarith) (by linarith)).const_mul 4)).add
    (hg b hab le_rfl)).const_mul _

theorem interp_deriv {n : ℕ} (xp : ℕ → ℝ) {fp : ℝ → ℕ → ℝ} {fp' : ℕ → ℝ} (hn : 0 < n)
    (hf : ∀ i < n, HasDerivAt (fun s => fp s i) (fp' i) θ) (x : ℝ) :
    HasDerivAt (fun s => interp n xp (fp s) x) (interp n xp fp' x) θ := by
  have hix : ∀ i : ℤ, ix n i < n := fun i => by unfold ix; omega
  unfold interp
  simp only
  have h1 := hf _ (hix (iclip (argmin n fun i => (x - xp i) ^ 2) 1 ((n : ℤ) - 2)))
  have h2 := hf _ (hix (iclip (argmin n fun i => (x - xp i) ^ 2) 1 ((n : ℤ) - 2) + copysign1
    (sgn (clip x (xp (ix n 1)) (xp (ix n (-2))) - xp (ix n (iclip (argmin n fun i => (x - xp i) ^ 2) 1
      ((n : ℤ) - 2)))))))
  have hs := (h2.sub h1).div_const (xp (ix n (iclip (argmin n fun i => (x - xp i) ^ 2) 1 ((n : ℤ) - 2)
    + copysign1 (sgn (clip x (xp (ix n 1)) (xp (ix n (-2))) - xp (ix n (iclip
      (argmin n fun i => (x - xp i) ^ 2) 1 ((n : ℤ) - 2)))))))
    - xp (ix n (iclip (argmin n fun i => (x - xp i) ^ 2) 1 ((n : ℤ) - 2))))
  exact (hs.mul_const x).add (h1.sub (hs.mul_const _))

theorem chi_table_deriv (h : Along P v θ) (hE : EsqrPos (P θ)) {lo : ℝ} (hlo : lo < 0) {n : ℕ}
    (hn : 2 ≤ n) {i : ℕ} (hi : i < n) :
    HasDerivAt (fun s => (chiTable (P s) lo n).chi i)
      (simpsBody (fun x => -(const_rh * Real.exp (-x) * dE2 (P θ) v (Real.exp x)
        / (2 * Real.sqrt (Esqr (P θ) (Real.exp x)) ^ 3)))
        (Real.log (logspace lo 0 n i)) 0 (2 * (n - 1 - i))) θ := by
  simp only [← chiTable_simps _ lo hi]
  have hneg : Real.log (logspace lo 0 n i) ≤ 0 := by
    have := (log_logspace_strictMono hlo hn).monotone (by omega : i ≤ n - 1)
    simp only [logspace_end lo hn, Real.log_one] at this
    exact this
  refine HasDerivAt.const_mul _ (HasDerivAt.fun_sum fun k hk => ?_)
  have hk' : 2 * k + 2 ≤ 2 * (n - 1 - i) := by
    have := Finset.mem_range.1 hk
    omega
  have hnode : ∀ j : ℕ, j ≤ 2 * (n - 1 - i) →
      HasDerivAt (fun s => chiRate (P s) (linspace (Real.log (logspace lo 0 n i)) 0
        (2 * (n - 1 - i) + 1) j)) _ θ := fun j hj => chiRate_deriv h (hE _ (Real.exp_pos _) (by
      rw [Real.exp_le_one_iff, linspace]
      have hN : (0 : ℝ) < ((2 * (n - 1 - i) : ℕ) : ℝ) := by
        exact_mod_cast (by omega : 0 < 2 * (n - 1 - i))
      have hj' : (j : ℝ) ≤ ((2 * (n - 1 - i) : ℕ) : ℝ) := by exact_mod_cast hj
      rw [Nat.cast_add, Nat.cast_one, add_sub_cancel_right, zero_sub, mul_div_assoc']
      have : (j : ℝ) * -Real.log (logspace lo 0 n i) / ((2 * (n - 1 - i) : ℕ) : ℝ)
          ≤ -Real.log (logspace lo 0 n i) := by
        rw [div_le_iff₀ hN, mul_comm]
        exact mul_le_mul_of_nonneg_left hj' (by linarith)
      linarith))
  exact ((hnode _ (by omega)).add ((hnode _ (by omega)).const_mul 4)).add (hnode _ (by omega))

/-- C83: the derivative of the comoving distance with respect to the parameters is the library's own
quadrature of the derivative of the integrand, `-R_H/2 ∫ dE²/(a² E³) da`, interpolated like the
distance itself. -/
theorem C83_distance (h : Along P v θ) (hE : EsqrPos (P θ)) {a : ℝ} (ha : a < 1) :
    HasDerivAt (fun s => chiOf (P s) a)
      (interp 256 (logspace (-3) 0 256) (fun i => simpsBody
        (fun x => -(const_rh * Real.exp (-x) * dE2 (P θ) v (Real.exp x)
          / (2 * Real.sqrt (Esqr (P θ) (Real.exp x)) ^ 3)))
        (Real.log (logspace (-3) 0 256 i)) 0 (2 * (255 - i))) a) θ := by
  have hd := interp_deriv (n := 256) (logspace (-3) 0 256) (by norm_num)
    (fun i hi => chi_table_deriv h hE (lo := -3) (by norm_num) (by norm_num) hi) a
  have hpos : 0 < interp 256 (logspace (-3) 0 256) (chiTable (P θ) (-3) 256).chi a := by
    have := C06_pos_before (p := P θ) (lo := -3) (n := 256) (by norm_num) (by norm_num) hE ha
    rw [readChi, clipLo, lt_max_iff] at this
    exact this.resolve_right (lt_irrefl _)
  refine hd.congr_of_eventuallyEq ?_
  filter_upwards [hd.continuousAt.eventually (lt_mem_nhds hpos)] with s hs
  exact max_eq_left hs.le

/-- C83: the distance to today and beyond does not respond to the parameters. -/
theorem C83_today (h : Along P v θ) (hE : EsqrPos (P θ)) {a : ℝ} (ha : 1 ≤ a) :
    HasDerivAt (fun s => chiOf (P s) a) 0 θ := by
  refine (hasDerivAt_const θ (0 : ℝ)).congr_of_eventuallyEq ?_
  rcases ha.eq_or_lt with rfl | ha
  · exact Filter.Eventually.of_forall fun s => C06_zero_today (P s) (by norm_num) (by norm_num)
  · have hd := interp_deriv (n := 256) (logspace (-3) 0 256) (by norm_num)
      (fun i hi => chi_table_deriv h hE (lo := -3) (by norm_num) (by norm_num) hi) a
    have hneg : interp 256 (logspace (-3) 0 256) (chiTable (P θ) (-3) 256).chi a < 0 := by
      have := C21_strictAnti (by norm_num) (logspace_increasing (lo := -3) (n := 256) (by norm_num)
        (by norm_num)) (fp := (chiTable (P θ) (-3) 256).chi)
        (fun i hi => chiTable_step _ (by norm_num) (by norm_num) hE i (by omega)) ha
      rwa [interp_chi_one (by norm_num) (by norm_num)] at this
    filter_upwards [hd.continuousAt.eventually (gt_mem_nhds hneg)] with s hs
    exact max_eq_right hs.le

end

end JaxCosmo
