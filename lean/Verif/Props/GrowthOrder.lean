import Verif.Props.OdeOrder
import Verif.Props.GrowthEquation
import Verif.Proofs.LinearIvp
import Mathlib.Analysis.SpecialFunctions.Log.Deriv
import Mathlib.Analysis.SpecialFunctions.ExpDeriv

/-! # C90: the growth table converges to the solution of the growth equation

The exact growth factor that starts as `D(a₀) = a₀`, `D'(a₀) = 1` at the first node exists, is
unique, positive and increasing; the tables of `_growth_factor_ODE` approach `D(a)/D(1)` and
`a D'/D` at fourth order in the number of steps. -/

namespace JaxCosmo
open Spec Set

variable {p : Params}

theorem growthDerivs_secondOrder (p : Params) :
    growthDerivs p = secondOrder (fun x => growthQ p x / x) (fun x => 3 / 2 * Omega_m_a p x / x / x) :=
  rfl

section Coefficients
variable {a0 : ℝ} (h0 : 0 < a0) (hE : EsqrPos p)
include h0

theorem zpow_contDiffOn (k : ℕ) (m : WithTop ℕ∞) :
    ContDiffOn ℝ m (fun x : ℝ => x ^ (-(k : ℤ))) (Icc a0 1) := by
  simp only [zpow_neg, zpow_natCast]
  exact (contDiff_id.pow k).contDiffOn.inv fun x hx => pow_ne_zero _ (h0.trans_le hx.1).ne'

theorem de_contDiffOn (m : WithTop ℕ∞) :
    ContDiffOn ℝ m (fun x => Real.exp (f_de p x)) (Icc a0 1) := by
  unfold f_de
  have hl : ContDiffOn ℝ m Real.log (Icc a0 1) := fun x hx =>
    (Real.contDiffAt_log.2 (h0.trans_le hx.1).ne').contDiffWithinAt
  exact ((contDiffOn_const.mul hl).add (contDiffOn_const.mul
    (contDiffOn_id.sub contDiffOn_const))).exp

theorem Esqr_contDiffOn (m : WithTop ℕ∞) : ContDiffOn ℝ m (Esqr p) (Icc a0 1) :=
  ((contDiffOn_const.mul (zpow_contDiffOn h0 3 m)).add
    (contDiffOn_const.mul (zpow_contDiffOn h0 2 m))).add
      (contDiffOn_const.mul (de_contDiffOn h0 m))

include hE

theorem Omega_m_a_contDiffOn (m : WithTop ℕ∞) : ContDiffOn ℝ m (Omega_m_a p) (Icc a0 1) :=
  (contDiffOn_const.mul (zpow_contDiffOn h0 3 m)).div (Esqr_contDiffOn h0 m)
    fun x hx => (hE x (h0.trans_le hx.1) hx.2).ne'

theorem Omega_de_a_contDiffOn (m : WithTop ℕ∞) : ContDiffOn ℝ m (Omega_de_a p) (Icc a0 1) :=
  (contDiffOn_const.mul (de_contDiffOn h0 m)).div (Esqr_contDiffOn h0 m)
    fun x hx => (hE x (h0.trans_le hx.1) hx.2).ne'

theorem friction_contDiffOn (m : WithTop ℕ∞) :
    ContDiffOn ℝ m (fun x => growthQ p x / x) (Icc a0 1) := by
  have hw : ContDiffOn ℝ m (w p) (Icc a0 1) :=
    contDiffOn_const.add ((contDiffOn_const.sub contDiffOn_id).mul contDiffOn_const)
  refine ContDiffOn.div ?_ contDiffOn_id fun x hx => (h0.trans_le hx.1).ne'
  exact contDiffOn_const.sub (contDiffOn_const.mul ((Omega_m_a_contDiffOn h0 hE m).add
    ((contDiffOn_const.add (contDiffOn_const.mul hw)).mul (Omega_de_a_contDiffOn h0 hE m))))

theorem source_contDiffOn (m : WithTop ℕ∞) :
    ContDiffOn ℝ m (fun x => 3 / 2 * Omega_m_a p x / x / x) (Icc a0 1) :=
  ((contDiffOn_const.mul (Omega_m_a_contDiffOn h0 hE m)).div contDiffOn_id
    fun _ hx => (h0.trans_le hx.1).ne').div contDiffOn_id fun _ hx => (h0.trans_le hx.1).ne'

omit hE in
theorem source_nonneg (hE : EsqrPos p) (hm : 0 ≤ p.Omega_m) :
    ∀ x ∈ Icc a0 1, 0 ≤ 3 / 2 * Omega_m_a p x / x / x := fun x hx => by
  have hx0 := h0.trans_le hx.1
  have := hE x hx0 hx.2
  unfold Omega_m_a
  positivity

/-- The spec's equation is the system that the code integrates. -/
theorem isGrowthOn_iff (D D' : ℝ → ℝ) :
    IsGrowthOn (expansion p) p.Omega_m a0 1 D D' ↔
      ∀ t ∈ Icc a0 1, HasDerivWithinAt (fun x => (D x, D' x)) (growthDerivs p (D t, D' t) t)
        (Icc a0 1) t := by
  refine forall₂_congr fun t ht => ?_
  have ht0 := h0.trans_le ht.1
  rw [C70_equation p _ ht0 (hE t ht0 ht.2)]
  exact ⟨fun h => h.1.prodMk h.2, fun h => ⟨h.fst, h.snd⟩⟩

/-- C90: the growth equation has a solution with the code's initial values, and it is positive and
increasing. -/
theorem C90_solution (h1 : a0 < 1) (hm : 0 ≤ p.Omega_m) :
    ∃ D D' : ℝ → ℝ, IsGrowthOn (expansion p) p.Omega_m a0 1 D D' ∧ D a0 = a0 ∧ D' a0 = 1 ∧
      ∀ a ∈ Icc a0 1, a0 ≤ D a ∧ 0 < D' a := by
  obtain ⟨y, hy0, hy⟩ := secondOrder_exists h1.le (friction_contDiffOn h0 hE 0).continuousOn
    (source_contDiffOn h0 hE 0).continuousOn (a0, 1)
  refine ⟨fun x => (y x).1, fun x => (y x).2, (isGrowthOn_iff h0 hE _ _).2 hy,
    by simp only [hy0], by simp only [hy0], fun a ha => ?_⟩
  have := secondOrder_pos h1.le (friction_contDiffOn h0 hE 0).continuousOn
    (source_nonneg h0 hE hm) hy (by rw [hy0]; exact h0) (by rw [hy0]; exact one_pos) a ha
  rwa [hy0] at this

/-- C90: there is only one. -/
theorem C90_unique (h1 : a0 < 1) {D D' F F' : ℝ → ℝ}
    (hD : IsGrowthOn (expansion p) p.Omega_m a0 1 D D')
    (hF : IsGrowthOn (expansion p) p.Omega_m a0 1 F F') (e : D a0 = F a0) (e' : D' a0 = F' a0) :
    ∀ a ∈ Icc a0 1, D a = F a ∧ D' a = F' a := fun a ha => by
  have := secondOrder_unique h1.le (friction_contDiffOn h0 hE 0).continuousOn
    (source_contDiffOn h0 hE 0).continuousOn ((isGrowthOn_iff h0 hE D D').1 hD)
    ((isGrowthOn_iff h0 hE F F').1 hF) (by simp only [e, e']) ha
  exact ⟨congrArg Prod.fst this, congrArg Prod.snd this⟩

end Coefficients

/-! ### The grid -/

theorem logspace_Icc {lo : ℝ} (hlo : lo < 0) {n : ℕ} (hn : 2 ≤ n) {i : ℕ} (hi : i ≤ n - 1) :
    logspace lo 0 n i ∈ Icc ((10 : ℝ) ^ lo) 1 := by
  have hm := (logspace_strictMono hlo hn).monotone
  constructor
  · rw [← logspace_zero lo 0 n]; exact hm (Nat.zero_le i)
  · rw [← logspace_end lo hn]; exact hm hi

theorem logspace_mesh {lo : ℝ} (hlo : lo < 0) {n : ℕ} (hn : 1 ≤ n) {i : ℕ} (hi : i < n) :
    logspace lo 0 (n + 1) i ≤ logspace lo 0 (n + 1) (i + 1) ∧
      logspace lo 0 (n + 1) (i + 1) - logspace lo 0 (n + 1) i ≤ -lo * Real.log 10 / n := by
  have hm := logspace_strictMono hlo (n := n + 1) (by omega)
  refine ⟨(hm (Nat.lt_succ_self i)).le, ?_⟩
  have h1 := (logspace_Icc hlo (n := n + 1) (by omega) (i := i + 1) (by omega)).2
  have hp := logspace_pos lo 0 (n + 1) i
  have hp' := logspace_pos lo 0 (n + 1) (i + 1)
  have hs := log_logspace_step lo (n := n + 1) i
  set u := logspace lo 0 (n + 1) (i + 1)
  set v := logspace lo 0 (n + 1) i
  have hn' : (0 : ℝ) < n := by exact_mod_cast hn
  have h2 : Real.log v - Real.log u ≤ v / u - 1 := by
    rw [← Real.log_div hp.ne' hp'.ne']
    exact Real.log_le_sub_one_of_pos (by positivity)
  have h3 : u - v ≤ (Real.log u - Real.log v) := by
    have e : u - v = u * (1 - v / u) := by field_simp
    have h4 : 0 ≤ 1 - v / u := by
      rw [sub_nonneg, div_le_one hp']
      exact (hm (Nat.lt_succ_self i)).le
    rw [e]
    nlinarith
  refine h3.trans (le_of_eq ?_)
  rw [hs]
  push_cast
  ring

/-! ### Convergence -/

theorem quotient_error {u U d e ε c : ℝ} (hc : 0 < c) (hε : ε ≤ c / 2) (hu : |u - d| ≤ ε)
    (hU : |U - e| ≤ ε) (hd : c ≤ d) (hde : d ≤ e) : |u / U - d / e| ≤ 4 / c * ε := by
  have he : 0 < e := by linarith
  have hU' : c / 2 ≤ U := by have := (abs_le.1 hU).1; linarith
  have hUp : 0 < U := by linarith
  have hε0 := (abs_nonneg _).trans hu
  have e1 : u / U - d / e = ((u - d) * e - d * (U - e)) / (U * e) := by field_simp; ring
  rw [e1, abs_div, abs_of_pos (mul_pos hUp he), div_le_iff₀ (mul_pos hUp he)]
  have h1 : |(u - d) * e - d * (U - e)| ≤ ε * e + d * ε := by
    refine (abs_sub _ _).trans ?_
    rw [abs_mul, abs_mul, abs_of_pos he, abs_of_pos (show (0:ℝ) < d by linarith)]
    have hd0 : 0 ≤ d := by linarith
    gcongr
  refine h1.trans ?_
  have h2 : ε * e + d * ε ≤ 2 * (ε * e) := by nlinarith
  refine h2.trans ?_
  have h3 : 4 / c * ε * (U * e) = 4 / c * U * (ε * e) := by ring
  rw [h3]
  have h4 : 2 ≤ 4 / c * U := by
    rw [div_mul_eq_mul_div, le_div_iff₀ hc]; linarith
  exact mul_le_mul_of_nonneg_right h4 (by positivity)

theorem rate_error {a u v d d' ε c M : ℝ} (ha : 0 ≤ a) (ha1 : a ≤ 1) (hc : 0 < c) (hε : ε ≤ c / 2)
    (hu : |u - d| ≤ ε) (hv : |v - d'| ≤ ε) (hd : c ≤ d) (hd0 : 0 ≤ d') (hd' : d' ≤ M) :
    |a * v / u - a * d' / d| ≤ (2 / c + 2 * M / c ^ 2) * ε := by
  have hdp : 0 < d := by linarith
  have hu' : c / 2 ≤ u := by have := (abs_le.1 hu).1; linarith
  have hup : 0 < u := by linarith
  have hε0 := (abs_nonneg _).trans hu
  have hM : 0 ≤ M := hd0.trans hd'
  have e1 : a * v / u - a * d' / d = a * ((v - d') / u - d' / d * ((u - d) / u)) := by
    field_simp; ring
  rw [e1, abs_mul, abs_of_nonneg ha]
  have h1 : |(v - d') / u| ≤ 2 / c * ε := by
    rw [abs_div, abs_of_pos hup, div_le_iff₀ hup]
    have : 1 ≤ 2 / c * u := by rw [div_mul_eq_mul_div, le_div_iff₀ hc]; linarith
    calc |v - d'| ≤ ε := hv
      _ ≤ (2 / c * u) * ε := le_mul_of_one_le_left hε0 this
      _ = _ := by ring
  have h2 : |(u - d) / u| ≤ 2 / c * ε := by
    rw [abs_div, abs_of_pos hup, div_le_iff₀ hup]
    have : 1 ≤ 2 / c * u := by rw [div_mul_eq_mul_div, le_div_iff₀ hc]; linarith
    calc |u - d| ≤ ε := hu
      _ ≤ (2 / c * u) * ε := le_mul_of_one_le_left hε0 this
      _ = _ := by ring
  have h3 : d' / d ≤ M / c := div_le_div₀ hM hd' hc hd
  have h4 : |(v - d') / u - d' / d * ((u - d) / u)| ≤ 2 / c * ε + M / c * (2 / c * ε) := by
    refine (abs_sub _ _).trans (add_le_add h1 ?_)
    rw [abs_mul, abs_of_nonneg (div_nonneg hd0 hdp.le)]
    have : 0 ≤ M / c := by positivity
    gcongr
  have e2 : 2 / c * ε + M / c * (2 / c * ε) = (2 / c + 2 * M / c ^ 2) * ε := by ring
  rw [e2] at h4
  exact (mul_le_of_le_one_left (abs_nonneg _) ha1).trans h4

section Table
variable {lo : ℝ} (hlo : lo < 0) (hE : EsqrPos p) (hm : 0 ≤ p.Omega_m) {D D' : ℝ → ℝ}
  (hD : IsGrowthOn (expansion p) p.Omega_m ((10 : ℝ) ^ lo) 1 D D') (hi : D ((10 : ℝ) ^ lo) = 10 ^ lo)
  (hi' : D' ((10 : ℝ) ^ lo) = 1)
include hlo hE hD hi hi'

/-- The integrated state converges at fourth order. -/
theorem growth_state_error : ∃ C, 0 ≤ C ∧ ∀ n : ℕ, 1 ≤ n → ∀ i ≤ n,
    ‖odeint (growthDerivs p) (logspace lo 0 (n + 1) 0, 1) (logspace lo 0 (n + 1)) i
      - (D (logspace lo 0 (n + 1) i), D' (logspace lo 0 (n + 1) i))‖ ≤ C / n ^ 4 := by
  have h0 : (0 : ℝ) < 10 ^ lo := by positivity
  have h1 : (10 : ℝ) ^ lo < 1 := Real.rpow_lt_one_of_one_lt_of_neg (by norm_num) hlo
  have hs := secondOrder_smoothIVP h1 (friction_contDiffOn h0 hE 4) (source_contDiffOn h0 hE 4)
    ((isGrowthOn_iff h0 hE D D').1 hD)
  obtain ⟨C, hC⟩ := C89_order hs h1
  have hl : 0 < Real.log 10 := Real.log_pos (by norm_num)
  refine ⟨|C| * (-lo * Real.log 10) ^ 4, by positivity, fun n hn i hin => ?_⟩
  have hn' : (0 : ℝ) < n := by exact_mod_cast hn
  have hη : 0 ≤ -lo * Real.log 10 / n := by
    have : 0 ≤ -lo := by linarith
    positivity
  have := hC (logspace lo 0 (n + 1)) n (-lo * Real.log 10 / n) (logspace lo 0 (n + 1) 0, 1)
    (fun j hj => logspace_Icc hlo (by omega) (by omega)) (fun j hj => logspace_mesh hlo hn hj) hη i hin
  rw [logspace_zero, hi, hi', sub_self, norm_zero, add_zero] at this
  rw [growthDerivs_secondOrder, logspace_zero]
  refine this.trans ?_
  rw [div_pow, ← mul_div_assoc]
  have : C ≤ |C| := le_abs_self C
  gcongr

theorem growth_error_small : ∃ C, 0 ≤ C ∧ ∃ n0 : ℕ, 1 ≤ n0 ∧ ∀ n ≥ n0,
    C / n ^ 4 ≤ (10 : ℝ) ^ lo / 2 ∧
    ∀ i ≤ n, |(odeint (growthDerivs p) (logspace lo 0 (n + 1) 0, 1) (logspace lo 0 (n + 1)) i).1
        - D (logspace lo 0 (n + 1) i)| ≤ C / n ^ 4 ∧
      |(odeint (growthDerivs p) (logspace lo 0 (n + 1) 0, 1) (logspace lo 0 (n + 1)) i).2
        - D' (logspace lo 0 (n + 1) i)| ≤ C / n ^ 4 := by
  obtain ⟨C, hC0, hC⟩ := growth_state_error hlo hE hD hi hi'
  have h0 : (0 : ℝ) < 10 ^ lo := by positivity
  obtain ⟨N, hN⟩ := exists_nat_ge (2 * C / 10 ^ lo)
  refine ⟨C, hC0, N + 1, by omega, fun n hn => ⟨?_, fun i hin => ?_⟩⟩
  · have hn1 : (1 : ℝ) ≤ n := by exact_mod_cast (by omega : 1 ≤ n)
    have hNn : (N : ℝ) ≤ n := by exact_mod_cast (by omega : N ≤ n)
    have hp : (n : ℝ) ≤ n ^ 4 := le_self_pow₀ hn1 (by norm_num)
    rw [div_le_iff₀ (by positivity)]
    rw [div_le_iff₀ h0] at hN
    nlinarith
  · have := hC n (by omega) i hin
    exact ⟨(norm_fst_le _).trans this, (norm_snd_le _).trans this⟩

include hm

/-- C90: the growth factors in the table differ from the exact `D(a)/D(1)` by at most `C/n⁴`. -/
theorem C90_growth : ∃ (C : ℝ) (n0 : ℕ), ∀ n ≥ n0, ∀ i ≤ n,
    |(growthTableODE p lo (n + 1)).g i - D (logspace lo 0 (n + 1) i) / D 1| ≤ C / n ^ 4 := by
  have h0 : (0 : ℝ) < 10 ^ lo := by positivity
  have h1 : (10 : ℝ) ^ lo < 1 := Real.rpow_lt_one_of_one_lt_of_neg (by norm_num) hlo
  obtain ⟨C, hC0, n0, hn0, hC⟩ := growth_error_small hlo hE hD hi hi'
  have hpos := secondOrder_pos h1.le (friction_contDiffOn h0 hE 0).continuousOn
    (source_nonneg h0 hE hm) ((isGrowthOn_iff h0 hE D D').1 hD) (by rw [hi]; exact h0)
    (by rw [hi']; exact one_pos)
  rw [hi] at hpos
  have hmono : ∀ a ∈ Icc ((10 : ℝ) ^ lo) 1, D a ≤ D 1 := fun a ha => by
    have hm' : MonotoneOn D (Icc ((10 : ℝ) ^ lo) 1) :=
      monotoneOn_of_hasDerivWithinAt_nonneg (convex_Icc _ _) (f' := D')
        (fun t ht => (hD t ht).1.continuousWithinAt)
        (fun t ht => (hD t (interior_subset ht)).1.mono interior_subset)
        fun t ht => (hpos t (interior_subset ht)).2.le
    exact hm' ha (right_mem_Icc.2 h1.le) ha.2
  refine ⟨4 / 10 ^ lo * C, n0, fun n hn i hin => ?_⟩
  obtain ⟨hsmall, herr⟩ := hC n hn
  have hmem := logspace_Icc hlo (n := n + 1) (by omega) (i := i) (by omega)
  have hlast := (herr n le_rfl).1
  have he : logspace lo 0 (n + 1) n = 1 := logspace_end lo (n := n + 1) (by omega)
  rw [he] at hlast
  have := quotient_error h0 hsmall (herr i hin).1 hlast (hpos _ hmem).1 (hmono _ hmem)
  have hix : ix (n + 1) (-1) = n := by rw [ix_last]; rfl
  simp only [growthTableODE, hix]
  refine this.trans (le_of_eq ?_)
  ring

/-- C90: the growth rates in the table differ from the exact `d ln D / d ln a` by at most `C/n⁴`. -/
theorem C90_rate : ∃ (C : ℝ) (n0 : ℕ), ∀ n ≥ n0, ∃ f, (growthTableODE p lo (n + 1)).f = some f ∧
    ∀ i ≤ n, |f i - logspace lo 0 (n + 1) i * D' (logspace lo 0 (n + 1) i)
      / D (logspace lo 0 (n + 1) i)| ≤ C / n ^ 4 := by
  have h0 : (0 : ℝ) < 10 ^ lo := by positivity
  have h1 : (10 : ℝ) ^ lo < 1 := Real.rpow_lt_one_of_one_lt_of_neg (by norm_num) hlo
  obtain ⟨C, hC0, n0, hn0, hC⟩ := growth_error_small hlo hE hD hi hi'
  have hpos := secondOrder_pos h1.le (friction_contDiffOn h0 hE 0).continuousOn
    (source_nonneg h0 hE hm) ((isGrowthOn_iff h0 hE D D').1 hD) (by rw [hi]; exact h0)
    (by rw [hi']; exact one_pos)
  rw [hi] at hpos
  obtain ⟨M, hM⟩ := isCompact_Icc.exists_bound_of_continuousOn
    (fun t ht => (hD t ht).2.continuousWithinAt : ContinuousOn D' (Icc ((10 : ℝ) ^ lo) 1))
  refine ⟨(2 / 10 ^ lo + 2 * M / (10 ^ lo) ^ 2) * C, n0, fun n hn => ⟨_, rfl, fun i hin => ?_⟩⟩
  obtain ⟨hsmall, herr⟩ := hC n hn
  have hmem := logspace_Icc hlo (n := n + 1) (by omega) (i := i) (by omega)
  have hmem1 : (1 : ℝ) ∈ Icc ((10 : ℝ) ^ lo) 1 := right_mem_Icc.2 h1.le
  have hlast := (herr n le_rfl).1
  have he : logspace lo 0 (n + 1) n = 1 := logspace_end lo (n := n + 1) (by omega)
  rw [he] at hlast
  have hix : ix (n + 1) (-1) = n := by rw [ix_last]; rfl
  have hp := hpos _ hmem
  have := rate_error (h0.le.trans hmem.1) hmem.2 h0 hsmall (herr i hin).1 (herr i hin).2 hp.1 hp.2.le
    ((le_abs_self _).trans (hM _ hmem))
  simp only [hix]
  have hU : (odeint (growthDerivs p) (logspace lo 0 (n + 1) 0, 1) (logspace lo 0 (n + 1)) n).1 ≠ 0 := by
    have h2 := (abs_le.1 hlast).1
    have h3 := (hpos 1 hmem1).1
    intro h4
    rw [h4] at h2
    linarith
  generalize hu : odeint (growthDerivs p) (logspace lo 0 (n + 1) 0, 1) (logspace lo 0 (n + 1)) n = yn at *
  generalize odeint (growthDerivs p) (logspace lo 0 (n + 1) 0, 1) (logspace lo 0 (n + 1)) i = yi at *
  have e : yi.2 / yn.1 * logspace lo 0 (n + 1) i / (yi.1 / yn.1)
      = logspace lo 0 (n + 1) i * yi.2 / yi.1 := by
    rw [div_mul_eq_mul_div, div_div_div_cancel_right₀ hU, mul_comm]
  rw [e]
  refine this.trans (le_of_eq ?_)
  ring

end Table

/-- C90 for the Planck cosmology and the default range. -/
example : ∃ (D : ℝ → ℝ) (C : ℝ) (n0 : ℕ), D ((10 : ℝ) ^ (-3 : ℝ)) = 10 ^ (-3 : ℝ) ∧ ∀ n ≥ n0, ∀ i ≤ n,
    |(growthTableODE Planck15 (-3) (n + 1)).g i - D (logspace (-3) 0 (n + 1) i) / D 1| ≤ C / n ^ 4 := by
  have hp := planck_physical
  obtain ⟨D, D', hD, hi, hi', -⟩ := C90_solution (p := Planck15) (a0 := (10 : ℝ) ^ (-3 : ℝ))
    (by positivity) hp.esqrPos (Real.rpow_lt_one_of_one_lt_of_neg (by norm_num) (by norm_num)) hp.m_pos.le
  obtain ⟨C, n0, h⟩ := C90_growth (by norm_num) hp.esqrPos hp.m_pos.le hD hi hi'
  exact ⟨D, C, n0, hi, h⟩

end JaxCosmo
