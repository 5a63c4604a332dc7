import Verif.Proofs.Float
import Verif.Spec.Float
import Mathlib.Analysis.Normed.Module.Basic
import Mathlib.Analysis.Normed.Group.Constructions
import Mathlib.Tactic.Module

/-! # Rounding errors of one Runge–Kutta step -/

namespace JaxCosmo
open Spec

variable {ι : Type*} [Fintype ι]

theorem Rounding.vrd_err (A : Rounding) (v : ι → ℝ) : ‖A.vrd v - v‖ ≤ A.u * ‖v‖ := by
  rw [pi_norm_le_iff_of_nonneg (mul_nonneg A.u_nonneg (norm_nonneg v))]
  intro i
  exact (A.err (v i)).trans (mul_le_mul_of_nonneg_left (norm_le_pi_norm v i) A.u_nonneg)

/-- Everything one step depends on. -/
structure Run (ι : Type*) where
  A : Rounding
  fn : (ι → ℝ) → ℝ → (ι → ℝ)
  φ : ℝ
  y : ι → ℝ
  s : ℝ
  h : ℝ

/-- The steps considered. -/
def Good (f : (ι → ℝ) → ℝ → (ι → ℝ)) (a b : ℝ) (q : Run ι) : Prop :=
  Computes q.A q.fn f q.φ a b ∧ 0 ≤ q.φ ∧ q.φ ≤ 1 ∧ 0 ≤ q.h ∧ a ≤ q.s ∧ q.s + q.h ≤ b

/-- Size of the rounding errors of one step. -/
def Run.ε (q : Run ι) : ℝ := q.A.u + q.h * q.φ

/-- Size of the state. -/
noncomputable def Run.N (q : Run ι) : ℝ := 1 + ‖q.y‖

/-- `V'` approximates `V`, with errors weighted by `w`. -/
def Ap (G : Run ι → Prop) (w : Run ι → ℝ) (V' V : Run ι → ι → ℝ) : Prop :=
  ∃ C, 0 ≤ C ∧ ∀ q, G q → w q * ‖V' q - V q‖ ≤ C * (q.ε * q.N) ∧ ‖V q‖ ≤ C * q.N

variable {G : Run ι → Prop} {w : Run ι → ℝ} {V' V W' W : Run ι → ι → ℝ}
  {f : (ι → ℝ) → ℝ → (ι → ℝ)} {a b : ℝ}

theorem Run.one_le_N (q : Run ι) : 1 ≤ q.N := by unfold Run.N; linarith [norm_nonneg q.y]

omit [Fintype ι] in
theorem Run.u_le_ε (q : Run ι) (h : 0 ≤ q.φ) (h' : 0 ≤ q.h) : q.A.u ≤ q.ε := by
  unfold Run.ε; linarith [mul_nonneg h' h]

theorem Ap.add (h1 : Ap G w V' V) (h2 : Ap G w W' W) (hw : ∀ q, G q → 0 ≤ w q) :
    Ap G w (fun q => V' q + W' q) (fun q => V q + W q) := by
  obtain ⟨C, hC, h1⟩ := h1
  obtain ⟨C', hC', h2⟩ := h2
  refine ⟨C + C', by positivity, fun q hq => ?_⟩
  obtain ⟨a1, a2⟩ := h1 q hq
  obtain ⟨b1, b2⟩ := h2 q hq
  constructor
  · have e : V' q + W' q - (V q + W q) = (V' q - V q) + (W' q - W q) := by abel
    rw [e]
    have := mul_le_mul_of_nonneg_left (norm_add_le (V' q - V q) (W' q - W q)) (hw q hq)
    linarith
  · linarith [norm_add_le (V q) (W q)]

theorem Ap.smul (c : ℝ) (h1 : Ap G w V' V) : Ap G w (fun q => c • V' q) (fun q => c • V q) := by
  obtain ⟨C, hC, h1⟩ := h1
  refine ⟨|c| * C, by positivity, fun q hq => ?_⟩
  obtain ⟨a1, a2⟩ := h1 q hq
  rw [← smul_sub, norm_smul, norm_smul, Real.norm_eq_abs]
  constructor
  · have := mul_le_mul_of_nonneg_left a1 (abs_nonneg c)
    linarith
  · have := mul_le_mul_of_nonneg_left a2 (abs_nonneg c)
    linarith

theorem Ap.rd (h1 : Ap (Good f a b) w V' V) (hw : ∃ B, ∀ q, Good f a b q → 0 ≤ w q ∧ w q ≤ B) :
    Ap (Good f a b) w (fun q => q.A.vrd (V' q)) V := by
  obtain ⟨C, hC, h1⟩ := h1
  obtain ⟨B, hw⟩ := hw
  refine ⟨2 * C + |B| * C, by positivity, fun q hq => ?_⟩
  obtain ⟨a1, a2⟩ := h1 q hq
  obtain ⟨w0, wB⟩ := hw q hq
  have hu0 := q.A.u_nonneg
  have hu := q.A.u_le
  have hε := q.u_le_ε hq.2.1 hq.2.2.2.1
  have hN := q.one_le_N
  have hN0 : 0 ≤ q.N := by linarith
  constructor
  · have e1 : ‖q.A.vrd (V' q) - V q‖ ≤ q.A.u * ‖V' q‖ + ‖V' q - V q‖ := by
      have e : q.A.vrd (V' q) - V q = (q.A.vrd (V' q) - V' q) + (V' q - V q) := by abel
      rw [e]
      exact (norm_add_le _ _).trans (add_le_add (q.A.vrd_err _) le_rfl)
    have e2 : ‖V' q‖ ≤ ‖V' q - V q‖ + ‖V q‖ := by
      have := norm_add_le (V' q - V q) (V q)
      rwa [sub_add_cancel] at this
    have e3 : w q * ‖q.A.vrd (V' q) - V q‖ ≤ (1 + q.A.u) * (w q * ‖V' q - V q‖)
        + q.A.u * (w q * ‖V q‖) := by
      have h3 := mul_le_mul_of_nonneg_left e2 hu0
      have h4 := mul_le_mul_of_nonneg_left (e1.trans (add_le_add h3 le_rfl)) w0
      linarith
    have e4 : (1 + q.A.u) * (w q * ‖V' q - V q‖) ≤ 2 * (C * (q.ε * q.N)) :=
      mul_le_mul (by linarith) a1 (mul_nonneg w0 (norm_nonneg _)) (by norm_num)
    have e5 : w q * ‖V q‖ ≤ |B| * (C * q.N) :=
      mul_le_mul (wB.trans (le_abs_self B)) a2 (norm_nonneg _) (abs_nonneg B)
    have e6 : q.A.u * (w q * ‖V q‖) ≤ q.ε * (|B| * (C * q.N)) :=
      mul_le_mul hε e5 (mul_nonneg w0 (norm_nonneg _)) (hu0.trans hε)
    linarith
  · have : 0 ≤ |B| * C * q.N := by positivity
    nlinarith

theorem good_h_le {q : Run ι} (hq : Good f a b q) : q.h ≤ b - a := by
  linarith [hq.2.2.2.2.1, hq.2.2.2.2.2]

theorem weight_one : ∃ B, ∀ q, Good f a b q → 0 ≤ (fun _ : Run ι => (1 : ℝ)) q ∧
    (fun _ : Run ι => (1 : ℝ)) q ≤ B := ⟨1, fun _ _ => ⟨zero_le_one, le_rfl⟩⟩

theorem weight_h : ∃ B, ∀ q, Good f a b q → 0 ≤ q.h ∧ q.h ≤ B :=
  ⟨b - a, fun _ hq => ⟨hq.2.2.2.1, good_h_le hq⟩⟩

/-- Multiplication of a slope by the step. -/
theorem Ap.step (h1 : Ap (Good f a b) Run.h V' V) {c' : Run ι → ℝ} {c : ℝ}
    (hc : ∃ B, 0 ≤ B ∧ ∀ q, Good f a b q → |c' q - c * q.h| ≤ B * q.A.u * q.h) :
    Ap (Good f a b) (fun _ => 1) (fun q => c' q • V' q) (fun q => (c * q.h) • V q) := by
  obtain ⟨C, hC, h1⟩ := h1
  obtain ⟨B, hB, hc⟩ := hc
  refine ⟨(|c| + B) * C + B * |b - a| * C + |c| * |b - a| * C, by positivity, fun q hq => ?_⟩
  obtain ⟨a1, a2⟩ := h1 q hq
  have hh : 0 ≤ q.h := hq.2.2.2.1
  have hhb : q.h ≤ |b - a| := (good_h_le hq).trans (le_abs_self _)
  have hu0 := q.A.u_nonneg
  have hu := q.A.u_le
  have hε := q.u_le_ε hq.2.1 hh
  have hε0 := hu0.trans hε
  have hN := q.one_le_N
  have hN0 : 0 ≤ q.N := by linarith
  have hc1 := hc q hq
  have hc2 : |c' q| ≤ (|c| + B) * q.h := by
    have h2 := abs_sub_abs_le_abs_sub (c' q) (c * q.h)
    rw [abs_mul, abs_of_nonneg hh] at h2
    have h3 : B * q.A.u * q.h ≤ B * 1 * q.h := by gcongr; linarith
    linarith
  have hV := norm_nonneg (V q)
  constructor
  · have e : c' q • V' q - (c * q.h) • V q = c' q • (V' q - V q) + (c' q - c * q.h) • V q := by
      module
    rw [one_mul, e]
    refine (norm_add_le _ _).trans ?_
    rw [norm_smul, norm_smul, Real.norm_eq_abs, Real.norm_eq_abs]
    have e1 : |c' q| * ‖V' q - V q‖ ≤ (|c| + B) * (C * (q.ε * q.N)) := by
      have h2 := mul_le_mul_of_nonneg_right hc2 (norm_nonneg (V' q - V q))
      have h3 := mul_le_mul_of_nonneg_left a1 (by positivity : 0 ≤ |c| + B)
      linarith
    have e2 : |c' q - c * q.h| * ‖V q‖ ≤ B * q.ε * |b - a| * (C * q.N) := by
      refine mul_le_mul (hc1.trans ?_) a2 hV (by positivity)
      gcongr
    have : 0 ≤ |c| * |b - a| * C * (q.ε * q.N) := by positivity
    linarith
  · rw [norm_smul, Real.norm_eq_abs, abs_mul, abs_of_nonneg hh]
    have e1 : |c| * q.h * ‖V q‖ ≤ |c| * |b - a| * (C * q.N) := by gcongr
    have : 0 ≤ ((|c| + B) * C + B * |b - a| * C) * q.N := by positivity
    linarith

/-- Evaluation of the right-hand side. -/
theorem Ap.eval {K F : ℝ} (hK : 0 ≤ K) (hF : 0 ≤ F)
    (hlip : ∀ t ∈ Set.Icc a b, ∀ x x', ‖f x t - f x' t‖ ≤ K * ‖x - x'‖)
    (hbd : ∀ t ∈ Set.Icc a b, ∀ x, ‖f x t‖ ≤ F * (1 + ‖x‖))
    (h1 : Ap (Good f a b) (fun _ => 1) V' V) {s' s : Run ι → ℝ}
    (hs : ∀ q, Good f a b q → s q ∈ Set.Icc a b ∧ |s' q - s q| ≤ 4 * q.A.u * (|a| + |b|)) :
    Ap (Good f a b) Run.h (fun q => q.fn (V' q) (s' q)) (fun q => f (V q) (s q)) := by
  obtain ⟨C, hC, h1⟩ := h1
  refine ⟨(1 + C + C * (1 + |b - a|)) + |b - a| * (K * C) + F * (1 + C), by positivity,
    fun q hq => ?_⟩
  obtain ⟨a1, a2⟩ := h1 q hq
  rw [one_mul] at a1
  obtain ⟨s1, s2⟩ := hs q hq
  have hh : 0 ≤ q.h := hq.2.2.2.1
  have hhb : q.h ≤ |b - a| := (good_h_le hq).trans (le_abs_self _)
  have hu0 := q.A.u_nonneg
  have hu := q.A.u_le
  have hφ0 := hq.2.1
  have hφ1 := hq.2.2.1
  have hε := q.u_le_ε hφ0 hh
  have hε0 := hu0.trans hε
  have hhφ : q.h * q.φ ≤ q.ε := by unfold Run.ε; linarith
  have hε1 : q.ε ≤ 1 + |b - a| := by
    unfold Run.ε
    have : q.h * q.φ ≤ |b - a| * 1 := mul_le_mul hhb hφ1 hφ0 (abs_nonneg _)
    linarith
  have hN := q.one_le_N
  have hN0 : 0 ≤ q.N := by linarith
  constructor
  · have e : q.fn (V' q) (s' q) - f (V q) (s q)
        = (q.fn (V' q) (s' q) - f (V' q) (s q)) + (f (V' q) (s q) - f (V q) (s q)) := by abel
    have e1 := hq.1 (V' q) (s q) s1 (s' q) s2
    have e2 := hlip (s q) s1 (V' q) (V q)
    have e3 : ‖V' q‖ ≤ C * ((1 + |b - a|) * q.N) + C * q.N := by
      have h2 := norm_add_le (V' q - V q) (V q)
      rw [sub_add_cancel] at h2
      have h3 : C * (q.ε * q.N) ≤ C * ((1 + |b - a|) * q.N) := by gcongr
      linarith
    have e4 : q.h * (q.φ * (1 + ‖V' q‖)) ≤ q.ε * ((1 + C + C * (1 + |b - a|)) * q.N) := by
      rw [← mul_assoc]
      refine mul_le_mul hhφ ?_ (by positivity) hε0
      linarith
    have e5 : q.h * (K * ‖V' q - V q‖) ≤ |b - a| * (K * (C * (q.ε * q.N))) := by gcongr
    have e6 : q.h * ‖q.fn (V' q) (s' q) - f (V q) (s q)‖
        ≤ q.h * (q.φ * (1 + ‖V' q‖)) + q.h * (K * ‖V' q - V q‖) := by
      rw [e, ← mul_add]
      exact mul_le_mul_of_nonneg_left ((norm_add_le _ _).trans (add_le_add e1 e2)) hh
    have : 0 ≤ F * (1 + C) * (q.ε * q.N) := by positivity
    linarith
  · have e1 := hbd (s q) s1 (V q)
    have e2 : F * (1 + ‖V q‖) ≤ F * ((1 + C) * q.N) := by
      refine mul_le_mul_of_nonneg_left ?_ hF
      linarith
    have : 0 ≤ ((1 + C + C * (1 + |b - a|)) + |b - a| * (K * C)) * q.N := by positivity
    linarith

theorem abs_le_ends {s : ℝ} (h : s ∈ Set.Icc a b) : |s| ≤ |a| + |b| := by
  rw [abs_le]
  constructor
  · linarith [h.1, neg_abs_le a, abs_nonneg b]
  · linarith [h.2, le_abs_self b, abs_nonneg a]

omit [Fintype ι] in
/-- The computed step. -/
theorem step_err {q : Run ι} (hh : 0 ≤ q.h) :
    |q.A.sub (q.s + q.h) q.s - q.h| ≤ q.A.u * q.h := by
  have := q.A.err (q.s + q.h - q.s)
  rw [show q.s + q.h - q.s = q.h by ring, abs_of_nonneg hh] at this
  rw [Rounding.sub, show q.s + q.h - q.s = q.h by ring]
  exact this

/-- The computed midpoint. -/
theorem mid_err {q : Run ι} (hq : Good f a b q) :
    q.s + q.h / 2 ∈ Set.Icc a b ∧
    |q.A.add q.s (q.A.div (q.A.sub (q.s + q.h) q.s) 2) - (q.s + q.h / 2)|
      ≤ 4 * q.A.u * (|a| + |b|) := by
  have hh : 0 ≤ q.h := hq.2.2.2.1
  have has := hq.2.2.2.2.1
  have hsb := hq.2.2.2.2.2
  have hm : q.s + q.h / 2 ∈ Set.Icc a b := ⟨by linarith, by linarith⟩
  refine ⟨hm, ?_⟩
  have hu0 := q.A.u_nonneg
  have hu := q.A.u_le
  have h1 := step_err (q := q) hh
  set h' := q.A.sub (q.s + q.h) q.s
  have hm' := abs_le_ends hm
  have hhe : q.h ≤ |a| + |b| := by linarith [neg_abs_le a, le_abs_self b]
  have h2 := q.A.err (h' / 2)
  have e2 : q.A.rd (h' / 2) = q.A.div h' 2 := rfl
  rw [e2] at h2
  set g := q.A.div h' 2
  have h3 := q.A.err (q.s + g)
  have e3 : q.A.rd (q.s + g) = q.A.add q.s g := rfl
  rw [e3] at h3
  have h1' := abs_le.1 h1
  have b1 : |h' / 2| ≤ q.h := by
    rw [abs_le]; constructor <;> nlinarith [h1'.1, h1'.2]
  have b2 : |g - q.h / 2| ≤ 3 / 2 * q.A.u * q.h := by
    have h2' := abs_le.1 (h2.trans (mul_le_mul_of_nonneg_left b1 hu0))
    rw [abs_le]; constructor <;> linarith [h1'.1, h1'.2, h2'.1, h2'.2]
  have b3 : |q.s + g| ≤ (|a| + |b|) + 3 / 2 * q.A.u * q.h := by
    have e : q.s + g = (q.s + q.h / 2) + (g - q.h / 2) := by ring
    rw [e]
    exact (abs_add_le _ _).trans (add_le_add hm' b2)
  have e4 : q.A.add q.s g - (q.s + q.h / 2) = (q.A.add q.s g - (q.s + g)) + (g - q.h / 2) := by ring
  rw [e4]
  refine (abs_add_le _ _).trans ?_
  have b4 := h3.trans (mul_le_mul_of_nonneg_left b3 hu0)
  have b5 : q.A.u * q.h ≤ q.A.u * (|a| + |b|) := mul_le_mul_of_nonneg_left hhe hu0
  have b6 : q.A.u * (3 / 2 * q.A.u * q.h) ≤ 1 / 8 * (3 / 2 * q.A.u * q.h) :=
    mul_le_mul_of_nonneg_right hu (by positivity)
  linarith

theorem coeff_h : ∃ B, 0 ≤ B ∧ ∀ q : Run ι, Good f a b q →
    |q.A.sub (q.s + q.h) q.s - 1 * q.h| ≤ B * q.A.u * q.h :=
  ⟨1, zero_le_one, fun q hq => by rw [one_mul, one_mul]; exact step_err hq.2.2.2.1⟩

theorem coeff_sixth : ∃ B, 0 ≤ B ∧ ∀ q : Run ι, Good f a b q →
    |q.A.mul (q.A.div 1 6) (q.A.sub (q.s + q.h) q.s) - 1 / 6 * q.h| ≤ B * q.A.u * q.h := by
  refine ⟨2, by norm_num, fun q hq => ?_⟩
  have hh : 0 ≤ q.h := hq.2.2.2.1
  have hu0 := q.A.u_nonneg
  have hu := q.A.u_le
  have h1 := step_err (q := q) hh
  set h' := q.A.sub (q.s + q.h) q.s
  have h2 := q.A.err (1 / 6)
  have e2 : q.A.rd (1 / 6) = q.A.div 1 6 := rfl
  rw [e2, abs_of_pos (by norm_num : (0 : ℝ) < 1 / 6)] at h2
  set c := q.A.div 1 6
  have h3 := q.A.err (c * h')
  have e3 : q.A.rd (c * h') = q.A.mul c h' := rfl
  rw [e3] at h3
  have h1' := abs_le.1 h1
  have h2' := abs_le.1 h2
  have c0 : |c| ≤ 1 / 4 := by rw [abs_le]; constructor <;> linarith [h2'.1, h2'.2]
  have b1 : |h'| ≤ 2 * q.h := by rw [abs_le]; constructor <;> nlinarith [h1'.1, h1'.2]
  have b2 : |c * h'| ≤ 1 / 2 * q.h := by
    rw [abs_mul]
    have := mul_le_mul c0 b1 (abs_nonneg _) (by norm_num)
    linarith
  have b3 : |c * h' - 1 / 6 * q.h| ≤ 1 / 2 * (q.A.u * q.h) := by
    have e : c * h' - 1 / 6 * q.h = c * (h' - q.h) + (c - 1 / 6) * q.h := by ring
    rw [e]
    refine (abs_add_le _ _).trans ?_
    rw [abs_mul, abs_mul, abs_of_nonneg hh]
    have t1 := mul_le_mul c0 h1 (abs_nonneg _) (by norm_num)
    have t2 := mul_le_mul_of_nonneg_right h2 hh
    have : 0 ≤ q.A.u * q.h := by positivity
    linarith
  have e4 : q.A.mul c h' - 1 / 6 * q.h = (q.A.mul c h' - c * h') + (c * h' - 1 / 6 * q.h) := by ring
  rw [e4]
  refine (abs_add_le _ _).trans ?_
  have b4 := h3.trans (mul_le_mul_of_nonneg_left b2 hu0)
  have : 0 ≤ q.A.u * q.h := by positivity
  linarith

/-- Rounding error of one step: a few units of rounding, plus the step times the error of the
right-hand side. -/
theorem rk4F_local {K F : ℝ} (hK : 0 ≤ K) (hF : 0 ≤ F)
    (hlip : ∀ t ∈ Set.Icc a b, ∀ x x', ‖f x t - f x' t‖ ≤ K * ‖x - x'‖)
    (hbd : ∀ t ∈ Set.Icc a b, ∀ x, ‖f x t‖ ≤ F * (1 + ‖x‖)) :
    ∃ C, 0 ≤ C ∧ ∀ q : Run ι, Good f a b q →
      ‖(rk4F q.A q.fn (q.y, q.s) (q.s + q.h)).2 - (rk4 f (q.y, q.s) (q.s + q.h)).2‖
        ≤ C * (q.A.u + q.h * q.φ) * (1 + ‖q.y‖) := by
  have w1 := weight_one (f := f) (a := a) (b := b)
  have wh := weight_h (f := f) (a := a) (b := b)
  have w1' : ∀ q : Run ι, Good f a b q → 0 ≤ (fun _ : Run ι => (1 : ℝ)) q := fun _ _ => zero_le_one
  have wh' : ∀ q : Run ι, Good f a b q → 0 ≤ q.h := fun q hq => hq.2.2.2.1
  have y0 : Ap (Good f a b) (fun _ => 1) (fun q => q.y) (fun q => q.y) :=
    ⟨1, zero_le_one, fun q hq => by
      have h1 := q.u_le_ε hq.2.1 hq.2.2.2.1
      have h2 := q.A.u_nonneg
      have h3 := q.one_le_N
      have : 0 ≤ q.ε * q.N := mul_nonneg (by linarith) (by linarith)
      constructor
      · simpa using this
      · unfold Run.N; linarith⟩
  have hend : ∀ q : Run ι, Good f a b q → q.s ∈ Set.Icc a b ∧
      |q.s - q.s| ≤ 4 * q.A.u * (|a| + |b|) := fun q hq =>
    ⟨⟨hq.2.2.2.2.1, by linarith [hq.2.2.2.1, hq.2.2.2.2.2]⟩, by
      have := q.A.u_nonneg
      rw [sub_self, abs_zero]; positivity⟩
  have hend' : ∀ q : Run ι, Good f a b q → q.s + q.h ∈ Set.Icc a b ∧
      |q.s + q.h - (q.s + q.h)| ≤ 4 * q.A.u * (|a| + |b|) := fun q hq =>
    ⟨⟨by linarith [hq.2.2.2.1, hq.2.2.2.2.1], hq.2.2.2.2.2⟩, by
      have := q.A.u_nonneg
      rw [sub_self, abs_zero]; positivity⟩
  have hmid := fun q (hq : Good f a b q) => mid_err hq
  have k1 := y0.eval hK hF hlip hbd hend
  have x2 := (y0.add (((k1.step coeff_h).rd w1).smul (1 / 2) |>.rd w1) w1').rd w1
  have k2 := x2.eval hK hF hlip hbd hmid
  have x3 := (y0.add (((k2.step coeff_h).rd w1).smul (1 / 2) |>.rd w1) w1').rd w1
  have k3 := x3.eval hK hF hlip hbd hmid
  have x4 := (y0.add ((k3.step coeff_h).rd w1) w1').rd w1
  have k4 := x4.eval hK hF hlip hbd hend'
  have s := ((((k1.add ((k2.smul 2).rd wh) wh').rd wh).add ((k3.smul 2).rd wh) wh').rd wh |>.add k4
    wh').rd wh
  have r := (y0.add ((s.step coeff_sixth).rd w1) w1').rd w1
  obtain ⟨C, hC, hr⟩ := r
  refine ⟨C, hC, fun q hq => ?_⟩
  have := (hr q hq).1
  rw [one_mul] at this
  have e : ∀ v : ι → ℝ, (1 / 2 : ℝ) • q.h • v = (q.h / 2) • v := fun v => by
    rw [smul_smul]; congr 1; ring
  have e' : q.s + q.h - q.s = q.h := by ring
  simp only [e, one_mul] at this
  simp only [rk4F, rk4, e']
  rw [mul_assoc]
  exact this

end JaxCosmo
