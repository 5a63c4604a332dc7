import Verif.Model.Background
import Verif.Props.Ode
import Verif.Props.Interp
import Verif.Props.Background
import Verif.Props.Simpson

/-! # Lemmas about the logarithmic grid and the distance table -/

namespace JaxCosmo
open Spec

theorem linspace_strictMono {lo : ℝ} (hlo : lo < 0) {n : ℕ} (hn : 2 ≤ n) :
    StrictMono (linspace lo 0 n) := by
  intro i j hij
  have hn' : (2 : ℝ) ≤ n := by exact_mod_cast hn
  have hij' : (i : ℝ) < j := by exact_mod_cast hij
  have : 0 < (0 - lo) / ((n : ℝ) - 1) := div_pos (by linarith) (by linarith)
  unfold linspace
  nlinarith

theorem linspace_end (lo : ℝ) {n : ℕ} (hn : 2 ≤ n) : linspace lo 0 n (n - 1) = 0 := by
  obtain ⟨m, rfl⟩ : ∃ m, n = m + 1 := ⟨n - 1, by omega⟩
  exact linspace_last lo 0 m (by omega)

theorem logspace_pos (lo hi : ℝ) (n i : ℕ) : 0 < logspace lo hi n i := by
  unfold logspace; positivity

theorem logspace_strictMono {lo : ℝ} (hlo : lo < 0) {n : ℕ} (hn : 2 ≤ n) :
    StrictMono (logspace lo 0 n) := fun i j hij =>
  Real.rpow_lt_rpow_of_exponent_lt (by norm_num) (linspace_strictMono hlo hn hij)

theorem logspace_increasing {lo : ℝ} (hlo : lo < 0) {n : ℕ} (hn : 2 ≤ n) :
    Increasing n (logspace lo 0 n) := fun _ _ hij _ => logspace_strictMono hlo hn hij

theorem logspace_end (lo : ℝ) {n : ℕ} (hn : 2 ≤ n) : logspace lo 0 n (n - 1) = 1 := by
  rw [logspace, linspace_end lo hn, Real.rpow_zero]

theorem logspace_zero (lo hi : ℝ) (n : ℕ) : logspace lo hi n 0 = 10 ^ lo := by
  rw [logspace, linspace_zero]

theorem log_logspace (lo hi : ℝ) (n i : ℕ) :
    Real.log (logspace lo hi n i) = linspace lo hi n i * Real.log 10 := by
  rw [logspace, Real.log_rpow (by norm_num)]

/-- Spacing of the grid in `ln a`. -/
theorem log_logspace_step (lo : ℝ) {n : ℕ} (i : ℕ) :
    Real.log (logspace lo 0 n (i + 1)) - Real.log (logspace lo 0 n i)
      = -lo / ((n : ℝ) - 1) * Real.log 10 := by
  rw [log_logspace, log_logspace, linspace, linspace]; push_cast; ring

theorem log_logspace_strictMono {lo : ℝ} (hlo : lo < 0) {n : ℕ} (hn : 2 ≤ n) :
    StrictMono fun i => Real.log (logspace lo 0 n i) := fun _ _ hij =>
  Real.log_lt_log (logspace_pos _ _ _ _) (logspace_strictMono hlo hn hij)

/-- `dχ/dln a` as a function of `ln a`. -/
noncomputable def chiRate (p : Params) (x : ℝ) : ℝ := dchioverda p (Real.exp x) * Real.exp x

theorem chiRate_eq (p : Params) (x : ℝ) :
    chiRate p x = const_rh * Real.exp (-x) / Real.sqrt (Esqr p (Real.exp x)) := by
  unfold chiRate dchioverda
  have h : Real.exp x ≠ 0 := (Real.exp_pos x).ne'
  rw [Real.exp_neg]
  rcases eq_or_ne (Real.sqrt (Esqr p (Real.exp x))) 0 with h0 | h0
  · simp [h0]
  · field_simp

theorem chiRate_pos (p : Params) (x : ℝ) (h : 0 < Esqr p (Real.exp x)) : 0 < chiRate p x := by
  have := Real.sqrt_pos.mpr h
  rw [chiRate_eq]
  have : 0 < const_rh := by norm_num [const_rh]
  positivity

/-- One Simpson panel between `u` and `v`. -/
noncomputable def panel (g : ℝ → ℝ) (u v : ℝ) : ℝ := (v - u) / 6 * (g u + 4 * g ((u + v) / 2) + g v)

theorem odeint_panel (g : ℝ → ℝ) (y0 : ℝ) (t : ℕ → ℝ) (i : ℕ) :
    odeint (fun _ => g) y0 t i = y0 + ∑ j ∈ Finset.range i, panel g (t j) (t (j + 1)) := by
  rw [C26_simpson]; simp [panel]

/-- The tabulated distance is the sum of the Simpson panels up to today. -/
theorem chiTable_chi (p : Params) (lo : ℝ) (n i : ℕ) (hi : i ≤ n - 1) :
    (chiTable p lo n).chi i = ∑ j ∈ Finset.Ico i (n - 1),
      panel (chiRate p) (Real.log (logspace lo 0 n j)) (Real.log (logspace lo 0 n (j + 1))) := by
  have : (chiTable p lo n).chi i = odeint (fun _ => chiRate p) 0
      (fun i => Real.log (logspace lo 0 n i)) (ix n (-1)) - odeint (fun _ => chiRate p) 0
      (fun i => Real.log (logspace lo 0 n i)) i := rfl
  rw [this, odeint_panel, odeint_panel, ix_last, Finset.sum_Ico_eq_sub _ hi]
  ring

theorem panel_pos (g : ℝ → ℝ) (u v : ℝ) (h : u < v) (hg : ∀ x, u ≤ x → x ≤ v → 0 < g x) :
    0 < panel g u v := by
  unfold panel
  have h1 := hg u le_rfl h.le
  have h2 := hg ((u + v) / 2) (by linarith) (by linarith)
  have h3 := hg v h.le le_rfl
  have : 0 < v - u := by linarith
  positivity

/-- The physical condition used throughout: `E² > 0` from the big bang until today. -/
def EsqrPos (p : Params) : Prop := ∀ a, 0 < a → a ≤ 1 → 0 < Esqr p a

theorem chiTable_step (p : Params) {lo : ℝ} (hlo : lo < 0) {n : ℕ} (hn : 2 ≤ n) (hE : EsqrPos p)
    (i : ℕ) (hi : i + 1 ≤ n - 1) :
    (chiTable p lo n).chi (i + 1) < (chiTable p lo n).chi i := by
  rw [chiTable_chi p lo n i (by omega), chiTable_chi p lo n (i + 1) hi,
    Finset.sum_eq_sum_Ico_succ_bot (by omega : i < n - 1)]
  have : 0 < panel (chiRate p) (Real.log (logspace lo 0 n i))
      (Real.log (logspace lo 0 n (i + 1))) := by
    apply panel_pos _ _ _ (log_logspace_strictMono hlo hn (Nat.lt_succ_self i))
    intro x _ hx
    apply chiRate_pos
    apply hE _ (Real.exp_pos x)
    have h1 : Real.log (logspace lo 0 n (i + 1)) ≤ 0 := by
      apply Real.log_nonpos (logspace_pos _ _ _ _).le
      rw [← logspace_end lo hn]
      exact (logspace_strictMono hlo hn).monotone hi
    exact Real.exp_le_one_iff.mpr (by linarith)
  linarith

theorem chiTable_decreasing (p : Params) {lo : ℝ} (hlo : lo < 0) {n : ℕ} (hn : 2 ≤ n)
    (hE : EsqrPos p) : Decreasing n (chiTable p lo n).chi := by
  intro i j hij
  induction j, hij using Nat.le_induction with
  | base => intro h; exact chiTable_step p hlo hn hE i (by omega)
  | succ j hij ih =>
    intro h
    exact lt_trans (chiTable_step p hlo hn hE j (by omega)) (ih (by omega))

theorem chiTable_last (p : Params) (lo : ℝ) (n : ℕ) : (chiTable p lo n).chi (n - 1) = 0 := by
  rw [chiTable_chi p lo n _ le_rfl]; simp

theorem chiTable_a (p : Params) (lo : ℝ) (n : ℕ) : (chiTable p lo n).a = logspace lo 0 n := rfl
theorem chiTable_n (p : Params) (lo : ℝ) (n : ℕ) : (chiTable p lo n).n = n := rfl

end JaxCosmo
