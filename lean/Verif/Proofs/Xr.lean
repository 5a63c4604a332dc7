import Verif.Model.XrBackground
import Mathlib.Tactic.Linarith
import Mathlib.Tactic.FieldSimp

/-! # Finite operands: the operations on `Xr` agree with those on real numbers -/

namespace JaxCosmo
namespace Xr

theorem lit_zero : (0 : Xr) = fin 0 := rfl
theorem lit_one : (1 : Xr) = fin 1 := rfl
theorem lit_nat (n : ℕ) [n.AtLeastTwo] : (ofNat(n) : Xr) = fin ofNat(n) := rfl
theorem lit_sci (m : ℕ) (s : Bool) (e : ℕ) :
    (OfScientific.ofScientific m s e : Xr) = fin (OfScientific.ofScientific m s e) := rfl
@[simp] theorem neg_fin (x : ℝ) : -fin x = fin (-x) := rfl
@[simp] theorem add_fin (x y : ℝ) : fin x + fin y = fin (x + y) := rfl
@[simp] theorem sub_fin (x y : ℝ) : fin x - fin y = fin (x - y) := by
  rw [sub_eq_add_neg]; rfl
@[simp] theorem mul_fin (x y : ℝ) : fin x * fin y = fin (x * y) := rfl
@[simp] theorem smul_fin (x y : ℝ) : fin x • fin y = fin (x * y) := rfl
theorem div_fin (x : ℝ) {y : ℝ} (h : y ≠ 0) : fin x / fin y = fin (x / y) := if_neg h
@[simp] theorem div_fin_lit (x : ℝ) (n : ℕ) [n.AtLeastTwo] :
    fin x / fin ofNat(n) = fin (x / ofNat(n)) :=
  div_fin x (OfNat.ofNat_ne_zero n)
@[simp] theorem exp_fin (x : ℝ) : (fin x).exp = fin (Real.exp x) := rfl
@[simp] theorem sin_fin (x : ℝ) : (fin x).sin = fin (Real.sin x) := rfl
@[simp] theorem cos_fin (x : ℝ) : (fin x).cos = fin (Real.cos x) := rfl
@[simp] theorem sinh_fin (x : ℝ) : (fin x).sinh = fin (Real.sinh x) := rfl
@[simp] theorem abs_fin (x : ℝ) : (fin x).abs = fin |x| := rfl
@[simp] theorem max_fin (x y : ℝ) : (fin x).max (fin y) = fin (Max.max x y) := rfl
@[simp] theorem min_fin (x y : ℝ) : (fin x).min (fin y) = fin (Min.min x y) := rfl
theorem log_fin {x : ℝ} (h : 0 < x) : (fin x).log = fin (Real.log x) := if_pos h
theorem sqrt_fin {x : ℝ} (h : 0 ≤ x) : (fin x).sqrt = fin (√x) := if_neg h.not_gt
theorem rpow_fin {x : ℝ} (h : 0 < x) (r : ℝ) : (fin x).rpow (fin r) = fin (x ^ r) := if_pos h
theorem rpow_fin_zero {r : ℝ} (h : 0 < r) : (fin 0).rpow (fin r) = fin (0 ^ r) := by
  simp [rpow, h, Real.zero_rpow h.ne']
theorem rpow_fin' {x r : ℝ} (hx : 0 ≤ x) (h : 0 < r) : (fin x).rpow (fin r) = fin (x ^ r) := by
  rcases hx.eq_or_lt with rfl | hx
  · exact rpow_fin_zero h
  · exact rpow_fin hx r
@[simp] theorem npow_fin (x : ℝ) (n : ℕ) : fin x ^ n = fin (x ^ n) := by
  change npow (fin x) n = _
  induction n with
  | zero => simp [npow]
  | succ n ih => rw [npow, ih, mul_fin, pow_succ]
theorem ninvpow_fin {x : ℝ} (h : x ≠ 0) (n : ℕ) : (fin x).ninvpow n = fin (x ^ (-(n : ℤ))) := by
  rw [ninvpow, npow_fin, div_fin _ (pow_ne_zero _ h)]
  simp
theorem sinc_fin (x : ℝ) : (fin x).sinc = fin (if x = 0 then 1
    else Real.sin (Real.pi * x) / (Real.pi * x)) := by
  unfold sinc
  by_cases h : x = 0
  · simp [h]
  · rw [if_neg (by simpa using h), if_neg h, mul_fin, sin_fin,
      div_fin _ (mul_ne_zero Real.pi_ne_zero h)]
theorem sum_fin (n : ℕ) (f : ℕ → ℝ) :
    Xr.sum n (fun i => fin (f i)) = fin (∑ i ∈ Finset.range n, f i) := by
  induction n with
  | zero => simp [Xr.sum]
  | succ n ih => rw [Xr.sum, ih, add_fin, Finset.sum_range_succ]
theorem sum_congr {n : ℕ} {f g : ℕ → Xr} (h : ∀ i < n, f i = g i) : Xr.sum n f = Xr.sum n g := by
  induction n with
  | zero => rfl
  | succ n ih => rw [Xr.sum, Xr.sum, ih fun i hi => h i (by omega), h n (by omega)]

/-! A NaN operand gives a NaN. -/

@[simp] theorem nan_add (x : Xr) : nan + x = nan := rfl
@[simp] theorem add_nan (x : Xr) : x + nan = nan := by cases x <;> rfl
@[simp] theorem neg_nan : -nan = nan := rfl
@[simp] theorem nan_sub (x : Xr) : nan - x = nan := rfl
@[simp] theorem sub_nan (x : Xr) : x - nan = nan := by cases x <;> rfl
@[simp] theorem nan_mul (x : Xr) : nan * x = nan := rfl
@[simp] theorem mul_nan (x : Xr) : x * nan = nan := by cases x <;> rfl
@[simp] theorem smul_nan (x : Xr) : x • nan = nan := by cases x <;> rfl
@[simp] theorem nan_div (x : Xr) : nan / x = nan := rfl
@[simp] theorem div_nan (x : Xr) : x / nan = nan := by cases x <;> rfl
@[simp] theorem exp_nan : nan.exp = nan := rfl
@[simp] theorem log_nan : nan.log = nan := rfl
@[simp] theorem sqrt_nan : nan.sqrt = nan := rfl
@[simp] theorem nan_max (x : Xr) : nan.max x = nan := rfl
@[simp] theorem max_nan (x : Xr) : x.max nan = nan := by cases x <;> rfl
@[simp] theorem nan_min (x : Xr) : nan.min x = nan := rfl
@[simp] theorem min_nan (x : Xr) : x.min nan = nan := by cases x <;> rfl
theorem nan_rpow {r : ℝ} (h : r ≠ 0) : nan.rpow (fin r) = nan := if_neg h
theorem rpow_nan {x : ℝ} (h : x ≠ 1) : (fin x).rpow nan = nan := if_neg h
theorem nan_npow (n : ℕ) (h : n ≠ 0) : nan ^ n = nan := by
  obtain ⟨m, rfl⟩ := Nat.exists_eq_succ_of_ne_zero h
  exact mul_nan _
theorem sqrt_neg {x : ℝ} (h : x < 0) : (fin x).sqrt = nan := if_pos h

end Xr

namespace Xm
open Xr

theorem argminUpTo_fin {dX : ℕ → Xr} {d : ℕ → ℝ} {m : ℕ} (h : ∀ i ≤ m, dX i = fin (d i)) :
    argminUpTo dX m = JaxCosmo.argminUpTo d m := by
  induction m with
  | zero => rfl
  | succ m ih =>
    have hle : ∀ (e : ℕ → ℝ) (j : ℕ), JaxCosmo.argminUpTo e j ≤ j := by
      intro e j
      induction j with
      | zero => exact le_rfl
      | succ j ih => rw [JaxCosmo.argminUpTo]; split_ifs <;> omega
    rw [argminUpTo, JaxCosmo.argminUpTo, ih fun i hi => h i (by omega), h _ le_rfl,
      h _ ((hle d m).trans (by omega))]
    simp [lt]

theorem interp_fin {n : ℕ} (hn : 3 ≤ n) {xpX fpX : ℕ → Xr} {xp fp : ℕ → ℝ}
    (hx : ∀ i < n, xpX i = fin (xp i)) (hf : ∀ i < n, fpX i = fin (fp i))
    (hinj : ∀ i j, i < n → j < n → i ≠ j → xp i ≠ xp j) (x : ℝ) :
    interp n xpX fpX (fin x) = fin (JaxCosmo.interp n xp fp x) := by
  have e0 : argminUpTo (fun i => (fin x - xpX i) ^ 2) (n - 1)
      = argmin n (fun i => (x - xp i) ^ 2) :=
    argminUpTo_fin fun i hi => by rw [hx i (by omega), sub_fin, npow_fin]
  have hlt : ∀ j : ℤ, ix n j < n := fun j => by unfold ix; omega
  unfold interp JaxCosmo.interp
  simp only [e0, hx _ (hlt _), hf _ (hlt _), max_fin, min_fin, sub_fin, sgn]
  generalize (argmin n fun i => (x - xp i) ^ 2) = i0
  generalize hs : JaxCosmo.sgn (K := ℝ) _ = s
  have hnb : ix n (iclip i0 1 ((n : ℤ) - 2) + copysign1 s)
      ≠ ix n (iclip i0 1 ((n : ℤ) - 2)) := by
    unfold ix iclip copysign1; split <;> omega
  have hne := hinj _ _ (hlt _) (hlt _) hnb
  have hs' : JaxCosmo.sgn (clip x (xp (ix n 1)) (xp (ix n (-2)))
      - xp (ix n (iclip i0 1 ((n : ℤ) - 2)))) = s := hs
  rw [hs', div_fin _ (sub_ne_zero.mpr hne)]
  simp only [mul_fin, sub_fin, add_fin]

theorem odeint_fin {Y YX : Type*} [AddCommGroup Y] [Module ℝ Y] [Add YX] [SMul Xr YX] (e : Y → YX)
    (hadd : ∀ y z, e y + e z = e (y + z)) (hsmul : ∀ (c : ℝ) y, fin c • e y = e (c • y))
    (S : Set ℝ) (hS : ∀ s ∈ S, ∀ t ∈ S, s + (t - s) / 2 ∈ S)
    {fn : Y → ℝ → Y} {fnX : YX → Xr → YX} (hfn : ∀ y, ∀ t ∈ S, fnX (e y) (fin t) = e (fn y t))
    (y0 : Y) {t : ℕ → ℝ} {tX : ℕ → Xr} {N : ℕ} (ht : ∀ i ≤ N, t i ∈ S)
    (htX : ∀ i ≤ N, tX i = fin (t i)) {i : ℕ} (hi : i ≤ N) :
    odeint fnX (e y0) tX i = e (JaxCosmo.odeint fn y0 t i) := by
  have step : ∀ (y : Y) (s u : ℝ), s ∈ S → u ∈ S → rk4 fnX (e y, fin s) (fin u)
      = ((e (JaxCosmo.rk4 fn (y, s) u).2, fin u), e (JaxCosmo.rk4 fn (y, s) u).2) := by
    intro y s u hs hu
    have hm := hS s hs u hu
    unfold rk4 JaxCosmo.rk4
    simp only [lit_nat, lit_one, sub_fin, div_fin_lit, mul_fin, add_fin, hfn _ _ hs, hfn _ _ hm,
      hfn _ _ hu, hadd, hsmul]
  have carry : ∀ i ≤ N, scanCarry (rk4 fnX) (e y0, tX 0) tX i
      = (e (scanCarry (JaxCosmo.rk4 fn) (y0, t 0) t i).1,
          fin (scanCarry (JaxCosmo.rk4 fn) (y0, t 0) t i).2)
      ∧ (scanCarry (JaxCosmo.rk4 fn) (y0, t 0) t i).2 ∈ S := by
    intro i
    induction i with
    | zero => intro _; exact ⟨by rw [htX 0 (by omega)]; rfl, ht 0 (by omega)⟩
    | succ i ih =>
      intro hi
      obtain ⟨ih, hm⟩ := ih (by omega)
      rw [scanCarry, ih, htX i (by omega), step _ _ _ hm (ht i (by omega)), scanCarry]
      exact ⟨rfl, ht i (by omega)⟩
  unfold odeint JaxCosmo.odeint scanOut
  obtain ⟨h, hm⟩ := carry i hi
  rw [h, htX i hi, step _ _ _ hm (ht i hi)]

theorem linspace_fin (a b : ℝ) {n : ℕ} (hn : 2 ≤ n) (i : ℕ) :
    linspace (fin a) (fin b) n i = fin (JaxCosmo.linspace a b n i) := by
  have : (n : ℝ) - 1 ≠ 0 := by
    have : (2 : ℝ) ≤ n := by exact_mod_cast hn
    linarith
  unfold linspace JaxCosmo.linspace
  simp only [lit_one, sub_fin, div_fin _ this, mul_fin, add_fin]

theorem simps_fin {fX : Xr → Xr} {f : ℝ → ℝ} {a b : ℝ} {N : ℕ} (hN : 2 ≤ N)
    (h : ∀ i ≤ N, fX (fin (JaxCosmo.linspace a b (N + 1) i))
      = fin (f (JaxCosmo.linspace a b (N + 1) i))) :
    simps fX (fin a) (fin b) N = fin (simpsBody f a b N) := by
  have hN0 : (N : ℝ) ≠ 0 := by
    have : (2 : ℝ) ≤ N := by exact_mod_cast hN
    linarith
  unfold simps simpsBody
  simp only [sub_fin, div_fin _ hN0, lit_nat, div_fin_lit, linspace_fin a b (show 2 ≤ N + 1 by omega)]
  rw [sum_congr (g := fun i => fin (f (JaxCosmo.linspace a b (N + 1) (2 * i))
    + 4 * f (JaxCosmo.linspace a b (N + 1) (2 * i + 1))
    + f (JaxCosmo.linspace a b (N + 1) (2 * i + 2)))), sum_fin, mul_fin]
  intro i hi
  rw [h _ (by omega), h _ (by omega), h _ (by omega), mul_fin, add_fin, add_fin]

theorem rombergDiff_fin (b c : ℝ) (k : ℕ) (hk : 1 ≤ k) :
    rombergDiff (fin b) (fin c) k = fin (JaxCosmo.rombergDiff b c k) := by
  have : (4 : ℝ) ^ k - 1 ≠ 0 := by
    have : (4 : ℝ) ^ 1 ≤ 4 ^ k := pow_le_pow_right₀ (by norm_num) hk
    linarith
  unfold rombergDiff JaxCosmo.rombergDiff
  simp only [lit_nat, lit_one, npow_fin, mul_fin, sub_fin, div_fin _ this]

theorem rombLoop_fin {fX : Xr → Xr} {f : ℝ → ℝ} {a b : ℝ} (h : ∀ x, fX (fin x) = fin (f x)) (m : ℕ) :
    (rombLoop fX (fin a) (fin b) m).1 = fin (JaxCosmo.rombLoop f a b m).1 ∧
      ∀ j, (rombLoop fX (fin a) (fin b) m).2 j = fin ((JaxCosmo.rombLoop f a b m).2 j) := by
  induction m with
  | zero =>
    simp only [rombLoop, JaxCosmo.rombLoop, difftrap1, h, lit_one, lit_nat, div_fin_lit, add_fin,
      mul_fin, sub_fin, implies_true, and_self]
  | succ m ih =>
    obtain ⟨ih1, ih2⟩ := ih
    have hn : ((2 ^ (m + 1) : ℕ) : ℝ) ≠ 0 := by positivity
    have hd : difftrapn fX (fin a) (fin b) (2 ^ (m + 1))
        = fin (JaxCosmo.difftrapn f a b (2 ^ (m + 1))) := by
      have h2 : ((2 ^ (m + 1) / 2 : ℕ) : ℝ) ≠ 0 := by
        rw [pow_succ, Nat.mul_div_cancel _ (by norm_num)]; positivity
      unfold difftrapn JaxCosmo.difftrapn
      simp only [sub_fin, div_fin _ h2, lit_one, lit_nat, div_fin_lit, mul_fin, add_fin, h, sum_fin]
    have hsc : ∀ (x : ℝ) (i : ℕ), scanCarry rombScanFn (fin x, 0) (rombLoop fX (fin a) (fin b) m).2 i
        = (fin (scanCarry JaxCosmo.rombScanFn (x, 0) (JaxCosmo.rombLoop f a b m).2 i).1,
            (scanCarry JaxCosmo.rombScanFn (x, 0) (JaxCosmo.rombLoop f a b m).2 i).2) := by
      intro x i
      induction i with
      | zero => rfl
      | succ i ih =>
        rw [scanCarry, ih, scanCarry, ih2]
        simp only [rombScanFn, JaxCosmo.rombScanFn]
        rw [rombergDiff_fin _ _ _ (by omega)]
    rw [rombLoop, JaxCosmo.rombLoop]
    simp only [ih1, hd, add_fin, sub_fin, mul_fin, div_fin _ hn, true_and]
    intro j
    split_ifs
    · rfl
    · unfold scanOut
      rw [hsc, ih2]
      simp only [rombScanFn, JaxCosmo.rombScanFn]
      rw [rombergDiff_fin _ _ _ (by omega)]

end Xm
end JaxCosmo
