import Verif.Proofs.Jvp
import Verif.Model.DualBackground
import Verif.Proofs.Interp

/-! # Differentiating through the quadratures, the ODE solver and `interp` -/

namespace JaxCosmo.Spec.Jvp
open Xr

variable {s : ℝ}

theorem fst_const {F : ℝ → ℝ} {x : Du} (h : Jvp F s x) : x.val = fin (F s) := h.choose_spec.2.1

theorem linspace {A B : ℝ → ℝ} {a b : Du} (ha : Jvp A s a) (hb : Jvp B s b) {n : ℕ} (hn : 2 ≤ n)
    (i : ℕ) : Jvp (fun r => JaxCosmo.linspace (A r) (B r) n i) s (Dm.linspace a b n i) := by
  have : (n : ℝ) - 1 ≠ 0 := by
    have : (2 : ℝ) ≤ n := by exact_mod_cast hn
    linarith
  exact ha.add ((con _ s).mul ((hb.sub ha).div ((con _ s).sub (one s)) this))

theorem simps {f : ℝ → ℝ → ℝ} {fD : Du → Du} {A B : ℝ → ℝ} {a b : Du} {N : ℕ} (ha : Jvp A s a)
    (hb : Jvp B s b) (hN : 2 ≤ N)
    (h : ∀ i ≤ N, Jvp (fun r => f r (JaxCosmo.linspace (A r) (B r) (N + 1) i)) s
      (fD (Dm.linspace a b (N + 1) i))) :
    Jvp (fun r => simpsBody (f r) (A r) (B r) N) s (Dm.simps fD a b N) := by
  have hN0 : (N : ℝ) ≠ 0 := by
    have : (2 : ℝ) ≤ N := by exact_mod_cast hN
    linarith
  refine (((hb.sub ha).div (con _ s) hN0).div (nat 3 s) (by norm_num)).mul (sum fun i hi => ?_)
  exact ((h _ (by omega)).add ((nat 4 s).mul (h _ (by omega)))).add (h _ (by omega))

theorem rombergDiff {B C : ℝ → ℝ} {b c : Du} (hb : Jvp B s b) (hc : Jvp C s c) {k : ℕ} (hk : 1 ≤ k) :
    Jvp (fun r => JaxCosmo.rombergDiff (B r) (C r) k) s (Dm.rombergDiff b c k) := by
  have h4 : (4 : ℝ) ^ k - 1 ≠ 0 := by
    have : (4 : ℝ) ^ 1 ≤ 4 ^ k := pow_le_pow_right₀ (by norm_num) hk
    linarith
  exact ((((nat 4 s).npow k).mul hc).sub hb).div (((nat 4 s).npow k).sub (one s)) h4

theorem half (s : ℝ) : Jvp (fun _ => 1 / 2) s (1 / 2 : Du) := (one s).div (nat 2 s) two_ne_zero

theorem difftrapn {f : ℝ → ℝ → ℝ} {fD : Du → Du} {A B : ℝ → ℝ} {a b : Du} (ha : Jvp A s a)
    (hb : Jvp B s b) {n : ℕ} (hn : n / 2 ≠ 0)
    (h : ∀ (X : ℝ → ℝ) (x : Du), Jvp X s x → Jvp (fun r => f r (X r)) s (fD x)) :
    Jvp (fun r => JaxCosmo.difftrapn (f r) (A r) (B r) n) s (Dm.difftrapn fD a b n) := by
  have hd := (hb.sub ha).div (con ((n / 2 : ℕ) : ℝ) s) (Nat.cast_ne_zero.2 hn)
  exact sum fun j _ => h _ _ ((ha.add ((half s).mul hd)).add (hd.mul (con _ s)))

theorem rombLoop {f : ℝ → ℝ → ℝ} {fD : Du → Du} {A B : ℝ → ℝ} {a b : Du} (ha : Jvp A s a)
    (hb : Jvp B s b) (h : ∀ (X : ℝ → ℝ) (x : Du), Jvp X s x → Jvp (fun r => f r (X r)) s (fD x))
    (m : ℕ) :
    Jvp (fun r => (JaxCosmo.rombLoop (f r) (A r) (B r) m).1) s (Dm.rombLoop fD a b m).1 ∧
      ∀ j, Jvp (fun r => (JaxCosmo.rombLoop (f r) (A r) (B r) m).2 j) s
        ((Dm.rombLoop fD a b m).2 j) := by
  induction m with
  | zero =>
    have h1 := (half s).mul ((h _ _ ha).add (h _ _ hb))
    exact ⟨h1, fun _ => (hb.sub ha).mul h1⟩
  | succ m ih =>
    obtain ⟨ih1, ih2⟩ := ih
    have h2 : 2 ^ (m + 1) / 2 ≠ 0 := by
      rw [pow_succ, Nat.mul_div_cancel _ (by norm_num)]; positivity
    have ho := ih1.add (difftrapn ha hb h2 h)
    have hx := ((hb.sub ha).mul ho).div (con ((2 ^ (m + 1) : ℕ) : ℝ) s) (by positivity)
    refine ⟨ho, fun j => ?_⟩
    have key : ∀ i, Jvp (fun r => (scanCarry JaxCosmo.rombScanFn
          ((B r - A r) * ((JaxCosmo.rombLoop (f r) (A r) (B r) m).1
            + JaxCosmo.difftrapn (f r) (A r) (B r) (2 ^ (m + 1))) / ((2 ^ (m + 1) : ℕ) : ℝ), 0)
          (JaxCosmo.rombLoop (f r) (A r) (B r) m).2 i).1) s
        (scanCarry Dm.rombScanFn ((b - a) * ((Dm.rombLoop fD a b m).1
            + Dm.difftrapn fD a b (2 ^ (m + 1))) / Du.con ((2 ^ (m + 1) : ℕ) : ℝ), 0)
          (Dm.rombLoop fD a b m).2 i).1 ∧
        (∀ r, (scanCarry JaxCosmo.rombScanFn
          ((B r - A r) * ((JaxCosmo.rombLoop (f r) (A r) (B r) m).1
            + JaxCosmo.difftrapn (f r) (A r) (B r) (2 ^ (m + 1))) / ((2 ^ (m + 1) : ℕ) : ℝ), 0)
          (JaxCosmo.rombLoop (f r) (A r) (B r) m).2 i).2 = i) ∧
        (scanCarry Dm.rombScanFn ((b - a) * ((Dm.rombLoop fD a b m).1
            + Dm.difftrapn fD a b (2 ^ (m + 1))) / Du.con ((2 ^ (m + 1) : ℕ) : ℝ), 0)
          (Dm.rombLoop fD a b m).2 i).2 = i := by
      intro i
      induction i with
      | zero => exact ⟨hx, fun _ => rfl, rfl⟩
      | succ i ih =>
        obtain ⟨j1, j2, j3⟩ := ih
        simp only [scanCarry, JaxCosmo.rombScanFn, Dm.rombScanFn, j2, j3, implies_true, and_true]
        exact rombergDiff (ih2 i) j1 (by omega)
    by_cases hj : j = 0
    · subst hj; exact hx
    · have e1 : (Dm.rombLoop fD a b (m + 1)).2 j = scanOut Dm.rombScanFn ((b - a)
          * ((Dm.rombLoop fD a b m).1 + Dm.difftrapn fD a b (2 ^ (m + 1)))
            / Du.con ((2 ^ (m + 1) : ℕ) : ℝ), 0) (Dm.rombLoop fD a b m).2 (j - 1) := if_neg hj
      have e2 : ∀ r, (JaxCosmo.rombLoop (f r) (A r) (B r) (m + 1)).2 j = scanOut JaxCosmo.rombScanFn
          ((B r - A r) * ((JaxCosmo.rombLoop (f r) (A r) (B r) m).1
            + JaxCosmo.difftrapn (f r) (A r) (B r) (2 ^ (m + 1))) / ((2 ^ (m + 1) : ℕ) : ℝ), 0)
          (JaxCosmo.rombLoop (f r) (A r) (B r) m).2 (j - 1) := fun r => if_neg hj
      obtain ⟨j1, j2, j3⟩ := key (j - 1)
      simp only [e1, e2, scanOut, JaxCosmo.rombScanFn, Dm.rombScanFn, j2, j3]
      exact rombergDiff (ih2 _) j1 (by omega)

section
variable {Y YD : Type*} [AddCommGroup Y] [Module ℝ Y] [Add YD] [SMul Du YD]

/-- Differentiating through `odeint`: `R` relates a curve of states with its differentiated version. -/
theorem odeint (R : (ℝ → Y) → YD → Prop)
    (hadd : ∀ u v uD vD, R u uD → R v vD → R (fun r => u r + v r) (uD + vD))
    (hsmul : ∀ c cD u uD, Jvp c s cD → R u uD → R (fun r => c r • u r) (cD • uD))
    (S : Set ℝ) (hS : ∀ x ∈ S, ∀ y ∈ S, x + (y - x) / 2 ∈ S)
    {fn : ℝ → Y → ℝ → Y} {fnD : YD → Du → YD}
    (hfn : ∀ u uD t tD, R u uD → Jvp t s tD → t s ∈ S → R (fun r => fn r (u r) (t r)) (fnD uD tD))
    {y0 : ℝ → Y} {y0D : YD} (h0 : R y0 y0D) {t : ℕ → ℝ → ℝ} {tD : ℕ → Du} {N : ℕ}
    (ht : ∀ i ≤ N, t i s ∈ S) (htD : ∀ i ≤ N, Jvp (t i) s (tD i)) {i : ℕ} (hi : i ≤ N) :
    R (fun r => JaxCosmo.odeint (fn r) (y0 r) (fun j => t j r) i) (Dm.odeint fnD y0D tD i) := by
  have step : ∀ (u : ℝ → Y) (uD : YD) (a b : ℝ → ℝ) (aD bD : Du), R u uD → Jvp a s aD → Jvp b s bD →
      a s ∈ S → b s ∈ S →
      R (fun r => (JaxCosmo.rk4 (fn r) (u r, a r) (b r)).2) (Dm.rk4 fnD (uD, aD) bD).2 := by
    intro u uD a b aD bD hu ha hb hsa hsb
    have hh := hb.sub ha
    have hh2 := hh.div (nat 2 s) two_ne_zero
    have hm := ha.add hh2
    have hms := hS _ hsa _ hsb
    have k1 := hfn _ _ _ _ hu ha hsa
    have k2 := hfn _ _ _ _ (hadd _ _ _ _ hu (hsmul _ _ _ _ hh2 k1)) hm hms
    have k3 := hfn _ _ _ _ (hadd _ _ _ _ hu (hsmul _ _ _ _ hh2 k2)) hm hms
    have k4 := hfn _ _ _ _ (hadd _ _ _ _ hu (hsmul _ _ _ _ hh k3)) hb hsb
    have c6 := ((one s).div (nat 6 s) (by norm_num)).mul hh
    exact hadd _ _ _ _ hu (hsmul _ _ _ _ c6 (hadd _ _ _ _ (hadd _ _ _ _ (hadd _ _ _ _ k1
      (hsmul _ _ _ _ (nat 2 s) k2)) (hsmul _ _ _ _ (nat 2 s) k3)) k4))
  have carry : ∀ i ≤ N,
      R (fun r => (scanCarry (JaxCosmo.rk4 (fn r)) (y0 r, t 0 r) (fun j => t j r) i).1)
        (scanCarry (Dm.rk4 fnD) (y0D, tD 0) tD i).1 ∧
      Jvp (fun r => (scanCarry (JaxCosmo.rk4 (fn r)) (y0 r, t 0 r) (fun j => t j r) i).2) s
        (scanCarry (Dm.rk4 fnD) (y0D, tD 0) tD i).2 ∧
      (scanCarry (JaxCosmo.rk4 (fn s)) (y0 s, t 0 s) (fun j => t j s) i).2 ∈ S := by
    intro i
    induction i with
    | zero => intro _; exact ⟨h0, htD 0 (by omega), ht 0 (by omega)⟩
    | succ i ih =>
      intro hi
      obtain ⟨i1, i2, i3⟩ := ih (by omega)
      exact ⟨step _ _ _ _ _ _ i1 i2 (htD i (by omega)) i3 (ht i (by omega)), htD i (by omega),
        ht i (by omega)⟩
  obtain ⟨c1, c2, c3⟩ := carry i hi
  exact step _ _ _ _ _ _ c1 c2 (htD i hi) c3 (ht i hi)

end

/-- Differentiating through `interp` while the selected interval stays the same. -/
theorem interp {n : ℕ} (hn : 3 ≤ n) {xp fp : ℕ → ℝ → ℝ} {xpD fpD : ℕ → Du} {X : ℝ → ℝ} {x : Du}
    (hx : Jvp X s x) (hxp : ∀ i < n, Jvp (xp i) s (xpD i)) (hfp : ∀ i < n, Jvp (fp i) s (fpD i))
    (hinj : ∀ i j, i < n → j < n → i ≠ j → xp i s ≠ xp j s)
    (hind : ∀ᶠ r in nhds s, argmin n (fun i => (X r - xp i r) ^ 2)
      = argmin n (fun i => (X s - xp i s) ^ 2))
    (hsgn : ∀ᶠ r in nhds s,
      copysign1 (sgn (clip (X r) (xp (ix n 1) r) (xp (ix n (-2)) r)
        - xp (ix n (iclip (argmin n fun i => (X s - xp i s) ^ 2) 1 ((n : ℤ) - 2))) r))
      = copysign1 (sgn (clip (X s) (xp (ix n 1) s) (xp (ix n (-2)) s)
        - xp (ix n (iclip (argmin n fun i => (X s - xp i s) ^ 2) 1 ((n : ℤ) - 2))) s))) :
    Jvp (fun r => JaxCosmo.interp n (fun i => xp i r) (fun i => fp i r) (X r)) s
      (Dm.interp n xpD fpD x) := by
  have hlt : ∀ j : ℤ, ix n j < n := fun j => by unfold ix; omega
  have e0 : Xm.argminUpTo (fun i => ((x - xpD i) ^ 2).val) (n - 1)
      = argmin n (fun i => (X s - xp i s) ^ 2) :=
    Xm.argminUpTo_fin fun i hi => ((hx.sub (hxp i (by omega))).npow 2).fst_const
  have es : ∀ k : ℤ, Xm.sgn (Du.min (Du.max x (xpD (ix n 1))) (xpD (ix n (-2))) - xpD (ix n k)).val
      = JaxCosmo.sgn (clip (X s) (xp (ix n 1) s) (xp (ix n (-2)) s) - xp (ix n k) s) := by
    intro k
    have e : (Du.min (Du.max x (xpD (ix n 1))) (xpD (ix n (-2))) - xpD (ix n k)).val
        = fin (clip (X s) (xp (ix n 1) s) (xp (ix n (-2)) s) - xp (ix n k) s) := by
      change (Xr.min (Xr.max x.val (xpD (ix n 1)).val) (xpD (ix n (-2))).val) - (xpD (ix n k)).val = _
      rw [hx.fst_const, (hxp _ (hlt _)).fst_const, (hxp _ (hlt _)).fst_const,
        (hxp _ (hlt _)).fst_const, max_fin, min_fin, sub_fin]
      rfl
    rw [e]; rfl
  set i0 : ℕ := argmin n (fun i => (X s - xp i s) ^ 2) with hi0
  set k : ℤ := iclip i0 1 ((n : ℤ) - 2) with hk
  set nb : ℤ := k + copysign1 (sgn (clip (X s) (xp (ix n 1) s) (xp (ix n (-2)) s) - xp (ix n k) s))
    with hnb
  have hne : ix n nb ≠ ix n k := by
    rw [hnb, hk]
    generalize JaxCosmo.sgn (K := ℝ) _ = c
    unfold ix iclip copysign1; split <;> omega
  have hd := hinj _ _ (hlt nb) (hlt k) hne
  have ha := ((hfp _ (hlt nb)).sub (hfp _ (hlt k))).div ((hxp _ (hlt nb)).sub (hxp _ (hlt k)))
    (sub_ne_zero.2 hd)
  have hmain := (ha.mul hx).add ((hfp _ (hlt k)).sub (ha.mul (hxp _ (hlt k))))
  have eD : Dm.interp n xpD fpD x
      = (fpD (ix n nb) - fpD (ix n k)) / (xpD (ix n nb) - xpD (ix n k)) * x
        + (fpD (ix n k) - (fpD (ix n nb) - fpD (ix n k)) / (xpD (ix n nb) - xpD (ix n k))
          * xpD (ix n k)) := by
    unfold Dm.interp
    simp only [e0, es]
    rfl
  rw [eD]
  refine hmain.congr ?_
  filter_upwards [hind, hsgn] with r hr hr2
  unfold JaxCosmo.interp
  simp only [hr, ← hk, hr2, ← hnb]

/-- A fixed grid and a fixed point of evaluation. -/
theorem interp_const {n : ℕ} (hn : 3 ≤ n) {xp : ℕ → ℝ} {fp : ℕ → ℝ → ℝ} {xpD fpD : ℕ → Du} {X : ℝ}
    {x : Du} (hx : Jvp (fun _ => X) s x) (hxp : ∀ i < n, Jvp (fun _ => xp i) s (xpD i))
    (hfp : ∀ i < n, Jvp (fp i) s (fpD i))
    (hinj : ∀ i j, i < n → j < n → i ≠ j → xp i ≠ xp j) :
    Jvp (fun r => JaxCosmo.interp n xp (fun i => fp i r) X) s (Dm.interp n xpD fpD x) :=
  interp hn hx hxp hfp hinj (.of_forall fun _ => rfl) (.of_forall fun _ => rfl)

/-- The line through two entries of the table. -/
noncomputable def lineD (xpD fpD : ℕ → Du) (i j : ℕ) (x : Du) : Du :=
  (fpD j - fpD i) / (xpD j - xpD i) * x + (fpD i - (fpD j - fpD i) / (xpD j - xpD i) * xpD i)

/-- Unfolding of the differentiated `interp` to natural-number positions. -/
theorem dm_interp_eq {n : ℕ} (hn : 3 ≤ n) {xp : ℕ → ℝ} {xpD fpD : ℕ → Du} {X : ℝ} {x : Du}
    (hx : x.val = fin X) (hxp : ∀ i < n, (xpD i).val = fin (xp i)) :
    Dm.interp n xpD fpD x =
      if clip X (xp 1) (xp (n - 2)) < xp (nearestIn n xp X) then
        lineD xpD fpD (nearestIn n xp X) (nearestIn n xp X - 1) x
      else lineD xpD fpD (nearestIn n xp X) (nearestIn n xp X + 1) x := by
  have e0 : Xm.argminUpTo (fun i => ((x - xpD i) ^ 2).val) (n - 1)
      = argmin n (fun i => (X - xp i) ^ 2) := by
    refine Xm.argminUpTo_fin fun i hi => ?_
    change (x.val - (xpD i).val) ^ 2 = _
    rw [hx, hxp i (by omega), sub_fin, npow_fin]
  have hind : iclip (nearest n xp X) 1 ((n : ℤ) - 2) = ((nearestIn n xp X : ℕ) : ℤ) := by
    unfold iclip nearestIn; omega
  have hlo : 1 ≤ nearestIn n xp X := by unfold nearestIn; omega
  have hhi : nearestIn n xp X ≤ n - 2 := by unfold nearestIn; omega
  have e1 : ix n 1 = 1 := ix_nonneg (n := n) (i := 1) (by omega)
  have e2 : ix n (-2) = n - 2 := ix_neg (n := n) (i := 2) (by omega) (by omega)
  unfold Dm.interp
  simp only [e0]
  simp only [nearest] at hind
  simp only [hind]
  rw [ix_nonneg (by omega), e1, e2]
  generalize nearestIn n xp X = k at *
  have e : (Du.min (Du.max x (xpD 1)) (xpD (n - 2)) - xpD k).val
      = fin (clip X (xp 1) (xp (n - 2)) - xp k) := by
    change (Xr.min (Xr.max x.val (xpD 1).val) (xpD (n - 2)).val) - (xpD k).val = _
    rw [hx, hxp _ (by omega), hxp _ (by omega), hxp _ (by omega), max_fin, min_fin, sub_fin]
    rfl
  have es : Xm.sgn (Du.min (Du.max x (xpD 1)) (xpD (n - 2)) - xpD k).val
      = JaxCosmo.sgn (clip X (xp 1) (xp (n - 2)) - xp k) := by rw [e]; rfl
  rw [es, sgn_copysign]
  by_cases hc : clip X (xp 1) (xp (n - 2)) < xp k
  · rw [if_pos (sub_neg.mpr hc), if_pos hc]
    have e3 : ix n ((k : ℤ) + -1) = k - 1 := by
      rw [show (k : ℤ) + -1 = ((k - 1 : ℕ) : ℤ) by omega, ix_nonneg (by omega)]
    rw [e3, lineD]
  · rw [if_neg (fun h => hc (sub_neg.mp h)), if_neg hc]
    have e3 : ix n ((k : ℤ) + 1) = k + 1 := by
      rw [show (k : ℤ) + 1 = ((k + 1 : ℕ) : ℤ) by omega, ix_nonneg (by omega)]
    rw [e3, lineD]

theorem line {xp fp : ℕ → ℝ → ℝ} {xpD fpD : ℕ → Du} {X : ℝ → ℝ} {x : Du} {i j : ℕ}
    (hx : Jvp X s x) (hxi : Jvp (xp i) s (xpD i)) (hxj : Jvp (xp j) s (xpD j))
    (hfi : Jvp (fp i) s (fpD i)) (hfj : Jvp (fp j) s (fpD j)) (hne : xp j s ≠ xp i s) :
    Jvp (fun r => lineAt (fun i => xp i r) (fun i => fp i r) i j (X r)) s (lineD xpD fpD i j x) := by
  have ha := (hfj.sub hfi).div (hxj.sub hxi) (sub_ne_zero.2 hne)
  exact (ha.mul hx).add (hfi.sub (ha.mul hxi))

/-- A fixed increasing grid and a moving point of evaluation strictly inside segment `j` (the first
segment used is the second one, the last one the last but one; both continue outwards). -/
theorem interp_inc {n : ℕ} (hn : 3 ≤ n) {xp : ℕ → ℝ} {fp : ℕ → ℝ → ℝ} {xpD fpD : ℕ → Du}
    {X : ℝ → ℝ} {x : Du} (hxi : Increasing n xp) (hx : Jvp X s x)
    (hxp : ∀ i < n, Jvp (fun _ => xp i) s (xpD i)) (hfp : ∀ i < n, Jvp (fp i) s (fpD i))
    {j : ℕ} (h1 : 1 ≤ j) (h2 : j + 1 < n) (hl : j = 1 ∨ xp j < X s)
    (hr : j + 2 = n ∨ X s < xp (j + 1)) :
    Jvp (fun r => JaxCosmo.interp n xp (fun i => fp i r) (X r)) s (Dm.interp n xpD fpD x) := by
  have hne : xp j ≠ xp (j + 1) := (hxi j (j + 1) (by omega) h2).ne
  have hev : ∀ᶠ r in nhds s, JaxCosmo.interp n xp (fun i => fp i r) (X r)
      = chord xp (fun i => fp i r) j (X r) := by
    have hc : ContinuousAt X s := by
      obtain ⟨_, hd, -⟩ := hx
      exact hd.continuousAt
    have hl' : ∀ᶠ r in nhds s, j = 1 ∨ xp j ≤ X r := by
      rcases hl with h | h
      · exact .of_forall fun _ => Or.inl h
      · filter_upwards [hc.eventually (lt_mem_nhds h)] with r hr using Or.inr hr.le
    have hr' : ∀ᶠ r in nhds s, j + 2 = n ∨ X r ≤ xp (j + 1) := by
      rcases hr with h | h
      · exact .of_forall fun _ => Or.inl h
      · filter_upwards [hc.eventually (gt_mem_nhds h)] with r hr using Or.inr hr.le
    filter_upwards [hl', hr'] with r a b using interp_inc_seg hn hxi _ h1 h2 a b
  have hlo : j ≤ nearestIn n xp (X s) := by
    unfold nearestIn
    rcases hl with h | h
    · omega
    · have := le_nearest_of_le hxi (by omega) h.le; omega
  have hhi : nearestIn n xp (X s) ≤ j + 1 := by
    unfold nearestIn
    rcases hr with h | h
    · omega
    · have := nearest_le_of_le hxi (by omega) h.le; omega
  have hmax : nearestIn n xp (X s) ≤ n - 2 := by unfold nearestIn; omega
  rw [dm_interp_eq hn hx.fst_const fun i hi => (hxp i hi).fst_const]
  rcases Nat.lt_or_ge j (nearestIn n xp (X s)) with hk | hk
  · have ek : nearestIn n xp (X s) = j + 1 := by omega
    have hxr : X s < xp (j + 1) := by
      rcases hr with h | h
      · omega
      · exact h
    have h1' : xp 1 < xp (j + 1) := hxi 1 (j + 1) (by omega) (by omega)
    have hcl : clip (X s) (xp 1) (xp (n - 2)) < xp (j + 1) :=
      lt_of_le_of_lt (min_le_left _ _) (max_lt hxr h1')
    rw [ek, Nat.add_sub_cancel, if_pos hcl]
    refine (line (xp := fun i _ => xp i) hx (hxp _ (by omega)) (hxp _ (by omega)) (hfp _ (by omega))
      (hfp _ (by omega)) hne).congr ?_
    filter_upwards [hev] with r h
    rw [h, ← lineAt_left _ _ _ _ hne]
  · have ek : nearestIn n xp (X s) = j := by omega
    rw [ek, if_neg]
    · refine (line (xp := fun i _ => xp i) hx (hxp _ (by omega)) (hxp _ (by omega))
        (hfp _ (by omega)) (hfp _ (by omega)) hne.symm).congr ?_
      filter_upwards [hev] with r h
      rw [h, ← lineAt_right]
    · rw [not_lt]
      refine le_min ?_ (hxi.le (by omega) (by omega))
      rcases hl with h | h
      · rw [h]; exact le_max_right _ _
      · exact le_trans h.le (le_max_left _ _)

end JaxCosmo.Spec.Jvp
