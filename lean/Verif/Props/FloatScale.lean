import Verif.Model.FloatLinear
import Verif.Props.FloatTracers
import Verif.Props.FloatPower
import Verif.Props.Power

/-! # C172: changes of unit by a power of two in floating point -/

namespace JaxCosmo
open Spec

variable {A : Rounding} {L : Elem} {c e : ℝ}

/-- Rounding does not see the factor `c`. -/
def Scales (A : Rounding) (c : ℝ) : Prop := ∀ x, A.rd (c * x) = c * A.rd x

theorem log_scaled {x : ℝ} (hx : 0 < x) (k : ℤ) : Int.log 2 ((2 : ℝ) ^ k * x) = k + Int.log 2 x := by
  have h2 : (0 : ℝ) < 2 ^ k := by positivity
  have h0 := mul_pos h2 hx
  have l1 : (2 : ℝ) ^ Int.log 2 x ≤ x := by exact_mod_cast Int.zpow_log_le_self (b := 2) (by norm_num) hx
  have l2 : x < (2 : ℝ) ^ (Int.log 2 x + 1) := by exact_mod_cast Int.lt_zpow_succ_log_self (b := 2) (by norm_num) x
  refine le_antisymm ?_ ?_
  · have : Int.log 2 ((2 : ℝ) ^ k * x) < k + Int.log 2 x + 1 := by
      rw [← Int.lt_zpow_iff_log_lt (by norm_num) h0]
      push_cast
      rw [add_assoc, zpow_add₀ (by norm_num)]
      exact mul_lt_mul_of_pos_left l2 h2
    omega
  · rw [← Int.zpow_le_iff_le_log (by norm_num) h0]
    push_cast
    rw [zpow_add₀ (by norm_num)]
    exact mul_le_mul_of_nonneg_left l1 h2.le

/-- C172: rounding to binary digits commutes with powers of two and with the sign. -/
theorem C172_binary (p : ℕ) (hp : 3 ≤ p) (k : ℤ) : Scales (binary p hp) (2 ^ k) ∧ Scales (binary p hp) (-2 ^ k) := by
  have h : Scales (binary p hp) (2 ^ k) := fun x => by
    change roundBinary p _ = _ * roundBinary p x
    rcases eq_or_ne x 0 with rfl | hx
    · have := (binary p hp).zero
      change roundBinary p 0 = 0 at this
      simp [this]
    · simp only [roundBinary]
      rw [abs_mul, abs_of_pos (by positivity : (0 : ℝ) < 2 ^ k), log_scaled (abs_pos.2 hx)]
      have e1 : (2 : ℝ) ^ ((p : ℤ) - 1 - (k + Int.log 2 |x|)) = 2 ^ ((p : ℤ) - 1 - Int.log 2 |x|) / 2 ^ k := by
        rw [← zpow_sub₀ (by norm_num)]; congr 1; ring
      have h2 : (2 : ℝ) ^ k ≠ 0 := by positivity
      rw [e1]
      have e2 : (2 : ℝ) ^ k * x * (2 ^ ((p : ℤ) - 1 - Int.log 2 |x|) / 2 ^ k) = x * 2 ^ ((p : ℤ) - 1 - Int.log 2 |x|) := by
        field_simp
      rw [e2]
      field_simp
  refine ⟨h, fun x => ?_⟩
  have := h (-x)
  rw [mul_neg, ← neg_mul] at this
  rw [this, neg_mul, ← mul_neg]
  congr 1
  exact roundBinary_neg p x

namespace Scales

theorem mul (h : Scales A c) (h' : Scales A e) : Scales A (c * e) := fun x => by rw [mul_assoc, h, h', mul_assoc]

theorem inv (h : Scales A c) (hc : c ≠ 0) : Scales A c⁻¹ := fun x => by
  have := h (c⁻¹ * x)
  rw [mul_inv_cancel_left₀ hc] at this
  rw [this, inv_mul_cancel_left₀ hc]

theorem addF (h : Scales A c) (x y : ℝ) : A.add (c * x) (c * y) = c * A.add x y := by
  rw [Rounding.add, ← mul_add, h]; rfl

theorem subF (h : Scales A c) (x y : ℝ) : A.sub (c * x) (c * y) = c * A.sub x y := by
  rw [Rounding.sub, ← mul_sub, h]; rfl

theorem mulF (h : Scales A c) (x y : ℝ) : A.mul (c * x) y = c * A.mul x y := by
  rw [Rounding.mul, mul_assoc, h]; rfl

theorem mulF' (h : Scales A c) (x y : ℝ) : A.mul x (c * y) = c * A.mul x y := by
  rw [Rounding.mul, mul_left_comm, h]; rfl

theorem divF (h : Scales A c) (x y : ℝ) : A.div (c * x) y = c * A.div x y := by
  rw [Rounding.div, mul_div_assoc, h]; rfl

theorem divF' (h : Scales A c) (hc : c ≠ 0) (x y : ℝ) : A.div x (c * y) = c⁻¹ * A.div x y := by
  rw [Rounding.div, mul_comm c, div_mul_eq_div_div, div_eq_inv_mul, h.inv hc]; rfl

theorem treeF (h : Scales A c) (t : SumTree) (y : ℕ → ℝ) : (t.sum A fun i => c * y i) = c * t.sum A y := by
  induction t with
  | leaf i => rfl
  | node l r hl hr => rw [SumTree.sum, hl, hr, h.addF]; rfl

theorem simpsF (h : Scales A c) (y : ℕ → ℝ) (a b : ℝ) (N : ℕ) (t : SumTree) :
    JaxCosmo.simpsF A (fun n => c * y n) a b N t = c * JaxCosmo.simpsF A y a b N t := by
  simp only [JaxCosmo.simpsF, h.mulF', h.addF, h.treeF]

end Scales

/-- C172: biases and kernels are proportional to amplitudes, and distributions do not depend on their scale, to the last digit. -/
theorem C172_kernels (h : Scales A c) (hc : c ≠ 0) :
    (∀ powr D z b eta z0, biasF A powr D z (.constant (c * b)) = c * biasF A powr D z (.constant b) ∧
      biasF A powr D z (.invGrowth (c * b)) = c * biasF A powr D z (.invGrowth b) ∧
      biasF A powr D z (.desY1 (c * b) eta z0) = c * biasF A powr D z (.desY1 b eta z0)) ∧
    (∀ dndz b H', densityF A dndz (c * b) H' = c * densityF A dndz b H') ∧
    (∀ dndz b H' Omega_m D ell, nlaF A L dndz (c * b) H' Omega_m D ell = c * nlaF A L dndz b H' Omega_m D ell) ∧
    (∀ Omega_m ell row, lensKernelF A L Omega_m ell (c * row) = c * lensKernelF A L Omega_m ell row) ∧
    (∀ lens ia m, shearF A (c * lens) (c * ia) m = c * shearF A lens ia m) ∧
    (∀ dndz chi' chi zmax z t, extRowF A (fun n => c * dndz n) chi' chi zmax z t = c * extRowF A dndz chi' chi zmax z t) ∧
    (∀ pz zmax t v, nzF A (fun n => c * pz n) zmax t (c * v) = nzF A pz zmax t v) := by
  refine ⟨fun _ _ _ _ _ _ => ⟨h.mulF _ _, h.divF _ _, h.mulF _ _⟩, fun _ _ _ => ?_, fun _ _ _ _ _ _ => ?_, fun _ _ _ => h.mulF' _ _,
    fun _ _ _ => ?_, fun _ _ _ _ _ _ => ?_, fun _ _ _ _ => ?_⟩
  · simp only [densityF, radialF, h.mulF, h.mulF']
  · simp only [nlaF, radialF, h.mulF, h.mulF']
  · simp only [shearF, h.addF, h.mulF]
  · simp only [extRowF, h.mulF, h.divF, h.simpsF]
  · simp only [nzF, h.simpsF, h.divF, h.divF' hc]
    rw [mul_inv_cancel_left₀ hc]

/-- The same survey with the kernel of tracer `i` multiplied by `c i` and the power spectrum by `e`. -/
def LimberInput.scaled (S : LimberInput) (c : ℕ → ℝ) (e : ℝ) : LimberInput where
  pk n := e * S.pk n
  dchi := S.dchi
  chi := S.chi
  kernel i n := c i * S.kernel i n

/-- C172: spectra are proportional to the power spectrum and to the kernels of both tracers, to the last digit. -/
theorem C172_spectra {c : ℕ → ℝ} (h : ∀ i, Scales A (c i)) (h' : Scales A e) (S : LimberInput) (noise : ℕ → ℝ) (zmax : ℝ) (t : SumTree)
    (i j : ℕ) :
    clF A (S.scaled c e) zmax t i j = e * (c i * (c j * clF A S zmax t i j)) ∧
    clObsF A (S.scaled c 1) (fun i => c i * (c i * noise i)) zmax t i i = c i * (c i * clObsF A S noise zmax t i i) := by
  have hl : ∀ {e : ℝ}, Scales A e → ∀ i j, limberF A (S.scaled c e) i j = fun n => e * (c i * (c j * limberF A S i j n)) :=
    fun {e} h' i j => by
    funext n
    simp only [limberF, LimberInput.scaled, (h i).mulF, (h j).mulF', (h i).mulF', h'.mulF, (h j).mulF, (h i).divF, (h j).divF, h'.divF]
    ring
  have hcl : ∀ {e : ℝ}, Scales A e → ∀ i j, clF A (S.scaled c e) zmax t i j = e * (c i * (c j * clF A S zmax t i j)) :=
    fun {e} h' i j => by
    simp only [clF, hl h', h'.simpsF, (h i).simpsF, (h j).simpsF, (h i).divF, (h j).divF, h'.divF]
  refine ⟨hcl h' i j, ?_⟩
  have h1 : Scales A 1 := fun x => by rw [one_mul, one_mul]
  rw [clObsF, hcl h1, one_mul]
  simp only [noiseF, (h i).mulF, (h i).addF]
  rfl

/-- C172: variances scale with the square of the spectra and with the inverse of the number of modes. -/
theorem C172_covariance (h : Scales A c) (h' : Scales A e) (he : e ≠ 0) (obs norm : ℕ → ℝ) (l : ℕ) :
    oneCovF A (fun l => c * obs l) norm l = c * (c * oneCovF A obs norm l) ∧
    oneCovF A obs (fun l => e * norm l) l = e⁻¹ * oneCovF A obs norm l ∧
    ∀ n ell f_sky, covNormF A n ell (e * f_sky) l = e * covNormF A n ell f_sky l := by
  refine ⟨?_, ?_, fun n ell f_sky => h'.mulF' _ _⟩
  · simp only [oneCovF, h.mulF, h.mulF', h.addF, h.divF]
  · simp only [oneCovF, h'.divF' he]

/-- C172: the fit does not depend on the unit of the data. -/
theorem C172_chi2 (h : Scales A c) (hc : c ≠ 0) (t : SumTree) (data mu C : ℕ → ℝ) :
    chi2F A t (fun i => c * data i) (fun i => c * mu i) (fun i => c * (c * C i)) = chi2F A t data mu C := by
  simp only [chi2F, h.subF, h.divF' hc, h.mulF, h.mulF', (h.inv hc).mulF, (h.inv hc).mulF']
  congr 1
  funext i
  rw [mul_inv_cancel_left₀ hc, mul_inv_cancel_left₀ hc]

/-- C172: a forecast in other units of the kernel has the same fit. -/
theorem C172_forecast (h : Scales A c) (hc : c ≠ 0) (S : ℕ → LimberInput) (noise : ℕ → ℝ) (zmax : ℝ) (t : ℕ → SumTree) (n : ℕ)
    (ell : ℕ → ℝ) (f_sky : ℝ) (s : SumTree) (data : ℕ → ℝ) :
    forecastChi2F A (fun l => (S l).scaled (fun _ => c) 1) (fun i => c * (c * noise i)) zmax t n ell f_sky s (fun l => c * (c * data l))
      = forecastChi2F A S noise zmax t n ell f_sky s data := by
  have h1 : Scales A 1 := fun x => by rw [one_mul, one_mul]
  have hm : forecastMeanF A (fun l => (S l).scaled (fun _ => c) 1) zmax t = fun l => c * c * forecastMeanF A S zmax t l := by
    funext l
    rw [forecastMeanF, (C172_spectra (fun _ => h) h1 (S l) noise zmax (t l) 0 0).1, one_mul, ← mul_assoc]; rfl
  have hC : forecastCovF A (fun l => (S l).scaled (fun _ => c) 1) (fun i => c * (c * noise i)) zmax t n ell f_sky
      = fun l => c * c * (c * c * forecastCovF A S noise zmax t n ell f_sky l) := by
    funext l
    have e1 : (fun l => clObsF A ((S l).scaled (fun _ => c) 1) (fun i => c * (c * noise i)) zmax (t l) 0 0)
        = fun l => c * c * clObsF A (S l) noise zmax (t l) 0 0 := funext fun l => by
      rw [(C172_spectra (fun _ => h) h1 (S l) noise zmax (t l) 0 0).2, ← mul_assoc]
    rw [forecastCovF, e1]
    exact (C172_covariance (h.mul h) h1 one_ne_zero _ _ l).1
  have hd : (fun l => c * (c * data l)) = fun l => c * c * data l := funext fun l => (mul_assoc _ _ _).symm
  rw [forecastChi2F, hm, hC, hd]
  exact C172_chi2 (h.mul h) (mul_ne_zero hc hc) s _ _ _

/-! ### Tables -/

/-- C172: interpolation is proportional to the tabulated values. -/
theorem C172_interp (h : Scales A c) (n : ℕ) (xp fp : ℕ → ℝ) (x : ℝ) :
    interpF A n xp (fun i => c * fp i) x = c * interpF A n xp fp x := by
  simp only [interpF, h.subF, h.divF, h.mulF, h.addF]

/-- C172: distances are proportional to the unit of length. -/
theorem C172_distance (h : Scales A c) (hc : 0 < c) (rate : ℝ → ℝ) (a t : ℕ → ℝ) (steps : ℕ) (x : ℝ) :
    readChiF A (chiTableF A (fun x => c * rate x) a t steps) x = c * readChiF A (chiTableF A rate a t steps) x := by
  set f : (Unit → ℝ) → ℝ → (Unit → ℝ) := fun _ x _ => rate x with hf
  set f' : (Unit → ℝ) → ℝ → (Unit → ℝ) := fun _ x _ => c * rate x with hf'
  have step : ∀ (y : Unit → ℝ) (s r : ℝ), rk4F A f' (c • y, s) r = ((c • (rk4F A f (y, s) r).1.1, r), c • (rk4F A f (y, s) r).2) := fun y s r => by
    have e : (rk4F A f' (c • y, s) r).2 = c • (rk4F A f (y, s) r).2 := by
      funext u
      simp only [rk4F, hf, hf', Rounding.vrd, Pi.add_apply, Pi.smul_apply, smul_eq_mul, mul_left_comm _ c, ← mul_add, h _]
    exact Prod.ext (Prod.ext e rfl) e
  have carry : ∀ i, scanCarry (rk4F A f') ((fun _ => 0), t 0) t i
      = (c • (scanCarry (rk4F A f) ((fun _ => 0), t 0) t i).1, (scanCarry (rk4F A f) ((fun _ => 0), t 0) t i).2) := fun i => by
    induction i with
    | zero =>
      refine Prod.ext ?_ rfl
      funext u
      exact (mul_zero c).symm
    | succ i ih =>
      rw [scanCarry, ih, step]
      rfl
  have out : ∀ i, odeintF A f' (fun _ => 0) t i () = c * odeintF A f (fun _ => 0) t i () := fun i => by
    rw [odeintF, scanOut, carry, step]
    rfl
  rw [readChiF, readChiF]
  have : interpF A (chiTableF A (fun x => c * rate x) a t steps).n (chiTableF A (fun x => c * rate x) a t steps).a
      (chiTableF A (fun x => c * rate x) a t steps).chi x = c * interpF A (chiTableF A rate a t steps).n (chiTableF A rate a t steps).a
      (chiTableF A rate a t steps).chi x := by
    rw [← C172_interp h]
    congr 1
    funext i
    simp only [chiTableF]
    rw [← h.subF]
    congr 1 <;> exact out _
  rw [this, clipLo, clipLo, mul_max_of_nonneg _ _ hc.le, mul_zero]

/-! ### Linear power -/

theorem scanCarry_scaled (h : Scales A c) (x : ℝ) (s : ℕ → ℝ) (i : ℕ) :
    scanCarry (rombScanFnF A) (c * x, 0) (fun j => c * s j) i
      = (c * (scanCarry (rombScanFnF A) (x, 0) s i).1, (scanCarry (rombScanFnF A) (x, 0) s i).2) := by
  induction i with
  | zero => rfl
  | succ i ih =>
    rw [scanCarry, ih]
    simp only [scanCarry, rombScanFnF, rombergDiffF, h.mulF', h.subF, h.divF]

theorem romb_scaled (h : Scales A c) (f : ℝ → ℝ) (a b : ℝ) (t : ℕ → SumTree) (m : ℕ) :
    rombLoopF A (fun x => c * f x) a b t m = (c * (rombLoopF A f a b t m).1, fun j => c * (rombLoopF A f a b t m).2 j) := by
  induction m with
  | zero => simp only [rombLoopF, difftrap1F, h.addF, h.mulF']
  | succ m ih =>
    have e : difftrapnF A (fun x => c * f x) a b (2 ^ (m + 1)) (t (m + 1)) = c * difftrapnF A f a b (2 ^ (m + 1)) (t (m + 1)) :=
      h.treeF _ _
    simp only [rombLoopF, ih, e, h.addF, h.mulF', h.divF]
    refine Prod.ext rfl ?_
    funext j
    dsimp only
    split_ifs
    · rfl
    · simp only [scanOut]
      rw [scanCarry_scaled h]
      simp only [rombScanFnF, rombergDiffF, h.mulF', h.subF, h.divF]

variable {M : Libm}

theorem sigmasqrF_scaled (h : Scales A c) (P : ℝ → ℝ) (R k : ℝ) (t : ℕ → SumTree) {s : ℝ} (hs : sigmasqrF A M P R k t = .ok s) :
    sigmasqrF A M (fun x => c * P x) R k t = .ok (c * s) := by
  have e : sigmaIntegrandF A M (fun x => c * P x) R = fun x => c * sigmaIntegrandF A M P R x := by
    funext x
    simp only [sigmaIntegrandF, h.mulF']
  simp only [sigmasqrF, rombF, e, romb_scaled h, bind, Except.bind, pure, Except.pure, if_neg (by norm_num : ¬ (7 : ℕ) = 0), h.mulF',
    Except.ok.injEq] at hs ⊢
  rw [hs]

/-- C172: with exact operations this is `linear_matter_power` of the exact model. -/
theorem C172_exact (p : Params) (T : ℝ → ℝ) (k a : ℝ) {t : ℕ → SumTree} (ht : ∀ i < 7, (t (i + 1)).leaves.Perm (List.range (2 ^ i))) :
    linearPowerF exactArith ⟨Real.exp, Real.sin, Real.cos⟩ T (primordialMatterPower p) (growthOf p a) p.sigma8
      (1 / (2 * Real.pi ^ (2 : ℝ))) t k = .ok (linearMatterPower p T k a) := by
  have e : sigmaIntegrandF exactArith ⟨Real.exp, Real.sin, Real.cos⟩ (shapeF exactArith T (primordialMatterPower p)) 8
      = sigmaIntegrand p T 8 := by
    funext x
    simp only [sigmaIntegrandF, shapeF, windowF, sigmaIntegrand, Rounding.mul, Rounding.div, Rounding.sub, exactArith, id, sq]
  have hs : sigmasqrF exactArith ⟨Real.exp, Real.sin, Real.cos⟩ (shapeF exactArith T (primordialMatterPower p)) 8
      (1 / (2 * Real.pi ^ (2 : ℝ))) t = .ok (sigmasqr p 8 T) := by
    rw [sigmasqrF, e, C157_exact _ _ _ _ ht, romb, if_neg (by norm_num), sigmasqr, logb_default.1, logb_default.2]
    rfl
  rw [linearPowerF, hs]
  simp only [bind, Except.bind, pure, Except.pure, linearMatterPower, Rounding.mul, Rounding.div, exactArith, id, sq]

/-- C172: the linear power is proportional to the square of `sigma8` and of the growth factor, and does not depend on the
normalisation of the transfer function or of the primordial spectrum, to the last digit. -/
theorem C172_power (h : Scales A c) (hc : c ≠ 0) {T prim : ℝ → ℝ} {g sigma8 k0 k P : ℝ} {t : ℕ → SumTree}
    (hP : linearPowerF A M T prim g sigma8 k0 t k = .ok P) :
    linearPowerF A M T prim g (c * sigma8) k0 t k = .ok (c * (c * P)) ∧
    linearPowerF A M T prim (c * g) sigma8 k0 t k = .ok (c * (c * P)) ∧
    linearPowerF A M (fun x => c * T x) prim g sigma8 k0 t k = .ok P ∧
    linearPowerF A M T (fun x => c * prim x) g sigma8 k0 t k = .ok P := by
  obtain ⟨s, hs⟩ : ∃ s, sigmasqrF A M (shapeF A T prim) 8 k0 t = .ok s := ⟨_, rfl⟩
  have e1 : shapeF A (fun x => c * T x) prim = fun x => c * (c * shapeF A T prim x) := by
    funext x; simp only [shapeF, h.mulF, h.mulF']
  have e2 : shapeF A T (fun x => c * prim x) = fun x => c * shapeF A T prim x := by
    funext x; simp only [shapeF, h.mulF']
  have s1 := sigmasqrF_scaled h _ 8 k0 t (sigmasqrF_scaled h _ 8 k0 t hs)
  have s2 := sigmasqrF_scaled h _ 8 k0 t hs
  simp only [linearPowerF, hs, bind, Except.bind, pure, Except.pure, Except.ok.injEq] at hP
  refine ⟨?_, ?_, ?_, ?_⟩
  · simp only [linearPowerF, hs, bind, Except.bind, pure, Except.pure, h.mulF, h.mulF', h.divF, hP]
  · simp only [linearPowerF, hs, bind, Except.bind, pure, Except.pure, h.mulF, h.mulF', hP]
  · simp only [linearPowerF, e1, s1, bind, Except.bind, pure, Except.pure, h.mulF, h.mulF', h.divF' hc, (h.inv hc).mulF', hP]
    rw [mul_inv_cancel_left₀ hc, mul_inv_cancel_left₀ hc]
  · simp only [linearPowerF, e2, s2, bind, Except.bind, pure, Except.pure, h.mulF, h.divF' hc, (h.inv hc).mulF', hP]
    rw [mul_inv_cancel_left₀ hc]

/-! ### Other units -/

/-- The fit does not depend on the unit of the data, whatever it is. -/
def UnitFree (A : Rounding) : Prop := ∀ c : ℕ, 0 < c → ∀ (t : SumTree) (data mu C : ℕ → ℝ), (∀ i, 0 < C i) →
  chi2F A t (fun i => c * data i) (fun i => c * mu i) (fun i => c * (c * C i)) = chi2F A t data mu C

/-- C172: with exact operations every unit will do; in single precision a factor of five changes the fit, a power of two does not. -/
theorem C172_refuted : UnitFree exactArith ∧ ¬ UnitFree float32 ∧
    ∀ (k : ℤ) (t : SumTree) (data mu C : ℕ → ℝ), chi2F float32 t (fun i => 2 ^ k * data i) (fun i => 2 ^ k * mu i)
      (fun i => 2 ^ k * (2 ^ k * C i)) = chi2F float32 t data mu C := by
  refine ⟨fun c hc t data mu C _ => C172_chi2 (fun _ => rfl) (by positivity) t data mu C, fun h => ?_,
    fun k t data mu C => C172_chi2 (C172_binary 24 (by norm_num) k).1 (by positivity) t data mu C⟩
  have := h 5 (by norm_num) (.leaf 0) (fun _ => 0) (fun _ => 1) (fun _ => 1) fun _ => one_pos
  have a : float32.rd (5 - 0) = 5 := by rw [float32_dyadic 5 0 (by norm_num) (by norm_num)]; norm_num
  have b : float32.rd (1 / 25) = 5368709 / 134217728 := by
    rw [float32_to 10737418 (-5) (by norm_num) (by norm_num) (Or.inl (by norm_num [abs_lt]))]; norm_num
  have d : float32.rd (5368709 / 134217728 * 5) = 3355443 / 16777216 := by
    rw [float32_to 13421772 (-3) (by norm_num) (by norm_num) (Or.inr ⟨by norm_num [abs_le], by decide⟩)]; norm_num
  have f : float32.rd (5 * (3355443 / 16777216)) = 16777215 / 16777216 := by
    rw [float32_dyadic 16777215 (-24) (by norm_num) (by norm_num)]; norm_num
  simp only [chi2F, SumTree.sum, Rounding.sub, Rounding.mul, Rounding.div, Nat.cast_ofNat, mul_one, mul_zero] at this
  rw [show (5 : ℝ) * 5 = 25 by norm_num, a, b, d, f] at this
  simp only [sub_zero, float32.one, one_div, inv_one, mul_one] at this
  norm_num at this

/-- A factor of one half in single precision. -/
example : Scales float32 (1 / 2) ∧ ¬ Scales float32 5 := by
  constructor
  · have := (C172_binary 24 (by norm_num) (-1)).1
    rwa [zpow_neg_one, inv_eq_one_div] at this
  · intro h
    have := h (5368709 / 134217728)
    rw [float32_dyadic (x := 5368709 / 134217728) 5368709 (-27) (by norm_num) (by norm_num)] at this
    have d : float32.rd (5 * (5368709 / 134217728)) = 3355443 / 16777216 := by
      rw [float32_to 13421772 (-3) (by norm_num) (by norm_num) (Or.inr ⟨by norm_num [abs_le], by decide⟩)]; norm_num
    rw [d] at this
    norm_num at this

theorem half_scales : Scales float32 (1 / 2) := by
  have := (C172_binary 24 (by norm_num) (-1)).1
  rwa [zpow_neg_one, inv_eq_one_div] at this

/-- A forecast with kernels in half the unit, and another with a quarter of the spectrum. -/
example (data : ℕ → ℝ) : forecastChi2F float32 (fun _ => twoTracers.scaled (fun _ => 1 / 2) 1) (fun _ => 1 / 2 * (1 / 2 * 1)) 3
    (fun _ => pairwise 8 0) 64 (fun l => 10 * (l + 1 : ℝ)) (1 / 4) (pairwise 6 0) (fun l => 1 / 2 * (1 / 2 * data l))
      = forecastChi2F float32 (fun _ => twoTracers) (fun _ => 1) 3 (fun _ => pairwise 8 0) 64 (fun l => 10 * (l + 1 : ℝ)) (1 / 4)
        (pairwise 6 0) data :=
  C172_forecast half_scales (by norm_num) (fun _ => twoTracers) (fun _ => 1) 3 (fun _ => pairwise 8 0) 64 _ (1 / 4) (pairwise 6 0) data

/-- Halving `sigma8`. -/
example (M : Libm) (T prim : ℝ → ℝ) (k : ℝ) : ∃ P, linearPowerF float32 M T prim 1 0.8 0.05 (fun i => pairwise i 0) k = .ok P ∧
    linearPowerF float32 M T prim 1 (1 / 2 * 0.8) 0.05 (fun i => pairwise i 0) k = .ok (1 / 2 * (1 / 2 * P)) :=
  ⟨_, rfl, (C172_power half_scales (by norm_num) rfl).1⟩

end JaxCosmo
