import Verif.Props.FloatTransfer
import Verif.Props.FloatScale
import Verif.Props.Transfer
import Verif.Props.NonlinearScale

/-! # C176: the shape of the linear power spectrum in floating point

The normalisation of the linear power is an integral over a window that is not accurate in floating point (C158).  It is one number for all
wavenumbers, so that the shape of the spectrum does not inherit its error. -/

namespace JaxCosmo
variable {A : Rounding} {L : Elem} {M : Libm}

/-- Products of a number with itself. -/
theorem Rel.sq {k n : ℕ} {y x : ℝ} (h : Rel A k y x) (hn : 2 * k + 1 ≤ n) : Rel A n (A.mul y y) (x ^ 2) := by
  rw [pow_two]; exact h.mul h (by omega)

/-- The effective shape of Eisenstein & Hu. -/
noncomputable def effectiveShape (Om h ag sh k : ℝ) : ℝ := Om * h * (ag + (1 - ag) / (1 + (0.43 * k * sh) ^ 4))

/-- C176: accuracy of the effective shape. -/
theorem C176_gamma (hg : (1 + A.u) ^ 16 ≤ 3 / 2) {Om h ag sh k : ℝ} (hO : 0 ≤ Om) (hh : 0 ≤ h) (a0 : 0 ≤ ag) (a1 : ag ≤ 1) (hs : 0 ≤ sh) (hk : 0 ≤ k) :
    Rel A 37 (gammaEffF A Om h ag sh k) (effectiveShape Om h ag sh k) := by
  have hx : Rel A 3 (A.mul (A.mul (A.rd 0.43) k) sh) (0.43 * k * sh) :=
    ((Rel.const (by norm_num)).mul (Rel.refl hk) (n := 2) le_rfl).mul (Rel.refl hs) le_rfl
  have h4 : Rel A 15 (pow4F A (A.mul (A.mul (A.rd 0.43) k) sh)) ((0.43 * k * sh) ^ 4) := by
    have := (hx.sq (n := 7) le_rfl).sq (n := 15) le_rfl
    rwa [← pow_mul] at this
  have hd : Rel A 16 (A.add 1 (pow4F A (A.mul (A.mul (A.rd 0.43) k) sh))) (1 + (0.43 * k * sh) ^ 4) :=
    (Rel.refl zero_le_one).add h4 (by norm_num)
  have hn : Rel A 1 (A.sub 1 ag) (1 - ag) := Rel.const (by linarith)
  exact ((Rel.refl hO).mul (Rel.refl hh) (n := 1) le_rfl).mul ((Rel.refl a0).add (hn.div (by positivity) hd hg (n := 34) le_rfl) (n := 35) (by norm_num)) le_rfl

/-- C176: accuracy of the smooth transfer function when the effective shape carries an error of its own. -/
theorem C176_transfer {s m : ℕ} (hs : 1 ≤ s) (hlog : ∀ x, 0 < x → Near A.u s |Real.log x| (L.log x) (Real.log x))
    (hexp : Rel A s (L.exp 1) (Real.exp 1)) (hg : (1 + A.u) ^ (3 * s + 8 * m + 32) ≤ 3 / 2) {gamma' gamma k : ℝ} (h0 : 0 < gamma)
    (h' : Rel A m gamma' gamma) (hk : 0 ≤ k) :
    Rel A (9 * s + 20 * m + 81) (nowiggleF A L gamma' k) (smoothT (k * (const_tcmb / 2.7) ^ 2 / gamma)) := by
  have small : ∀ {n : ℕ}, n ≤ 3 * s + 8 * m + 32 → (1 + A.u) ^ n ≤ 3 / 2 := fun hn =>
    (pow_le_pow_right₀ (by linarith [A.u_nonneg]) hn).trans hg
  have t0 : 0 ≤ const_tcmb / 2.7 := by norm_num [const_tcmb]
  have hq0 := ((Rel.refl (A := A) hk).mul ((Rel.const (A := A) t0).sq (n := 3) le_rfl) (n := 4) le_rfl).div h0 h' (small (by omega)) (n := 2 * m + 5) (by omega)
  simp only [nowiggleF]
  set q' := A.div (A.mul k (A.mul (A.rd (const_tcmb / 2.7)) (A.rd (const_tcmb / 2.7)))) gamma'
  set q := k * (const_tcmb / 2.7) ^ 2 / gamma with hq
  have q0 : 0 ≤ q := by positivity
  have hx := ((Rel.refl (A := A) (by norm_num : (0 : ℝ) ≤ 2)).mul hexp le_rfl).add ((Rel.const (A := A) (by norm_num : (0 : ℝ) ≤ 1.8)).mul hq0 le_rfl)
    (n := s + 2 * m + 8) (by omega)
  have xe : Real.exp 1 ≤ 2 * Real.exp 1 + 1.8 * q := by linarith [Real.exp_pos 1, (by positivity : 0 ≤ 1.8 * q)]
  have hl := hx.log xe (small (by omega))
  set x' := A.add (A.mul 2 (L.exp 1)) (A.mul (A.rd 1.8) q')
  set x := 2 * Real.exp 1 + 1.8 * q
  have x0 : 0 < x := (Real.exp_pos 1).trans_le xe
  have l1 : 1 ≤ Real.log x := by rw [Real.le_log_iff_exp_le x0]; exact xe
  have x'0 : 0 < x' := by
    have := (abs_le.1 hx.1).1
    have := mul_le_mul_of_nonneg_right (small (n := s + 2 * m + 8) (by omega)) x0.le
    linarith
  have lx' : 0 ≤ Real.log x' := by
    have h1 := (abs_le.1 hl.1).1
    have h2 := mul_le_mul_of_nonneg_right (small (n := 2 * (s + 2 * m + 8)) (by omega)) (by linarith : 0 ≤ Real.log x)
    linarith
  have hll : Rel A (s + 2 * (s + 2 * m + 8)) (L.log x') (Real.log x) := by
    have := hlog x' x'0
    rw [abs_of_nonneg lx'] at this
    exact this.trans_rel hl
  have hD := (((Rel.const (A := A) (by norm_num : (0 : ℝ) ≤ 14.2)).add ((Rel.const (A := A) (by norm_num : (0 : ℝ) ≤ 731)).div
    (by positivity : (0 : ℝ) < 1 + 62.5 * q) ((Rel.refl (A := A) zero_le_one).add ((Rel.const (A := A) (by norm_num : (0 : ℝ) ≤ 62.5)).mul hq0
      le_rfl) (n := 2 * m + 8) (by omega)) (small (by omega)) (n := 4 * m + 18) (by omega)) (n := 4 * m + 19) (by omega)).mul hq0 (n := 6 * m + 25) (by omega)).mul hq0
      (n := 8 * m + 31) (by omega)
  have hden := hll.add hD (n := 3 * s + 8 * m + 32) (by omega)
  have hpos : 0 < Real.log x + (14.2 + 731 / (1 + 62.5 * q)) * q * q := by positivity
  have := hll.div hpos hden (small le_rfl) (n := 9 * s + 20 * m + 81) (by omega)
  have e2 : (14.2 + 731 / (1 + 62.5 * q)) * q * q = (14.2 + 731 / (1 + 62.5 * q)) * q ^ 2 := by ring
  rw [e2] at this
  exact this

/-- C176: the computed power is a common factor times the product of its parts, to the accuracy of these. -/
theorem C176_linear {n s : ℕ} {T T0 prim prim0 : ℝ → ℝ} {g sigma8 c S k P : ℝ} {t : ℕ → SumTree} (hT : Rel A n (T k) (T0 k)) (hp : Rel A s (prim k) (prim0 k))
    (hS : sigmasqrF A M (shapeF A T prim) 8 c t = .ok S) (S0 : 0 ≤ S) (g0 : 0 ≤ g) (hP : linearPowerF A M T prim g sigma8 c t k = .ok P) :
    Rel A (s + 2 * n + 5) P (prim0 k * T0 k ^ 2 * (g ^ 2 * A.div (A.mul sigma8 sigma8) S)) := by
  rw [linearPowerF, hS] at hP
  simp only [bind, Except.bind, pure, Except.pure, Except.ok.injEq] at hP
  rw [← hP, ← mul_assoc]
  exact ((hp.mul (hT.sq le_rfl) (n := s + 2 * n + 2) (by omega)).mul ((Rel.refl g0).sq le_rfl) (n := s + 2 * n + 4) (by omega)).mul
    (Rel.refl (A.nonneg (div_nonneg (A.nonneg (mul_self_nonneg _)) S0))) (by omega)

/-- C176: ratios of powers are accurate, however inaccurate the normalisation. -/
theorem C176_ratio {n s : ℕ} (hg : (1 + A.u) ^ (s + 2 * n + 5) ≤ 3 / 2) {T T0 prim prim0 : ℝ → ℝ} {g sigma8 c S k l P Q : ℝ} {t : ℕ → SumTree}
    (hT : ∀ k, 0 ≤ k → Rel A n (T k) (T0 k)) (hp : ∀ k, 0 ≤ k → Rel A s (prim k) (prim0 k)) (hS : sigmasqrF A M (shapeF A T prim) 8 c t = .ok S) (S0 : 0 < S)
    (g0 : 0 < g) (h8 : 0 < sigma8) (hk : 0 ≤ k) (hl : 0 ≤ l) (hP : linearPowerF A M T prim g sigma8 c t k = .ok P)
    (hQ : linearPowerF A M T prim g sigma8 c t l = .ok Q) (hl0 : 0 < prim0 l * T0 l ^ 2) :
    Rel A (3 * (s + 2 * n + 5) + 1) (A.div P Q) (prim0 k * T0 k ^ 2 / (prim0 l * T0 l ^ 2)) := by
  have hN : 0 < g ^ 2 * A.div (A.mul sigma8 sigma8) S :=
    mul_pos (by positivity) (rd_pos (div_pos (rd_pos (mul_pos h8 h8)) S0))
  have := (C176_linear (hT k hk) (hp k hk) hS S0.le g0.le hP).div (mul_pos hl0 hN) (C176_linear (hT l hl) (hp l hl) hS S0.le g0.le hQ) hg
    (n := 3 * (s + 2 * n + 5) + 1) (by omega)
  rwa [mul_div_mul_right _ _ hN.ne'] at this

/-- The smooth transfer function as computed. -/
noncomputable def smoothF (A : Rounding) (L : Elem) (Om h ag sh k : ℝ) : ℝ := nowiggleF A L (gammaEffF A Om h ag sh k) k

/-- C176: ratios of the computed linear power agree with those of the exact model: from the wavenumber on, everything is computed in
floating point. -/
theorem C176_power {s : ℕ} (hs : 1 ≤ s) (hlog : ∀ x, 0 < x → Near A.u s |Real.log x| (L.log x) (Real.log x)) (hexp : Rel A s (L.exp 1) (Real.exp 1))
    (hg : (1 + A.u) ^ (19 * s + 1647) ≤ 3 / 2) (p : Params) {prim : ℝ → ℝ} (hp : ∀ k, 0 ≤ k → Rel A s (prim k) (k ^ p.n_s))
    (hO : 0 < p.Omega_m) (hh : 0 < p.h) (a0 : 0 < EH.alpha_gamma p) (a1 : EH.alpha_gamma p ≤ 1) (sh0 : 0 ≤ EH.sh_d p) (h8 : 0 < p.sigma8)
    (hx : sigmasqr p 8 (EH.nowiggle p) ≠ 0) {g a c S k l P Q : ℝ} {t : ℕ → SumTree} (ga : growthOf p a ≠ 0)
    (hS : sigmasqrF A M (shapeF A (smoothF A L p.Omega_m p.h (EH.alpha_gamma p) (EH.sh_d p)) prim) 8 c t = .ok S) (S0 : 0 < S) (g0 : 0 < g) (hk : 0 < k) (hl : 0 < l)
    (hP : linearPowerF A M (smoothF A L p.Omega_m p.h (EH.alpha_gamma p) (EH.sh_d p)) prim g p.sigma8 c t k = .ok P)
    (hQ : linearPowerF A M (smoothF A L p.Omega_m p.h (EH.alpha_gamma p) (EH.sh_d p)) prim g p.sigma8 c t l = .ok Q) :
    Rel A (57 * s + 4942) (A.div P Q) (linearMatterPower p (EH.nowiggle p) k a / linearMatterPower p (EH.nowiggle p) l a) := by
  have small : ∀ {n : ℕ}, n ≤ 19 * s + 1647 → (1 + A.u) ^ n ≤ 3 / 2 := fun hn =>
    (pow_le_pow_right₀ (by linarith [A.u_nonneg]) hn).trans hg
  have gp : ∀ k, 0 ≤ k → 0 < EH.gamma_eff p k := fun k hk => by
    simp only [EH.gamma_eff]
    exact mul_pos (mul_pos hO hh) (add_pos_of_pos_of_nonneg a0 (div_nonneg (by linarith) (by positivity)))
  have hT : ∀ k, 0 ≤ k → Rel A (9 * s + 821) (smoothF A L p.Omega_m p.h (EH.alpha_gamma p) (EH.sh_d p) k) (EH.nowiggle p k) := fun k hk => by
    rw [C175_fit]
    exact C176_transfer (m := 37) hs hlog hexp (small (by omega)) (gp k hk) (C176_gamma (small (by omega)) hO.le hh.le a0.le a1 sh0 hk) hk
  have Tl : 0 < EH.nowiggle p l := by
    rw [C175_fit]
    have : 0 < const_tcmb := by norm_num [const_tcmb]
    have := gp l hl.le
    exact (smoothT_lt (by positivity)).1
  have e : linearMatterPower p (EH.nowiggle p) k a / linearMatterPower p (EH.nowiggle p) l a
      = k ^ p.n_s * EH.nowiggle p k ^ 2 / (l ^ p.n_s * EH.nowiggle p l ^ 2) := by
    simp only [linearMatterPower, primordialMatterPower]
    rw [mul_assoc (k ^ p.n_s * _), mul_assoc (l ^ p.n_s * _), mul_div_mul_right]
    exact mul_ne_zero (pow_ne_zero _ ga) (div_ne_zero (pow_ne_zero _ h8.ne') hx)
  rw [e]
  exact (C176_ratio (small (by omega)) (prim0 := fun k => k ^ p.n_s) hT hp hS S0 g0 h8 hk.le hl.le hP hQ (mul_pos (Real.rpow_pos_of_pos hl _) (pow_pos Tl 2))).mono (by omega)

/-- The error in figures. -/
theorem Rel.le {k : ℕ} {y x e : ℝ} (h : Rel A k y x) (hg : (1 + A.u) ^ k ≤ 1 + e) : |y - x| ≤ e * x :=
  h.1.trans (mul_le_mul_of_nonneg_right (by linarith) ((abs_nonneg _).trans h.2))

theorem float32_growth {n m : ℕ} (hm : (m : ℝ) < 2 ^ 24) (hn : n ≤ m) {e : ℝ} (he : 1 / (1 - m / 2 ^ 24) ≤ 1 + e) : (1 + float32.u) ^ n ≤ 1 + e := by
  have e1 : (m : ℝ) * float32.u = m / 2 ^ 24 := by rw [float32_u]; ring
  refine (pow_le_pow_right₀ (by linarith [float32.u_nonneg]) hn).trans ((growth_le float32.u_nonneg ?_).trans ?_)
  · rw [e1, div_lt_one (by norm_num)]
    exact hm
  · rw [e1]; exact he

/-- What is computed for a positive number is positive. -/
theorem Rel.pos {k : ℕ} {y x : ℝ} (h : Rel A k y x) (hx : 0 < x) (hg : (1 + A.u) ^ k ≤ 3 / 2) : 0 < y := by
  have h1 := (abs_le.1 h.1).1
  have h2 := mul_le_mul_of_nonneg_right hg hx.le
  linarith

theorem nowiggle_pos {p : Params} (h : p.Baryonic) (hα : 0 ≤ EH.alpha_gamma p) {k : ℝ} (hk : 0 < k) : 0 < EH.nowiggle p k := by
  rw [C175_fit]
  have : 0 < const_tcmb := by norm_num [const_tcmb]
  have := EH.gamma_pos h hα k
  exact (smoothT_lt (by positivity)).1

/-- C176: in single precision the linear power is computed at every wavenumber, is positive, and its ratios agree with those of the exact
model to three parts in ten thousand. -/
theorem C176_single {p : Params} (h : p.Baryonic) (a0 : 0 < EH.alpha_gamma p) (a1 : EH.alpha_gamma p ≤ 1) (h8 : 0 < p.sigma8)
    (hM : M.Good) {prim : ℝ → ℝ} (hp : ∀ k, 0 ≤ k → Rel float32 1 (prim k) (k ^ p.n_s)) (hp0 : ∀ k, 0 ≤ prim k) {g c a : ℝ} (g0 : 0 < g) (hc : 0 < c)
    (ga : growthOf p a ≠ 0) {t : ℕ → SumTree} (ht : ∀ i < 7, (t (i + 1)).leaves.Perm (List.range (2 ^ i)) ∧ (t (i + 1)).depth ≤ 64) {k l : ℝ}
    (hk : 0 < k) (hl : 0 < l) :
    ∃ P Q, linearPowerF float32 M (smoothF float32 float32.elem p.Omega_m p.h (EH.alpha_gamma p) (EH.sh_d p)) prim g p.sigma8 c t k = .ok P ∧
      linearPowerF float32 M (smoothF float32 float32.elem p.Omega_m p.h (EH.alpha_gamma p) (EH.sh_d p)) prim g p.sigma8 c t l = .ok Q ∧ 0 < P ∧ 0 < Q ∧
      |float32.div P Q - linearMatterPower p (EH.nowiggle p) k a / linearMatterPower p (EH.nowiggle p) l a|
        ≤ 3e-4 * (linearMatterPower p (EH.nowiggle p) k a / linearMatterPower p (EH.nowiggle p) l a) := by
  have hu : ∀ n : ℕ, n ≤ 4999 → (1 + float32.u) ^ n ≤ 1 + 3e-4 := fun n hn => float32_growth (m := 5000) (by norm_num) (by omega) (by norm_num)
  have small : ∀ n : ℕ, n ≤ 4999 → (1 + float32.u) ^ n ≤ 3 / 2 := fun n hn => (hu n hn).trans (by norm_num)
  have hexp : Rel float32 1 (float32.elem.exp 1) (Real.exp 1) := Rel.const (Real.exp_pos 1).le
  have hs := (EH.shd_pos h).le
  have hT : ∀ k, 0 ≤ k → Rel float32 830 (smoothF float32 float32.elem p.Omega_m p.h (EH.alpha_gamma p) (EH.sh_d p) k) (EH.nowiggle p k) := fun k hk => by
    rw [C175_fit]
    exact C176_transfer (s := 1) (m := 37) le_rfl rounded_log hexp (small _ (by norm_num)) (EH.gamma_pos h a0.le k)
      (C176_gamma (small _ (by norm_num)) (EH.om_pos h).le h.h_pos.le a0.le a1 hs hk) hk
  have Tp : ∀ k, 0 < k → 0 < smoothF float32 float32.elem p.Omega_m p.h (EH.alpha_gamma p) (EH.sh_d p) k := fun k hk =>
    (hT k hk.le).pos (nowiggle_pos h a0.le hk) (small _ (by norm_num))
  have pp : ∀ k, 0 < k → 0 < prim k := fun k hk => (hp k hk.le).pos (Real.rpow_pos_of_pos hk _) (small _ (by norm_num))
  obtain ⟨S, hS, S0⟩ := C158_normalisation hM (P := shapeF float32 (smoothF float32 float32.elem p.Omega_m p.h (EH.alpha_gamma p) (EH.sh_d p)) prim)
    (fun k => float32.nonneg (mul_nonneg (float32.nonneg (mul_self_nonneg _)) (hp0 k)))
    (rd_pos (A := float32) (mul_pos (rd_pos (A := float32) (mul_pos (Tp _ (hM.exp_pos _)) (Tp _ (hM.exp_pos _)))) (pp _ (hM.exp_pos _)))) hc ht
  have ex : ∀ k, 0 < k → ∃ P, linearPowerF float32 M (smoothF float32 float32.elem p.Omega_m p.h (EH.alpha_gamma p) (EH.sh_d p)) prim g p.sigma8 c t k = .ok P ∧
      0 < P := fun k hk => by
    have : ∃ P, linearPowerF float32 M (smoothF float32 float32.elem p.Omega_m p.h (EH.alpha_gamma p) (EH.sh_d p)) prim g p.sigma8 c t k = .ok P := by
      rw [linearPowerF, hS]; exact ⟨_, rfl⟩
    obtain ⟨P, hP⟩ := this
    refine ⟨P, hP, (C176_linear (hT k hk.le) (prim0 := fun k => k ^ p.n_s) (hp k hk.le) hS S0.le g0.le hP).pos ?_ (small _ (by norm_num))⟩
    have := nowiggle_pos h a0.le hk
    exact mul_pos (mul_pos (Real.rpow_pos_of_pos hk _) (by positivity)) (mul_pos (by positivity) (rd_pos (A := float32)
      (div_pos (rd_pos (A := float32) (mul_pos h8 h8)) S0)))
  obtain ⟨P, hP, P0⟩ := ex k hk
  obtain ⟨Q, hQ, Q0⟩ := ex l hl
  refine ⟨P, Q, hP, hQ, P0, Q0, ?_⟩
  have hr := C176_power (s := 1) le_rfl rounded_log hexp (small _ (by norm_num)) p hp (EH.om_pos h) h.h_pos a0 a1 hs h8
    (sigmasqr_pos p _ (nowiggle_pos h a0.le (Real.exp_pos _)).ne').ne' ga hS S0 g0 hk hl hP hQ
  exact hr.le (hu _ (by norm_num))

/-- C176: the same for every transfer function that is computed with a relative error. -/
theorem C176_any {p : Params} (h8 : 0 < p.sigma8) (hM : M.Good) {T T0 prim : ℝ → ℝ} {n : ℕ} (hT : ∀ k, 0 ≤ k → Rel float32 n (T k) (T0 k))
    (T0p : ∀ k, 0 < k → 0 < T0 k) {e : ℝ} (he : (1 + float32.u) ^ (6 * n + 19) ≤ 1 + e) (he' : e ≤ 1 / 2)
    (hp : ∀ k, 0 ≤ k → Rel float32 1 (prim k) (k ^ p.n_s)) (hp0 : ∀ k, 0 ≤ prim k) {g c a : ℝ} (g0 : 0 < g) (hc : 0 < c)
    (ga : growthOf p a ≠ 0) {t : ℕ → SumTree} (ht : ∀ i < 7, (t (i + 1)).leaves.Perm (List.range (2 ^ i)) ∧ (t (i + 1)).depth ≤ 64) {k l : ℝ}
    (hk : 0 < k) (hl : 0 < l) :
    ∃ P Q, linearPowerF float32 M T prim g p.sigma8 c t k = .ok P ∧ linearPowerF float32 M T prim g p.sigma8 c t l = .ok Q ∧ 0 < P ∧ 0 < Q ∧
      |float32.div P Q - linearMatterPower p T0 k a / linearMatterPower p T0 l a| ≤ e * (linearMatterPower p T0 k a / linearMatterPower p T0 l a) := by
  have small : ∀ m : ℕ, m ≤ 6 * n + 19 → (1 + float32.u) ^ m ≤ 3 / 2 := fun m hm =>
    (pow_le_pow_right₀ (by linarith [float32.u_nonneg]) hm).trans (he.trans (by linarith))
  have Tp : ∀ k, 0 < k → 0 < T k := fun k hk => (hT k hk.le).pos (T0p k hk) (small _ (by omega))
  have pp : ∀ k, 0 < k → 0 < prim k := fun k hk => (hp k hk.le).pos (Real.rpow_pos_of_pos hk _) (small _ (by omega))
  obtain ⟨S, hS, S0⟩ := C158_normalisation hM (P := shapeF float32 T prim)
    (fun k => float32.nonneg (mul_nonneg (float32.nonneg (mul_self_nonneg _)) (hp0 k)))
    (rd_pos (A := float32) (mul_pos (rd_pos (A := float32) (mul_pos (Tp _ (hM.exp_pos _)) (Tp _ (hM.exp_pos _)))) (pp _ (hM.exp_pos _)))) hc ht
  have ex : ∀ k, 0 < k → ∃ P, linearPowerF float32 M T prim g p.sigma8 c t k = .ok P ∧ 0 < P := fun k hk => by
    have : ∃ P, linearPowerF float32 M T prim g p.sigma8 c t k = .ok P := by
      rw [linearPowerF, hS]; exact ⟨_, rfl⟩
    obtain ⟨P, hP⟩ := this
    refine ⟨P, hP, (C176_linear (hT k hk.le) (prim0 := fun k => k ^ p.n_s) (hp k hk.le) hS S0.le g0.le hP).pos ?_ (small _ (by omega))⟩
    have := T0p k hk
    exact mul_pos (mul_pos (Real.rpow_pos_of_pos hk _) (by positivity)) (mul_pos (by positivity) (rd_pos (A := float32)
      (div_pos (rd_pos (A := float32) (mul_pos h8 h8)) S0)))
  obtain ⟨P, hP, P0⟩ := ex k hk
  obtain ⟨Q, hQ, Q0⟩ := ex l hl
  refine ⟨P, Q, hP, hQ, P0, Q0, ?_⟩
  have e1 : linearMatterPower p T0 k a / linearMatterPower p T0 l a = k ^ p.n_s * T0 k ^ 2 / (l ^ p.n_s * T0 l ^ 2) := by
    simp only [linearMatterPower, primordialMatterPower]
    rw [mul_assoc (k ^ p.n_s * _), mul_assoc (l ^ p.n_s * _), mul_div_mul_right]
    exact mul_ne_zero (pow_ne_zero _ ga) (div_ne_zero (pow_ne_zero _ h8.ne') (sigmasqr_pos p _ (T0p _ (Real.exp_pos _)).ne').ne')
  rw [e1]
  exact Rel.le ((C176_ratio (small _ (by omega)) (prim0 := fun k => k ^ p.n_s) hT hp hS S0 g0 h8 hk.le hl.le hP hQ
    (mul_pos (Real.rpow_pos_of_pos hl _) (pow_pos (T0p l hl) 2))).mono (j := 6 * n + 19) (by omega)) he

/-- Three times an error is within that of three times the roundings. -/
theorem Rel.of_triple {k : ℕ} {B y x : ℝ} (h : Near A.u k B y x) (hB : B ≤ 3 * x) (hx : 0 ≤ x) : Rel A (3 * k) y x := by
  refine ⟨h.1.trans ?_, (abs_of_nonneg hx).le⟩
  have g1 := one_le_growth (A := A) k
  rw [pow_mul']
  set g := (1 + A.u) ^ k
  have : (g - 1) * 3 ≤ g ^ 3 - 1 := by nlinarith [mul_nonneg (sub_nonneg.2 g1) (sub_nonneg.2 g1)]
  nlinarith [mul_le_mul_of_nonneg_left hB (sub_nonneg.2 g1), mul_le_mul_of_nonneg_right this hx]

/-- C176: accuracy of the effective shape when `alpha_gamma` and the sound horizon carry errors of their own. -/
theorem C176_gamma_inputs {m : ℕ} (hg : (1 + A.u) ^ (4 * m + 16) ≤ 3 / 2) {Om h ag ag' sh sh' k : ℝ} (hO : 0 ≤ Om) (hh : 0 ≤ h) (a0 : 0 ≤ ag) (a1 : ag ≤ 1)
    (ha : Rel A m ag' ag) (hs : Rel A m sh' sh) (hk : 0 ≤ k) :
    Rel A (27 * m + 107) (gammaEffF A Om h ag' sh' k) (effectiveShape Om h ag sh k) := by
  have hx : Rel A (m + 3) (A.mul (A.mul (A.rd 0.43) k) sh') (0.43 * k * sh) :=
    ((Rel.const (by norm_num)).mul (Rel.refl hk) (n := 2) le_rfl).mul hs (by omega)
  have h4 : Rel A (4 * m + 15) (pow4F A (A.mul (A.mul (A.rd 0.43) k) sh')) ((0.43 * k * sh) ^ 4) := by
    have := (hx.sq (n := 2 * m + 7) (by omega)).sq (n := 4 * m + 15) (by omega)
    rwa [← pow_mul] at this
  have hd : Rel A (4 * m + 16) (A.add 1 (pow4F A (A.mul (A.mul (A.rd 0.43) k) sh'))) (1 + (0.43 * k * sh) ^ 4) :=
    (Rel.refl zero_le_one).add h4 (by omega)
  have hn : Near A.u (m + 1) (1 + ag) (A.sub 1 ag') (1 - ag) := Near.sub ((Rel.refl zero_le_one).mono (Nat.zero_le m)) ha
  have y0 : 0 ≤ (0.43 * k * sh) ^ 4 := by positivity
  have hq : Near A.u (9 * m + 34) ((1 + ag) / (1 + (0.43 * k * sh) ^ 4)) (A.div (A.sub 1 ag') (A.add 1 (pow4F A (A.mul (A.mul (A.rd 0.43) k) sh'))))
      ((1 - ag) / (1 + (0.43 * k * sh) ^ 4)) := (hn.div_near (by positivity) hd hg).rd.mono (by omega)
  have hv := Near.add (ha.mono (by omega : m ≤ 9 * m + 34)) hq
  have v0 : 0 ≤ ag + (1 - ag) / (1 + (0.43 * k * sh) ^ 4) := add_nonneg a0 (div_nonneg (by linarith) (by positivity))
  have hr := Rel.of_triple hv (by
    generalize (0.43 * k * sh) ^ 4 = y at y0
    have e1 : ag + (1 + ag) / (1 + y) = (1 + 2 * ag + ag * y) / (1 + y) := by field_simp; ring
    have e2 : 3 * (ag + (1 - ag) / (1 + y)) = (3 + 3 * (ag * y)) / (1 + y) := by field_simp; ring
    rw [e1, e2]
    exact div_le_div_of_nonneg_right (by nlinarith [mul_nonneg a0 y0]) (by positivity)) v0
  exact ((Rel.refl hO).mul (Rel.refl hh) (n := 1) le_rfl).mul hr (by omega)

/-- C176: the same in single precision when `alpha_gamma` and the sound horizon are computed to `m` roundings. -/
theorem C176_inputs {p : Params} (h : p.Baryonic) (a0 : 0 < EH.alpha_gamma p) (a1 : EH.alpha_gamma p ≤ 1) (h8 : 0 < p.sigma8)
    (hM : M.Good) {ag sh e : ℝ} {m : ℕ} (ha : Rel float32 m ag (EH.alpha_gamma p)) (hsh : Rel float32 m sh (EH.sh_d p))
    (he : (1 + float32.u) ^ (3240 * m + 13399) ≤ 1 + e) (he' : e ≤ 1 / 2)
    {prim : ℝ → ℝ} (hp : ∀ k, 0 ≤ k → Rel float32 1 (prim k) (k ^ p.n_s)) (hp0 : ∀ k, 0 ≤ prim k) {g c a : ℝ} (g0 : 0 < g) (hc : 0 < c)
    (ga : growthOf p a ≠ 0) {t : ℕ → SumTree} (ht : ∀ i < 7, (t (i + 1)).leaves.Perm (List.range (2 ^ i)) ∧ (t (i + 1)).depth ≤ 64) {k l : ℝ}
    (hk : 0 < k) (hl : 0 < l) :
    ∃ P Q, linearPowerF float32 M (smoothF float32 float32.elem p.Omega_m p.h ag sh) prim g p.sigma8 c t k = .ok P ∧
      linearPowerF float32 M (smoothF float32 float32.elem p.Omega_m p.h ag sh) prim g p.sigma8 c t l = .ok Q ∧ 0 < P ∧ 0 < Q ∧
      |float32.div P Q - linearMatterPower p (EH.nowiggle p) k a / linearMatterPower p (EH.nowiggle p) l a|
        ≤ e * (linearMatterPower p (EH.nowiggle p) k a / linearMatterPower p (EH.nowiggle p) l a) := by
  have small : ∀ n : ℕ, n ≤ 3240 * m + 13399 → (1 + float32.u) ^ n ≤ 3 / 2 := fun n hn =>
    (pow_le_pow_right₀ (by linarith [float32.u_nonneg]) hn).trans (he.trans (by linarith))
  refine C176_any h8 hM (n := 9 * 1 + 20 * (27 * m + 107) + 81) (fun k hk => ?_) (fun k hk => nowiggle_pos h a0.le hk) ((pow_le_pow_right₀ (by linarith [float32.u_nonneg]) (by omega)).trans he) he'
    hp hp0 g0 hc ga ht hk hl
  rw [C175_fit]
  exact C176_transfer (s := 1) le_rfl rounded_log (Rel.const (Real.exp_pos 1).le) (small _ (by omega)) (EH.gamma_pos h a0.le k)
    (C176_gamma_inputs (small _ (by omega)) (EH.om_pos h).le h.h_pos.le a0.le a1 ha hsh hk) hk

/-- The logarithm of the library for numbers from `e` on. -/
theorem Rel.libLog {s k n : ℕ} (hlog : ∀ x, 0 < x → Near A.u s |Real.log x| (L.log x) (Real.log x)) {y x : ℝ} (h : Rel A k y x) (hx : Real.exp 1 ≤ x)
    (hg : (1 + A.u) ^ (2 * k) ≤ 3 / 2) (hn : s + 2 * k ≤ n) : Rel A n (L.log y) (Real.log x) := by
  have x0 : 0 < x := (Real.exp_pos 1).trans_le hx
  have hg' : (1 + A.u) ^ k ≤ 3 / 2 := (pow_le_pow_right₀ (by linarith [A.u_nonneg]) (by omega)).trans hg
  have hl := h.log hx hg'
  have l1 : 1 ≤ Real.log x := by rw [Real.le_log_iff_exp_le x0]; exact hx
  have := hlog y (h.pos x0 hg')
  rw [abs_of_pos (hl.pos (by linarith) hg)] at this
  exact (this.trans_rel hl).mono hn

/-- C176: without rounding, this is `alpha_gamma` of the exact model. -/
theorem C176_alpha_exact (p : Params) : alphaGammaF exactArith exactArith.elem p.Omega_b p.Omega_m p.h = EH.alpha_gamma p := by
  simp only [alphaGammaF, EH.alpha_gamma, EH.w_m, EH.w_b, EH.h2, Rounding.elem, Rounding.mul, Rounding.div, Rounding.add, Rounding.sub, exactArith, id, pow_two]

/-- C176: accuracy of `alpha_gamma`, where the matter density is not below `e / 22.3` and its terms do not cancel. -/
theorem C176_alpha {s : ℕ} (hlog : ∀ x, 0 < x → Near A.u s |Real.log x| (L.log x) (Real.log x)) (hg : (1 + A.u) ^ 8 ≤ 3 / 2) {p : Params} (h : p.Baryonic)
    (hw : Real.exp 1 ≤ 22.3 * EH.w_m p)
    (hc : 1 + 0.328 * Real.log (431 * EH.w_m p) * EH.w_b p / EH.w_m p + 0.38 * Real.log (22.3 * EH.w_m p) * (p.Omega_b / p.Omega_m) ^ 2
      ≤ 3 * EH.alpha_gamma p) :
    Rel A (3 * (s + 22)) (alphaGammaF A L p.Omega_b p.Omega_m p.h) (EH.alpha_gamma p) := by
  have small : ∀ {n : ℕ}, n ≤ 8 → (1 + A.u) ^ n ≤ 3 / 2 := fun hn => (pow_le_pow_right₀ (by linarith [A.u_nonneg]) hn).trans hg
  have Om0 := EH.om_pos h
  have Ob0 : 0 ≤ p.Omega_b := h.b_pos.le
  have w0 := EH.wm_pos h
  have hh : Rel A 1 (A.mul p.h p.h) (EH.h2 p) := (Rel.refl h.h_pos.le).sq (by norm_num)
  have hm : Rel A 2 (A.mul p.Omega_m (A.mul p.h p.h)) (EH.w_m p) := (Rel.refl Om0.le).mul hh (by norm_num)
  have hb : Rel A 2 (A.mul p.Omega_b (A.mul p.h p.h)) (EH.w_b p) := (Rel.refl Ob0).mul hh (by norm_num)
  have hf : Rel A 1 (A.div p.Omega_b p.Omega_m) (p.Omega_b / p.Omega_m) := (Rel.refl Ob0).div Om0 (Rel.refl Om0.le) (small (by norm_num)) (by norm_num)
  have l1 := Rel.libLog hlog ((Rel.const (A := A) (by norm_num : (0 : ℝ) ≤ 431)).mul hm (n := 4) (by norm_num)) (by linarith) (small (by norm_num)) (n := s + 8) (by omega)
  have l2 := Rel.libLog hlog ((Rel.const (A := A) (by norm_num : (0 : ℝ) ≤ 22.3)).mul hm (n := 4) (by norm_num)) hw (small (by norm_num)) (n := s + 8) (by omega)
  have h1 := (((Rel.const (A := A) (by norm_num : (0 : ℝ) ≤ 0.328)).mul l1 (n := s + 10) (by omega)).mul hb (n := s + 13) (by omega)).div w0 hm (small (by norm_num))
    (n := s + 18) (by omega)
  have h2 := ((Rel.const (A := A) (by norm_num : (0 : ℝ) ≤ 0.38)).mul l2 (n := s + 10) (by omega)).mul (hf.sq (n := 3) (by norm_num)) (n := s + 19) (by omega)
  have h3 := Near.add (Near.sub ((Rel.refl (A := A) zero_le_one).mono (Nat.zero_le (s + 18))) h1) h2
  have a0 : 0 ≤ EH.alpha_gamma p := by
    have := (abs_nonneg _).trans h1.2
    have := (abs_nonneg _).trans h2.2
    linarith
  exact (Rel.of_triple h3 hc a0).mono (by omega)

/-- C176: in single precision, with `alpha_gamma` computed and the sound horizon good to 69 roundings, ratios of the linear power are good to
one and a half per cent. -/
theorem C176_computed {p : Params} (h : p.Baryonic) (a0 : 0 < EH.alpha_gamma p) (a1 : EH.alpha_gamma p ≤ 1) (h8 : 0 < p.sigma8)
    (hw : Real.exp 1 ≤ 22.3 * EH.w_m p)
    (hx : 1 + 0.328 * Real.log (431 * EH.w_m p) * EH.w_b p / EH.w_m p + 0.38 * Real.log (22.3 * EH.w_m p) * (p.Omega_b / p.Omega_m) ^ 2
      ≤ 3 * EH.alpha_gamma p)
    (hM : M.Good) {sh : ℝ} (hsh : Rel float32 69 sh (EH.sh_d p))
    {prim : ℝ → ℝ} (hp : ∀ k, 0 ≤ k → Rel float32 1 (prim k) (k ^ p.n_s)) (hp0 : ∀ k, 0 ≤ prim k) {g c a : ℝ} (g0 : 0 < g) (hc : 0 < c)
    (ga : growthOf p a ≠ 0) {t : ℕ → SumTree} (ht : ∀ i < 7, (t (i + 1)).leaves.Perm (List.range (2 ^ i)) ∧ (t (i + 1)).depth ≤ 64) {k l : ℝ}
    (hk : 0 < k) (hl : 0 < l) :
    let T := smoothF float32 float32.elem p.Omega_m p.h (alphaGammaF float32 float32.elem p.Omega_b p.Omega_m p.h) sh
    ∃ P Q, linearPowerF float32 M T prim g p.sigma8 c t k = .ok P ∧ linearPowerF float32 M T prim g p.sigma8 c t l = .ok Q ∧ 0 < P ∧ 0 < Q ∧
      |float32.div P Q - linearMatterPower p (EH.nowiggle p) k a / linearMatterPower p (EH.nowiggle p) l a|
        ≤ 1.5e-2 * (linearMatterPower p (EH.nowiggle p) k a / linearMatterPower p (EH.nowiggle p) l a) :=
  have small : (1 + float32.u) ^ 8 ≤ 1 + 1 / 2 := float32_growth (m := 8) (by norm_num) le_rfl (by norm_num)
  C176_inputs h a0 a1 h8 hM (m := 69) (C176_alpha (s := 1) rounded_log (small.trans (by norm_num)) h hw hx) hsh
    (float32_growth (m := 240000) (by norm_num) (by norm_num) (by norm_num)) (by norm_num) hp hp0 g0 hc ga ht hk hl

/-- The terms of `alpha_gamma` in the Planck 2015 cosmology. -/
theorem planck_terms : Real.exp 1 ≤ 22.3 * EH.w_m Planck15 ∧
    1 + 0.328 * Real.log (431 * EH.w_m Planck15) * EH.w_b Planck15 / EH.w_m Planck15
      + 0.38 * Real.log (22.3 * EH.w_m Planck15) * (Planck15.Omega_b / Planck15.Omega_m) ^ 2 ≤ 3 * EH.alpha_gamma Planck15 := by
  have e0 : 2.72 ≤ 22.3 * EH.w_m Planck15 := by norm_num [EH.w_m, EH.h2, Planck15, Params.Omega_m]
  refine ⟨by linarith [Real.exp_one_lt_d9], ?_⟩
  have e1 : 431 * EH.w_m Planck15 ≤ 64 := by norm_num [EH.w_m, EH.h2, Planck15, Params.Omega_m]
  have e3 : EH.w_b Planck15 / EH.w_m Planck15 ≤ 0.1581 ∧ 0.158 ≤ EH.w_b Planck15 / EH.w_m Planck15 := by
    norm_num [EH.w_m, EH.w_b, EH.h2, Planck15, Params.Omega_m]
  have hw := EH.wm_pos planck_baryonic
  have l1 : Real.log (431 * EH.w_m Planck15) ≤ 4.2 := by
    calc Real.log (431 * EH.w_m Planck15) ≤ Real.log 64 := Real.log_le_log (by positivity) e1
      _ = 6 * Real.log 2 := by
          rw [show (64 : ℝ) = 2 ^ 6 by norm_num, Real.log_pow]; norm_num
      _ ≤ _ := by have := Real.log_two_lt_d9; linarith
  have l2 : 0 ≤ Real.log (22.3 * EH.w_m Planck15) := Real.log_nonneg (by linarith)
  have l3 : 0 ≤ Real.log (431 * EH.w_m Planck15) := Real.log_nonneg (by linarith)
  rw [EH.alpha_gamma, mul_div_assoc]
  have hb : 0 ≤ 0.38 * Real.log (22.3 * EH.w_m Planck15) * (Planck15.Omega_b / Planck15.Omega_m) ^ 2 := by positivity
  have ha := mul_le_mul l1 e3.1 (by linarith [e3.2]) (by norm_num)
  norm_num at ha hb ⊢
  linarith

/-- The Planck 2015 cosmology today, with the functions of `C158_normalisation`. -/
example {k l : ℝ} (hk : 0 < k) (hl : 0 < l) :
    ∃ P Q, linearPowerF float32 float32.libm (smoothF float32 float32.elem Planck15.Omega_m Planck15.h (EH.alpha_gamma Planck15) (EH.sh_d Planck15))
        (fun k => float32.rd (max k 0 ^ Planck15.n_s)) 1 Planck15.sigma8 (1 / 20) (fun i => pairwise (i - 1) 0) k = .ok P ∧
      linearPowerF float32 float32.libm (smoothF float32 float32.elem Planck15.Omega_m Planck15.h (EH.alpha_gamma Planck15) (EH.sh_d Planck15))
        (fun k => float32.rd (max k 0 ^ Planck15.n_s)) 1 Planck15.sigma8 (1 / 20) (fun i => pairwise (i - 1) 0) l = .ok Q ∧ 0 < P ∧ 0 < Q ∧
      |float32.div P Q - linearMatterPower Planck15 (EH.nowiggle Planck15) k 1 / linearMatterPower Planck15 (EH.nowiggle Planck15) l 1|
        ≤ 3e-4 * (linearMatterPower Planck15 (EH.nowiggle Planck15) k 1 / linearMatterPower Planck15 (EH.nowiggle Planck15) l 1) :=
  C176_single planck_baryonic planck_alpha.1 planck_alpha.2 (by norm_num [Planck15]) libm_good
    (fun k hk => by rw [max_eq_left hk]; exact Rel.const (Real.rpow_nonneg hk _)) (fun k => float32.nonneg (Real.rpow_nonneg (le_max_right k 0) _))
    one_pos (by norm_num) (by rw [show growthOf Planck15 1 = 1 from C10_one _ planck_physical]; exact one_ne_zero)
    (fun i hi => ⟨(pairwise_ok 7 i hi).1, (pairwise_ok 7 i hi).2.trans (by norm_num)⟩) hk hl

/-- The same cosmology with `alpha_gamma` and the sound horizon as the nearest numbers. -/
example {k l : ℝ} (hk : 0 < k) (hl : 0 < l) :
    ∃ P Q, linearPowerF float32 float32.libm (smoothF float32 float32.elem Planck15.Omega_m Planck15.h (float32.rd (EH.alpha_gamma Planck15))
        (float32.rd (EH.sh_d Planck15))) (fun k => float32.rd (max k 0 ^ Planck15.n_s)) 1 Planck15.sigma8 (1 / 20) (fun i => pairwise (i - 1) 0) k = .ok P ∧
      linearPowerF float32 float32.libm (smoothF float32 float32.elem Planck15.Omega_m Planck15.h (float32.rd (EH.alpha_gamma Planck15))
        (float32.rd (EH.sh_d Planck15))) (fun k => float32.rd (max k 0 ^ Planck15.n_s)) 1 Planck15.sigma8 (1 / 20) (fun i => pairwise (i - 1) 0) l = .ok Q ∧ 0 < P ∧ 0 < Q ∧
      |float32.div P Q - linearMatterPower Planck15 (EH.nowiggle Planck15) k 1 / linearMatterPower Planck15 (EH.nowiggle Planck15) l 1|
        ≤ 2e-3 * (linearMatterPower Planck15 (EH.nowiggle Planck15) k 1 / linearMatterPower Planck15 (EH.nowiggle Planck15) l 1) :=
  C176_inputs planck_baryonic planck_alpha.1 planck_alpha.2 (by norm_num [Planck15]) libm_good (m := 1) ((Rel.const planck_alpha.1.le).mono (by norm_num))
    ((Rel.const (EH.shd_pos planck_baryonic).le).mono (by norm_num)) (float32_growth (m := 20000) (by norm_num) (by norm_num) (by norm_num)) (by norm_num)
    (fun k hk => by rw [max_eq_left hk]; exact Rel.const (Real.rpow_nonneg hk _)) (fun k => float32.nonneg (Real.rpow_nonneg (le_max_right k 0) _))
    one_pos (by norm_num) (by rw [show growthOf Planck15 1 = 1 from C10_one _ planck_physical]; exact one_ne_zero)
    (fun i hi => ⟨(pairwise_ok 7 i hi).1, (pairwise_ok 7 i hi).2.trans (by norm_num)⟩) hk hl

/-- The same cosmology with `alpha_gamma` as computed. -/
example {k l : ℝ} (hk : 0 < k) (hl : 0 < l) :
    let T := smoothF float32 float32.elem Planck15.Omega_m Planck15.h (alphaGammaF float32 float32.elem Planck15.Omega_b Planck15.Omega_m Planck15.h)
      (float32.rd (EH.sh_d Planck15))
    let prim := fun k => float32.rd (max k 0 ^ Planck15.n_s)
    ∃ P Q, linearPowerF float32 float32.libm T prim 1 Planck15.sigma8 (1 / 20) (fun i => pairwise (i - 1) 0) k = .ok P ∧
      linearPowerF float32 float32.libm T prim 1 Planck15.sigma8 (1 / 20) (fun i => pairwise (i - 1) 0) l = .ok Q ∧ 0 < P ∧ 0 < Q ∧
      |float32.div P Q - linearMatterPower Planck15 (EH.nowiggle Planck15) k 1 / linearMatterPower Planck15 (EH.nowiggle Planck15) l 1|
        ≤ 1.5e-2 * (linearMatterPower Planck15 (EH.nowiggle Planck15) k 1 / linearMatterPower Planck15 (EH.nowiggle Planck15) l 1) :=
  C176_computed planck_baryonic planck_alpha.1 planck_alpha.2 (by norm_num [Planck15]) planck_terms.1 planck_terms.2 libm_good
    ((Rel.const (EH.shd_pos planck_baryonic).le).mono (by norm_num))
    (fun k hk => by rw [max_eq_left hk]; exact Rel.const (Real.rpow_nonneg hk _)) (fun k => float32.nonneg (Real.rpow_nonneg (le_max_right k 0) _))
    one_pos (by norm_num) (by rw [show growthOf Planck15 1 = 1 from C10_one _ planck_physical]; exact one_ne_zero)
    (fun i hi => ⟨(pairwise_ok 7 i hi).1, (pairwise_ok 7 i hi).2.trans (by norm_num)⟩) hk hl

end JaxCosmo
