import Verif.Props.Utils
import Verif.Props.GrowthEquation
import Verif.Props.Probes
import Mathlib.Analysis.Real.Pi.Bounds

/-! # C71, C72, C73: units, number conservation, comparison of distances -/

namespace JaxCosmo
open Spec

/-! ## C71 -/

/-- C71: the distance integrand is `c / (a² H)` with the library's own `c` and `H`. -/
theorem C71_rate (p : Params) (a : ℝ) : dchioverda p a = const_c / (a ^ 2 * H p a) := by
  unfold dchioverda H const_rh const_c const_H0
  rw [show a ^ 2 * (100 * Real.sqrt (Esqr p a)) = 100 * (a ^ 2 * Real.sqrt (Esqr p a)) by ring,
    ← div_div (299792.458 : ℝ)]
  norm_num

/-- C71: so the distance integral over the scale factor is `∫ c / H(z) dz` over redshift. -/
theorem C71_redshift (p : Params) {a : ℝ} (ha : 0 < a) (ha1 : a ≤ 1) (hE : EsqrPos p) :
    ∫ x in a..1, dchioverda p x = ∫ z in (0 : ℝ)..a2z a, const_c / H p (z2a z) := by
  have hz : ∀ z ∈ Set.uIcc (0 : ℝ) (a2z a), 0 ≤ z := by
    intro z hz
    rw [Set.uIcc_of_le (by unfold a2z; rw [sub_nonneg, le_div_iff₀ ha]; linarith)] at hz
    exact hz.1
  have hder : ∀ z ∈ Set.uIcc (0 : ℝ) (a2z a), HasDerivAt z2a (-(1 / (1 + z) ^ 2)) z := by
    intro z h
    have h1 : (1 + z) ≠ 0 := by have := hz z h; positivity
    have := ((hasDerivAt_id z).const_add 1).inv h1
    have e : z2a = fun z : ℝ => (1 + z)⁻¹ := by funext z; simp [z2a]
    rw [e]
    refine this.congr_deriv ?_
    simp only [id]
    field_simp
  have hc' : ContinuousOn (fun z : ℝ => -(1 / (1 + z) ^ 2)) (Set.uIcc (0 : ℝ) (a2z a)) := by
    refine ContinuousOn.neg (continuousOn_const.div (by fun_prop) ?_)
    intro z h; have := hz z h; positivity
  have hmem : z2a '' Set.uIcc (0 : ℝ) (a2z a) ⊆ Set.Ioc 0 1 := by
    rintro _ ⟨z, h, rfl⟩
    have := hz z h
    unfold z2a
    exact ⟨by positivity, by rw [div_le_one (by positivity)]; linarith⟩
  have hcont : ContinuousOn (dchioverda p) (z2a '' Set.uIcc (0 : ℝ) (a2z a)) := by
    intro x hx
    obtain ⟨h0, h1⟩ := hmem hx
    have hd := (Esqr_hasDerivAt p h0).continuousAt
    have : ContinuousAt (dchioverda p) x := by
      unfold dchioverda
      refine continuousAt_const.div ((continuousAt_id.pow 2).mul hd.sqrt) ?_
      have := Real.sqrt_pos.2 (hE x h0 h1)
      positivity
    exact this.continuousWithinAt
  have key := intervalIntegral.integral_comp_mul_deriv' (f := z2a)
    (f' := fun z => -(1 / (1 + z) ^ 2)) (g := dchioverda p) hder hc' hcont
  have e0 : z2a (0 : ℝ) = 1 := by norm_num [z2a]
  have e1 : z2a (a2z a) = a := C01_z2a_a2z a ha.ne'
  rw [e0, e1] at key
  rw [intervalIntegral.integral_symm, ← key, ← intervalIntegral.integral_neg]
  refine intervalIntegral.integral_congr fun z h => ?_
  have h1 := hz z h
  simp only [Function.comp_apply]
  rw [C71_rate, z2a]
  have : (1 + z) ≠ 0 := by positivity
  field_simp

/-- C71: number conservation.  A clustering kernel, divided by `c` and weighted by the distance
element `dχ` belonging to `da`, is the biased number of objects in the redshift element
`dz = da / a²`. -/
theorem C71_number (p : Params) (hg : p.gamma = none) (pzs : List Nz) (h0 : pzs ≠ [])
    (hd : ∀ pz ∈ pzs, pz.isDelta = false) (b : Bias) (ell : ℝ) {a : ℝ} (ha : 0 < a)
    (hE : 0 < Esqr p a) {k : List ℝ} (hk : densityKernel p pzs (.bias b) (a2z a) ell = .ok k) :
    k.map (fun x => x / const_c * dchioverda p a)
      = pzs.map fun pz => b.call p (a2z a) * pz.eval (a2z a) * (1 / a ^ 2) := by
  rw [density_rows p hg pzs h0 hd b, Except.ok.injEq] at hk
  subst hk
  rw [List.map_map]
  refine List.map_congr_left fun pz _ => ?_
  have hH : 0 < H p a := mul_pos (by norm_num [const_H0]) (Real.sqrt_pos.2 hE)
  have hc : const_c ≠ 0 := by norm_num [const_c]
  simp only [Function.comp_apply]
  rw [C71_rate, C01_z2a_a2z a ha.ne']
  have := ha.ne'
  have := hH.ne'
  field_simp

/-- Witness: Planck15 at redshift one. -/
example : ∫ x in (1 / 2 : ℝ)..1, dchioverda Planck15 x
    = ∫ z in (0 : ℝ)..1, const_c / H Planck15 (z2a z) := by
  have := C71_redshift Planck15 (a := 1 / 2) (by norm_num) (by norm_num) planck_EsqrPos
  rw [this]
  norm_num [a2z]

/-! ## C72 -/

theorem chiRate_anti {p q : Params} (hp : EsqrPos p)
    (h : ∀ a, 0 < a → a ≤ 1 → Esqr p a ≤ Esqr q a) {x : ℝ} (hx : x ≤ 0) :
    chiRate q x ≤ chiRate p x := by
  rw [chiRate_eq, chiRate_eq]
  have h1 : Real.exp x ≤ 1 := Real.exp_le_one_iff.2 hx
  have h0 := Real.exp_pos x
  have := Real.sqrt_le_sqrt (h _ h0 h1)
  have hs := Real.sqrt_pos.2 (hp _ h0 h1)
  have hr : (0 : ℝ) ≤ const_rh * Real.exp (-x) :=
    mul_nonneg (by norm_num [const_rh]) (Real.exp_pos _).le
  exact div_le_div_of_nonneg_left hr hs this

/-- C72 at the nodes: a faster expansion at all times gives smaller tabulated distances. -/
theorem C72_nodes {p q : Params} {lo : ℝ} (hlo : lo < 0) {n : ℕ} (hn : 2 ≤ n) (hp : EsqrPos p)
    (h : ∀ a, 0 < a → a ≤ 1 → Esqr p a ≤ Esqr q a) {i : ℕ} (hi : i < n) :
    (chiTable q lo n).chi i ≤ (chiTable p lo n).chi i := by
  rw [chiTable_chi p lo n i (by omega), chiTable_chi q lo n i (by omega)]
  refine Finset.sum_le_sum fun j hj => ?_
  have hj2 := (Finset.mem_Ico.1 hj).2
  have hx := logspace_increasing hlo hn
  have hpos : ∀ k, 0 < logspace lo 0 n k := fun k => Real.rpow_pos_of_pos (by norm_num) _
  have hle : ∀ k, k < n → Real.log (logspace lo 0 n k) ≤ 0 := by
    intro k hk
    refine Real.log_nonpos (hpos k).le ?_
    rw [← logspace_end lo hn]
    rcases Nat.lt_or_ge k (n - 1) with h1 | h1
    · exact (hx k (n - 1) h1 (by omega)).le
    · rw [show k = n - 1 by omega]
  have h1 := hle j (by omega)
  have h2 := hle (j + 1) (by omega)
  have hlt : Real.log (logspace lo 0 n j) ≤ Real.log (logspace lo 0 n (j + 1)) :=
    Real.log_le_log (hpos j) (hx j (j + 1) (by omega) (by omega)).le
  unfold panel
  have e1 := chiRate_anti hp h h1
  have e2 := chiRate_anti hp h h2
  have e3 := chiRate_anti hp h (x := (Real.log (logspace lo 0 n j)
    + Real.log (logspace lo 0 n (j + 1))) / 2) (by linarith)
  exact mul_le_mul_of_nonneg_left (by linarith) (by linarith)

theorem chord_le_chord {xp f g : ℕ → ℝ} {j : ℕ} {x : ℝ} (h0 : f j ≤ g j) (h1 : f (j + 1) ≤ g (j + 1))
    (hx : xp j < xp (j + 1)) (hl : xp j ≤ x) (hr : x ≤ xp (j + 1)) :
    chord xp f j x ≤ chord xp g j x := by
  unfold chord
  have hd : 0 < xp (j + 1) - xp j := by linarith
  have t0 : 0 ≤ (x - xp j) / (xp (j + 1) - xp j) := div_nonneg (by linarith) hd.le
  have t1 : (x - xp j) / (xp (j + 1) - xp j) ≤ 1 := by rw [div_le_one hd]; linarith
  generalize (x - xp j) / (xp (j + 1) - xp j) = t at *
  nlinarith

theorem linInterp_seg {n : ℕ} {xp fp : ℕ → ℝ} (hx : Increasing n xp) {x y : ℝ}
    (h : LinInterp n xp fp x y) : ∃ j, j + 1 < n ∧ xp j < xp (j + 1) ∧ xp j ≤ x ∧ x ≤ xp (j + 1) ∧
      y = chord xp fp j x := by
  obtain ⟨j, hj, h1, h2, h3⟩ := h
  have := hx j (j + 1) (by omega) hj
  exact ⟨j, hj, this, by rwa [min_eq_left this.le] at h1, by rwa [max_eq_right this.le] at h2, h3⟩

/-- Piecewise-linear interpolants of ordered tables are ordered. -/
theorem linInterp_mono {n : ℕ} {xp f g : ℕ → ℝ} (hx : Increasing n xp)
    (h : ∀ i < n, f i ≤ g i) {x y z : ℝ} (hy : LinInterp n xp f x y) (hz : LinInterp n xp g x z) :
    y ≤ z := by
  obtain ⟨i, hi, hi0, hi1, hi2, rfl⟩ := linInterp_seg hx hy
  obtain ⟨j, hj, hj0, hj1, hj2, rfl⟩ := linInterp_seg hx hz
  have step := fun k (hk : k + 1 < n) => chord_le_chord (x := x) (h k (by omega)) (h (k + 1) hk)
    (hx k (k + 1) (by omega) hk)
  have e0 : ∀ k, xp k < xp (k + 1) → chord xp g k (xp k) = g k := by
    intro k _; simp [chord]
  have e1 : ∀ k, xp k < xp (k + 1) → chord xp g k (xp (k + 1)) = g (k + 1) := by
    intro k hk
    rw [chord, div_self (by linarith)]; ring
  have hle : ∀ i j, i < j → j < n → xp i ≤ xp j := fun i j h1 h2 => (hx i j h1 h2).le
  refine (step i hi hi1 hi2).trans (le_of_eq ?_)
  rcases lt_trichotomy i j with hij | rfl | hij
  · have hge : xp (i + 1) ≤ xp j := by
      rcases Nat.lt_or_ge (i + 1) j with h' | h'
      · exact hle _ _ h' (by omega)
      · rw [show i + 1 = j by omega]
    have ha : x = xp (i + 1) := by linarith
    have hb : x = xp j := by linarith
    have hij' : i + 1 = j := by
      by_contra hne
      have := hx (i + 1) j (by omega) (by omega)
      linarith
    subst hij'
    rw [ha, e1 i hi0, e0 _ hj0]
  · rfl
  · have hge : xp (j + 1) ≤ xp i := by
      rcases Nat.lt_or_ge (j + 1) i with h' | h'
      · exact hle _ _ h' (by omega)
      · rw [show j + 1 = i by omega]
    have ha : x = xp (j + 1) := by linarith
    have hb : x = xp i := by linarith
    have hij' : j + 1 = i := by
      by_contra hne
      have := hx (j + 1) i (by omega) (by omega)
      linarith
    subst hij'
    rw [ha, e1 j hj0, e0 _ hi0]

/-- C72: if one universe expands at least as fast as another at all times, every radial distance
in it is at most the distance in the other, at every scale factor from the second table node on. -/
theorem C72_radial {p q : Params} {lo : ℝ} (hlo : lo < 0) {n : ℕ} (hn : 2 ≤ n) (hp : EsqrPos p)
    (h : ∀ a, 0 < a → a ≤ 1 → Esqr p a ≤ Esqr q a) {a : ℝ} (ha : logspace lo 0 n 1 ≤ a) :
    readChi (chiTable q lo n) a ≤ readChi (chiTable p lo n) a := by
  have hq : EsqrPos q := fun a h0 h1 => lt_of_lt_of_le (hp a h0 h1) (h a h0 h1)
  rcases le_total 1 a with h1 | h1
  · rw [C06_zero_after hlo hn hq h1, C06_zero_after hlo hn hp h1]
  have hx := logspace_increasing hlo hn
  refine max_le_max ?_ le_rfl
  rw [chiTable_a, chiTable_n, chiTable_a, chiTable_n]
  have hl : logspace lo 0 n (if n = 2 then 0 else 1) ≤ a := by
    split_ifs with h2
    · exact (hx 0 1 (by omega) (by omega)).le.trans ha
    · exact ha
  have hr : a ≤ logspace lo 0 n (n - 1) := by rwa [logspace_end lo hn]
  exact linInterp_mono hx (fun i hi => C72_nodes hlo hn hp h hi)
    (C19_partial hn hx _ hl hr) (C19_partial hn hx _ hl hr)

/-- C72: with the default table this covers every redshift up to 970. -/
theorem C72_default {p q : Params} (hp : EsqrPos p)
    (h : ∀ a, 0 < a → a ≤ 1 → Esqr p a ≤ Esqr q a) {z : ℝ} (hz0 : 0 ≤ z) (hz : z ≤ 970) :
    chiZ q z ≤ chiZ p z := by
  refine C72_radial (by norm_num) (by norm_num) hp h ?_
  have e : logspace (-3) 0 256 1 = (10 : ℝ) ^ (-(254 / 85) : ℝ) := by
    unfold logspace
    congr 1
    rw [linspace_succ (N := 255)]
    norm_num
  rw [e, z2a, le_div_iff₀ (by linarith), Real.rpow_neg (by norm_num), inv_mul_le_iff₀ (by positivity),
    mul_one]
  have h3 : (971 : ℝ) ≤ (10 : ℝ) ^ (254 / 85 : ℝ) := by
    have h4 : (971 : ℝ) ^ (85 : ℕ) ≤ ((10 : ℝ) ^ (254 / 85 : ℝ)) ^ (85 : ℕ) := by
      rw [← Real.rpow_natCast ((10 : ℝ) ^ (254 / 85 : ℝ)), ← Real.rpow_mul (by norm_num),
        show (254 / 85 : ℝ) * ((85 : ℕ) : ℝ) = ((254 : ℕ) : ℝ) by norm_num, Real.rpow_natCast]
      norm_num
    exact le_of_pow_le_pow_left₀ (by norm_num) (by positivity) h4
  linarith

/-- C72: in a flat universe with a cosmological constant, more matter means smaller distances. -/
theorem C72_matter {p q : Params} (hk : p.Omega_k = 0) (hk' : q.Omega_k = 0) (hw : p.w0 = -1)
    (hw' : q.w0 = -1) (hwa : p.wa = 0) (hwa' : q.wa = 0) (hm0 : 0 < p.Omega_m) (hm1 : p.Omega_m ≤ 1)
    (hm : p.Omega_m ≤ q.Omega_m) {z : ℝ} (hz0 : 0 ≤ z) (hz : z ≤ 970) : chiZ q z ≤ chiZ p z := by
  refine C72_default (fun a ha _ => C05_Esqr_pos p a ha hm0 hk.ge ?_) ?_ hz0 hz
  · rw [Params.Omega_de, Params.Omega, hk]; linarith
  · intro a h0 h1
    rw [Esqr, Esqr, (C04_lambda_const p hw hwa a).1, (C04_lambda_const q hw' hwa' a).1, hk, hk',
      Params.Omega_de, Params.Omega_de, Params.Omega, Params.Omega, hk, hk']
    have : (1 : ℝ) ≤ a ^ (-3 : ℤ) := by
      rw [zpow_neg]
      exact (one_le_inv₀ (by positivity)).2 (by exact_mod_cast pow_le_one₀ h0.le h1)
    nlinarith

/-- Witness: Planck15 against a universe with more cold dark matter, at redshift 2. -/
example : chiZ { Planck15 with Omega_c := 0.3 } 2 ≤ chiZ Planck15 2 := by
  apply C72_matter <;> norm_num [Planck15, Params.Omega_m]

/-! ## C73 -/

/-- C73: the Hubble radius is `c / H0`, and the square degree conversion is `(180 · 60 / π)²` square
arc minutes per steradian to 13 digits. -/
theorem C73_units : const_rh * const_H0 = const_c ∧
    |steradian_to_arcmin2 - (180 * 60 / Real.pi) ^ 2| < 1e-6 := by
  constructor
  · norm_num [const_rh, const_H0, const_c]
  · have h1 := Real.pi_gt_d20
    have h2 := Real.pi_lt_d20
    have h0 : (0 : ℝ) < Real.pi := by linarith [Real.pi_gt_three]
    rw [steradian_to_arcmin2, abs_lt, div_pow]
    have hsq1 : (3.14159265358979323846 : ℝ) ^ 2 < Real.pi ^ 2 := by gcongr
    have hsq2 : Real.pi ^ 2 < (3.14159265358979323847 : ℝ) ^ 2 := by gcongr
    constructor
    · rw [lt_sub_iff_add_lt, ← lt_sub_iff_add_lt', div_lt_iff₀ (by positivity)]
      norm_num at hsq1 hsq2 ⊢
      linarith
    · rw [sub_lt_iff_lt_add, ← sub_lt_iff_lt_add', lt_div_iff₀ (by positivity)]
      norm_num at hsq1 hsq2 ⊢
      linarith

end JaxCosmo
