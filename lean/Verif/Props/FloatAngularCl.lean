import Mathlib.LinearAlgebra.Matrix.PosDef
import Mathlib.Algebra.Order.Chebyshev
import Verif.Model.FloatAngularCl
import Verif.Props.AngularCl
import Verif.Props.FloatGrowth
import Verif.Props.FloatRate
import Verif.Props.FloatRomb

/-! # C168: angular power spectra in floating point -/

namespace JaxCosmo
open Spec

variable {A : Rounding} {S : LimberInput} {t : SumTree} {zmax : ℝ}

/-- Simpson's sum over 512 intervals of `[a, 1]`. -/
noncomputable def simpsonSum (y : ℕ → ℝ) (a : ℝ) : ℝ :=
  (1 - a) / 512 / 3 * ∑ i ∈ Finset.range 256, (y (2 * i) + 4 * y (2 * i + 1) + y (2 * i + 2))

/-- The spectrum of two kernels: power times kernels times the distance element over the distance squared. -/
noncomputable def exactCl (S : LimberInput) (a : ℝ) (f g : ℕ → ℝ) : ℝ :=
  simpsonSum (fun n => S.pk n * S.dchi n / max (S.chi n ^ 2) 1 * (f n * g n)) a / const_c ^ 2

theorem Near.div_rd {k : ℕ} {M y x c : ℝ} (h : Near A.u k M y x) (hc : 0 < c) :
    Near A.u (k + 2) (M / c) (y / A.rd c) (x / c) := by
  have hu := A.u_nonneg
  have hu' := A.u_le
  have h1 := A.le_rd hc.le
  have h2 := A.rd_le hc.le
  have h0 : 0 < A.rd c := lt_of_lt_of_le (mul_pos (by linarith) hc) h1
  have hr : Near A.u 2 1 (c / A.rd c) 1 := by
    refine ⟨?_, by simp⟩
    have e1 : c / A.rd c ≤ (1 + A.u) ^ 2 := by
      rw [div_le_iff₀ h0]
      have : 1 ≤ (1 + A.u) ^ 2 * (1 - A.u) := by nlinarith [mul_nonneg hu hu, mul_nonneg hu (mul_nonneg hu hu)]
      calc c = 1 * c := (one_mul c).symm
        _ ≤ (1 + A.u) ^ 2 * (1 - A.u) * c := mul_le_mul_of_nonneg_right this hc.le
        _ = (1 + A.u) ^ 2 * ((1 - A.u) * c) := by ring
        _ ≤ _ := mul_le_mul_of_nonneg_left h1 (by positivity)
    have e2 : 1 - A.u ≤ c / A.rd c := by
      rw [le_div_iff₀ h0]
      calc (1 - A.u) * A.rd c ≤ (1 - A.u) * ((1 + A.u) * c) := mul_le_mul_of_nonneg_left h2 (by linarith)
        _ ≤ c := by nlinarith [mul_nonneg (mul_nonneg hu hu) hc.le]
    rw [mul_one, abs_le]
    constructor
    · nlinarith
    · linarith
  have := (h.quot c).prod hr
  rw [abs_of_pos hc, mul_one, mul_one] at this
  convert this using 1
  field_simp

theorem simpsF_perturbed {k : ℕ} {X Y B : ℕ → ℝ} {a : ℝ} (ha : a ≤ 1) (ht : t.leaves.Perm (List.range 256))
    (h : ∀ n, Near A.u k (B n) (Y n) (X n)) :
    Near A.u (t.depth + 7 + k) (simpsonSum B a) (simpsF A Y a 1 512 t) (simpsonSum X a) := by
  have hterm : ∀ i ∈ t.leaves, Near A.u (k + 3) (B (2 * i) + 4 * B (2 * i + 1) + B (2 * i + 2))
      (A.add (A.add (Y (2 * i)) (A.mul 4 (Y (2 * i + 1)))) (Y (2 * i + 2)))
      (X (2 * i) + 4 * X (2 * i + 1) + X (2 * i + 2)) := fun i _ => by
    have h4 := (Near.self (A := A) 4).mul (h (2 * i + 1))
    rw [abs_of_pos (by norm_num : (0 : ℝ) < 4)] at h4
    have h1 := ((h (2 * i)).mono (by omega : k ≤ 0 + k + 1)).add h4
    exact (h1.add ((h (2 * i + 2)).mono (by omega))).mono (by omega)
  have hsum := Near.tree t hterm
  have hr : ∀ g : ℕ → ℝ, (t.leaves.map g).sum = ∑ i ∈ Finset.range 256, g i := fun g => by
    rw [(ht.map g).sum_eq]; rfl
  rw [hr, hr] at hsum
  have hd0 : Near A.u 0 |1 - a| (1 - a) (1 - a) := Near.self _
  have hd := ((hd0.rd.div ((512 : ℕ) : ℝ)).div 3)
  rw [abs_of_nonneg (Nat.cast_nonneg 512 : (0 : ℝ) ≤ ((512 : ℕ) : ℝ)), abs_of_pos (by norm_num : (0 : ℝ) < 3),
    abs_of_nonneg (by linarith : 0 ≤ 1 - a)] at hd
  have := (hd.mul hsum).mono (by omega : _ ≤ t.depth + 7 + k)
  simp only [Nat.cast_ofNat] at this
  exact this

theorem clip_rd (x : ℝ) : clipLo (A.rd x) 1 = A.rd (max x 1) := by
  rw [clipLo, A.mono.map_max, A.one]

/-- The end of the integration is a scale factor. -/
theorem end_range (hz : 0 ≤ zmax) : 0 < z2aF A zmax ∧ z2aF A zmax ≤ 1 := C95_range.2.1 zmax hz

theorem limberF_near (hp : ∀ n, 0 ≤ S.pk n) (hd : ∀ n, 0 ≤ S.dchi n) (i j n : ℕ) :
    Near A.u 6 (S.pk n * S.dchi n / max (S.chi n ^ 2) 1 * (|S.kernel i n| * |S.kernel j n|)) (limberF A S i j n)
      (S.pk n * S.dchi n / max (S.chi n ^ 2) 1 * (S.kernel i n * S.kernel j n)) := by
  have h1 := (Near.self (A := A) (S.kernel i n)).mul (Near.self (A := A) (S.kernel j n))
  have h2 := ((Near.self (A := A) (S.pk n)).mul h1).mul (Near.self (A := A) (S.dchi n))
  have hm : 0 < max (S.chi n ^ 2) 1 := lt_of_lt_of_le one_pos (le_max_right _ _)
  have h3 := (h2.div_rd hm).rd
  rw [abs_of_nonneg (hp n), abs_of_nonneg (hd n)] at h3
  have e : limberF A S i j n = A.rd (A.mul (A.mul (S.pk n) (A.mul (S.kernel i n) (S.kernel j n))) (S.dchi n)
      / A.rd (max (S.chi n ^ 2) 1)) := by
    rw [← clip_rd, sq]; rfl
  rw [e]
  convert h3.mono (by norm_num : _ ≤ 6) using 1 <;> ring

theorem clF_near (hp : ∀ n, 0 ≤ S.pk n) (hd : ∀ n, 0 ≤ S.dchi n) (hz : 0 ≤ zmax) (ht : t.leaves.Perm (List.range 256))
    (i j : ℕ) :
    Near A.u (t.depth + 16) (exactCl S (z2aF A zmax) (fun n => |S.kernel i n|) (fun n => |S.kernel j n|))
      (clF A S zmax t i j) (exactCl S (z2aF A zmax) (S.kernel i) (S.kernel j)) := by
  have hc : (0 : ℝ) < const_c ^ 2 := by norm_num [const_c]
  have := ((simpsF_perturbed (end_range (A := A) hz).2 ht (limberF_near (A := A) hp hd i j)).div_rd hc).rd
  exact this.mono (by omega)

/-- C168: with exact operations, and the inputs of a survey at the nodes, this is the spectrum of the exact model. -/
theorem C168_exact {p : Params} {T : ℝ → ℝ} {nl : Params → ℝ → ℝ → (ℝ → ℝ) → Except PyErr ℝ} {probes : List Probe}
    {ell : ℝ} {col : List ℝ} (h : clAt p T nl probes ell = .ok col) (hz : probesZmax probes = .ok zmax) {i j : ℕ}
    (hi : i < (tracers probes).length) (hj : j < (tracers probes).length) (ht : t.leaves.Perm (List.range 256)) :
    let a := fun n => limberNode zmax n
    clF exactArith ⟨fun n => limberPower p T nl ell (a n), fun n => dchioverda p (a n), fun n => chiOf p (a n),
      fun i n => gather (limberKernels p probes ell (a n)) i⟩ zmax t i j
      = col.getD (pairPos (tracers probes).length i j) 0 := by
  intro a
  rw [clAt_entry h hz hi hj, ← simpsBody_512, ← C96_exact _ _ _ 512 ht]
  have e : limberF exactArith ⟨fun n => limberPower p T nl ell (a n), fun n => dchioverda p (a n), fun n => chiOf p (a n),
      fun i n => gather (limberKernels p probes ell (a n)) i⟩ i j
      = fun n => limberIntegrand p T nl probes ell i j (linspace (1 / (1 + zmax)) 1 (512 + 1) n) := by
    funext n
    rw [limberIntegrand, sq]
    rfl
  rw [clF, e]
  rfl

/-- A lensing and a clustering bin in the Planck cosmology. -/
example (T : ℝ → ℝ) : ∃ col S, clAt Planck15 T linear demoProbes 10 = .ok col ∧
    clF exactArith S 4 (pairwise 8 0) 0 2 = col.getD (pairPos 3 0 2) 0 := by
  have hk := demo_kernels Planck15 rfl
  choose! K hK using hk
  obtain ⟨col, h1, -, -⟩ := C56_limber Planck15 T linear demoProbes 10 4
    (fun a => linearMatterPower Planck15 T ((10 + 1 / 2) / max (chiOf Planck15 a) 1) a)
    (fun pr a => K pr (1 / a - 1) 10) demo_zmax (fun a => C42_linear _ _ _ _)
    (fun pr hpr a => (hK pr hpr _ _).1) (fun pr hpr a => (hK pr hpr _ _).2)
  exact ⟨col, _, h1, C168_exact h1 demo_zmax (i := 0) (j := 2) (by decide) (by decide)
    (by rw [pairwise_leaves, ← List.range_eq_range']; norm_num)⟩

/-- C168: the two tracers of a spectrum may be exchanged without changing a digit. -/
theorem C168_symmetric (i j : ℕ) : clF A S zmax t i j = clF A S zmax t j i := by
  have : limberF A S i j = limberF A S j i := by
    funext n
    simp only [limberF, Rounding.mul, mul_comm (S.kernel i n)]
  rw [clF, clF, this]

/-- C168: whatever the kernels, the error is measured by the spectrum of their sizes. -/
theorem C168_rounding (hp : ∀ n, 0 ≤ S.pk n) (hd : ∀ n, 0 ≤ S.dchi n) (hz : 0 ≤ zmax)
    (ht : t.leaves.Perm (List.range 256)) (i j : ℕ) :
    |clF A S zmax t i j - exactCl S (z2aF A zmax) (S.kernel i) (S.kernel j)| ≤ ((1 + A.u) ^ (t.depth + 16) - 1)
      * exactCl S (z2aF A zmax) (fun n => |S.kernel i n|) (fun n => |S.kernel j n|) :=
  (clF_near hp hd hz ht i j).1

/-- C168: the spectrum of kernels of one sign has a relative error that depends on the order of summation only. -/
theorem C168_relative (hp : ∀ n, 0 ≤ S.pk n) (hd : ∀ n, 0 ≤ S.dchi n) (hz : 0 ≤ zmax)
    (ht : t.leaves.Perm (List.range 256)) {i j : ℕ} (hk : ∀ n, 0 ≤ S.kernel i n * S.kernel j n) :
    |clF A S zmax t i j - exactCl S (z2aF A zmax) (S.kernel i) (S.kernel j)| ≤ ((1 + A.u) ^ (t.depth + 16) - 1)
      * exactCl S (z2aF A zmax) (S.kernel i) (S.kernel j) := by
  refine (C168_rounding hp hd hz ht i j).trans (le_of_eq ?_)
  simp only [exactCl, ← abs_mul, abs_of_nonneg (hk _)]

/-- C168: no auto-spectrum is negative. -/
theorem C168_auto (hp : ∀ n, 0 ≤ S.pk n) (hd : ∀ n, 0 ≤ S.dchi n) (hz : 0 ≤ zmax)
    (ht : t.leaves.Perm (List.range 256)) (i : ℕ) : 0 ≤ clF A S zmax t i i := by
  refine A.nonneg (div_nonneg (C96_positive _ (end_range hz).2 512 ht fun n _ => ?_).1 (A.nonneg (sq_nonneg _)))
  refine A.nonneg (div_nonneg (A.nonneg (mul_nonneg (A.nonneg (mul_nonneg (hp n) (A.nonneg (mul_self_nonneg _)))) (hd n))) ?_)
  exact le_trans zero_le_one (le_max_right _ _)

theorem noiseF_near (N : ℕ → ℝ) (i j : ℕ) :
    Near A.u 2 (if i = j then |N i| else 0) (noiseF A N i j) (if i = j then N i else 0) := by
  simp only [noiseF, Rounding.sub, delta_eq]
  split_ifs with h
  · have := (Near.self (A := A) (N i)).rd.rd
    rw [A.one]
    simpa only [Rounding.mul, mul_one] using this
  · simp only [A.zero, Rounding.mul, mul_zero, zero_mul]
    simpa using (Near.self (A := A) 0).mono (Nat.zero_le 2)

theorem obs_near (hp : ∀ n, 0 ≤ S.pk n) (hd : ∀ n, 0 ≤ S.dchi n) (hz : 0 ≤ zmax) (ht : t.leaves.Perm (List.range 256))
    {N : ℕ → ℝ} (hN : ∀ i, 0 ≤ N i) {d : ℕ} (hdep : t.depth ≤ d) (i j : ℕ) :
    Near A.u (d + 17) (exactCl S (z2aF A zmax) (fun n => |S.kernel i n|) (fun n => |S.kernel j n|) + if i = j then N i else 0)
      (clObsF A S N zmax t i j) (exactCl S (z2aF A zmax) (S.kernel i) (S.kernel j) + if i = j then N i else 0) := by
  have h := ((clF_near (A := A) hp hd hz ht i j).mono (by omega : _ ≤ d + 16)).add
    ((noiseF_near (A := A) N i j).mono (by omega : 2 ≤ d + 16))
  rw [abs_of_nonneg (hN i)] at h
  exact h

/-- Nodes and weights. -/
theorem exactCl_weights (hp : ∀ n, 0 ≤ S.pk n) (hd : ∀ n, 0 ≤ S.dchi n) {a : ℝ} (ha : a ≤ 1) :
    ∃ (s : Finset (ℕ × ℕ)) (w : ℕ × ℕ → ℝ) (x : ℕ × ℕ → ℕ), (∀ k, 0 ≤ w k) ∧
      ∀ f g : ℕ → ℝ, exactCl S a f g = ∑ k ∈ s, w k * (f (x k) * g (x k)) := by
  refine ⟨Finset.range 256 ×ˢ Finset.range 3, fun k => (1 - a) / 512 / 3 * (if k.2 = 1 then 4 else 1)
    * (S.pk (2 * k.1 + k.2) * S.dchi (2 * k.1 + k.2) / max (S.chi (2 * k.1 + k.2) ^ 2) 1) / const_c ^ 2,
    fun k => 2 * k.1 + k.2, fun k => ?_, fun f g => ?_⟩
  · have h1 : 0 ≤ 1 - a := by linarith
    have h2 := hp (2 * k.1 + k.2)
    have h3 := hd (2 * k.1 + k.2)
    have h4 : 0 < max (S.chi (2 * k.1 + k.2) ^ 2) 1 := lt_max_of_lt_right one_pos
    simp only
    split_ifs <;> positivity
  · rw [exactCl, simpsonSum, Finset.sum_product, Finset.mul_sum, Finset.sum_div]
    refine Finset.sum_congr rfl fun k _ => ?_
    rw [Finset.sum_range_succ, Finset.sum_range_succ, Finset.sum_range_one]
    norm_num
    ring

/-- The matrix of observed spectra at one multipole: entry `(i, j)` is computed for `i ≤ j`. -/
noncomputable def obsMatrix (A : Rounding) (S : LimberInput) (N : ℕ → ℝ) (zmax : ℝ) (t : ℕ → ℕ → SumTree) (n : ℕ) :
    Matrix (Fin n) (Fin n) ℝ :=
  fun i j => clObsF A S N zmax (t (min i j) (max i j)) (min (i : ℕ) j) (max (i : ℕ) j)

/-- C168: noise that exceeds the rounding error of the auto-spectra keeps the matrix of spectra positive. -/
theorem C168_psd_partial (hp : ∀ n, 0 ≤ S.pk n) (hd : ∀ n, 0 ≤ S.dchi n) (hz : 0 ≤ zmax) {t : ℕ → ℕ → SumTree} {d n : ℕ}
    (ht : ∀ i j, (t i j).leaves.Perm (List.range 256)) (hdep : ∀ i j, (t i j).depth ≤ d) {N : ℕ → ℝ} (hN : ∀ i, 0 ≤ N i)
    (h : ∀ i < n, ((1 + A.u) ^ (d + 17) - 1) * (n * exactCl S (z2aF A zmax) (S.kernel i) (S.kernel i))
      ≤ (1 - ((1 + A.u) ^ (d + 17) - 1)) * N i) :
    (obsMatrix A S N zmax t n).PosSemidef := by
  set g := (1 + A.u) ^ (d + 17) - 1 with hg
  have g0 : 0 ≤ g := by have := one_le_growth (A := A) (d + 17); linarith
  obtain ⟨s, w, x, hw, hs⟩ := exactCl_weights hp hd (end_range (A := A) hz).2
  set K := S.kernel
  have comm : ∀ f g : ℕ → ℝ, exactCl S (z2aF A zmax) f g = exactCl S (z2aF A zmax) g f := fun f g => by
    rw [hs, hs]; exact Finset.sum_congr rfl fun k _ => by ring
  have ent : ∀ i j : Fin n, |obsMatrix A S N zmax t n i j
      - (exactCl S (z2aF A zmax) (K i) (K j) + if i = j then N i else 0)|
      ≤ g * (exactCl S (z2aF A zmax) (fun n => |K i n|) (fun n => |K j n|) + if i = j then N i else 0) := fun i j => by
    have := (obs_near (A := A) hp hd hz (ht (min i j) (max i j)) hN (hdep (min i j) (max i j)) (min i j) (max i j)).1
    rcases le_total (i : ℕ) j with hij | hij
    · rw [obsMatrix]
      simp only [min_eq_left hij, max_eq_right hij, ← Fin.ext_iff] at this ⊢
      exact this
    · rw [obsMatrix]
      simp only [min_eq_right hij, max_eq_left hij, ← Fin.ext_iff] at this ⊢
      rw [comm (K i), comm (fun n => |K i n|), show (if i = j then N i else 0) = if j = i then N j else 0 by
        by_cases e : i = j <;> simp [e, eq_comm]]
      exact this
  refine Matrix.PosSemidef.of_dotProduct_mulVec_nonneg ?_ fun v => ?_
  · ext i j
    simp only [Matrix.conjTranspose_apply, star_trivial, obsMatrix, min_comm, max_comm]
  · have quad : ∀ (y : Fin n → ℝ) (f : Fin n → ℕ → ℝ), ∑ i, ∑ j, y i * y j * exactCl S (z2aF A zmax) (f i) (f j)
        = ∑ k ∈ s, w k * (∑ i, y i * f i (x k)) ^ 2 := fun y f => by
      simp only [hs, Finset.mul_sum]
      rw [Finset.sum_congr rfl fun i _ => Finset.sum_comm, Finset.sum_comm]
      refine Finset.sum_congr rfl fun k _ => ?_
      rw [sq, Finset.sum_mul_sum, Finset.mul_sum]
      refine Finset.sum_congr rfl fun i _ => ?_
      rw [Finset.mul_sum]
      exact Finset.sum_congr rfl fun j _ => by ring
    have q1 : 0 ≤ ∑ i, ∑ j, v i * v j * exactCl S (z2aF A zmax) (K i) (K j) := by
      rw [quad v fun i => K i]
      exact Finset.sum_nonneg fun k _ => mul_nonneg (hw k) (sq_nonneg _)
    have q2 : ∑ i, ∑ j, |v i| * |v j| * exactCl S (z2aF A zmax) (fun n => |K i n|) (fun n => |K j n|)
        ≤ ∑ i, v i ^ 2 * (n * exactCl S (z2aF A zmax) (K i) (K i)) := by
      rw [quad (fun i => |v i|) fun i n => |K i n|]
      calc _ ≤ ∑ k ∈ s, w k * (n * ∑ i, (v i * K i (x k)) ^ 2) := Finset.sum_le_sum fun k _ => by
            refine mul_le_mul_of_nonneg_left ?_ (hw k)
            have := sq_sum_le_card_mul_sum_sq (s := Finset.univ) (f := fun i : Fin n => |v i| * |K i (x k)|)
            simpa only [Finset.card_univ, Fintype.card_fin, ← abs_mul, sq_abs] using this
        _ = _ := by
            simp only [hs, Finset.mul_sum]
            rw [Finset.sum_comm]
            exact Finset.sum_congr rfl fun i _ => Finset.sum_congr rfl fun k _ => by ring
    have diag : ∀ y : Fin n → Fin n → ℝ, ∑ i, ∑ j, y i j * (if i = j then N i else 0) = ∑ i, y i i * N i := fun y => by
      simp
    have e1 : star v ⬝ᵥ (obsMatrix A S N zmax t n).mulVec v = ∑ i, ∑ j, v i * v j * obsMatrix A S N zmax t n i j := by
      simp only [star_trivial, dotProduct, Matrix.mulVec, Finset.mul_sum]
      exact Finset.sum_congr rfl fun i _ => Finset.sum_congr rfl fun j _ => by ring
    have low : ∑ i, ∑ j, (v i * v j * (exactCl S (z2aF A zmax) (K i) (K j) + if i = j then N i else 0)
        - g * (|v i| * |v j| * (exactCl S (z2aF A zmax) (fun n => |K i n|) (fun n => |K j n|) + if i = j then N i else 0)))
        ≤ ∑ i, ∑ j, v i * v j * obsMatrix A S N zmax t n i j := Finset.sum_le_sum fun i _ => Finset.sum_le_sum fun j _ => by
      have h1 := mul_le_mul_of_nonneg_left (ent i j) (abs_nonneg (v i * v j))
      rw [← abs_mul] at h1
      have h2 := (abs_le.1 h1).1
      rw [abs_mul] at h2
      linarith
    simp only [Finset.sum_sub_distrib, mul_add, Finset.sum_add_distrib, ← Finset.mul_sum, diag] at low
    have q3 : g * ∑ i, v i ^ 2 * (n * exactCl S (z2aF A zmax) (K i) (K i)) ≤ ∑ i, (1 - g) * (v i ^ 2 * N i) := by
      rw [Finset.mul_sum]
      refine Finset.sum_le_sum fun i _ => ?_
      have := mul_le_mul_of_nonneg_left (h i i.2) (sq_nonneg (v i))
      linarith
    have q4 := mul_le_mul_of_nonneg_left q2 g0
    have e2 : ∑ i, v i * v i * N i = ∑ i, v i ^ 2 * N i := Finset.sum_congr rfl fun i _ => by ring
    have e3 : ∑ i, |v i| * |v i| * N i = ∑ i, v i ^ 2 * N i := Finset.sum_congr rfl fun i _ => by rw [abs_mul_abs_self]; ring
    rw [← Finset.mul_sum] at q3
    rw [e2, e3] at low
    rw [e1]
    linarith

theorem depth_lt_leaves (t : SumTree) : t.depth < t.leaves.length := by
  induction t with
  | leaf i => simp [SumTree.depth, SumTree.leaves]
  | node l r hl hr =>
    simp only [SumTree.depth, SumTree.leaves, List.length_append]
    omega

/-- C168 in single precision, for up to ten tracers and any order of summation: noise of a few parts in ten thousand of the
signal is enough. -/
theorem C168_single_partial (hp : ∀ n, 0 ≤ S.pk n) (hd : ∀ n, 0 ≤ S.dchi n) (hz : 0 ≤ zmax) {t : ℕ → ℕ → SumTree} {n : ℕ}
    (hn : n ≤ 10) (ht : ∀ i j, (t i j).leaves.Perm (List.range 256)) {N : ℕ → ℝ} (hN : ∀ i, 0 ≤ N i)
    (h : ∀ i < n, 2e-4 * exactCl S (z2aF float32 zmax) (S.kernel i) (S.kernel i) ≤ N i) :
    (obsMatrix float32 S N zmax t n).PosSemidef := by
  have hu : (0 : ℝ) ≤ float32.u := by rw [float32_u]; positivity
  have hg : (1 + float32.u) ^ (255 + 17) ≤ 1 + 1.7e-5 := by
    refine (growth_le hu (by rw [float32_u]; norm_num)).trans ?_
    rw [float32_u]; norm_num
  have hg1 := one_le_growth (A := float32) (255 + 17)
  refine C168_psd_partial (d := 255) hp hd hz ht (fun i j => ?_) hN fun i hi => ?_
  · have h1 := depth_lt_leaves (t i j)
    rw [(ht i j).length_eq, List.length_range] at h1
    omega
  · obtain ⟨s, w, x, hw, hs⟩ := exactCl_weights hp hd (end_range (A := float32) hz).2
    have h0 : 0 ≤ exactCl S (z2aF float32 zmax) (S.kernel i) (S.kernel i) := by
      rw [hs]; exact Finset.sum_nonneg fun k _ => mul_nonneg (hw k) (mul_self_nonneg _)
    have hi := h i hi
    generalize exactCl S (z2aF float32 zmax) (S.kernel i) (S.kernel i) = c at h0 hi
    generalize (1 + float32.u) ^ (255 + 17) = g at hg hg1
    have hn' : (n : ℝ) ≤ 10 := by exact_mod_cast hn
    calc (g - 1) * (n * c) ≤ 1.7e-5 * (10 * c) :=
          mul_le_mul (by linarith) (mul_le_mul_of_nonneg_right hn' h0) (by positivity) (by norm_num)
      _ ≤ (1 - 1.7e-5) * (2e-4 * c) := by nlinarith
      _ ≤ (1 - (g - 1)) * N i := mul_le_mul (by linarith) hi (by positivity) (by linarith)

/-- Two tracers seen at the first node only, with kernels `1` and `4097 / 4096`. -/
noncomputable def twoTracers : LimberInput where
  pk _ := 1
  dchi _ := 1
  chi _ := 1
  kernel i n := if n = 0 then (if i = 0 then 1 else 4097 / 4096) else 0

/-- These tracers with noise. -/
example : (obsMatrix float32 twoTracers (fun _ => 1) 3 (fun _ _ => pairwise 8 0) 2).PosSemidef := by
  refine C168_single_partial (fun _ => zero_le_one) (fun _ => zero_le_one) (by norm_num) (by norm_num)
    (fun _ _ => by rw [pairwise_leaves, ← List.range_eq_range']; norm_num) (fun _ => zero_le_one) fun i _ => ?_
  have e := end_range (A := float32) (zmax := 3) (by norm_num)
  have hb : ∀ n, twoTracers.pk n * twoTracers.dchi n / max (twoTracers.chi n ^ 2) 1 * (twoTracers.kernel i n * twoTracers.kernel i n)
      ≤ 2 := fun n => by
    simp only [twoTracers]
    split_ifs <;> norm_num
  have : simpsonSum (fun n => twoTracers.pk n * twoTracers.dchi n / max (twoTracers.chi n ^ 2) 1
      * (twoTracers.kernel i n * twoTracers.kernel i n)) (z2aF float32 3) ≤ 2 := by
    rw [simpsonSum]
    have hs : ∑ k ∈ Finset.range 256, _ ≤ ∑ k ∈ Finset.range 256, (2 + 4 * 2 + 2 : ℝ) :=
      Finset.sum_le_sum fun k _ => add_le_add (add_le_add (hb (2 * k)) (mul_le_mul_of_nonneg_left (hb (2 * k + 1)) (by norm_num)))
        (hb (2 * k + 2))
    calc _ ≤ (1 - z2aF float32 3) / 512 / 3 * ∑ k ∈ Finset.range 256, (2 + 4 * 2 + 2 : ℝ) :=
          mul_le_mul_of_nonneg_left hs (div_nonneg (div_nonneg (by linarith) (by norm_num)) (by norm_num))
      _ ≤ 2 := by simp; linarith
  have hc : (1 : ℝ) ≤ const_c ^ 2 := by norm_num [const_c]
  have h2 := div_le_self (by norm_num : (0 : ℝ) ≤ 2) hc
  have h3 := div_le_div_of_nonneg_right this (by positivity : (0 : ℝ) ≤ const_c ^ 2)
  rw [exactCl]
  linarith

example : 0 ≤ clF float32 twoTracers 3 (pairwise 8 0) 1 1 ∧
    |clF float32 twoTracers 3 (pairwise 8 0) 0 1 - exactCl twoTracers (z2aF float32 3) (twoTracers.kernel 0) (twoTracers.kernel 1)|
      ≤ ((1 + float32.u) ^ 24 - 1) * exactCl twoTracers (z2aF float32 3) (twoTracers.kernel 0) (twoTracers.kernel 1) := by
  have hl : (pairwise 8 0).leaves.Perm (List.range 256) := by rw [pairwise_leaves, ← List.range_eq_range']; norm_num
  have h := C168_relative (A := float32) (S := twoTracers) (zmax := 3) (fun _ => zero_le_one) (fun _ => zero_le_one) (by norm_num)
    hl (i := 0) (j := 1) fun n => by simp only [twoTracers]; split_ifs <;> norm_num
  rw [pairwise_depth] at h
  exact ⟨C168_auto (fun _ => zero_le_one) (fun _ => zero_le_one) (by norm_num) hl 1, h⟩

theorem tree_zero {x : ℕ → ℝ} (t : SumTree) (h : ∀ i ∈ t.leaves, x i = 0) : t.sum A x = 0 := by
  induction t with
  | leaf i => exact h i (by simp [SumTree.leaves])
  | node l r hl hr =>
    simp only [SumTree.leaves, List.mem_append] at h
    rw [SumTree.sum, hl fun i hi => h i (.inl hi), hr fun i hi => h i (.inr hi), Rounding.add, add_zero, A.zero]

theorem pairwise_first {x : ℕ → ℝ} (h0 : A.rd (x 0) = x 0) (h : ∀ i, i ≠ 0 → x i = 0) (n : ℕ) :
    (pairwise n 0).sum A x = x 0 := by
  induction n with
  | zero => rfl
  | succ n ih =>
    rw [pairwise, SumTree.sum, ih, tree_zero _ fun i hi => h i ?_, Rounding.add, add_zero, h0]
    rw [pairwise_leaves, List.mem_range'_1] at hi
    have : 0 < 2 ^ n := by positivity
    omega

theorem float32_to {y : ℝ} (N e : ℤ) (h1 : 2 ^ e ≤ y) (h2 : y < 2 ^ (e + 1))
    (h : |y * 2 ^ (23 - e) - N| < 1 / 2 ∨ |y * 2 ^ (23 - e) - N| ≤ 1 / 2 ∧ Even N) : float32.rd y = N / 2 ^ (23 - e) := by
  have e1 : ((24 : ℕ) : ℤ) - 1 - e = 23 - e := by norm_num
  have := roundBinary_to (p := 24) (y := y) (N := N) e h1 h2 (by rw [e1]; exact h)
  rw [e1] at this
  exact this

theorem rd_c2 : float32.rd (const_c ^ 2) = 89875521536 := by
  rw [float32_to 10971133 36 (by norm_num [const_c]) (by norm_num [const_c]) (Or.inl (by norm_num [const_c, abs_lt]))]
  norm_num

/-- What `clF` makes of an integrand that is seen at the first node only. -/
theorem clF_first {i j : ℕ} {c : ℝ} (hc : float32.rd c = c) (hc' : float32.rd (c / 2048) = c / 2048)
    (h : ∀ n, limberF float32 S i j n = if n = 0 then c else 0) :
    clF float32 S 3 (pairwise 8 0) i j = float32.rd (c / 2048 / 89875521536) := by
  have ea : z2aF float32 3 = 1 / 4 := by
    rw [z2aF, Rounding.add, float32_dyadic 1 2 (by norm_num) (by norm_num), Rounding.div,
      float32_dyadic 1 (-2) (by norm_num) (by norm_num)]
    norm_num
  have es : ∀ k : ℕ, float32.add (float32.add (limberF float32 S i j (2 * k)) (float32.mul 4 (limberF float32 S i j (2 * k + 1))))
      (limberF float32 S i j (2 * k + 2)) = if k = 0 then c else 0 := fun k => by
    rw [h, h, h, if_neg (by omega : ¬ 2 * k + 1 = 0), if_neg (by omega : ¬ 2 * k + 2 = 0)]
    simp only [Rounding.add, Rounding.mul, mul_zero, float32.zero, add_zero]
    by_cases hk : k = 0
    · subst hk; simp [hc]
    · simp [hk, float32.zero]
  have ed : float32.div (float32.div (float32.sub 1 (1 / 4)) (512 : ℕ)) 3 = 1 / 2048 := by
    have d1 : float32.sub 1 (1 / 4) = 3 / 4 := by
      rw [Rounding.sub, float32_dyadic 3 (-2) (by norm_num) (by norm_num)]; norm_num
    have d2 : float32.div (3 / 4) (512 : ℕ) = 3 / 2048 := by
      rw [Rounding.div, float32_dyadic 3 (-11) (by norm_num) (by norm_num)]; norm_num
    rw [d1, d2, Rounding.div, float32_dyadic 1 (-11) (by norm_num) (by norm_num)]
    norm_num
  rw [clF, rd_c2, simpsF, ea, ed, pairwise_first]
  · simp only [es, if_true]
    rw [Rounding.mul, show 1 / 2048 * c = c / 2048 by ring, hc', Rounding.div]
  · simp only [es, if_true]; exact hc
  · intro k hk
    rw [es, if_neg hk]

theorem two_limber (i j n : ℕ) : limberF float32 twoTracers i j n
    = if n = 0 then float32.rd ((if i = 0 then 1 else 4097 / 4096) * (if j = 0 then 1 else 4097 / 4096)) else 0 := by
  have h1 : clipLo (float32.mul 1 1) 1 = 1 := by
    rw [Rounding.mul, one_mul, float32.one, clipLo, max_self]
  simp only [limberF, twoTracers, h1]
  split_ifs <;> simp only [Rounding.mul, Rounding.div, mul_zero, one_mul, mul_one, div_one, float32.zero, float32.one,
    show ∀ x, float32.rd (float32.rd x) = float32.rd x from fun x => roundBinary_fixed (by norm_num) x]

theorem two_square : float32.rd (4097 / 4096 * (4097 / 4096)) = 2049 / 2048 := by
  rw [float32_to 8392704 0 (by norm_num) (by norm_num) (Or.inr ⟨by norm_num [abs_le], by decide⟩)]
  norm_num

/-- The spectra of these tracers. -/
theorem two_spectra : clF float32 twoTracers 3 (pairwise 8 0) 0 0 = 12827981 / 2 ^ 71 ∧
    clF float32 twoTracers 3 (pairwise 8 0) 0 1 = 12831113 / 2 ^ 71 ∧
    clF float32 twoTracers 3 (pairwise 8 0) 1 1 = 12834245 / 2 ^ 71 := by
  refine ⟨?_, ?_, ?_⟩
  · rw [clF_first (c := 1) float32.one (float32_dyadic 1 (-11) (by norm_num) (by norm_num)) fun n => by
      rw [two_limber]; simp [float32.one]]
    rw [float32_to 12827981 (-48) (by norm_num) (by norm_num) (Or.inl (by norm_num [abs_lt]))]
    norm_num
  · have e : float32.rd (4097 / 4096) = 4097 / 4096 := float32_dyadic 4097 (-12) (by norm_num) (by norm_num)
    rw [clF_first (c := 4097 / 4096) e (float32_dyadic 4097 (-23) (by norm_num) (by norm_num)) fun n => by
      rw [two_limber]; simp [e]]
    rw [float32_to 12831113 (-48) (by norm_num) (by norm_num) (Or.inl (by norm_num [abs_lt]))]
    norm_num
  · rw [clF_first (c := 2049 / 2048) (float32_dyadic 2049 (-11) (by norm_num) (by norm_num))
      (float32_dyadic 2049 (-22) (by norm_num) (by norm_num)) fun n => by rw [two_limber]; simp [two_square]]
    rw [float32_to 12834245 (-48) (by norm_num) (by norm_num) (Or.inl (by norm_num [abs_lt]))]
    norm_num

/-- C168: without noise, the Cauchy–Schwarz inequality fails in single precision: the matrix of spectra is not positive. -/
theorem C168_refuted : clF float32 twoTracers 3 (pairwise 8 0) 0 0 * clF float32 twoTracers 3 (pairwise 8 0) 1 1
      < clF float32 twoTracers 3 (pairwise 8 0) 0 1 ^ 2 ∧
    ¬ (obsMatrix float32 twoTracers (fun _ => 0) 3 (fun _ _ => pairwise 8 0) 2).PosSemidef := by
  obtain ⟨h1, h2, h3⟩ := two_spectra
  refine ⟨by rw [h1, h2, h3]; norm_num, fun h => ?_⟩
  have hz : ∀ i j, noiseF float32 (fun _ => 0) i j = 0 := fun i j => by
    simp only [noiseF, Rounding.mul, zero_mul, float32.zero]
  have ho : ∀ i j, clObsF float32 twoTracers (fun _ => 0) 3 (pairwise 8 0) i j = clF float32 twoTracers 3 (pairwise 8 0) i j :=
    fun i j => by
    rw [clObsF, hz, Rounding.add, add_zero]
    exact roundBinary_fixed (by norm_num) _
  have := h.det_nonneg
  rw [Matrix.det_fin_two] at this
  simp only [obsMatrix, ho] at this
  norm_num [h1, h2, h3] at this

end JaxCosmo
