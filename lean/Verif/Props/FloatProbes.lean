import Verif.Model.FloatProbes
import Verif.Props.FloatAngularCl
import Verif.Props.Probes

/-! # C169: redshift distributions and lensing kernels in floating point -/

namespace JaxCosmo
open Spec

variable {A : Rounding} {L : Elem} {t : SumTree} {dndz chi' pz : ℕ → ℝ} {chi z zmax : ℝ}

/-- Simpson's sum over 256 intervals. -/
noncomputable def simpson256 (y : ℕ → ℝ) (a b : ℝ) : ℝ :=
  (b - a) / 256 / 3 * ∑ i ∈ Finset.range 128, (y (2 * i) + 4 * y (2 * i + 1) + y (2 * i + 2))

theorem simpson256_nonneg {y : ℕ → ℝ} (hy : ∀ n, 0 ≤ y n) {a b : ℝ} (h : a ≤ b) : 0 ≤ simpson256 y a b :=
  mul_nonneg (div_nonneg (div_nonneg (by linarith) (by norm_num)) (by norm_num))
    (Finset.sum_nonneg fun i _ => by linarith [hy (2 * i), hy (2 * i + 1), hy (2 * i + 2)])

theorem simpsF_rows {k : ℕ} {X Y B : ℕ → ℝ} {a b : ℝ} (hab : a ≤ b) (ht : t.leaves.Perm (List.range 128))
    (h : ∀ n, Near A.u k (B n) (Y n) (X n)) :
    Near A.u (t.depth + 7 + k) (simpson256 B a b) (simpsF A Y a b 256 t) (simpson256 X a b) := by
  have hterm : ∀ i ∈ t.leaves, Near A.u (k + 3) (B (2 * i) + 4 * B (2 * i + 1) + B (2 * i + 2))
      (A.add (A.add (Y (2 * i)) (A.mul 4 (Y (2 * i + 1)))) (Y (2 * i + 2)))
      (X (2 * i) + 4 * X (2 * i + 1) + X (2 * i + 2)) := fun i _ => by
    have h4 := (Near.self (A := A) 4).mul (h (2 * i + 1))
    rw [abs_of_pos (by norm_num : (0 : ℝ) < 4)] at h4
    have h1 := ((h (2 * i)).mono (by omega : k ≤ 0 + k + 1)).add h4
    exact (h1.add ((h (2 * i + 2)).mono (by omega))).mono (by omega)
  have hsum := Near.tree t hterm
  have hr : ∀ g : ℕ → ℝ, (t.leaves.map g).sum = ∑ i ∈ Finset.range 128, g i := fun g => by
    rw [(ht.map g).sum_eq]; rfl
  rw [hr, hr] at hsum
  have hd0 : Near A.u 0 |b - a| (b - a) (b - a) := Near.self _
  have hd := ((hd0.rd.div ((256 : ℕ) : ℝ)).div 3)
  rw [abs_of_nonneg (Nat.cast_nonneg 256 : (0 : ℝ) ≤ ((256 : ℕ) : ℝ)), abs_of_pos (by norm_num : (0 : ℝ) < 3),
    abs_of_nonneg (by linarith : 0 ≤ b - a)] at hd
  have := (hd.mul hsum).mono (by omega : _ ≤ t.depth + 7 + k)
  simp only [Nat.cast_ofNat] at this
  exact this

/-- C169: with exact operations these are the distribution and the rows of the exact model. -/
theorem C169_exact (p : Params) (pz : Nz) (ell : ℝ) (ht : t.leaves.Perm (List.range 128)) :
    (∀ f : ℝ → ℝ, nzF exactArith (fun n => f (linspace 0 zmax 257 n)) zmax t (f z) = f z / simpsBody f 0 zmax 256) ∧
    extRowF exactArith (fun n => pz.eval (linspace z zmax 257 n)) (fun n => chiOf p (z2a (linspace z zmax 257 n)))
      (chiOf p (z2a z)) zmax z t = extRow p zmax z pz ∧
    deltaRowF exactArith (chiOf p (z2a pz.plane)) (chiOf p (z2a z)) z = deltaRow p z pz ∧
    lensKernelF exactArith exactArith.elem p.Omega_m ell z
      = 3 * const_H0 ^ 2 * p.Omega_m / 2 / const_c * ellFactor ell * z := by
  refine ⟨fun f => ?_, ?_, rfl, ?_⟩
  · rw [← C96_exact f 0 zmax 256 ht]; rfl
  · rw [extRow, ← C96_exact _ z zmax 256 ht]; rfl
  · rw [ellFactor, sq (ell + _)]
    norm_num
    rfl

/-- C169: the normalised distribution is accurate, not negative, and keeps the order of the values. -/
theorem C169_distribution (hpz : ∀ n, 0 ≤ pz n) (hz : 0 ≤ zmax) (ht : t.leaves.Perm (List.range 128)) {v w : ℝ} (hv : 0 ≤ v)
    (hw : v ≤ w) : 0 ≤ nzF A pz zmax t v ∧ nzF A pz zmax t v ≤ nzF A pz zmax t w := by
  have h0 : 0 ≤ simpsF A pz 0 zmax 256 t := (C96_positive pz hz 256 ht fun i _ => hpz i).1
  exact ⟨A.nonneg (div_nonneg hv h0), A.mono (div_le_div_of_nonneg_right hw h0)⟩

theorem simpson256_div (y : ℕ → ℝ) (a b c : ℝ) : simpson256 (fun n => y n / c) a b = simpson256 y a b / c := by
  simp only [simpson256, mul_div_assoc, Finset.sum_div, add_div]

/-- C169: the distribution is normalised, as the library integrates, up to roundings. -/
theorem C169_total (hpz : ∀ n, 0 ≤ pz n) (hz : 0 ≤ zmax) {t' : SumTree} (ht : t.leaves.Perm (List.range 128))
    (ht' : t'.leaves.Perm (List.range 128)) (hS : 0 < simpson256 pz 0 zmax) (hg : (1 + A.u) ^ (t.depth + 7) ≤ 3 / 2) :
    |simpsF A (fun n => nzF A pz zmax t (pz n)) 0 zmax 256 t' - 1|
      ≤ 2 * ((1 + A.u) ^ (t.depth + 7) - 1) + 2 * ((1 + A.u) ^ (t'.depth + 8) - 1) := by
  set N := simpsF A pz 0 zmax 256 t with hN
  set I := simpson256 pz 0 zmax
  have hself : ∀ n, Near A.u 0 (pz n) (pz n) (pz n) := fun n => by
    have := Near.self (A := A) (pz n)
    rwa [abs_of_nonneg (hpz n)] at this
  have h1 := (simpsF_rows (A := A) hz ht hself).1
  rw [add_zero] at h1
  have g0 := one_le_growth (A := A) (t.depth + 7)
  have hNl : I / 2 ≤ N := by
    have := (abs_le.1 h1).1
    have := mul_le_mul_of_nonneg_right hg hS.le
    linarith
  have hN0 : 0 < N := by linarith
  have h2 : ∀ n, Near A.u 1 (pz n / N) (nzF A pz zmax t (pz n)) (pz n / N) := fun n => by
    have := (hself n).div N
    rwa [abs_of_pos hN0] at this
  have h3 := (simpsF_rows (A := A) hz ht' h2).1
  rw [simpson256_div] at h3
  have g1 := one_le_growth (A := A) (t'.depth + 7 + 1)
  have e1 : I / N ≤ 2 := by rw [div_le_iff₀ hN0]; linarith
  have e2 : |I / N - 1| ≤ 2 * ((1 + A.u) ^ (t.depth + 7) - 1) := by
    rw [div_sub_one hN0.ne', abs_div, abs_of_pos hN0, div_le_iff₀ hN0, abs_sub_comm]
    refine h1.trans ?_
    have := mul_le_mul_of_nonneg_left hNl (by linarith : 0 ≤ 2 * ((1 + A.u) ^ (t.depth + 7) - 1))
    linarith
  have e3 : ((1 + A.u) ^ (t'.depth + 7 + 1) - 1) * (I / N) ≤ ((1 + A.u) ^ (t'.depth + 7 + 1) - 1) * 2 :=
    mul_le_mul_of_nonneg_left e1 (by linarith)
  have := abs_add_le (simpsF A (fun n => nzF A pz zmax t (pz n)) 0 zmax 256 t' - I / N) (I / N - 1)
  rw [sub_add_sub_cancel] at this
  rw [show t'.depth + 8 = t'.depth + 7 + 1 by ring]
  linarith

theorem leaves_128 : (pairwise 7 0).leaves.Perm (List.range 128) := by
  rw [pairwise_leaves, ← List.range_eq_range']; norm_num

/-- A uniform distribution up to redshift two: normalised to four parts in a million in single precision. -/
example : |simpsF float32 (fun _ => nzF float32 (fun _ => 3) 2 (pairwise 7 0) 3) 0 2 256 (pairwise 7 0) - 1| ≤ 4e-6 := by
  have h := C169_total (A := float32) (pz := fun _ => 3) (zmax := 2) (fun _ => by norm_num) (by norm_num) leaves_128 leaves_128
    (by norm_num [simpson256]) (by rw [pairwise_depth, float32_u]; norm_num)
  refine h.trans ?_
  rw [pairwise_depth, float32_u]; norm_num

/-- The lensing row of given distances. -/
noncomputable def exactRow (dndz chi' : ℕ → ℝ) (chi zmax z : ℝ) : ℝ :=
  simpson256 (fun n => dndz n * max (chi' n - chi) 0 / max (chi' n) 1) z zmax * (1 + z) * chi

theorem clip_zero (x : ℝ) : clipLo (A.rd x) 0 = A.rd (max x 0) := by
  rw [clipLo, A.mono.map_max, A.zero]

theorem lensWeight_near (hn : ∀ n, 0 ≤ dndz n) (n : ℕ) :
    Near A.u 3 (dndz n * max (chi' n - chi) 0 / max (chi' n) 1)
      (A.div (A.mul (dndz n) (clipLo (A.sub (chi' n) chi) 0)) (clipLo (chi' n) 1))
      (dndz n * max (chi' n - chi) 0 / max (chi' n) 1) := by
  have h1 : Near A.u 1 |max (chi' n - chi) 0| (clipLo (A.sub (chi' n) chi) 0) (max (chi' n - chi) 0) := by
    rw [Rounding.sub, clip_zero]
    exact (Near.self (A := A) _).rd
  have h2 := ((Near.self (A := A) (dndz n)).mul h1).div (max (chi' n) 1)
  rw [abs_of_nonneg (hn n), abs_of_nonneg (le_max_right _ _), abs_of_pos (lt_max_of_lt_right one_pos)] at h2
  exact h2

/-- C169: given the distances, the lensing row of sources has a small relative error, and it is not negative. -/
theorem C169_row (hn : ∀ n, 0 ≤ dndz n) (hchi : 0 ≤ chi) (hz : 0 ≤ z) (hzm : z ≤ zmax) (ht : t.leaves.Perm (List.range 128)) :
    0 ≤ extRowF A dndz chi' chi zmax z t ∧ |extRowF A dndz chi' chi zmax z t - exactRow dndz chi' chi zmax z|
      ≤ ((1 + A.u) ^ (t.depth + 13) - 1) * exactRow dndz chi' chi zmax z := by
  constructor
  · refine A.nonneg (mul_nonneg (A.nonneg (mul_nonneg ?_ (A.nonneg (by linarith)))) hchi)
    exact (C96_positive _ hzm 256 ht fun n _ => A.nonneg (div_nonneg (A.nonneg (mul_nonneg (hn n) (le_max_right _ _)))
      (le_trans zero_le_one (le_max_right _ _)))).1
  · have h1 := simpsF_rows (A := A) hzm ht (lensWeight_near (A := A) (chi' := chi') (chi := chi) hn)
    have h2 : Near A.u 1 |1 + z| (A.add 1 z) (1 + z) := (Near.self (A := A) _).rd
    have h3 := (h1.mul h2).mul (Near.self (A := A) chi)
    rw [abs_of_nonneg (by linarith : 0 ≤ 1 + z), abs_of_nonneg hchi] at h3
    exact (h3.mono (by omega : _ ≤ t.depth + 13)).1

/-- C169: lenses behind all sources have exactly no weight. -/
theorem C169_behind (ht : t.leaves.Perm (List.range 128)) (h : ∀ n ≤ 256, chi' n ≤ chi) :
    extRowF A dndz chi' chi zmax z t = 0 := by
  have h0 : ∀ n ≤ 256, A.div (A.mul (dndz n) (clipLo (A.sub (chi' n) chi) 0)) (clipLo (chi' n) 1) = 0 := fun n hn => by
    rw [Rounding.sub, clip_zero, max_eq_right (by linarith [h n hn]), A.zero, Rounding.mul, mul_zero, A.zero, Rounding.div,
      zero_div, A.zero]
  have hs : t.sum A (fun i => A.add (A.add (A.div (A.mul (dndz (2 * i)) (clipLo (A.sub (chi' (2 * i)) chi) 0)) (clipLo (chi' (2 * i)) 1))
      (A.mul 4 (A.div (A.mul (dndz (2 * i + 1)) (clipLo (A.sub (chi' (2 * i + 1)) chi) 0)) (clipLo (chi' (2 * i + 1)) 1))))
      (A.div (A.mul (dndz (2 * i + 2)) (clipLo (A.sub (chi' (2 * i + 2)) chi) 0)) (clipLo (chi' (2 * i + 2)) 1))) = 0 :=
    tree_zero t fun i hi => by
      have hi : i < 128 := List.mem_range.1 (ht.mem_iff.1 hi)
      rw [h0 _ (by omega), h0 _ (by omega), h0 _ (by omega)]
      simp only [Rounding.mul, Rounding.add, mul_zero, add_zero, A.zero]
  simp only [extRowF, simpsF, hs]
  simp only [Rounding.mul, mul_zero, zero_mul, A.zero]

/-- C169: the efficiency of a plane is between zero and one, falls with the distance of the lens, and vanishes at the plane. -/
theorem C169_plane {c c₁ c₂ : ℝ} (hc : A.rd c = c) (h1 : 0 ≤ c₁) (h2 : c₁ ≤ c₂) :
    0 ≤ planeF A c c₂ ∧ planeF A c c₂ ≤ planeF A c c₁ ∧ planeF A c c₁ ≤ 1 ∧ (c ≤ c₂ → planeF A c c₂ = 0) := by
  have hm : 0 < max c 1 := lt_max_of_lt_right one_pos
  refine ⟨A.nonneg (div_nonneg (le_max_right _ _) hm.le), A.mono (div_le_div_of_nonneg_right (max_le_max_right 0
    (A.mono (by linarith))) hm.le), ?_, fun h => ?_⟩
  · have : A.rd (max (A.rd (c - c₁)) 0 / max c 1) ≤ A.rd 1 := A.mono ((div_le_one hm).2 (max_le ?_ hm.le))
    · rw [A.one] at this; exact this
    · exact ((A.mono (by linarith : c - c₁ ≤ c)).trans_eq hc).trans (le_max_left _ _)
  · simp only [planeF, Rounding.sub, clip_zero, max_eq_right (by linarith : c - c₂ ≤ 0), A.zero, Rounding.div, zero_div]

/-- Sources between here and redshift two, a lens at redshift one. -/
example : 0 ≤ extRowF float32 (fun _ => 1 / 2) (fun n => 2000 + 10 * n) 2300 2 1 (pairwise 7 0) ∧
    extRowF float32 (fun _ => 1 / 2) (fun n => 10 * n) 2600 2 1 (pairwise 7 0) = 0 := by
  refine ⟨(C169_row (fun _ => by norm_num) (by norm_num) (by norm_num) (by norm_num) leaves_128).1, C169_behind leaves_128 fun n hn => ?_⟩
  have : (n : ℝ) ≤ 256 := by exact_mod_cast hn
  linarith

example : planeF float32 3000 1000 ≤ 1 ∧ planeF float32 3000 3000 = 0 :=
  have h := C169_plane (A := float32) (c := 3000) (c₁ := 1000) (c₂ := 3000) (float32_dyadic 3000 0 (by norm_num) (by norm_num))
    (by norm_num) (by norm_num)
  ⟨h.2.2.1, h.2.2.2 le_rfl⟩

/-! ### The prefactor of spin two -/

theorem ratio_near {c : ℝ} (hc : 0 < c) : Near A.u 2 1 (c / A.rd c) 1 := by
  have := (Near.self (A := A) c).div_rd hc
  rwa [abs_of_pos hc, div_self hc.ne', zero_add] at this

theorem rd_pos {c : ℝ} (hc : 0 < c) : 0 < A.rd c :=
  lt_of_lt_of_le (mul_pos (by linarith [A.u_le]) hc) (A.le_rd hc.le)

theorem sqrt_near {k : ℕ} {y x : ℝ} (hy : 0 ≤ y) (hx : 0 ≤ x) (h : Near A.u k x y x) : Near A.u k √x √y √x := by
  refine ⟨?_, by rw [abs_of_nonneg (Real.sqrt_nonneg x)]⟩
  rcases hx.eq_or_lt with rfl | hx
  · have h0 := h.1
    rw [mul_zero, sub_zero] at h0
    rw [abs_nonpos_iff.1 h0]; simp
  · have s0 : 0 < √x := Real.sqrt_pos.2 hx
    have e : |√y - √x| * √x ≤ |y - x| := by
      have : y - x = (√y - √x) * (√y + √x) := by
        rw [← Real.sq_sqrt hy, ← Real.sq_sqrt hx.le]
        simp only [Real.sqrt_sq (Real.sqrt_nonneg _)]
        ring
      rw [this, abs_mul]
      refine mul_le_mul_of_nonneg_left ?_ (abs_nonneg _)
      rw [abs_of_nonneg (by positivity)]
      linarith [Real.sqrt_nonneg y]
    refine le_of_mul_le_mul_right ?_ s0
    rw [mul_assoc, Real.mul_self_sqrt hx.le]
    exact e.trans h.1

/-- C169: the prefactor of a field of spin two in floating point, for a square root good to `q` roundings. -/
theorem C169_spin_partial {q : ℕ} (hL : ∀ x, 0 ≤ x → Near A.u q √x (L.sqrt x) √x) {ell : ℝ} (hl : 1 ≤ ell) :
    |ellFactorF A L ell - ellFactor ell| ≤ ((1 + A.u) ^ (q + 13) - 1) * ellFactor ell := by
  have a1 : Near A.u 1 |ell - 1| (A.sub ell 1) (ell - 1) := (Near.self (A := A) _).rd
  have a2 : Near A.u 1 |ell + 1| (A.add ell 1) (ell + 1) := (Near.self (A := A) _).rd
  have a3 : Near A.u 1 |ell + 2| (A.add ell 2) (ell + 2) := (Near.self (A := A) _).rd
  have hp := (((a1.mul (Near.self (A := A) ell)).mul a2).mul a3).mono (by norm_num : _ ≤ 6)
  rw [← abs_mul, ← abs_mul, ← abs_mul, abs_of_nonneg (mul_nonneg (mul_nonneg (mul_nonneg (by linarith) (by linarith))
    (by linarith)) (by linarith) : 0 ≤ (ell - 1) * ell * (ell + 1) * (ell + 2))] at hp
  have hp0 : 0 ≤ (ell - 1) * ell * (ell + 1) * (ell + 2) :=
    mul_nonneg (mul_nonneg (mul_nonneg (by linarith) (by linarith)) (by linarith)) (by linarith)
  set X := (ell - 1) * ell * (ell + 1) * (ell + 2)
  set Y := A.mul (A.mul (A.mul (A.sub ell 1) ell) (A.add ell 1)) (A.add ell 2) with hY
  have hY0 : 0 ≤ Y := A.nonneg (mul_nonneg (A.nonneg (mul_nonneg (A.nonneg (mul_nonneg (A.nonneg (by linarith)) (by linarith)))
    (A.nonneg (by linarith)))) (A.nonneg (by linarith)))
  have hs := sqrt_near hY0 hp0 hp
  -- the library's root of the computed product
  have hr : Near A.u (q + 6) √X (L.sqrt Y) √X := by
    refine ⟨?_, hs.2⟩
    have h1 := (hL Y hY0).1
    have h2 := hs.1
    have h3 : √Y ≤ (1 + A.u) ^ 6 * √X := by have := (abs_le.1 h2).2; linarith
    have g := one_le_growth (A := A) q
    have h4 := mul_le_mul_of_nonneg_left h3 (by linarith : 0 ≤ (1 + A.u) ^ q - 1)
    have := abs_add_le (L.sqrt Y - √Y) (√Y - √X)
    rw [sub_add_sub_cancel] at this
    rw [pow_add]
    linarith
  have hc : 0 < ell + 1 / 2 := by linarith
  have hc' := rd_pos (A := A) hc
  have hd := ((((hr.prod (ratio_near (A := A) hc)).prod (ratio_near (A := A) hc)).prod
    (ratio_near (A := A) (mul_pos hc' hc'))).quot ((ell + 1 / 2) * (ell + 1 / 2))).rd
  have e1 : |(ell + 1 / 2) * (ell + 1 / 2)| = (ell + 1 / 2) * (ell + 1 / 2) := abs_of_pos (mul_pos hc hc)
  have e2 : L.sqrt Y * ((ell + 1 / 2) / A.rd (ell + 1 / 2)) * ((ell + 1 / 2) / A.rd (ell + 1 / 2))
      * (A.rd (ell + 1 / 2) * A.rd (ell + 1 / 2) / A.rd (A.rd (ell + 1 / 2) * A.rd (ell + 1 / 2)))
      / ((ell + 1 / 2) * (ell + 1 / 2)) = L.sqrt Y / A.rd (A.rd (ell + 1 / 2) * A.rd (ell + 1 / 2)) := by
    generalize A.rd (A.rd (ell + 1 / 2) * A.rd (ell + 1 / 2)) = d
    generalize A.rd (ell + 1 / 2) = r at hc' ⊢
    generalize ell + 1 / 2 = c at hc ⊢
    have := hc.ne'
    have := hc'.ne'
    field_simp
  rw [e1, e2, mul_one, mul_one, mul_one] at hd
  have e3 : ellFactor ell = √X / ((ell + 1 / 2) * (ell + 1 / 2)) := by
    rw [ellFactor, sq]; norm_num; rfl
  rw [e3]
  exact (hd.mono (by omega : _ ≤ q + 13)).1

theorem rounded_sqrt (x : ℝ) (_ : 0 ≤ x) : Near A.u 1 √x (A.rd √x) √x := by
  have := (Near.self (A := A) √x).rd
  rwa [abs_of_nonneg (Real.sqrt_nonneg x)] at this

/-- In single precision the prefactor is right to one part in a million. -/
theorem C169_spin_single {ell : ℝ} (hl : 1 ≤ ell) :
    |ellFactorF float32 float32.elem ell - ellFactor ell| ≤ 1e-6 * ellFactor ell := by
  refine (C169_spin_partial (q := 1) rounded_sqrt hl).trans (mul_le_mul_of_nonneg_right ?_ (C50_range ell hl).1)
  rw [float32_u]; norm_num

example : ellFactorF float32 float32.elem 1 = 0 := by
  have := C169_spin_single (ell := 1) le_rfl
  rw [C50_one, mul_zero, sub_zero] at this
  exact abs_nonpos_iff.1 this

/-- C169: no entry of the lensing kernel is negative. -/
theorem C169_kernel (hL : ∀ x, 0 ≤ L.sqrt x) {Omega_m ell row : ℝ} (hO : 0 ≤ Omega_m) (hr : 0 ≤ row) :
    0 ≤ lensKernelF A L Omega_m ell row := by
  refine A.nonneg (mul_nonneg (A.nonneg (mul_nonneg ?_ (A.nonneg (div_nonneg (hL _) (A.nonneg (mul_self_nonneg _)))))) hr)
  exact A.nonneg (div_nonneg (A.nonneg (div_nonneg (A.nonneg (mul_nonneg (A.nonneg (by norm_num [const_H0])) hO)) (by norm_num)))
    (A.nonneg (by norm_num [const_c])))

/-- What the prefactor should do: stay below one and grow with the multipole. -/
def SpinFactor (A : Rounding) (L : Elem) : Prop :=
  (∀ l : ℕ, 1 ≤ l → ellFactorF A L l ≤ 1) ∧ ∀ l : ℕ, 1 ≤ l → ellFactorF A L l ≤ ellFactorF A L (l + 1)

theorem float32_sqrt {x : ℝ} (N e : ℤ) (hN : 2 ^ 23 < N) (hN' : N < 2 ^ 24) (h1 : ((N - 1 / 2) / 2 ^ (23 - e)) ^ 2 < x)
    (h2 : x < ((N + 1 / 2) / 2 ^ (23 - e)) ^ 2) : float32.rd √x = N / 2 ^ (23 - e) := by
  have hs : (0 : ℝ) < 2 ^ (23 - e) := by positivity
  have n1 : (2 : ℝ) ^ 23 + 1 ≤ N := by exact_mod_cast hN
  have n2 : (N : ℝ) + 1 ≤ 2 ^ 24 := by exact_mod_cast hN'
  have l1 : (N - 1 / 2) / 2 ^ (23 - e) < √x := Real.lt_sqrt_of_sq_lt h1
  have l2 : √x < (N + 1 / 2) / 2 ^ (23 - e) := by
    rw [Real.sqrt_lt' (div_pos (by linarith [(by positivity : (0 : ℝ) < 2 ^ 23)]) hs)]; exact h2
  have p1 : (2 : ℝ) ^ e * 2 ^ (23 - e) = 2 ^ 23 := by
    rw [← zpow_add₀ (by norm_num), show e + (23 - e) = 23 by ring]; rfl
  have p2 : (2 : ℝ) ^ (e + 1) * 2 ^ (23 - e) = 2 ^ 24 := by
    rw [← zpow_add₀ (by norm_num), show e + 1 + (23 - e) = 24 by ring]; rfl
  rw [div_lt_iff₀ hs] at l1
  rw [lt_div_iff₀ hs] at l2
  refine float32_to N e ?_ ?_ (Or.inl ?_)
  · refine le_of_mul_le_mul_right ?_ hs
    linarith
  · refine lt_of_mul_lt_mul_right ?_ hs.le
    linarith
  · rw [abs_lt]; constructor <;> linarith

/-- The prefactor at `436`. -/
theorem spin_436 : ellFactorF float32 float32.elem 436 = 16777107 / 16777216 := by
  have a0 : float32.rd (436 - 1) = 435 := by
    rw [float32_to 14254080 8 (by norm_num) (by norm_num) (Or.inl (by norm_num [abs_lt]))]; norm_num
  have a : float32.rd (435 * 436) = 189660 := by
    rw [float32_to 12138240 17 (by norm_num) (by norm_num) (Or.inl (by norm_num [abs_lt]))]; norm_num
  have b0 : float32.rd (436 + 1) = 437 := by
    rw [float32_to 14319616 8 (by norm_num) (by norm_num) (Or.inl (by norm_num [abs_lt]))]; norm_num
  have b : float32.rd (189660 * 437) = 82881424 := by
    rw [float32_to 10360178 26 (by norm_num) (by norm_num) (Or.inr ⟨by norm_num [abs_le], by decide⟩)]; norm_num
  have c0 : float32.rd (436 + 2) = 438 := by
    rw [float32_to 14352384 8 (by norm_num) (by norm_num) (Or.inl (by norm_num [abs_lt]))]; norm_num
  have p : float32.rd (82881424 * 438) = 36302065664 := by
    rw [float32_to 8862809 35 (by norm_num) (by norm_num) (Or.inl (by norm_num [abs_lt]))]; norm_num
  have h : float32.rd (436 + 1 / 2) = 873 / 2 := by
    rw [float32_to 14303232 8 (by norm_num) (by norm_num) (Or.inl (by norm_num [abs_lt]))]; norm_num
  have hh : float32.rd (873 / 2 * (873 / 2)) = 762129 / 4 := by
    rw [float32_to 12194064 17 (by norm_num) (by norm_num) (Or.inl (by norm_num [abs_lt]))]; norm_num
  have s : float32.rd √36302065664 = 12193985 / 64 := by
    rw [float32_sqrt 12193985 17 (by norm_num) (by norm_num) (by norm_num) (by norm_num)]; norm_num
  have r : float32.rd (12193985 / 64 / (762129 / 4)) = 16777107 / 16777216 := by
    rw [float32_to 16777107 (-1) (by norm_num) (by norm_num) (Or.inl (by norm_num [abs_lt]))]; norm_num
  simp only [ellFactorF, Rounding.add, Rounding.sub, Rounding.mul, Rounding.div, Rounding.elem, a0, a, b0, b, c0, p, h, hh, s, r]

/-- The prefactor at `437`. -/
theorem spin_437 : ellFactorF float32 float32.elem 437 = 8388553 / 8388608 := by
  have a0 : float32.rd (437 - 1) = 436 := by
    rw [float32_to 14286848 8 (by norm_num) (by norm_num) (Or.inl (by norm_num [abs_lt]))]; norm_num
  have a : float32.rd (436 * 437) = 190532 := by
    rw [float32_to 12194048 17 (by norm_num) (by norm_num) (Or.inl (by norm_num [abs_lt]))]; norm_num
  have b0 : float32.rd (437 + 1) = 438 := by
    rw [float32_to 14352384 8 (by norm_num) (by norm_num) (Or.inl (by norm_num [abs_lt]))]; norm_num
  have b : float32.rd (190532 * 438) = 83453016 := by
    rw [float32_to 10431627 26 (by norm_num) (by norm_num) (Or.inl (by norm_num [abs_lt]))]; norm_num
  have c0 : float32.rd (437 + 2) = 439 := by
    rw [float32_to 14385152 8 (by norm_num) (by norm_num) (Or.inl (by norm_num [abs_lt]))]; norm_num
  have p : float32.rd (83453016 * 439) = 36635873280 := by
    rw [float32_to 8944305 35 (by norm_num) (by norm_num) (Or.inl (by norm_num [abs_lt]))]; norm_num
  have h : float32.rd (437 + 1 / 2) = 875 / 2 := by
    rw [float32_to 14336000 8 (by norm_num) (by norm_num) (Or.inl (by norm_num [abs_lt]))]; norm_num
  have hh : float32.rd (875 / 2 * (875 / 2)) = 765625 / 4 := by
    rw [float32_to 12250000 17 (by norm_num) (by norm_num) (Or.inl (by norm_num [abs_lt]))]; norm_num
  have s : float32.rd √36635873280 = 191405 := by
    rw [float32_sqrt 12249920 17 (by norm_num) (by norm_num) (by norm_num) (by norm_num)]; norm_num
  have r : float32.rd (191405 / (765625 / 4)) = 8388553 / 8388608 := by
    rw [float32_to 16777106 (-1) (by norm_num) (by norm_num) (Or.inl (by norm_num [abs_lt]))]; norm_num
  simp only [ellFactorF, Rounding.add, Rounding.sub, Rounding.mul, Rounding.div, Rounding.elem, a0, a, b0, b, c0, p, h, hh, s, r]

/-- The prefactor at `7003`. -/
theorem spin_7003 : ellFactorF float32 float32.elem 7003 = 8388609 / 8388608 := by
  have a0 : float32.rd (7003 - 1) = 7002 := by
    rw [float32_to 14340096 12 (by norm_num) (by norm_num) (Or.inl (by norm_num [abs_lt]))]; norm_num
  have a : float32.rd (7002 * 7003) = 49035008 := by
    rw [float32_to 12258752 25 (by norm_num) (by norm_num) (Or.inr ⟨by norm_num [abs_le], by decide⟩)]; norm_num
  have b0 : float32.rd (7003 + 1) = 7004 := by
    rw [float32_to 14344192 12 (by norm_num) (by norm_num) (Or.inl (by norm_num [abs_lt]))]; norm_num
  have b : float32.rd (49035008 * 7004) = 343441211392 := by
    rw [float32_to 10480994 38 (by norm_num) (by norm_num) (Or.inl (by norm_num [abs_lt]))]; norm_num
  have c0 : float32.rd (7003 + 2) = 7005 := by
    rw [float32_to 14346240 12 (by norm_num) (by norm_num) (Or.inl (by norm_num [abs_lt]))]; norm_num
  have p : float32.rd (343441211392 * 7005) = 2405805798195200 := by
    rw [float32_to 8962325 51 (by norm_num) (by norm_num) (Or.inl (by norm_num [abs_lt]))]; norm_num
  have h : float32.rd (7003 + 1 / 2) = 14007 / 2 := by
    rw [float32_to 14343168 12 (by norm_num) (by norm_num) (Or.inl (by norm_num [abs_lt]))]; norm_num
  have hh : float32.rd (14007 / 2 * (14007 / 2)) = 49049012 := by
    rw [float32_to 12262253 25 (by norm_num) (by norm_num) (Or.inl (by norm_num [abs_lt]))]; norm_num
  have s : float32.rd √2405805798195200 = 49049016 := by
    rw [float32_sqrt 12262254 25 (by norm_num) (by norm_num) (by norm_num) (by norm_num)]; norm_num
  have r : float32.rd (49049016 / (49049012)) = 8388609 / 8388608 := by
    rw [float32_to 8388609 0 (by norm_num) (by norm_num) (Or.inl (by norm_num [abs_lt]))]; norm_num
  simp only [ellFactorF, Rounding.add, Rounding.sub, Rounding.mul, Rounding.div, Rounding.elem, a0, a, b0, b, c0, p, h, hh, s, r]

/-- C169: in single precision, with the best possible square root, the prefactor exceeds one at `7003` and falls from `436`
to `437`. -/
theorem C169_refuted : ¬ (∀ l : ℕ, 1 ≤ l → ellFactorF float32 float32.elem l ≤ 1) ∧
    ¬ (∀ l : ℕ, 1 ≤ l → ellFactorF float32 float32.elem l ≤ ellFactorF float32 float32.elem (l + 1)) ∧
    ¬ SpinFactor float32 float32.elem := by
  have h1 : ¬ (∀ l : ℕ, 1 ≤ l → ellFactorF float32 float32.elem l ≤ 1) := fun h => by
    have := h 7003 (by norm_num)
    rw [Nat.cast_ofNat, spin_7003] at this
    norm_num at this
  have h2 : ¬ (∀ l : ℕ, 1 ≤ l → ellFactorF float32 float32.elem l ≤ ellFactorF float32 float32.elem (l + 1)) := fun h => by
    have := h 436 (by norm_num)
    rw [Nat.cast_ofNat, spin_436, show ((436 : ℝ) + 1) = 437 by norm_num, spin_437] at this
    norm_num at this
  exact ⟨h1, h2, fun h => h1 h.1⟩

end JaxCosmo
