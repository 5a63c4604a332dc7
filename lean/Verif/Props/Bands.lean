import Verif.Spec.Bands
import Verif.Props.Covariance

/-! # C155: the bands of multipoles and the modes they contain -/

namespace JaxCosmo
open Spec Matrix

/-- C155: the weights belong to bands that follow each other without gap or overlap, each around
its own multipole. -/
theorem C155_tile (ells : List ℝ) (f_sky : ℝ) (h2 : 2 ≤ ells.length) (h : ells.Pairwise (· < ·)) :
    ∃ norm, covNorm ells f_sky = .ok norm ∧ ∀ l < ells.length,
      bandEdge ells l < ells.getD l 0 ∧ ells.getD l 0 < bandEdge ells (l + 1) ∧
      norm l = (2 * ells.getD l 0 + 1) * (bandEdge ells (l + 1) - bandEdge ells l) * f_sky := by
  obtain ⟨norm, h1, hn⟩ := covNorm_eq ells f_sky h2
  refine ⟨norm, h1, fun l hl => ?_⟩
  rw [hn l hl, modeCount]
  have lo : 0 < l → ells.getD (l - 1) 0 < ells.getD l 0 := fun h0 => increasing_getD h (by omega) hl
  have hi : l + 1 < ells.length → ells.getD l 0 < ells.getD (l + 1) 0 := fun h0 => increasing_getD h (by omega) h0
  unfold bandwidth bandEdge
  rw [if_neg (by omega : ¬ l + 1 = 0), if_neg (by omega : ¬ l = ells.length)]
  simp only [Nat.add_sub_cancel, show l + 1 - 2 = l - 1 by omega]
  rcases Nat.eq_zero_or_pos l with h0 | h0
  · subst h0
    have := hi (by omega)
    rw [zero_add] at this ⊢
    rw [if_pos rfl, if_pos rfl, if_neg (by omega)]
    refine ⟨by linarith, by linarith, ?_⟩
    ring
  · have a := lo h0
    simp only [if_neg (show ¬ l = 0 by omega)]
    by_cases he : l + 1 = ells.length
    · simp only [if_pos he]
      refine ⟨by linarith, by linarith, ?_⟩
      ring
    · have b := hi (by omega)
      simp only [if_neg he]
      refine ⟨by linarith, by linarith, ?_⟩
      ring

/-- C155: what the weight of an inner band lacks: the width of the band times half the change of
the spacing. -/
theorem C155_uneven (ells : List ℝ) (f_sky : ℝ) (h2 : 2 ≤ ells.length) :
    ∃ norm, covNorm ells f_sky = .ok norm ∧ ∀ l, 0 < l → l + 1 < ells.length →
      f_sky * modesBetween (bandEdge ells l) (bandEdge ells (l + 1)) = norm l
        + f_sky * bandwidth ells l * (ells.getD (l + 1) 0 - 2 * ells.getD l 0 + ells.getD (l - 1) 0) / 2 := by
  obtain ⟨norm, h1, hn⟩ := covNorm_eq ells f_sky h2
  refine ⟨norm, h1, fun l h0 hl => ?_⟩
  rw [hn l (by omega), modeCount, modesBetween_eq]
  unfold bandwidth bandEdge
  rw [if_neg (by omega : ¬ l = 0), if_neg (by omega : ¬ l + 1 = ells.length), if_neg (by omega : ¬ l = 0),
    if_neg (by omega : ¬ l = ells.length), if_neg (by omega : ¬ l + 1 = 0), if_neg (by omega : ¬ l + 1 = ells.length)]
  simp only [Nat.add_sub_cancel]
  ring

/-- C155: on multipoles in geometric progression the weight is below the number of modes, by at most
a relative `(r - 1)² / (4 r)`. -/
theorem C155_geometric_partial (ells : List ℝ) (f_sky a r : ℝ) (h2 : 2 ≤ ells.length) (ha : 0 < a) (hr : 1 < r)
    (hf : 0 < f_sky) (h : ∀ i < ells.length, ells.getD i 0 = a * r ^ i) :
    ∃ norm, covNorm ells f_sky = .ok norm ∧ ∀ l, 0 < l → l + 1 < ells.length →
      norm l ≤ f_sky * modesBetween (bandEdge ells l) (bandEdge ells (l + 1)) ∧
      f_sky * modesBetween (bandEdge ells l) (bandEdge ells (l + 1)) ≤ (1 + (r - 1) ^ 2 / (4 * r)) * norm l := by
  obtain ⟨norm, h1, hu⟩ := C155_uneven ells f_sky h2
  obtain ⟨norm', h1', hn⟩ := covNorm_eq ells f_sky h2
  obtain rfl : norm = norm' := Except.ok.inj (h1.symm.trans h1')
  refine ⟨norm, h1, fun l h0 hl => ?_⟩
  rw [hu l h0 hl, hn l (by omega), modeCount]
  obtain ⟨k, rfl⟩ : ∃ k, l = k + 1 := ⟨l - 1, by omega⟩
  have hb : bandwidth ells (k + 1) = a * r ^ k * (r ^ 2 - 1) / 2 := by
    unfold bandwidth
    rw [if_neg (by omega), if_neg (by omega), Nat.add_sub_cancel, h _ (by omega), h _ (by omega)]
    ring
  rw [hb, Nat.add_sub_cancel, h _ (by omega), h _ (by omega), h _ (by omega)]
  have x0 : 0 < a * r ^ k := by positivity
  have e1 : a * r ^ (k + 1) = a * r ^ k * r := by ring
  have e2 : a * r ^ (k + 1 + 1) = a * r ^ k * r ^ 2 := by ring
  rw [e1, e2]
  set x := a * r ^ k
  have w0 : 0 < f_sky * (x * (r ^ 2 - 1) / 2) := by
    have : 0 < r ^ 2 - 1 := by nlinarith
    positivity
  set W := f_sky * (x * (r ^ 2 - 1) / 2)
  have k1 : W * (x * r ^ 2 - 2 * (x * r) + x) / 2 = W * (x * (r - 1) ^ 2 / 2) := by ring
  have k2 : (2 * (x * r) + 1) * (x * (r ^ 2 - 1) / 2) * f_sky = W * (2 * (x * r) + 1) := by
    simp only [W]; ring
  rw [k1, k2]
  refine ⟨by nlinarith [mul_nonneg w0.le (mul_nonneg x0.le (sq_nonneg (r - 1)))], ?_⟩
  have k3 : (1 + (r - 1) ^ 2 / (4 * r)) * (W * (2 * (x * r) + 1)) = W * (2 * (x * r) + 1)
      + W * (x * (r - 1) ^ 2 / 2) + W * ((r - 1) ^ 2 / (4 * r)) := by
    field_simp; ring
  rw [k3]
  have : 0 ≤ W * ((r - 1) ^ 2 / (4 * r)) := by positivity
  linarith

/-- C155: with bands of an odd number `2 m + 1` of multipoles every weight is the number of
harmonics in the band, and all together count each harmonic once. -/
theorem C155_modes_partial (ells : List ℝ) (f_sky : ℝ) (a m : ℕ) (h2 : 2 ≤ ells.length) (hm : m ≤ a)
    (h : ∀ i < ells.length, ells.getD i 0 = (a : ℝ) + i * (2 * m + 1)) :
    ∃ norm, covNorm ells f_sky = .ok norm ∧
      (∀ l < ells.length, norm l
        = f_sky * harmonics (a - m + l * (2 * m + 1)) (a - m + (l + 1) * (2 * m + 1))) ∧
      ∑ l ∈ Finset.range ells.length, norm l
        = f_sky * harmonics (a - m) (a - m + ells.length * (2 * m + 1)) := by
  obtain ⟨norm, h1, hn⟩ := C62_uniform ells a (2 * m + 1) h2 h f_sky
  have key : ∀ l < ells.length, norm l
      = f_sky * harmonics (a - m + l * (2 * m + 1)) (a - m + (l + 1) * (2 * m + 1)) := by
    intro l hl
    rw [hn l hl, harmonics_eq (by nlinarith)]
    push_cast [Nat.cast_sub hm]
    ring
  refine ⟨norm, h1, key, ?_⟩
  rw [Finset.sum_congr rfl fun l hl => key l (Finset.mem_range.1 hl), ← Finset.mul_sum]
  congr 1
  have : ∀ n : ℕ, ∑ l ∈ Finset.range n, (harmonics (a - m + l * (2 * m + 1)) (a - m + (l + 1) * (2 * m + 1)) : ℝ)
      = harmonics (a - m) (a - m + n * (2 * m + 1)) := by
    intro n
    induction n with
    | zero => simp [harmonics]
    | succ n ih =>
      rw [Finset.sum_range_succ, ih, harmonics_eq (by omega), harmonics_eq (by nlinarith), harmonics_eq (by omega)]
      ring
  exact this _

/-- C155: bands of an odd number of multipoles over which the spectra are constant. The covariance
of the bands is that of the averages, weighted with the number of harmonics, of the spectra at every
single multipole. -/
theorem C155_average_partial (ells fine : List ℝ) (probes : List Probe) (signal noise signal' noise' : List (List ℝ))
    (f_sky : ℝ) (a m : ℕ) (h2 : 2 ≤ ells.length) (hm : m ≤ a) (hf : 0 < f_sky)
    (hc : ∀ i < ells.length, ells.getD i 0 = (a : ℝ) + i * (2 * m + 1))
    (hlen : fine.length = ells.length * (2 * m + 1))
    (hfine : ∀ j < fine.length, fine.getD j 0 = ((a - m : ℕ) : ℝ) + j)
    (hs : Rect (pairCount (tracers probes).length) ells.length signal)
    (hn : Rect (pairCount (tracers probes).length) ells.length noise)
    (hs' : Rect (pairCount (tracers probes).length) fine.length signal')
    (hn' : Rect (pairCount (tracers probes).length) fine.length noise')
    (es : ∀ k i r, i < ells.length → r < 2 * m + 1 → rowAt signal' k (i * (2 * m + 1) + r) = rowAt signal k i)
    (en : ∀ k i r, i < ells.length → r < 2 * m + 1 → rowAt noise' k (i * (2 * m + 1) + r) = rowAt noise k i) :
    ∃ (S : Sp ℝ (pairCount (tracers probes).length) (pairCount (tracers probes).length) ells.length)
      (F : Sp ℝ (pairCount (tracers probes).length) (pairCount (tracers probes).length) fine.length),
      gaussianClCovariance ells probes signal noise f_sky true = .ok (.d3 _ _ _ S) ∧
      gaussianClCovariance fine probes signal' noise' f_sky true = .ok (.d3 _ _ _ F) ∧
      ∀ I J (i : Fin ells.length), S I J i = ∑ r : Fin (2 * m + 1),
        ((2 * (a - m + i * (2 * m + 1) + r) + 1 : ℝ)
          / harmonics (a - m + i * (2 * m + 1)) (a - m + (i + 1) * (2 * m + 1))) ^ 2
        * F I J ⟨i * (2 * m + 1) + r, by
            rw [hlen]; have := i.2; have := r.2; nlinarith⟩ := by
  set N := (tracers probes).length with hN
  refine ⟨_, _, covariance_eq ells probes signal noise f_sky h2 hs hn,
    covariance_eq fine probes signal' noise' f_sky (by rw [hlen]; nlinarith) hs' hn', ?_⟩
  intro I J i
  have hi := i.2
  have hwide : 2 ≤ fine.length := by rw [hlen]; nlinarith
  obtain ⟨g, g1, g2⟩ := C62_uniform fine ((a - m : ℕ) : ℝ) 1 hwide (by simpa using hfine) f_sky
  obtain ⟨g', g1', g2'⟩ := covNorm_eq fine f_sky hwide
  obtain rfl : g = g' := Except.ok.inj (g1.symm.trans g1')
  obtain ⟨c, c1, c2, -⟩ := C155_modes_partial ells f_sky a m h2 hm hc
  obtain ⟨c', c1', c2'⟩ := covNorm_eq ells f_sky h2
  obtain rfl : c = c' := Except.ok.inj (c1.symm.trans c1')
  have eo : ∀ r : Fin (2 * m + 1), obsMat N signal' noise' (i * (2 * m + 1) + r) = obsMat N signal noise i := by
    intro r
    ext x y
    simp only [obsMat, symMat, Matrix.add_apply, rowAt_column]
    rw [es _ _ _ hi r.2, en _ _ _ hi r.2]
  simp only [wickSparse]
  rw [← c2' i hi, c2 i hi]
  set H := harmonics (a - m + i * (2 * m + 1)) (a - m + (i + 1) * (2 * m + 1)) with hH
  have hHpos : (0 : ℝ) < H := by
    rw [hH, harmonics_eq (by nlinarith)]
    push_cast
    have : (0 : ℝ) ≤ ((a - m : ℕ) : ℝ) := Nat.cast_nonneg _
    nlinarith [mul_nonneg (Nat.cast_nonneg (α := ℝ) (i : ℕ)) (Nat.cast_nonneg (α := ℝ) m)]
  have hsum : ∑ r : Fin (2 * m + 1), (2 * (a - m + i * (2 * m + 1) + r) + 1 : ℝ) = H := by
    rw [hH, harmonics, Finset.sum_Ico_eq_sum_range]
    rw [show a - m + (↑i + 1) * (2 * m + 1) - (a - m + ↑i * (2 * m + 1)) = 2 * m + 1 by
      rw [show a - m + (↑i + 1) * (2 * m + 1) = (a - m + ↑i * (2 * m + 1)) + (2 * m + 1) by ring]; omega]
    rw [Fin.sum_univ_eq_sum_range (fun r => (2 * (a - m + i * (2 * m + 1) + r) + 1 : ℝ))]
    push_cast [Nat.cast_sub hm]
    rfl
  have term : ∀ r : Fin (2 * m + 1),
      ((2 * (a - m + i * (2 * m + 1) + r) + 1 : ℝ) / H) ^ 2
        * (wick (obsMat N signal' noise' (i * (2 * m + 1) + r)) (pairOf N I).1 (pairOf N I).2 (pairOf N J).1
          (pairOf N J).2 / modeCount fine f_sky (i * (2 * m + 1) + r))
      = (2 * (a - m + i * (2 * m + 1) + r) + 1 : ℝ) * (wick (obsMat N signal noise i) (pairOf N I).1 (pairOf N I).2
          (pairOf N J).1 (pairOf N J).2 / (f_sky * H ^ 2)) := by
    intro r
    have hr := r.2
    have hj : i * (2 * m + 1) + r < fine.length := by rw [hlen]; nlinarith
    rw [eo, ← g2' _ hj, g2 _ hj]
    have e : (2 * (((a - m : ℕ) : ℝ) + ((i * (2 * m + 1) + r : ℕ) : ℝ) * 1) + 1) * 1 * f_sky
        = (2 * (a - m + i * (2 * m + 1) + r) + 1 : ℝ) * f_sky := by
      push_cast [Nat.cast_sub hm]; ring
    rw [e]
    have pos : (0 : ℝ) < 2 * (a - m + i * (2 * m + 1) + r) + 1 := by
      have h1 : (0 : ℝ) ≤ (a : ℝ) - m := by rw [sub_nonneg]; exact_mod_cast hm
      positivity
    field_simp
  rw [Finset.sum_congr rfl fun r _ => term r, ← Finset.sum_mul, hsum]
  field_simp
  rfl

/-- C155 as stated is false: of the multipoles 10, 100 and 1000, the middle one stands for a band
with three times as many modes as its weight says. -/
theorem C155_refuted : ¬ ∀ (ells : List ℝ) (f_sky : ℝ) (norm : ℕ → ℝ), 2 ≤ ells.length → ells.Pairwise (· < ·) →
    (∀ l ∈ ells, 0 < l) → 0 < f_sky → covNorm ells f_sky = .ok norm → ∀ l < ells.length,
    f_sky * modesBetween (bandEdge ells l) (bandEdge ells (l + 1)) ≤ 3 * norm l := by
  intro H
  obtain ⟨norm, h1, h3⟩ := C155_uneven [10, 100, 1000] 1 (by simp)
  obtain ⟨norm', h1', h2⟩ := covNorm_eq [10, 100, 1000] 1 (by simp)
  obtain rfl : norm = norm' := Except.ok.inj (h1.symm.trans h1')
  have := H [10, 100, 1000] 1 norm (by simp) (by norm_num) (by norm_num) one_pos h1 1 (by simp)
  rw [h3 1 (by norm_num) (by norm_num), h2 1 (by simp), modeCount] at this
  norm_num [bandwidth] at this

/-- Witness: the bands around 2, 5 and 8 contain all harmonics from 1 to 9. -/
example : ∃ norm, covNorm [2, 5, 8] 1 = .ok norm ∧ norm 0 = 15 ∧ norm 1 = 33 ∧ norm 2 = 51 ∧
    ∑ l ∈ Finset.range 3, norm l = 99 := by
  obtain ⟨norm, h1, h2, h3⟩ := C155_modes_partial [2, 5, 8] 1 2 1 (by simp) (by norm_num) (by
    intro i hi
    have : i = 0 ∨ i = 1 ∨ i = 2 := by simp at hi; omega
    rcases this with rfl | rfl | rfl <;> norm_num)
  refine ⟨norm, h1, ?_, ?_, ?_, ?_⟩
  · rw [h2 0 (by simp)]; norm_num [harmonics, Finset.sum_Ico_eq_sum_range, Finset.sum_range_succ]
  · rw [h2 1 (by simp)]; norm_num [harmonics, Finset.sum_Ico_eq_sum_range, Finset.sum_range_succ]
  · rw [h2 2 (by simp)]; norm_num [harmonics, Finset.sum_Ico_eq_sum_range, Finset.sum_range_succ]
  · have := h3
    norm_num [harmonics, Finset.sum_Ico_eq_sum_range, Finset.sum_range_succ] at this ⊢
    exact this

/-- Witness: one tracer in two bands of three multipoles each. -/
example (b : Nz) : let n := pairCount (tracers [.wl (.init [b])]).length
    n = 1 ∧ ∃ (S : Sp ℝ n n 2) (F : Sp ℝ n n 6),
    gaussianClCovariance [2, 5] [.wl (.init [b])] [[3, 1]] [[1, 1]] 1 true = .ok (.d3 _ _ _ S) ∧
    gaussianClCovariance [1, 2, 3, 4, 5, 6] [.wl (.init [b])] [[3, 3, 3, 1, 1, 1]] [[1, 1, 1, 1, 1, 1]] 1 true
      = .ok (.d3 _ _ _ F) ∧
    ∀ I J, S I J 0 = (3 / 15) ^ 2 * F I J 0 + (5 / 15) ^ 2 * F I J 1 + (7 / 15) ^ 2 * F I J 2 := by
  have hN : pairCount (tracers [.wl (.init [b])]).length = 1 := by
    rw [show (tracers [.wl (.init [b])]).length = 1 from rfl]; decide
  refine ⟨hN, ?_⟩
  obtain ⟨S, F, h1, h2, h3⟩ := C155_average_partial [2, 5] [1, 2, 3, 4, 5, 6] [.wl (.init [b])] [[3, 1]] [[1, 1]]
    [[3, 3, 3, 1, 1, 1]] [[1, 1, 1, 1, 1, 1]] 1 2 1 (by simp) (by norm_num) one_pos
    (by intro i hi; have : i = 0 ∨ i = 1 := by simp at hi; omega
        rcases this with rfl | rfl <;> norm_num)
    (by simp)
    (by intro j hj
        have : j = 0 ∨ j = 1 ∨ j = 2 ∨ j = 3 ∨ j = 4 ∨ j = 5 := by simp at hj; omega
        rcases this with rfl | rfl | rfl | rfl | rfl | rfl <;> norm_num)
    ⟨hN.symm, by simp⟩ ⟨hN.symm, by simp⟩ ⟨hN.symm, by simp⟩ ⟨hN.symm, by simp⟩
    (by intro k i r hi hr
        have h1 : i = 0 ∨ i = 1 := by simp at hi; omega
        have h2 : r = 0 ∨ r = 1 ∨ r = 2 := by omega
        rcases k with _ | k <;> rcases h1 with rfl | rfl <;> rcases h2 with rfl | rfl | rfl <;> simp [rowAt])
    (by intro k i r hi hr
        have h1 : i = 0 ∨ i = 1 := by simp at hi; omega
        have h2 : r = 0 ∨ r = 1 ∨ r = 2 := by omega
        rcases k with _ | k <;> rcases h1 with rfl | rfl <;> rcases h2 with rfl | rfl | rfl <;> simp [rowAt])
  refine ⟨S, F, h1, h2, fun I J => ?_⟩
  have := h3 I J (0 : Fin 2)
  rw [Fin.sum_univ_three] at this
  norm_num [harmonics, Finset.sum_Ico_eq_sum_range, Finset.sum_range_succ] at this
  refine this.trans ?_
  norm_num
  rfl

end JaxCosmo
