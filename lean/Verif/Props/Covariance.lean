import Verif.Props.ClOrdering
import Verif.Props.Sparse
import Verif.Proofs.PosDef

/-! # C59–C62: the Gaussian covariance -/

namespace JaxCosmo
open Spec Matrix

/-! ## C62 -/

theorem covNorm_eq (ells : List ℝ) (f_sky : ℝ) (h : 2 ≤ ells.length) :
    ∃ norm, covNorm ells f_sky = .ok norm ∧
      ∀ l < ells.length, norm l = modeCount ells f_sky l := by
  unfold covNorm gradient
  rw [if_neg (by omega)]
  refine ⟨_, rfl, fun l hl => ?_⟩
  unfold modeCount bandwidth
  congr 2
  change (if l = 0 then ells.getD 1 0 - ells.getD 0 0
      else if l = ells.length - 1 then ells.getD (ells.length - 1) 0 - ells.getD (ells.length - 2) 0
      else (ells.getD (l + 1) 0 - ells.getD (l - 1) 0) / 2) = _
  by_cases h1 : l = 0
  · rw [if_pos h1, if_pos h1]
  rw [if_neg h1, if_neg h1]
  by_cases h2 : l + 1 = ells.length
  · rw [if_pos (by omega), if_pos h2]
    have e1 : ells.length - 1 = l := by omega
    have e2 : ells.length - 2 = l - 1 := by omega
    rw [e1, e2]
  · rw [if_neg (by omega), if_neg h2]

/-- C62: the weight at each multipole is `(2 ℓ + 1) Δℓ f_sky`, with `Δℓ` the width of its bin; a
grid of one multipole (or none) is refused. -/
theorem C62_value (ells : List ℝ) (f_sky : ℝ) :
    (2 ≤ ells.length → ∃ norm, covNorm ells f_sky = .ok norm ∧
      ∀ l < ells.length, norm l = modeCount ells f_sky l) ∧
    (ells.length < 2 → covNorm ells f_sky = .error .valueError) := by
  refine ⟨covNorm_eq ells f_sky, fun h => ?_⟩
  unfold covNorm gradient
  rw [if_pos h]
  rfl

theorem increasing_getD {ells : List ℝ} (h : ells.Pairwise (· < ·)) {i j : ℕ} (hij : i < j)
    (hj : j < ells.length) : ells.getD i 0 < ells.getD j 0 := by
  rw [List.getD_eq_getElem _ _ (by omega), List.getD_eq_getElem _ _ hj]
  exact List.pairwise_iff_getElem.1 h i j (by omega) hj hij

theorem bandwidth_pos {ells : List ℝ} (h2 : 2 ≤ ells.length) (h : ells.Pairwise (· < ·)) {l : ℕ}
    (hl : l < ells.length) : 0 < bandwidth ells l := by
  unfold bandwidth
  split_ifs with h1 h3
  · linarith [increasing_getD h (i := 0) (j := 1) (by omega) (by omega)]
  · linarith [increasing_getD h (i := l - 1) (j := l) (by omega) (by omega)]
  · linarith [increasing_getD h (i := l - 1) (j := l + 1) (by omega) (by omega)]

/-- C62: the weights are positive on every strictly increasing grid of non-negative multipoles. -/
theorem C62_pos (ells : List ℝ) (f_sky : ℝ) (h2 : 2 ≤ ells.length) (h : ells.Pairwise (· < ·))
    (h0 : ∀ l ∈ ells, 0 ≤ l) (hf : 0 < f_sky) :
    ∃ norm, covNorm ells f_sky = .ok norm ∧ ∀ l < ells.length, 0 < norm l := by
  obtain ⟨norm, h1, hn⟩ := covNorm_eq ells f_sky h2
  refine ⟨norm, h1, fun l hl => ?_⟩
  rw [hn l hl]
  have : 0 ≤ ells.getD l 0 := by
    rw [List.getD_eq_getElem _ _ hl]; exact h0 _ (List.getElem_mem _)
  have := bandwidth_pos h2 h hl
  unfold modeCount
  positivity

/-- C62: on a uniform grid of spacing `d` the width is `d` everywhere, ends included. -/
theorem C62_uniform (ells : List ℝ) (a d : ℝ) (h2 : 2 ≤ ells.length)
    (h : ∀ i < ells.length, ells.getD i 0 = a + i * d) (f_sky : ℝ) :
    ∃ norm, covNorm ells f_sky = .ok norm ∧
      ∀ l < ells.length, norm l = (2 * (a + l * d) + 1) * d * f_sky := by
  obtain ⟨norm, h1, hn⟩ := covNorm_eq ells f_sky h2
  refine ⟨norm, h1, fun l hl => ?_⟩
  rw [hn l hl, modeCount, h l hl]
  have : bandwidth ells l = d := by
    unfold bandwidth
    split_ifs with h3 h4
    · rw [h 0 (by omega), h 1 (by omega)]; push_cast; ring
    · rw [h l hl, h (l - 1) (by omega), Nat.cast_sub (by omega)]; push_cast; ring
    · rw [h (l + 1) (by omega), h (l - 1) (by omega), Nat.cast_sub (by omega)]; push_cast; ring
  rw [this]

/-- Witness: multipoles 10, 20, 30 over a quarter of the sky. -/
example : ∃ norm, covNorm [10, 20, 30] 0.25 = .ok norm ∧ norm 1 = 41 * 10 * 0.25 := by
  obtain ⟨norm, h1, h2⟩ := C62_uniform [10, 20, 30] 10 10 (by simp) (by
    intro i hi
    have : i = 0 ∨ i = 1 ∨ i = 2 := by simp at hi; omega
    rcases this with rfl | rfl | rfl <;> norm_num) 0.25
  exact ⟨norm, h1, by rw [h2 1 (by simp)]; norm_num⟩

/-! ## C59 -/

theorem rowAt_addCl {M L : ℕ} {s n : List (List ℝ)} (hs : Rect M L s) (hn : Rect M L n) {a l : ℕ}
    (ha : a < M) (hl : l < L) : rowAt (addCl s n) a l = rowAt s a l + rowAt n a l := by
  have hsa : a < s.length := hs.1 ▸ ha
  have hna : a < n.length := hn.1 ▸ ha
  have h1 : l < s[a].length := by rw [hs.2 _ (List.getElem_mem _)]; exact hl
  have h2 : l < n[a].length := by rw [hn.2 _ (List.getElem_mem _)]; exact hl
  unfold rowAt addCl
  have e : (List.zipWith (List.zipWith (· + ·)) s n).getD a []
      = List.zipWith (· + ·) s[a] n[a] := by
    rw [List.getD_eq_getElem _ _ (by rw [List.length_zipWith]; omega), List.getElem_zipWith]
  rw [e, List.getD_eq_getElem _ _ (by rw [List.length_zipWith]; omega), List.getElem_zipWith,
    List.getD_eq_getElem s _ hsa, List.getD_eq_getElem n _ hna, List.getD_eq_getElem _ _ h1,
    List.getD_eq_getElem _ _ h2]

theorem rowAt_column (cl : List (List ℝ)) (a l : ℕ) : (column cl l).getD a 0 = rowAt cl a l := by
  unfold column rowAt
  rcases lt_or_ge a cl.length with h | h
  · rw [List.getD_eq_getElem _ _ (by simpa using h), List.getElem_map, List.getD_eq_getElem cl _ h]
  · rw [List.getD_eq_default _ _ (by simpa using h), List.getD_eq_default cl _ h]
    simp

/-- The pair of tracers of spectrum number `I`. -/
noncomputable def pairOf (N : ℕ) (I : Fin (pairCount N)) : Fin N × Fin N :=
  have h : I < (clIndex N).length := by rw [length_clIndex]; exact I.2
  have hm := mem_clIndex.1 (List.getElem_mem h)
  (⟨(clIndex N)[I].1, lt_of_le_of_lt hm.1 hm.2⟩, ⟨(clIndex N)[I].2, hm.2⟩)

theorem pairOf_get (N : ℕ) (I : Fin (pairCount N)) :
    (clIndex N)[(I : ℕ)]? = some (((pairOf N I).1 : ℕ), ((pairOf N I).2 : ℕ)) := by
  rw [List.getElem?_eq_getElem (by rw [length_clIndex]; exact I.2)]
  rfl

theorem pairOf_le (N : ℕ) (I : Fin (pairCount N)) : (pairOf N I).1 ≤ (pairOf N I).2 :=
  (mem_clIndex.1 (List.mem_of_getElem? (pairOf_get N I))).1

theorem pairOf_injective (N : ℕ) : Function.Injective (pairOf N) := by
  intro I J h
  have hI := pairOf_get N I
  have hJ := pairOf_get N J
  rw [h] at hI
  obtain ⟨h1, e1⟩ := List.getElem?_eq_some_iff.1 hI
  obtain ⟨h2, e2⟩ := List.getElem?_eq_some_iff.1 hJ
  exact Fin.ext ((clIndex_nodup N).getElem_inj_iff.1 (e1.trans e2.symm))

/-- The covariance array in sparse form. -/
noncomputable def wickSparse (N L : ℕ) (ells : List ℝ) (signal noise : List (List ℝ)) (f_sky : ℝ) :
    Sp ℝ (pairCount N) (pairCount N) L :=
  fun I J l => wick (obsMat N signal noise l) (pairOf N I).1 (pairOf N I).2 (pairOf N J).1
    (pairOf N J).2 / modeCount ells f_sky l

theorem getD_block {N : ℕ} (f : ℕ × ℕ × ℕ × ℕ → ℕ → ℝ) (I J : Fin (pairCount N)) :
    ((((clIndex N).flatMap fun ij => (clIndex N).map fun mn => (ij, mn)).map fun e =>
      (pairPos N e.1.1 e.2.1, pairPos N e.1.2 e.2.2, pairPos N e.1.1 e.2.2,
        pairPos N e.1.2 e.2.1)).map f).getD (I * pairCount N + J) 0
      = f (pairPos N (pairOf N I).1 (pairOf N J).1, pairPos N (pairOf N I).2 (pairOf N J).2,
          pairPos N (pairOf N I).1 (pairOf N J).2, pairPos N (pairOf N I).2 (pairOf N J).1) := by
  have h := getElem?_product _ _ (pairOf_get N I) (pairOf_get N J)
  rw [length_clIndex] at h
  rw [List.getD_eq_getElem?_getD, List.getElem?_map, List.getElem?_map, h]
  rfl

theorem d3_cast {M M' : ℕ} (h : M = M') (L : ℕ) (g : ℕ → ℕ → ℕ → ℝ) :
    NdArr.d3 M M L (fun i j l => g i j l) = NdArr.d3 M' M' L (fun i j l => g i j l) := by
  subst h
  rfl

theorem covariance_eq (ells : List ℝ) (probes : List Probe) (signal noise : List (List ℝ))
    (f_sky : ℝ) (hL : 2 ≤ ells.length)
    (hs : Rect (pairCount (tracers probes).length) ells.length signal)
    (hn : Rect (pairCount (tracers probes).length) ells.length noise) :
    gaussianClCovariance ells probes signal noise f_sky true
      = .ok (.d3 _ _ _ (wickSparse (tracers probes).length ells.length ells signal noise f_sky)) := by
  set N := (tracers probes).length with hN
  obtain ⟨norm, hnorm, hval⟩ := covNorm_eq ells f_sky hL
  have hlen : (addCl signal noise).length = pairCount N := by
    rw [addCl, List.length_zipWith, hs.1, hn.1, min_self]
  have hb : getCovBlocksOrdering probes = covBlocks (clIndex N) := by
    rw [getCovBlocksOrdering, getClOrdering, nTracers_eq]
  unfold gaussianClCovariance
  simp only [hnorm, covBlockDiag, hb, covBlocks_eq, bind, Except.bind, pure, Except.pure, hlen]
  rw [if_pos (by simp [List.length_flatMap, length_clIndex])]
  simp only [if_true]
  refine (congrArg Except.ok (d3_cast hlen ells.length fun i j l => (List.getD (α := ℕ → ℝ) _
    (i * pairCount N + j) 0) l)).trans ?_
  refine congrArg (fun S => Except.ok (NdArr.d3 (pairCount N) (pairCount N) ells.length S)) ?_
  funext I J l
  rw [getD_block]
  have hI1 := (pairOf N I).1.2
  have hI2 := (pairOf N I).2.2
  have hJ1 := (pairOf N J).1.2
  have hJ2 := (pairOf N J).2.2
  rw [rowAt_addCl hs hn (pairPos_lt hI1 hJ1) l.2, rowAt_addCl hs hn (pairPos_lt hI2 hJ2) l.2,
    rowAt_addCl hs hn (pairPos_lt hI1 hJ2) l.2, rowAt_addCl hs hn (pairPos_lt hI2 hJ1) l.2,
    hval l l.2]
  simp only [wickSparse, wick, obsMat, symMat, Matrix.add_apply, rowAt_column]

/-- C59: the sparse covariance holds, for the spectra `(i, j)` and `(m, n)` at each multipole, the
Wick product `C_im C_jn + C_in C_jm` of the observed (signal plus noise) spectra divided by the
number of modes `(2ℓ+1) Δℓ f_sky`. -/
theorem C59_wick (ells : List ℝ) (probes : List Probe) (signal noise : List (List ℝ))
    (f_sky : ℝ) (hL : 2 ≤ ells.length)
    (hs : Rect (pairCount (tracers probes).length) ells.length signal)
    (hn : Rect (pairCount (tracers probes).length) ells.length noise) :
    ∃ S : Sp ℝ (pairCount (tracers probes).length) (pairCount (tracers probes).length) ells.length,
      gaussianClCovariance ells probes signal noise f_sky true = .ok (.d3 _ _ _ S) ∧
      ∀ (I J : Fin (pairCount (tracers probes).length)) (i j m n : Fin (tracers probes).length),
        (getClOrdering probes)[(I : ℕ)]? = some (i.val, j.val) →
        (getClOrdering probes)[(J : ℕ)]? = some (m.val, n.val) → ∀ l : Fin ells.length,
        S I J l = wick (obsMat (tracers probes).length signal noise l) i j m n
          / modeCount ells f_sky l := by
  refine ⟨_, covariance_eq ells probes signal noise f_sky hL hs hn, ?_⟩
  intro I J i j m n hI hJ l
  rw [getClOrdering, nTracers_eq, pairOf_get] at hI hJ
  simp only [Option.some.injEq, Prod.mk.injEq] at hI hJ
  rw [wickSparse, Fin.ext hI.1, Fin.ext hI.2, Fin.ext hJ.1, Fin.ext hJ.2]

/-- C59: without the optional arguments the sky fraction is a quarter and the sparse form is
returned; the combined call returns the dense form for a quarter of the sky. -/
theorem C59_default (ells : List ℝ) (probes : List Probe) (signal noise : List (List ℝ)) (p : Params)
    (T : ℝ → ℝ) :
    gaussianClCovariance ells probes signal noise
      = gaussianClCovariance ells probes signal noise (1 / 4) true ∧
    gaussianClCovarianceAndMean p ells probes T
      = gaussianClCovarianceAndMean p ells probes T (fun p k a T => halofit p k a T) (1 / 4) false := by
  have h : (0.25 : ℝ) = 1 / 4 := by norm_num
  rw [← h]
  exact ⟨rfl, rfl⟩

/-- C59: spectra whose number of rows is not the number of pairs of tracers are refused. -/
theorem C59_wrong_rows (ells : List ℝ) (probes : List Probe) (signal noise : List (List ℝ))
    (f_sky : ℝ) (sparse : Bool) (hL : 2 ≤ ells.length) (hsn : signal.length = noise.length)
    (h : signal.length ≠ pairCount (tracers probes).length) :
    gaussianClCovariance ells probes signal noise f_sky sparse = .error .typeError := by
  set N := (tracers probes).length with hN
  obtain ⟨norm, hnorm, hval⟩ := covNorm_eq ells f_sky hL
  have hlen : (addCl signal noise).length = signal.length := by
    rw [addCl, List.length_zipWith, hsn, min_self]
  have hb : getCovBlocksOrdering probes = covBlocks (clIndex N) := by
    rw [getCovBlocksOrdering, getClOrdering, nTracers_eq]
  unfold gaussianClCovariance
  simp only [hnorm, covBlockDiag, hb, covBlocks_eq, bind, Except.bind, pure, Except.pure, hlen]
  rw [if_neg]
  intro hc
  simp [List.length_flatMap, length_clIndex] at hc
  exact h (Nat.mul_self_inj.mp hc).symm

/-- Witness: two redshift bins have three spectra; two are refused. -/
example (b1 b2 : Nz) : gaussianClCovariance [10, 20] [.wl (.init [b1, b2])] [[2, 2], [1, 1]]
    [[1, 1], [0, 0]] = .error .typeError :=
  C59_wrong_rows _ _ _ _ _ _ (by simp) rfl (by
    have hN : (tracers [.wl (.init [b1, b2])]).length = 2 := rfl
    rw [hN]; decide)

theorem wickSparse_symm (N L : ℕ) (ells : List ℝ) (signal noise : List (List ℝ)) (f_sky : ℝ)
    (I J : Fin (pairCount N)) (l : Fin L) :
    wickSparse N L ells signal noise f_sky I J l = wickSparse N L ells signal noise f_sky J I l := by
  have h : ∀ a b, obsMat N signal noise l a b = obsMat N signal noise l b a := by
    intro a b
    simp only [obsMat, symMat, Matrix.add_apply, pairPos_comm]
  simp only [wickSparse, wick]
  rw [h (pairOf N I).1, h (pairOf N I).2, h (pairOf N I).1 (pairOf N J).2,
    h (pairOf N I).2 (pairOf N J).1]
  ring

/-- C59: the dense covariance is a symmetric matrix in which different multipoles are
uncorrelated. -/
theorem C59_symmetric (ells : List ℝ) (probes : List Probe) (signal noise : List (List ℝ))
    (f_sky : ℝ) (hL : 2 ≤ ells.length)
    (hs : Rect (pairCount (tracers probes).length) ells.length signal)
    (hn : Rect (pairCount (tracers probes).length) ells.length noise) :
    ∃ S : Sp ℝ (pairCount (tracers probes).length) (pairCount (tracers probes).length) ells.length,
      gaussianClCovariance ells probes signal noise f_sky true = .ok (.d3 _ _ _ S) ∧
      (denseEntry S)ᵀ = denseEntry S ∧
      ∀ I J l l', l ≠ l' → denseEntry S (finProdFinEquiv (I, l)) (finProdFinEquiv (J, l')) = 0 := by
  refine ⟨_, covariance_eq ells probes signal noise f_sky hL hs hn, ?_, ?_⟩
  · ext r c
    simp only [transpose_apply, denseEntry]
    by_cases h : r.modNat = c.modNat
    · rw [if_pos h, if_pos h.symm, wickSparse_symm, h]
    · rw [if_neg h, if_neg (fun e => h e.symm)]
  · intro I J l l' h
    rw [← C34_toDense, toDense_apply, if_neg h]

/-! ## C61 -/

/-- C61: for every input, densifying the sparse covariance gives the dense covariance (and one
raises exactly when the other does). -/
theorem C61_representation (ells : List ℝ) (probes : List Probe) (signal noise : List (List ℝ))
    (f_sky : ℝ) :
    (gaussianClCovariance ells probes signal noise f_sky true >>= toDenseApi)
      = gaussianClCovariance ells probes signal noise f_sky false := by
  unfold gaussianClCovariance
  rcases covNorm ells f_sky with e | norm
  · rfl
  · rcases h : covBlockDiag probes (addCl signal noise) norm with e | blocks
    · simp only [bind, Except.bind, h]
    · simp only [bind, Except.bind, h]
      by_cases hb : blocks.length = (addCl signal noise).length * (addCl signal noise).length
      · rw [if_pos hb, if_pos hb]
        simp only [if_true, Bool.false_eq_true, if_false, pure, Except.pure, C34_api]
        refine congrArg (fun S => Except.ok (NdArr.d2 _ _ S)) ?_
        ext r c
        rw [denseEntry]
        split_ifs with e
        · rw [e, mul_one]
        · rw [mul_zero]
      · rw [if_neg hb, if_neg hb]

theorem flatten_getElem {M L : ℕ} {cl : List (List ℝ)} (h : Rect M L cl) :
    cl.flatten.length = M * L ∧
    ∀ I l, I < M → l < L → cl.flatten[I * L + l]? = some (rowAt cl I l) := by
  obtain ⟨h1, h2⟩ := h
  subst h1
  induction cl with
  | nil => simp
  | cons a cl ih =>
    obtain ⟨i1, i2⟩ := ih fun row hrow => h2 row (by simp [hrow])
    have ha := h2 a (by simp)
    refine ⟨by rw [List.flatten_cons, List.length_append, i1, ha, List.length_cons]; ring, ?_⟩
    intro I l hI hl
    rw [List.flatten_cons]
    cases I with
    | zero =>
      rw [List.getElem?_append_left (by omega)]
      simp only [Nat.zero_mul, Nat.zero_add, rowAt, List.getD_cons_zero]
      rw [List.getD_eq_getElem _ _ (by omega), List.getElem?_eq_getElem (by omega)]
    | succ I =>
      rw [List.getElem?_append_right (by rw [ha, Nat.succ_mul]; omega)]
      rw [ha, show (I + 1) * L + l - L = I * L + l by rw [Nat.succ_mul]; omega,
        i2 I l (by simpa using hI) hl]
      rfl

/-- The arrays computed by the library are rectangular. -/
theorem angularCl_rect {p : Params} {ells : List ℝ} {probes : List Probe} {T : ℝ → ℝ}
    {nl : Params → ℝ → ℝ → (ℝ → ℝ) → Except PyErr ℝ} {cl : List (List ℝ)}
    (h : angularCl p ells probes T nl = .ok cl) :
    Rect (pairCount (tracers probes).length) ells.length cl ∧
    ∀ l (hl : l < ells.length), ∃ col, clAt p T nl probes ells[l] = .ok col ∧
      ∀ I < pairCount (tracers probes).length, rowAt cl I l = col.getD I 0 := by
  unfold angularCl at h
  obtain ⟨cols, hcols, h⟩ := bind_ok h
  simp only [pure, Except.pure, Except.ok.injEq] at h
  have hlen := mapM_length hcols
  refine ⟨⟨by rw [← h, List.length_map, List.length_range, C54_count], ?_⟩, ?_⟩
  · intro row hrow
    rw [← h, List.mem_map] at hrow
    obtain ⟨c, _, rfl⟩ := hrow
    rw [List.length_map, hlen]
  · intro l hl
    refine ⟨_, mapM_getElem hcols l hl, fun I hI => ?_⟩
    have hr : cl.getD I [] = cols.map fun col => col.getD I 0 := by
      rw [← h, List.getD_eq_getElem _ _ (by rw [List.length_map, List.length_range, C54_count]; exact hI),
        List.getElem_map, List.getElem_range]
    rw [rowAt, hr, List.getD_eq_getElem _ _ (by rw [List.length_map, hlen]; exact hl),
      List.getElem_map]

theorem noiseCl_rect {ells : List ℝ} {probes : List Probe} {n : List (List ℝ)}
    (h : noiseCl ells probes = .ok n) :
    Rect (pairCount (tracers probes).length) ells.length n := by
  unfold noiseCl at h
  obtain ⟨ns, _, h⟩ := bind_ok h
  simp only [pure, Except.pure, Except.ok.injEq] at h
  refine ⟨by rw [← h, List.length_map, C54_count], ?_⟩
  intro row hrow
  rw [← h, List.mem_map] at hrow
  obtain ⟨ij, _, rfl⟩ := hrow
  simp

/-- C61: `gaussian_cl_covariance_and_mean` returns the spectra flattened so that the entry at
`I * n_ell + l` — the index of row `(I, l)` of the covariance, see `C34_entry` — is spectrum `I` at
multipole `l`; and its covariance is that of these spectra and the noise. -/
theorem C61_mean_order (p : Params) (ells : List ℝ) (probes : List Probe) (T : ℝ → ℝ)
    (nl : Params → ℝ → ℝ → (ℝ → ℝ) → Except PyErr ℝ) (f_sky : ℝ) (sparse : Bool) {mean : List ℝ}
    {cov : NdArr ℝ}
    (h : gaussianClCovarianceAndMean p ells probes T nl f_sky sparse = .ok (mean, cov)) :
    mean.length = pairCount (tracers probes).length * ells.length ∧
    (∀ I l (hl : l < ells.length), I < pairCount (tracers probes).length →
      ∃ col, clAt p T nl probes ells[l] = .ok col ∧
        mean[I * ells.length + l]? = some (col.getD I 0)) ∧
    ∃ signal noise, angularCl p ells probes T nl = .ok signal ∧ noiseCl ells probes = .ok noise ∧
      gaussianClCovariance ells probes signal noise f_sky sparse = .ok cov := by
  unfold gaussianClCovarianceAndMean at h
  obtain ⟨signal, hs, h⟩ := bind_ok h
  obtain ⟨noise, hn, h⟩ := bind_ok h
  obtain ⟨c, hc, h⟩ := bind_ok h
  simp only [pure, Except.pure, Except.ok.injEq, Prod.mk.injEq] at h
  obtain ⟨rfl, rfl⟩ := h
  obtain ⟨hr, hv⟩ := angularCl_rect hs
  obtain ⟨h1, h2⟩ := flatten_getElem hr
  refine ⟨h1, ?_, signal, noise, hs, hn, hc⟩
  intro I l hl hI
  obtain ⟨col, a, b⟩ := hv l hl
  exact ⟨col, a, by rw [h2 I l hI hl, b I hI]⟩

/-! ## C60 -/

/-- Witness for C59–C61: two lensing bins at two multipoles, with signal `2, 1, 2` and unit noise in
the auto spectra; the covariance between the first auto spectrum and the cross spectrum at the
second multipole is `2 · 3 · 1` over the number of modes. -/
example (b1 b2 : Nz) : ∃ S : Sp ℝ 3 3 2,
    gaussianClCovariance [10, 20] [.wl (.init [b1, b2])] [[2, 2], [1, 1], [2, 2]]
      [[1, 1], [0, 0], [1, 1]] 0.25 true = .ok (.d3 3 3 2 S) ∧
      S 0 1 1 = (3 * 1 + 1 * 3) / (41 * 10 * 0.25) := by
  have hN : (tracers [.wl (.init [b1, b2])]).length = 2 := rfl
  have hs : Rect (pairCount (tracers [.wl (.init [b1, b2])]).length) ([10, 20] : List ℝ).length
      [[2, 2], [1, 1], [2, 2]] := ⟨by rw [hN]; rfl, by simp⟩
  have hn : Rect (pairCount (tracers [.wl (.init [b1, b2])]).length) ([10, 20] : List ℝ).length
      [[1, 1], [0, 0], [1, 1]] := ⟨by rw [hN]; rfl, by simp⟩
  have key := C59_wick [10, 20] [.wl (.init [b1, b2])] _ _ 0.25 (by simp) hs hn
  rw [hN, show pairCount 2 = 3 from rfl] at key
  obtain ⟨S, h1, h2⟩ := key
  refine ⟨S, h1, ?_⟩
  have := h2 0 1 0 0 0 1 rfl rfl 1
  refine this.trans ?_
  norm_num [wick, obsMat, symMat, column, modeCount, bandwidth, pairPos]

theorem slice_wick (N L : ℕ) (ells : List ℝ) (signal noise : List (List ℝ)) (f_sky : ℝ)
    (l : Fin L) : slice (wickSparse N L ells signal noise f_sky) l
      = (1 / modeCount ells f_sky l) • wickMat (pairOf N) (obsMat N signal noise l) := by
  ext I J
  simp only [slice, wickSparse, Matrix.smul_apply, wickMat, smul_eq_mul]
  ring

/-- C60: if the matrix of observed spectra is positive semi-definite at every multipole and the
numbers of modes are positive, the covariance is positive semi-definite. -/
theorem C60_posSemidef (ells : List ℝ) (probes : List Probe) (signal noise : List (List ℝ))
    (f_sky : ℝ) (hL : 2 ≤ ells.length)
    (hs : Rect (pairCount (tracers probes).length) ells.length signal)
    (hn : Rect (pairCount (tracers probes).length) ells.length noise)
    (hmode : ∀ l < ells.length, 0 < modeCount ells f_sky l)
    (hC : ∀ l < ells.length, (obsMat (tracers probes).length signal noise l).PosSemidef) :
    ∃ S : Sp ℝ (pairCount (tracers probes).length) (pairCount (tracers probes).length) ells.length,
      gaussianClCovariance ells probes signal noise f_sky true = .ok (.d3 _ _ _ S) ∧
      (denseEntry S).PosSemidef := by
  refine ⟨_, covariance_eq ells probes signal noise f_sky hL hs hn, ?_⟩
  refine toDense_posSemidef fun l => ?_
  rw [slice_wick]
  exact (wickMat_posSemidef _ _ (hC l l.2)).smul (one_div_nonneg.2 (hmode l l.2).le)

/-- C60: and positive definite if the observed spectra are. -/
theorem C60_posDef (ells : List ℝ) (probes : List Probe) (signal noise : List (List ℝ))
    (f_sky : ℝ) (hL : 2 ≤ ells.length)
    (hs : Rect (pairCount (tracers probes).length) ells.length signal)
    (hn : Rect (pairCount (tracers probes).length) ells.length noise)
    (hmode : ∀ l < ells.length, 0 < modeCount ells f_sky l)
    (hC : ∀ l < ells.length, (obsMat (tracers probes).length signal noise l).PosDef) :
    ∃ S : Sp ℝ (pairCount (tracers probes).length) (pairCount (tracers probes).length) ells.length,
      gaussianClCovariance ells probes signal noise f_sky true = .ok (.d3 _ _ _ S) ∧
      (denseEntry S).PosDef := by
  refine ⟨_, covariance_eq ells probes signal noise f_sky hL hs hn, ?_⟩
  refine toDense_posDef fun l => ?_
  rw [slice_wick]
  exact (wickMat_posDef _ _ (hC l l.2) (pairOf_injective _) (pairOf_le _)).smul
    (one_div_pos.2 (hmode l l.2))

end JaxCosmo
