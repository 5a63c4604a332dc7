import Verif.Props.Pipeline
import Verif.Props.Score

/-! # C100, C101: information content of the covariance

C100: sky coverage and noise.  C101: multipoles are independent data. -/

namespace JaxCosmo
open Spec Matrix
open scoped Kronecker

/-! ## Loewner order -/

theorem kronecker_self_mono {N : ℕ} {A B : Matrix (Fin N) (Fin N) ℝ} (hA : A.PosSemidef)
    (hAB : (B - A).PosSemidef) : (B ⊗ₖ B - A ⊗ₖ A).PosSemidef := by
  have hB : B.PosSemidef := by
    have := hAB.add hA; rwa [sub_add_cancel] at this
  have e : B ⊗ₖ B - A ⊗ₖ A = (B - A) ⊗ₖ B + A ⊗ₖ (B - A) := by
    ext r c
    simp only [Matrix.sub_apply, Matrix.add_apply, kroneckerMap_apply]
    ring
  rw [e]
  exact (hAB.kronecker hB).add (hA.kronecker hAB)

theorem wickMat_mono {N M : ℕ} (pr : Fin M → Fin N × Fin N) {A B : Matrix (Fin N) (Fin N) ℝ}
    (hA : A.PosSemidef) (hAB : (B - A).PosSemidef) : (wickMat pr B - wickMat pr A).PosSemidef := by
  rw [wickMat_eq, wickMat_eq, ← smul_sub, ← Matrix.sub_mul, ← Matrix.mul_sub]
  exact ((kronecker_self_mono hA hAB).mul_mul_conjTranspose_same _).smul (by norm_num)

/-- The inverse reverses the order. -/
theorem fisher_anti {N : ℕ} {A B : Matrix (Fin N) (Fin N) ℝ} (hA : A.PosDef)
    (hAB : (B - A).PosSemidef) (u : Fin N → ℝ) : fisher B u u ≤ fisher A u u := by
  have hB : B.PosDef := by
    have := hA.add_posSemidef hAB; rwa [add_sub_cancel] at this
  have iA : IsUnit A.det := isUnit_iff_ne_zero.2 hA.det_pos.ne'
  have iB : IsUnit B.det := isUnit_iff_ne_zero.2 hB.det_pos.ne'
  set x := B⁻¹ *ᵥ u with hx
  have hBx : B *ᵥ x = u := by rw [hx, mulVec_mulVec, mul_nonsing_inv _ iB, one_mulVec]
  have hAu : A *ᵥ (A⁻¹ *ᵥ u) = u := by rw [mulVec_mulVec, mul_nonsing_inv _ iA, one_mulVec]
  have h1 := hA.posSemidef.dotProduct_mulVec_nonneg (x - A⁻¹ *ᵥ u)
  have h2 := hAB.dotProduct_mulVec_nonneg x
  have hs : (A⁻¹ *ᵥ u) ⬝ᵥ (A *ᵥ x) = u ⬝ᵥ x := by
    rw [dotProduct_mulVec, ← mulVec_transpose, symm_of_posDef hA, hAu]
  rw [star_trivial, mulVec_sub, hAu, sub_dotProduct, dotProduct_sub, dotProduct_sub, hs] at h1
  rw [star_trivial, sub_mulVec, dotProduct_sub, hBx] at h2
  have e1 : x ⬝ᵥ u = u ⬝ᵥ x := dotProduct_comm _ _
  have e2 : (A⁻¹ *ᵥ u) ⬝ᵥ u = u ⬝ᵥ (A⁻¹ *ᵥ u) := dotProduct_comm _ _
  rw [e1, e2] at h1
  rw [e1] at h2
  change u ⬝ᵥ x ≤ u ⬝ᵥ (A⁻¹ *ᵥ u)
  linarith

theorem toDense_sub {N P : ℕ} (S T : Sp ℝ N N P) : toDense S - toDense T = toDense (S - T) := by
  ext r c
  obtain ⟨⟨i, p⟩, rfl⟩ := finProdFinEquiv.surjective r
  obtain ⟨⟨j, q⟩, rfl⟩ := finProdFinEquiv.surjective c
  rw [Matrix.sub_apply, toDense_apply, toDense_apply, toDense_apply]
  split_ifs <;> simp

/-! ## C100 -/

section
variable (ells : List ℝ) (probes : List Probe) (signal noise noise' : List (List ℝ))
  (hL : 2 ≤ ells.length)
  (hs : Rect (pairCount (tracers probes).length) ells.length signal)
  (hn : Rect (pairCount (tracers probes).length) ells.length noise)
  (hn' : Rect (pairCount (tracers probes).length) ells.length noise')
include hL hs hn

/-- C100: the covariance is inversely proportional to the fraction of the sky, whatever the
spectra. -/
theorem C100_sky {f f' : ℝ} (hf : f ≠ 0) (hf' : f' ≠ 0) :
    ∃ S S' : Sp ℝ (pairCount (tracers probes).length) (pairCount (tracers probes).length) ells.length,
      gaussianClCovariance ells probes signal noise f true = .ok (.d3 _ _ _ S) ∧
      gaussianClCovariance ells probes signal noise f' true = .ok (.d3 _ _ _ S') ∧
      denseEntry S' = (f / f') • denseEntry S ∧
      (IsUnit (denseEntry S).det → IsUnit (denseEntry S').det ∧
        ∀ u v, fisher (denseEntry S') u v = f' / f * fisher (denseEntry S) u v) := by
  refine ⟨_, _, covariance_eq ells probes signal noise f hL hs hn,
    covariance_eq ells probes signal noise f' hL hs hn, ?_⟩
  have e : denseEntry (wickSparse (tracers probes).length ells.length ells signal noise f')
      = (f / f') • denseEntry (wickSparse (tracers probes).length ells.length ells signal noise f) := by
    ext r c
    rw [Matrix.smul_apply, smul_eq_mul, ← C34_toDense, ← C34_toDense]
    obtain ⟨⟨i, p⟩, rfl⟩ := finProdFinEquiv.surjective r
    obtain ⟨⟨j, q⟩, rfl⟩ := finProdFinEquiv.surjective c
    rw [toDense_apply, toDense_apply]
    split_ifs
    · simp only [wickSparse, modeCount]
      rw [← div_div, ← div_div]
      field_simp
    · simp
  have hff : f / f' ≠ 0 := div_ne_zero hf hf'
  refine ⟨e, fun hu => ⟨?_, fun u v => ?_⟩⟩
  · rw [e, det_smul]
    exact (isUnit_iff_ne_zero.2 (pow_ne_zero _ hff)).mul hu
  · let _ := invertibleOfNonzero hff
    rw [e, fisher, fisher, inv_smul _ (f / f') hu, invOf_eq_inv, smul_mulVec, dotProduct_smul,
      smul_eq_mul, inv_div]

include hn'

/-- C100: adding noise -- a positive semi-definite amount at every multipole -- increases the
covariance, and so never increases the Fisher information about anything nor the `χ²` of any
deviation. -/
theorem C100_noise {f : ℝ} (hmode : ∀ l < ells.length, 0 < modeCount ells f l)
    (hC : ∀ l < ells.length, (obsMat (tracers probes).length signal noise l).PosDef)
    (hle : ∀ l < ells.length, (symMat (tracers probes).length (column noise' l)
      - symMat (tracers probes).length (column noise l)).PosSemidef) :
    ∃ S S' : Sp ℝ (pairCount (tracers probes).length) (pairCount (tracers probes).length) ells.length,
      gaussianClCovariance ells probes signal noise f true = .ok (.d3 _ _ _ S) ∧
      gaussianClCovariance ells probes signal noise' f true = .ok (.d3 _ _ _ S') ∧
      (denseEntry S).PosDef ∧ (denseEntry S').PosDef ∧
      (denseEntry S' - denseEntry S).PosSemidef ∧
      (∀ u, fisher (denseEntry S') u u ≤ fisher (denseEntry S) u u) ∧
      ∀ x mu, chiSq x mu (denseEntry S') ≤ chiSq x mu (denseEntry S) := by
  refine ⟨_, _, covariance_eq ells probes signal noise f hL hs hn,
    covariance_eq ells probes signal noise' f hL hs hn', ?_⟩
  have hP : (denseEntry (wickSparse (tracers probes).length ells.length ells signal noise f)).PosDef := by
    obtain ⟨S, h1, h2⟩ := C60_posDef ells probes signal noise f hL hs hn hmode hC
    rw [covariance_eq ells probes signal noise f hL hs hn] at h1
    cases h1
    exact h2
  have hD : (denseEntry (wickSparse (tracers probes).length ells.length ells signal noise' f)
      - denseEntry (wickSparse (tracers probes).length ells.length ells signal noise f)).PosSemidef := by
    rw [← C34_toDense, ← C34_toDense, toDense_sub]
    refine toDense_posSemidef fun l => ?_
    have e : slice (wickSparse (tracers probes).length ells.length ells signal noise' f
        - wickSparse (tracers probes).length ells.length ells signal noise f) l
        = (1 / modeCount ells f l) • (wickMat (pairOf _) (obsMat (tracers probes).length signal noise' l)
          - wickMat (pairOf _) (obsMat (tracers probes).length signal noise l)) := by
      rw [smul_sub, ← slice_wick, ← slice_wick]
      rfl
    rw [e]
    refine (wickMat_mono _ (hC l l.2).posSemidef ?_).smul (one_div_nonneg.2 (hmode l l.2).le)
    rw [obsMat, obsMat, add_sub_add_left_eq_sub]
    exact hle l l.2
  refine ⟨hP, ?_, hD, fisher_anti hP hD, fun x mu => fisher_anti hP hD (x - mu)⟩
  have := hP.add_posSemidef hD
  rwa [add_sub_cancel] at this

end

/-- The noise matrix of a list of probes is diagonal, with the noise of each tracer. -/
theorem noise_diagonal {ells : List ℝ} {probes : List Probe} (hc : ∀ pr ∈ probes, pr.Consistent)
    {n : List (List ℝ)} (h : noiseCl ells probes = .ok n) {l : ℕ} (hl : l < ells.length) :
    ∃ d : Fin (tracers probes).length → ℝ,
      symMat (tracers probes).length (column n l) = diagonal d ∧
      ∀ (i : Fin (tracers probes).length) (pr : Probe) (t : ℕ),
        (tracers probes)[(i : ℕ)]? = some (pr, t) → ∃ r, pr.noise = .ok r ∧ d i = r.getD t 0 := by
  obtain ⟨-, -, hv⟩ := C58_auto_only ells probes hc h
  refine ⟨fun i => symMat (tracers probes).length (column n l) i i, ?_, ?_⟩
  · have hup : ∀ i j : Fin (tracers probes).length, i < j →
        symMat (tracers probes).length (column n l) i j = 0 := fun i j hij => by
      obtain ⟨r, -, -, h3⟩ := hv i j l hij.le hl _ _ (List.getElem?_eq_getElem i.2) j.2
      rw [symMat, rowAt_column, h3, if_neg (Fin.val_ne_of_ne hij.ne)]
    ext i j
    rw [diagonal_apply]
    rcases lt_trichotomy i j with hij | rfl | hij
    · rw [if_neg hij.ne, hup i j hij]
    · rw [if_pos rfl]
    · have e : symMat (tracers probes).length (column n l) i j
          = symMat (tracers probes).length (column n l) j i := by
        simp only [symMat, pairPos_comm]
      rw [if_neg hij.ne', e, hup j i hij]
  · intro i pr t hi
    obtain ⟨r, h1, -, h3⟩ := hv i i l le_rfl hl pr t hi i.2
    refine ⟨r, h1, ?_⟩
    simp only [symMat, rowAt_column, h3, if_true]

/-- C100: in particular when two surveys differ only in their noise levels -- fewer galaxies, larger
shape noise -- the noisier one has the larger covariance: what `C100_noise` asks for holds if each
tracer of the second has at least the noise of the first. -/
theorem C100_survey {ells : List ℝ} {probes probes' : List Probe}
    (hc : ∀ pr ∈ probes, pr.Consistent) (hc' : ∀ pr ∈ probes', pr.Consistent)
    (hN : (tracers probes').length = (tracers probes).length) {n n' : List (List ℝ)}
    (h : noiseCl ells probes = .ok n) (h' : noiseCl ells probes' = .ok n')
    (hle : ∀ (i : ℕ) (pr : Probe) (t : ℕ) (pr' : Probe) (t' : ℕ) (r r' : List ℝ), (tracers probes)[i]? = some (pr, t) →
      (tracers probes')[i]? = some (pr', t') → pr.noise = .ok r → pr'.noise = .ok r' →
      r.getD t 0 ≤ r'.getD t' 0) {l : ℕ} (hl : l < ells.length) :
    (symMat (tracers probes).length (column n' l)
      - symMat (tracers probes).length (column n l)).PosSemidef := by
  obtain ⟨d, hd, hr⟩ := noise_diagonal hc h hl
  obtain ⟨d', hd', hr'⟩ := noise_diagonal hc' h' hl
  have hd'' : symMat (tracers probes).length (column n' l) = diagonal fun i => d' (Fin.cast hN.symm i) := by
    ext i j
    have := congrFun (congrFun hd' (Fin.cast hN.symm i)) (Fin.cast hN.symm j)
    simp only [symMat, Fin.val_cast, hN] at this
    rw [symMat, this]
    simp only [diagonal_apply, Fin.ext_iff, Fin.val_cast]
  rw [hd, hd'', diagonal_sub]
  refine PosSemidef.diagonal fun i => ?_
  have hi' : (i : ℕ) < (tracers probes').length := by rw [hN]; exact i.2
  obtain ⟨r, h1, h2⟩ := hr i _ _ (List.getElem?_eq_getElem i.2)
  obtain ⟨r', h1', h2'⟩ := hr' (Fin.cast hN.symm i) _ _ (List.getElem?_eq_getElem hi')
  change 0 ≤ d' (Fin.cast hN.symm i) - d i
  rw [h2, h2', sub_nonneg]
  exact hle i _ _ _ _ r r' (List.getElem?_eq_getElem i.2) (List.getElem?_eq_getElem hi') h1 h1'

/-! ## C101 -/

/-- The entries of a data vector at multipole number `l`. -/
def atEll {M L : ℕ} (x : Fin (M * L) → ℝ) (l : Fin L) : Fin M → ℝ := fun i => x (finProdFinEquiv (i, l))

/-- The covariance of the spectra at multipole number `l`. -/
def covAt {M L : ℕ} (S : Sp ℝ M M L) (l : Fin L) : Matrix (Fin M) (Fin M) ℝ := fun i j => S i j l

theorem toDense_inv {M L : ℕ} {S : Sp ℝ M M L} (h : IsUnit (toDense S).det) :
    (toDense S)⁻¹ = toDense (spInv S) := by
  obtain ⟨T, h1, -, -, h2⟩ := C37_inverse S (by rwa [← C34_toDense])
  have : T = spInv S := by
    simp only [invApi_d3, dif_pos] at h1
    cases h1
    rfl
  rw [C34_toDense, C34_toDense, ← h2, this]

/-- C101: different multipoles are independent: the Fisher information is the sum over
multipoles. -/
theorem C101_fisher {M L : ℕ} {S : Sp ℝ M M L} (h : IsUnit (denseEntry S).det)
    (u v : Fin (M * L) → ℝ) :
    fisher (denseEntry S) u v = ∑ l, fisher (covAt S l) (atEll u l) (atEll v l) := by
  rw [← C34_toDense] at h ⊢
  rw [fisher, toDense_inv h, dotProduct, ← finProdFinEquiv.sum_comp, Fintype.sum_prod_type_right]
  refine Finset.sum_congr rfl fun l _ => ?_
  rw [fisher, dotProduct]
  refine Finset.sum_congr rfl fun i _ => ?_
  rw [← sparseDotVec_eq]
  have e := finProdFinEquiv.symm_apply_apply (i, l)
  rw [finProdFinEquiv_symm_apply, Prod.mk.injEq] at e
  simp only [sparseDotVec, flat, unflat, e.1, e.2]
  rfl

/-- C101: the log likelihood is the sum of the log likelihoods of the multipoles. -/
theorem C101_likelihood {n P : ℕ} (data mu : Fin ((n + 1) * P) → ℝ) (S : Sp ℝ (n + 1) (n + 1) P)
    (hS : (denseEntry S).PosDef) (incl : Bool) (m : String) :
    ∃ v : Fin P → ℝ,
      (∀ l, gaussianLogLikelihood (atEll data l) (atEll mu l) (.d2 _ _ (covAt S l)) incl
        = .ok (v l)) ∧
      gaussianLogLikelihood data mu (.d3 _ _ P S) incl m = .ok (∑ l, v l) := by
  have hd : (toDense S).PosDef := by rwa [C34_toDense]
  have hl : ∀ l, (covAt S l).PosDef := fun l => by
    have : covAt S l = (denseEntry S).submatrix (fun i => finProdFinEquiv (i, l))
        (fun i => finProdFinEquiv (i, l)) := by
      ext i j
      rw [submatrix_apply, ← C34_toDense, toDense_apply, if_pos rfl]
      rfl
    rw [this]
    refine hS.submatrix fun i j hij => ?_
    exact (Prod.mk.inj (finProdFinEquiv.injective hij)).1
  refine ⟨_, fun l => loglike_dense _ _ _ (symm_of_posDef (hl l)) incl (Or.inl rfl), ?_⟩
  rw [loglike_sparse data mu S hS]
  have hdet : Real.log |(denseEntry S).det| = ∑ l, Real.log |(covAt S l).det| := by
    rw [← C34_toDense, det_toDense, Finset.abs_prod, Real.log_prod]
    · rfl
    · intro l _
      exact abs_ne_zero.2 (hl l).det_pos.ne'
  have hchi : chiSq data mu (denseEntry S) = ∑ l, chiSq (atEll data l) (atEll mu l) (covAt S l) :=
    C101_fisher (isUnit_iff_ne_zero.2 hS.det_pos.ne') _ _
  rw [hchi, hdet, ← Finset.mul_sum, Finset.sum_sub_distrib]
  cases incl <;> simp

/-- Witness for C100: one lensing bin at two multipoles with signal 2 and noise 1 or 3. -/
example (b : Nz) : ∃ S S' : Sp ℝ 1 1 2,
    gaussianClCovariance [10, 20] [.wl (.init [b])] [[2, 2]] [[1, 1]] 0.25 true = .ok (.d3 1 1 2 S) ∧
    gaussianClCovariance [10, 20] [.wl (.init [b])] [[2, 2]] [[3, 3]] 0.25 true = .ok (.d3 1 1 2 S') ∧
    ∀ u, fisher (denseEntry S') u u ≤ fisher (denseEntry S) u u := by
  have hN : (tracers [.wl (.init [b])]).length = 1 := rfl
  have hr : ∀ x : ℝ, Rect (pairCount (tracers [.wl (.init [b])]).length) ([10, 20] : List ℝ).length
      [[x, x]] := fun x => ⟨by rw [hN]; rfl, by simp⟩
  have hd : ∀ x : ℝ, ∀ l < 2, symMat 1 (column [[x, x]] l) = diagonal fun _ => x := fun x l hl => by
    ext i j
    have : i = j := Subsingleton.elim _ _
    subst this
    rw [diagonal_apply_eq, symMat, rowAt_column]
    interval_cases l <;> simp [rowAt, pairPos]
  have key := C100_noise [10, 20] [.wl (.init [b])] [[2, 2]] [[1, 1]] [[3, 3]]
    (by simp) (hr 2) (hr 1) (hr 3) (f := 0.25) (by
      intro l hl
      have hl : l < 2 := hl
      interval_cases l <;> norm_num [modeCount, bandwidth]) (by
      intro l hl
      rw [hN, obsMat, hd 2 l hl, hd 1 l hl, diagonal_add]
      exact PosDef.diagonal fun _ => by norm_num) (by
      intro l hl
      rw [hN, hd 3 l hl, hd 1 l hl, diagonal_sub]
      exact PosSemidef.diagonal fun _ => by norm_num)
  rw [hN, show pairCount 1 = 1 from rfl] at key
  obtain ⟨S, S', h1, h2, -, -, -, h3, -⟩ := key
  exact ⟨S, S', h1, h2, h3⟩

/-- Witness for the sky fraction. -/
example (b : Nz) : ∃ S S' : Sp ℝ 1 1 2,
    gaussianClCovariance [10, 20] [.wl (.init [b])] [[2, 2]] [[1, 1]] 0.25 true = .ok (.d3 1 1 2 S) ∧
    gaussianClCovariance [10, 20] [.wl (.init [b])] [[2, 2]] [[1, 1]] 0.5 true = .ok (.d3 1 1 2 S') ∧
    denseEntry S' = (0.25 / 0.5 : ℝ) • denseEntry S := by
  have hN : (tracers [.wl (.init [b])]).length = 1 := rfl
  have hr : ∀ x : ℝ, Rect (pairCount (tracers [.wl (.init [b])]).length) ([10, 20] : List ℝ).length
      [[x, x]] := fun x => ⟨by rw [hN]; rfl, by simp⟩
  have key := C100_sky [10, 20] [.wl (.init [b])] [[2, 2]] [[1, 1]] (by simp)
    (hr 2) (hr 1) (f := 0.25) (f' := 0.5) (by norm_num) (by norm_num)
  rw [hN, show pairCount 1 = 1 from rfl] at key
  obtain ⟨S, S', h1, h2, h3, -⟩ := key
  exact ⟨S, S', h1, h2, h3⟩

/-- Witness for C101: two correlated spectra at two multipoles. -/
example (data mu : Fin (2 * 2) → ℝ) : ∃ v : Fin 2 → ℝ,
    gaussianLogLikelihood data mu (.d3 2 2 2 fun i j _ => !![2, 1; 1, 2] i j) true
      = .ok (v 0 + v 1) := by
  obtain ⟨v, -, h⟩ := C101_likelihood data mu (fun i j _ => !![2, 1; 1, 2] i j)
    (toDense_posDef fun _ => posDef_two) true "inverse"
  exact ⟨v, by rw [h, Fin.sum_univ_two]⟩

end JaxCosmo
