import Verif.Props.DefinedSpectra
import Verif.Props.Covariance

/-! # C116: noise and covariance are finite numbers -/

namespace JaxCosmo
open Xr EH

/-! ## Noise -/

theorem steradian_ne : steradian_to_arcmin2 ≠ 0 := by norm_num [steradian_to_arcmin2]

theorem xm_noise {pr : Probe} (h : ∀ nz ∈ pr.bins, nz.gals ≠ 0) : Xm.noise pr = efin pr.noise := by
  have hg : ∀ nz ∈ pr.bins, nz.galsPerSteradian ≠ 0 := fun nz hnz => mul_ne_zero (h nz hnz) steradian_ne
  have e : pr.bins.map Xm.galsPerSteradian = (pr.bins.map Nz.galsPerSteradian).map fin := by
    rw [List.map_map]; rfl
  have hgs : ∀ n ∈ pr.bins.map Nz.galsPerSteradian, n ≠ 0 := fun n hn => by
    obtain ⟨nz, h1, rfl⟩ := List.mem_map.1 hn
    exact hg nz h1
  cases pr with
  | nc o =>
    unfold Xm.noise Probe.noise NumberCounts.noise
    have hg' : ∀ n ∈ o.bins.map Nz.galsPerSteradian, n ≠ 0 := hgs
    have e' : o.bins.map Xm.galsPerSteradian = (o.bins.map Nz.galsPerSteradian).map fin := e
    simp only [e', efin_ok]
    congr 1
    generalize o.bins.map Nz.galsPerSteradian = ns at hg'
    rw [List.map_map, List.map_map]
    refine List.map_congr_left fun n hn => ?_
    simp only [Function.comp_apply, lit_one]
    exact div_fin _ (hg' n hn)
  | wl o =>
    have hg' : ∀ n ∈ o.bins.map Nz.galsPerSteradian, n ≠ 0 := hgs
    have e' : o.bins.map Xm.galsPerSteradian = (o.bins.map Nz.galsPerSteradian).map fin := e
    unfold Xm.noise Probe.noise WeakLensing.noise
    simp only [e']
    cases o.sigma_e with
    | num s =>
      simp only [efin_ok]
      congr 1
      generalize o.bins.map Nz.galsPerSteradian = ns at hg'
      rw [List.map_map, List.map_map]
      refine List.map_congr_left fun n hn => ?_
      simp only [Function.comp_apply, npow_fin]
      exact div_fin _ (hg' n hn)
    | nums ss =>
      have := bcast_fin (e := fun x : ℝ => x) (e' := fin) (fX := fun s n => fin s ^ 2 / n)
        (f := fun s n => s ^ 2 / n) ss (o.bins.map Nz.galsPerSteradian) fun s _ n hn => by
          rw [npow_fin, div_fin _ (hg' n hn)]
      rw [List.map_id'] at this
      exact this
    | none => rfl
    | bias b => rfl
    | biases bs => rfl

/-- C116: the noise spectra are finite when every sample has galaxies. -/
theorem C116_noise {probes : List Probe} (h : ∀ pr ∈ probes, ∀ nz ∈ pr.bins, nz.gals ≠ 0)
    (ells : List ℝ) : Xm.noiseCl (ells.map fin) probes
      = (noiseCl ells probes).map (List.map (List.map fin)) := by
  unfold Xm.noiseCl noiseCl
  rw [mapM_map (List.map fin) (g := Probe.noise) probes fun pr hpr => xm_noise (h pr hpr)]
  cases probes.mapM Probe.noise with
  | error e => rfl
  | ok ns =>
    change Except.ok _ = Except.ok _
    congr 1
    rw [List.map_map]
    refine List.map_congr_left fun ij _ => ?_
    simp only [Function.comp_apply, List.map_map]
    refine List.map_congr_left fun l _ => ?_
    simp only [Function.comp_apply, ← List.map_flatten, gather_fin, lit_one, lit_zero, sub_fin, abs_fin, max_fin,
      min_fin, mul_fin]
    rfl

/-- C116: a sample without galaxies has infinite noise, and NaN if its ellipticity dispersion is
zero as well. -/
theorem C116_no_galaxies (nz : Nz) (hn : nz.gals = 0) (b : Val) (s : ℝ) :
    Xm.noise (.nc (NumberCounts.init [nz] b)) = .ok [pinf] ∧
      Xm.noise (.wl (WeakLensing.init [nz] (sigma_e := .num s))) = .ok [if s = 0 then nan else pinf] := by
  have e : Xm.galsPerSteradian nz = fin 0 := by
    unfold Xm.galsPerSteradian
    rw [hn, mul_fin, zero_mul]
  have d : ∀ x, fin x / fin 0 = infSign x := fun x => if_pos rfl
  constructor
  · simp [Xm.noise, NumberCounts.init, e, lit_one, d, infSign]
  · simp only [Xm.noise, WeakLensing.init, List.map_cons, List.map_nil, e, npow_fin, d, infSign]
    by_cases hs : s = 0
    · simp [hs]
    · have : 0 < s ^ 2 := by positivity
      simp [hs, this]

/-! ## Covariance -/

/-- Every entry of an array as a (finite) number. -/
def ndFin : NdArr ℝ → NdArr Xr
  | .d0 x => .d0 (fin x)
  | .d1 n v => .d1 n fun i => fin (v i)
  | .d2 m n M => .d2 m n fun i j => fin (M i j)
  | .d3 a b P S => .d3 a b P fun i j l => fin (S i j l)
  | .hi n => .hi n

theorem xm_addCl (s n : List (List ℝ)) :
    Xm.addCl (s.map (List.map fin)) (n.map (List.map fin)) = (addCl s n).map (List.map fin) := by
  unfold Xm.addCl addCl
  have h : ∀ x y : List ℝ, List.zipWith (· + ·) (x.map fin) (y.map fin)
      = (List.zipWith (· + ·) x y).map fin := fun x y =>
    zipWith_fin (fX := (· + ·)) (f := (· + ·)) x y fun a _ b _ => add_fin a b
  induction s generalizing n with
  | nil => simp
  | cons x s ih =>
    cases n with
    | nil => simp
    | cons y n =>
      simp only [List.map_cons, List.zipWith_cons_cons, h, ih]

theorem xm_covNorm (ells : List ℝ) (f_sky : ℝ) :
    Xm.covNorm (ells.map fin) f_sky = (covNorm ells f_sky).map fun f l => fin (f l) := by
  unfold Xm.covNorm covNorm Xm.gradient gradient
  rw [List.length_map]
  split_ifs with h
  · rfl
  · change Except.ok _ = Except.ok _
    congr 1
    funext l
    simp only [getD_fin]
    split_ifs <;> simp only [lit_nat, lit_one, mul_fin, add_fin, sub_fin, div_fin_lit]

theorem rowAt_fin (cl : List (List ℝ)) (a l : ℕ) :
    Xm.rowAt (cl.map (List.map fin)) a l = fin (rowAt cl a l) := by
  unfold Xm.rowAt rowAt
  rw [getD_nil_map, getD_fin]

/-- C116: in both representations the covariance is finite when the number of modes of every
multipole is not zero. -/
theorem C116_covariance (ells : List ℝ) (probes : List Probe) (signal noise : List (List ℝ))
    (f_sky : ℝ) (sparse : Bool)
    (hm : ∀ norm, covNorm ells f_sky = .ok norm → ∀ l < ells.length, norm l ≠ 0) :
    Xm.gaussianClCovariance (ells.map fin) probes (signal.map (List.map fin)) (noise.map (List.map fin))
      f_sky sparse = (gaussianClCovariance ells probes signal noise f_sky sparse).map ndFin := by
  unfold Xm.gaussianClCovariance gaussianClCovariance
  rw [xm_covNorm, xm_addCl]
  cases hn : covNorm ells f_sky with
  | error e => rfl
  | ok norm =>
    have hm' := hm norm hn
    unfold Xm.covBlockDiag covBlockDiag
    cases getCovBlocksOrdering probes with
    | error e => rfl
    | ok blocks =>
      change (if _ then _ else _) = Except.map ndFin (if _ then _ else _)
      generalize ho : addCl signal noise = obs
      rw [List.length_map, List.length_map, List.length_map, List.length_map]
      by_cases hl : blocks.length = obs.length * obs.length
      · rw [if_pos hl, if_pos hl]
        have key : ∀ (q l : ℕ), l < ells.length →
            (blocks.map fun abcd l =>
              (Xm.rowAt (obs.map (List.map fin)) abcd.1 l * Xm.rowAt (obs.map (List.map fin)) abcd.2.1 l
                + Xm.rowAt (obs.map (List.map fin)) abcd.2.2.1 l
                  * Xm.rowAt (obs.map (List.map fin)) abcd.2.2.2 l) / fin (norm l)).getD q (fun _ => 0) l
            = fin ((blocks.map fun abcd l =>
              (rowAt obs abcd.1 l * rowAt obs abcd.2.1 l
                + rowAt obs abcd.2.2.1 l * rowAt obs abcd.2.2.2 l) / norm l).getD q 0 l) := by
          intro q l hl
          rcases lt_or_ge q blocks.length with hq | hq
          · rw [List.getD_eq_getElem _ _ (by simpa using hq), List.getD_eq_getElem _ _ (by simpa using hq)]
            simp only [List.getElem_map, rowAt_fin, mul_fin, add_fin, div_fin _ (hm' l hl)]
          · rw [List.getD_eq_default _ _ (by simpa using hq), List.getD_eq_default _ _ (by simpa using hq)]
            rfl
        cases sparse with
        | true =>
          rw [if_pos rfl, if_pos rfl]
          change Except.ok _ = Except.ok _
          congr 1
          change NdArr.d3 _ _ _ _ = NdArr.d3 _ _ _ _
          congr 1
          funext i j l
          exact key _ l l.2
        | false =>
          rw [if_neg (by simp), if_neg (by simp)]
          change Except.ok _ = Except.ok _
          congr 1
          change NdArr.d2 _ _ _ = NdArr.d2 _ _ _
          congr 1
          funext r c
          have := key (r.divNat * obs.length + c.divNat) c.modNat c.modNat.2
          simp only [this]
          split_ifs <;> rfl
      · rw [if_neg hl, if_neg hl]; rfl

/-- C116: with increasing multipoles (at least 1 for lensing) and part of the sky observed, the mean
vector and the covariance of a survey are finite numbers, in both representations. -/
theorem C116_pipeline {p : Params} {TX : Xr → Xr} {T : ℝ → ℝ} {probes : List Probe}
    (h : SurveyOK p TX T probes) (hn : ∀ pr ∈ probes, ∀ nz ∈ pr.bins, nz.gals ≠ 0) (ells : List ℝ)
    (hi : ells.Pairwise (· < ·)) (hl0 : ∀ ell ∈ ells, 0 ≤ ell)
    (hl : ∀ ell ∈ ells, ∀ pr ∈ probes, pr.EllOK ell) {f_sky : ℝ} (hf : 0 < f_sky) (sparse : Bool) :
    Xm.gaussianClCovarianceAndMean p (ells.map fin) probes TX (f_sky := f_sky) (sparse := sparse)
      = (gaussianClCovarianceAndMean p ells probes T (f_sky := f_sky) (sparse := sparse)).map
        fun mc => (mc.1.map fin, ndFin mc.2) := by
  have hm : ∀ norm, covNorm ells f_sky = .ok norm → ∀ l < ells.length, norm l ≠ 0 := by
    intro norm e l hl
    have h2 : 2 ≤ ells.length := by
      by_contra hlt
      rw [(C62_value ells f_sky).2 (by omega)] at e
      cases e
    obtain ⟨norm', e', hpos⟩ := C62_pos ells f_sky h2 hi hl0 hf
    rw [e'] at e
    rw [← Except.ok.inj e]
    exact (hpos l hl).ne'
  unfold Xm.gaussianClCovarianceAndMean gaussianClCovarianceAndMean
  rw [C115_spectra h ells hl0 hl, C116_noise hn]
  cases angularCl p ells probes T with
  | error e => rfl
  | ok signal =>
    cases noiseCl ells probes with
    | error e => rfl
    | ok noise =>
      change (Xm.gaussianClCovariance (ells.map fin) probes (signal.map (List.map fin))
        (noise.map (List.map fin)) f_sky sparse >>= _) = Except.map _ (_ >>= _)
      rw [C116_covariance ells probes signal noise f_sky sparse hm]
      rw [ok_bind, ok_bind]
      cases gaussianClCovariance ells probes signal noise f_sky sparse with
      | error e => rfl
      | ok c =>
        change Except.ok _ = Except.ok _
        rw [← List.map_flatten]

example (sparse : Bool) : Xm.gaussianClCovarianceAndMean Planck15 ([10, 20, 30].map fin) exampleProbes
      (Xm.EH.wiggle Planck15) (f_sky := 0.25) (sparse := sparse)
    = (gaussianClCovarianceAndMean Planck15 [10, 20, 30] exampleProbes (wiggle Planck15) (f_sky := 0.25)
      (sparse := sparse)).map fun mc => (mc.1.map fin, ndFin mc.2) := by
  have hb : ∀ ell ∈ ([10, 20, 30] : List ℝ), 1 ≤ ell := by
    intro ell he
    simp only [List.mem_cons, List.not_mem_nil, or_false] at he
    rcases he with rfl | rfl | rfl <;> norm_num
  refine C116_pipeline example_SurveyOK ?_ [10, 20, 30] ?_ (fun l hl => zero_le_one.trans (hb l hl))
    (fun ell he pr _ => ?_) (by norm_num) sparse
  · intro pr hpr nz hnz
    rw [exampleProbes, List.mem_cons, List.mem_singleton] at hpr
    rcases hpr with rfl | rfl
    · simp only [Probe.bins, WeakLensing.init, List.mem_cons, List.not_mem_nil, or_false] at hnz
      rcases hnz with rfl | rfl <;> norm_num [Nz.gals]
    · simp only [Probe.bins, NumberCounts.init, List.mem_cons, List.not_mem_nil, or_false] at hnz
      rcases hnz with rfl | rfl <;> norm_num [Nz.gals]
  · simp only [List.pairwise_cons, List.mem_cons, List.not_mem_nil, or_false, forall_eq_or_imp, forall_eq,
      List.Pairwise.nil, and_true, false_imp_iff, implies_true]
    norm_num
  · cases pr
    · exact Or.inl (hb ell he)
    · trivial

/-! ## No modes at a multipole -/

theorem infSign_mul_zero (x : ℝ) : infSign x * fin 0 = nan := by
  unfold infSign
  split_ifs
  · change infSign 0 = nan
    simp [infSign]
  · change infSign (-0) = nan
    simp [infSign]
  · rfl

/-- C116: the condition on the multipoles is needed, and without it the two representations differ.
Where the number of modes is zero (two equal neighbouring multipoles, or two equal multipoles on
either side) the sparse form is infinite there and fine elsewhere, while in the dense form every
off-diagonal entry of the column is NaN, so that no sum over a row is a number. -/
theorem C116_no_modes (ells : List ℝ) (probes : List Probe) (signal noise : List (List ℝ)) {f_sky : ℝ}
    {norm : ℕ → ℝ} (hn : covNorm ells f_sky = .ok norm) {l : Fin ells.length} (hz : norm l = 0)
    {n m : ℕ} {M : Matrix (Fin n) (Fin m) Xr}
    (hM : Xm.gaussianClCovariance (ells.map fin) probes (signal.map (List.map fin))
      (noise.map (List.map fin)) f_sky false = .ok (.d2 n m M)) (r : Fin n) (c : Fin m)
    (hc : (c : ℕ) % ells.length = l) (hr : (r : ℕ) % ells.length ≠ l) : M r c = nan := by
  unfold Xm.gaussianClCovariance at hM
  rw [xm_covNorm, xm_addCl, hn] at hM
  simp only [Except.map] at hM
  rw [ok_bind] at hM
  obtain ⟨blocks, hb, hM⟩ := bind_ok hM
  unfold Xm.covBlockDiag at hb
  obtain ⟨ord, -, hb⟩ := bind_ok hb
  have hb := Except.ok.inj hb
  by_cases h1 : blocks.length
      = ((addCl signal noise).map (List.map fin)).length * ((addCl signal noise).map (List.map fin)).length
  · have mod_eq : ∀ n : ℕ, n % (ells.map fin).length = n % ells.length := fun n => by
      rw [List.length_map]
    rw [if_pos h1, if_neg (by simp)] at hM
    obtain ⟨rfl, rfl, hM⟩ := NdArr.d2.inj (Except.ok.inj hM)
    rw [← eq_of_heq hM]
    have hne : ¬ (r.modNat = c.modNat) := by
      intro e
      have e' : (r : ℕ) % (ells.map fin).length = (c : ℕ) % (ells.map fin).length := congrArg Fin.val e
      exact hr ((mod_eq _).symm.trans (e'.trans ((mod_eq _).trans hc)))
    have hcl : (c.modNat : ℕ) = l := (mod_eq _).trans hc
    have hq : (r.divNat : ℕ) * ((addCl signal noise).map (List.map fin)).length + c.divNat < blocks.length := by
      rw [h1]
      have ha := r.divNat.2
      have hb := c.divNat.2
      generalize ((addCl signal noise).map (List.map fin)).length = K at *
      nlinarith [Nat.mul_le_mul_right K (Nat.succ_le_of_lt ha)]
    simp only [if_neg hne, hcl]
    rw [List.getD_eq_getElem _ _ hq]
    subst hb
    simp only [List.getElem_map, rowAt_fin, mul_fin, add_fin, hz]
    rw [show ∀ x : ℝ, fin x / fin 0 = infSign x from fun x => if_pos rfl, lit_zero, infSign_mul_zero]
  · rw [if_neg h1] at hM
    cases hM

/-- Witness: the same multipole twice. -/
example : ∃ M : Matrix (Fin 2) (Fin 2) Xr,
    Xm.gaussianClCovariance ([10, 10].map fin) [.nc (NumberCounts.init [.delta 1 1 1] .none)]
      ([[1, 1]].map (List.map fin)) ([[1, 1]].map (List.map fin)) 0.25 false = .ok (.d2 2 2 M) ∧
    M 0 1 = nan := by
  have hn : covNorm [10, 10] 0.25 = .ok fun l => (2 * [10, 10].getD l 0 + 1)
      * (if l = 0 then [10, 10].getD 1 0 - [10, 10].getD 0 0
          else if l = 2 - 1 then [10, 10].getD (2 - 1) 0 - [10, 10].getD (2 - 2) 0
          else ([10, 10].getD (l + 1) 0 - [10, 10].getD (l - 1) 0) / 2) * 0.25 := rfl
  obtain ⟨M, hM⟩ : ∃ M : Matrix (Fin 2) (Fin 2) Xr,
      Xm.gaussianClCovariance ([10, 10].map fin) [.nc (NumberCounts.init [.delta 1 1 1] .none)]
        ([[1, 1]].map (List.map fin)) ([[1, 1]].map (List.map fin)) 0.25 false = .ok (.d2 2 2 M) :=
    ⟨_, rfl⟩
  exact ⟨M, hM, C116_no_modes [10, 10] _ [[1, 1]] [[1, 1]] hn (l := 1) (by simp) hM 0 1 rfl (by decide)⟩

end JaxCosmo
