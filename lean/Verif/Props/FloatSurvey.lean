import Verif.Props.FloatOrder
import Verif.Props.FloatSpectrum

/-! # C177: better and worse surveys in floating point

Rounding is monotone, so that the order of two surveys survives it: no digit is ever gained by adding noise or by looking at less sky.  What
does not survive is a strict comparison. -/

namespace JaxCosmo
variable {A : Rounding} {M : Libm}

theorem mulF_le {a b c d : ℝ} (h : a ≤ b) (h' : c ≤ d) (hc : 0 ≤ c) (hb : 0 ≤ b) : A.mul a c ≤ A.mul b d :=
  A.mono (mul_le_mul h h' hc hb)

theorem divF_le {a b c d : ℝ} (h : a ≤ b) (h' : d ≤ c) (hb : 0 ≤ b) (hd : 0 < d) : A.div a c ≤ A.div b d :=
  A.mono (div_le_div₀ hb h hd h')

/-- C177: the computed linear power does not fall when `sigma8` or the growth factor rises. -/
theorem C177_power {T prim : ℝ → ℝ} {g g' s s' c S k P P' : ℝ} {t : ℕ → SumTree} (hp : 0 ≤ prim k) (hS : sigmasqrF A M (shapeF A T prim) 8 c t = .ok S)
    (S0 : 0 < S) (g0 : 0 ≤ g) (hg : g ≤ g') (s0 : 0 ≤ s) (hs : s ≤ s') (hP : linearPowerF A M T prim g s c t k = .ok P)
    (hP' : linearPowerF A M T prim g' s' c t k = .ok P') : P ≤ P' := by
  rw [linearPowerF, hS] at hP hP'
  simp only [bind, Except.bind, pure, Except.pure, Except.ok.injEq] at hP hP'
  rw [← hP, ← hP']
  have h0 : 0 ≤ A.mul (prim k) (A.mul (T k) (T k)) := A.nonneg (mul_nonneg hp (A.nonneg (mul_self_nonneg _)))
  have gg : ∀ x, 0 ≤ A.mul x x := fun x => A.nonneg (mul_self_nonneg x)
  exact mulF_le (mulF_le le_rfl (mulF_le hg hg g0 (g0.trans hg)) (gg _) h0) (divF_le (mulF_le hs hs s0 (s0.trans hs)) le_rfl (gg _) S0)
    (A.nonneg (div_nonneg (gg _) S0.le)) (A.nonneg (mul_nonneg h0 (gg _)))

/-- Every ingredient of one sum is at most that of another, at a larger distance. -/
structure LimberInput.Below (S S' : LimberInput) (i j : ℕ) : Prop where
  pk_nonneg : ∀ n, 0 ≤ S.pk n
  pk : ∀ n, S.pk n ≤ S'.pk n
  dchi_nonneg : ∀ n, 0 ≤ S.dchi n
  dchi : ∀ n, S.dchi n ≤ S'.dchi n
  chi_nonneg : ∀ n, 0 ≤ S'.chi n
  chi : ∀ n, S'.chi n ≤ S.chi n
  left_nonneg : ∀ n, 0 ≤ S.kernel i n
  left : ∀ n, S.kernel i n ≤ S'.kernel i n
  right_nonneg : ∀ n, 0 ≤ S.kernel j n
  right : ∀ n, S.kernel j n ≤ S'.kernel j n

/-- C177: more power, stronger kernels or nearer structure never lower a computed spectrum. -/
theorem C177_spectrum {S S' : LimberInput} {i j : ℕ} (h : S.Below S' i j) {zmax : ℝ} (hz : 0 ≤ zmax) (t : SumTree) :
    clF A S zmax t i j ≤ clF A S' zmax t i j := by
  have pos : ∀ {c : ℝ}, 0 ≤ c → 0 ≤ A.rd c := fun h => A.nonneg h
  have node : ∀ n, limberF A S i j n ≤ limberF A S' i j n := fun n => by
    have k0 : 0 ≤ A.mul (S.kernel i n) (S.kernel j n) := pos (mul_nonneg (h.left_nonneg n) (h.right_nonneg n))
    have k1 : A.mul (S.kernel i n) (S.kernel j n) ≤ A.mul (S'.kernel i n) (S'.kernel j n) :=
      mulF_le (h.left n) (h.right n) (h.right_nonneg n) ((h.left_nonneg n).trans (h.left n))
    have p1 := mulF_le (A := A) (h.pk n) k1 k0 ((h.pk_nonneg n).trans (h.pk n))
    have p0 : 0 ≤ A.mul (S.pk n) (A.mul (S.kernel i n) (S.kernel j n)) := pos (mul_nonneg (h.pk_nonneg n) k0)
    have d1 := mulF_le (A := A) p1 (h.dchi n) (h.dchi_nonneg n) (p0.trans p1)
    have d0 : 0 ≤ A.mul (A.mul (S.pk n) (A.mul (S.kernel i n) (S.kernel j n))) (S.dchi n) := pos (mul_nonneg p0 (h.dchi_nonneg n))
    exact divF_le d1 (max_le_max (mulF_le (h.chi n) (h.chi n) (h.chi_nonneg n) ((h.chi_nonneg n).trans (h.chi n))) le_rfl) (d0.trans d1)
      (lt_of_lt_of_le one_pos (le_max_right _ _))
  have dx : 0 ≤ A.div (A.div (A.sub 1 (z2aF A zmax)) (512 : ℕ)) 3 :=
    pos (div_nonneg (pos (div_nonneg (pos (by linarith [(C95_range.2.1 zmax hz : 0 < z2aF A zmax ∧ _).2])) (by norm_num))) (by norm_num))
  refine A.mono (div_le_div_of_nonneg_right (A.mono (mul_le_mul_of_nonneg_left (C174_monotone fun m _ => ?_) dx)) (A.nonneg (sq_nonneg _)))
  exact A.mono (add_le_add (A.mono (add_le_add (node _) (A.mono (mul_le_mul_of_nonneg_left (node _) (by norm_num))))) (node _))

/-- C177: noise never lowers an observed spectrum, and does not enter that of two tracers. -/
theorem C177_noise (S : LimberInput) {noise noise' : ℕ → ℝ} (zmax : ℝ) (t : SumTree) (i : ℕ) (h : noise i ≤ noise' i) :
    clObsF A S noise zmax t i i ≤ clObsF A S noise' zmax t i i ∧ ∀ j, i ≠ j → clObsF A S noise zmax t i j = clObsF A S noise' zmax t i j := by
  have one : A.sub 1 (clip |(i : ℝ) - (i : ℝ)| 0 1) = 1 := by
    rw [sub_self, abs_zero, clip, Rounding.sub]; norm_num [A.one]
  refine ⟨A.mono (add_le_add le_rfl ?_), fun j hj => ?_⟩
  · simp only [noiseF, one, Rounding.mul, mul_one]
    exact A.mono (A.mono h)
  · have zero : A.sub 1 (clip |(i : ℝ) - (j : ℝ)| 0 1) = 0 := by
      have : 1 ≤ |(i : ℝ) - (j : ℝ)| := by
        have : (1 : ℤ) ≤ |(i : ℤ) - j| := Int.one_le_abs (sub_ne_zero.2 (by exact_mod_cast hj))
        exact_mod_cast this
      rw [clip, max_eq_left (by linarith), min_eq_right this, Rounding.sub, sub_self, A.zero]
    simp only [clObsF, noiseF, zero, Rounding.mul, mul_zero, A.zero, zero_mul]

/-- C177: larger observed spectra and fewer modes never lower a variance. -/
theorem C177_variance {obs obs' norm norm' : ℕ → ℝ} {l : ℕ} (h0 : 0 ≤ obs l) (h : obs l ≤ obs' l) (n0 : 0 < norm' l) (hn : norm' l ≤ norm l) :
    oneCovF A obs norm l ≤ oneCovF A obs' norm' l := by
  have hm := mulF_le (A := A) h h h0 (h0.trans h)
  have hm0 : 0 ≤ A.mul (obs' l) (obs' l) := A.nonneg (mul_self_nonneg _)
  exact divF_le (A.mono (add_le_add hm hm)) hn (A.nonneg (add_nonneg hm0 hm0)) n0

/-- C177: larger variances never raise a chi-square. -/
theorem C177_chi2 (t : SumTree) (data mu : ℕ → ℝ) {C C' : ℕ → ℝ} (C0 : ∀ i, 0 < C i) (h : ∀ i, C i ≤ C' i) :
    chi2F A t data mu C' ≤ chi2F A t data mu C := by
  refine C174_monotone fun i _ => A.mono ?_
  have hi : A.div 1 (C' i) ≤ A.div 1 (C i) := divF_le le_rfl (h i) zero_le_one (C0 i)
  show A.sub (mu i) (data i) * A.mul (A.div 1 (C' i)) (A.sub (mu i) (data i)) ≤ A.sub (mu i) (data i) * A.mul (A.div 1 (C i)) (A.sub (mu i) (data i))
  generalize A.sub (mu i) (data i) = r
  rcases le_total 0 r with hr | hr
  · exact mul_le_mul_of_nonneg_left (A.mono (mul_le_mul_of_nonneg_right hi hr)) hr
  · exact mul_le_mul_of_nonpos_left (A.mono (mul_le_mul_of_nonpos_right hi hr)) hr

/-- C177: a survey with more noise on less of the sky never excludes a model with a larger chi-square. -/
theorem C177_survey {S : ℕ → LimberInput} (hp : ∀ l n, 0 ≤ (S l).pk n) (hd : ∀ l n, 0 ≤ (S l).dchi n) {noise noise' : ℕ → ℝ} (n0 : 0 < noise 0)
    (hn : noise 0 ≤ noise' 0) {zmax : ℝ} (hz : 0 ≤ zmax) {t : ℕ → SumTree} (ht : ∀ l, (t l).leaves.Perm (List.range 256)) {n : ℕ} {ell : ℕ → ℝ}
    (he : ∀ l, 0 ≤ ell l) (hg : ∀ l, 0 < gradientF A n ell l) {f f' : ℝ} (f0 : 0 < f') (hf : f' ≤ f) (s : SumTree) (data : ℕ → ℝ) :
    forecastChi2F A S noise' zmax t n ell f' s data ≤ forecastChi2F A S noise zmax t n ell f s data := by
  have m0 : ∀ l, 0 < A.mul (A.add (A.mul 2 (ell l)) 1) (gradientF A n ell l) := fun l =>
    rd_pos (mul_pos (rd_pos (add_pos_of_nonneg_of_pos (A.nonneg (mul_nonneg zero_le_two (he l))) one_pos)) (hg l))
  have o0 : ∀ l, 0 < clObsF A (S l) noise zmax (t l) 0 0 := fun l => by
    have one : A.sub 1 (clip |((0 : ℕ) : ℝ) - ((0 : ℕ) : ℝ)| 0 1) = 1 := by
      rw [sub_self, abs_zero, clip, Rounding.sub]; norm_num [A.one]
    have : 0 < noiseF A noise 0 0 := by
      simp only [noiseF, one, Rounding.mul, mul_one]
      exact rd_pos (rd_pos n0)
    exact rd_pos (add_pos_of_nonneg_of_pos (C168_auto (hp l) (hd l) hz (ht l) 0) this)
  have sq0 : ∀ l, 0 < A.mul (clObsF A (S l) noise zmax (t l) 0 0) (clObsF A (S l) noise zmax (t l) 0 0) := fun l => rd_pos (mul_pos (o0 l) (o0 l))
  exact C177_chi2 s data _ (fun l => rd_pos (div_pos (rd_pos (add_pos (sq0 l) (sq0 l))) (rd_pos (mul_pos (m0 l) (f0.trans_le hf)))))
    fun l => C177_variance (o0 l).le (C177_noise (S l) zmax (t l) 0 hn).1 (rd_pos (mul_pos (m0 l) f0)) (A.mono (mul_le_mul_of_nonneg_left hf (m0 l).le))

/-! ### Strict comparisons -/

/-- More noise is seen in the observed spectrum. -/
def NoiseTells (A : Rounding) : Prop := ∀ (S : LimberInput) (noise noise' : ℕ → ℝ) (zmax : ℝ) (t : SumTree) (i : ℕ), (∀ n, 0 ≤ S.pk n) → (∀ n, 0 ≤ S.dchi n) →
  0 ≤ zmax → t.leaves.Perm (List.range 256) → A.rd (noise i) = noise i → A.rd (noise' i) = noise' i → 0 ≤ noise i → noise i < noise' i →
  clObsF A S noise zmax t i i < clObsF A S noise' zmax t i i

theorem noiseF_self {noise : ℕ → ℝ} {i : ℕ} (h : A.rd (noise i) = noise i) : noiseF A noise i i = noise i := by
  have one : A.sub 1 (clip |(i : ℝ) - (i : ℝ)| 0 1) = 1 := by
    rw [sub_self, abs_zero, clip, Rounding.sub]; norm_num [A.one]
  simp only [noiseF, one, Rounding.mul, mul_one, h]

/-- C177: noise that stands out from the roundings of the spectrum is seen. -/
theorem C177_tells_partial {S : LimberInput} {noise noise' : ℕ → ℝ} {zmax : ℝ} {t : SumTree} {i : ℕ} (hp : ∀ n, 0 ≤ S.pk n) (hd : ∀ n, 0 ≤ S.dchi n)
    (hz : 0 ≤ zmax) (ht : t.leaves.Perm (List.range 256)) (h : A.rd (noise i) = noise i) (h' : A.rd (noise' i) = noise' i) (n0 : 0 ≤ noise i)
    (hn : noise i < noise' i)
    (hs : (1 + A.u) * (clF A S zmax t i i + noise i) < (1 - A.u) * (clF A S zmax t i i + noise' i)) :
    clObsF A S noise zmax t i i < clObsF A S noise' zmax t i i := by
  have c0 := C168_auto (A := A) hp hd hz ht i
  rw [clObsF, clObsF, noiseF_self h, noiseF_self h']
  exact (A.rd_le (add_nonneg c0 n0)).trans_lt (hs.trans_le (A.le_rd (add_nonneg c0 (n0.trans hn.le))))

theorem pow_le_rd {x : ℝ} (k : ℤ) (h : 2 ^ k ≤ x) : 2 ^ k ≤ float32.rd x := by
  rw [← show float32.rd (2 ^ k) = 2 ^ k from rd_two_pow (by omega) k]; exact float32.mono h

/-- A survey of constants. -/
def flatLimber : LimberInput := ⟨fun _ => 1, fun _ => 1, fun _ => 1, fun _ _ => 1⟩

theorem flat_ge : (2 : ℝ) ^ (-47 : ℤ) ≤ clF float32 flatLimber 1 (pairwise 8 0) 0 0 := by
  have hl : limberF float32 flatLimber 0 0 = fun _ => 1 := by
    funext n
    simp only [limberF, flatLimber, Rounding.mul, Rounding.div, mul_one, float32.one, clipLo, max_self, div_one]
  have h2 : float32.rd (2 ^ (1 : ℤ)) = 2 ^ (1 : ℤ) := rd_two_pow (by omega) 1
  have hz : z2aF float32 1 = 2 ^ (-1 : ℤ) := by
    have h3 : float32.rd (2 ^ (-1 : ℤ)) = 2 ^ (-1 : ℤ) := rd_two_pow (by omega) (-1)
    rw [z2aF, Rounding.add, show (1 : ℝ) + 1 = 2 ^ (1 : ℤ) by norm_num, h2, Rounding.div, show (1 : ℝ) / 2 ^ (1 : ℤ) = 2 ^ (-1 : ℤ) by norm_num, h3]
  rw [clF, hl, hz]
  have hc : float32.rd (const_c ^ 2) ≤ 2 ^ (37 : ℤ) := rd_le_pow (by norm_num [const_c])
  have hc0 : 0 < float32.rd (const_c ^ 2) := rd_pos (by norm_num [const_c])
  have e4 : (2 : ℝ) ^ (2 : ℤ) ≤ float32.add (float32.add 1 (float32.mul 4 1)) 1 := by
    have a := pow_le_rd (x := 4 * 1) 2 (by norm_num)
    have b := pow_le_rd (x := 1 + float32.mul 4 1) 2 (by rw [Rounding.mul]; linarith)
    exact pow_le_rd 2 (by rw [Rounding.add]; linarith)
  have hs : (2 : ℝ) ^ (2 : ℤ) ≤ (pairwise 8 0).sum float32 fun _ => float32.add (float32.add 1 (float32.mul 4 1)) 1 :=
    e4.trans (C174_largest (p := 24) (by omega) (i := 0) (fun _ _ => (by positivity : (0 : ℝ) ≤ 2 ^ (2 : ℤ)).trans e4)
      (fun _ _ => roundBinary_fixed (by omega) _) (by rw [pairwise_range]; simp))
  have d1 := pow_le_rd (x := 1 - 2 ^ (-1 : ℤ)) (-1) (by norm_num)
  have d2 := pow_le_rd (x := float32.sub 1 (2 ^ (-1 : ℤ)) / (512 : ℕ)) (-10) (by rw [Rounding.sub]; norm_num at d1 ⊢; linarith)
  have d3 := pow_le_rd (x := float32.div (float32.sub 1 (2 ^ (-1 : ℤ))) (512 : ℕ) / 3) (-12) (by rw [Rounding.div]; norm_num at d2 ⊢; linarith)
  have d4 : (2 : ℝ) ^ (-10 : ℤ) ≤ simpsF float32 (fun _ => 1) (2 ^ (-1 : ℤ)) 1 512 (pairwise 8 0) := by
    refine pow_le_rd (-10) ?_
    have := mul_le_mul d3 hs (by positivity) (le_trans (by positivity) d3)
    exact le_trans (by norm_num) this
  refine pow_le_rd (-47) ((le_div_iff₀ hc0).2 ?_)
  exact (mul_le_mul_of_nonneg_left hc (by positivity)).trans (le_trans (by norm_num) d4)

/-- C177: exact operations tell any two levels of noise apart; in single precision levels below the last digit of the spectrum are the same. -/
theorem C177_refuted : NoiseTells exactArith ∧ ¬ NoiseTells float32 := by
  refine ⟨fun S noise noise' zmax t i _ _ _ _ h h' _ hn => ?_, fun h => ?_⟩
  · rw [clObsF, clObsF, noiseF_self h, noiseF_self h']
    exact (add_lt_add_iff_left _).2 hn
  · have r : ∀ k : ℤ, float32.rd (2 ^ k) = 2 ^ k := fun k => rd_two_pow (by omega) k
    have held : float32.rd (clF float32 flatLimber 1 (pairwise 8 0) 0 0) = clF float32 flatLimber 1 (pairwise 8 0) 0 0 := roundBinary_fixed (by omega) _
    have := h flatLimber (fun _ => 2 ^ (-81 : ℤ)) (fun _ => 2 ^ (-80 : ℤ)) 1 (pairwise 8 0) 0 (fun _ => zero_le_one) (fun _ => zero_le_one) zero_le_one
      (by rw [pairwise_range]; norm_num) (r _) (r _) (by positivity) (zpow_lt_zpow_right₀ (by norm_num) (by norm_num))
    have hf := flat_ge
    rw [clObsF, clObsF, noiseF_self (r _), noiseF_self (r _)] at this
    generalize clF float32 flatLimber 1 (pairwise 8 0) 0 0 = cl at this held hf
    have key : ∀ k : ℤ, k < -71 → float32.add cl (2 ^ k) = cl := fun k hk => by
      have ln : float32.rd (-cl) = -cl := (roundBinary_neg 24 cl).trans (congrArg Neg.neg held)
      have := C167_absorbed (p := 24) (by omega) (k := -47) ln (by linarith) (q := 2 ^ k) (by positivity) (zpow_lt_zpow_right₀ (by norm_num) (by omega))
      rw [Rounding.sub, sub_neg_eq_add, neg_neg, add_comm] at this
      exact this
    rw [key _ (by norm_num), key _ (by norm_num)] at this
    exact lt_irrefl _ this

/-- The survey of constants with twice the noise on half the sky. -/
example (data : ℕ → ℝ) : forecastChi2F exactArith (fun _ => flatLimber) (fun _ => 2) 1 (fun _ => pairwise 8 0) 3 (fun l => 10 * l) (1 / 4) (pairwise 1 0) data
    ≤ forecastChi2F exactArith (fun _ => flatLimber) (fun _ => 1) 1 (fun _ => pairwise 8 0) 3 (fun l => 10 * l) (1 / 2) (pairwise 1 0) data := by
  refine C177_survey (fun _ _ => zero_le_one) (fun _ _ => zero_le_one) one_pos one_le_two zero_le_one (fun _ => by rw [pairwise_range]; norm_num) (fun l => by positivity)
    (fun l => ?_) (by norm_num) (by norm_num) _ _
  simp only [gradientF, Rounding.sub, Rounding.div, exactArith, id]
  split_ifs with h1 h2
  · norm_num
  · norm_num
  · have : ((l - 1 : ℕ) : ℝ) ≤ l := by exact_mod_cast Nat.sub_le l 1
    push_cast
    linarith

end JaxCosmo
