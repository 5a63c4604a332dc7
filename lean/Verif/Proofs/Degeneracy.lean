import Verif.Props.Amplitude
import Verif.Spec.Degeneracy

/-! # Lemmas for C146 -/

namespace JaxCosmo
open Spec

theorem bcast_smul {f : ℝ → ℝ → ℝ} {g : ℝ → ℝ} {u : ℝ} (h : ∀ x y, f x (g y) = u * f x y) (xs ys : List ℝ) :
    bcast f xs (ys.map g) = (bcast f xs ys).map (List.map (u * ·)) := by
  unfold bcast
  rw [List.length_map]
  split_ifs with hl
  · simp only [Except.map, List.zipWith_map_right, List.map_zipWith, h]
  · match xs, ys with
    | [], [] => exact absurd rfl hl
    | [x], [] => simp [Except.map]
    | [], [y] => simp [Except.map]
    | [x], [y] => simp at hl
    | [], y :: y' :: ys => simp [Except.map]
    | x :: x' :: xs, [] => simp [Except.map]
    | [x], y :: y' :: ys => simp [Except.map, h]
    | x :: x' :: xs, [y] => simp [Except.map, h]
    | x :: x' :: xs, y :: y' :: ys => simp [Except.map]

theorem call_amplify (u : ℝ) (p : Params) (z : ℝ) (b : Bias) :
    (amplifyBias u b).call p z = u * b.call p z := by
  cases b <;> simp only [amplifyBias, Bias.call] <;> ring

theorem biasRows_amplify (u : ℝ) (p : Params) (z : ℝ) (v : Val) :
    biasRows p (amplifyBiases u v) z = (biasRows p v z).map (List.map (u * ·)) := by
  cases v with
  | none => rfl
  | num x => rfl
  | nums xs => cases xs <;> rfl
  | bias b => simp [amplifyBiases, biasRows, call_amplify, Except.map]
  | biases bs =>
    cases bs with
    | nil => rfl
    | cons b bs => simp [amplifyBiases, biasRows, call_amplify, Except.map]

theorem density_amplify (u : ℝ) (p : Params) (pzs : List Nz) (v : Val) (z ell : ℝ) :
    densityKernel p pzs (amplifyBiases u v) z ell = (densityKernel p pzs v z ell).map (List.map (u * ·)) := by
  unfold densityKernel
  cases jitCosmo p with
  | error e => rfl
  | ok q =>
    simp only [bind, Except.bind]
    split_ifs
    · rfl
    · rfl
    · rw [biasRows_amplify]
      cases biasRows q v z with
      | error e => rfl
      | ok b =>
        simp only [Except.map]
        rw [bcast_smul (u := u) (fun x y => by ring)]
        cases bcast (· * ·) (pzs.map fun pz => pz.eval z) b with
        | error e => rfl
        | ok r =>
          simp only [Except.map, pure, Except.pure, List.map_map]
          congr 1
          refine List.map_congr_left fun x _ => ?_
          simp only [Function.comp_apply]
          ring

theorem applyM_amplify (u : ℝ) (k : List ℝ) (v : Val) :
    applyM k (amplifyShear u v) = (applyM k v).map (List.map (u * ·)) := by
  cases v with
  | none => rfl
  | bias b => rfl
  | biases bs => rfl
  | num m =>
    simp only [amplifyShear, applyM, Except.map, List.map_map]
    congr 1
    refine List.map_congr_left fun x _ => ?_
    simp only [Function.comp_apply]
    ring
  | nums ms =>
    cases ms with
    | nil => rfl
    | cons m ms =>
      exact bcast_smul (f := fun k x => k * (1 + x)) (g := fun m => u * (1 + m) - 1) (u := u)
        (fun x y => by ring) k (m :: ms)

theorem kernel_amplify (u : ℝ) (pr : Probe) (p : Params) (z ell : ℝ) :
    (amplify u pr).kernel p z ell = (pr.kernel p z ell).map (List.map (u * ·)) := by
  cases pr with
  | nc o => exact density_amplify u p o.bins o.bias z ell
  | wl o =>
    simp only [amplify, Probe.kernel, WeakLensing.kernel]
    cases weakLensingKernel p o.bins z ell with
    | error e => rfl
    | ok k =>
      simp only [bind, Except.bind]
      split_ifs
      · cases o.param2 with
        | none => rfl
        | some b =>
          simp only
          cases nlaKernel p o.bins b z ell with
          | error e => rfl
          | ok ia =>
            simp only
            cases bcast (· + ·) k ia with
            | error e => rfl
            | ok k2 => exact applyM_amplify u k2 o.param1
      · exact applyM_amplify u k o.param1

@[simp] theorem bins_amplify (u : ℝ) (pr : Probe) : (amplify u pr).bins = pr.bins := by cases pr <;> rfl

@[simp] theorem bins_amplifyCounts (u : ℝ) (pr : Probe) : (amplifyCounts u pr).bins = pr.bins := by
  cases pr <;> rfl

@[simp] theorem noise_amplify (u : ℝ) (pr : Probe) : (amplify u pr).noise = pr.noise := by cases pr <;> rfl

@[simp] theorem noise_amplifyCounts (u : ℝ) (pr : Probe) : (amplifyCounts u pr).noise = pr.noise := by
  cases pr <;> rfl

theorem mapM_exceptMap {α β γ : Type} (f : α → Except PyErr β) (g : β → γ) (l : List α) :
    l.mapM (fun x => (f x).map g) = (l.mapM f).map (List.map g) := by
  induction l with
  | nil => rfl
  | cons x l ih =>
    rw [List.mapM_cons, List.mapM_cons, ih]
    cases f x with
    | error e => rfl
    | ok y =>
      simp only [Except.map, bind, Except.bind, pure, Except.pure]
      cases l.mapM f <;> rfl

theorem gather_smul (u : ℝ) (l : List ℝ) (i : ℕ) : gather (l.map (u * ·)) i = u * gather l i := by
  rw [gather, gather, List.length_map]
  exact getD_map_mul u l _

theorem getClOrdering_map (g : Probe → Probe) (hg : ∀ pr, (g pr).bins = pr.bins) (probes : List Probe) :
    getClOrdering (probes.map g) = getClOrdering probes := by
  simp only [getClOrdering, nTracers, List.map_map]
  congr 2
  refine List.map_congr_left fun pr _ => ?_
  simp only [Function.comp_apply, Probe.nTracers, hg]

theorem probesZmax_map (g : Probe → Probe) (hg : ∀ pr, (g pr).bins = pr.bins) (probes : List Probe) :
    probesZmax (probes.map g) = probesZmax probes := by
  have e : (fun pr => Probe.zmax (g pr)) = Probe.zmax := funext fun pr => by simp only [Probe.zmax, hg]
  simp only [probesZmax, List.mapM_map, Function.comp_def, e]

theorem clIntegrand_amplify (s u : ℝ) (p : Params) (T : ℝ → ℝ) (probes : List Probe) (ell a : ℝ) :
    clIntegrand { p with sigma8 := s * p.sigma8 } T linear (probes.map (amplify u)) ell a
      = (clIntegrand p T linear probes ell a).map (List.map ((s * u) ^ 2 * ·)) := by
  have e1 : linearMatterPower { p with sigma8 := s * p.sigma8 } T ((ell + 0.5) / clipLo (chiOf p a) 1) a
      = s ^ 2 * linearMatterPower p T ((ell + 0.5) / clipLo (chiOf p a) 1) a := C40_sigma8 p T _ a s
  have e2 : (probes.map (amplify u)).mapM (fun pr => pr.kernel { p with sigma8 := s * p.sigma8 } (a2z a) ell)
      = (probes.mapM fun pr : Probe => pr.kernel p (a2z a) ell).map (List.map (List.map (u * ·))) := by
    rw [List.mapM_map, ← mapM_exceptMap]
    simp only [Function.comp_def, kernel_sigma8, kernel_amplify]
  have e3 : dchioverda { p with sigma8 := s * p.sigma8 } a = dchioverda p a := rfl
  have e4 : chiOf { p with sigma8 := s * p.sigma8 } a = chiOf p a := rfl
  unfold clIntegrand
  rw [e2, e3, e4, getClOrdering_map _ (bins_amplify u)]
  simp only [nonlinearMatterPower, linear, e1]
  cases probes.mapM fun pr => pr.kernel p (a2z a) ell with
  | error e => rfl
  | ok rows =>
    simp only [Except.map, bind, Except.bind, pure, Except.pure, List.map_map, ← List.map_flatten]
    congr 1
    refine List.map_congr_left fun ij _ => ?_
    simp only [Function.comp_apply, gather_smul]
    ring

theorem simpsE_map (c : ℝ) (f : ℝ → Except PyErr (List ℝ)) (a b : ℝ) (N : ℕ) :
    simpsE (fun x => (f x).map (List.map (c * ·))) a b N = (simpsE f a b N).map (List.map (c * ·)) := by
  unfold simpsE
  split_ifs
  · rfl
  · simp only
    rw [mapM_exceptMap (fun i => f (linspace a b (N + 1) i)) (List.map (c * ·))]
    cases (List.range (N + 1)).mapM fun i => f (linspace a b (N + 1) i) with
    | error e => rfl
    | ok ys =>
      simp only [Except.map, bind, Except.bind, pure, Except.pure, List.map_map]
      have hh : ((ys.map (List.map (c * ·))).headD []).length = (ys.headD []).length := by
        cases ys <;> simp
      have hy : ∀ i k, ((ys.map (List.map (c * ·))).getD i []).getD k 0 = c * (ys.getD i []).getD k 0 := by
        intro i k
        rw [← getD_map_mul]
        congr 1
        simp only [List.getD_eq_getElem?_getD, List.getElem?_map]
        cases ys[i]? <;> simp
      rw [hh]
      congr 1
      refine List.map_congr_left fun k _ => ?_
      simp only [Function.comp_apply, hy, Finset.mul_sum]
      exact Finset.sum_congr rfl fun i _ => by ring

theorem clAt_amplify (s u : ℝ) (p : Params) (T : ℝ → ℝ) (probes : List Probe) (ell : ℝ) :
    clAt { p with sigma8 := s * p.sigma8 } T linear (probes.map (amplify u)) ell
      = (clAt p T linear probes ell).map (List.map ((s * u) ^ 2 * ·)) := by
  unfold clAt
  rw [probesZmax_map _ (bins_amplify u)]
  cases probesZmax probes with
  | error e => rfl
  | ok zmax =>
    simp only [bind, Except.bind]
    rw [show clIntegrand { p with sigma8 := s * p.sigma8 } T linear (probes.map (amplify u)) ell
      = fun a => (clIntegrand p T linear probes ell a).map (List.map ((s * u) ^ 2 * ·)) from
      funext fun a => clIntegrand_amplify s u p T probes ell a, simpsE_map]
    cases simpsE (clIntegrand p T linear probes ell) (z2a zmax) 1 512 with
    | error e => rfl
    | ok v =>
      simp only [Except.map, pure, Except.pure, List.map_map]
      congr 1
      refine List.map_congr_left fun x _ => ?_
      simp only [Function.comp_apply, mul_div_assoc]

end JaxCosmo
