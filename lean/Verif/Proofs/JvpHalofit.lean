import Verif.Proofs.JvpPower
import Verif.Proofs.JvpInterp
import Verif.Props.DefinedHalofit

/-! # Differentiating `power.py` -/

namespace JaxCosmo.Spec
open Xr

/-- A transfer function that may be differentiated at positive wavenumbers, with respect to the
wavenumber and the parameters it depends on. -/
def TransferJvp (s : ℝ) (T : ℝ → ℝ → ℝ) (TD : Du → Du) : Prop :=
  ∀ (A : ℝ → ℝ) (a : Du), Jvp A s a → 0 < A s → Jvp (fun r => T r (A r)) s (TD a)

variable {P : ℝ → Params} {s : ℝ} {D : DParams} {T : ℝ → ℝ → ℝ} {TD : Du → Du} {K : ℝ → ℝ} {k : Du}

theorem jvp_primordial (h : Seeded P s D) (hk : Jvp K s k) (h0 : 0 < K s) :
    Jvp (fun r => primordialMatterPower (P r) (K r)) s (Dm.primordialMatterPower D k) :=
  hk.rpow h.n_s h0

theorem jvp_sigmasqr (h : Seeded P s D) (hT : TransferJvp s T TD) {R : ℝ → ℝ} {RD : Du}
    (hR : Jvp R s RD) (hR0 : R s ≠ 0) :
    Jvp (fun r => sigmasqr (P r) (R r) (T r)) s (Dm.sigmasqr D RD TD) := by
  have hint : ∀ (X : ℝ → ℝ) (x : Du), Jvp X s x →
      Jvp (fun r => sigmaIntegrand (P r) (T r) (R r) (X r)) s (Dm.sigmaIntegrand D TD RD x) := by
    intro X x hx
    have he := Real.exp_pos (X s)
    have h1 := hT _ _ hx.exp he
    have h2 := jvp_primordial h hx.exp he
    have h3 : Real.exp (X s) * R s ≠ 0 := by positivity
    unfold sigmaIntegrand Dm.sigmaIntegrand
    jvp
    positivity
  have hl := (Jvp.rombLoop (Jvp.con (Real.logb 10 0.0001) s) (Jvp.con (Real.logb 10 1000) s) hint 7).2 7
  have hpi := Real.pi_pos
  unfold sigmasqr Dm.sigmasqr
  jvp
  all_goals positivity

/-- What the differentiated power spectrum asks for at the point of evaluation. -/
structure PowerPoint (p : Params) (T : ℝ → ℝ) (a : ℝ) : Prop where
  phys : Physical p
  norm : T (Real.exp (-4)) ≠ 0
  early : 1 / 900 ≤ a
  late : a ≤ 1

theorem jvp_linear (h : Seeded P s D) (hT : TransferJvp s T TD) {x : ℝ} {xD : Du}
    (hp : PowerPoint (P s) (T s) x) (hx : Jvp (fun _ => x) s xD) (hk : Jvp K s k) (h0 : 0 < K s) :
    Jvp (fun r => linearMatterPower (P r) (T r) (K r) x) s (Dm.linearMatterPower D TD k xD) := by
  have h1 := jvp_growthOf h hp.phys hp.early hp.late hx
  have h2 := hT _ _ hk h0
  have h3 := jvp_primordial h hk h0
  have h4 := jvp_sigmasqr h hT (Jvp.nat 8 s) (by norm_num)
  have h5 := h.sigma8
  unfold linearMatterPower Dm.linearMatterPower
  jvp
  exact (sigmasqr_pos _ _ hp.norm).ne'

/-- The same at the non-linear scale: no tie between two entries of the table of variances, no tie
with the smallest radius. -/
structure HalofitPoint (p : Params) (T : ℝ → ℝ) (a : ℝ) : Prop extends PowerPoint p T a where
  start : T 1e-4 ≠ 0
  amp : p.sigma8 ≠ 0
  grow : growthOf p a ≠ 0
  mid : ∀ j, j + 1 < 256 → (1 : ℝ) ≠ (Halofit.sigma p T a j + Halofit.sigma p T a (j + 1)) / 2
  floor : Real.exp (interp 256 (Halofit.sigma p T a) Halofit.logr 1) ≠ 1e-6

section
variable {x : ℝ} {xD : Du}

theorem jvp_logr (i : ℕ) : Jvp (fun _ => Halofit.logr i) s (Dm.Halofit.logr i) :=
  Jvp.linspace ((Jvp.sci _ _ _ s).log (by norm_num)) ((Jvp.sci _ _ _ s).log (by norm_num)) (by norm_num) i

theorem PowerPoint.today (hp : PowerPoint (P s) (T s) x) : PowerPoint (P s) (T s) 1 :=
  ⟨hp.phys, hp.norm, by norm_num, le_rfl⟩

theorem jvp_lo : Jvp (fun _ => Real.log 1e-4) s (1e-4 : Du).log := (Jvp.sci _ _ _ s).log (by norm_num)
theorem jvp_hi : Jvp (fun _ => Real.log 1e4) s (1e4 : Du).log := (Jvp.sci _ _ _ s).log (by norm_num)

theorem jvp_sigma (h : Seeded P s D) (hT : TransferJvp s T TD) (hp : PowerPoint (P s) (T s) x)
    (hx : Jvp (fun _ => x) s xD) (i : ℕ) :
    Jvp (fun r => Halofit.sigma (P r) (T r) x i) s (Dm.Halofit.sigma D TD xD i) := by
  have hr := (jvp_logr (s := s) i).exp
  refine Jvp.simps jvp_lo jvp_hi (by norm_num) fun j _ => ?_
  have ht := Jvp.linspace (jvp_lo (s := s)) jvp_hi (n := 256 + 1) (by norm_num) j
  generalize Dm.linspace (1e-4 : Du).log (1e4 : Du).log (256 + 1) j = tD at *
  generalize linspace (Real.log 1e-4) (Real.log 1e4) (256 + 1) j = t at *
  have h1 := jvp_growthOf h hp.phys hp.early hp.late hx
  have h2 := jvp_linear h hT hp.today (Jvp.one s) ht.exp (Real.exp_pos _)
  have hpi := Real.pi_pos
  unfold Halofit.intSigma Dm.Halofit.intSigma
  jvp
  positivity

theorem jvp_R_nl (h : Seeded P s D) (hT : TransferJvp s T TD) (hp : HalofitPoint (P s) (T s) x)
    (hx : Jvp (fun _ => x) s xD) :
    Jvp (fun r => Halofit.R_nl (P r) (T r) x) s (Dm.Halofit.R_nl D TD xD) := by
  have hOK : PowerOK (P s) (fun y => match y with | .fin k => fin (T s k) | _ => nan) (T s) x :=
    ⟨hp.phys, fun _ _ => rfl, hp.norm, hp.start, hp.amp, hp.grow⟩
  have hi := Jvp.interp_dec (n := 256) (by norm_num) (X := fun _ => 1) (Jvp.one s)
    (fun i _ => jvp_sigma h hT hp.toPowerPoint hx i) (fun i _ => jvp_logr i)
    (fun i j hij _ => sigma_decreasing' hOK hij) hp.mid
  exact hi.exp.max (Jvp.sci _ _ _ s) hp.floor

theorem jvp_k_nl (h : Seeded P s D) (hT : TransferJvp s T TD) (hp : HalofitPoint (P s) (T s) x)
    (hx : Jvp (fun _ => x) s xD) :
    Jvp (fun r => Halofit.k_nl (P r) (T r) x) s (Dm.Halofit.k_nl D TD xD) :=
  (Jvp.one s).div (jvp_R_nl h hT hp hx) (R_nl_pos _ _ _).ne'

theorem jvp_res (h : Seeded P s D) (hT : TransferJvp s T TD) (hp : HalofitPoint (P s) (T s) x)
    (hx : Jvp (fun _ => x) s xD) {t : ℝ → ℝ} {tD : Du} (ht : Jvp t s tD) :
    Jvp (fun r => Halofit.res (P r) (T r) x (t r)) s (Dm.Halofit.res D TD xD tD) := by
  have h1 := jvp_growthOf h hp.phys hp.early hp.late hx
  have h2 := jvp_linear h hT hp.today (Jvp.one s) ht.exp (Real.exp_pos _)
  have h3 := jvp_k_nl h hT hp hx
  have h4 := knl_pos (P s) (T s) x
  have hpi := Real.pi_pos
  unfold Halofit.res Dm.Halofit.res
  jvp
  all_goals positivity

theorem jvp_res01 (h : Seeded P s D) (hT : TransferJvp s T TD) (hp : HalofitPoint (P s) (T s) x)
    (hx : Jvp (fun _ => x) s xD) :
    Jvp (fun r => Halofit.res0 (P r) (T r) x) s (Dm.Halofit.res0 D TD xD) ∧
      Jvp (fun r => Halofit.res1 (P r) (T r) x) s (Dm.Halofit.res1 D TD xD) := by
  have h3 := jvp_k_nl h hT hp hx
  have h4 := (knl_pos (P s) (T s) x).ne'
  constructor
  all_goals
    refine Jvp.simps jvp_lo jvp_hi (by norm_num) fun j _ => ?_
    have ht := Jvp.linspace (jvp_lo (s := s)) jvp_hi (n := 256 + 1) (by norm_num) j
    have h5 := jvp_res h hT hp hx ht
    simp only
    jvp

theorem jvp_n_eff (h : Seeded P s D) (hT : TransferJvp s T TD) (hp : HalofitPoint (P s) (T s) x)
    (hx : Jvp (fun _ => x) s xD) :
    Jvp (fun r => Halofit.n_eff (P r) (T r) x) s (Dm.Halofit.n_eff D TD xD) ∧
      Jvp (fun r => Halofit.curv (P r) (T r) x) s (Dm.Halofit.curv D TD xD) :=
  have ⟨h0, h1⟩ := jvp_res01 h hT hp hx
  ⟨h0.sub (Jvp.nat 3 s), (h0.npow 2).add h1⟩

/-- Coefficients, entry by entry. -/
structure CoeffsJvp (c : ℝ → Halofit.Coeffs) (s : ℝ) (cD : Dm.Halofit.Coeffs) : Prop where
  a_n : Jvp (fun r => (c r).a_n) s cD.a_n
  b_n : Jvp (fun r => (c r).b_n) s cD.b_n
  c_n : Jvp (fun r => (c r).c_n) s cD.c_n
  gamma_n : Jvp (fun r => (c r).gamma_n) s cD.gamma_n
  alpha_n : Jvp (fun r => (c r).alpha_n) s cD.alpha_n
  beta_n : Jvp (fun r => (c r).beta_n) s cD.beta_n
  mu_n : Jvp (fun r => (c r).mu_n) s cD.mu_n
  nu_n : Jvp (fun r => (c r).nu_n) s cD.nu_n

theorem jvp_smith {n C : ℝ → ℝ} {nD CD : Du} (hn : Jvp n s nD) (hC : Jvp C s CD) :
    CoeffsJvp (fun r => Halofit.smith2003 (n r) (C r)) s (Dm.Halofit.smith2003 nD CD) := by
  have h10 : (0 : ℝ) < 10 := by norm_num
  constructor
  all_goals
    simp only [Halofit.smith2003, Dm.Halofit.smith2003]
    jvp

theorem jvp_takahashi {n C d w : ℝ → ℝ} {nD CD dD wD : Du} (hn : Jvp n s nD) (hC : Jvp C s CD)
    (hd : Jvp d s dD) (hw : Jvp w s wD)
    (hα : 6.0835 + 1.3373 * n s - 0.1959 * n s ^ 2 - 5.5274 * C s ≠ 0) :
    CoeffsJvp (fun r => Halofit.takahashi2012 (n r) (C r) (d r) (w r)) s
      (Dm.Halofit.takahashi2012 nD CD dD wD) := by
  have h10 : (0 : ℝ) < 10 := by norm_num
  have hab : Jvp (fun r => |6.0835 + 1.3373 * n r - 0.1959 * n r ^ 2 - 5.5274 * C r|) s
      (6.0835 + 1.3373 * nD - 0.1959 * nD ^ 2 - 5.5274 * CD).abs := by
    refine Jvp.abs ?_ hα
    jvp
  constructor
  all_goals
    simp only [Halofit.takahashi2012, Dm.Halofit.takahashi2012]
    jvp

theorem jvp_assemble {c : ℝ → Halofit.Coeffs} {cD : Dm.Halofit.Coeffs} (h : CoeffsJvp c s cD)
    {Pk Q f1 f2 f3 : ℝ → ℝ} {PkD QD f1D f2D f3D : Du} (hk : Jvp K s k) (hP : Jvp Pk s PkD)
    (hQ : Jvp Q s QD) (hf1 : Jvp f1 s f1D) (hf2 : Jvp f2 s f2D) (hf3 : Jvp f3 s f3D)
    (hk0 : 0 < K s) (hP0 : 0 ≤ Pk s) (hQ0 : 0 < Q s) (hb : 0 < (c s).b_n) (hc : 0 < (c s).c_n)
    (hf : 0 < f3 s) (hμ : 0 ≤ (c s).mu_n) (hν : 0 < (c s).nu_n)
    (hα : 1 + (c s).alpha_n * (K s ^ 3 * Pk s / (2 * Real.pi ^ 2)) ≠ 0) :
    Jvp (fun r => Halofit.assemble (K r) (Pk r) (Q r) (c r) (f1 r, f2 r, f3 r)) s
      (Dm.Halofit.assemble k PkD QD cD (f1D, f2D, f3D)) := by
  obtain ⟨c1, c2, c3, c4, c5, c6, c7, c8⟩ := h
  have hpi := Real.pi_pos
  have hy : 0 < K s / Q s := by positivity
  have h2 : 0 < (c s).c_n * f3 s * (K s / Q s) := by positivity
  unfold Halofit.assemble Dm.Halofit.assemble
  simp only
  jvp
  all_goals first | assumption | positivity

end

end JaxCosmo.Spec
