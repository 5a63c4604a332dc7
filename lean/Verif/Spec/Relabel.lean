import Verif.Model.Probes
import Verif.Spec.AngularCl

/-! # Specification for C143–C145: what belongs to one redshift bin, and renumbered data -/

namespace JaxCosmo.Spec

/-- The part of an option of a probe that concerns bin `t`: its entry if the option is a list with
several entries, the option itself (or its only entry) if it is shared by the bins. -/
noncomputable def ofBin (v : Val) (t : ℕ) : Val :=
  match v with
  | .nums xs => .num (if xs.length = 1 then xs.getD 0 0 else xs.getD t 0)
  | .biases bs => .bias (if bs.length = 1 then bs.getD 0 (.constant 0) else bs.getD t (.constant 0))
  | v => v

/-- Bin `t` of the first probe and bin `t'` of the second are the same measurement: same kind of
probe, same galaxies, same biases and shape noise.  Nothing is said about the other bins. -/
def SameBin : Probe × ℕ → Probe × ℕ → Prop
  | (.wl o, t), (.wl o', t') =>
    (∃ b, o.bins[t]? = some b ∧ o'.bins[t']? = some b) ∧ ofBin o.param1 t = ofBin o'.param1 t' ∧
      o.ia_enabled = o'.ia_enabled ∧
      (o.ia_enabled = true → o.param2.map (ofBin · t) = o'.param2.map (ofBin · t')) ∧
      ofBin o.sigma_e t = ofBin o'.sigma_e t'
  | (.nc o, t), (.nc o', t') =>
    (∃ b, o.bins[t]? = some b ∧ o'.bins[t']? = some b) ∧ ofBin o.bias t = ofBin o'.bias t'
  | _, _ => False

/-- Every tracer of the second survey is a bin of the first, tracer `i` being `σ i` there; lensing
bins sit in probes that reach the same redshift (see C143 for why that matters). -/
def Selects (A B : List Probe) (σ : Fin (tracers B).length → Fin (tracers A).length) : Prop :=
  ∀ i, SameBin (tracers B)[i] (tracers A)[σ i] ∧
    ∀ o, (tracers B)[i].1 = .wl o → (tracers B)[i].1.zmax = (tracers A)[σ i].1.zmax

/-- `ρ` renumbers the rows of a data vector (spectra of pairs of `M` tracers at `L` multipoles, the
multipole running fastest) as `σ` renumbers the tracers: the spectrum of tracers `i`, `j` becomes
the spectrum of `σ i`, `σ j`, at the same multipole. -/
def Renumbers {M N L : ℕ} (σ : Fin M → Fin N) (P Q : ℕ) (ρ : Fin (P * L) → Fin (Q * L)) : Prop :=
  ∀ (i j : Fin M) (l : ℕ) (r : Fin (P * L)), l < L → r.val = pairPos M i j * L + l →
    (ρ r).val = pairPos N (σ i) (σ j) * L + l

end JaxCosmo.Spec
