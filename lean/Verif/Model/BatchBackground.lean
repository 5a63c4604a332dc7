import Verif.Model.BatchCl

/-!
# `background.py` on arrays

`Model/Background.lean` evaluates the background at one scale factor (and keeps the cache).  Here the same functions act
on arrays of any shape, on a new object; the growth factor and the radial distance on arrays are in `Model/Batch.lean` and
`Model/BatchCl.lean`.
-/

namespace JaxCosmo

/-- `background.py:53` `w` on an array. -/
noncomputable def wNd (p : Params) (a : Nd ℝ) : Nd ℝ := a.map fun a => p.w0 + (1 - a) * p.wa

/-- `background.py:90` `f_de` on an array: a sum of two arrays. -/
noncomputable def fDeNd (p : Params) (a : Nd ℝ) : Except PyErr (Nd ℝ) :=
  Nd.map2 (· + ·) (a.map fun a => -3 * (1 + p.w0 + p.wa) * Real.log a) (a.map fun a => 3 * p.wa * (a - 1))

/-- `background.py:122-126` `Esqr` on an array. -/
noncomputable def EsqrNd (p : Params) (a : Nd ℝ) : Except PyErr (Nd ℝ) := do
  let f ← fDeNd p a
  let s ← Nd.map2 (· + ·) (a.map fun a => p.Omega_m * a ^ (-3 : ℤ)) (a.map fun a => p.Omega_k * a ^ (-2 : ℤ))
  Nd.map2 (· + ·) s (f.map fun f => p.Omega_de * Real.exp f)

/-- `background.py:142` `H` on an array. -/
noncomputable def HNd (p : Params) (a : Nd ℝ) : Except PyErr (Nd ℝ) := do
  let E ← EsqrNd p a
  return E.map fun E => const_H0 * Real.sqrt E

/-- `background.py:168` `Omega_m_a` on an array. -/
noncomputable def OmegaMNd (p : Params) (a : Nd ℝ) : Except PyErr (Nd ℝ) := do
  let E ← EsqrNd p a
  Nd.map2 (· / ·) (a.map fun a => p.Omega_m * a ^ (-3 : ℤ)) E

/-- `background.py:196` `Omega_de_a` on an array. -/
noncomputable def OmegaDeNd (p : Params) (a : Nd ℝ) : Except PyErr (Nd ℝ) := do
  let f ← fDeNd p a
  let E ← EsqrNd p a
  Nd.map2 (· / ·) (f.map fun f => p.Omega_de * Real.exp f) E

/-- `background.py:294` `dchioverda` on an array. -/
noncomputable def dchioverdaNd (p : Params) (a : Nd ℝ) : Except PyErr (Nd ℝ) := do
  let E ← EsqrNd p a
  let t ← Nd.map2 (· * ·) (a.map (· ^ 2)) (E.map Real.sqrt)
  return t.map (const_rh / ·)

/-- `background.py:245-267` `a_of_chi` on an array. -/
noncomputable def aOfNd (p : Params) (chi : Nd ℝ) : Except PyErr (Nd ℝ) :=
  let t := chiTable p (-3) 256
  interpNd t.n t.chi t.a chi.atleast1d

/-- `background.py:329-344` `transverse_comoving_distance` on an array. -/
noncomputable def transverseNd (p : Params) (a : Nd ℝ) : Except PyErr (Nd ℝ) := do
  let chi ← chiNd p a
  return chi.map (transverseOf p)

/-- `background.py:368` `angular_diameter_distance` on an array: the product of the argument and the distances. -/
noncomputable def angularNd (p : Params) (a : Nd ℝ) : Except PyErr (Nd ℝ) := do
  let d ← transverseNd p a
  Nd.map2 (· * ·) a d

/-- `background.py:401-435` `growth_rate` on an array (`:491-512`, `:551-582`). -/
noncomputable def growthRateNd (p : Params) (a : Nd ℝ) : Except PyErr (Nd ℝ) :=
  match p.gamma with
  | some γ => do
    let o ← OmegaMNd p a
    return o.map (· ^ γ)
  | none =>
    let c := growthTableODE p (-3) 128
    match c.f with
    | some f => interpNd c.n c.a f a
    | none => .error .keyError

end JaxCosmo
