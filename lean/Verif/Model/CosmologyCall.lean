import Verif.Model.Pytree

/-!
# Calling `Cosmology`, `Planck15` and printing a cosmology

Argument binding of `core.py:14`, the `functools.partial` of `parameters.py:10-20`, `core.py:67-96` `__str__` and
`jax_utils.py:19-20` `container.__repr__`.
-/

namespace JaxCosmo

/-- A keyword-argument dictionary. -/
abbrev Kw := List (String × ℝ)

/-- Value under a key. -/
def Kw.look (kw : Kw) (key : String) : Option ℝ := (kw.find? fun e => e.1 == key).map (·.2)

/-- `core.py:14`: the parameters of `Cosmology.__init__` in order; only `gamma` has a default. -/
def cosmoNames : List String :=
  ["Omega_c", "Omega_b", "h", "n_s", "sigma8", "Omega_k", "w0", "wa", "gamma"]

/-- `core.py:14` `Cosmology(*args, **kw)`, as far as the parameters stored (`core.py:48-61`): `TypeError` for too
many positional arguments, an unexpected keyword, a parameter given twice or a missing one. -/
def callCosmology (args : List ℝ) (kw : Kw) : Except PyErr Params :=
  let pos : Kw := cosmoNames.zip args
  if args.length > cosmoNames.length then .error .typeError
  else if kw.any fun e => !cosmoNames.contains e.1 then .error .typeError
  else if kw.any fun e => pos.any fun q => q.1 == e.1 then .error .typeError
  else
    let b : Kw := pos ++ kw
    match b.look "Omega_c", b.look "Omega_b", b.look "h", b.look "n_s", b.look "sigma8", b.look "Omega_k",
      b.look "w0", b.look "wa" with
    | some Omega_c, some Omega_b, some h, some n_s, some sigma8, some Omega_k, some w0, some wa =>
      .ok { Omega_c, Omega_b, h, n_s, sigma8, Omega_k, w0, wa, gamma := b.look "gamma" }
    | _, _, _, _, _, _, _, _ => .error .typeError

/-- `{**d, **e}`: the entries of `d` updated from `e`, then the new ones. -/
def Kw.update (d e : Kw) : Kw :=
  (d.map fun x => (x.1, (e.look x.1).getD x.2)) ++ e.filter fun x => !d.any fun y => y.1 == x.1

/-- `parameters.py:12-20`: the keywords frozen into `Planck15`. -/
noncomputable def planckKw : Kw :=
  [("Omega_c", 0.2589), ("Omega_b", 0.04860), ("Omega_k", 0.0), ("h", 0.6774), ("n_s", 0.9667),
    ("sigma8", 0.8159), ("w0", -1.0), ("wa", 0.0)]

/-- `parameters.py:10-20` `Planck15(*args, **kw)`: `functools.partial` calls
`Cosmology(*args, **{**planckKw, **kw})`. -/
noncomputable def callPlanck15 (args : List ℝ) (kw : Kw) : Except PyErr Params :=
  callCosmology args (planckKw.update kw)

/-- `core.py:67-93` `__str__` as a list of characters; `str` is Python's `str` of a parameter value. -/
def Params.text (str : ℝ → List Char) (p : Params) : List Char :=
  "Cosmological parameters: \n".toList
    ++ "    h:        ".toList ++ str p.h ++ " \n".toList
    ++ "    Omega_b:  ".toList ++ str p.Omega_b ++ " \n".toList
    ++ "    Omega_c:  ".toList ++ str p.Omega_c ++ " \n".toList
    ++ "    Omega_k:  ".toList ++ str p.Omega_k ++ " \n".toList
    ++ "    w0:       ".toList ++ str p.w0 ++ " \n".toList
    ++ "    wa:       ".toList ++ str p.wa ++ " \n".toList
    ++ "    n:        ".toList ++ str p.n_s ++ " \n".toList
    ++ "    sigma8:   ".toList ++ str p.sigma8

mutual

/-- `repr` of a Python value; for objects `jax_utils.py:19-20` `container.__repr__`, which is `str(self.params)`.
`num` and `arr` are Python's `repr` of numbers and arrays. -/
def PyVal.repr (num : ℝ → String) (arr : List ℝ → String) : PyVal → String
  | .none => "None"
  | .bool b => if b then "True" else "False"
  | .num x => num x
  | .arr xs => arr xs
  | .list xs => "[" ++ ", ".intercalate (PyVal.reprAll num arr xs) ++ "]"
  | .obj _ params _ _ _ =>
    if params.length = 1 then "(" ++ ", ".intercalate (PyVal.reprAll num arr params) ++ ",)"
    else "(" ++ ", ".intercalate (PyVal.reprAll num arr params) ++ ")"

/-- `repr` of every entry. -/
def PyVal.reprAll (num : ℝ → String) (arr : List ℝ → String) : List PyVal → List String
  | [] => []
  | x :: xs => PyVal.repr num arr x :: PyVal.reprAll num arr xs

end

end JaxCosmo
