import Verif.Model.Numpy

/-! # Model of `jax_cosmo/scipy/ode.py` -/

namespace JaxCosmo
variable {K Y : Type*} [Field K] [AddCommGroup Y] [Module K Y]

/-- `scipy/ode.py:11-19` `rk4`: carry `(y, t_prev)`, item `t`. -/
def rk4 (fn : Y → K → Y) (carry : Y × K) (t : K) : (Y × K) × Y :=
  let y := carry.1
  let t_prev := carry.2
  let h := t - t_prev
  let k1 := fn y t_prev
  let k2 := fn (y + (h / 2) • k1) (t_prev + h / 2)
  let k3 := fn (y + (h / 2) • k2) (t_prev + h / 2)
  let k4 := fn (y + h • k3) t
  let y' := y + (1 / 6 * h) • (k1 + (2 : K) • k2 + (2 : K) • k3 + k4)
  ((y', t), y')

/-- `scipy/ode.py:6-22` `odeint`: entry `i` of the returned array. `lax.scan` runs over the whole
grid `t`, starting from `(y0, t[0])`, so the first step has length zero. -/
def odeint (fn : Y → K → Y) (y0 : Y) (t : ℕ → K) (i : ℕ) : Y :=
  scanOut (rk4 fn) (y0, t 0) t i

end JaxCosmo
