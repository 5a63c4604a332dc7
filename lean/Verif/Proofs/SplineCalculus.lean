import Verif.Proofs.SplinePieces
import Mathlib.Analysis.Calculus.Deriv.Pow
import Mathlib.Analysis.Calculus.Deriv.Mul
import Mathlib.Analysis.Calculus.ContDiff.Basic
import Mathlib.Analysis.Calculus.ContDiff.Operations
import Mathlib.Analysis.Calculus.IteratedDeriv.Defs
import Mathlib.MeasureTheory.Integral.IntervalIntegral.FundThmCalculus

/-! # Calculus of the splines built by the constructor -/

set_option linter.unusedSectionVars false

namespace JaxCosmo
open Spec

namespace Spline

section Generic
variable {K : Type*} [Field K] [LinearOrder K] [IsStrictOrderedRing K]
variable {s : Spline K} {n k : ℕ} {x y : ℕ → K} {ep : String}

/-- Antiderivative of piece `j` with the accumulated constant. -/
def PI (s : Spline K) (j : ℕ) (u : K) : K :=
  cumsum0 (fun j => (s.piece j).a * diff s.knots j + (s.piece j).b * diff s.knots j ^ 2 / 2
      + (s.piece j).c * diff s.knots j ^ 3 / 3 + (s.piece j).d * diff s.knots j ^ 4 / 4) j
    + (s.piece j).a * (u - s.knots j) + (s.piece j).b * (u - s.knots j) ^ 2 / 2
    + (s.piece j).c * (u - s.knots j) ^ 3 / 3 + (s.piece j).d * (u - s.knots j) ^ 4 / 4

theorem antiderivative_eq (h : s.Fits n x y k ep) (u : K) :
    s.antiderivative u = s.PI (pwIx s.nKnots s.knots u) u := by
  rcases h.cases with ⟨rfl, -, rfl⟩ | ⟨rfl, -, -, rfl⟩ | ⟨rfl, -, -, rfl⟩ | ⟨rfl, -, -, rfl⟩ <;>
    simp [antiderivative, PI, piece, pieceIx, pwIx]

theorem agreeI (s : Spline K) (j : ℕ) :
    s.PI j (s.knots (j + 1)) = s.PI (j + 1) (s.knots (j + 1)) := by
  simp only [PI, cumsum0, diff, sub_self]
  ring

theorem derivative_one (h : s.Fits n x y k ep) (u : K) :
    s.derivative u 1 = .ok (s.P1 (pwIx s.nKnots s.knots u) u) := by
  rcases h.cases with ⟨rfl, -, rfl⟩ | ⟨rfl, -, -, rfl⟩ | ⟨rfl, -, -, rfl⟩ | ⟨rfl, -, -, rfl⟩ <;>
    simp [derivative, P1, piece, pieceIx, pwIx]

theorem derivative_two (h : s.Fits n x y k ep) (hk : 2 ≤ k) (u : K) :
    s.derivative u 2 = .ok (s.P2 (pwIx s.nKnots s.knots u) u) := by
  rcases h.cases with ⟨rfl, -, rfl⟩ | ⟨rfl, -, -, rfl⟩ | ⟨rfl, -, -, rfl⟩ | ⟨rfl, -, -, rfl⟩
  · omega
  all_goals simp [derivative, P2, piece, pieceIx, pwIx]

theorem derivative_three (h : s.Fits n x y k ep) (hk : k = 3) (u : K) :
    s.derivative u 3 = .ok (s.P3 (pwIx s.nKnots s.knots u) u) := by
  rcases h.cases with ⟨rfl, -, rfl⟩ | ⟨rfl, -, -, rfl⟩ | ⟨rfl, -, -, rfl⟩ | ⟨rfl, -, -, rfl⟩
  · omega
  · omega
  all_goals simp [derivative, P3, piece, pieceIx, pwIx]

/-- If adjacent pieces agree in value, slope and curvature at the shared knot and have the same
cubic coefficient, they are the same polynomial. -/
theorem same_piece {s : Spline K} {j : ℕ}
    (h0 : s.P0 j (s.knots (j + 1)) = s.P0 (j + 1) (s.knots (j + 1)))
    (h1 : s.P1 j (s.knots (j + 1)) = s.P1 (j + 1) (s.knots (j + 1)))
    (h2 : s.P2 j (s.knots (j + 1)) = s.P2 (j + 1) (s.knots (j + 1)))
    (h3 : (s.piece j).d = (s.piece (j + 1)).d) (u : K) : s.P0 j u = s.P0 (j + 1) u := by
  simp only [P0, P1, P2, sub_self] at *
  rw [← h3]
  linear_combination h0 + (u - s.knots (j + 1)) * h1 + (u - s.knots (j + 1)) ^ 2 / 2 * h2

end Generic

variable {s : Spline ℝ} {n k : ℕ} {x y : ℕ → ℝ} {ep : String}

theorem hasDerivAt_P0 (s : Spline ℝ) (j : ℕ) (u : ℝ) : HasDerivAt (s.P0 j) (s.P1 j u) u := by
  have h := (hasDerivAt_id u).sub_const (s.knots j)
  have := (((h.const_mul (s.piece j).b).const_add (s.piece j).a).add
    ((h.pow 2).const_mul (s.piece j).c)).add ((h.pow 3).const_mul (s.piece j).d)
  refine (this.congr_deriv ?_)
  simp [P1]; ring

theorem hasDerivAt_P1 (s : Spline ℝ) (j : ℕ) (u : ℝ) : HasDerivAt (s.P1 j) (s.P2 j u) u := by
  have h := (hasDerivAt_id u).sub_const (s.knots j)
  have := ((h.const_mul (2 * (s.piece j).c)).const_add (s.piece j).b).add
    ((h.pow 2).const_mul (3 * (s.piece j).d))
  refine (this.congr_deriv ?_)
  simp [P2]; ring

theorem hasDerivAt_P2 (s : Spline ℝ) (j : ℕ) (u : ℝ) : HasDerivAt (s.P2 j) (s.P3 j u) u := by
  have h := (hasDerivAt_id u).sub_const (s.knots j)
  have := (h.const_mul (6 * (s.piece j).d)).const_add (2 * (s.piece j).c)
  refine (this.congr_deriv ?_)
  simp [P3]

theorem hasDerivAt_PI (s : Spline ℝ) (j : ℕ) (u : ℝ) : HasDerivAt (s.PI j) (s.P0 j u) u := by
  have h := (hasDerivAt_id u).sub_const (s.knots j)
  have := ((((h.const_mul (s.piece j).a).const_add (cumsum0 (fun j => (s.piece j).a * diff s.knots j
      + (s.piece j).b * diff s.knots j ^ 2 / 2
      + (s.piece j).c * diff s.knots j ^ 3 / 3 + (s.piece j).d * diff s.knots j ^ 4 / 4) j)).add
    (((h.pow 2).const_mul (s.piece j).b).div_const 2)).add
    (((h.pow 3).const_mul (s.piece j).c).div_const 3)).add
    (((h.pow 4).const_mul (s.piece j).d).div_const 4)
  refine (this.congr_deriv ?_)
  simp [P0]; ring

theorem call_pw (h : s.Fits n x y k ep) : s.call = pw s.nKnots s.knots s.P0 :=
  funext fun u => call_eq h u

theorem hasDerivAt_call (h : s.Fits n x y k ep) (hk : 2 ≤ k) (u : ℝ) :
    HasDerivAt s.call (pw s.nKnots s.knots s.P1 u) u := by
  rw [call_pw h]
  exact pw_hasDerivAt h.two_le h.knots_inc s.hasDerivAt_P0 (fun j hj => agree0 h hj)
    (fun j hj => agree1 h hk hj) u

theorem hasDerivAt_pw1 (h : s.Fits n x y k ep) (hk : k = 3) (u : ℝ) :
    HasDerivAt (pw s.nKnots s.knots s.P1) (pw s.nKnots s.knots s.P2 u) u :=
  pw_hasDerivAt h.two_le h.knots_inc s.hasDerivAt_P1 (fun j hj => agree1 h (by omega) hj)
    (fun j hj => agree2 h hk hj) u

theorem continuous_call (h : s.Fits n x y k ep) : Continuous s.call := by
  rw [call_pw h]
  exact pw_continuous h.two_le h.knots_inc
    (fun j => continuous_iff_continuousAt.2 fun u => (s.hasDerivAt_P0 j u).continuousAt)
    (fun j hj => agree0 h hj)

theorem continuous_pw1 (h : s.Fits n x y k ep) (hk : 2 ≤ k) :
    Continuous (pw s.nKnots s.knots s.P1) :=
  pw_continuous h.two_le h.knots_inc
    (fun j => continuous_iff_continuousAt.2 fun u => (s.hasDerivAt_P1 j u).continuousAt)
    (fun j hj => agree1 h hk hj)

theorem continuous_pw2 (h : s.Fits n x y k ep) (hk : k = 3) :
    Continuous (pw s.nKnots s.knots s.P2) :=
  pw_continuous h.two_le h.knots_inc
    (fun j => continuous_iff_continuousAt.2 fun u => (s.hasDerivAt_P2 j u).continuousAt)
    (fun j hj => agree2 h hk hj)

theorem hasDerivAt_antiderivative (h : s.Fits n x y k ep) (u : ℝ) :
    HasDerivAt s.antiderivative (s.call u) u := by
  rw [call_pw h, show s.antiderivative = pw s.nKnots s.knots s.PI from
    funext fun u => antiderivative_eq h u]
  exact pw_hasDerivAt h.two_le h.knots_inc s.hasDerivAt_PI (fun j _ => s.agreeI j)
    (fun j hj => agree0 h hj) u

theorem contDiff_one_of {f f' : ℝ → ℝ} (h : ∀ u, HasDerivAt f (f' u) u) (n : ℕ)
    (hc : ContDiff ℝ n f') : ContDiff ℝ (n + 1 : ℕ) f := by
  have e : deriv f = f' := funext fun u => (h u).deriv
  rw [Nat.cast_add, Nat.cast_one, contDiff_succ_iff_deriv]
  refine ⟨fun u => (h u).differentiableAt, fun hh => ?_, e ▸ hc⟩
  exact absurd hh (by simp)

end Spline

end JaxCosmo
