import Verif.Props.GrowthEquation
import Verif.Props.DistanceRate

/-! # C74: structure never grows faster than in an Einstein–de Sitter universe -/

namespace JaxCosmo
open Spec

/-- The intermediate slopes of one RK4 step of `D'' = -A D' + B D` are positive. -/
theorem rk4_growth_slopes {A1 A2 B1 B2 D u h D2 u2 D3 u3 u4 : ℝ} (hh : 0 < h)
    (hD : 0 < D) (hu : 0 < u) (hA1 : 0 ≤ h * A1 ∧ h * A1 ≤ 1 / 5)
    (hA2 : 0 ≤ h * A2 ∧ h * A2 ≤ 1 / 5) (hB1 : 0 ≤ B1)
    (hB12 : B1 / 10 ≤ B2) (hB2 : h * (h * B2) ≤ 1) (hD2 : D2 = D + h / 2 * u)
    (hu2 : u2 = u + h / 2 * (-A1 * u + B1 * D)) (hD3 : D3 = D + h / 2 * u2)
    (hu3 : u3 = u + h / 2 * (-A2 * u2 + B2 * D2))
    (hu4 : u4 = u + h * (-A2 * u3 + B2 * D3)) : 0 ≤ u2 ∧ 0 ≤ u3 ∧ 0 ≤ u4 := by
  have hB2' : 0 ≤ B2 := by linarith
  have hD2p : D < D2 := by rw [hD2]; have := mul_pos hh hu; linarith
  have a1 : 0 ≤ h * A1 * u := mul_nonneg hA1.1 hu.le
  have a2 : h * A1 * u ≤ 1 / 5 * u := mul_le_mul_of_nonneg_right hA1.2 hu.le
  have h1 : 0 ≤ h * (B1 * D) := by positivity
  have hu2e : u2 = u - (h * A1 * u) / 2 + h * (B1 * D) / 2 := by rw [hu2]; ring
  have hu2l : 9 / 10 * u ≤ u2 := by linarith
  have hu2u : u2 ≤ u + h * (B1 * D) / 2 := by linarith
  have hu2p : 0 < u2 := by linarith
  have hD3p : D < D3 := by rw [hD3]; have := mul_pos hh hu2p; linarith
  have hu3e : u3 = u - (h * A2 * u2) / 2 + h * (B2 * D2) / 2 := by rw [hu3]; ring
  have a3 : 0 ≤ h * A2 * u2 := mul_nonneg hA2.1 hu2p.le
  have a4 : h * A2 * u2 ≤ 1 / 5 * u2 := mul_le_mul_of_nonneg_right hA2.2 hu2p.le
  have hBD : h * (B1 * D / 10) ≤ h * (B2 * D2) := by
    apply mul_le_mul_of_nonneg_left _ hh.le
    calc B1 * D / 10 = B1 / 10 * D := by ring
      _ ≤ B2 * D2 := mul_le_mul hB12 hD2p.le hD.le hB2'
  have hu3l : 9 / 10 * u ≤ u3 := by linarith
  have hu3u : u3 ≤ u + h * (B2 * D2) / 2 := by linarith
  have hu3p : 0 < u3 := by linarith
  have hu4e : u4 = u - (h * A2 * u3) + h * (B2 * D3) := by rw [hu4]; ring
  have a6 : h * A2 * u3 ≤ 1 / 5 * u3 := mul_le_mul_of_nonneg_right hA2.2 hu3p.le
  have h2 : h * (B2 * D) ≤ h * (B2 * D3) := by gcongr
  have h3 : h * (B2 * D2) = h * (B2 * D) + h * (h * B2) * u / 2 := by rw [hD2]; ring
  have h4 : h * (h * B2) * u ≤ 1 * u := mul_le_mul_of_nonneg_right hB2 hu.le
  have h5 : 0 ≤ h * (B2 * D) := by positivity
  exact ⟨hu2p.le, hu3p.le, by linarith⟩

theorem scaled_le {M X Y : ℝ} (hM : 0 ≤ M ∧ M ≤ 3 / 2) (h : X ≤ Y) (hY : 0 ≤ Y) :
    M * X ≤ 3 / 2 * Y :=
  (mul_le_mul_of_nonneg_left h hM.1).trans (mul_le_mul_of_nonneg_right hM.2 hY)

/-- The same step in the variable `U = D/x - D'` (zero for `D ∝ x`), scaled by `x`: bounds on the
stage slopes. -/
theorem rk4_cone_stages {ρ α β U b1 b2 b3 b4 M1 M2 M3 n1 n2 n3 n4 U2 U3 U4 : ℝ} (hρ : 0 ≤ ρ)
    (hρ1 : ρ ≤ 1 / 15) (hα0 : 9 / 10 ≤ α) (hα1 : α ≤ 1) (hβ0 : 0 ≤ β) (hβ1 : β ≤ 1) (hU : 0 ≤ U)
    (hb1 : 0 ≤ b1) (hb2 : 0 ≤ b2) (hb3 : 0 ≤ b3) (hb4 : 0 ≤ b4) (hM1 : 0 ≤ M1 ∧ M1 ≤ 3 / 2)
    (hM2 : 0 ≤ M2 ∧ M2 ≤ 3 / 2) (hM3 : 0 ≤ M3 ∧ M3 ≤ 3 / 2) (hn1 : n1 = -b1 + M1 * U)
    (hn2 : n2 = -b2 + M2 * U2) (hn3 : n3 = -b3 + M2 * U3) (hn4 : n4 = -b4 + M3 * U4)
    (hU2 : U2 = α * U - ρ / 2 * n1) (hU3 : U3 = α * U + ρ ^ 2 * α / 4 * n1 - ρ * α / 2 * n2)
    (hU4 : U4 = β * U + ρ ^ 2 * α * β / 2 * n2 - ρ * α * n3) :
    n1 ≤ 3 / 2 * U - b1 ∧ n2 ≤ 3 / 2 * U + b1 / 20 - b2 ∧ n3 ≤ 8 / 5 * U + b2 / 20 - b3 ∧
      n4 ≤ 2 * U + b1 / 50 + b3 / 10 := by
  have hα : 0 ≤ α := by linarith only [hα0]
  have m1 : 0 ≤ M1 * U := mul_nonneg hM1.1 hU
  have m1' : M1 * U ≤ 3 / 2 * U := mul_le_mul_of_nonneg_right hM1.2 hU
  have n1u : n1 ≤ 3 / 2 * U - b1 := by linarith only [hn1, m1']
  have rb1 : ρ * b1 ≤ 1 / 15 * b1 := mul_le_mul_of_nonneg_right hρ1 hb1
  have rb1' : 0 ≤ ρ * b1 := mul_nonneg hρ hb1
  have aU : 9 / 10 * U ≤ α * U := mul_le_mul_of_nonneg_right hα0 hU
  have aU' : α * U ≤ U := mul_le_of_le_one_left hU hα1
  have bU : β * U ≤ U := mul_le_of_le_one_left hU hβ1
  have rm1 : 0 ≤ ρ * (M1 * U) := mul_nonneg hρ m1
  have rm1' : ρ * (M1 * U) ≤ 1 / 15 * (M1 * U) := mul_le_mul_of_nonneg_right hρ1 m1
  have e1 : U2 = α * U + ρ * b1 / 2 - ρ * (M1 * U) / 2 := by rw [hU2, hn1]; ring
  have U2l : 0 ≤ U2 := by linarith only [e1, aU, rb1', rm1', m1', hU]
  have U2u : U2 ≤ U + b1 / 30 := by linarith only [e1, aU', rb1, rm1]
  have m2 : 0 ≤ M2 * U2 := mul_nonneg hM2.1 U2l
  have m2' : M2 * U2 ≤ 3 / 2 * (U + b1 / 30) :=
    scaled_le hM2 U2u (by positivity)
  have n2u : n2 ≤ 3 / 2 * U + b1 / 20 - b2 := by linarith only [hn2, m2']
  have ra : 0 ≤ ρ * α := mul_nonneg hρ hα
  have ra' : ρ * α ≤ 1 / 15 := (mul_le_of_le_one_right hρ hα1).trans hρ1
  have e2 : U3 = α * U + ρ ^ 2 * α / 4 * n1 + ρ * α * b2 / 2 - ρ * α * (M2 * U2) / 2 := by
    rw [hU3, hn2]; ring
  have c0 : 0 ≤ ρ ^ 2 * α / 4 := by positivity
  have c1 : ρ ^ 2 * α / 4 ≤ 1 / 900 := by
    have e : ρ ^ 2 ≤ (1 / 15) ^ 2 := pow_le_pow_left₀ hρ hρ1 2
    have h2 : ρ ^ 2 * α ≤ ρ ^ 2 := mul_le_of_le_one_right (by positivity) hα1
    norm_num at e
    linarith only [e, h2]
  have f1 : ρ ^ 2 * α / 4 * n1 ≤ 1 / 900 * (3 / 2 * U) :=
    (mul_le_mul_of_nonneg_left (by linarith only [n1u, hb1]) c0).trans
      (mul_le_mul_of_nonneg_right c1 (by positivity))
  have f2 : ρ ^ 2 * α / 4 * (-n1) ≤ 1 / 900 * b1 :=
    (mul_le_mul_of_nonneg_left (by linarith only [hn1, m1]) c0).trans
      (mul_le_mul_of_nonneg_right c1 hb1)
  have rab2 : 0 ≤ ρ * α * b2 := mul_nonneg ra hb2
  have rab2' : ρ * α * b2 ≤ 1 / 15 * b2 := mul_le_mul_of_nonneg_right ra' hb2
  have rm2 : 0 ≤ ρ * α * (M2 * U2) := mul_nonneg ra m2
  have rm2' : ρ * α * (M2 * U2) ≤ 1 / 15 * (M2 * U2) := mul_le_mul_of_nonneg_right ra' m2
  have U3u : U3 ≤ 601 / 600 * U + b2 / 30 := by linarith only [e2, aU', rab2', rm2, f1]
  have U3l : -(b1 / 360) ≤ U3 := by linarith only [e2, aU, rab2, rm2', m2', hU, f2]
  have m3u : M2 * U3 ≤ 3 / 2 * (601 / 600 * U + b2 / 30) := scaled_le hM2 U3u (by positivity)
  have m3l : M2 * (-U3) ≤ 3 / 2 * (b1 / 360) :=
    scaled_le hM2 (by linarith only [U3l]) (by positivity)
  have n3u : n3 ≤ 8 / 5 * U + b2 / 20 - b3 := by linarith only [hn3, m3u, hU]
  have n3l : -n3 ≤ b3 + b1 / 240 := by linarith only [hn3, m3l]
  have k1 : ρ ^ 2 * α * β / 2 * n2 ≤ 1 / 200 * (3 / 2 * U + b1 / 20) := by
    have c0 : 0 ≤ ρ ^ 2 * α * β / 2 := by positivity
    have c1 : ρ ^ 2 * α * β / 2 ≤ 1 / 200 := by
      have e : ρ ^ 2 ≤ (1 / 15) ^ 2 := pow_le_pow_left₀ hρ hρ1 2
      have h2 : ρ ^ 2 * α ≤ ρ ^ 2 := mul_le_of_le_one_right (by positivity) hα1
      have h3 : ρ ^ 2 * α * β ≤ ρ ^ 2 * α := mul_le_of_le_one_right (by positivity) hβ1
      norm_num at e
      linarith only [e, h2, h3]
    have h0 : 0 ≤ 3 / 2 * U + b1 / 20 := by positivity
    calc ρ ^ 2 * α * β / 2 * n2 ≤ ρ ^ 2 * α * β / 2 * (3 / 2 * U + b1 / 20) :=
          mul_le_mul_of_nonneg_left (by linarith only [n2u, hb2]) c0
      _ ≤ _ := mul_le_mul_of_nonneg_right c1 h0
  have k2 : ρ * α * (-n3) ≤ 1 / 15 * (b3 + b1 / 240) :=
    (mul_le_mul_of_nonneg_left n3l ra).trans (mul_le_mul_of_nonneg_right ra' (by positivity))
  have U4u : U4 ≤ 101 / 100 * U + b1 / 100 + b3 / 15 := by
    linarith only [hU4, k1, k2, bU, hU, hb1]
  have m4 : M3 * U4 ≤ 3 / 2 * (101 / 100 * U + b1 / 100 + b3 / 15) :=
    scaled_le hM3 U4u (by positivity)
  exact ⟨n1u, n2u, n3u, by linarith only [hn4, m4, hb4, hU, hb1]⟩

/-- One RK4 step keeps `U ≥ 0`, and does not increase `D / x`. -/
theorem rk4_cone_scaled {ρ α β U b1 b2 b3 b4 M1 M2 M3 n1 n2 n3 n4 U2 U3 U4 : ℝ} (hρ : 0 ≤ ρ)
    (hρ1 : ρ ≤ 1 / 15) (hα : α * (1 + ρ / 2) = 1) (hβ : β * (1 + ρ) = 1) (hU : 0 ≤ U)
    (hb1 : 0 ≤ b1) (hb2 : 0 ≤ b2) (hb3 : 0 ≤ b3) (hb4 : 0 ≤ b4) (hM1 : 0 ≤ M1 ∧ M1 ≤ 3 / 2)
    (hM2 : 0 ≤ M2 ∧ M2 ≤ 3 / 2) (hM3 : 0 ≤ M3 ∧ M3 ≤ 3 / 2) (hn1 : n1 = -b1 + M1 * U)
    (hn2 : n2 = -b2 + M2 * U2) (hn3 : n3 = -b3 + M2 * U3) (hn4 : n4 = -b4 + M3 * U4)
    (hU2 : U2 = α * U - ρ / 2 * n1) (hU3 : U3 = α * U + ρ ^ 2 * α / 4 * n1 - ρ * α / 2 * n2)
    (hU4 : U4 = β * U + ρ ^ 2 * α * β / 2 * n2 - ρ * α * n3) :
    0 ≤ U - ρ / 6 * (n1 + 2 * n2 + 2 * n3 + n4) ∧ ρ / 6 * (n1 + α * n2 + α * n3) ≤ U := by
  have hα' : α = 1 / (1 + ρ / 2) := eq_div_of_mul_eq (by positivity) hα
  have hβ' : β = 1 / (1 + ρ) := eq_div_of_mul_eq (by positivity) hβ
  have hα1 : α ≤ 1 := by rw [hα', div_le_one (by positivity)]; linarith only [hρ]
  have hβ1 : β ≤ 1 := by rw [hβ', div_le_one (by positivity)]; linarith only [hρ]
  have hα0 : 9 / 10 ≤ α := by rw [hα', le_div_iff₀ (by positivity)]; linarith only [hρ1]
  have hβ0 : 0 ≤ β := by rw [hβ']; positivity
  obtain ⟨n1u, n2u, n3u, n4u⟩ := rk4_cone_stages hρ hρ1 hα0 hα1 hβ0 hβ1 hU hb1 hb2 hb3 hb4 hM1 hM2
    hM3 hn1 hn2 hn3 hn4 hU2 hU3 hU4
  clear hn1 hn2 hn3 hn4 hU2 hU3 hU4 hα hβ hα' hβ' hM1 hM2 hM3
  have hr : ρ * U ≤ 1 / 15 * U := mul_le_mul_of_nonneg_right hρ1 hU
  have hρ6 : 0 ≤ ρ / 6 := by positivity
  constructor
  · have hs : n1 + 2 * n2 + 2 * n3 + n4 ≤ 10 * U := by linarith only [n1u, n2u, n3u, n4u, hb1, hb2, hb3, hU]
    have := mul_le_mul_of_nonneg_left hs hρ6
    linarith only [this, hr, hU]
  · have hα2 : 0 ≤ α := by linarith only [hα0]
    have p2 : α * n2 ≤ α * (3 / 2 * U + b1 / 20 - b2) := mul_le_mul_of_nonneg_left n2u hα2
    have p3 : α * n3 ≤ α * (8 / 5 * U + b2 / 20 - b3) := mul_le_mul_of_nonneg_left n3u hα2
    have q1 : α * b1 ≤ b1 := mul_le_of_le_one_left hb1 hα1
    have q2 : 0 ≤ α * b2 := mul_nonneg hα2 hb2
    have q3 : 0 ≤ α * b3 := mul_nonneg hα2 hb3
    have q4 : α * U ≤ U := mul_le_of_le_one_left hU hα1
    have hs : n1 + α * n2 + α * n3 ≤ 10 * U := by
      linarith only [n1u, p2, p3, q1, q2, q3, q4, hb1, hU]
    have := mul_le_mul_of_nonneg_left hs hρ6
    linarith only [this, hr, hU]

/-- One RK4 step of the growth equation, stage by stage: if `x D' ≤ D` before the step, the same
holds after it, and `D / x` has not increased. -/
theorem rk4_cone_step {D v x h Q1 Q2 Q3 M1 M2 M3 D2 v2 D3 v3 D4 v4 k1 k2 k3 k4 : ℝ} (hx : 0 < x)
    (hh : 0 < h) (hr : h ≤ x / 15) (hv : 0 ≤ v) (hv2 : 0 ≤ v2) (hv3 : 0 ≤ v3) (hv4 : 0 ≤ v4)
    (hM1 : 0 ≤ M1 ∧ M1 ≤ 3 / 2) (hM2 : 0 ≤ M2 ∧ M2 ≤ 3 / 2) (hM3 : 0 ≤ M3 ∧ M3 ≤ 3 / 2)
    (hQ1 : M1 ≤ Q1) (hQ2 : M2 ≤ Q2) (hQ3 : M3 ≤ Q3) (hU : x * v ≤ D)
    (hk1 : k1 = -(Q1 / x) * v + M1 / x / x * D) (hD2 : D2 = D + h / 2 * v)
    (hv2' : v2 = v + h / 2 * k1)
    (hk2 : k2 = -(Q2 / (x + h / 2)) * v2 + M2 / (x + h / 2) / (x + h / 2) * D2)
    (hD3 : D3 = D + h / 2 * v2) (hv3' : v3 = v + h / 2 * k2)
    (hk3 : k3 = -(Q2 / (x + h / 2)) * v3 + M2 / (x + h / 2) / (x + h / 2) * D3)
    (hD4 : D4 = D + h * v3) (hv4' : v4 = v + h * k3)
    (hk4 : k4 = -(Q3 / (x + h)) * v4 + M3 / (x + h) / (x + h) * D4) :
    (x + h) * (v + h / 6 * (k1 + 2 * k2 + 2 * k3 + k4)) ≤
        D + h / 6 * (v + 2 * v2 + 2 * v3 + v4) ∧
      (D + h / 6 * (v + 2 * v2 + 2 * v3 + v4)) * x ≤ D * (x + h) := by
  have hz2 : 0 < x + h / 2 := by linarith
  have hz3 : 0 < x + h := by linarith
  have hxn := hx.ne'
  have hz2n := hz2.ne'
  have hz3n := hz3.ne'
  obtain ⟨r1, r2⟩ := rk4_cone_scaled (ρ := h / x) (α := x / (x + h / 2)) (β := x / (x + h))
    (U := D / x - v) (b1 := (Q1 - M1) * v) (b2 := (Q2 - M2) * v2) (b3 := (Q2 - M2) * v3)
    (b4 := (Q3 - M3) * v4) (M1 := M1) (M2 := M2) (M3 := M3) (n1 := x * k1)
    (n2 := (x + h / 2) * k2) (n3 := (x + h / 2) * k3) (n4 := (x + h) * k4)
    (U2 := D2 / (x + h / 2) - v2) (U3 := D3 / (x + h / 2) - v3) (U4 := D4 / (x + h) - v4)
    (by positivity) (by rw [div_le_iff₀ hx]; linarith) (by field_simp) (by field_simp)
    (by rw [sub_nonneg, le_div_iff₀ hx]; linarith) (mul_nonneg (by linarith) hv)
    (mul_nonneg (by linarith) hv2) (mul_nonneg (by linarith) hv3) (mul_nonneg (by linarith) hv4)
    hM1 hM2 hM3 (by rw [hk1]; field_simp; ring) (by rw [hk2]; field_simp; ring)
    (by rw [hk3]; field_simp; ring) (by rw [hk4]; field_simp; ring)
    (by rw [hD2, hv2']; field_simp; ring) (by rw [hD3, hv3', hv2']; field_simp; ring)
    (by rw [hD4, hv4', hv3']; field_simp; ring)
  clear hk1 hk2 hk3 hk4
  constructor
  · have := mul_nonneg hx.le r1
    have e : x * (D / x - v - h / x / 6 * (x * k1 + 2 * ((x + h / 2) * k2) +
        2 * ((x + h / 2) * k3) + (x + h) * k4)) = D + h / 6 * (v + 2 * v2 + 2 * v3 + v4)
        - (x + h) * (v + h / 6 * (k1 + 2 * k2 + 2 * k3 + k4)) := by
      rw [hv4', hv3', hv2']; field_simp; ring
    linarith
  · have := mul_le_mul_of_nonneg_left r2 (mul_nonneg hh.le hx.le)
    have e : h * x * (h / x / 6 * (x * k1 + x / (x + h / 2) * ((x + h / 2) * k2) +
        x / (x + h / 2) * ((x + h / 2) * k3))) =
        (D + h / 6 * (v + 2 * v2 + 2 * v3 + v4)) * x - D * x - h * x * v := by
      rw [hv4', hv3', hv2']; field_simp; ring
    have e' : h * x * (D / x - v) = h * D - h * x * v := by field_simp
    linarith

/-- The friction coefficient exceeds the source coefficient: nothing present dilutes faster than
`w = 1`. -/
theorem growthQ_ge {p : Params} (h : Physical p) {x : ℝ} (hx : 0 < x) (hx1 : x ≤ 1) :
    (0 ≤ 3 / 2 * Omega_m_a p x ∧ 3 / 2 * Omega_m_a p x ≤ 3 / 2) ∧
      3 / 2 * Omega_m_a p x ≤ growthQ p x := by
  have hE := (h.esqrPos x hx hx1).ne'
  obtain ⟨⟨m0, m1⟩, ⟨d0, d1⟩, ⟨k0, k1⟩⟩ :=
    C03_fractions_range p x hx hE h.m_pos.le h.k_nonneg h.de_nonneg
  have hs := C03_fractions_sum p x hE
  obtain ⟨w0, w1⟩ := h.w_range x hx hx1
  refine ⟨⟨by linarith, by linarith⟩, ?_⟩
  have := mul_le_mul_of_nonneg_right w1 d0
  unfold growthQ
  linarith

theorem rk4_cone {fn : ℝ × ℝ → ℝ → ℝ × ℝ} {Q M : ℝ → ℝ}
    (hfn : ∀ y x, fn y x = (y.2, -(Q x / x) * y.2 + M x / x / x * y.1)) {y : ℝ × ℝ} {x h : ℝ}
    (hx : 0 < x) (hh : 0 < h) (hr : h ≤ x / 15) (hD : 0 < y.1) (hu : 0 < y.2)
    (hU : x * y.2 ≤ y.1)
    (hA1 : 0 ≤ h * (Q x / x) ∧ h * (Q x / x) ≤ 1 / 5)
    (hA2 : 0 ≤ h * (Q (x + h / 2) / (x + h / 2)) ∧ h * (Q (x + h / 2) / (x + h / 2)) ≤ 1 / 5)
    (hB12 : M x / x / x / 10 ≤ M (x + h / 2) / (x + h / 2) / (x + h / 2))
    (hB2 : h * (h * (M (x + h / 2) / (x + h / 2) / (x + h / 2))) ≤ 1)
    (hM1 : (0 ≤ M x ∧ M x ≤ 3 / 2) ∧ M x ≤ Q x)
    (hM2 : (0 ≤ M (x + h / 2) ∧ M (x + h / 2) ≤ 3 / 2) ∧ M (x + h / 2) ≤ Q (x + h / 2))
    (hM3 : (0 ≤ M (x + h) ∧ M (x + h) ≤ 3 / 2) ∧ M (x + h) ≤ Q (x + h)) :
    (x + h) * (rk4Step fn y x h).2 ≤ (rk4Step fn y x h).1 ∧
      (rk4Step fn y x h).1 * x ≤ y.1 * (x + h) := by
  obtain ⟨D, v⟩ := y
  simp only at hD hu hU
  have hm : x + 1 / 2 * h = x + h / 2 := by ring
  have hm' : ∀ k : ℝ, h * (1 / 2 * k) = h / 2 * k := fun k => by ring
  simp only [rk4Step, hfn, Prod.smul_mk, Prod.mk_add_mk, smul_eq_mul, hm, hm']
  have hz2 : 0 < x + h / 2 := by linarith
  obtain ⟨s2, s3, s4⟩ := rk4_growth_slopes hh hD hu hA1 hA2
    (div_nonneg (div_nonneg hM1.1.1 hx.le) hx.le) hB12 hB2 rfl rfl rfl rfl rfl
  obtain ⟨r1, r2⟩ := rk4_cone_step hx hh hr hu.le s2 s3 s4 hM1.1 hM2.1 hM3.1 hM1.2 hM2.2 hM3.2 hU
    rfl rfl rfl rfl rfl rfl rfl rfl rfl rfl
  clear s2 s3 s4 hA1 hA2 hB12 hB2 hfn
  generalize Q x / x = A1 at *
  generalize Q (x + h / 2) / (x + h / 2) = A2 at *
  generalize Q (x + h) / (x + h) = A3 at *
  generalize M x / x / x = B1 at *
  generalize M (x + h / 2) / (x + h / 2) / (x + h / 2) = B2 at *
  generalize M (x + h) / (x + h) / (x + h) = B3 at *
  constructor
  · refine le_of_eq_of_le ?_ (le_of_le_of_eq r1 ?_) <;> ring
  · refine le_of_eq_of_le ?_ r2
    ring

/-- One step of the growth integration keeps the growth rate at most 1 and does not increase
`D / a`. -/
theorem growth_step_cone {p : Params} (h : Physical p) {y : ℝ × ℝ} {x x' : ℝ} (hx : 0 < x)
    (hxx : x < x') (hx1 : x' ≤ 1) (hr : x' ≤ 16 / 15 * x) (hD : 0 < y.1) (hu : 0 < y.2)
    (hU : x * y.2 ≤ y.1) :
    x' * (rk4Step (growthDerivs p) y x (x' - x)).2 ≤ (rk4Step (growthDerivs p) y x (x' - x)).1 ∧
      (rk4Step (growthDerivs p) y x (x' - x)).1 * x ≤ y.1 * x' := by
  obtain ⟨hA, -, h1, h2⟩ := growth_step_coeffs h hx hxx hx1 hr
  have hm' : (x + x') / 2 = x + (x' - x) / 2 := by ring
  rw [hm'] at h1 h2
  have he : x + (x' - x) = x' := by ring
  have := rk4_cone (fn := growthDerivs p) (Q := growthQ p) (M := fun z => 3 / 2 * Omega_m_a p z)
    (fun _ _ => rfl) hx (by linarith : 0 < x' - x) (by linarith) hD hu hU
    (hA x le_rfl hxx.le) (hA _ (by linarith) (by linarith)) h1 h2
    (growthQ_ge h hx (by linarith)) (growthQ_ge h (by linarith) (by linarith))
    (growthQ_ge h (by linarith) (by linarith))
  rwa [he] at this

/-- On the whole grid the growth rate is at most 1 and `D / a` does not increase. -/
theorem growth_table_cone {p : Params} (h : Physical p) {lo : ℝ} (hlo : lo < 0) {n : ℕ}
    (hn : 2 ≤ n) (hr : (10 : ℝ) ^ (-lo / ((n : ℝ) - 1)) ≤ 16 / 15) (i : ℕ) (hi : i < n) :
    logspace lo 0 n i * (odeint (growthDerivs p) (logspace lo 0 n 0, 1) (logspace lo 0 n) i).2
      ≤ (odeint (growthDerivs p) (logspace lo 0 n 0, 1) (logspace lo 0 n) i).1 ∧
    (i + 1 < n →
      (odeint (growthDerivs p) (logspace lo 0 n 0, 1) (logspace lo 0 n) (i + 1)).1 *
        logspace lo 0 n i ≤
      (odeint (growthDerivs p) (logspace lo 0 n 0, 1) (logspace lo 0 n) i).1 *
        logspace lo 0 n (i + 1)) := by
  have hx1 : ∀ i < n, logspace lo 0 n i ≤ 1 := fun i hi => by
    rw [← logspace_end lo hn]; exact (logspace_strictMono hlo hn).monotone (by omega)
  have step : ∀ i, i + 1 < n →
      logspace lo 0 n i * (odeint (growthDerivs p) (logspace lo 0 n 0, 1) (logspace lo 0 n) i).2
        ≤ (odeint (growthDerivs p) (logspace lo 0 n 0, 1) (logspace lo 0 n) i).1 → _ :=
    fun i hi hU => growth_step_cone h (logspace_pos lo 0 n i)
      (logspace_strictMono hlo hn (Nat.lt_succ_self i)) (hx1 _ hi)
      (by rw [logspace_ratio, mul_comm]
          exact mul_le_mul_of_nonneg_right hr (logspace_pos _ _ _ _).le)
      (growth_table_pos h hlo hn hr i (by omega)).1 (growth_table_pos h hlo hn hr i (by omega)).2.1
      hU
  have key : ∀ i < n,
      logspace lo 0 n i * (odeint (growthDerivs p) (logspace lo 0 n 0, 1) (logspace lo 0 n) i).2
        ≤ (odeint (growthDerivs p) (logspace lo 0 n 0, 1) (logspace lo 0 n) i).1 := by
    intro i
    induction i with
    | zero => intro _; rw [C26_first, mul_one]
    | succ i ih => intro hi; rw [C26_step]; exact (step i hi (ih (by omega))).1
  refine ⟨key i hi, fun hi1 => ?_⟩
  rw [C26_step]
  exact (step i hi1 (key i hi)).2

/-- A chord above the origin: `chord x / x` does not increase. -/
theorem chord_ratio_anti {xp fp : ℕ → ℝ} {j : ℕ} (hx : xp j < xp (j + 1))
    (hf : fp (j + 1) * xp j ≤ fp j * xp (j + 1)) {x y : ℝ} (hxy : x ≤ y) :
    chord xp fp j y * x ≤ chord xp fp j x * y := by
  have hd := sub_pos.mpr hx
  have e : chord xp fp j x * y - chord xp fp j y * x
      = (fp j * xp (j + 1) - fp (j + 1) * xp j) * (y - x) / (xp (j + 1) - xp j) := by
    unfold chord; field_simp; ring
  have : 0 ≤ (fp j * xp (j + 1) - fp (j + 1) * xp j) * (y - x) / (xp (j + 1) - xp j) :=
    div_nonneg (mul_nonneg (by linarith) (by linarith)) hd.le
  linarith

/-- On a table of positive abscissae whose ratios `fp / xp` do not increase, `interp x / x` does not
increase. -/
theorem interp_ratio_anti {n : ℕ} (hn : 3 ≤ n) {xp fp : ℕ → ℝ} (hx : Increasing n xp)
    (hpos : ∀ i < n, 0 < xp i)
    (hf : ∀ i, i + 1 < n → fp (i + 1) * xp i ≤ fp i * xp (i + 1)) {x y : ℝ} (h0 : 0 < x)
    (hxy : x ≤ y) : interp n xp fp y / y ≤ interp n xp fp x / x := by
  have hy0 := h0.trans_le hxy
  have hfle : ∀ i j, i ≤ j → j < n → fp j / xp j ≤ fp i / xp i := by
    intro i j hij
    induction j, hij using Nat.le_induction with
    | base => intro _; exact le_rfl
    | succ j _ ih =>
      intro hj
      refine le_trans ?_ (ih (by omega))
      rw [div_le_div_iff₀ (hpos _ hj) (hpos _ (by omega))]
      exact hf j hj
  have hch : ∀ j, j + 1 < n → ∀ {x y : ℝ}, 0 < x → x ≤ y →
      chord xp fp j y / y ≤ chord xp fp j x / x := by
    intro j hj x y h0 hxy
    rw [div_le_div_iff₀ (h0.trans_le hxy) h0]
    exact chord_ratio_anti (hx j (j + 1) (by omega) hj) (hf j hj) hxy
  obtain ⟨j, a1, a2, a3, a4⟩ := exists_seg hn xp x
  obtain ⟨k, b1, b2, b3, b4⟩ := exists_seg hn xp y
  rw [interp_inc_seg hn hx fp a1 a2 a3 a4, interp_inc_seg hn hx fp b1 b2 b3 b4]
  have hxj := hx j (j + 1) (by omega) a2
  have hxk := hx k (k + 1) (by omega) b2
  rcases lt_trichotomy j k with hjk | rfl | hjk
  · have hxr : x ≤ xp (j + 1) := by rcases a4 with e | e; · omega
                                    · exact e
    have hyl : xp k ≤ y := by rcases b3 with e | e; · omega
                              · exact e
    calc chord xp fp k y / y ≤ chord xp fp k (xp k) / xp k := hch k b2 (hpos k (by omega)) hyl
      _ = fp k / xp k := by rw [chord_left]
      _ ≤ fp (j + 1) / xp (j + 1) := hfle _ _ hjk (by omega)
      _ = chord xp fp j (xp (j + 1)) / xp (j + 1) := by rw [chord_right xp fp j hxj.ne]
      _ ≤ chord xp fp j x / x := hch j a2 h0 hxr
  · exact hch j a2 h0 hxy
  · have hyr : y ≤ xp (k + 1) := by rcases b4 with e | e; · omega
                                    · exact e
    have hxl : xp j ≤ x := by rcases a3 with e | e; · omega
                              · exact e
    have hkj : xp (k + 1) ≤ xp j := hx.le (by omega) (by omega)
    have e1 : x = xp j := le_antisymm (by linarith) hxl
    have e2 : y = xp (k + 1) := le_antisymm hyr (by linarith)
    have : xp j = xp (k + 1) := le_antisymm (by linarith) hkj
    have hjk' : j = k + 1 := by
      by_contra hne
      exact absurd this.symm (hx (k + 1) j (by omega) (by omega)).ne
    rw [e1, e2, chord_left, chord_right xp fp k hxk.ne, hjk']

/-- C74: for every physical cosmology solved with the growth equation, `D(a) / a` never increases:
structure grows no faster than in an Einstein–de Sitter universe. -/
theorem C74_ratio (p : Params) (h : Physical p) (hg : p.gamma = none) :
    AntitoneOn (fun a => growthOf p a / a) (Set.Ioc 0 1) := by
  have ht : growthTable p = growthTableODE p (-3) 128 := by simp [growthTable, hg]
  have hpos := growth_table_pos h (lo := -3) (n := 128) (by norm_num) (by norm_num) default_ratio
  have hcone := growth_table_cone h (lo := -3) (n := 128) (by norm_num) (by norm_num) default_ratio
  set G := (growthTableODE p (-3) 128).g with hG
  have hGd : ∀ i, G i =
      (odeint (growthDerivs p) (logspace (-3) 0 128 0, 1) (logspace (-3) 0 128) i).1 /
      (odeint (growthDerivs p) (logspace (-3) 0 128 0, 1) (logspace (-3) 0 128) 127).1 :=
    fun i => rfl
  have hlast := (hpos 127 (by norm_num)).1
  have hinc := logspace_increasing (lo := -3) (by norm_num) (by norm_num : 2 ≤ 128)
  have hr : ∀ {x y : ℝ}, 0 < x → x ≤ y → interp 128 (logspace (-3) 0 128) G y / y ≤
      interp 128 (logspace (-3) 0 128) G x / x :=
    interp_ratio_anti (by norm_num) hinc (fun i _ => logspace_pos _ _ _ _) (fun i hi => by
      rw [hGd, hGd, div_mul_eq_mul_div, div_mul_eq_mul_div]
      exact div_le_div_of_nonneg_right ((hcone i (by omega)).2 hi) hlast.le)
  have hm : Monotone (interp 128 (logspace (-3) 0 128) G) :=
    C21_mono (by norm_num) hinc (fun i hi => by
      rw [hGd, hGd]
      exact div_le_div_of_nonneg_right ((hpos i (by omega)).2.2 hi).le hlast.le)
  have h1 : interp 128 (logspace (-3) 0 128) G 1 = 1 := by
    conv_lhs => rw [← logspace_end (-3) (by norm_num : 2 ≤ 128)]
    rw [C19_nodes_partial hinc _ (by omega) (by omega)]
    exact growthTableODE_last hlast.ne'
  have heq : ∀ a, 0 < a → a ≤ 1 → growthOf p a = interp 128 (logspace (-3) 0 128) G a := by
    intro a ha ha1
    have hge := hr ha ha1
    rw [h1, div_one, le_div_iff₀ ha, one_mul] at hge
    have hle := hm ha1
    rw [h1] at hle
    have : growthOf p a = min (max (interp 128 (logspace (-3) 0 128) G a) 0) 1 := by
      rw [growthOf, ht]; rfl
    rw [this, max_eq_left (by linarith), min_eq_left hle]
  intro a ha b hb hab
  simp only
  rw [heq a ha.1 ha.2, heq b hb.1 hb.2]
  exact hr ha.1 hab

/-- C74: the growth factor is never below the Einstein–de Sitter one normalised today. -/
theorem C74_growth (p : Params) (h : Physical p) (hg : p.gamma = none) {a : ℝ} (h0 : 0 ≤ a)
    (h1 : a ≤ 1) : a ≤ growthOf p a := by
  rcases h0.eq_or_lt with rfl | h0
  · exact (C10_range p 0).1
  have := C74_ratio p h hg ⟨h0, h1⟩ ⟨one_pos, le_rfl⟩ h1
  simp only [C10_one p h, div_one] at this
  rwa [le_div_iff₀ h0, one_mul] at this

/-- C74: from `z = 899` to today the growth rate is positive and at most 1. -/
theorem C74_rate (p : Params) (h : Physical p) (hg : p.gamma = none) {a : ℝ} (h0 : 1 / 900 ≤ a)
    (h1 : a ≤ 1) : 0 < growthRateOf p a ∧ growthRateOf p a ≤ 1 := by
  have hpos := growth_table_pos h (lo := -3) (n := 128) (by norm_num) (by norm_num) default_ratio
  have hcone := growth_table_cone h (lo := -3) (n := 128) (by norm_num) (by norm_num) default_ratio
  have hlast := (hpos 127 (by norm_num)).1
  have hinc := logspace_increasing (lo := -3) (by norm_num) (by norm_num : 2 ≤ 128)
  have : growthRateOf p a = interp 128 (logspace (-3) 0 128)
      (fun i => (odeint (growthDerivs p) (logspace (-3) 0 128 0, 1) (logspace (-3) 0 128) i).2 /
        (odeint (growthDerivs p) (logspace (-3) 0 128 0, 1) (logspace (-3) 0 128) 127).1
        * logspace (-3) 0 128 i /
        ((odeint (growthDerivs p) (logspace (-3) 0 128 0, 1) (logspace (-3) 0 128) i).1 /
        (odeint (growthDerivs p) (logspace (-3) 0 128 0, 1) (logspace (-3) 0 128) 127).1)) a := by
    simp [growthRateOf, hg, growthTableODE, ix_last]
  rw [this]
  set F : ℕ → ℝ := fun i =>
    (odeint (growthDerivs p) (logspace (-3) 0 128 0, 1) (logspace (-3) 0 128) i).2 /
        (odeint (growthDerivs p) (logspace (-3) 0 128 0, 1) (logspace (-3) 0 128) 127).1
        * logspace (-3) 0 128 i /
        ((odeint (growthDerivs p) (logspace (-3) 0 128 0, 1) (logspace (-3) 0 128) i).1 /
        (odeint (growthDerivs p) (logspace (-3) 0 128 0, 1) (logspace (-3) 0 128) 127).1) with hF
  have hFr : ∀ i < 128, 0 < F i ∧ F i ≤ 1 := by
    intro i hi
    have e : F i = logspace (-3) 0 128 i *
        (odeint (growthDerivs p) (logspace (-3) 0 128 0, 1) (logspace (-3) 0 128) i).2 /
        (odeint (growthDerivs p) (logspace (-3) 0 128 0, 1) (logspace (-3) 0 128) i).1 := by
      have := (hpos i hi).1
      simp only [hF]
      field_simp
    rw [e]
    refine ⟨div_pos (mul_pos (logspace_pos _ _ _ _) (hpos i hi).2.1) (hpos i hi).1, ?_⟩
    exact (div_le_one (hpos i hi).1).2 (hcone i hi).1
  have hnode : logspace (-3) 0 128 1 ≤ a := by
    refine le_trans ?_ h0
    have hr := logspace_ratio (-3) 128 0
    rw [zero_add] at hr
    rw [hr, show logspace (-3) 0 128 0 = 1 / 1000 by norm_num [logspace, linspace]]
    have := default_ratio
    linarith
  obtain ⟨j, hj, hlt, hl, hu, he⟩ := linInterp_seg hinc (C19_partial (by norm_num) hinc F
    (by simpa using hnode)
    (by rw [logspace_end (-3) (by norm_num : 2 ≤ 128)]; exact h1))
  rw [he]
  obtain ⟨a0, a1⟩ := hFr j (by omega)
  obtain ⟨b0, b1⟩ := hFr (j + 1) hj
  have hd := sub_pos.mpr hlt
  have t0 : 0 ≤ (a - logspace (-3) 0 128 j) / (logspace (-3) 0 128 (j + 1) - logspace (-3) 0 128 j) :=
    div_nonneg (by linarith) hd.le
  have t1 : (a - logspace (-3) 0 128 j) / (logspace (-3) 0 128 (j + 1) - logspace (-3) 0 128 j) ≤ 1 :=
    (div_le_one hd).2 (by linarith)
  unfold chord
  generalize (a - logspace (-3) 0 128 j) / (logspace (-3) 0 128 (j + 1) - logspace (-3) 0 128 j) = t
    at t0 t1
  generalize F j = u at *
  generalize F (j + 1) = v at *
  have e : u + (v - u) * t = (1 - t) * u + t * v := by ring
  rw [e]
  constructor
  · rcases t1.eq_or_lt with rfl | ht
    · linarith
    · have := mul_pos (sub_pos.mpr ht) a0
      have := mul_nonneg t0 b0.le
      linarith
  · have := mul_le_mul_of_nonneg_left a1 (sub_nonneg.mpr t1)
    have := mul_le_mul_of_nonneg_left b1 t0
    linarith

/-- The bounds at half the present size of the universe, for the Planck 2015 parameters. -/
example : 0.5 ≤ growthOf Planck15 0.5 ∧ growthOf Planck15 0.5 / 0.5 ≤ growthOf Planck15 0.25 / 0.25 ∧
    growthRateOf Planck15 0.5 ≤ 1 :=
  ⟨C74_growth _ planck_physical rfl (by norm_num) (by norm_num),
    C74_ratio _ planck_physical rfl ⟨by norm_num, by norm_num⟩ ⟨by norm_num, by norm_num⟩
      (by norm_num),
    (C74_rate _ planck_physical rfl (by norm_num) (by norm_num)).2⟩

end JaxCosmo
