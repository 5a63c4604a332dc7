import Verif.Proofs.JvpLoops
import Verif.Props.Continuity

/-! # Differentiating `interp` on decreasing tables -/

namespace JaxCosmo.Spec.Jvp
open Xr

variable {s : ℝ}

theorem contAt {F : ℝ → ℝ} {x : Du} (h : Jvp F s x) : ContinuousAt F s := by
  obtain ⟨_, hd, -⟩ := h
  exact hd.continuousAt

/-- A decreasing table, whose entries may all depend on the parameter: exact unless the point of
evaluation is half way between two neighbouring entries. -/
theorem interp_dec {n : ℕ} (hn : 4 ≤ n) {xp fp : ℕ → ℝ → ℝ} {xpD fpD : ℕ → Du} {X : ℝ → ℝ} {x : Du}
    (hx : Jvp X s x) (hxp : ∀ i < n, Jvp (xp i) s (xpD i)) (hfp : ∀ i < n, Jvp (fp i) s (fpD i))
    (hdec : Decreasing n fun i => xp i s)
    (hm : ∀ j, j + 1 < n → X s ≠ (xp j s + xp (j + 1) s) / 2) :
    Jvp (fun r => JaxCosmo.interp n (fun i => xp i r) (fun i => fp i r) (X r)) s
      (Dm.interp n xpD fpD x) := by
  have hst := nearest_strict (by omega) hdec hm
  set k := nearest n (fun i => xp i s) (X s) with hk
  have hkn : k < n := nearest_lt n (by omega) _ _
  have hind : ∀ᶠ r in nhds s, nearest n (fun i => xp i r) (X r) = k := by
    have hev : ∀ᶠ r in nhds s, ∀ i ∈ Finset.range n, i ≠ k → |X r - xp k r| < |X r - xp i r| := by
      rw [Filter.eventually_all_finset]
      intro i hi
      by_cases hik : i = k
      · exact Filter.Eventually.of_forall fun y h => absurd hik h
      · have hi' := Finset.mem_range.1 hi
        have := (hx.contAt.sub (hxp k hkn).contAt).abs.eventually_lt
          (hx.contAt.sub (hxp i hi').contAt).abs (hst i hi' hik)
        exact this.mono fun y hy _ => hy
    refine hev.mono fun y hy => ?_
    by_contra hne
    exact absurd (nearest_min n (fun i => xp i y) (X y) k hkn)
      (not_le.2 (hy _ (Finset.mem_range.2 (nearest_lt n (by omega) _ _)) hne))
  have e1 : ix n 1 = 1 := ix_nonneg (n := n) (i := 1) (by omega)
  have e2 : ix n (-2) = n - 2 := ix_neg (n := n) (i := 2) (by omega) (by omega)
  have hclip : ∀ᶠ r in nhds s, clip (X r) (xp 1 r) (xp (n - 2) r) = xp (n - 2) r := by
    have h1 := (hxp (n - 2) (by omega)).contAt.eventually_lt (hxp 1 (by omega)).contAt
      (hdec 1 (n - 2) (by omega) (by omega))
    filter_upwards [h1] with r hr
    exact min_eq_right (le_trans hr.le (le_max_right _ _))
  refine interp (by omega) hx hxp hfp (fun i j hi hj hij => ?_) (hind.mono fun r hr => hr) ?_
  · rcases lt_or_gt_of_ne hij with h | h
    · exact (hdec i j h hj).ne'
    · exact (hdec j i h hi).ne
  · have ek : ix n (iclip (argmin n fun i => (X s - xp i s) ^ 2) 1 ((n : ℤ) - 2))
        = Min.min (Max.max k 1) (n - 2) := by
      have : iclip (argmin n fun i => (X s - xp i s) ^ 2) 1 ((n : ℤ) - 2)
          = ((Min.min (Max.max k 1) (n - 2) : ℕ) : ℤ) := by
        have hk' : argmin n (fun i => (X s - xp i s) ^ 2) = k := rfl
        rw [hk']; unfold iclip; omega
      rw [this, ix_nonneg (by omega)]
    rw [ek, e1, e2, hclip.self_of_nhds]
    generalize hq : Min.min (Max.max k 1) (n - 2) = q
    have hqn : q ≤ n - 2 := by omega
    by_cases hqe : q = n - 2
    · subst hqe
      filter_upwards [hclip] with r hr
      rw [hr, sub_self, sub_self]
    · have hlt := hdec q (n - 2) (by omega) (by omega)
      have := (hxp (n - 2) (by omega)).contAt.eventually_lt (hxp q (by omega)).contAt hlt
      filter_upwards [hclip, this] with r hr hr2
      rw [hr, sgn_copysign, sgn_copysign, if_pos (sub_neg.2 hr2), if_pos (sub_neg.2 hlt)]

end JaxCosmo.Spec.Jvp
