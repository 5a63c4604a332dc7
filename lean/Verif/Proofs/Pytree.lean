import Verif.Model.Pytree

/-! # Helper lemmas about `construct`, `unflatten` and `trip` -/

namespace JaxCosmo

theorem kwGet_cons_self (k : String) (v : PyVal) (kw : List (String × PyVal)) :
    kwGet ((k, v) :: kw) k = some v := by simp [kwGet]

theorem kwGet_cons_ne {k k' : String} (h : k' ≠ k) (v : PyVal) (kw : List (String × PyVal)) :
    kwGet ((k', v) :: kw) k = kwGet kw k := by
  simp [kwGet, List.find?_cons_of_neg, h]

/-- No key of `kw` is among `names`. -/
def Avoids (kw : List (String × PyVal)) (names : List String) : Prop := ∀ e ∈ kw, e.1 ∉ names

theorem kwRest_avoids (kw : List (String × PyVal)) (names : List String) :
    Avoids (kwRest kw names) names := by
  intro e he
  simp only [kwRest, List.mem_filter] at he
  simpa using he.2

theorem kwRest_of_avoids {kw : List (String × PyVal)} {names : List String}
    (h : Avoids kw names) : kwRest kw names = kw := by
  rw [kwRest, List.filter_eq_self]
  intro e he
  simpa using h e he

theorem filter_of_avoids {kw : List (String × PyVal)} {names : List String}
    (h : Avoids kw names) : (kw.filter fun e => names.contains e.1) = [] := by
  rw [List.filter_eq_nil_iff]
  intro e he
  simpa using h e he

theorem kwGet_of_avoids {kw : List (String × PyVal)} {names : List String}
    (h : Avoids kw names) {k : String} (hk : k ∈ names) : kwGet kw k = none := by
  simp only [kwGet, Option.map_eq_none_iff, List.find?_eq_none]
  intro e he hc
  have := h e he
  simp only [beq_iff_eq] at hc
  rw [hc] at this
  exact this hk

/-- Shape of a redshift distribution object. -/
theorem construct_nz {cls : Cls} (h : cls.isNz = true) (args : List PyVal)
    (kw : List (String × PyVal)) :
    construct cls args kw = .ok (.obj cls args
      (("zmax", (kwGet kw "zmax").getD (.num 10)) :: kwRest kw ["gals_per_arcmin2", "zmax"])
      ((kwGet kw "gals_per_arcmin2").getD (.num 1)) cls.initNorm) := by
  cases cls <;> first | rfl | simp [Cls.isNz] at h

/-- Rebuilding a redshift distribution object from its parts. -/
theorem unflatten_nz {cls : Cls} (h : cls.isNz = true) (params : List PyVal) (z : PyVal)
    (rest : List (String × PyVal)) (hr : Avoids rest ["gals_per_arcmin2", "zmax"]) (g : PyVal) :
    unflatten cls (("zmax", z) :: rest) params g
      = .ok (.obj cls params (("zmax", z) :: rest) g cls.initNorm) := by
  rw [unflatten, if_pos h, construct_nz h]
  have h1 : kwGet (("gals_per_arcmin2", g) :: ("zmax", z) :: rest) "zmax" = some z := by
    rw [kwGet_cons_ne (by decide), kwGet_cons_self]
  have h2 : kwGet (("gals_per_arcmin2", g) :: ("zmax", z) :: rest) "gals_per_arcmin2" = some g :=
    kwGet_cons_self _ _ _
  have h3 : kwRest (("gals_per_arcmin2", g) :: ("zmax", z) :: rest) ["gals_per_arcmin2", "zmax"]
      = rest := by
    have := kwRest_of_avoids hr
    simpa [kwRest] using this
  rw [h1, h2, h3]
  rfl

/-- Rebuilding a number-counts object from its parts. -/
theorem unflatten_nc (bins bias r : PyVal) (rest : List (String × PyVal))
    (hr : Avoids rest ["redshift_bins", "bias", "has_rsd"]) (g : PyVal) :
    unflatten .numberCounts (("has_rsd", r) :: rest) [bins, bias] g
      = .ok (.obj .numberCounts [bins, bias] (("has_rsd", r) :: rest) .none none) := by
  have h1 := kwRest_of_avoids hr
  have h2 := filter_of_avoids hr
  have h3 : (("has_rsd", r) :: rest).any (fun e =>
      (["redshift_bins", "bias", "has_rsd"].zip [bins, bias]).any fun q => q.1 == e.1) = false := by
    rw [List.any_eq_false]
    intro e he
    rcases List.mem_cons.mp he with rfl | he
    · simp
    · have := hr e he
      simp only [List.mem_cons, List.not_mem_nil, or_false, not_or] at this
      simp [Ne.symm this.1, Ne.symm this.2.1]
  have h4 : bindArgs ["redshift_bins", "bias", "has_rsd"] [bins, bias] (("has_rsd", r) :: rest)
      = .ok [("redshift_bins", bins), ("bias", bias), ("has_rsd", r)] := by
    unfold bindArgs
    simp only [h3]
    rw [List.filter_cons_of_pos (by simp), h2]
    simp
  have h5 : kwRest (("has_rsd", r) :: rest) ["redshift_bins", "bias", "has_rsd"] = rest := by
    simpa [kwRest] using h1
  unfold unflatten
  simp only [Cls.isNz, Bool.false_eq_true, if_false]
  unfold construct
  simp only [h4, h5]
  rfl

end JaxCosmo
