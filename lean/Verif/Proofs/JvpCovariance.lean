import Verif.Proofs.JvpLikelihood
import Verif.Props.DefinedCovariance

/-! # Helper lemmas: derivatives of the covariance -/

namespace JaxCosmo
open Spec Matrix

variable {θ : ℝ}

/-! ## The covariance -/

/-- `angular_cl.py:158-165`: the assembly of the blocks. -/
def covAssemble {K : Type} [Zero K] [One K] [Mul K] (n_cls n_ell : ℕ) (blocks : List (ℕ → K)) (z : ℕ → K)
    (sparse : Bool) : Except PyErr (NdArr K) :=
  if blocks.length = n_cls * n_cls then
    if sparse then
      .ok (.d3 n_cls n_cls n_ell fun i j l => blocks.getD (i * n_cls + j) z l)
    else
      .ok (.d2 (n_cls * n_ell) (n_cls * n_ell) fun r c =>
        blocks.getD (r.divNat * n_cls + c.divNat) z c.modNat * (if r.modNat = c.modNat then 1 else 0))
  else .error .typeError

theorem jvp_assembleCov {n_cls n_ell : ℕ} {B : List ((ℕ → ℝ → ℝ) × (ℕ → Du))}
    (h : ∀ b ∈ B, ∀ l < n_ell, Jvp (b.1 l) θ (b.2 l)) (sparse : Bool) :
    JvpE (JvpArr θ) (fun r => covAssemble n_cls n_ell (B.map fun b l => b.1 l r) 0 sparse)
      (covAssemble n_cls n_ell (B.map Prod.snd) (fun _ => 0) sparse) := by
  unfold covAssemble
  simp only [List.length_map]
  have key : ∀ q l, l < n_ell → Jvp (fun r => (B.map fun b l => b.1 l r).getD q 0 l) θ
      ((B.map Prod.snd).getD q (fun _ => 0) l) := by
    intro q l hl
    rcases lt_or_ge q B.length with hq | hq
    · rw [List.getD_eq_getElem _ _ (by simpa using hq), List.getElem_map]
      refine (h _ (List.getElem_mem hq) l hl).congr' fun r => ?_
      rw [List.getD_eq_getElem _ _ (by simpa using hq), List.getElem_map]
    · rw [List.getD_eq_default _ _ (by simpa using hq)]
      refine (Jvp.zero θ).congr' fun r => ?_
      rw [List.getD_eq_default _ _ (by simpa using hq)]
      rfl
  by_cases hl : B.length = n_cls * n_cls
  · simp only [if_pos hl]
    cases sparse with
    | true =>
      simp only [if_true]
      exact JvpE.ok (R := JvpArr θ) ⟨_, fun _ => rfl, fun i j l => key _ l l.2⟩
    | false =>
      simp only [Bool.false_eq_true, if_false]
      refine JvpE.ok (R := JvpArr θ) ⟨_, fun _ => rfl, fun r c => ?_⟩
      refine (key _ c.modNat c.modNat.2).mul ?_
      split_ifs
      · exact Jvp.one θ
      · exact Jvp.zero θ
  · simp only [if_neg hl]
    exact JvpE.err _

theorem JvpTable.add {G H : ℝ → List (List ℝ)} {g h : List (List Du)} (hG : JvpTable θ G g)
    (hH : JvpTable θ H h) : JvpTable θ (fun r => addCl (G r) (H r)) (Dm.addCl g h) := by
  obtain ⟨L, hL, e1, rfl⟩ := hG
  obtain ⟨M, hM, e2, rfl⟩ := hH
  have := JvpTable.of_list (s := θ) (L.zip M)
    (F := fun q r => List.zipWith (· + ·) (q.1.map fun l => l.1 r) (q.2.map fun l => l.1 r))
    (d := fun q => List.zipWith (· + ·) (q.1.map Prod.snd) (q.2.map Prod.snd)) fun q hq =>
      JvpList.zipWith (f := fun _ x y => x + y) (fD := fun x y => x + y)
        ⟨q.1, hL _ (List.of_mem_zip hq).1, fun _ => rfl, rfl⟩
        ⟨q.2, hM _ (List.of_mem_zip hq).2, fun _ => rfl, rfl⟩ fun _ _ _ _ hx hy => hx.add hy
  unfold addCl Dm.addCl
  rw [show (fun r => List.zipWith (List.zipWith (· + ·)) (G r) (H r)) = fun r => (L.zip M).map fun q =>
    List.zipWith (· + ·) (q.1.map fun l => l.1 r) (q.2.map fun l => l.1 r) from funext fun r => by
      rw [e1, e2, List.zipWith_map, List.map_zip_eq_zipWith]; rfl,
    List.zipWith_map]
  rw [List.map_zip_eq_zipWith] at this
  exact this

theorem JvpTable.length {G : ℝ → List (List ℝ)} {g : List (List Du)} (hG : JvpTable θ G g) (r : ℝ) :
    (G r).length = g.length := by
  obtain ⟨L, -, e1, rfl⟩ := hG
  rw [e1]; simp

theorem jvp_covariance {probes : List (ProbeTree Leaf)} {ells : List ℝ} {f_sky : ℝ}
    (hm : ∀ norm, covNorm ells f_sky = .ok norm → ∀ l < ells.length, norm l ≠ 0)
    {signal noise : ℝ → List (List ℝ)} {signalD noiseD : List (List Du)}
    (hs : JvpTable θ signal signalD) (hn : JvpTable θ noise noiseD) (sparse : Bool) :
    JvpE (JvpArr θ)
      (fun r => gaussianClCovariance ells (probes.map fun t => probeAt t r) (signal r) (noise r) f_sky sparse)
      (Dm.gaussianClCovariance ells (probes.map probeDual) signalD noiseD f_sky sparse) := by
  have hobs := JvpTable.add hs hn
  have hlen := JvpTable.length hobs
  have hrow : ∀ a l, Jvp (fun r => rowAt (addCl (signal r) (noise r)) a l) θ
      (Dm.rowAt (Dm.addCl signalD noiseD) a l) := fun a l => (hobs.row a).getD l
  have e1 : ∀ r, gaussianClCovariance ells (probes.map fun t => probeAt t r) (signal r) (noise r) f_sky sparse
      = covNorm ells f_sky >>= fun norm =>
        covBlocks (getClOrdering (probes.map fun t => probeAt t r)) >>= fun blocks =>
          covAssemble (addCl (signal r) (noise r)).length ells.length (blocks.map fun abcd l =>
            (rowAt (addCl (signal r) (noise r)) abcd.1 l * rowAt (addCl (signal r) (noise r)) abcd.2.1 l
              + rowAt (addCl (signal r) (noise r)) abcd.2.2.1 l
                * rowAt (addCl (signal r) (noise r)) abcd.2.2.2 l) / norm l) 0 sparse := by
    intro r
    unfold gaussianClCovariance covBlockDiag getCovBlocksOrdering
    cases covNorm ells f_sky with
    | error e => rfl
    | ok norm =>
      cases covBlocks (getClOrdering (probes.map fun t => probeAt t r)) with
      | error e => rfl
      | ok blocks => rfl
  have e2 : Dm.gaussianClCovariance ells (probes.map probeDual) signalD noiseD f_sky sparse
      = covNorm ells f_sky >>= fun norm =>
        covBlocks (Dm.getClOrdering (probes.map probeDual)) >>= fun blocks =>
          covAssemble (Dm.addCl signalD noiseD).length ells.length (blocks.map fun abcd l =>
            (Dm.rowAt (Dm.addCl signalD noiseD) abcd.1 l * Dm.rowAt (Dm.addCl signalD noiseD) abcd.2.1 l
              + Dm.rowAt (Dm.addCl signalD noiseD) abcd.2.2.1 l
                * Dm.rowAt (Dm.addCl signalD noiseD) abcd.2.2.2 l) / Du.con (norm l)) (fun _ => 0) sparse := by
    unfold Dm.gaussianClCovariance Dm.covBlockDiag Dm.getCovBlocksOrdering Dm.covNorm
    rw [xm_covNorm]
    cases covNorm ells f_sky with
    | error e => rfl
    | ok norm =>
      cases covBlocks (Dm.getClOrdering (probes.map probeDual)) with
      | error e => rfl
      | ok blocks => rfl
  simp only [e1, e2, ntracers_at, ntracers_dual, hlen]
  have hb : ∀ {α β : Type} (x : α) (f : α → Except PyErr β), (Except.ok x >>= f) = f x := fun _ _ => rfl
  cases hc : covNorm ells f_sky with
  | error e => exact JvpE.err e
  | ok norm =>
    have h0 := hm norm hc
    cases covBlocks (clIndex (probes.map fun t => t.bins.length).sum) with
    | error e => exact JvpE.err e
    | ok blocks =>
      simp only [hb]
      have := jvp_assembleCov (θ := θ) (n_cls := (Dm.addCl signalD noiseD).length) (n_ell := ells.length)
        (B := blocks.map fun abcd =>
          (fun l r => (rowAt (addCl (signal r) (noise r)) abcd.1 l * rowAt (addCl (signal r) (noise r)) abcd.2.1 l
              + rowAt (addCl (signal r) (noise r)) abcd.2.2.1 l
                * rowAt (addCl (signal r) (noise r)) abcd.2.2.2 l) / norm l,
          fun l => (Dm.rowAt (Dm.addCl signalD noiseD) abcd.1 l * Dm.rowAt (Dm.addCl signalD noiseD) abcd.2.1 l
              + Dm.rowAt (Dm.addCl signalD noiseD) abcd.2.2.1 l
                * Dm.rowAt (Dm.addCl signalD noiseD) abcd.2.2.2 l) / Du.con (norm l)))
        (by
          intro b hb l hl
          obtain ⟨abcd, -, rfl⟩ := List.mem_map.1 hb
          exact (((hrow _ l).mul (hrow _ l)).add ((hrow _ l).mul (hrow _ l))).div (.con _ θ) (h0 l hl)) sparse
      simp only [List.map_map, Function.comp_def] at this
      exact this

end JaxCosmo
