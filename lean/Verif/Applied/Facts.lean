import Verif.Applied.Base
import Verif.Props.Accept
import Verif.Props.Accuracy
import Verif.Props.Degenerate
import Verif.Props.Distance
import Verif.Props.FullFit
import Verif.Props.Interact
import Verif.Props.Place
import Verif.Props.Redundant
import Verif.Props.Relabel
import Verif.Props.Rescale
import Verif.Props.Standstill
import Verif.Props.TestSet
import Verif.Props.Ties
import Verif.Props.Trend

/-! Facts about the sample data: the hypotheses of theorems that `decide` alone does not establish. -/

namespace Verif.Applied

open Sample

theorem tables5 : d5.Tables 2 3 := ⟨by decide +kernel, by decide +kernel, by decide +kernel, by decide⟩

theorem tellsApart {rows : List (List E)} {n j : Nat} (hn : rows.length = n)
    (h : ∀ a < n, ∀ b < n, ((rows.getD a []).getD j 0 ==. (rows.getD b []).getD j 0) = true → a = b) : TellsRowsApart rows j := by
  subst hn
  intro a b ra rb x y h1 h2 h3 h4 h5
  have ha := (List.getElem?_eq_some_iff.mp h1).1
  have hb := (List.getElem?_eq_some_iff.mp h2).1
  exact h a ha b hb (by simpa [List.getD, h1, h2, h3, h4] using h5)

theorem consistent {α : Type} {rows : List (List E)} {labels : List α} {c : Nat} (hc : ∀ row ∈ rows, row.length = c)
    (h : ∀ e ∈ rows.zip labels, ∀ e' ∈ rows.zip labels, (∀ j < c, (e.1.getD j 0 ==. e'.1.getD j 0) = true) → e.2 = e'.2) :
    NoContradictions rows labels := by
  intro e he e' he' hs
  refine h e he e' he' (fun j hj => ?_)
  have l1 := hc _ (List.of_mem_zip he).1
  have l2 := hc _ (List.of_mem_zip he').1
  simpa [List.getD, l1, l2, hj] using hs j _ _ (List.getElem?_eq_getElem (by omega)) (List.getElem?_eq_getElem (by omega))

theorem alike_nothing {m : Nat} : NothingToAsk alike.featureRows 2 m := by
  right
  intro j hj row hr row' hr' x x' hx hx'
  have h1 : row = [1, 2] := by simpa [alike] using hr
  have h2 : row' = [1, 2] := by simpa [alike] using hr'
  subst h1 h2
  rw [hx] at hx'
  rw [← Option.some.inj hx']
  have : j = 0 ∨ j = 1 := by omega
  rcases this with rfl | rfl <;> (simp at hx; subst hx; decide +kernel)

theorem samePlace4 : SamePlace d4.featureRows [.fin (3 / 2), 6] [1, 5] := by
  intro j v x y hv hx hy
  obtain ⟨⟨r, hr, hrv⟩, r', hr', u, hu, huv⟩ := hv
  have h2 : j < 2 := by
    by_contra hj
    rw [List.getElem?_eq_none (by simpa using hj)] at hx
    cases hx
  have hcases : ∀ j < 2, ∀ r ∈ d4.featureRows, ∀ r' ∈ d4.featureRows, (((r'.getD j 0) <. (r.getD j 0)) = true) →
      ((r.getD j 0) <=. ([.fin (3 / 2), 6] : List E).getD j 0) = ((r.getD j 0) <=. ([1, 5] : List E).getD j 0) := by decide +kernel
  have := hcases j h2 r hr r' hr'
  simp only [List.getD, hrv, hu, hx, hy, Option.getD_some] at this
  exact this huv

theorem proper4 : tree4.Proper := by
  have h := tree4_ok
  rw [regressionTreeNew_ok d4_wf rfl] at h
  rw [← Except.ok.inj h]
  exact treeOf_proper _ _

theorem more_redundant : RedundantFeature d4More.featureRows 1 := by
  refine .inr ⟨0, by decide, ?_⟩
  have h : ∀ row ∈ d4More.featureRows, ∀ row' ∈ d4More.featureRows,
      (row.getD 1 0 <=. row'.getD 1 0) = (row.getD 0 0 <=. row'.getD 0 0) := by decide +kernel
  intro row hr row' hr' x x' y y' h1 h2 h3 h4
  have := h row hr row' hr'
  simpa [List.getD, h1, h2, h3, h4] using this

/-- two rows, one with a feature that is not a number -/
def nan2 : DataSet E := { featureRows := [[1, .nan], [2, 5]], labels := [[1], [0]], featureColumns := [[1, 2], [.nan, 5]] }

theorem between4 : Between ([0, 5] : List E) [2, 7] [1, 6] := by
  intro j a b v ha hb hv
  match j with
  | 0 => simp at ha hb hv; subst ha hb hv; decide +kernel
  | 1 => simp at ha hb hv; subst ha hb hv; decide +kernel
  | j + 2 => simp at ha

/-- exclusive or as two classes -/
def xorClass : DataSet E := { Sample.xor with labels := [0, 1, 1, 0].map (oneHot 2) }

theorem represents4 : sorted4.Represents d4 2 [0, 1, 2, 3] := by
  obtain ⟨s, h1, _, h2⟩ := createSorted_ok d4_wf
  rw [sorted4_ok] at h1
  rw [Except.ok.inj h1]
  exact h2

theorem scaled4 : KeepsOrder exScale d4.featureRows := by
  have h : ∀ row ∈ d4.featureRows, ∀ row' ∈ d4.featureRows, ∀ j < 2,
      (exScale j (row.getD j 0) <=. exScale j (row'.getD j 0)) = (row.getD j 0 <=. row'.getD j 0) := by decide +kernel
  intro row hr row' hr' j x y hx hy
  have hj : j < 2 := by rw [← d4_wf.row_len row hr]; exact (List.getElem?_eq_some_iff.mp hx).1
  have := h row hr row' hr' j hj
  simpa [List.getD, hx, hy] using this

/-- the labels of `twoTargets` -/
def two : List (List ℚ) := [[0, 3], [1, 1], [4, 0], [6, 2]]

theorem twoTargets_eq : twoTargets.labels = lift two := by decide +kernel

theorem swap2_ok : Reorders 2 swap2 := ⟨by decide, by decide⟩

theorem turn_similar : IsSimilarity 2 25 (affineMap 2 3 turn (fun i => (i : ℚ))) := by
  intro v w hv hw
  match v, w, hv, hw with
  | [a, b], [x, y], _, _ =>
    simp [affineMap, turn, sqDist, List.range_succ]
    ring

theorem turned : ProportionalDistances 25 two (two.map (affineMap 2 3 turn (fun i => (i : ℚ)))) := by
  refine ⟨rfl, fun i j v w v' w' hv hw hv' hw' => ?_⟩
  have hlen : ∀ l ∈ two, l.length = 2 := by decide
  rw [List.getElem?_map, hv] at hv'
  rw [List.getElem?_map, hw] at hw'
  rw [← Option.some.inj hv', ← Option.some.inj hw']
  exact turn_similar v w (hlen v (List.mem_of_getElem? hv)) (hlen w (List.mem_of_getElem? hw))

theorem follows5 : Follows trend5.featureRows [[0], [0], [1], [2], [(4 : ℚ)]] 0 (weighted 1 (fun _ => 1)) := trend5_follows

theorem same4 : SameExamples distinct4 distinct4' := ⟨by decide, by decide, by decide +kernel⟩

end Verif.Applied
