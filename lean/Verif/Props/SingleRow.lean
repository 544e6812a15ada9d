import Verif.Props.MainExact
import Verif.Lemmas.Poison
import Verif.Spec.Empty
/-!
# C88: a single row with a NaN
-/

set_option linter.unusedSectionVars false

namespace Verif

open Sample

section exact
variable {K : Type} [Field K] [LinearOrder K] [IsStrictOrderedRing K] [FloorSemiring K] [HasExp K]

instance : LawfulEmpty (Ext K) where
  empty_variance := by
    refine LawfulPoison.zero_div_zero ?_ LawfulOrder.zero_eq
    rw [Ext.eq_zero_iff]
    simp [F64.sub, F64.mul, F64.zero, Ext.mul, Ext.add, Ext.neg]

end exact

instance [B64Env] : LawfulEmpty B64 where
  empty_variance := by
    refine LawfulPoison.zero_div_zero ?_ LawfulOrder.zero_eq
    rw [B64.eq_zero_iff, B64.sub_val, B64.mul_val, B64.mul_val, B64.zero_val]
    decide +kernel

variable {F : Type} [F64 F]

theorem sorted_single (p : F × Nat) : sorted [p] = [p] := rfl

/-- a split with no labels on the left has the loss NaN -/
theorem emptyLoss_nan [LawfulEmpty F] {t : Nat} (ht : 0 < t) {right : Tracker F} (hr : right.metrics.Shape t) :
    isNaN (splitLoss (leftStart t) right) = true := by
  have h1 : (varVec (leftStart t : Tracker F).metrics F64.zero).length = t := by simp [varVec, leftStart]
  have h2 : (varVec right.metrics right.numberOfLabels).length = t := by simp [varVec, hr.means, hr.squares]
  have hnan : isNaN ((varVec (leftStart t : Tracker F).metrics F64.zero)[0]'(by omega)) = true := by
    simp only [varVec, leftStart, List.getElem_zipWith, List.getElem_replicate, calculateVariance]
    exact LawfulEmpty.empty_variance
  refine fsum_nan ⟨_, List.getElem_mem (n := 0) (by simp only [List.length_zipWith]; show 0 < min (varVec (leftStart t : Tracker F).metrics F64.zero).length _; omega), ?_⟩
  rw [List.getElem_zipWith]
  exact LawfulSpecial.nan_add_left _ (LawfulPoison.nan_mul_right _ hnan)

/-- without labels on the left nothing is chosen -/
theorem colResult_single [LawfulOrder F] [LawfulEmpty F] {labels : List (List F)} {t : Nat} (ht : 0 < t) (h : ∀ l ∈ labels, l.length = t) (x : F) :
    colResult labels t [x] = { loss := F64.infinity, thresholdValue := F64.zero } := by
  have hnan := emptyLoss_nan ht (right := rightStart labels.length (metricsOf labels t)) (getLabelMetrics_ok h).2
  have hlt : (splitLoss (leftStart t) (rightStart labels.length (metricsOf labels t)) <. F64.infinity) = false := by
    cases hc : (splitLoss (leftStart t) (rightStart labels.length (metricsOf labels t)) <. (F64.infinity : F)) with
    | false => rfl
    | true =>
      have := (LawfulOrder.le_nan (lt_le hc)).1
      simp [isNaN, this] at hnan
  simp only [colResult, scanResult, seqOf, List.zipIdx_cons, List.zipIdx_nil, sorted_single, List.map_cons, List.map_nil, cands, List.append_nil]
  split
  · simp [pickBest, hlt]
  · rfl

theorem splitOf_single [LawfulOrder F] [LawfulEmpty F] {d : DataSet F} {c t : Nat} (h : d.Tables c t) (ht : 0 < t) (h1 : d.featureRows.length = 1) :
    splitOf d t = { gain := F64.zero, question := { column := 0, value := F64.zero } } := by
  unfold splitOf
  rcases bestColumn_spec (totalVariance d.labels t) (d.featureColumns.map (colResult d.labels t)) with ⟨h2, _⟩ | ⟨i, r, h2, _, h3, _⟩
  · exact h2
  · exfalso
    obtain ⟨col, hcol, rfl⟩ := List.mem_map.mp (List.mem_of_getElem? h2)
    rw [h.cols, columnsOf, List.mem_map] at hcol
    obtain ⟨j, _, rfl⟩ := hcol
    obtain ⟨x, hx⟩ := List.length_eq_one_iff.mp (show (column d.featureRows j).length = 1 by rw [column_length, h1])
    rw [hx, colResult_single ht h.label_len] at h3
    simp only [gainOf] at h3
    rw [LawfulOrder.sub_inf] at h3
    simp at h3

theorem findBestSplit_single {d : DataSet F} {c t : Nat} (h : d.Tables c t) (h1 : d.featureRows.length = 1) (h2 : d.labels ≠ []) :
    findBestSplit d t = .ok (splitOf d t) := by
  obtain ⟨hm, hshape⟩ := getLabelMetrics_ok h.label_len
  obtain ⟨first, hrows⟩ := List.length_eq_one_iff.mp h1
  have hf : idx d.featureRows 0 = .ok first := by rw [hrows]; rfl
  have hc : first.length = c := h.row_len _ (by rw [hrows]; simp)
  unfold findBestSplit
  simp only [hm, R.ok_bind, getTotalVarianceSum_ok h.label_len, hf, hc]
  have hres : d.featureColumns.mapM (fun featureColumn =>
      determineBestThreshold d.labels.length d.labels featureColumn (metricsOf d.labels t) t) =
      .ok (d.featureColumns.map (colResult d.labels t)) := by
    refine mapM_ok (fun col hcol => ?_)
    rw [h.cols, columnsOf, List.mem_map] at hcol
    obtain ⟨j, _, rfl⟩ := hcol
    obtain ⟨x, hx⟩ := List.length_eq_one_iff.mp (show (column d.featureRows j).length = 1 by rw [column_length, h1])
    rw [hx]
    have := determineBestThresholdNew_ok (n := d.labels.length) h.label_len hshape (sorted := [(x, 0)]) (by simp)
      (by simpa using List.length_pos_of_ne_nil h2)
    exact this
  have hlen : (d.featureColumns.map (colResult d.labels t)).length = c := by
    simp [h.cols, columnsOf]
  rw [hres]
  simp only [R.ok_bind, hlen, assertEq_self]
  have := selectBestColumn_ok (total := totalVariance d.labels t)
    (results := d.featureColumns.map (colResult d.labels t)) (by rw [hlen]; exact h.cols_u32)
  rw [hlen] at this
  exact this

theorem fuel_single [LawfulOrder F] [LawfulEmpty F] {L : Type} {leafR : DataSet F → R L} {d : DataSet F} {c t : Nat} (h : d.Tables c t)
    (ht : 0 < t) (h1 : d.featureRows.length = 1) (h2 : d.labels ≠ []) (m : Nat) {l : L} (hl : leafR d = .ok l) :
    buildFuel leafR t m d = .ok (.mk { column := 0, value := F64.zero } none none (some l)) := by
  have hf := findBestSplit_single h h1 h2
  rw [splitOf_single h ht h1] at hf
  cases m with
  | zero => simp [buildFuel, hf, hl]; rfl
  | succ m => simp [buildFuel, hf, hl, LawfulOrder.zero_eq]; rfl

theorem fuel_accepts_all [LawfulOrder F] [LawfulEmpty F] {L : Type} {leafR : DataSet F → R L} {d : DataSet F} {c t : Nat} (h : d.Tables c t)
    (hc : 0 < c) (ht : 0 < t) (k m : Nat)
    (hleaf : ∀ d : DataSet F, d.labels ≠ [] → (∀ l ∈ d.labels, l.length = t) → ∃ l, leafR d = .ok l) :
    (∃ tree, buildFuel leafR k m d = .ok tree) ↔
      0 < d.featureRows.length ∧ d.featureRows.length ≤ d.labels.length ∧ k = t ∧ (2 ≤ d.featureRows.length → d.NoNaN) := by
  by_cases h1 : d.featureRows.length = 1
  · constructor
    · rintro ⟨tree, htree⟩
      obtain ⟨k', s, hs⟩ := fuel_split htree
      have : ∃ s, findBestSplit d k = .ok s := by
        cases m with
        | zero => obtain ⟨s, _, hs, _⟩ := buildFuel_zero htree; exact ⟨s, hs⟩
        | succ m => obtain ⟨s, hs, _⟩ := buildFuel_cases htree; exact ⟨s, hs⟩
      obtain ⟨s, hs⟩ := this
      exact split_accepts h hc hs
    · rintro ⟨_, h2, rfl, _⟩
      have hne : d.labels ≠ [] := List.ne_nil_of_length_pos (by omega)
      obtain ⟨l, hl⟩ := hleaf d hne h.label_len
      exact ⟨_, fuel_single h ht h1 hne m hl⟩
  · exact fuel_accepts h hc (fun h2 => absurd h2 h1) k m hleaf

/-- **C88** (trees, single rows included).  With at least one target, `C88_trees` also holds for a single row with a NaN: each tree learner
returns a tree if and only if there is a row, there are at least as many labels as rows, the configured number of targets is the number of
label columns and, with two or more rows, no feature is NaN. -/
theorem C88_trees_single_row [LawfulOrder F] [LawfulEmpty F] (d : DataSet F) (c t : Nat) (h : d.Tables c t) (hc : 0 < c) (ht : 0 < t)
    (cfg : TreeConfig) (k : LeafOutputType) :
    ((∃ tree, regressionTreeNew d cfg = .ok tree) ↔
      0 < d.featureRows.length ∧ d.featureRows.length ≤ d.labels.length ∧ cfg.numberOfClasses = t ∧
        (2 ≤ d.featureRows.length → d.NoNaN)) ∧
    ((∃ tree, gradBoostTreeNew d cfg k = .ok tree) ↔
      0 < d.featureRows.length ∧ d.featureRows.length ≤ d.labels.length ∧ cfg.numberOfClasses = t ∧
        (2 ≤ d.featureRows.length → d.NoNaN)) ∧
    ((∃ tree, amgTreeNew d cfg k = .ok tree) ↔
      0 < d.featureRows.length ∧ d.featureRows.length ≤ d.labels.length ∧ cfg.numberOfClasses = t ∧
        (2 ≤ d.featureRows.length → d.NoNaN)) := by
  rw [regressionTreeNew_fuel, gradBoostTreeNew_fuel, amgTreeNew_fuel]
  refine ⟨fuel_accepts_all h hc ht _ _ (fun d _ _ => ⟨_, rfl⟩), fuel_accepts_all h hc ht _ _ (fun d h1 h2 => ?_),
    fuel_accepts_all h hc ht _ _ (fun d h1 h2 => ?_)⟩
  · exact ⟨_, by simp only [gradLeafR, calculate_ok k h1 h2, R.ok_bind]; rfl⟩
  · exact ⟨_, by simp only [amgLeafR, calculate_ok k h1 h2, R.ok_bind]; rfl⟩

/-- one row with a NaN, two labels -/
def lone2 : DataSet E := { featureRows := [[.nan, 1]], labels := [[3], [5]], featureColumns := [[.nan], [1]] }

example : lone2.Tables 2 1 := by
  refine ⟨?_, ?_, ?_, ?_⟩
  · decide +kernel
  · decide +kernel
  · decide +kernel
  · decide
example : ¬ lone2.NoNaN := by
  unfold DataSet.NoNaN
  decide +kernel
example : (do let tree ← regressionTreeNew lone2 (exCfg 1); pure tree.questionCount) = .ok 0 := by decide +kernel
example : panicOf (regressionTreeNew ({ lone2 with featureRows := [[.nan, 1], [0, 1]], featureColumns := [[.nan, 0], [1, 1]] } : DataSet E) (exCfg 1)) =
    some .unwrapNone := by decide +kernel

end Verif
