import Verif.Lemmas.FullFit
import Verif.Props.NearDepth
/-!
# C96: no other predictions in the leaves fit the training data better
-/

set_option linter.unusedSectionVars false

namespace Verif

open Sample

section
variable {K : Type} [Field K] [LinearOrder K] [IsStrictOrderedRing K] [FloorSemiring K] [HasExp K]

/-- in every group, the squared distance of a constant from the labels is that of the mean plus that between the two -/
theorem group_split {α κ : Type} [DecidableEq κ] (t : ℕ) (key : α → κ) (g : α → List K) (l : List (α × List K))
    (hg : ∀ a ∈ l, ∀ b ∈ l, key a.1 = key b.1 → g a.1 = g b.1) :
    (l.map (fun e => ((List.range t).map (fun j => ((g e.1).getD j 0 - e.2.getD j 0) ^ 2)).sum)).sum =
    (l.map (fun e => ((List.range t).map (fun j =>
      ((meanVec t ((l.filter (fun b => decide (key b.1 = key e.1))).map Prod.snd)).getD j 0 - e.2.getD j 0) ^ 2)).sum)).sum +
    (l.map (fun e => ((List.range t).map (fun j =>
      ((g e.1).getD j 0 - (meanVec t ((l.filter (fun b => decide (key b.1 = key e.1))).map Prod.snd)).getD j 0) ^ 2)).sum)).sum := by
  rw [sum_range_swap, sum_range_swap, sum_range_swap, ← List.sum_map_add]
  congr 1
  apply List.map_congr_left
  intro j hj
  rw [List.mem_range] at hj
  simp only [meanVec, getD_range hj]
  have inner : ∀ s : List (α × List K), s ≠ [] → s.Sublist l → (∀ a ∈ s, ∀ b ∈ s, key a.1 = key b.1) →
      (s.map (fun e => ((g e.1).getD j 0 - e.2.getD j 0) ^ 2)).sum =
      (s.map (fun e => (meanOf (target (s.map Prod.snd) j) - e.2.getD j 0) ^ 2 +
        ((g e.1).getD j 0 - meanOf (target (s.map Prod.snd) j)) ^ 2)).sum := by
    intro s hs hsub hk
    obtain ⟨a0, ha0⟩ := List.exists_mem_of_ne_nil s hs
    have hc : ∀ e ∈ s, g e.1 = g a0.1 := fun e he => hg _ (hsub.subset he) _ (hsub.subset ha0) (hk e he a0 ha0)
    have h1 := sqDev_shift ((g a0.1).getD j 0) (target (s.map Prod.snd) j)
    have sq : ∀ a : K, (s.map (fun e => (a - e.2.getD j 0) ^ 2)).sum = sqDev a (target (s.map Prod.snd) j) := by
      intro a
      rw [sqDev, target, List.map_map, List.map_map]
      congr 1
      apply List.map_congr_left
      intro e _
      simp only [Function.comp]
      ring
    rw [List.sum_map_add, sq]
    have e1 : (s.map (fun e => ((g e.1).getD j 0 - e.2.getD j 0) ^ 2)) = (s.map (fun e => ((g a0.1).getD j 0 - e.2.getD j 0) ^ 2)) := by
      apply List.map_congr_left
      intro e he
      rw [hc e he]
    have e2 : (s.map (fun e => ((g e.1).getD j 0 - meanOf (target (s.map Prod.snd) j)) ^ 2)) =
        s.map (fun _ => ((g a0.1).getD j 0 - meanOf (target (s.map Prod.snd) j)) ^ 2) := by
      apply List.map_congr_left
      intro e he
      rw [hc e he]
    rw [e1, e2, sq, h1, List.map_const', List.sum_replicate, nsmul_eq_mul, target_length, List.length_map]
  rw [← List.sum_map_add]
  refine le_antisymm ?_ ?_
  · exact group_le (fun e : α × List K => key e.1) (fun e _ => ((g e.1).getD j 0 - e.2.getD j 0) ^ 2)
      (fun e s => (meanOf (target (s.map Prod.snd) j) - e.2.getD j 0) ^ 2 + ((g e.1).getD j 0 - meanOf (target (s.map Prod.snd) j)) ^ 2)
      _ l le_rfl (fun s a b c => (inner s a b c).le)
  · exact group_le (fun e : α × List K => key e.1)
      (fun e s => (meanOf (target (s.map Prod.snd) j) - e.2.getD j 0) ^ 2 + ((g e.1).getD j 0 - meanOf (target (s.map Prod.snd) j)) ^ 2)
      (fun e _ => ((g e.1).getD j 0 - e.2.getD j 0) ^ 2) _ l le_rfl (fun s a b c => (inner s a b c).ge)

end

section
variable {K : Type} [Field K] [LinearOrder K] [IsStrictOrderedRing K] [FloorSemiring K] [HasExp K]

/-- **C96**.  Let `g` predict something for every training row, the same for rows of the same leaf.  Its error on the training data is
the error of the tree plus the mean squared distance of its predictions from those of the tree. -/
theorem C96_error_splits (d : DataSet (Ext K)) (c t : ℕ) (h : d.WF c t) (ht0 : 0 < t) (ls : List (List K)) (hls : d.labels = lift ls)
    (cfg : TreeConfig) (ht : cfg.numberOfClasses = t) :
    ∃ tree e ps, regressionTreeNew d cfg = .ok tree ∧ calculateOverallMse d tree = .ok (.fin e) ∧
      List.Forall₂ (fun row p => ∃ leaf dd, findLeafNodeForData row tree = .ok leaf ∧ leaf.data = some dd ∧
        calculateAverageVector dd.labels = .ok (liftV p)) d.featureRows ps ∧ (∀ p ∈ ps, p.length = t) ∧
      ∀ g : List (Ext K) → List K, (∀ row ∈ d.featureRows, (g row).length = t) →
        (∀ row ∈ d.featureRows, ∀ row' ∈ d.featureRows, tree.route row = tree.route row' → g row = g row') →
        mseOf (d.featureRows.map g) ls = e + mseOf (d.featureRows.map g) ps := by
  have hll : ls.length = d.featureRows.length := by rw [← h.label_count, hls, lift_length]
  have hlw := lift_width hls h.label_len
  have hb := regressionTreeNew_ok h ht
  set tree := treeOf regLeaf c t cfg.maxLevels d with htree
  refine ⟨tree, _, d.featureRows.map (fun row => meanVec t (mates tree (d.featureRows.zip ls) row)), hb,
    overallMse_exact h ht0 hls cfg.maxLevels (fun row hr => (h.row_len row hr).ge) hls hlw hll h.rows_ne, ?_, ?_, ?_⟩
  · rw [List.forall₂_map_right_iff, List.forall₂_same]
    intro row hrow
    obtain ⟨leaf, hf, hat⟩ := C21_lookup_total d c t h cfg ht tree hb row (h.row_len row hrow).ge
    obtain ⟨dd, hdd, hw, hex⟩ := C19_leaf_contents d c t h cfg ht tree hb _ leaf hat
    obtain ⟨h1, h2, h3⟩ := mates_ok hls hw hex
    refine ⟨leaf, dd, hf, hdd, ?_⟩
    rw [calculateAverageVector_ok hw.labels_ne hw.label_len, h1, avgVec_exact h3 h2]
  · intro p hp
    obtain ⟨_, _, rfl⟩ := List.mem_map.mp hp
    exact meanVec_length _ _
  · intro g hg hconst
    -- predictions with the right number of entries everywhere
    set g' : List (Ext K) → List K := fun row => (List.range t).map (fun j => (g row).getD j 0) with hg'
    have hgg : ∀ row ∈ d.featureRows, g row = g' row := by
      intro row hrow
      apply List.ext_getElem
      · simp [hg', hg row hrow]
      · intro i h1 h2
        simp [hg', List.getElem?_eq_getElem h1]
    have hmap : d.featureRows.map g = d.featureRows.map g' := List.map_congr_left hgg
    have hlen' : ∀ row, (g' row).length = t := fun row => by simp [hg']
    rw [hmap, mse_mates h hls g' hlen', ← htree, mse_mates h hls (fun row => meanVec t (mates tree (d.featureRows.zip ls) row)) (fun _ => meanVec_length _ _)]
    have h3 : mseOf (d.featureRows.map g') (d.featureRows.map (fun row => meanVec t (mates tree (d.featureRows.zip ls) row))) =
        ((d.featureRows.zip ls).map (fun e => ((List.range t).map (fun j => ((g' e.1).getD j 0 -
          (meanVec t (mates tree (d.featureRows.zip ls) e.1)).getD j 0) ^ 2)).sum)).sum / t / d.featureRows.length := by
      rw [mseOf, List.length_map]
      congr 1
      rw [div_eq_mul_inv, ← List.sum_map_mul_right, List.zipWith_map, List.zipWith_self]
      have : d.featureRows.map (fun row => sqErr (g' row) (meanVec t (mates tree (d.featureRows.zip ls) row))) =
          (d.featureRows.zip ls).map (fun e => sqErr (g' e.1) (meanVec t (mates tree (d.featureRows.zip ls) e.1))) := by
        conv_lhs => rw [← List.map_fst_zip (l₁ := d.featureRows) (l₂ := ls) (by omega), List.map_map]
        rw [List.map_fst_zip (l₁ := d.featureRows) (l₂ := ls) (by omega)]
        rfl
      rw [this]
      congr 1
      apply List.map_congr_left
      intro e _
      rw [sqErr_eq (hlen' _) (meanVec_length _ _), div_eq_mul_inv]
    rw [h3, ← add_div, ← add_div]
    congr 2
    refine group_split t (fun row => tree.route row) g' (d.featureRows.zip ls) ?_
    intro a ha b hb hab
    have ha := (List.of_mem_zip (show (a.1, a.2) ∈ _ from ha)).1
    have hb := (List.of_mem_zip (show (b.1, b.2) ∈ _ from hb)).1
    rw [← hgg _ ha, ← hgg _ hb]
    exact hconst _ ha _ hb hab

/-- **C96**.  Hence no other predictions in the leaves have a smaller error on the training data, and none but those of the tree have the
same error. -/
theorem C96_least_error (d : DataSet (Ext K)) (c t : ℕ) (h : d.WF c t) (ht0 : 0 < t) (ls : List (List K)) (hls : d.labels = lift ls)
    (cfg : TreeConfig) (ht : cfg.numberOfClasses = t) (tree : TreeNode (Ext K) (RegressionLeaf (Ext K)))
    (hb : regressionTreeNew d cfg = .ok tree) (g : List (Ext K) → List K) (hg : ∀ row ∈ d.featureRows, (g row).length = t)
    (hconst : ∀ row ∈ d.featureRows, ∀ row' ∈ d.featureRows, tree.route row = tree.route row' → g row = g row') :
    ∃ e, calculateOverallMse d tree = .ok (.fin e) ∧ e ≤ mseOf (d.featureRows.map g) ls ∧
      (mseOf (d.featureRows.map g) ls = e ↔ ∀ row ∈ d.featureRows, ∃ leaf dd, findLeafNodeForData row tree = .ok leaf ∧
        leaf.data = some dd ∧ calculateAverageVector dd.labels = .ok (liftV (g row))) := by
  obtain ⟨tree', e, ps, h1, h2, h3, h4, h5⟩ := C96_error_splits d c t h ht0 ls hls cfg ht
  rw [hb] at h1
  cases h1
  have h6 := h5 g hg hconst
  have hlen : ps.length = d.featureRows.length := h3.length_eq.symm
  refine ⟨e, h2, by rw [h6]; linarith [mseOf_nonneg (d.featureRows.map g) ps], ?_⟩
  have hz := mseOf_eq_zero ht0 (ps := d.featureRows.map g) (as := ps) (by
    intro p hp
    obtain ⟨row, hrow, rfl⟩ := List.mem_map.mp hp
    exact hg row hrow) h4 (by simp [hlen]) (by simpa using h.rows_ne)
  rw [h6, add_eq_left, hz]
  constructor
  · rintro rfl
    rw [List.forall₂_map_right_iff, List.forall₂_same] at h3
    exact h3
  · intro hall
    symm
    apply List.ext_getElem
    · simp [hlen]
    · intro i k1 k2
      rw [List.forall₂_iff_get] at h3
      have hi : i < d.featureRows.length := by rw [← hlen]; exact k1
      obtain ⟨leaf, dd, a1, a2, a3⟩ := h3.2 i hi k1
      obtain ⟨leaf', dd', b1, b2, b3⟩ := hall _ (List.getElem_mem hi)
      rw [List.get_eq_getElem] at a1
      rw [a1] at b1
      cases b1
      rw [a2] at b2
      cases b2
      rw [a3] at b3
      have := liftV_injective (Except.ok.inj b3)
      rw [List.getElem_map]
      exact this

end

section
variable [B64Env]

/-- **C96** in binary64: up to the rounding errors of one score, no other predictions in the leaves have a smaller exact error. -/
theorem C96_least_error_rounded (d : DataSet B64) (c t : ℕ) (h : d.WF c t) (ht1 : 1 ≤ t) (ht2 : t ≤ 2 ^ 24) (ls : List (List ℚ)) (B : ℚ)
    (hls : d.exact.labels = lift ls) (hS : Scale ls.length B) (hB : AtMost B ls) (cfg : TreeConfig) (ht : cfg.numberOfClasses = t)
    (tree : TreeNode B64 (RegressionLeaf B64)) (hb : regressionTreeNew d cfg = .ok tree) (g : List B64 → List ℚ)
    (hg : ∀ row ∈ d.featureRows, (g row).length = t)
    (hconst : ∀ row ∈ d.featureRows, ∀ row' ∈ d.featureRows, tree.route row = tree.route row' → g row = g row') :
    ∃ a v, calculateOverallMse d tree = .ok a ∧ a.val = .fin v ∧
      v ≤ mseOf (d.featureRows.map g) ls + treeScoreTolerance ls.length ls.length t B := by
  obtain ⟨a, v, h1, h2, h3, h4⟩ := own_score h ht1 ht2 hls hS hB cfg ht
  rw [hb] at h1
  cases h1
  refine ⟨a, v, h2, h3, ?_⟩
  have hlen : ls.length = d.labels.length := by
    have := congrArg List.length hls
    rw [lift_length] at this
    rw [← this, DataSet.exact, List.length_map]
  have hll : d.featureRows.length = ls.length := by rw [hlen, h.label_count]
  have hlw : ∀ l ∈ ls, l.length = t := by
    refine lift_width hls ?_
    intro l hl
    simp only [DataSet.exact, List.mem_map] at hl
    obtain ⟨l', hl', rfl⟩ := hl
    rw [List.length_map]
    exact h.label_len _ hl'
  set tree := treeOf regLeaf c t cfg.maxLevels d
  set g' : List B64 → List ℚ := fun row => (List.range t).map (fun j => (g row).getD j 0) with hg'
  have hgg : ∀ row ∈ d.featureRows, g row = g' row := by
    intro row hrow
    apply List.ext_getElem
    · simp [hg', hg row hrow]
    · intro i h1 h2
      simp [hg', List.getElem?_eq_getElem h1]
  have hmap : d.featureRows.map g = d.featureRows.map g' := List.map_congr_left hgg
  have hsplit := group_split t (fun row => tree.route row) g' (d.featureRows.zip ls) (by
    intro a ha b hb hab
    have ha := (List.of_mem_zip (show (a.1, a.2) ∈ _ from ha)).1
    have hb := (List.of_mem_zip (show (b.1, b.2) ∈ _ from hb)).1
    rw [← hgg _ ha, ← hgg _ hb]
    exact hconst _ ha _ hb hab)
  rw [hmap, mse_rows _ hlw g' (fun row => by simp [hg']), hsplit, hll]
  have hpos : ∀ (l : List (List B64 × List ℚ)) (f : List B64 × List ℚ → ℕ → ℚ),
      0 ≤ (l.map (fun e => ((List.range t).map (fun j => (f e j) ^ 2)).sum)).sum := by
    intro l f
    refine List.sum_nonneg ?_
    intro x hx
    obtain ⟨e, _, rfl⟩ := List.mem_map.mp hx
    refine List.sum_nonneg ?_
    intro y hy
    obtain ⟨j, _, rfl⟩ := List.mem_map.mp hy
    exact sq_nonneg _
  rw [add_div, add_div]
  have hp := div_nonneg (div_nonneg (hpos (d.featureRows.zip ls) (fun e j => (g' e.1).getD j 0 -
    (meanVec t (((d.featureRows.zip ls).filter (fun b => decide (tree.route b.1 = tree.route e.1))).map Prod.snd)).getD j 0))
    (Nat.cast_nonneg (α := ℚ) t)) (Nat.cast_nonneg (α := ℚ) ls.length)
  have := abs_le.mp h4
  linarith

end

/-! ## a case that meets the hypotheses -/

/-- predictions for the two leaves of the tree of `d4` with one question -/
def Sample.guess (row : List E) : List ℚ := if satisfies ⟨0, 1⟩ row then [3] else [1]

-- the guesses are the same for rows of the same leaf; the tree scores less
example : (do
    let tree ← regressionTreeNew d4 { useMultiThreading := false, numberOfClasses := 1, maxLevels := 1 }
    let e ← calculateOverallMse d4 tree
    pure (decide (∀ row ∈ d4.featureRows, ∀ row' ∈ d4.featureRows, tree.route row = tree.route row' → guess row = guess row'),
      decide (∀ row ∈ d4.featureRows, (guess row).length = 1), e)) = .ok (true, true, (.fin (19 / 6) : E)) := by decide +kernel
example : mseOf (d4.featureRows.map guess) [[0], [1], [4], [6]] = 15 / 4 := by decide +kernel

/-- **C96** is about the questions of the tree: predictions that differ within a leaf can fit better, here perfectly. -/
theorem C96_violated_within_a_leaf : (do
    let tree ← regressionTreeNew d4 { useMultiThreading := false, numberOfClasses := 1, maxLevels := 1 }
    calculateOverallMse d4 tree) = .ok (.fin (19 / 6) : E) ∧ mseOf [[0], [1], [4], [6]] ([[0], [1], [4], [6]] : List (List ℚ)) = 0 := by
  decide +kernel

end Verif
