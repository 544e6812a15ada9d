import Verif.Spec.Place
import Verif.Lemmas.ModelTrees
import Verif.Props.Growth
/-!
# C58: predictions depend only on the place of a row among the training rows

Trees and ensembles are step functions: their values change only at training values.  This fixes what is predicted for values between
two training values, outside of the training range and for NaN.
-/

set_option linter.unusedSectionVars false

namespace Verif

variable {F : Type} [F64 F] {L : Type}

open Sample

theorem TreeNode.subtreeAt_of_questionAt {tree : TreeNode F L} {p : List Bool} {q : Question F} (h : tree.questionAt p = some q) :
    (tree.subtreeAt p).isSome = true := by
  induction p generalizing tree with
  | nil => simp [subtreeAt]
  | cons b p ih =>
    match tree, b with
    | .mk _ (some t) (some f) _, true => exact ih (tree := t) (by simpa [questionAt] using h)
    | .mk _ (some t) (some f) _, false => exact ih (tree := f) (by simpa [questionAt] using h)
    | .mk _ none none _, b => cases b <;> simp [questionAt] at h
    | .mk _ none (some f) _, b => cases b <;> simp [questionAt] at h
    | .mk _ (some t) none _, b => cases b <;> simp [questionAt] at h

theorem TreeNode.route_congr {tree : TreeNode F L} (hp : tree.Proper) {row row' : List F}
    (h : ∀ p q, tree.questionAt p = some q → satisfies q row = satisfies q row') : tree.route row = tree.route row' := by
  induction hp with
  | leaf q l => rfl
  | node q a b _ _ iha ihb =>
    simp only [route]
    rw [h [] q rfl, iha (fun p q hq => h (true :: p) q hq), ihb (fun p q hq => h (false :: p) q hq)]

theorem TreeNode.find_congr {tree : TreeNode F L} (hp : tree.Proper) {row row' : List F}
    (h : ∀ p q, tree.questionAt p = some q → q.solve row = q.solve row') :
    findLeafNodeForData row tree = findLeafNodeForData row' tree := by
  induction hp with
  | leaf q l => rfl
  | node q a b _ _ iha ihb =>
    simp only [findLeafNodeForData]
    rw [h [] q rfl, iha (fun p q hq => h (true :: p) q hq), ihb (fun p q hq => h (false :: p) q hq)]

variable [LawfulOrder F]

theorem grown_questions {d : DataSet F} {c t m : Nat} {tree : TreeNode F L} (h : GrownGreedily d c t m tree) {p : List Bool} {q : Question F}
    (hq : tree.questionAt p = some q) : q.column < c ∧ InnerValue d.featureRows q.column q.value := by
  obtain ⟨dd, s, hdd, hex, hs, hat⟩ := h p (TreeNode.subtreeAt_of_questionAt hq)
  rw [hq] at hat
  split at hat
  case isFalse => cases hat
  rename_i hg
  cases hat
  have hsub : ∀ r ∈ dd.featureRows, r ∈ d.featureRows := by
    intro r hr
    obtain ⟨i, hi, rfl⟩ := List.getElem_of_mem hr
    have hil : i < dd.labels.length := by rw [hdd.label_count]; exact hi
    have : (dd.featureRows[i], dd.labels[i]) ∈ dd.examples := by
      rw [DataSet.examples, List.mem_iff_getElem]
      exact ⟨i, by simp; omega, by simp⟩
    rw [hex, reaching, List.mem_filter] at this
    exact examples_fst_mem this.1
  obtain ⟨h1, ⟨r, hr, hv⟩, _, ⟨r', hr', hf⟩⟩ := C10_split_separates dd c t hdd s hs hg.2
  refine ⟨h1, ⟨r, hsub r hr, hv⟩, r', hsub r' hr', ?_⟩
  have hl : s.question.column < r'.length := by rw [hdd.row_len r' hr']; exact h1
  refine ⟨r'[s.question.column], List.getElem?_eq_getElem hl, ?_⟩
  simp only [satisfies, List.getElem?_eq_getElem hl] at hf
  exact (not_le (nn_of_isNaN_false (hdd.no_nan r hr _ (List.mem_of_getElem? hv)))
    (nn_of_isNaN_false (hdd.no_nan r' hr' _ (List.getElem_mem hl)))).mp hf

theorem place_solve {rows : List (List F)} {row row' : List F} {c : Nat} {q : Question F} (hrow : c ≤ row.length) (hrow' : c ≤ row'.length)
    (h : SamePlace rows row row') (hc : q.column < c) (hv : InnerValue rows q.column q.value) :
    q.solve row = q.solve row' ∧ satisfies q row = satisfies q row' := by
  have h1 : q.column < row.length := by omega
  have h2 : q.column < row'.length := by omega
  have := h q.column q.value row[q.column] row'[q.column] hv (List.getElem?_eq_getElem h1) (List.getElem?_eq_getElem h2)
  refine ⟨?_, ?_⟩
  · simp only [Question.solve, idx_lt h1, idx_lt h2, R.ok_bind, this]
  · simp only [satisfies, List.getElem?_eq_getElem h1, List.getElem?_eq_getElem h2, this]

theorem grown_place {d : DataSet F} {c t m : Nat} {tree : TreeNode F L} (hp : tree.Proper) (h : GrownGreedily d c t m tree)
    {row row' : List F} (hrow : c ≤ row.length) (hrow' : c ≤ row'.length) (hs : SamePlace d.featureRows row row') :
    tree.route row = tree.route row' ∧ findLeafNodeForData row tree = findLeafNodeForData row' tree :=
  ⟨TreeNode.route_congr hp (fun _ _ hq => (place_solve hrow hrow' hs (grown_questions h hq).1 (grown_questions h hq).2).2),
    TreeNode.find_congr hp (fun _ _ hq => (place_solve hrow hrow' hs (grown_questions h hq).1 (grown_questions h hq).2).1)⟩

/-- **C58** (trees).  Two rows in the same place among the training rows take the same path through a tree and end in the same leaf. -/
theorem C58_tree (d : DataSet F) (c t : Nat) (hw : d.WF c t) (cfg : TreeConfig) (hc : cfg.numberOfClasses = t) (k : LeafOutputType)
    (row row' : List F) (hrow : c ≤ row.length) (hrow' : c ≤ row'.length) (hs : SamePlace d.featureRows row row') :
    (∀ tree, regressionTreeNew d cfg = .ok tree →
      tree.route row = tree.route row' ∧ findLeafNodeForData row tree = findLeafNodeForData row' tree) ∧
    (∀ tree, gradBoostTreeNew d cfg k = .ok tree →
      tree.route row = tree.route row' ∧ findLeafNodeForData row tree = findLeafNodeForData row' tree) ∧
    (∀ tree, amgTreeNew d cfg k = .ok tree →
      tree.route row = tree.route row' ∧ findLeafNodeForData row tree = findLeafNodeForData row' tree) := by
  have hg := C48_grown_greedily d c t hw cfg hc k
  refine ⟨fun tree h => grown_place ?_ (hg.1 tree h) hrow hrow' hs, fun tree h => grown_place ?_ (hg.2.1 tree h) hrow hrow' hs,
    fun tree h => grown_place ?_ (hg.2.2 tree h) hrow hrow' hs⟩
  · rw [regressionTreeNew_ok hw hc] at h
    rw [← Except.ok.inj h]
    exact treeOf_proper _ _
  · rw [gradBoostTreeNew_ok hw hc] at h
    rw [← Except.ok.inj h]
    exact treeOf_proper _ _
  · rw [amgTreeNew_ok hw hc] at h
    rw [← Except.ok.inj h]
    exact treeOf_proper _ _

/-- **C58** (tree on sorted features). -/
theorem C58_sorted_tree (d : DataSet F) (c t : Nat) (hw : d.WF c t) (ht : t < 2 ^ 32) (cfg : TreeConfig) (s : SortedDataSet F)
    (hs : createDatasetWithSortedFeatures d = .ok s) (tree : TreeNode F (RegressionLeafNewPartition F))
    (htree : regressionTreeNewPartitionNew s cfg = .ok tree)
    (row row' : List F) (hrow : c ≤ row.length) (hrow' : c ≤ row'.length) (hp : SamePlace d.featureRows row row') :
    tree.route row = tree.route row' ∧ findLeafNodeForData row tree = findLeafNodeForData row' tree :=
  grown_place ((C18_depth d s cfg .regression).2.2.2 tree htree).1 (C48_grown_greedily_sorted d c t hw ht cfg s hs tree htree) hrow hrow' hp

theorem trees_place {d : DataSet F} {c t m : Nat} {leafOf : DataSet F → L} {trees : List (TreeNode F L)}
    (ht : ∀ tree ∈ trees, ∃ r, ({ d with labels := r } : DataSet F).WF c t ∧ tree = treeOf leafOf c t m { d with labels := r })
    {row row' : List F} (hrow : c ≤ row.length) (hrow' : c ≤ row'.length) (hs : SamePlace d.featureRows row row') :
    ∀ tree ∈ trees, findLeafNodeForData row tree = findLeafNodeForData row' tree := by
  intro tree htree
  obtain ⟨r, hw, rfl⟩ := ht tree htree
  exact (grown_place (treeOf_proper _ _) (treeOf_greedy _ _ hw) hrow hrow' hs).2

theorem rawScore_congr {out : List F → TreeNode F L → R (List F)} {g : List F} {lr : F} {trees : List (TreeNode F L)} {row row' : List F}
    (h : ∀ tree ∈ trees, out row tree = out row' tree) : rawScore out g lr trees row = rawScore out g lr trees row' := by
  simp only [rawScore]
  rw [mapM_congr (fun tree htree => by rw [h tree htree])]

/-- **C58** (ensembles).  Two rows in the same place among the training rows get identical predictions, bit for bit, from all three
ensembles. -/
theorem C58_ensembles (d : DataSet F) (c t : Nat) (hw : d.WF c t) (cfg : TreeConfig) (hc : cfg.numberOfClasses = t) (n : Nat) (lr : F)
    (row row' : List F) (hrow : c ≤ row.length) (hrow' : c ≤ row'.length) (hs : SamePlace d.featureRows row row') :
    (∀ m, regressionTrain d cfg n lr = .ok m → regressionPredict m row = regressionPredict m row') ∧
    (∀ m, multiClassTrain d cfg n lr = .ok m → multiClassPredict m row = multiClassPredict m row') ∧
    (∀ m, amgTrain d cfg n lr = .ok m → amgPredict m row = amgPredict m row') := by
  refine ⟨fun m h => ?_, fun m h => ?_, fun m h => ?_⟩
  · have := trees_place (regression_trees_of hw hc h) hrow hrow' hs
    simp only [regressionPredict, predictInstance_eq]
    exact rawScore_congr (fun tree ht => by simp only [gradOut, this tree ht])
  · have := trees_place (multiClass_trees_of hw hc h) hrow hrow' hs
    simp only [multiClassPredict, predictInstance_eq]
    rw [rawScore_congr (row' := row') (fun tree ht => by simp only [gradOut, this tree ht])]
  · have := trees_place (amg_trees_of hw hc h) hrow hrow' hs
    simp only [amgPredict, amgPredictInstance_eq]
    rw [rawScore_congr (row' := row') (fun tree ht => by simp only [amgOut, this tree ht])]

/-- **C58** (values outside of the training range).  Replacing a value at or below the smallest training value (or NaN) by another such
value does not change the place of a row; nor does replacing a value at or above the largest training value by another such value.
In particular a row with NaN is predicted like the row with the smallest training value, or negative infinity, instead. -/
theorem C58_outside (d : DataSet F) (row : List F) (j : Nat) (x y : F)
    (h : (AtBottom d.featureRows j x ∧ AtBottom d.featureRows j y) ∨ (AtTop d.featureRows j x ∧ AtTop d.featureRows j y)) :
    SamePlace d.featureRows (row.set j x) (row.set j y) := by
  intro i v a b hv ha hb
  by_cases hij : j = i
  · subst hij
    by_cases hj : j < row.length
    · rw [List.getElem?_set_self hj] at ha hb
      cases ha
      cases hb
      obtain ⟨⟨r, hr, hrv⟩, r', hr', u, hu, huv⟩ := hv
      have hbot : ∀ x, AtBottom d.featureRows j x → (v <=. x) = false := by
        intro x hx
        by_contra hvx
        rw [Bool.not_eq_false] at hvx
        rcases hx with hx | hx
        · have := nn_right hvx
          rw [isNaN, this] at hx
          cases hx
        · have h1 := hx r' hr' u hu
          have h2 := lt_of_lt_of_le huv (LawfulOrder.le_trans hvx h1)
          rw [lt_irrefl'] at h2
          cases h2
      rcases h with ⟨h1, h2⟩ | ⟨h1, h2⟩
      · rw [hbot x h1, hbot y h2]
      · rw [h1 r hr v hrv, h2 r hr v hrv]
    · rw [List.getElem?_eq_none (by simp; omega)] at ha
      cases ha
  · rw [List.getElem?_set_ne hij] at ha hb
    rw [ha] at hb
    cases hb
    rfl

/-- negative infinity is at the bottom of every feature without NaN -/
theorem C58_negInfinity (d : DataSet F) (c t : Nat) (hw : d.WF c t) (j : Nat) : AtBottom d.featureRows j F64.negInfinity :=
  .inr (fun r hr v hv => LawfulOrder.negInf_le (nn_of_isNaN_false (hw.no_nan r hr v (List.mem_of_getElem? hv))))

/-- **C58** (missing values).  A row with NaN in feature `j` is predicted like the row with negative infinity there. -/
theorem C58_nan (d : DataSet F) (c t : Nat) (hw : d.WF c t) (cfg : TreeConfig) (hc : cfg.numberOfClasses = t) (n : Nat) (lr : F)
    (row : List F) (hrow : c ≤ row.length) (j : Nat) (x : F) (hx : isNaN x = true) :
    (∀ m, regressionTrain d cfg n lr = .ok m → regressionPredict m (row.set j x) = regressionPredict m (row.set j F64.negInfinity)) ∧
    (∀ m, multiClassTrain d cfg n lr = .ok m → multiClassPredict m (row.set j x) = multiClassPredict m (row.set j F64.negInfinity)) ∧
    (∀ m, amgTrain d cfg n lr = .ok m → amgPredict m (row.set j x) = amgPredict m (row.set j F64.negInfinity)) :=
  C58_ensembles d c t hw cfg hc n lr _ _ (by simpa using hrow) (by simpa using hrow)
    (C58_outside d row j _ _ (.inl ⟨.inl hx, C58_negInfinity d c t hw j⟩))

/-- a value between two training values: `3/2` instead of `1` -/
example : SamePlace d4.featureRows [.fin (3 / 2), 6] [1, 5] := by
  intro j v x y hv hx hy
  obtain ⟨⟨r, hr, hrv⟩, r', hr', u, hu, huv⟩ := hv
  have h2 : j < 2 := by
    by_contra hj
    rw [List.getElem?_eq_none (by simpa using hj)] at hx
    cases hx
  have hcases : ∀ j < 2, ∀ r ∈ d4.featureRows, ∀ r' ∈ d4.featureRows, (((r'.getD j 0) <. (r.getD j 0)) = true) →
      ((r.getD j 0) <=. ([.fin (3 / 2), 6] : List E).getD j 0) = ((r.getD j 0) <=. ([1, 5] : List E).getD j 0) := by decide +kernel
  have := hcases j h2 r hr r' hr'
  simp only [List.getD, hx, hy, hrv, hu, Option.getD_some] at this
  exact this huv

/-- NaN and a value below the training range -/
example : SamePlace d4.featureRows [.nan, 6] [.fin (-3), 6] :=
  C58_outside d4 [0, 6] 0 .nan (.fin (-3)) (.inl ⟨.inl rfl, .inr (fun r hr v hv => by
    have : ∀ r ∈ d4.featureRows, ((.fin (-3) : E) <=. r.getD 0 0) = true := by decide +kernel
    have := this r hr
    simpa only [List.getD, hv, Option.getD_some] using this)⟩)

/-- the ensembles do tell rows in different places apart -/
example : ∃ m, regressionTrain d4 (exCfg 1) 2 1 = .ok m ∧ regressionPredict m [.nan, 6] = regressionPredict m [.fin (-3), 6] ∧
    regressionPredict m [.nan, 6] ≠ regressionPredict m [1, 6] := by
  obtain ⟨m, hm, _⟩ := C42_regression d4 2 1 d4_wf (exCfg 1) rfl 2 1
  refine ⟨m, hm, ?_⟩
  have : (match regressionTrain d4 (exCfg 1) 2 1 with
    | .ok m => decide (regressionPredict m [.nan, 6] = regressionPredict m [.fin (-3), 6]) &&
        !decide (regressionPredict m [.nan, 6] = regressionPredict m [1, 6])
    | .error _ => false) = true := by decide +kernel
  rw [hm] at this
  simpa using this

end Verif
