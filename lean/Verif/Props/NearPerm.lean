import Verif.Lemmas.NearPerm
import Verif.Lemmas.Greedy
import Verif.Props.NearRule
import Verif.Props.Mse
/-!
# C122: with integer labels the order of the rows leaves no trace in binary64
-/

set_option linter.unusedSectionVars false

namespace Verif

open B64 Sample

section
variable [B64Env]

/-- **C122** (search).  In binary64, with integer labels whose sums are exact: if rows with equal values of a feature, other than its smallest, have
equal labels, permuting the rows changes neither the feature nor the threshold nor the gain that is reported. -/
theorem C122_search (d d' : DataSet B64) (c t b : ℕ) (h : d.WF c t) (h' : d'.WF c t) (hI : IntLabels b d.labels)
    (hf : ExactSums d.labels.length b) (ha : d.exact.TiesAgree c) (hp : d.examples.Perm d'.examples) :
    ∃ s s', findBestSplit d t = .ok s ∧ findBestSplit d' t = .ok s' ∧ s'.question.column = s.question.column ∧
      s'.question.value.val = s.question.value.val ∧ s'.gain.val = s.gain.val := by
  obtain ⟨h1, h2⟩ := splitOf_perm64 h h' hI hf ha hp
  exact ⟨_, _, findBestSplit_ok h, findBestSplit_ok h', (congrArg Question.column h2).symm, (congrArg Question.value h2).symm, h1.symm⟩

theorem labels_perm64 {d d' : DataSet B64} {c t : ℕ} (h : d.WF c t) (h' : d'.WF c t) (hp : d.examples.Perm d'.examples) :
    d.labels.Perm d'.labels := by
  rw [← examples_snd h, ← examples_snd h']
  exact hp.map _

/-- **C122** (regression trees).  The trees learned from permuted rows ask the same questions and send every row the same way; leaves at the same
position hold the same examples up to order. -/
theorem C122_tree (d d' : DataSet B64) (c t b : ℕ) (h : d.WF c t) (h' : d'.WF c t) (hI : IntLabels b d.labels)
    (hf : ExactSums d.labels.length b) (ha : d.exact.TiesAgree c) (hp : d.examples.Perm d'.examples) (cfg : TreeConfig)
    (ht : cfg.numberOfClasses = t) :
    ∃ tree tree', regressionTreeNew d cfg = .ok tree ∧ regressionTreeNew d' cfg = .ok tree' ∧
      SameTree (fun l l' : RegressionLeaf B64 => ∃ dd dd', l.data = some dd ∧ l'.data = some dd' ∧ dd.examples.Perm dd'.examples) tree tree' :=
  ⟨_, _, regressionTreeNew_ok h ht, regressionTreeNew_ok h' ht,
    treeOf_perm64 (b := b) (leafOf := regLeaf) (fun d d' _ _ _ _ hp => ⟨d, d', rfl, rfl, hp⟩) cfg.maxLevels d h hI hf ha d' h' hp⟩

/-- **C122** (trees on pre-sorted features).  They ask the same questions and send every row the same way, too. -/
theorem C122_tree_sorted (d d' : DataSet B64) (c t b : ℕ) (h : d.WF c t) (h' : d'.WF c t) (hI : IntLabels b d.labels)
    (hf : ExactSums d.labels.length b) (ha : d.exact.TiesAgree c) (hp : d.examples.Perm d'.examples) (ht : t < 2 ^ 32) (cfg : TreeConfig)
    (hc : cfg.numberOfClasses = t) :
    ∃ s s' tree tree', createDatasetWithSortedFeatures d = .ok s ∧ createDatasetWithSortedFeatures d' = .ok s' ∧
      regressionTreeNewPartitionNew s cfg = .ok tree ∧ regressionTreeNewPartitionNew s' cfg = .ok tree' ∧
      (∀ p, (tree'.questionAt p).map Question.exact = (tree.questionAt p).map Question.exact) ∧ ∀ row, tree'.route row = tree.route row := by
  obtain ⟨s, x, y, hs, hx, hy, e⟩ := C23_builders_agree d c t h ht cfg hc
  obtain ⟨s', x', y', hs', hx', hy', e'⟩ := C23_builders_agree d' c t h' ht cfg hc
  obtain ⟨z, z', hz, hz', hq, hr, _⟩ := C122_tree d d' c t b h h' hI hf ha hp cfg hc
  rw [hx] at hz
  rw [hx'] at hz'
  have hz := Except.ok.inj hz
  have hz' := Except.ok.inj hz'
  subst hz hz'
  refine ⟨s, s', y, y', hs, hs', hy, hy', fun p => ?_, fun row => ?_⟩
  · have e1 := congrArg (fun w => w.questionAt p) e
    have e2 := congrArg (fun w => w.questionAt p) e'
    simp only [TreeNode.questionAt_mapLeaves] at e1 e2
    rw [e1, e2, hq p]
  · have e1 := congrArg (fun w => w.route row) e
    have e2 := congrArg (fun w => w.route row) e'
    simp only [TreeNode.route_mapLeaves] at e1 e2
    rw [e1, e2, hr row]

theorem companions_perm64 {d d' : DataSet B64} {L : Type} {tree tree' : TreeNode B64 L} (hp : d.examples.Perm d'.examples)
    (hr : ∀ row, tree'.route row = tree.route row) (row : List B64) : (companions d tree row).Perm (companions d' tree' row) := by
  have : (fun e : List B64 × List B64 => decide (tree'.route e.1 = tree'.route row)) = fun e => decide (tree.route e.1 = tree.route row) := by
    funext e
    rw [hr, hr]
  rw [companions, companions, this]
  exact (hp.filter _).map _

theorem leafValue_perm64 {t b : ℕ} {labels labels' : List (List B64)} (hI : IntLabels b labels) (hf : ExactSums labels.length b)
    (hw : ∀ l ∈ labels, l.length = t) (hne : labels ≠ []) (hp : labels.Perm labels') :
    (leafValue .regression t labels).map B64.val = (leafValue .regression t labels').map B64.val := by
  have := avgVec_perm64 hI hf hw hne hp
  rw [avgVec_range hw, avgVec_range (fun l hl => hw l (hp.mem_iff.mpr hl))] at this
  exact this

theorem companions_int {d : DataSet B64} {c t b : ℕ} (h : d.WF c t) (hI : IntLabels b d.labels) (hf : ExactSums d.labels.length b) {L : Type}
    (tree : TreeNode B64 L) (row : List B64) : IntLabels b (companions d tree row) ∧ ExactSums (companions d tree row).length b := by
  constructor
  · intro l hl
    obtain ⟨e, he, rfl⟩ := List.mem_map.mp hl
    exact hI _ (examples_snd_mem (List.mem_filter.mp he).1)
  · refine hf.fewer ?_
    rw [companions, List.length_map]
    refine (List.length_filter_le _ _).trans ?_
    simp [DataSet.examples, h.label_count]

/-- **C122** (predictions).  For every row that has all the features, the averages predicted by the two trees have the same value, and so do, with
fewer than `2^32` rows and at least one class, the predicted classes. -/
theorem C122_predictions (d d' : DataSet B64) (c t b : ℕ) (h : d.WF c t) (h' : d'.WF c t) (hI : IntLabels b d.labels)
    (hf : ExactSums d.labels.length b) (ha : d.exact.TiesAgree c) (hp : d.examples.Perm d'.examples) (cfg : TreeConfig)
    (ht : cfg.numberOfClasses = t) (tree tree' : TreeNode B64 (RegressionLeaf B64)) (hb : regressionTreeNew d cfg = .ok tree)
    (hb' : regressionTreeNew d' cfg = .ok tree') (row : List B64) (hrow : c ≤ row.length) :
    (∃ dd dd' a a', findLeafNodeForData row tree = .ok { data := some dd } ∧ findLeafNodeForData row tree' = .ok { data := some dd' } ∧
      calculateAverageVector dd.labels = .ok a ∧ calculateAverageVector dd'.labels = .ok a' ∧ a'.map B64.val = a.map B64.val) ∧
    (0 < t → t ≤ 2 ^ 53 → d.featureRows.length < 2 ^ 32 → predictClass row tree' = predictClass row tree) := by
  obtain ⟨z, z', hz, hz', hq, hr, _⟩ := C122_tree d d' c t b h h' hI hf ha hp cfg ht
  rw [hb] at hz
  rw [hb'] at hz'
  have hz := Except.ok.inj hz
  have hz' := Except.ok.inj hz'
  subst hz hz'
  have hcp := companions_perm64 hp hr row
  obtain ⟨hI2, hf2⟩ := companions_int h hI hf tree row
  constructor
  · obtain ⟨dd, hfd, hw, hl⟩ := lookup_companions d c t h cfg ht tree hb row hrow
    obtain ⟨dd', hfd', hw', hl'⟩ := lookup_companions d' c t h' cfg ht tree' hb' row hrow
    refine ⟨dd, dd', _, _, hfd, hfd', calculateAverageVector_ok hw.labels_ne hw.label_len, calculateAverageVector_ok hw'.labels_ne hw'.label_len, ?_⟩
    rw [← hl] at hI2 hf2
    exact (avgVec_perm64 hI2 hf2 hw.label_len hw.labels_ne (by rw [hl, hl']; exact hcp)).symm
  · intro h0 h1 hn
    have hlen : d'.featureRows.length = d.featureRows.length := by
      rw [← h.label_count, ← h'.label_count]
      exact (labels_perm64 h h' hp).length_eq.symm
    obtain ⟨k, hk, e⟩ := C27_first_majority d c t h h0 h1 hn cfg ht tree hb row hrow
    obtain ⟨k', hk', e'⟩ := C27_first_majority d' c t h' h0 h1 (by omega) cfg ht tree' hb' row hrow
    have hcc : ∀ j, classCount (companions d' tree' row) j = classCount (companions d tree row) j := fun j => (hcp.countP_eq _).symm
    have : FirstMajority (companions d tree row) t k' := by
      refine ⟨hk'.1, fun j hj => ?_, fun j hj => ?_⟩
      · rw [← hcc, ← hcc]; exact hk'.2.1 j hj
      · rw [← hcc, ← hcc]; exact hk'.2.2 j hj
    rw [e, e', C27_unique _ _ _ _ hk this]

theorem foldl_add_val {xs ys : List B64} (h : xs.map B64.val = ys.map B64.val) (a : B64) : (xs.foldl F64.add a).val = (ys.foldl F64.add a).val := by
  have key : ∀ (xs ys : List B64) (a a' : B64), a.val = a'.val → xs.map B64.val = ys.map B64.val →
      (xs.foldl F64.add a).val = (ys.foldl F64.add a').val := by
    intro xs
    induction xs with
    | nil =>
      intro ys a a' ha h
      cases ys with
      | nil => exact ha
      | cons y ys => simp at h
    | cons x xs ih =>
      intro ys a a' ha h
      cases ys with
      | nil => simp at h
      | cons y ys =>
        simp only [List.map_cons, List.cons.injEq] at h
        exact ih ys _ _ (by rw [add_val, add_val, ha, h.1]) h.2
  exact key xs ys _ _ rfl h

/-- **C122** (scores).  The two trees get the same error, by value, on every test set whose rows have all the features and whose labels have all the
targets, and the same accuracy. -/
theorem C122_scores (d d' : DataSet B64) (c t b : ℕ) (h : d.WF c t) (h' : d'.WF c t) (hI : IntLabels b d.labels)
    (hf : ExactSums d.labels.length b) (ha : d.exact.TiesAgree c) (hp : d.examples.Perm d'.examples) (cfg : TreeConfig)
    (ht : cfg.numberOfClasses = t) (ht0 : 0 < t) (ht1 : t ≤ 2 ^ 53) (tree tree' : TreeNode B64 (RegressionLeaf B64))
    (hb : regressionTreeNew d cfg = .ok tree) (hb' : regressionTreeNew d' cfg = .ok tree') (test : DataSet B64)
    (hrows : ∀ row ∈ test.featureRows, c ≤ row.length) (h0 : test.featureRows ≠ []) (hn : test.featureRows.length ≤ 2 ^ 53) :
    (test.featureRows.length ≤ test.labels.length → (∀ l ∈ test.labels, t ≤ l.length) →
      ∃ a a', calculateOverallMse test tree = .ok a ∧ calculateOverallMse test tree' = .ok a' ∧ a'.val = a.val) ∧
    (d.featureRows.length < 2 ^ 32 → ∀ a, calculateAccuracy test tree' = .ok a ↔ calculateAccuracy test tree = .ok a) := by
  constructor
  · intro hl hw
    refine ⟨_, _, (C51_tree_score d c t h cfg ht tree hb test hrows _).mpr ⟨hl, fun l hm => hw l (List.mem_of_mem_take hm), rfl⟩,
      (C51_tree_score d' c t h' cfg ht tree' hb' test hrows _).mpr ⟨hl, fun l hm => hw l (List.mem_of_mem_take hm), rfl⟩, ?_⟩
    obtain ⟨z, z', hz, hz', _, hr, _⟩ := C122_tree d d' c t b h h' hI hf ha hp cfg ht
    rw [hb] at hz
    rw [hb'] at hz'
    have hz := Except.ok.inj hz
    have hz' := Except.ok.inj hz'
    subst hz hz'
    have hnat : ∀ {k : ℕ}, k ≠ 0 → k ≤ 2 ^ 53 → (F64.ofNat k : B64).val ≠ .fin 0 := by
      intro k hk hk'
      rw [ofNat_val, roundE_nat hk']
      intro h0
      simp only [Ext.fin.injEq, Nat.cast_eq_zero] at h0
      exact hk h0
    have hn0 := hnat (by have := List.length_pos_of_ne_nil h0; omega) hn
    rw [averageError, averageError, div_val _ _ hn0, div_val _ _ hn0]
    congr 2
    apply foldl_add_val
    rw [List.zipWith_map_left, List.zipWith_map_left, List.map_zipWith, List.map_zipWith, ← List.map_uncurry_zip_eq_zipWith,
      ← List.map_uncurry_zip_eq_zipWith]
    apply List.map_congr_left
    intro e he
    obtain ⟨dd, _, hwd, hld⟩ := lookup_companions d c t h cfg ht tree hb e.1 (hrows _ (List.of_mem_zip he).1)
    obtain ⟨hI2, hf2⟩ := companions_int h hI hf tree e.1
    have hv := leafValue_perm64 (t := t) hI2 hf2 (by rw [← hld]; exact hwd.label_len) (by rw [← hld]; exact hwd.labels_ne) (companions_perm64 hp hr e.1)
    have hlv : ∀ vs : List (List B64), (leafValue .regression t vs).length = t := fun vs => by simp [leafValue]
    have ht2 := hnat (by omega) ht1
    simp only [Function.uncurry, squaredError, hlv]
    rw [div_val _ _ ht2, div_val _ _ ht2]
    congr 2
    apply foldl_add_val
    apply List.ext_getElem
    · simp [hlv]
    · intro i hi hi'
      simp only [List.length_map, List.length_zipWith, hlv, lt_min_iff] at hi
      have := List.getElem_of_eq hv (i := i) (by simp [hlv, hi.1])
      simp only [List.getElem_map] at this
      simp only [List.getElem_map, List.getElem_zipWith, mul_val, sub_val]
      rw [this]
  · intro hd a
    have hpc : ∀ row ∈ test.featureRows, predictClass row tree' = predictClass row tree := fun row hm =>
      (C122_predictions d d' c t b h h' hI hf ha hp cfg ht tree tree' hb hb' row (hrows row hm)).2 ht0 ht1 hd
    have hm : test.featureRows.mapM (fun row => predictClass row tree') = test.featureRows.mapM (fun row => predictClass row tree) := by
      generalize test.featureRows = rows at hpc
      induction rows with
      | nil => rfl
      | cons r rows ih =>
        simp only [List.mapM_cons]
        rw [hpc r (by simp), ih (fun row hm => hpc row (by simp [hm]))]
    rw [C28_tree_accuracy _ _ _ hn, C28_tree_accuracy _ _ _ hn, hm]

theorem maxIdx_val {xs ys : List B64} (h : xs.map B64.val = ys.map B64.val) :
    (findMaxValueAndIndex xs).1.val = (findMaxValueAndIndex ys).1.val ∧ (findMaxValueAndIndex xs).2 = (findMaxValueAndIndex ys).2 := by
  have key : ∀ (xs ys : List B64) (k : ℕ) (a a' : B64 × ℕ), a.1.val = a'.1.val ∧ a.2 = a'.2 → xs.map B64.val = ys.map B64.val →
      ((xs.zipIdx k).foldl (fun (acc : B64 × ℕ) p => if p.1 >. acc.1 then (p.1, p.2) else acc) a).1.val =
        ((ys.zipIdx k).foldl (fun (acc : B64 × ℕ) p => if p.1 >. acc.1 then (p.1, p.2) else acc) a').1.val ∧
      ((xs.zipIdx k).foldl (fun (acc : B64 × ℕ) p => if p.1 >. acc.1 then (p.1, p.2) else acc) a).2 =
        ((ys.zipIdx k).foldl (fun (acc : B64 × ℕ) p => if p.1 >. acc.1 then (p.1, p.2) else acc) a').2 := by
    intro xs
    induction xs with
    | nil =>
      intro ys k a a' ha h
      cases ys with
      | nil => exact ha
      | cons y ys => simp at h
    | cons x xs ih =>
      intro ys k a a' ha h
      cases ys with
      | nil => simp at h
      | cons y ys =>
        simp only [List.map_cons, List.cons.injEq] at h
        rw [List.zipIdx_cons, List.zipIdx_cons, List.foldl_cons, List.foldl_cons]
        refine ih ys _ _ _ ?_ h.2
        simp only []
        rw [lt_val, lt_val, ha.1, h.1]
        split
        · exact ⟨h.1, rfl⟩
        · exact ha
  exact key xs ys 0 _ _ ⟨rfl, rfl⟩ h

/-- **C122** (boosting trees).  The trees of the boosting builders ask the same questions and send every row the same way; leaves at the same position
that store averages store the same values, and the AMG leaves the same class. -/
theorem C122_boosting_trees (d d' : DataSet B64) (c t b : ℕ) (h : d.WF c t) (h' : d'.WF c t) (hI : IntLabels b d.labels)
    (hf : ExactSums d.labels.length b) (ha : d.exact.TiesAgree c) (hp : d.examples.Perm d'.examples) (cfg : TreeConfig)
    (ht : cfg.numberOfClasses = t) (k : LeafOutputType) :
    (∃ tree tree', gradBoostTreeNew d cfg k = .ok tree ∧ gradBoostTreeNew d' cfg k = .ok tree' ∧
      SameTree (fun l l' : GradBoostLeaf B64 => k = .regression → l'.leafOutput.map (List.map B64.val) = l.leafOutput.map (List.map B64.val))
        tree tree') ∧
    (∃ tree tree', amgTreeNew d cfg k = .ok tree ∧ amgTreeNew d' cfg k = .ok tree' ∧
      SameTree (fun l l' : AMGBoostLeaf B64 => k = .regression → l'.maxValue.map B64.val = l.maxValue.map B64.val ∧ l'.cls = l.cls) tree tree') := by
  constructor
  · refine ⟨_, _, gradBoostTreeNew_ok h ht k, gradBoostTreeNew_ok h' ht k,
      treeOf_perm64 (b := b) (leafOf := gradLeaf k t) ?_ cfg.maxLevels d h hI hf ha d' h' hp⟩
    rintro d d' hw hw' hI hf hp rfl
    simp only [gradLeaf, leafOut, Option.map_some, Option.some.injEq]
    exact (avgVec_perm64 hI hf hw.label_len hw.labels_ne (labels_perm64 hw hw' hp)).symm
  · refine ⟨_, _, amgTreeNew_ok h ht k, amgTreeNew_ok h' ht k,
      treeOf_perm64 (b := b) (leafOf := amgLeaf k t) ?_ cfg.maxLevels d h hI hf ha d' h' hp⟩
    rintro d d' hw hw' hI hf hp rfl
    obtain ⟨e1, e2⟩ := maxIdx_val (avgVec_perm64 hI hf hw.label_len hw.labels_ne (labels_perm64 hw hw' hp))
    simp only [amgLeaf, leafOut, Option.map_some, Option.some.injEq]
    exact ⟨e1.symm, e2.symm⟩

end

/-! ## cases that meet the hypotheses, and cases outside -/

/-- five rows with two integer targets; the smallest value of the feature repeats with different labels, another value with equal labels -/
def ints5 : DataSet B64 :=
  { featureRows := [[b64 0], [b64 0], [b64 (1 / 10)], [b64 2], [b64 2]]
    labels := [[b64 3, b64 (-8)], [b64 5, b64 0], [b64 1, b64 1], [b64 (-7), b64 2], [b64 (-7), b64 2]]
    featureColumns := [[b64 0, b64 0, b64 (1 / 10), b64 2, b64 2]] }

/-- the same rows in another order -/
def ints5' : DataSet B64 :=
  { featureRows := [[b64 2], [b64 0], [b64 (1 / 10)], [b64 2], [b64 0]]
    labels := [[b64 (-7), b64 2], [b64 5, b64 0], [b64 1, b64 1], [b64 (-7), b64 2], [b64 3, b64 (-8)]]
    featureColumns := [[b64 2, b64 0, b64 (1 / 10), b64 2, b64 0]] }

-- the hypotheses of C122 are met by `ints5` and `ints5'`
example : ∀ negZero : Bool, let _ := env negZero
    ints5.WF 1 2 ∧ ints5'.WF 1 2 ∧ IntLabels 8 ints5.labels ∧ ExactSums ints5.labels.length 8 ∧ ints5.exact.TiesAgree 1 ∧
      ints5.examples.Perm ints5'.examples := by
  intro negZero
  dsimp only
  refine ⟨?_, ?_, ?_, ⟨by decide, by decide⟩, ?_, by decide +kernel⟩
  · refine @DataSet.WF.mk _ (@instF64B64OfB64Env (env negZero)) _ _ _ ?_ ?_ ?_ ?_ ?_ ?_ ?_ <;> revert negZero <;> decide +kernel
  · refine @DataSet.WF.mk _ (@instF64B64OfB64Env (env negZero)) _ _ _ ?_ ?_ ?_ ?_ ?_ ?_ ?_ <;> revert negZero <;> decide +kernel
  · have : ∀ l ∈ ints5.labels, l.map B64.val = ofInts [3, -8] ∨ l.map B64.val = ofInts [5, 0] ∨ l.map B64.val = ofInts [1, 1] ∨
        l.map B64.val = ofInts [-7, 2] := by decide +kernel
    intro l hl
    rcases this l hl with h | h | h | h
    · exact ⟨_, h, by decide⟩
    · exact ⟨_, h, by decide⟩
    · exact ⟨_, h, by decide⟩
    · exact ⟨_, h, by decide⟩
  · rw [DataSet.TiesAgree]
    decide +kernel
example : ∀ negZero : Bool, let _ := env negZero
    (findBestSplit ints5 2).map (fun s => (s.question.column, s.question.value)) = .ok (0, b64 2) ∧
    (findBestSplit ints5' 2).map (fun s => s.gain.val) = (findBestSplit ints5 2).map (fun s => s.gain.val) := by decide +kernel

/-- four rows with the labels 0.1, 0.7, 0.7, 0.1 -/
def tenths4 : DataSet B64 :=
  { featureRows := [[b64 0], [b64 1], [b64 2], [b64 3]]
    labels := [[b64 (1 / 10)], [b64 (7 / 10)], [b64 (7 / 10)], [b64 (1 / 10)]]
    featureColumns := [[b64 0, b64 1, b64 2, b64 3]] }

/-- the same rows in another order -/
def tenths4' : DataSet B64 :=
  { featureRows := [[b64 3], [b64 0], [b64 2], [b64 1]]
    labels := [[b64 (1 / 10)], [b64 (1 / 10)], [b64 (7 / 10)], [b64 (7 / 10)]]
    featureColumns := [[b64 3, b64 0, b64 2, b64 1]] }

/-- **C122**, finding.  With labels that are no integers the order of the rows decides which question is asked, although no value of the feature is
repeated. -/
theorem C122_violated_without_integers : tenths4.examples.Perm tenths4'.examples ∧ tenths4.exact.TiesAgree 1 ∧ ∀ negZero : Bool, let _ := env negZero
    (findBestSplit tenths4 1).map (fun s => s.question.value) = .ok (b64 1) ∧
    (findBestSplit tenths4' 1).map (fun s => s.question.value) = .ok (b64 3) := by
  refine ⟨by decide +kernel, ?_, by decide +kernel⟩
  rw [DataSet.TiesAgree]
  decide +kernel

end Verif
