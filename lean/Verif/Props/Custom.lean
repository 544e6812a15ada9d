import Verif.Lemmas.Custom
import Verif.Props.Credit
/-!
# C105: training with a split finder of the caller
-/

set_option linter.unusedSectionVars false

namespace Verif

variable {F : Type} [F64 F]

open Sample

/-! ## the library's finder, and threads -/

/-- **C105**.  With the finder of `SplitFinder::new` these are the builders and the training functions of the other theorems. -/
theorem C105_library_finder (d : DataSet F) (cfg : TreeConfig) (k : LeafOutputType) (n : Nat) (lr : F) :
    regressionTreeNewWith d { cfg with splitFinder := .new } = regressionTreeNew d cfg ∧
    gradBoostTreeNewWith d { cfg with splitFinder := .new } k = gradBoostTreeNew d cfg k ∧
    amgTreeNewWith d { cfg with splitFinder := .new } k = amgTreeNew d cfg k ∧
    regressionTrainWith d { cfg with splitFinder := .new } n lr = regressionTrain d cfg n lr ∧
    multiClassTrainWith d { cfg with splitFinder := .new } n lr = multiClassTrain d cfg n lr ∧
    amgTrainWith d { cfg with splitFinder := .new } n lr = amgTrain d cfg n lr := by
  have hg : ∀ (d : DataSet F) (cfg : TreeConfig) (k : LeafOutputType),
      gradBoostTreeNewWith d { cfg with splitFinder := .new } k = gradBoostTreeNew d cfg k := by
    intro d cfg k
    rw [gradBoostTreeNewWith_eq, gradBoostTreeNew_fuel, growFuel_new]
  have ha : ∀ (d : DataSet F) (cfg : TreeConfig) (k : LeafOutputType),
      amgTreeNewWith d { cfg with splitFinder := .new } k = amgTreeNew d cfg k := by
    intro d cfg k
    rw [amgTreeNewWith_eq, amgTreeNew_fuel, growFuel_new]
  have h1 : regressionLoopWith (F := F) .new = regressionLoop := by
    funext t n cfg lr
    simp only [regressionLoopWith, regressionLoop, hg]
  have h2 : multiClassLoopWith (F := F) .new = multiClassLoop := by
    funext t n cfg lr
    simp only [multiClassLoopWith, multiClassLoop, hg]
  have h3 : amgLoopWith (F := F) .new = amgLoop := by
    funext t n cfg lr
    simp only [amgLoopWith, amgLoop, ha]
  refine ⟨by rw [regressionTreeNewWith_eq, regressionTreeNew_fuel, growFuel_new], hg d cfg k, ha d cfg k, ?_, ?_, ?_⟩
  · simp only [regressionTrainWith, h1]
    rfl
  · simp only [multiClassTrainWith, h2]
    rfl
  · simp only [amgTrainWith, h3]
    rfl

/-- **C105**.  Whatever the finder, multi-threading changes nothing. -/
theorem C105_threads (d : DataSet F) (cfg : CustomConfig F) (b : Bool) (k : LeafOutputType) (n : Nat) (lr : F) :
    regressionTreeNewWith d { cfg with useMultiThreading := b } = regressionTreeNewWith d cfg ∧
    gradBoostTreeNewWith d { cfg with useMultiThreading := b } k = gradBoostTreeNewWith d cfg k ∧
    amgTreeNewWith d { cfg with useMultiThreading := b } k = amgTreeNewWith d cfg k ∧
    regressionTrainWith d { cfg with useMultiThreading := b } n lr = regressionTrainWith d cfg n lr ∧
    multiClassTrainWith d { cfg with useMultiThreading := b } n lr = multiClassTrainWith d cfg n lr ∧
    amgTrainWith d { cfg with useMultiThreading := b } n lr = amgTrainWith d cfg n lr := by
  refine ⟨?_, ?_, ?_, ?_, ?_, ?_⟩
  · simp only [regressionTreeNewWith_eq]
  · simp only [gradBoostTreeNewWith_eq]
  · simp only [amgTreeNewWith_eq]
  · simp only [regressionTrainWith, boostingLoop, regressionLoopWith, gradBoostTreeNewWith_eq]
  · simp only [multiClassTrainWith, boostingLoop, multiClassLoopWith, gradBoostTreeNewWith_eq]
  · simp only [amgTrainWith, boostingLoop, amgLoopWith, amgTreeNewWith_eq]

/-! ## returned trees -/

/-- **C105**.  A returned regression tree is grown with the answers of the finder and at most `maxLevels` deep.  Every leaf holds exactly the
examples that reach it, and there are some; every row with enough features reaches a leaf. -/
theorem C105_returned (d : DataSet F) (c t : Nat) (h : d.WF c t) (cfg : CustomConfig F) (ht : cfg.numberOfClasses = t)
    (tree : TreeNode F (RegressionLeaf F)) (hb : regressionTreeNewWith d cfg = .ok tree) :
    GrownBy cfg.splitFinder d c t cfg.maxLevels tree ∧ tree.depth ≤ cfg.maxLevels ∧
    (∀ p leaf, tree.leafAt p = some leaf → ∃ dd : DataSet F, leaf.data = some dd ∧ dd.WF c t ∧ dd.examples ≠ [] ∧
      dd.examples = d.examples.filter (fun e => decide (tree.route e.1 = p))) ∧
    ∀ row : List F, c ≤ row.length → ∃ leaf, findLeafNodeForData row tree = .ok leaf ∧ tree.leafAt (tree.route row) = some leaf := by
  rw [regressionTreeNewWith_eq, ht] at hb
  have hg := grown_of_ok _ h hb
  refine ⟨hg.grownBy h, hg.depth, ?_, ?_⟩
  · intro p leaf hl
    obtain ⟨dd, h1, h2, h3⟩ := hg.leafAt h p leaf hl
    cases h1
    refine ⟨dd, rfl, h2, List.ne_nil_of_length_pos ?_, h3⟩
    rw [DataSet.examples, List.length_zip, h2.label_count, Nat.min_self]
    exact List.length_pos_of_ne_nil h2.rows_ne
  · intro row hrow
    obtain ⟨_, l, _, _, h1, h2, _⟩ := hg.lookup h hrow
    exact ⟨l, h1, h2⟩

/-- **C105**.  The trees of the ensembles: grown with the answers of the finder; a leaf holds the output that belongs to the labels of the
examples that reach it (for an AMG tree, the largest entry and its position). -/
theorem C105_returned_boosted (d : DataSet F) (c t : Nat) (h : d.WF c t) (cfg : CustomConfig F) (ht : cfg.numberOfClasses = t)
    (k : LeafOutputType) :
    (∀ tree, gradBoostTreeNewWith d cfg k = .ok tree →
      GrownBy cfg.splitFinder d c t cfg.maxLevels tree ∧ tree.depth ≤ cfg.maxLevels ∧
      ∀ row : List F, c ≤ row.length → ∃ (leaf : GradBoostLeaf F) (dd : DataSet F) (out : List F),
        findLeafNodeForData row tree = .ok leaf ∧ dd.WF c t ∧ dd.examples = d.examples.filter (fun e => decide (tree.route e.1 = tree.route row)) ∧
        k.calculate dd = .ok out ∧ leaf.leafOutput = some out) ∧
    (∀ tree, amgTreeNewWith d cfg k = .ok tree →
      GrownBy cfg.splitFinder d c t cfg.maxLevels tree ∧ tree.depth ≤ cfg.maxLevels ∧
      ∀ row : List F, c ≤ row.length → ∃ (leaf : AMGBoostLeaf F) (dd : DataSet F) (out : List F),
        findLeafNodeForData row tree = .ok leaf ∧ dd.WF c t ∧ dd.examples = d.examples.filter (fun e => decide (tree.route e.1 = tree.route row)) ∧
        k.calculate dd = .ok out ∧ leaf.maxValue = some (findMaxValueAndIndex out).1 ∧ leaf.cls = some (findMaxValueAndIndex out).2) := by
  constructor
  · intro tree hb
    rw [gradBoostTreeNewWith_eq, ht] at hb
    have hg := grown_of_ok _ h hb
    refine ⟨hg.grownBy h, hg.depth, ?_⟩
    intro row hrow
    obtain ⟨dd, l, h1, h2, h3, _, h5⟩ := hg.lookup h hrow
    simp only [gradLeafR, R.bind_eq_ok] at h1
    obtain ⟨out, h6, h7⟩ := h1
    cases h7
    exact ⟨_, dd, out, h3, h2, h5, h6, rfl⟩
  · intro tree hb
    rw [amgTreeNewWith_eq, ht] at hb
    have hg := grown_of_ok _ h hb
    refine ⟨hg.grownBy h, hg.depth, ?_⟩
    intro row hrow
    obtain ⟨dd, l, h1, h2, h3, _, h5⟩ := hg.lookup h hrow
    simp only [amgLeafR, R.bind_eq_ok] at h1
    obtain ⟨out, h6, h7⟩ := h1
    cases h7
    exact ⟨_, dd, out, h3, h2, h5, h6, rfl, rfl⟩

/-! ## when there is a tree -/

/-- **C105**.  The three builders return a tree exactly if the finder answers wherever it is asked and its questions separate. -/
theorem C105_when (d : DataSet F) (c t : Nat) (h : d.WF c t) (cfg : CustomConfig F) (ht : cfg.numberOfClasses = t) (k : LeafOutputType) :
    ((∃ tree, regressionTreeNewWith d cfg = .ok tree) ↔ Growable cfg.splitFinder c t cfg.maxLevels d) ∧
    ((∃ tree, gradBoostTreeNewWith d cfg k = .ok tree) ↔ Growable cfg.splitFinder c t cfg.maxLevels d) ∧
    ((∃ tree, amgTreeNewWith d cfg k = .ok tree) ↔ Growable cfg.splitFinder c t cfg.maxLevels d) := by
  refine ⟨?_, ?_, ?_⟩
  · simp only [regressionTreeNewWith_eq, ht]
    exact growFuel_ok_iff _ (fun _ _ => ⟨_, rfl⟩) h
  · simp only [gradBoostTreeNewWith_eq, ht]
    exact growFuel_ok_iff _ (fun _ hd => ⟨_, gradLeafR_ok k hd⟩) h
  · simp only [amgTreeNewWith_eq, ht]
    exact growFuel_ok_iff _ (fun _ hd => ⟨_, amgLeafR_ok k hd⟩) h

theorem growable_of_separates {find : SplitFinder F} {c t : Nat} (hs : find.Separates c t) (m : Nat) : ∀ {d : DataSet F}, d.WF c t →
    Growable find c t m d := by
  induction m with
  | zero =>
    intro d h
    obtain ⟨s, h1, _⟩ := hs d h
    exact ⟨s, h1⟩
  | succ m ih =>
    intro d h
    obtain ⟨s, h1, h2⟩ := hs d h
    refine ⟨s, h1, fun hg => ?_⟩
    obtain ⟨a, b, e⟩ := h2 hg
    exact ⟨a, b, e, ih (answering_wf h b), ih (answering_wf h e)⟩

theorem grad_update_of_out {d : DataSet F} {c t : Nat} (h : d.WF c t) {guess : List F} (hg : guess.length = t) {lr : F}
    {s : TrainingData F × List (TreeNode F (GradBoostLeaf F))} (hs : Tracks gradOut d guess lr s) {tree : TreeNode F (GradBoostLeaf F)}
    (ho : ∀ row ∈ d.featureRows, ∃ (leaf : GradBoostLeaf F) (out : List F), findLeafNodeForData row tree = .ok leaf ∧ out.length = t ∧
      leaf.leafOutput = some out) :
    ∃ t', updateDatasetLabels s.1 tree lr = .ok t' := by
  refine update_loop_total (K := t) (by rw [hs.len, hs.size]) (fun v hv => (hs.width v hv).trans hg) ?_
  intro i u cur hi hu hul hcur hcurK
  have hir : i < d.featureRows.length := by rw [← h.label_count, ← hs.size]; exact hi
  have hirow : u.data.featureRows[i]? = some d.featureRows[i] := by rw [hu, hs.data, List.getElem?_eq_getElem hir]
  obtain ⟨leaf, out, h1, hl, h2⟩ := ho _ (List.getElem_mem hir)
  refine ⟨List.zipWith F64.add cur (out.map (fun x => lr *. x)), by simp [hcurK, hl], ?_⟩
  rw [idx_some hirow, R.ok_bind, h1, R.ok_bind, h2, unwrap, R.ok_bind, idx_some hcur, R.ok_bind, addSlices_ok (by simp [hcurK, hl]),
    R.ok_bind, setIdx_lt (by omega)]
  rfl

theorem amg_update_of_out {d : DataSet F} {c t : Nat} (h : d.WF c t) {guess : List F}
    (hg : guess.length = t) {lr : F} {s : TrainingData F × List (TreeNode F (AMGBoostLeaf F))} (hs : Tracks (amgOut t) d guess lr s)
    {tree : TreeNode F (AMGBoostLeaf F)}
    (ho : ∀ row ∈ d.featureRows, ∃ (leaf : AMGBoostLeaf F) (x : F) (j : Nat), findLeafNodeForData row tree = .ok leaf ∧ j < t ∧
      leaf.maxValue = some x ∧ leaf.cls = some j) :
    ∃ t', amgUpdateDatasetLabels s.1 tree lr = .ok t' := by
  have hpos : 0 < s.1.mutableLabels.length := by
    rw [hs.len]; exact List.length_pos_of_ne_nil h.labels_ne
  have h0 : (s.1.mutableLabels[0]).length = t := (hs.width _ (List.getElem_mem _)).trans hg
  simp only [amgUpdateDatasetLabels, idx_lt hpos, R.ok_bind, h0]
  refine update_loop_total (K := t) (by rw [hs.len, hs.size]) (fun v hv => (hs.width v hv).trans hg) ?_
  intro i u cur hi hu hul hcur hcurK
  have hir : i < d.featureRows.length := by rw [← h.label_count, ← hs.size]; exact hi
  have hirow : u.data.featureRows[i]? = some d.featureRows[i] := by rw [hu, hs.data, List.getElem?_eq_getElem hir]
  obtain ⟨leaf, x, j, hf, hlt, hx, hj⟩ := ho _ (List.getElem_mem hir)
  obtain ⟨v, hv, hvl⟩ := updateAmgLabel_total (w1 := lr *. x) (w2 := lr *. calculateApproximateValue x (F64.ofNat t)) hcurK hlt
  refine ⟨v, hvl, ?_⟩
  rw [idx_some hirow, R.ok_bind]
  simp only [getWeightedAmgLeafValues, hf, hx, hj, unwrap, R.ok_bind, R.pure_eq, idx_some hcur, hv]
  rw [setIdx_lt (by omega)]
  rfl

/-- **C105**.  With a finder whose questions separate, no training panics: all three builders return a tree and all three ensembles a model,
for every consistent data set. -/
theorem C105_no_panic [LawfulOrder F] [LawfulCount F] (cfg : CustomConfig F) (c t : Nat) (ht : cfg.numberOfClasses = t)
    (hs : cfg.splitFinder.Separates c t) (d : DataSet F) (h : d.WF c t) (k : LeafOutputType) (n : Nat) (lr : F) :
    (∃ tree, regressionTreeNewWith d cfg = .ok tree) ∧ (∃ tree, gradBoostTreeNewWith d cfg k = .ok tree) ∧
    (∃ tree, amgTreeNewWith d cfg k = .ok tree) ∧ (∃ m, regressionTrainWith d cfg n lr = .ok m) ∧
    (t ≤ 2 ^ 53 → ∃ m, multiClassTrainWith d cfg n lr = .ok m) ∧ (0 < t → t ≤ 2 ^ 53 → ∃ m, amgTrainWith d cfg n lr = .ok m) := by
  have hgr : ∀ {d : DataSet F}, d.WF c t → Growable cfg.splitFinder c t cfg.maxLevels d := fun h => growable_of_separates hs _ h
  have hw := C105_when d c t h cfg ht k
  have hgrad : ∀ (k : LeafOutputType) {guess : List F}, guess.length = t → ∀ {s : TrainingData F × List (TreeNode F (GradBoostLeaf F))},
      Tracks gradOut d guess lr s → ∀ d' : DataSet F, d'.WF c t → ∃ tree t', gradBoostTreeNewWith d' cfg k = .ok tree ∧
      updateDatasetLabels s.1 tree lr = .ok t' := by
    intro k guess hg s hs d' hd'
    obtain ⟨tree, htree⟩ := (C105_when d' c t hd' cfg ht k).2.1.mpr (hgr hd')
    obtain ⟨_, _, hl⟩ := (C105_returned_boosted d' c t hd' cfg ht k).1 tree htree
    obtain ⟨t', ht'⟩ := grad_update_of_out (tree := tree) h hg hs (by
      intro row hrow
      obtain ⟨leaf, dd, out, h1, h2, _, h4, h5⟩ := hl row (h.row_len row hrow).ge
      refine ⟨leaf, out, h1, ?_, h5⟩
      rw [calculate_ok k h2.labels_ne h2.label_len] at h4
      rw [← Except.ok.inj h4]
      exact leafOut_length k h2.label_len)
    exact ⟨tree, t', htree, ht'⟩
  refine ⟨hw.1.mpr (hgr h), hw.2.1.mpr (hgr h), hw.2.2.mpr (hgr h), ?_, ?_, ?_⟩
  · have hg := determineInitialGuess_regression h (s := d.labels.length)
    have hgl : (avgVec t d.labels).length = t := leafOut_length .regression h.label_len
    obtain ⟨s, hl⟩ := boostLoop_total (res := regressionResiduals) (fit := fun d => gradBoostTreeNewWith d cfg .regression)
      (upd := fun t tree => updateDatasetLabels t tree lr) (grad_updateAdds lr (avgVec t d.labels).length) n
      (tracks_start d (avgVec t d.labels) lr) (by
        intro s hs
        have hwf : ({ d with labels := List.zipWith (List.zipWith F64.sub) d.labels s.1.mutableLabels } : DataSet F).WF c t :=
          residuals_wf h hs.len (fun l v hl hv => by simp [h.label_len l hl, hs.width v hv, hgl])
        obtain ⟨tree, t', h1, h2⟩ := hgrad .regression hgl hs _ hwf
        refine ⟨(t', s.2 ++ [tree]), ?_⟩
        simp only [boostStep]
        rw [regressionResiduals_ok h hgl hs, R.ok_bind, hs.data, h1, R.ok_bind, h2]
        rfl)
    exact ⟨_, train_of_full (boostingLoop_mk
      (ex := { ensembleType := .regressionBoost, loopExecutor := regressionLoopWith cfg.splitFinder }) hg hl)⟩
  · intro ht53
    have hg := determineInitialGuess_class h ht53 (s := d.labels.length) (ty := .multiClassBoost) (by simp)
    set guess := List.replicate t ((F64.one : F) /. F64.ofNat t) with hgu
    have hgl : guess.length = t := by rw [hgu, List.length_replicate]
    obtain ⟨s, hl⟩ := boostLoop_total (res := multiClassResiduals) (fit := fun d => gradBoostTreeNewWith d cfg .multiClassClassification)
      (upd := fun t tree => updateDatasetLabels t tree lr) (grad_updateAdds lr guess.length) n (tracks_start d guess lr) (by
        intro s hs
        have hwf : ({ d with labels := List.zipWith (fun l v => List.zipWith F64.sub l (calculateProbabilities v)) d.labels s.1.mutableLabels } :
            DataSet F).WF c t :=
          residuals_wf h hs.len (fun l v hl hv => by simp [h.label_len l hl, hs.width v hv, hgl, calculateProbabilities_length])
        obtain ⟨tree, t', h1, h2⟩ := hgrad .multiClassClassification hgl hs _ hwf
        refine ⟨(t', s.2 ++ [tree]), ?_⟩
        simp only [boostStep]
        rw [multiClassResiduals_ok h hgl hs, R.ok_bind, hs.data, h1, R.ok_bind, h2]
        rfl)
    exact ⟨_, train_of_full (boostingLoop_mk
      (ex := { ensembleType := .multiClassBoost, loopExecutor := multiClassLoopWith cfg.splitFinder }) hg hl)⟩
  · intro ht0 ht53
    have hg := determineInitialGuess_class h ht53 (s := d.labels.length) (ty := .amgBoost) (by simp)
    set guess := List.replicate t ((F64.one : F) /. F64.ofNat t) with hgu
    have hgl : guess.length = t := by rw [hgu, List.length_replicate]
    obtain ⟨s, hl⟩ := boostLoop_total (res := multiClassResiduals) (fit := fun d => amgTreeNewWith d cfg .multiClassClassification)
      (upd := fun t tree => amgUpdateDatasetLabels t tree lr) (out := amgOut t) (by rw [hgl]; exact amg_updateAdds lr t) n
      (tracks_start d guess lr) (by
        intro s hs
        have hwf : ({ d with labels := List.zipWith (fun l v => List.zipWith F64.sub l (calculateProbabilities v)) d.labels s.1.mutableLabels } :
            DataSet F).WF c t :=
          residuals_wf h hs.len (fun l v hl hv => by simp [h.label_len l hl, hs.width v hv, hgl, calculateProbabilities_length])
        obtain ⟨tree, htree⟩ := (C105_when _ c t hwf cfg ht .multiClassClassification).2.2.mpr (hgr hwf)
        obtain ⟨_, _, hl⟩ := (C105_returned_boosted _ c t hwf cfg ht .multiClassClassification).2 tree htree
        obtain ⟨t', ht'⟩ := amg_update_of_out (tree := tree) h hgl hs (by
          intro row hrow
          obtain ⟨leaf, dd, out, h1, h2, _, h4, h5, h6⟩ := hl row (h.row_len row hrow).ge
          rw [calculate_ok _ h2.labels_ne h2.label_len] at h4
          have hlen : out.length = t := by
            rw [← Except.ok.inj h4]
            exact leafOut_length _ h2.label_len
          have hlt := findMax_lt out (List.ne_nil_of_length_pos (by omega))
          exact ⟨leaf, _, _, h1, by omega, h5, h6⟩)
        refine ⟨(t', s.2 ++ [tree]), ?_⟩
        simp only [boostStep]
        rw [multiClassResiduals_ok h hgl hs, R.ok_bind, hs.data, htree, R.ok_bind, ht']
        rfl)
    exact ⟨_, train_of_full (boostingLoop_mk
      (ex := { ensembleType := .amgBoost, loopExecutor := amgLoopWith cfg.splitFinder }) hg hl)⟩

/-! ## training error, with exact arithmetic -/

section exact
variable {K : Type} [Field K] [LinearOrder K] [IsStrictOrderedRing K] [FloorSemiring K] [HasExp K]

theorem creditSum_nonneg {L : Type} (t : Nat) (tree : TreeNode (Ext K) L) (es : List (List (Ext K) × List K)) : 0 ≤ creditSum t tree es := by
  apply List.sum_nonneg
  intro x hx
  obtain ⟨p, _, rfl⟩ := List.mem_map.mp hx
  exact credit_nonneg _ _ _ _

/-- **C105**.  Whatever the finder: the score of a returned regression tree on its training data is the variance of the labels minus what the
questions contribute, per target, so it is never above that of a single leaf. -/
theorem C105_training_error (d : DataSet (Ext K)) (c t : Nat) (h : d.WF c t) (ht0 : 0 < t) (ls : List (List K)) (hls : d.labels = lift ls)
    (cfg : CustomConfig (Ext K)) (ht : cfg.numberOfClasses = t) (tree : TreeNode (Ext K) (RegressionLeaf (Ext K)))
    (hb : regressionTreeNewWith d cfg = .ok tree) :
    ∃ e, calculateOverallMse d tree = .ok (.fin e) ∧
      e = (totalVar t ls - creditSum t tree (d.featureRows.zip ls) / d.featureRows.length) / t ∧ e ≤ totalVar t ls / t := by
  rw [regressionTreeNewWith_eq, ht] at hb
  have hg := grown_of_ok _ h hb
  have hll : ls.length = d.featureRows.length := by rw [← h.label_count, hls, lift_length]
  have hlw := lift_width hls h.label_len
  have hn := length_cast_ne (K := K) h.rows_ne
  have hpos : (0 : K) < d.featureRows.length := by exact_mod_cast List.length_pos_of_ne_nil h.rows_ne
  have htp : (0 : K) < t := by exact_mod_cast ht0
  refine ⟨_, ?_, rfl, ?_⟩
  · have hmse : calculateOverallMse d tree = .ok (.fin (mseOf (d.featureRows.map (fun row =>
        meanVec t (mates tree (d.featureRows.zip ls) row))) ls)) := by
      set pred := fun row => meanVec t (mates tree (d.featureRows.zip ls) row) with hpred
      rw [mseOf_range (n := d.featureRows.length) (by simp) hll, calculateOverallMse,
        error_loop (e := fun i => sqErr ((d.featureRows.map pred).getD i []) (ls.getD i [])), R.ok_bind, R.pure_eq,
        Ext.ofNat_def, Ext.fin_div _ _ hn]
      intro i hi s
      obtain ⟨dd, l, hdl, hw, hf, _, he⟩ := hg.lookup h (h.row_len _ (List.getElem_mem hi)).ge
      cases hdl
      obtain ⟨h1, h2, h3⟩ := mates_ok hls hw he
      have hi2 : i < ls.length := by omega
      have hi3 : i < d.labels.length := by rw [hls, lift_length]; exact hi2
      rw [idx_lt hi, R.ok_bind, hf, R.ok_bind]
      simp only [unwrap, R.ok_bind, R.pure_eq]
      rw [calculateAverageLabelVector_eq, calculateAverageVector_ok hw.labels_ne hw.label_len, R.ok_bind, idx_lt hi3, R.ok_bind]
      have h4 : d.labels[i] = liftV ls[i] := by simp only [hls, lift, List.getElem_map]
      have h5 : avgVec t dd.labels = liftV (pred d.featureRows[i]) := by rw [h1, avgVec_exact h3 h2]
      rw [h4, h5, meanSumOfSquaredDifferencesVectors_exact ht0 (meanVec_length _ _) (hlw _ (List.getElem_mem _))]
      simp [hi, hi2, hpred]
    rw [hmse, mse_mates h hls (fun row => meanVec t (mates _ _ row)) (fun _ => meanVec_length _ _)]
    have h1 := leafErrors_credit t hg.proper (d.featureRows.zip ls)
    rw [leafErrors, List.map_snd_zip (by omega), List.length_zip, hll, Nat.min_self] at h1
    rw [h1, div_div, mul_comm (t : K), ← div_div, sub_div, mul_div_cancel_left₀ _ hn]
  · rw [div_le_div_iff_of_pos_right htp]
    have := div_nonneg (creditSum_nonneg t tree (d.featureRows.zip ls)) hpos.le
    linarith

/-- the state of the regression loop, whatever the trees -/
structure AnyState (d : DataSet (Ext K)) (t : Nat) (ls : List (List K)) (lr : K)
    (s : TrainingData (Ext K) × List (TreeNode (Ext K) (GradBoostLeaf (Ext K)))) (ps : List (List K)) : Prop where
  finite : Finite gradOut d (liftV (meanVec t ls)) lr t s ps
  unbiased : ∀ j < t, (target (resid ls ps) j).sum = 0

theorem anyState_step {d : DataSet (Ext K)} {c t : Nat} (h : d.WF c t) {ls : List (List K)} (hls : d.labels = lift ls)
    {cfg : CustomConfig (Ext K)} (hc : cfg.numberOfClasses = t) {lr : K}
    {s s' : TrainingData (Ext K) × List (TreeNode (Ext K) (GradBoostLeaf (Ext K)))} {ps : List (List K)}
    (hs : AnyState d t ls lr s ps)
    (hb : boostStep regressionResiduals (fun d => gradBoostTreeNewWith d cfg .regression)
      (fun t tree => updateDatasetLabels t tree (.fin lr)) s = .ok s') :
    ∃ new ps', s'.2 = s.2 ++ [new] ∧ new.Proper ∧ AnyState d t ls lr s' ps' ∧
      GrownBy cfg.splitFinder { d with labels := lift (resid ls ps) } c t cfg.maxLevels new ∧
      sse t (resid ls ps') = sse t (resid ls ps) -
        lr * (2 - lr) * sse t (d.featureRows.map (fun row => meanVec t (mates new (d.featureRows.zip (resid ls ps)) row))) := by
  have hg : (liftV (meanVec t ls) : List (Ext K)).length = t := by rw [liftV_length, meanVec_length]
  have hu := grad_updateAdds (Ext.fin lr) (liftV (meanVec t ls) : List (Ext K)).length
  have hwf := resid_wf h hls hs.finite.len hs.finite.width
  have hps_rows : ps.length = d.featureRows.length := by rw [hs.finite.len, h.label_count]
  have htr' := tracks_step hu hs.finite.tracks hb
  obtain ⟨r, tree, t1, h1, h2, h3, rfl⟩ := boostStep_inv hb
  rw [regressionResiduals_ok h hg hs.finite.tracks, hs.finite.labels, hls, resid_lift] at h1
  have := Except.ok.inj h1
  subst this
  rw [hs.finite.tracks.data, gradBoostTreeNewWith_eq, hc] at h2
  have hgr := grown_of_ok _ hwf h2
  set o := fun row => meanVec t (mates tree (d.featureRows.zip (resid ls ps)) row) with ho
  have hout : ∀ row ∈ d.featureRows, gradOut row tree = .ok (liftV (o row)) := by
    intro row hrow
    obtain ⟨dd, l, hl, hw, hf, _, he⟩ := hgr.lookup hwf (h.row_len row hrow).ge
    rw [gradLeafR_ok .regression hw] at hl
    cases hl
    obtain ⟨a1, a2, a3⟩ := mates_ok (ls := resid ls ps) rfl hw he
    rw [gradOut, hf, R.ok_bind]
    simp only [gradLeaf, unwrap, leafOut]
    rw [a1, avgVec_exact a3 a2]
  have hll : ps.length = ls.length := by rw [hs.finite.len, hls, lift_length]
  have hlw := lift_width hls h.label_len
  have hlen : d.featureRows.length = (resid ls ps).length := by rw [resid_length hll]; omega
  have hres := resid_updated (rows := d.featureRows) (lr := lr) (o := o) hlw hs.finite.width (fun row _ => meanVec_length _ _) hll hps_rows
  refine ⟨tree, updated lr o ps d.featureRows, rfl, hgr.proper, ⟨⟨htr', ?_, ?_, ?_⟩, ?_⟩, hgr.grownBy hwf, ?_⟩
  · rw [hg] at hu
    have := update_exact (o := o) hu hs.finite.labels (by rw [hs.finite.len, hs.finite.tracks.size]) hs.finite.width
      (by rw [hs.finite.tracks.data, hs.finite.tracks.size, h.label_count])
      (fun row hrow => hout row (by rwa [hs.finite.tracks.data] at hrow)) h3
    rw [hs.finite.tracks.data] at this
    exact this
  · rw [updated_length hps_rows, hs.finite.len]
  · exact updated_width hs.finite.width (fun row _ => meanVec_length _ _)
  · intro j hj
    rw [hres, sum_step hj _ hlen, hs.unbiased j hj, mul_zero]
  · rw [hres]
    exact sse_step_eq _ hlen

theorem anyState_loop {d : DataSet (Ext K)} {c t : Nat} (h : d.WF c t) {ls : List (List K)} (hls : d.labels = lift ls)
    {cfg : CustomConfig (Ext K)} (hc : cfg.numberOfClasses = t) {lr : K} (n : Nat) :
    ∀ {s : TrainingData (Ext K) × List (TreeNode (Ext K) (GradBoostLeaf (Ext K)))},
      boostLoop regressionResiduals (fun d => gradBoostTreeNewWith d cfg .regression) (fun t tree => updateDatasetLabels t tree (.fin lr)) n
        (startState d (liftV (meanVec t ls))) = .ok s → ∃ ps, AnyState d t ls lr s ps := by
  induction n with
  | zero =>
    intro s hs
    cases hs
    have := regState_start (cfg := cfg.toTreeConfig) (lr := lr) h hls
    exact ⟨_, this.finite, this.unbiased⟩
  | succ n ih =>
    intro s' hs'
    rw [boostLoop_succ, R.bind_eq_ok] at hs'
    obtain ⟨s, h1, h2⟩ := hs'
    obtain ⟨ps, h3⟩ := ih h1
    obtain ⟨_, ps', _, _, h4, _⟩ := anyState_step h hls hc h3 h2
    exact ⟨ps', h4⟩

theorem anyState_predict {d : DataSet (Ext K)} {c t : Nat} (h : d.WF c t) (ht0 : 0 < t) {ls : List (List K)} (hls : d.labels = lift ls) {lr : K}
    {s : TrainingData (Ext K) × List (TreeNode (Ext K) (GradBoostLeaf (Ext K)))} {ps : List (List K)} (hs : AnyState d t ls lr s ps) :
    d.featureRows.mapM (regressionPredict { trees := s.2, initialGuess := liftV (meanVec t ls), learningRate := .fin lr }) = .ok (lift ps) ∧
    regressionScore { trees := s.2, initialGuess := liftV (meanVec t ls), learningRate := .fin lr } d =
      .ok (.fin (sse t (resid ls ps) / t / ls.length)) := by
  have hp : d.featureRows.mapM (regressionPredict { trees := s.2, initialGuess := liftV (meanVec t ls), learningRate := .fin lr }) =
      .ok (lift ps) := by
    rw [← hs.finite.labels, ← tracks_mapM hs.finite.tracks h.label_count.symm]
    apply mapM_congr
    intro row _
    rw [regressionPredict, predictInstance_eq]
  have hlw := lift_width hls h.label_len
  have hll : ls.length = d.featureRows.length := by rw [← h.label_count, hls, lift_length]
  have := (C29_ensemble_exact _ d t ht0 ps ls hp hls hs.finite.width hlw hll h.rows_ne).1
  rw [mseOf_resid hlw hs.finite.width] at this
  exact ⟨hp, this⟩

theorem target_resid {t : Nat} {ls ps : List (List K)} (hl : ∀ l ∈ ls, l.length = t) (hp : ∀ p ∈ ps, p.length = t)
    (hlen : ps.length = ls.length) {j : Nat} (hj : j < t) :
    (target (resid ls ps) j).sum = (target ls j).sum - (target ps j).sum := by
  induction ls generalizing ps with
  | nil =>
    cases ps with
    | nil => simp [resid, target]
    | cons => simp at hlen
  | cons l ls ih =>
    cases ps with
    | nil => simp at hlen
    | cons p ps =>
      have := ih (ps := ps) (fun x hx => hl x (by simp [hx])) (fun x hx => hp x (by simp [hx])) (by simpa using hlen)
      simp only [resid, target, List.zipWith_cons_cons, List.map_cons, List.sum_cons] at this ⊢
      rw [this, zipWith_getD (hl l (by simp)) (hp p (by simp)) 0 0, getD_range hj]
      ring

/-- **C105**.  Whatever the finder: if boosting with `n + 1` iterations returns a model, so does boosting with `n`, and the former has one more
tree, grown with the answers of the finder on the residuals.  The predictions on the training rows have the mean of the labels, and the new
tree lowers the training error by `lr (2 - lr)` times what its questions contribute; so for a learning rate between 0 and 2 the training error
never increases. -/
theorem C105_boosting (d : DataSet (Ext K)) (c t : Nat) (h : d.WF c t) (ht0 : 0 < t) (ls : List (List K)) (hls : d.labels = lift ls)
    (cfg : CustomConfig (Ext K)) (hc : cfg.numberOfClasses = t) (n : Nat) (lr : K) (m' : BoostModel (Ext K) (GradBoostLeaf (Ext K)))
    (hm : regressionTrainWith d cfg (n + 1) (.fin lr) = .ok m') :
    ∃ m new e e' ps, regressionTrainWith d cfg n (.fin lr) = .ok m ∧ m'.trees = m.trees ++ [new] ∧
      d.featureRows.mapM (regressionPredict m) = .ok (lift ps) ∧ (∀ j < t, (target ps j).sum = (target ls j).sum) ∧
      GrownBy cfg.splitFinder { d with labels := lift (List.zipWith (List.zipWith (· - ·)) ls ps) } c t cfg.maxLevels new ∧
      regressionScore m d = .ok (.fin e) ∧ regressionScore m' d = .ok (.fin e') ∧
      e' = e - lr * (2 - lr) * (creditSum t new (d.featureRows.zip (List.zipWith (List.zipWith (· - ·)) ls ps)) / (d.featureRows.length * t)) ∧
      (0 ≤ lr → lr ≤ 2 → e' ≤ e) := by
  obtain ⟨final, hfull⟩ := train_inv hm
  obtain ⟨hg, hlr, hl⟩ := boostingLoop_inv hfull
  have hg0 := determineInitialGuess_regression h (s := d.labels.length)
  rw [initialGuess_exact h hls] at hg0
  simp only at hg
  rw [hg0] at hg
  have hgm := (Except.ok.inj hg).symm
  simp only at hl
  rw [hgm] at hl
  have hl2 : boostLoop regressionResiduals (fun d => gradBoostTreeNewWith d cfg .regression)
      (fun t tree => updateDatasetLabels t tree (.fin lr)) (n + 1) (startState d (liftV (meanVec t ls))) = .ok (final, m'.trees) := hl
  rw [boostLoop_succ, R.bind_eq_ok] at hl2
  obtain ⟨s, h1, h2⟩ := hl2
  obtain ⟨ps, hs⟩ := anyState_loop h hls hc n h1
  obtain ⟨new, ps', htr, hprop, hs', hgb, hsse⟩ := anyState_step h hls hc hs h2
  simp only at htr
  obtain ⟨hp, he⟩ := anyState_predict h ht0 hls hs
  obtain ⟨_, he'⟩ := anyState_predict h ht0 hls hs'
  have hm' : m' = { trees := m'.trees, initialGuess := liftV (meanVec t ls), learningRate := .fin lr } := by
    cases m'
    simp only at hgm hlr
    rw [hgm, hlr]
  have hll : ls.length = d.featureRows.length := by rw [← h.label_count, hls, lift_length]
  have hlw := lift_width hls h.label_len
  have hpl : ps.length = ls.length := by rw [hs.finite.len, hls, lift_length]
  have hrl : d.featureRows.length = (resid ls ps).length := by rw [resid_length hpl, hll]
  have h5 := leafErrors_credit t hprop (d.featureRows.zip (resid ls ps))
  rw [List.map_snd_zip (by omega), List.length_zip, ← hrl, Nat.min_self] at h5
  have h6 : sse t (d.featureRows.map (fun row => meanVec t (mates new (d.featureRows.zip (resid ls ps)) row))) =
      sse t (resid ls ps) - leafErrors t new (d.featureRows.zip (resid ls ps)) := sse_outs (t := t) new hrl
  rw [h5, sse_centred hs.unbiased, ← hrl] at h6
  have htp : (0 : K) < t := by exact_mod_cast ht0
  have hnp : (0 : K) < d.featureRows.length := by exact_mod_cast List.length_pos_of_ne_nil h.rows_ne
  have hid : sse t (resid ls ps') / t / ls.length = sse t (resid ls ps) / t / ls.length - lr * (2 - lr) *
      (creditSum t new (d.featureRows.zip (List.zipWith (List.zipWith (· - ·)) ls ps)) / (d.featureRows.length * t)) := by
    have h8 : List.zipWith (List.zipWith (· - ·)) ls ps = resid ls ps := rfl
    rw [hsse, h6, h8, hll]
    field_simp
    ring
  refine ⟨_, new, _, _, ps, ?_, htr, hp, ?_, hgb, he, by rw [hm']; exact he', hid, ?_⟩
  · have hfull := boostingLoop_mk (ex := { ensembleType := .regressionBoost, loopExecutor := regressionLoopWith cfg.splitFinder }) hg0 (n := n)
      (cfg := cfg.toTreeConfig) (lr := Ext.fin lr) (final := s.1) (trees := s.2) h1
    exact train_of_full hfull
  · intro j hj
    have := hs.unbiased j hj
    rw [target_resid hlw hs.finite.width hpl hj] at this
    linarith
  · intro h0 h2
    rw [hid]
    have : 0 ≤ lr * (2 - lr) * (creditSum t new (d.featureRows.zip (List.zipWith (List.zipWith (· - ·)) ls ps)) / (d.featureRows.length * t)) :=
      mul_nonneg (mul_nonneg h0 (by linarith)) (div_nonneg (creditSum_nonneg _ _ _) (by positivity))
    linarith

end exact

/-! ## a finder, and what finders must not do -/

/-- a finder that asks the first question of a list that separates the rows -/
def firstCut (qs : List (Question F)) : SplitFinder F where
  findBestSplit d _ := match qs.find? (fun q => d.featureRows.any (fun row => satisfies q row) && d.featureRows.any (fun row => !satisfies q row)) with
    | some q => .ok { gain := F64.one, question := q }
    | none => .ok { gain := F64.zero, question := { column := 0, value := F64.zero } }

theorem firstCut_separates (qs : List (Question E)) (c t : Nat) (hq : ∀ q ∈ qs, q.column < c) : (firstCut qs).Separates c t := by
  intro d _
  simp only [firstCut]
  cases hf : qs.find? (fun q => d.featureRows.any (fun row => satisfies q row) && d.featureRows.any (fun row => !satisfies q row)) with
  | none => exact ⟨_, rfl, fun h => by simp at h⟩
  | some q =>
    refine ⟨_, rfl, fun _ => ?_⟩
    have h1 := List.find?_some hf
    simp only [Bool.and_eq_true, List.any_eq_true, Bool.not_eq_true'] at h1
    exact ⟨hq q (List.mem_of_find?_eq_some hf), h1.1, h1.2⟩

/-- two cuts of the second feature -/
def twoCuts : CustomConfig E :=
  { useMultiThreading := true, numberOfClasses := 1, maxLevels := 2, splitFinder := firstCut [{ column := 1, value := 6 }, { column := 1, value := 5 }] }

-- the hypotheses of the theorems: a finder that separates, a tree of two questions, an ensemble whose error decreases
example : distinct4.WF 2 1 ∧ twoCuts.splitFinder.Separates 2 1 ∧ distinct4.labels = lift [[0], [1], [4], [6]] ∧ (do
    let tree ← regressionTreeNewWith distinct4 twoCuts
    let es := distinct4.featureRows.zip [[0], [1], [4], [6]]
    pure (tree.questionAt [], tree.questionAt [false], tree.depth, creditSum 1 tree es, ← calculateOverallMse distinct4 tree)) =
      (.ok (some { column := 1, value := 6 }, some { column := 1, value := 5 }, 2, 83 / 4, .fin (1 / 2)) :
        R (Option (Question E) × Option (Question E) × Nat × ℚ × E)) ∧ (do
    let m ← regressionTrainWith distinct4 twoCuts 0 (.fin 1)
    let m' ← regressionTrainWith distinct4 twoCuts 1 (.fin 1)
    pure (← regressionScore m distinct4, ← regressionScore m' distinct4)) = (.ok (.fin (91 / 16), .fin (1 / 2)) : R (E × E)) :=
  ⟨distinct4_wf, firstCut_separates _ 2 1 (by decide +kernel), by decide +kernel⟩

/-- a finder that always asks the same question and reports a gain -/
def stubborn (q : Question F) : SplitFinder F where
  findBestSplit _ _ := .ok { gain := F64.one, question := q }

/-- **C105**, finding.  A finder that reports a gain for a question that all rows answer alike, or for a feature that does not exist, makes
training panic with an index error; the gain and the question are used unchecked. -/
theorem C105_unchecked : distinct4.WF 2 1 ∧
    (regressionTreeNewWith distinct4 { twoCuts with splitFinder := stubborn { column := 0, value := 0 } }).map (fun _ => ()) = .error .index ∧
    (regressionTreeNewWith distinct4 { twoCuts with splitFinder := stubborn { column := 0, value := 9 } }).map (fun _ => ()) = .error .index ∧
    (regressionTreeNewWith distinct4 { twoCuts with splitFinder := stubborn { column := 2, value := 0 } }).map (fun _ => ()) = .error .index ∧
    (regressionTreeNewWith distinct4 { twoCuts with splitFinder := stubborn { column := 0, value := 0 }, maxLevels := 0 }).toOption.isSome :=
  ⟨distinct4_wf, by decide +kernel, by decide +kernel, by decide +kernel, by decide +kernel⟩

end Verif
