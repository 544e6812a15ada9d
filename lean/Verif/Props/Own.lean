import Verif.Lemmas.OwnDescent
import Verif.Props.Ask
import Verif.Props.Unused
/-!
# C108: leaf output functions and boosting loops of the caller
-/

set_option linter.unusedSectionVars false

namespace Verif

open Sample
open Prog (Run)

section
variable {F : Type} [F64 F]

/-! ## trees with a leaf output function of the caller -/

/-- **C108**.  With the functions of `LeafOutputCalculator::new` these are the builders of the other theorems, and multi-threading changes
nothing, whatever the functions. -/
theorem C108_library_functions (d : DataSet F) (cfg : CustomConfig F) (k : LeafOutputType) (own : LeafOutputCalculator F) (b : Bool) :
    gradBoostTreeNewOwn d cfg (.new k) = gradBoostTreeNewWith d cfg k ∧
    amgTreeNewOwn d cfg (.new k) = amgTreeNewWith d cfg k ∧
    gradBoostTreeNewOwn d { cfg with useMultiThreading := b } own = gradBoostTreeNewOwn d cfg own ∧
    amgTreeNewOwn d { cfg with useMultiThreading := b } own = amgTreeNewOwn d cfg own := by
  refine ⟨?_, ?_, ?_, ?_⟩
  · rw [gradBoostTreeNewOwn_eq, gradBoostTreeNewWith_eq]
    rfl
  · rw [amgTreeNewOwn_eq, amgTreeNewWith_eq]
    rfl
  · simp only [gradBoostTreeNewOwn_eq]
  · simp only [amgTreeNewOwn_eq]

/-- **C108**.  Where the two functions of the caller answer, every schedule gives the result of the builder, be it a tree or a panic. -/
theorem C108_schedules (find : SplitFinder F) (own : LeafOutputCalculator F) (d : DataSet F) (cfg : TreeConfig) (trace : List (Call F))
    (ha : ∀ call ∈ trace, call.answer = find.findBestSplit call.data call.targets) :
    (∀ r, Run (treeAsking (leafOfGradBoostOwn own) d cfg) trace (.done r) → r = gradBoostTreeNewOwn d { cfg with splitFinder := find } own) ∧
    (∀ r, Run (treeAsking (leafOfAmgOwn own) d cfg) trace (.done r) → r = amgTreeNewOwn d { cfg with splitFinder := find } own) := by
  constructor
  · intro r hr
    have : Prog.eval find (treeAsking (leafOfGradBoostOwn own) d cfg) = gradBoostTreeNewOwn d { cfg with splitFinder := find } own := by
      rw [treeAsking_eval, gradBoostTreeNewOwn_eq]
    rw [← this, ← Prog.run_eval find hr ha]
    rfl
  · intro r hr
    have : Prog.eval find (treeAsking (leafOfAmgOwn own) d cfg) = amgTreeNewOwn d { cfg with splitFinder := find } own := by
      rw [treeAsking_eval, amgTreeNewOwn_eq]
    rw [← this, ← Prog.run_eval find hr ha]
    rfl

theorem own_iff {L : Type} (f : DataSet F → R L) (find : SplitFinder F) (t m : Nat) (d : DataSet F) :
    (∃ tree', growFuel find f t m d = .ok tree') ↔
      ∃ tree, growFuel find regressionLeafR t m d = .ok tree ∧ ∀ leaf ∈ tree.leaves, ∃ dd out, leaf.data = some dd ∧ f dd = .ok out := by
  constructor
  · rintro ⟨tree', h⟩
    obtain ⟨tree, h1⟩ := growFuel_regression_of_ok m h
    obtain ⟨hp, hl⟩ := growFuel_leaves m h1
    refine ⟨tree, h1, ?_⟩
    rw [growFuel_fill m h1] at h
    intro leaf hleaf
    obtain ⟨out, ho⟩ := (fill_ok_iff hp).mp ⟨tree', h⟩ leaf hleaf
    obtain ⟨dd, hd⟩ := hl leaf hleaf
    refine ⟨dd, out, hd, ?_⟩
    rw [onData, hd] at ho
    exact ho
  · rintro ⟨tree, h1, h2⟩
    obtain ⟨hp, _⟩ := growFuel_leaves m h1
    rw [growFuel_fill m h1]
    refine (fill_ok_iff hp).mpr ?_
    intro leaf hleaf
    obtain ⟨dd, out, hd, ho⟩ := h2 leaf hleaf
    refine ⟨out, ?_⟩
    rw [onData, hd]
    exact ho

/-- **C108**.  A tree is returned exactly if the regression tree for the same data is, and the function returns for the data in each leaf of
that tree. -/
theorem C108_when (d : DataSet F) (cfg : CustomConfig F) (own : LeafOutputCalculator F) :
    ((∃ tree', gradBoostTreeNewOwn d cfg own = .ok tree') ↔ ∃ tree, regressionTreeNewWith d cfg = .ok tree ∧
      ∀ leaf ∈ tree.leaves, ∃ dd out, leaf.data = some dd ∧ own.calculate dd = .ok out) ∧
    ((∃ tree', amgTreeNewOwn d cfg own = .ok tree') ↔ ∃ tree, regressionTreeNewWith d cfg = .ok tree ∧
      ∀ leaf ∈ tree.leaves, ∃ dd out, leaf.data = some dd ∧ own.calculate dd = .ok out) := by
  constructor
  · rw [gradBoostTreeNewOwn_eq, regressionTreeNewWith_eq, own_iff]
    refine exists_congr fun tree => and_congr_right fun _ => forall_congr' fun leaf => imp_congr_right fun _ => ?_
    constructor
    · rintro ⟨dd, out, h1, h2⟩
      simp only [leafOfGradBoostOwn, R.bind_eq_ok] at h2
      obtain ⟨o, h3, _⟩ := h2
      exact ⟨dd, o, h1, h3⟩
    · rintro ⟨dd, out, h1, h2⟩
      exact ⟨dd, _, h1, by simp only [leafOfGradBoostOwn, h2, R.ok_bind]; rfl⟩
  · rw [amgTreeNewOwn_eq, regressionTreeNewWith_eq, own_iff]
    refine exists_congr fun tree => and_congr_right fun _ => forall_congr' fun leaf => imp_congr_right fun _ => ?_
    constructor
    · rintro ⟨dd, out, h1, h2⟩
      simp only [leafOfAmgOwn, R.bind_eq_ok] at h2
      obtain ⟨o, h3, _⟩ := h2
      exact ⟨dd, o, h1, h3⟩
    · rintro ⟨dd, out, h1, h2⟩
      exact ⟨dd, _, h1, by simp only [leafOfAmgOwn, h2, R.ok_bind]; rfl⟩

/-- **C108**.  A returned tree asks the questions of the regression tree at the same positions and sends every row the same way, whatever the
function; and where the regression tree keeps data, it keeps what the function returns for that data (an AMG tree: its largest entry and the position of that). -/
theorem C108_tree (d : DataSet F) (cfg : CustomConfig F) (own : LeafOutputCalculator F) (tree : TreeNode F (RegressionLeaf F))
    (hr : regressionTreeNewWith d cfg = .ok tree) :
    (∀ tree', gradBoostTreeNewOwn d cfg own = .ok tree' →
      (∀ p, tree'.questionAt p = tree.questionAt p) ∧ (∀ row, tree'.route row = tree.route row) ∧
      (∀ p, (tree'.leafAt p).isSome = (tree.leafAt p).isSome) ∧
      ∀ p leaf', tree'.leafAt p = some leaf' → ∃ dd out, tree.leafAt p = some { data := some dd } ∧ own.calculate dd = .ok out ∧
        leaf'.leafOutput = some out) ∧
    (∀ tree', amgTreeNewOwn d cfg own = .ok tree' →
      (∀ p, tree'.questionAt p = tree.questionAt p) ∧ (∀ row, tree'.route row = tree.route row) ∧
      (∀ p, (tree'.leafAt p).isSome = (tree.leafAt p).isSome) ∧
      ∀ p leaf', tree'.leafAt p = some leaf' → ∃ dd out, tree.leafAt p = some { data := some dd } ∧ own.calculate dd = .ok out ∧
        leaf'.maxValue = some (findMaxValueAndIndex out).1 ∧ leaf'.cls = some (findMaxValueAndIndex out).2) := by
  rw [regressionTreeNewWith_eq] at hr
  obtain ⟨hp, _⟩ := growFuel_leaves _ hr
  have some_data : ∀ {l : RegressionLeaf F} {dd : DataSet F}, l.data = some dd → l = { data := some dd } := by
    rintro ⟨dd'⟩ dd h
    cases h
    rfl
  constructor
  · intro tree' h
    rw [gradBoostTreeNewOwn_eq, growFuel_fill _ hr] at h
    obtain ⟨_, h1, h2, h3⟩ := fill_ok hp h
    refine ⟨h1, h2, ?_, ?_⟩
    · intro p
      rcases h3 p with ⟨a, b⟩ | ⟨l, l', a, _, b⟩ <;> rw [a, b] <;> rfl
    · intro p leaf' hl
      rcases h3 p with ⟨_, b⟩ | ⟨l, l', a, hf, b⟩
      · rw [b] at hl
        cases hl
      · rw [b] at hl
        cases hl
        cases hd : l.data with
        | none => rw [onData, hd] at hf; cases hf
        | some dd =>
          rw [onData, hd] at hf
          simp only [unwrap, R.ok_bind, leafOfGradBoostOwn, R.bind_eq_ok] at hf
          obtain ⟨o, h4, h5⟩ := hf
          cases h5
          exact ⟨dd, o, by rw [a, some_data hd], h4, rfl⟩
  · intro tree' h
    rw [amgTreeNewOwn_eq, growFuel_fill _ hr] at h
    obtain ⟨_, h1, h2, h3⟩ := fill_ok hp h
    refine ⟨h1, h2, ?_, ?_⟩
    · intro p
      rcases h3 p with ⟨a, b⟩ | ⟨l, l', a, _, b⟩ <;> rw [a, b] <;> rfl
    · intro p leaf' hl
      rcases h3 p with ⟨_, b⟩ | ⟨l, l', a, hf, b⟩
      · rw [b] at hl
        cases hl
      · rw [b] at hl
        cases hl
        cases hd : l.data with
        | none => rw [onData, hd] at hf; cases hf
        | some dd =>
          rw [onData, hd] at hf
          simp only [unwrap, R.ok_bind, leafOfAmgOwn, R.bind_eq_ok] at hf
          obtain ⟨o, h4, h5⟩ := hf
          cases h5
          exact ⟨dd, o, by rw [a, some_data hd], h4, rfl, rfl⟩

/-- **C108**.  Data that can be split never make the builder panic by itself: with the library's split finder, the only panics are those of the
function, and of these the one for the first leaf, taking the rows that answer yes before those that answer no. -/
theorem C108_panics [LawfulOrder F] (d : DataSet F) (c t : Nat) (h : d.WF c t) (cfg : TreeConfig) (ht : cfg.numberOfClasses = t)
    (own : LeafOutputCalculator F) (e : Panic) :
    ∃ tree, regressionTreeNew d cfg = .ok tree ∧
      (gradBoostTreeNewOwn d { cfg with splitFinder := .new } own = .error e ↔ ∃ before dd after,
        tree.leaves = before ++ { data := some dd } :: after ∧
        (∀ leaf ∈ before, ∃ dd' out, leaf.data = some dd' ∧ own.calculate dd' = .ok out) ∧ own.calculate dd = .error e) ∧
      (amgTreeNewOwn d { cfg with splitFinder := .new } own = .error e ↔ ∃ before dd after,
        tree.leaves = before ++ { data := some dd } :: after ∧
        (∀ leaf ∈ before, ∃ dd' out, leaf.data = some dd' ∧ own.calculate dd' = .ok out) ∧ own.calculate dd = .error e) := by
  obtain ⟨tree, hb⟩ : ∃ tree, regressionTreeNew d cfg = .ok tree := ⟨_, regressionTreeNew_ok h ht⟩
  have hr := hb
  rw [← (C105_library_finder d cfg .regression 0 F64.zero).1, regressionTreeNewWith_eq] at hr
  obtain ⟨hp, hl⟩ := growFuel_leaves _ hr
  have main : ∀ {L : Type} (f : DataSet F → R L), (∀ dd out, f dd = .ok out → ∃ o, own.calculate dd = .ok o) →
      (∀ dd o, own.calculate dd = .ok o → ∃ out, f dd = .ok out) → (∀ dd e, f dd = .error e ↔ own.calculate dd = .error e) →
      (tree.fill (onData f) = .error e ↔ ∃ before dd after, tree.leaves = before ++ { data := some dd } :: after ∧
        (∀ leaf ∈ before, ∃ dd' out, leaf.data = some dd' ∧ own.calculate dd' = .ok out) ∧ own.calculate dd = .error e) := by
    intro L f f1 f2 f3
    rw [fill_error hp]
    constructor
    · rintro ⟨before, l, after, a1, a2, a3⟩
      obtain ⟨dd, hd⟩ := hl l (by rw [a1]; simp)
      have hld : l = { data := some dd } := by
        cases l
        cases hd
        rfl
      rw [hld] at a1 a3
      refine ⟨before, dd, after, a1, ?_, ?_⟩
      · intro leaf hleaf
        obtain ⟨y, hy⟩ := a2 leaf hleaf
        obtain ⟨dd', hd'⟩ := hl leaf (by rw [a1]; simp [hleaf])
        rw [onData, hd'] at hy
        obtain ⟨o, ho⟩ := f1 dd' y hy
        exact ⟨dd', o, hd', ho⟩
      · exact (f3 dd e).mp a3
    · rintro ⟨before, dd, after, a1, a2, a3⟩
      refine ⟨before, _, after, a1, ?_, (f3 dd e).mpr a3⟩
      intro leaf hleaf
      obtain ⟨dd', o, hd', ho⟩ := a2 leaf hleaf
      obtain ⟨y, hy⟩ := f2 dd' o ho
      refine ⟨y, ?_⟩
      rw [onData, hd']
      exact hy
  refine ⟨tree, hb, ?_, ?_⟩
  · rw [gradBoostTreeNewOwn_eq, growFuel_fill _ hr]
    refine main _ ?_ ?_ ?_
    · intro dd out ho
      simp only [leafOfGradBoostOwn, R.bind_eq_ok] at ho
      obtain ⟨o, h1, _⟩ := ho
      exact ⟨o, h1⟩
    · intro dd o ho
      exact ⟨_, by simp only [leafOfGradBoostOwn, ho, R.ok_bind]; rfl⟩
    · intro dd e
      cases ho : own.calculate dd with
      | ok o => simp [leafOfGradBoostOwn, ho, R.ok_bind, R.pure_eq]
      | error e' => simp [leafOfGradBoostOwn, ho, bind, Except.bind]
  · rw [amgTreeNewOwn_eq, growFuel_fill _ hr]
    refine main _ ?_ ?_ ?_
    · intro dd out ho
      simp only [leafOfAmgOwn, R.bind_eq_ok] at ho
      obtain ⟨o, h1, _⟩ := ho
      exact ⟨o, h1⟩
    · intro dd o ho
      exact ⟨_, by simp only [leafOfAmgOwn, ho, R.ok_bind]; rfl⟩
    · intro dd e
      cases ho : own.calculate dd with
      | ok o => simp [leafOfAmgOwn, ho, R.ok_bind, R.pure_eq]
      | error e' => simp [leafOfAmgOwn, ho, bind, Except.bind]

/-- **C108**.  Every row with enough features reaches a leaf, and the output there is what the function returns for exactly the training examples that
reach the same leaf, of which there are some. -/
theorem C108_outputs (d : DataSet F) (c t : Nat) (h : d.WF c t) (cfg : CustomConfig F) (ht : cfg.numberOfClasses = t)
    (own : LeafOutputCalculator F) (tree : TreeNode F (GradBoostLeaf F)) (hb : gradBoostTreeNewOwn d cfg own = .ok tree)
    (row : List F) (hrow : c ≤ row.length) :
    ∃ (leaf : GradBoostLeaf F) (dd : DataSet F) (out : List F), findLeafNodeForData row tree = .ok leaf ∧ dd.WF c t ∧
      dd.examples = d.examples.filter (fun e => decide (tree.route e.1 = tree.route row)) ∧ own.calculate dd = .ok out ∧
      leaf.leafOutput = some out := by
  rw [gradBoostTreeNewOwn_eq, ht] at hb
  obtain ⟨dd, l, h1, h2, h3, _, h5⟩ := (grown_of_ok _ h hb).lookup h hrow
  simp only [leafOfGradBoostOwn, R.bind_eq_ok] at h1
  obtain ⟨out, h6, h7⟩ := h1
  cases h7
  exact ⟨_, dd, out, h3, h2, h5, h6, rfl⟩

/-! ## a boosting loop of the caller -/

/-- **C108**.  `boosting_loop` with any executor: it is called once, with the training data, the initial guess as the current label of every
row, and the caller's numbers unchanged; the model consists of what it returns, the initial guess and the learning rate.  If it panics, so
does the training. -/
theorem C108_executor [LawfulCount F] {L : Type} (d : DataSet F) (c t : Nat) (h : d.WF c t) (ht : t ≤ 2 ^ 53) (cfg : TreeConfig) (n : Nat)
    (lr : F) (ex : BoostingExecutor F L) :
    ∃ guess, guess.length = t ∧
      (ex.ensembleType = .regressionBoost → calculateAverageVector d.labels = .ok guess) ∧
      (ex.ensembleType ≠ .regressionBoost → guess = List.replicate t (F64.one /. F64.ofNat t)) ∧
      boostingLoop d cfg n lr ex =
        match ex.loopExecutor { data := d, mutableLabels := List.replicate d.featureRows.length guess, size := d.featureRows.length } n cfg lr with
        | .ok (final, trees) => .ok (final, { trees := trees, initialGuess := guess, learningRate := lr })
        | .error e => .error e := by
  have key : ∀ guess, determineInitialGuess { data := d, mutableLabels := d.labels, size := d.labels.length } ex.ensembleType = .ok guess →
      boostingLoop d cfg n lr ex =
        match ex.loopExecutor { data := d, mutableLabels := List.replicate d.featureRows.length guess, size := d.featureRows.length } n cfg lr with
        | .ok (final, trees) => .ok (final, { trees := trees, initialGuess := guess, learningRate := lr })
        | .error e => .error e := by
    intro guess hg
    simp only [boostingLoop, updateLabelsWithInitialGuess_ok, hg, R.ok_bind]
    rw [h.label_count]
    cases ex.loopExecutor { data := d, mutableLabels := List.replicate d.featureRows.length guess, size := d.featureRows.length } n cfg lr with
    | ok r => rfl
    | error e => rfl
  by_cases hty : ex.ensembleType = .regressionBoost
  · refine ⟨avgVec t d.labels, leafOut_length .regression h.label_len, fun _ => ?_, fun h' => absurd hty h', ?_⟩
    · exact calculateAverageVector_ok h.labels_ne h.label_len
    · exact key _ (by rw [hty]; exact determineInitialGuess_regression h)
  · exact ⟨List.replicate t (F64.one /. F64.ofNat t), by simp, fun h' => absurd h' hty, fun _ => rfl, key _ (determineInitialGuess_class h ht hty)⟩

/-- **C108**.  An executor cannot be called without a label: then the training panics. -/
theorem C108_executor_empty {L : Type} (d : DataSet F) (h : d.labels = []) (cfg : TreeConfig) (n : Nat) (lr : F) (ex : BoostingExecutor F L) :
    boostingLoop d cfg n lr ex = .error .index := by
  simp [boostingLoop, determineInitialGuess, h, idx, bind, Except.bind]

theorem tracks_tree {L : Type} {upd : TrainingData F → TreeNode F L → R (TrainingData F)} {out : List F → TreeNode F L → R (List F)} {d : DataSet F}
    {guess : List F} {lr : F} (hu : UpdateAdds upd out lr guess.length) {s : TrainingData F × List (TreeNode F L)}
    (hs : Tracks out d guess lr s) {tree : TreeNode F L} {t' : TrainingData F} (h : upd s.1 tree = .ok t') :
    Tracks out d guess lr (t', s.2 ++ [tree]) := by
  refine tracks_step (res := fun _ => .ok []) (fit := fun _ => .ok tree) hu hs ?_
  simp only [boostStep, R.ok_bind, h]
  rfl

theorem tracks_fold {L : Type} {upd : TrainingData F → TreeNode F L → R (TrainingData F)} {out : List F → TreeNode F L → R (List F)} {d : DataSet F}
    {guess : List F} {lr : F} (hu : UpdateAdds upd out lr guess.length) (trees : List (TreeNode F L)) :
    ∀ {s : TrainingData F × List (TreeNode F L)}, Tracks out d guess lr s → ∀ {t' : TrainingData F},
    trees.foldlM (fun t tree => upd t tree) s.1 = .ok t' → Tracks out d guess lr (t', s.2 ++ trees) := by
  induction trees with
  | nil =>
    intro s hs t' h
    cases h
    simpa using hs
  | cons tree trees ih =>
    intro s hs t' h
    rw [List.foldlM_cons, R.bind_eq_ok] at h
    obtain ⟨t1, h1, h2⟩ := h
    have := ih (tracks_tree hu hs h1) h2
    simpa using this

/-- **C108**.  Whatever trees an executor adds, and however it came by them: if it starts from what `boosting_loop` passes and adds every tree with
`update_dataset_labels` (in an AMG ensemble with its counterpart), the current label of a training row is, to the last bit, the
prediction of the model for that row. -/
theorem C108_bookkeeping (d : DataSet F) (guess : List F) (lr : F) :
    (∀ (trees : List (TreeNode F (GradBoostLeaf F))) (final : TrainingData F),
      trees.foldlM (fun t tree => updateDatasetLabels t tree lr)
        { data := d, mutableLabels := List.replicate d.labels.length guess, size := d.labels.length } = .ok final →
      final.data = d ∧ final.size = d.labels.length ∧ final.mutableLabels.length = d.labels.length ∧
      ∀ (i : Nat) (row cur : List F), d.featureRows[i]? = some row → final.mutableLabels[i]? = some cur →
        predictInstance row trees guess lr = .ok cur) ∧
    (∀ (trees : List (TreeNode F (AMGBoostLeaf F))) (final : TrainingData F),
      trees.foldlM (fun t tree => amgUpdateDatasetLabels t tree lr)
        { data := d, mutableLabels := List.replicate d.labels.length guess, size := d.labels.length } = .ok final →
      final.data = d ∧ final.size = d.labels.length ∧ final.mutableLabels.length = d.labels.length ∧
      ∀ (i : Nat) (row cur : List F), d.featureRows[i]? = some row → final.mutableLabels[i]? = some cur →
        amgPredictInstance row trees guess lr guess.length = .ok cur) := by
  constructor
  · intro trees final hf
    have ht := tracks_fold (grad_updateAdds lr guess.length) trees (tracks_start d guess lr) hf
    refine ⟨ht.data, ht.size, ht.len, ?_⟩
    intro i row cur hrow hcur
    rw [predictInstance_eq]
    simpa using ht.score i row cur hrow hcur
  · intro trees final hf
    have ht := tracks_fold (amg_updateAdds lr guess.length) trees (tracks_start d guess lr) hf
    refine ⟨ht.data, ht.size, ht.len, ?_⟩
    intro i row cur hrow hcur
    rw [amgPredictInstance_eq]
    simpa using ht.score i row cur hrow hcur

end

/-! ## the error on the training data -/

section
variable {K : Type} [Field K] [LinearOrder K] [IsStrictOrderedRing K] [FloorSemiring K] [HasExp K]

theorem own_step {d : DataSet (Ext K)} {c t : Nat} (h : d.WF c t) {ls ps : List (List K)} (hls : d.labels = lift ls)
    {find : SplitFinder (Ext K)} {m : Nat} {own : LeafOutputCalculator (Ext K)} (hc : own.Helps c t) {lr : K} (h0 : 0 ≤ lr) (h1 : lr ≤ 1)
    {guess : List (Ext K)} (hg : guess.length = t) {s : TrainingData (Ext K) × List (TreeNode (Ext K) (GradBoostLeaf (Ext K)))}
    (hs : Finite gradOut d guess lr t s ps) {tree : TreeNode (Ext K) (GradBoostLeaf (Ext K))}
    (hb : growFuel find (leafOfGradBoostOwn own) t m { d with labels := lift (resid ls ps) } = .ok tree) :
    ∃ ps' t', updateDatasetLabels s.1 tree (.fin lr) = .ok t' ∧ Finite gradOut d guess lr t (t', s.2 ++ [tree]) ps' ∧ mseOf ls ps' ≤ mseOf ls ps := by
  have hlen : ps.length = ls.length := by rw [hs.len, hls, lift_length]
  obtain ⟨o, ho, he⟩ := own_round_error h hls hlen hs.width hc hb h0 h1
  have hps_rows : ps.length = d.featureRows.length := by rw [hs.len, h.label_count]
  obtain ⟨t', ht'⟩ := grad_update_of_out h hg hs.tracks (tree := tree) (by
    intro row hrow
    obtain ⟨a, b⟩ := ho row hrow
    simp only [gradOut, R.bind_eq_ok] at a
    obtain ⟨leaf, a1, a2⟩ := a
    refine ⟨leaf, liftV (o row), a1, by rw [liftV_length, b], ?_⟩
    cases hl : leaf.leafOutput with
    | none => rw [hl] at a2; cases a2
    | some v =>
      rw [hl] at a2
      cases a2
      rfl)
  refine ⟨updated lr o ps d.featureRows, t', ht', ⟨?_, ?_, ?_, ?_⟩, he⟩
  · exact tracks_tree (grad_updateAdds (Ext.fin lr) guess.length) hs.tracks ht'
  · have hu := grad_updateAdds (Ext.fin lr) guess.length
    rw [hg] at hu
    have := update_exact (o := o) hu hs.labels (by rw [hs.len, hs.tracks.size]) hs.width (by rw [hs.tracks.data, hs.tracks.size, h.label_count])
      (fun row hrow => (ho row (by rw [hs.tracks.data] at hrow; exact hrow)).1) ht'
    rw [hs.tracks.data] at this
    exact this
  · rw [updated_length hps_rows, hs.len]
  · exact updated_width hs.width (fun row hr => (ho row hr).2)

theorem update_total_of {d : DataSet (Ext K)} {c t : Nat} (h : d.WF c t) {ls ps : List (List K)} (hls : d.labels = lift ls)
    (hlen : ps.length = ls.length) (hw : ∀ p ∈ ps, p.length = t) {tree : TreeNode (Ext K) (GradBoostLeaf (Ext K))}
    {o : List (Ext K) → List K} (ho : ∀ row ∈ d.featureRows, gradOut row tree = .ok (liftV (o row)) ∧ (o row).length = t) {lr : K} :
    ∃ t', updateDatasetLabels { data := d, mutableLabels := lift ps, size := ls.length } tree (.fin lr) = .ok t' := by
  have hrows : d.featureRows.length = ls.length := by rw [← h.label_count, hls, lift_length]
  refine update_loop_total (K := t) (by rw [lift_length, hlen]) ?_ ?_
  · intro v hv
    obtain ⟨w, hw', rfl⟩ := mem_lift.mp hv
    rw [liftV_length, hw w hw']
  · intro i u cur hi hu hul hcur hcurK
    have hir : i < d.featureRows.length := by rw [hrows]; exact hi
    have hirow : u.data.featureRows[i]? = some d.featureRows[i] := by rw [hu, List.getElem?_eq_getElem hir]
    obtain ⟨h1, hl⟩ := ho _ (List.getElem_mem hir)
    simp only [gradOut, R.bind_eq_ok] at h1
    obtain ⟨leaf, h2, h3⟩ := h1
    have hi' : i < ls.length := hi
    refine ⟨List.zipWith F64.add cur ((liftV (o d.featureRows[i])).map (fun x => .fin lr *. x)), by simp [hcurK, hl, liftV], ?_⟩
    rw [idx_some hirow, R.ok_bind, h2, R.ok_bind, h3, R.ok_bind, idx_some hcur, R.ok_bind, addSlices_ok (by simp [hcurK, hl, liftV]),
      R.ok_bind, setIdx_lt (by rw [hul]; exact hi')]
    rfl

/-- **C108**.  One round with any split finder and any leaf output function that helps: if a tree is built for what remains of the labels and added with a
learning rate between 0 and 1, the mean squared error on the training data does not increase. -/
theorem C108_round (d : DataSet (Ext K)) (c t : Nat) (h : d.WF c t) (ls ps : List (List K)) (hls : d.labels = lift ls)
    (hlen : ps.length = ls.length) (hw : ∀ p ∈ ps, p.length = t) (cfg : CustomConfig (Ext K)) (ht : cfg.numberOfClasses = t)
    (own : LeafOutputCalculator (Ext K)) (hc : own.Helps c t) (lr : K) (h0 : 0 ≤ lr) (h1 : lr ≤ 1)
    (tree : TreeNode (Ext K) (GradBoostLeaf (Ext K)))
    (hb : gradBoostTreeNewOwn { d with labels := lift (remaining ls ps) } cfg own = .ok tree) :
    ∃ ps', updateDatasetLabels { data := d, mutableLabels := lift ps, size := ls.length } tree (.fin lr) =
        .ok { data := d, mutableLabels := lift ps', size := ls.length } ∧ mseOf ls ps' ≤ mseOf ls ps := by
  rw [gradBoostTreeNewOwn_eq, ht] at hb
  change growFuel _ _ _ _ { d with labels := lift (resid ls ps) } = _ at hb
  obtain ⟨o, ho, he⟩ := own_round_error h hls hlen hw hc hb h0 h1
  have hrows : d.featureRows.length = ls.length := by rw [← h.label_count, hls, lift_length]
  have hu := grad_updateAdds (Ext.fin lr) t
  obtain ⟨t', ht'⟩ := update_total_of h hls hlen hw ho (lr := lr)
  refine ⟨updated lr o ps d.featureRows, ?_, he⟩
  have h2 := update_exact (o := o) hu (s := { data := d, mutableLabels := lift ps, size := ls.length }) rfl hlen hw hrows
    (fun row hrow => (ho row hrow).1) ht'
  obtain ⟨h3, h4, _⟩ := hu _ tree t' (by rw [lift_length, hlen]) (by
    intro v hv
    obtain ⟨w, hw', rfl⟩ := mem_lift.mp hv
    rw [liftV_length, hw w hw']) ht'
  rw [ht']
  cases t'
  cases h2
  cases h3
  cases h4
  rfl

/-- **C108**.  The whole loop of the caller, run by `boosting_loop`: with a learning rate between 0 and 1, any split finder and any leaf output function
that helps, the model that is returned predicts the training data at least as well, in the mean square, as their means do. -/
theorem C108_loop (d : DataSet (Ext K)) (c t : Nat) (h : d.WF c t) (ls : List (List K)) (hls : d.labels = lift ls) (cfg : TreeConfig)
    (ht : cfg.numberOfClasses = t) (find : SplitFinder (Ext K)) (own : LeafOutputCalculator (Ext K)) (hc : own.Helps c t) (lr : K)
    (h0 : 0 ≤ lr) (h1 : lr ≤ 1) (n : Nat) (final : TrainingData (Ext K)) (model : BoostModel (Ext K) (GradBoostLeaf (Ext K)))
    (hb : boostingLoop d cfg n (.fin lr) { ensembleType := .regressionBoost, loopExecutor := ownLoop find own } = .ok (final, model)) :
    model.trees.length = n ∧
    ∃ ps, ps.length = ls.length ∧ mseOf ls ps ≤ mseOf ls (List.replicate ls.length (meanVec t ls)) ∧
      ∀ (i : Nat) (row : List (Ext K)) (p : List K), d.featureRows[i]? = some row → ps[i]? = some p →
        predictInstance row model.trees model.initialGuess model.learningRate = .ok (liftV p) := by
  obtain ⟨hg, hlr, hl⟩ := boostingLoop_inv hb
  rw [determineInitialGuess_regression h, hls, avgVec_exact (lift_width hls h.label_len) (by
    intro h0
    rw [h0] at hls
    exact h.labels_ne hls)] at hg
  have hguess := (Except.ok.inj hg).symm
  have hgl : model.initialGuess.length = t := by rw [hguess, liftV_length, meanVec_length]
  have hlen0 : d.labels.length = ls.length := by rw [hls, lift_length]
  have inv := forRange_inv (P := fun k s => s.2.length = k ∧ ∃ ps, Finite gradOut d model.initialGuess lr t s ps ∧
      mseOf ls ps ≤ mseOf ls (List.replicate ls.length (meanVec t ls)))
    (s := (startState d model.initialGuess, ([] : List (TreeNode (Ext K) (GradBoostLeaf (Ext K))))))
    (by
      refine ⟨rfl, List.replicate ls.length (meanVec t ls), ⟨tracks_start d _ _, ?_, ?_, ?_⟩, le_rfl⟩
      · simp only [startState, hguess, lift, List.map_replicate, hlen0]
      · simp [hlen0]
      · intro p hp
        rw [List.eq_of_mem_replicate hp, meanVec_length]) hl
    (by
      rintro k s s' hk ⟨hs0, ps, hs, he⟩ hstep
      simp only [R.bind_eq_ok] at hstep
      obtain ⟨r, hr, tree, htree, t1, hupd, hfin⟩ := hstep
      cases hfin
      rw [regressionResiduals_ok h hgl hs.tracks, hs.labels, hls, resid_lift] at hr
      have := Except.ok.inj hr
      subst this
      rw [hs.tracks.data, gradBoostTreeNewOwn_eq] at htree
      simp only [ht] at htree
      obtain ⟨ps', t', a1, a2, a3⟩ := own_step h hls hc h0 h1 hgl hs htree
      rw [a1] at hupd
      have := Except.ok.inj hupd
      subst this
      exact ⟨by simp [hs0], ps', a2, a3.trans he⟩)
  obtain ⟨hn, ps, hs, he⟩ := inv
  refine ⟨hn, ps, by rw [hs.len, hlen0], he, ?_⟩
  intro i row p hrow hp
  rw [predictInstance_eq, hlr]
  refine hs.tracks.score i row _ hrow ?_
  rw [hs.labels, lift, List.getElem?_map, hp]
  rfl

/-! ## leaf output functions that help -/

theorem scaled_mean_le (a : K) (h0 : 0 ≤ a) (h2 : a ≤ 2) {t : Nat} {rs : List (List K)} (hrs : rs ≠ []) (hlen : ∀ r ∈ rs, r.length = t) :
    (rs.map (fun r => sqErr r ((meanVec t rs).map (fun x => a * x)))).sum ≤ (rs.map (fun r => sqErr r (List.replicate t 0))).sum := by
  have e1 : (rs.map (fun r => sqErr r ((meanVec t rs).map (fun x => a * x)))).sum =
      ((List.range t).map (fun j => (rs.map (fun r => (r.getD j 0 - a * meanOf (target rs j)) ^ 2)).sum)).sum / t := by
    rw [← sum_range_swap, div_eq_mul_inv, ← List.sum_map_mul_right]
    congr 1
    apply List.map_congr_left
    intro r hr
    rw [sqErr_eq (hlen r hr) (by simp [meanVec_length]), div_eq_mul_inv]
    congr 2
    apply List.map_congr_left
    intro j hj
    rw [List.mem_range] at hj
    simp [meanVec, hj]
  have e2 : (rs.map (fun r => sqErr r (List.replicate t 0))).sum =
      ((List.range t).map (fun j => (rs.map (fun r => r.getD j 0 ^ 2)).sum)).sum / t := by
    rw [← sum_range_swap, div_eq_mul_inv, ← List.sum_map_mul_right]
    congr 1
    apply List.map_congr_left
    intro r hr
    rw [sqErr_eq (hlen r hr) (by simp), div_eq_mul_inv]
    congr 2
    apply List.map_congr_left
    intro j hj
    rw [List.mem_range] at hj
    simp [hj]
  rw [e1, e2]
  refine div_le_div_of_nonneg_right (List.sum_le_sum ?_) (Nat.cast_nonneg _)
  intro j _
  have hn : (0 : K) < rs.length := by exact_mod_cast List.length_pos_of_ne_nil hrs
  set μ := meanOf (target rs j) with hμ
  have hsum : (rs.map (fun r => r.getD j 0)).sum = rs.length * μ := by
    rw [hμ, meanOf, target, List.length_map]
    field_simp
  have e3 : (rs.map (fun r => (r.getD j 0 - a * μ) ^ 2)).sum =
      (rs.map (fun r => r.getD j 0 ^ 2)).sum - 2 * a * μ * (rs.map (fun r => r.getD j 0)).sum + rs.length * (a * μ) ^ 2 := by
    clear hsum hμ hn e1 e2 hlen hrs
    clear_value μ
    induction rs with
    | nil => simp
    | cons r rs ih =>
      simp only [List.map_cons, List.sum_cons, ih, List.length_cons, Nat.cast_add, Nat.cast_one]
      ring
  rw [e3, hsum]
  have := mul_nonneg (mul_nonneg (mul_nonneg h0 (sub_nonneg.mpr h2)) hn.le) (sq_nonneg μ)
  nlinarith

/-- **C108**.  The library's function for the squared error helps, and so does every multiple of it by a factor between 0 and 2, such as the
shrunken mean of regularised boosting. -/
theorem C108_scaled_mean_helps (a : K) (h0 : 0 ≤ a) (h2 : a ≤ 2) (c t : Nat) :
    (LeafOutputCalculator.new .regression : LeafOutputCalculator (Ext K)).Helps c t ∧
    LeafOutputCalculator.Helps (K := K) { calculate := fun dd => do
      let mean ← calculateAverageVector dd.labels
      pure (mean.map (fun x => .fin a *. x)) } c t := by
  have facts : ∀ (dd : DataSet (Ext K)) (rs : List (List K)), dd.WF c t → dd.labels = lift rs → rs ≠ [] ∧ (∀ r ∈ rs, r.length = t) ∧
      calculateAverageVector dd.labels = .ok (liftV (meanVec t rs)) := by
    intro dd rs hw hl
    have hrs : rs ≠ [] := by
      intro h0
      rw [h0] at hl
      exact hw.labels_ne hl
    have hlen := lift_width hl hw.label_len
    exact ⟨hrs, hlen, by rw [calculateAverageVector_ok hw.labels_ne hw.label_len, hl, avgVec_exact hlen hrs]⟩
  constructor
  · intro dd rs hw hl
    obtain ⟨h3, h4, h5⟩ := facts dd rs hw hl
    refine ⟨meanVec t rs, h5, meanVec_length _ _, ?_⟩
    simpa using scaled_mean_le 1 zero_le_one one_le_two h3 h4
  · intro dd rs hw hl
    obtain ⟨h3, h4, h5⟩ := facts dd rs hw hl
    refine ⟨(meanVec t rs).map (fun x => a * x), ?_, by simp [meanVec_length], scaled_mean_le a h0 h2 h3 h4⟩
    simp only [h5, R.ok_bind, liftV_map_mul]
    rfl

end

/-! ## examples -/

/-- a leaf output function of a caller: the label of the first example in the leaf, but it panics on a leaf with two examples -/
def Sample.firstLabel : LeafOutputCalculator E :=
  { calculate := fun d => match d.labels with
    | [] => .error .index
    | [_, _] => .error .assertion
    | l :: _ => .ok l }

/-- a leaf output function of a caller: three times the mean -/
def Sample.triple : LeafOutputCalculator E :=
  { calculate := fun d => do
      let mean ← calculateAverageVector d.labels
      pure (mean.map (fun x => 3 *. x)) }

/-- a leaf output function of a caller: half the mean -/
def Sample.halfMean : LeafOutputCalculator E :=
  { calculate := fun d => do
      let mean ← calculateAverageVector d.labels
      pure (mean.map (fun x => .fin (1 / 2) *. x)) }

-- C108_when, C108_tree, C108_outputs: with one level the leaves have three examples and one, and there is a tree
example : d4.WF 2 1 ∧ (gradBoostTreeNewOwn d4 { levels 1 with splitFinder := .new } firstLabel).toOption.isSome = true ∧
    ((gradBoostTreeNewOwn d4 { levels 1 with splitFinder := .new } firstLabel).toOption.map (fun tree => tree.leaves.map (fun l => l.leafOutput))) =
      some [some [1], some [0]] :=
  ⟨d4_wf, by decide +kernel, by decide +kernel⟩

-- C108_panics: with two levels the first leaf has two examples
example : d4.WF 2 1 ∧ (levels 2).numberOfClasses = 1 ∧
    panicOf (gradBoostTreeNewOwn d4 { levels 2 with splitFinder := .new } firstLabel) = some .assertion ∧
    panicOf (amgTreeNewOwn d4 { levels 2 with splitFinder := .new } firstLabel) = some .assertion ∧
    panicOf (regressionTreeNew d4 (levels 2)) = none :=
  ⟨d4_wf, rfl, by decide +kernel, by decide +kernel, by decide +kernel⟩

-- C108_executor: an executor that ignores the number of iterations
example : d4.WF 2 1 ∧ ((boostingLoop d4 (levels 1) 7 (.fin (1 / 2)) { ensembleType := .regressionBoost, loopExecutor := fun t _ _ _ => .ok (t, ([] : List (TreeNode E (GradBoostLeaf E)))) }).toOption.map
      (fun r => (r.2.trees.length, r.2.initialGuess, r.2.learningRate, r.1.mutableLabels))) =
    some (0, [.fin (11 / 4)], .fin (1 / 2), List.replicate 4 [.fin (11 / 4)]) :=
  ⟨d4_wf, by decide +kernel⟩

-- C108_executor_empty
example : (⟨[], [], []⟩ : DataSet E).labels = [] := rfl

-- C108_bookkeeping: two trees of the caller
example : ((do
    let tree ← gradBoostTreeNewOwn d4 { levels 1 with splitFinder := .new } firstLabel
    let tree' ← gradBoostTreeNewOwn d4 { levels 0 with splitFinder := .new } firstLabel
    let final ← [tree, tree'].foldlM (fun t tree => updateDatasetLabels t tree (.fin (1 / 2)))
      { data := d4, mutableLabels := List.replicate d4.labels.length [.fin 1], size := d4.labels.length }
    pure final.mutableLabels : R (List (List E))).toOption) = some [[1], [.fin (3 / 2)], [.fin (3 / 2)], [.fin (3 / 2)]] := by
  decide +kernel

-- C108_round, C108_loop: half the mean helps, and the loop returns a model
example : d4.WF 2 1 ∧ d4.labels = lift [[0], [1], [4], [6]] ∧ halfMean.Helps 2 1 ∧
    (boostingLoop d4 (levels 1) 3 (.fin 1) { ensembleType := .regressionBoost, loopExecutor := ownLoop .new halfMean }).toOption.isSome = true ∧
    (gradBoostTreeNewOwn { d4 with labels := lift (remaining [[0], [1], [4], [6]] [[1], [1], [1], [1]]) }
      { levels 1 with splitFinder := .new } halfMean).toOption.isSome = true :=
  ⟨d4_wf, rfl, (C108_scaled_mean_helps (1 / 2 : ℚ) (by norm_num) (by norm_num) 2 1).2, by decide +kernel, by decide +kernel⟩

/-- **C108**, without a function that helps: with three times the mean, the training error grows from one round to the next. -/
theorem C108_harmful : ∃ (d : DataSet E) (own : LeafOutputCalculator E), d.WF 2 1 ∧ ¬ own.Helps 2 1 ∧
    (∀ n, n ∈ [1, 2] → ((boostingLoop d (levels 1) n (.fin 1) { ensembleType := .regressionBoost, loopExecutor := ownLoop .new own }).toOption.bind
      (fun r => (calculateMeanSquaredError d.labels r.1.mutableLabels).toOption)) = some (if n = 1 then .fin (53 / 4) else .fin (87 / 2))) ∧
    ((boostingLoop d (levels 1) 0 (.fin 1) { ensembleType := .regressionBoost, loopExecutor := ownLoop .new own }).toOption.bind
      (fun r => (calculateMeanSquaredError d.labels r.1.mutableLabels).toOption)) = some (.fin (91 / 16)) := by
  refine ⟨d4, triple, d4_wf, ?_, by decide +kernel, by decide +kernel⟩
  intro h
  obtain ⟨o, h1, _, h3⟩ := h d4 [[0], [1], [4], [6]] d4_wf rfl
  have : o = [33 / 4] := by
    have h2 : triple.calculate d4 = .ok (liftV [33 / 4]) := by decide +kernel
    rw [h2] at h1
    have := Except.ok.inj h1
    exact (List.map_injective_iff.mpr (fun x y hxy => by cases hxy; rfl) this).symm
  subst this
  norm_num [sqErr] at h3

end Verif
