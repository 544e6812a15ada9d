import Verif.Lemmas.DialogFacts
import Verif.Props.Own
/-!
# C112: what a leaf output function of the caller is asked, and when

`GradBoostMultiTargetDecisionTree::new` and `AMGBoostTree::new` take two functions of the caller: a split finder, in the configuration, and a leaf output
function.  Both can keep state, and share it.
-/

set_option linter.unusedSectionVars false

namespace Verif

variable {F : Type} [F64 F] {L : Type}

open Sample
open Dialog (Run Step)

/-! ## every execution -/

/-- **C112**.  In every execution of a builder, finished or not, with whatever answers: both functions get well-formed parts of the training data, in
their order; none gets the same data set twice; the leaf output function gets only data for which the finder has already answered; and there are
few calls, of the leaf output function at most one for every `2^levels`, and with no more rows, in all its calls together, than there are. -/
theorem C112_calls (leafWith : List F → L) (d : DataSet F) (c t : Nat) (h : d.WF c t) (cfg : TreeConfig) (ht : cfg.numberOfClasses = t)
    (trace : List (Event F)) (u : Dialog F (TreeNode F L)) (hr : Run (treeCalling leafWith d cfg) trace u) :
    (∀ data targets answer, Event.split data targets answer ∈ trace → targets = t ∧ data.WF c t ∧ data.examples.Sublist d.examples) ∧
    (∀ data answer, Event.leaf data answer ∈ trace → data.WF c t ∧ data.examples.Sublist d.examples ∧
      ∃ s, [Event.split data t (.ok s), .leaf data answer].Sublist trace) ∧
    (finderGot trace).Nodup ∧ (leafGot trace).Nodup ∧
    (finderGot trace).length ≤ 2 ^ (cfg.maxLevels + 1) - 1 ∧ (finderGot trace).length ≤ 2 * d.featureRows.length - 1 ∧
    (leafGot trace).length ≤ 2 ^ cfg.maxLevels ∧
    ((leafGot trace).map (fun data => data.featureRows.length)).sum ≤ d.featureRows.length := by
  obtain ⟨tr, r, h1, _⟩ := Dialog.run_to_end u (fun _ _ _ => .error .index) (fun _ _ => .error .index) []
  have ha := treeCalling_talked ht h (hr.trans h1)
  have hcalls := ha.calls h
  obtain ⟨a1, a2, a3, a4⟩ := ha.count h
  obtain ⟨n1, n2⟩ := ha.nodup h
  rw [finderGot_append] at a1 a2 n1
  rw [leafGot_append] at a3 a4 n2
  rw [rows_length h] at a2 a4
  rw [List.length_append] at a1 a2 a3
  rw [List.map_append, List.sum_append] at a4
  refine ⟨fun data targets answer he => hcalls _ (List.mem_append_left _ he), fun data answer he => ?_, (List.nodup_append.mp n1).1,
    (List.nodup_append.mp n2).1, by omega, by omega, by omega, ?_⟩
  · obtain ⟨b1, b2⟩ := hcalls _ (List.mem_append_left _ he)
    refine ⟨b1, b2, ?_⟩
    obtain ⟨s, hs⟩ := ha.after data answer (List.mem_append_left _ he)
    refine ⟨s, ?_⟩
    obtain ⟨l1, l2, hl, s1, s2⟩ := List.sublist_append_iff.mp hs
    have hnot : Event.leaf data answer ∉ tr := fun hm =>
      (List.nodup_append.mp n2).2.2 data (mem_leafGot.mpr ⟨answer, he⟩) data (mem_leafGot.mpr ⟨answer, hm⟩) rfl
    have hl2 : l2 = [] := by
      rcases List.eq_nil_or_concat l2 with hl2 | ⟨l3, x, hl2⟩
      · exact hl2
      · exfalso
        rw [hl2, List.concat_eq_append, ← List.append_assoc,
          show [Event.split data t (.ok s), .leaf data answer] = [Event.split data t (.ok s)] ++ [.leaf data answer] from rfl] at hl
        have := (List.append_inj_right' hl rfl)
        simp only [List.cons.injEq, and_true] at this
        exact hnot (s2.subset (by rw [hl2, this]; simp))
    rw [hl, hl2, List.append_nil]
    exact s1
  · have : (leafGot trace).map (fun data => data.featureRows.length) = (leafGot trace).map (fun data => data.examples.length) := by
      refine List.map_congr_left (fun data hd => ?_)
      obtain ⟨answer, he⟩ := mem_leafGot.mp hd
      exact (rows_length (hcalls _ (List.mem_append_left _ he)).1).symm
    rw [this]
    omega

/-- **C112**.  Every execution comes to an end, whatever the two functions answer and even if they share a memory of all calls. -/
theorem C112_ends (leafWith : List F → L) (d : DataSet F) (cfg : TreeConfig)
    (find : List (Event F) → DataSet F → Nat → R (BestSplitResult F)) (own : List (Event F) → DataSet F → R (List F)) :
    (¬ ∃ f : Nat → Dialog F (TreeNode F L), f 0 = treeCalling leafWith d cfg ∧ ∀ n, ∃ events, Step (f n) events (f (n + 1))) ∧
    ∀ trace u, Run (treeCalling leafWith d cfg) trace u → AnsweredByBoth find own trace →
      ∃ rest r, Run u rest (.done r) ∧ AnsweredByBoth find own (trace ++ rest) := by
  refine ⟨Dialog.no_infinite _, ?_⟩
  intro trace u _ ha
  obtain ⟨rest, r, h1, h2⟩ := Dialog.run_to_end u find own trace
  exact ⟨rest, r, h1, by
    rw [Dialog.answeredBy_iff, Dialog.answeredFrom_append]
    exact ⟨ha, by simpa using h2⟩⟩

/-! ## executions that return a tree -/

/-- **C112**.  Without threads, the calls are those for the nodes of the returned tree in preorder; at a leaf, the finder is called and then the leaf
output function, with the examples that reach the leaf, and the leaf stores what it answers. -/
theorem C112_sequential (leafWith : List F → L) (d : DataSet F) (c t : Nat) (h : d.WF c t) (cfg : TreeConfig)
    (ht : cfg.numberOfClasses = t) (hm : cfg.useMultiThreading = false) (trace : List (Event F)) (tree : TreeNode F L)
    (hr : Run (treeCalling leafWith d cfg) trace (.done (.ok tree))) :
    List.Forall₂ (EventAt leafWith d c t cfg.maxLevels tree) tree.moments trace := by
  obtain ⟨order, _, _, h3, h4⟩ := (treeCalling_talked ht h hr).order h rfl
  rw [← h4 hm]
  exact h3

/-- **C112**.  With or without threads: the same calls, each once; those for a node come after the finder was called for the node above, and that of
the leaf output function after the finder's for the same leaf. -/
theorem C112_parallel (leafWith : List F → L) (d : DataSet F) (c t : Nat) (h : d.WF c t) (cfg : TreeConfig)
    (ht : cfg.numberOfClasses = t) (trace : List (Event F)) (tree : TreeNode F L)
    (hr : Run (treeCalling leafWith d cfg) trace (.done (.ok tree))) :
    ∃ order, order.Perm tree.moments ∧ InOrder order ∧ List.Forall₂ (EventAt leafWith d c t cfg.maxLevels tree) order trace := by
  obtain ⟨order, h1, h2, h3, _⟩ := (treeCalling_talked ht h hr).order h rfl
  exact ⟨order, h1, h2, h3⟩

/-- **C112**.  With threads nothing more is promised: every such order is that of some execution with the same calls, answers and tree. -/
theorem C112_any_order (leafWith : List F → L) (d : DataSet F) (c t : Nat) (h : d.WF c t) (cfg : TreeConfig)
    (ht : cfg.numberOfClasses = t) (hm : cfg.useMultiThreading = true) (trace : List (Event F)) (tree : TreeNode F L)
    (hr : Run (treeCalling leafWith d cfg) trace (.done (.ok tree))) (order : List Moment) (hp : order.Perm tree.moments)
    (hf : InOrder order) :
    ∃ trace', trace'.Perm trace ∧ List.Forall₂ (EventAt leafWith d c t cfg.maxLevels tree) order trace' ∧
      Run (treeCalling leafWith d cfg) trace' (.done (.ok tree)) := by
  obtain ⟨tr', h1, h2, h3⟩ := (treeCalling_talked ht h hr).reorder h hm rfl order hp hf
  refine ⟨tr', h1, h2, ?_⟩
  rw [treeCalling_eq, ht]
  exact run_of_talked h3 h

/-! ## panics -/

/-- **C112**.  A panic of the leaf output function is never lost, and with the library's finder it is the only way to fail: an execution ends with a
panic exactly if some call of the leaf output function did, and the panic is one of these. -/
theorem C112_panics [LawfulOrder F] (leafWith : List F → L) (d : DataSet F) (c t : Nat) (h : d.WF c t) (cfg : TreeConfig)
    (ht : cfg.numberOfClasses = t) (trace : List (Event F)) (r : R (TreeNode F L)) (hr : Run (treeCalling leafWith d cfg) trace (.done r)) :
    ((∃ tree, r = .ok tree) → ∀ data e, Event.leaf data (.error e) ∉ trace) ∧
    ((∀ data targets answer, Event.split data targets answer ∈ trace → answer = findBestSplit data targets) →
      ∀ e, r = .error e → ∃ data, Event.leaf data (.error e) ∈ trace) := by
  have ha := treeCalling_talked ht h hr
  constructor
  · rintro ⟨tree, rfl⟩ data e hm
    obtain ⟨order, _, _, h3, _⟩ := ha.order h rfl
    obtain ⟨i, hi, he⟩ := List.getElem_of_mem hm
    have h4 := h3.get (by rw [h3.length_eq]; exact hi) hi
    simp only [List.get_eq_getElem, he] at h4
    generalize order[i]'(by rw [h3.length_eq]; exact hi) = x at h4
    cases x with
    | split p => exact h4
    | leaf p =>
      obtain ⟨_, _, out, h5, _⟩ := h4
      cases h5
  · intro hf e he
    rcases ha.panics he with ⟨data, h1⟩ | h1 | ⟨data, s, h1, h2, h3⟩
    · exfalso
      have hw := (ha.calls h _ h1).2.1
      have := hf _ _ _ h1
      rw [findBestSplit_ok hw] at this
      cases this
    · exact h1
    · exfalso
      have hw := (ha.calls h _ h1).2.1
      have := hf _ _ _ h1
      rw [findBestSplit_ok hw] at this
      cases this
      obtain ⟨_, hc, _, hy, hn⟩ := splitOf_separates hw h2
      rw [partition_ok hw hc hy hn] at h3
      cases h3

/-! ## functions without memory -/

theorem grad_calling_eval (find : SplitFinder F) (own : LeafOutputCalculator F) (d : DataSet F) (cfg : TreeConfig) :
    Dialog.eval find own (treeCalling gradBoostLeafWith d cfg) = gradBoostTreeNewOwn d { cfg with splitFinder := find } own := by
  rw [treeCalling_eq, eval_callFuel, gradBoostTreeNewOwn_eq]
  rfl

theorem amg_calling_eval (find : SplitFinder F) (own : LeafOutputCalculator F) (d : DataSet F) (cfg : TreeConfig) :
    Dialog.eval find own (treeCalling amgLeafWith d cfg) = amgTreeNewOwn d { cfg with splitFinder := find } own := by
  rw [treeCalling_eq, eval_callFuel, amgTreeNewOwn_eq]
  rfl

/-- **C112**.  If all answers are those of functions without memory, the result, be it a tree or a panic, is that of the builder with these functions,
in every schedule. -/
theorem C112_pure (find : SplitFinder F) (own : LeafOutputCalculator F) (d : DataSet F) (cfg : TreeConfig) (trace : List (Event F))
    (ha : AnsweredByFunctions find own trace) :
    (∀ r, Run (treeCalling gradBoostLeafWith d cfg) trace (.done r) → r = gradBoostTreeNewOwn d { cfg with splitFinder := find } own) ∧
    (∀ r, Run (treeCalling amgLeafWith d cfg) trace (.done r) → r = amgTreeNewOwn d { cfg with splitFinder := find } own) := by
  refine ⟨fun r hr => ?_, fun r hr => ?_⟩
  · rw [← grad_calling_eval, ← Dialog.run_eval find own hr ha]
    rfl
  · rw [← amg_calling_eval, ← Dialog.run_eval find own hr ha]
    rfl

open Classical in
/-- the finder that gives the answers in a record -/
noncomputable def splitsOf (trace : List (Event F)) : SplitFinder F where
  findBestSplit d t := if h : ∃ answer, Event.split d t answer ∈ trace then h.choose else .error .index

open Classical in
/-- the leaf output function that gives the answers in a record -/
noncomputable def leavesOf (trace : List (Event F)) : LeafOutputCalculator F where
  calculate d := if h : ∃ answer, Event.leaf d answer ∈ trace then h.choose else .error .index

theorem splitsOf_agrees {trace : List (Event F)} (hn : (finderGot trace).Nodup) {d : DataSet F} {t : Nat} {answer : R (BestSplitResult F)}
    (hm : Event.split d t answer ∈ trace) : answer = (splitsOf trace).findBestSplit d t := by
  have h : ∃ answer, Event.split d t answer ∈ trace := ⟨answer, hm⟩
  simp only [splitsOf, h, ↓reduceDIte]
  have key : ∀ (trace : List (Event F)), (finderGot trace).Nodup → ∀ a b, Event.split d t a ∈ trace → Event.split d t b ∈ trace → a = b := by
    intro trace
    induction trace with
    | nil => intro _ a b h; simp at h
    | cons e trace ih =>
      intro hn a b ha hb
      cases e with
      | leaf d' a' =>
        simp only [List.mem_cons, reduceCtorEq, false_or] at ha hb
        exact ih hn a b ha hb
      | split d' t' a' =>
        rw [finderGot_split, List.nodup_cons] at hn
        simp only [List.mem_cons, Event.split.injEq] at ha hb
        rcases ha with ⟨rfl, rfl, rfl⟩ | ha <;> rcases hb with ⟨h1, h2, rfl⟩ | hb
        · rfl
        · exact absurd (mem_finderGot.mpr ⟨_, _, hb⟩) hn.1
        · exact absurd (mem_finderGot.mpr ⟨_, _, h1 ▸ ha⟩) hn.1
        · exact ih hn.2 a b ha hb
  exact key trace hn _ _ hm h.choose_spec

theorem leavesOf_agrees {trace : List (Event F)} (hn : (leafGot trace).Nodup) {d : DataSet F} {answer : R (List F)}
    (hm : Event.leaf d answer ∈ trace) : answer = (leavesOf trace).calculate d := by
  have h : ∃ answer, Event.leaf d answer ∈ trace := ⟨answer, hm⟩
  simp only [leavesOf, h, ↓reduceDIte]
  have key : ∀ (trace : List (Event F)), (leafGot trace).Nodup → ∀ a b, Event.leaf d a ∈ trace → Event.leaf d b ∈ trace → a = b := by
    intro trace
    induction trace with
    | nil => intro _ a b h; simp at h
    | cons e trace ih =>
      intro hn a b ha hb
      cases e with
      | split d' t' a' =>
        simp only [List.mem_cons, reduceCtorEq, false_or] at ha hb
        exact ih hn a b ha hb
      | leaf d' a' =>
        rw [leafGot_leaf, List.nodup_cons] at hn
        simp only [List.mem_cons, Event.leaf.injEq] at ha hb
        rcases ha with ⟨rfl, rfl⟩ | ha <;> rcases hb with ⟨h1, rfl⟩ | hb
        · rfl
        · exact absurd (mem_leafGot.mpr ⟨_, hb⟩) hn.1
        · exact absurd (mem_leafGot.mpr ⟨_, h1 ▸ ha⟩) hn.1
        · exact ih hn.2 a b ha hb
  exact key trace hn _ _ hm h.choose_spec

/-- **C112**.  Whatever the two functions do, and whatever the schedule, a finished execution has the result of the builder with some functions without
memory that give the same answers: so all of C108 holds for functions that depend on state. -/
theorem C112_function (d : DataSet F) (c t : Nat) (h : d.WF c t) (cfg : TreeConfig) (ht : cfg.numberOfClasses = t) (trace : List (Event F)) :
    (∀ r, Run (treeCalling gradBoostLeafWith d cfg) trace (.done r) → ∃ find own, AnsweredByFunctions find own trace ∧
      gradBoostTreeNewOwn d { cfg with splitFinder := find } own = r) ∧
    (∀ r, Run (treeCalling amgLeafWith d cfg) trace (.done r) → ∃ find own, AnsweredByFunctions find own trace ∧
      amgTreeNewOwn d { cfg with splitFinder := find } own = r) := by
  have main : (finderGot trace).Nodup ∧ (leafGot trace).Nodup → AnsweredByFunctions (splitsOf trace) (leavesOf trace) trace := by
    rintro ⟨h1, h2⟩ e he
    cases e with
    | split => exact splitsOf_agrees h1 he
    | leaf => exact leavesOf_agrees h2 he
  refine ⟨fun r hr => ?_, fun r hr => ?_⟩
  · have ha := main ((treeCalling_talked ht h hr).nodup h)
    exact ⟨_, _, ha, ((C112_pure _ _ d cfg trace ha).1 r hr).symm⟩
  · have ha := main ((treeCalling_talked ht h hr).nodup h)
    exact ⟨_, _, ha, ((C112_pure _ _ d cfg trace ha).2 r hr).symm⟩

/-- **C112**.  The leaf output function has no influence on the questions: if the finder is a function without memory, every returned tree asks the
questions, and sends every row the way, of the regression tree with this finder, whatever the leaf output function answers or remembers and
whatever the schedule. -/
theorem C112_questions (find : SplitFinder F) (d : DataSet F) (c t : Nat) (h : d.WF c t) (cfg : TreeConfig) (ht : cfg.numberOfClasses = t)
    (trace : List (Event F))
    (ha : ∀ data targets answer, Event.split data targets answer ∈ trace → answer = find.findBestSplit data targets) :
    (∀ tree, Run (treeCalling gradBoostLeafWith d cfg) trace (.done (.ok tree)) → ∃ tree0,
      regressionTreeNewWith d { cfg with splitFinder := find } = .ok tree0 ∧ (∀ p, tree.questionAt p = tree0.questionAt p) ∧
      ∀ row, tree.route row = tree0.route row) ∧
    (∀ tree, Run (treeCalling amgLeafWith d cfg) trace (.done (.ok tree)) → ∃ tree0,
      regressionTreeNewWith d { cfg with splitFinder := find } = .ok tree0 ∧ (∀ p, tree.questionAt p = tree0.questionAt p) ∧
      ∀ row, tree.route row = tree0.route row) := by
  have main : (leafGot trace).Nodup → AnsweredByFunctions find (leavesOf trace) trace := by
    intro h2 e he
    cases e with
    | split => exact ha _ _ _ he
    | leaf => exact leavesOf_agrees h2 he
  refine ⟨fun tree hr => ?_, fun tree hr => ?_⟩
  · have hb := ((C112_pure _ _ d cfg trace (main ((treeCalling_talked ht h hr).nodup h).2)).1 _ hr).symm
    obtain ⟨tree0, h0, _⟩ := (C108_when d _ _).1.mp ⟨tree, hb⟩
    obtain ⟨h1, h2, _⟩ := (C108_tree d _ (leavesOf trace) tree0 h0).1 tree hb
    exact ⟨tree0, h0, h1, h2⟩
  · have hb := ((C112_pure _ _ d cfg trace (main ((treeCalling_talked ht h hr).nodup h).2)).2 _ hr).symm
    obtain ⟨tree0, h0, _⟩ := (C108_when d _ _).2.mp ⟨tree, hb⟩
    obtain ⟨h1, h2, _⟩ := (C108_tree d _ (leavesOf trace) tree0 h0).2 tree hb
    exact ⟨tree0, h0, h1, h2⟩

/-! ## functions that remember -/

/-- **C112**.  Without threads the behaviour of the two functions decides the calls and the result, even if they share a memory of all calls. -/
theorem C112_deterministic (find : List (Event F) → DataSet F → Nat → R (BestSplitResult F)) (own : List (Event F) → DataSet F → R (List F))
    (leafWith : List F → L) (d : DataSet F) (cfg : TreeConfig) (hm : cfg.useMultiThreading = false) (trace trace' : List (Event F))
    (ha : AnsweredByBoth find own trace) (ha' : AnsweredByBoth find own trace') (r r' : R (TreeNode F L))
    (hr : Run (treeCalling leafWith d cfg) trace (.done r)) (hr' : Run (treeCalling leafWith d cfg) trace' (.done r')) :
    trace = trace' ∧ r = r' := by
  rw [treeCalling_eq, hm] at hr hr'
  exact Dialog.noFork_unique (h := []) (noFork_callFuel _ _ _ _) hr ha hr' ha'

/-- a finder without memory: it always asks about the first feature -/
def Sample.firstFeature : SplitFinder E where
  findBestSplit _ _ := .ok { gain := 1, question := { column := 0, value := 1 } }

/-- a leaf output function that numbers the leaves in the order in which it is called -/
def Sample.numbering : List (Event E) → DataSet E → R (List E) := fun before _ =>
  .ok [.fin ((leafGot before).length : ℚ)]

/-- the configuration of the example, one level -/
def Sample.oneLevel (threads : Bool) : TreeConfig := { useMultiThreading := threads, numberOfClasses := 1, maxLevels := 1 }

/-- the answer of `firstFeature` -/
abbrev Sample.firstAnswer : BestSplitResult E := { gain := 1, question := { column := 0, value := 1 } }

/-- **C112**, finding.  With threads, a leaf output function that remembers its calls can give different trees in different schedules, although the
questions are the same: here the leaves are numbered in the order of the calls. -/
theorem C112_schedule : xor.WF 2 1 ∧ ∃ trace trace' tree tree',
    AnsweredByBoth (fun _ => firstFeature.findBestSplit) numbering trace ∧
    Run (treeCalling gradBoostLeafWith xor (oneLevel true)) trace (.done (.ok tree)) ∧
    AnsweredByBoth (fun _ => firstFeature.findBestSplit) numbering trace' ∧
    Run (treeCalling gradBoostLeafWith xor (oneLevel true)) trace' (.done (.ok tree')) ∧
    (tree.leafAt [true] = some (gradBoostLeafWith [.fin 0]) ∧ tree.leafAt [false] = some (gradBoostLeafWith [.fin 1])) ∧
    (tree'.leafAt [true] = some (gradBoostLeafWith [.fin 1]) ∧ tree'.leafAt [false] = some (gradBoostLeafWith [.fin 0])) := by
  refine ⟨xor_wf,
    .split xor 1 (.ok firstAnswer) :: [.split xorY 1 (.ok firstAnswer), .leaf xorY (.ok [.fin 0]), .split xorN 1 (.ok firstAnswer),
      .leaf xorN (.ok [.fin 1])],
    .split xor 1 (.ok firstAnswer) :: [.split xorY 1 (.ok firstAnswer), .split xorN 1 (.ok firstAnswer), .leaf xorN (.ok [.fin 0]),
      .leaf xorY (.ok [.fin 1])],
    TreeNode.new firstAnswer.question (TreeNode.leafNode firstAnswer.question (gradBoostLeafWith [.fin 0]))
      (TreeNode.leafNode firstAnswer.question (gradBoostLeafWith [.fin 1])),
    TreeNode.new firstAnswer.question (TreeNode.leafNode firstAnswer.question (gradBoostLeafWith [.fin 1]))
      (TreeNode.leafNode firstAnswer.question (gradBoostLeafWith [.fin 0])), ?_, ?_, ?_, ?_, ?_, ?_⟩
  · rw [Dialog.answeredBy_iff]
    simp [Dialog.answeredFrom_cons, Dialog.answeredFrom_nil, Dialog.Answer, firstFeature, numbering]
  · rw [treeCalling_eq]
    refine run_of_talked (c := 2) ?_ xor_wf
    exact Talked.askPar (s := firstAnswer) rfl (by decide +kernel) (by decide) (by decide +kernel) (by decide +kernel)
      (.stop (.inl rfl) _) (.stop (.inl rfl) _) (.left (.left (.right (.right .nil))))
  · rw [Dialog.answeredBy_iff]
    simp [Dialog.answeredFrom_cons, Dialog.answeredFrom_nil, Dialog.Answer, firstFeature, numbering]
  · rw [treeCalling_eq]
    refine run_of_talked (c := 2) ?_ xor_wf
    exact Talked.askPar (s := firstAnswer) rfl (by decide +kernel) (by decide) (by decide +kernel) (by decide +kernel)
      (.stop (.inl rfl) _) (.stop (.inl rfl) _) (.left (.right (.right (.left .nil))))
  · exact ⟨rfl, rfl⟩
  · exact ⟨rfl, rfl⟩

-- an execution without threads, with the hypotheses of the theorems: five calls, at a leaf the finder before the leaf output function
example : xor.WF 2 1 ∧ (oneLevel false).numberOfClasses = 1 ∧ ∃ trace tree,
    AnsweredByBoth (fun _ => firstFeature.findBestSplit) numbering trace ∧
    Run (treeCalling gradBoostLeafWith xor (oneLevel false)) trace (.done (.ok tree)) ∧ leafGot trace = [xorY, xorN] ∧
    tree.moments = [.split [], .split [true], .leaf [true], .split [false], .leaf [false]] := by
  refine ⟨xor_wf, rfl, .split xor 1 (.ok firstAnswer) :: ([.split xorY 1 (.ok firstAnswer), .leaf xorY (.ok [.fin 0])] ++
    [.split xorN 1 (.ok firstAnswer), .leaf xorN (.ok [.fin 1])]),
    TreeNode.new firstAnswer.question (TreeNode.leafNode firstAnswer.question (gradBoostLeafWith [.fin 0]))
      (TreeNode.leafNode firstAnswer.question (gradBoostLeafWith [.fin 1])), ?_, ?_, rfl, rfl⟩
  · rw [Dialog.answeredBy_iff]
    simp [Dialog.answeredFrom_cons, Dialog.answeredFrom_nil, Dialog.Answer, firstFeature, numbering]
  · rw [treeCalling_eq]
    refine run_of_talked (c := 2) ?_ xor_wf
    exact Talked.askSeq (s := firstAnswer) rfl (by decide +kernel) (by decide) (by decide +kernel) (by decide +kernel)
      (.stop (.inl rfl) _) (.stop (.inl rfl) _)

-- an execution with the library's finder in which the leaf output function panics, as in `C112_panics`
example : xor.WF 2 1 ∧ ∃ trace r, Run (treeCalling gradBoostLeafWith xor (oneLevel true)) trace (.done r) ∧
    (∀ data targets answer, Event.split data targets answer ∈ trace → answer = findBestSplit data targets) ∧ r = .error .unwrapNone := by
  refine ⟨xor_wf, ?_⟩
  obtain ⟨trace, r, h1, h2⟩ := Dialog.run_to_end (treeCalling gradBoostLeafWith xor (oneLevel true)) (fun _ => findBestSplit)
    (fun _ _ => .error .unwrapNone) []
  have hs : ∀ data targets answer, Event.split data targets answer ∈ trace → answer = findBestSplit data targets := by
    intro data targets answer hm
    obtain ⟨a, b, rfl⟩ := List.append_of_mem hm
    exact h2 a _ b rfl
  have hl : ∀ data answer, Event.leaf data answer ∈ trace → answer = .error .unwrapNone := by
    intro data answer hm
    obtain ⟨a, b, rfl⟩ := List.append_of_mem hm
    exact h2 a _ b rfl
  refine ⟨trace, r, h1, hs, ?_⟩
  cases r with
  | error e =>
    obtain ⟨data, hm⟩ := (C112_panics gradBoostLeafWith xor 2 1 xor_wf (oneLevel true) rfl trace _ h1).2 hs e rfl
    have := hl _ _ hm
    cases this
    rfl
  | ok tree =>
    exfalso
    obtain ⟨order, h3, _, h5⟩ := C112_parallel gradBoostLeafWith xor 2 1 xor_wf (oneLevel true) rfl trace tree h1
    have hex : ∃ p, Moment.leaf p ∈ tree.moments := by
      have := (treeCalling_talked (c := 2) (t := 1) rfl xor_wf h1).proper rfl
      clear h1 h3 h5
      induction this with
      | leaf q l => exact ⟨[], by simp [TreeNode.moments]⟩
      | node q y n _ _ ihy _ =>
        obtain ⟨p, hp⟩ := ihy
        refine ⟨true :: p, ?_⟩
        simp only [TreeNode.moments, List.mem_cons, List.mem_append, List.mem_map]
        exact .inr (.inl ⟨_, hp, rfl⟩)
    obtain ⟨p, hp⟩ := hex
    obtain ⟨i, hi, he⟩ := List.getElem_of_mem (h3.mem_iff.mpr hp)
    have h4 := h5.get hi (by rw [← h5.length_eq]; exact hi)
    simp only [List.get_eq_getElem, he] at h4
    have hm := List.getElem_mem (l := trace) (n := i) (by rw [← h5.length_eq]; exact hi)
    generalize (trace)[i]'(by rw [← h5.length_eq]; exact hi) = x at h4 hm
    cases x with
    | split => exact h4
    | leaf data answer =>
      obtain ⟨_, _, out, h6, _⟩ := h4
      have := hl _ _ hm
      rw [h6] at this
      cases this

end Verif
