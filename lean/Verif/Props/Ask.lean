import Verif.Lemmas.AskBoost
import Verif.Props.Custom
/-!
# C106: what a split finder of the caller is asked
-/

set_option linter.unusedSectionVars false

namespace Verif

variable {F : Type} [F64 F] {L : Type}

open Sample
open Prog (Run Step)

/-! ## every execution -/

/-- **C106**.  In every execution of a builder, finished or not, with whatever answers: every call passes the number of targets and a
well-formed data set, part of the training data in their order; no data set is passed twice; and there are few calls. -/
theorem C106_calls (leafOf : DataSet F → R L) (d : DataSet F) (c t : Nat) (h : d.WF c t) (cfg : TreeConfig) (ht : cfg.numberOfClasses = t)
    (trace : List (Call F)) (u : Prog F (TreeNode F L)) (hr : Run (treeAsking leafOf d cfg) trace u) :
    (∀ call ∈ trace, call.targets = t ∧ call.data.WF c t ∧ call.data.examples.Sublist d.examples) ∧
    (trace.map (fun call => call.data)).Nodup ∧
    trace.length ≤ 2 ^ (cfg.maxLevels + 1) - 1 ∧ trace.length ≤ 2 * d.featureRows.length - 1 ∧
    (trace.map (fun call => call.data.featureRows.length)).sum ≤ d.featureRows.length * (cfg.maxLevels + 1) := by
  obtain ⟨tr, r, h1, _⟩ := Prog.run_to_end u (fun _ _ _ => .error .index) []
  have ha := treeAsking_asked ht h (hr.trans h1)
  have hcalls := ha.calls h
  obtain ⟨a1, a2, a3⟩ := ha.count h
  have hnd := ha.nodup h
  rw [rows_length h] at a2 a3
  rw [List.length_append] at a1 a2
  rw [List.map_append, List.sum_append] at a3
  rw [List.map_append] at hnd
  refine ⟨fun call hc => hcalls call (List.mem_append_left _ hc), (List.nodup_append.mp hnd).1, by omega, by omega, ?_⟩
  have : trace.map (fun call => call.data.featureRows.length) = trace.map (fun call => call.data.examples.length) :=
    List.map_congr_left (fun call hc => (rows_length (hcalls call (List.mem_append_left _ hc)).2.1).symm)
  rw [this]
  omega

/-- **C106**.  Every execution of a builder or a training comes to an end, whatever the finder answers and even if it remembers the calls. -/
theorem C106_ends {α : Type} (p : Prog F α) (g : List (Call F) → DataSet F → Nat → R (BestSplitResult F)) :
    (¬ ∃ f : Nat → Prog F α, f 0 = p ∧ ∀ n, ∃ calls, Step (f n) calls (f (n + 1))) ∧
    ∀ trace u, Run p trace u → AnsweredBy g trace → ∃ rest r, Run u rest (.done r) ∧ AnsweredBy g (trace ++ rest) := by
  refine ⟨Prog.no_infinite p, ?_⟩
  intro trace u _ ha
  obtain ⟨rest, r, h1, h2⟩ := Prog.run_to_end u g trace
  exact ⟨rest, r, h1, by
    rw [Prog.answeredBy_iff, Prog.answeredFrom_append]
    exact ⟨ha, by simpa using h2⟩⟩

/-! ## executions that return a tree -/

/-- **C106**.  Without threads, the calls are those for the nodes of the returned tree, in preorder: node, branch of the rows that answer yes, other
branch. -/
theorem C106_sequential (leafOf : DataSet F → R L) (d : DataSet F) (c t : Nat) (h : d.WF c t) (cfg : TreeConfig)
    (ht : cfg.numberOfClasses = t) (hm : cfg.useMultiThreading = false) (trace : List (Call F)) (tree : TreeNode F L)
    (hr : Run (treeAsking leafOf d cfg) trace (.done (.ok tree))) :
    List.Forall₂ (CallAt d c t cfg.maxLevels tree) tree.preorder trace := by
  obtain ⟨order, _, _, h3, h4⟩ := (treeAsking_asked ht h hr).order h rfl
  rw [← h4 hm]
  exact h3

/-- **C106**.  With or without threads, there is one call for every node of the returned tree, and a node's call comes after that of the node
above it. -/
theorem C106_parallel (leafOf : DataSet F → R L) (d : DataSet F) (c t : Nat) (h : d.WF c t) (cfg : TreeConfig)
    (ht : cfg.numberOfClasses = t) (trace : List (Call F)) (tree : TreeNode F L)
    (hr : Run (treeAsking leafOf d cfg) trace (.done (.ok tree))) : CallsOf d c t cfg.maxLevels tree trace := by
  obtain ⟨order, h1, h2, h3, _⟩ := (treeAsking_asked ht h hr).order h rfl
  exact ⟨order, h1, h2, h3⟩

/-- **C106**.  With threads nothing more is promised: every order that takes parents first is the order of the calls in some execution with the
same calls, answers and tree. -/
theorem C106_any_order (leafOf : DataSet F → R L) (d : DataSet F) (c t : Nat) (h : d.WF c t) (cfg : TreeConfig)
    (ht : cfg.numberOfClasses = t) (hm : cfg.useMultiThreading = true) (trace : List (Call F)) (tree : TreeNode F L)
    (hr : Run (treeAsking leafOf d cfg) trace (.done (.ok tree))) (order : List (List Bool)) (hp : order.Perm tree.preorder)
    (hf : ParentsFirst order) :
    ∃ trace', trace'.Perm trace ∧ List.Forall₂ (CallAt d c t cfg.maxLevels tree) order trace' ∧
      Run (treeAsking leafOf d cfg) trace' (.done (.ok tree)) := by
  obtain ⟨tr', h1, h2, h3⟩ := (treeAsking_asked ht h hr).reorder h hm rfl order hp hf
  refine ⟨tr', h1, h2, ?_⟩
  rw [treeAsking_eq, ht]
  exact run_of_asked h3 h

/-! ## finders that are functions -/

theorem regression_asking_eval (find : SplitFinder F) (d : DataSet F) (cfg : TreeConfig) :
    Prog.eval find (treeAsking leafOfRegression d cfg) = regressionTreeNewWith d { cfg with splitFinder := find } := by
  rw [treeAsking_eval, regressionTreeNewWith_eq]
  rfl

theorem grad_asking_eval (find : SplitFinder F) (d : DataSet F) (cfg : TreeConfig) (k : LeafOutputType) :
    Prog.eval find (treeAsking (leafOfGradBoost k) d cfg) = gradBoostTreeNewWith d { cfg with splitFinder := find } k := by
  rw [treeAsking_eval, gradBoostTreeNewWith_eq]
  rfl

theorem amg_asking_eval (find : SplitFinder F) (d : DataSet F) (cfg : TreeConfig) (k : LeafOutputType) :
    Prog.eval find (treeAsking (leafOfAmg k) d cfg) = amgTreeNewWith d { cfg with splitFinder := find } k := by
  rw [treeAsking_eval, amgTreeNewWith_eq]
  rfl

/-- **C106**.  If all answers are those of a function, the result, be it a tree or a panic, is that of the builder with this function, in every
schedule; the same for the ensembles. -/
theorem C106_pure (find : SplitFinder F) (d : DataSet F) (cfg : TreeConfig) (k : LeafOutputType) (n : Nat) (lr : F) (trace : List (Call F))
    (ha : ∀ call ∈ trace, call.answer = find.findBestSplit call.data call.targets) :
    (∀ r, Run (treeAsking leafOfRegression d cfg) trace (.done r) → r = regressionTreeNewWith d { cfg with splitFinder := find }) ∧
    (∀ r, Run (treeAsking (leafOfGradBoost k) d cfg) trace (.done r) → r = gradBoostTreeNewWith d { cfg with splitFinder := find } k) ∧
    (∀ r, Run (treeAsking (leafOfAmg k) d cfg) trace (.done r) → r = amgTreeNewWith d { cfg with splitFinder := find } k) ∧
    (∀ r, Run (regressionTrainAsking d cfg n lr) trace (.done r) → r = regressionTrainWith d { cfg with splitFinder := find } n lr) ∧
    (∀ r, Run (multiClassTrainAsking d cfg n lr) trace (.done r) → r = multiClassTrainWith d { cfg with splitFinder := find } n lr) ∧
    (∀ r, Run (amgTrainAsking d cfg n lr) trace (.done r) → r = amgTrainWith d { cfg with splitFinder := find } n lr) := by
  refine ⟨fun r hr => ?_, fun r hr => ?_, fun r hr => ?_, fun r hr => ?_, fun r hr => ?_, fun r hr => ?_⟩
  · rw [← regression_asking_eval, ← Prog.run_eval find hr ha]
    rfl
  · rw [← grad_asking_eval, ← Prog.run_eval find hr ha]
    rfl
  · rw [← amg_asking_eval, ← Prog.run_eval find hr ha]
    rfl
  · have := Prog.run_eval find hr ha
    rw [regressionTrainAsking, train_eval find _ _ _ _ _ _ _ _ (regressionLoopWith find) (fun t => by
      simp only [regressionLoopWith, gradBoostTreeNewWith_eq, boostLoop]
      rfl)] at this
    exact this
  · have := Prog.run_eval find hr ha
    rw [multiClassTrainAsking, train_eval find _ _ _ _ _ _ _ _ (multiClassLoopWith find) (fun t => by
      simp only [multiClassLoopWith, gradBoostTreeNewWith_eq, boostLoop]
      rfl)] at this
    exact this
  · have := Prog.run_eval find hr ha
    rw [amgTrainAsking, train_eval find _ _ _ _ _ _ _ _ (amgLoopWith find) (fun t => by
      simp only [amgLoopWith, amgTreeNewWith_eq, boostLoop]
      rfl)] at this
    exact this

open Classical in
/-- the function that gives the answers in a record -/
noncomputable def finderOf (trace : List (Call F)) : SplitFinder F where
  findBestSplit d t := if h : ∃ call ∈ trace, call.data = d ∧ call.targets = t then h.choose.answer else .error .index

theorem finderOf_agrees {trace : List (Call F)} (hn : (trace.map (fun call => call.data)).Nodup) :
    ∀ call ∈ trace, call.answer = (finderOf trace).findBestSplit call.data call.targets := by
  intro call hc
  have h : ∃ call' ∈ trace, call'.data = call.data ∧ call'.targets = call.targets := ⟨call, hc, rfl, rfl⟩
  simp only [finderOf, h, ↓reduceDIte]
  obtain ⟨h1, h2, _⟩ := h.choose_spec
  rw [List.inj_on_of_nodup_map hn h1 hc h2]

/-- **C106**.  Whatever the finder does, and whatever the schedule, a finished execution has the result of the builder with some function that gives
the same answers: so all of C105 holds for finders that depend on state. -/
theorem C106_function (d : DataSet F) (c t : Nat) (h : d.WF c t) (cfg : TreeConfig) (ht : cfg.numberOfClasses = t) (k : LeafOutputType)
    (trace : List (Call F)) :
    (∀ r, Run (treeAsking leafOfRegression d cfg) trace (.done r) → ∃ find : SplitFinder F,
      (∀ call ∈ trace, call.answer = find.findBestSplit call.data call.targets) ∧
      regressionTreeNewWith d { cfg with splitFinder := find } = r) ∧
    (∀ r, Run (treeAsking (leafOfGradBoost k) d cfg) trace (.done r) → ∃ find : SplitFinder F,
      (∀ call ∈ trace, call.answer = find.findBestSplit call.data call.targets) ∧
      gradBoostTreeNewWith d { cfg with splitFinder := find } k = r) ∧
    (∀ r, Run (treeAsking (leafOfAmg k) d cfg) trace (.done r) → ∃ find : SplitFinder F,
      (∀ call ∈ trace, call.answer = find.findBestSplit call.data call.targets) ∧
      amgTreeNewWith d { cfg with splitFinder := find } k = r) := by
  refine ⟨fun r hr => ?_, fun r hr => ?_, fun r hr => ?_⟩
  · have ha := finderOf_agrees ((treeAsking_asked ht h hr).nodup h)
    exact ⟨_, ha, by rw [← regression_asking_eval, ← Prog.run_eval _ hr ha]; rfl⟩
  · have ha := finderOf_agrees ((treeAsking_asked ht h hr).nodup h)
    exact ⟨_, ha, by rw [← grad_asking_eval, ← Prog.run_eval _ hr ha]; rfl⟩
  · have ha := finderOf_agrees ((treeAsking_asked ht h hr).nodup h)
    exact ⟨_, ha, by rw [← amg_asking_eval, ← Prog.run_eval _ hr ha]; rfl⟩

/-! ## finders that remember -/

/-- **C106**.  Without threads the behaviour of the finder decides the calls and the result, even if its answers depend on the calls before. -/
theorem C106_deterministic (g : List (Call F) → DataSet F → Nat → R (BestSplitResult F)) (leafOf : DataSet F → R L) (d : DataSet F)
    (cfg : TreeConfig) (hm : cfg.useMultiThreading = false) (n : Nat) (lr : F) (trace trace' : List (Call F)) (ha : AnsweredBy g trace)
    (ha' : AnsweredBy g trace') :
    (∀ r r', Run (treeAsking leafOf d cfg) trace (.done r) → Run (treeAsking leafOf d cfg) trace' (.done r') → trace = trace' ∧ r = r') ∧
    (∀ r r', Run (regressionTrainAsking d cfg n lr) trace (.done r) → Run (regressionTrainAsking d cfg n lr) trace' (.done r') →
      trace = trace' ∧ r = r') ∧
    (∀ r r', Run (multiClassTrainAsking d cfg n lr) trace (.done r) → Run (multiClassTrainAsking d cfg n lr) trace' (.done r') →
      trace = trace' ∧ r = r') ∧
    (∀ r r', Run (amgTrainAsking d cfg n lr) trace (.done r) → Run (amgTrainAsking d cfg n lr) trace' (.done r') →
      trace = trace' ∧ r = r') :=
  ⟨fun _ _ h1 h2 => Prog.noFork_unique (g := g) (h := []) (noFork_tree leafOf d cfg hm) h1 ha h2 ha',
   fun _ _ h1 h2 => Prog.noFork_unique (g := g) (h := []) (noFork_train _ _ _ _ d cfg n lr hm) h1 ha h2 ha',
   fun _ _ h1 h2 => Prog.noFork_unique (g := g) (h := []) (noFork_train _ _ _ _ d cfg n lr hm) h1 ha h2 ha',
   fun _ _ h1 h2 => Prog.noFork_unique (g := g) (h := []) (noFork_train _ _ _ _ d cfg n lr hm) h1 ha h2 ha'⟩

/-! ## ensembles -/

/-- **C106**.  The calls of a training that returns a model: tree after tree, and for each tree as above, with the labels minus what the trees before
predict (for classification, minus the probabilities). -/
theorem C106_ensembles [LawfulOrder F] [LawfulCount F] (d : DataSet F) (c t : Nat) (h : d.WF c t) (cfg : TreeConfig)
    (ht : cfg.numberOfClasses = t) (n : Nat) (lr : F) (trace : List (Call F)) :
    (∀ model, Run (regressionTrainAsking d cfg n lr) trace (.done (.ok model)) → model.trees.length = n ∧
      CallsOfRounds d c t cfg.maxLevels id (fun row trees => predictInstance row trees model.initialGuess lr) model.trees trace) ∧
    (t ≤ 2 ^ 53 → ∀ model, Run (multiClassTrainAsking d cfg n lr) trace (.done (.ok model)) → model.trees.length = n ∧
      CallsOfRounds d c t cfg.maxLevels calculateProbabilities (fun row trees => predictInstance row trees model.initialGuess lr)
        model.trees trace) ∧
    (t ≤ 2 ^ 53 → ∀ model, Run (amgTrainAsking d cfg n lr) trace (.done (.ok model)) → model.trees.length = n ∧
      CallsOfRounds d c t cfg.maxLevels calculateProbabilities (fun row trees => amgPredictInstance row trees model.initialGuess lr t)
        model.trees trace) := by
  refine ⟨fun model hr => ?_, fun ht53 model hr => ?_, fun ht53 model hr => ?_⟩
  · have hgl : (avgVec t d.labels).length = t := leafOut_length .regression h.label_len
    obtain ⟨q, h1, h2⟩ := train_run (determineInitialGuess_regression h) hr
    rcases q with e | s
    · cases h2
    · cases h2
      obtain ⟨trees, traces, a1, a2, a3, a4, a5⟩ := loop_calls h hgl ht (rounds_regression h hgl) n (tracks_start d _ lr) h1
      simp only [List.nil_append] at a1 a5
      refine ⟨by rw [a1]; exact a2, traces, a3, by rw [a1]; exact a4.trans a2.symm, ?_⟩
      rw [a1]
      simp only [predictInstance_eq]
      exact a5
  · set guess := List.replicate t ((F64.one : F) /. F64.ofNat t) with hgu
    have hgl : guess.length = t := by rw [hgu, List.length_replicate]
    obtain ⟨q, h1, h2⟩ := train_run (determineInitialGuess_class h ht53 (s := d.labels.length) (ty := .multiClassBoost) (by simp)) hr
    rcases q with e | s
    · cases h2
    · cases h2
      obtain ⟨trees, traces, a1, a2, a3, a4, a5⟩ := loop_calls h hgl ht (rounds_multiClass h hgl) n (tracks_start d _ lr) h1
      simp only [List.nil_append] at a1 a5
      refine ⟨by rw [a1]; exact a2, traces, a3, by rw [a1]; exact a4.trans a2.symm, ?_⟩
      rw [a1]
      simp only [predictInstance_eq]
      exact a5
  · set guess := List.replicate t ((F64.one : F) /. F64.ofNat t) with hgu
    have hgl : guess.length = t := by rw [hgu, List.length_replicate]
    obtain ⟨q, h1, h2⟩ := train_run (determineInitialGuess_class h ht53 (s := d.labels.length) (ty := .amgBoost) (by simp)) hr
    rcases q with e | s
    · cases h2
    · cases h2
      obtain ⟨trees, traces, a1, a2, a3, a4, a5⟩ := loop_calls h hgl ht (rounds_amg h hgl) n (tracks_start d _ lr) h1
      simp only [List.nil_append] at a1 a5
      refine ⟨by rw [a1]; exact a2, traces, a3, by rw [a1]; exact a4.trans a2.symm, ?_⟩
      rw [a1]
      simp only [amgPredictInstance_eq]
      exact a5

/-- **C106**.  In every execution of a training, finished or not, every call passes the number of targets and a well-formed data set, and there
are at most `n` times as many calls as for one tree. -/
theorem C106_ensemble_calls [LawfulOrder F] [LawfulCount F] (d : DataSet F) (c t : Nat) (h : d.WF c t) (cfg : TreeConfig)
    (ht : cfg.numberOfClasses = t) (n : Nat) (lr : F) (trace : List (Call F))
    (hr : (∃ u, Run (regressionTrainAsking d cfg n lr) trace u) ∨ (t ≤ 2 ^ 53 ∧ ∃ u, Run (multiClassTrainAsking d cfg n lr) trace u) ∨
      (t ≤ 2 ^ 53 ∧ ∃ u, Run (amgTrainAsking d cfg n lr) trace u)) :
    (∀ call ∈ trace, call.targets = t ∧ call.data.WF c t) ∧ trace.length ≤ n * (2 ^ (cfg.maxLevels + 1) - 1) ∧
      trace.length ≤ n * (2 * d.featureRows.length - 1) := by
  have fin : ∀ rest : List (Call F), (trace ++ rest).length ≤ n * (2 ^ (cfg.maxLevels + 1) - 1) ∧
      (trace ++ rest).length ≤ n * (2 * d.featureRows.length - 1) ∧ (∀ call ∈ trace ++ rest, call.targets = t ∧ call.data.WF c t) →
      (∀ call ∈ trace, call.targets = t ∧ call.data.WF c t) ∧ trace.length ≤ n * (2 ^ (cfg.maxLevels + 1) - 1) ∧
      trace.length ≤ n * (2 * d.featureRows.length - 1) := by
    rintro rest ⟨h1, h2, h3⟩
    rw [List.length_append] at h1 h2
    exact ⟨fun call hc => h3 call (List.mem_append_left _ hc), by omega, by omega⟩
  rcases hr with ⟨u, hr⟩ | ⟨ht53, u, hr⟩ | ⟨ht53, u, hr⟩ <;> obtain ⟨rest, r, h1, _⟩ := Prog.run_to_end u (fun _ _ _ => .error .index) []
  · have hgl : (avgVec t d.labels).length = t := leafOut_length .regression h.label_len
    obtain ⟨q, h2, _⟩ := train_run (determineInitialGuess_regression h) (hr.trans h1)
    exact fin rest (loop_count h hgl ht (rounds_regression h hgl) n (tracks_start d _ lr) h2)
  · set guess := List.replicate t ((F64.one : F) /. F64.ofNat t) with hgu
    have hgl : guess.length = t := by rw [hgu, List.length_replicate]
    obtain ⟨q, h2, _⟩ := train_run (determineInitialGuess_class h ht53 (s := d.labels.length) (ty := .multiClassBoost) (by simp)) (hr.trans h1)
    exact fin rest (loop_count h hgl ht (rounds_multiClass h hgl) n (tracks_start d _ lr) h2)
  · set guess := List.replicate t ((F64.one : F) /. F64.ofNat t) with hgu
    have hgl : guess.length = t := by rw [hgu, List.length_replicate]
    obtain ⟨q, h2, _⟩ := train_run (determineInitialGuess_class h ht53 (s := d.labels.length) (ty := .amgBoost) (by simp)) (hr.trans h1)
    exact fin rest (loop_count h hgl ht (rounds_amg h hgl) n (tracks_start d _ lr) h2)

/-! ## with threads, memory matters -/

/-- a finder that counts its calls: the first asks about the first feature, the second about the second feature, the others report no gain -/
def counting : List (Call E) → DataSet E → Nat → R (BestSplitResult E) := fun before _ _ =>
  .ok { gain := if before.length < 2 then 1 else 0, question := { column := if before.length = 0 then 0 else 1, value := 1 } }

/-- the configuration of the example, two levels -/
def twoLevels (threads : Bool) : TreeConfig := { useMultiThreading := threads, numberOfClasses := 1, maxLevels := 2 }

/-- the result of a call of `counting`, after `n` calls -/
def counted (n : Nat) : BestSplitResult E :=
  { gain := if n < 2 then 1 else 0, question := { column := if n = 0 then 0 else 1, value := 1 } }

/-- the leaf of some data -/
def dataLeaf (n : Nat) (d : DataSet E) : TreeNode E (RegressionLeaf E) := TreeNode.leafNode (counted n).question { data := some d }

/-- the part of `xor` whose first feature is at least one, and its parts -/
abbrev Sample.xorY := xor.answering 2 { column := 0, value := 1 } true
abbrev Sample.xorN := xor.answering 2 { column := 0, value := 1 } false
abbrev Sample.side (d : DataSet E) (b : Bool) := d.answering 2 { column := 1, value := 1 } b

theorem asked_leaf (par : Bool) (d : DataSet E) (m n : Nat) (h : m = 0 ∨ 2 ≤ n) :
    Asked par leafOfRegression 2 1 m d [⟨d, 1, .ok (counted n)⟩] (.ok (dataLeaf n d)) := by
  refine Asked.stop (s := counted n) (leafOf := leafOfRegression) (h.imp id (fun h => ?_))
  have h1 : ¬ n < 2 := by omega
  simp only [counted, h1, if_false]
  decide +kernel

theorem asked_side (par : Bool) (d : DataSet E) (hy : ∃ row ∈ d.featureRows, satisfies ({ column := 1, value := 1 } : Question E) row = true)
    (hn : ∃ row ∈ d.featureRows, satisfies ({ column := 1, value := 1 } : Question E) row = false) :
    Asked par leafOfRegression 2 1 1 d [⟨d, 1, .ok (counted 1)⟩, ⟨side d true, 1, .ok (counted 2)⟩, ⟨side d false, 1, .ok (counted 3)⟩]
      (.ok (TreeNode.new { column := 1, value := 1 } (dataLeaf 2 (side d true)) (dataLeaf 3 (side d false)))) := by
  have h1 := asked_leaf par (side d true) 0 2 (.inl rfl)
  have h2 := asked_leaf par (side d false) 0 3 (.inl rfl)
  cases par with
  | true => exact Asked.askPar (s := counted 1) rfl (by decide +kernel) (by decide) hy hn h1 h2 (.left (.right .nil))
  | false => exact Asked.askSeq (s := counted 1) rfl (by decide +kernel) (by decide) hy hn h1 h2

/-- **C106**, finding.  With threads, a finder that remembers its calls can give different trees in different schedules: here the same finder,
data and configuration; in one schedule the second question is asked below "yes", in the other below "no". -/
theorem C106_schedule : xor.WF 2 1 ∧ ∃ trace trace' tree tree',
    AnsweredBy counting trace ∧ Run (treeAsking leafOfRegression xor (twoLevels true)) trace (.done (.ok tree)) ∧
    AnsweredBy counting trace' ∧ Run (treeAsking leafOfRegression xor (twoLevels true)) trace' (.done (.ok tree')) ∧
    (tree.questionAt [true] = some { column := 1, value := 1 } ∧ tree.questionAt [false] = none) ∧
    (tree'.questionAt [true] = none ∧ tree'.questionAt [false] = some { column := 1, value := 1 }) := by
  refine ⟨xor_wf, ⟨xor, 1, .ok (counted 0)⟩ :: [⟨xorY, 1, .ok (counted 1)⟩, ⟨side xorY true, 1, .ok (counted 2)⟩,
    ⟨side xorY false, 1, .ok (counted 3)⟩, ⟨xorN, 1, .ok (counted 4)⟩],
    ⟨xor, 1, .ok (counted 0)⟩ :: [⟨xorN, 1, .ok (counted 1)⟩, ⟨side xorN true, 1, .ok (counted 2)⟩,
    ⟨side xorN false, 1, .ok (counted 3)⟩, ⟨xorY, 1, .ok (counted 4)⟩],
    TreeNode.new { column := 0, value := 1 } (TreeNode.new { column := 1, value := 1 } (dataLeaf 2 (side xorY true)) (dataLeaf 3 (side xorY false)))
      (dataLeaf 4 xorN),
    TreeNode.new { column := 0, value := 1 } (dataLeaf 4 xorY)
      (TreeNode.new { column := 1, value := 1 } (dataLeaf 2 (side xorN true)) (dataLeaf 3 (side xorN false))), ?_, ?_, ?_, ?_, ?_, ?_⟩
  · rw [Prog.answeredBy_iff]
    simp [Prog.answeredFrom_cons, Prog.answeredFrom_nil, counting, counted]
  · rw [treeAsking_eq]
    refine run_of_asked (c := 2) ?_ xor_wf
    exact Asked.askPar (s := counted 0) rfl (by decide +kernel) (by decide) (by decide +kernel) (by decide +kernel)
      (asked_side true xorY (by decide +kernel) (by decide +kernel)) (asked_leaf true xorN 1 4 (.inr (by omega)))
      (.left (.left (.left (.right .nil))))
  · rw [Prog.answeredBy_iff]
    simp [Prog.answeredFrom_cons, Prog.answeredFrom_nil, counting, counted]
  · rw [treeAsking_eq]
    refine run_of_asked (c := 2) ?_ xor_wf
    exact Asked.askPar (s := counted 0) rfl (by decide +kernel) (by decide) (by decide +kernel) (by decide +kernel)
      (asked_leaf true xorY 1 4 (.inr (by omega))) (asked_side true xorN (by decide +kernel) (by decide +kernel))
      (.right (.right (.right (.left .nil))))
  · exact ⟨rfl, rfl⟩
  · exact ⟨rfl, rfl⟩

-- an execution without threads, with the hypotheses of the theorems: five calls, in preorder
example : xor.WF 2 1 ∧ (twoLevels false).numberOfClasses = 1 ∧ ∃ trace tree, AnsweredBy counting trace ∧ trace.length = 5 ∧
    Run (treeAsking leafOfRegression xor (twoLevels false)) trace (.done (.ok tree)) ∧
    tree.preorder = [[], [true], [true, true], [true, false], [false]] := by
  refine ⟨xor_wf, rfl, ⟨xor, 1, .ok (counted 0)⟩ :: ([⟨xorY, 1, .ok (counted 1)⟩, ⟨side xorY true, 1, .ok (counted 2)⟩,
    ⟨side xorY false, 1, .ok (counted 3)⟩] ++ [⟨xorN, 1, .ok (counted 4)⟩]),
    TreeNode.new { column := 0, value := 1 } (TreeNode.new { column := 1, value := 1 } (dataLeaf 2 (side xorY true)) (dataLeaf 3 (side xorY false)))
      (dataLeaf 4 xorN), ?_, rfl, ?_, rfl⟩
  · rw [Prog.answeredBy_iff]
    simp [Prog.answeredFrom_cons, Prog.answeredFrom_nil, counting, counted]
  · rw [treeAsking_eq]
    refine run_of_asked (c := 2) ?_ xor_wf
    exact Asked.askSeq (s := counted 0) rfl (by decide +kernel) (by decide) (by decide +kernel) (by decide +kernel)
      (asked_side false xorY (by decide +kernel) (by decide +kernel)) (asked_leaf false xorN 1 4 (.inr (by omega)))

-- a training that returns a model of two trees
example : distinct4.WF 2 1 ∧ ∃ trace model, Run (regressionTrainAsking distinct4 twoCuts.toTreeConfig 2 (.fin 1)) trace (.done (.ok model)) ∧
    model.trees.length = 2 := by
  refine ⟨distinct4_wf, ?_⟩
  obtain ⟨trace, r, h1, h2⟩ := Prog.run_to_end (regressionTrainAsking distinct4 twoCuts.toTreeConfig 2 (.fin 1))
    (fun _ d t => twoCuts.splitFinder.findBestSplit d t) []
  have ha : ∀ call ∈ trace, call.answer = twoCuts.splitFinder.findBestSplit call.data call.targets := by
    intro call hc
    obtain ⟨a, b, rfl⟩ := List.append_of_mem hc
    exact h2 a call b rfl
  have hr := (C106_pure twoCuts.splitFinder distinct4 twoCuts.toTreeConfig .regression 2 (.fin 1) trace ha).2.2.2.1 r h1
  have hok : (regressionTrainWith distinct4 twoCuts 2 (.fin 1)).toOption.isSome := by decide +kernel
  obtain ⟨model, hmodel⟩ : ∃ model, regressionTrainWith distinct4 twoCuts 2 (.fin 1) = .ok model := by
    cases h : regressionTrainWith distinct4 twoCuts 2 (.fin 1) with
    | ok m => exact ⟨m, rfl⟩
    | error e => rw [h] at hok; cases hok
  have hr' : r = .ok model := hr.trans hmodel
  subst hr'
  exact ⟨trace, model, h1, ((C106_ensembles distinct4 2 1 distinct4_wf twoCuts.toTreeConfig rfl 2 (.fin 1) trace).1 model h1).1⟩

end Verif
