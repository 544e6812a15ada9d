import Verif.Lemmas.Build
import Verif.Spec.Par
/-! # Every schedule gives the sequential result -/

set_option linter.unusedSectionVars false

namespace Verif

namespace Job

/-- The sequential result of a job. -/
def run : {α : Type} → Job α → R α
  | _, .done r => r
  | _, .fork l r k => do
    let a ← l.run
    let b ← r.run
    (k a b).run
  | _, .pmap xs f k => do
    let ys ← xs.mapM (fun x => (f x).run)
    (k ys).run

theorem run_bind {α β : Type} (t : Job α) (k : α → Job β) :
    (bind t k).run = (t.run >>= fun a => (k a).run) := by
  induction t with
  | done r => cases r <;> rfl
  | fork l r k' _ _ ih =>
    simp only [bind, run, bind_assoc]
    congr 1; funext a; congr 1; funext b
    exact ih a b k
  | pmap xs f k' _ ih =>
    simp only [bind, run, bind_assoc]
    congr 1; funext ys
    exact ih ys k

@[simp] theorem run_lift {α : Type} (r : R α) : (lift r).run = r := rfl
@[simp] theorem run_ret {α : Type} (a : α) : (ret a).run = .ok a := rfl

theorem run_seqMap {β γ : Type} (f : β → Job γ) (xs : List β) :
    (seqMap f xs).run = xs.mapM (fun x => (f x).run) := by
  induction xs with
  | nil => rfl
  | cons x xs ih =>
    simp only [seqMap, run_bind, ih, mapM_cons_R, run_ret]
    rfl

theorem step_run {α : Type} {t t' : Job α} (h : Step t t') : t'.run = t.run := by
  induction h with
  | left _ ih => simp only [run, ih]
  | right _ ih => simp only [run, ih]
  | joinOk => rfl
  | joinPanicLeft => rfl
  | joinPanicRight => rfl
  | split _ _ =>
    rename_i xs ys f k _ _
    simp only [run, mapM_append_R, bind_assoc, R.pure_eq, run_ret]
    simp only [R.ok_bind]
  | sequential => simp only [run_bind, run_seqMap, run]

theorem steps_run {α : Type} {t t' : Job α} (h : Steps t t') : t'.run = t.run := by
  induction h with
  | refl => rfl
  | step h1 _ ih => rw [ih, step_run h1]

theorem progress {α : Type} (t : Job α) : (∃ r, t = .done r) ∨ ∃ t', Step t t' := by
  induction t with
  | done r => exact .inl ⟨r, rfl⟩
  | fork l r k ihl ihr _ =>
    right
    rcases ihl with ⟨a, rfl⟩ | ⟨l', hl⟩
    · rcases ihr with ⟨b, rfl⟩ | ⟨r', hr⟩
      · cases a with
        | error e => exact ⟨_, .joinPanicLeft⟩
        | ok a =>
          cases b with
          | error e => exact ⟨_, .joinPanicRight⟩
          | ok b => exact ⟨_, .joinOk⟩
      · exact ⟨_, .right hr⟩
    · exact ⟨_, .left hl⟩
  | pmap xs f k _ _ => exact .inr ⟨_, .sequential⟩

/-! ## Termination -/

/-- every execution from this job is finite -/
abbrev Terminates {α : Type} (t : Job α) : Prop := Acc (fun u' u : Job α => Step u u') t

theorem terminates_done {α : Type} (r : R α) : Terminates (.done r) :=
  Acc.intro _ (fun _ h => by cases h)

theorem bind_assoc' {α β γ : Type} (t : Job α) (k : α → Job β) (k' : β → Job γ) :
    bind (bind t k) k' = bind t (fun a => bind (k a) k') := by
  induction t with
  | done r => cases r <;> rfl
  | fork l r k0 _ _ ih =>
    simp only [bind]
    congr 1; funext a b
    exact ih a b k
  | pmap xs f k0 _ ih =>
    simp only [bind]
    congr 1; funext ys
    exact ih ys k

theorem step_bind {α β : Type} {t : Job α} {k : α → Job β} {u : Job β} (hnd : ∀ r, t ≠ .done r)
    (h : Step (bind t k) u) : ∃ t', Step t t' ∧ u = bind t' k := by
  cases t with
  | done r => exact absurd rfl (hnd r)
  | fork l r k' =>
    simp only [bind] at h
    cases h with
    | left h => exact ⟨_, .left h, rfl⟩
    | right h => exact ⟨_, .right h, rfl⟩
    | joinOk => exact ⟨_, .joinOk, rfl⟩
    | joinPanicLeft => exact ⟨_, .joinPanicLeft, rfl⟩
    | joinPanicRight => exact ⟨_, .joinPanicRight, rfl⟩
  | pmap xs f k' =>
    simp only [bind] at h
    cases h with
    | split h1 h2 => exact ⟨_, .split h1 h2, rfl⟩
    | sequential => exact ⟨_, .sequential, by rw [bind_assoc']⟩

theorem terminates_bind {α β : Type} {t : Job α} {k : α → Job β} (ht : Terminates t) (hk : ∀ a, Terminates (k a)) :
    Terminates (bind t k) := by
  induction ht with
  | intro t _ ih =>
    by_cases hd : ∃ r, t = .done r
    · obtain ⟨r, rfl⟩ := hd
      cases r with
      | error e => exact terminates_done _
      | ok a => exact hk a
    · refine Acc.intro _ (fun u hu => ?_)
      obtain ⟨t', h1, rfl⟩ := step_bind (fun r hr => hd ⟨r, hr⟩) hu
      exact ih t' h1

theorem terminates_fork {α β γ : Type} {l : Job β} {r : Job γ} {k : β → γ → Job α} (hl : Terminates l)
    (hr : Terminates r) (hk : ∀ a b, Terminates (k a b)) : Terminates (.fork l r k) := by
  induction hl generalizing r with
  | intro l _ ihl =>
    induction hr with
    | intro r hr' ihr =>
      refine Acc.intro _ (fun u hu => ?_)
      cases hu with
      | left h => exact ihl _ h (Acc.intro _ hr')
      | right h => exact ihr _ h
      | joinOk => exact hk _ _
      | joinPanicLeft => exact terminates_done _
      | joinPanicRight => exact terminates_done _

theorem terminates_seqMap {β γ : Type} {f : β → Job γ} (hf : ∀ x, Terminates (f x)) (xs : List β) :
    Terminates (seqMap f xs) := by
  induction xs with
  | nil => exact terminates_done _
  | cons x xs ih =>
    exact terminates_bind (hf x) (fun y => terminates_bind ih (fun ys => terminates_done _))

theorem terminates_pmap {β γ : Type} {f : β → Job γ} (hf : ∀ x, Terminates (f x)) (n : Nat) :
    ∀ {α : Type} (xs : List β) (k : List γ → Job α), xs.length ≤ n → (∀ ys, Terminates (k ys)) →
      Terminates (.pmap xs f k) := by
  induction n with
  | zero =>
    intro α xs k hn hk
    refine Acc.intro _ (fun u hu => ?_)
    cases hu with
    | split h1 h2 =>
      rename_i xs' ys'
      have := List.length_pos_of_ne_nil h1
      simp at hn
      simp [hn.1] at h1
    | sequential => exact terminates_bind (terminates_seqMap hf _) hk
  | succ n ih =>
    intro α xs k hn hk
    refine Acc.intro _ (fun u hu => ?_)
    cases hu with
    | split h1 h2 =>
      have h3 := List.length_pos_of_ne_nil h1
      have h4 := List.length_pos_of_ne_nil h2
      rw [List.length_append] at hn
      exact terminates_fork (ih _ _ (by omega) (fun _ => terminates_done _))
        (ih _ _ (by omega) (fun _ => terminates_done _)) (fun a b => hk _)
    | sequential => exact terminates_bind (terminates_seqMap hf _) hk

theorem terminates {α : Type} (t : Job α) : Terminates t := by
  induction t with
  | done r => exact terminates_done r
  | fork l r k ihl ihr ihk => exact terminates_fork ihl ihr ihk
  | pmap xs f k ihf ihk => exact terminates_pmap ihf xs.length xs k (Nat.le_refl _) ihk

theorem no_infinite {α : Type} (t : Job α) : ¬ ∃ f : Nat → Job α, f 0 = t ∧ ∀ n, Step (f n) (f (n + 1)) := by
  have key : ∀ t : Job α, Terminates t → ∀ f : Nat → Job α, ∀ i, f i = t → (∀ n, Step (f n) (f (n + 1))) → False := by
    intro t ht
    induction ht with
    | intro t _ ih =>
      intro f i hi hf
      exact ih (f (i + 1)) (by rw [← hi]; exact hf i) f (i + 1) rfl hf
  rintro ⟨f, h0, hf⟩
  exact key t (terminates t) f 0 h0 hf

theorem alwaysReturns {α : Type} {t : Job α} {r : R α} (h : t.run = r) : t.AlwaysReturns r := by
  refine ⟨no_infinite t, fun u hu hstuck => ?_⟩
  rcases progress u with ⟨r', rfl⟩ | ⟨u', hu'⟩
  · have := steps_run hu
    rw [h] at this
    simp only [run] at this
    rw [this]
  · exact absurd hu' (hstuck u')

end Job

/-! ## The programs -/

variable {F : Type} [F64 F]
open Job

theorem findBestSplitTask_run (d : DataSet F) (t : Nat) : (findBestSplitTask d t).run = findBestSplit d t := by
  simp only [findBestSplitTask, findBestSplit, run_bind, run_lift, Job.run]

theorem findBestSplitNewPartitionTask_run (s : SortedDataSet F) (labels : List (List F)) (t c : Nat) :
    (findBestSplitNewPartitionTask s labels t c).run = findBestSplitNewPartition s labels t c := by
  simp only [findBestSplitNewPartitionTask, findBestSplitNewPartition, run_bind, run_lift, Job.run]

theorem newPartitionTask_run (s : SortedDataSet F) (j : Nat) (v : F) (labels : List (List F)) :
    (newPartitionTask s j v labels).run = newPartition s j v labels := by
  simp only [newPartitionTask, newPartition, collectPartitionedFeatureColumns, run_bind, run_lift, Job.run,
    bind_assoc, run_ret]
  rfl

theorem buildRegressionTreeTask_run (cfg : TreeConfig) (d : DataSet F) (level : Nat) :
    (buildRegressionTreeTask cfg d level).run = buildRegressionTree cfg d level := by
  induction hm : cfg.maxLevels - level using Nat.strong_induction_on generalizing d level with
  | _ m ih =>
    unfold buildRegressionTreeTask buildRegressionTree
    simp only [run_bind, findBestSplitTask_run]
    congr 1; funext s
    split
    · rfl
    · split
      · next h =>
        simp only [run_bind, run_lift]
        congr 1; funext p
        rw [ih _ (by omega) _ (level + 1) rfl, ih _ (by omega) _ (level + 1) rfl]
        rfl
      · rfl

theorem buildRegressionTreeMTTask_run (cfg : TreeConfig) (d : DataSet F) (level : Nat) :
    (buildRegressionTreeMTTask cfg d level).run = buildRegressionTreeMT cfg d level := by
  induction hm : cfg.maxLevels - level using Nat.strong_induction_on generalizing d level with
  | _ m ih =>
    unfold buildRegressionTreeMTTask buildRegressionTreeMT
    simp only [run_bind, findBestSplitTask_run]
    congr 1; funext s
    split
    · rfl
    · split
      · next h =>
        simp only [run_bind, run_lift, Job.run, join_bind]
        congr 1; funext p
        rw [ih _ (by omega) _ (level + 1) rfl, ih _ (by omega) _ (level + 1) rfl]
        rfl
      · rfl

theorem buildRegressionTreeNewPartitionTask_run (cfg : TreeConfig) (labels : List (List F)) (d : SortedDataSet F)
    (level : Nat) :
    (buildRegressionTreeNewPartitionTask cfg labels d level).run = buildRegressionTreeNewPartition cfg labels d level := by
  induction hm : cfg.maxLevels - level using Nat.strong_induction_on generalizing d level with
  | _ m ih =>
    unfold buildRegressionTreeNewPartitionTask buildRegressionTreeNewPartition
    simp only [run_bind, run_lift, findBestSplitNewPartitionTask_run]
    congr 1; funext l
    congr 1; funext s
    split
    · rfl
    · split
      · next h =>
        simp only [run_bind, newPartitionTask_run]
        congr 1; funext p
        rw [ih _ (by omega) _ (level + 1) rfl, ih _ (by omega) _ (level + 1) rfl]
        rfl
      · rfl

theorem buildGradBoostTreeTask_run (cfg : TreeConfig) (k : LeafOutputType) (d : DataSet F) (level : Nat) :
    (buildGradBoostTreeTask cfg k d level).run = buildGradBoostTree cfg k d level := by
  induction hm : cfg.maxLevels - level using Nat.strong_induction_on generalizing d level with
  | _ m ih =>
    unfold buildGradBoostTreeTask buildGradBoostTree
    simp only [run_bind, findBestSplitTask_run]
    congr 1; funext s
    split
    · simp only [run_bind, run_lift]; rfl
    · split
      · next h =>
        simp only [run_bind, run_lift]
        congr 1; funext p
        rw [ih _ (by omega) _ (level + 1) rfl, ih _ (by omega) _ (level + 1) rfl]
        rfl
      · rfl

theorem buildGradBoostTreeMTTask_run (cfg : TreeConfig) (k : LeafOutputType) (d : DataSet F) (level : Nat) :
    (buildGradBoostTreeMTTask cfg k d level).run = buildGradBoostTreeMT cfg k d level := by
  induction hm : cfg.maxLevels - level using Nat.strong_induction_on generalizing d level with
  | _ m ih =>
    unfold buildGradBoostTreeMTTask buildGradBoostTreeMT
    simp only [run_bind, findBestSplitTask_run]
    congr 1; funext s
    split
    · simp only [run_bind, run_lift]; rfl
    · split
      · next h =>
        simp only [run_bind, run_lift, Job.run, join_bind]
        congr 1; funext p
        rw [ih _ (by omega) _ (level + 1) rfl, ih _ (by omega) _ (level + 1) rfl]
        rfl
      · rfl

theorem buildAmgTreeTask_run (cfg : TreeConfig) (k : LeafOutputType) (d : DataSet F) (level : Nat) :
    (buildAmgTreeTask cfg k d level).run = buildAmgTree cfg k d level := by
  induction hm : cfg.maxLevels - level using Nat.strong_induction_on generalizing d level with
  | _ m ih =>
    unfold buildAmgTreeTask buildAmgTree
    simp only [run_bind, findBestSplitTask_run]
    congr 1; funext s
    split
    · simp only [run_bind, run_lift]; rfl
    · split
      · next h =>
        simp only [run_bind, run_lift]
        congr 1; funext p
        rw [ih _ (by omega) _ (level + 1) rfl, ih _ (by omega) _ (level + 1) rfl]
        rfl
      · rfl

theorem buildAmgTreeMTTask_run (cfg : TreeConfig) (k : LeafOutputType) (d : DataSet F) (level : Nat) :
    (buildAmgTreeMTTask cfg k d level).run = buildAmgTreeMT cfg k d level := by
  induction hm : cfg.maxLevels - level using Nat.strong_induction_on generalizing d level with
  | _ m ih =>
    unfold buildAmgTreeMTTask buildAmgTreeMT
    simp only [run_bind, findBestSplitTask_run]
    congr 1; funext s
    split
    · simp only [run_bind, run_lift]; rfl
    · split
      · next h =>
        simp only [run_bind, run_lift, Job.run, join_bind]
        congr 1; funext p
        rw [ih _ (by omega) _ (level + 1) rfl, ih _ (by omega) _ (level + 1) rfl]
        rfl
      · rfl

theorem regressionTreeNewTask_run (d : DataSet F) (cfg : TreeConfig) :
    (regressionTreeNewTask d cfg).run = regressionTreeNew d cfg := by
  unfold regressionTreeNewTask regressionTreeNew
  cases cfg.useMultiThreading
  · exact buildRegressionTreeTask_run cfg d 0
  · exact buildRegressionTreeMTTask_run cfg d 0

theorem gradBoostTreeNewTask_run (d : DataSet F) (cfg : TreeConfig) (k : LeafOutputType) :
    (gradBoostTreeNewTask d cfg k).run = gradBoostTreeNew d cfg k := by
  unfold gradBoostTreeNewTask gradBoostTreeNew
  cases cfg.useMultiThreading
  · exact buildGradBoostTreeTask_run cfg k d 0
  · exact buildGradBoostTreeMTTask_run cfg k d 0

theorem amgTreeNewTask_run (d : DataSet F) (cfg : TreeConfig) (k : LeafOutputType) :
    (amgTreeNewTask d cfg k).run = amgTreeNew d cfg k := by
  unfold amgTreeNewTask amgTreeNew
  cases cfg.useMultiThreading
  · exact buildAmgTreeTask_run cfg k d 0
  · exact buildAmgTreeMTTask_run cfg k d 0

theorem loopTask_run {σ : Type} (body : σ → Job σ) (n : Nat) (s : σ) :
    (loopTask body n s).run = forRange n (fun _ s => (body s).run) s := by
  have h : ∀ (m : Nat) (s : σ), forRange (m + 1) (fun _ s => (body s).run) s =
      ((body s).run >>= forRange m (fun _ s => (body s).run)) := by
    intro m
    induction m with
    | zero => intro s; rw [forRange_succ]; simp only [forRange_zero, R.ok_bind]; cases (body s).run <;> rfl
    | succ m ih =>
      intro s
      rw [forRange_succ, ih s, bind_assoc]
      congr 1; funext s'
      rw [forRange_succ]
  induction n generalizing s with
  | zero => rfl
  | succ n ih =>
    simp only [loopTask, run_bind, h]
    congr 1; funext s'
    exact ih s'

theorem boostingLoopTask_run {L : Type} (d : DataSet F) (cfg : TreeConfig) (n : Nat) (lr : F) (ty : BoostingEnsembleType)
    (iter : TrainingData F × List (TreeNode F L) → Job (TrainingData F × List (TreeNode F L)))
    (loop : TrainingData F → Nat → TreeConfig → F → R (TrainingData F × List (TreeNode F L)))
    (h : ∀ t, loop t n cfg lr = forRange n (fun _ s => (iter s).run) (t, [])) :
    (boostingLoopTask d n lr ty iter).run =
      (boostingLoop d cfg n lr { ensembleType := ty, loopExecutor := loop } >>= fun r => pure r.2) := by
  simp only [boostingLoopTask, boostingLoop, run_bind, run_lift, loopTask_run, bind_assoc, h]
  rfl

theorem regressionIterationTask_run (cfg : TreeConfig) (lr : F) (s : TrainingData F × List (TreeNode F (GradBoostLeaf F))) :
    (regressionIterationTask cfg lr s).run = (do
      let residuals ← regressionResiduals s.1
      let residualTree ← gradBoostTreeNew { s.1.data with labels := residuals } cfg .regression
      let t ← updateDatasetLabels s.1 residualTree lr
      pure (t, s.2 ++ [residualTree])) := by
  simp only [regressionIterationTask, run_bind, regressionResidualsTask, Job.run, run_lift, run_ret,
    gradBoostTreeNewTask_run, bind_assoc, regressionResiduals, R.ok_bind]
  rfl

theorem multiClassIterationTask_run (cfg : TreeConfig) (lr : F) (s : TrainingData F × List (TreeNode F (GradBoostLeaf F))) :
    (multiClassIterationTask cfg lr s).run = (do
      let residuals ← multiClassResiduals s.1
      let residualTree ← gradBoostTreeNew { s.1.data with labels := residuals } cfg .multiClassClassification
      let t ← updateDatasetLabels s.1 residualTree lr
      pure (t, s.2 ++ [residualTree])) := by
  simp only [multiClassIterationTask, run_bind, multiClassResidualsTask, Job.run, run_lift, run_ret,
    gradBoostTreeNewTask_run, bind_assoc, multiClassResiduals, R.ok_bind]
  rfl

theorem amgIterationTask_run (cfg : TreeConfig) (lr : F) (s : TrainingData F × List (TreeNode F (AMGBoostLeaf F))) :
    (amgIterationTask cfg lr s).run = (do
      let residuals ← multiClassResiduals s.1
      let residualTree ← amgTreeNew { s.1.data with labels := residuals } cfg .multiClassClassification
      let t ← amgUpdateDatasetLabels s.1 residualTree lr
      pure (t, s.2 ++ [residualTree])) := by
  simp only [amgIterationTask, run_bind, multiClassResidualsTask, Job.run, run_lift, run_ret,
    amgTreeNewTask_run, bind_assoc, multiClassResiduals, R.ok_bind]
  rfl

theorem regressionTrainTask_run (d : DataSet F) (cfg : TreeConfig) (n : Nat) (lr : F) :
    (regressionTrainTask d cfg n lr).run = regressionTrain d cfg n lr := by
  unfold regressionTrainTask regressionTrain regressionTrainFull
  refine boostingLoopTask_run d cfg n lr _ _ _ (fun t => ?_)
  simp only [regressionLoop, regressionIterationTask_run]

theorem multiClassTrainTask_run (d : DataSet F) (cfg : TreeConfig) (n : Nat) (lr : F) :
    (multiClassTrainTask d cfg n lr).run = multiClassTrain d cfg n lr := by
  unfold multiClassTrainTask multiClassTrain multiClassTrainFull
  refine boostingLoopTask_run d cfg n lr _ _ _ (fun t => ?_)
  simp only [multiClassLoop, multiClassIterationTask_run]

theorem amgTrainTask_run (d : DataSet F) (cfg : TreeConfig) (n : Nat) (lr : F) :
    (amgTrainTask d cfg n lr).run = amgTrain d cfg n lr := by
  unfold amgTrainTask amgTrain amgTrainFull
  refine boostingLoopTask_run d cfg n lr _ _ _ (fun t => ?_)
  simp only [amgLoop, amgIterationTask_run]

end Verif
