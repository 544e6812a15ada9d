import Verif.Lemmas.AskFacts
import Verif.Lemmas.Ensemble
/-! # The calls of the ensembles -/

set_option linter.unusedSectionVars false

namespace Verif

variable {F : Type} [F64 F] {L : Type}
open Prog

theorem treeAsking_asked {leafOf : DataSet F → R L} {cfg : TreeConfig} {c t : Nat} (ht : cfg.numberOfClasses = t) {d : DataSet F}
    (h : d.WF c t) {tr : List (Call F)} {r : R (TreeNode F L)} (hr : Run (treeAsking leafOf d cfg) tr (.done r)) :
    Asked cfg.useMultiThreading leafOf c t cfg.maxLevels d tr r := by
  rw [treeAsking_eq, ht] at hr
  exact asked_of_run _ h hr

theorem treeAsking_eval (find : SplitFinder F) (leafOf : DataSet F → R L) (d : DataSet F) (cfg : TreeConfig) :
    eval find (treeAsking leafOf d cfg) = growFuel find leafOf cfg.numberOfClasses cfg.maxLevels d := by
  rw [treeAsking_eq, eval_askFuel]

theorem noFork_tree (leafOf : DataSet F → R L) (d : DataSet F) (cfg : TreeConfig) (hm : cfg.useMultiThreading = false) :
    NoFork (treeAsking leafOf d cfg) := by
  rw [treeAsking_eq, hm]
  exact noFork_askFuel _ _ _ _

omit [F64 F] in
theorem noFork_loop {σ : Type} {body : σ → Prog F σ} (hb : ∀ s, NoFork (body s)) (n : Nat) : ∀ s, NoFork (loopAsking body n s) := by
  induction n with
  | zero => intro s; exact .done
  | succ n ih => intro s; exact noFork_bind (hb s) ih

theorem noFork_train (res : TrainingData F → R (List (List F))) (leafOf : DataSet F → R L)
    (upd : TrainingData F → TreeNode F L → F → R (TrainingData F)) (ty : BoostingEnsembleType) (d : DataSet F) (cfg : TreeConfig) (n : Nat)
    (lr : F) (hm : cfg.useMultiThreading = false) : NoFork (boostingLoopAsking res leafOf upd ty d cfg n lr) :=
  noFork_bind .done (fun _ => noFork_bind .done (fun _ => noFork_bind (noFork_loop (fun _ => noFork_bind .done (fun _ =>
    noFork_bind (noFork_tree _ _ _ hm) (fun _ => noFork_bind .done (fun _ => .done)))) _ _) (fun _ => .done)))

theorem loop_eval (find : SplitFinder F) {σ : Type} (body : σ → Prog F σ) (n : Nat) (s : σ) :
    eval find (loopAsking body n s) = forRange n (fun _ s => eval find (body s)) s := by
  have h : ∀ (m : Nat) (s : σ), forRange (m + 1) (fun _ s => eval find (body s)) s =
      (eval find (body s) >>= forRange m (fun _ s => eval find (body s))) := by
    intro m
    induction m with
    | zero => intro s; rw [forRange_succ]; simp only [forRange_zero, R.ok_bind]; cases eval find (body s) <;> rfl
    | succ m ih =>
      intro s
      rw [forRange_succ, ih s, bind_assoc]
      congr 1; funext s'
      rw [forRange_succ]
  induction n generalizing s with
  | zero => rfl
  | succ n ih =>
    simp only [loopAsking, eval_bind, h]
    congr 1; funext s'
    exact ih s'

theorem train_eval (find : SplitFinder F) (res : TrainingData F → R (List (List F))) (leafOf : DataSet F → R L)
    (upd : TrainingData F → TreeNode F L → F → R (TrainingData F)) (ty : BoostingEnsembleType) (d : DataSet F) (cfg : TreeConfig) (n : Nat)
    (lr : F) (loop : TrainingData F → Nat → TreeConfig → F → R (TrainingData F × List (TreeNode F L)))
    (h : ∀ t, loop t n cfg lr = boostLoop res (fun d => growFuel find leafOf cfg.numberOfClasses cfg.maxLevels d) (fun t tree => upd t tree lr) n t) :
    eval find (boostingLoopAsking res leafOf upd ty d cfg n lr) =
      (boostingLoop d cfg n lr { ensembleType := ty, loopExecutor := loop } >>= fun r => pure r.2) := by
  have hi : ∀ s, eval find (iterationAsking res leafOf upd cfg lr s) =
      boostStep res (fun d => growFuel find leafOf cfg.numberOfClasses cfg.maxLevels d) (fun t tree => upd t tree lr) s := by
    intro s
    simp only [iterationAsking, boostStep, eval_bind, treeAsking_eval, Prog.lift, ret, eval]
    rfl
  simp only [boostingLoopAsking, boostingLoop, eval_bind, loop_eval, hi, h, boostLoop, Prog.lift, ret, eval, bind_assoc]
  rfl

/-- what the ensembles have in common, as far as the residuals are concerned -/
structure Rounds (res : TrainingData F → R (List (List F))) (upd : TrainingData F → TreeNode F L → F → R (TrainingData F))
    (out : List F → TreeNode F L → R (List F)) (act : List F → List F) (d : DataSet F) (guess : List F) (lr : F) : Prop where
  adds : UpdateAdds (fun t tree => upd t tree lr) out lr guess.length
  residuals : ∀ s : TrainingData F × List (TreeNode F L), Tracks out d guess lr s →
    res s.1 = .ok (List.zipWith (fun l v => List.zipWith F64.sub l (act v)) d.labels s.1.mutableLabels)
  act_length : ∀ v, (act v).length = v.length

variable [LawfulOrder F] {res : TrainingData F → R (List (List F))} {leafOf : DataSet F → R L} {upd : TrainingData F → TreeNode F L → F → R (TrainingData F)}
  {out : List F → TreeNode F L → R (List F)} {act : List F → List F} {d : DataSet F} {guess : List F} {lr : F} {c t : Nat} {cfg : TreeConfig}

theorem round_data (h : d.WF c t) (hg : guess.length = t) (hr : Rounds res upd out act d guess lr)
    {s : TrainingData F × List (TreeNode F L)} (hs : Tracks out d guess lr s) :
    RoundData d act (fun row trees => rawScore out guess lr trees row) s.2
      { d with labels := List.zipWith (fun l v => List.zipWith F64.sub l (act v)) d.labels s.1.mutableLabels } ∧
    ({ d with labels := List.zipWith (fun l v => List.zipWith F64.sub l (act v)) d.labels s.1.mutableLabels } : DataSet F).WF c t := by
  refine ⟨⟨rfl, rfl, by simp [hs.len], ?_⟩, residuals_wf h hs.len (fun l v hl hv => by simp [hr.act_length, h.label_len l hl, hs.width v hv, hg])⟩
  intro i row l hrow hl
  have hi : i < d.labels.length := (List.getElem?_eq_some_iff.mp hl).1
  have hi' : i < s.1.mutableLabels.length := by rw [hs.len]; exact hi
  refine ⟨s.1.mutableLabels[i], hs.score i row _ hrow (List.getElem?_eq_getElem hi'), ?_⟩
  rw [List.getElem?_zipWith, hl, List.getElem?_eq_getElem hi']

theorem iteration_run (h : d.WF c t) (hg : guess.length = t) (hr : Rounds res upd out act d guess lr)
    {s : TrainingData F × List (TreeNode F L)} (hs : Tracks out d guess lr s) {tr : List (Call F)}
    {q : R (TrainingData F × List (TreeNode F L))} (hq : Run (iterationAsking res leafOf upd cfg lr s) tr (.done q)) :
    ∃ r : DataSet F, RoundData d act (fun row trees => rawScore out guess lr trees row) s.2 r ∧ r.WF c t ∧
      ((∃ tree, Run (treeAsking leafOf r cfg) tr (.done (.ok tree)) ∧
          ∀ s', q = .ok s' → s'.2 = s.2 ++ [tree] ∧ Tracks out d guess lr s') ∨
        ∃ e, q = .error e ∧ Run (treeAsking leafOf r cfg) tr (.done (.error e))) := by
  obtain ⟨h1, h2⟩ := round_data h hg hr hs
  refine ⟨_, h1, h2, ?_⟩
  simp only [iterationAsking, hr.residuals s hs, Prog.lift, Prog.bind, hs.data] at hq
  rcases run_bind hq with ⟨t1, t2, tree, rfl, h3, h4⟩ | ⟨e, rfl, h3⟩
  · left
    rcases hu : upd s.1 tree lr with e | t'
    · simp only [hu, Prog.bind] at h4
      obtain ⟨rfl, h5⟩ := run_done h4
      cases h5
      exact ⟨tree, by simpa using h3, nofun⟩
    · simp only [hu, Prog.bind, ret] at h4
      obtain ⟨rfl, h5⟩ := run_done h4
      cases h5
      refine ⟨tree, by simpa using h3, ?_⟩
      intro s' hs'
      cases hs'
      refine ⟨rfl, tracks_step (res := res) (fit := fun _ => .ok tree) hr.adds hs ?_⟩
      simp only [boostStep, hr.residuals s hs, R.ok_bind, hu]
      rfl
  · exact .inr ⟨e, rfl, h3⟩

theorem loop_calls (h : d.WF c t) (hg : guess.length = t) (ht : cfg.numberOfClasses = t) (hr : Rounds res upd out act d guess lr) (n : Nat) :
    ∀ {s : TrainingData F × List (TreeNode F L)}, Tracks out d guess lr s → ∀ {tr : List (Call F)}
      {s' : TrainingData F × List (TreeNode F L)}, Run (loopAsking (iterationAsking res leafOf upd cfg lr) n s) tr (.done (.ok s')) →
      ∃ (trees : List (TreeNode F L)) (traces : List (List (Call F))), s'.2 = s.2 ++ trees ∧ trees.length = n ∧ tr = traces.flatten ∧
        traces.length = n ∧ ∀ (j : Nat) (tree : TreeNode F L) (trj : List (Call F)), trees[j]? = some tree → traces[j]? = some trj →
          ∃ r, RoundData d act (fun row trees => rawScore out guess lr trees row) (s.2 ++ trees.take j) r ∧ r.WF c t ∧
            CallsOf r c t cfg.maxLevels tree trj := by
  induction n with
  | zero =>
    intro s hs tr s' hq
    obtain ⟨rfl, h1⟩ := run_done hq
    cases h1
    exact ⟨[], [], by simp, rfl, rfl, rfl, by simp⟩
  | succ n ih =>
    intro s hs tr s' hq
    rcases run_bind hq with ⟨t1, t2, s1, rfl, h1, h2⟩ | ⟨e, h, _⟩
    · obtain ⟨r, a1, a2, ⟨tree, a3, a4⟩ | ⟨e, h, _⟩⟩ := iteration_run h hg hr hs h1
      · obtain ⟨b1, b2⟩ := a4 s1 rfl
        obtain ⟨trees, traces, c1, c2, rfl, c4, c5⟩ := ih b2 h2
        refine ⟨tree :: trees, t1 :: traces, ?_, by simp [c2], rfl, by simp [c4], ?_⟩
        · rw [c1, b1]
          simp
        · intro j tree' trj hj hj'
          cases j with
          | zero =>
            simp only [List.getElem?_cons_zero, Option.some.injEq] at hj hj'
            subst hj
            subst hj'
            obtain ⟨order, o1, o2, o3, _⟩ := (treeAsking_asked ht a2 a3).order a2 rfl
            exact ⟨r, by simpa using a1, a2, order, o1, o2, o3⟩
          | succ j =>
            simp only [List.getElem?_cons_succ] at hj hj'
            obtain ⟨r', d1, d2, d3⟩ := c5 j tree' trj hj hj'
            refine ⟨r', ?_, d2, d3⟩
            rw [b1] at d1
            simpa using d1
      · cases h
    · cases h

theorem loop_count (h : d.WF c t) (hg : guess.length = t) (ht : cfg.numberOfClasses = t) (hr : Rounds res upd out act d guess lr) (n : Nat) :
    ∀ {s : TrainingData F × List (TreeNode F L)}, Tracks out d guess lr s → ∀ {tr : List (Call F)}
      {q : R (TrainingData F × List (TreeNode F L))}, Run (loopAsking (iterationAsking res leafOf upd cfg lr) n s) tr (.done q) →
      tr.length ≤ n * (2 ^ (cfg.maxLevels + 1) - 1) ∧ tr.length ≤ n * (2 * d.featureRows.length - 1) ∧
      (∀ call ∈ tr, call.targets = t ∧ call.data.WF c t) := by
  induction n with
  | zero =>
    intro s hs tr q hq
    obtain ⟨rfl, h1⟩ := run_done hq
    simp
  | succ n ih =>
    have one : ∀ {s : TrainingData F × List (TreeNode F L)}, Tracks out d guess lr s → ∀ {tr : List (Call F)}
        {q : R (TrainingData F × List (TreeNode F L))}, Run (iterationAsking res leafOf upd cfg lr s) tr (.done q) →
        tr.length ≤ 2 ^ (cfg.maxLevels + 1) - 1 ∧ tr.length ≤ 2 * d.featureRows.length - 1 ∧
        (∀ call ∈ tr, call.targets = t ∧ call.data.WF c t) := by
      intro s hs tr q hq
      obtain ⟨r, a1, a2, a3⟩ := iteration_run h hg hr hs hq
      have : ∃ x, Asked cfg.useMultiThreading leafOf c t cfg.maxLevels r tr x := by
        rcases a3 with ⟨tree, a3, _⟩ | ⟨e, _, a3⟩
        · exact ⟨_, treeAsking_asked ht a2 a3⟩
        · exact ⟨_, treeAsking_asked ht a2 a3⟩
      obtain ⟨x, hx⟩ := this
      obtain ⟨b1, b2, _⟩ := hx.count a2
      rw [rows_length a2, a1.rows] at b2
      exact ⟨by omega, by omega, fun call hc => ⟨(hx.calls a2 call hc).1, (hx.calls a2 call hc).2.1⟩⟩
    intro s hs tr q hq
    rcases run_bind hq with ⟨t1, t2, s1, rfl, h1, h2⟩ | ⟨e, rfl, h1⟩
    · obtain ⟨o1, o2, o3⟩ := one hs h1
      obtain ⟨r, a1, a2, ⟨tree, a3, a4⟩ | ⟨e, h, _⟩⟩ := iteration_run h hg hr hs h1
      · obtain ⟨b1, b2⟩ := a4 s1 rfl
        obtain ⟨c1, c2, c3⟩ := ih b2 h2
        rw [List.length_append, Nat.succ_mul, Nat.succ_mul]
        refine ⟨by omega, by omega, ?_⟩
        intro call hc
        rcases List.mem_append.mp hc with hc | hc
        · exact o3 call hc
        · exact c3 call hc
      · cases h
    · obtain ⟨o1, o2, o3⟩ := one hs h1
      rw [Nat.succ_mul, Nat.succ_mul]
      exact ⟨by omega, by omega, o3⟩

theorem train_run {ty : BoostingEnsembleType} {n : Nat}
    (hgu : determineInitialGuess { data := d, mutableLabels := d.labels, size := d.labels.length } ty = .ok guess) {tr : List (Call F)}
    {q : R (BoostModel F L)} (hq : Run (boostingLoopAsking res leafOf upd ty d cfg n lr) tr (.done q)) :
    ∃ q', Run (loopAsking (iterationAsking res leafOf upd cfg lr) n
        ({ data := d, mutableLabels := List.replicate d.labels.length guess, size := d.labels.length }, [])) tr (.done q') ∧
      q = (q' >>= fun s => .ok { trees := s.2, initialGuess := guess, learningRate := lr }) := by
  simp only [boostingLoopAsking, hgu, updateLabelsWithInitialGuess_ok, Prog.lift, Prog.bind] at hq
  rcases run_bind hq with ⟨t1, t2, s, rfl, h1, h2⟩ | ⟨e, rfl, h1⟩
  · obtain ⟨rfl, h3⟩ := run_done h2
    cases h3
    exact ⟨.ok s, by simpa using h1, rfl⟩
  · exact ⟨.error e, h1, rfl⟩

theorem rounds_regression (h : d.WF c t) (hg : guess.length = t) :
    Rounds (L := GradBoostLeaf F) regressionResiduals updateDatasetLabels gradOut id d guess lr :=
  ⟨grad_updateAdds lr _, fun _ hs => regressionResiduals_ok h hg hs, fun _ => rfl⟩

theorem rounds_multiClass (h : d.WF c t) (hg : guess.length = t) :
    Rounds (L := GradBoostLeaf F) multiClassResiduals updateDatasetLabels gradOut calculateProbabilities d guess lr :=
  ⟨grad_updateAdds lr _, fun _ hs => multiClassResiduals_ok h hg hs, calculateProbabilities_length⟩

theorem rounds_amg (h : d.WF c t) (hg : guess.length = t) :
    Rounds (L := AMGBoostLeaf F) multiClassResiduals amgUpdateDatasetLabels (amgOut t) calculateProbabilities d guess lr :=
  ⟨by rw [hg]; exact amg_updateAdds lr t, fun _ hs => multiClassResiduals_ok h hg hs, calculateProbabilities_length⟩

end Verif
