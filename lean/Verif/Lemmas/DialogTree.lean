import Verif.Lemmas.Dialog
/-! # The calls of the gradient boosting tree builders -/

namespace Verif

variable {F : Type} [F64 F] {L : Type}
open Dialog

/-- The recursion common to both builders, on the number of levels that remain. -/
def callFuel (par : Bool) (leafWith : List F → L) (t : Nat) : Nat → DataSet F → Dialog F (TreeNode F L)
  | 0, d => .split d t fun s => .leaf d fun o => .done (.ok (TreeNode.leafNode s.question (leafWith o)))
  | m + 1, d => .split d t fun s =>
    if s.gain ==. F64.zero then .leaf d fun o => .done (.ok (TreeNode.leafNode s.question (leafWith o)))
    else bind (.done (partition d s.question)) fun p =>
      if par then .fork (callFuel par leafWith t m p.2) (callFuel par leafWith t m p.1) fun y n => .done (.ok (TreeNode.new s.question y n))
      else bind (callFuel par leafWith t m p.2) fun y => bind (callFuel par leafWith t m p.1) fun n =>
        .done (.ok (TreeNode.new s.question y n))

theorem buildCalling_fuel (leafWith : List F → L) (cfg : TreeConfig) (m : Nat) : ∀ (d : DataSet F) (level : Nat),
    level + m = cfg.maxLevels → buildCalling leafWith cfg d level = callFuel false leafWith cfg.numberOfClasses m d := by
  induction m with
  | zero =>
    intro d level h
    unfold buildCalling callFuel
    have : (level == cfg.maxLevels) = true := by simp; omega
    simp only [this, Bool.or_true, if_true]
  | succ m ih =>
    intro d level h
    unfold buildCalling callFuel
    have h1 : (level == cfg.maxLevels) = false := by simp; omega
    have h2 : level < cfg.maxLevels := by omega
    simp only [h1, Bool.or_false, h2, ↓reduceDIte, Bool.false_eq_true, if_false]
    congr 1
    funext s
    split
    · rfl
    · congr 1
      funext p
      rw [ih _ (level + 1) (by omega), ih _ (level + 1) (by omega)]

theorem buildCallingMT_fuel (leafWith : List F → L) (cfg : TreeConfig) (m : Nat) : ∀ (d : DataSet F) (level : Nat),
    level + m = cfg.maxLevels → buildCallingMT leafWith cfg d level = callFuel true leafWith cfg.numberOfClasses m d := by
  induction m with
  | zero =>
    intro d level h
    unfold buildCallingMT callFuel
    have : (level == cfg.maxLevels) = true := by simp; omega
    simp only [this, Bool.or_true, if_true]
  | succ m ih =>
    intro d level h
    unfold buildCallingMT callFuel
    have h1 : (level == cfg.maxLevels) = false := by simp; omega
    have h2 : level < cfg.maxLevels := by omega
    simp only [h1, Bool.or_false, h2, ↓reduceDIte, if_true]
    congr 1
    funext s
    split
    · rfl
    · congr 1
      funext p
      rw [ih _ (level + 1) (by omega), ih _ (level + 1) (by omega)]

theorem treeCalling_eq (leafWith : List F → L) (d : DataSet F) (cfg : TreeConfig) :
    treeCalling leafWith d cfg = callFuel cfg.useMultiThreading leafWith cfg.numberOfClasses cfg.maxLevels d := by
  cases hm : cfg.useMultiThreading
  · simp only [treeCalling, hm, buildCalling_fuel leafWith cfg cfg.maxLevels d 0 (by omega)]
  · simp only [treeCalling, hm, buildCallingMT_fuel leafWith cfg cfg.maxLevels d 0 (by omega)]

/-- the leaf when the leaf output function is a function -/
def leafBy (own : LeafOutputCalculator F) (leafWith : List F → L) (d : DataSet F) : R L := do
  let o ← own.calculate d
  .ok (leafWith o)

theorem eval_callFuel (find : SplitFinder F) (own : LeafOutputCalculator F) (par : Bool) (leafWith : List F → L) (t m : Nat) (d : DataSet F) :
    eval find own (callFuel par leafWith t m d) = growFuel find (leafBy own leafWith) t m d := by
  induction m generalizing d with
  | zero =>
    simp only [callFuel, eval, growFuel, leafBy, bind_assoc]
    congr 1
  | succ m ih =>
    simp only [callFuel, eval, growFuel]
    congr 1
    funext s
    split
    · simp only [eval, leafBy, bind_assoc]
      congr 1
    · simp only [eval_bind, eval]
      congr 1
      funext p
      cases par
      · simp only [Bool.false_eq_true, if_false, eval_bind, ih, eval]
        rfl
      · simp only [if_true, eval, ih]
        rfl

theorem noFork_callFuel (leafWith : List F → L) (t m : Nat) (d : DataSet F) : NoFork (callFuel false leafWith t m d) := by
  induction m generalizing d with
  | zero => exact .split (fun s => .leaf (fun l => .done))
  | succ m ih =>
    refine .split (fun s => ?_)
    split
    · exact .leaf (fun l => .done)
    · refine noFork_bind .done (fun p => ?_)
      simp only [Bool.false_eq_true, if_false]
      exact noFork_bind (ih _) (fun y => noFork_bind (ih _) (fun n => .done))

/-! ## the executions -/

/-- the executions of the recursion: the calls and the result -/
inductive Talked (par : Bool) (leafWith : List F → L) (c t : Nat) : Nat → DataSet F → List (Event F) → R (TreeNode F L) → Prop
  | panic {m : Nat} {d : DataSet F} (e : Panic) : Talked par leafWith c t m d [.split d t (.error e)] (.error e)
  | stop {m : Nat} {d : DataSet F} {s : BestSplitResult F} (hg : m = 0 ∨ (s.gain ==. F64.zero) = true) (o : List F) :
      Talked par leafWith c t m d [.split d t (.ok s), .leaf d (.ok o)] (.ok (TreeNode.leafNode s.question (leafWith o)))
  | stopPanic {m : Nat} {d : DataSet F} {s : BestSplitResult F} (hg : m = 0 ∨ (s.gain ==. F64.zero) = true) (e : Panic) :
      Talked par leafWith c t m d [.split d t (.ok s), .leaf d (.error e)] (.error e)
  | refuse {m : Nat} {d : DataSet F} {s : BestSplitResult F} {e : Panic} (hg : (s.gain ==. F64.zero) = false)
      (hp : partition d s.question = .error e) : Talked par leafWith c t (m + 1) d [.split d t (.ok s)] (.error e)
  | askPar {m : Nat} {d : DataSet F} {s : BestSplitResult F} {ty tn o : List (Event F)} {ry rn : R (TreeNode F L)}
      (hpar : par = true) (hg : (s.gain ==. F64.zero) = false) (hc : s.question.column < c)
      (hy : ∃ row ∈ d.featureRows, satisfies s.question row = true) (hn : ∃ row ∈ d.featureRows, satisfies s.question row = false)
      (ay : Talked par leafWith c t m (d.answering c s.question true) ty ry)
      (an : Talked par leafWith c t m (d.answering c s.question false) tn rn) (ho : Shuffle ty tn o) :
      Talked par leafWith c t (m + 1) d (.split d t (.ok s) :: o) (joined s.question ry rn)
  | askSeq {m : Nat} {d : DataSet F} {s : BestSplitResult F} {ty tn : List (Event F)} {y : TreeNode F L} {rn : R (TreeNode F L)}
      (hpar : par = false) (hg : (s.gain ==. F64.zero) = false) (hc : s.question.column < c)
      (hy : ∃ row ∈ d.featureRows, satisfies s.question row = true) (hn : ∃ row ∈ d.featureRows, satisfies s.question row = false)
      (ay : Talked par leafWith c t m (d.answering c s.question true) ty (.ok y))
      (an : Talked par leafWith c t m (d.answering c s.question false) tn rn) :
      Talked par leafWith c t (m + 1) d (.split d t (.ok s) :: (ty ++ tn)) (joined s.question (.ok y) rn)
  | askFail {m : Nat} {d : DataSet F} {s : BestSplitResult F} {ty : List (Event F)} {e : Panic}
      (hpar : par = false) (hg : (s.gain ==. F64.zero) = false) (hc : s.question.column < c)
      (hy : ∃ row ∈ d.featureRows, satisfies s.question row = true) (hn : ∃ row ∈ d.featureRows, satisfies s.question row = false)
      (ay : Talked par leafWith c t m (d.answering c s.question true) ty (.error e)) :
      Talked par leafWith c t (m + 1) d (.split d t (.ok s) :: ty) (.error e)

variable {par : Bool} {leafWith : List F → L} {c t : Nat}

theorem talked_leaf {m : Nat} {d : DataSet F} {s : BestSplitResult F} (hg : m = 0 ∨ (s.gain ==. F64.zero) = true)
    {tr : List (Event F)} {r : R (TreeNode F L)}
    (h : Run (.leaf d fun o => .done (.ok (TreeNode.leafNode s.question (leafWith o)))) tr (.done r)) :
    Talked par leafWith c t m d (.split d t (.ok s) :: tr) r := by
  rcases Dialog.run_leaf h with ⟨o, tr', rfl, h1⟩ | ⟨e, rfl, rfl⟩
  · obtain ⟨rfl, h2⟩ := Dialog.run_done h1
    cases h2
    exact .stop hg o
  · exact .stopPanic hg e

theorem talked_of_run (m : Nat) : ∀ {d : DataSet F}, d.WF c t → ∀ {tr : List (Event F)} {r : R (TreeNode F L)},
    Run (callFuel par leafWith t m d) tr (.done r) → Talked par leafWith c t m d tr r := by
  induction m with
  | zero =>
    intro d _ tr r h
    rcases run_split h with ⟨s, tr', rfl, h1⟩ | ⟨e, rfl, rfl⟩
    · exact talked_leaf (.inl rfl) h1
    · exact .panic e
  | succ m ih =>
    intro d hw tr r h
    rcases run_split h with ⟨s, tr', rfl, h1⟩ | ⟨e, rfl, rfl⟩
    · cases hg : (s.gain ==. F64.zero) with
      | true =>
        simp only [hg, if_true] at h1
        exact talked_leaf (.inr hg) h1
      | false =>
        simp only [hg, Bool.false_eq_true, if_false] at h1
        rcases hp : partition d s.question with e | p
        · rw [hp] at h1
          obtain ⟨rfl, h2⟩ := Dialog.run_done h1
          cases h2
          exact .refuse hg hp
        · rw [hp] at h1
          obtain ⟨a1, a2, a3, rfl⟩ := partition_inv hw hp
          simp only [Dialog.bind] at h1
          cases par with
          | true =>
            simp only [if_true] at h1
            obtain ⟨tl, tr2, ra, rb, o, t2, h2, h3, h4, rfl, h5⟩ := Dialog.run_fork h1
            have ay := ih (answering_wf hw a2) h2
            have an := ih (answering_wf hw a3) h3
            rcases h5 with ⟨a, b, rfl, rfl, h6⟩ | ⟨rfl, e, rfl, h6⟩
            · obtain ⟨rfl, h7⟩ := Dialog.run_done h6
              cases h7
              rw [List.append_nil]
              exact .askPar rfl hg a1 a2 a3 ay an h4
            · rw [List.append_nil]
              have := Talked.askPar rfl hg a1 a2 a3 ay an h4
              rcases h6 with rfl | ⟨a, rfl, rfl⟩
              · exact this
              · exact this
          | false =>
            simp only [Bool.false_eq_true, if_false] at h1
            rcases Dialog.run_bind h1 with ⟨t1, t2, y, rfl, h2, h3⟩ | ⟨e, rfl, h2⟩
            · have ay := ih (answering_wf hw a2) h2
              rcases Dialog.run_bind h3 with ⟨t3, t4, n, rfl, h4, h5⟩ | ⟨e, rfl, h4⟩
              · have an := ih (answering_wf hw a3) h4
                obtain ⟨rfl, h7⟩ := Dialog.run_done h5
                cases h7
                rw [List.append_nil]
                exact .askSeq rfl hg a1 a2 a3 ay an
              · exact .askSeq rfl hg a1 a2 a3 ay (ih (answering_wf hw a3) h4)
            · exact .askFail rfl hg a1 a2 a3 (ih (answering_wf hw a2) h2)
    · exact .panic e

theorem run_of_talked {m : Nat} {d : DataSet F} {tr : List (Event F)} {r : R (TreeNode F L)} (h : Talked par leafWith c t m d tr r)
    (hw : d.WF c t) : Run (callFuel par leafWith t m d) tr (.done r) := by
  induction h with
  | @panic m d e =>
    cases m with
    | zero => exact .one (.splitPanic e)
    | succ m => exact .one (.splitPanic e)
  | @stop m d s hg o =>
    cases m with
    | zero => exact .step (es := [_]) (trace := [_]) (.split s) (.one (.leaf o))
    | succ m =>
      refine .step (es := [_]) (trace := [_]) (.split s) ?_
      have hg : (s.gain ==. F64.zero) = true := by rcases hg with h | h; cases h; exact h
      simp only [hg, if_true]
      exact .one (.leaf o)
  | @stopPanic m d s hg e =>
    cases m with
    | zero => exact .step (es := [_]) (trace := [_]) (.split s) (.one (.leafPanic e))
    | succ m =>
      refine .step (es := [_]) (trace := [_]) (.split s) ?_
      have hg : (s.gain ==. F64.zero) = true := by rcases hg with h | h; cases h; exact h
      simp only [hg, if_true]
      exact .one (.leafPanic e)
  | @refuse m d s e hg hp =>
    refine .step (es := [_]) (trace := []) (.split s) ?_
    simp only [hg, Bool.false_eq_true, if_false, hp]
    exact .refl
  | @askPar m d s ty tn o ry rn hpar hg hc hy hn _ _ ho ihy ihn =>
    subst hpar
    refine .step (es := [_]) (trace := o) (.split s) ?_
    have h1 := ihy (answering_wf hw hy)
    have h2 := ihn (answering_wf hw hn)
    simp only [hg, Bool.false_eq_true, if_false, partition_ok hw hc hy hn, Dialog.bind, if_true]
    rw [← answering_true, ← answering_false]
    have h3 := Dialog.run_shuffle ho (fun y n => (.done (.ok (TreeNode.new s.question y n)) : Dialog F (TreeNode F L))) h1 h2
    have h4 : Run (Dialog.fork (.done ry) (.done rn) (fun y n => (.done (.ok (TreeNode.new s.question y n)) : Dialog F (TreeNode F L)))) []
        (.done (joined s.question ry rn)) := by
      cases ry with
      | error e => exact .one .joinPanicLeft
      | ok y => cases rn with
        | error e => exact .one .joinPanicRight
        | ok n => exact .one .joinOk
    simpa using h3.trans h4
  | @askSeq m d s ty tn y rn hpar hg hc hy hn _ _ ihy ihn =>
    subst hpar
    refine .step (es := [_]) (trace := ty ++ tn) (.split s) ?_
    have h1 := ihy (answering_wf hw hy)
    have h2 := ihn (answering_wf hw hn)
    simp only [hg, Bool.false_eq_true, if_false, partition_ok hw hc hy hn, Dialog.bind]
    rw [← answering_true, ← answering_false]
    refine (Dialog.bind_run h1 _).trans ?_
    have h3 := Dialog.bind_run h2 (fun n => (.done (.ok (TreeNode.new s.question y n)) : Dialog F (TreeNode F L)))
    cases rn with
    | error e => exact h3
    | ok n => exact h3
  | @askFail m d s ty e hpar hg hc hy hn _ ihy =>
    subst hpar
    refine .step (es := [_]) (trace := ty) (.split s) ?_
    have h1 := ihy (answering_wf hw hy)
    simp only [hg, Bool.false_eq_true, if_false, partition_ok hw hc hy hn, Dialog.bind]
    rw [← answering_true, ← answering_false]
    exact Dialog.bind_run h1 _

end Verif
