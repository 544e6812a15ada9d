import Verif.Lemmas.Ask
/-! # The calls of the tree builders -/

namespace Verif

variable {F : Type} [F64 F] {L : Type}
open Prog

/-- The recursion common to all builders, on the number of levels that remain. -/
def askFuel (par : Bool) (leafOf : DataSet F → R L) (t : Nat) : Nat → DataSet F → Prog F (TreeNode F L)
  | 0, d => .ask d t fun s => bind (lift (leafOf d)) fun l => ret (TreeNode.leafNode s.question l)
  | m + 1, d => .ask d t fun s =>
    if s.gain ==. F64.zero then bind (lift (leafOf d)) fun l => ret (TreeNode.leafNode s.question l)
    else bind (lift (partition d s.question)) fun p =>
      if par then .fork (askFuel par leafOf t m p.2) (askFuel par leafOf t m p.1) fun y n => ret (TreeNode.new s.question y n)
      else bind (askFuel par leafOf t m p.2) fun y => bind (askFuel par leafOf t m p.1) fun n => ret (TreeNode.new s.question y n)

theorem buildAsking_fuel (leafOf : DataSet F → R L) (cfg : TreeConfig) (m : Nat) : ∀ (d : DataSet F) (level : Nat),
    level + m = cfg.maxLevels → buildAsking leafOf cfg d level = askFuel false leafOf cfg.numberOfClasses m d := by
  induction m with
  | zero =>
    intro d level h
    unfold buildAsking askFuel
    have : (level == cfg.maxLevels) = true := by simp; omega
    simp only [this, Bool.or_true, if_true]
  | succ m ih =>
    intro d level h
    unfold buildAsking askFuel
    have h1 : (level == cfg.maxLevels) = false := by simp; omega
    have h2 : level < cfg.maxLevels := by omega
    simp only [h1, Bool.or_false, h2, ↓reduceDIte, Bool.false_eq_true, if_false]
    congr 1
    funext s
    split
    · rfl
    · congr 1
      funext p
      rw [ih _ (level + 1) (by omega), ih _ (level + 1) (by omega)]

theorem buildAskingMT_fuel (leafOf : DataSet F → R L) (cfg : TreeConfig) (m : Nat) : ∀ (d : DataSet F) (level : Nat),
    level + m = cfg.maxLevels → buildAskingMT leafOf cfg d level = askFuel true leafOf cfg.numberOfClasses m d := by
  induction m with
  | zero =>
    intro d level h
    unfold buildAskingMT askFuel
    have : (level == cfg.maxLevels) = true := by simp; omega
    simp only [this, Bool.or_true, if_true]
  | succ m ih =>
    intro d level h
    unfold buildAskingMT askFuel
    have h1 : (level == cfg.maxLevels) = false := by simp; omega
    have h2 : level < cfg.maxLevels := by omega
    simp only [h1, Bool.or_false, h2, ↓reduceDIte, if_true]
    congr 1
    funext s
    split
    · rfl
    · congr 1
      funext p
      rw [ih _ (level + 1) (by omega), ih _ (level + 1) (by omega)]

theorem treeAsking_eq (leafOf : DataSet F → R L) (d : DataSet F) (cfg : TreeConfig) :
    treeAsking leafOf d cfg = askFuel cfg.useMultiThreading leafOf cfg.numberOfClasses cfg.maxLevels d := by
  cases hm : cfg.useMultiThreading
  · simp only [treeAsking, hm, buildAsking_fuel leafOf cfg cfg.maxLevels d 0 (by omega)]
  · simp only [treeAsking, hm, buildAskingMT_fuel leafOf cfg cfg.maxLevels d 0 (by omega)]

theorem eval_askFuel (find : SplitFinder F) (par : Bool) (leafOf : DataSet F → R L) (t m : Nat) (d : DataSet F) :
    eval find (askFuel par leafOf t m d) = growFuel find leafOf t m d := by
  induction m generalizing d with
  | zero =>
    simp only [askFuel, eval, eval_bind, growFuel, lift, ret]
    rfl
  | succ m ih =>
    simp only [askFuel, eval, growFuel]
    congr 1
    funext s
    split
    · simp only [eval_bind, lift, ret, eval]
      rfl
    · simp only [eval_bind, lift, eval]
      congr 1
      funext p
      cases par
      · simp only [Bool.false_eq_true, if_false, eval_bind, ih, ret, eval]
        rfl
      · simp only [if_true, eval, ih, ret]
        rfl

theorem noFork_askFuel (leafOf : DataSet F → R L) (t m : Nat) (d : DataSet F) : NoFork (askFuel false leafOf t m d) := by
  induction m generalizing d with
  | zero => exact .ask (fun s => noFork_bind .done (fun l => .done))
  | succ m ih =>
    refine .ask (fun s => ?_)
    split
    · exact noFork_bind .done (fun l => .done)
    · refine noFork_bind .done (fun p => ?_)
      simp only [Bool.false_eq_true, if_false]
      exact noFork_bind (ih _) (fun y => noFork_bind (ih _) (fun n => .done))

/-! ## the executions -/

/-- what the node above makes of the results for its branches -/
def joined (q : Question F) (ry rn : R (TreeNode F L)) : R (TreeNode F L) := do
  let y ← ry
  let n ← rn
  pure (TreeNode.new q y n)

/-- the executions of the recursion: the calls and the result -/
inductive Asked (par : Bool) (leafOf : DataSet F → R L) (c t : Nat) : Nat → DataSet F → List (Call F) → R (TreeNode F L) → Prop
  | panic {m : Nat} {d : DataSet F} (e : Panic) : Asked par leafOf c t m d [⟨d, t, .error e⟩] (.error e)
  | stop {m : Nat} {d : DataSet F} {s : BestSplitResult F} (hg : m = 0 ∨ (s.gain ==. F64.zero) = true) :
      Asked par leafOf c t m d [⟨d, t, .ok s⟩] (leafOf d >>= fun l => .ok (TreeNode.leafNode s.question l))
  | refuse {m : Nat} {d : DataSet F} {s : BestSplitResult F} {e : Panic} (hg : (s.gain ==. F64.zero) = false)
      (hp : partition d s.question = .error e) : Asked par leafOf c t (m + 1) d [⟨d, t, .ok s⟩] (.error e)
  | askPar {m : Nat} {d : DataSet F} {s : BestSplitResult F} {ty tn o : List (Call F)} {ry rn : R (TreeNode F L)}
      (hpar : par = true) (hg : (s.gain ==. F64.zero) = false) (hc : s.question.column < c)
      (hy : ∃ row ∈ d.featureRows, satisfies s.question row = true) (hn : ∃ row ∈ d.featureRows, satisfies s.question row = false)
      (ay : Asked par leafOf c t m (d.answering c s.question true) ty ry)
      (an : Asked par leafOf c t m (d.answering c s.question false) tn rn) (ho : Shuffle ty tn o) :
      Asked par leafOf c t (m + 1) d (⟨d, t, .ok s⟩ :: o) (joined s.question ry rn)
  | askSeq {m : Nat} {d : DataSet F} {s : BestSplitResult F} {ty tn : List (Call F)} {y : TreeNode F L} {rn : R (TreeNode F L)}
      (hpar : par = false) (hg : (s.gain ==. F64.zero) = false) (hc : s.question.column < c)
      (hy : ∃ row ∈ d.featureRows, satisfies s.question row = true) (hn : ∃ row ∈ d.featureRows, satisfies s.question row = false)
      (ay : Asked par leafOf c t m (d.answering c s.question true) ty (.ok y))
      (an : Asked par leafOf c t m (d.answering c s.question false) tn rn) :
      Asked par leafOf c t (m + 1) d (⟨d, t, .ok s⟩ :: (ty ++ tn)) (joined s.question (.ok y) rn)
  | askFail {m : Nat} {d : DataSet F} {s : BestSplitResult F} {ty : List (Call F)} {e : Panic}
      (hpar : par = false) (hg : (s.gain ==. F64.zero) = false) (hc : s.question.column < c)
      (hy : ∃ row ∈ d.featureRows, satisfies s.question row = true) (hn : ∃ row ∈ d.featureRows, satisfies s.question row = false)
      (ay : Asked par leafOf c t m (d.answering c s.question true) ty (.error e)) :
      Asked par leafOf c t (m + 1) d (⟨d, t, .ok s⟩ :: ty) (.error e)

variable {par : Bool} {leafOf : DataSet F → R L} {c t : Nat}

omit [F64 F] in
theorem run_leaf {d : DataSet F} {q : Question F} {tr : List (Call F)} {r : R (TreeNode F L)}
    (h : Run (bind (lift (leafOf d)) fun l => ret (TreeNode.leafNode q l)) tr (.done r)) :
    tr = [] ∧ r = (leafOf d >>= fun l => .ok (TreeNode.leafNode q l)) := by
  rcases hl : leafOf d with e | l
  · rw [hl] at h
    obtain ⟨h1, h2⟩ := run_done h
    cases h2
    exact ⟨h1, rfl⟩
  · rw [hl] at h
    obtain ⟨h1, h2⟩ := run_done h
    cases h2
    exact ⟨h1, rfl⟩

theorem asked_of_run (m : Nat) : ∀ {d : DataSet F}, d.WF c t → ∀ {tr : List (Call F)} {r : R (TreeNode F L)},
    Run (askFuel par leafOf t m d) tr (.done r) → Asked par leafOf c t m d tr r := by
  induction m with
  | zero =>
    intro d _ tr r h
    rcases run_ask h with ⟨s, tr', rfl, h1⟩ | ⟨e, rfl, rfl⟩
    · obtain ⟨rfl, rfl⟩ := run_leaf h1
      exact .stop (.inl rfl)
    · exact .panic e
  | succ m ih =>
    intro d hw tr r h
    rcases run_ask h with ⟨s, tr', rfl, h1⟩ | ⟨e, rfl, rfl⟩
    · cases hg : (s.gain ==. F64.zero) with
      | true =>
        simp only [hg, if_true] at h1
        obtain ⟨rfl, rfl⟩ := run_leaf h1
        exact .stop (.inr hg)
      | false =>
        simp only [hg, Bool.false_eq_true, if_false] at h1
        rcases hp : partition d s.question with e | p
        · rw [hp] at h1
          obtain ⟨rfl, h2⟩ := run_done h1
          cases h2
          exact .refuse hg hp
        · rw [hp] at h1
          obtain ⟨a1, a2, a3, rfl⟩ := partition_inv hw hp
          simp only [lift, Prog.bind] at h1
          cases par with
          | true =>
            simp only [if_true] at h1
            obtain ⟨tl, tr2, ra, rb, o, t2, h2, h3, h4, rfl, h5⟩ := run_fork h1
            have ay := ih (answering_wf hw a2) h2
            have an := ih (answering_wf hw a3) h3
            rcases h5 with ⟨a, b, rfl, rfl, h6⟩ | ⟨rfl, e, rfl, h6⟩
            · obtain ⟨rfl, h7⟩ := run_done h6
              cases h7
              rw [List.append_nil]
              exact .askPar rfl hg a1 a2 a3 ay an h4
            · rw [List.append_nil]
              have := Asked.askPar rfl hg a1 a2 a3 ay an h4
              rcases h6 with rfl | ⟨a, rfl, rfl⟩
              · exact this
              · exact this
          | false =>
            simp only [Bool.false_eq_true, if_false] at h1
            rcases run_bind h1 with ⟨t1, t2, y, rfl, h2, h3⟩ | ⟨e, rfl, h2⟩
            · have ay := ih (answering_wf hw a2) h2
              rcases run_bind h3 with ⟨t3, t4, n, rfl, h4, h5⟩ | ⟨e, rfl, h4⟩
              · have an := ih (answering_wf hw a3) h4
                obtain ⟨rfl, h7⟩ := run_done h5
                cases h7
                rw [List.append_nil]
                exact .askSeq rfl hg a1 a2 a3 ay an
              · exact .askSeq rfl hg a1 a2 a3 ay (ih (answering_wf hw a3) h4)
            · exact .askFail rfl hg a1 a2 a3 (ih (answering_wf hw a2) h2)
    · exact .panic e

theorem run_of_asked {m : Nat} {d : DataSet F} {tr : List (Call F)} {r : R (TreeNode F L)} (h : Asked par leafOf c t m d tr r)
    (hw : d.WF c t) : Run (askFuel par leafOf t m d) tr (.done r) := by
  have leaf : ∀ (d : DataSet F) (q : Question F), (bind (lift (leafOf d)) fun l => ret (TreeNode.leafNode q l)) =
      (Prog.done (leafOf d >>= fun l => .ok (TreeNode.leafNode q l)) : Prog F (TreeNode F L)) := by
    intro d q
    cases leafOf d <;> rfl
  induction h with
  | @panic m d e =>
    cases m with
    | zero => exact .one (.panic e)
    | succ m => exact .one (.panic e)
  | @stop m d s hg =>
    cases m with
    | zero =>
      refine .step (cs := [_]) (trace := []) (.answer s) ?_
      rw [leaf]
      exact .refl
    | succ m =>
      refine .step (cs := [_]) (trace := []) (.answer s) ?_
      have hg : (s.gain ==. F64.zero) = true := by rcases hg with h | h; cases h; exact h
      simp only [hg, if_true]
      rw [leaf]
      exact .refl
  | @refuse m d s e hg hp =>
    refine .step (cs := [_]) (trace := []) (.answer s) ?_
    simp only [hg, Bool.false_eq_true, if_false, hp]
    exact .refl
  | @askPar m d s ty tn o ry rn hpar hg hc hy hn _ _ ho ihy ihn =>
    subst hpar
    refine .step (cs := [_]) (trace := o) (.answer s) ?_
    have h1 := ihy (answering_wf hw hy)
    have h2 := ihn (answering_wf hw hn)
    simp only [hg, Bool.false_eq_true, if_false, partition_ok hw hc hy hn, lift, Prog.bind, if_true]
    rw [← answering_true, ← answering_false]
    have h3 := run_shuffle ho (fun y n => (ret (TreeNode.new s.question y n) : Prog F (TreeNode F L))) h1 h2
    have h4 : Run (Prog.fork (.done ry) (.done rn) (fun y n => (ret (TreeNode.new s.question y n) : Prog F (TreeNode F L)))) []
        (.done (joined s.question ry rn)) := by
      cases ry with
      | error e => exact .one .joinPanicLeft
      | ok y => cases rn with
        | error e => exact .one .joinPanicRight
        | ok n => exact .one .joinOk
    simpa using h3.trans h4
  | @askSeq m d s ty tn y rn hpar hg hc hy hn _ _ ihy ihn =>
    subst hpar
    refine .step (cs := [_]) (trace := ty ++ tn) (.answer s) ?_
    have h1 := ihy (answering_wf hw hy)
    have h2 := ihn (answering_wf hw hn)
    simp only [hg, Bool.false_eq_true, if_false, partition_ok hw hc hy hn, lift, Prog.bind]
    rw [← answering_true, ← answering_false]
    refine (bind_run h1 _).trans ?_
    have h3 := bind_run h2 (fun n => (ret (TreeNode.new s.question y n) : Prog F (TreeNode F L)))
    cases rn with
    | error e => exact h3
    | ok n => exact h3
  | @askFail m d s ty e hpar hg hc hy hn _ ihy =>
    subst hpar
    refine .step (cs := [_]) (trace := ty) (.answer s) ?_
    have h1 := ihy (answering_wf hw hy)
    simp only [hg, Bool.false_eq_true, if_false, partition_ok hw hc hy hn, lift, Prog.bind]
    rw [← answering_true, ← answering_false]
    exact bind_run h1 _

end Verif
