import Verif.Spec.Dialog
import Verif.Lemmas.AskFacts
import Verif.Lemmas.Own
/-! # Programs that call a split finder and a leaf output function -/

namespace Verif

namespace Dialog

variable {F : Type}

/-! ## executions -/

theorem Run.trans {α : Type} {p q u : Dialog F α} {t1 t2 : List (Event F)} (h1 : Run p t1 q) (h2 : Run q t2 u) : Run p (t1 ++ t2) u := by
  induction h1 with
  | refl => exact h2
  | step h _ ih =>
    rw [List.append_assoc]
    exact .step h (ih h2)

theorem Run.one {α : Type} {p q : Dialog F α} {es : List (Event F)} (h : Step p es q) : Run p es q := by
  simpa using Run.step h .refl

theorem run_done {α : Type} {r : R α} {tr : List (Event F)} {u : Dialog F α} (h : Run (.done r) tr u) : tr = [] ∧ u = .done r := by
  cases h with
  | refl => exact ⟨rfl, rfl⟩
  | step h _ => cases h

theorem run_split {α : Type} {d : DataSet F} {t : Nat} {k : BestSplitResult F → Dialog F α} {tr : List (Event F)} {r : R α}
    (h : Run (.split d t k) tr (.done r)) : (∃ s tr', tr = .split d t (.ok s) :: tr' ∧ Run (k s) tr' (.done r)) ∨
      (∃ e, tr = [.split d t (.error e)] ∧ r = .error e) := by
  cases h with
  | step h h' =>
    cases h with
    | split s => exact .inl ⟨s, _, rfl, h'⟩
    | splitPanic e =>
      obtain ⟨rfl, h⟩ := run_done h'
      cases h
      exact .inr ⟨e, rfl, rfl⟩

theorem run_leaf {α : Type} {d : DataSet F} {k : List F → Dialog F α} {tr : List (Event F)} {r : R α}
    (h : Run (.leaf d k) tr (.done r)) : (∃ o tr', tr = .leaf d (.ok o) :: tr' ∧ Run (k o) tr' (.done r)) ∨
      (∃ e, tr = [.leaf d (.error e)] ∧ r = .error e) := by
  cases h with
  | step h h' =>
    cases h with
    | leaf o => exact .inl ⟨o, _, rfl, h'⟩
    | leafPanic e =>
      obtain ⟨rfl, h⟩ := run_done h'
      cases h
      exact .inr ⟨e, rfl, rfl⟩

theorem step_bind {α β : Type} {p : Dialog F α} {k : α → Dialog F β} {es : List (Event F)} {u : Dialog F β} (hnd : ∀ r, p ≠ .done r)
    (h : Step (bind p k) es u) : ∃ p', Step p es p' ∧ u = bind p' k := by
  cases p with
  | done r => exact absurd rfl (hnd r)
  | split d t k' =>
    simp only [bind] at h
    cases h with
    | split s => exact ⟨_, .split s, rfl⟩
    | splitPanic e => exact ⟨_, .splitPanic e, rfl⟩
  | leaf d k' =>
    simp only [bind] at h
    cases h with
    | leaf s => exact ⟨_, .leaf s, rfl⟩
    | leafPanic e => exact ⟨_, .leafPanic e, rfl⟩
  | fork l r k' =>
    simp only [bind] at h
    cases h with
    | left h => exact ⟨_, .left h, rfl⟩
    | right h => exact ⟨_, .right h, rfl⟩
    | joinOk => exact ⟨_, .joinOk, rfl⟩
    | joinPanicLeft => exact ⟨_, .joinPanicLeft, rfl⟩
    | joinPanicRight => exact ⟨_, .joinPanicRight, rfl⟩

theorem bind_step {α β : Type} {p p' : Dialog F α} {es : List (Event F)} (h : Step p es p') (k : α → Dialog F β) :
    Step (bind p k) es (bind p' k) := by
  cases h with
  | split s => exact .split s
  | splitPanic e => exact .splitPanic e
  | leaf s => exact .leaf s
  | leafPanic e => exact .leafPanic e
  | left h => exact .left h
  | right h => exact .right h
  | joinOk => exact .joinOk
  | joinPanicLeft => exact .joinPanicLeft
  | joinPanicRight => exact .joinPanicRight

theorem bind_run {α β : Type} {p p' : Dialog F α} {tr : List (Event F)} (h : Run p tr p') (k : α → Dialog F β) :
    Run (bind p k) tr (bind p' k) := by
  induction h with
  | refl => exact .refl
  | step h _ ih => exact .step (bind_step h k) ih

theorem run_bind {α β : Type} {p : Dialog F α} {k : α → Dialog F β} {tr : List (Event F)} {r : R β} (h : Run (bind p k) tr (.done r)) :
    (∃ t1 t2 a, tr = t1 ++ t2 ∧ Run p t1 (.done (.ok a)) ∧ Run (k a) t2 (.done r)) ∨
      (∃ e, r = .error e ∧ Run p tr (.done (.error e))) := by
  generalize hx : bind p k = x at h
  generalize hu : Dialog.done r = u at h
  induction h generalizing p with
  | refl =>
    subst hu
    cases p with
    | done r' =>
      cases r' with
      | ok a => exact .inl ⟨[], [], a, rfl, .refl, by rw [show k a = Dialog.done r from hx]; exact .refl⟩
      | error e =>
        cases hx
        exact .inr ⟨e, rfl, .refl⟩
    | split => cases hx
    | leaf => cases hx
    | fork => cases hx
  | @step x q u es trace hs hr ih =>
    subst hu
    subst hx
    by_cases hd : ∃ r', p = .done r'
    · obtain ⟨r', rfl⟩ := hd
      cases r' with
      | ok a => exact .inl ⟨[], es ++ trace, a, rfl, .refl, .step hs hr⟩
      | error e => cases hs
    · obtain ⟨p', h1, rfl⟩ := step_bind (fun r' hr' => hd ⟨r', hr'⟩) hs
      rcases ih rfl rfl with ⟨t1, t2, a, rfl, h2, h3⟩ | ⟨e, h2, h3⟩
      · exact .inl ⟨es ++ t1, t2, a, by simp, .step h1 h2, h3⟩
      · exact .inr ⟨e, h2, .step h1 h3⟩

theorem run_fork {α β γ : Type} {l : Dialog F β} {r : Dialog F γ} {k : β → γ → Dialog F α} {tr : List (Event F)} {res : R α}
    (h : Run (.fork l r k) tr (.done res)) : ∃ tl tr' ra rb o t2, Run l tl (.done ra) ∧ Run r tr' (.done rb) ∧ Shuffle tl tr' o ∧
      tr = o ++ t2 ∧ ((∃ a b, ra = .ok a ∧ rb = .ok b ∧ Run (k a b) t2 (.done res)) ∨
        (t2 = [] ∧ ∃ e, res = .error e ∧ (ra = .error e ∨ ∃ a, ra = .ok a ∧ rb = .error e))) := by
  generalize hx : Dialog.fork l r k = x at h
  generalize hu : Dialog.done res = u at h
  induction h generalizing l r with
  | refl => subst hu; cases hx
  | @step x q u es trace hs hr ih =>
    subst hu
    subst hx
    cases hs with
    | left h =>
      obtain ⟨tl, tr', ra, rb, o, t2, h1, h2, h3, rfl, h5⟩ := ih rfl rfl
      exact ⟨es ++ tl, tr', ra, rb, es ++ o, t2, .step h h1, h2, h3.append_left es, by simp, h5⟩
    | right h =>
      obtain ⟨tl, tr', ra, rb, o, t2, h1, h2, h3, rfl, h5⟩ := ih rfl rfl
      exact ⟨tl, es ++ tr', ra, rb, es ++ o, t2, h1, .step h h2, h3.append_right es, by simp, h5⟩
    | joinOk => exact ⟨[], [], _, _, [], trace, .refl, .refl, .nil, rfl, .inl ⟨_, _, rfl, rfl, hr⟩⟩
    | joinPanicLeft =>
      obtain ⟨rfl, h⟩ := run_done hr
      cases h
      exact ⟨[], [], _, _, [], [], .refl, .refl, .nil, rfl, .inr ⟨rfl, _, rfl, .inl rfl⟩⟩
    | joinPanicRight =>
      obtain ⟨rfl, h⟩ := run_done hr
      cases h
      exact ⟨[], [], _, _, [], [], .refl, .refl, .nil, rfl, .inr ⟨rfl, _, rfl, .inr ⟨_, rfl, rfl⟩⟩⟩

theorem fork_left {α β γ : Type} {l l' : Dialog F β} {tl : List (Event F)} (h : Run l tl l') (r : Dialog F γ) (k : β → γ → Dialog F α) :
    Run (.fork l r k) tl (.fork l' r k) := by
  induction h with
  | refl => exact .refl
  | step h _ ih => exact .step (.left h) ih

theorem fork_right {α β γ : Type} {r r' : Dialog F γ} {tr : List (Event F)} (h : Run r tr r') (l : Dialog F β) (k : β → γ → Dialog F α) :
    Run (.fork l r k) tr (.fork l r' k) := by
  induction h with
  | refl => exact .refl
  | step h _ ih => exact .step (.right h) ih

/-- a step makes at most one call -/
theorem step_calls {α : Type} {p q : Dialog F α} {es : List (Event F)} (h : Step p es q) : es = [] ∨ ∃ e, es = [e] := by
  induction h with
  | split s => exact .inr ⟨_, rfl⟩
  | splitPanic e => exact .inr ⟨_, rfl⟩
  | leaf s => exact .inr ⟨_, rfl⟩
  | leafPanic e => exact .inr ⟨_, rfl⟩
  | left _ ih => exact ih
  | right _ ih => exact ih
  | joinOk => exact .inl rfl
  | joinPanicLeft => exact .inl rfl
  | joinPanicRight => exact .inl rfl

/-- every execution up to and including the next call -/
theorem run_cons {α : Type} {p u : Dialog F α} {c : Event F} {tr : List (Event F)} (h : Run p (c :: tr) u) :
    ∃ q, Run p [c] q ∧ Run q tr u := by
  generalize hx : c :: tr = x at h
  induction h with
  | refl => cases hx
  | @step p q u es trace hs hr ih =>
    rcases step_calls hs with rfl | ⟨c', rfl⟩
    · obtain ⟨q', h1, h2⟩ := ih hx
      exact ⟨q', .step hs h1, h2⟩
    · simp only [List.singleton_append, List.cons.injEq] at hx
      obtain ⟨rfl, rfl⟩ := hx
      exact ⟨q, .one hs, hr⟩

theorem run_shuffle {α β γ : Type} {tl tr o : List (Event F)} (hs : Shuffle tl tr o) : ∀ {l l' : Dialog F β} {r r' : Dialog F γ}
    (k : β → γ → Dialog F α), Run l tl l' → Run r tr r' → Run (.fork l r k) o (.fork l' r' k) := by
  induction hs with
  | nil =>
    intro l l' r r' k h1 h2
    simpa using (fork_left h1 r k).trans (fork_right h2 l' k)
  | @left x a b o _ ih =>
    intro l l' r r' k h1 h2
    obtain ⟨q, h3, h4⟩ := run_cons h1
    exact (fork_left h3 r k).trans (ih k h4 h2)
  | @right x a b o _ ih =>
    intro l l' r r' k h1 h2
    obtain ⟨q, h3, h4⟩ := run_cons h2
    exact (fork_right h3 l k).trans (ih k h1 h4)

/-! ## every execution comes to an end -/

/-- every execution from this program is finite -/
abbrev Terminates {α : Type} (p : Dialog F α) : Prop := Acc (fun q p : Dialog F α => ∃ es, Step p es q) p

theorem terminates_done {α : Type} (r : R α) : Terminates (F := F) (.done r) :=
  Acc.intro _ (fun _ h => by obtain ⟨_, h⟩ := h; cases h)

theorem terminates_fork {α β γ : Type} {l : Dialog F β} {r : Dialog F γ} {k : β → γ → Dialog F α} (hl : Terminates l)
    (hr : Terminates r) (hk : ∀ a b, Terminates (k a b)) : Terminates (.fork l r k) := by
  induction hl generalizing r with
  | intro l _ ihl =>
    induction hr with
    | intro r hr' ihr =>
      refine Acc.intro _ (fun u hu => ?_)
      obtain ⟨es, hu⟩ := hu
      cases hu with
      | left h => exact ihl _ ⟨_, h⟩ (Acc.intro _ hr')
      | right h => exact ihr _ ⟨_, h⟩
      | joinOk => exact hk _ _
      | joinPanicLeft => exact terminates_done _
      | joinPanicRight => exact terminates_done _

theorem terminates {α : Type} (p : Dialog F α) : Terminates p := by
  induction p with
  | done r => exact terminates_done r
  | split d t k ih =>
    refine Acc.intro _ (fun u hu => ?_)
    obtain ⟨es, hu⟩ := hu
    cases hu with
    | split s => exact ih s
    | splitPanic e => exact terminates_done _
  | leaf d k ih =>
    refine Acc.intro _ (fun u hu => ?_)
    obtain ⟨es, hu⟩ := hu
    cases hu with
    | leaf s => exact ih s
    | leafPanic e => exact terminates_done _
  | fork l r k ihl ihr ihk => exact terminates_fork ihl ihr ihk

theorem no_infinite {α : Type} (p : Dialog F α) :
    ¬ ∃ f : Nat → Dialog F α, f 0 = p ∧ ∀ n, ∃ es, Step (f n) es (f (n + 1)) := by
  have key : ∀ p : Dialog F α, Terminates p → ∀ f : Nat → Dialog F α, ∀ i, f i = p → (∀ n, ∃ es, Step (f n) es (f (n + 1))) → False := by
    intro p hp
    induction hp with
    | intro p _ ih =>
      intro f i hi hf
      exact ih (f (i + 1)) (by rw [← hi]; exact hf i) f (i + 1) rfl hf
  rintro ⟨f, h0, hf⟩
  exact key p (terminates p) f 0 h0 hf

/-- one call is answered by the two functions after the calls `h` -/
def Answer (find : List (Event F) → DataSet F → Nat → R (BestSplitResult F)) (own : List (Event F) → DataSet F → R (List F))
    (h : List (Event F)) (event : Event F) : Prop :=
  match event with
  | .split data targets answer => answer = find h data targets
  | .leaf data answer => answer = own h data

/-- the calls are answered by the two functions after the calls `h` -/
def AnsweredFrom (find : List (Event F) → DataSet F → Nat → R (BestSplitResult F)) (own : List (Event F) → DataSet F → R (List F))
    (h : List (Event F)) (trace : List (Event F)) : Prop :=
  ∀ before event after, trace = before ++ event :: after → Answer find own (h ++ before) event

variable {find : List (Event F) → DataSet F → Nat → R (BestSplitResult F)} {own : List (Event F) → DataSet F → R (List F)}

theorem answeredFrom_nil (h : List (Event F)) : AnsweredFrom find own h [] := by
  intro before call after h0
  simp at h0

theorem answeredFrom_cons {h : List (Event F)} {c : Event F} {tr : List (Event F)} :
    AnsweredFrom find own h (c :: tr) ↔ Answer find own h c ∧ AnsweredFrom find own (h ++ [c]) tr := by
  constructor
  · intro h0
    refine ⟨by simpa using h0 [] c tr rfl, ?_⟩
    intro before call after h1
    simpa using h0 (c :: before) call after (by rw [h1]; rfl)
  · rintro ⟨h1, h2⟩ before call after h3
    cases before with
    | nil =>
      simp only [List.nil_append, List.cons.injEq] at h3
      obtain ⟨rfl, rfl⟩ := h3
      simpa using h1
    | cons b before =>
      simp only [List.cons_append, List.cons.injEq] at h3
      obtain ⟨rfl, rfl⟩ := h3
      simpa using h2 before call after rfl

theorem answeredFrom_append {h t1 t2 : List (Event F)} :
    AnsweredFrom find own h (t1 ++ t2) ↔ AnsweredFrom find own h t1 ∧ AnsweredFrom find own (h ++ t1) t2 := by
  induction t1 generalizing h with
  | nil => simp [answeredFrom_nil]
  | cons c t1 ih =>
    rw [List.cons_append, answeredFrom_cons, answeredFrom_cons, ih]
    simp [and_assoc]

theorem answeredBy_iff {trace : List (Event F)} : AnsweredByBoth find own trace ↔ AnsweredFrom find own [] trace := Iff.rfl

theorem progress {α : Type} (p : Dialog F α) (find : List (Event F) → DataSet F → Nat → R (BestSplitResult F))
    (own : List (Event F) → DataSet F → R (List F)) (h : List (Event F)) :
    (∃ r, p = .done r) ∨ ∃ es q, Step p es q ∧ AnsweredFrom find own h es := by
  induction p with
  | done r => exact .inl ⟨r, rfl⟩
  | split d t k _ =>
    right
    cases hg : find h d t with
    | ok s => exact ⟨_, _, .split s, by rw [answeredFrom_cons]; exact ⟨hg.symm, answeredFrom_nil _⟩⟩
    | error e => exact ⟨_, _, .splitPanic e, by rw [answeredFrom_cons]; exact ⟨hg.symm, answeredFrom_nil _⟩⟩
  | leaf d k _ =>
    right
    cases hg : own h d with
    | ok s => exact ⟨_, _, .leaf s, by rw [answeredFrom_cons]; exact ⟨hg.symm, answeredFrom_nil _⟩⟩
    | error e => exact ⟨_, _, .leafPanic e, by rw [answeredFrom_cons]; exact ⟨hg.symm, answeredFrom_nil _⟩⟩
  | fork l r k ihl ihr _ =>
    right
    rcases ihl with ⟨a, rfl⟩ | ⟨es, l', hl, ha⟩
    · rcases ihr with ⟨b, rfl⟩ | ⟨es, r', hr, ha⟩
      · cases a with
        | error e => exact ⟨_, _, .joinPanicLeft, answeredFrom_nil _⟩
        | ok a =>
          cases b with
          | error e => exact ⟨_, _, .joinPanicRight, answeredFrom_nil _⟩
          | ok b => exact ⟨_, _, .joinOk, answeredFrom_nil _⟩
      · exact ⟨_, _, .right hr, ha⟩
    · exact ⟨_, _, .left hl, ha⟩

/-- every program can be run to its end -/
theorem run_to_end {α : Type} (p : Dialog F α) (find : List (Event F) → DataSet F → Nat → R (BestSplitResult F))
    (own : List (Event F) → DataSet F → R (List F)) :
    ∀ h : List (Event F), ∃ tr r, Run p tr (.done r) ∧ AnsweredFrom find own h tr := by
  induction terminates p with
  | intro p _ ih =>
    intro h
    rcases progress p find own h with ⟨r, rfl⟩ | ⟨es, q, hs, ha⟩
    · exact ⟨[], r, .refl, answeredFrom_nil _⟩
    · obtain ⟨tr, r, h1, h2⟩ := ih q ⟨es, hs⟩ (h ++ es)
      exact ⟨es ++ tr, r, .step hs h1, answeredFrom_append.mpr ⟨ha, h2⟩⟩

/-! ## without threads the answers decide everything -/

/-- no `join` can be reached -/
inductive NoFork : {α : Type} → Dialog F α → Prop where
  | done {α : Type} {r : R α} : NoFork (.done r)
  | split {α : Type} {d : DataSet F} {t : Nat} {k : BestSplitResult F → Dialog F α} : (∀ s, NoFork (k s)) → NoFork (.split d t k)
  | leaf {α : Type} {d : DataSet F} {k : List F → Dialog F α} : (∀ s, NoFork (k s)) → NoFork (.leaf d k)

theorem noFork_bind {α β : Type} {p : Dialog F α} {k : α → Dialog F β} (hp : NoFork p) (hk : ∀ a, NoFork (k a)) : NoFork (bind p k) := by
  induction hp with
  | @done r => cases r with
    | ok a => exact hk a
    | error e => exact .done
  | split _ ih => exact .split (fun s => ih s)
  | leaf _ ih => exact .leaf (fun s => ih s)

theorem noFork_unique {α : Type} {p : Dialog F α} (hp : NoFork p) : ∀ {h tr tr' : List (Event F)} {r r' : R α},
    Run p tr (.done r) → AnsweredFrom find own h tr → Run p tr' (.done r') → AnsweredFrom find own h tr' → tr = tr' ∧ r = r' := by
  induction hp with
  | done =>
    intro h tr tr' r r' h1 _ h2 _
    obtain ⟨rfl, h3⟩ := run_done h1
    obtain ⟨rfl, h4⟩ := run_done h2
    cases h3
    cases h4
    exact ⟨rfl, rfl⟩
  | split _ ih =>
    intro h tr tr' r r' h1 a1 h2 a2
    rcases run_split h1 with ⟨s, t1, rfl, b1⟩ | ⟨e, rfl, rfl⟩ <;> rcases run_split h2 with ⟨s', t2, rfl, b2⟩ | ⟨e', rfl, rfl⟩
    · rw [answeredFrom_cons] at a1 a2
      have : Except.ok s = Except.ok s' := a1.1.trans a2.1.symm
      cases this
      obtain ⟨rfl, rfl⟩ := ih s b1 a1.2 b2 a2.2
      exact ⟨rfl, rfl⟩
    · rw [answeredFrom_cons] at a1 a2
      have : Except.ok s = Except.error e' := a1.1.trans a2.1.symm
      cases this
    · rw [answeredFrom_cons] at a1 a2
      have : Except.error e = Except.ok s' := a1.1.trans a2.1.symm
      cases this
    · rw [answeredFrom_cons] at a1 a2
      have : (Except.error e : R (BestSplitResult F)) = Except.error e' := a1.1.trans a2.1.symm
      cases this
      exact ⟨rfl, rfl⟩
  | leaf _ ih =>
    intro h tr tr' r r' h1 a1 h2 a2
    rcases run_leaf h1 with ⟨s, t1, rfl, b1⟩ | ⟨e, rfl, rfl⟩ <;> rcases run_leaf h2 with ⟨s', t2, rfl, b2⟩ | ⟨e', rfl, rfl⟩
    · rw [answeredFrom_cons] at a1 a2
      have : Except.ok s = Except.ok s' := a1.1.trans a2.1.symm
      cases this
      obtain ⟨rfl, rfl⟩ := ih s b1 a1.2 b2 a2.2
      exact ⟨rfl, rfl⟩
    · rw [answeredFrom_cons] at a1 a2
      have : Except.ok s = Except.error e' := a1.1.trans a2.1.symm
      cases this
    · rw [answeredFrom_cons] at a1 a2
      have : Except.error e = Except.ok s' := a1.1.trans a2.1.symm
      cases this
    · rw [answeredFrom_cons] at a1 a2
      have : (Except.error e : R (List F)) = Except.error e' := a1.1.trans a2.1.symm
      cases this
      exact ⟨rfl, rfl⟩

/-! ## functions without memory -/

/-- the result with the answers of two functions -/
def eval (find : SplitFinder F) (own : LeafOutputCalculator F) : {α : Type} → Dialog F α → R α
  | _, .done r => r
  | _, .split d t k => do
    let s ← find.findBestSplit d t
    eval find own (k s)
  | _, .leaf d k => do
    let o ← own.calculate d
    eval find own (k o)
  | _, .fork l r k => do
    let a ← eval find own l
    let b ← eval find own r
    eval find own (k a b)

theorem eval_bind (find : SplitFinder F) (own : LeafOutputCalculator F) {α β : Type} (p : Dialog F α) (k : α → Dialog F β) :
    eval find own (bind p k) = (eval find own p >>= fun a => eval find own (k a)) := by
  induction p with
  | done r => cases r <;> rfl
  | split d t k' ih =>
    simp only [bind, eval, bind_assoc]
    congr 1; funext s
    exact ih s k
  | leaf d k' ih =>
    simp only [bind, eval, bind_assoc]
    congr 1; funext s
    exact ih s k
  | fork l r k' _ _ ih =>
    simp only [bind, eval, bind_assoc]
    congr 1; funext a; congr 1; funext b
    exact ih a b k

theorem step_eval (find : SplitFinder F) (own : LeafOutputCalculator F) {α : Type} {p q : Dialog F α} {es : List (Event F)} (h : Step p es q)
    (ha : AnsweredByFunctions find own es) : eval find own q = eval find own p := by
  induction h with
  | split s =>
    have := ha _ (List.mem_singleton.mpr rfl)
    simp only at this
    simp only [eval, ← this, R.ok_bind]
  | splitPanic e =>
    have := ha _ (List.mem_singleton.mpr rfl)
    simp only at this
    simp only [eval, ← this]
    rfl
  | leaf s =>
    have := ha _ (List.mem_singleton.mpr rfl)
    simp only at this
    simp only [eval, ← this, R.ok_bind]
  | leafPanic e =>
    have := ha _ (List.mem_singleton.mpr rfl)
    simp only at this
    simp only [eval, ← this]
    rfl
  | left _ ih => simp only [eval, ih ha]
  | right _ ih => simp only [eval, ih ha]
  | joinOk => rfl
  | joinPanicLeft => rfl
  | joinPanicRight => rfl

theorem run_eval (find : SplitFinder F) (own : LeafOutputCalculator F) {α : Type} {p q : Dialog F α} {tr : List (Event F)} (h : Run p tr q)
    (ha : AnsweredByFunctions find own tr) : eval find own q = eval find own p := by
  induction h with
  | refl => rfl
  | step h _ ih =>
    rw [ih (fun c hc => ha c (List.mem_append_right _ hc)), step_eval find own h (fun c hc => ha c (List.mem_append_left _ hc))]

end Dialog

end Verif
