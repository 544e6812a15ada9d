import Verif.Spec.Ask
import Verif.Lemmas.Custom
/-! # Programs that call a split finder -/

namespace Verif

/-! ## interleavings -/

/-- `o` is an interleaving of `a` and `b` -/
inductive Shuffle {α : Type} : List α → List α → List α → Prop where
  | nil : Shuffle [] [] []
  | left {x : α} {a b o : List α} : Shuffle a b o → Shuffle (x :: a) b (x :: o)
  | right {x : α} {a b o : List α} : Shuffle a b o → Shuffle a (x :: b) (x :: o)

namespace Shuffle

theorem nil_left {α : Type} (b : List α) : Shuffle [] b b := by
  induction b with
  | nil => exact .nil
  | cons x b ih => exact .right ih

theorem nil_right {α : Type} (a : List α) : Shuffle a [] a := by
  induction a with
  | nil => exact .nil
  | cons x a ih => exact .left ih

theorem append_left {α : Type} {a b o : List α} (e : List α) (h : Shuffle a b o) : Shuffle (e ++ a) b (e ++ o) := by
  induction e with
  | nil => exact h
  | cons x e ih => exact .left ih

theorem append_right {α : Type} {a b o : List α} (e : List α) (h : Shuffle a b o) : Shuffle a (e ++ b) (e ++ o) := by
  induction e with
  | nil => exact h
  | cons x e ih => exact .right ih

theorem perm {α : Type} {a b o : List α} (h : Shuffle a b o) : o.Perm (a ++ b) := by
  induction h with
  | nil => exact .refl _
  | left _ ih => exact .cons _ ih
  | right _ ih => exact (List.Perm.cons _ ih).trans List.perm_middle.symm

theorem sublist_left {α : Type} {a b o : List α} (h : Shuffle a b o) : a.Sublist o := by
  induction h with
  | nil => exact .refl _
  | left _ ih => exact ih.cons_cons _
  | right _ ih => exact ih.cons _

theorem sublist_right {α : Type} {a b o : List α} (h : Shuffle a b o) : b.Sublist o := by
  induction h with
  | nil => exact .refl _
  | left _ ih => exact ih.cons _
  | right _ ih => exact ih.cons_cons _

theorem forall₂ {α β : Type} {R : α → β → Prop} {a b o : List β} (h : Shuffle a b o) : ∀ {a' b' : List α},
    List.Forall₂ R a' a → List.Forall₂ R b' b → ∃ o', Shuffle a' b' o' ∧ List.Forall₂ R o' o := by
  induction h with
  | nil => intro a' b' h1 h2; cases h1; cases h2; exact ⟨[], .nil, .nil⟩
  | left _ ih =>
    intro a' b' h1 h2
    cases h1 with
    | cons hx h1 =>
      obtain ⟨o', h3, h4⟩ := ih h1 h2
      exact ⟨_, .left h3, .cons hx h4⟩
  | right _ ih =>
    intro a' b' h1 h2
    cases h2 with
    | cons hx h2 =>
      obtain ⟨o', h3, h4⟩ := ih h1 h2
      exact ⟨_, .right h3, .cons hx h4⟩

theorem forall₂' {α β : Type} {R : α → β → Prop} {a b o : List α} (h : Shuffle a b o) : ∀ {a' b' : List β},
    List.Forall₂ R a a' → List.Forall₂ R b b' → ∃ o', Shuffle a' b' o' ∧ List.Forall₂ R o o' := by
  induction h with
  | nil => intro a' b' h1 h2; cases h1; cases h2; exact ⟨[], .nil, .nil⟩
  | left _ ih =>
    intro a' b' h1 h2
    cases h1 with
    | cons hx h1 =>
      obtain ⟨o', h3, h4⟩ := ih h1 h2
      exact ⟨_, .left h3, .cons hx h4⟩
  | right _ ih =>
    intro a' b' h1 h2
    cases h2 with
    | cons hx h2 =>
      obtain ⟨o', h3, h4⟩ := ih h1 h2
      exact ⟨_, .right h3, .cons hx h4⟩

end Shuffle

namespace Prog

variable {F : Type}

/-! ## executions -/

theorem Run.trans {α : Type} {p q u : Prog F α} {t1 t2 : List (Call F)} (h1 : Run p t1 q) (h2 : Run q t2 u) : Run p (t1 ++ t2) u := by
  induction h1 with
  | refl => exact h2
  | step h _ ih =>
    rw [List.append_assoc]
    exact .step h (ih h2)

theorem Run.one {α : Type} {p q : Prog F α} {cs : List (Call F)} (h : Step p cs q) : Run p cs q := by
  simpa using Run.step h .refl

theorem run_done {α : Type} {r : R α} {tr : List (Call F)} {u : Prog F α} (h : Run (.done r) tr u) : tr = [] ∧ u = .done r := by
  cases h with
  | refl => exact ⟨rfl, rfl⟩
  | step h _ => cases h

theorem run_ask {α : Type} {d : DataSet F} {t : Nat} {k : BestSplitResult F → Prog F α} {tr : List (Call F)} {r : R α}
    (h : Run (.ask d t k) tr (.done r)) : (∃ s tr', tr = ⟨d, t, .ok s⟩ :: tr' ∧ Run (k s) tr' (.done r)) ∨
      (∃ e, tr = [⟨d, t, .error e⟩] ∧ r = .error e) := by
  cases h with
  | step h h' =>
    cases h with
    | answer s => exact .inl ⟨s, _, rfl, h'⟩
    | panic e =>
      obtain ⟨rfl, h⟩ := run_done h'
      cases h
      exact .inr ⟨e, rfl, rfl⟩

theorem step_bind {α β : Type} {p : Prog F α} {k : α → Prog F β} {cs : List (Call F)} {u : Prog F β} (hnd : ∀ r, p ≠ .done r)
    (h : Step (bind p k) cs u) : ∃ p', Step p cs p' ∧ u = bind p' k := by
  cases p with
  | done r => exact absurd rfl (hnd r)
  | ask d t k' =>
    simp only [bind] at h
    cases h with
    | answer s => exact ⟨_, .answer s, rfl⟩
    | panic e => exact ⟨_, .panic e, rfl⟩
  | fork l r k' =>
    simp only [bind] at h
    cases h with
    | left h => exact ⟨_, .left h, rfl⟩
    | right h => exact ⟨_, .right h, rfl⟩
    | joinOk => exact ⟨_, .joinOk, rfl⟩
    | joinPanicLeft => exact ⟨_, .joinPanicLeft, rfl⟩
    | joinPanicRight => exact ⟨_, .joinPanicRight, rfl⟩

theorem bind_step {α β : Type} {p p' : Prog F α} {cs : List (Call F)} (h : Step p cs p') (k : α → Prog F β) :
    Step (bind p k) cs (bind p' k) := by
  cases h with
  | answer s => exact .answer s
  | panic e => exact .panic e
  | left h => exact .left h
  | right h => exact .right h
  | joinOk => exact .joinOk
  | joinPanicLeft => exact .joinPanicLeft
  | joinPanicRight => exact .joinPanicRight

theorem bind_run {α β : Type} {p p' : Prog F α} {tr : List (Call F)} (h : Run p tr p') (k : α → Prog F β) :
    Run (bind p k) tr (bind p' k) := by
  induction h with
  | refl => exact .refl
  | step h _ ih => exact .step (bind_step h k) ih

theorem run_bind {α β : Type} {p : Prog F α} {k : α → Prog F β} {tr : List (Call F)} {r : R β} (h : Run (bind p k) tr (.done r)) :
    (∃ t1 t2 a, tr = t1 ++ t2 ∧ Run p t1 (.done (.ok a)) ∧ Run (k a) t2 (.done r)) ∨
      (∃ e, r = .error e ∧ Run p tr (.done (.error e))) := by
  generalize hx : bind p k = x at h
  generalize hu : Prog.done r = u at h
  induction h generalizing p with
  | refl =>
    subst hu
    cases p with
    | done r' =>
      cases r' with
      | ok a => exact .inl ⟨[], [], a, rfl, .refl, by rw [show k a = Prog.done r from hx]; exact .refl⟩
      | error e =>
        cases hx
        exact .inr ⟨e, rfl, .refl⟩
    | ask => cases hx
    | fork => cases hx
  | @step x q u cs trace hs hr ih =>
    subst hu
    subst hx
    by_cases hd : ∃ r', p = .done r'
    · obtain ⟨r', rfl⟩ := hd
      cases r' with
      | ok a => exact .inl ⟨[], cs ++ trace, a, rfl, .refl, .step hs hr⟩
      | error e => cases hs
    · obtain ⟨p', h1, rfl⟩ := step_bind (fun r' hr' => hd ⟨r', hr'⟩) hs
      rcases ih rfl rfl with ⟨t1, t2, a, rfl, h2, h3⟩ | ⟨e, h2, h3⟩
      · exact .inl ⟨cs ++ t1, t2, a, by simp, .step h1 h2, h3⟩
      · exact .inr ⟨e, h2, .step h1 h3⟩

theorem run_fork {α β γ : Type} {l : Prog F β} {r : Prog F γ} {k : β → γ → Prog F α} {tr : List (Call F)} {res : R α}
    (h : Run (.fork l r k) tr (.done res)) : ∃ tl tr' ra rb o t2, Run l tl (.done ra) ∧ Run r tr' (.done rb) ∧ Shuffle tl tr' o ∧
      tr = o ++ t2 ∧ ((∃ a b, ra = .ok a ∧ rb = .ok b ∧ Run (k a b) t2 (.done res)) ∨
        (t2 = [] ∧ ∃ e, res = .error e ∧ (ra = .error e ∨ ∃ a, ra = .ok a ∧ rb = .error e))) := by
  generalize hx : Prog.fork l r k = x at h
  generalize hu : Prog.done res = u at h
  induction h generalizing l r with
  | refl => subst hu; cases hx
  | @step x q u cs trace hs hr ih =>
    subst hu
    subst hx
    cases hs with
    | left h =>
      obtain ⟨tl, tr', ra, rb, o, t2, h1, h2, h3, rfl, h5⟩ := ih rfl rfl
      exact ⟨cs ++ tl, tr', ra, rb, cs ++ o, t2, .step h h1, h2, h3.append_left cs, by simp, h5⟩
    | right h =>
      obtain ⟨tl, tr', ra, rb, o, t2, h1, h2, h3, rfl, h5⟩ := ih rfl rfl
      exact ⟨tl, cs ++ tr', ra, rb, cs ++ o, t2, h1, .step h h2, h3.append_right cs, by simp, h5⟩
    | joinOk => exact ⟨[], [], _, _, [], trace, .refl, .refl, .nil, rfl, .inl ⟨_, _, rfl, rfl, hr⟩⟩
    | joinPanicLeft =>
      obtain ⟨rfl, h⟩ := run_done hr
      cases h
      exact ⟨[], [], _, _, [], [], .refl, .refl, .nil, rfl, .inr ⟨rfl, _, rfl, .inl rfl⟩⟩
    | joinPanicRight =>
      obtain ⟨rfl, h⟩ := run_done hr
      cases h
      exact ⟨[], [], _, _, [], [], .refl, .refl, .nil, rfl, .inr ⟨rfl, _, rfl, .inr ⟨_, rfl, rfl⟩⟩⟩

theorem fork_left {α β γ : Type} {l l' : Prog F β} {tl : List (Call F)} (h : Run l tl l') (r : Prog F γ) (k : β → γ → Prog F α) :
    Run (.fork l r k) tl (.fork l' r k) := by
  induction h with
  | refl => exact .refl
  | step h _ ih => exact .step (.left h) ih

theorem fork_right {α β γ : Type} {r r' : Prog F γ} {tr : List (Call F)} (h : Run r tr r') (l : Prog F β) (k : β → γ → Prog F α) :
    Run (.fork l r k) tr (.fork l r' k) := by
  induction h with
  | refl => exact .refl
  | step h _ ih => exact .step (.right h) ih

/-- a step makes at most one call -/
theorem step_calls {α : Type} {p q : Prog F α} {cs : List (Call F)} (h : Step p cs q) : cs = [] ∨ ∃ c, cs = [c] := by
  induction h with
  | answer s => exact .inr ⟨_, rfl⟩
  | panic e => exact .inr ⟨_, rfl⟩
  | left _ ih => exact ih
  | right _ ih => exact ih
  | joinOk => exact .inl rfl
  | joinPanicLeft => exact .inl rfl
  | joinPanicRight => exact .inl rfl

/-- every execution up to and including the next call -/
theorem run_cons {α : Type} {p u : Prog F α} {c : Call F} {tr : List (Call F)} (h : Run p (c :: tr) u) :
    ∃ q, Run p [c] q ∧ Run q tr u := by
  generalize hx : c :: tr = x at h
  induction h with
  | refl => cases hx
  | @step p q u cs trace hs hr ih =>
    rcases step_calls hs with rfl | ⟨c', rfl⟩
    · obtain ⟨q', h1, h2⟩ := ih hx
      exact ⟨q', .step hs h1, h2⟩
    · simp only [List.singleton_append, List.cons.injEq] at hx
      obtain ⟨rfl, rfl⟩ := hx
      exact ⟨q, .one hs, hr⟩

theorem run_shuffle {α β γ : Type} {tl tr o : List (Call F)} (hs : Shuffle tl tr o) : ∀ {l l' : Prog F β} {r r' : Prog F γ}
    (k : β → γ → Prog F α), Run l tl l' → Run r tr r' → Run (.fork l r k) o (.fork l' r' k) := by
  induction hs with
  | nil =>
    intro l l' r r' k h1 h2
    simpa using (fork_left h1 r k).trans (fork_right h2 l' k)
  | @left x a b o _ ih =>
    intro l l' r r' k h1 h2
    obtain ⟨q, h3, h4⟩ := run_cons h1
    exact (fork_left h3 r k).trans (ih k h4 h2)
  | @right x a b o _ ih =>
    intro l l' r r' k h1 h2
    obtain ⟨q, h3, h4⟩ := run_cons h2
    exact (fork_right h3 l k).trans (ih k h1 h4)

/-! ## every execution comes to an end -/

/-- every execution from this program is finite -/
abbrev Terminates {α : Type} (p : Prog F α) : Prop := Acc (fun q p : Prog F α => ∃ cs, Step p cs q) p

theorem terminates_done {α : Type} (r : R α) : Terminates (F := F) (.done r) :=
  Acc.intro _ (fun _ h => by obtain ⟨_, h⟩ := h; cases h)

theorem terminates_fork {α β γ : Type} {l : Prog F β} {r : Prog F γ} {k : β → γ → Prog F α} (hl : Terminates l)
    (hr : Terminates r) (hk : ∀ a b, Terminates (k a b)) : Terminates (.fork l r k) := by
  induction hl generalizing r with
  | intro l _ ihl =>
    induction hr with
    | intro r hr' ihr =>
      refine Acc.intro _ (fun u hu => ?_)
      obtain ⟨cs, hu⟩ := hu
      cases hu with
      | left h => exact ihl _ ⟨_, h⟩ (Acc.intro _ hr')
      | right h => exact ihr _ ⟨_, h⟩
      | joinOk => exact hk _ _
      | joinPanicLeft => exact terminates_done _
      | joinPanicRight => exact terminates_done _

theorem terminates {α : Type} (p : Prog F α) : Terminates p := by
  induction p with
  | done r => exact terminates_done r
  | ask d t k ih =>
    refine Acc.intro _ (fun u hu => ?_)
    obtain ⟨cs, hu⟩ := hu
    cases hu with
    | answer s => exact ih s
    | panic e => exact terminates_done _
  | fork l r k ihl ihr ihk => exact terminates_fork ihl ihr ihk

theorem no_infinite {α : Type} (p : Prog F α) : ¬ ∃ f : Nat → Prog F α, f 0 = p ∧ ∀ n, ∃ cs, Step (f n) cs (f (n + 1)) := by
  have key : ∀ p : Prog F α, Terminates p → ∀ f : Nat → Prog F α, ∀ i, f i = p → (∀ n, ∃ cs, Step (f n) cs (f (n + 1))) → False := by
    intro p hp
    induction hp with
    | intro p _ ih =>
      intro f i hi hf
      exact ih (f (i + 1)) (by rw [← hi]; exact hf i) f (i + 1) rfl hf
  rintro ⟨f, h0, hf⟩
  exact key p (terminates p) f 0 h0 hf

/-- the calls are answered by `g` after the calls `h` -/
def AnsweredFrom (g : List (Call F) → DataSet F → Nat → R (BestSplitResult F)) (h : List (Call F)) (trace : List (Call F)) : Prop :=
  ∀ before call after, trace = before ++ call :: after → call.answer = g (h ++ before) call.data call.targets

variable {g : List (Call F) → DataSet F → Nat → R (BestSplitResult F)}

theorem answeredFrom_nil (h : List (Call F)) : AnsweredFrom g h [] := by
  intro before call after h0
  simp at h0

theorem answeredFrom_cons {h : List (Call F)} {c : Call F} {tr : List (Call F)} :
    AnsweredFrom g h (c :: tr) ↔ c.answer = g h c.data c.targets ∧ AnsweredFrom g (h ++ [c]) tr := by
  constructor
  · intro h0
    refine ⟨by simpa using h0 [] c tr rfl, ?_⟩
    intro before call after h1
    simpa using h0 (c :: before) call after (by rw [h1]; rfl)
  · rintro ⟨h1, h2⟩ before call after h3
    cases before with
    | nil =>
      simp only [List.nil_append, List.cons.injEq] at h3
      obtain ⟨rfl, rfl⟩ := h3
      simpa using h1
    | cons b before =>
      simp only [List.cons_append, List.cons.injEq] at h3
      obtain ⟨rfl, rfl⟩ := h3
      simpa using h2 before call after rfl

theorem answeredFrom_append {h t1 t2 : List (Call F)} :
    AnsweredFrom g h (t1 ++ t2) ↔ AnsweredFrom g h t1 ∧ AnsweredFrom g (h ++ t1) t2 := by
  induction t1 generalizing h with
  | nil => simp [answeredFrom_nil]
  | cons c t1 ih =>
    rw [List.cons_append, answeredFrom_cons, answeredFrom_cons, ih]
    simp [and_assoc]

theorem answeredBy_iff {trace : List (Call F)} : AnsweredBy g trace ↔ AnsweredFrom g [] trace := Iff.rfl

theorem progress {α : Type} (p : Prog F α) (g : List (Call F) → DataSet F → Nat → R (BestSplitResult F)) (h : List (Call F)) :
    (∃ r, p = .done r) ∨ ∃ cs q, Step p cs q ∧ AnsweredFrom g h cs := by
  induction p with
  | done r => exact .inl ⟨r, rfl⟩
  | ask d t k _ =>
    right
    cases hg : g h d t with
    | ok s => exact ⟨_, _, .answer s, by rw [answeredFrom_cons]; exact ⟨hg.symm, answeredFrom_nil _⟩⟩
    | error e => exact ⟨_, _, .panic e, by rw [answeredFrom_cons]; exact ⟨hg.symm, answeredFrom_nil _⟩⟩
  | fork l r k ihl ihr _ =>
    right
    rcases ihl with ⟨a, rfl⟩ | ⟨cs, l', hl, ha⟩
    · rcases ihr with ⟨b, rfl⟩ | ⟨cs, r', hr, ha⟩
      · cases a with
        | error e => exact ⟨_, _, .joinPanicLeft, answeredFrom_nil _⟩
        | ok a =>
          cases b with
          | error e => exact ⟨_, _, .joinPanicRight, answeredFrom_nil _⟩
          | ok b => exact ⟨_, _, .joinOk, answeredFrom_nil _⟩
      · exact ⟨_, _, .right hr, ha⟩
    · exact ⟨_, _, .left hl, ha⟩

/-- every program can be run to its end -/
theorem run_to_end {α : Type} (p : Prog F α) (g : List (Call F) → DataSet F → Nat → R (BestSplitResult F)) :
    ∀ h : List (Call F), ∃ tr r, Run p tr (.done r) ∧ AnsweredFrom g h tr := by
  induction terminates p with
  | intro p _ ih =>
    intro h
    rcases progress p g h with ⟨r, rfl⟩ | ⟨cs, q, hs, ha⟩
    · exact ⟨[], r, .refl, answeredFrom_nil _⟩
    · obtain ⟨tr, r, h1, h2⟩ := ih q ⟨cs, hs⟩ (h ++ cs)
      exact ⟨cs ++ tr, r, .step hs h1, answeredFrom_append.mpr ⟨ha, h2⟩⟩

/-! ## without threads the answers decide everything -/

/-- no `join` can be reached -/
inductive NoFork : {α : Type} → Prog F α → Prop where
  | done {α : Type} {r : R α} : NoFork (.done r)
  | ask {α : Type} {d : DataSet F} {t : Nat} {k : BestSplitResult F → Prog F α} : (∀ s, NoFork (k s)) → NoFork (.ask d t k)

theorem noFork_bind {α β : Type} {p : Prog F α} {k : α → Prog F β} (hp : NoFork p) (hk : ∀ a, NoFork (k a)) : NoFork (bind p k) := by
  induction hp with
  | @done r => cases r with
    | ok a => exact hk a
    | error e => exact .done
  | ask _ ih => exact .ask (fun s => ih s)

theorem noFork_unique {α : Type} {p : Prog F α} (hp : NoFork p) : ∀ {h tr tr' : List (Call F)} {r r' : R α},
    Run p tr (.done r) → AnsweredFrom g h tr → Run p tr' (.done r') → AnsweredFrom g h tr' → tr = tr' ∧ r = r' := by
  induction hp with
  | done =>
    intro h tr tr' r r' h1 _ h2 _
    obtain ⟨rfl, h3⟩ := run_done h1
    obtain ⟨rfl, h4⟩ := run_done h2
    cases h3
    cases h4
    exact ⟨rfl, rfl⟩
  | ask _ ih =>
    intro h tr tr' r r' h1 a1 h2 a2
    rcases run_ask h1 with ⟨s, t1, rfl, b1⟩ | ⟨e, rfl, rfl⟩ <;> rcases run_ask h2 with ⟨s', t2, rfl, b2⟩ | ⟨e', rfl, rfl⟩
    · rw [answeredFrom_cons] at a1 a2
      have : Except.ok s = Except.ok s' := a1.1.trans a2.1.symm
      cases this
      obtain ⟨rfl, rfl⟩ := ih s b1 a1.2 b2 a2.2
      exact ⟨rfl, rfl⟩
    · rw [answeredFrom_cons] at a1 a2
      have : Except.ok s = Except.error e' := a1.1.trans a2.1.symm
      cases this
    · rw [answeredFrom_cons] at a1 a2
      have : Except.error e = Except.ok s' := a1.1.trans a2.1.symm
      cases this
    · rw [answeredFrom_cons] at a1 a2
      have : (Except.error e : R (BestSplitResult F)) = Except.error e' := a1.1.trans a2.1.symm
      cases this
      exact ⟨rfl, rfl⟩

/-! ## a finder that is a function -/

/-- the result with the answers of a function -/
def eval (find : SplitFinder F) : {α : Type} → Prog F α → R α
  | _, .done r => r
  | _, .ask d t k => do
    let s ← find.findBestSplit d t
    eval find (k s)
  | _, .fork l r k => do
    let a ← eval find l
    let b ← eval find r
    eval find (k a b)

theorem eval_bind (find : SplitFinder F) {α β : Type} (p : Prog F α) (k : α → Prog F β) :
    eval find (bind p k) = (eval find p >>= fun a => eval find (k a)) := by
  induction p with
  | done r => cases r <;> rfl
  | ask d t k' ih =>
    simp only [bind, eval, bind_assoc]
    congr 1; funext s
    exact ih s k
  | fork l r k' _ _ ih =>
    simp only [bind, eval, bind_assoc]
    congr 1; funext a; congr 1; funext b
    exact ih a b k

theorem step_eval (find : SplitFinder F) {α : Type} {p q : Prog F α} {cs : List (Call F)} (h : Step p cs q)
    (ha : ∀ c ∈ cs, c.answer = find.findBestSplit c.data c.targets) : eval find q = eval find p := by
  induction h with
  | answer s =>
    have := ha _ (List.mem_singleton.mpr rfl)
    simp only at this
    simp only [eval, ← this, R.ok_bind]
  | panic e =>
    have := ha _ (List.mem_singleton.mpr rfl)
    simp only at this
    simp only [eval, ← this]
    rfl
  | left _ ih => simp only [eval, ih ha]
  | right _ ih => simp only [eval, ih ha]
  | joinOk => rfl
  | joinPanicLeft => rfl
  | joinPanicRight => rfl

theorem run_eval (find : SplitFinder F) {α : Type} {p q : Prog F α} {tr : List (Call F)} (h : Run p tr q)
    (ha : ∀ c ∈ tr, c.answer = find.findBestSplit c.data c.targets) : eval find q = eval find p := by
  induction h with
  | refl => rfl
  | step h _ ih =>
    rw [ih (fun c hc => ha c (List.mem_append_right _ hc)), step_eval find h (fun c hc => ha c (List.mem_append_left _ hc))]

end Prog

end Verif
