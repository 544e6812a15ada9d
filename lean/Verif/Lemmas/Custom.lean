import Verif.Spec.Custom
import Verif.Lemmas.Build
import Verif.Lemmas.TreeFacts
import Verif.Lemmas.Greedy
/-! # The builders with a split finder of the caller -/

namespace Verif

variable {F : Type} [F64 F] {L : Type}

/-- The recursion common to all builders, on the number of levels that remain. -/
def growFuel (find : SplitFinder F) (leafR : DataSet F → R L) (t : Nat) : Nat → DataSet F → R (TreeNode F L)
  | 0, d => do
    let s ← find.findBestSplit d t
    let l ← leafR d
    pure (TreeNode.leafNode s.question l)
  | m + 1, d => do
    let s ← find.findBestSplit d t
    if s.gain ==. F64.zero then
      let l ← leafR d
      pure (TreeNode.leafNode s.question l)
    else
      let p ← partition d s.question
      let left ← growFuel find leafR t m p.2
      let right ← growFuel find leafR t m p.1
      pure (TreeNode.new s.question left right)

theorem growFuel_new (leafR : DataSet F → R L) (t m : Nat) (d : DataSet F) : growFuel .new leafR t m d = buildFuel leafR t m d := by
  induction m generalizing d with
  | zero => rfl
  | succ m ih =>
    simp only [growFuel, buildFuel, ih]
    rfl

theorem buildRegressionTreeWith_fuel (cfg : CustomConfig F) (m : Nat) : ∀ (d : DataSet F) (level : Nat), level + m = cfg.maxLevels →
    buildRegressionTreeWith cfg d level = growFuel cfg.splitFinder regressionLeafR cfg.numberOfClasses m d := by
  induction m with
  | zero =>
    intro d level h
    unfold buildRegressionTreeWith growFuel
    have : (level == cfg.maxLevels) = true := by simp; omega
    simp [this, regressionLeafR]
  | succ m ih =>
    intro d level h
    unfold buildRegressionTreeWith growFuel
    have h1 : (level == cfg.maxLevels) = false := by simp; omega
    have h2 : level < cfg.maxLevels := by omega
    simp only [h1, Bool.or_false, h2, ↓reduceDIte, regressionLeafR, R.pure_eq, R.ok_bind]
    congr 1
    funext s
    split
    · rfl
    · congr 1
      funext p
      rw [ih _ (level + 1) (by omega), ih _ (level + 1) (by omega)]

theorem buildRegressionTreeMTWith_fuel (cfg : CustomConfig F) (m : Nat) : ∀ (d : DataSet F) (level : Nat), level + m = cfg.maxLevels →
    buildRegressionTreeMTWith cfg d level = growFuel cfg.splitFinder regressionLeafR cfg.numberOfClasses m d := by
  induction m with
  | zero =>
    intro d level h
    unfold buildRegressionTreeMTWith growFuel
    have : (level == cfg.maxLevels) = true := by simp; omega
    simp [this, regressionLeafR]
  | succ m ih =>
    intro d level h
    unfold buildRegressionTreeMTWith growFuel
    have h1 : (level == cfg.maxLevels) = false := by simp; omega
    have h2 : level < cfg.maxLevels := by omega
    simp only [h1, Bool.or_false, h2, ↓reduceDIte, regressionLeafR, R.pure_eq, R.ok_bind, join_bind]
    congr 1
    funext s
    split
    · rfl
    · congr 1
      funext p
      rw [ih _ (level + 1) (by omega), ih _ (level + 1) (by omega)]

theorem buildGradBoostTreeWith_fuel (cfg : CustomConfig F) (k : LeafOutputType) (m : Nat) : ∀ (d : DataSet F) (level : Nat), level + m = cfg.maxLevels →
    buildGradBoostTreeWith cfg k d level = growFuel cfg.splitFinder (gradLeafR k) cfg.numberOfClasses m d := by
  induction m with
  | zero =>
    intro d level h
    unfold buildGradBoostTreeWith growFuel
    have : (level == cfg.maxLevels) = true := by simp; omega
    simp only [this, Bool.or_true, if_true, gradLeafR, bind_assoc]
    rfl
  | succ m ih =>
    intro d level h
    unfold buildGradBoostTreeWith growFuel
    have h1 : (level == cfg.maxLevels) = false := by simp; omega
    have h2 : level < cfg.maxLevels := by omega
    simp only [h1, Bool.or_false, h2, ↓reduceDIte, gradLeafR, bind_assoc]
    congr 1
    funext s
    split
    · rfl
    · congr 1
      funext p
      rw [ih _ (level + 1) (by omega), ih _ (level + 1) (by omega)]

theorem buildGradBoostTreeMTWith_fuel (cfg : CustomConfig F) (k : LeafOutputType) (m : Nat) : ∀ (d : DataSet F) (level : Nat), level + m = cfg.maxLevels →
    buildGradBoostTreeMTWith cfg k d level = growFuel cfg.splitFinder (gradLeafR k) cfg.numberOfClasses m d := by
  induction m with
  | zero =>
    intro d level h
    unfold buildGradBoostTreeMTWith growFuel
    have : (level == cfg.maxLevels) = true := by simp; omega
    simp only [this, Bool.or_true, if_true, gradLeafR, bind_assoc]
    rfl
  | succ m ih =>
    intro d level h
    unfold buildGradBoostTreeMTWith growFuel
    have h1 : (level == cfg.maxLevels) = false := by simp; omega
    have h2 : level < cfg.maxLevels := by omega
    simp only [h1, Bool.or_false, h2, ↓reduceDIte, gradLeafR, bind_assoc, join_bind]
    congr 1
    funext s
    split
    · rfl
    · congr 1
      funext p
      rw [ih _ (level + 1) (by omega), ih _ (level + 1) (by omega)]

theorem buildAmgTreeWith_fuel (cfg : CustomConfig F) (k : LeafOutputType) (m : Nat) : ∀ (d : DataSet F) (level : Nat), level + m = cfg.maxLevels →
    buildAmgTreeWith cfg k d level = growFuel cfg.splitFinder (amgLeafR k) cfg.numberOfClasses m d := by
  induction m with
  | zero =>
    intro d level h
    unfold buildAmgTreeWith growFuel
    have : (level == cfg.maxLevels) = true := by simp; omega
    simp only [this, Bool.or_true, if_true, amgLeafR, bind_assoc]
    rfl
  | succ m ih =>
    intro d level h
    unfold buildAmgTreeWith growFuel
    have h1 : (level == cfg.maxLevels) = false := by simp; omega
    have h2 : level < cfg.maxLevels := by omega
    simp only [h1, Bool.or_false, h2, ↓reduceDIte, amgLeafR, bind_assoc]
    congr 1
    funext s
    split
    · rfl
    · congr 1
      funext p
      rw [ih _ (level + 1) (by omega), ih _ (level + 1) (by omega)]

theorem buildAmgTreeMTWith_fuel (cfg : CustomConfig F) (k : LeafOutputType) (m : Nat) : ∀ (d : DataSet F) (level : Nat), level + m = cfg.maxLevels →
    buildAmgTreeMTWith cfg k d level = growFuel cfg.splitFinder (amgLeafR k) cfg.numberOfClasses m d := by
  induction m with
  | zero =>
    intro d level h
    unfold buildAmgTreeMTWith growFuel
    have : (level == cfg.maxLevels) = true := by simp; omega
    simp only [this, Bool.or_true, if_true, amgLeafR, bind_assoc]
    rfl
  | succ m ih =>
    intro d level h
    unfold buildAmgTreeMTWith growFuel
    have h1 : (level == cfg.maxLevels) = false := by simp; omega
    have h2 : level < cfg.maxLevels := by omega
    simp only [h1, Bool.or_false, h2, ↓reduceDIte, amgLeafR, bind_assoc, join_bind]
    congr 1
    funext s
    split
    · rfl
    · congr 1
      funext p
      rw [ih _ (level + 1) (by omega), ih _ (level + 1) (by omega)]

theorem regressionTreeNewWith_eq (d : DataSet F) (cfg : CustomConfig F) :
    regressionTreeNewWith d cfg = growFuel cfg.splitFinder regressionLeafR cfg.numberOfClasses cfg.maxLevels d := by
  cases hm : cfg.useMultiThreading
  · simp only [regressionTreeNewWith, hm, buildRegressionTreeWith_fuel cfg cfg.maxLevels d 0 (by omega)]
  · simp only [regressionTreeNewWith, hm, buildRegressionTreeMTWith_fuel cfg cfg.maxLevels d 0 (by omega)]

theorem gradBoostTreeNewWith_eq (d : DataSet F) (cfg : CustomConfig F) (k : LeafOutputType) :
    gradBoostTreeNewWith d cfg k = growFuel cfg.splitFinder (gradLeafR k) cfg.numberOfClasses cfg.maxLevels d := by
  cases hm : cfg.useMultiThreading
  · simp only [gradBoostTreeNewWith, hm, buildGradBoostTreeWith_fuel cfg k cfg.maxLevels d 0 (by omega)]
  · simp only [gradBoostTreeNewWith, hm, buildGradBoostTreeMTWith_fuel cfg k cfg.maxLevels d 0 (by omega)]

theorem amgTreeNewWith_eq (d : DataSet F) (cfg : CustomConfig F) (k : LeafOutputType) :
    amgTreeNewWith d cfg k = growFuel cfg.splitFinder (amgLeafR k) cfg.numberOfClasses cfg.maxLevels d := by
  cases hm : cfg.useMultiThreading
  · simp only [amgTreeNewWith, hm, buildAmgTreeWith_fuel cfg k cfg.maxLevels d 0 (by omega)]
  · simp only [amgTreeNewWith, hm, buildAmgTreeMTWith_fuel cfg k cfg.maxLevels d 0 (by omega)]

/-! ## the partitioner -/

theorem answering_true (d : DataSet F) (c : Nat) (q : Question F) : d.answering c q true = d.restrict c (satisfies q) := by
  simp [DataSet.answering, DataSet.restrict]

theorem answering_false (d : DataSet F) (c : Nat) (q : Question F) : d.answering c q false = d.restrict c (fun r => !satisfies q r) := by
  have : (fun e : List F × List F => satisfies q e.1 == false) = (fun e => !satisfies q e.1) := by
    funext e
    cases satisfies q e.1 <;> rfl
  simp only [DataSet.answering, DataSet.restrict, this]

/-- `partition` returns only if the question separates -/
theorem partition_inv {d : DataSet F} {c t : Nat} (h : d.WF c t) {q : Question F} {r : DataSet F × DataSet F} (hr : partition d q = .ok r) :
    q.column < c ∧ (∃ row ∈ d.featureRows, satisfies q row = true) ∧ (∃ row ∈ d.featureRows, satisfies q row = false) ∧
      r = (d.answering c q false, d.answering c q true) := by
  have hlen : ∀ e ∈ d.examples, e.1.length = c := fun e he => h.row_len _ (examples_fst_mem he)
  have hcol : q.column < c := by
    by_contra hc
    have hne : d.examples ≠ [] := by
      intro h0
      have h1 := congrArg List.length h0
      rw [DataSet.examples, List.length_zip, h.label_count, Nat.min_self] at h1
      exact h.rows_ne (List.length_eq_zero_iff.mp h1)
    unfold partition at hr
    rw [show d.featureRows.zip d.labels = d.examples from rfl] at hr
    obtain ⟨e, es, he⟩ := List.exists_cons_of_ne_nil hne
    have hs : q.solve e.1 = .error .index := by
      have h2 := hlen e (by rw [he]; simp)
      simp only [Question.solve]
      rw [idx_none (by omega)]
      rfl
    rw [he, List.foldlM_cons, hs] at hr
    cases hr
  have hr' := hr
  unfold partition at hr'
  rw [show d.featureRows.zip d.labels = d.examples from rfl, partition_loop d.examples (fun e he => by rw [hlen e he]; exact hcol)] at hr'
  simp only [List.nil_append, R.ok_bind, R.bind_eq_ok] at hr'
  obtain ⟨c1, h1, c2, h2, _⟩ := hr'
  have ne : ∀ (p : List F → Bool) (x : List (List F)), createFeatureColumns ((d.examples.filter (fun e => p e.1)).map Prod.fst) = .ok x →
      ∃ row ∈ d.featureRows, p row = true := by
    intro p x hx
    rcases hl : d.examples.filter (fun e => p e.1) with _ | ⟨e, es⟩
    · rw [hl, List.map_nil, createFeatureColumns_nil] at hx
      cases hx
    · have he : e ∈ d.examples.filter (fun e => p e.1) := by rw [hl]; simp
      rw [List.mem_filter] at he
      exact ⟨e.1, examples_fst_mem he.1, he.2⟩
  have hf := ne (fun r => !satisfies q r) c1 h1
  have ht := ne (satisfies q) c2 h2
  have hf' : ∃ row ∈ d.featureRows, satisfies q row = false := by simpa using hf
  refine ⟨hcol, ht, hf', ?_⟩
  rw [partition_ok h hcol ht hf'] at hr
  rw [answering_true, answering_false]
  exact (Except.ok.inj hr).symm

theorem answering_wf {d : DataSet F} {c t : Nat} (h : d.WF c t) {q : Question F} {b : Bool}
    (hne : ∃ row ∈ d.featureRows, satisfies q row = b) : (d.answering c q b).WF c t := by
  cases b with
  | true => rw [answering_true]; exact restrict_wf h hne
  | false =>
    rw [answering_false]
    obtain ⟨row, hr, hs⟩ := hne
    exact restrict_wf h ⟨row, hr, by simp [hs]⟩

theorem answering_examples (d : DataSet F) (c : Nat) (q : Question F) (b : Bool) :
    (d.answering c q b).examples = d.examples.filter (fun e => satisfies q e.1 == b) := by
  simp only [DataSet.answering, DataSet.examples]
  exact (List.zip_of_prod rfl rfl).symm

/-! ## what the recursion returns -/

/-- the trees the recursion returns -/
inductive Grown (find : SplitFinder F) (leafR : DataSet F → R L) (c t : Nat) : Nat → DataSet F → TreeNode F L → Prop
  | stop {m : Nat} {d : DataSet F} {s : BestSplitResult F} {l : L} (hf : find.findBestSplit d t = .ok s)
      (hg : m = 0 ∨ (s.gain ==. F64.zero) = true) (hl : leafR d = .ok l) : Grown find leafR c t m d (TreeNode.leafNode s.question l)
  | ask {m : Nat} {d : DataSet F} {s : BestSplitResult F} {y n : TreeNode F L} (hf : find.findBestSplit d t = .ok s)
      (hg : (s.gain ==. F64.zero) = false) (hc : s.question.column < c)
      (hy : ∃ row ∈ d.featureRows, satisfies s.question row = true) (hn : ∃ row ∈ d.featureRows, satisfies s.question row = false)
      (gy : Grown find leafR c t m (d.answering c s.question true) y) (gn : Grown find leafR c t m (d.answering c s.question false) n) :
      Grown find leafR c t (m + 1) d (TreeNode.new s.question y n)

variable {find : SplitFinder F} {leafR : DataSet F → R L} {c t : Nat}

theorem grown_of_ok (m : Nat) : ∀ {d : DataSet F}, d.WF c t → ∀ {tree : TreeNode F L}, growFuel find leafR t m d = .ok tree →
    Grown find leafR c t m d tree := by
  induction m with
  | zero =>
    intro d _ tree h
    simp only [growFuel, R.bind_eq_ok] at h
    obtain ⟨s, h1, l, h2, h3⟩ := h
    cases h3
    exact .stop h1 (.inl rfl) h2
  | succ m ih =>
    intro d hw tree h
    simp only [growFuel, R.bind_eq_ok] at h
    obtain ⟨s, h1, h2⟩ := h
    cases hg : (s.gain ==. F64.zero) with
    | true =>
      simp only [hg, if_true, R.bind_eq_ok] at h2
      obtain ⟨l, h3, h4⟩ := h2
      cases h4
      exact .stop h1 (.inr hg) h3
    | false =>
      simp only [hg, Bool.false_eq_true, if_false, R.bind_eq_ok] at h2
      obtain ⟨p, h3, y, h4, n, h5, h6⟩ := h2
      cases h6
      obtain ⟨a1, a2, a3, rfl⟩ := partition_inv hw h3
      exact .ask h1 hg a1 a2 a3 (ih (answering_wf hw a2) h4) (ih (answering_wf hw a3) h5)

theorem growFuel_ok_iff (m : Nat) (hleaf : ∀ d : DataSet F, d.WF c t → ∃ l, leafR d = .ok l) : ∀ {d : DataSet F}, d.WF c t →
    ((∃ tree, growFuel find leafR t m d = .ok tree) ↔ Growable find c t m d) := by
  induction m with
  | zero =>
    intro d hw
    constructor
    · rintro ⟨tree, h⟩
      simp only [growFuel, R.bind_eq_ok] at h
      obtain ⟨s, h1, _⟩ := h
      exact ⟨s, h1⟩
    · rintro ⟨s, h1⟩
      obtain ⟨l, hl⟩ := hleaf d hw
      exact ⟨_, by simp only [growFuel, h1, R.ok_bind, hl]; rfl⟩
  | succ m ih =>
    intro d hw
    constructor
    · rintro ⟨tree, h⟩
      cases grown_of_ok (m + 1) hw h with
      | stop hf hg hl =>
        refine ⟨_, hf, ?_⟩
        intro h0
        rcases hg with hg | hg
        · cases hg
        · rw [h0] at hg
          cases hg
      | @ask _ _ s y n hf hg hc hy hn gy gn =>
        refine ⟨s, hf, fun _ => ⟨hc, hy, hn, ?_, ?_⟩⟩
        · refine (ih (answering_wf hw hy)).mp ?_
          simp only [growFuel, R.bind_eq_ok] at h
          obtain ⟨s', h1, h2⟩ := h
          rw [hf] at h1
          cases h1
          simp only [hg, Bool.false_eq_true, if_false, R.bind_eq_ok] at h2
          obtain ⟨p, h3, y', h4, _⟩ := h2
          obtain ⟨_, _, _, rfl⟩ := partition_inv hw h3
          exact ⟨y', h4⟩
        · refine (ih (answering_wf hw hn)).mp ?_
          simp only [growFuel, R.bind_eq_ok] at h
          obtain ⟨s', h1, h2⟩ := h
          rw [hf] at h1
          cases h1
          simp only [hg, Bool.false_eq_true, if_false, R.bind_eq_ok] at h2
          obtain ⟨p, h3, _, _, n', h5, _⟩ := h2
          obtain ⟨_, _, _, rfl⟩ := partition_inv hw h3
          exact ⟨n', h5⟩
    · rintro ⟨s, h1, h2⟩
      cases hg : (s.gain ==. F64.zero) with
      | true =>
        obtain ⟨l, hl⟩ := hleaf d hw
        exact ⟨_, by simp only [growFuel, h1, R.ok_bind, hg, if_true, hl]; rfl⟩
      | false =>
        obtain ⟨hc, hy, hn, gy, gn⟩ := h2 hg
        obtain ⟨y, hy'⟩ := (ih (answering_wf hw hy)).mpr gy
        obtain ⟨n, hn'⟩ := (ih (answering_wf hw hn)).mpr gn
        refine ⟨TreeNode.new s.question y n, ?_⟩
        simp only [growFuel, h1, R.ok_bind, hg, Bool.false_eq_true, if_false, partition_ok hw hc hy hn]
        rw [← answering_true, ← answering_false, hy', hn']
        rfl

theorem Grown.proper {m : Nat} {d : DataSet F} {tree : TreeNode F L} (h : Grown find leafR c t m d tree) : tree.Proper := by
  induction h with
  | stop => exact .leaf _ _
  | ask _ _ _ _ _ _ _ ihy ihn => exact .node _ _ _ ihy ihn

theorem Grown.depth {m : Nat} {d : DataSet F} {tree : TreeNode F L} (h : Grown find leafR c t m d tree) : tree.depth ≤ m := by
  induction h with
  | stop => simp [TreeNode.leafNode, TreeNode.depth]
  | ask _ _ _ _ _ _ _ ihy ihn =>
    simp only [TreeNode.new, TreeNode.depth]
    omega

theorem Grown.columns {m : Nat} {d : DataSet F} {tree : TreeNode F L} (h : Grown find leafR c t m d tree) :
    ∀ p q, tree.questionAt p = some q → q.column < c := by
  induction h with
  | stop => intro p q hq; cases p <;> simp [TreeNode.leafNode, TreeNode.questionAt] at hq
  | ask _ _ hc _ _ _ _ ihy ihn =>
    intro p q hq
    match p with
    | [] => simp only [TreeNode.new, TreeNode.questionAt, Option.some.injEq] at hq; rw [← hq]; exact hc
    | true :: p => exact ihy p q hq
    | false :: p => exact ihn p q hq

theorem Grown.grownBy {m : Nat} {d : DataSet F} {tree : TreeNode F L} (h : Grown find leafR c t m d tree) (hw : d.WF c t) :
    GrownBy find d c t m tree := by
  induction h with
  | @stop m d s l hf hg hl =>
    intro p hp
    cases p with
    | nil =>
      refine ⟨d, s, hw, (reaching_nil _ _).symm, hf, ?_⟩
      rcases hg with rfl | hg
      · simp [TreeNode.leafNode, TreeNode.questionAt]
      · simp [TreeNode.leafNode, TreeNode.questionAt, hg]
    | cons b p => simp [TreeNode.leafNode, TreeNode.subtreeAt] at hp
  | @ask m d s y n hf hg hc hy hn gy gn ihy ihn =>
    intro p hp
    match p with
    | [] => exact ⟨d, s, hw, (reaching_nil _ _).symm, hf, by simp [hg, TreeNode.new, TreeNode.questionAt]⟩
    | true :: p =>
      obtain ⟨dd, s', h3, h4, h5, h6⟩ := ihy (answering_wf hw hy) p hp
      refine ⟨dd, s', h3, ?_, h5, ?_⟩
      · rw [h4, reaching, reaching, answering_examples, List.filter_filter]
        apply List.filter_congr
        intro e _
        rw [TreeNode.route_new]
        cases hs : satisfies s.question e.1 <;> simp [List.isPrefixOf]
      · simp only [TreeNode.new, TreeNode.questionAt, h6, List.length_cons, Nat.add_lt_add_iff_right]
    | false :: p =>
      obtain ⟨dd, s', h3, h4, h5, h6⟩ := ihn (answering_wf hw hn) p hp
      refine ⟨dd, s', h3, ?_, h5, ?_⟩
      · rw [h4, reaching, reaching, answering_examples, List.filter_filter]
        apply List.filter_congr
        intro e _
        rw [TreeNode.route_new]
        cases hs : satisfies s.question e.1 <;> simp [List.isPrefixOf]
      · simp only [TreeNode.new, TreeNode.questionAt, h6, List.length_cons, Nat.add_lt_add_iff_right]

/-- what the leaves hold -/
theorem Grown.leafAt {m : Nat} {d : DataSet F} {tree : TreeNode F L} (h : Grown find leafR c t m d tree) (hw : d.WF c t) :
    ∀ p l, tree.leafAt p = some l → ∃ dd : DataSet F, leafR dd = .ok l ∧ dd.WF c t ∧
      dd.examples = d.examples.filter (fun e => decide (tree.route e.1 = p)) := by
  induction h with
  | @stop m d s l hf hg hl =>
    intro p l' hp
    cases p with
    | nil =>
      simp only [TreeNode.leafNode, TreeNode.leafAt, Option.some.injEq] at hp
      exact ⟨d, hp ▸ hl, hw, by simp [TreeNode.leafNode, TreeNode.route, List.filter_true]⟩
    | cons b p => simp [TreeNode.leafNode, TreeNode.leafAt] at hp
  | @ask m d s y n hf hg hc hy hn gy gn ihy ihn =>
    intro p l' hp
    match p with
    | [] => simp [TreeNode.new, TreeNode.leafAt] at hp
    | true :: p =>
      obtain ⟨dd, h3, h4, h5⟩ := ihy (answering_wf hw hy) p l' hp
      refine ⟨dd, h3, h4, ?_⟩
      rw [h5, answering_examples, List.filter_filter]
      apply List.filter_congr
      intro e _
      rw [TreeNode.route_new]
      cases hs : satisfies s.question e.1 <;> simp
    | false :: p =>
      obtain ⟨dd, h3, h4, h5⟩ := ihn (answering_wf hw hn) p l' hp
      refine ⟨dd, h3, h4, ?_⟩
      rw [h5, answering_examples, List.filter_filter]
      apply List.filter_congr
      intro e _
      rw [TreeNode.route_new]
      cases hs : satisfies s.question e.1 <;> simp

theorem Grown.lookup {m : Nat} {d : DataSet F} {tree : TreeNode F L} (h : Grown find leafR c t m d tree) (hw : d.WF c t) {row : List F}
    (hrow : c ≤ row.length) : ∃ (dd : DataSet F) (l : L), leafR dd = .ok l ∧ dd.WF c t ∧ findLeafNodeForData row tree = .ok l ∧
      tree.leafAt (tree.route row) = some l ∧ dd.examples = d.examples.filter (fun e => decide (tree.route e.1 = tree.route row)) := by
  obtain ⟨l, h1, h2⟩ := TreeNode.find_of_proper h.proper (row := row) (fun p q hq => Nat.lt_of_lt_of_le (h.columns p q hq) hrow)
  obtain ⟨dd, h3, h4, h5⟩ := h.leafAt hw _ _ h2
  exact ⟨dd, l, h3, h4, h1, h2, h5⟩

end Verif
