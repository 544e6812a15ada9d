import Verif.Model.Own
import Verif.Lemmas.Custom
/-! # The builders with a leaf output function of the caller -/

namespace Verif

variable {F : Type} [F64 F] {L L' : Type}

theorem buildGradBoostTreeOwn_fuel (cfg : CustomConfig F) (k : LeafOutputCalculator F) (m : Nat) : ∀ (d : DataSet F) (level : Nat), level + m = cfg.maxLevels →
    buildGradBoostTreeOwn cfg k d level = growFuel cfg.splitFinder (leafOfGradBoostOwn k) cfg.numberOfClasses m d := by
  induction m with
  | zero =>
    intro d level h
    unfold buildGradBoostTreeOwn growFuel
    have : (level == cfg.maxLevels) = true := by simp; omega
    simp only [this, Bool.or_true, if_true, leafOfGradBoostOwn, bind_assoc]
    rfl
  | succ m ih =>
    intro d level h
    unfold buildGradBoostTreeOwn growFuel
    have h1 : (level == cfg.maxLevels) = false := by simp; omega
    have h2 : level < cfg.maxLevels := by omega
    simp only [h1, Bool.or_false, h2, ↓reduceDIte, leafOfGradBoostOwn, bind_assoc]
    congr 1
    funext s
    split
    · rfl
    · congr 1
      funext p
      rw [ih _ (level + 1) (by omega), ih _ (level + 1) (by omega)]

theorem buildGradBoostTreeMTOwn_fuel (cfg : CustomConfig F) (k : LeafOutputCalculator F) (m : Nat) : ∀ (d : DataSet F) (level : Nat), level + m = cfg.maxLevels →
    buildGradBoostTreeMTOwn cfg k d level = growFuel cfg.splitFinder (leafOfGradBoostOwn k) cfg.numberOfClasses m d := by
  induction m with
  | zero =>
    intro d level h
    unfold buildGradBoostTreeMTOwn growFuel
    have : (level == cfg.maxLevels) = true := by simp; omega
    simp only [this, Bool.or_true, if_true, leafOfGradBoostOwn, bind_assoc]
    rfl
  | succ m ih =>
    intro d level h
    unfold buildGradBoostTreeMTOwn growFuel
    have h1 : (level == cfg.maxLevels) = false := by simp; omega
    have h2 : level < cfg.maxLevels := by omega
    simp only [h1, Bool.or_false, h2, ↓reduceDIte, leafOfGradBoostOwn, bind_assoc, join_bind]
    congr 1
    funext s
    split
    · rfl
    · congr 1
      funext p
      rw [ih _ (level + 1) (by omega), ih _ (level + 1) (by omega)]

theorem buildAmgTreeOwn_fuel (cfg : CustomConfig F) (k : LeafOutputCalculator F) (m : Nat) : ∀ (d : DataSet F) (level : Nat), level + m = cfg.maxLevels →
    buildAmgTreeOwn cfg k d level = growFuel cfg.splitFinder (leafOfAmgOwn k) cfg.numberOfClasses m d := by
  induction m with
  | zero =>
    intro d level h
    unfold buildAmgTreeOwn growFuel
    have : (level == cfg.maxLevels) = true := by simp; omega
    simp only [this, Bool.or_true, if_true, leafOfAmgOwn, bind_assoc]
    rfl
  | succ m ih =>
    intro d level h
    unfold buildAmgTreeOwn growFuel
    have h1 : (level == cfg.maxLevels) = false := by simp; omega
    have h2 : level < cfg.maxLevels := by omega
    simp only [h1, Bool.or_false, h2, ↓reduceDIte, leafOfAmgOwn, bind_assoc]
    congr 1
    funext s
    split
    · rfl
    · congr 1
      funext p
      rw [ih _ (level + 1) (by omega), ih _ (level + 1) (by omega)]

theorem buildAmgTreeMTOwn_fuel (cfg : CustomConfig F) (k : LeafOutputCalculator F) (m : Nat) : ∀ (d : DataSet F) (level : Nat), level + m = cfg.maxLevels →
    buildAmgTreeMTOwn cfg k d level = growFuel cfg.splitFinder (leafOfAmgOwn k) cfg.numberOfClasses m d := by
  induction m with
  | zero =>
    intro d level h
    unfold buildAmgTreeMTOwn growFuel
    have : (level == cfg.maxLevels) = true := by simp; omega
    simp only [this, Bool.or_true, if_true, leafOfAmgOwn, bind_assoc]
    rfl
  | succ m ih =>
    intro d level h
    unfold buildAmgTreeMTOwn growFuel
    have h1 : (level == cfg.maxLevels) = false := by simp; omega
    have h2 : level < cfg.maxLevels := by omega
    simp only [h1, Bool.or_false, h2, ↓reduceDIte, leafOfAmgOwn, bind_assoc, join_bind]
    congr 1
    funext s
    split
    · rfl
    · congr 1
      funext p
      rw [ih _ (level + 1) (by omega), ih _ (level + 1) (by omega)]

theorem gradBoostTreeNewOwn_eq (d : DataSet F) (cfg : CustomConfig F) (k : LeafOutputCalculator F) :
    gradBoostTreeNewOwn d cfg k = growFuel cfg.splitFinder (leafOfGradBoostOwn k) cfg.numberOfClasses cfg.maxLevels d := by
  cases hm : cfg.useMultiThreading
  · simp only [gradBoostTreeNewOwn, hm, buildGradBoostTreeOwn_fuel cfg k cfg.maxLevels d 0 (by omega)]
  · simp only [gradBoostTreeNewOwn, hm, buildGradBoostTreeMTOwn_fuel cfg k cfg.maxLevels d 0 (by omega)]

theorem amgTreeNewOwn_eq (d : DataSet F) (cfg : CustomConfig F) (k : LeafOutputCalculator F) :
    amgTreeNewOwn d cfg k = growFuel cfg.splitFinder (leafOfAmgOwn k) cfg.numberOfClasses cfg.maxLevels d := by
  cases hm : cfg.useMultiThreading
  · simp only [amgTreeNewOwn, hm, buildAmgTreeOwn_fuel cfg k cfg.maxLevels d 0 (by omega)]
  · simp only [amgTreeNewOwn, hm, buildAmgTreeMTOwn_fuel cfg k cfg.maxLevels d 0 (by omega)]

/-! ## filling the leaves of a regression tree -/

/-- replace every leaf by what `f` returns for it, the leaves of the true branch first -/
def TreeNode.fill (f : L → R L') : TreeNode F L → R (TreeNode F L')
  | .mk q (some a) (some b) _ => do
    let a' ← a.fill f
    let b' ← b.fill f
    pure (TreeNode.new q a' b')
  | .mk q _ _ (some l) => do
    let l' ← f l
    pure (TreeNode.leafNode q l')
  | .mk _ _ _ none => .error .unwrapNone

/-- apply `f` to the data of a leaf of a regression tree -/
def onData (f : DataSet F → R L) (leaf : RegressionLeaf F) : R L := unwrap leaf.data >>= f

theorem growFuel_fill {find : SplitFinder F} {f : DataSet F → R L} {t : Nat} (m : Nat) : ∀ {d : DataSet F} {tree : TreeNode F (RegressionLeaf F)},
    growFuel find regressionLeafR t m d = .ok tree → growFuel find f t m d = tree.fill (onData f) := by
  induction m with
  | zero =>
    intro d tree h
    simp only [growFuel, R.bind_eq_ok] at h
    obtain ⟨s, h1, l, h2, h3⟩ := h
    cases h2
    cases h3
    simp only [growFuel, h1, R.ok_bind]
    rfl
  | succ m ih =>
    intro d tree h
    simp only [growFuel, R.bind_eq_ok] at h
    obtain ⟨s, h1, h2⟩ := h
    cases hg : (s.gain ==. F64.zero) with
    | true =>
      simp only [hg, if_true, R.bind_eq_ok] at h2
      obtain ⟨l, h3, h4⟩ := h2
      cases h3
      cases h4
      simp only [growFuel, h1, R.ok_bind, hg, if_true]
      rfl
    | false =>
      simp only [hg, Bool.false_eq_true, if_false, R.bind_eq_ok] at h2
      obtain ⟨p, h3, y, h4, n, h5, h6⟩ := h2
      cases h6
      simp only [growFuel, h1, R.ok_bind, hg, Bool.false_eq_true, if_false, h3, ih h4, ih h5]
      rfl

theorem growFuel_regression_of_ok {find : SplitFinder F} {f : DataSet F → R L} {t : Nat} (m : Nat) : ∀ {d : DataSet F} {tree : TreeNode F L},
    growFuel find f t m d = .ok tree → ∃ tree', growFuel find regressionLeafR t m d = .ok tree' := by
  induction m with
  | zero =>
    intro d tree h
    simp only [growFuel, R.bind_eq_ok] at h
    obtain ⟨s, h1, _⟩ := h
    exact ⟨_, by simp only [growFuel, h1, R.ok_bind, regressionLeafR]; rfl⟩
  | succ m ih =>
    intro d tree h
    simp only [growFuel, R.bind_eq_ok] at h
    obtain ⟨s, h1, h2⟩ := h
    cases hg : (s.gain ==. F64.zero) with
    | true => exact ⟨_, by simp only [growFuel, h1, R.ok_bind, hg, if_true, regressionLeafR]; rfl⟩
    | false =>
      simp only [hg, Bool.false_eq_true, if_false, R.bind_eq_ok] at h2
      obtain ⟨p, h3, y, h4, n, h5, h6⟩ := h2
      obtain ⟨y', hy⟩ := ih h4
      obtain ⟨n', hn⟩ := ih h5
      exact ⟨_, by simp only [growFuel, h1, R.ok_bind, hg, Bool.false_eq_true, if_false, h3, hy, hn]; rfl⟩

theorem growFuel_leaves {find : SplitFinder F} {t : Nat} (m : Nat) : ∀ {d : DataSet F} {tree : TreeNode F (RegressionLeaf F)},
    growFuel find regressionLeafR t m d = .ok tree → tree.Proper ∧ ∀ leaf ∈ tree.leaves, ∃ dd, leaf.data = some dd := by
  induction m with
  | zero =>
    intro d tree h
    simp only [growFuel, R.bind_eq_ok] at h
    obtain ⟨s, h1, l, h2, h3⟩ := h
    cases h2
    cases h3
    exact ⟨.leaf _ _, by simp [TreeNode.leafNode, TreeNode.leaves]⟩
  | succ m ih =>
    intro d tree h
    simp only [growFuel, R.bind_eq_ok] at h
    obtain ⟨s, h1, h2⟩ := h
    cases hg : (s.gain ==. F64.zero) with
    | true =>
      simp only [hg, if_true, R.bind_eq_ok] at h2
      obtain ⟨l, h3, h4⟩ := h2
      cases h3
      cases h4
      exact ⟨.leaf _ _, by simp [TreeNode.leafNode, TreeNode.leaves]⟩
    | false =>
      simp only [hg, Bool.false_eq_true, if_false, R.bind_eq_ok] at h2
      obtain ⟨p, h3, y, h4, n, h5, h6⟩ := h2
      cases h6
      obtain ⟨a1, a2⟩ := ih h4
      obtain ⟨b1, b2⟩ := ih h5
      refine ⟨.node _ _ _ a1 b1, ?_⟩
      intro leaf hl
      simp only [TreeNode.new, TreeNode.leaves, List.mem_append] at hl
      rcases hl with hl | hl
      · exact a2 leaf hl
      · exact b2 leaf hl

/-! ## what a filled tree looks like -/

theorem fill_ok {f : L → R L'} {tree : TreeNode F L} (hp : tree.Proper) : ∀ {tree' : TreeNode F L'}, tree.fill f = .ok tree' →
    tree'.Proper ∧ (∀ p, tree'.questionAt p = tree.questionAt p) ∧ (∀ row, tree'.route row = tree.route row) ∧
    ∀ p, (tree.leafAt p = none ∧ tree'.leafAt p = none) ∨ ∃ l l', tree.leafAt p = some l ∧ f l = .ok l' ∧ tree'.leafAt p = some l' := by
  induction hp with
  | leaf q l =>
    intro tree' h
    simp only [TreeNode.leafNode, TreeNode.fill, R.bind_eq_ok] at h
    obtain ⟨l', h1, h2⟩ := h
    cases h2
    refine ⟨.leaf _ _, ?_, ?_, ?_⟩
    · intro p
      cases p <;> rfl
    · intro row
      rfl
    · intro p
      cases p with
      | nil => exact .inr ⟨l, l', rfl, h1, rfl⟩
      | cons b p => exact .inl ⟨rfl, rfl⟩
  | node q y n _ _ ihy ihn =>
    intro tree' h
    simp only [TreeNode.new, TreeNode.fill, R.bind_eq_ok] at h
    obtain ⟨y', h1, n', h2, h3⟩ := h
    cases h3
    obtain ⟨a0, a1, a2, a3⟩ := ihy h1
    obtain ⟨b0, b1, b2, b3⟩ := ihn h2
    refine ⟨.node _ _ _ a0 b0, ?_, ?_, ?_⟩
    · intro p
      match p with
      | [] => rfl
      | true :: p => exact a1 p
      | false :: p => exact b1 p
    · intro row
      simp only [TreeNode.route, a2, b2]
    · intro p
      match p with
      | [] => exact .inl ⟨rfl, rfl⟩
      | true :: p => exact a3 p
      | false :: p => exact b3 p

omit [F64 F] in
theorem fill_leaves {f : L → R L'} {tree : TreeNode F L} (hp : tree.Proper) :
    tree.leaves.mapM f = tree.fill f >>= fun tree' => .ok tree'.leaves := by
  induction hp with
  | leaf q l =>
    simp only [TreeNode.leafNode, TreeNode.fill, TreeNode.leaves, Option.toList_some, List.mapM_cons, List.mapM_nil, bind_assoc]
    rfl
  | node q y n _ _ ihy ihn =>
    simp only [TreeNode.new, TreeNode.fill, TreeNode.leaves, List.mapM_append, ihy, ihn, bind_assoc, R.ok_bind, R.pure_eq]

theorem mapM_error_iff {α β : Type} {f : α → R β} {e : Panic} (l : List α) :
    l.mapM f = .error e ↔ ∃ before x after, l = before ++ x :: after ∧ (∀ x ∈ before, ∃ y, f x = .ok y) ∧ f x = .error e := by
  induction l with
  | nil => simp [List.mapM_nil, R.pure_eq]
  | cons a l ih =>
    rw [List.mapM_cons]
    cases ha : f a with
    | error e' =>
      constructor
      · intro h
        cases h
        exact ⟨[], a, l, rfl, by simp, ha⟩
      · rintro ⟨before, x, after, h1, h2, h3⟩
        cases before with
        | nil =>
          cases h1
          rw [ha] at h3
          cases h3
          rfl
        | cons b before =>
          cases h1
          obtain ⟨y, hy⟩ := h2 a (by simp)
          rw [ha] at hy
          cases hy
    | ok b =>
      constructor
      · intro h
        have h' : l.mapM f = .error e := by
          cases hl : l.mapM f with
          | ok v => rw [hl] at h; cases h
          | error e' => rw [hl] at h; cases h; rfl
        obtain ⟨before, x, after, h1, h2, h3⟩ := ih.mp h'
        refine ⟨a :: before, x, after, by rw [h1]; rfl, ?_, h3⟩
        intro z hz
        rcases List.mem_cons.mp hz with rfl | hz
        · exact ⟨b, ha⟩
        · exact h2 z hz
      · rintro ⟨before, x, after, h1, h2, h3⟩
        cases before with
        | nil =>
          cases h1
          rw [ha] at h3
          cases h3
        | cons b' before =>
          cases h1
          rw [ih.mpr ⟨before, x, after, rfl, fun z hz => h2 z (List.mem_cons_of_mem _ hz), h3⟩]
          rfl

omit [F64 F] in
theorem fill_error {f : L → R L'} {tree : TreeNode F L} (hp : tree.Proper) {e : Panic} :
    tree.fill f = .error e ↔ ∃ before l after, tree.leaves = before ++ l :: after ∧ (∀ x ∈ before, ∃ y, f x = .ok y) ∧ f l = .error e := by
  rw [← mapM_error_iff, fill_leaves hp]
  cases tree.fill f with
  | ok v => simp [R.ok_bind]
  | error e' => simp [bind, Except.bind]

omit [F64 F] in
theorem fill_ok_iff {f : L → R L'} {tree : TreeNode F L} (hp : tree.Proper) :
    (∃ tree', tree.fill f = .ok tree') ↔ ∀ l ∈ tree.leaves, ∃ l', f l = .ok l' := by
  rw [← mapM_ok_iff, fill_leaves hp]
  cases tree.fill f with
  | ok v => simp [R.ok_bind]
  | error e' =>
    constructor
    · rintro ⟨v, h⟩
      cases h
    · rintro ⟨v, h⟩
      cases h

end Verif
