import Verif.Lemmas.Split
import Verif.Spec.Tree
/-! # The tree builders: one generic recursion, panic-free on well-formed data -/

namespace Verif

variable {F : Type} [F64 F] {L : Type}

/-- The recursion common to all builders, on the number of levels that remain. -/
def buildFuel (leafR : DataSet F → R L) (t : Nat) : Nat → DataSet F → R (TreeNode F L)
  | 0, d => do
    let s ← findBestSplit d t
    let l ← leafR d
    pure (TreeNode.leafNode s.question l)
  | m + 1, d => do
    let s ← findBestSplit d t
    if s.gain ==. F64.zero then
      let l ← leafR d
      pure (TreeNode.leafNode s.question l)
    else
      let p ← partition d s.question
      let left ← buildFuel leafR t m p.2
      let right ← buildFuel leafR t m p.1
      pure (TreeNode.new s.question left right)

/-- leaf of a regression tree -/
def regressionLeafR (d : DataSet F) : R (RegressionLeaf F) := .ok { data := some d }

/-- leaf of a gradient boosting tree -/
def gradLeafR (calc' : LeafOutputType) (d : DataSet F) : R (GradBoostLeaf F) := do
  let o ← calc'.calculate d
  pure { leafOutput := some o }

/-- leaf of an AMG tree -/
def amgLeafR (calc' : LeafOutputType) (d : DataSet F) : R (AMGBoostLeaf F) := do
  let o ← calc'.calculate d
  pure { maxValue := some (findMaxValueAndIndex o).1, cls := some (findMaxValueAndIndex o).2 }

theorem buildRegressionTree_fuel (cfg : TreeConfig) (m : Nat) : ∀ (d : DataSet F) (level : Nat),
    level + m = cfg.maxLevels →
    buildRegressionTree cfg d level = buildFuel regressionLeafR cfg.numberOfClasses m d := by
  induction m with
  | zero =>
    intro d level h
    unfold buildRegressionTree buildFuel
    have : (level == cfg.maxLevels) = true := by simp; omega
    simp [this, regressionLeafR]
  | succ m ih =>
    intro d level h
    unfold buildRegressionTree buildFuel
    have h1 : (level == cfg.maxLevels) = false := by simp; omega
    have h2 : level < cfg.maxLevels := by omega
    simp only [h1, Bool.or_false, h2, ↓reduceDIte, regressionLeafR, R.pure_eq, R.ok_bind]
    congr 1
    funext s
    split
    · rfl
    · congr 1
      funext p
      rw [ih _ (level + 1) (by omega), ih _ (level + 1) (by omega)]

theorem buildGradBoostTree_fuel (cfg : TreeConfig) (k : LeafOutputType) (m : Nat) : ∀ (d : DataSet F) (level : Nat),
    level + m = cfg.maxLevels →
    buildGradBoostTree cfg k d level = buildFuel (gradLeafR k) cfg.numberOfClasses m d := by
  induction m with
  | zero =>
    intro d level h
    unfold buildGradBoostTree buildFuel
    have : (level == cfg.maxLevels) = true := by simp; omega
    simp only [this, Bool.or_true, if_true, gradLeafR, bind_assoc]
    rfl
  | succ m ih =>
    intro d level h
    unfold buildGradBoostTree buildFuel
    have h1 : (level == cfg.maxLevels) = false := by simp; omega
    have h2 : level < cfg.maxLevels := by omega
    simp only [h1, Bool.or_false, h2, ↓reduceDIte, gradLeafR, bind_assoc]
    congr 1
    funext s
    split
    · rfl
    · congr 1
      funext p
      rw [ih _ (level + 1) (by omega), ih _ (level + 1) (by omega)]

theorem buildAmgTree_fuel (cfg : TreeConfig) (k : LeafOutputType) (m : Nat) : ∀ (d : DataSet F) (level : Nat),
    level + m = cfg.maxLevels →
    buildAmgTree cfg k d level = buildFuel (amgLeafR k) cfg.numberOfClasses m d := by
  induction m with
  | zero =>
    intro d level h
    unfold buildAmgTree buildFuel
    have : (level == cfg.maxLevels) = true := by simp; omega
    simp only [this, Bool.or_true, if_true, amgLeafR, bind_assoc]
    rfl
  | succ m ih =>
    intro d level h
    unfold buildAmgTree buildFuel
    have h1 : (level == cfg.maxLevels) = false := by simp; omega
    have h2 : level < cfg.maxLevels := by omega
    simp only [h1, Bool.or_false, h2, ↓reduceDIte, amgLeafR, bind_assoc]
    congr 1
    funext s
    split
    · rfl
    · congr 1
      funext p
      rw [ih _ (level + 1) (by omega), ih _ (level + 1) (by omega)]

theorem join_bind {α β γ : Type} (a : R α) (b : R β) (k : α × β → R γ) :
    (join a b >>= k) = (a >>= fun x => b >>= fun y => k (x, y)) := by
  simp [join, bind_assoc]

theorem buildRegressionTreeMT_fuel (cfg : TreeConfig) (m : Nat) : ∀ (d : DataSet F) (level : Nat),
    level + m = cfg.maxLevels →
    buildRegressionTreeMT cfg d level = buildFuel regressionLeafR cfg.numberOfClasses m d := by
  induction m with
  | zero =>
    intro d level h
    unfold buildRegressionTreeMT buildFuel
    have : (level == cfg.maxLevels) = true := by simp; omega
    simp [this, regressionLeafR]
  | succ m ih =>
    intro d level h
    unfold buildRegressionTreeMT buildFuel
    have h1 : (level == cfg.maxLevels) = false := by simp; omega
    have h2 : level < cfg.maxLevels := by omega
    simp only [h1, Bool.or_false, h2, ↓reduceDIte, regressionLeafR, R.pure_eq, R.ok_bind, join_bind]
    congr 1
    funext s
    split
    · rfl
    · congr 1
      funext p
      rw [ih _ (level + 1) (by omega), ih _ (level + 1) (by omega)]

theorem buildGradBoostTreeMT_fuel (cfg : TreeConfig) (k : LeafOutputType) (m : Nat) : ∀ (d : DataSet F) (level : Nat),
    level + m = cfg.maxLevels →
    buildGradBoostTreeMT cfg k d level = buildFuel (gradLeafR k) cfg.numberOfClasses m d := by
  induction m with
  | zero =>
    intro d level h
    unfold buildGradBoostTreeMT buildFuel
    have : (level == cfg.maxLevels) = true := by simp; omega
    simp only [this, Bool.or_true, if_true, gradLeafR, bind_assoc]
    rfl
  | succ m ih =>
    intro d level h
    unfold buildGradBoostTreeMT buildFuel
    have h1 : (level == cfg.maxLevels) = false := by simp; omega
    have h2 : level < cfg.maxLevels := by omega
    simp only [h1, Bool.or_false, h2, ↓reduceDIte, gradLeafR, bind_assoc, join_bind]
    congr 1
    funext s
    split
    · rfl
    · congr 1
      funext p
      rw [ih _ (level + 1) (by omega), ih _ (level + 1) (by omega)]

theorem buildAmgTreeMT_fuel (cfg : TreeConfig) (k : LeafOutputType) (m : Nat) : ∀ (d : DataSet F) (level : Nat),
    level + m = cfg.maxLevels →
    buildAmgTreeMT cfg k d level = buildFuel (amgLeafR k) cfg.numberOfClasses m d := by
  induction m with
  | zero =>
    intro d level h
    unfold buildAmgTreeMT buildFuel
    have : (level == cfg.maxLevels) = true := by simp; omega
    simp only [this, Bool.or_true, if_true, amgLeafR, bind_assoc]
    rfl
  | succ m ih =>
    intro d level h
    unfold buildAmgTreeMT buildFuel
    have h1 : (level == cfg.maxLevels) = false := by simp; omega
    have h2 : level < cfg.maxLevels := by omega
    simp only [h1, Bool.or_false, h2, ↓reduceDIte, amgLeafR, bind_assoc, join_bind]
    congr 1
    funext s
    split
    · rfl
    · congr 1
      funext p
      rw [ih _ (level + 1) (by omega), ih _ (level + 1) (by omega)]

theorem regressionTreeNew_fuel (d : DataSet F) (cfg : TreeConfig) :
    regressionTreeNew d cfg = buildFuel regressionLeafR cfg.numberOfClasses cfg.maxLevels d := by
  unfold regressionTreeNew
  split
  · exact buildRegressionTreeMT_fuel cfg _ d 0 (by omega)
  · exact buildRegressionTree_fuel cfg _ d 0 (by omega)

theorem gradBoostTreeNew_fuel (d : DataSet F) (cfg : TreeConfig) (k : LeafOutputType) :
    gradBoostTreeNew d cfg k = buildFuel (gradLeafR k) cfg.numberOfClasses cfg.maxLevels d := by
  unfold gradBoostTreeNew
  split
  · exact buildGradBoostTreeMT_fuel cfg k _ d 0 (by omega)
  · exact buildGradBoostTree_fuel cfg k _ d 0 (by omega)

theorem amgTreeNew_fuel (d : DataSet F) (cfg : TreeConfig) (k : LeafOutputType) :
    amgTreeNew d cfg k = buildFuel (amgLeafR k) cfg.numberOfClasses cfg.maxLevels d := by
  unfold amgTreeNew
  split
  · exact buildAmgTreeMT_fuel cfg k _ d 0 (by omega)
  · exact buildAmgTree_fuel cfg k _ d 0 (by omega)

/-! ## Facts that need no law -/

theorem buildFuel_cases {leafR : DataSet F → R L} {t m : Nat} {d : DataSet F} {tree : TreeNode F L}
    (h : buildFuel leafR t (m + 1) d = .ok tree) :
    ∃ s, findBestSplit d t = .ok s ∧
      ((s.gain ==. F64.zero) = true ∧ (∃ l, leafR d = .ok l ∧ tree = TreeNode.leafNode s.question l) ∨
       (s.gain ==. F64.zero) = false ∧ ∃ p left right, partition d s.question = .ok p ∧
          buildFuel leafR t m p.2 = .ok left ∧ buildFuel leafR t m p.1 = .ok right ∧
          tree = TreeNode.new s.question left right) := by
  unfold buildFuel at h
  obtain ⟨s, hs, h⟩ := R.bind_eq_ok.mp h
  refine ⟨s, hs, ?_⟩
  split at h
  · next hg =>
    obtain ⟨l, hl, h⟩ := R.bind_eq_ok.mp h
    exact .inl ⟨hg, l, hl, by simpa using h.symm⟩
  · next hg =>
    obtain ⟨p, hp, h⟩ := R.bind_eq_ok.mp h
    obtain ⟨left, hl, h⟩ := R.bind_eq_ok.mp h
    obtain ⟨right, hr, h⟩ := R.bind_eq_ok.mp h
    exact .inr ⟨by simpa using hg, p, left, right, hp, hl, hr, by simpa using h.symm⟩

theorem buildFuel_zero {leafR : DataSet F → R L} {t : Nat} {d : DataSet F} {tree : TreeNode F L}
    (h : buildFuel leafR t 0 d = .ok tree) :
    ∃ s l, findBestSplit d t = .ok s ∧ leafR d = .ok l ∧ tree = TreeNode.leafNode s.question l := by
  unfold buildFuel at h
  obtain ⟨s, hs, h⟩ := R.bind_eq_ok.mp h
  obtain ⟨l, hl, h⟩ := R.bind_eq_ok.mp h
  exact ⟨s, l, hs, hl, by simpa using h.symm⟩

theorem buildFuel_proper {leafR : DataSet F → R L} {t m : Nat} {d : DataSet F} {tree : TreeNode F L}
    (h : buildFuel leafR t m d = .ok tree) : tree.Proper := by
  induction m generalizing d tree with
  | zero =>
    obtain ⟨s, l, _, _, rfl⟩ := buildFuel_zero h
    exact .leaf _ _
  | succ m ih =>
    obtain ⟨s, _, ⟨_, l, _, rfl⟩ | ⟨_, p, left, right, _, h1, h2, rfl⟩⟩ := buildFuel_cases h
    · exact .leaf _ _
    · exact .node _ _ _ (ih h1) (ih h2)

theorem buildFuel_depth {leafR : DataSet F → R L} {t m : Nat} {d : DataSet F} {tree : TreeNode F L}
    (h : buildFuel leafR t m d = .ok tree) : tree.depth ≤ m := by
  induction m generalizing d tree with
  | zero =>
    obtain ⟨s, l, _, _, rfl⟩ := buildFuel_zero h
    simp [TreeNode.leafNode, TreeNode.depth]
  | succ m ih =>
    obtain ⟨s, _, ⟨_, l, _, rfl⟩ | ⟨_, p, left, right, _, h1, h2, rfl⟩⟩ := buildFuel_cases h
    · simp [TreeNode.leafNode, TreeNode.depth]
    · have := ih h1
      have := ih h2
      simp only [TreeNode.new, TreeNode.depth]
      omega

/-- A smaller limit also returns, and asks the same questions above the limit. -/
theorem buildFuel_cut {leafR : DataSet F → R L} (hleaf : ∀ d, ∃ l, leafR d = .ok l) {t m k : Nat} (hk : k ≤ m)
    {d : DataSet F} {tree : TreeNode F L} (h : buildFuel leafR t m d = .ok tree) :
    ∃ tree', buildFuel leafR t k d = .ok tree' ∧
      (∀ p, p.length < k → tree'.questionAt p = tree.questionAt p) ∧
      (∀ p, p.length ≥ k → tree'.questionAt p = none) := by
  induction m generalizing d tree k with
  | zero =>
    obtain rfl : k = 0 := by omega
    refine ⟨tree, h, fun p _ => rfl, fun p _ => ?_⟩
    obtain ⟨s, l, _, _, rfl⟩ := buildFuel_zero h
    simp [TreeNode.leafNode, TreeNode.questionAt]
  | succ m ih =>
    obtain ⟨s, hs, hcase⟩ := buildFuel_cases h
    cases k with
    | zero =>
      obtain ⟨l, hl⟩ := hleaf d
      refine ⟨TreeNode.leafNode s.question l, by simp [buildFuel, hs, hl], fun p hp => by simp at hp, fun p _ => ?_⟩
      simp [TreeNode.leafNode, TreeNode.questionAt]
    | succ k =>
      rcases hcase with ⟨hg, l, hl, rfl⟩ | ⟨hg, p, left, right, hp, h1, h2, rfl⟩
      · refine ⟨TreeNode.leafNode s.question l, by simp [buildFuel, hs, hl, hg], fun _ _ => rfl, fun p _ => ?_⟩
        simp [TreeNode.leafNode, TreeNode.questionAt]
      · obtain ⟨l', hl', hl1, hl2⟩ := ih (k := k) (by omega) h1
        obtain ⟨r', hr', hr1, hr2⟩ := ih (k := k) (by omega) h2
        refine ⟨TreeNode.new s.question l' r', by simp [buildFuel, hs, hg, hp, hl', hr'], ?_, ?_⟩
        · intro path hpath
          match path with
          | [] => rfl
          | true :: path => exact hl1 path (by simpa using hpath)
          | false :: path => exact hr1 path (by simpa using hpath)
        · intro path hpath
          match path with
          | [] => simp at hpath
          | true :: path => exact hl2 path (by simpa using hpath)
          | false :: path => exact hr2 path (by simpa using hpath)

/-! ## The tree on well-formed data, without panics -/

/-- The tree built on well-formed data. -/
def treeOf (leafOf : DataSet F → L) (c t : Nat) : Nat → DataSet F → TreeNode F L
  | 0, d => TreeNode.leafNode (splitOf d t).question (leafOf d)
  | m + 1, d =>
    if (splitOf d t).gain ==. F64.zero then TreeNode.leafNode (splitOf d t).question (leafOf d)
    else TreeNode.new (splitOf d t).question
      (treeOf leafOf c t m (d.restrict c (satisfies (splitOf d t).question)))
      (treeOf leafOf c t m (d.restrict c (fun r => !satisfies (splitOf d t).question r)))

section
variable [LawfulOrder F]

theorem split_true_wf {d : DataSet F} {c t : Nat} (h : d.WF c t) (hg : ((splitOf d t).gain ==. F64.zero) = false) :
    (d.restrict c (satisfies (splitOf d t).question)).WF c t := by
  obtain ⟨_, _, _, ht, _⟩ := splitOf_separates h hg
  exact restrict_wf h ht

theorem split_false_wf {d : DataSet F} {c t : Nat} (h : d.WF c t) (hg : ((splitOf d t).gain ==. F64.zero) = false) :
    (d.restrict c (fun r => !satisfies (splitOf d t).question r)).WF c t := by
  obtain ⟨_, _, _, _, row, hrow, hf⟩ := splitOf_separates h hg
  exact restrict_wf h ⟨row, hrow, by simp [hf]⟩

/-- Induction over the data sets that occur while building. -/
theorem treeOf_induct {c t : Nat} {motive : Nat → DataSet F → Prop}
    (zero : ∀ d, d.WF c t → motive 0 d)
    (leaf : ∀ m d, d.WF c t → ((splitOf d t).gain ==. F64.zero) = true → motive (m + 1) d)
    (node : ∀ m d, d.WF c t → ((splitOf d t).gain ==. F64.zero) = false →
      motive m (d.restrict c (satisfies (splitOf d t).question)) →
      motive m (d.restrict c (fun r => !satisfies (splitOf d t).question r)) → motive (m + 1) d)
    (m : Nat) (d : DataSet F) (h : d.WF c t) : motive m d := by
  induction m generalizing d with
  | zero => exact zero d h
  | succ m ih =>
    cases hg : ((splitOf d t).gain ==. F64.zero) with
    | true => exact leaf m d h hg
    | false => exact node m d h hg (ih _ (split_true_wf h hg)) (ih _ (split_false_wf h hg))

theorem buildFuel_ok {leafR : DataSet F → R L} {leafOf : DataSet F → L} {c t : Nat}
    (hleaf : ∀ d : DataSet F, d.WF c t → leafR d = .ok (leafOf d)) (m : Nat) {d : DataSet F} (h : d.WF c t) :
    buildFuel leafR t m d = .ok (treeOf leafOf c t m d) := by
  refine treeOf_induct (motive := fun m d => buildFuel leafR t m d = .ok (treeOf leafOf c t m d)) ?_ ?_ ?_ m d h
  · intro d h
    simp [buildFuel, treeOf, findBestSplit_ok h, hleaf d h]
  · intro m d h hg
    simp [buildFuel, treeOf, findBestSplit_ok h, hleaf d h, hg]
  · intro m d h hg h1 h2
    obtain ⟨_, hc, _, ht, hf⟩ := splitOf_separates h hg
    simp [buildFuel, treeOf, findBestSplit_ok h, hg, partition_ok h hc ht hf, h1, h2]

end

end Verif
