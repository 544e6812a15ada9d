import Verif.Props.Grid
/-!
# C116: how many models the labels can produce, and what they cannot all fit

The labels choose among finitely many ways of grouping the rows; their number depends on the size of the table and `max_levels` alone.
-/

set_option linter.unusedSectionVars false

namespace Verif

variable {F : Type} [F64 F] {L : Type}

open Sample

section
variable [LawfulOrder F]

/-! ## the thresholds of a table -/

theorem filter_length_lt {α : Type} {l : List α} {p : α → Bool} {a : α} (ha : a ∈ l) (hp : p a = false) : (l.filter p).length ≤ l.length - 1 := by
  have := List.length_filter_lt_length_iff_exists (p := p) (l := l) |>.mpr ⟨a, ha, by simp [hp]⟩
  omega

open Classical in
/-- the questions that a tree for these rows can ask at its root -/
noncomputable def openQuestions (c : Nat) (rows : List (List F)) : List (Question F) :=
  (List.range c).flatMap (fun j =>
    ((rows.filterMap (fun r => r[j]?)).filter (fun v => decide (∃ u ∈ rows.filterMap (fun r => r[j]?), (u <. v) = true))).map
      (fun v => { column := j, value := v }))

theorem openQuestions_length {d : DataSet F} {c t : Nat} (h : d.WF c t) :
    (openQuestions c d.featureRows).length ≤ c * (d.featureRows.length - 1) := by
  classical
  rw [openQuestions, List.length_flatMap]
  have : ∀ j ∈ List.range c, (((d.featureRows.filterMap (fun r => r[j]?)).filter (fun v =>
      decide (∃ u ∈ d.featureRows.filterMap (fun r => r[j]?), (u <. v) = true))).map
      (fun v => ({ column := j, value := v } : Question F))).length ≤ d.featureRows.length - 1 := by
    intro j hj
    have hj := List.mem_range.mp hj
    have hnn : ∀ v ∈ d.featureRows.filterMap (fun r => r[j]?), NN v := by
      intro v hv
      obtain ⟨r, hr, hrv⟩ := List.mem_filterMap.mp hv
      exact nn_of_isNaN_false (h.no_nan r hr v (List.mem_of_getElem? hrv))
    have hne : d.featureRows.filterMap (fun r => r[j]?) ≠ [] := by
      obtain ⟨r, hr⟩ := List.exists_mem_of_ne_nil _ h.rows_ne
      have hjr : j < r.length := by rw [h.row_len r hr]; exact hj
      exact List.ne_nil_of_mem (List.mem_filterMap.mpr ⟨r, hr, List.getElem?_eq_getElem hjr⟩)
    obtain ⟨v, hv, hmin⟩ := exists_least hnn hne
    rw [List.length_map]
    refine (filter_length_lt (a := v) hv ?_).trans (Nat.sub_le_sub_right (List.length_filterMap_le _ _) 1)
    rw [decide_eq_false_iff_not]
    rintro ⟨u, hu, huv⟩
    rw [LawfulOrder.lt_iff] at huv
    rw [hmin u hu] at huv
    cases huv.2
  have hs := sum_bound this
  rw [List.length_range] at hs
  exact hs

theorem mem_openQuestions {d : DataSet F} {c t : Nat} (h : d.WF c t) (hg : ((splitOf d t).gain ==. F64.zero) = false) :
    (splitOf d t).question ∈ openQuestions c d.featureRows := by
  classical
  obtain ⟨_, hcol, ⟨r, hr, hv⟩, _, ⟨r', hr', hno⟩⟩ := splitOf_separates h hg
  have hlt : (splitOf d t).question.column < r'.length := by rw [h.row_len r' hr']; exact hcol
  rw [openQuestions, List.mem_flatMap]
  refine ⟨_, List.mem_range.mpr hcol, List.mem_map.mpr ⟨(splitOf d t).question.value, List.mem_filter.mpr ⟨List.mem_filterMap.mpr ⟨r, hr, hv⟩, ?_⟩, rfl⟩⟩
  rw [decide_eq_true_iff]
  refine ⟨r'[(splitOf d t).question.column], List.mem_filterMap.mpr ⟨r', hr', List.getElem?_eq_getElem hlt⟩, ?_⟩
  simp only [satisfies, List.getElem?_eq_getElem hlt] at hno
  have h1 : NN (splitOf d t).question.value := nn_of_isNaN_false (h.no_nan r hr _ (List.mem_of_getElem? hv))
  have h2 : NN r'[(splitOf d t).question.column] := nn_of_isNaN_false (h.no_nan r' hr' _ (List.getElem_mem _))
  rw [LawfulOrder.lt_iff]
  refine ⟨?_, hno⟩
  rcases LawfulOrder.le_total h1 h2 with h3 | h3
  · rw [h3] at hno; cases hno
  · exact h3

theorem restrict_rows_filter {d : DataSet F} {c t : Nat} (h : d.WF c t) (p : List F → Bool) :
    (d.restrict c p).featureRows = d.featureRows.filter p := by
  have : ∀ (xs : List (List F)) (ys : List (List F)), xs.length ≤ ys.length →
      ((xs.zip ys).filter (fun e => p e.1)).map Prod.fst = xs.filter p := by
    intro xs
    induction xs with
    | nil => simp
    | cons x xs ih =>
      intro ys hl
      cases ys with
      | nil => simp at hl
      | cons y ys =>
        have := ih ys (by simpa using hl)
        simp only [List.zip_cons_cons, List.filter_cons]
        split <;> simp [this]
  exact this _ _ (_root_.le_of_eq h.label_count.symm)

/-! ## counting the trees -/

theorem pow_step {M e k : Nat} (hM : 1 ≤ M) (hk : k + 1 ≤ e) : 1 + (M - 1) * M ^ k ≤ M ^ e := by
  have h1 : M ^ (k + 1) ≤ M ^ e := Nat.pow_le_pow_right hM hk
  have h2 : 1 ≤ M ^ k := Nat.one_le_pow _ _ hM
  rw [pow_succ] at h1
  obtain ⟨m, rfl⟩ := Nat.exists_eq_add_of_le hM
  rw [Nat.add_sub_cancel_left]
  nlinarith

theorem filter_both {α : Type} (p : α → Bool) (l : List α) : (l.filter p).length + (l.filter (fun a => !p a)).length = l.length := by
  induction l with
  | nil => rfl
  | cons a l ih =>
    simp only [List.filter_cons]
    cases p a <;> simp <;> omega

theorem ways_exist (c t m : Nat) (rows : List (List F)) :
    ∃ ways : List (List F → List Bool), ways.length ≤ (c * (rows.length - 1) + 1) ^ (min rows.length (2 ^ m) - 1) ∧
      ∀ (L : Type) (leafOf : DataSet F → L) (d : DataSet F), d.WF c t → d.featureRows = rows →
        (fun row => (treeOf leafOf c t m d).route row) ∈ ways := by
  induction m generalizing rows with
  | zero =>
    refine ⟨[fun _ => []], ?_, fun L leafOf d _ _ => by simp [treeOf, TreeNode.leafNode, TreeNode.route]⟩
    exact Nat.one_le_pow _ _ (by omega)
  | succ m ih =>
    by_cases hd : ∃ d : DataSet F, d.WF c t ∧ d.featureRows = rows
    swap
    · exact ⟨[], by simp, fun L leafOf d hw he => absurd ⟨d, hw, he⟩ hd⟩
    obtain ⟨d0, hw0, he0⟩ := hd
    choose ways hlen hmem using ih
    set join : Question F → (List F → List Bool) × (List F → List Bool) → (List F → List Bool) :=
      fun q ab row => if satisfies q row then true :: ab.1 row else false :: ab.2 row with hjoin
    set both : Question F → List (List F → List Bool) := fun q =>
      ((ways (rows.filter (satisfies q))) ×ˢ (ways (rows.filter (fun r => !satisfies q r)))).map (join q) with hboth
    classical
    set Q := (openQuestions c rows).filter (fun q => decide ((∃ r ∈ rows, satisfies q r = true) ∧ ∃ r ∈ rows, satisfies q r = false)) with hQ
    refine ⟨(fun _ => []) :: Q.flatMap both, ?_, ?_⟩
    · have hQl : Q.length ≤ c * (rows.length - 1) := (List.length_filter_le _ _).trans (he0 ▸ openQuestions_length hw0)
      rw [List.length_cons, List.length_flatMap]
      by_cases hQ0 : Q = []
      · rw [hQ0]
        exact Nat.one_le_pow _ _ (by omega)
      have hn2 : 2 ≤ rows.length := by
        by_contra hc
        obtain ⟨q, hq⟩ := List.exists_mem_of_ne_nil _ hQ0
        have h1 : (openQuestions c rows) ≠ [] := List.ne_nil_of_mem (List.mem_filter.mp hq).1
        have h2 := he0 ▸ openQuestions_length hw0
        rw [show rows.length - 1 = 0 by omega, Nat.mul_zero] at h2
        exact h1 (List.eq_nil_of_length_eq_zero (by omega))
      have hp2 : 2 ≤ 2 ^ (m + 1) := by
        rw [pow_succ]
        have := Nat.one_le_two_pow (n := m)
        omega
      have hone : ∀ q ∈ Q, (both q).length ≤ (c * (rows.length - 1) + 1) ^ (min rows.length (2 ^ (m + 1)) - 2) := by
        intro q hq
        obtain ⟨⟨r1, hr1, h1⟩, ⟨r2, hr2, h2⟩⟩ := of_decide_eq_true (List.mem_filter.mp hq).2
        have hs := filter_both (satisfies q) rows
        have p1 : 1 ≤ (rows.filter (satisfies q)).length := List.length_pos_of_mem (List.mem_filter.mpr ⟨hr1, h1⟩)
        have p2 : 1 ≤ (rows.filter (fun r => !satisfies q r)).length := List.length_pos_of_mem (List.mem_filter.mpr ⟨hr2, by simp [h2]⟩)
        rw [hboth, List.length_map, List.length_product]
        have b1 := (hlen (rows.filter (satisfies q))).trans (Nat.pow_le_pow_left
          (Nat.add_le_add_right (Nat.mul_le_mul_left c (show (rows.filter (satisfies q)).length - 1 ≤ rows.length - 1 by omega)) 1) _)
        have b2 := (hlen (rows.filter (fun r => !satisfies q r))).trans (Nat.pow_le_pow_left
          (Nat.add_le_add_right (Nat.mul_le_mul_left c (show (rows.filter (fun r => !satisfies q r)).length - 1 ≤ rows.length - 1 by omega)) 1) _)
        refine (Nat.mul_le_mul b1 b2).trans ?_
        rw [← pow_add]
        refine Nat.pow_le_pow_right (by omega) ?_
        have h2m : 2 ^ (m + 1) = 2 ^ m + 2 ^ m := by rw [pow_succ]; omega
        have := Nat.one_le_two_pow (n := m)
        omega
      have hsum := sum_bound hone
      have hstep := pow_step (M := c * (rows.length - 1) + 1) (k := min rows.length (2 ^ (m + 1)) - 2) (e := min rows.length (2 ^ (m + 1)) - 1)
        (by omega) (by omega)
      rw [Nat.add_sub_cancel] at hstep
      have := Nat.mul_le_mul_right ((c * (rows.length - 1) + 1) ^ (min rows.length (2 ^ (m + 1)) - 2)) hQl
      omega
    · intro L leafOf d hw he
      cases hg : ((splitOf d t).gain ==. F64.zero) with
      | true =>
        rw [treeOf_leaf hg]
        exact List.mem_cons_self
      | false =>
        obtain ⟨_, _, _, hyes, hno⟩ := splitOf_separates hw hg
        refine List.mem_cons_of_mem _ (List.mem_flatMap.mpr ⟨(splitOf d t).question, ?_, ?_⟩)
        · rw [hQ, List.mem_filter, decide_eq_true_iff, ← he]
          exact ⟨mem_openQuestions hw hg, hyes, hno⟩
        · rw [hboth, List.mem_map]
          have m1 := hmem (rows.filter (satisfies (splitOf d t).question)) L leafOf (d.restrict c (satisfies (splitOf d t).question))
            (restrict_wf hw hyes) (by rw [restrict_rows_filter hw, he])
          have m2 := hmem (rows.filter (fun r => !satisfies (splitOf d t).question r)) L leafOf
            (d.restrict c (fun r => !satisfies (splitOf d t).question r))
            (restrict_wf hw (by obtain ⟨r, hr, h⟩ := hno; exact ⟨r, hr, by simp [h]⟩)) (by rw [restrict_rows_filter hw, he])
          refine ⟨(_, _), List.mem_product.mpr ⟨m1, m2⟩, ?_⟩
          rw [treeOf_node hg]
          rfl

/-- **C116** (trees).  Whatever the labels, the trees learned for a table of `N` rows with `c` features send the rows - all rows, seen or
unseen - along the paths of one of `(c (N - 1) + 1) ^ (b - 1)` ways at most, where `b` is `N` or `2 ^ max_levels`, whichever is smaller. -/
theorem C116_trees (rows columns : List (List F)) (c t : Nat) (cfg : TreeConfig) (hc : cfg.numberOfClasses = t) :
    ∃ ways : List (List F → List Bool),
      ways.length ≤ (c * (rows.length - 1) + 1) ^ (min rows.length (2 ^ cfg.maxLevels) - 1) ∧
      ∀ (labels : List (List F)) (k : LeafOutputType), (DataSet.mk rows labels columns).WF c t →
        (∀ tree, regressionTreeNew (DataSet.mk rows labels columns) cfg = .ok tree → (fun row => tree.route row) ∈ ways) ∧
        (∀ tree, gradBoostTreeNew (DataSet.mk rows labels columns) cfg k = .ok tree → (fun row => tree.route row) ∈ ways) ∧
        (∀ tree, amgTreeNew (DataSet.mk rows labels columns) cfg k = .ok tree → (fun row => tree.route row) ∈ ways) := by
  obtain ⟨ways, h1, h2⟩ := ways_exist c t cfg.maxLevels rows
  refine ⟨ways, h1, fun labels k hw => ⟨fun tree ht => ?_, fun tree ht => ?_, fun tree ht => ?_⟩⟩
  · rw [regressionTreeNew_ok hw hc] at ht
    cases ht
    exact h2 _ _ _ hw rfl
  · rw [gradBoostTreeNew_ok hw hc k] at ht
    cases ht
    exact h2 _ _ _ hw rfl
  · rw [amgTreeNew_ok hw hc k] at ht
    cases ht
    exact h2 _ _ _ hw rfl

/-- all lists of `n` entries of `l` -/
theorem tuples_exist {α : Type} (l : List α) (n : Nat) :
    ∃ ls : List (List α), ls.length ≤ l.length ^ n ∧ ∀ x : List α, x.length = n → (∀ a ∈ x, a ∈ l) → x ∈ ls := by
  induction n with
  | zero => exact ⟨[[]], by simp, fun x hx _ => by simp [List.eq_nil_of_length_eq_zero hx]⟩
  | succ n ih =>
    obtain ⟨ls, h1, h2⟩ := ih
    refine ⟨(l ×ˢ ls).map (fun p => p.1 :: p.2), ?_, fun x hx hm => ?_⟩
    · rw [List.length_map, List.length_product, pow_succ, Nat.mul_comm]
      exact Nat.mul_le_mul_right _ h1
    · match x, hx with
      | a :: x, hx =>
        exact List.mem_map.mpr ⟨(a, x), List.mem_product.mpr ⟨hm a List.mem_cons_self, h2 x (by simpa using hx)
          (fun b hb => hm b (List.mem_cons_of_mem _ hb))⟩, rfl⟩

theorem ensemble_ways (c t m n : Nat) (rows : List (List F)) :
    ∃ ways : List (List F → List (List Bool)), ways.length ≤ ((c * (rows.length - 1) + 1) ^ (min rows.length (2 ^ m) - 1)) ^ n ∧
      ∀ (L : Type) (leafOf : DataSet F → L) (d : DataSet F) (trees : List (TreeNode F L)), d.featureRows = rows → trees.length = n →
        (∀ tree ∈ trees, ∃ r, ({ d with labels := r } : DataSet F).WF c t ∧ tree = treeOf leafOf c t m { d with labels := r }) →
        (fun row => trees.map (fun tree => tree.route row)) ∈ ways := by
  obtain ⟨ways, h1, h2⟩ := ways_exist c t m rows
  obtain ⟨ls, h3, h4⟩ := tuples_exist ways n
  refine ⟨ls.map (fun x row => x.map (fun w => w row)), ?_, fun L leafOf d trees hd hn ht => ?_⟩
  · rw [List.length_map]
    exact h3.trans (Nat.pow_le_pow_left h1 n)
  · refine List.mem_map.mpr ⟨trees.map (fun tree row => tree.route row), h4 _ (by simpa using hn) ?_, ?_⟩
    · intro w hw
      obtain ⟨tree, htree, rfl⟩ := List.mem_map.mp hw
      obtain ⟨r, hr, rfl⟩ := ht tree htree
      exact h2 _ _ _ hr hd
    · funext row
      rw [List.map_map]
      rfl

/-- **C116** (ensembles).  The same for the trees of an ensemble together, with the number of ways of a tree to the power of the number of
iterations: neither the labels nor the learning rate produce more. -/
theorem C116_ensembles [LawfulCount F] (rows columns : List (List F)) (c t : Nat) (cfg : TreeConfig) (hc : cfg.numberOfClasses = t) (n : Nat) :
    ∃ ways : List (List F → List (List Bool)),
      ways.length ≤ ((c * (rows.length - 1) + 1) ^ (min rows.length (2 ^ cfg.maxLevels) - 1)) ^ n ∧
      ∀ (labels : List (List F)) (lr : F), (DataSet.mk rows labels columns).WF c t →
        (∀ m, regressionTrain (DataSet.mk rows labels columns) cfg n lr = .ok m →
          (fun row => m.trees.map (fun tree => tree.route row)) ∈ ways) ∧
        (∀ m, multiClassTrain (DataSet.mk rows labels columns) cfg n lr = .ok m →
          (fun row => m.trees.map (fun tree => tree.route row)) ∈ ways) ∧
        (∀ m, amgTrain (DataSet.mk rows labels columns) cfg n lr = .ok m →
          (fun row => m.trees.map (fun tree => tree.route row)) ∈ ways) := by
  obtain ⟨ways, h1, h2⟩ := ensemble_ways c t cfg.maxLevels n rows
  refine ⟨ways, h1, fun labels lr hw => ⟨fun m hm => ?_, fun m hm => ?_, fun m hm => ?_⟩⟩
  · exact h2 _ _ (DataSet.mk rows labels columns) _ rfl (C31_regression _ cfg n lr m hm).1 (regression_trees_of hw hc hm)
  · exact h2 _ _ (DataSet.mk rows labels columns) _ rfl (C31_multiClass _ cfg n lr m hm).1 (multiClass_trees_of hw hc hm)
  · exact h2 _ _ (DataSet.mk rows labels columns) _ rfl (C31_amg _ cfg n lr m hm).1 (amg_trees_of hw hc hm)

/-! ## counting the labels that are fitted -/

theorem routes_encard {tree : TreeNode F L} (h : tree.Proper) : {p | ∃ row : List F, tree.route row = p}.encard ≤ tree.leaves.length := by
  induction h with
  | leaf q l =>
    refine (Set.encard_le_encard (t := {[]}) ?_).trans (by simp [TreeNode.leaves])
    rintro _ ⟨row, rfl⟩
    rfl
  | node q a b _ _ iha ihb =>
    refine (Set.encard_le_encard (t := (List.cons true '' {p | ∃ row : List F, a.route row = p}) ∪
      (List.cons false '' {p | ∃ row : List F, b.route row = p})) ?_).trans ((Set.encard_union_le _ _).trans ?_)
    · rintro _ ⟨row, rfl⟩
      simp only [TreeNode.route]
      split
      · exact Or.inl ⟨_, ⟨row, rfl⟩, rfl⟩
      · exact Or.inr ⟨_, ⟨row, rfl⟩, rfl⟩
    · simp only [TreeNode.leaves, List.length_append, Nat.cast_add]
      exact add_le_add ((Set.encard_image_le _ _).trans iha) ((Set.encard_image_le _ _).trans ihb)

theorem encard_union_list {α β : Type} (ws : List α) (S : α → Set β) (B : ℕ∞) (h : ∀ w ∈ ws, (S w).encard ≤ B) :
    {x | ∃ w ∈ ws, x ∈ S w}.encard ≤ ws.length * B := by
  induction ws with
  | nil => simp
  | cons w ws ih =>
    have : {x | ∃ v ∈ w :: ws, x ∈ S v} ⊆ S w ∪ {x | ∃ v ∈ ws, x ∈ S v} := by
      rintro x ⟨v, hv, hx⟩
      rcases List.mem_cons.mp hv with rfl | hv
      · exact Or.inl hx
      · exact Or.inr ⟨v, hv, hx⟩
    refine (Set.encard_le_encard this).trans ((Set.encard_union_le _ _).trans ?_)
    rw [List.length_cons, Nat.cast_add, Nat.cast_one, add_mul, one_mul, add_comm]
    exact add_le_add (ih (fun v hv => h v (List.mem_cons_of_mem _ hv))) (h w List.mem_cons_self)

/-- the number of tables of values that are constant on groups -/
theorem grouped_count {π : Type} (rows : List (List F)) (values : List (List F)) (w : List F → π) (B : Nat)
    (hB : {p | ∃ row, w row = p}.encard ≤ B) (hv : values ≠ []) :
    {labels | (∀ l ∈ labels, l ∈ values) ∧ ∃ g : π → List F, labels = rows.map (fun row => g (w row))}.encard ≤ ((values.length : Nat) : ℕ∞) ^ B := by
  classical
  have h1 := encard_determined (P := fun g : π → List F => ∀ row ∈ rows, g (w row) ∈ values) (f := fun g => rows.map (fun row => g (w row)))
    (g := fun g => ((rows.map w).dedup).map g) (fun a b _ _ h => by
      refine List.map_congr_left fun row hrow => ?_
      exact List.map_inj_left.mp h _ (List.mem_dedup.mpr (List.mem_map.mpr ⟨row, hrow, rfl⟩)))
  refine (Set.encard_le_encard ?_).trans (h1.trans ((Set.encard_le_encard (t := {l | List.Forall₂ (· ∈ ·) l
    ((rows.map w).dedup.map (fun _ => {v | v ∈ values}))}) ?_).trans ((encard_lists _).trans ?_)))
  · rintro labels ⟨hl, g, rfl⟩
    exact ⟨g, fun row hrow => hl _ (List.mem_map.mpr ⟨row, hrow, rfl⟩), rfl⟩
  · rintro _ ⟨g, hg, rfl⟩
    rw [Set.mem_ofPred_eq, List.forall₂_map_left_iff, List.forall₂_map_right_iff, List.forall₂_same]
    intro p hp
    obtain ⟨row, hrow, rfl⟩ := List.mem_map.mp (List.mem_dedup.mp hp)
    exact hg row hrow
  · refine (prod_le_pow (b := ((values.length : Nat) : ℕ∞)) ?_).trans ?_
    · intro x hx
      simp only [List.map_map, List.mem_map] at hx
      obtain ⟨_, _, rfl⟩ := hx
      have : {v | v ∈ values} = (values.toFinset : Set (List F)) := by ext; simp
      simp only [Function.comp_apply]
      rw [this, Set.encard_coe_eq_coe_finsetCard]
      exact_mod_cast values.toFinset_card_le
    · rw [List.length_map, List.length_map]
      have h2 : (rows.map w).dedup.length ≤ B := by
        have : (((rows.map w).toFinset : Set π)).encard ≤ B := (Set.encard_le_encard (by
          intro p hp
          simp only [List.coe_toFinset, List.mem_map, Set.mem_ofPred_eq] at hp ⊢
          obtain ⟨row, _, rfl⟩ := hp
          exact ⟨row, rfl⟩)).trans hB
        rw [Set.encard_coe_eq_coe_finsetCard, List.card_toFinset] at this
        exact_mod_cast this
      have h3 : 1 ≤ values.length := List.length_pos_of_ne_nil hv
      exact_mod_cast Nat.pow_le_pow_right h3 h2

theorem fitted_count {π : Type} (rows values : List (List F)) (ways : List (List F → π)) (B : Nat) (hv : values ≠ []) (S : Set (List (List F)))
    (hS : ∀ labels ∈ S, (∀ l ∈ labels, l ∈ values) ∧ ∃ w ∈ ways, {p | ∃ row, w row = p}.encard ≤ B ∧
      ∃ pred : List F → R (List F), (∀ row row', row ∈ rows → row' ∈ rows → w row = w row' → pred row = pred row') ∧
        List.Forall₂ (fun row l => pred row = .ok l) rows labels) :
    S.encard ≤ ways.length * ((values.length : Nat) : ℕ∞) ^ B := by
  classical
  have hsub : S ⊆ {x | ∃ w ∈ ways.filter (fun w => decide ({p | ∃ row, w row = p}.encard ≤ B)),
      x ∈ {labels | (∀ l ∈ labels, l ∈ values) ∧ ∃ g : π → List F, labels = rows.map (fun row => g (w row))}} := ?_
  have hcount := encard_union_list (ways.filter (fun w => decide ({p | ∃ row, w row = p}.encard ≤ B)))
    (fun w => {labels | (∀ l ∈ labels, l ∈ values) ∧ ∃ g : π → List F, labels = rows.map (fun row => g (w row))}) (((values.length : Nat) : ℕ∞) ^ B)
    (fun w hw => grouped_count rows values w B (of_decide_eq_true (List.mem_filter.mp hw).2) hv)
  · refine (Set.encard_le_encard hsub).trans (hcount.trans ?_)
    have : (ways.filter (fun w => decide ({p | ∃ row, w row = p}.encard ≤ B))).length ≤ ways.length := List.length_filter_le _ _
    exact mul_le_mul_left (by exact_mod_cast this) _
  · intro labels hl
    obtain ⟨h1, w, hw, hB, pred, hp, hf⟩ := hS labels hl
    refine ⟨w, List.mem_filter.mpr ⟨hw, by simpa using hB⟩, h1, ?_⟩
    refine ⟨fun p => if h : ∃ row ∈ rows, w row = p then ((pred h.choose).toOption).getD [] else [], ?_⟩
    have : ∀ (xs ys : List (List F)), (∀ x ∈ xs, x ∈ rows) → List.Forall₂ (fun row l => pred row = .ok l) xs ys →
        ys = xs.map (fun row => if h : ∃ row' ∈ rows, w row' = w row then ((pred h.choose).toOption).getD [] else []) := by
      intro xs ys hx hxy
      induction hxy with
      | nil => rfl
      | @cons x y xs ys he _ ih =>
        rw [List.map_cons, ← ih (fun z hz => hx z (List.mem_cons_of_mem _ hz))]
        congr 1
        have hx0 := hx x List.mem_cons_self
        have hex : ∃ row' ∈ rows, w row' = w x := ⟨x, hx0, rfl⟩
        rw [dif_pos hex, hp hex.choose x hex.choose_spec.1 hx0 hex.choose_spec.2, he]
        rfl
    exact this rows labels (fun _ h => h) hf

theorem trees_routes {d : DataSet F} {c t m : Nat} {leafOf : DataSet F → L} {trees : List (TreeNode F L)}
    (ht : ∀ tree ∈ trees, ∃ r, ({ d with labels := r } : DataSet F).WF c t ∧ tree = treeOf leafOf c t m { d with labels := r }) :
    {p | ∃ row : List F, trees.map (fun tree => tree.route row) = p}.encard ≤ ((min d.featureRows.length (2 ^ m)) ^ trees.length : Nat) := by
  refine (Set.encard_le_encard (t := {l | List.Forall₂ (· ∈ ·) l (trees.map (fun tree => {p | ∃ row : List F, tree.route row = p}))}) ?_).trans
    ((encard_lists _).trans ?_)
  · rintro _ ⟨row, rfl⟩
    rw [Set.mem_ofPred_eq, List.forall₂_map_left_iff, List.forall₂_map_right_iff, List.forall₂_same]
    exact fun tree _ => ⟨row, rfl⟩
  · refine (prod_le_pow (b := ((min d.featureRows.length (2 ^ m) : Nat) : ℕ∞)) ?_).trans (by simp)
    intro x hx
    rw [List.map_map] at hx
    obtain ⟨tree, htree, rfl⟩ := List.mem_map.mp hx
    obtain ⟨r, hr, rfl⟩ := ht tree htree
    have hs := treeOf_size (leafOf := leafOf) m hr
    refine (routes_encard (treeOf_proper _ _)).trans ?_
    have h1 := hs.leaves_le
    have h2 := hs.leaves_le_pow
    exact_mod_cast (le_min h1 h2)

/-- the way through a tree determines the leaf that is found -/
theorem find_of_treeOf_route {d : DataSet F} {c t m : Nat} {leafOf : DataSet F → L} (h : d.WF c t) {row row' : List F} (hrow : c ≤ row.length)
    (hrow' : c ≤ row'.length) (hr : (treeOf leafOf c t m d).route row = (treeOf leafOf c t m d).route row') :
    findLeafNodeForData row (treeOf leafOf c t m d) = findLeafNodeForData row' (treeOf leafOf c t m d) := by
  have : ∀ {tree : TreeNode F L}, tree.Proper → (∀ p q, tree.questionAt p = some q → q.column < c) → tree.route row = tree.route row' →
      findLeafNodeForData row tree = findLeafNodeForData row' tree := by
    intro tree hp hq he
    induction hp with
    | leaf q l => rfl
    | node q a b _ _ iha ihb =>
      have hlt : q.column < c := hq [] q rfl
      have l1 : q.column < row.length := by omega
      have l2 : q.column < row'.length := by omega
      simp only [TreeNode.route] at he
      have hs : satisfies q row = satisfies q row' := by
        cases h1 : satisfies q row <;> cases h2 : satisfies q row' <;> simp [h1, h2] at he ⊢
      rw [← hs] at he
      simp only [satisfies, List.getElem?_eq_getElem l1, List.getElem?_eq_getElem l2] at hs he
      simp only [findLeafNodeForData, Question.solve, idx_lt l1, idx_lt l2, R.ok_bind, Option.isNone_some, Bool.and_self, Bool.not_false, if_true, ← hs]
      cases h1 : (q.value <=. row[q.column]) with
      | true =>
        rw [h1] at he
        simp only [if_true, List.cons.injEq, true_and] at he
        simp [iha (fun p q h => hq (true :: p) q h) he, pure, Except.pure, bind, Except.bind]
      | false =>
        rw [h1] at he
        simp only [Bool.false_eq_true, if_false, List.cons.injEq, true_and] at he
        simp [ihb (fun p q h => hq (false :: p) q h) he, pure, Except.pure, bind, Except.bind]
  exact this (treeOf_proper _ _) (fun p q hq => (grown_questions (treeOf_greedy _ _ h) hq).1) hr

theorem no_values {rows columns : List (List F)} {c t : Nat} {labels : List (List F)} (hw : (DataSet.mk rows labels columns).WF c t)
    {values : List (List F)} (hv : ∀ l ∈ labels, l ∈ values) : values ≠ [] := by
  obtain ⟨l, hl⟩ := List.exists_mem_of_ne_nil _ hw.labels_ne
  exact List.ne_nil_of_mem (hv l hl)

/-- **C116** (what single trees fit).  Of the tables of labels that can be formed with `k` label vectors, at most
`(c (N - 1) + 1) ^ (b - 1) * k ^ b` are such that the tree learned from them gives every training row its label - whatever rule turns the
contents of a leaf into a prediction. -/
theorem C116_fitted_by_trees (rows columns values : List (List F)) (c t : Nat) (cfg : TreeConfig) (hc : cfg.numberOfClasses = t) :
    {labels | (∀ l ∈ labels, l ∈ values) ∧ (DataSet.mk rows labels columns).WF c t ∧
      ∃ tree, regressionTreeNew (DataSet.mk rows labels columns) cfg = .ok tree ∧
      ∃ rule : RegressionLeaf F → R (List F), List.Forall₂ (fun row l => (findLeafNodeForData row tree >>= rule) = .ok l) rows labels}.encard ≤
    (((c * (rows.length - 1) + 1) ^ (min rows.length (2 ^ cfg.maxLevels) - 1) *
      values.length ^ min rows.length (2 ^ cfg.maxLevels) : Nat) : ℕ∞) := by
  by_cases hv : values = []
  · have : {labels | (∀ l ∈ labels, l ∈ values) ∧ (DataSet.mk rows labels columns).WF c t ∧
      ∃ tree, regressionTreeNew (DataSet.mk rows labels columns) cfg = .ok tree ∧
      ∃ rule : RegressionLeaf F → R (List F), List.Forall₂ (fun row l => (findLeafNodeForData row tree >>= rule) = .ok l) rows labels} = ∅ := by
      ext labels
      simp only [Set.mem_ofPred_eq, Set.mem_empty_iff_false, iff_false]
      rintro ⟨h1, h2, _⟩
      exact no_values h2 h1 hv
    rw [this]
    simp
  obtain ⟨ways, h1, h2⟩ := ways_exist c t cfg.maxLevels rows
  refine (fitted_count rows values ways (min rows.length (2 ^ cfg.maxLevels)) hv _ ?_).trans ?_
  · rintro labels ⟨hl, hw, tree, ht, rule, hf⟩
    rw [regressionTreeNew_ok hw hc] at ht
    cases ht
    have hs := treeOf_size (leafOf := regLeaf) cfg.maxLevels hw
    refine ⟨hl, _, h2 _ regLeaf _ hw rfl, (routes_encard (treeOf_proper _ _)).trans (by exact_mod_cast le_min hs.leaves_le hs.leaves_le_pow),
      fun row => findLeafNodeForData row _ >>= rule, fun row row' hr hr' he => ?_, hf⟩
    have hr : row.length = c := hw.row_len row hr
    have hr' : row'.length = c := hw.row_len row' hr'
    show (findLeafNodeForData row _ >>= rule) = (findLeafNodeForData row' _ >>= rule)
    rw [find_of_treeOf_route hw (by omega) (by omega) he]
  · rw [Nat.cast_mul, Nat.cast_pow values.length]
    exact mul_le_mul_left (by exact_mod_cast h1) _

theorem ensemble_fitted {α L : Type} {rows columns values : List (List F)} {c t m n : Nat} {leafOf : DataSet F → L} (S : Set (List (List F)))
    (out : α → List (TreeNode F L)) (pred : α → List F → R (List F))
    (hpred : ∀ a row row', (∀ tree ∈ out a, findLeafNodeForData row tree = findLeafNodeForData row' tree) → pred a row = pred a row')
    (hS : ∀ labels ∈ S, (∀ l ∈ labels, l ∈ values) ∧ (DataSet.mk rows labels columns).WF c t ∧ ∃ a, (out a).length = n ∧
      (∀ tree ∈ out a, ∃ r, ({ (DataSet.mk rows labels columns) with labels := r } : DataSet F).WF c t ∧
        tree = treeOf leafOf c t m { (DataSet.mk rows labels columns) with labels := r }) ∧
      List.Forall₂ (fun row l => pred a row = .ok l) rows labels) :
    S.encard ≤ (((c * (rows.length - 1) + 1) ^ (min rows.length (2 ^ m) - 1)) ^ n * values.length ^ (min rows.length (2 ^ m)) ^ n : Nat) := by
  by_cases hv : values = []
  · have : S = ∅ := by
      ext labels
      simp only [Set.mem_empty_iff_false, iff_false]
      intro hl
      obtain ⟨h1, h2, _⟩ := hS labels hl
      exact no_values h2 h1 hv
    rw [this]
    simp
  obtain ⟨ways, h1, h2⟩ := ensemble_ways c t m n rows
  refine (fitted_count rows values ways ((min rows.length (2 ^ m)) ^ n) hv _ ?_).trans ?_
  · intro labels hl
    obtain ⟨hl, hw, a, hn, ht, hf⟩ := hS labels hl
    refine ⟨hl, _, h2 _ leafOf (DataSet.mk rows labels columns) (out a) rfl hn ht, ?_, pred a, fun row row' hr hr' he => ?_, hf⟩
    · have := trees_routes ht
      rw [hn] at this
      exact this
    · refine hpred a row row' fun tree htree => ?_
      have he := List.map_inj_left.mp he tree htree
      obtain ⟨r, hr0, rfl⟩ := ht tree htree
      have hr : row.length = c := hw.row_len row hr
      have hr' : row'.length = c := hw.row_len row' hr'
      exact find_of_treeOf_route hr0 (by omega) (by omega) he
  · rw [Nat.cast_mul, Nat.cast_pow values.length]
    exact mul_le_mul_left (by exact_mod_cast h1) _

/-- **C116** (what ensembles fit).  Of the tables of labels that can be formed with `k` label vectors, an ensemble of `n` iterations reproduces
at most `(c (N - 1) + 1) ^ ((b - 1) n) * k ^ (b ^ n)`, all learning rates together. -/
theorem C116_fitted_by_ensembles [LawfulCount F] (rows columns values : List (List F)) (c t : Nat) (cfg : TreeConfig)
    (hc : cfg.numberOfClasses = t) (n : Nat) :
    {labels | (∀ l ∈ labels, l ∈ values) ∧ (DataSet.mk rows labels columns).WF c t ∧
      ∃ lr m, regressionTrain (DataSet.mk rows labels columns) cfg n lr = .ok m ∧
      List.Forall₂ (fun row l => regressionPredict m row = .ok l) rows labels}.encard ≤
    ((((c * (rows.length - 1) + 1) ^ (min rows.length (2 ^ cfg.maxLevels) - 1)) ^ n *
      values.length ^ (min rows.length (2 ^ cfg.maxLevels)) ^ n : Nat) : ℕ∞) ∧
    {labels | (∀ l ∈ labels, l ∈ values) ∧ (DataSet.mk rows labels columns).WF c t ∧
      ∃ lr m, multiClassTrain (DataSet.mk rows labels columns) cfg n lr = .ok m ∧
      List.Forall₂ (fun row l => multiClassPredict m row = .ok l) rows labels}.encard ≤
    ((((c * (rows.length - 1) + 1) ^ (min rows.length (2 ^ cfg.maxLevels) - 1)) ^ n *
      values.length ^ (min rows.length (2 ^ cfg.maxLevels)) ^ n : Nat) : ℕ∞) ∧
    {labels | (∀ l ∈ labels, l ∈ values) ∧ (DataSet.mk rows labels columns).WF c t ∧
      ∃ lr m, amgTrain (DataSet.mk rows labels columns) cfg n lr = .ok m ∧
      List.Forall₂ (fun row l => amgPredict m row = .ok l) rows labels}.encard ≤
    ((((c * (rows.length - 1) + 1) ^ (min rows.length (2 ^ cfg.maxLevels) - 1)) ^ n *
      values.length ^ (min rows.length (2 ^ cfg.maxLevels)) ^ n : Nat) : ℕ∞) := by
  refine ⟨?_, ?_, ?_⟩
  · refine ensemble_fitted (columns := columns) (t := t) (leafOf := gradLeaf .regression t) _ (fun m : BoostModel F (GradBoostLeaf F) => m.trees) regressionPredict (fun m row row' h => ?_) ?_
    · simp only [regressionPredict, predictInstance_eq]
      exact rawScore_congr (fun tree ht => by simp only [gradOut, h tree ht])
    · rintro labels ⟨hl, hw, lr, m, hm, hf⟩
      exact ⟨hl, hw, m, (C31_regression _ cfg n lr m hm).1, regression_trees_of hw hc hm, hf⟩
  · refine ensemble_fitted (columns := columns) (t := t) (leafOf := gradLeaf .multiClassClassification t) _ (fun m : BoostModel F (GradBoostLeaf F) => m.trees) multiClassPredict (fun m row row' h => ?_) ?_
    · simp only [multiClassPredict, predictInstance_eq]
      rw [rawScore_congr (row' := row') (fun tree ht => by simp only [gradOut, h tree ht])]
    · rintro labels ⟨hl, hw, lr, m, hm, hf⟩
      exact ⟨hl, hw, m, (C31_multiClass _ cfg n lr m hm).1, multiClass_trees_of hw hc hm, hf⟩
  · refine ensemble_fitted (columns := columns) (t := t) (leafOf := amgLeaf .multiClassClassification t) _ (fun m : BoostModel F (AMGBoostLeaf F) => m.trees) amgPredict (fun m row row' h => ?_) ?_
    · simp only [amgPredict, amgPredictInstance_eq]
      rw [rawScore_congr (row' := row') (fun tree ht => by simp only [amgOut, h tree ht])]
    · rintro labels ⟨hl, hw, lr, m, hm, hf⟩
      exact ⟨hl, hw, m, (C31_amg _ cfg n lr m hm).1, amg_trees_of hw hc hm, hf⟩

/-! ## labels that cannot be fitted -/

theorem tables_count {α : Type} (values : List α) (hv : values.Nodup) (N : Nat) :
    ((values.length ^ N : Nat) : ℕ∞) ≤ {labels : List α | labels.length = N ∧ ∀ l ∈ labels, l ∈ values}.encard := by
  have hinj : Function.Injective (fun f : Fin N → Fin values.length => List.ofFn (fun i => values[f i])) := by
    intro f g h
    have := List.ofFn_injective h
    funext i
    have hi := congrFun this i
    exact Fin.ext ((List.Nodup.getElem_inj_iff hv).mp hi)
  have h1 : (Set.range (fun f : Fin N → Fin values.length => List.ofFn (fun i => values[f i]))) ⊆
      {labels : List α | labels.length = N ∧ ∀ l ∈ labels, l ∈ values} := by
    rintro _ ⟨f, rfl⟩
    refine ⟨by simp, fun l hl => ?_⟩
    obtain ⟨i, rfl⟩ := (List.mem_ofFn' _ _).mp hl
    exact List.getElem_mem _
  refine _root_.le_trans (_root_.le_of_eq ?_) (Set.encard_le_encard h1)
  rw [← Set.image_univ, hinj.encard_image, Set.encard_univ, ENat.card_eq_coe_fintype_card]
  simp

theorem outside {rows columns values : List (List F)} {c t : Nat} (hv : values.Nodup) (hlen : ∀ v ∈ values, v.length = t)
    {labels0 : List (List F)} (h0 : (DataSet.mk rows labels0 columns).WF c t) {S : Set (List (List F))} {B : Nat} (hS : S.encard ≤ B)
    (hB : B < values.length ^ rows.length) :
    ∃ labels, (∀ l ∈ labels, l ∈ values) ∧ (DataSet.mk rows labels columns).WF c t ∧ labels ∉ S := by
  by_contra hc
  push Not at hc
  have hsub : {labels : List (List F) | labels.length = rows.length ∧ ∀ l ∈ labels, l ∈ values} ⊆ S := by
    rintro labels ⟨h1, h2⟩
    exact hc labels h2 ⟨h0.rows_ne, h0.row_len, h1, fun l hl => hlen l (h2 l hl), h0.cols, h0.no_nan, h0.cols_u32⟩
  have := (tables_count values hv rows.length).trans ((Set.encard_le_encard hsub).trans hS)
  have : values.length ^ rows.length ≤ B := by exact_mod_cast this
  omega

/-- **C116** (labels that no tree fits).  If `k ^ N` exceeds that bound, then for some choice of labels among the `k` vectors the tree gives
some training row another prediction than its label, whatever the rule. -/
theorem C116_unfitted_by_trees (rows columns values : List (List F)) (c t : Nat) (hv : values.Nodup) (hlen : ∀ v ∈ values, v.length = t)
    (labels0 : List (List F)) (h0 : (DataSet.mk rows labels0 columns).WF c t) (cfg : TreeConfig) (hc : cfg.numberOfClasses = t)
    (hlt : (c * (rows.length - 1) + 1) ^ (min rows.length (2 ^ cfg.maxLevels) - 1) * values.length ^ min rows.length (2 ^ cfg.maxLevels) <
      values.length ^ rows.length) :
    ∃ labels, (∀ l ∈ labels, l ∈ values) ∧ (DataSet.mk rows labels columns).WF c t ∧
      ∃ tree, regressionTreeNew (DataSet.mk rows labels columns) cfg = .ok tree ∧
      ∀ rule : RegressionLeaf F → R (List F), ∃ e ∈ rows.zip labels, (findLeafNodeForData e.1 tree >>= rule) ≠ .ok e.2 := by
  obtain ⟨labels, h1, h2, h3⟩ := outside hv hlen h0 (C116_fitted_by_trees rows columns values c t cfg hc) hlt
  refine ⟨labels, h1, h2, _, regressionTreeNew_ok h2 hc, fun rule => ?_⟩
  by_contra hn
  push Not at hn
  exact h3 ⟨h1, h2, _, regressionTreeNew_ok h2 hc, rule,
    List.forall₂_iff_zip.mpr ⟨h2.label_count.symm, fun hab => hn _ hab⟩⟩

/-- **C116** (class trees).  In particular `predict_class` gets some training row wrong. -/
theorem C116_misclassified (rows columns values : List (List F)) (c t : Nat) (hv : values.Nodup) (hlen : ∀ v ∈ values, v.length = t)
    (labels0 : List (List F)) (h0 : (DataSet.mk rows labels0 columns).WF c t) (cfg : TreeConfig) (hc : cfg.numberOfClasses = t)
    (hlt : (c * (rows.length - 1) + 1) ^ (min rows.length (2 ^ cfg.maxLevels) - 1) * values.length ^ min rows.length (2 ^ cfg.maxLevels) <
      values.length ^ rows.length) :
    ∃ labels, (∀ l ∈ labels, l ∈ values) ∧ (DataSet.mk rows labels columns).WF c t ∧
      ∃ tree, regressionTreeNew (DataSet.mk rows labels columns) cfg = .ok tree ∧ ∃ e ∈ rows.zip labels, predictClass e.1 tree ≠ .ok e.2 := by
  obtain ⟨labels, h1, h2, tree, h3, h4⟩ := C116_unfitted_by_trees rows columns values c t hv hlen labels0 h0 cfg hc hlt
  refine ⟨labels, h1, h2, tree, h3, ?_⟩
  obtain ⟨e, he, hne⟩ := h4 (fun leaf => do
    let labels := (← unwrap leaf.data).labels
    let numberOfClasses := (← idx labels 0).length
    let counts ← getClassCounts labels numberOfClasses
    let (_, maxClass, _) := counts.foldl (fun (acc : Nat × F × F) count =>
        let (max, maxClass, index) := acc
        let (max, maxClass) := if count > max then (count, index) else (max, maxClass)
        (max, maxClass, index +. F64.one)) (0, F64.zero, F64.zero)
    setIdx (List.replicate numberOfClasses F64.zero) (F64.toUsize maxClass) F64.one)
  exact ⟨e, he, hne⟩

/-- **C116** (labels that no ensemble fits).  The same for each of the three ensembles; one choice of labels defies all learning rates. -/
theorem C116_unfitted_by_ensembles [LawfulCount F] (rows columns values : List (List F)) (c t : Nat) (hv : values.Nodup)
    (hlen : ∀ v ∈ values, v.length = t) (labels0 : List (List F)) (h0 : (DataSet.mk rows labels0 columns).WF c t) (cfg : TreeConfig)
    (hc : cfg.numberOfClasses = t) (n : Nat)
    (hlt : ((c * (rows.length - 1) + 1) ^ (min rows.length (2 ^ cfg.maxLevels) - 1)) ^ n *
      values.length ^ (min rows.length (2 ^ cfg.maxLevels)) ^ n < values.length ^ rows.length) :
    (∃ labels, (∀ l ∈ labels, l ∈ values) ∧ (DataSet.mk rows labels columns).WF c t ∧
      ∀ lr m, regressionTrain (DataSet.mk rows labels columns) cfg n lr = .ok m → ∃ e ∈ rows.zip labels, regressionPredict m e.1 ≠ .ok e.2) ∧
    (∃ labels, (∀ l ∈ labels, l ∈ values) ∧ (DataSet.mk rows labels columns).WF c t ∧
      ∀ lr m, multiClassTrain (DataSet.mk rows labels columns) cfg n lr = .ok m → ∃ e ∈ rows.zip labels, multiClassPredict m e.1 ≠ .ok e.2) ∧
    (∃ labels, (∀ l ∈ labels, l ∈ values) ∧ (DataSet.mk rows labels columns).WF c t ∧
      ∀ lr m, amgTrain (DataSet.mk rows labels columns) cfg n lr = .ok m → ∃ e ∈ rows.zip labels, amgPredict m e.1 ≠ .ok e.2) := by
  obtain ⟨f1, f2, f3⟩ := C116_fitted_by_ensembles rows columns values c t cfg hc n
  refine ⟨?_, ?_, ?_⟩
  · obtain ⟨labels, h1, h2, h3⟩ := outside hv hlen h0 f1 hlt
    refine ⟨labels, h1, h2, fun lr m hm => ?_⟩
    by_contra hn
    push Not at hn
    exact h3 ⟨h1, h2, lr, m, hm, List.forall₂_iff_zip.mpr ⟨h2.label_count.symm, fun hab => hn _ hab⟩⟩
  · obtain ⟨labels, h1, h2, h3⟩ := outside hv hlen h0 f2 hlt
    refine ⟨labels, h1, h2, fun lr m hm => ?_⟩
    by_contra hn
    push Not at hn
    exact h3 ⟨h1, h2, lr, m, hm, List.forall₂_iff_zip.mpr ⟨h2.label_count.symm, fun hab => hn _ hab⟩⟩
  · obtain ⟨labels, h1, h2, h3⟩ := outside hv hlen h0 f3 hlt
    refine ⟨labels, h1, h2, fun lr m hm => ?_⟩
    by_contra hn
    push Not at hn
    exact h3 ⟨h1, h2, lr, m, hm, List.forall₂_iff_zip.mpr ⟨h2.label_count.symm, fun hab => hn _ hab⟩⟩

end

/-! ## examples -/

/-- five rows with one feature -/
def five : DataSet E :=
  { featureRows := [[0], [1], [2], [3], [4]]
    labels := [[1, 0], [1, 0], [0, 1], [0, 1], [0, 1]]
    featureColumns := [[0, 1, 2, 3, 4]] }

theorem five_wf : five.WF 1 2 :=
  ⟨by decide +kernel, by decide +kernel, by decide +kernel, by decide +kernel, by decide +kernel, by decide +kernel, by decide +kernel⟩

/-- five rows, two classes, one question: 5 ways of dividing the rows, 4 ways of labelling two groups, but 32 ways of labelling five rows -/
example : ∃ labels : List (List E), (∀ l ∈ labels, l ∈ [[1, 0], [0, 1]]) ∧ (DataSet.mk five.featureRows labels five.featureColumns).WF 1 2 ∧
    ∃ tree, regressionTreeNew (DataSet.mk five.featureRows labels five.featureColumns) (exCfg 2) = .ok tree ∧
    ∃ e ∈ five.featureRows.zip labels, predictClass e.1 tree ≠ .ok e.2 :=
  C116_misclassified five.featureRows five.featureColumns [[1, 0], [0, 1]] 1 2 (by decide +kernel) (by decide +kernel) five.labels five_wf
    (exCfg 2) rfl (by decide +kernel)

/-- the labels of `five` itself are fitted -/
example : five ∈ {d : DataSet E | ∃ tree, regressionTreeNew d (exCfg 2) = .ok tree ∧
    List.Forall₂ (fun row l => predictClass row tree = .ok l) d.featureRows d.labels} := by
  have h : (match regressionTreeNew five (exCfg 2) with
    | .ok tree => decide (five.featureRows.map (fun row => predictClass row tree) = five.labels.map Except.ok)
    | .error _ => false) = true := by decide +kernel
  rw [regressionTreeNew_ok five_wf rfl] at h
  refine ⟨_, regressionTreeNew_ok five_wf rfl, ?_⟩
  have h := of_decide_eq_true h
  rw [← List.forall₂_eq_eq_eq, List.forall₂_map_left_iff, List.forall₂_map_right_iff] at h
  exact h

/-- thirty rows with one feature -/
def thirty : DataSet E :=
  { featureRows := (List.range 30).map (fun i => [.fin (i : ℚ)])
    labels := (List.range 30).map (fun _ => [0])
    featureColumns := [(List.range 30).map (fun i => .fin (i : ℚ))] }

theorem thirty_wf : thirty.WF 1 1 :=
  ⟨by decide +kernel, by decide +kernel, by decide +kernel, by decide +kernel, by decide +kernel, by decide +kernel, by decide +kernel⟩

/-- two iterations with one question each fit at most 900 * 16 of the 2 ^ 30 tables of labels 0 and 1 -/
example : ∃ labels : List (List E), (∀ l ∈ labels, l ∈ [[0], [1]]) ∧ (DataSet.mk thirty.featureRows labels thirty.featureColumns).WF 1 1 ∧
    ∀ lr m, regressionTrain (DataSet.mk thirty.featureRows labels thirty.featureColumns) (exCfg 1) 2 lr = .ok m →
      ∃ e ∈ thirty.featureRows.zip labels, regressionPredict m e.1 ≠ .ok e.2 :=
  (C116_unfitted_by_ensembles _ _ [[0], [1]] 1 1 (by decide +kernel) (by decide +kernel) thirty.labels thirty_wf (exCfg 1) rfl 2
    (by simp [exCfg])).1

end Verif
