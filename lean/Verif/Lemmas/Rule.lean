import Verif.Spec.Rule
import Verif.Lemmas.Ties
import Verif.Lemmas.FullFit
import Verif.Lemmas.DeepClass
/-! # Trees on data that one question explains -/

set_option linter.unusedSectionVars false

namespace Verif

theorem Decides.map {F : Type} [F64 F] {α β : Type} {q : Question F} {rows : List (List F)} {vs : List α} (h : Decides q (rows.zip vs))
    (f : α → β) : Decides q (rows.zip (vs.map f)) := by
  intro e he e' he' hs
  rw [List.zip_map_right] at he he'
  obtain ⟨x, hx, rfl⟩ := List.mem_map.mp he
  obtain ⟨x', hx', rfl⟩ := List.mem_map.mp he'
  exact congrArg f (h x hx x' hx' hs)

theorem Decides.of_map {F : Type} [F64 F] {α β : Type} {q : Question F} {rows : List (List F)} {vs : List α} {f : α → β}
    (hf : ∀ a ∈ vs, ∀ b ∈ vs, f a = f b → a = b) (h : Decides q (rows.zip (vs.map f))) : Decides q (rows.zip vs) := by
  intro e he e' he' hs
  rw [Decides, List.zip_map_right] at h
  exact hf _ (List.of_mem_zip he).2 _ (List.of_mem_zip he').2 (h _ (List.mem_map.mpr ⟨e, he, rfl⟩) _ (List.mem_map.mpr ⟨e', he', rfl⟩) hs)

variable {K : Type} [Field K] [LinearOrder K] [IsStrictOrderedRing K] [FloorSemiring K] [HasExp K]

/-- `TiesAgree` for labels of any kind -/
def TiesOn {α : Type} (c : Nat) (rows : List (List (Ext K))) (vs : List α) : Prop :=
  ∀ j < c, ∀ e ∈ rows.zip vs, ∀ e' ∈ rows.zip vs, e.1.getD j F64.zero = e'.1.getD j F64.zero →
    (∃ row ∈ rows, (row.getD j F64.zero <. e.1.getD j F64.zero) = true) → e.2 = e'.2

theorem TiesOn.map {α β : Type} {c : Nat} {rows : List (List (Ext K))} {vs : List α} (h : TiesOn c rows vs) (f : α → β) :
    TiesOn c rows (vs.map f) := by
  intro j hj e he e' he' h1 h2
  rw [List.zip_map_right] at he he'
  obtain ⟨x, hx, rfl⟩ := List.mem_map.mp he
  obtain ⟨x', hx', rfl⟩ := List.mem_map.mp he'
  exact congrArg f (h j hj x hx x' hx' h1 h2)

theorem TiesOn.of_map {α β : Type} {c : Nat} {rows : List (List (Ext K))} {vs : List α} {f : α → β}
    (hf : ∀ a ∈ vs, ∀ b ∈ vs, f a = f b → a = b) (h : TiesOn c rows (vs.map f)) : TiesOn c rows vs := by
  intro j hj e he e' he' h1 h2
  rw [TiesOn, List.zip_map_right] at h
  exact hf _ (List.of_mem_zip he).2 _ (List.of_mem_zip he').2
    (h j hj _ (List.mem_map.mpr ⟨e, he, rfl⟩) _ (List.mem_map.mpr ⟨e', he', rfl⟩) h1 h2)

theorem DataSet.TiesAgree.on {c : Nat} {d : DataSet (Ext K)} (h : d.TiesAgree c) : TiesOn c d.featureRows d.labels := h

/-- labels without variance are all the same -/
theorem const_of_totalVar {t : Nat} {ls : List (List K)} (hw : ∀ l ∈ ls, l.length = t) (h : totalVar t ls = 0) :
    ∀ a ∈ ls, ∀ b ∈ ls, a = b := by
  intro a ha b hb
  rw [eq_range_getD (hw a ha) 0, eq_range_getD (hw b hb) 0]
  apply List.map_congr_left
  intro j hj
  have hz : varOf (target ls j) = 0 := by
    have := List.single_le_sum (l := (List.range t).map (fun j => varOf (target ls j))) (by
      intro x hx
      obtain ⟨i, _, rfl⟩ := List.mem_map.mp hx
      exact varOf_nonneg _) _ (List.mem_map.mpr ⟨j, hj, rfl⟩)
    exact _root_.le_antisymm (this.trans_eq h) (varOf_nonneg _)
  rw [varOf_eq_zero_iff] at hz
  exact hz _ (List.mem_map.mpr ⟨a, ha, rfl⟩) _ (List.mem_map.mpr ⟨b, hb, rfl⟩)

theorem gain_const {d : DataSet (Ext K)} {c t : Nat} (h : d.WF c t) {ls : List (List K)} (hls : d.labels = lift ls)
    (hc : ∀ a ∈ ls, ∀ b ∈ ls, a = b) : ((splitOf d t).gain ==. F64.zero) = true := by
  obtain ⟨g, h1, h2, h3, _⟩ := splitOf_exact h hls
  rw [totalVar_const hc] at h3
  rw [h1, _root_.le_antisymm h3 h2]
  simp

/-- the answers of a question that decides the labels leave no variance -/
theorem reduction_of_decides {t : Nat} {rows : List (List (Ext K))} {ls : List (List K)} {q : Question (Ext K)} (h : Decides q (rows.zip ls)) :
    varianceReduction t rows ls q = totalVar t ls := by
  have hy : totalVar t (yesLabels rows ls q) = 0 := by
    apply totalVar_const
    intro a ha b hb
    obtain ⟨x, hx, rfl⟩ := List.mem_map.mp ha
    obtain ⟨y, hy, rfl⟩ := List.mem_map.mp hb
    rw [List.mem_filter] at hx hy
    exact h x hx.1 y hy.1 (hx.2.trans hy.2.symm)
  have hn : totalVar t (noLabels rows ls q) = 0 := by
    apply totalVar_const
    intro a ha b hb
    obtain ⟨x, hx, rfl⟩ := List.mem_map.mp ha
    obtain ⟨y, hy, rfl⟩ := List.mem_map.mp hb
    rw [List.mem_filter, Bool.not_eq_true'] at hx hy
    exact h x hx.1 y hy.1 (hx.2.trans hy.2.symm)
  rw [varianceReduction, hy, hn]
  simp

/-- and only such a question does -/
theorem decides_of_reduction {t : Nat} {rows : List (List (Ext K))} {ls : List (List K)} (hw : ∀ l ∈ ls, l.length = t) {q : Question (Ext K)}
    (h : varianceReduction t rows ls q = totalVar t ls) : Decides q (rows.zip ls) := by
  have v1 := totalVar_nonneg t (noLabels rows ls q)
  have v2 := totalVar_nonneg t (yesLabels rows ls q)
  have l1 : (0 : K) ≤ (noLabels rows ls q).length := by positivity
  have l2 : (0 : K) ≤ (yesLabels rows ls q).length := by positivity
  rw [varianceReduction, sub_eq_self, div_eq_zero_iff] at h
  have wn : ∀ l ∈ noLabels rows ls q, l.length = t := by
    intro l hl
    obtain ⟨x, hx, rfl⟩ := List.mem_map.mp hl
    exact hw _ (List.of_mem_zip (List.mem_filter.mp hx).1).2
  have wy : ∀ l ∈ yesLabels rows ls q, l.length = t := by
    intro l hl
    obtain ⟨x, hx, rfl⟩ := List.mem_map.mp hl
    exact hw _ (List.of_mem_zip (List.mem_filter.mp hx).1).2
  have m1 := mul_nonneg l1 v1
  have m2 := mul_nonneg l2 v2
  have hz : ∀ xs : List (List K), (∀ l ∈ xs, l.length = t) → ((xs.length : K) * totalVar t xs = 0 ∨ (xs.length : K) = 0) →
      ∀ a ∈ xs, ∀ b ∈ xs, a = b := by
    intro xs hxw hx a ha
    have h0 := length_cast_ne (K := K) (List.ne_nil_of_mem ha)
    exact const_of_totalVar hxw ((mul_eq_zero.mp (hx.resolve_right h0)).resolve_left h0) a ha
  have hn : ∀ a ∈ noLabels rows ls q, ∀ b ∈ noLabels rows ls q, a = b := by
    refine hz _ wn ?_
    rcases h with h | h
    · exact Or.inl (by linarith)
    · exact Or.inr (by linarith)
  have hy : ∀ a ∈ yesLabels rows ls q, ∀ b ∈ yesLabels rows ls q, a = b := by
    refine hz _ wy ?_
    rcases h with h | h
    · exact Or.inl (by linarith)
    · exact Or.inr (by linarith)
  intro e he e' he' hs
  cases hq : satisfies q e.1 with
  | true =>
    exact hy _ (List.mem_map.mpr ⟨e, List.mem_filter.mpr ⟨he, hq⟩, rfl⟩) _
      (List.mem_map.mpr ⟨e', List.mem_filter.mpr ⟨he', by rw [← hs, hq]⟩, rfl⟩)
  | false =>
    exact hn _ (List.mem_map.mpr ⟨e, List.mem_filter.mpr ⟨he, by simp [hq]⟩, rfl⟩) _
      (List.mem_map.mpr ⟨e', List.mem_filter.mpr ⟨he', by simp [← hs, hq]⟩, rfl⟩)

section split
variable {d : DataSet (Ext K)} {c t : Nat} {ls : List (List K)} {q₀ : Question (Ext K)}

theorem rule_const (h : d.WF c t) (hls : d.labels = lift ls) (hq : q₀.column < c) (hd : Decides q₀ (d.featureRows.zip ls))
    (hg : ((splitOf d t).gain ==. F64.zero) = true) : ∀ a ∈ ls, ∀ b ∈ ls, a = b := by
  obtain ⟨g, h1, h2, h3, h4, _⟩ := splitOf_exact h hls
  have h5 := h4 q₀ hq
  rw [reduction_of_decides hd] at h5
  rw [h1] at hg
  have h6 : g = 0 := by simpa using hg
  exact const_of_totalVar (lift_width hls h.label_len) (_root_.le_antisymm (h6 ▸ h5) (totalVar_nonneg _ _))

theorem rule_found (h : d.WF c t) (hls : d.labels = lift ls) (ha : d.TiesAgree c) (hq : q₀.column < c) (hd : Decides q₀ (d.featureRows.zip ls))
    (hg : ((splitOf d t).gain ==. F64.zero) = false) : Decides (splitOf d t).question (d.featureRows.zip ls) := by
  obtain ⟨g, h1, h2, h3, h4, _⟩ := splitOf_exact h hls
  have h5 := h4 q₀ hq
  rw [reduction_of_decides hd] at h5
  have h6 := splitOf_truthful h hls ha hg
  rw [h1] at h6
  exact decides_of_reduction (lift_width hls h.label_len) (by rw [← Ext.fin.inj h6]; exact _root_.le_antisymm h3 h5)

theorem restrict_const (h : d.WF c t) (hls : d.labels = lift ls) {p : List (Ext K) → Bool} (hne : ∃ row ∈ d.featureRows, p row = true)
    (hp : ∀ e ∈ d.featureRows.zip ls, ∀ e' ∈ d.featureRows.zip ls, p e.1 = true → p e'.1 = true → e.2 = e'.2) :
    ((splitOf (d.restrict c p) t).gain ==. F64.zero) = true := by
  obtain ⟨ms, hl⟩ := restrict_lift (c := c) (p := p) hls
  have hw := restrict_wf h hne
  refine gain_const hw hl ?_
  have key : ∀ a ∈ ms, ∃ e ∈ d.featureRows.zip ls, p e.1 = true ∧ e.2 = a := by
    intro a ha
    have h1 : liftV a ∈ (d.restrict c p).labels := by rw [hl]; exact List.mem_map.mpr ⟨a, ha, rfl⟩
    rw [labels_of_examples hw, restrict_examples, examples_lift hls] at h1
    obtain ⟨e, he, h2⟩ := List.mem_map.mp h1
    obtain ⟨he, h3⟩ := List.mem_filter.mp he
    obtain ⟨x, hx, rfl⟩ := List.mem_map.mp he
    exact ⟨x, hx, h3, liftV_injective h2⟩
  intro a ha b hb
  obtain ⟨x, hx, h1, rfl⟩ := key a ha
  obtain ⟨y, hy, h2, rfl⟩ := key b hb
  exact hp x hx y hy h1 h2

/-- the tree: one leaf if all labels are the same, otherwise a question that decides them and two leaves -/
theorem rule_tree {L : Type} {leafOf : DataSet (Ext K) → L} (h : d.WF c t) (hls : d.labels = lift ls) (ha : d.TiesAgree c) (hq : q₀.column < c)
    (hd : Decides q₀ (d.featureRows.zip ls)) (m : Nat) :
    ((∀ a ∈ ls, ∀ b ∈ ls, a = b) ∧ treeOf leafOf c t (m + 1) d = TreeNode.leafNode (splitOf d t).question (leafOf d)) ∨
    (((splitOf d t).gain ==. F64.zero) = false ∧ Decides (splitOf d t).question (d.featureRows.zip ls) ∧
      treeOf leafOf c t (m + 1) d = TreeNode.new (splitOf d t).question
        (TreeNode.leafNode (splitOf (d.restrict c (satisfies (splitOf d t).question)) t).question
          (leafOf (d.restrict c (satisfies (splitOf d t).question))))
        (TreeNode.leafNode (splitOf (d.restrict c (fun r => !satisfies (splitOf d t).question r)) t).question
          (leafOf (d.restrict c (fun r => !satisfies (splitOf d t).question r))))) := by
  cases hg : ((splitOf d t).gain ==. F64.zero) with
  | true => exact Or.inl ⟨rule_const h hls hq hd hg, treeOf_leaf hg⟩
  | false =>
    have hf := rule_found h hls ha hq hd hg
    obtain ⟨_, _, _, hy, hn⟩ := splitOf_separates h hg
    have g1 := restrict_const h hls hy (fun e he e' he' h1 h2 => hf e he e' he' (h1.trans h2.symm))
    have g2 := restrict_const h hls (p := fun r => !satisfies (splitOf d t).question r) (by simpa using hn)
      (fun e he e' he' h1 h2 => hf e he e' he' (by simp only [Bool.not_eq_true'] at h1 h2; rw [h1, h2]))
    refine Or.inr ⟨rfl, hf, ?_⟩
    rw [treeOf_node hg]
    cases m with
    | zero => rfl
    | succ m => rw [treeOf_leaf g1, treeOf_leaf g2]

theorem rule_route {L : Type} {leafOf : DataSet (Ext K) → L} (h : d.WF c t) (hls : d.labels = lift ls) (ha : d.TiesAgree c) (hq : q₀.column < c)
    (hd : Decides q₀ (d.featureRows.zip ls)) (m : Nat) :
    ∀ e ∈ d.featureRows.zip ls, ∀ e' ∈ d.featureRows.zip ls,
      (treeOf leafOf c t (m + 1) d).route e.1 = (treeOf leafOf c t (m + 1) d).route e'.1 → e.2 = e'.2 := by
  intro e he e' he' hr
  rcases rule_tree (leafOf := leafOf) h hls ha hq hd m with ⟨h1, _⟩ | ⟨_, h1, h2⟩
  · exact h1 _ (List.of_mem_zip he).2 _ (List.of_mem_zip he').2
  · refine h1 e he e' he' ?_
    rw [h2, TreeNode.route_new, TreeNode.route_new] at hr
    cases hs : satisfies (splitOf d t).question e.1 <;> cases hs' : satisfies (splitOf d t).question e'.1 <;> simp [hs, hs'] at hr ⊢

theorem rule_alone {L : Type} {leafOf : DataSet (Ext K) → L} (h : d.WF c t) (hls : d.labels = lift ls) (ha : d.TiesAgree c) (hq : q₀.column < c)
    (hd : Decides q₀ (d.featureRows.zip ls)) (m : Nat) :
    ∀ e ∈ d.featureRows.zip ls, ∀ v ∈ mates (treeOf leafOf c t (m + 1) d) (d.featureRows.zip ls) e.1, v = e.2 := by
  intro e he v hv
  simp only [mates, List.mem_map, List.mem_filter, decide_eq_true_eq] at hv
  obtain ⟨x, ⟨hx, hr⟩, rfl⟩ := hv
  exact rule_route h hls ha hq hd m x hx e he hr

end split

end Verif
