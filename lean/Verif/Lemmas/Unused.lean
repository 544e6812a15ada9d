import Verif.Lemmas.Redundant
import Verif.Lemmas.Twin
/-! # Features that no question is about do not change the trees -/

set_option linter.unusedSectionVars false

namespace Verif

variable {F : Type} [F64 F] {L : Type} [LawfulOrder F]
open LawfulOrder

private theorem beats {a b z : F} (hz : (z <. a) = true) (hz' : (z <. b) = true) (h : (a <=. b) = false) : (b <. a) = true := by
  have ha := (le_nan (lt_iff.mp hz).1).2
  have hb := (le_nan (lt_iff.mp hz').1).2
  rw [lt_iff]
  rcases le_total ha hb with h' | h'
  · rw [h] at h'; cases h'
  · exact ⟨h', h⟩

theorem getElem?_original {α : Type _} (A B : List α) (r : α) (i : Nat) :
    (A ++ B)[i]? = (A ++ r :: B)[originalFeature A.length i]? := by
  unfold originalFeature
  split
  · rename_i h
    rw [List.getElem?_append_left h, List.getElem?_append_left h]
  · rename_i h
    rw [List.getElem?_append_right (by omega), List.getElem?_append_right (by omega), show i + 1 - A.length = (i - A.length) + 1 by omega,
      List.getElem?_cons_succ]

/-- the index without the removed place -/
theorem original_surj {k i : Nat} (h : i ≠ k) : ∃ j, originalFeature k j = i := by
  by_cases hi : i < k
  · exact ⟨i, by simp [originalFeature, hi]⟩
  · exact ⟨i - 1, by unfold originalFeature; split <;> omega⟩

theorem original_lt {k i j : Nat} (h : originalFeature k i < originalFeature k j) : i < j := by
  unfold originalFeature at h
  split at h <;> split at h <;> omega

/-- removing a column that was not chosen -/
theorem bestColumn_unused {T : F} (A B : List (BestThresholdResult F)) (r : BestThresholdResult F)
    (hr : ((bestColumn T (A ++ r :: B)).gain ==. F64.zero) = true ∨ (bestColumn T (A ++ r :: B)).question.column ≠ A.length) :
    SkipRel A.length (bestColumn T (A ++ B)) (bestColumn T (A ++ r :: B)) := by
  have hsub : ∀ x ∈ A ++ B, x ∈ A ++ r :: B := by
    intro x hx
    simp only [List.mem_append, List.mem_cons] at hx ⊢
    tauto
  rcases bestColumn_spec T (A ++ r :: B) with ⟨h1, h2⟩ | ⟨i, r0, hi, h1, h2, h3, h4⟩
  · rcases bestColumn_spec T (A ++ B) with ⟨g1, _⟩ | ⟨j, r1, hj, _, g2, _⟩
    · rw [h1, g1]
      exact ⟨rfl, .inl ⟨rfl, rfl⟩⟩
    · rw [h2 r1 (hsub _ (List.mem_of_getElem? hj))] at g2
      cases g2
  · have hne : i ≠ A.length := by
      rw [h1] at hr
      rcases hr with hr | hr
      · rw [eq_iff] at hr
        have := (lt_iff.mp h2).2
        simp only at hr
        rw [hr.1] at this
        cases this
      · exact hr
    obtain ⟨i', rfl⟩ := original_surj hne
    have hi' : (A ++ B)[i']? = some r0 := by rw [getElem?_original A B r]; exact hi
    rcases bestColumn_spec T (A ++ B) with ⟨_, g2⟩ | ⟨j, r1, hj, g1, g2, g3, g4⟩
    · rw [g2 r0 (List.mem_of_getElem? hi')] at h2
      cases h2
    · have hj' : (A ++ r :: B)[originalFeature A.length j]? = some r1 := by rw [← getElem?_original A B r]; exact hj
      have : j = i' := by
        rcases Nat.lt_trichotomy j i' with hlt | h | hlt
        · have h5 := h4 (originalFeature A.length j) r1 (by unfold originalFeature; split <;> split <;> omega) hj'
          have := beats h2 g2 h5
          rw [g3 r0 (List.mem_of_getElem? hi')] at this
          cases this
        · exact h
        · have h5 := g4 i' r0 hlt hi'
          have := beats g2 h2 h5
          rw [h3 r1 (List.mem_of_getElem? hj')] at this
          cases this
      subst this
      rw [hi'] at hj
      cases hj
      rw [h1, g1]
      exact ⟨rfl, .inr rfl⟩

theorem splitOf_unused {d : DataSet F} {c t k : Nat} (h : d.WF (c + 1) t) (hk : k ≤ c)
    (hr : ((splitOf d t).gain ==. F64.zero) = true ∨ (splitOf d t).question.column ≠ k) :
    SkipRel k (splitOf (d.dropFeature k) t) (splitOf d t) := by
  have hlen : (d.featureColumns.map (colResult d.labels t)).length = c + 1 := by simp [h.cols, columnsOf]
  rw [splitOf] at hr ⊢
  rw [splitOf]
  have hl : (d.dropFeature k).labels = d.labels := rfl
  have hc : (d.dropFeature k).featureColumns.map (colResult d.labels t) = (d.featureColumns.map (colResult d.labels t)).eraseIdx k := by
    simp only [DataSet.dropFeature, List.eraseIdx_eq_take_drop_succ, List.map_append, List.map_take, List.map_drop]
  rw [hl, hc, List.eraseIdx_eq_take_drop_succ]
  set R := d.featureColumns.map (colResult d.labels t) with hR
  have hkl : k < R.length := by omega
  have hsplit : R = R.take k ++ R[k] :: R.drop (k + 1) := by
    rw [List.getElem_cons_drop, List.take_append_drop]
  have hta : (R.take k).length = k := by simp; omega
  have := bestColumn_unused (T := totalVariance d.labels t) (R.take k) (R.drop (k + 1)) R[k] (by rw [← hsplit, hta]; exact hr)
  rw [← hsplit, hta] at this
  exact this

theorem treeOf_unused {L' : Type} {leafOf : DataSet F → L} {leafOf' : DataSet F → L'} {g : L → L'} {k : Nat}
    (hleaf : ∀ d : DataSet F, leafOf' (d.dropFeature k) = g (leafOf d)) {c t : Nat} (hk : k ≤ c) (m : Nat) (d : DataSet F) (hw : d.WF (c + 1) t)
    (h : ∀ p q, (treeOf leafOf (c + 1) t m d).questionAt p = some q → q.column ≠ k) :
    DropRel k g (treeOf leafOf (c + 1) t m d) (treeOf leafOf' c t m (d.dropFeature k)) := by
  have hl : ∀ (q q' : Question F) (d : DataSet F), DropRel k g (TreeNode.leafNode q (leafOf d)) (TreeNode.leafNode q' (leafOf' (d.dropFeature k))) := by
    intro q q' d
    refine ⟨fun p => by cases p <;> rfl, fun p => ?_, fun _ => rfl⟩
    cases p with
    | nil => exact congrArg some (hleaf d)
    | cons a p => cases a <;> rfl
  refine treeOf_induct (motive := fun m d => (∀ p q, (treeOf leafOf (c + 1) t m d).questionAt p = some q → q.column ≠ k) →
    DropRel k g (treeOf leafOf (c + 1) t m d) (treeOf leafOf' c t m (d.dropFeature k))) ?_ ?_ ?_ m d hw h
  · intro d _ _
    exact hl _ _ d
  · intro m d hw hg h
    have hs := splitOf_unused hw hk (.inl hg)
    have hg' : ((splitOf (d.dropFeature k) t).gain ==. F64.zero) = true := by rw [← hs.1]; exact hg
    rw [treeOf_leaf hg, treeOf_leaf hg']
    exact hl _ _ d
  · intro m d hw hg h1 h2 h
    rw [treeOf_node hg] at h
    have hs := splitOf_unused hw hk (.inr (h [] _ rfl))
    have hg' : ((splitOf (d.dropFeature k) t).gain ==. F64.zero) = false := by rw [← hs.1]; exact hg
    have k1 := h1 (fun p q hq => h (true :: p) q hq)
    have k2 := h2 (fun p q hq => h (false :: p) q hq)
    rcases hs.2 with ⟨h3, _⟩ | h3
    · rw [h3, zero_eq] at hg'; cases hg'
    · rw [treeOf_node hg, treeOf_node hg', h3]
      rw [← restrict_dropFeature hw.row_len hk (p := satisfies (splitOf (d.dropFeature k) t).question)
          (q := satisfies ((splitOf (d.dropFeature k) t).question.original k)) (fun row => satisfies_original row),
        ← restrict_dropFeature hw.row_len hk (p := fun r => !satisfies (splitOf (d.dropFeature k) t).question r)
          (q := fun r => !satisfies ((splitOf (d.dropFeature k) t).question.original k) r) (fun row => by rw [satisfies_original])]
      rw [h3] at k1 k2
      refine ⟨fun p => ?_, fun p => ?_, fun row => ?_⟩
      · match p with
        | [] => rfl
        | true :: p => exact k1.1 p
        | false :: p => exact k2.1 p
      · match p with
        | [] => rfl
        | true :: p => exact k1.2.1 p
        | false :: p => exact k2.2.1 p
      · rw [TreeNode.route_new, TreeNode.route_new, satisfies_original, k1.2.2 row, k2.2.2 row]

/-- the tree of iteration `k` is one of the trees of the run -/
theorem loop_tree_mem {res : TrainingData F → R (List (List F))} {fit : DataSet F → R (TreeNode F L)}
    {upd : TrainingData F → TreeNode F L → R (TrainingData F)} {out : List F → TreeNode F L → R (List F)} {d : DataSet F} {g : List F} {lr : F}
    {n k : Nat} (hk : k < n) {sN s : TrainingData F × List (TreeNode F L)} {r : List (List F)} {tree : TreeNode F L}
    (hN : boostLoop res fit upd n (startState d g) = .ok sN) (hs : boostLoop res fit upd k (startState d g) = .ok s)
    (ht : Tracks out d g lr s) (hr : res s.1 = .ok r) (hf : fit { d with labels := r } = .ok tree) : tree ∈ sN.2 := by
  have hlen := boostLoop_length hN
  have hget : sN.2[k]? = some (sN.2[k]'(by omega)) := List.getElem?_eq_getElem _
  obtain ⟨s', r', e1, _, e3, e4⟩ := boostLoop_tree hN hget
  rw [hs] at e1
  cases e1
  rw [hr] at e3
  cases e3
  have hd : s.1.data.featureRows = d.featureRows ∧ s.1.data.featureColumns = d.featureColumns := ⟨by rw [ht.data], by rw [ht.data]⟩
  have : ({ s.1.data with labels := r } : DataSet F) = { d with labels := r } := by simp [hd.1, hd.2]
  rw [this, hf] at e4
  cases e4
  exact List.getElem_mem _

end Verif
