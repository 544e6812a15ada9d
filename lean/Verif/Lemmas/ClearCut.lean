import Verif.Spec.ClearCut
import Verif.Props.Rounding
/-!
# Trees without close calls: lemmas for C79
-/

set_option linter.unusedSectionVars false

namespace Verif

open B64

variable [B64Env]

theorem exact_examples (d : DataSet B64) : d.exact.examples = d.examples.map (fun e => (e.1.map B64.val, e.2.map B64.val)) := by
  simp only [DataSet.examples, DataSet.exact, List.zip_map]
  rfl

theorem exact_restrict (d : DataSet B64) (c : ℕ) (q : Question B64) :
    (d.restrict c (satisfies q)).exact = d.exact.restrict c (satisfies q.exact) ∧
    (d.restrict c (fun r => !satisfies q r)).exact = d.exact.restrict c (fun r => !satisfies q.exact r) := by
  have key : ∀ (P : List B64 → Bool) (P' : List (Ext ℚ) → Bool), (∀ r, P' (r.map B64.val) = P r) →
      (d.restrict c P).exact = d.exact.restrict c P' := by
    intro P P' hP
    have hf : (d.exact.examples.filter (fun e => P' e.1)) =
        (d.examples.filter (fun e => P e.1)).map (fun e => (e.1.map B64.val, e.2.map B64.val)) := by
      rw [exact_examples, List.filter_map]
      congr 1
      apply List.filter_congr
      intro e _
      simp [hP]
    have hr : d.exact.restrict c P' = ({
        featureRows := ((d.examples.filter (fun e => P e.1)).map (fun e => (e.1.map B64.val, e.2.map B64.val))).map Prod.fst
        labels := ((d.examples.filter (fun e => P e.1)).map (fun e => (e.1.map B64.val, e.2.map B64.val))).map Prod.snd
        featureColumns := columnsOf
          (((d.examples.filter (fun e => P e.1)).map (fun e => (e.1.map B64.val, e.2.map B64.val))).map Prod.fst) c } :
          DataSet (Ext ℚ)) := by rw [DataSet.restrict, hf]
    rw [hr]
    simp only [DataSet.restrict, DataSet.exact, List.map_map, columnsOf]
    congr 1
    apply List.map_congr_left
    intro j _
    simp only [Function.comp]
    rw [column_val, List.map_map]
    rfl
  exact ⟨key _ _ (fun r => satisfies_val q r), key _ _ (fun r => by rw [satisfies_val])⟩

/-- the threshold reported occurs once in its column, if only the smallest value of a column is repeated -/
theorem unique_of_ties {F : Type} [F64 F] [LawfulOrder F] {d : DataSet F} {c t : ℕ} (h : d.WF c t)
    (hg : ((splitOf d t).gain ==. F64.zero) = false)
    (hties : ∀ j < c, ∀ v ∈ column d.featureRows j, (∃ w ∈ column d.featureRows j, (w <. v) = true) →
      ((column d.featureRows j).filter (fun x => x ==. v)).length = 1) :
    ((column d.featureRows (splitOf d t).question.column).filter (fun x => x ==. (splitOf d t).question.value)).length = 1 := by
  obtain ⟨_, hc, ⟨row, hrow, hv⟩, _, ⟨row2, hrow2, hlo⟩⟩ := splitOf_separates h hg
  have hget : ∀ r ∈ d.featureRows, ∃ x ∈ column d.featureRows (splitOf d t).question.column, r[(splitOf d t).question.column]? = some x := by
    intro r hr
    refine ⟨_, List.mem_map_of_mem (f := fun r : List F => r.getD (splitOf d t).question.column F64.zero) hr, ?_⟩
    have := h.row_len r hr
    simp [show (splitOf d t).question.column < r.length by omega]
  obtain ⟨x, hx, hxv⟩ := hget row hrow
  obtain ⟨y, hy, hyv⟩ := hget row2 hrow2
  rw [hv] at hxv
  have hxv := Option.some.inj hxv
  rw [← hxv] at hx
  refine hties _ hc _ hx ⟨y, hy, ?_⟩
  simp only [satisfies, hyv] at hlo
  exact (not_le (nn_of_isNaN_false (h.col_nan hc _ hx)) (nn_of_isNaN_false (h.col_nan hc _ hy))).mp hlo

/-- a question by a clear margin is the one binary64 finds -/
theorem clear_question {d : DataSet B64} {c t : ℕ} (h : d.WF c t) (ht1 : 1 ≤ t) (ht2 : t ≤ 2 ^ 24) {ls : List (List ℚ)} {B : ℚ}
    (hls : d.exact.labels = lift ls) (hS : Scale ls.length B) (hB : AtMost B ls) {q : Question (Ext ℚ)} (hq : q.column < c)
    (hties : ∀ j < c, TiesOnlyAtMinimum (column d.exact.featureRows j))
    (hpos : splitTolerance ls.length t B < varianceReduction t d.exact.featureRows ls q)
    (hbest : ∀ q' : Question (Ext ℚ), q'.column < c → (∃ e ∈ d.exact.examples, e.1[q'.column]? = some q'.value) → q' ≠ q →
      varianceReduction t d.exact.featureRows ls q' + 2 * splitTolerance ls.length t B < varianceReduction t d.exact.featureRows ls q) :
    ((splitOf d t).gain ==. F64.zero) = false ∧ (splitOf d t).question.exact = q := by
  have hs := findBestSplit_ok h
  have hg : ((splitOf d t).gain ==. F64.zero) = false := by
    obtain ⟨s, g, h1, h2, _, _, h3⟩ := C63_gain_accurate d c t h ht1 ht2 ls B hls hS hB
    rw [hs] at h1
    cases h1
    by_contra h0
    rw [Bool.not_eq_false, eq_val, h2, zero_val] at h0
    have h0 : g = 0 := by simpa using h0
    have := h3 q hq
    linarith
  refine ⟨hg, ?_⟩
  have hu : ((column d.featureRows (splitOf d t).question.column).filter (fun x => x ==. (splitOf d t).question.value)).length = 1 := by
    refine unique_of_ties h hg ?_
    intro j hj v hv ⟨w, hw, hwv⟩
    rw [← unique_val]
    have hcol : (column d.featureRows j).map B64.val = column d.exact.featureRows j := column_val _ _
    refine hties j hj v.val ?_ ⟨w.val, ?_, ?_⟩
    · rw [← hcol]; exact List.mem_map_of_mem hv
    · rw [← hcol]; exact List.mem_map_of_mem hw
    · rw [← lt_val]; exact hwv
  obtain ⟨g, _, _, h3⟩ := C63_near_optimal d c t h ht1 ht2 ls B hls hS hB _ hs hg hu
  by_contra hne
  obtain ⟨_, hc, ⟨row, hrow, hv⟩, _, _⟩ := splitOf_separates h hg
  have hex : ∃ e ∈ d.exact.examples, e.1[(splitOf d t).question.exact.column]? = some (splitOf d t).question.exact.value := by
    obtain ⟨e, he, hee⟩ : ∃ e ∈ d.examples, e.1 = row := by
      have : d.featureRows = d.examples.map Prod.fst := by
        rw [DataSet.examples, List.map_fst_zip (by rw [h.label_count])]
      rw [this] at hrow
      obtain ⟨e, he, hee⟩ := List.mem_map.mp hrow
      exact ⟨e, he, hee⟩
    refine ⟨(e.1.map B64.val, e.2.map B64.val), by rw [exact_examples]; exact List.mem_map_of_mem he, ?_⟩
    simp [Question.exact, hee, hv]
  have a1 := hbest _ hc hex hne
  have a2 := h3 q hq
  linarith

/-- one example, or equal labels with small integer entries: binary64 finds no question -/
theorem clear_leaf {d : DataSet B64} {c t : ℕ} (h : d.WF c t) {ls : List (List ℚ)} {B : ℚ}
    (hls : d.exact.labels = lift ls) (hS : Scale ls.length B)
    (hpure : ls.length = 1 ∨ ∃ v : List ℤ, (∀ l ∈ ls, liftV l = ofInts v) ∧ ∀ x ∈ v, SmallInt ls.length x) :
    ((splitOf d t).gain ==. F64.zero) = true := by
  have hlen : d.labels.length = ls.length := by
    have := congrArg List.length hls
    simpa [DataSet.exact, lift_length] using this
  rcases hpure with h1 | ⟨v, hv, hI⟩
  · by_contra hg
    rw [Bool.not_eq_true] at hg
    obtain ⟨_, _, _, ⟨r1, hr1, hs1⟩, ⟨r2, hr2, hs2⟩⟩ := splitOf_separates h hg
    have hl : d.featureRows.length = 1 := by rw [← h.label_count, hlen, h1]
    obtain ⟨r, hr⟩ := List.length_eq_one_iff.mp hl
    rw [hr, List.mem_singleton] at hr1 hr2
    rw [hr1] at hs1
    rw [hr2, hs1] at hs2
    cases hs2
  · obtain ⟨⟨s, hs, hz⟩, _⟩ := C64_constant_integer_labels d c t h v (by
      intro l hl
      have hm : l.map B64.val ∈ lift ls := by rw [← hls]; exact List.mem_map_of_mem hl
      obtain ⟨w, hw, he⟩ := mem_lift.mp hm
      rw [← he]; exact hv w hw) (by
        have := hS.rows
        rw [hlen]; omega) (by rw [hlen]; exact hI)
      { useMultiThreading := false, numberOfClasses := t, maxLevels := 0 } rfl
    rw [findBestSplit_ok h] at hs
    cases hs
    exact hz

section tree
variable {L L' : Type}

omit [B64Env] in
theorem reaching_true {F : Type} [F64 F] {L : Type} (d : DataSet F) (c : ℕ) (q : Question F) (a b : TreeNode F L) (p : List Bool) :
    reaching d (TreeNode.new q a b) (true :: p) = reaching (d.restrict c (satisfies q)) a p := by
  rw [reaching, reaching, restrict_examples, List.filter_filter]
  apply List.filter_congr
  intro e _
  rw [TreeNode.route_new]
  cases hs : satisfies q e.1 <;> simp [List.isPrefixOf]

omit [B64Env] in
theorem reaching_false {F : Type} [F64 F] {L : Type} (d : DataSet F) (c : ℕ) (q : Question F) (a b : TreeNode F L) (p : List Bool) :
    reaching d (TreeNode.new q a b) (false :: p) = reaching (d.restrict c (fun r => !satisfies q r)) b p := by
  rw [reaching, reaching, restrict_examples, List.filter_filter]
  apply List.filter_congr
  intro e _
  rw [TreeNode.route_new]
  cases hs : satisfies q e.1 <;> simp [List.isPrefixOf]

/-- a tree without close calls is the same in binary64 -/
theorem treeOf_clear {leafOf : DataSet B64 → L} {leafOf' : DataSet (Ext ℚ) → L'} {c t : ℕ} (ht1 : 1 ≤ t) (ht2 : t ≤ 2 ^ 24) {B : ℚ} (m : ℕ)
    (d : DataSet B64) (h : d.WF c t) : ∀ ls : List (List ℚ), d.exact.labels = lift ls → Scale ls.length B → AtMost B ls →
    NoCloseCall d c t m B (treeOf leafOf' c t m d.exact) →
    AsksTheSame (treeOf leafOf c t m d) (treeOf leafOf' c t m d.exact) := by
  induction m generalizing d with
  | zero =>
    intro ls _ _ _ _ p
    cases p <;> simp [treeOf, TreeNode.leafNode, TreeNode.questionAt]
  | succ m ih =>
    intro ls hls hS hB hc
    have hE := h.exact
    have hrows : (reaching d.exact (treeOf leafOf' c t (m + 1) d.exact) []).map Prod.fst = d.exact.featureRows := by
      rw [reaching_nil, DataSet.examples, List.map_fst_zip (by rw [hE.label_count])]
    have hroot := hc [] (by simp [TreeNode.subtreeAt])
    rw [hrows, reaching_nil, examples_snd hE] at hroot
    obtain ⟨ls', hl', hq, hleaf⟩ := hroot
    have : ls' = ls := lift_injective (hl'.symm.trans hls)
    subst this
    cases hg : ((splitOf d.exact t).gain ==. F64.zero) with
    | true =>
      have hz := clear_leaf h hls hS (hleaf (by simp [treeOf_leaf hg, TreeNode.leafNode, TreeNode.questionAt]) (by simp))
      intro p
      rw [treeOf_leaf hg, treeOf_leaf hz]
      cases p <;> simp [TreeNode.leafNode, TreeNode.questionAt]
    | false =>
      obtain ⟨h1, h2, h3⟩ := hq (splitOf d.exact t).question (by simp [treeOf_node hg, TreeNode.new, TreeNode.questionAt])
      obtain ⟨k1, k2⟩ := clear_question h ht1 ht2 hls hS hB (splitOf_separates hE hg).2.1 h1 h2 h3
      obtain ⟨e1, e2⟩ := exact_restrict d c (splitOf d t).question
      rw [k2] at e1 e2
      have sub : ∀ P : List B64 → Bool, ∃ ls', (d.restrict c P).exact.labels = lift ls' ∧ Scale ls'.length B ∧ AtMost B ls' := by
        intro P
        obtain ⟨ls', hl⟩ := exact_labels_exist hls (fun e => P e.1)
        obtain ⟨a1, _, a3⟩ := exact_labels_sub h hls hB hl
        refine ⟨ls', ?_, hS.fewer a3, a1⟩
        rw [← hl]
        simp only [DataSet.exact, DataSet.restrict, List.map_map]
        rfl
      have node' := treeOf_node (leafOf := leafOf') (c := c) (m := m) hg
      have both : ∀ (P : List B64 → Bool) (b : Bool), (d.restrict c P).WF c t →
          (∀ p, reaching d.exact (treeOf leafOf' c t (m + 1) d.exact) (b :: p) =
            reaching (d.restrict c P).exact (treeOf leafOf' c t m (d.restrict c P).exact) p) →
          (∀ p, (treeOf leafOf' c t (m + 1) d.exact).subtreeAt (b :: p) = (treeOf leafOf' c t m (d.restrict c P).exact).subtreeAt p) →
          (∀ p, (treeOf leafOf' c t (m + 1) d.exact).questionAt (b :: p) = (treeOf leafOf' c t m (d.restrict c P).exact).questionAt p) →
          AsksTheSame (treeOf leafOf c t m (d.restrict c P)) (treeOf leafOf' c t m (d.restrict c P).exact) := by
        intro P b hw hr hs hq'
        obtain ⟨ls', a1, a2, a3⟩ := sub P
        refine ih _ hw ls' a1 a2 a3 ?_
        intro p hp
        rw [← hs] at hp
        obtain ⟨l, b1, b2, b3⟩ := hc (b :: p) hp
        rw [hr] at b1 b2
        rw [hq'] at b2 b3
        exact ⟨l, b1, b2, fun x y => b3 x (by simpa using y)⟩
      have t1 := both _ true (split_true_wf h k1) (fun p => by rw [node', reaching_true _ c, e1]) (fun p => by rw [node', e1]; rfl)
        (fun p => by rw [node', e1]; rfl)
      have t2 := both _ false (split_false_wf h k1) (fun p => by rw [node', reaching_false _ c, e2]) (fun p => by rw [node', e2]; rfl)
        (fun p => by rw [node', e2]; rfl)
      rw [e1] at t1
      rw [e2] at t2
      intro p
      rw [node', treeOf_node k1]
      match p with
      | [] => simp [TreeNode.new, TreeNode.questionAt, k2]
      | true :: p => exact t1 p
      | false :: p => exact t2 p

/-- the same questions send a row the same way -/
theorem route_of_asks {tree : TreeNode B64 L} {tree' : TreeNode (Ext ℚ) L'} (hp : tree.Proper) (hp' : tree'.Proper)
    (h : AsksTheSame tree tree') (row : List B64) : tree.route row = tree'.route (row.map B64.val) := by
  induction hp generalizing tree' with
  | leaf q l =>
    cases hp' with
    | leaf => rfl
    | node => exact absurd (h []) (by simp [TreeNode.questionAt])
  | node q a b ha hb iha ihb =>
    cases hp' with
    | leaf => exact absurd (h []) (by simp [TreeNode.questionAt])
    | node q' a' b' ha' hb' =>
      have hq : q.exact = q' := by simpa [TreeNode.questionAt] using h []
      subst hq
      simp only [TreeNode.route, satisfies_val]
      rw [iha ha' (fun p => h (true :: p)), ihb hb' (fun p => h (false :: p))]

end tree

end Verif
