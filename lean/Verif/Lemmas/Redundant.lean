import Verif.Spec.Redundant
import Verif.Lemmas.TreeFacts
/-! # Redundant features do not change the trees -/

set_option linter.unusedSectionVars false

namespace Verif

variable {F : Type} [F64 F] {L : Type} [LawfulOrder F]
open LawfulOrder

/-! ## columns with the same order have the same loss -/

theorem insert_common {x : Nat → F} (a : Nat) (js : List Nat) :
    ∃ ks : List Nat, (∀ i ∈ ks, i = a ∨ i ∈ js) ∧ insertTuple (x a, a) (js.map (fun i => (x i, i))) = ks.map (fun i => (x i, i)) ∧
      ∀ y : Nat → F, (∀ i ∈ js, tupleLe (y a, a) (y i, i) = tupleLe (x a, a) (x i, i)) →
        insertTuple (y a, a) (js.map (fun i => (y i, i))) = ks.map (fun i => (y i, i)) := by
  induction js with
  | nil => exact ⟨[a], by simp, rfl, fun _ _ => rfl⟩
  | cons b js ih =>
    obtain ⟨ks, h1, h2, h3⟩ := ih
    by_cases hb : tupleLe (x a, a) (x b, b) = true
    · refine ⟨a :: b :: js, by simp, by simp [insertTuple, hb], ?_⟩
      intro y hy
      have := hy b (by simp)
      simp [insertTuple, this, hb]
    · refine ⟨b :: ks, ?_, by simp [insertTuple, hb, h2], ?_⟩
      · intro i hi
        rcases List.mem_cons.mp hi with rfl | hi
        · simp
        · rcases h1 i hi with h | h
          · exact .inl h
          · simp [h]
      · intro y hy
        have := hy b (by simp)
        simp [insertTuple, this, hb, h3 y (fun i hi => hy i (by simp [hi]))]

theorem sorted_common {x y : Nat → F} (is : List Nat)
    (h : ∀ i ∈ is, ∀ k ∈ is, tupleLe (y i, i) (y k, k) = tupleLe (x i, i) (x k, k)) :
    ∃ ks : List Nat, (∀ i ∈ ks, i ∈ is) ∧ sorted (is.map (fun i => (x i, i))) = ks.map (fun i => (x i, i)) ∧
      sorted (is.map (fun i => (y i, i))) = ks.map (fun i => (y i, i)) := by
  induction is with
  | nil => exact ⟨[], by simp, rfl, rfl⟩
  | cons a is ih =>
    obtain ⟨js, h1, h2, h3⟩ := ih (fun i hi k hk => h i (by simp [hi]) k (by simp [hk]))
    obtain ⟨ks, k1, k2, k3⟩ := insert_common (x := x) a js
    refine ⟨ks, ?_, ?_, ?_⟩
    · intro i hi
      rcases k1 i hi with rfl | hi
      · simp
      · simp [h1 i hi]
    · have : sorted ((a :: is).map (fun i => (x i, i))) = insertTuple (x a, a) (sorted (is.map (fun i => (x i, i)))) := rfl
      rw [this, h2, k2]
    · have : sorted ((a :: is).map (fun i => (y i, i))) = insertTuple (y a, a) (sorted (is.map (fun i => (y i, i)))) := rfl
      rw [this, h3, k3 y (fun i hi => h a (by simp) i (by simp [h1 i hi]))]

theorem cands_common {x y : Nat → F} {lab : Nat → List F} (is : List Nat) {p : Nat} (h : ∀ i ∈ is, (y i ==. y p) = (x i ==. x p))
    (l r : Tracker F) :
    (cands (y p) l r (is.map (fun i => (y i, lab i)))).map BestThresholdResult.loss =
      (cands (x p) l r (is.map (fun i => (x i, lab i)))).map BestThresholdResult.loss := by
  induction is generalizing l r with
  | nil => rfl
  | cons i is ih =>
    simp only [List.map_cons, cands, h i (by simp), List.map_append, ih (fun k hk => h k (by simp [hk]))]
    congr 1
    split <;> rfl

theorem foldl_loss {a b : List (BestThresholdResult F)} (h : b.map BestThresholdResult.loss = a.map BestThresholdResult.loss)
    {u v : BestThresholdResult F} (huv : v.loss = u.loss) : (b.foldl pickBest v).loss = (a.foldl pickBest u).loss := by
  induction a generalizing b u v with
  | nil =>
    rw [List.map_nil, List.map_eq_nil_iff] at h
    subst h
    exact huv
  | cons c a ih =>
    cases b with
    | nil => cases h
    | cons e b =>
      simp only [List.map_cons, List.cons.injEq] at h
      simp only [List.foldl_cons]
      apply ih h.2
      unfold pickBest
      rw [huv, h.1]
      split
      · exact h.1
      · exact huv

/-- two columns in the same order -/
theorem colResult_loss {col col' : List F} (hlen : col'.length = col.length)
    (h : ∀ (i k : Nat) (x x' y y' : F), col[i]? = some x → col[k]? = some x' → col'[i]? = some y → col'[k]? = some y' → (y <=. y') = (x <=. x'))
    (labels : List (List F)) (t : Nat) : (colResult labels t col').loss = (colResult labels t col).loss := by
  set x : Nat → F := fun i => col.getD i F64.zero with hx
  set y : Nat → F := fun i => col'.getD i F64.zero with hy
  have hz : ∀ c : List F, c.zipIdx = (List.range c.length).map (fun i => (c.getD i F64.zero, i)) := by
    intro c
    apply List.ext_getElem (by simp)
    intro i h1 h2
    simp at h1
    simp [h1]
  have hle : ∀ i ∈ List.range col.length, ∀ k ∈ List.range col.length, (y i <=. y k) = (x i <=. x k) := by
    intro i hi k hk
    rw [List.mem_range] at hi hk
    exact h i k _ _ _ _ (by simp [hx, hi]) (by simp [hx, hk]) (by simp [hy, hlen, hi]) (by simp [hy, hlen, hk])
  have heq : ∀ i ∈ List.range col.length, ∀ k ∈ List.range col.length, (y i ==. y k) = (x i ==. x k) := by
    intro i hi k hk
    rw [Bool.eq_iff_iff, eq_iff, eq_iff, hle i hi k hk, hle k hk i hi]
  have hlt : ∀ i ∈ List.range col.length, ∀ k ∈ List.range col.length, (y i <. y k) = (x i <. x k) := by
    intro i hi k hk
    rw [Bool.eq_iff_iff, lt_iff, lt_iff, hle i hi k hk, hle k hk i hi]
  obtain ⟨ks, h1, h2, h3⟩ := sorted_common (x := x) (y := y) (List.range col.length)
    (fun i hi k hk => by simp only [tupleLe, hlt i hi k hk, heq i hi k hk])
  have e1 : seqOf labels col = ks.map (fun i => (x i, labels.getD i [])) := by
    rw [seqOf, hz, h2, List.map_map]; rfl
  have e2 : seqOf labels col' = ks.map (fun i => (y i, labels.getD i [])) := by
    rw [seqOf, hz, hlen, h3, List.map_map]; rfl
  rw [colResult, colResult, e1, e2, scanResult, scanResult]
  apply foldl_loss _ rfl
  cases ks with
  | nil => rfl
  | cons p ks =>
    simp only [List.map_cons, List.headD_cons]
    exact cands_common (lab := fun i => labels.getD i []) (p :: ks) (fun i hi => heq i (h1 i hi) p (h1 p (by simp))) _ _

/-- a constant column -/
theorem colResult_constant {col : List F} (h : ∀ x ∈ col, ∀ x' ∈ col, (x ==. x') = true) (labels : List (List F)) (t : Nat) :
    (colResult labels t col).loss = F64.infinity := by
  have hm : ∀ p ∈ seqOf labels col, p.1 ∈ col := by
    intro p hp
    obtain ⟨q, hq, rfl⟩ := List.mem_map.mp hp
    exact List.fst_mem_of_mem_zipIdx ((sorted_perm _).mem_iff.mp hq)
  rcases scanResult_cases labels.length t (metricsOf labels t) (seqOf labels col) with h1 | ⟨h1, h2⟩
  · rw [colResult, h1]
  · exfalso
    obtain ⟨p, hp, he⟩ := List.mem_map.mp h1
    rw [← he] at h2
    revert h2
    cases hs : seqOf labels col with
    | nil => rw [hs] at hp; cases hp
    | cons q rest =>
      intro h2
      simp only [List.map_cons, List.headD_cons] at h2
      rw [h _ (hm p hp) _ (hm q (by simp [hs]))] at h2
      cases h2

/-! ## the selected column -/

/-- same gain; the same feature, unless nothing was found -/
def SkipRel (k : Nat) (s s' : BestSplitResult F) : Prop :=
  s'.gain = s.gain ∧ ((s.gain = F64.zero ∧ s'.question = s.question) ∨ s'.question = s.question.original k)

theorem pickColumn_skip {T : F} {k : Nat} (B : List (BestThresholdResult F)) : ∀ (n : Nat) {s s' : BestSplitResult F}, k ≤ n → SkipRel k s s' →
    SkipRel k ((B.zipIdx n).foldl (pickColumn T) s) ((B.zipIdx (n + 1)).foldl (pickColumn T) s') := by
  induction B with
  | nil => intro n s s' _ h; exact h
  | cons b B ih =>
    intro n s s' hn h
    simp only [List.zipIdx_cons, List.foldl_cons]
    apply ih _ (by omega)
    unfold pickColumn
    rw [h.1]
    split
    · refine ⟨rfl, .inr ?_⟩
      simp only [Question.original, originalFeature, Question.mk.injEq, and_true]
      rw [if_neg (by omega)]
    · exact h

theorem bestColumn_skip {T : F} (A B : List (BestThresholdResult F)) {r : BestThresholdResult F}
    (hr : r.loss = F64.infinity ∨ ∃ a ∈ A, a.loss = r.loss) :
    SkipRel A.length (bestColumn T (A ++ B)) (bestColumn T (A ++ r :: B)) := by
  have hA := bestColumn_spec T A
  unfold bestColumn at hA ⊢
  rw [List.zipIdx_append, List.zipIdx_append, List.foldl_append, List.foldl_append, List.zipIdx_cons, List.foldl_cons]
  set s := A.zipIdx.foldl (pickColumn T) { gain := F64.zero, question := { column := 0, value := F64.zero } } with hs
  have hskip : (s.gain <. (T -. r.loss)) = false := by
    rcases hr with hr | ⟨a, ha, hr⟩
    · rw [hr]
      rcases hA with ⟨h1, _⟩ | ⟨i, r0, _, h1, h2, _⟩
      · rw [h1]
        exact LawfulOrder.sub_inf
      · rw [h1]
        cases hlt : (gainOf T r0 <. (T -. F64.infinity)) with
        | false => rfl
        | true =>
          have := lt_trans' h2 hlt
          rw [LawfulOrder.sub_inf] at this
          cases this
    · rw [← hr]
      rcases hA with ⟨h1, h2⟩ | ⟨i, r0, _, h1, _, h3, _⟩
      · rw [h1]; exact h2 a ha
      · rw [h1]; exact h3 a ha
  have hp : pickColumn T s (r, A.length) = s := by
    unfold pickColumn
    rw [if_neg (by simp [hskip])]
  rw [Nat.zero_add, hp]
  refine pickColumn_skip B _ le_rfl ⟨rfl, ?_⟩
  rcases hA with ⟨h1, _⟩ | ⟨i, r0, h0, h1, _⟩
  · exact .inl ⟨by rw [h1], rfl⟩
  · refine .inr ?_
    rw [h1]
    have := (List.getElem?_eq_some_iff.mp h0).1
    simp [Question.original, originalFeature, this]

/-! ## data sets -/

theorem column_erase {rows : List (List F)} {c k i : Nat} (hlen : ∀ row ∈ rows, row.length = c + 1) (_hi : i < c) :
    column (rows.map (fun row => row.eraseIdx k)) i = column rows (originalFeature k i) := by
  simp only [column, List.map_map]
  apply List.map_congr_left
  intro row hr
  have := hlen row hr
  simp only [Function.comp_apply, List.getD_eq_getElem?_getD, List.getElem?_eraseIdx, originalFeature]
  split <;> rfl

theorem columnsOf_erase {rows : List (List F)} {c k : Nat} (hlen : ∀ row ∈ rows, row.length = c + 1) (hk : k ≤ c) :
    columnsOf (rows.map (fun row => row.eraseIdx k)) c = (columnsOf rows (c + 1)).eraseIdx k := by
  apply List.ext_getElem?
  intro i
  rw [List.getElem?_eraseIdx]
  by_cases hi : i < c
  · have h1 : ∀ m, m < c + 1 → (columnsOf rows (c + 1))[m]? = some (column rows m) := by
      intro m hm; simp [columnsOf, hm]
    have h2 : (columnsOf (rows.map (fun row => row.eraseIdx k)) c)[i]? = some (column rows (originalFeature k i)) := by
      rw [← column_erase hlen hi]; simp [columnsOf, hi]
    rw [h2]
    unfold originalFeature
    split
    · rw [h1 i (by omega)]
    · rw [h1 (i + 1) (by omega)]
  · have h2 : (columnsOf (rows.map (fun row => row.eraseIdx k)) c)[i]? = none := by simp [columnsOf]; omega
    rw [h2, if_neg (by omega)]
    simp [columnsOf]; omega

theorem dropFeature_wf {d : DataSet F} {c t k : Nat} (h : d.WF (c + 1) t) (hk : k ≤ c) : (d.dropFeature k).WF c t := by
  refine ⟨?_, ?_, ?_, h.label_len, ?_, ?_, Nat.le_trans (Nat.le_succ c) h.cols_u32⟩
  · simpa [DataSet.dropFeature] using h.rows_ne
  · intro row hr
    obtain ⟨r, hr', rfl⟩ := List.mem_map.mp hr
    rw [List.length_eraseIdx, h.row_len r hr']
    simp; omega
  · simpa [DataSet.dropFeature] using h.label_count
  · simp only [DataSet.dropFeature]
    rw [columnsOf_erase h.row_len hk, h.cols]
  · intro row hr x hx
    obtain ⟨r, hr', rfl⟩ := List.mem_map.mp hr
    exact h.no_nan r hr' x (List.mem_of_mem_eraseIdx hx)

theorem restrict_dropFeature {d : DataSet F} {c k : Nat} (h : ∀ row ∈ d.featureRows, row.length = c + 1) (hk : k ≤ c) {p q : List F → Bool}
    (hpq : ∀ row, q row = p (row.eraseIdx k)) : (d.restrict (c + 1) q).dropFeature k = (d.dropFeature k).restrict c p := by
  have hex : (d.dropFeature k).examples = d.examples.map (fun e => (e.1.eraseIdx k, e.2)) := by
    simp only [DataSet.examples, DataSet.dropFeature, List.zip_map_left]; rfl
  have hf : (d.dropFeature k).examples.filter (fun e => p e.1) = (d.examples.filter (fun e => q e.1)).map (fun e => (e.1.eraseIdx k, e.2)) := by
    rw [hex, List.filter_map]
    congr 1
    apply List.filter_congr
    intro e he
    exact (hpq _).symm
  have hr : ((d.examples.filter (fun e => q e.1)).map (fun e => (e.1.eraseIdx k, e.2))).map Prod.fst =
      ((d.examples.filter (fun e => q e.1)).map Prod.fst).map (fun row => row.eraseIdx k) := by simp [Function.comp_def]
  have hlen : ∀ row ∈ (d.examples.filter (fun e => q e.1)).map Prod.fst, row.length = c + 1 := by
    intro row hrow
    simp only [List.mem_map, List.mem_filter] at hrow
    obtain ⟨e, ⟨he, _⟩, rfl⟩ := hrow
    exact h _ (examples_fst_mem he)
  simp only [DataSet.restrict, hf, hr]
  simp only [DataSet.dropFeature, columnsOf_erase hlen hk]
  simp [Function.comp_def]

theorem RedundantFeature.subset {rows rows' : List (List F)} {k : Nat} (h : RedundantFeature rows k) (hs : ∀ row ∈ rows', row ∈ rows) :
    RedundantFeature rows' k := by
  rcases h with h | ⟨j, hj, h⟩
  · exact .inl fun row hr row' hr' => h row (hs row hr) row' (hs row' hr')
  · exact .inr ⟨j, hj, fun row hr row' hr' => h row (hs row hr) row' (hs row' hr')⟩

theorem splitOf_dropFeature {d : DataSet F} {c t k : Nat} (h : d.WF (c + 1) t) (hk : k ≤ c) (hr : RedundantFeature d.featureRows k) :
    SkipRel k (splitOf (d.dropFeature k) t) (splitOf d t) := by
  have hcol : ∀ m, m < c + 1 → ∀ (i : Nat) (x : F), (column d.featureRows m)[i]? = some x → ∃ row ∈ d.featureRows, d.featureRows[i]? = some row ∧ row[m]? = some x := by
    intro m hm i x hx
    simp only [column, List.getElem?_map, Option.map_eq_some_iff] at hx
    obtain ⟨row, hrow, rfl⟩ := hx
    have hmem := List.mem_of_getElem? hrow
    have := h.row_len row hmem
    refine ⟨row, hmem, hrow, ?_⟩
    simp [show m < row.length by omega]
  have hlen : (d.featureColumns.map (colResult d.labels t)).length = c + 1 := by simp [h.cols, columnsOf]
  have hget : ∀ m (hm : m < c + 1), (d.featureColumns.map (colResult d.labels t))[m]'(by omega) = colResult d.labels t (column d.featureRows m) := by
    intro m hm
    simp [h.cols, columnsOf]
  rw [splitOf, splitOf]
  have hl : (d.dropFeature k).labels = d.labels := rfl
  have hc : (d.dropFeature k).featureColumns.map (colResult d.labels t) = (d.featureColumns.map (colResult d.labels t)).eraseIdx k := by
    simp only [DataSet.dropFeature, List.eraseIdx_eq_take_drop_succ, List.map_append, List.map_take, List.map_drop]
  rw [hl, hc, List.eraseIdx_eq_take_drop_succ]
  set R := d.featureColumns.map (colResult d.labels t) with hR
  have hkl : k < R.length := by omega
  have hsplit : R = R.take k ++ R[k] :: R.drop (k + 1) := by
    rw [List.getElem_cons_drop, List.take_append_drop]
  have hta : (R.take k).length = k := by simp; omega
  have := bestColumn_skip (T := totalVariance d.labels t) (R.take k) (R.drop (k + 1)) (r := R[k]) ?_
  · rw [← hsplit, hta] at this
    exact this
  · rw [hget k (by omega)]
    rcases hr with hr | ⟨j, hj, hr⟩
    · left
      apply colResult_constant
      intro x hx x' hx'
      obtain ⟨i, hi⟩ := List.getElem?_of_mem hx
      obtain ⟨i', hi'⟩ := List.getElem?_of_mem hx'
      obtain ⟨row, h1, _, h2⟩ := hcol k (by omega) i x hi
      obtain ⟨row', h1', _, h2'⟩ := hcol k (by omega) i' x' hi'
      exact hr row h1 row' h1' x x' h2 h2'
    · right
      refine ⟨R[j], ?_, ?_⟩
      · rw [List.mem_take_iff_getElem]
        exact ⟨j, by omega, rfl⟩
      · rw [hget j (by omega)]
        symm
        apply colResult_loss (by simp [column])
        intro i i' x x' y y' h1 h2 h3 h4
        obtain ⟨row, a1, a2, a3⟩ := hcol j (by omega) i x h1
        obtain ⟨row', b1, b2, b3⟩ := hcol j (by omega) i' x' h2
        obtain ⟨row2, _, c2, c3⟩ := hcol k (by omega) i y h3
        obtain ⟨row2', _, d2, d3⟩ := hcol k (by omega) i' y' h4
        rw [a2] at c2
        rw [b2] at d2
        cases c2
        cases d2
        exact hr row a1 row' b1 x x' y y' a3 b3 c3 d3

theorem satisfies_original {q : Question F} {k : Nat} (row : List F) : satisfies (q.original k) row = satisfies q (row.eraseIdx k) := by
  simp only [satisfies, Question.original, originalFeature, List.getElem?_eraseIdx]
  by_cases h : q.column < k <;> simp only [h, if_true, if_false]

/-- the tree with the redundant feature and the tree without -/
def DropRel {L' : Type} (k : Nat) (g : L → L') (x : TreeNode F L) (y : TreeNode F L') : Prop :=
  (∀ p, x.questionAt p = (y.questionAt p).map (Question.original k)) ∧ (∀ p, y.leafAt p = (x.leafAt p).map g) ∧
    ∀ row, x.route row = y.route (row.eraseIdx k)

theorem treeOf_dropFeature {L' : Type} {leafOf : DataSet F → L} {leafOf' : DataSet F → L'} {g : L → L'} {k : Nat}
    (hleaf : ∀ d : DataSet F, leafOf' (d.dropFeature k) = g (leafOf d)) {c t : Nat} (hk : k ≤ c) (m : Nat) (d : DataSet F) (hw : d.WF (c + 1) t)
    (h : RedundantFeature d.featureRows k) : DropRel k g (treeOf leafOf (c + 1) t m d) (treeOf leafOf' c t m (d.dropFeature k)) := by
  have hl : ∀ (q q' : Question F) (d : DataSet F), DropRel k g (TreeNode.leafNode q (leafOf d)) (TreeNode.leafNode q' (leafOf' (d.dropFeature k))) := by
    intro q q' d
    refine ⟨fun p => by cases p <;> rfl, fun p => ?_, fun _ => rfl⟩
    cases p with
    | nil => exact congrArg some (hleaf d)
    | cons a p => cases a <;> rfl
  refine treeOf_induct (motive := fun m d => RedundantFeature d.featureRows k →
    DropRel k g (treeOf leafOf (c + 1) t m d) (treeOf leafOf' c t m (d.dropFeature k))) ?_ ?_ ?_ m d hw h
  · intro d _ _
    exact hl _ _ d
  · intro m d hw hg h
    have hs := splitOf_dropFeature hw hk h
    have hg' : ((splitOf (d.dropFeature k) t).gain ==. F64.zero) = true := by rw [← hs.1]; exact hg
    rw [treeOf_leaf hg, treeOf_leaf hg']
    exact hl _ _ d
  · intro m d hw hg h1 h2 h
    have hs := splitOf_dropFeature hw hk h
    have hg' : ((splitOf (d.dropFeature k) t).gain ==. F64.zero) = false := by rw [← hs.1]; exact hg
    rcases hs.2 with ⟨h3, _⟩ | h3
    · rw [h3, zero_eq] at hg'; cases hg'
    · rw [treeOf_node hg, treeOf_node hg', h3]
      rw [← restrict_dropFeature hw.row_len hk (p := satisfies (splitOf (d.dropFeature k) t).question)
          (q := satisfies ((splitOf (d.dropFeature k) t).question.original k)) (fun row => satisfies_original row),
        ← restrict_dropFeature hw.row_len hk (p := fun r => !satisfies (splitOf (d.dropFeature k) t).question r)
          (q := fun r => !satisfies ((splitOf (d.dropFeature k) t).question.original k) r) (fun row => by rw [satisfies_original])]
      rw [h3] at h1 h2
      have k1 := h1 (h.subset (fun r hr => (restrict_mem hr).1))
      have k2 := h2 (h.subset (fun r hr => (restrict_mem hr).1))
      refine ⟨fun p => ?_, fun p => ?_, fun row => ?_⟩
      · match p with
        | [] => rfl
        | true :: p => exact k1.1 p
        | false :: p => exact k2.1 p
      · match p with
        | [] => rfl
        | true :: p => exact k1.2.1 p
        | false :: p => exact k2.2.1 p
      · rw [TreeNode.route_new, TreeNode.route_new, satisfies_original, k1.2.2 row, k2.2.2 row]

end Verif
