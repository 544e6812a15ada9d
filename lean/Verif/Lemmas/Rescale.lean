import Verif.Spec.Rescale
import Verif.Lemmas.TreeFacts
/-! # Order-preserving rescaling of the features -/

set_option linter.unusedSectionVars false

namespace Verif

variable {F : Type} [F64 F] {L : Type}

theorem rescaleRow_length (φ : Nat → F → F) (row : List F) : (rescaleRow φ row).length = row.length := by simp [rescaleRow]

theorem rescaleRow_get (φ : Nat → F → F) (row : List F) (j : Nat) : (rescaleRow φ row)[j]? = row[j]?.map (φ j) := by
  simp [rescaleRow]

theorem column_rescale {φ : Nat → F → F} {rows : List (List F)} {c j : Nat} (h : ∀ row ∈ rows, row.length = c) (hj : j < c) :
    column (rows.map (rescaleRow φ)) j = (column rows j).map (φ j) := by
  simp only [column, List.map_map]
  apply List.map_congr_left
  intro row hr
  have := h row hr
  simp [rescaleRow, this, hj]

theorem columnsOf_rescale {φ : Nat → F → F} {rows : List (List F)} {c : Nat} (h : ∀ row ∈ rows, row.length = c) :
    columnsOf (rows.map (rescaleRow φ)) c = (columnsOf rows c).mapIdx (fun j col => col.map (φ j)) := by
  apply List.ext_getElem
  · simp [columnsOf]
  · intro j h1 h2
    simp only [columnsOf, List.length_map, List.length_range] at h1
    simp only [columnsOf, List.getElem_map, List.getElem_range, List.getElem_mapIdx]
    exact column_rescale h h1

theorem rescale_examples (φ : Nat → F → F) (d : DataSet F) :
    (d.rescale φ).examples = d.examples.map (fun e => (rescaleRow φ e.1, e.2)) := by
  simp only [DataSet.examples, DataSet.rescale, List.zip_map_left]
  rfl

/-- restricting commutes with rescaling when the predicates agree -/
theorem restrict_rescale {φ : Nat → F → F} {d : DataSet F} {c : Nat} (h : ∀ row ∈ d.featureRows, row.length = c) {p q : List F → Bool}
    (hpq : ∀ row ∈ d.featureRows, q (rescaleRow φ row) = p row) : (d.rescale φ).restrict c q = (d.restrict c p).rescale φ := by
  have hf : (d.rescale φ).examples.filter (fun e => q e.1) = (d.examples.filter (fun e => p e.1)).map (fun e => (rescaleRow φ e.1, e.2)) := by
    rw [rescale_examples, List.filter_map]
    congr 1
    apply List.filter_congr
    intro e he
    exact hpq _ (examples_fst_mem he)
  have hr : ((d.examples.filter (fun e => p e.1)).map (fun e => (rescaleRow φ e.1, e.2))).map Prod.fst =
      ((d.examples.filter (fun e => p e.1)).map Prod.fst).map (rescaleRow φ) := by simp [Function.comp_def]
  have hlen : ∀ row ∈ (d.examples.filter (fun e => p e.1)).map Prod.fst, row.length = c := by
    intro row hrow
    simp only [List.mem_map, List.mem_filter] at hrow
    obtain ⟨e, ⟨he, _⟩, rfl⟩ := hrow
    exact h _ (examples_fst_mem he)
  simp only [DataSet.restrict, hf, hr]
  simp only [DataSet.rescale, columnsOf_rescale hlen]
  simp [Function.comp_def]

section
variable [LawfulOrder F]
open LawfulOrder

/-- `φ` preserves `≤` on `vs` -/
def Mono (φ : F → F) (vs : List F) : Prop := ∀ x ∈ vs, ∀ y ∈ vs, (φ x <=. φ y) = (x <=. y)

theorem Mono.lt {φ : F → F} {vs : List F} (h : Mono φ vs) {x y : F} (hx : x ∈ vs) (hy : y ∈ vs) : (φ x <. φ y) = (x <. y) := by
  rw [Bool.eq_iff_iff, lt_iff, lt_iff, h x hx y hy, h y hy x hx]

theorem Mono.eq {φ : F → F} {vs : List F} (h : Mono φ vs) {x y : F} (hx : x ∈ vs) (hy : y ∈ vs) : (φ x ==. φ y) = (x ==. y) := by
  rw [Bool.eq_iff_iff, eq_iff, eq_iff, h x hx y hy, h y hy x hx]

theorem Mono.tupleLe {φ : F → F} {vs : List F} (h : Mono φ vs) {a b : F × Nat} (ha : a.1 ∈ vs) (hb : b.1 ∈ vs) :
    tupleLe (φ a.1, a.2) (φ b.1, b.2) = tupleLe a b := by
  simp only [Verif.tupleLe, h.lt ha hb, h.eq ha hb]

theorem Mono.insert {φ : F → F} {vs : List F} (h : Mono φ vs) {a : F × Nat} (ha : a.1 ∈ vs) (l : List (F × Nat)) (hl : ∀ p ∈ l, p.1 ∈ vs) :
    insertTuple (φ a.1, a.2) (l.map (fun p => (φ p.1, p.2))) = (insertTuple a l).map (fun p => (φ p.1, p.2)) := by
  induction l with
  | nil => rfl
  | cons b l ih =>
    simp only [List.map_cons, insertTuple, h.tupleLe ha (hl b (by simp))]
    split
    · rfl
    · rw [List.map_cons, ih (fun p hp => hl p (by simp [hp]))]

theorem Mono.sorted {φ : F → F} {vs : List F} (h : Mono φ vs) (l : List (F × Nat)) (hl : ∀ p ∈ l, p.1 ∈ vs) :
    Verif.sorted (l.map (fun p => (φ p.1, p.2))) = (Verif.sorted l).map (fun p => (φ p.1, p.2)) := by
  induction l with
  | nil => rfl
  | cons b l ih =>
    have h1 : ∀ p ∈ Verif.sorted l, p.1 ∈ vs := fun p hp => hl p (by simp [(sorted_perm l).mem_iff.mp hp])
    have := h.insert (hl b (by simp)) (Verif.sorted l) h1
    rw [← ih (fun p hp => hl p (by simp [hp]))] at this
    exact this

theorem Mono.seqOf {φ : F → F} {col : List F} (h : Mono φ col) (labels : List (List F)) :
    Verif.seqOf labels (col.map φ) = (Verif.seqOf labels col).map (fun p => (φ p.1, p.2)) := by
  have h1 : (col.map φ).zipIdx = col.zipIdx.map (fun p => (φ p.1, p.2)) := by
    rw [List.zipIdx_map]; rfl
  rw [Verif.seqOf, h1, h.sorted _ (fun p hp => List.fst_mem_of_mem_zipIdx hp)]
  simp [Verif.seqOf, Function.comp_def]

/-- map the threshold of a result -/
def BestThresholdResult.mapT (φ : F → F) (b : BestThresholdResult F) : BestThresholdResult F := { b with thresholdValue := φ b.thresholdValue }

theorem Mono.cands {φ : F → F} {vs : List F} (h : Mono φ vs) {prev : F} (hp : prev ∈ vs) (seq : List (F × List F)) (hs : ∀ p ∈ seq, p.1 ∈ vs)
    (l r : Tracker F) : Verif.cands (φ prev) l r (seq.map (fun p => (φ p.1, p.2))) = (Verif.cands prev l r seq).map (BestThresholdResult.mapT φ) := by
  induction seq generalizing l r with
  | nil => rfl
  | cons p seq ih =>
    simp only [List.map_cons, Verif.cands, h.eq (hs p (by simp)) hp, ih (fun q hq => hs q (by simp [hq])), List.map_append]
    congr 1
    split <;> rfl

/-- same loss, and the threshold transformed unless nothing was found -/
def ResRel (φ : F → F) (b b' : BestThresholdResult F) : Prop :=
  (b = { loss := F64.infinity, thresholdValue := F64.zero } ∧ b' = b) ∨ b' = b.mapT φ

theorem ResRel.loss {φ : F → F} {b b' : BestThresholdResult F} (h : ResRel φ b b') : b'.loss = b.loss := by
  rcases h with ⟨_, rfl⟩ | rfl <;> rfl

theorem foldl_pickBest_rel {φ : F → F} (l : List (BestThresholdResult F)) {b b' : BestThresholdResult F} (h : ResRel φ b b') :
    ResRel φ (l.foldl pickBest b) ((l.map (BestThresholdResult.mapT φ)).foldl pickBest b') := by
  induction l generalizing b b' with
  | nil => exact h
  | cons c l ih =>
    simp only [List.map_cons, List.foldl_cons]
    apply ih
    have h1 : (c.mapT φ).loss = c.loss := rfl
    unfold pickBest
    rw [h1, h.loss]
    split
    · exact .inr rfl
    · exact h

theorem Mono.scanResult {φ : F → F} {vs : List F} (h : Mono φ vs) (n t : Nat) (total : LabelMetrics F) (seq : List (F × List F))
    (hs : ∀ p ∈ seq, p.1 ∈ vs) :
    ResRel φ (Verif.scanResult n t total seq) (Verif.scanResult n t total (seq.map (fun p => (φ p.1, p.2)))) := by
  cases seq with
  | nil => exact .inl ⟨rfl, rfl⟩
  | cons p seq =>
    have := h.cands (hs p (by simp)) (p :: seq) hs (leftStart t) (rightStart n total)
    simp only [Verif.scanResult, List.map_cons, List.headD_cons] at this ⊢
    rw [this]
    exact foldl_pickBest_rel _ (.inl ⟨rfl, rfl⟩)

theorem Mono.colResult {φ : F → F} {col : List F} (h : Mono φ col) (labels : List (List F)) (t : Nat) :
    ResRel φ (Verif.colResult labels t col) (Verif.colResult labels t (col.map φ)) := by
  rw [Verif.colResult, Verif.colResult, h.seqOf]
  apply h.scanResult
  intro p hp
  simp only [Verif.seqOf, List.mem_map] at hp
  obtain ⟨q, hq, rfl⟩ := hp
  exact List.fst_mem_of_mem_zipIdx ((sorted_perm _).mem_iff.mp hq)

/-- same gain and column, transformed threshold -/
def SplitRel (φ : Nat → F → F) (s s' : BestSplitResult F) : Prop :=
  (s = { gain := F64.zero, question := { column := 0, value := F64.zero } } ∧ s' = s) ∨
  ((F64.zero <. s.gain) = true ∧ s' = { gain := s.gain, question := s.question.rescale φ })

theorem pickColumn_rel {φ : Nat → F → F} (T : F) {ps ps' : List (BestThresholdResult F × Nat)}
    (h : List.Forall₂ (fun p p' : BestThresholdResult F × Nat => p'.2 = p.2 ∧ ResRel (φ p.2) p.1 p'.1) ps ps')
    {s s' : BestSplitResult F} (hs : SplitRel φ s s') : SplitRel φ (ps.foldl (pickColumn T) s) (ps'.foldl (pickColumn T) s') := by
  induction h generalizing s s' with
  | nil => exact hs
  | @cons p p' ps ps' h1 _ ih =>
    simp only [List.foldl_cons]
    apply ih
    have hg : s'.gain = s.gain := by rcases hs with ⟨_, rfl⟩ | ⟨_, rfl⟩ <;> rfl
    unfold pickColumn
    rw [h1.2.loss, hg]
    split
    · next hlt =>
      have hpos : (F64.zero <. (T -. p.1.loss)) = true := by
        rcases hs with ⟨rfl, _⟩ | ⟨h2, _⟩
        · exact hlt
        · exact lt_trans' h2 hlt
      refine .inr ⟨hpos, ?_⟩
      rcases h1.2 with ⟨h3, _⟩ | h3
      · rw [h3, LawfulOrder.sub_inf] at hpos
        cases hpos
      · simp only [h3, h1.1, BestThresholdResult.mapT, Question.rescale]
    · exact hs

theorem KeepsOrder.mono {φ : Nat → F → F} {rows : List (List F)} (h : KeepsOrder φ rows) {c : Nat} (hlen : ∀ row ∈ rows, row.length = c)
    {j : Nat} (hj : j < c) : Mono (φ j) (column rows j) := by
  intro x hx y hy
  obtain ⟨row, hr, hx⟩ := mem_column hlen hj hx
  obtain ⟨row', hr', hy⟩ := mem_column hlen hj hy
  exact h row hr row' hr' j x y hx hy

theorem KeepsOrder.subset {φ : Nat → F → F} {rows rows' : List (List F)} (h : KeepsOrder φ rows) (hs : ∀ row ∈ rows', row ∈ rows) :
    KeepsOrder φ rows' :=
  fun row hr row' hr' => h row (hs row hr) row' (hs row' hr')

theorem splitOf_rescale {φ : Nat → F → F} {d : DataSet F} {c t : Nat} (hw : d.WF c t) (h : KeepsOrder φ d.featureRows) :
    SplitRel φ (splitOf d t) (splitOf (d.rescale φ) t) := by
  rw [splitOf, splitOf, bestColumn, bestColumn]
  have hl : (d.rescale φ).labels = d.labels := rfl
  rw [hl]
  apply pickColumn_rel
  · rw [List.forall₂_iff_get]
    refine ⟨by simp [DataSet.rescale], ?_⟩
    intro j h1 h2
    simp only [List.length_zipIdx, List.length_map] at h1 h2
    have hjc : j < c := by simpa [hw.cols, columnsOf] using h1
    simp only [List.get_eq_getElem, List.getElem_zipIdx, List.getElem_map, DataSet.rescale, List.getElem_mapIdx, Nat.zero_add, true_and]
    apply Mono.colResult
    have : d.featureColumns[j] = column d.featureRows j := by simp [hw.cols, columnsOf]
    rw [this]
    exact h.mono hw.row_len hjc
  · exact .inl ⟨rfl, rfl⟩

theorem rescale_wf {φ : Nat → F → F} {d : DataSet F} {c t : Nat} (hw : d.WF c t) (h : KeepsOrder φ d.featureRows) : (d.rescale φ).WF c t := by
  refine ⟨?_, ?_, ?_, hw.label_len, ?_, ?_, hw.cols_u32⟩
  · simpa [DataSet.rescale] using hw.rows_ne
  · intro row hr
    simp only [DataSet.rescale, List.mem_map] at hr
    obtain ⟨r, hr, rfl⟩ := hr
    rw [rescaleRow_length, hw.row_len r hr]
  · simpa [DataSet.rescale] using hw.label_count
  · simp only [DataSet.rescale]
    rw [columnsOf_rescale hw.row_len, hw.cols]
  · intro row hr x hx
    simp only [DataSet.rescale, List.mem_map] at hr
    obtain ⟨r, hr, rfl⟩ := hr
    obtain ⟨j, hj⟩ := List.getElem?_of_mem hx
    rw [rescaleRow_get, Option.map_eq_some_iff] at hj
    obtain ⟨y, hy, rfl⟩ := hj
    have h1 := h r hr r hr j y y hy hy
    rw [le_rfl' (nn_of_isNaN_false (hw.no_nan r hr y (List.mem_of_getElem? hy)))] at h1
    exact isNaN_eq_false.mpr (nn_left h1)

theorem satisfies_rescale {φ : Nat → F → F} {rows : List (List F)} {row : List F} (h : KeepsPlace φ rows row) {q : Question F}
    (hq : ∃ r ∈ rows, r[q.column]? = some q.value) : satisfies (q.rescale φ) (rescaleRow φ row) = satisfies q row := by
  obtain ⟨r, hr, hv⟩ := hq
  simp only [satisfies, Question.rescale, rescaleRow_get]
  cases hx : row[q.column]? with
  | none => rfl
  | some x => exact h r hr q.column q.value x hv hx

theorem KeepsOrder.place {φ : Nat → F → F} {rows : List (List F)} (h : KeepsOrder φ rows) {row : List F} (hr : row ∈ rows) :
    KeepsPlace φ rows row := fun row' hr' j v x hv hx => h row' hr' row hr j v x hv hx

/-- the shape of the rescaled tree -/
def TreeRel {L' : Type} (φ : Nat → F → F) (g : L → L') (rows : List (List F)) (a : TreeNode F L) (b : TreeNode F L') : Prop :=
  (∀ p, b.questionAt p = (a.questionAt p).map (Question.rescale φ)) ∧ (∀ p, b.leafAt p = (a.leafAt p).map g) ∧
    (∀ row, KeepsPlace φ rows row → b.route (rescaleRow φ row) = a.route row)

theorem TreeRel.leaf {L' : Type} {φ : Nat → F → F} {g : L → L'} {rows : List (List F)} {q q' : Question F} {l : L} {l' : L'} (h : l' = g l) :
    TreeRel φ g rows (TreeNode.leafNode q l) (TreeNode.leafNode q' l') := by
  subst h
  refine ⟨fun p => ?_, fun p => ?_, fun _ _ => rfl⟩
  · cases p <;> rfl
  · cases p <;> rfl

theorem TreeRel.subset {L' : Type} {φ : Nat → F → F} {g : L → L'} {rows rows' : List (List F)} {a : TreeNode F L} {b : TreeNode F L'}
    (h : TreeRel φ g rows' a b) (hs : ∀ r ∈ rows', r ∈ rows) : TreeRel φ g rows a b :=
  ⟨h.1, h.2.1, fun row hr => h.2.2 row (fun r hr' => hr r (hs r hr'))⟩

theorem treeOf_rescale {L' : Type} {φ : Nat → F → F} {leafOf : DataSet F → L} {leafOf' : DataSet F → L'} {g : L → L'}
    (hleaf : ∀ d, leafOf' (d.rescale φ) = g (leafOf d)) {c t : Nat} (m : Nat) (d : DataSet F) (hw : d.WF c t) (h : KeepsOrder φ d.featureRows) :
    TreeRel φ g d.featureRows (treeOf leafOf c t m d) (treeOf leafOf' c t m (d.rescale φ)) := by
  refine treeOf_induct (motive := fun m d => KeepsOrder φ d.featureRows →
    TreeRel φ g d.featureRows (treeOf leafOf c t m d) (treeOf leafOf' c t m (d.rescale φ))) ?_ ?_ ?_ m d hw h
  · intro d _ _
    exact .leaf (hleaf d)
  · intro m d hw hg h
    have hs := splitOf_rescale hw h
    have hg' : ((splitOf (d.rescale φ) t).gain ==. F64.zero) = true := by
      rcases hs with ⟨_, h2⟩ | ⟨_, h2⟩ <;> rw [h2]
      · exact hg
      · exact hg
    rw [treeOf_leaf hg, treeOf_leaf hg']
    exact .leaf (hleaf d)
  · intro m d hw hg h1 h2 h
    have hs := splitOf_rescale hw h
    obtain ⟨_, _, hval, _⟩ := splitOf_separates hw hg
    rcases hs with ⟨h3, _⟩ | ⟨_, h3⟩
    · rw [h3, zero_eq] at hg; cases hg
    · have hg' : ((splitOf (d.rescale φ) t).gain ==. F64.zero) = false := by rw [h3]; exact hg
      have hsat : ∀ row ∈ d.featureRows, satisfies ((splitOf d t).question.rescale φ) (rescaleRow φ row) = satisfies (splitOf d t).question row :=
        fun row hr => satisfies_rescale (h.place hr) hval
      rw [treeOf_node hg, treeOf_node hg', h3]
      dsimp only
      rw [restrict_rescale hw.row_len (p := satisfies (splitOf d t).question) hsat,
        restrict_rescale hw.row_len (p := fun r => !satisfies (splitOf d t).question r) (fun row hr => by rw [hsat row hr])]
      have k1 := (h1 (h.subset (fun r hr => (restrict_mem hr).1))).subset (rows := d.featureRows) (fun r hr => (restrict_mem hr).1)
      have k2 := (h2 (h.subset (fun r hr => (restrict_mem hr).1))).subset (rows := d.featureRows) (fun r hr => (restrict_mem hr).1)
      refine ⟨fun p => ?_, fun p => ?_, fun row hr => ?_⟩
      · match p with
        | [] => rfl
        | true :: p => exact k1.1 p
        | false :: p => exact k2.1 p
      · match p with
        | [] => rfl
        | true :: p => exact k1.2.1 p
        | false :: p => exact k2.2.1 p
      · rw [TreeNode.route_new, TreeNode.route_new, satisfies_rescale hr hval, k1.2.2 row hr, k2.2.2 row hr]

end

end Verif
