import Mathlib.Data.List.TakeWhile
import Verif.Lemmas.Split
/-! # The partitioner on sorted columns -/

set_option linter.unusedSectionVars false
set_option linter.unusedSimpArgs false

namespace Verif

variable {F : Type} [F64 F]

theorem tupleLe_of_before {a b : F × Nat} (h : Before a b) : tupleLe a b = true := by
  rcases h with h | ⟨h1, h2⟩
  · simp [tupleLe, h]
  · simp [tupleLe, h1, Nat.le_of_lt h2]

theorem before_of_tupleLe {a b : F × Nat} (h : tupleLe a b = true) (hne : a.2 ≠ b.2) : Before a b := by
  simp only [tupleLe, Bool.or_eq_true, Bool.and_eq_true, decide_eq_true_eq] at h
  rcases h with h | ⟨h1, h2⟩
  · exact .inl h
  · exact .inr ⟨h1, by omega⟩

/-! ## Mark vectors -/

/-- `marks` has length `n` and holds 1 exactly at the positions in `s`, 0 elsewhere -/
def Marks (n : Nat) (s : List Nat) (marks : List Nat) : Prop :=
  marks.length = n ∧ ∀ k, k < n → marks[k]? = some (if k ∈ s then 1 else 0)

theorem marks_init (n : Nat) : Marks n [] (List.replicate n 0) := by
  refine ⟨by simp, fun k hk => by simp [hk]⟩

theorem marks_set {n : Nat} {s marks : List Nat} {i : Nat} (h : Marks n s marks) (hi : i < n) :
    setIdx marks i 1 = .ok (marks.set i 1) ∧ Marks n (s ++ [i]) (marks.set i 1) := by
  refine ⟨setIdx_lt (by rw [h.1]; exact hi), by simp [h.1], fun k hk => ?_⟩
  rw [List.getElem?_set]
  by_cases hki : i = k
  · subst hki; simp [h.1, hi]
  · rw [if_neg hki, h.2 k hk]
    simp [eq_comm (a := k), hki]

theorem marks_idx {n : Nat} {s marks : List Nat} {i : Nat} (h : Marks n s marks) (hi : i < n) :
    idx marks i = .ok (if i ∈ s then 1 else 0) := idx_some (h.2 i hi)

theorem marks_congr {n : Nat} {s s' marks : List Nat} (h : Marks n s marks) (hs : ∀ k, k ∈ s ↔ k ∈ s') :
    Marks n s' marks := by
  refine ⟨h.1, fun k hk => ?_⟩
  rw [h.2 k hk]; simp [hs]

/-! ## First loop -/

/-- the pairs before the first one that satisfies the question -/
def falsePrefix (v : F) (col : List (F × Nat)) : List (F × Nat) := col.takeWhile (fun p => !(v <=. p.1))

theorem firstEncounterLoop_ok {v : F} {n : Nat} (col : List (F × Nat)) (hb : ∀ p ∈ col, p.2 < n) (i : Nat)
    (s marks : List Nat) (hm : Marks n s marks) :
    ∃ marks', firstEncounterLoop v col i marks =
        .ok (if (falsePrefix v col).length = col.length then 0 else i + (falsePrefix v col).length, marks') ∧
      Marks n (s ++ (falsePrefix v col).map Prod.snd) marks' := by
  induction col generalizing i s marks with
  | nil => exact ⟨marks, by simp [firstEncounterLoop, falsePrefix], by simpa [falsePrefix] using hm⟩
  | cons p rest ih =>
    obtain ⟨x, k⟩ := p
    unfold firstEncounterLoop
    by_cases hv : (v <=. x) = true
    · simp only [hv, if_true, falsePrefix, List.takeWhile_cons, Bool.not_true]
      exact ⟨marks, by simp, by simpa using hm⟩
    · have hk : k < n := hb (x, k) (by simp)
      obtain ⟨h1, h2⟩ := marks_set hm hk
      obtain ⟨m', h3, h4⟩ := ih (fun p hp => hb p (by simp [hp])) (i + 1) (s ++ [k]) _ h2
      simp only [hv, Bool.false_eq_true, if_false, h1, R.ok_bind]
      refine ⟨m', ?_, ?_⟩
      · rw [h3]
        simp only [falsePrefix, List.takeWhile_cons, hv, Bool.not_false, if_true, List.length_cons,
          Nat.add_right_cancel_iff]
        by_cases hl : (rest.takeWhile (fun p => !(v <=. p.1))).length = rest.length
        · simp [hl]
        · simp only [hl, if_false]
          congr 2
          omega
      · simpa [falsePrefix, List.takeWhile_cons, hv] using h4

theorem markRange_ok {n : Nat} {col : List (F × Nat)} (hb : ∀ p ∈ col, p.2 < n) (a : Nat) (ha : a ≤ col.length) :
    ∃ marks', (List.range' a (col.length - a)).foldlM
        (fun trueIndices i => do
          let p ← idx col i
          setIdx trueIndices p.2 1) (List.replicate n 0) = (.ok marks' : R (List Nat)) ∧
      Marks n ((col.drop a).map Prod.snd) marks' := by
  have key : ∀ (w u : List (F × Nat)) (s marks : List Nat), col = u ++ w → Marks n s marks →
      ∃ marks', (List.range' u.length w.length).foldlM
        (fun trueIndices i => do
          let p ← idx col i
          setIdx trueIndices p.2 1) marks = (.ok marks' : R (List Nat)) ∧ Marks n (s ++ w.map Prod.snd) marks' := by
    intro w
    induction w with
    | nil => intro u s marks _ hm; exact ⟨marks, rfl, by simpa using hm⟩
    | cons p w ih =>
      intro u s marks hcol hm
      simp only [List.length_cons, List.range'_succ, foldlM_cons_R]
      have hp : idx col u.length = .ok p := idx_some (by simp [hcol])
      obtain ⟨h1, h2⟩ := marks_set hm (hb p (by simp [hcol]))
      obtain ⟨m', h3, h4⟩ := ih (u ++ [p]) _ _ (by simp [hcol]) h2
      refine ⟨m', ?_, by simpa using h4⟩
      simp only [hp, R.ok_bind, h1]
      simpa using h3
  obtain ⟨m', h1, h2⟩ := key (col.drop a) (col.take a) [] _ (List.take_append_drop a col).symm (marks_init n)
  refine ⟨m', ?_, by simpa using h2⟩
  rw [List.length_take, Nat.min_eq_left ha, List.length_drop] at h1
  exact h1

/-- The pairs of the column that go to the true side. -/
def trueSide (v : F) (col : List (F × Nat)) : List (F × Nat) :=
  if (falsePrefix v col).length = col.length then col else col.drop (falsePrefix v col).length

theorem collectIndices_ok {s : SortedDataSet F} {j n : Nat} {v : F} {col : List (F × Nat)}
    (hcol : s.sortedFeatureColumns[j]? = some col) (hb : ∀ p ∈ col, p.2 < n) :
    ∃ mt mf, collectIndicesForPartitioning s j v n = .ok (mt, mf) ∧
      Marks n ((trueSide v col).map Prod.snd) mt ∧ Marks n ((falsePrefix v col).map Prod.snd) mf := by
  obtain ⟨mf, h1, h2⟩ := firstEncounterLoop_ok (v := v) col hb 0 [] _ (marks_init n)
  have hle : (falsePrefix v col).length ≤ col.length := by
    have := (List.takeWhile_prefix (l := col) (fun p => !(v <=. p.1))).length_le
    exact this
  set a := if (falsePrefix v col).length = col.length then 0 else 0 + (falsePrefix v col).length with ha
  obtain ⟨mt, h3, h4⟩ := markRange_ok hb a (by rw [ha]; split <;> omega)
  refine ⟨mt, mf, ?_, ?_, by simpa using h2⟩
  · unfold collectIndicesForPartitioning
    simp only [idx_some hcol, R.ok_bind, h1]
    rw [h3]
    rfl
  · have : trueSide v col = col.drop a := by
      rw [ha]
      unfold trueSide
      split <;> simp
    rw [this]; exact h4

/-! ## Labels -/

theorem collectLabels_ok {labels : List (List F)} {ts fs mt mf : List Nat}
    (ht : Marks labels.length ts mt) (hf : Marks labels.length fs mf) :
    collectPartitionedLabels mt mf labels = .ok
      (((List.range labels.length).filter (fun i => decide (i ∈ ts))).map (fun i => labels.getD i []),
       ((List.range labels.length).filter (fun i => decide (i ∉ ts) && decide (i ∈ fs))).map
          (fun i => labels.getD i [])) := by
  unfold collectPartitionedLabels forRange
  have key : ∀ (l : List Nat) (acc : List (List F) × List (List F)), (∀ i ∈ l, i < labels.length) →
      l.foldlM (fun (acc : List (List F) × List (List F)) i => (do
        if (← idx mt i) = 1 then
          pure (acc.1 ++ [← idx labels i], acc.2)
        else if (← idx mf i) = 1 then
          pure (acc.1, acc.2 ++ [← idx labels i])
        else pure acc : R (List (List F) × List (List F)))) acc = .ok
      (acc.1 ++ (l.filter (fun i => decide (i ∈ ts))).map (fun i => labels.getD i []),
       acc.2 ++ (l.filter (fun i => decide (i ∉ ts) && decide (i ∈ fs))).map (fun i => labels.getD i [])) := by
    intro l
    induction l with
    | nil => intro acc _; simp
    | cons i l ih =>
      intro acc hl
      have hi : i < labels.length := hl i (by simp)
      rw [foldlM_cons_R, marks_idx ht hi]
      simp only [R.ok_bind]
      have hg : labels.getD i [] = labels[i] := getD_of_lt hi
      by_cases h1 : i ∈ ts
      · simp only [h1, if_true, idx_lt hi, R.ok_bind, R.pure_eq]
        rw [← R.pure_eq]
        refine (ih _ (fun k hk => hl k (by simp [hk]))).trans ?_
        simp only [List.filter_cons, h1, decide_true, if_true, List.map_cons, hg]
        simp
      · simp only [h1, if_false, Nat.zero_ne_one, marks_idx hf hi, R.ok_bind]
        by_cases h2 : i ∈ fs
        · simp only [h2, if_true, idx_lt hi, R.ok_bind, R.pure_eq]
          rw [← R.pure_eq]
          refine (ih _ (fun k hk => hl k (by simp [hk]))).trans ?_
          have h3 : (i :: l).filter (fun i => decide (i ∉ ts) && decide (i ∈ fs)) =
              i :: l.filter (fun i => decide (i ∉ ts) && decide (i ∈ fs)) := by simp [h1, h2]
          have h4 : (i :: l).filter (fun i => decide (i ∈ ts)) = l.filter (fun i => decide (i ∈ ts)) := by simp [h1]
          rw [h3, h4, List.map_cons, hg, List.append_assoc, List.singleton_append]
          rfl
        · simp only [h2, if_false, Nat.zero_ne_one, R.ok_bind, R.pure_eq]
          rw [← R.pure_eq]
          refine (ih _ (fun k hk => hl k (by simp [hk]))).trans ?_
          simp [List.filter_cons, h1, h2]
  have := key (List.range labels.length) ([], []) (fun i hi => List.mem_range.mp hi)
  simpa using this

/-! ## Columns -/

theorem splitSortedColumn_ok {n : Nat} {ts mt : List Nat} (ht : Marks n ts mt) {col : List (F × Nat)}
    (hb : ∀ p ∈ col, p.2 < n) :
    splitSortedColumn mt col = .ok
      (col.filter (fun p => decide (p.2 ∈ ts)), col.filter (fun p => decide (p.2 ∉ ts))) := by
  unfold splitSortedColumn
  have key : ∀ (l : List (F × Nat)) (acc : List (F × Nat) × List (F × Nat)), (∀ p ∈ l, p.2 < n) →
      l.foldlM (fun (acc : List (F × Nat) × List (F × Nat)) p => (do
        if (← idx mt p.2) = 1 then pure (acc.1 ++ [p], acc.2)
        else pure (acc.1, acc.2 ++ [p]) : R (List (F × Nat) × List (F × Nat)))) acc = .ok
      (acc.1 ++ l.filter (fun p => decide (p.2 ∈ ts)), acc.2 ++ l.filter (fun p => decide (p.2 ∉ ts))) := by
    intro l
    induction l with
    | nil => intro acc _; simp
    | cons p l ih =>
      intro acc hl
      rw [foldlM_cons_R, marks_idx ht (hl p (by simp))]
      simp only [R.ok_bind]
      by_cases h1 : p.2 ∈ ts
      · simp only [h1, if_true]
        refine (ih _ (fun k hk => hl k (by simp [hk]))).trans ?_
        simp [List.filter_cons, h1]
      · simp only [h1, if_false, Nat.zero_ne_one]
        refine (ih _ (fun k hk => hl k (by simp [hk]))).trans ?_
        simp [List.filter_cons, h1]
  have := key col ([], []) hb
  simpa using this

/-! ## The whole partition -/

theorem nodup_of_increasing {l : List Nat} (h : l.Pairwise (· < ·)) : l.Nodup :=
  h.imp (fun h => Nat.ne_of_lt h)

/-- Two increasing lists with the same members are equal. -/
theorem increasing_ext {l m : List Nat} (hl : l.Pairwise (· < ·)) (hm : m.Pairwise (· < ·))
    (h : ∀ x, x ∈ l ↔ x ∈ m) : l = m := by
  have hp : l.Perm m := (List.perm_ext_iff_of_nodup (nodup_of_increasing hl) (nodup_of_increasing hm)).mpr h
  refine List.Perm.eq_of_pairwise (le := (· < ·)) ?_ hl hm hp
  intro a b _ _ h1 h2
  omega

section
variable {d : DataSet F} {c : Nat} {ids : List Nat} {s : SortedDataSet F}

theorem SortedDataSet.Represents.mem_col (h : s.Represents d c ids) {j : Nat} {col : List (F × Nat)}
    (hcol : s.sortedFeatureColumns[j]? = some col) {p : F × Nat} :
    p ∈ col ↔ p.2 ∈ ids ∧ p.1 = d.feature p.2 j := by
  rw [(h.content j col hcol).mem_iff, List.mem_map]
  constructor
  · rintro ⟨i, hi, rfl⟩; exact ⟨hi, rfl⟩
  · rintro ⟨h1, h2⟩; exact ⟨p.2, h1, by rw [← h2]⟩

theorem SortedDataSet.Represents.bound (h : s.Represents d c ids) (hl : d.labels.length = d.featureRows.length)
    {j : Nat} {col : List (F × Nat)}
    (hcol : s.sortedFeatureColumns[j]? = some col) : ∀ p ∈ col, p.2 < d.labels.length := by
  intro p hp
  rw [hl]; exact h.ids_bound _ ((h.mem_col hcol).mp hp).1

/-- What `new_partition` computes, for any set of marked rows. -/
theorem newPartition_raw (h : s.Represents d c ids) (hl : d.labels.length = d.featureRows.length) {j : Nat} {v : F}
    {col : List (F × Nat)} (hcol : s.sortedFeatureColumns[j]? = some col) :
    newPartition s j v d.labels = .ok
      ({ labels := ((List.range d.labels.length).filter
            (fun i => decide (i ∈ (trueSide v col).map Prod.snd))).map (fun i => d.labels.getD i [])
         sortedFeatureColumns := s.sortedFeatureColumns.map
            (fun col' => col'.filter (fun p => decide (p.2 ∈ (trueSide v col).map Prod.snd))) },
       { labels := ((List.range d.labels.length).filter
            (fun i => decide (i ∉ (trueSide v col).map Prod.snd) &&
              decide (i ∈ (falsePrefix v col).map Prod.snd))).map (fun i => d.labels.getD i [])
         sortedFeatureColumns := s.sortedFeatureColumns.map
            (fun col' => col'.filter (fun p => decide (p.2 ∉ (trueSide v col).map Prod.snd))) }) := by
  obtain ⟨mt, mf, h1, ht, hf⟩ := collectIndices_ok (v := v) hcol (h.bound hl hcol)
  unfold newPartition
  simp only [h1, R.ok_bind, collectLabels_ok ht hf]
  have hcols : s.sortedFeatureColumns.mapM (splitSortedColumn mt) = .ok (s.sortedFeatureColumns.map (fun col' =>
      (col'.filter (fun p => decide (p.2 ∈ (trueSide v col).map Prod.snd)),
       col'.filter (fun p => decide (p.2 ∉ (trueSide v col).map Prod.snd))))) := by
    refine mapM_ok (fun col' hcol' => ?_)
    obtain ⟨j', hj'⟩ := List.getElem?_of_mem hcol'
    exact splitSortedColumn_ok ht (h.bound hl hj')
  unfold collectPartitionedFeatureColumns
  simp only [hcols, R.ok_bind, R.pure_eq, List.map_map]
  rfl

/-- Restricting a represented data set to some of its rows. -/
theorem SortedDataSet.Represents.filter (h : s.Represents d c ids) (keep : Nat → Bool) :
    SortedDataSet.Represents
      { labels := (ids.filter keep).map (fun i => d.labels.getD i [])
        sortedFeatureColumns := s.sortedFeatureColumns.map (fun col => col.filter (fun p => keep p.2)) }
      d c (ids.filter keep) := by
  refine ⟨h.ids_increasing.filter _, fun i hi => h.ids_bound i (List.mem_filter.mp hi).1, rfl, by simp [h.width], ?_, ?_⟩
  · intro j col hcol
    simp only [List.getElem?_map, Option.map_eq_some_iff] at hcol
    obtain ⟨col0, hcol0, rfl⟩ := hcol
    have := (h.content j col0 hcol0).filter (fun p => keep p.2)
    refine this.trans (List.Perm.of_eq ?_)
    rw [List.filter_map]
    rfl
  · intro col hcol
    simp only [List.mem_map] at hcol
    obtain ⟨col0, hcol0, rfl⟩ := hcol
    exact (h.order col0 hcol0).filter _

theorem range_filter_eq {n : Nat} {ids : List Nat} (hinc : ids.Pairwise (· < ·)) (hb : ∀ i ∈ ids, i < n)
    (p : Nat → Bool) (keep : Nat → Bool) (hp : ∀ i, i < n → (p i = true ↔ i ∈ ids ∧ keep i = true)) :
    (List.range n).filter p = ids.filter keep := by
  refine increasing_ext (List.pairwise_lt_range.filter _) (hinc.filter _) (fun x => ?_)
  simp only [List.mem_filter, List.mem_range]
  constructor
  · rintro ⟨h1, h2⟩; exact (hp x h1).mp h2
  · rintro ⟨h1, h2⟩; exact ⟨hb x h1, (hp x (hb x h1)).mpr ⟨h1, h2⟩⟩

/-- `new_partition`, when the rows of the true side are those with `keep`. -/
theorem newPartition_keep (h : s.Represents d c ids) (hl : d.labels.length = d.featureRows.length) {j : Nat} {v : F}
    {col : List (F × Nat)} (hcol : s.sortedFeatureColumns[j]? = some col) (keep : Nat → Bool)
    (ht : ∀ i, i ∈ (trueSide v col).map Prod.snd ↔ i ∈ ids ∧ keep i = true)
    (hf : ∀ i, (i ∉ (trueSide v col).map Prod.snd ∧ i ∈ (falsePrefix v col).map Prod.snd) ↔
      i ∈ ids ∧ keep i = false) :
    newPartition s j v d.labels = .ok
      ({ labels := (ids.filter keep).map (fun i => d.labels.getD i [])
         sortedFeatureColumns := s.sortedFeatureColumns.map (fun col => col.filter (fun p => keep p.2)) },
       { labels := (ids.filter (fun i => !keep i)).map (fun i => d.labels.getD i [])
         sortedFeatureColumns := s.sortedFeatureColumns.map (fun col => col.filter (fun p => !keep p.2)) }) := by
  rw [newPartition_raw h hl hcol]
  have hb : ∀ i ∈ ids, i < d.labels.length := fun i hi => by rw [hl]; exact h.ids_bound i hi
  congr 3
  · rw [range_filter_eq h.ids_increasing hb _ keep]
    intro i _
    rw [decide_eq_true_iff, ht]
  · apply List.map_congr_left
    intro col' hcol'
    apply List.filter_congr
    intro p hp
    obtain ⟨j', hj'⟩ := List.getElem?_of_mem hcol'
    have hid := ((h.mem_col hj').mp hp).1
    have := ht p.2
    cases hk : keep p.2 <;> simp [this, hid, hk]
  · rw [range_filter_eq h.ids_increasing hb _ (fun i => !keep i)]
    intro i _
    rw [Bool.and_eq_true, decide_eq_true_iff, decide_eq_true_iff, hf]
    simp
  · apply List.map_congr_left
    intro col' hcol'
    apply List.filter_congr
    intro p hp
    obtain ⟨j', hj'⟩ := List.getElem?_of_mem hcol'
    have hid := ((h.mem_col hj').mp hp).1
    have := ht p.2
    cases hk : keep p.2 <;> simp [this, hid, hk]

end

section
variable [LawfulOrder F]
open LawfulOrder

theorem before_le {a b : F × Nat} (h : Before a b) : (a.1 <=. b.1) = true := tupleLe_le (tupleLe_of_before h)

/-- In a sorted column, the pairs after the first satisfying one all satisfy the question. -/
theorem drop_falsePrefix {v : F} {col : List (F × Nat)} (hs : col.Pairwise Before)
    (hlen : (falsePrefix v col).length ≠ col.length) :
    ∀ p ∈ col.drop (falsePrefix v col).length, (v <=. p.1) = true := by
  induction col with
  | nil => simp at *
  | cons a rest ih =>
    by_cases hv : (v <=. a.1) = true
    · intro p hp
      simp only [falsePrefix, List.takeWhile_cons, hv, Bool.not_true, Bool.false_eq_true, if_false, List.length_nil,
        List.drop_zero, List.mem_cons] at hp
      rcases hp with rfl | hp
      · exact hv
      · exact le_trans hv (before_le ((List.pairwise_cons.mp hs).1 p hp))
    · simp only [falsePrefix, List.takeWhile_cons, hv, Bool.not_false, if_true, List.length_cons,
        List.drop_succ_cons] at *
      exact ih (List.pairwise_cons.mp hs).2 (by simpa using hlen)

end

omit [F64 F] in
theorem mem_takeWhile_false {p : F × Nat → Bool} {col : List (F × Nat)} {x : F × Nat} (h : x ∈ col.takeWhile p) :
    p x = true := by
  induction col with
  | nil => simp at h
  | cons a rest ih =>
    rw [List.takeWhile_cons] at h
    split at h
    · next ha =>
      rcases List.mem_cons.mp h with rfl | h
      · exact ha
      · exact ih h
    · simp at h

theorem falsePrefix_false {v : F} {col : List (F × Nat)} {p : F × Nat} (h : p ∈ falsePrefix v col) :
    (v <=. p.1) = false := by
  have := mem_takeWhile_false h
  simpa using this

theorem falsePrefix_append {v : F} {col : List (F × Nat)} :
    falsePrefix v col ++ col.drop (falsePrefix v col).length = col := by
  have := (List.takeWhile_prefix (l := col) (fun p => !(v <=. p.1)))
  unfold falsePrefix
  conv => rhs; rw [← List.take_append_drop (falsePrefix v col).length col]
  congr 1
  exact List.prefix_iff_eq_take.mp this

section
variable [LawfulOrder F] {d : DataSet F} {c : Nat} {ids : List Nat} {s : SortedDataSet F}

/-- With a satisfying row, the partition follows the question. -/
theorem newPartition_ok (h : s.Represents d c ids) (hl : d.labels.length = d.featureRows.length) {j : Nat} {v : F}
    (hj : j < c) (hsat : ∃ i ∈ ids, (v <=. d.feature i j) = true) :
    newPartition s j v d.labels = .ok
      ({ labels := (ids.filter (fun i => v <=. d.feature i j)).map (fun i => d.labels.getD i [])
         sortedFeatureColumns := s.sortedFeatureColumns.map
          (fun col => col.filter (fun p => v <=. d.feature p.2 j)) },
       { labels := (ids.filter (fun i => !(v <=. d.feature i j))).map (fun i => d.labels.getD i [])
         sortedFeatureColumns := s.sortedFeatureColumns.map
          (fun col => col.filter (fun p => !(v <=. d.feature p.2 j))) }) := by
  have hj' : j < s.sortedFeatureColumns.length := by rw [h.width]; exact hj
  have hcol : s.sortedFeatureColumns[j]? = some s.sortedFeatureColumns[j] := by simp [hj']
  set col := s.sortedFeatureColumns[j] with hcoldef
  have hmem : col ∈ s.sortedFeatureColumns := List.mem_of_getElem? hcol
  have hlen : (falsePrefix v col).length ≠ col.length := by
    intro hlen
    obtain ⟨i, hi, hs⟩ := hsat
    have hp : (d.feature i j, i) ∈ col := (h.mem_col hcol).mpr ⟨hi, rfl⟩
    have : falsePrefix v col = col :=
      (List.takeWhile_prefix (l := col) (fun p => !(v <=. p.1))).eq_of_length hlen
    rw [← this] at hp
    have := falsePrefix_false hp
    simp only at this
    rw [hs] at this; simp at this
  have htrue : trueSide v col = col.drop (falsePrefix v col).length := by
    unfold trueSide; rw [if_neg hlen]
  have hdrop := drop_falsePrefix (h.order col hmem) hlen
  have hT : ∀ i, i ∈ (trueSide v col).map Prod.snd ↔ i ∈ ids ∧ (v <=. d.feature i j) = true := by
    intro i
    rw [htrue, List.mem_map]
    constructor
    · rintro ⟨p, hp, rfl⟩
      have hpc : p ∈ col := List.mem_of_mem_drop hp
      obtain ⟨h1, h2⟩ := (h.mem_col hcol).mp hpc
      exact ⟨h1, by rw [← h2]; exact hdrop p hp⟩
    · rintro ⟨hi, hs⟩
      have hp : (d.feature i j, i) ∈ col := (h.mem_col hcol).mpr ⟨hi, rfl⟩
      rw [← falsePrefix_append (v := v) (col := col), List.mem_append] at hp
      rcases hp with hp | hp
      · have := falsePrefix_false hp
        simp only at this
        rw [hs] at this; simp at this
      · exact ⟨_, hp, rfl⟩
  refine newPartition_keep h hl hcol (fun i => v <=. d.feature i j) hT ?_
  intro i
  rw [hT i]
  constructor
  · rintro ⟨h1, h2⟩
    rw [List.mem_map] at h2
    obtain ⟨p, hp, rfl⟩ := h2
    have hpc : p ∈ col := List.mem_of_mem_take (i := (falsePrefix v col).length)
      (by
        have := List.prefix_iff_eq_take.mp (List.takeWhile_prefix (l := col) (fun p => !(v <=. p.1)))
        rw [show col.take (falsePrefix v col).length = falsePrefix v col from this.symm]; exact hp)
    obtain ⟨h3, h4⟩ := (h.mem_col hcol).mp hpc
    exact ⟨h3, by rw [← h4]; exact falsePrefix_false hp⟩
  · rintro ⟨hi, hs⟩
    refine ⟨by simp [hs], ?_⟩
    have hp : (d.feature i j, i) ∈ col := (h.mem_col hcol).mpr ⟨hi, rfl⟩
    rw [← falsePrefix_append (v := v) (col := col), List.mem_append] at hp
    rcases hp with hp | hp
    · exact List.mem_map.mpr ⟨_, hp, rfl⟩
    · have := hdrop _ hp
      simp only at this
      rw [hs] at this; simp at this

end

section
variable {d : DataSet F} {c : Nat} {ids : List Nat} {s : SortedDataSet F}

/-- Without a satisfying row, every row is sent to the true side. -/
theorem newPartition_none (h : s.Represents d c ids) (hl : d.labels.length = d.featureRows.length) {j : Nat} {v : F}
    (hj : j < c) (hsat : ∀ i ∈ ids, (v <=. d.feature i j) = false) :
    newPartition s j v d.labels = .ok
      (s, { labels := [], sortedFeatureColumns := s.sortedFeatureColumns.map (fun _ => []) }) := by
  have hj' : j < s.sortedFeatureColumns.length := by rw [h.width]; exact hj
  have hcol : s.sortedFeatureColumns[j]? = some s.sortedFeatureColumns[j] := by simp [hj']
  set col := s.sortedFeatureColumns[j] with hcoldef
  have hall : falsePrefix v col = col := by
    have : ∀ p ∈ col, (!(v <=. p.1)) = true := by
      intro p hp
      obtain ⟨h1, h2⟩ := (h.mem_col hcol).mp hp
      rw [h2, hsat _ h1]; rfl
    exact List.takeWhile_eq_self_iff.mpr this
  have htrue : trueSide v col = col := by
    unfold trueSide; rw [if_pos (by rw [hall])]
  have hids : ∀ i, i ∈ col.map Prod.snd ↔ i ∈ ids := by
    intro i
    rw [List.mem_map]
    constructor
    · rintro ⟨p, hp, rfl⟩; exact ((h.mem_col hcol).mp hp).1
    · intro hi; exact ⟨(d.feature i j, i), (h.mem_col hcol).mpr ⟨hi, rfl⟩, rfl⟩
  have := newPartition_keep h hl (v := v) hcol (fun _ => true) (by intro i; rw [htrue, hids]; simp)
    (by intro i; rw [htrue, hall]; simp)
  rw [this]
  congr 2
  · cases s with
    | mk labels cols =>
      have hlab := h.labels
      simp only at hlab
      simp [hlab]
  · simp

end

end Verif
