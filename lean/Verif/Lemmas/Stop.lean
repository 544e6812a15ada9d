import Verif.Spec.Stop
import Verif.Lemmas.FullFit
import Verif.Lemmas.Greedy
/-! # When there is nothing left to learn -/

set_option linter.unusedSectionVars false

namespace Verif

section order
variable {F : Type} [F64 F] [LawfulOrder F]

theorem sameFeatures_iff {r r' : List F} : sameFeatures r r' = true ↔ SameFeatures r r' := by
  rw [sameFeatures, List.all_eq_true]
  constructor
  · intro h j x y hx hy
    refine h (x, y) (List.mem_of_getElem? (i := j) ?_)
    rw [List.getElem?_zip_eq_some]
    exact ⟨hx, hy⟩
  · rintro h ⟨x, y⟩ hp
    obtain ⟨j, hj⟩ := List.getElem?_of_mem hp
    rw [List.getElem?_zip_eq_some] at hj
    exact h j x y hj.1 hj.2

theorem SameFeatures.symm {r r' : List F} (h : SameFeatures r r') : SameFeatures r' r :=
  fun j x y hx hy => eq_symm' (h j y x hy hx)

theorem SameFeatures.trans {r r' r'' : List F} (hl : r.length = r'.length) (h : SameFeatures r r') (h' : SameFeatures r' r'') :
    SameFeatures r r'' := by
  intro j x y hx hy
  have hj : j < r'.length := by rw [← hl]; exact (List.getElem?_eq_some_iff.mp hx).1
  have hz := List.getElem?_eq_getElem hj
  exact eq_trans' (h j x _ hx hz) (h' j _ y hz hy)

theorem SameFeatures.refl {r : List F} (h : ∀ x ∈ r, isNaN x = false) : SameFeatures r r := by
  intro j x y hx hy
  rw [hx] at hy
  cases hy
  have := nn_of_isNaN_false (h x (List.mem_of_getElem? hx))
  exact LawfulOrder.eq_iff.mpr ⟨le_rfl' this, le_rfl' this⟩

theorem SameFeatures.satisfies {r r' : List F} (hl : r.length = r'.length) (h : SameFeatures r r') (q : Question F) :
    satisfies q r = satisfies q r' := by
  rw [Verif.satisfies, Verif.satisfies]
  rcases Nat.lt_or_ge q.column r.length with hq | hq
  · have hx := List.getElem?_eq_getElem hq
    have hy := List.getElem?_eq_getElem (hl ▸ hq : q.column < r'.length)
    have e := h q.column _ _ hx hy
    rw [hx, hy]
    simp only
    rw [Bool.eq_iff_iff]
    exact ⟨fun h => LawfulOrder.le_trans h (eq_le e), fun h => LawfulOrder.le_trans h (eq_le (eq_symm' e))⟩
  · rw [List.getElem?_eq_none hq, List.getElem?_eq_none (hl ▸ hq)]

theorem SameFeatures.route {L : Type} {r r' : List F} (hl : r.length = r'.length) (h : SameFeatures r r') {tree : TreeNode F L}
    (hp : tree.Proper) : tree.route r = tree.route r' := by
  induction hp with
  | leaf q l => rfl
  | node q a b _ _ iha ihb =>
    simp only [TreeNode.route]
    rw [h.satisfies hl q, iha, ihb]

theorem SameFeatures.hasLess {r r' : List F} {rows : List (List F)} (hl : r.length = r'.length) (h : SameFeatures r r')
    (hr : HasLess rows r) : HasLess rows r' := by
  obtain ⟨row, hm, j, x, y, hx, hy, hlt⟩ := hr
  have hj : j < r'.length := by rw [← hl]; exact (List.getElem?_eq_some_iff.mp hy).1
  have hz := List.getElem?_eq_getElem hj
  exact ⟨row, hm, j, x, _, hx, hz, lt_of_lt_of_le hlt (eq_le (h j y _ hy hz))⟩

/-- two rows below which there is nothing have the same features -/
theorem sameFeatures_of_least {r r' : List F} {rows : List (List F)} (hr : r ∈ rows) (hr' : r' ∈ rows) (hn : ∀ x ∈ r, isNaN x = false)
    (hn' : ∀ x ∈ r', isNaN x = false) (h : ¬ HasLess rows r) (h' : ¬ HasLess rows r') : SameFeatures r r' := by
  intro j x y hx hy
  have nx := nn_of_isNaN_false (hn x (List.mem_of_getElem? hx))
  have ny := nn_of_isNaN_false (hn' y (List.mem_of_getElem? hy))
  have l1 : (x <. y) = false := by
    cases hc : (x <. y) with
    | false => rfl
    | true => exact absurd ⟨r, hr, j, x, y, hx, hy, hc⟩ h'
  have l2 : (y <. x) = false := by
    cases hc : (y <. x) with
    | false => rfl
    | true => exact absurd ⟨r', hr', j, y, x, hy, hx, hc⟩ h
  exact LawfulOrder.eq_iff.mpr ⟨(not_lt ny nx).mp l2, (not_lt nx ny).mp l1⟩

/-- what a leaf holds, and why it is a leaf -/
theorem treeOf_leafAt_gain {L : Type} {leafOf : DataSet F → L} {c t : Nat} (m : Nat) (d : DataSet F) (h : d.WF c t) :
    ∀ p l, (treeOf leafOf c t m d).leafAt p = some l →
      ∃ dd : DataSet F, dd.WF c t ∧ dd.examples = d.examples.filter (fun e => decide ((treeOf leafOf c t m d).route e.1 = p)) ∧
        (p.length < m → ((splitOf dd t).gain ==. F64.zero) = true) := by
  refine treeOf_induct (motive := fun m d => ∀ p l, (treeOf leafOf c t m d).leafAt p = some l →
      ∃ dd : DataSet F, dd.WF c t ∧ dd.examples = d.examples.filter (fun e => decide ((treeOf leafOf c t m d).route e.1 = p)) ∧
        (p.length < m → ((splitOf dd t).gain ==. F64.zero) = true)) ?_ ?_ ?_ m d h
  · intro d hw p l hp
    obtain ⟨rfl, rfl⟩ := TreeNode.leafAt_leafNode hp
    refine ⟨d, hw, ?_, fun h0 => absurd h0 (Nat.not_lt_zero _)⟩
    simp [treeOf, TreeNode.route_leafNode]
  · intro m d hw hg p l hp
    rw [treeOf_leaf hg] at hp ⊢
    obtain ⟨rfl, rfl⟩ := TreeNode.leafAt_leafNode hp
    refine ⟨d, hw, ?_, fun _ => hg⟩
    simp [TreeNode.route_leafNode]
  · intro m d hw hg h1 h2 p l hp
    rw [treeOf_node hg] at hp ⊢
    match p with
    | [] => simp [TreeNode.new, TreeNode.leafAt] at hp
    | true :: p =>
      obtain ⟨dd, h4, h5, h6⟩ := h1 p l hp
      refine ⟨dd, h4, ?_, fun hl => h6 (by simpa using hl)⟩
      rw [h5, restrict_examples, List.filter_filter]
      apply List.filter_congr
      intro e _
      rw [TreeNode.route_new]
      cases hs : satisfies (splitOf d t).question e.1 <;> simp
    | false :: p =>
      obtain ⟨dd, h4, h5, h6⟩ := h2 p l hp
      refine ⟨dd, h4, ?_, fun hl => h6 (by simpa using hl)⟩
      rw [h5, restrict_examples, List.filter_filter]
      apply List.filter_congr
      intro e _
      rw [TreeNode.route_new]
      cases hs : satisfies (splitOf d t).question e.1 <;> simp

end order

section exact
variable {K : Type} [Field K] [LinearOrder K] [IsStrictOrderedRing K] [FloorSemiring K] [HasExp K]

theorem hasLess_cut {d : DataSet (Ext K)} {c t : Nat} (h : d.WF c t) {a : Nat} (ha : a < d.featureRows.length) :
    HasLess d.featureRows d.featureRows[a] ↔ ∃ j < c, IsCut d.featureRows j a := by
  constructor
  · rintro ⟨row, hm, j, x, y, hx, hy, hlt⟩
    obtain ⟨b, hb, rfl⟩ := List.getElem_of_mem hm
    refine ⟨j, ?_, ha, b, hb, ?_⟩
    · rw [← h.row_len _ (List.getElem_mem ha)]; exact (List.getElem?_eq_some_iff.mp hy).1
    · simpa [column, List.getD, ha, hb, hx, hy] using hlt
  · rintro ⟨j, hj, _, b, hb, hlt⟩
    have l1 := h.row_len _ (List.getElem_mem ha)
    have l2 := h.row_len _ (List.getElem_mem hb)
    refine ⟨_, List.getElem_mem hb, j, _, _, List.getElem?_eq_getElem (by omega), List.getElem?_eq_getElem (by omega), ?_⟩
    simpa [column, List.getD, ha, hb, l1, l2, hj] using hlt

theorem zip_fst {α β : Type} {l : List α} {m : List β} (h : m.length = l.length) : (l.zip m).map Prod.fst = l := List.map_fst_zip h.ge

theorem zip_snd {α β : Type} {l : List α} {m : List β} (h : m.length = l.length) : (l.zip m).map Prod.snd = m := List.map_snd_zip h.le

/-- the gain is zero exactly if there is nothing left to learn -/
theorem gain_zero_iff {d : DataSet (Ext K)} {c t : Nat} (h : d.WF c t) {ls : List (List K)} (hls : d.labels = lift ls) :
    ((splitOf d t).gain ==. F64.zero) = true ↔ NothingLeft t (d.featureRows.zip ls) := by
  have hlen : ls.length = d.featureRows.length := by rw [← h.label_count, hls, lift_length]
  have hw := lift_width hls h.label_len
  rw [NothingLeft, zip_fst hlen, zip_snd hlen]
  constructor
  · intro hg e he hless
    obtain ⟨a, ha, rfl⟩ := List.getElem_of_mem he
    simp only [List.length_zip, lt_min_iff] at ha
    simp only [List.getElem_zip] at hless ⊢
    obtain ⟨j, hj, hc⟩ := (hasLess_cut h ha.1).mp hless
    have := mean_of_no_gain_rows h hls hg hj hc
    rw [eq_range_getD (hw _ (List.getElem_mem ha.2)) 0, meanVec]
    apply List.map_congr_left
    intro k hk
    rw [List.mem_range] at hk
    have := this k hk
    simpa [List.getD, ha.2] using this
  · intro hn
    refine no_gain_of_mean_rows h hls ?_
    intro j hj a hc k hk
    have ha := hc.1
    have ha' : a < ls.length := by omega
    have := hn (d.featureRows[a], ls[a]) (by rw [List.mem_iff_getElem]; exact ⟨a, by simp [ha, ha'], by simp⟩)
      ((hasLess_cut h ha).mpr ⟨j, hj, hc⟩)
    simp only at this
    have hga : ls.getD a [] = ls[a] := by rw [List.getD, List.getElem?_eq_getElem ha', Option.getD_some]
    rw [hga, this, meanVec, getD_range hk]

theorem sum_sub_mean (l : List K) : (l.map (fun x => x - meanOf l)).sum = 0 := by
  have : ∀ (l : List K) (m : K), (l.map (fun x => x - m)).sum = l.sum - l.length * m := by
    intro l m
    induction l with
    | nil => simp
    | cons x l ih => rw [List.map_cons, List.sum_cons, ih, List.sum_cons, List.length_cons]; push_cast; ring
  rw [this, meanOf]
  rcases eq_or_ne l [] with rfl | h
  · simp
  · have := length_cast_ne (K := K) h
    field_simp
    ring

theorem copies_self {es : List (List (Ext K) × List K)} (hn : ∀ e ∈ es, ∀ x ∈ e.1, isNaN x = false) {e : List (Ext K) × List K}
    (he : e ∈ es) : e.2 ∈ copies es e.1 :=
  List.mem_map.mpr ⟨e, List.mem_filter.mpr ⟨he, sameFeatures_iff.mpr (SameFeatures.refl (hn e he))⟩, rfl⟩

/-- where there is nothing left to learn, the mean label of the copies of any row is the mean label -/
theorem copyMean_of_nothingLeft {c t : Nat} {es : List (List (Ext K) × List K)} (hc : ∀ e ∈ es, e.1.length = c)
    (hn : ∀ e ∈ es, ∀ x ∈ e.1, isNaN x = false) (hl : NothingLeft t es) {e : List (Ext K) × List K} (he : e ∈ es) :
    copyMean t es e.1 = meanVec t (es.map Prod.snd) := by
  have hne : copies es e.1 ≠ [] := List.ne_nil_of_mem (copies_self hn he)
  have h0 := length_cast_ne (K := K) hne
  rw [copyMean, meanVec, meanVec]
  apply List.map_congr_left
  intro k hk
  rw [List.mem_range] at hk
  set μ := meanOf (target (es.map Prod.snd) k) with hμ
  have hmean : ∀ x ∈ es, HasLess (es.map Prod.fst) x.1 → x.2.getD k 0 - μ = 0 := by
    intro x hx hless
    rw [hl x hx hless, meanVec, getD_range hk, sub_self]
  -- the deviations of the copies add up to zero
  have hdev : ((es.filter (fun x => sameFeatures e.1 x.1)).map (fun x => x.2.getD k 0 - μ)).sum = 0 := by
    by_cases hless : HasLess (es.map Prod.fst) e.1
    · apply List.sum_eq_zero
      intro v hv
      obtain ⟨x, hx, rfl⟩ := List.mem_map.mp hv
      rw [List.mem_filter, sameFeatures_iff] at hx
      exact hmean x hx.1 (hx.2.hasLess (by rw [hc e he, hc x hx.1]) hless)
    · have htot : (es.map (fun x => x.2.getD k 0 - μ)).sum = 0 := by
        have := sum_sub_mean (target (es.map Prod.snd) k)
        rw [← hμ] at this
        rw [target, List.map_map, List.map_map] at this
        exact this
      have hsplit := ((filter_append_not_perm (fun x : List (Ext K) × List K => sameFeatures e.1 x.1) es).map
        (fun x => x.2.getD k 0 - μ)).sum_eq
      rw [List.map_append, List.sum_append, htot] at hsplit
      have hrest : ((es.filter (fun x => !sameFeatures e.1 x.1)).map (fun x => x.2.getD k 0 - μ)).sum = 0 := by
        apply List.sum_eq_zero
        intro v hv
        obtain ⟨x, hx, rfl⟩ := List.mem_map.mp hv
        rw [List.mem_filter] at hx
        refine hmean x hx.1 ?_
        by_contra hnl
        have := sameFeatures_iff.mpr (sameFeatures_of_least (List.mem_map.mpr ⟨e, he, rfl⟩) (List.mem_map.mpr ⟨x, hx.1, rfl⟩) (hn e he)
          (hn x hx.1) hless hnl)
        rw [this] at hx
        exact absurd hx.2 (by simp)
      rw [hrest, add_zero] at hsplit
      exact hsplit
  have hs : ((es.filter (fun x => sameFeatures e.1 x.1)).map (fun x => x.2.getD k 0 - μ)).sum =
      (target (copies es e.1) k).sum - (copies es e.1).length * μ := by
    rw [copies, target, List.map_map, List.length_map]
    induction es.filter (fun x => sameFeatures e.1 x.1) with
    | nil => simp
    | cons y l ih =>
      rw [List.map_cons, List.sum_cons, ih, List.map_cons, List.sum_cons, List.length_cons]
      push_cast
      simp only [Function.comp]
      ring
  rw [hdev] at hs
  rw [meanOf, target_length, div_eq_iff h0]
  linear_combination -hs

/-- in a deep enough tree, the mean label in the leaf of a training row is the mean label of the copies of the row -/
theorem treeOf_copies {L : Type} {leafOf : DataSet (Ext K) → L} {c t m : Nat} {d : DataSet (Ext K)} (h : d.WF c t)
    {ls : List (List K)} (hls : d.labels = lift ls) (hm : d.featureRows.length ≤ m + 1) :
    ∀ row ∈ d.featureRows, meanVec t (mates (treeOf leafOf c t m d) (d.featureRows.zip ls) row) = copyMean t (d.featureRows.zip ls) row := by
  intro row hrow
  have hlen : ls.length = d.featureRows.length := by rw [← h.label_count, hls, lift_length]
  set tree := treeOf leafOf c t m d with htree
  have hprop : tree.Proper := treeOf_proper m d
  obtain ⟨leaf, _, hl⟩ := TreeNode.find_of_proper hprop (row := row)
    (fun p q hq => by rw [h.row_len row hrow]; exact (treeOf_questions m d h p q hq).1)
  obtain ⟨dd, hw, hex, hgain⟩ := treeOf_leafAt_gain m d h _ leaf hl
  obtain ⟨h1, h2, h3⟩ := mates_ok hls hw hex
  set es := d.featureRows.zip ls with hes
  -- the examples of the leaf
  have hrows : dd.featureRows = (es.filter (fun e => decide (tree.route e.1 = tree.route row))).map Prod.fst := by
    have : dd.featureRows = dd.examples.map Prod.fst := by rw [DataSet.examples, List.map_fst_zip hw.label_count.ge]
    rw [this, hex, examples_lift hls, List.filter_map, List.map_map]
    rfl
  have hzip : dd.featureRows.zip (mates tree es row) = es.filter (fun e => decide (tree.route e.1 = tree.route row)) := by
    rw [hrows, mates, List.zip_map']
    simp
  have hlc : ∀ e ∈ es, e.1.length = c := fun e he => h.row_len _ (List.of_mem_zip (show (e.1, e.2) ∈ _ from he)).1
  have hcopies : copies (es.filter (fun e => decide (tree.route e.1 = tree.route row))) row = copies es row := by
    rw [copies, copies, List.filter_filter]
    congr 1
    apply List.filter_congr
    intro e he
    cases hs : sameFeatures row e.1 with
    | false => rfl
    | true =>
      have := (sameFeatures_iff.mp hs).route (by rw [h.row_len row hrow, hlc e he]) hprop
      simp [this]
  obtain ⟨i, hi, hir⟩ := List.getElem_of_mem hrow
  have hi' : i < ls.length := by omega
  have hmem : (row, ls[i]) ∈ es := by
    rw [List.mem_iff_getElem]
    exact ⟨i, by simp [hes, hi, hi'], by simp [hes, hir]⟩
  have hmem' : (row, ls[i]) ∈ es.filter (fun e => decide (tree.route e.1 = tree.route row)) := List.mem_filter.mpr ⟨hmem, by simp⟩
  have hnn : ∀ e ∈ es, ∀ x ∈ e.1, isNaN x = false := fun e he => h.no_nan _ (List.of_mem_zip (show (e.1, e.2) ∈ _ from he)).1
  rcases Nat.lt_or_ge (tree.route row).length m with hlt | hge
  · have hnl := (gain_zero_iff hw h1).mp (hgain hlt)
    rw [hzip] at hnl
    have := copyMean_of_nothingLeft (c := c) (fun e he => hlc e (List.mem_of_mem_filter he)) (fun e he => hnn e (List.mem_of_mem_filter he)) hnl hmem'
    rw [copyMean, hcopies] at this
    exact this.symm
  · have hdep := treeOf_depth (leafOf := leafOf) m d h _ leaf hl
    have hel : d.examples.length = d.featureRows.length := by simp [DataSet.examples, h.label_count]
    rw [← htree, ← hex, DataSet.examples] at hdep
    have hsub : copies es row = mates tree es row := by
      rw [← hcopies, copies, mates]
      congr 1
      rw [List.filter_eq_self]
      have hone : (es.filter (fun e => decide (tree.route e.1 = tree.route row))).length ≤ 1 := by
        rw [← hzip]
        simp only [List.length_zip] at hdep ⊢
        have : (mates tree es row).length = dd.labels.length := by rw [h1, lift_length]
        omega
      intro e he
      match hf : es.filter (fun e => decide (tree.route e.1 = tree.route row)) with
      | [] => rw [hf] at he; cases he
      | [y] =>
        rw [hf, List.mem_singleton] at he hmem'
        rw [he, ← hmem', sameFeatures_iff]
        exact SameFeatures.refl (hnn _ hmem)
      | _ :: _ :: _ => rw [hf] at hone; simp at hone
    rw [copyMean, hsub]

/-- taking the same vector away from all labels takes it away from their mean -/
theorem meanVec_sub {t : Nat} {ls : List (List K)} (hne : ls ≠ []) (hw : ∀ l ∈ ls, l.length = t) {v : List K} (hv : v.length = t) :
    meanVec t (ls.map (fun l => List.zipWith (· - ·) l v)) = List.zipWith (· - ·) (meanVec t ls) v := by
  have h0 := length_cast_ne (K := K) hne
  rw [zipWith_getD (meanVec_length t ls) hv 0 0, meanVec]
  apply List.map_congr_left
  intro k hk
  rw [List.mem_range] at hk
  rw [meanVec, getD_range hk, meanOf, meanOf, target_length, target_length, List.length_map]
  have hs : (target (ls.map (fun l => List.zipWith (· - ·) l v)) k).sum = (target ls k).sum - ls.length * v.getD k 0 := by
    clear hne h0
    induction ls with
    | nil => simp [target]
    | cons l ls ih =>
      have hl := hw l List.mem_cons_self
      have ih := ih (fun x hx => hw x (List.mem_cons_of_mem _ hx))
      rw [target] at ih ⊢
      rw [List.map_cons, List.map_cons, List.sum_cons, ih, target, target, List.map_cons, List.sum_cons, List.length_cons,
        zipWith_getD hl hv 0 0, getD_range hk]
      push_cast
      ring
  rw [hs]
  field_simp

/-- the mean label of the copies, after predictions that do not tell copies apart have been taken away -/
theorem copyMean_resid {t : Nat} {rows : List (List (Ext K))} {ls : List (List K)} (hll : ls.length = rows.length)
    (hw : ∀ l ∈ ls, l.length = t) (hn : ∀ row ∈ rows, ∀ x ∈ row, isNaN x = false)
    {P : List (Ext K) → List K} (hP : ∀ row, (P row).length = t)
    (hPs : ∀ row ∈ rows, ∀ row' ∈ rows, SameFeatures row row' → P row = P row') {row : List (Ext K)} (hrow : row ∈ rows) :
    copyMean t (rows.zip (List.zipWith (List.zipWith (· - ·)) ls (rows.map P))) row =
      List.zipWith (· - ·) (copyMean t (rows.zip ls) row) (P row) := by
  have hz : rows.zip (List.zipWith (List.zipWith (· - ·)) ls (rows.map P)) =
      (rows.zip ls).map (fun e => (e.1, List.zipWith (· - ·) e.2 (P e.1))) := by
    apply List.ext_getElem (by simp [hll])
    intro i h1 h2
    simp
  have hc : copies (rows.zip (List.zipWith (List.zipWith (· - ·)) ls (rows.map P))) row =
      (copies (rows.zip ls) row).map (fun l => List.zipWith (· - ·) l (P row)) := by
    rw [hz, copies, copies, List.filter_map, List.map_map, List.map_map]
    apply List.map_congr_left
    intro e he
    rw [List.mem_filter] at he
    have := (List.of_mem_zip (show (e.1, e.2) ∈ _ from he.1)).1
    simp only [Function.comp_apply]
    rw [hPs row hrow e.1 this (sameFeatures_iff.mp he.2)]
  rw [copyMean, hc, copyMean]
  refine meanVec_sub ?_ ?_ (hP row)
  · obtain ⟨i, hi, rfl⟩ := List.getElem_of_mem hrow
    have hi' : i < ls.length := by omega
    refine List.ne_nil_of_mem (copies_self (e := (rows[i], ls[i])) ?_ ?_)
    · intro e he
      exact hn _ (List.of_mem_zip (show (e.1, e.2) ∈ _ from he)).1
    · rw [List.mem_iff_getElem]
      exact ⟨i, by simp [hi, hi'], by simp⟩
  · intro l hl
    obtain ⟨e, he, rfl⟩ := List.mem_map.mp hl
    exact hw _ (List.of_mem_zip (show (e.1, e.2) ∈ _ from List.mem_of_mem_filter he)).2

/-- copies have the same mean label -/
theorem copyMean_same {d : DataSet (Ext K)} {c t : Nat} (h : d.WF c t) {ls : List (List K)} {row row' : List (Ext K)}
    (hr : row ∈ d.featureRows) (hr' : row' ∈ d.featureRows) (hs : SameFeatures row row') :
    copyMean t (d.featureRows.zip ls) row = copyMean t (d.featureRows.zip ls) row' := by
  rw [copyMean, copyMean, copies, copies]
  congr 2
  apply List.filter_congr
  intro e he
  have he := (List.of_mem_zip (show (e.1, e.2) ∈ _ from he)).1
  rw [Bool.eq_iff_iff, sameFeatures_iff, sameFeatures_iff]
  have l1 := h.row_len _ hr
  have l2 := h.row_len _ hr'
  exact ⟨fun h' => hs.symm.trans (by omega) h', fun h' => hs.trans (by omega) h'⟩

end exact

end Verif
