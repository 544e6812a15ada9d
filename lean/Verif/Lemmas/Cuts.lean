import Verif.Spec.Cuts
import Verif.Lemmas.FullFit
import Verif.Lemmas.Ties
import Verif.Lemmas.FeatureOrder
/-! # The ways in which questions divide the rows -/

set_option linter.unusedSectionVars false

namespace Verif

section
variable {F : Type} [F64 F]

theorem DivideAlike.mono {rows rows' : List (List F)} (h : ∀ r ∈ rows', r ∈ rows) {A B : List F → Bool} (hd : DivideAlike rows A B) :
    DivideAlike rows' A B := by
  rcases hd with hd | hd
  · exact .inl fun r hr => hd r (h r hr)
  · exact .inr fun r hr => hd r (h r hr)

theorem SameCuts.mono {c c' : Nat} {f : List F → List F} {rows rows' : List (List F)} (h : ∀ r ∈ rows', r ∈ rows) (hs : SameCuts c c' f rows) :
    SameCuts c c' f rows' := by
  constructor
  · intro q hq
    obtain ⟨q', h1, h2⟩ := hs.1 q hq
    exact ⟨q', h1, h2.mono h⟩
  · intro q hq
    obtain ⟨q', h1, h2⟩ := hs.2 q hq
    exact ⟨q', h1, h2.mono h⟩

theorem Describes.examples {f : List F → List F} {d d' : DataSet F} (h : Describes f d d') :
    d'.examples = d.examples.map (fun e => (f e.1, e.2)) := by
  simp only [DataSet.examples, h.1, h.2, List.zip_map_left]
  rfl

theorem Describes.restrict {f : List F → List F} {d d' : DataSet F} (h : Describes f d d') {c c' : Nat} {p p' : List F → Bool}
    (hp : ∀ row ∈ d.featureRows, p' (f row) = p row) : Describes f (d.restrict c p) (d'.restrict c' p') := by
  have hf : d'.examples.filter (fun e => p' e.1) = (d.examples.filter (fun e => p e.1)).map (fun e => (f e.1, e.2)) := by
    rw [h.examples, List.filter_map]
    congr 1
    apply List.filter_congr
    intro e he
    exact hp _ (examples_fst_mem he)
  constructor
  · show (d'.examples.filter (fun e => p' e.1)).map Prod.fst = ((d.examples.filter (fun e => p e.1)).map Prod.fst).map f
    rw [hf]; simp [Function.comp_def]
  · show (d'.examples.filter (fun e => p' e.1)).map Prod.snd = (d.examples.filter (fun e => p e.1)).map Prod.snd
    rw [hf]; simp [Function.comp_def]

theorem restrict_rows_mem {d : DataSet F} {c : Nat} {p : List F → Bool} : ∀ r ∈ (d.restrict c p).featureRows, r ∈ d.featureRows := by
  intro r hr
  obtain ⟨e, he, rfl⟩ := List.mem_map.mp (show r ∈ (d.examples.filter (fun e => p e.1)).map Prod.fst from hr)
  exact examples_fst_mem (List.mem_filter.mp he).1

theorem restrict_rows_mem' {d : DataSet F} {c t : Nat} (h : d.WF c t) {p : List F → Bool} {r : List F} (hr : r ∈ d.featureRows) (hp : p r = true) :
    r ∈ (d.restrict c p).featureRows := by
  obtain ⟨i, hi, rfl⟩ := List.getElem_of_mem hr
  have hi' : i < d.labels.length := by rw [h.label_count]; exact hi
  show _ ∈ (d.examples.filter (fun e => p e.1)).map Prod.fst
  refine List.mem_map.mpr ⟨(d.featureRows[i], d.labels[i]), List.mem_filter.mpr ⟨?_, hp⟩, rfl⟩
  refine List.mem_iff_getElem.mpr ⟨i, by simp [DataSet.examples, hi, hi'], by simp [DataSet.examples]⟩

section
variable [LawfulOrder F]
open LawfulOrder

/-- any upward closed set of rows is what some question asks for, or its complement is everything -/
theorem exists_threshold {rows : List (List F)} {g : List F → F} (hn : ∀ r ∈ rows, (g r ==. g r) = true) {A : List F → Bool}
    (hup : ∀ r ∈ rows, ∀ s ∈ rows, A r = true → (g r <=. g s) = true → A s = true) :
    (∀ r ∈ rows, A r = false) ∨ ∃ v, ∀ r ∈ rows, (v <=. g r) = A r := by
  by_cases hex : ∃ r ∈ rows, A r = true
  · right
    have : ∃ m ∈ rows, A m = true ∧ ∀ r ∈ rows, A r = true → (g m <=. g r) = true := by
      clear hup
      induction rows with
      | nil => obtain ⟨r, hr, _⟩ := hex; cases hr
      | cons a rows ih =>
        by_cases hex' : ∃ r ∈ rows, A r = true
        · obtain ⟨m, hm, hA, hmin⟩ := ih (fun r hr => hn r (List.mem_cons_of_mem _ hr)) hex'
          by_cases ha : A a = true
          · rcases LawfulOrder.le_total (hn a List.mem_cons_self) (hn m (List.mem_cons_of_mem _ hm)) with hl | hl
            · refine ⟨a, List.mem_cons_self, ha, fun r hr hAr => ?_⟩
              rcases List.mem_cons.mp hr with rfl | hr
              · exact (eq_iff.mp (hn r List.mem_cons_self)).1
              · exact LawfulOrder.le_trans hl (hmin r hr hAr)
            · refine ⟨m, List.mem_cons_of_mem _ hm, hA, fun r hr hAr => ?_⟩
              rcases List.mem_cons.mp hr with rfl | hr
              · exact hl
              · exact hmin r hr hAr
          · refine ⟨m, List.mem_cons_of_mem _ hm, hA, fun r hr hAr => ?_⟩
            rcases List.mem_cons.mp hr with rfl | hr
            · exact absurd hAr ha
            · exact hmin r hr hAr
        · obtain ⟨r, hr, hAr⟩ := hex
          rcases List.mem_cons.mp hr with rfl | hr
          · refine ⟨r, List.mem_cons_self, hAr, fun s hs hAs => ?_⟩
            rcases List.mem_cons.mp hs with rfl | hs
            · exact (eq_iff.mp (hn s List.mem_cons_self)).1
            · exact absurd ⟨s, hs, hAs⟩ hex'
          · exact absurd ⟨r, hr, hAr⟩ hex'
    obtain ⟨m, hm, hA, hmin⟩ := this
    refine ⟨g m, fun r hr => ?_⟩
    by_cases hAr : A r = true
    · rw [hAr]; exact hmin r hr hAr
    · have : (g m <=. g r) ≠ true := fun h => hAr (hup m hm r hr hA h)
      rw [Bool.not_eq_true] at hAr
      rw [hAr, Bool.eq_false_of_not_eq_true this]
  · left
    intro r hr
    by_contra h
    exact hex ⟨r, hr, by simpa using h⟩

theorem satisfies_at {q : Question F} {row : List F} (h : q.column < row.length) : satisfies q row = (q.value <=. row.getD q.column F64.zero) := by
  simp only [satisfies, List.getElem?_eq_getElem h, List.getD_eq_getElem?_getD, Option.getD_some]

theorem row_getD_ne_nan {rows : List (List F)} {c : Nat} (hl : ∀ r ∈ rows, r.length = c) (hn : ∀ r ∈ rows, ∀ x ∈ r, isNaN x = false) {j : Nat} (hj : j < c) :
    ∀ r ∈ rows, (r.getD j F64.zero ==. r.getD j F64.zero) = true := by
  intro r hr
  have h1 := hl r hr
  have := hn r hr (r.getD j F64.zero) (by
    rw [List.getD_eq_getElem?_getD, List.getElem?_eq_getElem (by omega), Option.getD_some]
    exact List.getElem_mem _)
  simpa [isNaN] using this

/-- a question about a feature has a counterpart about a feature that orders the rows the same way or the opposite way -/
theorem cut_of_order {rows : List (List F)} {g g' : List F → F} (hn' : ∀ r ∈ rows, (g' r ==. g' r) = true) (v : F)
    (h : (∀ r ∈ rows, ∀ s ∈ rows, (g r <=. g s) = (g' r <=. g' s)) ∨ (∀ r ∈ rows, ∀ s ∈ rows, (g r <=. g s) = (g' s <=. g' r))) :
    ∃ w, DivideAlike rows (fun r => v <=. g r) (fun r => w <=. g' r) := by
  have hall : ∃ w, ∀ r ∈ rows, (w <=. g' r) = true := ⟨F64.negInfinity, fun r hr => negInf_le (hn' r hr)⟩
  rcases h with h | h
  · rcases exists_threshold (g := g') (A := fun r => v <=. g r) hn' (fun r hr s hs h1 h2 => LawfulOrder.le_trans h1 (by rw [h r hr s hs]; exact h2)) with h0 | ⟨w, hw⟩
    · obtain ⟨w, hw⟩ := hall
      exact ⟨w, .inr fun r hr => by simp only; rw [hw r hr, h0 r hr]; rfl⟩
    · exact ⟨w, .inl hw⟩
  · rcases exists_threshold (g := g') (A := fun r => !(v <=. g r)) hn' (fun r hr s hs h1 h2 => by
        by_contra h3
        simp only [Bool.not_eq_true, Bool.not_eq_false'] at h1 h3
        have := LawfulOrder.le_trans h3 (show (g s <=. g r) = true by rw [h s hs r hr]; exact h2)
        simp [this] at h1) with h0 | ⟨w, hw⟩
    · obtain ⟨w, hw⟩ := hall
      refine ⟨w, .inl fun r hr => ?_⟩
      have := h0 r hr
      simp only [Bool.not_eq_false'] at this
      simp only
      rw [hw r hr, this]
    · exact ⟨w, .inr hw⟩

theorem sameCuts_of_orders {d d' : DataSet F} {c c' t t' : Nat} (hw : d.WF c t) (hw' : d'.WF c' t') {f : List F → List F} (hd : Describes f d d')
    (h : SameOrders c c' f d.featureRows) : SameCuts c c' f d.featureRows := by
  have hl' : ∀ r ∈ d.featureRows, (f r).length = c' := fun r hr => hw'.row_len _ (by rw [hd.1]; exact List.mem_map_of_mem hr)
  have n1 : ∀ j < c, ∀ r ∈ d.featureRows, (r.getD j F64.zero ==. r.getD j F64.zero) = true := fun j hj => row_getD_ne_nan hw.row_len hw.no_nan hj
  have n2 : ∀ j < c', ∀ r ∈ d.featureRows, ((f r).getD j F64.zero ==. (f r).getD j F64.zero) = true := fun j hj r hr =>
    row_getD_ne_nan hw'.row_len hw'.no_nan hj (f r) (by rw [hd.1]; exact List.mem_map_of_mem hr)
  constructor
  · intro q hq
    obtain ⟨j', hj', ho⟩ := h.1 q.column hq
    obtain ⟨w, hc⟩ := cut_of_order (g := fun r => r.getD q.column F64.zero) (g' := fun r => (f r).getD j' F64.zero) (n2 j' hj') q.value ho
    refine ⟨{ column := j', value := w }, hj', ?_⟩
    have e : ∀ r ∈ d.featureRows, satisfies q r = (q.value <=. r.getD q.column F64.zero) := fun r hr => satisfies_at (by rw [hw.row_len r hr]; exact hq)
    have e' : ∀ r ∈ d.featureRows, satisfies { column := j', value := w } (f r) = (w <=. (f r).getD j' F64.zero) := fun r hr =>
      satisfies_at (by rw [hl' r hr]; exact hj')
    rcases hc with hc | hc
    · exact .inl fun r hr => by simp only [e r hr, e' r hr]; exact hc r hr
    · exact .inr fun r hr => by simp only [e r hr, e' r hr]; exact hc r hr
  · intro q hq
    obtain ⟨j, hj, ho⟩ := h.2 q.column hq
    obtain ⟨w, hc⟩ := cut_of_order (g := fun r => (f r).getD q.column F64.zero) (g' := fun r => r.getD j F64.zero) (n1 j hj) q.value (by
      rcases ho with ho | ho
      · exact .inl fun r hr s hs => (ho r hr s hs).symm
      · exact .inr fun r hr s hs => (ho s hs r hr).symm)
    refine ⟨{ column := j, value := w }, hj, ?_⟩
    have e : ∀ r ∈ d.featureRows, satisfies q (f r) = (q.value <=. (f r).getD q.column F64.zero) := fun r hr => satisfies_at (by rw [hl' r hr]; exact hq)
    have e' : ∀ r ∈ d.featureRows, satisfies { column := j, value := w } r = (w <=. r.getD j F64.zero) := fun r hr =>
      satisfies_at (by rw [hw.row_len r hr]; exact hj)
    rcases hc with hc | hc
    · exact .inl fun r hr => by simp only [e r hr, e' r hr]; exact (hc r hr).symm
    · exact .inr fun r hr => by
        have := hc r hr
        simp only at this
        simp only [e r hr, e' r hr]
        rw [this, Bool.not_not]

end
end

section
variable {K : Type} [Field K] [LinearOrder K] [IsStrictOrderedRing K] [FloorSemiring K] [HasExp K]

theorem varianceReduction_alike {t : Nat} {f : List (Ext K) → List (Ext K)} {rows : List (List (Ext K))} {ls : List (List K)} {q q' : Question (Ext K)}
    (h : DivideAlike rows (satisfies q) (fun row => satisfies q' (f row))) :
    varianceReduction t (rows.map f) ls q' = varianceReduction t rows ls q := by
  have hz : (rows.map f).zip ls = (rows.zip ls).map (fun e => (f e.1, e.2)) := by
    rw [List.zip_map_left]; rfl
  have hm : ∀ e ∈ rows.zip ls, e.1 ∈ rows := fun e he => (List.of_mem_zip he).1
  have hy : yesLabels (rows.map f) ls q' = ((rows.zip ls).filter (fun e => satisfies q' (f e.1))).map Prod.snd := by
    rw [yesLabels, hz, List.filter_map, List.map_map]; rfl
  have hn : noLabels (rows.map f) ls q' = ((rows.zip ls).filter (fun e => !satisfies q' (f e.1))).map Prod.snd := by
    rw [noLabels, hz, List.filter_map, List.map_map]; rfl
  rcases h with h | h <;> beta_reduce at h
  · have h1 : yesLabels (rows.map f) ls q' = yesLabels rows ls q := by
      rw [hy, yesLabels]
      congr 1
      exact List.filter_congr fun e he => h _ (hm e he)
    have h2 : noLabels (rows.map f) ls q' = noLabels rows ls q := by
      rw [hn, noLabels]
      congr 1
      exact List.filter_congr fun e he => by rw [h _ (hm e he)]
    simp only [varianceReduction, h1, h2]
  · have h1 : yesLabels (rows.map f) ls q' = noLabels rows ls q := by
      rw [hy, noLabels]
      congr 1
      exact List.filter_congr fun e he => h _ (hm e he)
    have h2 : noLabels (rows.map f) ls q' = yesLabels rows ls q := by
      rw [hn, yesLabels]
      congr 1
      exact List.filter_congr fun e he => by rw [h _ (hm e he), Bool.not_not]
    simp only [varianceReduction, h1, h2]
    rw [add_comm ((yesLabels rows ls q).length * totalVar t (yesLabels rows ls q) : K), add_comm ((yesLabels rows ls q).length : K)]

/-- the best question about one description and the best about the other divide the rows alike -/
theorem splitOf_cuts {d d' : DataSet (Ext K)} {c c' t : Nat} (h : d.WF c t) (h' : d'.WF c' t) {ls : List (List K)} (hls : d.labels = lift ls)
    (ha : d.TiesAgree c) (ha' : d'.TiesAgree c') {f : List (Ext K) → List (Ext K)} (hd : Describes f d d') (hs : SameCuts c c' f d.featureRows) :
    (splitOf d' t).gain = (splitOf d t).gain ∧
    (((splitOf d t).gain ==. F64.zero) = false →
      (∀ q' : Question (Ext K), q'.column < c → varianceReduction t d.featureRows ls q' = varianceReduction t d.featureRows ls (splitOf d t).question →
        DivideAlike d.featureRows (satisfies (splitOf d t).question) (satisfies q')) →
      DivideAlike d.featureRows (satisfies (splitOf d t).question) (fun row => satisfies (splitOf d' t).question (f row))) := by
  have hls' : d'.labels = lift ls := by rw [hd.2]; exact hls
  obtain ⟨g, e1, e2, _, e4, _⟩ := splitOf_exact h hls
  obtain ⟨g', e1', e2', _, e4', _⟩ := splitOf_exact h' hls'
  have z : ∀ x : K, ((Ext.fin x : Ext K) ==. F64.zero) = decide (x = 0) := by
    intro x
    rw [Bool.eq_iff_iff]
    simp [F64.eq, F64.zero, Ext.le, le_antisymm_iff]
  have le1 : g ≤ g' := by
    by_cases hg : ((splitOf d t).gain ==. F64.zero) = false
    · have ht := splitOf_truthful h hls ha hg
      rw [e1] at ht
      obtain ⟨_, hcol, _⟩ := splitOf_separates h hg
      obtain ⟨q', hq', hdiv⟩ := hs.1 _ hcol
      have := e4' q' hq'
      rw [hd.1, varianceReduction_alike hdiv, ← Ext.fin.inj ht] at this
      exact this
    · rw [e1, z] at hg
      have : g = 0 := by simpa using hg
      rw [this]; exact e2'
  have le2 : g' ≤ g := by
    by_cases hg : ((splitOf d' t).gain ==. F64.zero) = false
    · have ht := splitOf_truthful h' hls' ha' hg
      rw [e1'] at ht
      obtain ⟨_, hcol, _⟩ := splitOf_separates h' hg
      obtain ⟨q, hq, hdiv⟩ := hs.2 _ hcol
      have := e4 q hq
      rw [hd.1, varianceReduction_alike hdiv] at ht
      rw [← Ext.fin.inj ht] at this
      exact this
    · rw [e1', z] at hg
      have : g' = 0 := by simpa using hg
      rw [this]; exact e2
  have hgg : g' = g := _root_.le_antisymm le2 le1
  have hgain : (splitOf d' t).gain = (splitOf d t).gain := by rw [e1, e1', hgg]
  refine ⟨hgain, fun hg htied => ?_⟩
  have hg' : ((splitOf d' t).gain ==. F64.zero) = false := by rw [hgain]; exact hg
  have ht := splitOf_truthful h hls ha hg
  have ht' := splitOf_truthful h' hls' ha' hg'
  obtain ⟨_, hcol, _⟩ := splitOf_separates h' hg'
  obtain ⟨q, hq, hdiv⟩ := hs.2 _ hcol
  rw [hd.1, varianceReduction_alike hdiv, hgain, ht] at ht'
  rcases htied q hq (Ext.fin.inj ht').symm with k | k <;> rcases hdiv with k' | k' <;> beta_reduce at k'
  · exact .inl fun r hr => by simp only [k' r hr, k r hr]
  · exact .inr fun r hr => by simp only [k' r hr, k r hr]
  · exact .inr fun r hr => by simp only [k' r hr, k r hr]
  · exact .inl fun r hr => by simp only [k' r hr, k r hr, Bool.not_not]

theorem NoTiedCuts.branches {L : Type} {d : DataSet (Ext K)} {c t : Nat} {q : Question (Ext K)} {a b : TreeNode (Ext K) L}
    (h : NoTiedCuts d c t (TreeNode.new q a b)) :
    NoTiedCuts (d.restrict c (satisfies q)) c t a ∧ NoTiedCuts (d.restrict c (fun r => !satisfies q r)) c t b := by
  constructor
  · intro p q' hq rows ls hlen he
    refine h (true :: p) q' hq rows ls hlen ?_
    rw [he, reaching, reaching, restrict_examples, List.filter_filter]
    apply List.filter_congr
    intro e _
    rw [TreeNode.route_new]
    cases hs : satisfies q e.1 <;> simp [List.isPrefixOf]
  · intro p q' hq rows ls hlen he
    refine h (false :: p) q' hq rows ls hlen ?_
    rw [he, reaching, reaching, restrict_examples, List.filter_filter]
    apply List.filter_congr
    intro e _
    rw [TreeNode.route_new]
    cases hs : satisfies q e.1 <;> simp [List.isPrefixOf]

/-- what the trees of the two descriptions have in common -/
def CutRel {L L' : Type} (f : List (Ext K) → List (Ext K)) (rows : List (List (Ext K))) (P : L → L' → Prop) (x : TreeNode (Ext K) L)
    (y : TreeNode (Ext K) L') : Prop :=
  (∀ row ∈ rows, Option.Rel P (x.leafAt (x.route row)) (y.leafAt (y.route (f row))) ∧ (y.route (f row)).length = (x.route row).length) ∧
    ∀ r ∈ rows, ∀ s ∈ rows, x.route r = x.route s ↔ y.route (f r) = y.route (f s)

theorem treeOf_cuts {L L' : Type} {leafOf : DataSet (Ext K) → L} {leafOf' : DataSet (Ext K) → L'} {P : L → L' → Prop} {c c' t : Nat}
    {f : List (Ext K) → List (Ext K)} (hleaf : ∀ d d' : DataSet (Ext K), Describes f d d' → P (leafOf d) (leafOf' d')) (m : Nat) (d : DataSet (Ext K)) (hw : d.WF c t)
    {ls : List (List K)} (hls : d.labels = lift ls) (ha : d.TiesAgree c) (d' : DataSet (Ext K)) (hw' : d'.WF c' t) (ha' : d'.TiesAgree c')
    (hd : Describes f d d') (hs : SameCuts c c' f d.featureRows) (hn : NoTiedCuts d c t (treeOf leafOf c t m d)) :
    CutRel f d.featureRows P (treeOf leafOf c t m d) (treeOf leafOf' c' t m d') := by
  have hl : ∀ (q q' : Question (Ext K)) (d d' : DataSet (Ext K)), Describes f d d' →
      CutRel f d.featureRows P (TreeNode.leafNode q (leafOf d)) (TreeNode.leafNode q' (leafOf' d')) := by
    intro q q' d d' hd
    exact ⟨fun row _ => ⟨.some (hleaf d d' hd), rfl⟩, fun r _ s _ => ⟨fun _ => rfl, fun _ => rfl⟩⟩
  refine treeOf_induct (motive := fun m d => ∀ (ls : List (List K)) (d' : DataSet (Ext K)), d.labels = lift ls → d.TiesAgree c → d'.WF c' t →
    d'.TiesAgree c' → Describes f d d' → SameCuts c c' f d.featureRows → NoTiedCuts d c t (treeOf leafOf c t m d) →
    CutRel f d.featureRows P (treeOf leafOf c t m d) (treeOf leafOf' c' t m d')) ?_ ?_ ?_ m d hw ls d' hls ha hw' ha' hd hs hn
  · intro d hw ls d' _ _ _ _ hd _ _
    exact hl _ _ d d' hd
  · intro m d hw hg ls d' hls ha hw' ha' hd hs _
    have hg' : ((splitOf d' t).gain ==. F64.zero) = true := by rw [(splitOf_cuts hw hw' hls ha ha' hd hs).1]; exact hg
    rw [treeOf_leaf hg, treeOf_leaf hg']
    exact hl _ _ d d' hd
  · intro m d hw hg h1 h2 ls d' hls ha hw' ha' hd hs hn
    obtain ⟨k1, k2⟩ := splitOf_cuts hw hw' hls ha ha' hd hs
    have hg' : ((splitOf d' t).gain ==. F64.zero) = false := by rw [k1]; exact hg
    rw [treeOf_node hg] at hn
    obtain ⟨hb1, hb2⟩ := hn.branches
    have hdiv := k2 hg (fun q' hq' heq => hn [] _ rfl d.featureRows ls
      (by rw [← hw.label_count, hls, lift_length]) (by rw [reaching_nil, ← hls]; rfl) q' hq' heq)
    obtain ⟨ms1, hm1⟩ := restrict_lift (c := c) (p := satisfies (splitOf d t).question) hls
    obtain ⟨ms2, hm2⟩ := restrict_lift (c := c) (p := fun r => !satisfies (splitOf d t).question r) hls
    have w1 := split_true_wf hw' hg'
    have w2 := split_false_wf hw' hg'
    have mem1 : ∀ r ∈ d.featureRows, satisfies (splitOf d t).question r = true → r ∈ (d.restrict c (satisfies (splitOf d t).question)).featureRows :=
      fun r hr hq => restrict_rows_mem' hw hr hq
    have mem2 : ∀ r ∈ d.featureRows, satisfies (splitOf d t).question r = false →
        r ∈ (d.restrict c (fun r => !satisfies (splitOf d t).question r)).featureRows :=
      fun r hr hq => restrict_rows_mem' hw hr (by rw [hq]; rfl)
    rw [treeOf_node hg, treeOf_node hg']
    rcases hdiv with hdiv | hdiv
    · have hdiv : ∀ row ∈ d.featureRows, satisfies (splitOf d' t).question (f row) = satisfies (splitOf d t).question row := hdiv
      have r1 := h1 _ _ hm1 (restrict_agree ha _) w1 (restrict_agree ha' _) (hd.restrict hdiv) (hs.mono restrict_rows_mem) hb1
      have r2 := h2 _ _ hm2 (restrict_agree ha _) w2 (restrict_agree ha' _) (hd.restrict (p := fun r => !satisfies (splitOf d t).question r)
        (p' := fun r => !satisfies (splitOf d' t).question r) (fun r hr => by rw [hdiv r hr])) (hs.mono restrict_rows_mem) hb2
      constructor
      · intro row hr
        rw [TreeNode.route_new, TreeNode.route_new, hdiv row hr]
        cases hq : satisfies (splitOf d t).question row
        · exact ⟨(r2.1 row (mem2 row hr hq)).1, congrArg (· + 1) (r2.1 row (mem2 row hr hq)).2⟩
        · exact ⟨(r1.1 row (mem1 row hr hq)).1, congrArg (· + 1) (r1.1 row (mem1 row hr hq)).2⟩
      · intro r hr s hs'
        rw [TreeNode.route_new, TreeNode.route_new, TreeNode.route_new, TreeNode.route_new, hdiv r hr, hdiv s hs']
        cases hq : satisfies (splitOf d t).question r <;> cases hq' : satisfies (splitOf d t).question s
        · simpa using r2.2 r (mem2 r hr hq) s (mem2 s hs' hq')
        · simp
        · simp
        · simpa using r1.2 r (mem1 r hr hq) s (mem1 s hs' hq')
    · have hdiv : ∀ row ∈ d.featureRows, satisfies (splitOf d' t).question (f row) = !satisfies (splitOf d t).question row := hdiv
      have r1 := h1 _ _ hm1 (restrict_agree ha _) w2 (restrict_agree ha' _) (hd.restrict (p := satisfies (splitOf d t).question)
        (p' := fun r => !satisfies (splitOf d' t).question r) (fun r hr => by rw [hdiv r hr, Bool.not_not])) (hs.mono restrict_rows_mem) hb1
      have r2 := h2 _ _ hm2 (restrict_agree ha _) w1 (restrict_agree ha' _) (hd.restrict (p := fun r => !satisfies (splitOf d t).question r)
        hdiv) (hs.mono restrict_rows_mem) hb2
      constructor
      · intro row hr
        rw [TreeNode.route_new, TreeNode.route_new, hdiv row hr]
        cases hq : satisfies (splitOf d t).question row
        · exact ⟨(r2.1 row (mem2 row hr hq)).1, congrArg (· + 1) (r2.1 row (mem2 row hr hq)).2⟩
        · exact ⟨(r1.1 row (mem1 row hr hq)).1, congrArg (· + 1) (r1.1 row (mem1 row hr hq)).2⟩
      · intro r hr s hs'
        rw [TreeNode.route_new, TreeNode.route_new, TreeNode.route_new, TreeNode.route_new, hdiv r hr, hdiv s hs']
        cases hq : satisfies (splitOf d t).question r <;> cases hq' : satisfies (splitOf d t).question s
        · simpa using r2.2 r (mem2 r hr hq) s (mem2 s hs' hq')
        · simp
        · simp
        · simpa using r1.2 r (mem1 r hr hq) s (mem1 s hs' hq')

end

end Verif
