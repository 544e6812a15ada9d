import Verif.Lemmas.Repeat
import Verif.Props.Exact
import Verif.Spec.Ties
/-! # Rows that share a feature value, in exact arithmetic -/

set_option linter.unusedSectionVars false

namespace Verif

variable {K : Type} [Field K] [LinearOrder K] [IsStrictOrderedRing K] [FloorSemiring K] [HasExp K] {L : Type}

/-- entries of a column that are equal, and not the smallest entry, have the same label -/
def ColAgree (col : List (Ext K)) (ls : List (List K)) : Prop :=
  ∀ p ∈ col.zip ls, ∀ p' ∈ col.zip ls, p.1 = p'.1 → (∃ w ∈ col, (w <. p.1) = true) → p.2 = p'.2

theorem colAgree_column {d : DataSet (Ext K)} {c t : Nat} (h : d.WF c t) {ls : List (List K)} (hls : d.labels = lift ls) (ha : d.TiesAgree c)
    {j : Nat} (hj : j < c) : ColAgree (column d.featureRows j) ls := by
  have hz : ∀ p ∈ (column d.featureRows j).zip ls, ∃ e ∈ d.examples, e.1.getD j F64.zero = p.1 ∧ e.2 = liftV p.2 := by
    intro p hp
    rw [column_zip] at hp
    obtain ⟨e, he, rfl⟩ := List.mem_map.mp hp
    refine ⟨(e.1, liftV e.2), ?_, rfl, rfl⟩
    rw [examples_lift hls]
    exact List.mem_map.mpr ⟨e, he, rfl⟩
  intro p hp p' hp' heq ⟨w, hw, hlt⟩
  obtain ⟨e, he, e1, e2⟩ := hz p hp
  obtain ⟨e', he', e1', e2'⟩ := hz p' hp'
  obtain ⟨row, hrow, rfl⟩ := List.mem_map.mp hw
  have := ha j hj e he e' he' (by rw [e1, e1', heq]) ⟨row, hrow, by rw [e1]; exact hlt⟩
  rw [e2, e2'] at this
  have h2 := congrArg (List.map val) this
  simpa [liftV, Function.comp_def] using h2

/-! ## the order of the rows -/

/-- the part of the scanned sequence from a value that is not the smallest one on -/
theorem eseq_drop {ls ls' : List (List K)} {col col' : List (Ext K)} (h : ls.length = col.length) (h' : ls'.length = col'.length)
    (hn : ∀ x ∈ col, isNaN x = false) (hp : (col.zip ls).Perm (col'.zip ls')) (ha : ColAgree col ls) {i : Nat} {m v : Ext K}
    (hm : ((eseq ls col).map Prod.fst)[0]? = some m) (hv : ((eseq ls col).map Prod.fst)[i]? = some v) (hne : (v ==. m) = false) :
    (eseq ls col).drop i = (eseq ls' col').drop i := by
  have hvals := eseq_values h h' hn hp
  have hlen : (eseq ls col).length = (eseq ls' col').length := by
    have := congrArg List.length hvals
    simpa using this
  have hnn := eseq_mem_nan h hn
  have hsort : ((eseq ls col).map Prod.fst).Pairwise (fun a b => (a <=. b) = true) := List.pairwise_map.mpr (eseq_sorted (ls := ls) hn)
  obtain ⟨b0, e0⟩ := List.getElem?_eq_some_iff.mp hm
  obtain ⟨bi, ei⟩ := List.getElem?_eq_some_iff.mp hv
  have hle : ∀ (a b : Nat) (h1 : a < ((eseq ls col).map Prod.fst).length) (h2 : b < ((eseq ls col).map Prod.fst).length), a ≤ b →
      (((eseq ls col).map Prod.fst)[a] <=. ((eseq ls col).map Prod.fst)[b]) = true := by
    intro a b h1 h2 hab
    rcases Nat.lt_or_eq_of_le hab with hlt | rfl
    · exact List.pairwise_iff_getElem.mp hsort a b h1 h2 hlt
    · rw [List.getElem_map]
      exact le_rfl' (hnn _ (List.getElem_mem _))
  have hmv : (m <. v) = true := by
    have := hle 0 i b0 bi (Nat.zero_le _)
    rw [e0, ei] at this
    rcases lt_or_eq this with h1 | h1
    · exact h1
    · rw [eq_symm' h1] at hne; cases hne
  have hmcol : m ∈ col := by
    have := List.mem_of_getElem? hm
    obtain ⟨p, hp, rfl⟩ := List.mem_map.mp this
    exact (List.of_mem_zip ((eseq_perm h).mem_iff.mp hp)).1
  apply List.ext_getElem
  · simp [hlen]
  intro k hk hk'
  simp only [List.getElem_drop]
  rw [List.length_drop] at hk hk'
  have hik : i + k < (eseq ls col).length := by omega
  have hik' : i + k < (eseq ls' col').length := by omega
  have hfst : (eseq ls col)[i + k].1 = (eseq ls' col')[i + k].1 := by
    have := List.getElem_of_eq hvals (i := i + k) (by simpa using hik)
    simpa using this
  refine Prod.ext hfst ?_
  refine ha _ ((eseq_perm h).mem_iff.mp (List.getElem_mem hik)) _ (hp.mem_iff.mpr ((eseq_perm h').mem_iff.mp (List.getElem_mem hik'))) hfst
    ⟨m, hmcol, ?_⟩
  have h2 := hle i (i + k) bi (by simpa using hik) (by omega)
  rw [ei, List.getElem_map] at h2
  exact Verif.lt_of_lt_of_le hmv h2

theorem candAt_perm {t : Nat} {s s' : List (Ext K × List K)} (hp : s.Perm s') {i : Nat} (hd : s.drop i = s'.drop i) :
    candAt t s i = candAt t s' i := by
  have ht : (s.take i).Perm (s'.take i) := by
    have h2 := hp
    rw [← List.take_append_drop i s, ← List.take_append_drop i s', hd] at h2
    exact (List.perm_append_right_iff _).mp h2
  rw [candAt, candAt]
  refine splitVar_perm ?_ ?_
  · simp only [labs, ← List.map_take]
    exact ht.map _
  · simp only [labs, ← List.map_drop, hd]
    exact List.Perm.refl _

theorem colResult_perm_agree {t : Nat} {ls ls' : List (List K)} {col col' : List (Ext K)} (h : ls.length = col.length)
    (h' : ls'.length = col'.length) (ht : ∀ v ∈ ls, v.length = t) (hne : ls ≠ [])
    (hn : ∀ x ∈ col, isNaN x = false) (hp : (col.zip ls).Perm (col'.zip ls')) (ha : ColAgree col ls) :
    colResult (lift ls) t col = colResult (lift ls') t col' := by
  have hpc : col.Perm col' := by
    have := hp.map Prod.fst
    rwa [List.map_fst_zip (by omega), List.map_fst_zip (by omega)] at this
  have hpl : ls.Perm ls' := by
    have := hp.map Prod.snd
    rwa [List.map_snd_zip (by omega), List.map_snd_zip (by omega)] at this
  have hn' : ∀ x ∈ col', isNaN x = false := fun x hx => hn x (hpc.mem_iff.mpr hx)
  have ht' : ∀ v ∈ ls', v.length = t := fun x hx => ht x (hpl.mem_iff.mpr hx)
  have hne' : ls' ≠ [] := by
    rintro rfl
    exact hne hpl.eq_nil
  have hvals := eseq_values h h' hn hp
  have hlen : (eseq ls col).length = ls.length := by
    have := (labs_perm h).length_eq
    simpa [labs] using this
  have hps : (eseq ls col).Perm (eseq ls' col') := (eseq_perm h).trans (hp.trans (eseq_perm h').symm)
  obtain ⟨m, hm⟩ : ∃ m, ((eseq ls col).map Prod.fst)[0]? = some m :=
    ⟨_, List.getElem?_eq_getElem (by rw [List.length_map, hlen]; exact List.length_pos_of_ne_nil hne)⟩
  have hc : ∀ (i : Nat) (v : Ext K), ((eseq ls col).map Prod.fst)[i]? = some v → (v ==. m) = false →
      candAt t (eseq ls col) i = candAt t (eseq ls' col') i := fun i v hv hvm => candAt_perm hps (eseq_drop h h' hn hp ha hm hv hvm)
  have h1 := colResult_first h ht hne hn hm
  have h2 := colResult_first h' ht' hne' hn' (m := m) (by rw [← hvals]; exact hm)
  rw [← hvals] at h2
  rcases h1 with ⟨h1, h1'⟩ | ⟨i, v, hv, hvm, h1, hmin, hfirst⟩
  · rcases h2 with ⟨h2, _⟩ | ⟨p, w, hw, hwm, _⟩
    · rw [h1, h2]
    · rw [h1' _ _ hw] at hwm
      cases hwm
  · rcases h2 with ⟨_, h2'⟩ | ⟨p, w, hw, hwm, h2, hmin', hfirst'⟩
    · rw [h2' _ _ hv] at hvm
      cases hvm
    have hip : i = p := by
      rcases Nat.lt_trichotomy i p with hlt | heq | hgt
      · have a1 := hfirst' i v hlt hv hvm
        have a2 := hmin p w hw hwm
        rw [hc i v hv hvm, hc p w hw hwm] at a2
        exact absurd a1 (_root_.not_lt.mpr a2)
      · exact heq
      · have a1 := hfirst p w hgt hw hwm
        have a2 := hmin' i v hv hvm
        rw [← hc i v hv hvm, ← hc p w hw hwm] at a2
        exact absurd a1 (_root_.not_lt.mpr a2)
    subst hip
    rw [hv] at hw
    cases hw
    rw [h1, h2, hc i v hv hvm]

/-- permuted examples in exact arithmetic -/
theorem perm_lift {d d' : DataSet (Ext K)} {c t : Nat} (h : d.WF c t) (h' : d'.WF c t) {ls : List (List K)} (hls : d.labels = lift ls)
    (hp : d.examples.Perm d'.examples) :
    ∃ ls', d'.labels = lift ls' ∧ ls.Perm ls' ∧ (d.featureRows.zip ls).Perm (d'.featureRows.zip ls') := by
  have hpl : d.labels.Perm d'.labels := by
    have := hp.map Prod.snd
    simp only [DataSet.examples] at this
    rwa [List.map_snd_zip (by rw [h.label_count]), List.map_snd_zip (by rw [h'.label_count])] at this
  obtain ⟨ls', hls'⟩ : ∃ ls', d'.labels = lift ls' := by
    apply exists_lift
    intro l hl
    exact lift_finite l (by rw [← hls]; exact hpl.mem_iff.mpr hl)
  refine ⟨ls', hls', ?_, ?_⟩
  · rw [hls, hls'] at hpl
    have := hpl.map (fun v => v.map val)
    change (vals (lift ls)).Perm (vals (lift ls')) at this
    rwa [vals_lift, vals_lift] at this
  · have hz : ∀ {x : DataSet (Ext K)} {xs : List (List K)}, x.labels = lift xs → x.featureRows.zip xs =
        x.examples.map (fun e => (e.1, e.2.map val)) := by
      intro x xs hxs
      rw [examples_lift hxs, List.map_map]
      conv_lhs => rw [← List.map_id (x.featureRows.zip xs)]
      apply List.map_congr_left
      intro e _
      simp [liftV, Function.comp_def]
    rw [hz hls, hz hls']
    exact hp.map _

theorem splitOf_perm_agree {d d' : DataSet (Ext K)} {c t : Nat} (h : d.WF c t) (h' : d'.WF c t) {ls : List (List K)} (hls : d.labels = lift ls)
    (ha : d.TiesAgree c) (hp : d.examples.Perm d'.examples) : splitOf d t = splitOf d' t := by
  obtain ⟨ls', hls', hpl, hpz⟩ := perm_lift h h' hls hp
  have hlen : ls.length = d.featureRows.length := by rw [← h.label_count, hls, lift_length]
  have hlen' : ls'.length = d'.featureRows.length := by rw [← h'.label_count, hls', lift_length]
  have hne : ls ≠ [] := by
    rintro rfl
    exact h.rows_ne (List.eq_nil_of_length_eq_zero hlen.symm)
  have hne' : ls' ≠ [] := by
    rintro rfl
    exact hne hpl.eq_nil
  have ht := lift_width hls h.label_len
  have htv : totalVariance d.labels t = totalVariance d'.labels t := by
    rw [hls, hls', totalVariance_exact ht hne, totalVariance_exact (lift_width hls' h'.label_len) hne', totalVar_perm hpl]
  unfold splitOf
  rw [htv, h.cols, h'.cols, columnsOf, columnsOf, List.map_map, List.map_map]
  congr 1
  apply List.map_congr_left
  intro j hj
  rw [List.mem_range] at hj
  simp only [Function.comp]
  rw [hls, hls']
  refine colResult_perm_agree (by rw [column_length, hlen]) (by rw [column_length, hlen']) ht hne (h.col_nan hj) ?_ (colAgree_column h hls ha hj)
  rw [column_zip, column_zip]
  exact hpz.map _

theorem restrict_agree {d : DataSet (Ext K)} {c : Nat} (ha : d.TiesAgree c) (p : List (Ext K) → Bool) : (d.restrict c p).TiesAgree c := by
  intro j hj e he e' he' heq ⟨row, hrow, hlt⟩
  rw [restrict_examples, List.mem_filter] at he he'
  refine ha j hj e he.1 e' he'.1 heq ⟨row, ?_, hlt⟩
  simp only [DataSet.restrict, List.mem_map, List.mem_filter] at hrow
  obtain ⟨x, ⟨hx, _⟩, rfl⟩ := hrow
  exact (List.of_mem_zip hx).1

/-! ## trees of permuted examples -/

/-- both trees ask the same questions, send the rows the same way, and their leaves correspond -/
def LeafCorr (P : L → L → Prop) (x y : TreeNode (Ext K) L) : Prop :=
  (∀ p, y.questionAt p = x.questionAt p) ∧ (∀ row, y.route row = x.route row) ∧
    ∀ p, Option.Rel P (x.leafAt p) (y.leafAt p)

theorem treeOf_perm_corr {leafOf : DataSet (Ext K) → L} {P : L → L → Prop} {c t : Nat}
    (hleaf : ∀ (d d' : DataSet (Ext K)) (ls : List (List K)), d.WF c t → d'.WF c t → d.labels = lift ls → d.examples.Perm d'.examples →
      P (leafOf d) (leafOf d'))
    (m : Nat) (d : DataSet (Ext K)) (hw : d.WF c t) {ls : List (List K)} (hls : d.labels = lift ls) (ha : d.TiesAgree c)
    (d' : DataSet (Ext K)) (hw' : d'.WF c t) (hp : d.examples.Perm d'.examples) :
    LeafCorr P (treeOf leafOf c t m d) (treeOf leafOf c t m d') := by
  have hl : ∀ (q q' : Question (Ext K)) (l l' : L), P l l' → LeafCorr P (TreeNode.leafNode q l) (TreeNode.leafNode q' l') := by
    intro q q' l l' hpl
    refine ⟨fun p => by cases p <;> rfl, fun _ => rfl, fun p => ?_⟩
    cases p with
    | nil => exact .some hpl
    | cons a p => cases a <;> exact .none
  refine treeOf_induct (motive := fun m d => ∀ (ls : List (List K)) (d' : DataSet (Ext K)), d.labels = lift ls → d.TiesAgree c → d'.WF c t →
    d.examples.Perm d'.examples → LeafCorr P (treeOf leafOf c t m d) (treeOf leafOf c t m d')) ?_ ?_ ?_ m d hw ls d' hls ha hw' hp
  · intro d hw ls d' hls _ hw' hp
    exact hl _ _ _ _ (hleaf d d' ls hw hw' hls hp)
  · intro m d hw hg ls d' hls ha hw' hp
    have hs := splitOf_perm_agree hw hw' hls ha hp
    have hg' : ((splitOf d' t).gain ==. F64.zero) = true := by rw [← hs]; exact hg
    rw [treeOf_leaf hg, treeOf_leaf hg']
    exact hl _ _ _ _ (hleaf d d' ls hw hw' hls hp)
  · intro m d hw hg h1 h2 ls d' hls ha hw' hp
    have hs := splitOf_perm_agree hw hw' hls ha hp
    have hg' : ((splitOf d' t).gain ==. F64.zero) = false := by rw [← hs]; exact hg
    obtain ⟨ms1, hm1⟩ := restrict_lift (c := c) (p := satisfies (splitOf d t).question) hls
    obtain ⟨ms2, hm2⟩ := restrict_lift (c := c) (p := fun r => !satisfies (splitOf d t).question r) hls
    have w1 := split_true_wf hw' hg'
    have w2 := split_false_wf hw' hg'
    rw [← hs] at w1 w2
    have k1 := h1 _ _ hm1 (restrict_agree ha _) w1 (by rw [restrict_examples, restrict_examples]; exact hp.filter _)
    have k2 := h2 _ _ hm2 (restrict_agree ha _) w2 (by rw [restrict_examples, restrict_examples]; exact hp.filter _)
    rw [treeOf_node hg, treeOf_node hg', ← hs]
    refine ⟨fun p => ?_, fun row => ?_, fun p => ?_⟩
    · match p with
      | [] => rfl
      | true :: p => exact k1.1 p
      | false :: p => exact k2.1 p
    · rw [TreeNode.route_new, TreeNode.route_new, k1.2.1 row, k2.2.1 row]
    · match p with
      | [] => exact .none
      | true :: p => exact k1.2.2 p
      | false :: p => exact k2.2.2 p

theorem treeOf_perm_eq {leafOf : DataSet (Ext K) → L} {c t : Nat}
    (hleaf : ∀ (d d' : DataSet (Ext K)) (ls : List (List K)), d.WF c t → d'.WF c t → d.labels = lift ls → d.examples.Perm d'.examples →
      leafOf d' = leafOf d)
    (m : Nat) (d : DataSet (Ext K)) (hw : d.WF c t) {ls : List (List K)} (hls : d.labels = lift ls) (ha : d.TiesAgree c)
    (d' : DataSet (Ext K)) (hw' : d'.WF c t) (hp : d.examples.Perm d'.examples) :
    treeOf leafOf c t m d' = treeOf leafOf c t m d := by
  refine treeOf_induct (motive := fun m d => ∀ (ls : List (List K)) (d' : DataSet (Ext K)), d.labels = lift ls → d.TiesAgree c → d'.WF c t →
    d.examples.Perm d'.examples → treeOf leafOf c t m d' = treeOf leafOf c t m d) ?_ ?_ ?_ m d hw ls d' hls ha hw' hp
  · intro d hw ls d' hls ha hw' hp
    simp only [treeOf, splitOf_perm_agree hw hw' hls ha hp, hleaf d d' ls hw hw' hls hp]
  · intro m d hw hg ls d' hls ha hw' hp
    have hs := splitOf_perm_agree hw hw' hls ha hp
    have hg' : ((splitOf d' t).gain ==. F64.zero) = true := by rw [← hs]; exact hg
    rw [treeOf_leaf hg, treeOf_leaf hg', hs, hleaf d d' ls hw hw' hls hp]
  · intro m d hw hg h1 h2 ls d' hls ha hw' hp
    have hs := splitOf_perm_agree hw hw' hls ha hp
    have hg' : ((splitOf d' t).gain ==. F64.zero) = false := by rw [← hs]; exact hg
    obtain ⟨ms1, hm1⟩ := restrict_lift (c := c) (p := satisfies (splitOf d t).question) hls
    obtain ⟨ms2, hm2⟩ := restrict_lift (c := c) (p := fun r => !satisfies (splitOf d t).question r) hls
    have w1 := split_true_wf hw' hg'
    have w2 := split_false_wf hw' hg'
    rw [← hs] at w1 w2
    rw [treeOf_node hg, treeOf_node hg', ← hs,
      h1 _ _ hm1 (restrict_agree ha _) w1 (by rw [restrict_examples, restrict_examples]; exact hp.filter _),
      h2 _ _ hm2 (restrict_agree ha _) w2 (by rw [restrict_examples, restrict_examples]; exact hp.filter _)]

/-! ## leaf outputs of permuted examples -/

theorem target_perm {a b : List (List K)} (h : a.Perm b) (j : Nat) : (target a j).Perm (target b j) := h.map _

theorem meanVec_perm {a b : List (List K)} (h : a.Perm b) (t : Nat) : meanVec t a = meanVec t b := by
  apply List.map_congr_left
  intro j _
  rw [meanOf, meanOf, (target_perm h j).sum_eq, (target_perm h j).length_eq]

theorem multiOut_perm {t : Nat} {a b : List (List K)} (h : a.Perm b) (hw : ∀ r ∈ a, r.length = t) :
    multiOut t (lift a) = multiOut t (lift b) := by
  have hw' : ∀ r ∈ b, r.length = t := fun r hr => hw r (h.mem_iff.mpr hr)
  simp only [multiOut, vecSum_exact hw, vecSum_exact hw', denomOf_exact hw, denomOf_exact hw', sumsOf, liftV_range, zipWith_range_range]
  congr 1
  apply List.map_congr_left
  intro j _
  rw [(target_perm h j).sum_eq, ((target_perm h j).map _).sum_eq]

theorem leafOut_perm {d d' : DataSet (Ext K)} {c t : Nat} (o : LeafOutputType) (h : d.WF c t) (h' : d'.WF c t) {ls : List (List K)}
    (hls : d.labels = lift ls) (hp : d.examples.Perm d'.examples) : leafOut o t d'.labels = leafOut o t d.labels := by
  obtain ⟨ls', hls', hpl, _⟩ := perm_lift h h' hls hp
  have hw := lift_width hls h.label_len
  have hne : ls ≠ [] := by
    rintro rfl
    exact h.labels_ne hls
  have hne' : ls' ≠ [] := by
    rintro rfl
    exact hne hpl.eq_nil
  rw [hls, hls']
  cases o
  · simp only [leafOut]
    rw [avgVec_exact hw hne, avgVec_exact (lift_width hls' h'.label_len) hne', meanVec_perm hpl]
  · exact (multiOut_perm hpl hw).symm

theorem gradTree_perm (o : LeafOutputType) {d d' : DataSet (Ext K)} {c t : Nat} (h : d.WF c t) (h' : d'.WF c t) {ls : List (List K)}
    (hls : d.labels = lift ls) (ha : d.TiesAgree c) (hp : d.examples.Perm d'.examples) (m : Nat) :
    treeOf (gradLeaf o t) c t m d' = treeOf (gradLeaf o t) c t m d :=
  treeOf_perm_eq (fun d d' ls h h' hls hp => by simp only [gradLeaf, leafOut_perm o h h' hls hp]) m d h hls ha d' h' hp

theorem amgTree_perm (o : LeafOutputType) {d d' : DataSet (Ext K)} {c t : Nat} (h : d.WF c t) (h' : d'.WF c t) {ls : List (List K)}
    (hls : d.labels = lift ls) (ha : d.TiesAgree c) (hp : d.examples.Perm d'.examples) (m : Nat) :
    treeOf (amgLeaf o t) c t m d' = treeOf (amgLeaf o t) c t m d :=
  treeOf_perm_eq (fun d d' ls h h' hls hp => by simp only [amgLeaf, leafOut_perm o h h' hls hp]) m d h hls ha d' h' hp

/-! ## the best cut is at the start of a group of equal values -/

theorem wss_left_group {t n e : Nat} (he : e < n) (A : List (List K)) (y : List K) :
    ((n : K) - e) * wss t A + e * wss t (A ++ List.replicate n y) ≤ n * wss t (A ++ List.replicate e y) := by
  have hn : (0 : K) < n := by exact_mod_cast (by omega : 0 < n)
  have hne : (e : K) ≤ n := by exact_mod_cast he.le
  have := wss_mix (t := t) (A := A ++ List.replicate e y) (X := A) (Y := A ++ List.replicate n y) (p := ((n : K) - e) / n) (q := e / n)
    (div_nonneg (by linarith) hn.le) (by positivity) (by
      intro j a
      rw [target_append, target_append, sqDev_append, sqDev_append, target_replicate, target_replicate, sqDev_replicate, sqDev_replicate]
      field_simp
      ring)
  have h2 := mul_le_mul_of_nonneg_left this hn.le
  calc _ = (n : K) * (((n : K) - e) / n * wss t A + e / n * wss t (A ++ List.replicate n y)) := by field_simp
    _ ≤ _ := h2

theorem wss_right_group {t n e : Nat} (he : e < n) (B : List (List K)) (y : List K) :
    ((n : K) - e) * wss t (List.replicate n y ++ B) + e * wss t B ≤ n * wss t (List.replicate (n - e) y ++ B) := by
  have hn : (0 : K) < n := by exact_mod_cast (by omega : 0 < n)
  have hne : (e : K) ≤ n := by exact_mod_cast he.le
  have := wss_mix (t := t) (A := List.replicate (n - e) y ++ B) (X := List.replicate n y ++ B) (Y := B) (p := ((n : K) - e) / n) (q := e / n)
    (div_nonneg (by linarith) hn.le) (by positivity) (by
      intro j a
      rw [target_append, target_append, sqDev_append, sqDev_append, target_replicate, target_replicate, sqDev_replicate, sqDev_replicate,
        Nat.cast_sub he.le]
      field_simp
      ring)
  have h2 := mul_le_mul_of_nonneg_left this hn.le
  calc _ = (n : K) * (((n : K) - e) / n * wss t (List.replicate n y ++ B) + e / n * wss t B) := by field_simp
    _ ≤ _ := h2

/-- a cut inside a group with equal labels -/
theorem candAt_group {t n e : Nat} (he : e < n) {A G B : List (Ext K × List K)} {y : List K} (hG : labs G = List.replicate n y) :
    ((n : K) - e) * candAt t (A ++ (G ++ B)) A.length + e * candAt t (A ++ (G ++ B)) (A.length + n) ≤
      n * candAt t (A ++ (G ++ B)) (A.length + e) := by
  have hl : labs (A ++ (G ++ B)) = labs A ++ (List.replicate n y ++ labs B) := by simp [labs, ← hG]
  have hA : (labs A).length = A.length := by simp [labs]
  have hpos : (0 : K) < (A ++ (G ++ B)).length := by
    have : G.length = n := by
      have := congrArg List.length hG
      simpa [labs] using this
    have h2 : 0 < (A ++ (G ++ B)).length := by simp only [List.length_append]; omega
    exact_mod_cast h2
  have t0 : (labs (A ++ (G ++ B))).take A.length = labs A := by rw [hl, ← hA, List.take_left]
  have d0 : (labs (A ++ (G ++ B))).drop A.length = List.replicate n y ++ labs B := by rw [hl, ← hA, List.drop_left]
  have te : ∀ e ≤ n, (labs (A ++ (G ++ B))).take (A.length + e) = labs A ++ List.replicate e y := by
    intro e he
    rw [List.take_add, t0, d0, List.take_append_of_le_length (by simpa using he), List.take_replicate, Nat.min_eq_left he]
  have de : ∀ e ≤ n, (labs (A ++ (G ++ B))).drop (A.length + e) = List.replicate (n - e) y ++ labs B := by
    intro e he
    rw [← List.drop_drop, d0, List.drop_append_of_le_length (by simpa using he), List.drop_replicate]
  have w1 := wss_left_group (t := t) he (labs A) y
  have w2 := wss_right_group (t := t) he (labs B) y
  rw [candAt_wss, candAt_wss, candAt_wss, t0, d0, te n le_rfl, de n le_rfl, te e he.le, de e he.le, Nat.sub_self, List.replicate_zero,
    List.nil_append, ← mul_div_assoc, ← mul_div_assoc, ← mul_div_assoc, ← add_div]
  exact div_le_div_of_nonneg_right (by linarith) hpos.le

/-- the sorted sequence around a value: smaller values, the group of that value, larger values -/
theorem eseq_group {ls : List (List K)} {col : List (Ext K)} (h : ls.length = col.length) (hn : ∀ x ∈ col, isNaN x = false) (v : Ext K) :
    eseq ls col = (eseq ls col).filter (fun p => !(v <=. p.1)) ++
      ((eseq ls col).filter (fun p => (v <=. p.1) && (p.1 <=. v)) ++ (eseq ls col).filter (fun p => (v <=. p.1) && !(p.1 <=. v))) := by
  have hs := eseq_sorted (ls := ls) hn
  have hpw : (eseq ls col).Pairwise (fun a b => (v <=. a.1) = true → (v <=. b.1) = true) :=
    hs.imp (fun hab hva => LawfulOrder.le_trans hva hab)
  obtain ⟨h1, h2⟩ := filter_cut hpw
  have hs2 : ((eseq ls col).filter (fun p => v <=. p.1)).Pairwise (fun a b => (!(a.1 <=. v)) = true → (!(b.1 <=. v)) = true) := by
    refine (hs.sublist List.filter_sublist).imp ?_
    intro a b hab ha
    simp only [Bool.not_eq_true'] at ha ⊢
    cases hb : (b.1 <=. v) with
    | false => rfl
    | true => rw [LawfulOrder.le_trans hab hb] at ha; cases ha
  obtain ⟨h3, h4⟩ := filter_cut hs2
  simp only [Bool.not_not, List.filter_filter] at h3 h4
  have e1 : (eseq ls col).filter (fun p => v <=. p.1) = (eseq ls col).filter (fun p => (v <=. p.1) && (p.1 <=. v)) ++
      (eseq ls col).filter (fun p => (v <=. p.1) && !(p.1 <=. v)) := by
    conv_lhs => rw [← List.take_append_drop ((eseq ls col).filter (fun a => (a.1 <=. v) && (v <=. a.1))).length
      ((eseq ls col).filter (fun p => v <=. p.1))]
    rw [← h3, ← h4]
    simp only [Bool.and_comm]
  rw [← e1]
  conv_lhs => rw [← List.take_append_drop ((eseq ls col).filter (fun a => !(v <=. a.1))).length (eseq ls col)]
  rw [← h1, ← h2]

/-- where rows with equal values have equal labels, the gain is the reduction of the reported question -/
theorem splitOf_truthful {d : DataSet (Ext K)} {c t : Nat} (h : d.WF c t) {ls : List (List K)} (hls : d.labels = lift ls)
    (ha : d.TiesAgree c) (hg : ((splitOf d t).gain ==. F64.zero) = false) :
    (splitOf d t).gain = .fin (varianceReduction t d.featureRows ls (splitOf d t).question) := by
  obtain ⟨_, _, _, _, ⟨row2, hrow2, hlo⟩⟩ := splitOf_separates h hg
  obtain ⟨g, h1, h2, _, h4, h5⟩ := splitOf_exact h hls
  have hlen : ls.length = d.featureRows.length := by rw [← h.label_count, hls, lift_length]
  rcases h5 with h5 | ⟨i, hi, hc, hg0, hg'⟩
  · rw [h1, h5] at hg
    simp at hg
  set q := (splitOf d t).question with hq
  set col := column d.featureRows q.column with hcol
  have hcl : ls.length = col.length := by rw [hcol, column_length, hlen]
  have hn : ∀ x ∈ col, isNaN x = false := h.col_nan hc
  have hag : ColAgree col ls := colAgree_column h hls ha hc
  have hnn := eseq_mem_nan hcl hn
  have hs := eseq_group hcl hn q.value
  set s := eseq ls col with hsdef
  set A := s.filter (fun p => !(q.value <=. p.1)) with hA
  set G := s.filter (fun p => (q.value <=. p.1) && (p.1 <=. q.value)) with hG
  set B := s.filter (fun p => (q.value <=. p.1) && !(p.1 <=. q.value)) with hB
  have hslen : s.length = ls.length := by
    have := (labs_perm hcl).length_eq
    simpa [labs] using this
  -- position i is inside the group
  obtain ⟨bi, ei⟩ := List.getElem?_eq_some_iff.mp hi
  have bi' : i < s.length := by simpa using bi
  have ei' : s[i].1 = q.value := by simpa using ei
  have hvv : NN q.value := by rw [← ei']; exact hnn _ (List.getElem_mem _)
  have hiA : A.length ≤ i := by
    by_contra hlt
    have hlt : i < A.length := by omega
    have : s[i] = A[i] := by
      have := List.getElem_of_eq hs bi'
      rw [this, List.getElem_append_left hlt]
    have hm : s[i] ∈ A := by rw [this]; exact List.getElem_mem _
    have := (List.mem_filter.mp hm).2
    rw [ei', le_rfl' hvv] at this
    cases this
  have hiG : i < A.length + G.length := by
    by_contra hge
    have hb : i - A.length - G.length < B.length := by
      have := congrArg List.length hs
      simp only [List.length_append] at this
      omega
    have : s[i] = B[i - A.length - G.length] := by
      have := List.getElem_of_eq hs bi'
      rw [this, List.getElem_append_right (by omega), List.getElem_append_right (by omega)]
    have hm : s[i] ∈ B := by rw [this]; exact List.getElem_mem _
    have := (List.mem_filter.mp hm).2
    rw [ei', le_rfl' hvv] at this
    cases this
  -- the labels in the group are equal
  have hGv : ∀ p ∈ G, p.1 = q.value := by
    intro p hp
    have := (List.mem_filter.mp hp).2
    simp only [Bool.and_eq_true] at this
    exact Ext.eq_of_le this.2 this.1
  have hsmall : ∃ w ∈ col, (w <. q.value) = true := by
    have h2c := h.row_len row2 hrow2
    have hcr : q.column < row2.length := by omega
    refine ⟨row2.getD q.column F64.zero, List.mem_map_of_mem (f := fun r : List (Ext K) => r.getD q.column F64.zero) hrow2, ?_⟩
    have hx := satisfies_getD h.row_len hc hrow2
    rw [hlo] at hx
    have hnx : NN (row2.getD q.column F64.zero) := nn_of_isNaN_false (hn _ (List.mem_map_of_mem (f := fun r : List (Ext K) => r.getD q.column F64.zero) hrow2))
    exact (not_le hvv hnx).mp hx.symm
  have hmem : ∀ p ∈ G, p ∈ col.zip ls := fun p hp => (eseq_perm hcl).mem_iff.mp (List.mem_filter.mp hp).1
  have hGne : G ≠ [] := by
    intro h0
    rw [h0] at hiG
    simp only [List.length_nil] at hiG
    omega
  obtain ⟨p0, hp0⟩ := List.exists_mem_of_ne_nil _ hGne
  have hGl : labs G = List.replicate G.length p0.2 := by
    rw [List.eq_replicate_iff]
    refine ⟨by simp [labs], ?_⟩
    intro l hl
    obtain ⟨p, hp, rfl⟩ := List.mem_map.mp hl
    exact hag p (hmem p hp) p0 (hmem p0 hp0) (by rw [hGv p hp, hGv p0 hp0]) (by rw [hGv p hp]; exact hsmall)
  -- the three cuts
  have he : i - A.length < G.length := by omega
  have key := candAt_group (t := t) (A := A) (B := B) he hGl
  rw [← hs, show A.length + (i - A.length) = i by omega] at key
  have hqside := sides_column (ls := ls) h.row_len hc
  have hcutA : candAt t s A.length = splitVar t (noLabels d.featureRows ls q) (yesLabels d.featureRows ls q) := by
    obtain ⟨c1, c2⟩ := cut_exact hcl hn q.value
    rw [hqside.1, hqside.2]
    exact splitVar_perm c1 c2
  have ha1 : candAt t s i ≤ candAt t s A.length := by
    have := h4 q hc
    rw [reduction_eq, ← hcutA, hg'] at this
    linarith
  have ha2 : candAt t s i ≤ candAt t s (A.length + G.length) := by
    rcases hBc : B with _ | ⟨b, B'⟩
    · have hB0 := hBc
      have hsl : A.length + G.length = s.length := by
        have := congrArg List.length hs
        rw [hB0] at this
        simp only [List.length_append, List.length_nil] at this
        omega
      have hsne : s ≠ [] := List.ne_nil_of_length_pos (by omega)
      rw [hsl, candAt_length t s hsne]
      exact candAt_le_total t s hsne i
    · have hbB : b ∈ B := by rw [hBc]; simp
      have hbs := List.mem_filter.mp hbB
      have hbv := hbs.2
      simp only [Bool.and_eq_true, Bool.not_eq_true'] at hbv
      have hnb := hnn b hbs.1
      have hvb : (q.value <. b.1) = true := (not_le hnb hvv).mp hbv.2
      have hw := h4 { column := q.column, value := b.1 } hc
      have hside := sides_column (ls := ls) (q := { column := q.column, value := b.1 }) h.row_len hc
      obtain ⟨c1, c2⟩ := cut_exact hcl hn b.1
      have hsorted := eseq_sorted (ls := ls) hn
      have hfil : s.filter (fun p => !(b.1 <=. p.1)) = A ++ G := by
        rw [← hsdef, hs, hBc, ← List.append_assoc] at hsorted
        conv_lhs => rw [hs]
        rw [← List.append_assoc, List.filter_append]
        have f1 : (A ++ G).filter (fun p => !(b.1 <=. p.1)) = A ++ G := by
          rw [List.filter_eq_self]
          intro p hp
          have hpv : (p.1 <=. q.value) = true := by
            rcases List.mem_append.mp hp with hp | hp
            · have hpf := List.mem_filter.mp hp
              have hx := hpf.2
              simp only [Bool.not_eq_true'] at hx
              exact lt_le ((not_le hvv (hnn p hpf.1)).mp hx)
            · rw [hGv p hp]; exact le_rfl' hvv
          have hlt := Verif.lt_of_le_of_lt hpv hvb
          rw [(LawfulOrder.lt_iff.mp hlt).2]; rfl
        have f2 : B.filter (fun p => !(b.1 <=. p.1)) = [] := by
          rw [List.filter_eq_nil_iff, hBc]
          intro p hp
          have : (b.1 <=. p.1) = true := by
            rcases List.mem_cons.mp hp with rfl | hp
            · exact le_rfl' hnb
            · exact (List.pairwise_cons.mp (List.pairwise_append.mp hsorted).2.1).1 p hp
          simp [this]
        rw [f1, f2, List.append_nil]
      rw [← hsdef, hfil, List.length_append] at c1 c2
      rw [reduction_eq, hside.1, hside.2, ← splitVar_perm c1 c2, hg'] at hw
      have : candAt t s (A.length + G.length) = splitVar t ((labs s).take (A.length + G.length)) ((labs s).drop (A.length + G.length)) := rfl
      rw [this]
      linarith
  have hfin : candAt t s A.length ≤ candAt t s i := by
    have hE : (0 : K) ≤ ((i - A.length : Nat) : K) := Nat.cast_nonneg _
    have hN : ((i - A.length : Nat) : K) < G.length := by exact_mod_cast he
    have h6 := mul_le_mul_of_nonneg_left ha2 hE
    have h7 : ((G.length : K) - ((i - A.length : Nat) : K)) * candAt t s A.length ≤
        ((G.length : K) - ((i - A.length : Nat) : K)) * candAt t s i := by linarith
    exact le_of_mul_le_mul_left h7 (by linarith)
  rw [h1, hg', reduction_eq, ← hcutA, le_antisymm ha1 hfin]

/-! ## the loop on permuted examples -/

section loop
variable {F : Type} [F64 F]

/-- the raw score of a row, as a function -/
def scoreOf (out : List F → TreeNode F L → R (List F)) (g : List F) (lr : F) (trees : List (TreeNode F L)) (row : List F) : List F :=
  match rawScore out g lr trees row with
  | .ok v => v
  | .error _ => []

theorem tracks_map {out : List F → TreeNode F L → R (List F)} {d : DataSet F} {g : List F} {lr : F}
    {a : TrainingData F × List (TreeNode F L)} (hrows : d.featureRows.length = d.labels.length) (h : Tracks out d g lr a) :
    a.1.mutableLabels = d.featureRows.map (scoreOf out g lr a.2) := by
  apply List.ext_getElem
  · rw [h.len, List.length_map, hrows]
  intro i h1 h2
  rw [List.length_map] at h2
  have := h.score i _ _ (List.getElem?_eq_getElem h2) (List.getElem?_eq_getElem h1)
  rw [List.getElem_map, scoreOf, this]

theorem relabel_examples (d : DataSet F) (f : List F → List F → List F) (σ : List F → List F) :
    ({ d with labels := List.zipWith f d.labels (d.featureRows.map σ) } : DataSet F).examples = d.examples.map (fun e => (e.1, f e.2 (σ e.1))) := by
  simp only [DataSet.examples]
  apply List.ext_getElem
  · simp; omega
  intro i h1 h2
  simp

/-- the loop on permuted examples builds the same trees -/
theorem loop_perm {res : TrainingData F → R (List (List F))} {fit : DataSet F → R (TreeNode F L)}
    {upd : TrainingData F → TreeNode F L → R (TrainingData F)} {out : List F → TreeNode F L → R (List F)} {d d' : DataSet F} {g : List F}
    {lr : F} (hrows : d.featureRows.length = d.labels.length) (hrows' : d'.featureRows.length = d'.labels.length)
    (hp : d.examples.Perm d'.examples) (hu : UpdateAdds upd out lr g.length) (f : List F → List F → List F)
    (hres : ∀ a, Tracks out d g lr a → res a.1 = .ok (List.zipWith f d.labels a.1.mutableLabels))
    (hres' : ∀ a, Tracks out d' g lr a → res a.1 = .ok (List.zipWith f d'.labels a.1.mutableLabels))
    (hfit : ∀ n a a', boostLoop res fit upd n (startState d g) = .ok a → boostLoop res fit upd n (startState d' g) = .ok a' →
      let x : DataSet F := { d with labels := List.zipWith f d.labels a.1.mutableLabels }
      let y : DataSet F := { d' with labels := List.zipWith f d'.labels a'.1.mutableLabels }
      x.examples.Perm y.examples → (∃ σ : List F → List F, x.examples = d.examples.map (fun e => (e.1, f e.2 (σ e.1)))) → fit y = fit x)
    {n : Nat} {s s' : TrainingData F × List (TreeNode F L)} (h : boostLoop res fit upd n (startState d g) = .ok s)
    (h' : boostLoop res fit upd n (startState d' g) = .ok s') : s'.2 = s.2 := by
  induction n generalizing s s' with
  | zero =>
    cases h
    cases h'
    rfl
  | succ n ih =>
    rw [boostLoop_succ, R.bind_eq_ok] at h h'
    obtain ⟨a, h1, h2⟩ := h
    obtain ⟨a', h1', h2'⟩ := h'
    have hall := ih h1 h1'
    have ht : Tracks out d g lr a := tracks_loop hu (tracks_start d g lr) h1
    have ht' : Tracks out d' g lr a' := tracks_loop hu (tracks_start _ g lr) h1'
    obtain ⟨r, tree, t, e1, e2, e3, rfl⟩ := boostStep_inv h2
    obtain ⟨r', tree', t', e1', e2', e3', rfl⟩ := boostStep_inv h2'
    rw [hres a ht] at e1
    rw [hres' a' ht'] at e1'
    cases e1
    cases e1'
    have m := tracks_map hrows ht
    have m' := tracks_map hrows' ht'
    rw [hall] at m'
    have hx := relabel_examples d f (scoreOf out g lr a.2)
    have hy := relabel_examples d' f (scoreOf out g lr a.2)
    rw [← m] at hx
    rw [← m'] at hy
    rw [ht.data] at e2
    rw [ht'.data, hfit n a a' h1 h1' (by rw [hx, hy]; exact hp.map _) ⟨_, hx⟩, e2] at e2'
    cases e2'
    rw [hall]

end loop

/-- copies stay copies when the labels are replaced by values computed from row and label -/
theorem relabel_agree {d x : DataSet (Ext K)} {c : Nat} (hi : d.TiesIdentical c) (hr : x.featureRows = d.featureRows)
    {f : List (Ext K) → List (Ext K) → List (Ext K)} {σ : List (Ext K) → List (Ext K)}
    (hx : x.examples = d.examples.map (fun e => (e.1, f e.2 (σ e.1)))) : x.TiesAgree c := by
  intro j hj e he e' he' heq hlow
  rw [hx] at he he'
  obtain ⟨u, hu, rfl⟩ := List.mem_map.mp he
  obtain ⟨u', hu', rfl⟩ := List.mem_map.mp he'
  rw [hr] at hlow
  rw [hi j hj u hu u' hu' heq hlow]

end Verif
