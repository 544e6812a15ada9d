import Verif.Lemmas.Cuts
import Verif.Props.Ties
import Verif.Props.FeatureOrder
/-!
# C113: only the ways in which questions can divide the training rows matter

A description `f` of the training rows by other features (reversed, rescaled, repeated, recombined) leads to the same groups of rows, the
same leaves and the same predictions for the training rows, as long as its questions divide the rows in the same ways.
-/

set_option linter.unusedSectionVars false

namespace Verif
open Sample

variable {K : Type} [Field K] [LinearOrder K] [IsStrictOrderedRing K] [FloorSemiring K] [HasExp K]

/-! ## boosting -/

/-- rows that no question of the second description separates are equal -/
theorem sameCuts_inj {d : DataSet (Ext K)} {c c' t : Nat} (hw : d.WF c t) {f : List (Ext K) → List (Ext K)}
    (hs : SameCuts c c' f d.featureRows) {r s : List (Ext K)} (hr : r ∈ d.featureRows) (hs' : s ∈ d.featureRows) (he : f r = f s) : r = s := by
  have one : ∀ r ∈ d.featureRows, ∀ s ∈ d.featureRows, f r = f s → ∀ j < c, (r.getD j F64.zero <=. s.getD j F64.zero) = true := by
    intro r hr s hs' he j hj
    obtain ⟨q', _, hd⟩ := hs.1 { column := j, value := r.getD j F64.zero } hj
    have h1 : satisfies { column := j, value := r.getD j F64.zero } r = true := by
      rw [satisfies_at (by rw [hw.row_len r hr]; exact hj)]
      exact (LawfulOrder.eq_iff.mp (row_getD_ne_nan hw.row_len hw.no_nan hj r hr)).1
    have h2 : satisfies { column := j, value := r.getD j F64.zero } s = satisfies { column := j, value := r.getD j F64.zero } r := by
      rcases hd with hd | hd <;> have a := hd r hr <;> have b := hd s hs' <;> simp only [he] at a <;> simp only at b
      · rw [← a, ← b]
      · rw [a] at b; simpa using b.symm
    rw [h1, satisfies_at (by rw [hw.row_len s hs']; exact hj)] at h2
    exact h2
  apply List.ext_getElem (by rw [hw.row_len r hr, hw.row_len s hs'])
  intro j h1 h2
  have hj : j < c := by rw [← hw.row_len r hr]; exact h1
  have a := one r hr s hs' he j hj
  have b := one s hs' r hr he.symm j hj
  simp only [List.getD_eq_getElem?_getD, List.getElem?_eq_getElem h1, List.getElem?_eq_getElem h2, Option.getD_some] at a b
  revert a b
  cases r[j] <;> cases s[j] <;> simp [F64.le, Ext.le]
  exact fun h1 h2 => _root_.le_antisymm h1 h2

theorem relabel_agree' {d d' x : DataSet (Ext K)} {c c' t : Nat} (hw : d.WF c t) {f : List (Ext K) → List (Ext K)} (hd : Describes f d d')
    (hs : SameCuts c c' f d.featureRows) (hi : d'.TiesIdentical c') {F : List (Ext K) → List (Ext K) → List (Ext K)} {σ : List (Ext K) → List (Ext K)}
    (hr : x.featureRows = d'.featureRows)
    (hx : x.examples = d.examples.map (fun e => (f e.1, F e.2 (σ e.1)))) : x.TiesAgree c' := by
  intro j hj e he e' he' heq hlow
  rw [hx] at he he'
  obtain ⟨u, hu, rfl⟩ := List.mem_map.mp he
  obtain ⟨u', hu', rfl⟩ := List.mem_map.mp he'
  rw [hr] at hlow
  have := hi j hj (f u.1, u.2) (by rw [hd.examples]; exact List.mem_map_of_mem hu) (f u'.1, u'.2) (by rw [hd.examples]; exact List.mem_map_of_mem hu') heq hlow
  simp only [Prod.mk.injEq] at this
  have h1 := sameCuts_inj hw hs (examples_fst_mem hu) (examples_fst_mem hu') this.1
  simp only [h1, this.2]

/-- what corresponding boosting trees have in common -/
def CutOut {L : Type} (f : List (Ext K) → List (Ext K)) (rows : List (List (Ext K))) (out : List (Ext K) → TreeNode (Ext K) L → R (List (Ext K)))
    (tree tree' : TreeNode (Ext K) L) : Prop := ∀ row ∈ rows, out (f row) tree' = out row tree

theorem find_cuts {L : Type} {leafOf : DataSet (Ext K) → L} {c c' t : Nat} {f : List (Ext K) → List (Ext K)}
    (hleaf : ∀ d d' : DataSet (Ext K), Describes f d d' → leafOf d = leafOf d') (m : Nat) {d : DataSet (Ext K)} (hw : d.WF c t)
    {ls : List (List K)} (hls : d.labels = lift ls) (ha : d.TiesAgree c) {d' : DataSet (Ext K)} (hw' : d'.WF c' t) (ha' : d'.TiesAgree c')
    (hd : Describes f d d') (hs : SameCuts c c' f d.featureRows) (hn : NoTiedCuts d c t (treeOf leafOf c t m d)) {row : List (Ext K)} (hr : row ∈ d.featureRows) :
    findLeafNodeForData (f row) (treeOf leafOf c' t m d') = findLeafNodeForData row (treeOf leafOf c t m d) := by
  have hc := treeOf_cuts (P := Eq) hleaf m d hw hls ha d' hw' ha' hd hs hn
  obtain ⟨leaf, h1, h2⟩ := TreeNode.find_of_proper (treeOf_proper (leafOf := leafOf) (c := c) (t := t) m d) (row := row)
    (fun p q hq => by rw [hw.row_len row hr]; exact (treeOf_questions m d hw p q hq).1)
  obtain ⟨leaf', h3, h4⟩ := TreeNode.find_of_proper (treeOf_proper (leafOf := leafOf) (c := c') (t := t) m d') (row := f row)
    (fun p q hq => by rw [hw'.row_len (f row) (by rw [hd.1]; exact List.mem_map_of_mem hr)]; exact (treeOf_questions m d' hw' p q hq).1)
  have := (hc.1 row hr).1
  rw [h2, h4] at this
  cases this with
  | some h => rw [h1, h3, h]

theorem grad_fit_cuts {c c' t : Nat} {cfg : TreeConfig} (hc : cfg.numberOfClasses = t) {o : LeafOutputType} {f : List (Ext K) → List (Ext K)}
    {d : DataSet (Ext K)} (hw : d.WF c t) {ls : List (List K)} (hls : d.labels = lift ls) (ha : d.TiesAgree c) {d' : DataSet (Ext K)} (hw' : d'.WF c' t)
    (ha' : d'.TiesAgree c') (hd : Describes f d d') (hs : SameCuts c c' f d.featureRows) {tree tree' : TreeNode (Ext K) (GradBoostLeaf (Ext K))}
    (h : NoTiedCuts d c t tree) (h1 : gradBoostTreeNew d cfg o = .ok tree) (h2 : gradBoostTreeNew d' cfg o = .ok tree') :
    CutOut f d.featureRows gradOut tree tree' := by
  rw [gradBoostTreeNew_ok hw hc] at h1
  rw [gradBoostTreeNew_ok hw' hc] at h2
  cases h1
  cases h2
  intro row hr
  simp only [gradOut, find_cuts (leafOf := gradLeaf o t) (fun d d' hd => by simp only [gradLeaf, hd.2]) cfg.maxLevels hw hls ha hw' ha' hd hs h hr]

theorem amg_fit_cuts {c c' t : Nat} {cfg : TreeConfig} (hc : cfg.numberOfClasses = t) {o : LeafOutputType} {f : List (Ext K) → List (Ext K)}
    {d : DataSet (Ext K)} (hw : d.WF c t) {ls : List (List K)} (hls : d.labels = lift ls) (ha : d.TiesAgree c) {d' : DataSet (Ext K)} (hw' : d'.WF c' t)
    (ha' : d'.TiesAgree c') (hd : Describes f d d') (hs : SameCuts c c' f d.featureRows) {tree tree' : TreeNode (Ext K) (AMGBoostLeaf (Ext K))}
    (h : NoTiedCuts d c t tree) (h1 : amgTreeNew d cfg o = .ok tree) (h2 : amgTreeNew d' cfg o = .ok tree') :
    CutOut f d.featureRows (amgOut t) tree tree' := by
  rw [amgTreeNew_ok hw hc] at h1
  rw [amgTreeNew_ok hw' hc] at h2
  cases h1
  cases h2
  intro row hr
  simp only [amgOut, find_cuts (leafOf := amgLeaf o t) (fun d d' hd => by simp only [amgLeaf, hd.2]) cfg.maxLevels hw hls ha hw' ha' hd hs h hr]

/-! ## the claim -/

/-- **C113** (orders).  If each feature of either description orders the training rows as some feature of the other does, or in the opposite
order, then the questions about both divide the rows in the same ways.  So features can be reversed, repeated, listed in another order, and
rescaled monotonically. -/
theorem C113_orders (d d' : DataSet (Ext K)) (c c' t : Nat) (h : d.WF c t) (h' : d'.WF c' t) (f : List (Ext K) → List (Ext K)) (hd : Describes f d d')
    (hs : SameOrders c c' f d.featureRows) : SameCuts c c' f d.featureRows := sameCuts_of_orders h h' hd hs

/-- **C113** (split search).  Examples that share a feature value, other than the smallest, share the label, in both descriptions, and the
questions divide the rows in the same ways.  Then the search finds the same gain in both; and if no other way to divide the rows is as good as
the one found in the first, the question found in the second divides the rows in the same way. -/
theorem C113_split (d d' : DataSet (Ext K)) (c c' t : Nat) (h : d.WF c t) (h' : d'.WF c' t) (ls : List (List K)) (hls : d.labels = lift ls)
    (hties : d.TiesAgree c) (hties' : d'.TiesAgree c') (f : List (Ext K) → List (Ext K)) (hd : Describes f d d') (hs : SameCuts c c' f d.featureRows) :
    ∃ s s', findBestSplit d t = .ok s ∧ findBestSplit d' t = .ok s' ∧ s'.gain = s.gain ∧
      ((s.gain ==. F64.zero) = false →
        (∀ q : Question (Ext K), q.column < c → varianceReduction t d.featureRows ls q = varianceReduction t d.featureRows ls s.question →
          DivideAlike d.featureRows (satisfies s.question) (satisfies q)) →
        DivideAlike d.featureRows (satisfies s.question) (fun row => satisfies s'.question (f row))) :=
  ⟨_, _, findBestSplit_ok h, findBestSplit_ok h', splitOf_cuts h h' hls hties hties' hd hs⟩

/-- **C113** (regression tree).  If moreover no node of the first tree has tied cuts, the two trees put the training rows into the same
groups: rows share a leaf in the second exactly if they do in the first, at the same depth, and the leaf holds the same labels and the same rows,
in the same order, in the other description. -/
theorem C113_regression_tree (d d' : DataSet (Ext K)) (c c' t : Nat) (h : d.WF c t) (h' : d'.WF c' t) (ls : List (List K)) (hls : d.labels = lift ls)
    (hties : d.TiesAgree c) (hties' : d'.TiesAgree c') (f : List (Ext K) → List (Ext K)) (hd : Describes f d d') (hs : SameCuts c c' f d.featureRows)
    (cfg : TreeConfig) (hc : cfg.numberOfClasses = t) :
    ∃ tree tree', regressionTreeNew d cfg = .ok tree ∧ regressionTreeNew d' cfg = .ok tree' ∧
      (NoTiedCuts d c t tree →
        (∀ r ∈ d.featureRows, ∀ s ∈ d.featureRows, tree.route r = tree.route s ↔ tree'.route (f r) = tree'.route (f s)) ∧
        ∀ row ∈ d.featureRows, (tree'.route (f row)).length = (tree.route row).length ∧
          ∃ g g', findLeafNodeForData row tree = .ok { data := some g } ∧ findLeafNodeForData (f row) tree' = .ok { data := some g' } ∧
            Describes f g g') := by
  refine ⟨_, _, regressionTreeNew_ok h hc, regressionTreeNew_ok h' hc, fun hn => ?_⟩
  have hr := treeOf_cuts (leafOf := regLeaf) (leafOf' := regLeaf) (P := fun l l' => ∃ g g', l = { data := some g } ∧ l' = { data := some g' } ∧ Describes f g g')
    (fun d d' hd => ⟨d, d', rfl, rfl, hd⟩) cfg.maxLevels d h hls hties d' h' hties' hd hs hn
  refine ⟨hr.2, fun row hrow => ⟨(hr.1 row hrow).2, ?_⟩⟩
  obtain ⟨leaf, h1, h2⟩ := TreeNode.find_of_proper (treeOf_proper (leafOf := regLeaf) (c := c) (t := t) cfg.maxLevels d) (row := row)
    (fun p q hq => by rw [h.row_len row hrow]; exact (treeOf_questions _ d h p q hq).1)
  obtain ⟨leaf', h3, h4⟩ := TreeNode.find_of_proper (treeOf_proper (leafOf := regLeaf) (c := c') (t := t) cfg.maxLevels d') (row := f row)
    (fun p q hq => by rw [h'.row_len (f row) (by rw [hd.1]; exact List.mem_map_of_mem hrow)]; exact (treeOf_questions _ d' h' p q hq).1)
  have := (hr.1 row hrow).1
  rw [h2, h4] at this
  cases this with
  | some hp =>
    obtain ⟨g, g', e1, e2, e3⟩ := hp
    exact ⟨g, g', by rw [h1, e1], by rw [h3, e2], e3⟩

/-- **C113** (gradient boosting tree).  As above; a training row gets the same leaf vector from both trees. -/
theorem C113_gradBoost_tree (d d' : DataSet (Ext K)) (c c' t : Nat) (h : d.WF c t) (h' : d'.WF c' t) (ls : List (List K)) (hls : d.labels = lift ls)
    (hties : d.TiesAgree c) (hties' : d'.TiesAgree c') (f : List (Ext K) → List (Ext K)) (hd : Describes f d d') (hs : SameCuts c c' f d.featureRows)
    (cfg : TreeConfig) (hc : cfg.numberOfClasses = t) (o : LeafOutputType) :
    ∃ tree tree', gradBoostTreeNew d cfg o = .ok tree ∧ gradBoostTreeNew d' cfg o = .ok tree' ∧
      (NoTiedCuts d c t tree →
        (∀ r ∈ d.featureRows, ∀ s ∈ d.featureRows, tree.route r = tree.route s ↔ tree'.route (f r) = tree'.route (f s)) ∧
        ∀ row ∈ d.featureRows, (tree'.route (f row)).length = (tree.route row).length ∧
          findLeafNodeForData (f row) tree' = findLeafNodeForData row tree) := by
  refine ⟨_, _, gradBoostTreeNew_ok h hc o, gradBoostTreeNew_ok h' hc o, fun hn => ?_⟩
  have hl : ∀ d d' : DataSet (Ext K), Describes f d d' → gradLeaf o t d = gradLeaf o t d' := fun d d' hd => by simp only [gradLeaf, hd.2]
  have hr := treeOf_cuts (P := Eq) hl cfg.maxLevels d h hls hties d' h' hties' hd hs hn
  exact ⟨hr.2, fun row hrow => ⟨(hr.1 row hrow).2, find_cuts hl cfg.maxLevels h hls hties h' hties' hd hs hn hrow⟩⟩

/-- **C113** (AMG tree). -/
theorem C113_amg_tree (d d' : DataSet (Ext K)) (c c' t : Nat) (h : d.WF c t) (h' : d'.WF c' t) (ls : List (List K)) (hls : d.labels = lift ls)
    (hties : d.TiesAgree c) (hties' : d'.TiesAgree c') (f : List (Ext K) → List (Ext K)) (hd : Describes f d d') (hs : SameCuts c c' f d.featureRows)
    (cfg : TreeConfig) (hc : cfg.numberOfClasses = t) (o : LeafOutputType) :
    ∃ tree tree', amgTreeNew d cfg o = .ok tree ∧ amgTreeNew d' cfg o = .ok tree' ∧
      (NoTiedCuts d c t tree →
        (∀ r ∈ d.featureRows, ∀ s ∈ d.featureRows, tree.route r = tree.route s ↔ tree'.route (f r) = tree'.route (f s)) ∧
        ∀ row ∈ d.featureRows, (tree'.route (f row)).length = (tree.route row).length ∧
          findLeafNodeForData (f row) tree' = findLeafNodeForData row tree) := by
  refine ⟨_, _, amgTreeNew_ok h hc o, amgTreeNew_ok h' hc o, fun hn => ?_⟩
  have hl : ∀ d d' : DataSet (Ext K), Describes f d d' → amgLeaf o t d = amgLeaf o t d' := fun d d' hd => by simp only [amgLeaf, hd.2]
  have hr := treeOf_cuts (P := Eq) hl cfg.maxLevels d h hls hties d' h' hties' hd hs hn
  exact ⟨hr.2, fun row hrow => ⟨(hr.1 row hrow).2, find_cuts hl cfg.maxLevels h hls hties h' hties' hd hs hn hrow⟩⟩

/-- **C113** (regression ensemble).  Examples that share a feature value, other than the smallest, are copies of each other, in both
descriptions; and in each of the `n` iterations the tree fitted to what the ensemble so far leaves unexplained has no tied cuts.  Then the
ensembles trained on the two descriptions predict the same for every training row. -/
theorem C113_regression_ensemble (d d' : DataSet (Ext K)) (c c' t : Nat) (h : d.WF c t) (h' : d'.WF c' t) (ls : List (List K)) (hls : d.labels = lift ls)
    (hties : d.TiesIdentical c) (hties' : d'.TiesIdentical c') (f : List (Ext K) → List (Ext K)) (hd : Describes f d d')
    (hs : SameCuts c c' f d.featureRows) (cfg : TreeConfig) (hc : cfg.numberOfClasses = t) (n : Nat) (lr : K)
    (hn : ∀ k < n, ∀ m ps tree, regressionTrain d cfg k (.fin lr) = .ok m → d.featureRows.mapM (regressionPredict m) = .ok ps →
      gradBoostTreeNew { d with labels := List.zipWith (List.zipWith F64.sub) d.labels ps } cfg .regression = .ok tree →
      NoTiedCuts { d with labels := List.zipWith (List.zipWith F64.sub) d.labels ps } c t tree) :
    ∃ m m', regressionTrain d cfg n (.fin lr) = .ok m ∧ regressionTrain d' cfg n (.fin lr) = .ok m' ∧
      ∀ row ∈ d.featureRows, regressionPredict m' (f row) = regressionPredict m row := by
  have hls' : d'.labels = lift ls := by rw [hd.2]; exact hls
  have hg : (liftV (meanVec t ls) : List (Ext K)).length = t := by rw [liftV_length, meanVec_length]
  obtain ⟨s, ps, h1, _⟩ := regState_loop (lr := lr) h hls hc n
  obtain ⟨s', ps', h2, _⟩ := regState_loop (lr := lr) h' hls' hc n
  refine ⟨_, _, regressionTrain_of_loop h hls h1, regressionTrain_of_loop h' hls' h2, fun row hrow => ?_⟩
  have key := loop_twin_at (g := liftV (meanVec t ls)) (d := d) (d' := d') (out := gradOut) f (CutOut f d.featureRows gradOut) hd.1 hd.2
    (grad_updateAdds (Ext.fin lr) _) regression_labelsOnly (fun tree tree' hs row hr => hs row hr)
    (fun k hk s r tree tree' hloop ht hr e1 e2 => by
      rw [regressionResiduals_ok h hg ht] at hr
      cases hr
      obtain ⟨a, ps, k1, k2⟩ := regState_loop (lr := lr) h hls hc k
      have := hn k hk _ a.1.mutableLabels tree (regressionTrain_of_loop h hls k1) (by
        have := tracks_mapM k2.finite.tracks h.label_count.symm
        show d.featureRows.mapM (fun row => predictInstance row a.2 (liftV (meanVec t ls)) (.fin lr)) = _
        simpa only [predictInstance_eq] using this)
      rw [regLoopAt] at k1
      rw [k1] at hloop
      cases hloop
      have hm := tracks_map h.label_count.symm ht
      have hx := relabel_examples d (List.zipWith F64.sub) (scoreOf gradOut (liftV (meanVec t ls)) (.fin lr) s.2)
      rw [← hm] at hx
      have hxl : List.zipWith (List.zipWith F64.sub) d.labels s.1.mutableLabels = lift (resid ls ps) := by
        rw [k2.finite.labels, hls, resid_lift]
      have hxd : Describes f { d with labels := List.zipWith (List.zipWith F64.sub) d.labels s.1.mutableLabels }
        { d' with labels := List.zipWith (List.zipWith F64.sub) d.labels s.1.mutableLabels } := ⟨hd.1, rfl⟩
      have hwx : ({ d with labels := List.zipWith (List.zipWith F64.sub) d.labels s.1.mutableLabels } : DataSet (Ext K)).WF c t := by
        rw [hxl]; exact resid_wf h hls k2.finite.len k2.finite.width
      have hwx' : ({ d' with labels := List.zipWith (List.zipWith F64.sub) d.labels s.1.mutableLabels } : DataSet (Ext K)).WF c' t := by
        rw [hxl]; exact resid_wf h' hls' (by rw [hd.2]; exact k2.finite.len) k2.finite.width
      refine grad_fit_cuts hc hwx hxl (relabel_agree hties rfl hx) hwx' (relabel_agree' (F := List.zipWith F64.sub)
        (σ := scoreOf gradOut (liftV (meanVec t ls)) (.fin lr) s.2) h hd hs hties' rfl ?_) hxd hs (this e1) e1 e2
      rw [hxd.examples, hx, List.map_map]
      rfl) h1 h2
  simp only [regressionPredict, predictInstance_eq]
  exact rawScore_twin (key.2.imp (fun _ _ hs => hs row hrow))

/-- **C113** (multi-class ensemble).  One-hot labels of two or more classes, the same conditions with the labels minus the soft-max
probabilities of the scores so far: the ensembles trained on the two descriptions predict the same class for every training row. -/
theorem C113_multiClass_ensemble (d d' : DataSet (Ext K)) (c c' t : Nat) (h : d.WF c t) (h' : d'.WF c' t) (h2 : 2 ≤ t) (ht : t ≤ 2 ^ 53)
    (hot : ∀ l ∈ d.labels, ∃ j < t, l = oneHot t j) (hties : d.TiesIdentical c) (hties' : d'.TiesIdentical c')
    (f : List (Ext K) → List (Ext K)) (hd : Describes f d d') (hs : SameCuts c c' f d.featureRows) (cfg : TreeConfig) (hc : cfg.numberOfClasses = t)
    (n : Nat) (lr : K)
    (hn : ∀ k < n, ∀ m vs tree, multiClassTrain d cfg k (.fin lr) = .ok m →
      d.featureRows.mapM (fun row => predictInstance row m.trees m.initialGuess m.learningRate) = .ok vs →
      gradBoostTreeNew { d with labels := List.zipWith (fun l v => List.zipWith F64.sub l (calculateProbabilities v)) d.labels vs } cfg
        .multiClassClassification = .ok tree →
      NoTiedCuts { d with labels := List.zipWith (fun l v => List.zipWith F64.sub l (calculateProbabilities v)) d.labels vs } c t tree) :
    ∃ m m', multiClassTrain d cfg n (.fin lr) = .ok m ∧ multiClassTrain d' cfg n (.fin lr) = .ok m' ∧
      ∀ row ∈ d.featureRows, multiClassPredict m' (f row) = multiClassPredict m row := by
  obtain ⟨ls, hls, hh⟩ := labels_hot hot
  have hls' : d'.labels = lift ls := by rw [hd.2]; exact hls
  have hg : (liftV (List.replicate t (1 / (t : K))) : List (Ext K)).length = t := by simp [liftV]
  obtain ⟨s, ps, h3, _⟩ := multi_loop (lr := lr) h h2 hls hh hc n
  obtain ⟨s', ps', h4, _⟩ := multi_loop (lr := lr) h' h2 hls' hh hc n
  refine ⟨_, _, multi_train h h2 ht h3, multi_train h' h2 ht h4, fun row hrow => ?_⟩
  have key := loop_twin_at (g := liftV (List.replicate t (1 / (t : K)))) (d := d) (d' := d') (out := gradOut) f (CutOut f d.featureRows gradOut) hd.1 hd.2
    (grad_updateAdds (Ext.fin lr) _) multiClass_labelsOnly (fun tree tree' hs row hr => hs row hr)
    (fun k hk s r tree tree' hloop ht' hr e1 e2 => by
      rw [multiClassResiduals_ok h hg ht'] at hr
      cases hr
      obtain ⟨a, ps, k1, k2⟩ := multi_loop (lr := lr) h h2 hls hh hc k
      have := hn k hk _ a.1.mutableLabels tree (multi_train h h2 ht k1) (by
        have := tracks_mapM k2.finite.tracks h.label_count.symm
        simpa only [predictInstance_eq] using this)
      rw [k1] at hloop
      cases hloop
      have hm := tracks_map h.label_count.symm ht'
      have hx := relabel_examples d (fun l v => List.zipWith F64.sub l (calculateProbabilities v))
        (scoreOf gradOut (liftV (List.replicate t (1 / (t : K)))) (.fin lr) s.2)
      rw [← hm] at hx
      have hxl : List.zipWith (fun l v => List.zipWith F64.sub l (calculateProbabilities v)) d.labels s.1.mutableLabels = lift (probResid ls ps) := by
        rw [k2.finite.labels, hls, probResid_lift (by omega) k2.finite.width]
      have hxd : Describes f { d with labels := List.zipWith (fun l v => List.zipWith F64.sub l (calculateProbabilities v)) d.labels s.1.mutableLabels }
        { d' with labels := List.zipWith (fun l v => List.zipWith F64.sub l (calculateProbabilities v)) d.labels s.1.mutableLabels } := ⟨hd.1, rfl⟩
      have hwx : ({ d with labels := List.zipWith (fun l v => List.zipWith F64.sub l (calculateProbabilities v)) d.labels s.1.mutableLabels } :
          DataSet (Ext K)).WF c t := by
        rw [hxl]; exact probResid_wf h hls k2.finite.len k2.finite.width
      have hwx' : ({ d' with labels := List.zipWith (fun l v => List.zipWith F64.sub l (calculateProbabilities v)) d.labels s.1.mutableLabels } :
          DataSet (Ext K)).WF c' t := by
        rw [hxl]; exact probResid_wf h' hls' (by rw [hd.2]; exact k2.finite.len) k2.finite.width
      refine grad_fit_cuts hc hwx hxl (relabel_agree (f := fun l v => List.zipWith F64.sub l (calculateProbabilities v)) hties rfl hx) hwx'
        (relabel_agree' (F := fun l v => List.zipWith F64.sub l (calculateProbabilities v))
        (σ := scoreOf gradOut (liftV (List.replicate t (1 / (t : K)))) (.fin lr) s.2) h hd hs hties' rfl ?_) hxd hs (this e1) e1 e2
      rw [hxd.examples, hx, List.map_map]
      rfl) h3 h4
  simp only [multiClassPredict, predictInstance_eq]
  rw [rawScore_twin (key.2.imp (fun _ _ hs => hs row hrow))]

/-- **C113** (AMG ensemble).  The same for AMG boosting. -/
theorem C113_amg_ensemble (d d' : DataSet (Ext K)) (c c' t : Nat) (h : d.WF c t) (h' : d'.WF c' t) (h2 : 2 ≤ t) (ht : t ≤ 2 ^ 53)
    (hot : ∀ l ∈ d.labels, ∃ j < t, l = oneHot t j) (hties : d.TiesIdentical c) (hties' : d'.TiesIdentical c')
    (f : List (Ext K) → List (Ext K)) (hd : Describes f d d') (hs : SameCuts c c' f d.featureRows) (cfg : TreeConfig) (hc : cfg.numberOfClasses = t)
    (n : Nat) (lr : K)
    (hn : ∀ k < n, ∀ m vs tree, amgTrain d cfg k (.fin lr) = .ok m →
      d.featureRows.mapM (fun row => amgPredictInstance row m.trees m.initialGuess m.learningRate m.initialGuess.length) = .ok vs →
      amgTreeNew { d with labels := List.zipWith (fun l v => List.zipWith F64.sub l (calculateProbabilities v)) d.labels vs } cfg
        .multiClassClassification = .ok tree →
      NoTiedCuts { d with labels := List.zipWith (fun l v => List.zipWith F64.sub l (calculateProbabilities v)) d.labels vs } c t tree) :
    ∃ m m', amgTrain d cfg n (.fin lr) = .ok m ∧ amgTrain d' cfg n (.fin lr) = .ok m' ∧
      ∀ row ∈ d.featureRows, amgPredict m' (f row) = amgPredict m row := by
  obtain ⟨ls, hls, hh⟩ := labels_hot hot
  have hls' : d'.labels = lift ls := by rw [hd.2]; exact hls
  have hg : (liftV (List.replicate t (1 / (t : K))) : List (Ext K)).length = t := by simp [liftV]
  obtain ⟨s, ps, h3, _⟩ := amg_loop (lr := lr) h h2 hls hh hc n
  obtain ⟨s', ps', h4, _⟩ := amg_loop (lr := lr) h' h2 hls' hh hc n
  refine ⟨_, _, amg_train h h2 ht h3, amg_train h' h2 ht h4, fun row hrow => ?_⟩
  have key := loop_twin_at (g := liftV (List.replicate t (1 / (t : K)))) (d := d) (d' := d') (out := amgOut t) f (CutOut f d.featureRows (amgOut t)) hd.1 hd.2
    (by rw [hg]; exact amg_updateAdds (Ext.fin lr) t) multiClass_labelsOnly (fun tree tree' hs row hr => hs row hr)
    (fun k hk s r tree tree' hloop ht' hr e1 e2 => by
      rw [multiClassResiduals_ok h hg ht'] at hr
      cases hr
      obtain ⟨a, ps, k1, k2⟩ := amg_loop (lr := lr) h h2 hls hh hc k
      have := hn k hk _ a.1.mutableLabels tree (amg_train h h2 ht k1) (by
        have := tracks_mapM k2.finite.tracks h.label_count.symm
        simpa only [amgPredictInstance_eq, hg] using this)
      rw [k1] at hloop
      cases hloop
      have hm := tracks_map h.label_count.symm ht'
      have hx := relabel_examples d (fun l v => List.zipWith F64.sub l (calculateProbabilities v))
        (scoreOf (amgOut t) (liftV (List.replicate t (1 / (t : K)))) (.fin lr) s.2)
      rw [← hm] at hx
      have hxl : List.zipWith (fun l v => List.zipWith F64.sub l (calculateProbabilities v)) d.labels s.1.mutableLabels = lift (probResid ls ps) := by
        rw [k2.finite.labels, hls, probResid_lift (by omega) k2.finite.width]
      have hxd : Describes f { d with labels := List.zipWith (fun l v => List.zipWith F64.sub l (calculateProbabilities v)) d.labels s.1.mutableLabels }
        { d' with labels := List.zipWith (fun l v => List.zipWith F64.sub l (calculateProbabilities v)) d.labels s.1.mutableLabels } := ⟨hd.1, rfl⟩
      have hwx : ({ d with labels := List.zipWith (fun l v => List.zipWith F64.sub l (calculateProbabilities v)) d.labels s.1.mutableLabels } :
          DataSet (Ext K)).WF c t := by
        rw [hxl]; exact probResid_wf h hls k2.finite.len k2.finite.width
      have hwx' : ({ d' with labels := List.zipWith (fun l v => List.zipWith F64.sub l (calculateProbabilities v)) d.labels s.1.mutableLabels } :
          DataSet (Ext K)).WF c' t := by
        rw [hxl]; exact probResid_wf h' hls' (by rw [hd.2]; exact k2.finite.len) k2.finite.width
      refine amg_fit_cuts hc hwx hxl (relabel_agree (f := fun l v => List.zipWith F64.sub l (calculateProbabilities v)) hties rfl hx) hwx'
        (relabel_agree' (F := fun l v => List.zipWith F64.sub l (calculateProbabilities v))
        (σ := scoreOf (amgOut t) (liftV (List.replicate t (1 / (t : K)))) (.fin lr) s.2) h hd hs hties' rfl ?_) hxd hs (this e1) e1 e2
      rw [hxd.examples, hx, List.map_map]
      rfl) h3 h4
  simp only [amgPredict, amgPredictInstance_eq, hg]
  rw [rawScore_twin (key.2.imp (fun _ _ hs => hs row hrow))]

/-! ## cases -/

/-- three rows; the last stands out in the first feature -/
def steep3 : DataSet E := { featureRows := [[1, 5], [2, 7], [4, 6]], labels := lift [[0], [1], [6]], featureColumns := [[1, 2, 4], [5, 7, 6]] }

/-- the first feature with the opposite sign, three times the second, and the second with the opposite sign -/
def turned (row : List E) : List E :=
  [F64.zero -. row.getD 0 F64.zero, .fin 3 *. row.getD 1 F64.zero, F64.zero -. row.getD 1 F64.zero]

/-- the same examples, described in that way -/
def steep3turned : DataSet E :=
  { featureRows := steep3.featureRows.map turned, labels := steep3.labels, featureColumns := columnsOf (steep3.featureRows.map turned) 3 }

theorem steep3_wf : steep3.WF 2 1 :=
  ⟨by decide +kernel, by decide +kernel, by decide +kernel, by decide +kernel, by decide +kernel, by decide +kernel, by decide +kernel⟩

theorem steep3turned_wf : steep3turned.WF 3 1 :=
  ⟨by decide +kernel, by decide +kernel, by decide +kernel, by decide +kernel, by decide +kernel, by decide +kernel, by decide +kernel⟩

theorem steep3_orders : SameOrders 2 3 turned steep3.featureRows := by
  unfold SameOrders SameOrReversed
  decide +kernel

/-- whatever is said of the examples at the root of a tree can be said of the data set -/
theorem root_examples {rows : List (List E)} {ls ks : List (List ℚ)} {d : DataSet E} (hl : rows.length = ls.length) (hd : d.labels = lift ks)
    (hw : d.featureRows.length = ks.length) (h : rows.zip (lift ls) = d.examples) : rows = d.featureRows ∧ ls = ks := by
  constructor
  · have := congrArg (List.map Prod.fst) h
    rwa [List.map_fst_zip (by simp [lift_length, hl]), DataSet.examples, List.map_fst_zip (by simp [hd, lift_length, hw])] at this
  · have : vals ((rows.zip (lift ls)).map Prod.snd) = vals (d.examples.map Prod.snd) := by rw [h]
    rwa [List.map_snd_zip (by simp [lift_length, hl]), DataSet.examples, List.map_snd_zip (by simp [hd, lift_length, hw]), hd, vals_lift, vals_lift] at this

theorem steep3_clear (k : ℚ) (q' : Question E)
    (h : varianceReduction 1 steep3.featureRows [[k], [k + 1], [k + 6]] q' = varianceReduction 1 steep3.featureRows [[k], [k + 1], [k + 6]] { column := 0, value := 4 }) :
    DivideAlike steep3.featureRows (satisfies { column := 0, value := 4 }) (satisfies q') := by
  have s1 : satisfies ({ column := 0, value := 4 } : Question E) [1, 5] = false := by decide +kernel
  have s2 : satisfies ({ column := 0, value := 4 } : Question E) [2, 7] = false := by decide +kernel
  have s3 : satisfies ({ column := 0, value := 4 } : Question E) [4, 6] = true := by decide +kernel
  unfold DivideAlike
  simp only [steep3, List.forall_mem_cons, List.not_mem_nil, false_imp_iff, implies_true, and_true, s1, s2, s3] at h ⊢
  cases h1 : satisfies q' [1, 5] <;> cases h2 : satisfies q' [2, 7] <;> cases h3 : satisfies q' [4, 6] <;>
    simp [varianceReduction, yesLabels, noLabels, h1, h2, h3, s1, s2, s3, totalVar, varOf, sqDev, meanOf, target] at h ⊢ <;> (revert h; ring_nf; norm_num)

/-- a tree of one level on data with these rows and labels in these proportions has no tied cuts -/
theorem steep3_noTies {L : Type} {leafOf : DataSet E → L} (k : ℚ) {d : DataSet E} (hd : d = { steep3 with labels := lift [[k], [k + 1], [k + 6]] })
    (hg : ((splitOf d 1).gain ==. F64.zero) = false) (hq : (splitOf d 1).question = { column := 0, value := 4 }) :
    NoTiedCuts d 2 1 (treeOf leafOf 2 1 (0 + 1) d) := by
  rw [treeOf_node hg]
  intro p q hp rows ls hl he q' _ heq
  match p with
  | [] =>
    rw [reaching_nil] at he
    obtain ⟨rfl, rfl⟩ := root_examples hl (by rw [hd]) (by rw [hd]; rfl) he
    have : (splitOf d 1).question = q := Option.some.inj hp
    rw [← this, hq] at heq ⊢
    rw [hd] at heq ⊢
    exact steep3_clear k q' heq
  | true :: p => cases p <;> cases hp
  | false :: p => cases p <;> cases hp

-- the hypotheses of the tree theorems are met
example : steep3.TiesIdentical 2 ∧ steep3turned.TiesIdentical 3 ∧ steep3.TiesAgree 2 ∧ steep3turned.TiesAgree 3 ∧ Describes turned steep3 steep3turned ∧
    SameCuts 2 3 turned steep3.featureRows :=
  ⟨by decide +kernel, by decide +kernel, by decide +kernel, by decide +kernel, ⟨rfl, rfl⟩,
    C113_orders steep3 steep3turned 2 3 1 steep3_wf steep3turned_wf turned ⟨rfl, rfl⟩ steep3_orders⟩
example (tree : TreeNode E (RegressionLeaf E)) (h : regressionTreeNew steep3 (exCfg 1) = .ok tree) : NoTiedCuts steep3 2 1 tree := by
  rw [regressionTreeNew_ok steep3_wf rfl] at h
  cases h
  exact steep3_noTies 0 (by decide +kernel) (by decide +kernel) (by decide +kernel)
-- the questions differ, and yes and no are exchanged
example : (regressionTreeNew steep3 (exCfg 1)).map (fun tree => tree.questionAt []) = .ok (some { column := 0, value := 4 }) ∧
    (regressionTreeNew steep3turned (exCfg 1)).map (fun tree => tree.questionAt []) = .ok (some { column := 0, value := .fin (-2) }) :=
  ⟨by decide +kernel, by decide +kernel⟩

-- and those of the ensemble theorem
example : ∃ m m', regressionTrain steep3 (exCfg 1) 1 (.fin (1 / 2)) = .ok m ∧ regressionTrain steep3turned (exCfg 1) 1 (.fin (1 / 2)) = .ok m' ∧
    ∀ row ∈ steep3.featureRows, regressionPredict m' (turned row) = regressionPredict m row := by
  refine C113_regression_ensemble steep3 steep3turned 2 3 1 steep3_wf steep3turned_wf [[0], [1], [6]] rfl (by decide +kernel) (by decide +kernel) turned
    ⟨rfl, rfl⟩ (C113_orders steep3 steep3turned 2 3 1 steep3_wf steep3turned_wf turned ⟨rfl, rfl⟩ steep3_orders) (exCfg 1) rfl 1 (1 / 2) ?_
  intro k hk m ps tree hm hps htree
  obtain rfl : k = 0 := by omega
  have h0 : ((regressionTrain steep3 (exCfg 1) 0 (.fin (1 / 2))) >>= fun m => steep3.featureRows.mapM (regressionPredict m)) =
      .ok (List.replicate 3 [.fin (7 / 3)]) := by decide +kernel
  rw [hm, R.ok_bind, hps] at h0
  cases h0
  have hl : List.zipWith (List.zipWith F64.sub) steep3.labels (List.replicate 3 [.fin (7 / 3)]) = lift [[-7 / 3], [-7 / 3 + 1], [-7 / 3 + 6]] := by
    decide +kernel
  rw [hl] at htree ⊢
  rw [gradBoostTreeNew_ok (c := 2) (t := 1) ⟨by decide +kernel, by decide +kernel, by decide +kernel, by decide +kernel, by decide +kernel,
    by decide +kernel, by decide +kernel⟩ rfl] at htree
  cases htree
  exact steep3_noTies (-7 / 3) rfl (by decide +kernel) (by decide +kernel)

/-- three examples of two classes -/
def hot3 : DataSet E := { steep3 with labels := lift [[1, 0], [1, 0], [0, 1]] }

/-- the same examples with the features described in the other way -/
def hot3turned : DataSet E := { steep3turned with labels := lift [[1, 0], [1, 0], [0, 1]] }

theorem hot3_wf : hot3.WF 2 2 :=
  ⟨by decide +kernel, by decide +kernel, by decide +kernel, by decide +kernel, by decide +kernel, by decide +kernel, by decide +kernel⟩

theorem hot3turned_wf : hot3turned.WF 3 2 :=
  ⟨by decide +kernel, by decide +kernel, by decide +kernel, by decide +kernel, by decide +kernel, by decide +kernel, by decide +kernel⟩

/-- the residuals of the first iteration -/
def half3 : DataSet E := { steep3 with labels := lift [[1 / 2, -1 / 2], [1 / 2, -1 / 2], [-1 / 2, 1 / 2]] }

theorem half3_wf : half3.WF 2 2 :=
  ⟨by decide +kernel, by decide +kernel, by decide +kernel, by decide +kernel, by decide +kernel, by decide +kernel, by decide +kernel⟩

theorem half3_noTies {L : Type} {leafOf : DataSet E → L} : NoTiedCuts half3 2 2 (treeOf leafOf 2 2 (0 + 1) half3) := by
  have hg : ((splitOf half3 2).gain ==. F64.zero) = false := by decide +kernel
  have hq : (splitOf half3 2).question = { column := 0, value := 4 } := by decide +kernel
  rw [treeOf_node hg]
  intro p q hp rows ls hl he q' _ h
  match p with
  | [] =>
    rw [reaching_nil] at he
    obtain ⟨rfl, rfl⟩ := root_examples (ks := [[1 / 2, -1 / 2], [1 / 2, -1 / 2], [-1 / 2, 1 / 2]]) hl rfl rfl he
    have : (splitOf half3 2).question = q := Option.some.inj hp
    rw [← this, hq] at h ⊢
    have s1 : satisfies ({ column := 0, value := 4 } : Question E) [1, 5] = false := by decide +kernel
    have s2 : satisfies ({ column := 0, value := 4 } : Question E) [2, 7] = false := by decide +kernel
    have s3 : satisfies ({ column := 0, value := 4 } : Question E) [4, 6] = true := by decide +kernel
    unfold DivideAlike
    simp only [half3, steep3, List.forall_mem_cons, List.not_mem_nil, false_imp_iff, implies_true, and_true, s1, s2, s3] at h ⊢
    cases h1 : satisfies q' [1, 5] <;> cases h2 : satisfies q' [2, 7] <;> cases h3 : satisfies q' [4, 6] <;>
      simp [varianceReduction, yesLabels, noLabels, h1, h2, h3, s1, s2, s3, totalVar, varOf, sqDev, meanOf, target, List.range_succ] at h ⊢ <;>
      (revert h; norm_num)
  | true :: p => cases p <;> cases hp
  | false :: p => cases p <;> cases hp

-- the hypotheses of the classification theorems are met
example : ∃ m m', multiClassTrain hot3 (exCfg 2) 1 1 = .ok m ∧ multiClassTrain hot3turned (exCfg 2) 1 1 = .ok m' ∧
    ∀ row ∈ hot3.featureRows, multiClassPredict m' (turned row) = multiClassPredict m row := by
  refine C113_multiClass_ensemble hot3 hot3turned 2 3 2 hot3_wf hot3turned_wf (by decide) (by norm_num) (by decide +kernel) (by decide +kernel)
    (by decide +kernel) turned ⟨rfl, rfl⟩ (C113_orders hot3 hot3turned 2 3 2 hot3_wf hot3turned_wf turned ⟨rfl, rfl⟩ steep3_orders) (exCfg 2) rfl 1 1 ?_
  intro k hk m vs tree hm hvs htree
  obtain rfl : k = 0 := by omega
  have h0 : ((multiClassTrain hot3 (exCfg 2) 0 (.fin 1)) >>= fun m => hot3.featureRows.mapM (fun row => predictInstance row m.trees m.initialGuess
      m.learningRate)) = .ok (List.replicate 3 [.fin (1 / 2), .fin (1 / 2)]) := by decide +kernel
  rw [hm, R.ok_bind, hvs] at h0
  cases h0
  have hl : List.zipWith (fun l v => List.zipWith F64.sub l (calculateProbabilities v)) hot3.labels (List.replicate 3 [.fin (1 / 2), .fin (1 / 2)]) =
      half3.labels := by decide +kernel
  rw [hl] at htree ⊢
  change gradBoostTreeNew half3 (exCfg 2) _ = .ok tree at htree
  rw [gradBoostTreeNew_ok half3_wf rfl] at htree
  cases htree
  exact half3_noTies
example : ∃ m m', amgTrain hot3 (exCfg 2) 1 1 = .ok m ∧ amgTrain hot3turned (exCfg 2) 1 1 = .ok m' ∧
    ∀ row ∈ hot3.featureRows, amgPredict m' (turned row) = amgPredict m row := by
  refine C113_amg_ensemble hot3 hot3turned 2 3 2 hot3_wf hot3turned_wf (by decide) (by norm_num) (by decide +kernel) (by decide +kernel)
    (by decide +kernel) turned ⟨rfl, rfl⟩ (C113_orders hot3 hot3turned 2 3 2 hot3_wf hot3turned_wf turned ⟨rfl, rfl⟩ steep3_orders) (exCfg 2) rfl 1 1 ?_
  intro k hk m vs tree hm hvs htree
  obtain rfl : k = 0 := by omega
  have h0 : ((amgTrain hot3 (exCfg 2) 0 (.fin 1)) >>= fun m => hot3.featureRows.mapM (fun row => amgPredictInstance row m.trees m.initialGuess
      m.learningRate m.initialGuess.length)) = .ok (List.replicate 3 [.fin (1 / 2), .fin (1 / 2)]) := by decide +kernel
  rw [hm, R.ok_bind, hvs] at h0
  cases h0
  have hl : List.zipWith (fun l v => List.zipWith F64.sub l (calculateProbabilities v)) hot3.labels (List.replicate 3 [.fin (1 / 2), .fin (1 / 2)]) =
      half3.labels := by decide +kernel
  rw [hl] at htree ⊢
  change amgTreeNew half3 (exCfg 2) _ = .ok tree at htree
  rw [amgTreeNew_ok half3_wf rfl] at htree
  cases htree
  exact half3_noTies

/-- change the sign of all features -/
def minus (row : List E) : List E := row.map (fun x => F64.zero -. x)

/-- the data set with the signs of all features changed -/
def DataSet.minus (d : DataSet E) : DataSet E :=
  { featureRows := d.featureRows.map Verif.minus, labels := d.labels, featureColumns := d.featureColumns.map Verif.minus }

/-- two rows -/
def gap2 : DataSet E := { featureRows := [[0], [10]], labels := lift [[0], [1]], featureColumns := [[0, 10]] }

/-- **C113** (limit, other rows).  Rows that were not trained on can get other predictions: the threshold is the smallest value above the cut,
which after a change of sign is the value at the other end of the gap.  Trained on the rows 0 and 10, a row with 4 gets the label of the row 0;
with the sign changed, that of the row 10. -/
theorem C113_violated_by_other_rows : gap2.WF 1 1 ∧ gap2.minus.WF 1 1 ∧ Describes minus gap2 gap2.minus ∧ SameOrders 1 1 minus gap2.featureRows ∧
    gap2.TiesIdentical 1 ∧ gap2.minus.TiesIdentical 1 ∧
    ((regressionTrain gap2 (exCfg 1) 1 1) >>= fun m => regressionPredict m [4]) = .ok [0] ∧
    ((regressionTrain gap2.minus (exCfg 1) 1 1) >>= fun m => regressionPredict m (minus [4])) = .ok [1] := by
  refine ⟨⟨by decide +kernel, by decide +kernel, by decide +kernel, by decide +kernel, by decide +kernel, by decide +kernel, by decide +kernel⟩,
    ⟨by decide +kernel, by decide +kernel, by decide +kernel, by decide +kernel, by decide +kernel, by decide +kernel, by decide +kernel⟩, ⟨rfl, rfl⟩, ?_,
    by decide +kernel, by decide +kernel, by decide +kernel, by decide +kernel⟩
  unfold SameOrders SameOrReversed
  decide +kernel

/-- three rows; the first and the last have the same label -/
def hill3 : DataSet E := { featureRows := [[0], [1], [2]], labels := lift [[0], [4], [0]], featureColumns := [[0, 1, 2]] }

/-- **C113** (limit, ties).  If two ways to divide the rows are equally good, the search takes the one with the smaller threshold, so a change
of sign can change even the predictions for training rows. -/
theorem C113_violated_by_tied_cuts : hill3.WF 1 1 ∧ hill3.minus.WF 1 1 ∧ Describes minus hill3 hill3.minus ∧ SameOrders 1 1 minus hill3.featureRows ∧
    hill3.TiesIdentical 1 ∧ hill3.minus.TiesIdentical 1 ∧
    ((regressionTrain hill3 (exCfg 1) 1 1) >>= fun m => hill3.featureRows.mapM (regressionPredict m)) = .ok [[0], [2], [2]] ∧
    ((regressionTrain hill3.minus (exCfg 1) 1 1) >>= fun m => hill3.featureRows.mapM (fun row => regressionPredict m (minus row))) = .ok [[2], [2], [0]] := by
  refine ⟨⟨by decide +kernel, by decide +kernel, by decide +kernel, by decide +kernel, by decide +kernel, by decide +kernel, by decide +kernel⟩,
    ⟨by decide +kernel, by decide +kernel, by decide +kernel, by decide +kernel, by decide +kernel, by decide +kernel, by decide +kernel⟩, ⟨rfl, rfl⟩, ?_,
    by decide +kernel, by decide +kernel, by decide +kernel, by decide +kernel⟩
  unfold SameOrders SameOrReversed
  decide +kernel

end Verif
