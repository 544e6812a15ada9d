import Verif.Lemmas.Mirror
import Verif.Props.PowerScale
import Verif.Props.Mse
/-!
# C87: targets with the opposite sign

In binary64, with all roundings, for all labels (also infinities and NaN).
-/

set_option linter.unusedSectionVars false

namespace Verif

open Sample B64

variable [B64Env]

theorem MirrorLabels.pairs {s : ℕ → Bool} {d d' : DataSet B64} {c t : ℕ} (h : d.WF c t) (hd : MirrorLabels s d d') :
    MiPairs s t (d.labels.zip d'.labels) ∧ d.labels = (d.labels.zip d'.labels).map Prod.fst ∧
      d'.labels = (d.labels.zip d'.labels).map Prod.snd ∧
      d' = { d with labels := (d.labels.zip d'.labels).map Prod.snd } ∧ d'.WF c t := by
  have hlen := hd.labels.length_eq
  have hpair : ∀ z ∈ d.labels.zip d'.labels, MirrorVec s z.1 z.2 ∧ z.1 ∈ d.labels := by
    intro z hz
    obtain ⟨i, hi⟩ := List.getElem?_of_mem hz
    rw [List.getElem?_zip_eq_some] at hi
    obtain ⟨b, h1, h2⟩ := forall₂_get hd.labels hi.1
    rw [hi.2] at h1
    cases h1
    exact ⟨h2, List.mem_of_getElem? hi.1⟩
  have e2 : d' = { d with labels := (d.labels.zip d'.labels).map Prod.snd } := by
    rw [List.map_snd_zip (by omega)]
    obtain ⟨r, l, cc⟩ := d'
    obtain ⟨r', l', cc'⟩ := d
    have := hd.rows
    have := hd.columns
    simp_all
  refine ⟨?_, (List.map_fst_zip (by omega)).symm, (List.map_snd_zip (by omega)).symm, e2, ?_⟩
  · intro z hz
    obtain ⟨h1, h2⟩ := hpair z hz
    exact h1.miVec (h.label_len _ h2)
  · refine ⟨by rw [hd.rows]; exact h.rows_ne, by rw [hd.rows]; exact h.row_len, by rw [hd.rows, ← hlen]; exact h.label_count, ?_,
      by rw [hd.rows, hd.columns]; exact h.cols, by rw [hd.rows]; exact h.no_nan, h.cols_u32⟩
    intro l hl
    obtain ⟨i, hi, rfl⟩ := List.getElem_of_mem hl
    have h1 := hd.labels.get (by omega) hi
    simp only [List.get_eq_getElem] at h1
    rw [h1.1]
    exact h.label_len _ (List.getElem_mem _)

/-- **C87** (split search).  In binary64, give any of the targets the opposite sign, in all labels.  The search reports the same question with a
gain of the same value. -/
theorem C87_split (s : ℕ → Bool) (d d' : DataSet B64) (c t : ℕ) (h : d.WF c t) (hd : MirrorLabels s d d') :
    ∃ b b', findBestSplit d t = .ok b ∧ findBestSplit d' t = .ok b' ∧ b'.question = b.question ∧ b'.gain.val = b.gain.val := by
  obtain ⟨h1, h2, -, h3, h4⟩ := hd.pairs h
  have hs := splitOf_mi h h1 h2
  rw [← h3] at hs
  exact ⟨_, _, findBestSplit_ok h, findBestSplit_ok h4, hs.1, hs.2⟩

/-- **C87** (trees).  In binary64, give any of the targets the opposite sign, in all labels.  All tree learners ask the same question at every
position and send every row the same way; the leaf averages of a regression tree and the leaf vectors of gradient boosting trees have the
opposite sign at exactly these targets, and otherwise the same value. -/
theorem C87_trees (s : ℕ → Bool) (d d' : DataSet B64) (c t : ℕ) (h : d.WF c t) (hd : MirrorLabels s d d') (cfg : TreeConfig)
    (hc : cfg.numberOfClasses = t) :
    (∃ tree tree', regressionTreeNew d cfg = .ok tree ∧ regressionTreeNew d' cfg = .ok tree' ∧
      (∀ p, tree'.questionAt p = tree.questionAt p) ∧ (∀ row, tree'.route row = tree.route row) ∧
      ∀ p leaf, tree.leafAt p = some leaf → ∃ dd dd' avg avg', leaf.data = some dd ∧ tree'.leafAt p = some { data := some dd' } ∧
        dd'.featureRows = dd.featureRows ∧ calculateAverageLabelVector dd.labels = .ok avg ∧ calculateAverageLabelVector dd'.labels = .ok avg' ∧
        MirrorVec s avg avg') ∧
    (∀ o, ∃ tree tree', gradBoostTreeNew d cfg o = .ok tree ∧ gradBoostTreeNew d' cfg o = .ok tree' ∧
      (∀ p, tree'.questionAt p = tree.questionAt p) ∧ (∀ row, tree'.route row = tree.route row) ∧
      ∀ p leaf, tree.leafAt p = some leaf → ∃ v v', leaf.leafOutput = some v ∧ tree'.leafAt p = some { leafOutput := some v' } ∧
        MirrorVec s v v') ∧
    ∀ o, ∃ tree tree', amgTreeNew d cfg o = .ok tree ∧ amgTreeNew d' cfg o = .ok tree' ∧
      (∀ p, tree'.questionAt p = tree.questionAt p) ∧ ∀ row, tree'.route row = tree.route row := by
  obtain ⟨h1, h2, -, h3, h4⟩ := hd.pairs h
  have key : ∀ {L : Type} (leafOf : DataSet B64 → L),
      MiShape c t s leafOf leafOf (treeOf leafOf c t cfg.maxLevels d) (treeOf leafOf c t cfg.maxLevels d') := by
    intro L leafOf
    have := treeOf_mi (leafOf := leafOf) (leafOf' := leafOf) cfg.maxLevels d h _ h1 h2
    rwa [← h3] at this
  refine ⟨⟨_, _, regressionTreeNew_ok h hc, regressionTreeNew_ok h4 hc, (key _).1, (key _).2.1, ?_⟩,
    fun o => ⟨_, _, gradBoostTreeNew_ok h hc o, gradBoostTreeNew_ok h4 hc o, (key _).1, (key _).2.1, ?_⟩,
    fun o => ⟨_, _, amgTreeNew_ok h hc o, amgTreeNew_ok h4 hc o, (key _).1, (key _).2.1⟩⟩
  · intro p leaf hp
    obtain ⟨dd, zs, hw, hz, hls, rfl, hy⟩ := (key regLeaf).2.2 p leaf hp
    have hne : zs.map Prod.snd ≠ [] := by
      have := hw.labels_ne
      rw [hls] at this
      simpa using this
    have hl2 : ∀ l ∈ zs.map Prod.snd, l.length = t := by
      intro l hl
      obtain ⟨z, hz', rfl⟩ := List.mem_map.mp hl
      exact (hz z hz').2.1
    refine ⟨dd, _, _, _, rfl, hy, rfl, ?_, ?_, (leafOut_mi hz .regression).mirrorVec⟩
    · rw [calculateAverageLabelVector_eq, calculateAverageVector_ok hw.labels_ne hw.label_len, hls]
      rfl
    · rw [calculateAverageLabelVector_eq]
      exact calculateAverageVector_ok hne hl2
  · intro p leaf hp
    obtain ⟨dd, zs, hw, hz, hls, rfl, hy⟩ := (key (gradLeaf o t)).2.2 p leaf hp
    refine ⟨_, _, rfl, hy, ?_⟩
    rw [hls]
    exact (leafOut_mi hz o).mirrorVec

/-! ## Ensembles -/

section ensemble
variable {s : ℕ → Bool} {c t : ℕ}

/-- corresponding trees of two ensembles -/
def MiTree (s : ℕ → Bool) (c t : ℕ) (tree tree' : TreeNode B64 (GradBoostLeaf B64)) : Prop :=
  (∀ p, tree'.questionAt p = tree.questionAt p) ∧ (∀ row, tree'.route row = tree.route row) ∧
    ∀ row : List B64, c ≤ row.length → ∃ o o' : List B64, gradOut row tree = .ok o ∧ gradOut row tree' = .ok o' ∧ MiVec s t o o'

theorem rawScore_mi {g g' : List B64} (hg : MiVec s t g g') (lr : B64)
    {trees trees' : List (TreeNode B64 (GradBoostLeaf B64))} (ht : List.Forall₂ (MiTree s c t) trees trees') {row : List B64} (hrow : c ≤ row.length) :
    ∃ p p', rawScore gradOut g lr trees row = .ok p ∧ rawScore gradOut g' lr trees' row = .ok p' ∧ MiVec s t p p' := by
  have houts : ∃ outs outs' : List (List B64),
      trees.mapM (fun tree => do
        let o ← gradOut row tree
        pure (o.map (fun x => lr *. x))) = .ok outs ∧
      trees'.mapM (fun tree => do
        let o ← gradOut row tree
        pure (o.map (fun x => lr *. x))) = .ok outs' ∧
      List.Forall₂ (MiVec s t) outs outs' := by
    induction ht with
    | nil => exact ⟨[], [], rfl, rfl, .nil⟩
    | @cons a b as bs hab _ ih =>
      obtain ⟨outs, outs', i1, i2, i3⟩ := ih
      obtain ⟨o, o', e1, e2, e3⟩ := hab.2.2 row hrow
      refine ⟨o.map (fun x => lr *. x) :: outs, o'.map (fun x => lr *. x) :: outs', ?_, ?_,
        .cons (e3.map (fun j x y ha => by simpa using mirrors_mul (mirrors_refl lr) ha)) i3⟩
      · rw [mapM_cons_R, i1, e1]; rfl
      · rw [mapM_cons_R, i2, e2]; rfl
  obtain ⟨outs, outs', o1, o2, o3⟩ := houts
  have hfold : ∀ (outs outs' : List (List B64)) (g g' : List B64), MiVec s t g g' → List.Forall₂ (MiVec s t) outs outs' →
      MiVec s t (outs.foldl (fun a b => List.zipWith F64.add a b) g) (outs'.foldl (fun a b => List.zipWith F64.add a b) g') := by
    intro outs outs' g g' hg ho
    induction ho generalizing g g' with
    | nil => exact hg
    | cons hoo _ ih => exact ih _ _ (hg.zip hoo (fun _ _ _ _ _ => mirrors_add))
  have hlen1 : ∀ o ∈ outs, o.length = g.length := by
    intro o ho
    obtain ⟨i, hi⟩ := List.getElem?_of_mem ho
    obtain ⟨o', _, h1, _⟩ := forall₂_get o3 hi
    rw [hg.1, h1]
  have hlen2 : ∀ o ∈ outs', o.length = g'.length := by
    intro o ho
    obtain ⟨i, hi⟩ := List.getElem?_of_mem ho
    obtain ⟨o', _, _, h1, _⟩ := forall₂_get o3.flip hi
    rw [hg.2.1, h1]
  refine ⟨_, _, ?_, ?_, hfold outs outs' g g' hg o3⟩
  · rw [rawScore, o1, R.ok_bind, sumLeafOutputs_ok hlen1]
  · rw [rawScore, o2, R.ok_bind, sumLeafOutputs_ok hlen2]

/-- the trees for corresponding residuals -/
theorem residual_tree_mi {d : DataSet B64} (h : d.WF c t) {zs : List (List B64 × List B64)} (hz : MiPairs s t zs)
    (hls : d.labels = zs.map Prod.fst) (m : ℕ) :
    MiTree s c t (treeOf (gradLeaf .regression t) c t m d) (treeOf (gradLeaf .regression t) c t m { d with labels := zs.map Prod.snd }) := by
  have hs := treeOf_mi (leafOf := gradLeaf .regression t) (leafOf' := gradLeaf .regression t) m d h zs hz hls
  refine ⟨hs.1, hs.2.1, fun row hrow => ?_⟩
  obtain ⟨leaf, f1, f2⟩ := TreeNode.find_of_proper (treeOf_proper (leafOf := gradLeaf .regression t) (c := c) (t := t) m d) (row := row)
    (fun p q hq => Nat.lt_of_lt_of_le (treeOf_questions m d h p q hq).1 hrow)
  obtain ⟨leaf', f3, f4⟩ := TreeNode.find_of_proper
    (treeOf_proper (leafOf := gradLeaf .regression t) (c := c) (t := t) m { d with labels := zs.map Prod.snd }) (row := row)
    (fun p q hq => Nat.lt_of_lt_of_le (treeOf_questions m d h p q (by rw [← hs.1]; exact hq)).1 hrow)
  obtain ⟨dd, ys, hw, hy, hl, rfl, e⟩ := hs.2.2 _ _ f2
  rw [hs.2.1, e] at f4
  cases f4
  refine ⟨leafOut .regression t dd.labels, leafOut .regression t (ys.map Prod.snd), by simp only [gradOut, f1, R.ok_bind, gradLeaf, unwrap],
    by simp only [gradOut, f3, R.ok_bind, gradLeaf, unwrap], ?_⟩
  rw [hl]
  exact leafOut_mi hy .regression

/-- **C87** (ensembles).  In binary64, give any of the targets the opposite sign, in all training labels.  Whatever the number of iterations and
the learning rate, all trees of the regression ensemble ask the same questions, and every prediction has the opposite sign at exactly these
targets, and otherwise the same value. -/
theorem C87_ensembles (s : ℕ → Bool) (d d' : DataSet B64) (c t : ℕ) (h : d.WF c t) (hd : MirrorLabels s d d') (cfg : TreeConfig)
    (hc : cfg.numberOfClasses = t) (n : ℕ) (lr : B64) :
    ∃ m m', regressionTrain d cfg n lr = .ok m ∧ regressionTrain d' cfg n lr = .ok m' ∧
      List.Forall₂ (fun tree tree' => (∀ p, TreeNode.questionAt tree' p = TreeNode.questionAt tree p) ∧
        ∀ row, TreeNode.route row tree' = TreeNode.route row tree) m.trees m'.trees ∧
      ∀ row, c ≤ row.length → ∃ p p', regressionPredict m row = .ok p ∧ regressionPredict m' row = .ok p' ∧ MirrorVec s p p' := by
  obtain ⟨h1, h2, h5, h3, h4⟩ := hd.pairs h
  have hrows := hd.rows
  obtain ⟨m, hm, -⟩ := C42_regression d c t h cfg hc n lr
  obtain ⟨m', hm', -⟩ := C42_regression d' c t h4 cfg hc n lr
  obtain ⟨g1, g2, g3⟩ := train_facts h hm
  obtain ⟨g1', g2', g3'⟩ := train_facts h4 hm'
  have hg := leafOut_mi h1 .regression
  simp only [leafOut] at hg
  rw [← h2, ← h5, ← g1, ← g1'] at hg
  have score : ∀ i, List.Forall₂ (MiTree s c t) (m.trees.take i) (m'.trees.take i) → ∀ row : List B64, c ≤ row.length →
      ∃ p p', regressionPredict { m with trees := m.trees.take i } row = .ok p ∧ regressionPredict { m' with trees := m'.trees.take i } row = .ok p' ∧
        MiVec s t p p' := by
    intro i hf row hrow
    simp only [regressionPredict, predictInstance_eq, g2, g2']
    exact rawScore_mi hg lr hf hrow
  have key : ∀ i ≤ n, List.Forall₂ (MiTree s c t) (m.trees.take i) (m'.trees.take i) := by
    intro i
    induction i with
    | zero => intro _; simp
    | succ i ih =>
      intro hi
      have hprev := ih (by omega)
      have hi1 : i < m.trees.length := by omega
      have hi2 : i < m'.trees.length := by omega
      rw [List.take_add_one, List.take_add_one, List.getElem?_eq_getElem hi1, List.getElem?_eq_getElem hi2]
      refine List.rel_append hprev (.cons ?_ .nil)
      obtain ⟨preds, p1, p2, p3⟩ := C33_regression_residual_tree d h.label_count.symm cfg n lr m hm i _ (List.getElem?_eq_getElem hi1)
      obtain ⟨preds', p1', p2', p3'⟩ := C33_regression_residual_tree d' h4.label_count.symm cfg n lr m' hm' i _ (List.getElem?_eq_getElem hi2)
      have hw := residual_wf (g := id) h (fun _ => rfl) p2
      have hw' := residual_wf (g := id) h4 (fun _ => rfl) p2'
      simp only [id] at hw hw'
      rw [gradBoostTreeNew_ok hw hc] at p3
      rw [gradBoostTreeNew_ok hw' hc] at p3'
      rw [← Except.ok.inj p3, ← Except.ok.inj p3']
      rw [hrows] at p1'
      have ln := p2.length_eq
      have ln' := p2'.length_eq
      have lnd := hd.labels.length_eq
      have hlen1 : (List.zipWith (List.zipWith F64.sub) d.labels preds).length = d.labels.length := by rw [List.length_zipWith]; omega
      have hlen2 : (List.zipWith (List.zipWith F64.sub) d'.labels preds').length = d.labels.length := by rw [List.length_zipWith]; omega
      have hz : MiPairs s t ((List.zipWith (List.zipWith F64.sub) d.labels preds).zip (List.zipWith (List.zipWith F64.sub) d'.labels preds')) := by
        intro z hzm
        obtain ⟨e, he⟩ := List.getElem?_of_mem hzm
        rw [List.getElem?_zip_eq_some] at he
        have he1 : e < d.labels.length := by rw [← hlen1]; exact (List.getElem?_eq_some_iff.mp he.1).1
        have lrow : e < d.featureRows.length := by rw [← h.label_count]; exact he1
        obtain ⟨v, q1, q2⟩ := mapM_get p1 (List.getElem?_eq_getElem lrow)
        obtain ⟨v', q1', q2'⟩ := mapM_get p1' (List.getElem?_eq_getElem lrow)
        obtain ⟨w, w', v1, v2, v3⟩ := score i hprev d.featureRows[e] (by rw [h.row_len _ (List.getElem_mem lrow)])
        rw [v1] at q2
        rw [v2] at q2'
        cases q2
        cases q2'
        have ez1 : z.1 = List.zipWith F64.sub (d.labels[e]) v := by
          have := he.1
          rw [List.getElem?_zipWith, List.getElem?_eq_getElem he1, q1] at this
          simpa using this.symm
        have he2 : e < d'.labels.length := by omega
        have ez2 : z.2 = List.zipWith F64.sub (d'.labels[e]) v' := by
          have := he.2
          rw [List.getElem?_zipWith, List.getElem?_eq_getElem he2, q1'] at this
          simpa using this.symm
        have hlab := h1 (d.labels[e], d'.labels[e]) (by
          rw [List.mem_iff_getElem]
          exact ⟨e, by rw [List.length_zip]; omega, by simp⟩)
        rw [ez1, ez2]
        exact MiVec.zip (s'' := s) hlab v3 (fun _ _ _ _ _ => mirrors_sub)
      have hb := residual_tree_mi hw hz
        (List.map_fst_zip (l₁ := List.zipWith (List.zipWith F64.sub) d.labels preds) (by omega)).symm cfg.maxLevels
      rw [List.map_snd_zip (by omega)] at hb
      have hsame : ({ d' with labels := List.zipWith (List.zipWith F64.sub) d'.labels preds' } : DataSet B64) =
          { d with labels := List.zipWith (List.zipWith F64.sub) d'.labels preds' } := by
        rw [hd.rows, hd.columns]
      rw [hsame]
      exact hb
  have hfull := key n le_rfl
  rw [List.take_of_length_le (by omega), List.take_of_length_le (by omega)] at hfull
  refine ⟨m, m', hm, hm', hfull.imp (fun _ _ hs => ⟨hs.1, hs.2.1⟩), fun row hrow => ?_⟩
  obtain ⟨p, p', s1, s2, s3⟩ := score n (key n le_rfl) row hrow
  rw [List.take_of_length_le (by omega)] at s1 s2
  exact ⟨p, p', s1, s2, s3.mirrorVec⟩

end ensemble

/-! ## Scores -/

theorem foldl_add_mi {xs ys : List B64} (h : List.Forall₂ (Mirrors false) xs ys) : ∀ u : B64, ∀ v : B64, Mirrors false u v →
    Mirrors false (xs.foldl F64.add u) (ys.foldl F64.add v) := by
  induction h with
  | nil => intro u v hu; exact hu
  | cons hxy _ ih => intro u v hu; exact ih _ _ (mirrors_add hu hxy)

theorem squaredError_mi {s : ℕ → Bool} {p p' a a' : List B64} (start : B64) (h : MirrorVec s p p') (h' : MirrorVec s a a') :
    Mirrors false (squaredError start p a) (squaredError start p' a') := by
  unfold squaredError
  rw [h.1]
  refine mirrors_div (foldl_add_mi ?_ _ _ (mirrors_refl _)) _
  rw [List.forall₂_iff_get]
  have hl1 := h.1
  have hl2 := h'.1
  refine ⟨by simp [hl1, hl2], ?_⟩
  intro i hi hi'
  simp only [List.length_zipWith] at hi hi'
  simp only [List.get_eq_getElem, List.getElem_zipWith]
  exact mirrors_square (mirrors_sub (h.2 i _ _ (List.getElem?_eq_getElem (by omega)) (List.getElem?_eq_getElem (by omega)))
    (h'.2 i _ _ (List.getElem?_eq_getElem (by omega)) (List.getElem?_eq_getElem (by omega))))

theorem averageError_mi {s : ℕ → Bool} {ps ps' as as' : List (List B64)} (start : B64) (n : ℕ) (h : List.Forall₂ (MirrorVec s) ps ps')
    (h' : List.Forall₂ (MirrorVec s) as as') : Mirrors false (averageError start n ps as) (averageError start n ps' as') := by
  unfold averageError
  refine mirrors_div (foldl_add_mi ?_ _ _ (mirrors_refl _)) _
  induction h generalizing as as' with
  | nil => simp
  | cons hp _ ih =>
    cases h' with
    | nil => simp
    | cons ha h'' => exact .cons (squaredError_mi start hp ha) (ih h'')

/-- **C87** (scores).  Trained and tested with the opposite sign of any of the targets, a regression tree and a regression ensemble have the same
mean squared error as before. -/
theorem C87_scores (s : ℕ → Bool) (d d' test test' : DataSet B64) (c t : ℕ) (h : d.WF c t) (hd : MirrorLabels s d d') (cfg : TreeConfig)
    (hc : cfg.numberOfClasses = t) (hrows : ∀ row ∈ test.featureRows, c ≤ row.length) (ht : MirrorLabels s test test') :
    (∃ tree tree', regressionTreeNew d cfg = .ok tree ∧ regressionTreeNew d' cfg = .ok tree' ∧
      ∀ a, calculateOverallMse test tree = .ok a → ∃ a', calculateOverallMse test' tree' = .ok a' ∧ a'.val = a.val) ∧
    ∀ n lr, ∃ m m', regressionTrain d cfg n lr = .ok m ∧ regressionTrain d' cfg n lr = .ok m' ∧
      ∀ a, regressionScore m test = .ok a → ∃ a', regressionScore m' test' = .ok a' ∧ a'.val = a.val := by
  obtain ⟨-, -, -, -, h4⟩ := hd.pairs h
  have hlen := ht.labels.length_eq
  constructor
  · obtain ⟨⟨tree, tree', t1, t2, -, t4, t5⟩, -, -⟩ := C87_trees s d d' c t h hd cfg hc
    refine ⟨tree, tree', t1, t2, fun a ha => ?_⟩
    rw [C51_tree_score d c t h cfg hc tree t1 test hrows] at ha
    obtain ⟨a1, a2, rfl⟩ := ha
    refine ⟨_, (C51_tree_score d' c t h4 cfg hc tree' t2 test' (by rw [ht.rows]; exact hrows) _).mpr
      ⟨by rw [ht.rows, ← hlen]; exact a1, ?_, rfl⟩, ?_⟩
    · intro l hl
      rw [ht.rows] at hl
      obtain ⟨i, hi, rfl⟩ := List.getElem_of_mem hl
      rw [List.length_take] at hi
      have h1 := ht.labels.get (i := i) (by omega) (by omega)
      simp only [List.get_eq_getElem] at h1
      rw [List.getElem_take, h1.1]
      exact a2 _ (List.mem_take_iff_getElem.mpr ⟨i, by omega, rfl⟩)
    · rw [ht.rows]
      refine averageError_mi (s := s) _ _ ?_ ht.labels
      rw [List.forall₂_map_left_iff, List.forall₂_map_right_iff, List.forall₂_same]
      intro row hrow
      obtain ⟨dd, f1, w1, l1⟩ := lookup_companions d c t h cfg hc tree t1 row (hrows row hrow)
      obtain ⟨dd', f2, w2, l2⟩ := lookup_companions d' c t h4 cfg hc tree' t2 row (hrows row hrow)
      obtain ⟨leaf, f3, at1⟩ := C21_lookup_total d c t h cfg hc tree t1 row (hrows row hrow)
      obtain ⟨leaf', f4, at2⟩ := C21_lookup_total d' c t h4 cfg hc tree' t2 row (hrows row hrow)
      rw [f1] at f3
      rw [f2] at f4
      cases f3
      cases f4
      obtain ⟨e, e', avg, avg', x1, x2, -, x3, x4, x5⟩ := t5 _ _ at1
      cases x1
      rw [t4, x2] at at2
      cases at2
      rw [calculateAverageLabelVector_eq, calculateAverageVector_ok w1.labels_ne w1.label_len, avgVec_range w1.label_len, l1] at x3
      rw [calculateAverageLabelVector_eq, calculateAverageVector_ok w2.labels_ne w2.label_len, avgVec_range w2.label_len, l2] at x4
      cases x3
      cases x4
      exact x5
  · intro n lr
    obtain ⟨m, m', t1, t2, -, t4⟩ := C87_ensembles s d d' c t h hd cfg hc n lr
    refine ⟨m, m', t1, t2, fun a ha => ?_⟩
    rw [C51_ensemble_score] at ha
    obtain ⟨preds, p1, p2, p3, rfl⟩ := ha
    have hp : ∃ preds', test.featureRows.mapM (regressionPredict m') = .ok preds' ∧ List.Forall₂ (MirrorVec s) preds preds' := by
      clear p2 p3
      have : ∀ (rows : List (List B64)) (preds : List (List B64)), (∀ row ∈ rows, c ≤ row.length) → rows.mapM (regressionPredict m) = .ok preds →
          ∃ preds', rows.mapM (regressionPredict m') = .ok preds' ∧ List.Forall₂ (MirrorVec s) preds preds' := by
        intro rows
        induction rows with
        | nil => intro preds _ hp; cases hp; exact ⟨[], rfl, .nil⟩
        | cons row rows ih =>
          intro preds hr hp
          rw [mapM_cons_R, R.bind_eq_ok] at hp
          obtain ⟨p, hp1, hp2⟩ := hp
          rw [R.bind_eq_ok] at hp2
          obtain ⟨ps, hp3, hp4⟩ := hp2
          cases hp4
          obtain ⟨ps', q1, q2⟩ := ih ps (fun r hr' => hr r (by simp [hr'])) hp3
          obtain ⟨w, w', w1, w2, w3⟩ := t4 row (hr row (by simp))
          rw [w1] at hp1
          cases hp1
          exact ⟨w' :: ps', by rw [mapM_cons_R, w2, R.ok_bind, q1]; rfl, .cons w3 q2⟩
      exact this _ _ hrows p1
    obtain ⟨preds', q1, q2⟩ := hp
    refine ⟨_, (C51_ensemble_score m' test' _).mpr ⟨preds', by rw [ht.rows]; exact q1, by rw [← hlen, ← q2.length_eq]; exact p2, ?_, rfl⟩, ?_⟩
    · intro e he
      obtain ⟨i, hi⟩ := List.getElem?_of_mem he
      rw [List.getElem?_zip_eq_some] at hi
      obtain ⟨b, b1, b2⟩ := forall₂_get ht.labels.flip hi.1
      obtain ⟨b', b3, b4⟩ := forall₂_get q2.flip hi.2
      rw [b2.1, b4.1]
      exact p3 (b, b') (List.mem_of_getElem? (i := i) (by rw [List.getElem?_zip_eq_some]; exact ⟨b1, b3⟩))
    · rw [← hlen]
      exact averageError_mi _ _ ht.labels q2

/-! ## Concrete cases -/

-- the hypothesis is met by every data set together with the one whose selected targets are negated
theorem mirrorLabels_flip (s : ℕ → Bool) (d : DataSet B64) :
    MirrorLabels s d { d with labels := d.labels.map (fun l => l.mapIdx (fun j x => if s j then F64.neg x else x)) } := by
  refine ⟨rfl, rfl, ?_⟩
  rw [List.forall₂_map_right_iff, List.forall₂_same]
  intro l _
  refine ⟨by simp, fun j x y hx hy => ?_⟩
  rw [List.getElem?_mapIdx, hx] at hy
  cases hy
  unfold Mirrors
  cases s j
  · rfl
  · exact neg_val x

namespace Sample

/-- two targets; the second with the sign `f` -/
def signed4 (f : ℚ) : DataSet B64 :=
  { featureRows := [[b64 0], [b64 1], [b64 2], [b64 3]]
    labels := [[b64 0.3, b64 (f * 0.7)], [b64 0.1, b64 (f * -0.1)], [b64 (-0.2), b64 (f * 0)], [b64 2, b64 (f * 0.3)]]
    featureColumns := [[b64 0, b64 1, b64 2, b64 3]] }

end Sample

example : ∀ negZero : Bool, let _ := env negZero
    (signed4 1).WF 1 2 := by
  intro negZero
  dsimp only
  refine @DataSet.WF.mk _ (@instF64B64OfB64Env (env negZero)) _ _ _ ?_ ?_ ?_ ?_ ?_ ?_ ?_ <;> revert negZero <;> decide +kernel

-- the predictions of an ensemble of three trees, for the two signs
example : ∀ negZero : Bool, let _ := env negZero
    ((do
      let m ← regressionTrain (signed4 1) { useMultiThreading := false, numberOfClasses := 2, maxLevels := 1 } 3 (b64 0.1)
      let m' ← regressionTrain (signed4 (-1)) { useMultiThreading := false, numberOfClasses := 2, maxLevels := 1 } 3 (b64 0.1)
      let p ← regressionPredict m [b64 1.5]
      let p' ← regressionPredict m' [b64 1.5]
      pure (p'.map B64.val == [(p.map B64.val).getD 0 .nan, Ext.neg ((p.map B64.val).getD 1 .nan)] && (p.map B64.val).getD 1 .nan != .fin 0)) : R Bool) =
    .ok true := by decide +kernel

end Verif
