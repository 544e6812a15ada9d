import Verif.Lemmas.Boost
import Verif.Lemmas.TreeFacts
/-!
# Boosting on well-formed data never panics
-/

set_option linter.unusedSectionVars false
set_option linter.unusedSimpArgs false

namespace Verif

variable {F : Type} [F64 F] {L : Type}

/-- same rows, other labels -/
theorem DataSet.WF.relabel {d : DataSet F} {c t t' : Nat} (h : d.WF c t) {labels : List (List F)}
    (hl : labels.length = d.labels.length) (ht : ∀ l ∈ labels, l.length = t') : ({ d with labels := labels } : DataSet F).WF c t' :=
  ⟨h.rows_ne, h.row_len, by rw [← h.label_count]; exact hl, ht, h.cols, h.no_nan, h.cols_u32⟩

/-- looking up a row in a tree built on well-formed data -/
theorem tree_lookup [LawfulOrder F] {leafOf : DataSet F → L} {c t : Nat} (m : Nat) {d : DataSet F} (h : d.WF c t) {row : List F}
    (hrow : c ≤ row.length) :
    ∃ dd : DataSet F, dd.WF c t ∧ findLeafNodeForData row (treeOf leafOf c t m d) = .ok (leafOf dd) ∧
      dd.examples = d.examples.filter
        (fun e => decide ((treeOf leafOf c t m d).route e.1 = (treeOf leafOf c t m d).route row)) := by
  obtain ⟨leaf, h1, h2⟩ := TreeNode.find_of_proper (treeOf_proper (leafOf := leafOf) (c := c) (t := t) m d) (row := row)
    (fun p q hq => Nat.lt_of_lt_of_le (treeOf_questions m d h p q hq).1 hrow)
  obtain ⟨dd, rfl, hw, he⟩ := treeOf_leafAt m d h _ _ h2
  exact ⟨dd, hw, h1, he⟩

/-- every leaf vector has `t` entries -/
theorem gradOut_ok [LawfulOrder F] {c t : Nat} (k : LeafOutputType) (m : Nat) {d : DataSet F} (h : d.WF c t) {row : List F}
    (hrow : c ≤ row.length) :
    ∃ dd : DataSet F, dd.WF c t ∧ gradOut row (treeOf (gradLeaf k t) c t m d) = .ok (leafOut k t dd.labels) ∧
      dd.examples = d.examples.filter
        (fun e => decide ((treeOf (gradLeaf k t) c t m d).route e.1 = (treeOf (gradLeaf k t) c t m d).route row)) := by
  obtain ⟨dd, hw, hf, he⟩ := tree_lookup (leafOf := gradLeaf k t) m h hrow
  exact ⟨dd, hw, by simp [gradOut, hf, gradLeaf, unwrap], he⟩

/-- the vector an AMG leaf stands for -/
def amgVec (t : Nat) (v : List F) : List F :=
  (List.replicate t (calculateApproximateValue (findMaxValueAndIndex v).1 (F64.ofNat t))).set (findMaxValueAndIndex v).2
    (findMaxValueAndIndex v).1

theorem amgVec_length (t : Nat) (v : List F) : (amgVec t v).length = t := by simp [amgVec]

theorem amgOut_ok [LawfulOrder F] {c t : Nat} (ht : 0 < t) (k : LeafOutputType) (m : Nat) {d : DataSet F} (h : d.WF c t)
    {row : List F} (hrow : c ≤ row.length) :
    ∃ dd : DataSet F, dd.WF c t ∧
      findLeafNodeForData row (treeOf (amgLeaf k t) c t m d) = .ok (amgLeaf k t dd) ∧
      amgOut t row (treeOf (amgLeaf k t) c t m d) = .ok (amgVec t (leafOut k t dd.labels)) ∧
      (findMaxValueAndIndex (leafOut k t dd.labels)).2 < t ∧
      dd.examples = d.examples.filter
        (fun e => decide ((treeOf (amgLeaf k t) c t m d).route e.1 = (treeOf (amgLeaf k t) c t m d).route row)) := by
  obtain ⟨dd, hw, hf, he⟩ := tree_lookup (leafOf := amgLeaf k t) m h hrow
  have hl := leafOut_length k hw.label_len
  have hlt := findMax_lt (leafOut k t dd.labels) (List.ne_nil_of_length_pos (by omega))
  rw [hl] at hlt
  refine ⟨dd, hw, hf, ?_, hlt, he⟩
  simp [amgOut, hf, amgLeaf, unwrap, constructApproximateLeafOutput, setIdx_lt, hlt, amgVec]

theorem update_loop_total {t : TrainingData F} {K : Nat} {body : Nat → TrainingData F → R (TrainingData F)}
    (hlen : t.mutableLabels.length = t.size) (hK : ∀ v ∈ t.mutableLabels, v.length = K)
    (hbody : ∀ i (s : TrainingData F) cur, i < t.size → s.data = t.data → s.mutableLabels.length = t.size →
      s.mutableLabels[i]? = some cur → cur.length = K →
      ∃ v, v.length = K ∧ body i s = .ok { s with mutableLabels := s.mutableLabels.set i v }) :
    ∃ t', forRange t.size body t = .ok t' := by
  obtain ⟨s', h, _⟩ := forRange_ok (body := body) (n := t.size) (s := t)
    (P := fun _ (s : TrainingData F) => s.data = t.data ∧ s.mutableLabels.length = t.size ∧ ∀ v ∈ s.mutableLabels, v.length = K)
    ⟨rfl, hlen, hK⟩ (by
      intro i s hi ⟨h1, h2, h3⟩
      have hil : i < s.mutableLabels.length := by omega
      obtain ⟨v, hv, hb⟩ := hbody i s s.mutableLabels[i] hi h1 h2 (List.getElem?_eq_getElem hil) (h3 _ (List.getElem_mem _))
      refine ⟨_, hb, h1, by simp [h2], ?_⟩
      intro w hw
      rcases List.mem_or_eq_of_mem_set hw with hw | hw
      · exact h3 w hw
      · exact hw ▸ hv)
  exact ⟨s', h⟩

theorem updateAmgLabel_total {cur : List F} {K k : Nat} {w1 w2 : F} (hcur : cur.length = K) (hk : k < K) :
    ∃ v, updateAmgLabel cur K w1 w2 k = .ok v ∧ v.length = K := by
  subst hcur
  simp only [updateAmgLabel, idx_lt hk, R.ok_bind, setIdx_lt hk]
  obtain ⟨s', h1, h2⟩ := forRange_ok (n := cur.length) (s := cur.set k (cur[k] +. w1))
    (body := fun j currentLabel => do
      if j ≠ k then
        let c ← idx currentLabel j
        setIdx currentLabel j (c +. w2)
      else pure currentLabel)
    (P := fun _ w => w.length = cur.length) (by simp) (by
      intro i s hi hs
      have : i < s.length := by omega
      by_cases hik : i ≠ k
      · exact ⟨s.set i (s[i] +. w2), by simp [hik, idx_lt this, setIdx_lt this], by simp [hs]⟩
      · exact ⟨s, by simp [hik], hs⟩)
  exact ⟨s', h1, h2⟩

theorem calculateProbabilities_length (v : List F) : (calculateProbabilities v).length = v.length := by
  simp [calculateProbabilities, multiplyByScalar]

section
variable [LawfulOrder F]

theorem boostLoop_total {res : TrainingData F → R (List (List F))} {fit : DataSet F → R (TreeNode F L)}
    {upd : TrainingData F → TreeNode F L → R (TrainingData F)} {out : List F → TreeNode F L → R (List F)} {d : DataSet F}
    {guess : List F} {lr : F} (hu : UpdateAdds upd out lr guess.length) {t : TrainingData F} (n : Nat)
    (h0 : Tracks out d guess lr (t, [])) (hstep : ∀ s, Tracks out d guess lr s → ∃ s', boostStep res fit upd s = .ok s') :
    ∃ s, boostLoop res fit upd n t = .ok s := by
  obtain ⟨s', h, _⟩ := forRange_ok (body := fun _ s => boostStep res fit upd s) (n := n) (s := (t, []))
    (P := fun _ s => Tracks out d guess lr s) h0 (by
      intro _ s _ hs
      obtain ⟨s', h⟩ := hstep s hs
      exact ⟨s', h, tracks_step hu hs h⟩)
  exact ⟨s', h⟩

theorem regressionResiduals_ok {d : DataSet F} {c t : Nat} (h : d.WF c t) {out : List F → TreeNode F L → R (List F)} {guess : List F}
    (hg : guess.length = t) {lr : F} {s : TrainingData F × List (TreeNode F L)} (hs : Tracks out d guess lr s) :
    regressionResiduals s.1 = .ok (List.zipWith (List.zipWith F64.sub) d.labels s.1.mutableLabels) := by
  have := mapM_ok (f := fun i => do
    let trueLabel ← idx s.1.data.labels i
    let currentLabel ← idx s.1.mutableLabels i
    subtractSlices trueLabel currentLabel) (l := List.range s.1.size)
    (g := fun i => List.zipWith F64.sub (d.labels.getD i []) (s.1.mutableLabels.getD i [])) (by
    intro i hi
    rw [List.mem_range, hs.size] at hi
    have hi2 : i < s.1.mutableLabels.length := by rw [hs.len]; exact hi
    rw [hs.data, idx_lt hi, R.ok_bind, idx_lt hi2, R.ok_bind, subtractSlices_ok]
    · simp [hi, hi2]
    · rw [h.label_len _ (List.getElem_mem _), hs.width _ (List.getElem_mem _), hg])
  rw [regressionResiduals, this]
  congr 1
  apply List.ext_getElem (by simp [hs.size, hs.len])
  intro i h1 h2
  simp at h1 h2
  simp [h2.1, h2.2]

theorem multiClassResiduals_ok {d : DataSet F} {c t : Nat} (h : d.WF c t) {out : List F → TreeNode F L → R (List F)} {guess : List F}
    (hg : guess.length = t) {lr : F} {s : TrainingData F × List (TreeNode F L)} (hs : Tracks out d guess lr s) :
    multiClassResiduals s.1 = .ok (List.zipWith (fun l v => List.zipWith F64.sub l (calculateProbabilities v)) d.labels s.1.mutableLabels) := by
  have := mapM_ok (f := fun i => do
    let trueLabel ← idx s.1.data.labels i
    let currentLabel ← idx s.1.mutableLabels i
    subtractSlices trueLabel (calculateProbabilities currentLabel)) (l := List.range s.1.size)
    (g := fun i => List.zipWith F64.sub (d.labels.getD i []) (calculateProbabilities (s.1.mutableLabels.getD i []))) (by
    intro i hi
    rw [List.mem_range, hs.size] at hi
    have hi2 : i < s.1.mutableLabels.length := by rw [hs.len]; exact hi
    rw [hs.data, idx_lt hi, R.ok_bind, idx_lt hi2, R.ok_bind, subtractSlices_ok]
    · simp [hi, hi2]
    · rw [calculateProbabilities_length, h.label_len _ (List.getElem_mem _), hs.width _ (List.getElem_mem _), hg])
  rw [multiClassResiduals, this]
  congr 1
  apply List.ext_getElem (by simp [hs.size, hs.len])
  intro i h1 h2
  simp at h1 h2
  simp [h2.1, h2.2]

theorem residuals_wf {d : DataSet F} {c t : Nat} (h : d.WF c t) {f : List F → List F → List F} {ml : List (List F)}
    (hlen : ml.length = d.labels.length) (hf : ∀ l v, l ∈ d.labels → v ∈ ml → (f l v).length = t) :
    ({ d with labels := List.zipWith f d.labels ml } : DataSet F).WF c t := by
  refine h.relabel (by simp [hlen]) ?_
  intro l hl
  obtain ⟨i, hi, rfl⟩ := List.getElem_of_mem hl
  rw [List.getElem_zipWith]
  exact hf _ _ (List.getElem_mem _) (List.getElem_mem _)

theorem grad_update_total {d d' : DataSet F} {c t : Nat} (h : d.WF c t) (h' : d'.WF c t) {guess : List F} (hg : guess.length = t) {lr : F}
    {s : TrainingData F × List (TreeNode F (GradBoostLeaf F))} (hs : Tracks gradOut d guess lr s) (k : LeafOutputType) (m : Nat) :
    ∃ t', updateDatasetLabels s.1 (treeOf (gradLeaf k t) c t m d') lr = .ok t' := by
  refine update_loop_total (K := t) (by rw [hs.len, hs.size]) (fun v hv => (hs.width v hv).trans hg) ?_
  intro i u cur hi hu hul hcur hcurK
  have hir : i < d.featureRows.length := by rw [← h.label_count, ← hs.size]; exact hi
  have hirow : u.data.featureRows[i]? = some d.featureRows[i] := by rw [hu, hs.data, List.getElem?_eq_getElem hir]
  obtain ⟨dd, hw, ho, _⟩ := gradOut_ok k m h' (row := d.featureRows[i]) (by rw [h.row_len _ (List.getElem_mem _)])
  simp only [gradOut, R.bind_eq_ok] at ho
  obtain ⟨leaf, h1, h2⟩ := ho
  have hl : (leafOut k t dd.labels).length = t := leafOut_length k hw.label_len
  refine ⟨List.zipWith F64.add cur ((leafOut k t dd.labels).map (fun x => lr *. x)), by simp [hcurK, hl], ?_⟩
  rw [idx_some hirow, R.ok_bind, h1, R.ok_bind, h2, R.ok_bind, idx_some hcur, R.ok_bind, addSlices_ok (by simp [hcurK, hl]),
    R.ok_bind, setIdx_lt (by omega)]
  rfl

theorem amg_update_total {d d' : DataSet F} {c t : Nat} (ht : 0 < t) (h : d.WF c t) (h' : d'.WF c t) {guess : List F}
    (hg : guess.length = t) {lr : F}
    {s : TrainingData F × List (TreeNode F (AMGBoostLeaf F))} (hs : Tracks (amgOut t) d guess lr s) (k : LeafOutputType) (m : Nat) :
    ∃ t', amgUpdateDatasetLabels s.1 (treeOf (amgLeaf k t) c t m d') lr = .ok t' := by
  have hpos : 0 < s.1.mutableLabels.length := by
    rw [hs.len]; exact List.length_pos_of_ne_nil h.labels_ne
  have h0 : (s.1.mutableLabels[0]).length = t := (hs.width _ (List.getElem_mem _)).trans hg
  simp only [amgUpdateDatasetLabels, idx_lt hpos, R.ok_bind, h0]
  refine update_loop_total (K := t) (by rw [hs.len, hs.size]) (fun v hv => (hs.width v hv).trans hg) ?_
  intro i u cur hi hu hul hcur hcurK
  have hir : i < d.featureRows.length := by rw [← h.label_count, ← hs.size]; exact hi
  have hirow : u.data.featureRows[i]? = some d.featureRows[i] := by rw [hu, hs.data, List.getElem?_eq_getElem hir]
  obtain ⟨dd, hw, hf, _, hlt, _⟩ := amgOut_ok ht k m h' (row := d.featureRows[i]) (by rw [h.row_len _ (List.getElem_mem _)])
  obtain ⟨v, hv, hvl⟩ := updateAmgLabel_total (w1 := lr *. (findMaxValueAndIndex (leafOut k t dd.labels)).1)
    (w2 := lr *. calculateApproximateValue (findMaxValueAndIndex (leafOut k t dd.labels)).1 (F64.ofNat t)) hcurK hlt
  refine ⟨v, hvl, ?_⟩
  rw [idx_some hirow, R.ok_bind]
  simp only [getWeightedAmgLeafValues, hf, amgLeaf, unwrap, R.ok_bind, R.pure_eq, idx_some hcur, hv]
  rw [setIdx_lt (by omega)]
  rfl

/-! ## the three steps -/

theorem regression_step {d : DataSet F} {c t : Nat} (h : d.WF c t) {cfg : TreeConfig} (hc : cfg.numberOfClasses = t) {guess : List F}
    (hg : guess.length = t) {lr : F} (s : TrainingData F × List (TreeNode F (GradBoostLeaf F))) (hs : Tracks gradOut d guess lr s) :
    ∃ s', boostStep regressionResiduals (fun d => gradBoostTreeNew d cfg .regression)
      (fun t tree => updateDatasetLabels t tree lr) s = .ok s' := by
  have hw : ({ d with labels := List.zipWith (List.zipWith F64.sub) d.labels s.1.mutableLabels } : DataSet F).WF c t :=
    residuals_wf h hs.len (fun l v hl hv => by simp [h.label_len l hl, hs.width v hv, hg])
  obtain ⟨t', ht'⟩ := grad_update_total h hw hg hs .regression cfg.maxLevels
  apply Exists.intro
  simp only [boostStep]
  rw [regressionResiduals_ok h hg hs, R.ok_bind, hs.data, gradBoostTreeNew_ok hw hc, R.ok_bind, ht']
  rfl

theorem multiClass_step {d : DataSet F} {c t : Nat} (h : d.WF c t) {cfg : TreeConfig} (hc : cfg.numberOfClasses = t) {guess : List F}
    (hg : guess.length = t) {lr : F} (s : TrainingData F × List (TreeNode F (GradBoostLeaf F))) (hs : Tracks gradOut d guess lr s) :
    ∃ s', boostStep multiClassResiduals (fun d => gradBoostTreeNew d cfg .multiClassClassification)
      (fun t tree => updateDatasetLabels t tree lr) s = .ok s' := by
  have hw : ({ d with labels := List.zipWith (fun l v => List.zipWith F64.sub l (calculateProbabilities v)) d.labels s.1.mutableLabels } :
      DataSet F).WF c t :=
    residuals_wf h hs.len (fun l v hl hv => by simp [h.label_len l hl, hs.width v hv, hg, calculateProbabilities_length])
  obtain ⟨t', ht'⟩ := grad_update_total h hw hg hs .multiClassClassification cfg.maxLevels
  apply Exists.intro
  simp only [boostStep]
  rw [multiClassResiduals_ok h hg hs, R.ok_bind, hs.data, gradBoostTreeNew_ok hw hc, R.ok_bind, ht']
  rfl

theorem amg_step {d : DataSet F} {c t : Nat} (h : d.WF c t) (ht : 0 < t) {cfg : TreeConfig} (hc : cfg.numberOfClasses = t) {guess : List F}
    (hg : guess.length = t) {lr : F} (s : TrainingData F × List (TreeNode F (AMGBoostLeaf F))) (hs : Tracks (amgOut t) d guess lr s) :
    ∃ s', boostStep multiClassResiduals (fun d => amgTreeNew d cfg .multiClassClassification)
      (fun t tree => amgUpdateDatasetLabels t tree lr) s = .ok s' := by
  have hw : ({ d with labels := List.zipWith (fun l v => List.zipWith F64.sub l (calculateProbabilities v)) d.labels s.1.mutableLabels } :
      DataSet F).WF c t :=
    residuals_wf h hs.len (fun l v hl hv => by simp [h.label_len l hl, hs.width v hv, hg, calculateProbabilities_length])
  obtain ⟨t', ht'⟩ := amg_update_total ht h hw hg hs .multiClassClassification cfg.maxLevels
  apply Exists.intro
  simp only [boostStep]
  rw [multiClassResiduals_ok h hg hs, R.ok_bind, hs.data, amgTreeNew_ok hw hc, R.ok_bind, ht']
  rfl

end

/-! ## initial guesses -/

theorem determineInitialGuess_regression {d : DataSet F} {c t : Nat} (h : d.WF c t) {s : Nat} :
    determineInitialGuess { data := d, mutableLabels := d.labels, size := s } .regressionBoost = .ok (avgVec t d.labels) := by
  have hpos : 0 < d.labels.length := List.length_pos_of_ne_nil h.labels_ne
  simp only [determineInitialGuess, idx_lt hpos, R.ok_bind]
  exact calculateAverageVector_ok h.labels_ne h.label_len

theorem determineInitialGuess_class [LawfulCount F] {d : DataSet F} {c t : Nat} (h : d.WF c t) (ht : t ≤ 2 ^ 53) {s : Nat}
    {ty : BoostingEnsembleType} (hty : ty ≠ .regressionBoost) :
    determineInitialGuess { data := d, mutableLabels := d.labels, size := s } ty = .ok (List.replicate t (F64.one /. F64.ofNat t)) := by
  have hpos : 0 < d.labels.length := List.length_pos_of_ne_nil h.labels_ne
  have h0 : (d.labels[0]).length = t := h.label_len _ (List.getElem_mem _)
  simp only [determineInitialGuess, idx_lt hpos, R.ok_bind, h0, LawfulCount.toUsize_ofNat ht]
  cases ty <;> simp_all

/-! ## prediction -/

theorem sumLeafOutputs_ok {g : List F} {outs : List (List F)} (h : ∀ o ∈ outs, o.length = g.length) :
    sumLeafOutputs g outs = .ok (outs.foldl (fun a b => List.zipWith F64.add a b) g) := by
  induction outs using List.reverseRecOn with
  | nil => rfl
  | append_singleton l x ih =>
    rw [sumLeafOutputs_snoc (ih (fun o ho => h o (by simp [ho]))), List.foldl_append]
    · rfl
    · rw [foldl_zipWith_length (t := g.length) (fun o ho => h o (by simp [ho])) rfl, h x (by simp)]

theorem rawScore_total {out : List F → TreeNode F L → R (List F)} {g : List F} {lr : F} {trees : List (TreeNode F L)} {row : List F}
    (h : ∀ tree ∈ trees, ∃ o, out row tree = .ok o ∧ o.length = g.length) :
    ∃ s, rawScore out g lr trees row = .ok s ∧ s.length = g.length := by
  have hm : ∃ outs, trees.mapM (fun tree => do
      let o ← out row tree
      pure (o.map (fun x => lr *. x))) = .ok outs ∧ ∀ o ∈ outs, o.length = g.length := by
    induction trees with
    | nil => exact ⟨[], rfl, by simp⟩
    | cons tree trees ih =>
      obtain ⟨outs, h1, h2⟩ := ih (fun x hx => h x (by simp [hx]))
      obtain ⟨o, h3, h4⟩ := h tree (by simp)
      refine ⟨o.map (fun x => lr *. x) :: outs, ?_, ?_⟩
      · rw [mapM_cons_R, h3, h1]; rfl
      · intro x hx
        rcases List.mem_cons.mp hx with rfl | hx
        · simpa using h4
        · exact h2 x hx
  obtain ⟨outs, h1, h2⟩ := hm
  refine ⟨_, by rw [rawScore, h1, R.ok_bind]; exact sumLeafOutputs_ok h2, ?_⟩
  exact foldl_zipWith_length h2 rfl

end Verif
