import Verif.Lemmas.Score
/-!
# The boosting loop

The three loops have the same shape; the lemmas are proved once for that shape.
-/

set_option linter.unusedSectionVars false
set_option linter.unusedSimpArgs false

namespace Verif

variable {F : Type} [F64 F] {L : Type}

/-- one iteration -/
def boostStep (res : TrainingData F → R (List (List F))) (fit : DataSet F → R (TreeNode F L))
    (upd : TrainingData F → TreeNode F L → R (TrainingData F)) (s : TrainingData F × List (TreeNode F L)) :
    R (TrainingData F × List (TreeNode F L)) := do
  let r ← res s.1
  let tree ← fit { s.1.data with labels := r }
  let t ← upd s.1 tree
  pure (t, s.2 ++ [tree])

/-- the loop -/
def boostLoop (res : TrainingData F → R (List (List F))) (fit : DataSet F → R (TreeNode F L))
    (upd : TrainingData F → TreeNode F L → R (TrainingData F)) (n : Nat) (t : TrainingData F) :
    R (TrainingData F × List (TreeNode F L)) :=
  forRange n (fun _ s => boostStep res fit upd s) (t, [])

theorem regressionLoop_eq (t : TrainingData F) (n : Nat) (cfg : TreeConfig) (lr : F) :
    regressionLoop t n cfg lr = boostLoop regressionResiduals (fun d => gradBoostTreeNew d cfg .regression)
      (fun t tree => updateDatasetLabels t tree lr) n t := rfl

theorem multiClassLoop_eq (t : TrainingData F) (n : Nat) (cfg : TreeConfig) (lr : F) :
    multiClassLoop t n cfg lr = boostLoop multiClassResiduals (fun d => gradBoostTreeNew d cfg .multiClassClassification)
      (fun t tree => updateDatasetLabels t tree lr) n t := rfl

theorem amgLoop_eq (t : TrainingData F) (n : Nat) (cfg : TreeConfig) (lr : F) :
    amgLoop t n cfg lr = boostLoop multiClassResiduals (fun d => amgTreeNew d cfg .multiClassClassification)
      (fun t tree => amgUpdateDatasetLabels t tree lr) n t := rfl

section loop
variable {res : TrainingData F → R (List (List F))} {fit : DataSet F → R (TreeNode F L)}
  {upd : TrainingData F → TreeNode F L → R (TrainingData F)}

theorem boostLoop_succ (n : Nat) (t : TrainingData F) :
    boostLoop res fit upd (n + 1) t = (boostLoop res fit upd n t >>= boostStep res fit upd) := by
  simp only [boostLoop, forRange_succ]

theorem boostStep_inv {s s' : TrainingData F × List (TreeNode F L)} (h : boostStep res fit upd s = .ok s') :
    ∃ r tree t, res s.1 = .ok r ∧ fit { s.1.data with labels := r } = .ok tree ∧ upd s.1 tree = .ok t ∧
      s' = (t, s.2 ++ [tree]) := by
  simp only [boostStep, R.bind_eq_ok] at h
  obtain ⟨r, h1, tree, h2, t, h3, h4⟩ := h
  cases h4
  exact ⟨r, tree, t, h1, h2, h3, rfl⟩

theorem boostLoop_length {n : Nat} {t : TrainingData F} {s : TrainingData F × List (TreeNode F L)}
    (h : boostLoop res fit upd n t = .ok s) : s.2.length = n := by
  induction n generalizing s with
  | zero => cases h; rfl
  | succ n ih =>
    rw [boostLoop_succ, R.bind_eq_ok] at h
    obtain ⟨s1, h1, h2⟩ := h
    obtain ⟨_, _, _, _, _, _, rfl⟩ := boostStep_inv h2
    simp [ih h1]

theorem boostLoop_prefix {n m : Nat} (hnm : n ≤ m) {t : TrainingData F} {s : TrainingData F × List (TreeNode F L)}
    (h : boostLoop res fit upd m t = .ok s) : ∃ s', boostLoop res fit upd n t = .ok s' ∧ s'.2 = s.2.take n := by
  induction m generalizing s with
  | zero =>
    have : n = 0 := by omega
    subst this
    exact ⟨s, h, by rw [List.take_of_length_le (by rw [boostLoop_length h])]⟩
  | succ m ih =>
    rcases Nat.lt_or_ge m n with hlt | hge
    · have : n = m + 1 := by omega
      subst this
      exact ⟨s, h, by rw [List.take_of_length_le (by rw [boostLoop_length h])]⟩
    · rw [boostLoop_succ, R.bind_eq_ok] at h
      obtain ⟨s1, h1, h2⟩ := h
      obtain ⟨_, _, _, _, _, _, rfl⟩ := boostStep_inv h2
      obtain ⟨s', h3, h4⟩ := ih hge h1
      refine ⟨s', h3, ?_⟩
      rw [h4, List.take_append_of_le_length (by rw [boostLoop_length h1]; exact hge)]

/-- the `k`-th tree is fitted to the residuals of the state after `k` iterations -/
theorem boostLoop_tree {n k : Nat} {t : TrainingData F} {s : TrainingData F × List (TreeNode F L)} {tree : TreeNode F L}
    (h : boostLoop res fit upd n t = .ok s) (hk : s.2[k]? = some tree) :
    ∃ s' r, boostLoop res fit upd k t = .ok s' ∧ s'.2 = s.2.take k ∧ res s'.1 = .ok r ∧
      fit { s'.1.data with labels := r } = .ok tree := by
  have hkn : k < n := by
    rw [← boostLoop_length h]; exact (List.getElem?_eq_some_iff.mp hk).1
  obtain ⟨s1, h1, h2⟩ := boostLoop_prefix (n := k + 1) hkn h
  rw [boostLoop_succ, R.bind_eq_ok] at h1
  obtain ⟨s', h3, h4⟩ := h1
  obtain ⟨r, tr, t', h5, h6, h7, rfl⟩ := boostStep_inv h4
  simp only at h2
  have hlen := boostLoop_length h3
  have htr : tr = tree := by
    have : (s.2.take (k + 1))[k]? = some tr := by rw [← h2, List.getElem?_append_right (by omega)]; simp [hlen]
    rw [List.getElem?_take_of_lt (by omega), hk] at this
    exact (Option.some.inj this).symm
  refine ⟨s', r, h3, ?_, h5, htr ▸ h6⟩
  have := congrArg (List.take k) h2
  rw [List.take_append_of_le_length (by omega), List.take_take, List.take_of_length_le (by omega)] at this
  rw [this]; congr 1; omega

end loop

/-! ## raw scores -/

/-- the raw score of a row: initial guess plus weighted leaf vectors -/
def rawScore (out : List F → TreeNode F L → R (List F)) (guess : List F) (lr : F) (trees : List (TreeNode F L)) (row : List F) :
    R (List F) := do
  let outs ← trees.mapM (fun tree => do
    let o ← out row tree
    pure (o.map (fun x => lr *. x)))
  sumLeafOutputs guess outs

/-- leaf vector of a gradient boosting tree -/
def gradOut (row : List F) (tree : TreeNode F (GradBoostLeaf F)) : R (List F) := do
  let leaf ← findLeafNodeForData row tree
  unwrap leaf.leafOutput

/-- leaf vector of an AMG tree with `K` classes -/
def amgOut (K : Nat) (row : List F) (tree : TreeNode F (AMGBoostLeaf F)) : R (List F) := do
  let leaf ← findLeafNodeForData row tree
  constructApproximateLeafOutput leaf K

theorem predictInstance_eq (row : List F) (trees : List (TreeNode F (GradBoostLeaf F))) (guess : List F) (lr : F) :
    predictInstance row trees guess lr = rawScore gradOut guess lr trees row := by
  simp only [predictInstance, rawScore, collectLeafOutputs, gradOut, bind_assoc]

theorem amgPredictInstance_eq (row : List F) (trees : List (TreeNode F (AMGBoostLeaf F))) (guess : List F) (lr : F) (K : Nat) :
    amgPredictInstance row trees guess lr K = rawScore (amgOut K) guess lr trees row := by
  simp only [amgPredictInstance, rawScore, amgCollectLeafOutputs, amgOut, bind_assoc]

theorem addLeaf_ok {s o : List F} (h : s.length = o.length) :
    forRange s.length (fun i sum => do
      let x ← idx o i
      let cur ← idx sum i
      setIdx sum i (cur +. x)) s = .ok (List.zipWith F64.add s o) := by
  rw [forRange_update (g := fun i a => a +. o.getD i F64.zero)]
  · congr 1
    refine mapIdx_zipWith h ?_
    intro i a b _ hb
    simp [List.getD, hb]
  · intro i hi w hw hwi
    have hio : i < o.length := by omega
    have hiw : i < w.length := by omega
    rw [idx_lt hio, idx_lt hiw]
    have : w[i] = s[i] := by
      rw [List.getElem?_eq_getElem hiw, List.getElem?_eq_getElem hi] at hwi
      exact Option.some.inj hwi
    simp only [bind, Except.bind, setIdx_lt hiw, this]
    simp [List.getD, hio]

theorem sumLeafOutputs_snoc {g s o : List F} {outs : List (List F)} (h : sumLeafOutputs g outs = .ok s) (ho : s.length = o.length) :
    sumLeafOutputs g (outs ++ [o]) = .ok (List.zipWith F64.add s o) := by
  simp only [sumLeafOutputs] at h ⊢
  rw [foldlM_append_R, h]
  simp only [bind, Except.bind, List.foldlM_cons, List.foldlM_nil]
  have := addLeaf_ok ho
  simp only [bind, Except.bind] at this
  rw [this]; rfl

theorem rawScore_nil {out : List F → TreeNode F L → R (List F)} {g : List F} {lr : F} {row : List F} :
    rawScore out g lr [] row = .ok g := rfl

theorem rawScore_snoc {out : List F → TreeNode F L → R (List F)} {g s o : List F} {lr : F} {trees : List (TreeNode F L)}
    {tree : TreeNode F L} {row : List F} (h : rawScore out g lr trees row = .ok s) (ho : out row tree = .ok o)
    (hl : s.length = o.length) :
    rawScore out g lr (trees ++ [tree]) row = .ok (List.zipWith F64.add s (o.map (fun x => lr *. x))) := by
  simp only [rawScore, R.bind_eq_ok] at h
  obtain ⟨outs, h1, h2⟩ := h
  simp only [rawScore]
  rw [mapM_append_R, h1]
  simp only [List.mapM_cons, List.mapM_nil, ho, bind, Except.bind, pure, Except.pure]
  exact sumLeafOutputs_snoc h2 (by simp [hl])

/-- the update adds the weighted leaf vector of each row to its label -/
def UpdateAdds (upd : TrainingData F → TreeNode F L → R (TrainingData F)) (out : List F → TreeNode F L → R (List F))
    (lr : F) (K : Nat) : Prop :=
  ∀ t tree t', t.mutableLabels.length = t.size → (∀ v ∈ t.mutableLabels, v.length = K) → upd t tree = .ok t' →
    t'.data = t.data ∧ t'.size = t.size ∧ t'.mutableLabels.length = t.size ∧
    ∀ i, i < t.size → ∃ row o cur, t.data.featureRows[i]? = some row ∧ out row tree = .ok o ∧ t.mutableLabels[i]? = some cur ∧
      o.length = K ∧ t'.mutableLabels[i]? = some (List.zipWith F64.add cur (o.map (fun x => lr *. x)))

/-- generic: a loop that replaces entry `i` in step `i` -/
theorem update_loop_inv {t t' : TrainingData F} {new : Nat → List F → List F → Prop}
    {body : Nat → TrainingData F → R (TrainingData F)}
    (hbody : ∀ i (s s' : TrainingData F), i < t.size → s.data = t.data → body i s = .ok s' →
      ∃ cur v, s.mutableLabels[i]? = some cur ∧ new i cur v ∧
        s' = { s with mutableLabels := s.mutableLabels.set i v })
    (h : forRange t.size body t = .ok t') :
    t'.data = t.data ∧ t'.size = t.size ∧ t'.mutableLabels.length = t.mutableLabels.length ∧
    ∀ i, i < t.size → ∃ cur v, t.mutableLabels[i]? = some cur ∧ new i cur v ∧ t'.mutableLabels[i]? = some v := by
  have := forRange_inv (P := fun k (s : TrainingData F) => s.data = t.data ∧ s.size = t.size ∧
      s.mutableLabels.length = t.mutableLabels.length ∧
      (∀ i, i < k → ∃ cur v, t.mutableLabels[i]? = some cur ∧ new i cur v ∧ s.mutableLabels[i]? = some v) ∧
      ∀ i, k ≤ i → s.mutableLabels[i]? = t.mutableLabels[i]?) (by simp) h ?_
  · obtain ⟨h1, h2, h3, h4, _⟩ := this
    exact ⟨h1, h2, h3, h4⟩
  · intro k s s' hk ⟨h1, h2, h3, h4, h5⟩ hb
    obtain ⟨cur, v, hcur, hnew, rfl⟩ := hbody k s s' hk h1 hb
    have hkl : k < s.mutableLabels.length := (List.getElem?_eq_some_iff.mp hcur).1
    refine ⟨h1, h2, by simpa using h3, ?_, ?_⟩
    · intro i hi
      rcases Nat.lt_or_ge i k with hlt | hge
      · obtain ⟨c', v', ha, hb, hc⟩ := h4 i hlt
        exact ⟨c', v', ha, hb, by rw [List.getElem?_set_ne (by omega)]; exact hc⟩
      · have : i = k := by omega
        subst this
        exact ⟨cur, v, by rw [← h5 i (Nat.le_refl _)]; exact hcur, hnew, by simp [hkl]⟩
    · intro i hi
      rw [List.getElem?_set_ne (by omega)]
      exact h5 i (by omega)

theorem grad_updateAdds (lr : F) (K : Nat) :
    UpdateAdds (fun t tree => updateDatasetLabels t tree lr) gradOut lr K := by
  intro t tree t' hlen hK h
  have := update_loop_inv (new := fun i cur v => ∃ row o, t.data.featureRows[i]? = some row ∧ gradOut row tree = .ok o ∧
    cur.length = o.length ∧ v = List.zipWith F64.add cur (o.map (fun x => lr *. x))) (fun i s s' hi hs hb => ?_) h
  · obtain ⟨h1, h2, h3, h4⟩ := this
    refine ⟨h1, h2, by omega, fun i hi => ?_⟩
    obtain ⟨cur, v, h5, ⟨row, o, h6, h7, h8, rfl⟩, h9⟩ := h4 i hi
    exact ⟨row, o, cur, h6, h7, h5, by rw [← h8]; exact hK _ (List.mem_of_getElem? h5), h9⟩
  · simp only [R.bind_eq_ok] at hb
    obtain ⟨row, hrow, leaf, hleaf, o, ho, cur, hcur, new, hnew, ml, hml, hb⟩ := hb
    cases hb
    rw [idx_eq_ok] at hrow hcur
    rw [setIdx_eq_ok] at hml
    simp only [addSlices, R.bind_eq_ok] at hnew
    obtain ⟨_, ha, hz⟩ := hnew
    rw [assertEq_eq_ok] at ha
    cases hz
    refine ⟨cur, _, hcur, ⟨row, o, hs ▸ hrow, ?_, by simpa using ha, rfl⟩, by rw [hml.2]⟩
    simp [gradOut, hleaf, ho, bind, Except.bind]

theorem updateAmgLabel_ok {cur : List F} {K : Nat} {w1 w2 : F} {k : Nat} {v : List F} (hcur : cur.length = K)
    (h : updateAmgLabel cur K w1 w2 k = .ok v) :
    k < K ∧ v = List.zipWith F64.add cur ((List.replicate K w2).set k w1) := by
  simp only [updateAmgLabel, R.bind_eq_ok] at h
  obtain ⟨x, hx, c1, hc1, h⟩ := h
  rw [idx_eq_ok] at hx
  rw [setIdx_eq_ok] at hc1
  obtain ⟨hk, rfl⟩ := hc1
  refine ⟨hcur ▸ hk, ?_⟩
  have hxk : x = cur[k] := by
    rw [List.getElem?_eq_getElem hk] at hx
    exact (Option.some.inj hx).symm
  have hloop := forRange_update (v := cur.set k (x +. w1)) (g := fun j a => if j ≠ k then a +. w2 else a)
    (body := fun j currentLabel => do
      if j ≠ k then
        let cur ← idx currentLabel j
        setIdx currentLabel j (cur +. w2)
      else pure currentLabel) (fun i hi w hw hwi => by
        have hiw : i < w.length := by omega
        have hv : w[i] = (cur.set k (x +. w1))[i] := by
          rw [List.getElem?_eq_getElem hiw, List.getElem?_eq_getElem hi] at hwi
          exact Option.some.inj hwi
        by_cases hik : i ≠ k
        · simp only [hik, ne_eq, not_false_eq_true, if_true, ite_true]
          rw [idx_lt hiw, ← hv]
          simp only [bind, Except.bind, setIdx_lt hiw]
        · simp only [hik, if_false]
          rw [← hv]; simp [pure, Except.pure])
  rw [List.length_set, hcur] at hloop
  rw [hloop] at h
  cases h
  apply List.ext_getElem (by simp [hcur])
  intro i h1 h2
  simp only [List.getElem_mapIdx, List.getElem_zipWith]
  by_cases hik : i = k
  · subst hik
    simp [hxk]
  · simp [hik, Ne.symm hik, List.getElem_set]

theorem amg_updateAdds (lr : F) (K : Nat) :
    UpdateAdds (fun t tree => amgUpdateDatasetLabels t tree lr) (amgOut K) lr K := by
  intro t tree t' hlen hK h
  simp only [amgUpdateDatasetLabels, R.bind_eq_ok] at h
  obtain ⟨l0, hl0, h⟩ := h
  rw [idx_eq_ok] at hl0
  have hl0K : l0.length = K := hK _ (List.mem_of_getElem? hl0)
  rw [hl0K] at h
  -- the labels keep their length along the loop: strengthen the invariant
  have := update_loop_inv (new := fun i cur v => cur.length = K → ∃ row o, t.data.featureRows[i]? = some row ∧
    amgOut K row tree = .ok o ∧ o.length = K ∧ v = List.zipWith F64.add cur (o.map (fun x => lr *. x))) (fun i s s' hi hs hb => ?_) h
  · obtain ⟨h1, h2, h3, h4⟩ := this
    refine ⟨h1, h2, by omega, fun i hi => ?_⟩
    obtain ⟨cur, v, h5, h6, h9⟩ := h4 i hi
    obtain ⟨row, o, h10, h7, h8, rfl⟩ := h6 (hK _ (List.mem_of_getElem? h5))
    exact ⟨row, o, cur, h10, h7, h5, h8, h9⟩
  · simp only [R.bind_eq_ok] at hb
    obtain ⟨row, hrow, w, hw, cur, hcur, new, hnew, ml, hml, hb⟩ := hb
    cases hb
    rw [idx_eq_ok] at hrow hcur
    rw [setIdx_eq_ok] at hml
    refine ⟨cur, new, hcur, fun hcK => ?_, by rw [hml.2]⟩
    obtain ⟨hk, rfl⟩ := updateAmgLabel_ok hcK hnew
    simp only [getWeightedAmgLeafValues, R.bind_eq_ok, R.pure_eq] at hw
    obtain ⟨leaf, hleaf, mv, hmv, ci, hci, hw⟩ := hw
    cases hw
    refine ⟨row, (List.replicate K (calculateApproximateValue mv (F64.ofNat K))).set ci mv, hs ▸ hrow, ?_, by simp, ?_⟩
    · simp [amgOut, hleaf, constructApproximateLeafOutput, hmv, hci, bind, Except.bind, setIdx_lt, hk]
    · simp [List.map_set]

/-- state of the loop: labels are the raw scores of the trees so far -/
structure Tracks (out : List F → TreeNode F L → R (List F)) (d : DataSet F) (guess : List F) (lr : F)
    (s : TrainingData F × List (TreeNode F L)) : Prop where
  data : s.1.data = d
  size : s.1.size = d.labels.length
  len : s.1.mutableLabels.length = d.labels.length
  width : ∀ v ∈ s.1.mutableLabels, v.length = guess.length
  score : ∀ (i : Nat) (row cur : List F), d.featureRows[i]? = some row → s.1.mutableLabels[i]? = some cur →
    rawScore out guess lr s.2 row = .ok cur

theorem tracks_step {res : TrainingData F → R (List (List F))} {fit : DataSet F → R (TreeNode F L)}
    {upd : TrainingData F → TreeNode F L → R (TrainingData F)} {out : List F → TreeNode F L → R (List F)} {d : DataSet F}
    {guess : List F} {lr : F} (hu : UpdateAdds upd out lr guess.length) {s s' : TrainingData F × List (TreeNode F L)}
    (hs : Tracks out d guess lr s) (h : boostStep res fit upd s = .ok s') : Tracks out d guess lr s' := by
  obtain ⟨r, tree, t, _, _, h3, rfl⟩ := boostStep_inv h
  obtain ⟨h4, h5, h6, h7⟩ := hu s.1 tree t (by rw [hs.len, hs.size]) hs.width h3
  have hnew : ∀ (i : Nat) (v : List F), t.mutableLabels[i]? = some v → ∃ row o cur, d.featureRows[i]? = some row ∧ out row tree = .ok o ∧
      s.1.mutableLabels[i]? = some cur ∧ o.length = guess.length ∧ v = List.zipWith F64.add cur (o.map (fun x => lr *. x)) := by
    intro i v hv
    have hi : i < s.1.size := by rw [← h6]; exact (List.getElem?_eq_some_iff.mp hv).1
    obtain ⟨row, o, cur, ha, hb, hc, he, hf⟩ := h7 i hi
    rw [hf] at hv
    exact ⟨row, o, cur, hs.data ▸ ha, hb, hc, he, (Option.some.inj hv).symm⟩
  refine ⟨h4.trans hs.data, h5.trans hs.size, by simp only [h6, hs.size], ?_, ?_⟩
  · intro v hv
    obtain ⟨i, hi⟩ := List.mem_iff_getElem?.mp hv
    obtain ⟨row, o, cur, _, _, hc, he, rfl⟩ := hnew i v hi
    simp [he, hs.width cur (List.mem_of_getElem? hc)]
  · intro i row v hrow hv
    obtain ⟨row', o, cur, ha, hb, hc, he, rfl⟩ := hnew i v hv
    rw [hrow] at ha
    cases ha
    refine rawScore_snoc (hs.score i row cur hrow hc) hb ?_
    rw [he, hs.width cur (List.mem_of_getElem? hc)]

theorem tracks_loop {res : TrainingData F → R (List (List F))} {fit : DataSet F → R (TreeNode F L)}
    {upd : TrainingData F → TreeNode F L → R (TrainingData F)} {out : List F → TreeNode F L → R (List F)} {d : DataSet F}
    {guess : List F} {lr : F} (hu : UpdateAdds upd out lr guess.length) {t : TrainingData F} {n : Nat}
    {s : TrainingData F × List (TreeNode F L)} (h0 : Tracks out d guess lr (t, []))
    (h : boostLoop res fit upd n t = .ok s) : Tracks out d guess lr s :=
  forRange_inv (P := fun _ s => Tracks out d guess lr s) h0 h (fun _ _ _ _ hs hb => tracks_step hu hs hb)

theorem updateLabelsWithInitialGuess_ok (labels : List (List F)) (g : List F) :
    updateLabelsWithInitialGuess labels g = .ok (List.replicate labels.length g) := by
  rw [updateLabelsWithInitialGuess, forRange_update (g := fun _ _ => g)]
  · congr 1
    apply List.ext_getElem <;> simp
  · intro i hi w hw _
    rw [setIdx_lt (by omega)]

theorem tracks_start {out : List F → TreeNode F L → R (List F)} (d : DataSet F) (g : List F) (lr : F) :
    Tracks out d g lr ({ data := d, mutableLabels := List.replicate d.labels.length g, size := d.labels.length }, []) := by
  refine ⟨rfl, rfl, by simp, by simp, ?_⟩
  intro i row cur _ hcur
  rw [List.getElem?_replicate] at hcur
  split at hcur
  · cases hcur; rfl
  · cases hcur

/-- the starting state of the loop -/
def startState (d : DataSet F) (g : List F) : TrainingData F :=
  { data := d, mutableLabels := List.replicate d.labels.length g, size := d.labels.length }

theorem boostingLoop_inv {d : DataSet F} {cfg : TreeConfig} {n : Nat} {lr : F} {ex : BoostingExecutor F L}
    {final : TrainingData F} {m : BoostModel F L} (h : boostingLoop d cfg n lr ex = .ok (final, m)) :
    determineInitialGuess { data := d, mutableLabels := d.labels, size := d.labels.length } ex.ensembleType = .ok m.initialGuess ∧
    m.learningRate = lr ∧ ex.loopExecutor (startState d m.initialGuess) n cfg lr = .ok (final, m.trees) := by
  simp only [boostingLoop, R.bind_eq_ok, updateLabelsWithInitialGuess_ok] at h
  obtain ⟨g, hg, ml, hml, ⟨f, trees⟩, hl, h⟩ := h
  cases hml
  cases h
  exact ⟨hg, rfl, hl⟩

theorem boostingLoop_mk {d : DataSet F} {cfg : TreeConfig} {n : Nat} {lr : F} {ex : BoostingExecutor F L}
    {final : TrainingData F} {g : List F} {trees : List (TreeNode F L)}
    (hg : determineInitialGuess { data := d, mutableLabels := d.labels, size := d.labels.length } ex.ensembleType = .ok g)
    (hl : ex.loopExecutor (startState d g) n cfg lr = .ok (final, trees)) :
    boostingLoop d cfg n lr ex = .ok (final, { trees := trees, initialGuess := g, learningRate := lr }) := by
  simp only [boostingLoop, updateLabelsWithInitialGuess_ok, hg]
  simp only [bind, Except.bind, startState] at hl ⊢
  rw [hl]; rfl

end Verif
