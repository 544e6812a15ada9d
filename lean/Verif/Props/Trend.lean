import Verif.Spec.Trend
import Verif.Props.Hull
/-!
# C90: a trend in the training data is a trend of the predictions
-/

set_option linter.unusedSectionVars false

namespace Verif

open Sample

section routes
variable {F : Type} [F64 F] [LawfulOrder F] {L : Type}

/-- Raising one feature leads to the same leaf, or the two ways part at a question about this feature. -/
theorem route_raises {f : Nat} {x y : List F} (h : RaisesOnly f x y) (tree : TreeNode F L) :
    tree.route x = tree.route y ∨ ∃ v, ∀ z : List F,
      (tree.route z = tree.route x → satisfies { column := f, value := v } z = false) ∧
      (tree.route z = tree.route y → satisfies { column := f, value := v } z = true) := by
  match tree with
  | .mk q (some t) (some u) l =>
    have iht := route_raises h t
    have ihu := route_raises h u
    by_cases hq : q.column = f
    · have hmono : satisfies q x = true → satisfies q y = true := by
        obtain ⟨_, a, b, ha, hb, hab⟩ := h
        simp only [satisfies, hq, ha, hb]
        exact fun h => LawfulOrder.le_trans h hab
      cases hx : satisfies q x with
      | true =>
        simp only [TreeNode.route, hx, hmono hx, if_true]
        rcases iht with h1 | ⟨v, h1⟩
        · exact .inl (by rw [h1])
        · refine .inr ⟨v, fun z => ?_⟩
          cases hz : satisfies q z with
          | true => simpa [hz] using h1 z
          | false => simp
      | false =>
        cases hy : satisfies q y with
        | true =>
          refine .inr ⟨q.value, fun z => ?_⟩
          have he : ({ column := f, value := q.value } : Question F) = q := by rw [← hq]
          rw [he]
          cases hz : satisfies q z <;> simp [TreeNode.route, hx, hy, hz]
        | false =>
          simp only [TreeNode.route, hx, hy]
          rcases ihu with h1 | ⟨v, h1⟩
          · exact .inl (by simp [h1])
          · refine .inr ⟨v, fun z => ?_⟩
            cases hz : satisfies q z with
            | false => simpa [hz] using h1 z
            | true => simp
    · have hs : satisfies q x = satisfies q y := by
        simp only [satisfies, h.1 _ hq]
      cases hy : satisfies q y with
      | true =>
        simp only [TreeNode.route, hs, hy, if_true]
        rcases iht with h1 | ⟨v, h1⟩
        · exact .inl (by rw [h1])
        · refine .inr ⟨v, fun z => ?_⟩
          cases hz : satisfies q z with
          | true => simpa [hz] using h1 z
          | false => simp
      | false =>
        simp only [TreeNode.route, hs, hy]
        rcases ihu with h1 | ⟨v, h1⟩
        · exact .inl (by simp [h1])
        · refine .inr ⟨v, fun z => ?_⟩
          cases hz : satisfies q z with
          | false => simpa [hz] using h1 z
          | true => simp
  | .mk _ none none _ => exact .inl rfl
  | .mk _ (some _) none _ => exact .inl rfl
  | .mk _ none (some _) _ => exact .inl rfl

end routes

variable {K : Type} [Field K] [LinearOrder K] [IsStrictOrderedRing K] [FloorSemiring K] [HasExp K]

theorem le_meanOf {xs : List K} (hne : xs ≠ []) {b : K} (h : ∀ x ∈ xs, b ≤ x) : b ≤ meanOf xs := by
  have h0 : (0 : K) < xs.length := by exact_mod_cast List.length_pos_of_ne_nil hne
  rw [meanOf, le_div_iff₀ h0, mul_comm, ← nsmul_eq_mul]
  exact List.card_nsmul_le_sum xs b h

/-- The average of the labels in a leaf follows the trend. -/
theorem mates_follow {L : Type} {tree : TreeNode (Ext K) L} {rows : List (List (Ext K))} {ls : List (List K)} {c t f : Nat} {w : Nat → K}
    (hr : ∀ row ∈ rows, row.length = c) (hn : ∀ row ∈ rows, ∀ x ∈ row, isNaN x = false) (hf : f < c) (hm : Follows rows ls f (weighted t w)) {x y : List (Ext K)} (hxy : RaisesOnly f x y)
    (hx : mates tree (rows.zip ls) x ≠ []) (hy : mates tree (rows.zip ls) y ≠ []) :
    weighted t w (meanVec t (mates tree (rows.zip ls) x)) ≤ weighted t w (meanVec t (mates tree (rows.zip ls) y)) := by
  rcases route_raises hxy tree with h | ⟨v, h⟩
  · simp only [mates, h]
    exact _root_.le_refl _
  · rw [weighted_meanVec, weighted_meanVec]
    apply le_meanOf (by simpa using hy)
    intro b hb
    apply meanOf_le (by simpa using hx)
    intro a ha
    simp only [mates, List.map_map, List.mem_map, List.mem_filter, decide_eq_true_eq, Function.comp] at ha hb
    obtain ⟨e, ⟨he, hre⟩, rfl⟩ := ha
    obtain ⟨e', ⟨he', hre'⟩, rfl⟩ := hb
    have h1 := (h e.1).1 hre
    have h2 := (h e'.1).2 hre'
    have hl := hr e.1 (List.of_mem_zip (show (e.1, e.2) ∈ _ from he)).1
    have hl' := hr e'.1 (List.of_mem_zip (show (e'.1, e'.2) ∈ _ from he')).1
    have ha := List.getElem?_eq_getElem (l := e.1) (show f < e.1.length by omega)
    have hb := List.getElem?_eq_getElem (l := e'.1) (show f < e'.1.length by omega)
    simp only [satisfies, ha, hb] at h1 h2
    refine hm e he e' he' _ _ ha hb ?_
    have hna := nn_of_isNaN_false (hn e.1 (List.of_mem_zip (show (e.1, e.2) ∈ _ from he)).1 _ (List.mem_of_getElem? ha))
    have hnv := (LawfulOrder.le_nan h2).1
    have hav : (e.1[f] <=. v) = true := by
      rcases LawfulOrder.le_total hna hnv with h3 | h3
      · exact h3
      · rw [h1] at h3
        cases h3
    rw [LawfulOrder.lt_iff]
    refine ⟨LawfulOrder.le_trans hav h2, ?_⟩
    cases hc : (e'.1[f] <=. e.1[f]) with
    | false => rfl
    | true =>
      rw [LawfulOrder.le_trans h2 hc] at h1
      cases h1

/-- **C90** (trees).  If a weighted sum of the targets (one target, say, or its negative) never falls in the training data when feature `f`
rises, then raising feature `f` of a row, and nothing else, never lowers the weighted sum of the targets predicted by a regression tree
or put out by a gradient boosting tree: for every depth, and whatever the other features are. -/
theorem C90_tree (d : DataSet (Ext K)) (c t : Nat) (h : d.WF c t) (ls : List (List K)) (hls : d.labels = lift ls) (w : Nat → K) (f : Nat)
    (hf : f < c) (hm : Follows d.featureRows ls f (weighted t w)) (cfg : TreeConfig) (hc : cfg.numberOfClasses = t) :
    (∃ tree, regressionTreeNew d cfg = .ok tree ∧ ∀ x y : List (Ext K), c ≤ x.length → c ≤ y.length → RaisesOnly f x y →
      ∃ leafX leafY dx dy u v, findLeafNodeForData x tree = .ok leafX ∧ leafX.data = some dx ∧ calculateAverageVector dx.labels = .ok (liftV u) ∧
        findLeafNodeForData y tree = .ok leafY ∧ leafY.data = some dy ∧ calculateAverageVector dy.labels = .ok (liftV v) ∧
        weighted t w u ≤ weighted t w v) ∧
    (∃ tree, gradBoostTreeNew d cfg .regression = .ok tree ∧ ∀ x y : List (Ext K), c ≤ x.length → c ≤ y.length → RaisesOnly f x y →
      ∃ leafX leafY u v, findLeafNodeForData x tree = .ok leafX ∧ leafX.leafOutput = some (liftV u) ∧
        findLeafNodeForData y tree = .ok leafY ∧ leafY.leafOutput = some (liftV v) ∧ weighted t w u ≤ weighted t w v) := by
  refine ⟨⟨_, regressionTreeNew_ok h hc, ?_⟩, ⟨_, gradBoostTreeNew_ok h hc _, ?_⟩⟩
  · intro x y hx hy hxy
    obtain ⟨dx, hwx, h1, hex⟩ := tree_lookup (leafOf := regLeaf) cfg.maxLevels h hx
    obtain ⟨dy, hwy, h2, hey⟩ := tree_lookup (leafOf := regLeaf) cfg.maxLevels h hy
    obtain ⟨a1, a2, a3⟩ := mates_ok hls hwx hex
    obtain ⟨b1, b2, b3⟩ := mates_ok hls hwy hey
    refine ⟨_, _, dx, dy, _, _, h1, rfl, ?_, h2, rfl, ?_, mates_follow h.row_len h.no_nan hf hm hxy a2 b2⟩
    · rw [calculateAverageVector_ok hwx.labels_ne hwx.label_len, a1, avgVec_exact a3 a2]
    · rw [calculateAverageVector_ok hwy.labels_ne hwy.label_len, b1, avgVec_exact b3 b2]
  · intro x y hx hy hxy
    obtain ⟨dx, hwx, h1, hex⟩ := tree_lookup (leafOf := gradLeaf .regression t) cfg.maxLevels h hx
    obtain ⟨dy, hwy, h2, hey⟩ := tree_lookup (leafOf := gradLeaf .regression t) cfg.maxLevels h hy
    obtain ⟨a1, a2, a3⟩ := mates_ok hls hwx hex
    obtain ⟨b1, b2, b3⟩ := mates_ok hls hwy hey
    refine ⟨_, _, _, _, h1, ?_, h2, ?_, mates_follow h.row_len h.no_nan hf hm hxy a2 b2⟩
    · simp only [gradLeaf, leafOut]
      rw [a1, avgVec_exact a3 a2]
    · simp only [gradLeaf, leafOut]
      rw [b1, avgVec_exact b3 b2]

/-- **C90** (one iteration).  The same for the predictions of a regression ensemble with at most one tree and a learning rate that is not
negative. -/
theorem C90_one_iteration (d : DataSet (Ext K)) (c t : Nat) (h : d.WF c t) (ls : List (List K)) (hls : d.labels = lift ls) (w : Nat → K)
    (f : Nat) (hf : f < c) (hm : Follows d.featureRows ls f (weighted t w)) (cfg : TreeConfig) (hc : cfg.numberOfClasses = t)
    (n : Nat) (hn : n ≤ 1) (lr : K) (h0 : 0 ≤ lr) :
    ∃ m, regressionTrain d cfg n (.fin lr) = .ok m ∧ ∀ x y : List (Ext K), c ≤ x.length → c ≤ y.length → RaisesOnly f x y →
      ∃ u v, regressionPredict m x = .ok (liftV u) ∧ regressionPredict m y = .ok (liftV v) ∧ weighted t w u ≤ weighted t w v := by
  have hlw := lift_width hls h.label_len
  have hs := regState_start (cfg := cfg) (lr := lr) h hls
  rcases Nat.le_one_iff_eq_zero_or_eq_one.mp hn with rfl | rfl
  · refine ⟨_, regressionTrain_of_loop h hls (n := 0) rfl, ?_⟩
    intro x y hx hy hxy
    exact ⟨meanVec t ls, meanVec t ls, by rw [regressionPredict, predictInstance_eq, rawScore_nil],
      by rw [regressionPredict, predictInstance_eq, rawScore_nil], _root_.le_refl _⟩
  · obtain ⟨s', ps', h3, hs', _⟩ := regState_step h hls hc hs
    have hg : (liftV (meanVec t ls) : List (Ext K)).length = t := by rw [liftV_length, meanVec_length]
    obtain ⟨h4, h5⟩ := regression_step_exact h hls hc hg hs.finite h3
    have hwr := resid_wf h hls hs.finite.len hs.finite.width
    refine ⟨_, regressionTrain_of_loop h hls (n := 1) (by rw [regLoopAt, boostLoop_succ]; exact h3), ?_⟩
    intro x y hx hy hxy
    have hpred : ∀ row : List (Ext K), c ≤ row.length → regressionPredict { trees := s'.2, initialGuess := liftV (meanVec t ls), learningRate := Ext.fin lr } row =
        .ok (liftV ((List.range t).map (fun j => (meanVec t ls).getD j 0 + lr * ((
          [residOut c t cfg.maxLevels d (resid ls (List.replicate ls.length (meanVec t ls))) row]).map (fun o => o.getD j 0)).sum))) := by
      intro row hrow
      rw [regressionPredict, predictInstance_eq, h5, List.nil_append]
      exact rawScore_exact (meanVec_length _ _)
        (.cons ⟨gradOut_regression_exact cfg.maxLevels hwr (ls := resid ls (List.replicate ls.length (meanVec t ls))) rfl hrow, meanVec_length _ _⟩ .nil)
    refine ⟨_, _, hpred x hx, hpred y hy, ?_⟩
    rw [weighted_sum_outs, weighted_sum_outs]
    simp only [List.map_cons, List.map_nil, List.sum_cons, List.sum_nil, add_zero]
    have hfollow : Follows d.featureRows (resid ls (List.replicate ls.length (meanVec t ls))) f (weighted t w) := by
      have hex : ∀ e ∈ d.featureRows.zip (resid ls (List.replicate ls.length (meanVec t ls))), ∃ l, (e.1, l) ∈ d.featureRows.zip ls ∧
          weighted t w e.2 = weighted t w l - weighted t w (meanVec t ls) := by
        intro e he
        obtain ⟨i, hi, rfl⟩ := List.getElem_of_mem he
        simp only [resid, List.length_zip, List.length_zipWith, List.length_replicate] at hi
        refine ⟨ls[i]'(by omega), ?_, ?_⟩
        · rw [List.mem_iff_getElem]
          exact ⟨i, by simp only [List.length_zip]; omega, by simp⟩
        · simp only [resid, List.getElem_zip, List.getElem_zipWith, List.getElem_replicate]
          rw [weighted_sub (hlw _ (List.getElem_mem (by omega))) (meanVec_length _ _)]
      intro e he e' he' a b ha hb hab
      obtain ⟨l, h6, h7⟩ := hex e he
      obtain ⟨l', h8, h9⟩ := hex e' he'
      have := hm _ h6 _ h8 a b ha hb hab
      simp only at this
      rw [h7, h9]
      linarith
    obtain ⟨hx1, _⟩ := residOut_weighted (cfg := cfg) hwr hx
    obtain ⟨hy1, _⟩ := residOut_weighted (cfg := cfg) hwr hy
    have := mates_follow (tree := residTree c t cfg.maxLevels d (resid ls (List.replicate ls.length (meanVec t ls)))) h.row_len h.no_nan hf
      hfollow hxy hx1 hy1
    have := mul_le_mul_of_nonneg_left this h0
    simp only [residOut]
    linarith

/-- five rows whose label rises with the first feature -/
def trend5 : DataSet E :=
  { featureRows := [[0, 0], [1, 0], [2, 2], [3, 0], [4, 1]], labels := [[0], [0], [1], [2], [4]],
    featureColumns := [[0, 1, 2, 3, 4], [0, 0, 2, 0, 1]] }

theorem trend5_wf : trend5.WF 2 1 := by
  constructor <;> decide +kernel

theorem trend5_follows : Follows trend5.featureRows [[0], [0], [1], [2], [(4 : ℚ)]] 0 (weighted 1 (fun _ => 1)) := by
  have key : ∀ e ∈ trend5.featureRows.zip [[0], [0], [1], [2], [(4 : ℚ)]], ∀ e' ∈ trend5.featureRows.zip [[0], [0], [1], [2], [(4 : ℚ)]],
      (e.1.getD 0 0 <. e'.1.getD 0 0) = true → weighted 1 (fun _ => 1) e.2 ≤ weighted 1 (fun _ => 1) e'.2 := by
    decide +kernel
  intro e he e' he' a b ha hb hab
  refine key e he e' he' ?_
  simpa [ha, hb] using hab

example : trend5.labels = lift [[0], [0], [1], [2], [(4 : ℚ)]] := by decide +kernel
example : RaisesOnly 0 ([1, 0] : List E) [2, 0] := by
  refine ⟨fun j hj => ?_, 1, 2, rfl, rfl, by decide +kernel⟩
  match j with
  | 0 => exact absurd rfl hj
  | 1 => rfl
  | j + 2 => rfl
-- the trend of a tree: the first feature decides between the predictions 1/3 and 3
example : (do
    let tree ← gradBoostTreeNew trend5 (exCfg 1) .regression
    let u ← gradOut [1, 0] tree
    let v ← gradOut [3, 0] tree
    pure (u, v)) = .ok ([Ext.fin (1 / 3)], [3]) := by decide +kernel

/-- **C90** fails for longer ensembles: the label never falls when the first feature rises, but after three iterations with learning rate 1
raising this feature from 1 to 2 lowers the prediction from 0 to -10/27. -/
theorem C90_violated_by_ensembles : trend5.WF 2 1 ∧ Follows trend5.featureRows [[0], [0], [1], [2], [(4 : ℚ)]] 0 (weighted 1 (fun _ => 1)) ∧
    (do
      let m ← regressionTrain trend5 (exCfg 1) 3 (.fin 1)
      let u ← regressionPredict m [1, 0]
      let v ← regressionPredict m [2, 0]
      pure (u, v)) = .ok ([Ext.fin 0], [Ext.fin (-10 / 27)]) := by
  refine ⟨trend5_wf, trend5_follows, ?_⟩
  decide +kernel

/-- **C90** fails in binary64: the first target is 0.1 in all four training rows, but raising the feature from 1 to 4 lowers the prediction
for this target, because the average of three labels 0.1 is rounded up. -/
theorem C90_violated_in_binary64 : ∀ negZero : Bool, let _ := env negZero
    let d : DataSet B64 :=
      { featureRows := [[b64 1], [b64 2], [b64 3], [b64 4]],
        labels := [[b64 0.1, b64 0], [b64 0.1, b64 0], [b64 0.1, b64 0], [b64 0.1, b64 1]],
        featureColumns := [[b64 1, b64 2, b64 3, b64 4]] }
    d.WF 1 2 ∧ (do
      let tree ← gradBoostTreeNew d (exCfg 2) .regression
      let u ← gradOut [b64 1] tree
      let v ← gradOut [b64 4] tree
      pure (v.getD 0 F64.zero <. u.getD 0 F64.zero)) = .ok true := by
  intro negZero
  refine ⟨?_, ?_⟩
  · refine @DataSet.WF.mk _ (@instF64B64OfB64Env (env negZero)) _ _ _ ?_ ?_ ?_ ?_ ?_ ?_ ?_ <;> revert negZero <;> decide +kernel
  · revert negZero
    decide +kernel

end Verif
