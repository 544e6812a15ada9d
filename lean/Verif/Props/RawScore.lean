import Verif.Props.Boost
import Verif.Spec.RawScore
/-!
# C39: what the raw scores of a row are (any arithmetic)
-/

set_option linter.unusedSectionVars false

namespace Verif

variable {F : Type} [F64 F] {L : Type}

open Sample

theorem rawScore_addUp {out : List F → TreeNode F L → R (List F)} {g : List F} {lr : F} {trees : List (TreeNode F L)} {row : List F}
    {outs : List (List F)} (h : List.Forall₂ (fun tree o => out row tree = .ok o ∧ o.length = g.length) trees outs) :
    rawScore out g lr trees row = .ok (addUp g lr outs) ∧ (addUp g lr outs).length = g.length := by
  have key : ∀ (trees : List (TreeNode F L)) (outs : List (List F)),
      List.Forall₂ (fun tree o => out row tree = .ok o ∧ o.length = g.length) trees.reverse outs.reverse →
      rawScore out g lr trees.reverse row = .ok (addUp g lr outs.reverse) ∧ (addUp g lr outs.reverse).length = g.length := by
    intro trees
    induction trees with
    | nil =>
      intro outs h
      have : outs = [] := by
        have := h.length_eq
        simpa [eq_comm] using this
      subst this
      exact ⟨rfl, rfl⟩
    | cons tree trees ih =>
      intro outs h
      cases outs with
      | nil => have := h.length_eq; simp at this
      | cons o outs =>
        rw [List.reverse_cons, List.reverse_cons] at h ⊢
        have hl : trees.reverse.length = outs.reverse.length := by have := h.length_eq; simp at this; simpa using this
        have h1 : List.Forall₂ (fun tree o => out row tree = .ok o ∧ o.length = g.length) trees.reverse outs.reverse := by
          have := List.forall₂_take trees.reverse.length h
          rwa [List.take_left' rfl, List.take_left' hl.symm] at this
        have h2 : List.Forall₂ (fun tree o => out row tree = .ok o ∧ o.length = g.length) [tree] [o] := by
          have := List.forall₂_drop trees.reverse.length h
          rwa [List.drop_left' rfl, List.drop_left' hl.symm] at this
        obtain ⟨h3, h4⟩ := ih outs h1
        cases h2 with
        | cons h5 _ =>
          rw [rawScore_snoc h3 h5.1 (by rw [h4, h5.2])]
          simp only [addUp, List.foldl_append, List.foldl_cons, List.foldl_nil] at h4 ⊢
          refine ⟨by rw [List.zipWith_map_right], ?_⟩
          rw [List.length_zipWith, h4, h5.2, Nat.min_self]
  have := key trees.reverse outs.reverse (by simpa using h)
  simpa using this

/-- **C39** (raw scores).  The raw scores of the multi-class ensemble, and the predictions of the regression ensemble, are the initial
guess plus the leaf outputs of all trees times the learning rate, added tree by tree. -/
theorem C39_raw_scores (m : BoostModel F (GradBoostLeaf F)) (row : List F) (outs : List (List F))
    (h : List.Forall₂ (fun tree o => ∃ leaf : GradBoostLeaf F, findLeafNodeForData row tree = .ok leaf ∧ leaf.leafOutput = some o ∧
      o.length = m.initialGuess.length) m.trees outs) :
    predictInstance row m.trees m.initialGuess m.learningRate = .ok (addUp m.initialGuess m.learningRate outs) ∧
    regressionPredict m row = .ok (addUp m.initialGuess m.learningRate outs) := by
  have := (rawScore_addUp (out := gradOut) (g := m.initialGuess) (lr := m.learningRate) (row := row) (h.imp (by
    rintro tree o ⟨leaf, h1, h2, h3⟩
    exact ⟨by simp [gradOut, h1, h2, unwrap], h3⟩))).1
  rw [regressionPredict, predictInstance_eq]
  exact ⟨this, this⟩

/-- **C39** (raw scores, AMG).  The same with the outputs that an AMG leaf stands for. -/
theorem C39_amg_raw_scores (m : BoostModel F (AMGBoostLeaf F)) (row : List F) (leaves : List (F × Nat))
    (h : List.Forall₂ (fun tree (e : F × Nat) => ∃ leaf : AMGBoostLeaf F, findLeafNodeForData row tree = .ok leaf ∧
      leaf.maxValue = some e.1 ∧ leaf.cls = some e.2 ∧ e.2 < m.initialGuess.length) m.trees leaves) :
    amgPredictInstance row m.trees m.initialGuess m.learningRate m.initialGuess.length =
      .ok (addUp m.initialGuess m.learningRate (leaves.map (fun e => amgOutput m.initialGuess.length e.1 e.2))) := by
  rw [amgPredictInstance_eq]
  refine (rawScore_addUp ?_).1
  rw [List.forall₂_map_right_iff]
  refine h.imp ?_
  rintro tree ⟨mx, k⟩ ⟨leaf, h1, h2, h3, h4⟩
  refine ⟨?_, by simp [amgOutput]⟩
  simp only [amgOut, h1, constructApproximateLeafOutput, h2, h3, unwrap, R.ok_bind]
  rw [setIdx_lt (by simpa using h4)]
  congr 1
  apply List.ext_getElem (by simp [amgOutput])
  intro j h5 h6
  simp [amgOutput, calculateApproximateValue, List.getElem_set, eq_comm]

-- two trees; the same sum with and without the ensemble
example : (do
    let m ← multiClassTrain d5 (exCfg 3) 2 (.fin (1 / 2))
    let outs ← m.trees.mapM (fun tree => do
      let leaf ← findLeafNodeForData [3, 1] tree
      unwrap leaf.leafOutput)
    pure (decide ((← predictInstance [3, 1] m.trees m.initialGuess m.learningRate) = addUp m.initialGuess m.learningRate outs),
      outs.length, decide (outs.all (fun o => o.any (fun x => x != 0))))) = (.ok (true, 2, true) : R (Bool × Nat × Bool)) := by decide +kernel
example : amgOutput 3 (6 : E) 1 = [.fin (-3), 6, .fin (-3)] := by decide +kernel

end Verif
