import Verif.Lemmas.ClearCut
import Verif.Lemmas.ExactTree
import Verif.Props.Print
/-!
# C79: rounding does not change a tree without close calls
-/

set_option linter.unusedSectionVars false

namespace Verif

open B64 Sample

section
variable [B64Env]

/-- **C79**.  If the tree that exact arithmetic builds has no close calls, binary64 builds the same tree: the same questions at the same
positions. -/
theorem C79_same_questions (d : DataSet B64) (c t : ℕ) (h : d.WF c t) (ht1 : 1 ≤ t) (ht2 : t ≤ 2 ^ 24) (ls : List (List ℚ)) (B : ℚ)
    (hls : d.exact.labels = lift ls) (hS : Scale ls.length B) (hB : AtMost B ls) (cfg : TreeConfig) (ht : cfg.numberOfClasses = t)
    (k : LeafOutputType) :
    (∀ tree tree', regressionTreeNew d cfg = .ok tree → regressionTreeNew d.exact cfg = .ok tree' →
      NoCloseCall d c t cfg.maxLevels B tree' → AsksTheSame tree tree') ∧
    (∀ tree tree', gradBoostTreeNew d cfg k = .ok tree → gradBoostTreeNew d.exact cfg k = .ok tree' →
      NoCloseCall d c t cfg.maxLevels B tree' → AsksTheSame tree tree') ∧
    (∀ tree tree', amgTreeNew d cfg k = .ok tree → amgTreeNew d.exact cfg k = .ok tree' →
      NoCloseCall d c t cfg.maxLevels B tree' → AsksTheSame tree tree') := by
  refine ⟨?_, ?_, ?_⟩
  · intro tree tree' h1 h2 hc
    rw [regressionTreeNew_ok h ht] at h1
    rw [regressionTreeNew_ok h.exact ht] at h2
    cases h1
    cases h2
    exact treeOf_clear ht1 ht2 _ d h ls hls hS hB hc
  · intro tree tree' h1 h2 hc
    rw [gradBoostTreeNew_ok h ht] at h1
    rw [gradBoostTreeNew_ok h.exact ht] at h2
    cases h1
    cases h2
    exact treeOf_clear ht1 ht2 _ d h ls hls hS hB hc
  · intro tree tree' h1 h2 hc
    rw [amgTreeNew_ok h ht] at h1
    rw [amgTreeNew_ok h.exact ht] at h2
    cases h1
    cases h2
    exact treeOf_clear ht1 ht2 _ d h ls hls hS hB hc

/-- **C79** for the tree on pre-sorted features. -/
theorem C79_sorted_tree (d : DataSet B64) (c t : ℕ) (h : d.WF c t) (ht1 : 1 ≤ t) (ht2 : t ≤ 2 ^ 24) (ls : List (List ℚ)) (B : ℚ)
    (hls : d.exact.labels = lift ls) (hS : Scale ls.length B) (hB : AtMost B ls) (cfg : TreeConfig) (ht : cfg.numberOfClasses = t)
    (s : SortedDataSet B64) (hs : createDatasetWithSortedFeatures d = .ok s) (tree : TreeNode B64 (RegressionLeafNewPartition B64))
    (hb : regressionTreeNewPartitionNew s cfg = .ok tree) (tree' : TreeNode (Ext ℚ) (RegressionLeaf (Ext ℚ)))
    (hb' : regressionTreeNew d.exact cfg = .ok tree') (hc : NoCloseCall d c t cfg.maxLevels B tree') : AsksTheSame tree tree' := by
  obtain ⟨s', tr, tr', h1, h2, h3, h4⟩ := C23_builders_agree d c t h (by omega) cfg ht
  rw [hs] at h1
  cases h1
  rw [hb] at h3
  cases h3
  have := (C79_same_questions d c t h ht1 ht2 ls B hls hS hB cfg ht .regression).1 tr tree' h2 hb' hc
  intro p
  rw [← this p, ← TreeNode.questionAt_mapLeaves, h4, TreeNode.questionAt_mapLeaves]

/-- **C79**.  Every row takes the same way through both trees, and the two predictions differ by at most `2^-50 * n * B` in every entry,
where `n` is the number of training rows in the leaf. -/
theorem C79_prediction (d : DataSet B64) (c t : ℕ) (h : d.WF c t) (ht1 : 1 ≤ t) (ht2 : t ≤ 2 ^ 24) (ls : List (List ℚ)) (B : ℚ)
    (hls : d.exact.labels = lift ls) (hS : Scale ls.length B) (hB : AtMost B ls) (cfg : TreeConfig) (ht : cfg.numberOfClasses = t)
    (tree : TreeNode B64 (RegressionLeaf B64)) (hb : regressionTreeNew d cfg = .ok tree)
    (tree' : TreeNode (Ext ℚ) (RegressionLeaf (Ext ℚ))) (hb' : regressionTreeNew d.exact cfg = .ok tree')
    (hc : NoCloseCall d c t cfg.maxLevels B tree') (row : List B64) (hrow : c ≤ row.length) :
    tree.route row = tree'.route (row.map B64.val) ∧
    ∃ leaf dd a leaf' dd' b, findLeafNodeForData row tree = .ok leaf ∧ leaf.data = some dd ∧ calculateAverageVector dd.labels = .ok a ∧
      findLeafNodeForData (row.map B64.val) tree' = .ok leaf' ∧ leaf'.data = some dd' ∧ calculateAverageVector dd'.labels = .ok (liftV b) ∧
      a.length = t ∧ b.length = t ∧
      ∀ j < t, ∃ x q, a[j]? = some x ∧ x.val = .fin q ∧ |q - b.getD j 0| ≤ averageTolerance dd.labels.length B := by
  have hsame := (C79_same_questions d c t h ht1 ht2 ls B hls hS hB cfg ht .regression).1 tree tree' hb hb' hc
  have hroute : ∀ r : List B64, tree.route r = tree'.route (r.map B64.val) := by
    intro r
    refine route_of_asks ?_ ?_ hsame r
    · rw [regressionTreeNew_ok h ht] at hb
      cases hb
      exact treeOf_proper _ _
    · rw [regressionTreeNew_ok h.exact ht] at hb'
      cases hb'
      exact treeOf_proper _ _
  refine ⟨hroute row, ?_⟩
  obtain ⟨leaf, hf, hat⟩ := C21_lookup_total d c t h cfg ht tree hb row hrow
  obtain ⟨dd, hdd, hw, hex⟩ := C19_leaf_contents d c t h cfg ht tree hb _ leaf hat
  obtain ⟨leaf', hf', hat'⟩ := C21_lookup_total d.exact c t h.exact cfg ht tree' hb' (row.map B64.val) (by simpa using hrow)
  obtain ⟨dd', hdd', hw', hex'⟩ := C19_leaf_contents d.exact c t h.exact cfg ht tree' hb' _ leaf' hat'
  obtain ⟨ls', hl'⟩ := exact_labels_exist hls (fun e => decide (tree.route e.1 = tree.route row))
  obtain ⟨h1, h2, h3⟩ := exact_labels_sub h hls hB hl'
  have hlab : dd.labels.map (List.map B64.val) = lift ls' := by
    rw [← hl', ← hex, ← examples_snd hw, List.map_map]; rfl
  have hlab' : dd'.labels = lift ls' := by
    rw [← examples_snd hw', hex', exact_examples, List.filter_map, List.map_map, ← hl']
    have : ∀ l : List (List B64 × List B64), l.filter ((fun e : List (Ext ℚ) × List (Ext ℚ) =>
        decide (tree'.route e.1 = tree'.route (row.map B64.val))) ∘ (fun e => (e.1.map B64.val, e.2.map B64.val))) =
        l.filter (fun e => decide (tree.route e.1 = tree.route row)) := by
      intro l
      apply List.filter_congr
      intro e _
      simp only [Function.comp, hroute]
    rw [this]
    rfl
  have hne : ls' ≠ [] := by
    rintro rfl
    exact hw'.labels_ne hlab'
  have hcount : dd.labels.length = ls'.length := by
    have := congrArg List.length hlab
    simpa [lift_length] using this
  obtain ⟨a, ha, hal, hacc⟩ := C62_average_accurate dd.labels t ls' B hlab h2 hne (hS.fewer h3) h1
  refine ⟨leaf, dd, a, leaf', dd', meanVec t ls', hf, hdd, ha, hf', hdd', ?_, hal, by simp [meanVec], ?_⟩
  · rw [calculateAverageVector_ok hw'.labels_ne hw'.label_len, hlab', avgVec_exact h2 hne]
  · intro j hj
    obtain ⟨x, q, k1, k2, k3⟩ := hacc j hj
    refine ⟨x, q, k1, k2, ?_⟩
    rw [hcount, show (meanVec t ls').getD j 0 = meanOf (target ls' j) by simp [meanVec, List.getD, hj]]
    exact k3

end

/-! ## a case that meets the hypotheses, and a close call -/

namespace Sample

/-- the finite part of a number -/
def finPart : Ext ℚ → ℚ
  | .fin x => x
  | _ => 0

/-- a computable check of `NoCloseCall` for concrete trees -/
def clearAt {L : Type} (d : DataSet B64) (c t m : ℕ) (B : ℚ) (tree : TreeNode (Ext ℚ) L) (p : List Bool) : Bool :=
  let R := reaching d.exact tree p
  let ls := R.map (fun e => e.2.map finPart)
  decide (R.map Prod.snd = lift ls) &&
  match tree.questionAt p with
  | some q =>
    (List.range c).all (fun j => (column (R.map Prod.fst) j).all (fun v =>
      !((column (R.map Prod.fst) j).any (fun w => w <. v)) || decide (((column (R.map Prod.fst) j).filter (fun x => x ==. v)).length = 1))) &&
    decide (splitTolerance ls.length t B < varianceReduction t (R.map Prod.fst) ls q) &&
    (List.range c).all (fun j => R.all (fun e =>
      match e.1[j]? with
      | some v => decide ((⟨j, v⟩ : Question (Ext ℚ)) = q) ||
          decide (varianceReduction t (R.map Prod.fst) ls ⟨j, v⟩ + 2 * splitTolerance ls.length t B < varianceReduction t (R.map Prod.fst) ls q)
      | none => true))
  | none => decide (m ≤ p.length) || decide (ls.length = 1) ||
      (let v := (ls.headD []).map Rat.num
       ls.all (fun l => decide (liftV l = ofInts v)) && v.all (fun x => decide (ls.length ≤ 2 ^ 53) && decide (ls.length * x ^ 2 ≤ 2 ^ 53)))

theorem subtree_position {F L : Type} [F64 F] {tree : TreeNode F L} (h : tree.Proper) {p : List Bool} (hp : (tree.subtreeAt p).isSome) :
    p ∈ tree.preorder := by
  induction h generalizing p with
  | leaf q l => cases p <;> simp_all [TreeNode.subtreeAt, TreeNode.preorder]
  | node q a b _ _ iha ihb =>
    match p with
    | [] => simp [TreeNode.preorder]
    | true :: p =>
      have := iha (p := p) (by simpa [TreeNode.subtreeAt] using hp)
      simp [TreeNode.preorder, this]
    | false :: p =>
      have := ihb (p := p) (by simpa [TreeNode.subtreeAt] using hp)
      simp [TreeNode.preorder, this]

theorem clear_of {L : Type} {d : DataSet B64} {c t m : ℕ} {B : ℚ} {tree : TreeNode (Ext ℚ) L} (h : tree.Proper)
    (hc : tree.preorder.all (clearAt d c t m B tree) = true) : NoCloseCall d c t m B tree := by
  intro p hp
  have hp := List.all_eq_true.mp hc p (subtree_position h hp)
  simp only [clearAt, Bool.and_eq_true, decide_eq_true_eq] at hp
  obtain ⟨h1, h2⟩ := hp
  refine ⟨_, h1, ?_, ?_⟩
  · intro q hq
    rw [hq] at h2
    simp only [Bool.and_eq_true, decide_eq_true_eq, List.all_eq_true, List.mem_range, Bool.or_eq_true, Bool.not_eq_true',
      List.any_eq_false] at h2
    obtain ⟨⟨a1, a2⟩, a3⟩ := h2
    refine ⟨?_, a2, ?_⟩
    · intro j hj v hv ⟨w, hw, hwv⟩
      rcases a1 j hj v hv with h0 | h0
      · exact absurd hwv (h0 w hw)
      · exact h0
    · rintro ⟨j, v⟩ hj ⟨e, he, hv⟩ hne
      have := a3 j hj e he
      dsimp only at hv
      rw [hv] at this
      simp only [Bool.or_eq_true, decide_eq_true_eq] at this
      exact this.resolve_left hne
  · intro hq hm
    rw [hq] at h2
    simp only [Bool.and_eq_true, decide_eq_true_eq, List.all_eq_true, Bool.or_eq_true] at h2
    rcases h2 with (h2 | h2) | h2
    · omega
    · exact .inl h2
    · exact .inr ⟨_, h2.1, fun x hx => ⟨(h2.2 x hx).1, by exact_mod_cast (h2.2 x hx).2⟩⟩

/-- five rows, labels that binary64 does not represent exactly, and two equal labels 3 -/
def calm5 : DataSet B64 :=
  { featureRows := [[b64 0], [b64 1], [b64 2], [b64 3], [b64 4]]
    labels := [[b64 0.1], [b64 0.9], [b64 7.3], [b64 3], [b64 3]]
    featureColumns := [[b64 0, b64 1, b64 2, b64 3, b64 4]] }

/-- the exact values of the labels of `calm5` -/
def calm5Labels : List (List ℚ) := calm5.exact.labels.map (List.map finPart)

end Sample

theorem calm5_wf : ∀ negZero : Bool, let _ := env negZero
    calm5.WF 1 1 := by
  intro negZero
  dsimp only
  refine @DataSet.WF.mk _ (@instF64B64OfB64Env (env negZero)) _ _ _ ?_ ?_ ?_ ?_ ?_ ?_ ?_ <;> revert negZero <;> decide +kernel

def calm5Cfg : TreeConfig := { useMultiThreading := false, numberOfClasses := 1, maxLevels := 6 }

theorem calm5_scale : calm5.exact.labels = lift calm5Labels ∧ Scale calm5Labels.length 8 ∧ AtMost 8 calm5Labels := by
  refine ⟨by decide +kernel, ⟨by decide +kernel, ?_, ?_⟩, by unfold AtMost; decide +kernel⟩
  · rw [div_le_iff₀ (by positivity)]
    have : (1 : ℚ) ≤ 2 ^ 400 := one_le_pow₀ (by norm_num)
    calc (1 : ℚ) ≤ 8 * 1 := by norm_num
      _ ≤ 8 * 2 ^ 400 := mul_le_mul_of_nonneg_left this (by norm_num)
  · calc (8 : ℚ) = 2 ^ 3 := by norm_num
      _ ≤ 2 ^ 400 := pow_le_pow_right₀ (by norm_num) (by norm_num)

/-- `calm5` has no close call: its tree asks three questions, one of its leaves holds the two equal labels, and the gains are not
computed exactly. -/
theorem calm5_clear : ∃ tree', regressionTreeNew calm5.exact calm5Cfg = .ok tree' ∧ tree'.questionCount = 3 ∧
    NoCloseCall calm5 1 1 6 8 tree' := by
  have hw : calm5.exact.WF 1 1 := by
    let _ := env false
    exact (calm5_wf false).exact
  have hb : (regressionTreeNew calm5.exact calm5Cfg).map (fun tree =>
      (tree.questionCount, tree.preorder.all (clearAt calm5 1 1 6 8 tree))) = .ok (3, true) := by decide +kernel
  have ht := regressionTreeNew_ok hw (show calm5Cfg.numberOfClasses = 1 from rfl)
  rw [ht] at hb
  have hb := Except.ok.inj hb
  exact ⟨_, ht, (Prod.mk.inj hb).1, clear_of (treeOf_proper _ _) (Prod.mk.inj hb).2⟩

/-- **C79** needs the margin: in `rough4` two features separate the labels in the same way.  Exact arithmetic asks about the first of
them, and binary64 about the second, so the two trees predict different labels for a row with the small value of both features. -/
theorem C79_violated_by_close_call : ∀ negZero : Bool, let _ := env negZero
    (regressionTreeNew rough4 { useMultiThreading := false, numberOfClasses := 1, maxLevels := 1 }).map (fun tree =>
      decide ((tree.questionAt []).map Question.exact = some { column := 1, value := .fin 2 })) = .ok true ∧
    (regressionTreeNew rough4.exact { useMultiThreading := false, numberOfClasses := 1, maxLevels := 1 }).map (fun tree =>
      decide (tree.questionAt [] = some { column := 0, value := .fin 2 })) = .ok true ∧
    (regressionTreeNew rough4 { useMultiThreading := false, numberOfClasses := 1, maxLevels := 1 } >>=
      findLeafNodeForData [b64 0, b64 0.5]).map (fun leaf => leaf.data.map DataSet.labels) = .ok (some [[b64 0.7], [b64 0.9]]) ∧
    (regressionTreeNew rough4.exact { useMultiThreading := false, numberOfClasses := 1, maxLevels := 1 } >>=
      findLeafNodeForData [.fin 0, .fin 0.5]).map (fun leaf => decide (leaf.data.map DataSet.labels = some (lift (rough4Labels.take 2)))) =
      .ok true := by
  decide +kernel

end Verif
