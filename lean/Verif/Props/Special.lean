import Verif.Lemmas.Special
import Verif.Props.Reject
/-!
# C16: NaN or infinite labels stop splitting
-/

set_option linter.unusedSectionVars false

namespace Verif

variable {F : Type} [F64 F] [LawfulOrder F] [LawfulSign F] [LawfulSpecial F]

open Sample

/-- **C16** (split search).  If some label entry is NaN or infinite, the split finder reports gain zero. -/
theorem C16_no_gain (d : DataSet F) (c t : Nat) (h : d.WF c t) (hn : ∃ l ∈ d.labels, ∃ x ∈ l, nonFinite x = true) :
    ∃ q, findBestSplit d t = .ok { gain := F64.zero, question := q } :=
  ⟨_, by rw [findBestSplit_ok h, splitOf_nonFinite h hn]⟩

/-- **C16** (trees).  If some label entry is NaN or infinite, every tree is a single leaf: the regression tree's leaf holds the whole
data set, and the leaf of the tree on pre-sorted features holds all its labels. -/
theorem C16_single_leaf (d : DataSet F) (c t : Nat) (h : d.WF c t) (hn : ∃ l ∈ d.labels, ∃ x ∈ l, nonFinite x = true)
    (cfg : TreeConfig) (hc : cfg.numberOfClasses = t) :
    (∃ q, regressionTreeNew d cfg = .ok (.mk q none none (some { data := some d }))) ∧
      (∀ k, ∃ q l, gradBoostTreeNew d cfg k = .ok (.mk q none none (some l))) ∧
      (∀ k, ∃ q l, amgTreeNew d cfg k = .ok (.mk q none none (some l))) ∧
      (t < 2 ^ 32 → ∃ s q s', createDatasetWithSortedFeatures d = .ok s ∧
        regressionTreeNewPartitionNew s cfg = .ok (.mk q none none (some { data := some s' })) ∧ s'.labels = d.labels) := by
  refine ⟨⟨_, (regressionTreeNew_ok h hc).trans (congrArg _ (treeOf_nonFinite h hn _))⟩, fun k => ⟨_, _, (gradBoostTreeNew_ok h hc k).trans (congrArg _ (treeOf_nonFinite h hn _))⟩,
    fun k => ⟨_, _, (amgTreeNew_ok h hc k).trans (congrArg _ (treeOf_nonFinite h hn _))⟩, fun ht => ?_⟩
  · obtain ⟨s, treeR, treeS, h1, h2, h3, h4⟩ := C23_builders_agree d c t h ht cfg hc
    rw [regressionTreeNew_ok h hc, treeOf_nonFinite h hn] at h2
    cases h2
    match treeS, h3, h4 with
    | .mk q none none (some { data := some s' }), h3, h4 =>
      refine ⟨s, q, s', h1, h3, ?_⟩
      simp [TreeNode.mapLeaves, regLeaf] at h4
      exact h4.2
    | .mk q none none (some { data := none }), h3, h4 => simp [TreeNode.mapLeaves, regLeaf] at h4
    | .mk q none none none, h3, h4 => simp [TreeNode.mapLeaves] at h4
    | .mk q (some _) none _, h3, h4 => simp [TreeNode.mapLeaves] at h4
    | .mk q (some _) (some _) _, h3, h4 => simp [TreeNode.mapLeaves] at h4
    | .mk q none (some _) _, h3, h4 => simp [TreeNode.mapLeaves] at h4

theorem residual_nonFinite {ls ms : List (List F)} {g : List F → List F} (hg : ∀ v, (g v).length = v.length)
    (h : List.Forall₂ (fun l v : List F => l.length = v.length) ls ms) (hn : ∃ l ∈ ls, ∃ x ∈ l, nonFinite x = true) :
    ∃ l ∈ List.zipWith (fun l v => List.zipWith F64.sub l (g v)) ls ms, ∃ x ∈ l, nonFinite x = true := by
  obtain ⟨l, hl, x, hx, hn⟩ := hn
  obtain ⟨i, hi, rfl⟩ := List.getElem_of_mem hl
  obtain ⟨j, hj, rfl⟩ := List.getElem_of_mem hx
  rw [List.forall₂_iff_get] at h
  have hi' : i < ms.length := h.1 ▸ hi
  have hlen : (ls[i]).length = (g ms[i]).length := by rw [hg]; exact h.2 i hi hi'
  refine ⟨List.zipWith F64.sub ls[i] (g ms[i]), ?_, ls[i][j] -. (g ms[i])[j], ?_, LawfulSpecial.sub_left _ hn⟩
  · rw [List.mem_iff_getElem]
    exact ⟨i, by simp [hi, hi'], by simp⟩
  · rw [List.mem_iff_getElem]
    exact ⟨j, by simp [hj, ← hlen], by simp⟩

theorem residual_wf {d : DataSet F} {c t : Nat} (h : d.WF c t) {ms : List (List F)} {g : List F → List F} (hg : ∀ v, (g v).length = v.length)
    (h2 : List.Forall₂ (fun l v : List F => l.length = v.length) d.labels ms) :
    ({ d with labels := List.zipWith (fun l v => List.zipWith F64.sub l (g v)) d.labels ms } : DataSet F).WF c t :=
  ⟨h.rows_ne, h.row_len, by simp [h.label_count, ← h2.length_eq], (residual_labels h.label_len h.labels_ne hg h2).1, h.cols, h.no_nan,
    h.cols_u32⟩

/-- **C16** (ensembles).  If some training label entry is NaN or infinite, every tree of a trained ensemble is a single leaf: the ensemble's
raw score does not depend on the features. -/
theorem C16_ensembles (d : DataSet F) (c t : Nat) (h : d.WF c t) (hn : ∃ l ∈ d.labels, ∃ x ∈ l, nonFinite x = true)
    (cfg : TreeConfig) (hc : cfg.numberOfClasses = t) (n : Nat) (lr : F) :
    (∀ m, regressionTrain d cfg n lr = .ok m → ∀ tree ∈ m.trees, ∃ q l, tree = .mk q none none (some l)) ∧
      (∀ m, multiClassTrain d cfg n lr = .ok m → ∀ tree ∈ m.trees, ∃ q l, tree = .mk q none none (some l)) ∧
      (∀ m, amgTrain d cfg n lr = .ok m → ∀ tree ∈ m.trees, ∃ q l, tree = .mk q none none (some l)) := by
  have hlen : d.featureRows.length = d.labels.length := h.label_count.symm
  refine ⟨fun m hm tree htree => ?_, fun m hm tree htree => ?_, fun m hm tree htree => ?_⟩ <;> obtain ⟨k, hk⟩ := List.getElem?_of_mem htree
  · obtain ⟨preds, _, h2, h3⟩ := C33_regression_residual_tree d hlen cfg n lr m hm k tree hk
    obtain ⟨q, l, h4⟩ := (C16_single_leaf _ c t (residual_wf (g := id) h (fun _ => rfl) h2)
      (residual_nonFinite (g := id) (fun _ => rfl) h2 hn) cfg hc).2.1 .regression
    exact ⟨q, l, Except.ok.inj (h3.symm.trans h4)⟩
  · obtain ⟨preds, _, h2, h3⟩ := C33_multiClass_residual_tree d hlen cfg n lr m hm k tree hk
    obtain ⟨q, l, h4⟩ := (C16_single_leaf _ c t (residual_wf (g := softmaxOf) h (fun _ => by simp [softmaxOf]) h2)
      (residual_nonFinite (g := softmaxOf) (fun _ => by simp [softmaxOf]) h2 hn) cfg hc).2.1 .multiClassClassification
    exact ⟨q, l, Except.ok.inj (h3.symm.trans h4)⟩
  · obtain ⟨preds, _, h2, h3⟩ := C33_amg_residual_tree d hlen cfg n lr m hm k tree hk
    obtain ⟨q, l, h4⟩ := (C16_single_leaf _ c t (residual_wf (g := softmaxOf) h (fun _ => by simp [softmaxOf]) h2)
      (residual_nonFinite (g := softmaxOf) (fun _ => by simp [softmaxOf]) h2 hn) cfg hc).2.2.1 .multiClassClassification
    exact ⟨q, l, Except.ok.inj (h3.symm.trans h4)⟩

/-- `d4` with one label infinite -/
def d4inf : DataSet E := { d4 with labels := [[0], [1], [.posInf], [6]] }

theorem d4inf_wf : d4inf.WF 2 1 :=
  ⟨by decide +kernel, by decide +kernel, by decide +kernel, by decide +kernel, by decide +kernel, by decide +kernel,
    by decide +kernel⟩

example : d4inf.WF 2 1 ∧ ∃ l ∈ d4inf.labels, ∃ x ∈ l, nonFinite x = true := ⟨d4inf_wf, by decide +kernel⟩
-- training does return on such labels, and with finite labels the same tree has questions
example : ((regressionTrain d4inf { useMultiThreading := true, numberOfClasses := 1, maxLevels := 3 } 2 1).map (fun m => m.trees.length)) = .ok 2 ∧
    ((regressionTreeNew d4inf { useMultiThreading := true, numberOfClasses := 1, maxLevels := 3 }).map TreeNode.questionCount) = .ok 0 ∧
    ((regressionTreeNew d4 { useMultiThreading := true, numberOfClasses := 1, maxLevels := 3 }).map TreeNode.questionCount) = .ok 3 := by
  decide +kernel

end Verif
