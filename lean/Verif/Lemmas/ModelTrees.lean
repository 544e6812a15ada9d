import Verif.Props.Boost
import Verif.Spec.Greedy
/-! # The trees of a trained ensemble -/

set_option linter.unusedSectionVars false

namespace Verif

variable {F : Type} [F64 F] [LawfulOrder F]

theorem residual_labels_wf {d : DataSet F} {c t : Nat} (h : d.WF c t) {f : List F → List F} (hf : ∀ v, (f v).length = v.length)
    {preds : List (List F)} (hp : List.Forall₂ (fun l v => l.length = v.length) d.labels preds) :
    ({ d with labels := List.zipWith (fun l v => List.zipWith F64.sub l (f v)) d.labels preds } : DataSet F).WF c t := by
  refine h.relabel (by simp [hp.length_eq]) ?_
  intro l hl
  obtain ⟨i, hi, rfl⟩ := List.getElem_of_mem hl
  rw [List.getElem_zipWith, List.length_zipWith, hf]
  have h1 : i < d.labels.length := by simp at hi; omega
  have h2 : i < preds.length := by simp at hi; omega
  have := List.Forall₂.get hp h1 h2
  have h3 := h.label_len _ (List.getElem_mem h1)
  simp only [List.get_eq_getElem] at this
  omega

theorem regression_trees_of {d : DataSet F} {c t : Nat} (h : d.WF c t) {cfg : TreeConfig} (hc : cfg.numberOfClasses = t) {n : Nat} {lr : F}
    {m : BoostModel F (GradBoostLeaf F)} (hm : regressionTrain d cfg n lr = .ok m) :
    ∀ tree ∈ m.trees, ∃ r, ({ d with labels := r } : DataSet F).WF c t ∧
      tree = treeOf (gradLeaf .regression t) c t cfg.maxLevels { d with labels := r } := by
  intro tree htree
  obtain ⟨k, hk⟩ := List.getElem?_of_mem htree
  obtain ⟨preds, _, h2, h3⟩ := C33_regression_residual_tree d h.label_count.symm cfg n lr m hm k tree hk
  have hw := residual_labels_wf h (f := id) (fun _ => rfl) h2
  simp only [id] at hw
  rw [gradBoostTreeNew_ok hw hc] at h3
  exact ⟨_, hw, (Except.ok.inj h3).symm⟩

theorem softmaxOf_length (v : List F) : (softmaxOf v).length = v.length := by simp [softmaxOf]

theorem multiClass_trees_of {d : DataSet F} {c t : Nat} (h : d.WF c t) {cfg : TreeConfig} (hc : cfg.numberOfClasses = t) {n : Nat} {lr : F}
    {m : BoostModel F (GradBoostLeaf F)} (hm : multiClassTrain d cfg n lr = .ok m) :
    ∀ tree ∈ m.trees, ∃ r, ({ d with labels := r } : DataSet F).WF c t ∧
      tree = treeOf (gradLeaf .multiClassClassification t) c t cfg.maxLevels { d with labels := r } := by
  intro tree htree
  obtain ⟨k, hk⟩ := List.getElem?_of_mem htree
  obtain ⟨preds, _, h2, h3⟩ := C33_multiClass_residual_tree d h.label_count.symm cfg n lr m hm k tree hk
  have hw := residual_labels_wf h (f := softmaxOf) softmaxOf_length h2
  rw [gradBoostTreeNew_ok hw hc] at h3
  exact ⟨_, hw, (Except.ok.inj h3).symm⟩

theorem amg_trees_of {d : DataSet F} {c t : Nat} (h : d.WF c t) {cfg : TreeConfig} (hc : cfg.numberOfClasses = t) {n : Nat} {lr : F}
    {m : BoostModel F (AMGBoostLeaf F)} (hm : amgTrain d cfg n lr = .ok m) :
    ∀ tree ∈ m.trees, ∃ r, ({ d with labels := r } : DataSet F).WF c t ∧
      tree = treeOf (amgLeaf .multiClassClassification t) c t cfg.maxLevels { d with labels := r } := by
  intro tree htree
  obtain ⟨k, hk⟩ := List.getElem?_of_mem htree
  obtain ⟨preds, _, h2, h3⟩ := C33_amg_residual_tree d h.label_count.symm cfg n lr m hm k tree hk
  have hw := residual_labels_wf h (f := softmaxOf) softmaxOf_length h2
  rw [amgTreeNew_ok hw hc] at h3
  exact ⟨_, hw, (Except.ok.inj h3).symm⟩

end Verif
