import Verif.Lemmas.Accuracy
import Verif.Props.Score
import Verif.Props.Rounding
import Verif.Props.FullFit
import Verif.Lemmas.ExactClass
/-!
# C81: training accuracy of a classification tree
-/

set_option linter.unusedSectionVars false

namespace Verif

open Sample

section
variable {F : Type} [F64 F] [LawfulOrder F] [LawfulCount F] [LawfulShare F]

/-- the training accuracy exists and is the share of a rule that is constant on the leaves and the majority there -/
theorem training_accuracy (d : DataSet F) (c t : Nat) (h : d.WF c t) (ht0 : 0 < t) (ht1 : t ≤ 2 ^ 53) (hn : d.featureRows.length < 2 ^ 32)
    (cfg : TreeConfig) (hc : cfg.numberOfClasses = t) (tree : TreeNode F (RegressionLeaf F)) (hb : regressionTreeNew d cfg = .ok tree) :
    ∃ f : List F → Nat, (∀ row, c ≤ row.length → FirstMajority (companions d tree row) t (f row) ∧ predictClass row tree = .ok (oneHot t (f row))) ∧
      calculateAccuracy d tree = .ok (F64.ofNat (rightCount d t f) /. F64.ofNat d.featureRows.length) := by
  have hk := C27_first_majority d c t h ht0 ht1 hn cfg hc tree hb
  choose! f hf using hk
  refine ⟨f, hf, ?_⟩
  rw [C28_tree_accuracy d tree _ (by omega)]
  refine ⟨d.featureRows.map (fun row => oneHot t (f row)), ?_, by rw [h.label_count], ?_⟩
  · rw [mapM_eq_ok, List.forall₂_map_right_iff, List.forall₂_same]
    intro row hrow
    exact (hf row (by rw [h.row_len row hrow])).2
  · rw [matchCount, rightCount, DataSet.examples, List.zip_map_left, List.countP_map]
    rfl

theorem rightCount_le (d : DataSet F) (t : Nat) (g : List F → Nat) : rightCount d t g ≤ d.featureRows.length := by
  refine Nat.le_trans List.countP_le_length ?_
  simp only [DataSet.examples, List.length_zip]
  omega

/-- **C81** (best rule).  On one-hot labels, the training accuracy of a tree is at least that of every rule that gives the same class to
training rows of the same leaf, whatever the rounding. -/
theorem C81_best_rule (d : DataSet F) (c t : Nat) (h : d.WF c t) (hot : ∀ l ∈ d.labels, ∃ k < t, l = oneHot t k) (ht1 : t ≤ 2 ^ 53)
    (hn : d.featureRows.length < 2 ^ 32) (cfg : TreeConfig) (hc : cfg.numberOfClasses = t) (tree : TreeNode F (RegressionLeaf F))
    (hb : regressionTreeNew d cfg = .ok tree) (g : List F → Nat) (hgt : ∀ row ∈ d.featureRows, g row < t)
    (hg : ∀ row ∈ d.featureRows, ∀ row' ∈ d.featureRows, tree.route row = tree.route row' → g row = g row') :
    ∃ a, calculateAccuracy d tree = .ok a ∧ ((F64.ofNat (rightCount d t g) /. F64.ofNat d.featureRows.length) <=. a) = true := by
  have ht0 : 0 < t := by
    obtain ⟨l, hl⟩ := List.exists_mem_of_ne_nil _ h.labels_ne
    obtain ⟨k, hk, _⟩ := hot l hl
    omega
  obtain ⟨f, hf, ha⟩ := training_accuracy d c t h ht0 ht1 hn cfg hc tree hb
  refine ⟨_, ha, LawfulShare.mono (List.length_pos_of_ne_nil h.rows_ne) ?_ (rightCount_le d t f) (by omega)⟩
  have hrow : ∀ e ∈ d.examples, e.1 ∈ d.featureRows := fun e he => examples_fst_mem he
  have hlen : ∀ e ∈ d.examples, c ≤ e.1.length := fun e he => by rw [h.row_len _ (hrow e he)]
  have hft : ∀ e ∈ d.examples, f e.1 < t := fun e he => (hf e.1 (hlen e he)).1.1
  have hlab : ∀ e ∈ d.examples, ∃ k < t, e.2 = oneHot t k := fun e he => hot _ (examples_snd_mem he)
  -- within one leaf
  have hcount : ∀ (k : Nat), k < t → ∀ e ∈ d.examples, classCount (companions d tree e.1) k =
      d.examples.countP (fun x => decide (tree.route x.1 = tree.route e.1) && vecEq (oneHot t k) x.2) := by
    intro k hk e _
    rw [classCount_eq, companions, List.countP_map, List.countP_filter]
    apply List.countP_congr
    intro x hx
    obtain ⟨j, hj, hxj⟩ := hlab x hx
    simp only [Function.comp, hxj, vecEq_oneHot hj hk]
    rw [Bool.and_comm]
  have hsame : ∀ e ∈ d.examples, ∀ x ∈ d.examples, tree.route x.1 = tree.route e.1 → f x.1 = f e.1 := by
    intro e he x hx hr
    have h1 := (hf x.1 (hlen x hx)).1
    have h2 := (hf e.1 (hlen e he)).1
    have : companions d tree x.1 = companions d tree e.1 := by simp only [companions, hr]
    rw [this] at h1
    exact C27_unique _ _ _ _ h1 h2
  apply countP_le_of_groups (fun e : List F × List F => tree.route e.1)
  intro e he
  have e1 : d.examples.countP (fun x => decide (tree.route x.1 = tree.route e.1) && vecEq (oneHot t (g x.1)) x.2) =
      classCount (companions d tree e.1) (g e.1) := by
    rw [hcount _ (hgt _ (hrow e he)) e he]
    apply List.countP_congr
    intro x hx
    by_cases hr : tree.route x.1 = tree.route e.1
    · rw [hg _ (hrow x hx) _ (hrow e he) hr]
    · simp [hr]
  have e2 : d.examples.countP (fun x => decide (tree.route x.1 = tree.route e.1) && vecEq (oneHot t (f x.1)) x.2) =
      classCount (companions d tree e.1) (f e.1) := by
    rw [hcount _ (hft e he) e he]
    apply List.countP_congr
    intro x hx
    by_cases hr : tree.route x.1 = tree.route e.1
    · rw [hsame e he x hx hr]
    · simp [hr]
  rw [e1, e2]
  exact (hf e.1 (hlen e he)).1.2.1 _ (hgt _ (hrow e he))

/-- **C81** (baseline).  The training accuracy is at least the share of every class: a tree is never worse on its training set than always
predicting the most frequent class. -/
theorem C81_majority (d : DataSet F) (c t : Nat) (h : d.WF c t) (hot : ∀ l ∈ d.labels, ∃ k < t, l = oneHot t k) (ht1 : t ≤ 2 ^ 53)
    (hn : d.featureRows.length < 2 ^ 32) (cfg : TreeConfig) (hc : cfg.numberOfClasses = t) (k : Nat) (hk : k < t) :
    ∃ tree a, regressionTreeNew d cfg = .ok tree ∧ calculateAccuracy d tree = .ok a ∧
      ((F64.ofNat (classCount d.labels k) /. F64.ofNat d.labels.length) <=. a) = true := by
  have hb := regressionTreeNew_ok h hc
  obtain ⟨a, ha, hle⟩ := C81_best_rule d c t h hot ht1 hn cfg hc _ hb (fun _ => k) (fun _ _ => hk) (fun _ _ _ _ _ => rfl)
  refine ⟨_, a, hb, ha, ?_⟩
  have : rightCount d t (fun _ => k) = classCount d.labels k := by
    rw [classCount_eq, ← examples_snd h, List.countP_map, rightCount]
    apply List.countP_congr
    intro x hx
    obtain ⟨j, hj, hxj⟩ := hot _ (examples_snd_mem hx)
    simp only [Function.comp, hxj, vecEq_oneHot hj hk]
  rw [← this, h.label_count]
  exact hle

/-- **C81** (depth).  Raising max_levels never lowers the training accuracy. -/
theorem C81_deeper (d : DataSet F) (c t : Nat) (h : d.WF c t) (hot : ∀ l ∈ d.labels, ∃ k < t, l = oneHot t k) (ht1 : t ≤ 2 ^ 53)
    (hn : d.featureRows.length < 2 ^ 32) (cfg : TreeConfig) (hc : cfg.numberOfClasses = t) (k m : Nat) (hkm : k ≤ m) :
    ∃ small big a b, regressionTreeNew d { cfg with maxLevels := k } = .ok small ∧ regressionTreeNew d { cfg with maxLevels := m } = .ok big ∧
      calculateAccuracy d small = .ok a ∧ calculateAccuracy d big = .ok b ∧ (a <=. b) = true := by
  have ht0 : 0 < t := by
    obtain ⟨l, hl⟩ := List.exists_mem_of_ne_nil _ h.labels_ne
    obtain ⟨k, hk, _⟩ := hot l hl
    omega
  have hs := regressionTreeNew_ok h (cfg := { cfg with maxLevels := k }) hc
  have hb := regressionTreeNew_ok h (cfg := { cfg with maxLevels := m }) hc
  obtain ⟨f, hf, ha⟩ := training_accuracy d c t h ht0 ht1 hn { cfg with maxLevels := k } hc _ hs
  have hlen : ∀ row ∈ d.featureRows, c ≤ row.length := fun row hrow => by rw [h.row_len row hrow]
  obtain ⟨b, hb1, hb2⟩ := C81_best_rule d c t h hot ht1 hn { cfg with maxLevels := m } hc _ hb f (fun row hrow => (hf row (hlen row hrow)).1.1) (by
    intro row hrow row' hrow' hr
    have hr' : (treeOf regLeaf c t k d).route row = (treeOf regLeaf c t k d).route row' := by
      rw [route_cut k m d hkm, route_cut k m d hkm]
      exact congrArg _ hr
    have h1 := (hf row (hlen row hrow)).1
    have h2 := (hf row' (hlen row' hrow')).1
    have : companions d (treeOf regLeaf c t k d) row = companions d (treeOf regLeaf c t k d) row' := by simp only [companions, hr']
    rw [this] at h1
    exact C27_unique _ _ _ _ h1 h2)
  exact ⟨_, _, _, b, hs, hb, ha, hb1, hb2⟩

/-- a tree all of whose leaves are pure gets all training rows right -/
theorem all_right_of_pure {d : DataSet F} {c t : Nat} (h : d.WF c t) (hot : ∀ l ∈ d.labels, ∃ k < t, l = oneHot t k) (ht1 : t ≤ 2 ^ 53)
    (hn : d.featureRows.length < 2 ^ 32) {cfg : TreeConfig} (hc : cfg.numberOfClasses = t) {tree : TreeNode F (RegressionLeaf F)}
    (hb : regressionTreeNew d cfg = .ok tree)
    (hpure : ∀ e ∈ d.examples, ∀ e' ∈ d.examples, tree.route e.1 = tree.route e'.1 → e.2 = e'.2) :
    calculateAccuracy d tree = .ok (F64.ofNat d.featureRows.length /. F64.ofNat d.featureRows.length) := by
  have ht0 : 0 < t := by
    obtain ⟨l, hl⟩ := List.exists_mem_of_ne_nil _ h.labels_ne
    obtain ⟨k, hk, _⟩ := hot l hl
    omega
  obtain ⟨f, hf, ha⟩ := training_accuracy d c t h ht0 ht1 hn cfg hc tree hb
  have hall : rightCount d t f = d.featureRows.length := by
    have hex : d.examples.length = d.featureRows.length := by simp [DataSet.examples, h.label_count]
    rw [← hex, rightCount, List.countP_eq_length]
    intro e he
    have hlen : c ≤ e.1.length := by rw [h.row_len _ (examples_fst_mem he)]
    obtain ⟨k, hk, hek⟩ := hot _ (examples_snd_mem he)
    have hmaj := (hf e.1 hlen).1
    -- the label of the example is among its companions
    have hpos : 0 < classCount (companions d tree e.1) k := by
      rw [classCount_eq, List.countP_pos_iff]
      refine ⟨e.2, List.mem_map.mpr ⟨e, List.mem_filter.mpr ⟨he, by simp⟩, rfl⟩, ?_⟩
      rw [hek, ← vecEq_oneHot hk hk, vecEq_iff]
      refine ⟨rfl, ?_⟩
      intro i x y hx hy
      rw [hx] at hy
      cases hy
      have hi : i < t := by
        have := (List.getElem?_eq_some_iff.mp hx).1
        simpa [oneHot] using this
      rw [oneHot_at hi] at hx
      cases hx
      split
      · exact LawfulShare.one_eq
      · exact LawfulOrder.zero_eq
    have hposf : 0 < classCount (companions d tree e.1) (f e.1) := Nat.lt_of_lt_of_le hpos (hmaj.2.1 k hk)
    rw [classCount_eq, List.countP_pos_iff] at hposf
    obtain ⟨l, hl, hone⟩ := hposf
    obtain ⟨x, hx, rfl⟩ := List.mem_map.mp hl
    rw [List.mem_filter, decide_eq_true_eq] at hx
    have hsame : x.2 = e.2 := hpure x hx.1 e he hx.2
    rw [hsame, hek, ← vecEq_oneHot hk hmaj.1] at hone
    rw [hek]
    exact hone
  rw [ha, hall]

end

section exact

private theorem eq_of_short {α : Type _} : ∀ {l : List α}, l.length ≤ 1 → ∀ {x y}, x ∈ l → y ∈ l → x = y
  | [_], _, _, _, hx, hy => (List.mem_singleton.mp hx).trans (List.mem_singleton.mp hy).symm

variable {K : Type} [Field K] [LinearOrder K] [IsStrictOrderedRing K] [FloorSemiring K] [HasExp K]

/-- the accuracy is then 1 -/
theorem accuracy_of_pure {d : DataSet (Ext K)} {c t : Nat} (h : d.WF c t) (hot : ∀ l ∈ d.labels, ∃ k < t, l = oneHot t k) (ht1 : t ≤ 2 ^ 53)
    (hn : d.featureRows.length < 2 ^ 32) {cfg : TreeConfig} (hc : cfg.numberOfClasses = t) {tree : TreeNode (Ext K) (RegressionLeaf (Ext K))}
    (hb : regressionTreeNew d cfg = .ok tree)
    (hpure : ∀ e ∈ d.examples, ∀ e' ∈ d.examples, tree.route e.1 = tree.route e'.1 → e.2 = e'.2) : calculateAccuracy d tree = .ok (.fin 1) := by
  rw [all_right_of_pure h hot ht1 hn hc hb hpure]
  have : (d.featureRows.length : K) ≠ 0 := by
    have := List.length_pos_of_ne_nil h.rows_ne
    exact_mod_cast this.ne'
  simp [Ext.fin_div _ _ this, this]

/-- **C81** (deep trees).  With exact arithmetic, no contradictory training examples and max_levels at least `n - 1`, the training
accuracy is 1. -/
theorem C81_deep_tree (d : DataSet (Ext K)) (c t : Nat) (h : d.WF c t) (hot : ∀ l ∈ d.labels, ∃ k < t, l = oneHot t k) (ht1 : t ≤ 2 ^ 53)
    (hn : d.featureRows.length < 2 ^ 32) (cfg : TreeConfig) (hc : cfg.numberOfClasses = t) 
    (hd : NoContradictions d.featureRows d.labels) (hm : d.featureRows.length ≤ cfg.maxLevels + 1) :
    ∃ tree, regressionTreeNew d cfg = .ok tree ∧ calculateAccuracy d tree = .ok (.fin 1) := by
  obtain ⟨ls, hls⟩ : ∃ ls : List (List K), d.labels = lift ls := let ⟨ls, h, _⟩ := labels_hot hot; ⟨ls, h⟩
  obtain ⟨⟨tree, hb, hdep⟩, _⟩ := C56_depth d c t h cfg hc .regression
  obtain ⟨⟨tree', hb', hpure⟩, _⟩ := C56_pure_leaves d c t h ls hls hd cfg hc .regression
  rw [hb] at hb'
  cases hb'
  refine ⟨tree, hb, accuracy_of_pure h hot ht1 hn hc hb ?_⟩
  intro x hx e he hr
  obtain ⟨leaf, _, hat⟩ := C21_lookup_total d c t h cfg hc tree hb x.1 (by rw [h.row_len _ (examples_fst_mem hx)])
  have hshort := (hdep _ _ hat).1
  by_cases hlt : (tree.route x.1).length < cfg.maxLevels
  · exact hpure x hx e he hr hlt
  · have h1 : x ∈ d.examples.filter (fun e => decide (tree.route e.1 = tree.route x.1)) := List.mem_filter.mpr ⟨hx, by simp⟩
    have h2 : e ∈ d.examples.filter (fun e => decide (tree.route e.1 = tree.route x.1)) := List.mem_filter.mpr ⟨he, by simp [hr]⟩
    have hone : (d.examples.filter (fun e => decide (tree.route e.1 = tree.route x.1))).length ≤ 1 := by omega
    exact congrArg Prod.snd (eq_of_short hone h1 h2)

end exact

namespace Sample

/-- training accuracy of `d5` by depth -/
def accuracyAt (m : Nat) : R E := do
  let tree ← regressionTreeNew d5 { useMultiThreading := false, numberOfClasses := 3, maxLevels := m }
  calculateAccuracy d5 tree

/-- four rows of two classes that alternate -/
def stripes4 : DataSet E :=
  { featureRows := [[1], [2], [3], [4]]
    labels := [[1, 0], [0, 1], [1, 0], [0, 1]]
    featureColumns := [[1, 2, 3, 4]] }

end Sample

-- 2 of 5, 4 of 5 and 5 of 5 examples; the most frequent class has 2 examples
example : accuracyAt 0 = .ok (.fin (2 / 5)) ∧ accuracyAt 1 = .ok (.fin (4 / 5)) ∧ accuracyAt 2 = .ok 1 := by decide +kernel
example : classCount d5.labels 0 = 2 ∧ classCount d5.labels 1 = 2 ∧ classCount d5.labels 2 = 1 := by decide +kernel
-- the hypotheses are met
example : d5.WF 2 3 ∧ ∀ l ∈ d5.labels, ∃ k < 3, l = oneHot 3 k := by
  refine ⟨d5_wf, ?_⟩
  decide +kernel

-- for `C81_deep_tree`: three levels for four rows suffice, one level does not
example : stripes4.WF 1 2 ∧ (∀ l ∈ stripes4.labels, ∃ k < 2, l = oneHot 2 k) ∧ TellsRowsApart stripes4.featureRows 0 := by
  refine ⟨⟨by decide +kernel, by decide +kernel, by decide +kernel, by decide +kernel, by decide +kernel, by decide +kernel,
    by decide +kernel⟩, by decide +kernel, ?_⟩
  have h : ∀ a < 4, ∀ b < 4, ((stripes4.featureRows.getD a []).getD 0 0 ==. (stripes4.featureRows.getD b []).getD 0 0) = true → a = b := by
    decide +kernel
  intro a b ra rb x y h1 h2 h3 h4 h5
  have ha : a < 4 := (List.getElem?_eq_some_iff.mp h1).1
  have hb : b < 4 := (List.getElem?_eq_some_iff.mp h2).1
  exact h a ha b hb (by simpa [List.getD, h1, h2, h3, h4] using h5)
example : (do
    let tree ← regressionTreeNew stripes4 { useMultiThreading := false, numberOfClasses := 2, maxLevels := 3 }
    calculateAccuracy stripes4 tree) = .ok (.fin 1) := by decide +kernel
example : (do
    let tree ← regressionTreeNew stripes4 { useMultiThreading := false, numberOfClasses := 2, maxLevels := 1 }
    calculateAccuracy stripes4 tree) = .ok (.fin (3 / 4)) := by decide +kernel

-- and in binary64, where `C81_deep_tree` does not apply but the others do
example : ∀ negZero : Bool, let _ := env negZero
    hot5.WF 1 3 ∧ ∀ l ∈ hot5.labels, ∃ k < 3, l = oneHot 3 k := by
  intro negZero
  dsimp only
  refine ⟨?_, by revert negZero; decide +kernel⟩
  refine @DataSet.WF.mk _ (@instF64B64OfB64Env (env negZero)) _ _ _ ?_ ?_ ?_ ?_ ?_ ?_ ?_ <;> revert negZero <;> decide +kernel

end Verif
