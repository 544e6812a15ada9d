import Verif.Lemmas.NearFit
import Verif.Lemmas.Stop
import Verif.Props.Rounding
import Verif.Props.Accuracy
import Verif.Props.Mse
/-!
# C120: deep trees fit integer labels in binary64
-/

set_option linter.unusedSectionVars false

namespace Verif

open B64 Sample

section
variable [B64Env]

theorem exact_zip (d : DataSet B64) :
    d.exact.featureRows.zip d.exact.labels = d.examples.map (Prod.map (List.map B64.val) (List.map B64.val)) := by
  rw [DataSet.exact, DataSet.examples, List.zip_map]

/-- what the data of a node inherits -/
theorem node_few {d dd : DataSet B64} {c t b : ℕ} (hI : IntLabels b d.labels) (hf : FewInts d.labels.length t b)
    (hd : NoContradictions d.exact.featureRows d.exact.labels) (hw : dd.WF c t) {P : List B64 × List B64 → Bool} (he : dd.examples = d.examples.filter P) :
    IntLabels b dd.labels ∧ FewInts dd.labels.length t b ∧ NoContradictions dd.exact.featureRows dd.exact.labels := by
  have hlab : dd.labels = (d.examples.filter P).map Prod.snd := by rw [← he, examples_snd hw]
  refine ⟨?_, hf.fewer ?_, ?_⟩
  · intro l hl
    rw [hlab] at hl
    obtain ⟨e, he', rfl⟩ := List.mem_map.mp hl
    exact hI _ (examples_snd_mem (List.mem_filter.mp he').1)
  · rw [hlab, List.length_map]
    have h1 := List.length_filter_le P d.examples
    have h2 : d.examples.length ≤ d.labels.length := by simp [DataSet.examples]
    exact h1.trans h2
  · intro e h1 e' h2
    rw [exact_zip, he] at h1 h2
    obtain ⟨x, hx, rfl⟩ := List.mem_map.mp h1
    obtain ⟨x', hx', rfl⟩ := List.mem_map.mp h2
    refine hd _ ?_ _ ?_
    · rw [exact_zip]; exact List.mem_map_of_mem (List.mem_filter.mp hx).1
    · rw [exact_zip]; exact List.mem_map_of_mem (List.mem_filter.mp hx').1

theorem asksExactly_of {L : Type} {d : DataSet B64} {c t b m : ℕ} (hI : IntLabels b d.labels) (hf : FewInts d.labels.length t b)
    (hd : NoContradictions d.exact.featureRows d.exact.labels) {tree : TreeNode B64 L} (hgr : GrownGreedily d c t m tree) :
    AsksExactlyWhereMixed d m tree := by
  intro p hp
  obtain ⟨dd, s, hw, hex, hs, hq⟩ := hgr p hp
  obtain ⟨h1, h2, h3⟩ := node_few hI hf hd hw hex
  rw [findBestSplit_ok hw] at hs
  have hs := Except.ok.inj hs
  subst hs
  have hmem : ∀ l ∈ dd.labels, ∃ e ∈ reaching d tree p, e.2 = l := by
    intro l hl
    rw [← examples_snd hw, hex] at hl
    obtain ⟨e, he, rfl⟩ := List.mem_map.mp hl
    exact ⟨e, he, rfl⟩
  have hmix : ((splitOf dd t).gain ==. F64.zero) = false ↔ ∃ e ∈ reaching d tree p, ∃ e' ∈ reaching d tree p, e.2.map B64.val ≠ e'.2.map B64.val := by
    constructor
    · intro hg
      by_contra hc
      push Not at hc
      rw [no_gain_of_const hw h1 h2.fits (by
        intro l hl l' hl'
        obtain ⟨e, he, rfl⟩ := hmem l hl
        obtain ⟨e', he', rfl⟩ := hmem l' hl'
        exact hc e he e' he')] at hg
      cases hg
    · rintro ⟨e, he, e', he', hne⟩
      cases hg : ((splitOf dd t).gain ==. F64.zero) with
      | false => rfl
      | true =>
        rw [← hex] at he he'
        exact absurd (const_of_no_gain hw h1 h2 h3 hg _ (examples_snd_mem he) _ (examples_snd_mem he')) hne
  rw [hq, ← hmix]
  split
  · next hc => simp [hc]
  · next hc => simpa using hc

/-- **C120** (stopping).  In binary64, with few and small integer labels and no contradictory examples, the trees of all builders ask a question
exactly where the examples that arrive have different labels and the depth limit is not reached. -/
theorem C120_stop (d : DataSet B64) (c t b : ℕ) (h : d.WF c t) (hI : IntLabels b d.labels) (hf : FewInts d.labels.length t b)
    (hd : NoContradictions d.exact.featureRows d.exact.labels) (cfg : TreeConfig) (ht : cfg.numberOfClasses = t) (k : LeafOutputType) :
    (∃ tree, regressionTreeNew d cfg = .ok tree ∧ AsksExactlyWhereMixed d cfg.maxLevels tree) ∧
    (∃ tree, gradBoostTreeNew d cfg k = .ok tree ∧ AsksExactlyWhereMixed d cfg.maxLevels tree) ∧
    (∃ tree, amgTreeNew d cfg k = .ok tree ∧ AsksExactlyWhereMixed d cfg.maxLevels tree) := by
  obtain ⟨h1, h2, h3⟩ := C48_grown_greedily d c t h cfg ht k
  exact ⟨⟨_, regressionTreeNew_ok h ht, asksExactly_of hI hf hd (h1 _ (regressionTreeNew_ok h ht))⟩,
    ⟨_, gradBoostTreeNew_ok h ht k, asksExactly_of hI hf hd (h2 _ (gradBoostTreeNew_ok h ht k))⟩,
    ⟨_, amgTreeNew_ok h ht k, asksExactly_of hI hf hd (h3 _ (amgTreeNew_ok h ht k))⟩⟩

/-- **C120** (stopping) for the tree on pre-sorted features. -/
theorem C120_stop_sorted (d : DataSet B64) (c t b : ℕ) (h : d.WF c t) (hI : IntLabels b d.labels) (hf : FewInts d.labels.length t b)
    (hd : NoContradictions d.exact.featureRows d.exact.labels) (cfg : TreeConfig) (s : SortedDataSet B64)
    (hs : createDatasetWithSortedFeatures d = .ok s) (tree : TreeNode B64 (RegressionLeafNewPartition B64))
    (hb : regressionTreeNewPartitionNew s cfg = .ok tree) : AsksExactlyWhereMixed d cfg.maxLevels tree := by
  have ht2 := hf.targets.resolve_right (by have := List.length_pos_of_ne_nil h.labels_ne; omega)
  exact asksExactly_of hI hf hd (C48_grown_greedily_sorted d c t h (by omega) cfg s hs tree hb)

private theorem eq_of_few {α : Type _} : ∀ {l : List α}, l.length ≤ 1 → ∀ {x y}, x ∈ l → y ∈ l → x = y
  | [_], _, _, _, hx, hy => (List.mem_singleton.mp hx).trans (List.mem_singleton.mp hy).symm

theorem treeOf_pure64 {L : Type} {leafOf : DataSet B64 → L} {d : DataSet B64} {c t b m : ℕ} (h : d.WF c t) (hI : IntLabels b d.labels)
    (hf : FewInts d.labels.length t b) (hd : NoContradictions d.exact.featureRows d.exact.labels) (hm : d.featureRows.length ≤ m + 1) :
    ∀ e ∈ d.examples, ∀ e' ∈ d.examples, (treeOf leafOf c t m d).route e.1 = (treeOf leafOf c t m d).route e'.1 →
      e.2.map B64.val = e'.2.map B64.val := by
  intro e he e' he' hr
  have hrow := examples_fst_mem he
  obtain ⟨leaf, _, hl⟩ := TreeNode.find_of_proper (treeOf_proper (leafOf := leafOf) (c := c) (t := t) m d) (row := e.1)
    (fun p q hq => by rw [h.row_len e.1 hrow]; exact (treeOf_questions m d h p q hq).1)
  have hel : d.examples.length = d.featureRows.length := by simp [DataSet.examples, h.label_count]
  have i1 : e ∈ d.examples.filter (fun x => decide ((treeOf leafOf c t m d).route x.1 = (treeOf leafOf c t m d).route e.1)) := by simp [he]
  have i2 : e' ∈ d.examples.filter (fun x => decide ((treeOf leafOf c t m d).route x.1 = (treeOf leafOf c t m d).route e.1)) := by simp [he', hr]
  have hdep := treeOf_depth (leafOf := leafOf) m d h _ leaf hl
  rcases Nat.lt_or_ge ((treeOf leafOf c t m d).route e.1).length m with hlt | hge
  · obtain ⟨dd, hw, hex, hg⟩ := treeOf_leafAt_gain m d h _ leaf hl
    obtain ⟨h1, h2, h3⟩ := node_few hI hf hd hw hex
    rw [← hex] at i1 i2
    exact const_of_no_gain hw h1 h2 h3 (hg hlt) _ (examples_snd_mem i1) _ (examples_snd_mem i2)
  · rw [eq_of_few (by omega) i1 i2]

/-- **C120** (pure leaves).  If `n - 1` levels are allowed for the `n` examples, examples in the same leaf have labels of the same value. -/
theorem C120_pure_leaves (d : DataSet B64) (c t b : ℕ) (h : d.WF c t) (hI : IntLabels b d.labels) (hf : FewInts d.labels.length t b)
    (hd : NoContradictions d.exact.featureRows d.exact.labels) (cfg : TreeConfig) (ht : cfg.numberOfClasses = t)
    (hm : d.featureRows.length ≤ cfg.maxLevels + 1) (k : LeafOutputType) :
    (∃ tree, regressionTreeNew d cfg = .ok tree ∧ ∀ e ∈ d.examples, ∀ e' ∈ d.examples, tree.route e.1 = tree.route e'.1 →
      e.2.map B64.val = e'.2.map B64.val) ∧
    (∃ tree, gradBoostTreeNew d cfg k = .ok tree ∧ ∀ e ∈ d.examples, ∀ e' ∈ d.examples, tree.route e.1 = tree.route e'.1 →
      e.2.map B64.val = e'.2.map B64.val) ∧
    (∃ tree, amgTreeNew d cfg k = .ok tree ∧ ∀ e ∈ d.examples, ∀ e' ∈ d.examples, tree.route e.1 = tree.route e'.1 →
      e.2.map B64.val = e'.2.map B64.val) :=
  ⟨⟨_, regressionTreeNew_ok h ht, treeOf_pure64 h hI hf hd hm⟩, ⟨_, gradBoostTreeNew_ok h ht k, treeOf_pure64 h hI hf hd hm⟩,
    ⟨_, amgTreeNew_ok h ht k, treeOf_pure64 h hI hf hd hm⟩⟩

theorem foldl_zeros {xs : List B64} (h : ∀ x ∈ xs, x.val = .fin 0) : (xs.foldl F64.add F64.zero).val = .fin 0 := by
  have key : ∀ (xs : List B64) (a : B64), a.val = .fin 0 → (∀ x ∈ xs, x.val = .fin 0) → (xs.foldl F64.add a).val = .fin 0 := by
    intro xs
    induction xs with
    | nil => intro a ha _; exact ha
    | cons x xs ih =>
      intro a ha hx
      rw [List.foldl_cons]
      refine ih _ ?_ (fun y hy => hx y (by simp [hy]))
      rw [add_val, ha, hx x (by simp), Ext.fin_add, add_zero, roundE_zero]
  exact key xs _ zero_val h

theorem div_zero_val {x : B64} {n : ℕ} (hx : x.val = .fin 0) (h0 : n ≠ 0) (hn : n ≤ 2 ^ 53) : (x /. F64.ofNat n).val = .fin 0 := by
  have hq : (n : ℚ) ≠ 0 := by exact_mod_cast h0
  have hc : (F64.ofNat n : B64).val = .fin (n : ℚ) := by
    have := roundE_nat hn
    simpa using this
  rw [div_val _ _ (by
    rw [hc]
    intro h
    simp only [Ext.fin.injEq] at h
    exact hq h), hx, hc, Ext.fin_div _ _ hq, zero_div, roundE_zero]

/-- the prediction for a training row -/
theorem prediction64 {d : DataSet B64} {c t b : ℕ} (h : d.WF c t) (hI : IntLabels b d.labels) (hf : SumsFit d.labels.length t b)
    {cfg : TreeConfig} (ht : cfg.numberOfClasses = t) {tree : TreeNode B64 (RegressionLeaf B64)} (hb : regressionTreeNew d cfg = .ok tree)
    (hpure : ∀ e ∈ d.examples, ∀ e' ∈ d.examples, tree.route e.1 = tree.route e'.1 → e.2.map B64.val = e'.2.map B64.val) :
    ∀ e ∈ d.examples, (leafValue .regression t (companions d tree e.1)).map B64.val = e.2.map B64.val := by
  intro e he
  obtain ⟨dd, hfd, hw, hl⟩ := lookup_companions d c t h cfg ht tree hb e.1 (by rw [h.row_len _ (examples_fst_mem he)])
  obtain ⟨v, hv, hvb⟩ := hI _ (examples_snd_mem he)
  have hvl : v.length = t := by
    have := valV_length hv
    rw [h.label_len _ (examples_snd_mem he), List.length_map] at this
    exact this.symm
  have hlt : ∀ l ∈ companions d tree e.1, l.map B64.val = ofInts v := by
    intro l hl
    obtain ⟨x, hx, rfl⟩ := List.mem_map.mp hl
    rw [List.mem_filter, decide_eq_true_eq] at hx
    rw [hpure x hx.1 e he hx.2, hv]
  have hav : leafValue .regression t (companions d tree e.1) = avgVec t (companions d tree e.1) := by
    rw [avgVec_range (by rw [← hl]; exact hw.label_len)]; rfl
  rw [hav, hv]
  have hcount : (companions d tree e.1).length ≤ d.labels.length := by
    rw [companions, List.length_map]
    refine (List.length_filter_le _ _).trans ?_
    simp [DataSet.examples]
  exact avgVec_same (n := d.labels.length) hvl (by
    intro j hj
    have : j < v.length := by omega
    exact hf.small (hvb _ (by simp [List.getD, this]))) (by have := hf.rows; omega) hlt hcount (by rw [← hl]; exact hw.labels_ne)

/-- the training error of a tree with pure leaves -/
theorem mse64_of_pure {d : DataSet B64} {c t b : ℕ} (h : d.WF c t) (hI : IntLabels b d.labels) (hf : SumsFit d.labels.length t b)
    {cfg : TreeConfig} (ht : cfg.numberOfClasses = t) {tree : TreeNode B64 (RegressionLeaf B64)} (hb : regressionTreeNew d cfg = .ok tree)
    (hpure : ∀ e ∈ d.examples, ∀ e' ∈ d.examples, tree.route e.1 = tree.route e'.1 → e.2.map B64.val = e'.2.map B64.val) :
    ∃ a, calculateOverallMse d tree = .ok a ∧ a.val = .fin 0 := by
  have h0 : d.featureRows.length ≠ 0 := by have := List.length_pos_of_ne_nil h.rows_ne; omega
  have hrows := hf.rows
  have ht2 := hf.targets.resolve_right (by rw [h.label_count]; exact h0)
  have ht1 := hf.target
  refine ⟨_, (C51_tree_score d c t h cfg ht tree hb d (fun row hr => (h.row_len row hr).ge) _).mpr ⟨h.label_count.ge, ?_, rfl⟩, ?_⟩
  · intro l hl
    exact (h.label_len l (List.mem_of_mem_take hl)).ge
  refine div_zero_val (foldl_zeros ?_) h0 (by rw [← h.label_count]; omega)
  intro x hx
  rw [List.zipWith_map_left, ← List.map_uncurry_zip_eq_zipWith] at hx
  obtain ⟨e, he, rfl⟩ := List.mem_map.mp hx
  have hp := prediction64 h hI hf ht hb hpure e he
  simp only [Function.uncurry]
  have hpl : (leafValue (F := B64) .regression t (companions d tree e.1)).length = t := by simp [leafValue]
  rw [squaredError, hpl]
  refine div_zero_val (foldl_zeros ?_) (by omega) (by omega)
  intro y hy
  obtain ⟨v, hv, _⟩ := hI _ (examples_snd_mem he)
  obtain ⟨i, hi, rfl⟩ := List.getElem_of_mem hy
  simp only [List.length_zipWith, lt_min_iff] at hi
  rw [List.getElem_zipWith]
  have e1 : ((leafValue (F := B64) .regression t (companions d tree e.1))[i]'hi.1).val = ((e.2)[i]'hi.2).val := by
    have := congrArg (fun l => l[i]?) hp
    simpa [hi.1, hi.2] using this
  have e2 : ((e.2)[i]'hi.2).val = .fin ((v.getD i 0 : ℤ) : ℚ) := by
    have := ofInts_getD hv i
    simpa [List.getD, hi.2] using this
  rw [mul_val, sub_val, e1, e2, Ext.fin_sub, sub_self, roundE_zero, Ext.fin_mul, mul_zero, roundE_zero]

/-- **C120** (training error).  Then the prediction for every training row is exactly its label, and the computed training error is exactly zero. -/
theorem C120_tree_fits (d : DataSet B64) (c t b : ℕ) (h : d.WF c t) (hI : IntLabels b d.labels) (hf : FewInts d.labels.length t b)
    (hd : NoContradictions d.exact.featureRows d.exact.labels) (cfg : TreeConfig) (ht : cfg.numberOfClasses = t)
    (hm : d.featureRows.length ≤ cfg.maxLevels + 1) :
    ∃ tree, regressionTreeNew d cfg = .ok tree ∧
      (∀ e ∈ d.examples, ∃ leaf dd a, findLeafNodeForData e.1 tree = .ok leaf ∧ leaf.data = some dd ∧ calculateAverageVector dd.labels = .ok a ∧
        a.map B64.val = e.2.map B64.val) ∧
      ∃ a, calculateOverallMse d tree = .ok a ∧ a.val = .fin 0 := by
  have hb := regressionTreeNew_ok h ht
  have hpure := treeOf_pure64 (leafOf := regLeaf) h hI hf hd hm
  refine ⟨_, hb, ?_, mse64_of_pure h hI hf.fits ht hb hpure⟩
  intro e he
  obtain ⟨dd, hfd, hw, hl⟩ := lookup_companions d c t h cfg ht _ hb e.1 (by rw [h.row_len _ (examples_fst_mem he)])
  refine ⟨_, dd, _, hfd, rfl, calculateAverageVector_ok hw.labels_ne hw.label_len, ?_⟩
  rw [← prediction64 h hI hf.fits ht hb hpure e he, avgVec_range hw.label_len, hl]
  rfl

theorem hot_val_inj {t k k' : ℕ} (hk : k < t) (h : (oneHot t k : List B64).map B64.val = (oneHot t k').map B64.val) : k = k' := by
  have := congrArg (fun l => l[k]?) h
  simp only [List.getElem?_map, oneHot_at hk, Option.map_some, if_true, Option.some.injEq] at this
  by_contra hne
  rw [if_neg (by omega), one_val, zero_val] at this
  simp at this

theorem intLabels_hot {t : ℕ} {labels : List (List B64)} (hot : ∀ l ∈ labels, ∃ k < t, l = oneHot t k) : IntLabels 1 labels := by
  intro l hl
  obtain ⟨k, hk, rfl⟩ := hot l hl
  refine ⟨(List.range t).map (fun j => if j = k then 1 else 0), ?_, ?_⟩
  · apply List.ext_getElem (by simp [oneHot, ofInts, liftV])
    intro i h1 h2
    have hi : i < t := by simpa [oneHot] using h1
    have := congrArg (Option.map B64.val) (oneHot_at (F := B64) (k := k) hi)
    rw [← List.getElem?_map, List.getElem?_eq_getElem h1] at this
    simp only [Option.map_some, Option.some.injEq] at this
    rw [this]
    simp only [ofInts, liftV, List.getElem_map, List.getElem_range]
    split
    · rw [one_val]; simp
    · rw [zero_val]; simp
  · intro x hx
    obtain ⟨j, _, rfl⟩ := List.mem_map.mp hx
    split <;> simp

/-- the training accuracy of a tree with pure leaves -/
theorem accuracy64_of_pure {d : DataSet B64} {c t : ℕ} (h : d.WF c t) (hot : ∀ l ∈ d.labels, ∃ k < t, l = oneHot t k)
    (hf : SumsFit d.labels.length t 1) {cfg : TreeConfig} (ht : cfg.numberOfClasses = t) {tree : TreeNode B64 (RegressionLeaf B64)}
    (hb : regressionTreeNew d cfg = .ok tree)
    (hpure : ∀ e ∈ d.examples, ∀ e' ∈ d.examples, tree.route e.1 = tree.route e'.1 → e.2.map B64.val = e'.2.map B64.val) :
    ∃ a, calculateAccuracy d tree = .ok a ∧ a.val = .fin 1 := by
  have h0 : d.featureRows.length ≠ 0 := by have := List.length_pos_of_ne_nil h.rows_ne; omega
  have hrows := hf.rows
  have ht2 := hf.targets.resolve_right (by rw [h.label_count]; exact h0)
  rw [h.label_count] at hrows
  have hall := all_right_of_pure h hot (by omega) (by omega) ht hb (by
    intro e he e' he' hr
    have := hpure e he e' he' hr
    obtain ⟨k, hk, e1⟩ := hot _ (examples_snd_mem he)
    obtain ⟨k', _, e2⟩ := hot _ (examples_snd_mem he')
    rw [e1, e2] at this
    rw [e1, e2, hot_val_inj hk this])
  refine ⟨_, hall, ?_⟩
  have hq : (d.featureRows.length : ℚ) ≠ 0 := by exact_mod_cast h0
  have hc : (F64.ofNat d.featureRows.length : B64).val = .fin (d.featureRows.length : ℚ) := by
    have := roundE_nat (n := d.featureRows.length) (by omega)
    simpa using this
  rw [div_val _ _ (by
    rw [hc]
    intro h
    simp only [Ext.fin.injEq] at h
    exact hq h), hc, Ext.fin_div _ _ hq, div_self hq]
  have := roundE_nat (n := 1) (by norm_num)
  simpa only [Nat.cast_one] using this

/-- **C120** (accuracy).  With one-hot labels the computed training accuracy of such a tree is exactly 1. -/
theorem C120_accuracy (d : DataSet B64) (c t : ℕ) (h : d.WF c t) (hot : ∀ l ∈ d.labels, ∃ k < t, l = oneHot t k)
    (hf : FewInts d.labels.length t 1) (hd : NoContradictions d.exact.featureRows d.exact.labels) (cfg : TreeConfig)
    (ht : cfg.numberOfClasses = t) (hm : d.featureRows.length ≤ cfg.maxLevels + 1) :
    ∃ tree a, regressionTreeNew d cfg = .ok tree ∧ calculateAccuracy d tree = .ok a ∧ a.val = .fin 1 := by
  have hb := regressionTreeNew_ok h ht
  obtain ⟨a, h1, h2⟩ := accuracy64_of_pure h hot hf.fits ht hb (treeOf_pure64 (leafOf := regLeaf) h (intLabels_hot hot) hf hd hm)
  exact ⟨_, a, hb, h1, h2⟩

end

/-! ## cases that meet the hypotheses, and a case outside -/

/-- six rows of three classes; no feature tells all rows apart, and one row occurs twice -/
def hot6 : DataSet B64 :=
  { featureRows := [[b64 0, b64 0], [b64 0, b64 1], [b64 1, b64 0], [b64 1, b64 1], [b64 2, b64 1], [b64 2, b64 1]]
    labels := [[b64 1, b64 0, b64 0], [b64 0, b64 1, b64 0], [b64 0, b64 1, b64 0], [b64 1, b64 0, b64 0], [b64 0, b64 0, b64 1],
      [b64 0, b64 0, b64 1]]
    featureColumns := [[b64 0, b64 0, b64 1, b64 1, b64 2, b64 2], [b64 0, b64 1, b64 0, b64 1, b64 1, b64 1]] }

/-- two rows with labels that differ by one part in a thousand million -/
def stamps2 : DataSet B64 :=
  { featureRows := [[b64 0], [b64 1]]
    labels := [[b64 (10 ^ 9)], [b64 (10 ^ 9 + 1)]]
    featureColumns := [[b64 0, b64 1]] }

-- the hypotheses of C120 are met by `hot6`
example : ∀ negZero : Bool, let _ := env negZero
    hot6.WF 2 3 ∧ (∀ l ∈ hot6.labels, ∃ k < 3, l = oneHot 3 k) ∧ FewInts hot6.labels.length 3 1 ∧
      NoContradictions hot6.exact.featureRows hot6.exact.labels := by
  intro negZero
  dsimp only
  refine ⟨?_, ?_, ⟨by decide, by decide, by decide⟩, ?_⟩
  · refine @DataSet.WF.mk _ (@instF64B64OfB64Env (env negZero)) _ _ _ ?_ ?_ ?_ ?_ ?_ ?_ ?_ <;> revert negZero <;> decide +kernel
  · have : ∀ l ∈ hot6.labels, ∃ k ∈ List.range 3, l = @oneHot _ (@instF64B64OfB64Env (env negZero)) 3 k := by revert negZero; decide +kernel
    intro l hl
    obtain ⟨k, hk, he⟩ := this l hl
    exact ⟨k, List.mem_range.mp hk, he⟩
  · have key : ∀ e ∈ hot6.exact.featureRows.zip hot6.exact.labels, ∀ e' ∈ hot6.exact.featureRows.zip hot6.exact.labels,
        (List.zipWith (fun x y => x ==. y) e.1 e'.1).all id = true → e.2 = e'.2 := by decide +kernel
    intro e he e' he' hs
    refine key e he e' he' ?_
    rw [List.all_eq_true]
    intro x hx
    obtain ⟨i, hi, rfl⟩ := List.getElem_of_mem hx
    rw [List.getElem_zipWith]
    simp only [List.length_zipWith, lt_min_iff] at hi
    exact hs i _ _ (List.getElem?_eq_getElem hi.1) (List.getElem?_eq_getElem hi.2)

-- and larger data sets meet the bound: 400 rows of three classes, 100 rows with ten targets from -9 to 9
example : FewInts 400 3 1 ∧ FewInts 100 10 9 := ⟨⟨by decide, by decide, by decide⟩, ⟨by decide, by decide, by decide⟩⟩

-- what the program computes for `hot6`: five questions are enough, the accuracy is 1; with fewer levels it is not
example : ∀ negZero : Bool, let _ := env negZero
    (do
      let tree ← regressionTreeNew hot6 { useMultiThreading := false, numberOfClasses := 3, maxLevels := 5 }
      let a ← calculateAccuracy hot6 tree
      let e ← calculateOverallMse hot6 tree
      pure (a.val, e.val, tree.questionCount) : R (Ext ℚ × Ext ℚ × ℕ)) = .ok (.fin 1, .fin 0, 4) ∧
    (do
      let tree ← regressionTreeNew hot6 { useMultiThreading := false, numberOfClasses := 3, maxLevels := 1 }
      let a ← calculateAccuracy hot6 tree
      pure (decide (a.val = .fin 1), tree.questionCount) : R (Bool × ℕ)) = .ok (false, 1) := by
  decide +kernel

/-- **C120** needs a bound on the labels: of two rows with the labels 1000000000 and 1000000001, which a question tells apart, the tree is a single
leaf, because the sums of squares are rounded. -/
theorem C120_violated_without_bound : ∀ negZero : Bool, let _ := env negZero
    (findBestSplit stamps2 1).map (fun s => s.gain ==. F64.zero) = .ok true ∧
    (regressionTreeNew stamps2 { useMultiThreading := false, numberOfClasses := 1, maxLevels := 3 }).map TreeNode.questionCount = .ok 0 ∧
    satisfies { column := 0, value := b64 1 } [b64 1] = true ∧ satisfies { column := 0, value := b64 1 } [b64 0] = false ∧
    (∀ l ∈ stamps2.labels, l.map B64.val = ofInts [10 ^ 9] ∨ l.map B64.val = ofInts [10 ^ 9 + 1]) := by
  decide +kernel

end Verif
