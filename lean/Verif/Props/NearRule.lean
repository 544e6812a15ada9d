import Verif.Lemmas.NearRule
import Verif.Props.NearFit
import Verif.Props.Rule
/-!
# C121: a rule of one question is learned at once in binary64
-/

set_option linter.unusedSectionVars false

namespace Verif

open B64 Sample

section
variable [B64Env]

theorem rule_labels {d : DataSet B64} {c t : ℕ} (h : d.WF c t) :
    (∀ l ∈ d.labels, ∀ l' ∈ d.labels, l.map B64.val = l'.map B64.val) ↔ ¬ d.Mixed := by
  constructor
  · rintro hc ⟨e, he, e', he', hne⟩
    exact hne (hc _ (examples_snd_mem he) _ (examples_snd_mem he'))
  · intro hm l hl l' hl'
    by_contra hne
    rw [← examples_snd h] at hl hl'
    obtain ⟨e, he, rfl⟩ := List.mem_map.mp hl
    obtain ⟨e', he', rfl⟩ := List.mem_map.mp hl'
    exact hm ⟨e, he, e', he', hne⟩

/-- **C121** (search).  In binary64, with integer labels: if the answer to some question about a feature determines the labels, a gain is found
exactly if two labels differ, and then the question that is reported determines the labels, too. -/
theorem C121_search (d : DataSet B64) (c t b : ℕ) (h : d.WF c t) (hI : IntLabels b d.labels) (hf : RuleInts d.labels.length t b)
    (ha : d.exact.TiesAgree c) (q₀ : Question (Ext ℚ)) (hq : q₀.column < c) (hd : Decides q₀ d.exact.examples) :
    ∃ s, findBestSplit d t = .ok s ∧ ((s.gain ==. F64.zero) = false ↔ d.Mixed) ∧
      (d.Mixed → s.question.column < c ∧ Decides s.question.exact d.exact.examples) := by
  obtain ⟨h1, h2⟩ := rule_search64 h hI hf ha hq hd
  have hiff : ((splitOf d t).gain ==. F64.zero) = false ↔ d.Mixed := by
    constructor
    · intro hg
      by_contra hm
      rw [no_gain_of_const h hI hf.fits ((rule_labels h).mpr hm)] at hg
      cases hg
    · intro hm
      cases hg : ((splitOf d t).gain ==. F64.zero) with
      | false => rfl
      | true => exact absurd hm ((rule_labels h).mp (h1 hg))
  exact ⟨_, findBestSplit_ok h, hiff, fun hm => ⟨(splitOf_separates h (hiff.mpr hm)).2.1, h2 (hiff.mpr hm)⟩⟩

theorem exact_examples_map (d : DataSet B64) : d.exact.examples = d.examples.map (Prod.map (List.map B64.val) (List.map B64.val)) := exact_zip d

theorem decides_values {d : DataSet B64} {q : Question B64} (h : Decides q.exact d.exact.examples) :
    ∀ e ∈ d.examples, ∀ e' ∈ d.examples, satisfies q e.1 = satisfies q e'.1 → e.2.map B64.val = e'.2.map B64.val := by
  intro e he e' he' hs
  rw [exact_examples_map] at h
  exact h _ (List.mem_map_of_mem he) _ (List.mem_map_of_mem he') (by
    simp only [Prod.map_fst]
    rw [satisfies_val, satisfies_val, hs])

/-- a tree that is grown greedily -/
theorem learns_of_greedy {L : Type} {d : DataSet B64} {c t b m : ℕ} (hI : IntLabels b d.labels) (hf : RuleInts d.labels.length t b)
    (hlen : d.examples.length = d.labels.length) (ha : d.exact.TiesAgree c) {q₀ : Question (Ext ℚ)} (hq : q₀.column < c)
    (hd : Decides q₀ d.exact.examples) (hm : 1 ≤ m) {tree : TreeNode B64 L} (hgr : GrownGreedily d c t m tree) : LearnsAtOnce d tree := by
  have hsub : ∀ {dd : DataSet B64} {p : List Bool}, dd.WF c t → dd.examples = reaching d tree p →
      IntLabels b dd.labels ∧ RuleInts dd.labels.length t b := by
    intro dd p hw hex
    constructor
    · intro l hl
      rw [← examples_snd hw, hex] at hl
      obtain ⟨e, he', rfl⟩ := List.mem_map.mp hl
      exact hI _ (examples_snd_mem (List.mem_filter.mp he').1)
    · refine hf.fewer ?_
      rw [← examples_snd hw, hex, List.length_map, ← hlen]
      exact List.length_filter_le _ _
  obtain ⟨dd, s, hw, hex, hs, hqt⟩ := hgr [] (by simp [TreeNode.subtreeAt])
  have hex0 : dd.examples = d.examples := by rw [hex, reaching]; simp
  obtain ⟨hI', hf'⟩ := hsub hw hex
  have hxx : dd.exact.examples = d.exact.examples := by rw [exact_examples_map, exact_examples_map, hex0]
  have hrows : dd.exact.featureRows = d.exact.examples.map Prod.fst := by 
    rw [← hxx, DataSet.examples, List.map_fst_zip (by rw [hw.exact.label_count])]
  have ha' : dd.exact.TiesAgree c := by
    intro j hj e he e' he' h1 h2
    rw [hxx] at he he'
    refine ha j hj e he e' he' h1 ?_
    obtain ⟨row, hrow, hlt⟩ := h2
    rw [hrows] at hrow
    obtain ⟨x, hx, rfl⟩ := List.mem_map.mp hrow
    exact ⟨x.1, (List.of_mem_zip hx).1, hlt⟩
  obtain ⟨s', hs', hiff, hdec⟩ := C121_search dd c t b hw hI' hf' ha' q₀ hq (hxx ▸ hd)
  rw [hs] at hs'
  have hs' := Except.ok.inj hs'
  subst hs'
  have hmix : dd.Mixed ↔ d.Mixed := by rw [DataSet.Mixed, DataSet.Mixed, hex0]
  rw [hmix] at hiff hdec
  rw [hxx] at hdec
  have h0m : ([] : List Bool).length < m := by simp only [List.length_nil]; omega
  by_cases hM : d.Mixed
  · have hdq := decides_values (hdec hM).2
    rw [if_pos ⟨h0m, hiff.mpr hM⟩] at hqt
    -- below the root there is nothing to ask
    have hbelow : ∀ x : Bool, (tree.subtreeAt [x]).isSome → tree.questionAt [x] = none := by
      intro x hx
      obtain ⟨dd', s', hw', hex', hs'', hqt'⟩ := hgr [x] hx
      obtain ⟨hI'', hf''⟩ := hsub hw' hex'
      rw [findBestSplit_ok hw'] at hs''
      have hs'' := Except.ok.inj hs''
      subst hs''
      have hz := no_gain_of_const hw' hI'' hf''.fits ((rule_labels hw').mpr (by
        rintro ⟨e, he, e', he', hne⟩
        rw [hex', reaching, List.mem_filter] at he he'
        refine hne (hdq e he.1 e' he'.1 ?_)
        have r : ∀ row, [x].isPrefixOf (tree.route row) = true → satisfies s.question row = x := by
          intro row hp
          rcases tree with ⟨q, _ | a, _ | b', l⟩ <;> simp [TreeNode.questionAt] at hqt
          subst hqt
          rw [TreeNode.route] at hp
          cases hc : satisfies s.question row <;> cases x <;> simp [hc] at hp ⊢
        rw [r _ he.2, r _ he'.2]))
      rw [hqt', if_neg (by simp [hz])]
    rcases tree with ⟨q, _ | a, _ | b', l⟩ <;> simp [TreeNode.questionAt] at hqt
    subst hqt
    have hone : ∀ tr : TreeNode B64 L, tr.questionAt [] = none → tr.questionCount = 0 := by
      rintro ⟨q, _ | a, _ | b', l⟩ hn <;> simp [TreeNode.questionAt, TreeNode.questionCount] at hn ⊢
    have c1 := hone a (by have := hbelow true (by simp [TreeNode.subtreeAt]); simpa [TreeNode.questionAt] using this)
    have c2 := hone b' (by have := hbelow false (by simp [TreeNode.subtreeAt]); simpa [TreeNode.questionAt] using this)
    refine ⟨fun _ => by simp [TreeNode.questionCount, c1, c2], fun hc => absurd hM hc, ?_⟩
    intro e he e' he' hr
    refine hdq e he e' he' ?_
    rw [TreeNode.route, TreeNode.route] at hr
    cases h1 : satisfies s.question e.1 <;> cases h2 : satisfies s.question e'.1 <;> simp [h1, h2] at hr ⊢
  · rw [if_neg (fun hc => hM (hiff.mp hc.2))] at hqt
    refine ⟨fun hc => absurd hc hM, fun _ => ?_, ?_⟩
    · rcases tree with ⟨q, _ | a, _ | b', l⟩ <;> simp [TreeNode.questionAt, TreeNode.questionCount] at hqt ⊢
    · intro e he e' he' _
      by_contra hne
      exact hM ⟨e, he, e', he', hne⟩

/-- **C121** (trees).  The trees of all builders, however many levels from one on they are allowed, ask exactly one question if the labels differ and
none otherwise, and examples in the same leaf have labels of the same value. -/
theorem C121_trees (d : DataSet B64) (c t b : ℕ) (h : d.WF c t) (hI : IntLabels b d.labels) (hf : RuleInts d.labels.length t b)
    (ha : d.exact.TiesAgree c) (q₀ : Question (Ext ℚ)) (hq : q₀.column < c) (hd : Decides q₀ d.exact.examples) (cfg : TreeConfig)
    (ht : cfg.numberOfClasses = t) (hm : 1 ≤ cfg.maxLevels) (k : LeafOutputType) :
    (∃ tree, regressionTreeNew d cfg = .ok tree ∧ LearnsAtOnce d tree) ∧
    (∃ tree, gradBoostTreeNew d cfg k = .ok tree ∧ LearnsAtOnce d tree) ∧
    (∃ tree, amgTreeNew d cfg k = .ok tree ∧ LearnsAtOnce d tree) := by
  have hlen : d.examples.length = d.labels.length := by simp [DataSet.examples, h.label_count]
  obtain ⟨h1, h2, h3⟩ := C48_grown_greedily d c t h cfg ht k
  exact ⟨⟨_, regressionTreeNew_ok h ht, learns_of_greedy hI hf hlen ha hq hd hm (h1 _ (regressionTreeNew_ok h ht))⟩,
    ⟨_, gradBoostTreeNew_ok h ht k, learns_of_greedy hI hf hlen ha hq hd hm (h2 _ (gradBoostTreeNew_ok h ht k))⟩,
    ⟨_, amgTreeNew_ok h ht k, learns_of_greedy hI hf hlen ha hq hd hm (h3 _ (amgTreeNew_ok h ht k))⟩⟩

/-- **C121** (trees) for the tree on pre-sorted features. -/
theorem C121_tree_sorted (d : DataSet B64) (c t b : ℕ) (h : d.WF c t) (hI : IntLabels b d.labels) (hf : RuleInts d.labels.length t b)
    (ha : d.exact.TiesAgree c) (q₀ : Question (Ext ℚ)) (hq : q₀.column < c) (hd : Decides q₀ d.exact.examples) (cfg : TreeConfig)
    (hm : 1 ≤ cfg.maxLevels) (s : SortedDataSet B64) (hs : createDatasetWithSortedFeatures d = .ok s)
    (tree : TreeNode B64 (RegressionLeafNewPartition B64)) (hb : regressionTreeNewPartitionNew s cfg = .ok tree) : LearnsAtOnce d tree := by
  have hlen : d.examples.length = d.labels.length := by simp [DataSet.examples, h.label_count]
  have ht2 := hf.fits.targets.resolve_right (by have := List.length_pos_of_ne_nil h.labels_ne; omega)
  exact learns_of_greedy hI hf hlen ha hq hd hm (C48_grown_greedily_sorted d c t h (by omega) cfg s hs tree hb)

/-- **C121** (training error).  The prediction of the regression tree for every training row is exactly its label, and the computed training error
is exactly zero. -/
theorem C121_tree_fits (d : DataSet B64) (c t b : ℕ) (h : d.WF c t) (hI : IntLabels b d.labels) (hf : RuleInts d.labels.length t b)
    (ha : d.exact.TiesAgree c) (q₀ : Question (Ext ℚ)) (hq : q₀.column < c) (hd : Decides q₀ d.exact.examples) (cfg : TreeConfig)
    (ht : cfg.numberOfClasses = t) (hm : 1 ≤ cfg.maxLevels) :
    ∃ tree, regressionTreeNew d cfg = .ok tree ∧
      (∀ e ∈ d.examples, ∃ leaf dd a, findLeafNodeForData e.1 tree = .ok leaf ∧ leaf.data = some dd ∧ calculateAverageVector dd.labels = .ok a ∧
        a.map B64.val = e.2.map B64.val) ∧
      ∃ a, calculateOverallMse d tree = .ok a ∧ a.val = .fin 0 := by
  obtain ⟨⟨tree, hb, _, _, hpure⟩, _⟩ := C121_trees d c t b h hI hf ha q₀ hq hd cfg ht hm .regression
  refine ⟨_, hb, ?_, mse64_of_pure h hI hf.fits ht hb hpure⟩
  intro e he
  obtain ⟨dd, hfd, hw, hl⟩ := lookup_companions d c t h cfg ht _ hb e.1 (by rw [h.row_len _ (examples_fst_mem he)])
  refine ⟨_, dd, _, hfd, rfl, calculateAverageVector_ok hw.labels_ne hw.label_len, ?_⟩
  rw [← prediction64 h hI hf.fits ht hb hpure e he, avgVec_range hw.label_len, hl]
  rfl

/-- **C121** (accuracy).  With one-hot labels the computed training accuracy of the tree is exactly 1. -/
theorem C121_accuracy (d : DataSet B64) (c t : ℕ) (h : d.WF c t) (hot : ∀ l ∈ d.labels, ∃ k < t, l = oneHot t k)
    (hf : RuleInts d.labels.length t 1) (ha : d.exact.TiesAgree c) (q₀ : Question (Ext ℚ)) (hq : q₀.column < c)
    (hd : Decides q₀ d.exact.examples) (cfg : TreeConfig) (ht : cfg.numberOfClasses = t) (hm : 1 ≤ cfg.maxLevels) :
    ∃ tree a, regressionTreeNew d cfg = .ok tree ∧ calculateAccuracy d tree = .ok a ∧ a.val = .fin 1 := by
  obtain ⟨⟨tree, hb, _, _, hpure⟩, _⟩ := C121_trees d c t 1 h (intLabels_hot hot) hf ha q₀ hq hd cfg ht hm .regression
  obtain ⟨a, h1, h2⟩ := accuracy64_of_pure h hot hf.fits ht hb hpure
  exact ⟨_, a, hb, h1, h2⟩

end

/-! ## cases that meet the hypotheses, and a case outside -/

/-- six rows with integer labels in two targets; the second feature tells them apart, the first does not -/
def rule64 : DataSet B64 :=
  { featureRows := [[b64 1, b64 5], [b64 2, b64 3], [b64 3, b64 9], [b64 4, b64 1], [b64 5, b64 8], [b64 6, b64 2]]
    labels := [[b64 7, b64 (-3)], [b64 0, b64 100], [b64 7, b64 (-3)], [b64 0, b64 100], [b64 7, b64 (-3)], [b64 0, b64 100]]
    featureColumns := [[b64 1, b64 2, b64 3, b64 4, b64 5, b64 6], [b64 5, b64 3, b64 9, b64 1, b64 8, b64 2]] }

/-- the rule: is the second feature at least 10/3? -/
def third : Question (Ext ℚ) := { column := 1, value := .fin (10 / 3) }

-- the hypotheses of C121 are met by `rule64`, although 10/3 is no binary64 number
example : ∀ negZero : Bool, let _ := env negZero
    rule64.WF 2 2 ∧ IntLabels 100 rule64.labels ∧ RuleInts rule64.labels.length 2 100 ∧ rule64.exact.TiesAgree 2 ∧
      Decides third rule64.exact.examples ∧ rule64.Mixed := by
  intro negZero
  dsimp only
  refine ⟨?_, ?_, ⟨by decide, by decide, by decide⟩, ?_, ?_, ?_⟩
  · refine @DataSet.WF.mk _ (@instF64B64OfB64Env (env negZero)) _ _ _ ?_ ?_ ?_ ?_ ?_ ?_ ?_ <;> revert negZero <;> decide +kernel
  · have : ∀ l ∈ rule64.labels, l.map B64.val = ofInts [7, -3] ∨ l.map B64.val = ofInts [0, 100] := by decide +kernel
    intro l hl
    rcases this l hl with h | h
    · exact ⟨_, h, by decide⟩
    · exact ⟨_, h, by decide⟩
  · rw [DataSet.TiesAgree]
    decide +kernel
  · rw [Decides]
    decide +kernel
  · rw [DataSet.Mixed]
    decide +kernel
example : ∀ negZero : Bool, let _ := env negZero
    (findBestSplit rule64 2).map (fun s => (s.question.column, s.question.value)) = .ok (1, b64 5) := by decide +kernel

-- the bound is needed: the labels of `stamps2` follow a rule, but no gain is found
example : Decides { column := 0, value := .fin 1 } stamps2.exact.examples ∧ stamps2.Mixed ∧
    stamps2.exact.TiesAgree 1 := by
  refine ⟨?_, ?_, ?_⟩
  · rw [Decides]
    decide +kernel
  · rw [DataSet.Mixed]
    decide +kernel
  · rw [DataSet.TiesAgree]
    decide +kernel
theorem C121_violated_without_bound : ∀ negZero : Bool, let _ := env negZero
    (findBestSplit stamps2 1).map (fun s => s.gain.val) = .ok (.fin 0) := by decide +kernel

end Verif
