import Verif.Lemmas.NearLeaf
import Verif.Lemmas.SameInt
import Verif.Props.Place
import Verif.Props.Binary64
/-!
# C62 to C64: rounding

What remains of the claims about exact arithmetic when the program computes with binary64 numbers.  The theorems compare the computed
numbers with the exact results for the exact values of the binary64 inputs.
-/

set_option linter.unusedSectionVars false

namespace Verif

open B64 Sample

section
variable [B64Env]

theorem satisfies_val (q : Question B64) (row : List B64) : satisfies q.exact (row.map B64.val) = satisfies q row := by
  simp only [satisfies, Question.exact, List.getElem?_map]
  cases row[q.column]? with
  | none => rfl
  | some x => exact (le_val _ _).symm

/-! ## C62: averages -/

/-- **C62**.  The average of at most `2^24` label vectors with entries up to `B` is off by at most `2^-50 * n * B` in every entry. -/
theorem C62_average_accurate (labels : List (List B64)) (t : ℕ) (ls : List (List ℚ)) (B : ℚ)
    (hl : labels.map (List.map B64.val) = lift ls) (ht : ∀ v ∈ ls, v.length = t) (hne : ls ≠ []) (hS : Scale ls.length B)
    (hB : AtMost B ls) :
    ∃ a, calculateAverageVector labels = .ok a ∧ a.length = t ∧
      ∀ j < t, ∃ x q, a[j]? = some x ∧ x.val = .fin q ∧ |q - meanOf (target ls j)| ≤ averageTolerance ls.length B := by
  have hlen : labels.length = ls.length := by
    have := congrArg List.length hl
    simpa [lift] using this
  have hll : ∀ l ∈ labels, l.length = t := by
    intro l hm
    have : l.map B64.val ∈ lift ls := by rw [← hl]; exact List.mem_map_of_mem hm
    obtain ⟨v, hv, he⟩ := mem_lift.mp this
    rw [valV_length he.symm, ht v hv]
  have hne' : labels ≠ [] := by
    intro h0
    rw [h0] at hlen
    exact hne (List.eq_nil_of_length_eq_zero hlen.symm)
  have hal : (avgVec t labels).length = t := by
    rw [avgVec, List.length_map]; exact vecSum_length hll
  refine ⟨_, calculateAverageVector_ok hne' hll, hal, ?_⟩
  intro j hj
  obtain ⟨q, h1, h2⟩ := avgVec_near hS hl ht hB hne hj
  refine ⟨(avgVec t labels)[j], q, by simp [hal, hj], ?_, h2⟩
  simpa [List.getD, hal, hj] using h1

/-- the exact label vectors of examples -/
theorem exact_labels_sub {d : DataSet B64} {c t : ℕ} (h : d.WF c t) {ls : List (List ℚ)} (hls : d.exact.labels = lift ls) {B : ℚ}
    (hB : AtMost B ls) {P : List B64 × List B64 → Bool} {ls' : List (List ℚ)}
    (hl' : (d.examples.filter P).map (fun e => e.2.map B64.val) = lift ls') :
    AtMost B ls' ∧ (∀ v ∈ ls', v.length = t) ∧ ls'.length ≤ ls.length := by
  have hsub : ∀ v ∈ ls', v ∈ ls := by
    intro v hv
    have h1 : liftV v ∈ lift ls' := mem_lift.mpr ⟨v, hv, rfl⟩
    rw [← hl'] at h1
    obtain ⟨e, he, hev⟩ := List.mem_map.mp h1
    have h2 := (List.mem_filter.mp he).1
    have h3 : e.2.map B64.val ∈ lift ls := by
      rw [← hls]
      exact List.mem_map_of_mem (List.of_mem_zip h2).2
    rw [hev] at h3
    obtain ⟨w, hw, hww⟩ := mem_lift.mp h3
    rwa [← liftV_injective hww]
  refine ⟨fun v hv => hB v (hsub v hv), ?_, ?_⟩
  · intro v hv
    have := h.exact.label_len (liftV v) (by rw [hls]; exact mem_lift.mpr ⟨v, hsub v hv, rfl⟩)
    rwa [liftV_length] at this
  · have h1 := congrArg List.length hl'
    have h2 := congrArg List.length hls
    simp only [List.length_map, lift_length, DataSet.exact] at h1 h2
    have h3 := List.length_filter_le P d.examples
    have h4 : d.examples.length ≤ d.labels.length := by simp [DataSet.examples]
    omega

theorem exact_labels_exist {d : DataSet B64} {ls : List (List ℚ)} (hls : d.exact.labels = lift ls) (P : List B64 × List B64 → Bool) :
    ∃ ls', (d.examples.filter P).map (fun e => e.2.map B64.val) = lift ls' := by
  apply exists_lift
  intro l hl
  obtain ⟨e, he, rfl⟩ := List.mem_map.mp hl
  have h3 : e.2.map B64.val ∈ lift ls := by
    rw [← hls]
    exact List.mem_map_of_mem (List.of_mem_zip (List.mem_filter.mp he).1).2
  obtain ⟨w, _, hw⟩ := mem_lift.mp h3
  exact ⟨w, hw.symm⟩

theorem Scale.fewer {n m : ℕ} {B : ℚ} (h : Scale n B) (hm : m ≤ n) : Scale m B := ⟨hm.trans h.rows, h.lower, h.upper⟩

/-- **C62**.  Every prediction of a regression tree, the average of the labels in the leaf found, is off by at most `2^-50 * n * B` in
every entry from the exact mean of the `n` training labels whose rows take the same way. -/
theorem C62_tree_prediction_accurate (d : DataSet B64) (c t : ℕ) (h : d.WF c t) (cfg : TreeConfig) (ht : cfg.numberOfClasses = t)
    (ls : List (List ℚ)) (B : ℚ) (hls : d.exact.labels = lift ls) (hS : Scale ls.length B) (hB : AtMost B ls)
    (tree : TreeNode B64 (RegressionLeaf B64)) (hb : regressionTreeNew d cfg = .ok tree) (row : List B64) (hrow : c ≤ row.length) :
    ∃ leaf dd ls' a, findLeafNodeForData row tree = .ok leaf ∧ leaf.data = some dd ∧
      (d.examples.filter (fun e => decide (tree.route e.1 = tree.route row))).map (fun e => e.2.map B64.val) = lift ls' ∧
      calculateAverageVector dd.labels = .ok a ∧ a.length = t ∧
      ∀ j < t, ∃ x q, a[j]? = some x ∧ x.val = .fin q ∧ |q - meanOf (target ls' j)| ≤ averageTolerance ls'.length B := by
  obtain ⟨leaf, hf, hat⟩ := C21_lookup_total d c t h cfg ht tree hb row hrow
  obtain ⟨dd, hdd, hw, hex⟩ := C19_leaf_contents d c t h cfg ht tree hb _ leaf hat
  obtain ⟨ls', hl'⟩ := exact_labels_exist hls (fun e => decide (tree.route e.1 = tree.route row))
  obtain ⟨h1, h2, h3⟩ := exact_labels_sub h hls hB hl'
  have hlab : dd.labels.map (List.map B64.val) = lift ls' := by
    rw [← hl', ← hex, ← examples_snd hw, List.map_map]; rfl
  have hne : ls' ≠ [] := by
    rintro rfl
    have := congrArg List.length hlab
    simp only [List.length_map, lift_length, List.length_nil] at this
    exact hw.labels_ne (List.eq_nil_of_length_eq_zero this)
  obtain ⟨a, ha, hal, hacc⟩ := C62_average_accurate dd.labels t ls' B hlab h2 hne (hS.fewer h3) h1
  exact ⟨leaf, dd, ls', a, hf, hdd, hl', ha, hal, hacc⟩

/-- **C62**.  The output stored in a leaf of a regression boosting tree is as accurate. -/
theorem C62_boost_leaf_accurate (d : DataSet B64) (c t : ℕ) (h : d.WF c t) (cfg : TreeConfig) (ht : cfg.numberOfClasses = t)
    (ls : List (List ℚ)) (B : ℚ) (hls : d.exact.labels = lift ls) (hS : Scale ls.length B) (hB : AtMost B ls)
    (tree : TreeNode B64 (GradBoostLeaf B64)) (hb : gradBoostTreeNew d cfg .regression = .ok tree) (p : List Bool)
    (leaf : GradBoostLeaf B64) (hl : tree.leafAt p = some leaf) :
    ∃ ls' a, (d.examples.filter (fun e => decide (tree.route e.1 = p))).map (fun e => e.2.map B64.val) = lift ls' ∧
      leaf.leafOutput = some a ∧ a.length = t ∧
      ∀ j < t, ∃ x q, a[j]? = some x ∧ x.val = .fin q ∧ |q - meanOf (target ls' j)| ≤ averageTolerance ls'.length B := by
  obtain ⟨ls', hl'⟩ := exact_labels_exist hls (fun e => decide (tree.route e.1 = p))
  obtain ⟨h1, h2, h3⟩ := exact_labels_sub h hls hB hl'
  rw [gradBoostTreeNew_ok h ht] at hb
  cases hb
  obtain ⟨dd, rfl, hw, hex⟩ := treeOf_leafAt _ d h p leaf hl
  have hlab : dd.labels.map (List.map B64.val) = lift ls' := by
    rw [← hl', ← hex, ← examples_snd hw, List.map_map]; rfl
  have hne : ls' ≠ [] := by
    rintro rfl
    have := congrArg List.length hlab
    simp only [List.length_map, lift_length, List.length_nil] at this
    exact hw.labels_ne (List.eq_nil_of_length_eq_zero this)
  obtain ⟨a, ha, hal, hacc⟩ := C62_average_accurate dd.labels t ls' B hlab h2 hne (hS.fewer h3) h1
  rw [calculateAverageVector_ok hw.labels_ne hw.label_len] at ha
  cases ha
  exact ⟨ls', _, hl', rfl, hal, hacc⟩

/-! ## C63: the split search -/

/-- **C63**.  The reported gain is a number between zero and the total variance, up to the tolerance, and no question reduces the exact
variance by more than the reported gain plus the tolerance. -/
theorem C63_gain_accurate (d : DataSet B64) (c t : ℕ) (h : d.WF c t) (ht1 : 1 ≤ t) (ht2 : t ≤ 2 ^ 24) (ls : List (List ℚ)) (B : ℚ)
    (hls : d.exact.labels = lift ls) (hS : Scale ls.length B) (hB : AtMost B ls) :
    ∃ s g, findBestSplit d t = .ok s ∧ s.gain.val = .fin g ∧ 0 ≤ g ∧ g ≤ totalVar t ls + splitTolerance ls.length t B ∧
      ∀ q : Question (Ext ℚ), q.column < c → varianceReduction t d.exact.featureRows ls q ≤ g + splitTolerance ls.length t B := by
  obtain ⟨g, h1, h2, h3, h4, _⟩ := splitOf_near hS ht1 ht2 h hls hB
  exact ⟨_, g, findBestSplit_ok h, h1, h2, h3, h4⟩

theorem unique_val {d : DataSet B64} {j : ℕ} {v : B64} :
    ((column d.exact.featureRows j).filter (fun x => x ==. v.val)).length = ((column d.featureRows j).filter (fun x => x ==. v)).length := by
  have : column d.exact.featureRows j = (column d.featureRows j).map B64.val := (column_val _ _).symm
  rw [this, List.filter_map, List.length_map]
  congr 1

/-- **C63**.  If the threshold of the reported split occurs only once in its column, the reported gain is the exact variance reduction
of the reported question up to the tolerance, and no question reduces the variance by more than twice the tolerance more. -/
theorem C63_near_optimal (d : DataSet B64) (c t : ℕ) (h : d.WF c t) (ht1 : 1 ≤ t) (ht2 : t ≤ 2 ^ 24) (ls : List (List ℚ)) (B : ℚ)
    (hls : d.exact.labels = lift ls) (hS : Scale ls.length B) (hB : AtMost B ls) (s : BestSplitResult B64)
    (hs : findBestSplit d t = .ok s) (hg : (s.gain ==. F64.zero) = false)
    (hu : ((column d.featureRows s.question.column).filter (fun x => x ==. s.question.value)).length = 1) :
    ∃ g, s.gain.val = .fin g ∧ |g - varianceReduction t d.exact.featureRows ls s.question.exact| ≤ splitTolerance ls.length t B ∧
      ∀ q : Question (Ext ℚ), q.column < c → varianceReduction t d.exact.featureRows ls q ≤
        varianceReduction t d.exact.featureRows ls s.question.exact + 2 * splitTolerance ls.length t B := by
  rw [findBestSplit_ok h] at hs
  have hs := Except.ok.inj hs
  subst hs
  have hE := h.exact
  obtain ⟨g, h1, h2, _, h4, h5⟩ := splitOf_near hS ht1 ht2 h hls hB
  have hlen : ls.length = d.exact.featureRows.length := by rw [← hE.label_count, hls, lift_length]
  rcases h5 with h5 | ⟨i, hi, hc, _, hg'⟩
  · rw [eq_val, h1, h5, zero_val] at hg
    simp at hg
  · have hcol := sides_column (ls := ls) (q := (splitOf d t).question.exact) hE.row_len hc
    rw [← unique_val] at hu
    rw [candAt_unique (by rw [column_length, hlen]) (hE.col_nan hc) hi hu] at hg'
    have hred := reduction_eq t d.exact.featureRows ls (splitOf d t).question.exact
    rw [hcol.1, hcol.2] at hred
    have hg'' : |g - varianceReduction t d.exact.featureRows ls (splitOf d t).question.exact| ≤ splitTolerance ls.length t B := by
      rw [hred]; exact hg'
    refine ⟨g, h1, hg'', ?_⟩
    intro q hq
    have a1 := h4 q hq
    have a2 := (abs_le.mp hg'').2
    linarith

/-- **C63**.  If all label vectors are equal, the reported gain is at most the tolerance. -/
theorem C63_constant_labels (d : DataSet B64) (c t : ℕ) (h : d.WF c t) (ht1 : 1 ≤ t) (ht2 : t ≤ 2 ^ 24) (ls : List (List ℚ)) (B : ℚ)
    (hls : d.exact.labels = lift ls) (hS : Scale ls.length B) (hB : AtMost B ls) (hconst : ∀ a ∈ ls, ∀ b ∈ ls, a = b) :
    ∃ s g, findBestSplit d t = .ok s ∧ s.gain.val = .fin g ∧ 0 ≤ g ∧ g ≤ splitTolerance ls.length t B := by
  obtain ⟨s, g, h1, h2, h3, h4, _⟩ := C63_gain_accurate d c t h ht1 ht2 ls B hls hS hB
  rw [totalVar_const hconst, zero_add] at h4
  exact ⟨s, g, h1, h2, h3, h4⟩

theorem nearGreedy_of {L : Type} {d : DataSet B64} {c t m : ℕ} (h : d.WF c t) (ht1 : 1 ≤ t) (ht2 : t ≤ 2 ^ 24) {ls : List (List ℚ)} {B : ℚ}
    (hls : d.exact.labels = lift ls) (hS : Scale ls.length B) (hB : AtMost B ls) {tree : TreeNode B64 L}
    (hgr : GrownGreedily d c t m tree) : NearGreedy d c t m B tree := by
  intro p hp
  obtain ⟨dd, s, hw, hex, hs, hq⟩ := hgr p hp
  obtain ⟨ls', hl'⟩ := exact_labels_exist hls (fun e => p.isPrefixOf (tree.route e.1))
  obtain ⟨h1, h2, h3⟩ := exact_labels_sub h hls hB hl'
  have hrows : (reaching d tree p).map Prod.fst = dd.featureRows := by
    rw [← hex, DataSet.examples, List.map_fst_zip (by rw [hw.label_count])]
  have hrowsE : (reaching d tree p).map (fun e => e.1.map B64.val) = dd.exact.featureRows := by
    rw [DataSet.exact, ← hrows, List.map_map]; rfl
  have hlab : dd.exact.labels = lift ls' := by
    rw [← hl']
    change _ = (reaching d tree p).map _
    rw [← hex, DataSet.exact, ← examples_snd hw, List.map_map]; rfl
  have hne : ls' ≠ [] := by
    rintro rfl
    have := congrArg List.length hlab
    simp only [DataSet.exact, List.length_map, lift_length, List.length_nil] at this
    exact hw.labels_ne (List.eq_nil_of_length_eq_zero this)
  refine ⟨ls', hl', hne, ?_, ?_⟩
  · intro hnone hdepth q hqc
    obtain ⟨s', g, hs', hg, hg0, _, hall⟩ := C63_gain_accurate dd c t hw ht1 ht2 ls' B hlab (hS.fewer h3) h1
    rw [hs] at hs'
    cases hs'
    rw [hnone] at hq
    have hz : (s.gain ==. F64.zero) = true := by
      by_contra hz
      rw [if_pos ⟨hdepth, by simpa using hz⟩] at hq
      simp at hq
    rw [eq_val, hg, zero_val] at hz
    have hz : g = 0 := by simpa using hz
    have := hall q hqc
    rw [hrowsE]
    linarith
  · intro q hsome hu q' hq'
    rw [hsome] at hq
    split at hq
    · next hc =>
      simp only [Option.some.injEq] at hq
      subst hq
      rw [hrows] at hu
      obtain ⟨_, _, _, hall⟩ := C63_near_optimal dd c t hw ht1 ht2 ls' B hlab (hS.fewer h3) h1 s hs hc.2 hu
      rw [hrowsE]
      exact hall q' hq'
    · simp at hq

/-- **C63** for whole trees.  All trees follow the greedy rule up to the tolerance: a leaf before the depth limit means that no question
reduces the variance there by more than the tolerance, and a question with a threshold that occurs only once is optimal up to twice
the tolerance. -/
theorem C63_tree (d : DataSet B64) (c t : ℕ) (h : d.WF c t) (ht1 : 1 ≤ t) (ht2 : t ≤ 2 ^ 24) (ls : List (List ℚ)) (B : ℚ)
    (hls : d.exact.labels = lift ls) (hS : Scale ls.length B) (hB : AtMost B ls) (cfg : TreeConfig) (ht : cfg.numberOfClasses = t)
    (k : LeafOutputType) :
    (∀ tree, regressionTreeNew d cfg = .ok tree → NearGreedy d c t cfg.maxLevels B tree) ∧
    (∀ tree, gradBoostTreeNew d cfg k = .ok tree → NearGreedy d c t cfg.maxLevels B tree) ∧
    (∀ tree, amgTreeNew d cfg k = .ok tree → NearGreedy d c t cfg.maxLevels B tree) := by
  obtain ⟨h1, h2, h3⟩ := C48_grown_greedily d c t h cfg ht k
  exact ⟨fun tree hb => nearGreedy_of h ht1 ht2 hls hS hB (h1 tree hb), fun tree hb => nearGreedy_of h ht1 ht2 hls hS hB (h2 tree hb),
    fun tree hb => nearGreedy_of h ht1 ht2 hls hS hB (h3 tree hb)⟩

/-- **C63** for the tree on pre-sorted features. -/
theorem C63_sorted_tree (d : DataSet B64) (c t : ℕ) (h : d.WF c t) (ht1 : 1 ≤ t) (ht2 : t ≤ 2 ^ 24) (ls : List (List ℚ)) (B : ℚ)
    (hls : d.exact.labels = lift ls) (hS : Scale ls.length B) (hB : AtMost B ls) (cfg : TreeConfig)
    (s : SortedDataSet B64) (hs : createDatasetWithSortedFeatures d = .ok s) (tree : TreeNode B64 (RegressionLeafNewPartition B64))
    (hb : regressionTreeNewPartitionNew s cfg = .ok tree) : NearGreedy d c t cfg.maxLevels B tree :=
  nearGreedy_of h ht1 ht2 hls hS hB (C48_grown_greedily_sorted d c t h (by omega) cfg s hs tree hb)

/-! ## C64: equal labels with small integer entries -/

/-- **C64**.  If all label vectors are equal and have integer entries `x` with `n * x^2 ≤ 2^53`, then the gain is zero and the tree is a
single leaf, in binary64 as it is. -/
theorem C64_constant_integer_labels (d : DataSet B64) (c t : ℕ) (h : d.WF c t) (v : List ℤ)
    (hl : ∀ l ∈ d.labels, l.map B64.val = ofInts v) (hn : d.labels.length ≤ 2 ^ 53)
    (hI : ∀ x ∈ v, SmallInt d.labels.length x) (cfg : TreeConfig) (ht : cfg.numberOfClasses = t) :
    (∃ s, findBestSplit d t = .ok s ∧ (s.gain ==. F64.zero) = true) ∧
    ∃ tree, regressionTreeNew d cfg = .ok tree ∧ tree.depth = 0 ∧ tree.leaves = [{ data := some d }] := by
  have hv : v.length = t := by
    obtain ⟨l, hm⟩ := List.exists_mem_of_ne_nil _ h.labels_ne
    have := valV_length (hl l hm)
    rw [h.label_len l hm, List.length_map] at this
    exact this.symm
  have hI' : ∀ j < t, SmallInt d.labels.length (v.getD j 0) := by
    intro j hj
    apply hI
    have : j < v.length := by omega
    simp [List.getD, this]
  have hz := splitOf_same hv hI' hn h hl le_rfl
  have hz : ((splitOf d t).gain ==. F64.zero) = true := by
    rw [eq_val, hz, zero_val]; simp
  refine ⟨⟨_, findBestSplit_ok h, hz⟩, _, regressionTreeNew_ok h ht, ?_⟩
  cases cfg.maxLevels with
  | zero => exact ⟨rfl, rfl⟩
  | succ m =>
    rw [treeOf_leaf hz]
    exact ⟨rfl, rfl⟩

theorem asksForMixedLabels_of {L : Type} {d : DataSet B64} {c t m : ℕ} (hn : d.labels.length ≤ 2 ^ 53)
    (hI : ∀ l ∈ d.labels, ∃ v : List ℤ, l.map B64.val = ofInts v ∧ ∀ x ∈ v, SmallInt d.labels.length x)
    {tree : TreeNode B64 L} (hgr : GrownGreedily d c t m tree) : AsksForMixedLabels d tree := by
  intro p q hq
  by_contra hsame
  have hsame : ∀ e ∈ reaching d tree p, ∀ e' ∈ reaching d tree p, e.2.map B64.val = e'.2.map B64.val := by
    intro e he e' he'
    by_contra hne
    exact hsame ⟨e, he, e', he', hne⟩
  have hp : (tree.subtreeAt p).isSome := TreeNode.subtreeAt_of_questionAt hq
  obtain ⟨dd, s, hw, hex, hs, hq'⟩ := hgr p hp
  have hlab : dd.labels = (reaching d tree p).map Prod.snd := by rw [← hex, examples_snd hw]
  obtain ⟨l0, hl0⟩ := List.exists_mem_of_ne_nil _ hw.labels_ne
  rw [hlab] at hl0
  obtain ⟨e0, he0, rfl⟩ := List.mem_map.mp hl0
  have hmem : e0.2 ∈ d.labels := examples_snd_mem (List.mem_filter.mp he0).1
  obtain ⟨v, hv, hI'⟩ := hI _ hmem
  have hcount : dd.labels.length ≤ d.labels.length := by
    rw [hlab, List.length_map]
    have h1 := List.length_filter_le (fun e => p.isPrefixOf (tree.route e.1)) d.examples
    have h2 : d.examples.length ≤ d.labels.length := by simp [DataSet.examples]
    exact h1.trans h2
  obtain ⟨⟨s', hs', hz⟩, _⟩ := C64_constant_integer_labels dd c t hw v (by
      intro l hl
      rw [hlab] at hl
      obtain ⟨e, he, rfl⟩ := List.mem_map.mp hl
      rw [hsame e he e0 he0, hv]) (by omega) (fun x hx => by
        have := hI' x hx
        refine ⟨by omega, le_trans ?_ this.square⟩
        have : (dd.labels.length : ℤ) ≤ d.labels.length := by exact_mod_cast hcount
        exact mul_le_mul_of_nonneg_right this (by positivity)) { useMultiThreading := false, numberOfClasses := t, maxLevels := 0 } rfl
  rw [hs] at hs'
  cases hs'
  rw [hq, hz] at hq'
  simp at hq'

/-- **C64**.  A tree for labels with such entries never asks a question where all examples that arrive have the same label. -/
theorem C64_pure_node_is_leaf (d : DataSet B64) (c t : ℕ) (h : d.WF c t) (hn : d.labels.length ≤ 2 ^ 53)
    (hI : ∀ l ∈ d.labels, ∃ v : List ℤ, l.map B64.val = ofInts v ∧ ∀ x ∈ v, SmallInt d.labels.length x)
    (cfg : TreeConfig) (ht : cfg.numberOfClasses = t) (k : LeafOutputType) :
    (∀ tree, regressionTreeNew d cfg = .ok tree → AsksForMixedLabels d tree) ∧
    (∀ tree, gradBoostTreeNew d cfg k = .ok tree → AsksForMixedLabels d tree) ∧
    (∀ tree, amgTreeNew d cfg k = .ok tree → AsksForMixedLabels d tree) := by
  obtain ⟨h1, h2, h3⟩ := C48_grown_greedily d c t h cfg ht k
  exact ⟨fun tree hb => asksForMixedLabels_of hn hI (h1 tree hb), fun tree hb => asksForMixedLabels_of hn hI (h2 tree hb),
    fun tree hb => asksForMixedLabels_of hn hI (h3 tree hb)⟩

/-- **C64** for the tree on pre-sorted features. -/
theorem C64_sorted_pure_node_is_leaf (d : DataSet B64) (c t : ℕ) (h : d.WF c t) (hn : d.labels.length ≤ 2 ^ 53)
    (hI : ∀ l ∈ d.labels, ∃ v : List ℤ, l.map B64.val = ofInts v ∧ ∀ x ∈ v, SmallInt d.labels.length x) (ht : t < 2 ^ 32)
    (cfg : TreeConfig) (s : SortedDataSet B64) (hs : createDatasetWithSortedFeatures d = .ok s)
    (tree : TreeNode B64 (RegressionLeafNewPartition B64)) (hb : regressionTreeNewPartitionNew s cfg = .ok tree) :
    AsksForMixedLabels d tree :=
  asksForMixedLabels_of hn hI (C48_grown_greedily_sorted d c t h ht cfg s hs tree hb)

end

/-! ## cases that meet the hypotheses, and cases outside -/

/-- four rows with labels that binary64 does not represent exactly -/
def rough4 : DataSet B64 :=
  { featureRows := [[b64 0, b64 3], [b64 1, b64 2], [b64 2, b64 1], [b64 3, b64 0.5]]
    labels := [[b64 0.1], [b64 0.2], [b64 0.7], [b64 0.9]]
    featureColumns := [[b64 0, b64 1, b64 2, b64 3], [b64 3, b64 2, b64 1, b64 0.5]] }

/-- the exact values of the labels of `rough4` -/
def rough4Labels : List (List ℚ) :=
  [[3602879701896397 / 36028797018963968], [3602879701896397 / 18014398509481984], [3152519739159347 / 4503599627370496],
    [8106479329266893 / 9007199254740992]]

theorem rough4_wf : ∀ negZero : Bool, let _ := env negZero
    rough4.WF 2 1 := by
  intro negZero
  dsimp only
  refine @DataSet.WF.mk _ (@instF64B64OfB64Env (env negZero)) _ _ _ ?_ ?_ ?_ ?_ ?_ ?_ ?_ <;> revert negZero <;> decide +kernel

theorem rough4_labels : rough4.exact.labels = lift rough4Labels := by decide +kernel

theorem rough4_scale : Scale rough4Labels.length 1 ∧ AtMost 1 rough4Labels := by
  refine ⟨⟨by decide, ?_, ?_⟩, by unfold AtMost; decide +kernel⟩
  · rw [div_le_one (by positivity)]
    exact one_le_pow₀ (by norm_num)
  · exact one_le_pow₀ (by norm_num)

-- C62: the computed average of the four labels is not the mean of their exact values
example : ∀ negZero : Bool, let _ := env negZero
    (calculateAverageVector rough4.labels).map (List.map (fun x => decide (x.val = .fin (meanOf (target rough4Labels 0))))) = .ok [false] := by
  decide +kernel

-- C63: the split of `rough4` has a threshold that occurs once, and its reported gain is not the exact variance reduction
example : ∀ negZero : Bool, let _ := env negZero
    ((findBestSplit rough4 1).map (fun s => (s.question.column, s.question.value, s.gain ==. F64.zero))) = .ok (1, b64 2, false) ∧
    ((column rough4.featureRows 1).filter (fun x => x ==. b64 2)).length = 1 ∧
    ((findBestSplit rough4 1).map (fun s =>
      decide (s.gain.val = .fin (varianceReduction 1 rough4.exact.featureRows rough4Labels { column := 1, value := .fin 2 })))) = .ok false := by
  decide +kernel

-- C63: four equal labels 0.1 (the case in which C15 fails), with a gain within the tolerance
example : tenth4.exact.labels = lift (List.replicate 4 [3602879701896397 / 36028797018963968]) ∧ splitTolerance 4 1 1 = 5 / 2 ^ 44 := by
  refine ⟨by decide +kernel, ?_⟩
  norm_num [splitTolerance]

/-- two rows with far apart labels, outside the range allowed by `Scale` -/
def far2 : DataSet B64 :=
  { featureRows := [[b64 0], [b64 1]]
    labels := [[b64 0], [b64 (10 ^ 200)]]
    featureColumns := [[b64 0, b64 1]] }

/-- **C63** needs the bound on the labels: with labels 0 and 1e200 the sum of squares overflows, and the tree is a single leaf although
a question separates the labels. -/
theorem C63_violated_without_bound : ∀ negZero : Bool, let _ := env negZero
    (findBestSplit far2 1).map (fun s => s.gain ==. F64.zero) = .ok true ∧
    (regressionTreeNew far2 { useMultiThreading := false, numberOfClasses := 1, maxLevels := 3 }).map TreeNode.questionCount = .ok 0 ∧
    satisfies { column := 0, value := b64 1 } [b64 1] = true ∧ satisfies { column := 0, value := b64 1 } [b64 0] = false := by
  decide +kernel

/-- **C62** needs it as well: the average of 1e308 and 1e308 is infinite. -/
theorem C62_violated_without_bound : ∀ negZero : Bool, let _ := env negZero
    (calculateAverageVector [[b64 (10 ^ 308)], [b64 (10 ^ 308)]]).map (List.map (fun x => decide (x.val = .posInf))) = .ok [true] ∧
    (b64 (10 ^ 308)).val ≠ .posInf := by
  decide +kernel

/-- class labels: five rows of three classes, one-hot -/
def hot5 : DataSet B64 :=
  { featureRows := [[b64 0], [b64 1], [b64 2], [b64 3], [b64 4]]
    labels := [[b64 1, b64 0, b64 0], [b64 1, b64 0, b64 0], [b64 0, b64 1, b64 0], [b64 0, b64 0, b64 1], [b64 0, b64 0, b64 1]]
    featureColumns := [[b64 0, b64 1, b64 2, b64 3, b64 4]] }

-- C64: one-hot labels meet the hypotheses, and the tree asks questions
example : ∀ negZero : Bool, let _ := env negZero
    hot5.WF 1 3 ∧
    (∀ l ∈ hot5.labels, ∃ v : List ℤ, l.map B64.val = ofInts v ∧ ∀ x ∈ v, SmallInt hot5.labels.length x) ∧
    (regressionTreeNew hot5 { useMultiThreading := false, numberOfClasses := 3, maxLevels := 9 }).map TreeNode.questionCount = .ok 2 := by
  intro negZero
  dsimp only
  refine ⟨?_, ?_, by revert negZero; decide +kernel⟩
  · refine @DataSet.WF.mk _ (@instF64B64OfB64Env (env negZero)) _ _ _ ?_ ?_ ?_ ?_ ?_ ?_ ?_ <;> revert negZero <;> decide +kernel
  have hs : ∀ x ∈ [(0 : ℤ), 1], SmallInt hot5.labels.length x := by
    intro x hx
    rcases List.mem_pair.mp hx with rfl | rfl <;> exact ⟨by decide, by decide⟩
  intro l hl
  have : l = [b64 1, b64 0, b64 0] ∨ l = [b64 0, b64 1, b64 0] ∨ l = [b64 0, b64 0, b64 1] := by
    simp only [hot5, List.mem_cons, List.not_mem_nil, or_false] at hl
    tauto
  rcases this with rfl | rfl | rfl
  · exact ⟨[1, 0, 0], by decide +kernel, fun x hx => hs x (by simp at hx ⊢; tauto)⟩
  · exact ⟨[0, 1, 0], by decide +kernel, fun x hx => hs x (by simp at hx ⊢; tauto)⟩
  · exact ⟨[0, 0, 1], by decide +kernel, fun x hx => hs x (by simp at hx ⊢; tauto)⟩

end Verif
