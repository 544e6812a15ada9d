import Verif.Lemmas.Noise
import Verif.Props.ClearCut
/-!
# C94: small noise in the labels does not change a tree without close calls
-/

set_option linter.unusedSectionVars false

namespace Verif

open Sample

section
variable {K : Type} [Field K] [LinearOrder K] [IsStrictOrderedRing K] [FloorSemiring K] [HasExp K]

/-- **C94**.  Two training sets with the same rows, the labels of the second being those of the first with noise of at most `ε` per entry.
If the tree for the first set asks every question by a clear margin, the tree for the second asks the same questions at the same
positions (and maybe more below its leaves). -/
theorem C94_same_questions (d d' : DataSet (Ext K)) (c t : ℕ) (h : d.WF c t) (h' : d'.WF c t) (hrows : d'.featureRows = d.featureRows)
    (ls ls' : List (List K)) (hls : d.labels = lift ls) (hls' : d'.labels = lift ls') (B ε : K) (hB : 0 ≤ B) (hε : 0 ≤ ε)
    (hn : NoiseAtMost ε ls ls') (b : EntriesAtMost B ls) (b' : EntriesAtMost B ls') (cfg : TreeConfig) (ht : cfg.numberOfClasses = t)
    (k : LeafOutputType) :
    (∀ tree tree', regressionTreeNew d cfg = .ok tree → regressionTreeNew d' cfg = .ok tree' →
      ClearBy (noiseTolerance t B ε) d c t tree → ∀ p q, tree.questionAt p = some q → tree'.questionAt p = some q) ∧
    (∀ tree tree', gradBoostTreeNew d cfg k = .ok tree → gradBoostTreeNew d' cfg k = .ok tree' →
      ClearBy (noiseTolerance t B ε) d c t tree → ∀ p q, tree.questionAt p = some q → tree'.questionAt p = some q) ∧
    (∀ tree tree', amgTreeNew d cfg k = .ok tree → amgTreeNew d' cfg k = .ok tree' →
      ClearBy (noiseTolerance t B ε) d c t tree → ∀ p q, tree.questionAt p = some q → tree'.questionAt p = some q) := by
  refine ⟨?_, ?_, ?_⟩
  · intro tree tree' h1 h2 hc
    rw [regressionTreeNew_ok h ht] at h1
    rw [regressionTreeNew_ok h' ht] at h2
    cases h1
    cases h2
    exact (treeOf_noise hB hε _ d d' h h' hrows ls ls' hls hls' hn b b' hc).1
  · intro tree tree' h1 h2 hc
    rw [gradBoostTreeNew_ok h ht] at h1
    rw [gradBoostTreeNew_ok h' ht] at h2
    cases h1
    cases h2
    exact (treeOf_noise hB hε _ d d' h h' hrows ls ls' hls hls' hn b b' hc).1
  · intro tree tree' h1 h2 hc
    rw [amgTreeNew_ok h ht] at h1
    rw [amgTreeNew_ok h' ht] at h2
    cases h1
    cases h2
    exact (treeOf_noise hB hε _ d d' h h' hrows ls ls' hls hls' hn b b' hc).1

/-- **C94** for the tree on pre-sorted features. -/
theorem C94_sorted_tree (d d' : DataSet (Ext K)) (c t : ℕ) (h : d.WF c t) (h' : d'.WF c t) (hrows : d'.featureRows = d.featureRows)
    (ls ls' : List (List K)) (hls : d.labels = lift ls) (hls' : d'.labels = lift ls') (B ε : K) (hB : 0 ≤ B) (hε : 0 ≤ ε)
    (hn : NoiseAtMost ε ls ls') (b : EntriesAtMost B ls) (b' : EntriesAtMost B ls') (cfg : TreeConfig) (ht : cfg.numberOfClasses = t)
    (ht2 : t < 2 ^ 32) (s s' : SortedDataSet (Ext K)) (hs : createDatasetWithSortedFeatures d = .ok s)
    (hs' : createDatasetWithSortedFeatures d' = .ok s') (tree tree' : TreeNode (Ext K) (RegressionLeafNewPartition (Ext K)))
    (hb : regressionTreeNewPartitionNew s cfg = .ok tree) (hb' : regressionTreeNewPartitionNew s' cfg = .ok tree')
    (hc : ClearBy (noiseTolerance t B ε) d c t tree) : ∀ p q, tree.questionAt p = some q → tree'.questionAt p = some q := by
  obtain ⟨_, tr, _, h1, h2, h3, h4⟩ := C23_builders_agree d c t h ht2 cfg ht
  rw [hs] at h1
  cases h1
  rw [hb] at h3
  cases h3
  obtain ⟨_, tr', _, k1, k2, k3, k4⟩ := C23_builders_agree d' c t h' ht2 cfg ht
  rw [hs'] at k1
  cases k1
  rw [hb'] at k3
  cases k3
  have e : ∀ p, tree.questionAt p = tr.questionAt p := fun p => by
    rw [← TreeNode.questionAt_mapLeaves, h4, TreeNode.questionAt_mapLeaves]
  have e' : ∀ p, tree'.questionAt p = tr'.questionAt p := fun p => by
    rw [← TreeNode.questionAt_mapLeaves, k4, TreeNode.questionAt_mapLeaves]
  have hroute : ∀ row, tree.route row = tr.route row := by
    intro row
    rw [← TreeNode.route_mapLeaves, h4, TreeNode.route_mapLeaves]
  have hc' : ClearBy (noiseTolerance t B ε) d c t tr := by
    intro p q hq
    have := hc p q (by rw [e]; exact hq)
    have hr : reaching d tree p = reaching d tr p := by
      rw [reaching, reaching]
      simp only [hroute]
    rw [hr] at this
    exact this
  intro p q hq
  rw [e']
  rw [e] at hq
  exact (C94_same_questions d d' c t h h' hrows ls ls' hls hls' B ε hB hε hn b b' cfg ht .regression).1 tr tr' h2 k2 hc' p q hq

/-- **C94**.  If moreover every leaf above the depth limit holds a single example, the two trees ask the same questions and no others,
every row takes the same way through both, and no entry of a prediction changes by more than the noise `ε`. -/
theorem C94_prediction (d d' : DataSet (Ext K)) (c t : ℕ) (h : d.WF c t) (h' : d'.WF c t) (hrows : d'.featureRows = d.featureRows)
    (ls ls' : List (List K)) (hls : d.labels = lift ls) (hls' : d'.labels = lift ls') (B ε : K) (hB : 0 ≤ B) (hε : 0 ≤ ε)
    (hn : NoiseAtMost ε ls ls') (b : EntriesAtMost B ls) (b' : EntriesAtMost B ls') (cfg : TreeConfig) (ht : cfg.numberOfClasses = t)
    (tree tree' : TreeNode (Ext K) (RegressionLeaf (Ext K))) (hb : regressionTreeNew d cfg = .ok tree)
    (hb' : regressionTreeNew d' cfg = .ok tree') (hc : ClearBy (noiseTolerance t B ε) d c t tree) (hf : FullyGrown d cfg.maxLevels tree) :
    (∀ p, tree'.questionAt p = tree.questionAt p) ∧ (∀ row, tree'.route row = tree.route row) ∧
    ∀ row, c ≤ row.length → ∃ leaf dd a leaf' dd' a', findLeafNodeForData row tree = .ok leaf ∧ leaf.data = some dd ∧
      calculateAverageVector dd.labels = .ok (liftV a) ∧ findLeafNodeForData row tree' = .ok leaf' ∧ leaf'.data = some dd' ∧
      calculateAverageVector dd'.labels = .ok (liftV a') ∧ a.length = t ∧ a'.length = t ∧
      ∀ j < t, |a'.getD j 0 - a.getD j 0| ≤ ε := by
  have e1 := hb
  have e2 := hb'
  rw [regressionTreeNew_ok h ht] at e1
  rw [regressionTreeNew_ok h' ht] at e2
  have hq : ∀ p, tree'.questionAt p = tree.questionAt p := by
    cases e1
    cases e2
    exact (treeOf_noise hB hε _ d d' h h' hrows ls ls' hls hls' hn b b' hc).2 hf
  have hroute : ∀ row, tree'.route row = tree.route row := by
    cases e1
    cases e2
    exact fun row => route_of_questions (treeOf_proper _ _) (treeOf_proper _ _) hq row
  refine ⟨hq, hroute, fun row hrow => ?_⟩
  obtain ⟨leaf, hf, hat⟩ := C21_lookup_total d c t h cfg ht tree hb row hrow
  obtain ⟨dd, hdd, hw, hex⟩ := C19_leaf_contents d c t h cfg ht tree hb _ leaf hat
  obtain ⟨leaf', hf', hat'⟩ := C21_lookup_total d' c t h' cfg ht tree' hb' row hrow
  obtain ⟨dd', hdd', hw', hex'⟩ := C19_leaf_contents d' c t h' cfg ht tree' hb' _ leaf' hat'
  have hl : dd.labels = lift (pick (fun r => decide (tree.route r = tree.route row)) d.featureRows ls) := by
    rw [← examples_snd hw, hex, ← pick_lift, ← hls]
    rfl
  have hl' : dd'.labels = lift (pick (fun r => decide (tree.route r = tree.route row)) d.featureRows ls') := by
    rw [← examples_snd hw', hex', ← pick_lift, ← hls', ← hrows]
    simp only [hroute]
    rfl
  have av : ∀ (dd : DataSet (Ext K)) (l : List (List K)), dd.WF c t → dd.labels = lift l →
      calculateAverageVector dd.labels = .ok (liftV (meanVec t l)) := by
    intro dd l hw hl
    have hne : l ≠ [] := by
      rintro rfl
      exact hw.labels_ne hl
    have hlw : ∀ v ∈ l, v.length = t := by
      intro v hv
      have := hw.label_len (liftV v) (by rw [hl]; exact mem_lift.mpr ⟨v, hv, rfl⟩)
      rwa [liftV_length] at this
    rw [calculateAverageVector_ok hw.labels_ne hw.label_len, hl, avgVec_exact hlw hne]
  refine ⟨leaf, dd, _, leaf', dd', _, hf, hdd, av dd _ hw hl, hf', hdd', av dd' _ hw' hl', by simp [meanVec], by simp [meanVec], ?_⟩
  intro j hj
  have hm : ∀ l : List (List K), (meanVec t l).getD j 0 = meanOf (target l j) := fun l => by simp [meanVec, List.getD, hj]
  rw [hm, hm]
  exact mean_noise hε (target_noise hε (pick_noise _ _ hn) j)

end

/-! ## a case that meets the hypotheses, and a close call -/

namespace Sample

/-- a computable check of `ClearBy` and `FullyGrown` for concrete trees -/
def clearByAt {L : Type} (δ : ℚ) (d : DataSet E) (c t m : ℕ) (tree : TreeNode E L) (p : List Bool) : Bool :=
  let R := reaching d tree p
  let ls := R.map (fun e => e.2.map finPart)
  decide (R.map Prod.snd = lift ls) &&
  match tree.questionAt p with
  | some q =>
    (List.range c).all (fun j => (column (R.map Prod.fst) j).all (fun v =>
      !((column (R.map Prod.fst) j).any (fun w => w <. v)) || decide (((column (R.map Prod.fst) j).filter (fun x => x ==. v)).length = 1))) &&
    decide (δ < varianceReduction t (R.map Prod.fst) ls q) &&
    (List.range c).all (fun j => R.all (fun e =>
      match e.1[j]? with
      | some v => decide ((⟨j, v⟩ : Question E) = q) ||
          decide (varianceReduction t (R.map Prod.fst) ls ⟨j, v⟩ + 2 * δ < varianceReduction t (R.map Prod.fst) ls q)
      | none => true))
  | none => decide (m ≤ p.length) || decide (R.length = 1)

theorem subtree_of_question {F L : Type} [F64 F] {tree : TreeNode F L} (h : tree.Proper) {p : List Bool} {q : Question F}
    (hq : tree.questionAt p = some q) : (tree.subtreeAt p).isSome := by
  induction h generalizing p with
  | leaf q l => cases p <;> simp_all [TreeNode.questionAt]
  | node q' a b _ _ iha ihb =>
    match p with
    | [] => simp [TreeNode.subtreeAt]
    | true :: p => simpa [TreeNode.subtreeAt] using iha (p := p) (by simpa [TreeNode.questionAt] using hq)
    | false :: p => simpa [TreeNode.subtreeAt] using ihb (p := p) (by simpa [TreeNode.questionAt] using hq)

theorem clearBy_of {L : Type} {δ : ℚ} {d : DataSet E} {c t m : ℕ} {tree : TreeNode E L} (h : tree.Proper)
    (hc : tree.preorder.all (clearByAt δ d c t m tree) = true) : ClearBy δ d c t tree ∧ FullyGrown d m tree := by
  have at' : ∀ p, (tree.subtreeAt p).isSome → clearByAt δ d c t m tree p = true :=
    fun p hp => List.all_eq_true.mp hc p (subtree_position h hp)
  refine ⟨fun p q hq => ?_, fun p hp hq hm => ?_⟩
  · have hp := at' p (subtree_of_question h hq)
    simp only [clearByAt, Bool.and_eq_true, decide_eq_true_eq] at hp
    obtain ⟨h1, h2⟩ := hp
    rw [hq] at h2
    simp only [Bool.and_eq_true, decide_eq_true_eq, List.all_eq_true, List.mem_range, Bool.or_eq_true, Bool.not_eq_true',
      List.any_eq_false] at h2
    obtain ⟨⟨a1, a2⟩, a3⟩ := h2
    refine ⟨_, h1, ?_, a2, ?_⟩
    · intro j hj v hv ⟨w, hw, hwv⟩
      rcases a1 j hj v hv with h0 | h0
      · exact absurd hwv (h0 w hw)
      · exact h0
    · rintro ⟨j, v⟩ hj ⟨e, he, hv⟩ hne
      have := a3 j hj e he
      dsimp only at hv
      rw [hv] at this
      simp only [Bool.or_eq_true, decide_eq_true_eq] at this
      exact this.resolve_left hne
  · have hp := at' p hp
    simp only [clearByAt, Bool.and_eq_true, decide_eq_true_eq] at hp
    obtain ⟨_, h2⟩ := hp
    rw [hq] at h2
    simp only [Bool.or_eq_true, decide_eq_true_eq] at h2
    omega

/-- four rows with two targets -/
def clean4 : DataSet E :=
  { featureRows := [[0], [1], [2], [3]], labels := [[0, 1], [2, 1], [8, 0], [9, 3]], featureColumns := [[0, 1, 2, 3]] }

/-- the same rows with noise of at most 1/100 in the labels -/
def noisy4 : DataSet E :=
  { featureRows := [[0], [1], [2], [3]], featureColumns := [[0, 1, 2, 3]]
    labels := [[.fin (1 / 200), 1], [.fin (199 / 100), .fin (101 / 100)], [8, 0], [.fin (901 / 100), 3]] }

def clean4Cfg (t m : ℕ) : TreeConfig := { useMultiThreading := false, numberOfClasses := t, maxLevels := m }

/-- three rows, the label `a` for the first and the label `b` for the last -/
def even3 (a b : ℚ) : DataSet E :=
  { featureRows := [[0], [1], [2]], labels := [[.fin a], [.fin 1], [.fin b]], featureColumns := [[0, 1, 2]] }

end Sample

theorem clean4_wf : clean4.WF 1 2 := by constructor <;> decide +kernel

theorem noisy4_wf : noisy4.WF 1 2 := by constructor <;> decide +kernel

/-- `clean4` and `noisy4` meet the hypotheses of C94, with one question and with three. -/
theorem clean4_clear : noisy4.featureRows = clean4.featureRows ∧ clean4.labels = lift [[0, 1], [2, 1], [8, 0], [9, 3]] ∧
    noisy4.labels = lift [[1 / 200, 1], [199 / 100, 101 / 100], [8, 0], [901 / 100, 3]] ∧
    NoiseAtMost (1 / 100 : ℚ) [[0, 1], [2, 1], [8, 0], [9, 3]] [[1 / 200, 1], [199 / 100, 101 / 100], [8, 0], [901 / 100, 3]] ∧
    EntriesAtMost (10 : ℚ) [[0, 1], [2, 1], [8, 0], [9, 3]] ∧ EntriesAtMost (10 : ℚ) [[1 / 200, 1], [199 / 100, 101 / 100], [8, 0], [901 / 100, 3]] ∧
    ∀ m ∈ [1, 5], ∃ tree, regressionTreeNew clean4 (clean4Cfg 2 m) = .ok tree ∧ tree.questionCount = (if m = 1 then 1 else 3) ∧
      ClearBy (noiseTolerance 2 10 (1 / 100)) clean4 1 2 tree ∧ FullyGrown clean4 m tree := by
  refine ⟨rfl, by decide +kernel, by decide +kernel, ?_, ?_, ?_, ?_⟩
  · repeat' first | exact List.Forall₂.nil | refine List.Forall₂.cons ?_ ?_
    all_goals norm_num [abs_le]
  · unfold EntriesAtMost; decide +kernel
  · unfold EntriesAtMost; decide +kernel
  · have hb : ∀ m ∈ [1, 5], (regressionTreeNew clean4 (clean4Cfg 2 m)).map (fun tree =>
        (tree.questionCount, tree.preorder.all (clearByAt (noiseTolerance 2 10 (1 / 100)) clean4 1 2 m tree))) =
          .ok (if m = 1 then 1 else 3, true) := by decide +kernel
    intro m hm
    have hb := hb m hm
    have ht := regressionTreeNew_ok clean4_wf (show (clean4Cfg 2 m).numberOfClasses = 2 from rfl)
    rw [ht] at hb
    have hb := Except.ok.inj hb
    obtain ⟨k1, k2⟩ := clearBy_of (treeOf_proper _ _) (Prod.mk.inj hb).2
    exact ⟨_, ht, (Prod.mk.inj hb).1, k1, k2⟩

theorem even3_wf (a b : ℚ) : (even3 a b).WF 1 1 := by
  have h0 : (even3 0 0).WF 1 1 := by constructor <;> decide +kernel
  refine ⟨h0.rows_ne, h0.row_len, ?_, ?_, h0.cols, h0.no_nan, ?_⟩
  all_goals simp [even3]

theorem even3_reduction (a b : ℚ) :
    varianceReduction 1 [[(0 : E)], [1], [2]] [[a], [1], [b]] ⟨0, 0⟩ = 0 ∧
    varianceReduction 1 [[(0 : E)], [1], [2]] [[a], [1], [b]] ⟨0, 1⟩ = 2 / 9 * (a - (1 + b) / 2) ^ 2 ∧
    varianceReduction 1 [[(0 : E)], [1], [2]] [[a], [1], [b]] ⟨0, 2⟩ = 2 / 9 * ((a + 1) / 2 - b) ^ 2 := by
  have s00 : satisfies (⟨0, 0⟩ : Question E) [0] = true := by decide +kernel
  have s01 : satisfies (⟨0, 0⟩ : Question E) [1] = true := by decide +kernel
  have s02 : satisfies (⟨0, 0⟩ : Question E) [2] = true := by decide +kernel
  have s10 : satisfies (⟨0, 1⟩ : Question E) [0] = false := by decide +kernel
  have s11 : satisfies (⟨0, 1⟩ : Question E) [1] = true := by decide +kernel
  have s12 : satisfies (⟨0, 1⟩ : Question E) [2] = true := by decide +kernel
  have s20 : satisfies (⟨0, 2⟩ : Question E) [0] = false := by decide +kernel
  have s21 : satisfies (⟨0, 2⟩ : Question E) [1] = false := by decide +kernel
  have s22 : satisfies (⟨0, 2⟩ : Question E) [2] = true := by decide +kernel
  refine ⟨?_, ?_, ?_⟩ <;>
    simp [varianceReduction, noLabels, yesLabels, totalVar, target, varOf, sqDev, meanOf, s00, s01, s02, s10, s11, s12, s20, s21, s22,
      List.range_succ] <;> ring

/-- **C94** needs the margin: both questions about three evenly spaced labels 0, 1, 2 are equally good, and noise of any size decides
which of them is asked. -/
theorem C94_violated_by_close_call (ε : ℚ) (hε : 0 < ε) :
    (even3 0 (2 + ε)).featureRows = (even3 0 2).featureRows ∧ (even3 (-ε) 2).featureRows = (even3 0 2).featureRows ∧
    NoiseAtMost ε [[0], [1], [2]] [[0], [1], [2 + ε]] ∧ NoiseAtMost ε [[0], [1], [2]] [[-ε], [1], [2]] ∧
    (∃ tree, regressionTreeNew (even3 0 (2 + ε)) (clean4Cfg 1 1) = .ok tree ∧ tree.questionAt [] = some ⟨0, 2⟩) ∧
    (∃ tree, regressionTreeNew (even3 (-ε) 2) (clean4Cfg 1 1) = .ok tree ∧ tree.questionAt [] = some ⟨0, 1⟩) := by
  have key : ∀ (a b : ℚ) (v w : E), (v = 1 ∧ w = 2 ∧ 2 / 9 * ((a + 1) / 2 - b) ^ 2 < 2 / 9 * (a - (1 + b) / 2) ^ 2 ∨
      v = 2 ∧ w = 1 ∧ 2 / 9 * (a - (1 + b) / 2) ^ 2 < 2 / 9 * ((a + 1) / 2 - b) ^ 2) →
      ∃ tree, regressionTreeNew (even3 a b) (clean4Cfg 1 1) = .ok tree ∧ tree.questionAt [] = some ⟨0, v⟩ := by
    intro a b v w hv
    obtain ⟨r0, r1, r2⟩ := even3_reduction a b
    have hw := even3_wf a b
    have hls : (even3 a b).labels = lift [[a], [1], [b]] := rfl
    have hrows : (even3 a b).featureRows = [[(0 : E)], [1], [2]] := rfl
    have hg : ((splitOf (even3 a b) 1).gain ==. F64.zero) = false := by
      obtain ⟨g, h2, _, _, h3, _⟩ := splitOf_exact hw hls
      by_contra h0
      rw [Bool.not_eq_false, h2] at h0
      have h0 : g = 0 := by simpa using h0
      have k1 := h3 ⟨0, 1⟩ (by decide)
      have k2 := h3 ⟨0, 2⟩ (by decide)
      rw [hrows, r1, h0] at k1
      rw [hrows, r2, h0] at k2
      have n1 : 0 ≤ 2 / 9 * (a - (1 + b) / 2) ^ 2 := by positivity
      have n2 : 0 ≤ 2 / 9 * ((a + 1) / 2 - b) ^ 2 := by positivity
      rcases hv with ⟨_, _, h⟩ | ⟨_, _, h⟩ <;> linarith
    obtain ⟨h1, h2⟩ := C12_optimal_without_ties (even3 a b) 1 1 hw _ hls (by rw [hrows]; unfold TiesOnlyAtMinimum; decide +kernel) _
      (findBestSplit_ok hw) hg
    obtain ⟨_, hc, ⟨row, hrow, hval⟩, _, _⟩ := splitOf_separates hw hg
    rw [hrows] at hrow h1 h2
    have hq : (splitOf (even3 a b) 1).question = ⟨0, 0⟩ ∨ (splitOf (even3 a b) 1).question = ⟨0, 1⟩ ∨
        (splitOf (even3 a b) 1).question = ⟨0, 2⟩ := by
      generalize (splitOf (even3 a b) 1).question = q at hc hval
      obtain ⟨j, x⟩ := q
      obtain rfl : j = 0 := by simpa using hc
      simp only [List.mem_cons, List.not_mem_nil, or_false] at hrow
      rcases hrow with rfl | rfl | rfl <;> simp_all
    refine ⟨_, regressionTreeNew_ok hw rfl, ?_⟩
    rw [show (clean4Cfg 1 1).maxLevels = 0 + 1 from rfl, treeOf_node hg]
    simp only [TreeNode.new, TreeNode.questionAt]
    have k1 := h2 ⟨0, 1⟩ (by decide)
    have k2 := h2 ⟨0, 2⟩ (by decide)
    have n1 : 0 ≤ 2 / 9 * (a - (1 + b) / 2) ^ 2 := by positivity
    have n2 : 0 ≤ 2 / 9 * ((a + 1) / 2 - b) ^ 2 := by positivity
    rw [r1] at k1
    rw [r2] at k2
    rcases hq with hq | hq | hq <;> rw [hq] at k1 k2 ⊢
    · rw [r0] at k1 k2
      rcases hv with ⟨_, _, h⟩ | ⟨_, _, h⟩ <;> linarith
    · rw [r1] at k2
      rcases hv with ⟨rfl, _, h⟩ | ⟨_, _, h⟩
      · rfl
      · linarith
    · rw [r2] at k1
      rcases hv with ⟨_, _, h⟩ | ⟨rfl, _, h⟩
      · linarith
      · rfl
  refine ⟨rfl, rfl, ?_, ?_, key _ _ 2 1 (.inr ⟨rfl, rfl, ?_⟩), key _ _ 1 2 (.inl ⟨rfl, rfl, ?_⟩)⟩
  · repeat' first | exact List.Forall₂.nil | refine List.Forall₂.cons ?_ ?_
    all_goals simp [abs_of_pos hε, hε.le]
  · repeat' first | exact List.Forall₂.nil | refine List.Forall₂.cons ?_ ?_
    all_goals simp [abs_of_pos hε, hε.le]
  · nlinarith
  · nlinarith

end Verif
