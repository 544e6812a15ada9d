import Verif.Lemmas.Stop
import Verif.Props.Growth
import Verif.Props.FullFit
import Verif.Props.LeastSquares
import Verif.Props.SingleTree
import Verif.Props.Progress
/-!
# C117: exactly when learning stops
-/

set_option linter.unusedSectionVars false

namespace Verif

open Sample

section
variable {K : Type} [Field K] [LinearOrder K] [IsStrictOrderedRing K] [FloorSemiring K] [HasExp K]

/-- **C117** (split search).  The reported gain is zero exactly if every row for which another row has a smaller value in some feature has the
mean label. -/
theorem C117_gain (d : DataSet (Ext K)) (c t : Nat) (h : d.WF c t) (ls : List (List K)) (hls : d.labels = lift ls) :
    ∃ s, findBestSplit d t = .ok s ∧ ((s.gain ==. F64.zero) = true ↔ NothingLeft t (d.featureRows.zip ls)) :=
  ⟨_, findBestSplit_ok h, gain_zero_iff h hls⟩

theorem grown_stops {L : Type} {d : DataSet (Ext K)} {c t m : Nat} {ls : List (List K)} (hls : d.labels = lift ls)
    {tree : TreeNode (Ext K) L} (h : GrownGreedily d c t m tree) {p : List Bool} (hp : (tree.subtreeAt p).isSome) :
    tree.questionAt p = none ↔ m ≤ p.length ∨ NothingLeft t ((d.featureRows.zip ls).filter (fun e => p.isPrefixOf (tree.route e.1))) := by
  obtain ⟨dd, s, hw, he, hs, hq⟩ := h p hp
  rw [findBestSplit_ok hw] at hs
  rw [← Except.ok.inj hs] at hq
  set es := (d.featureRows.zip ls).filter (fun e => p.isPrefixOf (tree.route e.1)) with hes
  have hex : dd.examples = es.map (fun e => (e.1, liftV e.2)) := by
    rw [he, reaching, examples_lift hls, List.filter_map]
    rfl
  have h1 : dd.labels = lift (es.map Prod.snd) := by
    rw [labels_of_examples hw, hex, List.map_map, lift, List.map_map]
    rfl
  have h2 : dd.featureRows = es.map Prod.fst := by
    have : dd.featureRows = dd.examples.map Prod.fst := by rw [DataSet.examples, List.map_fst_zip hw.label_count.ge]
    rw [this, hex, List.map_map]
    rfl
  have h3 : dd.featureRows.zip (es.map Prod.snd) = es := by
    rw [h2, List.zip_map']
    simp
  have hg := gain_zero_iff hw h1
  rw [h3] at hg
  rw [hq, ← hg]
  by_cases hl : p.length < m
  · cases hc : ((splitOf dd t).gain ==. F64.zero) with
    | true => simp
    | false => simp [hl, Nat.not_le.mpr hl]
  · simp [hl, Nat.le_of_not_lt hl]

/-- **C117** (trees).  Wherever one of the four builders could ask a question, it asks none exactly if the depth limit is reached or, among the
training examples that arrive there, every row that is not the smallest in all features has the mean label. -/
theorem C117_leaves (d : DataSet (Ext K)) (c t : Nat) (h : d.WF c t) (ls : List (List K)) (hls : d.labels = lift ls)
    (cfg : TreeConfig) (ht : cfg.numberOfClasses = t) (k : LeafOutputType) :
    (∀ tree, regressionTreeNew d cfg = .ok tree → ∀ p, (tree.subtreeAt p).isSome → (tree.questionAt p = none ↔
      cfg.maxLevels ≤ p.length ∨ NothingLeft t ((d.featureRows.zip ls).filter (fun e => p.isPrefixOf (tree.route e.1))))) ∧
    (∀ tree, gradBoostTreeNew d cfg k = .ok tree → ∀ p, (tree.subtreeAt p).isSome → (tree.questionAt p = none ↔
      cfg.maxLevels ≤ p.length ∨ NothingLeft t ((d.featureRows.zip ls).filter (fun e => p.isPrefixOf (tree.route e.1))))) ∧
    (∀ tree, amgTreeNew d cfg k = .ok tree → ∀ p, (tree.subtreeAt p).isSome → (tree.questionAt p = none ↔
      cfg.maxLevels ≤ p.length ∨ NothingLeft t ((d.featureRows.zip ls).filter (fun e => p.isPrefixOf (tree.route e.1))))) ∧
    (t < 2 ^ 32 → ∀ s, createDatasetWithSortedFeatures d = .ok s → ∀ tree, regressionTreeNewPartitionNew s cfg = .ok tree →
      ∀ p, (tree.subtreeAt p).isSome → (tree.questionAt p = none ↔
        cfg.maxLevels ≤ p.length ∨ NothingLeft t ((d.featureRows.zip ls).filter (fun e => p.isPrefixOf (tree.route e.1))))) := by
  obtain ⟨h1, h2, h3⟩ := C48_grown_greedily d c t h cfg ht k
  exact ⟨fun tree htree p hp => grown_stops hls (h1 tree htree) hp, fun tree htree p hp => grown_stops hls (h2 tree htree) hp,
    fun tree htree p hp => grown_stops hls (h3 tree htree) hp,
    fun ht2 s hs tree htree p hp => grown_stops hls (C48_grown_greedily_sorted d c t h ht2 cfg s hs tree htree) hp⟩

/-- the error of predicting the mean label of the copies -/
theorem copyMean_least {d : DataSet (Ext K)} {c t : Nat} (h : d.WF c t) {ls : List (List K)} (hls : d.labels = lift ls)
    (g : List (Ext K) → List K) (hg : ∀ row, (g row).length = t)
    (hgs : ∀ row ∈ d.featureRows, ∀ row' ∈ d.featureRows, SameFeatures row row' → g row = g row') :
    mseOf (d.featureRows.map g) ls = mseOf (d.featureRows.map (copyMean t (d.featureRows.zip ls))) ls +
      mseOf (d.featureRows.map g) (d.featureRows.map (copyMean t (d.featureRows.zip ls))) := by
  classical
  have hll : ls.length = d.featureRows.length := by rw [← h.label_count, hls, lift_length]
  have hcl : ∀ row, (copyMean t (d.featureRows.zip ls) row).length = t := fun _ => meanVec_length _ _
  -- rows with the same features, as a key
  let key : List (Ext K) → Set (List (Ext K)) := fun row => {r | SameFeatures row r}
  have hkey : ∀ a ∈ d.featureRows, ∀ b ∈ d.featureRows, key b = key a ↔ SameFeatures a b := by
    intro a ha b hb
    have la := h.row_len a ha
    have lb := h.row_len b hb
    constructor
    · intro hk
      have : b ∈ key b := SameFeatures.refl (h.no_nan b hb)
      rw [hk] at this
      exact this
    · intro hs
      ext r
      exact ⟨fun hr => hs.trans (by omega) hr, fun hr => hs.symm.trans (by omega) hr⟩
  have hsplit := group_split t key g (d.featureRows.zip ls) (by
    intro a ha b hb hk
    have ha := (List.of_mem_zip (show (a.1, a.2) ∈ _ from ha)).1
    have hb := (List.of_mem_zip (show (b.1, b.2) ∈ _ from hb)).1
    exact hgs _ ha _ hb ((hkey _ ha _ hb).mp hk.symm))
  have hmean : ∀ e ∈ d.featureRows.zip ls, meanVec t (((d.featureRows.zip ls).filter (fun b => decide (key b.1 = key e.1))).map Prod.snd) =
      copyMean t (d.featureRows.zip ls) e.1 := by
    intro e he
    rw [copyMean, copies]
    congr 2
    apply List.filter_congr
    intro b hb
    have he := (List.of_mem_zip (show (e.1, e.2) ∈ _ from he)).1
    have hb := (List.of_mem_zip (show (b.1, b.2) ∈ _ from hb)).1
    rw [Bool.eq_iff_iff, decide_eq_true_iff, sameFeatures_iff]
    exact hkey _ he _ hb
  have h3 : mseOf (d.featureRows.map g) (d.featureRows.map (copyMean t (d.featureRows.zip ls))) =
      ((d.featureRows.zip ls).map (fun e => ((List.range t).map (fun j => ((g e.1).getD j 0 -
        (copyMean t (d.featureRows.zip ls) e.1).getD j 0) ^ 2)).sum)).sum / t / d.featureRows.length := by
    rw [mseOf, List.length_map]
    congr 1
    rw [div_eq_mul_inv, ← List.sum_map_mul_right, List.zipWith_map, List.zipWith_self]
    have : d.featureRows.map (fun row => sqErr (g row) (copyMean t (d.featureRows.zip ls) row)) =
        (d.featureRows.zip ls).map (fun e => sqErr (g e.1) (copyMean t (d.featureRows.zip ls) e.1)) := by
      conv_lhs => rw [← List.map_fst_zip (l₁ := d.featureRows) (l₂ := ls) (by omega), List.map_map]
      rw [List.map_fst_zip (l₁ := d.featureRows) (l₂ := ls) (by omega)]
      rfl
    rw [this]
    congr 1
    apply List.map_congr_left
    intro e _
    rw [sqErr_eq (hg _) (hcl _), div_eq_mul_inv]
  rw [h3, mse_mates h hls g hg, mse_mates h hls _ hcl, hsplit, ← add_div, ← add_div]
  congr 3
  · congr 1
    apply List.map_congr_left
    intro e he
    rw [hmean e he]
  · congr 1
    apply List.map_congr_left
    intro e he
    rw [hmean e he]

/-- **C117** (deep trees).  A regression tree that may grow `N - 1` levels on `N` training rows predicts for every training row the mean label of the
rows with the same features, whatever the data.  Its training error is the smallest that any predictions can have that do not
tell rows with the same features apart. -/
theorem C117_deep_tree (d : DataSet (Ext K)) (c t : Nat) (h : d.WF c t) (ht0 : 0 < t) (ls : List (List K)) (hls : d.labels = lift ls)
    (cfg : TreeConfig) (hc : cfg.numberOfClasses = t) (hm : d.featureRows.length ≤ cfg.maxLevels + 1) :
    ∃ tree e, regressionTreeNew d cfg = .ok tree ∧
      (∀ row ∈ d.featureRows, ∃ leaf dd, findLeafNodeForData row tree = .ok leaf ∧ leaf.data = some dd ∧
        calculateAverageVector dd.labels = .ok (liftV (copyMean t (d.featureRows.zip ls) row))) ∧
      calculateOverallMse d tree = .ok (.fin e) ∧ e = mseOf (d.featureRows.map (copyMean t (d.featureRows.zip ls))) ls ∧
      ∀ g : List (Ext K) → List K, (∀ row, (g row).length = t) →
        (∀ row ∈ d.featureRows, ∀ row' ∈ d.featureRows, SameFeatures row row' → g row = g row') → e ≤ mseOf (d.featureRows.map g) ls := by
  have hlw := lift_width hls h.label_len
  have hll : ls.length = d.featureRows.length := by rw [← h.label_count, hls, lift_length]
  have hb := regressionTreeNew_ok h hc
  have hcop := treeOf_copies (leafOf := regLeaf) h hls hm
  refine ⟨_, _, hb, ?_, overallMse_exact h ht0 hls cfg.maxLevels (fun row hr => (h.row_len row hr).ge) hls hlw hll h.rows_ne, ?_, ?_⟩
  · intro row hrow
    obtain ⟨leaf, hf, hat⟩ := C21_lookup_total d c t h cfg hc _ hb row (h.row_len row hrow).ge
    obtain ⟨dd, hdd, hw, hex⟩ := C19_leaf_contents d c t h cfg hc _ hb _ leaf hat
    obtain ⟨h1, h2, h3⟩ := mates_ok hls hw hex
    refine ⟨leaf, dd, hf, hdd, ?_⟩
    rw [calculateAverageVector_ok hw.labels_ne hw.label_len, h1, avgVec_exact h3 h2, hcop row hrow]
  · rw [List.map_congr_left hcop]
  · intro g hg hgs
    rw [List.map_congr_left hcop, copyMean_least h hls g hg hgs]
    linarith [mseOf_nonneg (d.featureRows.map g) (d.featureRows.map (copyMean t (d.featureRows.zip ls)))]

theorem consistent_of_fit {d : DataSet (Ext K)} {c t : Nat} (h : d.WF c t) (ht0 : 0 < t) {ls : List (List K)} (hls : d.labels = lift ls)
    {g : List (Ext K) → List K} (hg : ∀ row, (g row).length = t)
    (hgs : ∀ row ∈ d.featureRows, ∀ row' ∈ d.featureRows, SameFeatures row row' → g row = g row')
    (he : mseOf (d.featureRows.map g) ls = 0) : NoContradictions d.featureRows d.labels := by
  have hlw := lift_width hls h.label_len
  have hll : ls.length = d.featureRows.length := by rw [← h.label_count, hls, lift_length]
  rw [mseOf_eq_zero ht0 (by
    intro p hp
    obtain ⟨row, _, rfl⟩ := List.mem_map.mp hp
    exact hg row) hlw (by simp [hll]) (by simpa using h.rows_ne)] at he
  rw [hls, ← he, lift, List.map_map]
  intro e hmem e' hmem' hs
  have key : ∀ x ∈ d.featureRows.zip (d.featureRows.map (liftV ∘ g)), x.1 ∈ d.featureRows ∧ x.2 = liftV (g x.1) := by
    intro x hx
    rw [List.zip_map_right, List.mem_map] at hx
    obtain ⟨⟨a, b⟩, hy, rfl⟩ := hx
    have hab : a = b := by
      obtain ⟨i, hi, hxy⟩ := List.getElem_of_mem hy
      simp only [List.getElem_zip, Prod.mk.injEq] at hxy
      exact hxy.1.symm.trans hxy.2
    subst hab
    exact ⟨(List.of_mem_zip hy).1, rfl⟩
  obtain ⟨k1, k2⟩ := key e hmem
  obtain ⟨k3, k4⟩ := key e' hmem'
  rw [k2, k4, hgs _ k1 _ k3 hs]

/-- **C117** (zero training error).  A regression tree of any depth reproduces all training labels only if no two training examples contradict
each other, and if it may grow `N - 1` levels, it does so exactly then. -/
theorem C117_zero_error (d : DataSet (Ext K)) (c t : Nat) (h : d.WF c t) (ht0 : 0 < t) (ls : List (List K)) (hls : d.labels = lift ls)
    (cfg : TreeConfig) (hc : cfg.numberOfClasses = t) :
    ∃ tree, regressionTreeNew d cfg = .ok tree ∧
      (calculateOverallMse d tree = .ok (.fin 0) → NoContradictions d.featureRows d.labels) ∧
      (d.featureRows.length ≤ cfg.maxLevels + 1 →
        (calculateOverallMse d tree = .ok (.fin 0) ↔ NoContradictions d.featureRows d.labels)) := by
  have hlw := lift_width hls h.label_len
  have hll : ls.length = d.featureRows.length := by rw [← h.label_count, hls, lift_length]
  have hmse := overallMse_exact h ht0 hls cfg.maxLevels (fun row hr => (h.row_len row hr).ge) hls hlw hll h.rows_ne
  have key : calculateOverallMse d (treeOf regLeaf c t cfg.maxLevels d) = .ok (.fin 0) → NoContradictions d.featureRows d.labels := by
    intro h0
    rw [hmse] at h0
    refine consistent_of_fit h ht0 hls (fun _ => meanVec_length _ _) ?_ (Ext.fin.inj (Except.ok.inj h0))
    intro row hr row' hr' hs
    rw [mates, mates, hs.route (by rw [h.row_len row hr, h.row_len row' hr']) (treeOf_proper _ _)]
  refine ⟨_, regressionTreeNew_ok h hc, key, fun hm => ⟨key, fun hd => ?_⟩⟩
  obtain ⟨tree, h1, h2⟩ := C56_tree_fits d c t h ht0 ls hls hd cfg hc hm
  rw [regressionTreeNew_ok h hc] at h1
  rw [← Except.ok.inj h1] at h2
  exact h2

/-- **C117** (deep ensembles).  With deep trees, `k` iterations move the prediction for every training row from the mean label to the mean label of
the rows with the same features, up to the fraction `(1 - lr)^k`.  The training error is the error that no function of the features
can avoid plus `(1 - lr)^(2k)` times the mean squared distance between the two. -/
theorem C117_deep_ensemble (d : DataSet (Ext K)) (c t : Nat) (h : d.WF c t) (ht0 : 0 < t) (ls : List (List K)) (hls : d.labels = lift ls)
    (cfg : TreeConfig) (hc : cfg.numberOfClasses = t) (hm : d.featureRows.length ≤ cfg.maxLevels + 1) (k : Nat) (lr : K) :
    ∃ m, regressionTrain d cfg k (.fin lr) = .ok m ∧
      (∀ row ∈ d.featureRows, regressionPredict m row =
        .ok (liftV (between t ((1 - lr) ^ k) (meanVec t ls) (copyMean t (d.featureRows.zip ls) row)))) ∧
      regressionScore m d = .ok (.fin (mseOf (d.featureRows.map (copyMean t (d.featureRows.zip ls))) ls +
        (1 - lr) ^ (2 * k) * mseOf (d.featureRows.map (copyMean t (d.featureRows.zip ls))) (d.featureRows.map (fun _ => meanVec t ls)))) := by
  have hlw := lift_width hls h.label_len
  have hll : ls.length = d.featureRows.length := by rw [← h.label_count, hls, lift_length]
  have hbl : ∀ (w : K) (u v : List K), (between t w u v).length = t := by intro w u v; simp [between]
  have hcl : ∀ row, (copyMean t (d.featureRows.zip ls) row).length = t := fun _ => meanVec_length _ _
  set P : Nat → List (Ext K) → List K := fun k row => between t ((1 - lr) ^ k) (meanVec t ls) (copyMean t (d.featureRows.zip ls) row)
    with hPdef
  have hPs : ∀ k, ∀ row ∈ d.featureRows, ∀ row' ∈ d.featureRows, SameFeatures row row' → P k row = P k row' := by
    intro k row hr row' hr' hs
    simp only [hPdef]
    rw [copyMean_same h hr hr' hs]
  have key : ∃ s, regLoopAt d cfg lr (liftV (meanVec t ls)) k = .ok s ∧ RegState d c t ls cfg lr s (d.featureRows.map (P k)) := by
    induction k with
    | zero =>
      refine ⟨_, rfl, ?_⟩
      have h0 := regState_start (cfg := cfg) (lr := lr) h hls
      have he : d.featureRows.map (P 0) = List.replicate ls.length (meanVec t ls) := by
        rw [List.eq_replicate_iff]
        refine ⟨by simp [hll], ?_⟩
        intro v hv
        obtain ⟨l, _, rfl⟩ := List.mem_map.mp hv
        rw [eq_range_getD (meanVec_length t ls) 0]
        simp only [hPdef, between]
        apply List.map_congr_left
        intro i hi
        ring
      rw [he]
      exact h0
    | succ k ih =>
      obtain ⟨s, h1, hs⟩ := ih
      obtain ⟨s', ps', h3, hs', _⟩ := regState_step h hls hc hs
      have hg : (liftV (meanVec t ls) : List (Ext K)).length = t := by rw [liftV_length, meanVec_length]
      obtain ⟨h4, _⟩ := regression_step_exact h hls hc hg hs.finite h3
      have hps := lift_injective (hs'.finite.labels.symm.trans h4.labels)
      refine ⟨s', by rw [regLoopAt] at h1 ⊢; rw [boostLoop_succ, h1]; exact h3, ?_⟩
      have hwr := resid_wf h hls hs.finite.len hs.finite.width
      have hcop := treeOf_copies (leafOf := gradLeaf .regression t) hwr rfl hm
      have he : d.featureRows.map (P (k + 1)) = ps' := by
        rw [hps, updated, List.zipWith_map_left, List.zipWith_self]
        apply List.map_congr_left
        intro row hrow
        rw [residOut, hcop row hrow]
        simp only
        rw [resid, copyMean_resid hll hlw h.no_nan (fun _ => hbl _ _ _) (hPs k) hrow, zipWith_getD (hcl row) (hbl _ _ _) 0 0,
          List.map_map, zipWith_getD (hbl _ _ _) (by simp) 0 0]
        simp only [hPdef, between]
        apply List.map_congr_left
        intro q hq
        rw [List.mem_range] at hq
        rw [getD_range hq, getD_range hq]
        simp only [Function.comp_apply]
        rw [getD_range hq]
        ring
      rw [he]
      exact hs'
  obtain ⟨s, h1, hs⟩ := key
  have hpred := predict_of_state h hs
  refine ⟨_, regressionTrain_of_loop h hls h1, ?_, ?_⟩
  · intro row hrow
    rw [lift, List.map_map] at hpred
    obtain ⟨i, hi, rfl⟩ := List.getElem_of_mem hrow
    obtain ⟨y, hy1, hy2⟩ := mapM_get hpred (List.getElem?_eq_getElem hi)
    rw [List.getElem?_map, List.getElem?_eq_getElem hi] at hy1
    cases Option.some.inj hy1
    exact hy2
  · rw [(C29_ensemble_exact _ d t ht0 _ ls hpred hls hs.finite.width hlw hll h.rows_ne).1, 
      mseOf_comm (by simp [hll]) hlw hs.finite.width, copyMean_least h hls _ (fun _ => hbl _ _ _) (hPs k)]
    congr 3
    rw [mseOf, mseOf, List.length_map, List.length_map, mul_div_assoc', List.zipWith_map, List.zipWith_map, List.zipWith_self,
      List.zipWith_self, ← List.sum_map_mul_left]
    congr 2
    apply List.map_congr_left
    intro row _
    rw [sqErr_eq (hbl _ _ _) (hcl _), sqErr_eq (hcl _) (meanVec_length _ _), mul_div_assoc', ← List.sum_map_mul_left]
    congr 2
    apply List.map_congr_left
    intro q hq
    rw [List.mem_range] at hq
    rw [between, getD_range hq, mul_comm 2 k, pow_mul]
    ring

end

/-! ## The hypotheses are met -/

section samples

/-- two examples with the features 0 whose labels have the mean 1, and one with the feature 1 and the label 1 -/
def settled : DataSet E := { featureRows := [[0], [0], [1]], labels := [[0], [2], [1]], featureColumns := [[0, 0, 1]] }

theorem settled_wf : settled.WF 1 1 := by
  refine ⟨by decide, by decide, by decide, by decide, ?_, by decide +kernel, by decide⟩
  decide

-- the labels differ, and yet there is nothing left to learn: the gain is zero, and no tree asks a question
example : NothingLeft 1 (settled.featureRows.zip [[0], [2], [1]]) := by
  rw [← gain_zero_iff settled_wf rfl]
  decide +kernel
example : (findBestSplit settled 1).map (fun s => s.gain) = .ok (.fin 0) := by decide +kernel
-- the deep tree has the error 2/3 of predicting the mean of each group of copies, and so has every ensemble
example : (do
    let tree ← regressionTreeNew settled { useMultiThreading := false, numberOfClasses := 1, maxLevels := 2 }
    calculateOverallMse settled tree) = .ok (.fin (2 / 3)) := by decide +kernel
example : mseOf (settled.featureRows.map (copyMean 1 (settled.featureRows.zip [[0], [2], [1]]))) [[0], [2], [1]] = (2 / 3 : ℚ) := by decide +kernel
-- a group of copies that the features set apart
def twoGroups : DataSet E := { featureRows := [[0], [0], [1], [1]], labels := [[0], [2], [5], [5]], featureColumns := [[0, 0, 1, 1]] }

theorem twoGroups_wf : twoGroups.WF 1 1 := by
  refine ⟨by decide, by decide, by decide, by decide, ?_, by decide +kernel, by decide⟩
  decide

example : ¬ NothingLeft 1 (twoGroups.featureRows.zip [[0], [2], [5], [5]]) := by
  rw [← gain_zero_iff twoGroups_wf rfl]
  decide +kernel
example : twoGroups.featureRows.map (copyMean 1 (twoGroups.featureRows.zip [[0], [2], [5], [5]])) = [[1], [1], [5], [5]] := by decide +kernel
-- with learning rate 1/2, one iteration moves the predictions halfway from the mean label 3 to 1 and 5
example : (do
    let m ← regressionTrain twoGroups { useMultiThreading := false, numberOfClasses := 1, maxLevels := 3 } 1 (.fin (1 / 2))
    twoGroups.featureRows.mapM (regressionPredict m)) = .ok [[2], [2], [4], [4]] := by decide +kernel
example : (do
    let m ← regressionTrain twoGroups { useMultiThreading := false, numberOfClasses := 1, maxLevels := 3 } 1 (.fin (1 / 2))
    regressionScore m twoGroups) = .ok (.fin (1 / 2 + (1 / 2) ^ 2 * 4)) := by decide +kernel
-- a contradiction-free table on which no single question helps
example : (do
    let tree ← regressionTreeNew xor { useMultiThreading := false, numberOfClasses := 1, maxLevels := 3 }
    calculateOverallMse xor tree) = .ok (.fin 0) := by decide +kernel

end samples

end Verif
