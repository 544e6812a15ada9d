import Verif.Lemmas.NearBest
import Verif.Props.NearFit
import Verif.Props.ClearCut
import Verif.Props.NearTrend
import Verif.Props.NearMean
import Verif.Props.Noise
/-!
# C127: with few and small integer labels rounding never prefers a worse question
-/

set_option linter.unusedSectionVars false

namespace Verif

open B64 Sample

section
variable [B64Env]

/-- the sums of these labels are exact -/
theorem GapInts.sums {n t b : ℕ} (hf : GapInts n t b) : ExactSums n b := by
  refine ⟨hf.bound, ?_⟩
  rcases Nat.eq_zero_or_pos n with rfl | hn
  · simp
  have ht := hf.target
  have hs := hf.size
  have h1 : n ≤ n ^ 5 := Nat.le_self_pow (by norm_num) n
  have h2 : n ≤ n ^ 5 * t * (n + t) := by nlinarith [Nat.mul_le_mul h1 ht, Nat.mul_le_mul (Nat.mul_le_mul h1 ht) (show 1 ≤ n + t by omega)]
  have h3 := Nat.mul_le_mul_right (b ^ 2) h2
  have h4 : (2 : ℕ) ^ 45 ≤ 2 ^ 53 := by norm_num
  omega

theorem whole_of_ints {b : ℕ} {labels : List (List B64)} (hI : IntLabels b labels) {ls : List (List ℚ)}
    (hls : labels.map (List.map B64.val) = lift ls) : AtMost (b : ℚ) ls ∧ Whole ls := by
  obtain ⟨ls', h1, h2, h3⟩ := hI.exact
  rw [hls] at h1
  have : ls = ls' := List.map_injective_iff.mpr (fun _ _ h => liftV_injective h) h1
  rw [this]
  exact ⟨h2, h3⟩

theorem reaching_ints {L : Type} {d : DataSet B64} {b : ℕ} (hI : IntLabels b d.labels) (tree : TreeNode B64 L) (p : List Bool) :
    IntLabels b ((reaching d tree p).map Prod.snd) := by
  intro l hl
  obtain ⟨e, he, rfl⟩ := List.mem_map.mp hl
  exact hI _ (examples_snd_mem (List.mem_filter.mp he).1)

theorem reaching_le {F L : Type} [F64 F] (d : DataSet F) (tree : TreeNode F L) (p : List Bool) : (reaching d tree p).length ≤ d.labels.length := by
  refine (List.length_filter_le _ _).trans ?_
  simp [DataSet.examples]

theorem exactlyGreedy_of {L : Type} {d : DataSet B64} {c t b m : ℕ} (hI : IntLabels b d.labels) (hf : GapInts d.labels.length t b)
    {tree : TreeNode B64 L} (hgr : NearGreedy d c t m b tree) : ExactlyGreedy d c t m tree := by
  intro p hp
  obtain ⟨ls, hls, hne, h1, h2⟩ := hgr p hp
  have hw : Whole ls := (whole_of_ints (reaching_ints hI tree p) (by rw [List.map_map]; exact hls)).2
  have hl : (reaching d tree p).length = ls.length := by
    have := congrArg List.length hls
    simpa [lift] using this
  have hlen : ((reaching d tree p).map (fun e => e.1.map B64.val)).length = ls.length := by rw [List.length_map, hl]
  have htol := (hf.fewer (m := ls.length) (by rw [← hl]; exact reaching_le d tree p)).tolerance
  have h5 : (0 : ℚ) ≤ (ls.length : ℚ) ^ 5 := by positivity
  refine ⟨ls, hls, hne, fun hq hd q hc => ?_, fun q hq hu q' hc => ?_⟩
  · by_contra hpos
    push Not at hpos
    have g := vr_gap_zero hlen hne hw hpos
    have := mul_le_mul_of_nonneg_left (h1 hq hd q hc) h5
    linarith
  · by_contra hlt
    push Not at hlt
    have g := vr_gap hlen hne hw hlt
    have := mul_le_mul_of_nonneg_left (h2 q hq hu q' hc) h5
    linarith

/-- **C127** (split search).  In binary64, let the labels be integers, few and small enough.  If the reported gain is zero, no question reduces the
exact variance of the labels.  If it is not, and the reported threshold occurs only once in its column, no question reduces the exact variance by
more than the reported one.  There is no tolerance. -/
theorem C127_search (d : DataSet B64) (c t b : ℕ) (h : d.WF c t) (hI : IntLabels b d.labels) (hf : GapInts d.labels.length t b) :
    ∃ s ls, findBestSplit d t = .ok s ∧ d.exact.labels = lift ls ∧
      ((s.gain ==. F64.zero) = true → ∀ q : Question (Ext ℚ), q.column < c → varianceReduction t d.exact.featureRows ls q ≤ 0) ∧
      ((s.gain ==. F64.zero) = false → ((column d.featureRows s.question.column).filter (fun x => x ==. s.question.value)).length = 1 →
        ∀ q : Question (Ext ℚ), q.column < c →
          varianceReduction t d.exact.featureRows ls q ≤ varianceReduction t d.exact.featureRows ls s.question.exact) := by
  obtain ⟨ls, hls, hB, hw⟩ := hI.exact
  have hls : d.exact.labels = lift ls := hls
  have hl : ls.length = d.labels.length := by
    have := congrArg List.length hls
    simpa [DataSet.exact, lift] using this.symm
  have h0 : d.labels.length ≠ 0 := by
    have := List.length_pos_of_ne_nil h.labels_ne
    omega
  have hne : ls ≠ [] := by
    rintro rfl
    exact h0 hl.symm
  have hS : Scale ls.length (b : ℚ) := by rw [hl]; exact hf.few.scale h0
  have ht2 := hf.few.targets.resolve_right h0
  have hlen : d.exact.featureRows.length = ls.length := by rw [← h.exact.label_count, hls, lift_length]
  have htol := hf.tolerance
  rw [← hl] at htol
  have h5 : (0 : ℚ) ≤ (ls.length : ℚ) ^ 5 := by positivity
  obtain ⟨s, g, hs, hg, hg0, -, hall⟩ := C63_gain_accurate d c t h hf.target ht2 ls b hls hS hB
  refine ⟨s, ls, hs, hls, fun hz q hc => ?_, fun hz hu q hc => ?_⟩
  · rw [eq_val, hg, zero_val] at hz
    have hz : g = 0 := by simpa using hz
    by_contra hpos
    push Not at hpos
    have e := vr_gap_zero hlen hne hw hpos
    have e1 := hall q hc
    rw [hz] at e1
    have := mul_le_mul_of_nonneg_left e1 h5
    linarith
  · obtain ⟨-, -, -, hopt⟩ := C63_near_optimal d c t h hf.target ht2 ls b hls hS hB s hs hz hu
    by_contra hlt
    push Not at hlt
    have e := vr_gap hlen hne hw hlt
    have := mul_le_mul_of_nonneg_left (hopt q hc) h5
    linarith

section trees
variable (d : DataSet B64) (c t b : ℕ) (h : d.WF c t) (hI : IntLabels b d.labels) (hf : GapInts d.labels.length t b)
include h hI hf

theorem exact_setting : ∃ ls, d.exact.labels = lift ls ∧ Scale ls.length (b : ℚ) ∧ AtMost (b : ℚ) ls ∧ t ≤ 2 ^ 24 := by
  obtain ⟨ls, hls, hB, hw⟩ := hI.exact
  have hls : d.exact.labels = lift ls := hls
  have hl : ls.length = d.labels.length := by
    have := congrArg List.length hls
    simpa [DataSet.exact, lift] using this.symm
  have h0 : d.labels.length ≠ 0 := by
    have := List.length_pos_of_ne_nil h.labels_ne
    omega
  exact ⟨ls, hls, by rw [hl]; exact hf.few.scale h0, hB, hf.few.targets.resolve_right h0⟩

/-- **C127** (trees).  All trees follow the greedy rule exactly: an early leaf means that no question reduces the variance of the examples there, and
a question whose threshold occurs only once there reduces it as much as any question can. -/
theorem C127_trees (cfg : TreeConfig) (hc : cfg.numberOfClasses = t) (k : LeafOutputType) :
    (∃ tree, regressionTreeNew d cfg = .ok tree ∧ ExactlyGreedy d c t cfg.maxLevels tree) ∧
    (∃ tree, gradBoostTreeNew d cfg k = .ok tree ∧ ExactlyGreedy d c t cfg.maxLevels tree) ∧
    (∃ tree, amgTreeNew d cfg k = .ok tree ∧ ExactlyGreedy d c t cfg.maxLevels tree) := by
  obtain ⟨ls, hls, hS, hB, ht2⟩ := exact_setting d c t b h hI hf
  obtain ⟨h1, h2, h3⟩ := C63_tree d c t h hf.target ht2 ls b hls hS hB cfg hc k
  exact ⟨⟨_, regressionTreeNew_ok h hc, exactlyGreedy_of hI hf (h1 _ (regressionTreeNew_ok h hc))⟩,
    ⟨_, gradBoostTreeNew_ok h hc k, exactlyGreedy_of hI hf (h2 _ (gradBoostTreeNew_ok h hc k))⟩,
    ⟨_, amgTreeNew_ok h hc k, exactlyGreedy_of hI hf (h3 _ (amgTreeNew_ok h hc k))⟩⟩

/-- **C127** (trees on pre-sorted features). -/
theorem C127_tree_sorted (cfg : TreeConfig) (s : SortedDataSet B64) (hs : createDatasetWithSortedFeatures d = .ok s)
    (tree : TreeNode B64 (RegressionLeafNewPartition B64)) (hb : regressionTreeNewPartitionNew s cfg = .ok tree) :
    ExactlyGreedy d c t cfg.maxLevels tree := by
  obtain ⟨ls, hls, hS, hB, ht2⟩ := exact_setting d c t b h hI hf
  exact exactlyGreedy_of hI hf (C63_sorted_tree d c t h hf.target ht2 ls b hls hS hB cfg s hs tree hb)

/-- a tree of exact arithmetic without exact ties has no close calls -/
theorem noCloseCall_of {L : Type} {m : ℕ} (hd : NoContradictions d.exact.featureRows d.exact.labels) {tree : TreeNode (Ext ℚ) L}
    (hgr : GrownGreedily d.exact c t m tree) (hx : NoExactTie d c t tree) : NoCloseCall d c t m b tree := by
  intro p hp
  obtain ⟨dd, s, hw, hex, hs, hq⟩ := hgr p hp
  have hlab : dd.labels = (reaching d.exact tree p).map Prod.snd := by rw [← hex, examples_snd hw]
  have hrows : (reaching d.exact tree p).map Prod.fst = dd.featureRows := by
    rw [← hex, DataSet.examples, List.map_fst_zip (by rw [hw.label_count])]
  have hint : ∀ l ∈ dd.labels, ∃ v : List ℤ, l = ofInts v ∧ ∀ x ∈ v, |x| ≤ b := by
    intro l hl
    rw [hlab] at hl
    obtain ⟨e, he, rfl⟩ := List.mem_map.mp hl
    have := examples_snd_mem (List.mem_filter.mp he).1
    obtain ⟨l0, hl0, e0⟩ := List.mem_map.mp (show e.2 ∈ d.labels.map (List.map B64.val) from this)
    obtain ⟨v, hv, hb⟩ := hI l0 hl0
    exact ⟨v, by rw [← e0, hv], hb⟩
  obtain ⟨ls, hls⟩ := exists_lift (labels := dd.labels) (fun l hl => by
    obtain ⟨v, hv, -⟩ := hint l hl
    exact ⟨_, hv⟩)
  have hw' : Whole ls := by
    intro v hv x hx
    obtain ⟨w, hw2, -⟩ := hint (liftV v) (by rw [hls]; exact mem_lift.mpr ⟨v, hv, rfl⟩)
    have : v = w.map (fun x : ℤ => (x : ℚ)) := liftV_injective hw2
    subst this
    obtain ⟨y, _, rfl⟩ := List.mem_map.mp hx
    exact ⟨y, by simp⟩
  have hl : dd.labels.length = ls.length := by rw [hls, lift_length]
  have hne : ls ≠ [] := by
    rintro rfl
    exact hw.labels_ne hls
  have hle : ls.length ≤ d.labels.length := by
    rw [← hl, hlab, List.length_map]
    have := reaching_le d.exact tree p
    simpa [DataSet.exact] using this
  have hlen : dd.featureRows.length = ls.length := by rw [← hw.label_count, hl]
  have hg' := hf.fewer hle
  have htol := hg'.tolerance
  have h5 : (0 : ℚ) < (ls.length : ℚ) ^ 5 := by
    have : (0 : ℚ) < ls.length := by exact_mod_cast List.length_pos_of_ne_nil hne
    positivity
  refine ⟨ls, by rw [← hlab, hls], ?_, ?_⟩
  · intro q hqp
    obtain ⟨ls', hls', hties, hbest⟩ := hx p q hqp
    have : ls' = ls := by
      rw [← hlab, hls] at hls'
      exact (List.map_injective_iff.mpr (fun _ _ h => liftV_injective h) hls').symm
    subst this
    rw [hrows] at hties hbest ⊢
    rw [hqp] at hq
    split at hq
    · next hcond =>
      have hq := Option.some.inj hq
      subst hq
      obtain ⟨hgain, -⟩ := C12_optimal_without_ties dd c t hw ls' hls hties s hs hcond.2
      obtain ⟨g, e1, e2, -⟩ := splitOf_exact hw hls
      rw [findBestSplit_ok hw] at hs
      have hs := Except.ok.inj hs
      have hz := hcond.2
      rw [← hs] at hz hgain ⊢
      rw [e1] at hz hgain
      have hgv : g = varianceReduction t dd.featureRows ls' (splitOf dd t).question := by simpa using hgain
      have hgne : g ≠ 0 := by
        intro h0
        rw [h0] at hz
        simp at hz
      have hpos : 0 < varianceReduction t dd.featureRows ls' (splitOf dd t).question := by
        rw [← hgv]
        exact _root_.lt_of_le_of_ne e2 hgne.symm
      have g1 := vr_gap_zero hlen hne hw' hpos
      refine ⟨hties, ?_, ?_⟩
      · by_contra hcon
        push Not at hcon
        have := mul_le_mul_of_nonneg_left hcon h5.le
        linarith
      · intro q' hq' hdat hneq
        have hlt := hbest q' hq' hdat (by rw [← hs]; exact hneq)
        rw [← hs] at hlt
        have g2 := vr_gap hlen hne hw' hlt
        by_contra hcon
        push Not at hcon
        have := mul_le_mul_of_nonneg_left (sub_le_iff_le_add'.mpr hcon) h5.le
        linarith
    · simp at hq
  · intro hnone hdepth
    right
    have hz : (s.gain ==. F64.zero) = true := by
      by_contra hz
      rw [hnone, if_pos ⟨hdepth, by simpa using hz⟩] at hq
      simp at hq
    rw [findBestSplit_ok hw] at hs
    have hs := Except.ok.inj hs
    rw [← hs] at hz
    have hcd : NoContradictions dd.featureRows dd.labels := by
      intro e he e' he'
      change e ∈ dd.examples at he
      change e' ∈ dd.examples at he'
      rw [hex] at he he'
      exact hd e (List.mem_filter.mp he).1 e' (List.mem_filter.mp he').1
    have hpure := pure_of_no_gain hw hls (NoContradictions.unlift (hls ▸ hcd)) hz
    obtain ⟨v, hv⟩ := List.exists_mem_of_ne_nil _ hne
    obtain ⟨w, hw2, hwb⟩ := hint (liftV v) (by rw [hls]; exact mem_lift.mpr ⟨v, hv, rfl⟩)
    refine ⟨w, fun l hl => by rw [hpure l hl v hv, hw2], fun x hx => hg'.few.fits.small (hwb x hx)⟩

/-- **C127** (no ties).  If the examples do not contradict each other and exact arithmetic never has to choose between equally good questions,
rounding leaves no trace: binary64 builds the tree of exact arithmetic. -/
theorem C127_same_tree (hd : NoContradictions d.exact.featureRows d.exact.labels) (cfg : TreeConfig) (hc : cfg.numberOfClasses = t)
    (k : LeafOutputType) :
    (∀ tree', regressionTreeNew d.exact cfg = .ok tree' → NoExactTie d c t tree' →
      ∃ tree, regressionTreeNew d cfg = .ok tree ∧ AsksTheSame tree tree') ∧
    (∀ tree', gradBoostTreeNew d.exact cfg k = .ok tree' → NoExactTie d c t tree' →
      ∃ tree, gradBoostTreeNew d cfg k = .ok tree ∧ AsksTheSame tree tree') ∧
    (∀ tree', amgTreeNew d.exact cfg k = .ok tree' → NoExactTie d c t tree' →
      ∃ tree, amgTreeNew d cfg k = .ok tree ∧ AsksTheSame tree tree') := by
  obtain ⟨ls, hls, hS, hB, ht2⟩ := exact_setting d c t b h hI hf
  obtain ⟨h1, h2, h3⟩ := C79_same_questions d c t h hf.target ht2 ls b hls hS hB cfg hc k
  obtain ⟨g1, g2, g3⟩ := C48_grown_greedily d.exact c t h.exact cfg hc k
  exact ⟨fun tree' e hx => ⟨_, regressionTreeNew_ok h hc, h1 _ _ (regressionTreeNew_ok h hc) e (noCloseCall_of d c t b h hI hf hd (g1 _ e) hx)⟩,
    fun tree' e hx => ⟨_, gradBoostTreeNew_ok h hc k, h2 _ _ (gradBoostTreeNew_ok h hc k) e (noCloseCall_of d c t b h hI hf hd (g2 _ e) hx)⟩,
    fun tree' e hx => ⟨_, amgTreeNew_ok h hc k, h3 _ _ (amgTreeNew_ok h hc k) e (noCloseCall_of d c t b h hI hf hd (g3 _ e) hx)⟩⟩

/-- **C127** (predictions).  Then every row takes the same way through both regression trees, and every prediction is that of exact arithmetic, rounded
once. -/
theorem C127_predictions (hd : NoContradictions d.exact.featureRows d.exact.labels) (cfg : TreeConfig) (hc : cfg.numberOfClasses = t)
    (tree' : TreeNode (Ext ℚ) (RegressionLeaf (Ext ℚ))) (hb' : regressionTreeNew d.exact cfg = .ok tree') (hx : NoExactTie d c t tree') :
    ∃ tree, regressionTreeNew d cfg = .ok tree ∧ ∀ row : List B64, c ≤ row.length →
      tree.route row = tree'.route (row.map B64.val) ∧
      ∃ a m, treePredicts tree row a ∧ treePredicts tree' (row.map B64.val) (liftV m) ∧ m.length = t ∧
        a.map B64.val = m.map (fun q => roundE (.fin q)) := by
  obtain ⟨tree, hb, hsame⟩ := (C127_same_tree d c t b h hI hf hd cfg hc .regression).1 tree' hb' hx
  refine ⟨tree, hb, ?_⟩
  have hroute : ∀ r : List B64, tree.route r = tree'.route (r.map B64.val) := by
    intro r
    refine route_of_asks ?_ ?_ hsame r
    · rw [regressionTreeNew_ok h hc] at hb
      cases hb
      exact treeOf_proper _ _
    · rw [regressionTreeNew_ok h.exact hc] at hb'
      cases hb'
      exact treeOf_proper _ _
  intro row hrow
  refine ⟨hroute row, ?_⟩
  obtain ⟨dd, a, hfd, ha, hr, -⟩ := C123_predictions d c t b h hI hf.sums cfg hc tree hb row hrow
  obtain ⟨dd', hfd', hw', hl'⟩ := lookup_companions d.exact c t h.exact cfg hc tree' hb' (row.map B64.val) (by simpa using hrow)
  obtain ⟨hI2, -⟩ := companions_int h hI hf.sums tree row
  obtain ⟨ls, hls, -, -⟩ := hI2.exact
  have hlab : dd'.labels = lift ls := by
    rw [hl', ← hls, companions, companions, exact_examples, List.filter_map, List.map_map, List.map_map]
    congr 1
    apply List.filter_congr
    intro e _
    simp only [Function.comp, hroute]
  have hne : ls ≠ [] := by
    rintro rfl
    exact hw'.labels_ne hlab
  have hlen : ∀ v ∈ ls, v.length = t := by
    intro v hv
    have := hw'.label_len (liftV v) (by rw [hlab]; exact List.mem_map_of_mem hv)
    simpa [liftV] using this
  refine ⟨a, meanVec t ls, ⟨dd, hfd, ha⟩, ⟨dd', hfd', ?_⟩, by simp [meanVec], ?_⟩
  · have := calculateAverageVector_ok hw'.labels_ne hw'.label_len
    rw [← avgVec_exact hlen hne, ← hlab]
    exact this
  · rw [hr, meanVec, List.map_map]
    apply List.map_congr_left
    intro j _
    simp only [Function.comp, exactMean, target_exact hls]

end trees

end

/-! ## cases that meet the hypotheses, and an exact tie -/

namespace Sample

/-- five rows with integer labels, two of them equal -/
def apart5 : DataSet B64 :=
  { featureRows := [[b64 0], [b64 1], [b64 2], [b64 3], [b64 4]]
    labels := [[b64 0], [b64 1], [b64 7], [b64 3], [b64 3]]
    featureColumns := [[b64 0, b64 1, b64 2, b64 3, b64 4]] }

end Sample

theorem apart5_wf : ∀ negZero : Bool, let _ := env negZero
    apart5.WF 1 1 := by
  intro negZero
  dsimp only
  refine @DataSet.WF.mk _ (@instF64B64OfB64Env (env negZero)) _ _ _ ?_ ?_ ?_ ?_ ?_ ?_ ?_ <;> revert negZero <;> decide +kernel

-- `apart5` meets the hypotheses of `C127_search`, `C127_trees`, `C127_tree_sorted`, `C127_same_tree` and `C127_predictions`
example : IntLabels 7 apart5.labels ∧ GapInts apart5.labels.length 1 7 ∧ NoContradictions apart5.exact.featureRows apart5.exact.labels := by
  refine ⟨?_, ⟨by decide, by decide, by decide⟩, ?_⟩
  · have : ∀ l ∈ apart5.labels, l.map B64.val = [.fin 0] ∨ l.map B64.val = [.fin 1] ∨ l.map B64.val = [.fin 7] ∨ l.map B64.val = [.fin 3] := by
      decide +kernel
    intro l hl
    rcases this l hl with h | h | h | h
    · exact ⟨[0], by rw [h]; rfl, by decide⟩
    · exact ⟨[1], by rw [h]; rfl, by decide⟩
    · exact ⟨[7], by rw [h]; rfl, by decide⟩
    · exact ⟨[3], by rw [h]; rfl, by decide⟩
  · have key : ∀ e ∈ apart5.exact.featureRows.zip apart5.exact.labels, ∀ e' ∈ apart5.exact.featureRows.zip apart5.exact.labels,
        (List.zipWith (fun x y => x ==. y) e.1 e'.1).all id = true → e.2 = e'.2 := by decide +kernel
    intro e he e' he' hs
    refine key e he e' he' ?_
    rw [List.all_eq_true]
    intro x hx
    obtain ⟨i, hi, rfl⟩ := List.getElem_of_mem hx
    rw [List.getElem_zipWith]
    simp only [List.length_zipWith, lt_min_iff] at hi
    exact hs i _ _ (List.getElem?_eq_getElem hi.1) (List.getElem?_eq_getElem hi.2)

-- its tree in exact arithmetic asks three questions and never has to choose between equally good ones
example : ∃ tree', regressionTreeNew apart5.exact calm5Cfg = .ok tree' ∧ tree'.questionCount = 3 ∧ NoExactTie apart5 1 1 tree' := by
  have hw : apart5.exact.WF 1 1 := by
    let _ := env false
    exact (apart5_wf false).exact
  have hb : (regressionTreeNew apart5.exact calm5Cfg).map (fun tree =>
      (tree.questionCount, tree.preorder.all (clearAt apart5 1 1 6 0 tree))) = .ok (3, true) := by decide +kernel
  have ht := regressionTreeNew_ok hw (show calm5Cfg.numberOfClasses = 1 from rfl)
  rw [ht] at hb
  have hb := Except.ok.inj hb
  refine ⟨_, ht, (Prod.mk.inj hb).1, ?_⟩
  intro p q hq
  obtain ⟨ls, h1, h2, -⟩ := clear_of (treeOf_proper _ _) (Prod.mk.inj hb).2 p (subtree_of_question (treeOf_proper _ _) hq)
  obtain ⟨a1, -, a3⟩ := h2 q hq
  refine ⟨ls, h1, a1, fun q' b1 b2 b3 => ?_⟩
  have := a3 q' b1 b2 b3
  simpa [splitTolerance] using this

/-- four rows with the labels 0, 1, 1 and 2 -/
def even4 : DataSet B64 :=
  { featureRows := [[b64 0], [b64 1], [b64 2], [b64 3]]
    labels := [[b64 0], [b64 1], [b64 1], [b64 2]]
    featureColumns := [[b64 0, b64 1, b64 2, b64 3]] }

/-- **C127**: of equally good questions rounding does choose.  Both the first and the last question reduce the variance of the labels 0, 1, 1 and 2
by 1/3; exact arithmetic asks the first, binary64 the last, and so
for the value 1 it predicts about 2/3 instead of 4/3. -/
theorem C127_ties_are_rounded : ∀ negZero : Bool, let _ := env negZero
    GapInts even4.labels.length 1 2 ∧
    varianceReduction 1 even4.exact.featureRows [[0], [1], [1], [2]] { column := 0, value := .fin 1 } = 1 / 3 ∧
    varianceReduction 1 even4.exact.featureRows [[0], [1], [1], [2]] { column := 0, value := .fin 3 } = 1 / 3 ∧
    (findBestSplit even4.exact 1).map (fun s => s.question) = .ok { column := 0, value := .fin 1 } ∧
    (findBestSplit even4 1).map (fun s => s.question.exact) = .ok { column := 0, value := .fin 3 } ∧
    predictedTargets even4 (exCfg 1) 0 [[b64 1]] = .ok [(b64 (2 / 3)).val] ∧
    (regressionTreeNew even4.exact (exCfg 1) >>= findLeafNodeForData [.fin 1]).map (fun leaf => leaf.data.map DataSet.labels) =
      .ok (some (lift [[1], [1], [2]])) := by
  intro negZero
  refine ⟨⟨by decide, by decide, by decide⟩, ?_⟩
  revert negZero
  decide +kernel

end Verif
