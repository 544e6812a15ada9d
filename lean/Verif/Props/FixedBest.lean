import Verif.Props.NearBest
import Verif.Props.FixedPoint
import Verif.Lemmas.Relabel
import Verif.Props.Relabel
/-!
# C127: the same for fixed-point labels, and predicted classes
-/

set_option linter.unusedSectionVars false

namespace Verif

open B64 Sample

/-- every label multiplied by `s` -/
def timesLabels (s : ℚ) (ls : List (List ℚ)) : List (List ℚ) := ls.map (List.map (fun x => s * x))

theorem totalVar_times (t : ℕ) (s : ℚ) (ls : List (List ℚ)) : totalVar t (timesLabels s ls) = s ^ 2 * totalVar t ls := by
  have hj : ∀ j, varOf (target (timesLabels s ls) j) = s ^ 2 * varOf (target ls j) := by
    intro j
    rw [← varOf_affine s 0, target, timesLabels, List.map_map, target, List.map_map]
    congr 1
    apply List.map_congr_left
    intro v _
    simp only [Function.comp, List.getD, List.getElem?_map]
    cases v[j]? <;> simp
  rw [totalVar, totalVar, ← List.sum_map_mul_left]
  simp only [hj]

theorem varianceReduction_times (t : ℕ) (rows : List (List (Ext ℚ))) (s : ℚ) (ls : List (List ℚ)) (q : Question (Ext ℚ)) :
    varianceReduction t rows (timesLabels s ls) q = s ^ 2 * varianceReduction t rows ls q := by
  have hf : ∀ p : List (Ext ℚ) → Bool, ((rows.zip (timesLabels s ls)).filter (fun e => p e.1)).map Prod.snd =
      timesLabels s (((rows.zip ls).filter (fun e => p e.1)).map Prod.snd) := by
    intro p
    rw [timesLabels, timesLabels, List.zip_map_right, List.filter_map, List.map_map, List.map_map]
    rfl
  have hy : yesLabels rows (timesLabels s ls) q = timesLabels s (yesLabels rows ls q) := hf _
  have hn : noLabels rows (timesLabels s ls) q = timesLabels s (noLabels rows ls q) := hf (fun r => !satisfies q r)
  rw [varianceReduction, hy, hn, totalVar_times, totalVar_times, totalVar_times, varianceReduction]
  simp only [timesLabels, List.length_map]
  ring

theorem same_positions {F L : Type} [F64 F] {x y : TreeNode F L} (hx : x.Proper) (hy : y.Proper) (h : ∀ p, y.questionAt p = x.questionAt p)
    (p : List Bool) (hp : (y.subtreeAt p).isSome) : (x.subtreeAt p).isSome := by
  induction hy generalizing x p with
  | leaf q l => cases p <;> simp_all [TreeNode.subtreeAt]
  | node q a b ha hb iha ihb =>
    cases hx with
    | leaf => exact absurd (h []) (by simp [TreeNode.questionAt])
    | node q' a' b' ha' hb' =>
      match p with
      | [] => simp [TreeNode.subtreeAt]
      | true :: p => exact iha ha' (fun p => h (true :: p)) p (by simpa [TreeNode.subtreeAt] using hp)
      | false :: p => exact ihb hb' (fun p => h (false :: p)) p (by simpa [TreeNode.subtreeAt] using hp)

section
variable [B64Env]

theorem exact_of_steps {k : ℤ} {b : ℕ} (hb : b ≤ 2 ^ 53) {labels : List (List B64)} (hF : FixedLabels k b labels) {es : List (List B64)}
    (hm : ∀ l ∈ es, l ∈ labels) {ls : List (List ℚ)} (h : es.map (fun l => (l.map (unscaleEntry k)).map B64.val) = lift ls) :
    es.map (List.map B64.val) = lift (timesLabels ((2 : ℚ) ^ k) ls) := by
  induction es generalizing ls with
  | nil =>
    cases ls with
    | nil => rfl
    | cons v ls => simp [lift] at h
  | cons e es ih =>
    cases ls with
    | nil => simp [lift] at h
    | cons v ls =>
      simp only [List.map_cons, lift, List.cons.injEq] at h
      have h5 := ih (fun e he => hm e (by simp [he])) h.2
      simp only [timesLabels, List.map_cons, lift] at h5 ⊢
      rw [h5]
      congr 1
      have hT := (fixed_times hb hF (hm e (by simp))).1
      have h6 := h.1
      clear h ih h5 hm
      induction e generalizing v with
      | nil =>
        cases v with
        | nil => rfl
        | cons z v => simp [liftV] at h6
      | cons y l ih2 =>
        cases v with
        | nil => simp [liftV] at h6
        | cons z v =>
          simp only [List.map_cons, liftV, List.cons.injEq] at h6 hT ⊢
          cases hT with
          | cons hyz hT =>
            obtain ⟨w, w1, w2⟩ := hyz
            rw [h6.1] at w1
            rw [w2, ← Ext.fin.inj w1]
            exact ⟨rfl, ih2 v hT h6.2⟩

theorem GapInts.rows24 {n t b : ℕ} (hf : GapInts n t b) : n ≤ 2 ^ 24 := by
  have h1 := hf.size
  have h2 := hf.target
  have h3 := hf.bound
  by_contra hlt
  have hlt : 2 ^ 24 < n := by omega
  have h4 : (2 ^ 24) ^ 5 ≤ n ^ 5 := Nat.pow_le_pow_left hlt.le 5
  have h5 : n ^ 5 * 1 * 1 * 1 ≤ n ^ 5 * t * (n + t) * b ^ 2 := by
    gcongr
    · omega
    · exact Nat.one_le_pow _ _ h3
  norm_num at h4
  omega

/-- the rule carries over from the labels in steps -/
theorem exactlyGreedy_times {L : Type} {k : ℤ} {c t m b : ℕ} {d : DataSet B64} (hb : b ≤ 2 ^ 53) (hF : FixedLabels k b d.labels)
    {x y : TreeNode B64 L} (hx : x.Proper) (hy : y.Proper) (hq : ∀ p, y.questionAt p = x.questionAt p) (hr : ∀ row, y.route row = x.route row)
    (hg : ExactlyGreedy (unscaled k d) c t m x) : ExactlyGreedy d c t m y := by
  intro p hp
  obtain ⟨ls, h1, h2, h3, h4⟩ := hg p (same_positions hx hy hq p hp)
  have hre : reaching (unscaled k d) x p = (reaching d y p).map (fun e => (e.1, e.2.map (unscaleEntry k))) := by
    rw [reaching, reaching, unscaled_examples, List.filter_map]
    congr 1
    apply List.filter_congr
    intro e _
    simp only [Function.comp, hr]
  have hs : (0 : ℚ) < ((2 : ℚ) ^ k) ^ 2 := by positivity
  have hlab : (reaching d y p).map (fun e => e.2.map B64.val) = lift (timesLabels ((2 : ℚ) ^ k) ls) := by
    have hmem : ∀ l ∈ (reaching d y p).map Prod.snd, l ∈ d.labels := by
      intro l hl
      obtain ⟨e, he, rfl⟩ := List.mem_map.mp hl
      exact examples_snd_mem (List.mem_filter.mp he).1
    have := exact_of_steps hb hF hmem (ls := ls) (by rw [← h1, hre, List.map_map, List.map_map]; rfl)
    rw [← this, List.map_map]
    rfl
  have hrows : (reaching (unscaled k d) x p).map (fun e => e.1.map B64.val) = (reaching d y p).map (fun e => e.1.map B64.val) := by
    rw [hre, List.map_map]; rfl
  have hrows' : (reaching (unscaled k d) x p).map Prod.fst = (reaching d y p).map Prod.fst := by
    rw [hre, List.map_map]; rfl
  rw [hrows] at h3 h4
  rw [hrows'] at h4
  refine ⟨_, hlab, by simpa [timesLabels] using h2, ?_, ?_⟩
  · intro e hm q hqc
    rw [varianceReduction_times]
    exact mul_nonpos_of_nonneg_of_nonpos hs.le (h3 (by rw [← hq]; exact e) hm q hqc)
  · intro q e hc q' hqc
    rw [varianceReduction_times, varianceReduction_times]
    exact mul_le_mul_of_nonneg_left (h4 q (by rw [← hq]; exact e) hc q' hqc) hs.le

/-- **C127** (fixed-point labels).  The same holds when the labels are multiples, up to `b`, of one power of two between `2^-100` and `2^100`. -/
theorem C127_fixed_point (k : ℤ) (hk : |k| ≤ 100) (d : DataSet B64) (c t b : ℕ) (h : d.WF c t) (hF : FixedLabels k b d.labels)
    (hf : GapInts d.labels.length t b) (cfg : TreeConfig) (hc : cfg.numberOfClasses = t) (o : LeafOutputType) :
    (∃ tree, regressionTreeNew d cfg = .ok tree ∧ ExactlyGreedy d c t cfg.maxLevels tree) ∧
    (∃ tree, gradBoostTreeNew d cfg o = .ok tree ∧ ExactlyGreedy d c t cfg.maxLevels tree) ∧
    (∃ tree, amgTreeNew d cfg o = .ok tree ∧ ExactlyGreedy d c t cfg.maxLevels tree) := by
  have hpos := List.length_pos_of_ne_nil h.labels_ne
  have hb := exactSums_b hf.sums hpos
  have hS := stepped h hb hF
  have hf0 : GapInts (unscaled k d).labels.length t b := by simpa [unscaled] using hf
  obtain ⟨_, _, _, _, ht⟩ := exact_setting _ c t b hS.wf hS.ints hf0
  have hn := hf.rows24
  obtain ⟨⟨x1, y1, a1, a2, a3, a4, _⟩, _, hg, ha⟩ :=
    C86_trees k hk (unscaled k d) d c t hS.wf (by simpa [unscaled] using hn) ht hS.ordinary hS.times cfg hc
  obtain ⟨x2, y2, b1, b2, b3, b4⟩ := hg o
  obtain ⟨x3, y3, c1, c2, c3, c4⟩ := ha o
  obtain ⟨⟨z1, e1, g1⟩, ⟨z2, e2, g2⟩, ⟨z3, e3, g3⟩⟩ := C127_trees _ c t b hS.wf hS.ints hf0 cfg hc o
  rw [a1] at e1; rw [b1] at e2; rw [c1] at e3
  have e1 := Except.ok.inj e1
  have e2 := Except.ok.inj e2
  have e3 := Except.ok.inj e3
  subst e1 e2 e3
  refine ⟨⟨y1, a2, exactlyGreedy_times hb hF ?_ ?_ a3 a4 g1⟩, ⟨y2, b2, exactlyGreedy_times hb hF ?_ ?_ b3 b4 g2⟩,
    ⟨y3, c2, exactlyGreedy_times hb hF ?_ ?_ c3 c4 g3⟩⟩
  · rw [regressionTreeNew_ok hS.wf hc] at a1; cases a1; exact treeOf_proper _ _
  · rw [regressionTreeNew_ok h hc] at a2; cases a2; exact treeOf_proper _ _
  · rw [gradBoostTreeNew_ok hS.wf hc] at b1; cases b1; exact treeOf_proper _ _
  · rw [gradBoostTreeNew_ok h hc] at b2; cases b2; exact treeOf_proper _ _
  · rw [amgTreeNew_ok hS.wf hc] at c1; cases c1; exact treeOf_proper _ _
  · rw [amgTreeNew_ok h hc] at c2; cases c2; exact treeOf_proper _ _

/-- **C127** (fixed-point labels, same tree).  Without contradictions and exact ties the regression tree is that of exact arithmetic. -/
theorem C127_fixed_same_tree (k : ℤ) (hk : |k| ≤ 100) (d : DataSet B64) (c t b : ℕ) (h : d.WF c t) (hF : FixedLabels k b d.labels)
    (hf : GapInts d.labels.length t b) (hd : NoContradictions d.exact.featureRows d.exact.labels) (cfg : TreeConfig)
    (hc : cfg.numberOfClasses = t) (tree' : TreeNode (Ext ℚ) (RegressionLeaf (Ext ℚ))) (hb' : regressionTreeNew d.exact cfg = .ok tree')
    (hx : NoExactTie d c t tree') : ∃ tree, regressionTreeNew d cfg = .ok tree ∧ AsksTheSame tree tree' := by
  have hpos := List.length_pos_of_ne_nil h.labels_ne
  have hb := exactSums_b hf.sums hpos
  have hS := stepped h hb hF
  have hf0 : GapInts (unscaled k d).labels.length t b := by simpa [unscaled] using hf
  obtain ⟨ls, hls, _, _, ht⟩ := exact_setting _ c t b hS.wf hS.ints hf0
  have h2 : (2 : ℚ) ^ k ≠ 0 := by positivity
  have hw : ∀ v ∈ ls, v.length = t := by
    intro v hv
    have := hS.wf.exact.label_len (liftV v) (by rw [hls]; exact List.mem_map_of_mem hv)
    simpa [liftV] using this
  have hre : ls.map (relabel t id ((2 : ℚ) ^ k) (fun _ => 0)) = timesLabels ((2 : ℚ) ^ k) ls := by
    apply List.map_congr_left
    intro v hv
    apply List.ext_getElem
    · simp [relabel, hw v hv]
    · intro i h1 h2
      simp only [List.length_map] at h2
      simp [relabel, List.getD, h2]
  have hlab : d.exact.labels = lift (timesLabels ((2 : ℚ) ^ k) ls) := by
    refine exact_of_steps hb hF (fun l hl => hl) ?_
    rw [← hls, unscaled, DataSet.exact, List.map_map]
    rfl
  obtain ⟨u, u', hu, hu', hq, hr, _⟩ := C53_regression_tree (unscaled k d).exact c t hS.wf.exact ls hls id ⟨fun _ h => h, fun _ _ _ _ h => h⟩
    ((2 : ℚ) ^ k) h2 (fun _ => 0) cfg hc
  rw [hre, ← hlab] at hu'
  have e : u' = tree' := by
    have : regressionTreeNew d.exact cfg = .ok u' := hu'
    rw [hb'] at this
    exact (Except.ok.inj this).symm
  subst e
  have hx0 : NoExactTie (unscaled k d) c t u := by
    intro p q hp
    obtain ⟨ms, m1, m2, m3⟩ := hx p q (by rw [hq]; exact hp)
    have hrc : reaching (unscaled k d).exact u p = (reaching d.exact u' p).map (fun e => (e.1, e.2.map (unscaleE k))) := by
      rw [reaching, reaching, unscaled_exact_examples, List.filter_map]
      congr 1
      apply List.filter_congr
      intro e _
      simp only [Function.comp, hr]
    have hfst : (reaching (unscaled k d).exact u p).map Prod.fst = (reaching d.exact u' p).map Prod.fst := by
      rw [hrc, List.map_map]; rfl
    -- the labels of these examples, in exact arithmetic and in steps
    have hsub : reaching d.exact u' p = (d.examples.filter (fun e => p.isPrefixOf (u'.route (e.1.map B64.val)))).map
        (fun e => (e.1.map B64.val, e.2.map B64.val)) := by
      rw [reaching, exact_examples, List.filter_map]
      rfl
    set R := d.examples.filter (fun e => p.isPrefixOf (u'.route (e.1.map B64.val))) with hR
    have hmem : ∀ l ∈ R.map Prod.snd, l ∈ d.labels := by
      intro l hl
      obtain ⟨e, he, rfl⟩ := List.mem_map.mp hl
      exact examples_snd_mem (List.mem_filter.mp he).1
    have hint : IntLabels b ((R.map Prod.snd).map (List.map (unscaleEntry k))) := by
      intro l hl
      obtain ⟨l', hl', rfl⟩ := List.mem_map.mp hl
      exact (fixed_times hb hF (hmem l' hl')).2
    obtain ⟨ms0, hms0, -, -⟩ := hint.exact
    rw [List.map_map] at hms0
    have h5 := exact_of_steps hb hF hmem hms0
    have hms : ms = timesLabels ((2 : ℚ) ^ k) ms0 := by
      refine List.map_injective_iff.mpr (fun _ _ h => liftV_injective h) (?_ : lift ms = lift _)
      rw [← h5, ← m1, hsub, List.map_map, List.map_map]
      rfl
    have hms0 : (reaching (unscaled k d).exact u p).map Prod.snd = lift ms0 := by
      rw [← hms0, hrc, hsub, List.map_map, List.map_map, List.map_map]
      apply List.map_congr_left
      intro e _
      simp only [Function.comp, List.map_map]
      rfl
    have hs : (0 : ℚ) < ((2 : ℚ) ^ k) ^ 2 := by positivity
    refine ⟨ms0, hms0, by rw [hfst]; exact m2, ?_⟩
    intro q' hj ⟨e, he, hv⟩ hne
    rw [hrc] at he
    obtain ⟨e', he', rfl⟩ := List.mem_map.mp he
    have := m3 q' hj ⟨e', he', hv⟩ hne
    rw [hms, varianceReduction_times, varianceReduction_times] at this
    rw [hfst]
    exact lt_of_mul_lt_mul_left this hs.le
  obtain ⟨x, hxb, hxs⟩ := (C127_same_tree _ c t b hS.wf hS.ints hf0 (unscaled_noContra hd) cfg hc .regression).1 u hu hx0
  obtain ⟨x1, y1, a1, a2, a3, _⟩ := fixed_tree hk h hb hf.rows24 ht hF hc
  rw [hxb] at a1
  have a1 := Except.ok.inj a1
  subst a1
  refine ⟨y1, a2, fun p => ?_⟩
  have := hxs p
  rw [a3, hq]
  exact this

section classes

theorem classCount_val (labels : List (List B64)) (j : ℕ) : classCount (labels.map (List.map B64.val)) j = classCount labels j := by
  rw [classCount, classCount, List.countP_map]
  congr 1
  funext l
  simp only [Function.comp, List.getElem?_map]
  cases l[j]? with
  | none => rfl
  | some x =>
    simp only [Option.map_some, eq_val, one_val]
    rfl

theorem oneHot_val (t k : ℕ) : (oneHot t k : List B64).map B64.val = oneHot t k := by
  simp only [oneHot, List.map_map]
  apply List.map_congr_left
  intro j _
  simp only [Function.comp]
  split <;> simp

theorem vecEq_val (v w : List B64) : vecEq (v.map B64.val) (w.map B64.val) = vecEq v w := by
  rw [Bool.eq_iff_iff, vecEq_iff, vecEq_iff]
  simp only [List.length_map, List.getElem?_map, Option.map_eq_some_iff]
  refine and_congr_right fun _ => ⟨fun h i x y hx hy => ?_, ?_⟩
  · exact h i _ _ ⟨x, hx, rfl⟩ ⟨y, hy, rfl⟩
  · rintro h i _ _ ⟨x, hx, rfl⟩ ⟨y, hy, rfl⟩
    exact h i x y hx hy

theorem matchCount_val (as bs : List (List B64)) : matchCount (as.map (List.map B64.val)) (bs.map (List.map B64.val)) = matchCount as bs := by
  rw [matchCount, matchCount, List.zip_map, List.countP_map]
  congr 1
  funext p
  exact vecEq_val p.1 p.2

variable (d : DataSet B64) (c t b : ℕ) (h : d.WF c t) (hI : IntLabels b d.labels) (hf : GapInts d.labels.length t b)
include h hI hf

/-- **C127** (classes).  Then every row is predicted to be of the same class, and the accuracy on a test set is that of exact arithmetic, rounded
once. -/
theorem C127_classes (hd : NoContradictions d.exact.featureRows d.exact.labels) (cfg : TreeConfig) (hc : cfg.numberOfClasses = t)
    (tree' : TreeNode (Ext ℚ) (RegressionLeaf (Ext ℚ))) (hb' : regressionTreeNew d.exact cfg = .ok tree') (hx : NoExactTie d c t tree') :
    ∃ tree, regressionTreeNew d cfg = .ok tree ∧
      (∀ row : List B64, c ≤ row.length → ∃ k < t, predictClass row tree = .ok (oneHot t k) ∧
        predictClass (row.map B64.val) tree' = .ok (oneHot t k)) ∧
      ∀ test : DataSet B64, (∀ row ∈ test.featureRows, c ≤ row.length) → test.featureRows ≠ [] → test.featureRows.length ≤ test.labels.length →
        test.featureRows.length ≤ 2 ^ 53 →
        ∃ a q, calculateAccuracy test tree = .ok a ∧ calculateAccuracy test.exact tree' = .ok (.fin q) ∧ a.val = roundE (.fin q) := by
  obtain ⟨tree, hb, hsame⟩ := (C127_same_tree d c t b h hI hf hd cfg hc .regression).1 tree' hb' hx
  obtain ⟨_, _, _, _, ht⟩ := exact_setting d c t b h hI hf
  have hn : d.featureRows.length < 2 ^ 32 := by
    rw [← h.label_count]
    exact _root_.lt_of_le_of_lt hf.rows24 (by norm_num)
  have ht53 : t ≤ 2 ^ 53 := ht.trans (by norm_num)
  have hroute : ∀ r : List B64, tree.route r = tree'.route (r.map B64.val) := by
    intro r
    refine route_of_asks ?_ ?_ hsame r
    · rw [regressionTreeNew_ok h hc] at hb
      cases hb
      exact treeOf_proper _ _
    · rw [regressionTreeNew_ok h.exact hc] at hb'
      cases hb'
      exact treeOf_proper _ _
  have hclass : ∀ row : List B64, c ≤ row.length → ∃ k < t, predictClass row tree = .ok (oneHot t k) ∧
        predictClass (row.map B64.val) tree' = .ok (oneHot t k) := by
    intro row hrow
    obtain ⟨k, hk, e⟩ := C27_first_majority d c t h hf.target ht53 hn cfg hc tree hb row hrow
    obtain ⟨k', hk', e'⟩ := C27_first_majority d.exact c t h.exact hf.target ht53 (by simpa [DataSet.exact] using hn) cfg hc tree' hb'
      (row.map B64.val) (by simpa using hrow)
    have hcomp : companions d.exact tree' (row.map B64.val) = (companions d tree row).map (List.map B64.val) := by
      rw [companions, companions, exact_examples, List.filter_map, List.map_map, List.map_map]
      congr 1
      apply List.filter_congr
      intro e _
      simp only [Function.comp, hroute]
    rw [hcomp] at hk'
    have : FirstMajority (companions d tree row) t k' := by
      refine ⟨hk'.1, fun j hj => ?_, fun j hj => ?_⟩
      · rw [← classCount_val, ← classCount_val]; exact hk'.2.1 j hj
      · rw [← classCount_val, ← classCount_val]; exact hk'.2.2 j hj
    rw [C27_unique _ _ _ _ hk this] at e
    exact ⟨k', hk'.1, e, e'⟩
  refine ⟨tree, hb, hclass, fun test hrows hne hl hn53 => ?_⟩
  have hpreds : ∃ preds, test.featureRows.mapM (fun row => predictClass row tree) = .ok preds ∧
      test.exact.featureRows.mapM (fun row => predictClass row tree') = .ok (preds.map (List.map B64.val)) := by
    simp only [DataSet.exact]
    generalize test.featureRows = rows at hrows
    clear hne hl hn53
    induction rows with
    | nil => exact ⟨[], rfl, rfl⟩
    | cons r rows ih =>
      obtain ⟨preds, i1, i2⟩ := ih (fun row hm => hrows row (by simp [hm]))
      obtain ⟨k, _, e1, e2⟩ := hclass r (hrows r (by simp))
      refine ⟨oneHot t k :: preds, ?_, ?_⟩
      · rw [List.mapM_cons, e1, i1]; rfl
      · rw [List.map_cons, List.mapM_cons, e2, i2, List.map_cons, oneHot_val]; rfl
  obtain ⟨preds, p1, p2⟩ := hpreds
  have hlen : test.exact.featureRows.length = test.featureRows.length := by simp [DataSet.exact]
  have hpos := List.length_pos_of_ne_nil hne
  have hq : ((test.featureRows.length : ℕ) : ℚ) ≠ 0 := by exact_mod_cast hpos.ne'
  refine ⟨_, (matchCount preds test.labels : ℚ) / test.featureRows.length, (C28_tree_accuracy _ _ _ hn53).mpr ⟨preds, p1, hl, rfl⟩,
    (C28_tree_accuracy _ _ _ (by rw [hlen]; exact hn53)).mpr ⟨_, p2, by simpa [DataSet.exact] using hl, ?_⟩, ?_⟩
  · rw [hlen, show test.exact.labels = test.labels.map (List.map B64.val) from rfl, matchCount_val, Ext.ofNat_def, Ext.ofNat_def,
      Ext.fin_div _ _ hq]
  · have hm : matchCount preds test.labels ≤ 2 ^ 53 := by
      refine (List.countP_le_length).trans ?_
      rw [List.length_zip]
      have : preds.length = test.featureRows.length := by
        exact mapM_length p1
      omega
    have hr : ∀ n : ℕ, n ≤ 2 ^ 53 → (F64.ofNat n : B64).val = .fin (n : ℚ) := by
      intro n hn
      rw [ofNat_val]
      have := roundE_int (m := (n : ℤ)) (by rw [abs_of_nonneg (Int.natCast_nonneg n)]; exact_mod_cast hn)
      exact_mod_cast this
    rw [div_val _ _ (by rw [hr _ hn53]; intro h0; exact hq (Ext.fin.inj h0)), hr _ hm, hr _ hn53, Ext.fin_div _ _ hq]

end classes

end

/-! ## a case that meets the hypotheses -/

namespace Sample

/-- five rows with labels in steps of a half -/
def apartHalves5 : DataSet B64 :=
  { featureRows := [[b64 0], [b64 1], [b64 2], [b64 3], [b64 4]]
    labels := [[b64 0], [b64 (1 / 2)], [b64 (7 / 2)], [b64 1], [b64 1]]
    featureColumns := [[b64 0, b64 1, b64 2, b64 3, b64 4]] }

end Sample

theorem apartHalves5_wf : ∀ negZero : Bool, let _ := env negZero
    apartHalves5.WF 1 1 := by
  intro negZero
  dsimp only
  refine @DataSet.WF.mk _ (@instF64B64OfB64Env (env negZero)) _ _ _ ?_ ?_ ?_ ?_ ?_ ?_ ?_ <;> revert negZero <;> decide +kernel

-- `apartHalves5` meets the hypotheses of `C127_fixed_point` and `C127_fixed_same_tree`
example : FixedLabels (-1) 7 apartHalves5.labels ∧ GapInts apartHalves5.labels.length 1 7 ∧
    NoContradictions apartHalves5.exact.featureRows apartHalves5.exact.labels := by
  refine ⟨?_, ⟨by decide, by decide, by decide⟩, ?_⟩
  · have : ∀ l ∈ apartHalves5.labels, l.map B64.val = [.fin 0] ∨ l.map B64.val = [.fin (1 / 2)] ∨ l.map B64.val = [.fin (7 / 2)] ∨
        l.map B64.val = [.fin 1] := by decide +kernel
    intro l hl
    rcases this l hl with h | h | h | h
    · exact ⟨[0], by rw [h]; norm_num, by decide⟩
    · exact ⟨[1], by rw [h]; norm_num, by decide⟩
    · exact ⟨[7], by rw [h]; norm_num, by decide⟩
    · exact ⟨[2], by rw [h]; norm_num, by decide⟩
  · have key : ∀ e ∈ apartHalves5.exact.featureRows.zip apartHalves5.exact.labels,
        ∀ e' ∈ apartHalves5.exact.featureRows.zip apartHalves5.exact.labels,
        (List.zipWith (fun x y => x ==. y) e.1 e'.1).all id = true → e.2 = e'.2 := by decide +kernel
    intro e he e' he' hs
    refine key e he e' he' ?_
    rw [List.all_eq_true]
    intro x hx
    obtain ⟨i, hi, rfl⟩ := List.getElem_of_mem hx
    rw [List.getElem_zipWith]
    simp only [List.length_zipWith, lt_min_iff] at hi
    exact hs i _ _ (List.getElem?_eq_getElem hi.1) (List.getElem?_eq_getElem hi.2)

-- its tree in exact arithmetic asks three questions and never has to choose between equally good ones
example : ∃ tree', regressionTreeNew apartHalves5.exact calm5Cfg = .ok tree' ∧ tree'.questionCount = 3 ∧ NoExactTie apartHalves5 1 1 tree' := by
  have hw : apartHalves5.exact.WF 1 1 := by
    let _ := env false
    exact (apartHalves5_wf false).exact
  have hb : (regressionTreeNew apartHalves5.exact calm5Cfg).map (fun tree =>
      (tree.questionCount, tree.preorder.all (clearAt apartHalves5 1 1 6 0 tree))) = .ok (3, true) := by decide +kernel
  have ht := regressionTreeNew_ok hw (show calm5Cfg.numberOfClasses = 1 from rfl)
  rw [ht] at hb
  have hb := Except.ok.inj hb
  refine ⟨_, ht, (Prod.mk.inj hb).1, ?_⟩
  intro p q hq
  obtain ⟨ls, h1, h2, -⟩ := clear_of (treeOf_proper _ _) (Prod.mk.inj hb).2 p (subtree_of_question (treeOf_proper _ _) hq)
  obtain ⟨a1, -, a3⟩ := h2 q hq
  refine ⟨ls, h1, a1, fun q' b1 b2 b3 => ?_⟩
  have := a3 q' b1 b2 b3
  simpa [splitTolerance] using this

namespace Sample

/-- four rows of two classes -/
def classes4 : DataSet B64 :=
  { featureRows := [[b64 0], [b64 1], [b64 2], [b64 3]]
    labels := [[b64 1, b64 0], [b64 1, b64 0], [b64 1, b64 0], [b64 0, b64 1]]
    featureColumns := [[b64 0, b64 1, b64 2, b64 3]] }

end Sample

theorem classes4_wf : ∀ negZero : Bool, let _ := env negZero
    classes4.WF 1 2 := by
  intro negZero
  dsimp only
  refine @DataSet.WF.mk _ (@instF64B64OfB64Env (env negZero)) _ _ _ ?_ ?_ ?_ ?_ ?_ ?_ ?_ <;> revert negZero <;> decide +kernel

-- `classes4` meets the hypotheses of `C127_classes`
example : IntLabels 1 classes4.labels ∧ GapInts classes4.labels.length 2 1 ∧ NoContradictions classes4.exact.featureRows classes4.exact.labels := by
  refine ⟨?_, ⟨by decide, by decide, by decide⟩, ?_⟩
  · have : ∀ l ∈ classes4.labels, l.map B64.val = [.fin 1, .fin 0] ∨ l.map B64.val = [.fin 0, .fin 1] := by decide +kernel
    intro l hl
    rcases this l hl with h | h
    · exact ⟨[1, 0], by rw [h]; rfl, by decide⟩
    · exact ⟨[0, 1], by rw [h]; rfl, by decide⟩
  · have key : ∀ e ∈ classes4.exact.featureRows.zip classes4.exact.labels, ∀ e' ∈ classes4.exact.featureRows.zip classes4.exact.labels,
        (List.zipWith (fun x y => x ==. y) e.1 e'.1).all id = true → e.2 = e'.2 := by decide +kernel
    intro e he e' he' hs
    refine key e he e' he' ?_
    rw [List.all_eq_true]
    intro x hx
    obtain ⟨i, hi, rfl⟩ := List.getElem_of_mem hx
    rw [List.getElem_zipWith]
    simp only [List.length_zipWith, lt_min_iff] at hi
    exact hs i _ _ (List.getElem?_eq_getElem hi.1) (List.getElem?_eq_getElem hi.2)

example : ∃ tree', regressionTreeNew classes4.exact (exCfg 2) = .ok tree' ∧ tree'.questionCount = 1 ∧ NoExactTie classes4 1 2 tree' := by
  have hw : classes4.exact.WF 1 2 := by
    let _ := env false
    exact (classes4_wf false).exact
  have hb : (regressionTreeNew classes4.exact (exCfg 2)).map (fun tree =>
      (tree.questionCount, tree.preorder.all (clearAt classes4 1 2 1 0 tree))) = .ok (1, true) := by decide +kernel
  have ht := regressionTreeNew_ok hw (show (exCfg 2).numberOfClasses = 2 from rfl)
  rw [ht] at hb
  have hb := Except.ok.inj hb
  refine ⟨_, ht, (Prod.mk.inj hb).1, ?_⟩
  intro p q hq
  obtain ⟨ls, h1, h2, -⟩ := clear_of (treeOf_proper _ _) (Prod.mk.inj hb).2 p (subtree_of_question (treeOf_proper _ _) hq)
  obtain ⟨a1, -, a3⟩ := h2 q hq
  refine ⟨ls, h1, a1, fun q' b1 b2 b3 => ?_⟩
  have := a3 q' b1 b2 b3
  simpa [splitTolerance] using this

end Verif
