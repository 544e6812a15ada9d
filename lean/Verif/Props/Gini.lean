import Verif.Spec.Gini
import Verif.Lemmas.Distance
import Verif.Lemmas.ExactClass
import Verif.Props.Ties
import Verif.Props.Bounded
/-!
# C98: for one-hot labels the split search is the search for the largest decrease of the Gini impurity
-/

set_option linter.unusedSectionVars false

namespace Verif

variable {K : Type} [Field K] [LinearOrder K] [IsStrictOrderedRing K] [FloorSemiring K] [HasExp K] {L : Type}

open Sample

/-- two different one-hot vectors have squared distance 2 -/
theorem sqDist_hot {t a b : Nat} (ha : a < t) (hb : b < t) : sqDist (hot t a) (hot t b : List K) = if b ≠ a then 2 else 0 := by
  have h1 : sqDist (hot t a) (hot t b : List K) = ((List.range t).map (fun j => ((if j = a then (1 : K) else 0) - (if j = b then 1 else 0)) ^ 2)).sum := by
    rw [sqDist, hot, hot, List.zipWith_map, List.zipWith_self]
  rw [h1]
  rcases eq_or_ne b a with rfl | h
  · simp
  · rw [if_pos h]
    have h2 : (List.range t).map (fun j => ((if j = a then (1 : K) else 0) - (if j = b then 1 else 0)) ^ 2) =
        (List.range t).map (fun j => (if j = a then (1 : K) else 0) + (if j = b then 1 else 0)) := by
      apply List.map_congr_left
      intro j _
      rcases eq_or_ne j a with rfl | h3
      · simp [h.symm]
      · rcases eq_or_ne j b with rfl | h4
        · simp [h3]
        · simp [h3, h4]
    have h3 := hot_sum (K := K) ha
    have h4 := hot_sum (K := K) hb
    rw [hot] at h3 h4
    rw [h2, List.sum_map_add, h3, h4]
    norm_num

theorem natCast_sum (ns : List Nat) : (ns.map (fun n : Nat => (n : K))).sum = ((ns.sum : Nat) : K) := by
  induction ns with
  | nil => simp
  | cons n ns ih => rw [List.map_cons, List.sum_cons, ih, List.sum_cons, Nat.cast_add]

theorem totalVar_hot {t : Nat} {cs : List Nat} (hcs : ∀ k ∈ cs, k < t) : totalVar t (cs.map (hot t)) = (gini cs : K) := by
  rcases eq_or_ne cs [] with rfl | hne
  · simp [totalVar, target, varOf, sqDev, gini]
  have hn := length_cast_ne (K := K) hne
  have h1 := totalVar_pairs (K := K) (t := t) (vs := cs.map (hot t)) (by
    intro v hv
    obtain ⟨k, _, rfl⟩ := List.mem_map.mp hv
    exact hot_length t k)
  rw [List.map_map, List.length_map] at h1
  have h2 : cs.map ((fun v => ((cs.map (hot t)).map (fun w => sqDist v w)).sum) ∘ hot t) =
      cs.map (fun a => 2 * ((cs.countP (fun b => decide (b ≠ a)) : Nat) : K)) := by
    apply List.map_congr_left
    intro a ha
    simp only [Function.comp_apply, List.map_map]
    have h3 : cs.map ((fun w => sqDist (hot t a) w) ∘ hot t) = cs.map (fun b => if b ≠ a then (2 : K) else 0) := by
      apply List.map_congr_left
      intro b hb
      exact sqDist_hot (hcs a ha) (hcs b hb)
    rw [h3]
    clear h1 h3 hcs ha hn hne
    induction cs with
    | nil => simp
    | cons b cs ih =>
      rw [List.map_cons, List.sum_cons, ih, List.countP_cons]
      by_cases hb : b = a
      · simp [hb]
      · simp [hb]
        ring
  rw [h2, List.sum_map_mul_left] at h1
  have h4 : (cs.map (fun a => ((cs.countP (fun b => decide (b ≠ a)) : Nat) : K))).sum =
      (((cs.map (fun a => cs.countP (fun b => decide (b ≠ a)))).sum : Nat) : K) := by
    rw [← natCast_sum, List.map_map]; rfl
  rw [h4] at h1
  rw [gini, eq_div_iff (pow_ne_zero 2 hn)]
  linarith

theorem classesWith_lt {t : Nat} {rows : List (List (Ext K))} {cs : List Nat} (hcs : ∀ k ∈ cs, k < t) (q : Question (Ext K)) (answer : Bool) :
    ∀ k ∈ classesWith rows cs q answer, k < t := by
  intro k hk
  obtain ⟨e, he, rfl⟩ := List.mem_map.mp hk
  exact hcs _ (List.of_mem_zip (show (e.1, e.2) ∈ rows.zip cs from List.mem_of_mem_filter he)).2

theorem labels_classes {t : Nat} (rows : List (List (Ext K))) (cs : List Nat) (p : List (Ext K) → Bool) :
    ((rows.zip (cs.map (hot t : Nat → List K))).filter (fun e => p e.1)).map Prod.snd =
      (((rows.zip cs).filter (fun e => p e.1)).map Prod.snd).map (hot t) := by
  rw [List.zip_map_right, List.filter_map, List.map_map, List.map_map]
  rfl

theorem sides_length (rows : List (List (Ext K))) (cs : List Nat) (hlen : cs.length = rows.length) (q : Question (Ext K)) :
    (classesWith rows cs q false).length + (classesWith rows cs q true).length = cs.length := by
  have h1 : ∀ l : List (List (Ext K) × Nat), (l.filter (fun e => satisfies q e.1 == false)).length +
      (l.filter (fun e => satisfies q e.1 == true)).length = l.length := by
    intro l
    induction l with
    | nil => rfl
    | cons e l ih =>
      cases h : satisfies q e.1 <;> simp [h] at ih ⊢ <;> omega
  rw [classesWith, classesWith, List.length_map, List.length_map, h1, List.length_zip]
  omega

theorem reduction_gini {t : Nat} {rows : List (List (Ext K))} {cs : List Nat} (hlen : cs.length = rows.length) (hcs : ∀ k ∈ cs, k < t)
    (q : Question (Ext K)) : varianceReduction t rows (cs.map (hot t)) q = giniDecrease rows cs q := by
  have hy : yesLabels rows (cs.map (hot t)) q = (classesWith rows cs q true).map (hot t) := by
    rw [yesLabels, labels_classes, classesWith]
    simp
  have hn : noLabels rows (cs.map (hot t)) q = (classesWith rows cs q false).map (hot t) := by
    rw [noLabels, labels_classes rows cs (fun r => !satisfies q r), classesWith]
    simp
  rw [varianceReduction, hy, hn, totalVar_hot hcs, totalVar_hot (classesWith_lt hcs q true), totalVar_hot (classesWith_lt hcs q false), giniDecrease,
    List.length_map, List.length_map, ← Nat.cast_add, sides_length rows cs hlen, add_comm (((classesWith rows cs q true).length : K) * _)]

/-- one-hot labels in terms of their classes -/
theorem oneHot_labels {d : DataSet (Ext K)} {t : Nat} {cs : List Nat} (hl : d.labels = cs.map (oneHot t)) :
    d.labels = lift (cs.map (hot t)) := by
  rw [hl, lift, List.map_map]
  apply List.map_congr_left
  intro k _
  exact oneHot_lift t k

/-- **C98**.  On data with one-hot labels the reported gain is at most the Gini impurity of the classes and at least the decrease of the
impurity by any question. -/
theorem C98_gain_bounds (d : DataSet (Ext K)) (c t : Nat) (h : d.WF c t) (cs : List Nat) (hcs : ∀ k ∈ cs, k < t)
    (hl : d.labels = cs.map (oneHot t)) :
    ∃ s g, findBestSplit d t = .ok s ∧ s.gain = .fin g ∧ 0 ≤ g ∧ g ≤ gini cs ∧
      ∀ q : Question (Ext K), q.column < c → giniDecrease d.featureRows cs q ≤ g := by
  have hls := oneHot_labels hl
  have hlen : cs.length = d.featureRows.length := by rw [← h.label_count, hl, List.length_map]
  obtain ⟨s, g, h1, h2, h3, h4, h5⟩ := C11_gain_bounds_reductions d c t h _ hls
  refine ⟨s, g, h1, h2, h3, by rwa [totalVar_hot hcs] at h4, ?_⟩
  intro q hq
  rw [← reduction_gini hlen hcs]
  exact h5 q hq

/-- **C98**.  If examples that share a value of a feature (other than its smallest) have the same class: a question that is asked lowers the Gini
impurity by the reported gain, and no question lowers it more. -/
theorem C98_largest_decrease (d : DataSet (Ext K)) (c t : Nat) (h : d.WF c t) (cs : List Nat) (hcs : ∀ k ∈ cs, k < t)
    (hl : d.labels = cs.map (oneHot t)) (hties : d.TiesAgree c) (s : BestSplitResult (Ext K)) (hs : findBestSplit d t = .ok s)
    (hg : (s.gain ==. F64.zero) = false) :
    s.gain = .fin (giniDecrease d.featureRows cs s.question) ∧
      ∀ q : Question (Ext K), q.column < c → giniDecrease d.featureRows cs q ≤ giniDecrease d.featureRows cs s.question := by
  have hls := oneHot_labels hl
  have hlen : cs.length = d.featureRows.length := by rw [← h.label_count, hl, List.length_map]
  obtain ⟨h1, h2⟩ := C12_optimal_if_ties_agree d c t h _ hls hties s hs hg
  rw [reduction_gini hlen hcs] at h1
  refine ⟨h1, ?_⟩
  intro q hq
  have := h2 q hq
  rwa [reduction_gini hlen hcs, reduction_gini hlen hcs] at this

/-- **C98**.  The score of the tree on its training data is the mean over the examples of the Gini impurity of their leaf, divided by the
number of classes. -/
theorem C98_training_score (d : DataSet (Ext K)) (c t : Nat) (h : d.WF c t) (ht0 : 0 < t) (cs : List Nat) (hcs : ∀ k ∈ cs, k < t)
    (hl : d.labels = cs.map (oneHot t)) (cfg : TreeConfig) (hc : cfg.numberOfClasses = t) :
    ∃ tree, regressionTreeNew d cfg = .ok tree ∧ calculateOverallMse d tree =
      .ok (.fin ((d.featureRows.map (fun row => gini (leafClasses tree d.featureRows cs row))).sum / t / d.featureRows.length)) := by
  have hls := oneHot_labels hl
  have hlen : cs.length = d.featureRows.length := by rw [← h.label_count, hl, List.length_map]
  have hlw := lift_width hls h.label_len
  have hll : (cs.map (hot t : Nat → List K)).length = d.featureRows.length := by rw [List.length_map, hlen]
  have hb := regressionTreeNew_ok h hc
  set tree := treeOf regLeaf c t cfg.maxLevels d with htree
  refine ⟨tree, hb, ?_⟩
  rw [htree, overallMse_exact h ht0 hls cfg.maxLevels (fun row hr => (h.row_len row hr).ge) hls hlw hll h.rows_ne, ← htree]
  rw [mse_mates h hls (fun row => meanVec t (mates tree (d.featureRows.zip (cs.map (hot t))) row)) (fun _ => meanVec_length _ _)]
  congr 4
  set ls : List (List K) := cs.map (hot t) with hlsdef
  have h1 : d.featureRows.map (fun row => (gini (leafClasses tree d.featureRows cs row) : K)) =
      (d.featureRows.zip ls).map (fun e => totalVar t (((d.featureRows.zip ls).filter (fun b => decide (tree.route b.1 = tree.route e.1))).map Prod.snd)) := by
    conv_lhs => rw [← List.map_fst_zip (l₁ := d.featureRows) (l₂ := ls) (by omega), List.map_map]
    rw [List.map_fst_zip (l₁ := d.featureRows) (l₂ := ls) (by omega)]
    apply List.map_congr_left
    intro e _
    rw [hlsdef, labels_classes d.featureRows cs (fun r => decide (tree.route r = tree.route e.1))]
    rw [totalVar_hot]
    · rfl
    · intro k hk
      obtain ⟨b, hb, rfl⟩ := List.mem_map.mp hk
      exact hcs _ (List.of_mem_zip (show (b.1, b.2) ∈ d.featureRows.zip cs from List.mem_of_mem_filter hb)).2
  rw [h1]
  refine group_eq (fun e : List (Ext K) × List K => tree.route e.1)
    (fun e s => ((List.range t).map (fun j => ((meanVec t (s.map Prod.snd)).getD j 0 - e.2.getD j 0) ^ 2)).sum)
    (fun _ s => totalVar t (s.map Prod.snd)) _ ?_
  intro s hs _ _
  rw [sum_range_swap, List.map_const', List.sum_replicate, nsmul_eq_mul, totalVar, ← List.sum_map_mul_left]
  congr 1
  apply List.map_congr_left
  intro j hj
  rw [List.mem_range] at hj
  have h2 := length_mul_varOf (target (s.map Prod.snd) j)
  rw [target_length, List.length_map] at h2
  rw [h2, meanVec, getD_range hj, sqDev, target, List.map_map, List.map_map]
  congr 1
  apply List.map_congr_left
  intro e _
  simp only [Function.comp]
  ring

/-! ## a case that meets the hypotheses -/

/-- five examples of three classes -/
def Sample.classes5 : DataSet E :=
  { featureRows := [[0, 3], [1, 1], [2, 4], [3, 0], [4, 2]]
    labels := [[1, 0, 0], [1, 0, 0], [0, 1, 0], [0, 0, 1], [0, 1, 0]]
    featureColumns := [[0, 1, 2, 3, 4], [3, 1, 4, 0, 2]] }

theorem classes5_wf : classes5.WF 2 3 := by constructor <;> decide +kernel

example : classes5.labels = [0, 0, 1, 2, 1].map (oneHot 3) := by decide +kernel
example : ∀ j < 2, ∀ e ∈ classes5.examples, ∀ e' ∈ classes5.examples, e.1.getD j F64.zero = e'.1.getD j F64.zero → e.2 = e'.2 := by
  decide +kernel
example : findBestSplit classes5 3 = .ok { gain := .fin (28 / 75), question := { column := 0, value := 2 } } := by decide +kernel
example : giniDecrease classes5.featureRows [0, 0, 1, 2, 1] { column := 0, value := 2 } = (28 / 75 : ℚ) ∧
    giniDecrease classes5.featureRows [0, 0, 1, 2, 1] { column := 1, value := 2 } = (13 / 75 : ℚ) := by decide +kernel

/-- three examples of two classes that share feature values -/
def Sample.classTies3 : DataSet E :=
  { featureRows := ties3.featureRows
    labels := [[1, 0], [1, 0], [0, 1]]
    featureColumns := ties3.featureColumns }

/-- **C98** needs the condition on shared values: here the search reports a decrease of 4/9 for a question that achieves 1/9, and
another question would achieve 4/9. -/
theorem C98_violated_by_ties : classTies3.WF 2 2 ∧ classTies3.labels = [0, 0, 1].map (oneHot 2) ∧
    findBestSplit classTies3 2 = .ok { gain := .fin (4 / 9), question := { column := 0, value := 1 } } ∧
    giniDecrease classTies3.featureRows [0, 0, 1] { column := 0, value := 1 } = (1 / 9 : ℚ) ∧
    giniDecrease classTies3.featureRows [0, 0, 1] { column := 1, value := 1 } = (4 / 9 : ℚ) :=
  ⟨by constructor <;> decide +kernel, by decide +kernel⟩

end Verif
