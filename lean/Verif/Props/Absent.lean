import Verif.Props.Accuracy
import Verif.Props.SingleTree
import Verif.Props.Collapse
import Verif.Props.ClearCut
/-!
# C91: only classes of the training data are predicted
-/

set_option linter.unusedSectionVars false

namespace Verif

open Sample

/-! ## trees, whatever the rounding -/

section tree
variable {F : Type} [F64 F] [LawfulOrder F] [LawfulCount F] [LawfulShare F]

theorem isOneAt_oneHot {t k : Nat} (hk : k < t) : isOneAt (oneHot t k : List F) k = true := by
  rw [isOneAt, oneHot_at hk]
  simpa using LawfulShare.one_eq

/-- **C91** (tree).  On one-hot labels, the class that a tree predicts for any row is the label of a training example in the row's leaf,
whatever the rounding. -/
theorem C91_tree (d : DataSet F) (c t : Nat) (h : d.WF c t) (hot : ∀ l ∈ d.labels, ∃ k < t, l = oneHot t k) (ht1 : t ≤ 2 ^ 53)
    (hn : d.featureRows.length < 2 ^ 32) (cfg : TreeConfig) (hc : cfg.numberOfClasses = t) (tree : TreeNode F (RegressionLeaf F))
    (hb : regressionTreeNew d cfg = .ok tree) (row : List F) (hrow : c ≤ row.length) :
    ∃ l ∈ companions d tree row, ∃ p, predictClass row tree = .ok p ∧ vecEq p l = true := by
  have ht0 : 0 < t := by
    obtain ⟨l, hl⟩ := List.exists_mem_of_ne_nil _ h.labels_ne
    obtain ⟨k, hk, _⟩ := hot l hl
    omega
  have hcomp : ∀ l ∈ companions d tree row, ∃ k < t, l = oneHot t k := by
    intro l hl
    obtain ⟨e, he, rfl⟩ := List.mem_map.mp hl
    exact hot _ (examples_snd_mem (List.mem_of_mem_filter he))
  obtain ⟨k, hmaj, hp⟩ := C27_first_majority d c t h ht0 ht1 hn cfg hc tree hb row hrow
  obtain ⟨dd, _, hw, hl⟩ := lookup_companions d c t h cfg hc tree hb row hrow
  obtain ⟨l0, hl0⟩ := List.exists_mem_of_ne_nil _ hw.labels_ne
  rw [hl] at hl0
  obtain ⟨k0, hk0, rfl⟩ := hcomp l0 hl0
  have hpos : 0 < classCount (companions d tree row) k0 := by
    rw [classCount_eq, List.countP_pos_iff]
    exact ⟨_, hl0, isOneAt_oneHot hk0⟩
  have hpos2 := Nat.lt_of_lt_of_le hpos (hmaj.2.1 k0 hk0)
  rw [classCount_eq, List.countP_pos_iff] at hpos2
  obtain ⟨l, hl1, hl2⟩ := hpos2
  obtain ⟨j, hj, rfl⟩ := hcomp l hl1
  exact ⟨_, hl1, _, hp, by rw [vecEq_oneHot hj hmaj.1]; exact hl2⟩

end tree

/-! ## ensembles -/

section exact
variable {K : Type} [Field K] [LinearOrder K] [IsStrictOrderedRing K] [FloorSemiring K] [HasExp K]

theorem oneHot_inj {t j k : Nat} (hj : j < t) (h : (oneHot t j : List (Ext K)) = oneHot t k) : j = k := by
  by_contra hne
  have h1 := oneHot_at (F := Ext K) (t := t) (k := j) (i := j) hj
  have h2 := oneHot_at (F := Ext K) (t := t) (k := k) (i := j) hj
  rw [h, h2, if_neg hne, if_pos rfl] at h1
  have : (0 : K) = 1 := Ext.fin.inj (Option.some.inj h1)
  exact zero_ne_one this

/-- residual vectors add up to zero and are negative for a class that does not occur -/
def Lacks (t k : Nat) (r : List K) : Prop := r.length = t ∧ Good r ∧ r.sum = 0 ∧ r.getD k 0 < 0

theorem probResid_lacks {ls ps : List (List K)} {t k : Nat} (h2 : 2 ≤ t) (hk : k < t) (hl : ∀ l ∈ ls, ∃ j < t, j ≠ k ∧ l = hot t j)
    (hp : ∀ p ∈ ps, p.length = t) : ∀ r ∈ probResid ls ps, Lacks t k r := by
  intro r hr
  obtain ⟨i, hi, rfl⟩ := List.getElem_of_mem hr
  simp only [probResid, List.getElem_zipWith]
  simp only [probResid, List.length_zipWith] at hi
  obtain ⟨j, hj, hjk, he⟩ := hl _ (List.getElem_mem (show i < ls.length by omega))
  have hv := hp _ (List.getElem_mem (show i < ps.length by omega))
  rw [he]
  refine ⟨by simp [hot_length, softmax_length, hv], residual_good hv h2, residual_sum hj hv, ?_⟩
  have hks : k < (softmax ps[i]).length := by rw [softmax_length, hv]; exact hk
  have hpos := softmax_pos _ (List.getElem_mem hks)
  rw [List.getD_eq_getElem?_getD, List.getElem?_zipWith, List.getElem?_eq_getElem hks]
  have : (hot t j : List K)[k]? = some 0 := by simp [hot, hk, Ne.symm hjk]
  rw [this]
  simpa using hpos

/-- in every leaf the value for such a class is negative, and some other class has a positive value -/
theorem classLeaf_lacks {t k : Nat} (h2 : 2 ≤ t) (hk : k < t) {ms : List (List K)} (hne : ms ≠ []) (h : ∀ r ∈ ms, Lacks t k r) :
    (classLeaf t ms).getD k 0 < 0 ∧ ∃ j < t, 0 < (classLeaf t ms).getD j 0 := by
  have ht : (0 : K) < ((t : K) - 1) / t := by
    have : (1 : K) < t := by exact_mod_cast (by omega : 1 < t)
    exact div_pos (by linarith) (by linarith)
  have hden : ∀ j < t, 0 < ((target ms j).map (fun x => |x| * (1 - |x|))).sum := by
    intro j hj
    apply denom_pos hne
    intro r hr
    obtain ⟨h3, h4, _, _⟩ := h r hr
    apply h4
    have : j < r.length := by omega
    simp [this]
  have hsum : ((List.range t).map (fun j => (target ms j).sum)).sum = 0 := by
    have := sum_range_swap (K := K) t (fun (r : List K) j => r.getD j 0) ms
    simp only [target]
    rw [← this]
    apply List.sum_eq_zero
    intro x hx
    obtain ⟨r, hr, rfl⟩ := List.mem_map.mp hx
    obtain ⟨h3, _, h5, _⟩ := h r hr
    rw [← eq_range_getD h3 0, h5]
  have hneg : (target ms k).sum < 0 := by
    apply sum_neg (by simpa [target] using hne)
    intro x hx
    obtain ⟨r, hr, rfl⟩ := List.mem_map.mp hx
    exact (h r hr).2.2.2
  refine ⟨?_, ?_⟩
  · rw [classLeaf, getD_range hk]
    exact mul_neg_of_pos_of_neg ht (div_neg_of_neg_of_pos hneg (hden k hk))
  · by_contra hcon
    push Not at hcon
    have hle : ∀ j < t, (target ms j).sum ≤ 0 := by
      intro j hj
      have := hcon j hj
      rw [classLeaf, getD_range hj] at this
      by_contra hp
      rw [_root_.not_le] at hp
      exact absurd (mul_pos ht (div_pos hp (hden j hj))) (_root_.not_lt.mpr this)
    have hm : (target ms k).sum ∈ (List.range t).map (fun j => (target ms j).sum) := List.mem_map.mpr ⟨k, List.mem_range.mpr hk, rfl⟩
    obtain ⟨a, b, hab⟩ := List.append_of_mem hm
    rw [hab] at hsum
    have hall : ∀ x ∈ (List.range t).map (fun j => (target ms j).sum), x ≤ 0 := by
      intro x hx
      obtain ⟨j, hj, rfl⟩ := List.mem_map.mp hx
      exact hle j (List.mem_range.mp hj)
    rw [hab] at hall
    have h3 := sum_nonpos (o := a) (fun x hx => hall x (by simp [hx]))
    have h4 := sum_nonpos (o := b) (fun x hx => hall x (by simp [hx]))
    rw [List.sum_append, List.sum_cons] at hsum
    linarith

theorem labels_lack {d : DataSet (Ext K)} {t k : Nat} {ls : List (List K)} (hls : d.labels = lift ls) (hh : ∀ l ∈ ls, ∃ j < t, l = hot t j)
    (hk : (oneHot t k : List (Ext K)) ∉ d.labels) : ∀ l ∈ ls, ∃ j < t, j ≠ k ∧ l = hot t j := by
  intro l hl
  obtain ⟨j, hj, rfl⟩ := hh l hl
  refine ⟨j, hj, ?_, rfl⟩
  rintro rfl
  apply hk
  rw [hls, oneHot_lift]
  exact mem_lift.mpr ⟨_, hl, rfl⟩

section amg
variable {d : DataSet (Ext K)} {c t k : Nat} {ls : List (List K)} {cfg : TreeConfig} {lr : K}

/-- the vector of the leaf a row reaches: the largest value is positive and not that of the class that does not occur -/
theorem amg_lacks (h : d.WF c t) (h2 : 2 ≤ t) (hk : k < t) (hls : d.labels = lift ls) (hl : ∀ l ∈ ls, ∃ j < t, j ≠ k ∧ l = hot t j) {n : Nat}
    {s : TrainingData (Ext K) × List (TreeNode (Ext K) (AMGBoostLeaf (Ext K)))} {ps : List (List K)} {g : List (Ext K)}
    (hs : ClassState (amgOut t) (amgLeaf .multiClassClassification t) d c t n ls g lr s ps) (row : List (Ext K)) (hrow : c ≤ row.length) :
    ∀ tree ∈ s.2, ∃ (mx : K) (j : Nat), 0 < mx ∧ j < t ∧ j ≠ k ∧ amgOut t row tree = .ok (liftV (amgField t mx j)) := by
  intro tree ht
  obtain ⟨i, hi⟩ := List.getElem?_of_mem ht
  obtain ⟨qs, h3, h4, _, rfl⟩ := hs.trees i tree hi
  have hw := probResid_wf h hls h4 h3
  obtain ⟨dd, hwd, _, ho, _, he⟩ := amgOut_ok (by omega) .multiClassClassification n hw hrow
  obtain ⟨h5, h6, h7⟩ := mates_ok (ls := probResid ls qs) rfl hwd he
  have hlk : ∀ r ∈ mates (treeOf (amgLeaf .multiClassClassification t) c t n { d with labels := lift (probResid ls qs) })
      (d.featureRows.zip (probResid ls qs)) row, Lacks t k r := fun r hr => probResid_lacks h2 hk hl h3 r (mates_mem r hr)
  have h8 : leafOut .multiClassClassification t dd.labels = liftV (classLeaf t (mates (treeOf (amgLeaf .multiClassClassification t) c t n
      { d with labels := lift (probResid ls qs) }) (d.featureRows.zip (probResid ls qs)) row)) := by
    rw [h5]
    simp only [leafOut]
    rw [multiOut_exact h7 h6 (fun r hr => (hlk r hr).2.1)]
  rw [h8] at ho
  obtain ⟨hneg, j, hj, hpos⟩ := classLeaf_lacks h2 hk h6 hlk
  obtain ⟨b, hb, h9, hmax⟩ := amgVec_exact h2 (classLeaf_length t (mates (treeOf (amgLeaf .multiClassClassification t) c t n
      { d with labels := lift (probResid ls qs) }) (d.featureRows.zip (probResid ls qs)) row))
  rw [h9] at ho
  have hlen := classLeaf_length t (mates (treeOf (amgLeaf .multiClassClassification t) c t n
      { d with labels := lift (probResid ls qs) }) (d.featureRows.zip (probResid ls qs)) row)
  generalize hvdef : classLeaf t (mates (treeOf (amgLeaf .multiClassClassification t) c t n
      { d with labels := lift (probResid ls qs) }) (d.featureRows.zip (probResid ls qs)) row) = v at *
  have hjv : j < v.length := by omega
  have hvb : 0 < v[b] := by
    refine _root_.lt_of_lt_of_le ?_ (hmax v[j] (List.getElem_mem _))
    rwa [List.getD_eq_getElem?_getD, List.getElem?_eq_getElem hjv] at hpos
  refine ⟨v[b], b, hvb, by omega, ?_, ho⟩
  · rintro rfl
    rw [List.getD_eq_getElem?_getD, List.getElem?_eq_getElem hb] at hneg
    exact absurd hneg (_root_.not_lt.mpr hvb.le)

/-- the scores of any row -/
theorem amg_lacks_score (h : d.WF c t) (h2 : 2 ≤ t) (hk : k < t) (hls : d.labels = lift ls) (hl : ∀ l ∈ ls, ∃ j < t, j ≠ k ∧ l = hot t j) {n : Nat}
    {s : TrainingData (Ext K) × List (TreeNode (Ext K) (AMGBoostLeaf (Ext K)))} {ps : List (List K)}
    (hs : ClassState (amgOut t) (amgLeaf .multiClassClassification t) d c t n ls (liftV (List.replicate t (1 / (t : K)))) lr s ps)
    (row : List (Ext K)) (hrow : c ≤ row.length) :
    ∃ v : List K, v.length = t ∧
      amgPredictInstance row s.2 (liftV (List.replicate t (1 / (t : K)))) (.fin lr) t = .ok (liftV v) ∧
      (0 ≤ lr → ∀ j < t, v.getD k 0 ≤ v.getD j 0) ∧ (0 < lr → s.2 ≠ [] → ∃ j < t, v.getD k 0 < v.getD j 0) := by
  have hall := amg_lacks h h2 hk hls hl hs row hrow
  have h5 : ∃ outs : List (List K), List.Forall₂ (fun tree o => (amgOut t row tree = .ok (liftV o) ∧ o.length = t) ∧
      ∃ (mx : K) (j : Nat), 0 < mx ∧ j < t ∧ j ≠ k ∧ o = amgField t mx j) s.2 outs := by
    revert hall
    generalize s.2 = trees
    intro this
    induction trees with
    | nil => exact ⟨[], .nil⟩
    | cons x xs ih =>
      obtain ⟨outs, h6⟩ := ih (fun y hy => this y (by simp [hy]))
      obtain ⟨mx, j, h7, h8, h9, h10⟩ := this x (by simp)
      exact ⟨amgField t mx j :: outs, .cons ⟨⟨h10, amgField_length _ _ _⟩, mx, j, h7, h8, h9, rfl⟩ h6⟩
  obtain ⟨outs, h6⟩ := h5
  have ht1 : (0 : K) < (t : K) - 1 := by
    have : (1 : K) < t := by exact_mod_cast (by omega : 1 < t)
    linarith
  have hterm : ∀ o ∈ outs, ∃ b < t, o.getD k 0 < o.getD b 0 ∧ ∀ j < t, o.getD k 0 ≤ o.getD j 0 := by
    intro o ho
    obtain ⟨i, hi, rfl⟩ := List.getElem_of_mem ho
    have hlen := h6.length_eq
    rw [List.forall₂_iff_get] at h6
    obtain ⟨_, mx, b, h7, h8, h9, h10⟩ := h6.2 i (by omega) hi
    simp only [List.get_eq_getElem] at h10
    have hlow : -mx / ((t : K) - 1) < mx := (div_neg_of_neg_of_pos (by linarith) ht1).trans h7
    refine ⟨b, h8, ?_, ?_⟩
    · rw [h10, amgField_getD _ hk, amgField_getD _ h8, if_neg (Ne.symm h9), if_pos rfl]
      exact hlow
    · intro j hj
      rw [h10, amgField_getD _ hk, amgField_getD _ hj, if_neg (Ne.symm h9)]
      split
      · exact hlow.le
      · exact le_rfl
  have hsum : ∀ outs : List (List K), (∀ o ∈ outs, ∃ b < t, o.getD k 0 < o.getD b 0 ∧ ∀ j < t, o.getD k 0 ≤ o.getD j 0) → ∀ j < t,
      (outs.map (fun o => o.getD k 0)).sum ≤ (outs.map (fun o => o.getD j 0)).sum := by
    intro outs ho j hj
    apply List.sum_le_sum
    intro o hm
    obtain ⟨_, _, _, h7⟩ := ho o hm
    exact h7 j hj
  refine ⟨_, ?_, by rw [amgPredictInstance_eq]; exact rawScore_exact (by simp) (h6.imp (fun _ _ h => h.1)), ?_, ?_⟩
  · rw [List.length_map, List.length_range]
  · intro hlr j hj
    rw [getD_range hk, getD_range hj]
    have := mul_le_mul_of_nonneg_left (hsum outs hterm j hj) hlr
    simp only [List.getD_eq_getElem?_getD, List.getElem?_replicate, hk, hj, if_true, Option.getD_some] at this ⊢
    linarith
  · intro hlr hne
    cases outs with
    | nil =>
      have := h6.length_eq
      simp at this
      exact absurd this hne
    | cons o outs =>
      obtain ⟨b, hb, h7, _⟩ := hterm o (by simp)
      have h8 := hsum outs (fun o ho => hterm o (by simp [ho])) b hb
      refine ⟨b, hb, ?_⟩
      rw [getD_range hk, getD_range hb]
      have := mul_lt_mul_of_pos_left (add_lt_add_of_lt_of_le h7 h8) hlr
      simp only [List.map_cons, List.sum_cons]
      simp only [List.getD_eq_getElem?_getD, List.getElem?_replicate, hk, hb, if_true, Option.getD_some] at this ⊢
      linarith

end amg

/-- **C91** (AMG).  One-hot labels of two or more classes, a positive learning rate, at least one iteration: every prediction, for every
row, is a label of the training data. -/
theorem C91_amg (d : DataSet (Ext K)) (c t : Nat) (h : d.WF c t) (h2 : 2 ≤ t) (ht : t ≤ 2 ^ 53)
    (hot : ∀ l ∈ d.labels, ∃ k < t, l = oneHot t k) (cfg : TreeConfig) (hc : cfg.numberOfClasses = t) (n : Nat) (hn : 0 < n) (lr : K)
    (hlr : 0 < lr) :
    ∃ m, amgTrain d cfg n (.fin lr) = .ok m ∧ ∀ row : List (Ext K), c ≤ row.length → ∃ l ∈ d.labels, amgPredict m row = .ok l := by
  obtain ⟨ls, hls, hh⟩ := labels_hot hot
  obtain ⟨s, ps, h3, hs⟩ := amg_loop (lr := lr) h h2 hls hh hc n
  refine ⟨_, amg_train h h2 ht h3, ?_⟩
  intro row hrow
  have hgl : (liftV (List.replicate t (1 / (t : K))) : List (Ext K)).length = t := by simp [liftV]
  have hne : s.2 ≠ [] := by
    intro h0
    have := boostLoop_length h3
    rw [h0] at this
    simp at this
    omega
  obtain ⟨m, h4, _, h5⟩ := C41_scores_sum_to_one d c t h h2 ht hot cfg hc n lr
  have hm := Except.ok.inj (h4.symm.trans (amg_train (cfg := cfg) (lr := lr) h h2 ht h3))
  subst hm
  obtain ⟨v, hv, _, hraw⟩ := h5 row hrow
  have hvne : v ≠ [] := by rintro rfl; simp at hv; omega
  obtain ⟨k, hk, h6, h7⟩ := (C39_amg_one_hot ⟨s.2, liftV (List.replicate t (1 / (t : K))), .fin lr⟩ row _ hraw).1 (by simpa [liftV] using hvne)
  rw [liftV_length, hv] at hk h7
  refine ⟨_, ?_, h7⟩
  by_contra hab
  obtain ⟨v', hv', h8, _, h9⟩ := amg_lacks_score h h2 hk hls (labels_lack hls hh hab) hs row hrow
  rw [hgl] at hraw
  rw [hraw] at h8
  have hvv : v = v' := liftV_injective (Except.ok.inj h8)
  subst hvv
  obtain ⟨j, hj, h10⟩ := h9 hlr hne
  exact absurd ((firstTop_of_firstMax hvne h6).2.1 j (by omega)) (_root_.not_le.mpr h10)

/-- **C91** (AMG scores).  The score of a class that does not occur in the training data is the lowest, for every row, every number of
iterations and every learning rate that is not negative. -/
theorem C91_amg_scores (d : DataSet (Ext K)) (c t : Nat) (h : d.WF c t) (h2 : 2 ≤ t) (ht : t ≤ 2 ^ 53)
    (hot : ∀ l ∈ d.labels, ∃ k < t, l = oneHot t k) (k : Nat) (hk : k < t) (hab : oneHot t k ∉ d.labels) (cfg : TreeConfig)
    (hc : cfg.numberOfClasses = t) (n : Nat) (lr : K) (hlr : 0 ≤ lr) :
    ∃ m, amgTrain d cfg n (.fin lr) = .ok m ∧ ∀ row : List (Ext K), c ≤ row.length → ∃ v : List K, v.length = t ∧
      amgPredictInstance row m.trees m.initialGuess m.learningRate m.initialGuess.length = .ok (liftV v) ∧ ∀ x ∈ v, v.getD k 0 ≤ x := by
  obtain ⟨ls, hls, hh⟩ := labels_hot hot
  obtain ⟨s, ps, h3, hs⟩ := amg_loop (lr := lr) h h2 hls hh hc n
  refine ⟨_, amg_train h h2 ht h3, ?_⟩
  intro row hrow
  have hgl : (liftV (List.replicate t (1 / (t : K))) : List (Ext K)).length = t := by simp [liftV]
  obtain ⟨v, hv, h8, h9, _⟩ := amg_lacks_score h h2 hk hls (labels_lack hls hh hab) hs row hrow
  refine ⟨v, hv, by simp only [hgl]; exact h8, ?_⟩
  intro x hx
  obtain ⟨j, hj, rfl⟩ := List.getElem_of_mem hx
  have := h9 hlr j (by omega)
  rwa [List.getD_eq_getElem?_getD (i := j), List.getElem?_eq_getElem hj, Option.getD_some] at this

/-- **C91** (multi-class scores).  With every iteration of multi-class boosting the score of a class that does not occur in the training
data falls, for every row and every positive learning rate. -/
theorem C91_multiClass_scores (d : DataSet (Ext K)) (c t : Nat) (h : d.WF c t) (h2 : 2 ≤ t) (ht : t ≤ 2 ^ 53)
    (hot : ∀ l ∈ d.labels, ∃ k < t, l = oneHot t k) (k : Nat) (hk : k < t) (hab : oneHot t k ∉ d.labels) (cfg : TreeConfig)
    (hc : cfg.numberOfClasses = t) (n : Nat) (lr : K) (hlr : 0 < lr) :
    ∃ m, multiClassTrain d cfg n (.fin lr) = .ok m ∧ m.trees.length = n ∧ ∀ row : List (Ext K), c ≤ row.length → ∃ score : Nat → List K,
      (∀ i, (score i).length = t ∧ predictInstance row (m.trees.take i) m.initialGuess m.learningRate = .ok (liftV (score i))) ∧
      ∀ i < n, (score (i + 1)).getD k 0 < (score i).getD k 0 := by
  obtain ⟨ls, hls, hh⟩ := labels_hot hot
  have hl := labels_lack hls hh hab
  obtain ⟨s, ps, h3, hs⟩ := multi_loop (lr := lr) h h2 hls hh hc n
  have hlen := boostLoop_length h3
  refine ⟨_, multi_train h h2 ht h3, hlen, ?_⟩
  intro row hrow
  have hall : ∀ tree ∈ s.2, ∃ o : List K, gradOut row tree = .ok (liftV o) ∧ o.length = t ∧ o.getD k 0 < 0 := by
    intro tree ht
    obtain ⟨i, hi⟩ := List.getElem?_of_mem ht
    obtain ⟨qs, h4, h5, _, rfl⟩ := hs.trees i tree hi
    have hw := probResid_wf h hls h5 h4
    obtain ⟨dd, hwd, _, he⟩ := gradOut_ok .multiClassClassification cfg.maxLevels hw hrow
    obtain ⟨_, h6, h7⟩ := mates_ok (ls := probResid ls qs) rfl hwd he
    refine ⟨_, gradOut_class_exact cfg.maxLevels hw (rs := probResid ls qs) rfl (probResid_good h2 hh h4) hrow, classLeaf_length _ _, ?_⟩
    exact (classLeaf_lacks h2 hk h6 (fun r hr => probResid_lacks h2 hk hl h4 r (mates_mem r hr))).1
  have h5 : ∃ outs : List (List K), List.Forall₂ (fun tree o => (gradOut row tree = .ok (liftV o) ∧ o.length = t) ∧ o.getD k 0 < 0) s.2 outs := by
    revert hall
    generalize s.2 = trees
    intro this
    induction trees with
    | nil => exact ⟨[], .nil⟩
    | cons x xs ih =>
      obtain ⟨outs, h6⟩ := ih (fun y hy => this y (by simp [hy]))
      obtain ⟨o, h7, h8, h9⟩ := this x (by simp)
      exact ⟨o :: outs, .cons ⟨⟨h7, h8⟩, h9⟩ h6⟩
  obtain ⟨outs, h6⟩ := h5
  refine ⟨fun i => (List.range t).map (fun j => (List.replicate t (1 / (t : K))).getD j 0 + lr * ((outs.take i).map (fun o => o.getD j 0)).sum),
    ?_, ?_⟩
  · intro i
    refine ⟨by rw [List.length_map, List.length_range], ?_⟩
    rw [predictInstance_eq]
    exact rawScore_exact (by simp) (List.forall₂_take i (h6.imp (fun _ _ h => h.1)))
  · intro i hi
    have hio : i < outs.length := by rw [← h6.length_eq, hlen]; exact hi
    have hneg : outs[i].getD k 0 < 0 := by
      have hl := h6.length_eq
      rw [List.forall₂_iff_get] at h6
      exact (h6.2 i (by omega) hio).2
    rw [getD_range hk, getD_range hk, List.take_succ_eq_append_getElem hio, List.map_append, List.sum_append]
    simp only [List.map_cons, List.map_nil, List.sum_cons, List.sum_nil, add_zero]
    have := mul_neg_of_pos_of_neg hlr hneg
    linarith

/-- **C91** (one iteration).  The same for multi-class boosting with one iteration. -/
theorem C91_multiClass_one_iteration (d : DataSet (Ext K)) (c t : Nat) (h : d.WF c t) (h2 : 2 ≤ t) (ht : t ≤ 2 ^ 53)
    (hot : ∀ l ∈ d.labels, ∃ k < t, l = oneHot t k) (hn : d.featureRows.length < 2 ^ 32) (cfg : TreeConfig) (hc : cfg.numberOfClasses = t)
    (lr : K) (hlr : 0 < lr) :
    ∃ m, multiClassTrain d cfg 1 (.fin lr) = .ok m ∧ ∀ row : List (Ext K), c ≤ row.length → ∃ l ∈ d.labels, multiClassPredict m row = .ok l := by
  obtain ⟨ls, hls, _⟩ := labels_hot hot
  obtain ⟨m, _, _, _, tree, h3, _, h4, _, _, _, h5⟩ := C65_classification d c t h h2 ht ls hls hot hn cfg hc lr hlr
  refine ⟨m, h3, ?_⟩
  intro row hrow
  obtain ⟨_, h6, _, k, hk, h7⟩ := h5 row hrow
  obtain ⟨l, hl, p, hp, heq⟩ := C91_tree d c t h hot ht hn cfg hc tree h4 row hrow
  rw [h7] at hp
  cases hp
  have hld : l ∈ d.labels := by
    obtain ⟨e, he, rfl⟩ := List.mem_map.mp hl
    exact examples_snd_mem (List.mem_of_mem_filter he)
  refine ⟨l, hld, ?_⟩
  rw [h6, h7]
  obtain ⟨j, hj, rfl⟩ := hot l hld
  have hkj : k = j := by
    by_contra hne
    obtain ⟨_, h8⟩ := vecEq_iff.mp heq
    have := h8 k _ _ (oneHot_at hk.1) (oneHot_at hk.1)
    rw [if_pos rfl, if_neg hne] at this
    exact absurd this (by simp [Ext.one_def, Ext.zero_def])
  rw [hkj]

end exact

/-! ## concrete cases -/

namespace Sample

/-- the rows of `d5` with labels of three classes, of which the second does not occur -/
def gap5 : DataSet E := { d5 with labels := [[1, 0, 0], [0, 0, 1], [0, 0, 1], [1, 0, 0], [0, 0, 1]] }

theorem gap5_wf : gap5.WF 2 3 :=
  ⟨by decide +kernel, by decide +kernel, by decide +kernel, by decide +kernel, by decide +kernel, by decide +kernel, by decide +kernel⟩

theorem gap5_hot : ∀ l ∈ gap5.labels, ∃ k < 3, l = oneHot 3 k := by decide +kernel

-- the second class does not occur; its score falls in multi-class boosting and is the lowest in AMG boosting
example : (oneHot 3 1 : List E) ∉ gap5.labels := by decide +kernel
example : (do
    let m ← multiClassTrain gap5 (exCfg 3) 2 (.fin (1 / 2))
    let a ← predictInstance [3, 1] (m.trees.take 1) m.initialGuess m.learningRate
    let b ← predictInstance [3, 1] m.trees m.initialGuess m.learningRate
    pure (finPart (b.getD 1 0) < finPart (a.getD 1 0) : Bool)) = .ok true := by decide +kernel
example : (do
    let m ← amgTrain gap5 (exCfg 3) 2 (.fin (1 / 2))
    let v ← amgPredictInstance [3, 1] m.trees m.initialGuess m.learningRate 3
    let p ← amgPredict m [3, 1]
    pure (v.all (fun x => v.getD 1 0 <=. x), p)) = .ok (true, oneHot 3 0) := by decide +kernel

/-- the exponential to about eleven digits: a Taylor polynomial at `x / 4096`, squared twelve times with rounding -/
def expTaylor (x : B64) : B64 :=
  match x.val with
  | .nan => .make false .nan
  | .posInf => .make false .posInf
  | .negInf => .make false (.fin 0)
  | .fin q => if q < -745 then .make false (.fin 0) else if 710 < q then .make false .posInf else
      (List.range 12).foldl (fun (a : B64) _ => .make false (Ext.mul a.val a.val))
        (.make false (.fin ((List.range 6).foldr (fun k acc => 1 + q / 4096 / (k + 1) * acc) 1)))

-- e and 1/e
example : (fun x : B64 => match x.val with | .fin q => decide (|q - 2.718281828459045| < 1 / 10 ^ 11) | _ => false) (expTaylor (.make false (.fin 1))) = true := by
  decide +kernel
example : (fun x : B64 => match x.val with | .fin q => decide (|q - 0.367879441171442| < 1 / 10 ^ 11) | _ => false) (expTaylor (.make false (.fin (-1)))) = true := by
  decide +kernel

/-- binary64 with this exponential -/
@[reducible] def taylorEnv : B64Env := ⟨expTaylor, false⟩

attribute [local instance] taylorEnv

/-- five rows with three of four classes -/
def odd5 : DataSet B64 :=
  { featureRows := [[b64 3, b64 0], [b64 0, b64 3], [b64 0, b64 3], [b64 2, b64 0], [b64 3, b64 3]]
    labels := [oneHot 4 2, oneHot 4 1, oneHot 4 0, oneHot 4 0, oneHot 4 0]
    featureColumns := [[b64 3, b64 0, b64 0, b64 2, b64 3], [b64 0, b64 3, b64 3, b64 0, b64 3]] }

theorem odd5_wf : odd5.WF 2 4 :=
  ⟨by decide +kernel, by decide +kernel, by decide +kernel, by decide +kernel, by decide +kernel, by decide +kernel, by decide +kernel⟩

/-- what three iterations with learning rate 3 predict for the second row -/
def oddRun : R (List B64) := do
  let m ← multiClassTrain odd5 { useMultiThreading := false, numberOfClasses := 4, maxLevels := 1 } 3 (b64 3)
  multiClassPredict m [b64 0, b64 3]

set_option maxHeartbeats 4000000 in
theorem oddRun_eq : oddRun = .ok (oneHot 4 3) := by decide +kernel

end Sample

section
attribute [local instance] taylorEnv

/-- **C91** (multi-class boosting).  More than one iteration of multi-class boosting can predict a class that does not occur in the training
data: here three iterations with learning rate 3, for the second of five training rows, in binary64. -/
theorem C91_violated_by_multiClass : ∃ m, multiClassTrain odd5 { useMultiThreading := false, numberOfClasses := 4, maxLevels := 1 } 3 (b64 3) = .ok m ∧
    [b64 0, b64 3] ∈ odd5.featureRows ∧ multiClassPredict m [b64 0, b64 3] = .ok (oneHot 4 3) ∧ oneHot 4 3 ∉ odd5.labels := by
  have h := oddRun_eq
  rw [oddRun, R.bind_eq_ok] at h
  obtain ⟨m, h1, h2⟩ := h
  exact ⟨m, h1, by decide +kernel, h2, by decide +kernel⟩

end

end Verif
