import Verif.Lemmas.LeafSign
import Verif.Spec.Probability
import Verif.Props.Collapse
import Verif.Lemmas.Accuracy
/-!
# C92: class probabilities and residuals with rounding
-/

set_option linter.unusedSectionVars false

namespace Verif

open Sample

section
variable [B64Env]

theorem range_zpow {v : List B64} (h : ScoresInRange v) :
    ∃ s : ℚ, (fsum (v.map F64.exp)).val = .fin s ∧ (2 : ℚ) ^ (-1022 : ℤ) ≤ s ∧ s ≤ (2 : ℚ) ^ (1022 : ℤ) := by
  obtain ⟨_, s, h1, h2, h3⟩ := h
  refine ⟨s, h1, ?_, ?_⟩
  · rw [zpow_neg, ← one_div]
    exact_mod_cast h2
  · exact_mod_cast h3

/-- the exact values of the exponentials -/
theorem range_exps {v : List B64} (h : ScoresInRange v) {s : ℚ} (hs : (fsum (v.map F64.exp)).val = .fin s) :
    ∀ x ∈ v, ∃ a, (F64.exp x : B64).val = .fin a ∧ 0 ≤ a ∧ a ≤ s := by
  intro x hx
  have hall : ∀ e ∈ v.map F64.exp, (F64.zero <=. e) = true := by
    intro e he
    obtain ⟨y, hy, rfl⟩ := List.mem_map.mp he
    exact h.1 y hy
  obtain ⟨_, _, h2⟩ := B64.foldl_nonneg (v.map F64.exp) F64.sumStart B64.sumStart_nonneg hall
  have h3 := h2 _ (List.mem_map_of_mem hx)
  have h4 := h.1 x hx
  rw [B64.zero_le_iff] at h4
  rw [B64.le_val] at h3
  exact B64.fin_of_le h4 h3 hs

/-- the value of one probability -/
noncomputable def probOf (r : ℚ) (x : B64) : ℚ :=
  match (F64.exp x : B64).val with
  | .fin a => B64.roundQ (a * r)
  | _ => 0

/-- **C92** (probabilities).  If the scores are in range, every computed class probability is from 0 to 1, and a class with a larger
exponential has no smaller probability. -/
theorem C92_probabilities (v : List B64) (h : ScoresInRange v) :
    ∃ ps : List ℚ, (calculateProbabilities v).map B64.val = liftV ps ∧ ps.length = v.length ∧ (∀ p ∈ ps, 0 ≤ p ∧ p ≤ 1) ∧
      ∀ i j x y, v[i]? = some x → v[j]? = some y → (F64.exp x <=. F64.exp y) = true → ps.getD i 0 ≤ ps.getD j 0 := by
  obtain ⟨s, hs, h1, h2⟩ := range_zpow h
  obtain ⟨r, hr, hr0, hre⟩ := B64.reciprocal hs h1 h2
  have hs0 : 0 < s := _root_.lt_of_lt_of_le (zpow_pos (by norm_num) _) h1
  have hex := range_exps h hs
  refine ⟨v.map (probOf r), ?_, by simp, ?_, ?_⟩
  · rw [calculateProbabilities_eq, softmaxOf, liftV, List.map_map, List.map_map]
    apply List.map_congr_left
    intro x hx
    obtain ⟨a, ha, ha0, has⟩ := hex x hx
    obtain ⟨p, hp, hpr, _, _⟩ := B64.share ha hr ha0 has hs0 hr0 hre
    simp only [Function.comp_apply, probOf, ha]
    rw [hp, hpr]
  · intro p hp
    obtain ⟨x, hx, rfl⟩ := List.mem_map.mp hp
    obtain ⟨a, ha, ha0, has⟩ := hex x hx
    obtain ⟨p, hp, hpr, h3, h4⟩ := B64.share ha hr ha0 has hs0 hr0 hre
    simp only [probOf, ha, ← hpr]
    exact ⟨h3, h4⟩
  · intro i j x y hx hy hle
    obtain ⟨a, ha, _, _⟩ := hex x (List.mem_of_getElem? hx)
    obtain ⟨b, hb, _, _⟩ := hex y (List.mem_of_getElem? hy)
    rw [B64.le_val, ha, hb] at hle
    have hab : a ≤ b := by simpa [F64.le, Ext.le] using hle
    simp only [List.getD_eq_getElem?_getD, List.getElem?_map, hx, hy, Option.map_some, Option.getD_some, probOf, ha, hb]
    exact B64.roundQ_mono (mul_le_mul_of_nonneg_right hab hr0.le)

theorem small_count {n : ℕ} (h : n ≤ 2 ^ 24) : (n : ℚ) * (2 * B64.u) ≤ 1 ∧ 4 * (n : ℚ) * (1 + 2 * n) * B64.u ≤ 1 := by
  have h1 : (n : ℚ) ≤ 2 ^ 24 := by exact_mod_cast h
  have h0 : (0 : ℚ) ≤ n := Nat.cast_nonneg n
  have hu : B64.u = 1 / 2 ^ 53 := rfl
  rw [hu]
  constructor
  · norm_num
    linarith
  · have : 4 * (n : ℚ) * (1 + 2 * n) ≤ 4 * 2 ^ 24 * (1 + 2 * 2 ^ 24) := by
      apply mul_le_mul <;> linarith
    rw [mul_one_div, div_le_one (by positivity)]
    refine this.trans (by norm_num)

/-- **C92** (accuracy).  With up to `2^24` classes, let `as` be the exact values of the computed exponentials.  Every computed probability is
near the exact share `a / (sum of as)`, and the probabilities add up to nearly 1. -/
theorem C92_accuracy (v : List B64) (h : ScoresInRange v) (hn : v.length ≤ 2 ^ 24) (as : List ℚ)
    (has : v.map (fun x => (F64.exp x : B64).val) = liftV as) (ps : List ℚ) (hps : (calculateProbabilities v).map B64.val = liftV ps) :
    ps.length = as.length ∧ (∀ i < as.length, |ps.getD i 0 - as.getD i 0 / as.sum| ≤ probTolerance v.length (as.getD i 0 / as.sum)) ∧
      |ps.sum - 1| ≤ (v.length + 2) / 2 ^ 52 + v.length / 2 ^ 1075 := by
  obtain ⟨s, hs, h1, h2⟩ := range_zpow h
  obtain ⟨r, hr, hr0, hre⟩ := B64.reciprocal hs h1 h2
  have hs0 : 0 < s := _root_.lt_of_lt_of_le (zpow_pos (by norm_num) _) h1
  have hex := range_exps h hs
  obtain ⟨hc1, hc2⟩ := small_count hn
  have hlen : as.length = v.length := by
    have := congrArg List.length has
    simpa [liftV] using this.symm
  have ha : ∀ i < v.length, ∃ x, v[i]? = some x ∧ (F64.exp x : B64).val = .fin (as.getD i 0) := by
    intro i hi
    refine ⟨v[i], List.getElem?_eq_getElem hi, ?_⟩
    have := congrArg (fun l => l[i]?) has
    simpa [liftV, hi, hlen] using this
  have ha0 : ∀ a ∈ as, 0 ≤ a := by
    intro a ha'
    obtain ⟨i, hi, rfl⟩ := List.getElem_of_mem ha'
    obtain ⟨x, hx, hxv⟩ := ha i (by omega)
    obtain ⟨b, hb, hb0, _⟩ := hex x (List.mem_of_getElem? hx)
    rw [hxv] at hb
    rw [List.getD_eq_getElem?_getD, List.getElem?_eq_getElem hi] at hb
    rw [show as[i] = b from Ext.fin.inj hb]
    exact hb0
  have hA := B64.foldl_err (v.map F64.exp) as (by rw [List.map_map]; exact has) ha0 F64.sumStart 0 0 0 B64.sumStart_val
    (_root_.le_refl _) (_root_.le_refl _) (by simp) (by rw [Nat.zero_add, hlen]; exact hc1) s hs
  rw [Nat.zero_add, zero_add, hlen] at hA
  have hApos : 0 < as.sum := by
    have h0 : 0 ≤ as.sum := List.sum_nonneg ha0
    rcases h0.lt_or_eq with h3 | h3
    · exact h3
    · rw [← h3, mul_zero, sub_zero, abs_of_pos hs0] at hA
      linarith
  have hpl : ps.length = as.length := by
    have := congrArg List.length hps
    rw [calculateProbabilities_eq] at this
    simpa [liftV, softmaxOf_length, hlen] using this.symm
  have hclose : ∀ i < as.length, |ps.getD i 0 - as.getD i 0 / as.sum| ≤ probTolerance v.length (as.getD i 0 / as.sum) := by
    intro i hi
    rw [hlen] at hi
    obtain ⟨x, hx, hxv⟩ := ha i hi
    obtain ⟨a, hxa, haa, has'⟩ := hex x (List.mem_of_getElem? hx)
    obtain ⟨p, hp, hpr, _, _⟩ := B64.share hxa hr haa has' hs0 hr0 hre
    rw [hxv] at hxa
    have hxa := Ext.fin.inj hxa
    have hpi : ps.getD i 0 = p := by
      have := congrArg (fun l => l[i]?) hps
      rw [calculateProbabilities_eq] at this
      have h4 : ((softmaxOf v).map B64.val)[i]? = some (.fin p) := by
        simp only [softmaxOf, List.map_map, List.getElem?_map, hx, Option.map_some, Function.comp_apply]
        rw [hp]
      simp only [h4, liftV, List.getElem?_map] at this
      rw [List.getD_eq_getElem?_getD]
      cases h5 : ps[i]? with
      | none => rw [h5] at this; simp at this
      | some q =>
        rw [h5] at this
        simp only [Option.map_some, Option.some.injEq] at this
        simpa using (Ext.fin.inj this).symm
    have herr := B64.roundQ_err (a * r)
    rw [← hpr, abs_of_nonneg (mul_nonneg haa hr0.le)] at herr
    have := B64.share_core B64.u_pos (Nat.cast_nonneg v.length) hc2 B64.u_le hApos haa hs0 hA hre herr
    rw [hpi, hxa]
    refine this.trans (le_of_eq ?_)
    unfold probTolerance B64.tiny B64.u
    ring
  refine ⟨hpl, hclose, ?_⟩
  have hsum : ∀ (l l' : List ℚ) (T : ℚ → ℚ) (_ : l.length = l'.length) (_ : ∀ i < l'.length, |l.getD i 0 - l'.getD i 0| ≤ T (l'.getD i 0)),
      |l.sum - l'.sum| ≤ (l'.map T).sum := by
    intro l
    induction l with
    | nil => intro l' T hl _; cases l' <;> simp_all
    | cons x l ih =>
      intro l' T hl hT
      cases l' with
      | nil => simp at hl
      | cons y l' =>
        have h3 := hT 0 (by simp)
        have h4 := ih l' T (by simpa using hl) (fun i hi => by have := hT (i + 1) (by simpa using hi); simpa using this)
        simp only [List.getD_cons_zero] at h3
        simp only [List.sum_cons, List.map_cons]
        have : x + l.sum - (y + l'.sum) = (x - y) + (l.sum - l'.sum) := by ring
        rw [this]
        exact (abs_add_le _ _).trans (add_le_add h3 h4)
  have h3 := hsum ps (as.map (fun a => a / as.sum)) (fun q => probTolerance v.length q) (by simp [hpl]) (by
    intro i hi
    rw [List.length_map] at hi
    have h4 := hclose i hi
    have h5 : (as.map (fun a => a / as.sum)).getD i 0 = as.getD i 0 / as.sum := by
      simp [List.getD_eq_getElem?_getD, hi]
    rw [h5]
    exact h4)
  have h4 : (as.map (fun a => a / as.sum)).sum = 1 := by
    have : (as.map (fun a => a / as.sum)).sum = as.sum / as.sum := by
      simp only [div_eq_mul_inv]
      rw [List.sum_map_mul_right]
      simp
    rw [this, div_self hApos.ne']
  rw [h4] at h3
  refine h3.trans (le_of_eq ?_)
  have h5 : ∀ l : List ℚ, (l.map (fun q => probTolerance v.length q)).sum = (v.length + 2) * l.sum / 2 ^ 52 + l.length / 2 ^ 1075 := by
    intro l
    induction l with
    | nil => simp
    | cons x l ih =>
      rw [List.map_cons, List.sum_cons, ih, List.sum_cons, List.length_cons, probTolerance]
      push_cast
      generalize (2 : ℚ) ^ 1075 = T
      ring
  rw [h5, h4, List.length_map, hlen, mul_one]

/-! ## residuals -/

theorem one_sub_val {y : B64} {p : ℚ} (hy : y.val = .fin p) (h0 : 0 ≤ p) (h1 : p ≤ 1) : ∃ r, (F64.one -. y : B64).val = .fin r ∧ 0 ≤ r ∧ r ≤ 1 := by
  rw [B64.sub_val, B64.one_val, hy, Ext.fin_sub]
  have h2 : 0 ≤ B64.roundQ (1 - p) := B64.roundQ_nonneg (by linarith)
  have h3 : B64.roundQ (1 - p) ≤ 1 := by
    have := B64.roundQ_mono (show 1 - p ≤ 1 by linarith)
    have h4 : B64.roundQ 1 = 1 := by
      have := B64.roundQ_representable (B64.representable_ofNat (n := 1) (by norm_num))
      simpa using this
    rwa [h4] at this
  exact ⟨_, B64.roundE_of_roundQ rfl (by rw [abs_of_nonneg h2]; exact h3.trans_lt B64.one_lt_limit), h2, h3⟩

theorem zero_sub_val {y : B64} {p : ℚ} (hy : y.val = .fin p) : (F64.zero -. y : B64).val = .fin (-p) := by
  rw [B64.sub_val, B64.zero_val, hy, Ext.fin_sub, zero_sub]
  have h1 := y.rounded
  have h2 := B64.roundE_neg (.fin p)
  rw [← hy, h1, hy] at h2
  exact h2

/-- the residual of a class for a one-hot label: from 0 to 1 if it is the class of the label, from -1 to 0 if not -/
theorem residual_sign {t k : Nat} {v : List B64} (hv : v.length = t) (h : ScoresInRange v) {j : Nat} (hj : j < t) :
    ∃ r : ℚ, ((List.zipWith F64.sub (oneHot t k) (softmaxOf v)).getD j F64.zero).val = .fin r ∧ |r| ≤ 1 ∧ (j = k → 0 ≤ r) ∧ (j ≠ k → r ≤ 0) := by
  obtain ⟨ps, h1, h2, h3, _⟩ := C92_probabilities v h
  rw [calculateProbabilities_eq] at h1
  have hjs : j < (softmaxOf v).length := by rw [softmaxOf_length, hv]; exact hj
  have hjp : j < ps.length := by omega
  have hp : ((softmaxOf v)[j]).val = .fin ps[j] := by
    have := congrArg (fun l => l[j]?) h1
    simpa [liftV, hjs, hjp] using this
  obtain ⟨h4, h5⟩ := h3 _ (List.getElem_mem hjp)
  have e : (List.zipWith F64.sub (oneHot t k) (softmaxOf v)).getD j F64.zero =
      (if j = k then F64.one else F64.zero : B64) -. (softmaxOf v)[j] := by
    rw [List.getD_eq_getElem?_getD, List.getElem?_zipWith, oneHot_at hj, List.getElem?_eq_getElem hjs]
    rfl
  rw [e]
  by_cases hk : j = k
  · rw [if_pos hk]
    obtain ⟨r, hr, hr0, hr1⟩ := one_sub_val hp h4 h5
    exact ⟨r, hr, by rw [abs_of_nonneg hr0]; exact hr1, fun _ => hr0, fun hne => absurd hk hne⟩
  · rw [if_neg hk]
    exact ⟨-ps[j], zero_sub_val hp, by rw [abs_neg, abs_of_nonneg h4]; exact h5, fun he => absurd he hk, fun _ => by linarith⟩

/-- **C92** (residuals).  For one-hot labels and scores in range the residuals are finite: from 0 to 1 for the class of the row, and from
-1 to 0 for the other classes. -/
theorem C92_residuals (s : TrainingData B64) (t : Nat) (hn : s.size = s.data.labels.length)
    (hot : ∀ l ∈ s.data.labels, ∃ k < t, l = oneHot t k) (hlen : s.mutableLabels.length = s.data.labels.length)
    (hw : ∀ v ∈ s.mutableLabels, v.length = t) (hr : ∀ v ∈ s.mutableLabels, ScoresInRange v) :
    ∃ rs, multiClassResiduals s = .ok rs ∧ rs.length = s.data.labels.length ∧
      ∀ (i : Nat) (r : List B64) (k : Nat), rs[i]? = some r → s.data.labels[i]? = some (oneHot t k) → k < t → r.length = t ∧
        ∀ (j : Nat) (x : B64), r[j]? = some x → ∃ q : ℚ, x.val = .fin q ∧ (j = k → 0 ≤ q ∧ q ≤ 1) ∧ (j ≠ k → -1 ≤ q ∧ q ≤ 0) := by
  have hm := mapM_ok (f := fun i => do
      let trueLabel ← idx s.data.labels i
      let currentLabel ← idx s.mutableLabels i
      subtractSlices trueLabel (calculateProbabilities currentLabel)) (l := List.range s.size)
      (g := fun i => List.zipWith F64.sub (s.data.labels.getD i []) (softmaxOf (s.mutableLabels.getD i []))) (by
      intro i hi
      rw [List.mem_range, hn] at hi
      have hi2 : i < s.mutableLabels.length := by rw [hlen]; exact hi
      rw [idx_lt hi, R.ok_bind, idx_lt hi2, R.ok_bind, calculateProbabilities_eq, subtractSlices_ok]
      · simp [hi, hi2]
      · rw [softmaxOf_length]
        obtain ⟨k, _, hk⟩ := hot _ (List.getElem_mem hi)
        rw [hk, hw _ (List.getElem_mem hi2)]
        simp [oneHot])
  refine ⟨_, hm, by simp [hn], ?_⟩
  intro i r k hi hk hkt
  have hil := (List.getElem?_eq_some_iff.mp hk).1
  have hil2 : i < s.mutableLabels.length := by omega
  have e1 : s.data.labels.getD i [] = oneHot t k := by rw [List.getD_eq_getElem?_getD, hk]; rfl
  have e2 : s.mutableLabels.getD i [] = s.mutableLabels[i] := by
    rw [List.getD_eq_getElem?_getD, List.getElem?_eq_getElem hil2]; rfl
  have hr' : r = List.zipWith F64.sub (oneHot t k) (softmaxOf s.mutableLabels[i]) := by
    rw [List.getElem?_map, List.getElem?_range (by omega)] at hi
    simp only [Option.map_some, Option.some.injEq] at hi
    rw [← hi, e1, e2]
  have hvl := hw _ (List.getElem_mem hil2)
  have hrl : r.length = t := by rw [hr']; simp [oneHot, softmaxOf_length, hvl]
  refine ⟨hrl, ?_⟩
  intro j x hx
  have hj : j < t := by rw [← hrl]; exact (List.getElem?_eq_some_iff.mp hx).1
  obtain ⟨q, h1, h2, h3, h4⟩ := residual_sign (k := k) hvl (hr _ (List.getElem_mem hil2)) hj
  rw [← hr', List.getD_eq_getElem?_getD, hx] at h1
  obtain ⟨h5, h6⟩ := abs_le.mp h2
  exact ⟨q, h1, fun he => ⟨h3 he, h6⟩, fun hne => ⟨h5, h4 hne⟩⟩

/-! ## leaves -/

/-- **C92** (leaves).  In every tree of multi-class boosting, and for every row, the output of the leaf for a class that no training example
in the leaf has is not positive (NaN or at most 0), and the output for a class that all training examples in the leaf have is not negative. -/
theorem C92_leaf (d : DataSet B64) (c t : Nat) (h : d.WF c t) (hot : ∀ l ∈ d.labels, ∃ k < t, l = oneHot t k)
    (cfg : TreeConfig) (hc : cfg.numberOfClasses = t) (n : Nat) (lr : B64) (m : BoostModel B64 (GradBoostLeaf B64))
    (hm : multiClassTrain d cfg n lr = .ok m) (hin : TrainedInRange d m) (k : Nat) (tree : TreeNode B64 (GradBoostLeaf B64))
    (hk : m.trees[k]? = some tree) (row : List B64) (hrow : c ≤ row.length) :
    ∃ out, findLeafNodeForData row tree = .ok { leafOutput := some out } ∧ out.length = t ∧ ∀ (j : Nat) (x : B64), out[j]? = some x →
      ((∀ l ∈ companions d tree row, l ≠ oneHot t j) → (F64.zero <. x) = false) ∧
      ((∀ l ∈ companions d tree row, l = oneHot t j) → (x <. F64.zero) = false) := by
  obtain ⟨scores, h1, h2, h3⟩ := C33_multiClass_residual_tree d h.label_count.symm cfg n lr m hm k tree hk
  have hw := residual_labels_wf h (f := softmaxOf) softmaxOf_length h2
  rw [gradBoostTreeNew_ok hw hc] at h3
  have h3 := Except.ok.inj h3
  obtain ⟨dd, hdd, ho, hex⟩ := tree_lookup (leafOf := gradLeaf .multiClassClassification t) cfg.maxLevels hw hrow
  rw [h3] at ho hex
  refine ⟨leafOut .multiClassClassification t dd.labels, ho, leafOut_length _ hdd.label_len, ?_⟩
  intro j x hx
  have hjt : j < t := by rw [← leafOut_length .multiClassClassification hdd.label_len]; exact (List.getElem?_eq_some_iff.mp hx).1
  rw [leafOut_eq _ hdd.label_len, leafValue] at hx
  simp only [List.getElem?_map, List.getElem?_range hjt, Option.map_some, Option.some.injEq] at hx
  have hs := mapM_eq_ok.mp h1
  have hkl := (List.getElem?_eq_some_iff.mp hk).1
  have hres : ∀ v ∈ dd.labels, ∃ l ∈ companions d tree row, ∃ k' < t, l = oneHot t k' ∧ ∃ r : ℚ, (v.getD j F64.zero).val = .fin r ∧ |r| ≤ 1 ∧
      (j = k' → 0 ≤ r) ∧ (j ≠ k' → r ≤ 0) := by
    intro v hv
    obtain ⟨i, hi, rfl⟩ := List.getElem_of_mem hv
    have hir : i < dd.featureRows.length := by rw [← hdd.label_count]; exact hi
    have hmem : (dd.featureRows[i], dd.labels[i]) ∈ dd.examples := by
      rw [DataSet.examples, List.mem_iff_getElem]
      exact ⟨i, by simp [hi, hir], by simp⟩
    rw [hex, List.mem_filter, decide_eq_true_eq] at hmem
    obtain ⟨hmem, hroute⟩ := hmem
    obtain ⟨i', hi', e⟩ := List.getElem_of_mem hmem
    simp only [DataSet.examples, List.length_zip, List.length_zipWith] at hi'
    simp only [DataSet.examples, List.getElem_zip, List.getElem_zipWith, Prod.mk.injEq] at e
    obtain ⟨e1, e2⟩ := e
    have hl : i' < d.labels.length := by omega
    have hsc : i' < scores.length := by omega
    have hfr : i' < d.featureRows.length := by omega
    have hraw := hs.get (i := i') hfr hsc
    simp only [List.get_eq_getElem] at hraw
    obtain ⟨k', hk', hlab⟩ := hot _ (List.getElem_mem hl)
    have hlsc : (scores[i']).length = t := by
      have := h2.get (i := i') hl hsc
      simp only [List.get_eq_getElem, hlab] at this
      rw [← this]
      simp [oneHot]
    have hrange := hin k hkl _ (List.getElem_mem hfr) _ hraw
    obtain ⟨r, hr1, hr2, hr3, hr4⟩ := residual_sign (k := k') hlsc hrange hjt
    refine ⟨d.labels[i'], ?_, k', hk', hlab, r, ?_, hr2, hr3, hr4⟩
    · rw [companions, List.mem_map]
      refine ⟨(d.featureRows[i'], d.labels[i']), ?_, rfl⟩
      rw [List.mem_filter, decide_eq_true_eq]
      refine ⟨?_, by rw [e1]; exact hroute⟩
      rw [DataSet.examples, List.mem_iff_getElem]
      exact ⟨i', by simp; omega, by simp⟩
    · rw [← e2, hlab]
      exact hr1
  have hunit : ∀ v ∈ dd.labels, B64.Unit (v.getD j F64.zero) := by
    intro v hv
    obtain ⟨_, _, _, _, _, r, hr, hr1, _⟩ := hres v hv
    exact ⟨r, hr, hr1⟩
  have ht1 : 1 ≤ t := by omega
  constructor
  · intro hno
    have hlow := B64.low_newton ht1 hunit (B64.low_sumAt (by
      intro v hv
      obtain ⟨l, hl, k', _, hlk, r, hr, _, _, hr2⟩ := hres v hv
      have hne : j ≠ k' := by
        rintro rfl
        exact hno l hl hlk
      rw [hr]
      right
      simpa [F64.le, Ext.le] using hr2 hne))
    rw [hx] at hlow
    rw [B64.lt_val, B64.zero_val]
    rcases hlow with h | h
    · rw [h]; rfl
    · by_contra hne
      have := (LawfulOrder.lt_iff.mp (by simpa using hne)).2
      rw [h] at this
      exact absurd this (by simp)
  · intro hall
    have hhigh := B64.high_newton ht1 hunit (B64.high_sumAt (by
      intro v hv
      obtain ⟨l, hl, k', hk', hlk, r, hr, _, hr2, _⟩ := hres v hv
      have he : j = k' := by
        have h4 := hall l hl
        rw [hlk] at h4
        by_contra hne
        have h5 := oneHot_at (F := B64) (t := t) (k := k') (i := j) hjt
        have h6 := oneHot_at (F := B64) (t := t) (k := j) (i := j) hjt
        rw [h4, h6, if_neg hne, if_pos rfl] at h5
        have h7 : (F64.one : B64).val = (F64.zero : B64).val := by rw [Option.some.inj h5]
        rw [B64.one_val, B64.zero_val] at h7
        exact absurd (Ext.fin.inj h7) one_ne_zero
      rw [hr]
      right
      simpa [F64.le, Ext.le] using hr2 he))
    rw [hx] at hhigh
    rw [B64.lt_val, B64.zero_val]
    rcases hhigh with h | h
    · rw [h]; rfl
    · by_contra hne
      have := (LawfulOrder.lt_iff.mp (by simpa using hne)).2
      rw [h] at this
      exact absurd this (by simp)

/-! ## scores -/

/-- NaN or at most `g` -/
def Below (g x : Ext ℚ) : Prop := x = .nan ∨ (x <=. g) = true

theorem below_add {g a b : Ext ℚ} (ha : Below g a) (hb : Ext.Low b) : Below g (a +. b) := by
  cases g <;> cases a <;> cases b <;> simp_all [Below, Ext.Low, F64.le, Ext.le, F64.add, Ext.add]
  linarith

theorem below_self (e : Ext ℚ) : Below e e := by
  cases e <;> simp [Below, F64.le, Ext.le]

theorem low_of_not_pos {x : B64} (h : (F64.zero <. x) = false) : Ext.Low x.val := by
  rw [B64.lt_val, B64.zero_val] at h
  generalize x.val = w at h
  cases w <;> simp_all [Ext.Low, F64.lt, F64.le, Ext.le]
  rename_i q
  rcases _root_.le_total 0 q with h0 | h0
  · exact h h0
  · exact h0

theorem below_round {g a : Ext ℚ} (hg : roundE g = g) (ha : Below g a) : Below g (roundE a) := by
  rcases ha with rfl | h
  · exact .inl rfl
  · have := B64.roundE_mono h
    rw [hg] at this
    exact .inr this

theorem low_mul_left {a b : Ext ℚ} (ha : Ext.High a) (hb : Ext.Low b) : Ext.Low (a *. b) := by
  have : a *. b = b *. a := by
    cases a <;> cases b <;> simp [F64.mul, Ext.mul, mul_comm]
  rw [this]
  exact Ext.low_mul hb ha

theorem addUp_below {g lr : B64} {t j : Nat} (hlr : Ext.High lr.val) (outs : List (List B64)) (ho : ∀ o ∈ outs, ∃ x, o[j]? = some x ∧ Ext.Low x.val)
    (hl : ∀ o ∈ outs, o.length = t) (score : List B64) (hs : score.length = t) {y : B64} (hy : score[j]? = some y) (hb : Below g.val y.val) :
    ∃ z, (addUp score lr outs)[j]? = some z ∧ Below g.val z.val := by
  induction outs generalizing score y with
  | nil => exact ⟨y, hy, hb⟩
  | cons o outs ih =>
    obtain ⟨x, hx, hxl⟩ := ho o (by simp)
    have := ih (fun o' ho' => ho o' (by simp [ho'])) (fun o' ho' => hl o' (by simp [ho']))
      (List.zipWith (fun a x => a +. (lr *. x)) score o) (by simp [hs, hl o (by simp)]) (y := y +. (lr *. x))
      (by rw [List.getElem?_zipWith, hy, hx]) (by
        rw [B64.add_val, B64.mul_val]
        exact below_round g.rounded (below_add hb (Ext.low_round (low_mul_left hlr hxl))))
    exact this

/-- **C92** (absent class).  With a learning rate that is not negative, the raw score of a class that no training example has never rises
above the initial guess (it is NaN or at most the guess), for any row and after any number of iterations. -/
theorem C92_absent_class (d : DataSet B64) (c t : Nat) (h : d.WF c t) (ht1 : t ≤ 2 ^ 53) (hot : ∀ l ∈ d.labels, ∃ k < t, l = oneHot t k)
    (cfg : TreeConfig) (hc : cfg.numberOfClasses = t) (n : Nat) (lr : B64) (hlr : (F64.zero <=. lr) = true) (m : BoostModel B64 (GradBoostLeaf B64))
    (hm : multiClassTrain d cfg n lr = .ok m) (hin : TrainedInRange d m) (j : Nat) (hj : j < t) (habs : ∀ l ∈ d.labels, l ≠ oneHot t j)
    (row : List B64) (hrow : c ≤ row.length) :
    ∃ raw x, predictInstance row m.trees m.initialGuess m.learningRate = .ok raw ∧ raw[j]? = some x ∧
      ((F64.one /. F64.ofNat t) <. x) = false := by
  obtain ⟨outs, h1, h2, h3⟩ := raw_take h ht1 hc hm hrow m.trees.length
  rw [List.take_length] at h1 h2
  have hg := (C31_multiClass d cfg n lr m hm).2.2 c t h ht1
  have hlr' := (C31_multiClass d cfg n lr m hm).2.1
  have hgj : m.initialGuess[j]? = some (F64.one /. F64.ofNat t) := by rw [hg]; simp [hj]
  have hlow : ∀ o ∈ outs, ∃ x, o[j]? = some x ∧ Ext.Low x.val := by
    intro o ho
    obtain ⟨k, hk, rfl⟩ := List.getElem_of_mem ho
    have hkt : k < m.trees.length := by rw [h1.length_eq]; exact hk
    have hg1 := h1.get hkt hk
    simp only [List.get_eq_getElem] at hg1
    obtain ⟨out, ho1, ho2, ho3⟩ := C92_leaf d c t h hot cfg hc n lr m hm hin k _ (List.getElem?_eq_getElem hkt) row hrow
    have e : out = outs[k] := by
      have := hg1.1
      rw [gradOut, ho1] at this
      simpa [unwrap] using this
    rw [← e]
    refine ⟨out[j]'(by omega), List.getElem?_eq_getElem (by omega), ?_⟩
    have hx := (ho3 j _ (List.getElem?_eq_getElem (by omega))).1 (by
      intro l hl
      obtain ⟨ex, hex, rfl⟩ := List.mem_map.mp hl
      exact habs _ (examples_snd_mem (List.mem_of_mem_filter hex)))
    exact low_of_not_pos hx
  obtain ⟨z, hz, hzb⟩ := addUp_below (g := F64.one /. F64.ofNat t) (t := t) (lr := m.learningRate) (j := j) (by
      rw [hlr']
      right
      rwa [B64.zero_le_iff] at hlr) outs hlow (by
      intro o ho
      obtain ⟨k, hk, rfl⟩ := List.getElem_of_mem ho
      have hg1 := h1.get (i := k) (by rw [h1.length_eq]; exact hk) hk
      simp only [List.get_eq_getElem] at hg1
      rw [hg1.2, multiClass_guess_length h ht1 hm]) m.initialGuess (multiClass_guess_length h ht1 hm) hgj (below_self _)
  refine ⟨_, z, h2, hz, ?_⟩
  rw [B64.lt_val]
  rcases hzb with hz | hz
  · rw [hz]
    generalize (F64.one /. F64.ofNat t : B64).val = w
    cases w <;> rfl
  · by_contra hne
    have := (LawfulOrder.lt_iff.mp (by simpa using hne)).2
    rw [hz] at this
    exact absurd this (by simp)

/-! ## examples -/

/-- whether scores are in range -/
def inRange (v : List B64) : Bool :=
  v.all (fun x => F64.zero <=. F64.exp x) &&
    match (fsum (v.map F64.exp)).val with
    | .fin s => decide (1 / 2 ^ 1022 ≤ s) && decide (s ≤ 2 ^ 1022)
    | _ => false

theorem inRange_iff {v : List B64} (h : inRange v = true) : ScoresInRange v := by
  rw [inRange, Bool.and_eq_true, List.all_eq_true] at h
  obtain ⟨h1, h2⟩ := h
  refine ⟨h1, ?_⟩
  cases hs : (fsum (v.map F64.exp)).val with
  | fin s =>
    rw [hs] at h2
    simp only [Bool.and_eq_true, decide_eq_true_eq] at h2
    exact ⟨s, rfl, h2.1, h2.2⟩
  | _ => rw [hs] at h2; simp at h2

/-- whether all scores are in range while the trees are trained -/
def trainedInRange (d : DataSet B64) (m : BoostModel B64 (GradBoostLeaf B64)) : Bool :=
  (List.range m.trees.length).all (fun k => d.featureRows.all (fun row =>
    match predictInstance row (m.trees.take k) m.initialGuess m.learningRate with
    | .ok raw => inRange raw
    | .error _ => true))

theorem trainedInRange_iff {d : DataSet B64} {m : BoostModel B64 (GradBoostLeaf B64)} (h : trainedInRange d m = true) : TrainedInRange d m := by
  intro k hk row hrow raw hraw
  rw [trainedInRange, List.all_eq_true] at h
  have h1 := h k (List.mem_range.mpr hk)
  rw [List.all_eq_true] at h1
  have h2 := h1 row hrow
  rw [hraw] at h2
  exact inRange_iff h2

end

namespace Sample

/-- two rows of the first two of three classes -/
def lacking2 : DataSet B64 :=
  { featureRows := [[b64 0], [b64 1]], featureColumns := [[b64 0, b64 1]], labels := [[b64 1, b64 0, b64 0], [b64 0, b64 1, b64 0]] }

def lackingCfg : TreeConfig := { useMultiThreading := false, numberOfClasses := 3, maxLevels := 1 }

/-- binary64 with an exponential that is always this number, a little less than `2^1024` -/
@[reducible] def hugeEnv : B64Env := ⟨fun _ => .make false (.fin (0x1f8a6757856b15 * 2 ^ 971)), false⟩

end Sample

/-- **C92** needs its hypothesis: if the total of the exponentials is more than `2^1022`, a probability can be more than 1. -/
theorem C92_violated_for_large_scores :
    letI := hugeEnv
    (calculateProbabilities [b64 0]).map (fun p => decide (F64.one <. p)) = [true] := by decide +kernel

section
attribute [local instance] expEnv

-- scores in range, with their probabilities
example : ScoresInRange [b64 0, b64 1, b64 (-3)] := inRange_iff (by decide +kernel)
example : (calculateProbabilities [b64 0, b64 1, b64 (-3)]).map (fun p => decide ((F64.zero <. p) = true ∧ (p <. F64.one) = true)) = [true, true, true] := by
  decide +kernel
-- not in range
example : inRange [b64 711, b64 0] = false := by decide +kernel

theorem lacking2_wf : lacking2.WF 1 3 :=
  ⟨by decide +kernel, by decide +kernel, by decide +kernel, by decide +kernel, by decide +kernel, by decide +kernel, by decide +kernel⟩

-- a run of two iterations that meets the hypotheses of `C92_leaf` and of `C92_absent_class`, for the third class
example : ∃ m, multiClassTrain lacking2 lackingCfg 2 (b64 (1 / 2)) = .ok m ∧ TrainedInRange lacking2 m := by
  have : (multiClassTrain lacking2 lackingCfg 2 (b64 (1 / 2))).map (trainedInRange lacking2) = .ok true := by decide +kernel
  match h : multiClassTrain lacking2 lackingCfg 2 (b64 (1 / 2)), this with
  | .ok m, this => exact ⟨m, rfl, trainedInRange_iff (by simpa [Except.map] using this)⟩
example : (∀ l ∈ lacking2.labels, ∃ k < 3, l = oneHot 3 k) ∧ ∀ l ∈ lacking2.labels, l ≠ oneHot 3 2 := by decide +kernel
-- the scores of the first row
example : (do
    let m ← multiClassTrain lacking2 lackingCfg 2 (b64 (1 / 2))
    let raw ← predictInstance [b64 0] m.trees m.initialGuess m.learningRate
    pure (raw.map (fun x => decide ((F64.one /. F64.ofNat 3) <. x)))) = .ok [true, false, false] := by decide +kernel

end

end Verif
