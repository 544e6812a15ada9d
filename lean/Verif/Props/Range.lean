import Verif.Lemmas.Range
import Verif.Props.Special
import Verif.Props.ClearCut
import Verif.Props.Degenerate
/-!
# C85: labels outside the range of the split search
-/

set_option linter.unusedSectionVars false

namespace Verif

open Sample B64

section generic
variable {F : Type} [F64 F] [LawfulOrder F] {L : Type}

theorem treeOf_no_gain {leafOf : DataSet F → L} {d : DataSet F} {c t : Nat}
    (hs : splitOf d t = { gain := F64.zero, question := { column := 0, value := F64.zero } }) (m : Nat) :
    treeOf leafOf c t m d = .mk { column := 0, value := F64.zero } none none (some (leafOf d)) := by
  cases m with
  | zero => simp [treeOf, hs, TreeNode.leafNode]
  | succ m =>
    rw [treeOf_leaf (by rw [hs]; exact LawfulOrder.zero_eq), hs]
    rfl

theorem single_leaf_of_no_gain {d : DataSet F} {c t : Nat} (h : d.WF c t)
    (hs : splitOf d t = { gain := F64.zero, question := { column := 0, value := F64.zero } }) (cfg : TreeConfig) (hc : cfg.numberOfClasses = t) :
    (∃ q, regressionTreeNew d cfg = .ok (.mk q none none (some { data := some d }))) ∧
      (∀ k, ∃ q l, gradBoostTreeNew d cfg k = .ok (.mk q none none (some l))) ∧
      (∀ k, ∃ q l, amgTreeNew d cfg k = .ok (.mk q none none (some l))) ∧
      (t < 2 ^ 32 → ∃ s q s', createDatasetWithSortedFeatures d = .ok s ∧
        regressionTreeNewPartitionNew s cfg = .ok (.mk q none none (some { data := some s' })) ∧ s'.labels = d.labels) := by
  refine ⟨⟨_, (regressionTreeNew_ok h hc).trans (congrArg _ (treeOf_no_gain hs _))⟩,
    fun k => ⟨_, _, (gradBoostTreeNew_ok h hc k).trans (congrArg _ (treeOf_no_gain hs _))⟩,
    fun k => ⟨_, _, (amgTreeNew_ok h hc k).trans (congrArg _ (treeOf_no_gain hs _))⟩, fun ht => ?_⟩
  obtain ⟨s, treeR, treeS, h1, h2, h3, h4⟩ := C23_builders_agree d c t h ht cfg hc
  rw [regressionTreeNew_ok h hc, treeOf_no_gain hs] at h2
  cases h2
  match treeS, h3, h4 with
  | .mk q none none (some { data := some s' }), h3, h4 =>
    refine ⟨s, q, s', h1, h3, ?_⟩
    simp [TreeNode.mapLeaves, regLeaf] at h4
    exact h4.2
  | .mk q none none (some { data := none }), h3, h4 => simp [TreeNode.mapLeaves, regLeaf] at h4
  | .mk q none none none, h3, h4 => simp [TreeNode.mapLeaves] at h4
  | .mk q (some _) none _, h3, h4 => simp [TreeNode.mapLeaves] at h4
  | .mk q (some _) (some _) _, h3, h4 => simp [TreeNode.mapLeaves] at h4
  | .mk q none (some _) _, h3, h4 => simp [TreeNode.mapLeaves] at h4

end generic

variable [B64Env]

/-- **C85** (large labels).  In binary64, if a single label entry is at least `2^512` in absolute value, the split search reports gain zero and
every tree is a single leaf that holds all examples. -/
theorem C85_large_labels (d : DataSet B64) (c t : Nat) (h : d.WF c t) (hn : d.labels.length ≤ 2 ^ 53)
    (hl : ∃ l ∈ d.labels, ∃ x ∈ l, Huge x) (cfg : TreeConfig) (hc : cfg.numberOfClasses = t) :
    (∃ q, findBestSplit d t = .ok { gain := F64.zero, question := q }) ∧
      (∃ q, regressionTreeNew d cfg = .ok (.mk q none none (some { data := some d }))) ∧
      (∀ k, ∃ q l, gradBoostTreeNew d cfg k = .ok (.mk q none none (some l))) ∧
      (∀ k, ∃ q l, amgTreeNew d cfg k = .ok (.mk q none none (some l))) ∧
      (t < 2 ^ 32 → ∃ s q s', createDatasetWithSortedFeatures d = .ok s ∧
        regressionTreeNewPartitionNew s cfg = .ok (.mk q none none (some { data := some s' })) ∧ s'.labels = d.labels) := by
  obtain ⟨l, hl, x, hx, hh⟩ := hl
  have hs := splitOf_over h hn ⟨l, hl, x, hx, hh.square⟩
  exact ⟨⟨_, by rw [findBestSplit_ok h, hs]⟩, single_leaf_of_no_gain h hs cfg hc⟩

/-- **C85** (small labels).  In binary64, if all label entries are at most `2^-565` in absolute value, the split search reports gain zero and
every tree is a single leaf that holds all examples, however different the labels are. -/
theorem C85_small_labels (d : DataSet B64) (c t : Nat) (h : d.WF c t) (hn : d.labels.length ≤ 2 ^ 24)
    (hl : ∀ l ∈ d.labels, ∀ x ∈ l, Faint x) (cfg : TreeConfig) (hc : cfg.numberOfClasses = t) :
    (∃ q, findBestSplit d t = .ok { gain := F64.zero, question := q }) ∧
      (∃ q, regressionTreeNew d cfg = .ok (.mk q none none (some { data := some d }))) ∧
      (∀ k, ∃ q l, gradBoostTreeNew d cfg k = .ok (.mk q none none (some l))) ∧
      (∀ k, ∃ q l, amgTreeNew d cfg k = .ok (.mk q none none (some l))) ∧
      (t < 2 ^ 32 → ∃ s q s', createDatasetWithSortedFeatures d = .ok s ∧
        regressionTreeNewPartitionNew s cfg = .ok (.mk q none none (some { data := some s' })) ∧ s'.labels = d.labels) := by
  have hs := splitOf_faint h hn hl
  exact ⟨⟨_, by rw [findBestSplit_ok h, hs]⟩, single_leaf_of_no_gain h hs cfg hc⟩

/-- two labels too far apart: one of them is far from every number -/
theorem far_square {x y c : B64} {a b : ℚ} (hx : x.val = .fin a) (hy : y.val = .fin b) (hab : 2 ^ 513 ≤ |a - b|) :
    Over ((x -. c) *. (x -. c)) ∨ Over ((y -. c) *. (y -. c)) := by
  have hnf : ∀ z : B64, nonFinite z = true → Over (z *. z) := fun z hz => Over.iff.mpr (LawfulSpecial.square hz)
  cases hc : c.val with
  | fin q =>
    have key : ∀ (z : B64) (w : ℚ), z.val = .fin w → 2 ^ 512 ≤ |w - q| → Over ((z -. c) *. (z -. c)) := by
      intro z w hz hw
      have hp : (2 : ℚ) ^ 512 = (2 : ℚ) ^ (512 : ℤ) := by rw [← zpow_natCast]; norm_num
      have hrep : roundQ ((2 : ℚ) ^ 512) = 2 ^ 512 := by
        rw [hp]
        exact roundQ_representable (representable_pow2 (by norm_num))
      have hval : (z -. c).val = roundE (.fin (w - q)) := by rw [sub_val, hz, hc, Ext.fin_sub]
      have hr : 2 ^ 512 ≤ |roundQ (w - q)| := by
        rcases le_abs.mp hw with h | h
        · have := roundQ_mono h
          rw [hrep] at this
          exact this.trans (le_abs_self _)
        · have := roundQ_mono h
          rw [hrep, roundQ_neg] at this
          exact this.trans (neg_le_abs _)
      unfold roundE at hval
      simp only at hval
      split at hval
      · exact hnf _ (by rw [nonFinite_val, hval]; rfl)
      · split at hval
        · exact hnf _ (by rw [nonFinite_val, hval]; rfl)
        · exact Huge.square ⟨_, hval, hr⟩
    rcases le_total (2 ^ 512) |a - q| with h | h
    · exact .inl (key x a hx h)
    · refine .inr (key y b hy ?_)
      have h1 : |a - b| ≤ |a - q| + |b - q| := by
        rw [abs_sub_comm b q]
        exact abs_sub_le a q b
      have h2 : (2 : ℚ) ^ 513 = 2 ^ 512 + 2 ^ 512 := by rw [pow_succ, mul_two]
      rw [h2] at hab
      generalize (2 : ℚ) ^ 512 = w at hab h ⊢
      linarith
  | _ =>
    left
    apply hnf
    rw [nonFinite_val, sub_val, hx, hc]
    rfl

/-- **C85** (ensembles).  In binary64, if two training labels of one target are at least `2^513` apart, no tree of a regression ensemble asks a
question: whatever the number of iterations and the learning rate, the prediction is the same for all rows. -/
theorem C85_far_apart (d : DataSet B64) (c t : Nat) (h : d.WF c t) (hn : d.labels.length ≤ 2 ^ 53) (cfg : TreeConfig)
    (hc : cfg.numberOfClasses = t)
    (hl : ∃ l ∈ d.labels, ∃ l' ∈ d.labels, ∃ (j : Nat) (x y : B64) (a b : ℚ), l[j]? = some x ∧ l'[j]? = some y ∧ x.val = .fin a ∧ y.val = .fin b ∧
      2 ^ 513 ≤ |a - b|) (n : Nat) (lr : B64) (m : BoostModel B64 (GradBoostLeaf B64)) (hm : regressionTrain d cfg n lr = .ok m) :
    (∀ tree ∈ m.trees, ∃ q leaf, tree = .mk q none none (some leaf)) ∧ ∀ row row', regressionPredict m row = regressionPredict m row' := by
  have hlen : d.featureRows.length = d.labels.length := h.label_count.symm
  have hsame : ∀ (trees : List (TreeNode B64 (GradBoostLeaf B64))), (∀ tree ∈ trees, ∃ q leaf, tree = .mk q none none (some leaf)) →
      ∀ row row', regressionPredict { m with trees := trees } row = regressionPredict { m with trees := trees } row' := by
    intro trees ht row row'
    simp only [regressionPredict, predictInstance_eq]
    refine rawScore_congr (fun tree htree => ?_)
    obtain ⟨q, leaf, rfl⟩ := ht tree htree
    simp [gradOut, findLeafNodeForData]
  have key : ∀ (k : Nat) (tree : TreeNode B64 (GradBoostLeaf B64)), m.trees[k]? = some tree → ∃ q leaf, tree = .mk q none none (some leaf) := by
    intro k
    induction k using Nat.strong_induction_on with
    | _ k ih =>
      intro tree hk
      obtain ⟨preds, h1, h2, h3⟩ := C33_regression_residual_tree d hlen cfg n lr m hm k tree hk
      have hprev : ∀ tree ∈ m.trees.take k, ∃ q leaf, tree = .mk q none none (some leaf) := by
        intro tree htree
        obtain ⟨i, hi⟩ := List.getElem?_of_mem htree
        rw [List.getElem?_take] at hi
        split at hi
        · next hik => exact ih i hik tree hi
        · simp at hi
      have hw := residual_wf (g := id) h (fun _ => rfl) h2
      obtain ⟨l, hl1, l', hl2, j, x, y, a, b, hx, hy, ha, hb, hab⟩ := hl
      obtain ⟨i1, hi1, rfl⟩ := List.getElem_of_mem hl1
      obtain ⟨i2, hi2, rfl⟩ := List.getElem_of_mem hl2
      have hf := h2
      rw [List.forall₂_iff_get] at hf
      have hi1' : i1 < preds.length := hf.1 ▸ hi1
      have hi2' : i2 < preds.length := hf.1 ▸ hi2
      have hpe : preds[i1] = preds[i2] := by
        obtain ⟨p1, e1, q1⟩ := mapM_get h1 (List.getElem?_eq_getElem (l := d.featureRows) (i := i1) (by omega))
        obtain ⟨p2, e2, q2⟩ := mapM_get h1 (List.getElem?_eq_getElem (l := d.featureRows) (i := i2) (by omega))
        rw [List.getElem?_eq_getElem hi1'] at e1
        rw [List.getElem?_eq_getElem hi2'] at e2
        rw [Option.some.inj e1, Option.some.inj e2]
        rw [hsame _ hprev _ d.featureRows[i2], q2] at q1
        exact (Except.ok.inj q1).symm
      have hj1 : j < d.labels[i1].length := (List.getElem?_eq_some_iff.mp hx).1
      have hj2 : j < d.labels[i2].length := (List.getElem?_eq_some_iff.mp hy).1
      have hl1e : d.labels[i1].length = preds[i1].length := hf.2 i1 hi1 hi1'
      have hl2e : d.labels[i2].length = preds[i2].length := hf.2 i2 hi2 hi2'
      have hover : ∃ l ∈ List.zipWith (List.zipWith F64.sub) d.labels preds, ∃ x ∈ l, Over (x *. x) := by
        have mem : ∀ (i : Nat) (hi : i < d.labels.length) (hi' : i < preds.length) (hj : j < d.labels[i].length) (hj' : j < preds[i].length),
            Over ((d.labels[i][j] -. preds[i][j]) *. (d.labels[i][j] -. preds[i][j])) →
            ∃ l ∈ List.zipWith (List.zipWith F64.sub) d.labels preds, ∃ x ∈ l, Over (x *. x) := by
          intro i hi hi' hj hj' ho
          refine ⟨List.zipWith F64.sub d.labels[i] preds[i], ?_, d.labels[i][j] -. preds[i][j], ?_, ho⟩
          · rw [List.mem_iff_getElem]
            exact ⟨i, by simp [hi, hi'], by simp⟩
          · rw [List.mem_iff_getElem]
            exact ⟨j, by simp [hj, hj'], by simp⟩
        have hx' : d.labels[i1][j] = x := (List.getElem?_eq_some_iff.mp hx).2
        have hy' : d.labels[i2][j] = y := (List.getElem?_eq_some_iff.mp hy).2
        rcases far_square (c := preds[i1][j]'(by omega)) ha hb hab with ho | ho
        · exact mem i1 hi1 hi1' hj1 (by omega) (by rw [hx']; exact ho)
        · refine mem i2 hi2 hi2' hj2 (by omega) ?_
          rw [hy']
          simp only [hpe] at ho
          exact ho
      have hlen2 : (List.zipWith (List.zipWith F64.sub) d.labels preds).length ≤ 2 ^ 53 := by
        rw [List.length_zipWith]
        omega
      have hs := splitOf_over hw hlen2 hover
      obtain ⟨q, leaf, h4⟩ := (single_leaf_of_no_gain hw hs cfg hc).2.1 .regression
      exact ⟨q, leaf, Except.ok.inj (h3.symm.trans h4)⟩
  have hall : ∀ tree ∈ m.trees, ∃ q leaf, tree = .mk q none none (some leaf) := by
    intro tree htree
    obtain ⟨k, hk⟩ := List.getElem?_of_mem htree
    exact key k tree hk
  exact ⟨hall, hsame m.trees hall⟩

/-! ## Concrete cases -/

namespace Sample

/-- four rows with faint, different labels -/
def faint4 : DataSet B64 :=
  { featureRows := [[b64 0], [b64 1], [b64 2], [b64 3]]
    labels := [[b64 0], [b64 (1 / 2 ^ 600)], [b64 (-(1 / 2 ^ 565))], [b64 (1 / 2 ^ 565)]]
    featureColumns := [[b64 0, b64 1, b64 2, b64 3]] }

/-- two rows with labels that are too far apart -/
def apart : DataSet B64 :=
  { featureRows := [[b64 0], [b64 1]], labels := [[b64 (2 ^ 513)], [b64 0]], featureColumns := [[b64 0, b64 1]] }

end Sample

-- the hypotheses of `C85_small_labels` are met by different labels, which the exact program separates
example : ∀ negZero : Bool, let _ := env negZero
    faint4.WF 1 1 := by
  intro negZero
  dsimp only
  refine @DataSet.WF.mk _ (@instF64B64OfB64Env (env negZero)) _ _ _ ?_ ?_ ?_ ?_ ?_ ?_ ?_ <;> revert negZero <;> decide +kernel

example : ∀ l ∈ faint4.labels, ∀ x ∈ l, Faint x := by
  have key : ∀ l ∈ faint4.labels, ∀ x ∈ l, x.val = .fin (finPart x.val) ∧ |finPart x.val| ≤ 1 / 2 ^ 565 := by decide +kernel
  exact fun l hl x hx => ⟨_, key l hl x hx⟩

-- the trees in binary64 and with exact arithmetic
example : ∀ negZero : Bool, let _ := env negZero
    (regressionTreeNew faint4 { useMultiThreading := false, numberOfClasses := 1, maxLevels := 3 }).map TreeNode.questionCount = .ok 0 := by
  decide +kernel
example : (regressionTreeNew faint4.exact { useMultiThreading := false, numberOfClasses := 1, maxLevels := 3 }).map TreeNode.questionCount =
    .ok 3 := by decide +kernel

-- the hypotheses of `C85_far_apart` and `C85_large_labels` are met
example : ∀ negZero : Bool, let _ := env negZero
    apart.WF 1 1 := by
  intro negZero
  dsimp only
  refine @DataSet.WF.mk _ (@instF64B64OfB64Env (env negZero)) _ _ _ ?_ ?_ ?_ ?_ ?_ ?_ ?_ <;> revert negZero <;> decide +kernel

example : [b64 (2 ^ 513)] ∈ apart.labels ∧ [b64 0] ∈ apart.labels ∧ (b64 (2 ^ 513)).val = .fin (2 ^ 513) ∧ (b64 0).val = .fin 0 ∧
    (2 : ℚ) ^ 513 ≤ |2 ^ 513 - 0| := by
  refine ⟨by decide +kernel, by decide +kernel, by decide +kernel, by decide +kernel, ?_⟩
  rw [sub_zero]
  exact le_abs_self _

example : Huge (b64 (2 ^ 513)) :=
  ⟨2 ^ 513, by decide +kernel, (pow_le_pow_right₀ (by norm_num) (by norm_num)).trans (le_abs_self _)⟩

example : ∀ negZero : Bool, let _ := env negZero
    (regressionTrain apart { useMultiThreading := false, numberOfClasses := 1, maxLevels := 3 } 2 (b64 0.5)).map
      (fun m => m.trees.map TreeNode.questionCount) = .ok [0, 0] := by decide +kernel

end Verif
