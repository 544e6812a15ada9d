import Verif.Lemmas.Poison
import Verif.Props.Sample
import Verif.Props.Rounding
/-!
# C77: how multi-class boosting collapses to NaN

A raw score whose exponential is not finite, or a leaf whose residuals of a class are all zero, destroys the whole ensemble.
-/

set_option linter.unusedSectionVars false

namespace Verif

open Sample

section
variable {F : Type} [F64 F] [LawfulOrder F] [LawfulCount F] [LawfulSign F] [LawfulPoison F]

theorem multiClass_guess_length {d : DataSet F} {c t : Nat} (h : d.WF c t) (ht1 : t ≤ 2 ^ 53) {cfg : TreeConfig} {N : Nat} {lr : F}
    {m : BoostModel F (GradBoostLeaf F)} (hm : multiClassTrain d cfg N lr = .ok m) : m.initialGuess.length = t := by
  rw [(C31_multiClass d cfg N lr m hm).2.2 c t h ht1]
  simp

/-- every row has an output in every tree -/
theorem multiClass_outs {d : DataSet F} {c t : Nat} (h : d.WF c t) (ht1 : t ≤ 2 ^ 53) {cfg : TreeConfig} (hc : cfg.numberOfClasses = t) {N : Nat} {lr : F}
    {m : BoostModel F (GradBoostLeaf F)} (hm : multiClassTrain d cfg N lr = .ok m) {row : List F} (hrow : c ≤ row.length) :
    ∃ outs, List.Forall₂ (fun tree o => gradOut row tree = .ok o ∧ o.length = m.initialGuess.length) m.trees outs := by
  have ht := multiClass_trees_of h hc hm
  rw [multiClass_guess_length h ht1 hm]
  generalize m.trees = trees at ht
  induction trees with
  | nil => exact ⟨[], .nil⟩
  | cons tree trees ih =>
    obtain ⟨outs, ho⟩ := ih (fun x hx => ht x (by simp [hx]))
    obtain ⟨r, hr, rfl⟩ := ht tree (by simp)
    obtain ⟨dd, hw, h1, _⟩ := gradOut_ok .multiClassClassification cfg.maxLevels hr hrow
    exact ⟨_ :: outs, .cons ⟨h1, leafOut_length _ hw.label_len⟩ ho⟩

/-- a training row with a probability that is NaN makes the next tree a single leaf that is NaN in these classes -/
theorem poisoned_tree {d : DataSet F} {c t : Nat} (h : d.WF c t) {cfg : TreeConfig} (hc : cfg.numberOfClasses = t) {N : Nat} {lr : F}
    {m : BoostModel F (GradBoostLeaf F)} (hm : multiClassTrain d cfg N lr = .ok m) {k : Nat} (hk : k < N) {row0 raw0 : List F}
    (hrow0 : row0 ∈ d.featureRows) (hraw0 : predictInstance row0 (m.trees.take k) m.initialGuess m.learningRate = .ok raw0)
    (hp : ∃ p ∈ softmaxOf raw0, isNaN p = true) :
    ∃ (tree : TreeNode F (GradBoostLeaf F)) (o : List F), m.trees[k]? = some tree ∧ o.length = t ∧ (∀ row, gradOut row tree = .ok o) ∧
      ∀ (j : Nat) (p : F), (softmaxOf raw0)[j]? = some p → isNaN p = true → ∃ y, o[j]? = some y ∧ isNaN y = true := by
  have hkl : k < m.trees.length := by rw [(C31_multiClass d cfg N lr m hm).1]; exact hk
  obtain ⟨scores, h1, h2, h3⟩ := C33_multiClass_residual_tree d h.label_count.symm cfg N lr m hm k _ (List.getElem?_eq_getElem hkl)
  have hw := residual_labels_wf h (f := softmaxOf) softmaxOf_length h2
  rw [gradBoostTreeNew_ok hw hc] at h3
  generalize hr : List.zipWith (fun l v => List.zipWith F64.sub l (softmaxOf v)) d.labels scores = r at h3 hw
  have hbad : ∀ j p, (softmaxOf raw0)[j]? = some p → isNaN p = true → ∃ v ∈ r, j < v.length ∧ isNaN (v.getD j F64.zero) = true := by
    intro j p hj hn
    obtain ⟨i, hi, rfl⟩ := List.getElem_of_mem hrow0
    have hs := mapM_eq_ok.mp h1
    have hi' : i < scores.length := by rw [← hs.length_eq]; exact hi
    have hil : i < d.labels.length := by rw [h.label_count]; exact hi
    have e : scores[i] = raw0 := by
      have := hs.get hi hi'
      simp only [List.get_eq_getElem, hraw0] at this
      exact (Except.ok.inj this).symm
    have hlen : (d.labels[i]).length = raw0.length := by
      have := h2.get hil hi'
      simp only [List.get_eq_getElem, e] at this
      exact this
    have hjl : j < raw0.length := by
      have := (List.getElem?_eq_some_iff.mp hj).1
      rwa [softmaxOf_length] at this
    refine ⟨List.zipWith F64.sub d.labels[i] (softmaxOf raw0), ?_, by simp [hlen, softmaxOf_length, hjl], ?_⟩
    · rw [← hr, List.mem_iff_getElem]
      exact ⟨i, by simp [hil, hi'], by simp [e]⟩
    · have : (List.zipWith F64.sub d.labels[i] (softmaxOf raw0))[j]? = some ((d.labels[i])[j] -. p) := by
        rw [List.getElem?_zipWith, hj, List.getElem?_eq_getElem (by omega)]
      rw [List.getD_eq_getElem?_getD, this]
      exact LawfulPoison.nan_sub_right _ hn
  have hnon : ∃ l ∈ r, ∃ x ∈ l, nonFinite x = true := by
    obtain ⟨p, hp, hn⟩ := hp
    obtain ⟨j, hj⟩ := List.getElem?_of_mem hp
    obtain ⟨v, hv, hjv, hvn⟩ := hbad j p hj hn
    rw [List.getD_eq_getElem?_getD, List.getElem?_eq_getElem hjv] at hvn
    exact ⟨v, hv, _, List.getElem_mem hjv, by simp only [nonFinite, Option.getD_some] at hvn ⊢; simp [hvn]⟩
  rw [treeOf_nonFinite hw hnon] at h3
  refine ⟨_, leafOut .multiClassClassification t r, List.getElem?_eq_getElem hkl, leafOut_length _ hw.label_len, ?_, ?_⟩
  · intro row
    rw [← Except.ok.inj h3]
    simp [gradOut, findLeafNodeForData, gradLeaf, unwrap]
  · intro j p hj hn
    obtain ⟨v, hv, hjv, hvn⟩ := hbad j p hj hn
    have hjt : j < t := by rw [← hw.label_len v hv]; exact hjv
    refine ⟨newtonAt t r j, ?_, newtonAt_nan ⟨v, hv, hvn⟩⟩
    rw [leafOut_eq _ hw.label_len, leafValue]
    simp [hjt]

/-- the raw scores of the first `k` trees -/
theorem raw_take {d : DataSet F} {c t : Nat} (h : d.WF c t) (ht1 : t ≤ 2 ^ 53) {cfg : TreeConfig} (hc : cfg.numberOfClasses = t) {N : Nat} {lr : F}
    {m : BoostModel F (GradBoostLeaf F)} (hm : multiClassTrain d cfg N lr = .ok m) {row : List F} (hrow : c ≤ row.length) (k : Nat) :
    ∃ outs, List.Forall₂ (fun tree o => gradOut row tree = .ok o ∧ o.length = m.initialGuess.length) (m.trees.take k) outs ∧
      predictInstance row (m.trees.take k) m.initialGuess m.learningRate = .ok (addUp m.initialGuess m.learningRate outs) ∧
      (addUp m.initialGuess m.learningRate outs).length = t := by
  obtain ⟨outs, ho⟩ := multiClass_outs h ht1 hc hm hrow
  have := rawScore_addUp (lr := m.learningRate) (List.forall₂_take k ho)
  refine ⟨outs.take k, List.forall₂_take k ho, by rw [predictInstance_eq]; exact this.1, this.2.trans (multiClass_guess_length h ht1 hm)⟩

/-- a tree that is NaN in class `j` makes all later raw scores NaN there -/
theorem raw_nan {d : DataSet F} {c t : Nat} (h : d.WF c t) (ht1 : t ≤ 2 ^ 53) {cfg : TreeConfig} (hc : cfg.numberOfClasses = t) {N : Nat} {lr : F}
    {m : BoostModel F (GradBoostLeaf F)} (hm : multiClassTrain d cfg N lr = .ok m) {row : List F} (hrow : c ≤ row.length) {k l : Nat} (hkl : k < l)
    {tree : TreeNode F (GradBoostLeaf F)} (hk : m.trees[k]? = some tree) {o : List F} (ho : gradOut row tree = .ok o) {j : Nat} {y : F}
    (hj : o[j]? = some y) (hy : isNaN y = true) :
    ∃ raw, predictInstance row (m.trees.take l) m.initialGuess m.learningRate = .ok raw ∧ raw.length = t ∧ ∃ z, raw[j]? = some z ∧ isNaN z = true := by
  obtain ⟨outs, h1, h2, h3⟩ := raw_take h ht1 hc hm hrow l
  refine ⟨_, h2, h3, ?_⟩
  have hkt : (m.trees.take l)[k]? = some tree := by rw [List.getElem?_take_of_lt hkl, hk]
  obtain ⟨hkt1, hkt2⟩ := List.getElem?_eq_some_iff.mp hkt
  have hko : k < outs.length := by rw [← h1.length_eq]; exact hkt1
  have hg := h1.get hkt1 hko
  simp only [List.get_eq_getElem, hkt2, ho] at hg
  have e := Except.ok.inj hg.1
  refine addUp_nan (k := k) (o := o) (x := y) ?_ ?_ ?_ hj hy
  · rw [← hg.2, ← e]; exact (List.getElem?_eq_some_iff.mp hj).1
  · intro o' ho'
    obtain ⟨i, hi, rfl⟩ := List.getElem_of_mem ho'
    have := h1.get (i := i) (by rw [h1.length_eq]; exact hi) hi
    exact this.2
  · rw [List.getElem?_eq_getElem hko, e]

/-- **C77** (overflow).  If after `n` iterations some training row has a raw score whose exponential is not finite, then from two iterations
later on all raw scores of all rows are NaN and the first class is predicted for every row.  The hypothesis `hexp` says that the exponential
of NaN is NaN. -/
theorem C77_overflow (hexp : ∀ x : F, isNaN x = true → isNaN (F64.exp x) = true) (d : DataSet F) (c t : Nat) (h : d.WF c t) (ht1 : t ≤ 2 ^ 53)
    (cfg : TreeConfig) (hc : cfg.numberOfClasses = t) (n : Nat) (lr : F) (m : BoostModel F (GradBoostLeaf F))
    (hm : multiClassTrain d cfg n lr = .ok m) (row0 raw0 : List F) (hrow0 : row0 ∈ d.featureRows)
    (hraw0 : predictInstance row0 m.trees m.initialGuess m.learningRate = .ok raw0)
    (hx : ∃ x ∈ raw0, nonFinite (F64.exp x) = true) (k : Nat) :
    ∃ m', multiClassTrain d cfg (n + 2 + k) lr = .ok m' ∧ ∀ row : List F, c ≤ row.length →
      (∃ raw, predictInstance row m'.trees m'.initialGuess m'.learningRate = .ok raw ∧ raw.length = t ∧ ∀ x ∈ raw, isNaN x = true) ∧
      multiClassPredict m' row = .ok (oneHot t 0) := by
  obtain ⟨x, hx, hxn⟩ := hx
  obtain ⟨j, hj⟩ := List.getElem?_of_mem hx
  have hjr : j < raw0.length := (List.getElem?_eq_some_iff.mp hj).1
  have hc0 : c ≤ row0.length := by rw [h.row_len _ hrow0]
  have ht0 : 0 < t := by
    obtain ⟨outs, _, h2, h3⟩ := raw_take h ht1 hc hm hc0 m.trees.length
    rw [List.take_length, hraw0] at h2
    rw [← h3, ← Except.ok.inj h2]
    omega
  obtain ⟨m', hm', _⟩ := C42_multiClass d c t h ht0 ht1 cfg hc (n + 2 + k) lr
  refine ⟨m', hm', ?_⟩
  -- the smaller model is a prefix of the larger
  have hpre := C32_multiClass d cfg n (n + 2 + k) (by omega) lr m' hm'
  rw [hm] at hpre
  have hpre := Except.ok.inj hpre
  have hraw0' : predictInstance row0 (m'.trees.take n) m'.initialGuess m'.learningRate = .ok raw0 := by
    rw [← hraw0, hpre]
  obtain ⟨p, hp, hpn⟩ := softmaxOf_nonFinite hj hxn
  obtain ⟨tree1, o1, hk1, _, hg1, hn1⟩ := poisoned_tree h hc hm' (k := n) (by omega) hrow0 hraw0' ⟨p, List.mem_of_getElem? hp, hpn⟩
  obtain ⟨y1, hy1, hyn1⟩ := hn1 j p hp hpn
  -- one iteration later class `j` is NaN
  obtain ⟨raw1, hraw1, hlen1, z, hz, hzn⟩ := raw_nan h ht1 hc hm' hc0 (l := n + 1) (by omega) hk1 (hg1 row0) hy1 hyn1
  have hall := softmaxOf_nan (v := raw1) ⟨z, List.mem_of_getElem? hz, hexp z hzn⟩
  have hlp : (softmaxOf raw1).length = t := by rw [softmaxOf_length, hlen1]
  obtain ⟨tree2, o2, hk2, hlen2, hg2, hn2⟩ := poisoned_tree h hc hm' (k := n + 1) (by omega) hrow0 hraw1
    ⟨(softmaxOf raw1)[0]'(by omega), List.getElem_mem _, hall _ (List.getElem_mem _)⟩
  intro row hrow
  have hnan : ∃ raw, predictInstance row m'.trees m'.initialGuess m'.learningRate = .ok raw ∧ raw.length = t ∧ ∀ x ∈ raw, isNaN x = true := by
    obtain ⟨outs, _, h2, h3⟩ := raw_take h ht1 hc hm' hrow (n + 2 + k)
    have htake : m'.trees.take (n + 2 + k) = m'.trees := by
      rw [← (C31_multiClass d cfg _ lr m' hm').1, List.take_length]
    rw [htake] at h2
    refine ⟨_, h2, h3, ?_⟩
    intro x hx
    obtain ⟨i, hi⟩ := List.getElem?_of_mem hx
    have hit : i < t := by rw [← h3]; exact (List.getElem?_eq_some_iff.mp hi).1
    obtain ⟨y, hy, hyn⟩ := hn2 i _ (List.getElem?_eq_getElem (by omega)) (hall _ (List.getElem_mem _))
    obtain ⟨raw, hr1, _, z, hz, hzn⟩ := raw_nan h ht1 hc hm' hrow (l := n + 2 + k) (by omega) hk2 (hg2 row) hy hyn
    rw [htake, h2] at hr1
    rw [← Except.ok.inj hr1, hi] at hz
    cases hz
    exact hzn
  refine ⟨hnan, ?_⟩
  obtain ⟨raw, hr, hl, hn⟩ := hnan
  have hne : raw ≠ [] := List.ne_nil_of_length_pos (by omega)
  have e0 : (findMaxValueAndIndex raw).2 = 0 := by
    rcases findMax_spec raw with ⟨_, h2, _⟩ | ⟨h1, h2, _⟩
    · exact h2
    · have := hn _ (List.mem_of_getElem? h1)
      have hself := (LawfulOrder.le_nan (LawfulOrder.lt_iff.mp h2).1).2
      simp [isNaN, hself] at this
  simp [multiClassPredict, hr, getBinaryPrediction_ok hne, e0, hl]

/-- **C77** (perfect fit).  If, in the tree of iteration `n + 1`, all training rows of the leaf of some training row have the residual zero
in some class (their probability after `n` iterations equals the label), then the leaf's output `0 / 0` is NaN, and from iteration `n + 3` on
all raw scores of all rows are NaN and the first class is predicted for every row. -/
theorem C77_perfect_fit (hexp : ∀ x : F, isNaN x = true → isNaN (F64.exp x) = true) (d : DataSet F) (c t : Nat) (h : d.WF c t) (ht1 : t ≤ 2 ^ 53)
    (cfg : TreeConfig) (hc : cfg.numberOfClasses = t) (n : Nat) (lr : F) (m : BoostModel F (GradBoostLeaf F))
    (hm : multiClassTrain d cfg (n + 1) lr = .ok m) (tree : TreeNode F (GradBoostLeaf F)) (htree : m.trees[n]? = some tree)
    (row0 : List F) (hrow0 : row0 ∈ d.featureRows) (j : Nat) (hj : j < t)
    (hfit : ∀ e ∈ d.examples, tree.route e.1 = tree.route row0 → ∀ raw, predictInstance e.1 (m.trees.take n) m.initialGuess m.learningRate = .ok raw →
      (e.2.getD j F64.zero -. (softmaxOf raw).getD j F64.zero ==. F64.zero) = true) (k : Nat) :
    ∃ m', multiClassTrain d cfg (n + 3 + k) lr = .ok m' ∧ ∀ row : List F, c ≤ row.length →
      (∃ raw, predictInstance row m'.trees m'.initialGuess m'.learningRate = .ok raw ∧ raw.length = t ∧ ∀ x ∈ raw, isNaN x = true) ∧
      multiClassPredict m' row = .ok (oneHot t 0) := by
  obtain ⟨scores, h1, h2, h3⟩ := C33_multiClass_residual_tree d h.label_count.symm cfg (n + 1) lr m hm n tree htree
  have hw := residual_labels_wf h (f := softmaxOf) softmaxOf_length h2
  rw [gradBoostTreeNew_ok hw hc] at h3
  have h3 := Except.ok.inj h3
  have hc0 : c ≤ row0.length := by rw [h.row_len _ hrow0]
  obtain ⟨dd, hdd, ho, hex⟩ := gradOut_ok .multiClassClassification cfg.maxLevels hw hc0
  rw [h3] at ho hex
  have hs := mapM_eq_ok.mp h1
  have hzero : ∀ v ∈ dd.labels, (v.getD j F64.zero ==. F64.zero) = true := by
    intro v hv
    obtain ⟨i, hi, rfl⟩ := List.getElem_of_mem hv
    have hir : i < dd.featureRows.length := by rw [← hdd.label_count]; exact hi
    have hmem : (dd.featureRows[i], dd.labels[i]) ∈ dd.examples := by
      rw [DataSet.examples, List.mem_iff_getElem]
      exact ⟨i, by simp [hi, hir], by simp⟩
    rw [hex, List.mem_filter, decide_eq_true_eq] at hmem
    obtain ⟨hmem, hroute⟩ := hmem
    obtain ⟨i', hi', e⟩ := List.getElem_of_mem hmem
    simp only [DataSet.examples, List.length_zip, List.length_zipWith] at hi'
    simp only [DataSet.examples, List.getElem_zip, List.getElem_zipWith, Prod.mk.injEq] at e
    obtain ⟨e1, e2⟩ := e
    have hl : i' < d.labels.length := by omega
    have hsc : i' < scores.length := by omega
    have hraw := hs.get (i := i') (by omega) hsc
    simp only [List.get_eq_getElem] at hraw
    have hmem' : (d.featureRows[i']'(by omega), d.labels[i']) ∈ d.examples := by
      rw [DataSet.examples, List.mem_iff_getElem]
      exact ⟨i', by simp; omega, by simp⟩
    have hz := hfit _ hmem' (by rw [e1]; exact hroute) _ hraw
    have hlab : (d.labels[i']).length = t := h.label_len _ (List.getElem_mem _)
    have hlsc : (scores[i']).length = t := by
      have := h2.get (i := i') hl hsc
      simp only [List.get_eq_getElem] at this
      omega
    rw [← e2]
    have : (List.zipWith F64.sub d.labels[i'] (softmaxOf scores[i'])).getD j F64.zero =
        (d.labels[i']).getD j F64.zero -. (softmaxOf scores[i']).getD j F64.zero := by
      rw [List.getD_eq_getElem?_getD, List.getD_eq_getElem?_getD, List.getD_eq_getElem?_getD, List.getElem?_zipWith,
        List.getElem?_eq_getElem (by omega), List.getElem?_eq_getElem (by rw [softmaxOf_length]; omega)]
      rfl
    rw [this]
    exact hz
  obtain ⟨raw, hraw, _, z, hz, hzn⟩ := raw_nan h ht1 hc hm hc0 (k := n) (l := n + 1) (by omega) htree ho (j := j) (y := newtonAt t dd.labels j)
    (by rw [leafOut_eq _ hdd.label_len, leafValue]; simp [hj]) (newtonAt_zero hzero)
  have htake : m.trees.take (n + 1) = m.trees := by
    rw [← (C31_multiClass d cfg _ lr m hm).1, List.take_length]
  rw [htake] at hraw
  have hnf : nonFinite (F64.exp z) = true := by simp [nonFinite, hexp z hzn]
  obtain ⟨m', hm', hall⟩ := C77_overflow hexp d c t h ht1 cfg hc (n + 1) lr m hm row0 raw hrow0 hraw ⟨z, List.mem_of_getElem? hz, hnf⟩ k
  exact ⟨m', by rw [show n + 3 + k = n + 1 + 2 + k by omega]; exact hm', hall⟩

end

/-! ## A run that collapses

Two rows of different classes in binary64, with the learning rate 8 and a function close to the exponential. -/

namespace Sample

/-- `(1 + x/1024)^1024` by ten rounded squarings, zero below -745, infinite above 710 -/
def expish (x : B64) : B64 :=
  match x.val with
  | .nan => .make false .nan
  | .posInf => .make false .posInf
  | .negInf => .make false (.fin 0)
  | .fin q => if q < -745 then .make false (.fin 0) else if 710 < q then .make false .posInf else
      (List.range 10).foldl (fun (a : B64) _ => .make false (Ext.mul a.val a.val)) (.make false (.fin (1 + q / 1024)))

/-- binary64 with this exponential -/
@[reducible] def expEnv : B64Env := ⟨expish, false⟩

/-- two rows, one of each class -/
def apart2 : DataSet B64 :=
  { featureRows := [[b64 0], [b64 1]], featureColumns := [[b64 0, b64 1]], labels := [[b64 1, b64 0], [b64 0, b64 1]] }

/-- two classes, three levels -/
def apartCfg : TreeConfig := { useMultiThreading := false, numberOfClasses := 2, maxLevels := 3 }

attribute [local instance] expEnv

theorem apart2_wf : apart2.WF 1 2 :=
  ⟨by decide +kernel, by decide +kernel, by decide +kernel, by decide +kernel, by decide +kernel, by decide +kernel, by decide +kernel⟩

theorem expish_nan : ∀ x : B64, isNaN x = true → isNaN (F64.exp x) = true := by
  intro x h
  rw [B64.isNaN_val, Ext.isNaN_iff] at *
  show (expish x).val = .nan
  rw [expish, h]
  rfl

/-- the predictions and the raw scores of the two rows after `n` iterations -/
def apartRun (n : Nat) : R (List (List B64) × List (List B64)) := do
  let m ← multiClassTrain apart2 apartCfg n (b64 8)
  let p ← apart2.featureRows.mapM (multiClassPredict m)
  let r ← apart2.featureRows.mapM (fun row => predictInstance row m.trees m.initialGuess m.learningRate)
  pure (p, r)

/-- the question of the fifth tree, and whether the residuals of the first row (class 0) and of the second (class 1) are zero after four iterations -/
def apartFit : R (Bool × Bool × Bool) := do
  let m ← multiClassTrain apart2 apartCfg 5 (b64 8)
  let tree ← unwrap (m.trees[4]?)
  let raw0 ← predictInstance [b64 0] (m.trees.take 4) m.initialGuess m.learningRate
  let raw1 ← predictInstance [b64 1] (m.trees.take 4) m.initialGuess m.learningRate
  pure (decide (tree.route [b64 0] ≠ tree.route [b64 1]), ((b64 1 : B64) -. (softmaxOf raw0).getD 0 F64.zero) ==. F64.zero,
    ((b64 1 : B64) -. (softmaxOf raw1).getD 1 F64.zero) ==. F64.zero)

-- both rows are classified correctly after one and after four iterations; after five the raw scores of the true classes are NaN and both predictions are wrong
example : (apartRun 1).map (fun x => decide (x.1 = apart2.labels)) = .ok true := by decide +kernel
example : (apartRun 4).map (fun x => decide (x.1 = apart2.labels)) = .ok true := by decide +kernel
example : (apartRun 5).map (fun x => (decide (x.1 = apart2.labels.reverse), x.2.map (fun v => v.map isNaN))) = .ok (true, [[true, false], [false, true]]) := by
  decide +kernel
-- what `C77_perfect_fit` asks for is met: the fifth tree separates the two rows and their residuals are zero
example : apartFit = .ok (true, true, true) := by decide +kernel

/-- the run collapses for good -/
theorem apart_collapses (k : Nat) : ∃ m, multiClassTrain apart2 apartCfg (7 + k) (b64 8) = .ok m ∧ ∀ row : List B64, 1 ≤ row.length →
    multiClassPredict m row = .ok (oneHot 2 0) := by
  have hw := apart2_wf
  obtain ⟨m, hm, _⟩ := C42_multiClass apart2 1 2 hw (by omega) (by norm_num) apartCfg rfl 5 (b64 8)
  have hrun : ∃ p r, apartRun 5 = .ok (p, r) ∧ ∃ v ∈ r[0]?, ∃ x ∈ v, nonFinite (F64.exp x) = true := by
    have : (apartRun 5).map (fun x => decide (∃ v ∈ x.2[0]?, ∃ x ∈ v, nonFinite (F64.exp x) = true)) = .ok true := by decide +kernel
    match h : apartRun 5, this with
    | .ok (p, r), this => exact ⟨p, r, rfl, by simpa [Except.map] using this⟩
  obtain ⟨p, r, hrun, v, hv, hx⟩ := hrun
  simp only [apartRun, hm, R.ok_bind, R.bind_eq_ok] at hrun
  obtain ⟨p', _, r', hr, hpr⟩ := hrun
  cases hpr
  have hr0 := mapM_get hr (i := 0) (a := [b64 0]) (by rfl)
  obtain ⟨y, hy1, hy2⟩ := hr0
  rw [hy1] at hv
  cases hv
  obtain ⟨m', hm', hall⟩ := C77_overflow expish_nan apart2 1 2 hw (by norm_num) apartCfg rfl 5 (b64 8) m hm [b64 0] _ (by simp [apart2]) hy2 hx k
  exact ⟨m', hm', fun row hrow => (hall row hrow).2⟩

end Sample

end Verif
