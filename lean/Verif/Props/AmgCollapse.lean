import Verif.Lemmas.Infinity
import Verif.Props.Collapse
/-!
# C80: what NaN, infinity and a perfect fit do to AMG boosting

An infinite score or NaN at one training row ends the learning: all later trees are single leaves.  A leaf whose rows are fitted perfectly
turns their predictions to the second class, whatever their labels are.
-/

set_option linter.unusedSectionVars false

namespace Verif

open Sample

section
variable {F : Type} [F64 F] [LawfulOrder F] [LawfulCount F] [LawfulSign F] [LawfulInfinity F]
open LawfulInfinity

theorem amg_guess_length {d : DataSet F} {c t : Nat} (h : d.WF c t) (ht1 : t ≤ 2 ^ 53) {cfg : TreeConfig} {N : Nat} {lr : F}
    {m : BoostModel F (AMGBoostLeaf F)} (hm : amgTrain d cfg N lr = .ok m) : m.initialGuess.length = t := by
  rw [(C31_amg d cfg N lr m hm).2.2 c t h ht1]
  simp

theorem amg_out_total {d : DataSet F} {c t : Nat} (ht0 : 0 < t) (h : d.WF c t) {cfg : TreeConfig} (hc : cfg.numberOfClasses = t) {N : Nat} {lr : F}
    {m : BoostModel F (AMGBoostLeaf F)} (hm : amgTrain d cfg N lr = .ok m) {row : List F} (hrow : c ≤ row.length) :
    ∀ tree ∈ m.trees, ∃ o, amgOut t row tree = .ok o ∧ o.length = t := by
  intro tree htree
  obtain ⟨r, hr, rfl⟩ := amg_trees_of h hc hm tree htree
  obtain ⟨dd, _, _, h1, _⟩ := amgOut_ok ht0 .multiClassClassification cfg.maxLevels hr hrow
  exact ⟨_, h1, amgVec_length _ _⟩

/-- the raw scores of the first `k` trees -/
theorem amg_raw_take {d : DataSet F} {c t : Nat} (ht0 : 0 < t) (h : d.WF c t) (ht1 : t ≤ 2 ^ 53) {cfg : TreeConfig} (hc : cfg.numberOfClasses = t)
    {N : Nat} {lr : F} {m : BoostModel F (AMGBoostLeaf F)} (hm : amgTrain d cfg N lr = .ok m) {row : List F} (hrow : c ≤ row.length) (k : Nat) :
    ∃ raw, amgPredictInstance row (m.trees.take k) m.initialGuess m.learningRate t = .ok raw ∧ raw.length = t := by
  have hg := amg_guess_length h ht1 hm
  obtain ⟨s, h1, h2⟩ := rawScore_total (out := amgOut t) (g := m.initialGuess) (lr := m.learningRate) (trees := m.trees.take k) (row := row)
    (fun tree htree => by rw [hg]; exact amg_out_total ht0 h hc hm hrow tree (List.mem_of_mem_take htree))
  exact ⟨s, by rw [amgPredictInstance_eq]; exact h1, h2.trans hg⟩

/-- one more tree -/
theorem amg_raw_succ {t : Nat} {m : BoostModel F (AMGBoostLeaf F)} {row raw o : List F} {k : Nat}
    {tree : TreeNode F (AMGBoostLeaf F)} (hk : m.trees[k]? = some tree)
    (hraw : amgPredictInstance row (m.trees.take k) m.initialGuess m.learningRate t = .ok raw) (hl : raw.length = t)
    (ho : amgOut t row tree = .ok o) (hol : o.length = t) :
    amgPredictInstance row (m.trees.take (k + 1)) m.initialGuess m.learningRate t = .ok (List.zipWith F64.add raw (o.map (fun x => m.learningRate *. x))) := by
  rw [amgPredictInstance_eq] at *
  rw [List.take_add_one, hk]
  exact rawScore_snoc hraw ho (by omega)

/-- a training row with a probability that is NaN makes the next tree a single leaf -/
theorem amg_poisoned_tree {d : DataSet F} {c t : Nat} (h : d.WF c t) (ht1 : t ≤ 2 ^ 53) {cfg : TreeConfig} (hc : cfg.numberOfClasses = t) {N : Nat} {lr : F}
    {m : BoostModel F (AMGBoostLeaf F)} (hm : amgTrain d cfg N lr = .ok m) {k : Nat} {tree : TreeNode F (AMGBoostLeaf F)}
    (hk : m.trees[k]? = some tree) {row0 raw0 : List F}
    (hrow0 : row0 ∈ d.featureRows) (hraw0 : amgPredictInstance row0 (m.trees.take k) m.initialGuess m.learningRate t = .ok raw0)
    (hp : ∃ p ∈ softmaxOf raw0, isNaN p = true) :
    ∃ (q : Question F) (r : List (List F)), (∀ v ∈ r, v.length = t) ∧
      tree = .mk q none none (some (amgLeaf .multiClassClassification t { d with labels := r })) ∧
      ∀ (j : Nat) (p : F), (softmaxOf raw0)[j]? = some p → isNaN p = true → ∃ v ∈ r, j < v.length ∧ isNaN (v.getD j F64.zero) = true := by
  obtain ⟨scores, h1, h2, h3⟩ := C33_amg_residual_tree d h.label_count.symm cfg N lr m hm k _ hk
  rw [amg_guess_length h ht1 hm] at h1
  have hw := residual_labels_wf h (f := softmaxOf) softmaxOf_length h2
  rw [amgTreeNew_ok hw hc] at h3
  generalize hr : List.zipWith (fun l v => List.zipWith F64.sub l (softmaxOf v)) d.labels scores = r at h3 hw
  have hbad : ∀ j p, (softmaxOf raw0)[j]? = some p → isNaN p = true → ∃ v ∈ r, j < v.length ∧ isNaN (v.getD j F64.zero) = true := by
    intro j p hj hn
    obtain ⟨i, hi, rfl⟩ := List.getElem_of_mem hrow0
    have hs := mapM_eq_ok.mp h1
    have hi' : i < scores.length := by rw [← hs.length_eq]; exact hi
    have hil : i < d.labels.length := by rw [h.label_count]; exact hi
    have e : scores[i] = raw0 := by
      have := hs.get hi hi'
      simp only [List.get_eq_getElem, hraw0] at this
      exact (Except.ok.inj this).symm
    have hlen : (d.labels[i]).length = raw0.length := by
      have := h2.get hil hi'
      simp only [List.get_eq_getElem, e] at this
      exact this
    have hjl : j < raw0.length := by
      have := (List.getElem?_eq_some_iff.mp hj).1
      rwa [softmaxOf_length] at this
    refine ⟨List.zipWith F64.sub d.labels[i] (softmaxOf raw0), ?_, by simp [hlen, softmaxOf_length, hjl], ?_⟩
    · rw [← hr, List.mem_iff_getElem]
      exact ⟨i, by simp [hil, hi'], by simp [e]⟩
    · have : (List.zipWith F64.sub d.labels[i] (softmaxOf raw0))[j]? = some ((d.labels[i])[j] -. p) := by
        rw [List.getElem?_zipWith, hj, List.getElem?_eq_getElem (by omega)]
      rw [List.getD_eq_getElem?_getD, this]
      exact LawfulPoison.nan_sub_right _ hn
  have hnon : ∃ l ∈ r, ∃ x ∈ l, nonFinite x = true := by
    obtain ⟨p, hp, hn⟩ := hp
    obtain ⟨j, hj⟩ := List.getElem?_of_mem hp
    obtain ⟨v, hv, hjv, hvn⟩ := hbad j p hj hn
    rw [List.getD_eq_getElem?_getD, List.getElem?_eq_getElem hjv] at hvn
    exact ⟨v, hv, _, List.getElem_mem hjv, by simp only [nonFinite, Option.getD_some] at hvn ⊢; simp [hvn]⟩
  rw [treeOf_nonFinite hw hnon] at h3
  exact ⟨_, r, hw.label_len, (Except.ok.inj h3).symm, hbad⟩

/-- a score that is NaN or plus infinity stays so -/
theorem amg_pos_stays {d : DataSet F} {c t : Nat} (ht0 : 0 < t) (h : d.WF c t) (ht1 : t ≤ 2 ^ 53) {cfg : TreeConfig} (hc : cfg.numberOfClasses = t)
    {N : Nat} {lr : F} {m : BoostModel F (AMGBoostLeaf F)} (hm : amgTrain d cfg N lr = .ok m) {row : List F} (hrow : c ≤ row.length)
    {S : F → Prop} (hS : ∀ x y, S x → S (x +. y)) {n : Nat} {raw0 : List F}
    (hraw0 : amgPredictInstance row (m.trees.take n) m.initialGuess m.learningRate t = .ok raw0) {j : Nat} {x : F} (hj : raw0[j]? = some x)
    (hx : S x) : ∀ k, ∃ raw, amgPredictInstance row (m.trees.take (n + k)) m.initialGuess m.learningRate t = .ok raw ∧
      ∃ y, raw[j]? = some y ∧ S y := by
  intro k
  induction k with
  | zero => exact ⟨raw0, hraw0, x, hj, hx⟩
  | succ k ih =>
    obtain ⟨raw, h1, y, hy, hyS⟩ := ih
    have hl : raw.length = t := by
      obtain ⟨raw', h1', hl'⟩ := amg_raw_take ht0 h ht1 hc hm hrow (n + k)
      rw [h1] at h1'
      rw [Except.ok.inj h1', hl']
    have hjt : j < t := by rw [← hl]; exact (List.getElem?_eq_some_iff.mp hy).1
    rw [← Nat.add_assoc]
    by_cases hk : n + k < m.trees.length
    · obtain ⟨o, ho, hol⟩ := amg_out_total ht0 h hc hm hrow _ (List.getElem_mem hk)
      refine ⟨_, amg_raw_succ (List.getElem?_eq_getElem hk) h1 hl ho hol, y +. (m.learningRate *. o[j]), ?_, hS _ _ hyS⟩
      rw [List.getElem?_zipWith, hy, List.getElem?_map, List.getElem?_eq_getElem (by omega)]
      rfl
    · refine ⟨raw, ?_, y, hy, hyS⟩
      rw [List.take_of_length_le (by omega)] at h1 ⊢
      exact h1

/-- rows that are not told apart after `n` trees, when the later trees are single leaves -/
theorem amg_same {d : DataSet F} {c t : Nat} (ht0 : 0 < t) (h : d.WF c t) (ht1 : t ≤ 2 ^ 53) {cfg : TreeConfig} (hc : cfg.numberOfClasses = t)
    {N : Nat} {lr : F} {m : BoostModel F (AMGBoostLeaf F)} (hm : amgTrain d cfg N lr = .ok m) {n : Nat}
    (hleaf : ∀ i tree, n ≤ i → m.trees[i]? = some tree → ∃ leaf, ∀ row, findLeafNodeForData row tree = .ok leaf)
    {row row' : List F} (hrow : c ≤ row.length)
    (he : amgPredictInstance row (m.trees.take n) m.initialGuess m.learningRate t =
      amgPredictInstance row' (m.trees.take n) m.initialGuess m.learningRate t) : ∀ k,
    amgPredictInstance row (m.trees.take (n + k)) m.initialGuess m.learningRate t =
      amgPredictInstance row' (m.trees.take (n + k)) m.initialGuess m.learningRate t := by
  intro k
  induction k with
  | zero => exact he
  | succ k ih =>
    rw [← Nat.add_assoc]
    by_cases hk : n + k < m.trees.length
    · obtain ⟨raw, h1, hl⟩ := amg_raw_take ht0 h ht1 hc hm hrow (n + k)
      have h1' := h1
      rw [ih] at h1'
      obtain ⟨leaf, hlf⟩ := hleaf (n + k) _ (by omega) (List.getElem?_eq_getElem hk)
      obtain ⟨o, ho, hol⟩ := amg_out_total ht0 h hc hm hrow _ (List.getElem_mem hk)
      have ho' : amgOut t row' m.trees[n + k] = .ok o := by
        rw [← ho]
        simp only [amgOut, hlf]
      rw [amg_raw_succ (List.getElem?_eq_getElem hk) h1 hl ho hol, amg_raw_succ (List.getElem?_eq_getElem hk) h1' hl ho' hol]
    · rw [List.take_of_length_le (by omega)] at ih ⊢
      exact ih

/-- **C80** (standstill).  If after `n` iterations of AMG boosting some training row has a score that is NaN or plus infinity, every later
tree gives the same leaf to all rows, and rows with equal scores after `n` iterations have equal scores and predictions ever after.  The
hypothesis `hexp` says that the exponential of NaN and of plus infinity is not finite. -/
theorem C80_standstill (hexp : ∀ x : F, posSpecial x = true → nonFinite (F64.exp x) = true) (d : DataSet F) (c t : Nat) (h : d.WF c t)
    (ht1 : t ≤ 2 ^ 53) (cfg : TreeConfig) (hc : cfg.numberOfClasses = t) (n : Nat) (lr : F) (m : BoostModel F (AMGBoostLeaf F))
    (hm : amgTrain d cfg n lr = .ok m) (row0 raw0 : List F) (hrow0 : row0 ∈ d.featureRows)
    (hraw0 : amgPredictInstance row0 m.trees m.initialGuess m.learningRate t = .ok raw0)
    (hx : ∃ x ∈ raw0, posSpecial x = true) (ht0 : 0 < t) (k : Nat) :
    ∃ m', amgTrain d cfg (n + k) lr = .ok m' ∧
      (∀ i tree, n ≤ i → m'.trees[i]? = some tree → ∃ leaf, ∀ row, findLeafNodeForData row tree = .ok leaf) ∧
      ∀ row row' : List F, c ≤ row.length → c ≤ row'.length →
        amgPredictInstance row m.trees m.initialGuess m.learningRate t = amgPredictInstance row' m.trees m.initialGuess m.learningRate t →
        amgPredictInstance row m'.trees m'.initialGuess m'.learningRate t = amgPredictInstance row' m'.trees m'.initialGuess m'.learningRate t ∧
        amgPredict m' row = amgPredict m' row' := by
  obtain ⟨x, hx, hxn⟩ := hx
  obtain ⟨j, hj⟩ := List.getElem?_of_mem hx
  have hc0 : c ≤ row0.length := by rw [h.row_len _ hrow0]
  obtain ⟨m', hm', _⟩ := C42_amg d c t h ht0 ht1 cfg hc (n + k) lr
  have hpre := C32_amg d cfg n (n + k) (by omega) lr m' hm'
  rw [hm] at hpre
  have hpre := Except.ok.inj hpre
  subst hpre
  have hlen := (C31_amg d cfg _ lr m' hm').1
  have hleaf : ∀ i tree, n ≤ i → m'.trees[i]? = some tree → ∃ leaf, ∀ row, findLeafNodeForData row tree = .ok leaf := by
    intro i tree hi htree
    obtain ⟨i, rfl⟩ := Nat.exists_eq_add_of_le hi
    obtain ⟨raw, h1, y, hy, hys⟩ := amg_pos_stays ht0 h ht1 hc hm' hc0 (S := fun x => posSpecial x = true)
      (fun x y hx => pos_absorbs y hx) hraw0 hj hxn i
    obtain ⟨p, hp, hpn⟩ := softmaxOf_nonFinite hy (hexp y hys)
    obtain ⟨q, r, _, rfl, _⟩ := amg_poisoned_tree h ht1 hc hm' htree hrow0 h1 ⟨p, List.mem_of_getElem? hp, hpn⟩
    exact ⟨_, fun row => by simp only [findLeafNodeForData, unwrap]; rfl⟩
  refine ⟨m', hm', hleaf, ?_⟩
  intro row row' hrow _ he
  have := amg_same ht0 h ht1 hc hm' hleaf hrow he k
  rw [List.take_of_length_le (by omega)] at this
  exact ⟨this, by simp only [amgPredict, amg_guess_length h ht1 hm', this]⟩

/-- the leaf that is about class 0 with the value minus infinity -/
theorem amgVec_nan {v : List F} (hv : ∀ x ∈ v, isNaN x = true) :
    (findMaxValueAndIndex v).1 = F64.negInfinity ∧ (findMaxValueAndIndex v).2 = 0 := by
  rcases findMax_spec v with ⟨h1, h2, _⟩ | ⟨h1, h2, _⟩
  · exact ⟨h1, h2⟩
  · have := hv _ (List.mem_of_getElem? h1)
    have hself := (LawfulOrder.le_nan (LawfulOrder.lt_iff.mp h2).1).2
    simp [isNaN, hself] at this

/-- minus infinity for the first class and plus infinity for the others -/
def FirstOut (v : List F) : Prop :=
  (∀ x, v[0]? = some x → (x ==. F64.negInfinity) = true) ∧ ∀ i x, 0 < i → v[i]? = some x → (x ==. F64.infinity) = true

theorem amgVec_firstOut {t : Nat} (ht : 2 ≤ t) (ht1 : t ≤ 2 ^ 53) {lr : F} (hlr : (F64.zero <. lr) = true) {v : List F} (hv : ∀ x ∈ v, isNaN x = true) :
    FirstOut ((amgVec t v).map (fun x => lr *. x)) := by
  obtain ⟨h1, h2⟩ := amgVec_nan hv
  rw [amgVec, h1, h2]
  constructor
  · intro x hx
    have : 0 < t := by omega
    simp [this] at hx
    subst hx
    exact mul_negInf hlr
  · intro i x hi hx
    rw [List.getElem?_map, List.getElem?_set_ne (by omega), List.getElem?_replicate] at hx
    split at hx
    · simp at hx
      subst hx
      exact mul_share hlr ht ht1
    · simp at hx

theorem firstOut_predict {v : List F} {t : Nat} (ht : 2 ≤ t) (hl : v.length = t) (h : FirstOut v) :
    getBinaryPrediction v = .ok (oneHot t 1) := by
  have hne : v ≠ [] := List.ne_nil_of_length_pos (by omega)
  have cmp : ∀ x, x ∈ v → (F64.infinity <. x) = false := by
    intro x hx
    obtain ⟨i, hi⟩ := List.getElem?_of_mem hx
    by_contra hlt
    rw [Bool.not_eq_false, LawfulOrder.lt_iff] at hlt
    rcases Nat.eq_zero_or_pos i with rfl | hi0
    · have h1 := (LawfulOrder.eq_iff.mp (h.1 x hi)).1
      have h2 := LawfulOrder.lt_iff.mp (negInf_lt_inf (F := F))
      rw [LawfulOrder.le_trans hlt.1 h1] at h2
      simp at h2
    · rw [(LawfulOrder.eq_iff.mp (h.2 i x hi0 hi)).1] at hlt
      simp at hlt
  have e1 : (findMaxValueAndIndex v).2 = 1 := by
    refine firstMax_unique (findMax_firstMax v) (.inl ⟨v[1], List.getElem?_eq_getElem (by omega), ?_, ?_, ?_⟩)
    all_goals have g1 := LawfulOrder.eq_iff.mp (h.2 1 v[1] (by omega) (List.getElem?_eq_getElem (by omega)))
    all_goals have h2 := LawfulOrder.lt_iff.mp (negInf_lt_inf (F := F))
    · rw [LawfulOrder.lt_iff]
      refine ⟨LawfulOrder.le_trans h2.1 g1.2, ?_⟩
      by_contra hle
      rw [Bool.not_eq_false] at hle
      rw [LawfulOrder.le_trans g1.2 hle] at h2
      simp at h2
    · intro x hx
      by_contra hlt
      rw [Bool.not_eq_false, LawfulOrder.lt_iff] at hlt
      have := cmp x hx
      have : (F64.infinity <. x) = true := by
        rw [LawfulOrder.lt_iff]
        refine ⟨LawfulOrder.le_trans g1.2 hlt.1, ?_⟩
        by_contra hle
        rw [Bool.not_eq_false] at hle
        rw [LawfulOrder.le_trans hle g1.2] at hlt
        simp at hlt
      simp_all
    · intro i x hi hx
      have : i = 0 := by omega
      subst this
      by_contra hle
      rw [Bool.not_eq_false] at hle
      rw [LawfulOrder.le_trans g1.2 (LawfulOrder.le_trans hle (LawfulOrder.eq_iff.mp (h.1 x hx)).1)] at h2
      simp at h2
  rw [getBinaryPrediction_ok hne, e1, hl]

/-- finite scores plus such a vector -/
theorem firstOut_add {v w : List F} (hv : ∀ x ∈ v, nonFinite x = false) (hw : FirstOut w) : FirstOut (List.zipWith F64.add v w) := by
  constructor
  · intro x hx
    rw [List.getElem?_zipWith] at hx
    split at hx
    · simp at hx
      subst hx
      rename_i a b ha hb
      exact add_negInf (.inl (hv _ (List.mem_of_getElem? ha))) (hw.1 _ hb)
    · simp at hx
  · intro i x hi hx
    rw [List.getElem?_zipWith] at hx
    split at hx
    · simp at hx
      subst hx
      rename_i a b ha hb
      exact add_inf (.inl (hv _ (List.mem_of_getElem? ha))) (hw.2 _ _ hi hb)
    · simp at hx

/-- equal, or both NaN -/
def SameOrNaN (x y : F) : Prop := (x ==. y) = true ∨ isNaN x = true ∧ isNaN y = true

theorem sameOrNaN_le {x x' y y' : F} (hx : SameOrNaN x x') (hy : SameOrNaN y y') : (x <=. y) = true → (x' <=. y') = true := by
  intro hle
  have hn := LawfulOrder.le_nan hle
  rcases hx with hx | hx
  · rcases hy with hy | hy
    · exact LawfulOrder.le_trans (LawfulOrder.eq_iff.mp hx).2 (LawfulOrder.le_trans hle (LawfulOrder.eq_iff.mp hy).1)
    · have := hy.1
      simp [isNaN, hn.2] at this
  · have := hx.1
    simp [isNaN, hn.1] at this

theorem SameOrNaN.symm {x y : F} (h : SameOrNaN x y) : SameOrNaN y x := by
  rcases h with h | h
  · exact .inl (LawfulOrder.eq_iff.mpr (LawfulOrder.eq_iff.mp h).symm)
  · exact .inr h.symm

theorem sameOrNaN_le_iff {x x' y y' : F} (hx : SameOrNaN x x') (hy : SameOrNaN y y') : (x <=. y) = (x' <=. y') :=
  Bool.eq_iff_iff.mpr ⟨sameOrNaN_le hx hy, sameOrNaN_le hx.symm hy.symm⟩

theorem sameOrNaN_lt_iff {x x' y y' : F} (hx : SameOrNaN x x') (hy : SameOrNaN y y') : (x <. y) = (x' <. y') := by
  rw [Bool.eq_iff_iff, LawfulOrder.lt_iff, LawfulOrder.lt_iff, sameOrNaN_le_iff hx hy, sameOrNaN_le_iff hy hx]

theorem sameOrNaN_self (x : F) : SameOrNaN x x := by
  by_cases h : (x ==. x) = true
  · exact .inl h
  · exact .inr (by simp [isNaN, h])

theorem firstMax_same {v w : List F} (hl : v.length = w.length) (h : ∀ (i : Nat) x y, v[i]? = some x → w[i]? = some y → SameOrNaN x y) {j : Nat}
    (hj : FirstMax v j) : FirstMax w j := by
  have other : ∀ (i : Nat) x, w[i]? = some x → ∃ y, v[i]? = some y ∧ SameOrNaN y x := by
    intro i x hx
    have hi : i < v.length := by rw [hl]; exact (List.getElem?_eq_some_iff.mp hx).1
    exact ⟨v[i], List.getElem?_eq_getElem hi, h i _ _ (List.getElem?_eq_getElem hi) hx⟩
  rcases hj with ⟨m, h1, h2, h3, h4⟩ | ⟨rfl, h2⟩
  · have hj : j < w.length := by rw [← hl]; exact (List.getElem?_eq_some_iff.mp h1).1
    have hm := h j m w[j] h1 (List.getElem?_eq_getElem hj)
    refine .inl ⟨w[j], List.getElem?_eq_getElem hj, ?_, ?_, ?_⟩
    · rw [← sameOrNaN_lt_iff (sameOrNaN_self _) hm]; exact h2
    · intro x hx
      obtain ⟨i, hi⟩ := List.getElem?_of_mem hx
      obtain ⟨y, hy, hs⟩ := other i x hi
      rw [← sameOrNaN_lt_iff hm hs]
      exact h3 y (List.mem_of_getElem? hy)
    · intro i x hi hx
      obtain ⟨y, hy, hs⟩ := other i x hx
      rw [← sameOrNaN_le_iff hm hs]
      exact h4 i y hi hy
  · refine .inr ⟨rfl, ?_⟩
    intro x hx
    obtain ⟨i, hi⟩ := List.getElem?_of_mem hx
    obtain ⟨y, hy, hs⟩ := other i x hi
    rw [← sameOrNaN_lt_iff (sameOrNaN_self _) hs]
    exact h2 y (List.mem_of_getElem? hy)

/-- minus infinity or NaN for the first class and plus infinity or NaN for the others -/
def FirstOutOrNaN (v : List F) : Prop :=
  (∀ x, v[0]? = some x → isNaN x = true ∨ (x ==. F64.negInfinity) = true) ∧
    ∀ i x, 0 < i → v[i]? = some x → isNaN x = true ∨ (x ==. F64.infinity) = true

theorem posSpecial_or {x : F} (h : posSpecial x = true) : isNaN x = true ∨ (x ==. F64.infinity) = true := by
  simpa [posSpecial] using h

theorem firstOut_any {v w : List F} (hw : FirstOut w) : FirstOutOrNaN (List.zipWith F64.add v w) := by
  constructor
  · intro x hx
    rw [List.getElem?_zipWith] at hx
    split at hx
    · simp at hx
      subst hx
      rename_i a b ha hb
      exact add_negInf_any _ (hw.1 _ hb)
    · simp at hx
  · intro i x hi hx
    rw [List.getElem?_zipWith] at hx
    split at hx
    · simp at hx
      subst hx
      rename_i a b ha hb
      exact posSpecial_or (add_inf_any _ (hw.2 _ _ hi hb))
    · simp at hx

theorem eq_trans {x y z : F} (h1 : (x ==. z) = true) (h2 : (y ==. z) = true) : (x ==. y) = true := by
  rw [LawfulOrder.eq_iff] at *
  exact ⟨LawfulOrder.le_trans h1.1 h2.2, LawfulOrder.le_trans h2.1 h1.2⟩

theorem firstOut_stays {v w : List F} (hl : w.length = v.length) (hv : FirstOutOrNaN v) (hw : FirstOut w) :
    ∀ (i : Nat) x y, v[i]? = some x → (List.zipWith F64.add v w)[i]? = some y → SameOrNaN x y := by
  intro i x y hx hy
  rw [List.getElem?_zipWith, hx] at hy
  have hi : i < w.length := by rw [hl]; exact (List.getElem?_eq_some_iff.mp hx).1
  rw [List.getElem?_eq_getElem hi] at hy
  simp at hy
  subst hy
  rcases Nat.eq_zero_or_pos i with rfl | hi0
  · have g := hw.1 _ (List.getElem?_eq_getElem hi)
    rcases hv.1 x hx with hn | he
    · exact .inr ⟨hn, LawfulSpecial.nan_add_left _ hn⟩
    · exact .inl (eq_trans he (add_negInf (.inr he) g))
  · have g := hw.2 i _ hi0 (List.getElem?_eq_getElem hi)
    rcases hv.2 i x hi0 hx with hn | he
    · exact .inr ⟨hn, LawfulSpecial.nan_add_left _ hn⟩
    · exact .inl (eq_trans he (add_inf (.inr he) g))

theorem SameOrNaN.trans {x y z : F} (h1 : SameOrNaN x y) (h2 : SameOrNaN y z) : SameOrNaN x z := by
  rcases h1 with h1 | ⟨h1, h1'⟩
  · rcases h2 with h2 | ⟨h2, _⟩
    · exact .inl (eq_trans h1 (SameOrNaN.symm (.inl h2) |>.resolve_right (by
        rintro ⟨hn, _⟩
        have := (LawfulOrder.le_nan (LawfulOrder.eq_iff.mp h2).1).2
        simp [isNaN, this] at hn)))
    · have := (LawfulOrder.le_nan (LawfulOrder.eq_iff.mp h1).1).2
      simp [isNaN, this] at h2
  · rcases h2 with h2 | ⟨_, h2⟩
    · have := (LawfulOrder.le_nan (LawfulOrder.eq_iff.mp h2).1).1
      simp [isNaN, this] at h1'
    · exact .inr ⟨h1, h2⟩

/-- **C80** (NaN).  If after `n` iterations some training row has a score that is NaN, then after the next iteration the scores of every row
are infinite or NaN: minus infinity or NaN for the first class, plus infinity or NaN for the others.  Further iterations change neither these
scores (infinities stay infinities and NaN stays NaN) nor any prediction.  A row whose scores were still finite is predicted as the second
class.  The hypothesis `hexp` says that the exponential of NaN is NaN. -/
theorem C80_nan (hexp : ∀ x : F, isNaN x = true → isNaN (F64.exp x) = true) (d : DataSet F) (c t : Nat) (h : d.WF c t)
    (ht : 2 ≤ t) (ht1 : t ≤ 2 ^ 53) (cfg : TreeConfig) (hc : cfg.numberOfClasses = t) (n : Nat) (lr : F) (hlr : (F64.zero <. lr) = true)
    (m : BoostModel F (AMGBoostLeaf F)) (hm : amgTrain d cfg n lr = .ok m) (row0 raw0 : List F) (hrow0 : row0 ∈ d.featureRows)
    (hraw0 : amgPredictInstance row0 m.trees m.initialGuess m.learningRate t = .ok raw0)
    (hx : ∃ x ∈ raw0, isNaN x = true) (m1 : BoostModel F (AMGBoostLeaf F)) (hm1 : amgTrain d cfg (n + 1) lr = .ok m1) (k : Nat) :
    ∃ m', amgTrain d cfg (n + 1 + k) lr = .ok m' ∧ ∀ row : List F, c ≤ row.length →
      ∃ raw raw1 raw', amgPredictInstance row m.trees m.initialGuess m.learningRate t = .ok raw ∧
        amgPredictInstance row m1.trees m1.initialGuess m1.learningRate t = .ok raw1 ∧
        amgPredictInstance row m'.trees m'.initialGuess m'.learningRate t = .ok raw' ∧
        raw1.length = t ∧ raw'.length = t ∧
        (∀ x, raw1[0]? = some x → isNaN x = true ∨ (x ==. F64.negInfinity) = true) ∧
        (∀ i x, 0 < i → raw1[i]? = some x → isNaN x = true ∨ (x ==. F64.infinity) = true) ∧
        (∀ (i : Nat) (x y : F), raw1[i]? = some x → raw'[i]? = some y → (x ==. y) = true ∨ isNaN x = true ∧ isNaN y = true) ∧
        amgPredict m' row = amgPredict m1 row ∧
        ((∀ x ∈ raw, nonFinite x = false) → amgPredict m' row = .ok (oneHot t 1)) := by
  obtain ⟨x, hx, hxn⟩ := hx
  obtain ⟨j, hj⟩ := List.getElem?_of_mem hx
  have ht0 : 0 < t := by omega
  have hc0 : c ≤ row0.length := by rw [h.row_len _ hrow0]
  obtain ⟨m', hm', _⟩ := C42_amg d c t h ht0 ht1 cfg hc (n + 1 + k) lr
  have hpre := C32_amg d cfg n (n + 1 + k) (by omega) lr m' hm'
  rw [hm] at hpre
  have hpre := Except.ok.inj hpre
  subst hpre
  have hpre1 := C32_amg d cfg (n + 1) (n + 1 + k) (by omega) lr m' hm'
  rw [hm1] at hpre1
  have hpre1 := Except.ok.inj hpre1
  subst hpre1
  obtain ⟨hlen, hl', _⟩ := C31_amg d cfg _ lr m' hm'
  have hg := amg_guess_length h ht1 hm'
  -- the later trees
  have hleaf : ∀ i tree, m'.trees[n + i]? = some tree → ∀ row, ∃ o, amgOut t row tree = .ok o ∧ o.length = t ∧
      FirstOut (o.map (fun x => m'.learningRate *. x)) := by
    intro i tree htree row
    obtain ⟨raw, h1, y, hy, hys⟩ := amg_pos_stays ht0 h ht1 hc hm' hc0 (S := fun x => isNaN x = true)
      (fun x y hx => LawfulSpecial.nan_add_left y hx) hraw0 hj hxn i
    have hall := softmaxOf_nan (v := raw) ⟨y, List.mem_of_getElem? hy, hexp y hys⟩
    have hrl : raw.length = t := by
      obtain ⟨raw', h1', hl'⟩ := amg_raw_take ht0 h ht1 hc hm' hc0 (n + i)
      rw [h1] at h1'
      rw [Except.ok.inj h1', hl']
    have hpl : (softmaxOf raw).length = t := by rw [softmaxOf_length, hrl]
    obtain ⟨q, r, hr, rfl, hbad⟩ := amg_poisoned_tree h ht1 hc hm' htree hrow0 h1
      ⟨(softmaxOf raw)[0]'(by omega), List.getElem_mem _, hall _ (List.getElem_mem _)⟩
    have hnan : ∀ x ∈ leafOut .multiClassClassification t r, isNaN x = true := by
      rw [leafOut_eq _ hr, leafValue]
      intro x hx
      obtain ⟨j, hj, rfl⟩ := List.mem_map.mp hx
      rw [List.mem_range] at hj
      obtain ⟨v, hv, _, hvn⟩ := hbad j _ (List.getElem?_eq_getElem (by omega)) (hall _ (List.getElem_mem _))
      exact newtonAt_nan ⟨v, hv, hvn⟩
    refine ⟨amgVec t (leafOut .multiClassClassification t r), ?_, amgVec_length _ _, amgVec_firstOut ht ht1 (by rw [hl']; exact hlr) hnan⟩
    have hlt := findMax_lt (leafOut .multiClassClassification t r) (List.ne_nil_of_length_pos (by rw [leafOut_length _ hr]; omega))
    rw [leafOut_length _ hr] at hlt
    simp [amgOut, findLeafNodeForData, amgLeaf, unwrap, constructApproximateLeafOutput, setIdx_lt, hlt, amgVec]
  refine ⟨m', hm', ?_⟩
  intro row hrow
  obtain ⟨raw, hraw, hrl⟩ := amg_raw_take ht0 h ht1 hc hm' hrow n
  have hn : n < m'.trees.length := by omega
  obtain ⟨o1, ho1, hol1, hF1⟩ := hleaf 0 _ (List.getElem?_eq_getElem hn) row
  have hraw1 := amg_raw_succ (List.getElem?_eq_getElem hn) hraw hrl ho1 hol1
  have hany := firstOut_any (v := raw) hF1
  have hfin1 : (∀ x ∈ raw, nonFinite x = false) → FirstOut (List.zipWith F64.add raw (o1.map (fun x => m'.learningRate *. x))) :=
    fun hfin => firstOut_add hfin hF1
  generalize hr1 : List.zipWith F64.add raw (o1.map (fun x => m'.learningRate *. x)) = raw1 at hraw1 hany hfin1
  have hl1 : raw1.length = t := by rw [← hr1]; simp [hrl, hol1]
  have key : ∀ i, i ≤ k → ∃ raw', amgPredictInstance row (m'.trees.take (n + 1 + i)) m'.initialGuess m'.learningRate t = .ok raw' ∧
      raw'.length = t ∧ FirstOutOrNaN raw' ∧ ∀ (i : Nat) x y, raw1[i]? = some x → raw'[i]? = some y → SameOrNaN x y := by
    intro i
    induction i with
    | zero =>
      intro _
      refine ⟨raw1, hraw1, hl1, hany, ?_⟩
      intro i x y hx hy
      rw [hx] at hy
      cases hy
      exact sameOrNaN_self x
    | succ i ih =>
      intro hi
      obtain ⟨raw', h1, h2, h3, h4⟩ := ih (by omega)
      have hn : n + 1 + i < m'.trees.length := by omega
      obtain ⟨o, ho, hol, hF⟩ := hleaf (1 + i) _ (by rw [← Nat.add_assoc]; exact List.getElem?_eq_getElem hn) row
      refine ⟨_, amg_raw_succ (List.getElem?_eq_getElem hn) h1 h2 ho hol, by simp [h2, hol], firstOut_any hF, ?_⟩
      intro j x y hx hy
      have hj : j < raw'.length := by rw [h2, ← hl1]; exact (List.getElem?_eq_some_iff.mp hx).1
      exact (h4 j x _ hx (List.getElem?_eq_getElem hj)).trans
        (firstOut_stays (by simp [h2, hol]) h3 hF j _ _ (List.getElem?_eq_getElem hj) hy)
  obtain ⟨raw', h1, h2, _, h4⟩ := key k (Nat.le_refl k)
  rw [List.take_of_length_le (by omega)] at h1
  have hpred : amgPredict m' row = getBinaryPrediction raw1 := by
    simp only [amgPredict, hg, h1, R.ok_bind]
    rw [getBinaryPrediction_ok (List.ne_nil_of_length_pos (by omega)), getBinaryPrediction_ok (List.ne_nil_of_length_pos (by omega)), h2, hl1,
      firstMax_unique (findMax_firstMax raw') (firstMax_same (by omega) h4 (findMax_firstMax raw1))]
  refine ⟨raw, raw1, raw', hraw, hraw1, h1, hl1, h2, hany.1, hany.2, h4, ?_, ?_⟩
  · rw [hpred]
    simp only [amgPredict, hg, hraw1, R.ok_bind]
  · intro hfin
    rw [hpred]
    exact firstOut_predict ht hl1 (hfin1 hfin)

/-- **C80** (perfect fit).  If all training rows of a leaf of tree `n + 1` have the residual zero in all classes (their probabilities after
`n` iterations equal their labels), then every row of this leaf with finite scores gets the score minus infinity for the first class and plus
infinity for the others: it is predicted as the second class, whatever its label. -/
theorem C80_perfect_fit (d : DataSet F) (c t : Nat) (h : d.WF c t) (ht : 2 ≤ t) (ht1 : t ≤ 2 ^ 53)
    (cfg : TreeConfig) (hc : cfg.numberOfClasses = t) (n : Nat) (lr : F) (hlr : (F64.zero <. lr) = true) (m : BoostModel F (AMGBoostLeaf F))
    (hm : amgTrain d cfg (n + 1) lr = .ok m) (tree : TreeNode F (AMGBoostLeaf F)) (htree : m.trees[n]? = some tree)
    (row : List F) (hrow : c ≤ row.length)
    (hfit : ∀ e ∈ d.examples, tree.route e.1 = tree.route row →
      ∀ raw, amgPredictInstance e.1 (m.trees.take n) m.initialGuess m.learningRate t = .ok raw → ∀ j, j < t →
      (e.2.getD j F64.zero -. (softmaxOf raw).getD j F64.zero ==. F64.zero) = true)
    (raw : List F) (hraw : amgPredictInstance row (m.trees.take n) m.initialGuess m.learningRate t = .ok raw)
    (hfin : ∀ x ∈ raw, nonFinite x = false) :
    (∃ raw', amgPredictInstance row m.trees m.initialGuess m.learningRate t = .ok raw' ∧ raw'.length = t ∧
      (∀ x, raw'[0]? = some x → (x ==. F64.negInfinity) = true) ∧ ∀ i x, 0 < i → raw'[i]? = some x → (x ==. F64.infinity) = true) ∧
    amgPredict m row = .ok (oneHot t 1) := by
  have ht0 : 0 < t := by omega
  have hg := amg_guess_length h ht1 hm
  obtain ⟨hlen, hl', _⟩ := C31_amg d cfg _ lr m hm
  obtain ⟨scores, h1, h2, h3⟩ := C33_amg_residual_tree d h.label_count.symm cfg (n + 1) lr m hm n tree htree
  rw [hg] at h1
  have hw := residual_labels_wf h (f := softmaxOf) softmaxOf_length h2
  rw [amgTreeNew_ok hw hc] at h3
  have h3 := Except.ok.inj h3
  obtain ⟨dd, hdd, _, ho, _, hex⟩ := amgOut_ok ht0 .multiClassClassification cfg.maxLevels hw hrow
  rw [h3] at ho hex
  have hs := mapM_eq_ok.mp h1
  have hzero : ∀ j, j < t → ∀ v ∈ dd.labels, (v.getD j F64.zero ==. F64.zero) = true := by
    intro j hj v hv
    obtain ⟨i, hi, rfl⟩ := List.getElem_of_mem hv
    have hir : i < dd.featureRows.length := by rw [← hdd.label_count]; exact hi
    have hmem : (dd.featureRows[i], dd.labels[i]) ∈ dd.examples := by
      rw [DataSet.examples, List.mem_iff_getElem]
      exact ⟨i, by simp [hi, hir], by simp⟩
    rw [hex, List.mem_filter, decide_eq_true_eq] at hmem
    obtain ⟨hmem, hroute⟩ := hmem
    obtain ⟨i', hi', e⟩ := List.getElem_of_mem hmem
    simp only [DataSet.examples, List.length_zip, List.length_zipWith] at hi'
    simp only [DataSet.examples, List.getElem_zip, List.getElem_zipWith, Prod.mk.injEq] at e
    obtain ⟨e1, e2⟩ := e
    have hl : i' < d.labels.length := by omega
    have hsc : i' < scores.length := by omega
    have hraw := hs.get (i := i') (by omega) hsc
    simp only [List.get_eq_getElem] at hraw
    have hmem' : (d.featureRows[i']'(by omega), d.labels[i']) ∈ d.examples := by
      rw [DataSet.examples, List.mem_iff_getElem]
      exact ⟨i', by simp; omega, by simp⟩
    have hz := hfit _ hmem' (by rw [e1]; exact hroute) _ hraw j hj
    have hlab : (d.labels[i']).length = t := h.label_len _ (List.getElem_mem _)
    have hlsc : (scores[i']).length = t := by
      have := h2.get (i := i') hl hsc
      simp only [List.get_eq_getElem] at this
      omega
    rw [← e2]
    have : (List.zipWith F64.sub d.labels[i'] (softmaxOf scores[i'])).getD j F64.zero =
        (d.labels[i']).getD j F64.zero -. (softmaxOf scores[i']).getD j F64.zero := by
      rw [List.getD_eq_getElem?_getD, List.getD_eq_getElem?_getD, List.getD_eq_getElem?_getD, List.getElem?_zipWith,
        List.getElem?_eq_getElem (by omega), List.getElem?_eq_getElem (by rw [softmaxOf_length]; omega)]
      rfl
    rw [this]
    exact hz
  have hnan : ∀ x ∈ leafOut .multiClassClassification t dd.labels, isNaN x = true := by
    rw [leafOut_eq _ hdd.label_len, leafValue]
    intro x hx
    obtain ⟨j, hj, rfl⟩ := List.mem_map.mp hx
    exact newtonAt_zero (hzero j (List.mem_range.mp hj))
  have hrl : raw.length = t := by
    obtain ⟨raw', h1', hl'⟩ := amg_raw_take ht0 h ht1 hc hm hrow n
    rw [hraw] at h1'
    rw [Except.ok.inj h1', hl']
  have hsucc := amg_raw_succ htree hraw hrl ho (amgVec_length _ _)
  rw [List.take_of_length_le (by omega)] at hsucc
  have hF := firstOut_add hfin (amgVec_firstOut (lr := m.learningRate) ht ht1 (by rw [hl']; exact hlr) hnan)
  have hfl : (List.zipWith F64.add raw ((amgVec t (leafOut .multiClassClassification t dd.labels)).map (fun x => m.learningRate *. x))).length = t := by
    simp [hrl, amgVec_length]
  refine ⟨⟨_, hsucc, hfl, hF.1, hF.2⟩, ?_⟩
  simp only [amgPredict, hg, hsucc, R.ok_bind]
  exact firstOut_predict ht hfl hF

end

/-! ## A run that collapses

The two rows of different classes of `C77`, with the learning rate 402. -/

namespace Sample

attribute [local instance] expEnv

/-- the predictions and the raw scores of the two rows after `n` iterations of AMG boosting -/
def apartAmg (n : Nat) : R (List (List B64) × List (List B64)) := do
  let m ← amgTrain apart2 apartCfg n (b64 402)
  let p ← apart2.featureRows.mapM (amgPredict m)
  let r ← apart2.featureRows.mapM (fun row => amgPredictInstance row m.trees m.initialGuess m.learningRate 2)
  pure (p, r)

/-- whether all residuals are zero after one iteration, and whether the scores are finite -/
def apartAmgFit : R (Bool × Bool) := do
  let m ← amgTrain apart2 apartCfg 2 (b64 402)
  let raws ← apart2.featureRows.mapM (fun row => amgPredictInstance row (m.trees.take 1) m.initialGuess m.learningRate 2)
  pure ((apart2.labels.zip raws).all (fun p => (List.range 2).all (fun j => (p.1.getD j F64.zero -. (softmaxOf p.2).getD j F64.zero) ==. F64.zero)),
    raws.all (fun v => v.all (fun x => !nonFinite x)))

theorem expish_inf : ∀ x : B64, posSpecial x = true → nonFinite (F64.exp x) = true := by
  intro x h
  rw [B64.posSpecial_val, Ext.posSpecial_iff] at h
  rw [B64.nonFinite_val, Ext.nonFinite_iff]
  have e : (F64.exp x).val = (expish x).val := rfl
  rw [e, expish]
  rcases h with h | h <;> rw [h] <;> decide +kernel

-- after one iteration both rows are classified correctly, with residuals that are exactly zero: what `C80_perfect_fit` asks for is met
example : (apartAmg 1).map (fun x => decide (x.1 = apart2.labels)) = .ok true := by decide +kernel
example : apartAmgFit = .ok (true, true) := by decide +kernel
-- one iteration later the scores of both rows are infinite and both are predicted as the second class, as `C80_perfect_fit` says
example : (apartAmg 2).map (fun x => (decide (x.1 = [oneHot 2 1, oneHot 2 1]), decide (x.2.map (fun v => v.map (fun y => y.val)) = [[.negInf, .posInf], [.negInf, .posInf]]))) =
    .ok (true, true) := by decide +kernel
-- what `C80_standstill` asks for is met; after three iterations the scores are NaN, which is what `C80_nan` asks for
example : (apartAmg 2).map (fun x => x.2.any (fun v => v.any posSpecial)) = .ok true := by decide +kernel
example : (apartAmg 3).map (fun x => (decide (x.1 = [oneHot 2 0, oneHot 2 0]), x.2.map (fun v => v.map isNaN))) = .ok (true, [[true, true], [true, true]]) := by
  decide +kernel

/-- the run never recovers: from the fourth iteration on, both rows are predicted as the first class -/
theorem apart_amg_collapses (k : Nat) : ∃ m, amgTrain apart2 apartCfg (4 + k) (b64 402) = .ok m ∧
    ∀ row ∈ apart2.featureRows, amgPredict m row = .ok (oneHot 2 0) := by
  have hw := apart2_wf
  obtain ⟨m, hm, _⟩ := C42_amg apart2 1 2 hw (by omega) (by norm_num) apartCfg rfl 3 (b64 402)
  obtain ⟨m1, hm1, _⟩ := C42_amg apart2 1 2 hw (by omega) (by norm_num) apartCfg rfl 4 (b64 402)
  have hrun : ∃ p r, apartAmg 3 = .ok (p, r) ∧ ∃ v ∈ r[0]?, ∃ x ∈ v, isNaN x = true := by
    have : (apartAmg 3).map (fun x => decide (∃ v ∈ x.2[0]?, ∃ x ∈ v, isNaN x = true)) = .ok true := by decide +kernel
    match h : apartAmg 3, this with
    | .ok (p, r), this => exact ⟨p, r, rfl, by simpa [Except.map] using this⟩
  obtain ⟨p, r, hrun, v, hv, hx⟩ := hrun
  simp only [apartAmg, hm, R.ok_bind, R.bind_eq_ok] at hrun
  obtain ⟨p', _, r', hr, hpr⟩ := hrun
  cases hpr
  obtain ⟨y, hy1, hy2⟩ := mapM_get hr (i := 0) (a := [b64 0]) (by rfl)
  rw [hy1] at hv
  cases hv
  obtain ⟨m', hm', hall⟩ := C80_nan expish_nan apart2 1 2 hw (by omega) (by norm_num) apartCfg rfl 3 (b64 402) (by decide +kernel) m hm [b64 0] _
    (by simp [apart2]) hy2 hx m1 hm1 k
  refine ⟨m', hm', ?_⟩
  intro row hrow
  obtain ⟨_, _, _, _, _, _, _, _, _, _, _, hsame, _⟩ := hall row (by rw [hw.row_len row hrow])
  rw [hsame]
  have hp : (apartAmg 4).map (fun x => decide (x.1 = [oneHot 2 0, oneHot 2 0])) = .ok true := by decide +kernel
  match h : apartAmg 4, hp with
  | .ok (p, r), hp =>
    have hp : p = [oneHot 2 0, oneHot 2 0] := by simpa [Except.map] using hp
    subst hp
    simp only [apartAmg, hm1, R.ok_bind, R.bind_eq_ok] at h
    obtain ⟨p', hp', r', _, hpr⟩ := h
    cases hpr
    obtain ⟨i, hi⟩ := List.getElem?_of_mem hrow
    obtain ⟨y, hy1, hy2⟩ := mapM_get hp' hi
    rw [hy2]
    match i, hy1 with
    | 0, hy1 => simp at hy1; rw [hy1]
    | 1, hy1 => simp at hy1; rw [hy1]

end Sample

end Verif
