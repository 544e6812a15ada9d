import Verif.Spec.TestSet
import Verif.Props.Mse
import Verif.Props.ExactTree
import Verif.Props.Rounding
/-!
# C84: scores and the order of the test examples
-/

set_option linter.unusedSectionVars false

namespace Verif

open Sample

section
variable {F : Type} [F64 F]

theorem SameExamples.symm {test test' : DataSet F} (h : SameExamples test test') : SameExamples test' test := ⟨h.count', h.count, h.perm.symm⟩

theorem SameExamples.rows {test test' : DataSet F} (h : SameExamples test test') : test.featureRows.Perm test'.featureRows := by
  have := h.perm.map Prod.fst
  rwa [List.map_fst_zip (by rw [h.count]), List.map_fst_zip (by rw [h.count'])] at this

theorem SameExamples.labels {test test' : DataSet F} (h : SameExamples test test') : test.labels.Perm test'.labels := by
  have := h.perm.map Prod.snd
  rwa [List.map_snd_zip (by rw [h.count]), List.map_snd_zip (by rw [h.count'])] at this

/-- predictions of the same rows in another order -/
theorem predictions_perm {P : List F → R (List F)} {test test' : DataSet F} (h : SameExamples test test') {preds : List (List F)}
    (hp : test.featureRows.mapM P = .ok preds) :
    ∃ preds', test'.featureRows.mapM P = .ok preds' ∧ preds.length = test.featureRows.length ∧ preds'.length = test'.featureRows.length ∧
      (preds.zip test.labels).Perm (preds'.zip test'.labels) := by
  have hf : ∀ row ∈ test.featureRows, ∃ v, P row = .ok v := by
    intro row hrow
    obtain ⟨i, hi⟩ := List.getElem?_of_mem hrow
    obtain ⟨p, _, hp⟩ := mapM_get hp hi
    exact ⟨p, hp⟩
  choose! f hf using hf
  have h1 : test.featureRows.mapM P = .ok (test.featureRows.map f) := by
    rw [mapM_eq_ok, List.forall₂_map_right_iff, List.forall₂_same]
    exact hf
  have h2 : test'.featureRows.mapM P = .ok (test'.featureRows.map f) := by
    rw [mapM_eq_ok, List.forall₂_map_right_iff, List.forall₂_same]
    exact fun row hrow => hf row (h.rows.mem_iff.mpr hrow)
  rw [hp] at h1
  cases h1
  refine ⟨_, h2, by simp, by simp, ?_⟩
  rw [List.zip_map_left, List.zip_map_left]
  exact h.perm.map _

theorem matchCount_perm {ps ls ps' ls' : List (List F)} (h : (ps.zip ls).Perm (ps'.zip ls')) : matchCount ps ls = matchCount ps' ls' :=
  h.countP_eq _

private theorem accuracy_perm {P : List F → R (List F)} {test test' : DataSet F} (h : SameExamples test test') {a : F}
    (hs : ∃ preds, test.featureRows.mapM P = .ok preds ∧ test.featureRows.length ≤ test.labels.length ∧
      a = F64.ofNat (matchCount preds test.labels) /. F64.ofNat test.featureRows.length) :
    ∃ preds, test'.featureRows.mapM P = .ok preds ∧ test'.featureRows.length ≤ test'.labels.length ∧
      a = F64.ofNat (matchCount preds test'.labels) /. F64.ofNat test'.featureRows.length := by
  obtain ⟨preds, h1, _, rfl⟩ := hs
  obtain ⟨preds', k1, _, _, k2⟩ := predictions_perm h h1
  exact ⟨preds', k1, by rw [h.count'], by rw [matchCount_perm k2, h.rows.length_eq]⟩

/-- **C84** (accuracy, order).  The accuracy of a tree or a classification ensemble does not depend on the order of the test examples. -/
theorem C84_accuracy_order [LawfulCount F] (test test' : DataSet F) (h : SameExamples test test') (hn : test.featureRows.length ≤ 2 ^ 53) (a : F) :
    (∀ tree, calculateAccuracy test tree = .ok a ↔ calculateAccuracy test' tree = .ok a) ∧
    (∀ m, multiClassScore m test = .ok a ↔ multiClassScore m test' = .ok a) ∧
    ∀ m, amgScore m test = .ok a ↔ amgScore m test' = .ok a := by
  have hn' : test'.featureRows.length ≤ 2 ^ 53 := by rw [← h.rows.length_eq]; exact hn
  refine ⟨fun tree => ?_, fun m => ?_, fun m => ?_⟩
  · rw [C28_tree_accuracy test tree a hn, C28_tree_accuracy test' tree a hn']
    exact ⟨accuracy_perm h, accuracy_perm h.symm⟩
  · rw [C28_multiClass_accuracy m test a hn, C28_multiClass_accuracy m test' a hn']
    exact ⟨accuracy_perm h, accuracy_perm h.symm⟩
  · rw [C28_amg_accuracy m test a hn, C28_amg_accuracy m test' a hn']
    exact ⟨accuracy_perm h, accuracy_perm h.symm⟩

theorem mapM_append_ok {P : List F → R (List F)} {xs ys : List (List F)} {ps qs : List (List F)} (h1 : xs.mapM P = .ok ps)
    (h2 : ys.mapM P = .ok qs) : (xs ++ ys).mapM P = .ok (ps ++ qs) := by
  rw [mapM_eq_ok] at *
  exact List.rel_append h1 h2

private theorem accuracy_append {P : List F → R (List F)} {S : DataSet F → R F}
    (hS : ∀ test a, test.featureRows.length ≤ 2 ^ 53 → (S test = .ok a ↔ ∃ preds, test.featureRows.mapM P = .ok preds ∧
      test.featureRows.length ≤ test.labels.length ∧ a = F64.ofNat (matchCount preds test.labels) /. F64.ofNat test.featureRows.length))
    {test test' : DataSet F} (hc : test.labels.length = test.featureRows.length) (hc' : test'.labels.length = test'.featureRows.length)
    (hn : test.featureRows.length + test'.featureRows.length ≤ 2 ^ 53) {a a' : F} (h : S test = .ok a) (h' : S test' = .ok a') :
    ∃ k k' : Nat, k ≤ test.featureRows.length ∧ k' ≤ test'.featureRows.length ∧
      a = F64.ofNat k /. F64.ofNat test.featureRows.length ∧ a' = F64.ofNat k' /. F64.ofNat test'.featureRows.length ∧
      S (test.followedBy test') = .ok (F64.ofNat (k + k') /. F64.ofNat (test.featureRows.length + test'.featureRows.length)) := by
  rw [hS _ _ (by omega)] at h h'
  obtain ⟨preds, h1, _, rfl⟩ := h
  obtain ⟨preds', h1', _, rfl⟩ := h'
  have hl := mapM_length h1
  have hl' := mapM_length h1'
  refine ⟨_, _, ?_, ?_, rfl, rfl, ?_⟩
  · refine Nat.le_trans List.countP_le_length ?_
    simp [hl, hc]
  · refine Nat.le_trans List.countP_le_length ?_
    simp [hl', hc']
  · have hlen : (test.followedBy test').featureRows.length = test.featureRows.length + test'.featureRows.length := by simp [DataSet.followedBy]
    rw [hS _ _ (by rw [hlen]; exact hn)]
    refine ⟨preds ++ preds', mapM_append_ok h1 h1', by simp [DataSet.followedBy, hc, hc'], ?_⟩
    rw [hlen]
    simp only [DataSet.followedBy, matchCount]
    rw [List.zip_append (by rw [hl, hc]), List.countP_append]

/-- **C84** (accuracy, two test sets).  On two test sets one after the other the numbers of correct predictions add up, as do the numbers of
rows. -/
theorem C84_accuracy_append [LawfulCount F] (test test' : DataSet F) (hc : test.labels.length = test.featureRows.length)
    (hc' : test'.labels.length = test'.featureRows.length) (hn : test.featureRows.length + test'.featureRows.length ≤ 2 ^ 53) (a a' : F) :
    let total := fun score : F => ∃ k k' : Nat, k ≤ test.featureRows.length ∧ k' ≤ test'.featureRows.length ∧
      a = F64.ofNat k /. F64.ofNat test.featureRows.length ∧ a' = F64.ofNat k' /. F64.ofNat test'.featureRows.length ∧
      score = F64.ofNat (k + k') /. F64.ofNat (test.featureRows.length + test'.featureRows.length)
    (∀ tree, calculateAccuracy test tree = .ok a → calculateAccuracy test' tree = .ok a' →
      ∃ s, calculateAccuracy (test.followedBy test') tree = .ok s ∧ total s) ∧
    (∀ m, multiClassScore m test = .ok a → multiClassScore m test' = .ok a' → ∃ s, multiClassScore m (test.followedBy test') = .ok s ∧ total s) ∧
    ∀ m, amgScore m test = .ok a → amgScore m test' = .ok a' → ∃ s, amgScore m (test.followedBy test') = .ok s ∧ total s := by
  refine ⟨fun tree h h' => ?_, fun m h h' => ?_, fun m h h' => ?_⟩
  · obtain ⟨k, k', h1, h2, h3, h4, h5⟩ := accuracy_append (S := fun test => calculateAccuracy test tree)
      (fun test a hn => C28_tree_accuracy test tree a hn) hc hc' hn h h'
    exact ⟨_, h5, k, k', h1, h2, h3, h4, rfl⟩
  · obtain ⟨k, k', h1, h2, h3, h4, h5⟩ := accuracy_append (S := fun test => multiClassScore m test)
      (fun test a hn => C28_multiClass_accuracy m test a hn) hc hc' hn h h'
    exact ⟨_, h5, k, k', h1, h2, h3, h4, rfl⟩
  · obtain ⟨k, k', h1, h2, h3, h4, h5⟩ := accuracy_append (S := fun test => amgScore m test)
      (fun test a hn => C28_amg_accuracy m test a hn) hc hc' hn h h'
    exact ⟨_, h5, k, k', h1, h2, h3, h4, rfl⟩

end

section exact
variable {K : Type} [Field K] [LinearOrder K] [IsStrictOrderedRing K] [FloorSemiring K] [HasExp K]

theorem ext_add_comm (x y : Ext K) : (x +. y) = (y +. x) := by
  cases x <;> cases y <;> first | rfl | exact congrArg Ext.fin (add_comm _ _)

theorem ext_add_assoc (x y z : Ext K) : ((x +. y) +. z) = (x +. (y +. z)) := by
  cases x <;> cases y <;> cases z <;> first | rfl | exact congrArg Ext.fin (add_assoc _ _ _)

instance : RightCommutative (F64.add : Ext K → Ext K → Ext K) :=
  ⟨fun x y z => by rw [ext_add_assoc, ext_add_comm y z, ← ext_add_assoc]⟩

theorem ext_foldl_add (xs : List (Ext K)) (a : Ext K) : xs.foldl F64.add a = (a +. xs.foldl F64.add F64.zero) := by
  have h0 : ∀ x : Ext K, (x +. F64.zero) = x := by
    intro x
    cases x <;> first | rfl | exact congrArg Ext.fin (add_zero _)
  have h0' : ∀ x : Ext K, (F64.zero +. x) = x := fun x => by rw [ext_add_comm, h0]
  induction xs generalizing a with
  | nil => exact (h0 a).symm
  | cons x xs ih =>
    rw [List.foldl_cons, List.foldl_cons, ih, ih (F64.zero +. x), h0', ext_add_assoc]

theorem averageError_perm {s : Ext K} {n : Nat} {ps ls ps' ls' : List (List (Ext K))} (h : (ps.zip ls).Perm (ps'.zip ls')) :
    averageError s n ps ls = averageError s n ps' ls' ∧ averageError s n ls ps = averageError s n ls' ps' := by
  have key : ∀ (g : List (Ext K) → List (Ext K) → Ext K), (List.zipWith g ps ls).foldl F64.add F64.zero = (List.zipWith g ps' ls').foldl F64.add F64.zero := by
    intro g
    have e : ∀ xs ys : List (List (Ext K)), List.zipWith g xs ys = (xs.zip ys).map (fun e => g e.1 e.2) := by
      intro xs ys
      rw [List.zip, List.map_zipWith]
    rw [e, e]
    exact (h.map _).foldl_eq _
  refine ⟨?_, ?_⟩
  · rw [averageError, averageError, key]
  · rw [averageError, averageError, List.zipWith_comm, List.zipWith_comm (as := ls'), key]

/-- **C84** (mean squared error, order).  With exact arithmetic (infinite and NaN values included) the mean squared error of a regression
ensemble or a trained regression tree does not depend on the order of the test examples. -/
theorem C84_mse_order (test test' : DataSet (Ext K)) (h : SameExamples test test') (a : Ext K) :
    (∀ m, regressionScore m test = .ok a ↔ regressionScore m test' = .ok a) ∧
    ∀ (d : DataSet (Ext K)) (c t : Nat), d.WF c t → ∀ cfg : TreeConfig, cfg.numberOfClasses = t → ∀ tree, regressionTreeNew d cfg = .ok tree →
      (∀ row ∈ test.featureRows, c ≤ row.length) → (calculateOverallMse test tree = .ok a ↔ calculateOverallMse test' tree = .ok a) := by
  have key : ∀ {test test' : DataSet (Ext K)}, SameExamples test test' → ∀ m, regressionScore m test = .ok a → regressionScore m test' = .ok a := by
    intro test test' h m hs
    rw [C51_ensemble_score] at hs ⊢
    obtain ⟨preds, h1, h2, h3, rfl⟩ := hs
    obtain ⟨preds', k1, k2, k3, k4⟩ := predictions_perm h h1
    refine ⟨preds', k1, by rw [k3, h.count'], ?_, ?_⟩
    · intro e he
      have he' : (e.2, e.1) ∈ preds'.zip test'.labels := by
        rw [← List.zip_swap]
        exact List.mem_map.mpr ⟨e, he, rfl⟩
      have he2 := k4.mem_iff.mpr he'
      have : (e.1, e.2) ∈ test.labels.zip preds := by
        rw [← List.zip_swap]
        exact List.mem_map.mpr ⟨_, he2, rfl⟩
      exact h3 _ this
    · rw [(averageError_perm k4).2, h.count, h.count', h.rows.length_eq]
  refine ⟨fun m => ⟨key h m, key h.symm m⟩, ?_⟩
  intro d c t hw cfg hc tree hb hrows
  have tkey : ∀ {test test' : DataSet (Ext K)}, SameExamples test test' → (∀ row ∈ test.featureRows, c ≤ row.length) →
      calculateOverallMse test tree = .ok a → calculateOverallMse test' tree = .ok a := by
    intro test test' h hrows hs
    rw [C51_tree_score d c t hw cfg hc tree hb test hrows] at hs
    rw [C51_tree_score d c t hw cfg hc tree hb test' (fun row hrow => hrows row (h.rows.mem_iff.mpr hrow))]
    obtain ⟨_, h2, rfl⟩ := hs
    refine ⟨by rw [h.count'], ?_, ?_⟩
    · rw [← h.count', List.take_length]
      rw [← h.count, List.take_length] at h2
      exact fun l hl => h2 l (h.labels.mem_iff.mpr hl)
    · rw [h.rows.length_eq]
      refine (averageError_perm ?_).1
      rw [List.zip_map_left, List.zip_map_left]
      exact h.perm.map _
  exact ⟨tkey h hrows, tkey h.symm (fun row hrow => hrows row (h.rows.mem_iff.mpr hrow))⟩

theorem fin_of_div {x : Ext K} {n : Nat} (hn : 0 < n) {e : K} (h : (x /. F64.ofNat n) = .fin e) : x = .fin (e * n) := by
  have h0 : (n : K) ≠ 0 := by exact_mod_cast hn.ne'
  cases x with
  | fin x =>
    rw [Ext.ofNat_def, Ext.fin_div _ _ h0] at h
    cases h
    rw [div_mul_cancel₀ _ h0]
  | _ =>
    exfalso
    revert h
    simp only [Ext.ofNat_def]
    first
      | (intro h; cases h)
      | (change (Ext.div _ _ = _) → _; unfold Ext.div; split <;> (try split) <;> simp_all)

/-- **C84** (mean squared error, two test sets).  With exact arithmetic, the error on two test sets one after the other is the average of the two
errors weighted with the numbers of rows. -/
theorem C84_mse_append (m : BoostModel (Ext K) (GradBoostLeaf (Ext K))) (test test' : DataSet (Ext K))
    (hc : test.labels.length = test.featureRows.length) (hc' : test'.labels.length = test'.featureRows.length)
    (hn : 0 < test.featureRows.length) (hn' : 0 < test'.featureRows.length) (e e' : K)
    (h : regressionScore m test = .ok (.fin e)) (h' : regressionScore m test' = .ok (.fin e')) :
    regressionScore m (test.followedBy test') = .ok (.fin ((test.featureRows.length * e + test'.featureRows.length * e') /
      (test.featureRows.length + test'.featureRows.length))) := by
  rw [C51_ensemble_score] at h h' ⊢
  obtain ⟨preds, h1, h2, h3, h4⟩ := h
  obtain ⟨preds', h1', h2', h3', h4'⟩ := h'
  have hl := mapM_length h1
  have hl' := mapM_length h1'
  refine ⟨preds ++ preds', mapM_append_ok h1 h1', by simp [DataSet.followedBy]; omega, ?_, ?_⟩
  · intro x hx
    simp only [DataSet.followedBy] at hx
    rw [List.zip_append (by rw [hl, hc]), List.mem_append] at hx
    rcases hx with hx | hx
    · exact h3 x hx
    · exact h3' x hx
  · have s1 := fin_of_div (by omega) h4.symm
    have s2 := fin_of_div (by omega) h4'.symm
    simp only [DataSet.followedBy, averageError]
    rw [List.zipWith_append (by rw [hl, hc]), List.foldl_append, ext_foldl_add, s1, s2, Ext.fin_add, List.length_append, Ext.ofNat_def,
      Ext.fin_div _ _ (by rw [hc, hc']; exact_mod_cast (by omega : test.featureRows.length + test'.featureRows.length ≠ 0)), hc, hc']
    push_cast
    congr 1
    ring

/-- **C84** (mean squared error of a tree, two test sets).  The same for a trained regression tree. -/
theorem C84_tree_mse_append (d : DataSet (Ext K)) (c t : Nat) (hw : d.WF c t) (cfg : TreeConfig) (hcl : cfg.numberOfClasses = t)
    (tree : TreeNode (Ext K) (RegressionLeaf (Ext K))) (hb : regressionTreeNew d cfg = .ok tree) (test test' : DataSet (Ext K))
    (hr : ∀ row ∈ test.featureRows, c ≤ row.length) (hr' : ∀ row ∈ test'.featureRows, c ≤ row.length)
    (hc : test.labels.length = test.featureRows.length) (hc' : test'.labels.length = test'.featureRows.length)
    (hn : 0 < test.featureRows.length) (hn' : 0 < test'.featureRows.length) (e e' : K)
    (h : calculateOverallMse test tree = .ok (.fin e)) (h' : calculateOverallMse test' tree = .ok (.fin e')) :
    calculateOverallMse (test.followedBy test') tree = .ok (.fin ((test.featureRows.length * e + test'.featureRows.length * e') /
      (test.featureRows.length + test'.featureRows.length))) := by
  rw [C51_tree_score d c t hw cfg hcl tree hb test hr] at h
  rw [C51_tree_score d c t hw cfg hcl tree hb test' hr'] at h'
  rw [C51_tree_score d c t hw cfg hcl tree hb (test.followedBy test') (fun row hrow => by
    simp only [DataSet.followedBy, List.mem_append] at hrow
    rcases hrow with hrow | hrow
    · exact hr row hrow
    · exact hr' row hrow)]
  obtain ⟨_, h2, h4⟩ := h
  obtain ⟨_, h2', h4'⟩ := h'
  rw [← hc, List.take_length] at h2
  rw [← hc', List.take_length] at h2'
  refine ⟨by simp [DataSet.followedBy]; omega, ?_, ?_⟩
  · intro l hl
    have hl := List.mem_of_mem_take hl
    simp only [DataSet.followedBy, List.mem_append] at hl
    rcases hl with hl | hl
    · exact h2 l hl
    · exact h2' l hl
  · have s1 := fin_of_div hn h4.symm
    have s2 := fin_of_div hn' h4'.symm
    simp only [DataSet.followedBy, averageError]
    rw [List.map_append, List.zipWith_append (by rw [List.length_map, hc]), List.foldl_append, ext_foldl_add, s1, s2, Ext.fin_add,
      List.length_append, Ext.ofNat_def,
      Ext.fin_div _ _ (by exact_mod_cast (by omega : test.featureRows.length + test'.featureRows.length ≠ 0))]
    push_cast
    congr 1
    ring

end exact

/-! ## Concrete cases -/

namespace Sample

/-- `d4` with its examples in another order -/
def d4Mixed : DataSet E :=
  { featureRows := [2, 0, 3, 1].map (fun i => d4.featureRows.getD i []), labels := [2, 0, 3, 1].map (fun i => d4.labels.getD i []),
    featureColumns := [] }

/-- one row with the label 0 -/
def zero1 : DataSet B64 := { featureRows := [[b64 0]], labels := [[b64 0]], featureColumns := [[b64 0]] }

/-- five examples, with an outlier at the front -/
def front5 : DataSet B64 :=
  { featureRows := [[b64 0], [b64 0], [b64 0], [b64 0], [b64 0]], labels := [[b64 (2 ^ 27)], [b64 1], [b64 1], [b64 1], [b64 1]],
    featureColumns := [[b64 0, b64 0, b64 0, b64 0, b64 0]] }

/-- the same examples, with the outlier at the back -/
def back5 : DataSet B64 :=
  { featureRows := [[b64 0], [b64 0], [b64 0], [b64 0], [b64 0]], labels := [[b64 1], [b64 1], [b64 1], [b64 1], [b64 (2 ^ 27)]],
    featureColumns := [[b64 0, b64 0, b64 0, b64 0, b64 0]] }

end Sample

-- the hypotheses of `C84_mse_order` and `C84_accuracy_order` hold for `d4` in another order, with rows that are really moved
example : SameExamples d4 d4Mixed ∧ d4.featureRows ≠ d4Mixed.featureRows ∧ d4.featureRows.length ≤ 2 ^ 53 :=
  ⟨⟨by decide +kernel, by decide +kernel, by decide +kernel⟩, by decide +kernel, by decide +kernel⟩

-- and the tree and the ensemble have an error there
example : (do
    let tree ← regressionTreeNew d4 (exCfg 1)
    let a ← calculateOverallMse d4Mixed tree
    let m ← regressionTrain d4 (exCfg 1) 1 (.fin (1 / 2))
    let b ← regressionScore m d4Mixed
    let s ← regressionScore m (d4.followedBy { d4 with labels := [[Ext.fin 0], [.fin 0], [.fin 0], [.fin 0]] })
    pure (decide (a = Ext.fin 0), decide (b = Ext.fin 0), decide (s = Ext.fin 0))) = .ok (false, false, false) := by decide +kernel

/-- **C84** (mean squared error, order) needs exact arithmetic: in binary64 the error of a tree depends on the order of the test examples. -/
theorem C84_violated_by_rounding : ∀ negZero : Bool, let _ := env negZero
    SameExamples front5 back5 ∧
    (do
      let tree ← regressionTreeNew zero1 { useMultiThreading := false, numberOfClasses := 1, maxLevels := 1 }
      let a ← calculateOverallMse front5 tree
      let b ← calculateOverallMse back5 tree
      pure (a <. b)) = (.ok true : R Bool) := by
  intro negZero
  refine ⟨SameExamples.mk ?_ ?_ ?_, ?_⟩ <;> revert negZero <;> decide +kernel

end Verif
