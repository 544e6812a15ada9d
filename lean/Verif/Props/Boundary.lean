import Verif.Lemmas.Boundary
import Verif.Lemmas.Stop
import Verif.Props.Place
import Verif.Props.Size
import Verif.Props.Stop
import Verif.Props.DeepClass
import Mathlib.Data.Set.Card
/-!
# C118: questions are asked only where the labels change
-/

set_option linter.unusedSectionVars false

namespace Verif

open Sample

section parts
variable {F : Type} [F64 F] [LawfulOrder F] {α : Type}

theorem labelChanges_yes {es : List (List F × α)} {q : Question F} {v : F}
    (h : v ∈ labelChanges (es.filter (fun e => satisfies q e.1)) q.column) : v ∈ labelChanges es q.column ∧ (q.value <. v) = true := by
  obtain ⟨⟨e, he, e', he', w, h1, h2, h3, h4, h5⟩, e2, he2, u, hu, huv⟩ := h
  simp only [List.mem_filter] at he he' he2 h4
  have hw : (q.value <=. w) = true := by simpa [satisfies, h2] using he'.2
  have hu' : (q.value <=. u) = true := by simpa [satisfies, hu] using he2.2
  refine ⟨⟨⟨e, he.1, e', he'.1, w, h1, h2, h3, ?_, h5⟩, e2, he2.1, u, hu, huv⟩, lt_of_le_of_lt hu' huv⟩
  rintro a ha x hx ⟨l1, l2⟩
  refine h4 a ⟨ha, ?_⟩ x hx ⟨l1, l2⟩
  simp only [satisfies, hx]
  exact LawfulOrder.le_trans hw (lt_le l1)

theorem labelChanges_no {es : List (List F × α)} {q : Question F} (hq : NN q.value) {v : F}
    (h : v ∈ labelChanges (es.filter (fun e => !satisfies q e.1)) q.column) : v ∈ labelChanges es q.column ∧ (v <. q.value) = true := by
  obtain ⟨⟨e, he, e', he', w, h1, h2, h3, h4, h5⟩, e2, he2, u, hu, huv⟩ := h
  simp only [List.mem_filter] at he he' he2 h4
  have hv : (q.value <=. v) = false := by simpa [satisfies, h1] using he.2
  have hv' : (v <. q.value) = true := (not_le hq (nn_right h3)).mp hv
  refine ⟨⟨⟨e, he.1, e', he'.1, w, h1, h2, h3, ?_, h5⟩, e2, he2.1, u, hu, huv⟩, hv'⟩
  rintro a ha x hx ⟨l1, l2⟩
  refine h4 a ⟨ha, ?_⟩ x hx ⟨l1, l2⟩
  simp only [satisfies, hx, Bool.not_eq_true']
  cases hc : (q.value <=. x) with
  | false => rfl
  | true =>
    have := lt_le (lt_of_le_of_lt hc l2)
    rw [hv] at this
    cases this

theorem labelChanges_finite (es : List (List F × α)) (j : Nat) : (labelChanges es j).Finite := by
  refine (List.finite_toSet (es.filterMap (fun e => e.1[j]?))).subset ?_
  rintro v ⟨⟨e, he, _, _, _, h1, _⟩, _⟩
  exact List.mem_filterMap.mpr ⟨e, he, h1⟩

theorem ncard_parts {v : F} {S A B : Set F} (hS : S.Finite) (hv : v ∈ S) (hA : ∀ x ∈ A, x ∈ S ∧ (v <. x) = true)
    (hB : ∀ x ∈ B, x ∈ S ∧ (x <. v) = true) : A.ncard + B.ncard + 1 ≤ S.ncard := by
  have fA : A.Finite := hS.subset (fun x hx => (hA x hx).1)
  have fB : B.Finite := hS.subset (fun x hx => (hB x hx).1)
  have hdis : Disjoint A B := by
    rw [Set.disjoint_left]
    intro x ha hb
    have := lt_of_lt_of_le (hA x ha).2 (lt_le (hB x hb).2)
    rw [lt_irrefl'] at this
    cases this
  have hnot : v ∉ A ∪ B := by
    rintro (ha | hb)
    · have := (hA v ha).2
      rw [lt_irrefl'] at this
      cases this
    · have := (hB v hb).2
      rw [lt_irrefl'] at this
      cases this
  rw [← Set.ncard_union_eq hdis fA fB, ← Set.ncard_insert_of_notMem hnot (fA.union fB)]
  refine Set.ncard_le_ncard ?_ hS
  intro x hx
  rcases hx with rfl | ha | hb
  · exact hv
  · exact (hA x ha).1
  · exact (hB x hb).1

end parts

section
variable {K : Type} [Field K] [LinearOrder K] [IsStrictOrderedRing K] [FloorSemiring K] [HasExp K] {L : Type}

theorem labelsChange_map {α β : Type} {es : List (List (Ext K) × α)} {f : α → β} (hf : ∀ a b, f a = f b → a = b) {j : Nat} {v : Ext K} :
    LabelsChange (es.map (fun e => (e.1, f e.2))) j v ↔ LabelsChange es j v := by
  constructor
  · rintro ⟨e, he, e', he', w, h1, h2, h3, h4, h5⟩
    obtain ⟨x, hx, rfl⟩ := List.mem_map.mp he
    obtain ⟨x', hx', rfl⟩ := List.mem_map.mp he'
    refine ⟨x, hx, x', hx', w, h1, h2, h3, ?_, fun h => h5 (by simp only [h])⟩
    intro a ha y hy
    exact h4 _ (List.mem_map.mpr ⟨a, ha, rfl⟩) y hy
  · rintro ⟨e, he, e', he', w, h1, h2, h3, h4, h5⟩
    refine ⟨_, List.mem_map.mpr ⟨e, he, rfl⟩, _, List.mem_map.mpr ⟨e', he', rfl⟩, w, h1, h2, h3, ?_, fun h => h5 (hf _ _ h)⟩
    intro a ha y hy
    obtain ⟨b, hb, rfl⟩ := List.mem_map.mp ha
    exact h4 b hb y hy

theorem labelChanges_lift {d : DataSet (Ext K)} {ls : List (List K)} (hls : d.labels = lift ls) (j : Nat) :
    labelChanges d.examples j = labelChanges (d.featureRows.zip ls) j := by
  rw [examples_lift hls]
  ext v
  simp only [labelChanges, Set.mem_ofPred_eq]
  rw [labelsChange_map (fun a b h => liftV_injective h)]
  simp only [List.mem_map]
  constructor
  · rintro ⟨h1, _, ⟨e, he, rfl⟩, u, hu⟩
    exact ⟨h1, e, he, u, hu⟩
  · rintro ⟨h1, e, he, u, hu⟩
    exact ⟨h1, _, ⟨e, he, rfl⟩, u, hu⟩

theorem splitOf_changes {d : DataSet (Ext K)} {c t : Nat} (h : d.WF c t) {ls : List (List K)} (hls : d.labels = lift ls)
    (hg : ((splitOf d t).gain ==. F64.zero) = false) :
    (splitOf d t).question.value ∈ labelChanges d.examples (splitOf d t).question.column := by
  rw [labelChanges_lift hls]
  refine ⟨splitOf_boundary h hls hg, ?_⟩
  obtain ⟨_, hj, ⟨r, hr, hv⟩, _, ⟨r', hr', hf⟩⟩ := splitOf_separates h hg
  have hll : ls.length = d.featureRows.length := by rw [← h.label_count, hls, lift_length]
  have hl : (splitOf d t).question.column < r'.length := by rw [h.row_len r' hr']; exact hj
  obtain ⟨i, hi, rfl⟩ := List.getElem_of_mem hr'
  refine ⟨(d.featureRows[i], ls[i]), by rw [List.mem_iff_getElem]; exact ⟨i, by simp [hi, hll], by simp⟩, _,
    List.getElem?_eq_getElem hl, ?_⟩
  simp only [satisfies, List.getElem?_eq_getElem hl] at hf
  exact (not_le (nn_of_isNaN_false (h.no_nan r hr _ (List.mem_of_getElem? hv)))
    (nn_of_isNaN_false (h.no_nan _ hr' _ (List.getElem_mem hl)))).mp hf

/-- what the questions of a tree over one feature are about -/
theorem treeOf_changes {leafOf : DataSet (Ext K) → L} {t : Nat} (m : Nat) (d : DataSet (Ext K)) (h : d.WF 1 t) {ls : List (List K)}
    (hls : d.labels = lift ls) :
    (treeOf leafOf 1 t m d).questionCount ≤ (labelChanges d.examples 0).ncard ∧
      (∀ p q, (treeOf leafOf 1 t m d).questionAt p = some q → q.column = 0 ∧ q.value ∈ labelChanges d.examples 0) ∧
      ((labelChanges d.examples 0).ncard ≤ m → ∀ M, m ≤ M → treeOf leafOf 1 t M d = treeOf leafOf 1 t m d) := by
  refine treeOf_induct (motive := fun m d => ∀ ls : List (List K), d.labels = lift ls →
    (treeOf leafOf 1 t m d).questionCount ≤ (labelChanges d.examples 0).ncard ∧
      (∀ p q, (treeOf leafOf 1 t m d).questionAt p = some q → q.column = 0 ∧ q.value ∈ labelChanges d.examples 0) ∧
      ((labelChanges d.examples 0).ncard ≤ m → ∀ M, m ≤ M → treeOf leafOf 1 t M d = treeOf leafOf 1 t m d)) ?_ ?_ ?_ m d h ls hls
  · intro d hw ls hls
    refine ⟨by simp [treeOf, TreeNode.leafNode, TreeNode.questionCount], ?_, ?_⟩
    · intro p q hq
      cases p <;> simp [treeOf, TreeNode.leafNode, TreeNode.questionAt] at hq
    · intro h0 M _
      cases M with
      | zero => rfl
      | succ M =>
        cases hg : ((splitOf d t).gain ==. F64.zero) with
        | true => rw [treeOf_leaf hg]; rfl
        | false =>
          exfalso
          have := splitOf_changes hw hls hg
          have hj := (splitOf_separates hw hg).2.1
          rw [Nat.lt_one_iff.mp hj] at this
          have := (Set.ncard_pos (labelChanges_finite _ _)).mpr ⟨_, this⟩
          omega
  · intro m d hw hg ls hls
    refine ⟨by simp [treeOf_leaf hg, TreeNode.leafNode, TreeNode.questionCount], ?_, ?_⟩
    · intro p q hq
      rw [treeOf_leaf hg] at hq
      cases p <;> simp [TreeNode.leafNode, TreeNode.questionAt] at hq
    · intro _ M hM
      obtain ⟨M, rfl⟩ : ∃ k, M = k + 1 := ⟨M - 1, by omega⟩
      rw [treeOf_leaf hg, treeOf_leaf hg]
  · intro m d hw hg h1 h2 ls hls
    have hv := splitOf_changes hw hls hg
    obtain ⟨_, hj, ⟨r, hr, hval⟩, _⟩ := splitOf_separates hw hg
    have hj0 := Nat.lt_one_iff.mp hj
    have hnn : NN (splitOf d t).question.value := nn_of_isNaN_false (hw.no_nan r hr _ (List.mem_of_getElem? hval))
    obtain ⟨ms1, hm1⟩ := restrict_lift (c := 1) (p := satisfies (splitOf d t).question) hls
    obtain ⟨ms2, hm2⟩ := restrict_lift (c := 1) (p := fun r => !satisfies (splitOf d t).question r) hls
    obtain ⟨a1, b1, c1⟩ := h1 ms1 hm1
    obtain ⟨a2, b2, c2⟩ := h2 ms2 hm2
    rw [restrict_examples] at a1 b1 c1 a2 b2 c2
    have hyes : ∀ x ∈ labelChanges (d.examples.filter (fun e => satisfies (splitOf d t).question e.1)) 0,
        x ∈ labelChanges d.examples 0 ∧ ((splitOf d t).question.value <. x) = true := by
      intro x hx
      rw [← hj0] at hx ⊢
      exact labelChanges_yes hx
    have hno : ∀ x ∈ labelChanges (d.examples.filter (fun e => !satisfies (splitOf d t).question e.1)) 0,
        x ∈ labelChanges d.examples 0 ∧ (x <. (splitOf d t).question.value) = true := by
      intro x hx
      rw [← hj0] at hx ⊢
      exact labelChanges_no hnn hx
    rw [hj0] at hv
    have hcard := ncard_parts (labelChanges_finite _ _) hv hyes hno
    refine ⟨?_, ?_, ?_⟩
    · rw [treeOf_node hg]
      simp only [TreeNode.new, TreeNode.questionCount]
      omega
    · intro p q hq
      rw [treeOf_node hg] at hq
      match p with
      | [] =>
        simp only [TreeNode.new, TreeNode.questionAt, Option.some.injEq] at hq
        subst hq
        exact ⟨hj0, hv⟩
      | true :: p => exact ⟨(b1 p q hq).1, (hyes _ (b1 p q hq).2).1⟩
      | false :: p => exact ⟨(b2 p q hq).1, (hno _ (b2 p q hq).2).1⟩
    · intro hc M hM
      obtain ⟨M, rfl⟩ : ∃ k, M = k + 1 := ⟨M - 1, by omega⟩
      rw [treeOf_node hg, treeOf_node hg, c1 (by omega) M (by omega), c2 (by omega) M (by omega)]

/-- residuals of predictions that change only where the labels change do so, too -/
theorem labelChanges_resid {rows : List (List (Ext K))} {ls ps : List (List K)} (hl : ls.length = rows.length) (hp : ps.length = rows.length) {j : Nat}
    (hs : ∀ i i' (hi : i < rows.length) (hi' : i' < rows.length), SameRun (rows.zip ls) j rows[i] rows[i'] → ps[i]? = ps[i']?) :
    labelChanges (rows.zip (resid ls ps)) j ⊆ labelChanges (rows.zip ls) j := by
  have hrl : (resid ls ps).length = rows.length := by rw [resid_length (by omega), hl]
  have hmem : ∀ {ms : List (List K)} (_ : ms.length = rows.length) (e : List (Ext K) × List K), e ∈ rows.zip ms ↔
      ∃ i, ∃ (h1 : i < rows.length) (h2 : i < ms.length), e = (rows[i], ms[i]) := by
    intro ms hm e
    rw [List.mem_iff_getElem]
    constructor
    · rintro ⟨i, hi, rfl⟩
      simp only [List.length_zip, lt_min_iff] at hi
      exact ⟨i, hi.1, hi.2, by simp⟩
    · rintro ⟨i, h1, h2, rfl⟩
      exact ⟨i, by simp [h1, h2], by simp⟩
  have hval : ∀ {ms ms' : List (List K)} (_ : ms.length = rows.length) (_ : ms'.length = rows.length) (u : Ext K),
      (∃ a ∈ rows.zip ms, a.1[j]? = some u) → ∃ a ∈ rows.zip ms', a.1[j]? = some u := by
    rintro ms ms' hm hm' u ⟨a, ha, hu⟩
    obtain ⟨i, h1, h2, rfl⟩ := (hmem hm a).mp ha
    exact ⟨_, (hmem hm' _).mpr ⟨i, h1, by omega, rfl⟩, hu⟩
  rintro v ⟨⟨e, he, e', he', w, h1, h2, h3, h4, h5⟩, e2, he2, u, hu, huv⟩
  have hin : ∃ a ∈ rows.zip ls, ∃ u : Ext K, a.1[j]? = some u ∧ (u <. v) = true := by
    obtain ⟨a, ha, hau⟩ := hval hrl hl u ⟨e2, he2, hu⟩
    exact ⟨a, ha, u, hau, huv⟩
  have hgap : ∀ a ∈ rows.zip ls, ∀ x : Ext K, a.1[j]? = some x → ¬ ((w <. x) = true ∧ (x <. v) = true) := by
    intro a ha x hx
    obtain ⟨b, hb, hbx⟩ := hval hl hrl x ⟨a, ha, hx⟩
    exact h4 b hb x hbx
  obtain ⟨i, i1, i2, rfl⟩ := (hmem hrl e).mp he
  obtain ⟨i', i1', i2', rfl⟩ := (hmem hrl e').mp he'
  simp only at h1 h2 h5
  by_cases hlab : ls[i] = ls[i']
  · have hpne : ps[i]? ≠ ps[i']? := by
      intro hpe
      rw [List.getElem?_eq_getElem (by omega), List.getElem?_eq_getElem (by omega), Option.some.injEq] at hpe
      apply h5
      simp only [resid, List.getElem_zipWith, hlab, hpe]
    have hns : ¬ SameRun (rows.zip ls) j rows[i] rows[i'] := fun hr => hpne (hs i i' i1 i1' hr)
    simp only [SameRun] at hns
    push Not at hns
    obtain ⟨z, hz, x, x', hx, hx', hne⟩ := hns
    rw [h1] at hx
    rw [h2] at hx'
    cases hx
    cases hx'
    have hzv : (z <=. v) = true ∧ (z <=. w) = false := by
      cases ha : (z <=. v) <;> cases hb : (z <=. w)
      · rw [ha, hb] at hne; exact absurd rfl hne
      · have := LawfulOrder.le_trans hb h3
        rw [ha] at this
        cases this
      · exact ⟨rfl, rfl⟩
      · rw [ha, hb] at hne; exact absurd rfl hne
    have hwz : (w <. z) = true := (not_le (nn_left hzv.1) (nn_left h3)).mp hzv.2
    have hzmem : ∃ a ∈ rows.zip ls, a.1[j]? = some z := by
      obtain ⟨⟨a, ha, _, _, _, haz, _⟩, _⟩ := hz
      exact ⟨a, ha, haz⟩
    obtain ⟨a, ha, haz⟩ := hzmem
    have hnl : (z <. v) = false := by
      cases hc : (z <. v) with
      | false => rfl
      | true => exact absurd ⟨hwz, hc⟩ (hgap a ha z haz)
    have hvz := (not_lt (nn_left hzv.1) (nn_right hzv.1)).mp hnl
    rw [Ext.eq_of_le hvz hzv.1]
    exact hz
  · exact ⟨⟨_, (hmem hl _).mpr ⟨i, i1, by omega, rfl⟩, _, (hmem hl _).mpr ⟨i', i1', by omega, rfl⟩, w, h1, h2, h3, hgap, hlab⟩, hin⟩

theorem sameRun_solve {es : List (List (Ext K) × List K)} {row row' : List (Ext K)} (h : SameRun es 0 row row') (hr : 1 ≤ row.length)
    (hr' : 1 ≤ row'.length) {q : Question (Ext K)} (hq : q.column = 0) (hv : q.value ∈ labelChanges es 0) :
    q.solve row = q.solve row' ∧ satisfies q row = satisfies q row' := by
  have h1 : q.column < row.length := by omega
  have h2 : q.column < row'.length := by omega
  have hsat : satisfies q row = satisfies q row' := by
    simp only [satisfies, List.getElem?_eq_getElem h1, List.getElem?_eq_getElem h2]
    refine h q.value hv _ _ ?_ ?_
    · rw [← List.getElem?_eq_getElem h1, hq]
    · rw [← List.getElem?_eq_getElem h2, hq]
  rw [solve_eq h1, solve_eq h2, hsat]
  exact ⟨rfl, rfl⟩

/-- what all trees of an ensemble over one feature are about -/
theorem regLoop_changes {d : DataSet (Ext K)} {t : Nat} (h : d.WF 1 t) {ls : List (List K)} (hls : d.labels = lift ls) {cfg : TreeConfig}
    (hc : cfg.numberOfClasses = t) (lr : K) (n : Nat) :
    ∃ s ps, regLoopAt d cfg lr (liftV (meanVec t ls)) n = .ok s ∧ RegState d 1 t ls cfg lr s ps ∧
      (∀ i i' (hi : i < d.featureRows.length) (hi' : i' < d.featureRows.length),
        SameRun (d.featureRows.zip ls) 0 d.featureRows[i] d.featureRows[i'] → ps[i]? = ps[i']?) ∧
      (∀ tree ∈ s.2, tree.Proper ∧ tree.questionCount ≤ (labelChanges (d.featureRows.zip ls) 0).ncard ∧
        ∀ p q, tree.questionAt p = some q → q.column = 0 ∧ q.value ∈ labelChanges (d.featureRows.zip ls) 0) ∧
      ((labelChanges (d.featureRows.zip ls) 0).ncard ≤ cfg.maxLevels → ∀ M, cfg.maxLevels ≤ M →
        regLoopAt d { cfg with maxLevels := M } lr (liftV (meanVec t ls)) n = .ok s) := by
  have hll : ls.length = d.featureRows.length := by rw [← h.label_count, hls, lift_length]
  induction n with
  | zero =>
    refine ⟨_, _, rfl, regState_start h hls, ?_, by simp, fun _ _ _ => rfl⟩
    intro i i' hi hi' _
    rw [List.getElem?_replicate, List.getElem?_replicate, hll, if_pos hi, if_pos hi']
  | succ n ih =>
    obtain ⟨s, ps, h1, hs, hrun, htrees, hM⟩ := ih
    obtain ⟨s', ps', h3, hs', _⟩ := regState_step h hls hc hs
    have hg : (liftV (meanVec t ls) : List (Ext K)).length = t := by rw [liftV_length, meanVec_length]
    obtain ⟨h4, h5⟩ := regression_step_exact h hls hc hg hs.finite h3
    have hps := lift_injective (hs'.finite.labels.symm.trans h4.labels)
    have hwr := resid_wf h hls hs.finite.len hs.finite.width
    have hpl : ps.length = d.featureRows.length := by rw [hs.finite.len, h.label_count]
    have hsub := labelChanges_resid hll hpl hrun
    obtain ⟨t1, t2, t3⟩ := treeOf_changes (leafOf := gradLeaf .regression t) cfg.maxLevels _ hwr rfl
    rw [labelChanges_lift (ls := resid ls ps) rfl] at t1 t2 t3
    simp only at t1 t2 t3
    have hcard := Set.ncard_le_ncard hsub (labelChanges_finite _ _)
    have hq : ∀ p q, (residTree 1 t cfg.maxLevels d (resid ls ps)).questionAt p = some q →
        q.column = 0 ∧ q.value ∈ labelChanges (d.featureRows.zip ls) 0 := fun p q hq => ⟨(t2 p q hq).1, hsub (t2 p q hq).2⟩
    refine ⟨s', ps', by rw [regLoopAt] at h1 ⊢; rw [boostLoop_succ, h1]; exact h3, hs', ?_, ?_, ?_⟩
    · intro i i' hi hi' hr
      have hroute : (residTree 1 t cfg.maxLevels d (resid ls ps)).route d.featureRows[i] =
          (residTree 1 t cfg.maxLevels d (resid ls ps)).route d.featureRows[i'] :=
        TreeNode.route_congr (treeOf_proper _ _) (fun p q hpq => (sameRun_solve hr (h.row_len _ (List.getElem_mem hi)).ge
          (h.row_len _ (List.getElem_mem hi')).ge (hq p q hpq).1 (hq p q hpq).2).2)
      have hpe := hrun i i' hi hi' hr
      rw [List.getElem?_eq_getElem (by omega), List.getElem?_eq_getElem (by omega), Option.some.injEq] at hpe
      have hul : (updated lr (residOut 1 t cfg.maxLevels d (resid ls ps)) ps d.featureRows).length = d.featureRows.length := by
        rw [updated_length hpl, hpl]
      rw [hps, List.getElem?_eq_getElem (by omega), List.getElem?_eq_getElem (by omega)]
      simp only [updated, List.getElem_zipWith, residOut, mates]
      rw [hroute, hpe]
    · intro tree htree
      rw [h5, List.mem_append, List.mem_singleton] at htree
      rcases htree with htree | rfl
      · exact htrees tree htree
      · exact ⟨treeOf_proper _ _, t1.trans hcard, hq⟩
    · intro hle M hmM
      have hl := hM hle M hmM
      have htree := t3 (hcard.trans hle) M hmM
      rw [regLoopAt] at hl ⊢
      rw [boostLoop_succ, hl, R.ok_bind]
      obtain ⟨r, tree, t1, k1, k2, k3, rfl⟩ := boostStep_inv h3
      simp only [boostStep, k1, R.ok_bind]
      rw [regressionResiduals_ok h hg hs.finite.tracks, hs.finite.labels, hls, resid_lift] at k1
      have := Except.ok.inj k1
      subst this
      rw [hs.finite.tracks.data] at k2 ⊢
      rw [gradBoostTreeNew_ok hwr hc] at k2
      rw [gradBoostTreeNew_ok hwr (cfg := { cfg with maxLevels := M }) hc, htree, k2, R.ok_bind, k3]
      rfl

/-! ## C118 -/

/-- **C118** (split search).  A reported question with a gain asks for a value at which the labels change: its threshold is a training value that
is not the smallest, and some example with this value has another label than some example with this or the next smaller value. -/
theorem C118_split (d : DataSet (Ext K)) (c t : Nat) (h : d.WF c t) (ls : List (List K)) (hls : d.labels = lift ls) :
    ∃ s, findBestSplit d t = .ok s ∧ ((s.gain ==. F64.zero) = false → s.question.value ∈ labelChanges d.examples s.question.column) :=
  ⟨_, findBestSplit_ok h, splitOf_changes h hls⟩

theorem grown_changes {d : DataSet (Ext K)} {c t m : Nat} {ls : List (List K)} (hls : d.labels = lift ls) {tree : TreeNode (Ext K) L}
    (h : GrownGreedily d c t m tree) {p : List Bool} {q : Question (Ext K)} (hq : tree.questionAt p = some q) :
    q.value ∈ labelChanges (reaching d tree p) q.column := by
  obtain ⟨dd, s, hw, he, hs, hat⟩ := h p (TreeNode.subtreeAt_of_questionAt hq)
  rw [hq] at hat
  split at hat
  case isFalse => cases hat
  rename_i hg
  cases hat
  rw [findBestSplit_ok hw] at hs
  have hsp := Except.ok.inj hs
  subst hsp
  have hlab : dd.labels = lift (((d.featureRows.zip ls).filter (fun e => p.isPrefixOf (tree.route e.1))).map Prod.snd) := by
    rw [labels_of_examples hw, he, reaching, examples_lift hls, List.filter_map, List.map_map, lift, List.map_map]
    rfl
  rw [← he]
  exact splitOf_changes hw hlab hg.2

/-- **C118** (trees).  Every question of a tree of each of the four builders asks for a value at which the labels change among the training examples
that arrive at it. -/
theorem C118_nodes (d : DataSet (Ext K)) (c t : Nat) (h : d.WF c t) (ls : List (List K)) (hls : d.labels = lift ls)
    (cfg : TreeConfig) (ht : cfg.numberOfClasses = t) (k : LeafOutputType) :
    (∀ tree, regressionTreeNew d cfg = .ok tree → ∀ p q, tree.questionAt p = some q →
      q.value ∈ labelChanges (reaching d tree p) q.column) ∧
    (∀ tree, gradBoostTreeNew d cfg k = .ok tree → ∀ p q, tree.questionAt p = some q →
      q.value ∈ labelChanges (reaching d tree p) q.column) ∧
    (∀ tree, amgTreeNew d cfg k = .ok tree → ∀ p q, tree.questionAt p = some q →
      q.value ∈ labelChanges (reaching d tree p) q.column) ∧
    (t < 2 ^ 32 → ∀ s, createDatasetWithSortedFeatures d = .ok s → ∀ tree, regressionTreeNewPartitionNew s cfg = .ok tree →
      ∀ p q, tree.questionAt p = some q → q.value ∈ labelChanges (reaching d tree p) q.column) := by
  obtain ⟨h1, h2, h3⟩ := C48_grown_greedily d c t h cfg ht k
  exact ⟨fun tree htree p q hq => grown_changes hls (h1 tree htree) hq, fun tree htree p q hq => grown_changes hls (h2 tree htree) hq,
    fun tree htree p q hq => grown_changes hls (h3 tree htree) hq,
    fun ht2 s hs tree htree p q hq => grown_changes hls (C48_grown_greedily_sorted d c t h ht2 cfg s hs tree htree) hq⟩

/-- **C118** (one feature).  If there is one feature, the questions of a tree of any depth are about different values at which the labels of the
training data change: there are no more questions than such values, and at most one leaf more. -/
theorem C118_one_feature (d : DataSet (Ext K)) (t : Nat) (h : d.WF 1 t) (ls : List (List K)) (hls : d.labels = lift ls)
    (cfg : TreeConfig) (ht : cfg.numberOfClasses = t) (k : LeafOutputType) :
    (∃ tree, regressionTreeNew d cfg = .ok tree ∧ tree.leaves.length ≤ (labelChanges d.examples 0).ncard + 1 ∧
      ∀ p q, tree.questionAt p = some q → q.value ∈ labelChanges d.examples 0) ∧
    (∃ tree, gradBoostTreeNew d cfg k = .ok tree ∧ tree.leaves.length ≤ (labelChanges d.examples 0).ncard + 1 ∧
      ∀ p q, tree.questionAt p = some q → q.value ∈ labelChanges d.examples 0) ∧
    (∃ tree, amgTreeNew d cfg k = .ok tree ∧ tree.leaves.length ≤ (labelChanges d.examples 0).ncard + 1 ∧
      ∀ p q, tree.questionAt p = some q → q.value ∈ labelChanges d.examples 0) := by
  have key : ∀ {L : Type} (leafOf : DataSet (Ext K) → L),
      (treeOf leafOf 1 t cfg.maxLevels d).leaves.length ≤ (labelChanges d.examples 0).ncard + 1 ∧
      ∀ p q, (treeOf leafOf 1 t cfg.maxLevels d).questionAt p = some q → q.value ∈ labelChanges d.examples 0 := by
    intro L leafOf
    obtain ⟨h1, h2, _⟩ := treeOf_changes (leafOf := leafOf) cfg.maxLevels d h hls
    have := (proper_counts (treeOf_proper (leafOf := leafOf) (c := 1) (t := t) cfg.maxLevels d)).1
    exact ⟨by omega, fun p q hq => (h2 p q hq).2⟩
  exact ⟨⟨_, regressionTreeNew_ok h ht, key _⟩, ⟨_, gradBoostTreeNew_ok h ht k, key _⟩, ⟨_, amgTreeNew_ok h ht k, key _⟩⟩

/-- **C118** (levels).  If there is one feature and the labels change at no more values than levels are allowed, allowing more levels changes
neither a tree nor a regression ensemble. -/
theorem C118_levels (d : DataSet (Ext K)) (t : Nat) (h : d.WF 1 t) (ls : List (List K)) (hls : d.labels = lift ls)
    (cfg : TreeConfig) (ht : cfg.numberOfClasses = t) (hm : (labelChanges d.examples 0).ncard ≤ cfg.maxLevels)
    (M : Nat) (hM : cfg.maxLevels ≤ M) (k : LeafOutputType) (n : Nat) (lr : K) :
    regressionTreeNew d { cfg with maxLevels := M } = regressionTreeNew d cfg ∧
    gradBoostTreeNew d { cfg with maxLevels := M } k = gradBoostTreeNew d cfg k ∧
    amgTreeNew d { cfg with maxLevels := M } k = amgTreeNew d cfg k ∧
    regressionTrain d { cfg with maxLevels := M } n (.fin lr) = regressionTrain d cfg n (.fin lr) := by
  have key : ∀ {L : Type} (leafOf : DataSet (Ext K) → L), treeOf leafOf 1 t M d = treeOf leafOf 1 t cfg.maxLevels d :=
    fun leafOf => (treeOf_changes (leafOf := leafOf) cfg.maxLevels d h hls).2.2 hm M hM
  refine ⟨?_, ?_, ?_, ?_⟩
  · rw [regressionTreeNew_ok h ht, regressionTreeNew_ok h (cfg := { cfg with maxLevels := M }) ht, key]
  · rw [gradBoostTreeNew_ok h ht, gradBoostTreeNew_ok h (cfg := { cfg with maxLevels := M }) ht, key]
  · rw [amgTreeNew_ok h ht, amgTreeNew_ok h (cfg := { cfg with maxLevels := M }) ht, key]
  · rw [labelChanges_lift hls] at hm
    obtain ⟨s, ps, h1, _, _, _, h2⟩ := regLoop_changes h hls ht lr n
    rw [regressionTrain_of_loop h hls h1, regressionTrain_of_loop h hls (h2 hm M hM)]

/-- **C118** (few changes suffice).  If there is one feature and the labels change at no more values than levels are allowed, a regression tree
predicts for every training row the mean label of the rows with the same value, and the ensemble after `n` iterations what lies the
fraction `(1 - lr)^n` before it, coming from the mean of all labels.  The number of rows does not matter. -/
theorem C118_enough_levels (d : DataSet (Ext K)) (t : Nat) (h : d.WF 1 t) (ht0 : 0 < t) (ls : List (List K)) (hls : d.labels = lift ls)
    (cfg : TreeConfig) (ht : cfg.numberOfClasses = t) (hm : (labelChanges d.examples 0).ncard ≤ cfg.maxLevels) (n : Nat) (lr : K) :
    (∃ tree, regressionTreeNew d cfg = .ok tree ∧ ∀ row ∈ d.featureRows, ∃ leaf dd, findLeafNodeForData row tree = .ok leaf ∧
      leaf.data = some dd ∧ calculateAverageVector dd.labels = .ok (liftV (copyMean t (d.featureRows.zip ls) row))) ∧
    (∃ m, regressionTrain d cfg n (.fin lr) = .ok m ∧ ∀ row ∈ d.featureRows, regressionPredict m row =
      .ok (liftV (between t ((1 - lr) ^ n) (meanVec t ls) (copyMean t (d.featureRows.zip ls) row)))) ∧
    (NoContradictions d.featureRows d.labels → ∃ tree, regressionTreeNew d cfg = .ok tree ∧ calculateOverallMse d tree = .ok (.fin 0)) := by
  have hM : cfg.maxLevels ≤ cfg.maxLevels + d.featureRows.length := Nat.le_add_right _ _
  obtain ⟨e1, _, _, e2⟩ := C118_levels d t h ls hls cfg ht hm _ hM .regression n lr
  have hbig : d.featureRows.length ≤ ({ cfg with maxLevels := cfg.maxLevels + d.featureRows.length } : TreeConfig).maxLevels + 1 := by
    show _ ≤ cfg.maxLevels + d.featureRows.length + 1
    omega
  obtain ⟨tree, _, h1, h2, _⟩ := C117_deep_tree d 1 t h ht0 ls hls { cfg with maxLevels := cfg.maxLevels + d.featureRows.length } ht hbig
  obtain ⟨m, h3, h4, _⟩ := C117_deep_ensemble d 1 t h ht0 ls hls { cfg with maxLevels := cfg.maxLevels + d.featureRows.length } ht hbig n lr
  rw [e1] at h1
  rw [e2] at h3
  refine ⟨⟨tree, h1, h2⟩, ⟨m, h3, h4⟩, ?_⟩
  intro hd
  obtain ⟨tree', h5, h6⟩ := C56_tree_fits d 1 t h ht0 ls hls hd { cfg with maxLevels := cfg.maxLevels + d.featureRows.length } ht hbig
  rw [e1] at h5
  exact ⟨tree', h5, h6⟩

/-- **C118** (ensembles over one feature).  All trees of a regression ensemble, though fitted to residuals, ask only for values at which the
labels of the training data change, and have at most one leaf more than there are such values. -/
theorem C118_ensemble_questions (d : DataSet (Ext K)) (t : Nat) (h : d.WF 1 t) (ls : List (List K)) (hls : d.labels = lift ls)
    (cfg : TreeConfig) (ht : cfg.numberOfClasses = t) (n : Nat) (lr : K) :
    ∃ m, regressionTrain d cfg n (.fin lr) = .ok m ∧ ∀ tree ∈ m.trees, tree.leaves.length ≤ (labelChanges d.examples 0).ncard + 1 ∧
      ∀ p q, tree.questionAt p = some q → q.value ∈ labelChanges d.examples 0 := by
  obtain ⟨s, ps, h1, _, _, h2, _⟩ := regLoop_changes h hls ht lr n
  rw [labelChanges_lift hls]
  refine ⟨_, regressionTrain_of_loop h hls h1, ?_⟩
  intro tree htree
  obtain ⟨k1, k2, k3⟩ := h2 tree htree
  have := (proper_counts k1).1
  exact ⟨by omega, fun p q hq => (k3 p q hq).2⟩

/-- **C118** (predictions are constant where the labels are).  If there is one feature, two rows, seen or not, between whose values the labels of the
training data do not change end in the same leaf of every tree and get the same prediction from every regression ensemble. -/
theorem C118_same_run (d : DataSet (Ext K)) (t : Nat) (h : d.WF 1 t) (ls : List (List K)) (hls : d.labels = lift ls)
    (cfg : TreeConfig) (ht : cfg.numberOfClasses = t) (k : LeafOutputType) (n : Nat) (lr : K)
    (row row' : List (Ext K)) (hrow : 1 ≤ row.length) (hrow' : 1 ≤ row'.length) (hs : SameRun d.examples 0 row row') :
    (∃ tree, regressionTreeNew d cfg = .ok tree ∧ findLeafNodeForData row tree = findLeafNodeForData row' tree) ∧
    (∃ tree, gradBoostTreeNew d cfg k = .ok tree ∧ findLeafNodeForData row tree = findLeafNodeForData row' tree) ∧
    (∃ tree, amgTreeNew d cfg k = .ok tree ∧ findLeafNodeForData row tree = findLeafNodeForData row' tree) ∧
    (∃ m, regressionTrain d cfg n (.fin lr) = .ok m ∧ regressionPredict m row = regressionPredict m row') := by
  have hs' : SameRun (d.featureRows.zip ls) 0 row row' := by
    intro v hv
    rw [← labelChanges_lift hls] at hv
    exact hs v hv
  have key : ∀ {L : Type} (tree : TreeNode (Ext K) L) (_ : tree.Proper)
      (_ : ∀ p q, tree.questionAt p = some q → q.column = 0 ∧ q.value ∈ labelChanges (d.featureRows.zip ls) 0),
      findLeafNodeForData row tree = findLeafNodeForData row' tree := by
    intro L tree hp hq
    exact TreeNode.find_congr hp (fun p q hpq => (sameRun_solve hs' hrow hrow' (hq p q hpq).1 (hq p q hpq).2).1)
  have hq : ∀ {L : Type} (leafOf : DataSet (Ext K) → L) p q, (treeOf leafOf 1 t cfg.maxLevels d).questionAt p = some q →
      q.column = 0 ∧ q.value ∈ labelChanges (d.featureRows.zip ls) 0 := by
    intro L leafOf
    rw [← labelChanges_lift hls]
    exact (treeOf_changes (leafOf := leafOf) cfg.maxLevels d h hls).2.1
  refine ⟨⟨_, regressionTreeNew_ok h ht, key _ (treeOf_proper _ _) (hq _)⟩, ⟨_, gradBoostTreeNew_ok h ht k, key _ (treeOf_proper _ _) (hq _)⟩,
    ⟨_, amgTreeNew_ok h ht k, key _ (treeOf_proper _ _) (hq _)⟩, ?_⟩
  obtain ⟨s, ps, h1, _, _, h2, _⟩ := regLoop_changes h hls ht lr n
  refine ⟨_, regressionTrain_of_loop h hls h1, ?_⟩
  simp only [regressionPredict, predictInstance_eq]
  exact rawScore_congr (fun tree htree => by simp only [gradOut, key tree (h2 tree htree).1 (h2 tree htree).2.2])

theorem labelChanges_classes {d : DataSet (Ext K)} {t : Nat} {ks : List Nat} (hk : ∀ k ∈ ks, k < t) (hl : d.labels = ks.map (oneHot t))
    (φ : Nat → List K) (j : Nat) : labelChanges (withLabels d (ks.map φ)).examples j ⊆ labelChanges d.examples j := by
  have e1 : (withLabels d (ks.map φ)).examples = (d.featureRows.zip ks).map (fun e => (e.1, liftV (φ e.2))) := by
    show d.featureRows.zip ((ks.map φ).map liftV) = _
    rw [List.map_map, List.zip_map_right]
    rfl
  have e2 : d.examples = (d.featureRows.zip ks).map (fun e => (e.1, oneHot t e.2)) := by
    rw [DataSet.examples, hl, List.zip_map_right]
    rfl
  rw [e1, e2]
  rintro v ⟨⟨e, he, e', he', w, h1, h2, h3, h4, h5⟩, a, ha, u, hu⟩
  obtain ⟨x, hx, rfl⟩ := List.mem_map.mp he
  obtain ⟨x', hx', rfl⟩ := List.mem_map.mp he'
  obtain ⟨y, hy, rfl⟩ := List.mem_map.mp ha
  refine ⟨⟨_, List.mem_map.mpr ⟨x, hx, rfl⟩, _, List.mem_map.mpr ⟨x', hx', rfl⟩, w, h1, h2, h3, ?_, ?_⟩, _, List.mem_map.mpr ⟨y, hy, rfl⟩, u, hu⟩
  · intro b hb z hz
    obtain ⟨b', hb', rfl⟩ := List.mem_map.mp hb
    exact h4 _ (List.mem_map.mpr ⟨b', hb', rfl⟩) z hz
  · intro h6
    exact h5 (by rw [classes_inj (K := K) hk _ (List.of_mem_zip hx).2 _ (List.of_mem_zip hx').2 h6])

theorem sortsRows_changes {leafOf : DataSet (Ext K) → L} {d : DataSet (Ext K)} {t : Nat} {ks : List Nat} (hk : ∀ k ∈ ks, k < t)
    (hl : d.labels = ks.map (oneHot t)) (hd : NoContradictions d.featureRows d.labels) {m : Nat} (hm : (labelChanges d.examples 0).ncard ≤ m) :
    SortsRows leafOf 1 t m d ks := by
  intro φ hw
  have hm' := (Set.ncard_le_ncard (labelChanges_classes hk hl φ 0) (labelChanges_finite _ _)).trans hm
  rw [← (treeOf_changes (leafOf := leafOf) m _ hw rfl).2.2 hm' (m + d.featureRows.length) (Nat.le_add_right _ _)]
  exact sortsRows_deep (c := 1) (classes_consistent hk hl hd) (by omega) φ hw

/-- **C118** (classification).  If there is one feature, no two examples contradict each other and the classes change at no more values than levels are
allowed, multi-class and AMG boosting give all training rows of a class the same scores, those of trees of any depth, and for a positive
learning rate classify all training rows correctly from the first iteration on. -/
theorem C118_classification (d : DataSet (Ext K)) (t : Nat) (h : d.WF 1 t) (h2 : 2 ≤ t) (ht : t ≤ 2 ^ 53) (ks : List Nat) (hk : ∀ k ∈ ks, k < t)
    (hl : d.labels = ks.map (oneHot t)) (hd : NoContradictions d.featureRows d.labels) (cfg : TreeConfig) (hc : cfg.numberOfClasses = t)
    (hm : (labelChanges d.examples 0).ncard ≤ cfg.maxLevels) (n : Nat) (lr : K) :
    (∃ m, multiClassTrain d cfg n (.fin lr) = .ok m ∧
      d.featureRows.mapM (fun row => predictInstance row m.trees m.initialGuess m.learningRate) =
        .ok (lift (ks.map (fun k => hitMiss t k (deepScores t lr n).1 (deepScores t lr n).2))) ∧
      (0 < lr → 0 < n → d.featureRows.mapM (multiClassPredict m) = .ok d.labels ∧
        (d.featureRows.length ≤ 2 ^ 53 → multiClassScore m d = .ok (.fin 1)))) ∧
    (∃ m, amgTrain d cfg n (.fin lr) = .ok m ∧
      d.featureRows.mapM (fun row => amgPredictInstance row m.trees m.initialGuess m.learningRate m.initialGuess.length) =
        .ok (lift (ks.map (fun k => hitMiss t k (deepAmgScores t lr n).1 (deepAmgScores t lr n).2))) ∧
      (0 < lr → 0 < n → d.featureRows.mapM (amgPredict m) = .ok d.labels ∧
        (d.featureRows.length ≤ 2 ^ 53 → amgScore m d = .ok (.fin 1)))) :=
  ⟨multi_fits_of h h2 ht hk hl (sortsRows_changes hk hl hd hm) hc n lr, amg_fits_of h h2 ht hk hl (sortsRows_changes hk hl hd hm) hc n lr⟩

end

/-! ## The hypotheses are met -/

section samples

/-- six examples whose labels change once, between the values 2 and 3 -/
def twoRuns : DataSet E :=
  { featureRows := [[0], [1], [2], [3], [4], [5]], labels := [[7], [7], [7], [1], [1], [1]], featureColumns := [[0, 1, 2, 3, 4, 5]] }

theorem twoRuns_wf : twoRuns.WF 1 1 := by
  refine ⟨by decide, by decide, by decide, by decide, ?_, by decide +kernel, by decide⟩
  decide

-- the labels change at the value 3 only
theorem twoRuns_changes : labelChanges twoRuns.examples 0 ⊆ {3} := by
  rintro v ⟨⟨e, he, e', he', w, h1, h2, h3, h4, h5⟩, _⟩
  have key : ∀ e ∈ twoRuns.examples, ∀ e' ∈ twoRuns.examples, ((e'.1.getD 0 0 <=. e.1.getD 0 0) = true) →
      (∀ a ∈ twoRuns.examples, ¬ ((e'.1.getD 0 0 <. a.1.getD 0 0) = true ∧ (a.1.getD 0 0 <. e.1.getD 0 0) = true)) → e.2 ≠ e'.2 →
      e.1.getD 0 0 = 3 := by decide +kernel
  have hv : e.1.getD 0 0 = v := by simp [List.getD, h1]
  have hw : e'.1.getD 0 0 = w := by simp [List.getD, h2]
  have := key e he e' he' (by rw [hv, hw]; exact h3) (by
    intro a ha
    rw [hv, hw]
    refine h4 a ha _ ?_
    have hl : ∀ a ∈ twoRuns.examples, a.1.length = 1 := by decide +kernel
    have := hl a ha
    simp [List.getD, this]) h5
  rw [hv] at this
  exact this

-- so one level is as good as any number of levels, and two leaves are enough
example : (labelChanges twoRuns.examples 0).ncard ≤ 1 := by
  have := Set.ncard_le_ncard twoRuns_changes (Set.finite_singleton _)
  rwa [Set.ncard_singleton] at this
example : (do
    let tree ← regressionTreeNew twoRuns { useMultiThreading := false, numberOfClasses := 1, maxLevels := 1 }
    calculateOverallMse twoRuns tree) = .ok (.fin 0) := by decide +kernel
-- unseen values on the same side of 3 get the same predictions
example : SameRun twoRuns.examples 0 [3] [100] := by
  intro v hv x x' hx hx'
  rw [Set.mem_singleton_iff.mp (twoRuns_changes hv), ← Option.some.inj hx, ← Option.some.inj hx']
  decide +kernel
example : (do
    let m ← regressionTrain twoRuns { useMultiThreading := false, numberOfClasses := 1, maxLevels := 4 } 2 (.fin (1 / 2))
    [[3], [100]].mapM (regressionPredict m)) = .ok [[.fin (7 / 4)], [.fin (7 / 4)]] := by decide +kernel
-- the same rows as two classes
example : (do
    let d : DataSet E := { twoRuns with labels := [0, 0, 0, 1, 1, 1].map (oneHot 2) }
    let m ← multiClassTrain d { useMultiThreading := false, numberOfClasses := 2, maxLevels := 1 } 1 (.fin (1 / 10))
    multiClassScore m d) = .ok (.fin 1) := by decide +kernel
-- with ties a question may cut between examples with the same value: then the labels change among them
example : (findBestSplit (F := E) { featureRows := [[0], [1], [1], [1]], labels := [[0], [0], [1], [1]], featureColumns := [[0, 1, 1, 1]] } 1).map
    (fun s => s.question.value) = .ok 1 := by decide +kernel

end samples

end Verif
