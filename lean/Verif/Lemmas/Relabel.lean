import Verif.Spec.Relabel
import Verif.Lemmas.ExactCut
import Verif.Lemmas.ExactBoost
/-! # Labels in other units: the same questions -/

set_option linter.unusedSectionVars false

namespace Verif

variable {K : Type} [Field K] [LinearOrder K] [IsStrictOrderedRing K] [FloorSemiring K] [HasExp K] {L L' : Type}

variable {t : Nat} {σ : Nat → Nat} {a : K} {b : Nat → K}

theorem relabel_length (v : List K) : (relabel t σ a b v).length = t := by simp [relabel]

theorem target_relabel (vs : List (List K)) {j : Nat} (hj : j < t) :
    target (vs.map (relabel t σ a b)) j = (target vs (σ j)).map (fun x => a * x + b j) := by
  simp only [target, List.map_map]
  apply List.map_congr_left
  intro v _
  simp only [Function.comp_apply, relabel, getD_range hj]

theorem sum_affine (a b : K) (xs : List K) : (xs.map (fun x => a * x + b)).sum = a * xs.sum + xs.length * b := by
  induction xs with
  | nil => simp
  | cons x xs ih => simp only [List.map_cons, List.sum_cons, ih, List.length_cons]; push_cast; ring

theorem meanOf_affine {a b : K} {xs : List K} (h : xs ≠ [] ∨ b = 0) : meanOf (xs.map (fun x => a * x + b)) = a * meanOf xs + b := by
  rw [meanOf, meanOf, sum_affine, List.length_map]
  rcases h with h | rfl
  · have := length_cast_ne (K := K) h
    field_simp
  · rw [mul_zero, add_zero, add_zero]; ring

theorem varOf_affine (a b : K) (xs : List K) : varOf (xs.map (fun x => a * x + b)) = a ^ 2 * varOf xs := by
  rcases eq_or_ne xs [] with rfl | h
  · simp [varOf, sqDev]
  · rw [varOf, varOf, meanOf_affine (.inl h), sqDev, sqDev, List.map_map, List.length_map, mul_div_assoc', ← List.sum_map_mul_left]
    congr 2
    apply List.map_congr_left
    intro x _
    simp only [Function.comp_apply]
    ring

theorem Reorders.perm (h : Reorders t σ) : ((List.range t).map σ).Perm (List.range t) := by
  have hn : ((List.range t).map σ).Nodup := by
    rw [List.nodup_map_iff_inj_on List.nodup_range]
    intro i hi j hj hij
    exact h.2 i (List.mem_range.mp hi) j (List.mem_range.mp hj) hij
  have hs : (List.range t).map σ ⊆ List.range t := by
    intro x hx
    obtain ⟨j, hj, rfl⟩ := List.mem_map.mp hx
    exact List.mem_range.mpr (h.1 j (List.mem_range.mp hj))
  exact (hn.subperm hs).perm_of_length_le (by simp)

theorem totalVar_relabel (h : Reorders t σ) (vs : List (List K)) : totalVar t (vs.map (relabel t σ a b)) = a ^ 2 * totalVar t vs := by
  have h1 : (List.range t).map (fun j => varOf (target (vs.map (relabel t σ a b)) j)) =
      (List.range t).map (fun j => a ^ 2 * varOf (target vs (σ j))) := by
    apply List.map_congr_left
    intro j hj
    rw [target_relabel vs (List.mem_range.mp hj), varOf_affine]
  rw [totalVar, h1, List.sum_map_mul_left, totalVar]
  congr 1
  have : (List.range t).map (fun j => varOf (target vs (σ j))) = ((List.range t).map σ).map (fun j => varOf (target vs j)) := by
    rw [List.map_map]; rfl
  rw [this]
  exact (h.perm.map _).sum_eq

theorem meanVec_relabel (h : Reorders t σ) {vs : List (List K)} (hne : vs ≠ [] ∨ b = fun _ => 0) :
    meanVec t (vs.map (relabel t σ a b)) = relabel t σ a b (meanVec t vs) := by
  rw [meanVec, relabel]
  apply List.map_congr_left
  intro j hj
  rw [List.mem_range] at hj
  rw [target_relabel vs hj, meanOf_affine, meanVec, getD_range (h.1 j hj)]
  rcases hne with hne | rfl
  · exact .inl (by simpa [target] using hne)
  · exact .inr rfl

theorem before_relabel {rows : List (List (Ext K))} {ls : List (List K)} (hlen : ls.length = rows.length) (f : List K → List K)
    (p : Nat → Bool) : ((List.range rows.length).filter p).map (fun i => (ls.map f).getD i []) =
      (((List.range rows.length).filter p).map (fun i => ls.getD i [])).map f := by
  rw [List.map_map]
  apply List.map_congr_left
  intro i hi
  have : i < ls.length := by
    rw [hlen]
    exact List.mem_range.mp (List.mem_filter.mp hi).1
  simp [this]

theorem cutReduction_relabel (h : Reorders t σ) {rows : List (List (Ext K))} {ls : List (List K)} (hlen : ls.length = rows.length)
    (j r : Nat) : cutReduction t rows (ls.map (relabel t σ a b)) j r = a ^ 2 * cutReduction t rows ls j r := by
  have h1 : labelsBefore rows (ls.map (relabel t σ a b)) j r = (labelsBefore rows ls j r).map (relabel t σ a b) :=
    before_relabel hlen _ _
  have h2 : labelsFrom rows (ls.map (relabel t σ a b)) j r = (labelsFrom rows ls j r).map (relabel t σ a b) :=
    before_relabel hlen _ _
  rw [cutReduction, cutReduction, h1, h2, totalVar_relabel h, totalVar_relabel h, totalVar_relabel h, List.length_map,
    List.length_map]
  ring

theorem reportsBestCut_relabel (h : Reorders t σ) (ha : a ≠ 0) {c : Nat} {rows : List (List (Ext K))} {ls : List (List K)}
    (hlen : ls.length = rows.length) {q : Question (Ext K)} {g : K} (hs : ReportsBestCut c t rows ls { question := q, gain := .fin g }) :
    ReportsBestCut c t rows (ls.map (relabel t σ a b)) { question := q, gain := .fin (a ^ 2 * g) } := by
  have hp : 0 < a ^ 2 := by positivity
  obtain ⟨g', h1, h2, h3⟩ := hs
  cases h1
  refine ⟨_, rfl, ?_, ?_⟩
  · intro j r hj hr
    rw [cutReduction_relabel h hlen]
    exact mul_le_mul_of_nonneg_left (h2 j r hj hr) hp.le
  · rcases h3 with ⟨rfl, h4⟩ | ⟨h4, h5, r, h6, h7, h8, h9, h10⟩
    · exact .inl ⟨mul_zero _, h4⟩
    · refine .inr ⟨mul_pos hp h4, h5, r, h6, h7, ?_, ?_, ?_⟩
      · rw [cutReduction_relabel h hlen, ← h8]
      · intro j r' hj hr'
        rw [cutReduction_relabel h hlen]
        exact mul_lt_mul_of_pos_left (h9 j r' hj hr') hp
      · intro r' hr' hb
        rw [cutReduction_relabel h hlen]
        exact mul_lt_mul_of_pos_left (h10 r' hr' hb) hp

/-- the data set with new labels -/
abbrev withLabels (d : DataSet (Ext K)) (ls : List (List K)) : DataSet (Ext K) := { d with labels := lift ls }

theorem withLabels_wf {d : DataSet (Ext K)} {c : Nat} (h : d.WF c t) {ls : List (List K)} (hls : d.labels = lift ls) :
    (withLabels d (ls.map (relabel t σ a b))).WF c t := by
  refine h.relabel ?_ ?_
  · rw [lift_length, List.length_map, hls, lift_length]
  · intro l hl
    obtain ⟨v, hv, rfl⟩ := mem_lift.mp hl
    obtain ⟨w, _, rfl⟩ := List.mem_map.mp hv
    rw [liftV_length, relabel_length]

theorem splitOf_relabel (hσ : Reorders t σ) (ha : a ≠ 0) {d : DataSet (Ext K)} {c : Nat} (h : d.WF c t) {ls : List (List K)}
    (hls : d.labels = lift ls) : ∃ g : K, (splitOf d t).gain = .fin g ∧
      splitOf (withLabels d (ls.map (relabel t σ a b))) t = { question := (splitOf d t).question, gain := .fin (a ^ 2 * g) } := by
  have h1 := splitOf_cut h hls
  have hlen : ls.length = d.featureRows.length := by rw [← h.label_count, hls, lift_length]
  obtain ⟨g, hg, _⟩ := id h1
  refine ⟨g, hg, ?_⟩
  have h2 : ReportsBestCut c t d.featureRows ls { question := (splitOf d t).question, gain := .fin g } := by
    rw [← hg]; exact h1
  exact reportsBestCut_unique (fun j hj => h.col_nan hj) (splitOf_cut (withLabels_wf h hls) rfl) (reportsBestCut_relabel hσ ha hlen h2)

theorem restrict_withLabels {d : DataSet (Ext K)} {ls : List (List K)} (hlen : ls.length = d.featureRows.length) (c : Nat)
    (p : List (Ext K) → Bool) : (withLabels d ls).restrict c p =
      withLabels (d.restrict c p) (((d.featureRows.zip ls).filter (fun e => p e.1)).map Prod.snd) ∨ d.labels.length ≠ d.featureRows.length := by
  by_cases hl : d.labels.length = d.featureRows.length
  swap
  · exact .inr hl
  left
  have h1 : ∀ ms : List (List (Ext K)), ms.length = d.featureRows.length →
      ((d.featureRows.zip ms).filter (fun e => p e.1)).map Prod.fst = d.featureRows.filter p := by
    intro ms hms
    have : (d.featureRows.zip ms).filter (fun e => p e.1) = (d.featureRows.zip ms).filter (p ∘ Prod.fst) := rfl
    rw [this, ← List.filter_map, List.map_fst_zip (by omega)]
  have h2 : ((d.featureRows.zip (lift ls)).filter (fun e => p e.1)).map Prod.snd =
      lift (((d.featureRows.zip ls).filter (fun e => p e.1)).map Prod.snd) := by
    rw [lift, List.zip_map_right, List.filter_map, List.map_map, lift, List.map_map]
    rfl
  simp only [DataSet.restrict, DataSet.examples, withLabels]
  rw [h1 _ (by rw [lift_length, hlen]), h1 _ hl, h2]

/-- The same questions, hence the same way for every row, and leaves made from the same rows with new labels. -/
def SameQuestions (c t : Nat) (f : List K → List K) (leafOf : DataSet (Ext K) → L) (leafOf' : DataSet (Ext K) → L')
    (x : TreeNode (Ext K) L) (y : TreeNode (Ext K) L') : Prop :=
  (∀ p, y.questionAt p = x.questionAt p) ∧ (∀ row, y.route row = x.route row) ∧
    ∀ p leaf, x.leafAt p = some leaf → ∃ (dd : DataSet (Ext K)) (ms : List (List K)), dd.WF c t ∧ dd.labels = lift ms ∧ leaf = leafOf dd ∧
      y.leafAt p = some (leafOf' (withLabels dd (ms.map f)))

theorem treeOf_relabel (hσ : Reorders t σ) (ha : a ≠ 0) {leafOf : DataSet (Ext K) → L} {leafOf' : DataSet (Ext K) → L'} {c : Nat} (m : Nat)
    (d : DataSet (Ext K)) (h : d.WF c t) : ∀ ls, d.labels = lift ls →
    SameQuestions c t (relabel t σ a b) leafOf leafOf' (treeOf leafOf c t m d) (treeOf leafOf' c t m (withLabels d (ls.map (relabel t σ a b)))) := by
  have hz : ∀ (g : K), ((Ext.fin (a ^ 2 * g) : Ext K) ==. F64.zero) = ((Ext.fin g : Ext K) ==. F64.zero) := by
    intro g
    rw [Ext.zero_def, Ext.fin_eq, Ext.fin_eq]
    congr 1
    simp [ha]
  have hleaf : ∀ (q q' : Question (Ext K)) (d : DataSet (Ext K)) (ls : List (List K)), d.WF c t → d.labels = lift ls →
      SameQuestions c t (relabel t σ a b) leafOf leafOf' (TreeNode.leafNode q (leafOf d))
        (TreeNode.leafNode q' (leafOf' (withLabels d (ls.map (relabel t σ a b))))) := by
    intro q q' d ls hw hls
    refine ⟨fun p => by cases p <;> rfl, fun _ => rfl, ?_⟩
    intro p leaf hp
    cases p with
    | nil =>
      cases hp
      exact ⟨d, ls, hw, hls, rfl, rfl⟩
    | cons x p => cases x <;> cases hp
  refine treeOf_induct (motive := fun m d => ∀ ls, d.labels = lift ls →
    SameQuestions c t (relabel t σ a b) leafOf leafOf' (treeOf leafOf c t m d) (treeOf leafOf' c t m (withLabels d (ls.map (relabel t σ a b))))) ?_ ?_ ?_ m d h
  · intro d hw ls hls
    exact hleaf _ _ _ _ hw hls
  · intro m d hw hg ls hls
    obtain ⟨g, h1, h2⟩ := splitOf_relabel (b := b) hσ ha hw hls
    have hg' : ((splitOf (withLabels d (ls.map (relabel t σ a b))) t).gain ==. F64.zero) = true := by
      rw [h2, hz, ← h1]; exact hg
    rw [treeOf_leaf hg, treeOf_leaf hg']
    exact hleaf _ _ _ _ hw hls
  · intro m d hw hg i1 i2 ls hls
    obtain ⟨g, h1, h2⟩ := splitOf_relabel (b := b) hσ ha hw hls
    have hg' : ((splitOf (withLabels d (ls.map (relabel t σ a b))) t).gain ==. F64.zero) = false := by
      rw [h2, hz, ← h1]; exact hg
    have hlen : ls.length = d.featureRows.length := by rw [← hw.label_count, hls, lift_length]
    have hr : ∀ p : List (Ext K) → Bool, ∃ ms, (d.restrict c p).labels = lift ms ∧
        (withLabels d (ls.map (relabel t σ a b))).restrict c p = withLabels (d.restrict c p) (ms.map (relabel t σ a b)) := by
      intro p
      refine ⟨((d.featureRows.zip ls).filter (fun e => p e.1)).map Prod.snd, ?_, ?_⟩
      · simp only [DataSet.restrict, DataSet.examples, hls]
        rw [lift, List.zip_map_right, List.filter_map, List.map_map, lift, List.map_map]
        rfl
      · rcases restrict_withLabels (d := d) (ls := ls.map (relabel t σ a b)) (by simpa using hlen) c p with h3 | h3
        · rw [h3, List.zip_map_right, List.filter_map, List.map_map, List.map_map]
          rfl
        · exact absurd hw.label_count h3
    rw [treeOf_node hg, treeOf_node hg', h2]
    dsimp only
    obtain ⟨ms1, a1, b1⟩ := hr (satisfies (splitOf d t).question)
    obtain ⟨ms2, a2, b2⟩ := hr (fun r => !satisfies (splitOf d t).question r)
    rw [b1, b2]
    have k1 := i1 ms1 a1
    have k2 := i2 ms2 a2
    refine ⟨fun p => ?_, fun row => ?_, fun p leaf hp => ?_⟩
    · match p with
      | [] => rfl
      | true :: p => exact k1.1 p
      | false :: p => exact k2.1 p
    · rw [TreeNode.route_new, TreeNode.route_new, k1.2.1 row, k2.2.1 row]
    · match p with
      | [] => cases hp
      | true :: p => exact k1.2.2 p leaf hp
      | false :: p => exact k2.2.2 p leaf hp

theorem mates_relabel {x : TreeNode (Ext K) L} {y : TreeNode (Ext K) L'} (h : ∀ row, y.route row = x.route row)
    (rows : List (List (Ext K))) (ls : List (List K)) (f : List K → List K) (row : List (Ext K)) :
    mates y (rows.zip (ls.map f)) row = (mates x (rows.zip ls) row).map f := by
  simp only [mates, h]
  rw [List.zip_map_right, List.filter_map, List.map_map, List.map_map]
  rfl

end Verif
