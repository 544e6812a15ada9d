import Verif.Props.ClassOrder
/-! # Exact arithmetic: the vectors of AMG leaves, made explicit -/

set_option linter.unusedSectionVars false

namespace Verif

variable {K : Type} [Field K] [LinearOrder K] [IsStrictOrderedRing K] [FloorSemiring K] [HasExp K]

/-! ## the first largest entry -/

/-- position `k` holds the first of the largest entries -/
def FirstTop (v : List K) (k : Nat) : Prop :=
  k < v.length ∧ (∀ j < v.length, v.getD j 0 ≤ v.getD k 0) ∧ ∀ j < k, v.getD j 0 < v.getD k 0

theorem FirstTop.firstMax {v : List K} {k : Nat} (h : FirstTop v k) : FirstMax (liftV v) k := by
  obtain ⟨hk, h1, h2⟩ := h
  refine .inl ⟨.fin (v.getD k 0), by simp [liftV, hk], rfl, ?_, ?_⟩
  · intro x hx
    obtain ⟨y, hy, rfl⟩ := List.mem_map.mp hx
    obtain ⟨j, hj, rfl⟩ := List.getElem_of_mem hy
    rw [Ext.fin_lt, decide_eq_false_iff_not, _root_.not_lt]
    simpa [List.getD_eq_getElem?_getD, hj] using h1 j hj
  · intro j x hj hx
    have hj' : j < v.length := by omega
    simp only [liftV, List.getElem?_map, List.getElem?_eq_getElem hj', Option.map_some, Option.some.injEq] at hx
    subst hx
    rw [Ext.fin_le, decide_eq_false_iff_not, _root_.not_le]
    simpa [List.getD_eq_getElem?_getD, hj'] using h2 j hj

theorem firstTop_of_firstMax {v : List K} (hne : v ≠ []) {k : Nat} (h : FirstMax (liftV v) k) : FirstTop v k := by
  rcases h with ⟨m, h1, _, h3, h4⟩ | ⟨_, h3⟩
  · have hk : k < v.length := by
      have := (List.getElem?_eq_some_iff.mp h1).1
      rwa [liftV_length] at this
    simp only [liftV, List.getElem?_map, List.getElem?_eq_getElem hk, Option.map_some, Option.some.injEq] at h1
    subst h1
    refine ⟨hk, ?_, ?_⟩
    · intro j hj
      have := h3 (.fin v[j]) (List.mem_map.mpr ⟨_, List.getElem_mem hj, rfl⟩)
      rw [Ext.fin_lt, decide_eq_false_iff_not, _root_.not_lt] at this
      simpa [List.getD_eq_getElem?_getD, hj, hk] using this
    · intro j hj
      have hj' : j < v.length := by omega
      have := h4 j (.fin v[j]) hj (by simp [liftV, hj'])
      rw [Ext.fin_le, decide_eq_false_iff_not, _root_.not_le] at this
      simpa [List.getD_eq_getElem?_getD, hj', hk] using this
  · obtain ⟨x, hx⟩ := List.exists_mem_of_ne_nil v hne
    have := h3 (.fin x) (List.mem_map.mpr ⟨x, hx, rfl⟩)
    exact Bool.noConfusion (show true = false from this)

/-- the entry the code picks -/
theorem findMax_top {v : List K} (hne : v ≠ []) : FirstTop v (findMaxValueAndIndex (liftV v)).2 :=
  firstTop_of_firstMax hne (findMax_firstMax _)

theorem FirstTop.unique {v : List K} {j k : Nat} (hj : FirstTop v j) (hk : FirstTop v k) : j = k :=
  firstMax_unique hj.firstMax hk.firstMax

/-! ## AMG leaves -/

/-- keep the first largest entry, and replace the others so that the total is zero -/
def keepTop (t : Nat) (v : List K) : List K :=
  amgField t (v.getD (findMaxValueAndIndex (liftV v)).2 0) (findMaxValueAndIndex (liftV v)).2

theorem keepTop_length (t : Nat) (v : List K) : (keepTop t v).length = t := amgField_length _ _ _

theorem amgVec_keepTop {t : Nat} (h2 : 2 ≤ t) {v : List K} (hv : v.length = t) : amgVec t (liftV v) = liftV (keepTop t v) := by
  have hne : v ≠ [] := by rintro rfl; simp at hv; omega
  obtain ⟨k, hk, h1, _⟩ := findMax_exact hne
  have ht : ((t : K) - 1) ≠ 0 := by
    have : (1 : K) < t := by exact_mod_cast (by omega : 1 < t)
    linarith
  have hk2 : (findMaxValueAndIndex (liftV v)).2 = k := by rw [h1]
  have e : v.getD k 0 = v[k] := by simp [hk]
  rw [keepTop, hk2, e, amgVec, h1]
  simp only [calculateApproximateValue, Ext.fin_neg, Ext.ofNat_def, Ext.one_def, Ext.fin_sub, Ext.fin_div _ _ ht, amgField,
    liftV, List.map_set, List.map_replicate]

theorem amgField_getD {t k j : Nat} (mx : K) (hj : j < t) : (amgField t mx k).getD j 0 = if j = k then mx else -mx / ((t : K) - 1) := by
  simp only [amgField, List.getD_eq_getElem?_getD, List.getElem?_set, List.length_replicate]
  by_cases h : j = k
  · subst h; simp [hj]
  · rw [if_neg h]
    simp [Ne.symm h, hj]

section tree
variable {d : DataSet (Ext K)} {c t : Nat} {ls : List (List K)} {cfg : TreeConfig} {lr : K}

/-- the AMG tree fitted to residuals -/
abbrev amgTreeAt (c t m : Nat) (d : DataSet (Ext K)) (rs : List (List K)) : TreeNode (Ext K) (AMGBoostLeaf (Ext K)) :=
  treeOf (amgLeaf .multiClassClassification t) c t m (withLabels d rs)

/-- its outputs -/
abbrev amgOutAt (c t m : Nat) (d : DataSet (Ext K)) (rs : List (List K)) (row : List (Ext K)) : List K :=
  keepTop t (classLeaf t (mates (amgTreeAt c t m d rs) (d.featureRows.zip rs) row))

theorem amgOut_class_exact (h2 : 2 ≤ t) (m : Nat) {rs : List (List K)} (hw : (withLabels d rs).WF c t) (hg : ∀ r ∈ rs, Good r)
    {row : List (Ext K)} (hrow : c ≤ row.length) : amgOut t row (amgTreeAt c t m d rs) = .ok (liftV (amgOutAt c t m d rs row)) := by
  obtain ⟨dd, hwd, _, ho, _, he⟩ := amgOut_ok (by omega) .multiClassClassification m hw hrow
  obtain ⟨h1, h3, h4⟩ := mates_ok (ls := rs) rfl hwd he
  have h5 : leafOut .multiClassClassification t dd.labels = liftV (classLeaf t (mates (amgTreeAt c t m d rs) (d.featureRows.zip rs) row)) := by
    rw [h1]
    simp only [leafOut]
    rw [multiOut_exact h4 h3 (fun r hr => hg r (mates_mem r hr))]
  rw [ho, h5, amgVec_keepTop h2 (classLeaf_length _ _)]

theorem amg_step_explicit (h : d.WF c t) (h2 : 2 ≤ t) (hls : d.labels = lift ls) (hh : ∀ l ∈ ls, ∃ k < t, l = hot t k)
    (hc : cfg.numberOfClasses = t) {guess : List (Ext K)} (hg : guess.length = t)
    {s : TrainingData (Ext K) × List (TreeNode (Ext K) (AMGBoostLeaf (Ext K)))} {ps : List (List K)}
    (hs : Finite (amgOut t) d guess lr t s ps) :
    ∃ s', boostStep multiClassResiduals (fun d => amgTreeNew d cfg .multiClassClassification)
        (fun t tree => amgUpdateDatasetLabels t tree (.fin lr)) s = .ok s' ∧
      Finite (amgOut t) d guess lr t s' (updated lr (amgOutAt c t cfg.maxLevels d (probResid ls ps)) ps d.featureRows) ∧
      s'.2 = s.2 ++ [amgTreeAt c t cfg.maxLevels d (probResid ls ps)] := by
  obtain ⟨s', hb⟩ := amg_step h (by omega) hc hg s hs.tracks
  refine ⟨s', hb, ?_⟩
  have hwf := probResid_wf h hls hs.len hs.width
  have hps_rows : ps.length = d.featureRows.length := by rw [hs.len, h.label_count]
  have hu := amg_updateAdds (Ext.fin lr) t
  have htr' := tracks_step (by rw [hg]; exact hu) hs.tracks hb
  obtain ⟨r, tree, t1, h1, h3, h4, rfl⟩ := boostStep_inv hb
  rw [multiClassResiduals_ok h hg hs.tracks, hs.labels, hls, probResid_lift (by omega) hs.width] at h1
  have := Except.ok.inj h1
  subst this
  rw [hs.tracks.data, amgTreeNew_ok hwf hc] at h3
  have := Except.ok.inj h3
  subst this
  have hgood := probResid_good h2 hh hs.width
  refine ⟨⟨htr', ?_, ?_, ?_⟩, rfl⟩
  · have := update_exact (o := amgOutAt c t cfg.maxLevels d (probResid ls ps)) hu hs.labels (by rw [hs.len, hs.tracks.size]) hs.width
      (by rw [hs.tracks.data, hs.tracks.size, h.label_count])
      (fun row hrow => amgOut_class_exact h2 cfg.maxLevels hwf hgood (by
        rw [hs.tracks.data] at hrow
        exact (h.row_len row hrow).ge)) h4
    rw [hs.tracks.data] at this
    exact this
  · rw [updated_length hps_rows, hs.len]
  · exact updated_width hs.width (fun row _ => keepTop_length _ _)

end tree

end Verif
