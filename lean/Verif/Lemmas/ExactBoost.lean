import Verif.Lemmas.ExactTree
/-!
# Exact arithmetic: the boosting loop
-/

set_option linter.unusedSectionVars false
set_option linter.unusedSimpArgs false

namespace Verif

variable {K : Type} [Field K] [LinearOrder K] [IsStrictOrderedRing K] [FloorSemiring K] [HasExp K] {L : Type}

/-- the labels after an update -/
def updated (lr : K) (o : List (Ext K) → List K) (ps : List (List K)) (rows : List (List (Ext K))) : List (List K) :=
  List.zipWith (fun p row => List.zipWith (· + ·) p ((o row).map (fun x => lr * x))) ps rows

theorem update_exact {upd : TrainingData (Ext K) → TreeNode (Ext K) L → R (TrainingData (Ext K))}
    {out : List (Ext K) → TreeNode (Ext K) L → R (List (Ext K))} {lr : K} {t : Nat} (hu : UpdateAdds upd out (.fin lr) t)
    {s s' : TrainingData (Ext K)} {ps : List (List K)} (hps : s.mutableLabels = lift ps) (hlen : ps.length = s.size)
    (hw : ∀ p ∈ ps, p.length = t) (hrows : s.data.featureRows.length = s.size) {tree : TreeNode (Ext K) L}
    {o : List (Ext K) → List K} (ho : ∀ row ∈ s.data.featureRows, out row tree = .ok (liftV (o row))) (h : upd s tree = .ok s') :
    s'.mutableLabels = lift (updated lr o ps s.data.featureRows) := by
  obtain ⟨_, _, h3, h4⟩ := hu s tree s' (by rw [hps, lift_length, hlen]) (by
    intro v hv
    rw [hps, mem_lift] at hv
    obtain ⟨w, hw', rfl⟩ := hv
    rw [liftV_length, hw w hw']) h
  apply List.ext_getElem (by simp [h3, lift, updated, hlen, hrows])
  intro i h1 h2
  rw [h3] at h1
  obtain ⟨row, oo, cur, ha, hb, hc, _, he⟩ := h4 i h1
  have hmem := List.mem_of_getElem? ha
  have := (ho row hmem).symm.trans hb
  have hoo := Except.ok.inj this
  rw [hps] at hc
  have hi : i < ps.length := by omega
  have hi2 : i < s.data.featureRows.length := by omega
  have hcur : cur = liftV ps[i] := by
    simp only [lift, List.getElem?_map, List.getElem?_eq_getElem hi, Option.map_some, Option.some.injEq] at hc
    exact hc.symm
  have hrow : row = s.data.featureRows[i] := by
    rw [List.getElem?_eq_getElem hi2] at ha
    exact (Option.some.inj ha).symm
  rw [List.getElem?_eq_getElem (by rw [h3]; exact h1)] at he
  rw [Option.some.inj he, ← hoo, hcur, liftV_map_mul, liftV_zip_add, hrow]
  simp [lift, updated]

theorem updated_length {lr : K} {o : List (Ext K) → List K} {ps : List (List K)} {rows : List (List (Ext K))}
    (h : ps.length = rows.length) : (updated lr o ps rows).length = ps.length := by
  simp [updated, h]

theorem updated_width {lr : K} {o : List (Ext K) → List K} {ps : List (List K)} {rows : List (List (Ext K))} {t : Nat}
    (hw : ∀ p ∈ ps, p.length = t) (ho : ∀ row ∈ rows, (o row).length = t) : ∀ p ∈ updated lr o ps rows, p.length = t := by
  intro p hp
  obtain ⟨i, hi, rfl⟩ := List.getElem_of_mem hp
  simp only [updated, List.getElem_zipWith, List.length_zipWith, List.length_map]
  rw [hw _ (List.getElem_mem _), ho _ (List.getElem_mem _)]
  simp

/-- raw scores of finite outputs -/
theorem rawScore_exact {out : List (Ext K) → TreeNode (Ext K) L → R (List (Ext K))} {g : List K} {lr : K} {t : Nat} (hg : g.length = t)
    {trees : List (TreeNode (Ext K) L)} {row : List (Ext K)} {outs : List (List K)}
    (h : List.Forall₂ (fun tree o => out row tree = .ok (liftV o) ∧ o.length = t) trees outs) :
    rawScore out (liftV g) (.fin lr) trees row =
      .ok (liftV ((List.range t).map (fun j => g.getD j 0 + lr * (outs.map (fun o => o.getD j 0)).sum))) := by
  have key : ∀ (trees : List (TreeNode (Ext K) L)) (outs : List (List K)),
      List.Forall₂ (fun tree o => out row tree = .ok (liftV o) ∧ o.length = t) trees.reverse outs.reverse →
      rawScore out (liftV g) (.fin lr) trees.reverse row =
      .ok (liftV ((List.range t).map (fun j => g.getD j 0 + lr * (outs.reverse.map (fun o => o.getD j 0)).sum))) := by
    intro trees
    induction trees with
    | nil =>
      intro outs h
      rw [List.forall₂_reverse_iff] at h
      cases h
      simp only [List.reverse_nil, rawScore_nil, List.map_nil, List.sum_nil, mul_zero, add_zero]
      rw [← eq_range_getD hg 0]
    | cons tree trees ih =>
      intro outs h
      rw [List.forall₂_reverse_iff] at h
      cases h with
      | cons ho hrest =>
        rename_i o outs
        rw [List.reverse_cons, rawScore_snoc (ih outs (List.forall₂_reverse_iff.mpr hrest)) ho.1 (by simp [liftV, ho.2]),
          liftV_map_mul, liftV_zip_add]
        congr 2
        rw [zipWith_range (by rw [List.length_map, ho.2]) 0]
        apply List.map_congr_left
        intro j hj
        rw [List.mem_range] at hj
        simp only [List.reverse_cons, List.map_append, List.sum_append, List.map_cons, List.map_nil, List.sum_cons, List.sum_nil]
        have : (o.map (fun x => lr * x)).getD j 0 = lr * o.getD j 0 := by
          have : j < o.length := by rw [ho.2]; exact hj
          simp [this]
        rw [this]; ring
  have := key trees.reverse outs.reverse (by simpa using h)
  simpa using this

/-! ## regression -/

/-- what is left to explain -/
def resid (ls ps : List (List K)) : List (List K) := List.zipWith (List.zipWith (· - ·)) ls ps

theorem resid_lift {ls ps : List (List K)} :
    List.zipWith (List.zipWith F64.sub) (lift ls) (lift ps) = lift (resid ls ps) := by
  simp only [lift, List.zipWith_map, resid, List.map_zipWith, liftV_zip_sub]

theorem resid_length {ls ps : List (List K)} (h : ps.length = ls.length) : (resid ls ps).length = ls.length := by simp [resid, h]

theorem resid_width {ls ps : List (List K)} {t : Nat} (hl : ∀ l ∈ ls, l.length = t) (hp : ∀ p ∈ ps, p.length = t) :
    ∀ r ∈ resid ls ps, r.length = t := by
  intro r hr
  obtain ⟨i, hi, rfl⟩ := List.getElem_of_mem hr
  simp only [resid, List.getElem_zipWith, List.length_zipWith]
  rw [hl _ (List.getElem_mem _), hp _ (List.getElem_mem _)]
  simp

/-- the state of the loop in exact arithmetic -/
structure Finite (out : List (Ext K) → TreeNode (Ext K) L → R (List (Ext K))) (d : DataSet (Ext K)) (guess : List (Ext K)) (lr : K)
    (t : Nat) (s : TrainingData (Ext K) × List (TreeNode (Ext K) L)) (ps : List (List K)) : Prop where
  tracks : Tracks out d guess (.fin lr) s
  labels : s.1.mutableLabels = lift ps
  len : ps.length = d.labels.length
  width : ∀ p ∈ ps, p.length = t

/-- the tree fitted to residuals -/
abbrev residTree (c t m : Nat) (d : DataSet (Ext K)) (rs : List (List K)) : TreeNode (Ext K) (GradBoostLeaf (Ext K)) :=
  treeOf (gradLeaf .regression t) c t m { d with labels := lift rs }

/-- the means its leaves hold -/
abbrev residOut (c t m : Nat) (d : DataSet (Ext K)) (rs : List (List K)) (row : List (Ext K)) : List K :=
  meanVec t (mates (residTree c t m d rs) (d.featureRows.zip rs) row)

theorem resid_wf {d : DataSet (Ext K)} {c t : Nat} (h : d.WF c t) {ls ps : List (List K)} (hls : d.labels = lift ls)
    (hlen : ps.length = d.labels.length) (hw : ∀ p ∈ ps, p.length = t) :
    ({ d with labels := lift (resid ls ps) } : DataSet (Ext K)).WF c t := by
  refine h.relabel ?_ ?_
  · rw [lift_length, resid_length, hls, lift_length]
    rw [hlen, hls, lift_length]
  · intro l hl
    obtain ⟨v, hv, rfl⟩ := mem_lift.mp hl
    rw [liftV_length]
    exact resid_width (lift_width hls h.label_len) hw v hv

theorem regression_step_exact {d : DataSet (Ext K)} {c t : Nat} (h : d.WF c t) {ls : List (List K)} (hls : d.labels = lift ls)
    {cfg : TreeConfig} (hc : cfg.numberOfClasses = t) {guess : List (Ext K)} (hg : guess.length = t) {lr : K}
    {s s' : TrainingData (Ext K) × List (TreeNode (Ext K) (GradBoostLeaf (Ext K)))} {ps : List (List K)}
    (hs : Finite gradOut d guess lr t s ps)
    (hb : boostStep regressionResiduals (fun d => gradBoostTreeNew d cfg .regression)
      (fun t tree => updateDatasetLabels t tree (.fin lr)) s = .ok s') :
    Finite gradOut d guess lr t s' (updated lr (residOut c t cfg.maxLevels d (resid ls ps)) ps d.featureRows) ∧
      s'.2 = s.2 ++ [residTree c t cfg.maxLevels d (resid ls ps)] := by
  have hu := grad_updateAdds (Ext.fin lr) guess.length
  have hwf := resid_wf h hls hs.len hs.width
  have hps_rows : ps.length = d.featureRows.length := by rw [hs.len, h.label_count]
  have htr' := tracks_step hu hs.tracks hb
  obtain ⟨r, tree, t1, h1, h2, h3, rfl⟩ := boostStep_inv hb
  rw [regressionResiduals_ok h hg hs.tracks, hs.labels, hls, resid_lift] at h1
  have := Except.ok.inj h1
  subst this
  rw [hs.tracks.data] at h2
  rw [gradBoostTreeNew_ok hwf hc] at h2
  have := Except.ok.inj h2
  subst this
  refine ⟨⟨htr', ?_, ?_, ?_⟩, rfl⟩
  · rw [hg] at hu
    have := update_exact (o := residOut c t cfg.maxLevels d (resid ls ps)) hu hs.labels (by rw [hs.len, hs.tracks.size]) hs.width (by rw [hs.tracks.data, hs.tracks.size, h.label_count])
      (fun row hrow => gradOut_regression_exact cfg.maxLevels hwf (ls := resid ls ps) rfl (by
        rw [hs.tracks.data] at hrow
        exact (h.row_len row hrow).ge)) h3
    rw [hs.tracks.data] at this
    exact this
  · rw [updated_length hps_rows, hs.len]
  · exact updated_width hs.width (fun row _ => meanVec_length _ _)

/-- residuals after the update -/
theorem resid_updated {rows : List (List (Ext K))} {t : Nat} {ls ps : List (List K)} {lr : K} {o : List (Ext K) → List K}
    (hl : ∀ l ∈ ls, l.length = t) (hp : ∀ p ∈ ps, p.length = t) (ho : ∀ row ∈ rows, (o row).length = t)
    (h1 : ps.length = ls.length) (h2 : ps.length = rows.length) :
    resid ls (updated lr o ps rows) =
      (rows.zip (resid ls ps)).map (fun e => (List.range t).map (fun j => e.2.getD j 0 - lr * (o e.1).getD j 0)) := by
  apply List.ext_getElem
  · simp [resid, updated]; omega
  intro i h3 h4
  simp only [resid, updated, List.length_zipWith] at h3
  have a1 : i < ls.length := by omega
  have a2 : i < ps.length := by omega
  have a3 : i < rows.length := by omega
  have b1 := hl _ (List.getElem_mem a1)
  have b2 := hp _ (List.getElem_mem a2)
  have b3 := ho _ (List.getElem_mem a3)
  simp only [resid, updated, List.getElem_zipWith, List.getElem_map, List.getElem_zip]
  rw [zipWith_getD b2 (by rw [List.length_map, b3]) 0 0, zipWith_getD b1 (by simp) 0 0, zipWith_getD b1 b2 0 0]
  apply List.map_congr_left
  intro j hj
  rw [List.mem_range] at hj
  have c3 : j < (o rows[i]).length := by omega
  simp only [getD_range hj]
  have : ((o rows[i]).map (fun x => lr * x)).getD j 0 = lr * (o rows[i]).getD j 0 := by simp [c3]
  rw [this]; ring

/-- sum of the squared residuals -/
def sse (t : Nat) (rs : List (List K)) : K := (rs.map (fun r => ((List.range t).map (fun j => (r.getD j 0) ^ 2)).sum)).sum

theorem mseOf_resid {t : Nat} {ls ps : List (List K)} (hl : ∀ l ∈ ls, l.length = t) (hp : ∀ p ∈ ps, p.length = t)
    : mseOf ls ps = sse t (resid ls ps) / t / ls.length := by
  rw [mseOf, sse]
  congr 1
  rw [div_eq_mul_inv, ← List.sum_map_mul_right]
  congr 1
  apply List.ext_getElem
  · simp [resid]
  intro i h1 h2
  simp at h1
  have b1 := hl _ (List.getElem_mem h1.1)
  have b2 := hp _ (List.getElem_mem h1.2)
  simp only [List.getElem_zipWith, List.getElem_map, resid]
  rw [sqErr_eq b1 b2, div_eq_mul_inv]
  congr 2
  apply List.map_congr_left
  intro j hj
  rw [List.mem_range] at hj
  rw [zipWith_getD b1 b2 0 0, getD_range hj]

/-- one regression step does not increase the squared error -/
theorem sse_step {rows : List (List (Ext K))} {t : Nat} {rs : List (List K)} {lr : K} (h0 : 0 ≤ lr) (h2 : lr ≤ 2)
    (tree : TreeNode (Ext K) L) (hlen : rows.length = rs.length) :
    sse t ((rows.zip rs).map (fun e => (List.range t).map (fun j =>
      e.2.getD j 0 - lr * (meanVec t (mates tree (rows.zip rs) e.1)).getD j 0))) ≤ sse t rs := by
  have hr : sse t rs = ((rows.zip rs).map (fun e => ((List.range t).map (fun j => (e.2.getD j 0) ^ 2)).sum)).sum := by
    rw [sse]
    conv_lhs => rw [← List.map_snd_zip (l₁ := rows) (l₂ := rs) (by omega)]
    rw [List.map_map]; rfl
  rw [hr, sse, List.map_map]
  simp only [Function.comp_def]
  rw [sum_range_swap, sum_range_swap]
  apply List.sum_le_sum
  intro j hj
  rw [List.mem_range] at hj
  simp only [getD_range hj, meanVec, mates]
  refine group_le (fun e : List (Ext K) × List K => tree.route e.1)
    (fun e s => (e.2.getD j 0 - lr * meanOf (target (s.map Prod.snd) j)) ^ 2) (fun e _ => (e.2.getD j 0) ^ 2) _ _ le_rfl ?_
  intro s hs _ _
  set xs := target (s.map Prod.snd) j with hxs
  have hsum : ∀ f : K → K, (s.map (fun e => f (e.2.getD j 0))).sum = (xs.map f).sum := by
    intro f
    rw [hxs, target, List.map_map, List.map_map]; rfl
  have hn : (0 : K) < xs.length := by
    rw [hxs, target_length, List.length_map]; exact_mod_cast List.length_pos_of_ne_nil hs
  have e1 := hsum (fun x => (x - lr * meanOf xs) ^ 2)
  have e2 := hsum (fun x => x ^ 2)
  rw [e1, e2]
  have := sqDev_eq (lr * meanOf xs) xs
  rw [sqDev] at this
  rw [this, meanOf]
  have hid : 2 * (lr * (xs.sum / xs.length)) * xs.sum - xs.length * (lr * (xs.sum / xs.length)) ^ 2 =
      lr * (2 - lr) * (xs.sum ^ 2 / xs.length) := by field_simp
  have : 0 ≤ lr * (2 - lr) * (xs.sum ^ 2 / xs.length) := by
    apply mul_nonneg (mul_nonneg h0 (by linarith)) (by positivity)
  linarith

/-- one regression step scales the summed residuals -/
theorem sum_step {rows : List (List (Ext K))} {t j : Nat} (hj : j < t) {rs : List (List K)} {lr : K}
    (tree : TreeNode (Ext K) L) (hlen : rows.length = rs.length) :
    (target ((rows.zip rs).map (fun e => (List.range t).map (fun j =>
      e.2.getD j 0 - lr * (meanVec t (mates tree (rows.zip rs) e.1)).getD j 0))) j).sum = (1 - lr) * (target rs j).sum := by
  have hr : (target rs j).sum = ((rows.zip rs).map (fun e => e.2.getD j 0)).sum := by
    rw [target]
    conv_lhs => rw [← List.map_snd_zip (l₁ := rows) (l₂ := rs) (by omega)]
    rw [List.map_map]; rfl
  rw [hr, target, List.map_map, ← List.sum_map_mul_left]
  simp only [Function.comp_def, getD_range hj, meanVec, mates]
  refine group_eq (fun e : List (Ext K) × List K => tree.route e.1)
    (fun e s => e.2.getD j 0 - lr * meanOf (target (s.map Prod.snd) j)) (fun e _ => (1 - lr) * e.2.getD j 0) _ ?_
  intro s hs _ _
  have hn := length_cast_ne (K := K) hs
  have hm : meanOf (target (s.map Prod.snd) j) = (s.map (fun e => e.2.getD j 0)).sum / s.length := by
    rw [meanOf, target_length, List.length_map, target, List.map_map]; rfl
  simp only [hm]
  have : ∀ (l : List (List (Ext K) × List K)) (a : K), (l.map (fun e => e.2.getD j 0 - a)).sum =
      (l.map (fun e => e.2.getD j 0)).sum - l.length * a := by
    intro l a
    induction l with
    | nil => simp
    | cons x l ih => simp only [List.map_cons, List.sum_cons, ih, List.length_cons]; push_cast; ring
  rw [this, List.sum_map_mul_left]
  field_simp

end Verif
