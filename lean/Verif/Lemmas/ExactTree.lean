import Verif.Lemmas.ExactSplit
import Verif.Lemmas.Ensemble
import Verif.Num.ExtLaws
/-!
# Exact arithmetic: leaf means, sums over the groups a tree forms, scores
-/

set_option linter.unusedSectionVars false
set_option linter.unusedSimpArgs false

namespace Verif

/-! ## sums over groups -/

section groups
variable {K : Type} [Field K] [LinearOrder K] [IsStrictOrderedRing K]

theorem sum_range_swap {α : Type} (t : Nat) (f : α → Nat → K) (l : List α) :
    (l.map (fun a => ((List.range t).map (fun j => f a j)).sum)).sum =
      ((List.range t).map (fun j => (l.map (fun a => f a j)).sum)).sum := by
  induction l with
  | nil => simp
  | cons a l ih => simp only [List.map_cons, List.sum_cons, ih, List.sum_map_add]

/-- an inequality that holds within every group of elements with equal key holds for the whole list -/
theorem group_le {α κ : Type} [DecidableEq κ] (key : α → κ) (f g : α → List α → K) : ∀ (n : Nat) (l : List α), l.length ≤ n →
    (∀ c : List α, c ≠ [] → c.Sublist l → (∀ a ∈ c, ∀ b ∈ c, key a = key b) → (c.map (fun a => f a c)).sum ≤ (c.map (fun a => g a c)).sum) →
    (l.map (fun a => f a (l.filter (fun b => decide (key b = key a))))).sum ≤
      (l.map (fun a => g a (l.filter (fun b => decide (key b = key a))))).sum := by
  intro n
  induction n with
  | zero =>
    intro l hl _
    have : l = [] := List.length_eq_zero_iff.mp (by omega)
    subst this; simp
  | succ n ih =>
    intro l hl H
    cases l with
    | nil => simp
    | cons a0 l' =>
      set l := a0 :: l' with hldef
      set C := l.filter (fun b => decide (key b = key a0)) with hC
      set D := l.filter (fun b => !decide (key b = key a0)) with hD
      have hperm : (C ++ D).Perm l := filter_append_not_perm _ _
      have hCne : C ≠ [] := by
        have : a0 ∈ C := by rw [hC, List.mem_filter]; simp [hldef]
        exact List.ne_nil_of_mem this
      have hCk : ∀ a ∈ C, key a = key a0 := fun a ha => by
        rw [hC, List.mem_filter] at ha; simpa using ha.2
      have hDk : ∀ a ∈ D, key a ≠ key a0 := fun a ha => by
        rw [hD, List.mem_filter] at ha; simpa using ha.2
      have hfC : ∀ a ∈ C, l.filter (fun b => decide (key b = key a)) = C := by
        intro a ha
        rw [hCk a ha]
      have hfD : ∀ a ∈ D, l.filter (fun b => decide (key b = key a)) = D.filter (fun b => decide (key b = key a)) := by
        intro a ha
        rw [hD, List.filter_filter]
        apply List.filter_congr
        intro b _
        by_cases hb : key b = key a
        · have := hDk a ha
          rw [← hb] at this
          simp [hb]
          rw [← hb]; exact this
        · simp [hb]
      have split : ∀ h : α → List α → K, (l.map (fun a => h a (l.filter (fun b => decide (key b = key a))))).sum =
          (C.map (fun a => h a C)).sum + (D.map (fun a => h a (D.filter (fun b => decide (key b = key a))))).sum := by
        intro h
        rw [← (hperm.map _).sum_eq, List.map_append, List.sum_append]
        congr 2
        · exact List.map_congr_left (fun a ha => by rw [hfC a ha])
        · exact List.map_congr_left (fun a ha => by rw [hfD a ha])
      rw [split f, split g]
      apply add_le_add
      · exact H C hCne List.filter_sublist (fun a ha b hb => by rw [hCk a ha, hCk b hb])
      · apply ih
        · have h1 := hperm.length_eq
          rw [List.length_append] at h1
          have := List.length_pos_of_ne_nil hCne
          omega
        · intro c hc hs hk
          exact H c hc (hs.trans List.filter_sublist) hk

theorem group_eq {α κ : Type} [DecidableEq κ] (key : α → κ) (f g : α → List α → K) (l : List α)
    (H : ∀ c : List α, c ≠ [] → c.Sublist l → (∀ a ∈ c, ∀ b ∈ c, key a = key b) → (c.map (fun a => f a c)).sum = (c.map (fun a => g a c)).sum) :
    (l.map (fun a => f a (l.filter (fun b => decide (key b = key a))))).sum =
      (l.map (fun a => g a (l.filter (fun b => decide (key b = key a))))).sum :=
  le_antisymm (group_le key f g _ l le_rfl (fun c h1 h2 h3 => (H c h1 h2 h3).le))
    (group_le key g f _ l le_rfl (fun c h1 h2 h3 => (H c h1 h2 h3).ge))

/-- the labels of the elements of a group -/
theorem group_fun_snd {α β : Type} (l : List (α × β)) (f : β → List β → K) :
    (l.map (fun e => f e.2 (l.map Prod.snd))).sum = ((l.map Prod.snd).map (fun b => f b (l.map Prod.snd))).sum := by
  rw [List.map_map]; rfl

end groups

section ordered
variable {K : Type} [Field K] [LinearOrder K] [IsStrictOrderedRing K] [FloorSemiring K] [HasExp K]

/-! ## vectors -/

theorem zipWith_getD {α β γ : Type} {t : Nat} {f : α → β → γ} {v : List α} {w : List β} (hv : v.length = t) (hw : w.length = t)
    (d : α) (d' : β) : List.zipWith f v w = (List.range t).map (fun j => f (v.getD j d) (w.getD j d')) := by
  apply List.ext_getElem (by simp [hv, hw])
  intro i h1 h2
  simp at h1
  simp [h1.1, h1.2]

theorem eq_range_getD {α : Type} {t : Nat} {v : List α} (hv : v.length = t) (d : α) : v = (List.range t).map (fun j => v.getD j d) := by
  apply List.ext_getElem (by simp [hv])
  intro i h1 h2
  simp [h1]

theorem getD_range {α : Type} {t j : Nat} (hj : j < t) (f : Nat → α) (d : α) : ((List.range t).map f).getD j d = f j := by
  simp [List.getD, hj]

theorem liftV_zip_add {v w : List K} : List.zipWith F64.add (liftV v) (liftV w) = liftV (List.zipWith (· + ·) v w) := by
  simp only [liftV, List.zipWith_map, List.map_zipWith]
  rfl

theorem liftV_zip_sub {v w : List K} : List.zipWith F64.sub (liftV v) (liftV w) = liftV (List.zipWith (· - ·) v w) := by
  simp only [liftV, List.zipWith_map, List.map_zipWith]
  congr 1
  funext a b
  exact Ext.fin_sub a b

theorem liftV_map_mul {x : K} {v : List K} : (liftV v).map (fun y => Ext.fin x *. y) = liftV (v.map (fun y => x * y)) := by
  simp only [liftV, List.map_map]
  rfl

theorem vecSum_exact {t : Nat} {vs : List (List K)} (hv : ∀ v ∈ vs, v.length = t) : vecSum t (lift vs) = liftV (sumsOf t vs) := by
  induction vs using List.reverseRecOn with
  | nil =>
    simp only [vecSum, lift, List.map_nil, List.foldl_nil, sumsOf, target, List.sum_nil, liftV_range, Ext.zero_def,
      List.map_const', List.length_range]
    simp [liftV]
  | append_singleton ws w ih =>
    have h1 := ih (fun v hv' => hv v (by simp [hv']))
    simp only [vecSum, lift] at h1 ⊢
    rw [List.map_append, List.foldl_append, h1]
    simp only [List.map_cons, List.map_nil, List.foldl_cons, List.foldl_nil]
    exact sums_add (hv w (by simp))

theorem length_cast_ne {α : Type} {vs : List α} (hne : vs ≠ []) : (vs.length : K) ≠ 0 := by
  have := List.length_pos_of_ne_nil hne
  exact_mod_cast this.ne'

theorem avgVec_exact {t : Nat} {vs : List (List K)} (hv : ∀ v ∈ vs, v.length = t) (hne : vs ≠ []) :
    avgVec t (lift vs) = liftV (meanVec t vs) := by
  have hn := length_cast_ne (K := K) hne
  rw [avgVec, vecSum_exact hv, lift_length, Ext.ofNat_def, map_div_liftV hn, meanVec, sumsOf, List.map_map]
  congr 1
  apply List.map_congr_left
  intro j _
  simp [meanOf, target_length]

theorem meanVec_length (t : Nat) (vs : List (List K)) : (meanVec t vs).length = t := by simp [meanVec]

theorem lift_width {labels : List (List (Ext K))} {ls : List (List K)} (hls : labels = lift ls) {t : Nat}
    (h : ∀ l ∈ labels, l.length = t) : ∀ l ∈ ls, l.length = t := by
  intro l hl
  rw [← liftV_length]
  exact h _ (by rw [hls, mem_lift]; exact ⟨l, hl, rfl⟩)

/-! ## mean squared errors -/

theorem sqErr_eq {t : Nat} {p a : List K} (hp : p.length = t) (ha : a.length = t) :
    sqErr p a = ((List.range t).map (fun j => (p.getD j 0 - a.getD j 0) ^ 2)).sum / t := by
  rw [sqErr, zipWith_getD hp ha 0 0, hp]

theorem sqErr_nonneg (p a : List K) : 0 ≤ sqErr p a := by
  refine div_nonneg (List.sum_nonneg ?_) (Nat.cast_nonneg _)
  intro x hx
  obtain ⟨i, hi, rfl⟩ := List.getElem_of_mem hx
  rw [List.getElem_zipWith]; positivity

theorem sqErr_eq_zero {t : Nat} (ht : 0 < t) {p a : List K} (hp : p.length = t) (ha : a.length = t) : sqErr p a = 0 ↔ p = a := by
  constructor
  · intro h
    rw [sqErr, div_eq_zero_iff, or_iff_left (by rw [hp]; exact_mod_cast ht.ne')] at h
    have h0 : ∀ {x : K}, x ∈ List.zipWith (fun x y => (x - y) ^ 2) p a → x = 0 := List.all_zero_of_le_zero_le_of_sum_eq_zero (by
      intro x hx
      obtain ⟨i, hi, rfl⟩ := List.getElem_of_mem hx
      rw [List.getElem_zipWith]; positivity) h
    apply List.ext_getElem (by rw [hp, ha])
    intro i h1 h2
    have h3 := h0 (List.getElem_mem (l := List.zipWith (fun x y => (x - y) ^ 2) p a) (n := i) (by simp; omega))
    rw [List.getElem_zipWith] at h3
    exact sub_eq_zero.mp (pow_eq_zero_iff two_ne_zero |>.mp h3)
  · rintro rfl
    rw [sqErr_eq hp hp]
    simp

theorem mseOf_nonneg (ps as : List (List K)) : 0 ≤ mseOf ps as := by
  refine div_nonneg (List.sum_nonneg ?_) (Nat.cast_nonneg _)
  intro x hx
  obtain ⟨i, hi, rfl⟩ := List.getElem_of_mem hx
  rw [List.getElem_zipWith]; exact sqErr_nonneg _ _

theorem mseOf_eq_zero {t : Nat} (ht : 0 < t) {ps as : List (List K)} (hp : ∀ p ∈ ps, p.length = t) (ha : ∀ a ∈ as, a.length = t)
    (hlen : ps.length = as.length) (hne : ps ≠ []) : mseOf ps as = 0 ↔ ps = as := by
  constructor
  · intro h
    rw [mseOf, div_eq_zero_iff, or_iff_left (length_cast_ne hne)] at h
    have h0 : ∀ {x : K}, x ∈ List.zipWith sqErr ps as → x = 0 := List.all_zero_of_le_zero_le_of_sum_eq_zero (by
      intro x hx
      obtain ⟨i, hi, rfl⟩ := List.getElem_of_mem hx
      rw [List.getElem_zipWith]; exact sqErr_nonneg _ _) h
    apply List.ext_getElem hlen
    intro i h1 h2
    have h3 := h0 (List.getElem_mem (l := List.zipWith sqErr ps as) (n := i) (by simp; omega))
    rw [List.getElem_zipWith] at h3
    exact (sqErr_eq_zero ht (hp _ (List.getElem_mem _)) (ha _ (List.getElem_mem _))).mp h3
  · rintro rfl
    rw [mseOf, List.sum_eq_zero, zero_div]
    intro x hx
    obtain ⟨i, hi, rfl⟩ := List.getElem_of_mem hx
    rw [List.getElem_zipWith]
    exact (sqErr_eq_zero ht (hp _ (List.getElem_mem _)) (hp _ (List.getElem_mem _))).mpr rfl

theorem meanSumOfSquaredDifferences_exact {t : Nat} (ht : 0 < t) {p a : List K} (hp : p.length = t) (ha : a.length = t) :
    meanSumOfSquaredDifferences (liftV p) (liftV a) = .ok (.fin (sqErr p a)) := by
  have hne : (t : K) ≠ 0 := by exact_mod_cast ht.ne'
  have hz : List.zipWith (fun x y => square (x -. y)) (liftV p) (liftV a) = liftV (List.zipWith (fun x y => (x - y) ^ 2) p a) := by
    simp only [liftV, List.zipWith_map, List.map_zipWith]
    congr 1
    funext x y
    simp [square, pow_two]
  simp only [meanSumOfSquaredDifferences, liftV_length, hp, ha, assertEq, if_true, R.ok_bind, R.pure_eq, hz, fsum_liftV,
    Ext.ofNat_def, Ext.fin_div _ _ hne, sqErr]

theorem meanSumOfSquaredDifferencesVectors_exact {t : Nat} (ht : 0 < t) {p a : List K} (hp : p.length = t) (ha : a.length = t) :
    meanSumOfSquaredDifferencesVectors (liftV p) (liftV a) = .ok (.fin (sqErr p a)) := by
  have hne : (t : K) ≠ 0 := by exact_mod_cast ht.ne'
  obtain ⟨s, h1, h2⟩ := forRange_ok (n := t) (s := (F64.zero : Ext K))
    (body := fun i (s : Ext K) => do
      let error := (← idx (liftV p) i) -. (← idx (liftV a) i)
      pure (s +. square error))
    (P := fun k s => s = .fin ((List.range k).map (fun j => (p.getD j 0 - a.getD j 0) ^ 2)).sum) (by simp) (by
      intro i s hi hs
      have e1 : i < (liftV p).length := by rw [liftV_length, hp]; exact hi
      have e2 : i < (liftV a).length := by rw [liftV_length, ha]; exact hi
      refine ⟨_, by rw [idx_lt e1, R.ok_bind, idx_lt e2, R.ok_bind]; rfl, ?_⟩
      have e3 : i < p.length := by omega
      have e4 : i < a.length := by omega
      rw [hs]
      simp [liftV, square, List.range_succ, e3, e4, pow_two])
  rw [meanSumOfSquaredDifferencesVectors, liftV_length, hp, h1, R.ok_bind, h2, R.pure_eq, Ext.ofNat_def, Ext.fin_div _ _ hne,
    sqErr_eq hp ha]

/-- summing the errors of the rows in a loop -/
theorem error_loop {n : Nat} {body : Nat → Ext K → R (Ext K)} {e : Nat → K}
    (h : ∀ i < n, ∀ s, body i s = .ok (s +. .fin (e i))) :
    forRange n body F64.zero = .ok (.fin ((List.range n).map e).sum) := by
  obtain ⟨s, h1, h2⟩ := forRange_ok (n := n) (s := (F64.zero : Ext K)) (body := body)
    (P := fun k s => s = .fin ((List.range k).map e).sum) (by simp) (by
      intro i s hi hs
      refine ⟨_, h i hi s, ?_⟩
      rw [hs]; simp [List.range_succ])
  rw [h1, h2]

theorem mseOf_range {n : Nat} {ps as : List (List K)} (hp : ps.length = n) (ha : as.length = n) :
    mseOf ps as = ((List.range n).map (fun i => sqErr (ps.getD i []) (as.getD i []))).sum / n := by
  rw [mseOf, zipWith_getD hp ha [] [], hp]

theorem calculateMeanSquaredError_exact {t : Nat} (ht : 0 < t) {ls ps : List (List K)} (hl : ∀ l ∈ ls, l.length = t)
    (hp : ∀ p ∈ ps, p.length = t) (hlen : ps.length = ls.length) (hne : ls ≠ []) :
    calculateMeanSquaredError (lift ls) (lift ps) = .ok (.fin (mseOf ls ps)) := by
  have hn := length_cast_ne (K := K) hne
  have := error_loop (n := ls.length) (e := fun i => sqErr (ls.getD i []) (ps.getD i []))
    (body := fun i (total : Ext K) => do
      let e ← meanSumOfSquaredDifferences (← idx (lift ls) i) (← idx (lift ps) i)
      pure (total +. e)) (by
    intro i hi s
    have e1 : i < (lift ls).length := by rw [lift_length]; exact hi
    have e2 : i < (lift ps).length := by rw [lift_length]; omega
    have e3 : i < ps.length := by omega
    rw [idx_lt e1, R.ok_bind, idx_lt e2, R.ok_bind]
    simp only [lift, List.getElem_map]
    rw [meanSumOfSquaredDifferences_exact ht (hl _ (List.getElem_mem _)) (hp _ (List.getElem_mem _))]
    simp [hi, e3])
  rw [calculateMeanSquaredError, lift_length, this, R.ok_bind, R.pure_eq, Ext.ofNat_def, Ext.fin_div _ _ hn, mseOf_range rfl hlen]

/-! ## groups of a tree -/

theorem examples_lift {d : DataSet (Ext K)} {ls : List (List K)} (hls : d.labels = lift ls) :
    d.examples = (d.featureRows.zip ls).map (fun e => (e.1, liftV e.2)) := by
  rw [DataSet.examples, hls, lift, List.zip_map_right]
  rfl

theorem labels_of_examples {d : DataSet (Ext K)} {c t : Nat} (h : d.WF c t) : d.labels = d.examples.map Prod.snd := by
  rw [DataSet.examples, List.map_snd_zip (by rw [h.label_count])]

theorem mates_ok {L : Type} {tree : TreeNode (Ext K) L} {d dd : DataSet (Ext K)} {c t : Nat} {ls : List (List K)}
    (hls : d.labels = lift ls) (hw : dd.WF c t) {row : List (Ext K)}
    (he : dd.examples = d.examples.filter (fun e => decide (tree.route e.1 = tree.route row))) :
    dd.labels = lift (mates tree (d.featureRows.zip ls) row) ∧ mates tree (d.featureRows.zip ls) row ≠ [] ∧
      ∀ v ∈ mates tree (d.featureRows.zip ls) row, v.length = t := by
  have h1 : dd.labels = lift (mates tree (d.featureRows.zip ls) row) := by
    rw [labels_of_examples hw, he, examples_lift hls, List.filter_map, List.map_map, mates, lift, List.map_map]
    rfl
  refine ⟨h1, ?_, lift_width h1 hw.label_len⟩
  intro h0
  rw [h0] at h1
  exact hw.labels_ne h1

theorem gradOut_regression_exact {c t : Nat} (m : Nat) {d : DataSet (Ext K)} (h : d.WF c t) {ls : List (List K)} (hls : d.labels = lift ls)
    {row : List (Ext K)} (hrow : c ≤ row.length) :
    gradOut row (treeOf (gradLeaf .regression t) c t m d) =
      .ok (liftV (meanVec t (mates (treeOf (gradLeaf .regression t) c t m d) (d.featureRows.zip ls) row))) := by
  obtain ⟨dd, hw, ho, he⟩ := gradOut_ok .regression m h hrow
  obtain ⟨h1, h2, h3⟩ := mates_ok hls hw he
  rw [ho, h1]
  simp only [leafOut]
  rw [avgVec_exact h3 h2]

/-- the route in a shallower tree is the beginning of the route in a deeper one -/
theorem route_take {F L : Type} [F64 F] {leafOf : DataSet F → L} {c t : Nat} (row : List F) (k : Nat) : ∀ (m : Nat) (d : DataSet F),
    (treeOf leafOf c t m d).route row = ((treeOf leafOf c t (m + k) d).route row).take m := by
  intro m
  induction m with
  | zero => intro d; rw [treeOf, TreeNode.route_leafNode, List.take_zero]
  | succ m ih =>
    intro d
    rw [show m + 1 + k = (m + k) + 1 by omega]
    cases hg : ((splitOf d t).gain ==. F64.zero) with
    | true => rw [treeOf_leaf hg, treeOf_leaf hg]; rfl
    | false =>
      rw [treeOf_node hg, treeOf_node hg, TreeNode.route_new, TreeNode.route_new]
      split
      · rw [List.take_succ_cons, ih]
      · rw [List.take_succ_cons, ih]

/-- a finer grouping has smaller deviations from the group means -/
theorem finer_le {t : Nat} {α κ κ' : Type} [DecidableEq κ] [DecidableEq κ'] (key : α → κ) (key' : α → κ') (hk : ∀ a b, key' a = key' b → key a = key b)
    (l : List (α × List K)) :
    (l.map (fun e => ((List.range t).map (fun j =>
      ((meanVec t ((l.filter (fun b => decide (key' b.1 = key' e.1))).map Prod.snd)).getD j 0 - e.2.getD j 0) ^ 2)).sum)).sum ≤
    (l.map (fun e => ((List.range t).map (fun j =>
      ((meanVec t ((l.filter (fun b => decide (key b.1 = key e.1))).map Prod.snd)).getD j 0 - e.2.getD j 0) ^ 2)).sum)).sum := by
  rw [sum_range_swap, sum_range_swap]
  apply List.sum_le_sum
  intro j hj
  rw [List.mem_range] at hj
  simp only [meanVec, getD_range hj]
  -- within a coarse group
  have inner : ∀ (c : List (α × List K)) (a : K), (c.map (fun e => (meanOf (target ((c.filter (fun b => decide (key' b.1 = key' e.1))).map Prod.snd) j) - e.2.getD j 0) ^ 2)).sum
      ≤ (c.map (fun e => (a - e.2.getD j 0) ^ 2)).sum := by
    intro c a
    refine group_le (fun e : α × List K => key' e.1) (fun e s => (meanOf (target (s.map Prod.snd) j) - e.2.getD j 0) ^ 2)
      (fun e _ => (a - e.2.getD j 0) ^ 2) _ c le_rfl ?_
    intro s _ _ _
    have := sqDev_mean_le a (target (s.map Prod.snd) j)
    simp only [sqDev, target, List.map_map, Function.comp_def] at this ⊢
    calc _ = _ := by
          congr 1; apply List.map_congr_left; intro e _; ring
      _ ≤ _ := this
      _ = _ := by
          congr 1; apply List.map_congr_left; intro e _; ring
  have key2 := group_le (fun e : α × List K => key e.1)
    (fun e s => (meanOf (target ((s.filter (fun b => decide (key' b.1 = key' e.1))).map Prod.snd) j) - e.2.getD j 0) ^ 2)
    (fun e s => (meanOf (target (s.map Prod.snd) j) - e.2.getD j 0) ^ 2) _ l le_rfl (fun s _ _ _ => inner s _)
  refine le_of_eq_of_le ?_ key2
  congr 1
  apply List.map_congr_left
  intro e _
  rw [List.filter_filter]
  congr 5
  apply List.filter_congr
  intro b _
  by_cases hb : key' b.1 = key' e.1
  · simp [hb, hk _ _ hb]
  · simp [hb]

end ordered

end Verif
