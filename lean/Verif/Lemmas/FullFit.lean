import Verif.Lemmas.ExactCut
import Verif.Spec.Fit
import Verif.Lemmas.ExactTree
import Mathlib.Tactic.LinearCombination
/-! # Trees grown until nothing is left to explain -/

set_option linter.unusedSectionVars false

namespace Verif

section depth
variable {F : Type} [F64 F] [LawfulOrder F] {L : Type}

theorem filter_pos_of_row {d : DataSet F} {c t : Nat} (h : d.WF c t) {p : List F → Bool} (hne : ∃ row ∈ d.featureRows, p row = true) :
    0 < (d.examples.filter (fun e => p e.1)).length := by
  rw [← restrict_examples (c := c)]
  exact wf_examples_pos (restrict_wf h hne)

theorem filter_length_add {α : Type} (p : α → Bool) (l : List α) :
    (l.filter p).length + (l.filter (fun a => !p a)).length = l.length := by
  rw [← List.length_append, (filter_append_not_perm p l).length_eq]

/-- every question leaves at least one example to the other side -/
theorem treeOf_depth {leafOf : DataSet F → L} {c t : Nat} (m : Nat) (d : DataSet F) (h : d.WF c t) :
    ∀ p l, (treeOf leafOf c t m d).leafAt p = some l →
      p.length + (d.examples.filter (fun e => decide ((treeOf leafOf c t m d).route e.1 = p))).length ≤ d.examples.length := by
  refine treeOf_induct (motive := fun m d => ∀ p l, (treeOf leafOf c t m d).leafAt p = some l →
      p.length + (d.examples.filter (fun e => decide ((treeOf leafOf c t m d).route e.1 = p))).length ≤ d.examples.length) ?_ ?_ ?_ m d h
  · intro d hw p l hp
    rw [treeOf] at hp
    rw [(TreeNode.leafAt_leafNode hp).1, List.length_nil, Nat.zero_add]
    exact List.length_filter_le _ _
  · intro m d hw hg p l hp
    rw [treeOf_leaf hg] at hp
    rw [(TreeNode.leafAt_leafNode hp).1, List.length_nil, Nat.zero_add]
    exact List.length_filter_le _ _
  · intro m d hw hg h1 h2 p l hp
    obtain ⟨_, _, _, hy, hn⟩ := splitOf_separates hw hg
    have hsum := filter_length_add (fun e => satisfies (splitOf d t).question e.1) d.examples
    have py := filter_pos_of_row hw hy
    have pn := filter_pos_of_row hw (p := fun r => !satisfies (splitOf d t).question r) (by simpa using hn)
    rw [treeOf_node hg] at hp ⊢
    match p with
    | [] => simp [TreeNode.new, TreeNode.leafAt] at hp
    | true :: p =>
      have := h1 p l hp
      rw [restrict_examples, List.filter_filter] at this
      have he : (d.examples.filter (fun e => decide ((TreeNode.new (splitOf d t).question
          (treeOf leafOf c t m (d.restrict c (satisfies (splitOf d t).question)))
          (treeOf leafOf c t m (d.restrict c (fun r => !satisfies (splitOf d t).question r)))).route e.1 = true :: p))) =
          d.examples.filter (fun e => decide ((treeOf leafOf c t m (d.restrict c (satisfies (splitOf d t).question))).route e.1 = p) &&
            satisfies (splitOf d t).question e.1) := by
        apply List.filter_congr
        intro e _
        rw [TreeNode.route_new]
        cases satisfies (splitOf d t).question e.1 <;> simp
      rw [he, List.length_cons]
      omega
    | false :: p =>
      have := h2 p l hp
      rw [restrict_examples, List.filter_filter] at this
      have he : (d.examples.filter (fun e => decide ((TreeNode.new (splitOf d t).question
          (treeOf leafOf c t m (d.restrict c (satisfies (splitOf d t).question)))
          (treeOf leafOf c t m (d.restrict c (fun r => !satisfies (splitOf d t).question r)))).route e.1 = false :: p))) =
          d.examples.filter (fun e => decide ((treeOf leafOf c t m (d.restrict c (fun r => !satisfies (splitOf d t).question r))).route e.1 = p) &&
            !satisfies (splitOf d t).question e.1) := by
        apply List.filter_congr
        intro e _
        rw [TreeNode.route_new]
        cases satisfies (splitOf d t).question e.1 <;> simp
      rw [he, List.length_cons]
      omega

end depth

section algebra
variable {K : Type} [Field K] [LinearOrder K] [IsStrictOrderedRing K] [FloorSemiring K] [HasExp K]

theorem sqDev_shift (a : K) (xs : List K) : sqDev a xs = sqDev (meanOf xs) xs + xs.length * (a - meanOf xs) ^ 2 := by
  rcases eq_or_ne xs [] with rfl | h
  · simp [sqDev]
  · have h0 : (xs.length : K) ≠ 0 := length_cast_ne h
    rw [sqDev_eq, sqDev_eq, meanOf]
    field_simp
    ring

/-- if cutting gains nothing, the two sides have the same means -/
theorem mean_of_no_gain {t : Nat} {a b : List (List K)} (ha : a ≠ []) (hb : b ≠ []) (h : totalVar t (a ++ b) ≤ splitVar t a b) :
    ∀ j < t, meanOf (target a j) = meanOf (target (a ++ b) j) := by
  have ha0 : (0 : K) < a.length := by exact_mod_cast List.length_pos_of_ne_nil ha
  have hb0 : (0 : K) < b.length := by exact_mod_cast List.length_pos_of_ne_nil hb
  rw [splitVar, le_div_iff₀ (by linarith)] at h
  simp only [totalVar] at h
  rw [← List.sum_map_mul_right, ← List.sum_map_mul_left, ← List.sum_map_mul_left, ← List.sum_map_add] at h
  have hterm : ∀ j, varOf (target (a ++ b) j) * (a.length + b.length) =
      (a.length * varOf (target a j) + b.length * varOf (target b j)) +
        (a.length * (meanOf (target (a ++ b) j) - meanOf (target a j)) ^ 2 +
          b.length * (meanOf (target (a ++ b) j) - meanOf (target b j)) ^ 2) := by
    intro j
    have e1 := length_mul_varOf (target (a ++ b) j)
    have e2 := length_mul_varOf (target a j)
    have e3 := length_mul_varOf (target b j)
    have e4 : target (a ++ b) j = target a j ++ target b j := by simp [target]
    have e5 : sqDev (meanOf (target (a ++ b) j)) (target (a ++ b) j) =
      sqDev (meanOf (target (a ++ b) j)) (target a j) + sqDev (meanOf (target (a ++ b) j)) (target b j) := by
      conv_lhs => rw [e4, ← e4]
      rw [← sqDev_append, ← e4]
    rw [e5, sqDev_shift _ (target a j), sqDev_shift _ (target b j), ← e2, ← e3] at e1
    simp only [target_length, List.length_append, Nat.cast_add] at e1
    linear_combination e1
  simp only [hterm] at h
  rw [List.sum_map_add] at h
  have hz : ((List.range t).map (fun j => a.length * (meanOf (target (a ++ b) j) - meanOf (target a j)) ^ 2 +
          b.length * (meanOf (target (a ++ b) j) - meanOf (target b j)) ^ 2)).sum ≤ 0 := by linarith
  intro j hj
  have hnn : ∀ x ∈ (List.range t).map (fun j => (a.length : K) * (meanOf (target (a ++ b) j) - meanOf (target a j)) ^ 2 +
          b.length * (meanOf (target (a ++ b) j) - meanOf (target b j)) ^ 2), 0 ≤ x := by
    intro x hx
    obtain ⟨i, _, rfl⟩ := List.mem_map.mp hx
    positivity
  have h1 := List.single_le_sum hnn _ (List.mem_map.mpr ⟨j, List.mem_range.mpr hj, rfl⟩)
  have h2 : (a.length : K) * (meanOf (target (a ++ b) j) - meanOf (target a j)) ^ 2 ≤ 0 := by
    have : 0 ≤ (b.length : K) * (meanOf (target (a ++ b) j) - meanOf (target b j)) ^ 2 := by positivity
    linarith
  have h3 : (meanOf (target (a ++ b) j) - meanOf (target a j)) ^ 2 ≤ 0 := by
    by_contra hc
    rw [_root_.not_le] at hc
    have := mul_pos ha0 hc
    linarith
  have h4 := pow_eq_zero_iff (two_ne_zero) |>.mp (le_antisymm h3 (sq_nonneg _))
  linarith

/-- if all prefixes have the mean of the whole list, the list is constant -/
theorem const_of_prefix_means {xs : List K} (h : ∀ i, 0 < i → i < xs.length → meanOf (xs.take i) = meanOf xs) : ∀ x ∈ xs, x = meanOf xs := by
  have hs : ∀ i ≤ xs.length, (xs.take i).sum = i * meanOf xs := by
    intro i hi
    rcases Nat.eq_zero_or_pos i with rfl | h0
    · simp
    · rcases Nat.lt_or_eq_of_le hi with hlt | rfl
      · rw [← h i h0 hlt, meanOf, List.length_take, min_eq_left hi]
        have : (i : K) ≠ 0 := by exact_mod_cast h0.ne'
        field_simp
      · rw [List.take_length, meanOf]
        have : (xs.length : K) ≠ 0 := by exact_mod_cast h0.ne'
        field_simp
  intro x hx
  obtain ⟨i, hi, rfl⟩ := List.getElem_of_mem hx
  have h1 := hs i hi.le
  have h2 := hs (i + 1) hi
  rw [List.take_add_one, List.getElem?_eq_getElem hi] at h2
  simp only [Option.toList_some, List.sum_append, List.sum_cons, List.sum_nil, add_zero] at h2
  push_cast at h2
  linear_combination h2 - h1

end algebra

section exact
variable {K : Type} [Field K] [LinearOrder K] [IsStrictOrderedRing K] [FloorSemiring K] [HasExp K] {L : Type}

/-- the variance of a list in terms of its two parts -/
theorem totalVar_parts {t : Nat} (a b : List (List K)) (h : a ++ b ≠ [])
    (hm : ∀ k < t, meanOf (target a k) = meanOf (target (a ++ b) k) ∨ a = []) (hm' : ∀ k < t, meanOf (target b k) = meanOf (target (a ++ b) k) ∨ b = []) :
    splitVar t a b = totalVar t (a ++ b) := by
  have h0 : (0 : K) < a.length + b.length := by
    rw [← Nat.cast_add, ← List.length_append]
    exact_mod_cast List.length_pos_of_ne_nil h
  rw [splitVar, div_eq_iff h0.ne']
  simp only [totalVar]
  rw [← List.sum_map_mul_right, ← List.sum_map_mul_left, ← List.sum_map_mul_left, ← List.sum_map_add]
  congr 1
  apply List.map_congr_left
  intro j hj
  rw [List.mem_range] at hj
  have e1 := length_mul_varOf (target (a ++ b) j)
  have e2 := length_mul_varOf (target a j)
  have e3 := length_mul_varOf (target b j)
  have e4 : target (a ++ b) j = target a j ++ target b j := by simp [target]
  have e5 : sqDev (meanOf (target (a ++ b) j)) (target (a ++ b) j) =
    sqDev (meanOf (target (a ++ b) j)) (target a j) + sqDev (meanOf (target (a ++ b) j)) (target b j) := by
    conv_lhs => rw [e4, ← e4]
    rw [← sqDev_append, ← e4]
  rw [e5, sqDev_shift _ (target a j), sqDev_shift _ (target b j), ← e2, ← e3] at e1
  simp only [target_length, List.length_append, Nat.cast_add] at e1
  have z1 : (a.length : K) * (meanOf (target (a ++ b) j) - meanOf (target a j)) ^ 2 = 0 := by
    rcases hm j hj with h | h
    · rw [h]; ring
    · simp [h]
  have z2 : (b.length : K) * (meanOf (target (a ++ b) j) - meanOf (target b j)) ^ 2 = 0 := by
    rcases hm' j hj with h | h
    · rw [h]; ring
    · simp [h]
  linear_combination -e1 - z1 - z2

theorem sorted_labels {rows : List (List (Ext K))} {ls : List (List K)} (hlen : ls.length = rows.length) (j : Nat) :
    (labs (eseq ls (column rows j))).Perm ls := by
  have := column_map_sorted (rows := rows) (ls := ls) (j := j) (fun _ => true)
  simp only [List.filter_true] at this
  have e1 : labs (eseq ls (column rows j)) = (sorted (column rows j).zipIdx).map (fun p => ls.getD p.2 []) := by simp [labs, eseq]
  rw [e1]
  refine this.trans (List.Perm.of_eq ?_)
  rw [← hlen, ← eq_range_getD rfl]

theorem cut_between {rows : List (List (Ext K))} {j a b : Nat} (hn : ∀ x ∈ column rows j, isNaN x = false) (ha : IsCut rows j a)
    (hb : b < rows.length) (hab : comesBefore rows j b a = false) : IsCut rows j b := by
  obtain ⟨h1, x, hx, hlt⟩ := ha
  refine ⟨hb, x, hx, ?_⟩
  have nn : ∀ i < rows.length, NN ((column rows j).getD i F64.zero) := fun i hi =>
    by
      have hi' : i < (column rows j).length := by rwa [column_length]
      rw [List.getD, List.getElem?_eq_getElem hi']
      exact nn_of_isNaN_false (hn _ (List.getElem_mem hi'))
  rw [comesBefore, Bool.or_eq_false_iff] at hab
  exact lt_of_lt_of_le hlt ((not_lt (nn b hb) (nn a h1)).mp hab.1)

/-- no gain: every row that is not the smallest of some feature has the mean label -/
theorem mean_of_no_gain_rows {d : DataSet (Ext K)} {c t : Nat} (h : d.WF c t) {ls : List (List K)} (hls : d.labels = lift ls)
    (hg : ((splitOf d t).gain ==. F64.zero) = true) {j : Nat} (hj : j < c) {a : Nat} (ha : IsCut d.featureRows j a) :
    ∀ k < t, (ls.getD a []).getD k 0 = meanOf (target ls k) := by
  obtain ⟨g, h1, h2, _⟩ := splitOf_cut h hls
  rw [h1] at hg
  have hg0 : g = 0 := by simpa [Ext.zero_def] using hg
  subst hg0
  have hlen : ls.length = d.featureRows.length := by rw [← h.label_count, hls, lift_length]
  have hn := h.col_nan hj
  have hperm := sorted_labels hlen j
  obtain ⟨i, hi⟩ := row_position (j := j) ha.1
  set S := sorted (column d.featureRows j).zipIdx with hS
  set xs := labs (eseq ls (column d.featureRows j)) with hxs
  have hxl : xs.length = S.length := by simp [hxs, labs, eseq, hS]
  have hxi : xs[i]? = some (ls.getD a []) := by
    simp [hxs, labs, eseq, ← hS, hi]
  have hpos : 0 < i := by
    rcases Nat.eq_zero_or_pos i with rfl | h0
    · exfalso
      obtain ⟨_, b, hb, hlt⟩ := ha
      obtain ⟨k, hk⟩ := row_position (j := j) hb
      have := (sorted_before hn (hS ▸ hk) (hS ▸ hi)).mp (by simp only [comesBefore, hlt, Bool.true_or])
      omega
    · exact h0
  have hmean : ∀ n, i ≤ n → n ≤ xs.length → ∀ k < t, ((target xs k).take n).sum = n * meanOf (target ls k) := by
    intro n hin hnl k hk
    have hpm : meanOf (target ls k) = meanOf (target xs k) := by
      rw [meanOf, meanOf, (show (target ls k).sum = (target xs k).sum from (hperm.map (fun v : List K => v.getD k 0)).sum_eq.symm), target_length, target_length,
        hperm.length_eq]
    rcases Nat.lt_or_eq_of_le hnl with hlt | rfl
    · have hp : S[n]? = some S[n] := List.getElem?_eq_getElem (by omega)
      have m1 := mem_sorted (List.mem_of_getElem? hp)
      have hcut : IsCut d.featureRows j S[n].2 := by
        refine cut_between hn ha (by simpa only [column_length] using m1.1) ?_
        have := (sorted_before hn hp hi).not
        simp only [Bool.not_eq_true] at this
        exact this.mpr (by omega)
      have e := candAt_cut (t := t) (ls := ls) hn hp
      have h3 := h2 j _ hj hcut
      rw [← e, candAt, ← hxs, ← totalVar_perm hperm] at h3
      have n1 : xs.take n ≠ [] := by
        intro he
        have := congrArg List.length he
        rw [List.length_take, List.length_nil] at this
        omega
      have n2 : xs.drop n ≠ [] := by
        intro he
        have := congrArg List.length he
        rw [List.length_drop, List.length_nil] at this
        omega
      have h4 := mean_of_no_gain n1 n2 (t := t) (by rw [List.take_append_drop]; linarith) k hk
      rw [List.take_append_drop, ← hpm] at h4
      have e5 : target (xs.take n) k = (target xs k).take n := by simp [target, List.map_take]
      rw [e5, meanOf, List.length_take, target_length, min_eq_left hnl] at h4
      have : (n : K) ≠ 0 := by exact_mod_cast (by omega : n ≠ 0)
      rw [← h4]
      field_simp
    · have : (xs.length : K) ≠ 0 := by exact_mod_cast (by omega : xs.length ≠ 0)
      rw [hpm, meanOf, target_length, List.take_of_length_le (by rw [target_length])]
      field_simp
  intro k hk
  have hil : i < xs.length := (List.getElem?_eq_some_iff.mp hxi).1
  have e1 := hmean i le_rfl hil.le k hk
  have e2 := hmean (i + 1) (by omega) hil k hk
  have e3 : (target xs k)[i]? = some ((ls.getD a []).getD k 0) := by
    rw [target, List.getElem?_map, hxi]; rfl
  rw [List.take_add_one, e3] at e2
  simp only [Option.toList_some, List.sum_append, List.sum_cons, List.sum_nil, add_zero] at e2
  push_cast at e2
  linear_combination e2 - e1

/-- if every row that is not the smallest of some feature has the mean label, nothing is gained -/
theorem no_gain_of_mean_rows {d : DataSet (Ext K)} {c t : Nat} (h : d.WF c t) {ls : List (List K)} (hls : d.labels = lift ls)
    (hr : ∀ j < c, ∀ a, IsCut d.featureRows j a → ∀ k < t, (ls.getD a []).getD k 0 = meanOf (target ls k)) :
    ((splitOf d t).gain ==. F64.zero) = true := by
  obtain ⟨g, h1, _, h3⟩ := splitOf_cut h hls
  have hlen : ls.length = d.featureRows.length := by rw [← h.label_count, hls, lift_length]
  have hgoal : g = 0 := by
    rcases h3 with ⟨h3, _⟩ | ⟨hpos, hj, r, hcut, _, he, _⟩
    · exact h3
    · set j := (splitOf d t).question.column with hjdef
      have hn := h.col_nan hj
      have hperm := sorted_labels hlen j
      obtain ⟨i, hi⟩ := row_position (j := j) hcut.1
      have e := candAt_cut (t := t) (ls := ls) hn hi
      simp only at e
      rw [he, ← e, candAt, ← totalVar_perm hperm]
      set S := sorted (column d.featureRows j).zipIdx with hS
      set xs := labs (eseq ls (column d.featureRows j)) with hxs
      have hxl : xs.length = S.length := by simp [hxs, labs, eseq, hS]
      have hil : i < xs.length := by rw [hxl]; exact (List.getElem?_eq_some_iff.mp hi).1
      have hpm : ∀ k, meanOf (target ls k) = meanOf (target xs k) := by
        intro k
        rw [meanOf, meanOf, (show (target ls k).sum = (target xs k).sum from (hperm.map (fun v : List K => v.getD k 0)).sum_eq.symm), target_length, target_length,
          hperm.length_eq]
      have hdrop : ∀ k < t, target (xs.drop i) k = List.replicate (xs.drop i).length (meanOf (target xs k)) := by
        intro k hk
        rw [List.eq_replicate_iff]
        refine ⟨by rw [target_length], ?_⟩
        intro x hx
        obtain ⟨v, hv, rfl⟩ := List.mem_map.mp hx
        obtain ⟨n, hnv⟩ := List.getElem?_of_mem hv
        rw [List.getElem?_drop] at hnv
        have hnl : i + n < S.length := by rw [← hxl]; exact (List.getElem?_eq_some_iff.mp hnv).1
        have hp : S[i + n]? = some S[i + n] := List.getElem?_eq_getElem hnl
        have m1 := mem_sorted (List.mem_of_getElem? hp)
        have hc2 : IsCut d.featureRows j S[i + n].2 := by
          refine cut_between hn hcut (by simpa only [column_length] using m1.1) ?_
          have := (sorted_before hn hp hi).not
          simp only [Bool.not_eq_true] at this
          exact this.mpr (by omega)
        have hv' : v = ls.getD S[i + n].2 [] := by
          have : xs[i + n]? = some (ls.getD S[i + n].2 []) := by
            simp only [hxs, labs, eseq, ← hS, List.getElem?_map, hp, Option.map_some]
          rw [this] at hnv
          exact (Option.some.inj hnv).symm
        rw [hv', ← hpm]
        exact hr j hj _ hc2 k hk
      have hlc : ((xs.drop i).length : K) ≠ 0 := by
        rw [List.length_drop]
        exact_mod_cast (by omega : xs.length - i ≠ 0)
      have hmd : ∀ k < t, meanOf (target (xs.drop i) k) = meanOf (target xs k) := by
        intro k hk
        rw [hdrop k hk, meanOf, List.sum_replicate, List.length_replicate, nsmul_eq_mul]
        field_simp
      have hmt : ∀ k < t, meanOf (target (xs.take i) k) = meanOf (target xs k) ∨ xs.take i = [] := by
        intro k hk
        by_cases hne : xs.take i = []
        · exact .inr hne
        left
        have hn0 : ((xs.take i).length : K) ≠ 0 := length_cast_ne hne
        have hx0 : (xs.length : K) ≠ 0 := by exact_mod_cast (by omega : xs.length ≠ 0)
        have e4 : (target (xs.take i) k).sum + (target (xs.drop i) k).sum = (target xs k).sum := by
          rw [← List.sum_append, target, target, ← List.map_append, List.take_append_drop]; rfl
        have e5 : (target xs k).sum = xs.length * meanOf (target xs k) := by
          rw [meanOf, target_length]; field_simp
        have e6 : (target (xs.drop i) k).sum = (xs.drop i).length * meanOf (target xs k) := by
          rw [hdrop k hk, List.sum_replicate, nsmul_eq_mul]
        have e7 : (xs.length : K) = (xs.take i).length + (xs.drop i).length := by
          rw [← Nat.cast_add, ← List.length_append, List.take_append_drop]
        conv_lhs => rw [meanOf, target_length]
        rw [div_eq_iff hn0]
        rw [e6, e5, e7] at e4
        linear_combination e4
      have := totalVar_parts (t := t) (xs.take i) (xs.drop i) (by rw [List.take_append_drop]; rintro h0; rw [h0] at hil; simp at hil)
        (by rw [List.take_append_drop]; exact hmt) (by rw [List.take_append_drop]; exact fun k hk => .inl (hmd k hk))
      rw [List.take_append_drop] at this
      rw [this, sub_self]
  rw [h1, hgoal]
  simp [Ext.zero_def]

theorem getD_eq_of_not_cut {rows : List (List (Ext K))} {j a b : Nat} (hn : ∀ x ∈ column rows j, isNaN x = false)
    (ha : a < rows.length) (hb : b < rows.length) (h1 : ¬ IsCut rows j a) (h2 : ¬ IsCut rows j b) :
    ((column rows j).getD a F64.zero ==. (column rows j).getD b F64.zero) = true := by
  have nn : ∀ i < rows.length, NN ((column rows j).getD i F64.zero) := fun i hi =>
    by
      have hi' : i < (column rows j).length := by rwa [column_length]
      rw [List.getD, List.getElem?_eq_getElem hi']
      exact nn_of_isNaN_false (hn _ (List.getElem_mem hi'))
  have l1 : ((column rows j).getD a F64.zero <. (column rows j).getD b F64.zero) = false := by
    cases hc : ((column rows j).getD a F64.zero <. (column rows j).getD b F64.zero) with
    | false => rfl
    | true => exact absurd ⟨hb, a, ha, hc⟩ h2
  have l2 : ((column rows j).getD b F64.zero <. (column rows j).getD a F64.zero) = false := by
    cases hc : ((column rows j).getD b F64.zero <. (column rows j).getD a F64.zero) with
    | false => rfl
    | true => exact absurd ⟨ha, b, hb, hc⟩ h1
  rcases lt_or_eq ((not_lt (nn b hb) (nn a ha)).mp l2) with h | h
  · rw [l1] at h; cases h
  · exact h

/-- no gain and no contradictions: the labels are all the same -/
theorem pure_of_no_gain {d : DataSet (Ext K)} {c t : Nat} (h : d.WF c t) {ls : List (List K)} (hls : d.labels = lift ls)
    (hd : NoContradictions d.featureRows ls) (hg : ((splitOf d t).gain ==. F64.zero) = true) : ∀ a ∈ ls, ∀ b ∈ ls, a = b := by
  have hw := lift_width hls h.label_len
  have hlen : ls.length = d.featureRows.length := by rw [← h.label_count, hls, lift_length]
  have hmean : ∀ j < c, ∀ a, IsCut d.featureRows j a → ∀ k < t, (ls.getD a []).getD k 0 = meanOf (target ls k) :=
    fun j hj a ha => mean_of_no_gain_rows h hls hg hj ha
  have hlow : ∀ a < ls.length, ∀ b < ls.length, (∀ j < c, ¬ IsCut d.featureRows j a) → (∀ j < c, ¬ IsCut d.featureRows j b) →
      ls.getD a [] = ls.getD b [] := by
    intro a ha b hb h1 h2
    have ha' : a < d.featureRows.length := by omega
    have hb' : b < d.featureRows.length := by omega
    have hz : ∀ i (hi : i < ls.length), (d.featureRows[i]'(by omega), ls[i]) ∈ d.featureRows.zip ls := by
      intro i hi
      rw [List.mem_iff_getElem]
      exact ⟨i, by simp; omega, by simp⟩
    have := hd _ (hz a ha) _ (hz b hb) (by
      intro j x y hx hy
      have hjc : j < c := by
        have := (List.getElem?_eq_some_iff.mp hx).1
        rwa [h.row_len _ (List.getElem_mem ha')] at this
      have := getD_eq_of_not_cut (h.col_nan hjc) ha' hb' (h1 j hjc) (h2 j hjc)
      simpa [column, List.getD, ha', hb', hx, hy] using this)
    simpa [List.getD, ha, hb] using this
  -- the rows that are smallest in all features have the mean label too
  have hall : ∀ a < ls.length, ∀ k < t, (ls.getD a []).getD k 0 = meanOf (target ls k) := by
    intro a ha k hk
    by_cases hcut : ∃ j < c, IsCut d.featureRows j a
    · obtain ⟨j, hj, hc⟩ := hcut
      exact hmean j hj a hc k hk
    push Not at hcut
    classical
    have hterm : ∀ b ∈ List.range ls.length, (ls.getD b []).getD k 0 - meanOf (target ls k) =
        (if ∃ j < c, IsCut d.featureRows j b then 0 else 1) * ((ls.getD a []).getD k 0 - meanOf (target ls k)) := by
      intro b hb
      rw [List.mem_range] at hb
      by_cases hcb : ∃ j < c, IsCut d.featureRows j b
      · rw [if_pos hcb]
        obtain ⟨j, hj, hc⟩ := hcb
        rw [hmean j hj b hc k hk]
        ring
      · rw [if_neg hcb]
        push Not at hcb
        rw [hlow a ha b hb hcut hcb]
        ring
    have hsum : ((List.range ls.length).map (fun b => (ls.getD b []).getD k 0 - meanOf (target ls k))).sum = 0 := by
      have e1 : (List.range ls.length).map (fun b => (ls.getD b []).getD k 0 - meanOf (target ls k)) =
          (target ls k).map (fun x => x - meanOf (target ls k)) := by
        generalize meanOf (target ls k) = m
        conv_rhs => rw [target, eq_range_getD (v := ls) rfl [], List.map_map, List.map_map]
        simp [Function.comp_def]
      rw [e1]
      have : ∀ (l : List K) (m : K), (l.map (fun x => x - m)).sum = l.sum - l.length * m := by
        intro l m
        induction l with
        | nil => simp
        | cons x l ih => rw [List.map_cons, List.sum_cons, ih, List.sum_cons, List.length_cons]; push_cast; ring
      rw [this, meanOf]
      have h0 : ((target ls k).length : K) ≠ 0 := by
        rw [target_length]
        exact_mod_cast (by omega : ls.length ≠ 0)
      field_simp
      ring
    rw [List.map_congr_left hterm, List.sum_map_mul_right] at hsum
    rcases mul_eq_zero.mp hsum with h0 | h0
    · exfalso
      have hnn : ∀ x ∈ (List.range ls.length).map (fun b => (if ∃ j < c, IsCut d.featureRows j b then 0 else 1 : K)), 0 ≤ x := by
        intro x hx
        obtain ⟨b, _, rfl⟩ := List.mem_map.mp hx
        split <;> norm_num
      have := List.single_le_sum hnn _ (List.mem_map.mpr ⟨a, List.mem_range.mpr ha, rfl⟩)
      rw [h0, if_neg (by push Not; exact hcut)] at this
      linarith
    · linarith
  intro a ha b hb
  obtain ⟨i, hi, rfl⟩ := List.getElem_of_mem ha
  obtain ⟨i', hi', rfl⟩ := List.getElem_of_mem hb
  rw [eq_range_getD (hw _ ha) 0, eq_range_getD (hw _ hb) 0]
  apply List.map_congr_left
  intro k hk
  rw [List.mem_range] at hk
  have e1 := hall i hi k hk
  have e2 := hall i' hi' k hk
  simp only [List.getD, List.getElem?_eq_getElem hi, List.getElem?_eq_getElem hi', Option.getD_some] at e1 e2 ⊢
  rw [e1, e2]

theorem NoContradictions.map {α β F : Type} [F64 F] {rows : List (List F)} {labels : List α} (h : NoContradictions rows labels) (f : α → β) :
    NoContradictions rows (labels.map f) := by
  intro e he e' he' hs
  rw [List.zip_map_right] at he he'
  obtain ⟨x, hx, rfl⟩ := List.mem_map.mp he
  obtain ⟨x', hx', rfl⟩ := List.mem_map.mp he'
  exact congrArg f (h x hx x' hx' hs)

theorem NoContradictions.of_map {α β F : Type} [F64 F] {rows : List (List F)} {labels : List α} {f : α → β} (hf : ∀ a b, f a = f b → a = b)
    (h : NoContradictions rows (labels.map f)) : NoContradictions rows labels := by
  intro e he e' he' hs
  rw [NoContradictions, List.zip_map_right] at h
  exact hf _ _ (h _ (List.mem_map.mpr ⟨e, he, rfl⟩) _ (List.mem_map.mpr ⟨e', he', rfl⟩) hs)

theorem NoContradictions.unlift {rows : List (List (Ext K))} {ls : List (List K)} (h : NoContradictions rows (lift ls)) :
    NoContradictions rows ls := NoContradictions.of_map (f := liftV) (fun _ _ h => liftV_injective h) h

theorem restrict_consistent {F : Type} [F64 F] {d : DataSet F} {c : Nat} {p : List F → Bool} (hd : NoContradictions d.featureRows d.labels) :
    NoContradictions (d.restrict c p).featureRows (d.restrict c p).labels := by
  intro e he e' he'
  change e ∈ (d.restrict c p).examples at he
  change e' ∈ (d.restrict c p).examples at he'
  rw [restrict_examples, List.mem_filter] at he he'
  exact hd e he.1 e' he'.1

/-- a feature that tells all rows apart excludes contradictions -/
theorem TellsRowsApart.consistent {α F : Type} [F64 F] {rows : List (List F)} {j : Nat} (h : TellsRowsApart rows j)
    (hj : ∀ row ∈ rows, j < row.length) (labels : List α) : NoContradictions rows labels := by
  intro e he e' he' hs
  obtain ⟨a, ha, rfl⟩ := List.getElem_of_mem he
  obtain ⟨b, hb, rfl⟩ := List.getElem_of_mem he'
  simp only [List.length_zip, lt_min_iff] at ha hb
  simp only [List.getElem_zip] at hs ⊢
  have l1 := hj _ (List.getElem_mem ha.1)
  have l2 := hj _ (List.getElem_mem hb.1)
  have hx := List.getElem?_eq_getElem l1
  have hy := List.getElem?_eq_getElem l2
  have := h a b _ _ _ _ (List.getElem?_eq_getElem ha.1) (List.getElem?_eq_getElem hb.1) hx hy (hs j _ _ hx hy)
  subst this
  rfl

theorem restrict_lift {d : DataSet (Ext K)} {c : Nat} {p : List (Ext K) → Bool} {ls : List (List K)} (hls : d.labels = lift ls) :
    ∃ ms, (d.restrict c p).labels = lift ms := by
  refine ⟨((d.featureRows.zip ls).filter (fun e => p e.1)).map Prod.snd, ?_⟩
  have : (d.restrict c p).labels = (d.examples.filter (fun e => p e.1)).map Prod.snd := rfl
  rw [this, examples_lift hls, List.filter_map, List.map_map, lift, List.map_map]
  rfl

/-- above the depth limit, the examples of a leaf all have the same label -/
theorem treeOf_pure {leafOf : DataSet (Ext K) → L} {c t : Nat} (m : Nat) (d : DataSet (Ext K)) (h : d.WF c t)
    {ls : List (List K)} (hls : d.labels = lift ls) (hd : NoContradictions d.featureRows d.labels) :
    ∀ p l, (treeOf leafOf c t m d).leafAt p = some l → p.length < m →
      ∀ e ∈ d.examples, ∀ e' ∈ d.examples, (treeOf leafOf c t m d).route e.1 = p → (treeOf leafOf c t m d).route e'.1 = p → e.2 = e'.2 := by
  refine treeOf_induct (motive := fun m d => ∀ ls : List (List K), d.labels = lift ls →
    NoContradictions d.featureRows d.labels →
    ∀ p l, (treeOf leafOf c t m d).leafAt p = some l → p.length < m →
      ∀ e ∈ d.examples, ∀ e' ∈ d.examples, (treeOf leafOf c t m d).route e.1 = p → (treeOf leafOf c t m d).route e'.1 = p → e.2 = e'.2)
    ?_ ?_ ?_ m d h ls hls hd
  · intro d _ ls _ _ p l _ hm
    cases hm
  · intro m d hw hg ls hls hd p l _ _ e he e' he' _ _
    have hpure := pure_of_no_gain hw hls (NoContradictions.unlift (hls ▸ hd)) hg
    rw [examples_lift hls] at he he'
    obtain ⟨x, hx, rfl⟩ := List.mem_map.mp he
    obtain ⟨x', hx', rfl⟩ := List.mem_map.mp he'
    simp only
    rw [hpure x.2 (List.of_mem_zip hx).2 x'.2 (List.of_mem_zip hx').2]
  · intro m d hw hg h1 h2 ls hls hd p l hp hm e he e' he' hr hr'
    rw [treeOf_node hg] at hp hr hr'
    obtain ⟨ms1, hm1⟩ := restrict_lift (c := c) (p := satisfies (splitOf d t).question) hls
    obtain ⟨ms2, hm2⟩ := restrict_lift (c := c) (p := fun r => !satisfies (splitOf d t).question r) hls
    rw [TreeNode.route_new] at hr hr'
    match p with
    | [] => simp [TreeNode.new, TreeNode.leafAt] at hp
    | true :: p =>
      have hs : ∀ x : List (Ext K) × List (Ext K), x ∈ d.examples → (if satisfies (splitOf d t).question x.1 then
          true :: (treeOf leafOf c t m (d.restrict c (satisfies (splitOf d t).question))).route x.1 else
          false :: (treeOf leafOf c t m (d.restrict c (fun r => !satisfies (splitOf d t).question r))).route x.1) = true :: p →
          x ∈ (d.restrict c (satisfies (splitOf d t).question)).examples ∧
            (treeOf leafOf c t m (d.restrict c (satisfies (splitOf d t).question))).route x.1 = p := by
        intro x hx hxr
        rw [restrict_examples, List.mem_filter]
        split at hxr
        · rename_i hsat
          exact ⟨⟨hx, hsat⟩, (List.cons.inj hxr).2⟩
        · cases (List.cons.inj hxr).1
      have a1 := hs e he hr
      have a2 := hs e' he' hr'
      exact h1 ms1 hm1 (restrict_consistent hd) p l hp (by simpa using hm) e a1.1 e' a2.1 a1.2 a2.2
    | false :: p =>
      have hs : ∀ x : List (Ext K) × List (Ext K), x ∈ d.examples → (if satisfies (splitOf d t).question x.1 then
          true :: (treeOf leafOf c t m (d.restrict c (satisfies (splitOf d t).question))).route x.1 else
          false :: (treeOf leafOf c t m (d.restrict c (fun r => !satisfies (splitOf d t).question r))).route x.1) = false :: p →
          x ∈ (d.restrict c (fun r => !satisfies (splitOf d t).question r)).examples ∧
            (treeOf leafOf c t m (d.restrict c (fun r => !satisfies (splitOf d t).question r))).route x.1 = p := by
        intro x hx hxr
        rw [restrict_examples, List.mem_filter]
        split at hxr
        · cases (List.cons.inj hxr).1
        · rename_i hsat
          exact ⟨⟨hx, by simpa using hsat⟩, (List.cons.inj hxr).2⟩
      have a1 := hs e he hr
      have a2 := hs e' he' hr'
      exact h2 ms2 hm2 (restrict_consistent hd) p l hp (by simpa using hm) e a1.1 e' a2.1 a1.2 a2.2

/-- in deep enough trees the examples of a leaf all have the same label -/
theorem treeOf_alone {leafOf : DataSet (Ext K) → L} {c t : Nat} {m : Nat} {d : DataSet (Ext K)} (h : d.WF c t)
    {ls : List (List K)} (hls : d.labels = lift ls) (hd : NoContradictions d.featureRows d.labels)
    (hm : d.featureRows.length ≤ m + 1) :
    ∀ e ∈ d.featureRows.zip ls, ∀ v ∈ mates (treeOf leafOf c t m d) (d.featureRows.zip ls) e.1, v = e.2 := by
  intro e he
  have hrow := (List.of_mem_zip he).1
  obtain ⟨leaf, _, hl⟩ := TreeNode.find_of_proper (treeOf_proper (leafOf := leafOf) (c := c) (t := t) m d) (row := e.1)
    (fun p q hq => by rw [h.row_len e.1 hrow]; exact (treeOf_questions m d h p q hq).1)
  have hel : d.examples.length = d.featureRows.length := by simp [DataSet.examples, h.label_count]
  have hx : ∀ x ∈ d.featureRows.zip ls, (x.1, liftV x.2) ∈ d.examples := by
    intro x hx
    rw [examples_lift hls]
    exact List.mem_map.mpr ⟨x, hx, rfl⟩
  intro v hv
  simp only [mates, List.mem_map, List.mem_filter, decide_eq_true_eq] at hv
  obtain ⟨x, ⟨hxm, hxr⟩, rfl⟩ := hv
  have hdep := treeOf_depth (leafOf := leafOf) m d h _ leaf hl
  rcases Nat.lt_or_ge ((treeOf leafOf c t m d).route e.1).length m with hlt | hge
  · exact liftV_injective (treeOf_pure m d h hls hd _ leaf hl hlt _ (hx x hxm) _ (hx e he) hxr rfl)
  · have h1 : (d.examples.filter (fun e' => decide ((treeOf leafOf c t m d).route e'.1 = (treeOf leafOf c t m d).route e.1))).length ≤ 1 := by omega
    have i1 : (x.1, liftV x.2) ∈ d.examples.filter (fun e' => decide ((treeOf leafOf c t m d).route e'.1 = (treeOf leafOf c t m d).route e.1)) := by
      simp [hx x hxm, hxr]
    have i2 : (e.1, liftV e.2) ∈ d.examples.filter (fun e' => decide ((treeOf leafOf c t m d).route e'.1 = (treeOf leafOf c t m d).route e.1)) := by
      simp [hx e he]
    match hf : d.examples.filter (fun e' => decide ((treeOf leafOf c t m d).route e'.1 = (treeOf leafOf c t m d).route e.1)) with
    | [] => rw [hf] at i1; cases i1
    | [y] =>
      rw [hf, List.mem_singleton] at i1 i2
      have := i1.trans i2.symm
      exact liftV_injective (congrArg Prod.snd this)
    | _ :: _ :: _ => rw [hf] at h1; simp at h1

/-- a leaf whose examples all have the same label predicts this label -/
theorem mean_of_alone {t : Nat} {tree : TreeNode (Ext K) L} {es : List (List (Ext K) × List K)} {e : List (Ext K) × List K} (he : e ∈ es)
    (hw : e.2.length = t) (hall : ∀ v ∈ mates tree es e.1, v = e.2) : meanVec t (mates tree es e.1) = e.2 := by
  have hne : mates tree es e.1 ≠ [] := by
    apply List.ne_nil_of_mem (a := e.2)
    simp only [mates, List.mem_map, List.mem_filter, decide_eq_true_eq]
    exact ⟨e, ⟨he, rfl⟩, rfl⟩
  rw [eq_range_getD hw 0, meanVec]
  apply List.map_congr_left
  intro k _
  have hc := length_cast_ne (K := K) hne
  rw [meanOf, target_length, div_eq_iff hc]
  have : target (mates tree es e.1) k = List.replicate (mates tree es e.1).length (e.2.getD k 0) := by
    rw [List.eq_replicate_iff]
    refine ⟨by simp [target], ?_⟩
    intro x hx
    obtain ⟨v, hv, rfl⟩ := List.mem_map.mp hx
    rw [hall v hv]
  rw [this]
  simp [mul_comm]

/-- deep enough trees separate all different labels -/
theorem treeOf_fits {leafOf : DataSet (Ext K) → L} {c t : Nat} {m : Nat} {d : DataSet (Ext K)} (h : d.WF c t)
    {ls : List (List K)} (hls : d.labels = lift ls) (hd : NoContradictions d.featureRows d.labels)
    (hm : d.featureRows.length ≤ m + 1) :
    ∀ e ∈ d.featureRows.zip ls, meanVec t (mates (treeOf leafOf c t m d) (d.featureRows.zip ls) e.1) = e.2 :=
  fun e he => mean_of_alone he (lift_width hls h.label_len e.2 (List.of_mem_zip he).2) (treeOf_alone h hls hd hm e he)

end exact

end Verif
