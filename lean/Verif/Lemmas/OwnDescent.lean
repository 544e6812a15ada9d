import Verif.Spec.Own
import Verif.Lemmas.Own
import Verif.Lemmas.ExactBoost
/-! # Exact arithmetic: one round with a leaf output function of the caller -/

namespace Verif

section
variable {K : Type} [Field K] [LinearOrder K] [IsStrictOrderedRing K]

/-- an inequality that holds for every full group of elements with equal key holds for the whole list -/
theorem sum_le_of_groups {α κ : Type} [DecidableEq κ] (key : α → κ) (f g : α → K) : ∀ (n : Nat) (l : List α), l.length ≤ n →
    (∀ a ∈ l, ((l.filter (fun b => decide (key b = key a))).map f).sum ≤ ((l.filter (fun b => decide (key b = key a))).map g).sum) →
    (l.map f).sum ≤ (l.map g).sum := by
  intro n
  induction n with
  | zero =>
    intro l hl _
    have : l = [] := List.length_eq_zero_iff.mp (by omega)
    subst this
    simp
  | succ n ih =>
    intro l hl H
    cases l with
    | nil => simp
    | cons a0 l' =>
      set l := a0 :: l' with hldef
      set C := l.filter (fun b => decide (key b = key a0)) with hC
      set D := l.filter (fun b => !decide (key b = key a0)) with hD
      have hperm : (C ++ D).Perm l := filter_append_not_perm _ _
      have ha0 : a0 ∈ C := by rw [hC, List.mem_filter]; simp [hldef]
      have hDl : D.length ≤ n := by
        have h1 := hperm.length_eq
        rw [List.length_append] at h1
        have := List.length_pos_of_mem ha0
        omega
      rw [← (hperm.map f).sum_eq, ← (hperm.map g).sum_eq, List.map_append, List.map_append, List.sum_append, List.sum_append]
      refine add_le_add (H a0 (by simp [hldef])) (ih D hDl ?_)
      intro a ha
      have hak : a ∈ l ∧ key a ≠ key a0 := by
        rw [hD, List.mem_filter] at ha
        exact ⟨ha.1, by simpa using ha.2⟩
      have hf : D.filter (fun b => decide (key b = key a)) = l.filter (fun b => decide (key b = key a)) := by
        rw [hD, List.filter_filter]
        apply List.filter_congr
        intro b _
        by_cases hb : key b = key a
        · simp [hb, hak.2]
        · simp [hb]
      rw [hf]
      exact H a hak.1

end

variable {K : Type} [Field K] [LinearOrder K] [IsStrictOrderedRing K] [FloorSemiring K] [HasExp K]

theorem sqErr_half {t : Nat} {r o : List K} (hr : r.length = t) (ho : o.length = t) {a : K} (h0 : 0 ≤ a) (h1 : a ≤ 1) :
    sqErr r (o.map (fun x => a * x)) ≤ (1 - a) * sqErr r (List.replicate t 0) + a * sqErr r o := by
  rw [sqErr_eq hr (by simp [ho]), sqErr_eq hr (by simp), sqErr_eq hr ho, ← mul_div_assoc, ← mul_div_assoc, ← add_div]
  refine div_le_div_of_nonneg_right ?_ (Nat.cast_nonneg _)
  rw [← List.sum_map_mul_left, ← List.sum_map_mul_left, ← List.sum_map_add]
  apply List.sum_le_sum
  intro j hj
  rw [List.mem_range] at hj
  have h2 : (o.map (fun x => a * x)).getD j 0 = a * o.getD j 0 := by
    have : j < o.length := by omega
    simp [this]
  have h3 : (List.replicate t (0 : K)).getD j 0 = 0 := by simp [hj]
  rw [h2, h3]
  have := mul_nonneg (mul_nonneg h0 (sub_nonneg.mpr h1)) (sq_nonneg (o.getD j 0))
  nlinarith

theorem own_round {d : DataSet (Ext K)} {c t : Nat} (h : d.WF c t) {ls ps : List (List K)} (hls : d.labels = lift ls)
    (hlen : ps.length = ls.length) (hw : ∀ p ∈ ps, p.length = t) {find : SplitFinder (Ext K)} {m : Nat} {own : LeafOutputCalculator (Ext K)}
    (hc : own.Helps c t) {tree : TreeNode (Ext K) (GradBoostLeaf (Ext K))}
    (hb : growFuel find (leafOfGradBoostOwn own) t m { d with labels := lift (resid ls ps) } = .ok tree) :
    ∃ o : List (Ext K) → List K, (∀ row ∈ d.featureRows, gradOut row tree = .ok (liftV (o row)) ∧ (o row).length = t) ∧
      (∀ row ∈ d.featureRows, ∀ row' ∈ d.featureRows, tree.route row = tree.route row' → o row = o row') ∧
      ∀ row ∈ d.featureRows, (((d.featureRows.zip (resid ls ps)).filter (fun e => decide (tree.route e.1 = tree.route row))).map
          (fun e => sqErr e.2 (o row))).sum ≤
        (((d.featureRows.zip (resid ls ps)).filter (fun e => decide (tree.route e.1 = tree.route row))).map
          (fun e => sqErr e.2 (List.replicate t 0))).sum := by
  have hwf := resid_wf h hls (by rw [hlen, hls, lift_length]) hw
  have hg := grown_of_ok m hwf hb
  have key : ∀ row ∈ d.featureRows, ∃ o : List K, gradOut row tree = .ok (liftV o) ∧ o.length = t ∧
      (∃ leaf, tree.leafAt (tree.route row) = some leaf ∧ leaf.leafOutput = some (liftV o)) ∧
      (((d.featureRows.zip (resid ls ps)).filter (fun e => decide (tree.route e.1 = tree.route row))).map
          (fun e => sqErr e.2 o)).sum ≤
        (((d.featureRows.zip (resid ls ps)).filter (fun e => decide (tree.route e.1 = tree.route row))).map
          (fun e => sqErr e.2 (List.replicate t 0))).sum := by
    intro row hrow
    obtain ⟨dd, l, h1, h2, h3, h4, h5⟩ := hg.lookup hwf (h.row_len row hrow).ge
    obtain ⟨a1, _, _⟩ := mates_ok (ls := resid ls ps) rfl h2 h5
    obtain ⟨o, b1, b2, b3⟩ := hc dd _ h2 a1
    simp only [leafOfGradBoostOwn, b1, R.ok_bind] at h1
    cases h1
    refine ⟨o, ?_, b2, ⟨_, h4, rfl⟩, ?_⟩
    · simp only [gradOut, h3, R.ok_bind]
      rfl
    · simpa only [mates, List.map_map, Function.comp_def] using b3
  choose! o h1 h2 h3 h4 using key
  refine ⟨o, fun row hr => ⟨h1 row hr, h2 row hr⟩, ?_, h4⟩
  intro row hr row' hr' he
  obtain ⟨l, a1, a2⟩ := h3 row hr
  obtain ⟨l', b1, b2⟩ := h3 row' hr'
  rw [← he, a1] at b1
  cases b1
  rw [a2] at b2
  have := Option.some.inj b2
  exact List.map_injective_iff.mpr (fun x y hxy => by cases hxy; rfl) this

theorem own_round_error {d : DataSet (Ext K)} {c t : Nat} (h : d.WF c t) {ls ps : List (List K)} (hls : d.labels = lift ls)
    (hlen : ps.length = ls.length) (hw : ∀ p ∈ ps, p.length = t) {find : SplitFinder (Ext K)} {m : Nat} {own : LeafOutputCalculator (Ext K)}
    (hc : own.Helps c t) {tree : TreeNode (Ext K) (GradBoostLeaf (Ext K))}
    (hb : growFuel find (leafOfGradBoostOwn own) t m { d with labels := lift (resid ls ps) } = .ok tree) {lr : K} (h0 : 0 ≤ lr) (h1 : lr ≤ 1) :
    ∃ o : List (Ext K) → List K, (∀ row ∈ d.featureRows, gradOut row tree = .ok (liftV (o row)) ∧ (o row).length = t) ∧
      mseOf ls (updated lr o ps d.featureRows) ≤ mseOf ls ps := by
  obtain ⟨o, a1, a2, a3⟩ := own_round h hls hlen hw hc hb
  refine ⟨o, a1, ?_⟩
  have hl := lift_width hls h.label_len
  have hrows : ps.length = d.featureRows.length := by rw [hlen, ← h.label_count, hls, lift_length]
  have ho : ∀ row ∈ d.featureRows, (o row).length = t := fun row hr => (a1 row hr).2
  rw [mseOf_resid hl hw, mseOf_resid hl (updated_width hw ho), resid_updated hl hw ho hlen hrows]
  refine div_le_div_of_nonneg_right ?_ (Nat.cast_nonneg _)
  set es := d.featureRows.zip (resid ls ps) with hes
  have hR := resid_width hl hw
  have hmem : ∀ e ∈ es, e.1 ∈ d.featureRows ∧ e.2.length = t := fun e he => by
    obtain ⟨b1, b2⟩ := List.of_mem_zip (a := e.1) (b := e.2) he
    exact ⟨b1, hR _ b2⟩
  have hsnd : es.map Prod.snd = resid ls ps := List.map_snd_zip (by rw [resid_length hlen, ← hlen, hrows])
  have e1 : sse t (es.map (fun e => (List.range t).map (fun j => e.2.getD j 0 - lr * (o e.1).getD j 0))) / t =
      (es.map (fun e => sqErr e.2 ((o e.1).map (fun x => lr * x)))).sum := by
    rw [sse, div_eq_mul_inv, ← List.sum_map_mul_right, List.map_map]
    congr 1
    apply List.map_congr_left
    intro e he
    obtain ⟨b1, b2⟩ := hmem e he
    have b3 := ho _ b1
    rw [sqErr_eq b2 (by simp [b3]), div_eq_mul_inv]
    simp only [Function.comp_def]
    congr 2
    apply List.map_congr_left
    intro j hj
    rw [List.mem_range] at hj
    have b4 : j < (o e.1).length := by omega
    rw [getD_range hj]
    simp [b4]
  have e2 : sse t (resid ls ps) / t = (es.map (fun e => sqErr e.2 (List.replicate t 0))).sum := by
    rw [← hsnd, sse, div_eq_mul_inv, ← List.sum_map_mul_right, List.map_map]
    congr 1
    apply List.map_congr_left
    intro e he
    obtain ⟨b1, b2⟩ := hmem e he
    rw [sqErr_eq b2 (by simp), div_eq_mul_inv]
    simp only [Function.comp_def]
    congr 2
    apply List.map_congr_left
    intro j hj
    rw [List.mem_range] at hj
    simp [hj]
  rw [e1, e2]
  refine sum_le_of_groups (fun e => tree.route e.1) _ _ es.length es le_rfl ?_
  intro a ha
  set C := es.filter (fun b => decide (tree.route b.1 = tree.route a.1)) with hC
  obtain ⟨ha1, _⟩ := hmem a ha
  have hCo : ∀ e ∈ C, e ∈ es ∧ o e.1 = o a.1 := by
    intro e he
    rw [hC, List.mem_filter] at he
    exact ⟨he.1, a2 _ (hmem e he.1).1 _ ha1 (by simpa using he.2)⟩
  have h3 := a3 a.1 ha1
  rw [← hC] at h3
  have s1 : (C.map (fun e => sqErr e.2 ((o e.1).map (fun x => lr * x)))).sum ≤
      (C.map (fun e => (1 - lr) * sqErr e.2 (List.replicate t 0) + lr * sqErr e.2 (o a.1))).sum := by
    apply List.sum_le_sum
    intro e he
    obtain ⟨c1, c2⟩ := hCo e he
    rw [c2]
    exact sqErr_half (hmem e c1).2 (ho _ ha1) h0 h1
  rw [List.sum_map_add, List.sum_map_mul_left, List.sum_map_mul_left] at s1
  have s2 := mul_le_mul_of_nonneg_left h3 h0
  linarith

end Verif
