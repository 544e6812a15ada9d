import Verif.Spec.Boundary
import Verif.Lemmas.FullFit
/-! # The best cut lies where the labels change -/

set_option linter.unusedSectionVars false

namespace Verif

section algebra
variable {K : Type} [Field K] [LinearOrder K] [IsStrictOrderedRing K] [FloorSemiring K] [HasExp K]

/-- how far the sum of the first `i` numbers is from `i` times the mean -/
def excess (xs : List K) (i : Nat) : K := (xs.take i).sum - i * meanOf xs

/-- what a cut before position `i` explains -/
def bump (xs : List K) (i : Nat) : K := excess xs i ^ 2 / i + excess xs i ^ 2 / ((xs.length : K) - i)

theorem excess_zero (xs : List K) : excess xs 0 = 0 := by simp [excess]

theorem excess_length (xs : List K) : excess xs xs.length = 0 := by
  rw [excess, List.take_length, meanOf]
  rcases eq_or_ne xs [] with rfl | h
  · simp
  · have := length_cast_ne (K := K) h
    field_simp
    ring

theorem excess_succ {xs : List K} {i : Nat} {y : K} (h : xs[i]? = some y) : excess xs (i + 1) = excess xs i + (y - meanOf xs) := by
  rw [excess, excess, List.take_add_one, h]
  simp only [Option.toList_some, List.sum_append, List.sum_cons, List.sum_nil, add_zero]
  push_cast
  ring

theorem sq_div_add {x y p q : K} (hp : 0 ≤ p) (hq : 0 ≤ q) (hx : p = 0 → x = 0) (hy : q = 0 → y = 0) :
    (x + y) ^ 2 / (p + q) ≤ x ^ 2 / p + y ^ 2 / q := by
  rcases hp.eq_or_lt with h0 | h0
  · subst h0; simp [hx rfl]
  rcases hq.eq_or_lt with h1 | h1
  · subst h1; simp [hy rfl]
  rw [div_add_div _ _ h0.ne' h1.ne', div_le_div_iff₀ (by positivity) (by positivity)]
  nlinarith [mul_nonneg (mul_nonneg hp hq) (sq_nonneg (x * q - y * p)), sq_nonneg (x * q - y * p)]

/-- between two equal numbers, `bump` is convex -/
theorem bump_convex {xs : List K} {p : Nat} {y : K} (h1 : xs[p]? = some y) (h2 : xs[p + 1]? = some y) :
    2 * bump xs (p + 1) ≤ bump xs p + bump xs (p + 2) := by
  have hl := (List.getElem?_eq_some_iff.mp h2).1
  have e1 := excess_succ h1
  have e2 := excess_succ h2
  have hp0 : (0 : K) ≤ p := Nat.cast_nonneg p
  have hn : (p : K) + 2 ≤ xs.length := by exact_mod_cast hl
  have hend : (xs.length : K) - (p + 2) = 0 → excess xs (p + 2) = 0 := by
    intro h0
    have : p + 2 = xs.length := by
      have : ((p + 2 : Nat) : K) = xs.length := by push_cast; linarith
      exact_mod_cast this
    rw [this, excess_length]
  have hstart : (p : K) = 0 → excess xs p = 0 := by
    intro h0
    have : p = 0 := by exact_mod_cast h0
    rw [this, excess_zero]
  have f1 := sq_div_add (x := excess xs p) (y := excess xs (p + 2)) hp0 (q := (p : K) + 2) (by positivity) hstart
    (fun h0 => absurd h0 (by positivity))
  have f2 := sq_div_add (x := excess xs p) (y := excess xs (p + 2)) (p := (xs.length : K) - p) (q := (xs.length : K) - (p + 2))
    (by linarith) (by linarith) (fun h0 => absurd h0 (by linarith)) hend
  have hs : excess xs p + excess xs (p + 2) = 2 * excess xs (p + 1) := by
    rw [show p + 2 = (p + 1) + 1 from rfl, e2, e1]; ring
  rw [hs] at f1 f2
  have g1 : (2 * excess xs (p + 1)) ^ 2 / ((p : K) + (p + 2)) = 2 * (excess xs (p + 1) ^ 2 / (p + 1)) := by
    have : (p : K) + 1 ≠ 0 := by positivity
    rw [show (p : K) + (p + 2) = 2 * (p + 1) by ring]
    field_simp
  have g2 : (2 * excess xs (p + 1)) ^ 2 / (((xs.length : K) - p) + (xs.length - (p + 2))) = 2 * (excess xs (p + 1) ^ 2 / (xs.length - (p + 1))) := by
    have : (xs.length : K) - (p + 1) ≠ 0 := by
      have : (0 : K) < xs.length - (p + 1) := by linarith
      exact this.ne'
    rw [show ((xs.length : K) - p) + (xs.length - (p + 2)) = 2 * (xs.length - (p + 1)) by ring]
    field_simp
  rw [g1] at f1
  rw [g2] at f2
  simp only [bump]
  push_cast
  linarith

/-- what a cut of vectors before position `i` explains -/
def bumps (t : Nat) (xs : List (List K)) (i : Nat) : K := ((List.range t).map (fun k => bump (target xs k) i)).sum

theorem bumps_zero (t : Nat) (xs : List (List K)) : bumps t xs 0 = 0 := by simp [bumps, bump, excess_zero]

theorem bumps_length (t : Nat) (xs : List (List K)) : bumps t xs xs.length = 0 := by
  have : ∀ k, excess (target xs k) xs.length = 0 := by
    intro k
    have := excess_length (target xs k)
    rwa [target_length] at this
  simp [bumps, bump, this]

theorem bumps_convex {t : Nat} {xs : List (List K)} {p : Nat} {y : List K} (h1 : xs[p]? = some y) (h2 : xs[p + 1]? = some y) :
    2 * bumps t xs (p + 1) ≤ bumps t xs p + bumps t xs (p + 2) := by
  rw [bumps, bumps, bumps, ← List.sum_map_mul_left, ← List.sum_map_add]
  refine List.sum_le_sum ?_
  intro k _
  refine bump_convex (y := y.getD k 0) ?_ ?_ <;> simp [target, h1, h2]

/-- along a run of equal vectors at the start, `bumps` grows -/
theorem bumps_run {t : Nat} {xs : List (List K)} {n : Nat} {y : List K} (h : ∀ i ≤ n, xs[i]? = some y) :
    (n + 1) * bumps t xs n ≤ n * bumps t xs (n + 1) := by
  induction n with
  | zero => simp [bumps_zero]
  | succ n ih =>
    have h1 := ih (fun i hi => h i (by omega))
    have h2 := bumps_convex (t := t) (h n (by omega)) (h (n + 1) le_rfl)
    push_cast
    have h3 : (0 : K) ≤ n + 1 := by positivity
    nlinarith [mul_le_mul_of_nonneg_left h2 h3]

/-- the gain of a cut -/
theorem gain_bumps {t : Nat} {xs : List (List K)} {i : Nat} (h0 : 0 < i) (hi : i < xs.length) :
    xs.length * (totalVar t xs - splitVar t (xs.take i) (xs.drop i)) = bumps t xs i := by
  set a := xs.take i with ha
  set b := xs.drop i with hb
  have hab : a ++ b = xs := List.take_append_drop i xs
  have la : (a.length : K) = i := by rw [ha, List.length_take, min_eq_left hi.le]
  have lb : (b.length : K) = xs.length - i := by rw [hb, List.length_drop, Nat.cast_sub hi.le]
  have i0 : (0 : K) < i := by exact_mod_cast h0
  have n0 : (0 : K) < xs.length - i := by
    have : (i : K) < xs.length := by exact_mod_cast hi
    linarith
  have hx : (xs.length : K) ≠ 0 := by linarith
  have hsv : (xs.length : K) * splitVar t a b = a.length * totalVar t a + b.length * totalVar t b := by
    rw [splitVar, la, lb, show (i : K) + (xs.length - i) = xs.length by ring]
    field_simp
  rw [mul_sub, hsv]
  simp only [totalVar, bumps]
  rw [← List.sum_map_mul_left, ← List.sum_map_mul_left, ← List.sum_map_mul_left, ← List.sum_map_add, sub_eq_iff_eq_add, ← List.sum_map_add]
  congr 1
  apply List.map_congr_left
  intro k _
  have e1 := length_mul_varOf (target xs k)
  have e2 := length_mul_varOf (target a k)
  have e3 := length_mul_varOf (target b k)
  have e4 : target xs k = target a k ++ target b k := by rw [← hab]; simp [target]
  have e5 : sqDev (meanOf (target xs k)) (target xs k) =
      sqDev (meanOf (target xs k)) (target a k) + sqDev (meanOf (target xs k)) (target b k) := by
    conv_lhs => rw [e4, ← e4]
    rw [← sqDev_append, ← e4]
  rw [e5, sqDev_shift _ (target a k), sqDev_shift _ (target b k), ← e2, ← e3] at e1
  simp only [target_length] at e1
  rw [e1]
  have sa : (a.length : K) * (meanOf (target xs k) - meanOf (target a k)) ^ 2 = excess (target xs k) i ^ 2 / i := by
    have e6 : target a k = (target xs k).take i := by simp [target, ha, List.map_take]
    rw [excess, ← e6]
    rw [show meanOf (target a k) = (target a k).sum / i by rw [meanOf, target_length, la], la]
    field_simp
    ring
  have sb : (b.length : K) * (meanOf (target xs k) - meanOf (target b k)) ^ 2 = excess (target xs k) i ^ 2 / (xs.length - i) := by
    have e6 : target a k = (target xs k).take i := by simp [target, ha, List.map_take]
    have e7 : (target xs k).sum = (target a k).sum + (target b k).sum := by rw [e4, List.sum_append]
    have e8 : (target xs k).sum = xs.length * meanOf (target xs k) := by rw [meanOf, target_length]; field_simp
    have e9 : (target b k).sum = xs.length * meanOf (target xs k) - (target a k).sum := by linarith
    rw [excess, ← e6]
    rw [show meanOf (target b k) = (xs.length * meanOf (target xs k) - (target a k).sum) / (xs.length - i) by rw [meanOf, target_length, lb, e9], lb]
    field_simp
    ring
  rw [sa, sb, bump, target_length]
  ring

end algebra

section exact
variable {K : Type} [Field K] [LinearOrder K] [IsStrictOrderedRing K] [FloorSemiring K] [HasExp K] {L : Type}

theorem isCut_pos {rows : List (List (Ext K))} {j : Nat} (hn : ∀ x ∈ column rows j, isNaN x = false) {i : Nat} {p : Ext K × Nat}
    (hi : (sorted (column rows j).zipIdx)[i]? = some p) (hc : IsCut rows j p.2) : 0 < i := by
  rcases Nat.eq_zero_or_pos i with rfl | h0
  · exfalso
    obtain ⟨_, b, hb, hlt⟩ := hc
    obtain ⟨k, hk⟩ := row_position (j := j) hb
    have := (sorted_before hn hk hi).mp (by simp only [comesBefore, hlt, Bool.true_or])
    omega
  · exact h0

/-- a question with a positive gain is asked only where the labels change -/
theorem splitOf_boundary {d : DataSet (Ext K)} {c t : Nat} (h : d.WF c t) {ls : List (List K)} (hls : d.labels = lift ls)
    (hg : ((splitOf d t).gain ==. F64.zero) = false) :
    LabelsChange (d.featureRows.zip ls) (splitOf d t).question.column (splitOf d t).question.value := by
  obtain ⟨g, h1, h2, h3⟩ := splitOf_cut h hls
  have hlen : ls.length = d.featureRows.length := by rw [← h.label_count, hls, lift_length]
  rcases h3 with ⟨h3, _⟩ | ⟨hpos, hj, r, hcut, hval, he, _, hfirst⟩
  · rw [h1, h3] at hg
    simp at hg
  set j := (splitOf d t).question.column with hjdef
  rw [hval]
  have hn := h.col_nan hj
  have hperm := sorted_labels hlen j
  obtain ⟨i, hi⟩ := row_position (j := j) hcut.1
  have hi0 := isCut_pos hn hi hcut
  obtain ⟨p, rfl⟩ : ∃ p, i = p + 1 := ⟨i - 1, by omega⟩
  set S := sorted (column d.featureRows j).zipIdx with hS
  set xs := labs (eseq ls (column d.featureRows j)) with hxs
  have hxl : xs.length = S.length := by simp [hxs, labs, eseq, hS]
  have hxS : ∀ (n : Nat) (q : Ext K × Nat), S[n]? = some q → xs[n]? = some (ls.getD q.2 []) := by
    intro n q hq
    simp only [hxs, labs, eseq, ← hS, List.getElem?_map, hq, Option.map_some]
  have hil : p + 1 < xs.length := by rw [hxl]; exact (List.getElem?_eq_some_iff.mp hi).1
  have hx0 : (0 : K) < xs.length := by exact_mod_cast (by omega : 0 < xs.length)
  -- the gain of the cut at each position
  have hgain : ∀ (n : Nat) (q : Ext K × Nat), 0 < n → S[n]? = some q → xs.length * cutReduction t d.featureRows ls j q.2 = bumps t xs n := by
    intro n q hn0 hq
    have hnl : n < xs.length := by rw [hxl]; exact (List.getElem?_eq_some_iff.mp hq).1
    rw [← gain_bumps hn0 hnl, ← candAt_cut (t := t) (ls := ls) hn hq, candAt, ← hxs, totalVar_perm hperm]
  have hgi := hgain (p + 1) _ (by omega) hi
  simp only at hgi
  rw [← he] at hgi
  have hbpos : 0 < bumps t xs (p + 1) := by rw [← hgi]; positivity
  have hcutS : ∀ (n : Nat) (q : Ext K × Nat), p + 1 ≤ n → S[n]? = some q → IsCut d.featureRows j q.2 := by
    intro n q hpn hq
    have m1 := mem_sorted (List.mem_of_getElem? hq)
    refine cut_between hn hcut (by simpa only [column_length] using m1.1) ?_
    have := (sorted_before hn hq hi).not
    simp only [Bool.not_eq_true] at this
    exact this.mpr (by omega)
  -- the next position is no better
  have hnext : bumps t xs (p + 2) ≤ bumps t xs (p + 1) := by
    rcases Nat.lt_or_eq_of_le hil with hlt | heq
    · have hq : S[p + 2]? = some S[p + 2] := List.getElem?_eq_getElem (by omega)
      rw [← hgain (p + 2) _ (by omega) hq, ← hgi]
      exact mul_le_mul_of_nonneg_left (h2 j _ hj (hcutS _ _ (by omega) hq)) hx0.le
    · rw [show p + 2 = xs.length from heq, bumps_length]
      exact hbpos.le
  obtain ⟨q0, hSp⟩ : ∃ q0, S[p]? = some q0 := ⟨_, List.getElem?_eq_getElem (by omega)⟩
  have mp := mem_sorted (List.mem_of_getElem? hSp)
  -- values and rows
  have hNN : ∀ a < d.featureRows.length, NN ((column d.featureRows j).getD a F64.zero) := by
    intro a ha
    have ha' : a < (column d.featureRows j).length := by rwa [column_length]
    rw [List.getD, List.getElem?_eq_getElem ha']
    exact nn_of_isNaN_false (hn _ (List.getElem_mem ha'))
  have hrow : ∀ a (ha : a < d.featureRows.length), (d.featureRows[a])[j]? = some ((column d.featureRows j).getD a F64.zero) := by
    intro a ha
    have hl := h.row_len _ (List.getElem_mem ha)
    rw [List.getElem?_eq_getElem (by omega)]
    simp [column, List.getD, ha, hl, hj]
  have hmem : ∀ a (ha : a < d.featureRows.length), (d.featureRows[a], ls.getD a []) ∈ d.featureRows.zip ls := by
    intro a ha
    have ha' : a < ls.length := by omega
    rw [List.mem_iff_getElem]
    exact ⟨a, by simp [ha, ha'], by simp [List.getD, ha']⟩
  -- a row before the cut with another label, above which no value lies below the threshold
  suffices hmain : ∃ b, ∃ n : Nat, n ≤ p ∧ (∃ v, S[n]? = some (v, b)) ∧ ls.getD b [] ≠ ls.getD r [] ∧
      (∀ a < d.featureRows.length, ¬ (((column d.featureRows j).getD b F64.zero <. (column d.featureRows j).getD a F64.zero) = true ∧
        ((column d.featureRows j).getD a F64.zero <. (column d.featureRows j).getD r F64.zero) = true)) by
    obtain ⟨b, n, hnp, ⟨v, hb⟩, hne, hno⟩ := hmain
    have mb := mem_sorted (List.mem_of_getElem? hb)
    have hbl : b < d.featureRows.length := by simpa only [column_length] using mb.1
    refine ⟨_, hmem r hcut.1, _, hmem b hbl, _, hrow r hcut.1, hrow b hbl, ?_, ?_, fun h => hne h.symm⟩
    · have := (sorted_before hn hb hi).mpr (by omega)
      rw [comesBefore, Bool.or_eq_true, Bool.and_eq_true] at this
      rcases this with h4 | h4
      · exact lt_le h4
      · exact eq_le h4.1
    · intro a ha x hx
      obtain ⟨k, hk, rfl⟩ := List.getElem_of_mem ha
      simp only [List.length_zip, lt_min_iff] at hk
      simp only [List.getElem_zip] at hx
      rw [hrow k hk.1] at hx
      rw [← Option.some.inj hx]
      exact hno k hk.1
  -- no value lies between neighbours
  have hgap : ∀ a < d.featureRows.length, ¬ (((column d.featureRows j).getD q0.2 F64.zero <. (column d.featureRows j).getD a F64.zero) = true ∧
        ((column d.featureRows j).getD a F64.zero <. (column d.featureRows j).getD r F64.zero) = true) := by
    rintro a ha ⟨l1, l2⟩
    obtain ⟨k, hk⟩ := row_position (j := j) ha
    have k1 := (sorted_before hn hSp hk).mp (by simp only [comesBefore, l1, Bool.true_or])
    have k2 := (sorted_before hn hk hi).mp (by simp only [comesBefore, l2, Bool.true_or])
    omega
  by_cases hsame : ls.getD q0.2 [] = ls.getD r []
  · by_cases hcp : IsCut d.featureRows j q0.2
    · -- the cut one row earlier would have been reported
      exfalso
      have hp0 := isCut_pos hn hSp hcp
      have hbef : comesBefore d.featureRows j q0.2 r = true := (sorted_before hn hSp hi).mpr (by omega)
      have l1 := hfirst _ hcp hbef
      have l2 : bumps t xs p < bumps t xs (p + 1) := by
        rw [← hgain p _ hp0 hSp, ← hgi]
        exact mul_lt_mul_of_pos_left l1 hx0
      have l3 := bumps_convex (t := t) (hxS p _ hSp) (by rw [hxS _ _ hi, hsame])
      linarith
    · -- all rows before the cut have the smallest value
      have hmin : ∀ (n : Nat) (q : Ext K × Nat), n ≤ p → S[n]? = some q →
          ((column d.featureRows j).getD q0.2 F64.zero <=. (column d.featureRows j).getD q.2 F64.zero) = true := by
        intro n q hnp hq
        have mq := mem_sorted (List.mem_of_getElem? hq)
        have hql : q.2 < d.featureRows.length := by simpa only [column_length] using mq.1
        have hpl : q0.2 < d.featureRows.length := by simpa only [column_length] using mp.1
        refine (not_lt (hNN _ hql) (hNN _ hpl)).mp ?_
        cases hc : ((column d.featureRows j).getD q.2 F64.zero <. (column d.featureRows j).getD q0.2 F64.zero) with
        | false => rfl
        | true => exact absurd ⟨hpl, q.2, hql, hc⟩ hcp
      by_cases hrun : ∀ (n : Nat) (q : Ext K × Nat), n ≤ p → S[n]? = some q → ls.getD q.2 [] = ls.getD r []
      · exfalso
        have := bumps_run (t := t) (n := p + 1) (xs := xs) (y := ls.getD r []) (by
          intro n hn1
          rcases Nat.lt_or_eq_of_le hn1 with hlt | rfl
          · have hq : S[n]? = some S[n] := List.getElem?_eq_getElem (by omega)
            rw [hxS _ _ hq, hrun n _ (by omega) hq]
          · rw [hxS _ _ hi])
        push_cast at this
        have hp0 : (0 : K) ≤ p := Nat.cast_nonneg p
        nlinarith [mul_le_mul_of_nonneg_left hnext (by positivity : (0 : K) ≤ p + 1)]
      · push Not at hrun
        obtain ⟨n, q, hnp, hq, hne⟩ := hrun
        refine ⟨q.2, n, hnp, ⟨q.1, hq⟩, hne, ?_⟩
        rintro a ha ⟨l1, l2⟩
        exact hgap a ha ⟨lt_of_le_of_lt (hmin n q hnp hq) l1, l2⟩
  · exact ⟨q0.2, p, le_rfl, ⟨q0.1, hSp⟩, hsame, hgap⟩

end exact

end Verif
