import Verif.Spec.NearRule
import Verif.Lemmas.NearFit
import Verif.Lemmas.Rule
import Verif.Lemmas.Repeat
import Verif.Props.Rounding
/-!
# Integer labels: a cut that leaves almost no variance leaves none
-/

set_option linter.unusedSectionVars false

namespace Verif

open B64 LawfulOrder

/-- two different integers deviate from whatever is taken for their mean -/
theorem sqDev_gap {a : ℚ} {xs : List ℚ} {x y : ℚ} (hz : ∀ x ∈ xs, x ∈ Zq) (hx : x ∈ xs) (hy : y ∈ xs) (hne : x ≠ y) : 1 / 2 ≤ sqDev a xs := by
  have hp : xs.Perm (x :: y :: (xs.erase x).erase y) :=
    (List.perm_cons_erase hx).trans (List.Perm.cons _ (List.perm_cons_erase ((List.mem_erase_of_ne (Ne.symm hne)).mpr hy)))
  have h1 : sqDev a xs = (x - a) ^ 2 + ((y - a) ^ 2 + sqDev a ((xs.erase x).erase y)) := by
    rw [sqDev, (hp.map _).sum_eq]
    simp [sqDev]
  have h2 : 0 ≤ sqDev a ((xs.erase x).erase y) := sqDev_nonneg _ _
  have h3 : 1 ≤ (x - y) ^ 2 := by
    obtain ⟨z, hz⟩ := Zq.sub_mem (hz x hx) (hz y hy)
    have hz : (z : ℚ) = x - y := by simpa using hz
    have h0 : z ≠ 0 := by
      rintro rfl
      exact hne (sub_eq_zero.mp (by rw [← hz]; simp))
    have : 1 ≤ z ^ 2 := by
      have := sq_pos_of_ne_zero h0
      omega
    rw [← hz]
    exact_mod_cast this
  rw [h1]
  nlinarith [sq_nonneg ((x - a) + (y - a))]

theorem const_of_wss {t : ℕ} {ls : List (List ℚ)} (hw : Whole ls) (ht : ∀ v ∈ ls, v.length = t) (h : wss t ls < 1 / 2) :
    ∀ a ∈ ls, ∀ b ∈ ls, a = b := by
  intro a ha b hb
  rw [eq_range_getD (ht a ha) 0, eq_range_getD (ht b hb) 0]
  apply List.map_congr_left
  intro j hj
  by_contra hne
  have h1 := sqDev_gap (a := meanOf (target ls j)) (hw.target j) (List.mem_map.mpr ⟨a, ha, rfl⟩) (List.mem_map.mpr ⟨b, hb, rfl⟩) hne
  have h2 := List.single_le_sum (l := (List.range t).map (fun j => sqDev (meanOf (target ls j)) (target ls j))) (by
    intro x hx
    obtain ⟨i, _, rfl⟩ := List.mem_map.mp hx
    exact sqDev_nonneg _ _) _ (List.mem_map.mpr ⟨j, hj, rfl⟩)
  rw [wss_eq] at h
  linarith

theorem wss_nonneg (t : ℕ) (ls : List (List ℚ)) : 0 ≤ wss t ls := mul_nonneg (by positivity) (totalVar_nonneg _ _)

/-- a cut with one label on each side is made by a question, if rows with equal values have equal labels -/
theorem decides_of_cut {d : DataSet (Ext ℚ)} {c t : ℕ} (h : d.WF c t) {ls : List (List ℚ)} (hls : d.labels = lift ls) (ha : d.TiesAgree c)
    {q : Question (Ext ℚ)} (hq : q.column < c) {i : ℕ}
    (hi : ((eseq ls (column d.featureRows q.column)).map Prod.fst)[i]? = some q.value)
    (hlo : ∃ row ∈ d.featureRows, satisfies q row = false)
    (h1 : ∀ a ∈ (labs (eseq ls (column d.featureRows q.column))).take i, ∀ b ∈ (labs (eseq ls (column d.featureRows q.column))).take i, a = b)
    (h2 : ∀ a ∈ (labs (eseq ls (column d.featureRows q.column))).drop i, ∀ b ∈ (labs (eseq ls (column d.featureRows q.column))).drop i, a = b) :
    Decides q (d.featureRows.zip ls) := by
  have hlen : ls.length = d.featureRows.length := by rw [← h.label_count, hls, lift_length]
  set col := column d.featureRows q.column with hcol
  have hcl : ls.length = col.length := by rw [hcol, column_length, hlen]
  have hn : ∀ x ∈ col, isNaN x = false := h.col_nan hq
  have hag : ColAgree col ls := colAgree_column h hls ha hq
  have hnn := eseq_mem_nan hcl hn
  have hsort := eseq_sorted (ls := ls) hn
  have hperm := eseq_perm hcl
  set s := eseq ls col with hs
  obtain ⟨bi, ei⟩ := List.getElem?_eq_some_iff.mp hi
  have bi' : i < s.length := by simpa using bi
  have ei' : s[i].1 = q.value := by simpa using ei
  have hvv : NN q.value := by rw [← ei']; exact hnn _ (List.getElem_mem _)
  -- an example is somewhere in the sorted column
  have key : ∀ e ∈ d.featureRows.zip ls, ∃ (k : ℕ) (hk : k < s.length), s[k].1 = e.1.getD q.column F64.zero ∧ s[k].2 = e.2 := by
    intro e he
    have : (e.1.getD q.column F64.zero, e.2) ∈ col.zip ls := by
      rw [hcol, column_zip]
      exact List.mem_map.mpr ⟨e, he, rfl⟩
    obtain ⟨k, hk, hke⟩ := List.getElem_of_mem (hperm.mem_iff.mpr this)
    exact ⟨k, hk, by rw [hke], by rw [hke]⟩
  have hsmall : ∃ w ∈ col, (w <. q.value) = true := by
    obtain ⟨row2, hrow2, hlo⟩ := hlo
    refine ⟨row2.getD q.column F64.zero, List.mem_map_of_mem (f := fun r : List (Ext ℚ) => r.getD q.column F64.zero) hrow2, ?_⟩
    have hx := satisfies_getD h.row_len hq hrow2
    rw [hlo] at hx
    have hnx : NN (row2.getD q.column F64.zero) :=
      nn_of_isNaN_false (hn _ (List.mem_map_of_mem (f := fun r : List (Ext ℚ) => r.getD q.column F64.zero) hrow2))
    exact (not_le hvv hnx).mp hx.symm
  have hyes : ∀ e ∈ d.featureRows.zip ls, satisfies q e.1 = true → e.2 = s[i].2 := by
    intro e he hsat
    obtain ⟨k, hk, hk1, hk2⟩ := key e he
    rw [satisfies_getD h.row_len hq (List.of_mem_zip he).1, ← hk1] at hsat
    rcases Nat.lt_or_ge k i with hlt | hge
    · -- an equal value before the cut
      have hle := List.pairwise_iff_getElem.mp hsort k i hk bi' hlt
      rw [ei'] at hle
      have heq : s[k].1 = s[i].1 := by rw [ei']; exact Ext.eq_of_le hle hsat
      rw [← hk2]
      exact hag _ (hperm.mem_iff.mp (List.getElem_mem hk)) _ (hperm.mem_iff.mp (List.getElem_mem bi')) heq
        (by rw [heq, ei']; exact hsmall)
    · rw [← hk2]
      have hm : ∀ k (hk : k < s.length), i ≤ k → s[k].2 ∈ (labs s).drop i := by
        intro k hk hik
        rw [List.mem_iff_getElem]
        refine ⟨k - i, by simp [labs]; omega, ?_⟩
        simp only [List.getElem_drop, labs, List.getElem_map]
        congr 2
        omega
      exact h2 _ (hm k hk hge) _ (hm i bi' le_rfl)
  have hno : ∀ e ∈ d.featureRows.zip ls, satisfies q e.1 = false → e.2 ∈ (labs s).take i := by
    intro e he hsat
    obtain ⟨k, hk, hk1, hk2⟩ := key e he
    rw [satisfies_getD h.row_len hq (List.of_mem_zip he).1, ← hk1] at hsat
    have hki : k < i := by
      by_contra hge
      have hle : (q.value <=. s[k].1) = true := by
        rw [← ei']
        rcases Nat.eq_or_lt_of_le (Nat.le_of_not_lt hge) with he | hl
        · subst he; exact le_rfl' (by rw [ei']; exact hvv)
        · exact List.pairwise_iff_getElem.mp hsort i k bi' hk hl
      rw [hle] at hsat
      cases hsat
    rw [← hk2, List.mem_iff_getElem]
    exact ⟨k, by simp [labs]; omega, by simp [labs]⟩
  intro e he e' he' hse
  cases hc : satisfies q e.1 with
  | true => rw [hyes e he hc, hyes e' he' (by rw [← hse, hc])]
  | false => exact h1 _ (hno e he hc) _ (hno e' he' (by rw [← hse, hc]))

namespace RuleInts
variable {n t b : ℕ} (h : RuleInts n t b)
include h

theorem fewer {m : ℕ} (hm : m ≤ n) : RuleInts m t b := by
  refine ⟨h.target, h.bound, Nat.lt_of_le_of_lt ?_ h.size⟩
  gcongr

theorem fits : SumsFit n t b := by
  have ht := h.target
  have hsz := h.size
  have hb : 1 ≤ b ^ 2 := Nat.one_le_pow _ _ h.bound
  rcases Nat.eq_zero_or_pos n with rfl | h0
  · exact ⟨ht, by simp, .inr rfl, by simp⟩
  refine ⟨ht, ?_, .inl ?_, ?_⟩
  · by_contra hc
    have : n * 1 * n * 1 ≤ n * t * (n + t) * b ^ 2 := by gcongr; omega
    nlinarith
  · by_contra hc
    have : 1 * t * t * 1 ≤ n * t * (n + t) * b ^ 2 := by gcongr; exact h0; omega
    nlinarith
  · have : n * 1 * 1 * b ^ 2 ≤ n * t * (n + t) * b ^ 2 := by gcongr; omega
    have e : n * 1 * 1 * b ^ 2 = n * b ^ 2 := by ring
    rw [e] at this
    omega

theorem scale (h0 : n ≠ 0) : Scale n (b : ℚ) := by
  have h1 : (1 : ℚ) ≤ b := by exact_mod_cast h.bound
  refine ⟨h.fits.rows, ?_, ?_⟩
  · refine _root_.le_trans ?_ h1
    rw [div_le_one (by positivity)]
    exact one_le_pow₀ (by norm_num)
  · have h2 := h.fits.square
    have h3 : b ≤ 2 ^ 53 := by
      refine Nat.le_trans ?_ h2
      have := h.bound
      have : 1 ≤ n := Nat.pos_of_ne_zero h0
      nlinarith
    have h4 : (b : ℚ) ≤ 2 ^ 53 := by exact_mod_cast h3
    exact h4.trans (pow_le_pow_right₀ (by norm_num) (by norm_num))

theorem tolerance : (n : ℚ) * (2 * splitTolerance n t b) < 1 / 2 := by
  have h1 : ((n * t * (n + t) * b ^ 2 : ℕ) : ℚ) < ((2 ^ 42 : ℕ) : ℚ) := by exact_mod_cast h.size
  push_cast at h1
  have e : (n : ℚ) * (2 * splitTolerance n t b) = 2 * ((n : ℚ) * t * (n + t) * b ^ 2) / 2 ^ 44 := by
    unfold splitTolerance
    ring
  rw [e, div_lt_iff₀ (by positivity)]
  linarith

end RuleInts

variable [B64Env]

theorem rule_search64 {d : DataSet B64} {c t b : ℕ} (h : d.WF c t) (hI : IntLabels b d.labels) (hf : RuleInts d.labels.length t b)
    (ha : d.exact.TiesAgree c) {q₀ : Question (Ext ℚ)} (hq : q₀.column < c) (hd : Decides q₀ d.exact.examples) :
    (((splitOf d t).gain ==. F64.zero) = true → ∀ l ∈ d.labels, ∀ l' ∈ d.labels, l.map B64.val = l'.map B64.val) ∧
    (((splitOf d t).gain ==. F64.zero) = false → Decides (splitOf d t).question.exact d.exact.examples) := by
  obtain ⟨ls, hls, hB, hw⟩ := hI.exact
  have hls : d.exact.labels = lift ls := hls
  have hlen : ls.length = d.labels.length := by
    have := congrArg List.length hls
    simpa [DataSet.exact, lift] using this.symm
  have h0 : d.labels.length ≠ 0 := by
    have := List.length_pos_of_ne_nil h.labels_ne
    omega
  have ht2 : t ≤ 2 ^ 24 := hf.fits.targets.resolve_right h0
  have hE := h.exact
  have htw : ∀ v ∈ ls, v.length = t := lift_width hls hE.label_len
  have hd' : Decides q₀ (d.exact.featureRows.zip ls) := by
    rw [DataSet.examples, hls] at hd
    exact Decides.of_map (fun _ _ _ _ h => liftV_injective h) hd
  obtain ⟨g, h1, h2, h3, h4, h5⟩ := splitOf_near (B := b) (by rw [hlen]; exact hf.scale h0) hf.target ht2 h hls hB
  have h6 := h4 q₀ hq
  rw [reduction_of_decides hd'] at h6
  have htol := hf.tolerance
  rw [← hlen] at htol
  have hn0 : (0 : ℚ) < ls.length := by
    have : 0 < ls.length := by omega
    exact_mod_cast this
  have hδ : 0 ≤ splitTolerance ls.length t b := by unfold splitTolerance; positivity
  constructor
  · intro hg
    rw [eq_val, h1, zero_val] at hg
    have hg0 : g = 0 := by simpa using hg
    have hc := const_of_wss hw htw (by
      rw [wss]
      nlinarith)
    intro l hl l' hl'
    have m1 : l.map B64.val ∈ lift ls := by rw [← hls]; exact List.mem_map_of_mem hl
    have m2 : l'.map B64.val ∈ lift ls := by rw [← hls]; exact List.mem_map_of_mem hl'
    obtain ⟨v, hv, e1⟩ := mem_lift.mp m1
    obtain ⟨v', hv', e2⟩ := mem_lift.mp m2
    rw [← e1, ← e2, hc v hv v' hv']
  · intro hg
    obtain ⟨_, _, _, _, ⟨row2, hrow2, hlo⟩⟩ := splitOf_separates h hg
    rcases h5 with h5 | ⟨i, hi, hc, hg0, hg'⟩
    · rw [eq_val, h1, zero_val, h5] at hg
      simp at hg
    have hcand := (abs_le.mp hg').2
    have hcl : ls.length = (column d.exact.featureRows (splitOf d t).question.column).length := by
      rw [column_length, ← hE.label_count, hls, lift_length]
    have hperm := labs_perm hcl
    have hsl : (eseq ls (column d.exact.featureRows (splitOf d t).question.column)).length = ls.length := by
      have := hperm.length_eq
      simpa [labs] using this
    rw [candAt_wss, hsl] at hcand
    have hwl : Whole (labs (eseq ls (column d.exact.featureRows (splitOf d t).question.column))) := fun v hv => hw v (hperm.mem_iff.mp hv)
    have n1 := wss_nonneg t ((labs (eseq ls (column d.exact.featureRows (splitOf d t).question.column))).take i)
    have n2 := wss_nonneg t ((labs (eseq ls (column d.exact.featureRows (splitOf d t).question.column))).drop i)
    have hsum : wss t ((labs (eseq ls (column d.exact.featureRows (splitOf d t).question.column))).take i) +
        wss t ((labs (eseq ls (column d.exact.featureRows (splitOf d t).question.column))).drop i) < 1 / 2 := by
      have h7 : (wss t ((labs (eseq ls (column d.exact.featureRows (splitOf d t).question.column))).take i) +
        wss t ((labs (eseq ls (column d.exact.featureRows (splitOf d t).question.column))).drop i)) / ls.length ≤
          2 * splitTolerance ls.length t b := by linarith
      rw [div_le_iff₀ hn0] at h7
      linarith
    have hdec := decides_of_cut hE hls ha (q := (splitOf d t).question.exact) hc hi
      ⟨row2.map B64.val, List.mem_map_of_mem hrow2, by rw [satisfies_val]; exact hlo⟩
      (const_of_wss (fun v hv => hwl v (List.mem_of_mem_take hv)) (fun v hv => htw v (hperm.mem_iff.mp (List.mem_of_mem_take hv))) (by
        change wss t (List.take i (labs (eseq ls (column d.exact.featureRows (splitOf d t).question.column)))) < 1 / 2
        linarith))
      (const_of_wss (fun v hv => hwl v (List.mem_of_mem_drop hv)) (fun v hv => htw v (hperm.mem_iff.mp (List.mem_of_mem_drop hv))) (by
        change wss t (List.drop i (labs (eseq ls (column d.exact.featureRows (splitOf d t).question.column)))) < 1 / 2
        linarith))
    rw [DataSet.examples, hls]
    exact hdec.map liftV

end Verif
