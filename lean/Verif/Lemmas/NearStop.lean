import Verif.Lemmas.Stop
import Verif.Lemmas.NearTree
import Verif.Lemmas.NearBest
/-! # When binary64 finds nothing left to learn -/

set_option linter.unusedSectionVars false

namespace Verif

open B64

section
variable [B64Env]
variable {t : ℕ} {B : ℚ} {ls : List (List ℚ)} (hS : Scale ls.length B) (ht1 : 1 ≤ t) (ht2 : t ≤ 2 ^ 24)
include hS ht1 ht2

/-- if the computed gain is zero, no cut reduces the variance by more than the tolerance -/
theorem cut_near {d : DataSet B64} {c : ℕ} (h : d.WF c t) (hls : d.exact.labels = lift ls) (hB : AtMost B ls)
    (hg : ((splitOf d t).gain ==. F64.zero) = true) {j r : ℕ} (hj : j < c) (hr : IsCut d.exact.featureRows j r) :
    cutReduction t d.exact.featureRows ls j r ≤ splitTolerance ls.length t B := by
  have hE := h.exact
  have hlen : ls.length = d.exact.featureRows.length := by rw [← hE.label_count, hls, lift_length]
  have hlen' : ls.length = d.featureRows.length := by rw [hlen]; simp [DataSet.exact]
  have hne : ls ≠ [] := by
    rintro rfl
    exact hE.rows_ne (List.eq_nil_of_length_eq_zero hlen.symm)
  have hn1 : 1 ≤ ls.length := List.length_pos_of_ne_nil hne
  have ht : ∀ v ∈ ls, v.length = t := by
    intro v hv
    have := hE.label_len (liftV v) (by rw [hls]; exact mem_lift.mpr ⟨v, hv, rfl⟩)
    rwa [liftV_length] at this
  have hcl : ls.length = (column d.featureRows j).length := by rw [column_length, hlen']
  have hcv : (column d.featureRows j).map B64.val = column d.exact.featureRows j := column_val _ j
  have hcl' : ls.length = (column d.exact.featureRows j).length := by rw [column_length, hlen]
  have htl := totalVar_le hS ht1 ht2 hB
  have htot : Near (totalVariance d.labels t) (totalVar t ls) ((88 * ls.length + 2 * t) * (t * (u * (B * B)))) := by
    have hr := metricsOf_near hS hls ht hB le_rfl
    have := totalVar_near hS ht1 ht2 hn1 hr (by omega) rfl hB
    exact this
  have hn := hE.col_nan hj
  obtain ⟨k, hk⟩ := row_position (j := j) hr.1
  have hs := sorted_pairwise (v := (column d.exact.featureRows j).zipIdx) (fun p hp => nn_of_isNaN_false (hn p.1 (List.fst_mem_of_mem_zipIdx hp)))
  rw [← candAt_cut hn hk]
  have hfst : ((eseq ls (column d.exact.featureRows j)).map Prod.fst)[k]? = some ((column d.exact.featureRows j).getD r F64.zero) := by
    rw [eseq_fst, hk]; rfl
  have hmem : ∀ a < d.exact.featureRows.length, (column d.exact.featureRows j).getD a F64.zero ∈ column d.exact.featureRows j := by
    intro a ha
    rw [← column_length (j := j)] at ha
    rw [List.getD, List.getElem?_eq_getElem ha]
    exact List.getElem_mem ha
  obtain ⟨hrl, a, ha, hlt⟩ := hr
  rcases colResult_near hS ht1 ht2 hls hcl ht hne hB (h.col_nan hj) with ⟨_, hconst⟩ | ⟨i, v, m, L, _, hi, _, hm, _, hL, hLe, hmin⟩
  · exfalso
    rw [hcv] at hconst
    have := hconst _ (hmem a ha) _ (hmem r hrl)
    have h2 := lt_ne' hlt
    rw [eq_symm' this] at h2
    simp at h2
  · rw [hcv] at hm hmin hLe
    have hw : ((column d.exact.featureRows j).getD r F64.zero ==. m) = false := by
      obtain ⟨k', hk'⟩ := row_position (j := j) ha
      rw [eseq_fst] at hm
      have hpos : 0 < (sorted (column d.exact.featureRows j).zipIdx).length := by
        by_contra h0
        rw [List.getElem?_eq_none (by simpa using h0)] at hm
        simp at hm
      rw [List.getElem?_eq_getElem hpos] at hm
      have hm : (sorted (column d.exact.featureRows j).zipIdx)[0].1 = m := by simpa using hm
      have hle : (m <=. (column d.exact.featureRows j).getD a F64.zero) = true := by
        obtain ⟨hkl, he⟩ := List.getElem?_eq_some_iff.mp hk'
        rcases Nat.eq_zero_or_pos k' with rfl | hk0
        · rw [← hm, he]
          exact le_rfl' (nn_of_isNaN_false (hn _ (hmem a ha)))
        · have := tupleLe_le (List.pairwise_iff_getElem.mp hs 0 k' hpos hkl hk0)
          rw [he, hm] at this
          exact this
      exact lt_ne' (lt_of_le_of_lt hle hlt)
    obtain ⟨hx0, hxt⟩ := candAt_bounds (t := t) hcl' hi
    obtain ⟨g, hgv, hge⟩ := gain_near hS ht1 ht2 hn1 htot hL hLe hx0 hxt htl
    have h1 := hmin k _ hfst hw
    have h2 := (abs_le.mp hge).1
    have hmemc : colResult d.labels t (column d.featureRows j) ∈ d.featureColumns.map (colResult d.labels t) := by
      rw [h.cols, columnsOf, List.map_map]
      exact List.mem_map.mpr ⟨j, List.mem_range.mpr hj, rfl⟩
    have hg0 : g ≤ 0 := by
      unfold splitOf at hg
      rcases bestColumn_spec (totalVariance d.labels t) (d.featureColumns.map (colResult d.labels t)) with
        ⟨_, b2⟩ | ⟨_, r', _, b1, b2, _⟩
      · have := b2 _ hmemc
        rw [gainOf, lt_val, hgv, zero_val] at this
        simpa using this
      · rw [b1] at hg
        have := lt_ne' b2
        rw [hg] at this
        simp at this
    linarith

end

/-- a cut that reduces the variance of whole labels reduces it by at least `4 / n^5` -/
theorem cut_gap {t : ℕ} {rows : List (List (Ext ℚ))} {ls : List (List ℚ)} (hlen : ls.length = rows.length) (hne : ls ≠ []) (hw : Whole ls)
    {j r : ℕ} (h : 0 < cutReduction t rows ls j r) : 4 ≤ (ls.length : ℚ) ^ 5 * cutReduction t rows ls j r := by
  have hp : 0 < ls.length := List.length_pos_of_ne_nil hne
  have h0 : (0 : ℚ) < ls.length := by exact_mod_cast hp
  have hl : (labelsBefore rows ls j r).length + (labelsFrom rows ls j r).length = ls.length := by
    rw [labelsBefore, labelsFrom, List.length_map, List.length_map, hlen, ← List.length_append,
      (List.filter_append_perm _ _).length_eq, List.length_range]
  have hsub : ∀ a, a < rows.length → ls.getD a [] ∈ ls := by
    intro a ha
    rw [← hlen] at ha
    rw [List.getD, List.getElem?_eq_getElem ha]
    exact List.getElem_mem ha
  have w1 : Whole (labelsBefore rows ls j r) := by
    intro v hv
    obtain ⟨a, ha, rfl⟩ := List.mem_map.mp hv
    exact hw _ (hsub a (List.mem_range.mp (List.mem_filter.mp ha).1))
  have w2 : Whole (labelsFrom rows ls j r) := by
    intro v hv
    obtain ⟨a, ha, rfl⟩ := List.mem_map.mp hv
    exact hw _ (hsub a (List.mem_range.mp (List.mem_filter.mp ha).1))
  have e : (ls.length : ℚ) * cutReduction t rows ls j r = ls.length * totalVar t ls -
      ((labelsBefore rows ls j r).length * totalVar t (labelsBefore rows ls j r) +
        (labelsFrom rows ls j r).length * totalVar t (labelsFrom rows ls j r)) := by
    have : ((labelsBefore rows ls j r).length : ℚ) + (labelsFrom rows ls j r).length = ls.length := by exact_mod_cast hl
    rw [cutReduction, this]
    field_simp
  have hm := mul_pos h0 h
  have := parts_gap (t := t) (a' := []) (b' := ls) w1 w2 (by intro v hv; simp at hv) hw hp hl (by simp)
    (by rw [List.length_nil]; push_cast; linarith)
  rw [List.length_nil] at this
  push_cast at this
  calc (4 : ℚ) ≤ _ := this
    _ = (ls.length : ℚ) ^ 4 * (ls.length * cutReduction t rows ls j r) := by rw [e]; ring
    _ = _ := by ring

/-- if the computed gain is zero, there is nothing left to learn -/
theorem settled_of_gain_zero [B64Env] {d : DataSet B64} {c t b : ℕ} (h : d.WF c t) {ls : List (List ℚ)} (hls : d.exact.labels = lift ls)
    (hS : Scale ls.length b) (hB : AtMost (b : ℚ) ls) (hw : Whole ls) (ht2 : t ≤ 2 ^ 24) (hf : GapInts ls.length t b)
    (hg : ((splitOf d t).gain ==. F64.zero) = true) : NothingLeft t (d.exact.featureRows.zip ls) := by
  have hE := h.exact
  have hlen : ls.length = d.exact.featureRows.length := by rw [← hE.label_count, hls, lift_length]
  have hne : ls ≠ [] := by
    rintro rfl
    exact hE.rows_ne (List.eq_nil_of_length_eq_zero hlen.symm)
  rw [← gain_zero_iff hE hls]
  obtain ⟨g, h1, h2, h3⟩ := splitOf_cut hE hls
  rcases h3 with ⟨rfl, _⟩ | ⟨hpos, hc, r, hr, _, hgr, _⟩
  · rw [h1]; simp [Ext.zero_def]
  · exfalso
    have a1 := cut_near hS hf.target ht2 h hls hB hg hc hr
    have a2 := cut_gap hlen hne hw (by rw [← hgr]; exact hpos)
    have a3 := hf.tolerance
    have h5 : (0 : ℚ) ≤ (ls.length : ℚ) ^ 5 := by positivity
    have a4 := mul_le_mul_of_nonneg_left a1 h5
    rw [hgr] at hpos
    have a5 := mul_nonneg h5 (hpos.le.trans a1)
    linarith

end Verif
