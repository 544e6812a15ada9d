import Verif.Lemmas.ExactSplit
import Verif.Spec.Cut
/-! # The split search in exact arithmetic, with repeated feature values -/

set_option linter.unusedSectionVars false

namespace Verif

section order
variable {F : Type} [F64 F] [LawfulOrder F]
open LawfulOrder

/-- the scan returns the first smallest loss -/
theorem foldl_pickBest_first {l : List (BestThresholdResult F)} {b : BestThresholdResult F} (hb : NN b.loss)
    (hl : ∀ c ∈ l, NN c.loss) :
    (l.foldl pickBest b = b ∧ ∀ c ∈ l, (b.loss <=. c.loss) = true) ∨
    ∃ pre c post, l = pre ++ c :: post ∧ l.foldl pickBest b = c ∧ (c.loss <. b.loss) = true ∧
      (∀ c' ∈ l, (c.loss <=. c'.loss) = true) ∧ ∀ c' ∈ pre, (c.loss <. c'.loss) = true := by
  induction l using List.reverseRecOn with
  | nil => exact .inl ⟨rfl, by simp⟩
  | append_singleton l x ih =>
    have hx : NN x.loss := hl x (by simp)
    rw [List.foldl_append, List.foldl_cons, List.foldl_nil]
    rcases ih (fun c hc => hl c (by simp [hc])) with ⟨h1, h2⟩ | ⟨pre, c, post, h0, h1, h2, h3, h4⟩
    · rw [h1]
      unfold pickBest
      split
      · next hlt =>
        refine .inr ⟨l, x, [], rfl, rfl, hlt, ?_, ?_⟩
        · intro c' hc'
          rcases List.mem_append.mp hc' with hc' | hc'
          · exact le_trans (lt_le hlt) (h2 c' hc')
          · rw [List.mem_singleton.mp hc']; exact le_rfl' hx
        · intro c' hc'
          exact lt_of_lt_of_le hlt (h2 c' hc')
      · next hlt =>
        refine .inl ⟨rfl, ?_⟩
        intro c' hc'
        rcases List.mem_append.mp hc' with hc' | hc'
        · exact h2 c' hc'
        · rw [List.mem_singleton.mp hc']
          exact (not_lt hx hb).mp (by simpa using hlt)
    · rw [h1]
      have hc : NN c.loss := hl c (by rw [h0]; simp)
      unfold pickBest
      split
      · next hlt =>
        refine .inr ⟨l, x, [], rfl, rfl, lt_trans' hlt h2, ?_, ?_⟩
        · intro c' hc'
          rcases List.mem_append.mp hc' with hc' | hc'
          · exact le_trans (lt_le hlt) (h3 c' hc')
          · rw [List.mem_singleton.mp hc']; exact le_rfl' hx
        · intro c' hc'
          exact lt_of_lt_of_le hlt (h3 c' hc')
      · next hlt =>
        refine .inr ⟨pre, c, post ++ [x], by rw [h0]; simp, rfl, h2, ?_, h4⟩
        intro c' hc'
        rcases List.mem_append.mp hc' with hc' | hc'
        · exact h3 c' hc'
        · rw [List.mem_singleton.mp hc']
          exact (not_lt hx hc).mp (by simpa using hlt)

end order

/-- splitting a filtered range -/
theorem filterMap_range_split {β : Type} {f : Nat → Option β} {n : Nat} {pre : List β} {c : β} {post : List β}
    (h : (List.range n).filterMap f = pre ++ c :: post) :
    ∃ i < n, f i = some c ∧ ∀ k < i, ∀ b, f k = some b → b ∈ pre := by
  obtain ⟨r1, r2, hr, h1, h2⟩ := List.filterMap_eq_append_iff.mp h
  obtain ⟨skip, i, r3, hr2, hskip, hi, h3⟩ := List.filterMap_eq_cons_iff.mp h2
  have hpw : (List.range n).Pairwise (· < ·) := List.pairwise_lt_range
  have hmem : i ∈ List.range n := by rw [hr, hr2]; simp
  refine ⟨i, List.mem_range.mp hmem, hi, ?_⟩
  intro k hk b hb
  have hkn : k ∈ List.range n := List.mem_range.mpr (by have := List.mem_range.mp hmem; omega)
  rw [hr, hr2] at hkn hpw
  rw [List.pairwise_append, List.pairwise_append] at hpw
  rcases List.mem_append.mp hkn with hk1 | hk1
  · rw [← h1]
    exact List.mem_filterMap.mpr ⟨k, hk1, hb⟩
  · rcases List.mem_append.mp hk1 with hk1 | hk1
    · rw [hskip k hk1] at hb; cases hb
    · exfalso
      rcases List.mem_cons.mp hk1 with rfl | hk1
      · omega
      · have := (List.pairwise_cons.mp hpw.2.1.2.1).1 k hk1
        omega

section ordered
variable {K : Type} [Field K] [LinearOrder K] [IsStrictOrderedRing K] [FloorSemiring K] [HasExp K]
open LawfulOrder

/-- the candidates of a scan, in order -/
theorem cands_exact_list {t : Nat} {prev : Ext K} (s : List (Ext K × List K)) (hs : ∀ p ∈ s, p.2.length = t)
    (a : List (List K)) :
    cands prev (trk t a) (trk t (labs s)) (s.map (fun p => (p.1, liftV p.2))) =
      (List.range s.length).filterMap (fun i => ((s.map Prod.fst)[i]?).bind (fun v => if v ==. prev then none else
        some { loss := splitLoss (trk t (a ++ (labs s).take i)) (trk t ((labs s).drop i)), thresholdValue := v })) := by
  induction s generalizing a with
  | nil => simp [cands]
  | cons p rest ih =>
    obtain ⟨v, l⟩ := p
    have hl : l.length = t := hs (v, l) (by simp)
    have hrest : cands prev (updLeft (trk t a) (liftV l)) (updRight (trk t (labs ((v, l) :: rest))) (liftV l))
          (rest.map (fun p => (p.1, liftV p.2))) =
        cands prev (trk t (a ++ [l])) (trk t (labs rest)) (rest.map (fun p => (p.1, liftV p.2))) := by
      cases rest with
      | nil => simp [cands]
      | cons q rest' =>
        rw [updLeft_exact hl, show labs ((v, l) :: q :: rest') = l :: labs (q :: rest') from rfl,
          updRight_exact hl (by simp [labs])]
    simp only [List.map_cons, cands, hrest, ih (fun p hp => hs p (by simp [hp])) (a ++ [l])]
    rw [List.length_cons, List.range_succ_eq_map, List.filterMap_cons, List.filterMap_map]
    have htail : ((fun i => ((v :: List.map Prod.fst rest)[i]?).bind (fun w => if w ==. prev then none else
          some ({ loss := splitLoss (trk t (a ++ (labs ((v, l) :: rest)).take i)) (trk t ((labs ((v, l) :: rest)).drop i)),
                  thresholdValue := w } : BestThresholdResult (Ext K)))) ∘ Nat.succ) =
        (fun i => ((List.map Prod.fst rest)[i]?).bind (fun w => if w ==. prev then none else
          some { loss := splitLoss (trk t (a ++ [l] ++ (labs rest).take i)) (trk t ((labs rest).drop i)), thresholdValue := w })) := by
      funext i
      simp [labs]
    rw [htail]
    cases hv : (v ==. prev) with
    | true => simp [hv]
    | false => simp [hv]

/-- the result for a column, in exact arithmetic, with the position chosen -/
theorem colResult_first {t : Nat} {ls : List (List K)} {col : List (Ext K)} (h : ls.length = col.length)
    (ht : ∀ v ∈ ls, v.length = t) (hne : ls ≠ []) (hn : ∀ x ∈ col, isNaN x = false) {m : Ext K}
    (hm : ((eseq ls col).map Prod.fst)[0]? = some m) :
    (colResult (lift ls) t col = { loss := .posInf, thresholdValue := .fin 0 } ∧
      ∀ (k : Nat) (w : Ext K), ((eseq ls col).map Prod.fst)[k]? = some w → (w ==. m) = true) ∨
    ∃ (i : Nat) (v : Ext K), ((eseq ls col).map Prod.fst)[i]? = some v ∧ (v ==. m) = false ∧
      colResult (lift ls) t col = { loss := .fin (candAt t (eseq ls col) i), thresholdValue := v } ∧
      (∀ (k : Nat) (w : Ext K), ((eseq ls col).map Prod.fst)[k]? = some w → (w ==. m) = false → candAt t (eseq ls col) i ≤ candAt t (eseq ls col) k) ∧
      (∀ (k : Nat) (w : Ext K), k < i → ((eseq ls col).map Prod.fst)[k]? = some w → (w ==. m) = false →
        candAt t (eseq ls col) i < candAt t (eseq ls col) k) := by
  have hnn := eseq_mem_nan h hn
  have key : ∀ (i : Nat) (v : Ext K), ((eseq ls col).map Prod.fst)[i]? = some v → (v ==. m) = false →
      splitLoss (trk t ([] ++ (labs (eseq ls col)).take i)) (trk t ((labs (eseq ls col)).drop i)) =
        .fin (candAt t (eseq ls col) i) := by
    intro i v h1 h2
    have hi : i < (eseq ls col).length := by
      have := (List.getElem?_eq_some_iff.mp h1).1
      simpa using this
    have hi0 : i ≠ 0 := by
      rintro rfl
      rw [hm] at h1
      simp only [Option.some.injEq] at h1
      subst h1
      obtain ⟨p, hp, hpm⟩ := List.mem_map.mp (List.mem_of_getElem? hm)
      have := hnn p hp
      rw [hpm] at this
      rw [show (m ==. m) = true from this] at h2
      simp at h2
    rw [List.nil_append, splitLoss_exact, candAt]
    · intro hnil
      have := congrArg List.length hnil
      simp [labs] at this
      rcases this with h | h
      · exact hi0 h
      · rw [h] at hi; simp at hi
    · intro hnil
      have := congrArg List.length hnil
      simp [labs] at this
      omega
  have hhead : ((seqOf (lift ls) col).map Prod.fst).headD F64.zero = m := by
    rw [seqOf_lift, List.map_map]
    rw [← List.head?_eq_getElem?] at hm
    rw [List.headD_eq_head?_getD]
    have : (Prod.fst ∘ fun p : Ext K × List K => (p.1, liftV p.2)) = Prod.fst := rfl
    rw [this, hm]; rfl
  have hres : colResult (lift ls) t col =
      ((List.range (eseq ls col).length).filterMap (fun i => (((eseq ls col).map Prod.fst)[i]?).bind (fun v =>
        if v ==. m then none else some { loss := .fin (candAt t (eseq ls col) i), thresholdValue := v }))).foldl pickBest
        { loss := F64.infinity, thresholdValue := F64.zero } := by
    rw [colResult, scanResult, hhead, leftStart_exact, rightStart_exact h ht hne, seqOf_lift,
      cands_exact_list _ (eseq_mem_lab h ht)]
    congr 1
    apply List.filterMap_congr
    intro i _
    cases hi : ((eseq ls col).map Prod.fst)[i]? with
    | none => rfl
    | some v =>
      simp only [Option.bind_some]
      cases hv : (v ==. m) with
      | true => rfl
      | false => simp only [Bool.false_eq_true, if_false]; rw [key i v hi hv]
  have hmem : ∀ (k : Nat) (w : Ext K), ((eseq ls col).map Prod.fst)[k]? = some w → (w ==. m) = false →
      ({ loss := .fin (candAt t (eseq ls col) k), thresholdValue := w } : BestThresholdResult (Ext K)) ∈
      ((List.range (eseq ls col).length).filterMap (fun i => (((eseq ls col).map Prod.fst)[i]?).bind (fun v =>
        if v ==. m then none else some { loss := .fin (candAt t (eseq ls col) i), thresholdValue := v }))) := by
    intro k w hk hw
    have hkl : k < (eseq ls col).length := by
      have := (List.getElem?_eq_some_iff.mp hk).1
      simpa using this
    exact List.mem_filterMap.mpr ⟨k, List.mem_range.mpr hkl, by rw [hk]; simp [hw]⟩
  rw [hres]
  rcases foldl_pickBest_first (b := ({ loss := F64.infinity, thresholdValue := F64.zero } : BestThresholdResult (Ext K)))
      (l := (List.range (eseq ls col).length).filterMap (fun i => (((eseq ls col).map Prod.fst)[i]?).bind (fun v =>
        if v ==. m then none else some { loss := .fin (candAt t (eseq ls col) i), thresholdValue := v }))) (by rfl)
      (by
        intro c hc
        obtain ⟨i, _, hi⟩ := List.mem_filterMap.mp hc
        obtain ⟨v, _, hv⟩ := Option.bind_eq_some_iff.mp hi
        split at hv
        · cases hv
        · cases hv; simp [NN]) with ⟨h1, h2⟩ | ⟨pre, c, post, h0, h1, h2, h3, h4⟩
  · left
    refine ⟨h1, ?_⟩
    intro k w hk
    cases hw : (w ==. m) with
    | true => rfl
    | false => exact absurd (h2 _ (hmem k w hk hw)) (by simp [F64.le, Ext.le])
  · right
    obtain ⟨i, hil, hi, hbef⟩ := filterMap_range_split h0
    obtain ⟨v, hv, hc⟩ := Option.bind_eq_some_iff.mp hi
    split at hc
    · cases hc
    next hvm =>
    cases hc
    refine ⟨i, v, hv, by simpa using hvm, h1, ?_, ?_⟩
    · intro k w hk hw
      have := h3 _ (hmem k w hk hw)
      simpa using this
    · intro k w hki hk hw
      have := h4 _ (hbef k hki { loss := .fin (candAt t (eseq ls col) k), thresholdValue := w } (by rw [hk]; simp [hw]))
      simpa using this

/-! ## positions in the sorted column and rows -/

theorem zipIdx_eq_range {col : List (Ext K)} : col.zipIdx = (List.range col.length).map (fun a => (col.getD a F64.zero, a)) := by
  apply List.ext_getElem (by simp)
  intro i h1 h2
  simp at h1
  simp [h1]

theorem mem_sorted {col : List (Ext K)} {p : Ext K × Nat} (hp : p ∈ sorted col.zipIdx) :
    p.2 < col.length ∧ p.1 = col.getD p.2 F64.zero := by
  have := (sorted_perm _).mem_iff.mp hp
  rw [zipIdx_eq_range] at this
  obtain ⟨a, ha, rfl⟩ := List.mem_map.mp this
  exact ⟨List.mem_range.mp ha, rfl⟩

theorem sorted_nodup {col : List (Ext K)} : ((sorted col.zipIdx).map Prod.snd).Nodup := by
  have h1 : ((sorted col.zipIdx).map Prod.snd).Perm (col.zipIdx.map Prod.snd) := (sorted_perm _).map _
  rw [h1.nodup_iff, zipIdx_eq_range, List.map_map]
  have : (Prod.snd ∘ fun a => (col.getD a (F64.zero : Ext K), a)) = id := rfl
  rw [this, List.map_id]
  exact List.nodup_range

/-- strictly before, on (value, row) pairs -/
def pairBefore (a b : Ext K × Nat) : Bool := (a.1 <. b.1) || ((a.1 ==. b.1) && decide (a.2 < b.2))

theorem pairBefore_of_le {a b : Ext K × Nat} (h : tupleLe a b = true) (hne : a.2 ≠ b.2) : pairBefore a b = true := by
  simp only [tupleLe, pairBefore, Bool.or_eq_true, Bool.and_eq_true, decide_eq_true_eq] at h ⊢
  rcases h with h | h
  · exact .inl h
  · exact .inr ⟨h.1, by omega⟩

theorem not_pairBefore_of_le {a b : Ext K × Nat} (h : tupleLe a b = true) : pairBefore b a = false := by
  simp only [tupleLe, Bool.or_eq_true, Bool.and_eq_true, decide_eq_true_eq] at h
  simp only [pairBefore, Bool.or_eq_false_iff, Bool.and_eq_false_iff, decide_eq_false_iff_not]
  rcases h with h | h
  · refine ⟨?_, .inl (lt_ne' h)⟩
    cases h2 : (b.1 <. a.1) with
    | false => rfl
    | true => have := lt_trans' h h2; rw [lt_irrefl'] at this; simp at this
  · refine ⟨?_, .inr (by omega)⟩
    cases h2 : (b.1 <. a.1) with
    | false => rfl
    | true => have := lt_ne' h2; rw [h.1] at this; simp at this

theorem pairBefore_comes {rows : List (List (Ext K))} {j : Nat} {a b : Ext K × Nat}
    (ha : a ∈ sorted (column rows j).zipIdx) (hb : b ∈ sorted (column rows j).zipIdx) :
    pairBefore a b = comesBefore rows j a.2 b.2 := by
  rw [pairBefore, comesBefore, (mem_sorted ha).2, (mem_sorted hb).2]

/-- earlier positions hold rows that come before -/
theorem sorted_before {rows : List (List (Ext K))} {j : Nat} (hn : ∀ x ∈ column rows j, isNaN x = false)
    {k i : Nat} {p q : Ext K × Nat} (hp : (sorted (column rows j).zipIdx)[k]? = some p)
    (hq : (sorted (column rows j).zipIdx)[i]? = some q) : comesBefore rows j p.2 q.2 = true ↔ k < i := by
  have hs := sorted_pairwise (v := (column rows j).zipIdx) (fun p hp => nn_of_isNaN_false (hn p.1 (List.fst_mem_of_mem_zipIdx hp)))
  rw [← pairBefore_comes (List.mem_of_getElem? hp) (List.mem_of_getElem? hq)]
  obtain ⟨hk, rfl⟩ := List.getElem?_eq_some_iff.mp hp
  obtain ⟨hi, rfl⟩ := List.getElem?_eq_some_iff.mp hq
  rcases Nat.lt_trichotomy k i with hlt | heq | hgt
  · refine iff_of_true (pairBefore_of_le (List.pairwise_iff_getElem.mp hs k i hk hi hlt) ?_) hlt
    intro he
    have hnd := sorted_nodup (col := column rows j)
    have := (List.Nodup.getElem_inj_iff hnd (i := k) (hi := by simpa using hk) (j := i) (hj := by simpa using hi)).mp (by simpa using he)
    omega
  · subst heq
    refine iff_of_false ?_ (by omega)
    simp [pairBefore, lt_irrefl']
  · refine iff_of_false ?_ (by omega)
    rw [not_pairBefore_of_le (List.pairwise_iff_getElem.mp hs i k hi hk hgt)]
    simp

theorem column_map_sorted {rows : List (List (Ext K))} {ls : List (List K)} {j : Nat} (f : Nat → Bool) :
    (((sorted (column rows j).zipIdx).filter (fun p => f p.2)).map (fun p => ls.getD p.2 [])).Perm
      (((List.range rows.length).filter f).map (fun a => ls.getD a [])) := by
  have h1 := ((sorted_perm (column rows j).zipIdx).filter (fun p => f p.2)).map (fun p => ls.getD p.2 [])
  rw [zipIdx_eq_range, column_length, List.filter_map, List.map_map] at h1
  rw [zipIdx_eq_range, column_length]
  exact h1

/-- a position of the scan is a cut of the ordered rows -/
theorem candAt_cut {t : Nat} {rows : List (List (Ext K))} {ls : List (List K)} {j : Nat}
    (hn : ∀ x ∈ column rows j, isNaN x = false) {i : Nat} {p : Ext K × Nat}
    (hp : (sorted (column rows j).zipIdx)[i]? = some p) :
    totalVar t ls - candAt t (eseq ls (column rows j)) i = cutReduction t rows ls j p.2 := by
  have hil := (List.getElem?_eq_some_iff.mp hp).1
  have hlow : (sorted (column rows j).zipIdx).filter (fun q => comesBefore rows j q.2 p.2) = (sorted (column rows j).zipIdx).take i ∧
      (sorted (column rows j).zipIdx).filter (fun q => !comesBefore rows j q.2 p.2) = (sorted (column rows j).zipIdx).drop i := by
    have h1 : ∀ q ∈ (sorted (column rows j).zipIdx).take i, comesBefore rows j q.2 p.2 = true := by
      intro q hq
      obtain ⟨k, hk⟩ := List.getElem?_of_mem hq
      rw [List.getElem?_take] at hk
      split at hk
      · next hki => exact (sorted_before hn hk hp).mpr hki
      · cases hk
    have h2 : ∀ q ∈ (sorted (column rows j).zipIdx).drop i, comesBefore rows j q.2 p.2 = false := by
      intro q hq
      obtain ⟨k, hk⟩ := List.getElem?_of_mem hq
      rw [List.getElem?_drop] at hk
      have := (sorted_before hn hk hp).not
      simpa using this
    constructor
    · conv_lhs => rw [← List.take_append_drop i (sorted (column rows j).zipIdx)]
      rw [List.filter_append, List.filter_eq_self.mpr h1, List.filter_eq_nil_iff.mpr (fun q hq => by simp [h2 q hq]), List.append_nil]
    · conv_lhs => rw [← List.take_append_drop i (sorted (column rows j).zipIdx)]
      rw [List.filter_append, List.filter_eq_nil_iff.mpr (fun q hq => by simp [h1 q hq]), List.nil_append,
        List.filter_eq_self.mpr (fun q hq => by simp [h2 q hq])]
  have h3 := column_map_sorted (rows := rows) (ls := ls) (j := j) (fun a => comesBefore rows j a p.2)
  have h4 := column_map_sorted (rows := rows) (ls := ls) (j := j) (fun a => !comesBefore rows j a p.2)
  rw [hlow.1] at h3
  rw [hlow.2] at h4
  have h5 : (labs (eseq ls (column rows j))).take i = ((sorted (column rows j).zipIdx).take i).map (fun p => ls.getD p.2 []) := by
    rw [labs, eseq, List.map_map, List.map_take]; rfl
  have h6 : (labs (eseq ls (column rows j))).drop i = ((sorted (column rows j).zipIdx).drop i).map (fun p => ls.getD p.2 []) := by
    rw [labs, eseq, List.map_map, List.map_drop]; rfl
  rw [candAt, h5, h6, splitVar_perm h3 h4]
  rfl

/-- every row has a position -/
theorem row_position {rows : List (List (Ext K))} {j r : Nat} (hr : r < rows.length) :
    ∃ i : Nat, (sorted (column rows j).zipIdx)[i]? = some ((column rows j).getD r F64.zero, r) := by
  apply List.getElem?_of_mem
  rw [(sorted_perm _).mem_iff, zipIdx_eq_range]
  exact List.mem_map.mpr ⟨r, List.mem_range.mpr (by rwa [column_length]), rfl⟩

theorem eseq_fst {ls : List (List K)} {col : List (Ext K)} {i : Nat} :
    ((eseq ls col).map Prod.fst)[i]? = ((sorted col.zipIdx)[i]?).map Prod.fst := by
  simp [eseq, List.getElem?_map, Function.comp_def]

/-- the split search of one column, in terms of cuts -/
theorem colResult_cut {t : Nat} {rows : List (List (Ext K))} {ls : List (List K)} {j : Nat} (h : ls.length = rows.length)
    (ht : ∀ v ∈ ls, v.length = t) (hne : ls ≠ []) (hn : ∀ x ∈ column rows j, isNaN x = false) :
    (colResult (lift ls) t (column rows j) = { loss := .posInf, thresholdValue := .fin 0 } ∧ ∀ r, ¬ IsCut rows j r) ∨
    ∃ r x, IsCut rows j r ∧ colResult (lift ls) t (column rows j) =
        { loss := .fin x, thresholdValue := (column rows j).getD r F64.zero } ∧
      totalVar t ls - x = cutReduction t rows ls j r ∧
      (∀ r', IsCut rows j r' → cutReduction t rows ls j r' ≤ cutReduction t rows ls j r) ∧
      (∀ r', IsCut rows j r' → comesBefore rows j r' r = true → cutReduction t rows ls j r' < cutReduction t rows ls j r) := by
  have hcl : ls.length = (column rows j).length := by rw [column_length, h]
  have hs := sorted_pairwise (v := (column rows j).zipIdx) (fun p hp => nn_of_isNaN_false (hn p.1 (List.fst_mem_of_mem_zipIdx hp)))
  have hpos : 0 < (sorted (column rows j).zipIdx).length := by
    rw [(sorted_perm _).length_eq, List.length_zipIdx, ← hcl]
    exact List.length_pos_of_ne_nil hne
  have hm0 : (sorted (column rows j).zipIdx)[0]? = some (sorted (column rows j).zipIdx)[0] := List.getElem?_eq_getElem hpos
  have hm : ((eseq ls (column rows j)).map Prod.fst)[0]? = some (sorted (column rows j).zipIdx)[0].1 := by
    rw [eseq_fst, hm0]; rfl
  have hmle : ∀ p ∈ sorted (column rows j).zipIdx, ((sorted (column rows j).zipIdx)[0].1 <=. p.1) = true := by
    intro p hp
    obtain ⟨k, hk⟩ := List.getElem?_of_mem hp
    obtain ⟨hkl, rfl⟩ := List.getElem?_eq_some_iff.mp hk
    rcases Nat.eq_zero_or_pos k with rfl | hk0
    · exact le_rfl' (nn_of_isNaN_false (hn _ (List.fst_mem_of_mem_zipIdx ((sorted_perm _).mem_iff.mp hp))))
    · exact tupleLe_le (List.pairwise_iff_getElem.mp hs 0 k hpos hkl hk0)
  have hcut : ∀ (i : Nat) (p : Ext K × Nat), (sorted (column rows j).zipIdx)[i]? = some p →
      (IsCut rows j p.2 ↔ (p.1 ==. (sorted (column rows j).zipIdx)[0].1) = false) := by
    intro i p hp
    have hpm := mem_sorted (List.mem_of_getElem? hp)
    have hp0 := mem_sorted (List.getElem_mem hpos)
    constructor
    · rintro ⟨_, a, ha, hlt⟩
      obtain ⟨k, hk⟩ := row_position (j := j) ha
      have h1 := hmle _ (List.mem_of_getElem? hk)
      rw [← hpm.2] at hlt
      exact lt_ne' (lt_of_le_of_lt h1 hlt)
    · intro hne'
      refine ⟨by rw [← column_length (j := j)]; exact hpm.1, (sorted (column rows j).zipIdx)[0].2, by rw [← column_length (j := j)]; exact hp0.1, ?_⟩
      rw [← hp0.2, ← hpm.2]
      rcases lt_or_eq (hmle p (List.mem_of_getElem? hp)) with hlt | heq
      · exact hlt
      · rw [eq_symm' heq] at hne'; simp at hne'
  rcases colResult_first hcl ht hne hn hm with ⟨h1, h2⟩ | ⟨i, v, hi, hv, hres, hmin, hfirst⟩
  · refine .inl ⟨h1, ?_⟩
    intro r hr
    obtain ⟨k, hk⟩ := row_position (j := j) hr.1
    have h3 := (hcut k _ hk).mp hr
    rw [h2 k _ (by rw [eseq_fst, hk]; rfl)] at h3
    simp at h3
  · right
    rw [eseq_fst, Option.map_eq_some_iff] at hi
    obtain ⟨p, hp, rfl⟩ := hi
    have hpm := mem_sorted (List.mem_of_getElem? hp)
    refine ⟨p.2, _, (hcut i p hp).mpr hv, by rw [hres, ← hpm.2], candAt_cut hn hp, ?_, ?_⟩
    · intro r' hr'
      obtain ⟨k, hk⟩ := row_position (j := j) hr'.1
      have := hmin k _ (by rw [eseq_fst, hk]; rfl) ((hcut k _ hk).mp hr')
      have e1 := candAt_cut (t := t) (ls := ls) hn hp
      have e2 := candAt_cut (t := t) (ls := ls) hn hk
      simp only at e2
      rw [← e1, ← e2]
      linarith
    · intro r' hr' hb
      obtain ⟨k, hk⟩ := row_position (j := j) hr'.1
      have hki : k < i := (sorted_before hn hk hp).mp hb
      have := hfirst k _ hki (by rw [eseq_fst, hk]; rfl) ((hcut k _ hk).mp hr')
      have e1 := candAt_cut (t := t) (ls := ls) hn hp
      have e2 := candAt_cut (t := t) (ls := ls) hn hk
      simp only at e2
      rw [← e1, ← e2]
      linarith

/-- the split in exact arithmetic, complete -/
theorem splitOf_cut {d : DataSet (Ext K)} {c t : Nat} (h : d.WF c t) {ls : List (List K)} (hls : d.labels = lift ls) :
    ReportsBestCut c t d.featureRows ls (splitOf d t) := by
  have hlen : ls.length = d.featureRows.length := by rw [← h.label_count, hls, lift_length]
  have hne : ls ≠ [] := by
    rintro rfl
    exact h.rows_ne (List.eq_nil_of_length_eq_zero hlen.symm)
  have ht : ∀ v ∈ ls, v.length = t := by
    intro v hv
    have := h.label_len (liftV v) (by rw [hls]; exact mem_lift.mpr ⟨v, hv, rfl⟩)
    rwa [liftV_length] at this
  have htot : totalVariance d.labels t = .fin (totalVar t ls) := by rw [hls, totalVariance_exact ht hne]
  have hcols : d.featureColumns.map (colResult d.labels t) =
      (List.range c).map (fun j => colResult (lift ls) t (column d.featureRows j)) := by
    rw [h.cols, columnsOf, List.map_map, hls]; rfl
  have hget : ∀ j, j < c → (d.featureColumns.map (colResult d.labels t))[j]? =
      some (colResult (lift ls) t (column d.featureRows j)) := by
    intro j hj
    rw [hcols]; simp [hj]
  -- the gain of a column with a cut
  have hgain : ∀ j r, j < c → IsCut d.featureRows j r →
      ∃ x, gainOf (totalVariance d.labels t) (colResult (lift ls) t (column d.featureRows j)) = .fin x ∧
        cutReduction t d.featureRows ls j r ≤ x := by
    intro j r hj hr
    rcases colResult_cut hlen ht hne (h.col_nan hj) with ⟨_, h2⟩ | ⟨r0, x, _, h2, h3, h4, _⟩
    · exact absurd hr (h2 r)
    · exact ⟨totalVar t ls - x, by rw [gainOf, htot, h2]; simp, by rw [h3]; exact h4 r hr⟩
  unfold splitOf ReportsBestCut
  rcases bestColumn_spec (totalVariance d.labels t) (d.featureColumns.map (colResult d.labels t)) with
    ⟨h1, h2⟩ | ⟨j, r0, h0, h1, h2, h3, h4⟩
  · rw [h1]
    refine ⟨0, rfl, ?_, .inl ⟨rfl, rfl⟩⟩
    intro j r hj hr
    obtain ⟨x, hx, hle⟩ := hgain j r hj hr
    have := h2 _ (List.mem_of_getElem? (hget j hj))
    rw [hx] at this
    simp at this
    linarith
  · have hjc : j < c := by
      rw [hcols] at h0
      have := (List.getElem?_eq_some_iff.mp h0).1
      simpa using this
    rw [hget j hjc] at h0
    simp only [Option.some.injEq] at h0
    subst h0
    rcases colResult_cut hlen ht hne (h.col_nan hjc) with ⟨hinf, _⟩ | ⟨r, x, hcut, hres, hx, hmax, hfirst⟩
    · exfalso
      rw [hinf, gainOf, htot] at h2
      exact Bool.noConfusion (show false = true from h2)
    · have hg : gainOf (totalVariance d.labels t) (colResult (lift ls) t (column d.featureRows j)) =
          .fin (cutReduction t d.featureRows ls j r) := by
        rw [gainOf, htot, hres, ← hx]; simp
      rw [h1]
      simp only [hg]
      rw [hg] at h2 h3 h4
      simp only [Ext.zero_def, Ext.fin_lt, decide_eq_true_eq] at h2
      refine ⟨_, rfl, ?_, .inr ⟨h2, hjc, r, hcut, by rw [hres], rfl, ?_, hfirst⟩⟩
      · intro j' r' hj' hr'
        obtain ⟨y, hy, hle⟩ := hgain j' r' hj' hr'
        have := h3 _ (List.mem_of_getElem? (hget j' hj'))
        rw [hy] at this
        simp at this
        linarith
      · intro j' r' hj' hr'
        obtain ⟨y, hy, hle⟩ := hgain j' r' (by omega) hr'
        have := h4 j' _ hj' (hget j' (by omega))
        rw [hy] at this
        simp at this
        linarith

theorem comesBefore_total {rows : List (List (Ext K))} {j a b : Nat} (hn : ∀ x ∈ column rows j, isNaN x = false)
    (ha : a < rows.length) (hb : b < rows.length) (hne : a ≠ b) :
    comesBefore rows j a b = true ∨ comesBefore rows j b a = true := by
  obtain ⟨k, hk⟩ := row_position (j := j) ha
  obtain ⟨i, hi⟩ := row_position (j := j) hb
  rcases Nat.lt_trichotomy k i with h | h | h
  · exact .inl ((sorted_before hn hk hi).mpr h)
  · subst h
    rw [hk] at hi
    simp only [Option.some.injEq, Prod.mk.injEq] at hi
    exact absurd hi.2 hne
  · exact .inr ((sorted_before hn hi hk).mpr h)

theorem reportsBestCut_unique {c t : Nat} {rows : List (List (Ext K))} {ls : List (List K)}
    (hn : ∀ j < c, ∀ x ∈ column rows j, isNaN x = false) {s s' : BestSplitResult (Ext K)}
    (h : ReportsBestCut c t rows ls s) (h' : ReportsBestCut c t rows ls s') : s = s' := by
  obtain ⟨g, h1, h2, h3⟩ := h
  obtain ⟨g', h1', h2', h3'⟩ := h'
  have hgg : g = g' ∧ s.question = s'.question := by
    rcases h3 with ⟨rfl, hq⟩ | ⟨hpos, hc, r, hr, hv, hg, hf, hff⟩
    · rcases h3' with ⟨rfl, hq'⟩ | ⟨hpos', hc', r', hr', hv', hg', _, _⟩
      · exact ⟨rfl, by rw [hq, hq']⟩
      · have := h2 _ _ hc' hr'
        rw [← hg'] at this
        exact absurd this (_root_.not_le.mpr hpos')
    · rcases h3' with ⟨rfl, hq'⟩ | ⟨hpos', hc', r', hr', hv', hg', hf', hff'⟩
      · have := h2' _ _ hc hr
        rw [← hg] at this
        exact absurd this (_root_.not_le.mpr hpos)
      · have e1 := h2 _ _ hc' hr'
        have e2 := h2' _ _ hc hr
        rw [← hg'] at e1
        rw [← hg] at e2
        have hge : g = g' := le_antisymm e2 e1
        subst hge
        refine ⟨rfl, ?_⟩
        have hcol : s.question.column = s'.question.column := by
          rcases Nat.lt_trichotomy s.question.column s'.question.column with hlt | heq | hgt
          · have := hf' _ _ hlt hr
            rw [← hg] at this
            exact absurd this (lt_irrefl _)
          · exact heq
          · have := hf _ _ hgt hr'
            rw [← hg'] at this
            exact absurd this (lt_irrefl _)
        have hrow : r = r' := by
          by_contra hrr
          rw [← hcol] at hr' hg' hff'
          rcases comesBefore_total (hn _ hc) hr.1 hr'.1 hrr with hb | hb
          · have := hff' r hr hb
            rw [← hg] at this
            exact absurd this (lt_irrefl _)
          · have := hff r' hr' hb
            rw [← hg'] at this
            exact absurd this (lt_irrefl _)
        subst hrow
        rw [← hcol] at hv'
        cases hs : s.question with
        | mk c1 v1 =>
          cases hs' : s'.question with
          | mk c2 v2 =>
            rw [hs, hs'] at hcol
            rw [hs] at hv hv'
            rw [hs'] at hv'
            simp only at hcol hv hv'
            subst hcol
            rw [hv, hv']
  cases s; cases s'
  simp only at h1 h1' hgg
  rw [h1, h1', hgg.1, hgg.2]

end ordered

end Verif
