import Verif.Lemmas.Exact
/-!
# Exact arithmetic: what the scan over a column computes
-/

set_option linter.unusedSectionVars false
set_option linter.unusedSimpArgs false

namespace Verif

/-! ## list facts -/

/-- if a predicate, once true, stays true, then filtering cuts the list in two -/
theorem filter_cut {α : Type} {p : α → Bool} {l : List α} (h : l.Pairwise (fun a b => p a = true → p b = true)) :
    l.filter (fun a => !p a) = l.take (l.filter (fun a => !p a)).length ∧
    l.filter p = l.drop (l.filter (fun a => !p a)).length := by
  induction l with
  | nil => simp
  | cons a rest ih =>
    rw [List.pairwise_cons] at h
    obtain ⟨ih1, ih2⟩ := ih h.2
    cases hp : p a with
    | true =>
      have hall : ∀ b ∈ rest, p b = true := fun b hb => h.1 b hb hp
      have h0 : rest.filter (fun a => !p a) = [] := by
        rw [List.filter_eq_nil_iff]; intro b hb; simp [hall b hb]
      have h1 : rest.filter p = rest := List.filter_eq_self.mpr hall
      simp [hp, h0, h1]
    | false =>
      simp only [hp, List.filter_cons, Bool.not_false, if_true, List.length_cons, List.take_succ_cons, List.drop_succ_cons,
        Bool.false_eq_true, if_false]
      exact ⟨by rw [← ih1], ih2⟩

section order
variable {F : Type} [F64 F] [LawfulOrder F]
open LawfulOrder

/-- the scan keeps a smallest loss -/
theorem foldl_pickBest_le {l : List (BestThresholdResult F)} {b : BestThresholdResult F} (hb : NN b.loss)
    (hl : ∀ c ∈ l, NN c.loss) :
    ((l.foldl pickBest b).loss <=. b.loss) = true ∧ ∀ c ∈ l, ((l.foldl pickBest b).loss <=. c.loss) = true := by
  induction l generalizing b with
  | nil => exact ⟨le_rfl' hb, by simp⟩
  | cons c rest ih =>
    rw [List.foldl_cons]
    have hc : NN c.loss := hl c (by simp)
    have hpb : NN (pickBest b c).loss ∧ ((pickBest b c).loss <=. b.loss) = true ∧ ((pickBest b c).loss <=. c.loss) = true := by
      unfold pickBest
      split
      · next h => exact ⟨hc, lt_le h, le_rfl' hc⟩
      · next h => exact ⟨hb, le_rfl' hb, (not_lt hc hb).mp (by simpa using h)⟩
    obtain ⟨h1, h2⟩ := ih hpb.1 (fun c' h => hl c' (by simp [h]))
    refine ⟨le_trans h1 hpb.2.1, ?_⟩
    intro c' hc'
    rcases List.mem_cons.mp hc' with rfl | hc'
    · exact le_trans h1 hpb.2.2
    · exact h2 c' hc'

end order

section ordered
variable {K : Type} [Field K] [LinearOrder K] [IsStrictOrderedRing K] [FloorSemiring K] [HasExp K]
open LawfulOrder

/-! ## the scanned sequence -/

/-- the sequence of (value, label) scanned for a column -/
def eseq (ls : List (List K)) (col : List (Ext K)) : List (Ext K × List K) :=
  (sorted col.zipIdx).map (fun p => (p.1, ls.getD p.2 []))

/-- the label part -/
def labs (s : List (Ext K × List K)) : List (List K) := s.map Prod.snd

theorem seqOf_lift (ls : List (List K)) (col : List (Ext K)) :
    seqOf (lift ls) col = (eseq ls col).map (fun p => (p.1, liftV p.2)) := by
  simp only [seqOf, eseq, List.map_map, Function.comp_def]
  apply List.map_congr_left
  intro p _
  congr 1
  simp only [lift, List.getD, List.getElem?_map]
  cases ls[p.2]? <;> rfl

theorem eseq_perm {ls : List (List K)} {col : List (Ext K)} (h : ls.length = col.length) :
    (eseq ls col).Perm (col.zip ls) := by
  have h1 : (eseq ls col).Perm (col.zipIdx.map (fun p => (p.1, ls.getD p.2 []))) := (sorted_perm col.zipIdx).map _
  have h2 : col.zipIdx.map (fun p => (p.1, ls.getD p.2 [])) = col.zip ls := by
    apply List.ext_getElem (by simp [h])
    intro i hi1 hi2
    simp at hi1 hi2
    simp [hi2]
  rwa [h2] at h1

theorem eseq_sorted {ls : List (List K)} {col : List (Ext K)} (h : ∀ x ∈ col, isNaN x = false) :
    (eseq ls col).Pairwise (fun a b => (a.1 <=. b.1) = true) := by
  have hs := sorted_pairwise (v := col.zipIdx) (fun p hp => nn_of_isNaN_false (h p.1 (List.fst_mem_of_mem_zipIdx hp)))
  rw [eseq, List.pairwise_map]
  exact hs.imp (fun h => tupleLe_le h)

theorem eseq_mem_lab {ls : List (List K)} {col : List (Ext K)} (h : ls.length = col.length) {t : Nat}
    (ht : ∀ v ∈ ls, v.length = t) : ∀ p ∈ eseq ls col, p.2.length = t := by
  intro p hp
  exact ht _ (List.of_mem_zip ((eseq_perm h).mem_iff.mp hp)).2

theorem eseq_mem_nan {ls : List (List K)} {col : List (Ext K)} (h : ls.length = col.length)
    (hn : ∀ x ∈ col, isNaN x = false) : ∀ p ∈ eseq ls col, NN p.1 := by
  intro p hp
  exact nn_of_isNaN_false (hn _ (List.of_mem_zip ((eseq_perm h).mem_iff.mp hp)).1)

theorem labs_perm {ls : List (List K)} {col : List (Ext K)} (h : ls.length = col.length) : (labs (eseq ls col)).Perm ls := by
  have := (eseq_perm h).map Prod.snd
  rwa [List.map_snd_zip (by omega)] at this

/-! ## the candidates -/

/-- the candidates of a scan in exact arithmetic -/
theorem mem_cands_exact {t : Nat} {prev : Ext K} (s : List (Ext K × List K)) (hs : ∀ p ∈ s, p.2.length = t)
    (a : List (List K)) (b : BestThresholdResult (Ext K)) :
    b ∈ cands prev (trk t a) (trk t (labs s)) (s.map (fun p => (p.1, liftV p.2))) ↔
      ∃ i v, (s.map Prod.fst)[i]? = some v ∧ (v ==. prev) = false ∧
        b = { loss := splitLoss (trk t (a ++ (labs s).take i)) (trk t ((labs s).drop i)), thresholdValue := v } := by
  induction s generalizing a with
  | nil => simp [cands, labs]
  | cons p rest ih =>
    obtain ⟨v, l⟩ := p
    have hl : l.length = t := hs (v, l) (by simp)
    have hrest : ∀ x : BestThresholdResult (Ext K),
        x ∈ cands prev (updLeft (trk t a) (liftV l)) (updRight (trk t (labs ((v, l) :: rest))) (liftV l))
          (rest.map (fun p => (p.1, liftV p.2))) ↔
        x ∈ cands prev (trk t (a ++ [l])) (trk t (labs rest)) (rest.map (fun p => (p.1, liftV p.2))) := by
      intro x
      cases rest with
      | nil => simp [cands]
      | cons q rest' =>
        rw [updLeft_exact hl, show labs ((v, l) :: q :: rest') = l :: labs (q :: rest') from rfl,
          updRight_exact hl (by simp [labs])]
    simp only [List.map_cons, cands, List.mem_append, hrest, ih (fun p hp => hs p (by simp [hp])) (a ++ [l])]
    constructor
    · rintro (h | ⟨i, v', h1, h2, h3⟩)
      · split at h
        · next hv =>
          simp only [List.mem_singleton] at h
          exact ⟨0, v, by simp, by simpa using hv, by simpa using h⟩
        · simp at h
      · refine ⟨i + 1, v', by simpa using h1, h2, ?_⟩
        rw [h3]; simp [labs]
    · rintro ⟨i, v', h1, h2, h3⟩
      cases i with
      | zero =>
        simp only [List.getElem?_cons_zero, Option.some.injEq] at h1
        subst h1
        left
        simp only [h2, Bool.not_false, if_true, List.mem_singleton]
        rw [h3]; simp
      | succ i =>
        right
        refine ⟨i, v', by simpa using h1, h2, ?_⟩
        rw [h3]; simp [labs]

theorem rightStart_exact {t : Nat} {ls : List (List K)} {col : List (Ext K)} (h : ls.length = col.length)
    (ht : ∀ v ∈ ls, v.length = t) (hne : ls ≠ []) :
    rightStart (lift ls).length (metricsOf (lift ls) t) = trk t (labs (eseq ls col)) := by
  have hp := labs_perm h
  have htg : ∀ j, (target (labs (eseq ls col)) j).Perm (target ls j) := fun j => hp.map _
  have h1 : sumsOf t (labs (eseq ls col)) = sumsOf t ls := by
    apply List.map_congr_left; intro j _; exact (htg j).sum_eq
  have h2 : sqsOf t (labs (eseq ls col)) = sqsOf t ls := by
    apply List.map_congr_left; intro j _; exact ((htg j).map _).sum_eq
  rw [rightStart, metricsOf_exact ht hne, trk, trk, h1, h2, hp.length_eq, lift_length, Ext.ofNat_def]

/-- what the scan of a column sees: position `i` of the sorted sequence -/
def candAt (t : Nat) (s : List (Ext K × List K)) (i : Nat) : K := splitVar t ((labs s).take i) ((labs s).drop i)

/-- the result for a column, in exact arithmetic -/
theorem colResult_exact {t : Nat} {ls : List (List K)} {col : List (Ext K)} (h : ls.length = col.length)
    (ht : ∀ v ∈ ls, v.length = t) (hne : ls ≠ []) (hn : ∀ x ∈ col, isNaN x = false) :
    (colResult (lift ls) t col = { loss := .posInf, thresholdValue := .fin 0 } ∧
      ∀ x ∈ col, ∀ y ∈ col, (x ==. y) = true) ∨
    ∃ i v m, 0 < i ∧ i < ls.length ∧ ((eseq ls col).map Prod.fst)[i]? = some v ∧ ((eseq ls col).map Prod.fst)[0]? = some m ∧
      (m <. v) = true ∧
      colResult (lift ls) t col = { loss := .fin (candAt t (eseq ls col) i), thresholdValue := v } ∧
      ∀ k w, ((eseq ls col).map Prod.fst)[k]? = some w → (w ==. m) = false → candAt t (eseq ls col) i ≤ candAt t (eseq ls col) k := by
  obtain ⟨⟨m, l0⟩, s', hs⟩ : ∃ p s', eseq ls col = p :: s' := by
    cases he : eseq ls col with
    | nil =>
      have := (labs_perm h).length_eq
      rw [he] at this
      simp [labs] at this
      exact absurd (List.eq_nil_of_length_eq_zero this.symm) hne
    | cons p s' => exact ⟨p, s', rfl⟩
  have hlen : (eseq ls col).length = ls.length := by
    have := (labs_perm h).length_eq
    simpa [labs] using this
  have hm : ((eseq ls col).map Prod.fst)[0]? = some m := by rw [hs]; rfl
  have hsorted := eseq_sorted (ls := ls) hn
  have hnn := eseq_mem_nan h hn
  have hmle : ∀ p ∈ eseq ls col, (m <=. p.1) = true := by
    intro p hp
    rw [hs] at hp hsorted hnn
    rcases List.mem_cons.mp hp with rfl | hp
    · exact le_rfl' (hnn (m, l0) (by simp))
    · exact (List.pairwise_cons.mp hsorted).1 p hp
  -- candidates
  have hcand : ∀ b, b ∈ cands m (leftStart t) (rightStart (lift ls).length (metricsOf (lift ls) t)) (seqOf (lift ls) col) ↔
      ∃ i v, ((eseq ls col).map Prod.fst)[i]? = some v ∧ (v ==. m) = false ∧
        b = { loss := .fin (candAt t (eseq ls col) i), thresholdValue := v } := by
    intro b
    rw [leftStart_exact, rightStart_exact h ht hne, seqOf_lift, mem_cands_exact _ (eseq_mem_lab h ht)]
    have key : ∀ (i : Nat) (v : Ext K), ((eseq ls col).map Prod.fst)[i]? = some v → (v ==. m) = false →
        splitLoss (trk t ([] ++ (labs (eseq ls col)).take i)) (trk t ((labs (eseq ls col)).drop i)) =
          .fin (candAt t (eseq ls col) i) := by
      intro i v h1 h2
      have hi : i < (eseq ls col).length := by
        have := (List.getElem?_eq_some_iff.mp h1).1
        simpa using this
      have hi0 : i ≠ 0 := by
        rintro rfl
        rw [hm] at h1
        simp only [Option.some.injEq] at h1
        subst h1
        have := hnn (m, l0) (by rw [hs]; simp)
        rw [show (m ==. m) = true from this] at h2
        simp at h2
      rw [List.nil_append, splitLoss_exact, candAt]
      · intro hnil
        have := congrArg List.length hnil
        simp [labs] at this
        rcases this with h | h
        · exact hi0 h
        · rw [h] at hi; simp at hi
      · intro hnil
        have := congrArg List.length hnil
        simp [labs] at this
        omega
    constructor
    · rintro ⟨i, v, h1, h2, h3⟩
      exact ⟨i, v, h1, h2, by rw [h3, key i v h1 h2]⟩
    · rintro ⟨i, v, h1, h2, h3⟩
      exact ⟨i, v, h1, h2, by rw [h3, key i v h1 h2]⟩
  have hhead : ((seqOf (lift ls) col).map Prod.fst).headD F64.zero = m := by
    rw [seqOf_lift, hs]; rfl
  have hres : colResult (lift ls) t col =
      (cands m (leftStart t) (rightStart (lift ls).length (metricsOf (lift ls) t)) (seqOf (lift ls) col)).foldl pickBest
        { loss := F64.infinity, thresholdValue := F64.zero } := by
    rw [colResult, scanResult, hhead]
  rw [hres]
  by_cases hemp : ∃ (i : Nat) (v : Ext K), ((eseq ls col).map Prod.fst)[i]? = some v ∧ (v ==. m) = false
  · right
    obtain ⟨i0, v0, hi0, hv0⟩ := hemp
    have hle := foldl_pickBest_le (l := cands m (leftStart t) (rightStart (lift ls).length (metricsOf (lift ls) t))
      (seqOf (lift ls) col)) (b := { loss := F64.infinity, thresholdValue := F64.zero }) (by rfl)
      (by
        intro c hc
        obtain ⟨i, v, _, _, rfl⟩ := (hcand c).mp hc
        simp [NN])
    rcases foldl_pickBest_mem (l := cands m (leftStart t) (rightStart (lift ls).length (metricsOf (lift ls) t))
      (seqOf (lift ls) col)) (b := { loss := F64.infinity, thresholdValue := F64.zero }) with hmem | hmem
    · exfalso
      have := hle.2 _ ((hcand _).mpr ⟨i0, v0, hi0, hv0, rfl⟩)
      rw [hmem] at this
      exact Bool.noConfusion (show false = true from this)
    · obtain ⟨i, v, h1, h2, h3⟩ := (hcand _).mp hmem
      have hi : i < ls.length := by
        have := (List.getElem?_eq_some_iff.mp h1).1
        rw [← hlen]; simpa using this
      have hpos : 0 < i := by
        rcases Nat.eq_zero_or_pos i with rfl | hp
        · rw [hm] at h1
          simp only [Option.some.injEq] at h1
          subst h1
          have := hnn (m, l0) (by rw [hs]; simp)
          rw [show (m ==. m) = true from this] at h2
          simp at h2
        · exact hp
      have hmv : (m <=. v) = true := by
        have := List.mem_of_getElem? h1
        obtain ⟨p, hp, rfl⟩ := List.mem_map.mp this
        exact hmle p hp
      have hlt : (m <. v) = true := by
        rcases lt_or_eq hmv with hlt | heq
        · exact hlt
        · rw [eq_symm' heq] at h2; simp at h2
      refine ⟨i, v, m, hpos, hi, h1, hm, hlt, h3, ?_⟩
      intro k w hk hw
      have := hle.2 _ ((hcand _).mpr ⟨k, w, hk, hw, rfl⟩)
      rw [h3] at this
      simpa using this
  · left
    have hnil : cands m (leftStart t) (rightStart (lift ls).length (metricsOf (lift ls) t)) (seqOf (lift ls) col) = [] := by
      apply List.eq_nil_iff_forall_not_mem.mpr
      intro b hb
      obtain ⟨i, v, h1, h2, _⟩ := (hcand b).mp hb
      exact hemp ⟨i, v, h1, h2⟩
    rw [hnil]
    refine ⟨rfl, ?_⟩
    have hall : ∀ x ∈ col, (x ==. m) = true := by
      intro x hx
      obtain ⟨i, hi⟩ := List.getElem?_of_mem hx
      have hil : i < ls.length := by
        have := (List.getElem?_eq_some_iff.mp hi).1
        omega
      have hmem : (x, ls[i]) ∈ col.zip ls := by
        apply List.mem_of_getElem? (i := i)
        simp [List.getElem?_zip_eq_some, hi, hil]
      have hmem' := List.mem_map_of_mem (f := Prod.fst) ((eseq_perm h).mem_iff.mpr hmem)
      obtain ⟨k, hk⟩ := List.getElem?_of_mem hmem'
      cases hx : (x ==. m) with
      | true => rfl
      | false => exact absurd ⟨k, x, hk, hx⟩ hemp
    intro x hx y hy
    exact eq_trans' (hall x hx) (eq_symm' (hall y hy))

/-! ## questions and the two sides -/

/-- labels of the entries of a column at least / less than a threshold -/
def atLeast (col : List (Ext K)) (ls : List (List K)) (v : Ext K) : List (List K) :=
  ((col.zip ls).filter (fun p => v <=. p.1)).map Prod.snd
def below (col : List (Ext K)) (ls : List (List K)) (v : Ext K) : List (List K) :=
  ((col.zip ls).filter (fun p => !(v <=. p.1))).map Prod.snd

theorem column_zip {rows : List (List (Ext K))} {ls : List (List K)} {j : Nat} :
    (column rows j).zip ls = (rows.zip ls).map (fun e => (e.1.getD j F64.zero, e.2)) := by
  rw [column, List.zip_map_left]
  apply List.map_congr_left
  intro e _
  rfl

theorem satisfies_getD {rows : List (List (Ext K))} {c : Nat} (hlen : ∀ row ∈ rows, row.length = c) {q : Question (Ext K)}
    (hq : q.column < c) {row : List (Ext K)} (hr : row ∈ rows) :
    satisfies q row = (q.value <=. row.getD q.column F64.zero) := by
  have := hlen row hr
  have hc : q.column < row.length := by omega
  simp [satisfies, hc]

theorem sides_column {rows : List (List (Ext K))} {ls : List (List K)} {c : Nat} (hlen : ∀ row ∈ rows, row.length = c)
    {q : Question (Ext K)} (hq : q.column < c) :
    yesLabels rows ls q = atLeast (column rows q.column) ls q.value ∧
    noLabels rows ls q = below (column rows q.column) ls q.value := by
  have h : ∀ e ∈ rows.zip ls, satisfies q e.1 = (q.value <=. e.1.getD q.column F64.zero) := by
    intro e he
    exact satisfies_getD hlen hq (List.of_mem_zip he).1
  constructor
  · rw [yesLabels, atLeast, column_zip, List.filter_map, List.map_map, List.filter_congr h]
    rfl
  · rw [noLabels, below, column_zip, List.filter_map, List.map_map,
      List.filter_congr (fun e he => by rw [h e he])]
    rfl

/-- a threshold cuts the sorted sequence in two -/
theorem cut_exact {ls : List (List K)} {col : List (Ext K)} (h : ls.length = col.length) (hn : ∀ x ∈ col, isNaN x = false)
    (v : Ext K) :
    ((labs (eseq ls col)).take ((eseq ls col).filter (fun p => !(v <=. p.1))).length).Perm (below col ls v) ∧
    ((labs (eseq ls col)).drop ((eseq ls col).filter (fun p => !(v <=. p.1))).length).Perm (atLeast col ls v) := by
  have hpw : (eseq ls col).Pairwise (fun a b => (v <=. a.1) = true → (v <=. b.1) = true) :=
    (eseq_sorted (ls := ls) hn).imp (fun hab hva => LawfulOrder.le_trans hva hab)
  obtain ⟨h1, h2⟩ := filter_cut hpw
  have hp := eseq_perm h
  constructor
  · rw [labs, ← List.map_take, ← h1]
    exact (hp.filter _).map _
  · rw [labs, ← List.map_drop, ← h2]
    exact (hp.filter _).map _

/-- every threshold that separates the rows is matched by a candidate of the scan -/
theorem separating_candidate {t : Nat} {ls : List (List K)} {col : List (Ext K)} (h : ls.length = col.length)
    (hn : ∀ x ∈ col, isNaN x = false) {v : Ext K} (hlo : below col ls v ≠ []) (hhi : atLeast col ls v ≠ []) :
    ∃ k w m, ((eseq ls col).map Prod.fst)[k]? = some w ∧ ((eseq ls col).map Prod.fst)[0]? = some m ∧ (w ==. m) = false ∧
      candAt t (eseq ls col) k = splitVar t (below col ls v) (atLeast col ls v) := by
  have hpw : (eseq ls col).Pairwise (fun a b => (v <=. a.1) = true → (v <=. b.1) = true) :=
    (eseq_sorted (ls := ls) hn).imp (fun hab hva => LawfulOrder.le_trans hva hab)
  obtain ⟨h1, h2⟩ := filter_cut hpw
  obtain ⟨hc1, hc2⟩ := cut_exact h hn v
  have hnn := eseq_mem_nan h hn
  set k := ((eseq ls col).filter (fun p => !(v <=. p.1))).length with hk
  have hk1 : k < (eseq ls col).length := by
    by_contra hge
    have : (labs (eseq ls col)).drop k = [] := List.drop_eq_nil_of_le (by simp [labs]; omega)
    rw [this] at hc2
    exact hhi hc2.nil_eq.symm
  have hk0 : 0 < k := by
    rcases Nat.eq_zero_or_pos k with h0 | h0
    · rw [h0] at hc1
      simp only [List.take_zero] at hc1
      exact absurd hc1.nil_eq.symm hlo
    · exact h0
  have hkm : (eseq ls col)[k] ∈ (eseq ls col).filter (fun p => v <=. p.1) := by
    rw [h2]
    apply List.mem_of_getElem? (i := 0)
    simp [hk1]
  have h0m : (eseq ls col)[0] ∈ (eseq ls col).filter (fun p => !(v <=. p.1)) := by
    rw [h1]
    apply List.mem_of_getElem? (i := 0)
    rw [List.getElem?_take_of_lt hk0]
    simp [show 0 < (eseq ls col).length by omega]
  refine ⟨k, (eseq ls col)[k].1, (eseq ls col)[0].1, by simp [hk1], by simp [show 0 < (eseq ls col).length by omega], ?_, splitVar_perm hc1 hc2⟩
  have hkv := (List.mem_filter.mp hkm).2
  have h0v := (List.mem_filter.mp h0m).2
  simp only [Bool.not_eq_true'] at h0v
  cases he : ((eseq ls col)[k].1 ==. (eseq ls col)[0].1) with
  | false => rfl
  | true =>
    have : (v <=. (eseq ls col)[0].1) = true := LawfulOrder.le_trans hkv (eq_le he)
    rw [this] at h0v; simp at h0v

/-- a value that occurs once cuts the sorted sequence at its own position -/
theorem unique_cut {ls : List (List K)} {col : List (Ext K)} (h : ls.length = col.length)
    (hn : ∀ x ∈ col, isNaN x = false) {pre post : List (Ext K × List K)} {v : Ext K} {l : List K}
    (hs : eseq ls col = pre ++ (v, l) :: post) (hu : (col.filter (fun x => x ==. v)).length = 1) :
    (eseq ls col).filter (fun p => !(v <=. p.1)) = pre := by
  have hnn := eseq_mem_nan h hn
  have hsorted := eseq_sorted (ls := ls) hn
  have hcount : ((eseq ls col).filter (fun p => p.1 ==. v)).length = 1 := by
    have hp := (eseq_perm h).map Prod.fst
    rw [List.map_fst_zip (by omega)] at hp
    have := (hp.filter (fun x => x ==. v)).length_eq
    rw [hu, List.filter_map, List.length_map] at this
    exact this
  rw [hs] at hcount hsorted hnn ⊢
  have hvv : NN v := hnn (v, l) (by simp)
  have hpre0 : pre.filter (fun p => p.1 ==. v) = [] := by
    rw [List.filter_append, List.filter_cons, if_pos (show (v ==. v) = true from hvv)] at hcount
    simp only [List.length_append, List.length_cons] at hcount
    exact List.eq_nil_of_length_eq_zero (by omega)
  rw [List.pairwise_append] at hsorted
  rw [List.filter_append]
  have h1 : pre.filter (fun p => !(v <=. p.1)) = pre := by
    rw [List.filter_eq_self]
    intro p hp
    have hle := hsorted.2.2 p hp (v, l) (by simp)
    have hne : (p.1 ==. v) = false := by
      have := List.filter_eq_nil_iff.mp hpre0 p hp
      simpa using this
    rcases lt_or_eq hle with hlt | heq
    · rw [(lt_iff.mp hlt).2]; rfl
    · rw [heq] at hne; simp at hne
  have h2 : ((v, l) :: post).filter (fun p => !(v <=. p.1)) = [] := by
    rw [List.filter_eq_nil_iff]
    intro p hp
    have : (v <=. p.1) = true := by
      rcases List.mem_cons.mp hp with rfl | hp
      · exact le_rfl' hvv
      · exact (List.pairwise_cons.mp hsorted.2.1).1 p hp
    simp [this]
  rw [h1, h2, List.append_nil]

theorem candAt_unique {t : Nat} {ls : List (List K)} {col : List (Ext K)} (h : ls.length = col.length)
    (hn : ∀ x ∈ col, isNaN x = false) {i : Nat} {v : Ext K} (hi : ((eseq ls col).map Prod.fst)[i]? = some v)
    (hu : (col.filter (fun x => x ==. v)).length = 1) :
    candAt t (eseq ls col) i = splitVar t (below col ls v) (atLeast col ls v) := by
  have hil : i < (eseq ls col).length := by
    have := (List.getElem?_eq_some_iff.mp hi).1
    simpa using this
  have hv : (eseq ls col)[i].1 = v := by
    simp [hil] at hi; exact hi
  have hs : eseq ls col = (eseq ls col).take i ++ (v, (eseq ls col)[i].2) :: (eseq ls col).drop (i + 1) := by
    have h1 : (v, (eseq ls col)[i].2) = (eseq ls col)[i] := by rw [← hv]
    rw [h1, ← List.drop_eq_getElem_cons hil, List.take_append_drop]
  have hcut := unique_cut h hn hs hu
  obtain ⟨hc1, hc2⟩ := cut_exact h hn v
  rw [hcut, List.length_take, Nat.min_eq_left (by omega)] at hc1 hc2
  exact splitVar_perm hc1 hc2

/-! ## the split -/

theorem totalVar_const {t : Nat} {ls : List (List K)} (h : ∀ a ∈ ls, ∀ b ∈ ls, a = b) : totalVar t ls = 0 := by
  apply List.sum_eq_zero
  intro x hx
  obtain ⟨j, _, rfl⟩ := List.mem_map.mp hx
  rw [varOf_eq_zero_iff]
  intro x hx y hy
  obtain ⟨a, ha, rfl⟩ := List.mem_map.mp hx
  obtain ⟨b, hb, rfl⟩ := List.mem_map.mp hy
  rw [h a ha b hb]

theorem zip_length_pos {rows : List (List (Ext K))} {ls : List (List K)} (h : ls.length = rows.length) (hne : ls ≠ []) :
    (rows.zip ls).length = ls.length ∧ 0 < ls.length := by
  have := List.length_pos_of_ne_nil hne
  constructor
  · simp [h]
  · exact this

theorem sides_perm {rows : List (List (Ext K))} {ls : List (List K)} (h : ls.length = rows.length) (q : Question (Ext K)) :
    (noLabels rows ls q ++ yesLabels rows ls q).Perm ls := by
  have h1 : (noLabels rows ls q ++ yesLabels rows ls q).Perm (yesLabels rows ls q ++ noLabels rows ls q) := List.perm_append_comm
  refine h1.trans ?_
  rw [yesLabels, noLabels, ← List.map_append]
  have := (List.filter_append_perm (fun e : List (Ext K) × List K => satisfies q e.1) (rows.zip ls)).map Prod.snd
  rwa [List.map_snd_zip (by omega)] at this

theorem reduction_eq (t : Nat) (rows : List (List (Ext K))) (ls : List (List K)) (q : Question (Ext K)) :
    varianceReduction t rows ls q = totalVar t ls - splitVar t (noLabels rows ls q) (yesLabels rows ls q) := rfl

theorem reduction_one_side {t : Nat} {rows : List (List (Ext K))} {ls : List (List K)} (h : ls.length = rows.length) (hne : ls ≠ [])
    {q : Question (Ext K)} (hq : noLabels rows ls q = [] ∨ yesLabels rows ls q = []) : varianceReduction t rows ls q = 0 := by
  have hp := sides_perm h q
  have h0 : (ls.length : K) ≠ 0 := by
    have := List.length_pos_of_ne_nil hne
    exact_mod_cast this.ne'
  rw [reduction_eq, splitVar]
  rcases hq with hq | hq
  · rw [hq] at hp ⊢
    rw [List.nil_append] at hp
    rw [totalVar_perm hp, hp.length_eq]
    simp
    field_simp
    ring
  · rw [hq] at hp ⊢
    rw [List.append_nil] at hp
    rw [totalVar_perm hp, hp.length_eq]
    simp
    field_simp
    ring

/-- the split in exact arithmetic -/
theorem splitOf_exact {d : DataSet (Ext K)} {c t : Nat} (h : d.WF c t) {ls : List (List K)} (hls : d.labels = lift ls) :
    ∃ g : K, (splitOf d t).gain = .fin g ∧ 0 ≤ g ∧ g ≤ totalVar t ls ∧
      (∀ q : Question (Ext K), q.column < c → varianceReduction t d.featureRows ls q ≤ g) ∧
      (g = 0 ∨ ∃ i, ((eseq ls (column d.featureRows (splitOf d t).question.column)).map Prod.fst)[i]? =
            some (splitOf d t).question.value ∧ (splitOf d t).question.column < c ∧ 0 < g ∧
          g = totalVar t ls - candAt t (eseq ls (column d.featureRows (splitOf d t).question.column)) i) := by
  have hlen : ls.length = d.featureRows.length := by rw [← h.label_count, hls, lift_length]
  have hne : ls ≠ [] := by
    rintro rfl
    exact h.rows_ne (List.eq_nil_of_length_eq_zero hlen.symm)
  have ht : ∀ v ∈ ls, v.length = t := by
    intro v hv
    have := h.label_len (liftV v) (by rw [hls]; exact mem_lift.mpr ⟨v, hv, rfl⟩)
    rwa [liftV_length] at this
  have hcl : ∀ j, ls.length = (column d.featureRows j).length := fun j => by rw [column_length, hlen]
  have htot : totalVariance d.labels t = .fin (totalVar t ls) := by rw [hls, totalVariance_exact ht hne]
  have hcols : d.featureColumns.map (colResult d.labels t) =
      (List.range c).map (fun j => colResult (lift ls) t (column d.featureRows j)) := by
    rw [h.cols, columnsOf, List.map_map, hls]; rfl
  -- every achievable reduction is bounded by the gain of its column
  have hach : ∀ q : Question (Ext K), q.column < c → 0 < varianceReduction t d.featureRows ls q →
      ∃ x, (colResult (lift ls) t (column d.featureRows q.column)).loss = .fin x ∧
        varianceReduction t d.featureRows ls q ≤ totalVar t ls - x := by
    intro q hq hpos
    have hside := sides_column (ls := ls) h.row_len hq
    have hn1 : noLabels d.featureRows ls q ≠ [] := by
      intro h0
      rw [reduction_one_side hlen hne (.inl h0)] at hpos; exact lt_irrefl _ hpos
    have hn2 : yesLabels d.featureRows ls q ≠ [] := by
      intro h0
      rw [reduction_one_side hlen hne (.inr h0)] at hpos; exact lt_irrefl _ hpos
    have hred := reduction_eq t d.featureRows ls q
    rw [hside.1, hside.2] at hred
    rw [hside.2] at hn1
    rw [hside.1] at hn2
    obtain ⟨k, w, m, hk, hm, hw, hcand⟩ := separating_candidate (t := t) (hcl q.column) (h.col_nan hq) hn1 hn2
    rcases colResult_exact (hcl q.column) ht hne (h.col_nan hq) with ⟨_, hconst⟩ | ⟨i, v, m', _, _, _, hm', _, hres, hmin⟩
    · exfalso
      have hmem : ∀ x ∈ (eseq ls (column d.featureRows q.column)).map Prod.fst, x ∈ column d.featureRows q.column := by
        intro x hx
        obtain ⟨p, hp, rfl⟩ := List.mem_map.mp hx
        exact (List.of_mem_zip ((eseq_perm (hcl q.column)).mem_iff.mp hp)).1
      rw [hconst w (hmem w (List.mem_of_getElem? hk)) m (hmem m (List.mem_of_getElem? hm))] at hw
      simp at hw
    · rw [hm] at hm'
      simp only [Option.some.injEq] at hm'
      subst hm'
      refine ⟨_, by rw [hres], ?_⟩
      rw [hred, ← hcand]
      have := hmin k w hk hw
      linarith
  have hget : ∀ j, j < c → colResult (lift ls) t (column d.featureRows j) ∈ d.featureColumns.map (colResult d.labels t) := by
    intro j hj
    rw [hcols]
    exact List.mem_map.mpr ⟨j, List.mem_range.mpr hj, rfl⟩
  unfold splitOf
  rcases bestColumn_spec (totalVariance d.labels t) (d.featureColumns.map (colResult d.labels t)) with
    ⟨h1, h2⟩ | ⟨i, r, h0, h1, h2, h3, _⟩
  · rw [h1]
    refine ⟨0, rfl, le_rfl, totalVar_nonneg _ _, ?_, .inl rfl⟩
    intro q hq
    by_contra hpos
    rw [_root_.not_le] at hpos
    obtain ⟨x, hx, hle⟩ := hach q hq hpos
    have := h2 _ (hget q.column hq)
    rw [gainOf, htot, hx] at this
    simp at this
    linarith
  · rw [h1]
    rw [hcols] at h0
    simp only [List.getElem?_map, Option.map_eq_some_iff] at h0
    obtain ⟨j, hj, hr⟩ := h0
    have hic : i < c := by
      have := (List.getElem?_eq_some_iff.mp hj).1
      simpa using this
    have hij : j = i := by
      rw [List.getElem?_range hic] at hj; simpa using hj.symm
    subst hij
    rcases colResult_exact (hcl j) ht hne (h.col_nan hic) with ⟨hinf, _⟩ | ⟨i, v, m, hi0, hil, hv, _, _, hres, _⟩
    · exfalso
      rw [← hr, hinf, gainOf, htot] at h2
      exact Bool.noConfusion (show false = true from h2)
    · rw [hr] at hres
      have hg : gainOf (totalVariance d.labels t) r = .fin (totalVar t ls - candAt t (eseq ls (column d.featureRows j)) i) := by
        rw [gainOf, htot, hres]; simp
      simp only [hg]
      rw [hg] at h2 h3
      simp only [Ext.zero_def, Ext.fin_lt, decide_eq_true_eq] at h2
      refine ⟨_, rfl, h2.le, ?_, ?_, .inr ⟨i, by rw [hv, hres], hic, h2, rfl⟩⟩
      · have h4 : 0 ≤ candAt t (eseq ls (column d.featureRows j)) i :=
          div_nonneg (add_nonneg (mul_nonneg (Nat.cast_nonneg _) (totalVar_nonneg _ _))
            (mul_nonneg (Nat.cast_nonneg _) (totalVar_nonneg _ _))) (add_nonneg (Nat.cast_nonneg _) (Nat.cast_nonneg _))
        linarith
      · intro q hq
        by_contra hpos
        rw [_root_.not_le] at hpos
        obtain ⟨x, hx, hle⟩ := hach q hq (lt_trans h2 hpos)
        have := h3 _ (hget q.column hq)
        rw [gainOf, htot, hx] at this
        simp at this
        linarith

/-! ## the order of the rows -/

/-- the candidates, when the loss at each position depends on the value only -/
theorem cands_of_value {t : Nat} {prev : Ext K} {g : Ext K → BestThresholdResult (Ext K)} {full : List (Ext K × List K)}
    (hfull : ∀ p ∈ full, p.2.length = t)
    (hg : ∀ pre v l post, full = pre ++ (v, l) :: post → (v ==. prev) = false →
      g v = { loss := splitLoss (trk t (labs pre)) (trk t (labs ((v, l) :: post))), thresholdValue := v })
    (s : List (Ext K × List K)) (pre : List (Ext K × List K)) (hs : full = pre ++ s) :
    cands prev (trk t (labs pre)) (trk t (labs s)) (s.map (fun p => (p.1, liftV p.2))) =
      ((s.map Prod.fst).filter (fun v => !(v ==. prev))).map g := by
  induction s generalizing pre with
  | nil => simp [cands]
  | cons p rest ih =>
    obtain ⟨v, l⟩ := p
    have hl : l.length = t := hfull (v, l) (by rw [hs]; simp)
    have hrest : cands prev (updLeft (trk t (labs pre)) (liftV l)) (updRight (trk t (labs ((v, l) :: rest))) (liftV l))
          (rest.map (fun p => (p.1, liftV p.2))) =
        cands prev (trk t (labs (pre ++ [(v, l)]))) (trk t (labs rest)) (rest.map (fun p => (p.1, liftV p.2))) := by
      cases rest with
      | nil => simp [cands]
      | cons q rest' =>
        rw [updLeft_exact hl, show labs ((v, l) :: q :: rest') = l :: labs (q :: rest') from rfl,
          updRight_exact hl (by simp [labs]), show labs (pre ++ [(v, l)]) = labs pre ++ [l] by simp [labs]]
    have hih := ih (pre ++ [(v, l)]) (by rw [hs]; simp)
    simp only [List.map_cons, cands, hrest, hih]
    cases hv : (v ==. prev) with
    | true => simp [hv]
    | false =>
      simp only [Bool.not_false, if_true, List.filter_cons, hv, List.map_cons, List.singleton_append, List.cons.injEq, and_true]
      exact (hg pre v l rest hs hv).symm

theorem Ext.eq_of_le {x y : Ext K} (h1 : (x <=. y) = true) (h2 : (y <=. x) = true) : x = y := by
  cases x <;> cases y <;> first | rfl | (exact Bool.noConfusion (show false = true from h1)) | (exact Bool.noConfusion (show false = true from h2)) | skip
  simp at h1 h2
  rw [le_antisymm h1 h2]

theorem eseq_values {ls ls' : List (List K)} {col col' : List (Ext K)} (h : ls.length = col.length) (h' : ls'.length = col'.length)
    (hn : ∀ x ∈ col, isNaN x = false) (hp : (col.zip ls).Perm (col'.zip ls')) :
    (eseq ls col).map Prod.fst = (eseq ls' col').map Prod.fst := by
  have hpc : col.Perm col' := by
    have := hp.map Prod.fst
    rwa [List.map_fst_zip (by omega), List.map_fst_zip (by omega)] at this
  have hn' : ∀ x ∈ col', isNaN x = false := fun x hx => hn x (hpc.mem_iff.mpr hx)
  refine List.Perm.eq_of_pairwise (le := fun a b => (a <=. b) = true) (fun a b _ _ h1 h2 => Ext.eq_of_le h1 h2)
    ?_ ?_ ?_
  · rw [List.pairwise_map]; exact eseq_sorted hn
  · rw [List.pairwise_map]; exact eseq_sorted hn'
  · exact (((eseq_perm h).trans hp).trans (eseq_perm h').symm).map _

/-- a column without repeated non-minimal values: the result does not depend on the order of the rows -/
theorem colResult_perm {t : Nat} {ls ls' : List (List K)} {col col' : List (Ext K)} (h : ls.length = col.length)
    (h' : ls'.length = col'.length) (ht : ∀ v ∈ ls, v.length = t) (hne : ls ≠ [])
    (hn : ∀ x ∈ col, isNaN x = false) (hp : (col.zip ls).Perm (col'.zip ls')) (hties : TiesOnlyAtMinimum col) :
    colResult (lift ls) t col = colResult (lift ls') t col' := by
  have hpc : col.Perm col' := by
    have := hp.map Prod.fst
    rwa [List.map_fst_zip (by omega), List.map_fst_zip (by omega)] at this
  have hpl : ls.Perm ls' := by
    have := hp.map Prod.snd
    rwa [List.map_snd_zip (by omega), List.map_snd_zip (by omega)] at this
  have hn' : ∀ x ∈ col', isNaN x = false := fun x hx => hn x (hpc.mem_iff.mpr hx)
  have ht' : ∀ v ∈ ls', v.length = t := fun x hx => ht x (hpl.mem_iff.mpr hx)
  have hne' : ls' ≠ [] := by
    rintro rfl
    exact hne hpl.eq_nil
  have hties' : TiesOnlyAtMinimum col' := by
    intro v hv ⟨w, hw, hlt⟩
    rw [← (hpc.filter _).length_eq]
    exact hties v (hpc.mem_iff.mpr hv) ⟨w, hpc.mem_iff.mpr hw, hlt⟩
  have hvals := eseq_values h h' hn hp
  -- the value of the scan as a function of the values
  have key : ∀ (ls : List (List K)) (col : List (Ext K)), ls.length = col.length → (∀ v ∈ ls, v.length = t) → ls ≠ [] →
      (∀ x ∈ col, isNaN x = false) → TiesOnlyAtMinimum col →
      colResult (lift ls) t col =
        ((((eseq ls col).map Prod.fst).filter (fun v => !(v ==. ((eseq ls col).map Prod.fst).headD F64.zero))).map
          (fun v => { loss := .fin (splitVar t (below col ls v) (atLeast col ls v)), thresholdValue := v })).foldl pickBest
          { loss := F64.infinity, thresholdValue := F64.zero } := by
    intro ls col h ht hne hn hties
    have hhead : ((seqOf (lift ls) col).map Prod.fst).headD F64.zero = ((eseq ls col).map Prod.fst).headD F64.zero := by
      rw [seqOf_lift, List.map_map]; rfl
    rw [colResult, scanResult, hhead, leftStart_exact, rightStart_exact h ht hne, seqOf_lift]
    congr 1
    refine cands_of_value (full := eseq ls col) (eseq_mem_lab h ht) ?_ (eseq ls col) [] rfl
    intro pre v l post hs hv
    have hmemcol : ∀ p ∈ eseq ls col, p.1 ∈ col := fun p hp => (List.of_mem_zip ((eseq_perm h).mem_iff.mp hp)).1
    have hnn := eseq_mem_nan h hn
    have hsorted := eseq_sorted (ls := ls) hn
    cases pre with
    | nil =>
      exfalso
      rw [hs] at hv
      have := hnn (v, l) (by rw [hs]; simp)
      simp only [List.nil_append, List.map_cons, List.headD_cons] at hv
      rw [show (v ==. v) = true from this] at hv
      simp at hv
    | cons m pre' =>
      have hm : m ∈ eseq ls col := by rw [hs]; simp
      have hle : (m.1 <=. v) = true := by
        rw [hs, List.cons_append] at hsorted
        exact (List.pairwise_cons.mp hsorted).1 (v, l) (by simp)
      have hlt : (m.1 <. v) = true := by
        rcases lt_or_eq hle with hlt | heq
        · exact hlt
        · rw [hs] at hv
          simp only [List.cons_append, List.map_cons, List.headD_cons] at hv
          rw [eq_symm' heq] at hv; simp at hv
      have hu := hties v (hmemcol (v, l) (by rw [hs]; simp)) ⟨m.1, hmemcol m hm, hlt⟩
      have hcut := unique_cut h hn hs hu
      obtain ⟨hc1, hc2⟩ := cut_exact h hn v
      rw [hcut] at hc1 hc2
      have e1 : (labs (eseq ls col)).take (m :: pre').length = labs (m :: pre') := by
        rw [hs, labs, ← List.map_take, List.take_left]; rfl
      have e2 : (labs (eseq ls col)).drop (m :: pre').length = labs ((v, l) :: post) := by
        rw [hs, labs, ← List.map_drop, List.drop_left]; rfl
      rw [e1] at hc1
      rw [e2] at hc2
      rw [splitLoss_exact (by simp [labs]) (by simp [labs]), splitVar_perm hc1 hc2]
  rw [key ls col h ht hne hn hties, key ls' col' h' ht' hne' hn' hties', hvals]
  congr 1
  apply List.map_congr_left
  intro v _
  congr 2
  exact splitVar_perm ((hp.filter _).map _) ((hp.filter _).map _)

end ordered
end Verif
