import Verif.Spec.ConstTarget
import Verif.Lemmas.Mirror
import Verif.Lemmas.SameInt
import Verif.Lemmas.NearLeaf
/-!
# One more target, with the same integer value in all labels

Its variance is exactly zero in every part of the data, so no loss changes.
-/

set_option linter.unusedSectionVars false

namespace Verif

open B64 LawfulOrder

variable [B64Env]

namespace ExactConst

variable {n k : ℕ} {x : ℤ} (h : ExactConst n x)
include h

omit [B64Env] in
theorem fewer (hk : k ≤ n) : ExactConst k x := by
  refine ⟨hk.trans h.rows, _root_.le_trans ?_ h.square⟩
  have : (k : ℤ) ≤ n := by exact_mod_cast hk
  exact mul_le_mul_of_nonneg_right this (sq_nonneg x)

omit [B64Env] in
theorem abs_le_sq : |x| ≤ x ^ 2 := by
  rw [← sq_abs, pow_two]
  rcases eq_or_ne x 0 with rfl | hx
  · simp
  · have : 1 ≤ |x| := Int.one_le_abs hx
    nlinarith

theorem linear : roundE (.fin ((n : ℚ) * x)) = .fin ((n : ℚ) * x) := by
  have h1 : |(n : ℤ) * x| ≤ 2 ^ 53 := by
    rw [abs_mul, Nat.abs_cast]
    refine _root_.le_trans ?_ h.square
    exact mul_le_mul_of_nonneg_left h.abs_le_sq (by positivity)
  have := roundE_int h1
  push_cast at this
  exact this

theorem quadratic : roundE (.fin ((n : ℚ) * x ^ 2)) = .fin ((n : ℚ) * x ^ 2) := by
  have h1 : |(n : ℤ) * x ^ 2| ≤ 2 ^ 53 := by
    rw [abs_of_nonneg (by positivity)]
    exact h.square
  have := roundE_int h1
  push_cast at this
  exact this

theorem count : roundE (.fin (n : ℚ)) = .fin (n : ℚ) := roundE_nat h.rows

end ExactConst

theorem ExactConst.value {x : ℤ} (h : ExactConst 1 x) : roundE (.fin (x : ℚ)) = .fin (x : ℚ) := by simpa using h.linear

theorem ExactConst.valueSq {x : ℤ} (h : ExactConst 1 x) : roundE (.fin ((x : ℚ) ^ 2)) = .fin ((x : ℚ) ^ 2) := by simpa using h.quadratic

variable {i t n : ℕ} {x : ℤ}

/-- a vector with one more entry -/
def Ins (i t : ℕ) (P : B64 → Prop) (l l' : List B64) : Prop :=
  l.length = t ∧ i ≤ t ∧ ∃ y, P y ∧ l' = l.take i ++ y :: l.drop i

theorem Ins.length {P : B64 → Prop} {l l' : List B64} (h : Ins i t P l l') : l'.length = t + 1 := by
  obtain ⟨h1, h2, y, _, rfl⟩ := h
  simp only [List.length_append, List.length_take, List.length_cons, List.length_drop]
  omega

theorem Ins.zip {f : B64 → B64 → B64} {P Q S : B64 → Prop} {a a' b b' : List B64} (h : Ins i t P a a') (h' : Ins i t Q b b')
    (hf : ∀ y z, P y → Q z → S (f y z)) : Ins i t S (List.zipWith f a b) (List.zipWith f a' b') := by
  obtain ⟨h1, h2, y, hy, rfl⟩ := h
  obtain ⟨h3, _, z, hz, rfl⟩ := h'
  refine ⟨by simp [h1, h3], h2, f y z, hf y z hy hz, ?_⟩
  rw [List.zipWith_append (by simp [h1, h3]), List.zipWith_cons_cons, List.take_zipWith, List.drop_zipWith]

theorem Ins.map {f : B64 → B64} {P S : B64 → Prop} {a a' : List B64} (h : Ins i t P a a') (hf : ∀ y, P y → S (f y)) :
    Ins i t S (a.map f) (a'.map f) := by
  obtain ⟨h1, h2, y, hy, rfl⟩ := h
  exact ⟨by simp [h1], h2, f y, hf y hy, by simp [List.map_take, List.map_drop]⟩

theorem Ins.imp {P S : B64 → Prop} {a a' : List B64} (h : Ins i t P a a') (hf : ∀ y, P y → S y) : Ins i t S a a' := by
  obtain ⟨h1, h2, y, hy, e⟩ := h
  exact ⟨h1, h2, y, hf y hy, e⟩

theorem Ins.zeros (hi : i ≤ t) {P : B64 → Prop} (hP : P F64.zero) :
    Ins i t P (List.replicate t (F64.zero : B64)) (List.replicate (t + 1) F64.zero) := by
  refine ⟨by simp, hi, F64.zero, hP, ?_⟩
  rw [List.take_replicate, List.drop_replicate, min_eq_left hi, ← List.replicate_succ, List.replicate_append_replicate]
  congr 1
  omega

/-- trackers of the labels without and with the further target -/
structure InsTrk (i t : ℕ) (x : ℤ) (k : ℕ) (tr tr' : Tracker B64) : Prop where
  count : tr'.numberOfLabels = tr.numberOfLabels
  countVal : tr.numberOfLabels.val = .fin (k : ℚ)
  sums : Ins i t (fun y => y.val = .fin ((k : ℚ) * x)) tr.metrics.sumOfLabels tr'.metrics.sumOfLabels
  squares : Ins i t (fun y => y.val = .fin ((k : ℚ) * x ^ 2)) tr.metrics.sumOfSquaredLabels tr'.metrics.sumOfSquaredLabels
  means : Ins i t (fun y => 0 < k → y.val = .fin (x : ℚ)) tr.metrics.meanOfLabels tr'.metrics.meanOfLabels

/-- a label without and with the further target -/
abbrev InsVec (i t : ℕ) (x : ℤ) (l l' : List B64) : Prop := Ins i t (fun y => y.val = .fin (x : ℚ)) l l'

theorem mean_const {k : ℕ} {x : ℤ} (h1 : ExactConst 1 x) {s c : B64} (hs : s.val = .fin ((k : ℚ) * x)) (hc : c.val = .fin (k : ℚ)) (hk : 0 < k) :
    (s /. c).val = .fin (x : ℚ) := by
  have hk' : (k : ℚ) ≠ 0 := by exact_mod_cast hk.ne'
  rw [div_val _ _ (by rw [hc]; simpa using hk.ne'), hs, hc, Ext.fin_div _ _ hk', mul_div_cancel_left₀ _ hk', h1.value]

theorem square_const {x : ℤ} (h1 : ExactConst 1 x) {y : B64} (hy : y.val = .fin (x : ℚ)) : (y *. y).val = .fin ((x : ℚ) ^ 2) := by
  rw [mul_val, hy, Ext.fin_mul, ← pow_two, h1.valueSq]

theorem updLeft_ins {k : ℕ} {tr tr' : Tracker B64} {l l' : List B64} (h : InsTrk i t x k tr tr') (hE : ExactConst (k + 1) x)
    (hl : InsVec i t x l l') : InsTrk i t x (k + 1) (updLeft tr l) (updLeft tr' l') := by
  have h1 : ExactConst 1 x := hE.fewer (by omega)
  have hc : (tr.numberOfLabels +. F64.one).val = .fin ((k + 1 : ℕ) : ℚ) := by
    rw [add_val, h.countVal, one_val, Ext.fin_add, ← hE.count]; push_cast; rfl
  have hs : Ins i t (fun y => y.val = .fin (((k + 1 : ℕ) : ℚ) * x)) (List.zipWith F64.add tr.metrics.sumOfLabels l)
      (List.zipWith F64.add tr'.metrics.sumOfLabels l') := by
    refine h.sums.zip hl (fun y z hy hz => ?_)
    rw [add_val, hy, hz, Ext.fin_add, ← hE.linear]; push_cast; ring_nf
  rw [updLeft, updLeft, h.count]
  refine ⟨rfl, hc, hs, ?_, ?_⟩
  · refine h.squares.zip hl (fun y z hy hz => ?_)
    rw [add_val, hy, square_const h1 hz, Ext.fin_add, ← hE.quadratic]; push_cast; ring_nf
  · exact hs.map (fun y hy _ => mean_const h1 hy hc (by omega))

theorem updRight_ins {k : ℕ} {tr tr' : Tracker B64} {l l' : List B64} (h : InsTrk i t x (k + 1) tr tr') (hE : ExactConst (k + 1) x)
    (hl : InsVec i t x l l') : InsTrk i t x k (updRight tr l) (updRight tr' l') := by
  have h1 : ExactConst 1 x := hE.fewer (by omega)
  have hE' : ExactConst k x := hE.fewer (by omega)
  have hc : (tr.numberOfLabels -. F64.one).val = .fin (k : ℚ) := by
    rw [sub_val, h.countVal, one_val, Ext.fin_sub, ← hE'.count]; push_cast; ring_nf
  have hs : Ins i t (fun y => y.val = .fin ((k : ℚ) * x)) (List.zipWith F64.sub tr.metrics.sumOfLabels l)
      (List.zipWith F64.sub tr'.metrics.sumOfLabels l') := by
    refine h.sums.zip hl (fun y z hy hz => ?_)
    rw [sub_val, hy, hz, Ext.fin_sub, ← hE'.linear]; push_cast; ring_nf
  rw [updRight, updRight, h.count]
  refine ⟨rfl, hc, hs, ?_, ?_⟩
  · refine h.squares.zip hl (fun y z hy hz => ?_)
    rw [sub_val, hy, square_const h1 hz, Ext.fin_sub, ← hE'.quadratic]; push_cast; ring_nf
  · exact hs.map (fun y hy hk => mean_const h1 hy hc hk)

theorem leftStart_ins (hi : i ≤ t) : InsTrk i t x 0 (leftStart t) (leftStart (t + 1)) :=
  ⟨rfl, by simp [leftStart], Ins.zeros hi (by simp), Ins.zeros hi (by simp), Ins.zeros hi (by simp)⟩

/-- pairs of labels -/
abbrev InsPairs (i t : ℕ) (x : ℤ) (zs : List (List B64 × List B64)) : Prop := ∀ z ∈ zs, InsVec i t x z.1 z.2

theorem foldl_ins : ∀ (zs : List (List B64 × List B64)) (k : ℕ) (tr tr' : Tracker B64), InsPairs i t x zs → ExactConst (k + zs.length) x →
    InsTrk i t x k tr tr' → InsTrk i t x (k + zs.length) ((zs.map Prod.fst).foldl updLeft tr) ((zs.map Prod.snd).foldl updLeft tr') := by
  intro zs
  induction zs with
  | nil => intro k tr tr' _ _ h; exact h
  | cons z zs ih =>
    intro k tr tr' hz hE h
    have e : k + (z :: zs).length = (k + 1) + zs.length := by simp; omega
    rw [e] at hE ⊢
    exact ih (k + 1) _ _ (fun z' hz' => hz z' (by simp [hz'])) hE (updLeft_ins h (hE.fewer (by omega)) (hz z (by simp)))

theorem start_ins {zs : List (List B64 × List B64)} (hi : i ≤ t) (hz : InsPairs i t x zs) (hE : ExactConst zs.length x) :
    InsTrk i t x zs.length ((zs.map Prod.fst).foldl updLeft (leftStart t)) ((zs.map Prod.snd).foldl updLeft (leftStart (t + 1))) := by
  have := foldl_ins zs 0 _ _ hz (by simpa using hE) (leftStart_ins hi)
  simpa using this

theorem vecSum_ins {zs : List (List B64 × List B64)} (hi : i ≤ t) (hz : InsPairs i t x zs) (hE : ExactConst zs.length x) :
    Ins i t (fun y => y.val = .fin ((zs.length : ℚ) * x)) (vecSum t (zs.map Prod.fst)) (vecSum (t + 1) (zs.map Prod.snd)) := by
  rw [vecSum_foldl, vecSum_foldl]
  exact (start_ins hi hz hE).sums

theorem metricsOf_ins {zs : List (List B64 × List B64)} (hi : i ≤ t) (hz : InsPairs i t x zs) (hE : ExactConst zs.length x) (hne : zs ≠ []) :
    InsTrk i t x zs.length (rightStart zs.length (metricsOf (zs.map Prod.fst) t)) (rightStart zs.length (metricsOf (zs.map Prod.snd) (t + 1))) := by
  have hs := vecSum_ins hi hz hE
  have h := start_ins hi hz hE
  have hpos := List.length_pos_of_ne_nil hne
  have hc : (F64.ofNat zs.length : B64).val = .fin (zs.length : ℚ) := by rw [ofNat_val, hE.count]
  refine ⟨rfl, hc, ?_, ?_, ?_⟩
  · simpa [rightStart, metricsOf, sumVecs_fst] using hs
  · simpa [rightStart, metricsOf, sumVecs_foldl] using h.squares
  · simp only [rightStart, metricsOf, sumVecs_fst, List.length_map]
    exact hs.map (fun y hy hk => mean_const (hE.fewer hpos) hy hc hk)

theorem varVec_ins {k : ℕ} {tr tr' : Tracker B64} (h : InsTrk i t x k tr tr') (hE : ExactConst k x) (hk : 0 < k) :
    Ins i t (fun y => y.val = .fin 0) (varVec tr.metrics tr.numberOfLabels) (varVec tr'.metrics tr'.numberOfLabels) := by
  rw [varVec, varVec, h.count]
  refine h.means.zip h.squares (fun y z hy hz => ?_)
  have hk' : (k : ℚ) ≠ 0 := by exact_mod_cast hk.ne'
  rw [calculateVariance, div_val _ _ (by rw [h.countVal]; simpa using hk.ne'), sub_val, mul_val, square_const (hE.fewer hk) (hy hk), h.countVal, hz,
    Ext.fin_mul, hE.quadratic, Ext.fin_sub, sub_self, roundE_zero, Ext.fin_div _ _ hk', zero_div, roundE_zero]

theorem ext_add_zero (a : Ext ℚ) : a +. (.fin 0) = a := by
  cases a with
  | fin q => simp
  | _ => rfl

theorem fsum_ins {xs ys : List B64} (h : Ins i t (fun y => y.val = .fin 0) xs ys) : Mirrors false (fsum xs) (fsum ys) := by
  obtain ⟨_, _, y, hy, rfl⟩ := h
  have key : ∀ (xs : List B64) (u v : B64), v.val = u.val → (xs.foldl F64.add v).val = (xs.foldl F64.add u).val := by
    intro xs
    induction xs with
    | nil => intro u v h; exact h
    | cons a xs ih => intro u v h; exact ih _ _ (by rw [add_val, add_val, h])
  show B64.val (fsum _) = B64.val (fsum xs)
  conv_rhs => rw [← List.take_append_drop i xs]
  rw [fsum, fsum, List.foldl_append, List.foldl_append, List.foldl_cons]
  apply key
  rw [add_val, hy, ext_add_zero, rounded]

theorem weight_fin {a b : ℕ} (ha : 0 < a) {c e : B64} (hc : c.val = .fin (a : ℚ)) (he : e.val = .fin ((a + b : ℕ) : ℚ)) :
    ∃ q, (c /. e).val = .fin q := by
  have h0 : ((a + b : ℕ) : ℚ) ≠ 0 := by
    have : a + b ≠ 0 := by omega
    exact_mod_cast this
  rw [div_val _ _ (by rw [he]; simpa using h0), hc, he, Ext.fin_div _ _ h0]
  obtain ⟨v, hv, _⟩ := roundE_err (q := (a : ℚ) / ((a + b : ℕ) : ℚ)) (by
    rw [abs_of_nonneg (by positivity)]
    refine _root_.le_trans (div_le_one_of_le₀ (by push_cast; linarith [show (0 : ℚ) ≤ b from by positivity]) (by positivity)) ?_
    simpa using big_ge (k := 0) (by norm_num))
  exact ⟨v, hv⟩

theorem splitLoss_ins {k1 k2 : ℕ} {left left' right right' : Tracker B64} (hl : InsTrk i t x k1 left left') (hr : InsTrk i t x k2 right right')
    (hE : ExactConst (k1 + k2) x) (h1 : 0 < k1) (h2 : 0 < k2) : Mirrors false (splitLoss left right) (splitLoss left' right') := by
  have v1 := varVec_ins hl (hE.fewer (by omega)) h1
  have v2 := varVec_ins hr (hE.fewer (by omega)) h2
  have htot : (left.numberOfLabels +. right.numberOfLabels).val = .fin ((k1 + k2 : ℕ) : ℚ) := by
    rw [add_val, hl.countVal, hr.countVal, Ext.fin_add, ← hE.count]; push_cast; rfl
  obtain ⟨a, ha⟩ := weight_fin h1 hl.countVal htot
  obtain ⟨b, hb⟩ := weight_fin (b := k1) h2 hr.countVal (by rw [htot, Nat.add_comm])
  simp only [splitLoss]
  rw [hl.count, hr.count] at *
  refine fsum_ins (i := i) (t := t) (v1.zip v2 (fun y z hy hz => ?_))
  simp only [add_val, mul_val, ha, hb, hy, hz, Ext.fin_mul, mul_zero, roundE_zero, Ext.fin_add, add_zero]

theorem cands_ins {prev : B64} : ∀ (seq : List (B64 × (List B64 × List B64))) (k : ℕ) (left left' right right' : Tracker B64),
    (∀ p ∈ seq, InsVec i t x p.2.1 p.2.2) → InsTrk i t x k left left' → InsTrk i t x seq.length right right' → ExactConst (k + seq.length) x →
    (k = 0 → ∀ p ∈ seq.head?, (p.1 ==. prev) = true) →
      List.Forall₂ MiCand (cands prev left right (seq.map (fun p => (p.1, p.2.1)))) (cands prev left' right' (seq.map (fun p => (p.1, p.2.2)))) := by
  intro seq
  induction seq with
  | nil => intro k left left' right right' _ _ _ _ _; simp [cands]
  | cons p seq ih =>
    intro k left left' right right' hs hl hr hE h0
    simp only [List.map_cons, cands]
    have e : k + (p :: seq).length = (k + 1) + seq.length := by simp; omega
    refine List.rel_append ?_ ?_
    · by_cases hp : (p.1 ==. prev) = true
      · simp [hp]
      · have hk : 0 < k := by
          rcases Nat.eq_zero_or_pos k with h | h
          · exact absurd (h0 h p (by simp)) hp
          · exact h
        simp only [hp]
        exact .cons ⟨rfl, splitLoss_ins hl hr hE hk (by simp)⟩ .nil
    · rw [e] at hE
      exact ih (k + 1) _ _ _ _ (fun p hp => hs p (by simp [hp])) (updLeft_ins hl (hE.fewer (by omega)) (hs p (by simp)))
        (updRight_ins hr (hE.fewer (by omega)) (hs p (by simp))) hE (by omega)

theorem splitOf_ins {d : DataSet B64} {c : ℕ} {zs : List (List B64 × List B64)} (h : d.WF c t) (hi : i ≤ t) (hz : InsPairs i t x zs)
    (hE : ExactConst zs.length x) (hls : d.labels = zs.map Prod.fst) :
    MiSplit (splitOf d t) (splitOf { d with labels := zs.map Prod.snd } (t + 1)) := by
  have hzl : zs.length = d.labels.length := by rw [hls, List.length_map]
  have hne : zs ≠ [] := by
    have := h.labels_ne
    rw [hls] at this
    simpa using this
  have hm := metricsOf_ins hi hz hE hne
  have hT : Mirrors false (totalVariance d.labels t) (totalVariance (zs.map Prod.snd) (t + 1)) := by
    have := fsum_ins (varVec_ins hm hE (List.length_pos_of_ne_nil hne))
    rw [totalVariance, totalVariance, hls, List.length_map, List.length_map]
    exact this
  rw [splitOf, splitOf]
  refine bestColumn_mi hT ?_
  rw [List.forall₂_map_left_iff, List.forall₂_map_right_iff, List.forall₂_same]
  intro col hcol
  rw [h.cols, columnsOf] at hcol
  obtain ⟨j, hj, rfl⟩ := List.mem_map.mp hcol
  have hcl : (column d.featureRows j).length = zs.length := by rw [column_length, hzl, h.label_count]
  have hnan := h.col_nan (List.mem_range.mp hj)
  set col := column d.featureRows j with hcoldef
  let seq : List (B64 × (List B64 × List B64)) := (sorted col.zipIdx).map (fun p => (p.1, zs.getD p.2 ([], [])))
  have hidx : ∀ p ∈ sorted col.zipIdx, p.2 < zs.length := by
    intro p hp
    have := List.snd_lt_of_mem_zipIdx ((sorted_perm _).mem_iff.mp hp)
    omega
  have e1 : seqOf d.labels col = seq.map (fun p => (p.1, p.2.1)) := by
    simp only [seqOf, seq, List.map_map]
    apply List.map_congr_left
    intro p hp
    have := hidx p hp
    simp [hls, this]
  have e2 : seqOf (zs.map Prod.snd) col = seq.map (fun p => (p.1, p.2.2)) := by
    simp only [seqOf, seq, List.map_map]
    apply List.map_congr_left
    intro p hp
    have := hidx p hp
    simp [this]
  have hsz : ∀ p ∈ seq, InsVec i t x p.2.1 p.2.2 := by
    intro p hp
    obtain ⟨q, hq, rfl⟩ := List.mem_map.mp hp
    apply hz
    simp [hidx q hq]
  have hlen : seq.length = zs.length := by
    simp only [seq, List.length_map]
    rw [(sorted_perm _).length_eq, List.length_zipIdx, hcl]
  simp only [colResult, scanResult, e1, e2]
  simp only [hls, List.length_map, List.map_map]
  refine foldl_pickBest_mi (cands_ins seq 0 _ _ _ _ hsz (leftStart_ins hi) (by rw [hlen]; exact hm) (by rw [hlen]; simpa using hE) ?_) _ _
    ⟨rfl, mirrors_refl _⟩
  intro _ p hp
  have hmem : p ∈ seq := List.mem_of_mem_head? hp
  obtain ⟨q, hq, rfl⟩ := List.mem_map.mp hmem
  have hqn : isNaN q.1 = false := by
    have := List.fst_mem_of_mem_zipIdx ((sorted_perm _).mem_iff.mp hq)
    exact hnan _ this
  have : (seq.map Prod.fst).headD F64.zero = q.1 := by
    rw [List.headD_eq_head?_getD, List.head?_map, hp]; rfl
  simp only [Function.comp_def]
  change (q.1 ==. (seq.map Prod.fst).headD F64.zero) = true
  rw [this]
  simpa [isNaN] using hqn

/-! ## Trees and leaves -/

theorem avgVec_ins {zs : List (List B64 × List B64)} (hi : i ≤ t) (hz : InsPairs i t x zs) (hE : ExactConst zs.length x) (hne : zs ≠ []) :
    InsVec i t x (avgVec t (zs.map Prod.fst)) (avgVec (t + 1) (zs.map Prod.snd)) := by
  have hpos := List.length_pos_of_ne_nil hne
  simp only [avgVec, List.length_map]
  exact (vecSum_ins hi hz hE).map (fun y hy => mean_const (hE.fewer hpos) hy (by rw [ofNat_val, hE.count]) hpos)

/-- The same questions, hence the same way for every row, and leaves made from the same rows with the corresponding labels. -/
def InsShape {L L' : Type} (c t i : ℕ) (x : ℤ) (leafOf : DataSet B64 → L) (leafOf' : DataSet B64 → L') (a : TreeNode B64 L) (b : TreeNode B64 L') :
    Prop :=
  (∀ p, b.questionAt p = a.questionAt p) ∧ (∀ row, b.route row = a.route row) ∧
    ∀ p leaf, a.leafAt p = some leaf → ∃ (dd : DataSet B64) (zs : List (List B64 × List B64)), dd.WF c t ∧ InsPairs i t x zs ∧
      ExactConst zs.length x ∧ dd.labels = zs.map Prod.fst ∧ leaf = leafOf dd ∧ b.leafAt p = some (leafOf' { dd with labels := zs.map Prod.snd })

theorem treeOf_ins {L L' : Type} {c : ℕ} {leafOf : DataSet B64 → L} {leafOf' : DataSet B64 → L'} (hi : i ≤ t) (m : ℕ)
    (d : DataSet B64) (h : d.WF c t) : ∀ zs : List (List B64 × List B64), InsPairs i t x zs → ExactConst zs.length x → d.labels = zs.map Prod.fst →
      InsShape c t i x leafOf leafOf' (treeOf leafOf c t m d) (treeOf leafOf' c (t + 1) m { d with labels := zs.map Prod.snd }) := by
  have hzero : ∀ {b b' : BestSplitResult B64}, MiSplit b b' → (b'.gain ==. F64.zero) = (b.gain ==. F64.zero) := by
    intro b b' hb
    have := hb.2
    unfold Mirrors at this
    rw [eq_val, eq_val, this]
    rfl
  have hleaf : ∀ (q q' : Question B64) (d : DataSet B64) (zs : List (List B64 × List B64)), d.WF c t → InsPairs i t x zs → ExactConst zs.length x →
      d.labels = zs.map Prod.fst →
      InsShape c t i x leafOf leafOf' (TreeNode.leafNode q (leafOf d)) (TreeNode.leafNode q' (leafOf' { d with labels := zs.map Prod.snd })) := by
    intro q q' d zs hw hzs hE hls
    refine ⟨fun p => by cases p <;> rfl, fun _ => rfl, ?_⟩
    intro p leaf hp
    cases p with
    | nil =>
      cases hp
      exact ⟨d, zs, hw, hzs, hE, hls, rfl, rfl⟩
    | cons a p => cases a <;> cases hp
  refine treeOf_induct (motive := fun m d => ∀ zs : List (List B64 × List B64), InsPairs i t x zs → ExactConst zs.length x →
    d.labels = zs.map Prod.fst →
    InsShape c t i x leafOf leafOf' (treeOf leafOf c t m d) (treeOf leafOf' c (t + 1) m { d with labels := zs.map Prod.snd }))
    ?_ ?_ ?_ m d h
  · intro d hw zs hzs hE hls
    exact hleaf _ _ _ _ hw hzs hE hls
  · intro m d hw hg zs hzs hE hls
    have hs := splitOf_ins hw hi hzs hE hls
    rw [treeOf_leaf hg, treeOf_leaf ((hzero hs).trans hg)]
    exact hleaf _ _ _ _ hw hzs hE hls
  · intro m d hw hg i1 i2 zs hzs hE hls
    have hs := splitOf_ins hw hi hzs hE hls
    have hlen : zs.length = d.featureRows.length := by rw [← hw.label_count, hls, List.length_map]
    have hr : ∀ p : List B64 → Bool, ∃ ys : List (List B64 × List B64), InsPairs i t x ys ∧ ExactConst ys.length x ∧
        (d.restrict c p).labels = ys.map Prod.fst ∧
        ({ d with labels := zs.map Prod.snd } : DataSet B64).restrict c p = { d.restrict c p with labels := ys.map Prod.snd } := by
      intro p
      refine ⟨((d.featureRows.zip zs).filter (fun e => p e.1)).map Prod.snd, ?_, hE.fewer ?_, ?_, ?_⟩
      · intro y hy
        obtain ⟨e, he, rfl⟩ := List.mem_map.mp hy
        exact hzs _ (List.of_mem_zip (List.mem_filter.mp he).1).2
      · rw [List.length_map]
        refine (List.length_filter_le _ _).trans ?_
        simp
      · simp only [DataSet.restrict, DataSet.examples, hls]
        rw [List.zip_map_right, List.filter_map, List.map_map, List.map_map]
        rfl
      · rw [restrict_labels (by rw [List.length_map]; exact hlen) hw.label_count, List.zip_map_right, List.filter_map, List.map_map, List.map_map]
        rfl
    rw [treeOf_node hg, treeOf_node ((hzero hs).trans hg), hs.1]
    obtain ⟨ms1, z1, x1, a1, b1⟩ := hr (satisfies (splitOf d t).question)
    obtain ⟨ms2, z2, x2, a2, b2⟩ := hr (fun r => !satisfies (splitOf d t).question r)
    rw [b1, b2]
    have k1 := i1 ms1 z1 x1 a1
    have k2 := i2 ms2 z2 x2 a2
    refine ⟨fun p => ?_, fun row => ?_, fun p leaf hp => ?_⟩
    · match p with
      | [] => rfl
      | true :: p => exact k1.1 p
      | false :: p => exact k2.1 p
    · rw [TreeNode.route_new, TreeNode.route_new, k1.2.1 row, k2.2.1 row]
    · match p with
      | [] => cases hp
      | true :: p => exact k1.2.2 p leaf hp
      | false :: p => exact k2.2.2 p leaf hp

end Verif
