import Verif.Spec.NearPerm
import Verif.Lemmas.NearFit
import Verif.Lemmas.Ties
import Verif.Lemmas.ClearCut
import Verif.Props.Rounding
/-!
# Integer labels: the order of the rows leaves no trace in binary64
-/

set_option linter.unusedSectionVars false

namespace Verif

open B64 LawfulOrder

namespace ExactSums
variable {n b : ℕ} (h : ExactSums n b)
include h

theorem fewer {m : ℕ} (hm : m ≤ n) : ExactSums m b := by
  refine ⟨h.bound, _root_.le_trans ?_ h.square⟩
  gcongr

theorem rows : n ≤ 2 ^ 53 := by
  have h1 := h.square
  have h2 : 1 ≤ b ^ 2 := Nat.one_le_pow _ _ h.bound
  nlinarith

theorem linear : n * b ≤ 2 ^ 53 := by
  have h1 := h.square
  have h2 := h.bound
  refine _root_.le_trans ?_ h1
  rw [pow_two]
  refine Nat.mul_le_mul_left _ ?_
  nlinarith

end ExactSums

/-- integer labels that add up exactly -/
structure Exactly (t n b : ℕ) (L : List (List ℚ)) : Prop where
  width : ∀ v ∈ L, v.length = t
  whole : Whole L
  bound : AtMost (b : ℚ) L
  rows : L.length ≤ n

namespace Exactly
variable {t n b : ℕ} {L : List (List ℚ)} (h : Exactly t n b L)
include h

theorem sub {M : List (List ℚ)} (hm : ∀ v ∈ M, v ∈ L) (hl : M.length ≤ L.length) : Exactly t n b M :=
  ⟨fun v hv => h.width v (hm v hv), fun v hv => h.whole v (hm v hv), fun v hv => h.bound v (hm v hv), hl.trans h.rows⟩

theorem perm {M : List (List ℚ)} (hp : L.Perm M) : Exactly t n b M := h.sub (fun _ hv => hp.mem_iff.mpr hv) hp.length_eq.ge

theorem target_abs (j : ℕ) : ∀ x ∈ target L j, |x| ≤ b := by
  intro x hx
  obtain ⟨v, hv, rfl⟩ := List.mem_map.mp hx
  rw [List.getD]
  cases hj : v[j]? with
  | none => simp
  | some y => exact h.bound v hv y (List.mem_of_getElem? hj)

end Exactly

theorem abs_sum_le' {B : ℚ} {xs : List ℚ} (h : ∀ x ∈ xs, |x| ≤ B) : |xs.sum| ≤ xs.length * B := by
  induction xs with
  | nil => simp
  | cons x xs ih =>
    have h1 := ih (fun y hy => h y (by simp [hy]))
    have h2 := h x (by simp)
    rw [List.sum_cons, List.length_cons]
    push_cast
    have := abs_add_le x xs.sum
    linarith

section
variable [B64Env]

theorem roundE_zq {x : ℚ} (hz : x ∈ Zq) (hb : |x| ≤ 2 ^ 53) : roundE (.fin x) = .fin x := by
  obtain ⟨z, hz⟩ := hz
  have hz : (z : ℚ) = x := by simpa using hz
  subst hz
  exact roundE_int (by exact_mod_cast hb)

theorem Exactly.sum_exact {t n b : ℕ} {L : List (List ℚ)} (h : Exactly t n b L) (hf : ExactSums n b) (j : ℕ) :
    roundE (.fin (target L j).sum) = .fin (target L j).sum := by
  refine roundE_zq (list_sum_mem (h.whole.target j)) ((abs_sum_le' (h.target_abs j)).trans ?_)
  rw [target_length]
  have h1 : L.length * b ≤ n * b := Nat.mul_le_mul_right _ h.rows
  exact_mod_cast h1.trans hf.linear

theorem Exactly.squares_exact {t n b : ℕ} {L : List (List ℚ)} (h : Exactly t n b L) (hf : ExactSums n b) (j : ℕ) :
    roundE (.fin ((target L j).map (fun x => x ^ 2)).sum) = .fin ((target L j).map (fun x => x ^ 2)).sum := by
  refine roundE_zq (list_sum_mem ?_) ((abs_sum_le' (B := (b : ℚ) ^ 2) ?_).trans ?_)
  · intro x hx
    obtain ⟨y, hy, rfl⟩ := List.mem_map.mp hx
    exact pow_mem (h.whole.target j y hy) 2
  · intro x hx
    obtain ⟨y, hy, rfl⟩ := List.mem_map.mp hx
    rw [abs_pow]
    exact pow_le_pow_left₀ (abs_nonneg _) (h.target_abs j y hy) 2
  · rw [List.length_map, target_length]
    have h1 : L.length * b ^ 2 ≤ n * b ^ 2 := Nat.mul_le_mul_right _ h.rows
    exact_mod_cast h1.trans hf.square

/-- the tracker after the labels `L`, without any rounding -/
structure TrkSum (t : ℕ) (L : List (List ℚ)) (tr : Tracker B64) : Prop where
  count : tr.numberOfLabels.val = .fin (L.length : ℚ)
  shape : tr.metrics.Shape t
  sums : ∀ j < t, (tr.metrics.sumOfLabels.getD j F64.zero).val = .fin (target L j).sum
  squares : ∀ j < t, (tr.metrics.sumOfSquaredLabels.getD j F64.zero).val = .fin ((target L j).map (fun x => x ^ 2)).sum
  means : L ≠ [] → tr.metrics.meanOfLabels = tr.metrics.sumOfLabels.map (fun s => s /. tr.numberOfLabels)

theorem TrkSum.perm {t : ℕ} {L M : List (List ℚ)} {tr : Tracker B64} (h : TrkSum t L tr) (hp : L.Perm M) : TrkSum t M tr := by
  refine ⟨by rw [h.count, hp.length_eq], h.shape, ?_, ?_, fun hm => h.means ?_⟩
  · intro j hj
    rw [h.sums j hj, (target_perm hp j).sum_eq]
  · intro j hj
    rw [h.squares j hj, ((target_perm hp j).map _).sum_eq]
  · rintro rfl
    exact hm hp.nil_eq.symm

theorem target_cons' (v : List ℚ) (L : List (List ℚ)) (j : ℕ) : target (v :: L) j = v.getD j 0 :: target L j := rfl

section
variable {t n b : ℕ} (hf : ExactSums n b)
include hf

theorem updLeft_sum {L : List (List ℚ)} {v : List ℚ} {tr : Tracker B64} {l : List B64} (h : TrkSum t L tr) (hE : Exactly t n b (v :: L))
    (hl : l.map B64.val = liftV v) : TrkSum t (v :: L) (updLeft tr l) := by
  have hll : l.length = t := by rw [valV_length hl, hE.width v (by simp)]
  have hv1 : Exactly t n b [v] := hE.sub (by simp) (by simp)
  refine ⟨?_, updMetrics_shape h.shape hll, ?_, ?_, fun _ => rfl⟩
  · simp only [updLeft, add_val, h.count]
    rw [one_val, Ext.fin_add]
    have := roundE_nat (n := L.length + 1) (by have := hE.rows; have := hf.rows; simp only [List.length_cons] at *; omega)
    push_cast [List.length_cons] at this ⊢
    exact this
  · intro j hj
    simp only [updLeft, updMetrics]
    rw [zipWith_getD_of (a := F64.zero) (b := F64.zero) (by rw [h.shape.sums]; exact hj) (by omega), add_val, h.sums j hj, valV_getD hl,
      Ext.fin_add, ← hE.sum_exact hf j, target_cons', List.sum_cons, add_comm]
  · intro j hj
    have h1 := hv1.squares_exact hf j
    simp only [target, List.map_nil, List.map_cons, List.sum_cons, List.sum_nil, add_zero] at h1
    simp only [updLeft, updMetrics]
    rw [zipWith_getD_of (a := F64.zero) (b := F64.zero) (by rw [h.shape.squares]; exact hj) (by omega), add_val, h.squares j hj, mul_val,
      valV_getD hl, Ext.fin_mul, ← pow_two, h1, Ext.fin_add, ← hE.squares_exact hf j, target_cons', List.map_cons, List.sum_cons, add_comm]

theorem updRight_sum {L : List (List ℚ)} {v : List ℚ} {tr : Tracker B64} {l : List B64} (h : TrkSum t (v :: L) tr)
    (hE : Exactly t n b (v :: L)) (hl : l.map B64.val = liftV v) : TrkSum t L (updRight tr l) := by
  have hll : l.length = t := by rw [valV_length hl, hE.width v (by simp)]
  have hv1 : Exactly t n b [v] := hE.sub (by simp) (by simp)
  have hL : Exactly t n b L := hE.sub (fun w hw => by simp [hw]) (by simp)
  refine ⟨?_, updMetrics_shape h.shape hll, ?_, ?_, fun _ => rfl⟩
  · simp only [updRight, sub_val, h.count]
    rw [one_val, Ext.fin_sub]
    have := roundE_nat (n := L.length) (by have := hL.rows; have := hf.rows; omega)
    push_cast [List.length_cons] at this ⊢
    rw [add_sub_cancel_right]
    exact this
  · intro j hj
    simp only [updRight, updMetrics]
    rw [zipWith_getD_of (a := F64.zero) (b := F64.zero) (by rw [h.shape.sums]; exact hj) (by omega), sub_val, h.sums j hj, valV_getD hl,
      Ext.fin_sub, ← hL.sum_exact hf j, target_cons', List.sum_cons, add_sub_cancel_left]
  · intro j hj
    have h1 := hv1.squares_exact hf j
    simp only [target, List.map_nil, List.map_cons, List.sum_cons, List.sum_nil, add_zero] at h1
    simp only [updRight, updMetrics]
    rw [zipWith_getD_of (a := F64.zero) (b := F64.zero) (by rw [h.shape.squares]; exact hj) (by omega), sub_val, h.squares j hj, mul_val,
      valV_getD hl, Ext.fin_mul, ← pow_two, h1, Ext.fin_sub, ← hL.squares_exact hf j, target_cons', List.map_cons, List.sum_cons,
      add_sub_cancel_left]

omit hf in
theorem leftStart_sum : TrkSum t [] (leftStart t) := by
  refine ⟨by simp [leftStart], leftStart_shape t, ?_, ?_, fun h => absurd rfl h⟩ <;>
  · intro j hj
    simp [leftStart, hj, target]

theorem foldl_sum : ∀ (labels : List (List B64)) (s L : List (List ℚ)) (tr : Tracker B64), TrkSum t L tr →
    labels.map (List.map B64.val) = lift s → Exactly t n b (s ++ L) → TrkSum t (s ++ L) (labels.foldl updLeft tr) := by
  intro labels
  induction labels with
  | nil =>
    intro s L tr h hl _
    cases s with
    | nil => exact h
    | cons v s => simp [lift] at hl
  | cons l labels ih =>
    intro s L tr h hl hE
    cases s with
    | nil => simp [lift] at hl
    | cons v s =>
      simp only [lift, List.map_cons, List.cons.injEq] at hl
      have hp : (v :: s ++ L).Perm (s ++ v :: L) := List.perm_middle.symm
      have h1 := updLeft_sum hf h (hE.sub (M := v :: L) (by simp; tauto) (by simp)) hl.1
      have := ih s (v :: L) _ h1 hl.2 (hE.perm hp)
      exact this.perm hp.symm

theorem metricsOf_sum {labels : List (List B64)} {s : List (List ℚ)} (hl : labels.map (List.map B64.val) = lift s) (hE : Exactly t n b s) :
    TrkSum t s (rightStart labels.length (metricsOf labels t)) := by
  have h := foldl_sum hf labels s [] _ leftStart_sum hl (by simpa using hE)
  rw [List.append_nil] at h
  have hs := sumVecs_foldl labels t
  have hlen : labels.length = s.length := by
    have := congrArg List.length hl
    simpa [lift] using this
  have hll : ∀ l ∈ labels, l.length = t := by
    intro l hm
    have h1 : l.map B64.val ∈ lift s := by rw [← hl]; exact List.mem_map_of_mem hm
    obtain ⟨v, hv, e⟩ := mem_lift.mp h1
    rw [valV_length e.symm, hE.width v hv]
  refine ⟨?_, (getLabelMetrics_ok hll).2, ?_, ?_, fun _ => rfl⟩
  · have := roundE_nat (n := labels.length) (by have := hE.rows; have := hf.rows; omega)
    rw [← hlen]
    simpa [rightStart] using this
  · intro j hj
    simpa [rightStart, metricsOf, hs] using h.sums j hj
  · intro j hj
    simpa [rightStart, metricsOf, hs] using h.squares j hj

end

/-! ## values only -/

theorem fsum_val {xs ys : List B64} (h : xs.map B64.val = ys.map B64.val) : (fsum xs).val = (fsum ys).val := by
  have key : ∀ (xs ys : List B64) (a a' : B64), a.val = a'.val → xs.map B64.val = ys.map B64.val →
      (xs.foldl F64.add a).val = (ys.foldl F64.add a').val := by
    intro xs
    induction xs with
    | nil =>
      intro ys a a' ha h
      cases ys with
      | nil => exact ha
      | cons y ys => simp at h
    | cons x xs ih =>
      intro ys a a' ha h
      cases ys with
      | nil => simp at h
      | cons y ys =>
        simp only [List.map_cons, List.cons.injEq] at h
        exact ih ys _ _ (by rw [add_val, add_val, ha, h.1]) h.2
  exact key xs ys _ _ rfl h

theorem TrkSum.count_ne {t : ℕ} {L : List (List ℚ)} {tr : Tracker B64} (h : TrkSum t L tr) (hne : L ≠ []) : tr.numberOfLabels.val ≠ .fin 0 := by
  rw [h.count]
  intro h0
  simp only [Ext.fin.injEq] at h0
  exact length_cast_ne hne h0

theorem varVec_sum {t : ℕ} {L : List (List ℚ)} {tr tr' : Tracker B64} (h : TrkSum t L tr) (h' : TrkSum t L tr') (hne : L ≠ []) :
    (varVec tr.metrics tr.numberOfLabels).map B64.val = (varVec tr'.metrics tr'.numberOfLabels).map B64.val := by
  have hlen : (varVec tr.metrics tr.numberOfLabels).length = t := Shape.varVec_length h.shape _
  have hlen' : (varVec tr'.metrics tr'.numberOfLabels).length = t := Shape.varVec_length h'.shape _
  have key : ∀ {tr : Tracker B64}, TrkSum t L tr → ∀ j (hj : j < t) (hj' : j < (varVec tr.metrics tr.numberOfLabels).length),
      (varVec tr.metrics tr.numberOfLabels)[j].val =
        roundE (roundE (.fin ((target L j).map (fun x => x ^ 2)).sum -. roundE (.fin (L.length : ℚ) *. roundE
          (roundE (.fin (target L j).sum /. .fin (L.length : ℚ)) *. roundE (.fin (target L j).sum /. .fin (L.length : ℚ))))) /.
            .fin (L.length : ℚ)) := by
    intro tr h j hj hj'
    have hc0 := h.count_ne hne
    have e : (varVec tr.metrics tr.numberOfLabels)[j] =
        calculateVariance ((tr.metrics.sumOfLabels.getD j F64.zero /. tr.numberOfLabels) *.
          (tr.metrics.sumOfLabels.getD j F64.zero /. tr.numberOfLabels)) (tr.metrics.sumOfSquaredLabels.getD j F64.zero) tr.numberOfLabels := by
      have : (varVec tr.metrics tr.numberOfLabels)[j] = (varVec tr.metrics tr.numberOfLabels).getD j F64.zero := by
        simp [List.getD, hj']
      rw [this, varVec, zipWith_getD_of (a := F64.zero) (b := F64.zero) (by rw [h.shape.means]; exact hj) (by rw [h.shape.squares]; exact hj),
        h.means hne]
      simp [List.getD, show j < tr.metrics.sumOfLabels.length by rw [h.shape.sums]; exact hj]
    rw [e, calculateVariance, div_val _ _ hc0, sub_val, h.squares j hj, mul_val, mul_val, div_val _ _ hc0, h.sums j hj, h.count]
  apply List.ext_getElem
  · rw [List.length_map, List.length_map, hlen, hlen']
  · intro j hj hj'
    rw [List.length_map] at hj hj'
    rw [List.getElem_map, List.getElem_map, key h j (by omega) hj, key h' j (by omega) hj']

theorem splitLoss_sum {t : ℕ} {L M : List (List ℚ)} {left right left' right' : Tracker B64} (hl : TrkSum t L left) (hr : TrkSum t M right)
    (hl' : TrkSum t L left') (hr' : TrkSum t M right') (h1 : L ≠ []) (h2 : M ≠ []) (hn : L.length + M.length ≤ 2 ^ 53) :
    (splitLoss left right).val = (splitLoss left' right').val := by
  have htot : ∀ {left right : Tracker B64}, TrkSum t L left → TrkSum t M right →
      (left.numberOfLabels +. right.numberOfLabels).val = .fin ((L.length + M.length : ℕ) : ℚ) := by
    intro left right hl hr
    rw [add_val, hl.count, hr.count, Ext.fin_add]
    have := roundE_nat hn
    push_cast at this ⊢
    exact this
  have hne : ∀ {left right : Tracker B64}, TrkSum t L left → TrkSum t M right → (left.numberOfLabels +. right.numberOfLabels).val ≠ .fin 0 := by
    intro left right hl hr h0
    rw [htot hl hr] at h0
    simp only [Ext.fin.injEq] at h0
    have := List.length_pos_of_ne_nil h1
    have : (L.length + M.length : ℕ) = 0 := by exact_mod_cast h0
    omega
  have e1 := varVec_sum hl hl' h1
  have e2 := varVec_sum hr hr' h2
  apply fsum_val
  have l1 := congrArg List.length e1
  have l2 := congrArg List.length e2
  simp only [List.length_map] at l1 l2
  apply List.ext_getElem
  · simp [l1, l2]
  · intro j hj hj'
    simp only [List.length_map, List.length_zipWith] at hj hj'
    have a1 := List.getElem_of_eq e1 (i := j) (by rw [List.length_map]; omega)
    have a2 := List.getElem_of_eq e2 (i := j) (by rw [List.length_map]; omega)
    simp only [List.getElem_map] at a1 a2
    simp only [List.getElem_map, List.getElem_zipWith, add_val, mul_val]
    rw [div_val _ _ (hne hl hr), div_val _ _ (hne hl hr), div_val _ _ (hne hl' hr'), div_val _ _ (hne hl' hr'), htot hl hr, htot hl' hr', hl.count,
      hl'.count, hr.count, hr'.count, a1, a2]

/-! ## the scan -/

/-- the same loss and threshold by value -/
def SameRes (r r' : BestThresholdResult B64) : Prop := r.loss.val = r'.loss.val ∧ r.thresholdValue.val = r'.thresholdValue.val

theorem pickBest_same {a a' c c' : BestThresholdResult B64} (h : SameRes a a') (h2 : SameRes c c') : SameRes (pickBest a c) (pickBest a' c') := by
  unfold pickBest
  rw [lt_val, lt_val, h2.1, h.1]
  split
  · exact h2
  · exact h

theorem foldl_pickBest_same {cs cs' : List (BestThresholdResult B64)} (h : List.Forall₂ SameRes cs cs') :
    ∀ {a a' : BestThresholdResult B64}, SameRes a a' → SameRes (cs.foldl pickBest a) (cs'.foldl pickBest a') := by
  induction h with
  | nil => intro a a' h; exact h
  | cons h1 _ ih => intro a a' h; exact ih (pickBest_same h h1)

section
variable {t n b : ℕ} (hf : ExactSums n b)
include hf

theorem cands_perm {prev prev' : B64} (hprev : prev.val = prev'.val) : ∀ (seq seq' : List (B64 × List B64)) (s s' L L' : List (List ℚ))
    (left right left' right' : Tracker B64), (seq.map Prod.snd).map (List.map B64.val) = lift s →
    (seq'.map Prod.snd).map (List.map B64.val) = lift s' → Exactly t n b (s ++ L) → Exactly t n b (s' ++ L') →
    TrkSum t L left → TrkSum t s right → TrkSum t L' left' → TrkSum t s' right' →
    (seq.map Prod.fst).map B64.val = (seq'.map Prod.fst).map B64.val →
    (∀ (i : ℕ) (v : B64), (seq.map Prod.fst)[i]? = some v → (v ==. prev) = false →
      s.take i ++ L ≠ [] ∧ (s.take i ++ L).Perm (s'.take i ++ L') ∧ (s.drop i).Perm (s'.drop i)) →
    List.Forall₂ SameRes (cands prev left right seq) (cands prev' left' right' seq') := by
  intro seq
  induction seq with
  | nil =>
    intro seq' s s' L L' left right left' right' _ _ _ _ _ _ _ _ hv _
    cases seq' with
    | nil => exact .nil
    | cons p seq' => simp at hv
  | cons p seq ih =>
    intro seq' s s' L L' left right left' right' hs hs' hE hE' hl hr hl' hr' hv hc
    cases seq' with
    | nil => simp at hv
    | cons p' seq' =>
      obtain ⟨x, l⟩ := p
      obtain ⟨x', l'⟩ := p'
      cases s with
      | nil => simp [lift] at hs
      | cons v s =>
        cases s' with
        | nil => simp [lift] at hs'
        | cons v' s' =>
          simp only [lift, List.map_cons, List.cons.injEq] at hs hs' hv
          have hp : (v :: s ++ L).Perm (s ++ v :: L) := List.perm_middle.symm
          have hp' : (v' :: s' ++ L').Perm (s' ++ v' :: L') := List.perm_middle.symm
          rw [cands, cands]
          refine List.rel_append ?_ ?_
          · have he : (x ==. prev) = (x' ==. prev') := by rw [eq_val, eq_val, hv.1, hprev]
            rw [he]
            cases hx : (x' ==. prev') with
            | true => exact .nil
            | false =>
              obtain ⟨h1, h2, h3⟩ := hc 0 x rfl (by rw [he, hx])
              simp only [List.take_zero, List.nil_append, List.drop_zero] at h1 h2 h3
              refine .cons ⟨?_, hv.1⟩ .nil
              refine splitLoss_sum hl hr (hl'.perm h2.symm) (hr'.perm h3.symm) h1 (by simp) ?_
              have := hE.rows
              have := hf.rows
              simp only [List.length_append, List.length_cons] at *
              omega
          · refine ih seq' s s' (v :: L) (v' :: L') _ _ _ _ hs.2 hs'.2 (hE.perm hp) (hE'.perm hp')
              (updLeft_sum hf hl (hE.sub (by simp; tauto) (by simp)) hs.1) (updRight_sum hf hr (hE.sub (by simp; tauto) (by simp)) hs.1)
              (updLeft_sum hf hl' (hE'.sub (by simp; tauto) (by simp)) hs'.1) (updRight_sum hf hr' (hE'.sub (by simp; tauto) (by simp)) hs'.1)
              hv.2 ?_
            intro i w hi hw
            obtain ⟨h1, h2, h3⟩ := hc (i + 1) w (by simpa using hi) hw
            simp only [List.take_succ_cons, List.drop_succ_cons] at h1 h2 h3
            refine ⟨by simp, ?_, h3⟩
            exact (List.perm_middle.trans h2).trans List.perm_middle.symm

theorem colResult_perm64 {labels labels' : List (List B64)} {ls ls' : List (List ℚ)} {col col' : List B64}
    (hl : labels.map (List.map B64.val) = lift ls) (hl' : labels'.map (List.map B64.val) = lift ls') (h : ls.length = col.length)
    (h' : ls'.length = col'.length) (hE : Exactly t n b ls) (hne : ls ≠ []) (hn : ∀ x ∈ col, isNaN x = false)
    (hp : ((col.map B64.val).zip ls).Perm ((col'.map B64.val).zip ls')) (ha : ColAgree (col.map B64.val) ls) :
    SameRes (colResult labels t col) (colResult labels' t col') := by
  have h2 : ls.length = (col.map B64.val).length := by simpa using h
  have h2' : ls'.length = (col'.map B64.val).length := by simpa using h'
  have hpl : ls.Perm ls' := by
    have := hp.map Prod.snd
    rwa [List.map_snd_zip (by omega), List.map_snd_zip (by omega)] at this
  have hE' := hE.perm hpl
  obtain ⟨hv1, hv2⟩ := seqOf_val hl col
  obtain ⟨hv1', hv2'⟩ := seqOf_val hl' col'
  have hn' := isNaN_map hn
  have hvals := eseq_values h2 h2' hn' hp
  have hps : (eseq ls (col.map B64.val)).Perm (eseq ls' (col'.map B64.val)) := (eseq_perm h2).trans (hp.trans (eseq_perm h2').symm)
  set s := eseq ls (col.map B64.val) with hs
  set s' := eseq ls' (col'.map B64.val) with hs'
  have hsl : (labs s).length = ls.length := (labs_perm h2).length_eq
  have hslen : s.length = ls.length := by simpa [labs] using hsl
  have hlen0 : ((seqOf labels col).map Prod.fst).length = ls.length := by
    have := congrArg List.length hv1
    simpa [hslen] using this
  have hpos := List.length_pos_of_ne_nil hne
  obtain ⟨x0, hx0⟩ : ∃ x0, ((seqOf labels col).map Prod.fst)[0]? = some x0 :=
    ⟨((seqOf labels col).map Prod.fst)[0]'(by omega), by rw [List.getElem?_eq_getElem]⟩
  have hget : ∀ i : ℕ, (s.map Prod.fst)[i]? = (((seqOf labels col).map Prod.fst)[i]?).map B64.val := by
    intro i
    rw [← hv1, List.getElem?_map]
  have hget' : ∀ i : ℕ, (s.map Prod.fst)[i]? = (((seqOf labels' col').map Prod.fst)[i]?).map B64.val := by
    intro i
    rw [hvals, ← hv1', List.getElem?_map]
  have hm : (s.map Prod.fst)[0]? = some x0.val := by rw [hget, hx0]; rfl
  obtain ⟨x0', hx0', hxv⟩ : ∃ x0', ((seqOf labels' col').map Prod.fst)[0]? = some x0' ∧ x0'.val = x0.val := by
    have := hget' 0
    rw [hm] at this
    exact Option.map_eq_some_iff.mp this.symm
  have hhead : ∀ {y : List B64} {x : B64}, y[0]? = some x → y.headD F64.zero = x := by
    intro y x hy
    rw [List.headD_eq_head?_getD, List.head?_eq_getElem?, hy]; rfl
  have hx0n : NN x0.val := by
    obtain ⟨p, hp, he⟩ := List.mem_map.mp (List.mem_of_getElem? hm)
    rw [← he]; exact eseq_mem_nan h2 hn' p hp
  rw [colResult, colResult, scanResult, scanResult, hhead hx0, hhead hx0']
  refine foldl_pickBest_same (cands_perm hf hxv.symm (seqOf labels col) (seqOf labels' col') (labs s) (labs s') [] [] _ _ _ _ hv2 hv2'
    (by simpa using hE.perm (labs_perm h2).symm) (by simpa using hE'.perm (labs_perm h2').symm)
    leftStart_sum ((metricsOf_sum hf hl hE).perm (labs_perm h2).symm) leftStart_sum ((metricsOf_sum hf hl' hE').perm (labs_perm h2').symm)
    (by rw [hv1, hv1', hvals]) ?_) ⟨rfl, rfl⟩
  intro i v hi hv
  have hi' : (s.map Prod.fst)[i]? = some v.val := by rw [hget, hi]; rfl
  have hd := eseq_drop h2 h2' hn' hp ha hm hi' (by rw [← eq_val]; exact hv)
  rw [← hs, ← hs'] at hd
  have htk : (s.take i).Perm (s'.take i) := by
    have h2 := hps
    rw [← List.take_append_drop i s, ← List.take_append_drop i s', hd] at h2
    exact (List.perm_append_right_iff _).mp h2
  simp only [List.append_nil, labs, ← List.map_take, ← List.map_drop]
  refine ⟨?_, htk.map _, by rw [hd]⟩
  have hi0 : i ≠ 0 := by
    rintro rfl
    rw [hx0] at hi
    cases hi
    rw [eq_val, hx0n] at hv
    cases hv
  intro h0
  have := congrArg List.length h0
  simp only [List.length_map, List.length_take, List.length_nil] at this
  omega

/-! ## the choice among the columns -/

/-- the same gain and question by value -/
def SameSplit (r r' : BestSplitResult B64) : Prop := r.gain.val = r'.gain.val ∧ r.question.exact = r'.question.exact

omit hf in
theorem bestColumn_same {total total' : B64} (ht : total.val = total'.val) {rs rs' : List (BestThresholdResult B64)} (h : List.Forall₂ SameRes rs rs') :
    SameSplit (bestColumn total rs) (bestColumn total' rs') := by
  have key : ∀ {rs rs' : List (BestThresholdResult B64)}, List.Forall₂ SameRes rs rs' → ∀ (k : ℕ) (a a' : BestSplitResult B64), SameSplit a a' →
      SameSplit ((rs.zipIdx k).foldl (pickColumn total) a) ((rs'.zipIdx k).foldl (pickColumn total') a') := by
    intro rs rs' h
    induction h with
    | nil => intro k a a' h; exact h
    | @cons r r' rs rs' h1 _ ih =>
      intro k a a' ha
      rw [List.zipIdx_cons, List.zipIdx_cons, List.foldl_cons, List.foldl_cons]
      refine ih _ _ _ ?_
      have hg : (total -. r.loss).val = (total' -. r'.loss).val := by rw [sub_val, sub_val, ht, h1.1]
      unfold pickColumn
      simp only []
      rw [lt_val, lt_val, ha.1, hg]
      split
      · refine ⟨hg, ?_⟩
        simp only [Question.exact, h1.2]
      · exact ha
  exact key h 0 _ _ ⟨rfl, rfl⟩

end

theorem totalVariance_perm64 {labels labels' : List (List B64)} {ls ls' : List (List ℚ)} {t n b : ℕ} (hf : ExactSums n b)
    (hl : labels.map (List.map B64.val) = lift ls) (hl' : labels'.map (List.map B64.val) = lift ls') (hE : Exactly t n b ls) (hne : ls ≠ [])
    (hpl : ls.Perm ls') : (totalVariance labels t).val = (totalVariance labels' t).val := by
  have h := fsum_val (varVec_sum (metricsOf_sum hf hl hE) ((metricsOf_sum hf hl' (hE.perm hpl)).perm hpl.symm) hne)
  simp only [rightStart] at h
  rw [totalVariance, totalVariance]
  exact h

/-- permuted examples with integer labels -/
theorem splitOf_perm64 {d d' : DataSet B64} {c t b : ℕ} (h : d.WF c t) (h' : d'.WF c t) (hI : IntLabels b d.labels)
    (hf : ExactSums d.labels.length b) (ha : d.exact.TiesAgree c) (hp : d.examples.Perm d'.examples) :
    SameSplit (splitOf d t) (splitOf d' t) := by
  obtain ⟨ls, hls, hB, hw⟩ := hI.exact
  have hE := h.exact
  have hE' := h'.exact
  have hlx : d.exact.labels = lift ls := hls
  have hpe : d.exact.examples.Perm d'.exact.examples := by
    rw [exact_examples, exact_examples]; exact hp.map _
  obtain ⟨ls', hlx', hpl, hpz⟩ := perm_lift hE hE' hlx hpe
  have hls' : d'.labels.map (List.map B64.val) = lift ls' := hlx'
  have hlen : ls.length = d.labels.length := by
    have := congrArg List.length hls
    rw [List.length_map, lift_length] at this
    exact this.symm
  have hlen' : ls'.length = d'.labels.length := by
    have := congrArg List.length hls'
    rw [List.length_map, lift_length] at this
    exact this.symm
  have hne : ls ≠ [] := by
    rintro rfl
    exact h.labels_ne (List.eq_nil_of_length_eq_zero hlen.symm)
  have hX : Exactly t d.labels.length b ls := ⟨lift_width hlx hE.label_len, hw, hB, hlen.le⟩
  have htv := totalVariance_perm64 hf hls hls' hX hne hpl
  have hcols : ∀ j < c, SameRes (colResult d.labels t (column d.featureRows j)) (colResult d'.labels t (column d'.featureRows j)) := by
    intro j hj
    refine colResult_perm64 hf hls hls' (by rw [column_length, hlen, h.label_count]) (by rw [column_length, hlen', h'.label_count]) hX hne
      (h.col_nan hj) ?_ ?_
    · rw [column_val, column_val, column_zip, column_zip]
      exact hpz.map _
    · rw [column_val]
      exact colAgree_column hE hlx ha hj
  rw [splitOf, splitOf, h.cols, h'.cols, columnsOf, columnsOf, List.map_map, List.map_map]
  refine bestColumn_same htv ?_
  rw [List.forall₂_map_left_iff, List.forall₂_map_right_iff, List.forall₂_same]
  intro j hj
  exact hcols j (List.mem_range.mp hj)

/-! ## trees -/

theorem satisfies_same64 {q q' : Question B64} (h : q.exact = q'.exact) : satisfies q = satisfies q' := by
  funext row
  rw [← satisfies_val, ← satisfies_val, h]

theorem IntLabels.restrict {b c : ℕ} {d : DataSet B64} (h : IntLabels b d.labels) (p : List B64 → Bool) : IntLabels b (d.restrict c p).labels := by
  intro l hl
  simp only [DataSet.restrict, List.mem_map, List.mem_filter] at hl
  obtain ⟨e, ⟨he, _⟩, rfl⟩ := hl
  exact h _ (List.of_mem_zip he).2

theorem restrict_labels_le {c : ℕ} {d : DataSet B64} (p : List B64 → Bool) : (d.restrict c p).labels.length ≤ d.labels.length := by
  simp only [DataSet.restrict, List.length_map]
  refine (List.length_filter_le _ _).trans ?_
  simp [DataSet.examples]

theorem treeOf_perm64 {L : Type} {leafOf : DataSet B64 → L} {P : L → L → Prop} {c t b : ℕ}
    (hleaf : ∀ d d' : DataSet B64, d.WF c t → d'.WF c t → IntLabels b d.labels → ExactSums d.labels.length b → d.examples.Perm d'.examples →
      P (leafOf d) (leafOf d'))
    (m : ℕ) (d : DataSet B64) (hw : d.WF c t) (hI : IntLabels b d.labels) (hf : ExactSums d.labels.length b) (ha : d.exact.TiesAgree c)
    (d' : DataSet B64) (hw' : d'.WF c t) (hp : d.examples.Perm d'.examples) :
    SameTree P (treeOf leafOf c t m d) (treeOf leafOf c t m d') := by
  have hl : ∀ (q q' : Question B64) (l l' : L), P l l' → SameTree P (TreeNode.leafNode q l) (TreeNode.leafNode q' l') := by
    intro q q' l l' hpl
    refine ⟨fun p => by cases p <;> rfl, fun _ => rfl, fun p => ?_⟩
    cases p with
    | nil => exact .some hpl
    | cons a p => cases a <;> exact .none
  refine treeOf_induct (motive := fun m d => ∀ d' : DataSet B64, IntLabels b d.labels → ExactSums d.labels.length b → d.exact.TiesAgree c →
    d'.WF c t → d.examples.Perm d'.examples → SameTree P (treeOf leafOf c t m d) (treeOf leafOf c t m d')) ?_ ?_ ?_ m d hw d' hI hf ha hw' hp
  · intro d hw d' hI hf _ hw' hp
    exact hl _ _ _ _ (hleaf d d' hw hw' hI hf hp)
  · intro m d hw hg d' hI hf ha hw' hp
    have hs := splitOf_perm64 hw hw' hI hf ha hp
    have hg' : ((splitOf d' t).gain ==. F64.zero) = true := by rw [eq_val, ← hs.1, ← eq_val]; exact hg
    rw [treeOf_leaf hg, treeOf_leaf hg']
    exact hl _ _ _ _ (hleaf d d' hw hw' hI hf hp)
  · intro m d hw hg h1 h2 d' hI hf ha hw' hp
    have hs := splitOf_perm64 hw hw' hI hf ha hp
    have hg' : ((splitOf d' t).gain ==. F64.zero) = false := by rw [eq_val, ← hs.1, ← eq_val]; exact hg
    have hq := satisfies_same64 hs.2
    have w1 := split_true_wf hw' hg'
    have w2 := split_false_wf hw' hg'
    rw [← hq] at w1 w2
    have hx := exact_restrict d c (splitOf d t).question
    have k1 := h1 _ (hI.restrict _) (hf.fewer (restrict_labels_le _)) (by rw [hx.1]; exact restrict_agree ha _) w1
      (by rw [restrict_examples, restrict_examples]; exact hp.filter _)
    have k2 := h2 _ (hI.restrict _) (hf.fewer (restrict_labels_le _)) (by rw [hx.2]; exact restrict_agree ha _) w2
      (by rw [restrict_examples, restrict_examples]; exact hp.filter _)
    rw [treeOf_node hg, treeOf_node hg', ← hq]
    refine ⟨fun p => ?_, fun row => ?_, fun p => ?_⟩
    · match p with
      | [] => exact congrArg some hs.2.symm
      | true :: p => exact k1.1 p
      | false :: p => exact k2.1 p
    · rw [TreeNode.route_new, TreeNode.route_new, k1.2 row, k2.2 row, hq]
    · match p with
      | [] => exact .none
      | true :: p => exact k1.3 p
      | false :: p => exact k2.3 p

/-- averages of permuted integer labels -/
theorem avgVec_perm64 {t b : ℕ} {labels labels' : List (List B64)} (hI : IntLabels b labels) (hf : ExactSums labels.length b)
    (hw : ∀ l ∈ labels, l.length = t) (hne : labels ≠ []) (hp : labels.Perm labels') :
    (avgVec t labels).map B64.val = (avgVec t labels').map B64.val := by
  obtain ⟨ls, hls, hB, hz⟩ := hI.exact
  have hI' : IntLabels b labels' := fun l hl => hI l (hp.mem_iff.mpr hl)
  obtain ⟨ls', hls', _, _⟩ := hI'.exact
  have hpl : ls.Perm ls' := by
    have h1 := hp.map (List.map B64.val)
    rw [hls, hls'] at h1
    have := h1.map (fun v => v.map val)
    change (vals (lift ls)).Perm (vals (lift ls')) at this
    rwa [vals_lift, vals_lift] at this
  have hlen : ls.length = labels.length := by
    have := congrArg List.length hls
    simpa [lift] using this.symm
  have hne' : ls ≠ [] := by
    rintro rfl
    exact hne (List.eq_nil_of_length_eq_zero hlen.symm)
  have hX : Exactly t labels.length b ls := by
    refine ⟨?_, hz, hB, hlen.le⟩
    intro v hv
    have : liftV v ∈ labels.map (List.map B64.val) := by rw [hls]; exact mem_lift.mpr ⟨v, hv, rfl⟩
    obtain ⟨l, hl, e⟩ := List.mem_map.mp this
    rw [← valV_length e, hw l hl]
  have f1 := foldl_sum hf labels ls [] _ leftStart_sum hls (by simpa using hX)
  have f2 := foldl_sum hf labels' ls' [] _ leftStart_sum hls' (by simpa using hX.perm hpl)
  rw [List.append_nil] at f1 f2
  have f2 := f2.perm hpl.symm
  have hc0 : (F64.ofNat labels.length : B64).val ≠ .fin 0 := by
    rw [ofNat_val, roundE_nat hf.rows]
    intro h0
    simp only [Ext.fin.injEq] at h0
    rw [← hlen] at h0
    exact length_cast_ne hne' h0
  have hvl : (vecSum t labels).length = t := by rw [vecSum_foldl]; exact f1.shape.sums
  have hvl' : (vecSum t labels').length = t := by rw [vecSum_foldl]; exact f2.shape.sums
  rw [avgVec, avgVec, ← hp.length_eq]
  apply List.ext_getElem
  · simp [hvl, hvl']
  · intro j hj hj'
    simp only [List.length_map] at hj hj'
    simp only [List.getElem_map]
    have e1 := f1.sums j (by omega)
    have e2 := f2.sums j (by omega)
    rw [← vecSum_foldl] at e1 e2
    simp only [List.getD, List.getElem?_eq_getElem hj, List.getElem?_eq_getElem hj', Option.getD_some] at e1 e2
    rw [div_val _ _ hc0, div_val _ _ hc0, e1, e2]

end

end Verif
