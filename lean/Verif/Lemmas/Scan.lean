import Verif.Lemmas.Basic
import Verif.Model.Tree
import Verif.Spec.Data
/-!
# The split search without panics

On well-formed data the monadic functions of the model never panic; here they are shown equal to pure functions.
-/

namespace Verif

variable {F : Type} [F64 F]

/-! ## Label metrics -/

theorem set_take_drop {α : Type} {A B : List α} {k : Nat} (hl : A.length = B.length) (hk : k < A.length) :
    (A.take k ++ B.drop k).set k A[k] = A.take (k + 1) ++ B.drop (k + 1) := by
  apply List.ext_getElem?
  intro i
  rw [List.getElem?_set]
  have h1 : (List.take k A).length = k := by simp; omega
  have h2 : (List.take (k + 1) A).length = k + 1 := by simp; omega
  by_cases hik : k = i
  · subst hik
    simp only [if_true, List.length_append, List.length_take, List.length_drop]
    rw [if_pos (by omega), List.getElem?_append_left (by omega), List.getElem?_take, if_pos (by omega)]
    simp
  · rw [if_neg hik]
    by_cases hlt : i < k
    · rw [List.getElem?_append_left (by omega), List.getElem?_append_left (by omega), List.getElem?_take,
        List.getElem?_take, if_pos hlt, if_pos (by omega)]
    · rw [List.getElem?_append_right (by omega), List.getElem?_append_right (by omega), List.getElem?_drop,
        List.getElem?_drop, h1, h2]
      congr 1; omega

/-- All three vectors have `t` entries. -/
structure LabelMetrics.Shape (m : LabelMetrics F) (t : Nat) : Prop where
  sums : m.sumOfLabels.length = t
  squares : m.sumOfSquaredLabels.length = t
  means : m.meanOfLabels.length = t

/-- The variance vector of metrics, without panics. -/
def varVec (m : LabelMetrics F) (n : F) : List F :=
  List.zipWith (fun mean sq => calculateVariance (mean *. mean) sq n) m.meanOfLabels m.sumOfSquaredLabels

theorem calculateVarianceVector_ok {m : LabelMetrics F} {t : Nat} (h : m.Shape t) (n : F) :
    calculateVarianceVector m n t = .ok (varVec m n) := by
  have hlen : (varVec m n).length = t := by simp [varVec, h.squares, h.means]
  obtain ⟨s', h1, h2⟩ := forRange_ok (n := t) (s := List.replicate t (F64.zero : F))
    (body := fun i result => do
      let mean ← idx m.meanOfLabels i
      let squareSum ← idx m.sumOfSquaredLabels i
      let meanSquared := mean *. mean
      let variance := calculateVariance meanSquared squareSum n
      setIdx result i variance)
    (P := fun k w => w = (varVec m n).take k ++ (List.replicate t (F64.zero : F)).drop k)
    (by simp)
    (by
      intro i s hi hs
      subst hs
      rw [idx_lt (by rw [h.means]; exact hi), idx_lt (by rw [h.squares]; exact hi)]
      simp only [R.ok_bind]
      rw [setIdx_lt (by simp; omega)]
      refine ⟨_, rfl, ?_⟩
      rw [← set_take_drop (by simp [hlen]) (by omega)]
      congr 1
      simp [varVec])
  unfold calculateVarianceVector
  rw [h1, h2]
  congr 1
  rw [List.take_of_length_le (by omega)]
  simp

/-- Add (or subtract) one label to the metrics; `n` is the new number of labels. -/
def updMetrics (op : F → F → F) (n : F) (m : LabelMetrics F) (l : List F) : LabelMetrics F :=
  { sumOfLabels := List.zipWith op m.sumOfLabels l
    sumOfSquaredLabels := List.zipWith (fun q x => op q (x *. x)) m.sumOfSquaredLabels l
    meanOfLabels := (List.zipWith op m.sumOfLabels l).map (fun s => s /. n) }

theorem updMetrics_shape {op : F → F → F} {n : F} {m : LabelMetrics F} {l : List F} {t : Nat} (h : m.Shape t)
    (hl : l.length = t) : (updMetrics op n m l).Shape t :=
  ⟨by simp [updMetrics, h.sums, hl], by simp [updMetrics, h.squares, hl], by simp [updMetrics, h.sums, hl]⟩

theorem updLoop_ok {op : F → F → F} {n : F} {m : LabelMetrics F} {l : List F} {t : Nat} (h : m.Shape t)
    (hl : l.length = t) :
    forRange t (fun i (m : LabelMetrics F) => do
      let labelValue ← idx l i
      let q ← idx m.sumOfSquaredLabels i
      let squares ← setIdx m.sumOfSquaredLabels i (op q (labelValue *. labelValue))
      let s ← idx m.sumOfLabels i
      let sums ← setIdx m.sumOfLabels i (op s labelValue)
      let s' ← idx sums i
      let means ← setIdx m.meanOfLabels i (s' /. n)
      pure { sumOfLabels := sums, sumOfSquaredLabels := squares, meanOfLabels := means }) m
    = .ok (updMetrics op n m l) := by
  have hA := updMetrics_shape (op := op) (n := n) h hl
  obtain ⟨s', h1, h2, h3, h4⟩ := forRange_ok (n := t) (s := m)
    (body := fun i (m : LabelMetrics F) => do
      let labelValue ← idx l i
      let q ← idx m.sumOfSquaredLabels i
      let squares ← setIdx m.sumOfSquaredLabels i (op q (labelValue *. labelValue))
      let s ← idx m.sumOfLabels i
      let sums ← setIdx m.sumOfLabels i (op s labelValue)
      let s' ← idx sums i
      let means ← setIdx m.meanOfLabels i (s' /. n)
      pure { sumOfLabels := sums, sumOfSquaredLabels := squares, meanOfLabels := means })
    (P := fun k w =>
      w.sumOfLabels = (updMetrics op n m l).sumOfLabels.take k ++ m.sumOfLabels.drop k ∧
      w.sumOfSquaredLabels = (updMetrics op n m l).sumOfSquaredLabels.take k ++ m.sumOfSquaredLabels.drop k ∧
      w.meanOfLabels = (updMetrics op n m l).meanOfLabels.take k ++ m.meanOfLabels.drop k)
    (by simp)
    (by
      rintro i ⟨ws, wq, wm⟩ hi ⟨h1, h2, h3⟩
      simp only at h1 h2 h3
      have es : ws[i]? = some (m.sumOfLabels[i]'(by rw [h.sums]; exact hi)) := by
        rw [h1, List.getElem?_append_right (by simp; try omega), List.length_take, hA.sums,
          Nat.min_eq_left (by omega)]
        simp
      have eq : wq[i]? = some (m.sumOfSquaredLabels[i]'(by rw [h.squares]; exact hi)) := by
        rw [h2, List.getElem?_append_right (by simp; try omega), List.length_take, hA.squares,
          Nat.min_eq_left (by omega)]
        simp
      have ls : ws.length = t := by rw [h1]; simp [hA.sums, h.sums]; omega
      have lq : wq.length = t := by rw [h2]; simp [hA.squares, h.squares]; omega
      have lm : wm.length = t := by rw [h3]; simp [hA.means, h.means]; omega
      have el : l[i]? = some (l[i]'(by rw [hl]; exact hi)) := by simp
      refine ⟨_, (by
        simp only [idx_some el, idx_some eq, idx_some es, R.ok_bind, setIdx_lt (show i < wq.length by omega),
          setIdx_lt (show i < ws.length by omega),
          idx_lt (show i < (ws.set i (op (m.sumOfLabels[i]'(by rw [h.sums]; exact hi)) (l[i]'(by omega)))).length by
            simp; omega),
          setIdx_lt (show i < wm.length by omega)]; rfl), ?_, ?_, ?_⟩ <;> dsimp only
      · rw [h1, ← set_take_drop (by simp [h.sums, hA.sums]) (by rw [hA.sums]; omega)]
        simp [updMetrics]
      · rw [h2, ← set_take_drop (by simp [h.squares, hA.squares]) (by rw [hA.squares]; omega)]
        simp [updMetrics]
      · rw [List.getElem_set_self]
        refine Eq.trans ?_ (set_take_drop (A := (updMetrics op n m l).meanOfLabels) (B := m.meanOfLabels)
          (by simp [h.means, hA.means]) (by rw [hA.means]; omega))
        simp [updMetrics, h3])
  refine h1.trans ?_
  congr 1
  rw [List.take_of_length_le (by rw [hA.sums]), List.drop_of_length_le (by rw [h.sums]), List.append_nil] at h2
  rw [List.take_of_length_le (by rw [hA.squares]), List.drop_of_length_le (by rw [h.squares]), List.append_nil] at h3
  rw [List.take_of_length_le (by rw [hA.means]), List.drop_of_length_le (by rw [h.means]), List.append_nil] at h4
  cases s'
  simp_all

/-- `update_left_value_tracker` without panics. -/
def updLeft (t : Tracker F) (l : List F) : Tracker F :=
  { numberOfLabels := t.numberOfLabels +. F64.one
    metrics := updMetrics F64.add (t.numberOfLabels +. F64.one) t.metrics l }

/-- `update_right_value_tracker` without panics. -/
def updRight (t : Tracker F) (l : List F) : Tracker F :=
  { numberOfLabels := t.numberOfLabels -. F64.one
    metrics := updMetrics F64.sub (t.numberOfLabels -. F64.one) t.metrics l }

theorem updateLeftTracker_ok {tr : Tracker F} {l : List F} {t : Nat} (h : tr.metrics.Shape t) (hl : l.length = t) :
    updateLeftTracker tr l t = .ok (updLeft tr l) := by
  unfold updateLeftTracker
  simp only []
  rw [updLoop_ok (op := F64.add) h hl]
  rfl

theorem updateRightTracker_ok {tr : Tracker F} {l : List F} {t : Nat} (h : tr.metrics.Shape t) (hl : l.length = t) :
    updateRightTracker tr l t = .ok (updRight tr l) := by
  unfold updateRightTracker
  simp only []
  rw [updLoop_ok (op := F64.sub) h hl]
  rfl

/-! ## The scan over the sorted values -/

/-- The loss of splitting into the labels of two trackers. -/
def splitLoss (left right : Tracker F) : F :=
  let total := left.numberOfLabels +. right.numberOfLabels
  let lw := left.numberOfLabels /. total
  let rw := right.numberOfLabels /. total
  fsum (List.zipWith (fun l r => (lw *. l) +. (rw *. r))
    (varVec left.metrics left.numberOfLabels) (varVec right.metrics right.numberOfLabels))

/-- Keep the strictly smaller loss. -/
def pickBest (b c : BestThresholdResult F) : BestThresholdResult F := if c.loss <. b.loss then c else b

/-- The candidates the scan evaluates, in order. -/
def cands (prev : F) : Tracker F → Tracker F → List (F × List F) → List (BestThresholdResult F)
  | _, _, [] => []
  | left, right, (v, l) :: rest =>
    (if !(v ==. prev) then [{ loss := splitLoss left right, thresholdValue := v }] else []) ++
      cands prev (updLeft left l) (updRight right l) rest

theorem considerThreshold_ok {s : ScanState F} {v : F} {t : Nat} (hl : s.left.metrics.Shape t)
    (hr : s.right.metrics.Shape t) :
    considerThreshold s v t =
      .ok { s with best := pickBest s.best { loss := splitLoss s.left s.right, thresholdValue := v } } := by
  unfold considerThreshold
  rw [calculateVarianceVector_ok hl, calculateVarianceVector_ok hr]
  simp only [R.ok_bind, calculateLossVector]
  rw [assertEq_of_eq (by simp [varVec, hl.means, hl.squares, hr.means, hr.squares])]
  simp only [R.ok_bind, R.pure_eq, pickBest, splitLoss]
  split
  · next h => simp only [h, if_true]
  · next h => simp [h]

theorem scan_ok {labels : List (List F)} {prev : F} {t : Nat} (hlab : ∀ l ∈ labels, l.length = t)
    (sorted : List (F × Nat)) (hidx : ∀ p ∈ sorted, p.2 < labels.length) (s : ScanState F)
    (hl : s.left.metrics.Shape t) (hr : s.right.metrics.Shape t) :
    ∃ s', sorted.foldlM (scanStep labels prev t) s = .ok s' ∧
      s'.best = (cands prev s.left s.right (sorted.map (fun p => (p.1, labels.getD p.2 [])))).foldl pickBest s.best := by
  induction sorted generalizing s with
  | nil => exact ⟨s, rfl, rfl⟩
  | cons p rest ih =>
    obtain ⟨v, i⟩ := p
    have hi : i < labels.length := hidx (v, i) (by simp)
    have hll : labels[i].length = t := hlab _ (List.getElem_mem hi)
    have hgetD : labels.getD i [] = labels[i] := by simp [List.getD, hi]
    have hstep : scanStep labels prev t s (v, i) = .ok
        { best := if !(v ==. prev) then pickBest s.best { loss := splitLoss s.left s.right, thresholdValue := v }
            else s.best
          left := updLeft s.left labels[i]
          right := updRight s.right labels[i] } := by
      unfold scanStep
      by_cases hv : (v ==. prev) = true
      · simp only [hv, Bool.not_true, Bool.false_eq_true, if_false, R.pure_eq, R.ok_bind, idx_lt hi,
          updateLeftTracker_ok hl hll, updateRightTracker_ok hr hll]
      · simp only [Bool.not_eq_true] at hv
        simp only [hv, Bool.not_false, if_true, considerThreshold_ok hl hr, R.pure_eq, R.ok_bind, idx_lt hi,
          updateLeftTracker_ok hl hll, updateRightTracker_ok hr hll]
    rw [foldlM_cons_R, hstep]
    simp only [R.ok_bind]
    obtain ⟨s', h1, h2⟩ := ih (fun p hp => hidx p (by simp [hp]))
        { best := if !(v ==. prev) then pickBest s.best { loss := splitLoss s.left s.right, thresholdValue := v }
            else s.best
          left := updLeft s.left labels[i]
          right := updRight s.right labels[i] }
      (updMetrics_shape hl hll) (updMetrics_shape hr hll)
    refine ⟨s', h1, ?_⟩
    rw [h2]
    simp only [List.map_cons, cands, hgetD, List.foldl_append]
    congr 1
    split <;> rfl

/-- The trackers at the start of a scan. -/
def leftStart (t : Nat) : Tracker F :=
  { numberOfLabels := F64.zero
    metrics := { sumOfSquaredLabels := List.replicate t F64.zero, sumOfLabels := List.replicate t F64.zero,
                 meanOfLabels := List.replicate t F64.zero } }

def rightStart (n : Nat) (total : LabelMetrics F) : Tracker F :=
  { numberOfLabels := F64.ofNat n, metrics := total }

/-- The result of a scan, as a function of the sequence of values with their labels only. -/
def scanResult (n t : Nat) (total : LabelMetrics F) (seq : List (F × List F)) : BestThresholdResult F :=
  (cands ((seq.map Prod.fst).headD F64.zero) (leftStart t) (rightStart n total) seq).foldl pickBest
    { loss := F64.infinity, thresholdValue := F64.zero }

theorem leftStart_shape (t : Nat) : (leftStart t : Tracker F).metrics.Shape t :=
  ⟨by simp [leftStart], by simp [leftStart], by simp [leftStart]⟩

theorem determineBestThresholdNew_ok {n : Nat} {labels : List (List F)} {t : Nat} {total : LabelMetrics F}
    (hlab : ∀ l ∈ labels, l.length = t) (htot : total.Shape t)
    {sorted : List (F × Nat)} (hne : sorted ≠ []) (hidx : ∀ p ∈ sorted, p.2 < labels.length) :
    determineBestThresholdNew n labels sorted total t =
      .ok (scanResult n t total (sorted.map (fun p => (p.1, labels.getD p.2 [])))) := by
  cases sorted with
  | nil => exact absurd rfl hne
  | cons p rest =>
    unfold determineBestThresholdNew
    obtain ⟨s', h1, h2⟩ := scan_ok (prev := p.1) hlab (p :: rest) hidx (initialScanState n total t)
      (by exact leftStart_shape t) (by exact htot)
    simp only [idx_cons_zero, R.ok_bind]
    rw [h1]
    simp only [R.ok_bind, R.pure_eq, h2]
    rfl

/-! ## Label metrics of a data set -/

/-- Sums and sums of squares, without panics. -/
def sumVecs (labels : List (List F)) (t : Nat) : List F × List F :=
  labels.foldl (fun acc l => (List.zipWith F64.add acc.1 l, List.zipWith (fun q x => q +. x *. x) acc.2 l))
    (List.replicate t F64.zero, List.replicate t F64.zero)

theorem sumInner_ok {l : List F} {t : Nat} (hl : l.length = t) (acc : List F × List F) (h1 : acc.1.length = t)
    (h2 : acc.2.length = t) :
    forEnum l (fun i labelValue (acc : List F × List F) => do
      let s ← idx acc.1 i
      let sums ← setIdx acc.1 i (s +. labelValue)
      let q ← idx acc.2 i
      let squares ← setIdx acc.2 i (q +. labelValue *. labelValue)
      pure (sums, squares)) acc =
    .ok (List.zipWith F64.add acc.1 l, List.zipWith (fun q x => q +. x *. x) acc.2 l) := by
  unfold forEnum
  rw [← forRange_idx (v := l) (body := fun i labelValue (acc : List F × List F) => do
      let s ← idx acc.1 i
      let sums ← setIdx acc.1 i (s +. labelValue)
      let q ← idx acc.2 i
      let squares ← setIdx acc.2 i (q +. labelValue *. labelValue)
      pure (sums, squares))]
  set A := List.zipWith F64.add acc.1 l with hA
  set B := List.zipWith (fun q x => q +. x *. x) acc.2 l with hB
  have lA : A.length = t := by simp [hA, h1, hl]
  have lB : B.length = t := by simp [hB, h2, hl]
  obtain ⟨s', e1, e2, e3⟩ := forRange_ok (n := l.length) (s := acc)
    (body := fun i (acc : List F × List F) => do
      let a ← idx l i
      let s ← idx acc.1 i
      let sums ← setIdx acc.1 i (s +. a)
      let q ← idx acc.2 i
      let squares ← setIdx acc.2 i (q +. a *. a)
      pure (sums, squares))
    (P := fun k w => w.1 = A.take k ++ acc.1.drop k ∧ w.2 = B.take k ++ acc.2.drop k)
    (by simp)
    (by
      rintro i ⟨ws, wq⟩ hi ⟨g1, g2⟩
      simp only at g1 g2
      have es : ws[i]? = some (acc.1[i]'(by omega)) := by
        rw [g1, List.getElem?_append_right (by simp; try omega), List.length_take, lA,
          Nat.min_eq_left (by omega)]
        simp
      have eq : wq[i]? = some (acc.2[i]'(by omega)) := by
        rw [g2, List.getElem?_append_right (by simp; try omega), List.length_take, lB,
          Nat.min_eq_left (by omega)]
        simp
      have ls : ws.length = t := by rw [g1]; simp [lA, h1]; omega
      have lq : wq.length = t := by rw [g2]; simp [lB, h2]; omega
      refine ⟨_, by
        simp only [idx_lt hi, idx_some eq, idx_some es, R.ok_bind, setIdx_lt (show i < wq.length by omega),
          setIdx_lt (show i < ws.length by omega)]; rfl, ?_, ?_⟩
      · rw [g1, ← set_take_drop (by omega) (by omega)]
        simp [hA]
      · rw [g2, ← set_take_drop (by omega) (by omega)]
        simp [hB])
  refine e1.trans ?_
  rw [List.take_of_length_le (by omega), List.drop_of_length_le (by omega), List.append_nil] at e2 e3
  rw [← e2, ← e3]

theorem getLabelSumVectors_ok {labels : List (List F)} {t : Nat} (h : ∀ l ∈ labels, l.length = t) :
    getLabelSumVectors labels t = .ok (sumVecs labels t) ∧ (sumVecs labels t).1.length = t ∧
      (sumVecs labels t).2.length = t := by
  refine foldlM_ok (P := fun acc : List F × List F => acc.1.length = t ∧ acc.2.length = t) (by simp) ?_
  rintro acc l ⟨h1, h2⟩ hl
  exact ⟨sumInner_ok (h l hl) acc h1 h2, by simp [h1, h l hl], by simp [h2, h l hl]⟩

/-- The label metrics without panics. -/
def metricsOf (labels : List (List F)) (t : Nat) : LabelMetrics F :=
  { sumOfLabels := (sumVecs labels t).1
    sumOfSquaredLabels := (sumVecs labels t).2
    meanOfLabels := (sumVecs labels t).1.map (fun s => s /. F64.ofNat labels.length) }

theorem getMean_ok {n : F} {t : Nat} {sums : List F} (h : sums.length = t) :
    getMeanOfLabelsVector n t sums = .ok (sums.map (fun s => s /. n)) := by
  unfold getMeanOfLabelsVector forEnum
  rw [← forRange_idx (v := sums) (body := fun i s mean => setIdx mean i (s /. n))]
  obtain ⟨s', e1, e2⟩ := forRange_ok (n := sums.length) (s := List.replicate t (F64.zero : F))
    (body := fun i mean => do
      let s ← idx sums i
      setIdx mean i (s /. n))
    (P := fun k w => w = (sums.map (fun s => s /. n)).take k ++ (List.replicate t (F64.zero : F)).drop k)
    (by simp)
    (by
      intro i s hi hs
      subst hs
      rw [idx_lt hi]
      simp only [R.ok_bind]
      rw [setIdx_lt (by simp; omega)]
      refine ⟨_, rfl, ?_⟩
      rw [← set_take_drop (by simp [h]) (by simpa using hi)]
      simp)
  refine e1.trans ?_
  rw [e2, List.take_of_length_le (by simp), List.drop_of_length_le (by simp [h]), List.append_nil]

theorem getLabelMetrics_ok {labels : List (List F)} {t : Nat} (h : ∀ l ∈ labels, l.length = t) :
    getLabelMetrics labels t = .ok (metricsOf labels t) ∧ (metricsOf labels t).Shape t := by
  obtain ⟨h1, h2, h3⟩ := getLabelSumVectors_ok h
  unfold getLabelMetrics
  rw [h1]
  simp only [R.ok_bind, getMean_ok h2, R.pure_eq]
  exact ⟨rfl, h2, h3, by simp [metricsOf, h2]⟩

/-- The total variance without panics. -/
def totalVariance (labels : List (List F)) (t : Nat) : F :=
  fsum (varVec (metricsOf labels t) (F64.ofNat labels.length))

theorem getTotalVarianceSum_ok {labels : List (List F)} {t : Nat} (h : ∀ l ∈ labels, l.length = t) :
    getTotalVarianceSum (metricsOf labels t) (F64.ofNat labels.length) t = .ok (totalVariance labels t) := by
  unfold getTotalVarianceSum
  rw [calculateVarianceVector_ok (getLabelMetrics_ok h).2]
  rfl

/-! ## Choosing the column -/

/-- Keep the strictly larger gain. -/
def pickColumn (total : F) (b : BestSplitResult F) (p : BestThresholdResult F × Nat) : BestSplitResult F :=
  if (total -. p.1.loss) >. b.gain then
    { gain := total -. p.1.loss, question := { column := p.2, value := p.1.thresholdValue } }
  else b

/-- `select` without panics. -/
def bestColumn (total : F) (results : List (BestThresholdResult F)) : BestSplitResult F :=
  results.zipIdx.foldl (pickColumn total) { gain := F64.zero, question := { column := 0, value := F64.zero } }

theorem selectBestColumn_ok {total : F} {results : List (BestThresholdResult F)} (h : results.length ≤ 2 ^ 32) :
    selectBestColumn results.length total results = .ok (bestColumn total results) := by
  unfold selectBestColumn
  rw [forRange_idx (v := results) (body := fun i r (best : BestSplitResult F) => do
    let informationGain := total -. r.loss
    if informationGain >. best.gain then
      pure { gain := informationGain, question := { column := castU32 i, value := r.thresholdValue } }
    else pure best)]
  refine (foldlM_ok (g := pickColumn total) (P := fun _ => True) trivial ?_).1
  rintro b ⟨r, i⟩ _ hp
  refine ⟨?_, trivial⟩
  have hi : i < results.length := by
    have := List.snd_lt_of_mem_zipIdx hp
    simpa using this
  simp only [pickColumn, castU32_of_lt (show i < 2 ^ 32 by omega)]
  split <;> rfl

end Verif
