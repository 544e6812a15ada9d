import Verif.Spec.Mirror
import Verif.Lemmas.PowerScale
/-!
# Targets with the opposite sign

All operations of the learners commute with changing signs, roundings included.
-/

set_option linter.unusedSectionVars false

namespace Verif

open B64 LawfulOrder

section ext

theorem ext_neg_neg (a : Ext ℚ) : Ext.neg (Ext.neg a) = a := by cases a <;> simp [Ext.neg]

theorem ext_add_neg (a b : Ext ℚ) : Ext.add (Ext.neg a) (Ext.neg b) = Ext.neg (Ext.add a b) := by
  cases a <;> cases b <;> simp [Ext.neg, Ext.add, add_comm]

theorem ext_neg_signInf (q : ℚ) : Ext.signInf (-q) = Ext.neg (Ext.signInf q) := by
  rcases lt_trichotomy q 0 with h | rfl | h
  · simp [Ext.signInf, h, Ext.neg, not_lt_of_gt h]
  · simp [Ext.signInf, Ext.neg]
  · simp [Ext.signInf, h, Ext.neg, not_lt_of_gt h]

theorem ext_neg_mul (a b : Ext ℚ) : Ext.mul (Ext.neg a) b = Ext.neg (Ext.mul a b) := by
  cases a <;> cases b <;> simp only [Ext.neg, Ext.mul, neg_mul, neg_neg]
  all_goals first | exact ext_neg_signInf _ | (refine Eq.trans ?_ (ext_neg_signInf _); rw [neg_neg])

theorem ext_mul_neg (a b : Ext ℚ) : Ext.mul a (Ext.neg b) = Ext.neg (Ext.mul a b) := by
  cases a <;> cases b <;> simp only [Ext.neg, Ext.mul, mul_neg, neg_neg]
  all_goals first | exact ext_neg_signInf _ | (refine Eq.trans ?_ (ext_neg_signInf _); rw [neg_neg])

theorem ext_neg_div (a b : Ext ℚ) (hb : b ≠ .fin 0) : Ext.div (Ext.neg a) b = Ext.neg (Ext.div a b) := by
  cases a <;> cases b <;> simp [Ext.neg, Ext.div] at hb ⊢
  all_goals try (split <;> rfl)
  simp [hb, neg_div]

theorem ext_neg_abs (a : Ext ℚ) : Ext.abs (Ext.neg a) = Ext.abs a := by cases a <;> simp [Ext.neg, Ext.abs]

end ext

namespace B64

variable [B64Env] {b b' : Bool} {x y x' y' : B64}

theorem mirrors_add (h : Mirrors b x y) (h' : Mirrors b x' y') : Mirrors b (x +. x') (y +. y') := by
  unfold Mirrors at *
  rw [add_val, add_val, h, h']
  cases b
  · rfl
  · simp only [if_true]
    rw [← roundE_neg]
    exact congrArg roundE (ext_add_neg _ _)

theorem mirrors_sub (h : Mirrors b x y) (h' : Mirrors b x' y') : Mirrors b (x -. x') (y -. y') := by
  unfold Mirrors at *
  rw [sub_val, sub_val, h, h']
  cases b
  · rfl
  · simp only [if_true]
    rw [← roundE_neg]
    exact congrArg roundE (ext_add_neg _ (Ext.neg _))

theorem mirrors_mul (h : Mirrors b x y) (h' : Mirrors b' x' y') : Mirrors (b ^^ b') (x *. x') (y *. y') := by
  unfold Mirrors at *
  rw [mul_val, mul_val, h, h']
  cases b <;> cases b'
  · rfl
  · simp only [if_true, Bool.false_eq_true, if_false, Bool.bne_true, Bool.not_false]
    rw [← roundE_neg]
    exact congrArg roundE (ext_mul_neg _ _)
  · simp only [if_true, Bool.false_eq_true, if_false, Bool.bne_false]
    rw [← roundE_neg]
    exact congrArg roundE (ext_neg_mul _ _)
  · show roundE (Ext.neg x.val *. Ext.neg x'.val) = roundE (x.val *. x'.val)
    have : Ext.mul (Ext.neg x.val) (Ext.neg x'.val) = Ext.mul x.val x'.val := by rw [ext_neg_mul, ext_mul_neg, ext_neg_neg]
    exact congrArg roundE this

theorem mirrors_square (h : Mirrors b x y) : Mirrors false (x *. x) (y *. y) := by
  have := mirrors_mul h h
  simpa using this

theorem mirrors_refl (x : B64) : Mirrors false x x := rfl

/-- the same divisor -/
theorem mirrors_div (h : Mirrors b x y) (c : B64) : Mirrors b (x /. c) (y /. c) := by
  by_cases hc : c.val = .fin 0
  · have hxy : (y.val = .nan ∨ y.val = .fin 0) ↔ (x.val = .nan ∨ x.val = .fin 0) := by
      unfold Mirrors at h
      rw [h]
      cases b
      · rfl
      · cases x.val <;> simp [Ext.neg]
    show (div y c).val = if b = true then Ext.neg (div x c).val else (div x c).val
    unfold B64.div
    rw [if_pos hc, if_pos hc]
    by_cases hx : x.val = .nan ∨ x.val = .fin 0
    · rw [if_pos hx, if_pos (hxy.mpr hx)]
      cases b <;> rfl
    · rw [if_neg hx, if_neg (fun h0 => hx (hxy.mp h0))]
      have hsx : ∀ {z : B64}, ¬(z.val = .nan ∨ z.val = .fin 0) → z.negZero = false := by
        intro z hz
        cases hn : z.negZero
        · rfl
        · exact absurd (.inr (z.only_zero hn)) hz
      have hs : y.sign = (b ^^ x.sign) := by
        unfold Mirrors at h
        simp only [sign, hsx hx, hsx (fun h0 => hx (hxy.mp h0)), Bool.false_or, h]
        cases b
        · simp
        · cases hv : x.val with
          | fin q =>
            rw [hv] at hx
            have hq : q ≠ 0 := by simpa using hx
            simp only [Ext.neg, if_true, Bool.true_bne]
            rcases lt_or_gt_of_ne hq with h1 | h1
            · simp [h1, h1.le]
            · simp [h1, h1.le]
          | nan => exact absurd (.inl hv) hx
          | _ => simp [Ext.neg]
      rw [hs]
      cases b <;> cases x.sign <;> cases c.sign <;> rfl
  · unfold Mirrors at *
    rw [div_val _ _ hc, div_val _ _ hc, h]
    cases b
    · rfl
    · simp only [if_true]
      rw [← roundE_neg]
      exact congrArg roundE (ext_neg_div _ _ hc)

theorem mirrors_abs (h : Mirrors b x y) : (F64.abs y : B64) = F64.abs x := by
  unfold Mirrors at h
  show make false (Ext.abs y.val) = make false (Ext.abs x.val)
  rw [h]
  cases b
  · rfl
  · simp only [if_true, ext_neg_abs]

/-- comparisons of mirrored values that do not change sign -/
theorem mirrors_lt (h : Mirrors false x y) (h' : Mirrors false x' y') : (y <. y') = (x <. x') := by
  unfold Mirrors at *
  rw [lt_val, lt_val, h, h']
  rfl

end B64

variable [B64Env] {s : ℕ → Bool} {t : ℕ}

/-- corresponding vectors -/
def MiVec (s : ℕ → Bool) (t : ℕ) (l l' : List B64) : Prop :=
  l.length = t ∧ l'.length = t ∧ ∀ j < t, Mirrors (s j) (l.getD j F64.zero) (l'.getD j F64.zero)

theorem MiVec.zip {f : B64 → B64 → B64} {s' s'' : ℕ → Bool} {a a' b b' : List B64} (h : MiVec s t a a') (h' : MiVec s' t b b')
    (hf : ∀ j x y x' y', Mirrors (s j) x y → Mirrors (s' j) x' y' → Mirrors (s'' j) (f x x') (f y y')) :
    MiVec s'' t (List.zipWith f a b) (List.zipWith f a' b') := by
  obtain ⟨h1, h2, h3⟩ := h
  obtain ⟨h4, h5, h6⟩ := h'
  refine ⟨by simp [h1, h4], by simp [h2, h5], fun j hj => ?_⟩
  rw [zipWith_getD_of (a := F64.zero) (b := F64.zero) (by omega) (by omega), zipWith_getD_of (a := F64.zero) (b := F64.zero) (by omega) (by omega)]
  exact hf j _ _ _ _ (h3 j hj) (h6 j hj)

theorem MiVec.map {f : B64 → B64} {s'' : ℕ → Bool} {a a' : List B64} (h : MiVec s t a a')
    (hf : ∀ j x y, Mirrors (s j) x y → Mirrors (s'' j) (f x) (f y)) : MiVec s'' t (a.map f) (a'.map f) := by
  obtain ⟨h1, h2, h3⟩ := h
  refine ⟨by simp [h1], by simp [h2], fun j hj => ?_⟩
  have e : ∀ {v : List B64}, v.length = t → (v.map f).getD j F64.zero = f (v.getD j F64.zero) := by
    intro v hv
    simp [List.getD, show j < v.length by omega]
  rw [e h1, e h2]
  exact hf j _ _ (h3 j hj)

theorem MiVec.zeros : MiVec s t (List.replicate t (F64.zero : B64)) (List.replicate t F64.zero) := by
  refine ⟨by simp, by simp, fun j hj => ?_⟩
  have : (List.replicate t (F64.zero : B64)).getD j F64.zero = F64.zero := by simp [List.getD, hj]
  rw [this]
  unfold Mirrors
  rw [zero_val]
  cases s j <;> simp [Ext.neg]

theorem MiVec.mirrorVec {v v' : List B64} (h : MiVec s t v v') : MirrorVec s v v' := by
  refine ⟨by rw [h.1, h.2.1], fun j x y hx hy => ?_⟩
  have hj : j < t := by
    rw [← h.1]
    exact (List.getElem?_eq_some_iff.mp hx).1
  have := h.2.2 j hj
  simpa [List.getD, hx, hy] using this

theorem MirrorVec.miVec {v v' : List B64} (h : MirrorVec s v v') (hv : v.length = t) : MiVec s t v v' := by
  refine ⟨hv, by rw [h.1, hv], fun j hj => ?_⟩
  have h1 : j < v.length := by omega
  have h2 : j < v'.length := by rw [h.1]; omega
  have := h.2 j _ _ (List.getElem?_eq_getElem h1) (List.getElem?_eq_getElem h2)
  simpa [List.getD, h1, h2] using this

/-- corresponding trackers -/
structure MiTrk (s : ℕ → Bool) (t : ℕ) (tr tr' : Tracker B64) : Prop where
  count : tr'.numberOfLabels = tr.numberOfLabels
  sums : MiVec s t tr.metrics.sumOfLabels tr'.metrics.sumOfLabels
  squares : MiVec (fun _ => false) t tr.metrics.sumOfSquaredLabels tr'.metrics.sumOfSquaredLabels
  means : MiVec s t tr.metrics.meanOfLabels tr'.metrics.meanOfLabels

theorem MiVec.upd {op : B64 → B64 → B64} (hop : ∀ {b : Bool} {x y x' y' : B64}, Mirrors b x y → Mirrors b x' y' → Mirrors b (op x x') (op y y'))
    {tr tr' : Tracker B64} {l l' : List B64} (h : MiTrk s t tr tr') (hl : MiVec s t l l') (n : B64) :
    MiTrk s t { numberOfLabels := n, metrics := updMetrics op n tr.metrics l } { numberOfLabels := n, metrics := updMetrics op n tr'.metrics l' } := by
  have h1 := h.sums.zip (f := op) (s'' := s) hl (fun _ _ _ _ _ => hop)
  exact ⟨rfl, h1, h.squares.zip hl (fun _ _ _ _ _ ha hb => hop ha (mirrors_square hb)), h1.map (fun _ _ _ ha => mirrors_div ha n)⟩

theorem updLeft_mi {tr tr' : Tracker B64} {l l' : List B64} (h : MiTrk s t tr tr') (hl : MiVec s t l l') :
    MiTrk s t (updLeft tr l) (updLeft tr' l') := by
  rw [updLeft, updLeft, h.count]
  exact MiVec.upd mirrors_add h hl _

theorem updRight_mi {tr tr' : Tracker B64} {l l' : List B64} (h : MiTrk s t tr tr') (hl : MiVec s t l l') :
    MiTrk s t (updRight tr l) (updRight tr' l') := by
  rw [updRight, updRight, h.count]
  exact MiVec.upd mirrors_sub h hl _

theorem leftStart_mi : MiTrk s t (leftStart t) (leftStart t) := ⟨rfl, MiVec.zeros, MiVec.zeros, MiVec.zeros⟩

/-- pairs of corresponding labels -/
abbrev MiPairs (s : ℕ → Bool) (t : ℕ) (zs : List (List B64 × List B64)) : Prop := ∀ z ∈ zs, MiVec s t z.1 z.2

theorem vecSum_mi {zs : List (List B64 × List B64)} (hz : MiPairs s t zs) : MiVec s t (vecSum t (zs.map Prod.fst)) (vecSum t (zs.map Prod.snd)) := by
  have key : ∀ (zs : List (List B64 × List B64)) (u u' : List B64), MiPairs s t zs → MiVec s t u u' →
      MiVec s t ((zs.map Prod.fst).foldl (fun a b => List.zipWith F64.add a b) u) ((zs.map Prod.snd).foldl (fun a b => List.zipWith F64.add a b) u') := by
    intro zs
    induction zs with
    | nil => intro u u' _ hu; exact hu
    | cons z zs ih =>
      intro u u' hz hu
      exact ih _ _ (fun z' hz' => hz z' (by simp [hz'])) (hu.zip (hz z (by simp)) (fun _ _ _ _ _ => mirrors_add))
  exact key zs _ _ hz MiVec.zeros

theorem metricsOf_mi {zs : List (List B64 × List B64)} (hz : MiPairs s t zs) :
    MiTrk s t (rightStart zs.length (metricsOf (zs.map Prod.fst) t)) (rightStart zs.length (metricsOf (zs.map Prod.snd) t)) := by
  have hs := vecSum_mi hz
  have hq : ∀ (zs : List (List B64 × List B64)) (tr tr' : Tracker B64), MiPairs s t zs → MiTrk s t tr tr' →
      MiTrk s t ((zs.map Prod.fst).foldl updLeft tr) ((zs.map Prod.snd).foldl updLeft tr') := by
    intro zs
    induction zs with
    | nil => intro tr tr' _ h; exact h
    | cons z zs ih =>
      intro tr tr' hz h
      exact ih _ _ (fun z' hz' => hz z' (by simp [hz'])) (updLeft_mi h (hz z (by simp)))
  have h := hq zs _ _ hz leftStart_mi
  have e1 := sumVecs_foldl (zs.map Prod.fst) t
  have e2 := sumVecs_foldl (zs.map Prod.snd) t
  refine ⟨rfl, ?_, ?_, ?_⟩
  · simpa [rightStart, metricsOf, sumVecs_fst] using hs
  · simpa [rightStart, metricsOf, e1, e2] using h.squares
  · simp only [rightStart, metricsOf, sumVecs_fst, List.length_map]
    exact hs.map (fun _ _ _ ha => mirrors_div ha _)

theorem varVec_mi {tr tr' : Tracker B64} (h : MiTrk s t tr tr') :
    MiVec (fun _ => false) t (varVec tr.metrics tr.numberOfLabels) (varVec tr'.metrics tr'.numberOfLabels) := by
  rw [varVec, varVec, h.count]
  refine h.means.zip h.squares (fun j x y x' y' h1 h2 => ?_)
  exact mirrors_div (mirrors_sub h2 (by simpa using mirrors_mul (mirrors_refl tr.numberOfLabels) (mirrors_square h1))) _

theorem fsum_mi {xs ys : List B64} (h : MiVec (fun _ => false) t xs ys) : Mirrors false (fsum xs) (fsum ys) := by
  have key : ∀ (xs ys : List B64) (u v : B64), List.Forall₂ (Mirrors false) xs ys → Mirrors false u v →
      Mirrors false (xs.foldl F64.add u) (ys.foldl F64.add v) := by
    intro xs ys u v h
    induction h generalizing u v with
    | nil => intro hu; exact hu
    | cons hxy _ ih => intro hu; exact ih _ _ (mirrors_add hu hxy)
  exact key xs ys _ _ (forall₂_getD h.1 h.2.1 h.2.2) (mirrors_refl _)

theorem splitLoss_mi {left left' right right' : Tracker B64} (hl : MiTrk s t left left') (hr : MiTrk s t right right') :
    Mirrors false (splitLoss left right) (splitLoss left' right') := by
  have h1 := varVec_mi hl
  have h2 := varVec_mi hr
  simp only [splitLoss]
  rw [hl.count, hr.count] at *
  refine fsum_mi (t := t) (h1.zip h2 (fun j x y x' y' ha hb => mirrors_add ?_ ?_))
  · simpa using mirrors_mul (mirrors_refl (left.numberOfLabels /. (left.numberOfLabels +. right.numberOfLabels))) ha
  · simpa using mirrors_mul (mirrors_refl (right.numberOfLabels /. (left.numberOfLabels +. right.numberOfLabels))) hb

/-- corresponding candidates -/
def MiCand (b b' : BestThresholdResult B64) : Prop := b'.thresholdValue = b.thresholdValue ∧ Mirrors false b.loss b'.loss

theorem foldl_pickBest_mi {bs bs' : List (BestThresholdResult B64)} (h : List.Forall₂ MiCand bs bs') :
    ∀ b b', MiCand b b' → MiCand (bs.foldl pickBest b) (bs'.foldl pickBest b') := by
  induction h with
  | nil => intro b b' h; exact h
  | @cons c c' cs cs' hc _ ih =>
    intro b b' h
    rw [List.foldl_cons, List.foldl_cons]
    apply ih
    unfold pickBest
    rw [mirrors_lt hc.2 h.2]
    split
    · exact hc
    · exact h

theorem cands_mi {prev : B64} : ∀ (seq : List (B64 × (List B64 × List B64))) (left left' right right' : Tracker B64),
    (∀ p ∈ seq, MiVec s t p.2.1 p.2.2) → MiTrk s t left left' → MiTrk s t right right' →
      List.Forall₂ MiCand (cands prev left right (seq.map (fun p => (p.1, p.2.1)))) (cands prev left' right' (seq.map (fun p => (p.1, p.2.2)))) := by
  intro seq
  induction seq with
  | nil => intro left left' right right' _ _ _; simp [cands]
  | cons p seq ih =>
    intro left left' right right' hs hl hr
    simp only [List.map_cons, cands]
    refine List.rel_append ?_ ?_
    · split
      · exact .cons ⟨rfl, splitLoss_mi hl hr⟩ .nil
      · exact .nil
    · exact ih _ _ _ _ (fun p hp => hs p (by simp [hp])) (updLeft_mi hl (hs p (by simp))) (updRight_mi hr (hs p (by simp)))

/-- corresponding splits -/
def MiSplit (b b' : BestSplitResult B64) : Prop := b'.question = b.question ∧ Mirrors false b.gain b'.gain

theorem bestColumn_mi {T T' : B64} (hT : Mirrors false T T') {rs rs' : List (BestThresholdResult B64)} (h : List.Forall₂ MiCand rs rs') :
    MiSplit (bestColumn T rs) (bestColumn T' rs') := by
  have key : ∀ (rs rs' : List (BestThresholdResult B64)) (i : ℕ) (b b' : BestSplitResult B64), List.Forall₂ MiCand rs rs' → MiSplit b b' →
      MiSplit ((rs.zipIdx i).foldl (pickColumn T) b) ((rs'.zipIdx i).foldl (pickColumn T') b') := by
    intro rs rs' i b b' h
    induction h generalizing i b b' with
    | nil => intro hb; exact hb
    | @cons r r' rs rs' hr _ ih =>
      intro hb
      rw [List.zipIdx_cons, List.zipIdx_cons, List.foldl_cons, List.foldl_cons]
      apply ih
      unfold pickColumn
      simp only
      have hg := mirrors_sub hT hr.2
      change MiSplit (if (b.gain <. (T -. r.loss)) = true then _ else _) (if (b'.gain <. (T' -. r'.loss)) = true then _ else _)
      rw [mirrors_lt hb.2 hg]
      split
      · exact ⟨by rw [hr.1], hg⟩
      · exact hb
  exact key rs rs' 0 _ _ h ⟨rfl, mirrors_refl _⟩

theorem splitOf_mi {d : DataSet B64} {c : ℕ} {zs : List (List B64 × List B64)} (h : d.WF c t) (hz : MiPairs s t zs)
    (hls : d.labels = zs.map Prod.fst) : MiSplit (splitOf d t) (splitOf { d with labels := zs.map Prod.snd } t) := by
  have hzl : zs.length = d.labels.length := by rw [hls, List.length_map]
  have hm := metricsOf_mi hz
  have hT : Mirrors false (totalVariance d.labels t) (totalVariance (zs.map Prod.snd) t) := by
    have := fsum_mi (varVec_mi hm)
    rw [totalVariance, totalVariance, hls, List.length_map, List.length_map]
    exact this
  rw [splitOf, splitOf]
  refine bestColumn_mi hT ?_
  rw [List.forall₂_map_left_iff, List.forall₂_map_right_iff, List.forall₂_same]
  intro col hcol
  rw [h.cols, columnsOf] at hcol
  obtain ⟨i, hi, rfl⟩ := List.mem_map.mp hcol
  have hcl : (column d.featureRows i).length = zs.length := by rw [column_length, hzl, h.label_count]
  set col := column d.featureRows i with hcoldef
  let seq : List (B64 × (List B64 × List B64)) := (sorted col.zipIdx).map (fun p => (p.1, zs.getD p.2 ([], [])))
  have hidx : ∀ p ∈ sorted col.zipIdx, p.2 < zs.length := by
    intro p hp
    have := List.snd_lt_of_mem_zipIdx ((sorted_perm _).mem_iff.mp hp)
    omega
  have e1 : seqOf d.labels col = seq.map (fun p => (p.1, p.2.1)) := by
    simp only [seqOf, seq, List.map_map]
    apply List.map_congr_left
    intro p hp
    have := hidx p hp
    simp [hls, this]
  have e2 : seqOf (zs.map Prod.snd) col = seq.map (fun p => (p.1, p.2.2)) := by
    simp only [seqOf, seq, List.map_map]
    apply List.map_congr_left
    intro p hp
    have := hidx p hp
    simp [this]
  have hsz : ∀ p ∈ seq, MiVec s t p.2.1 p.2.2 := by
    intro p hp
    obtain ⟨q, hq, rfl⟩ := List.mem_map.mp hp
    apply hz
    simp [hidx q hq]
  simp only [colResult, scanResult, e1, e2]
  simp only [hls, List.length_map, List.map_map]
  exact foldl_pickBest_mi (cands_mi seq _ _ _ _ hsz leftStart_mi hm) _ _ ⟨rfl, mirrors_refl _⟩

/-! ## Trees and leaves -/

theorem leafOut_mi {zs : List (List B64 × List B64)} (hz : MiPairs s t zs) (o : LeafOutputType) :
    MiVec s t (leafOut o t (zs.map Prod.fst)) (leafOut o t (zs.map Prod.snd)) := by
  have hs := vecSum_mi hz
  cases o with
  | regression =>
    simp only [leafOut, avgVec, List.length_map]
    exact hs.map (fun _ _ _ ha => mirrors_div ha _)
  | multiClassClassification =>
    have hden : denomOf t (zs.map Prod.snd) = denomOf t (zs.map Prod.fst) := by
      simp only [denomOf, List.map_map]
      congr 1
      apply List.map_congr_left
      intro z hzm
      obtain ⟨h1, h2, h3⟩ := hz z hzm
      apply List.ext_getElem?
      intro j
      by_cases hj : j < t
      · have hj1 : j < z.1.length := by omega
        have hj2 : j < z.2.length := by omega
        have := h3 j hj
        rw [List.getD_eq_getElem?_getD, List.getD_eq_getElem?_getD, List.getElem?_eq_getElem hj1, List.getElem?_eq_getElem hj2] at this
        simp only [Function.comp, List.getElem?_map, List.getElem?_eq_getElem hj1, List.getElem?_eq_getElem hj2, Option.map_some, denomTerm]
        rw [mirrors_abs (x := z.1[j]) (y := z.2[j]) this]
      · simp [show z.1.length ≤ j by omega, show z.2.length ≤ j by omega]
    simp only [leafOut, multiOut, multiplyByScalar, hden]
    have hlen : (denomOf t (zs.map Prod.fst)).length = t := by
      apply denomOf_length
      intro l hl
      obtain ⟨z, hz', rfl⟩ := List.mem_map.mp hl
      exact (hz z hz').1
    have hq : MiVec s t (List.zipWith F64.div (vecSum t (zs.map Prod.fst)) (denomOf t (zs.map Prod.fst)))
        (List.zipWith F64.div (vecSum t (zs.map Prod.snd)) (denomOf t (zs.map Prod.fst))) := by
      obtain ⟨h1, h2, h3⟩ := hs
      refine ⟨by simp [h1, hlen], by simp [h2, hlen], fun j hj => ?_⟩
      rw [zipWith_getD_of (a := F64.zero) (b := F64.zero) (by omega) (by omega), zipWith_getD_of (a := F64.zero) (b := F64.zero) (by omega) (by omega)]
      exact mirrors_div (h3 j hj) _
    refine hq.map (fun j x y ha => ?_)
    simpa using mirrors_mul ha (mirrors_refl _)

/-- The same questions, hence the same way for every row, and leaves made from the same rows with the corresponding labels. -/
def MiShape {L L' : Type} (c t : ℕ) (s : ℕ → Bool) (leafOf : DataSet B64 → L) (leafOf' : DataSet B64 → L') (x : TreeNode B64 L) (y : TreeNode B64 L') : Prop :=
  (∀ p, y.questionAt p = x.questionAt p) ∧ (∀ row, y.route row = x.route row) ∧
    ∀ p leaf, x.leafAt p = some leaf → ∃ (dd : DataSet B64) (zs : List (List B64 × List B64)), dd.WF c t ∧ MiPairs s t zs ∧
      dd.labels = zs.map Prod.fst ∧ leaf = leafOf dd ∧ y.leafAt p = some (leafOf' { dd with labels := zs.map Prod.snd })

theorem treeOf_mi {L L' : Type} {c : ℕ} {leafOf : DataSet B64 → L} {leafOf' : DataSet B64 → L'} (m : ℕ)
    (d : DataSet B64) (h : d.WF c t) : ∀ zs : List (List B64 × List B64), MiPairs s t zs → d.labels = zs.map Prod.fst →
      MiShape c t s leafOf leafOf' (treeOf leafOf c t m d) (treeOf leafOf' c t m { d with labels := zs.map Prod.snd }) := by
  have hzero : ∀ {b b' : BestSplitResult B64}, MiSplit b b' → (b'.gain ==. F64.zero) = (b.gain ==. F64.zero) := by
    intro b b' hb
    have := hb.2
    unfold Mirrors at this
    rw [eq_val, eq_val, this]
    rfl
  have hleaf : ∀ (q q' : Question B64) (d : DataSet B64) (zs : List (List B64 × List B64)), d.WF c t → MiPairs s t zs →
      d.labels = zs.map Prod.fst →
      MiShape c t s leafOf leafOf' (TreeNode.leafNode q (leafOf d)) (TreeNode.leafNode q' (leafOf' { d with labels := zs.map Prod.snd })) := by
    intro q q' d zs hw hzs hls
    refine ⟨fun p => by cases p <;> rfl, fun _ => rfl, ?_⟩
    intro p leaf hp
    cases p with
    | nil =>
      cases hp
      exact ⟨d, zs, hw, hzs, hls, rfl, rfl⟩
    | cons x p => cases x <;> cases hp
  refine treeOf_induct (motive := fun m d => ∀ zs : List (List B64 × List B64), MiPairs s t zs → d.labels = zs.map Prod.fst →
    MiShape c t s leafOf leafOf' (treeOf leafOf c t m d) (treeOf leafOf' c t m { d with labels := zs.map Prod.snd }))
    ?_ ?_ ?_ m d h
  · intro d hw zs hzs hls
    exact hleaf _ _ _ _ hw hzs hls
  · intro m d hw hg zs hzs hls
    have hs := splitOf_mi hw hzs hls
    rw [treeOf_leaf hg, treeOf_leaf ((hzero hs).trans hg)]
    exact hleaf _ _ _ _ hw hzs hls
  · intro m d hw hg i1 i2 zs hzs hls
    have hs := splitOf_mi hw hzs hls
    have hlen : zs.length = d.featureRows.length := by rw [← hw.label_count, hls, List.length_map]
    have hr : ∀ p : List B64 → Bool, ∃ ys : List (List B64 × List B64), MiPairs s t ys ∧
        (d.restrict c p).labels = ys.map Prod.fst ∧
        ({ d with labels := zs.map Prod.snd } : DataSet B64).restrict c p = { d.restrict c p with labels := ys.map Prod.snd } := by
      intro p
      refine ⟨((d.featureRows.zip zs).filter (fun e => p e.1)).map Prod.snd, ?_, ?_, ?_⟩
      · intro y hy
        obtain ⟨e, he, rfl⟩ := List.mem_map.mp hy
        exact hzs _ (List.of_mem_zip (List.mem_filter.mp he).1).2
      · simp only [DataSet.restrict, DataSet.examples, hls]
        rw [List.zip_map_right, List.filter_map, List.map_map, List.map_map]
        rfl
      · rw [restrict_labels (by rw [List.length_map]; exact hlen) hw.label_count, List.zip_map_right, List.filter_map, List.map_map, List.map_map]
        rfl
    rw [treeOf_node hg, treeOf_node ((hzero hs).trans hg), hs.1]
    obtain ⟨ms1, z1, a1, b1⟩ := hr (satisfies (splitOf d t).question)
    obtain ⟨ms2, z2, a2, b2⟩ := hr (fun r => !satisfies (splitOf d t).question r)
    rw [b1, b2]
    have k1 := i1 ms1 z1 a1
    have k2 := i2 ms2 z2 a2
    refine ⟨fun p => ?_, fun row => ?_, fun p leaf hp => ?_⟩
    · match p with
      | [] => rfl
      | true :: p => exact k1.1 p
      | false :: p => exact k2.1 p
    · rw [TreeNode.route_new, TreeNode.route_new, k1.2.1 row, k2.2.1 row]
    · match p with
      | [] => cases hp
      | true :: p => exact k1.2.2 p leaf hp
      | false :: p => exact k2.2.2 p leaf hp

end Verif
