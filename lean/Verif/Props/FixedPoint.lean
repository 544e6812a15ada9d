import Verif.Spec.FixedPoint
import Verif.Props.NearTrend
import Verif.Props.PowerScale
/-!
# C125: what holds of integer labels holds of fixed-point labels
-/

set_option linter.unusedSectionVars false

namespace Verif

open B64 Sample

/-- the label entry in steps of `2^k` -/
def unscaleEntry (k : ℤ) (x : B64) : B64 := .make false (.fin (x.number / (2 : ℚ) ^ k))

/-- the data set with its labels in steps of `2^k` -/
def unscaled (k : ℤ) (d : DataSet B64) : DataSet B64 := { d with labels := d.labels.map (List.map (unscaleEntry k)) }

theorem unscaleEntry_val [B64Env] {k : ℤ} {x : B64} {z : ℤ} (hx : x.val = .fin ((2 : ℚ) ^ k * z)) (hz : |z| ≤ 2 ^ 53) :
    (unscaleEntry k x).val = .fin (z : ℚ) := by
  have h2 : (2 : ℚ) ^ k ≠ 0 := by positivity
  have hx' : x.number = (2 : ℚ) ^ k * z := by simp [B64.number, hx]
  change roundE (.fin (x.number / (2 : ℚ) ^ k)) = _
  rw [hx', mul_div_cancel_left₀ _ h2]
  exact roundE_int hz

/-- the same on exact values -/
def unscaleE (k : ℤ) (e : Ext ℚ) : Ext ℚ := roundE (.fin ((match e with | .fin q => q | _ => 0) / (2 : ℚ) ^ k))

theorem unscaleE_val (k : ℤ) (x : B64) : (unscaleEntry k x).val = unscaleE k x.val := rfl

theorem unscaled_exact_labels (k : ℤ) (d : DataSet B64) : (unscaled k d).exact.labels = d.exact.labels.map (List.map (unscaleE k)) := by
  simp only [unscaled, DataSet.exact, List.map_map]
  apply List.map_congr_left
  intro l _
  simp only [Function.comp, List.map_map]
  rfl

theorem unscaled_examples (k : ℤ) (d : DataSet B64) :
    (unscaled k d).examples = d.examples.map (fun e => (e.1, e.2.map (unscaleEntry k))) := by
  simp only [DataSet.examples, unscaled]
  rw [List.zip_map_right]
  rfl

theorem unscaled_exact_examples (k : ℤ) (d : DataSet B64) :
    (unscaled k d).exact.examples = d.exact.examples.map (fun e => (e.1, e.2.map (unscaleE k))) := by
  rw [DataSet.examples, DataSet.examples, unscaled_exact_labels, List.zip_map_right]
  rfl

theorem unscaled_noContra {k : ℤ} {d : DataSet B64} (h : NoContradictions d.exact.featureRows d.exact.labels) :
    NoContradictions (unscaled k d).exact.featureRows (unscaled k d).exact.labels := by
  have e := unscaled_exact_examples k d
  rw [DataSet.examples] at e
  intro x hx y hy hs
  rw [e] at hx hy
  obtain ⟨x', hx', rfl⟩ := List.mem_map.mp hx
  obtain ⟨y', hy', rfl⟩ := List.mem_map.mp hy
  simp only at hs ⊢
  rw [h x' hx' y' hy' hs]

theorem unscaled_ties {k : ℤ} {d : DataSet B64} {c : ℕ} (h : d.exact.TiesAgree c) : (unscaled k d).exact.TiesAgree c := by
  intro j hj x hx y hy hs hr
  rw [unscaled_exact_examples] at hx hy
  obtain ⟨x', hx', rfl⟩ := List.mem_map.mp hx
  obtain ⟨y', hy', rfl⟩ := List.mem_map.mp hy
  simp only at hs hr ⊢
  rw [h j hj x' hx' y' hy' hs hr]

theorem unscaled_decides {k : ℤ} {d : DataSet B64} {q : Question (Ext ℚ)} (h : Decides q d.exact.examples) :
    Decides q (unscaled k d).exact.examples := by
  intro x hx y hy hs
  rw [unscaled_exact_examples] at hx hy
  obtain ⟨x', hx', rfl⟩ := List.mem_map.mp hx
  obtain ⟨y', hy', rfl⟩ := List.mem_map.mp hy
  simp only at hs ⊢
  rw [h x' hx' y' hy' hs]

theorem timesPow_val {k : ℤ} {x y x' y' : B64} (h : TimesPow k x y) (h' : TimesPow k x' y') (e : x.val = x'.val) : y.val = y'.val := by
  obtain ⟨q, h1, h2⟩ := h
  obtain ⟨r, h3, h4⟩ := h'
  rw [h1, h3] at e
  rw [h2, h4, Ext.fin.inj e]

theorem timesPow_vals {k : ℤ} {xs ys xs' ys' : List B64} (h : List.Forall₂ (TimesPow k) xs ys) (h' : List.Forall₂ (TimesPow k) xs' ys')
    (e : xs.map B64.val = xs'.map B64.val) : ys.map B64.val = ys'.map B64.val := by
  induction h generalizing xs' ys' with
  | nil =>
    cases h' with
    | nil => rfl
    | cons _ _ => simp at e
  | cons hxy _ ih =>
    cases h' with
    | nil => simp at e
    | cons hxy' ht =>
      simp only [List.map_cons, List.cons.injEq] at e ⊢
      exact ⟨timesPow_val hxy hxy' e.1, ih ht e.2⟩

section
variable [B64Env]

theorem timesPow_le {k : ℤ} {x y x' y' : B64} (h : TimesPow k x y) (h' : TimesPow k x' y') : (y <=. y') = (x <=. x') := by
  obtain ⟨q, h1, h2⟩ := h
  obtain ⟨r, h3, h4⟩ := h'
  have hp : (0 : ℚ) < (2 : ℚ) ^ k := by positivity
  rw [le_val, le_val, h1, h2, h3, h4, Bool.eq_iff_iff]
  simp [hp]

theorem timesPow_getD {k : ℤ} {xs ys : List B64} (h : List.Forall₂ (TimesPow k) xs ys) (j : ℕ) :
    TimesPow k (xs.getD j F64.zero) (ys.getD j F64.zero) := by
  induction h generalizing j with
  | nil => exact ⟨0, by simp, by simp⟩
  | cons hxy _ ih =>
    cases j with
    | zero => simpa using hxy
    | succ j => simpa using ih j

theorem fixed_times {k : ℤ} {b : ℕ} {labels : List (List B64)} (hb : b ≤ 2 ^ 53) (h : FixedLabels k b labels) {l : List B64} (hl : l ∈ labels) :
    List.Forall₂ (TimesPow k) (l.map (unscaleEntry k)) l ∧ ∃ v : List ℤ, (l.map (unscaleEntry k)).map B64.val = ofInts v ∧ ∀ z ∈ v, |z| ≤ b := by
  obtain ⟨v, hv, hvb⟩ := h l hl
  have hval : ∀ z ∈ v, |z| ≤ 2 ^ 53 := fun z hz => (hvb z hz).trans (by exact_mod_cast hb)
  clear h hl
  have key : ∀ (l : List B64) (v : List ℤ), (∀ z ∈ v, |z| ≤ 2 ^ 53) → l.map B64.val = v.map (fun z => .fin ((2 : ℚ) ^ k * z)) →
      List.Forall₂ (TimesPow k) (l.map (unscaleEntry k)) l ∧ (l.map (unscaleEntry k)).map B64.val = v.map (fun z : ℤ => .fin (z : ℚ)) := by
    intro l
    induction l with
    | nil =>
      intro v _ hv
      cases v with
      | nil => exact ⟨.nil, rfl⟩
      | cons z v => simp at hv
    | cons x l ih =>
      intro v hz hv
      cases v with
      | nil => simp at hv
      | cons z v =>
        simp only [List.map_cons, List.cons.injEq] at hv
        have h1 := unscaleEntry_val hv.1 (hz z (by simp))
        obtain ⟨i1, i2⟩ := ih v (fun z h => hz z (by simp [h])) hv.2
        refine ⟨.cons ⟨z, h1, hv.1⟩ i1, ?_⟩
        simp only [List.map_cons, h1, i2]
  obtain ⟨k1, k2⟩ := key l v hval hv
  refine ⟨k1, v, ?_, hvb⟩
  rw [k2, ofInts, liftV, List.map_map]
  rfl

/-- what is needed of the data set in steps -/
structure Stepped (k : ℤ) (c t b : ℕ) (d : DataSet B64) : Prop where
  wf : (unscaled k d).WF c t
  ints : IntLabels b (unscaled k d).labels
  ordinary : ∀ l ∈ (unscaled k d).labels, ∀ x ∈ l, Ordinary x
  times : TimesPowLabels k (unscaled k d) d

theorem stepped {k : ℤ} {c t b : ℕ} {d : DataSet B64} (h : d.WF c t) (hb : b ≤ 2 ^ 53) (hF : FixedLabels k b d.labels) : Stepped k c t b d := by
  refine ⟨⟨h.rows_ne, h.row_len, ?_, ?_, h.cols, h.no_nan, h.cols_u32⟩, ?_, ?_, ⟨rfl, rfl, ?_⟩⟩
  · simp only [unscaled, List.length_map]
    exact h.label_count
  · intro l hl
    obtain ⟨l', hl', rfl⟩ := List.mem_map.mp hl
    rw [List.length_map, h.label_len l' hl']
  · intro l hl
    obtain ⟨l', hl', rfl⟩ := List.mem_map.mp hl
    exact (fixed_times hb hF hl').2
  · intro l hl x hx
    obtain ⟨l', hl', rfl⟩ := List.mem_map.mp hl
    obtain ⟨v, hv, hvb⟩ := (fixed_times hb hF hl').2
    have : x.val ∈ ofInts v := by rw [← hv]; exact List.mem_map_of_mem hx
    rw [ofInts, liftV, List.map_map] at this
    obtain ⟨z, hz, he⟩ := List.mem_map.mp this
    refine ⟨z, he.symm, ?_, ?_⟩
    · rcases eq_or_ne z 0 with rfl | h0
      · exact .inl (by simp)
      · right
        have h1 : (1 : ℤ) ≤ |z| := Int.one_le_abs h0
        have h2 : (1 : ℚ) ≤ |(z : ℚ)| := by exact_mod_cast h1
        refine le_trans ?_ h2
        rw [div_le_one (by positivity)]
        exact one_le_pow₀ (by norm_num)
    · have h1 : |z| ≤ 2 ^ 53 := (hvb z hz).trans (by exact_mod_cast hb)
      have h2 : |(z : ℚ)| ≤ 2 ^ 53 := by exact_mod_cast h1
      exact h2.trans (pow_le_pow_right₀ (by norm_num) (by norm_num))
  · simp only [unscaled]
    rw [List.forall₂_map_left_iff, List.forall₂_same]
    intro l hl
    exact (fixed_times hb hF hl).1

theorem treePredicts_unique {tree : TreeNode B64 (RegressionLeaf B64)} {row a a' : List B64} (h : treePredicts tree row a)
    (h' : treePredicts tree row a') : a = a' := by
  obtain ⟨dd, h1, h2⟩ := h
  obtain ⟨dd', h3, h4⟩ := h'
  rw [h1] at h3
  have := Except.ok.inj h3
  simp only [RegressionLeaf.mk.injEq, Option.some.injEq] at this
  subst this
  rw [h2] at h4
  exact Except.ok.inj h4

/-- the trees on the labels and on the labels in steps -/
theorem fixed_tree {k : ℤ} (hk : |k| ≤ 100) {c t b : ℕ} {d : DataSet B64} (h : d.WF c t) (hb : b ≤ 2 ^ 53) (hn : d.labels.length ≤ 2 ^ 24)
    (ht : t ≤ 2 ^ 24) (hF : FixedLabels k b d.labels) {cfg : TreeConfig} (hc : cfg.numberOfClasses = t) :
    ∃ tree₀ tree, regressionTreeNew (unscaled k d) cfg = .ok tree₀ ∧ regressionTreeNew d cfg = .ok tree ∧
      (∀ p, tree.questionAt p = tree₀.questionAt p) ∧ (∀ row, tree.route row = tree₀.route row) ∧
      ∀ row, c ≤ row.length → ∃ a₀ a, treePredicts tree₀ row a₀ ∧ treePredicts tree row a ∧ List.Forall₂ (TimesPow k) a₀ a := by
  have hS := stepped h hb hF
  obtain ⟨⟨tree₀, tree, h1, h2, hq, hr, hl⟩, _⟩ := C86_trees k hk (unscaled k d) d c t hS.wf (by simpa [unscaled] using hn) ht hS.ordinary hS.times cfg hc
  refine ⟨tree₀, tree, h1, h2, hq, hr, fun row hrow => ?_⟩
  obtain ⟨leaf₀, hf₀, ha₀⟩ := C21_lookup_total _ c t hS.wf cfg hc tree₀ h1 row hrow
  obtain ⟨leaf, hf, ha⟩ := C21_lookup_total _ c t h cfg hc tree h2 row hrow
  obtain ⟨dd, dd', avg, avg', e1, e2, _, e3, e4, e5⟩ := hl _ _ ha₀
  rw [hr, e2] at ha
  have ha := Option.some.inj ha
  refine ⟨avg, avg', ⟨dd, ?_, e3⟩, ⟨dd', ?_, e4⟩, e5⟩
  · rw [hf₀]
    cases leaf₀
    simp only at e1
    rw [e1]
  · rw [hf, ← ha]

theorem exactSums_b {n b : ℕ} (hs : ExactSums n b) (hn : 0 < n) : b ≤ 2 ^ 53 := by
  have h1 := hs.square
  have h2 := hs.bound
  nlinarith

/-- **C125** (order of the rows).  In binary64, let all labels be integer multiples, up to `b`, of one power of two between `2^-100` and `2^100`, with
exact sums: steps of a half, say.  If rows with equal values of a feature, other than its smallest, have equal labels, then the regression tree
learned from the rows in another order asks the same questions, sends every row the same way and makes the same predictions. -/
theorem C125_order (k : ℤ) (hk : |k| ≤ 100) (d d' : DataSet B64) (c t b : ℕ) (h : d.WF c t) (h' : d'.WF c t) (hn : d.labels.length ≤ 2 ^ 24)
    (ht : t ≤ 2 ^ 24) (hF : FixedLabels k b d.labels) (hs : ExactSums d.labels.length b) (ha : d.exact.TiesAgree c)
    (hp : d.examples.Perm d'.examples) (cfg : TreeConfig) (hc : cfg.numberOfClasses = t) :
    ∃ tree tree', regressionTreeNew d cfg = .ok tree ∧ regressionTreeNew d' cfg = .ok tree' ∧
      (∀ p, (tree'.questionAt p).map Question.exact = (tree.questionAt p).map Question.exact) ∧ (∀ row, tree'.route row = tree.route row) ∧
      ∀ row, c ≤ row.length → ∃ a a', treePredicts tree row a ∧ treePredicts tree' row a' ∧ a'.map B64.val = a.map B64.val := by
  have hb := exactSums_b hs (List.length_pos_of_ne_nil h.labels_ne)
  have hlp := labels_perm64 h h' hp
  have hF' : FixedLabels k b d'.labels := fun l hl => hF l (hlp.mem_iff.mpr hl)
  have hS := stepped h hb hF
  have hS' := stepped h' hb hF'
  obtain ⟨t0, t1, a1, a2, a3, a4, a5⟩ := fixed_tree hk h hb hn ht hF hc
  obtain ⟨t0', t1', b1, b2, b3, b4, b5⟩ := fixed_tree hk h' hb (by rw [← hlp.length_eq]; exact hn) ht hF' hc
  have hp0 : (unscaled k d).examples.Perm (unscaled k d').examples := by
    rw [unscaled_examples, unscaled_examples]
    exact hp.map _
  have hs0 : ExactSums (unscaled k d).labels.length b := by simpa [unscaled] using hs
  obtain ⟨z, z', hz, hz', hq, hr, _⟩ := C122_tree _ _ c t b hS.wf hS'.wf hS.ints hs0 (unscaled_ties ha) hp0 cfg hc
  rw [a1] at hz
  rw [b1] at hz'
  have hz := Except.ok.inj hz
  have hz' := Except.ok.inj hz'
  subst hz hz'
  refine ⟨t1, t1', a2, b2, fun p => ?_, fun row => ?_, fun row hrow => ?_⟩
  · rw [a3, b3, hq]
  · rw [a4, b4, hr]
  · obtain ⟨u0, u, r1, r2, r3⟩ := a5 row hrow
    obtain ⟨v0, v, s1, s2, s3⟩ := b5 row hrow
    obtain ⟨⟨dd, dd', w, w', f1, f2, f3, f4, f5⟩, _⟩ := C122_predictions _ _ c t b hS.wf hS'.wf hS.ints hs0 (unscaled_ties ha) hp0 cfg hc _ _ a1 b1 row hrow
    have e1 := treePredicts_unique r1 ⟨dd, f1, f3⟩
    have e2 := treePredicts_unique s1 ⟨dd', f2, f4⟩
    subst e1 e2
    exact ⟨u, v, r2, s2, timesPow_vals s3 r3 f5⟩

theorem companions_unscaled (k : ℤ) (d : DataSet B64) {L : Type} {tree tree₀ : TreeNode B64 L} (hr : ∀ row, tree.route row = tree₀.route row)
    (row : List B64) : companions (unscaled k d) tree₀ row = (companions d tree row).map (List.map (unscaleEntry k)) := by
  rw [companions, companions, unscaled_examples, List.filter_map, List.map_map, List.map_map]
  have : ((fun e : List B64 × List B64 => decide (tree₀.route e.1 = tree₀.route row)) ∘ fun e : List B64 × List B64 => (e.1, e.2.map (unscaleEntry k))) =
      fun e => decide (tree.route e.1 = tree.route row) := by
    funext e
    simp only [Function.comp, hr]
  rw [this]
  rfl

/-- **C125** (ranges).  With such labels every entry of a prediction lies between the entries of two training labels of the same leaf; so bounds that
hold in all training labels hold for all predictions, and a constant target is predicted exactly.  A target that is never larger than another one in the
training labels is never predicted larger. -/
theorem C125_ranges (k : ℤ) (hk : |k| ≤ 100) (d : DataSet B64) (c t b : ℕ) (h : d.WF c t) (hn : d.labels.length ≤ 2 ^ 24) (ht : t ≤ 2 ^ 24)
    (hF : FixedLabels k b d.labels) (hs : ExactSums d.labels.length b) (cfg : TreeConfig) (hc : cfg.numberOfClasses = t) :
    ∃ tree, regressionTreeNew d cfg = .ok tree ∧ ∀ row, c ≤ row.length → ∃ a, treePredicts tree row a ∧
      BetweenLabels t (companions d tree row) a ∧
      (∀ j < t, ∀ lo : B64, (∀ l ∈ d.labels, (lo <=. l.getD j F64.zero) = true) → (lo <=. a.getD j F64.zero) = true) ∧
      (∀ j < t, ∀ hi : B64, (∀ l ∈ d.labels, (l.getD j F64.zero <=. hi) = true) → (a.getD j F64.zero <=. hi) = true) ∧
      (∀ j < t, ∀ y : B64, (∀ l ∈ d.labels, (l.getD j F64.zero ==. y) = true) → (a.getD j F64.zero ==. y) = true) ∧
      (∀ i < t, ∀ j < t, (∀ l ∈ d.labels, (l.getD i F64.zero <=. l.getD j F64.zero) = true) →
        (a.getD i F64.zero <=. a.getD j F64.zero) = true) := by
  have hb := exactSums_b hs (List.length_pos_of_ne_nil h.labels_ne)
  have hS := stepped h hb hF
  have hs0 : ExactSums (unscaled k d).labels.length b := by simpa [unscaled] using hs
  obtain ⟨t0, t1, a1, a2, a3, a4, a5⟩ := fixed_tree hk h hb hn ht hF hc
  refine ⟨t1, a2, fun row hrow => ?_⟩
  obtain ⟨u0, u, r1, r2, r3⟩ := a5 row hrow
  obtain ⟨dd, w, f1, f2, _, _, hB⟩ := C123_predictions _ c t b hS.wf hS.ints hs0 cfg hc t0 a1 row hrow
  have e1 := treePredicts_unique r1 ⟨dd, f1, f2⟩
  subst e1
  have hmem : ∀ l ∈ companions d t1 row, l ∈ d.labels := by
    intro l hl
    obtain ⟨e, he, rfl⟩ := List.mem_map.mp hl
    exact examples_snd_mem (List.mem_filter.mp he).1
  rw [companions_unscaled k d a4] at hB
  have hB' : BetweenLabels t (companions d t1 row) u := by
    intro j hj
    obtain ⟨x, hx, y, hy, p1, p2⟩ := hB j hj
    obtain ⟨l, hl, rfl⟩ := List.mem_map.mp hx
    obtain ⟨l', hl', rfl⟩ := List.mem_map.mp hy
    refine ⟨l, hl, l', hl', ?_, ?_⟩
    · rw [timesPow_le (timesPow_getD (fixed_times hb hF (hmem l hl)).1 j) (timesPow_getD r3 j)]
      exact p1
    · rw [timesPow_le (timesPow_getD r3 j) (timesPow_getD (fixed_times hb hF (hmem l' hl')).1 j)]
      exact p2
  have hlo : ∀ j < t, ∀ lo : B64, (∀ l ∈ d.labels, (lo <=. l.getD j F64.zero) = true) → (lo <=. u.getD j F64.zero) = true := by
    intro j hj lo hl
    obtain ⟨l, hl1, _, _, h1, _⟩ := hB' j hj
    exact LawfulOrder.le_trans (hl l (hmem l hl1)) h1
  have hhi : ∀ j < t, ∀ hi : B64, (∀ l ∈ d.labels, (l.getD j F64.zero <=. hi) = true) → (u.getD j F64.zero <=. hi) = true := by
    intro j hj hi hl
    obtain ⟨_, _, l, hl1, _, h1⟩ := hB' j hj
    exact LawfulOrder.le_trans h1 (hl l (hmem l hl1))
  refine ⟨u, r2, hB', hlo, hhi, ?_, ?_⟩
  · intro j hj x hx
    rw [LawfulOrder.eq_iff]
    exact ⟨hhi j hj x (fun l hl => (LawfulOrder.eq_iff.mp (hx l hl)).1), hlo j hj x (fun l hl => (LawfulOrder.eq_iff.mp (hx l hl)).2)⟩
  · intro i hi j hj hij
    obtain ⟨z, hz, hz2⟩ := C124_ranges _ c t b hS.wf hS.ints hs0 cfg hc
    rw [a1] at hz
    have hz := Except.ok.inj hz
    subst hz
    obtain ⟨w, hw, _, _, _, h4⟩ := hz2 row hrow
    have e1 := treePredicts_unique r1 hw
    subst e1
    rw [timesPow_le (timesPow_getD r3 i) (timesPow_getD r3 j)]
    refine h4 i hi j hj ?_
    intro l hl
    obtain ⟨l', hl', rfl⟩ := List.mem_map.mp hl
    have ht' := (fixed_times hb hF hl').1
    rw [← timesPow_le (timesPow_getD ht' i) (timesPow_getD ht' j)]
    exact hij l' hl'

/-- **C125** (trends).  With such labels, if a target never falls (never rises) in the training data when a feature rises, raising this feature of a row,
and nothing else, never lowers (never raises) the prediction for the target. -/
theorem C125_trend (k : ℤ) (hk : |k| ≤ 100) (d : DataSet B64) (c t b : ℕ) (h : d.WF c t) (hn : d.labels.length ≤ 2 ^ 24) (ht : t ≤ 2 ^ 24)
    (hF : FixedLabels k b d.labels) (hs : ExactSums d.labels.length b) (f j : ℕ) (hf : f < c) (hj : j < t) (cfg : TreeConfig)
    (hc : cfg.numberOfClasses = t) :
    ∃ tree, regressionTreeNew d cfg = .ok tree ∧ ∀ x y : List B64, c ≤ x.length → c ≤ y.length → RaisesOnly f x y →
      ∃ u v, treePredicts tree x u ∧ treePredicts tree y v ∧
        (RisesWith d.examples f j → (u.getD j F64.zero <=. v.getD j F64.zero) = true) ∧
        (FallsWith d.examples f j → (v.getD j F64.zero <=. u.getD j F64.zero) = true) := by
  have hb := exactSums_b hs (List.length_pos_of_ne_nil h.labels_ne)
  have hS := stepped h hb hF
  have hs0 : ExactSums (unscaled k d).labels.length b := by simpa [unscaled] using hs
  obtain ⟨t0, t1, a1, a2, a3, a4, a5⟩ := fixed_tree hk h hb hn ht hF hc
  refine ⟨t1, a2, fun x y hx hy hxy => ?_⟩
  obtain ⟨u0, u, r1, r2, r3⟩ := a5 x hx
  obtain ⟨v0, v, s1, s2, s3⟩ := a5 y hy
  obtain ⟨z, hz, hz2⟩ := C124_trend _ c t b hS.wf hS.ints hs0 f j hf hj cfg hc
  rw [a1] at hz
  have hz := Except.ok.inj hz
  subst hz
  obtain ⟨w, w', hw, hw', g1, g2⟩ := hz2 x y hx hy hxy
  have e1 := treePredicts_unique r1 hw
  have e2 := treePredicts_unique s1 hw'
  subst e1 e2
  refine ⟨u, v, r2, s2, fun hR => ?_, fun hR => ?_⟩
  · rw [timesPow_le (timesPow_getD r3 j) (timesPow_getD s3 j)]
    refine g1 ?_
    intro e he e' he' a b ha hb' hab
    rw [unscaled_examples] at he he'
    obtain ⟨x', hx', rfl⟩ := List.mem_map.mp he
    obtain ⟨y', hy', rfl⟩ := List.mem_map.mp he'
    simp only at ha hb' ⊢
    rw [← timesPow_le (timesPow_getD (fixed_times hb hF (examples_snd_mem hx')).1 j) (timesPow_getD (fixed_times hb hF (examples_snd_mem hy')).1 j)]
    exact hR x' hx' y' hy' a b ha hb' hab
  · rw [timesPow_le (timesPow_getD s3 j) (timesPow_getD r3 j)]
    refine g2 ?_
    intro e he e' he' a b ha hb' hab
    rw [unscaled_examples] at he he'
    obtain ⟨x', hx', rfl⟩ := List.mem_map.mp he
    obtain ⟨y', hy', rfl⟩ := List.mem_map.mp he'
    simp only at ha hb' ⊢
    rw [← timesPow_le (timesPow_getD (fixed_times hb hF (examples_snd_mem hy')).1 j) (timesPow_getD (fixed_times hb hF (examples_snd_mem hx')).1 j)]
    exact hR x' hx' y' hy' a b ha hb' hab

/-- a tree that predicts the labels in steps predicts the labels -/
theorem fits_of_steps {k : ℤ} {c t b : ℕ} {d : DataSet B64} (h : d.WF c t) (hb : b ≤ 2 ^ 53) (hF : FixedLabels k b d.labels)
    {t0 t1 : TreeNode B64 (RegressionLeaf B64)}
    (a5 : ∀ row, c ≤ row.length → ∃ a₀ a, treePredicts t0 row a₀ ∧ treePredicts t1 row a ∧ List.Forall₂ (TimesPow k) a₀ a)
    (hfit : ∀ e ∈ (unscaled k d).examples, ∃ leaf dd a, findLeafNodeForData e.1 t0 = .ok leaf ∧ leaf.data = some dd ∧
      calculateAverageVector dd.labels = .ok a ∧ a.map B64.val = e.2.map B64.val) :
    ∀ e ∈ d.examples, ∃ a, treePredicts t1 e.1 a ∧ a.map B64.val = e.2.map B64.val := by
  intro e he
  obtain ⟨u0, u, r1, r2, r3⟩ := a5 e.1 (by rw [h.row_len _ (examples_fst_mem he)])
  have hmem : (e.1, e.2.map (unscaleEntry k)) ∈ (unscaled k d).examples := by
    rw [unscaled_examples]
    exact List.mem_map_of_mem (f := fun e : List B64 × List B64 => (e.1, e.2.map (unscaleEntry k))) he
  obtain ⟨leaf, dd, w, f1, f2, f3, f4⟩ := hfit _ hmem
  have f1' : findLeafNodeForData e.1 t0 = .ok { data := some dd } := by
    rw [f1]
    cases leaf
    simp only at f2
    rw [f2]
  have e1 := treePredicts_unique r1 ⟨dd, f1', f3⟩
  subst e1
  exact ⟨u, r2, timesPow_vals r3 (fixed_times hb hF (examples_snd_mem he)).1 f4⟩

/-- **C125** (deep trees).  With few and small labels of this kind (the bound of C120) that do not contradict each other, a tree with enough levels
predicts exactly the label of every training row. -/
theorem C125_fits (k : ℤ) (hk : |k| ≤ 100) (d : DataSet B64) (c t b : ℕ) (h : d.WF c t) (hn : d.labels.length ≤ 2 ^ 24) (ht : t ≤ 2 ^ 24)
    (hF : FixedLabels k b d.labels) (hf : FewInts d.labels.length t b) (hd : NoContradictions d.exact.featureRows d.exact.labels) (cfg : TreeConfig) (hc : cfg.numberOfClasses = t)
    (hm : d.featureRows.length ≤ cfg.maxLevels + 1) :
    ∃ tree, regressionTreeNew d cfg = .ok tree ∧ ∀ e ∈ d.examples, ∃ a, treePredicts tree e.1 a ∧ a.map B64.val = e.2.map B64.val := by
  have hn0 : 0 < d.labels.length := List.length_pos_of_ne_nil h.labels_ne
  have hb : b ≤ 2 ^ 53 := by
    have h1 : b ^ 2 ≤ d.labels.length ^ 4 * t * (d.labels.length + t) * b ^ 2 :=
      Nat.le_mul_of_pos_left _ (Nat.mul_pos (Nat.mul_pos (Nat.pow_pos hn0) hf.target) (by omega))
    have h2 := hf.size
    have h3 : b ≤ b ^ 2 := Nat.le_self_pow (by norm_num) b
    omega
  have hS := stepped h hb hF
  obtain ⟨t0, t1, a1, a2, a3, a4, a5⟩ := fixed_tree hk h hb hn ht hF hc
  obtain ⟨z, hz, hfit, _⟩ := C120_tree_fits _ c t b hS.wf hS.ints (by simpa [unscaled] using hf) (unscaled_noContra hd) cfg hc hm
  rw [a1] at hz
  have hz := Except.ok.inj hz
  subst hz
  exact ⟨t1, a2, fits_of_steps h hb hF a5 hfit⟩

/-- **C125** (rules).  If one question decides the labels (and the bound of C121 holds), one level is enough for that. -/
theorem C125_rule (k : ℤ) (hk : |k| ≤ 100) (d : DataSet B64) (c t b : ℕ) (h : d.WF c t) (hn : d.labels.length ≤ 2 ^ 24) (ht : t ≤ 2 ^ 24)
    (hF : FixedLabels k b d.labels) (hf : RuleInts d.labels.length t b) (ha : d.exact.TiesAgree c) (q₀ : Question (Ext ℚ))
    (hq : q₀.column < c) (hd : Decides q₀ d.exact.examples) (cfg : TreeConfig) (hc : cfg.numberOfClasses = t) (hm : 1 ≤ cfg.maxLevels) :
    ∃ tree, regressionTreeNew d cfg = .ok tree ∧ ∀ e ∈ d.examples, ∃ a, treePredicts tree e.1 a ∧ a.map B64.val = e.2.map B64.val := by
  have hn0 : 0 < d.labels.length := List.length_pos_of_ne_nil h.labels_ne
  have hb : b ≤ 2 ^ 53 := by
    have h1 : b ^ 2 ≤ d.labels.length * t * (d.labels.length + t) * b ^ 2 :=
      Nat.le_mul_of_pos_left _ (Nat.mul_pos (Nat.mul_pos hn0 hf.target) (by omega))
    have h2 := hf.size
    have h3 : b ≤ b ^ 2 := Nat.le_self_pow (by norm_num) b
    omega
  have hS := stepped h hb hF
  obtain ⟨t0, t1, a1, a2, a3, a4, a5⟩ := fixed_tree hk h hb hn ht hF hc
  obtain ⟨z, hz, hfit, _⟩ := C121_tree_fits _ c t b hS.wf hS.ints (by simpa [unscaled] using hf) (unscaled_ties ha) q₀ hq (unscaled_decides hd) cfg hc hm
  rw [a1] at hz
  have hz := Except.ok.inj hz
  subst hz
  exact ⟨t1, a2, fits_of_steps h hb hF a5 hfit⟩

end

/-! ## a case that meets the hypotheses -/

/-- five rows with labels in steps of a half -/
def halves5 : DataSet B64 :=
  { featureRows := [[b64 0], [b64 0], [b64 (1 / 10)], [b64 2], [b64 2]]
    labels := [[b64 (3 / 2), b64 (-4)], [b64 (5 / 2), b64 0], [b64 (1 / 2), b64 (1 / 2)], [b64 (-7 / 2), b64 1], [b64 (-7 / 2), b64 1]]
    featureColumns := [[b64 0, b64 0, b64 (1 / 10), b64 2, b64 2]] }

-- the hypotheses of C125 on labels and sizes are met by `halves5`
example : ∀ negZero : Bool, let _ := env negZero
    halves5.WF 1 2 ∧ halves5.labels.length ≤ 2 ^ 24 ∧ FixedLabels (-1) 8 halves5.labels ∧ ExactSums halves5.labels.length 8 ∧
      halves5.exact.TiesAgree 1 := by
  intro negZero
  dsimp only
  refine ⟨?_, by decide, ?_, ⟨by decide, by decide⟩, ?_⟩
  · refine @DataSet.WF.mk _ (@instF64B64OfB64Env (env negZero)) _ _ _ ?_ ?_ ?_ ?_ ?_ ?_ ?_ <;> revert negZero <;> decide +kernel
  · have : ∀ l ∈ halves5.labels, l.map B64.val = [.fin (3 / 2), .fin (-4)] ∨ l.map B64.val = [.fin (5 / 2), .fin 0] ∨
        l.map B64.val = [.fin (1 / 2), .fin (1 / 2)] ∨ l.map B64.val = [.fin (-7 / 2), .fin 1] := by decide +kernel
    intro l hl
    rcases this l hl with h | h | h | h
    · exact ⟨[3, -8], by rw [h]; norm_num, by decide⟩
    · exact ⟨[5, 0], by rw [h]; norm_num, by decide⟩
    · exact ⟨[1, 1], by rw [h]; norm_num, by decide⟩
    · exact ⟨[-7, 2], by rw [h]; norm_num, by decide⟩
  · rw [DataSet.TiesAgree]
    decide +kernel

-- the predictions, rounded averages among them
example : ∀ negZero : Bool, let _ := env negZero
    predictedTargets halves5 (exCfg 2) 0 [[b64 (-3)], [b64 2]] = .ok [.fin (3 / 2), .fin (-7 / 2)] ∧
    predictedTargets halves5 (exCfg 2) 1 [[b64 (-3)], [b64 2]] = .ok [(b64 (-7 / 6)).val, .fin 1] := by decide +kernel

-- two rows with the labels 1/2 and 3/4, of which the feature decides: the further hypotheses of the statements on deep trees and rules
example : FewInts 2 1 3 ∧ RuleInts 2 1 3 := ⟨⟨by decide, by decide, by decide⟩, ⟨by decide, by decide, by decide⟩⟩
/-- two rows with the labels 1/2 and 3/4 -/
def quarters2 : DataSet B64 :=
  { featureRows := [[b64 1], [b64 7]], labels := [[b64 (1 / 2)], [b64 (3 / 4)]], featureColumns := [[b64 1, b64 7]] }

example : ∀ negZero : Bool, let _ := env negZero
    NoContradictions quarters2.exact.featureRows quarters2.exact.labels ∧ Decides { column := 0, value := .fin 7 } quarters2.exact.examples ∧
      predictedTargets quarters2 (exCfg 1) 0 [[b64 1], [b64 7]] = .ok [.fin (1 / 2), .fin (3 / 4)] := by
  intro negZero
  refine ⟨?_, ?_, by revert negZero; decide +kernel⟩
  · have key : ∀ e ∈ quarters2.exact.featureRows.zip quarters2.exact.labels, ∀ e' ∈ quarters2.exact.featureRows.zip quarters2.exact.labels,
        (List.zipWith (fun x y => x ==. y) e.1 e'.1).all id = true → e.2 = e'.2 := by decide +kernel
    intro e he e' he' hs
    refine key e he e' he' ?_
    rw [List.all_eq_true]
    intro x hx
    obtain ⟨i, hi, rfl⟩ := List.getElem_of_mem hx
    rw [List.getElem_zipWith]
    simp only [List.length_zipWith, lt_min_iff] at hi
    exact hs i _ _ (List.getElem?_eq_getElem hi.1) (List.getElem?_eq_getElem hi.2)
  · rw [Decides]
    decide +kernel

end Verif
