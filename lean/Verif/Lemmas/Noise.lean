import Verif.Spec.Noise
import Verif.Lemmas.ClearCut
import Verif.Lemmas.FullFit
import Verif.Props.Exact
/-!
# Noise in the labels: lemmas for C94
-/

set_option linter.unusedSectionVars false

namespace Verif

variable {K : Type} [Field K] [LinearOrder K] [IsStrictOrderedRing K] [FloorSemiring K] [HasExp K]

/-- the variance that a cut removes is the variance between the groups -/
theorem between_groups (xs ys : List K) (h : 0 < xs.length + ys.length) :
    varOf (xs ++ ys) - ((xs.length : K) * varOf xs + ys.length * varOf ys) / (xs.length + ys.length) =
      xs.length * ys.length / (xs.length + ys.length) ^ 2 * (meanOf xs - meanOf ys) ^ 2 := by
  have hp : (xs.length : K) + ys.length ≠ 0 := by exact_mod_cast h.ne'
  have hs : ∀ zs : List K, zs.sum = zs.length * meanOf zs := by
    intro zs
    rcases eq_or_ne zs [] with rfl | hz
    · simp
    · rw [meanOf, mul_div_cancel₀ _ (length_cast_ne hz)]
  have hm : meanOf (xs ++ ys) = (xs.length * meanOf xs + ys.length * meanOf ys) / (xs.length + ys.length) := by
    rw [meanOf, List.sum_append, hs xs, hs ys, List.length_append]
    push_cast
    rfl
  rw [length_mul_varOf, length_mul_varOf, varOf, sqDev_append, sqDev_shift _ xs, sqDev_shift _ ys, hm, List.length_append]
  push_cast
  field_simp
  ring

theorem mean_noise {ε : K} (hε : 0 ≤ ε) {xs ys : List K} (h : List.Forall₂ (fun x y => |y - x| ≤ ε) xs ys) :
    |meanOf ys - meanOf xs| ≤ ε := by
  have hl := h.length_eq
  have hsum : |ys.sum - xs.sum| ≤ xs.length * ε := by
    clear hl
    induction h with
    | nil => simp
    | @cons x y xs ys hxy _ ih =>
      rw [List.sum_cons, List.sum_cons, List.length_cons]
      push_cast
      have : y + ys.sum - (x + xs.sum) = (y - x) + (ys.sum - xs.sum) := by ring
      rw [this]
      refine (abs_add_le _ _).trans ?_
      linarith
  rcases Nat.eq_zero_or_pos xs.length with h0 | h0
  · have : xs = [] := List.eq_nil_of_length_eq_zero h0
    have : ys = [] := List.eq_nil_of_length_eq_zero (hl ▸ h0)
    subst_vars
    simpa [meanOf] using hε
  · have hp : (0 : K) < xs.length := by exact_mod_cast h0
    rw [meanOf, meanOf, ← hl, ← sub_div, abs_div, abs_of_pos hp, div_le_iff₀ hp]
    linarith [mul_comm ε (xs.length : K)]

theorem mean_bound {B : K} (hB : 0 ≤ B) {xs : List K} (h : ∀ x ∈ xs, |x| ≤ B) : |meanOf xs| ≤ B := by
  have hsum : |xs.sum| ≤ xs.length * B := by
    induction xs with
    | nil => simp
    | cons x xs ih =>
      rw [List.sum_cons, List.length_cons]
      push_cast
      refine (abs_add_le _ _).trans ?_
      have h1 := h x List.mem_cons_self
      have h2 := ih (fun y hy => h y (List.mem_cons_of_mem _ hy))
      linarith
  rcases Nat.eq_zero_or_pos xs.length with h0 | h0
  · have : xs = [] := List.eq_nil_of_length_eq_zero h0
    subst this
    simpa [meanOf] using hB
  · have hp : (0 : K) < xs.length := by exact_mod_cast h0
    rw [meanOf, abs_div, abs_of_pos hp, div_le_iff₀ hp]
    linarith [mul_comm B (xs.length : K)]

/-- noise changes the variance that a cut removes by at most `2 B ε` per target -/
theorem between_noise {B ε : K} (hB : 0 ≤ B) (hε : 0 ≤ ε) {xs ys xs' ys' : List K} (h : 0 < xs.length + ys.length)
    (hx : List.Forall₂ (fun x y => |y - x| ≤ ε) xs xs') (hy : List.Forall₂ (fun x y => |y - x| ≤ ε) ys ys')
    (bx : ∀ x ∈ xs, |x| ≤ B) (bY : ∀ x ∈ ys, |x| ≤ B) (bx' : ∀ x ∈ xs', |x| ≤ B) (bY' : ∀ x ∈ ys', |x| ≤ B) :
    |(xs'.length * ys'.length / (xs'.length + ys'.length) ^ 2 * (meanOf xs' - meanOf ys') ^ 2 : K) -
      xs.length * ys.length / (xs.length + ys.length) ^ 2 * (meanOf xs - meanOf ys) ^ 2| ≤ 2 * B * ε := by
  rw [← hx.length_eq, ← hy.length_eq, ← mul_sub, abs_mul]
  have hp : (0 : K) < xs.length + ys.length := by exact_mod_cast h
  have hw0 : (0 : K) ≤ xs.length * ys.length / (xs.length + ys.length) ^ 2 := by positivity
  have hw : (xs.length * ys.length / (xs.length + ys.length) ^ 2 : K) ≤ 1 / 4 := by
    rw [div_le_iff₀ (pow_pos hp 2)]
    nlinarith [sq_nonneg ((xs.length : K) - ys.length)]
  rw [abs_of_nonneg hw0]
  have h1 := mean_noise hε hx
  have h2 := mean_noise hε hy
  have b1 := mean_bound hB bx
  have b2 := mean_bound hB bY
  have b3 := mean_bound hB bx'
  have b4 := mean_bound hB bY'
  have hfac : (meanOf xs' - meanOf ys') ^ 2 - (meanOf xs - meanOf ys) ^ 2 =
      ((meanOf xs' - meanOf xs) - (meanOf ys' - meanOf ys)) * ((meanOf xs' - meanOf ys') + (meanOf xs - meanOf ys)) := by ring
  have hd : |(meanOf xs' - meanOf xs) - (meanOf ys' - meanOf ys)| ≤ 2 * ε := by
    refine (abs_sub _ _).trans ?_
    linarith
  have hs : |(meanOf xs' - meanOf ys') + (meanOf xs - meanOf ys)| ≤ 4 * B := by
    refine (abs_add_le _ _).trans ?_
    have := abs_sub (meanOf xs') (meanOf ys')
    have := abs_sub (meanOf xs) (meanOf ys)
    linarith
  rw [hfac, abs_mul]
  have hprod := mul_le_mul hd hs (abs_nonneg _) (by positivity)
  calc _ ≤ 1 / 4 * (2 * ε * (4 * B)) := mul_le_mul hw hprod (by positivity) (by norm_num)
    _ = 2 * B * ε := by ring

theorem target_noise {ε : K} (hε : 0 ≤ ε) {ls ls' : List (List K)} (h : NoiseAtMost ε ls ls') (j : Nat) :
    List.Forall₂ (fun x y => |y - x| ≤ ε) (target ls j) (target ls' j) := by
  induction h with
  | nil => exact .nil
  | @cons l l' ls ls' hl _ ih =>
    refine .cons ?_ ih
    clear ih
    induction hl generalizing j with
    | nil => simpa using hε
    | cons hxy _ ih =>
      cases j with
      | zero => simpa using hxy
      | succ j => simpa using ih j

theorem target_bound {B : K} (hB : 0 ≤ B) {ls : List (List K)} (h : EntriesAtMost B ls) (j : Nat) : ∀ x ∈ target ls j, |x| ≤ B := by
  intro x hx
  obtain ⟨l, hl, rfl⟩ := List.mem_map.mp hx
  rw [List.getD_eq_getElem?_getD]
  cases hj : l[j]? with
  | none => simpa using hB
  | some y => exact h l hl y (List.mem_of_getElem? hj)

/-- the labels of the rows with a property -/
def pick {α : Type} (P : α → Bool) (rows : List α) (ls : List (List K)) : List (List K) :=
  ((rows.zip ls).filter (fun e => P e.1)).map Prod.snd

theorem pick_noise {α : Type} {ε : K} (P : α → Bool) (rows : List α) {ls ls' : List (List K)} (h : NoiseAtMost ε ls ls') :
    NoiseAtMost ε (pick P rows ls) (pick P rows ls') := by
  induction h generalizing rows with
  | nil => simp [pick]; exact .nil
  | cons hl _ ih =>
    cases rows with
    | nil => exact .nil
    | cons r rows =>
      have := ih rows
      simp only [pick, List.zip_cons_cons, List.filter_cons] at this ⊢
      cases hr : P r
      · exact this
      · exact .cons hl this

theorem pick_bound {α : Type} {B : K} (P : α → Bool) (rows : List α) {ls : List (List K)} (h : EntriesAtMost B ls) :
    EntriesAtMost B (pick P rows ls) := by
  intro l hl
  obtain ⟨e, he, rfl⟩ := List.mem_map.mp hl
  exact h _ (List.of_mem_zip (show (e.1, e.2) ∈ _ from (List.mem_filter.mp he).1)).2

theorem pick_lift (P : List (Ext K) → Bool) (rows : List (List (Ext K))) (ls : List (List K)) :
    ((rows.zip (lift ls)).filter (fun e => P e.1)).map Prod.snd = lift (pick P rows ls) := by
  induction rows generalizing ls with
  | nil => rfl
  | cons r rows ih =>
    cases ls with
    | nil => rfl
    | cons l ls =>
      have := ih ls
      simp only [pick, lift, List.map_cons, List.zip_cons_cons, List.filter_cons] at this ⊢
      cases P r
      · exact this
      · simp only [if_true, List.map_cons]
        rw [this]

theorem sum_map_sub' (js : List ℕ) (f g : ℕ → K) : (js.map f).sum - (js.map g).sum = (js.map (fun j => f j - g j)).sum := by
  induction js with
  | nil => simp
  | cons j js ih =>
    simp only [List.map_cons, List.sum_cons, ← ih]
    ring

/-- noise changes the variance that a question removes by at most the tolerance -/
theorem reduction_noise {B ε : K} (hB : 0 ≤ B) (hε : 0 ≤ ε) {rows : List (List (Ext K))} {ls ls' : List (List K)}
    (hlen : ls.length = rows.length) (hne : ls ≠ []) (hn : NoiseAtMost ε ls ls') (b : EntriesAtMost B ls) (b' : EntriesAtMost B ls')
    (t : Nat) (q : Question (Ext K)) :
    |varianceReduction t rows ls' q - varianceReduction t rows ls q| ≤ noiseTolerance t B ε := by
  have hlen' : ls'.length = rows.length := hn.length_eq ▸ hlen
  have key : ∀ ls : List (List K), ls.length = rows.length → ls ≠ [] → varianceReduction t rows ls q = ((List.range t).map (fun j =>
      ((target (noLabels rows ls q) j).length * (target (yesLabels rows ls q) j).length /
        ((target (noLabels rows ls q) j).length + (target (yesLabels rows ls q) j).length) ^ 2 *
        (meanOf (target (noLabels rows ls q) j) - meanOf (target (yesLabels rows ls q) j)) ^ 2 : K))).sum := by
    intro ls h1 h2
    have hp := sides_perm h1 q
    have hpos : 0 < (noLabels rows ls q).length + (yesLabels rows ls q).length := by
      have := hp.length_eq
      rw [List.length_append] at this
      rw [this]
      exact List.length_pos_of_ne_nil h2
    rw [varianceReduction, ← totalVar_perm hp, totalVar, totalVar, totalVar, ← List.sum_map_mul_left, ← List.sum_map_mul_left,
      ← List.sum_map_add, div_eq_mul_inv, ← List.sum_map_mul_right, sum_map_sub']
    congr 1
    apply List.map_congr_left
    intro j _
    have := between_groups (target (noLabels rows ls q) j) (target (yesLabels rows ls q) j) (by simpa only [target_length] using hpos)
    rw [← this, target_append]
    simp only [target_length]
    ring
  have hne' : ls' ≠ [] := by
    intro h0
    have := hn.length_eq
    rw [h0, List.length_nil] at this
    exact hne (List.eq_nil_of_length_eq_zero this)
  rw [key ls hlen hne, key ls' hlen' hne', sum_map_sub']
  have hsum : ∀ (js : List ℕ) (f : ℕ → K) (C : K), (∀ j ∈ js, |f j| ≤ C) → |(js.map f).sum| ≤ js.length * C := by
    intro js f C hf
    induction js with
    | nil => simp
    | cons j js ih =>
      rw [List.map_cons, List.sum_cons, List.length_cons]
      push_cast
      refine (abs_add_le _ _).trans ?_
      have h1 := hf j List.mem_cons_self
      have h2 := ih (fun y hy => hf y (List.mem_cons_of_mem _ hy))
      linarith
  refine (hsum _ _ (2 * B * ε) ?_).trans (le_of_eq ?_)
  · intro j _
    have hpos : 0 < (noLabels rows ls q).length + (yesLabels rows ls q).length := by
      have := (sides_perm hlen q).length_eq
      rw [List.length_append] at this
      rw [this]
      exact List.length_pos_of_ne_nil hne
    refine between_noise hB hε (by simpa only [target_length] using hpos) (target_noise hε ?_ j) (target_noise hε ?_ j) (target_bound hB ?_ j)
      (target_bound hB ?_ j) (target_bound hB ?_ j) (target_bound hB ?_ j)
    · exact pick_noise (fun r => !satisfies q r) rows hn
    · exact pick_noise (fun r => satisfies q r) rows hn
    · exact pick_bound (fun r => !satisfies q r) rows b
    · exact pick_bound (fun r => satisfies q r) rows b
    · exact pick_bound (fun r => !satisfies q r) rows b'
    · exact pick_bound (fun r => satisfies q r) rows b'
  · rw [List.length_range, noiseTolerance]
    ring

/-- a question by a clear margin survives the noise -/
theorem noise_question {d d' : DataSet (Ext K)} {c t : ℕ} (h : d.WF c t) (h' : d'.WF c t) (hrows : d'.featureRows = d.featureRows)
    {ls ls' : List (List K)} (hls : d.labels = lift ls) (hls' : d'.labels = lift ls') {B ε : K} (hB : 0 ≤ B) (hε : 0 ≤ ε)
    (hn : NoiseAtMost ε ls ls') (b : EntriesAtMost B ls) (b' : EntriesAtMost B ls') {q : Question (Ext K)} (hq : q.column < c)
    (hties : ∀ j < c, TiesOnlyAtMinimum (column d.featureRows j))
    (hpos : noiseTolerance t B ε < varianceReduction t d.featureRows ls q)
    (hbest : ∀ q' : Question (Ext K), q'.column < c → (∃ e ∈ d.examples, e.1[q'.column]? = some q'.value) → q' ≠ q →
      varianceReduction t d.featureRows ls q' + 2 * noiseTolerance t B ε < varianceReduction t d.featureRows ls q) :
    ((splitOf d' t).gain ==. F64.zero) = false ∧ (splitOf d' t).question = q := by
  have hlen : ls.length = d.featureRows.length := by rw [← h.label_count, hls, lift_length]
  have hne : ls ≠ [] := by
    rintro rfl
    exact h.rows_ne (List.eq_nil_of_length_eq_zero hlen.symm)
  have hd := fun q => abs_le.mp (reduction_noise hB hε hlen hne hn b b' t q)
  have hs := findBestSplit_ok h'
  have hg : ((splitOf d' t).gain ==. F64.zero) = false := by
    obtain ⟨g, h2, _, _, h3, _⟩ := splitOf_exact h' hls'
    by_contra h0
    rw [Bool.not_eq_false, h2] at h0
    have h0 : g = 0 := by simpa using h0
    have := h3 q hq
    rw [hrows] at this
    have := (hd q).1
    linarith
  refine ⟨hg, ?_⟩
  obtain ⟨_, h3⟩ := C12_optimal_without_ties d' c t h' ls' hls' (by rw [hrows]; exact hties) _ hs hg
  by_contra hne
  obtain ⟨_, hc, ⟨row, hrow, hv⟩, _, _⟩ := splitOf_separates h' hg
  have hex : ∃ e ∈ d.examples, e.1[(splitOf d' t).question.column]? = some (splitOf d' t).question.value := by
    obtain ⟨e, he, hee⟩ : ∃ e ∈ d.examples, e.1 = row := by
      have : d.featureRows = d.examples.map Prod.fst := by
        rw [DataSet.examples, List.map_fst_zip (by rw [h.label_count])]
      rw [hrows, this] at hrow
      obtain ⟨e, he, hee⟩ := List.mem_map.mp hrow
      exact ⟨e, he, hee⟩
    exact ⟨e, he, by rw [hee, hv]⟩
  have a1 := hbest _ hc hex hne
  have a2 := h3 q hq
  rw [hrows] at a2
  have := (hd q).1
  have := (hd (splitOf d' t).question).2
  linarith

theorem restrict_rows (d d' : DataSet (Ext K)) (c : ℕ) (P : List (Ext K) → Bool) (hl : d.labels.length = d.featureRows.length)
    (hl' : d'.labels.length = d'.featureRows.length) (hrows : d'.featureRows = d.featureRows) :
    (d'.restrict c P).featureRows = (d.restrict c P).featureRows := by
  have key : ∀ d : DataSet (Ext K), d.labels.length = d.featureRows.length → (d.restrict c P).featureRows = d.featureRows.filter P := by
    intro d hl
    rw [DataSet.restrict]
    have h1 : d.examples.map Prod.fst = d.featureRows := by rw [DataSet.examples, List.map_fst_zip (by rw [hl])]
    show (d.examples.filter (fun e => P e.1)).map Prod.fst = _
    conv_rhs => rw [← h1, List.filter_map]
    rfl
  rw [key d hl, key d' hl', hrows]

theorem restrict_pick (d : DataSet (Ext K)) (c : ℕ) (P : List (Ext K) → Bool) (ls : List (List K)) (hls : d.labels = lift ls) :
    (d.restrict c P).labels = lift (pick P d.featureRows ls) := by
  rw [← pick_lift, ← hls]
  rfl

section tree
variable {L L' : Type}

/-- a single row has no question -/
theorem single_leaf {d : DataSet (Ext K)} {c t : ℕ} (h : d.WF c t) (h1 : d.featureRows.length = 1) :
    ((splitOf d t).gain ==. F64.zero) = true := by
  by_contra hg
  rw [Bool.not_eq_true] at hg
  obtain ⟨_, _, _, ⟨r1, hr1, hs1⟩, ⟨r2, hr2, hs2⟩⟩ := splitOf_separates h hg
  obtain ⟨r, hr⟩ := List.length_eq_one_iff.mp h1
  rw [hr, List.mem_singleton] at hr1 hr2
  rw [hr1] at hs1
  rw [hr2, hs1] at hs2
  cases hs2

/-- the questions of a clear tree survive the noise -/
theorem treeOf_noise {leafOf : DataSet (Ext K) → L} {leafOf' : DataSet (Ext K) → L'} {c t : ℕ} {B ε : K} (hB : 0 ≤ B) (hε : 0 ≤ ε) (m : ℕ)
    (d d' : DataSet (Ext K)) (h : d.WF c t) (h' : d'.WF c t) (hrows : d'.featureRows = d.featureRows) :
    ∀ ls ls' : List (List K), d.labels = lift ls → d'.labels = lift ls' → NoiseAtMost ε ls ls' → EntriesAtMost B ls → EntriesAtMost B ls' →
    ClearBy (noiseTolerance t B ε) d c t (treeOf leafOf c t m d) →
    (∀ p q, (treeOf leafOf c t m d).questionAt p = some q → (treeOf leafOf' c t m d').questionAt p = some q) ∧
    (FullyGrown d m (treeOf leafOf c t m d) → ∀ p, (treeOf leafOf' c t m d').questionAt p = (treeOf leafOf c t m d).questionAt p) := by
  induction m generalizing d d' with
  | zero =>
    intro ls ls' _ _ _ _ _ _
    refine ⟨fun p q hq => ?_, fun _ p => ?_⟩
    · cases p <;> simp [treeOf, TreeNode.leafNode, TreeNode.questionAt] at hq
    · cases p <;> simp [treeOf, TreeNode.leafNode, TreeNode.questionAt]
  | succ m ih =>
    intro ls ls' hls hls' hn b b' hc
    cases hg : ((splitOf d t).gain ==. F64.zero) with
    | true =>
      refine ⟨fun p q hq => ?_, fun hf p => ?_⟩
      · rw [treeOf_leaf hg] at hq
        cases p <;> simp [TreeNode.leafNode, TreeNode.questionAt] at hq
      · have h1 := hf [] (by simp [TreeNode.subtreeAt]) (by simp [treeOf_leaf hg, TreeNode.leafNode, TreeNode.questionAt]) (by simp)
        rw [reaching_nil, DataSet.examples, List.length_zip, h.label_count, Nat.min_self] at h1
        rw [treeOf_leaf hg, treeOf_leaf (single_leaf h' (by rw [hrows]; exact h1))]
        cases p <;> simp [TreeNode.leafNode, TreeNode.questionAt]
    | false =>
      obtain ⟨l, hl, h1, h2, h3⟩ := hc [] (splitOf d t).question (by simp [treeOf_node hg, TreeNode.new, TreeNode.questionAt])
      rw [reaching_nil] at hl h1 h2 h3
      rw [examples_snd h] at hl
      have hfst : d.examples.map Prod.fst = d.featureRows := by rw [DataSet.examples, List.map_fst_zip (by rw [h.label_count])]
      rw [hfst] at h1 h2 h3
      have : l = ls := lift_injective (hl.symm.trans hls)
      subst this
      obtain ⟨k1, k2⟩ := noise_question h h' hrows hls hls' hB hε hn b b' (splitOf_separates h hg).2.1 h1 h2 h3
      have node := treeOf_node (leafOf := leafOf) (c := c) (m := m) hg
      have node' := treeOf_node (leafOf := leafOf') (c := c) (m := m) k1
      rw [k2] at node'
      have both : ∀ (P : List (Ext K) → Bool) (s : Bool), (d.restrict c P).WF c t → (d'.restrict c P).WF c t →
          (∀ p, reaching d (treeOf leafOf c t (m + 1) d) (s :: p) = reaching (d.restrict c P) (treeOf leafOf c t m (d.restrict c P)) p) →
          (∀ p, (treeOf leafOf c t (m + 1) d).subtreeAt (s :: p) = (treeOf leafOf c t m (d.restrict c P)).subtreeAt p) →
          (∀ p, (treeOf leafOf c t (m + 1) d).questionAt (s :: p) = (treeOf leafOf c t m (d.restrict c P)).questionAt p) →
          (∀ p, (treeOf leafOf' c t (m + 1) d').questionAt (s :: p) = (treeOf leafOf' c t m (d'.restrict c P)).questionAt p) →
          (∀ p q, (treeOf leafOf c t (m + 1) d).questionAt (s :: p) = some q → (treeOf leafOf' c t (m + 1) d').questionAt (s :: p) = some q) ∧
          (FullyGrown d (m + 1) (treeOf leafOf c t (m + 1) d) →
            ∀ p, (treeOf leafOf' c t (m + 1) d').questionAt (s :: p) = (treeOf leafOf c t (m + 1) d).questionAt (s :: p)) := by
        intro P s hw hw' hr hs hq hq'
        obtain ⟨i1, i2⟩ := ih (d.restrict c P) (d'.restrict c P) hw hw' (restrict_rows d d' c P h.label_count h'.label_count hrows)
          (pick P d.featureRows l) (pick P d.featureRows ls') (restrict_pick d c P l hls)
          (by rw [restrict_pick d' c P ls' hls', hrows]) (pick_noise P _ hn) (pick_bound P _ b) (pick_bound P _ b') (by
            intro p q hpq
            have := hc (s :: p) q (by rw [hq]; exact hpq)
            rw [hr] at this
            exact this)
        refine ⟨fun p q hpq => ?_, fun hf p => ?_⟩
        · rw [hq'] ; rw [hq] at hpq; exact i1 p q hpq
        · rw [hq, hq']
          refine i2 ?_ p
          intro p a1 a2 a3
          rw [← hr]
          exact hf (s :: p) (by rw [hs]; exact a1) (by rw [hq]; exact a2) (by simpa using a3)
      have t1 := both _ true (split_true_wf h hg) (k2 ▸ split_true_wf h' k1) (fun p => by rw [node, reaching_true _ c]) (fun p => by rw [node]; rfl)
        (fun p => by rw [node]; rfl) (fun p => by rw [node']; rfl)
      have t2 := both _ false (split_false_wf h hg) (k2 ▸ split_false_wf h' k1) (fun p => by rw [node, reaching_false _ c])
        (fun p => by rw [node]; rfl) (fun p => by rw [node]; rfl) (fun p => by rw [node']; rfl)
      have r0 : (treeOf leafOf c t (m + 1) d).questionAt [] = some (splitOf d t).question := by rw [node]; simp [TreeNode.new, TreeNode.questionAt]
      have r0' : (treeOf leafOf' c t (m + 1) d').questionAt [] = some (splitOf d t).question := by
        rw [node']; simp [TreeNode.new, TreeNode.questionAt]
      refine ⟨fun p q hq => ?_, fun hf p => ?_⟩
      · match p with
        | [] => rw [r0']; rw [r0] at hq; exact hq
        | true :: p => exact t1.1 p q hq
        | false :: p => exact t2.1 p q hq
      · match p with
        | [] => rw [r0, r0']
        | true :: p => exact t1.2 hf p
        | false :: p => exact t2.2 hf p

/-- trees with the same questions send a row the same way -/
theorem route_of_questions {F : Type} [F64 F] {tree : TreeNode F L} {tree' : TreeNode F L'} (hp : tree.Proper) (hp' : tree'.Proper)
    (h : ∀ p, tree'.questionAt p = tree.questionAt p) (row : List F) : tree'.route row = tree.route row := by
  induction hp generalizing tree' with
  | leaf q l =>
    cases hp' with
    | leaf => rfl
    | node => exact absurd (h []) (by simp [TreeNode.questionAt])
  | node q a b ha hb iha ihb =>
    cases hp' with
    | leaf => exact absurd (h []) (by simp [TreeNode.questionAt])
    | node q' a' b' ha' hb' =>
      have hq : q' = q := by simpa [TreeNode.questionAt] using h []
      subst hq
      simp only [TreeNode.route]
      rw [iha ha' (fun p => h (true :: p)), ihb hb' (fun p => h (false :: p))]

end tree

end Verif
