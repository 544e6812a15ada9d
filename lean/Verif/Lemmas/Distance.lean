import Verif.Spec.Distance
import Verif.Lemmas.Relabel
/-! # Label vectors with proportional distances: the same questions -/

set_option linter.unusedSectionVars false

namespace Verif

variable {K : Type} [Field K] [LinearOrder K] [IsStrictOrderedRing K] [FloorSemiring K] [HasExp K] {L L' : Type}

theorem sqDist_eq {t : Nat} {v w : List K} (hv : v.length = t) (hw : w.length = t) :
    sqDist v w = ((List.range t).map (fun j => (v.getD j 0 - w.getD j 0) ^ 2)).sum := by
  rw [sqDist, zipWith_getD hv hw 0 0]

/-- the sum of the squared differences of all pairs -/
theorem pairs_sum (xs : List K) :
    (xs.map (fun x => (xs.map (fun y => (x - y) ^ 2)).sum)).sum = 2 * (xs.length : K) ^ 2 * varOf xs := by
  have inner : ∀ (x : K) (ys : List K), (ys.map (fun y => (x - y) ^ 2)).sum =
      ys.length * x ^ 2 - 2 * x * ys.sum + (ys.map (fun y => y ^ 2)).sum := by
    intro x ys
    induction ys with
    | nil => simp
    | cons y ys ih => simp only [List.map_cons, List.sum_cons, ih, List.length_cons]; push_cast; ring
  have outer : ∀ (n s q : K) (ys : List K), (ys.map (fun x => n * x ^ 2 - 2 * x * s + q)).sum =
      n * (ys.map (fun y => y ^ 2)).sum - 2 * s * ys.sum + ys.length * q := by
    intro n s q ys
    induction ys with
    | nil => simp
    | cons y ys ih => simp only [List.map_cons, List.sum_cons, ih, List.length_cons]; push_cast; ring
  have hdev : ∀ (a : K) (ys : List K), sqDev a ys = (ys.map (fun y => y ^ 2)).sum - 2 * a * ys.sum + ys.length * a ^ 2 := by
    intro a ys
    induction ys with
    | nil => simp [sqDev]
    | cons y ys ih =>
      simp only [sqDev, List.map_cons, List.sum_cons, List.length_cons] at ih ⊢
      rw [ih]; push_cast; ring
  simp only [inner, outer]
  rcases eq_or_ne xs [] with rfl | hne
  · simp
  · have h0 := length_cast_ne (K := K) hne
    rw [varOf, hdev, meanOf]
    field_simp
    ring

theorem sum_swap {α β : Type} (xs : List α) (ys : List β) (f : α → β → K) :
    (xs.map (fun x => (ys.map (fun y => f x y)).sum)).sum = (ys.map (fun y => (xs.map (fun x => f x y)).sum)).sum := by
  induction xs with
  | nil => simp
  | cons x xs ih => simp only [List.map_cons, List.sum_cons, ih, List.sum_map_add]

/-- the variance of a list of vectors in terms of the distances of its pairs -/
theorem totalVar_pairs {t : Nat} {vs : List (List K)} (hv : ∀ v ∈ vs, v.length = t) :
    (vs.map (fun v => (vs.map (fun w => sqDist v w)).sum)).sum = 2 * (vs.length : K) ^ 2 * totalVar t vs := by
  have h1 : vs.map (fun v => (vs.map (fun w => sqDist v w)).sum) =
      vs.map (fun v => ((List.range t).map (fun j => (vs.map (fun w => (v.getD j 0 - w.getD j 0) ^ 2)).sum)).sum) := by
    apply List.map_congr_left
    intro v hvm
    rw [← sum_swap]
    congr 1
    apply List.map_congr_left
    intro w hwm
    exact sqDist_eq (hv v hvm) (hv w hwm)
  rw [h1, sum_swap, totalVar, ← List.sum_map_mul_left]
  congr 1
  apply List.map_congr_left
  intro j _
  have h2 := pairs_sum (target vs j)
  have h3 : (target vs j).length = vs.length := by simp [target]
  rw [h3] at h2
  rw [← h2]
  simp only [target, List.map_map]
  rfl

/-- pairs of label vectors with proportional distances -/
structure Alike (t t' : Nat) (μ : K) (zs : List (List K × List K)) : Prop where
  fst_len : ∀ z ∈ zs, z.1.length = t
  snd_len : ∀ z ∈ zs, z.2.length = t'
  dist : ∀ z ∈ zs, ∀ w ∈ zs, sqDist z.2 w.2 = μ * sqDist z.1 w.1

theorem Alike.subset {t t' : Nat} {μ : K} {zs ys : List (List K × List K)} (h : Alike t t' μ zs) (hs : ∀ y ∈ ys, y ∈ zs) : Alike t t' μ ys :=
  ⟨fun z hz => h.fst_len z (hs z hz), fun z hz => h.snd_len z (hs z hz), fun z hz w hw => h.dist z (hs z hz) w (hs w hw)⟩

theorem Alike.totalVar {t t' : Nat} {μ : K} {zs : List (List K × List K)} (h : Alike t t' μ zs) :
    totalVar t' (zs.map Prod.snd) = μ * totalVar t (zs.map Prod.fst) := by
  rcases eq_or_ne zs [] with rfl | hne
  · simp [Verif.totalVar, target, varOf, sqDev]
  have h0 := length_cast_ne (K := K) hne
  have h1 := totalVar_pairs (t := t) (vs := zs.map Prod.fst) (fun v hv => by
    obtain ⟨z, hz, rfl⟩ := List.mem_map.mp hv
    exact h.fst_len z hz)
  have h2 := totalVar_pairs (t := t') (vs := zs.map Prod.snd) (fun v hv => by
    obtain ⟨z, hz, rfl⟩ := List.mem_map.mp hv
    exact h.snd_len z hz)
  have h3 : ((zs.map Prod.snd).map (fun v => ((zs.map Prod.snd).map (fun w => sqDist v w)).sum)).sum =
      μ * ((zs.map Prod.fst).map (fun v => ((zs.map Prod.fst).map (fun w => sqDist v w)).sum)).sum := by
    simp only [List.map_map]
    rw [← List.sum_map_mul_left]
    congr 1
    apply List.map_congr_left
    intro z hz
    simp only [Function.comp_apply]
    rw [← List.sum_map_mul_left]
    congr 1
    apply List.map_congr_left
    intro w hw
    exact h.dist z hz w hw
  rw [h1, h2, List.length_map, List.length_map] at h3
  have h4 : 2 * (zs.length : K) ^ 2 ≠ 0 := by positivity
  have h5 : 2 * (zs.length : K) ^ 2 * Verif.totalVar t' (zs.map Prod.snd) = 2 * (zs.length : K) ^ 2 * (μ * Verif.totalVar t (zs.map Prod.fst)) := by
    rw [h3]; ring
  exact mul_left_cancel₀ h4 h5

theorem cutReduction_alike {t t' : Nat} {μ : K} {rows : List (List (Ext K))} {zs : List (List K × List K)} (h : Alike t t' μ zs)
    (hlen : zs.length = rows.length) (j r : Nat) :
    cutReduction t' rows (zs.map Prod.snd) j r = μ * cutReduction t rows (zs.map Prod.fst) j r := by
  have hpick : ∀ p : Nat → Bool, ∃ ys : List (List K × List K), (∀ y ∈ ys, y ∈ zs) ∧
      ((List.range rows.length).filter p).map (fun i => (zs.map Prod.fst).getD i []) = ys.map Prod.fst ∧
      ((List.range rows.length).filter p).map (fun i => (zs.map Prod.snd).getD i []) = ys.map Prod.snd := by
    intro p
    refine ⟨((List.range rows.length).filter p).map (fun i => zs.getD i ([], [])), ?_, ?_, ?_⟩
    · intro y hy
      obtain ⟨i, hi, rfl⟩ := List.mem_map.mp hy
      have : i < zs.length := by rw [hlen]; exact List.mem_range.mp (List.mem_filter.mp hi).1
      simp [this]
    all_goals
      rw [List.map_map]
      apply List.map_congr_left
      intro i hi
      have : i < zs.length := by rw [hlen]; exact List.mem_range.mp (List.mem_filter.mp hi).1
      simp [this]
  obtain ⟨ys, y1, y2, y3⟩ := hpick (fun a => comesBefore rows j a r)
  obtain ⟨xs, x1, x2, x3⟩ := hpick (fun a => !comesBefore rows j a r)
  rw [cutReduction, cutReduction, labelsBefore, labelsBefore, labelsFrom, labelsFrom, y2, y3, x2, x3, h.totalVar, (h.subset y1).totalVar,
    (h.subset x1).totalVar]
  simp only [List.length_map]
  ring

theorem reportsBestCut_alike {t t' : Nat} {μ : K} (hμ : 0 < μ) {c : Nat} {rows : List (List (Ext K))} {zs : List (List K × List K)}
    (h : Alike t t' μ zs) (hlen : zs.length = rows.length) {q : Question (Ext K)} {g : K}
    (hs : ReportsBestCut c t rows (zs.map Prod.fst) { question := q, gain := .fin g }) :
    ReportsBestCut c t' rows (zs.map Prod.snd) { question := q, gain := .fin (μ * g) } := by
  obtain ⟨g', h1, h2, h3⟩ := hs
  cases h1
  refine ⟨_, rfl, ?_, ?_⟩
  · intro j r hj hr
    rw [cutReduction_alike h hlen]
    exact mul_le_mul_of_nonneg_left (h2 j r hj hr) hμ.le
  · rcases h3 with ⟨rfl, h4⟩ | ⟨h4, h5, r, h6, h7, h8, h9, h10⟩
    · exact .inl ⟨mul_zero _, h4⟩
    · refine .inr ⟨mul_pos hμ h4, h5, r, h6, h7, ?_, ?_, ?_⟩
      · rw [cutReduction_alike h hlen, ← h8]
      · intro j r' hj hr'
        rw [cutReduction_alike h hlen]
        exact mul_lt_mul_of_pos_left (h9 j r' hj hr') hμ
      · intro r' hr' hb
        rw [cutReduction_alike h hlen]
        exact mul_lt_mul_of_pos_left (h10 r' hr' hb) hμ

/-- labels of another width -/
theorem WF.withLabels {d : DataSet (Ext K)} {c t t' : Nat} (h : d.WF c t) {ls : List (List K)} (hlen : ls.length = d.featureRows.length)
    (hw : ∀ l ∈ ls, l.length = t') : (withLabels d ls).WF c t' := by
  refine ⟨h.rows_ne, h.row_len, ?_, ?_, h.cols, h.no_nan, h.cols_u32⟩
  · simpa [lift_length] using hlen
  · intro l hl
    obtain ⟨v, hv, rfl⟩ := mem_lift.mp hl
    rw [liftV_length]
    exact hw v hv

theorem splitOf_alike {t t' : Nat} {μ : K} (hμ : 0 < μ) {d : DataSet (Ext K)} {c : Nat} (h : d.WF c t) {zs : List (List K × List K)}
    (hz : Alike t t' μ zs) (hls : d.labels = lift (zs.map Prod.fst)) : ∃ g : K, (splitOf d t).gain = .fin g ∧
      splitOf (withLabels d (zs.map Prod.snd)) t' = { question := (splitOf d t).question, gain := .fin (μ * g) } := by
  have h1 := splitOf_cut h hls
  have hlen : zs.length = d.featureRows.length := by rw [← h.label_count, hls, lift_length, List.length_map]
  obtain ⟨g, hg, _⟩ := id h1
  refine ⟨g, hg, ?_⟩
  have h2 : ReportsBestCut c t d.featureRows (zs.map Prod.fst) { question := (splitOf d t).question, gain := .fin g } := by
    rw [← hg]; exact h1
  have hw' : (withLabels d (zs.map Prod.snd)).WF c t' := WF.withLabels h (by simpa using hlen) (by
    intro l hl
    obtain ⟨z, hz', rfl⟩ := List.mem_map.mp hl
    exact hz.snd_len z hz')
  exact reportsBestCut_unique (fun j hj => h.col_nan hj) (splitOf_cut hw' rfl) (reportsBestCut_alike hμ hz hlen h2)

/-- The same questions, hence the same way for every row, and leaves made from the same rows with the corresponding labels. -/
def SameShape (c t t' : Nat) (μ : K) (leafOf : DataSet (Ext K) → L) (leafOf' : DataSet (Ext K) → L')
    (x : TreeNode (Ext K) L) (y : TreeNode (Ext K) L') : Prop :=
  (∀ p, y.questionAt p = x.questionAt p) ∧ (∀ row, y.route row = x.route row) ∧
    ∀ p leaf, x.leafAt p = some leaf → ∃ (dd : DataSet (Ext K)) (zs : List (List K × List K)), dd.WF c t ∧ Alike t t' μ zs ∧
      dd.labels = lift (zs.map Prod.fst) ∧ leaf = leafOf dd ∧ y.leafAt p = some (leafOf' (withLabels dd (zs.map Prod.snd)))

theorem treeOf_alike {t t' : Nat} {μ : K} (hμ : 0 < μ) {leafOf : DataSet (Ext K) → L} {leafOf' : DataSet (Ext K) → L'} {c : Nat} (m : Nat)
    (d : DataSet (Ext K)) (h : d.WF c t) : ∀ zs, Alike t t' μ zs → d.labels = lift (zs.map Prod.fst) →
    SameShape c t t' μ leafOf leafOf' (treeOf leafOf c t m d) (treeOf leafOf' c t' m (withLabels d (zs.map Prod.snd))) := by
  have hz : ∀ (g : K), ((Ext.fin (μ * g) : Ext K) ==. F64.zero) = ((Ext.fin g : Ext K) ==. F64.zero) := by
    intro g
    rw [Ext.zero_def, Ext.fin_eq, Ext.fin_eq]
    congr 1
    simp [hμ.ne']
  have hleaf : ∀ (q q' : Question (Ext K)) (d : DataSet (Ext K)) (zs : List (List K × List K)), d.WF c t → Alike t t' μ zs →
      d.labels = lift (zs.map Prod.fst) → SameShape c t t' μ leafOf leafOf' (TreeNode.leafNode q (leafOf d))
        (TreeNode.leafNode q' (leafOf' (withLabels d (zs.map Prod.snd)))) := by
    intro q q' d zs hw hzs hls
    refine ⟨fun p => by cases p <;> rfl, fun _ => rfl, ?_⟩
    intro p leaf hp
    cases p with
    | nil =>
      cases hp
      exact ⟨d, zs, hw, hzs, hls, rfl, rfl⟩
    | cons x p => cases x <;> cases hp
  refine treeOf_induct (motive := fun m d => ∀ zs, Alike t t' μ zs → d.labels = lift (zs.map Prod.fst) →
    SameShape c t t' μ leafOf leafOf' (treeOf leafOf c t m d) (treeOf leafOf' c t' m (withLabels d (zs.map Prod.snd)))) ?_ ?_ ?_ m d h
  · intro d hw zs hzs hls
    exact hleaf _ _ _ _ hw hzs hls
  · intro m d hw hg zs hzs hls
    obtain ⟨g, h1, h2⟩ := splitOf_alike hμ hw hzs hls
    have hg' : ((splitOf (withLabels d (zs.map Prod.snd)) t').gain ==. F64.zero) = true := by
      rw [h2, hz, ← h1]; exact hg
    rw [treeOf_leaf hg, treeOf_leaf hg']
    exact hleaf _ _ _ _ hw hzs hls
  · intro m d hw hg i1 i2 zs hzs hls
    obtain ⟨g, h1, h2⟩ := splitOf_alike hμ hw hzs hls
    have hg' : ((splitOf (withLabels d (zs.map Prod.snd)) t').gain ==. F64.zero) = false := by
      rw [h2, hz, ← h1]; exact hg
    have hlen : zs.length = d.featureRows.length := by rw [← hw.label_count, hls, lift_length, List.length_map]
    have hr : ∀ p : List (Ext K) → Bool, ∃ ys, Alike t t' μ ys ∧ (d.restrict c p).labels = lift (ys.map Prod.fst) ∧
        (withLabels d (zs.map Prod.snd)).restrict c p = withLabels (d.restrict c p) (ys.map Prod.snd) := by
      intro p
      refine ⟨((d.featureRows.zip zs).filter (fun e => p e.1)).map Prod.snd, hzs.subset ?_, ?_, ?_⟩
      · intro y hy
        obtain ⟨e, he, rfl⟩ := List.mem_map.mp hy
        exact (List.of_mem_zip (List.mem_filter.mp he).1).2
      · simp only [DataSet.restrict, DataSet.examples, hls]
        rw [lift, List.map_map, List.zip_map_right, List.filter_map, List.map_map, lift, List.map_map, List.map_map]
        rfl
      · rcases restrict_withLabels (d := d) (ls := zs.map Prod.snd) (by simpa using hlen) c p with h3 | h3
        · rw [h3, List.zip_map_right, List.filter_map, List.map_map, List.map_map]
          rfl
        · exact absurd hw.label_count h3
    rw [treeOf_node hg, treeOf_node hg', h2]
    dsimp only
    obtain ⟨ms1, z1, a1, b1⟩ := hr (satisfies (splitOf d t).question)
    obtain ⟨ms2, z2, a2, b2⟩ := hr (fun r => !satisfies (splitOf d t).question r)
    rw [b1, b2]
    have k1 := i1 ms1 z1 a1
    have k2 := i2 ms2 z2 a2
    refine ⟨fun p => ?_, fun row => ?_, fun p leaf hp => ?_⟩
    · match p with
      | [] => rfl
      | true :: p => exact k1.1 p
      | false :: p => exact k2.1 p
    · rw [TreeNode.route_new, TreeNode.route_new, k1.2.1 row, k2.2.1 row]
    · match p with
      | [] => cases hp
      | true :: p => exact k1.2.2 p leaf hp
      | false :: p => exact k2.2.2 p leaf hp

/-! ## affine maps -/

section
variable {t t' : Nat} {A : Nat → Nat → K} {b : Nat → K}

theorem affineMap_length (v : List K) : (affineMap t t' A b v).length = t' := by simp [affineMap]

theorem target_affine (vs : List (List K)) {i : Nat} (hi : i < t') :
    target (vs.map (affineMap t t' A b)) i = vs.map (fun v => ((List.range t).map (fun j => A i j * v.getD j 0)).sum + b i) := by
  simp only [target, List.map_map]
  apply List.map_congr_left
  intro v _
  simp only [Function.comp_apply, affineMap, getD_range hi]

theorem meanVec_affine {vs : List (List K)} (hne : vs ≠ [] ∨ b = fun _ => 0) :
    meanVec t' (vs.map (affineMap t t' A b)) = affineMap t t' A b (meanVec t vs) := by
  rw [meanVec, affineMap]
  apply List.map_congr_left
  intro i hi
  rw [List.mem_range] at hi
  rw [target_affine vs hi, meanOf, List.length_map, List.sum_map_add, sum_swap]
  have h1 : (List.range t).map (fun j => (vs.map (fun v => A i j * v.getD j 0)).sum) =
      (List.range t).map (fun j => A i j * (target vs j).sum) := by
    apply List.map_congr_left
    intro j _
    rw [List.sum_map_mul_left]; rfl
  have h2 : (List.range t).map (fun j => A i j * (meanVec t vs).getD j 0) =
      (List.range t).map (fun j => A i j * (target vs j).sum * (1 / (vs.length : K))) := by
    apply List.map_congr_left
    intro j hj
    rw [meanVec, getD_range (List.mem_range.mp hj), meanOf]
    have : (target vs j).length = vs.length := by simp [target]
    rw [this]; ring
  rw [h1, h2, List.sum_map_mul_right, add_div, mul_one_div]
  congr 1
  rcases hne with hne | rfl
  · have := length_cast_ne (K := K) hne
    simp only [List.map_const', List.sum_replicate, nsmul_eq_mul]
    field_simp
  · simp

/-- the linear part -/
theorem affineMap_sub {v w : List K} (hv : v.length = t) (hw : w.length = t) :
    List.zipWith (· - ·) (affineMap t t' A b v) (affineMap t t' A b w) = affineMap t t' A (fun _ => 0) (List.zipWith (· - ·) v w) := by
  rw [zipWith_getD (affineMap_length _) (affineMap_length _) 0 0, zipWith_getD hv hw 0 0, affineMap]
  apply List.map_congr_left
  intro i hi
  rw [List.mem_range] at hi
  simp only [affineMap, getD_range hi]
  have : (List.range t).map (fun j => A i j * ((List.range t).map (fun j => v.getD j 0 - w.getD j 0)).getD j 0) =
      (List.range t).map (fun j => A i j * v.getD j 0 + (-1) * (A i j * w.getD j 0)) := by
    apply List.map_congr_left
    intro j hj
    rw [getD_range (List.mem_range.mp hj)]; ring
  rw [this, List.sum_map_add, List.sum_map_mul_left]; ring

theorem affineMap_step {lr : K} {p o : List K} (hp : p.length = t) (ho : o.length = t) :
    List.zipWith (· + ·) (affineMap t t' A b p) ((affineMap t t' A (fun _ => 0) o).map (fun x => lr * x)) =
      affineMap t t' A b (List.zipWith (· + ·) p (o.map (fun x => lr * x))) := by
  rw [zipWith_getD (affineMap_length _) (by simp [affineMap_length]) 0 0, zipWith_getD hp (by rw [List.length_map, ho]) 0 0]
  apply List.map_congr_left
  intro i hi
  rw [List.mem_range] at hi
  have e1 : ((affineMap t t' A (fun _ => 0) o).map (fun x => lr * x)).getD i 0 = lr * ((List.range t).map (fun j => A i j * o.getD j 0)).sum := by
    simp [affineMap, hi]
  have e2 : (List.range t).map (fun j => A i j * ((List.range t).map (fun j => p.getD j 0 + (o.map (fun x => lr * x)).getD j 0)).getD j 0) =
      (List.range t).map (fun j => A i j * p.getD j 0 + lr * (A i j * o.getD j 0)) := by
    apply List.map_congr_left
    intro j hj
    have hj' := List.mem_range.mp hj
    have : (o.map (fun x => lr * x)).getD j 0 = lr * o.getD j 0 := by
      have : j < o.length := by omega
      simp [this]
    rw [getD_range hj', this]; ring
  rw [e1, e2, List.sum_map_add, List.sum_map_mul_left, affineMap, getD_range hi]; ring

/-- a similarity stays one without the translation -/
theorem IsSimilarity.linear {μ : K} (h : IsSimilarity t μ (affineMap t t' A b)) : IsSimilarity t μ (affineMap t t' A (fun _ => 0)) := by
  intro v w hv hw
  rw [← h v w hv hw, sqDist_eq (affineMap_length _) (affineMap_length _), sqDist_eq (affineMap_length _) (affineMap_length _)]
  congr 1
  apply List.map_congr_left
  intro i hi
  rw [List.mem_range] at hi
  simp only [affineMap, getD_range hi]
  ring

theorem IsSimilarity.alike {μ : K} {f : List K → List K} (h : IsSimilarity t μ f) (hf : ∀ v, (f v).length = t') {ls : List (List K)}
    (hl : ∀ l ∈ ls, l.length = t) : Alike t t' μ (ls.map (fun l => (l, f l))) := by
  refine ⟨?_, ?_, ?_⟩
  · intro z hz
    obtain ⟨l, hl', rfl⟩ := List.mem_map.mp hz
    exact hl l hl'
  · intro z hz
    obtain ⟨l, _, rfl⟩ := List.mem_map.mp hz
    exact hf l
  · intro z hz w hw
    obtain ⟨l, hl1, rfl⟩ := List.mem_map.mp hz
    obtain ⟨k, hk1, rfl⟩ := List.mem_map.mp hw
    exact h l k (hl l hl1) (hl k hk1)

end

end Verif
