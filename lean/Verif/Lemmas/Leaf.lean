import Verif.Lemmas.Build
import Verif.Spec.Leaf
/-! # Leaf outputs as plain functions of the labels -/

set_option linter.unusedSectionVars false

namespace Verif

variable {F : Type} [F64 F]

/-- component-wise sum, from zero, in order -/
def vecSum (t : Nat) (vs : List (List F)) : List F :=
  vs.foldl (fun a b => List.zipWith F64.add a b) (List.replicate t F64.zero)

/-- component-wise average -/
def avgVec (t : Nat) (vs : List (List F)) : List F :=
  (vecSum t vs).map (fun s => s /. F64.ofNat vs.length)

/-- `|r| (1 - |r|)` -/
def denomTerm (x : F) : F := F64.abs x *. (F64.one -. F64.abs x)

/-- denominator of the multi-class leaf output -/
def denomOf (t : Nat) (vs : List (List F)) : List F := vecSum t (vs.map (fun v => v.map denomTerm))

/-- the multi-class leaf output -/
def multiOut (t : Nat) (vs : List (List F)) : List F :=
  multiplyByScalar ((F64.ofNat t -. F64.one) /. F64.ofNat t) (List.zipWith F64.div (vecSum t vs) (denomOf t vs))

/-- the leaf output -/
def leafOut (k : LeafOutputType) (t : Nat) (vs : List (List F)) : List F :=
  match k with
  | .regression => avgVec t vs
  | .multiClassClassification => multiOut t vs

theorem foldl_zipWith_length {op : F → F → F} {t : Nat} {vs : List (List F)} (h : ∀ v ∈ vs, v.length = t) {a : List F}
    (ha : a.length = t) : (vs.foldl (fun a b => List.zipWith op a b) a).length = t := by
  induction vs generalizing a with
  | nil => exact ha
  | cons v vs ih =>
    rw [List.foldl_cons]
    exact ih (fun w hw => h w (by simp [hw])) (by simp [ha, h v (by simp)])

theorem vecSum_length {t : Nat} {vs : List (List F)} (h : ∀ v ∈ vs, v.length = t) : (vecSum t vs).length = t :=
  foldl_zipWith_length h (by simp)

theorem avgVec_length {t : Nat} {vs : List (List F)} (h : ∀ v ∈ vs, v.length = t) : (avgVec t vs).length = t := by
  simp [avgVec, vecSum_length h]

theorem denomOf_length {t : Nat} {vs : List (List F)} (h : ∀ v ∈ vs, v.length = t) : (denomOf t vs).length = t := by
  refine vecSum_length (fun v hv => ?_)
  obtain ⟨w, hw, rfl⟩ := List.mem_map.mp hv
  simp [h w hw]

theorem multiOut_length {t : Nat} {vs : List (List F)} (h : ∀ v ∈ vs, v.length = t) : (multiOut t vs).length = t := by
  simp [multiOut, multiplyByScalar, vecSum_length h, denomOf_length h]

theorem leafOut_length (k : LeafOutputType) {t : Nat} {vs : List (List F)} (h : ∀ v ∈ vs, v.length = t) :
    (leafOut k t vs).length = t := by
  cases k
  · exact avgVec_length h
  · exact multiOut_length h

theorem foldl_zipWith_range {t : Nat} : ∀ (vs : List (List F)) (a : List F), a.length = t → (∀ v ∈ vs, v.length = t) →
    vs.foldl (fun a b => List.zipWith F64.add a b) a =
    (List.range t).map (fun j => vs.foldl (fun s l => s +. l.getD j F64.zero) (a.getD j F64.zero)) := by
  intro vs
  induction vs with
  | nil =>
    intro a ha _
    apply List.ext_getElem (by simp [ha])
    intro i h1 h2
    simp at h1
    simp [h1]
  | cons v vs ih =>
    intro a ha hv
    have hvl : v.length = t := hv v (by simp)
    rw [List.foldl_cons, ih _ (by simp [ha, hvl]) (fun w hw => hv w (by simp [hw]))]
    apply List.map_congr_left
    intro j hj
    rw [List.mem_range] at hj
    rw [List.foldl_cons]
    congr 1
    simp [ha, hvl, hj]

theorem vecSum_range {t : Nat} {vs : List (List F)} (h : ∀ v ∈ vs, v.length = t) :
    vecSum t vs = (List.range t).map (sumAt vs) := by
  rw [vecSum, foldl_zipWith_range _ _ (by simp) h]
  apply List.map_congr_left
  intro j hj
  rw [List.mem_range] at hj
  simp [hj, sumAt]

theorem avgVec_range {t : Nat} {vs : List (List F)} (h : ∀ v ∈ vs, v.length = t) :
    avgVec t vs = (List.range t).map (averageAt vs) := by
  rw [avgVec, vecSum_range h, List.map_map]; rfl

theorem denomOf_range {t : Nat} {vs : List (List F)} (h : ∀ v ∈ vs, v.length = t) :
    denomOf t vs = (List.range t).map (weightAt vs) := by
  rw [denomOf, vecSum_range (fun v hv => by
    obtain ⟨w, hw, rfl⟩ := List.mem_map.mp hv
    simp [h w hw])]
  apply List.map_congr_left
  intro j hj
  rw [List.mem_range] at hj
  rw [sumAt, weightAt, List.foldl_map]
  have : ∀ (vs : List (List F)) (a : F), (∀ v ∈ vs, v.length = t) →
      vs.foldl (fun s v => s +. (v.map denomTerm).getD j F64.zero) a =
      vs.foldl (fun s v => s +. (F64.abs (v.getD j F64.zero) *. (F64.one -. F64.abs (v.getD j F64.zero)))) a := by
    intro vs
    induction vs with
    | nil => intro _ _; rfl
    | cons v vs ih =>
      intro a hv
      rw [List.foldl_cons, List.foldl_cons, ih _ (fun w hw => hv w (by simp [hw]))]
      have : v.length = t := hv v (by simp)
      simp [this, hj, denomTerm]
  exact this vs _ h

theorem leafOut_eq (k : LeafOutputType) {t : Nat} {vs : List (List F)} (h : ∀ v ∈ vs, v.length = t) :
    leafOut k t vs = leafValue k t vs := by
  cases k
  · exact avgVec_range h
  · simp only [leafOut, multiOut, leafValue, vecSum_range h, denomOf_range h, multiplyByScalar, List.zipWith_map,
      List.zipWith_self, List.map_map]
    rfl

theorem addInner_ok {t i : Nat} {vv : List (List F)} {a : List F} (ha : a.length = t) (hi : i < vv.length)
    (hv : vv[i].length = t) :
    forRange t (fun j average => do
      let cur ← idx average j
      let x ← idx (← idx vv i) j
      setIdx average j (cur +. x)) a = .ok (List.zipWith F64.add a vv[i]) := by
  subst ha
  rw [forRange_update (g := fun j x => x +. (vv[i]).getD j F64.zero)]
  · congr 1
    refine mapIdx_zipWith hv.symm ?_
    intro j x y hx hy
    rw [List.getD_eq_getElem?_getD, hy]
    rfl
  · intro j hj w hw hwj
    have : w[j]? = some a[j] := by rw [hwj, List.getElem?_eq_getElem hj]
    rw [idx_some this, R.ok_bind, idx_lt hi, R.ok_bind, idx_lt (by omega), R.ok_bind, setIdx_lt (by omega),
      getD_of_lt (by omega)]

theorem calculateAverageVector_ok {t : Nat} {vv : List (List F)} (hne : vv ≠ []) (h : ∀ v ∈ vv, v.length = t) :
    calculateAverageVector vv = .ok (avgVec t vv) := by
  obtain ⟨v0, rest, rfl⟩ := List.exists_cons_of_ne_nil hne
  have hv0 : v0.length = t := h v0 (by simp)
  unfold calculateAverageVector
  rw [idx_cons_zero, R.ok_bind]
  simp only [hv0]
  generalize hvv : v0 :: rest = vv at h hne
  have key : ∀ k, k ≤ vv.length → forRange k (fun i average =>
      forRange t (fun j average => do
        let cur ← idx average j
        let x ← idx (← idx vv i) j
        setIdx average j (cur +. x)) average) (List.replicate t F64.zero) = .ok (vecSum t (vv.take k)) := by
    intro k hk
    induction k with
    | zero => simp [vecSum]
    | succ k ih =>
      rw [forRange_succ, ih (by omega), R.ok_bind,
        addInner_ok (vecSum_length (fun v hv => h v (List.mem_of_mem_take hv))) (by omega) (h _ (List.getElem_mem _))]
      congr 1
      simp only [vecSum]
      rw [List.take_add_one, List.getElem?_eq_getElem (by omega), Option.toList_some, List.foldl_append]
      rfl
  rw [key _ (Nat.le_refl _), R.ok_bind, List.take_length]
  have hl : (vecSum t vv).length = t := vecSum_length h
  have := forRange_update (v := vecSum t vv) (g := fun _ x => x /. F64.ofNat vv.length)
    (body := fun j average => do
      let cur ← idx average j
      setIdx average j (cur /. F64.ofNat vv.length)) (by
    intro j hj w hw hwj
    rw [idx_some (by rw [hwj, List.getElem?_eq_getElem hj]), R.ok_bind, setIdx_lt (by omega)])
  rw [hl] at this
  rw [this]
  congr 1
  rw [avgVec, List.mapIdx_eq_zipIdx_map]
  rw [show (fun (x : F × Nat) => x.1 /. F64.ofNat vv.length) = (fun s : F => s /. F64.ofNat vv.length) ∘ Prod.fst from rfl,
    ← List.map_map, List.zipIdx_map_fst]

theorem calculateAverageLabelVector_eq (vv : List (List F)) :
    calculateAverageLabelVector vv = calculateAverageVector vv := rfl

theorem addSlices_ok {a b : List F} (h : a.length = b.length) : addSlices a b = .ok (List.zipWith F64.add a b) := by
  rw [addSlices, h, assertEq_self]
  rfl

theorem subtractSlices_ok {a b : List F} (h : a.length = b.length) : subtractSlices a b = .ok (List.zipWith F64.sub a b) := by
  rw [subtractSlices, h, assertEq_self]
  rfl

theorem foldlM_add_ok {t : Nat} {vs : List (List F)} (h : ∀ v ∈ vs, v.length = t) {a : List F} (ha : a.length = t) :
    vs.foldlM (fun s v => addSlices s v) a = .ok (vs.foldl (fun a b => List.zipWith F64.add a b) a) := by
  induction vs generalizing a with
  | nil => rfl
  | cons v vs ih =>
    rw [foldlM_cons_R, addSlices_ok (by rw [ha, h v (by simp)]), R.ok_bind,
      ih (fun w hw => h w (by simp [hw])) (by simp [ha, h v (by simp)])]
    rfl

theorem sumOfVectors_ok {t : Nat} {vv : List (List F)} (hne : vv ≠ []) (h : ∀ v ∈ vv, v.length = t) :
    sumOfVectors vv = .ok (vecSum t vv) := by
  obtain ⟨v0, rest, rfl⟩ := List.exists_cons_of_ne_nil hne
  unfold sumOfVectors
  rw [idx_cons_zero, R.ok_bind]
  simp only [h v0 (by simp)]
  exact foldlM_add_ok h (by simp)

theorem calculateDenominatorTerm_ok {t : Nat} {vv : List (List F)} (hne : vv ≠ []) (h : ∀ v ∈ vv, v.length = t) :
    calculateDenominatorTerm vv = .ok (denomOf t vv) := by
  obtain ⟨v0, rest, rfl⟩ := List.exists_cons_of_ne_nil hne
  unfold calculateDenominatorTerm
  rw [idx_cons_zero, R.ok_bind]
  simp only [h v0 (by simp)]
  have := foldlM_add_ok (t := t) (vs := (v0 :: rest).map (fun v => v.map denomTerm)) (a := List.replicate t F64.zero)
    (by
      intro v hv
      obtain ⟨w, hw, rfl⟩ := List.mem_map.mp hv
      simp [h w hw]) (by simp)
  rw [List.foldlM_map] at this
  exact this

theorem calculateLeafOutputMultiClassLoss_ok {d : DataSet F} {t : Nat} (hne : d.labels ≠ [])
    (h : ∀ v ∈ d.labels, v.length = t) :
    calculateLeafOutputMultiClassLoss d = .ok (multiOut t d.labels) := by
  unfold calculateLeafOutputMultiClassLoss
  obtain ⟨v0, rest, hd⟩ := List.exists_cons_of_ne_nil hne
  rw [sumOfVectors_ok hne h, R.ok_bind, calculateDenominatorTerm_ok hne h, R.ok_bind, divideSlices, vecSum_length h,
    denomOf_length h, assertEq_self, R.ok_bind, R.pure_eq, R.ok_bind, hd, idx_cons_zero, R.ok_bind, h v0 (by rw [hd]; simp)]
  rw [hd.symm]
  rfl

theorem calculate_ok (k : LeafOutputType) {d : DataSet F} {t : Nat} (hne : d.labels ≠ [])
    (h : ∀ v ∈ d.labels, v.length = t) : k.calculate d = .ok (leafOut k t d.labels) := by
  cases k
  · exact calculateAverageVector_ok hne h
  · exact calculateLeafOutputMultiClassLoss_ok hne h

theorem DataSet.WF.labels_ne {d : DataSet F} {c t : Nat} (h : d.WF c t) : d.labels ≠ [] := by
  intro h0
  have h1 := h.label_count
  rw [h0] at h1
  have h2 := List.length_pos_of_ne_nil h.rows_ne
  simp at h1
  omega

/-- the leaves of the three kinds of trees, as plain functions -/
def regLeaf (d : DataSet F) : RegressionLeaf F := { data := some d }
@[inherit_doc regLeaf] def gradLeaf (k : LeafOutputType) (t : Nat) (d : DataSet F) : GradBoostLeaf F :=
  { leafOutput := some (leafOut k t d.labels) }
@[inherit_doc regLeaf] def amgLeaf (k : LeafOutputType) (t : Nat) (d : DataSet F) : AMGBoostLeaf F :=
  { maxValue := some (findMaxValueAndIndex (leafOut k t d.labels)).1
    cls := some (findMaxValueAndIndex (leafOut k t d.labels)).2 }

theorem gradLeafR_ok (k : LeafOutputType) {d : DataSet F} {c t : Nat} (h : d.WF c t) :
    gradLeafR k d = .ok (gradLeaf k t d) := by
  simp [gradLeafR, calculate_ok k h.labels_ne h.label_len, gradLeaf]

theorem amgLeafR_ok (k : LeafOutputType) {d : DataSet F} {c t : Nat} (h : d.WF c t) :
    amgLeafR k d = .ok (amgLeaf k t d) := by
  simp [amgLeafR, calculate_ok k h.labels_ne h.label_len, amgLeaf]

section
variable [LawfulOrder F]

theorem regressionTreeNew_ok {d : DataSet F} {c t : Nat} (h : d.WF c t) {cfg : TreeConfig} (ht : cfg.numberOfClasses = t) :
    regressionTreeNew d cfg = .ok (treeOf regLeaf c t cfg.maxLevels d) := by
  rw [regressionTreeNew_fuel, ht]
  exact buildFuel_ok (fun _ _ => rfl) _ h

theorem gradBoostTreeNew_ok {d : DataSet F} {c t : Nat} (h : d.WF c t) {cfg : TreeConfig} (ht : cfg.numberOfClasses = t)
    (k : LeafOutputType) :
    gradBoostTreeNew d cfg k = .ok (treeOf (gradLeaf k t) c t cfg.maxLevels d) := by
  rw [gradBoostTreeNew_fuel, ht]
  exact buildFuel_ok (fun _ hd => gradLeafR_ok k hd) _ h

theorem amgTreeNew_ok {d : DataSet F} {c t : Nat} (h : d.WF c t) {cfg : TreeConfig} (ht : cfg.numberOfClasses = t)
    (k : LeafOutputType) :
    amgTreeNew d cfg k = .ok (treeOf (amgLeaf k t) c t cfg.maxLevels d) := by
  rw [amgTreeNew_fuel, ht]
  exact buildFuel_ok (fun _ hd => amgLeafR_ok k hd) _ h

end

end Verif
