import Verif.Props.SingleRow
import Verif.Lemmas.Twin
/-!
# C88: ensembles trained on a single row
-/

set_option linter.unusedSectionVars false

namespace Verif

open Sample

variable {F : Type} [F64 F] {L : Type}

/-! ## What a first iteration needs -/

/-- residuals are as wide as the labels -/
theorem residuals_width {s : TrainingData F} {r : List (List F)} {t : Nat} (ht : ∀ l ∈ s.data.labels, l.length = t) {f : List F → List F}
    (h : ((List.range s.size).mapM (fun i => do
      let trueLabel ← idx s.data.labels i
      let currentLabel ← idx s.mutableLabels i
      subtractSlices trueLabel (f currentLabel))) = .ok r) : ∀ l ∈ r, l.length = t := by
  intro l hl
  obtain ⟨j, hj, rfl⟩ := List.getElem_of_mem hl
  have hjr : j < (List.range s.size).length := by rw [← mapM_length h]; exact hj
  obtain ⟨b, hb, hi⟩ := mapM_get h (List.getElem?_eq_getElem hjr)
  rw [List.getElem?_eq_getElem hj] at hb
  cases hb
  simp only [R.bind_eq_ok] at hi
  obtain ⟨a, h1, b, h2, h3⟩ := hi
  have ha := ht a (List.mem_of_getElem? (idx_eq_ok.mp h1))
  unfold subtractSlices at h3
  rw [R.bind_eq_ok] at h3
  obtain ⟨_, h4, h5⟩ := h3
  have hlen := assertEq_eq_ok.mp h4
  rw [← Except.ok.inj h5]
  simp [← hlen, ha]

theorem loop_needs {res : TrainingData F → R (List (List F))} {fit : DataSet F → R (TreeNode F L)}
    {upd : TrainingData F → TreeNode F L → R (TrainingData F)} {out : List F → TreeNode F L → R (List F)} {d : DataSet F} {c t k : Nat}
    (h : d.Tables c t) (hc : 0 < c) {g : List F} {lr : F} (hu : UpdateAdds upd out lr g.length)
    (hres : ∀ s r, (∀ l ∈ s.data.labels, l.length = t) → res s = .ok r → r.length = s.size ∧ ∀ l ∈ r, l.length = t)
    (hfit : ∀ e tree, fit e = .ok tree → ∃ s, findBestSplit e k = .ok s)
    {n : Nat} (hn : 0 < n) {s : TrainingData F × List (TreeNode F L)} (hl : boostLoop res fit upd n (startState d g) = .ok s) :
    0 < d.featureRows.length ∧ d.labels.length = d.featureRows.length ∧ k = t ∧ (2 ≤ d.featureRows.length → d.NoNaN) := by
  obtain ⟨s1, h1, _⟩ := boostLoop_prefix (n := 1) hn hl
  rw [boostLoop_succ, R.bind_eq_ok] at h1
  obtain ⟨s0, h0, h2⟩ := h1
  cases h0
  obtain ⟨r, tree, t', h3, h4, h5, _⟩ := boostStep_inv h2
  obtain ⟨_, _, _, h6⟩ := hu _ _ _ (by simp [startState]) (by simp [startState]) h5
  obtain ⟨sp, h7⟩ := hfit _ _ h4
  obtain ⟨h8, h9⟩ := hres _ _ h.label_len h3
  have hT : ({ d with labels := r } : DataSet F).Tables c t := ⟨h.row_len, h9, h.cols, h.cols_u32⟩
  obtain ⟨k1, k2, k3, k4⟩ := split_accepts hT hc h7
  simp only [startState] at h6 h8 k1 k2 k4
  rw [h8] at k2
  refine ⟨k1, ?_, k3, k4⟩
  obtain ⟨row, _, _, h11, _⟩ := h6 (d.labels.length - 1) (by omega)
  have := (List.getElem?_eq_some_iff.mp h11).1
  omega

theorem fuel_split_at {leafR : DataSet F → R L} {k m : Nat} {e : DataSet F} {tree : TreeNode F L}
    (h : buildFuel leafR k m e = .ok tree) : ∃ s, findBestSplit e k = .ok s := by
  cases m with
  | zero => obtain ⟨s, _, hs, _⟩ := buildFuel_zero h; exact ⟨s, hs⟩
  | succ m => obtain ⟨s, hs, _⟩ := buildFuel_cases h; exact ⟨s, hs⟩

/-! ## Features of a single row do not matter -/

/-- the same training data, with other features -/
def TrainingData.on (s : TrainingData F) (d : DataSet F) : TrainingData F := { s with data := d }

theorem forRange_on {d d' : DataSet F} {body : Nat → TrainingData F → R (TrainingData F)}
    (hb : ∀ i s s', s.data = d → body i s = .ok s' → s'.data = d ∧ body i (s.on d') = .ok (s'.on d')) {n : Nat} {s s' : TrainingData F}
    (hs : s.data = d) (h : forRange n body s = .ok s') : s'.data = d ∧ forRange n body (s.on d') = .ok (s'.on d') := by
  induction n generalizing s' with
  | zero => cases h; exact ⟨hs, rfl⟩
  | succ n ih =>
    rw [forRange_succ, R.bind_eq_ok] at h
    obtain ⟨a, h1, h2⟩ := h
    obtain ⟨h3, h4⟩ := ih h1
    rw [forRange_succ, h4, R.ok_bind]
    exact hb n a s' h3 h2

theorem find_lone (row : List F) (q : Question F) (l : L) : findLeafNodeForData row (.mk q none none (some l)) = .ok l := by
  simp [findLeafNodeForData, unwrap]

theorem idx_rows {d d' : DataSet F} (hlen : d'.featureRows.length = d.featureRows.length) {i : Nat} {row : List F}
    (h : idx d.featureRows i = .ok row) : ∃ row', idx d'.featureRows i = .ok row' := by
  have hi := (List.getElem?_eq_some_iff.mp (idx_eq_ok.mp h)).1
  exact ⟨_, idx_lt (by omega)⟩

theorem grad_update_on {d d' : DataSet F} (hlen : d'.featureRows.length = d.featureRows.length) {s s' : TrainingData F} (hs : s.data = d) {lr : F}
    {q : Question F} {l : GradBoostLeaf F} (h : updateDatasetLabels s (.mk q none none (some l)) lr = .ok s') :
    updateDatasetLabels (s.on d') (.mk q none none (some l)) lr = .ok (s'.on d') := by
  refine (forRange_on (d := d) (d' := d') ?_ hs h).2
  intro i a b ha hb
  simp only [R.bind_eq_ok, find_lone] at hb
  obtain ⟨row, h1, l', h2, o, h3, cur, h4, new, h5, ml, h6, h7⟩ := hb
  cases h2
  cases h7
  obtain ⟨row', h8⟩ := idx_rows hlen (by rw [ha] at h1; exact h1)
  refine ⟨ha, ?_⟩
  simp only [TrainingData.on, find_lone, h8, h3, h4, h5, h6, R.ok_bind]
  rfl

theorem amg_update_on {d d' : DataSet F} (hlen : d'.featureRows.length = d.featureRows.length) {s s' : TrainingData F} (hs : s.data = d) {lr : F}
    {q : Question F} {l : AMGBoostLeaf F} (h : amgUpdateDatasetLabels s (.mk q none none (some l)) lr = .ok s') :
    amgUpdateDatasetLabels (s.on d') (.mk q none none (some l)) lr = .ok (s'.on d') := by
  unfold amgUpdateDatasetLabels at h ⊢
  rw [R.bind_eq_ok] at h
  obtain ⟨v, h0, h⟩ := h
  rw [show (s.on d').mutableLabels = s.mutableLabels from rfl, h0, R.ok_bind]
  refine (forRange_on (d := d) (d' := d') ?_ hs h).2
  intro i a b ha hb
  have hg : ∀ row row' : List F, getWeightedAmgLeafValues row (.mk q none none (some l)) lr (F64.ofNat v.length) =
      getWeightedAmgLeafValues row' (.mk q none none (some l)) lr (F64.ofNat v.length) := fun row row' => by
    simp only [getWeightedAmgLeafValues, find_lone]
  simp only [R.bind_eq_ok] at hb
  obtain ⟨row, h1, w, h2, cur, h4, new, h5, ml, h6, h7⟩ := hb
  cases h7
  obtain ⟨row', h8⟩ := idx_rows hlen (by rw [ha] at h1; exact h1)
  refine ⟨ha, ?_⟩
  simp only [TrainingData.on, h8, R.ok_bind]
  rw [hg row' row, h2, R.ok_bind, h4, R.ok_bind, h5, R.ok_bind, h6]
  rfl

theorem loop_on {res : TrainingData F → R (List (List F))} {fit : DataSet F → R (TreeNode F L)}
    {upd : TrainingData F → TreeNode F L → R (TrainingData F)} {out : List F → TreeNode F L → R (List F)} {d d' : DataSet F} {g : List F} {lr : F}
    (hlabels : d'.labels = d.labels) (hu : UpdateAdds upd out lr g.length) (hres : LabelsOnly res)
    (hfit : ∀ s r tree, Tracks out d g lr s → res s.1 = .ok r → fit { d with labels := r } = .ok tree →
      fit { d' with labels := r } = .ok tree ∧ ∃ q l, tree = .mk q none none (some l))
    (hupd : ∀ s s' q l, s.data = d → upd s (.mk q none none (some l)) = .ok s' → upd (s.on d') (.mk q none none (some l)) = .ok (s'.on d'))
    {n : Nat} {s : TrainingData F × List (TreeNode F L)} (h : boostLoop res fit upd n (startState d g) = .ok s) :
    boostLoop res fit upd n (startState d' g) = .ok (s.1.on d', s.2) := by
  induction n generalizing s with
  | zero =>
    cases h
    simp only [startState, TrainingData.on, boostLoop, hlabels]
    rfl
  | succ n ih =>
    rw [boostLoop_succ, R.bind_eq_ok] at h
    obtain ⟨a, h1, h2⟩ := h
    have ht : Tracks out d g lr a := tracks_loop hu (tracks_start d g lr) h1
    obtain ⟨r, tree, t, e1, e2, e3, rfl⟩ := boostStep_inv h2
    rw [ht.data] at e2
    obtain ⟨e4, q, l, rfl⟩ := hfit a r tree ht e1 e2
    rw [boostLoop_succ, ih h1, R.ok_bind]
    have e5 := hres a.1 (a.1.on d') (by simp [TrainingData.on, hlabels, ht.data]) rfl rfl
    simp only [boostStep]
    rw [e5, e1, R.ok_bind]
    simp only [TrainingData.on] at e4 ⊢
    rw [e4, R.ok_bind]
    have := hupd _ _ _ _ ht.data e3
    simp only [TrainingData.on] at this
    rw [this]
    rfl

/-- one leaf, whatever the row -/
theorem fuel_lone [LawfulOrder F] [LawfulEmpty F] {leafR : DataSet F → R L} {d d' : DataSet F} {c t m : Nat} (h : d.WF c t) (h' : d'.Tables c t)
    (ht : 0 < t) (h1 : d.featureRows.length = 1) (h1' : d'.featureRows.length = 1) (hlabels : d'.labels = d.labels) (hleaf : leafR d' = leafR d)
    {tree : TreeNode F L} (htree : buildFuel leafR t m d = .ok tree) :
    buildFuel leafR t m d' = .ok tree ∧ ∃ q l, tree = .mk q none none (some l) := by
  have hT : d.Tables c t := ⟨h.row_len, h.label_len, h.cols, h.cols_u32⟩
  have hl : ∃ l, leafR d = .ok l := by
    have hf := findBestSplit_single hT h1 h.labels_ne
    rw [splitOf_single hT ht h1] at hf
    cases hd : leafR d with
    | ok l => exact ⟨l, rfl⟩
    | error e =>
      exfalso
      cases m with
      | zero => simp [buildFuel, hf, hd, bind, Except.bind] at htree
      | succ m => simp [buildFuel, hf, hd, LawfulOrder.zero_eq, bind, Except.bind] at htree
  obtain ⟨l, hl⟩ := hl
  have e1 := fuel_single hT ht h1 h.labels_ne m hl
  have e2 := fuel_single h' ht h1' (by rw [hlabels]; exact h.labels_ne) m (leafR := leafR) (l := l) (by rw [hleaf]; exact hl)
  rw [e1] at htree
  cases htree
  exact ⟨e2, _, _, rfl⟩

theorem gradLeafR_labels {k : LeafOutputType} {d d' : DataSet F} (h : d'.labels = d.labels) : gradLeafR k d' = gradLeafR k d := by
  cases k <;> simp only [gradLeafR, LeafOutputType.calculate, calculateLeafOutputSquaredLoss, calculateLeafOutputMultiClassLoss, h]

theorem amgLeafR_labels {k : LeafOutputType} {d d' : DataSet F} (h : d'.labels = d.labels) : amgLeafR k d' = amgLeafR k d := by
  cases k <;> simp only [amgLeafR, LeafOutputType.calculate, calculateLeafOutputSquaredLoss, calculateLeafOutputMultiClassLoss, h]

theorem guess_labels {s s' : TrainingData F} (h : s'.data.labels = s.data.labels) (h2 : s'.mutableLabels = s.mutableLabels) (ty : BoostingEnsembleType) :
    determineInitialGuess s' ty = determineInitialGuess s ty := by
  simp only [determineInitialGuess, h, h2]

/-- one row of zeros -/
def zeroRow (c : Nat) (labels : List (List F)) : DataSet F :=
  { featureRows := [List.replicate c F64.zero], labels := labels, featureColumns := columnsOf [List.replicate c F64.zero] c }

theorem zeroRow_wf [LawfulOrder F] {d : DataSet F} {c t : Nat} (h : d.Tables c t) (hl : d.labels.length = 1) : (zeroRow c d.labels).WF c t :=
  DataSet.Tables.wf ⟨by simp [zeroRow], h.label_len, rfl, h.cols_u32⟩ (by simp [zeroRow]) (by simp [zeroRow, hl]) (by
    intro row hrow x hx
    simp only [zeroRow, List.mem_singleton] at hrow
    subst hrow
    rw [List.eq_of_mem_replicate hx]
    simp [isNaN, LawfulOrder.zero_eq])

section lone
variable {d : DataSet F} {c t : Nat} {cfg : TreeConfig} {n : Nat} {lr : F}

theorem regression_lone [LawfulOrder F] [LawfulEmpty F] (h : d.Tables c t) (ht : 0 < t) (h1 : d.featureRows.length = 1) (hl : d.labels.length = 1)
    (hc : cfg.numberOfClasses = t) : ∃ m, regressionTrain (zeroRow c d.labels) cfg n lr = .ok m ∧ regressionTrain d cfg n lr = .ok m := by
  have h0 := zeroRow_wf h hl
  obtain ⟨m, hm, _⟩ := C42_regression _ c t h0 cfg hc n lr
  refine ⟨m, hm, ?_⟩
  obtain ⟨f, e1⟩ := train_inv hm
  obtain ⟨e2, e3, e4⟩ := boostingLoop_inv e1
  have hgl : m.initialGuess.length = t := by
    rw [determineInitialGuess_regression h0] at e2
    rw [← Except.ok.inj e2]
    exact avgVec_length h0.label_len
  simp only [regressionLoop_eq] at e4
  have key := loop_on (d := zeroRow c d.labels) (d' := d) rfl (grad_updateAdds lr _) regression_labelsOnly (fun s r tree hs hr hfit => by
    rw [regressionResiduals_ok h0 hgl hs] at hr
    have hr := (Except.ok.inj hr).symm
    subst hr
    have hw := residuals_wf h0 (f := List.zipWith F64.sub) hs.len (fun l v hl hv => by simp [h0.label_len l hl, hs.width v hv, hgl])
    rw [gradBoostTreeNew_fuel, hc] at hfit ⊢
    exact fuel_lone (d' := { d with labels := List.zipWith (List.zipWith F64.sub) (zeroRow c d.labels).labels s.1.mutableLabels }) hw ⟨h.row_len, hw.label_len, h.cols, h.cols_u32⟩ ht (by simp [zeroRow]) h1 rfl (gradLeafR_labels rfl) hfit)
    (fun s s' q l hs hu => grad_update_on (d := zeroRow c d.labels) (by rw [h1]; simp [zeroRow]) hs hu) e4
  have hfull := boostingLoop_mk (d := d) (ex := { ensembleType := .regressionBoost, loopExecutor := regressionLoop }) (n := n) (cfg := cfg) (lr := lr)
    (g := m.initialGuess) (by rw [← e2]; exact guess_labels rfl rfl _) key
  have := train_of_full hfull
  rw [← e3] at this
  rw [← e3]
  exact this

theorem multiClass_lone [LawfulOrder F] [LawfulEmpty F] [LawfulCount F] (h : d.Tables c t) (ht : 0 < t) (ht1 : t ≤ 2 ^ 53)
    (h1 : d.featureRows.length = 1) (hl : d.labels.length = 1) (hc : cfg.numberOfClasses = t) :
    ∃ m, multiClassTrain (zeroRow c d.labels) cfg n lr = .ok m ∧ multiClassTrain d cfg n lr = .ok m := by
  have h0 := zeroRow_wf h hl
  obtain ⟨m, hm, _⟩ := C42_multiClass _ c t h0 ht ht1 cfg hc n lr
  refine ⟨m, hm, ?_⟩
  obtain ⟨f, e1⟩ := train_inv hm
  obtain ⟨e2, e3, e4⟩ := boostingLoop_inv e1
  have hgl : m.initialGuess.length = t := by
    rw [determineInitialGuess_class h0 ht1 (by simp)] at e2
    rw [← Except.ok.inj e2]
    simp
  simp only [multiClassLoop_eq] at e4
  have key := loop_on (d := zeroRow c d.labels) (d' := d) rfl (grad_updateAdds lr _) multiClass_labelsOnly (fun s r tree hs hr hfit => by
    rw [multiClassResiduals_ok h0 hgl hs] at hr
    have hr := (Except.ok.inj hr).symm
    subst hr
    have hw := residuals_wf h0 (f := fun l v => List.zipWith F64.sub l (calculateProbabilities v)) hs.len (fun l v hl hv => by
      simp [h0.label_len l hl, hs.width v hv, hgl, calculateProbabilities_length])
    rw [gradBoostTreeNew_fuel, hc] at hfit ⊢
    exact fuel_lone (d' := { d with labels := List.zipWith (fun l v => List.zipWith F64.sub l (calculateProbabilities v)) (zeroRow c d.labels).labels s.1.mutableLabels }) hw ⟨h.row_len, hw.label_len, h.cols, h.cols_u32⟩ ht (by simp [zeroRow]) h1 rfl (gradLeafR_labels rfl) hfit)
    (fun s s' q l hs hu => grad_update_on (d := zeroRow c d.labels) (by rw [h1]; simp [zeroRow]) hs hu) e4
  have hfull := boostingLoop_mk (d := d) (ex := { ensembleType := .multiClassBoost, loopExecutor := multiClassLoop }) (n := n) (cfg := cfg) (lr := lr)
    (g := m.initialGuess) (by rw [← e2]; exact guess_labels rfl rfl _) key
  have := train_of_full hfull
  rw [← e3] at this
  rw [← e3]
  exact this

theorem amg_lone [LawfulOrder F] [LawfulEmpty F] [LawfulCount F] (h : d.Tables c t) (ht : 0 < t) (ht1 : t ≤ 2 ^ 53)
    (h1 : d.featureRows.length = 1) (hl : d.labels.length = 1) (hc : cfg.numberOfClasses = t) :
    ∃ m, amgTrain (zeroRow c d.labels) cfg n lr = .ok m ∧ amgTrain d cfg n lr = .ok m := by
  have h0 := zeroRow_wf h hl
  obtain ⟨m, hm, _⟩ := C42_amg _ c t h0 ht ht1 cfg hc n lr
  refine ⟨m, hm, ?_⟩
  obtain ⟨f, e1⟩ := train_inv hm
  obtain ⟨e2, e3, e4⟩ := boostingLoop_inv e1
  have hgl : m.initialGuess.length = t := by
    rw [determineInitialGuess_class h0 ht1 (by simp)] at e2
    rw [← Except.ok.inj e2]
    simp
  simp only [amgLoop_eq] at e4
  have key := loop_on (d := zeroRow c d.labels) (d' := d) rfl (amg_updateAdds lr _) multiClass_labelsOnly (fun s r tree hs hr hfit => by
    rw [multiClassResiduals_ok h0 hgl hs] at hr
    have hr := (Except.ok.inj hr).symm
    subst hr
    have hw := residuals_wf h0 (f := fun l v => List.zipWith F64.sub l (calculateProbabilities v)) hs.len (fun l v hl hv => by
      simp [h0.label_len l hl, hs.width v hv, hgl, calculateProbabilities_length])
    rw [amgTreeNew_fuel, hc] at hfit ⊢
    exact fuel_lone (d' := { d with labels := List.zipWith (fun l v => List.zipWith F64.sub l (calculateProbabilities v)) (zeroRow c d.labels).labels s.1.mutableLabels }) hw ⟨h.row_len, hw.label_len, h.cols, h.cols_u32⟩ ht (by simp [zeroRow]) h1 rfl (amgLeafR_labels rfl) hfit)
    (fun s s' q l hs hu => amg_update_on (d := zeroRow c d.labels) (by rw [h1]; simp [zeroRow]) hs hu) e4
  have hfull := boostingLoop_mk (d := d) (ex := { ensembleType := .amgBoost, loopExecutor := amgLoop }) (n := n) (cfg := cfg) (lr := lr)
    (g := m.initialGuess) (by rw [← e2]; exact guess_labels rfl rfl _) key
  have := train_of_full hfull
  rw [← e3] at this
  rw [← e3]
  exact this

end lone

/-- **C88** (ensembles, single rows: the features).  Two data sets with one row each and the same single label train to the same ensemble,
whatever the features, NaN included. -/
theorem C88_single_row_features [LawfulOrder F] [LawfulEmpty F] [LawfulCount F] (d d' : DataSet F) (c t : Nat) (h : d.Tables c t) (h' : d'.Tables c t)
    (ht : 0 < t) (ht1 : t ≤ 2 ^ 53) (h1 : d.featureRows.length = 1) (h1' : d'.featureRows.length = 1) (hl : d.labels.length = 1)
    (hlabels : d'.labels = d.labels) (cfg : TreeConfig) (hc : cfg.numberOfClasses = t) (n : Nat) (lr : F) :
    (∃ m, regressionTrain d cfg n lr = .ok m ∧ regressionTrain d' cfg n lr = .ok m) ∧
    (∃ m, multiClassTrain d cfg n lr = .ok m ∧ multiClassTrain d' cfg n lr = .ok m) ∧
    (∃ m, amgTrain d cfg n lr = .ok m ∧ amgTrain d' cfg n lr = .ok m) := by
  refine ⟨?_, ?_, ?_⟩
  · obtain ⟨m, e1, e2⟩ := regression_lone (n := n) (lr := lr) h ht h1 hl hc
    obtain ⟨m', e3, e4⟩ := regression_lone (n := n) (lr := lr) h' ht h1' (by rw [hlabels]; exact hl) hc
    rw [hlabels, e1] at e3
    exact ⟨m, e2, by rw [e4, Except.ok.inj e3]⟩
  · obtain ⟨m, e1, e2⟩ := multiClass_lone (n := n) (lr := lr) h ht ht1 h1 hl hc
    obtain ⟨m', e3, e4⟩ := multiClass_lone (n := n) (lr := lr) h' ht ht1 h1' (by rw [hlabels]; exact hl) hc
    rw [hlabels, e1] at e3
    exact ⟨m, e2, by rw [e4, Except.ok.inj e3]⟩
  · obtain ⟨m, e1, e2⟩ := amg_lone (n := n) (lr := lr) h ht ht1 h1 hl hc
    obtain ⟨m', e3, e4⟩ := amg_lone (n := n) (lr := lr) h' ht ht1 h1' (by rw [hlabels]; exact hl) hc
    rw [hlabels, e1] at e3
    exact ⟨m, e2, by rw [e4, Except.ok.inj e3]⟩

/-- **C88** (ensembles, single rows included).  With at least one target and one or more iterations, training each kind of ensemble returns
if and only if there is a row, there are as many labels as rows, the configured number of targets is the number of label columns and, with
two or more rows, no feature is NaN. -/
theorem C88_ensembles_single_row [LawfulOrder F] [LawfulEmpty F] [LawfulCount F] (d : DataSet F) (c t : Nat) (h : d.Tables c t) (hc : 0 < c)
    (ht : 0 < t) (ht1 : t ≤ 2 ^ 53) (cfg : TreeConfig) (n : Nat) (hn : 0 < n) (lr : F) :
    ((∃ m, regressionTrain d cfg n lr = .ok m) ↔
      0 < d.featureRows.length ∧ d.labels.length = d.featureRows.length ∧ cfg.numberOfClasses = t ∧ (2 ≤ d.featureRows.length → d.NoNaN)) ∧
    ((∃ m, multiClassTrain d cfg n lr = .ok m) ↔
      0 < d.featureRows.length ∧ d.labels.length = d.featureRows.length ∧ cfg.numberOfClasses = t ∧ (2 ≤ d.featureRows.length → d.NoNaN)) ∧
    ((∃ m, amgTrain d cfg n lr = .ok m) ↔
      0 < d.featureRows.length ∧ d.labels.length = d.featureRows.length ∧ cfg.numberOfClasses = t ∧ (2 ≤ d.featureRows.length → d.NoNaN)) := by
  refine ⟨⟨?_, ?_⟩, ⟨?_, ?_⟩, ⟨?_, ?_⟩⟩
  · rintro ⟨m, hm⟩
    obtain ⟨f, h1⟩ := train_inv hm
    obtain ⟨_, _, h2⟩ := boostingLoop_inv h1
    simp only [regressionLoop_eq] at h2
    exact loop_needs h hc (grad_updateAdds lr _) (fun s r hw hr => ⟨regressionResiduals_length s r hr, residuals_width (f := id) hw hr⟩)
      (fun e tree he => by rw [gradBoostTreeNew_fuel] at he; exact fuel_split_at he) hn h2
  · rintro ⟨h1, h2, h3, h4⟩
    rcases Nat.lt_or_ge d.featureRows.length 2 with h5 | h5
    · obtain ⟨m, _, hm⟩ := regression_lone (n := n) (lr := lr) h ht (by omega) (by omega) h3
      exact ⟨m, hm⟩
    · obtain ⟨m, hm, _⟩ := C42_regression d c t (h.wf (List.ne_nil_of_length_pos h1) h2 (h4 h5)) cfg h3 n lr
      exact ⟨m, hm⟩
  · rintro ⟨m, hm⟩
    obtain ⟨f, h1⟩ := train_inv hm
    obtain ⟨_, _, h2⟩ := boostingLoop_inv h1
    simp only [multiClassLoop_eq] at h2
    exact loop_needs h hc (grad_updateAdds lr _) (fun s r hw hr => ⟨multiClassResiduals_length s r hr, residuals_width (f := calculateProbabilities) hw hr⟩)
      (fun e tree he => by rw [gradBoostTreeNew_fuel] at he; exact fuel_split_at he) hn h2
  · rintro ⟨h1, h2, h3, h4⟩
    rcases Nat.lt_or_ge d.featureRows.length 2 with h5 | h5
    · obtain ⟨m, _, hm⟩ := multiClass_lone (n := n) (lr := lr) h ht ht1 (by omega) (by omega) h3
      exact ⟨m, hm⟩
    · obtain ⟨m, hm, _⟩ := C42_multiClass d c t (h.wf (List.ne_nil_of_length_pos h1) h2 (h4 h5)) ht ht1 cfg h3 n lr
      exact ⟨m, hm⟩
  · rintro ⟨m, hm⟩
    obtain ⟨f, h1⟩ := train_inv hm
    obtain ⟨_, _, h2⟩ := boostingLoop_inv h1
    simp only [amgLoop_eq] at h2
    exact loop_needs h hc (amg_updateAdds lr _) (fun s r hw hr => ⟨multiClassResiduals_length s r hr, residuals_width (f := calculateProbabilities) hw hr⟩)
      (fun e tree he => by rw [amgTreeNew_fuel] at he; exact fuel_split_at he) hn h2
  · rintro ⟨h1, h2, h3, h4⟩
    rcases Nat.lt_or_ge d.featureRows.length 2 with h5 | h5
    · obtain ⟨m, _, hm⟩ := amg_lone (n := n) (lr := lr) h ht ht1 (by omega) (by omega) h3
      exact ⟨m, hm⟩
    · obtain ⟨m, hm, _⟩ := C42_amg d c t (h.wf (List.ne_nil_of_length_pos h1) h2 (h4 h5)) ht ht1 cfg h3 n lr
      exact ⟨m, hm⟩

/-- one row with a NaN and one label -/
def lone1 : DataSet E := { featureRows := [[.nan, 1]], labels := [[0, 1]], featureColumns := [[.nan], [1]] }

example : lone1.Tables 2 2 := by
  refine ⟨?_, ?_, ?_, ?_⟩
  · decide +kernel
  · decide +kernel
  · decide +kernel
  · decide
example : ¬ lone1.NoNaN := by
  unfold DataSet.NoNaN
  decide +kernel
example : (do let m ← regressionTrain lone1 (exCfg 2) 2 1; regressionPredict m [5, .nan]) = .ok [0, 1] := by decide +kernel
example : (do let m ← multiClassTrain lone1 (exCfg 2) 2 1; multiClassPredict m [5, .nan]) = .ok [0, 1] := by decide +kernel
example : (do let m ← amgTrain lone1 (exCfg 2) 2 1; amgPredict m [5, .nan]) = .ok [0, 1] := by decide +kernel
-- with a second row the NaN is noticed; a surplus label is noticed too
example : panicOf (regressionTrain ({ lone1 with featureRows := [[.nan, 1], [0, 1]], labels := [[0, 1], [1, 0]], featureColumns := [[.nan, 0], [1, 1]] } :
    DataSet E) (exCfg 2) 2 1) = some .unwrapNone := by decide +kernel
example : panicOf (regressionTrain ({ lone1 with labels := [[0, 1], [1, 0]] } : DataSet E) (exCfg 2) 2 1) = some .index := by decide +kernel

end Verif
