import Verif.Lemmas.TreeFacts
import Verif.Model.Boost
import Verif.Spec.Score
import Mathlib.Data.List.Induction
/-!
# Lemmas about counting classes, maxima, accuracy and mean squared errors
-/

set_option linter.unusedSectionVars false
set_option linter.unusedSimpArgs false

namespace Verif

variable {F : Type} [F64 F]

/-! ## class counts -/

/-- does entry `k` of the label equal 1? -/
def isOneAt (l : List F) (k : Nat) : Bool := match l[k]? with | some x => x ==. F64.one | none => false

theorem classCount_eq (labels : List (List F)) (k : Nat) : classCount labels k = labels.countP (fun l => isOneAt l k) := rfl

theorem countInner_ok {l : List F} {n B : Nat} (hl : l.length = n) {counts : List Nat} (hc : counts.length = n)
    (hB : ∀ x ∈ counts, x ≤ B) (hB2 : B + 1 < 2 ^ 32) :
    forRange l.length (fun i counts => do
      if (← idx l i) ==. F64.one then
        let c ← idx counts i
        setIdx counts i (← incrU32 c)
      else pure counts) counts = .ok (counts.mapIdx (fun i c => if isOneAt l i then c + 1 else c)) := by
  rw [hl, ← hc]
  refine forRange_update (g := fun i c => if isOneAt l i then c + 1 else c) ?_
  intro i hi w hw hwi
  have hil : i < l.length := by omega
  have hiw : i < w.length := by omega
  have hval : w[i] = counts[i] := by
    have := hwi
    rw [List.getElem?_eq_getElem hiw, List.getElem?_eq_getElem hi] at this
    exact Option.some.inj this
  have h1 : isOneAt l i = (l[i] ==. F64.one) := by simp [isOneAt, List.getElem?_eq_getElem hil]
  have hle : counts[i] ≤ B := hB _ (List.getElem_mem hi)
  rw [idx_lt hil, h1]
  simp only [bind, Except.bind]
  split
  · rw [idx_lt hiw, hval]
    simp only [incrU32]
    rw [if_pos (by omega)]
    exact setIdx_lt hiw
  · rw [← hval]; simp [pure, Except.pure]

theorem getClassCounts_ok {labels : List (List F)} {n : Nat} (h : ∀ l ∈ labels, l.length = n) (hB : labels.length < 2 ^ 32) :
    getClassCounts labels n = .ok ((List.range n).map (classCount labels)) := by
  have key : ∀ (done rest : List (List F)), (∀ l ∈ rest, l.length = n) → done.length + rest.length < 2 ^ 32 →
      rest.foldlM (fun counts labelVector =>
        forRange labelVector.length (fun i counts => do
          if (← idx labelVector i) ==. F64.one then
            let c ← idx counts i
            setIdx counts i (← incrU32 c)
          else pure counts) counts) ((List.range n).map (classCount done)) =
        .ok ((List.range n).map (classCount (done ++ rest))) := by
    intro done rest
    induction rest generalizing done with
    | nil => intro _ _; simp [pure, Except.pure]
    | cons l rest ih =>
      intro hl hB
      simp only [List.length_cons] at hB
      rw [List.foldlM_cons, countInner_ok (n := n) (B := done.length) (hl l (by simp)) (by simp) (by
        intro x hx
        obtain ⟨k, _, rfl⟩ := List.mem_map.mp hx
        exact List.countP_le_length) (by omega)]
      have hnew : ((List.range n).map (classCount done)).mapIdx (fun i c => if isOneAt l i then c + 1 else c) =
          (List.range n).map (classCount (done ++ [l])) := by
        apply List.ext_getElem (by simp)
        intro i h1 h2
        simp [classCount_eq, List.countP_append, List.countP_singleton]
        split <;> rfl
      simp only [bind, Except.bind]
      rw [hnew]
      have := ih (done ++ [l]) (fun l' hl' => hl l' (by simp [hl'])) (by simp; omega)
      simpa [bind, Except.bind] using this
  have := key [] labels h (by simpa using hB)
  rw [show (List.range n).map (classCount ([] : List (List F))) = List.replicate n 0 by
    apply List.ext_getElem <;> simp [classCount]] at this
  exact this

/-- the loop of `predict_class` over the counts -/
theorem maxCount_fold [LawfulCount F] (counts : List Nat) (hlen : counts.length ≤ 2 ^ 53) :
    ∃ mx k, counts.foldl (fun (acc : Nat × F × F) count =>
        let (max, maxClass, index) := acc
        let (max, maxClass) := if count > max then (count, index) else (max, maxClass)
        (max, maxClass, index +. F64.one)) (0, F64.zero, F64.zero) = (mx, F64.ofNat k, F64.ofNat counts.length) ∧
      (∀ x ∈ counts, x ≤ mx) ∧ (counts ≠ [] → counts[k]? = some mx ∨ (mx = 0 ∧ k = 0)) ∧ (counts = [] → k = 0 ∧ mx = 0) ∧
      (∀ j x, j < k → counts[j]? = some x → x < mx) ∧ (k < counts.length ∨ k = 0) := by
  induction counts using List.reverseRecOn with
  | nil => exact ⟨0, 0, by simp [LawfulCount.zero_eq_ofNat]⟩
  | append_singleton l x ih =>
    simp only [List.length_append, List.length_singleton] at hlen
    obtain ⟨mx, k, hf, hall, hk, hnil, hfirst, hkl⟩ := ih (by omega)
    rw [List.foldl_append, hf]
    simp only [List.foldl_cons, List.foldl_nil]
    rw [LawfulCount.add_one (by omega)]
    by_cases hx : x > mx
    · refine ⟨x, l.length, by simp [hx], ?_, ?_, by simp, ?_, .inl (by simp)⟩
      · intro y hy
        rcases List.mem_append.mp hy with hy | hy
        · have := hall y hy; omega
        · simp at hy; omega
      · intro _; left; simp
      · intro j y hj hy
        rw [List.getElem?_append_left hj] at hy
        have := hall y (List.mem_of_getElem? hy); omega
    · refine ⟨mx, k, by simp [hx], ?_, ?_, by simp, ?_, ?_⟩
      · intro y hy
        rcases List.mem_append.mp hy with hy | hy
        · exact hall y hy
        · simp at hy; omega
      · intro _
        by_cases hl : l = []
        · have := hnil hl; right; omega
        · rcases hk hl with h | h
          · left
            rw [List.getElem?_append_left (by
              rw [List.getElem?_eq_some_iff] at h; exact h.1)]
            exact h
          · exact .inr h
      · intro j y hj hy
        have hjl : j < l.length := by omega
        rw [List.getElem?_append_left hjl] at hy
        exact hfirst j y hj hy
      · simp; omega

/-- `predict_class` on a leaf whose labels all have `n` entries -/
theorem predictClass_ok [LawfulCount F] {row : List F} {tree : TreeNode F (RegressionLeaf F)} {d : DataSet F} {n : Nat}
    (hf : findLeafNodeForData row tree = .ok { data := some d }) (hne : d.labels ≠ []) (hl : ∀ l ∈ d.labels, l.length = n)
    (hn : 0 < n) (hn2 : n ≤ 2 ^ 53) (hB : d.labels.length < 2 ^ 32) :
    ∃ k, FirstMajority d.labels n k ∧ predictClass row tree =
      .ok ((List.replicate n F64.zero).set k F64.one) := by
  obtain ⟨l0, ls, hls⟩ := List.exists_cons_of_ne_nil hne
  have h0 : idx d.labels 0 = .ok l0 := by rw [hls]; rfl
  have hl0 : l0.length = n := hl l0 (by rw [hls]; simp)
  obtain ⟨mx, k, hfold, hall, hk, _, hfirst, hkl⟩ := maxCount_fold (F := F) ((List.range n).map (classCount d.labels)) (by simpa using hn2)
  have hkn : k < n := by
    simp at hkl; omega
  refine ⟨k, ⟨hkn, ?_, ?_⟩, ?_⟩
  · intro j hj
    have h1 : classCount d.labels j ≤ mx := hall _ (List.mem_map.mpr ⟨j, by simpa using hj, rfl⟩)
    rcases hk (by simp; omega) with h | h
    · simp [hkn] at h; omega
    · omega
  · intro j hj
    have h2 := hfirst j (classCount d.labels j) hj (by
      have : j < n := by omega
      simp [this])
    rcases hk (by simp; omega) with h | h
    · simp [hkn] at h; omega
    · omega
  · simp only [predictClass, hf, bind, Except.bind, unwrap, h0, hl0, getClassCounts_ok hl hB]
    rw [hfold]
    simp only
    rw [LawfulCount.toUsize_ofNat (by omega), setIdx_lt (by simpa using hkn)]

theorem set_oneHot {n k : Nat} : (List.replicate n (F64.zero : F)).set k F64.one = oneHot n k := by
  apply List.ext_getElem (by simp [oneHot])
  intro i h1 h2
  simp [oneHot, List.getElem_set]
  by_cases h : k = i
  · simp [h]
  · simp [h, Ne.symm h]

/-! ## largest entry -/

theorem findMax_spec [LawfulOrder F] (v : List F) :
    ((findMaxValueAndIndex v).1 = F64.negInfinity ∧ (findMaxValueAndIndex v).2 = 0 ∧ ∀ x ∈ v, (F64.negInfinity <. x) = false) ∨
    (v[(findMaxValueAndIndex v).2]? = some (findMaxValueAndIndex v).1 ∧ (F64.negInfinity <. (findMaxValueAndIndex v).1) = true ∧
      (∀ x ∈ v, ((findMaxValueAndIndex v).1 <. x) = false) ∧
      ∀ j x, j < (findMaxValueAndIndex v).2 → v[j]? = some x → ((findMaxValueAndIndex v).1 <=. x) = false) := by
  induction v using List.reverseRecOn with
  | nil => exact .inl ⟨rfl, rfl, by simp⟩
  | append_singleton l x ih =>
    have hstep : findMaxValueAndIndex (l ++ [x]) =
        if x >. (findMaxValueAndIndex l).1 then (x, l.length) else findMaxValueAndIndex l := by
      simp [findMaxValueAndIndex, List.zipIdx_append, List.foldl_append]
    rw [hstep]
    generalize findMaxValueAndIndex l = acc at ih
    obtain ⟨m, k⟩ := acc
    by_cases hx : (m <. x) = true
    · simp only [hx, if_true]
      right
      rcases ih with ⟨rfl, _, hall⟩ | ⟨hk, hm, hall, hfirst⟩
      · refine ⟨by simp, hx, ?_, ?_⟩
        · intro y hy
          rcases List.mem_append.mp hy with hy | hy
          · by_contra hc
            simp only [Bool.not_eq_false] at hc
            have := lt_trans' hx hc
            rw [hall y hy] at this; cases this
          · simp only [List.mem_singleton] at hy; subst hy; exact lt_irrefl'
        · intro j y hj hy
          rw [List.getElem?_append_left hj] at hy
          by_contra hc
          simp only [Bool.not_eq_false] at hc
          have := lt_of_lt_of_le hx hc
          rw [hall y (List.mem_of_getElem? hy)] at this; cases this
      · refine ⟨by simp, lt_trans' hm hx, ?_, ?_⟩
        · intro y hy
          rcases List.mem_append.mp hy with hy | hy
          · by_contra hc
            simp only [Bool.not_eq_false] at hc
            have := lt_trans' hx hc
            rw [hall y hy] at this; cases this
          · simp only [List.mem_singleton] at hy; subst hy; exact lt_irrefl'
        · intro j y hj hy
          rw [List.getElem?_append_left hj] at hy
          by_contra hc
          simp only [Bool.not_eq_false] at hc
          have := lt_of_lt_of_le hx hc
          rw [hall y (List.mem_of_getElem? hy)] at this; cases this
    · simp only [hx, Bool.false_eq_true, if_false]
      simp only [Bool.not_eq_true] at hx
      rcases ih with ⟨rfl, hk, hall⟩ | ⟨hk, hm, hall, hfirst⟩
      · left
        refine ⟨rfl, hk, ?_⟩
        intro y hy
        rcases List.mem_append.mp hy with hy | hy
        · exact hall y hy
        · simp only [List.mem_singleton] at hy; subst hy; exact hx
      · right
        have hkl : k < l.length := by
          rw [List.getElem?_eq_some_iff] at hk; exact hk.1
        refine ⟨by rw [List.getElem?_append_left hkl]; exact hk, hm, ?_, ?_⟩
        · intro y hy
          rcases List.mem_append.mp hy with hy | hy
          · exact hall y hy
          · simp only [List.mem_singleton] at hy; subst hy; exact hx
        · intro j y hj hy
          rw [List.getElem?_append_left (Nat.lt_trans hj hkl)] at hy
          exact hfirst j y hj hy

theorem findMax_firstMax [LawfulOrder F] (v : List F) : FirstMax v (findMaxValueAndIndex v).2 := by
  rcases findMax_spec v with ⟨h1, h2, h3⟩ | ⟨h1, h2, h3, h4⟩
  · exact .inr ⟨h2, h3⟩
  · exact .inl ⟨_, h1, h2, h3, h4⟩

theorem findMax_lt (v : List F) (hne : v ≠ []) : (findMaxValueAndIndex v).2 < v.length := by
  have : ∀ v : List F, (findMaxValueAndIndex v).2 < v.length ∨ (findMaxValueAndIndex v).2 = 0 := by
    intro v
    induction v using List.reverseRecOn with
    | nil => exact .inr rfl
    | append_singleton l x ih =>
      have hstep : findMaxValueAndIndex (l ++ [x]) =
          if x >. (findMaxValueAndIndex l).1 then (x, l.length) else findMaxValueAndIndex l := by
        simp [findMaxValueAndIndex, List.zipIdx_append, List.foldl_append]
      rw [hstep]
      split
      · left; simp
      · simp; omega
  rcases this v with h | h
  · exact h
  · rw [h]; exact List.length_pos_of_ne_nil hne

theorem getBinaryPrediction_eq (v : List F) :
    getBinaryPrediction v = setIdx (List.replicate v.length F64.zero) (findMaxValueAndIndex v).2 F64.one := rfl

theorem getBinaryPrediction_ok {v : List F} (hne : v ≠ []) :
    getBinaryPrediction v = .ok (oneHot v.length (findMaxValueAndIndex v).2) := by
  rw [getBinaryPrediction_eq, setIdx_lt (by simpa using findMax_lt v hne), set_oneHot]

theorem firstMax_unique [LawfulOrder F] {v : List F} {j k : Nat} (hj : FirstMax v j) (hk : FirstMax v k) : j = k := by
  rcases hj with ⟨m, h1, h2, h3, h4⟩ | ⟨h1, h2⟩ <;> rcases hk with ⟨m', h1', h2', h3', h4'⟩ | ⟨h1', h2'⟩
  · have hmm : (m <=. m') = true := by
      rw [← not_lt (nn_right (lt_le h2')) (nn_right (lt_le h2))]
      exact h3' _ (List.mem_of_getElem? h1)
    have hmm' : (m' <=. m) = true := by
      rw [← not_lt (nn_right (lt_le h2)) (nn_right (lt_le h2'))]
      exact h3 _ (List.mem_of_getElem? h1')
    rcases Nat.lt_trichotomy j k with h | h | h
    · have := h4' j m h h1; rw [hmm'] at this; cases this
    · exact h
    · have := h4 k m' h h1'; rw [hmm] at this; cases this
  · have := h2' _ (List.mem_of_getElem? h1); rw [h2] at this; cases this
  · have := h2 _ (List.mem_of_getElem? h1'); rw [h2'] at this; cases this
  · omega

/-! ## accuracy -/

theorem countMatches [LawfulCount F] (ps : List (List F × List F)) (hlen : ps.length ≤ 2 ^ 53) :
    ps.foldl (fun (acc : F) p => if vecEq p.1 p.2 then acc +. F64.one else acc) F64.zero =
      F64.ofNat (ps.countP (fun p => vecEq p.1 p.2)) := by
  induction ps using List.reverseRecOn with
  | nil => simp [LawfulCount.zero_eq_ofNat]
  | append_singleton l x ih =>
    simp only [List.length_append, List.length_singleton] at hlen
    rw [List.foldl_append, ih (by omega), List.countP_append]
    simp only [List.foldl_cons, List.foldl_nil, List.countP_singleton]
    split
    · rw [LawfulCount.add_one]
      have := List.countP_le_length (p := fun p => vecEq p.1 p.2) (l := l)
      omega
    · simp

end Verif
