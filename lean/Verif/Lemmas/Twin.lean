import Verif.Lemmas.Ensemble
/-! # Two boosting runs side by side -/

set_option linter.unusedSectionVars false

namespace Verif

variable {F : Type} [F64 F] {L : Type}

/-- the residuals depend on the labels only -/
def LabelsOnly (res : TrainingData F → R (List (List F))) : Prop :=
  ∀ t t' : TrainingData F, t'.data.labels = t.data.labels → t'.mutableLabels = t.mutableLabels → t'.size = t.size → res t' = res t

theorem regression_labelsOnly : LabelsOnly (regressionResiduals (F := F)) := by
  intro t t' h1 h2 h3
  simp only [regressionResiduals, h1, h2, h3]

theorem multiClass_labelsOnly : LabelsOnly (multiClassResiduals (F := F)) := by
  intro t t' h1 h2 h3
  simp only [multiClassResiduals, h1, h2, h3]

/-- Two runs on data sets with the same labels and corresponding rows keep the same labels, when corresponding trees send
corresponding rows to the same output. -/
theorem loop_twin_at {res : TrainingData F → R (List (List F))} {fit : DataSet F → R (TreeNode F L)}
    {upd : TrainingData F → TreeNode F L → R (TrainingData F)} {out : List F → TreeNode F L → R (List F)} {d d' : DataSet F} {g : List F}
    {lr : F} (f : List F → List F) (P : TreeNode F L → TreeNode F L → Prop)
    (hrows : d'.featureRows = d.featureRows.map f) (hlabels : d'.labels = d.labels)
    (hu : UpdateAdds upd out lr g.length) (hres : LabelsOnly res)
    (hP : ∀ tree tree', P tree tree' → ∀ row ∈ d.featureRows, out (f row) tree' = out row tree)
    {n : Nat} (hfit : ∀ k < n, ∀ s r tree tree', boostLoop res fit upd k (startState d g) = .ok s → Tracks out d g lr s → res s.1 = .ok r → fit { d with labels := r } = .ok tree →
      fit { d' with labels := r } = .ok tree' → P tree tree')
    {s s' : TrainingData F × List (TreeNode F L)} (h : boostLoop res fit upd n (startState d g) = .ok s)
    (h' : boostLoop res fit upd n (startState d' g) = .ok s') :
    s'.1.mutableLabels = s.1.mutableLabels ∧ List.Forall₂ P s.2 s'.2 := by
  induction n generalizing s s' with
  | zero =>
    cases h
    cases h'
    exact ⟨by simp [startState, hlabels], .nil⟩
  | succ n ih =>
    rw [boostLoop_succ, R.bind_eq_ok] at h h'
    obtain ⟨a, h1, h2⟩ := h
    obtain ⟨a', h1', h2'⟩ := h'
    obtain ⟨hml, hall⟩ := ih (fun k hk => hfit k (by omega)) h1 h1'
    have ht : Tracks out d g lr a := tracks_loop hu (tracks_start d g lr) h1
    have ht' : Tracks out d' g lr a' := tracks_loop hu (tracks_start d' g lr) h1'
    obtain ⟨r, tree, t, e1, e2, e3, rfl⟩ := boostStep_inv h2
    obtain ⟨r', tree', t', e1', e2', e3', rfl⟩ := boostStep_inv h2'
    have hr : r' = r := by
      rw [hres a.1 a'.1 (by rw [ht.data, ht'.data, hlabels]) hml (by rw [ht.size, ht'.size, hlabels]), e1] at e1'
      exact (Except.ok.inj e1').symm
    subst hr
    rw [ht.data] at e2
    rw [ht'.data] at e2'
    have hPt := hfit n (by omega) a r' tree tree' h1 ht e1 e2 e2'
    refine ⟨?_, List.rel_append hall (.cons hPt .nil)⟩
    obtain ⟨k1, k2, k3, k4⟩ := hu _ _ _ (by rw [ht.len, ht.size]) ht.width e3
    obtain ⟨k1', k2', k3', k4'⟩ := hu _ _ _ (by rw [ht'.len, ht'.size]) ht'.width e3'
    have hsz : a'.1.size = a.1.size := by rw [ht.size, ht'.size, hlabels]
    dsimp only
    apply List.ext_getElem?
    intro i
    rcases Nat.lt_or_ge i a.1.size with hi | hi
    · obtain ⟨row, o, cur, x1, x2, x3, _, x5⟩ := k4 i hi
      obtain ⟨row', o', cur', y1, y2, y3, _, y5⟩ := k4' i (by omega)
      rw [ht'.data, hrows, List.getElem?_map, ← ht.data, x1] at y1
      simp only [Option.map_some, Option.some.injEq] at y1
      subst y1
      rw [hP tree tree' hPt row (by rw [← ht.data]; exact List.mem_of_getElem? x1), x2] at y2
      cases y2
      rw [hml, x3] at y3
      cases y3
      rw [x5, y5]
    · rw [List.getElem?_eq_none (by omega), List.getElem?_eq_none (by omega)]

/-- Two runs on data sets with the same labels and corresponding rows keep the same labels, when corresponding trees send
corresponding rows to the same output. -/
theorem loop_twin {res : TrainingData F → R (List (List F))} {fit : DataSet F → R (TreeNode F L)}
    {upd : TrainingData F → TreeNode F L → R (TrainingData F)} {out : List F → TreeNode F L → R (List F)} {d d' : DataSet F} {g : List F}
    {lr : F} (f : List F → List F) (P : TreeNode F L → TreeNode F L → Prop)
    (hrows : d'.featureRows = d.featureRows.map f) (hlabels : d'.labels = d.labels)
    (hu : UpdateAdds upd out lr g.length) (hres : LabelsOnly res)
    (hP : ∀ tree tree', P tree tree' → ∀ row ∈ d.featureRows, out (f row) tree' = out row tree)
    (hfit : ∀ s r tree tree', Tracks out d g lr s → res s.1 = .ok r → fit { d with labels := r } = .ok tree →
      fit { d' with labels := r } = .ok tree' → P tree tree')
    {n : Nat} {s s' : TrainingData F × List (TreeNode F L)} (h : boostLoop res fit upd n (startState d g) = .ok s)
    (h' : boostLoop res fit upd n (startState d' g) = .ok s') :
    s'.1.mutableLabels = s.1.mutableLabels ∧ List.Forall₂ P s.2 s'.2 :=
  loop_twin_at f P hrows hlabels hu hres hP (fun _ _ s r tree tree' _ hs => hfit s r tree tree' hs) h h'

/-- corresponding trees with the same outputs give the same raw score -/
theorem rawScore_twin {out : List F → TreeNode F L → R (List F)} {g : List F} {lr : F} {trees trees' : List (TreeNode F L)} {row row' : List F}
    (h : List.Forall₂ (fun tree tree' => out row' tree' = out row tree) trees trees') :
    rawScore out g lr trees' row' = rawScore out g lr trees row := by
  have : trees'.mapM (fun tree => do
      let o ← out row' tree
      pure (o.map (fun x => lr *. x))) = trees.mapM (fun tree => do
      let o ← out row tree
      pure (o.map (fun x => lr *. x))) := by
    induction h with
    | nil => rfl
    | cons h1 _ ih => rw [mapM_cons_R, mapM_cons_R, h1, ih]
  simp only [rawScore, this]

end Verif
