import Verif.Props.RawScore
import Verif.Props.Rounding
import Verif.Props.Score
/-!
# C70: rounding errors of the predictions of ensembles
-/

set_option linter.unusedSectionVars false

namespace Verif

open B64 Sample

section
variable [B64Env]

theorem addUp_snoc {F : Type} [F64 F] (g : List F) (lr : F) (outs : List (List F)) (o : List F) :
    addUp g lr (outs ++ [o]) = List.zipWith (fun a x => a +. (lr *. x)) (addUp g lr outs) o := by
  simp [addUp]

theorem addUp_length {F : Type} [F64 F] {g : List F} {lr : F} {outs : List (List F)} (h : ∀ o ∈ outs, o.length = g.length) :
    (addUp g lr outs).length = g.length := by
  induction outs using List.reverseRecOn with
  | nil => rfl
  | append_singleton outs o ih =>
    rw [addUp_snoc, List.length_zipWith, ih (fun o ho => h o (by simp [ho])), h o (by simp), Nat.min_self]

theorem raw_core {u t B E i : ℚ} (hu : 0 < u) (hul : u ≤ 1 / 1024) (hB : 0 < B) (ht0 : 0 < t) (ht : 1024 * t ≤ u * B)
    (hi0 : 0 ≤ i) (hE : E = i * (i + 4) * (u * B)) (hE2 : u * E ≤ 1 / 4 * (u * B)) :
    E + (u * B + t) + (u * ((i + 2) * B + (E + (u * B + t))) + t) ≤ (i + 1) * (i + 1 + 4) * (u * B) := by
  have huB : 0 < u * B := mul_pos hu hB
  have h1 : u * (u * B) ≤ 1 / 1024 * (u * B) := mul_le_mul_of_nonneg_right hul huB.le
  have h2 : u * t ≤ 1 / 1024 * t := mul_le_mul_of_nonneg_right hul ht0.le
  have h3 : 0 ≤ i * (u * B) := mul_nonneg hi0 huB.le
  have e : (i + 1) * (i + 1 + 4) * (u * B) = E + 2 * (i * (u * B)) + 5 * (u * B) := by rw [hE]; ring
  have e2 : u * ((i + 2) * B + (E + (u * B + t))) = i * (u * B) + 2 * (u * B) + u * E + u * (u * B) + u * t := by ring
  rw [e, e2]
  linarith

/-- entry `j` of the raw scores -/
theorem addUp_near {g : List B64} {lr : B64} {outs : List (List B64)} {G : List ℚ} {r : ℚ} {O : List (List ℚ)} {B : ℚ} {N : ℕ}
    (hS : Scale N B) (hg : g.map B64.val = liftV G) (hlr : lr.val = .fin r) (hO : outs.map (List.map B64.val) = lift O)
    (hlen : ∀ o ∈ O, o.length = G.length) (hGB : ∀ x ∈ G, |x| ≤ B) (hOB : ∀ o ∈ O, ∀ x ∈ o, |r * x| ≤ B) (hN : O.length ≤ N)
    {j : ℕ} (hj : j < G.length) :
    Near ((addUp g lr outs).getD j F64.zero) (G.getD j 0 + r * (target O j).sum) (O.length * (O.length + 4) * (u * B)) ∧
      |G.getD j 0 + r * (target O j).sum| ≤ (O.length + 1) * B := by
  have hB0 := hS.pos
  have hu := u_pos
  have hul := u_le
  have htl := hS.tiny_lin
  have hbl := hS.lin_big
  have hnq := hS.rows_q
  have ht0 := tiny_pos
  norm_num at htl hbl
  have hgl := valV_length hg
  induction outs using List.reverseRecOn generalizing O with
  | nil =>
    have : O = [] := by
      have := congrArg List.length hO
      simpa [lift, eq_comm] using this
    subst this
    have h1 : |G.getD j 0| ≤ B := by
      apply hGB
      simp [List.getD, hj]
    refine ⟨?_, ?_⟩
    · simp only [addUp, List.foldl_nil, target, List.map_nil, List.sum_nil, mul_zero, add_zero, List.length_nil, Nat.cast_zero, zero_mul]
      exact .exact (valV_getD hg j)
    · simpa [target] using h1
  | append_singleton outs o ih =>
    obtain ⟨O', q, rfl⟩ : ∃ O' q, O = O' ++ [q] := by
      rcases List.eq_nil_or_concat O with rfl | ⟨O', q, rfl⟩
      · have := congrArg List.length hO; simp [lift] at this
      · exact ⟨O', q, by simp⟩
    have hl : outs.length = O'.length := by have := congrArg List.length hO; simpa [lift] using this
    have hO1 : outs.map (List.map B64.val) = lift O' := by
      have := congrArg (List.take outs.length) hO
      simpa [lift, hl, ← List.map_take] using this
    have hO2 : o.map B64.val = liftV q := by
      have := congrArg (List.drop outs.length) hO
      simpa [lift, hl, ← List.map_drop] using this
    have hNl : O'.length + 1 ≤ N := by simpa using hN
    obtain ⟨k1, k2⟩ := ih hO1 (fun x hx => hlen x (by simp [hx])) (fun x hx => hOB x (by simp [hx])) (by omega)
    have hql : q.length = G.length := hlen q (by simp)
    have hol : o.length = g.length := by rw [valV_length hO2, hgl, hql]
    have houts : ∀ x ∈ outs, x.length = g.length := by
      intro x hx
      have : x.map B64.val ∈ lift O' := by rw [← hO1]; exact List.mem_map_of_mem hx
      obtain ⟨w, hw, he⟩ := mem_lift.mp this
      rw [valV_length he.symm, hlen w (by simp [hw]), hgl]
    have e0 : (addUp g lr (outs ++ [o])).getD j F64.zero = (addUp g lr outs).getD j F64.zero +. (lr *. o.getD j F64.zero) := by
      have h1 : j < (addUp g lr outs).length := by rw [addUp_length houts]; omega
      have h2 : j < o.length := by omega
      rw [addUp_snoc]
      simp [List.getD, h1, h2]
    have hq : |r * q.getD j 0| ≤ B := by
      apply hOB q (by simp)
      have : j < q.length := by omega
      simp [List.getD, this]
    have e1 : G.getD j 0 + r * (target (O' ++ [q]) j).sum = (G.getD j 0 + r * (target O' j).sum) + r * q.getD j 0 := by
      simp only [target, List.map_append, List.sum_append, List.map_cons, List.map_nil, List.sum_cons, List.sum_nil]
      ring
    have hb1 : |r * q.getD j 0| ≤ big := hq.trans (by linarith)
    obtain ⟨w, hw, hwe⟩ := mul_err hlr (valV_getD hO2 j) hb1
    have hw' : Near (lr *. o.getD j F64.zero) (r * q.getD j 0) (u * B + tiny) := by
      refine ⟨w, hw, hwe.trans ?_⟩
      have := mul_le_mul_of_nonneg_left hq hu.le
      linarith
    have hi0 : (0 : ℚ) ≤ O'.length := Nat.cast_nonneg _
    have hi1 : (O'.length : ℚ) ≤ 16777216 := by
      refine le_trans ?_ hnq
      exact_mod_cast (by omega : O'.length ≤ N)
    have huB : 0 < u * B := mul_pos hu hB0
    have hsum : |(G.getD j 0 + r * (target O' j).sum) + r * q.getD j 0| ≤ (O'.length + 2) * B := by
      refine (abs_add_le _ _).trans ?_
      linarith
    have hE2 : u * (O'.length * (O'.length + 4) * (u * B)) ≤ 1 / 4 * (u * B) := by
      have h1 : (O'.length : ℚ) * (O'.length + 4) ≤ 16777216 * 16777220 := mul_le_mul hi1 (by linarith) (by linarith) (by norm_num)
      have h2 : u * ((O'.length : ℚ) * (O'.length + 4)) ≤ 1 / 4 := by
        refine (mul_le_mul_of_nonneg_left h1 hu.le).trans ?_
        unfold u; norm_num
      have := mul_le_mul_of_nonneg_right h2 huB.le
      linarith
    have hcore := raw_core (t := tiny) (E := O'.length * (O'.length + 4) * (u * B)) hu hul hB0 ht0 (by linarith) hi0 rfl hE2
    have hEB : (O'.length : ℚ) * (O'.length + 4) * (u * B) ≤ B := by
      have h3 : u * (O'.length * (O'.length + 4) * (u * B)) ≤ u * B := by linarith
      exact le_of_mul_le_mul_left h3 hu
    have huB1 : u * B ≤ 1 / 1024 * B := mul_le_mul_of_nonneg_right hul hB0.le
    have hiB : (O'.length : ℚ) * B ≤ 16777216 * B := mul_le_mul_of_nonneg_right hi1 hB0.le
    have h4 := k1.add hw' (by linarith)
    rw [e0, e1]
    have hL : (((O' ++ [q]).length : ℕ) : ℚ) = O'.length + 1 := by simp
    rw [hL]
    refine ⟨h4.weaken ?_, by linarith⟩
    have h5 := mul_le_mul_of_nonneg_left (add_le_add_left hsum (O'.length * (O'.length + 4) * (u * B) + (u * B + tiny))) hu.le
    linarith

theorem exactScores_getD {G : List ℚ} {r : ℚ} {O : List (List ℚ)} {j : ℕ} (hj : j < G.length) :
    (exactScores G r O).getD j 0 = G.getD j 0 + r * (target O j).sum := by
  simp [exactScores, List.getD, hj]

theorem addUp_accurate {g : List B64} {lr : B64} {outs : List (List B64)} {G : List ℚ} {r : ℚ} {O : List (List ℚ)} {B : ℚ}
    (hS : Scale O.length B) (hg : g.map B64.val = liftV G) (hlr : lr.val = .fin r) (hO : outs.map (List.map B64.val) = lift O)
    (hlen : ∀ o ∈ O, o.length = G.length) (hGB : ∀ x ∈ G, |x| ≤ B) (hOB : ∀ o ∈ O, ∀ x ∈ o, |r * x| ≤ B) :
    (addUp g lr outs).length = G.length ∧ ∀ j < G.length, ∃ x v, (addUp g lr outs)[j]? = some x ∧ x.val = .fin v ∧
      |v - (exactScores G r O).getD j 0| ≤ rawTolerance O.length B := by
  have hl : (addUp g lr outs).length = G.length := by
    rw [addUp_length, valV_length hg]
    intro x hx
    have : x.map B64.val ∈ lift O := by rw [← hO]; exact List.mem_map_of_mem hx
    obtain ⟨w, hw, he⟩ := mem_lift.mp this
    rw [valV_length he.symm, hlen w hw, valV_length hg]
  refine ⟨hl, ?_⟩
  intro j hj
  obtain ⟨⟨v, h1, h2⟩, _⟩ := addUp_near hS hg hlr hO hlen hGB hOB le_rfl hj
  have hj' : j < (addUp g lr outs).length := by omega
  refine ⟨(addUp g lr outs)[j], v, by simp [hj'], by simpa [List.getD, hj'] using h1, ?_⟩
  rw [exactScores_getD hj]
  refine h2.trans (le_of_eq ?_)
  rw [rawTolerance, u]
  ring

/-- **C70**.  Let the initial guess, the learning rate and the outputs of the leaves that a row reaches be numbers, such that the guess and
the weighted outputs are at most `B`.  Then every entry of the prediction of a regression ensemble of `k` trees, and every raw score of
a multi-class ensemble, is within `2^-53 * k * (k + 4) * B` of the exact sum. -/
theorem C70_prediction_accurate (m : BoostModel B64 (GradBoostLeaf B64)) (row : List B64) (outs : List (List B64))
    (h : List.Forall₂ (fun tree o => ∃ leaf : GradBoostLeaf B64, findLeafNodeForData row tree = .ok leaf ∧ leaf.leafOutput = some o)
      m.trees outs) (G : List ℚ) (r : ℚ) (O : List (List ℚ)) (B : ℚ) (hS : Scale O.length B)
    (hg : m.initialGuess.map B64.val = liftV G) (hlr : m.learningRate.val = .fin r) (hO : outs.map (List.map B64.val) = lift O)
    (hlen : ∀ o ∈ O, o.length = G.length) (hGB : ∀ x ∈ G, |x| ≤ B) (hOB : ∀ o ∈ O, ∀ x ∈ o, |r * x| ≤ B) :
    ∃ raw, regressionPredict m row = .ok raw ∧ predictInstance row m.trees m.initialGuess m.learningRate = .ok raw ∧
      raw.length = G.length ∧ ∀ j < G.length, ∃ x v, raw[j]? = some x ∧ x.val = .fin v ∧
        |v - (exactScores G r O).getD j 0| ≤ rawTolerance O.length B := by
  have houts : ∀ o ∈ outs, o.length = m.initialGuess.length := by
    intro x hx
    have : x.map B64.val ∈ lift O := by rw [← hO]; exact List.mem_map_of_mem hx
    obtain ⟨w, hw, he⟩ := mem_lift.mp this
    rw [valV_length he.symm, hlen w hw, valV_length hg]
  obtain ⟨h1, h2⟩ := C39_raw_scores m row outs (by
    rw [List.forall₂_iff_get] at h ⊢
    refine ⟨h.1, fun i a b => ?_⟩
    obtain ⟨leaf, k1, k2⟩ := h.2 i a b
    exact ⟨leaf, k1, k2, houts _ (List.get_mem _ _)⟩)
  obtain ⟨h3, h4⟩ := addUp_accurate hS hg hlr hO hlen hGB hOB
  exact ⟨_, h2, h1, h3, h4⟩

/-- **C70** for AMG ensembles, where a leaf stands for the output `amgOutput`. -/
theorem C70_amg_accurate (m : BoostModel B64 (AMGBoostLeaf B64)) (row : List B64) (leaves : List (B64 × ℕ))
    (h : List.Forall₂ (fun tree (e : B64 × ℕ) => ∃ leaf : AMGBoostLeaf B64, findLeafNodeForData row tree = .ok leaf ∧
      leaf.maxValue = some e.1 ∧ leaf.cls = some e.2 ∧ e.2 < m.initialGuess.length) m.trees leaves)
    (G : List ℚ) (r : ℚ) (O : List (List ℚ)) (B : ℚ) (hS : Scale O.length B)
    (hg : m.initialGuess.map B64.val = liftV G) (hlr : m.learningRate.val = .fin r)
    (hO : (leaves.map (fun e => amgOutput m.initialGuess.length e.1 e.2)).map (List.map B64.val) = lift O)
    (hGB : ∀ x ∈ G, |x| ≤ B) (hOB : ∀ o ∈ O, ∀ x ∈ o, |r * x| ≤ B) :
    ∃ raw, amgPredictInstance row m.trees m.initialGuess m.learningRate m.initialGuess.length = .ok raw ∧
      raw.length = G.length ∧ ∀ j < G.length, ∃ x v, raw[j]? = some x ∧ x.val = .fin v ∧
        |v - (exactScores G r O).getD j 0| ≤ rawTolerance O.length B := by
  obtain ⟨h3, h4⟩ := addUp_accurate hS hg hlr hO (by
    intro o ho
    have : liftV o ∈ lift O := mem_lift.mpr ⟨o, ho, rfl⟩
    rw [← hO, List.map_map] at this
    obtain ⟨e, _, he⟩ := List.mem_map.mp this
    have := congrArg List.length he
    simp only [Function.comp_apply, List.length_map, liftV_length, amgOutput, List.length_range] at this
    rw [← this, valV_length hg]) hGB hOB
  exact ⟨_, C39_amg_raw_scores m row leaves h, h3, h4⟩

theorem clear_maximum {raw : List B64} {e : List ℚ} {n k k' : ℕ} {τ : ℚ}
    (h : ∀ j < n, ∃ x v, raw[j]? = some x ∧ x.val = .fin v ∧ |v - e.getD j 0| ≤ τ) (hk : k < n)
    (hgap : ∀ j < n, j ≠ k → e.getD j 0 + 2 * τ < e.getD k 0) (hk' : k' < n) (hm : FirstMax raw k') : k' = k := by
  by_contra hne
  obtain ⟨x, v, h1, h2, h3⟩ := h k hk
  obtain ⟨y, w, h4, h5, h6⟩ := h k' hk'
  have h7 := hgap k' hk' hne
  rw [abs_le] at h3 h6
  have hlt : w < v := by linarith
  rcases hm with ⟨y', h8, _, h9, _⟩ | ⟨_, h8⟩
  · rw [h4] at h8
    cases h8
    have := h9 x (List.mem_of_getElem? h1)
    rw [lt_val, h5, h2, Ext.fin_lt, decide_eq_false_iff_not] at this
    exact this hlt
  · have := h8 x (List.mem_of_getElem? h1)
    rw [lt_val, h2] at this
    exact absurd this (by simp [F64.lt, Ext.le])

/-- **C70** (classes).  If the exact raw score of a class exceeds all others by more than twice the tolerance, this class is predicted. -/
theorem C70_clear_class (m : BoostModel B64 (GradBoostLeaf B64)) (row : List B64) (outs : List (List B64))
    (h : List.Forall₂ (fun tree o => ∃ leaf : GradBoostLeaf B64, findLeafNodeForData row tree = .ok leaf ∧ leaf.leafOutput = some o)
      m.trees outs) (G : List ℚ) (r : ℚ) (O : List (List ℚ)) (B : ℚ) (hS : Scale O.length B)
    (hg : m.initialGuess.map B64.val = liftV G) (hlr : m.learningRate.val = .fin r) (hO : outs.map (List.map B64.val) = lift O)
    (hlen : ∀ o ∈ O, o.length = G.length) (hGB : ∀ x ∈ G, |x| ≤ B) (hOB : ∀ o ∈ O, ∀ x ∈ o, |r * x| ≤ B) (k : ℕ) (hk : k < G.length)
    (hgap : ∀ j < G.length, j ≠ k →
      (exactScores G r O).getD j 0 + 2 * rawTolerance O.length B < (exactScores G r O).getD k 0) :
    multiClassPredict m row = .ok (oneHot G.length k) := by
  obtain ⟨raw, _, h2, h3, h4⟩ := C70_prediction_accurate m row outs h G r O B hS hg hlr hO hlen hGB hOB
  obtain ⟨k', h5, h6, h7⟩ := (C39_multiClass_one_hot m row raw h2).1 (by
    rintro rfl
    simp only [List.length_nil] at h3
    omega)
  rw [h7, clear_maximum h4 hk hgap (by omega) h6, h3]

/-- **C70** (classes) for AMG ensembles. -/
theorem C70_amg_clear_class (m : BoostModel B64 (AMGBoostLeaf B64)) (row : List B64) (leaves : List (B64 × ℕ))
    (h : List.Forall₂ (fun tree (e : B64 × ℕ) => ∃ leaf : AMGBoostLeaf B64, findLeafNodeForData row tree = .ok leaf ∧
      leaf.maxValue = some e.1 ∧ leaf.cls = some e.2 ∧ e.2 < m.initialGuess.length) m.trees leaves)
    (G : List ℚ) (r : ℚ) (O : List (List ℚ)) (B : ℚ) (hS : Scale O.length B)
    (hg : m.initialGuess.map B64.val = liftV G) (hlr : m.learningRate.val = .fin r)
    (hO : (leaves.map (fun e => amgOutput m.initialGuess.length e.1 e.2)).map (List.map B64.val) = lift O)
    (hGB : ∀ x ∈ G, |x| ≤ B) (hOB : ∀ o ∈ O, ∀ x ∈ o, |r * x| ≤ B) (k : ℕ) (hk : k < G.length)
    (hgap : ∀ j < G.length, j ≠ k →
      (exactScores G r O).getD j 0 + 2 * rawTolerance O.length B < (exactScores G r O).getD k 0) :
    amgPredict m row = .ok (oneHot G.length k) := by
  obtain ⟨raw, h2, h3, h4⟩ := C70_amg_accurate m row leaves h G r O B hS hg hlr hO hGB hOB
  obtain ⟨k', h5, h6, h7⟩ := (C39_amg_one_hot m row raw h2).1 (by
    rintro rfl
    simp only [List.length_nil] at h3
    omega)
  rw [h7, clear_maximum h4 hk hgap (by omega) h6, h3]

end

/-! ## cases that meet the hypotheses -/

-- a trained regression ensemble: guess and weighted outputs are numbers up to 1, and the prediction is not the exact sum
example : ∀ negZero : Bool, let _ := env negZero
    (do let m ← regressionTrain rough4 { useMultiThreading := false, numberOfClasses := 1, maxLevels := 1 } 2 (b64 0.3)
        let outs ← m.trees.mapM (fun tree => do
          let leaf : GradBoostLeaf B64 ← findLeafNodeForData [b64 2, b64 1] tree
          unwrap leaf.leafOutput)
        let raw ← regressionPredict m [b64 2, b64 1]
        let small := fun x : B64 => match x.val with | .fin q => decide (|q| ≤ 1) | _ => false
        let exact := fun x : B64 => match x.val with | .fin q => q | _ => 0
        pure (m.initialGuess.all small, outs.all (fun o => decide (o.length = 1) && o.all small), outs.length,
          decide (raw.map exact = exactScores (m.initialGuess.map exact) (exact m.learningRate) (outs.map (List.map exact))))) =
      .ok (true, true, 2, false) := by
  decide +kernel

-- a model with one tree of two leaves, and a clear majority for class 1
example : ∀ negZero : Bool, let _ := env negZero
    let leaf : List B64 → TreeNode B64 (GradBoostLeaf B64) := fun o => .mk { column := 0, value := b64 0 } none none (some { leafOutput := some o })
    let m : BoostModel B64 (GradBoostLeaf B64) :=
      { trees := [.mk { column := 0, value := b64 1 } (some (leaf [b64 0.1, b64 0.9])) (some (leaf [b64 0.5, b64 0])) none],
        initialGuess := [b64 0.3, b64 0.7], learningRate := b64 0.1 }
    multiClassPredict m [b64 2] = .ok (oneHot 2 1) := by
  decide +kernel

end Verif
