import Verif.Lemmas.NearSplit
/-!
# Rounding errors of the split search: the loss of a cut
-/

set_option linter.unusedSectionVars false

namespace Verif

open B64

variable [B64Env]

theorem Shape.varVec_length {m : LabelMetrics B64} {t : ℕ} (h : m.Shape t) (c : B64) : (varVec m c).length = t := by
  simp [varVec, h.means, h.squares]

section
variable {n t : ℕ} {B : ℚ} (hS : Scale n B) (ht1 : 1 ≤ t) (ht2 : t ≤ 2 ^ 24) (hn : 1 ≤ n)
include hS ht1 ht2 hn

/-- summing over the targets -/
theorem targets_near {xs : List B64} {f : ℕ → ℚ} {a : ℚ} (hlen : xs.length = t) (ha0 : 0 ≤ a) (ha : a ≤ 200)
    (h : ∀ j < t, Near (xs.getD j F64.zero) (f j) (a * (n * u * (B * B)))) (hC : ∀ j < t, |f j| ≤ B * B) :
    Near (fsum xs) ((List.range t).map f).sum ((2 * a * n + 2 * t) * (t * (u * (B * B)))) := by
  have hB := hS.pos
  have hu := u_pos
  have hC0 : 0 < B * B := mul_pos hB hB
  have htq : (t : ℚ) ≤ 16777216 := by norm_num at ht2; exact_mod_cast ht2
  have ht1q : (1 : ℚ) ≤ t := by exact_mod_cast ht1
  have hnq := hS.rows_q
  have hn0 : (1 : ℚ) ≤ n := by exact_mod_cast hn
  have hts := hS.tiny_sq
  have hbs := hS.sq_big
  norm_num at hts hbs
  have ht := tiny_pos
  have e1 : ((List.range t).map f).length = t := by simp
  have hnu : (n : ℚ) * u ≤ 1 / 1024 := by
    have := mul_le_mul_of_nonneg_right hnq hu.le
    refine this.trans ?_
    unfold u; norm_num
  have htu : (t : ℚ) * u ≤ 1 / 1024 := by
    have := mul_le_mul_of_nonneg_right htq hu.le
    refine this.trans ?_
    unfold u; norm_num
  have htC : (t : ℚ) * (B * B) ≤ 16777216 * (B * B) := mul_le_mul_of_nonneg_right htq hC0.le
  have huC : u * (B * B) ≤ u * (t * (B * B)) := mul_le_mul_of_nonneg_left (by nlinarith) hu.le
  have hp0 : 0 ≤ n * u * (B * B) := by positivity
  have hap : a * (n * u * (B * B)) ≤ 200 * (n * u * (B * B)) := mul_le_mul_of_nonneg_right ha hp0
  have hnuC : n * u * (B * B) ≤ 1 / 1024 * (B * B) := mul_le_mul_of_nonneg_right hnu hC0.le
  have := fsum_near (xs := xs) (qs := (List.range t).map f) (p := a * (n * u * (B * B))) (C := B * B) (X := t * (B * B))
    (by rw [e1, hlen]) (by rw [e1]) (mul_nonneg ha0 hp0) (by linarith) (by rw [e1]; linarith) (by linarith) (by linarith)
    (by
      intro j hj
      rw [e1] at hj
      simpa [List.getD, hj] using h j hj)
    (by
      intro q hq
      obtain ⟨j, hj, rfl⟩ := List.mem_map.mp hq
      exact hC j (List.mem_range.mp hj))
  refine this.weaken (le_of_eq ?_)
  rw [e1]
  ring

theorem abs_varOf_le {vs : List (List ℚ)} (hB : AtMost B vs) (j : ℕ) : |varOf (target vs j)| ≤ B * B := by
  rw [abs_of_nonneg (varOf_nonneg _)]
  exact varOf_le (hB.target hS.pos.le j)

theorem totalVar_near {k : ℕ} {tr : Tracker B64} {vs : List (List ℚ)} (h : TrkNear t n B k tr vs) (hk : k ≤ 2 * n)
    (hlen : vs.length = n) (hB : AtMost B vs) :
    Near (fsum (varVec tr.metrics tr.numberOfLabels)) (totalVar t vs) ((88 * n + 2 * t) * (t * (u * (B * B)))) := by
  have hne : vs ≠ [] := by rintro rfl; simp at hlen; omega
  have hn0 : (n : ℚ) ≠ 0 := by exact_mod_cast (by omega : n ≠ 0)
  have := targets_near hS ht1 ht2 hn (xs := varVec tr.metrics tr.numberOfLabels) (f := fun j => varOf (target vs j)) (a := 44)
    (Shape.varVec_length h.shape _) (by norm_num) (by norm_num)
    (fun j hj => (varVec_near hS h hk hne hlen.le hB hj).weaken (le_of_eq (by rw [hlen]; field_simp)))
    (fun j _ => abs_varOf_le hS ht1 ht2 hn hB j)
  exact this.weaken (le_of_eq (by ring))

/-- one side of the split: weight times variance -/
theorem weighted_near {w v : B64} {m x : ℚ} (hm : 1 ≤ m) (hmn : m ≤ n) (hx0 : 0 ≤ x) (hx : x ≤ B * B)
    (hw : Near w (m / n) (u * (m / n) + tiny)) (hv : Near v x (44 * (n * n * u / m) * (B * B))) :
    Near (w *. v) (m / n * x) (49 * (n * u * (B * B))) := by
  have hB := hS.pos
  have hu := u_pos
  have hul := u_le
  have hC0 : 0 < B * B := mul_pos hB hB
  have hn0 : (1 : ℚ) ≤ n := by exact_mod_cast hn
  have hm0 : 0 < m := by linarith
  have hnq := hS.rows_q
  have hts := hS.tiny_sq
  have hbs := hS.sq_big
  have ht := tiny_pos
  norm_num at hts hbs
  have hnu : (n : ℚ) * u ≤ 1 / 1024 := by
    have := mul_le_mul_of_nonneg_right hnq hu.le
    refine this.trans ?_
    unfold u; norm_num
  have hr1 : m / n ≤ 1 := by rw [div_le_one (by linarith)]; exact hmn
  have hr0 : 0 < m / (n : ℚ) := by positivity
  have hinv : (1 : ℚ) / 16777216 ≤ m / n := by
    rw [div_le_div_iff₀ (by norm_num) (by linarith)]; nlinarith
  have htu : tiny ≤ u * (m / n) := by
    have h1 : u * (1 / 16777216) ≤ u * (m / n) := mul_le_mul_of_nonneg_left hinv hu.le
    have h2 : (1 / 2 ^ 800 : ℚ) ≤ 1 / 16777216 := by
      rw [show (16777216 : ℚ) = 2 ^ 24 by norm_num]
      exact one_div_le_one_div_of_le (by positivity) (pow_le_pow_right₀ (by norm_num) (by norm_num))
    have h3 := tiny_small
    have h4 := mul_le_mul_of_nonneg_left h2 hu.le
    have h5 : tiny ≤ 2 ^ 50 * tiny := by nlinarith
    exact (h5.trans h3).trans (h4.trans h1)
  have hw : Near w (m / n) (2 * (u * (m / n))) := hw.weaken (by linarith)
  have hp0 : 0 < n * u * (B * B) := by positivity
  have e1 : m / n * (44 * (n * n * u / m) * (B * B)) = 44 * (n * u * (B * B)) := by field_simp
  have e2 : u * (m / n) * x ≤ n * u * (B * B) := by
    have h1 : u * (m / n) ≤ n * u := by nlinarith
    exact mul_le_mul h1 hx hx0 (by positivity)
  have e3 : u * (m / n) * (44 * (n * n * u / m) * (B * B)) ≤ 1 / 1024 * (44 * (n * u * (B * B))) := by
    rw [mul_assoc, e1]; exact mul_le_mul_of_nonneg_right hul (by positivity)
  have hval : |m / n * x| ≤ B * B := by
    rw [abs_of_nonneg (mul_nonneg hr0.le hx0)]
    calc m / n * x ≤ 1 * (B * B) := mul_le_mul hr1 hx hx0 (by norm_num)
      _ = B * B := one_mul _
  have hnuC : n * u * (B * B) ≤ 1 / 1024 * (B * B) := mul_le_mul_of_nonneg_right hnu hC0.le
  have huC : u * (B * B) ≤ n * u * (B * B) := mul_le_mul_of_nonneg_right (by nlinarith) hC0.le
  have h := hw.mul hv (p := 47 * (n * u * (B * B))) (by
      rw [abs_of_pos hr0, abs_of_nonneg hx0, e1]
      have : 2 * (u * (m / n)) * (x + 44 * (n * n * u / m) * (B * B)) =
        2 * (u * (m / n) * x) + 2 * (u * (m / n) * (44 * (n * n * u / m) * (B * B))) := by ring
      rw [this]
      linarith) (by linarith)
  refine h.weaken ?_
  have g1 : u * |m / n * x| ≤ u * (B * B) := mul_le_mul_of_nonneg_left hval hu.le
  have g2 : u * (n * u * (B * B)) ≤ 1 / 1024 * (n * u * (B * B)) := mul_le_mul_of_nonneg_right hul hp0.le
  linarith

theorem splitLoss_near {k1 k2 : ℕ} {left right : Tracker B64} {a b : List (List ℚ)} (hl : TrkNear t n B k1 left a)
    (hr : TrkNear t n B k2 right b) (hk1 : k1 ≤ 2 * n) (hk2 : k2 ≤ 2 * n) (ha : a ≠ []) (hb : b ≠ []) (hlen : a.length + b.length = n)
    (hBa : AtMost B a) (hBb : AtMost B b) :
    Near (splitLoss left right) (splitVar t a b) ((202 * n + 2 * t) * (t * (u * (B * B)))) := by
  have hB := hS.pos
  have hu := u_pos
  have hul := u_le
  have hC0 : 0 < B * B := mul_pos hB hB
  have hn0 : (1 : ℚ) ≤ n := by exact_mod_cast hn
  have ha1 : (1 : ℚ) ≤ a.length := by exact_mod_cast List.length_pos_of_ne_nil ha
  have hb1 : (1 : ℚ) ≤ b.length := by exact_mod_cast List.length_pos_of_ne_nil hb
  have hsum : (a.length : ℚ) + b.length = n := by exact_mod_cast hlen
  have hnq := hS.rows_q
  have hts := hS.tiny_sq
  have hbs := hS.sq_big
  have ht := tiny_pos
  norm_num at hts hbs
  have hnu : (n : ℚ) * u ≤ 1 / 1024 := by
    have := mul_le_mul_of_nonneg_right hnq hu.le
    refine this.trans ?_
    unfold u; norm_num
  have htot : (left.numberOfLabels +. right.numberOfLabels).val = .fin (n : ℚ) := by
    rw [add_val, hl.count, hr.count, Ext.fin_add, hsum]
    exact roundE_nat (by have := hS.rows; omega)
  have hbig : (2 : ℚ) ≤ big := by
    have := big_ge (show 1 ≤ 1000 by norm_num)
    linarith
  have hweight : ∀ {c : B64} {m : ℚ}, c.val = .fin m → 1 ≤ m → m ≤ n →
      Near (c /. (left.numberOfLabels +. right.numberOfLabels)) (m / n) (u * (m / n) + tiny) := by
    intro c m hc h1 h2
    have hm : |m| = m := abs_of_pos (by linarith)
    have h3 : m / n ≤ 1 := by rw [div_le_one (by linarith)]; exact h2
    have := (Near.exact hc).div htot (by linarith) (by rw [hm]; simp only [zero_div, add_zero]; linarith)
    refine this.weaken (le_of_eq ?_)
    rw [hm]; ring
  have hp0 : 0 < n * u * (B * B) := by positivity
  have hnuC : n * u * (B * B) ≤ 1 / 1024 * (B * B) := mul_le_mul_of_nonneg_right hnu hC0.le
  have huC : u * (B * B) ≤ n * u * (B * B) := mul_le_mul_of_nonneg_right (by nlinarith) hC0.le
  have hvl : ∀ j < t, 0 ≤ varOf (target a j) ∧ varOf (target a j) ≤ B * B := fun j _ =>
    ⟨varOf_nonneg _, varOf_le (hBa.target hB.le j)⟩
  have hvr : ∀ j < t, 0 ≤ varOf (target b j) ∧ varOf (target b j) ≤ B * B := fun j _ =>
    ⟨varOf_nonneg _, varOf_le (hBb.target hB.le j)⟩
  have hconv : ∀ j < t, |(a.length : ℚ) / n * varOf (target a j) + b.length / n * varOf (target b j)| ≤ B * B := by
    intro j hj
    have g1 : (a.length : ℚ) / n * varOf (target a j) ≤ a.length / n * (B * B) := mul_le_mul_of_nonneg_left (hvl j hj).2 (by positivity)
    have g2 : (b.length : ℚ) / n * varOf (target b j) ≤ b.length / n * (B * B) := mul_le_mul_of_nonneg_left (hvr j hj).2 (by positivity)
    have g3 : (a.length : ℚ) / n * (B * B) + b.length / n * (B * B) = B * B := by
      rw [← add_mul, ← add_div, hsum, div_self (by linarith), one_mul]
    rw [abs_of_nonneg (add_nonneg (mul_nonneg (by positivity) (hvl j hj).1) (mul_nonneg (by positivity) (hvr j hj).1))]
    linarith
  have key := targets_near hS ht1 ht2 hn
    (xs := List.zipWith (fun l r => (left.numberOfLabels /. (left.numberOfLabels +. right.numberOfLabels) *. l) +.
      (right.numberOfLabels /. (left.numberOfLabels +. right.numberOfLabels) *. r))
      (varVec left.metrics left.numberOfLabels) (varVec right.metrics right.numberOfLabels))
    (f := fun j => (a.length : ℚ) / n * varOf (target a j) + b.length / n * varOf (target b j)) (a := 101)
    (by simp [Shape.varVec_length hl.shape, Shape.varVec_length hr.shape]) (by norm_num) (by norm_num)
    (by
      intro j hj
      rw [zipWith_getD_of (a := F64.zero) (b := F64.zero) (by rw [Shape.varVec_length hl.shape]; exact hj)
        (by rw [Shape.varVec_length hr.shape]; exact hj)]
      have h1 := weighted_near hS ht1 ht2 hn ha1 (by linarith) (hvl j hj).1 (hvl j hj).2 (hweight hl.count ha1 (by linarith))
        (varVec_near hS hl hk1 ha (by omega) hBa hj)
      have h2 := weighted_near hS ht1 ht2 hn hb1 (by linarith) (hvr j hj).1 (hvr j hj).2 (hweight hr.count hb1 (by linarith))
        (varVec_near hS hr hk2 hb (by omega) hBb hj)
      have hc := hconv j hj
      refine (h1.add h2 (by linarith)).weaken ?_
      have g1 := mul_le_mul_of_nonneg_left hc hu.le
      have g2 : u * (n * u * (B * B)) ≤ 1 / 1024 * (n * u * (B * B)) := mul_le_mul_of_nonneg_right hul hp0.le
      linarith)
    hconv
  have e : splitVar t a b = ((List.range t).map (fun j => (a.length : ℚ) / n * varOf (target a j) + b.length / n * varOf (target b j))).sum := by
    rw [splitVar, totalVar, totalVar, hsum, List.sum_map_add, List.sum_map_mul_left, List.sum_map_mul_left]
    field_simp
  rw [e]
  exact key.weaken (le_of_eq (by ring))

/-- the candidates of a scan -/
theorem cands_near {prev : B64} : ∀ (seq : List (B64 × List B64)) (s a : List (List ℚ)) (left right : Tracker B64),
    (seq.map Prod.snd).map (List.map B64.val) = lift s → (∀ v ∈ s, v.length = t) → AtMost B (a ++ s) → a.length + s.length = n →
    TrkNear t n B a.length left a → TrkNear t n B (n + a.length) right s →
    (a = [] → ∀ v, (seq.map Prod.fst)[0]? = some v → (v ==. prev) = true) →
    (∀ b ∈ cands prev left right seq, ∃ i v, (seq.map Prod.fst)[i]? = some v ∧ (v ==. prev) = false ∧ b.thresholdValue = v ∧
      Near b.loss (splitVar t (a ++ s.take i) (s.drop i)) ((202 * n + 2 * t) * (t * (u * (B * B))))) ∧
    (∀ i v, (seq.map Prod.fst)[i]? = some v → (v ==. prev) = false → ∃ b ∈ cands prev left right seq, b.thresholdValue = v ∧
      Near b.loss (splitVar t (a ++ s.take i) (s.drop i)) ((202 * n + 2 * t) * (t * (u * (B * B))))) := by
  intro seq
  induction seq with
  | nil =>
    intro s a left right _ _ _ _ _ _ _
    refine ⟨?_, ?_⟩
    · intro b hb; simp [cands] at hb
    · intro i v hv; simp at hv
  | cons p seq ih =>
    obtain ⟨v, l⟩ := p
    intro s a left right hs hv hB hlen hl hr hprev
    cases s with
    | nil => simp [lift] at hs
    | cons w s =>
      simp only [List.map_cons, lift, List.cons.injEq] at hs
      simp only [List.length_cons] at hlen
      have hwB : AtMost B (a ++ [w]) := fun x hx => hB x (by
        rcases List.mem_append.mp hx with h | h
        · exact List.mem_append_left _ h
        · simp only [List.mem_singleton] at h; simp [h])
      have hsB : AtMost B (w :: s) := fun x hx => hB x (List.mem_append_right _ hx)
      have haB : AtMost B a := fun x hx => hB x (List.mem_append_left _ hx)
      have hl' := updLeft_near hS hl (by omega) (by omega) hs.1 (hv w (by simp)) hwB
      have hr' := updRight_near hS hr (by omega) (by omega) hs.1 (hv w (by simp)) hsB
      obtain ⟨ih1, ih2⟩ := ih s (a ++ [w]) (updLeft left l) (updRight right l) hs.2 (fun x hx => hv x (by simp [hx]))
        (by simpa using hB) (by simp; omega) (by simpa using hl') (by simpa [Nat.add_assoc] using hr') (by simp)
      have hhead : (v ==. prev) = false → Near (splitLoss left right) (splitVar t (a ++ (w :: s).take 0) ((w :: s).drop 0))
          ((202 * n + 2 * t) * (t * (u * (B * B)))) := by
        intro hvp
        have ha : a ≠ [] := by
          intro h0
          have := hprev h0 v (by simp)
          rw [this] at hvp; simp at hvp
        have := splitLoss_near hS ht1 ht2 hn hl hr (by omega) (by omega) ha (by simp) (by simpa using hlen) haB hsB
        simpa using this
      constructor
      · intro b hb
        rw [cands, List.mem_append] at hb
        rcases hb with hb | hb
        · split at hb
          · next hvp =>
            simp only [List.mem_singleton] at hb
            have hvp : (v ==. prev) = false := by simpa using hvp
            exact ⟨0, v, by simp, hvp, by rw [hb], by rw [hb]; exact hhead hvp⟩
          · simp at hb
        · obtain ⟨i, v', h1, h2, h3, h4⟩ := ih1 b hb
          exact ⟨i + 1, v', by simpa using h1, h2, h3, by simpa using h4⟩
      · intro i v' h1 h2
        cases i with
        | zero =>
          simp only [List.map_cons, List.getElem?_cons_zero, Option.some.injEq] at h1
          subst h1
          exact ⟨{ loss := splitLoss left right, thresholdValue := v }, by rw [cands, h2]; simp, rfl, hhead h2⟩
        | succ i =>
          obtain ⟨b, hb, h3, h4⟩ := ih2 i v' (by simpa using h1) h2
          exact ⟨b, by rw [cands]; exact List.mem_append_right _ hb, h3, by simpa using h4⟩

end

/-! ## values -/

theorem tupleLe_val (a b : B64 × ℕ) : tupleLe (a.1.val, a.2) (b.1.val, b.2) = tupleLe a b := by
  simp only [tupleLe, lt_val, eq_val]

theorem sorted_val (l : List (B64 × ℕ)) : sorted (l.map (fun p => (p.1.val, p.2))) = (sorted l).map (fun p => (p.1.val, p.2)) := by
  have hins : ∀ (a : B64 × ℕ) (l : List (B64 × ℕ)),
      insertTuple (a.1.val, a.2) (l.map (fun p => (p.1.val, p.2))) = (insertTuple a l).map (fun p => (p.1.val, p.2)) := by
    intro a l
    induction l with
    | nil => rfl
    | cons b l ih =>
      simp only [List.map_cons, insertTuple, tupleLe_val]
      split
      · rfl
      · rw [ih]; rfl
  unfold sorted
  induction l with
  | nil => rfl
  | cons a l ih =>
    simp only [List.map_cons, List.foldr_cons]
    rw [ih, hins]

theorem seqOf_val {labels : List (List B64)} {ls : List (List ℚ)} (hl : labels.map (List.map B64.val) = lift ls) (col : List B64) :
    ((seqOf labels col).map Prod.fst).map B64.val = (eseq ls (col.map B64.val)).map Prod.fst ∧
    ((seqOf labels col).map Prod.snd).map (List.map B64.val) = lift (labs (eseq ls (col.map B64.val))) := by
  have hz : (col.map B64.val).zipIdx = col.zipIdx.map (fun p => (p.1.val, p.2)) := by
    rw [List.zipIdx_map]; rfl
  have hg : ∀ i, (labels.getD i []).map B64.val = liftV (ls.getD i []) := by
    intro i
    have := congrArg (fun x => x.getD i []) hl
    simp only [lift, List.getD, List.getElem?_map] at this
    rcases h1 : labels[i]? with _ | x <;> rcases h2 : ls[i]? with _ | y <;> simp_all [List.getD, liftV]
  constructor
  · simp only [seqOf, eseq, hz, sorted_val, List.map_map, Function.comp_def]
  · simp only [seqOf, eseq, labs, lift, hz, sorted_val, List.map_map, Function.comp_def]
    apply List.map_congr_left
    intro p _
    exact hg p.2

end Verif
