import Verif.Spec.NearBest
import Verif.Lemmas.NearFit
/-!
# Lemmas for C127: gains of integer labels that differ differ by a fraction
-/

set_option linter.unusedSectionVars false

namespace Verif

open B64

theorem parts_zq {t : ℕ} {a b : List (List ℚ)} (hwa : Whole a) (hwb : Whole b) (hn : 2 ≤ a.length + b.length) :
    ∃ P : ℕ, 2 * P ≤ (a.length + b.length) ^ 2 ∧ 0 < P ∧ (P : ℚ) * (a.length * totalVar t a + b.length * totalVar t b) ∈ Zq := by
  rcases Nat.eq_zero_or_pos a.length with ha | ha
  · refine ⟨b.length, by rw [ha]; nlinarith, by omega, ?_⟩
    have := totalVar_zq (t := t) hwb
    rw [ha]
    have e : (b.length : ℚ) * (((0 : ℕ) : ℚ) * totalVar t a + b.length * totalVar t b) = (b.length : ℚ) ^ 2 * totalVar t b := by push_cast; ring
    rwa [e]
  rcases Nat.eq_zero_or_pos b.length with hb | hb
  · refine ⟨a.length, by rw [hb]; nlinarith, by omega, ?_⟩
    have := totalVar_zq (t := t) hwa
    rw [hb]
    have e : (a.length : ℚ) * (a.length * totalVar t a + ((0 : ℕ) : ℚ) * totalVar t b) = (a.length : ℚ) ^ 2 * totalVar t a := by push_cast; ring
    rwa [e]
  refine ⟨a.length * b.length, ?_, Nat.mul_pos ha hb, ?_⟩
  · rw [add_sq]
    have : 0 ≤ a.length ^ 2 + b.length ^ 2 := Nat.zero_le _
    nlinarith
  · have e : ((a.length * b.length : ℕ) : ℚ) * (a.length * totalVar t a + b.length * totalVar t b) =
        b.length * ((a.length : ℚ) ^ 2 * totalVar t a) + a.length * ((b.length : ℚ) ^ 2 * totalVar t b) := by push_cast; ring
    rw [e]
    exact Zq.add_mem (Zq.mul_mem (natCast_zq _) (totalVar_zq hwa)) (Zq.mul_mem (natCast_zq _) (totalVar_zq hwb))

theorem parts_one {t : ℕ} {a b : List (List ℚ)} (hn : a.length + b.length = 1) : (a.length : ℚ) * totalVar t a + b.length * totalVar t b = 0 := by
  have h : ∀ l : List (List ℚ), l.length ≤ 1 → totalVar t l = 0 := by
    intro l hl
    apply totalVar_const
    match l, hl with
    | [], _ => simp
    | [x], _ => simp
  rw [h a (by omega), h b (by omega)]
  ring

/-- two divisions of `n` integer labels: the sums of squares left differ by nothing or by at least `4 / n^4` -/
theorem parts_gap {t n : ℕ} {a b a' b' : List (List ℚ)} (ha : Whole a) (hb : Whole b) (ha' : Whole a') (hb' : Whole b')
    (hn0 : 0 < n) (hn : a.length + b.length = n) (hn' : a'.length + b'.length = n)
    (h : (a.length : ℚ) * totalVar t a + b.length * totalVar t b < a'.length * totalVar t a' + b'.length * totalVar t b') :
    4 ≤ (n : ℚ) ^ 4 * ((a'.length * totalVar t a' + b'.length * totalVar t b') - (a.length * totalVar t a + b.length * totalVar t b)) := by
  rcases Nat.lt_or_ge n 2 with h1 | h2
  · rw [parts_one (by omega), parts_one (by omega)] at h
    exact absurd h (lt_irrefl _)
  obtain ⟨P, hP, hP0, hz⟩ := parts_zq (t := t) ha hb (by omega)
  obtain ⟨P', hP', hP0', hz'⟩ := parts_zq (t := t) ha' hb' (by omega)
  rw [hn] at hP
  rw [hn'] at hP'
  set S := (a.length : ℚ) * totalVar t a + b.length * totalVar t b
  set S' := (a'.length : ℚ) * totalVar t a' + b'.length * totalVar t b'
  have hd : (P : ℚ) * P' * (S' - S) ∈ Zq := by
    have e : (P : ℚ) * P' * (S' - S) = P * (P' * S') - P' * (P * S) := by ring
    rw [e]
    exact Zq.sub_mem (Zq.mul_mem (natCast_zq _) hz') (Zq.mul_mem (natCast_zq _) hz)
  have p1 : (0 : ℚ) < P := by exact_mod_cast hP0
  have p2 : (0 : ℚ) < P' := by exact_mod_cast hP0'
  have q1 : 2 * (P : ℚ) ≤ (n : ℚ) ^ 2 := by exact_mod_cast hP
  have q2 : 2 * (P' : ℚ) ≤ (n : ℚ) ^ 2 := by exact_mod_cast hP'
  have hpos : 0 < S' - S := sub_pos.mpr h
  obtain ⟨z, hz⟩ := hd
  have hz' : (z : ℚ) = P * P' * (S' - S) := by simpa using hz
  have h1 : (1 : ℚ) ≤ z := by
    have : (0 : ℚ) < z := by rw [hz']; positivity
    have : 0 < z := by exact_mod_cast this
    exact_mod_cast this
  rw [hz'] at h1
  have h4 : 4 * ((P : ℚ) * P') ≤ (n : ℚ) ^ 4 := by
    have := mul_le_mul q1 q2 (by positivity) (by positivity)
    nlinarith
  have h5 : 4 * ((P : ℚ) * P') * (S' - S) ≤ (n : ℚ) ^ 4 * (S' - S) := mul_le_mul_of_nonneg_right h4 hpos.le
  linarith

theorem sides_total {rows : List (List (Ext ℚ))} {ls : List (List ℚ)} (hlen : rows.length = ls.length) (q : Question (Ext ℚ)) :
    (noLabels rows ls q).length + (yesLabels rows ls q).length = ls.length := by
  rw [noLabels, yesLabels, List.length_map, List.length_map, ← List.countP_eq_length_filter, ← List.countP_eq_length_filter]
  have := List.length_eq_countP_add_countP (fun e : List (Ext ℚ) × List ℚ => satisfies q e.1) (l := rows.zip ls)
  rw [List.length_zip, hlen, min_self] at this
  rw [this, add_comm]
  congr 1
  apply List.countP_congr
  simp

theorem sides_are_whole {rows : List (List (Ext ℚ))} {ls : List (List ℚ)} (hw : Whole ls) (q : Question (Ext ℚ)) :
    Whole (noLabels rows ls q) ∧ Whole (yesLabels rows ls q) := by
  constructor <;>
  · intro v hv
    obtain ⟨e, he, rfl⟩ := List.mem_map.mp hv
    exact hw _ (List.of_mem_zip (List.mem_filter.mp he).1).2

section
variable {t : ℕ} {rows : List (List (Ext ℚ))} {ls : List (List ℚ)} (hlen : rows.length = ls.length) (hne : ls ≠ []) (hw : Whole ls)
include hlen hne hw

theorem vr_eq (q : Question (Ext ℚ)) : (ls.length : ℚ) * varianceReduction t rows ls q = ls.length * totalVar t ls -
    ((noLabels rows ls q).length * totalVar t (noLabels rows ls q) + (yesLabels rows ls q).length * totalVar t (yesLabels rows ls q)) := by
  have h0 : (ls.length : ℚ) ≠ 0 := length_cast_ne hne
  have := sides_total hlen q
  have e : ((noLabels rows ls q).length : ℚ) + (yesLabels rows ls q).length = ls.length := by exact_mod_cast this
  rw [varianceReduction, e]
  field_simp

/-- the gains of two questions differ by nothing or by at least `4 / n^5` -/
theorem vr_gap {q q' : Question (Ext ℚ)} (h : varianceReduction t rows ls q < varianceReduction t rows ls q') :
    4 ≤ (ls.length : ℚ) ^ 5 * (varianceReduction t rows ls q' - varianceReduction t rows ls q) := by
  have hp : 0 < ls.length := List.length_pos_of_ne_nil hne
  have h0 : (0 : ℚ) < ls.length := by exact_mod_cast hp
  have e := vr_eq (t := t) hlen hne hw q
  have e' := vr_eq (t := t) hlen hne hw q'
  have hm := mul_lt_mul_of_pos_left h h0
  have := parts_gap (t := t) (sides_are_whole (rows := rows) hw q').1 (sides_are_whole (rows := rows) hw q').2 (sides_are_whole (rows := rows) hw q).1
    (sides_are_whole (rows := rows) hw q).2 hp (sides_total hlen q') (sides_total hlen q) (by linarith)
  calc (4 : ℚ) ≤ _ := this
    _ = (ls.length : ℚ) ^ 4 * (ls.length * varianceReduction t rows ls q' - ls.length * varianceReduction t rows ls q) := by rw [e, e']; ring
    _ = _ := by ring

/-- a gain that is positive is at least `4 / n^5` -/
theorem vr_gap_zero {q : Question (Ext ℚ)} (h : 0 < varianceReduction t rows ls q) : 4 ≤ (ls.length : ℚ) ^ 5 * varianceReduction t rows ls q := by
  have hp : 0 < ls.length := List.length_pos_of_ne_nil hne
  have h0 : (0 : ℚ) < ls.length := by exact_mod_cast hp
  have e := vr_eq (t := t) hlen hne hw q
  have hm := mul_pos h0 h
  have := parts_gap (t := t) (a' := []) (b' := ls) (sides_are_whole (rows := rows) hw q).1 (sides_are_whole (rows := rows) hw q).2 (by intro v hv; simp at hv) hw
    hp (sides_total hlen q) (by simp) (by rw [List.length_nil]; push_cast; linarith)
  rw [List.length_nil] at this
  push_cast at this
  calc (4 : ℚ) ≤ _ := this
    _ = (ls.length : ℚ) ^ 4 * (ls.length * varianceReduction t rows ls q) := by rw [e]; ring
    _ = _ := by ring

end

namespace GapInts
variable {n t b : ℕ} (h : GapInts n t b)
include h

theorem fewer {m : ℕ} (hm : m ≤ n) : GapInts m t b := by
  refine ⟨h.target, h.bound, Nat.lt_of_le_of_lt ?_ h.size⟩
  gcongr

theorem few : FewInts n t b := by
  refine ⟨h.target, h.bound, ?_⟩
  have h1 : n ^ 4 ≤ n ^ 5 ∨ n = 0 := by
    rcases Nat.eq_zero_or_pos n with h0 | h0
    · exact .inr h0
    · exact .inl (Nat.pow_le_pow_right h0 (by norm_num))
  rcases h1 with h1 | rfl
  · have h2 : n ^ 4 * t * (n + t) * b ^ 2 ≤ n ^ 5 * t * (n + t) * b ^ 2 := by gcongr
    have := h.size
    omega
  · simp

theorem tolerance : (n : ℚ) ^ 5 * (2 * splitTolerance n t b) < 4 := by
  have h1 : ((n ^ 5 * t * (n + t) * b ^ 2 : ℕ) : ℚ) < ((2 ^ 45 : ℕ) : ℚ) := by exact_mod_cast h.size
  push_cast at h1
  unfold splitTolerance
  rw [← mul_div_assoc, ← mul_div_assoc, div_lt_iff₀ (by positivity)]
  linarith

end GapInts

end Verif
