import Verif.Lemmas.ExactCut
import Verif.Lemmas.ExactClass
import Verif.Lemmas.FullFit
import Verif.Spec.Repeat
/-! # Repeated examples do not change the trees, in exact arithmetic -/

set_option linter.unusedSectionVars false

namespace Verif

/-! ## lists -/

section lists
variable {α β : Type}

@[simp] theorem repeatEach_nil (k : Nat) : repeatEach k ([] : List α) = [] := rfl

theorem repeatEach_cons (k : Nat) (a : α) (l : List α) : repeatEach k (a :: l) = List.replicate k a ++ repeatEach k l := by
  simp [repeatEach]

theorem repeatEach_append (k : Nat) (a b : List α) : repeatEach k (a ++ b) = repeatEach k a ++ repeatEach k b := by
  simp [repeatEach]

theorem repeatEach_length (k : Nat) (l : List α) : (repeatEach k l).length = k * l.length := by
  induction l with
  | nil => simp
  | cons a l ih => rw [repeatEach_cons, List.length_append, ih, List.length_replicate, List.length_cons]; ring

theorem repeatEach_map (k : Nat) (f : α → β) (l : List α) : (repeatEach k l).map f = repeatEach k (l.map f) := by
  induction l with
  | nil => simp
  | cons a l ih => simp [repeatEach_cons, ih]

theorem mem_repeatEach {k : Nat} (hk : 0 < k) {a : α} {l : List α} : a ∈ repeatEach k l ↔ a ∈ l := by
  simp only [repeatEach, List.mem_flatMap, List.mem_replicate]
  constructor
  · rintro ⟨b, hb, _, rfl⟩; exact hb
  · intro h; exact ⟨a, h, by omega, rfl⟩

theorem repeatEach_eq_nil {k : Nat} (hk : 0 < k) {l : List α} : repeatEach k l = [] ↔ l = [] := by
  cases l with
  | nil => simp
  | cons a l =>
    rw [repeatEach_cons]
    simp; omega

theorem repeatEach_filter (k : Nat) (p : α → Bool) (l : List α) : (repeatEach k l).filter p = repeatEach k (l.filter p) := by
  induction l with
  | nil => simp
  | cons a l ih =>
    rw [repeatEach_cons, List.filter_append, ih, List.filter_cons, List.filter_replicate]
    split <;> simp [repeatEach_cons]

theorem repeatEach_zip (k : Nat) : ∀ (a : List α) (b : List β), (repeatEach k a).zip (repeatEach k b) = repeatEach k (a.zip b) := by
  intro a
  induction a with
  | nil => intro b; simp
  | cons x a ih =>
    intro b
    cases b with
    | nil => simp
    | cons y b =>
      rw [repeatEach_cons, repeatEach_cons, List.zip_append (by simp), ih, List.zip_cons_cons, repeatEach_cons]
      simp

theorem repeatEach_zipWith {γ : Type} (k : Nat) (f : α → β → γ) (a : List α) (b : List β) :
    List.zipWith f (repeatEach k a) (repeatEach k b) = repeatEach k (List.zipWith f a b) := by
  rw [← List.map_uncurry_zip_eq_zipWith, repeatEach_zip, repeatEach_map, List.map_uncurry_zip_eq_zipWith]

theorem repeatEach_getElem? {k : Nat} : ∀ (l : List α) (i e : Nat), e < k → (repeatEach k l)[k * i + e]? = l[i]? := by
  intro l
  induction l with
  | nil => intro i e _; simp
  | cons a l ih =>
    intro i e he
    rw [repeatEach_cons]
    cases i with
    | zero =>
      rw [List.getElem?_append_left (by simpa using he)]
      simp [he]
    | succ i =>
      rw [List.getElem?_append_right (by simp; nlinarith)]
      have : k * (i + 1) + e - (List.replicate k a).length = k * i + e := by
        rw [List.length_replicate, Nat.mul_succ]; omega
      rw [this, ih i e he]; simp

theorem repeatEach_take {k : Nat} : ∀ (l : List α) (i : Nat), (repeatEach k l).take (k * i) = repeatEach k (l.take i) := by
  intro l
  induction l with
  | nil => simp
  | cons a l ih =>
    intro i
    cases i with
    | zero => simp
    | succ i =>
      rw [repeatEach_cons, List.take_append, List.take_of_length_le (by simp; nlinarith), List.take_succ_cons, repeatEach_cons]
      congr 1
      have : k * (i + 1) - (List.replicate k a).length = k * i := by
        rw [List.length_replicate, Nat.mul_succ]; omega
      rw [this, ih]

theorem repeatEach_drop {k : Nat} : ∀ (l : List α) (i : Nat), (repeatEach k l).drop (k * i) = repeatEach k (l.drop i) := by
  intro l
  induction l with
  | nil => simp
  | cons a l ih =>
    intro i
    cases i with
    | zero => simp
    | succ i =>
      rw [repeatEach_cons, List.drop_append, List.drop_of_length_le (by simp; nlinarith), List.drop_succ_cons, List.nil_append]
      have : k * (i + 1) - (List.replicate k a).length = k * i := by
        rw [List.length_replicate, Nat.mul_succ]; omega
      rw [this, ih]

/-- a cut of the repeated list inside the copies of one entry -/
theorem repeatEach_cut {k : Nat} {l : List α} {i e : Nat} {a : α} (he : e < k) (hi : l[i]? = some a) :
    (repeatEach k l).take (k * i + e) = repeatEach k (l.take i) ++ List.replicate e a ∧
    (repeatEach k l).drop (k * i + e) = List.replicate (k - e) a ++ repeatEach k (l.drop (i + 1)) := by
  obtain ⟨hlt, rfl⟩ := List.getElem?_eq_some_iff.mp hi
  have h1 : (repeatEach k l).drop (k * i) = List.replicate k l[i] ++ repeatEach k (l.drop (i + 1)) := by
    rw [repeatEach_drop, List.drop_eq_getElem_cons hlt, repeatEach_cons]
  constructor
  · rw [List.take_add, repeatEach_take, h1, List.take_append_of_le_length (by simp; omega), List.take_replicate]
    congr 2; omega
  · rw [← List.drop_drop, h1, List.drop_append_of_le_length (by simp; omega), List.drop_replicate]

theorem replicate_zipIdx (k s : Nat) (a : α) : (List.replicate k a).zipIdx s = (List.range k).map (fun e => (a, s + e)) := by
  apply List.ext_getElem (by simp)
  intro i h1 h2
  simp

theorem repeatEach_zipIdx (k : Nat) : ∀ (l : List α) (n : Nat),
    (repeatEach k l).zipIdx (k * n) = (l.zipIdx n).flatMap (fun p => (List.range k).map (fun e => (p.1, k * p.2 + e))) := by
  intro l
  induction l with
  | nil => intro n; simp
  | cons a l ih =>
    intro n
    rw [repeatEach_cons, List.zipIdx_append, replicate_zipIdx, List.zipIdx_cons, List.flatMap_cons, ← ih (n + 1)]
    congr 2
    rw [List.length_replicate, Nat.mul_succ]

end lists

variable {K : Type} [Field K] [LinearOrder K] [IsStrictOrderedRing K] [FloorSemiring K] [HasExp K] {L : Type}

/-! ## the sorted columns -/

theorem sorted_repeat {k : Nat} {col : List (Ext K)} (hn : ∀ x ∈ col, isNaN x = false) :
    sorted (repeatEach k col).zipIdx =
      (sorted col.zipIdx).flatMap (fun p => (List.range k).map (fun e => (p.1, k * p.2 + e))) := by
  have hz := repeatEach_zipIdx k col 0
  rw [Nat.mul_zero] at hz
  have hnn : ∀ p ∈ sorted col.zipIdx, NN p.1 := fun p hp =>
    nn_of_isNaN_false (hn _ (List.fst_mem_of_mem_zipIdx ((sorted_perm _).mem_iff.mp hp)))
  have hinj : ∀ a ∈ sorted (repeatEach k col).zipIdx, ∀ b ∈ sorted (repeatEach k col).zipIdx, a.2 = b.2 → a = b := by
    intro a ha b hb hab
    have h1 := mem_sorted ha
    have h2 := mem_sorted hb
    exact Prod.ext (by rw [h1.2, h2.2, hab]) hab
  refine sorted_unique ?_ hinj ?_ ?_
  · rw [hz]
    exact (sorted_perm _).trans ((sorted_perm _).symm.flatMap_right _)
  · refine sorted_pairwise ?_
    intro p hp
    have : p.1 ∈ repeatEach k col := List.fst_mem_of_mem_zipIdx hp
    refine nn_of_isNaN_false (hn _ ?_)
    obtain ⟨b, hb, hb'⟩ := List.mem_flatMap.mp this
    rw [(List.mem_replicate.mp hb').2]; exact hb
  · rw [List.pairwise_flatMap]
    constructor
    · intro p hp
      rw [List.pairwise_map]
      refine List.pairwise_lt_range.imp ?_
      intro x y hxy
      simp only [tupleLe, Bool.or_eq_true, Bool.and_eq_true, decide_eq_true_eq]
      exact .inr ⟨LawfulOrder.eq_iff.mpr ⟨le_rfl' (hnn p hp), le_rfl' (hnn p hp)⟩, by omega⟩
    · have hs := sorted_pairwise (v := col.zipIdx) (fun p hp => hnn p ((sorted_perm _).mem_iff.mpr hp))
      have hd : (sorted col.zipIdx).Pairwise (fun a b => a.2 ≠ b.2) := List.pairwise_map.mp (sorted_nodup (col := col))
      refine (hs.and hd).imp ?_
      rintro a b ⟨hab, hne⟩ x hx y hy
      obtain ⟨e, he, rfl⟩ := List.mem_map.mp hx
      obtain ⟨e', he', rfl⟩ := List.mem_map.mp hy
      rw [List.mem_range] at he he'
      simp only [tupleLe, Bool.or_eq_true, Bool.and_eq_true, decide_eq_true_eq] at hab ⊢
      rcases hab with h | ⟨h, h'⟩
      · exact .inl h
      · refine .inr ⟨h, ?_⟩
        have : a.2 + 1 ≤ b.2 := by omega
        have := Nat.mul_le_mul_left k this
        rw [Nat.mul_succ] at this
        omega

theorem eseq_repeat {k : Nat} {ls : List (List K)} {col : List (Ext K)} (hn : ∀ x ∈ col, isNaN x = false) :
    eseq (repeatEach k ls) (repeatEach k col) = repeatEach k (eseq ls col) := by
  rw [eseq, sorted_repeat hn, eseq, ← repeatEach_map, List.map_flatMap]
  conv_rhs => rw [repeatEach, List.map_flatMap]
  congr 1
  funext p
  rw [List.map_map, List.map_replicate]
  apply List.ext_getElem (by simp)
  intro i h1 h2
  simp only [List.length_map, List.length_range] at h1
  simp only [List.getElem_map, List.getElem_range, List.getElem_replicate, Function.comp_apply, List.getD, repeatEach_getElem? ls p.2 i h1]

/-! ## variances -/

/-- the squared deviations from the mean, added up over rows and targets -/
def wss (t : Nat) (vs : List (List K)) : K := vs.length * totalVar t vs

theorem wss_eq (t : Nat) (vs : List (List K)) :
    wss t vs = ((List.range t).map (fun j => sqDev (meanOf (target vs j)) (target vs j))).sum := by
  rw [wss, totalVar, ← List.sum_map_mul_left]
  congr 1
  apply List.map_congr_left
  intro j _
  rw [← length_mul_varOf, target_length]

theorem sqDev_replicate (a x : K) (e : Nat) : sqDev a (List.replicate e x) = e * (x - a) ^ 2 := by
  simp [sqDev]

theorem sqDev_repeat (a : K) (k : Nat) (xs : List K) : sqDev a (repeatEach k xs) = k * sqDev a xs := by
  induction xs with
  | nil => simp [sqDev]
  | cons x xs ih =>
    rw [repeatEach_cons, sqDev_append, ih, sqDev_replicate]
    simp only [sqDev, List.map_cons, List.sum_cons]; ring

theorem target_repeat (k : Nat) (vs : List (List K)) (j : Nat) : target (repeatEach k vs) j = repeatEach k (target vs j) := by
  rw [target, repeatEach_map]; rfl

theorem sum_repeat (k : Nat) (xs : List K) : (repeatEach k xs).sum = k * xs.sum := by
  induction xs with
  | nil => simp
  | cons x xs ih => rw [repeatEach_cons, List.sum_append, ih, List.sum_replicate, List.sum_cons, nsmul_eq_mul]; ring

theorem meanOf_repeat {k : Nat} (hk : 0 < k) (xs : List K) : meanOf (repeatEach k xs) = meanOf xs := by
  have : (k : K) ≠ 0 := by exact_mod_cast hk.ne'
  rw [meanOf, sum_repeat, repeatEach_length, meanOf]
  push_cast
  rw [mul_div_mul_left _ _ this]

theorem meanVec_repeat {k : Nat} (hk : 0 < k) (t : Nat) (vs : List (List K)) : meanVec t (repeatEach k vs) = meanVec t vs := by
  simp only [meanVec, target_repeat, meanOf_repeat hk]

theorem wss_repeat {k : Nat} (hk : 0 < k) (t : Nat) (vs : List (List K)) : wss t (repeatEach k vs) = k * wss t vs := by
  rw [wss_eq, wss_eq, ← List.sum_map_mul_left]
  congr 1
  apply List.map_congr_left
  intro j _
  rw [target_repeat, meanOf_repeat hk, sqDev_repeat]

theorem totalVar_repeat {k : Nat} (hk : 0 < k) (t : Nat) (vs : List (List K)) : totalVar t (repeatEach k vs) = totalVar t vs := by
  rcases eq_or_ne vs [] with rfl | hne
  · rfl
  have h1 := wss_repeat hk t vs
  have h2 : (k : K) ≠ 0 := by exact_mod_cast hk.ne'
  have h3 : (vs.length : K) ≠ 0 := by exact_mod_cast (List.length_pos_of_ne_nil hne).ne'
  rw [wss, wss, repeatEach_length, Nat.cast_mul, ← mul_assoc] at h1
  exact mul_left_cancel₀ (mul_ne_zero h2 h3) h1

theorem wss_mix {t : Nat} {A X Y : List (List K)} {p q : K} (hp : 0 ≤ p) (hq : 0 ≤ q)
    (h : ∀ (j : Nat) (a : K), sqDev a (target A j) = p * sqDev a (target X j) + q * sqDev a (target Y j)) :
    p * wss t X + q * wss t Y ≤ wss t A := by
  rw [wss_eq, wss_eq, wss_eq, ← List.sum_map_mul_left, ← List.sum_map_mul_left, ← List.sum_map_add]
  apply List.sum_le_sum
  intro j _
  rw [h]
  exact add_le_add (mul_le_mul_of_nonneg_left (sqDev_mean_le _ _) hp) (mul_le_mul_of_nonneg_left (sqDev_mean_le _ _) hq)

theorem target_replicate (e j : Nat) (y : List K) : target (List.replicate e y) j = List.replicate e (y.getD j 0) := by simp [target]

theorem sqDev_single (a : K) (y : List K) (j : Nat) : sqDev a (target [y] j) = (y.getD j 0 - a) ^ 2 := by simp [sqDev, target]

theorem wss_left {t k e : Nat} (he : e < k) (A : List (List K)) (y : List K) :
    ((k : K) - e) * wss t A + e * wss t (A ++ [y]) ≤ wss t (repeatEach k A ++ List.replicate e y) := by
  have hke : (e : K) ≤ k := by exact_mod_cast he.le
  refine wss_mix (by linarith) (Nat.cast_nonneg _) ?_
  intro j a
  rw [target_append, target_append, sqDev_append, sqDev_append, target_repeat, sqDev_repeat, target_replicate, sqDev_replicate, sqDev_single]
  ring

theorem wss_right {t k e : Nat} (he : e < k) (B : List (List K)) (y : List K) :
    ((k : K) - e) * wss t (y :: B) + e * wss t B ≤ wss t (List.replicate (k - e) y ++ repeatEach k B) := by
  have hke : (e : K) ≤ k := by exact_mod_cast he.le
  refine wss_mix (by linarith) (Nat.cast_nonneg _) ?_
  intro j a
  rw [target_append, sqDev_append, target_repeat, sqDev_repeat, target_replicate, sqDev_replicate, Nat.cast_sub he.le,
    show y :: B = [y] ++ B from rfl, target_append, sqDev_append, sqDev_single]
  ring

/-! ## the cuts -/

theorem splitVar_wss (t : Nat) (a b : List (List K)) : splitVar t a b = (wss t a + wss t b) / (a.length + b.length) := rfl

theorem candAt_wss (t : Nat) (s : List (Ext K × List K)) (i : Nat) :
    candAt t s i = (wss t ((labs s).take i) + wss t ((labs s).drop i)) / s.length := by
  rw [candAt, splitVar_wss]
  congr 1
  rw [← Nat.cast_add, ← List.length_append, List.take_append_drop, labs, List.length_map]

theorem labs_repeat (k : Nat) (s : List (Ext K × List K)) : labs (repeatEach k s) = repeatEach k (labs s) := repeatEach_map _ _ _

/-- a cut between the groups of copies -/
theorem candAt_repeat {t k : Nat} (hk : 0 < k) (s : List (Ext K × List K)) (i : Nat) :
    candAt t (repeatEach k s) (k * i) = candAt t s i := by
  have h2 : (k : K) ≠ 0 := by exact_mod_cast hk.ne'
  rw [candAt_wss, candAt_wss, labs_repeat, repeatEach_take, repeatEach_drop, wss_repeat hk, wss_repeat hk, repeatEach_length, ← mul_add,
    Nat.cast_mul, mul_div_mul_left _ _ h2]

/-- a cut inside a group of copies is no better than a mixture of the cuts before and after it -/
theorem candAt_inside {t k i e : Nat} (he : e < k) {s : List (Ext K × List K)} (hi : i < s.length) :
    ((k : K) - e) * candAt t s i + e * candAt t s (i + 1) ≤ k * candAt t (repeatEach k s) (k * i + e) := by
  have hk : 0 < k := by omega
  have h2 : (0 : K) < k := by exact_mod_cast hk
  have h3 : (0 : K) < s.length := by exact_mod_cast (by omega : 0 < s.length)
  have hil : i < (labs s).length := by simpa [labs] using hi
  obtain ⟨c1, c2⟩ := repeatEach_cut he (List.getElem?_eq_getElem hil)
  have w1 := wss_left (t := t) he ((labs s).take i) (labs s)[i]
  have w2 := wss_right (t := t) he ((labs s).drop (i + 1)) (labs s)[i]
  rw [← List.drop_eq_getElem_cons hil] at w2
  rw [List.take_append_getElem hil] at w1
  rw [candAt_wss, candAt_wss, candAt_wss, labs_repeat, c1, c2, repeatEach_length, Nat.cast_mul, ← mul_div_assoc, ← mul_div_assoc, ← mul_div_assoc,
    mul_div_mul_left _ _ h2.ne', ← add_div]
  exact div_le_div_of_nonneg_right (by linarith) h3.le

/-- the cut after the last row -/
theorem candAt_length (t : Nat) (s : List (Ext K × List K)) (hne : s ≠ []) : candAt t s s.length = totalVar t (labs s) := by
  have h3 : (s.length : K) ≠ 0 := by exact_mod_cast (List.length_pos_of_ne_nil hne).ne'
  have hl : (labs s).length = s.length := by simp [labs]
  rw [candAt_wss, ← hl, List.take_length, List.drop_length]
  simp only [wss, List.length_nil, Nat.cast_zero, zero_mul, add_zero]
  rw [mul_comm, mul_div_assoc, div_self (by rw [hl]; exact h3), mul_one]

theorem candAt_le_total (t : Nat) (s : List (Ext K × List K)) (hne : s ≠ []) (i : Nat) : candAt t s i ≤ totalVar t (labs s) := by
  have h3 : (0 : K) < s.length := by exact_mod_cast List.length_pos_of_ne_nil hne
  have := totalVar_append_le t ((labs s).take i) ((labs s).drop i)
  rw [List.take_append_drop] at this
  have hl : (labs s).length = s.length := by simp [labs]
  rw [candAt_wss, div_le_iff₀ h3, mul_comm, ← hl]
  exact this

/-! ## the split search -/

theorem colResult_repeat {t k : Nat} (hk : 0 < k) {ls : List (List K)} {col : List (Ext K)} (h : ls.length = col.length)
    (ht : ∀ v ∈ ls, v.length = t) (hne : ls ≠ []) (hn : ∀ x ∈ col, isNaN x = false) :
    colResult (lift (repeatEach k ls)) t (repeatEach k col) = colResult (lift ls) t col := by
  set s := eseq ls col with hs
  have hlen : s.length = ls.length := by
    have := (eseq_perm h).length_eq
    rw [← hs] at this
    simp [this, h]
  have hpos : 0 < s.length := by rw [hlen]; exact List.length_pos_of_ne_nil hne
  have hsne : s ≠ [] := List.ne_nil_of_length_pos hpos
  have hnn := eseq_mem_nan h hn
  have hsort := eseq_sorted (ls := ls) hn
  rw [← hs] at hnn hsort
  have hrep : eseq (repeatEach k ls) (repeatEach k col) = repeatEach k s := eseq_repeat hn
  obtain ⟨m, hm⟩ : ∃ m, (s.map Prod.fst)[0]? = some m := ⟨_, List.getElem?_eq_getElem (by simpa using hpos)⟩
  have hval : ∀ (i e : Nat), e < k → ((repeatEach k s).map Prod.fst)[k * i + e]? = (s.map Prod.fst)[i]? := by
    intro i e he
    rw [repeatEach_map, repeatEach_getElem? _ _ _ he]
  have hm' : ((repeatEach k s).map Prod.fst)[0]? = some m := by
    have := hval 0 0 hk
    rw [Nat.mul_zero, Nat.add_zero] at this
    rw [this, hm]
  have hdm : ∀ p : Nat, k * (p / k) + p % k = p := fun p => Nat.div_add_mod p k
  have h1 := colResult_first h ht hne hn (m := m) (by rw [← hs]; exact hm)
  have h2 := colResult_first (ls := repeatEach k ls) (col := repeatEach k col) (t := t)
    (by rw [repeatEach_length, repeatEach_length, h]) (fun v hv => ht v ((mem_repeatEach hk).mp hv))
    (by rw [Ne, repeatEach_eq_nil hk]; exact hne) (fun x hx => hn x ((mem_repeatEach hk).mp hx)) (m := m) (by rw [hrep]; exact hm')
  rw [← hs] at h1
  rw [hrep] at h2
  rcases h1 with ⟨h1, h1'⟩ | ⟨i, v, hv, hvm, h1, hmin, hfirst⟩
  · rcases h2 with ⟨h2, _⟩ | ⟨p, w, hw, hwm, _⟩
    · rw [h1, h2]
    · rw [← hdm p, hval _ _ (Nat.mod_lt p hk)] at hw
      rw [h1' _ _ hw] at hwm
      cases hwm
  · have hki := hval i 0 hk
    rw [Nat.add_zero, hv] at hki
    rcases h2 with ⟨_, h2'⟩ | ⟨p, w, hw, hwm, h2, hmin', hfirst'⟩
    · rw [h2' _ _ hki] at hvm
      cases hvm
    have hp := hdm p
    have hmod := Nat.mod_lt p hk
    set i' := p / k with hi'
    set e := p % k with he
    have hw' := hw
    rw [← hp, hval _ _ hmod] at hw'
    have hi'len : i' < s.length := by
      have := (List.getElem?_eq_some_iff.mp hw').1
      simpa using this
    have hle := hmin' (k * i) v hki hvm
    rw [candAt_repeat hk] at hle
    have hin := candAt_inside (t := t) hmod hi'len
    rw [hp] at hin
    have hc1 := hmin i' w hw' hwm
    have hc2 : candAt t s i ≤ candAt t s (i' + 1) := by
      rcases Nat.lt_or_ge (i' + 1) s.length with hlt | hge
      · obtain ⟨w2, hw2⟩ : ∃ w2, (s.map Prod.fst)[i' + 1]? = some w2 := ⟨_, List.getElem?_eq_getElem (by simpa using hlt)⟩
        refine hmin (i' + 1) w2 hw2 ?_
        obtain ⟨b1, e1⟩ := List.getElem?_eq_some_iff.mp hw'
        obtain ⟨b2, e2⟩ := List.getElem?_eq_some_iff.mp hw2
        obtain ⟨b0, e0⟩ := List.getElem?_eq_some_iff.mp hm
        have hpw : (s.map Prod.fst).Pairwise (fun a b => (a <=. b) = true) := List.pairwise_map.mpr hsort
        have l2 := List.pairwise_iff_getElem.mp hpw i' (i' + 1) b1 b2 (by omega)
        rw [e1, e2] at l2
        have l1 : (m <. w) = true := by
          have hpos' : 0 < i' := by
            rcases Nat.eq_zero_or_pos i' with h0 | h0
            · rw [h0, hm] at hw'
              cases hw'
              have hmem : m ∈ s.map Prod.fst := List.mem_of_getElem? hm
              obtain ⟨x, hx, rfl⟩ := List.mem_map.mp hmem
              have := LawfulOrder.eq_iff.mpr ⟨le_rfl' (hnn x hx), le_rfl' (hnn x hx)⟩
              rw [this] at hwm; cases hwm
            · exact h0
          have l1 := List.pairwise_iff_getElem.mp hpw 0 i' b0 b1 hpos'
          rw [e0, e1] at l1
          rcases lt_or_eq l1 with hx | hx
          · exact hx
          · rw [eq_symm' hx] at hwm; cases hwm
        exact lt_ne' (lt_of_lt_of_le l1 l2)
      · have : i' + 1 = s.length := by omega
        rw [this, candAt_length t s hsne]
        exact candAt_le_total t s hsne i
    have hK : (0 : K) < k := by exact_mod_cast hk
    have hKe : (0 : K) < (k : K) - e := by
      have : (e : K) < k := by exact_mod_cast hmod
      linarith
    have hE : (0 : K) ≤ e := Nat.cast_nonneg _
    have hpi : p = k * i := by
      rcases Nat.lt_trichotomy p (k * i) with hlt | heq | hgt
      · exfalso
        have hii : i' < i := by
          by_contra hcon
          have := Nat.mul_le_mul_left k (Nat.le_of_not_lt hcon)
          omega
        have hs1 := hfirst i' w hii hw' hwm
        nlinarith [mul_lt_mul_of_pos_left hs1 hKe, mul_le_mul_of_nonneg_left hc2 hE, mul_le_mul_of_nonneg_left hle hK.le]
      · exact heq
      · exfalso
        have hs1 := hfirst' (k * i) v hgt hki hvm
        rw [candAt_repeat hk] at hs1
        nlinarith [mul_lt_mul_of_pos_left hs1 hK, mul_le_mul_of_nonneg_left hc2 hE, mul_le_mul_of_nonneg_left hc1 hKe.le]
    rw [hpi, hki] at hw
    cases hw
    rw [h1, h2, hpi, candAt_repeat hk]

theorem lift_repeat (k : Nat) (vs : List (List K)) : lift (repeatEach k vs) = repeatEach k (lift vs) := repeatEach_map _ _ _

theorem column_repeat (k : Nat) (rows : List (List (Ext K))) (j : Nat) : column (repeatEach k rows) j = repeatEach k (column rows j) :=
  repeatEach_map _ _ _

theorem columnsOf_repeat (k : Nat) (rows : List (List (Ext K))) (c : Nat) :
    columnsOf (repeatEach k rows) c = (columnsOf rows c).map (repeatEach k) := by
  simp only [columnsOf, List.map_map]
  apply List.map_congr_left
  intro j _
  exact column_repeat k rows j

theorem repeated_wf {d : DataSet (Ext K)} {c t k : Nat} (hk : 0 < k) (h : d.WF c t) : (d.repeated k).WF c t := by
  refine ⟨?_, ?_, ?_, ?_, ?_, ?_, h.cols_u32⟩
  · simp only [DataSet.repeated, Ne, repeatEach_eq_nil hk]
    exact h.rows_ne
  · intro row hr
    exact h.row_len row ((mem_repeatEach hk).mp hr)
  · simp only [DataSet.repeated, repeatEach_length, h.label_count]
  · intro l hl
    exact h.label_len l ((mem_repeatEach hk).mp hl)
  · simp only [DataSet.repeated, h.cols, columnsOf_repeat]
  · intro row hr
    exact h.no_nan row ((mem_repeatEach hk).mp hr)

theorem splitOf_repeat {d : DataSet (Ext K)} {c t k : Nat} (hk : 0 < k) (h : d.WF c t) {ls : List (List K)} (hls : d.labels = lift ls) :
    splitOf (d.repeated k) t = splitOf d t := by
  have hne : ls ≠ [] := by
    rintro rfl
    exact h.labels_ne hls
  have hw := lift_width hls h.label_len
  have hl : (d.repeated k).labels = lift (repeatEach k ls) := by rw [lift_repeat, ← hls]; rfl
  have hcount : ls.length = d.featureRows.length := by
    have := h.label_count
    rw [hls, lift_length] at this
    exact this
  rw [splitOf, splitOf, hl, hls, totalVariance_exact hw hne,
    totalVariance_exact (fun v hv => hw v ((mem_repeatEach hk).mp hv)) (by rw [Ne, repeatEach_eq_nil hk]; exact hne), totalVar_repeat hk]
  congr 1
  simp only [DataSet.repeated, List.map_map]
  apply List.map_congr_left
  intro col hcol
  rw [h.cols] at hcol
  obtain ⟨j, hj, rfl⟩ := List.mem_map.mp hcol
  rw [List.mem_range] at hj
  refine colResult_repeat hk ?_ hw hne ?_
  · simp [column, hcount]
  · intro x hx
    obtain ⟨row, hr, rfl⟩ := List.mem_map.mp hx
    have := h.row_len row hr
    have hjr : j < row.length := by omega
    simp only [List.getD, List.getElem?_eq_getElem hjr, Option.getD_some]
    exact h.no_nan row hr _ (List.getElem_mem _)

theorem restrict_repeat {d : DataSet (Ext K)} {c k : Nat} {p : List (Ext K) → Bool} :
    (d.repeated k).restrict c p = (d.restrict c p).repeated k := by
  have hex : (d.repeated k).examples = repeatEach k d.examples := repeatEach_zip _ _ _
  rw [DataSet.restrict, hex]
  simp only [DataSet.restrict, repeatEach_filter, repeatEach_map, DataSet.repeated, columnsOf_repeat]

/-! ## trees -/

/-- both trees have the same shape, and corresponding leaves -/
def LeafRel {L' : Type} (g : L → L') (x : TreeNode (Ext K) L) (y : TreeNode (Ext K) L') : Prop :=
  (∀ p, y.questionAt p = x.questionAt p) ∧ (∀ p, y.leafAt p = (x.leafAt p).map g) ∧ ∀ row, y.route row = x.route row

theorem treeOf_repeat_rel {L' : Type} {leafOf : DataSet (Ext K) → L} {leafOf' : DataSet (Ext K) → L'} {g : L → L'} {k : Nat} (hk : 0 < k)
    (hleaf : ∀ d : DataSet (Ext K), leafOf' (d.repeated k) = g (leafOf d)) {c t : Nat} (m : Nat) (d : DataSet (Ext K)) (hw : d.WF c t)
    {ls : List (List K)} (hls : d.labels = lift ls) : LeafRel g (treeOf leafOf c t m d) (treeOf leafOf' c t m (d.repeated k)) := by
  have hl : ∀ (q q' : Question (Ext K)) (d : DataSet (Ext K)), LeafRel g (TreeNode.leafNode q (leafOf d)) (TreeNode.leafNode q' (leafOf' (d.repeated k))) := by
    intro q q' d
    refine ⟨fun p => by cases p <;> rfl, fun p => ?_, fun _ => rfl⟩
    cases p with
    | nil => exact congrArg some (hleaf d)
    | cons a p => cases a <;> rfl
  refine treeOf_induct (motive := fun m d => ∀ ls : List (List K), d.labels = lift ls →
    LeafRel g (treeOf leafOf c t m d) (treeOf leafOf' c t m (d.repeated k))) ?_ ?_ ?_ m d hw ls hls
  · intro d _ _ _
    exact hl _ _ d
  · intro m d hw hg ls hls
    have hs := splitOf_repeat hk hw hls
    have hg' : ((splitOf (d.repeated k) t).gain ==. F64.zero) = true := by rw [hs]; exact hg
    rw [treeOf_leaf hg, treeOf_leaf hg']
    exact hl _ _ d
  · intro m d hw hg h1 h2 ls hls
    have hs := splitOf_repeat hk hw hls
    have hg' : ((splitOf (d.repeated k) t).gain ==. F64.zero) = false := by rw [hs]; exact hg
    obtain ⟨ms1, hm1⟩ := restrict_lift (c := c) (p := satisfies (splitOf d t).question) hls
    obtain ⟨ms2, hm2⟩ := restrict_lift (c := c) (p := fun r => !satisfies (splitOf d t).question r) hls
    have k1 := h1 _ hm1
    have k2 := h2 _ hm2
    rw [treeOf_node hg, treeOf_node hg', hs, restrict_repeat, restrict_repeat]
    refine ⟨fun p => ?_, fun p => ?_, fun row => ?_⟩
    · match p with
      | [] => rfl
      | true :: p => exact k1.1 p
      | false :: p => exact k2.1 p
    · match p with
      | [] => rfl
      | true :: p => exact k1.2.1 p
      | false :: p => exact k2.2.1 p
    · rw [TreeNode.route_new, TreeNode.route_new, k1.2.2 row, k2.2.2 row]

/-- leaves that depend only on the labels, and not on repetition: the same tree -/
theorem treeOf_repeat {leafOf : DataSet (Ext K) → L} {k : Nat} (hk : 0 < k) {c t : Nat}
    (hleaf : ∀ (d : DataSet (Ext K)) (ls : List (List K)), d.WF c t → d.labels = lift ls → leafOf (d.repeated k) = leafOf d)
    (m : Nat) (d : DataSet (Ext K)) (hw : d.WF c t) {ls : List (List K)} (hls : d.labels = lift ls) :
    treeOf leafOf c t m (d.repeated k) = treeOf leafOf c t m d := by
  refine treeOf_induct (motive := fun m d => ∀ ls : List (List K), d.labels = lift ls →
    treeOf leafOf c t m (d.repeated k) = treeOf leafOf c t m d) ?_ ?_ ?_ m d hw ls hls
  · intro d hw ls hls
    simp only [treeOf, splitOf_repeat hk hw hls, hleaf d ls hw hls]
  · intro m d hw hg ls hls
    have hs := splitOf_repeat hk hw hls
    have hg' : ((splitOf (d.repeated k) t).gain ==. F64.zero) = true := by rw [hs]; exact hg
    rw [treeOf_leaf hg, treeOf_leaf hg', hs, hleaf d ls hw hls]
  · intro m d hw hg h1 h2 ls hls
    have hs := splitOf_repeat hk hw hls
    have hg' : ((splitOf (d.repeated k) t).gain ==. F64.zero) = false := by rw [hs]; exact hg
    obtain ⟨ms1, hm1⟩ := restrict_lift (c := c) (p := satisfies (splitOf d t).question) hls
    obtain ⟨ms2, hm2⟩ := restrict_lift (c := c) (p := fun r => !satisfies (splitOf d t).question r) hls
    rw [treeOf_node hg, treeOf_node hg', hs, restrict_repeat, restrict_repeat, h1 _ hm1, h2 _ hm2]

/-! ## leaf outputs -/

theorem Ext.div_scale {k : K} (hk : 0 < k) (a b : K) : (Ext.fin (k * a) /. Ext.fin (k * b)) = (Ext.fin a /. Ext.fin b : Ext K) := by
  show Ext.div _ _ = Ext.div _ _
  by_cases hb : b = 0
  · subst hb
    have h1 : (k * a < 0) ↔ (a < 0) := ⟨fun h => by nlinarith, fun h => by nlinarith⟩
    have h2 : (0 < k * a) ↔ (0 < a) := ⟨fun h => by nlinarith, fun h => by nlinarith⟩
    simp only [Ext.div, mul_zero, if_true, Ext.signInf, h1, h2]
  · have : k * b ≠ 0 := mul_ne_zero hk.ne' hb
    simp only [Ext.div, this, hb, if_false]
    rw [mul_div_mul_left _ _ hk.ne']

theorem multiOut_repeat {k t : Nat} (hk : 0 < k) {rs : List (List K)} (hw : ∀ r ∈ rs, r.length = t) :
    multiOut t (lift (repeatEach k rs)) = multiOut t (lift rs) := by
  have hK : (0 : K) < k := by exact_mod_cast hk
  have hw' : ∀ r ∈ repeatEach k rs, r.length = t := fun r hr => hw r ((mem_repeatEach hk).mp hr)
  simp only [multiOut, vecSum_exact hw, vecSum_exact hw', denomOf_exact hw, denomOf_exact hw', sumsOf, liftV_range, zipWith_range_range]
  congr 1
  apply List.map_congr_left
  intro j _
  rw [target_repeat, sum_repeat, repeatEach_map, sum_repeat, Ext.div_scale hK]

theorem leafOut_repeat {k t : Nat} (hk : 0 < k) (o : LeafOutputType) {rs : List (List K)} (hne : rs ≠ []) (hw : ∀ r ∈ rs, r.length = t) :
    leafOut o t (lift (repeatEach k rs)) = leafOut o t (lift rs) := by
  cases o
  · simp only [leafOut]
    rw [avgVec_exact hw hne, avgVec_exact (fun r hr => hw r ((mem_repeatEach hk).mp hr)) (by rw [Ne, repeatEach_eq_nil hk]; exact hne),
      meanVec_repeat hk]
  · exact multiOut_repeat hk hw

theorem leafOut_repeated {k : Nat} (hk : 0 < k) (o : LeafOutputType) {d : DataSet (Ext K)} {c t : Nat} (h : d.WF c t) {ls : List (List K)}
    (hls : d.labels = lift ls) : leafOut o t (d.repeated k).labels = leafOut o t d.labels := by
  have hne : ls ≠ [] := by
    rintro rfl
    exact h.labels_ne hls
  have hl : (d.repeated k).labels = lift (repeatEach k ls) := by rw [lift_repeat, ← hls]; rfl
  rw [hl, hls, leafOut_repeat hk o hne (lift_width hls h.label_len)]

theorem gradTree_repeat {k : Nat} (hk : 0 < k) (o : LeafOutputType) {d : DataSet (Ext K)} {c t : Nat} (h : d.WF c t) {ls : List (List K)}
    (hls : d.labels = lift ls) (m : Nat) : treeOf (gradLeaf o t) c t m (d.repeated k) = treeOf (gradLeaf o t) c t m d :=
  treeOf_repeat hk (fun d ls hw hls => by simp only [gradLeaf, leafOut_repeated hk o hw hls]) m d h hls

theorem amgTree_repeat {k : Nat} (hk : 0 < k) (o : LeafOutputType) {d : DataSet (Ext K)} {c t : Nat} (h : d.WF c t) {ls : List (List K)}
    (hls : d.labels = lift ls) (m : Nat) : treeOf (amgLeaf o t) c t m (d.repeated k) = treeOf (amgLeaf o t) c t m d :=
  treeOf_repeat hk (fun d ls hw hls => by simp only [amgLeaf, leafOut_repeated hk o hw hls]) m d h hls

/-! ## the loop -/

section loop
variable {F : Type} [F64 F]

theorem repeatEach_at {α : Type} {k : Nat} (hk : 0 < k) (l : List α) (p : Nat) : (repeatEach k l)[p]? = l[p / k]? := by
  conv_lhs => rw [← Nat.div_add_mod p k]
  exact repeatEach_getElem? l _ _ (Nat.mod_lt p hk)

theorem tracks_repeat {out : List F → TreeNode F L → R (List F)} {d : DataSet F} {g : List F} {lr : F} {k : Nat} (hk : 0 < k)
    {a a' : TrainingData F × List (TreeNode F L)} (hrows : d.featureRows.length = d.labels.length)
    (h : Tracks out d g lr a) (h' : Tracks out (d.repeated k) g lr a') (ht : a'.2 = a.2) :
    a'.1.mutableLabels = repeatEach k a.1.mutableLabels := by
  have hlen : a'.1.mutableLabels.length = k * d.labels.length := by rw [h'.len]; exact repeatEach_length _ _
  apply List.ext_getElem?
  intro p
  rw [repeatEach_at hk]
  rcases Nat.lt_or_ge p (k * d.labels.length) with hp | hp
  · have hi : p / k < d.labels.length := Nat.div_lt_of_lt_mul hp
    have hi2 : p / k < d.featureRows.length := by omega
    have hi3 : p / k < a.1.mutableLabels.length := by rw [h.len]; exact hi
    have e1 := h.score (p / k) _ _ (List.getElem?_eq_getElem hi2) (List.getElem?_eq_getElem hi3)
    have hrow : (d.repeated k).featureRows[p]? = some d.featureRows[p / k] := by
      show (repeatEach k d.featureRows)[p]? = _
      rw [repeatEach_at hk, List.getElem?_eq_getElem hi2]
    have hp' : p < a'.1.mutableLabels.length := by omega
    have e2 := h'.score p _ _ hrow (List.getElem?_eq_getElem hp')
    rw [ht, e1] at e2
    rw [List.getElem?_eq_getElem hi3, List.getElem?_eq_getElem hp', Except.ok.inj e2]
  · rw [List.getElem?_eq_none (by omega), List.getElem?_eq_none]
    rw [h.len]
    exact (Nat.le_div_iff_mul_le hk).mpr (by rw [Nat.mul_comm]; exact hp)

/-- the loop on repeated examples builds the same trees -/
theorem loop_repeat {res : TrainingData F → R (List (List F))} {fit : DataSet F → R (TreeNode F L)}
    {upd : TrainingData F → TreeNode F L → R (TrainingData F)} {out : List F → TreeNode F L → R (List F)} {d : DataSet F} {g : List F}
    {lr : F} {k : Nat} (hk : 0 < k) (hrows : d.featureRows.length = d.labels.length) (hu : UpdateAdds upd out lr g.length)
    (hres : ∀ a a' r r', Tracks out d g lr a → Tracks out (d.repeated k) g lr a' → a'.1.mutableLabels = repeatEach k a.1.mutableLabels →
      res a.1 = .ok r → res a'.1 = .ok r' → r' = repeatEach k r)
    (hfit : ∀ n a r, boostLoop res fit upd n (startState d g) = .ok a → res a.1 = .ok r →
      fit { d.repeated k with labels := repeatEach k r } = fit { d with labels := r })
    {n : Nat} {s s' : TrainingData F × List (TreeNode F L)} (h : boostLoop res fit upd n (startState d g) = .ok s)
    (h' : boostLoop res fit upd n (startState (d.repeated k) g) = .ok s') : s'.2 = s.2 := by
  induction n generalizing s s' with
  | zero =>
    cases h
    cases h'
    rfl
  | succ n ih =>
    rw [boostLoop_succ, R.bind_eq_ok] at h h'
    obtain ⟨a, h1, h2⟩ := h
    obtain ⟨a', h1', h2'⟩ := h'
    have hall := ih h1 h1'
    have ht : Tracks out d g lr a := tracks_loop hu (tracks_start d g lr) h1
    have ht' : Tracks out (d.repeated k) g lr a' := tracks_loop hu (tracks_start _ g lr) h1'
    obtain ⟨r, tree, t, e1, e2, e3, rfl⟩ := boostStep_inv h2
    obtain ⟨r', tree', t', e1', e2', e3', rfl⟩ := boostStep_inv h2'
    have hr := hres a a' r r' ht ht' (tracks_repeat hk hrows ht ht' hall) e1 e1'
    subst hr
    rw [ht.data] at e2
    rw [ht'.data, hfit n a r h1 e1, e2] at e2'
    cases e2'
    rw [hall]

end loop

end Verif
