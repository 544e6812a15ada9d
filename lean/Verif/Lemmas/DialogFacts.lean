import Verif.Lemmas.DialogTree
/-! # What the calls of the gradient boosting tree builders have in common -/

namespace Verif

variable {F : Type} [F64 F] {L : Type} {par : Bool} {leafWith : List F → L} {c t : Nat}

section
omit [F64 F]

@[simp] theorem finderGot_nil : finderGot ([] : List (Event F)) = [] := rfl
@[simp] theorem leafGot_nil : leafGot ([] : List (Event F)) = [] := rfl
@[simp] theorem finderGot_split (d : DataSet F) (t : Nat) (a : R (BestSplitResult F)) (tr : List (Event F)) :
    finderGot (.split d t a :: tr) = d :: finderGot tr := rfl
@[simp] theorem finderGot_leaf (d : DataSet F) (a : R (List F)) (tr : List (Event F)) : finderGot (.leaf d a :: tr) = finderGot tr := rfl
@[simp] theorem leafGot_split (d : DataSet F) (t : Nat) (a : R (BestSplitResult F)) (tr : List (Event F)) :
    leafGot (.split d t a :: tr) = leafGot tr := rfl
@[simp] theorem leafGot_leaf (d : DataSet F) (a : R (List F)) (tr : List (Event F)) : leafGot (.leaf d a :: tr) = d :: leafGot tr := rfl
theorem finderGot_append (a b : List (Event F)) : finderGot (a ++ b) = finderGot a ++ finderGot b := by simp [finderGot]
theorem leafGot_append (a b : List (Event F)) : leafGot (a ++ b) = leafGot a ++ leafGot b := by simp [leafGot]
theorem finderGot_perm {a b : List (Event F)} (h : a.Perm b) : (finderGot a).Perm (finderGot b) := h.filterMap _
theorem leafGot_perm {a b : List (Event F)} (h : a.Perm b) : (leafGot a).Perm (leafGot b) := h.filterMap _

theorem mem_finderGot {tr : List (Event F)} {d : DataSet F} : d ∈ finderGot tr ↔ ∃ t a, Event.split d t a ∈ tr := by
  simp only [finderGot, List.mem_filterMap]
  constructor
  · rintro ⟨e, h1, h2⟩
    cases e with
    | split d' t a => cases h2; exact ⟨t, a, h1⟩
    | leaf d' a => cases h2
  · rintro ⟨t, a, h⟩
    exact ⟨_, h, rfl⟩

theorem mem_leafGot {tr : List (Event F)} {d : DataSet F} : d ∈ leafGot tr ↔ ∃ a, Event.leaf d a ∈ tr := by
  simp only [leafGot, List.mem_filterMap]
  constructor
  · rintro ⟨e, h1, h2⟩
    cases e with
    | split d' t a => cases h2
    | leaf d' a => cases h2; exact ⟨a, h1⟩
  · rintro ⟨a, h⟩
    exact ⟨_, h, rfl⟩

end

/-- how many calls, and with how many rows -/
theorem Talked.count {m : Nat} {d : DataSet F} {tr : List (Event F)} {r : R (TreeNode F L)} (h : Talked par leafWith c t m d tr r)
    (hw : d.WF c t) : (finderGot tr).length + 1 ≤ 2 ^ (m + 1) ∧ (finderGot tr).length + 1 ≤ 2 * d.examples.length ∧
      (leafGot tr).length ≤ 2 ^ m ∧ ((leafGot tr).map (fun data => data.examples.length)).sum ≤ d.examples.length := by
  have one : ∀ (m : Nat) (d : DataSet F), d.WF c t → 1 + 1 ≤ 2 ^ (m + 1) ∧ 1 + 1 ≤ 2 * d.examples.length ∧ 1 ≤ 2 ^ m := by
    intro m d hw
    have := examples_pos hw
    have h1 : 1 ≤ 2 ^ m := Nat.one_le_two_pow
    rw [Nat.pow_succ]
    exact ⟨by omega, by omega, h1⟩
  induction h with
  | @panic m d e => exact ⟨(one m d hw).1, (one m d hw).2.1, by simp, by simp⟩
  | @stop m d s hg => simpa using one m d hw
  | @stopPanic m d s hg => simpa using one m d hw
  | @refuse m d s e hg hp => exact ⟨(one (m + 1) d hw).1, (one (m + 1) d hw).2.1, by simp, by simp⟩
  | @askPar m d s ty tn o ry rn hpar hg hc hy hn _ _ ho ihy ihn =>
    obtain ⟨a1, a2, a3, a4⟩ := ihy (answering_wf hw hy)
    obtain ⟨b1, b2, b3, b4⟩ := ihn (answering_wf hw hn)
    have hN := answering_length d c s.question
    have hf := (finderGot_perm ho.perm).length_eq
    have hl := (leafGot_perm ho.perm).length_eq
    have hs := ((leafGot_perm ho.perm).map (fun data : DataSet F => data.examples.length)).sum_eq
    rw [finderGot_append, List.length_append] at hf
    rw [leafGot_append, List.length_append] at hl
    rw [leafGot_append, List.map_append, List.sum_append] at hs
    simp only [finderGot_split, leafGot_split, List.length_cons]
    rw [Nat.pow_succ, Nat.pow_succ] at *
    refine ⟨by omega, by omega, by omega, by omega⟩
  | @askSeq m d s ty tn y rn hpar hg hc hy hn _ _ ihy ihn =>
    obtain ⟨a1, a2, a3, a4⟩ := ihy (answering_wf hw hy)
    obtain ⟨b1, b2, b3, b4⟩ := ihn (answering_wf hw hn)
    have hN := answering_length d c s.question
    simp only [finderGot_split, leafGot_split, finderGot_append, leafGot_append, List.length_cons, List.length_append, List.map_append,
      List.sum_append]
    rw [Nat.pow_succ, Nat.pow_succ] at *
    refine ⟨by omega, by omega, by omega, by omega⟩
  | @askFail m d s ty e hpar hg hc hy hn _ ihy =>
    obtain ⟨a1, a2, a3, a4⟩ := ihy (answering_wf hw hy)
    have hN := answering_length d c s.question
    have hp := examples_pos (answering_wf hw hn)
    have h1 : 1 ≤ 2 ^ m := Nat.one_le_two_pow
    simp only [finderGot_split, leafGot_split, List.length_cons]
    rw [Nat.pow_succ, Nat.pow_succ] at *
    refine ⟨by omega, by omega, by omega, by omega⟩

/-- what is passed in a call -/
def Fits (c t : Nat) (d : DataSet F) : Event F → Prop
  | .split data targets _ => targets = t ∧ data.WF c t ∧ data.examples.Sublist d.examples
  | .leaf data _ => data.WF c t ∧ data.examples.Sublist d.examples

theorem Fits.below {d : DataSet F} {q : Question F} {b : Bool} {e : Event F} (h : Fits c t (d.answering c q b) e) : Fits c t d e := by
  cases e with
  | split => exact ⟨h.1, h.2.1, h.2.2.trans (answering_sub d c _ _)⟩
  | leaf => exact ⟨h.1, h.2.trans (answering_sub d c _ _)⟩

theorem Talked.calls {m : Nat} {d : DataSet F} {tr : List (Event F)} {r : R (TreeNode F L)} (h : Talked par leafWith c t m d tr r)
    (hw : d.WF c t) : ∀ e ∈ tr, Fits c t d e := by
  have root : ∀ {d : DataSet F}, d.WF c t → ∀ a, Fits c t d (.split d t a) := fun hw a => ⟨rfl, hw, .refl _⟩
  have stop : ∀ {d : DataSet F}, d.WF c t → ∀ a, Fits c t d (.leaf d a) := fun hw a => ⟨hw, .refl _⟩
  induction h with
  | @panic m d e => simpa using root hw _
  | @stop m d s hg o => simpa using ⟨root hw _, stop hw _⟩
  | @stopPanic m d s hg e => simpa using ⟨root hw _, stop hw _⟩
  | @refuse m d s e hg hp => simpa using root hw _
  | @askPar m d s ty tn o ry rn hpar hg hc hy hn _ _ ho ihy ihn =>
    intro e he
    rcases List.mem_cons.mp he with rfl | he
    · exact root hw _
    · rcases List.mem_append.mp (ho.perm.mem_iff.mp he) with h | h
      · exact (ihy (answering_wf hw hy) e h).below
      · exact (ihn (answering_wf hw hn) e h).below
  | @askSeq m d s ty tn y rn hpar hg hc hy hn _ _ ihy ihn =>
    intro e he
    rcases List.mem_cons.mp he with rfl | he
    · exact root hw _
    · rcases List.mem_append.mp he with h | h
      · exact (ihy (answering_wf hw hy) e h).below
      · exact (ihn (answering_wf hw hn) e h).below
  | @askFail m d s ty e hpar hg hc hy hn _ ihy =>
    intro e he
    rcases List.mem_cons.mp he with rfl | he
    · exact root hw _
    · exact (ihy (answering_wf hw hy) e he).below

/-- a leaf output is asked for after the split of the same data -/
theorem Talked.after {m : Nat} {d : DataSet F} {tr : List (Event F)} {r : R (TreeNode F L)} (h : Talked par leafWith c t m d tr r) :
    ∀ data answer, Event.leaf data answer ∈ tr → ∃ s, [Event.split data t (.ok s), .leaf data answer].Sublist tr := by
  induction h with
  | @panic m d e => simp
  | @stop m d s hg o =>
    intro data answer h
    simp only [List.mem_cons, reduceCtorEq, Event.leaf.injEq, List.not_mem_nil, or_false, false_or] at h
    obtain ⟨rfl, rfl⟩ := h
    exact ⟨s, .refl _⟩
  | @stopPanic m d s hg o =>
    intro data answer h
    simp only [List.mem_cons, reduceCtorEq, Event.leaf.injEq, List.not_mem_nil, or_false, false_or] at h
    obtain ⟨rfl, rfl⟩ := h
    exact ⟨s, .refl _⟩
  | @refuse m d s e hg hp => simp
  | @askPar m d s ty tn o ry rn hpar hg hc hy hn _ _ ho ihy ihn =>
    intro data answer h
    rcases List.mem_cons.mp h with h | h
    · cases h
    · rcases List.mem_append.mp (ho.perm.mem_iff.mp h) with h | h
      · obtain ⟨s', h⟩ := ihy data answer h
        exact ⟨s', (h.trans ho.sublist_left).cons _⟩
      · obtain ⟨s', h⟩ := ihn data answer h
        exact ⟨s', (h.trans ho.sublist_right).cons _⟩
  | @askSeq m d s ty tn y rn hpar hg hc hy hn _ _ ihy ihn =>
    intro data answer h
    rcases List.mem_cons.mp h with h | h
    · cases h
    · rcases List.mem_append.mp h with h | h
      · obtain ⟨s', h⟩ := ihy data answer h
        exact ⟨s', (h.trans (List.sublist_append_left _ _)).cons _⟩
      · obtain ⟨s', h⟩ := ihn data answer h
        exact ⟨s', (h.trans (List.sublist_append_right _ _)).cons _⟩
  | @askFail m d s ty e hpar hg hc hy hn _ ihy =>
    intro data answer h
    rcases List.mem_cons.mp h with h | h
    · cases h
    · obtain ⟨s', h⟩ := ihy data answer h
      exact ⟨s', h.cons _⟩

/-- the rows of a call answer as the rows of the branch do -/
theorem fits_side {d : DataSet F} {q : Question F} {b : Bool} {data : DataSet F} (hw : data.WF c t)
    (hs : data.examples.Sublist (d.answering c q b).examples) :
    (∃ e, e ∈ data.examples) ∧ ∀ e ∈ data.examples, satisfies q e.1 = b := by
  refine ⟨List.exists_mem_of_length_pos (examples_pos hw), fun e he => ?_⟩
  have := hs.subset he
  rw [answering_examples, List.mem_filter] at this
  simpa using this.2

theorem Talked.finder_side {m : Nat} {d : DataSet F} {q : Question F} {b : Bool} {tr : List (Event F)} {r : R (TreeNode F L)}
    (h : Talked par leafWith c t m (d.answering c q b) tr r) (hw : (d.answering c q b).WF c t) :
    ∀ data ∈ finderGot tr, (∃ e, e ∈ data.examples) ∧ ∀ e ∈ data.examples, satisfies q e.1 = b := by
  intro data hd
  obtain ⟨t', a, h1⟩ := mem_finderGot.mp hd
  have := h.calls hw _ h1
  exact fits_side this.2.1 this.2.2

theorem Talked.leaf_side {m : Nat} {d : DataSet F} {q : Question F} {b : Bool} {tr : List (Event F)} {r : R (TreeNode F L)}
    (h : Talked par leafWith c t m (d.answering c q b) tr r) (hw : (d.answering c q b).WF c t) :
    ∀ data ∈ leafGot tr, (∃ e, e ∈ data.examples) ∧ ∀ e ∈ data.examples, satisfies q e.1 = b := by
  intro data hd
  obtain ⟨a, h1⟩ := mem_leafGot.mp hd
  have := h.calls hw _ h1
  exact fits_side this.1 this.2

theorem apart_sides {q : Question F} {ly ln : List (DataSet F)}
    (hy : ∀ data ∈ ly, (∃ e, e ∈ data.examples) ∧ ∀ e ∈ data.examples, satisfies q e.1 = true)
    (hn : ∀ data ∈ ln, (∃ e, e ∈ data.examples) ∧ ∀ e ∈ data.examples, satisfies q e.1 = false) : ∀ x ∈ ly, ∀ y ∈ ln, x ≠ y := by
  intro x hx y hx' hxy
  subst hxy
  obtain ⟨⟨e, h3⟩, h4⟩ := hy x hx
  have := (h4 e h3).symm.trans ((hn x hx').2 e h3)
  cases this

theorem not_side {d : DataSet F} {q : Question F} {b : Bool} (hw : d.WF c t) (hnb : ∃ row ∈ d.featureRows, satisfies q row = !b)
    {l : List (DataSet F)} (h : ∀ data ∈ l, (∃ e, e ∈ data.examples) ∧ ∀ e ∈ data.examples, satisfies q e.1 = b) : d ∉ l := by
  intro hm
  obtain ⟨e, h4, h5⟩ := example_of_row hw (p := fun row => satisfies q row = !b) hnb
  have := (h d hm).2 e h4
  rw [h5] at this
  cases b <;> cases this

/-- no data set is passed twice to the same function -/
theorem Talked.nodup {m : Nat} {d : DataSet F} {tr : List (Event F)} {r : R (TreeNode F L)} (h : Talked par leafWith c t m d tr r)
    (hw : d.WF c t) : (finderGot tr).Nodup ∧ (leafGot tr).Nodup := by
  induction h with
  | @panic m d e => simp
  | @stop m d s hg o => simp
  | @stopPanic m d s hg o => simp
  | @refuse m d s e hg hp => simp
  | @askPar m d s ty tn o ry rn hpar hg hc hy hn ay an ho ihy ihn =>
    obtain ⟨a1, a2⟩ := ihy (answering_wf hw hy)
    obtain ⟨b1, b2⟩ := ihn (answering_wf hw hn)
    have fy := ay.finder_side (answering_wf hw hy)
    have fn := an.finder_side (answering_wf hw hn)
    have ly := ay.leaf_side (answering_wf hw hy)
    have ln := an.leaf_side (answering_wf hw hn)
    have hp := finderGot_perm ho.perm
    rw [finderGot_append] at hp
    have hl := leafGot_perm ho.perm
    rw [leafGot_append] at hl
    simp only [finderGot_split, leafGot_split, List.nodup_cons]
    refine ⟨⟨?_, hp.nodup_iff.mpr (List.nodup_append.mpr ⟨a1, b1, apart_sides fy fn⟩)⟩,
      hl.nodup_iff.mpr (List.nodup_append.mpr ⟨a2, b2, apart_sides ly ln⟩)⟩
    intro h
    rcases List.mem_append.mp (hp.mem_iff.mp h) with h | h
    · exact not_side hw hn fy h
    · exact not_side hw hy fn h
  | @askSeq m d s ty tn y rn hpar hg hc hy hn ay an ihy ihn =>
    obtain ⟨a1, a2⟩ := ihy (answering_wf hw hy)
    obtain ⟨b1, b2⟩ := ihn (answering_wf hw hn)
    have fy := ay.finder_side (answering_wf hw hy)
    have fn := an.finder_side (answering_wf hw hn)
    have ly := ay.leaf_side (answering_wf hw hy)
    have ln := an.leaf_side (answering_wf hw hn)
    simp only [finderGot_split, leafGot_split, finderGot_append, leafGot_append, List.nodup_cons]
    refine ⟨⟨?_, List.nodup_append.mpr ⟨a1, b1, apart_sides fy fn⟩⟩, List.nodup_append.mpr ⟨a2, b2, apart_sides ly ln⟩⟩
    intro h
    rcases List.mem_append.mp h with h | h
    · exact not_side hw hn fy h
    · exact not_side hw hy fn h
  | @askFail m d s ty e hpar hg hc hy hn ay ihy =>
    obtain ⟨a1, a2⟩ := ihy (answering_wf hw hy)
    simp only [finderGot_split, leafGot_split, List.nodup_cons]
    exact ⟨⟨not_side hw hn (ay.finder_side (answering_wf hw hy)), a1⟩, a2⟩

/-! ## the calls and the nodes -/

theorem eventAt_split {d : DataSet F} {m : Nat} {tree : TreeNode F L} {p : List Bool} {data : DataSet F} {n : Nat} {a : R (BestSplitResult F)}
    (h : CallAt d c t m tree p ⟨data, n, a⟩) : EventAt leafWith d c t m tree (.split p) (.split data n a) := h

theorem eventAt_sub {m : Nat} {d : DataSet F} {q : Question F} {y n : TreeNode F L} {b : Bool} {p : Moment} {e : Event F}
    (h : EventAt leafWith (d.answering c q b) c t m (if b then y else n) p e) :
    EventAt leafWith d c t (m + 1) (TreeNode.new q y n) (p.below b) e := by
  cases p with
  | split p => cases e with
    | split data targets answer => exact callAt_sub h
    | leaf => exact h.elim
  | leaf p => cases e with
    | split => exact h.elim
    | leaf data answer =>
      obtain ⟨h1, h2, out, h3, h4⟩ := h
      refine ⟨h1, by rw [reaching_new (c := c)]; exact h2, out, h3, ?_⟩
      cases b
      · simp only [Bool.false_eq_true, if_false] at h4
        simpa only [TreeNode.new, TreeNode.leafAt] using h4
      · simp only [if_true] at h4
        simpa only [TreeNode.new, TreeNode.leafAt] using h4

theorem eventAt_leaf {m : Nat} {d : DataSet F} (hw : d.WF c t) (q : Question F) (o : List F) :
    EventAt leafWith d c t m (TreeNode.leafNode q (leafWith o)) (.leaf []) (.leaf d (.ok o)) :=
  ⟨hw, (reaching_nil _ _).symm, o, rfl, rfl⟩

theorem split_below {b : Bool} {p : List Bool} {m : Moment} (h : m.below b = .split p) : ∃ q, p = b :: q ∧ m = .split q := by
  cases m with
  | split q => cases h; exact ⟨q, rfl, rfl⟩
  | leaf q => cases h

theorem leaf_below {b : Bool} {p : List Bool} {m : Moment} (h : m.below b = .leaf p) : ∃ q, p = b :: q ∧ m = .leaf q := by
  cases m with
  | split q => cases h
  | leaf q => cases h; exact ⟨q, rfl, rfl⟩

theorem inOrder_node {oy on o : List Moment} (hy : InOrder oy) (hn : InOrder on)
    (ho : Shuffle (oy.map (Moment.below true)) (on.map (Moment.below false)) o) : InOrder (.split [] :: o) := by
  constructor
  · intro p b hp
    have hp : Moment.split (p ++ [b]) ∈ o := by
      rcases List.mem_cons.mp hp with h | h
      · simp at h
      · exact h
    cases p with
    | nil => exact List.Sublist.cons_cons _ (List.singleton_sublist.mpr hp)
    | cons a p =>
      refine List.Sublist.cons _ ?_
      rcases List.mem_append.mp (ho.perm.mem_iff.mp hp) with h | h
      · obtain ⟨x, hx, he⟩ := List.mem_map.mp h
        obtain ⟨q, h1, rfl⟩ := split_below he
        simp only [List.cons_append, List.cons.injEq] at h1
        obtain ⟨rfl, rfl⟩ := h1
        exact ((hy.1 p b hx).map (Moment.below true)).trans ho.sublist_left
      · obtain ⟨x, hx, he⟩ := List.mem_map.mp h
        obtain ⟨q, h1, rfl⟩ := split_below he
        simp only [List.cons_append, List.cons.injEq] at h1
        obtain ⟨rfl, rfl⟩ := h1
        exact ((hn.1 p b hx).map (Moment.below false)).trans ho.sublist_right
  · intro p hp
    have hp : Moment.leaf p ∈ o := by
      rcases List.mem_cons.mp hp with h | h
      · simp at h
      · exact h
    refine List.Sublist.cons _ ?_
    rcases List.mem_append.mp (ho.perm.mem_iff.mp hp) with h | h
    · obtain ⟨x, hx, he⟩ := List.mem_map.mp h
      obtain ⟨q, rfl, rfl⟩ := leaf_below he
      exact ((hy.2 q hx).map (Moment.below true)).trans ho.sublist_left
    · obtain ⟨x, hx, he⟩ := List.mem_map.mp h
      obtain ⟨q, rfl, rfl⟩ := leaf_below he
      exact ((hn.2 q hx).map (Moment.below false)).trans ho.sublist_right

theorem inOrder_leaf : InOrder [.split [], .leaf []] := by
  constructor
  · intro p b h
    simp at h
  · intro p h
    simp only [List.mem_cons, reduceCtorEq, Moment.leaf.injEq, List.not_mem_nil, or_false, false_or] at h
    subst h
    exact .refl _

/-- an execution that returns a tree has made the calls for every position, in an order as specified -/
theorem Talked.order {m : Nat} {d : DataSet F} {tr : List (Event F)} {r : R (TreeNode F L)} (h : Talked par leafWith c t m d tr r)
    (hw : d.WF c t) : ∀ {tree : TreeNode F L}, r = .ok tree → ∃ order, order.Perm tree.moments ∧ InOrder order ∧
      List.Forall₂ (EventAt leafWith d c t m tree) order tr ∧ (par = false → order = tree.moments) := by
  induction h with
  | @panic m d e => nofun
  | @stop m d s hg o =>
    intro tree hr
    cases hr
    exact ⟨[.split [], .leaf []], .refl _, inOrder_leaf,
      .cons (eventAt_split (callAt_root_leaf hw _ hg)) (.cons (eventAt_leaf hw _ o) .nil), fun _ => rfl⟩
  | @stopPanic m d s hg e => nofun
  | @refuse m d s e hg hp => nofun
  | @askPar m d s ty tn o ry rn hpar hg hc hy hn ay an ho ihy ihn =>
    intro tree hr
    obtain ⟨y, n, rfl, rfl, rfl⟩ := joined_ok hr
    obtain ⟨oy, p1, p2, p3, _⟩ := ihy (answering_wf hw hy) rfl
    obtain ⟨on, q1, q2, q3, _⟩ := ihn (answering_wf hw hn) rfl
    have py : List.Forall₂ (EventAt leafWith d c t (m + 1) (TreeNode.new s.question y n)) (oy.map (Moment.below true)) ty :=
      List.forall₂_map_left_iff.mpr (p3.imp (fun _ _ h => eventAt_sub (b := true) h))
    have pn : List.Forall₂ (EventAt leafWith d c t (m + 1) (TreeNode.new s.question y n)) (on.map (Moment.below false)) tn :=
      List.forall₂_map_left_iff.mpr (q3.imp (fun _ _ h => eventAt_sub (b := false) h))
    obtain ⟨o', h1, h2⟩ := ho.forall₂ py pn
    refine ⟨.split [] :: o', ?_, inOrder_node p2 q2 h1, .cons (eventAt_split (callAt_root hw y n hg)) h2, by rw [hpar]; nofun⟩
    exact .cons _ (h1.perm.trans ((p1.map _).append (q1.map _)))
  | @askSeq m d s ty tn y rn hpar hg hc hy hn ay an ihy ihn =>
    intro tree hr
    obtain ⟨y', n, hy', rfl, rfl⟩ := joined_ok hr
    cases hy'
    obtain ⟨oy, p1, p2, p3, p4⟩ := ihy (answering_wf hw hy) rfl
    obtain ⟨on, q1, q2, q3, q4⟩ := ihn (answering_wf hw hn) rfl
    have py : List.Forall₂ (EventAt leafWith d c t (m + 1) (TreeNode.new s.question y n)) (oy.map (Moment.below true)) ty :=
      List.forall₂_map_left_iff.mpr (p3.imp (fun _ _ h => eventAt_sub (b := true) h))
    have pn : List.Forall₂ (EventAt leafWith d c t (m + 1) (TreeNode.new s.question y n)) (on.map (Moment.below false)) tn :=
      List.forall₂_map_left_iff.mpr (q3.imp (fun _ _ h => eventAt_sub (b := false) h))
    have hsh : Shuffle (oy.map (Moment.below true)) (on.map (Moment.below false)) (oy.map (Moment.below true) ++ on.map (Moment.below false)) := by
      simpa using (Shuffle.nil_left (on.map (Moment.below false))).append_left (oy.map (Moment.below true))
    refine ⟨.split [] :: (oy.map (Moment.below true) ++ on.map (Moment.below false)), .cons _ ((p1.map _).append (q1.map _)),
      inOrder_node p2 q2 hsh, .cons (eventAt_split (callAt_root hw y n hg)) (List.rel_append py pn), fun _ => ?_⟩
    rw [p4 hpar, q4 hpar]
    rfl
  | @askFail m d s ty e hpar hg hc hy hn ay ihy => nofun

/-! ## every such order occurs -/

/-- the same call, seen from the node at the end of a branch -/
def Moment.above (b : Bool) : Moment → Option Moment
  | .split (x :: p) => if x = b then some (.split p) else none
  | .leaf (x :: p) => if x = b then some (.leaf p) else none
  | _ => none

theorem above_below (b x : Bool) (m : Moment) : (m.below x).above b = if x = b then some m else none := by
  cases m <;> simp [Moment.below, Moment.above]

theorem above_eq {b : Bool} {x m : Moment} : x.above b = some m ↔ x = m.below b := by
  constructor
  · intro h
    match x with
    | .split [] => cases h
    | .leaf [] => cases h
    | .split (a :: p) =>
      by_cases ha : a = b
      · simp only [Moment.above, ha, if_true, Option.some.injEq] at h
        rw [← h, ha]
        rfl
      · simp [Moment.above, ha] at h
    | .leaf (a :: p) =>
      by_cases ha : a = b
      · simp only [Moment.above, ha, if_true, Option.some.injEq] at h
        rw [← h, ha]
        rfl
      · simp [Moment.above, ha] at h
  · rintro rfl
    rw [above_below]
    simp

/-- the calls below one branch -/
def momentsBelow (b : Bool) (o : List Moment) : List Moment := o.filterMap (Moment.above b)

theorem momentsBelow_shuffle (o : List Moment) (h1 : .split [] ∉ o) (h2 : .leaf [] ∉ o) :
    Shuffle ((momentsBelow true o).map (Moment.below true)) ((momentsBelow false o).map (Moment.below false)) o := by
  induction o with
  | nil => exact .nil
  | cons p o ih =>
    have ih := ih (fun h' => h1 (List.mem_cons_of_mem _ h')) (fun h' => h2 (List.mem_cons_of_mem _ h'))
    match p with
    | .split [] => simp at h1
    | .leaf [] => simp at h2
    | .split (true :: p) => simpa [momentsBelow, Moment.above, Moment.below] using Shuffle.left (x := Moment.split (true :: p)) ih
    | .split (false :: p) => simpa [momentsBelow, Moment.above, Moment.below] using Shuffle.right (x := Moment.split (false :: p)) ih
    | .leaf (true :: p) => simpa [momentsBelow, Moment.above, Moment.below] using Shuffle.left (x := Moment.leaf (true :: p)) ih
    | .leaf (false :: p) => simpa [momentsBelow, Moment.above, Moment.below] using Shuffle.right (x := Moment.leaf (false :: p)) ih

theorem momentsBelow_perm {o y n : List Moment} (h : o.Perm (y.map (Moment.below true) ++ n.map (Moment.below false))) :
    (momentsBelow true o).Perm y ∧ (momentsBelow false o).Perm n := by
  constructor
  · have := h.filterMap (Moment.above true)
    simpa [momentsBelow, List.filterMap_append, List.filterMap_map, Function.comp_def, above_below] using this
  · have := h.filterMap (Moment.above false)
    simpa [momentsBelow, List.filterMap_append, List.filterMap_map, Function.comp_def, above_below] using this

theorem momentsBelow_mem {b : Bool} {o : List Moment} {p : Moment} : p ∈ momentsBelow b o ↔ p.below b ∈ o := by
  simp only [momentsBelow, List.mem_filterMap, above_eq]
  constructor
  · rintro ⟨a, h1, rfl⟩
    exact h1
  · intro h
    exact ⟨_, h, rfl⟩

theorem momentsBelow_order {b : Bool} {o : List Moment} (h : InOrder (.split [] :: o)) : InOrder (momentsBelow b o) := by
  constructor
  · intro p a hp
    rw [momentsBelow_mem] at hp
    have h1 := h.1 (b :: p) a (List.mem_cons_of_mem _ hp)
    have h2 : [Moment.split (b :: p), .split (b :: (p ++ [a]))].Sublist o := by
      cases h1 with
      | cons _ h1 => exact h1
    have := h2.filterMap (Moment.above b)
    simpa [momentsBelow, Moment.above] using this
  · intro p hp
    rw [momentsBelow_mem] at hp
    have h1 := h.2 (b :: p) (List.mem_cons_of_mem _ hp)
    have h2 : [Moment.split (b :: p), .leaf (b :: p)].Sublist o := by
      cases h1 with
      | cons _ h1 => exact h1
    have := h2.filterMap (Moment.above b)
    simpa [momentsBelow, Moment.above] using this

theorem head_of_inOrder {order l : List Moment} (hp : order.Perm (.split [] :: l)) (hf : InOrder order) (hnd : order.Nodup) :
    ∃ o, order = .split [] :: o ∧ o.Perm l := by
  have key : ∀ {x y : Moment} {o : List Moment}, x ≠ y → (y :: o).Nodup → ¬ [x, y].Sublist (y :: o) := by
    intro x y o hne hnd h1
    rw [List.nodup_cons] at hnd
    cases h1 with
    | cons _ h1 => exact hnd.1 (h1.subset (by simp))
    | cons_cons _ h1 => exact hne rfl
  cases order with
  | nil => simp at hp
  | cons p o =>
    cases p with
    | split p =>
      rcases List.eq_nil_or_concat p with rfl | ⟨q, b, rfl⟩
      · exact ⟨o, rfl, (List.perm_cons _).mp hp⟩
      · exfalso
        rw [List.concat_eq_append] at *
        refine key ?_ hnd (hf.1 q b (by simp))
        intro h
        have := congrArg List.length (Moment.split.inj h)
        simp at this
    | leaf p => exact absurd (hf.2 p (by simp)) (key (by simp) hnd)

omit [F64 F] in
theorem below_inj (b : Bool) : Function.Injective (Moment.below b) := by
  intro x y h
  cases x <;> cases y <;> simp_all [Moment.below]

omit [F64 F] in
theorem moments_nodup {tree : TreeNode F L} (h : tree.Proper) : tree.moments.Nodup := by
  induction h with
  | leaf q l => simp [TreeNode.moments]
  | node q y n _ _ ihy ihn =>
    simp only [TreeNode.moments, List.nodup_cons, List.nodup_append, List.mem_append, List.mem_map]
    refine ⟨?_, ihy.map (below_inj true), ihn.map (below_inj false), ?_⟩
    · rintro (⟨a, _, h⟩ | ⟨a, _, h⟩) <;> cases a <;> cases h
    · rintro x ⟨a, _, rfl⟩ z ⟨b, _, rfl⟩ h
      cases a <;> cases b <;> cases h

theorem Talked.proper {m : Nat} {d : DataSet F} {tr : List (Event F)} {r : R (TreeNode F L)} (h : Talked par leafWith c t m d tr r) :
    ∀ {tree : TreeNode F L}, r = .ok tree → tree.Proper := by
  induction h with
  | panic e => nofun
  | stop hg =>
    intro tree hr
    cases hr
    exact .leaf _ _
  | stopPanic => nofun
  | refuse => nofun
  | askPar _ _ _ _ _ _ _ _ ihy ihn =>
    intro tree hr
    obtain ⟨y, n, hy, hn, rfl⟩ := joined_ok hr
    exact .node _ _ _ (ihy hy) (ihn hn)
  | askSeq _ _ _ _ _ _ _ ihy ihn =>
    intro tree hr
    obtain ⟨y, n, hy, hn, rfl⟩ := joined_ok hr
    exact .node _ _ _ (ihy hy) (ihn hn)
  | askFail => nofun

theorem Talked.reorder {m : Nat} {d : DataSet F} {tr : List (Event F)} {r : R (TreeNode F L)} (h : Talked par leafWith c t m d tr r)
    (hw : d.WF c t) (hpar : par = true) : ∀ {tree : TreeNode F L}, r = .ok tree → ∀ order, order.Perm tree.moments → InOrder order →
      ∃ tr', tr'.Perm tr ∧ List.Forall₂ (EventAt leafWith d c t m tree) order tr' ∧ Talked par leafWith c t m d tr' r := by
  induction h with
  | @panic m d e => nofun
  | @stop m d s hg o =>
    intro tree hr order hp hf
    cases hr
    have hp : order.Perm [.split [], .leaf []] := hp
    obtain ⟨o', rfl, h2⟩ := head_of_inOrder hp hf (hp.nodup_iff.mpr (by simp))
    have : o' = [.leaf []] := List.perm_singleton.mp h2
    subst this
    exact ⟨_, .refl _, .cons (eventAt_split (callAt_root_leaf hw _ hg)) (.cons (eventAt_leaf hw _ o) .nil), .stop hg o⟩
  | @stopPanic m d s hg e => nofun
  | @refuse m d s e hg hp => nofun
  | @askPar m d s ty tn o ry rn _ hg hc hy hn ay an ho ihy ihn =>
    intro tree hr order hp hf
    have hprop : tree.Proper := (Talked.askPar hpar hg hc hy hn ay an ho).proper hr
    have hnd := hp.nodup_iff.mpr (moments_nodup hprop)
    obtain ⟨y, n, rfl, rfl, rfl⟩ := joined_ok hr
    have hpre : (TreeNode.new s.question y n).moments =
      .split [] :: (y.moments.map (Moment.below true) ++ n.moments.map (Moment.below false)) := rfl
    rw [hpre] at hp
    obtain ⟨o', rfl, hp'⟩ := head_of_inOrder hp hf hnd
    obtain ⟨py, pn⟩ := momentsBelow_perm hp'
    have hnil : ∀ x : Moment, x ∈ o' → ∃ b y, x = Moment.below b y := by
      intro x h
      rcases List.mem_append.mp (hp'.mem_iff.mp h) with h | h <;> obtain ⟨a, _, rfl⟩ := List.mem_map.mp h <;> exact ⟨_, _, rfl⟩
    have hs : .split [] ∉ o' := by
      intro h
      obtain ⟨b, y, h⟩ := hnil _ h
      cases y <;> cases h
    have hl : .leaf [] ∉ o' := by
      intro h
      obtain ⟨b, y, h⟩ := hnil _ h
      cases y <;> cases h
    obtain ⟨ty', a1, a2, a3⟩ := ihy (answering_wf hw hy) rfl (momentsBelow true o') py (momentsBelow_order hf)
    obtain ⟨tn', b1, b2, b3⟩ := ihn (answering_wf hw hn) rfl (momentsBelow false o') pn (momentsBelow_order hf)
    have fy : List.Forall₂ (EventAt leafWith d c t (m + 1) (TreeNode.new s.question y n)) ((momentsBelow true o').map (Moment.below true)) ty' :=
      List.forall₂_map_left_iff.mpr (a2.imp (fun _ _ h => eventAt_sub (b := true) h))
    have fn : List.Forall₂ (EventAt leafWith d c t (m + 1) (TreeNode.new s.question y n)) ((momentsBelow false o').map (Moment.below false)) tn' :=
      List.forall₂_map_left_iff.mpr (b2.imp (fun _ _ h => eventAt_sub (b := false) h))
    obtain ⟨x, h1, h2⟩ := (momentsBelow_shuffle o' hs hl).forall₂' fy fn
    refine ⟨.split d t (.ok s) :: x, .cons _ ?_, .cons (eventAt_split (callAt_root hw y n hg)) h2, .askPar hpar hg hc hy hn a3 b3 h1⟩
    exact h1.perm.trans ((a1.append b1).trans ho.perm.symm)
  | @askSeq m d s ty tn y rn h _ _ _ _ _ _ _ _ => rw [hpar] at h; cases h
  | @askFail m d s ty e h _ _ _ _ _ _ => rw [hpar] at h; cases h

/-! ## panics -/

/-- where a panic comes from -/
theorem Talked.panics {m : Nat} {d : DataSet F} {tr : List (Event F)} {r : R (TreeNode F L)} (h : Talked par leafWith c t m d tr r) :
    ∀ {e : Panic}, r = .error e → (∃ data, Event.split data t (.error e) ∈ tr) ∨ (∃ data, Event.leaf data (.error e) ∈ tr) ∨
      ∃ data s, Event.split data t (.ok s) ∈ tr ∧ (s.gain ==. F64.zero) = false ∧ partition data s.question = .error e := by
  have widen : ∀ {tr tr' : List (Event F)} {e : Panic}, (∀ x ∈ tr, x ∈ tr') →
      ((∃ data, Event.split data t (.error e) ∈ tr) ∨ (∃ data, Event.leaf data (.error e) ∈ tr) ∨
        ∃ data s, Event.split data t (.ok s) ∈ tr ∧ (s.gain ==. F64.zero) = false ∧ partition data s.question = .error e) →
      ((∃ data, Event.split data t (.error e) ∈ tr') ∨ (∃ data, Event.leaf data (.error e) ∈ tr') ∨
        ∃ data s, Event.split data t (.ok s) ∈ tr' ∧ (s.gain ==. F64.zero) = false ∧ partition data s.question = .error e) := by
    rintro tr tr' e hs (⟨d, h⟩ | ⟨d, h⟩ | ⟨d, s, h, h'⟩)
    · exact .inl ⟨d, hs _ h⟩
    · exact .inr (.inl ⟨d, hs _ h⟩)
    · exact .inr (.inr ⟨d, s, hs _ h, h'⟩)
  have joined_error : ∀ {q : Question F} {ry rn : R (TreeNode F L)} {e : Panic}, joined q ry rn = .error e → ry = .error e ∨ rn = .error e := by
    intro q ry rn e h
    cases ry with
    | error e' => cases h; exact .inl rfl
    | ok y => cases rn with
      | error e' => cases h; exact .inr rfl
      | ok n => cases h
  induction h with
  | @panic m d e =>
    intro e' h
    cases h
    exact .inl ⟨d, by simp⟩
  | @stop m d s hg o => nofun
  | @stopPanic m d s hg e =>
    intro e' h
    cases h
    exact .inr (.inl ⟨d, by simp⟩)
  | @refuse m d s e hg hp =>
    intro e' h
    cases h
    exact .inr (.inr ⟨d, s, by simp, hg, hp⟩)
  | @askPar m d s ty tn o ry rn hpar hg hc hy hn ay an ho ihy ihn =>
    intro e h
    rcases joined_error h with h | h
    · exact widen (fun x hx => List.mem_cons_of_mem _ (ho.sublist_left.subset hx)) (ihy h)
    · exact widen (fun x hx => List.mem_cons_of_mem _ (ho.sublist_right.subset hx)) (ihn h)
  | @askSeq m d s ty tn y rn hpar hg hc hy hn ay an ihy ihn =>
    intro e h
    rcases joined_error h with h | h
    · cases h
    · exact widen (fun x hx => List.mem_cons_of_mem _ (List.mem_append_right _ hx)) (ihn h)
  | @askFail m d s ty e hpar hg hc hy hn ay ihy =>
    intro e h
    exact widen (fun x hx => List.mem_cons_of_mem _ hx) (ihy h)

theorem treeCalling_talked {d : DataSet F} {cfg : TreeConfig} (ht : cfg.numberOfClasses = t) (hw : d.WF c t) {tr : List (Event F)}
    {r : R (TreeNode F L)} (h : Dialog.Run (treeCalling leafWith d cfg) tr (.done r)) :
    Talked cfg.useMultiThreading leafWith c t cfg.maxLevels d tr r := by
  rw [treeCalling_eq, ht] at h
  exact talked_of_run _ hw h

end Verif
