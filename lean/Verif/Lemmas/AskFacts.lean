import Verif.Lemmas.AskTree
import Mathlib.Algebra.BigOperators.Group.List.Basic
import Mathlib.Data.List.Nodup
/-! # What the calls of the tree builders have in common -/

namespace Verif

variable {F : Type} [F64 F] {L : Type} {par : Bool} {leafOf : DataSet F → R L} {c t : Nat}

theorem answering_length (d : DataSet F) (c : Nat) (q : Question F) :
    (d.answering c q true).examples.length + (d.answering c q false).examples.length = d.examples.length := by
  rw [answering_examples, answering_examples]
  induction d.examples with
  | nil => rfl
  | cons e es ih =>
    cases h : satisfies q e.1 <;> simp [h] at ih ⊢ <;> omega

omit [F64 F] in
theorem rows_length {d : DataSet F} [F64 F] (h : d.WF c t) : d.examples.length = d.featureRows.length := by
  simp [DataSet.examples, h.label_count]

theorem examples_pos {d : DataSet F} (h : d.WF c t) : 0 < d.examples.length := by
  rw [rows_length h]
  exact List.length_pos_of_ne_nil h.rows_ne

/-- how many calls, and with how many rows -/
theorem Asked.count {m : Nat} {d : DataSet F} {tr : List (Call F)} {r : R (TreeNode F L)} (h : Asked par leafOf c t m d tr r)
    (hw : d.WF c t) : tr.length + 1 ≤ 2 ^ (m + 1) ∧ tr.length + 1 ≤ 2 * d.examples.length ∧
      (tr.map (fun call => call.data.examples.length)).sum ≤ d.examples.length * (m + 1) := by
  have one : ∀ (m : Nat) (d : DataSet F), d.WF c t → 1 + 1 ≤ 2 ^ (m + 1) ∧ 1 + 1 ≤ 2 * d.examples.length ∧
      d.examples.length ≤ d.examples.length * (m + 1) := by
    intro m d hw
    have := examples_pos hw
    have h1 : 1 ≤ 2 ^ m := Nat.one_le_two_pow
    rw [Nat.pow_succ]
    refine ⟨by omega, by omega, ?_⟩
    rw [Nat.mul_add]
    omega
  induction h with
  | @panic m d e => simpa using one m d hw
  | @stop m d s hg => simpa using one m d hw
  | @refuse m d s e hg hp => simpa using one (m + 1) d hw
  | @askPar m d s ty tn o ry rn hpar hg hc hy hn _ _ ho ihy ihn =>
    obtain ⟨a1, a2, a3⟩ := ihy (answering_wf hw hy)
    obtain ⟨b1, b2, b3⟩ := ihn (answering_wf hw hn)
    have hN := answering_length d c s.question
    have hl := ho.perm.length_eq
    have hs := (ho.perm.map (fun call : Call F => call.data.examples.length)).sum_eq
    rw [List.length_append] at hl
    rw [List.map_append, List.sum_append] at hs
    simp only [List.length_cons, List.map_cons, List.sum_cons]
    refine ⟨?_, by omega, ?_⟩
    · rw [Nat.pow_succ]
      omega
    · rw [hs, Nat.mul_add d.examples.length (m + 1) 1, ← hN, Nat.add_mul]
      omega
  | @askSeq m d s ty tn y rn hpar hg hc hy hn _ _ ihy ihn =>
    obtain ⟨a1, a2, a3⟩ := ihy (answering_wf hw hy)
    obtain ⟨b1, b2, b3⟩ := ihn (answering_wf hw hn)
    have hN := answering_length d c s.question
    simp only [List.length_cons, List.map_cons, List.sum_cons, List.length_append, List.map_append, List.sum_append]
    refine ⟨?_, by omega, ?_⟩
    · rw [Nat.pow_succ]
      omega
    · rw [Nat.mul_add d.examples.length (m + 1) 1, ← hN, Nat.add_mul]
      omega
  | @askFail m d s ty e hpar hg hc hy hn _ ihy =>
    obtain ⟨a1, a2, a3⟩ := ihy (answering_wf hw hy)
    have hN := answering_length d c s.question
    have hp := examples_pos (answering_wf hw hn)
    have h1 : 1 ≤ 2 ^ (m + 1) := Nat.one_le_two_pow
    simp only [List.length_cons, List.map_cons, List.sum_cons]
    refine ⟨?_, by omega, ?_⟩
    · rw [Nat.pow_succ]
      omega
    · rw [Nat.mul_add d.examples.length (m + 1) 1, ← hN, Nat.add_mul]
      omega

theorem answering_sub (d : DataSet F) (c : Nat) (q : Question F) (b : Bool) : (d.answering c q b).examples.Sublist d.examples := by
  rw [answering_examples]
  exact List.filter_sublist

/-- what is passed in every call -/
theorem Asked.calls {m : Nat} {d : DataSet F} {tr : List (Call F)} {r : R (TreeNode F L)} (h : Asked par leafOf c t m d tr r)
    (hw : d.WF c t) : ∀ call ∈ tr, call.targets = t ∧ call.data.WF c t ∧ call.data.examples.Sublist d.examples := by
  induction h with
  | @panic m d e => simpa using hw
  | @stop m d s hg => simpa using hw
  | @refuse m d s e hg hp => simpa using hw
  | @askPar m d s ty tn o ry rn hpar hg hc hy hn _ _ ho ihy ihn =>
    intro call hcall
    rcases List.mem_cons.mp hcall with rfl | hcall
    · exact ⟨rfl, hw, .refl _⟩
    · rcases List.mem_append.mp (ho.perm.mem_iff.mp hcall) with h | h
      · obtain ⟨h1, h2, h3⟩ := ihy (answering_wf hw hy) call h
        exact ⟨h1, h2, h3.trans (answering_sub d c _ _)⟩
      · obtain ⟨h1, h2, h3⟩ := ihn (answering_wf hw hn) call h
        exact ⟨h1, h2, h3.trans (answering_sub d c _ _)⟩
  | @askSeq m d s ty tn y rn hpar hg hc hy hn _ _ ihy ihn =>
    intro call hcall
    rcases List.mem_cons.mp hcall with rfl | hcall
    · exact ⟨rfl, hw, .refl _⟩
    · rcases List.mem_append.mp hcall with h | h
      · obtain ⟨h1, h2, h3⟩ := ihy (answering_wf hw hy) call h
        exact ⟨h1, h2, h3.trans (answering_sub d c _ _)⟩
      · obtain ⟨h1, h2, h3⟩ := ihn (answering_wf hw hn) call h
        exact ⟨h1, h2, h3.trans (answering_sub d c _ _)⟩
  | @askFail m d s ty e hpar hg hc hy hn _ ihy =>
    intro call hcall
    rcases List.mem_cons.mp hcall with rfl | hcall
    · exact ⟨rfl, hw, .refl _⟩
    · obtain ⟨h1, h2, h3⟩ := ihy (answering_wf hw hy) call hcall
      exact ⟨h1, h2, h3.trans (answering_sub d c _ _)⟩

/-- the rows of a call answer as the rows of the branch do -/
theorem Asked.side {m : Nat} {d : DataSet F} {q : Question F} {b : Bool} {tr : List (Call F)} {r : R (TreeNode F L)}
    (h : Asked par leafOf c t m (d.answering c q b) tr r) (hw : (d.answering c q b).WF c t) :
    ∀ call ∈ tr, (∃ e, e ∈ call.data.examples) ∧ ∀ e ∈ call.data.examples, satisfies q e.1 = b := by
  intro call hcall
  obtain ⟨_, h2, h3⟩ := h.calls hw call hcall
  refine ⟨List.exists_mem_of_length_pos (examples_pos h2), fun e he => ?_⟩
  have := h3.subset he
  rw [answering_examples, List.mem_filter] at this
  simpa using this.2

theorem example_of_row {d : DataSet F} (h : d.WF c t) {p : List F → Prop} (hr : ∃ row ∈ d.featureRows, p row) :
    ∃ e ∈ d.examples, p e.1 := by
  obtain ⟨row, h1, h2⟩ := hr
  obtain ⟨i, hi, rfl⟩ := List.getElem_of_mem h1
  have hl : i < d.labels.length := by rw [h.label_count]; exact hi
  exact ⟨(d.featureRows[i], d.labels[i]), List.mem_iff_getElem.mpr ⟨i, by simp [DataSet.examples]; omega, by simp [DataSet.examples]⟩, h2⟩

/-- no data set is passed twice -/
theorem Asked.nodup {m : Nat} {d : DataSet F} {tr : List (Call F)} {r : R (TreeNode F L)} (h : Asked par leafOf c t m d tr r)
    (hw : d.WF c t) : (tr.map (fun call => call.data)).Nodup := by
  have root : ∀ {m : Nat} {d : DataSet F} {q : Question F} {b : Bool} {tr : List (Call F)} {r : R (TreeNode F L)}, d.WF c t →
      Asked par leafOf c t m (d.answering c q b) tr r → (∃ row ∈ d.featureRows, satisfies q row = b) →
      (∃ row ∈ d.featureRows, satisfies q row = !b) → d ∉ tr.map (fun call => call.data) := by
    intro m d q b tr r hw h hb hnb hm
    obtain ⟨call, h1, h2⟩ := List.mem_map.mp hm
    obtain ⟨_, h3⟩ := h.side (answering_wf hw hb) call h1
    obtain ⟨e, h4, h5⟩ := example_of_row hw (p := fun row => satisfies q row = !b) hnb
    rw [h2] at h3
    have := h3 e h4
    rw [h5] at this
    cases b <;> cases this
  have apart : ∀ {m m' : Nat} {d : DataSet F} {q : Question F} {ty tn : List (Call F)} {ry rn : R (TreeNode F L)}, d.WF c t →
      Asked par leafOf c t m (d.answering c q true) ty ry → Asked par leafOf c t m' (d.answering c q false) tn rn →
      (∃ row ∈ d.featureRows, satisfies q row = true) → (∃ row ∈ d.featureRows, satisfies q row = false) →
      ∀ x ∈ ty.map (fun call => call.data), ∀ y ∈ tn.map (fun call => call.data), x ≠ y := by
    intro m m' d q ty tn ry rn hw h h' hy hn x hx y hx' hxy
    obtain ⟨call, h1, rfl⟩ := List.mem_map.mp hx
    obtain ⟨call', h2, rfl⟩ := List.mem_map.mp hx'
    obtain ⟨⟨e, h3⟩, h4⟩ := h.side (answering_wf hw hy) call h1
    obtain ⟨_, h5⟩ := h'.side (answering_wf hw hn) call' h2
    rw [← hxy] at h5
    have := (h4 e h3).symm.trans (h5 e h3)
    cases this
  induction h with
  | @panic m d e => simp
  | @stop m d s hg => simp
  | @refuse m d s e hg hp => simp
  | @askPar m d s ty tn o ry rn hpar hg hc hy hn ay an ho ihy ihn =>
    have hp := ho.perm.map (fun call : Call F => call.data)
    rw [List.map_append] at hp
    simp only [List.map_cons, List.nodup_cons]
    refine ⟨?_, hp.nodup_iff.mpr ?_⟩
    · intro h
      rcases List.mem_append.mp (hp.mem_iff.mp h) with h | h
      · exact root hw ay hy hn h
      · exact root hw an hn hy h
    · exact List.nodup_append.mpr ⟨ihy (answering_wf hw hy), ihn (answering_wf hw hn), apart hw ay an hy hn⟩
  | @askSeq m d s ty tn y rn hpar hg hc hy hn ay an ihy ihn =>
    simp only [List.map_cons, List.nodup_cons, List.map_append]
    refine ⟨?_, ?_⟩
    · intro h
      rcases List.mem_append.mp h with h | h
      · exact root hw ay hy hn h
      · exact root hw an hn hy h
    · exact List.nodup_append.mpr ⟨ihy (answering_wf hw hy), ihn (answering_wf hw hn), apart hw ay an hy hn⟩
  | @askFail m d s ty e hpar hg hc hy hn ay ihy =>
    simp only [List.map_cons, List.nodup_cons]
    exact ⟨root hw ay hy hn, ihy (answering_wf hw hy)⟩

/-! ## the calls and the nodes -/

theorem reaching_new {d : DataSet F} {c : Nat} (q : Question F) (y n : TreeNode F L) (b : Bool) (p : List Bool) :
    reaching d (TreeNode.new q y n) (b :: p) = reaching (d.answering c q b) (if b then y else n) p := by
  rw [reaching, reaching, answering_examples, List.filter_filter]
  apply List.filter_congr
  intro e _
  rw [TreeNode.route_new]
  cases b <;> cases hs : satisfies q e.1 <;> simp [List.isPrefixOf]

theorem callAt_root_leaf {m : Nat} {d : DataSet F} (hw : d.WF c t) {s : BestSplitResult F} (l : L)
    (hg : m = 0 ∨ (s.gain ==. F64.zero) = true) : CallAt d c t m (TreeNode.leafNode s.question l) [] ⟨d, t, .ok s⟩ := by
  refine ⟨rfl, hw, (reaching_nil _ _).symm, s, rfl, ?_⟩
  rcases hg with rfl | hg
  · simp [TreeNode.leafNode, TreeNode.questionAt]
  · simp [TreeNode.leafNode, TreeNode.questionAt, hg]

theorem callAt_root {m : Nat} {d : DataSet F} (hw : d.WF c t) {s : BestSplitResult F} (y n : TreeNode F L)
    (hg : (s.gain ==. F64.zero) = false) : CallAt d c t (m + 1) (TreeNode.new s.question y n) [] ⟨d, t, .ok s⟩ :=
  ⟨rfl, hw, (reaching_nil _ _).symm, s, rfl, by simp [hg, TreeNode.new, TreeNode.questionAt]⟩

theorem callAt_sub {m : Nat} {d : DataSet F} {q : Question F} {y n : TreeNode F L} {b : Bool} {p : List Bool} {call : Call F}
    (h : CallAt (d.answering c q b) c t m (if b then y else n) p call) : CallAt d c t (m + 1) (TreeNode.new q y n) (b :: p) call := by
  obtain ⟨h1, h2, h3, s, h4, h5⟩ := h
  refine ⟨h1, h2, by rw [reaching_new (c := c)]; exact h3, s, h4, ?_⟩
  cases b
  · simp only [Bool.false_eq_true, if_false] at h5
    simp only [TreeNode.new, TreeNode.questionAt, h5, List.length_cons, Nat.add_lt_add_iff_right]
  · simp only [if_true] at h5
    simp only [TreeNode.new, TreeNode.questionAt, h5, List.length_cons, Nat.add_lt_add_iff_right]

theorem parentsFirst_node {oy on o : List (List Bool)} (hy : ParentsFirst oy) (hn : ParentsFirst on)
    (ho : Shuffle (oy.map (true :: ·)) (on.map (false :: ·)) o) : ParentsFirst ([] :: o) := by
  intro p b hp
  have hp : p ++ [b] ∈ o := by
    rcases List.mem_cons.mp hp with h | h
    · simp at h
    · exact h
  cases p with
  | nil => exact List.Sublist.cons_cons _ (List.singleton_sublist.mpr hp)
  | cons a p =>
    refine List.Sublist.cons _ ?_
    rcases List.mem_append.mp (ho.perm.mem_iff.mp hp) with h | h
    · obtain ⟨x, hx, he⟩ := List.mem_map.mp h
      simp only [List.cons_append, List.cons.injEq] at he
      obtain ⟨rfl, rfl⟩ := he
      exact ((hy p b hx).map (true :: ·)).trans ho.sublist_left
    · obtain ⟨x, hx, he⟩ := List.mem_map.mp h
      simp only [List.cons_append, List.cons.injEq] at he
      obtain ⟨rfl, rfl⟩ := he
      exact ((hn p b hx).map (false :: ·)).trans ho.sublist_right

omit [F64 F] in
theorem joined_ok {q : Question F} {ry rn : R (TreeNode F L)} {tree : TreeNode F L} (h : joined q ry rn = .ok tree) :
    ∃ y n, ry = .ok y ∧ rn = .ok n ∧ tree = TreeNode.new q y n := by
  simp only [joined, R.bind_eq_ok] at h
  obtain ⟨y, h1, n, h2, h3⟩ := h
  cases h3
  exact ⟨y, n, h1, h2, rfl⟩

/-- an execution that returns a tree has made one call for every position, in an order that takes parents first -/
theorem Asked.order {m : Nat} {d : DataSet F} {tr : List (Call F)} {r : R (TreeNode F L)} (h : Asked par leafOf c t m d tr r)
    (hw : d.WF c t) : ∀ {tree : TreeNode F L}, r = .ok tree → ∃ order, order.Perm tree.preorder ∧ ParentsFirst order ∧
      List.Forall₂ (CallAt d c t m tree) order tr ∧ (par = false → order = tree.preorder) := by
  have stop : ∀ {m : Nat} {d : DataSet F} {s : BestSplitResult F} {tree : TreeNode F L}, d.WF c t → (m = 0 ∨ (s.gain ==. F64.zero) = true) →
      (leafOf d >>= fun l => .ok (TreeNode.leafNode s.question l)) = .ok tree → ∃ order, order.Perm tree.preorder ∧ ParentsFirst order ∧
      List.Forall₂ (CallAt d c t m tree) order [⟨d, t, .ok s⟩] ∧ (par = false → order = tree.preorder) := by
    intro m d s tree hw hg hr
    rw [R.bind_eq_ok] at hr
    obtain ⟨l, hl, hr⟩ := hr
    cases hr
    refine ⟨[[]], .refl _, ?_, .cons (callAt_root_leaf hw l hg) .nil, fun _ => rfl⟩
    intro p b hp
    simp at hp
  induction h with
  | @panic m d e => nofun
  | @stop m d s hg => intro tree hr; exact stop hw hg hr
  | @refuse m d s e hg hp => nofun
  | @askPar m d s ty tn o ry rn hpar hg hc hy hn ay an ho ihy ihn =>
    intro tree hr
    obtain ⟨y, n, rfl, rfl, rfl⟩ := joined_ok hr
    obtain ⟨oy, p1, p2, p3, _⟩ := ihy (answering_wf hw hy) rfl
    obtain ⟨on, q1, q2, q3, _⟩ := ihn (answering_wf hw hn) rfl
    have py : List.Forall₂ (CallAt d c t (m + 1) (TreeNode.new s.question y n)) (oy.map (true :: ·)) ty :=
      List.forall₂_map_left_iff.mpr (p3.imp (fun _ _ h => callAt_sub (b := true) h))
    have pn : List.Forall₂ (CallAt d c t (m + 1) (TreeNode.new s.question y n)) (on.map (false :: ·)) tn :=
      List.forall₂_map_left_iff.mpr (q3.imp (fun _ _ h => callAt_sub (b := false) h))
    obtain ⟨o', h1, h2⟩ := ho.forall₂ py pn
    refine ⟨[] :: o', ?_, parentsFirst_node p2 q2 h1, .cons (callAt_root hw y n hg) h2, by rw [hpar]; nofun⟩
    exact .cons _ (h1.perm.trans ((p1.map _).append (q1.map _)))
  | @askSeq m d s ty tn y rn hpar hg hc hy hn ay an ihy ihn =>
    intro tree hr
    obtain ⟨y', n, hy', rfl, rfl⟩ := joined_ok hr
    cases hy'
    obtain ⟨oy, p1, p2, p3, p4⟩ := ihy (answering_wf hw hy) rfl
    obtain ⟨on, q1, q2, q3, q4⟩ := ihn (answering_wf hw hn) rfl
    have py : List.Forall₂ (CallAt d c t (m + 1) (TreeNode.new s.question y n)) (oy.map (true :: ·)) ty :=
      List.forall₂_map_left_iff.mpr (p3.imp (fun _ _ h => callAt_sub (b := true) h))
    have pn : List.Forall₂ (CallAt d c t (m + 1) (TreeNode.new s.question y n)) (on.map (false :: ·)) tn :=
      List.forall₂_map_left_iff.mpr (q3.imp (fun _ _ h => callAt_sub (b := false) h))
    have hsh : Shuffle (oy.map (true :: ·)) (on.map (false :: ·)) (oy.map (true :: ·) ++ on.map (false :: ·)) := by
      simpa using (Shuffle.nil_left (on.map (false :: ·))).append_left (oy.map (true :: ·))
    refine ⟨[] :: (oy.map (true :: ·) ++ on.map (false :: ·)), .cons _ ((p1.map _).append (q1.map _)), parentsFirst_node p2 q2 hsh,
      .cons (callAt_root hw y n hg) (List.rel_append py pn), fun _ => ?_⟩
    rw [p4 hpar, q4 hpar]
    rfl
  | @askFail m d s ty e hpar hg hc hy hn ay ihy => nofun

/-! ## every such order occurs -/

/-- the positions below one branch -/
def branch (b : Bool) (o : List (List Bool)) : List (List Bool) :=
  o.filterMap (fun p => match p with | [] => none | x :: p => if x = b then some p else none)

theorem branch_shuffle (o : List (List Bool)) (h : [] ∉ o) : Shuffle ((branch true o).map (true :: ·)) ((branch false o).map (false :: ·)) o := by
  induction o with
  | nil => exact .nil
  | cons p o ih =>
    have ih := ih (fun h' => h (List.mem_cons_of_mem _ h'))
    match p with
    | [] => simp at h
    | true :: p => simpa [branch] using Shuffle.left (x := true :: p) ih
    | false :: p => simpa [branch] using Shuffle.right (x := false :: p) ih

theorem branch_perm {o : List (List Bool)} {y n : List (List Bool)} (h : o.Perm (y.map (true :: ·) ++ n.map (false :: ·))) :
    (branch true o).Perm y ∧ (branch false o).Perm n := by
  constructor
  · have := h.filterMap (fun p => match p with | [] => none | x :: p => if x = true then some p else none)
    simpa [branch, List.filterMap_append, List.filterMap_map, Function.comp_def] using this
  · have := h.filterMap (fun p => match p with | [] => none | x :: p => if x = false then some p else none)
    simpa [branch, List.filterMap_append, List.filterMap_map, Function.comp_def] using this

theorem branch_mem {b : Bool} {o : List (List Bool)} {p : List Bool} : p ∈ branch b o ↔ b :: p ∈ o := by
  simp only [branch, List.mem_filterMap]
  constructor
  · rintro ⟨a, h1, h2⟩
    match a with
    | [] => simp at h2
    | x :: a =>
      by_cases hx : x = b
      · simp only [hx, if_true, Option.some.injEq] at h2
        rw [← h2, ← hx]
        exact h1
      · simp [hx] at h2
  · intro h
    exact ⟨_, h, by simp⟩

theorem branch_parents {b : Bool} {o : List (List Bool)} (h : ParentsFirst ([] :: o)) : ParentsFirst (branch b o) := by
  intro p a hp
  rw [branch_mem] at hp
  have h1 := h (b :: p) a (List.mem_cons_of_mem _ hp)
  have h2 : [b :: p, b :: (p ++ [a])].Sublist o := by
    cases h1 with
    | cons _ h1 => exact h1
  have := h2.filterMap (fun p => match p with | [] => none | x :: p => if x = b then some p else none)
  simpa [branch] using this

theorem head_of_parentsFirst {order : List (List Bool)} {l : List (List Bool)} (hp : order.Perm ([] :: l)) (hn : ([] :: l).Nodup)
    (hf : ParentsFirst order) : ∃ o, order = [] :: o ∧ o.Perm l := by
  cases order with
  | nil => simp at hp
  | cons p o =>
    rcases List.eq_nil_or_concat p with rfl | ⟨q, b, rfl⟩
    · exact ⟨o, rfl, (List.perm_cons _).mp hp⟩
    · exfalso
      rw [List.concat_eq_append] at *
      have h1 := hf q b (by simp)
      have h2 := (hp.nodup_iff.mpr hn)
      rw [List.nodup_cons] at h2
      have hne : ∀ x, x = q ++ [b] → ¬ [q, x].Sublist (x :: o) := by
        intro x hx h1
        cases h1 with
        | cons _ h1 => exact h2.1 (hx ▸ h1.subset (by simp))
        | cons_cons _ h1 =>
          have := congrArg List.length hx
          simp at this
      exact hne _ rfl h1

omit [F64 F] in
theorem preorder_nodup {tree : TreeNode F L} (h : tree.Proper) : tree.preorder.Nodup := by
  induction h with
  | leaf q l => simp [TreeNode.preorder]
  | node q y n _ _ ihy ihn =>
    simp only [TreeNode.preorder, List.nodup_cons, List.nodup_append, List.mem_append, List.mem_map]
    refine ⟨by simp, List.Nodup.map (fun _ _ h => (List.cons.inj h).2) ihy, List.Nodup.map (fun _ _ h => (List.cons.inj h).2) ihn, ?_⟩
    rintro x ⟨a, _, rfl⟩ z ⟨b, _, rfl⟩ h
    simp at h

theorem Asked.proper {m : Nat} {d : DataSet F} {tr : List (Call F)} {r : R (TreeNode F L)} (h : Asked par leafOf c t m d tr r) :
    ∀ {tree : TreeNode F L}, r = .ok tree → tree.Proper := by
  induction h with
  | panic e => nofun
  | stop hg =>
    intro tree hr
    rw [R.bind_eq_ok] at hr
    obtain ⟨l, hl, hr⟩ := hr
    cases hr
    exact .leaf _ _
  | refuse => nofun
  | askPar _ _ _ _ _ _ _ _ ihy ihn =>
    intro tree hr
    obtain ⟨y, n, hy, hn, rfl⟩ := joined_ok hr
    exact .node _ _ _ (ihy hy) (ihn hn)
  | askSeq _ _ _ _ _ _ _ ihy ihn =>
    intro tree hr
    obtain ⟨y, n, hy, hn, rfl⟩ := joined_ok hr
    exact .node _ _ _ (ihy hy) (ihn hn)
  | askFail => nofun

theorem Asked.reorder {m : Nat} {d : DataSet F} {tr : List (Call F)} {r : R (TreeNode F L)} (h : Asked par leafOf c t m d tr r)
    (hw : d.WF c t) (hpar : par = true) : ∀ {tree : TreeNode F L}, r = .ok tree → ∀ order, order.Perm tree.preorder → ParentsFirst order →
      ∃ tr', tr'.Perm tr ∧ List.Forall₂ (CallAt d c t m tree) order tr' ∧ Asked par leafOf c t m d tr' r := by
  induction h with
  | @panic m d e => nofun
  | @stop m d s hg =>
    intro tree hr order hp hf
    have hr' := hr
    rw [R.bind_eq_ok] at hr'
    obtain ⟨l, hl, hr'⟩ := hr'
    cases hr'
    have : order = [[]] := List.perm_singleton.mp hp
    subst this
    exact ⟨_, .refl _, .cons (callAt_root_leaf hw l hg) .nil, .stop hg⟩
  | @refuse m d s e hg hp => nofun
  | @askPar m d s ty tn o ry rn _ hg hc hy hn ay an ho ihy ihn =>
    intro tree hr order hp hf
    have hprop : tree.Proper := (Asked.askPar hpar hg hc hy hn ay an ho).proper hr
    have hnd := preorder_nodup hprop
    obtain ⟨y, n, rfl, rfl, rfl⟩ := joined_ok hr
    have hpre : (TreeNode.new s.question y n).preorder = [] :: (y.preorder.map (true :: ·) ++ n.preorder.map (false :: ·)) := rfl
    rw [hpre] at hp hnd
    obtain ⟨o', rfl, hp'⟩ := head_of_parentsFirst hp hnd hf
    obtain ⟨py, pn⟩ := branch_perm hp'
    have hnil : [] ∉ o' := by
      intro h
      have := hp'.mem_iff.mp h
      simp at this
    obtain ⟨ty', a1, a2, a3⟩ := ihy (answering_wf hw hy) rfl (branch true o') py (branch_parents hf)
    obtain ⟨tn', b1, b2, b3⟩ := ihn (answering_wf hw hn) rfl (branch false o') pn (branch_parents hf)
    have fy : List.Forall₂ (CallAt d c t (m + 1) (TreeNode.new s.question y n)) ((branch true o').map (true :: ·)) ty' :=
      List.forall₂_map_left_iff.mpr (a2.imp (fun _ _ h => callAt_sub (b := true) h))
    have fn : List.Forall₂ (CallAt d c t (m + 1) (TreeNode.new s.question y n)) ((branch false o').map (false :: ·)) tn' :=
      List.forall₂_map_left_iff.mpr (b2.imp (fun _ _ h => callAt_sub (b := false) h))
    obtain ⟨x, h1, h2⟩ := (branch_shuffle o' hnil).forall₂' fy fn
    refine ⟨⟨d, t, .ok s⟩ :: x, .cons _ ?_, .cons (callAt_root hw y n hg) h2, .askPar hpar hg hc hy hn a3 b3 h1⟩
    exact h1.perm.trans ((a1.append b1).trans ho.perm.symm)
  | @askSeq m d s ty tn y rn h _ _ _ _ _ _ _ _ => rw [hpar] at h; cases h
  | @askFail m d s ty e h _ _ _ _ _ _ => rw [hpar] at h; cases h

end Verif
