import Mathlib.Data.List.Nodup
import Verif.Props.Tree
/-!
# C47: the printed form of a regression tree
-/

set_option linter.unusedSectionVars false

namespace Verif

variable {F : Type} [F64 F]

open Sample

/-- `spacing` followed by four spaces per level. -/
def indent (spacing : String) (level : Nat) : String := spacing ++ String.ofList (List.replicate (4 * level) ' ')

theorem indent_zero (s : String) : indent s 0 = s := by
  apply String.toList_injective
  simp [indent]

theorem indent_succ (s : String) (n : Nat) : indent (s ++ "    ") n = indent s (n + 1) := by
  apply String.toList_injective
  have : "    ".toList = List.replicate 4 ' ' := by decide
  simp only [indent, String.toList_append, String.toList_ofList, List.append_assoc, this, List.append_cancel_left_eq,
    List.replicate_append_replicate]
  congr 1
  omega

namespace PrintLine

/-- the content of a `Predict` line -/
def asPredict : PrintLine F → Option (String × Option (DataSet F))
  | .predict s d => some (s, d)
  | _ => none

/-- the content of a question line -/
def asQuestion : PrintLine F → Option (String × String × F)
  | .question s n v => some (s, n, v)
  | _ => none

/-- the indentation of a `--> True:` line -/
def asTrue : PrintLine F → Option String
  | .trueMarker s => some s
  | _ => none

/-- the indentation of a `--> False:` line -/
def asFalse : PrintLine F → Option String
  | .falseMarker s => some s
  | _ => none

end PrintLine

namespace TreeNode
variable {L : Type}

/-- The positions of a tree are listed once each, and they are exactly the places of leaves and questions. -/
theorem preorder_spec {tree : TreeNode F L} (h : tree.Proper) :
    tree.preorder.Nodup ∧ ∀ p, p ∈ tree.preorder ↔ ((tree.leafAt p).isSome ∨ (tree.questionAt p).isSome) := by
  induction h with
  | leaf q l =>
    refine ⟨by simp [preorder], fun p => ?_⟩
    cases p <;> simp [preorder, leafAt, questionAt]
  | node q a b _ _ iha ihb =>
    refine ⟨?_, fun p => ?_⟩
    · simp only [preorder, List.nodup_cons, List.nodup_append, List.mem_append, List.mem_map]
      refine ⟨by simp, ?_, ?_, ?_⟩
      · exact List.Nodup.map (fun _ _ h => by simpa using h) iha.1
      · exact List.Nodup.map (fun _ _ h => by simpa using h) ihb.1
      · rintro x ⟨_, _, rfl⟩ y ⟨_, _, rfl⟩
        simp
    · match p with
      | [] => simp [preorder, questionAt]
      | true :: p => simp [preorder, questionAt, leafAt, iha.2]
      | false :: p => simp [preorder, questionAt, leafAt, ihb.2]

end TreeNode

/-- **C47**.  Printing succeeds exactly when every question of the tree has a feature name. -/
theorem C47_succeeds_iff (names : List String) (tree : TreeNode F (RegressionLeaf F)) (h : tree.Proper) (spacing : String) :
    (∃ lines, printTreeRegression names tree spacing = .ok lines) ↔
      ∀ p q, tree.questionAt p = some q → q.column < names.length := by
  induction h generalizing spacing with
  | leaf q l =>
    refine ⟨fun _ p q hp => ?_, fun _ => ⟨_, rfl⟩⟩
    cases p <;> simp [TreeNode.questionAt] at hp
  | node q a b _ _ iha ihb =>
    constructor
    · rintro ⟨lines, hl⟩
      simp only [printTreeRegression, R.bind_eq_ok] at hl
      obtain ⟨name, h1, la, h2, lb, h3, _⟩ := hl
      intro p q' hp
      match p with
      | [] =>
        simp only [TreeNode.questionAt, Option.some.injEq] at hp
        subst hp
        by_contra hlt
        rw [idx_none (by omega)] at h1
        cases h1
      | true :: p => exact (iha _).mp ⟨la, h2⟩ p q' hp
      | false :: p => exact (ihb _).mp ⟨lb, h3⟩ p q' hp
    · intro hq
      obtain ⟨la, h1⟩ := (iha (spacing ++ "    ")).mpr (fun p q hp => hq (true :: p) q hp)
      obtain ⟨lb, h2⟩ := (ihb (spacing ++ "    ")).mpr (fun p q hp => hq (false :: p) q hp)
      have h3 := hq [] q rfl
      refine ⟨[.question spacing names[q.column] q.value, .trueMarker spacing] ++ la ++ [.falseMarker spacing] ++ lb, ?_⟩
      simp only [printTreeRegression, idx_lt h3, h1, h2]
      rfl

theorem print_node {names : List String} {q : Question F} {a b : TreeNode F (RegressionLeaf F)} {spacing : String} {lines : List (PrintLine F)}
    (h : printTreeRegression names (.mk q (some a) (some b) none) spacing = .ok lines) :
    ∃ name la lb, names[q.column]? = some name ∧ printTreeRegression names a (indent spacing 1) = .ok la ∧
      printTreeRegression names b (indent spacing 1) = .ok lb ∧
      lines = [.question spacing name q.value, .trueMarker spacing] ++ la ++ [.falseMarker spacing] ++ lb := by
  simp only [printTreeRegression, R.bind_eq_ok] at h
  obtain ⟨name, h1, la, h2, lb, h3, h4⟩ := h
  rw [← indent_zero (spacing ++ "    "), indent_succ] at h2 h3
  exact ⟨name, la, lb, idx_eq_ok.mp h1, h2, h3, (Except.ok.inj h4).symm⟩

/-- **C47**.  The `Predict` lines are the leaves of the tree, one each, in order, indented by four spaces per level; the question
lines are the questions of the tree in order, indented likewise, each with the name of its column and its threshold; every
question comes with one `True` marker of the same indentation. -/
theorem C47_lines (names : List String) (tree : TreeNode F (RegressionLeaf F)) (h : tree.Proper) (spacing : String)
    (lines : List (PrintLine F)) (hp : printTreeRegression names tree spacing = .ok lines) :
    lines.filterMap PrintLine.asPredict =
      tree.preorder.filterMap (fun p => (tree.leafAt p).map (fun l => (indent spacing p.length, l.data))) ∧
    lines.filterMap PrintLine.asQuestion = tree.preorder.filterMap (fun p => (tree.questionAt p).map (fun q =>
      (indent spacing p.length, names.getD q.column "", q.value))) ∧
    lines.filterMap PrintLine.asTrue = tree.preorder.filterMap (fun p => (tree.questionAt p).map (fun _ => indent spacing p.length)) ∧
    (lines.filterMap PrintLine.asFalse).Perm
      (tree.preorder.filterMap (fun p => (tree.questionAt p).map (fun _ => indent spacing p.length))) := by
  induction h generalizing spacing lines with
  | leaf q l =>
    cases hp
    simp [TreeNode.preorder, TreeNode.leafAt, TreeNode.questionAt, PrintLine.asPredict, PrintLine.asQuestion, PrintLine.asTrue,
      PrintLine.asFalse, indent_zero]
  | node q a b _ _ iha ihb =>
    obtain ⟨name, la, lb, h1, h2, h3, rfl⟩ := print_node hp
    obtain ⟨a1, a2, a3, a4⟩ := iha _ _ h2
    obtain ⟨b1, b2, b3, b4⟩ := ihb _ _ h3
    have hind : ∀ n, indent (indent spacing 1) n = indent spacing (n + 1) := by
      intro n
      rw [← indent_succ spacing n, ← indent_zero (spacing ++ "    "), indent_succ]
    have hname : names.getD q.column "" = name := by simp [List.getD_eq_getElem?_getD, h1]
    simp only [hind] at a1 a2 a3 a4 b1 b2 b3 b4
    refine ⟨?_, ?_, ?_, ?_⟩
    · simp [TreeNode.preorder, TreeNode.leafAt, PrintLine.asPredict, a1, b1, List.filterMap_map, Function.comp_def, List.filterMap_cons]
    · simp only [List.getD_eq_getElem?_getD] at a2 b2
      simp [TreeNode.preorder, TreeNode.questionAt, PrintLine.asQuestion, a2, b2, List.filterMap_map, Function.comp_def, indent_zero, h1,
        List.filterMap_cons]
    · simp [TreeNode.preorder, TreeNode.questionAt, PrintLine.asTrue, a3, b3, List.filterMap_map, Function.comp_def, indent_zero,
        List.filterMap_cons]
    · simp only [List.filterMap_append, List.append_assoc, TreeNode.preorder, TreeNode.questionAt, List.filterMap_cons, Option.map_some,
        List.length_nil, indent_zero, List.filterMap_map, Function.comp_def, PrintLine.asFalse, List.nil_append,
        List.length_cons, List.cons_append]
      refine (List.perm_middle).trans (List.Perm.cons _ (a4.append b4))

/-- **C47**.  At every internal node, the output contains as one contiguous block: the question, the `True` marker, what is printed
for the true branch, the `False` marker, what is printed for the false branch. -/
theorem C47_nesting (names : List String) (tree : TreeNode F (RegressionLeaf F)) (h : tree.Proper) (spacing : String)
    (lines : List (PrintLine F)) (hp : printTreeRegression names tree spacing = .ok lines) (p : List Bool) (q : Question F)
    (hq : tree.questionAt p = some q) :
    ∃ pre post name tt ff lt lf, names[q.column]? = some name ∧
      tree.subtreeAt (p ++ [true]) = some tt ∧ tree.subtreeAt (p ++ [false]) = some ff ∧
      printTreeRegression names tt (indent spacing (p.length + 1)) = .ok lt ∧
      printTreeRegression names ff (indent spacing (p.length + 1)) = .ok lf ∧
      lines = pre ++ ([.question (indent spacing p.length) name q.value, .trueMarker (indent spacing p.length)] ++ lt ++
        [.falseMarker (indent spacing p.length)] ++ lf) ++ post := by
  induction h generalizing spacing lines p with
  | leaf q l => cases p <;> simp [TreeNode.questionAt] at hq
  | node q' a b _ _ iha ihb =>
    obtain ⟨name, la, lb, h1, h2, h3, rfl⟩ := print_node hp
    have hind : ∀ n, indent (indent spacing 1) n = indent spacing (n + 1) := by
      intro n
      rw [← indent_succ spacing n, ← indent_zero (spacing ++ "    "), indent_succ]
    match p with
    | [] =>
      simp only [TreeNode.questionAt, Option.some.injEq] at hq
      subst hq
      exact ⟨[], [], name, a, b, la, lb, h1, by simp [TreeNode.subtreeAt], by simp [TreeNode.subtreeAt], h2, h3, by simp [indent_zero]⟩
    | true :: p =>
      obtain ⟨pre, post, name', tt, ff, lt, lf, e1, e2, e3, e4, e5, rfl⟩ := iha _ _ h2 p hq
      simp only [hind] at e4 e5
      refine ⟨[.question spacing name q'.value, .trueMarker spacing] ++ pre, post ++ [.falseMarker spacing] ++ lb, name', tt, ff, lt, lf,
        e1, by simpa [TreeNode.subtreeAt] using e2, by simpa [TreeNode.subtreeAt] using e3, e4, e5, ?_⟩
      simp [hind]
    | false :: p =>
      obtain ⟨pre, post, name', tt, ff, lt, lf, e1, e2, e3, e4, e5, rfl⟩ := ihb _ _ h3 p hq
      simp only [hind] at e4 e5
      refine ⟨[.question spacing name q'.value, .trueMarker spacing] ++ la ++ [.falseMarker spacing] ++ pre, post, name', tt, ff, lt, lf,
        e1, by simpa [TreeNode.subtreeAt] using e2, by simpa [TreeNode.subtreeAt] using e3, e4, e5, ?_⟩
      simp [hind]

/-- **C47**.  A tree built by the library is of the shape the statements above require, and it prints whenever there is a name for
every feature column. -/
theorem C47_built_trees_print [LawfulOrder F] (d : DataSet F) (c t : Nat) (h : d.WF c t) (cfg : TreeConfig) (hc : cfg.numberOfClasses = t)
    (tree : TreeNode F (RegressionLeaf F)) (ht : regressionTreeNew d cfg = .ok tree) (names : List String) (hn : c ≤ names.length)
    (spacing : String) : tree.Proper ∧ ∃ lines, printTreeRegression names tree spacing = .ok lines := by
  obtain ⟨hp, hq⟩ : tree.Proper ∧ ∀ p q, tree.questionAt p = some q → q.column < c := by
    rw [regressionTreeNew_ok h hc] at ht
    cases ht
    exact ⟨treeOf_proper _ _, fun p q hq => (treeOf_questions _ d h p q hq).1⟩
  exact ⟨hp, (C47_succeeds_iff names tree hp spacing).mpr (fun p q hpq => by have := hq p q hpq; omega)⟩

example : ((regressionTreeNew d4 { useMultiThreading := false, numberOfClasses := 1, maxLevels := 1 }).bind (fun tree =>
      printTreeRegression ["a", "b"] tree "")).toOption.map (fun l => (l.filterMap PrintLine.asQuestion, l.length,
        l.filterMap PrintLine.asTrue, (l.filterMap PrintLine.asPredict).map Prod.fst)) =
    some ([("", "a", 1)], 5, [""], ["    ", "    "]) := by decide +kernel

end Verif
