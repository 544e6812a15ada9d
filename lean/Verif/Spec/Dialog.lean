import Verif.Spec.Ask
import Verif.Model.Dialog
/-!
# Specification vocabulary: the calls of a split finder and a leaf output function
-/

namespace Verif

variable {F : Type} {L : Type}

/-- A call in the growth of a tree, by the position of the node for which it is made. -/
inductive Moment where
  /-- of the split finder -/
  | split (p : List Bool)
  /-- of the leaf output function -/
  | leaf (p : List Bool)

/-- the same call, seen from the node above -/
def Moment.below (b : Bool) : Moment → Moment
  | .split p => .split (b :: p)
  | .leaf p => .leaf (b :: p)

/-- All calls for a tree, node by node in preorder: at a leaf, first the finder and then the leaf output function. -/
def TreeNode.moments : TreeNode F L → List Moment
  | .mk _ (some t) (some f) _ => .split [] :: (t.moments.map (Moment.below true) ++ f.moments.map (Moment.below false))
  | .mk _ _ _ _ => [.split [], .leaf []]

/-- In `order`, the finder is called for a node after it is called for the node above; and for a leaf, the leaf output function is called after the
finder. -/
def InOrder (order : List Moment) : Prop :=
  (∀ p b, Moment.split (p ++ [b]) ∈ order → [Moment.split p, .split (p ++ [b])].Sublist order) ∧
  ∀ p, Moment.leaf p ∈ order → [Moment.split p, .leaf p].Sublist order

section
variable [F64 F]

/-- `event` is the call made at `moment` when `tree` is grown from `d` (with `c` features and `t` targets) to `m` levels.  The finder is called as in
`CallAt`.  The leaf output function is given a well-formed data set of exactly the examples that reach the leaf, it answers, and the leaf
stores what `leafWith` makes of the answer. -/
def EventAt (leafWith : List F → L) (d : DataSet F) (c t m : Nat) (tree : TreeNode F L) : Moment → Event F → Prop
  | .split p, .split data targets answer => CallAt d c t m tree p ⟨data, targets, answer⟩
  | .leaf p, .leaf data answer => data.WF c t ∧ data.examples = reaching d tree p ∧
      ∃ out, answer = .ok out ∧ tree.leafAt p = some (leafWith out)
  | _, _ => False

end

/-- The calls are answered by two functions whose answers may depend on all the calls before, also on those of the other. -/
def AnsweredByBoth (find : List (Event F) → DataSet F → Nat → R (BestSplitResult F)) (own : List (Event F) → DataSet F → R (List F))
    (trace : List (Event F)) : Prop :=
  ∀ before event after, trace = before ++ event :: after →
    match event with
    | .split data targets answer => answer = find before data targets
    | .leaf data answer => answer = own before data

/-- The calls are answered by two functions without memory. -/
def AnsweredByFunctions (find : SplitFinder F) (own : LeafOutputCalculator F) (trace : List (Event F)) : Prop :=
  ∀ event ∈ trace, match event with
    | .split data targets answer => answer = find.findBestSplit data targets
    | .leaf data answer => answer = own.calculate data

/-- what the finder is given, call by call -/
def finderGot (trace : List (Event F)) : List (DataSet F) :=
  trace.filterMap fun event => match event with
    | .split data _ _ => some data
    | .leaf _ _ => none

/-- what the leaf output function is given, call by call -/
def leafGot (trace : List (Event F)) : List (DataSet F) :=
  trace.filterMap fun event => match event with
    | .split _ _ _ => none
    | .leaf data _ => some data

end Verif
