import Verif.Spec.Custom
import Verif.Model.Ask
import Mathlib.Data.List.Forall2
/-!
# Specification vocabulary: the calls of a split finder
-/

namespace Verif

variable {F : Type} [F64 F] {L : Type}

/-- `call` is the call made for position `p` when `tree` is grown from `d` (with `c` features and `t` targets) to `m` levels: it passes the
number of targets and a well-formed data set of exactly the examples that pass at `p`; the finder answers, and the node at `p` asks the
question in the answer, except that it is a leaf if `m` questions were already asked or the gain in the answer is zero. -/
structure CallAt (d : DataSet F) (c t m : Nat) (tree : TreeNode F L) (p : List Bool) (call : Call F) : Prop where
  targets : call.targets = t
  wf : call.data.WF c t
  examples : call.data.examples = reaching d tree p
  answer : ∃ s, call.answer = .ok s ∧
    tree.questionAt p = if p.length < m ∧ (s.gain ==. F64.zero) = false then some s.question else none

/-- in `order`, every position comes after the one above it -/
def ParentsFirst (order : List (List Bool)) : Prop :=
  ∀ p b, p ++ [b] ∈ order → [p, p ++ [b]].Sublist order

/-- one call for every node of `tree`, in an order that takes parents first -/
def CallsOf (d : DataSet F) (c t m : Nat) (tree : TreeNode F L) (trace : List (Call F)) : Prop :=
  ∃ order, order.Perm tree.preorder ∧ ParentsFirst order ∧ List.Forall₂ (CallAt d c t m tree) order trace

/-- `r` is what an ensemble fits its next tree to, after `trees`: the rows of `d`, each with the difference between its label and `activate` of
its score under `trees`. -/
structure RoundData (d : DataSet F) (activate : List F → List F) (score : List F → List (TreeNode F L) → R (List F))
    (trees : List (TreeNode F L)) (r : DataSet F) : Prop where
  rows : r.featureRows = d.featureRows
  columns : r.featureColumns = d.featureColumns
  count : r.labels.length = d.labels.length
  labels : ∀ (i : Nat) (row l : List F), d.featureRows[i]? = some row → d.labels[i]? = some l →
    ∃ v, score row trees = .ok v ∧ r.labels[i]? = some (List.zipWith F64.sub l (activate v))

/-- The calls of a training, tree after tree: for the `j`-th tree, one call for every node when it is grown from what is left after the trees
before. -/
def CallsOfRounds (d : DataSet F) (c t m : Nat) (activate : List F → List F) (score : List F → List (TreeNode F L) → R (List F))
    (trees : List (TreeNode F L)) (trace : List (Call F)) : Prop :=
  ∃ traces : List (List (Call F)), trace = traces.flatten ∧ traces.length = trees.length ∧
    ∀ (j : Nat) (tree : TreeNode F L) (tr : List (Call F)), trees[j]? = some tree → traces[j]? = some tr →
      ∃ r, RoundData d activate score (trees.take j) r ∧ r.WF c t ∧ CallsOf r c t m tree tr

omit [F64 F] in
/-- The calls are answered by a finder whose answers may depend on all the calls before: `g before data targets`. -/
def AnsweredBy (g : List (Call F) → DataSet F → Nat → R (BestSplitResult F)) (trace : List (Call F)) : Prop :=
  ∀ before call after, trace = before ++ call :: after → call.answer = g before call.data call.targets

end Verif
