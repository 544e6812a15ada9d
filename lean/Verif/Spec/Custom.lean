import Verif.Spec.Greedy
import Verif.Model.Custom
/-!
# Specification vocabulary: trees grown with a split finder of the caller
-/

namespace Verif

variable {F : Type} [F64 F] {L : Type}

/-- `tree` is grown from `d` (with `c` features and `t` targets) to `m` levels with the answers of `find`.  At every position of the tree there
is a well-formed (so not empty) data set consisting of exactly the examples that pass there, `find` answers on it, and the node there asks
the question in the answer, except that it is a leaf if `m` questions were already asked or the gain in the answer is zero. -/
def GrownBy (find : SplitFinder F) (d : DataSet F) (c t m : Nat) (tree : TreeNode F L) : Prop :=
  ∀ p, (tree.subtreeAt p).isSome →
    ∃ (dd : DataSet F) (s : BestSplitResult F), dd.WF c t ∧ dd.examples = reaching d tree p ∧ find.findBestSplit dd t = .ok s ∧
      tree.questionAt p = if p.length < m ∧ (s.gain ==. F64.zero) = false then some s.question else none

/-- the examples of `d` whose rows answer with `yes` to a question, as a data set of `c` features -/
def DataSet.answering (d : DataSet F) (c : Nat) (q : Question F) (yes : Bool) : DataSet F :=
  { featureRows := (d.examples.filter (fun e => satisfies q e.1 == yes)).map Prod.fst
    labels := (d.examples.filter (fun e => satisfies q e.1 == yes)).map Prod.snd
    featureColumns := columnsOf ((d.examples.filter (fun e => satisfies q e.1 == yes)).map Prod.fst) c }

/-- `find` can grow a tree of at most `m` levels from `d`: it answers; and if the gain in its answer is not zero and a level is left, the question
in the answer is about one of the `c` features, some examples answer yes and some no, and `find` can grow trees from both groups. -/
def Growable (find : SplitFinder F) (c t : Nat) : Nat → DataSet F → Prop
  | 0, d => ∃ s, find.findBestSplit d t = .ok s
  | m + 1, d => ∃ s, find.findBestSplit d t = .ok s ∧ ((s.gain ==. F64.zero) = false →
      s.question.column < c ∧ (∃ row ∈ d.featureRows, satisfies s.question row = true) ∧
      (∃ row ∈ d.featureRows, satisfies s.question row = false) ∧
      Growable find c t m (d.answering c s.question true) ∧ Growable find c t m (d.answering c s.question false))

/-- `find` answers on every well-formed data set of `c` features and `t` targets, and unless the gain in its answer is zero, the question in it
is about one of the features, and some rows answer yes and some no. -/
def SplitFinder.Separates (find : SplitFinder F) (c t : Nat) : Prop :=
  ∀ d : DataSet F, d.WF c t → ∃ s, find.findBestSplit d t = .ok s ∧ ((s.gain ==. F64.zero) = false →
    s.question.column < c ∧ (∃ row ∈ d.featureRows, satisfies s.question row = true) ∧
    (∃ row ∈ d.featureRows, satisfies s.question row = false))

end Verif
