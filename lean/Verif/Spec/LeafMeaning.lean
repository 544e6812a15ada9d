import Verif.Spec.NearGini
import Verif.Spec.Stop
/-!
# Specification vocabulary: what an early leaf says
-/

namespace Verif

/-- Wherever the tree has a leaf although fewer than `m` questions were asked, consider the exact values of the examples that pass there: whatever
question separates them, both groups have the same mean of every target. -/
def EarlyLeavesEven [B64Env] {L : Type} (d : DataSet B64) (c t m : ℕ) (tree : TreeNode B64 L) : Prop :=
  ∀ p, (tree.subtreeAt p).isSome → tree.questionAt p = none → p.length < m →
    ∃ ls, (reaching d tree p).map (fun e => e.2.map B64.val) = lift ls ∧
      ∀ q : Question (Ext ℚ), q.column < c →
        yesLabels ((reaching d tree p).map (fun e => e.1.map B64.val)) ls q ≠ [] →
        noLabels ((reaching d tree p).map (fun e => e.1.map B64.val)) ls q ≠ [] →
        ∀ j < t, meanOf (target (yesLabels ((reaching d tree p).map (fun e => e.1.map B64.val)) ls q) j) =
          meanOf (target (noLabels ((reaching d tree p).map (fun e => e.1.map B64.val)) ls q) j)

/-- Wherever the tree has a leaf although fewer than `m` questions were asked, consider the exact values of the examples that pass there: every one
whose row is not the smallest in all features has the mean label. -/
def EarlyLeavesSettled [B64Env] {L : Type} (d : DataSet B64) (t m : ℕ) (tree : TreeNode B64 L) : Prop :=
  ∀ p, (tree.subtreeAt p).isSome → tree.questionAt p = none → p.length < m →
    ∃ ls, (reaching d tree p).map (fun e => e.2.map B64.val) = lift ls ∧
      NothingLeft t (((reaching d tree p).map (fun e => e.1.map B64.val)).zip ls)

/-- Wherever the tree has a leaf although fewer than `m` questions were asked, the examples that pass there are all of one class, or all have the
same features. -/
def EarlyLeavesPure [B64Env] {L : Type} (d : DataSet B64) (cs : List ℕ) (m : ℕ) (tree : TreeNode B64 L) : Prop :=
  ∀ p, (tree.subtreeAt p).isSome → tree.questionAt p = none → p.length < m →
    (∀ a ∈ classesAt d cs tree p, ∀ b ∈ classesAt d cs tree p, a = b) ∨
      ∀ r ∈ featuresAt d tree p, ∀ r' ∈ featuresAt d tree p, SameFeatures r r'

end Verif
