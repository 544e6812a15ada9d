import Verif.Spec.Greedy
import Verif.Spec.Ties
/-!
# Specification vocabulary: the ways in which questions divide the rows

Two descriptions of the same examples: the original rows, and rows computed from them by `f`, possibly with another number of features.
-/

namespace Verif

/-- Two yes/no answers divide the rows into the same two groups: they agree on all rows, or they differ on all rows. -/
def DivideAlike {F : Type} (rows : List (List F)) (A B : List F → Bool) : Prop :=
  (∀ row ∈ rows, B row = A row) ∨ (∀ row ∈ rows, B row = !A row)

section
variable {F : Type} [F64 F]

/-- The questions about the first description (`c` features) and those about the second (`c'` features) divide the rows in the same ways. -/
def SameCuts (c c' : Nat) (f : List F → List F) (rows : List (List F)) : Prop :=
  (∀ q : Question F, q.column < c → ∃ q' : Question F, q'.column < c' ∧ DivideAlike rows (satisfies q) (fun row => satisfies q' (f row))) ∧
  (∀ q' : Question F, q'.column < c' → ∃ q : Question F, q.column < c ∧ DivideAlike rows (satisfies q) (fun row => satisfies q' (f row)))

/-- Feature `j'` of the second description puts the rows in the same order as feature `j` of the first, or in the opposite order. -/
def SameOrReversed (f : List F → List F) (rows : List (List F)) (j j' : Nat) : Prop :=
  (∀ r ∈ rows, ∀ s ∈ rows, (r.getD j F64.zero <=. s.getD j F64.zero) = ((f r).getD j' F64.zero <=. (f s).getD j' F64.zero)) ∨
  (∀ r ∈ rows, ∀ s ∈ rows, (r.getD j F64.zero <=. s.getD j F64.zero) = ((f s).getD j' F64.zero <=. (f r).getD j' F64.zero))

/-- Each feature of either description orders the rows as some feature of the other does, or in the opposite order. -/
def SameOrders (c c' : Nat) (f : List F → List F) (rows : List (List F)) : Prop :=
  (∀ j < c, ∃ j' < c', SameOrReversed f rows j j') ∧ (∀ j' < c', ∃ j < c, SameOrReversed f rows j j')

/-- `d'` describes the examples of `d` by the rows that `f` computes. -/
def Describes (f : List F → List F) (d d' : DataSet F) : Prop := d'.featureRows = d.featureRows.map f ∧ d'.labels = d.labels

end

variable {K : Type} [Field K] [LinearOrder K] [FloorSemiring K] [HasExp K]

/-- At every node of the tree, each question that lowers the variance of the labels that pass there as much as the node's own question does
divides the examples that pass there in the same way. -/
def NoTiedCuts {L : Type} (d : DataSet (Ext K)) (c t : Nat) (tree : TreeNode (Ext K) L) : Prop :=
  ∀ p q, tree.questionAt p = some q → ∀ (rows : List (List (Ext K))) (ls : List (List K)), rows.length = ls.length →
    rows.zip (lift ls) = reaching d tree p →
    ∀ q' : Question (Ext K), q'.column < c → varianceReduction t rows ls q' = varianceReduction t rows ls q →
      DivideAlike rows (satisfies q) (satisfies q')

end Verif
