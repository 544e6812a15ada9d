import Verif.Spec.Rounding
/-!
# Specification vocabulary: trees without close calls

When rounding cannot influence which questions a tree asks.
-/

namespace Verif

/-- The tree `tree`, built in exact arithmetic, has no close calls.  Consider the examples that pass a position of the tree.

* If the tree asks a question there, then within every column only the smallest value is repeated, the question reduces the variance of
  the labels by more than the tolerance, and any other question with a threshold from the data reduces it by less, the difference
  being more than twice the tolerance.
* If there is a leaf although fewer than `m` questions were asked, then only one example passes, or all examples that pass have the
  same label, with small integer entries. -/
def NoCloseCall {L : Type} (d : DataSet B64) (c t m : ℕ) (B : ℚ) (tree : TreeNode (Ext ℚ) L) : Prop :=
  ∀ p, (tree.subtreeAt p).isSome →
    ∃ ls, (reaching d.exact tree p).map Prod.snd = lift ls ∧
      (∀ q, tree.questionAt p = some q →
        (∀ j < c, TiesOnlyAtMinimum (column ((reaching d.exact tree p).map Prod.fst) j)) ∧
        splitTolerance ls.length t B < varianceReduction t ((reaching d.exact tree p).map Prod.fst) ls q ∧
        ∀ q' : Question (Ext ℚ), q'.column < c → (∃ e ∈ reaching d.exact tree p, e.1[q'.column]? = some q'.value) → q' ≠ q →
          varianceReduction t ((reaching d.exact tree p).map Prod.fst) ls q' + 2 * splitTolerance ls.length t B <
            varianceReduction t ((reaching d.exact tree p).map Prod.fst) ls q) ∧
      (tree.questionAt p = none → p.length < m →
        ls.length = 1 ∨ ∃ v : List ℤ, (∀ l ∈ ls, liftV l = ofInts v) ∧ ∀ x ∈ v, SmallInt ls.length x)

/-- the two trees ask the same questions: a position of the one is a position of the other, with the same column and the same exact
value of the threshold -/
def AsksTheSame {L L' : Type} (tree : TreeNode B64 L) (tree' : TreeNode (Ext ℚ) L') : Prop :=
  ∀ p, (tree.questionAt p).map Question.exact = tree'.questionAt p

end Verif
