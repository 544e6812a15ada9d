import Verif.Spec.NearFit
import Verif.Spec.ClearCut
/-!
# Specification vocabulary: rounding never prefers a worse question
-/

namespace Verif

/-- `n` rows with `t` integer targets of at most `b` in absolute value, few and small enough for rounding never to hide a difference between two
gains: `n^5 * t * (n + t) * b^2 < 2^45`.  For example, 150 rows of three classes. -/
structure GapInts (n t b : ℕ) : Prop where
  target : 1 ≤ t
  bound : 1 ≤ b
  size : n ^ 5 * t * (n + t) * b ^ 2 < 2 ^ 45

/-- At every position of the tree, consider the exact values of the examples that pass there.  If there is a leaf although fewer than
`m` questions were asked, no question reduces the variance of the labels.  If there is a question whose threshold occurs only once, no question
reduces the variance by more. -/
def ExactlyGreedy [B64Env] {L : Type} (d : DataSet B64) (c t m : ℕ) (tree : TreeNode B64 L) : Prop :=
  ∀ p, (tree.subtreeAt p).isSome →
    ∃ ls, (reaching d tree p).map (fun e => e.2.map B64.val) = lift ls ∧ ls ≠ [] ∧
      (tree.questionAt p = none → p.length < m → ∀ q : Question (Ext ℚ), q.column < c →
        varianceReduction t ((reaching d tree p).map (fun e => e.1.map B64.val)) ls q ≤ 0) ∧
      (∀ q, tree.questionAt p = some q →
        ((column ((reaching d tree p).map Prod.fst) q.column).filter (fun x => x ==. q.value)).length = 1 →
        ∀ q' : Question (Ext ℚ), q'.column < c →
          varianceReduction t ((reaching d tree p).map (fun e => e.1.map B64.val)) ls q' ≤
            varianceReduction t ((reaching d tree p).map (fun e => e.1.map B64.val)) ls q.exact)

/-- The tree `tree`, built in exact arithmetic, never had to choose between equally good questions: wherever it asks one, within every column of
the examples that arrive only the smallest value is repeated, and any other question with a threshold from the data reduces the variance by less. -/
def NoExactTie {L : Type} (d : DataSet B64) (c t : ℕ) (tree : TreeNode (Ext ℚ) L) : Prop :=
  ∀ p q, tree.questionAt p = some q → ∃ ls, (reaching d.exact tree p).map Prod.snd = lift ls ∧
    (∀ j < c, TiesOnlyAtMinimum (column ((reaching d.exact tree p).map Prod.fst) j)) ∧
    ∀ q' : Question (Ext ℚ), q'.column < c → (∃ e ∈ reaching d.exact tree p, e.1[q'.column]? = some q'.value) → q' ≠ q →
      varianceReduction t ((reaching d.exact tree p).map Prod.fst) ls q' <
        varianceReduction t ((reaching d.exact tree p).map Prod.fst) ls q

end Verif
