import Verif.Spec.Rounding
/-!
# Specification vocabulary: integer labels that binary64 cannot blur
-/

namespace Verif

/-- `n` rows with `t` integer targets of at most `b` in absolute value, few and small enough for rounding never to hide a gain:
`n^4 * t * (n + t) * b^2 < 2^46`.  For example, 400 rows of three classes. -/
structure FewInts (n t b : ℕ) : Prop where
  target : 1 ≤ t
  bound : 1 ≤ b
  size : n ^ 4 * t * (n + t) * b ^ 2 < 2 ^ 46

/-- The exact values of all labels are integers of at most `b` in absolute value. -/
def IntLabels (b : ℕ) (labels : List (List B64)) : Prop :=
  ∀ l ∈ labels, ∃ v : List ℤ, l.map B64.val = ofInts v ∧ ∀ x ∈ v, |x| ≤ b

/-- Up to `m` questions on a way, the tree asks a question exactly where two of the examples that arrive have labels of different value. -/
def AsksExactlyWhereMixed [B64Env] {L : Type} (d : DataSet B64) (m : ℕ) (tree : TreeNode B64 L) : Prop :=
  ∀ p, (tree.subtreeAt p).isSome →
    ((tree.questionAt p).isSome ↔
      p.length < m ∧ ∃ e ∈ reaching d tree p, ∃ e' ∈ reaching d tree p, e.2.map B64.val ≠ e'.2.map B64.val)

end Verif
