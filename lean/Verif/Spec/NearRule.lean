import Verif.Spec.NearFit
import Verif.Spec.Rule
import Verif.Spec.Ties
/-!
# Specification vocabulary: rules over integer labels in binary64
-/

namespace Verif

/-- `n` rows with `t` integer targets of at most `b` in absolute value, few and small enough for rounding never to hide a rule of one
question: `n * t * (n + t) * b^2 < 2^42`.  For example, a million rows of three classes. -/
structure RuleInts (n t b : ℕ) : Prop where
  target : 1 ≤ t
  bound : 1 ≤ b
  size : n * t * (n + t) * b ^ 2 < 2 ^ 42

/-- Two of the examples have labels of different value. -/
def DataSet.Mixed (d : DataSet B64) : Prop := ∃ e ∈ d.examples, ∃ e' ∈ d.examples, e.2.map B64.val ≠ e'.2.map B64.val

/-- The tree asks one question if the labels differ and none if they do not, and examples in the same leaf have labels of the same value. -/
def LearnsAtOnce [B64Env] {L : Type} (d : DataSet B64) (tree : TreeNode B64 L) : Prop :=
  (d.Mixed → tree.questionCount = 1) ∧ (¬ d.Mixed → tree.questionCount = 0) ∧
    ∀ e ∈ d.examples, ∀ e' ∈ d.examples, tree.route e.1 = tree.route e'.1 → e.2.map B64.val = e'.2.map B64.val

end Verif
