import Verif.Spec.NearFit
import Verif.Spec.Ties
/-!
# Specification vocabulary: integer labels whose sums binary64 represents exactly
-/

namespace Verif

/-- `n` rows with integer labels of at most `b` in absolute value: their sums, and the sums of their squares, are at most `2^53`.  For example, a
billion rows with labels up to 3000. -/
structure ExactSums (n b : ℕ) : Prop where
  bound : 1 ≤ b
  square : n * b ^ 2 ≤ 2 ^ 53

/-- Both trees ask about the same feature and the same threshold at the same positions and send every row the same way; the leaves at the same position
are related by `P`. -/
structure SameTree [B64Env] {L : Type} (P : L → L → Prop) (x y : TreeNode B64 L) : Prop where
  questions : ∀ p, (y.questionAt p).map Question.exact = (x.questionAt p).map Question.exact
  routes : ∀ row, y.route row = x.route row
  leaves : ∀ p, Option.Rel P (x.leafAt p) (y.leafAt p)

end Verif
