import Verif.Spec.Exact
import Verif.Spec.Greedy
/-!
# Specification vocabulary: noise in the labels
-/

namespace Verif

variable {K : Type} [Field K] [LinearOrder K] [FloorSemiring K] [HasExp K]

/-- the two lists of label vectors have the same shape and corresponding entries differ by at most `ε` -/
def NoiseAtMost (ε : K) (ls ls' : List (List K)) : Prop := List.Forall₂ (List.Forall₂ (fun x y => |y - x| ≤ ε)) ls ls'

/-- all entries are at most `B` in absolute value -/
def EntriesAtMost (B : K) (ls : List (List K)) : Prop := ∀ l ∈ ls, ∀ x ∈ l, |x| ≤ B

/-- how much noise of at most `ε` in `t` targets with labels up to `B` can change the variance that a question removes: `2 t B ε` -/
def noiseTolerance (t : Nat) (B ε : K) : K := 2 * t * B * ε

/-- Wherever the tree asks a question, consider the training examples that pass there: within every column only the smallest value is
repeated, the question reduces the variance of their labels by more than `δ`, and by more than `2 δ` more than any other question with
a threshold from the data. -/
def ClearBy {L : Type} (δ : K) (d : DataSet (Ext K)) (c t : Nat) (tree : TreeNode (Ext K) L) : Prop :=
  ∀ p q, tree.questionAt p = some q → ∃ ls, (reaching d tree p).map Prod.snd = lift ls ∧
    (∀ j < c, TiesOnlyAtMinimum (column ((reaching d tree p).map Prod.fst) j)) ∧
    δ < varianceReduction t ((reaching d tree p).map Prod.fst) ls q ∧
    ∀ q' : Question (Ext K), q'.column < c → (∃ e ∈ reaching d tree p, e.1[q'.column]? = some q'.value) → q' ≠ q →
      varianceReduction t ((reaching d tree p).map Prod.fst) ls q' + 2 * δ < varianceReduction t ((reaching d tree p).map Prod.fst) ls q

/-- every leaf that is reached after fewer than `m` questions holds a single training example -/
def FullyGrown {L : Type} (d : DataSet (Ext K)) (m : Nat) (tree : TreeNode (Ext K) L) : Prop :=
  ∀ p, (tree.subtreeAt p).isSome → tree.questionAt p = none → p.length < m → (reaching d tree p).length = 1

end Verif
