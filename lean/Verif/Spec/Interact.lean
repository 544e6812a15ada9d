import Verif.Spec.Tree
import Verif.Spec.Rounding
/-!
# Specification vocabulary: how features act together
-/

namespace Verif

/-- The successive differences of `f` when features of a row are changed: the change of `f` when feature `j` is set to `v`, the change
of this change when the next feature is set, and so on.  For two features: `(f with both - f with the second) - (f with the first - f)`. -/
def jointEffect {F G : Type} [Sub G] (f : List F → G) : List (Nat × F) → List F → G
  | [], row => f row
  | (j, v) :: changes, row => jointEffect f changes (row.set j v) - jointEffect f changes row

/-- The changes concern different features. -/
def DifferentFeatures {F : Type} (changes : List (Nat × F)) : Prop := (changes.map Prod.fst).Nodup

/-- What `value` assigns to the leaf that `find_leaf_node_for_data` finds for a row. -/
def TreeNode.valueFor {F L G : Type} [F64 F] [Zero G] (tree : TreeNode F L) (value : L → G) (row : List F) : G :=
  match findLeafNodeForData row tree with
  | .ok leaf => value leaf
  | .error _ => 0

/-- More than `m` different features have no joint effect on `f`, whatever the row (with at least `c` features) and the changes are. -/
def NoJointEffect {F G : Type} [Sub G] [Zero G] (c m : Nat) (f : List F → G) : Prop :=
  ∀ (changes : List (Nat × F)) (row : List F), DifferentFeatures changes → m < changes.length → c ≤ row.length → jointEffect f changes row = 0

/-- Feature by feature, `z` lies between `x` and `y`. -/
def Between {F : Type} [F64 F] (x y z : List F) : Prop :=
  ∀ (j : Nat) (a b v : F), x[j]? = some a → y[j]? = some b → z[j]? = some v →
    ((a <=. v) = true ∧ (v <=. b) = true) ∨ ((b <=. v) = true ∧ (v <=. a) = true)

/-- how far the predictions of `k` trees, for `n` training rows with `t` targets and labels up to `B`, can be off the sum of the outputs of the
trees: `2^-46 * (k + 1)^2 * n * t * B` -/
def sumTolerance (n t k : ℕ) (B : ℚ) : ℚ := (k + 1) ^ 2 * n * t * B / 2 ^ 46

end Verif
