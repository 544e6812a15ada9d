import Verif.Spec.Score
/-!
# Specification vocabulary: training accuracy
-/

namespace Verif

variable {F : Type} [F64 F]

/-- The number of examples whose label is the one-hot vector of the class that the rule `g` gives to the row. -/
def rightCount (d : DataSet F) (t : Nat) (g : List F → Nat) : Nat :=
  d.examples.countP (fun e => vecEq (oneHot t (g e.1)) e.2)

/-- One and zero differ, and a larger count is not a smaller share. -/
class LawfulShare (F : Type) [F64 F] : Prop where
  one_eq : ((F64.one : F) ==. F64.one) = true
  one_zero : ((F64.one : F) ==. F64.zero) = false
  zero_one : ((F64.zero : F) ==. F64.one) = false
  mono : ∀ {a b n : Nat}, 0 < n → a ≤ b → b ≤ n → n ≤ 2 ^ 53 → ((F64.ofNat a /. F64.ofNat n : F) <=. (F64.ofNat b /. F64.ofNat n)) = true

end Verif
