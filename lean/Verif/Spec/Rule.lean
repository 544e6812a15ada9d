import Verif.Spec.Tree
/-!
# Specification vocabulary: rules of one question
-/

namespace Verif

variable {F : Type} [F64 F] {α : Type}

/-- The answer to the question determines the label: examples that answer it in the same way have the same label. -/
def Decides (q : Question F) (es : List (List F × α)) : Prop :=
  ∀ e ∈ es, ∀ e' ∈ es, satisfies q e.1 = satisfies q e'.1 → e.2 = e'.2

end Verif
