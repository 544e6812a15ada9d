import Verif.Model.Par
/-!
# Specification vocabulary: all schedules
-/

namespace Verif

/-- Whatever the scheduler does, the program terminates and its outcome is `r`: there is no infinite execution, and an execution
that cannot be continued has ended with `r`. -/
def Job.AlwaysReturns {α : Type} (t : Job α) (r : R α) : Prop :=
  (¬ ∃ f : Nat → Job α, f 0 = t ∧ ∀ n, Job.Step (f n) (f (n + 1))) ∧
  (∀ u, Job.Steps t u → (∀ u', ¬ Job.Step u u') → u = .done r)

end Verif
