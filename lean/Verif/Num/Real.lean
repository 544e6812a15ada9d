import Mathlib.Analysis.Complex.Exponential
import Verif.Num.Ext
/-! # The real exponential -/

namespace Verif

/-- The exponential function. -/
noncomputable instance : HasExp ℝ where
  exp := Real.exp
  exp_pos := Real.exp_pos

end Verif
