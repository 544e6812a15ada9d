import Verif.Num.B64
import Verif.Props.Special
import Verif.Props.Exact
/-!
# Binary64

The theorems with hypotheses `[LawfulOrder F]`, `[LawfulCount F]`, `[LawfulFraction F]`, `[LawfulSign F]` or `[LawfulSpecial F]` apply to
IEEE binary64 as it is.  The ones about exact arithmetic do not; here are the cases in which rounding makes the exact claim fail.
-/

namespace Verif

section
variable [B64Env]

-- binary64 satisfies all law classes
example : LawfulOrder B64 := inferInstance
example : LawfulCount B64 := inferInstance
example : LawfulFraction B64 := inferInstance
example : LawfulSign B64 := inferInstance
example : LawfulSpecial B64 := inferInstance

end

namespace Sample

/-- An environment in which `sum()` starts from `0.0` or from `-0.0`; the trees do not use `exp`. -/
@[reducible] def env (negZero : Bool) : B64Env := ⟨id, negZero⟩

/-- The binary64 number nearest to `q` (how Rust reads a decimal literal). -/
def b64 (q : ℚ) : B64 := .make false (.fin q)

/-- four rows with the label 0.1 -/
def tenth4 : DataSet B64 :=
  { featureRows := [[b64 0], [b64 1], [b64 2], [b64 3]]
    labels := [[b64 0.1], [b64 0.1], [b64 0.1], [b64 0.1]]
    featureColumns := [[b64 0, b64 1, b64 2, b64 3]] }

end Sample

open Sample

/-- **C15** fails in binary64: four rows that all have the label 0.1, and the tree asks a question, because the rounded variance after
a split is smaller than the rounded variance of the whole. -/
theorem C15_violated_in_binary64 : ∀ negZero : Bool, let _ := env negZero
    (tenth4.featureRows ≠ [] ∧ tenth4.featureColumns = columnsOf tenth4.featureRows 1 ∧ ∀ l ∈ tenth4.labels, l = [b64 0.1]) ∧
    (findBestSplit tenth4 1).map (fun s => (s.question.column, s.question.value)) = .ok (0, b64 3) ∧
    (regressionTreeNew tenth4 { useMultiThreading := false, numberOfClasses := 1, maxLevels := 3 }).map TreeNode.questionCount = .ok 1 := by
  decide +kernel

/-- **C09** fails in binary64: the computed variance of three labels 0.1 is negative. -/
theorem C09_violated_in_binary64 : ∀ negZero : Bool, let _ := env negZero
    (do
      let m ← getLabelMetrics [[b64 0.1], [b64 0.1], [b64 0.1]] 1
      let v ← calculateVarianceVector m (F64.ofNat 3) 1
      pure (v.map (fun x => x <. F64.zero))) = .ok [true] := by
  decide +kernel

-- C16 in binary64: overflow is not needed, an infinite label is enough
example : ∀ negZero : Bool, let _ := env negZero
    (regressionTreeNew { tenth4 with labels := [[b64 1], [b64 2], [.make false .posInf], [b64 4]] }
      { useMultiThreading := false, numberOfClasses := 1, maxLevels := 3 }).map TreeNode.questionCount = .ok 0 := by
  decide +kernel

end Verif
