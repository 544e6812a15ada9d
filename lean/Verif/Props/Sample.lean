import Verif.Num.Ext
import Verif.Spec.Data
/-!
# Small data sets used to show that hypotheses can be met

They are evaluated in the kernel with exact rational arithmetic.
-/

namespace Verif.Sample

/-- exact rationals with NaN and infinities -/
abbrev E := Ext ℚ

/-- numerals -/
instance (n : Nat) : OfNat (Ext ℚ) n := ⟨.fin (n : ℚ)⟩

/-- the panic of a failing computation -/
def panicOf {α : Type} (x : R α) : Option Panic :=
  match x with
  | .ok _ => none
  | .error e => some e

/-- four rows, two features (with repeated values), one target -/
def d4 : DataSet E :=
  { featureRows := [[0, 5], [1, 5], [1, 7], [2, 7]]
    labels := [[0], [1], [4], [6]]
    featureColumns := [[0, 1, 1, 2], [5, 5, 7, 7]] }

theorem d4_wf : d4.WF 2 1 :=
  ⟨by decide +kernel, by decide +kernel, by decide +kernel, by decide +kernel, by decide +kernel, by decide +kernel,
    by decide +kernel⟩

/-- five rows, two features, one-hot labels of three classes -/
def d5 : DataSet E :=
  { featureRows := [[3, 1], [1, 4], [1, 5], [9, 2], [6, 5]]
    labels := [[1, 0, 0], [0, 1, 0], [0, 1, 0], [0, 0, 1], [1, 0, 0]]
    featureColumns := [[3, 1, 1, 9, 6], [1, 4, 5, 2, 5]] }

theorem d5_wf : d5.WF 2 3 :=
  ⟨by decide +kernel, by decide +kernel, by decide +kernel, by decide +kernel, by decide +kernel, by decide +kernel,
    by decide +kernel⟩

end Verif.Sample
