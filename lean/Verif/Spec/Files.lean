import Mathlib.Data.List.Forall2
import Verif.Spec.Data
/-!
# Specification vocabulary: data files
-/

namespace Verif

variable {F : Type} [F64 F]

/-- The numeric content of a CSV file (`none` is a file that cannot be opened): below the header, every record has as many fields as
the header and every field is a number; `values` are these numbers.  A file without any line has no records. -/
def HoldsRecords (parse : String → Option F) (file : Option CsvRecords) (values : List (List F)) : Prop :=
  (file = some [] ∧ values = []) ∨
  ∃ header records, file = some (header :: records) ∧
    List.Forall₂ (fun (record : List String) (vals : List F) =>
      record.length = header.length ∧ record.map parse = vals.map some) records values

/-- What can be wrong with a CSV file: it cannot be opened, a record has not as many fields as the header, or a field is not a
number. -/
def Unreadable (parse : String → Option F) (file : Option CsvRecords) : Prop :=
  file = none ∨ ∃ header records, file = some (header :: records) ∧
    ∃ record ∈ records, record.length ≠ header.length ∨ ∃ field ∈ record, parse field = none

end Verif
