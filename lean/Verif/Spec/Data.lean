import Verif.Model.Common
/-!
# Specification vocabulary: data sets

Small definitions used in the statements of the properties.  They do not use the model's functions, only its types.
-/

namespace Verif

variable {F : Type} [F64 F]

/-- Column `j` of a list of rows (rows shorter than `j+1` never occur where this is used). -/
def column (rows : List (List F)) (j : Nat) : List F := rows.map (fun row => row.getD j F64.zero)

/-- The columns of a list of rows with `c` entries each. -/
def columnsOf (rows : List (List F)) (c : Nat) : List (List F) := (List.range c).map (column rows)

/-- A data set as the readers of the `common` crate produce it for numeric data: at least one row, all rows with `c` entries,
one label per row, all labels with `t` entries, columns equal to the transposed rows, features not NaN, and no more columns
than a `u32` can index. -/
structure DataSet.WF (d : DataSet F) (c t : Nat) : Prop where
  rows_ne : d.featureRows ≠ []
  row_len : ∀ row ∈ d.featureRows, row.length = c
  label_count : d.labels.length = d.featureRows.length
  label_len : ∀ l ∈ d.labels, l.length = t
  cols : d.featureColumns = columnsOf d.featureRows c
  no_nan : ∀ row ∈ d.featureRows, ∀ x ∈ row, isNaN x = false
  cols_u32 : c ≤ 2 ^ 32

/-- The training examples of a data set: rows with their labels. -/
def DataSet.examples (d : DataSet F) : List (List F × List F) := d.featureRows.zip d.labels

/-- The one-hot vector of length `n` for class `k`. -/
def oneHot (n k : Nat) : List F := (List.range n).map (fun j => if j = k then F64.one else F64.zero)

/-- Strictly before, in the order of the sorted feature columns: by value and, for equal values, by row index. -/
def Before (a b : F × Nat) : Prop := (a.1 <. b.1) = true ∨ ((a.1 ==. b.1) = true ∧ a.2 < b.2)

/-- The value of feature `j` in row `i`. -/
def DataSet.feature (d : DataSet F) (i j : Nat) : F := (d.featureRows.getD i []).getD j F64.zero

/-- A data set with sorted features that stands for the rows `ids` (increasing row numbers) of `d`, which has `c` feature
columns: the labels are those rows' labels in row order, and each sorted column holds, in sorted order, each of these rows'
feature value tagged with the row number. -/
structure SortedDataSet.Represents (s : SortedDataSet F) (d : DataSet F) (c : Nat) (ids : List Nat) : Prop where
  ids_increasing : ids.Pairwise (· < ·)
  ids_bound : ∀ i ∈ ids, i < d.featureRows.length
  labels : s.labels = ids.map (fun i => d.labels.getD i [])
  width : s.sortedFeatureColumns.length = c
  content : ∀ (j : Nat) (col : List (F × Nat)), s.sortedFeatureColumns[j]? = some col → col.Perm (ids.map (fun i => (d.feature i j, i)))
  order : ∀ col ∈ s.sortedFeatureColumns, col.Pairwise Before

/-- Does the row answer the question "is feature `column` at least `value`?" with yes? -/
def satisfies (q : Question F) (row : List F) : Bool :=
  match row[q.column]? with
  | some x => q.value <=. x
  | none => false

end Verif
