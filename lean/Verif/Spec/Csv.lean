import Verif.Spec.Npy
/-!
# Specification: comma separated values

A text is a list of bytes.  10 is the newline.
-/

namespace Xt.Spec

/-- `IsText ls s`: the text `s` consists of the lines `ls`, each ended by a newline; the newline of a last line that is not
empty may be missing. -/
inductive IsText : List (List Nat) → List Nat → Prop
  | nil : IsText [] []
  | last (l : List Nat) : l ≠ [] → IsText [l] l
  | cons (l : List Nat) (ls : List (List Nat)) (s : List Nat) : IsText ls s → IsText (l :: ls) (l ++ 10 :: s)

/-- A line below the header: a comment, i.e. the marker and any text, or a row of cells. -/
inductive CsvLine
  | comment (text : List Nat)
  | row (cells : List (List Nat))

/-- Text of a line. -/
def CsvLine.text (delimiter : Nat) (marker : List Nat) : CsvLine → List Nat
  | .comment t => marker ++ t
  | .row cells => joinWith [delimiter] cells

/-- The rows among the lines. -/
def csvRows : List CsvLine → List (List (List Nat))
  | [] => []
  | .comment _ :: ls => csvRows ls
  | .row cells :: ls => cells :: csvRows ls

/-- A line of a table of `k` columns: no stray newlines or delimiters, `k` cells of which the last is not empty, and a row
does not look like a comment. -/
def CsvLine.Good (delimiter : Nat) (marker : List Nat) (k : Nat) : CsvLine → Prop
  | .comment t => 10 ∉ t
  | .row cells => cells.length = k ∧ (∀ c ∈ cells, delimiter ∉ c ∧ 10 ∉ c) ∧ cells.getLast? ≠ some [] ∧
      ¬ marker <+: joinWith [delimiter] cells

/-- The rows to be read: all of them, or the first `maxRows`. -/
def wantedRows {β : Type} (maxRows : Int) (rows : List β) : List β :=
  if maxRows < 0 then rows else rows.take maxRows.toNat

/-- The table written one row per line. -/
def csvTable (delimiter : Nat) (rows : List (List (List Nat))) : List Nat :=
  rows.flatMap fun cells => joinWith [delimiter] cells ++ [10]

/-- Values satisfying `P` survive being written as a cell and read back: the text of such a value is not empty, contains
neither a comma nor a newline, does not begin like a comment, and is read back as the value. -/
def CsvCodec {α : Type} (enc : α → List Nat) (dec : List Nat → Option α) (P : α → Prop) : Prop :=
  ∀ v, P v → enc v ≠ [] ∧ 44 ∉ enc v ∧ 10 ∉ enc v ∧ (enc v).head? ≠ some 35 ∧ dec (enc v) = some v

end Xt.Spec
