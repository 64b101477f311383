import Verif.Spec.Index
/-!
# Specification: the NumPy file format, version 1.0 and 2.0

A file is a list of bytes.  It starts with the bytes `\x93NUMPY`, two version bytes and the little-endian length of the
header, in two bytes (version 1) or four (version 2); the header is a Python dictionary padded with blanks and ended by a
newline so that everything before the data is a multiple of 64 bytes; then follow the elements.
-/

namespace Xt.Spec

/-- Bytes of a text. -/
def ascii (s : List Char) : List Nat := s.map Char.toNat

/-- Value of a sequence of decimal digits. -/
def digitsValue (ds : List Nat) : Nat := ds.foldl (fun v d => 10 * v + (d - 48)) 0

/-- `ds` writes `n` in decimal: digits only, no leading zero unless the number is zero. -/
def IsDecimal (ds : List Nat) (n : Nat) : Prop :=
  ds ≠ [] ∧ (∀ d ∈ ds, 48 ≤ d ∧ d ≤ 57) ∧ (ds.head? = some 48 → ds = [48]) ∧ digitsValue ds = n

/-- Texts joined by a separator. -/
def joinWith (sep : List Nat) : List (List Nat) → List Nat
  | [] => []
  | [x] => x
  | x :: y :: l => x ++ sep ++ joinWith sep (y :: l)

/-- A Python tuple: `()`, `(3,)`, `(3, 4)`. -/
def pyTuple (xs : List (List Nat)) : List Nat :=
  ascii ['('] ++ (match xs with
    | [x] => x ++ ascii [',']
    | _ => joinWith (ascii [',', ' ']) xs) ++ ascii [')']

/-- The dictionary of the header. -/
def npyDict (descr : List Nat) (fortran : Bool) (dims : List (List Nat)) : List Nat :=
  ascii ['{', '\'', 'd', 'e', 's', 'c', 'r', '\'', ':', ' ', '\''] ++ descr ++
  ascii ['\'', ',', ' ', '\'', 'f', 'o', 'r', 't', 'r', 'a', 'n', '_', 'o', 'r', 'd', 'e', 'r', '\'', ':', ' '] ++
  (if fortran then ascii ['T', 'r', 'u', 'e'] else ascii ['F', 'a', 'l', 's', 'e']) ++
  ascii [',', ' ', '\'', 's', 'h', 'a', 'p', 'e', '\'', ':', ' '] ++ pyTuple dims ++ ascii [',', ' ', '}']

/-- Little-endian number. -/
def leValue : List Nat → Nat
  | [] => 0
  | b :: bs => b + 256 * leValue bs

/-- What a file with the given header and data must look like. -/
def IsNpy (dict data file : List Nat) : Prop :=
  ∃ (version : Nat) (len : List Nat) (pad : Nat),
    file = [0x93] ++ ascii ['N', 'U', 'M', 'P', 'Y'] ++ [version, 0] ++ len ++
      (dict ++ List.replicate pad 32 ++ [10]) ++ data ∧
    ((version = 1 ∧ len.length = 2) ∨ (version = 2 ∧ len.length = 4)) ∧ (∀ b ∈ len, b < 256) ∧
    leValue len = dict.length + pad + 1 ∧ (8 + len.length + leValue len) % 64 = 0

end Xt.Spec
