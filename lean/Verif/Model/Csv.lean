import Verif.Model.Expr
import Verif.Model.Npy
/-!
# Model: comma separated values (`io/xcsv.hpp`)

A stream, and a text in it, is a list of bytes.  `std::getline` fails exactly when nothing is left to extract: reading the
last line sets `eofbit`, after which the next call fails as well.  The streams themselves do not fail.
-/

namespace Xt

/-- `std::getline(stream, text, delimiter)`: the text up to the delimiter, which is removed, and what is left of the stream;
`none` when the stream is exhausted. -/
def getLine (d : Nat) (s : List Nat) : Option (List Nat × List Nat) :=
  if s = [] then none else some (s.takeWhile (· ≠ d), (s.dropWhile (· ≠ d)).drop 1)

/-! ### `lexical_cast` -/

/-- `std::isspace` in the "C" locale. -/
def isSpace (c : Nat) : Bool := decide (c = 32 ∨ (9 ≤ c ∧ c ≤ 13))

/-- What `strtol` and `operator>>` find in a text: blanks are skipped, then an optional sign and digits are read; `none` if
there is no digit.  Sign and magnitude.  `std::stoi` and its relatives are called with their default base, 10. -/
def scanNumber (s : List Nat) : Option (Bool × Nat) :=
  let t := s.dropWhile isSpace
  let u := if t.head? = some 45 ∨ t.head? = some 43 then t.drop 1 else t
  let ds := u.takeWhile isDigit
  if ds = [] then none else some (decide (t.head? = some 45), ds.foldl (fun v d => 10 * v + (d - 48)) 0)

/-- Value of a scanned number. -/
def scanValue (r : Bool × Nat) : Int := if r.1 then -(r.2 : Int) else (r.2 : Int)

/-- `lexical_cast<int>`, `<long>`, `<long long>` by `std::stoi`, `std::stol`, `std::stoll` — io/xcsv.hpp:91-107: an exception
if there is no number or if it is outside the range of the type; characters after the number are ignored. -/
def lexSigned (lo hi : Int) (cell : List Nat) : Res Int :=
  match scanNumber cell with
  | none => .throws
  | some r => if lo ≤ scanValue r ∧ scanValue r ≤ hi then .ok (scanValue r) else .throws

/-- `lexical_cast<unsigned int>`, `<unsigned long>`, `<unsigned long long>` by `std::stoul`, `std::stoull` —
io/xcsv.hpp:109-125: `strtoul` negates modulo `2^64` after a minus sign; the result is converted to `bits` bits. -/
def lexUnsigned (bits : Nat) (cell : List Nat) : Res Nat :=
  match scanNumber cell with
  | none => .throws
  | some r =>
    if r.2 ≥ 2 ^ 64 then .throws
    else .ok ((if r.1 then (2 ^ 64 - r.2) % 2 ^ 64 else r.2) % 2 ^ bits)

/-- The primary template for an integer type such as `short` — io/xcsv.hpp:51-58, `iss >> res`.  When only blanks are left
the variable is not written and its indeterminate value is returned (`ub`); without a number it is set to 0; a number
outside the range of the type is replaced by the nearest bound.  The state of the stream is not looked at. -/
def lexStream (lo hi : Int) (cell : List Nat) : Res Int :=
  if cell.dropWhile isSpace = [] then .ub
  else match scanNumber cell with
    | none => .ok 0
    | some r => .ok (max lo (min hi (scanValue r)))

/-- The primary template for `char` and the 8-bit integer types: `iss >> res` reads one character. -/
def lexChar (cell : List Nat) : Res Nat :=
  match cell.dropWhile isSpace with
  | [] => .ub
  | c :: _ => .ok c

/-- `lexical_cast<std::string>` — io/xcsv.hpp:60-71.  `first`, `last` are the positions of the first and the last character
other than a blank; the second argument of `substr` is a number of characters. -/
def lexString (cell : List Nat) : Res (List Nat) :=
  match cell.findIdx? (· ≠ 32) with
  | none => .ok cell
  | some first =>
    let last := cell.length - 1 - cell.reverse.findIdx (· ≠ 32)
    .ok ((cell.drop first).take (last + 1))

/-! ### `load_csv` -/

/-- Loop of `load_csv_row` — io/xcsv.hpp:130-136; `data` is the storage the output iterator appends to, `n` is `length`.  The
first argument bounds the number of iterations. -/
def csvRowLoop {α : Type} (cast : List Nat → Res α) (d : Nat) :
    Nat → List Nat → List α → Nat → Res (List α × Nat)
  | 0, _, data, n => .ok (data, n)
  | fuel + 1, s, data, n => match getLine d s with
    | none => .ok (data, n)
    | some (cell, rest) => (cast cell).bind fun x => csvRowLoop cast d fuel rest (data ++ [x]) (n + 1)

/-- `load_csv_row` — io/xcsv.hpp:127-137. -/
def loadCsvRow {α : Type} (cast : List Nat → Res α) (d : Nat) (row : List Nat) (data : List α) : Res (List α × Nat) :=
  csvRowLoop cast d row.length row data 0

/-- `std::equal(comments.begin(), comments.end(), row.begin())` — io/xcsv.hpp:179: the row may be shorter.  The character
after its end is the terminator 0 in every implementation; anything further is `ub`. -/
def equalFrom : List Nat → List Nat → Res Bool
  | [], _ => .ok true
  | c :: cs, r :: rs => if c = r then equalFrom cs rs else .ok false
  | c :: cs, [] => if c ≠ 0 then .ok false else if cs = [] then .ok true else .ub

/-- Variables of `load_csv` — io/xcsv.hpp:167-168. -/
structure CsvState (α : Type) where
  data : List α
  nbrow : Nat
  nbcol : Nat
  nhead : Nat
  deriving DecidableEq, Repr

/-- Parameters of `load_csv`, also `xcsv_config` — io/xcsv.hpp:34-40, 240-254. -/
structure CsvConfig where
  delimiter : Nat := 44
  skipRows : Nat := 0
  maxRows : Int := -1
  comments : List Nat := [35]

/-- Loop of `load_csv` — io/xcsv.hpp:172-190.  Result: the variables and what is left of the stream.  The first argument
bounds the number of iterations. -/
def csvLoop {α : Type} (cast : List Nat → Res α) (cfg : CsvConfig) :
    Nat → List Nat → CsvState α → Res (CsvState α × List Nat)
  | 0, s, st => .ok (st, s)
  | fuel + 1, s, st => match getLine 10 s with
    | none => .ok (st, s)
    | some (row, rest) =>
      if st.nhead < cfg.skipRows then csvLoop cast cfg fuel rest { st with nhead := st.nhead + 1 }
      else (equalFrom cfg.comments row).bind fun c =>
        if c then csvLoop cast cfg fuel rest st
        else if 0 < cfg.maxRows ∧ cfg.maxRows ≤ (st.nbrow : Int) then .ok (st, rest)
        else (loadCsvRow cast cfg.delimiter row st.data).bind fun r =>
          csvLoop cast cfg fuel rest { st with data := r.1, nbcol := r.2, nbrow := st.nbrow + 1 }

/-- `load_csv` — io/xcsv.hpp:151-201: the tensor and what is left of the stream. -/
def loadCsv {α : Type} (cast : List Nat → Res α) (cfg : CsvConfig) (s : List Nat) : Res (Buf α × List Nat) :=
  (csvLoop cast cfg s.length s ⟨[], 0, 0, 0⟩).bind fun r =>
    if r.1.data.length ≠ r.1.nbrow * r.1.nbcol then .throws
    else .ok (⟨[r.1.nbrow, r.1.nbcol], .row_major, r.1.data⟩, r.2)

/-! ### `dump_csv` -/

/-- `stream << n` of a signed integer. -/
def writeInt (x : Int) : List Nat := if x < 0 then 45 :: decimal x.natAbs else decimal x.natAbs

/-- Body of the loops of `dump_csv` — io/xcsv.hpp:222-236; `enc` is what `stream << value` writes. -/
def dumpCell {α : Type} (enc : α → List Nat) (e : Ex α) (nbcols : Nat) (st : e.State × List Nat) (c : Nat) :
    e.State × List Nat :=
  if c + 1 ≠ nbcols then ((e.ops 2).step st.1 1 1, st.2 ++ enc (e.deref st.1) ++ [44])
  else ((e.ops 2).step ((e.ops 2).reset st.1 1) 0 1, st.2 ++ enc (e.deref st.1) ++ [10])

/-- `dump_csv` of an expression of shape `sh` — io/xcsv.hpp:209-238: the text written. -/
def dumpCsv {α : Type} (enc : α → List Nat) (e : Ex α) (sh : List Nat) : Res (List Nat) :=
  if sh.length ≠ 2 then .throws
  else .ok ((List.range (sh.getD 0 0)).foldl (fun (st : e.State × List Nat) _ =>
    (List.range (sh.getD 1 0)).foldl (dumpCell enc e (sh.getD 1 0)) st) (e.stBegin, [])).2

/-- `load_file(stream, e, config)` — io/xcsv.hpp:256-266 — into a container of layout `L`: the loaded tensor is assigned. -/
def loadCsvFile {α : Type} [Inhabited α] (cast : List Nat → Res α) (cfg : CsvConfig) (L : Layout) (s : List Nat) :
    Res (Buf α) :=
  (loadCsv cast cfg s).map fun r => copyTo L r.1.strd r.1.mem

/-- `dump_file(stream, e, config)` — io/xcsv.hpp:268-272: the configuration is not used. -/
def dumpCsvFile {α : Type} (enc : α → List Nat) (e : Ex α) (sh : List Nat) (_cfg : CsvConfig) : Res (List Nat) :=
  dumpCsv enc e sh

end Xt
