import Verif.Model.Chunked
import Verif.Spec.Npy
/-!
# Model: NumPy files (`io/xnpy.hpp`)

A file, and a text in it, is a list of bytes.  Reading past the end of a stream leaves the rest of the buffer as it was
allocated, which is uninitialised: `junk` stands for the bytes found there.  The stream itself does not fail.
-/

namespace Xt

open Spec (toInts ascii)

/-- `ss << n` of an unsigned number; the first argument bounds the recursion. -/
def decimalAux : Nat → Nat → List Nat
  | 0, _ => []
  | fuel + 1, n => if n < 10 then [48 + n] else decimalAux fuel (n / 10) ++ [48 + n % 10]

/-- `ss << n`. -/
def decimal (n : Nat) : List Nat := decimalAux (n + 1) n

/-- Element types: the letter of `map_type` and `sizeof` — io/xnpy.hpp:80-161. -/
structure NpyType where
  kind : Nat
  size : Nat
  deriving DecidableEq, Repr

/-- `xtl::endianness()`. -/
inductive Endian
  | little | big | mixed
  deriving DecidableEq, Repr

/-- `get_endianess<T>()` — io/xnpy.hpp:163-184. -/
def endianChar (en : Endian) (t : NpyType) : Nat :=
  if t.size ≤ 1 then '|'.toNat
  else match en with
    | .little => '<'.toNat
    | .big => '>'.toNat
    | .mixed => '|'.toNat

/-- `build_typestring<T>()` — io/xnpy.hpp:186-192. -/
def typestring (en : Endian) (t : NpyType) : List Nat := endianChar en t :: t.kind :: decimal t.size

/-- Text of the shape — io/xnpy.hpp:413-429: every extent followed by ", ", of which one or two characters are erased. -/
def shapeText (shape : List Nat) : List Nat :=
  let s := ascii ['('] ++ (shape.map fun (n : Nat) => decimal n ++ ascii [',', ' ']).flatten
  let s := if shape.length > 1 then s.take (s.length - 2)
    else if shape.length = 1 then s.take (s.length - 1) else s
  s ++ ascii [')']

/-- Header before the padding — io/xnpy.hpp:402-432. -/
def headerText (descr : List Nat) (fortran : Bool) (shape : List Nat) : List Nat :=
  ascii ['{', '\'', 'd', 'e', 's', 'c', 'r', '\'', ':', ' ', '\''] ++ descr ++
  ascii ['\'', ',', ' ', '\'', 'f', 'o', 'r', 't', 'r', 'a', 'n', '_', 'o', 'r', 'd', 'e', 'r', '\'', ':', ' '] ++
  (if fortran then ascii ['T', 'r', 'u', 'e'] else ascii ['F', 'a', 'l', 's', 'e']) ++
  ascii [',', ' ', '\'', 's', 'h', 'a', 'p', 'e', '\'', ':', ' '] ++ shapeText shape ++ ascii [',', ' ', '}']

/-- `write_magic` — io/xnpy.hpp:47-56. -/
def magic : List Nat := [0x93, 'N'.toNat, 'U'.toNat, 'M'.toNat, 'P'.toNat, 'Y'.toNat]

/-- Whether the header needs version 2 — io/xnpy.hpp:434-443. -/
def needsV2 (pre : Nat) : Bool := decide (6 + 2 + 2 + pre ≥ 255 * 255)

/-- Number of blanks — io/xnpy.hpp:434-444. -/
def padLen (pre : Nat) : Nat :=
  let m := if needsV2 pre then 6 + 2 + 4 + pre else 6 + 2 + 2 + pre
  64 - m % 64

/-- `write_header` — io/xnpy.hpp:399-477; the length is cut to 16 or 32 bits. -/
def writeHeader (descr : List Nat) (fortran : Bool) (shape : List Nat) : List Nat :=
  let text := headerText descr fortran shape
  let pre := text.length + 1
  let header := text ++ List.replicate (padLen pre) 32 ++ [10]
  let n := header.length
  if needsV2 pre then
    magic ++ [2, 0] ++ [n % 2 ^ 32 % 256, n % 2 ^ 32 / 2 ^ 8 % 256, n % 2 ^ 32 / 2 ^ 16 % 256, n % 2 ^ 32 / 2 ^ 24 % 256] ++ header
  else magic ++ [1, 0] ++ [n % 2 ^ 16 % 256, n % 2 ^ 16 / 2 ^ 8 % 256] ++ header

/-- `dump_npy_stream(stream, e)` — io/xnpy.hpp:706-729, for a container: its layout, shape and storage; an element is the
list of its bytes.  The strides are not consulted. -/
def dumpNpy (en : Endian) (t : NpyType) (L : Layout) (shape : List Nat) (data : List (List Nat)) : List Nat :=
  let fortran := decide (L = .column_major ∧ shape.length > 1)
  writeHeader (typestring en t) fortran shape ++ (data.take (shape.foldl (· * ·) 1)).flatten

/-! ### Reading -/

/-- `stream.read(buf, n)`: buffer and rest of the stream. -/
def readBytes (junk : Nat → Nat) (n : Nat) (s : List Nat) : List Nat × List Nat :=
  (s.take n ++ (List.range (n - s.length)).map junk, s.drop n)

/-- A `char` promoted to `int`, as the 32-bit pattern; `sg` says whether `char` is signed. -/
def promote (sg : Bool) (b : Nat) : Nat := if sg ∧ b ≥ 128 then 2 ^ 32 - 256 + b else b

/-- Length of the header, version 1 — io/xnpy.hpp:482-485. -/
def headerLen16 (sg : Bool) (b0 b1 : Nat) : Nat := promote sg b0 % 2 ^ 16 ||| promote sg b1 * 2 ^ 8 % 2 ^ 16

/-- Length of the header, version 2 — io/xnpy.hpp:502-506. -/
def headerLen32 (sg : Bool) (b0 b1 b2 b3 : Nat) : Nat :=
  promote sg b0 % 2 ^ 32 ||| promote sg b1 * 2 ^ 8 % 2 ^ 32 ||| promote sg b2 * 2 ^ 16 % 2 ^ 32 |||
    promote sg b3 * 2 ^ 24 % 2 ^ 32

/-- `read_header_1_0` — io/xnpy.hpp:479-497; header and rest of the stream. -/
def readHeader1 (sg : Bool) (junk : Nat → Nat) (s : List Nat) : List Nat × List Nat :=
  let l := readBytes junk 2 s
  readBytes junk (headerLen16 sg (l.1.getD 0 0) (l.1.getD 1 0)) l.2

/-- `read_header_2_0` — io/xnpy.hpp:499-518. -/
def readHeader2 (sg : Bool) (junk : Nat → Nat) (s : List Nat) : List Nat × List Nat :=
  let l := readBytes junk 4 s
  readBytes junk (headerLen32 sg (l.1.getD 0 0) (l.1.getD 1 0) (l.1.getD 2 0) (l.1.getD 3 0)) l.2

/-- `unwrap_s(s, front, back)` — io/xnpy.hpp:208-218; `front()` and `back()` of an empty string are undefined. -/
def unwrapS (f b : Nat) (s : List Nat) : Res (List Nat) :=
  if s = [] then .ub
  else if s.getLast? = some b ∧ s.head? = some f then .ok (s.drop 1).dropLast else .throws

/-- `s.find(pat)`. -/
def findSub (pat : List Nat) : List Nat → Option Nat
  | [] => if pat = [] then some 0 else none
  | c :: s => if pat.isPrefixOf (c :: s) then some 0 else (findSub pat s).map (· + 1)

/-- `get_value_from_map` — io/xnpy.hpp:220-229. -/
def valueOf (s : List Nat) : List Nat := (s.dropWhile (· ≠ ':'.toNat)).drop 1

/-- `pop_char(s, c)` — io/xnpy.hpp:231-237. -/
def popChar (c : Nat) (s : List Nat) : Res (List Nat) :=
  if s = [] then .ub else .ok (if s.getLast? = some c then s.dropLast else s)

/-- A position that must have been found. -/
def orThrow {α : Type} : Option α → Res α
  | none => .throws
  | some x => .ok x

/-- A decimal digit. -/
def isDigit (c : Nat) : Bool := decide (48 ≤ c ∧ c ≤ 57)

/-- `parse_typestring` — io/xnpy.hpp:194-205: quotes around one of `<>|`, one of `ifucb` and digits. -/
def typestringOk : List Nat → Bool
  | q :: o :: k :: ds =>
    decide (q = '\''.toNat) && (ascii ['<', '>', '|']).contains o && (ascii ['i', 'f', 'u', 'c', 'b']).contains k &&
    decide (ds.getLast? = some '\''.toNat) && !ds.dropLast.isEmpty && ds.dropLast.all isDigit
  | _ => false

/-- `ss >> tmp` into a `size_t`, and `atoi`: the leading digits; a number too large gives the largest one.  Simplified:
signs and blanks are not read. -/
def parseNat (s : List Nat) : Nat :=
  min ((s.takeWhile isDigit).foldl (fun v d => 10 * v + (d - 48)) 0) (2 ^ 64 - 1)

/-- Pieces of a text between commas. -/
def splitComma : List Nat → List (List Nat)
  | [] => [[]]
  | c :: s =>
    if c = ','.toNat then [] :: splitComma s
    else match splitComma s with
      | [] => [[c]]
      | t :: ts => (c :: t) :: ts

/-- Loop over the pieces of the shape — io/xnpy.hpp:356-396. -/
def parseDims : List (List Nat) → Res (List Nat)
  | [] => .ok []
  | [t] => .ok (if t = [] then [] else [parseNat t])
  | t :: ts => if t = [] then .throws else (parseDims ts).map (parseNat t :: ·)

/-- Value of `fortran_order` — io/xnpy.hpp:336-348. -/
def parseBool (s : List Nat) : Res Bool :=
  if s = ascii ['T', 'r', 'u', 'e'] then .ok true
  else if s = ascii ['F', 'a', 'l', 's', 'e'] then .ok false else .throws

/-- Parsing of the three values — io/xnpy.hpp:328-396. -/
def parseValues (d f s : List Nat) : Res (List Nat × Bool × List Nat) :=
  if ¬ typestringOk d then .throws
  else (unwrapS '\''.toNat '\''.toNat d).bind fun descr =>
    (parseBool f).bind fun fo =>
      (unwrapS '('.toNat ')'.toNat s).bind fun dims =>
        (parseDims (splitComma dims)).map fun sh => (descr, fo, sh)

/-- The pairs of the dictionary — io/xnpy.hpp:287-331; the keys must come in this order. -/
def parsePairs (h : List Nat) : Res (List Nat × Bool × List Nat) :=
  (orThrow (findSub (ascii ['\'', 'd', 'e', 's', 'c', 'r', '\'']) h)).bind fun kd =>
  (orThrow (findSub (ascii ['\'', 'f', 'o', 'r', 't', 'r', 'a', 'n', '_', 'o', 'r', 'd', 'e', 'r', '\'']) h)).bind fun kf =>
  (orThrow (findSub (ascii ['\'', 's', 'h', 'a', 'p', 'e', '\'']) h)).bind fun ks =>
  if kd ≥ kf ∨ kf ≥ ks then .throws
  else
    (popChar ','.toNat ((h.drop kd).take (kf - kd))).bind fun d =>
    (popChar ','.toNat ((h.drop kf).take (ks - kf))).bind fun f =>
    (popChar ','.toNat (h.drop ks)).bind fun s => parseValues (valueOf d) (valueOf f) (valueOf s)

/-- `parse_header` — io/xnpy.hpp:239-397: type string, order and shape. -/
def parseHeader (header : List Nat) : Res (List Nat × Bool × List Nat) :=
  if header = [] then .ub
  else if header.getLast? ≠ some 10 then .throws
  else (unwrapS '{'.toNat '}'.toNat (header.dropLast.filter (· ≠ 32))).bind parsePairs

/-- `npy_file` — io/xnpy.hpp:520-670. -/
structure NpyFile where
  shape : List Nat
  fortran : Bool
  typestr : List Nat
  wordSize : Nat
  buffer : List Nat
  deriving DecidableEq, Repr

/-- Header and rest of the stream after the magic bytes — io/xnpy.hpp:678-692 and 58-78. -/
def readHeader (sg : Bool) (junk : Nat → Nat) (file : List Nat) : Res (List Nat × List Nat) :=
  if file.length < 8 then .throws
  else if file.take 6 ≠ magic then .throws
  else if file.getD 6 0 = 1 ∧ file.getD 7 0 = 0 then .ok (readHeader1 sg junk (file.drop 8))
  else if file.getD 6 0 = 2 ∧ file.getD 7 0 = 0 then .ok (readHeader2 sg junk (file.drop 8))
  else .throws

/-- `load_npy_file(stream)` — io/xnpy.hpp:672-704, constructor at 524-533.  Simplified: the byte count does not wrap. -/
def loadNpyFile (sg : Bool) (junk : Nat → Nat) (file : List Nat) : Res NpyFile :=
  (readHeader sg junk file).bind fun r =>
    (parseHeader r.1).map fun p =>
      let w := parseNat (p.1.drop 2)
      ⟨p.2.2, p.2.1, p.1, w, (readBytes junk (p.2.2.foldl (· * ·) 1 * w) r.2).1⟩

/-- `cast<T, L>()` with the type check — io/xnpy.hpp:574-626; elements as lists of `sizeof(T)` bytes. -/
def castNpy (en : Endian) (t : NpyType) (L : Layout) (f : NpyFile) : Res (Buf (List Nat)) :=
  if f.typestr ≠ typestring en t then .throws
  else if (L = .column_major ∧ f.fortran = false) ∨ (L = .row_major ∧ f.fortran = true) then .throws
  else .ok ⟨f.shape, if f.fortran then .column_major else .row_major,
    (List.range (f.shape.foldl (· * ·) 1)).map fun (i : Nat) => (f.buffer.drop (i * t.size)).take t.size⟩

/-- `load_npy<T, L>(stream)` — io/xnpy.hpp:772-777. -/
def loadNpy (sg : Bool) (en : Endian) (t : NpyType) (L : Layout) (junk : Nat → Nat) (file : List Nat) : Res (Buf (List Nat)) :=
  (loadNpyFile sg junk file).bind (castNpy en t L)

end Xt
