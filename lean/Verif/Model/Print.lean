import Verif.Model.Csv
import Verif.Spec.Index
/-!
# Model: printing (`io/xio.hpp`) and HTML tables (`io/xmime.hpp`)

A text is a list of character codes.  The expression is given by its shape and its elements; `strided_view(e, slices)` with
integer slices, by which the code walks over it, has the remaining axes of the shape and the element whose index is the
slices (`C20`), so that the slices are kept as an index here.  Reading an element outside the shape is undefined.
Sizes are below `2^64`, and `size_t` subtraction wraps.  Conversions of indices to `int` are not modelled.

The texts of single elements come from a `Printer`: those of integers, Booleans and strings are modelled; that of floating
point and complex values is left open (any function of the cached values).
-/

namespace Xt

/-- `n - 1` in `size_t`. -/
def sizePred (n : Nat) : Nat := (n + (2 ^ 64 - 1)) % 2 ^ 64

/-- `static_cast<std::size_t>` of an `int`. -/
def sizeOfInt (i : Int) : Nat := (i % 2 ^ 64).toNat

/-- `strided_view(e, slices)()` when the slices are a full index. -/
def elementAt {β : Type} (shape : List Nat) (e : List Nat → β) (idx : List Nat) : Res β :=
  if Spec.InBounds shape idx then .ok (e idx) else .ub

/-! ### Collecting the elements that are shown -/

/-- The loop of `recurser_run` — io/xio.hpp:281-293.  The result is the index at which the loop ended.  Fuel `n` is enough
for every loop that ends: after `n` rounds an index outside the axis has been used. -/
def recurserLoop {σ : Type} (n lim : Nat) (body : Nat → σ → Res σ) : Nat → Nat → σ → Res (Nat × σ)
  | 0, i, s => if i = sizePred n then .ok (i, s) else .ub
  | fuel + 1, i, s =>
    if i = sizePred n then .ok (i, s)
    else
      let j := if lim ≠ 0 ∧ n > lim * 2 ∧ i = lim then n - lim else i
      (body j s).bind fun s => recurserLoop n lim body fuel (j + 1) s

/-- `recurser_run(fn, e, slices, lim)` — io/xio.hpp:270-298, where `fn.update` appends to the cache. -/
def recurserRun {β : Type} (shape : List Nat) (e : List Nat → β) (lim : Nat) :
    List Nat → List Nat → List β → Res (List β)
  | [], slices, cache => (elementAt shape e slices).map fun v => cache ++ [v]
  | n :: sh, slices, cache =>
    (recurserLoop n lim (fun i c => recurserRun shape e lim sh (slices ++ [i]) c) n 0 cache).bind fun r =>
      recurserRun shape e lim sh (slices ++ [r.1]) r.2

/-! ### Printers of elements -/

/-- A printer after `init()`: the text of an element and the width, which depend on the precision and on all cached values —
io/xio.hpp:300-620. -/
structure Printer (β : Type) where
  /-- `print_next` -/
  text : Int → List β → β → List Nat
  /-- `width()` -/
  width : Int → List β → Nat

/-- `out.width(w); out << s`: blanks are added on the left. -/
def padLeft (w : Nat) (s : List Nat) : List Nat := List.replicate (w - s.length) 32 ++ s

/-- `x` converted to a signed type of `bits` bits. -/
def narrowSigned (bits : Nat) (x : Int) : Int :=
  let y := x % 2 ^ bits
  if y ≥ 2 ^ (bits - 1) then y - 2 ^ bits else y

/-- `m_max` after one `update` of the integer printer — io/xio.hpp:476-487: the absolute value is compared, and then stored
in the type of the elements.  (For `int` and wider types the absolute value of the smallest number is undefined; here it is
converted as for the smaller types.) -/
def intUpdate (bits : Nat) (m : Int) (v : Int) : Int :=
  if (v.natAbs : Int) > m then narrowSigned bits v.natAbs else m

/-- The integer part of the decimal logarithm of a positive number below `10^fuel`. -/
def log10Aux : Nat → Nat → Nat
  | 0, _ => 0
  | fuel + 1, n => if n < 10 then 0 else log10Aux fuel (n / 10) + 1

/-- `std::streamsize(std::log10(n))`, computed without rounding. -/
def log10 (n : Nat) : Nat := log10Aux (n + 1) n

/-- `m_width` of the integer printer — io/xio.hpp:460-464. -/
def intWidth (bits : Nat) (cache : List Int) : Nat :=
  let m := cache.foldl (intUpdate bits) 0
  1 + (if m > 0 then log10 m.toNat else 0) + (if cache.any (fun v => decide (v < 0)) then 1 else 0)

/-- `out << +v`. -/
def intText (v : Int) : List Nat := writeInt v

/-- `printer` of signed integers — io/xio.hpp:442-510. -/
def intPrinter (bits : Nat) : Printer Int where
  text _ cache v := padLeft (intWidth bits cache) (intText v)
  width _ cache := intWidth bits cache

/-- `printer` of Booleans — io/xio.hpp:512-560. -/
def boolPrinter : Printer Bool where
  text _ _ v := if v then [32, 116, 114, 117, 101] else [102, 97, 108, 115, 101]
  width _ _ := 5

/-- `m_width` of the printer of other types, after `init` — io/xio.hpp:641-671. -/
def stringWidth (cache : List (List Nat)) : Nat :=
  let w := cache.foldl (fun w s => if s.length > w then s.length else w) 0
  if w > 20 then 0 else w

/-- `printer` of other types, and of everything printed with a function — io/xio.hpp:622-690. -/
def stringPrinter : Printer (List Nat) where
  text _ cache s := padLeft (stringWidth cache) s
  width _ cache := stringWidth cache

/-! ### Output -/

/-- The stream and the iterator of the printer: what was written, and the cached values that were not printed yet. -/
structure PrintState (β : Type) where
  out : List Nat
  rest : List β

/-- Write to the stream. -/
def PrintState.put {β : Type} (s : PrintState β) (t : List Nat) : PrintState β := { s with out := s.out ++ t }

/-- `printer.print_next(out)`; past the end of the cache it is undefined. -/
def printNext {β : Type} (text : β → List Nat) (s : PrintState β) : Res (PrintState β) :=
  match s.rest with
  | [] => .ub
  | v :: rest => .ok { out := s.out ++ text v, rest := rest }

/-- `out << std::endl << indents`. -/
def newLine (blanks : Nat) : List Nat := 10 :: List.replicate blanks 32

/-- The line is full — io/xio.hpp:222, 236, 245, 255. -/
def lineFull (lineLim elems : Nat) : Bool := decide (lineLim ≠ 0 ∧ elems ≥ lineLim)

/-- The ellipsis and the number of elements on the line after it — io/xio.hpp:222-234. -/
def putEllipsis {β : Type} (oneD : Bool) (lineLim blanks : Nat) (s : PrintState β × Nat) : PrintState β × Nat :=
  if oneD && lineFull lineLim s.2 then (s.1.put [32, 46, 46, 46, 44], s.2)
  else if !oneD then (s.1.put ([46, 46, 46, 44] ++ newLine blanks), 0)
  else (s.1.put [46, 46, 46, 44, 32], s.2)

/-- A new line before an element — io/xio.hpp:236-240. -/
def breakLine {β : Type} (oneD : Bool) (lineLim blanks : Nat) (s : PrintState β × Nat) : PrintState β × Nat :=
  if oneD && lineFull lineLim s.2 then (s.1.put (newLine blanks), 0) else s

/-- After an element: the comma, the count, and what follows — io/xio.hpp:242-253. -/
def putComma {β : Type} (oneD : Bool) (lineLim blanks elems : Nat) (s : PrintState β) : PrintState β × Nat :=
  let elems := elems + 1
  if oneD && !lineFull lineLim elems then (s.put [44, 32], elems)
  else if !oneD then (s.put ([44] ++ newLine blanks), elems)
  else (s.put [44], elems)

/-- The loop of `xoutput` — io/xio.hpp:218-254.  `sub` prints the part of the current index. -/
def outputLoop {β : Type} (n lim : Nat) (oneD : Bool) (lineLim blanks : Nat)
    (sub : PrintState β → Res (PrintState β)) : Nat → Nat → PrintState β × Nat → Res (Nat × (PrintState β × Nat))
  | 0, i, s => if i = sizePred n then .ok (i, s) else .ub
  | fuel + 1, i, s =>
    if i = sizePred n then .ok (i, s)
    else
      let jump := lim ≠ 0 ∧ n > lim * 2 ∧ i = lim
      let j := if jump then n - lim else i
      let s := if jump then putEllipsis oneD lineLim blanks s else s
      let s := breakLine oneD lineLim blanks s
      (sub s.1).bind fun t => outputLoop n lim oneD lineLim blanks sub fuel (j + 1) (putComma oneD lineLim blanks s.2 t)

/-- `xoutput` — io/xio.hpp:188-268.  The slices only determine which axes are left, the values come from the printer. -/
def xoutput {β : Type} (text : β → List Nat) (lim lineLim : Nat) :
    List Nat → Nat → PrintState β → Res (PrintState β)
  | [], _, s => printNext text s
  | n :: sh, blanks, s =>
    (outputLoop n lim sh.isEmpty lineLim blanks (xoutput text lim lineLim sh (blanks + 1)) n 0 (s.put [123], 0)).bind
      fun r =>
        (xoutput text lim lineLim sh (blanks + 1) (breakLine sh.isEmpty lineLim blanks r.2).1).map fun t => t.put [125]

/-- Print options — io/xio.hpp:37-43. -/
structure PrintOptions where
  edgeItems : Int
  lineWidth : Int
  threshold : Int
  precision : Int
  deriving DecidableEq, Repr

/-- A stream: its text, its precision, and the words in which the manipulators are stored (0 at first) —
io/xio.hpp:93-124. -/
structure OutStream where
  text : List Nat
  precision : Int
  words : PrintOptions
  deriving DecidableEq, Repr

/-- One option: the word of the stream unless it is 0; the word is reset — io/xio.hpp:721-752. -/
def takeOption (word default : Int) : Int × Int := if word = 0 then (default, word) else (word, 0)

/-- `get_print_options(out)` — io/xio.hpp:708-755, with the global options `g`. -/
def getPrintOptions (g : PrintOptions) (o : OutStream) : PrintOptions × OutStream :=
  let e := takeOption o.words.edgeItems g.edgeItems
  let l := takeOption o.words.lineWidth g.lineWidth
  let t := takeOption o.words.threshold g.threshold
  let p := takeOption o.words.precision g.precision
  (⟨e.1, l.1, t.1, p.1⟩, { o with words := ⟨e.2, l.2, t.2, p.2⟩ })

/-- `lim` — io/xio.hpp:799-808: edge items if there are more elements than the threshold. -/
def printLimit (sz : Nat) (po : PrintOptions) : Nat :=
  if sz > sizeOfInt po.threshold then sizeOfInt po.edgeItems else 0

/-- `pretty_print(e, out)`, `out << e` — io/xio.hpp:792-840. -/
def prettyPrint {β : Type} (P : Printer β) (g : PrintOptions) (shape : List Nat) (e : List Nat → β) (o : OutStream) :
    Res OutStream :=
  let sz := shape.foldl (· * ·) 1
  let r := getPrintOptions g o
  let po := r.1
  let o := r.2
  let lim := printLimit sz po
  if sz = 0 then .ok { o with text := o.text ++ [123, 125] }
  else
    let temp := o.precision
    let o := if po.precision ≠ -1 then { o with precision := po.precision } else o
    let precision := if po.precision ≠ -1 then po.precision else temp
    (recurserRun shape e lim shape [] []).bind fun cache =>
      (xoutput (P.text precision cache) lim (sizeOfInt po.lineWidth / (P.width precision cache + 2)) shape 1
        { out := o.text, rest := cache }).map fun s =>
          { o with text := s.out, precision := temp }

/-! ### HTML tables -/

/-- A piece of HTML: markup, or a cell with the index in its `title` and the text. -/
inductive HtmlPiece
  | markup (s : String)
  | cell (title : List Nat) (text : List Nat)
  deriving DecidableEq, Repr

/-- The HTML written so far, and the cached values that were not printed yet. -/
structure HtmlState (β : Type) where
  out : List HtmlPiece
  rest : List β

/-- Write markup. -/
def HtmlState.tag {β : Type} (s : HtmlState β) (t : String) : HtmlState β := { s with out := s.out ++ [.markup t] }

/-- A cell — io/xmime.hpp:34-40 (`compute_1d_row`, inside `<tr>`) and 69-82 (`compute_2d_element`). -/
def htmlCell {β : Type} (text : β → List Nat) (title : List Nat) (s : HtmlState β) : Res (HtmlState β) :=
  match s.rest with
  | [] => .ub
  | v :: rest => .ok { out := s.out ++ [.cell title (text v)], rest := rest }

/-- `for (k = from; k < to; ++k) body(k)`. -/
def htmlFor {σ : Type} (body : Nat → σ → Res σ) : List Nat → σ → Res σ
  | [], s => .ok s
  | k :: ks, s => (body k s).bind (htmlFor body ks)

/-- An axis: all of it, or the items at both ends with something between — the shape of io/xmime.hpp:48-65, 96-115, 145-178
and 214-233. -/
def htmlAxis {σ : Type} (n lim : Nat) (body : Nat → σ → Res σ) (between : σ → σ) (s : σ) : Res σ :=
  if lim = 0 ∨ 2 * lim ≥ n then htmlFor body (List.range n) s
  else (htmlFor body (List.range lim) s).bind fun s =>
    htmlFor body (List.range' (n - lim) (n - (n - lim))) (between s)

/-- `compute_1d_table` — io/xmime.hpp:42-67. -/
def html1d {β : Type} (text : β → List Nat) (n lim : Nat) (s : HtmlState β) : Res (HtmlState β) :=
  (htmlAxis n lim (fun i s => (htmlCell text [i] (s.tag "<tr>")).map (·.tag "</tr>"))
    (·.tag "<tr><td>vertical</td></tr>") (s.tag "<table>")).map (·.tag "</table>")

/-- `compute_2d_row` — io/xmime.hpp:84-118. -/
def htmlRow {β : Type} (text : β → List Nat) (cols lim : Nat) (idx : List Nat) (row : Nat) (s : HtmlState β) :
    Res (HtmlState β) :=
  (htmlAxis cols lim (fun col s => htmlCell text (idx ++ [row, col]) s) (·.tag "<td>horizontal</td>") (s.tag "<tr>")).map
    (·.tag "</tr>")

/-- The row between the items at both ends — io/xmime.hpp:137-141, 156-170. -/
def htmlDots {β : Type} (cols lim : Nat) (s : HtmlState β) : HtmlState β :=
  let nb := if cols ≤ 2 * lim + 1 then cols else 2 * lim + 1
  ((List.range nb).foldl (fun (s : HtmlState β) k =>
    if k = lim ∧ nb ≠ cols then s.tag "<td>diagonal</td>" else s.tag "<td>vertical</td>") (s.tag "<tr>")).tag "</tr>"

/-- `compute_2d_table` — io/xmime.hpp:120-180. -/
def html2d {β : Type} (text : β → List Nat) (rows cols lim : Nat) (idx : List Nat) (s : HtmlState β) :
    Res (HtmlState β) :=
  (htmlAxis rows lim (fun row s => htmlRow text cols lim idx row s) (htmlDots cols lim) (s.tag "<table>")).map
    (·.tag "</table>")

/-- `compute_nd_table_impl` and `compute_nd_row` — io/xmime.hpp:182-236, for the axes that are left. -/
def htmlNd {β : Type} (text : β → List Nat) (lim : Nat) : List Nat → List Nat → HtmlState β → Res (HtmlState β)
  | [], _, _ => .ub
  | [_], _, _ => .ub
  | n :: m :: sh, idx, s =>
    if sh = [] then html2d text n m lim idx s
    else (htmlAxis n lim
      (fun i s => (htmlNd text lim (m :: sh) (idx ++ [i]) (s.tag "<tr><td>")).map (·.tag "</td></tr>"))
      (·.tag "<tr><td>horizontal</td></tr>") (s.tag "<table>")).map (·.tag "</table>")

/-- `mime_bundle_repr_impl(expr)` — io/xmime.hpp:238-281.  `raw` is the text of `out << expr()`, used for an expression
without axes (`compute_0d_table`, lines 24-32). -/
def mimeRepr {β : Type} (P : Printer β) (raw : β → List Nat) (g : PrintOptions) (precision : Int) (shape : List Nat)
    (e : List Nat → β) : Res (List HtmlPiece) :=
  let size := shape.foldl (· * ·) 1
  let lim := if size > sizeOfInt g.threshold then sizeOfInt g.edgeItems else 0
  let precision := if g.precision ≠ -1 then g.precision else precision
  (recurserRun shape e lim shape [] []).bind fun cache =>
    let s : HtmlState β := { out := [], rest := cache }
    match shape with
    | [] => (elementAt [] e []).map fun v => [.markup "<table><tr>", .cell [] (raw v), .markup "</tr></table>"]
    | [n] => (html1d (P.text precision cache) n lim s).map (·.out)
    | sh => (htmlNd (P.text precision cache) lim sh [] s).map (·.out)

end Xt
