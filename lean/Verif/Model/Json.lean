import Verif.Model.StridedView
import Verif.Model.Sort
import Verif.Spec.Json
/-!
# Model: arrays from and to JSON documents (`io/xjson.hpp`)

Of nlohmann::json the following is used: `size()`, `is_array()`, the constant `operator[]` with a number, which is undefined
beyond the end of an array and throws on anything but an array, `get<T>()`, which throws unless the value is a number, and
`push_back`.
-/

namespace Xt
open Spec (Jv)

variable {α : Type}

/-- `j[i]` on a constant document. -/
def Jv.index (j : Jv α) (i : Nat) : Res (Jv α) :=
  match j with
  | .arr l => match l[i]? with
    | some k => .ok k
    | none => .ub
  | _ => .throws

/-- `j.get<T>()`. -/
def Jv.get (j : Jv α) : Res α :=
  match j with
  | .val a => .ok a
  | _ => .throws

/-- Integer slices. -/
def intSlices (p : List Nat) : List USlice := p.map fun (i : Nat) => .int (i : Int)

/-- `to_json_impl(j, e, slices)` — io/xjson.hpp:46-69 — for a strided expression of shape `sh`, strides `st`, data offset
`off`, layout `l` and storage `mem`.  The first argument bounds the depth of the recursion. -/
def toJsonImpl (sh : List Nat) (st : List Int) (off : Int) (l : Layout) (mem : Int → α) :
    Nat → List Nat → Res (Jv α)
  | 0, _ => .ub
  | fuel + 1, slices =>
    (stridedView sh st off l (intSlices slices)).bind fun v =>
      if v.shape.length = 0 then .ok (.val (mem (v.index [])))
      else ((List.range (v.shape.getD 0 0).toNat).foldl (fun (r : Res (List (Jv α))) i =>
        r.bind fun js => (toJsonImpl sh st off l mem fuel (slices ++ [i])).map fun k => js ++ [k]) (.ok [])).map .arr

/-- `to_json(j, e)` — io/xjson.hpp:132-137. -/
def toJson (sh : List Nat) (st : List Int) (off : Int) (l : Layout) (mem : Int → α) : Res (Jv α) :=
  toJsonImpl sh st off l mem (sh.length + 1) []

/-- `view() = x` in the storage `data`. -/
def storeAt (data : List α) (k : Int) (x : α) : Res (List α) :=
  if 0 ≤ k ∧ k < data.length then .ok (data.set k.toNat x) else .ub

/-- `from_json_impl(j, e, slices)` — io/xjson.hpp:71-93 — for a destination of shape `sh`, strides `st`, data offset `off`,
layout `l` and storage `data`.  The first argument bounds the depth of the recursion. -/
def fromJsonImpl (sh : List Nat) (st : List Int) (off : Int) (l : Layout) :
    Nat → Jv α → List α → List Nat → Res (List α)
  | 0, _, _, _ => .ub
  | fuel + 1, j, data, slices =>
    (stridedView sh st off l (intSlices slices)).bind fun v =>
      if v.shape.length = 0 then (Jv.get j).bind fun x => storeAt data (v.index []) x
      else (List.range (v.shape.getD 0 0).toNat).foldl (fun (r : Res (List α)) i =>
        r.bind fun data => (Jv.index j i).bind fun k => fromJsonImpl sh st off l fuel k data (slices ++ [i])) (.ok data)

/-- `json_dimension(j)` — io/xjson.hpp:95-106. -/
def jsonDimension : Jv α → Nat
  | .arr (j :: _) => 1 + jsonDimension j
  | _ => 0

/-- A shape object: the cells it owns, `none` for one with an indeterminate value, and the number of those in use.  An
`svector` owns at least four cells (core/xshape.hpp:29, containers/xstorage.hpp:758-764, 901-911), a `std::array` exactly
those in use. -/
structure ShapeObj where
  cells : List (Option Nat)
  size : Nat
  deriving DecidableEq, Repr

/-- `s[pos] = n`: not checked, but undefined only beyond the cells. -/
def ShapeObj.write (s : ShapeObj) (pos n : Nat) : Res ShapeObj :=
  if pos < s.cells.length then .ok ⟨s.cells.set pos (some n), s.size⟩ else .ub

/-- `json_shape(j, s, pos)` — io/xjson.hpp:108-120. -/
def jsonShape : Jv α → ShapeObj → Nat → Res ShapeObj
  | .arr [], s, pos => s.write pos 0
  | .arr (j :: l), s, pos => (s.write pos (l.length + 1)).bind fun s => jsonShape j s (pos + 1)
  | _, s, _ => .ok s

/-- `xtl::make_sequence<shape_type>(dimension)`: an `svector` of `dimension` zeros, or a `std::array` of zeros of its own size
`N` (`fixed = some N`). -/
def makeShape (fixed : Option Nat) (dimension : Nat) : ShapeObj :=
  match fixed with
  | none => ⟨List.replicate (max 4 dimension) (some 0), dimension⟩
  | some N => ⟨List.replicate N (some 0), N⟩

/-- The extents of a shape object. -/
def ShapeObj.extents (s : ShapeObj) : List Nat := (s.cells.take s.size).map (·.getD 0)

/-- `from_json(j, e)` into a container of layout `L` — io/xjson.hpp:155-167.  `resize` leaves the elements unspecified:
`junk`. -/
def fromJson (fixed : Option Nat) (L : Layout) (junk : Nat → α) (j : Jv α) : Res (Buf α) :=
  (jsonShape j (makeShape fixed (jsonDimension j)) 0).bind fun s =>
    let b : Buf α := ⟨s.extents, L, (List.range (s.extents.foldl (· * ·) 1)).map junk⟩
    (fromJsonImpl b.shape b.strides 0 L (b.shape.length + 1) j b.data []).map fun d => ⟨b.shape, L, d⟩

/-- The default-constructed shape of a view — io/xjson.hpp:173: an empty `svector`, whose inline cells hold anything, or a
`std::array` with indeterminate values. -/
def viewShapeObj (fixed : Option Nat) : ShapeObj :=
  match fixed with
  | none => ⟨List.replicate 4 none, 0⟩
  | some N => ⟨List.replicate N none, N⟩

/-- `std::equal(s.cbegin(), s.cend(), e.shape().cbegin())` — io/xjson.hpp:177: stops at the first difference; comparing an
indeterminate value is undefined. -/
def equalShape : List (Option Nat) → List Nat → Res Bool
  | [], _ => .ok true
  | none :: _, _ => .ub
  | some _ :: _, [] => .ub
  | some n :: s, m :: sh => if n = m then equalShape s sh else .ok false

/-- `from_json(j, e)` into a view of shape `sh` with the given strides, offset and storage — io/xjson.hpp:170-184. -/
def fromJsonView (fixed : Option Nat) (sh : List Nat) (st : List Int) (off : Int) (l : Layout) (data : List α) (j : Jv α) :
    Res (List α) :=
  (jsonShape j (viewShapeObj fixed) 0).bind fun s =>
    (equalShape (s.cells.take s.size) sh).bind fun same =>
      if same then fromJsonImpl sh st off l (sh.length + 1) j data [] else .throws

end Xt
