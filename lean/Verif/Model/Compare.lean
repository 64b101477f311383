import Verif.Model.Assign
import Verif.Model.Slice
import Verif.Model.Storage
/-!
# Model: comparisons of expressions, storages and slices

Source: core/xoperation.hpp:618-662, 923-972, containers/xstorage.hpp:571-608, 1356-1410, 1600-1635,
containers/xbuffer_adaptor.hpp:993-1052, views/xslice.hpp (under /repo/include/xtensor).

Elements are compared by functions `eq` and `lt`; storages are lists of their elements, and
`lexCompare` is `std::lexicographical_compare`.
-/

namespace Xt

variable {α : Type}

/-- `std::equal(b1, e1, b2)` after the sizes have been compared. -/
def seqEqual (eq : α → α → Bool) (a b : List α) : Bool :=
  a.length == b.length && (a.zip b).all fun (p : α × α) => eq p.1 p.2

/-! ### `uvector`, `svector`, `const_array` -/

/-- `operator==` — containers/xstorage.hpp:571-575, 1368-1372, 1600-1604. -/
def vecEq (eq : α → α → Bool) (a b : List α) : Bool := seqEqual eq a b

/-- `operator!=` — containers/xstorage.hpp:577-581, 1374-1378, 1606-1610. -/
def vecNe (eq : α → α → Bool) (a b : List α) : Bool := !vecEq eq a b

/-- `operator<` — containers/xstorage.hpp:583-587, 1380-1384, 1612-1616. -/
def vecLt (lt : α → α → Bool) (a b : List α) : Bool := lexCompare lt a b

/-- `operator>` — containers/xstorage.hpp:595-599, 1392-1396, 1624-1628. -/
def vecGt (lt : α → α → Bool) (a b : List α) : Bool := vecLt lt b a

/-- `operator<=` — containers/xstorage.hpp:589-593, 1386-1390, 1618-1622. -/
def vecLe (lt : α → α → Bool) (a b : List α) : Bool := !vecGt lt a b

/-- `operator>=` — containers/xstorage.hpp:601-605, 1398-1402, 1630-1634. -/
def vecGe (lt : α → α → Bool) (a b : List α) : Bool := !vecLt lt a b

/-! ### `xbuffer_adaptor`, `xiterator_adaptor`, `xiterator_owner_adaptor` -/

/-- `operator==` — containers/xbuffer_adaptor.hpp:993-998. -/
def bufEq (eq : α → α → Bool) (a b : List α) : Bool := seqEqual eq a b

/-- `operator!=` — containers/xbuffer_adaptor.hpp:1000-1004. -/
def bufNe (eq : α → α → Bool) (a b : List α) : Bool := !bufEq eq a b

/-- `operator<` with `std::less` — containers/xbuffer_adaptor.hpp:1006-1016. -/
def bufLess (lt : α → α → Bool) (a b : List α) : Bool := lexCompare lt a b

/-- `operator<=` with `std::less_equal`, of elements for which `x <= y` is `!(y < x)` —
containers/xbuffer_adaptor.hpp:1018-1028. -/
def bufLessEq (lt : α → α → Bool) (a b : List α) : Bool := lexCompare (fun x y => !lt y x) a b

/-- `operator>` with `std::greater` — containers/xbuffer_adaptor.hpp:1030-1040. -/
def bufGreater (lt : α → α → Bool) (a b : List α) : Bool := lexCompare (fun x y => lt y x) a b

/-- `operator>=` with `std::greater_equal` — containers/xbuffer_adaptor.hpp:1042-1052. -/
def bufGreaterEq (lt : α → α → Bool) (a b : List α) : Bool := lexCompare (fun x y => !lt x y) a b

/-! ### Expressions -/

/-- `while (res && iter1 != iter_end) { res = (*iter1++ == *iter2++); }` on what the iterators see —
core/xoperation.hpp:639-642; `ub`: the second range is shorter. -/
def eqLoop (eq : α → α → Bool) (res : Bool) : List α → List α → Res Bool
  | [], _ => .ok res
  | x :: xs, ys =>
    if res then
      match ys with
      | [] => .ub
      | y :: ys => eqLoop eq (eq x y) xs ys
    else .ok res

/-- `e1 == e2` — core/xoperation.hpp:628-644.  The shape of a function is computed when it is asked for;
`throws`: it does not exist.  `begin()` traverses in row-major order. -/
def exprEq (eq : α → α → Bool) (e1 e2 : Ex α) : Res Bool :=
  match e1.exShape, e2.exShape with
  | some s1, some s2 =>
    eqLoop eq (seqEqual (fun (x y : Nat) => x == y) s1 s2) (e1.values .row_major s1) (e2.values .row_major s2)
  | _, _ => .throws

/-- `e1 != e2` — core/xoperation.hpp:657-661. -/
def exprNe (eq : α → α → Bool) (e1 e2 : Ex α) : Res Bool := (exprEq eq e1 e2).map fun (b : Bool) => !b

/-- `equal(e1, e2)` and the other element-wise comparisons — core/xoperation.hpp:675-678, 550-616;
`yes` and `no` stand for `true` and `false`. -/
def compareEx [Inhabited α] (yes no : α) (cmp : α → α → Bool) (e1 e2 : Ex α) : Ex α :=
  .fn (fun (l : List α) => match l with
    | [x, y] => if cmp x y then yes else no
    | _ => default) (.cons e1 (.cons e2 .nil))

/-- `any(e)` — core/xoperation.hpp:935-948. -/
def anyEx (truthy : α → Bool) (e : Ex α) : Res Bool :=
  match e.exShape with
  | some s => .ok ((e.values .row_major s).any truthy)
  | none => .throws

/-- `all(e)` — core/xoperation.hpp:959-972. -/
def allEx (truthy : α → Bool) (e : Ex α) : Res Bool :=
  match e.exShape with
  | some s => .ok ((e.values .row_major s).all truthy)
  | none => .throws

/-! ### Slices -/

/-- A slice bound to an axis; `indices` is `m_indices` of an `xdrop_slice` (views/xslice.hpp:495). -/
structure SlObj where
  sl : Sl
  indices : List Int
  deriving DecidableEq, Repr

/-- A slice bound to an axis of extent `n`, see `getSlice`; `m_indices` of a drop slice —
views/xslice.hpp:1571-1595. -/
def bindSlice (n : Nat) (u : USlice) : Res SlObj :=
  (getSlice n u).map fun (s : Sl) => ⟨s, match u with
    | .drop l => l.map (normIndex n)
    | _ => []⟩

/-- `operator==` — views/xslice.hpp:1119-1123 (`xrange`), 1199-1203 (`xstepped_range`), 1271-1275 (`xall`), 1337-1341
(`xnewaxis`), 1480-1484 (`xkeep_slice`), 1656-1660 (`xdrop_slice`); integers are integers.  `none`: slices of different
types are not compared. -/
def SlObj.eq (a b : SlObj) : Option Bool :=
  match a.sl, b.sl with
  | .int i, .int j => some (i == j)
  | .range s n, .range t m => some (s == t && n == m)
  | .stepped s n k, .stepped t m l => some (s == t && n == m && k == l)
  | .all n, .all m => some (n == m)
  | .newaxis, .newaxis => some true
  | .keep l, .keep m => some (l == m)
  | .drop _ _, .drop _ _ => some (a.indices == b.indices)
  | _, _ => none

/-- `operator!=` — views/xslice.hpp:1125-1129, 1205-1209, 1277-1281, 1343-1347 (`xnewaxis`: `true`), 1486-1490,
1662-1666. -/
def SlObj.ne (a b : SlObj) : Option Bool :=
  match a.sl with
  | .newaxis => (a.eq b).map fun _ => true
  | _ => (a.eq b).map fun (r : Bool) => !r

end Xt
