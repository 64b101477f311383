import Verif.Model.Sort

/-! `argpartition` along an axis — misc/xsort.hpp:698-748. -/

namespace Xt

open Spec

/-- `argpartition_w_kth` applied to one line: `iota`, then `partition_iter` of the positions comparing the values
they point to — misc/xsort.hpp:712-726.  `nth` is the platform's `std::nth_element`.  A listed place beyond the line
is undefined; the caller tests for it first, so the value given here for that case does not matter. -/
def argpartitionLine {α : Type} [Inhabited α] (nth : (Nat → α) → List Nat → Nat → List Nat) (kth : List Nat)
    (l : List α) : List Nat :=
  match partitionList (nth fun i => l.getD i default) kth (List.range l.length) with
  | .ok r => r
  | _ => List.range l.length

/-- `argpartition(e, kth_container, axis)` — misc/xsort.hpp:698-746.  One dimension goes to the flat form
(704-707).  A listed place beyond the extent is undefined as soon as there is a line to work on. -/
def argpartitionAxis {α : Type} [Inhabited α] (nth : (Nat → α) → List Nat → Nat → List Nat) (L : Layout) (v : Strd)
    (mem : Int → α) (kth : List Nat) (axis : Int) : Res (Buf Nat) :=
  if v.shape.length = 1 then
    (argpartitionFlat nth v mem kth).map fun r => ⟨v.shape, L, r⟩
  else
    let g := fun (l : List α) (_ : List Nat) => argpartitionLine nth kth l
    (leadingAxis v).bind fun lead =>
      let ax := normalizeAxis v.shape.length axis
      if ax ≥ v.shape.length then .ub
      else if kth.any (fun k => v.shape.getD ax 0 < k) then .ub
      else if ax = lead then .ok (overLeading2 g (freshBuf L v.shape) v mem)
      else
        let (perm, rev) := sortPerms v.shape.length ax v.layout
        (transposePerm v (toInts perm)).bind fun t =>
          let ev := copyTo L t mem
          let res := overLeading2 g (freshBuf L ev.shape) ev.strd ev.mem
          (transposePerm res.strd (toInts rev)).bind fun w => .ok (copyTo L w res.mem)

end Xt
