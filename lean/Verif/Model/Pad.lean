import Verif.Model.Sort
import Verif.Model.StridedView
/-!
# Model: `pad` and `tile` (`misc/xpad.hpp`)

The result is a container whose cells start uninitialised (`none`).
-/

namespace Xt

open Spec (toInts rowIndices)

/-- `pad_mode` — misc/xpad.hpp:38-46. -/
inductive PadMode
  | constant | symmetric | reflect | wrap | periodic | edge
  deriving DecidableEq, Repr

/-- Index of the source reached through `broadcast(e, shape)`: axes of extent 1 do not advance. -/
def broadcastIndex (shape q : List Nat) : List Nat := List.zipWith (fun n i => if n = 1 then 0 else i) shape q

/-- `strided_view(out, us) = rhs` for an expression `rhs` of shape `shape` — core/xsemantic.hpp:775-793 and
core/xassign.hpp:215-225.  The right-hand side is evaluated into a temporary first.  A shape other than that of the view is
broadcast to it; incompatible shapes throw.  Simplified: the order of the assignments (C24), and an empty source for one
destination element, which would assign nothing, throws. -/
def assignRegion {α : Type} (out : Buf α) (us : List USlice) (shape : List Nat) (val : List Nat → α) : Res (Buf α) :=
  (stridedView out.shape out.strides 0 out.layout us).bind fun v =>
    let vs := v.shape.map Int.toNat
    if shape.length = vs.length ∧ (List.zipWith (fun s d => decide (s = d ∨ s = 1)) shape vs).all id then
      if (rowIndices vs).all fun q => decide (0 ≤ v.index (toInts q) ∧ v.index (toInts q) < out.data.length) then
        let write := fun (d : List α) (q : List Nat) => d.set (v.index (toInts q)).toNat (val (broadcastIndex shape q))
        .ok { out with data := (rowIndices vs).foldl write out.data }
      else .ub
    else .throws

/-- `strided_view(out, svt) = strided_view(out, svs)` — misc/xpad.hpp:127, 277. -/
def copyRegion {α : Type} [Inhabited α] (out : Buf α) (svt svs : List USlice) : Res (Buf α) :=
  (stridedView out.shape out.strides 0 out.layout svs).bind fun s =>
    assignRegion out svt (s.shape.map Int.toNat) fun q => out.mem (s.index (toInts q))

/-- `sv` with all axes whole except one — misc/xpad.hpp:111-112, 121, 153, 197-198. -/
def oneSlice (dim axis : Nat) (u : USlice) : List USlice := (List.replicate dim USlice.all).set axis u

/-- Source of the padding before an axis of extent `n` — misc/xpad.hpp:119-149. -/
def padBefore (mode : PadMode) (n nb : Nat) : USlice :=
  match mode with
  | .constant => .all
  | .wrap => .range (some n) (some (nb + n)) none
  | .periodic => .range (some n) (some (nb + n)) none
  | .symmetric => .range (some (2 * nb - 1)) (some (nb - 1)) (some (-1))
  | .reflect => .range (some (2 * nb)) (some nb) (some (-1))
  | .edge => .range (some nb) (some (nb + 1)) none

/-- Source of the padding after an axis of extent `n` — misc/xpad.hpp:151-195. -/
def padAfter (mode : PadMode) (n nb ne : Nat) : USlice :=
  match mode with
  | .constant => .all
  | .wrap => .range (some nb) (some (nb + ne)) none
  | .periodic => .range (some nb) (some (nb + ne)) none
  | .symmetric =>
    if ne = nb + n then .range (some ((nb : Int) + n - 1)) none (some (-1))
    else .range (some ((nb : Int) + n - 1)) (some ((nb : Int) + n - ne - 1)) (some (-1))
  | .reflect =>
    if (ne : Int) = (nb : Int) + n - 1 then .range (some ((nb : Int) + n - 2)) none (some (-1))
    else .range (some ((nb : Int) + n - 2)) (some ((nb : Int) + n - ne - 2)) (some (-1))
  | .edge => .range (some ((nb : Int) + n - 1)) (some ((nb : Int) + n)) none

/-- One turn of the loop over the axes — misc/xpad.hpp:114-199. -/
def padAxis {α : Type} [Inhabited α] (mode : PadMode) (dim axis n nb ne : Nat) (out : Buf α) : Res (Buf α) :=
  (if nb > 0 then
    copyRegion out (oneSlice dim axis (.range (some 0) (some nb) none)) (oneSlice dim axis (padBefore mode n nb))
  else .ok out).bind fun out =>
  if ne > 0 then
    copyRegion out
      (oneSlice dim axis (.range (some ((out.shape.getD axis 0 : Nat) - (ne : Int))) (some (out.shape.getD axis 0 : Nat)) none))
      (oneSlice dim axis (padAfter mode n nb ne))
  else .ok out

/-- The loop over the axes — misc/xpad.hpp:114-199; `k` axes remain. -/
def padLoop {α : Type} [Inhabited α] (mode : PadMode) (sh : List Nat) (pads : List (Nat × Nat)) :
    Nat → Nat → Buf α → Res (Buf α)
  | 0, _, out => .ok out
  | k + 1, axis, out =>
    (padAxis mode sh.length axis (sh.getD axis 0) (pads.getD axis (0, 0)).1 (pads.getD axis (0, 0)).2 out).bind
      fun out => padLoop mode sh pads k (axis + 1) out

/-- `pad(e, pad_width, mode, constant_value)` — misc/xpad.hpp:73-202 for a container `e`; the result has its layout. -/
def pad {α : Type} [Inhabited α] (e : Buf α) (pads : List (Nat × Nat)) (mode : PadMode) (c : α) : Res (Buf (Option α)) :=
  if pads.length < e.shape.length then .ub
  else
    let sh := (e.shape.zip pads).map fun (x : Nat × (Nat × Nat)) => x.2.1 + x.1 + x.2.2
    let sv := (e.shape.zip pads).map fun (x : Nat × (Nat × Nat)) => USlice.range (some x.2.1) (some ((x.2.1 + x.1 : Nat) : Int)) none
    let out : Buf (Option α) :=
      ⟨sh, e.layout, List.replicate (sh.foldl (· * ·) 1) (if mode = .constant then some c else none)⟩
    (assignRegion out sv e.shape fun q => some (e.read q)).bind fun out =>
      if mode = .constant then .ok out else padLoop mode e.shape pads e.shape.length 0 out

/-- Inner loop of `tile` — misc/xpad.hpp:273-280: copies `i`, `i + 1`, ... of the axis; `k` remain. -/
def tileAxis {α : Type} [Inhabited α] (dim axis n : Nat) : Nat → Nat → Buf α → Res (Buf α)
  | 0, _, out => .ok out
  | k + 1, i, out =>
    (copyRegion out (oneSlice dim axis (.range (some ((i * n : Nat) : Int)) (some (((i + 1) * n : Nat) : Int)) none))
      (oneSlice dim axis (.range (some 0) (some n) none))).bind fun out => tileAxis dim axis n k (i + 1) out

/-- Outer loop of `tile` — misc/xpad.hpp:271-281. -/
def tileLoop {α : Type} [Inhabited α] (sh reps : List Nat) : Nat → Nat → Buf α → Res (Buf α)
  | 0, _, out => .ok out
  | k + 1, axis, out =>
    (tileAxis sh.length axis (sh.getD axis 0) (reps.getD axis 0 - 1) 1 out).bind fun out => tileLoop sh reps k (axis + 1) out

/-- `tile(e, reps)` — misc/xpad.hpp:245-284 for a container `e`. -/
def tile {α : Type} [Inhabited α] (e : Buf α) (reps : List Nat) : Res (Buf (Option α)) :=
  if reps.length ≠ e.shape.length then .ub
  else
    let sh := List.zipWith (· * ·) e.shape reps
    let sv := e.shape.map fun (n : Nat) => USlice.range (some 0) (some n) none
    let out : Buf (Option α) := ⟨sh, e.layout, List.replicate (sh.foldl (· * ·) 1) none⟩
    (assignRegion out sv e.shape fun q => some (e.read q)).bind fun out => tileLoop e.shape reps e.shape.length 0 out

/-- `tile(e, reps)` with an integer — misc/xpad.hpp:314-320: repetitions along the first axis. -/
def tileFirst {α : Type} [Inhabited α] (e : Buf α) (reps : Nat) : Res (Buf (Option α)) :=
  if e.shape = [] then .ub else tile e ((List.replicate e.shape.length 1).set 0 reps)

end Xt
