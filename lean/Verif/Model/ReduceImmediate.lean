import Verif.Model.Reducer
import Verif.Model.Strides
/-!
# Model of `reduce_immediate` (reducers/xreducer.hpp:242-566)

The argument is a container (the caller evaluates other expressions, reducers/xreducer.hpp:944-954)
whose storage `data` holds its `numel sh` elements in the layout `L`.
-/

namespace Xt

variable {α β : Type}

/-- `while (inner_stride == 0 && strides_finder != iter_bound)` — reducers/xreducer.hpp:364-372; the
list holds the strides from the leading axis towards `iter_bound`. -/
def findStride : List Int → Int
  | [] => 0
  | [s] => s
  | s :: t :: l => if s = 0 then findStride (t :: l) else s

/-- `merge_loops` — reducers/xreducer.hpp:389-403: `(last_ax, outer_loop_size)`. -/
def mergeLoops (sh : List Nat) : Nat × Nat → List Nat → Nat × Nat
  | r, [] => r
  | r, a :: as =>
    if ((a : Int) - (r.1 : Int)).natAbs = 1 then mergeLoops sh (a, r.2 * sh.getD a 0) as
    else mergeLoops sh r as

/-- Loop filling `iter_strides` — reducers/xreducer.hpp:405-414; `i`, `idx` are the loop variables,
then the number of axes left. -/
def iterStridesLoop (axes : List Nat) (keep : Bool) (rs : List Int) : Nat → Nat → Nat → List Int
  | _, _, 0 => []
  | i, idx, n + 1 =>
    if axes.contains i then 0 :: iterStridesLoop axes keep rs (i + 1) idx n
    else rs.getD (if keep then i else idx) 0 :: iterStridesLoop axes keep rs (i + 1) (idx + 1) n

/-- What the main loop works with — reducers/xreducer.hpp:363-439. -/
structure ImmPlan where
  innerStride : Nat
  outer : Nat
  iterShape : List Nat
  iterStrides : List Int
  deriving DecidableEq, Repr

/-- Result shape — `shape_computation`, reducers/xreducer.hpp:193-232. -/
def immShape (sh axes : List Nat) (keep : Bool) : List Nat :=
  if keep then (List.range sh.length).map fun i => if axes.contains i then 1 else sh.getD i 0
  else ((List.range sh.length).filter fun i => !axes.contains i).map fun i => sh.getD i 0

/-- `inner_stride` — reducers/xreducer.hpp:363-372. -/
def immInnerStride (L : Layout) (sh axes : List Nat) : Nat :=
  let strides := (computeStrides L L sh).1
  if L = .row_major then (findStride (strides.take (axes.getLastD 0 + 1)).reverse).toNat
  else (findStride (strides.drop (axes.headD 0))).toNat

/-- The set-up of the loops — reducers/xreducer.hpp:384-439; `none`: the layout is not supported. -/
def immPlan (L : Layout) (sh axes : List Nat) (keep : Bool) : Option ImmPlan :=
  let rs := (computeStrides L L (immShape sh axes keep)).1
  let its := iterStridesLoop axes keep rs 0 0 sh.length
  if L = .row_major then
    let lead := axes.getLastD 0
    let m := mergeLoops sh (lead, sh.getD lead 0) axes.reverse.tail
    some { innerStride := immInnerStride L sh axes, outer := m.2
           iterShape := sh.take m.1, iterStrides := its.take m.1 }
  else if L = .column_major then
    let lead := axes.headD 0
    let m := mergeLoops sh (lead, sh.getD lead 0) axes.tail
    some { innerStride := immInnerStride L sh axes, outer := m.2
           iterShape := (sh.drop (m.1 + 1)).reverse, iterStrides := (its.drop (m.1 + 1)).reverse }
  else none

/-- `next_idx` on the reversed sequences: new index, and whether every axis wrapped around —
reducers/xreducer.hpp:442-456. -/
def immNextIdxRev : List Nat → List Nat → List Nat × Bool
  | i :: is, n :: ns =>
    if (i : Int) ≥ (n : Int) - 1 then
      let r := immNextIdxRev is ns
      (0 :: r.1, r.2)
    else ((i + 1) :: is, false)
  | _, _ => ([], true)

/-- `next_idx` — reducers/xreducer.hpp:442-462: also the offset of the new index. -/
def immNextIdx (p : ImmPlan) (idx : List Nat) : List Nat × Bool × Nat :=
  let r := immNextIdxRev idx.reverse p.iterShape.reverse
  (r.1.reverse, r.2, (innerProduct (r.1.reverse.map Int.ofNat) p.iterStrides 0).toNat)

/-- `[begin, begin + n)` of the storage; `none`: outside. -/
def readBlock (data : List α) (b n : Nat) : Option (List α) :=
  if b + n ≤ data.length then some ((data.drop b).take n) else none

/-- `std::transform(out, out + vs.size(), vs.begin(), out, f)` on the result. -/
def transformBlock (res : List β) (out : Nat) (vs : List α) (f : β → α → β) : List β :=
  res.take out ++ List.zipWith f ((res.drop out).take vs.length) vs ++ res.drop (out + vs.length)

/-- `for (i = 1; i < outer_loop_size; ++i)` — reducers/xreducer.hpp:531-535; the argument is the number of
iterations left. -/
def immPasses (F : RedFns α β) (data : List α) (inner out : Nat) :
    Nat → Nat → List β → Option (Nat × List β)
  | 0, b, res => some (b, res)
  | k + 1, b, res =>
    (readBlock data b inner).bind fun vs =>
      immPasses F data inner out k (b + inner) (transformBlock res out vs F.reduce)

/-- One iteration of the main loop up to `next_idx` — reducers/xreducer.hpp:489-495, 517-535: new `begin`
and result; `none`: access outside the storage or the result. -/
def immStep (F : RedFns α β) (data : List α) (inner outer : Nat) (b out : Nat) (merge : Bool)
    (res : List β) : Option (Nat × List β) :=
  if inner = 1 then
    (readBlock data b outer).bind fun vs =>
      if out < res.length then
        let tmp := vs.foldl F.reduce F.init
        some (b + outer, res.modify out fun v => if merge then F.merge v tmp else tmp)
      else none
  else if out + inner ≤ res.length then
    (readBlock data b inner).bind fun vs =>
      immPasses F data inner out (outer - 1) (b + inner)
        (transformBlock res out vs fun v1 v2 =>
          if merge then F.reduce v1 v2 else F.reduce F.init v2)
  else none

/-- `while (idx_res.first != true)` — reducers/xreducer.hpp:483-552, at most `fuel` iterations. -/
def immLoop (F : RedFns α β) (data : List α) (p : ImmPlan) :
    Nat → Nat → Nat → Nat → Bool → List Nat → List β → Option (List β)
  | 0, _, _, _, _, _, _ => none
  | fuel + 1, b, out, border, merge, idx, res =>
    (immStep F data p.innerStride p.outer b out merge res).bind fun q =>
      let nx := immNextIdx p idx
      if nx.2.1 then some q.2
      else if nx.2.2 > border then immLoop F data p fuel q.1 nx.2.2 nx.2.2 false nx.1 q.2
      else immLoop F data p fuel q.1 nx.2.2 border true nx.1 q.2

/-- `copy_to_reduced` — reducers/xreducer.hpp:242-288: the elements of `e`, in its own order, go to the front of
the result.  `copy` is the conversion to the result type, or `reduce(init, v)` when there is none. -/
def copyToReduced (copy : α → β) (data : List α) (res : List β) : Res (List β) :=
  if data.length ≤ res.length then .ok (data.map copy ++ res.drop data.length) else .ub

/-- The initial value is merged in at the end — reducers/xreducer.hpp:554-563. -/
def immFinish (F : RedFns α β) (initial : Option β) (res : List β) : List β :=
  match initial with
  | some v => res.map fun x => F.merge x v
  | none => res

/-- `reduce_immediate` once some but not all axes are to be reduced — reducers/xreducer.hpp:363-566. -/
def immGeneral (L : Layout) (sh : List Nat) (data : List α) (F : RedFns α β) (axes : List Nat)
    (keep : Bool) (initial : Option β) (copy : α → β) (junk : List β) : Res (List β) :=
  if immInnerStride L sh axes = 0 then copyToReduced copy data junk
  else match immPlan L sh axes keep with
    | none => .throws
    | some p =>
      match immLoop F data p (p.iterShape.foldl (· * ·) 1 + 1) 0 0 0 false
          (List.replicate p.iterShape.length 0) junk with
      | none => .ub
      | some res => .ok (immFinish F initial res)

/-- `reduce_immediate` — reducers/xreducer.hpp:290-566: storage of the result, whose shape is
`immShape` (that of `e` when `axes` is empty).  `junk` is what the freshly allocated result holds. -/
def reduceImmediate (L : Layout) (sh : List Nat) (data : List α) (F : RedFns α β) (axes : List Nat)
    (keep : Bool) (initial : Option β) (copy : α → β) (junk : List β) : Res (List β) :=
  if axes.length = 0 then copyToReduced copy data junk
  else if !axesOk sh.length axes then .throws
  else if sh.length = 0 then (if keep then .ub else .throws)
  else if sh.length = axes.length then
    match junk with
    | [] => .ub
    | _ :: js => .ok (data.foldl F.reduce (initial.getD F.init) :: js)
  else immGeneral L sh data F axes keep initial copy junk

end Xt
