import Verif.Model.Stepper
/-!
# Model: `repeat` (`views/xrepeat.hpp`, `misc/xmanipulation.hpp`)

Positions are `size_type` in the code; they are integers here.  A step of an unsigned encoding of a negative number is
a negative step.
-/

namespace Xt

/-- `xrepeat_stepper` — members at views/xrepeat.hpp:219-227.  `ok` is false once `m_repeats` or `m_positions` was
read outside its range. -/
structure RepSt (σ : Type u) where
  sub : σ
  pos : List Int
  subpos : Nat
  rsteps : Int
  ok : Bool
  deriving Repr

/-- Loop of `make_step` on the repeated axis — views/xrepeat.hpp:599-603; `none` when it runs past `m_repeats`.
The first argument bounds the number of turns: each turn moves one entry forward. -/
def repAdvance (r : List Nat) : Nat → Nat → Int → Option (Nat × Int)
  | 0, _, _ => none
  | fuel + 1, sub, s =>
    match r[sub]? with
    | none => none
    | some k => if s ≥ k then repAdvance r fuel (sub + 1) (s - k) else some (sub, s)

/-- Loop of `make_step_back` on the repeated axis — views/xrepeat.hpp:624-628. -/
def repRetreat (r : List Nat) : Nat → Int → Option (Nat × Int)
  | 0, s => if s < 0 then none else some (0, s)
  | sub + 1, s =>
    if s < 0 then
      match r[sub]? with
      | none => none
      | some k => repRetreat r sub (s + k)
    else some (sub + 1, s)

/-- `get_next_positions(dim, steps_to_go)` — views/xrepeat.hpp:641-665.  The loop that subtracts the extent is a division;
an extent of 0, for which it does not end, leaves the position. -/
def repNext (shape : List Nat) (pos : List Int) : Nat → Int → List Int
  | 0, n => pos.set 0 (pos.getD 0 0 + n)
  | d + 1, n =>
    let x := pos.getD (d + 1) 0 + n
    let e : Int := (shape.getD (d + 1) 0 : Nat)
    if x ≥ e ∧ e ≠ 0 then (repNext shape pos d (x / e)).set (d + 1) (x % e) else pos.set (d + 1) x

/-- `get_next_positions_back(dim, steps_to_go)` — views/xrepeat.hpp:667-691. -/
def repNextBack (shape : List Nat) (pos : List Int) : Nat → Int → List Int
  | 0, n => pos.set 0 (pos.getD 0 0 - n)
  | d + 1, n =>
    let x := pos.getD (d + 1) 0 - n
    let e : Int := (shape.getD (d + 1) 0 : Nat)
    if x < 0 ∧ e ≠ 0 then (repNextBack shape pos d (-(x / e))).set (d + 1) (x % e) else pos.set (d + 1) x

section
variable {σ : Type u} (sub : StepOps σ) (shape r : List Nat) (axis : Nat)

/-- `make_step(dim, steps_to_go)` — views/xrepeat.hpp:591-615. -/
def repMakeStep (st : RepSt σ) (dim : Nat) (n : Int) : RepSt σ :=
  if n = 0 then st
  else if dim = axis then
    match repAdvance r (r.length + 1) st.subpos (st.rsteps + n) with
    | none => { st with ok := false }
    | some (k, t) => { sub := sub.step st.sub dim ((k : Int) - st.subpos), pos := st.pos.set dim (st.pos.getD dim 0 + n),
                       subpos := k, rsteps := t, ok := st.ok }
  else { st with sub := sub.step st.sub dim n, pos := st.pos.set dim (st.pos.getD dim 0 + n) }

/-- `make_step_back(dim, steps_to_go)` — views/xrepeat.hpp:617-639. -/
def repMakeStepBack (st : RepSt σ) (dim : Nat) (n : Int) : RepSt σ :=
  if n = 0 then st
  else if dim = axis then
    match repRetreat r st.subpos (st.rsteps - n) with
    | none => { st with ok := false }
    | some (k, t) => { sub := sub.stepBack st.sub dim ((st.subpos : Int) - k), pos := st.pos.set dim (st.pos.getD dim 0 - n),
                       subpos := k, rsteps := t, ok := st.ok }
  else { st with sub := sub.stepBack st.sub dim n, pos := st.pos.set dim (st.pos.getD dim 0 - n) }

/-- `step(dim, steps_to_go)` — views/xrepeat.hpp:487-509. -/
def repStep (st : RepSt σ) (dim : Nat) (n : Int) : RepSt σ :=
  if dim ≥ shape.length then { st with ok := false }
  else if st.pos.getD dim 0 + n ≥ (shape.getD dim 0 : Nat) then
    let next := repNext shape st.pos dim n
    let st1 := if next.getD dim 0 > st.pos.getD dim 0
      then repMakeStep sub r axis st dim (next.getD dim 0 - st.pos.getD dim 0)
      else repMakeStepBack sub r axis st dim (st.pos.getD dim 0 - next.getD dim 0)
    (List.range dim).foldl (fun st d => repMakeStep sub r axis st d (next.getD d 0 - st.pos.getD d 0)) st1
  else repMakeStep sub r axis st dim n

/-- `step_back(dim, steps_to_go)` — views/xrepeat.hpp:511-533. -/
def repStepBack (st : RepSt σ) (dim : Nat) (n : Int) : RepSt σ :=
  if dim ≥ shape.length then { st with ok := false }
  else if st.pos.getD dim 0 < n then
    let next := repNextBack shape st.pos dim n
    let st1 := if next.getD dim 0 < st.pos.getD dim 0
      then repMakeStepBack sub r axis st dim (st.pos.getD dim 0 - next.getD dim 0)
      else repMakeStep sub r axis st dim (next.getD dim 0 - st.pos.getD dim 0)
    (List.range dim).foldl (fun st d => repMakeStepBack sub r axis st d (st.pos.getD d 0 - next.getD d 0)) st1
  else repMakeStepBack sub r axis st dim n

/-- `xrepeat_stepper` — views/xrepeat.hpp:466-691. -/
def repeatOps : StepOps (RepSt σ) where
  step := repStep sub shape r axis
  stepBack := repStepBack sub shape r axis
  reset st dim :=
    if dim ≥ shape.length then { st with ok := false }
    else
      let st := { st with sub := sub.reset st.sub dim, pos := st.pos.set dim 0 }
      if dim = axis then { st with subpos := 0, rsteps := 0 } else st
  resetBack st dim :=
    if dim ≥ shape.length then { st with ok := false }
    else
      let st := { st with sub := sub.resetBack st.sub dim, pos := st.pos.set dim ((shape.getD dim 0 : Nat) - 1) }
      if dim = axis then { st with subpos := r.length - 1, rsteps := (r.getLastD 0 : Nat) - 1 } else st
  toBegin st := { st with sub := sub.toBegin st.sub, pos := st.pos.map fun _ => 0, subpos := 0, rsteps := 0 }
  toEnd st l :=
    let pos := shape.map fun (n : Nat) => (n : Int) - 1
    let d := if l = .row_major then 0 else shape.length - 1
    { st with sub := sub.toEnd st.sub l, pos := pos.set d (shape.getD d 0 : Nat), subpos := r.length, rsteps := 0 }

/-- Constructor — views/xrepeat.hpp:466-477. -/
def repeatBegin (p : σ) : RepSt σ := ⟨p, List.replicate shape.length 0, 0, 0, true⟩

/-- `access_impl` and `element`: one step per index, from the first axis on — views/xrepeat.hpp:346-361, 448-460. -/
def repeatSteps (p : σ) (args : List Nat) : RepSt σ :=
  (args.zipIdx).foldl (fun st (x : Nat × Nat) => (repeatOps sub shape r axis).step st x.2 x.1) (repeatBegin shape p)

/-- `operator()(args...)` — views/xrepeat.hpp:300-306, 406-420: leading arguments beyond the dimension are dropped. -/
def repeatAccess (p : σ) (args : List Nat) : RepSt σ :=
  repeatSteps sub shape r axis p (args.drop (args.length - shape.length))

end

/-- Shape of `repeat(e, repeats, axis)` — views/xrepeat.hpp:243-255; misc/xmanipulation.hpp:1083-1091 rejects a list of
another length than the axis. An axis beyond the dimension reads outside the shape. -/
def repeatShape (sh r : List Nat) (axis : Nat) : Res (List Nat) :=
  if axis ≥ sh.length then .ub
  else if r.length ≠ sh.getD axis 0 then .throws
  else .ok (sh.set axis (r.foldl (· + ·) 0))

/-- `repeat(e, repeats, axis)` with one number — misc/xmanipulation.hpp:1104-1111. -/
def repeatSame (sh : List Nat) (k axis : Nat) : List Nat := List.replicate (sh.getD axis 0) k

end Xt
