import Verif.Model.Basic
import Verif.Spec.Json
/-!
# Model: holders of expressions

Source: misc/xexpression_holder.hpp (under /repo/include/xtensor).

Simplified: the value of an array is the document that `to_json` writes for it, and `from_json` of a document stores it;
conversions between arrays and documents are in Model/Json.lean.
-/

namespace Xt
open Spec (Jv)

variable {α : Type}

/-- What a holder points to: `xexpression_wrapper<E>` with a value, a reference to a variable, or a reference to a
holder — misc/xexpression_holder.hpp:95-117. -/
inductive Held (α : Type) where
  | own (x : Jv α)
  | var (a : Nat)
  | holder (g : Nat)

/-- Variables and holders, in the order of their declarations; a destroyed one is `none`, an empty holder is `some none`. -/
structure Holders (α : Type) where
  vars : List (Option (Jv α))
  hs : List (Option (Option (Held α)))

/-- `p_holder` of holder `h`; `none`: there is no such holder. -/
def Holders.ptr (s : Holders α) (h : Nat) : Option (Option (Held α)) := (s.hs[h]?).join

/-- A variable. -/
def Holders.varVal (s : Holders α) (a : Nat) : Option (Jv α) := (s.vars[a]?).join

/-- A new holder. -/
def Holders.push (s : Holders α) (p : Option (Held α)) : Holders α := { s with hs := s.hs ++ [some p] }

/-- A new pointer for a holder. -/
def Holders.set (s : Holders α) (h : Nat) (p : Option (Held α)) : Holders α := { s with hs := s.hs.set h (some p) }

/-- `to_json(j, h)` — misc/xexpression_holder.hpp:159-166, 223-226: nothing is written for an empty holder.  `ub`: a variable
or a holder that was destroyed, or no end after the given number of calls. -/
def Holders.toJson (s : Holders α) : Nat → Nat → Res (Option (Jv α))
  | 0, _ => .ub
  | n + 1, h =>
    match s.ptr h with
    | none => .ub
    | some none => .ok none
    | some (some (.own x)) => .ok (some x)
    | some (some (.var a)) => match s.varVal a with
      | some x => .ok (some x)
      | none => .ub
    | some (some (.holder g)) => s.toJson n g

/-- A holder that refers to others refers to each at most once, or without end. -/
def Holders.read (s : Holders α) (h : Nat) : Res (Option (Jv α)) := s.toJson (s.hs.length + 1) h

/-- `init_pointer_from_json` — misc/xexpression_holder.hpp:182-208: the array that is stored, if any, before the exception
that is thrown in any case; `zero` is the element of a default-constructed array, which has no axes.  `ub`: `j[0]` of an
empty list. -/
def initPointer (zero : α → α) : Jv α → Res (Option (Held α))
  | .arr [] => .ub
  | .arr (j :: _) => initPointer zero j
  | .val x => .ok (some (.own (.val (zero x))))
  | .null => .ok none

/-- `from_json(j, h)` — misc/xexpression_holder.hpp:168-180, 228-231, and whether an exception is thrown. -/
def Holders.fromJson (zero : α → α) (s : Holders α) (j : Jv α) : Nat → Nat → Res (Holders α × Bool)
  | 0, _ => .ub
  | n + 1, h =>
    match j with
    | .arr l => match s.ptr h with
      | none => .ub
      | some none => (initPointer zero (.arr l)).map fun (p : Option (Held α)) => match p with
        | some q => (s.set h (some q), true)
        | none => (s, true)
      | some (some (.own _)) => .ok (s.set h (some (.own j)), false)
      | some (some (.var a)) => match s.varVal a with
        | some _ => .ok ({ s with vars := s.vars.set a (some j) }, false)
        | none => .ub
      | some (some (.holder g)) => s.fromJson zero j n g
    | _ => .ok (s, true)

/-- What a program does. -/
inductive HoldOp (α : Type) where
  /-- A variable with a value. -/
  | declVar (x : Jv α)
  /-- A variable is assigned. -/
  | setVar (a : Nat) (x : Jv α)
  /-- The end of a variable. -/
  | endVar (a : Nat)
  /-- `xexpression_holder h;` -/
  | empty
  /-- `xexpression_holder h(a);` -/
  | hold (a : Nat)
  /-- `xexpression_holder h(temporary);` -/
  | holdValue (x : Jv α)
  /-- A copy of a constant holder. -/
  | copyConst (h : Nat)
  /-- `auto g = h;`, `h` a variable that is not constant. -/
  | copyNamed (h : Nat)
  /-- `auto g = std::move(h);` -/
  | move (h : Nat)
  /-- `g = h;` -/
  | assign (g h : Nat)
  /-- `g = std::move(h);` and `g.swap(h);` -/
  | swap (g h : Nat)
  /-- `from_json(j, h);` -/
  | fromJson (h : Nat) (j : Jv α)
  /-- The end of a holder. -/
  | endHolder (h : Nat)

/-- `clone()` of what is held, through a pointer that may be null — misc/xexpression_holder.hpp:131-134, 245-249, 263-268: the copy of a
reference is a reference. -/
def cloneHeld : Option (Held α) → Res (Option (Held α))
  | none => .ub
  | some p => .ok (some p)

/-- One step, and whether an exception is thrown; `ub` also stands for a program that names what is not there. -/
def Holders.step (zero : α → α) (s : Holders α) : HoldOp α → Res (Holders α × Bool)
  | .declVar x => .ok ({ s with vars := s.vars ++ [some x] }, false)
  | .setVar a x => match s.varVal a with
    | some _ => .ok ({ s with vars := s.vars.set a (some x) }, false)
    | none => .ub
  | .endVar a => .ok ({ s with vars := s.vars.set a none }, false)
  | .empty => .ok (s.push none, false)
  /- `xexpression_holder(E&&)` — misc/xexpression_holder.hpp:120-124: `E` is a reference for a variable. -/
  | .hold a => .ok (s.push (some (.var a)), false)
  | .holdValue x => .ok (s.push (some (.own x)), false)
  /- `xexpression_holder(const xexpression_holder&)` — 131-134. -/
  | .copyConst h => match s.ptr h with
    | some p => (cloneHeld p).map fun (q : Option (Held α)) => (s.push q, false)
    | none => .ub
  /- `xexpression_holder(E&&)` with `E = xexpression_holder&` is the better match. -/
  | .copyNamed h => .ok (s.push (some (.holder h)), false)
  /- 136-139. -/
  | .move h => match s.ptr h with
    | some p => .ok ((s.push p).set h none, false)
    | none => .ub
  /- 141-146. -/
  | .assign g h => match s.ptr g, s.ptr h with
    | some _, some p => (cloneHeld p).map fun (q : Option (Held α)) => (s.set g q, false)
    | _, _ => .ub
  /- 148-157. -/
  | .swap g h => match s.ptr g, s.ptr h with
    | some p, some q => .ok ((s.set g q).set h p, false)
    | _, _ => .ub
  | .fromJson h j => s.fromJson zero j (s.hs.length + 1) h
  | .endHolder h => .ok ({ s with hs := s.hs.set h none }, false)

/-- A program that goes on after exceptions. -/
def Holders.run (zero : α → α) (s : Holders α) : List (HoldOp α) → Res (Holders α)
  | [] => .ok s
  | op :: ops => (s.step zero op).bind fun (r : Holders α × Bool) => r.1.run zero ops

/-- Nothing yet. -/
def Holders.start : Holders α := ⟨[], []⟩

end Xt
