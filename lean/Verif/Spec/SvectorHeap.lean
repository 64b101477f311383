import Verif.Spec.Svector
import Verif.Spec.Storage
/-!
# Specification: histories of small vectors with construction and destruction (C102)

As C51, but a name may hold nothing (no object has that name), and memory may be missing.  An element is `none` when its value is
unspecified.
-/

namespace Xt.Spec

/-- One statement about small vectors; `k` and `j` are names. -/
inductive SmallOp (β : Type)
  /-- A new vector with the given elements. -/
  | make (k : Nat) (l : List β)
  /-- A new vector that is a copy of `j`. -/
  | makeCopy (k j : Nat)
  /-- A new vector that takes the elements of `j`. -/
  | makeMove (k j : Nat)
  /-- End of life. -/
  | drop (k : Nat)
  /-- A call of a member function. -/
  | member (o : SeqOp β)
  /-- `k = std::move(j)`. -/
  | moveAssign (k j : Nat)
  /-- `swap(k, j)`, the function declared not to throw. -/
  | exchange (k j : Nat)

/-- The names a member function is called with. -/
def SeqOp.names {β : Type} : SeqOp β → List Nat
  | .push i _ => [i]
  | .pop i => [i]
  | .resize i _ => [i]
  | .reserve i _ => [i]
  | .clear i => [i]
  | .assignFill i _ _ => [i]
  | .assignList i _ => [i]
  | .copy i j => [i, j]
  | .swap i j => [i, j]
  | .insert i _ _ => [i]
  | .insertList i _ _ => [i]
  | .erase i _ => [i]
  | .eraseRange i _ _ => [i]
  | .set i _ _ => [i]

/-- What a member function does (C51) if the names it is called with hold vectors. -/
def liveStep {β : Type} (z : β) (ls : List (Option (List β))) (o : SeqOp β) : Option (List (Option (List β))) :=
  if o.names.all fun (k : Nat) => (ls[k]?.getD none).isSome then
    (seqStep z (ls.map fun (l : Option (List β)) => l.getD []) o).map fun r =>
      List.zipWith (fun (l : List β) (old : Option (List β)) => old.map fun _ => l) r ls
  else none

/-- What a statement does.  A move assignment leaves the source alone, a move construction empties it. -/
def smallStep {α : Type} (z : Option α) (ls : List (Option (List (Option α)))) :
    SmallOp (Option α) → Option (List (Option (List (Option α))))
  | .make k l => create ls k l
  | .makeCopy k j => (seqOf ls j).bind fun l => create ls k l
  | .makeMove k j => (seqOf ls j).bind fun l => (create ls k l).map fun t => t.set j (some [])
  | .drop k => (seqOf ls k).map fun _ => ls.set k none
  | .member o => liveStep z ls o
  | .moveAssign k j => liveStep z ls (.copy k j)
  | .exchange k j => liveStep z ls (.swap k j)

/-- The statements that are declared not to throw and still may ask for memory. -/
def SmallOp.noThrow {β : Type} : SmallOp β → Bool
  | .makeMove _ _ => true
  | .moveAssign _ _ => true
  | .exchange _ _ => true
  | _ => false

/-- No room for more than `N` elements is asked for. -/
def SmallOp.modest {β : Type} (N : Nat) : SmallOp β → Prop
  | .member (.reserve _ n) => n ≤ N
  | _ => True

/-- No sequence has more than `N` elements. -/
def ShortAll {β : Type} (N : Nat) (ls : List (Option (List β))) : Prop :=
  ∀ (k : Nat) l, ls[k]? = some (some l) → l.length ≤ N

/-- The program goes on after exceptions.  Whatever fails of what can fail (statements without memory), every statement reached is
allowed. -/
def smallCan {α : Type} (z : Option α) : List (Bool × SmallOp (Option α)) → List (Option (List (Option α))) → Prop
  | [], _ => True
  | (mem, o) :: r, ls => (∃ t, smallStep z ls o = some t ∧ smallCan z r t) ∧ (mem = false → smallCan z r ls)

/-- `ls'` can be the sequences at the end: every statement is done, or, without memory, not done at all. -/
def smallMay {α : Type} (z : Option α) :
    List (Bool × SmallOp (Option α)) → List (Option (List (Option α))) → List (Option (List (Option α))) → Prop
  | [], ls, ls' => ls' = ls
  | (mem, o) :: r, ls, ls' =>
    (∃ t, smallStep z ls o = some t ∧ smallMay z r t ls') ∨ (mem = false ∧ smallMay z r ls ls')

/-- Every statement is done, with the sequences `t` at the end, and no sequence ever has more than `N` elements. -/
def smallShort {α : Type} (z : Option α) (N : Nat) :
    List (Bool × SmallOp (Option α)) → List (Option (List (Option α))) → List (Option (List (Option α))) → Prop
  | [], ls, t => t = ls
  | (_, o) :: r, ls, t => ∃ u, smallStep z ls o = some u ∧ ShortAll N u ∧ o.modest N ∧ smallShort z N r u t

end Xt.Spec
