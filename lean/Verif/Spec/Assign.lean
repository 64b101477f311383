import Verif.Model.Assign
import Verif.Props.ExprIter
/-!
# Specification of assignment
-/

namespace Xt.Spec

variable {β : Type}

/-- Address of an element. -/
def addr (c : StridedArr) (idx : List Nat) : Int := c.off + dot c.strides (toInts idx)

/-- Different elements have different addresses. -/
def Distinct (c : StridedArr) : Prop :=
  ∀ i j, InBounds c.shape i → InBounds c.shape j → addr c i = addr c j → i = j

/-- The elements are stored in the order of the traversal, without gaps. -/
def Contig (L : Layout) (c : StridedArr) : Prop :=
  ∀ idx, InBounds c.shape idx → dot c.strides (toInts idx) = (rankIn L c.shape idx : Int)

/-- The value of `e` at an index does not depend on the elements of `d` at other indices. -/
def NoInterference (d : StridedArr) (e : MEx β) : Prop :=
  ∀ idx, InBounds d.shape idx → ∀ m m' : Mem β,
    (∀ p, (∀ j, InBounds d.shape j → j ≠ idx → p ≠ addr d j) → m p = m' p) →
    valueAt e idx m = valueAt e idx m'

/-- `m'` is `m` with every element of `d` replaced by the value of `e` in `m`. -/
def Assigned (d : StridedArr) (e : MEx β) (m m' : Mem β) : Prop :=
  (∀ idx, InBounds d.shape idx → m' (addr d idx) = valueAt e idx m) ∧
  ∀ p, (∀ idx, InBounds d.shape idx → p ≠ addr d idx) → m' p = m p

mutual
/-- Operands read one memory cell, functions combine the values of their operands, scalars and
generators do not read memory. -/
def Pointwise : MEx β → Prop
  | .arr _ mem => mem = fun p m => m p
  | .scalar v => ∃ x, v = fun _ => x
  | .gen _ g => ∃ g' : List Int → β, g = fun i _ => g' i
  | .fn f args => (∃ g : List β → β, f = fun vs m => g (vs.map (· m))) ∧ PointwiseAll args
  | .bcast e _ => Pointwise e
/-- The same for operands. -/
def PointwiseAll : Args (Mem β → β) → Prop
  | .nil => True
  | .cons e es => Pointwise e ∧ PointwiseAll es
end

/-- The two arrays share no element. -/
def Apart (c d : StridedArr) : Prop :=
  ∀ i j, InBounds c.shape i → InBounds d.shape j → addr c i ≠ addr d j

/-- The two arrays are the same elements with the same indices. -/
def SameAs (c d : StridedArr) : Prop := c.shape = d.shape ∧ c.strides = d.strides ∧ c.off = d.off

mutual
/-- No operand is a broadcast expression. -/
def NoBcast {α : Type} : Ex α → Prop
  | .arr _ _ => True
  | .scalar _ => True
  | .gen _ _ => True
  | .fn _ args => NoBcastAll args
  | .bcast _ _ => False
/-- The same for operands. -/
def NoBcastAll {α : Type} : Args α → Prop
  | .nil => True
  | .cons e es => NoBcast e ∧ NoBcastAll es
end

mutual
/-- Operands are well formed on their own. -/
def OperandsOK {α : Type} : Ex α → Prop
  | .arr c _ => c.WF
  | .scalar _ => True
  | .gen s _ => s ≠ []
  | .fn _ args => OperandsOKAll args
  | .bcast e s => Fits s e
/-- The same for operands. -/
def OperandsOKAll {α : Type} : Args α → Prop
  | .nil => True
  | .cons e es => OperandsOK e ∧ OperandsOKAll es
end

/-- What the flags used by the dispatcher stand for. -/
structure TraitsOK {α : Type} (t : Traits) (d : StridedArr) (e : Ex α) : Prop where
  /-- a destination type with static layout is stored contiguously -/
  contig1 : t.contig1 = true → ∃ L, (L = .row_major ∨ L = .column_major) ∧ Contig L d
  /-- so is one whose `is_contiguous()` holds -/
  isContig1 : t.isContig1 = true → ∃ L, (L = .row_major ∨ L = .column_major) ∧ Contig L d
  /-- when the static layouts agree, all operands are stored in the same order; such expressions
  consist of containers, contiguous views, scalars and functions of them -/
  static : t.contig1 = true → t.contig2 = true → t.linStatic = true →
    ∃ L, (L = .row_major ∨ L = .column_major) ∧ Contig L d ∧ NoGen e ∧ NoBcast e ∧
      ∀ c ∈ e.arrs, Contig L c
  /-- the strided loop is only selected for expressions whose steppers have `step_leading` -/
  strided : t.simdStrided = true → NoGen e
  /-- a pack holds a power of two elements -/
  width : ∃ k, k ≤ 64 ∧ t.width = 2 ^ k

/-- Index of the last element. -/
def lastIdx (sh : List Nat) : List Nat := sh.map (· - 1)

/-- Every element lies between the first and the last one, as is the case when no two strides have
opposite signs. -/
def Hull (c : StridedArr) : Prop :=
  ∀ idx, InBounds c.shape idx →
    min c.off (addr c (lastIdx c.shape)) ≤ addr c idx ∧
    addr c idx ≤ max c.off (addr c (lastIdx c.shape))

/-- The values of the expression at indices of the shape do not depend on the elements of `d`. -/
def DoesNotReadIn (sh : List Nat) (e : MEx β) (d : StridedArr) : Prop :=
  ∀ idx, InBounds sh idx → ∀ m m' : Mem β, (∀ p, (∀ j, InBounds d.shape j → p ≠ addr d j) → m p = m' p) →
    valueAt e idx m = valueAt e idx m'

mutual
/-- No extent anywhere in the expression is the largest value of `std::size_t`. -/
def ExtentsBelow {α : Type} : Ex α → Prop
  | .arr c _ => szMax ∉ c.shape
  | .scalar _ => True
  | .gen s _ => szMax ∉ s
  | .fn _ args => ExtentsBelowAll args
  | .bcast e s => szMax ∉ s ∧ ExtentsBelow e
/-- The same for operands. -/
def ExtentsBelowAll {α : Type} : Args α → Prop
  | .nil => True
  | .cons e es => ExtentsBelow e ∧ ExtentsBelowAll es
end

/-- Events of a run: the value of element `i` is computed into a register; the register is stored.
Nothing is assumed about the order except what `Schedule` says. -/
inductive Ev
  | load (i : Nat)
  | store (i : Nat)
deriving DecidableEq, Repr

/-- Execution of events for the given stores (address and value). -/
def exec (ws : List (Write β)) (s : Mem β × (Nat → Option β)) : Ev → Mem β × (Nat → Option β)
  | .load i => (s.1, fun k => if k = i then (ws[i]?).map fun w => w.2 s.1 else s.2 k)
  | .store i =>
    match ws[i]?, s.2 i with
    | some w, some v => (s.1.set w.1 v, s.2)
    | _, _ => s

/-- A schedule of `n` elements: every element is loaded once and stored once, in this order. -/
def Schedule (n : Nat) (evs : List Ev) : Prop :=
  evs.Nodup ∧ (∀ i, Ev.load i ∈ evs ↔ i < n) ∧ (∀ i, Ev.store i ∈ evs ↔ i < n) ∧
  ∀ pre i post, evs = pre ++ Ev.store i :: post → Ev.load i ∈ pre

end Xt.Spec
