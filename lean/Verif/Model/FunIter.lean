import Verif.Model.Assign
/-!
# Linear iterators of functions

`core/xfunction.hpp`: `xfunction_iterator`, a tuple of the linear iterators of the operands;
`containers/xscalar.hpp`: `xdummy_iterator`; `views/xbroadcast.hpp`: the iterators of the operand;
`core/xiterator.hpp`: `begin()` for expressions without linear iterators.  Expressions are those of
`Model/Expr`; operands `arr` are containers and contiguous views, whose linear iterators are pointers.
-/

namespace Xt

mutual
/-- Linear iterator: a pointer (containers/xcontainer.hpp:769-800); an `xiterator` of a generator, by
its position (core/xiterator.hpp:421-470; `XIter`); `xdummy_iterator` (containers/xscalar.hpp:394-453); the tuple of
an `xfunction_iterator` (core/xfunction.hpp:406-461). -/
inductive LIt
  | ptr (p : Int)
  | pos (k : Int)
  | dummy
  | tup (its : LIts)
/-- The tuple. -/
inductive LIts
  | nil
  | cons (it : LIt) (its : LIts)
end

/-- `is_not_xdummy_iterator` — containers/xscalar.hpp:455-463: by the type. -/
def LIt.isDummy : LIt → Bool
  | .dummy => true
  | _ => false

mutual
/-- `operator++` — core/xfunction.hpp:950-958, containers/xscalar.hpp:1038-1042. -/
def LIt.next : LIt → LIt
  | .ptr p => .ptr (p + 1)
  | .pos k => .pos (k + 1)
  | .dummy => .dummy
  | .tup its => .tup its.nexts
/-- `for_each(f, m_it)`. -/
def LIts.nexts : LIts → LIts
  | .nil => .nil
  | .cons it its => .cons it.next its.nexts
end

mutual
/-- `operator--` — core/xfunction.hpp:960-969, containers/xscalar.hpp:1044-1048. -/
def LIt.prev : LIt → LIt
  | .ptr p => .ptr (p - 1)
  | .pos k => .pos (k - 1)
  | .dummy => .dummy
  | .tup its => .tup its.prevs
/-- `for_each(f, m_it)`. -/
def LIts.prevs : LIts → LIts
  | .nil => .nil
  | .cons it its => .cons it.prev its.prevs
end

mutual
/-- `operator+=(n)` — core/xfunction.hpp:971-980, containers/xscalar.hpp:1050-1054. -/
def LIt.add (n : Int) : LIt → LIt
  | .ptr p => .ptr (p + n)
  | .pos k => .pos (k + n)
  | .dummy => .dummy
  | .tup its => .tup (its.adds n)
/-- `for_each(f, m_it)`. -/
def LIts.adds (n : Int) : LIts → LIts
  | .nil => .nil
  | .cons it its => .cons (it.add n) (its.adds n)
end

mutual
/-- `operator-=(n)` — core/xfunction.hpp:982-991, containers/xscalar.hpp:1056-1060. -/
def LIt.sub (n : Int) : LIt → LIt
  | .ptr p => .ptr (p - n)
  | .pos k => .pos (k - n)
  | .dummy => .dummy
  | .tup its => .tup (its.subs n)
/-- `for_each(f, m_it)`. -/
def LIts.subs (n : Int) : LIts → LIts
  | .nil => .nil
  | .cons it its => .cons (it.sub n) (its.subs n)
end

mutual
/-- `operator-(rhs)` — core/xfunction.hpp:993-997, containers/xscalar.hpp:1062-1066.  Iterators of
different types are never compared. -/
def LIt.diff : LIt → LIt → Int
  | .ptr p, .ptr q => p - q
  | .pos j, .pos k => j - k
  | .tup its, .tup jts => its.maxDiff jts 0
  | _, _ => 0
/-- `tuple_max_diff`: `accumulate(max, 0, diffs)` — core/xfunction.hpp:1032-1047. -/
def LIts.maxDiff : LIts → LIts → Int → Int
  | .cons it its, .cons jt jts, n => its.maxDiff jts (max n (it.diff jt))
  | _, _, n => n
end

/-- `find_if<is_not_xdummy_iterator, data_type>`: whether there is one — core/xfunction.hpp:1009-1010. -/
def LIts.anyLive : LIts → Bool
  | .nil => false
  | .cons it its => !it.isDummy || its.anyLive

mutual
/-- `equal(rhs)` — core/xfunction.hpp:1005-1013, containers/xscalar.hpp:1074-1078: dummies of one
scalar are equal. -/
def LIt.equal : LIt → LIt → Bool
  | .ptr p, .ptr q => p == q
  | .pos j, .pos k => j == k
  | .tup its, .tup jts => its.equalAt jts its.anyLive
  | _, _ => true
/-- The comparison of the first operand that is no dummy (`live`), or of the first one. -/
def LIts.equalAt : LIts → LIts → Bool → Bool
  | .cons it its, .cons jt jts, live =>
    if live && it.isDummy then its.equalAt jts live else it.equal jt
  | _, _, _ => true
end

mutual
/-- `less_than(rhs)` — core/xfunction.hpp:1015-1023, containers/xscalar.hpp:1080-1084. -/
def LIt.less : LIt → LIt → Bool
  | .ptr p, .ptr q => decide (p < q)
  | .pos j, .pos k => decide (j < k)
  | .tup its, .tup jts => its.lessAt jts its.anyLive
  | _, _ => false
/-- The comparison of the first operand that is no dummy (`live`), or of the first one. -/
def LIts.lessAt : LIts → LIts → Bool → Bool
  | .cons it its, .cons jt jts, live =>
    if live && it.isDummy then its.lessAt jts live else it.less jt
  | _, _, _ => false
end

variable {α : Type}

mutual
/-- `linear_begin(e)` — containers/xcontainer.hpp:769-773, containers/xscalar.hpp:470-485,
core/xiterator.hpp:446-457 (`cbegin()` of a generator), core/xfunction.hpp:765-773,
views/xbroadcast.hpp:97-113. -/
def Ex.linBegin : Ex α → LIt
  | .arr c _ => .ptr c.off
  | .scalar _ => .dummy
  | .gen _ _ => .pos 0
  | .fn _ args => .tup args.linBegins
  | .bcast e _ => e.linBegin
/-- Operands of a function. -/
def Args.linBegins : Args α → LIts
  | .nil => .nil
  | .cons e es => .cons e.linBegin es.linBegins
end

mutual
/-- `linear_end(e)` — containers/xcontainer.hpp:775-779, containers/xscalar.hpp:476-491,
core/xiterator.hpp:459-470, core/xfunction.hpp:775-783, views/xbroadcast.hpp:103-119. -/
def Ex.linEnd : Ex α → LIt
  | .arr c _ => .ptr (c.off + c.size)
  | .scalar _ => .dummy
  | .gen s _ => .pos (s.foldl (· * ·) 1 : Nat)
  | .fn _ args => .tup args.linEnds
  | .bcast e _ => e.linEnd
/-- Operands of a function. -/
def Args.linEnds : Args α → LIts
  | .nil => .nil
  | .cons e es => .cons e.linEnd es.linEnds
end

/-- Index at position `k` of the row-major traversal, the default; after `k` increments of the
iterator (`XIter`, C09). -/
def linIndexAt : List Nat → Nat → List Nat
  | [], _ => []
  | n :: sh, k =>
    let r := sh.foldl (· * ·) 1
    (k / r % n) :: linIndexAt sh (k % r)

mutual
/-- `operator*` — core/xfunction.hpp:999-1003, 1025-1030; containers/xscalar.hpp:1068-1072. -/
def Ex.linDeref : Ex α → LIt → α
  | .arr _ mem, .ptr p => mem p
  | .arr c mem, _ => mem c.off
  | .scalar v, _ => v
  | .gen s g, .pos k => g (boundedIndex s ((linIndexAt s k.toNat).map Int.ofNat))
  | .gen _ g, _ => g []
  | .fn f args, .tup its => f (args.linDerefs its)
  | .fn f _, _ => f []
  | .bcast e _, it => e.linDeref it
/-- Operands of a function. -/
def Args.linDerefs : Args α → LIts → List α
  | .cons e es, .cons it its => e.linDeref it :: es.linDerefs its
  | _, _ => []
end

/-- `for (it = first; it != last; ++it) *it`, at most `fuel` steps: `std::copy` and most algorithms;
`partition(e, kth, xnone())` copies an expression so (misc/xsort.hpp:572). -/
def Ex.linWalk (e : Ex α) (last : LIt) : Nat → LIt → List α
  | 0, _ => []
  | fuel + 1, it => if it.equal last then [] else e.linDeref it :: e.linWalk last fuel it.next

/-- The same with `std::reverse_iterator`s made of `linear_end()` and `linear_begin()` —
core/xfunction.hpp:797-808. -/
def Ex.linWalkBack (e : Ex α) (first : LIt) : Nat → LIt → List α
  | 0, _ => []
  | fuel + 1, it =>
    if it.equal first then [] else e.linDeref it.prev :: e.linWalkBack first fuel it.prev

/-- Addresses stored to and iterators read by `linear_assigner<false>`, sequential loop —
core/xassign.hpp:834-840. -/
def linearLoop (d : Int) (it : LIt) : Nat → List (Int × LIt)
  | 0 => []
  | n + 1 => (d, it) :: linearLoop (d + 1) it.next n

/-- The parallel loops read `src + i` — core/xassign.hpp:808-815. -/
def linearLoopPar (d : Int) (it : LIt) (n : Nat) : List (Int × LIt) :=
  (List.range n).map fun (i : Nat) => (d + i, it.add i)

/-- What the reverse linear iterators of an `xstrided_view` read, at most `fuel` elements: `linear_rbegin()`
is made of `linear_begin()`, `linear_rend()` of `linear_end()` — views/xstrided_view.hpp:523-557. -/
def stridedReverse (c : StridedArr) (mem : Int → α) (fuel : Nat) : List α :=
  (Ex.arr c mem).linWalkBack (Ex.arr c mem).linEnd fuel (Ex.arr c mem).linBegin

end Xt
