/-!
# Model: what an expression refers to, and who owns it

Source: core/xexpression.hpp:250-301 (closures), core/xoperation.hpp, core/xmath.hpp, core/xvectorize.hpp, core/xeval.hpp,
reducers/xreducer.hpp, misc/xmanipulation.hpp, misc/xset_operation.hpp, views/xview.hpp (under /repo/include/xtensor).

The value of a whole array or scalar is one element of a type `α`, a lazy function computes on such values.  What is
modelled is which operands an expression stores and which it refers to.  A function template with parameters `E&&` is
a term over its parameters and local variables: `std::forward`, use by name, calls that build expressions, immediate
evaluation and sharing.  A call whose argument is forwarded at once is written in place, as `std::forward<E>(e)`
denotes the caller's object with the caller's value category.  Operands are held from left to right (C++ leaves the
order open); what is read through a reference is what the object held when it was referred to, which no function
here changes in between.
-/

namespace Xt

/-- How a template parameter `E&&` was deduced: from a variable, from a constant variable, from an rvalue. -/
inductive VCat where
  | lv
  | clv
  | rv
  deriving DecidableEq, Repr

/-- `std::decay_t<E>`: an expression, an `xshared_expression`, or not an expression. -/
inductive OSort where
  | plain
  | shared
  | scalar
  deriving DecidableEq, Repr

/-- A member of reference type or of value type. -/
inductive HoldAs where
  | byRef
  | byVal
  deriving DecidableEq, Repr

/-- Where a referred object lives: a variable of the caller, the i-th parameter given as an rvalue or local variable
of the function, or a temporary in the function. -/
inductive Place where
  | outer (n : Nat)
  | inner (i : Nat)
  | temp
  deriving DecidableEq, Repr

mutual
/-- An object: evaluated data (of an array or of a scalar), an object moved from, an `xshared_expression`, or an
expression holding operands. -/
inductive LObj (α : Type) where
  | data (scalar : Bool) (v : α)
  | gone (s : OSort)
  | shared (o : LObj α)
  | node (f : List α → α) (hs : Helds α)
/-- Members of an expression: owned operands and references. -/
inductive Helds (α : Type) where
  | nil
  | own (o : LObj α) (hs : Helds α)
  | at (x : Place) (o : LObj α) (hs : Helds α)
end

/-- Type of an object, which moving from it does not change. -/
def LObj.sort {α : Type} : LObj α → OSort
  | .data true _ => .scalar
  | .data false _ => .plain
  | .gone s => s
  | .shared _ => .shared
  | .node _ _ => .plain

mutual
/-- Value read from an object; `none` if it reads an object moved from. -/
def LObj.value {α : Type} : LObj α → Option α
  | .data _ v => some v
  | .gone _ => none
  | .shared o => o.value
  | .node f hs => hs.values.map f
def Helds.values {α : Type} : Helds α → Option (List α)
  | .nil => some []
  | .own o hs => o.value.bind fun v => hs.values.map (v :: ·)
  | .at _ o hs => o.value.bind fun v => hs.values.map (v :: ·)
end

mutual
/-- Everything an object refers to, directly or through what it holds. -/
def LObj.refs {α : Type} : LObj α → List Place
  | .data _ _ => []
  | .gone _ => []
  | .shared o => o.refs
  | .node _ hs => hs.refs
def Helds.refs {α : Type} : Helds α → List Place
  | .nil => []
  | .own o hs => o.refs ++ hs.refs
  | .at x o hs => x :: (o.refs ++ hs.refs)
end

/-- `xtl::closure_type_t<E>`, `xtl::const_closure_type_t<E>` — docs/source/closure-semantics.rst:38-70 (part of xtl). -/
def closureType (c : VCat) : HoldAs := if c = .rv then .byVal else .byRef

/-- Rules by which an operand is held. -/
inductive Closing where
  /-- `xclosure_t<E>` — core/xexpression.hpp:257-276: the specialization for shared expressions matches the type
  itself, not references to it. -/
  | xclosure
  /-- `const_xclosure_t<E>` — core/xexpression.hpp:278-298: the specialization for shared expressions matches
  references to non-constant ones. -/
  | constXclosure
  /-- Axes of a lazy reduction: `normalize_axis` returns a new sequence for signed axes — utils/xutils.hpp:383-407. -/
  | axesSigned
  /-- ... and its argument for unsigned ones — utils/xutils.hpp:409-425; the reducer stores
  `xtl::const_closure_type_t<decltype(normalized_axes)>` — reducers/xreducer.hpp:821, 904, 931-941. -/
  | axesUnsigned
  /-- `detail::lambda_isin` — misc/xset_operation.hpp:30-53, 97: lvalues are captured by reference, rvalues copied. -/
  | captureIsin
  /-- Capture by reference — misc/xset_operation.hpp:113. -/
  | captureRef
  /-- Capture by copy. -/
  | captureCopy
  deriving DecidableEq, Repr

/-- Member type for an argument of type `s` deduced as `c`. -/
def Closing.holds (cl : Closing) (s : OSort) (c : VCat) : HoldAs :=
  match cl with
  | .xclosure => if s = .shared ∧ c = .rv then .byVal else closureType c
  | .constXclosure => if s = .shared ∧ c = .lv then .byVal else closureType c
  | .axesSigned => .byVal
  | .axesUnsigned => closureType c
  | .captureIsin => closureType c
  | .captureRef => .byRef
  | .captureCopy => .byVal

/-- A parameter or local variable: a reference to a variable of the caller, or an object that ends with the call
(a parameter bound to an rvalue, a local variable). -/
inductive LVar (α : Type) where
  | out (n : Nat) (const : Bool) (o : LObj α)
  | inn (const : Bool) (o : LObj α)

/-- The object a variable denotes. -/
def LVar.obj {α : Type} : LVar α → LObj α
  | .out _ _ o => o
  | .inn _ o => o

/-- Category of the variable used by name. -/
def LVar.named {α : Type} : LVar α → VCat
  | .out _ const _ => if const = true then .clv else .lv
  | .inn const _ => if const = true then .clv else .lv

/-- Category of `std::forward<E>(e)`, and of `std::move(x)` for a local variable. -/
def LVar.forwarded {α : Type} : LVar α → VCat
  | .out _ const _ => if const = true then .clv else .lv
  | .inn _ _ => .rv

/-- Where the variable with index `i` lives. -/
def LVar.place {α : Type} (i : Nat) : LVar α → Place
  | .out n _ _ => .outer n
  | .inn _ _ => .inner i

/-- The variable after its object was moved from. -/
def LVar.fade {α : Type} : LVar α → LVar α
  | .out n c o => .out n c (.gone o.sort)
  | .inn c o => .inn c (.gone o.sort)

mutual
/-- Right-hand sides in the bodies of the functions. -/
inductive Tm (α : Type) where
  /-- `std::forward<E>(e)`, `std::move(x)` -/
  | fwd (i : Nat)
  /-- `e`, `x` -/
  | use (i : Nat)
  /-- A function `g(T&& t)` using its parameter by name: `t` is an lvalue in it. -/
  | low (t : Tm α)
  /-- A new scalar. -/
  | lit (v : α)
  /-- A call that builds an expression. -/
  | call (f : List α → α) (args : Tms α)
  /-- `xt::eval(t)` or an immediate reduction, giving new data; `scalar` if followed by `()`. -/
  | evl (scalar : Bool) (t : Tm α)
  /-- `make_xshared(t)` — core/xexpression.hpp:709-739: `derived_cast() &&` returns a copy (133-136). -/
  | shr (t : Tm α)
  /-- `detail::shared_forward<E>(e)` — core/xmath.hpp:2048-2060. -/
  | sfw (i : Nat)
/-- Arguments, each with the rule by which it is held. -/
inductive Tms (α : Type) where
  | nil
  | cons (cl : Closing) (t : Tm α) (ts : Tms α)
end

/-- What a term denotes: a variable with a category, a temporary, or a temporary that has a name. -/
inductive Got (α : Type) where
  | var (i : Nat) (c : VCat)
  | tmp (o : LObj α)
  | tmpLv (o : LObj α)

/-- Variable `i` (indices out of range denote nothing). -/
def lvarAt {α : Type} (env : List (LVar α)) (i : Nat) : LVar α := env.getD i (.inn false (.gone .plain))

/-- The object a result denotes. -/
def Got.obj {α : Type} (env : List (LVar α)) : Got α → LObj α
  | .var i _ => (lvarAt env i).obj
  | .tmp o => o
  | .tmpLv o => o

/-- An operand as a member, by the rule `cl`: stored (and moved from, if it is an rvalue) or referred to. -/
def holdOperand {α : Type} (cl : Closing) (g : Got α) (env : List (LVar α)) (hs : Helds α) : Helds α :=
  match g with
  | .var i c =>
    match cl.holds (lvarAt env i).obj.sort c with
    | .byRef => .at ((lvarAt env i).place i) (lvarAt env i).obj hs
    | .byVal => .own (lvarAt env i).obj hs
  | .tmp o =>
    match cl.holds o.sort .rv with
    | .byRef => .at .temp o hs
    | .byVal => .own o hs
  | .tmpLv o =>
    match cl.holds o.sort .lv with
    | .byRef => .at .temp o hs
    | .byVal => .own o hs

/-- The variables after holding an operand. -/
def fadeHeld {α : Type} (cl : Closing) (g : Got α) (env : List (LVar α)) : List (LVar α) :=
  match g with
  | .var i c =>
    if c = .rv ∧ cl.holds (lvarAt env i).obj.sort c = .byVal then env.set i (lvarAt env i).fade else env
  | _ => env

/-- Data computed now from an object. -/
def evaluated {α : Type} (scalar : Bool) (o : LObj α) : LObj α :=
  match o.value with
  | some v => .data scalar v
  | none => .gone (if scalar = true then .scalar else .plain)

mutual
/-- Evaluation of a term: what it denotes, and the variables afterwards. -/
def Tm.run {α : Type} : Tm α → List (LVar α) → Got α × List (LVar α)
  | .fwd i, env => (.var i (lvarAt env i).forwarded, env)
  | .use i, env => (.var i (lvarAt env i).named, env)
  | .low t, env =>
    match t.run env with
    | (.var i c, env') => (.var i (if c = .rv then .lv else c), env')
    | (.tmp o, env') => (.tmpLv o, env')
    | (.tmpLv o, env') => (.tmpLv o, env')
  | .lit v, env => (.tmp (.data true v), env)
  | .call f ts, env => (.tmp (.node f (ts.run env).1), (ts.run env).2)
  | .evl s t, env => (.tmp (evaluated s ((t.run env).1.obj (t.run env).2)), (t.run env).2)
  | .shr t, env => (.tmp (.shared ((t.run env).1.obj (t.run env).2)), (t.run env).2)
  | .sfw i, env =>
    match lvarAt env i with
    | .out _ c _ => (.var i (if c = true then .clv else .lv), env)
    | .inn _ o => (.tmp (.shared o), env)
/-- The members built from arguments, and the variables afterwards. -/
def Tms.run {α : Type} : Tms α → List (LVar α) → Helds α × List (LVar α)
  | .nil, env => (.nil, env)
  | .cons cl t ts, env =>
    let r := t.run env
    let rs := ts.run (fadeHeld cl r.1 r.2)
    (holdOperand cl r.1 r.2 rs.1, rs.2)
end

/-- Declarations: `auto x = t` (with `const`), `decltype(auto) x = t`. -/
inductive Decl (α : Type) where
  | auto (const : Bool) (t : Tm α)
  | deduced (t : Tm α)

/-- A declaration adds a variable. `auto` copies or moves the object; `decltype(auto)` keeps a reference to a variable
of the caller. -/
def Decl.run {α : Type} (d : Decl α) (env : List (LVar α)) : List (LVar α) :=
  match d with
  | .auto c t =>
    match t.run env with
    | (.var i .rv, env') => env'.set i (lvarAt env' i).fade ++ [.inn c (lvarAt env' i).obj]
    | (.var i _, env') => env' ++ [.inn c (lvarAt env' i).obj]
    | (.tmp o, env') => env' ++ [.inn c o]
    | (.tmpLv o, env') => env' ++ [.inn c o]
  | .deduced t =>
    match t.run env with
    | (.var i _, env') => env' ++ [lvarAt env' i]
    | (.tmp o, env') => env' ++ [.inn false o]
    | (.tmpLv o, env') => env' ++ [.inn false o]

/-- A function returning by value. -/
structure LFn (α : Type) where
  decls : List (Decl α)
  ret : Tm α

/-- The object returned for the given arguments. -/
def LFn.run {α : Type} (p : LFn α) (args : List (LVar α)) : LObj α :=
  let env := p.decls.foldl (fun (e : List (LVar α)) (d : Decl α) => d.run e) args
  (p.ret.run env).1.obj (p.ret.run env).2

/-! ### Functions of the library -/

variable {α : Type}

/-- An expression of functions and operators: `make_xfunction` — core/xoperation.hpp:186-201, and
`make_lambda_xfunction` — core/xmath.hpp:1084-1089. -/
def Tm.fn1 (f : List α → α) (t : Tm α) : Tm α := .call f (.cons .constXclosure t .nil)
def Tm.fn2 (f : List α → α) (t u : Tm α) : Tm α := .call f (.cons .constXclosure t (.cons .constXclosure u .nil))

/-- A lazy reduction, axes given as a temporary — reducers/xreducer.hpp:918-942. -/
def Tm.red (f : List α → α) (t : Tm α) : Tm α := .call f (.cons .constXclosure t .nil)

/-- A view: `xt::view`, `strided_view`, `reshape_view` — views/xview.hpp:1800-1812, views/xstrided_view.hpp:857-885. -/
def Tm.vw (f : List α → α) (t : Tm α) : Tm α := .call f (.cons .xclosure t .nil)

/-- A call of an `xvectorizer` — core/xvectorize.hpp:31-32, 77-82: operands are held by `xclosure_t`. -/
def Tm.vectorized2 (f : List α → α) (t u : Tm α) : Tm α := .call f (.cons .xclosure t (.cons .xclosure u .nil))

/-- The functions on values that the statistics are built from. -/
structure StatFns (α : Type) where
  sum : List α → α
  nansum : List α → α
  count : List α → α
  cast : List α → α
  div : List α → α
  sub : List α → α
  mul : List α → α
  square : List α → α
  sqrt : List α → α
  isnan : List α → α
  reshape : List α → α
  size : α

variable (k : StatFns α)

/-- `mean<T>(e)`, `mean<T>(e, axes)` — core/xmath.hpp:1861-1910: the sum is moved into the quotient. -/
def meanTm (t : Tm α) : Tm α := .fn2 k.div (.red k.sum t) (.lit k.size)

/-- `mean(e)` — core/xmath.hpp:1936-1940. -/
def meanFn : LFn α := ⟨[], meanTm k (.fwd 0)⟩

/-- `average(e)` — core/xmath.hpp:2041-2045: passes `e` by name. -/
def averageFn : LFn α := ⟨[], meanTm k (.low (.fwd 0))⟩

/-- `average(e, weights)` — core/xmath.hpp:2025-2039. -/
def averageWeightsFn : LFn α :=
  ⟨[.auto false (.evl true (.red k.sum (.use 1)))],
   .fn2 k.div (.red k.sum (.fn2 k.mul (.fwd 0) (.fwd 1))) (.fwd 2)⟩

/-- `average(e, weights, axes)` — core/xmath.hpp:1973-2003. -/
def averageAxesFn : LFn α :=
  ⟨[.auto false (.vw k.reshape (.fwd 1)), .auto false (.evl false (.red k.sum (.use 2)))],
   .fn2 k.div (.red k.sum (.fn2 k.mul (.fwd 0) (.fwd 2))) (.fwd 3)⟩

/-- `variance(e, ddof)` — core/xmath.hpp:2062-2073. -/
def varianceFn : LFn α :=
  ⟨[.auto false (.evl true (meanTm k (.use 0)))],
   meanTm k (.fn1 k.square (.fn2 k.sub (.fwd 0) (.fwd 1)))⟩

/-- `stddev(e)` — core/xmath.hpp:2081-2085. -/
def stddevFn : LFn α := { varianceFn k with ret := .fn1 k.sqrt (varianceFn k).ret }

/-- `variance(e, axes, ddof)` — core/xmath.hpp:2117-2138: `e` is shared if it was an rvalue. -/
def varianceAxesFn : LFn α :=
  ⟨[.deduced (.sfw 0), .auto false (.evl false (meanTm k (.use 1))), .auto false (.vw k.reshape (.fwd 2))],
   meanTm k (.fn1 k.square (.fn2 k.sub (.use 1) (.fwd 3)))⟩

/-- `nanmean(e)` on an argument that is an lvalue in `nanmean` (shared, or a variable) — core/xmath.hpp:2746-2774. -/
def nanmeanTm (i : Nat) : Tm α :=
  .fn2 k.div (.red k.nansum (.use i)) (.fn1 k.cast (.red k.count (.fn1 k.isnan (.use i))))

/-- `nanmean(e)` — core/xmath.hpp:2762-2774. -/
def nanmeanFn : LFn α := ⟨[.deduced (.sfw 0)], nanmeanTm k 1⟩

/-- `nanvar(e)` — core/xmath.hpp:2784-2789, with the inner and the outer `nanmean` in place: the outer one shares
the expression of the squares. -/
def nanvarFn : LFn α :=
  ⟨[.deduced (.sfw 0),
    .auto false (.fn1 k.square (.fn2 k.sub (.use 1) (nanmeanTm k 1))),
    .deduced (.sfw 2)],
   nanmeanTm k 3⟩

/-- `nanvar(e, axes)` — core/xmath.hpp:2823-2842. -/
def nanvarAxesFn : LFn α :=
  ⟨[.deduced (.sfw 0),
    .auto false (nanmeanTm k 1),
    .auto false (.vw k.reshape (.fwd 2)),
    .auto false (.fn1 k.square (.fn2 k.sub (.fn1 k.cast (.use 1)) (.fwd 3))),
    .deduced (.sfw 4)],
   nanmeanTm k 5⟩

/-- `flip(e)` of one axis — misc/xmanipulation.hpp:801-811: passes `e` by name to `flip(e, 0)`. -/
def flipAllFn (f : List α → α) : LFn α := ⟨[.auto false (.vw f (.low (.fwd 0)))], .fwd 1⟩

/-- `flip(e, axis)` — misc/xmanipulation.hpp:826-846. -/
def flipFn (f : List α → α) : LFn α := ⟨[], .vw f (.fwd 0)⟩

/-- `row(e, i)`, `col(e, i)` — views/xview.hpp:1834-1842, 1867-1875, 1908-1927: `view(e, ...)` by name. -/
def rowFn (f : List α → α) : LFn α := ⟨[], .vw f (.low (.fwd 0))⟩

/-- `isin(element, test_elements)` — misc/xset_operation.hpp:30-53, 93-100: the elements are captured by reference if
they are an lvalue and copied if they are an rvalue. -/
def isinFn (f : List α → α) : LFn α :=
  ⟨[], .call f (.cons .constXclosure (.fwd 0) (.cons .captureIsin (.fwd 1) .nil))⟩

/-- `isin(element, first, last)` — misc/xset_operation.hpp:110-118: the parameters are captured by reference. Only
temporaries are accepted as iterators — utils/xutils.hpp:620-634. -/
def isinRangeFn (f : List α → α) : LFn α :=
  ⟨[], .call f (.cons .constXclosure (.fwd 0) (.cons .captureRef (.use 1) (.cons .captureRef (.use 2) .nil)))⟩

/-- `isin(element, {...})` — misc/xset_operation.hpp:72-79: the `std::initializer_list`, which refers to an array of the
caller's full expression, is copied. -/
def isinListFn (f : List α → α) : LFn α :=
  ⟨[], .call f (.cons .constXclosure (.fwd 0) (.cons .captureCopy (.use 1) .nil))⟩

/-- `sum(e, axes)` and the other lazy reductions — reducers/xreducer.hpp:918-942. -/
def reduceFn (signed : Bool) (f : List α → α) : LFn α :=
  ⟨[], .call f (.cons .constXclosure (.fwd 0) (.cons (if signed = true then .axesSigned else .axesUnsigned) (.fwd 1) .nil))⟩

/-- What `auto&& c = eval(t)` refers to or keeps alive — core/xeval.hpp:45-58: for a container `eval` returns its
argument as `T&&`, and the reference does not prolong the life of a temporary; otherwise it returns a new container,
which the reference keeps. -/
def evalBound (o : LObj α) (c : VCat) (place : Place) : Helds α :=
  match o with
  | .data false _ => .at (if c = .rv then .temp else place) o .nil
  | _ => .own (evaluated false o) .nil

end Xt
