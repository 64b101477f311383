import Verif.Model.Numeric
import Mathlib.Analysis.SpecialFunctions.Pow.NNReal
/-!
# Model of `norm_l0`, `norm_l1`, `norm_sq`, `norm_l2`, `norm_linf`, `norm_lp`, `norm_lp_to_p` and the induced norms

reducers/xnorm.hpp.  Floating-point numbers are real numbers (rounding, infinities and NaN are not modelled); integers have
the widths of the usual 64-bit platforms, and arithmetic on elements is that of their type.  The 64-bit sums of integers
(`xtl::big_promote_type_t`) are exact: their overflow is not modelled.  An accumulator is `none` once an element norm has been
undefined.
-/

namespace Xt

variable {α β γ : Type}

/-- How a call ends.  `terminates`: an exception left a `noexcept` function and the program was ended. -/
inductive Ending (α : Type)
  | returns (a : α)
  | throws
  | terminates
  | undefined
  deriving DecidableEq

/-- Continues after a call that returned. -/
def Ending.bind (x : Ending α) (f : α → Ending β) : Ending β :=
  match x with
  | .returns a => f a
  | .throws => .throws
  | .terminates => .terminates
  | .undefined => .undefined

/-- Applies a function to the value of a call that returned. -/
def Ending.map (f : α → β) (x : Ending α) : Ending β := x.bind fun a => .returns (f a)

/-- The end of a call made inside a function declared `noexcept`. -/
def insideNoexcept : Res α → Ending α
  | .ok a => .returns a
  | .throws => .terminates
  | .ub => .undefined

/-! ### Elements -/

/-- An integer type: number of bits and whether it is signed. -/
structure IntKind where
  bits : Nat
  signed : Bool
  deriving DecidableEq

/-- The value belongs to the type. -/
def IntKind.holds (t : IntKind) (v : Int) : Prop :=
  if t.signed then -(2 ^ (t.bits - 1)) ≤ v ∧ v < 2 ^ (t.bits - 1) else 0 ≤ v ∧ v < 2 ^ t.bits

instance (t : IntKind) (v : Int) : Decidable (t.holds v) := by unfold IntKind.holds; infer_instance

/-- Type in which `t * t` is computed: types narrower than `int` become `int`. -/
def IntKind.promoted (t : IntKind) : IntKind := if t.bits < 32 then ⟨32, true⟩ else t

/-- Result of an operation in a type: signed overflow is undefined, unsigned arithmetic wraps. -/
def IntKind.arith (t : IntKind) (v : Int) : Option Int :=
  if t.signed then (if t.holds v then some v else none) else some (v % 2 ^ t.bits)

/-- `norm_l0(t)` of an integer — reducers/xnorm.hpp:219-222, 261-264. -/
def intL0 (v : Int) : Option Int := some (if v ≠ 0 then 1 else 0)

/-- `norm_l1(t)`, `norm_l2(t)`, `norm_linf(t)` of an integer — reducers/xnorm.hpp:223-234, 265-276: `std::abs` in the promoted
    type, or the number itself. -/
def intAbs (t : IntKind) (v : Int) : Option Int := if t.signed then t.promoted.arith |v| else some v

/-- `norm_sq(t)` of an integer — reducers/xnorm.hpp:235-238, 277-280. -/
def intSq (t : IntKind) (v : Int) : Option Int := t.promoted.arith (v * v)

/-- `norm_l0(t)` of a floating-point number — reducers/xnorm.hpp:219-222. -/
noncomputable def realL0 (v : ℝ) : Option Int := some (if v ≠ 0 then 1 else 0)

/-- `norm_l1(t)` of a floating-point number — reducers/xnorm.hpp:223-226. -/
noncomputable def realAbs (v : ℝ) : Option ℝ := some |v|

/-- `norm_linf(t)` of a floating-point number — reducers/xnorm.hpp:231-234. -/
noncomputable def realLinf (v : ℝ) : Option NNReal := some (Real.nnabs v)

/-- `norm_sq(t)` of a floating-point number — reducers/xnorm.hpp:235-238. -/
noncomputable def realSq (v : ℝ) : Option ℝ := some (v * v)

/-- `norm_lp_to_p(t, p)` of a floating-point number — reducers/xnorm.hpp:213-218; `p` is not negative (`std::pow(0, p)` is
    infinite for negative ones). -/
noncomputable def realLpToP (p : ℝ) (v : ℝ) : Option ℝ :=
  some (if p = 0 then (if v ≠ 0 then 1 else 0) else |v| ^ p)

/-- `norm_l0(t)` of a complex number — reducers/xnorm.hpp:299-302. -/
noncomputable def complexL0 (z : ℝ × ℝ) : Option Int := some (if z.1 ≠ 0 ∨ z.2 ≠ 0 then 1 else 0)

/-- `norm_l1(t)` of a complex number — reducers/xnorm.hpp:308-311. -/
noncomputable def complexL1 (z : ℝ × ℝ) : Option ℝ := some (|z.1| + |z.2|)

/-- `norm_sq(t)` of a complex number — reducers/xnorm.hpp:329-333. -/
noncomputable def complexSq (z : ℝ × ℝ) : Option ℝ := some (z.1 * z.1 + z.2 * z.2)

/-- `norm_linf(t)` of a complex number — reducers/xnorm.hpp:339-342. -/
noncomputable def complexLinf (z : ℝ × ℝ) : Option NNReal := some (max (Real.nnabs z.1) (Real.nnabs z.2))

/-- `norm_lp_to_p(t, p)` of a complex number — reducers/xnorm.hpp:348-354. -/
noncomputable def complexLpToP (p : ℝ) (z : ℝ × ℝ) : Option ℝ :=
  some (if p = 0 then (if z.1 ≠ 0 ∨ z.2 ≠ 0 then 1 else 0) else |z.1| ^ p + |z.2| ^ p)

/-! ### Arrays -/

/-- An operation on two accumulators. -/
def normBoth (op : β → β → β) : Option β → Option β → Option β
  | some a, some b => some (op a b)
  | _, _ => none

/-- Functors of `norm_l0`, `norm_l1`, `norm_sq` and `norm_lp_to_p`: `r + NAME(v)`, 0, `std::plus` —
    reducers/xnorm.hpp:397-426, 556-572. -/
def normSumFns [Add β] [Zero β] (f : α → Option β) : RedFns α (Option β) :=
  ⟨fun r v => normBoth (· + ·) r (f v), some 0, normBoth (· + ·)⟩

/-- Functors of `norm_linf`: `std::max(r, norm_linf(v))`, 0, `math::maximum` — reducers/xnorm.hpp:397-415, 427-433.  The
    accumulator is never negative. -/
def normMaxFns [Max β] [Zero β] (f : α → Option β) : RedFns α (Option β) :=
  ⟨fun r v => normBoth max r (f v), some 0, normBoth max⟩

/-- `NAME(e, axes, es)` with a sequence of signed or unsigned axes, evaluated lazily — reducers/xnorm.hpp:397-415, 556-572: a
    `noexcept` function. -/
def normAxes (F : RedFns α β) (e : Ex α) (sh : List Nat) (axes : List Int) (keep : Bool) : Ending (LazyEx β) :=
  insideNoexcept (lazyReduce F F.init e sh axes keep)

/-- `NAME(e, es)` — reducers/xnorm.hpp:417-421, 574-578. -/
def normAll (F : RedFns α β) (e : Ex α) (sh : List Nat) (keep : Bool) : Ending (LazyEx β) :=
  normAxes F e sh (allAxes sh) keep

/-- Braced axes are converted to `size_type` — reducers/xnorm.hpp:369-375. -/
def unsignedAxes (axes : List Int) : List Int := axes.map fun a => a % 2 ^ 64

/-- `NAME(e, {a, b, …}, es)` — reducers/xnorm.hpp:369-375, 580-585. -/
def normBraced (F : RedFns α β) (e : Ex α) (sh : List Nat) (axes : List Int) (keep : Bool) : Ending (LazyEx β) :=
  normAxes F e sh (unsignedAxes axes) keep

/-- `NAME(e, axes, evaluation_strategy::immediate)` — reducers/xnorm.hpp:397-415; `copy` converts an element to the result
    type. -/
def normImmediate [Inhabited β] (F : RedFns α β) (L : Layout) (e : Ex α) (sh : List Nat) (axes : List Int) (copy : α → β)
    (junk : β) : Ending (LazyEx β) :=
  insideNoexcept (immediateReduce F L e sh axes copy junk)

/-- A function applied to every element of a result: `sqrt(…)`, `pow(…, 1.0 / p)`. -/
def mapElems (g : β → γ) (x : LazyEx (Option β)) : LazyEx (Option γ) := ⟨x.shape, fun i => (x.elem i).map g⟩

/-- `norm_l2(e, axes, es)` — reducers/xnorm.hpp:511-526. -/
noncomputable def normL2 (f : α → Option ℝ) (e : Ex α) (sh : List Nat) (axes : List Int) (keep : Bool) :
    Ending (LazyEx (Option ℝ)) :=
  (normAxes (normSumFns f) e sh axes keep).map (mapElems Real.sqrt)

/-- `norm_lp(e, p, axes, es)` — reducers/xnorm.hpp:600-605; `f` is `norm_lp_to_p` of an element. -/
noncomputable def normLp (f : ℝ → α → Option ℝ) (e : Ex α) (sh : List Nat) (p : ℝ) (axes : List Int) (keep : Bool) :
    Ending (LazyEx (Option ℝ)) :=
  open Classical in
  if p = 0 then .throws
  else (normAxes (normSumFns (f p)) e sh axes keep).map (mapElems fun x => x ^ (1 / p))

/-- `norm_induced_l1(e, es)` and `norm_induced_linf(e, es)` — reducers/xnorm.hpp:629-637, 649-657: `axis` is 0 or 1; `f` is
    `norm_l1` of an element, `g` is `norm_linf` of a sum. -/
def normInduced [Add β] [Zero β] [Max γ] [Zero γ] (f : α → Option β) (g : β → Option γ) (axis : Int) (e : Ex α)
    (sh : List Nat) (keep : Bool) : Ending (LazyEx (Option γ)) :=
  if sh.length ≠ 2 then .throws
  else
    (normBraced (normSumFns f) e sh [axis] keep).bind fun c =>
      normAll (normMaxFns fun v : Option β => v.bind g) c.toEx c.shape keep

end Xt
