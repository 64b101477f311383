import Verif.Model.Stats
import Verif.Model.Slice
import Verif.Model.Chunked
import Mathlib.Data.Rat.Floor
/-!
# Model of the numerical functions in core/xmath.hpp: `diff`, `trapz`, `interp`, `unwrap`, `cov`, `convolve`

Numbers are rationals: rounding and overflow are not modelled.  Arrays known by shape and elements are `LazyEx`;
one-dimensional arrays read by position are lists.
-/

namespace Xt

variable {α : Type}

/-- `f(s, t)` element by element — core/xfunction.hpp:569-584, core/xoperation.hpp:286-315: the shape is the broadcast of the
    shapes. -/
def zipEx {β γ : Type} (f : α → β → γ) (s : LazyEx α) (t : LazyEx β) : Res (LazyEx γ) :=
  match (ShExpr.fn [.leaf s.shape, .leaf t.shape]).shape with
  | none => .throws
  | some r => .ok ⟨r.1, fun i => f (s.elem (operandIndex s.shape i)) (t.elem (operandIndex t.shape i))⟩

/-- `strided_view(e, slices)` with the slice `s` on axis `a` and `all()` on the others —
    views/xstrided_view.hpp:730-777, views/xslice.hpp:851-907. -/
def sliceAxis (e : LazyEx α) (a : Nat) (s : Sl) : LazyEx α :=
  ⟨e.shape.set a s.size.toNat, fun i => e.elem (i.set a (s.value (i.getD a 0)).toNat)⟩

/-- `slice1[saxis] = range(1, xnone())` and `slice2[saxis] = range(xnone(), shape[saxis] - 1)` applied to `e`: the elements
    after the first and those before the last along axis `a` — core/xmath.hpp:2695-2696, 2917-2919, 2950-2955. -/
def adjacentViews (e : LazyEx α) (a : Nat) : Res (LazyEx α × LazyEx α) :=
  if e.shape.length ≤ a then .ub
  else
    let n := e.shape.getD a 0
    (rangeGet (some 1) none none n).bind fun s1 =>
      (rangeGet none (some ((n : Int) - 1)) none n).bind fun s2 => .ok (sliceAxis e a s1, sliceAxis e a s2)

/-- One pass of `diff_impl` — core/xmath.hpp:2693-2697; `sub` is the difference, `not_equal` for `bool` — 2714-2718. -/
def diffPass (sub : α → α → α) (a : Nat) (e : LazyEx α) : Res (LazyEx α) :=
  (adjacentViews e a).bind fun v => zipEx sub v.1 v.2

/-- `diff_impl`: `n` passes — core/xmath.hpp:2684-2699. -/
def diffLoop (sub : α → α → α) (a : Nat) : Nat → LazyEx α → Res (LazyEx α)
  | 0, e => .ok e
  | n + 1, e => (diffPass sub a e).bind (diffLoop sub a n)

/-- `diff(a, n, axis)` — core/xmath.hpp:2907-2931. -/
def diffAxis (sub : α → α → α) (e : LazyEx α) (n : Nat) (axis : Int) : Res (LazyEx α) :=
  let a := normalizeAxis e.shape.length axis
  if n ≤ e.size then diffLoop sub a n e
  else if e.shape.length ≤ a then .ub
  else .ok ⟨e.shape.set a 0, e.elem⟩

/-- The elements as an operand of a reducer. -/
def LazyEx.toEx (x : LazyEx α) : Ex α := .gen x.shape fun i => x.elem (i.map Int.toNat)

/-- `eval(sum(trap, {saxis}))` — core/xmath.hpp:2958, 3002. -/
def sumAxis (trap : LazyEx ℚ) (a : Nat) : Res (LazyEx ℚ) :=
  lazyReduce sumFnsQ 0 trap.toEx trap.shape [(a : Int)] false

/-- `trapz(y, dx, axis)` — core/xmath.hpp:2944-2959. -/
def trapzStep (y : LazyEx ℚ) (dx : ℚ) (axis : Int) : Res (LazyEx ℚ) :=
  let a := normalizeAxis y.shape.length axis
  (adjacentViews y a).bind fun v =>
    (zipEx (· + ·) v.1 v.2).bind fun s => sumAxis ⟨s.shape, fun i => dx * s.elem i * (1 / 2)⟩ a

/-- The spacings used by `trapz(y, x, axis)`: for one-dimensional `x` they are given the dimension of `y`, all of them on
    axis `a` — core/xmath.hpp:2981-2993.  The only axis of more than one element being `a`, the element at `i` is the one of
    position `i[a]`. -/
def trapzSpacing (x : LazyEx ℚ) (dim a : Nat) (axis : Int) : Res (LazyEx ℚ) :=
  if x.shape.length = 1 then
    (diffAxis (· - ·) x 1 (-1)).bind fun dx =>
      if dim ≤ a then .ub
      else .ok ⟨(List.replicate dim 1).set a (dx.shape.getD 0 0), fun i => dx.elem [i.getD a 0]⟩
  else diffAxis (· - ·) x 1 axis

/-- `trapz(y, x, axis)` — core/xmath.hpp:2973-3003. -/
def trapzPoints (y x : LazyEx ℚ) (axis : Int) : Res (LazyEx ℚ) :=
  let a := normalizeAxis y.shape.length axis
  (trapzSpacing x y.shape.length a axis).bind fun dx =>
    (adjacentViews y a).bind fun v =>
      (zipEx (· + ·) v.1 v.2).bind fun s =>
        (zipEx (· * ·) dx s).bind fun p => sumAxis ⟨p.shape, fun i => p.elem i * (1 / 2)⟩ a

/-! ### Interpolation -/

/-- First loop of `interp` — core/xmath.hpp:3034-3042: `x` is what is left to visit, `i` the position reached, `f` the output;
    returns both. -/
def interpLeft (xp0 left : ℚ) : List ℚ → Nat → List ℚ → Nat × List ℚ
  | [], i, f => (i, f)
  | x :: xs, i, f => if xp0 < x then (i, f) else interpLeft xp0 left xs (i + 1) (f.set i left)

/-- Second loop of `interp`, downwards — core/xmath.hpp:3049-3056. -/
def interpRight (xpl right : ℚ) (x : List ℚ) : Nat → List ℚ → Nat × List ℚ
  | 0, f => (0, f)
  | k + 1, f => if x.getD k 0 < xpl then (k + 1, f) else interpRight xpl right x k (f.set k right)

/-- `while (x[i] > xp[ip]) ++ip` — core/xmath.hpp:3074-3077; the first argument bounds the number of steps, reading past the
    end of `xp` being undefined. -/
def interpSearch (xp : List ℚ) (xi : ℚ) : Nat → Nat → Res Nat
  | 0, _ => .ub
  | fuel + 1, ip =>
    match xp[ip]? with
    | none => .ub
    | some v => if v < xi then interpSearch xp xi fuel (ip + 1) else .ok ip

/-- Third loop of `interp` — core/xmath.hpp:3071-3084: `m` positions from `i` on. -/
def interpInner (x xp fp : List ℚ) : Nat → Nat → Nat → List ℚ → Res (List ℚ)
  | 0, _, _, f => .ok f
  | m + 1, i, ip, f =>
    (interpSearch xp (x.getD i 0) (xp.length + 1) ip).bind fun ip' =>
      (orUb fp[ip']?).bind fun hi => (orUb fp[ip' - 1]?).bind fun lo =>
        let dfp := hi - lo
        let dxp := xp.getD ip' 0 - xp.getD (ip' - 1) 0
        let dx := x.getD i 0 - xp.getD (ip' - 1) 0
        interpInner x xp fp m (i + 1) ip' (f.set i (lo + dfp / dxp * dx))

/-- `interp(x, xp, fp, left, right)` — core/xmath.hpp:3015-3087; `f` is the content of the new array.  With no data points
    `xp[0]` is read outside, unless `x` is empty too. -/
def interpWith (x xp fp : List ℚ) (left right : ℚ) (f : List ℚ) : Res (List ℚ) :=
  match xp[0]?, xp.getLast? with
  | some x0, some xl =>
    let p := interpLeft x0 left x 0 f
    let q := interpRight xl right x x.length p.2
    if q.1 = 0 then .ok q.2 else interpInner x xp fp (q.1 - p.1) p.1 1 q.2
  | _, _ => if x = [] then .ok f else .ub

/-- `interp(x, xp, fp)` — core/xmath.hpp:3183-3187. -/
def interpDefault (x xp fp f : List ℚ) : Res (List ℚ) :=
  match fp[0]?, fp.getLast? with
  | some l, some r => interpWith x xp fp l r f
  | _, _ => .ub

/-! ### Unwrapping -/

/-- `std::fmod` for a positive divisor: the quotient is rounded towards zero. -/
def ratMod (x p : ℚ) : ℚ := x - p * (if 0 ≤ x / p then (⌊x / p⌋ : ℚ) else (⌈x / p⌉ : ℚ))

/-- The correction of one difference — core/xmath.hpp:3153-3164; `amb` is `boundary_ambiguous`, true for floating point —
    core/xmath.hpp:3099-3117. -/
def unwrapCorrect (discont period : ℚ) (amb : Bool) (dd : ℚ) : ℚ :=
  let low := -(1 / 2 * period)
  let m := ratMod (ratMod (dd - low) period + period) period + low
  let m := if amb && (decide (m = low) && decide (0 < dd)) then 1 / 2 * period else m
  if |dd| < discont then 0 else m - dd

/-- `cumsum` along axis `a` — core/xmath.hpp:2282-2291, reducers/xaccumulator.hpp:145-200. -/
def cumsumEx (e : LazyEx ℚ) (a : Nat) : LazyEx ℚ :=
  ⟨e.shape, fun i => (List.range (i.getD a 0 + 1)).foldl (fun s t => s + e.elem (i.set a t)) 0⟩

/-- `unwrap(p, discontinuity, axis, period)` — core/xmath.hpp:3134-3170.  The result is the returned array followed by the
    argument after the call: `E1 up(p)` is a reference to the argument when that is an lvalue. -/
def unwrapCall (lvalue : Bool) (p : LazyEx ℚ) (discont : Option ℚ) (axis : Int) (period : ℚ) :
    Res (LazyEx ℚ × LazyEx ℚ) :=
  let a := normalizeAxis p.shape.length axis
  (diffAxis (· - ·) p 1 axis).bind fun dd =>
    (adjacentViews p a).bind fun v =>
      (zipEx (· + ·) v.1 (cumsumEx ⟨dd.shape, fun i =>
        unwrapCorrect (discont.getD (1 / 2 * period)) period true (dd.elem i)⟩ a)).bind fun s =>
        let up : LazyEx ℚ := ⟨p.shape, fun i => if i.getD a 0 = 0 then p.elem i else s.elem (i.set a (i.getD a 0 - 1))⟩
        .ok (up, if lvalue then up else p)

/-! ### Covariance -/

/-- `x - mean(x)` on a row — core/xmath.hpp:3207, 3216-3218. -/
def centred (x : List ℚ) : List ℚ := x.map fun v => v - x.foldl (· + ·) 0 / x.length

/-- `std::inner_product(x.begin(), x.end(), y.begin(), 0.0)`. -/
def innerProductQ (x y : List ℚ) : ℚ := (List.zipWith (· * ·) x y).foldl (· + ·) 0

/-- `covar(r, c)` when the loops end: written for `c ≤ r`, else the zero it was filled with — core/xmath.hpp:3215-3229. -/
def covarLower (x : List (List ℚ)) (n r c : Nat) : ℚ :=
  if c ≤ r then innerProductQ (centred (x.getD c [])) (centred (x.getD r [])) / ((n - 1 : Nat) : ℚ) else 0

/-- `cov(x)` for a two-dimensional `x` of rows of length `n > 0` — core/xmath.hpp:3213-3230: the element at `(r, c)`. -/
def covMatrix (x : List (List ℚ)) (n r c : Nat) : ℚ :=
  covarLower x n r c + covarLower x n c r - (if r = c then covarLower x n r r else 0)

/-- `cov(x)` for a one-dimensional `x` — core/xmath.hpp:3204-3211: the only element of the result. -/
def covVector (x : List ℚ) : ℚ := innerProductQ (centred x) (centred x) / ((x.length - 1 : Nat) : ℚ)

/-- `cov(x, y)` — core/xmath.hpp:3232-3235: `stack` makes a matrix of two rows of the vectors. -/
def covPair (x y : List ℚ) (r c : Nat) : ℚ := covMatrix [x, y] x.length r c

/-! ### Convolution -/

/-- `convolve_impl(e1, e2, valid)` — core/xmath.hpp:3256-3272: `e1` is not shorter than `e2`; reading past the end is
    undefined. -/
def convolveValid (e1 e2 : List ℚ) : Res (List ℚ) :=
  ((List.range (e1.length - e2.length + 1)).map fun i =>
    (List.range e2.length).foldl (fun (s : Res ℚ) j =>
      s.bind fun s => (orUb e1[j]?).bind fun x => (orUb e2[j + i]?).bind fun y => .ok (s + x * y)) (.ok 0)).foldr
    (fun r rs => r.bind fun v => rs.bind fun vs => .ok (v :: vs)) (.ok [])

/-- `convolve_impl(e1, e2, full)` — core/xmath.hpp:3274-3295. -/
def convolveFull (e1 e2 : List ℚ) : Res (List ℚ) :=
  let na := e1.length
  let nv := e2.length
  ((List.range (na + nv - 1)).map fun i =>
    let jmn := if nv - 1 ≤ i then i - (nv - 1) else 0
    let jmx := if i < na - 1 then i else na - 1
    (List.range' jmn (jmx + 1 - jmn)).foldl (fun (s : Res ℚ) j =>
      s.bind fun s => (orUb e1[j]?).bind fun x => (orUb e2[i - j]?).bind fun y => .ok (s + x * y)) (.ok 0)).foldr
    (fun r rs => r.bind fun v => rs.bind fun vs => .ok (v :: vs)) (.ok [])

/-- `convolve(a, v, mode)` — core/xmath.hpp:3308-3327: the longer one comes first. -/
def convolve (impl : List ℚ → List ℚ → Res (List ℚ)) (dimA dimV : Nat) (a v : List ℚ) : Res (List ℚ) :=
  if dimA ≠ 1 ∨ dimV ≠ 1 then .throws else if a.length < v.length then impl v a else impl a v

end Xt
