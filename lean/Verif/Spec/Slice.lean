import Mathlib.Data.List.Basic
/-!
# Specification: positions selected on one axis by Python slices, and kept/dropped index lists
-/

namespace Xt.Spec

/-- Python's adjustment of one bound of `slice(start, stop, step)` on a sequence of length `n`:
a negative bound counts from the end; then it is clipped to `[0, n]` for a positive step and to
`[-1, n-1]` for a negative one. -/
def pyClip (n : Nat) (step : Int) (b : Int) : Int :=
  let b' := if b < 0 then b + n else b
  if 0 < step then max 0 (min n b') else max (-1) (min (n - 1) b')

/-- Adjusted start; an omitted start is the first element in the direction of travel. -/
def pyStart (n : Nat) (step : Int) : Option Int → Int
  | some b => pyClip n step b
  | none => if 0 < step then 0 else (n : Int) - 1

/-- Adjusted stop; an omitted stop is one past the last element in the direction of travel. -/
def pyStop (n : Nat) (step : Int) : Option Int → Int
  | some b => pyClip n step b
  | none => if 0 < step then n else -1

/-- Positions selected by `slice(start, stop, step)` on a sequence of length `n`: starting at the
adjusted start and advancing by `step`, all positions strictly before the adjusted stop in the
direction of travel (at most `n` of them). -/
def pySlice (n : Nat) (start stop : Option Int) (step : Int) : List Int :=
  ((List.range n).map fun (m : Nat) => pyStart n step start + m * step).filter fun x =>
    if 0 < step then decide (x < pyStop n step stop) else decide (pyStop n step stop < x)

/-- Python reading of one possibly negative index on an axis of length `n`. -/
def pyIndex (n : Nat) (i : Int) : Int := if i < 0 then i + n else i

end Xt.Spec
