import Verif.Model.AxisIter
import Verif.Model.Reducer
import Mathlib.Algebra.Field.Basic
import Mathlib.Data.Nat.Log
import Mathlib.Algebra.Order.Ring.Rat
/-!
# Model of `misc/xfft.hpp`

Arithmetic is exact, in a field with a function `e` for `x ↦ exp(2πi x)` on rationals and a conjugation.  Rounding,
including that of `std::pow` and `std::log2` on sizes, is not modelled.  `xt::empty` of complex numbers holds zeros, since
they are not trivially default constructible (containers/xstorage.hpp:170-176).
-/

namespace Xt

/-- The functions of the number type. -/
structure FftOps (K : Type) where
  e : ℚ → K
  conj : K → K

/-- `xt::view(ev, xt::range(0, _, 2))` — misc/xfft.hpp:60. -/
def everySecond {α : Type} : List α → List α
  | a :: _ :: l => a :: everySecond l
  | l => l

/-- `!(N == 0) && !(N & (N - 1))` — misc/xfft.hpp:31, 136. -/
def isPow2 (n : Nat) : Bool := !(n == 0) && (n &&& (n - 1)) == 0

section
variable {K : Type} [Field K]

/-- `detail::radix2` — misc/xfft.hpp:23-75, recursion bounded by `fuel`. -/
def radix2Fuel (o : FftOps K) : Nat → List K → Res (List K)
  | 0, _ => .ub
  | fuel + 1, x =>
    let n := x.length
    if !isPow2 n then .throws
    else if n ≤ 1 then .ok x
    else
      (radix2Fuel o fuel (everySecond x)).bind fun even =>
      (radix2Fuel o fuel (everySecond x.tail)).map fun odd =>
        let t := List.zipWith (· * ·) ((List.range (n / 2)).map fun (k : Nat) => o.e (-(k : ℚ) / (n : ℚ))) odd
        List.zipWith (· + ·) even t ++ List.zipWith (· - ·) even t

/-- `detail::radix2(e)`. -/
def radix2 (o : FftOps K) (x : List K) : Res (List K) := radix2Fuel o (x.length + 1) x

/-- `m` — misc/xfft.hpp:85-87. -/
def convLength (n : Nat) : Nat := 2 ^ Nat.clog 2 (n * 2 + 1)

/-- `exp_table` — misc/xfft.hpp:88-95. -/
def expTable (o : FftOps K) (n : Nat) : List K :=
  (List.range n).map fun k => o.e (-(((k ^ 2 % (n * 2) : Nat) : ℚ) / ((2 * n : Nat) : ℚ)))

/-- `detail::transform_bluestein` — misc/xfft.hpp:77-118.  Only called for lengths that are not powers of two; for a
    length of one, line 104 would not be what is modelled. -/
def bluestein (o : FftOps K) (x : List K) : Res (List K) :=
  let n := x.length
  let m := convLength n
  let t := expTable o n
  let av := List.zipWith (· * ·) x t ++ List.replicate (m - n) 0
  let bv := t.map o.conj ++ List.replicate (m - n - (n - 1)) 0 ++ (t.reverse.map o.conj).dropLast
  (radix2 o av).bind fun xv => (radix2 o bv).bind fun yv =>
  (radix2 o ((List.zipWith (· * ·) xv yv).map o.conj)).map fun r =>
    List.zipWith (· * ·) ((r.map fun z => o.conj z / (m : K)).take n) t

/-- The transform of one slice — misc/xfft.hpp:142-149. -/
def fftSlice (o : FftOps K) (x : List K) : Res (List K) := if isPow2 x.length then radix2 o x else bluestein o x

/-- The elements of a one-dimensional strided view. -/
def readSlice (s : StridedArr) (m : Mem K) : List K :=
  (List.range (s.shape.getD 0 0)).map fun (k : Nat) => m (s.off + (k : Int) * s.strides.getD 0 0)

/-- `xt::noalias(slice) = values`, in order. -/
def writeSlice (s : StridedArr) (vs : List K) (m : Mem K) : Mem K :=
  (vs.zipIdx).foldl (fun (m : Mem K) (p : K × Nat) => m.set (s.off + (p.2 : Int) * s.strides.getD 0 0) p.1) m

/-- The loop over the slices — misc/xfft.hpp:138-150. -/
def fftLoop (o : FftOps K) : List StridedArr → Mem K → Res (Mem K)
  | [], m => .ok m
  | s :: ss, m => (fftSlice o (readSlice s m)).bind fun vs => fftLoop o ss (writeSlice s vs m)

/-- `fft(e, axis)` of complex numbers — misc/xfft.hpp:127-157.  `m` holds the elements of `out`, a row-major array of the
    given shape. -/
def fftAxis (o : FftOps K) (sh : List Nat) (axis : Int) (m : Mem K) : Res (Mem K) :=
  let a := StridedArr.container .row_major sh 0
  let ax := normalizeAxis sh.length axis
  if ax < sh.length then (axisSlices a .row_major ax).bind fun ss => fftLoop o ss m else .ub

/-- `ifft(e, axis)` of complex numbers — misc/xfft.hpp:159-180.  `e.shape(axis)` takes the axis as it is. -/
def ifftAxis (o : FftOps K) (sh : List Nat) (axis : Int) (m : Mem K) : Res (Mem K) :=
  if axis < 0 ∨ (sh.length : Int) ≤ axis then .ub
  else if sh.getD axis.toNat 0 = 0 then .throws
  else (fftAxis o sh axis fun p => o.conj (m p)).map fun m' => fun p => o.conj (m' p)

/-- `(*iter) = (*iter_y++) * (*iter)` for all slices of `xv` — misc/xfft.hpp:209-216.  A slice past the last is outside
    the storage. -/
def productLoop : List StridedArr → List StridedArr → Mem K → Mem K → Res (Mem K)
  | [], _, _, m => .ok m
  | _ :: _, [], _, _ => .ub
  | s :: ss, s' :: ss', my, m =>
    productLoop ss ss' my (writeSlice s (List.zipWith (· * ·) (readSlice s' my) (readSlice s m)) m)

/-- `convolve(xvec, yvec, axis)` — misc/xfft.hpp:189-224. -/
def fftConvolve (o : FftOps K) (shx shy : List Nat) (axis : Int) (mx my : Mem K) : Res (Mem K) :=
  if shx.length ≠ shy.length then .throws
  else
    let ax := normalizeAxis shx.length axis
    if shx.length ≤ ax then .ub
    else if shx.getD ax 0 ≠ shy.getD ax 0 then .throws
    else
      (fftAxis o shx axis mx).bind fun xv => (fftAxis o shy axis my).bind fun yv =>
      (axisSlices (StridedArr.container .row_major shx 0) .row_major ax).bind fun ss =>
      (axisSlices (StridedArr.container .row_major shy 0) .row_major ax).bind fun ss' =>
      (productLoop ss ss' yv xv).bind fun pr =>
      (ifftAxis o shx axis pr).map fun m p => m p / ((shx.getD ax 0 : Nat) : K)

end

end Xt
