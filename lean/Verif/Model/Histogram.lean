import Verif.Model.SetOps
import Mathlib.Algebra.Order.Floor.Ring
import Mathlib.Data.Rat.Floor
/-!
# Model: histograms (`misc/xhistogram.hpp`)

Data, edges and weights are rational numbers: rounding of floating-point arithmetic is not modelled.
-/

namespace Xt

/-- `while (item >= bin_edges[ibin + 1] && ibin < n_bins - 1) ++ibin` — misc/xhistogram.hpp:106-109; `fuel` bounds the
number of steps. -/
def binAdvance (edges : List Rat) (nBins : Nat) (item : Rat) : Nat → Nat → Nat
  | 0, ibin => ibin
  | fuel + 1, ibin =>
    if item ≥ edges.getD (ibin + 1) 0 ∧ ibin < nBins - 1 then binAdvance edges nBins item fuel (ibin + 1) else ibin

/-- `count[k] += w`. -/
def addAt (count : List Rat) (k : Nat) (w : Rat) : List Rat := count.set k (count.getD k 0 + w)

/-- Loop over the sorted data — misc/xhistogram.hpp:88-112. -/
def histLoop (edges : List Rat) (nBins : Nat) (data weights : List Rat) : List Nat → Nat → List Rat → List Rat
  | [], _, count => count
  | idx :: sorter, ibin, count =>
    let item := data.getD idx 0
    if item < edges.getD 0 0 then histLoop edges nBins data weights sorter ibin count
    else if item > edges.getD nBins 0 then count
    else
      let ibin' := binAdvance edges nBins item nBins ibin
      histLoop edges nBins data weights sorter ibin' (addAt count ibin' (weights.getD idx 0))

/-- `histogram_imp` with arbitrary bins — misc/xhistogram.hpp:49-112.  `srt` is the sorting of `argsort`; weights
shorter than the data are read out of bounds and fewer than two edges make `n_bins - 1` wrap around. -/
def histUneven (srt : (Nat → Rat) → List Nat → List Nat) (data edges weights : List Rat) : Res (List Rat) :=
  if edges.length < 2 ∨ weights.length < data.length then .ub
  else
    let nBins := edges.length - 1
    .ok (histLoop edges nBins data weights (argsortLine srt .quick data) 0 (List.replicate nBins 0))

/-- Loop over the data with bins of equal width — misc/xhistogram.hpp:67-84; `bounds` are the extreme edges. -/
def histEqualLoop (left right : Rat) (nBins : Nat) : List (Rat × Rat) → List Rat → List Rat
  | [], count => count
  | (v, w) :: rest, count =>
    histEqualLoop left right nBins rest
      (if v ≥ left ∧ v < right then addAt count ((nBins : Rat) * (v - left) * (1 / (right - left))).floor.toNat w
       else if v = right then addAt count (nBins - 1) w
       else count)

/-- `histogram_imp` with equal bins — misc/xhistogram.hpp:49-85: only the least and the greatest edge are looked at. -/
def histEqual (data edges weights : List Rat) : Res (List Rat) :=
  if edges.length < 2 ∨ weights.length < data.length then .ub
  else
    .ok (histEqualLoop (edges.foldl min (edges.getD 0 0)) (edges.foldl max (edges.getD 0 0)) (edges.length - 1)
      (data.zip weights) (List.replicate (edges.length - 1) 0))

/-- `prob[i] /= (bin_edges[i + 1] - bin_edges[i]) * n` — misc/xhistogram.hpp:115-126; `none` stands for the infinity or
NaN of a division by zero. -/
def histDensity (n : Nat) (edges count : List Rat) : List (Option Rat) :=
  (List.range count.length).map fun (i : Nat) =>
    let d := (edges.getD (i + 1) 0 - edges.getD i 0) * (n : Rat)
    if d = 0 then none else some (count.getD i 0 / d)

/-- `linspace<value_type>(left, right, bins + 1)` of `histogram_bin_edges` — misc/xhistogram.hpp:330-341, for a
floating-point value type. -/
def binEdges (left right : Rat) (bins : Nat) : List Rat :=
  (List.range (bins + 1)).map fun (k : Nat) => left + (k : Rat) * ((right - left) / (bins : Rat))

/-- The same for an integer value type: each edge is truncated — generators/xbuilder.hpp:279-287, 464-468. -/
def binEdgesInt (left right : Int) (bins : Nat) : List Rat :=
  (List.range (bins + 1)).map fun (k : Nat) =>
    let x : Rat := (left : Rat) + (k : Rat) * (((right : Rat) - (left : Rat)) / (bins : Rat))
    if x < 0 then (x.ceil : Rat) else (x.floor : Rat)

/-- Loop of the `uniform` algorithm — misc/xhistogram.hpp:386-395: `edges` starts uninitialised except for its ends;
positions past the end are undefined. -/
def uniformLoop (data weights count : List Rat) : List Nat → Rat → Nat → List (Option Rat) → Res (List (Option Rat))
  | [], _, _, edges => .ok edges
  | i :: sorter, cum, ibin, edges =>
    if ibin ≥ count.length then .ub
    else if cum ≥ count.getD ibin 0 then
      uniformLoop data weights count sorter (cum + weights.getD i 0) (ibin + 1) (edges.set (ibin + 1) (some (data.getD i 0)))
    else uniformLoop data weights count sorter (cum + weights.getD i 0) ibin edges

/-- `histogram_bin_edges(..., uniform)` — misc/xhistogram.hpp:360-396. -/
def uniformEdges (srt : (Nat → Rat) → List Nat → List Nat) (data weights : List Rat) (left right : Rat) (bins : Nat) :
    Res (List (Option Rat)) :=
  let w := weights.sum / (bins : Rat)
  let count := (List.range bins).map fun (k : Nat) => ((k + 1 : Nat) : Rat) * w
  uniformLoop data weights count (argsortLine srt .quick data) 0 0
    (((List.replicate (bins + 1) none).set 0 (some left)).set bins (some right))

/-- `bincount(data, weights, minlength)` — misc/xhistogram.hpp:512-544.  The extremes of no data are the initial
values of `minmax`, a size that cannot be allocated. -/
def bincount (data : List Int) (weights : List Rat) (minlength : Nat) : Res (List Rat) :=
  match data with
  | [] => .throws
  | d :: ds =>
    if ds.foldl min d < 0 then .throws
    else if weights.length < data.length then .ub
    else
      .ok ((data.zip weights).foldl (fun res dw => addAt res dw.1.toNat dw.2)
        (List.replicate (max minlength (ds.foldl max d + 1).toNat) 0))

/-- `bincount(data, minlength)` — misc/xhistogram.hpp:546-554: the weights are ones of the value type of the data, so
the counts are of that type too; here an unsigned type of `bits` bits. -/
def bincountOnes (bits : Nat) (data : List Nat) (minlength : Nat) : Res (List Nat) :=
  match data with
  | [] => .ok (List.replicate (max minlength 1) 0)
  | d :: ds =>
    .ok (data.foldl (fun (res : List Nat) (k : Nat) => res.set k ((res.getD k 0 + 1) % 2 ^ bits))
      (List.replicate (max minlength (ds.foldl max d + 1)) 0))

/-- `bin_items(N, weights)` — misc/xhistogram.hpp:565-597.  Positions in order of increasing share; those of the
largest shares give up one item each.  `range(P.size(), _, -1)` reverses, `range(0, k)` takes the first `k`.
Simplified: `n -= d` on `size_t` is truncated at zero instead of wrapping (`C58` shows it never gets there). -/
def binItems (srt : (Nat → Rat) → List Nat → List Nat) (n : Nat) (weights : List Rat) : List Nat :=
  if weights.length ≤ 1 then [n]
  else
    let p := weights.map fun (w : Rat) => w / weights.sum
    let c := p.map fun (x : Rat) => ((n : Rat) * x).ceil.toNat
    if c.sum = n then c
    else
      let chosen := ((argsortLine srt .quick p).reverse).take (c.sum - n)
      c.mapIdx fun (i x : Nat) => if i ∈ chosen then x - 1 else x

end Xt
