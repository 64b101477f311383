import Verif.Model.Histogram
/-!
# Model: the overloads of `histogram` (`misc/xhistogram.hpp`)

`lo` and `hi` are the least and the greatest value of the value type of the data, from which `minmax` starts.
-/

namespace Xt

/-- `left_right = minmax(data)()` — misc/xhistogram.hpp:432-433, 466-467. -/
def dataBounds (lo hi : Rat) (data : List Rat) : Rat × Rat := (data.foldl min hi, data.foldl max lo)

/-- `histogram(data, bin_edges)` — misc/xhistogram.hpp:166-180: the weights are ones. -/
def histEdges (srt : (Nat → Rat) → List Nat → List Nat) (data edges : List Rat) : Res (List Rat) :=
  histUneven srt data edges (List.replicate data.length 1)

/-- `histogram(data, bins)` — misc/xhistogram.hpp:191-205, 452-477. -/
def histBins (lo hi : Rat) (data : List Rat) (bins : Nat) : Res (List Rat) :=
  histEqual data (binEdges (dataBounds lo hi data).1 (dataBounds lo hi data).2 bins) (List.replicate data.length 1)

/-- `histogram(data, bins, left, right)` — misc/xhistogram.hpp:218-232, 490-505. -/
def histRange (data : List Rat) (bins : Nat) (left right : Rat) : Res (List Rat) :=
  histEqual data (binEdges left right bins) (List.replicate data.length 1)

/-- `histogram(data, bins, weights)` — misc/xhistogram.hpp:244-254, 421-443. -/
def histBinsWeighted (lo hi : Rat) (data : List Rat) (bins : Nat) (weights : List Rat) : Res (List Rat) :=
  histEqual data (binEdges (dataBounds lo hi data).1 (dataBounds lo hi data).2 bins) weights

/-- `histogram(data, bins, weights, left, right)` — misc/xhistogram.hpp:268-278. -/
def histRangeWeighted (data : List Rat) (bins : Nat) (weights : List Rat) (left right : Rat) : Res (List Rat) :=
  histEqual data (binEdges left right bins) weights

/-- The loop over the sorted data when the weights are ones of an unsigned type of `bits` bits — misc/xhistogram.hpp:88-112:
the counts have the value type of the weights (lines 52, 64). -/
def histCountLoop (bits : Nat) (edges : List Rat) (nBins : Nat) (data : List Rat) : List Nat → Nat → List Nat → List Nat
  | [], _, count => count
  | idx :: sorter, ibin, count =>
    let item := data.getD idx 0
    if item < edges.getD 0 0 then histCountLoop bits edges nBins data sorter ibin count
    else if item > edges.getD nBins 0 then count
    else
      let ibin' := binAdvance edges nBins item nBins ibin
      histCountLoop bits edges nBins data sorter ibin' (count.set ibin' ((count.getD ibin' 0 + 1) % 2 ^ bits))

/-- `histogram(data, bin_edges)` on data of an unsigned type of `bits` bits — misc/xhistogram.hpp:166-180: the ones have the
value type of the data. -/
def histUnsigned (srt : (Nat → Rat) → List Nat → List Nat) (bits : Nat) (data : List Nat) (edges : List Rat) : Res (List Nat) :=
  if edges.length < 2 then .ub
  else
    let ds := data.map fun (n : Nat) => (n : Rat)
    .ok (histCountLoop bits edges (edges.length - 1) ds (argsortLine srt .quick ds) 0 (List.replicate (edges.length - 1) 0))

/-- `histogram(data, bins, left, right)` on integer data with limits of a floating-point type — misc/xhistogram.hpp:218-232,
330-341, 490-505: `linspace<value_type>(left, right, bins + 1)` converts the limits to the value type of the data. -/
def histRangeInt (data : List Int) (bins : Nat) (left right : Rat) : Res (List Rat) :=
  let trunc := fun (x : Rat) => if x < 0 then x.ceil else x.floor
  histEqual (data.map fun (d : Int) => (d : Rat)) (binEdgesInt (trunc left) (trunc right) bins) (List.replicate data.length 1)

/-- `bin_items(N, bins)` — misc/xhistogram.hpp:609-612. -/
def binItemsEven (srt : (Nat → Rat) → List Nat → List Nat) (n bins : Nat) : List Nat :=
  binItems srt n (List.replicate bins 1)

end Xt
