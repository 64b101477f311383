import Verif.Model.HistogramCalls
import Verif.Props.Histogram
import Verif.Props.SetOps
/-!
# C93: histograms, digitize and bincount agree
-/

namespace Xt
open Spec

/-! ### Counts -/

/-- Number of the data in bin `k`. -/
def Spec.binCount (edges : List Rat) (k : Nat) (data : List Rat) : Nat := (data.filter fun x => decide (InBin edges k x)).length

theorem binWeight_ones (edges : List Rat) (k : Nat) : ∀ data : List Rat,
    binWeight edges k (data.zip (List.replicate data.length 1)) = (binCount edges k data : Rat)
  | [] => rfl
  | x :: data => by
    rw [List.length_cons, List.replicate_succ, List.zip_cons_cons, binWeight_cons, binWeight_ones edges k data, binCount, binCount,
      List.filter_cons]
    by_cases h : InBin edges k x
    · simp [h]; ring
    · simp [h]

theorem rat_foldl_min_le : ∀ (l : List Rat) (a : Rat), l.foldl min a ≤ a ∧ ∀ x ∈ l, l.foldl min a ≤ x
  | [], a => ⟨le_refl _, by simp⟩
  | y :: l, a => by
    obtain ⟨h1, h2⟩ := rat_foldl_min_le l (min a y)
    rw [List.foldl_cons]
    refine ⟨h1.trans (min_le_left _ _), fun x hx => ?_⟩
    rcases List.mem_cons.1 hx with rfl | hx
    · exact h1.trans (min_le_right _ _)
    · exact h2 x hx

theorem rat_le_foldl_max : ∀ (l : List Rat) (a : Rat), a ≤ l.foldl max a ∧ ∀ x ∈ l, x ≤ l.foldl max a
  | [], a => ⟨le_refl _, by simp⟩
  | y :: l, a => by
    obtain ⟨h1, h2⟩ := rat_le_foldl_max l (max a y)
    rw [List.foldl_cons]
    refine ⟨(le_max_left _ _).trans h1, fun x hx => ?_⟩
    rcases List.mem_cons.1 hx with rfl | hx
    · exact (le_max_right _ _).trans h1
    · exact h2 x hx

theorem binEdges_first_last {left right : Rat} {bins : Nat} (hb : 0 < bins) :
    (binEdges left right bins).getD 0 0 = left ∧ (binEdges left right bins).getD bins 0 = right := by
  rw [getD_binEdges (Nat.zero_le _), getD_binEdges (le_refl _)]
  have : (bins : Rat) ≠ 0 := by exact_mod_cast hb.ne'
  constructor
  · simp
  · field_simp; ring

/-- C93: `histogram(data, bins)` counts every datum exactly once: entry `k` is the number of the data in the bin between the
edges `k` and `k + 1` that `histogram_bin_edges(data, bins)` reports. -/
theorem C93_all_data {lo hi : Rat} {data : List Rat} (hne : data ≠ []) {bins : Nat} (hb : 0 < bins) :
    ∃ out, histBins lo hi data bins = .ok out ∧ out.length = bins ∧ out.sum = data.length ∧
      ∀ k : Nat, k < bins → out.getD k 0 =
        (binCount (binEdges (dataBounds lo hi data).1 (dataBounds lo hi data).2 bins) k data : Rat) := by
  obtain ⟨x, t, rfl⟩ := List.exists_cons_of_ne_nil hne
  have hmin := rat_foldl_min_le (x :: t) hi
  have hmax := rat_le_foldl_max (x :: t) lo
  have hle : (dataBounds lo hi (x :: t)).1 ≤ (dataBounds lo hi (x :: t)).2 :=
    (hmin.2 x List.mem_cons_self).trans (hmax.2 x List.mem_cons_self)
  obtain ⟨out, h1, h2, h3⟩ := C45_histogram_equal hle hb (data := x :: t) (weights := List.replicate (x :: t).length 1) (by simp)
  refine ⟨out, h1, by rw [h2]; simp, ?_, fun k hk => ?_⟩
  · rw [h3, inRange_ones]
    intro y hy
    have := binEdges_first_last (left := (dataBounds lo hi (x :: t)).1) (right := (dataBounds lo hi (x :: t)).2) hb
    rw [length_binEdges, Nat.add_sub_cancel, this.1, this.2]
    exact ⟨hmin.2 y hy, hmax.2 y hy⟩
  · rw [h2, List.getD_eq_getElem?_getD, List.getElem?_map, List.getElem?_range hk]
    exact binWeight_ones _ _ _

/-- C93: `histogram(data, bins, weights)` gives every weight to exactly one bin, that of its datum. -/
theorem C93_all_weights {lo hi : Rat} {data weights : List Rat} (hne : data ≠ []) (hw : data.length = weights.length) {bins : Nat}
    (hb : 0 < bins) :
    ∃ out, histBinsWeighted lo hi data bins weights = .ok out ∧ out.length = bins ∧ out.sum = weights.sum ∧
      ∀ k : Nat, k < bins → out.getD k 0 =
        binWeight (binEdges (dataBounds lo hi data).1 (dataBounds lo hi data).2 bins) k (data.zip weights) := by
  have hmin := rat_foldl_min_le data hi
  have hmax := rat_le_foldl_max data lo
  have hle : (dataBounds lo hi data).1 ≤ (dataBounds lo hi data).2 := by
    obtain ⟨x, t, rfl⟩ := List.exists_cons_of_ne_nil hne
    exact (hmin.2 x List.mem_cons_self).trans (hmax.2 x List.mem_cons_self)
  obtain ⟨out, h1, h2, h3⟩ := C45_histogram_equal hle hb (data := data) (weights := weights) hw.le
  refine ⟨out, h1, by rw [h2]; simp, ?_, fun k hk => ?_⟩
  · rw [h3]
    have hall : ∀ y ∈ data, (binEdges (dataBounds lo hi data).1 (dataBounds lo hi data).2 bins).getD 0 0 ≤ y ∧
        y ≤ (binEdges (dataBounds lo hi data).1 (dataBounds lo hi data).2 bins).getD
          ((binEdges (dataBounds lo hi data).1 (dataBounds lo hi data).2 bins).length - 1) 0 := by
      intro y hy
      have := binEdges_first_last (left := (dataBounds lo hi data).1) (right := (dataBounds lo hi data).2) hb
      rw [length_binEdges, Nat.add_sub_cancel, this.1, this.2]
      exact ⟨hmin.2 y hy, hmax.2 y hy⟩
    generalize binEdges (dataBounds lo hi data).1 (dataBounds lo hi data).2 bins = edges at hall
    unfold inRangeWeight
    rw [List.filter_eq_self.2 fun p hp => by simpa using hall p.1 (List.of_mem_zip hp).1]
    rw [List.map_snd_zip hw.ge]
  · rw [h2, List.getD_eq_getElem?_getD, List.getElem?_map, List.getElem?_range hk]
    rfl

/-- C93: the overloads that take a number of bins give the same as the one that takes the edges they report. -/
theorem C93_overloads {srt : (Nat → Rat) → List Nat → List Nat} (hs : ∀ key, SortBy key (srt key)) {left right : Rat}
    (h : left ≤ right) {bins : Nat} (hb : 0 < bins) {data weights : List Rat} (hw : data.length ≤ weights.length) :
    histRangeWeighted data bins weights left right = histUneven srt data (binEdges left right bins) weights ∧
      histRange data bins left right = histEdges srt data (binEdges left right bins) := by
  have key : ∀ w : List Rat, data.length ≤ w.length → histEqual data (binEdges left right bins) w =
      histUneven srt data (binEdges left right bins) w := fun w hw => by
    obtain ⟨o, o1, o2, -⟩ := C45_histogram_equal h hb hw
    obtain ⟨u, u1, u2, -⟩ := C45_histogram hs (binEdges_sorted h bins) (by simp; omega) hw
    rw [o1, u1, o2, u2, length_binEdges, Nat.add_sub_cancel]
  exact ⟨key _ hw, key _ (by simp)⟩

/-- C93: the histogram does not depend on the order of the data. -/
theorem C93_order {srt : (Nat → Rat) → List Nat → List Nat} (hs : ∀ key, SortBy key (srt key))
    {edges data weights data' weights' : List Rat} (he : edges.Pairwise (· ≤ ·)) (hl : 2 ≤ edges.length)
    (hw : data.length = weights.length) (hw' : data'.length = weights'.length)
    (hp : (data.zip weights).Perm (data'.zip weights')) :
    histUneven srt data edges weights = histUneven srt data' edges weights' := by
  obtain ⟨o, o1, o2, -⟩ := C45_histogram hs he hl hw.le
  obtain ⟨u, u1, u2, -⟩ := C45_histogram hs he hl hw'.le
  rw [o1, u1, o2, u2]
  congr 1
  exact List.map_congr_left fun k _ => binWeight_perm hp

theorem binWeight_append (edges : List Rat) (k : Nat) (l l' : List (Rat × Rat)) :
    binWeight edges k (l ++ l') = binWeight edges k l + binWeight edges k l' := by
  simp [binWeight]

/-- C93: the histogram of two samples taken together is the sum of their histograms. -/
theorem C93_append {srt : (Nat → Rat) → List Nat → List Nat} (hs : ∀ key, SortBy key (srt key))
    {edges data weights data' weights' : List Rat} (he : edges.Pairwise (· ≤ ·)) (hl : 2 ≤ edges.length)
    (hw : data.length = weights.length) (hw' : data'.length = weights'.length) :
    ∃ a b c, histUneven srt data edges weights = .ok a ∧ histUneven srt data' edges weights' = .ok b ∧
      histUneven srt (data ++ data') edges (weights ++ weights') = .ok c ∧ c = List.zipWith (· + ·) a b := by
  obtain ⟨o, o1, o2, -⟩ := C45_histogram hs he hl hw.le
  obtain ⟨u, u1, u2, -⟩ := C45_histogram hs he hl hw'.le
  obtain ⟨v, v1, v2, -⟩ := C45_histogram hs he hl (data := data ++ data') (weights := weights ++ weights') (by simp [hw, hw'])
  refine ⟨o, u, v, o1, u1, v1, ?_⟩
  rw [v2, o2, u2, List.zipWith_map, List.zipWith_self]
  refine List.map_congr_left fun k _ => ?_
  rw [List.zip_append hw, binWeight_append]

/-! ### Digitize -/

/-- C93: `digitize(data, edges)` gives datum `x` below the last edge the number `k + 1` exactly when it lies in bin `k` of the
histogram. -/
theorem C93_digitize {edges : List Rat} (he : edges.Pairwise (· ≤ ·)) (data : List Rat) :
    ∃ out : List (Option Nat), digitize (Buf.mk [data.length] .row_major data) edges false = .ok out ∧
      ∀ (i : Nat) (x : Rat), data[i]? = some x → x < edges.getD (edges.length - 1) 0 →
        ∀ k, InBin edges k x ↔ out[i]? = some (some (k + 1)) := by
  obtain ⟨out, o1, o2, o3⟩ := C44_digitize he data false
  refine ⟨out, o1, fun i x hx hlast k => ?_⟩
  obtain ⟨j, j1, j2, j3, j4⟩ := o3 i x hx
  have hget : ∀ m : Nat, m < edges.length → edges[m]? = some (edges.getD m 0) := fun m hm => by
    rw [List.getD_eq_getElem?_getD, List.getElem?_eq_getElem hm]; rfl
  rw [j1]
  constructor
  · rintro ⟨h1, h2, h3⟩
    have h3 : x < edges.getD (k + 1) 0 := by
      rcases h3 with h3 | ⟨h3, h4⟩
      · exact h3
      · rw [show edges.length - 1 = k + 1 by omega, ← h4] at hlast
        exact absurd hlast (lt_irrefl _)
    congr 2
    rcases Nat.lt_trichotomy j (k + 1) with h | h | h
    · have := j4 _ (hget j (by omega))
      simp only [Bool.false_eq_true, if_false] at this
      exact absurd (this.trans_le ((edges_mono he (by omega : j ≤ k) (by omega)).trans h2)) (lt_irrefl _)
    · exact h
    · have := j3 _ (by omega) (hget (j - 1) (by omega))
      simp only [Bool.false_eq_true, if_false] at this
      exact absurd (h3.trans_le ((edges_mono he (by omega : k + 1 ≤ j - 1) (by omega)).trans this)) (lt_irrefl _)
  · intro h
    have hjk : j = k + 1 := by simpa using h
    subst hjk
    have h2 := j3 _ (by omega) (hget (k + 1 - 1) (by omega))
    simp only [Bool.false_eq_true, if_false, Nat.add_sub_cancel] at h2
    have hlt : k + 1 < edges.length := by
      by_contra hc
      rw [show edges.length - 1 = k by omega] at hlast
      exact absurd (hlast.trans_le h2) (lt_irrefl _)
    have h3 := j4 _ (hget (k + 1) hlt)
    simp only [Bool.false_eq_true, if_false] at h3
    exact ⟨hlt, h2, .inl h3⟩

/-! ### Bincount -/

/-- C93: `bincount` is the histogram with the edges 0, 1, 2, .... -/
theorem C93_bincount {srt : (Nat → Rat) → List Nat → List Nat} (hs : ∀ key, SortBy key (srt key)) {data : List Int}
    {weights : List Rat} {minlength : Nat} (hne : data ≠ []) (h0 : ∀ d ∈ data, 0 ≤ d) (hw : data.length ≤ weights.length) :
    ∃ out, bincount data weights minlength = .ok out ∧
      histUneven srt (data.map fun (d : Int) => (d : Rat)) ((List.range (out.length + 1)).map fun (k : Nat) => (k : Rat)) weights = .ok out := by
  obtain ⟨out, o1, o2, o3, o4, o5⟩ := C45_bincount (minlength := minlength) hne h0 hw
  obtain ⟨d0, hd0⟩ := List.exists_mem_of_ne_nil _ hne
  have hpos : 0 < out.length := by have := o3 d0 hd0; have := h0 d0 hd0; omega
  have hg : ∀ k : Nat, k < out.length + 1 → ((List.range (out.length + 1)).map fun (k : Nat) => (k : Rat)).getD k 0 = k := fun k hk => by
    rw [List.getD_eq_getElem?_getD, List.getElem?_map, List.getElem?_range hk]; rfl
  obtain ⟨u, u1, u2, -⟩ := C45_histogram hs (edges := (List.range (out.length + 1)).map fun (k : Nat) => (k : Rat))
    (data := data.map fun (d : Int) => (d : Rat)) (weights := weights)
    (List.pairwise_map.2 ((List.pairwise_lt_range (n := out.length + 1)).imp fun h => by exact_mod_cast h.le)) (by simp; omega) (by simpa using hw)
  refine ⟨out, o1, ?_⟩
  rw [u1, u2]
  congr 1
  symm
  apply range_map_of_getD (by simp)
  intro k hk
  have hk : k < out.length := by simpa using hk
  rw [o5 k, binWeight, List.zip_map_left, List.filter_map, List.map_map]
  congr 1
  have hf : (data.zip weights).filter ((fun d => decide (InBin ((List.range (out.length + 1)).map fun (k : Nat) => (k : Rat)) k d.1)) ∘
      Prod.map (fun (d : Int) => (d : Rat)) id) = (data.zip weights).filter fun d => decide (d.1 = (k : Int)) := ?_
  · rw [hf]; rfl
  apply List.filter_congr
  intro d hd
  have hd1 := (List.of_mem_zip hd).1
  have hb := o3 _ hd1
  simp only [Function.comp, decide_eq_decide, InBin, List.length_map, List.length_range, Prod.map]
  rw [hg k (by omega), hg (k + 1) (by omega)]
  constructor
  · rintro ⟨h1, h2, h3⟩
    have h2 : (k : Int) ≤ d.1 := by exact_mod_cast h2
    rcases h3 with h3 | ⟨h3, h4⟩
    · have h3 : d.1 < (k : Int) + 1 := by exact_mod_cast h3
      omega
    · have h4 : d.1 = (k : Int) + 1 := by exact_mod_cast h4
      omega
  · intro h
    rw [h]
    exact ⟨by omega, by simp, .inl (by push_cast; linarith)⟩

/-! ### Types of counts -/

theorem histCountLoop_spec (bits : Nat) (edges : List Rat) (nBins : Nat) (data : List Rat) :
    ∀ (sorter : List Nat) (ibin : Nat) (c : List Nat) (q : List Rat), (∀ i ∈ sorter, i < data.length) →
      c.length = q.length → (∀ k, ∃ m : Nat, q.getD k 0 = m ∧ c.getD k 0 = m % 2 ^ bits) →
      (histCountLoop bits edges nBins data sorter ibin c).length =
        (histLoop edges nBins data (List.replicate data.length 1) sorter ibin q).length ∧
      ∀ k, ∃ m : Nat, (histLoop edges nBins data (List.replicate data.length 1) sorter ibin q).getD k 0 = m ∧
        (histCountLoop bits edges nBins data sorter ibin c).getD k 0 = m % 2 ^ bits
  | [], _, c, q, _, hl, h => ⟨hl, h⟩
  | i :: sorter, ibin, c, q, hi, hl, h => by
    unfold histCountLoop histLoop
    simp only
    split
    · exact histCountLoop_spec bits edges nBins data sorter ibin c q (fun j hj => hi j (List.mem_cons_of_mem _ hj)) hl h
    split
    · exact ⟨hl, h⟩
    generalize binAdvance edges nBins (data.getD i 0) nBins ibin = b
    apply histCountLoop_spec bits edges nBins data sorter b _ _ (fun j hj => hi j (List.mem_cons_of_mem _ hj))
    · simp [hl]
    intro k
    have hone : (List.replicate data.length (1 : Rat)).getD i 0 = 1 := by
      rw [List.getD_eq_getElem?_getD, List.getElem?_replicate, if_pos (hi i List.mem_cons_self)]; rfl
    obtain ⟨m, m1, m2⟩ := h k
    rcases Nat.lt_or_ge b q.length with hb | hb
    · rw [getD_addAt hb, hone]
      by_cases hk : k = b
      · subst hk
        refine ⟨m + 1, ?_, ?_⟩
        · simp only [m1, if_true]; push_cast; rfl
        · rw [List.getD_eq_getElem?_getD, List.getElem?_set_self (by omega), Option.getD_some, m2, Nat.mod_add_mod]
      · refine ⟨m, ?_, ?_⟩
        · rw [m1, if_neg hk, add_zero]
        · rw [List.getD_eq_getElem?_getD, List.getElem?_set_ne (Ne.symm hk), ← List.getD_eq_getElem?_getD, m2]
    · rw [addAt, List.set_eq_of_length_le hb, List.set_eq_of_length_le (by omega)]
      exact ⟨m, m1, m2⟩

/-- C93, partial: `histogram(data, bin_edges)` of unsigned data counts the data in each bin, modulo the range of their own type.
Full statement: it counts them.  Missing: the counts are kept in the value type of the data (`C93_counts_wrap`). -/
theorem C93_counts_partial {srt : (Nat → Rat) → List Nat → List Nat} (hs : ∀ key, SortBy key (srt key)) (bits : Nat)
    {edges : List Rat} (he : edges.Pairwise (· ≤ ·)) (hl : 2 ≤ edges.length) (data : List Nat) :
    ∃ out, histUnsigned srt bits data edges = .ok out ∧ out.length = edges.length - 1 ∧
      ∀ k, k < edges.length - 1 → out.getD k 0 = binCount edges k (data.map fun (n : Nat) => (n : Rat)) % 2 ^ bits := by
  obtain ⟨u, u1, u2, -⟩ := C45_histogram hs he hl (data := data.map fun (n : Nat) => (n : Rat))
    (weights := List.replicate (data.map fun (n : Nat) => (n : Rat)).length 1) (by simp)
  unfold histUneven at u1
  rw [if_neg (by simp; omega)] at u1
  unfold histUnsigned
  rw [if_neg (by omega)]
  generalize hds : data.map (fun (n : Nat) => (n : Rat)) = ds at u1 u2 ⊢
  obtain ⟨hp, -⟩ := (argsortLine_spec hs .quick ds).1
  obtain ⟨h1, h2⟩ := histCountLoop_spec bits edges (edges.length - 1) ds (argsortLine srt .quick ds) 0
    (List.replicate (edges.length - 1) 0) (List.replicate (edges.length - 1) 0)
    (fun i hi => by simpa using hp.mem_iff.1 hi) (by simp) fun k => ⟨0, by simp [List.getD_eq_getElem?_getD, List.getElem?_replicate]; split <;> rfl,
      by simp [List.getD_eq_getElem?_getD, List.getElem?_replicate]; split <;> rfl⟩
  simp only [Res.ok.injEq] at u1
  rw [u1] at h1 h2
  refine ⟨_, rfl, by rw [h1, u2]; simp, fun k hk => ?_⟩
  obtain ⟨m, m1, m2⟩ := h2 k
  rw [m2]
  rw [u2, List.getD_eq_getElem?_getD, List.getElem?_map, List.getElem?_range hk] at m1
  have : (binCount edges k ds : Rat) = m := by rw [← m1, ← binWeight_ones]; rfl
  congr 1
  exact_mod_cast this.symm

/-- C93: fewer than two edges make no bin, and the counting of unsigned data is undefined as that of other data
(`C45_histogram_undefined`). -/
theorem C93_counts_undefined (srt : (Nat → Rat) → List Nat → List Nat) (bits : Nat) (data : List Nat) {edges : List Rat}
    (h : edges.length < 2) : histUnsigned srt bits data edges = .ub := by
  unfold histUnsigned
  rw [if_pos h]

example : histUnsigned ratKeySort 8 [1, 2] [0] = .ub := C93_counts_undefined _ _ _ (by decide)

/-- C93 fails: of 16 zeros of an unsigned type of 4 bits (256 of `uint8_t`) the histogram counts none. -/
theorem C93_counts_wrap : histUnsigned ratKeySort 4 (List.replicate 16 0) [0, 1] = .ok [0] ∧
    binCount [0, 1] 0 ((List.replicate 16 0).map fun (n : Nat) => (n : Rat)) = 16 := by decide +kernel

/-- C93 fails: on integer data the limits of the range are truncated, so `histogram(data, 1, 0.5, 3.5)` counts the datum 0 and
`histogram(data, 1, -3.5, -0.5)` the datum 0 as well. -/
theorem C93_limits_truncated :
    histRangeInt [0, 3] 1 (1 / 2) (7 / 2) = .ok [2] ∧ histRange [0, 3] 1 (1 / 2) (7 / 2) = .ok [1] ∧
      histRangeInt [0, -3] 1 (-7 / 2) (-1 / 2) = .ok [2] ∧ histRange [0, -3] 1 (-7 / 2) (-1 / 2) = .ok [1] := by decide +kernel

/-! ### Items -/

theorem eq_of_sum_eq {q : Nat} : ∀ l : List Nat, (∀ x ∈ l, x ≤ q) → l.sum = q * l.length → ∀ x ∈ l, x = q
  | [], _, _ => by simp
  | y :: l, h, hs => by
    have hle : l.sum ≤ q * l.length := by
      have hl : ∀ x ∈ l, x ≤ q := fun x hx => h x (List.mem_cons_of_mem _ hx)
      clear hs h
      induction l with
      | nil => simp
      | cons z l ih =>
        have := ih fun x hx => hl x (List.mem_cons_of_mem _ hx)
        have := hl z List.mem_cons_self
        rw [List.sum_cons, List.length_cons, Nat.mul_succ]
        omega
    have hy := h y List.mem_cons_self
    rw [List.sum_cons, List.length_cons, Nat.mul_succ] at hs
    intro x hx
    rcases List.mem_cons.1 hx with rfl | hx
    · omega
    · exact eq_of_sum_eq l (fun x hx => h x (List.mem_cons_of_mem _ hx)) (by omega) x hx

/-- C93: `bin_items(N, bins)` distributes exactly `N` items as evenly as possible: each bin gets the quotient `N / bins`, or one
more. -/
theorem C93_bin_items_even {srt : (Nat → Rat) → List Nat → List Nat} (hs : ∀ key, SortBy key (srt key)) (n : Nat) {bins : Nat}
    (hb : 0 < bins) :
    (binItemsEven srt n bins).length = bins ∧ (binItemsEven srt n bins).sum = n ∧
      ∀ i, i < bins → (binItemsEven srt n bins).getD i 0 = n / bins ∨ (binItemsEven srt n bins).getD i 0 = n / bins + 1 := by
  unfold binItemsEven
  rcases Nat.lt_or_ge 1 bins with h2 | h1
  · have hsum : (List.replicate bins (1 : Rat)).sum = bins := by simp
    have hbq : (0 : Rat) < bins := by exact_mod_cast hb
    obtain ⟨a, b, c⟩ := C58_bin_items hs n (weights := List.replicate bins 1) (by simp; omega)
      (fun w hw => by rw [List.eq_of_mem_replicate hw]; norm_num) (by rw [hsum]; exact hbq)
    have hall : ∀ i, i < bins → n ≤ ((binItems srt n (List.replicate bins 1)).getD i 0 + 1) * bins ∧
        (binItems srt n (List.replicate bins 1)).getD i 0 * bins < n + bins := fun i hi => by
      obtain ⟨c1, c2⟩ := c i (by simpa using hi)
      rw [hsum, List.getD_eq_getElem?_getD (l := List.replicate _ _), List.getElem?_replicate, if_pos hi, Option.getD_some] at c1 c2
      generalize (binItems srt n (List.replicate bins 1)).getD i 0 = v at c1 c2
      have e : (n : Rat) * (1 / bins) * bins = n := by field_simp
      constructor
      · have : ((n : Rat)) ≤ (v + 1) * bins := by
          rw [← e]
          exact mul_le_mul_of_nonneg_right (by linarith) hbq.le
        exact_mod_cast this
      · have : (v : Rat) * bins < n + bins := by
          calc (v : Rat) * bins < (n * (1 / bins) + 1) * bins := mul_lt_mul_of_pos_right c2 hbq
            _ = n + bins := by rw [add_mul, e, one_mul]
        exact_mod_cast this
    have hn := Nat.div_add_mod n bins
    have hm := Nat.mod_lt n hb
    have hup : ∀ i, i < bins → (binItems srt n (List.replicate bins 1)).getD i 0 * bins < n + bins := fun i hi => (hall i hi).2
    rw [List.length_replicate] at a
    refine ⟨a, b, fun i hi => ?_⟩
    obtain ⟨d1, d2⟩ := hall i hi
    have u1 : (binItems srt n (List.replicate bins 1)).getD i 0 ≤ n / bins + 1 := by
      by_contra hc
      have : (n / bins + 2) * bins ≤ (binItems srt n (List.replicate bins 1)).getD i 0 * bins := Nat.mul_le_mul_right _ (by omega)
      rw [Nat.add_mul, Nat.mul_comm (n / bins)] at this
      omega
    rcases Nat.eq_zero_or_pos (n % bins) with hz | hz
    · left
      have hle : ∀ x ∈ binItems srt n (List.replicate bins 1), x ≤ n / bins := fun x hx => by
        obtain ⟨k, hk, rfl⟩ := List.getElem_of_mem hx
        have := hup k (by omega)
        rw [List.getD_eq_getElem?_getD, List.getElem?_eq_getElem hk, Option.getD_some] at this
        by_contra hc
        have h3 : (n / bins + 1) * bins ≤ (binItems srt n (List.replicate bins 1))[k] * bins := Nat.mul_le_mul_right _ (by omega)
        rw [Nat.add_mul, Nat.mul_comm (n / bins)] at h3
        omega
      apply eq_of_sum_eq _ hle (by rw [b, a, Nat.mul_comm]; omega)
      rw [List.getD_eq_getElem?_getD, List.getElem?_eq_getElem (by omega), Option.getD_some]
      exact List.getElem_mem _
    · have : n / bins ≤ (binItems srt n (List.replicate bins 1)).getD i 0 := by
        by_contra hc
        have : ((binItems srt n (List.replicate bins 1)).getD i 0 + 1) * bins ≤ n / bins * bins := Nat.mul_le_mul_right _ (by omega)
        rw [Nat.mul_comm (n / bins)] at this
        omega
      omega
  · have : bins = 1 := by omega
    subst this
    rw [C58_single_bin srt n (by simp)]
    simp

/-! ### Examples -/

example : histBins (-100) 100 [3, 1, 1 / 2, 5, 2] 3 = .ok [2, 2, 1] ∧
    binEdges (dataBounds (-100) 100 [3, 1, 1 / 2, 5, 2]).1 (dataBounds (-100) 100 [3, 1, 1 / 2, 5, 2]).2 3 = [1 / 2, 2, 7 / 2, 5] := by
  decide +kernel

example : histBinsWeighted (-100) 100 [3, 1, 1 / 2, 5, 2] 3 [1, 2, 4, 8, 16] = .ok [6, 17, 8] := by decide +kernel
example := C93_all_weights (lo := -100) (hi := 100) (data := [3, 1, 1 / 2, 5, 2]) (weights := [1, 2, 4, 8, 16]) (by simp) rfl
  (bins := 3) (by decide)

example : histRangeWeighted [3, 1, 9] 2 [1, 2, 4] 0 4 = histUneven ratKeySort [3, 1, 9] (binEdges 0 4 2) [1, 2, 4] ∧
    histRange [3, 1, 9] 2 0 4 = histEdges ratKeySort [3, 1, 9] (binEdges 0 4 2) :=
  C93_overloads ratKeySort_sortBy (by norm_num) (by decide) (by decide)

example : histUneven ratKeySort [3, 1, 2] [0, 2, 3] [1, 2, 4] = histUneven ratKeySort [1, 2, 3] [0, 2, 3] [2, 4, 1] :=
  C93_order ratKeySort_sortBy (by decide +kernel) (by decide) rfl rfl (by decide +kernel)

example : ∃ a b c, histUneven ratKeySort [3, 1] [0, 2, 3] [1, 2] = .ok a ∧ histUneven ratKeySort [2] [0, 2, 3] [4] = .ok b ∧
    histUneven ratKeySort [3, 1, 2] [0, 2, 3] [1, 2, 4] = .ok c ∧ c = List.zipWith (· + ·) a b :=
  C93_append ratKeySort_sortBy (by decide +kernel) (by decide) rfl rfl

example : ([0, 1, 2, 4] : List Rat).Pairwise (· ≤ ·) ∧ InBin [0, 1, 2, 4] 1 (3 / 2) ∧
    digitize (Buf.mk [3] .row_major ([1, 3 / 2, 0] : List Rat)) [0, 1, 2, 4] false = .ok [some 2, some 2, some 1] := by
  decide +kernel

example : bincount [2, 0, 2] [1, 2, 4] 0 = .ok [2, 0, 5] ∧ histUneven ratKeySort [2, 0, 2] [0, 1, 2, 3] [1, 2, 4] = .ok [2, 0, 5] := by
  decide +kernel

example : binItemsEven ratKeySort 7 3 = [3, 2, 2] ∨ (binItemsEven ratKeySort 7 3).sum = 7 :=
  .inr (C93_bin_items_even ratKeySort_sortBy 7 (bins := 3) (by decide)).2.1

end Xt
