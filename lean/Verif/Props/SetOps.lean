import Verif.Spec.SetOps
import Verif.Model.SetOps
import Verif.Props.Sort
/-!
# C44: unique, setdiff1d, isin, searchsorted, digitize
-/

namespace Xt

open Spec

/-! ### `unique` and `setdiff1d` -/

theorem mem_dropRuns {α : Type} [DecidableEq α] (x : α) : ∀ l : List α, x ∈ dropRuns l ↔ x ∈ l
  | [] => by simp [dropRuns]
  | a :: l => by
    have ih := mem_dropRuns x l
    rw [dropRuns]
    split
    · next h => rw [h] at ih; simp at ih; simp [ih]
    · next b r h =>
      rw [h] at ih
      split
      · next e => subst e; simp only [List.mem_cons] at ih ⊢; rw [← ih]; tauto
      · rw [List.mem_cons, List.mem_cons (l := l), ih]

theorem dropRuns_pairwise {α : Type} [LinearOrder α] : ∀ l : List α, l.Pairwise (· ≤ ·) → (dropRuns l).Pairwise (· < ·)
  | [], _ => by simp [dropRuns]
  | a :: l, h => by
    rw [List.pairwise_cons] at h
    have ih := dropRuns_pairwise l h.2
    have hm : ∀ x, x ∈ dropRuns l → a ≤ x := fun x hx => h.1 x ((mem_dropRuns x l).mp hx)
    rw [dropRuns]
    split
    · simp
    · next b r e =>
      rw [e] at ih hm
      rw [List.pairwise_cons] at ih
      split
      · next e' => subst e'; exact List.pairwise_cons.mpr ih
      · next ne =>
        rw [List.pairwise_cons]
        refine ⟨fun x hx => ?_, List.pairwise_cons.mpr ih⟩
        have hab : a < b := lt_of_le_of_ne (hm b (by simp)) ne
        rcases List.mem_cons.mp hx with rfl | hx
        · exact hab
        · exact lt_trans hab (ih.1 x hx)

/-- **C44.** `unique(e)` lists the values of `e` in increasing order, each once. -/
theorem C44_unique {α : Type} [LinearOrder α] {srt : List α → List α} (hs : SortBy (fun a : α => a) srt) (l : List α) :
    SortedSet (fun x => x ∈ l) (unique srt l) :=
  ⟨dropRuns_pairwise _ (hs.sorted l), fun x => by rw [unique, mem_dropRuns, (hs.perm l).mem_iff]⟩

example : unique natSort [3, 1, 3, 2, 1] = [1, 2, 3] := by decide

theorem setDifference_spec {α : Type} [LinearOrder α] : ∀ (n : Nat) (a b : List α), a.length + b.length < n →
    a.Pairwise (· < ·) → b.Pairwise (· < ·) → SortedSet (fun x => x ∈ a ∧ x ∉ b) (setDifference n a b)
  | 0, _, _, h, _, _ => by omega
  | n + 1, [], b, _, _, _ => by
    rw [setDifference]; exact ⟨List.Pairwise.nil, fun x => by simp⟩
  | n + 1, x :: xs, [], _, ha, _ => by
    rw [setDifference]; exact ⟨ha, fun x => by simp⟩
    simp
  | n + 1, x :: xs, y :: ys, h, ha, hb => by
    simp only [List.length_cons] at h
    have ha' := List.pairwise_cons.mp ha
    have hb' := List.pairwise_cons.mp hb
    rw [setDifference]
    split
    · next hlt =>
      obtain ⟨p, q⟩ := setDifference_spec n xs (y :: ys) (by simp; omega) ha'.2 hb
      refine ⟨List.pairwise_cons.mpr ⟨fun z hz => ha'.1 z ((q z).mp hz).1, p⟩, fun z => ?_⟩
      rw [List.mem_cons, q z]
      beta_reduce
      rw [List.mem_cons (l := xs)]
      constructor
      · rintro (rfl | h)
        · refine ⟨Or.inl rfl, fun hz => ?_⟩
          rcases List.mem_cons.mp hz with rfl | hz
          · exact lt_irrefl _ hlt
          · exact lt_irrefl _ (lt_trans hlt (hb'.1 _ hz))
        · exact ⟨Or.inr h.1, h.2⟩
      · rintro ⟨rfl | h, h'⟩
        · exact Or.inl rfl
        · exact Or.inr ⟨h, h'⟩
    · split
      · next hnl hlt =>
        obtain ⟨p, q⟩ := setDifference_spec n (x :: xs) ys (by simp; omega) ha hb'.2
        refine ⟨p, fun z => ?_⟩
        rw [q z]
        beta_reduce
        rw [List.mem_cons (l := ys), not_or]
        constructor
        · rintro ⟨h1, h2⟩
          refine ⟨h1, ?_, h2⟩
          rintro rfl
          rcases List.mem_cons.mp h1 with rfl | hz
          · exact lt_irrefl _ hlt
          · exact lt_irrefl _ (lt_trans hlt (ha'.1 _ hz))
        · rintro ⟨h1, _, h2⟩; exact ⟨h1, h2⟩
      · next h1 h2 =>
        have he : x = y := le_antisymm (not_lt.mp h2) (not_lt.mp h1)
        subst he
        obtain ⟨p, q⟩ := setDifference_spec n xs ys (by omega) ha'.2 hb'.2
        refine ⟨p, fun z => ?_⟩
        rw [q z]
        beta_reduce
        rw [List.mem_cons, List.mem_cons, not_or]
        constructor
        · rintro ⟨h1, h2⟩
          exact ⟨Or.inr h1, fun e => lt_irrefl _ (e ▸ ha'.1 z h1), h2⟩
        · rintro ⟨h1 | h1, h2, h3⟩
          · exact absurd h1 h2
          · exact ⟨h1, h3⟩

/-- **C44.** `setdiff1d(a, b)` lists the values of `a` that are not in `b` in increasing order, each once. -/
theorem C44_setdiff1d {α : Type} [LinearOrder α] {srt : List α → List α} (hs : SortBy (fun a : α => a) srt)
    (a b : List α) : SortedSet (fun x => x ∈ a ∧ x ∉ b) (setdiff1d srt a b) := by
  obtain ⟨p1, q1⟩ := C44_unique hs a
  obtain ⟨p2, q2⟩ := C44_unique hs b
  obtain ⟨p, q⟩ := setDifference_spec ((unique srt a).length + (unique srt b).length + 1) _ _ (by omega) p1 p2
  exact ⟨p, fun x => by rw [setdiff1d, q x]; beta_reduce; rw [q1 x, q2 x]⟩

example : setdiff1d natSort [5, 1, 3, 1, 9] [3, 7, 9] = [1, 5] := by decide

/-! ### `isin` -/

/-- **C44.** The element function of `isin` tests membership. -/
theorem C44_isin {α : Type} [DecidableEq α] (x : α) : ∀ test : List α, isinAt test x = true ↔ x ∈ test
  | [] => by simp [isinAt]
  | y :: ys => by
    have ih := C44_isin x ys
    rw [isinAt, List.mem_cons]
    split
    · next e => subst e; simp
    · next ne => rw [ih]; exact ⟨Or.inr, fun h => h.resolve_left fun e => ne e.symm⟩

example : isinAt [4, 7, 9] 7 = true ∧ isinAt [4, 7, 9] 5 = false := by decide

/-! ### `searchsorted` and `digitize` -/

theorem takeWhile_prefix_get {α : Type} (p : α → Bool) : ∀ (a : List α) (i : Nat) (y : α),
    i < (a.takeWhile p).length → a[i]? = some y → p y = true
  | [], i, y, h, _ => by simp at h
  | x :: xs, i, y, h, hy => by
    rw [List.takeWhile_cons] at h
    split at h
    · next hp =>
      cases i with
      | zero => simp at hy; subst hy; exact hp
      | succ i => exact takeWhile_prefix_get p xs i y (by simpa using h) (by simpa using hy)
    · simp at h

theorem takeWhile_rest_get {α : Type} (p : α → Bool) : ∀ (a : List α) (i : Nat) (y : α),
    a.Pairwise (fun u v => p v = true → p u = true) → (a.takeWhile p).length ≤ i → a[i]? = some y → p y = false
  | [], i, y, _, _, hy => by simp at hy
  | x :: xs, i, y, hp, h, hy => by
    rw [List.pairwise_cons] at hp
    rw [List.takeWhile_cons] at h
    split at h
    · cases i with
      | zero => simp at h
      | succ i => exact takeWhile_rest_get p xs i y hp.2 (by simpa using h) (by simpa using hy)
    · next hn =>
      cases i with
      | zero => simp at hy; subst hy; simpa using hn
      | succ i =>
        by_contra hc
        exact hn (hp.1 y (List.mem_of_getElem? (by simpa using hy)) (by simpa using hc))

theorem lowerBound_spec {α : Type} [LinearOrder α] {a : List α} (h : a.Pairwise (· ≤ ·)) (x : α) :
    LeftPoint a x (lowerBound a x) := by
  refine ⟨(List.takeWhile_prefix _).length_le, fun i y hi hy => ?_, fun i y hi hy => ?_⟩
  · simpa using takeWhile_prefix_get _ a i y hi hy
  · have := takeWhile_rest_get (fun y => decide (y < x)) a i y
      (h.imp fun huv hv => by simp only [decide_eq_true_eq] at *; exact lt_of_le_of_lt huv hv) hi hy
    simpa using this

theorem upperBound_spec {α : Type} [LinearOrder α] {a : List α} (h : a.Pairwise (· ≤ ·)) (x : α) :
    RightPoint a x (upperBound a x) := by
  refine ⟨(List.takeWhile_prefix _).length_le, fun i y hi hy => ?_, fun i y hi hy => ?_⟩
  · simpa using takeWhile_prefix_get _ a i y hi hy
  · have := takeWhile_rest_get (fun y => decide (y ≤ x)) a i y
      (h.imp fun huv hv => by simp only [decide_eq_true_eq] at *; exact le_trans huv hv) hi hy
    simpa using this

/-- The flat position of a single index is that index when the last axis is stretched. -/
theorem rowFlat_offset {sh : List Nat} (h : sh.getLast? ≠ some 1 ∨ numel sh ≤ 1) {i : Nat} (hi : i < numel sh) :
    dataOffset (rowStrides sh).1 false [(i : Int)] = i := by
  have hlen : (rowStrides sh).1.length = sh.length := rowStrides_length sh
  by_cases hn : numel sh ≤ 1
  · have : i = 0 := by omega
    subst this
    have hraw : ∀ st : List Int, rawDataOffset st [((0 : Nat) : Int)] = 0 := fun st => by
      cases st <;> simp [rawDataOffset]
    simp only [dataOffset, hraw]
    simp
  · have hl := h.resolve_right hn
    have hne : sh ≠ [] := by rintro rfl; simp at hn
    have hpos : 0 < sh.length := List.length_pos_iff.mpr hne
    have hlast : sh.getD (sh.length - 1) 0 ≠ 1 := by
      rw [List.getLast?_eq_getElem?] at hl
      intro e
      apply hl
      rw [List.getD_eq_getElem?_getD] at e
      rw [List.getElem?_eq_getElem (by omega)] at e ⊢
      simpa using e
    have hg := rowStrides_get sh (sh.length - 1) (by omega)
    have hd : sh.drop (sh.length - 1 + 1) = [] := List.drop_eq_nil_of_le (by omega)
    rw [hd] at hg
    have ha : adaptStride (sh.getD (sh.length - 1) 0) (numel ([] : List Nat)) = 1 := by
      unfold adaptStride; rw [if_neg hlast]; rfl
    rw [ha] at hg
    have hdrop : (rowStrides sh).1.drop (sh.length - 1) = [1] := by
      rw [List.drop_eq_getElem_cons (by omega), List.drop_eq_nil_of_le (by omega)]
      rw [List.getElem?_eq_getElem (by omega)] at hg
      simpa using hg
    by_cases h1 : sh.length = 1
    · rw [h1] at hdrop
      simp only [Nat.sub_self, List.drop_zero] at hdrop
      rw [hdrop]
      simp [dataOffset, rawDataOffset]
    · unfold dataOffset
      simp only [List.length_nil, Nat.zero_add]
      rw [if_neg (by simp; omega), if_neg (by simp; omega)]
      simp only [Bool.false_eq_true, if_false, hlen, Nat.add_zero]
      rw [hdrop]
      simp [rawDataOffset]

theorem searchLoop_eq {α : Type} [LinearOrder α] [Inhabited α] (a : List α) (right : Bool) (v : Buf α) (st : List Int)
    (hsrc : ∀ i, i < v.data.length → v.strd.index [(i : Int)] = i)
    (hdst : ∀ i, i < v.data.length → dataOffset st false [(i : Int)] = i) : ∀ (n i : Nat) (out : List (Option Nat)),
    i + n = v.data.length → out.length = v.data.length →
    searchLoop a right v st n i out = .ok (out.take i ++ (v.data.drop i).map fun x => some (searchPoint a right x))
  | 0, i, out, h, ho => by
    rw [searchLoop, List.take_of_length_le (by omega), List.drop_eq_nil_of_le (by omega)]
    simp
  | n + 1, i, out, h, ho => by
    rw [searchLoop]
    rw [hsrc i (by omega), hdst i (by omega), if_neg (by omega),
      searchLoop_eq a right v st hsrc hdst n (i + 1) _ (by omega) (by simpa using ho)]
    have hi : i < v.data.length := by omega
    rw [List.drop_eq_getElem_cons hi, List.map_cons]
    congr 1
    have hm : v.mem (i : Int) = v.data[i] := by
      unfold Buf.mem; simp [List.getD_eq_getElem?_getD, List.getElem?_eq_getElem hi]
    rw [hm, Int.toNat_natCast, List.take_add_one, List.getElem?_set_self (by omega), List.take_set_of_le (le_refl i)]
    simp

theorem flatIndexed_offsets {α : Type} {v : Buf α} (hw : v.WF) (hl : v.layout = .row_major ∨ v.shape.length ≤ 1)
    (hlast : v.shape.getLast? ≠ some 1 ∨ numel v.shape ≤ 1) (i : Nat) (hi : i < v.data.length) :
    v.strd.index [(i : Int)] = i := by
  have hr : v.strides = (rowStrides v.shape).1 := by
    unfold Buf.strides computeStrides
    rcases hl with e | e
    · rw [if_pos (Or.inl e)]
    · split
      · rfl
      · match hs : v.shape, e with
        | [], _ => rfl
        | [n], _ => simp [rowStrides, colStrides]
  show 0 + dataOffset v.strides false [(i : Int)] = i
  rw [hr, rowFlat_offset hlast (by rw [← hw]; exact hi)]
  omega

theorem travRank_row_or_one {sh q : List Nat} {L : Layout} (hl : L = .row_major ∨ sh.length ≤ 1) (hq : InBounds sh q) :
    travRank L sh q = rowRank sh q := by
  unfold travRank
  split
  · rfl
  · rcases hl with e | e
    · contradiction
    · match sh, q, e, hq with
      | [], [], _, _ => rfl
      | [n], [x], _, _ => simp [rowRank, colRank]

theorem searchsorted_eq {α : Type} [LinearOrder α] [Inhabited α] (a : List α) {v : Buf α} (hw : v.WF)
    (hl : v.layout = .row_major ∨ v.shape.length ≤ 1) (hlast : v.shape.getLast? ≠ some 1 ∨ numel v.shape ≤ 1)
    (right : Bool) :
    searchsorted a v right = .ok (v.data.map fun x => some (searchPoint a right x)) := by
  unfold searchsorted
  have hst : (computeStrides .row_major .row_major v.shape).1 = (rowStrides v.shape).1 := by simp [computeStrides]
  rw [hst, searchLoop_eq a right v _ (flatIndexed_offsets hw hl hlast)
    (fun i hi => rowFlat_offset hlast (by rw [← hw]; exact hi)) _ _ _ (by omega) (by simp)]
  simp

/-- **C44, partial.** `searchsorted(a, v, right)` gives each element of `v` the rightmost insertion point into the
sorted list `a` for `right = false` and the leftmost one for `right = true`.  Full statement: the leftmost point for
`right = false` as documented, and any `v`.  Missing: the sides are the wrong way round
(`C44_searchsorted_sides_reversed`); `v` has to be row-major or one-dimensional, and its last extent not one
(`C44_searchsorted_column_wrong`, `C44_searchsorted_column_major_outside`). -/
theorem C44_searchsorted_partial {α : Type} [LinearOrder α] [Inhabited α] {a : List α} (ha : a.Pairwise (· ≤ ·))
    {v : Buf α} (hw : v.WF) (hl : v.layout = .row_major ∨ v.shape.length ≤ 1)
    (hlast : v.shape.getLast? ≠ some 1 ∨ numel v.shape ≤ 1) (right : Bool) :
    ∃ out, searchsorted a v right = .ok out ∧ out.length = numel v.shape ∧
      ∀ q, InBounds v.shape q → ∃ k, out[rowRank v.shape q]? = some (some k) ∧
        (right = true → LeftPoint a (v.read q) k) ∧ (right = false → RightPoint a (v.read q) k) := by
  refine ⟨_, searchsorted_eq a hw hl hlast right, by rw [List.length_map]; exact hw, fun q hq => ?_⟩
  have hr := v.read_eq hq
  rw [travRank_row_or_one hl hq] at hr
  have hlt : rowRank v.shape q < v.data.length := by rw [hw]; exact rowRank_lt hq
  refine ⟨searchPoint a right (v.read q), ?_, ?_, ?_⟩
  · rw [hr, List.getElem?_map, List.getElem?_eq_getElem hlt]
    simp [List.getD_eq_getElem?_getD, List.getElem?_eq_getElem hlt]
  · rintro rfl; exact lowerBound_spec ha _
  · rintro rfl; exact upperBound_spec ha _

example : [1, 2, 2, 5].Pairwise (· ≤ ·) ∧ (Buf.mk [2, 2] .row_major [2, 0, 5, 9]).WF ∧
    searchsorted [1, 2, 2, 5] (Buf.mk [2, 2] .row_major [2, 0, 5, 9]) true = .ok [some 1, some 0, some 3, some 4] ∧
    searchsorted [1, 2, 2, 5] (Buf.mk [2, 2] .row_major [2, 0, 5, 9]) false = .ok [some 3, some 0, some 4, some 4] :=
  ⟨by decide, rfl, by decide, by decide⟩

/-- The insertion points are the ones that keep the list sorted: inserting there gives a sorted list. -/
theorem C44_insertion_keeps_order {α : Type} [LinearOrder α] {a : List α} (ha : a.Pairwise (· ≤ ·)) {x : α} {k : Nat}
    (h : LeftPoint a x k ∨ RightPoint a x k) : (a.take k ++ x :: a.drop k).Pairwise (· ≤ ·) := by
  have h1 : ∀ y ∈ a.take k, y ≤ x := fun y hy => by
    obtain ⟨i, hi, e⟩ := List.getElem_of_mem hy
    have hi' : i < k := by simp at hi; omega
    have e' : a[i]? = some y := by
      rw [← e, List.getElem_take, List.getElem?_eq_getElem (by simp at hi; omega)]
    rcases h with h | h
    · exact le_of_lt (h.2.1 i y hi' e')
    · exact h.2.1 i y hi' e'
  have h2 : ∀ y ∈ a.drop k, x ≤ y := fun y hy => by
    obtain ⟨i, hi, e⟩ := List.getElem_of_mem hy
    have e' : a[k + i]? = some y := by
      rw [← e, List.getElem_drop, List.getElem?_eq_getElem (by simp at hi; omega)]
    rcases h with h | h
    · exact h.2.2 (k + i) y (by omega) e'
    · exact le_of_lt (h.2.2 (k + i) y (by omega) e')
  have hsplit := ha
  rw [← List.take_append_drop k a, List.pairwise_append] at hsplit
  rw [List.pairwise_append]
  refine ⟨hsplit.1, List.pairwise_cons.mpr ⟨h2, hsplit.2.1⟩, fun u hu w hw => ?_⟩
  rcases List.mem_cons.mp hw with rfl | hw
  · exact h1 u hu
  · exact hsplit.2.2 u hu w hw

example : LeftPoint [1, 2, 2, 5] 2 1 ∧ RightPoint [1, 2, 2, 5] 2 3 :=
  ⟨lowerBound_spec (by decide) 2, upperBound_spec (by decide) 2⟩

/-- C44 fails on the documented side: with `right = false` the last suitable location is returned, not the first. -/
theorem C44_searchsorted_sides_reversed :
    searchsorted [1, 2, 2, 5] (Buf.mk [1] .row_major [2]) false = .ok [some 3] ∧
    ¬ LeftPoint [1, 2, 2, 5] 2 3 ∧ LeftPoint [1, 2, 2, 5] 2 1 := by
  refine ⟨by decide, fun h => ?_, lowerBound_spec (by decide) 2⟩
  have := h.2.1 1 2 (by decide) rfl
  omega

/-- C44 fails: for an array of shape (n, 1) every iteration reads and writes the first element. -/
theorem C44_searchsorted_column_wrong :
    searchsorted [1, 2, 5] (Buf.mk [3, 1] .row_major [2, 0, 9]) true = .ok [some 1, none, none] := by decide

/-- C44 fails: a column-major array is read past its end. -/
theorem C44_searchsorted_column_major_outside :
    searchsorted [1, 2, 5] (Buf.mk [2, 2] .column_major [2, 0, 9, 1]) true = .ub := by decide

/-- **C44.** `digitize(v, edges, right)` of a one-dimensional array: with `right = false` datum `x` gets the `k` with
`edges[k-1] ≤ x < edges[k]`, with `right = true` the `k` with `edges[k-1] < x ≤ edges[k]`. -/
theorem C44_digitize {edges : List Rat} (he : edges.Pairwise (· ≤ ·)) (data : List Rat) (right : Bool) :
    ∃ out : List (Option Nat), digitize (Buf.mk [data.length] .row_major data) edges right = .ok out ∧ out.length = data.length ∧
      ∀ (i : Nat) (x : Rat), data[i]? = some x → ∃ k : Nat, out[i]? = some (some k) ∧ k ≤ edges.length ∧
        (∀ e, 0 < k → edges[k - 1]? = some e → if right then e < x else e ≤ x) ∧
        (∀ e, edges[k]? = some e → if right then x ≤ e else x < e) := by
  have hlast : [data.length].getLast? ≠ some 1 ∨ numel [data.length] ≤ 1 := by
    by_cases h : data.length = 1
    · right; simp [h]
    · left; simpa using h
  have hw : (Buf.mk [data.length] .row_major data).WF := by simp [Buf.WF]
  refine ⟨_, searchsorted_eq edges hw (Or.inl rfl) hlast right, by simp, fun i x hx => ?_⟩
  refine ⟨searchPoint edges right x, by simp [hx], ?_, ?_, ?_⟩
  · cases right
    · exact (upperBound_spec he x).1
    · exact (lowerBound_spec he x).1
  · intro e hk hy
    cases right
    · simpa using (upperBound_spec he x).2.1 _ e (by unfold searchPoint at hk ⊢; simp at hk ⊢; omega) hy
    · simpa using (lowerBound_spec he x).2.1 _ e (by unfold searchPoint at hk ⊢; simp at hk ⊢; omega) hy
  · intro e hy
    cases right
    · simpa using (upperBound_spec he x).2.2 _ e (le_refl _) hy
    · simpa using (lowerBound_spec he x).2.2 _ e (le_refl _) hy

example : ([0, 1, 2, 4] : List Rat).Pairwise (· ≤ ·) ∧
    digitize (Buf.mk [3] .row_major ([1, 3 / 2, 0] : List Rat)) [0, 1, 2, 4] false = .ok [some 2, some 2, some 1] ∧
    digitize (Buf.mk [3] .row_major ([1, 3 / 2, 0] : List Rat)) [0, 1, 2, 4] true = .ok [some 1, some 2, some 0] :=
  ⟨by decide +kernel, by decide +kernel, by decide +kernel⟩

end Xt
