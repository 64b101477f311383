import Verif.Model.IndexView
import Verif.Props.AssignAlias
/-!
# Index views, filters and filtrations (C60)
-/

namespace Xt
open Spec

/-! ### `argwhere` -/

theorem nextCol_rank : ∀ {sh idx : List Nat}, InBounds sh idx → colRank sh idx + 1 < numel sh →
    InBounds sh (nextCol sh idx) ∧ colRank sh (nextCol sh idx) = colRank sh idx + 1
  | [], [], _, h => by simp [numel] at h
  | [], _ :: _, h, _ => h.elim
  | _ :: _, [], h, _ => h.elim
  | n :: sh, i :: idx, hb, h => by
    obtain ⟨h1, h2⟩ := hb
    simp only [colRank, numel] at h
    unfold nextCol
    by_cases hi : i ≥ n - 1
    · have hin : i + 1 = n := by omega
      have hlt : colRank sh idx + 1 < numel sh := by
        have : n * (colRank sh idx + 1) < n * numel sh := by
          calc n * (colRank sh idx + 1) = i + n * colRank sh idx + 1 := by
                rw [Nat.mul_add]; omega
            _ < _ := h
        exact Nat.lt_of_mul_lt_mul_left this
      obtain ⟨h3, h4⟩ := nextCol_rank h2 hlt
      rw [if_pos hi]
      refine ⟨⟨by omega, h3⟩, ?_⟩
      simp only [colRank, h4]
      rw [Nat.mul_add]; omega
    · rw [if_neg hi]
      refine ⟨⟨by omega, h2⟩, ?_⟩
      simp only [colRank]; omega

theorem whereNext_rank {L : Layout} (hL : L = .row_major ∨ L = .column_major) {sh idx : List Nat}
    (hb : InBounds sh idx) (h : rankIn L sh idx + 1 < numel sh) :
    InBounds sh (whereNext L sh idx) ∧ rankIn L sh (whereNext L sh idx) = rankIn L sh idx + 1 := by
  rcases hL with rfl | rfl
  · have hr : ∀ {i : List Nat}, InBounds sh i →
        colRank sh.reverse i.reverse = rowRank sh i := fun {i} hi => by
      have := colRank_eq_rowRank_reverse (sh := sh.reverse) (idx := i.reverse) (by simp [hi.length_eq])
      simpa using this
    have h' : rowRank sh idx + 1 < numel sh := h
    obtain ⟨h1, h2⟩ := nextCol_rank hb.reverse (by rw [hr hb, numel_reverse]; exact h')
    have h3 : InBounds sh (nextCol sh.reverse idx.reverse).reverse := by simpa using h1.reverse
    have e : whereNext .row_major sh idx = (nextCol sh.reverse idx.reverse).reverse := rfl
    rw [e]
    refine ⟨h3, ?_⟩
    show rowRank _ _ = rowRank _ _ + 1
    rw [← hr h3, ← hr hb]
    simpa using h2
  · exact nextCol_rank hb h

theorem argwhereLoop_spec {L : Layout} (hL : L = .row_major ∨ L = .column_major) (sh : List Nat)
    (c : List Nat → Bool) : ∀ (n k : Nat) (idx : List Nat), k + n = numel sh →
    (n ≠ 0 → InBounds sh idx ∧ rankIn L sh idx = k) →
    argwhereLoop (whereNext L sh) c n idx = ((orderIndices L sh).drop k).filter c
  | 0, k, idx, hk, _ => by
    rw [List.drop_eq_nil_of_le (by rw [length_orderIndices]; omega)]; rfl
  | n + 1, k, idx, hk, h => by
    obtain ⟨hb, hr⟩ := h (by omega)
    have hlt : k < (orderIndices L sh).length := by rw [length_orderIndices]; omega
    have he : (orderIndices L sh)[k] = idx := by
      obtain ⟨h1, h2⟩ := rankIn_orderIndices (List.getElem?_eq_getElem hlt)
      exact rankIn_inj (L := L) h1 hb (by rw [h2, hr])
    rw [List.drop_eq_getElem_cons hlt, he, List.filter_cons]
    have ih := argwhereLoop_spec hL sh c n (k + 1) (whereNext L sh idx) (by omega) (fun hn => by
      have := whereNext_rank hL hb (by omega : rankIn L sh idx + 1 < numel sh)
      rw [hr] at this; exact this)
    unfold argwhereLoop
    rw [ih]

theorem argwhere_eq {L : Layout} (hL : L = .row_major ∨ L = .column_major) (sh : List Nat)
    (c : List Nat → Bool) : argwhere L sh c = (orderIndices L sh).filter c := by
  unfold argwhere
  rw [argwhereLoop_spec hL sh c _ 0 _ (by rw [foldl_mul_eq]; omega), List.drop_zero]
  intro hn
  have hp : 0 < numel sh := by rw [foldl_mul_eq] at hn; omega
  have := iterAt_begin (L := L) (sh := sh) (σ := Unit) (st := ()) (R := fun _ _ => True)
    (E := fun _ => True) hp trivial
  have h2 := this.inner hp
  exact ⟨h2.1, h2.2.1⟩

theorem orderIndices_sorted (L : Layout) (sh : List Nat) :
    (orderIndices L sh).Pairwise fun i j => rankIn L sh i < rankIn L sh j := by
  have h : ((orderIndices L sh).map (rankIn L sh)).Pairwise (· < ·) := by
    rw [map_rankIn_orderIndices]; exact List.pairwise_lt_range
  exact List.pairwise_map.1 h

/-- `argwhere` returns exactly the indices of the elements that hold, each once, in the order of the traversal. -/
theorem C60_argwhere (L : Layout) (hL : L = .row_major ∨ L = .column_major) (sh : List Nat)
    (c : List Nat → Bool) :
    (∀ idx, idx ∈ argwhere L sh c ↔ InBounds sh idx ∧ c idx = true) ∧
    (argwhere L sh c).Pairwise (fun i j => rankIn L sh i < rankIn L sh j) := by
  rw [argwhere_eq hL]
  exact ⟨fun idx => by rw [List.mem_filter, mem_orderIndices],
    (orderIndices_sorted L sh).sublist List.filter_sublist⟩

example : argwhere .row_major [2, 3] (fun i => i.getD 0 0 + i.getD 1 0 == 2) = [[0, 2], [1, 1]] ∧
    argwhere .column_major [2, 3] (fun i => i.getD 0 0 + i.getD 1 0 == 2) = [[1, 1], [0, 2]] ∧
    argwhere .row_major [2, 0] (fun _ => true) = [] ∧
    argwhere .row_major [] (fun _ => true) = [[]] := by decide

/-! ### `nonzero` -/

/-- The coordinates of a list of indices, axis by axis. -/
def Spec.columns (dim : Nat) (l : List (List Nat)) : List (List Nat) :=
  (List.range dim).map fun d => l.map fun idx => idx.getD d 0

theorem length_nextCol : ∀ (sh idx : List Nat), sh.length = idx.length →
    (nextCol sh idx).length = sh.length
  | [], [], _ => rfl
  | [], _ :: _, h => by simp at h
  | _ :: _, [], h => by simp at h
  | n :: sh, i :: idx, h => by
    unfold nextCol
    have h' : sh.length = idx.length := by simpa using h
    split
    · simp [length_nextCol sh idx h']
    · simp [h']

theorem length_whereNext (L : Layout) (sh idx : List Nat) (h : sh.length = idx.length) :
    (whereNext L sh idx).length = sh.length := by
  unfold whereNext
  split
  · rw [List.length_reverse, length_nextCol _ _ (by simp [h]), List.length_reverse]
  · exact length_nextCol _ _ h

theorem nonzeroLoop_spec (sh : List Nat) (c : List Nat → Bool) : ∀ (n : Nat) (idx : List Nat)
    (done : List (List Nat)), sh.length = idx.length →
    nonzeroLoop (whereNext .row_major sh) c n idx (columns sh.length done) =
      columns sh.length (done ++ argwhereLoop (whereNext .row_major sh) c n idx)
  | 0, idx, done, _ => by simp [nonzeroLoop, argwhereLoop]
  | n + 1, idx, done, hl => by
    have hl' := (length_whereNext .row_major sh idx hl).symm
    unfold nonzeroLoop argwhereLoop
    by_cases hc : c idx
    · rw [if_pos hc, if_pos hc]
      have e : List.zipWith (fun (col : List Nat) (i : Nat) => col ++ [i]) (columns sh.length done) idx =
          columns sh.length (done ++ [idx]) := by
        apply List.ext_getElem
        · simp [columns, hl]
        · intro k h1 h2
          have hk : k < idx.length := by simp [columns] at h1; omega
          simp [columns, List.getD_eq_getElem?_getD, hk]
      rw [e, nonzeroLoop_spec sh c n _ _ hl']
      simp
    · rw [if_neg hc, if_neg hc, nonzeroLoop_spec sh c n _ _ hl']

/-- `nonzero` returns, axis by axis, the coordinates of the elements that are not zero, in row-major order. -/
theorem C60_nonzero (sh : List Nat) (c : List Nat → Bool) :
    nonzero sh c = columns sh.length ((orderIndices .row_major sh).filter c) := by
  rw [← argwhere_eq (Or.inl rfl)]
  unfold nonzero argwhere
  have := nonzeroLoop_spec sh c (sh.foldl (· * ·) 1) (List.replicate sh.length 0) [] (by simp)
  rw [List.nil_append] at this
  rw [← this]
  congr 1
  simp [columns, List.map_const']

example : nonzero [2, 3] (fun i => i.getD 0 0 + i.getD 1 0 == 2) = [[0, 1], [2, 1]] := by decide

/-! ### Reading -/

theorem StridedArr.at_eq {c : StridedArr} (hc : c.WF) {idx : List Nat} (hb : InBounds c.shape idx) :
    c.at idx = addr c idx := by
  unfold StridedArr.at addr
  rw [elementOffset_eq _ _ (by rw [List.length_map, hb.length_eq, hc.len])]
  rfl

theorem getD_lt {α : Type} {l : List α} {k : Nat} (d : α) (h : k < l.length) : l.getD k d = l[k] := by
  simp [List.getD_eq_getElem?_getD, h]

theorem idx_values (v : IdxView) (L : Layout) (hL : L = .row_major ∨ L = .column_major) :
    v.expr.values L [v.indices.length] = v.addrs := by
  rw [C22_iteration L hL _ _ (show Fits [v.indices.length] v.expr from ⟨by simp, broadcastsTo_refl _⟩)]
  have ho : orderIndices L [v.indices.length] = (List.range v.indices.length).map fun i => [i] := by
    rcases hL with rfl | rfl
    · simp only [orderIndices, rowIndices, List.map_cons, List.map_nil]
      exact List.map_eq_flatMap.symm
    · simp [orderIndices, colIndices]
  rw [ho, List.map_map]
  apply List.ext_getElem
  · simp [IdxView.addrs]
  · intro k h1 h2
    have hk : k < v.indices.length := by simpa using h1
    have hb : bcIndex [v.indices.length] [k] = [k] :=
      bcIndex_self (show InBounds [v.indices.length] [k] from ⟨hk, trivial⟩)
    simp [IdxView.addrs, IdxView.expr, valueAt, hb, IdxView.element, toInts, hk]

/-- Iterating over `filter(e, c)` visits the elements of `e` where `c` holds, in the order of the filter's traversal. -/
theorem C60_filter_reads (L L' : Layout) (hL : L = .row_major ∨ L = .column_major)
    (hL' : L' = .row_major ∨ L' = .column_major) (e : StridedArr) (he : e.WF) (c : List Nat → Bool) :
    let v := filterView L e e.shape c
    v.expr.values L' [v.indices.length] = ((orderIndices L e.shape).filter c).map (addr e) := by
  intro v
  rw [idx_values v L' hL']
  show (argwhere L e.shape c).map e.at = _
  rw [argwhere_eq hL]
  apply List.map_congr_left
  intro idx h
  exact StridedArr.at_eq he (mem_orderIndices.1 (List.mem_of_mem_filter h))

/-- The k-th element of the view, by call and by `element`, with one index. -/
theorem C60_access (v : IdxView) (hw : v.base.WF) (hv : ∀ i ∈ v.indices, InBounds v.base.shape i) (k : Nat)
    (idx : List Nat) (h : v.indices[k]? = some idx) :
    v.call [k] = some (addr v.base idx) ∧ v.element [k] = some (addr v.base idx) := by
  have := StridedArr.at_eq hw (hv idx (List.mem_of_getElem? h))
  simp [IdxView.call, IdxView.element, h, this]

/-- With more indices, as under broadcasting, `operator()` takes the last, the element of that row ... -/
theorem C60_call_broadcasts (v : IdxView) (pre : List Nat) (k : Nat) : v.call (pre ++ [k]) = v.call [k] := by
  simp [IdxView.call]

/-- ... but `element` and `operator[]` take the first. -/
theorem C60_element_more_indices_wrong :
    ¬ ∀ (v : IdxView) (pre : List Nat) (k : Nat), v.element (pre ++ [k]) = v.element [k] := by
  intro h
  have := h ⟨StridedArr.container .row_major [4] 0, [[1], [3]]⟩ [0] 1
  revert this; decide

example :
    let v : IdxView := ⟨StridedArr.container .row_major [2, 2] 0, [[1, 1], [0, 1]]⟩
    v.call [1, 0] = some 3 ∧ v.element [1, 0] = some 1 ∧
    v.expr.values .row_major [2, 2] = [3, 1, 3, 1] := by decide

/-! ### Assignment -/

section
variable {β : Type}

theorem Mem.set_same (m : Mem β) (p : Int) (x : β) : m.set p x p = x := by simp [Mem.set]
theorem Mem.set_other (m : Mem β) {p q : Int} (x : β) (h : q ≠ p) : m.set p x q = m q := by
  simp [Mem.set, h]

/-- All addresses lie between the first and the last. -/
def Spec.Between (l : List Int) : Prop :=
  ∀ p ∈ l, (l.headD 0 ≤ p ∧ p ≤ l.getLastD 0) ∨ (l.getLastD 0 ≤ p ∧ p ≤ l.headD 0)

theorem overlaps_of_common {dst l : List Int} {srcs : List (List Int)} (hd : Between dst) (hl : Between l)
    (hm : l ∈ srcs) {p : Int} (hp : p ∈ dst) (hq : p ∈ l) : idxOverlaps dst srcs = true := by
  have h1 : dst.length ≠ 0 := by
    have := List.length_pos_of_mem hp; omega
  have h2 : l.length ≠ 0 := by
    have := List.length_pos_of_mem hq; omega
  have a := hd p hp
  have b := hl p hq
  unfold idxOverlaps addrRange
  rw [if_neg h1]
  refine List.any_eq_true.2 ⟨l, hm, ?_⟩
  simp only [h2, ne_eq, not_false_eq_true, decide_true, Bool.true_and]
  unfold rangeOverlaps memoryRange
  generalize dst.headD 0 = x at *
  generalize dst.getLastD 0 = y at *
  generalize l.headD 0 = u at *
  generalize l.getLastD 0 = w at *
  by_cases h3 : u ≤ w <;> by_cases h4 : y < x <;> simp [h3, h4] <;> omega

theorem idxDirect_spec (f : List β → β) (srcs : List (List Int)) (m0 : Mem β) :
    ∀ (dst : List Int) (k : Nat) (m : Mem β),
    (∀ l ∈ srcs, k + dst.length ≤ l.length ∧ ∀ p ∈ l, m p = m0 p ∧ p ∉ dst) →
    (∀ j p, dst[j]? = some p → (∀ i, j < i → dst[i]? ≠ some p) →
      idxDirect f srcs dst k m p = f (srcs.map fun l => m0 (l.getD (k + j) 0))) ∧
    ∀ p, p ∉ dst → idxDirect f srcs dst k m p = m p
  | [], _, m, _ => ⟨by simp, fun p _ => rfl⟩
  | q :: dst, k, m, h => by
    have hv : srcValue f srcs k m = f (srcs.map fun l => m0 (l.getD k 0)) := by
      unfold srcValue
      congr 1
      apply List.map_congr_left
      intro l hl
      obtain ⟨h1, h2⟩ := h l hl
      have hk : k < l.length := by simp at h1; omega
      rw [getD_lt _ hk]
      exact (h2 _ (List.getElem_mem hk)).1
    obtain ⟨ih1, ih2⟩ := idxDirect_spec f srcs m0 dst (k + 1) (m.set q (srcValue f srcs k m)) (by
      intro l hl
      obtain ⟨h1, h2⟩ := h l hl
      refine ⟨by simp at h1; omega, fun p hp => ?_⟩
      obtain ⟨h3, h4⟩ := h2 p hp
      simp only [List.mem_cons, not_or] at h4
      exact ⟨by rw [Mem.set_other _ _ h4.1, h3], h4.2⟩)
    refine ⟨?_, ?_⟩
    · intro j p hj hlast
      unfold idxDirect
      cases j with
      | zero =>
        have hq : q = p := by simpa using hj
        subst hq
        have hn : q ∉ dst := by
          intro hm
          obtain ⟨i, hi⟩ := List.getElem?_of_mem hm
          exact hlast (i + 1) (by omega) (by simpa using hi)
        rw [ih2 q hn, Mem.set_same, hv, Nat.add_zero]
      | succ j =>
        rw [ih1 j p (by simpa using hj) (fun i hi => by
          have := hlast (i + 1) (by omega); simpa using this)]
        rw [show k + 1 + j = k + (j + 1) from by omega]
    · intro p hp
      simp only [List.mem_cons, not_or] at hp
      unfold idxDirect
      rw [ih2 p hp.2, Mem.set_other _ _ hp.1]

theorem idxCopy_spec : ∀ (dst : List Int) (tmp : List β) (m : Mem β), tmp.length = dst.length →
    (∀ (j : Nat) (p : Int), dst[j]? = some p → (∀ i, j < i → dst[i]? ≠ some p) → some (idxCopy dst tmp m p) = tmp[j]?) ∧
    ∀ p, p ∉ dst → idxCopy dst tmp m p = m p
  | [], [], m, _ => ⟨by simp, fun p _ => rfl⟩
  | [], _ :: _, _, h => by simp at h
  | _ :: _, [], _, h => by simp at h
  | q :: dst, x :: tmp, m, h => by
    obtain ⟨ih1, ih2⟩ := idxCopy_spec dst tmp (m.set q x) (by simpa using h)
    refine ⟨?_, ?_⟩
    · intro j p hj hlast
      unfold idxCopy
      cases j with
      | zero =>
        have hq : q = p := by simpa using hj
        subst hq
        have hn : q ∉ dst := by
          intro hm
          obtain ⟨i, hi⟩ := List.getElem?_of_mem hm
          exact hlast (i + 1) (by omega) (by simpa using hi)
        rw [ih2 q hn, Mem.set_same]; rfl
      | succ j =>
        rw [ih1 j p (by simpa using hj) (fun i hi => by
          have := hlast (i + 1) (by omega); simpa using this)]
        simp
    · intro p hp
      simp only [List.mem_cons, not_or] at hp
      unfold idxCopy
      rw [ih2 p hp.2, Mem.set_other _ _ hp.1]

/-- `v = f(src1, ...)` gives every listed element the value that the operands had before at the last position where it
is listed, and changes nothing else, provided that in the view and in the operands every element lies between the first
and the last.  (Partial: it fails without the proviso, `C60_unordered_wrong`.) -/
theorem C60_assign_partial (f : List β → β) (srcs : List (List Int)) (dst : List Int) (m : Mem β)
    (hlen : ∀ l ∈ srcs, l.length = dst.length) (hd : Between dst) (hs : ∀ l ∈ srcs, Between l) :
    (∀ k p, dst[k]? = some p → (∀ j, k < j → dst[j]? ≠ some p) →
      idxAssign f srcs dst m p = f (srcs.map fun l => m (l.getD k 0))) ∧
    ∀ p, p ∉ dst → idxAssign f srcs dst m p = m p := by
  unfold idxAssign
  by_cases ho : idxOverlaps dst srcs
  · rw [if_pos ho]
    obtain ⟨h1, h2⟩ := idxCopy_spec dst ((List.range dst.length).map fun k => srcValue f srcs k m) m (by simp)
    refine ⟨fun k p hk hlast => ?_, h2⟩
    have := h1 k p hk hlast
    have hkl : k < dst.length := (List.getElem?_eq_some_iff.1 hk).1
    simp only [List.getElem?_map, List.getElem?_range hkl, Option.map_some, Option.some.injEq] at this
    rw [this]; rfl
  · rw [if_neg ho]
    obtain ⟨h1, h2⟩ := idxDirect_spec f srcs m dst 0 m (fun l hl => ⟨by rw [hlen l hl]; omega, fun p hp =>
      ⟨rfl, fun hm => ho (overlaps_of_common hd (hs l hl) hl hm hp)⟩⟩)
    refine ⟨fun k p hk hlast => ?_, h2⟩
    rw [h1 k p hk hlast, Nat.zero_add]

/-- An index view with its indices out of order: `v(2, 0, 3) = u(0, 1, 0)`.  The ranges from first to last are 2 .. 3 and
0 .. 0, no overlap is seen, and the third element receives the new value of the first. -/
theorem C60_unordered_wrong :
    ¬ ∀ (f : List Int → Int) (srcs : List (List Int)) (dst : List Int) (m : Mem Int),
      (∀ l ∈ srcs, l.length = dst.length) → dst.Nodup → ∀ k p, dst[k]? = some p →
      idxAssign f srcs dst m p = f (srcs.map fun l => m (l.getD k 0)) := by
  intro h
  have := h (fun l => l.headD 0) [[0, 1, 0]] [2, 0, 3] (fun p => p * 10) (by decide) (by decide) 2 3 (by decide)
  revert this; decide

/-- Increasing addresses lie between the first and the last. -/
theorem between_of_sorted {l : List Int} (h : l.Pairwise (· < ·)) : Between l := by
  intro p hp
  left
  obtain ⟨k, hk, rfl⟩ := List.getElem_of_mem hp
  have h0 : 0 < l.length := by omega
  have e1 : l.headD 0 = l[0] := by cases l with | nil => simp at h0 | cons a t => rfl
  have e2 : l.getLastD 0 = l[l.length - 1] := by
    rw [List.getLastD_eq_getLast?, List.getLast?_eq_getElem?, List.getElem?_eq_getElem (by omega)]; rfl
  rw [e1, e2]
  have key := List.pairwise_iff_getElem.1 h
  constructor
  · rcases Nat.eq_zero_or_pos k with h1 | h1
    · simp [h1]
    · exact le_of_lt (key 0 k h0 hk h1)
  · rcases Nat.lt_or_ge k (l.length - 1) with h1 | h1
    · exact le_of_lt (key k (l.length - 1) hk (by omega) h1)
    · have : k = l.length - 1 := by omega
      simp [this]

theorem filter_addrs (L : Layout) (hL : L = .row_major ∨ L = .column_major) (a : StridedArr) (hw : a.WF)
    (c : List Nat → Bool) :
    (filterView L a a.shape c).addrs = ((orderIndices L a.shape).filter c).map (addr a) := by
  show (argwhere L a.shape c).map a.at = _
  rw [argwhere_eq hL]
  apply List.map_congr_left
  intro idx h
  exact StridedArr.at_eq hw (mem_orderIndices.1 (List.mem_of_mem_filter h))

theorem filter_sorted (L : Layout) (a : StridedArr) (hc : Contig L a) (c : List Nat → Bool) :
    (((orderIndices L a.shape).filter c).map (addr a)).Pairwise (· < ·) := by
  rw [List.pairwise_map]
  have h := (orderIndices_sorted L a.shape).sublist (List.filter_sublist (p := c))
  refine h.imp_of_mem ?_
  intro i j hi hj hlt
  have bi := mem_orderIndices.1 (List.mem_of_mem_filter hi)
  have bj := mem_orderIndices.1 (List.mem_of_mem_filter hj)
  unfold addr
  rw [hc i bi, hc j bj]
  omega

/-- `filter<L>(a, c) = f(filter<L>(b1, c1), ...)` for containers stored in the order of the filter's traversal, whether
or not they are the same: the k-th element of `a` where `c` holds receives the value of `f` at the k-th elements of the
operands, as they were before; nothing else changes.  (Partial: the storage order is needed,
`C60_filter_other_layout_wrong`.) -/
theorem C60_filter_assign_partial (L : Layout) (hL : L = .row_major ∨ L = .column_major) (a : StridedArr) (ha : a.WF)
    (hc : Contig L a) (c : List Nat → Bool) (f : List β → β) (ops : List (StridedArr × (List Nat → Bool)))
    (hops : ∀ o ∈ ops, o.1.WF ∧ Contig L o.1 ∧
      ((orderIndices L o.1.shape).filter o.2).length = ((orderIndices L a.shape).filter c).length) (m : Mem β) :
    let m' := idxAssign f (ops.map fun o => (filterView L o.1 o.1.shape o.2).addrs)
      (filterView L a a.shape c).addrs m
    (∀ k idx, ((orderIndices L a.shape).filter c)[k]? = some idx →
      m' (addr a idx) = f (ops.map fun o => m (addr o.1 (((orderIndices L o.1.shape).filter o.2).getD k [])))) ∧
    ∀ p, (∀ idx, InBounds a.shape idx → c idx = true → p ≠ addr a idx) → m' p = m p := by
  intro m'
  have hs : (ops.map fun o => (filterView L o.1 o.1.shape o.2).addrs) =
      ops.map fun o => ((orderIndices L o.1.shape).filter o.2).map (addr o.1) :=
    List.map_congr_left fun o ho => filter_addrs L hL o.1 (hops o ho).1 o.2
  have hm : m' = idxAssign f (ops.map fun o => ((orderIndices L o.1.shape).filter o.2).map (addr o.1))
      (((orderIndices L a.shape).filter c).map (addr a)) m := by
    show idxAssign _ _ _ _ = _
    rw [hs, filter_addrs L hL a ha c]
  rw [hm]
  have hsort := filter_sorted L a hc c
  obtain ⟨h1, h2⟩ := C60_assign_partial f
    (ops.map fun o => ((orderIndices L o.1.shape).filter o.2).map (addr o.1))
    (((orderIndices L a.shape).filter c).map (addr a)) m
    (by
      intro l hl
      obtain ⟨o, ho, rfl⟩ := List.mem_map.1 hl
      simpa using (hops o ho).2.2)
    (between_of_sorted hsort)
    (by
      intro l hl
      obtain ⟨o, ho, rfl⟩ := List.mem_map.1 hl
      exact between_of_sorted (filter_sorted L o.1 (hops o ho).2.1 o.2))
  refine ⟨fun k idx hk => ?_, fun p hp => h2 p ?_⟩
  · rw [h1 k (addr a idx) (by simp [hk]) ?_]
    · rw [List.map_map]
      congr 1
      apply List.map_congr_left
      intro o ho
      have hkl : k < ((orderIndices L o.1.shape).filter o.2).length := by
        rw [(hops o ho).2.2]; exact (List.getElem?_eq_some_iff.1 hk).1
      show m ((((orderIndices L o.1.shape).filter o.2).map (addr o.1)).getD k 0) = _
      rw [getD_lt _ (by simpa using hkl), getD_lt _ hkl, List.getElem_map]
    · intro j hj he
      have hj1 := (List.getElem?_eq_some_iff.1 he)
      obtain ⟨hjl, hje⟩ := hj1
      have hkl : k < (((orderIndices L a.shape).filter c).map (addr a)).length := by omega
      have := List.pairwise_iff_getElem.1 hsort k j hkl hjl hj
      obtain ⟨h3, h4⟩ := List.getElem?_eq_some_iff.1 hk
      rw [hje, List.getElem_map, h4] at this
      omega
  · intro hmem
    obtain ⟨idx, hi, rfl⟩ := List.mem_map.1 hmem
    have := List.mem_filter.1 hi
    exact hp idx (mem_orderIndices.1 this.1) this.2 rfl

/-- `filter(a, a > 2) = filter(a, a < 2) * 10` and the like on one container, the elements overlapping. -/
example :
    let a := StridedArr.container .row_major [2, 2] 0
    let c1 : List Nat → Bool := fun i => i != [0, 0]
    let c2 : List Nat → Bool := fun i => i != [1, 1]
    let m : Mem Int := fun p => p + 1
    let m' := idxAssign (fun l => l.headD 0 * 10) [(filterView .row_major a a.shape c2).addrs]
      (filterView .row_major a a.shape c1).addrs m
    [m' 0, m' 1, m' 2, m' 3] = [1, 10, 20, 30] := by decide
example : (StridedArr.container .row_major [2, 2] 0).WF ∧ Contig .row_major (StridedArr.container .row_major [2, 2] 0) :=
  ⟨container_wf _ _, container_contig (Or.inl rfl) _ _⟩

/-- The same on a column-major container with the default, row-major `filter`: the elements of the left side are at 2, 1,
3, those of the right at 0, 2, 1; from first to last that is 2 .. 3 and 0 .. 1. -/
theorem C60_filter_other_layout_wrong :
    ¬ ∀ (L l : Layout) (sh : List Nat) (c1 c2 : List Nat → Bool) (f : List Int → Int) (m : Mem Int) (k : Nat)
      (i j : List Nat), (L = .row_major ∨ L = .column_major) → (l = .row_major ∨ l = .column_major) →
      ((orderIndices L sh).filter c2).length = ((orderIndices L sh).filter c1).length →
      ((orderIndices L sh).filter c1)[k]? = some i → ((orderIndices L sh).filter c2)[k]? = some j →
      idxAssign f [(filterView L (StridedArr.container l sh 0) sh c2).addrs]
        (filterView L (StridedArr.container l sh 0) sh c1).addrs m (addr (StridedArr.container l sh 0) i) =
      f [m (addr (StridedArr.container l sh 0) j)] := by
  intro h
  have := h .row_major .column_major [2, 2] (fun i => i != [0, 0]) (fun i => i != [1, 1]) (fun l => l.headD 0 * 10)
    (fun p => p + 1) 1 [1, 0] [0, 1] (by decide) (by decide) (by decide) (by decide) (by decide)
  revert this; decide

/-! ### Scalars -/

/-- `v = s` and `v.fill(s)` set the listed elements only. -/
theorem C60_fill (dst : List Int) (x : β) (m : Mem β) (p : Int) :
    idxFill dst x m p = if p ∈ dst then x else m p := by
  unfold idxFill
  induction dst generalizing m with
  | nil => simp
  | cons q dst ih =>
    rw [List.foldl_cons, ih]
    by_cases h1 : p ∈ dst
    · simp [h1]
    · by_cases h2 : p = q
      · simp [h2, Mem.set]
      · simp [h2, Mem.set]

/-- `v op= s` applies the operation once for every time the element is listed. -/
theorem C60_scalar (g : β → β) (dst : List Int) (m : Mem β) (p : Int) :
    idxScalar g dst m p = g^[dst.count p] (m p) := by
  unfold idxScalar
  induction dst generalizing m with
  | nil => rfl
  | cons q dst ih =>
    rw [List.foldl_cons, ih, List.count_cons]
    by_cases h : q = p
    · subst h
      simp [Mem.set]
    · have h' : p ≠ q := fun e => h e.symm
      simp [Mem.set, h, h']

/-- `filter(a, c) op= s` on a container applies the operation to the elements where `c` holds. -/
theorem C60_filter_scalar (L l : Layout) (hL : L = .row_major ∨ L = .column_major)
    (hl : l = .row_major ∨ l = .column_major) (sh : List Nat) (off : Int) (c : List Nat → Bool) (g : β → β)
    (m : Mem β) :
    let a := StridedArr.container l sh off
    let m' := idxScalar g (filterView L a sh c).addrs m
    (∀ idx, InBounds sh idx → m' (addr a idx) = if c idx then g (m (addr a idx)) else m (addr a idx)) ∧
    ∀ p, (∀ idx, InBounds sh idx → p ≠ addr a idx) → m' p = m p := by
  intro a m'
  have he : (filterView L a sh c).addrs = ((orderIndices L sh).filter c).map (addr a) :=
    filter_addrs L hL a (container_wf _ _) c
  have hd : Distinct a := container_distinct hl sh off
  have hnd : (((orderIndices L sh).filter c).map (addr a)).Nodup := by
    rw [List.nodup_map_iff_inj_on]
    · intro i hi j hj h
      exact hd i j (mem_orderIndices.1 (List.mem_of_mem_filter hi))
        (mem_orderIndices.1 (List.mem_of_mem_filter hj)) h
    · refine List.Nodup.filter _ ?_
      exact (orderIndices_sorted L sh).imp (fun h e => by subst e; omega)
  have hm : ∀ p, m' p = g^[(((orderIndices L sh).filter c).map (addr a)).count p] (m p) := by
    intro p
    show idxScalar g _ m p = _
    rw [he, C60_scalar]
  have h0 : ∀ p, p ∉ ((orderIndices L sh).filter c).map (addr a) → m' p = m p := by
    intro p hp
    rw [hm, List.count_eq_zero_of_not_mem hp]; rfl
  refine ⟨fun idx hb => ?_, fun p hp => h0 p ?_⟩
  · by_cases hc : c idx
    · have hmem : addr a idx ∈ ((orderIndices L sh).filter c).map (addr a) :=
        List.mem_map_of_mem (List.mem_filter.2 ⟨mem_orderIndices.2 hb, hc⟩)
      rw [hm, List.count_eq_one_of_mem hnd hmem, if_pos hc]; rfl
    · rw [if_neg hc]
      apply h0
      intro hmem
      obtain ⟨j, hj, e⟩ := List.mem_map.1 hmem
      have hj' := List.mem_filter.1 hj
      have := hd j idx (mem_orderIndices.1 hj'.1) hb e
      subst this
      exact hc hj'.2
  · intro hmem
    obtain ⟨j, hj, e⟩ := List.mem_map.1 hmem
    exact hp j (mem_orderIndices.1 (List.mem_of_mem_filter hj)) e.symm

/-- An element listed twice: `v += 1` adds twice, `v += ones` once. -/
theorem C60_repeated_differs :
    ¬ ∀ (g : Int → Int) (dst : List Int) (m : Mem Int) (p : Int),
      idxScalar g dst m p = idxAssign (fun l => g (l.headD 0)) [dst] dst m p := by
  intro h
  have := h (· + 1) [0, 1, 0] (fun _ => 5) 0
  revert this; decide

/-- They agree when no element is listed twice. -/
theorem C60_repeated_partial (g : β → β) (dst : List Int) (hn : dst.Nodup) (hb : Between dst) (d : β) (m : Mem β)
    (p : Int) : idxScalar g dst m p = idxAssign (fun l => g (l.headD d)) [dst] dst m p := by
  rw [C60_scalar]
  obtain ⟨h1, h2⟩ := C60_assign_partial (fun l => g (l.headD d)) [dst] dst m (by simp) hb (by simpa using hb)
  by_cases hp : p ∈ dst
  · obtain ⟨k, hk⟩ := List.getElem?_of_mem hp
    rw [h1 k p hk, List.count_eq_one_of_mem hn hp]
    · simp [List.getD_eq_getElem?_getD, hk]
    · intro j hj he
      obtain ⟨a1, a2⟩ := List.getElem?_eq_some_iff.1 hk
      obtain ⟨b1, b2⟩ := List.getElem?_eq_some_iff.1 he
      have := List.pairwise_iff_getElem.1 hn k j a1 b1 hj
      exact this (by rw [a2, b2])
  · rw [h2 p hp, List.count_eq_zero_of_not_mem hp]; rfl

/-! ### Filtration -/

theorem filtrationLoop_spec (g : β → β) (m0 : Mem β) :
    ∀ (dst : List Int) (cs : List (Mem β → Bool)) (m : Mem β), dst.Nodup → dst.length ≤ cs.length →
    (∀ p ∈ dst, m p = m0 p) →
    (∀ (k : Nat) (p : Int) (ck : Mem β → Bool), dst[k]? = some p → cs[k]? = some ck →
      ∀ m1 : Mem β, m1 p = m0 p → (∀ q, q ∉ dst → m1 q = m q) → ck m1 = ck m0) →
    ∃ m', filtrationLoop g dst cs m = .ok m' ∧
      (∀ (k : Nat) (p : Int) (ck : Mem β → Bool), dst[k]? = some p → cs[k]? = some ck →
        m' p = if ck m0 then g (m0 p) else m0 p) ∧
      ∀ p, p ∉ dst → m' p = m p
  | [], cs, m, _, _, _, _ => ⟨m, by cases cs <;> rfl, by simp, fun _ _ => rfl⟩
  | p :: dst, [], m, _, h, _, _ => by simp at h
  | p :: dst, c :: cs, m, hn, hlen, hm, hloc => by
    rw [List.nodup_cons] at hn
    have hc : c m = c m0 := hloc 0 p c rfl rfl m (hm p (by simp)) (fun _ _ => rfl)
    obtain ⟨m', e, h1, h2⟩ := filtrationLoop_spec g m0 dst cs (m.set p (if c m then g (m p) else m p)) hn.2
      (by simpa using hlen)
      (by
        intro q hq
        have : q ≠ p := fun e => hn.1 (e ▸ hq)
        rw [Mem.set_other _ _ this]; exact hm q (by simp [hq]))
      (by
        intro k q ck hk hck m1 h3 h4
        have hqp : q ≠ p := fun e => hn.1 (e ▸ List.mem_of_getElem? hk)
        -- the condition at `q` does not depend on the element at `p`
        refine hloc (k + 1) q ck (by simpa using hk) (by simpa using hck) m1 h3 ?_
        intro r hr
        simp only [List.mem_cons, not_or] at hr
        rw [h4 r hr.2, Mem.set_other _ _ hr.1])
    refine ⟨m', e, ?_, ?_⟩
    · intro k q ck hk hck
      cases k with
      | zero =>
        have e1 : p = q := by simpa using hk
        have e2 : c = ck := by simpa using hck
        subst e1; subst e2
        rw [h2 p hn.1, Mem.set_same, hc, hm p (by simp)]
      | succ k => exact h1 k q ck (by simpa using hk) (by simpa using hck)
    · intro q hq
      simp only [List.mem_cons, not_or] at hq
      rw [h2 q hq.2, Mem.set_other _ _ hq.1]

/-- `filtration(a, cond) op= s` applies the operation to the elements where the condition held before and changes nothing
else, provided that the condition has the shape of `a` and at each index does not depend on other elements of `a`.
(Partial: both are needed, `C60_filtration_broadcast_undefined`, `C60_filtration_dependent_wrong`.) -/
theorem C60_filtration_partial (g : β → β) (a : StridedArr) (hw : a.WF) (hd : Distinct a) (hz : a.shape ≠ [])
    (c : List Nat → Mem β → Bool)
    (hloc : ∀ idx, InBounds a.shape idx → ∀ m1 m2 : Mem β, m1 (addr a idx) = m2 (addr a idx) →
      (∀ q, (∀ j, InBounds a.shape j → q ≠ addr a j) → m1 q = m2 q) → c idx m1 = c idx m2) (m : Mem β) :
    ∃ m', filtration g a a.shape c m = .ok m' ∧
      (∀ idx, InBounds a.shape idx →
        m' (addr a idx) = if c idx m then g (m (addr a idx)) else m (addr a idx)) ∧
      ∀ p, (∀ idx, InBounds a.shape idx → p ≠ addr a idx) → m' p = m p := by
  have hL : Layout.row_major = .row_major ∨ Layout.row_major = .column_major := Or.inl rfl
  have e1 : (Ex.arr a (fun q => q)).values .row_major a.shape = (orderIndices .row_major a.shape).map (addr a) :=
    C22_container .row_major hL a hw
  have e2 : (Ex.gen a.shape fun i => c (i.map Int.toNat)).values .row_major a.shape =
      (orderIndices .row_major a.shape).map c := by
    rw [C22_iteration .row_major hL a.shape _ (show Fits a.shape (Ex.gen a.shape fun i => c (i.map Int.toNat)) from
      ⟨hz, broadcastsTo_refl _⟩)]
    apply List.map_congr_left
    intro idx h
    simp only [valueAt]
    rw [bcIndex_self (mem_orderIndices.1 h)]
    congr 1
    simp [toInts, Function.comp_def]
  have hnd : ((orderIndices .row_major a.shape).map (addr a)).Nodup := by
    rw [List.nodup_map_iff_inj_on]
    · intro i hi j hj h
      exact hd i j (mem_orderIndices.1 hi) (mem_orderIndices.1 hj) h
    · exact (orderIndices_sorted .row_major a.shape).imp (fun h e => by subst e; omega)
  have hmem : ∀ p, p ∉ (orderIndices .row_major a.shape).map (addr a) ↔
      ∀ idx, InBounds a.shape idx → p ≠ addr a idx := by
    intro p
    simp only [List.mem_map, not_exists, not_and]
    exact ⟨fun h idx hb e => h idx (mem_orderIndices.2 hb) e.symm, fun h idx hb e => h idx (mem_orderIndices.1 hb) e.symm⟩
  obtain ⟨m', h0, h1, h2⟩ := filtrationLoop_spec g m ((orderIndices .row_major a.shape).map (addr a))
    ((orderIndices .row_major a.shape).map c) m hnd (by simp) (fun _ _ => rfl) (by
      intro k p ck hk hck m1 h3 h4
      rw [List.getElem?_map, Option.map_eq_some_iff] at hk hck
      obtain ⟨i, hi, rfl⟩ := hk
      obtain ⟨j, hj, rfl⟩ := hck
      have : i = j := by rw [hi] at hj; simpa using hj
      subst this
      exact hloc i (mem_orderIndices.1 (List.mem_of_getElem? hi)) m1 m h3 (fun q hq => h4 q ((hmem q).2 hq)))
  refine ⟨m', ?_, ?_, fun p hp => h2 p ((hmem p).2 hp)⟩
  · unfold filtration
    rw [e1, e2]; exact h0
  · intro idx hb
    obtain ⟨k, hk⟩ := List.getElem?_of_mem ((mem_orderIndices (L := .row_major)).2 hb)
    exact h1 k (addr a idx) (c idx) (by simp [hk]) (by simp [hk])

/-- `filtration(a, a > 2) += 100` and `filtration(a, b) += 100`, `b` stored at 10 and after. -/
example :
    let a := StridedArr.container .row_major [2, 2] 0
    (∃ m', filtration (· + 100) a [2, 2] (fun i (m : Mem Int) => decide (m (addr a i) > 2)) (fun p => p) = .ok m' ∧
      [m' 0, m' 1, m' 2, m' 3] = [0, 1, 2, 103]) ∧
    (∃ m', filtration (· + 100) a [2, 2] (fun i (m : Mem Int) => decide (m (addr a i + 10) < 12)) (fun p => p) = .ok m' ∧
      [m' 0, m' 1, m' 2, m' 3] = [100, 101, 2, 3]) := by
  refine ⟨⟨_, rfl, by decide⟩, ⟨_, rfl, by decide⟩⟩

theorem filtrationLoop_short (g : β → β) : ∀ (dst : List Int) (cs : List (Mem β → Bool)) (m : Mem β),
    cs.length < dst.length → filtrationLoop g dst cs m = .ub
  | [], cs, m, h => by simp at h
  | p :: dst, [], m, _ => rfl
  | p :: dst, c :: cs, m, h => filtrationLoop_short g dst cs _ (by simpa using h)

/-- A condition with fewer elements, as one to be broadcast, is read past its end, always. -/
theorem C60_filtration_broadcast_undefined (g : β → β) (a : StridedArr) (hw : a.WF) (csh : List Nat) (hz : csh ≠ [])
    (h : numel csh < numel a.shape) (c : List Nat → Mem β → Bool) (m : Mem β) : filtration g a csh c m = .ub := by
  unfold filtration
  apply filtrationLoop_short
  rw [C22_iteration .row_major (Or.inl rfl) csh _ (show Fits csh (Ex.gen csh fun i => c (i.map Int.toNat)) from
    ⟨hz, broadcastsTo_refl _⟩), C22_container .row_major (Or.inl rfl) a hw]
  simpa [length_orderIndices] using h

example : filtration (β := Int) (· + 1) (StridedArr.container .row_major [2, 3] 0) [3] (fun _ _ => true) (fun p => p) =
    .ub :=
  C60_filtration_broadcast_undefined _ _ (container_wf _ _) _ (by decide) (by decide) _ _

/-- A condition that looks at another element, `a < roll(a)`: it is evaluated while the elements change. -/
theorem C60_filtration_dependent_wrong :
    ¬ ∀ (g : Int → Int) (a : StridedArr) (c : List Nat → Mem Int → Bool) (m : Mem Int), a.WF → Distinct a →
      a.shape ≠ [] → ∃ m', filtration g a a.shape c m = .ok m' ∧
      ∀ idx, InBounds a.shape idx →
        m' (addr a idx) = if c idx m then g (m (addr a idx)) else m (addr a idx) := by
  intro h
  obtain ⟨m', e, h1⟩ := h (· + 10) (StridedArr.container .row_major [2] 0)
    (fun i m => decide (m (i.headD 0 : Int) < m ((1 - i.headD 0 : Nat) : Int))) (fun p => p)
    (container_wf _ _) (container_distinct (Or.inl rfl) _ _) (by decide)
  have e' : filtration (· + 10) (StridedArr.container .row_major [2] 0) [2]
    (fun i m => decide (m (i.headD 0 : Int) < m ((1 - i.headD 0 : Nat) : Int))) (fun p => p) = .ok m' := e
  have h2 := h1 [1] (by decide)
  have h3 : ∀ r : Res (Mem Int), r = .ok m' → r = filtration (· + 10) (StridedArr.container .row_major [2] 0) [2]
    (fun i m => decide (m (i.headD 0 : Int) < m ((1 - i.headD 0 : Nat) : Int))) (fun p => p) →
    (match r with | .ok x => x 1 | _ => 0) = m' 1 := by
    intro r hr _; rw [hr]
  have h4 := h3 _ e' rfl
  have h5 : addr (StridedArr.container .row_major [2] 0) [1] = 1 := by decide
  rw [h5, ← h4] at h2
  revert h2; decide

end

end Xt
