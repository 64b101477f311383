import Verif.Props.Sort
/-!
# C42: partition and median
-/

namespace Xt

open Spec

/-! ### One line -/

/-- Position `k` separates the list by key. -/
def PivotBy {α β : Type} [LinearOrder α] (key : β → α) (l : List β) (k : Nat) : Prop :=
  (∀ i a b, i < k → l[i]? = some a → l[k]? = some b → key a ≤ key b) ∧
    ∀ j a b, k < j → l[k]? = some a → l[j]? = some b → key a ≤ key b

theorem getElem?_of_drop_eq {β : Type} {r d : List β} {m j : Nat} (h : r.drop m = d.drop m) (hj : m ≤ j) :
    r[j]? = d[j]? := by
  have := congrArg (fun l => l[j - m]?) h
  simp only [List.getElem?_drop] at this
  rwa [Nat.add_sub_cancel' hj] at this

theorem mem_take_of_perm {β : Type} {r d : List β} {m i : Nat} {a : β} (h : (r.take m).Perm (d.take m)) (hi : i < m)
    (ha : r[i]? = some a) : ∃ i', i' < m ∧ d[i']? = some a := by
  have h1 : a ∈ r.take m := by
    apply List.mem_of_getElem? (i := i)
    rw [List.getElem?_take_of_lt hi, ha]
  obtain ⟨i', hi'⟩ := List.mem_iff_getElem?.1 (h.mem_iff.1 h1)
  have hlt : i' < m := by
    by_contra hc
    rw [List.getElem?_take_eq_none (by omega)] at hi'
    cases hi'
  rw [List.getElem?_take_of_lt hlt] at hi'
  exact ⟨i', hlt, hi'⟩

/-- Rearranging what stands before a separating position leaves it separating. -/
theorem pivotBy_rearrange {α β : Type} [LinearOrder α] {key : β → α} {d r : List β} {k : Nat}
    (hp : PivotBy key d k) (h1 : (r.take k).Perm (d.take k)) (h2 : r.drop k = d.drop k) : PivotBy key r k := by
  refine ⟨fun i a b hi ha hb => ?_, fun j a b hj ha hb => ?_⟩
  · obtain ⟨i', hi', ha'⟩ := mem_take_of_perm h1 hi ha
    rw [getElem?_of_drop_eq h2 (Nat.le_refl k)] at hb
    exact hp.1 i' a b hi' ha' hb
  · rw [getElem?_of_drop_eq h2 (Nat.le_refl k)] at ha
    rw [getElem?_of_drop_eq h2 (by omega)] at hb
    exact hp.2 j a b hj ha hb

theorem take_perm_of_prefix {β : Type} {r d : List β} {m k : Nat} (hmk : m ≤ k) (h1 : (r.take m).Perm (d.take m))
    (h2 : r.drop m = d.drop m) : (r.take k).Perm (d.take k) ∧ r.drop k = d.drop k := by
  have e : ∀ l : List β, l.take k = l.take m ++ (l.drop m).take (k - m) := by
    intro l
    rw [← List.take_add]
    congr 1; omega
  have e' : ∀ l : List β, l.drop k = (l.drop m).drop (k - m) := by
    intro l
    rw [List.drop_drop]; congr 1; omega
  rw [e r, e d, e' r, e' d, h2]
  exact ⟨h1.append_right _, rfl⟩

theorem partitionLoop_spec {α β : Type} [LinearOrder α] {key : β → α} {nth : List β → Nat → List β}
    (hn : NthBy key nth) : ∀ (ks : List Nat) (last : Nat) (d : List β), ks.Pairwise (fun a b => b ≤ a) →
      (∀ k ∈ ks, k ≤ last) → last ≤ d.length → (last < d.length → PivotBy key d last) →
      ∃ r, partitionLoop nth ks last d = .ok r ∧ (r.take last).Perm (d.take last) ∧ r.drop last = d.drop last ∧
        ∀ k ∈ ks, PivotBy key r k
  | [], last, d, _, _, _, _ => ⟨d, rfl, List.Perm.refl _, rfl, by simp⟩
  | k :: ks, last, d, hs, hle, hlen, hpiv => by
    have hk : k ≤ last := hle k (by simp)
    obtain ⟨hs1, hs2⟩ := List.pairwise_cons.1 hs
    have htl : (d.take last).length = last := by rw [List.length_take]; omega
    have hnl : (nth (d.take last) k).length = last := by rw [(hn.perm _ _).length_eq, htl]
    set d' := nth (d.take last) k ++ d.drop last with hd'
    have hl' : d'.length = d.length := by rw [hd', List.length_append, hnl, List.length_drop]; omega
    have ht' : (d'.take last).Perm (d.take last) := by
      rw [hd', List.take_left' hnl]; exact hn.perm _ _
    have hdr' : d'.drop last = d.drop last := by rw [hd', List.drop_left' hnl]
    have hlow : ∀ i, i < last → d'[i]? = (nth (d.take last) k)[i]? := fun i hi => by
      rw [hd', List.getElem?_append_left (by omega)]
    have hpk : k < d'.length → PivotBy key d' k := by
      intro hkl
      by_cases hkeq : k = last
      · rw [hkeq] at hkl ⊢
        exact pivotBy_rearrange (hpiv (by omega)) ht' hdr'
      · have hklt : k < last := by omega
        refine ⟨fun i a b hi ha hb => ?_, fun j a b hj ha hb => ?_⟩
        · rw [hlow i (by omega)] at ha
          rw [hlow k hklt] at hb
          exact hn.before _ _ i a b hi ha hb
        · by_cases hjl : j < last
          · rw [hlow k hklt] at ha
            rw [hlow j hjl] at hb
            exact hn.after _ _ j a b hj ha hb
          · have hjlen : j < d'.length := (List.getElem?_eq_some_iff.1 hb).1
            have hP := pivotBy_rearrange (hpiv (by omega)) ht' hdr'
            obtain ⟨c, hc⟩ : ∃ c, d'[last]? = some c := ⟨_, List.getElem?_eq_getElem (by omega)⟩
            have hac := hP.1 k a c hklt ha hc
            by_cases hjeq : j = last
            · rw [hjeq, hc] at hb
              cases hb; exact hac
            · exact le_trans hac (hP.2 j c b (by omega) hc hb)
    obtain ⟨r, r1, r2, r3, r4⟩ := partitionLoop_spec hn ks k d' hs2 (fun k' hk' => hs1 k' hk') (by omega) hpk
    obtain ⟨r5, r6⟩ := take_perm_of_prefix hk r2 r3
    refine ⟨r, ?_, r5.trans ht', r6.trans hdr', fun k' hk' => ?_⟩
    · rw [partitionLoop, if_neg (by omega)]; exact r1
    · rcases List.mem_cons.1 hk' with rfl | hk''
      · by_cases hkl : k' < d'.length
        · exact pivotBy_rearrange (hpk hkl) r2 r3
        · have hrl : r.length = d'.length := by
            have := r2.length_eq
            have h3 := congrArg List.length r3
            simp only [List.length_take, List.length_drop] at this h3
            omega
          refine ⟨fun i a b _ _ hb => ?_, fun j a b _ ha _ => ?_⟩
          · rw [List.getElem?_eq_none (by omega)] at hb; cases hb
          · rw [List.getElem?_eq_none (by omega)] at ha; cases ha
      · exact r4 k' hk''

theorem kth_sorted (kth : List Nat) :
    (kth.insertionSort (· ≤ ·)).reverse.Pairwise (fun a b => b ≤ a) ∧
      ∀ k, k ∈ (kth.insertionSort (· ≤ ·)).reverse ↔ k ∈ kth := by
  refine ⟨?_, fun k => ?_⟩
  · rw [List.pairwise_reverse]
    exact List.pairwise_insertionSort _ _
  · rw [List.mem_reverse]
    exact (List.perm_insertionSort _ _).mem_iff

/-- `partition_iter`: a permutation in which every listed position separates. -/
theorem partitionList_spec {α β : Type} [LinearOrder α] {key : β → α} {nth : List β → Nat → List β}
    (hn : NthBy key nth) {kth : List Nat} {d : List β} (hk : ∀ k ∈ kth, k ≤ d.length) :
    ∃ r, partitionList nth kth d = .ok r ∧ r.Perm d ∧ ∀ k ∈ kth, PivotBy key r k := by
  obtain ⟨h1, h2⟩ := kth_sorted kth
  obtain ⟨r, r1, r2, r3, r4⟩ := partitionLoop_spec hn _ d.length d h1
    (fun k hk' => hk k ((h2 k).1 hk')) (Nat.le_refl _) (by omega)
  refine ⟨r, r1, ?_, fun k hk' => r4 k ((h2 k).2 hk')⟩
  have e : r = r.take d.length ++ r.drop d.length := (List.take_append_drop _ _).symm
  rw [e, r3]
  simp only [List.drop_length, List.append_nil]
  simpa using r2

theorem pivotBy_id {α : Type} [LinearOrder α] [Inhabited α] {l : List α} {k : Nat} (hk : k < l.length)
    (h : PivotBy (fun a : α => a) l k) : PivotAt l k := by
  have e : ∀ i, i < l.length → l[i]? = some (l.getD i default) := fun i hi => by
    rw [List.getD_eq_getElem?_getD, List.getElem?_eq_getElem hi]; rfl
  exact ⟨fun i hi => h.1 i _ _ hi (e i (by omega)) (e k hk), fun j hj hjl => h.2 j _ _ hj (e k hk) (e j hjl)⟩

/-- A separating position holds the value a full sort puts there. -/
theorem C42_pivot_is_sorted_value {α : Type} [LinearOrder α] [Inhabited α] {r s : List α} {k : Nat}
    (hk : k < r.length) (hs : SortedOf r s) (hp : PivotAt r k) : r.getD k default = s.getD k default := by
  have hsplit : r = r.take k ++ r.getD k default :: r.drop (k + 1) := by
    rw [List.getD_eq_getElem?_getD, List.getElem?_eq_getElem hk, Option.getD_some, List.getElem_cons_drop hk,
      List.take_append_drop]
  have hso : ∀ l : List α, (l.insertionSort (· ≤ ·)).Perm l ∧ (l.insertionSort (· ≤ ·)).Pairwise (· ≤ ·) :=
    fun l => ⟨List.perm_insertionSort _ l, List.pairwise_insertionSort _ l⟩
  obtain ⟨a1, a2⟩ := hso (r.take k)
  obtain ⟨b1, b2⟩ := hso (r.drop (k + 1))
  set A := (r.take k).insertionSort (· ≤ ·)
  set B := (r.drop (k + 1)).insertionSort (· ≤ ·)
  have hA : ∀ x ∈ A, x ≤ r.getD k default := fun x hx => by
    obtain ⟨i, hi⟩ := List.mem_iff_getElem?.1 (a1.mem_iff.1 hx)
    have hik : i < k := by
      by_contra hc
      rw [List.getElem?_take_eq_none (by omega)] at hi; cases hi
    rw [List.getElem?_take_of_lt hik] at hi
    have := hp.1 i hik
    rwa [List.getD_eq_getElem?_getD, hi] at this
  have hB : ∀ x ∈ B, r.getD k default ≤ x := fun x hx => by
    obtain ⟨i, hi⟩ := List.mem_iff_getElem?.1 (b1.mem_iff.1 hx)
    rw [List.getElem?_drop] at hi
    have hlt := (List.getElem?_eq_some_iff.1 hi).1
    have := hp.2 (k + 1 + i) (by omega) hlt
    rwa [List.getD_eq_getElem?_getD (l := r) (i := k + 1 + i), hi] at this
  have hsorted : (A ++ r.getD k default :: B).Pairwise (· ≤ ·) := by
    rw [List.pairwise_append]
    refine ⟨a2, List.pairwise_cons.2 ⟨fun x hx => hB x hx, b2⟩, fun x hx y hy => ?_⟩
    rcases List.mem_cons.1 hy with rfl | hy'
    · exact hA x hx
    · exact le_trans (hA x hx) (hB y hy')
  have hperm : (A ++ r.getD k default :: B).Perm s := by
    refine List.Perm.trans ?_ hs.1.symm
    have h1 : (A ++ r.getD k default :: B).Perm (r.take k ++ r.getD k default :: r.drop (k + 1)) :=
      a1.append (b1.cons _)
    rw [← hsplit] at h1
    exact h1
  have heq : A ++ r.getD k default :: B = s := hperm.eq_of_pairwise (fun _ _ _ _ => le_antisymm) hsorted hs.2
  rw [← heq]
  have hAl : A.length = k := by rw [a1.length_eq, List.length_take]; omega
  rw [getD_append_right' (by omega), hAl]
  simp

example : SortedOf [2, 1, 3, 5, 4] [1, 2, 3, 4, 5] ∧ PivotAt [2, 1, 3, 5, 4] 2 := by
  refine ⟨⟨by decide, by decide⟩, ⟨fun i hi => ?_, fun j hj hl => ?_⟩⟩
  · match i, hi with
    | 0, _ => decide
    | 1, _ => decide
  · match j, hj, hl with
    | 3, _, _ => decide
    | 4, _, _ => decide

/-! ### partition along an axis -/

theorem partition_line_length {α β : Type} [LinearOrder α] {key : β → α} {nth : List β → Nat → List β}
    (hn : NthBy key nth) (kth : List Nat) (l : List β) :
    (match partitionList nth kth l with
      | .ok r => r
      | _ => l).length = l.length := by
  by_cases hk : ∀ k ∈ kth, k ≤ l.length
  · obtain ⟨r, r1, r2, _⟩ := partitionList_spec hn hk
    rw [r1]; exact r2.length_eq
  · split
    · next r hr =>
      exfalso
      push Not at hk
      obtain ⟨k, hk1, hk2⟩ := hk
      obtain ⟨h1, h2⟩ := kth_sorted kth
      have hmem := (h2 k).2 hk1
      unfold partitionList at hr
      cases hks : (kth.insertionSort (· ≤ ·)).reverse with
      | nil => rw [hks] at hmem; simp at hmem
      | cons a as =>
        rw [hks] at hr hmem h1
        have ha : k ≤ a := by
          rcases List.mem_cons.1 hmem with rfl | h
          · exact Nat.le_refl _
          · exact (List.pairwise_cons.1 h1).1 k h
        rw [partitionLoop, if_pos (by omega)] at hr
        cases hr
    · rfl

/-- C42: `partition(e, kth, axis)`: every line is a permutation of the original line, and every listed position
below the extent separates it (so it holds the value a full sort would put there, `C42_pivot_is_sorted_value`).
Missing for the full claim: expressions in another layout than their temporary, as for `sort`. -/
theorem C42_partition_partial {α : Type} [LinearOrder α] [Inhabited α] {nth : List α → Nat → List α}
    (hn : NthBy (fun a : α => a) nth) {L : Layout} (hL : L = .row_major ∨ L = .column_major) {v : Strd}
    (hv : v.WF) (hl : v.layout = L) (mem : Int → α) (hd : 1 ≤ v.shape.length) (hsmall : v.shape.length < 2 ^ 63)
    {axis : Int} (h1 : -(v.shape.length : Int) ≤ axis) (h2 : axis < v.shape.length) {kth : List Nat}
    (hk : ∀ k ∈ kth, k ≤ v.shape.getD (axisOf v.shape.length axis) 0) :
    ∃ r, partitionAxis nth L v mem kth axis = .ok r ∧ r.shape = v.shape ∧
      ∀ p, InBounds v.shape p →
        let n := v.shape.getD (axisOf v.shape.length axis) 0
        let out := line r.read n (axisOf v.shape.length axis) p
        out.Perm (line (v.read mem) n (axisOf v.shape.length axis) p) ∧
          ∀ k ∈ kth, k < n → PivotAt out k := by
  obtain ⟨hn1, hn2⟩ := normalizeAxis_eq hsmall h1 h2
  obtain ⟨r, r1, r2, _, _, r5⟩ := mapAxis_lines (partition_line_length hn kth) hL hv hl mem hd hsmall h1 h2
  have hax : (if v.shape.length = 1 then 0 else normalizeAxis v.shape.length axis) =
      axisOf v.shape.length axis := by
    split <;> omega
  refine ⟨r, ?_, r2, fun p hp => ?_⟩
  · unfold partitionAxis
    simp only [hax]
    rw [if_neg]
    · exact r1
    · simp only [List.any_eq_true, decide_eq_true_eq, not_exists, not_and, not_lt]
      exact hk
  · simp only
    rw [r5 p hp]
    obtain ⟨o, o1, o2, o3⟩ := partitionList_spec hn (kth := kth)
      (d := line (v.read mem) (v.shape.getD (axisOf v.shape.length axis) 0) (axisOf v.shape.length axis) p)
      (by rw [length_line]; exact hk)
    simp only [o1]
    refine ⟨o2, fun k hk' hkn => pivotBy_id ?_ (o3 k hk')⟩
    rw [o2.length_eq, length_line]; exact hkn

/-- An `nth_element` that meets the contract: sorting completely. -/
def natNth (l : List Nat) (_ : Nat) : List Nat := natSort l

theorem nthBy_of_sortBy {α β : Type} [LinearOrder α] {key : β → α} {srt : List β → List β} (h : SortBy key srt) :
    NthBy key (fun l _ => srt l) := by
  have aux : ∀ l (i j : Nat) a b, i < j → (srt l)[i]? = some a → (srt l)[j]? = some b → key a ≤ key b := by
    intro l i j a b hij ha hb
    obtain ⟨h1, rfl⟩ := List.getElem?_eq_some_iff.1 ha
    obtain ⟨h2, rfl⟩ := List.getElem?_eq_some_iff.1 hb
    exact List.pairwise_iff_getElem.1 (h.sorted l) i j h1 h2 hij
  exact ⟨fun l _ => h.perm l, fun l k i a b hi ha hb => aux l i k a b hi ha hb,
    fun l k j a b hj ha hb => aux l k j a b hj ha hb⟩

example : NthBy (fun a : Nat => a) natNth ∧ (Strd.mk [2, 3] [3, 1] 0 .row_major).WF ∧
    partitionAxis natNth .row_major ⟨[2, 3], [3, 1], 0, .row_major⟩ (natMem [3, 1, 2, 0, 5, 4]) [1, 0] 1 =
      .ok ⟨[2, 3], .row_major, [1, 2, 3, 0, 4, 5]⟩ :=
  ⟨nthBy_of_sortBy natSort_sortBy, rfl, by decide⟩

/-- C42: a position beyond the extent is undefined. -/
theorem C42_kth_beyond_ub {α : Type} [Inhabited α] (nth : List α → Nat → List α) (L : Layout) (v : Strd)
    (mem : Int → α) {kth : List Nat} {axis : Int} {n k : Nat} (hv : v.shape = [n]) (hk : k ∈ kth) (hkn : n < k) :
    partitionAxis nth L v mem kth axis = .ub := by
  unfold partitionAxis
  rw [hv]
  simp only [List.length_singleton, if_true, List.getD_cons_zero]
  rw [if_pos]
  simp only [List.any_eq_true, decide_eq_true_eq]
  exact ⟨k, hk, hkn⟩

example : partitionAxis natNth .row_major ⟨[3], [1], 0, .row_major⟩ (natMem [3, 1, 2]) [7] 0 = .ub := by decide

/-- C42 fails: `partition` of a transposed array works on the wrong axis, as `sort` does. -/
theorem C42_partition_transposed_wrong :
    ∃ (v : Strd) (mem : Int → Nat) (r : Buf Nat),
      transposeRev ⟨[2, 2], [2, 1], 0, .row_major⟩ = .ok v ∧
      partitionAxis natNth .row_major v mem [0] 0 = .ok r ∧
      line (v.read mem) 2 0 [0, 0] = [3, 1] ∧ line r.read 2 0 [0, 0] = [2, 1] :=
  ⟨⟨[2, 2], [1, 2], 0, .column_major⟩, natMem [3, 1, 2, 4], ⟨[2, 2], .row_major, [2, 3, 1, 4]⟩,
    by decide, by decide, by decide, by decide⟩

/-! ### argpartition of the flattened array -/

/-- C42: `argpartition(e, kth, xnone())` of a one-dimensional expression lists its positions so that the listed
places separate the values.  Missing for the full claim: more dimensions, see `C42_argpartition_column_wrong`. -/
theorem C42_argpartition_partial {α : Type} [LinearOrder α] {nth : (Nat → α) → List Nat → Nat → List Nat}
    (hn : ∀ key, NthBy key (nth key)) {v : Strd} {n : Nat} (hv : v.shape = [n]) (hw : v.WF) (mem : Int → α)
    {kth : List Nat} (hk : ∀ k ∈ kth, k ≤ n) :
    ∃ r, argpartitionFlat nth v mem kth = .ok r ∧ r.Perm (List.range n) ∧
      ∀ k ∈ kth, ∀ i j, r[k]? = some j →
        ((∃ a, a < k ∧ r[a]? = some i) → v.read mem [i] ≤ v.read mem [j]) ∧
        ((∃ a, k < a ∧ r[a]? = some i) → v.read mem [j] ≤ v.read mem [i]) := by
  unfold argpartitionFlat
  have hnum : v.shape.foldl (· * ·) 1 = n := by rw [hv]; simp
  rw [hnum]
  obtain ⟨r, r1, r2, r3⟩ := partitionList_spec (hn fun (i : Nat) => mem (v.index [(i : Int)])) (kth := kth)
    (d := List.range n) (by rw [List.length_range]; exact hk)
  refine ⟨r, r1, r2, fun k hk' i j hj => ⟨?_, ?_⟩⟩
  · rintro ⟨a, ha, hi⟩
    exact (r3 k hk').1 a i j ha hi hj
  · rintro ⟨a, ha, hi⟩
    exact (r3 k hk').2 a j i ha hj hi

/-- The contract of `nth_element` for positions, met by sorting. -/
def argNth (key : Nat → Nat) (l : List Nat) (_ : Nat) : List Nat := argNat key l

theorem argNth_nthBy (key : Nat → Nat) : NthBy key (argNth key) := nthBy_of_sortBy (sortBy_insertion key)

example : (∀ key, NthBy key (argNth key)) ∧ (Strd.mk [3] [1] 0 .row_major).WF ∧
    argpartitionFlat argNth ⟨[3], [1], 0, .row_major⟩ (natMem [3, 1, 2]) [0] = .ok [1, 2, 0] :=
  ⟨argNth_nthBy, rfl, by decide⟩

/-- C42 fails: on a column (3 × 1 array) the flattened `argpartition` compares the first element with itself. -/
theorem C42_argpartition_column_wrong :
    ∃ (b : Buf Nat), b = ⟨[3, 1], .row_major, [3, 1, 2]⟩ ∧
      argpartitionFlat argNth b.strd b.mem [0] = .ok [0, 1, 2] ∧ b.read [1, 0] < b.read [0, 0] :=
  ⟨_, rfl, by decide, by decide⟩

/-- C42 fails: on a column-major array it reads beyond the storage (a 2 × 2 array has no element 6). -/
theorem C42_argpartition_column_major_outside :
    (Buf.mk [2, 2] .column_major [3, 1, 2, 4]).strd.index [3] = 6 := by decide

/-! ### median -/

/-- C42: the median of the flattened values is the middle of the sorted list, or the mean of the two middle
ones. -/
theorem C42_median {nth : List Rat → Nat → List Rat} (hn : NthBy (fun a : Rat => a) nth) {l s : List Rat}
    (hs : SortedOf l s) (hl : l ≠ []) : medianFlat nth (· / 2) l = .ok (Median s) := by
  have hpos : 0 < l.length := List.length_pos_iff.2 hl
  have hsl : s.length = l.length := hs.1.length_eq
  have key : ∀ (kth : List Nat), (∀ k ∈ kth, k < l.length) →
      ∃ r, partitionList nth kth l = .ok r ∧ ∀ k ∈ kth, r.getD k default = s.getD k default := by
    intro kth hk
    obtain ⟨r, r1, r2, r3⟩ := partitionList_spec hn (kth := kth) (d := l) (fun k h => (hk k h).le)
    refine ⟨r, r1, fun k h => ?_⟩
    have hkr : k < r.length := by rw [r2.length_eq]; exact hk k h
    exact C42_pivot_is_sorted_value hkr ⟨hs.1.trans r2.symm, hs.2⟩ (pivotBy_id hkr (r3 k h))
  unfold medianFlat Median
  rw [hsl]
  by_cases he : l.length % 2 = 0
  · rw [if_pos he, if_neg (by omega), if_neg (by omega)]
    obtain ⟨r, r1, r2⟩ := key [l.length / 2 - 1, l.length / 2] (by
      intro k hk
      simp only [List.mem_cons, List.not_mem_nil, or_false] at hk
      omega)
    rw [r1]
    simp only [Res.map, Res.bind]
    rw [r2 _ (by simp), r2 _ (by simp)]
    rfl
  · rw [if_neg he, if_pos (by omega)]
    obtain ⟨r, r1, r2⟩ := key [(l.length - 1) / 2] (by
      intro k hk
      simp only [List.mem_cons, List.not_mem_nil, or_false] at hk
      omega)
    rw [r1]
    simp only [Res.map, Res.bind]
    rw [r2 _ (by simp), show (l.length - 1) / 2 = l.length / 2 by omega]
    rfl

example : SortedOf [3, 1, 2, 5] ([1, 2, 3, 5] : List Rat) ∧ Median [1, 2, 3, 5] = 5 / 2 :=
  ⟨⟨by decide, by decide +kernel⟩, by decide +kernel⟩

/-- C42 fails: with integers the mean of the two middle values is truncated. -/
theorem C42_median_integer_truncates :
    medianFlat natNth (· / 2) [2, 1] = .ok 1 ∧ Median [1, 2] = 3 / 2 := by
  constructor <;> decide +kernel

/-- C42: the median of an empty expression is undefined. -/
theorem C42_median_empty_ub {α : Type} [Inhabited α] [Add α] (nth : List α → Nat → List α) (half : α → α) :
    medianFlat nth half [] = .ub := rfl

theorem insertIdx_set_self {p : List Nat} {ax t u : Nat} (h : ax ≤ p.length) :
    (p.insertIdx ax t).set ax u = p.insertIdx ax u := by
  induction p generalizing ax with
  | nil =>
    have : ax = 0 := by simpa using h
    subst this; rfl
  | cons x xs ih =>
    cases ax with
    | zero => rfl
    | succ a => simp only [List.insertIdx_succ_cons, List.set_cons_succ]; rw [ih (by simpa using h)]

theorem line_getD {α : Type} [Inhabited α] (g : List Nat → α) {n ax t : Nat} (p : List Nat) (h : t < n) :
    (line g n ax p).getD t default = g (p.set ax t) := by
  unfold line
  simp [List.getD_eq_getElem?_getD, h]

theorem inBounds_insertIdx_zero {sh p : List Nat} {ax t : Nat} (hax : ax < sh.length)
    (hp : InBounds (sh.eraseIdx ax) p) (ht : t < sh.getD ax 0) : InBounds sh (p.insertIdx ax t) := by
  induction sh generalizing p ax with
  | nil => simp at hax
  | cons s ss ih =>
    cases ax with
    | zero =>
      simp only [List.eraseIdx_cons_zero] at hp
      exact ⟨by simpa using ht, hp⟩
    | succ a =>
      simp only [List.eraseIdx_cons_succ] at hp
      cases p with
      | nil => simp at hp
      | cons x xs =>
        simp only [List.insertIdx_succ_cons]
        exact ⟨hp.1, ih (by simpa using hax) hp.2 (by simpa using ht)⟩

/-- C42: `median(e, axis)` at an index of the remaining axes is the median of the line through it.  Missing for the
full claim: expressions in another layout than their temporary. -/
theorem C42_median_axis_partial {nth : List Rat → Nat → List Rat} (hn : NthBy (fun a : Rat => a) nth) {L : Layout}
    (hL : L = .row_major ∨ L = .column_major) {v : Strd} (hv : v.WF) (hl : v.layout = L) (mem : Int → Rat)
    (hd : 1 ≤ v.shape.length) (hsmall : v.shape.length < 2 ^ 63) {axis : Int}
    (h1 : -(v.shape.length : Int) ≤ axis) (h2 : axis < v.shape.length)
    (hpos : 0 < v.shape.getD (axisOf v.shape.length axis) 0) {p : List Nat}
    (hp : InBounds (v.shape.eraseIdx (axisOf v.shape.length axis)) p) {s : List Rat}
    (hs : SortedOf (line (v.read mem) (v.shape.getD (axisOf v.shape.length axis) 0)
      (axisOf v.shape.length axis) (p.insertIdx (axisOf v.shape.length axis) 0)) s) :
    medianAxis nth L v mem axis p = .ok (Median s) := by
  obtain ⟨hn1, hn2⟩ := normalizeAxis_eq hsmall h1 h2
  have hax2 : axisOf v.shape.length ((axisOf v.shape.length axis : Nat) : Int) = axisOf v.shape.length axis := by
    generalize axisOf v.shape.length axis = a
    unfold axisOf; split <;> omega
  have hsl : s.length = v.shape.getD (axisOf v.shape.length axis) 0 := by
    rw [hs.1.length_eq, length_line]
  have hpl : p.length + 1 = v.shape.length := by
    have := hp.length_eq
    rw [List.length_eraseIdx, if_pos hn2] at this
    omega
  have key : ∀ kth : List Nat, (∀ k ∈ kth, k < v.shape.getD (axisOf v.shape.length axis) 0) →
      ∃ r, partitionAxis nth L v mem kth ((axisOf v.shape.length axis : Nat) : Int) = .ok r ∧
        ∀ k ∈ kth, r.read (p.insertIdx (axisOf v.shape.length axis) k) = s.getD k default := by
    intro kth hk
    obtain ⟨r, r1, r2, r3⟩ := C42_partition_partial hn hL hv hl mem hd hsmall
      (axis := ((axisOf v.shape.length axis : Nat) : Int)) (by omega) (by omega) (kth := kth)
      (by rw [hax2]; exact fun k h => (hk k h).le)
    refine ⟨r, r1, fun k h => ?_⟩
    rw [hax2] at r3
    obtain ⟨r4, r5⟩ := r3 (p.insertIdx (axisOf v.shape.length axis) 0) (inBounds_insertIdx_zero hn2 hp hpos)
    have hkn := hk k h
    have hpv := r5 k h hkn
    have := C42_pivot_is_sorted_value (s := s) (by rw [length_line]; exact hkn)
      ⟨hs.1.trans r4.symm, hs.2⟩ hpv
    rw [line_getD _ _ hkn, insertIdx_set_self (by omega)] at this
    exact this
  unfold medianAxis Median
  simp only [hn1]
  generalize v.shape.getD (axisOf v.shape.length axis) 0 = n at *
  rw [hsl]
  by_cases he : n % 2 = 0
  · rw [if_pos he, if_neg (by omega), if_neg (by omega)]
    obtain ⟨r, r1, r2⟩ := key [n / 2 - 1, n / 2] (by
      intro k hk
      simp only [List.mem_cons, List.not_mem_nil, or_false] at hk
      omega)
    rw [r1]
    simp only [Res.map, Res.bind]
    rw [r2 _ (by simp), r2 _ (by simp)]
    rfl
  · rw [if_neg he, if_pos (by omega)]
    obtain ⟨r, r1, r2⟩ := key [(n - 1) / 2] (by
      intro k hk
      simp only [List.mem_cons, List.not_mem_nil, or_false] at hk
      omega)
    rw [r1]
    simp only [Res.map, Res.bind]
    rw [r2 _ (by simp), show (n - 1) / 2 = n / 2 by omega, div_one]
    rfl

/-- Storage and `nth_element` of rational examples. -/
def ratNth (l : List Rat) (_ : Nat) : List Rat := l.insertionSort fun a b => a ≤ b

example : NthBy (fun a : Rat => a) ratNth ∧
    medianAxis ratNth .row_major ⟨[2, 3], [3, 1], 0, .row_major⟩
      (fun k => ([3, 1, 2, 0, 5, 4] : List Rat).getD k.toNat 0) (-2) [1] = .ok 3 :=
  ⟨nthBy_of_sortBy (sortBy_insertion fun a : Rat => a), by decide +kernel⟩

end Xt
