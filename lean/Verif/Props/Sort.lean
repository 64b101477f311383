import Verif.Lemmas.Sort
/-!
# C41: sort and argsort along an axis
-/

namespace Xt

open Spec

theorem inBounds_set_at {sh p : List Nat} (h : InBounds sh p) {ax t : Nat} (ht : t < sh.getD ax 0) :
    InBounds sh (p.set ax t) := by
  rw [inBounds_iff_get] at h ⊢
  refine ⟨by simpa using h.1, fun k hk => ?_⟩
  by_cases hka : ax = k
  · subst hka
    rw [getD_set_nat (by omega), if_pos rfl]; exact ht
  · by_cases hax : ax < p.length
    · rw [getD_set_nat hax, if_neg hka]; exact h.2 k hk
    · rw [List.set_eq_of_length_le (by omega)]; exact h.2 k hk

theorem line_congr {α : Type} {g g' : List Nat → α} {n ax : Nat} {p p' : List Nat}
    (h : ∀ t, t < n → g (p.set ax t) = g' (p'.set ax t)) : line g n ax p = line g' n ax p' := by
  unfold line
  apply List.map_congr_left
  intro t ht
  exact h t (List.mem_range.1 ht)

theorem length_line {α : Type} (g : List Nat → α) (n ax : Nat) (p : List Nat) : (line g n ax p).length = n := by
  simp [line]

/-- A line along the fastest axis is a segment of the storage. -/
theorem line_lead {α : Type} [Inhabited α] (b : Buf α) (hb : b.WF) (hd : 0 < b.shape.length) {p : List Nat}
    (hp : InBounds b.shape p) :
    let ax := leadOf b.layout b.shape.length
    let s := b.shape.getD ax 0
    let k := travRank b.layout (b.shape.eraseIdx ax) (p.eraseIdx ax)
    k < numel (b.shape.eraseIdx ax) ∧ k * s + s ≤ b.data.length ∧
      line b.read s ax p = (b.data.drop (k * s)).take s := by
  intro ax s k
  have hax : ax < b.shape.length := leadOf_lt _ hd
  have hk : k < numel (b.shape.eraseIdx ax) := travRank_lt _ (inBounds_eraseIdx hp ax)
  have hle : k * s + s ≤ b.data.length := by
    rw [hb, ← numel_eraseIdx hax, ← Nat.succ_mul]
    exact Nat.mul_le_mul_right _ hk
  refine ⟨hk, hle, ?_⟩
  rw [segment_eq b.data default (k * s) s hle]
  unfold line
  apply List.map_congr_left
  intro t ht
  have ht' := List.mem_range.1 ht
  rw [b.read_eq (inBounds_set_at hp ht'), travRank_set_lead b.layout hd hp ht']

/-- The loop over the leading axis applies the function to every line. -/
theorem overLeading_line {α : Type} [Inhabited α] {f : List α → List α} (hf : ∀ l, (f l).length = l.length)
    (b : Buf α) (hb : b.WF) (hd : 2 ≤ b.shape.length) :
    (overLeading f b).shape = b.shape ∧ (overLeading f b).layout = b.layout ∧ (overLeading f b).WF ∧
    ∀ p, InBounds b.shape p →
      line (overLeading f b).read (b.shape.getD (leadOf b.layout b.shape.length) 0)
          (leadOf b.layout b.shape.length) p =
        f (line b.read (b.shape.getD (leadOf b.layout b.shape.length) 0) (leadOf b.layout b.shape.length) p) := by
  have hd0 : 0 < b.shape.length := by omega
  have hs := secondaryStride_eq b hd
  have hax : leadOf b.layout b.shape.length < b.shape.length := leadOf_lt _ hd0
  unfold overLeading
  simp only [hs]
  by_cases h0 : (b.shape.getD (leadOf b.layout b.shape.length) 0 : Int) = 0
  · rw [if_pos h0]
    refine ⟨rfl, rfl, hb, fun p hp => ?_⟩
    have h1 : b.shape.getD (leadOf b.layout b.shape.length) 0 = 0 := by omega
    have h2 := (inBounds_iff_get.1 hp).2 _ hax
    omega
  · rw [if_neg h0, leadingIters_eq b hd0, Int.toNat_natCast]
    have hwf : (Buf.mk b.shape b.layout (overBlocks f (b.shape.getD (leadOf b.layout b.shape.length) 0)
        (numel (b.shape.eraseIdx (leadOf b.layout b.shape.length))) b.data)).WF := by
      unfold Buf.WF
      simp only [overBlocks_length hf]
      exact hb
    refine ⟨rfl, rfl, hwf, fun p hp => ?_⟩
    obtain ⟨h1, h2, h3⟩ := line_lead b hb hd0 hp
    obtain ⟨g1, g2, g3⟩ := line_lead _ hwf hd0 hp
    simp only at g3
    rw [h3, g3, segment_eq _ default _ _ g2]
    have hn := numel_eraseIdx hax
    generalize b.shape.getD (leadOf b.layout b.shape.length) 0 = s at *
    have hlen : (f ((b.data.drop (travRank b.layout (b.shape.eraseIdx (leadOf b.layout b.shape.length))
        (p.eraseIdx (leadOf b.layout b.shape.length)) * s)).take s)).length = s := by
      rw [hf, List.length_take, List.length_drop]; omega
    conv_rhs => rw [list_eq_map_getD (f _) default, hlen]
    apply List.map_congr_left
    intro t ht
    refine overBlocks_get hf s default _ _ ?_ _ _ h1 (List.mem_range.1 ht)
    rw [hb, hn]

theorem getD_permute {perm l : List Nat} {j : Nat} (hj : j < perm.length) :
    (permute perm l).getD j 0 = l.getD (perm.getD j 0) 0 := by
  unfold permute; rw [getD_map_lt hj]

theorem permute_set_at {n : Nat} {perm l : List Nat} (hp : ValidPerm n perm) (hl : l.length = n) {j t : Nat}
    (hj : j < n) : permute perm (l.set (perm.getD j 0) t) = (permute perm l).set j t := by
  have hpl := hp.1
  apply ext_getD (by simp [permute])
  intro k hk
  have hk' : k < perm.length := by simpa [permute] using hk
  have hjp : perm.getD j 0 < l.length := by
    rw [hl]; apply hp.2.2
    rw [List.getD_eq_getElem?_getD, List.getElem?_eq_getElem (by omega)]
    exact List.getElem_mem _
  rw [getD_permute hk', getD_set_nat hjp, getD_set_nat (by simp [permute]; omega), getD_permute hk']
  by_cases hjk : j = k
  · rw [if_pos hjk, if_pos (by rw [hjk])]
  · rw [if_neg hjk, if_neg]
    intro he
    apply hjk
    have h1 : perm[j]'(by omega) = perm[k] := by
      have e1 : perm.getD j 0 = perm[j]'(by omega) := by
        rw [List.getD_eq_getElem?_getD, List.getElem?_eq_getElem (by omega)]; rfl
      have e2 : perm.getD k 0 = perm[k] := by
        rw [List.getD_eq_getElem?_getD, List.getElem?_eq_getElem (by omega)]; rfl
      rw [← e1, ← e2, he]
    exact (List.Nodup.getElem_inj_iff hp.2.1).1 h1

theorem sortPerms_eq {dim ax : Nat} (h : ax < dim) (L : Layout) :
    sortPerms dim ax L = (movePerm dim ax (leadOf L dim), invPerm dim (movePerm dim ax (leadOf L dim))) := by
  have hlen : ((List.range dim).eraseIdx ax).length = dim - 1 := by
    rw [List.length_eraseIdx, List.length_range, if_pos h]
  have key : (if L = .row_major then (List.range dim).eraseIdx ax ++ [ax] else ax :: (List.range dim).eraseIdx ax) =
      movePerm dim ax (leadOf L dim) := by
    unfold movePerm leadOf
    by_cases hL : L = .row_major
    · rw [if_pos hL, if_pos hL, ← hlen]; simp
    · rw [if_neg hL, if_neg hL]; simp
  unfold sortPerms invPerm
  simp only [key]

theorem movePerm_at_dest {dim ax j : Nat} (h : ax < dim) (hj : j < dim) : (movePerm dim ax j).getD j 0 = ax := by
  have hlen : ((List.range dim).eraseIdx ax).length = dim - 1 := by
    rw [List.length_eraseIdx, List.length_range, if_pos h]
  unfold movePerm
  rw [List.getD_eq_getElem?_getD, List.getElem?_insertIdx_self, if_pos (by omega)]
  rfl

theorem leadingAxis_eq {v : Strd} (hd : 1 ≤ v.shape.length) (hsmall : v.shape.length < 2 ^ 63)
    (hL : v.layout = .row_major ∨ v.layout = .column_major) :
    leadingAxis v = .ok (leadOf v.layout v.shape.length) := by
  unfold leadingAxis leadOf
  by_cases h : v.layout = .row_major
  · rw [if_pos h, if_pos h]
    congr 1
    omega
  · rw [if_neg h, if_neg h, if_pos (hL.resolve_left h)]

/-- The function handed to `map_axis` is applied to every line along the axis, whatever the shape, if the
expression is in the layout of the container made from it. -/
theorem mapAxis_lines {α : Type} [Inhabited α] {f : List α → List α} (hf : ∀ l, (f l).length = l.length)
    {L : Layout} (hL : L = .row_major ∨ L = .column_major) {v : Strd} (hv : v.WF) (hl : v.layout = L)
    (mem : Int → α) (hd : 1 ≤ v.shape.length) (hsmall : v.shape.length < 2 ^ 63) {axis : Int}
    (h1 : -(v.shape.length : Int) ≤ axis) (h2 : axis < v.shape.length) :
    ∃ r, mapAxis L v mem axis f = .ok r ∧ r.shape = v.shape ∧ r.layout = L ∧ r.WF ∧
      ∀ p, InBounds v.shape p →
        line r.read (v.shape.getD (axisOf v.shape.length axis) 0) (axisOf v.shape.length axis) p =
          f (line (v.read mem) (v.shape.getD (axisOf v.shape.length axis) 0) (axisOf v.shape.length axis) p) := by
  obtain ⟨hn1, hn2⟩ := normalizeAxis_eq hsmall h1 h2
  unfold mapAxis
  by_cases hone : v.shape.length = 1
  · rw [if_pos hone]
    have hax : axisOf v.shape.length axis = 0 := by omega
    have hwf : (Buf.mk v.shape L (f (copyTo L v mem).data)).WF := by
      unfold Buf.WF
      rw [hf]; exact copyTo_wf L v mem
    refine ⟨_, rfl, rfl, rfl, hwf, fun p hp => ?_⟩
    rw [hax]
    have hlead : leadOf L v.shape.length = 0 := by unfold leadOf; split <;> omega
    obtain ⟨k1, k2, k3⟩ := line_lead _ hwf (by simp; omega) hp
    obtain ⟨g1, g2, g3⟩ := line_lead (copyTo L v mem) (copyTo_wf L v mem)
      (by show 0 < v.shape.length; omega) hp
    have hsh : (copyTo L v mem).shape = v.shape := rfl
    have hly : (copyTo L v mem).layout = L := rfl
    simp only [hlead, hsh, hly] at k3 g3 k2 g2 k1 g1
    have hz : numel (v.shape.eraseIdx 0) = 1 := by
      match hs : v.shape with
      | [] => rw [hs] at hone; simp at hone
      | [a] => rfl
      | a :: b :: l => rw [hs] at hone; simp at hone
    have hk : travRank L (v.shape.eraseIdx 0) (p.eraseIdx 0) = 0 := by omega
    have hnum : numel v.shape = v.shape.getD 0 0 := by
      rw [← numel_eraseIdx (ax := 0) (by omega), hz, Nat.one_mul]
    have hcl : (copyTo L v mem).data.length = v.shape.getD 0 0 := by
      rw [copyTo_wf L v mem, ← hnum]; rfl
    rw [hk, Nat.zero_mul, List.drop_zero] at k3 g3
    have e : line (v.read mem) (v.shape.getD 0 0) 0 p = line (copyTo L v mem).read (v.shape.getD 0 0) 0 p :=
      line_congr fun t ht => (copyTo_read L v mem (inBounds_set_at hp ht)).symm
    refine Eq.trans k3 ?_
    rw [e, g3, List.take_of_length_le (by rw [hf]; omega), List.take_of_length_le (by omega)]
  · rw [if_neg hone, leadingAxis_eq hd hsmall (by rw [hl]; exact hL)]
    simp only [Res.bind, hn1]
    rw [if_neg (by omega), hl]
    generalize axisOf v.shape.length axis = ax at *
    by_cases hlead : ax = leadOf L v.shape.length
    · rw [if_pos hlead]
      obtain ⟨a1, a2, a3, a4⟩ := overLeading_line hf (copyTo L v mem) (copyTo_wf L v mem)
        (by show 2 ≤ v.shape.length; omega)
      refine ⟨_, rfl, a1, a2, a3, fun p hp => ?_⟩
      have := a4 p hp
      rw [hlead]
      refine Eq.trans this ?_
      congr 1
      exact line_congr fun t ht => copyTo_read L v mem (inBounds_set_at hp ht)
    · rw [if_neg hlead, sortPerms_eq hn2]
      have hll : leadOf L v.shape.length < v.shape.length := leadOf_lt _ (by omega)
      have hperm := movePerm_valid hn2 hll
      have hget := movePerm_at_dest hn2 hll
      generalize movePerm v.shape.length ax (leadOf L v.shape.length) = perm at *
      obtain ⟨t, t1, t2, t3, t4, _⟩ := C33_transpose hv hperm
      simp only [t1]
      have htl : t.shape.length = v.shape.length := by rw [t3]; simp [permute, hperm.1]
      obtain ⟨a1, a2, a3, a4⟩ := overLeading_line hf (copyTo L t mem) (copyTo_wf L t mem)
        (by show 2 ≤ t.shape.length; omega)
      generalize hres : overLeading f (copyTo L t mem) = res at *
      have hrsh : res.shape = t.shape := a1
      have hinv : ValidPerm res.strd.shape.length (invPerm v.shape.length perm) := by
        have : res.strd.shape.length = v.shape.length := by
          show res.shape.length = _; rw [hrsh, htl]
        rw [this]; exact validPerm_inv hperm
      obtain ⟨w, w1, w2, w3, w4, _⟩ := C33_transpose res.strd_wf hinv
      simp only [w1]
      have hwsh : w.shape = v.shape := by
        rw [w3]
        show permute _ res.shape = _
        rw [hrsh, t3, permute_inv hperm rfl]
      refine ⟨_, rfl, hwsh, rfl, copyTo_wf L w res.mem, fun p hp => ?_⟩
      have hlen := hp.length_eq
      have hq := (t4 p hp).1
      have hax : t.shape.getD (leadOf L t.shape.length) 0 = v.shape.getD ax 0 := by
        rw [htl, t3, getD_permute (by rw [hperm.1]; exact hll), hget]
      have key := a4 (permute perm p) hq
      have hsh : (copyTo L t mem).shape = t.shape := rfl
      have hly : (copyTo L t mem).layout = L := rfl
      rw [htl] at hax
      simp only [hsh, hly, htl, hax] at key
      have hset : ∀ τ, (permute perm p).set (leadOf L v.shape.length) τ = permute perm (p.set ax τ) := by
        intro τ
        rw [← hget, permute_set_at hperm hlen hll]
      have eL : line (copyTo L w res.mem).read (v.shape.getD ax 0) ax p =
          line res.read (v.shape.getD ax 0) (leadOf L v.shape.length) (permute perm p) := by
        unfold line
        apply List.map_congr_left
        intro τ hτ
        have hb := inBounds_set_at hp (List.mem_range.1 hτ)
        rw [copyTo_read L w res.mem (by rw [hwsh]; exact hb), hset τ]
        have hqb : InBounds res.strd.shape (permute perm (p.set ax τ)) := by
          show InBounds res.shape _
          rw [hrsh]; exact (t4 _ hb).1
        have hw := (w4 _ hqb).2
        rw [permute_inv hperm (by simpa using hlen)] at hw
        unfold Strd.read Buf.read
        rw [hw]
      have eR : line (copyTo L t mem).read (v.shape.getD ax 0) (leadOf L v.shape.length) (permute perm p) =
          line (v.read mem) (v.shape.getD ax 0) ax p := by
        unfold line
        apply List.map_congr_left
        intro τ hτ
        have hb := inBounds_set_at hp (List.mem_range.1 hτ)
        rw [hset τ, copyTo_read L t mem (t4 _ hb).1]
        unfold Strd.read
        rw [(t4 _ hb).2]
      rw [eL, key, eR]

/-! ### sort -/

/-- C41: `sort(e, axis)` replaces every line along the axis by its sorted permutation, for every shape, content
and axis — as long as the expression has the layout of the container made from it.  Missing for the full claim:
expressions in another layout, see `C41_sort_transposed_wrong` and `C41_sort_dynamic_throws`. -/
theorem C41_sort_partial {α : Type} [LinearOrder α] [Inhabited α] {srt : List α → List α}
    (hs : SortBy (fun a : α => a) srt) {L : Layout} (hL : L = .row_major ∨ L = .column_major) {v : Strd}
    (hv : v.WF) (hl : v.layout = L) (mem : Int → α) (hd : 1 ≤ v.shape.length) (hsmall : v.shape.length < 2 ^ 63)
    {axis : Int} (h1 : -(v.shape.length : Int) ≤ axis) (h2 : axis < v.shape.length) :
    ∃ r, sortAxis srt L v mem axis = .ok r ∧ r.shape = v.shape ∧
      ∀ p, InBounds v.shape p →
        SortedOf
          (line (v.read mem) (v.shape.getD (axisOf v.shape.length axis) 0) (axisOf v.shape.length axis) p)
          (line r.read (v.shape.getD (axisOf v.shape.length axis) 0) (axisOf v.shape.length axis) p) := by
  obtain ⟨r, r1, r2, _, _, r5⟩ := mapAxis_lines (fun l => (hs.perm l).length_eq) hL hv hl mem hd hsmall h1 h2
  refine ⟨r, r1, r2, fun p hp => ?_⟩
  rw [r5 p hp]
  exact ⟨hs.perm _, hs.sorted _⟩

/-- A sorting function that meets the contract. -/
theorem sortBy_insertion {α β : Type} [LinearOrder α] (key : β → α) :
    SortBy key (fun l => l.insertionSort fun a b => key a ≤ key b) := by
  haveI : Std.Total (fun a b : β => key a ≤ key b) := ⟨fun a b => le_total _ _⟩
  haveI : IsTrans β (fun a b : β => key a ≤ key b) := ⟨fun a b c => le_trans⟩
  exact ⟨fun l => List.perm_insertionSort _ l, fun l => List.pairwise_insertionSort _ l⟩

/-- Sorting used in the examples. -/
def natSort (l : List Nat) : List Nat := l.insertionSort fun a b => a ≤ b

theorem natSort_sortBy : SortBy (fun a : Nat => a) natSort := sortBy_insertion fun a : Nat => a

/-- Storage of the examples. -/
def natMem (l : List Nat) (k : Int) : Nat := l.getD k.toNat 0

example : (Strd.mk [2, 3] [3, 1] 0 .row_major).WF ∧
    sortAxis natSort .row_major ⟨[2, 3], [3, 1], 0, .row_major⟩ (natMem [3, 1, 2, 0, 5, 4]) 1 =
      .ok ⟨[2, 3], .row_major, [1, 2, 3, 0, 4, 5]⟩ ∧
    sortAxis natSort .row_major ⟨[2, 3], [3, 1], 0, .row_major⟩ (natMem [3, 1, 2, 0, 5, 4]) 0 =
      .ok ⟨[2, 3], .row_major, [0, 1, 2, 3, 5, 4]⟩ := ⟨rfl, by decide, by decide⟩

/-- C41 fails: the transpose of a row-major array is column-major, its temporary row-major; sorting it along axis 0
sorts along axis 1, and the other way round. -/
theorem C41_sort_transposed_wrong :
    ∃ (v : Strd) (mem : Int → Nat) (r0 r1 : Buf Nat),
      transposeRev ⟨[2, 2], [2, 1], 0, .row_major⟩ = .ok v ∧
      sortAxis natSort .row_major v mem 0 = .ok r0 ∧ sortAxis natSort .row_major v mem 1 = .ok r1 ∧
      line (v.read mem) 2 0 [0, 0] = [3, 1] ∧ line r0.read 2 0 [0, 0] = [2, 1] ∧
      line (v.read mem) 2 1 [0, 0] = [3, 2] ∧ line r1.read 2 1 [0, 0] = [1, 2] ∧
      line r1.read 2 1 [1, 0] = [3, 4] :=
  ⟨⟨[2, 2], [1, 2], 0, .column_major⟩, natMem [3, 1, 2, 4],
    ⟨[2, 2], .row_major, [2, 3, 1, 4]⟩, ⟨[2, 2], .row_major, [1, 2, 3, 4]⟩, by decide, by decide, by decide, by decide,
    by decide, by decide, by decide, by decide⟩

/-- C41 fails: an expression of several dimensions in neither order cannot be sorted. -/
theorem C41_sort_dynamic_throws {α : Type} [Inhabited α] (srt : List α → List α) (L : Layout) (v : Strd)
    (mem : Int → α) (axis : Int) (hd : v.shape.length ≠ 1) (hl : v.layout = .dynamic) :
    sortAxis srt L v mem axis = .throws := by
  unfold sortAxis mapAxis
  rw [if_neg hd]
  unfold leadingAxis
  rw [if_neg (by rw [hl]; decide), if_neg (by rw [hl]; decide)]
  rfl

example : ∃ v, transposePerm ⟨[2, 3, 2], [6, 2, 1], 0, .row_major⟩ [1, 0, 2] = .ok v ∧ v.layout = .dynamic :=
  ⟨_, rfl, by decide⟩

/-- C41: an axis that is out of range is not reported (undefined) once there are two dimensions. -/
theorem C41_bad_axis_ub {α : Type} [Inhabited α] (srt : List α → List α) {L : Layout} {v : Strd} (mem : Int → α)
    {axis : Int} (hd : v.shape.length ≠ 1) (hl : v.layout = .row_major ∨ v.layout = .column_major)
    (hax : (v.shape.length : Int) ≤ axis) : sortAxis srt L v mem axis = .ub := by
  unfold sortAxis mapAxis
  rw [if_neg hd]
  have hb : v.shape.length ≤ normalizeAxis v.shape.length axis := by
    unfold normalizeAxis
    rw [if_neg (by omega)]; omega
  rcases hl with hl | hl
  · unfold leadingAxis
    rw [if_pos hl]
    simp only [Res.bind]
    rw [if_pos hb]
  · unfold leadingAxis
    rw [if_neg (by rw [hl]; decide), if_pos hl]
    simp only [Res.bind]
    rw [if_pos hb]

example : sortAxis natSort .row_major ⟨[2, 2], [2, 1], 0, .row_major⟩ (natMem [3, 1, 2, 4]) 5 = .ub := by decide

/-- C41: `sort(e, xnone())` lists all elements in nondecreasing order. -/
theorem C41_sort_flat {α : Type} [LinearOrder α] {srt : List α → List α} (hs : SortBy (fun a : α => a) srt)
    (v : Strd) (mem : Int → α) :
    SortedOf ((rowIndices v.shape).map fun q => mem (v.index (toInts q))) (sortFlat srt v mem) :=
  ⟨hs.perm _, hs.sorted _⟩

example : sortFlat natSort ⟨[2, 2], [2, 1], 0, .row_major⟩ (natMem [3, 1, 2, 4]) = [1, 2, 3, 4] := by decide

/-! ### argsort -/

theorem length_stableSort {α β : Type} [LinearOrder α] (key : β → α) (l : List β) :
    (stableSort key l).length = l.length := (sortBy_insertion key).perm l |>.length_eq

/-- Inserting an index smaller than those present keeps equal keys in order. -/
theorem orderedInsert_stable {α : Type} [LinearOrder α] (key : Nat → α) (a : Nat) :
    ∀ l : List Nat, (∀ x ∈ l, a < x) →
      l.Pairwise (fun i j => key i < key j ∨ (key i = key j ∧ i < j)) →
      (l.orderedInsert (fun a b => key a ≤ key b) a).Pairwise
        fun i j => key i < key j ∨ (key i = key j ∧ i < j)
  | [], _, _ => by simp
  | b :: l, hlt, hp => by
    rw [List.orderedInsert_cons]
    have hp' := List.pairwise_cons.1 hp
    split
    · next h =>
      refine List.pairwise_cons.2 ⟨fun x hx => ?_, hp⟩
      have hbx : key b ≤ key x := by
        rcases List.mem_cons.1 hx with rfl | hx'
        · exact le_refl _
        · rcases hp'.1 x hx' with h' | h'
          · exact h'.le
          · exact h'.1.le
      rcases lt_or_eq_of_le (le_trans h hbx) with h' | h'
      · exact Or.inl h'
      · exact Or.inr ⟨h', hlt x hx⟩
    · next h =>
      refine List.pairwise_cons.2 ⟨fun x hx => ?_, orderedInsert_stable key a l
        (fun x hx => hlt x (List.mem_cons_of_mem _ hx)) hp'.2⟩
      rcases List.mem_cons.1 ((List.perm_orderedInsert _ a l).mem_iff.1 hx) with rfl | hx'
      · exact Or.inl (not_le.1 h)
      · exact hp'.1 x hx'

theorem stableSort_stable {α : Type} [LinearOrder α] (key : Nat → α) :
    ∀ l : List Nat, l.Pairwise (· < ·) →
      (stableSort key l).Pairwise fun i j => key i < key j ∨ (key i = key j ∧ i < j)
  | [], _ => by simp [stableSort]
  | a :: l, h => by
    have h' := List.pairwise_cons.1 h
    unfold stableSort
    rw [List.insertionSort_cons]
    refine orderedInsert_stable key a _ (fun x hx => h'.1 x ?_) (stableSort_stable key l h'.2)
    exact ((sortBy_insertion key).perm l).mem_iff.1 hx

/-- One line: the indices are a permutation that sorts the values, stably if asked. -/
theorem argsortLine_spec {α : Type} [LinearOrder α] [Inhabited α] {srt : (Nat → α) → List Nat → List Nat}
    (hs : ∀ key, SortBy key (srt key)) (m : SortMethod) (l : List α) :
    ArgSortedOf l (argsortLine srt m l) ∧ (m = .stable → StableArgSortedOf l (argsortLine srt m l)) := by
  unfold argsortLine
  simp only
  have hperm : ∀ idx : List Nat, idx.Perm (List.range l.length) →
      (stableSort (fun (i : Nat) => l.getD i default) idx).Perm (List.range l.length) := fun idx h =>
    ((sortBy_insertion _).perm idx).trans h
  have hm : (if m = .quick then srt (fun (i : Nat) => l.getD i default) (List.range l.length)
      else List.range l.length).Perm (List.range l.length) := by
    split
    · exact (hs _).perm _
    · exact List.Perm.refl _
  refine ⟨⟨hperm _ hm, ?_⟩, fun h => ?_⟩
  · rw [List.pairwise_map]
    exact (sortBy_insertion (fun (i : Nat) => l.getD i default)).sorted _
  · subst h
    rw [if_neg (by decide)]
    exact ⟨hperm _ (List.Perm.refl _), stableSort_stable _ _ List.pairwise_lt_range⟩

theorem length_argsortLine {α : Type} [LinearOrder α] [Inhabited α] {srt : (Nat → α) → List Nat → List Nat}
    (hs : ∀ key, SortBy key (srt key)) (m : SortMethod) (l : List α) : (argsortLine srt m l).length = l.length := by
  have := (argsortLine_spec hs m l).1.1.length_eq
  simpa using this

theorem overBlocks2_length {α β : Type} {g : List α → List β} (hg : ∀ l, (g l).length = l.length) (s : Nat)
    (mem : Int → α) : ∀ (n : Nat) (pos : Int) (d : List β), d.length = n * s →
      (overBlocks2 (fun l _ => g l) s s mem n pos d).length = d.length
  | 0, _, d, _ => rfl
  | n + 1, pos, d, h => by
    have h' : d.length = n * s + s := by rw [h, Nat.succ_mul]
    rw [overBlocks2, List.length_append, hg, overBlocks2_length hg s mem n _ _ (by rw [List.length_drop]; omega)]
    simp
    omega

theorem overBlocks2_get {α β : Type} {g : List α → List β} (hg : ∀ l, (g l).length = l.length) (s : Nat)
    (mem : Int → α) (x : β) : ∀ (n : Nat) (pos : Int) (d : List β), d.length = n * s → ∀ k t, k < n → t < s →
      (overBlocks2 (fun l _ => g l) s s mem n pos d).getD (k * s + t) x =
        (g ((List.range s).map fun (u : Nat) => mem (pos + ((k * s + u : Nat) : Int)))).getD t x
  | 0, _, _, _, k, _, hk, _ => by omega
  | n + 1, pos, d, hd, k, t, hk, ht => by
    have h' : d.length = n * s + s := by rw [hd, Nat.succ_mul]
    have hl : (g ((List.range s).map fun (u : Nat) => mem (pos + (u : Int)))).length = s := by rw [hg]; simp
    rw [overBlocks2]
    cases k with
    | zero =>
      rw [getD_append_left' (by omega)]
      simp
    | succ k =>
      have e : ∀ u, (k + 1) * s + u = s + (k * s + u) := by intro u; rw [Nat.succ_mul]; omega
      rw [getD_append_right' (by rw [hl, e]; omega), hl, e, Nat.add_sub_cancel_left,
        overBlocks2_get hg s mem x n _ _ (by rw [List.length_drop]; omega) k t (by omega) ht]
      congr 2
      apply List.map_congr_left
      intro u _
      congr 1
      rw [e]
      push_cast
      omega

/-- The loop over two containers of one shape and layout applies the function to every line of the second. -/
theorem overLeading2_line {α β : Type} [Inhabited α] [Inhabited β] {g : List α → List β}
    (hg : ∀ l, (g l).length = l.length) (b : Buf β) (hb : b.WF) (ev : Buf α) (hev : ev.WF)
    (hsh : b.shape = ev.shape) (hlay : b.layout = ev.layout) (hd : 2 ≤ ev.shape.length) :
    let r := overLeading2 (fun l _ => g l) b ev.strd ev.mem
    r.shape = ev.shape ∧ r.layout = ev.layout ∧ r.WF ∧
    ∀ p, InBounds ev.shape p →
      line r.read (ev.shape.getD (leadOf ev.layout ev.shape.length) 0) (leadOf ev.layout ev.shape.length) p =
        g (line ev.read (ev.shape.getD (leadOf ev.layout ev.shape.length) 0)
          (leadOf ev.layout ev.shape.length) p) := by
  intro r
  have hd0 : 0 < ev.shape.length := by omega
  have hs2 := secondaryStride_eq ev hd
  have hs1 := secondaryStride_eq b (by rw [hsh]; exact hd)
  rw [hsh, hlay] at hs1
  have hax : leadOf ev.layout ev.shape.length < ev.shape.length := leadOf_lt _ hd0
  have hit := leadingIters_eq b (by rw [hsh]; exact hd0)
  rw [hsh, hlay] at hit
  have hn := numel_eraseIdx hax
  have hr : r = overLeading2 (fun l _ => g l) b ev.strd ev.mem := rfl
  clear_value r
  unfold overLeading2 at hr
  simp only [hs1, hs2] at hr
  by_cases h0 : (ev.shape.getD (leadOf ev.layout ev.shape.length) 0 : Int) = 0
  · rw [if_pos (Or.inl h0)] at hr
    subst hr
    refine ⟨hsh, hlay, hb, fun p hp => ?_⟩
    have h2 := (inBounds_iff_get.1 hp).2 _ hax
    omega
  · rw [if_neg (by simp only [or_self]; exact h0), hit, Int.toNat_natCast] at hr
    have hbl : b.data.length = numel (ev.shape.eraseIdx (leadOf ev.layout ev.shape.length)) *
        ev.shape.getD (leadOf ev.layout ev.shape.length) 0 := by rw [hb, hn, hsh]
    have hwf : r.WF := by
      subst hr
      unfold Buf.WF
      simp only
      rw [overBlocks2_length hg _ _ _ _ _ hbl]
      exact hb
    have hrs : r.shape = ev.shape := by subst hr; exact hsh
    have hrl : r.layout = ev.layout := by subst hr; exact hlay
    refine ⟨hrs, hrl, hwf, fun p hp => ?_⟩
    obtain ⟨h1, h2, h3⟩ := line_lead ev hev hd0 hp
    obtain ⟨g1, g2, g3⟩ := line_lead r hwf (by rw [hrs]; exact hd0) (by rw [hrs]; exact hp)
    simp only [hrs, hrl] at g1 g2 g3
    have hrd : r.data = overBlocks2 (fun l _ => g l) (ev.shape.getD (leadOf ev.layout ev.shape.length) 0)
      (ev.shape.getD (leadOf ev.layout ev.shape.length) 0) ev.mem
      (numel (ev.shape.eraseIdx (leadOf ev.layout ev.shape.length))) 0 b.data := by subst hr; rfl
    rw [h3, g3, segment_eq _ default _ _ g2, segment_eq _ default _ _ h2]
    simp only [hrd]
    generalize ev.shape.getD (leadOf ev.layout ev.shape.length) 0 = s at *
    have hlen : ∀ f : Nat → α, (g ((List.range s).map f)).length = s := fun f => by rw [hg]; simp
    conv_rhs => rw [list_eq_map_getD (g _) default, hlen]
    apply List.map_congr_left
    intro t ht
    rw [overBlocks2_get hg s _ default _ _ _ hbl _ _ h1 (List.mem_range.1 ht)]
    congr 2
    apply List.map_congr_left
    intro u _
    rw [Int.zero_add]
    rfl

theorem freshBuf_wf (L : Layout) (sh : List Nat) : (freshBuf L sh).WF := by
  unfold freshBuf Buf.WF
  simp [foldl_mul_eq]

/-- `argsort` of a container applies `argsort_iter` to every line. -/
theorem argsortAxis_lines {α : Type} [LinearOrder α] [Inhabited α] {srt : (Nat → α) → List Nat → List Nat}
    (hs : ∀ key, SortBy key (srt key)) (m : SortMethod) (b : Buf α) (hb : b.WF)
    (hL : b.layout = .row_major ∨ b.layout = .column_major) (hd : 1 ≤ b.shape.length)
    (hsmall : b.shape.length < 2 ^ 63) {axis : Int} (h1 : -(b.shape.length : Int) ≤ axis)
    (h2 : axis < b.shape.length) :
    ∃ r, argsortAxis srt m b.layout b.strd b.mem axis = .ok r ∧ r.shape = b.shape ∧
      ∀ p, InBounds b.shape p →
        line r.read (b.shape.getD (axisOf b.shape.length axis) 0) (axisOf b.shape.length axis) p =
          argsortLine srt m
            (line b.read (b.shape.getD (axisOf b.shape.length axis) 0) (axisOf b.shape.length axis) p) := by
  obtain ⟨hn1, hn2⟩ := normalizeAxis_eq hsmall h1 h2
  have hg : ∀ l : List α, (argsortLine srt m l).length = l.length := length_argsortLine hs m
  have hsd : b.strd.shape = b.shape := rfl
  have hld : b.strd.layout = b.layout := rfl
  have hrd : b.strd.read b.mem = b.read := rfl
  unfold argsortAxis
  simp only [hsd, hld]
  by_cases hone : b.shape.length = 1
  · rw [if_pos hone]
    refine ⟨_, rfl, rfl, fun p hp => ?_⟩
    have hax : axisOf b.shape.length axis = 0 := by omega
    rw [hax]
    obtain ⟨n, hn⟩ : ∃ n, b.shape = [n] := by
      match hs : b.shape with
      | [] => rw [hs] at hone; simp at hone
      | [a] => exact ⟨a, rfl⟩
      | a :: c :: l => rw [hs] at hone; simp at hone
    obtain ⟨i, hi⟩ : ∃ i, p = [i] := by
      have := hp.length_eq
      match p, this with
      | [], h => rw [hone] at h; simp at h
      | [a], h => exact ⟨a, rfl⟩
      | a :: c :: l, h => rw [hone] at h; simp at h
    have hrow : (rowIndices [n]) = (List.range n).map fun t => [t] := by
      simp only [rowIndices, List.map_cons, List.map_nil]
      induction List.range n <;> simp_all
    have harg : (rowIndices b.shape).map (b.strd.read b.mem) = line b.read n 0 p := by
      rw [hrd, hn, hrow, hi]; simp [line]
    have hn0 : b.shape.getD 0 0 = n := by rw [hn]; rfl
    rw [harg, hn0]
    have hal : (argsortLine srt m (line b.read n 0 p)).length = n := by rw [hg, length_line]
    conv_rhs => rw [list_eq_map_getD (argsortLine srt m (line b.read n 0 p)) default, hal]
    unfold line
    apply List.map_congr_left
    intro t ht
    have hb' : InBounds (Buf.mk b.shape b.layout (argsortLine srt m (line b.read n 0 p))).shape (p.set 0 t) :=
      inBounds_set_at hp (by rw [hn0]; exact List.mem_range.1 ht)
    have := Buf.read_eq _ hb'
    refine Eq.trans this ?_
    simp only
    have hrk : travRank b.layout b.shape (p.set 0 t) = t := by
      rw [hn, hi]
      unfold travRank
      split <;> simp [rowRank, colRank, numel]
    rw [hrk]
    rfl
  · rw [if_neg hone, leadingAxis_eq (v := b.strd) hd (by rw [hsd]; omega) hL]
    simp only [Res.bind, hn1]
    rw [if_neg (by omega)]
    generalize axisOf b.shape.length axis = ax at *
    by_cases hlead : ax = leadOf b.layout b.shape.length
    · rw [hld, hsd, if_pos hlead]
      obtain ⟨a1, a2, a3, a4⟩ := overLeading2_line hg (freshBuf b.layout b.shape) (freshBuf_wf _ _) b hb rfl rfl
        (by omega)
      refine ⟨_, rfl, a1, fun p hp => ?_⟩
      have := a4 p hp
      rw [hlead]
      exact this
    · rw [hld, hsd, if_neg hlead, sortPerms_eq hn2]
      have hll : leadOf b.layout b.shape.length < b.shape.length := leadOf_lt _ (by omega)
      have hperm := movePerm_valid hn2 hll
      have hget := movePerm_at_dest hn2 hll
      generalize movePerm b.shape.length ax (leadOf b.layout b.shape.length) = perm at *
      obtain ⟨t, t1, t2, t3, t4, _⟩ := C33_transpose b.strd_wf (perm := perm) hperm
      rw [hsd] at t3
      simp only [t1]
      have htl : t.shape.length = b.shape.length := by rw [t3]; simp [permute, hperm.1]
      obtain ⟨a1, a2, a3, a4⟩ := overLeading2_line hg (freshBuf b.layout (copyTo b.layout t b.mem).shape)
        (freshBuf_wf _ _) (copyTo b.layout t b.mem) (copyTo_wf _ t b.mem) rfl rfl
        (by show 2 ≤ t.shape.length; omega)
      generalize hres : overLeading2 (fun l _ => argsortLine srt m l)
        (freshBuf b.layout (copyTo b.layout t b.mem).shape) (copyTo b.layout t b.mem).strd
        (copyTo b.layout t b.mem).mem = res at *
      have hrsh : res.shape = t.shape := a1
      have hinv : ValidPerm res.strd.shape.length (invPerm b.shape.length perm) := by
        have : res.strd.shape.length = b.shape.length := by
          show res.shape.length = _; rw [hrsh, htl]
        rw [this]; exact validPerm_inv hperm
      obtain ⟨w, w1, w2, w3, w4, _⟩ := C33_transpose res.strd_wf hinv
      simp only [w1]
      have hwsh : w.shape = b.shape := by
        rw [w3]
        show permute _ res.shape = _
        rw [hrsh, t3, permute_inv hperm rfl]
      refine ⟨_, rfl, hwsh, fun p hp => ?_⟩
      have hlen := hp.length_eq
      have hq := (t4 p hp).1
      have hax : t.shape.getD (leadOf b.layout b.shape.length) 0 = b.shape.getD ax 0 := by
        rw [t3, getD_permute (by rw [hperm.1]; exact hll), hget]
      have key := a4 (permute perm p) hq
      have hsh : (copyTo b.layout t b.mem).shape = t.shape := rfl
      have hly : (copyTo b.layout t b.mem).layout = b.layout := rfl
      simp only [hsh, hly, htl, hax] at key
      have hset : ∀ τ, (permute perm p).set (leadOf b.layout b.shape.length) τ = permute perm (p.set ax τ) := by
        intro τ
        rw [← hget, permute_set_at hperm hlen hll]
      have eL : line (copyTo b.layout w res.mem).read (b.shape.getD ax 0) ax p =
          line res.read (b.shape.getD ax 0) (leadOf b.layout b.shape.length) (permute perm p) := by
        unfold line
        apply List.map_congr_left
        intro τ hτ
        have hb := inBounds_set_at hp (List.mem_range.1 hτ)
        rw [copyTo_read _ w res.mem (by rw [hwsh]; exact hb), hset τ]
        have hqb : InBounds res.strd.shape (permute perm (p.set ax τ)) := by
          show InBounds res.shape _
          rw [hrsh]; exact (t4 _ hb).1
        have hw := (w4 _ hqb).2
        rw [permute_inv hperm (by simpa using hlen)] at hw
        unfold Strd.read Buf.read
        rw [hw]
      have eR : line (copyTo b.layout t b.mem).read (b.shape.getD ax 0) (leadOf b.layout b.shape.length)
          (permute perm p) = line b.read (b.shape.getD ax 0) ax p := by
        unfold line
        apply List.map_congr_left
        intro τ hτ
        have hb := inBounds_set_at hp (List.mem_range.1 hτ)
        rw [hset τ, copyTo_read _ t b.mem (t4 _ hb).1]
        unfold Strd.read Buf.read
        rw [(t4 _ hb).2]
      rw [eL, key, eR]

/-- C41: `argsort` of a row-major or column-major container lists for each line the positions in an order that
sorts the line; with `stable`, equal values stay in order.  Missing for the full claim: views, see
`C41_argsort_view_wrong`. -/
theorem C41_argsort_partial {α : Type} [LinearOrder α] [Inhabited α] {srt : (Nat → α) → List Nat → List Nat}
    (hs : ∀ key, SortBy key (srt key)) (m : SortMethod) (b : Buf α) (hb : b.WF)
    (hL : b.layout = .row_major ∨ b.layout = .column_major) (hd : 1 ≤ b.shape.length)
    (hsmall : b.shape.length < 2 ^ 63) {axis : Int} (h1 : -(b.shape.length : Int) ≤ axis)
    (h2 : axis < b.shape.length) :
    ∃ r, argsortAxis srt m b.layout b.strd b.mem axis = .ok r ∧ r.shape = b.shape ∧
      ∀ p, InBounds b.shape p →
        let ax := axisOf b.shape.length axis
        let values := line b.read (b.shape.getD ax 0) ax p
        let found := line r.read (b.shape.getD ax 0) ax p
        ArgSortedOf values found ∧ (m = .stable → StableArgSortedOf values found) := by
  obtain ⟨r, r1, r2, r3⟩ := argsortAxis_lines hs m b hb hL hd hsmall h1 h2
  refine ⟨r, r1, r2, fun p hp => ?_⟩
  simp only
  rw [r3 p hp]
  exact argsortLine_spec hs m _

/-- Sorting of positions used in the examples. -/
def argNat (key : Nat → Nat) (l : List Nat) : List Nat := l.insertionSort fun a b => key a ≤ key b

example : (∀ key, SortBy key (argNat key)) ∧ (Buf.mk [2, 3] .row_major [3, 1, 3, 0, 5, 4]).WF ∧
    argsortAxis argNat .stable .row_major (Buf.mk [2, 3] .row_major [3, 1, 3, 0, 5, 4]).strd
      (Buf.mk [2, 3] .row_major [3, 1, 3, 0, 5, 4]).mem 1 = .ok ⟨[2, 3], .row_major, [1, 0, 2, 0, 2, 1]⟩ ∧
    argsortAxis argNat .quick .column_major (Buf.mk [2, 3] .column_major [3, 1, 3, 0, 5, 4]).strd
      (Buf.mk [2, 3] .column_major [3, 1, 3, 0, 5, 4]).mem 1 = .ok ⟨[2, 3], .column_major, [0, 1, 1, 0, 2, 2]⟩ :=
  ⟨fun key => sortBy_insertion key, rfl, by decide, by decide⟩

/-- C41 fails: `argsort` of a view reads the storage of the underlying array from its beginning.  The view is rows
1 and 2 of a 3 × 2 array; the answer is that of rows 0 and 1. -/
theorem C41_argsort_view_wrong :
    ∃ (v : Strd) (mem : Int → Nat) (r : Buf Nat),
      v = ⟨[2, 2], [2, 1], 2, .row_major⟩ ∧ argsortAxis argNat .quick .row_major v mem 1 = .ok r ∧
      line (v.read mem) 2 1 [0, 0] = [4, 3] ∧ line r.read 2 1 [0, 0] = [0, 1] ∧
      ¬ ArgSortedOf [4, 3] [0, 1] :=
  ⟨_, natMem [1, 2, 4, 3, 6, 5], ⟨[2, 2], .row_major, [0, 1, 1, 0]⟩, rfl, by decide, by decide, by decide,
    fun h => by simpa using h.2⟩

/-- C41 fails: the same for the transpose of an array. -/
theorem C41_argsort_transposed_wrong :
    ∃ (v : Strd) (mem : Int → Nat) (r : Buf Nat),
      transposeRev ⟨[2, 2], [2, 1], 0, .row_major⟩ = .ok v ∧ argsortAxis argNat .quick .row_major v mem 0 = .ok r ∧
      line (v.read mem) 2 0 [0, 0] = [3, 1] ∧ line r.read 2 0 [0, 0] = [1, 0] ∧
      line (v.read mem) 2 0 [0, 1] = [2, 4] ∧ line r.read 2 0 [0, 1] = [0, 1] ∧
      line (v.read mem) 2 1 [0, 0] = [3, 2] :=
  ⟨⟨[2, 2], [1, 2], 0, .column_major⟩, natMem [3, 1, 2, 4], ⟨[2, 2], .row_major, [1, 0, 0, 1]⟩,
    by decide, by decide, by decide, by decide, by decide, by decide, by decide⟩

end Xt
