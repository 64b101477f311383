import Verif.Model.Argpartition
import Verif.Props.Partition
/-!
# C42: argpartition along an axis
-/

namespace Xt.Spec

/-- `idx` lists the positions of `l` so that every place of `kth` below the length separates the values found. -/
def ArgPartitionOf {α : Type} [LinearOrder α] [Inhabited α] (l : List α) (kth idx : List Nat) : Prop :=
  idx.Perm (List.range l.length) ∧
    ∀ k ∈ kth, k < l.length → PivotAt (idx.map fun (i : Nat) => l.getD i default) k

end Xt.Spec

namespace Xt

open Spec

theorem partitionList_beyond {β : Type} (nth : List β → Nat → List β) {kth : List Nat} {d : List β} {k : Nat}
    (hk : k ∈ kth) (h : d.length < k) : partitionList nth kth d = .ub := by
  obtain ⟨h1, h2⟩ := kth_sorted kth
  unfold partitionList
  have hm := (h2 k).2 hk
  match hs : (kth.insertionSort (· ≤ ·)).reverse, hm, h1 with
  | a :: l, hm, h1 =>
    have hge : k ≤ a := by
      rcases List.mem_cons.1 hm with e | e
      · omega
      · exact (List.pairwise_cons.1 h1).1 k e
    unfold partitionLoop
    rw [if_pos (by omega)]

theorem length_argpartitionLine {α : Type} [LinearOrder α] [Inhabited α]
    {nth : (Nat → α) → List Nat → Nat → List Nat} (hn : ∀ key, NthBy key (nth key)) (kth : List Nat) (l : List α) :
    (argpartitionLine nth kth l).length = l.length := by
  unfold argpartitionLine
  by_cases h : ∀ k ∈ kth, k ≤ (List.range l.length).length
  · obtain ⟨r, r1, r2, _⟩ := partitionList_spec (hn fun i => l.getD i default) h
    rw [r1]
    simpa using r2.length_eq
  · push Not at h
    obtain ⟨k, hk, hlt⟩ := h
    rw [partitionList_beyond _ hk hlt]
    simp

theorem argPartitionOf_of {α : Type} [LinearOrder α] [Inhabited α] {l : List α} {kth r : List Nat}
    (hp : r.Perm (List.range l.length))
    (hq : ∀ k ∈ kth, PivotBy (fun (i : Nat) => l.getD i default) r k) : ArgPartitionOf l kth r := by
  have hl : r.length = l.length := by simpa using hp.length_eq
  refine ⟨hp, fun k hk hlt => ?_⟩
  have e : ∀ i, i < l.length →
      (r.map fun (i : Nat) => l.getD i default).getD i default = l.getD (r.getD i 0) default := by
    intro i hi
    simp [List.getD_eq_getElem?_getD, List.getElem?_eq_getElem (hl ▸ hi : i < r.length)]
  have s : ∀ i, i < l.length → r[i]? = some (r.getD i 0) := by
    intro i hi
    simp [List.getElem?_eq_getElem (hl ▸ hi : i < r.length)]
  refine ⟨fun i hi => ?_, fun j hj hjl => ?_⟩
  · rw [e i (by omega), e k hlt]
    exact (hq k hk).1 i _ _ hi (s i (by omega)) (s k hlt)
  · have hj' : j < l.length := by simpa [hl] using hjl
    rw [e j hj', e k hlt]
    exact (hq k hk).2 j _ _ hj (s k hlt) (s j hj')

theorem argpartitionLine_spec {α : Type} [LinearOrder α] [Inhabited α]
    {nth : (Nat → α) → List Nat → Nat → List Nat} (hn : ∀ key, NthBy key (nth key)) {kth : List Nat} {l : List α}
    (hk : ∀ k ∈ kth, k ≤ l.length) : ArgPartitionOf l kth (argpartitionLine nth kth l) := by
  unfold argpartitionLine
  obtain ⟨r, r1, r2, r3⟩ := partitionList_spec (hn fun i => l.getD i default) (kth := kth)
    (d := List.range l.length) (by simpa using hk)
  rw [r1]
  exact argPartitionOf_of r2 r3

/-- `argpartition` of a container of two or more dimensions works on every line. -/
theorem argpartitionAxis_lines {α : Type} [LinearOrder α] [Inhabited α]
    {nth : (Nat → α) → List Nat → Nat → List Nat} (hn : ∀ key, NthBy key (nth key)) (b : Buf α) (hb : b.WF)
    (hL : b.layout = .row_major ∨ b.layout = .column_major) (hd : 2 ≤ b.shape.length)
    (hsmall : b.shape.length < 2 ^ 63) {axis : Int} (h1 : -(b.shape.length : Int) ≤ axis)
    (h2 : axis < b.shape.length) {kth : List Nat}
    (hk : ∀ k ∈ kth, k ≤ b.shape.getD (axisOf b.shape.length axis) 0) :
    ∃ r, argpartitionAxis nth b.layout b.strd b.mem kth axis = .ok r ∧ r.shape = b.shape ∧
      ∀ p, InBounds b.shape p →
        line r.read (b.shape.getD (axisOf b.shape.length axis) 0) (axisOf b.shape.length axis) p =
          argpartitionLine nth kth
            (line b.read (b.shape.getD (axisOf b.shape.length axis) 0) (axisOf b.shape.length axis) p) := by
  obtain ⟨hn1, hn2⟩ := normalizeAxis_eq hsmall h1 h2
  have hg : ∀ l : List α, (argpartitionLine nth kth l).length = l.length := length_argpartitionLine hn kth
  have hsd : b.strd.shape = b.shape := rfl
  have hld : b.strd.layout = b.layout := rfl
  have hkany : ¬ (kth.any fun k => decide (b.shape.getD (axisOf b.shape.length axis) 0 < k)) = true := by
    simp only [List.any_eq_true, decide_eq_true_eq, not_exists, not_and, Nat.not_lt]
    exact hk
  clear hk
  unfold argpartitionAxis
  simp only [hsd, hld]
  have hone : ¬ b.shape.length = 1 := by omega
  rw [if_neg hone, leadingAxis_eq (v := b.strd) (by rw [hsd]; omega) (by rw [hsd]; omega) hL]
  simp only [Res.bind, hn1]
  rw [if_neg (by omega), if_neg hkany]
  generalize axisOf b.shape.length axis = ax at *
  by_cases hlead : ax = leadOf b.layout b.shape.length
  · rw [hld, hsd, if_pos hlead]
    obtain ⟨a1, a2, a3, a4⟩ := overLeading2_line hg (freshBuf b.layout b.shape) (freshBuf_wf _ _) b hb rfl rfl
      (by omega)
    refine ⟨_, rfl, a1, fun p hp => ?_⟩
    have := a4 p hp
    rw [hlead]
    exact this
  · rw [hld, hsd, if_neg hlead, sortPerms_eq hn2]
    have hll : leadOf b.layout b.shape.length < b.shape.length := leadOf_lt _ (by omega)
    have hperm := movePerm_valid hn2 hll
    have hget := movePerm_at_dest hn2 hll
    generalize movePerm b.shape.length ax (leadOf b.layout b.shape.length) = perm at *
    obtain ⟨t, t1, t2, t3, t4, _⟩ := C33_transpose b.strd_wf (perm := perm) hperm
    rw [hsd] at t3
    simp only [t1]
    have htl : t.shape.length = b.shape.length := by rw [t3]; simp [permute, hperm.1]
    obtain ⟨a1, a2, a3, a4⟩ := overLeading2_line hg (freshBuf b.layout (copyTo b.layout t b.mem).shape)
      (freshBuf_wf _ _) (copyTo b.layout t b.mem) (copyTo_wf _ t b.mem) rfl rfl
      (by show 2 ≤ t.shape.length; omega)
    generalize hres : overLeading2 (fun l _ => argpartitionLine nth kth l)
      (freshBuf b.layout (copyTo b.layout t b.mem).shape) (copyTo b.layout t b.mem).strd
      (copyTo b.layout t b.mem).mem = res at *
    have hrsh : res.shape = t.shape := a1
    have hinv : ValidPerm res.strd.shape.length (invPerm b.shape.length perm) := by
      have : res.strd.shape.length = b.shape.length := by
        show res.shape.length = _; rw [hrsh, htl]
      rw [this]; exact validPerm_inv hperm
    obtain ⟨w, w1, w2, w3, w4, _⟩ := C33_transpose res.strd_wf hinv
    simp only [w1]
    have hwsh : w.shape = b.shape := by
      rw [w3]
      show permute _ res.shape = _
      rw [hrsh, t3, permute_inv hperm rfl]
    refine ⟨_, rfl, hwsh, fun p hp => ?_⟩
    have hlen := hp.length_eq
    have hq := (t4 p hp).1
    have hax : t.shape.getD (leadOf b.layout b.shape.length) 0 = b.shape.getD ax 0 := by
      rw [t3, getD_permute (by rw [hperm.1]; exact hll), hget]
    have key := a4 (permute perm p) hq
    have hsh : (copyTo b.layout t b.mem).shape = t.shape := rfl
    have hly : (copyTo b.layout t b.mem).layout = b.layout := rfl
    simp only [hsh, hly, htl, hax] at key
    have hset : ∀ τ, (permute perm p).set (leadOf b.layout b.shape.length) τ = permute perm (p.set ax τ) := by
      intro τ
      rw [← hget, permute_set_at hperm hlen hll]
    have eL : line (copyTo b.layout w res.mem).read (b.shape.getD ax 0) ax p =
        line res.read (b.shape.getD ax 0) (leadOf b.layout b.shape.length) (permute perm p) := by
      unfold line
      apply List.map_congr_left
      intro τ hτ
      have hb := inBounds_set_at hp (List.mem_range.1 hτ)
      rw [copyTo_read _ w res.mem (by rw [hwsh]; exact hb), hset τ]
      have hqb : InBounds res.strd.shape (permute perm (p.set ax τ)) := by
        show InBounds res.shape _
        rw [hrsh]; exact (t4 _ hb).1
      have hw := (w4 _ hqb).2
      rw [permute_inv hperm (by simpa using hlen)] at hw
      unfold Strd.read Buf.read
      rw [hw]
    have eR : line (copyTo b.layout t b.mem).read (b.shape.getD ax 0) (leadOf b.layout b.shape.length)
        (permute perm p) = line b.read (b.shape.getD ax 0) ax p := by
      unfold line
      apply List.map_congr_left
      intro τ hτ
      have hb := inBounds_set_at hp (List.mem_range.1 hτ)
      rw [hset τ, copyTo_read _ t b.mem (t4 _ hb).1]
      unfold Strd.read Buf.read
      rw [(t4 _ hb).2]
    rw [eL, key, eR]

/-- C42: `argpartition(e, kth, axis)` of a row-major or column-major container lists for each line its positions so
that every listed place separates the values.  Missing for the full claim: views, see
`C42_argpartition_view_wrong`. -/
theorem C42_argpartition_axis_partial {α : Type} [LinearOrder α] [Inhabited α]
    {nth : (Nat → α) → List Nat → Nat → List Nat} (hn : ∀ key, NthBy key (nth key)) (b : Buf α) (hb : b.WF)
    (hL : b.layout = .row_major ∨ b.layout = .column_major) (hd : 1 ≤ b.shape.length)
    (hsmall : b.shape.length < 2 ^ 63) {axis : Int} (h1 : -(b.shape.length : Int) ≤ axis)
    (h2 : axis < b.shape.length) {kth : List Nat}
    (hk : ∀ k ∈ kth, k ≤ b.shape.getD (axisOf b.shape.length axis) 0) :
    ∃ r, argpartitionAxis nth b.layout b.strd b.mem kth axis = .ok r ∧ r.shape = b.shape ∧
      ∀ p, InBounds b.shape p →
        let ax := axisOf b.shape.length axis
        ArgPartitionOf (line b.read (b.shape.getD ax 0) ax p) kth (line r.read (b.shape.getD ax 0) ax p) := by
  by_cases hone : b.shape.length = 1
  · obtain ⟨n, hsh⟩ : ∃ n, b.shape = [n] := by
      match hs : b.shape with
      | [] => rw [hs] at hone; simp at hone
      | [a] => exact ⟨a, rfl⟩
      | a :: c :: l => rw [hs] at hone; simp at hone
    have hax : axisOf b.shape.length axis = 0 := by
      obtain ⟨_, h⟩ := normalizeAxis_eq hsmall h1 h2
      omega
    rw [hax] at hk ⊢
    have hn0 : b.shape.getD 0 0 = n := by rw [hsh]; rfl
    simp only [hn0] at hk ⊢
    have hnum : b.strd.shape.foldl (· * ·) 1 = n := by
      show b.shape.foldl (· * ·) 1 = n
      rw [hsh]; simp
    obtain ⟨r, r1, r2, r3⟩ := partitionList_spec (hn fun (i : Nat) => b.mem (b.strd.index [(i : Int)]))
      (kth := kth) (d := List.range n) (by rw [List.length_range]; exact hk)
    have hrl : r.length = n := by simpa using r2.length_eq
    refine ⟨⟨b.shape, b.layout, r⟩, ?_, rfl, fun p hp => ?_⟩
    · unfold argpartitionAxis argpartitionFlat
      rw [if_pos (by exact hone), hnum, r1]
      rfl
    · obtain ⟨i, hi⟩ : ∃ i, p = [i] := by
        have := hp.length_eq
        match p, this with
        | [], h => rw [hone] at h; simp at h
        | [a], h => exact ⟨a, rfl⟩
        | a :: c :: l, h => rw [hone] at h; simp at h
      have eR : line (Buf.mk b.shape b.layout r).read n 0 p = r := by
        conv_rhs => rw [list_eq_map_getD r default, hrl]
        unfold line
        apply List.map_congr_left
        intro t ht
        have hb' : InBounds (Buf.mk b.shape b.layout r).shape (p.set 0 t) :=
          inBounds_set_at hp (by rw [hn0]; exact List.mem_range.1 ht)
        refine Eq.trans (Buf.read_eq _ hb') ?_
        have hrk : travRank b.layout b.shape (p.set 0 t) = t := by
          rw [hsh, hi]
          unfold travRank
          split <;> simp [rowRank, colRank, numel]
        simp only [hrk]
      rw [eR]
      have hll : (line b.read n 0 p).length = n := length_line _ _ _ _
      refine argPartitionOf_of (by rw [hll]; exact r2) fun k hk' => ?_
      have hkey : ∀ a j : Nat, r[a]? = some j →
          (line b.read n 0 p).getD j default = b.mem (b.strd.index [(j : Int)]) := by
        intro a j hj
        have hjn : j < n := List.mem_range.1 (r2.mem_iff.1 (List.mem_of_getElem? hj))
        rw [hi]
        unfold line
        simp only [List.set_cons_zero]
        rw [List.getD_eq_getElem?_getD, List.getElem?_map, List.getElem?_range hjn]
        rfl
      refine ⟨fun i a c h x y => ?_, fun i a c h x y => ?_⟩
      · show (line b.read n 0 p).getD a default ≤ (line b.read n 0 p).getD c default
        rw [hkey _ _ x, hkey _ _ y]
        exact (r3 k hk').1 i a c h x y
      · show (line b.read n 0 p).getD a default ≤ (line b.read n 0 p).getD c default
        rw [hkey _ _ x, hkey _ _ y]
        exact (r3 k hk').2 i a c h x y
  · obtain ⟨r, r1, r2, r3⟩ := argpartitionAxis_lines hn b hb hL (by omega) hsmall h1 h2 hk
    refine ⟨r, r1, r2, fun p hp => ?_⟩
    simp only
    rw [r3 p hp]
    exact argpartitionLine_spec hn (by rw [length_line]; exact hk)

example : (∀ key, NthBy key (argNth key)) ∧ (Buf.mk [2, 3] .row_major [3, 1, 2, 0, 5, 4]).WF ∧
    argpartitionAxis argNth .row_major (Buf.mk [2, 3] .row_major [3, 1, 2, 0, 5, 4]).strd
      (Buf.mk [2, 3] .row_major [3, 1, 2, 0, 5, 4]).mem [1] (-1) = .ok ⟨[2, 3], .row_major, [1, 2, 0, 0, 2, 1]⟩ ∧
    argpartitionAxis argNth .row_major (Buf.mk [2, 3] .row_major [3, 1, 2, 0, 5, 4]).strd
      (Buf.mk [2, 3] .row_major [3, 1, 2, 0, 5, 4]).mem [1, 0] 0 = .ok ⟨[2, 3], .row_major, [1, 0, 0, 0, 1, 1]⟩ ∧
    argpartitionAxis argNth .column_major (Buf.mk [3] .column_major [3, 1, 2]).strd
      (Buf.mk [3] .column_major [3, 1, 2]).mem [2] 0 = .ok ⟨[3], .column_major, [1, 2, 0]⟩ :=
  ⟨fun key => argNth_nthBy key, rfl, by decide, by decide, by decide⟩

/-- C42: a place beyond the extent is undefined. -/
theorem C42_argpartition_beyond_ub {α : Type} [Inhabited α] (nth : (Nat → α) → List Nat → Nat → List Nat) (b : Buf α)
    (hL : b.layout = .row_major ∨ b.layout = .column_major) (hd : 1 ≤ b.shape.length)
    (hsmall : b.shape.length < 2 ^ 63) {axis : Int} (h1 : -(b.shape.length : Int) ≤ axis)
    (h2 : axis < b.shape.length) {kth : List Nat} {k : Nat} (hk : k ∈ kth)
    (hkn : b.shape.getD (axisOf b.shape.length axis) 0 < k) :
    argpartitionAxis nth b.layout b.strd b.mem kth axis = .ub := by
  obtain ⟨hn1, hn2⟩ := normalizeAxis_eq hsmall h1 h2
  have hsd : b.strd.shape = b.shape := rfl
  unfold argpartitionAxis
  simp only [hsd]
  by_cases hone : b.shape.length = 1
  · rw [if_pos hone]
    obtain ⟨n, hsh⟩ : ∃ n, b.shape = [n] := by
      match hs : b.shape with
      | [] => rw [hs] at hone; simp at hone
      | [a] => exact ⟨a, rfl⟩
      | a :: c :: l => rw [hs] at hone; simp at hone
    have hax : axisOf b.shape.length axis = 0 := by omega
    rw [hax, hsh] at hkn
    unfold argpartitionFlat
    rw [partitionList_beyond _ hk (by rw [hsd, hsh]; simpa using hkn)]
    rfl
  · rw [if_neg hone, leadingAxis_eq (v := b.strd) (by rw [hsd]; omega) (by rw [hsd]; omega) hL]
    simp only [Res.bind, hn1]
    rw [if_neg (by omega), if_pos]
    simp only [List.any_eq_true, decide_eq_true_eq]
    exact ⟨k, hk, hkn⟩

example : argpartitionAxis argNth .row_major (Buf.mk [2, 3] .row_major [3, 1, 2, 0, 5, 4]).strd
      (Buf.mk [2, 3] .row_major [3, 1, 2, 0, 5, 4]).mem [0, 4] 1 = .ub := by decide

/-- C42 fails: `argpartition` of a view reads the storage of the underlying array from its beginning.  The view is
rows 1 and 2 of a 3 × 2 array; the answer is that of rows 0 and 1. -/
theorem C42_argpartition_view_wrong :
    ∃ (v : Strd) (mem : Int → Nat) (r : Buf Nat),
      v = ⟨[2, 2], [2, 1], 2, .row_major⟩ ∧ argpartitionAxis argNth .row_major v mem [0] 1 = .ok r ∧
      line (v.read mem) 2 1 [0, 0] = [4, 3] ∧ line r.read 2 1 [0, 0] = [0, 1] ∧
      ¬ ArgPartitionOf [4, 3] [0] [0, 1] :=
  ⟨_, natMem [1, 2, 4, 3, 6, 5], ⟨[2, 2], .row_major, [0, 1, 1, 0]⟩, rfl, by decide, by decide, by decide,
    fun h => by simpa using (h.2 0 (by simp) (by simp)).2 1 (by omega) (by simp)⟩

end Xt
