import Verif.Props.Partition
/-!
# C43: argmin and argmax
-/

namespace Xt

open Spec

/-- `std::less`. -/
def lessThan {α : Type} [LinearOrder α] (a b : α) : Bool := decide (a < b)

/-- `std::greater`. -/
def greaterThan {α : Type} [LinearOrder α] (a b : α) : Bool := decide (b < a)

theorem argLoop_least {α : Type} [LinearOrder α] [Inhabited α] : ∀ (xs pre : List α) (val : α) (idx : Nat),
    idx < pre.length → pre.getD idx default = val → (∀ j, j < pre.length → val ≤ pre.getD j default) →
    (∀ j, j < idx → val < pre.getD j default) →
    FirstLeast (pre ++ xs) (argLoop lessThan xs pre.length val idx)
  | [], pre, val, idx, h1, h2, h3, h4 => by
    rw [List.append_nil]
    exact ⟨h1, fun j hj => by rw [argLoop, h2]; exact h3 j hj, fun j hj => by rw [argLoop, h2]; exact h4 j hj⟩
  | x :: xs, pre, val, idx, h1, h2, h3, h4 => by
    have e : pre ++ x :: xs = (pre ++ [x]) ++ xs := by simp
    have hl : pre.length + 1 = (pre ++ [x]).length := by simp
    have hx : (pre ++ [x]).getD pre.length default = x := by
      rw [getD_append_right' (Nat.le_refl _)]; simp
    rw [argLoop, e, hl]
    by_cases hc : lessThan x val = true
    · rw [if_pos hc]
      have hlt : x < val := by simpa [lessThan] using hc
      refine argLoop_least xs (pre ++ [x]) x pre.length (by simp) hx (fun j hj => ?_) (fun j hj => ?_)
      · by_cases hjl : j < pre.length
        · rw [getD_append_left' hjl]; exact hlt.le.trans (h3 j hjl)
        · have : j = pre.length := by simp at hj; omega
          subst this; rw [hx]
      · rw [getD_append_left' hj]; exact lt_of_lt_of_le hlt (h3 j hj)
    · rw [if_neg hc]
      have hge : val ≤ x := by simpa [lessThan] using hc
      refine argLoop_least xs (pre ++ [x]) val idx (by simp; omega) (by rw [getD_append_left' h1, h2]) (fun j hj => ?_)
        (fun j hj => ?_)
      · by_cases hjl : j < pre.length
        · rw [getD_append_left' hjl]; exact h3 j hjl
        · have : j = pre.length := by simp at hj; omega
          subst this; rw [hx]; exact hge
      · rw [getD_append_left' (by omega)]; exact h4 j hj

theorem argLoop_greatest {α : Type} [LinearOrder α] [Inhabited α] : ∀ (xs pre : List α) (val : α) (idx : Nat),
    idx < pre.length → pre.getD idx default = val → (∀ j, j < pre.length → pre.getD j default ≤ val) →
    (∀ j, j < idx → pre.getD j default < val) →
    FirstGreatest (pre ++ xs) (argLoop greaterThan xs pre.length val idx)
  | [], pre, val, idx, h1, h2, h3, h4 => by
    rw [List.append_nil]
    exact ⟨h1, fun j hj => by rw [argLoop, h2]; exact h3 j hj, fun j hj => by rw [argLoop, h2]; exact h4 j hj⟩
  | x :: xs, pre, val, idx, h1, h2, h3, h4 => by
    have e : pre ++ x :: xs = (pre ++ [x]) ++ xs := by simp
    have hl : pre.length + 1 = (pre ++ [x]).length := by simp
    have hx : (pre ++ [x]).getD pre.length default = x := by
      rw [getD_append_right' (Nat.le_refl _)]; simp
    rw [argLoop, e, hl]
    by_cases hc : greaterThan x val = true
    · rw [if_pos hc]
      have hlt : val < x := by simpa [greaterThan] using hc
      refine argLoop_greatest xs (pre ++ [x]) x pre.length (by simp) hx (fun j hj => ?_) (fun j hj => ?_)
      · by_cases hjl : j < pre.length
        · rw [getD_append_left' hjl]; exact (h3 j hjl).trans hlt.le
        · have : j = pre.length := by simp at hj; omega
          subst this; rw [hx]
      · rw [getD_append_left' hj]; exact lt_of_le_of_lt (h3 j hj) hlt
    · rw [if_neg hc]
      have hge : x ≤ val := by simpa [greaterThan] using hc
      refine argLoop_greatest xs (pre ++ [x]) val idx (by simp; omega) (by rw [getD_append_left' h1, h2])
        (fun j hj => ?_) (fun j hj => ?_)
      · by_cases hjl : j < pre.length
        · rw [getD_append_left' hjl]; exact h3 j hjl
        · have : j = pre.length := by simp at hj; omega
          subst this; rw [hx]; exact hge
      · rw [getD_append_left' (by omega)]; exact h4 j hj

theorem argLine_least {α : Type} [LinearOrder α] [Inhabited α] {l : List α} (h : l ≠ []) :
    FirstLeast l (argLine lessThan l) := by
  cases l with
  | nil => exact absurd rfl h
  | cons x xs =>
    exact argLoop_least xs [x] x 0 (by simp) rfl (fun j hj => by
      have : j = 0 := by simpa using hj
      subst this; simp) (fun j hj => by omega)

theorem argLine_greatest {α : Type} [LinearOrder α] [Inhabited α] {l : List α} (h : l ≠ []) :
    FirstGreatest l (argLine greaterThan l) := by
  cases l with
  | nil => exact absurd rfl h
  | cons x xs =>
    exact argLoop_greatest xs [x] x 0 (by simp) rfl (fun j hj => by
      have : j = 0 := by simpa using hj
      subst this; simp) (fun j hj => by omega)

/-! ### The flattened array -/

/-- C43: `argmin(e)` and `argmax(e)` give the first position of an extremum in the traversal order. -/
theorem C43_flat {α : Type} [LinearOrder α] [Inhabited α] (L : Layout) (e : Buf α) (h : 0 < numel e.shape) :
    FirstLeast ((storageIndices L e.shape).map e.read) (argFlat lessThan L e) ∧
      FirstGreatest ((storageIndices L e.shape).map e.read) (argFlat greaterThan L e) := by
  have hne : (storageIndices L e.shape).map e.read ≠ [] := by
    intro hc
    have := congrArg List.length hc
    simp [length_storageIndices] at this
    omega
  exact ⟨argLine_least hne, argLine_greatest hne⟩

example : 0 < numel (Buf.mk [2, 3] .row_major [3, 1, 5, 1, 5, 4]).shape ∧
    argFlat lessThan .row_major (Buf.mk [2, 3] .row_major [3, 1, 5, 1, 5, 4]) = 1 ∧
    argFlat greaterThan .row_major (Buf.mk [2, 3] .row_major [3, 1, 5, 1, 5, 4]) = 2 ∧
    argFlat lessThan .column_major (Buf.mk [2, 3] .row_major [3, 1, 5, 1, 5, 4]) = 1 := by decide

/-! ### Along an axis -/

theorem argBlocks_get {α : Type} (cmp : α → α → Bool) (s : Nat) :
    ∀ (n : Nat) (d : List α) (k : Nat), k < n → (argBlocks cmp s n d)[k]? = some (argLine cmp ((d.drop (k * s)).take s))
  | 0, _, k, hk => by omega
  | n + 1, d, k, hk => by
    rw [argBlocks]
    cases k with
    | zero => simp
    | succ k =>
      rw [List.getElem?_cons_succ, argBlocks_get cmp s n (d.drop s) k (by omega), List.drop_drop]
      congr 4
      rw [Nat.succ_mul]; omega

/-- The results are those of the lines, in the order of the remaining axes in the layout. -/
theorem argLines_get {α : Type} [Inhabited α] (cmp : α → α → Bool) (b : Buf α) (hb : b.WF) (hd : 2 ≤ b.shape.length)
    {p : List Nat} (hp : InBounds b.shape p) :
    let ax := leadOf b.layout b.shape.length
    (argLines cmp b)[travRank b.layout (b.shape.eraseIdx ax) (p.eraseIdx ax)]? =
      some (argLine cmp (line b.read (b.shape.getD ax 0) ax p)) := by
  intro ax
  have hd0 : 0 < b.shape.length := by omega
  have hax : ax < b.shape.length := leadOf_lt _ hd0
  have hs := secondaryStride_eq b hd
  obtain ⟨h1, h2, h3⟩ := line_lead b hb hd0 hp
  have hpos := (inBounds_iff_get.1 hp).2 _ hax
  unfold argLines
  simp only [hs]
  rw [if_neg (by show ¬ ((b.shape.getD ax 0 : Nat) : Int) = 0; omega), leadingIters_eq b hd0, Int.toNat_natCast,
    argBlocks_get cmp _ _ _ _ h1, h3]

theorem insertIdx_eraseIdx_self {p : List Nat} {ax t : Nat} (h : ax ≤ p.length) : (p.insertIdx ax t).eraseIdx ax = p := by
  induction p generalizing ax with
  | nil =>
    have : ax = 0 := by simpa using h
    subst this; rfl
  | cons x xs ih =>
    cases ax with
    | zero => rfl
    | succ a => simp only [List.insertIdx_succ_cons, List.eraseIdx_cons_succ]; rw [ih (by simpa using h)]

theorem permute_movePerm_eraseIdx {l : List Nat} {ax j : Nat} (hax : ax < l.length) (hj : j < l.length) :
    (permute (movePerm l.length ax j) l).eraseIdx j = l.eraseIdx ax := by
  rw [C34_movePerm_spec hax hj]
  have hlen : (l.eraseIdx ax).length = l.length - 1 := by rw [List.length_eraseIdx, if_pos hax]
  rw [insertIdx_eraseIdx_self (by omega)]

/-- The result of `arg_func_impl` at an index, in terms of the line through it, when the traversal order is that of
the array or only one axis remains. -/
theorem argFunc_eq {α : Type} [Inhabited α] (cmp : α → α → Bool) {L : Layout} (e : Buf α) (he : e.WF)
    (hL : e.layout = .row_major ∨ e.layout = .column_major) (hd : 2 ≤ e.shape.length)
    (hsmall : e.shape.length < 2 ^ 63) (hLL : L = e.layout ∨ e.shape.length = 2) {axis : Int}
    (h1 : -(e.shape.length : Int) ≤ axis) (h2 : axis < e.shape.length)
    (hpos : 0 < e.shape.getD (axisOf e.shape.length axis) 0) {q : List Nat}
    (hq : InBounds (e.shape.eraseIdx (axisOf e.shape.length axis)) q) :
    argFunc cmp L e axis q = .ok (some (argLine cmp
      (line e.read (e.shape.getD (axisOf e.shape.length axis) 0) (axisOf e.shape.length axis)
        (q.insertIdx (axisOf e.shape.length axis) 0)))) := by
  obtain ⟨hn1, hn2⟩ := normalizeAxis_eq hsmall h1 h2
  have hsd : e.strd.shape = e.shape := rfl
  have hld : e.strd.layout = e.layout := rfl
  have hp := inBounds_insertIdx_zero hn2 hq hpos
  generalize axisOf e.shape.length axis = ax at *
  have hql : q.length + 1 = e.shape.length := by
    have := hq.length_eq
    rw [List.length_eraseIdx, if_pos hn2] at this
    omega
  have hqe : (q.insertIdx ax 0).eraseIdx ax = q := insertIdx_eraseIdx_self (by omega)
  have htrav : travRank L (e.shape.eraseIdx ax) q = travRank e.layout (e.shape.eraseIdx ax) q := by
    rcases hLL with h | h
    · rw [h]
    · have hone : (e.shape.eraseIdx ax).length = 1 := by rw [List.length_eraseIdx, if_pos hn2]; omega
      have hq1 : q.length = 1 := by omega
      match hsh : e.shape.eraseIdx ax, q with
      | [n], [i] =>
        unfold travRank
        simp [rowRank, colRank, numel]
      | [], _ => rw [hsh] at hone; simp at hone
      | [_], [] => simp at hq1
      | [_], _ :: _ :: _ => simp at hq1
      | _ :: _ :: _, _ => rw [hsh] at hone; simp at hone
  unfold argFunc
  simp only [hn1]
  rw [leadingAxis_eq (v := e.strd) (by rw [hsd]; omega) (by rw [hsd]; exact hsmall) hL]
  simp only [Res.bind]
  rw [if_neg (by omega), hld, hsd, htrav]
  by_cases hlead : ax = leadOf e.layout e.shape.length
  · rw [if_neg (by simpa using hlead)]
    have := argLines_get cmp e he hd hp
    simp only [← hlead] at this
    rw [hqe] at this
    rw [this]
  · rw [if_pos hlead, sortPerms_eq hn2]
    have hll : leadOf e.layout e.shape.length < e.shape.length := leadOf_lt _ (by omega)
    have hperm := movePerm_valid hn2 hll
    have hget := movePerm_at_dest hn2 hll
    have herS := permute_movePerm_eraseIdx hn2 hll
    have hpl := hp.length_eq
    have herP := permute_movePerm_eraseIdx (l := q.insertIdx ax 0) (ax := ax) (j := leadOf e.layout e.shape.length)
      (by omega) (by omega)
    rw [hpl, hqe] at herP
    generalize movePerm e.shape.length ax (leadOf e.layout e.shape.length) = perm at *
    obtain ⟨t, t1, t2, t3, t4, _⟩ := C33_transpose e.strd_wf (perm := perm) hperm
    rw [hsd] at t3
    simp only [t1, Res.map, Res.bind]
    have htl : t.shape.length = e.shape.length := by rw [t3]; simp [permute, hperm.1]
    have hb := (t4 _ hp).1
    have key := argLines_get cmp (copyTo e.layout t e.mem) (copyTo_wf _ t e.mem)
      (by show 2 ≤ t.shape.length; omega) hb
    have hsh : (copyTo e.layout t e.mem).shape = t.shape := rfl
    have hly : (copyTo e.layout t e.mem).layout = e.layout := rfl
    simp only [hsh, hly, htl] at key
    have hax : t.shape.getD (leadOf e.layout e.shape.length) 0 = e.shape.getD ax 0 := by
      rw [t3, getD_permute (by rw [hperm.1]; exact hll), hget]
    have hes : t.shape.eraseIdx (leadOf e.layout e.shape.length) = e.shape.eraseIdx ax := by rw [t3, herS]
    rw [hax, hes, herP] at key
    rw [key]
    congr 3
    unfold line
    apply List.map_congr_left
    intro τ hτ
    have hbt := inBounds_set_at hp (List.mem_range.1 hτ)
    rw [show (permute perm (q.insertIdx ax 0)).set (leadOf e.layout e.shape.length) τ =
      permute perm ((q.insertIdx ax 0).set ax τ) by
        have := permute_set_at (t := τ) hperm hpl hll
        rw [hget] at this
        exact this.symm,
      copyTo_read _ t e.mem (t4 _ hbt).1]
    unfold Strd.read Buf.read
    rw [(t4 _ hbt).2]

/-- C43: `argmin(e, axis)` and `argmax(e, axis)` give for every line the first position of its extremum, if the
traversal order given (row-major by default) is the layout of the array or the array is two-dimensional.  Missing
for the full claim: column-major arrays of three dimensions or more, see `C43_column_major_wrong`. -/
theorem C43_axis_partial {α : Type} [LinearOrder α] [Inhabited α] {L : Layout} (e : Buf α) (he : e.WF)
    (hL : e.layout = .row_major ∨ e.layout = .column_major) (hd : 2 ≤ e.shape.length)
    (hsmall : e.shape.length < 2 ^ 63) (hLL : L = e.layout ∨ e.shape.length = 2) {axis : Int}
    (h1 : -(e.shape.length : Int) ≤ axis) (h2 : axis < e.shape.length)
    (hpos : 0 < e.shape.getD (axisOf e.shape.length axis) 0) {q : List Nat}
    (hq : InBounds (e.shape.eraseIdx (axisOf e.shape.length axis)) q) :
    let values := line e.read (e.shape.getD (axisOf e.shape.length axis) 0) (axisOf e.shape.length axis)
      (q.insertIdx (axisOf e.shape.length axis) 0)
    (∃ k, argFunc lessThan L e axis q = .ok (some k) ∧ FirstLeast values k) ∧
      ∃ k, argFunc greaterThan L e axis q = .ok (some k) ∧ FirstGreatest values k := by
  intro values
  have hne : values ≠ [] := by
    intro hc
    have := congrArg List.length hc
    rw [length_line, List.length_nil] at this
    omega
  exact ⟨⟨_, argFunc_eq lessThan e he hL hd hsmall hLL h1 h2 hpos hq, argLine_least hne⟩,
    ⟨_, argFunc_eq greaterThan e he hL hd hsmall hLL h1 h2 hpos hq, argLine_greatest hne⟩⟩

example : (Buf.mk [2, 3] .row_major [3, 1, 5, 1, 5, 4]).WF ∧
    argFunc lessThan .row_major (Buf.mk [2, 3] .row_major [3, 1, 5, 1, 5, 4]) 0 [0] = .ok (some 1) ∧
    argFunc greaterThan .row_major (Buf.mk [2, 3] .row_major [3, 1, 5, 1, 5, 4]) (-1) [1] = .ok (some 1) ∧
    argFunc lessThan .row_major (Buf.mk [2, 3] .column_major [3, 1, 5, 1, 5, 4]) 0 [2] = .ok (some 1) :=
  ⟨rfl, by decide, by decide, by decide⟩

/-- C43 fails: for a column-major array of three dimensions the answers come out in the wrong places.  The lines
along axis 0 at `[0, 1]` and `[1, 0]` are `[0, 1]` and `[1, 0]`; the answers are exchanged. -/
theorem C43_column_major_wrong :
    ∃ e : Buf Nat, e.WF ∧ e.layout = .column_major ∧
      line e.read 2 0 [0, 0, 1] = [0, 1] ∧ argFunc lessThan .row_major e 0 [0, 1] = .ok (some 1) ∧
      line e.read 2 0 [0, 1, 0] = [1, 0] ∧ argFunc lessThan .row_major e 0 [1, 0] = .ok (some 0) :=
  ⟨⟨[2, 2, 2], .column_major, [0, 1, 1, 0, 0, 1, 0, 1]⟩, rfl, rfl, by decide, by decide, by decide, by decide⟩

/-- C43: along an axis of extent 0 the result is allocated and never written. -/
theorem C43_empty_axis_unwritten :
    argFunc lessThan .row_major (Buf.mk [2, 0] .row_major ([] : List Nat)) 1 [1] = .ok none := by decide

end Xt
