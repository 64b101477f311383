import Verif.Lemmas.ReduceImmediateMain
import Mathlib.Data.List.Perm.Subperm
/-!
# C31: immediate reductions
-/

namespace Xt
open Spec

variable {α β : Type}

/-- What an immediate reduction relies on beyond `ReducerLaws`: the order of the elements and the side
from which the initial value comes in do not matter. -/
structure Spec.ReducerComm (F : RedFns α β) : Prop where
  reduce : ∀ x a b, F.reduce (F.reduce x a) b = F.reduce (F.reduce x b) a
  merge : ∀ x y, F.merge x y = F.merge y x

/-- The set-up of `reduce_immediate` in terms of the shape `sh'` (the shape, reversed in column-major
order) and of the axes `axes'` of that shape. -/
structure ImmSetup (L : Layout) (sh axes : List Nat) (keep : Bool) (sh' axes' pre mid post : List Nat) :
    Prop where
  eq : sh' = pre ++ (mid ++ post)
  split : RowSplit axes' pre mid post
  ones : immInnerStride L sh axes = 0 ↔ ∀ x ∈ pre ++ mid, x = 1
  plan : immInnerStride L sh axes ≠ 0 →
    ∃ p, immPlan L sh axes keep = some p ∧ PlanFits p axes' pre mid post keep

theorem take_drop_eq_map {sh : List Nat} {a m : Nat} (h : a + m ≤ sh.length) :
    (sh.drop a).take m = (List.range' a m).map fun i => sh.getD i 0 := by
  apply List.ext_getElem?
  intro k
  rw [List.getElem?_map]
  by_cases hk : k < m
  · rw [List.getElem?_take_of_lt hk, List.getElem?_drop, List.getElem?_range' hk,
      List.getElem?_eq_getElem (by omega)]
    simp only [Option.map_some, List.getD_eq_getElem?_getD, Nat.one_mul]
    rw [List.getElem?_eq_getElem (by omega)]
    rfl
  · rw [List.getElem?_eq_none (by simp; omega), List.getElem?_eq_none (by simp; omega)]
    rfl

theorem axes_reverse_eq {axes : List Nat} (hne : axes ≠ []) :
    axes.reverse = axes.getLastD 0 :: axes.reverse.tail := by
  cases h : axes.reverse with
  | nil => simp at h; exact absurd h hne
  | cons a l =>
    have : axes = l.reverse ++ [a] := by
      have := congrArg List.reverse h
      simpa using this
    rw [this]; simp

theorem rank_kept {axes pre mid post : List Nat} {keep : Bool} (hs : RowSplit axes pre mid post) {t : List Nat}
    (ht : t.length = pre.length) :
    rowRank (redShape (pre ++ (mid ++ post)) axes keep)
      (redIndex axes keep (t ++ (List.replicate mid.length 0 ++ List.replicate post.length 0))) =
      rowRank (redPre axes pre keep) (redPreIx axes keep t) * numel post := by
  rw [redShape_split hs, redIndex_split hs ht (by simp) (by simp),
    rowRank_append (length_dropAxes_fill ht.symm 0).symm,
    rowRank_append inBounds_fill.length_eq, numel_append, numel_fill, Nat.one_mul, rowRank_zeros]
  have h2 := rowRank_lt (inBounds_fill (keep := keep) (n := mid.length))
  rw [numel_fill] at h2
  have : rowRank ((shFill keep).elim [] (List.replicate mid.length))
      ((ixFill keep).elim [] (List.replicate mid.length)) = 0 := by omega
  rw [this, Nat.zero_mul, Nat.zero_add, Nat.add_zero]

theorem inBounds_ext {pre mid post t : List Nat} (h0 : numel (pre ++ (mid ++ post)) ≠ 0)
    (ht : InBounds pre t) :
    InBounds (pre ++ (mid ++ post)) (t ++ (List.replicate mid.length 0 ++ List.replicate post.length 0)) := by
  rw [numel_append, numel_append] at h0
  have h1 : 0 < numel mid := Nat.pos_of_ne_zero fun e => h0 (by simp [e])
  have h2 : 0 < numel post := Nat.pos_of_ne_zero fun e => h0 (by simp [e])
  exact ht.append ((inBounds_zeros (nthIndex_spec h1).1).append (inBounds_zeros (nthIndex_spec h2).1))

theorem toInts_zeros (n : Nat) : toInts (List.replicate n 0) = List.replicate n 0 := by
  simp [toInts]

theorem setup_row {sh axes : List Nat} {keep : Bool} (hg : GoodAxes sh.length axes) (hne : axes ≠ [])
    (h0 : numel sh ≠ 0) : ∃ pre mid post, ImmSetup .row_major sh axes keep sh axes pre mid post ∧
      pre ++ mid = sh.take (axes.getLastD 0 + 1) := by
  have hrev := axes_reverse_eq hne
  have hpw : axes.reverse.Pairwise (· > ·) := List.pairwise_reverse.2 hg.1
  rw [hrev] at hpw
  have hpw' := List.pairwise_cons.1 hpw
  have hlead : axes.getLastD 0 ∈ axes := by
    rw [← List.mem_reverse, hrev]; simp
  have hlt := hg.2 _ hlead
  have hle : ∀ a ∈ axes, a ≤ axes.getLastD 0 := by
    intro a ha
    rw [← List.mem_reverse, hrev] at ha
    rcases List.mem_cons.1 ha with h | h
    · omega
    · have := hpw'.1 a h; omega
  obtain ⟨n, rest, hn, hl, hr, hm⟩ := mergeLoops_down (sh := sh) axes.reverse.tail (axes.getLastD 0)
    (sh.getD (axes.getLastD 0) 0) hpw'.2 hpw'.1
  generalize hld : axes.getLastD 0 = lead at *
  have hmid : (sh.drop (lead - n)).take (n + 1) =
      (List.range' (lead - n) (n + 1)).map fun i => sh.getD i 0 := take_drop_eq_map (by omega)
  have hmidlen : ((sh.drop (lead - n)).take (n + 1)).length = n + 1 := by rw [hmid]; simp
  have hprelen : (sh.take (lead - n)).length = lead - n := by simp; omega
  have happ : sh.take (lead - n) ++ (sh.drop (lead - n)).take (n + 1) = sh.take (lead + 1) := by
    have e : lead + 1 = (lead - n) + (n + 1) := by omega
    rw [e]
    exact List.take_add.symm
  have heq : sh = sh.take (lead - n) ++ ((sh.drop (lead - n)).take (n + 1) ++ sh.drop (lead + 1)) := by
    rw [← List.append_assoc, happ, List.take_append_drop]
  have hsplit : RowSplit axes (sh.take (lead - n)) ((sh.drop (lead - n)).take (n + 1))
      (sh.drop (lead + 1)) := by
    constructor
    · intro k hk
      rw [hmidlen] at hk
      rw [hprelen, ← List.mem_reverse, hrev, hl]
      by_cases hkn : k = n
      · subst hkn
        rw [show lead - k + k = lead by omega]; simp
      · simp only [List.mem_cons, List.mem_append, List.mem_reverse, List.mem_range'_1]
        right; left; omega
    · intro k hk
      rw [hprelen, hmidlen]
      intro hmem
      have := hle _ hmem
      omega
  have hstr : immInnerStride .row_major sh axes =
      if ∀ x ∈ sh.take (lead + 1), x = 1 then 0 else numel (sh.drop (lead + 1)) := by
    unfold immInnerStride
    simp only [if_true, hld]
    have e1 : (computeStrides .row_major .row_major sh).1 = (rowStrides sh).1 := by simp [computeStrides]
    have e2 : ((rowStrides sh).1.take (lead + 1)).reverse =
        (colStrides (numel (sh.drop (lead + 1))) (sh.take (lead + 1)).reverse).1 := by
      rw [List.reverse_take, rowStrides_reverse]
      have e3 : sh.reverse = (sh.drop (lead + 1)).reverse ++ (sh.take (lead + 1)).reverse := by
        rw [← List.reverse_append, List.take_append_drop]
      rw [e3, colStrides_append, numel_reverse, Int.one_mul]
      rw [List.drop_left' (by simp)]
    have hP : (numel (sh.drop (lead + 1)) : Int) ≠ 0 := by
      intro e
      apply h0
      rw [← List.take_append_drop (lead + 1) sh, numel_append, Int.natCast_eq_zero.1 e, Nat.mul_zero]
    rw [e1, e2, findStride_colStrides hP]
    simp only [List.mem_reverse]
    split <;> simp
  have hP : numel (sh.drop (lead + 1)) ≠ 0 := by
    intro e
    apply h0
    rw [← List.take_append_drop (lead + 1) sh, numel_append, e, Nat.mul_zero]
  refine ⟨_, _, _, ⟨heq, hsplit, ?_, ?_⟩, happ⟩
  · rw [happ, hstr]
    split
    · rename_i h
      exact ⟨fun _ => h, fun _ => rfl⟩
    · rename_i h
      exact ⟨fun e => absurd e hP, fun e => absurd e h⟩
  · intro hnz
    have hns : ¬ ∀ x ∈ sh.take (lead + 1), x = 1 := fun h => hnz (by rw [hstr, if_pos h])
    rw [hstr] at hnz
    refine ⟨_, by unfold immPlan; rw [if_pos rfl], ?_⟩
    simp only [hld, hm]
    refine ⟨?_, ?_, rfl, ?_⟩
    · show immInnerStride .row_major sh axes = _
      rw [hstr, if_neg hns]
    · show _ * _ = _
      rw [hmid, List.range'_concat, List.map_append, numel_append, show lead - n + 1 * n = lead by omega]
      simp [Nat.mul_comm]
    · intro t ht
      have hb := inBounds_ext (by rw [← heq]; exact h0) ht
      have hk := rank_kept (keep := keep) hsplit ht.length_eq
      rw [← heq] at hk hb
      rw [innerProduct_eq, Int.zero_add]
      change (dot (List.take (lead - n) _) (toInts t)).toNat = _
      rw [← hk]
      have hd := dot_its (keep := keep) (axes := axes) (sh := sh)
        (rs := (computeStrides .row_major .row_major (immShape sh axes keep)).1) hb.length_eq
        (by rw [computeStrides_length, immShape_eq])
      have e1 : dot (computeStrides .row_major .row_major (immShape sh axes keep)).1 (toInts (redIndex axes keep
          (t ++ (List.replicate ((sh.drop (lead - n)).take (n + 1)).length 0 ++
            List.replicate (sh.drop (lead + 1)).length 0)))) = _ :=
        dot_computeStrides_row (.inl rfl) (by rw [immShape_eq]; exact inBounds_dropAxes 0 hb)
      rw [e1] at hd
      have e2 : dot (List.take (lead - n) (iterStridesLoop axes keep
          (computeStrides .row_major .row_major (immShape sh axes keep)).1 0 0 sh.length)) (toInts t) =
          dot (iterStridesLoop axes keep (computeStrides .row_major .row_major (immShape sh axes keep)).1
            0 0 sh.length) (toInts (t ++ (List.replicate ((sh.drop (lead - n)).take (n + 1)).length 0 ++
            List.replicate (sh.drop (lead + 1)).length 0))) := by
        conv_rhs => rw [← List.take_append_drop (lead - n) (iterStridesLoop _ _ _ _ _ _)]
        rw [toInts_append, dot_append, ← List.replicate_add, toInts_zeros, dot_replicate_zero, Int.add_zero]
        rw [toInts_length, ht.length_eq, hprelen, List.length_take, length_iterStridesLoop]
        omega
      rw [e2, hd, immShape_eq]
      rfl

/-! ### Column-major order is row-major order of the reversed shape -/

/-- The axes seen from the other end. -/
def revAxes (dim : Nat) (axes : List Nat) : List Nat := axes.map fun a => dim - 1 - a

theorem mem_revAxes {dim : Nat} {axes : List Nat} (hg : ∀ a ∈ axes, a < dim) {k : Nat} (hk : k < dim) :
    dim - 1 - k ∈ revAxes dim axes ↔ k ∈ axes := by
  unfold revAxes
  rw [List.mem_map]
  constructor
  · rintro ⟨a, ha, e⟩
    have := hg a ha
    have : a = k := by omega
    exact this ▸ ha
  · intro h; exact ⟨k, h, rfl⟩

theorem dropAxes_rev {axes : List Nat} {f : Option Nat} {l : List Nat} (hg : ∀ a ∈ axes, a < l.length) :
    dropAxes (revAxes l.length axes) f 0 l.reverse = (dropAxes axes f 0 l).reverse :=
  dropAxes_reverse l 0 0 fun k hk => by
    rw [Nat.zero_add, Nat.zero_add, mem_revAxes hg hk]

theorem redShape_rev {sh axes : List Nat} {keep : Bool} (hg : ∀ a ∈ axes, a < sh.length) :
    redShape sh.reverse (revAxes sh.length axes) keep = (redShape sh axes keep).reverse := dropAxes_rev hg

theorem redIndex_rev {dim : Nat} {axes : List Nat} {keep : Bool} (hg : ∀ a ∈ axes, a < dim) {x : List Nat}
    (hx : x.length = dim) : redIndex (revAxes dim axes) keep x.reverse = (redIndex axes keep x).reverse := by
  subst hx
  exact dropAxes_rev hg

theorem dot_reverse : ∀ {a b : List Int}, a.length = b.length → dot a.reverse b.reverse = dot a b
  | [], [], _ => rfl
  | x :: a, y :: b, h => by
    have h' : a.length = b.length := by simpa using h
    rw [List.reverse_cons, List.reverse_cons, dot_append (by simp [h']), dot_reverse h', dot_cons]
    simp [dot, Int.add_comm]

theorem setup_col {sh axes : List Nat} {keep : Bool} (hg : GoodAxes sh.length axes) (hne : axes ≠ [])
    (h0 : numel sh ≠ 0) : ∃ pre mid post,
      ImmSetup .column_major sh axes keep sh.reverse (revAxes sh.length axes) pre mid post ∧
      pre ++ mid = (sh.drop (axes.headD 0)).reverse := by
  obtain ⟨lead, as, rfl⟩ : ∃ a as, axes = a :: as := by
    cases axes with
    | nil => exact absurd rfl hne
    | cons a as => exact ⟨a, as, rfl⟩
  have hpw := List.pairwise_cons.1 hg.1
  have hlt := hg.2 lead (by simp)
  obtain ⟨n, rest, hl, hr, hm⟩ := mergeLoops_up (sh := sh) as lead (sh.getD lead 0) hpw.2 hpw.1
  have hnlt : lead + n < sh.length := by
    by_cases hn : n = 0
    · omega
    · apply hg.2
      rw [hl]
      simp only [List.mem_cons, List.mem_append, List.mem_range'_1]
      right; left; omega
  have hmid : (sh.drop lead).take (n + 1) =
      (List.range' lead (n + 1)).map fun i => sh.getD i 0 := take_drop_eq_map (by omega)
  have hmidlen : ((sh.drop lead).take (n + 1)).length = n + 1 := by rw [hmid]; simp
  have hprelen : (sh.drop (lead + n + 1)).length = sh.length - (lead + n + 1) := by simp
  have hpostlen : (sh.take lead).length = lead := by simp; omega
  have happ0 : (sh.drop lead).take (n + 1) ++ sh.drop (lead + n + 1) = sh.drop lead := by
    have := List.take_append_drop (n + 1) (sh.drop lead)
    rw [List.drop_drop] at this
    rw [show lead + n + 1 = lead + (n + 1) by omega]
    exact this
  have happ : (sh.drop (lead + n + 1)).reverse ++ ((sh.drop lead).take (n + 1)).reverse =
      (sh.drop lead).reverse := by rw [← List.reverse_append, happ0]
  have heq : sh.reverse = (sh.drop (lead + n + 1)).reverse ++
      (((sh.drop lead).take (n + 1)).reverse ++ (sh.take lead).reverse) := by
    rw [← List.append_assoc, happ, ← List.reverse_append, List.take_append_drop]
  have hsplit : RowSplit (revAxes sh.length (lead :: as)) (sh.drop (lead + n + 1)).reverse
      ((sh.drop lead).take (n + 1)).reverse (sh.take lead).reverse := by
    constructor
    · intro k hk
      rw [List.length_reverse, hmidlen] at hk
      rw [List.length_reverse, hprelen, show sh.length - (lead + n + 1) + k = sh.length - 1 - (lead + n - k) by
        omega, mem_revAxes hg.2 (by omega), hl]
      by_cases hkn : k = n
      · subst hkn
        rw [show lead + k - k = lead by omega]; simp
      · simp only [List.mem_cons, List.mem_append, List.mem_range'_1]
        right; left; omega
    · intro k hk
      rw [List.length_reverse, hpostlen] at hk
      rw [List.length_reverse, List.length_reverse, hprelen, hmidlen,
        show sh.length - (lead + n + 1) + (n + 1) + k = sh.length - 1 - (lead - 1 - k) by omega,
        mem_revAxes hg.2 (by omega)]
      intro hmem
      rcases List.mem_cons.1 hmem with h | h
      · omega
      · have := hpw.1 _ h; omega
  have hP : numel (sh.take lead) ≠ 0 := by
    intro e
    apply h0
    rw [← List.take_append_drop lead sh, numel_append, e, Nat.zero_mul]
  have hnr : ¬ (Layout.column_major = .row_major ∨ Layout.column_major = .row_major) := by decide
  have hstr : immInnerStride .column_major sh (lead :: as) =
      if ∀ x ∈ sh.drop lead, x = 1 then 0 else numel (sh.take lead) := by
    unfold immInnerStride
    have e1 : (computeStrides .column_major .column_major sh).1 = (colStrides 1 sh).1 := by
      simp [computeStrides]
    have e2 : (colStrides 1 sh).1.drop lead = (colStrides (numel (sh.take lead)) (sh.drop lead)).1 := by
      conv_lhs => rw [← List.take_append_drop lead sh]
      rw [colStrides_append, Int.one_mul, List.drop_left' (by simp; omega)]
    rw [if_neg (by decide)]
    simp only [List.headD_cons]
    rw [e1, e2, findStride_colStrides (by simpa using hP)]
    split <;> simp
  refine ⟨_, _, _, ⟨heq, hsplit, ?_, ?_⟩, happ⟩
  · rw [happ, hstr]
    simp only [List.mem_reverse]
    split
    · rename_i h
      exact ⟨fun _ => h, fun _ => rfl⟩
    · rename_i h
      exact ⟨fun e => absurd e hP, fun e => absurd e h⟩
  · intro hnz
    have hns : ¬ ∀ x ∈ sh.drop lead, x = 1 := fun h => hnz (by rw [hstr, if_pos h])
    refine ⟨_, by unfold immPlan; rw [if_neg (by decide), if_pos rfl], ?_⟩
    simp only [List.headD_cons, List.tail_cons, hm]
    refine ⟨?_, ?_, rfl, ?_⟩
    · show immInnerStride .column_major sh (lead :: as) = _
      rw [hstr, if_neg hns, numel_reverse]
    · show _ * _ = _
      rw [numel_reverse, hmid, List.range'_succ]
      rfl
    · intro t ht
      have h0' : numel sh.reverse ≠ 0 := by rw [numel_reverse]; exact h0
      have hb := inBounds_ext (by rw [← heq]; exact h0') ht
      have hk := rank_kept (keep := keep) hsplit ht.length_eq
      rw [← heq] at hk hb
      have htlen := ht.length_eq
      rw [List.length_reverse, hprelen] at htlen
      have hx : (t ++ (List.replicate ((sh.drop lead).take (n + 1)).reverse.length 0 ++
          List.replicate (sh.take lead).reverse.length 0)) = (List.replicate (lead + n + 1) 0 ++ t.reverse).reverse := by
        rw [List.reverse_append, List.reverse_reverse, List.reverse_replicate, ← List.replicate_add]
        congr 2
        rw [List.length_reverse, List.length_reverse, hmidlen, hpostlen]; omega
      rw [hx] at hk hb
      have hb' : InBounds sh (List.replicate (lead + n + 1) 0 ++ t.reverse) := inBounds_reverse_iff.1 hb
      rw [innerProduct_eq, Int.zero_add]
      change (dot (List.drop (lead + n + 1) _).reverse (toInts t)).toNat = _
      have hlen : (redIndex (lead :: as) keep (List.replicate (lead + n + 1) 0 ++ t.reverse)).length =
          (redShape sh (lead :: as) keep).length := (inBounds_dropAxes 0 hb').length_eq
      rw [← hk, redIndex_rev hg.2 hb'.length_eq, redShape_rev hg.2, ← colRank_eq_rowRank_reverse hlen]
      have hd := dot_its (keep := keep) (axes := lead :: as) (sh := sh)
        (rs := (computeStrides .column_major .column_major (immShape sh (lead :: as) keep)).1) hb'.length_eq
        (by rw [computeStrides_length, immShape_eq])
      have e1 : dot (computeStrides .column_major .column_major (immShape sh (lead :: as) keep)).1
          (toInts (redIndex (lead :: as) keep (List.replicate (lead + n + 1) 0 ++ t.reverse))) = _ :=
        dot_computeStrides_col hnr (by rw [immShape_eq]; exact inBounds_dropAxes 0 hb')
      rw [e1] at hd
      have e2 : dot (List.drop (lead + n + 1) (iterStridesLoop (lead :: as) keep
          (computeStrides .column_major .column_major (immShape sh (lead :: as) keep)).1 0 0 sh.length)).reverse
            (toInts t) =
          dot (iterStridesLoop (lead :: as) keep
            (computeStrides .column_major .column_major (immShape sh (lead :: as) keep)).1
            0 0 sh.length) (toInts (List.replicate (lead + n + 1) 0 ++ t.reverse)) := by
        conv_rhs => rw [← List.take_append_drop (lead + n + 1) (iterStridesLoop _ _ _ _ _ _)]
        rw [toInts_append, dot_append, toInts_zeros, dot_replicate_zero, Int.zero_add, toInts_reverse]
        · conv_lhs => rw [← List.reverse_reverse (toInts t)]
          rw [dot_reverse]
          rw [List.length_drop, length_iterStridesLoop, List.length_reverse, toInts_length, htlen]
        · rw [toInts_length, List.length_replicate, List.length_take, length_iterStridesLoop]
          omega
      rw [e2, hd, immShape_eq]
      rfl

/-! ### The result -/

theorem numel_ones : ∀ {l : List Nat}, (∀ x ∈ l, x = 1) → numel l = 1
  | [], _ => rfl
  | x :: l, h => by
    rw [numel_cons, h x (by simp), numel_ones fun y hy => h y (by simp [hy])]

theorem numel_dropAxes_ones {axes : List Nat} {keep : Bool} : ∀ (l : List Nat) (p : Nat),
    (∀ x ∈ l, x = 1) → numel (dropAxes axes (shFill keep) p l) = 1
  | [], _, _ => rfl
  | x :: l, p, h => by
    have ih := numel_dropAxes_ones (axes := axes) (keep := keep) l (p + 1) fun y hy => h y (by simp [hy])
    have hx := h x (by simp)
    unfold dropAxes
    by_cases hp : p ∈ axes
    · rw [if_pos hp]
      cases keep with
      | true => show 1 * _ = 1; rw [Nat.one_mul]; exact ih
      | false => exact ih
    · rw [if_neg hp, numel_cons, hx, Nat.one_mul]; exact ih

/-- Merging the initial value at the end or starting from it. -/
theorem redValue_initial {F : RedFns α β} (hlaw : ReducerLaws F) (hc : ReducerComm F) (val : List Nat → α)
    (sh axes : List Nat) (keep : Bool) (r : List Nat) (v : β) :
    F.merge (redValue F F.init val sh axes keep r) v = redValue F v val sh axes keep r := by
  unfold redValue
  rw [hc.merge, merge_foldl hlaw, hlaw.unit]

/-- `reduce_immediate` after the trivial cases — reducers/xreducer.hpp:363-566. -/
theorem imm_tail {F : RedFns α β} (hlaw : ReducerLaws F) (hc : ReducerComm F) {L : Layout}
    {sh axes sh' axes' pre mid post : List Nat} {keep : Bool}
    (hs : ImmSetup L sh axes keep sh' axes' pre mid post) (h0 : numel sh' ≠ 0) {val : List Nat → α}
    {initial : Option β} {copy : α → β} {junk : List β}
    (hj : junk.length = numel (redShape sh' axes' keep))
    (hcopy : immInnerStride L sh axes = 0 → ∀ v, copy v = F.reduce (initial.getD F.init) v) :
    immGeneral L sh ((rowIndices sh').map val) F axes keep initial copy junk =
      Res.ok ((rowIndices (redShape sh' axes' keep)).map
        (redValue F (initial.getD F.init) val sh' axes' keep)) := by
  unfold immGeneral
  have hvk : ∀ k, k < ((rowIndices sh').map val).length →
      ((rowIndices sh').map val)[k]? = some (val (nthIndex sh' k)) := by
    intro k hk
    rw [List.length_map, length_rowIndices] at hk
    rw [List.getElem?_map, rowIndices_eq_nth, List.getElem?_map, List.getElem?_range hk]
    rfl
  by_cases hz : immInnerStride L sh axes = 0
  · rw [if_pos hz]
    have hones := hs.ones.1 hz
    have hp1 : numel pre = 1 := numel_ones fun x hx => hones x (by simp [hx])
    have hm1 : numel mid = 1 := numel_ones fun x hx => hones x (by simp [hx])
    have hpr1 : numel (redPre axes' pre keep) = 1 :=
      numel_dropAxes_ones pre 0 fun x hx => hones x (by simp [hx])
    have hn : numel (redShape sh' axes' keep) = numel sh' := by
      rw [hs.eq, redShape_split hs.split, numel_append, numel_append, numel_fill, numel_append, numel_append,
        hpr1, hp1, hm1]
    unfold copyToReduced
    rw [List.length_map, length_rowIndices, if_pos (by omega), List.drop_eq_nil_of_le (by omega),
      List.append_nil]
    congr 1
    apply List.ext_getElem?
    intro o
    by_cases ho : o < numel sh'
    · have ho' : o < numel (redShape sh' axes' keep) := by omega
      rw [List.getElem?_map, hvk o (by rw [List.length_map, length_rowIndices]; exact ho), Option.map_some,
        List.getElem?_map, rowIndices_eq_nth, List.getElem?_map, List.getElem?_range ho', Option.map_some,
        Option.map_some]
      congr 1
      obtain ⟨hrb, hrr⟩ := nthIndex_spec ho'
      rw [hs.eq] at hrb
      obtain ⟨r1, s, hr1, hsb, hre, hrk⟩ := split_redIndex hs.split hrb
      have hr0 := rowRank_lt hr1
      rw [hpr1] at hr0
      have hr0' : rowRank (redPre axes' pre keep) r1 = 0 := by omega
      rw [← hs.eq] at hre hrk
      rw [hrr, hr0', Nat.zero_mul, Nat.zero_add] at hrk
      unfold redValue
      rw [hre]
      have hg : ((redGroup sh' axes' keep (r1 ++ ((ixFill keep).elim [] (List.replicate mid.length) ++ s))).map
          val) = [val (nthIndex sh' o)] := by
        have h1 := group_vals (val := fun k => val (nthIndex sh' k)) hs.split hr1 hsb
        rw [← hs.eq, hr0', hp1, hm1] at h1
        have h2 : (redGroup sh' axes' keep (r1 ++ ((ixFill keep).elim [] (List.replicate mid.length) ++ s))).map
            val = (redGroup sh' axes' keep (r1 ++ ((ixFill keep).elim [] (List.replicate mid.length) ++ s))).map
            (fun idx => val (nthIndex sh' (rowRank sh' idx))) := by
          apply List.map_congr_left
          intro idx hidx
          rw [nthIndex_rowRank (mem_rowIndices.1 (List.mem_of_mem_filter hidx))]
        rw [h2, h1]
        have hk0 : keptRank axes' pre keep 0 = 0 := by
          have := rowRank_lt (inBounds_dropAxes (axes := axes') (keep := keep) 0
            (nthIndex_spec (show 0 < numel pre by omega)).1)
          have e : numel (dropAxes axes' (shFill keep) 0 pre) = 1 := hpr1
          rw [e] at this
          exact Nat.lt_one_iff.1 this
        unfold toBlock colVals
        simp only [List.range_one, List.filter_cons, hk0, decide_true, if_true, List.filter_nil,
          List.flatMap_cons, List.flatMap_nil, List.map_cons, List.map_nil, List.append_nil, Nat.zero_mul,
          Nat.zero_add]
        rw [hrk]
      rw [hg]
      exact hcopy hz _
    · rw [List.getElem?_eq_none (by rw [List.length_map, List.length_map, length_rowIndices]; omega),
        List.getElem?_eq_none (by rw [List.length_map, length_rowIndices]; omega)]
  · rw [if_neg hz]
    obtain ⟨p, hp, hfit⟩ := hs.plan hz
    rw [hp]
    simp only
    have hcore := imm_core (F := F) hlaw hs.split hfit (data := (rowIndices sh').map val)
      (val := fun k => val (nthIndex sh' k)) (by rw [← hs.eq]; exact h0)
      (by rw [← hs.eq, List.length_map, length_rowIndices]) hvk (junk := junk) (by rw [← hs.eq]; exact hj)
      (fuel := p.iterShape.foldl (· * ·) 1 + 1) (by rw [foldl_mul_eq, hfit.shape]; omega)
    rw [← hs.eq] at hcore
    rw [hcore]
    simp only
    congr 1
    have hval : ∀ st r, redValue F st (fun idx => val (nthIndex sh' (rowRank sh' idx))) sh' axes' keep r =
        redValue F st val sh' axes' keep r := by
      intro st r
      unfold redValue
      congr 1
      apply List.map_congr_left
      intro idx hidx
      rw [nthIndex_rowRank (mem_rowIndices.1 (List.mem_of_mem_filter hidx))]
    unfold immFinish
    cases initial with
    | none =>
      apply List.map_congr_left
      intro r _
      rw [hval]; rfl
    | some v =>
      simp only [List.map_map]
      apply List.map_congr_left
      intro r _
      simp only [Function.comp]
      rw [redValue_initial hlaw hc, hval]; rfl

/-! ### Order of the elements -/

theorem foldl_perm {F : RedFns α β} (hc : ReducerComm F) {l l' : List α} (h : l.Perm l') (x : β) :
    l.foldl F.reduce x = l'.foldl F.reduce x := by
  induction h generalizing x with
  | nil => rfl
  | cons a _ ih => exact ih _
  | swap a b l => simp only [List.foldl_cons, hc.reduce]
  | trans _ _ ih1 ih2 => rw [ih1, ih2]

theorem colIndices_eq_reverse (sh : List Nat) : colIndices sh = (rowIndices sh.reverse).map List.reverse := by
  apply List.ext_getElem?
  intro k
  by_cases h : k < numel sh
  · have h' : k < numel sh.reverse := by rw [numel_reverse]; exact h
    obtain ⟨hb, hr⟩ := nthIndex_spec h'
    rw [rowIndices_eq_nth, List.getElem?_map, List.getElem?_map, List.getElem?_range h', Option.map_some,
      Option.map_some]
    have hl : k < (colIndices sh).length := by rw [length_colIndices]; exact h
    rw [List.getElem?_eq_getElem hl]
    congr 1
    have hm : InBounds sh (colIndices sh)[k] := mem_colIndices.1 (List.getElem_mem hl)
    have hb' : InBounds sh (nthIndex sh.reverse k).reverse := by
      have := hb.reverse
      rwa [List.reverse_reverse] at this
    apply colRank_inj hm hb'
    rw [colRank_eq_rowRank_reverse hb'.length_eq, List.reverse_reverse, hr]
    have h2 := congrArg (fun l => l[k]?) (map_colRank_colIndices sh)
    simp only [List.getElem?_map, List.getElem?_eq_getElem hl, Option.map_some, List.getElem?_range h] at h2
    exact Option.some.inj h2
  · rw [List.getElem?_eq_none (by rw [length_colIndices]; omega),
      List.getElem?_eq_none (by rw [List.length_map, length_rowIndices, numel_reverse]; omega)]

theorem redValue_rev {F : RedFns α β} (hc : ReducerComm F) {sh axes : List Nat} {keep : Bool}
    (hg : ∀ a ∈ axes, a < sh.length) (start : β) (val : List Nat → α) (r : List Nat) :
    redValue F start (fun x => val x.reverse) sh.reverse (revAxes sh.length axes) keep r.reverse =
      redValue F start val sh axes keep r := by
  unfold redValue
  apply foldl_perm hc
  have hp : ((redGroup sh.reverse (revAxes sh.length axes) keep r.reverse).map List.reverse).Perm
      (redGroup sh axes keep r) := by
    apply (List.perm_ext_iff_of_nodup _ _).2
    · intro x
      simp only [List.mem_map, redGroup, List.mem_filter, decide_eq_true_eq, mem_rowIndices]
      constructor
      · rintro ⟨y, ⟨hb, hy⟩, rfl⟩
        have hb' : InBounds sh y.reverse := by
          have := hb.reverse
          rwa [List.reverse_reverse] at this
        refine ⟨hb', ?_⟩
        have := redIndex_rev (keep := keep) hg hb'.length_eq
        rw [List.reverse_reverse, hy] at this
        exact (List.reverse_injective this).symm
      · rintro ⟨hb, hx⟩
        refine ⟨x.reverse, ⟨hb.reverse, ?_⟩, List.reverse_reverse x⟩
        rw [redIndex_rev hg hb.length_eq, hx]
    · exact ((rowIndices_nodup _).filter _).map List.reverse_injective
    · exact (rowIndices_nodup _).filter _
  have := hp.map val
  rw [List.map_map] at this
  exact this

/-! ### All axes reduced -/

theorem mem_of_full {dim : Nat} {axes : List Nat} (hg : GoodAxes dim axes) (hl : axes.length = dim) {k : Nat}
    (hk : k < dim) : k ∈ axes := by
  have hn : axes.Nodup := hg.1.imp fun h => Nat.ne_of_lt h
  have hsub : axes ⊆ List.range dim := fun a ha => List.mem_range.2 (hg.2 a ha)
  have hp : axes.Perm (List.range dim) :=
    (List.subperm_of_subset hn hsub).perm_of_length_le (by simp [hl])
  exact hp.mem_iff.2 (List.mem_range.2 hk)

theorem full_value {F : RedFns α β} (hc : ReducerComm F) {L : Layout} {sh axes : List Nat} {keep : Bool}
    (hg : GoodAxes sh.length axes) (hl : axes.length = sh.length) (start : β) (val : List Nat → α) :
    [((orderIndices L sh).map val).foldl F.reduce start] =
      (orderIndices L (redShape sh axes keep)).map (redValue F start val sh axes keep) := by
  have hsplit : RowSplit axes [] sh [] :=
    ⟨fun k hk => by simpa using mem_of_full hg hl hk, fun k hk => by simp at hk⟩
  have hrs : redShape sh axes keep = (shFill keep).elim [] (List.replicate sh.length) := by
    have := redShape_split (keep := keep) hsplit
    simpa [dropAxes] using this
  have hr : ∀ {r}, InBounds (redShape sh axes keep) r → r = (ixFill keep).elim [] (List.replicate sh.length) := by
    intro r h
    rw [hrs] at h
    exact fill_unique h
  have hlen : (orderIndices L (redShape sh axes keep)).length = 1 := by
    rw [length_orderIndices, hrs, numel_fill]
  obtain ⟨r, he⟩ := List.length_eq_one_iff.1 hlen
  have hrb : InBounds (redShape sh axes keep) r := by
    apply (mem_orderIndices (L := L)).1; rw [he]; simp
  rw [he, List.map_singleton]
  congr 1
  unfold redValue
  have hgr : redGroup sh axes keep r = rowIndices sh := by
    unfold redGroup
    rw [List.filter_eq_self]
    intro x hx
    rw [decide_eq_true_eq, hr hrb]
    exact hr (inBounds_dropAxes 0 (mem_rowIndices.1 hx))
  rw [hgr]
  apply foldl_perm hc
  apply List.Perm.map
  apply (List.perm_ext_iff_of_nodup _ (rowIndices_nodup sh)).2
  · intro x; rw [mem_orderIndices, mem_rowIndices]
  · cases L <;> first | exact colIndices_nodup sh | exact rowIndices_nodup sh

/-! ### C31 -/

/-- When `reduce_immediate` copies the elements instead of reducing them: no axis is given, or the extents
from the reduced axis with the smallest stride on are all 1. -/
def ImmCopies (L : Layout) (sh axes : List Nat) : Prop :=
  axes = [] ∨ (axes.length ≠ sh.length ∧
    ∀ x ∈ (if L = .row_major then sh.take (axes.getLastD 0 + 1) else sh.drop (axes.headD 0)), x = 1)

instance (L : Layout) (sh axes : List Nat) : Decidable (ImmCopies L sh axes) := by
  unfold ImmCopies; infer_instance

theorem redGroup_nil {sh : List Nat} {keep : Bool} {r : List Nat} (h : InBounds sh r) :
    redGroup sh [] keep r = [r] := by
  unfold redGroup
  have : ∀ x ∈ rowIndices sh, decide (redIndex [] keep x = r) = decide (x = r) := by
    intro x _
    rw [redIndex, dropAxes_of_lt _ _ (by simp)]
  rw [List.filter_congr this, filter_eq_singleton _ (rowIndices_nodup sh) (mem_rowIndices.2 h)]

/-- The value of an immediate reduction, in terms of the elements alone. -/
theorem C31_immediate_values_partial {L : Layout} (hL : L = .row_major ∨ L = .column_major) {sh axes : List Nat}
    (val : List Nat → α) {F : RedFns α β} (hlaw : ReducerLaws F) (hc : ReducerComm F) {keep : Bool}
    {initial : Option β} {copy : α → β} {junk : List β} (hg : GoodAxes sh.length axes)
    (hj : junk.length = numel (redShape sh axes keep))
    (h0 : numel sh ≠ 0 ∨ axes.length = sh.length ∨ axes = [])
    (hcopy : ImmCopies L sh axes → ∀ v, copy v = F.reduce (initial.getD F.init) v) :
    reduceImmediate L sh ((orderIndices L sh).map val) F axes keep initial copy junk =
      .ok ((orderIndices L (redShape sh axes keep)).map
        (redValue F (initial.getD F.init) val sh axes keep)) := by
  unfold reduceImmediate
  by_cases hax : axes = []
  · subst hax
    rw [if_pos (show ([] : List Nat).length = 0 from rfl)]
    have hrs : redShape sh [] keep = sh := dropAxes_of_lt _ _ (by simp)
    rw [hrs] at hj ⊢
    unfold copyToReduced
    rw [List.length_map, length_orderIndices, if_pos (by omega), List.drop_eq_nil_of_le (by omega),
      List.append_nil, List.map_map]
    congr 1
    apply List.map_congr_left
    intro r hr
    unfold redValue
    rw [redGroup_nil (mem_orderIndices.1 hr)]
    exact hcopy (.inl rfl) _
  · have hd : sh.length ≠ 0 := by
      intro e
      obtain ⟨a, as, rfl⟩ : ∃ a as, axes = a :: as := by
        cases axes with
        | nil => exact absurd rfl hax
        | cons a as => exact ⟨a, as, rfl⟩
      have := hg.2 a (by simp)
      omega
    rw [if_neg (by simpa using hax), if_neg (by simp [(axesOk_iff hd axes).2 hg]), if_neg hd]
    by_cases hfull : sh.length = axes.length
    · rw [if_pos hfull, ← full_value hc hg hfull.symm]
      have hone : junk.length = 1 := by
        rw [hj]
        have := congrArg List.length (full_value (L := .row_major) (keep := keep) hc hg hfull.symm
          (initial.getD F.init) val)
        rw [List.length_map, length_orderIndices] at this
        exact this.symm
      obtain ⟨j, rfl⟩ := List.length_eq_one_iff.1 hone
      rfl
    · rw [if_neg hfull]
      have hn0 : numel sh ≠ 0 := by
        rcases h0 with h | h | h
        · exact h
        · exact absurd h.symm hfull
        · exact absurd h hax
      rcases hL with rfl | rfl
      · obtain ⟨pre, mid, post, hs, happ⟩ := setup_row (keep := keep) hg hax hn0
        refine imm_tail hlaw hc hs hn0 hj fun hz => hcopy (.inr ⟨fun e => hfull e.symm, ?_⟩)
        rw [if_pos rfl, ← happ]
        exact hs.ones.1 hz
      · obtain ⟨pre, mid, post, hs, happ⟩ := setup_col (keep := keep) hg hax hn0
        have hdata : (orderIndices .column_major sh).map val =
            (rowIndices sh.reverse).map fun x => val x.reverse := by
          show (colIndices sh).map val = _
          rw [colIndices_eq_reverse, List.map_map]; rfl
        rw [hdata]
        refine (imm_tail hlaw hc hs (by rw [numel_reverse]; exact hn0)
          (by rw [redShape_rev hg.2, numel_reverse]; exact hj) fun hz =>
          hcopy (.inr ⟨fun e => hfull e.symm, ?_⟩)).trans ?_
        · rw [if_neg (by decide)]
          intro x hx
          apply hs.ones.1 hz
          rw [happ]; exact List.mem_reverse.2 hx
        · congr 1
          show _ = (colIndices _).map _
          rw [redShape_rev hg.2, colIndices_eq_reverse, List.map_map]
          apply List.map_congr_left
          intro r _
          simp only [Function.comp]
          rw [← redValue_rev hc hg.2, List.reverse_reverse]

/-- Immediate and lazy evaluation agree: the container returned by the immediate reduction holds, in its own
layout, what iterating over the lazy reducer yields.  `junk` is whatever the uninitialised result held. -/
theorem C31_immediate_eq_lazy_partial (r : Reducer α β) {L : Layout} (hL : L = .row_major ∨ L = .column_major)
    (hg : GoodAxes r.sh.length r.axes) (hf : Fits r.sh r.e) (hlaw : ReducerLaws r.fns)
    (hc : ReducerComm r.fns) {copy : α → β} {junk : List β}
    (hj : junk.length = numel (redShape r.sh r.axes r.keep))
    (h0 : numel r.sh ≠ 0 ∨ r.axes.length = r.sh.length ∨ r.axes = [])
    (hcopy : ImmCopies L r.sh r.axes → ∀ v, copy v = r.fns.reduce (r.initial.getD r.fns.init) v) (dflt : β) :
    reduceImmediate L r.sh ((orderIndices L r.sh).map (valueAt r.e)) r.fns r.axes r.keep r.initial copy junk =
      .ok (r.values dflt L (redShape r.sh r.axes r.keep)) := by
  rw [C30_own_shape r L hL hg hf hlaw dflt]
  exact C31_immediate_values_partial hL (valueAt r.e) hlaw hc hg hj h0 hcopy

/-- Bad axes are rejected (expressions of dimension at least 1). -/
theorem C31_bad_axes_throw (L : Layout) {sh axes : List Nat} (hd : sh ≠ []) (hg : ¬ GoodAxes sh.length axes)
    (data : List α) (F : RedFns α β) (keep : Bool) (initial : Option β) (copy : α → β) (junk : List β) :
    reduceImmediate L sh data F axes keep initial copy junk = .throws := by
  unfold reduceImmediate
  have hd' : sh.length ≠ 0 := by simpa using hd
  have hax : axes.length ≠ 0 := by
    intro e
    apply hg
    rw [List.length_eq_zero_iff.1 e]
    exact ⟨List.Pairwise.nil, by simp⟩
  rw [if_neg hax, if_pos]
  rw [Bool.not_eq_true', ← Bool.not_eq_true, axesOk_iff hd']
  exact hg

theorem sumFns_comm : ReducerComm sumFns :=
  ⟨fun x a b => by simp only [sumFns]; omega, fun x y => by simp only [sumFns]; omega⟩

/-! ### Where the code departs from the property -/

/-- Sum of squares (`norm_sq`). -/
theorem sqSumFns_comm : ReducerComm sqSumFns :=
  ⟨fun x a b => by simp only [sqSumFns]; omega, fun x y => by simp only [sqSumFns]; omega⟩

/-- Reducing a unit leading axis copies the elements: the reduction function is skipped
(`norm_sq({{1,2,3}}, {0}, immediate)` returns the elements, not their squares). -/
theorem C31_copy_path_skips_reduction :
    ∃ (r : Reducer Int Int), GoodAxes r.sh.length r.axes ∧ Fits r.sh r.e ∧ ReducerLaws r.fns ∧
      ReducerComm r.fns ∧ r.initial = none ∧
      reduceImmediate .row_major r.sh ((orderIndices .row_major r.sh).map (valueAt r.e)) r.fns r.axes r.keep
        r.initial id [0, 0, 0] ≠ .ok (r.values 0 .row_major (redShape r.sh r.axes r.keep)) :=
  ⟨{ e := iotaEx [1, 3] [0, 1], sh := [1, 3], fns := sqSumFns, axes := [0], keep := false, initial := none },
    by decide, ⟨⟨rfl, fun k h => by
      match k with
      | 0 => rfl
      | 1 => simp [StridedArr.mk'] at h
      | k + 2 => simp [StridedArr.mk'] at h, fun k => by
      match k with
      | 0 => decide
      | 1 => decide
      | k + 2 => simp [StridedArr.mk']⟩, by decide⟩, sqSumFns_laws, sqSumFns_comm, rfl, by decide⟩

/-- The same path ignores the initial value (`sum({{1,2,3}}, {0}, immediate | initial(10))`). -/
theorem C31_copy_path_ignores_initial :
    reduceImmediate .row_major [1, 3] [0, 1, 2] sumFns [0] false (some 10) id [0, 0, 0] = .ok [0, 1, 2] ∧
      (orderIndices .row_major [3]).map (redValue sumFns 10 (fun i => Int.ofNat (rowRank [1, 3] i)) [1, 3] [0]
        false) = [10, 11, 12] := by decide

/-- Zero extents: reducing the zero extent of a `(0, 3)` array writes outside the storage it reads, where
the lazy reduction yields three initial values. -/
theorem C31_zero_extent_ub :
    reduceImmediate (α := Int) .row_major [0, 3] [] sumFns [0] false none id [0, 0, 0] = .ub ∧
      reduceImmediate (α := Int) .row_major [3, 0] [] sumFns [1] false none id [0, 0, 0] = .ok [0, 0, 0] ∧
      (orderIndices .row_major (redShape [0, 3] [0] false)).map (redValue sumFns 0
        (fun i => Int.ofNat (rowRank [0, 3] i)) [0, 3] [0] false) = [0, 0, 0] := by decide

/-! ### Examples -/

example : reduceImmediate .row_major [2, 3, 2] ((List.range 12).map Int.ofNat) sumFns [0, 2] false none id
    [7, 7, 7] = .ok [14, 22, 30] := by decide
example : reduceImmediate .column_major [2, 3, 2] ((List.range 12).map Int.ofNat) sumFns [0, 2] true (some 100) id
    [7, 7, 7] = .ok [114, 122, 130] := by decide
example := C31_immediate_eq_lazy_partial exRed (L := .column_major) (.inr rfl) (by decide) iotaEx_fits sumFns_laws
  sumFns_comm (copy := id) (junk := [5, 6]) (by decide) (by decide) (fun h => absurd h (by decide)) 0
example := C31_immediate_values_partial (L := .row_major) (.inl rfl) (sh := [2, 3, 2]) (axes := [0, 2])
  (fun i => Int.ofNat (rowRank [2, 3, 2] i)) sumFns_laws sumFns_comm (keep := true) (initial := none) (copy := id)
  (junk := [1, 2, 3]) (by decide) (by decide) (by decide) (fun _ v => by simp [sumFns])
example := C31_bad_axes_throw .row_major (sh := [2, 3]) (axes := [1, 0]) (by decide) (by decide)
  [1, 2, 3, 4, 5, 6] sumFns false none id [0]

end Xt
