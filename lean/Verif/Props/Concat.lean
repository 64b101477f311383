import Verif.Props.Builder
/-!
# C39 and C57: concatenate, stack, hstack, vstack, meshgrid
-/

namespace Xt
open Spec

theorem wrap64_nat {x : Nat} (h : x < 2 ^ 64) : wrap64 (x : Int) = x := by
  unfold wrap64
  have : ((x : Int)) % 2 ^ 64 = x := Int.emod_eq_of_lt (by omega) (by exact_mod_cast h)
  omega

theorem toInt32_nat {x : Nat} (h : x < 2 ^ 31) : toInt32 x = x := by
  unfold toInt32; omega

theorem tailStride_fold {tail : List Nat} (acc : Nat) (hacc : 0 < acc) (h0 : 0 ∉ tail) (h : acc * numel tail < 2 ^ 31) :
    tail.foldl (fun (acc : Int) (d : Nat) => toInt32 (wrap64 (wrap64 acc * d))) (acc : Int) = ((acc * numel tail : Nat) : Int) := by
  induction tail generalizing acc with
  | nil => simp
  | cons d tail ih =>
    have hp : 0 < numel tail := (numel_pos_iff _).2 fun hm => h0 (by simp [hm])
    have hd : d ≠ 0 := fun e => h0 (by simp [e])
    rw [numel_cons, ← Nat.mul_assoc] at h
    have h1 : acc * d ≤ acc * d * numel tail := Nat.le_mul_of_pos_right _ hp
    have h2 : acc ≤ acc * d := Nat.le_mul_of_pos_right _ (by omega)
    rw [List.foldl_cons, wrap64_nat (by omega), ← Int.natCast_mul, wrap64_nat (by omega), toInt32_nat (by omega),
      ih (acc * d) (by omega) (fun hm => h0 (by simp [hm])) h, numel_cons, Nat.mul_assoc]

theorem tailStride_eq {tail : List Nat} (h0 : 0 ∉ tail) (h : numel tail < 2 ^ 31) : tailStride tail = numel tail := by
  unfold tailStride
  have := tailStride_fold (tail := tail) 1 (by omega) h0 (by omega)
  rw [Nat.one_mul] at this
  rw [show (1 : Int) = ((1 : Nat) : Int) by rfl, this, wrap64_nat (by omega)]

/-- Index with the entry on `axis` replaced, counting axes from `i`. -/
def replFrom (axis a : Nat) : Nat → List Nat → List Nat
  | _, [] => []
  | i, x :: idx => (if i = axis then a else x) :: replFrom axis a (i + 1) idx

theorem replFrom_eq (axis a : Nat) (idx : List Nat) (i : Nat) :
    replFrom axis a i idx = if i ≤ axis then idx.set (axis - i) a else idx := by
  induction idx generalizing i with
  | nil => simp [replFrom]
  | cons x idx ih =>
    rw [replFrom, ih]
    by_cases h : i = axis
    · subst h; simp
    · rw [if_neg h]
      by_cases h' : i ≤ axis
      · rw [if_pos h', if_pos (by omega), show axis - i = (axis - (i + 1)) + 1 by omega, List.set_cons_succ]
      · rw [if_neg h', if_neg (by omega)]

theorem concatOffset_eq {axis a : Nat} {sh idx : List Nat} (i : Nat) (hl : idx.length = sh.length)
    (hb : InBounds sh (replFrom axis a i idx)) (hn : numel sh < 2 ^ 31) :
    concatOffset axis a i sh idx = rowRank sh (replFrom axis a i idx) := by
  induction sh generalizing idx i with
  | nil => simp [concatOffset]
  | cons n sh ih =>
    cases idx with
    | nil => simp at hl
    | cons x idx =>
      simp only [replFrom] at hb ⊢
      have hlt := rowRank_lt hb
      obtain ⟨h1, h2⟩ := hb
      have hp := InBounds.numel_pos h2
      have hle : numel sh ≤ numel (n :: sh) := by rw [numel_cons]; exact Nat.le_mul_of_pos_left _ (by omega)
      rw [concatOffset, ih (i + 1) (by simpa using hl) h2 (by omega), tailStride_eq ((numel_pos_iff _).1 hp) (by omega), rowRank_cons]
      rw [rowRank_cons] at hlt
      generalize hv : (if i = axis then a else x) * numel sh + rowRank sh (replFrom axis a (i + 1) idx) = V at *
      have : (((if i = axis then a else x) : Nat) : Int) * ((numel sh : Nat) : Int) +
          ((rowRank sh (replFrom axis a (i + 1) idx) : Nat) : Int) = (V : Int) := by
        rw [← hv]; push_cast; rfl
      rw [this]
      exact wrap64_nat (by omega)

/-- An operand's values fill its shape. -/
def Opd.WF {α : Type} (o : Opd α) : Prop := o.vals.length = numel o.shape

theorem opd_flat {α : Type} {o : Opd α} (hw : o.WF) {idx : List Nat} (hb : InBounds o.shape idx) :
    ∃ v, o.vals[rowRank o.shape idx]? = some v ∧ o.flat (rowRank o.shape idx) = .ok v := by
  have h := rowRank_lt hb
  rw [← hw] at h
  refine ⟨o.vals[rowRank o.shape idx], by simp [h], ?_⟩
  unfold Opd.flat
  simp [h]

theorem concatCheck_iff {axis : Nat} {a b : List Nat} : concatCheck axis a b = true ↔ AgreeOff axis a b := by
  have key : ∀ (l : List Nat) (r : Bool), l.foldl (fun res i => res && (i == axis || a[i]? == b[i]?)) r = true ↔
      r = true ∧ ∀ i ∈ l, i = axis ∨ a[i]? = b[i]? := by
    intro l
    induction l with
    | nil => simp
    | cons x l ih => intro r; rw [List.foldl_cons, ih]; simp; tauto
  unfold concatCheck AgreeOff
  rw [key]
  simp only [beq_iff_eq, List.mem_range]
  constructor
  · rintro ⟨h1, h2⟩
    refine ⟨h1, fun i hi hne => ?_⟩
    rcases h2 i hi with h | h
    · exact absurd h hne
    · simp only [List.getD_eq_getElem?_getD, h]
  · rintro ⟨h1, h2⟩
    refine ⟨h1, fun i hi => ?_⟩
    by_cases hne : i = axis
    · exact Or.inl hne
    · right
      have := h2 i hi hne
      have hi' : i < b.length := by omega
      rw [List.getElem?_eq_getElem hi, List.getElem?_eq_getElem hi']
      simp only [List.getD_eq_getElem?_getD, List.getElem?_eq_getElem hi, List.getElem?_eq_getElem hi', Option.getD_some] at this
      rw [this]

/-- C39: operands that disagree with the first one off the axis are rejected with an exception. -/
theorem C39_mismatch_throws {α : Type} [Inhabited α] {o : Opd α} {ops : List (Opd α)} {axis : Nat} {p : Opd α} (hp : p ∈ ops)
    (h : ¬ AgreeOff axis o.shape p.shape) : concatenate (o :: ops) axis = .throws := by
  unfold concatenate concatShape
  simp only
  rw [if_pos]
  · rfl
  · rw [List.any_eq_true]
    refine ⟨p, by simp [hp], ?_⟩
    rw [← concatCheck_iff] at h
    simp [h]

example : concatenate [(⟨[2, 2], [1, 2, 3, 4]⟩ : Opd Nat), ⟨[1, 3], [5, 6, 7]⟩] 0 = .throws :=
  C39_mismatch_throws (p := ⟨[1, 3], [5, 6, 7]⟩) (by simp) (by
    rintro ⟨_, h⟩
    exact absurd (h 1 (by decide) (by decide)) (by decide))

/-- C39: an axis that is not one of the operands' is not reported: the extent is written out of bounds. -/
theorem C39_bad_axis_ub {α : Type} [Inhabited α] {o : Opd α} {ops : List (Opd α)} {axis : Nat} (hax : o.shape.length ≤ axis)
    (h : ∀ p ∈ o :: ops, p.shape = o.shape) : concatenate (o :: ops) axis = .ub := by
  unfold concatenate concatShape
  simp only
  rw [if_neg, if_pos hax]
  · rfl
  · rw [List.any_eq_true]
    rintro ⟨p, hp, hc⟩
    rw [h p hp] at hc
    have : concatCheck axis o.shape o.shape = true := concatCheck_iff.2 ⟨rfl, fun _ _ _ => rfl⟩
    rw [this] at hc
    cases hc

example : concatenate [(⟨[2], [1, 2]⟩ : Opd Nat), ⟨[2], [5, 6]⟩] 1 = .ub :=
  C39_bad_axis_ub (by decide) (by simp)

/-- C39: reading the generator with fewer indices than axes is undefined. -/
theorem C39_too_few_indices_ub {α : Type} [Inhabited α] {o : Opd α} {ops : List (Opd α)} {axis : Nat} {g : Gen α}
    (hg : concatenate (o :: ops) axis = .ok g) {args : List Nat} (h : args.length < o.shape.length) :
    g.f args = .ub := by
  unfold concatenate at hg
  cases hc : concatShape axis (o :: ops) with
  | ok sh =>
    rw [hc] at hg
    simp only [Res.map, Res.bind] at hg
    cases hg
    simp only [concatAccess]
    rw [if_pos h]
  | throws => rw [hc] at hg; cases hg
  | ub => rw [hc] at hg; cases hg

example : ∃ g, concatenate [(⟨[2, 1], [1, 2]⟩ : Opd Nat), ⟨[2, 1], [5, 6]⟩] 0 = .ok g ∧ g.f [1] = .ub := ⟨_, rfl, by decide⟩

theorem foldl_add_extents {α : Type} (axis : Nat) (ops : List (Opd α)) (s : Nat) :
    ops.foldl (fun (prev : Nat) p => prev + p.shape.getD axis 0) s = s + (ops.map fun p => p.shape.getD axis 0).sum := by
  induction ops generalizing s with
  | nil => simp
  | cons o ops ih => rw [List.foldl_cons, ih, List.map_cons, List.sum_cons]; omega

theorem concatSearch_eq {α : Type} [Inhabited α] (axis : Nat) (q : List Nat) {ops : List (Opd α)} {j : Nat} {o : Opd α}
    (hj : ops[j]? = some o) {a : Nat} (ha : a < o.shape.getD axis 0) :
    concatSearch axis q (a + blockStart (ops.map fun p => p.shape.getD axis 0) j) ops =
      o.flat (concatOffset axis a 0 o.shape q) := by
  induction ops generalizing j with
  | nil => simp at hj
  | cons p ops ih =>
    cases j with
    | zero =>
      simp only [List.getElem?_cons_zero, Option.some.injEq] at hj
      subst hj
      rw [show blockStart ((p :: ops).map fun p => p.shape.getD axis 0) 0 = 0 by simp [blockStart], Nat.add_zero, concatSearch,
        if_neg (by omega)]
    | succ j =>
      rw [List.getElem?_cons_succ] at hj
      have := ih hj
      rw [show blockStart ((p :: ops).map fun p => p.shape.getD axis 0) (j + 1) =
        p.shape.getD axis 0 + blockStart (ops.map fun p => p.shape.getD axis 0) j by simp [blockStart], concatSearch,
        if_pos (by omega), ← this]
      congr 1; omega

theorem blockStart_le {l : List Nat} {j : Nat} (hj : j < l.length) : blockStart l j + l[j] ≤ l.sum := by
  have h1 : (l.take (j + 1)).sum = blockStart l j + l[j] := by
    unfold blockStart; rw [← List.take_concat_get' l j hj, List.sum_append]; simp
  have h2 := congrArg List.sum (List.take_append_drop (j + 1) l)
  rw [List.sum_append] at h2
  omega

theorem block_of {l : List Nat} {x : Nat} (h : x < l.sum) :
    ∃ j, ∃ hj : j < l.length, blockStart l j ≤ x ∧ x < blockStart l j + l[j] := by
  induction l generalizing x with
  | nil => simp at h
  | cons n l ih =>
    by_cases hx : x < n
    · exact ⟨0, by simp, by simp [blockStart], by simpa [blockStart] using hx⟩
    · obtain ⟨j, hj, h1, h2⟩ := ih (x := x - n) (by simp at h; omega)
      refine ⟨j + 1, by simpa using hj, ?_, ?_⟩ <;> simp [blockStart] at * <;> omega

theorem agreeOff_set {axis : Nat} {a b : List Nat} (h : AgreeOff axis a b) (hx : axis < a.length) (v : Nat) : a.set axis v = b.set axis v := by
  have hx' : axis < b.length := by have := h.1; omega
  refine ext_getD (by simp [h.1]) fun i hi => ?_
  rw [getD_set_nat hx, getD_set_nat hx']
  split
  next => rfl
  next e => exact h.2 i (by simpa using hi) (fun h => e h.symm)

theorem inBounds_set_both {sh idx : List Nat} {a n v : Nat} (h : InBounds sh idx) (ha : a < sh.length) (hv : v < n) :
    InBounds (sh.set a n) (idx.set a v) := by
  have hl := h.length_eq
  rw [inBounds_iff_get] at h ⊢
  refine ⟨by simp [hl], fun k hk => ?_⟩
  rw [getD_set_nat ha, getD_set_nat (by omega)]
  split
  · exact hv
  · exact h.2 k (by simpa using hk)

/-- Shape of a concatenation. -/
theorem concatShape_eq {α : Type} {o : Opd α} {ops : List (Opd α)} {axis : Nat} (hax : axis < o.shape.length)
    (hag : ∀ p ∈ o :: ops, AgreeOff axis o.shape p.shape)
    (hsum : ((o :: ops).map fun p => p.shape.getD axis 0).sum < 2 ^ 64) :
    concatShape axis (o :: ops) = .ok (o.shape.set axis ((o :: ops).map fun p => p.shape.getD axis 0).sum) := by
  unfold concatShape
  simp only
  rw [if_neg, if_neg (by omega), foldl_add_extents, Nat.zero_add]
  · congr 2
    rw [show ((o.shape.getD axis 0 : Int) + (((((o :: ops).map fun p => p.shape.getD axis 0).sum : Nat) : Int) - (o.shape.getD axis 0 : Int))) =
      ((((o :: ops).map fun p => p.shape.getD axis 0).sum : Nat) : Int) by omega]
    exact wrap64_nat hsum
  · rw [List.any_eq_true]
    rintro ⟨p, hp, hc⟩
    rw [concatCheck_iff.2 (hag p hp)] at hc
    simp at hc

/-- C39: `concatenate` places the operands one after the other along the axis: the shape has the summed extent there, and
element `idx` of operand `j` is found at the index shifted by the extents of the operands before it. -/
theorem C39_concatenate {α : Type} [Inhabited α] {o : Opd α} {ops : List (Opd α)} {axis : Nat} (hax : axis < o.shape.length)
    (hag : ∀ p ∈ o :: ops, AgreeOff axis o.shape p.shape) (hw : ∀ p ∈ o :: ops, p.WF)
    (hsmall : ∀ p ∈ o :: ops, numel p.shape < 2 ^ 31)
    (hsum : ((o :: ops).map fun p => p.shape.getD axis 0).sum < 2 ^ 64) :
    ∃ g, concatenate (o :: ops) axis = .ok g ∧
      g.shape = o.shape.set axis ((o :: ops).map fun p => p.shape.getD axis 0).sum ∧
      ∀ j p, (o :: ops)[j]? = some p → ∀ idx, InBounds p.shape idx → ∃ v, p.vals[rowRank p.shape idx]? = some v ∧
        g.Reads (shiftAxis axis (blockStart ((o :: ops).map fun p => p.shape.getD axis 0) j) idx) v := by
  unfold concatenate
  rw [concatShape_eq hax hag hsum]
  refine ⟨_, rfl, rfl, fun j p hj idx hb => ?_⟩
  have hpm : p ∈ o :: ops := List.mem_of_getElem? hj
  obtain ⟨v, hv1, hv2⟩ := opd_flat (hw p hpm) hb
  have hag' := hag p hpm
  have hl := hb.length_eq
  have haxi : axis < idx.length := by rw [hl, ← hag'.1]; exact hax
  have hbi := (inBounds_iff_get.1 hb).2
  obtain ⟨hj1, hj2⟩ := List.getElem?_eq_some_iff.1 hj
  have hat : idx.getD axis 0 < p.shape.getD axis 0 :=
     hbi axis (by omega)
  refine ⟨v, hv1, Gen.reads_of ?_ ?_⟩
  · show InBounds (o.shape.set axis _) _
    rw [agreeOff_set hag' hax]
    unfold shiftAxis
    apply inBounds_set_both hb (by omega)
    have hle := blockStart_le (l := (o :: ops).map fun p => p.shape.getD axis 0) (j := j) (by simpa using hj1)
    rw [List.getElem_map, hj2] at hle
    omega
  · show concatAccess axis (o :: ops) _ = _
    unfold concatAccess shiftAxis
    simp only [List.length_set]
    have hlo : idx.length = o.shape.length := by rw [hl, hag'.1]
    rw [if_neg (by omega), show idx.length - o.shape.length = 0 by omega, List.drop_zero, List.getElem?_set_self haxi]
    simp only
    rw [concatSearch_eq axis _ hj hat]
    have hr : replFrom axis (idx.getD axis 0) 0
        (idx.set axis (idx.getD axis 0 + blockStart ((o :: ops).map fun p => p.shape.getD axis 0) j)) = idx := by
      rw [replFrom_eq, if_pos (by omega), Nat.sub_zero, List.set_set, set_getD_self]
    rw [concatOffset_eq 0 (by simp [hl]) (by rw [hr]; exact hb) (hsmall p hpm), hr, hv2]

example : ∃ g, concatenate [(⟨[2, 1], [1, 2]⟩ : Opd Nat), ⟨[2, 0], []⟩, ⟨[2, 2], [3, 4, 5, 6]⟩] 1 = .ok g ∧ g.shape = [2, 3] ∧
    (rowIndices [2, 3]).map g.call = [.ok 1, .ok 3, .ok 4, .ok 2, .ok 5, .ok 6] := ⟨_, rfl, by decide, by decide⟩

/-- C39: nothing else is in the result: every index of it belongs to the block of exactly one operand. -/
theorem C39_concat_cover {α : Type} {o : Opd α} {ops : List (Opd α)} {axis : Nat} (hax : axis < o.shape.length)
    (hag : ∀ p ∈ o :: ops, AgreeOff axis o.shape p.shape) {q : List Nat}
    (hq : InBounds (o.shape.set axis ((o :: ops).map fun p => p.shape.getD axis 0).sum) q) :
    ∃ j p idx, (o :: ops)[j]? = some p ∧ InBounds p.shape idx ∧
      q = shiftAxis axis (blockStart ((o :: ops).map fun p => p.shape.getD axis 0) j) idx := by
  have hl := hq.length_eq
  simp only [List.length_set] at hl
  have hx := (inBounds_iff_get.1 hq).2 axis (by simpa using hax)
  rw [getD_set_nat hax, if_pos rfl] at hx
  obtain ⟨j, hj, h1, h2⟩ := block_of hx
  have hj' : j < (o :: ops).length := by simpa using hj
  rw [List.getElem_map] at h2
  have hag' := hag _ (List.getElem_mem hj')
  refine ⟨j, (o :: ops)[j], q.set axis (q.getD axis 0 - blockStart ((o :: ops).map fun p => p.shape.getD axis 0) j),
    List.getElem?_eq_getElem hj', ?_, ?_⟩
  · have := inBounds_set_both (a := axis) (v := q.getD axis 0 - blockStart ((o :: ops).map fun p => p.shape.getD axis 0) j) hq
      (by simpa using hax) (n := (o :: ops)[j].shape.getD axis 0) (by omega)
    rw [List.set_set, agreeOff_set hag' hax, set_getD_self] at this
    exact this
  · unfold shiftAxis
    rw [List.set_set, getD_set_nat (by omega), if_pos rfl, Nat.sub_add_cancel h1, set_getD_self]

/-- With fewer indices than axes the access reads in front of the index; strides are accumulated in an `int`, so those of
2^31 or more elements are wrong: here the stride of axis 0 is 0 instead of 2^32. -/
theorem C39_concat_limits :
    (concatenate [(⟨[2, 1], [1, 2]⟩ : Opd Nat), ⟨[2, 1], [3, 4]⟩] 1).bind (fun g => g.call [1]) = .ub ∧
    concatOffset 0 1 0 [2, 65536, 65536] [1, 0, 0] = 0 ∧ rowRank [2, 65536, 65536] [1, 0, 0] = 2 ^ 32 := by
  refine ⟨by decide, by decide, by decide⟩

/-- C39: an index with surplus leading entries reads the element its last entries designate, as a container does. -/
theorem C39_concat_surplus {α : Type} [Inhabited α] {o : Opd α} {ops : List (Opd α)} {axis : Nat} (lead idx : List Nat)
    (hl : idx.length = o.shape.length) : concatAccess axis (o :: ops) (lead ++ idx) = concatAccess axis (o :: ops) idx := by
  unfold concatAccess
  simp only [List.length_append]
  rw [if_neg (by omega), if_neg (by omega), show lead.length + idx.length - o.shape.length = lead.length by omega,
    show idx.length - o.shape.length = 0 by omega, List.drop_left', List.drop_zero]
  rfl

example : concatAccess 0 [(⟨[2], [1, 2]⟩ : Opd Nat), ⟨[1], [3]⟩] [7, 2] = .ok 3 := by decide

/-! ### stack -/

theorem stackOffset_eq {axis : Nat} {idx : List Nat} {j : Nat} {sh : List Nat} (i : Nat) (hb : InBounds sh (idx.drop i))
    (hax : axis ≤ idx.length) (hi : i ≤ idx.length) (hn : numel sh < 2 ^ 31) (after : Nat)
    (hafter : after = if axis < i then 1 else 0) :
    stackOffset axis (idx.insertIdx axis j) i after sh = some (rowRank sh (idx.drop i)) := by
  induction sh generalizing i after with
  | nil => simp [stackOffset]
  | cons n sh ih =>
    have hil : i < idx.length := by
      rcases Nat.lt_or_ge i idx.length with h | h
      · exact h
      · rw [List.drop_eq_nil_of_le h] at hb; exact hb.elim
    rw [List.drop_eq_getElem_cons hil] at hb ⊢
    have hlt := rowRank_lt hb
    obtain ⟨h1, h2⟩ := hb
    have hp := InBounds.numel_pos h2
    have hle : numel sh ≤ numel (n :: sh) := by rw [numel_cons]; exact Nat.le_mul_of_pos_left _ (by omega)
    have hnext : (if i = axis then 1 else after) = if axis < i + 1 then 1 else 0 := by
      subst hafter; split <;> split <;> (try split) <;> omega
    have hget : (idx.insertIdx axis j)[i + if i = axis then 1 else after]? = some idx[i] := by
      rw [hnext]
      by_cases hlt' : axis < i + 1
      · rw [if_pos hlt', List.getElem?_insertIdx_of_gt (by omega)]
        simp [hil]
      · rw [if_neg hlt', Nat.add_zero, List.getElem?_insertIdx_of_lt (by omega)]
        simp [hil]
    rw [stackOffset, hget, ih (i + 1) h2 (by omega) (by omega) _ hnext]
    simp only [Option.some.injEq]
    rw [tailStride_eq ((numel_pos_iff _).1 hp) (by omega), rowRank_cons]
    rw [rowRank_cons] at hlt
    rw [← Int.natCast_mul, ← Int.natCast_add, wrap64_nat (by omega)]

theorem inBounds_insertIdx {sh idx : List Nat} {a n v : Nat} (h : InBounds sh idx) (ha : a ≤ sh.length) (hv : v < n) :
    InBounds (sh.insertIdx a n) (idx.insertIdx a v) := by
  induction a generalizing sh idx with
  | zero => exact ⟨hv, h⟩
  | succ a ih =>
    cases sh with
    | nil => simp at ha
    | cons m sh =>
      cases idx with
      | nil => exact h.elim
      | cons i idx =>
        rw [List.insertIdx_succ_cons, List.insertIdx_succ_cons]
        exact ⟨h.1, ih h.2 (by simpa using ha)⟩

theorem inBounds_insertIdx_inv {sh q : List Nat} {a n : Nat} (ha : a ≤ sh.length) (h : InBounds (sh.insertIdx a n) q) :
    ∃ idx v, v < n ∧ InBounds sh idx ∧ q = idx.insertIdx a v := by
  induction a generalizing sh q with
  | zero =>
    cases q with
    | nil => exact h.elim
    | cons v q => exact ⟨q, v, h.1, h.2, rfl⟩
  | succ a ih =>
    cases sh with
    | nil => simp at ha
    | cons m sh =>
      rw [List.insertIdx_succ_cons] at h
      cases q with
      | nil => exact h.elim
      | cons i q =>
        obtain ⟨idx, v, h1, h2, h3⟩ := ih (by simpa using ha) h.2
        exact ⟨i :: idx, v, h1, ⟨h.1, h2⟩, by rw [List.insertIdx_succ_cons, h3]⟩

/-- C39: `stack` of operands of equal shape adds an axis with one entry per operand; element `idx` of operand `j` is found
at `idx` with `j` inserted on the axis. -/
theorem C39_stack_partial {α : Type} [Inhabited α] {o : Opd α} {ops : List (Opd α)} {axis : Nat} (hax : axis ≤ o.shape.length)
    (hsh : ∀ p ∈ o :: ops, p.shape = o.shape) (hw : ∀ p ∈ o :: ops, p.WF) (hsmall : numel o.shape < 2 ^ 31) :
    ∃ g, stackGen (o :: ops) axis = .ok g ∧ g.shape = o.shape.insertIdx axis (ops.length + 1) ∧
      ∀ j p, (o :: ops)[j]? = some p → ∀ idx, InBounds o.shape idx → ∃ v, p.vals[rowRank o.shape idx]? = some v ∧
        g.Reads (idx.insertIdx axis j) v := by
  unfold stackGen
  simp only
  rw [if_neg (by omega)]
  refine ⟨_, rfl, rfl, fun j p hj idx hb => ?_⟩
  have hpm : p ∈ o :: ops := List.mem_of_getElem? hj
  have hps := hsh p hpm
  obtain ⟨v, hv1, hv2⟩ := opd_flat (hw p hpm) (hps ▸ hb)
  rw [hps] at hv1 hv2
  have hl := hb.length_eq
  obtain ⟨hj1, hj2⟩ := List.getElem?_eq_some_iff.1 hj
  refine ⟨v, hv1, Gen.reads_of ?_ ?_⟩
  · show InBounds (o.shape.insertIdx axis (o :: ops).length) (idx.insertIdx axis j)
    exact inBounds_insertIdx hb hax hj1
  · show stackAccess axis (o :: ops) _ = _
    unfold stackAccess
    rw [List.getElem?_insertIdx_self, if_pos (by omega)]
    simp only
    rw [hj]
    simp only
    rw [hps, stackOffset_eq 0 (by simpa using hb) (by omega) (by omega) hsmall 0 (by simp)]
    simp only [List.drop_zero]
    exact hv2

example : ∃ g, stackGen [(⟨[3], [1, 2, 3]⟩ : Opd Nat), ⟨[3], [5, 6, 7]⟩] 1 = .ok g ∧ g.shape = [3, 2] ∧
    (rowIndices [3, 2]).map g.call = [.ok 1, .ok 5, .ok 2, .ok 6, .ok 3, .ok 7] := ⟨_, rfl, by decide, by decide⟩

/-- C39: nothing else is in a stack: every index of the result is an operand's index with its number inserted. -/
theorem C39_stack_cover {α : Type} {o : Opd α} {ops : List (Opd α)} {axis : Nat} (hax : axis ≤ o.shape.length) {q : List Nat}
    (hq : InBounds (o.shape.insertIdx axis (ops.length + 1)) q) :
    ∃ j p idx, (o :: ops)[j]? = some p ∧ InBounds o.shape idx ∧ q = idx.insertIdx axis j := by
  obtain ⟨idx, v, h1, h2, h3⟩ := inBounds_insertIdx_inv hax hq
  exact ⟨v, (o :: ops)[v], idx, List.getElem?_eq_getElem (by simpa using h1), h2, h3⟩

/-- `stack` and `vstack` look at the first shape only: a shorter second operand is accepted and read past its end, a
longer one is cut off; a surplus leading index is taken for the first axis. -/
theorem C39_stack_unchecked :
    (stackGen [(⟨[3], [1, 2, 3]⟩ : Opd Nat), ⟨[2], [5, 6]⟩] 0).bind (fun g => g.call [1, 2]) = .ub ∧
    (vstack [(⟨[3], [1, 2, 3]⟩ : Opd Nat), ⟨[2], [5, 6]⟩]).bind (fun g => g.call [1, 2]) = .ub ∧
    (stackGen [(⟨[2], [5, 6]⟩ : Opd Nat), ⟨[3], [1, 2, 3]⟩] 0).map (fun g => g.shape) = .ok [2, 2] ∧
    (stackGen [(⟨[2], [5, 6]⟩ : Opd Nat), ⟨[2], [1, 2]⟩] 0).bind (fun g => g.call [0, 1, 0]) = .ok 6 := by
  decide

/-- C39: `hstack` concatenates along the second axis, or the first for one-dimensional operands. -/
theorem C39_hstack {α : Type} [Inhabited α] {o : Opd α} {ops : List (Opd α)} :
    (2 ≤ o.shape.length → hstack (o :: ops) = concatenate (o :: ops) 1) ∧
    (o.shape.length = 1 → hstack (o :: ops) = concatenate (o :: ops) 0) := by
  constructor <;> intro h <;> unfold hstack <;> simp only
  · rw [if_pos (by omega)]
  · rw [if_neg (by omega)]

example : (hstack [(⟨[2], [1, 2]⟩ : Opd Nat), ⟨[1], [3]⟩]).bind (fun g => g.call [2]) = .ok 3 ∧
    (hstack [(⟨[1, 2], [1, 2]⟩ : Opd Nat), ⟨[1, 1], [3]⟩]).bind (fun g => g.call [0, 2]) = .ok 3 := by decide

/-- C39: `vstack` makes one-dimensional operands the rows of a matrix and concatenates others along the first axis. -/
theorem C39_vstack_partial {α : Type} [Inhabited α] {o : Opd α} {ops : List (Opd α)} :
    (∀ n, n < 2 ^ 31 → (∀ p ∈ o :: ops, p.shape = [n] ∧ p.WF) →
      ∃ g, vstack (o :: ops) = .ok g ∧ g.shape = [ops.length + 1, n] ∧
        ∀ (j : Nat) (p : Opd α), (o :: ops)[j]? = some p → ∀ i, i < n → ∃ v, p.vals[i]? = some v ∧ g.Reads [j, i] v) ∧
    (o.shape.length ≠ 1 → vstack (o :: ops) = concatenate (o :: ops) 0) := by
  refine ⟨fun n hn h => ?_, fun h => by unfold vstack; simp only; rw [if_neg h]⟩
  have ho := (h o (by simp)).1
  obtain ⟨g, h1, h2, h3⟩ := C39_stack_partial (o := o) (ops := ops) (axis := 0) (by omega)
    (fun p hp => by rw [(h p hp).1, ho]) (fun p hp => (h p hp).2) (by rw [ho]; simpa using hn)
  refine ⟨{ shape := [ops.length + 1, n], f := stackAccess 0 (o :: ops) }, ?_, rfl, fun j p hj i hi => ?_⟩
  · unfold vstack; simp [ho]
  · obtain ⟨v, hv1, hv2⟩ := h3 j p hj [i] (by rw [ho]; exact ⟨hi, trivial⟩)
    refine ⟨v, by simpa [ho] using hv1, ?_⟩
    unfold stackGen at h1
    simp only at h1
    rw [if_neg (by omega)] at h1
    cases h1
    simpa [ho] using hv2

example : (vstack [(⟨[2], [1, 2]⟩ : Opd Nat), ⟨[2], [3, 4]⟩]).bind (fun g => g.call [1, 0]) = .ok 3 := by decide

/-! ### C57: meshgrid -/

/-- C57: component `i` of `meshgrid(e...)` has one axis per argument and at `idx` holds element `idx[i]` of argument
`i`. -/
theorem C57_meshgrid {α : Type} {es : List (Opd α)} (h1 : ∀ e ∈ es, e.shape.length = 1) (hw : ∀ e ∈ es, e.WF)
    {i : Nat} {e : Opd α} (he : es[i]? = some e) :
    ∃ g, (meshgrid es)[i]? = some g ∧ g.shape = es.map (fun e => e.vals.length) ∧
      ∀ idx, InBounds g.shape idx → ∃ v, e.vals[idx.getD i 0]? = some v ∧ g.Reads idx v := by
  have hsh : (es.map fun e => e.shape.getD 0 0) = es.map fun e => e.vals.length := by
    apply List.map_congr_left
    intro e he
    obtain ⟨n, hn⟩ := List.length_eq_one_iff.1 (h1 e he)
    have := hw e he
    unfold Opd.WF at this
    simp [hn] at *
    omega
  unfold meshgrid
  rw [List.getElem?_map, List.getElem?_zipIdx, he]
  refine ⟨_, rfl, hsh, fun idx hb => ?_⟩
  have hb' := hb
  simp only [hsh] at hb'
  obtain ⟨hi1, hi2⟩ := List.getElem?_eq_some_iff.1 he
  have hl := hb'.length_eq
  simp only [List.length_map] at hl
  have hlt := (inBounds_iff_get.1 hb').2 i (by simpa using hi1)
  have hlt2 : idx.getD i 0 < e.vals.length := by
    simpa [List.getD_eq_getElem?_getD, List.getElem?_map, he] using hlt
  refine ⟨e.vals[idx.getD i 0], by simp [hlt2], Gen.reads_of hb ?_⟩
  show repeatAt (0 + i) e idx = _
  unfold repeatAt Opd.flat
  rw [Nat.zero_add, List.getElem?_eq_getElem (by omega)]
  have : idx[i]'(by omega) = idx.getD i 0 := by simp [List.getD_eq_getElem?_getD, List.getElem?_eq_getElem (show i < idx.length by omega)]
  simp only [this]
  rw [List.getElem?_eq_getElem hlt2]

example : (meshgrid [(⟨[2], [1, 2]⟩ : Opd Nat), ⟨[3], [5, 6, 7]⟩]).map (fun g => (g.shape, g.call [1, 2])) =
    [([2, 3], .ok 2), ([2, 3], .ok 7)] := by decide

end Xt
