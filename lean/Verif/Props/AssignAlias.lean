import Verif.Model.Semantic
import Verif.Props.Assign
/-!
# Assignment under aliasing (C27), compound assignment (C28, C29)
-/

namespace Xt
open Spec

variable {α β : Type}

/-! ### First and last address -/

theorem firstAddr_eq (c : StridedArr) : c.firstAddr = c.off := rfl

theorem broadcastsTo_refl (sh : List Nat) : BroadcastsTo sh sh :=
  ⟨le_refl _, fun k _ => Or.inr (by simp)⟩

theorem lastAddr_eq {c : StridedArr} (hc : c.WF) (hp : 0 < numel c.shape) :
    c.lastAddr = addr c (lastIdx c.shape) := by
  have hB := xstepper_back (L := .row_major) hc (broadcastsTo_refl c.shape) (Or.inl rfl)
    (by by_cases h : c.shape = [] <;> simp [h])
  rw [Nat.sub_self] at hB
  have hE := iterAt_end (L := .row_major) (sh := c.shape) (R := XAt c)
    (E := fun p => p = xstepperEnd c .row_major 0) (st := xstepperEnd c .row_major 0) rfl
  obtain ⟨p, hpn⟩ : ∃ p, numel c.shape = p + 1 := ⟨numel c.shape - 1, by omega⟩
  rw [hpn] at hE
  have hD := hE.dec (Or.inl rfl) hB (by omega)
  obtain ⟨h1, h2, h3⟩ := hD.inner (by omega)
  have hlast := inBounds_last hp
  have hrl : rankIn .row_major c.shape (lastIdx c.shape) = p := by
    have key : ∀ s : List Nat, 0 < numel s → rowRank s (s.map (· - 1)) + 1 = numel s := by
      intro s
      induction s with
      | nil => intro _; rfl
      | cons x s ih =>
        intro h
        rw [numel_cons] at h
        have hs : 0 < numel s := Nat.pos_of_mul_pos_left h
        have hx : 0 < x := Nat.pos_of_mul_pos_right h
        rw [List.map_cons, rowRank_cons, numel_cons]
        have := ih hs
        obtain ⟨y, rfl⟩ : ∃ y, x = y + 1 := ⟨x - 1, by omega⟩
        rw [Nat.add_sub_cancel, Nat.succ_mul]
        omega
    have := key c.shape hp
    simp only [rankIn, lastIdx]
    omega
  have hidx : ((XIter.mkEnd (xstepperEnd c .row_major 0) .row_major c.shape).dec (xstepperOps c 0)
      .row_major c.shape).index = lastIdx c.shape :=
    rankIn_inj (L := .row_major) h1 hlast (by rw [h2, hrl])
  rw [hidx] at h3
  unfold XAt at h3
  unfold StridedArr.lastAddr addr
  rw [h3]
  simp [lastIdx]

theorem dot_le_of_nonneg {s : List Int} : ∀ {sh idx : List Nat}, InBounds sh idx →
    (∀ x ∈ s, (0 : Int) ≤ x) → 0 ≤ dot s (toInts idx) ∧
      dot s (toInts idx) ≤ dot s (toInts (lastIdx sh)) := by
  induction s with
  | nil => intro sh idx _ _; simp [dot]
  | cons x s ih =>
    intro sh idx hb hs
    cases sh with
    | nil => cases idx with
      | nil => simp [dot, toInts, lastIdx]
      | cons _ _ => exact hb.elim
    | cons n sh =>
      cases idx with
      | nil => exact hb.elim
      | cons i idx =>
        obtain ⟨hi, hb⟩ := hb
        obtain ⟨h1, h2⟩ := ih hb fun y hy => hs y (List.mem_cons_of_mem _ hy)
        have hx := hs x (List.mem_cons_self ..)
        simp only [toInts, lastIdx, List.map_cons, dot, Int.ofNat_eq_natCast] at h1 h2 ⊢
        have h3 : (i : Int) ≤ ((n - 1 : Nat) : Int) := by omega
        have h4 : x * (i : Int) ≤ x * ((n - 1 : Nat) : Int) := Int.mul_le_mul_of_nonneg_left h3 hx
        have h5 : 0 ≤ x * (i : Int) := Int.mul_nonneg hx (by omega)
        rw [Int.mul_comm] at h4 h5
        rw [Int.mul_comm x] at h4
        constructor <;> omega

/-- Strides that are all non-negative: elements lie between the first and the last. -/
theorem hull_of_nonneg {c : StridedArr} (h : ∀ s ∈ c.strides, (0 : Int) ≤ s) : Hull c := by
  intro idx hb
  have := dot_le_of_nonneg hb h
  unfold addr
  omega

theorem dot_neg (s : List Int) (l : List Nat) : dot (s.map (- ·)) (toInts l) = - dot s (toInts l) := by
  induction s generalizing l with
  | nil => simp [dot]
  | cons x s ih =>
    cases l with
    | nil => simp [dot, toInts]
    | cons i l =>
      have := ih l
      simp only [toInts, List.map_cons, dot] at this ⊢
      rw [this]; ring

/-- The same when all are non-positive. -/
theorem hull_of_nonpos {c : StridedArr} (h : ∀ s ∈ c.strides, s ≤ (0 : Int)) : Hull c := by
  intro idx hb
  have := dot_le_of_nonneg (s := c.strides.map (- ·)) hb (by
    intro x hx
    obtain ⟨y, hy, rfl⟩ := List.mem_map.1 hx
    have := h y hy
    omega)
  rw [dot_neg, dot_neg] at this
  unfold addr
  omega

theorem lastIdx_inBounds {sh : List Nat} (h : 0 < numel sh) : InBounds sh (lastIdx sh) :=
  inBounds_last h

theorem numel_pos_of_inBounds {sh idx : List Nat} (h : InBounds sh idx) : 0 < numel sh :=
  lt_of_le_of_lt (Nat.zero_le _) (rankIn_lt (L := .row_major) h)

theorem hull_of_contig {L : Layout} {c : StridedArr} (hL : L = .row_major ∨ L = .column_major)
    (h : Contig L c) : Hull c := by
  intro idx hb
  have hp := numel_pos_of_inBounds hb
  have h1 := h idx hb
  have h2 := h _ (lastIdx_inBounds hp)
  have h3 := rankIn_lt (L := L) hb
  have hlast : rankIn L c.shape (lastIdx c.shape) + 1 = numel c.shape := by
    by_contra hne
    have hlt := rankIn_lt (L := L) (lastIdx_inBounds hp)
    have hmono : ∀ s j : List Nat, InBounds s j →
        rowRank s j ≤ rowRank s (lastIdx s) ∧ colRank s j ≤ colRank s (lastIdx s) := by
      intro s
      induction s with
      | nil => intro j hj; cases j <;> simp_all [InBounds, rowRank, colRank, lastIdx]
      | cons n s ih =>
        intro j hj
        cases j with
        | nil => exact hj.elim
        | cons i j =>
          obtain ⟨hi, hj⟩ := hj
          obtain ⟨a, b⟩ := ih j hj
          simp only [lastIdx, List.map_cons, rowRank_cons, colRank] at a b ⊢
          have h4 : i * numel s ≤ (n - 1) * numel s := Nat.mul_le_mul_right _ (by omega)
          have h5 : n * colRank s j ≤ n * colRank s (s.map (· - 1)) := Nat.mul_le_mul_left _ b
          omega
    obtain ⟨j, hj, hjr⟩ : ∃ j, InBounds c.shape j ∧ rankIn L c.shape j = numel c.shape - 1 := by
      have hm : numel c.shape - 1 ∈ (orderIndices L c.shape).map (rankIn L c.shape) := by
        rw [map_rankIn_orderIndices]; exact List.mem_range.2 (by omega)
      obtain ⟨j, hj, he⟩ := List.mem_map.1 hm
      exact ⟨j, mem_orderIndices.1 hj, he⟩
    have := hmono c.shape j hj
    have hle : rankIn L c.shape j ≤ rankIn L c.shape (lastIdx c.shape) := by
      rcases hL with rfl | rfl
      · exact this.1
      · exact this.2
    omega
  unfold addr
  omega

/-! ### The overlap test -/

theorem rangeOverlaps_false {f l f' l' : Int} (h : rangeOverlaps (memoryRange f l) f' l' = false) :
    max f' l' < min f l ∨ max f l < min f' l' := by
  unfold rangeOverlaps memoryRange at h
  simp only at h
  split at h <;> rw [Bool.and_eq_false_iff, decide_eq_false_iff_not, decide_eq_false_iff_not] at h <;>
    split at h <;> omega

theorem apart_of_ranges {c d : StridedArr} (hc : c.WF) (hd : d.WF) (hHc : Hull c) (hHd : Hull d)
    (h : 0 < numel c.shape → 0 < numel d.shape →
      rangeOverlaps (memoryRange d.firstAddr d.lastAddr) c.firstAddr c.lastAddr = false) :
    Apart c d := by
  intro i j hi hj he
  have hpc := numel_pos_of_inBounds hi
  have hpd := numel_pos_of_inBounds hj
  have := rangeOverlaps_false (h hpc hpd)
  rw [firstAddr_eq, firstAddr_eq, lastAddr_eq hc hpc, lastAddr_eq hd hpd] at this
  have h1 := hHc i hi
  have h2 := hHd j hj
  omega

theorem numel_pos_of_broadcastsTo {s sh : List Nat} (h : BroadcastsTo s sh) (hp : 0 < numel sh) :
    0 < numel s := by
  have h0 : ∀ k, k < s.length → 0 < s.getD k 0 := by
    intro k hk
    rcases h.2 k hk with he | he
    · omega
    · rw [he]
      have := (inBounds_last hp).getD_lt (a := k + (sh.length - s.length)) (by have := h.1; omega)
      omega
  clear h hp
  induction s with
  | nil => simp [numel]
  | cons x s ih =>
    rw [numel_cons]
    have := h0 0 (by simp)
    exact Nat.mul_pos (by simpa using this) (ih fun k hk => by
      simpa using h0 (k + 1) (by simpa using hk))

theorem isBroadcast_broadcastsTo {S : List (List Nat)} {out sh : List Nat} (h : IsBroadcast S out)
    (hS : ∀ s ∈ S, BroadcastsTo s sh) (hlen : out.length ≤ sh.length) : BroadcastsTo out sh := by
  refine ⟨hlen, fun k hk => ?_⟩
  have h1 := axisR_getD hk
  obtain ⟨s, hs, hax⟩ := h.attained _ _ h1
  have hl : out.length - 1 - k < s.length := by
    unfold axisR at hax
    have := (List.getElem?_eq_some_iff.1 hax).1
    simpa using this
  have hsl := h.len_le s hs
  have hb := (hS s hs).2 (k - (out.length - s.length)) (by omega)
  have h2 := axisR_getD (s := s) (k := k - (out.length - s.length)) (by omega)
  rw [show s.length - 1 - (k - (out.length - s.length)) = out.length - 1 - k by omega, hax] at h2
  simp only [Option.some.injEq] at h2
  have hsle := (hS s hs).1
  rw [h2]
  rw [show k - (out.length - s.length) + (sh.length - s.length) = k + (sh.length - out.length) by
    omega] at hb
  exact hb

theorem isBroadcast_length {S : List (List Nat)} {out : List Nat} (h : IsBroadcast S out) {n : Nat}
    (hS : ∀ s ∈ S, s.length ≤ n) : out.length ≤ n := by
  by_contra hlt
  have h1 := axisR_getD (s := out) (k := 0) (by omega)
  obtain ⟨s, hs, hax⟩ := h.attained _ _ h1
  unfold axisR at hax
  have := (List.getElem?_eq_some_iff.1 hax).1
  have h2 := hS s hs
  simp at this
  omega

mutual
theorem Ex.extents_ok : ∀ (e : Ex α), ExtentsBelow e → ∀ s ∈ e.toSh.leaves, szMax ∉ s
  | .arr c _, h, s, hs => by
    simp only [Ex.toSh, ShExpr.leaves, List.mem_singleton] at hs; subst hs; exact h
  | .scalar _, _, s, hs => by simp [Ex.toSh, ShExpr.leaves] at hs
  | .gen s' _, h, s, hs => by
    simp only [Ex.toSh, ShExpr.leaves, List.mem_singleton] at hs; subst hs; exact h
  | .fn _ args, h, s, hs => Args.extents_ok args h s hs
  | .bcast _ s', h, s, hs => by
    simp only [Ex.toSh, ShExpr.leaves, List.mem_singleton] at hs; subst hs; exact h.1
theorem Args.extents_ok : ∀ (es : Args α), ExtentsBelowAll es →
    ∀ s ∈ ShExpr.leavesL es.toShs, szMax ∉ s
  | .nil, _, s, hs => by simp [Args.toShs, ShExpr.leavesL] at hs
  | .cons e es, h, s, hs => by
    simp only [Args.toShs, ShExpr.leavesL, List.mem_append] at hs
    exact hs.elim (Ex.extents_ok e h.1 s) (Args.extents_ok es h.2 s)
end

mutual
theorem Ex.fits_leaves {sh : List Nat} : ∀ (e : Ex α), Fits sh e →
    ∀ s ∈ e.toSh.leaves, BroadcastsTo s sh
  | .arr c _, h, s, hs => by
    simp only [Ex.toSh, ShExpr.leaves, List.mem_singleton] at hs; subst hs; exact h.2
  | .scalar _, _, s, hs => by simp [Ex.toSh, ShExpr.leaves] at hs
  | .gen s' _, h, s, hs => by
    simp only [Ex.toSh, ShExpr.leaves, List.mem_singleton] at hs; subst hs; exact h.2
  | .fn _ args, h, s, hs => Args.fits_leaves args h s hs
  | .bcast _ s', h, s, hs => by
    simp only [Ex.toSh, ShExpr.leaves, List.mem_singleton] at hs; subst hs; exact h.1
theorem Args.fits_leaves {sh : List Nat} : ∀ (es : Args α), FitsAll sh es →
    ∀ s ∈ ShExpr.leavesL es.toShs, BroadcastsTo s sh
  | .nil, _, s, hs => by simp [Args.toShs, ShExpr.leavesL] at hs
  | .cons e es, h, s, hs => by
    simp only [Args.toShs, ShExpr.leavesL, List.mem_append] at hs
    exact hs.elim (Ex.fits_leaves e h.1 s) (Args.fits_leaves es h.2 s)
end

theorem fnSize_ne_zero {sh : List Nat} {args : Args α} (hf : FitsAll sh args)
    (hx : ExtentsBelowAll args) (hp : 0 < numel sh) : args.fnSize ≠ some 0 := by
  unfold Args.fnSize
  intro h
  obtain ⟨r, hr, h0⟩ := Option.map_eq_some_iff.1 h
  have hb := ((C04_broadcast_shape (.fn args.toShs) (Args.extents_ok args hx)).1 r.1).1 ⟨r.2, hr⟩
  have hl := Args.fits_leaves args hf
  have hB := isBroadcast_broadcastsTo hb hl (isBroadcast_length hb fun s hs => (hl s hs).1)
  have := numel_pos_of_broadcastsTo hB hp
  rw [foldl_mul_eq] at h0
  omega

mutual
theorem Ex.overlaps_false {sh : List Nat} {r : Int × Int} (hp : 0 < numel sh) : ∀ (e : Ex α),
    Fits sh e → ExtentsBelow e → e.overlaps r = false →
      ∀ c ∈ e.arrs, rangeOverlaps r c.firstAddr c.lastAddr = false
  | .arr c _, hf, _, h, c', hc => by
    simp only [Ex.arrs, List.mem_singleton] at hc
    subst hc
    unfold Ex.overlaps at h
    rw [if_neg (by
      rw [StridedArr.size_eq]; have := numel_pos_of_broadcastsTo hf.2 hp; omega)] at h
    exact h
  | .scalar _, _, _, _, c', hc => by simp [Ex.arrs] at hc
  | .gen _ _, _, _, _, c', hc => by simp [Ex.arrs] at hc
  | .fn _ args, hf, hx, h, c', hc => by
    unfold Ex.overlaps at h
    rw [if_neg (fnSize_ne_zero hf hx hp)] at h
    exact Args.overlaps_false hp args hf hx h c' hc
  | .bcast e s, hf, hx, h, c', hc => by
    unfold Ex.overlaps at h
    have hps := numel_pos_of_broadcastsTo hf.1 hp
    rw [if_neg (by rw [foldl_mul_eq]; omega)] at h
    exact Ex.overlaps_false hps e hf.2 hx.2 h c' hc
theorem Args.overlaps_false {sh : List Nat} {r : Int × Int} (hp : 0 < numel sh) :
    ∀ (es : Args α), FitsAll sh es → ExtentsBelowAll es → es.anyOverlaps r = false →
      ∀ c ∈ es.arrss, rangeOverlaps r c.firstAddr c.lastAddr = false
  | .nil, _, _, _, c', hc => by simp [Args.arrss] at hc
  | .cons e es, hf, hx, h, c', hc => by
    unfold Args.anyOverlaps at h
    rw [Bool.or_eq_false_iff] at h
    simp only [Args.arrss, List.mem_append] at hc
    exact hc.elim (Ex.overlaps_false hp e hf.1 hx.1 h.1 c') (Args.overlaps_false hp es hf.2 hx.2 h.2 c')
end

/-- A negative answer of the overlap test means that no operand shares an element with the
destination. -/
theorem C27_overlap_sound_partial (d : StridedArr) (e : Ex α) (sh : List Nat) (hd : d.WF)
    (hf : Fits sh e) (hx : ExtentsBelow e) (hp : 0 < numel sh) (hH : Hull d)
    (hHe : ∀ c ∈ e.arrs, Hull c) (h : checkOverlap d e = false) : ∀ c ∈ e.arrs, Apart c d := by
  intro c hc
  refine apart_of_ranges (Ex.fits_arrs e hf c hc).1 hd (hHe c hc) hH fun _ hpd => ?_
  unfold checkOverlap destRange at h
  rw [if_neg (by rw [StridedArr.size_eq]; omega)] at h
  exact Ex.overlaps_false hp e hf hx h c hc

mutual
theorem Ex.doesNotRead {d : StridedArr} {m m' : Mem β}
    (hm : ∀ p, (∀ j, InBounds d.shape j → p ≠ addr d j) → m p = m' p) :
    ∀ (e : MEx β) (sh idx : List Nat), InBounds sh idx → Pointwise e → Fits sh e →
      (∀ c ∈ e.arrs, Apart c d) → valueAt e idx m = valueAt e idx m'
  | .arr c mem, sh, idx, hb, hp, hf, ha => by
    have hp : mem = fun p m => m p := hp
    subst hp
    simp only [valueAt]
    apply hm
    intro j hj he
    exact ha c (by simp [Ex.arrs]) _ j (inBounds_bcIndex hf.2 hb) hj he
  | .scalar v, _, _, _, hp, _, _ => by
    obtain ⟨x, rfl⟩ := hp
    rfl
  | .gen s g, _, _, _, hp, _, _ => by
    obtain ⟨g', rfl⟩ := hp
    rfl
  | .fn f args, sh, idx, hb, hp, hf, ha => by
    obtain ⟨⟨g, rfl⟩, hp⟩ := hp
    simp only [valueAt]
    rw [Args.doNotRead hm args sh idx hb hp hf ha]
  | .bcast e s, sh, idx, hb, hp, hf, ha => by
    simp only [valueAt]
    exact Ex.doesNotRead hm e s _ (inBounds_bcIndex hf.1 hb) hp hf.2 ha
theorem Args.doNotRead {d : StridedArr} {m m' : Mem β}
    (hm : ∀ p, (∀ j, InBounds d.shape j → p ≠ addr d j) → m p = m' p) :
    ∀ (es : Args (Mem β → β)) (sh idx : List Nat), InBounds sh idx → PointwiseAll es →
      FitsAll sh es → (∀ c ∈ es.arrss, Apart c d) →
      (valuesAt es idx).map (· m) = (valuesAt es idx).map (· m')
  | .nil, _, _, _, _, _, _ => rfl
  | .cons e es, sh, idx, hb, hp, hf, ha => by
    simp only [Args.arrss, List.mem_append] at ha
    simp only [valuesAt, List.map_cons]
    rw [Ex.doesNotRead hm e sh idx hb hp.1 hf.1 fun c hc => ha c (Or.inl hc),
      Args.doNotRead hm es sh idx hb hp.2 hf.2 fun c hc => ha c (Or.inr hc)]
end

/-- Operands apart from `d` are not affected by stores to `d`. -/
theorem doesNotReadIn_of {d : StridedArr} {e : MEx β} {sh : List Nat} (hp : Pointwise e)
    (hf : Fits sh e) (ha : ∀ c ∈ e.arrs, Apart c d) : DoesNotReadIn sh e d :=
  fun idx hb _ _ hm => Ex.doesNotRead hm e sh idx hb hp hf ha

theorem noInterference_of_doesNotRead {d : StridedArr} {e : MEx β}
    (h : DoesNotReadIn d.shape e d) : NoInterference d e :=
  fun idx hb m m' hm => h idx hb m m' fun p hp => hm p fun j hj _ => hp j hj

/-! ### Containers -/

/-- `a = e` for containers: every element of the destination afterwards is the value the expression
had before the assignment, whether or not the overlap test asks for a temporary, and no other memory
is written.  `old` is the destination before; the destination after `resize` lies in the old
storage or in storage no operand reads; a temporary is storage the expression does not read. -/
theorem C27_container_partial (t : Traits) (ab : Nat) (old d tmp : StridedArr) (e : MEx β)
    (ho : OperandsOK e) (hx : ExtentsBelow e) (hpw : Pointwise e)
    (hold : old.WF) (hH : Hull old) (hHe : ∀ c ∈ e.arrs, Hull c)
    {tr : Bool} (hr : resizeInfo e = some (d.shape, tr)) (htmp : tmp.shape = d.shape)
    (hd : d.WF) (hD : Distinct d) (hT : tmp.WF) (hDT : Distinct tmp)
    (hin : (∀ idx, InBounds d.shape idx → ∃ j, InBounds old.shape j ∧ addr d idx = addr old j) ∨
      ∀ c ∈ e.arrs, Apart c d)
    (hfresh : ∀ c ∈ e.arrs, Apart c tmp)
    (ht : TraitsOK t d e) (htt : TraitsOK t tmp e) (hs : d.size < 2 ^ 64) (hab : ab ≤ d.size)
    (m : Mem β) :
    ∃ res, containerAssign t ab old d tmp e m = some res ∧ res.1.shape = d.shape ∧
      Assigned res.1 e m res.2 := by
  have hxo : e.toSh.ExtentsOk := Ex.extents_ok e hx
  obtain ⟨hf, htr⟩ := resizeInfo_spec ho hxo hr
  unfold containerAssign
  rw [hr]
  simp only
  by_cases hc : checkOverlap old e = true
  · rw [if_pos hc]
    refine ⟨_, rfl, htmp, ?_⟩
    have hf' : Fits tmp.shape e := by rw [htmp]; exact hf
    have hN := noInterference_of_doesNotRead (doesNotReadIn_of hpw hf' hfresh)
    refine C24_assign_data t ab tmp e tr hT hDT hf' htt ?_ ?_ ?_ hN m
    · rw [StridedArr.size_eq, htmp, ← StridedArr.size_eq]; exact hs
    · rw [StridedArr.size_eq, htmp, ← StridedArr.size_eq]; exact hab
    · rw [htmp]; exact htr
  · rw [if_neg hc]
    refine ⟨_, rfl, rfl, ?_⟩
    by_cases h0 : numel d.shape = 0
    · have hN : NoInterference d e := by
        intro idx hb
        have := numel_pos_of_inBounds hb
        omega
      exact C24_assign_data t ab d e tr hd hD hf ht hs hab htr hN m
    · have hap : ∀ c ∈ e.arrs, Apart c d := by
        rcases hin with h | h
        · have hapo := C27_overlap_sound_partial old e d.shape hold hf hx (by omega) hH hHe
            (by simpa using hc)
          intro c hcm i j hi hj he
          obtain ⟨j', hj', hej⟩ := h j hj
          exact hapo c hcm i j' hi hj' (he.trans hej)
        · exact h
      have hN := noInterference_of_doesNotRead (doesNotReadIn_of hpw hf hap)
      exact C24_assign_data t ab d e tr hd hD hf ht hs hab htr hN m

/-! ### Views -/

theorem exShape_resizeInfo {e : Ex α} {s : List Nat} (h : e.exShape = some s) :
    ∃ tr, resizeInfo e = some (s, tr) ∧ (rhsTriviality e = true → tr = true) := by
  cases e with
  | fn f args =>
    simp only [Ex.exShape] at h
    obtain ⟨r, hr, rfl⟩ := Option.map_eq_some_iff.1 h
    refine ⟨r.2, hr, fun ht => ?_⟩
    simp only [rhsTriviality, hr, Option.map_some, Option.getD_some] at ht
    exact ht
  | arr c mem => exact ⟨true, by simp only [resizeInfo, h, Option.map_some], fun _ => rfl⟩
  | scalar v => exact ⟨true, by simp only [resizeInfo, h, Option.map_some], fun _ => rfl⟩
  | gen s g => exact ⟨true, by simp only [resizeInfo, h, Option.map_some], fun _ => rfl⟩
  | bcast e s => exact ⟨true, by simp only [resizeInfo, h, Option.map_some], fun _ => rfl⟩

theorem broadcastable_iff_broadcastsTo (s d : List Nat) :
    broadcastable s d = true ↔ BroadcastsTo s d := by
  rw [C06_broadcastable_axes]
  constructor
  · rintro ⟨hl, h⟩
    refine ⟨hl, fun k hk => ?_⟩
    have h1 := axisR_getD hk
    have h2 := axisR_getD (s := d) (k := k + (d.length - s.length)) (by omega)
    rw [show d.length - 1 - (k + (d.length - s.length)) = s.length - 1 - k by omega] at h2
    exact (h _ _ _ h1 h2).symm
  · rintro ⟨hl, h⟩
    refine ⟨hl, fun k e x he hx => ?_⟩
    have hk : k < s.length := by
      unfold axisR at he
      have := (List.getElem?_eq_some_iff.1 he).1
      simpa using this
    have h1 := axisR_getD (s := s) (k := s.length - 1 - k) (by omega)
    rw [show s.length - 1 - (s.length - 1 - k) = k by omega, he] at h1
    have h2 := axisR_getD (s := d) (k := d.length - 1 - k) (by omega)
    rw [show d.length - 1 - (d.length - 1 - k) = k by omega, hx] at h2
    have := h (s.length - 1 - k) (by omega)
    rw [show s.length - 1 - k + (d.length - s.length) = d.length - 1 - k by omega] at this
    simp only [Option.some.injEq] at h1 h2
    rw [h1, h2]
    exact this.symm

/-- The right-hand side of a view assignment whose shape can be broadcast to the view. -/
theorem viewRhs_spec {d : StridedArr} {e : Ex α} {s : List Nat} (hx : szMax ∉ d.shape)
    (he : e.exShape = some s) (hb : BroadcastsTo s d.shape) :
    viewRhs d e = some (if s = d.shape then e else .bcast e d.shape) := by
  unfold viewRhs
  rw [he]
  simp only
  by_cases hs : s = d.shape
  · subst hs; simp
  · rw [if_neg (by simp [hs]), if_neg hs]
    obtain ⟨t, ht⟩ := (C06_broadcastable_iff s d.shape hx).1
      ((broadcastable_iff_broadcastsTo _ _).2 hb)
    rw [ht]
    rfl

theorem incLoop_pair {σ τ : Type} (a : StepOps σ) (b : StepOps τ) (sh : List Nat) :
    ∀ (order : List Nat) (st : σ × τ) (idx : List Nat),
      incLoop (pairOps a b) sh order st idx =
        (((incLoop a sh order st.1 idx).1, (incLoop b sh order st.2 idx).1),
          (incLoop a sh order st.1 idx).2) ∧
      (incLoop a sh order st.1 idx).2 = (incLoop b sh order st.2 idx).2 := by
  intro order
  induction order with
  | nil => intro st idx; exact ⟨rfl, rfl⟩
  | cons k ks ih =>
    intro st idx
    unfold incLoop
    by_cases hk : idx.getD k 0 + 1 ≠ sh.getD k 0
    · rw [if_pos hk, if_pos hk, if_pos hk]; exact ⟨rfl, rfl⟩
    · rw [if_neg hk, if_neg hk, if_neg hk]
      by_cases hn : ks ≠ []
      · rw [if_pos hn, if_pos hn, if_pos hn]; exact ih _ _
      · rw [if_neg hn, if_neg hn, if_neg hn]; exact ih _ _

theorem incStepper_pair {σ τ : Type} (a : StepOps σ) (b : StepOps τ) (L : Layout) (sh : List Nat)
    (st : σ × τ) (idx : List Nat) :
    incStepper (pairOps a b) L sh st idx =
      (((incStepper a L sh st.1 idx).1, (incStepper b L sh st.2 idx).1),
        (incStepper a L sh st.1 idx).2) ∧
    (incStepper a L sh st.1 idx).2 = (incStepper b L sh st.2 idx).2 := by
  obtain ⟨h1, h2⟩ := incLoop_pair a b sh (axisOrder L idx.length) st idx
  unfold incStepper
  simp only [h1, ← h2]
  split <;> exact ⟨rfl, rfl⟩

theorem copyLoop_eq {v tmp : StridedArr} (h : tmp.shape = v.shape) : ∀ (n : Nat) (p q : Int)
    (idx : List Nat), copyLoop (β := β) v tmp n (p, idx) (q, idx) =
      stepperLoop v (rdArr tmp) .row_major n (p, q) idx := by
  intro n
  induction n with
  | zero => intro p q idx; rfl
  | succ n ih =>
    intro p q idx
    unfold copyLoop stepperLoop
    have hops : (rdArr (β := β) tmp).ops v.shape.length = xstepperOps tmp 0 := by
      show xstepperOps tmp (v.shape.length - tmp.shape.length) = _
      rw [h, Nat.sub_self]
    obtain ⟨h1, h2⟩ := incStepper_pair (xstepperOps v 0) (xstepperOps tmp 0) .row_major v.shape
      (p, q) idx
    have h1' : incStepper (pairOps (xstepperOps v 0) ((rdArr (β := β) tmp).ops v.shape.length))
        .row_major v.shape (p, q) idx =
        (((incStepper (xstepperOps v 0) .row_major v.shape p idx).1,
          (incStepper (xstepperOps tmp 0) .row_major v.shape q idx).1),
          (incStepper (xstepperOps v 0) .row_major v.shape p idx).2) := by
      rw [hops]; exact h1
    simp only
    rw [h1', h]
    congr 1
    refine Eq.trans ?_ (ih (incStepper (xstepperOps v 0) .row_major v.shape p idx).1
      (incStepper (xstepperOps tmp 0) .row_major v.shape q idx).1
      (incStepper (xstepperOps v 0) .row_major v.shape p idx).2)
    have h2' : incStepper (xstepperOps tmp 0) .row_major v.shape q idx =
        ((incStepper (xstepperOps tmp 0) .row_major v.shape q idx).1,
          (incStepper (xstepperOps v 0) .row_major v.shape p idx).2) :=
      Prod.ext rfl h2.symm
    rw [← h2']

/-- The copy from a temporary of the view's shape. -/
theorem tempTrace_flatten (t : Traits) (v tmp : StridedArr) (hv : v.WF) (hD : Distinct v)
    (hT : tmp.WF) (h : tmp.shape = v.shape) (ht : TraitsOK t v (rdArr (β := β) tmp))
    (hs : v.size < 2 ^ 64) :
    ∃ L, (tempTrace (β := β) t v tmp).flatten =
      (orderIndices L v.shape).map (wr v (rdArr tmp)) := by
  have hf : Fits v.shape (rdArr (β := β) tmp) := ⟨hT, by rw [h]; exact broadcastsTo_refl _⟩
  by_cases hst : t.simdStrided = true
  · have := assignTrace_flatten t 0 v (rdArr (β := β) tmp) false hv hD hf ht hs (by omega)
      (fun h => by simp at h)
    unfold assignTrace at this
    unfold tempTrace
    rw [if_pos hst]
    rw [if_neg (by simp [linearAssign])] at this
    simpa [hst] using this
  · unfold tempTrace
    rw [if_neg hst]
    refine ⟨.row_major, ?_⟩
    rw [← stepperTrace_flatten (Or.inl rfl) hv hf]
    unfold stepperTrace
    rw [h, copyLoop_eq h, StridedArr.size_eq, StridedArr.size_eq, h]
    rfl

theorem value_bcast_self {e : Ex α} {sh idx : List Nat} (hb : InBounds sh idx) :
    valueAt (.bcast e sh) idx = valueAt e idx := by
  simp only [valueAt]
  rw [bcIndex_self hb]

/-- `v = e`, from facts about which elements the expression reads. -/
theorem viewAssign_ok (t tt tc : Traits) (ab abt : Nat) (d tmp : StridedArr) (e : MEx β)
    (s : List Nat) (ho : OperandsOK e) (hx : ExtentsBelow e) (hxd : szMax ∉ d.shape)
    (he : e.exShape = some s) (hb : BroadcastsTo s d.shape)
    (hd : d.WF) (hD : Distinct d) (hT : tmp.WF) (hDT : Distinct tmp) (htmp : tmp.shape = d.shape)
    (hrd : DoesNotReadIn d.shape e tmp) (hapt : Apart d tmp)
    (hno : ∀ rhs, viewRhs d e = some rhs → checkOverlap d rhs = false → NoInterference d e)
    (ht : ∀ rhs, viewRhs d e = some rhs → TraitsOK t d rhs ∧ TraitsOK tt tmp rhs)
    (htc : TraitsOK tc d (rdArr (β := β) tmp))
    (hs : d.size < 2 ^ 64) (hab : ab ≤ d.size) (habt : abt ≤ d.size) (m : Mem β) :
    ∃ m', viewAssign t tt tc ab abt d tmp e m = some m' ∧
      (∀ idx, InBounds d.shape idx → m' (addr d idx) = valueAt e idx m) ∧
      ∀ p, (∀ idx, InBounds d.shape idx → p ≠ addr d idx) →
        (∀ idx, InBounds tmp.shape idx → p ≠ addr tmp idx) → m' p = m p := by
  have hxo : e.toSh.ExtentsOk := Ex.extents_ok e hx
  obtain ⟨tre, hre, htre⟩ := exShape_resizeInfo he
  obtain ⟨hfs, hsh⟩ := resizeInfo_spec ho hxo hre
  have hf : Fits d.shape e := Ex.fits_trans hb e hfs
  have hrhs := viewRhs_spec hxd he hb
  obtain ⟨htd, htt⟩ := ht _ hrhs
  have hno' := hno _ hrhs
  unfold viewAssign
  rw [hrhs]
  generalize hR : (if s = d.shape then e else Ex.bcast e d.shape) = rhs at hrhs htd htt hno' ⊢
  have hval : ∀ idx, InBounds d.shape idx → valueAt rhs idx = valueAt e idx := by
    intro idx hbi
    rw [← hR]
    split
    · rfl
    · exact value_bcast_self hbi
  have hfr : Fits d.shape rhs := by
    rw [← hR]; split
    · exact hf
    · exact ⟨broadcastsTo_refl _, hf⟩
  have hxr : ExtentsBelow rhs := by
    rw [← hR]; split
    · exact hx
    · exact ⟨hxd, hx⟩
  have hor : OperandsOK rhs := by
    rw [← hR]; split
    · exact ho
    · exact hf
  have hexr : rhs.exShape = some d.shape := by
    rw [← hR]; split
    · rename_i h; rw [he, h]
    · rfl
  obtain ⟨tr, hrr, htr⟩ := exShape_resizeInfo hexr
  obtain ⟨-, hshr⟩ := resizeInfo_spec hor (Ex.extents_ok rhs hxr) hrr
  simp only
  by_cases hc : checkOverlap d rhs = true
  · rw [if_pos hc, hrr]
    refine ⟨_, rfl, ?_⟩
    have hft : Fits tmp.shape rhs := by rw [htmp]; exact hfr
    have hNt : NoInterference tmp rhs := by
      refine noInterference_of_doesNotRead fun idx hbi m m' hm => ?_
      rw [htmp] at hbi
      rw [hval idx hbi]
      exact hrd idx hbi m m' hm
    have hst : tmp.size = d.size := by rw [StridedArr.size_eq, htmp, ← StridedArr.size_eq]
    obtain ⟨a1, a2⟩ := C24_assign_data tt abt tmp rhs tr hT hDT hft htt (by rw [hst]; exact hs)
      (by rw [hst]; exact habt) (by rw [htmp]; exact hshr) hNt m
    obtain ⟨L, hL⟩ := tempTrace_flatten (β := β) tc d tmp hd hD hT htmp htc hs
    have hfc : Fits d.shape (rdArr (β := β) tmp) := ⟨hT, by rw [htmp]; exact broadcastsTo_refl _⟩
    have hNc : NoInterference d (rdArr (β := β) tmp) := by
      refine noInterference_of_doesNotRead (doesNotReadIn_of rfl hfc ?_)
      intro c hcm
      simp only [rdArr, Ex.arrs, List.mem_singleton] at hcm
      subst hcm
      intro i j hi hj hij
      exact hapt j i hj hi hij.symm
    obtain ⟨b1, b2⟩ := runTrace_assigned hNc hD hL
      (runTrace (assignTrace tt abt tmp rhs tr) m)
    refine ⟨fun idx hbi => ?_, fun p hp hpt => ?_⟩
    · rw [b1 idx hbi]
      have hbt : InBounds tmp.shape idx := by rw [htmp]; exact hbi
      have := a1 idx hbt
      rw [hval idx hbi] at this
      rw [← this]
      simp only [rdArr, valueAt]
      rw [bcIndex_self hbt]
      rfl
    · rw [b2 p hp, a2 p hpt]
  · rw [if_neg hc]
    unfold viewNoalias
    rw [hexr]
    simp only
    rw [if_pos ((broadcastable_iff_broadcastsTo _ _).2 (broadcastsTo_refl _))]
    refine ⟨_, rfl, ?_⟩
    have hN : NoInterference d rhs := by
      intro idx hbi m m' hm
      rw [hval idx hbi]
      exact hno' (by simpa using hc) idx hbi m m' hm
    obtain ⟨a1, a2⟩ := C24_assign_data t ab d rhs (rhsTriviality rhs) hd hD hfr htd hs hab
      (fun h => hshr (htr h)) hN m
    exact ⟨fun idx hbi => by rw [a1 idx hbi, hval idx hbi], fun p hp _ => a2 p hp⟩

/-- `v = e` for views whose shape the expression can be broadcast to: every element of the view
receives the value the expression had before, and nothing else but the temporary is written. -/
theorem C27_view_partial (t tt tc : Traits) (ab abt : Nat) (d tmp : StridedArr) (e : MEx β)
    (s : List Nat) (ho : OperandsOK e) (hx : ExtentsBelow e) (hxd : szMax ∉ d.shape)
    (hpw : Pointwise e) (hH : Hull d) (hHe : ∀ c ∈ e.arrs, Hull c)
    (he : e.exShape = some s) (hb : BroadcastsTo s d.shape)
    (hd : d.WF) (hD : Distinct d) (hT : tmp.WF) (hDT : Distinct tmp) (htmp : tmp.shape = d.shape)
    (hfresh : (∀ c ∈ e.arrs, Apart c tmp) ∧ Apart d tmp)
    (ht : ∀ rhs, viewRhs d e = some rhs → TraitsOK t d rhs ∧ TraitsOK tt tmp rhs)
    (htc : TraitsOK tc d (rdArr (β := β) tmp))
    (hs : d.size < 2 ^ 64) (hab : ab ≤ d.size) (habt : abt ≤ d.size) (m : Mem β) :
    ∃ m', viewAssign t tt tc ab abt d tmp e m = some m' ∧
      (∀ idx, InBounds d.shape idx → m' (addr d idx) = valueAt e idx m) ∧
      ∀ p, (∀ idx, InBounds d.shape idx → p ≠ addr d idx) →
        (∀ idx, InBounds tmp.shape idx → p ≠ addr tmp idx) → m' p = m p := by
  obtain ⟨tre, hre, htre⟩ := exShape_resizeInfo he
  obtain ⟨hfs, hsh⟩ := resizeInfo_spec ho (Ex.extents_ok e hx) hre
  have hf : Fits d.shape e := Ex.fits_trans hb e hfs
  refine viewAssign_ok t tt tc ab abt d tmp e s ho hx hxd he hb hd hD hT hDT htmp
    (doesNotReadIn_of hpw hf hfresh.1) hfresh.2 ?_ ht htc hs hab habt m
  intro rhs hr hc
  rw [viewRhs_spec hxd he hb, Option.some.injEq] at hr
  by_cases h0 : numel d.shape = 0
  · intro idx hbi
    have := numel_pos_of_inBounds hbi
    omega
  · refine noInterference_of_doesNotRead (doesNotReadIn_of hpw hf ?_)
    have harr : rhs.arrs = e.arrs := by rw [← hr]; split <;> rfl
    have hfr : Fits d.shape rhs := by
      rw [← hr]; split
      · exact hf
      · exact ⟨broadcastsTo_refl _, hf⟩
    have hxr : ExtentsBelow rhs := by
      rw [← hr]; split
      · exact hx
      · exact ⟨hxd, hx⟩
    have := C27_overlap_sound_partial d rhs d.shape hd hfr hxr (by omega) hH
      (by rw [harr]; exact hHe) hc
    rw [harr] at this
    exact this

theorem bcLoop_broadcastable {s d out : List Nat} {t t' : Bool} (h : bcLoop s d t = some (out, t')) :
    broadcastableLoop s out = true := by
  induction s generalizing d out t t' with
  | nil => simp [broadcastableLoop]
  | cons i is ih =>
    cases d with
    | nil => simp [bcLoop] at h
    | cons o os =>
      unfold bcLoop at h
      split at h
      · obtain ⟨r, hr, he⟩ := Option.map_eq_some_iff.1 h
        simp only [Prod.mk.injEq] at he
        rw [← he.1]
        simp [broadcastableLoop, ih hr]
      · split at h
        · obtain ⟨r, hr, he⟩ := Option.map_eq_some_iff.1 h
          simp only [Prod.mk.injEq] at he
          rw [← he.1]
          simp [broadcastableLoop, ih hr]
        · split at h
          · rename_i h1
            obtain ⟨r, hr, he⟩ := Option.map_eq_some_iff.1 h
            simp only [Prod.mk.injEq] at he
            rw [← he.1]
            simp [broadcastableLoop, ih hr, h1]
          · split at h
            · simp at h
            · rename_i h2
              obtain ⟨r, hr, he⟩ := Option.map_eq_some_iff.1 h
              simp only [Prod.mk.injEq] at he
              rw [← he.1]
              have : i = o := by omega
              simp [broadcastableLoop, ih hr, this]

theorem length_bcLoop {s d out : List Nat} {t t' : Bool} (h : bcLoop s d t = some (out, t')) :
    out.length = d.length := by
  induction s generalizing d out t t' with
  | nil => simp [bcLoop] at h; rw [h.1]
  | cons i is ih =>
    cases d with
    | nil => simp [bcLoop] at h
    | cons o os =>
      unfold bcLoop at h
      repeat' split at h
      all_goals first
        | (simp at h; done)
        | (obtain ⟨r, hr, he⟩ := Option.map_eq_some_iff.1 h
           simp only [Prod.mk.injEq] at he
           rw [← he.1]
           simp [ih hr])

theorem broadcastShape_broadcastsTo {s d out : List Nat} {t : Bool}
    (h : broadcastShape s d = some (out, t)) : BroadcastsTo s out := by
  unfold broadcastShape at h
  split at h
  · simp at h
  · rename_i hl
    obtain ⟨r, hr, he⟩ := Option.map_eq_some_iff.1 h
    simp only [Prod.mk.injEq] at he
    have h1 := bcLoop_broadcastable hr
    have h2 := length_bcLoop hr
    rw [← broadcastable_iff_broadcastsTo, ← he.1]
    unfold broadcastable
    rw [List.length_reverse, h2, List.length_reverse, List.reverse_reverse, h1]
    simp; omega

/-- A view assignment that asks for no temporary throws when the expression cannot be broadcast to
the view. -/
theorem C27_view_throws (t tt tc : Traits) (ab abt : Nat) (d tmp : StridedArr) (e : MEx β)
    (s : List Nat) (he : e.exShape = some s) (hb : ¬ BroadcastsTo s d.shape)
    (hc : ∀ rhs, viewRhs d e = some rhs → checkOverlap d rhs = false) (m : Mem β) :
    viewAssign t tt tc ab abt d tmp e m = none := by
  unfold viewAssign
  cases hr : viewRhs d e with
  | none => rfl
  | some rhs =>
    simp only
    rw [if_neg (by rw [hc rhs hr]; simp)]
    unfold viewRhs at hr
    rw [he] at hr
    simp only at hr
    split at hr
    · rename_i h
      simp only [Bool.and_eq_true, beq_iff_eq] at h
      rw [h.2] at hb
      exact (hb (broadcastsTo_refl _)).elim
    · obtain ⟨r, hbs, rfl⟩ := Option.map_eq_some_iff.1 hr
      unfold viewNoalias
      simp only [Ex.exShape]
      rw [if_neg]
      rw [broadcastable_iff_broadcastsTo]
      intro hbr
      exact hb (BroadcastsTo.trans (broadcastShape_broadcastsTo hbs) hbr)

/-! ### C28 -/

theorem rangeOverlaps_self (f l : Int) : rangeOverlaps (memoryRange f l) f l = true := by
  unfold rangeOverlaps memoryRange
  simp only
  split <;> split <;> simp <;> omega

theorem valueAt_binEx [Inhabited β] (f : β → β → β) (a : StridedArr) (b : MEx β) (idx : List Nat)
    (m : Mem β) :
    valueAt (binEx f a b) idx m =
      f (m (addr a (bcIndex a.shape idx))) (valueAt b idx m) := rfl

theorem binEx_leaves [Inhabited β] (f : β → β → β) (a : StridedArr) (b : MEx β) :
    (binEx f a b).toSh.leaves = a.shape :: b.toSh.leaves := by
  simp [binEx, pwFn, rdArr, Ex.toSh, Args.toShs, ShExpr.leaves, ShExpr.leavesL]

theorem resizeInfo_binEx [Inhabited β] (f : β → β → β) (a : StridedArr) (b : MEx β) :
    resizeInfo (binEx f a b) = (binEx f a b).toSh.shape := rfl

/-- A destination that is an operand is found by the overlap test. -/
theorem checkOverlap_binEx [Inhabited β] (f : β → β → β) (a : StridedArr) (b : MEx β)
    {sh : List Nat} (hf : Fits sh (binEx f a b)) (hx : ExtentsBelow (binEx f a b))
    (hp : 0 < numel sh) : checkOverlap a (binEx f a b) = true := by
  have hpa : 0 < numel a.shape := numel_pos_of_broadcastsTo hf.1.2 hp
  unfold checkOverlap destRange
  rw [if_neg (by rw [StridedArr.size_eq]; omega)]
  simp only [binEx, pwFn, Ex.overlaps]
  rw [if_neg (fnSize_ne_zero hf hx hp)]
  simp only [Args.anyOverlaps, rdArr, Ex.overlaps]
  rw [if_neg (by rw [StridedArr.size_eq]; omega), rangeOverlaps_self]
  rfl

/-- `a op= b` on containers: `a` afterwards has the broadcast shape of the old `a` and `b`, and each
element is the operation applied to the old element of `a` and the value of `b` — for every `b`,
also one reading `a`.  Nothing but the new storage of `a` is written. -/
theorem C28_compound_assign [Inhabited β] (f : β → β → β) (t : Traits) (ab : Nat)
    (a d tmp : StridedArr) (b : MEx β) (out : List Nat)
    (ha : a.WF) (hb : OperandsOK b) (hxa : szMax ∉ a.shape) (hxb : ExtentsBelow b)
    (hout : IsBroadcast (a.shape :: b.toSh.leaves) out)
    (hd : d.WF) (hD : Distinct d) (hds : d.shape = out)
    (hT : tmp.WF) (hDT : Distinct tmp) (hts : tmp.shape = out)
    (hfresh : DoesNotReadIn out (binEx f a b) tmp)
    (ht : TraitsOK t d (binEx f a b)) (htt : TraitsOK t tmp (binEx f a b))
    (hs : numel out < 2 ^ 64) (hab : ab ≤ numel out) (m : Mem β) :
    ∃ res, containerAssign t ab a d tmp (binEx f a b) m = some res ∧ res.1.shape = out ∧
      (∀ idx, InBounds out idx → res.2 (addr res.1 idx) =
        f (m (addr a (bcIndex a.shape idx))) (valueAt b idx m)) ∧
      ∀ p, (∀ idx, InBounds out idx → p ≠ addr res.1 idx) → res.2 p = m p := by
  have hx : ExtentsBelow (binEx f a b) := ⟨hxa, hxb, trivial⟩
  have ho : OperandsOK (binEx f a b) := ⟨ha, hb, trivial⟩
  have hxo : (binEx f a b).toSh.ExtentsOk := Ex.extents_ok _ hx
  obtain ⟨tr, htr⟩ := ((C04_broadcast_shape _ hxo).1 out).2 (by rw [binEx_leaves]; exact hout)
  have hr : resizeInfo (binEx f a b) = some (out, tr) := by rw [resizeInfo_binEx]; exact htr
  obtain ⟨hf, hsh⟩ := resizeInfo_spec ho hxo hr
  unfold containerAssign
  rw [hr]
  simp only
  by_cases h0 : numel out = 0
  · have hN : ∀ (x : StridedArr), x.shape = out → NoInterference x (binEx f a b) := by
      intro x hxs idx hbi
      rw [hxs] at hbi
      have := numel_pos_of_inBounds hbi
      omega
    split
    · obtain ⟨h1, h2⟩ := C24_assign_data t ab tmp _ tr hT hDT (by rw [hts]; exact hf) htt
        (by rw [StridedArr.size_eq, hts]; exact hs) (by rw [StridedArr.size_eq, hts]; exact hab)
        (by rw [hts]; exact hsh) (hN tmp hts) m
      rw [hts] at h1 h2
      exact ⟨_, rfl, hts, fun idx hbi => (h1 idx hbi).trans (valueAt_binEx f a b idx m), h2⟩
    · obtain ⟨h1, h2⟩ := C24_assign_data t ab d _ tr hd hD (by rw [hds]; exact hf) ht
        (by rw [StridedArr.size_eq, hds]; exact hs) (by rw [StridedArr.size_eq, hds]; exact hab)
        (by rw [hds]; exact hsh) (hN d hds) m
      rw [hds] at h1 h2
      exact ⟨_, rfl, hds, fun idx hbi => (h1 idx hbi).trans (valueAt_binEx f a b idx m), h2⟩
  · rw [if_pos (checkOverlap_binEx f a b hf hx (by omega))]
    have hN : NoInterference tmp (binEx f a b) :=
      noInterference_of_doesNotRead (by rw [hts]; exact hfresh)
    obtain ⟨h1, h2⟩ := C24_assign_data t ab tmp _ tr hT hDT (by rw [hts]; exact hf) htt
      (by rw [StridedArr.size_eq, hts]; exact hs) (by rw [StridedArr.size_eq, hts]; exact hab)
      (by rw [hts]; exact hsh) hN m
    rw [hts] at h1 h2
    exact ⟨_, rfl, hts, fun idx hbi => (h1 idx hbi).trans (valueAt_binEx f a b idx m), h2⟩

/-- Shapes that cannot be broadcast: an exception before any store. -/
theorem C28_incompatible_throws [Inhabited β] (f : β → β → β) (t : Traits) (ab : Nat)
    (a d tmp : StridedArr) (b : MEx β) (hxa : szMax ∉ a.shape) (hxb : ExtentsBelow b)
    (hconf : Conflict (a.shape :: b.toSh.leaves)) (m : Mem β) :
    containerAssign t ab a d tmp (binEx f a b) m = none ∧
    computedAssign t ab a tmp (binEx f a b) m = none := by
  have hx : ExtentsBelow (binEx f a b) := ⟨hxa, hxb, trivial⟩
  have hn : resizeInfo (binEx f a b) = none := by
    rw [resizeInfo_binEx]
    exact (C04_broadcast_shape _ (Ex.extents_ok _ hx)).2.2 (by rw [binEx_leaves]; exact hconf)
  unfold containerAssign computedAssign
  rw [hn]
  exact ⟨rfl, rfl⟩

theorem isBroadcast_of_broadcastsTo {S : List (List Nat)} {out : List Nat}
    (h : ∀ s ∈ S, BroadcastsTo s out) : IsBroadcast (out :: S) out := by
  refine ⟨?_, ?_, ?_⟩
  · intro s hs
    rcases List.mem_cons.1 hs with rfl | hs
    · exact le_refl _
    · exact (h s hs).1
  · intro k d hk s hs e he
    rcases List.mem_cons.1 hs with rfl | hs
    · rw [hk] at he
      exact Or.inr (Option.some.inj he).symm
    · have := ((C06_broadcastable_axes _ _).1 ((broadcastable_iff_broadcastsTo _ _).2 (h s hs))).2
        k e d he hk
      exact this.symm
  · intro k d hk
    exact ⟨out, List.mem_cons_self, hk⟩

/-- `v op= b` on views whose shape `b` can be broadcast to, for every `b`, also one reading `v`. -/
theorem C28_view_compound_partial [Inhabited β] (f : β → β → β) (t tt tc : Traits) (ab abt : Nat)
    (v tmp : StridedArr) (b : MEx β) (hb : OperandsOK b) (hxv : szMax ∉ v.shape)
    (hxb : ExtentsBelow b) (hbv : ∀ s ∈ b.toSh.leaves, BroadcastsTo s v.shape)
    (hv : v.WF) (hD : Distinct v) (hT : tmp.WF) (hDT : Distinct tmp) (htmp : tmp.shape = v.shape)
    (hfresh : DoesNotReadIn v.shape b tmp) (hapt : Apart v tmp)
    (ht : TraitsOK t v (binEx f v b)) (htt : TraitsOK tt tmp (binEx f v b))
    (htc : TraitsOK tc v (rdArr (β := β) tmp))
    (hs : v.size < 2 ^ 64) (hab : ab ≤ v.size) (habt : abt ≤ v.size) (m : Mem β) :
    ∃ m', viewAssign t tt tc ab abt v tmp (binEx f v b) m = some m' ∧
      (∀ idx, InBounds v.shape idx → m' (addr v idx) = f (m (addr v idx)) (valueAt b idx m)) ∧
      ∀ p, (∀ idx, InBounds v.shape idx → p ≠ addr v idx) →
        (∀ idx, InBounds tmp.shape idx → p ≠ addr tmp idx) → m' p = m p := by
  have hx : ExtentsBelow (binEx f v b) := ⟨hxv, hxb, trivial⟩
  have ho : OperandsOK (binEx f v b) := ⟨hv, hb, trivial⟩
  have hxo : (binEx f v b).toSh.ExtentsOk := Ex.extents_ok _ hx
  obtain ⟨tr, htr⟩ := ((C04_broadcast_shape _ hxo).1 v.shape).2
    (by rw [binEx_leaves]; exact isBroadcast_of_broadcastsTo hbv)
  have hr : resizeInfo (binEx f v b) = some (v.shape, tr) := by rw [resizeInfo_binEx]; exact htr
  have hex : (binEx f v b).exShape = some v.shape := by
    show Option.map Prod.fst (binEx f v b).toSh.shape = _
    rw [htr]; rfl
  obtain ⟨hf, hsh⟩ := resizeInfo_spec ho hxo hr
  have hrhs : viewRhs v (binEx f v b) = some (binEx f v b) := by
    rw [viewRhs_spec hxv hex (broadcastsTo_refl _), if_pos rfl]
  have k1 : DoesNotReadIn v.shape (binEx f v b) tmp := by
    intro idx hbi m m' hm
    rw [valueAt_binEx, valueAt_binEx, bcIndex_self hbi, hfresh idx hbi m m' hm,
      hm _ (fun j hj => hapt idx j hbi hj)]
  have k2 : ∀ rhs, viewRhs v (binEx f v b) = some rhs → checkOverlap v rhs = false →
      NoInterference v (binEx f v b) := by
    intro rhs hr' hc
    rw [hrhs, Option.some.injEq] at hr'
    subst hr'
    by_cases h0 : numel v.shape = 0
    · intro idx hbi
      have := numel_pos_of_inBounds hbi
      omega
    · rw [checkOverlap_binEx f v b hf hx (by omega)] at hc
      simp at hc
  have k3 : ∀ rhs, viewRhs v (binEx f v b) = some rhs → TraitsOK t v rhs ∧ TraitsOK tt tmp rhs := by
    intro rhs hr'
    rw [hrhs, Option.some.injEq] at hr'
    subst hr'
    exact ⟨ht, htt⟩
  obtain ⟨m', h1, h2, h3⟩ := viewAssign_ok t tt tc ab abt v tmp (binEx f v b) v.shape ho hx hxv hex
    (broadcastsTo_refl _) hv hD hT hDT htmp k1 hapt k2 k3 htc hs hab habt m
  refine ⟨m', h1, fun idx hbi => ?_, h3⟩
  rw [h2 idx hbi, valueAt_binEx, bcIndex_self hbi]

/-! ### `noalias(a) op= b` -/

theorem lexGreater_false_of_pointwise : ∀ {o a : List Nat}, o.length = a.length →
    (∀ k, k < a.length → a.getD k 0 = 1 ∨ a.getD k 0 = o.getD k 0) →
    (∀ k, k < a.length → a.getD k 0 = 1 → o.getD k 0 ≠ 0) →
    lexGreater o a = false → o = a := by
  intro o
  induction o with
  | nil => intro a hl; cases a <;> simp_all
  | cons x xs ih =>
    intro a hl h1 h0 hg
    cases a with
    | nil => simp at hl
    | cons y ys =>
      have hx := h1 0 (by simp)
      have hx0 := h0 0 (by simp)
      simp only [List.getD_cons_zero] at hx hx0
      unfold lexGreater at hg
      by_cases hxy : x > y
      · rw [if_pos hxy] at hg; simp at hg
      · rw [if_neg hxy] at hg
        have : x = y := by
          rcases hx with h | h
          · have := hx0 h; omega
          · exact h.symm
        subst this
        rw [if_neg (by omega)] at hg
        rw [ih (by simpa using hl) (fun k hk => by have := h1 (k+1) (by simpa using hk); simpa using this)
          (fun k hk => by have := h0 (k+1) (by simpa using hk); simpa using this) hg]

/-- `noalias(a) op= b`: when `b` does not read the elements of `a` elsewhere and no unit extent of
`a` is broadcast to extent zero, the result is that of `a op= b`. -/
theorem C28_noalias_compound_partial [Inhabited β] (f : β → β → β) (t : Traits) (ab : Nat)
    (a tmp : StridedArr) (b : MEx β) (out : List Nat)
    (ha : a.WF) (hDa : Distinct a) (hb : OperandsOK b) (hxa : szMax ∉ a.shape) (hxb : ExtentsBelow b)
    (hout : IsBroadcast (a.shape :: b.toSh.leaves) out)
    (hno : out = a.shape → DoesNotReadIn a.shape b a)
    (hz : a.shape.length = out.length → ∀ k, k < a.shape.length → a.shape.getD k 0 = 1 →
      out.getD k 0 ≠ 0)
    (hT : tmp.WF) (hDT : Distinct tmp) (hts : tmp.shape = out)
    (hfresh : DoesNotReadIn out (binEx f a b) tmp)
    (ht : TraitsOK t a (binEx f a b)) (htt : TraitsOK t tmp (binEx f a b))
    (hs : numel out < 2 ^ 64) (hab : ab ≤ numel out) (m : Mem β) :
    ∃ res, computedAssign t ab a tmp (binEx f a b) m = some res ∧ res.1.shape = out ∧
      (∀ idx, InBounds out idx → res.2 (addr res.1 idx) =
        f (m (addr a (bcIndex a.shape idx))) (valueAt b idx m)) ∧
      ∀ p, (∀ idx, InBounds out idx → p ≠ addr res.1 idx) → res.2 p = m p := by
  have hx : ExtentsBelow (binEx f a b) := ⟨hxa, hxb, trivial⟩
  have ho : OperandsOK (binEx f a b) := ⟨ha, hb, trivial⟩
  have hxo : (binEx f a b).toSh.ExtentsOk := Ex.extents_ok _ hx
  obtain ⟨tr, htr⟩ := ((C04_broadcast_shape _ hxo).1 out).2 (by rw [binEx_leaves]; exact hout)
  have hr : resizeInfo (binEx f a b) = some (out, tr) := by rw [resizeInfo_binEx]; exact htr
  obtain ⟨hf, hsh⟩ := resizeInfo_spec ho hxo hr
  unfold computedAssign
  rw [hr]
  simp only
  by_cases hc : (decide (out.length > a.shape.length) || lexGreater out a.shape) = true
  · rw [if_pos hc]
    have hN : NoInterference tmp (binEx f a b) :=
      noInterference_of_doesNotRead (by rw [hts]; exact hfresh)
    obtain ⟨h1, h2⟩ := C24_assign_data t ab tmp _ tr hT hDT (by rw [hts]; exact hf) htt
      (by rw [StridedArr.size_eq, hts]; exact hs) (by rw [StridedArr.size_eq, hts]; exact hab)
      (by rw [hts]; exact hsh) hN m
    rw [hts] at h1 h2
    exact ⟨_, rfl, hts, fun idx hbi => (h1 idx hbi).trans (valueAt_binEx f a b idx m), h2⟩
  · rw [if_neg hc]
    have hbt : BroadcastsTo a.shape out := hf.1.2
    simp only [Bool.or_eq_true, decide_eq_true_eq, not_or, Bool.not_eq_true] at hc
    have hlen : out.length = a.shape.length := by have := hbt.1; omega
    have heq : out = a.shape := by
      refine lexGreater_false_of_pointwise hlen ?_ (hz hlen.symm) hc.2
      intro k hk
      have := hbt.2 k hk
      rwa [hlen, Nat.sub_self, Nat.add_zero] at this
    have hN : NoInterference a (binEx f a b) := by
      intro idx hbi m m' hm
      rw [valueAt_binEx, valueAt_binEx, bcIndex_self hbi,
        hno heq idx hbi m m' (fun p hp => hm p fun j hj _ => hp j hj), hm (addr a idx)]
      intro j hj hne he
      exact hne (hDa _ _ hbi hj he).symm
    rw [heq] at hf hsh
    obtain ⟨h1, h2⟩ := C24_assign_data t ab a _ tr ha hDa hf ht
      (by rw [StridedArr.size_eq, ← heq]; exact hs) (by rw [StridedArr.size_eq, ← heq]; exact hab)
      hsh hN m
    rw [← heq] at h1 h2
    exact ⟨_, rfl, heq.symm, fun idx hbi => (h1 idx hbi).trans (valueAt_binEx f a b idx m), h2⟩

/-! ### C29 -/

/-- The values after `d op= scalar`, as an expression. -/
def onElement (d : StridedArr) (f : β → β) : MEx β := .arr d (fun p m => f (m p))

theorem valueAt_onElement {d : StridedArr} {f : β → β} {idx : List Nat} (hb : InBounds d.shape idx)
    (m : Mem β) : valueAt (onElement d f) idx m = f (m (addr d idx)) := by
  simp only [onElement, valueAt]
  rw [bcIndex_self hb]
  rfl

theorem fits_onElement {d : StridedArr} {f : β → β} (hd : d.WF) : Fits d.shape (onElement d f) :=
  ⟨hd, broadcastsTo_refl _⟩

theorem noInterference_onElement {d : StridedArr} {f : β → β} (hD : Distinct d) :
    NoInterference d (onElement d f) := by
  intro idx hb m m' hm
  rw [valueAt_onElement hb, valueAt_onElement hb, hm (addr d idx)]
  intro j hj hne he
  exact hne (hD _ _ hb hj he).symm

/-- `a op= scalar` on a contiguous container applies the operation once to every element and
touches nothing else. -/
theorem C29_container_partial (L : Layout) (hL : L = .row_major ∨ L = .column_major) (d : StridedArr)
    (f : β → β) (hd : d.WF) (hC : Contig L d) (m : Mem β) :
    (∀ idx, InBounds d.shape idx →
      runTrace (storageScalarTrace d f) m (addr d idx) = f (m (addr d idx))) ∧
    ∀ p, (∀ idx, InBounds d.shape idx → p ≠ addr d idx) →
      runTrace (storageScalarTrace d f) m p = m p := by
  have hD := contig_distinct hL hC
  have hfl : (storageScalarTrace d f).flatten = (orderIndices L d.shape).map (wr d (onElement d f)) := by
    refine Eq.trans ?_ (linearTrace_flatten hC (fits_onElement hd) trivial ?_)
    · rfl
    · intro c hc
      simp only [onElement, Ex.arrs, List.mem_singleton] at hc
      subst hc
      exact ⟨rfl, hC⟩
  obtain ⟨h1, h2⟩ := runTrace_assigned (noInterference_onElement hD) hD hfl m
  exact ⟨fun idx hb => (h1 idx hb).trans (valueAt_onElement hb m), h2⟩

theorem iterScalarLoop_eq {d : StridedArr} {f : β → β} : ∀ (n : Nat) (p : Int) (idx : List Nat),
    iterScalarLoop d f n (p, idx) = stepperLoop d (onElement d f) .row_major n (p, p) idx := by
  intro n
  induction n with
  | zero => intro p idx; rfl
  | succ n ih =>
    intro p idx
    unfold iterScalarLoop stepperLoop
    have hops : (onElement d f).ops d.shape.length = xstepperOps d 0 := by
      show xstepperOps d (d.shape.length - d.shape.length) = _
      rw [Nat.sub_self]
    obtain ⟨h1, -⟩ := incStepper_pair (xstepperOps d 0) (xstepperOps d 0) .row_major d.shape
      (p, p) idx
    have h1' : incStepper (pairOps (xstepperOps d 0) ((onElement d f).ops d.shape.length))
        .row_major d.shape (p, p) idx =
        (((incStepper (xstepperOps d 0) .row_major d.shape p idx).1,
          (incStepper (xstepperOps d 0) .row_major d.shape p idx).1),
          (incStepper (xstepperOps d 0) .row_major d.shape p idx).2) := by
      rw [hops]; exact h1
    simp only
    rw [h1']
    congr 1
    exact ih _ _

/-- `v op= scalar` on a view, through `linear_begin()` when the view is stored contiguously and
through `begin()` for arbitrary strides. -/
theorem C29_view (contig : Bool) (d : StridedArr) (f : β → β) (hd : d.WF) (hD : Distinct d)
    (hC : contig = true → ∃ L, (L = .row_major ∨ L = .column_major) ∧ Contig L d) (m : Mem β) :
    (∀ idx, InBounds d.shape idx →
      runTrace (viewScalarTrace contig d f) m (addr d idx) = f (m (addr d idx))) ∧
    ∀ p, (∀ idx, InBounds d.shape idx → p ≠ addr d idx) →
      runTrace (viewScalarTrace contig d f) m p = m p := by
  cases contig with
  | true =>
    obtain ⟨L, hL, hC⟩ := hC rfl
    exact C29_container_partial L hL d f hd hC m
  | false =>
    have hfl : (viewScalarTrace false d f).flatten =
        (orderIndices .row_major d.shape).map (wr d (onElement d f)) := by
      rw [← stepperTrace_flatten (Or.inl rfl) hd (fits_onElement hd)]
      unfold viewScalarTrace stepperTrace
      rw [iterScalarLoop_eq]
      rfl
    obtain ⟨h1, h2⟩ := runTrace_assigned (noInterference_onElement hD) hD hfl m
    exact ⟨fun idx hb => (h1 idx hb).trans (valueAt_onElement hb m), h2⟩

/-- An adaptor of shape `[3]` with stride 2: the container loop changes the cells 0, 1, 2; cell 1 is
no element and element 2 (cell 4) keeps its value. -/
theorem C29_strided_adaptor_wrong :
    let d : StridedArr := StridedArr.mk' [3] [2] 0
    let m : Mem Nat := fun p => p.toNat
    addr d [2] = 4 ∧ InBounds d.shape [2] ∧
    runTrace (storageScalarTrace d (· + 100)) m 4 = 4 ∧
    (∀ idx, InBounds d.shape idx → (1 : Int) ≠ addr d idx) ∧
    runTrace (storageScalarTrace d (· + 100)) m 1 = 101 := by
  refine ⟨by decide, by decide, by decide, ?_, by decide⟩
  intro idx hb
  match idx, hb with
  | [i], hb =>
    simp only [addr, StridedArr.mk', toInts, List.map, dot, Int.ofNat_eq_natCast]
    omega
  | [], hb => simp [StridedArr.mk', InBounds] at hb
  | _ :: _ :: _, hb => simp [StridedArr.mk', InBounds] at hb

/-! ### Examples and counterexamples -/

/-- Types for which only the stepper loop is available. -/
def plainTraits : Traits := ⟨false, false, false, false, false, false, .dynamic, 1⟩

theorem plainTraits_ok {α : Type} (d : StridedArr) (e : Ex α) : TraitsOK plainTraits d e where
  contig1 h := by simp [plainTraits] at h
  isContig1 h := by simp [plainTraits] at h
  static h := by simp [plainTraits] at h
  strided h := by simp [plainTraits] at h
  width := ⟨0, by omega, rfl⟩

theorem hull_container (sh : List Nat) (off : Int) : Hull (StridedArr.container .row_major sh off) :=
  hull_of_contig (Or.inl rfl) (container_contig (Or.inl rfl) sh off)

/-- `view(a, range(1, 4)) = view(a, range(0, 3))`: the ranges overlap, a temporary is used and the
old values arrive. -/
example :
    let d := StridedArr.container .row_major [3] 1
    let c := StridedArr.container .row_major [3] 0
    let tmp := StridedArr.container .row_major [3] 100
    let e : MEx Int := rdArr c
    (∃ m', viewAssign plainTraits plainTraits plainTraits 0 0 d tmp e (fun p => p * p) = some m' ∧
      ∀ idx, InBounds [3] idx → m' (addr d idx) = valueAt e idx (fun p => p * p)) ∧
    checkOverlap d e = true := by
  have hc : ∀ sh off, Contig .row_major (StridedArr.container .row_major sh off) :=
    fun sh off => container_contig (Or.inl rfl) sh off
  refine ⟨?_, by decide⟩
  obtain ⟨m', h1, h2, -⟩ := C27_view_partial (β := Int) plainTraits plainTraits plainTraits 0 0
    (StridedArr.container .row_major [3] 1) (StridedArr.container .row_major [3] 100)
    (rdArr (StridedArr.container .row_major [3] 0)) [3] (container_wf _ _)
    (by show szMax ∉ [3]; decide) (by decide) rfl (hull_container _ _)
    (fun c h => by
      simp only [rdArr, Ex.arrs, List.mem_singleton] at h
      subst h; exact hull_container _ _)
    rfl (broadcastsTo_refl _) (container_wf _ _) (container_distinct (Or.inl rfl) _ _)
    (container_wf _ _) (container_distinct (Or.inl rfl) _ _) rfl
    ⟨fun c h => by
      simp only [rdArr, Ex.arrs, List.mem_singleton] at h
      subst h; exact contig_apart (hc _ _) (hc _ _) (by decide),
     contig_apart (hc _ _) (hc _ _) (by decide)⟩
    (fun rhs _ => ⟨plainTraits_ok _ _, plainTraits_ok _ _⟩) (plainTraits_ok _ _) (by decide)
    (by decide) (by decide) (fun p => p * p)
  exact ⟨m', h1, h2⟩

/-- `a = a + b` asks for a temporary, `a = b + b` does not; both are assigned. -/
example :
    let tmp := StridedArr.container .row_major [2, 3] 300
    ∃ res, containerAssign exTraits 0 exA exA tmp (binEx (· + ·) exA (rdArr exB)) (fun p => p) = some res ∧
      ∀ idx, InBounds [2, 3] idx → res.2 (addr res.1 idx) =
        addr exA (bcIndex exA.shape idx) + valueAt (rdArr exB) idx (fun p => p) := by
  have hc : ∀ sh off, Contig .row_major (StridedArr.container .row_major sh off) :=
    fun sh off => container_contig (Or.inl rfl) sh off
  have hfit : Fits [2, 3] (binEx (· + ·) exA (rdArr (β := Int) exB)) :=
    ⟨⟨container_wf _ _, broadcastsTo_refl _⟩, ⟨container_wf _ _, broadcastsTo_refl _⟩, trivial⟩
  have harr : ∀ c ∈ (binEx (· + ·) exA (rdArr (β := Int) exB)).arrs, c = exA ∨ c = exB := by
    intro c h
    simpa [binEx, pwFn, rdArr, Ex.arrs, Args.arrss] using h
  have htr : ∀ off, TraitsOK exTraits (StridedArr.container .row_major [2, 3] off)
      (binEx (· + ·) exA (rdArr (β := Int) exB)) := fun off =>
    { contig1 := fun _ => ⟨_, Or.inl rfl, hc _ _⟩
      isContig1 := fun _ => ⟨_, Or.inl rfl, hc _ _⟩
      static := fun _ _ _ => ⟨_, Or.inl rfl, hc _ _, ⟨trivial, trivial, trivial⟩,
        ⟨trivial, trivial, trivial⟩, fun c h => by rcases harr c h with rfl | rfl <;> exact hc _ _⟩
      strided := fun _ => ⟨trivial, trivial, trivial⟩
      width := ⟨1, by omega, rfl⟩ }
  obtain ⟨res, h1, -, h3, -⟩ := C28_compound_assign (β := Int) (· + ·) exTraits 0 exA exA
    (StridedArr.container .row_major [2, 3] 300) (rdArr exB) [2, 3] (container_wf _ _)
    (container_wf _ _) (by decide) (by show szMax ∉ [2, 3]; decide)
    (isBroadcast_of_broadcastsTo (fun s hs => by
      simp only [rdArr, Ex.toSh, ShExpr.leaves, List.mem_singleton] at hs
      subst hs; exact broadcastsTo_refl _))
    (container_wf _ _) (container_distinct (Or.inl rfl) _ _) rfl
    (container_wf _ _) (container_distinct (Or.inl rfl) _ _) rfl
    (doesNotReadIn_of (⟨⟨fun vs => (vs.getD 0 default) + (vs.getD 1 default), rfl⟩, rfl, rfl, trivial⟩) hfit (fun c h => by
      rcases harr c h with rfl | rfl <;> exact contig_apart (hc _ _) (hc _ _) (by decide)))
    (htr 0) (htr 300) (by decide) (by decide) (fun p => p)
  exact ⟨res, h1, h3⟩

/-- Ranges are compared by the addresses of the first and last elements only.  With strides of
opposite signs other elements lie outside: here the destination has the cells 10, 0, 11, 1 and the
source 14, 13, 12, 11.  No overlap is found, and element (1, 1) receives the new content of cell 11
instead of the old one. -/
theorem C27_mixed_sign_strides_wrong :
    let d : StridedArr := StridedArr.mk' [2, 2] [1, -10] 10
    let c : StridedArr := StridedArr.mk' [2, 2] [-2, -1] 14
    let tmp : StridedArr := StridedArr.container .row_major [2, 2] 100
    let e : MEx Nat := rdArr c
    let m : Mem Nat := fun p => p.toNat
    addr d [1, 0] = addr c [1, 1] ∧ checkOverlap d e = false ∧
    (viewAssign plainTraits plainTraits plainTraits 0 0 d tmp e m).map (fun m' => m' (addr d [1, 1]))
      = some 12 ∧ valueAt e [1, 1] m = 11 := by decide

/-- Generators that read arrays (`concatenate`, `stack`, `diag`, `tril`, …) are never found to
overlap.  `a = concatenate(xtuple(view(a, range(1, 2)), view(a, range(0, 1))))` should exchange the
elements 5 and 7 of `a`; both become 7. -/
theorem C27_generator_not_seen :
    let a : StridedArr := StridedArr.container .row_major [2] 0
    let e : MEx Nat := .gen [2] fun i m => if i.getD 0 0 = 0 then m 1 else m 0
    let m : Mem Nat := fun p => if p = 0 then 5 else 7
    valueAt e [0] m = 7 ∧ valueAt e [1] m = 5 ∧ checkOverlap a e = false ∧
    (containerAssign plainTraits 0 a a a e m).map (fun r => (r.2 0, r.2 1)) = some (7, 7) := by decide

/-- `v += e` where `v` has shape `[1, 2]` and `e` shape `[2, 1]`: the sum has shape `[2, 2]`, which
cannot be broadcast to the view, yet there is no exception, and the copy of the temporary writes past
the view (cells 2 and 3). -/
theorem C28_view_larger_rhs_wrong :
    let v : StridedArr := StridedArr.container .row_major [1, 2] 0
    let c : StridedArr := StridedArr.container .row_major [2, 1] 0
    let tmp : StridedArr := StridedArr.container .row_major [2, 2] 100
    let e : MEx Nat := binEx (· + ·) v (rdArr c)
    let m : Mem Nat := fun p => 10 * p.toNat
    ¬ BroadcastsTo [2, 2] v.shape ∧ e.exShape = some [2, 2] ∧
    (∀ idx, InBounds v.shape idx → addr v idx < 2) ∧
    (viewAssign plainTraits plainTraits plainTraits 0 0 v tmp e m).map
      (fun m' => (m' 0, m' 1, m' 2, m' 3)) = some (0, 10, 10, 20) := by
  refine ⟨fun h => ?_, by decide, ?_, by decide⟩
  · have := h.2 0 (by decide)
    simp [StridedArr.container, StridedArr.mk'] at this
  · intro idx hb
    have := contig_addr_range (container_contig (l := .row_major) (Or.inl rfl) [1, 2] 0) hb
    have h2 : numel (StridedArr.container .row_major [1, 2] 0).shape = 2 := by decide
    have h3 : (StridedArr.container .row_major [1, 2] 0).off = 0 := rfl
    omega

/-- `noalias(a) += b` with `a` of shape `[1]` and `b` of shape `[0]`: the broadcast shape is `[0]`,
but `a` keeps its shape and its element is overwritten with a value read past the end of `b`. -/
theorem C28_noalias_zero_extent_wrong :
    let a : StridedArr := StridedArr.container .row_major [1] 0
    let b : StridedArr := StridedArr.container .row_major [0] 10
    let tmp : StridedArr := StridedArr.container .row_major [0] 100
    let m : Mem Nat := fun p => p.toNat + 1
    resizeInfo (binEx (β := Nat) (· + ·) a (rdArr b)) = some ([0], false) ∧
    (computedAssign plainTraits 0 a tmp (binEx (· + ·) a (rdArr b)) m).map
      (fun r => (r.1.shape, r.2 0)) = some ([1], 12) := by decide

/-- `noalias(v) = e` with a contiguous view of shape `[3]` and an array of shape `[1]`: the flat loop
is selected without looking at the shape of the view, and reads past the end of the array. -/
theorem C24_noalias_view_broadcast_wrong :
    let v : StridedArr := StridedArr.container .row_major [3] 0
    let c : StridedArr := StridedArr.container .row_major [1] 10
    let m : Mem Nat := fun p => p.toNat
    (∀ idx, InBounds [3] idx → valueAt (rdArr c) idx m = 10) ∧
    (viewNoalias ⟨true, true, true, true, false, false, .row_major, 1⟩ 0 v (rdArr c) m).map
      (fun m' => (m' 0, m' 1, m' 2)) = some (10, 11, 12) := by
  refine ⟨?_, by decide⟩
  intro idx hb
  match idx, hb with
  | [i], hb => rfl
  | [], hb => simp [InBounds] at hb
  | _ :: _ :: _, hb => simp [InBounds] at hb

/-- `a += 5` and `view(a, all(), range(0, 2)) += 5`. -/
example :
    (List.range 6).map (fun (i : Nat) =>
      runTrace (storageScalarTrace exA (· + 5)) (fun p => p) (i : Int)) = [5, 6, 7, 8, 9, 10] ∧
    Contig .row_major exA ∧
    (List.range 6).map (fun (i : Nat) =>
      runTrace (viewScalarTrace false (StridedArr.mk' [2, 2] [3, 1] 0) (· + 5)) (fun p => p) (i : Int))
      = [5, 6, 2, 8, 9, 5] :=
  ⟨by decide, container_contig (Or.inl rfl) _ _, by decide⟩

/-- `a = b + v` needs no temporary. -/
example :
    ∃ res, containerAssign plainTraits 0 exA exA (StridedArr.container .row_major [2, 3] 300) exBV
        (fun p => p) = some res ∧ Assigned res.1 exBV (fun p => p) res.2 := by
  have hc : ∀ sh off, Contig .row_major (StridedArr.container .row_major sh off) :=
    fun sh off => container_contig (Or.inl rfl) sh off
  have harr : ∀ c ∈ exBV.arrs, c = exB ∨ c = exV := by
    intro c h
    simpa [exBV, pwFn, rdArr, Ex.arrs, Args.arrss] using h
  obtain ⟨res, h1, -, h3⟩ := C27_container_partial (β := Int) (tr := false) plainTraits 0 exA exA
    (StridedArr.container .row_major [2, 3] 300) exBV ⟨container_wf _ _, container_wf _ _, trivial⟩
    ⟨by show szMax ∉ [2, 3]; decide, by show szMax ∉ [3]; decide, trivial⟩
    ⟨⟨List.sum, rfl⟩, rfl, rfl, trivial⟩ (container_wf _ _) (hull_container _ _)
    (fun c h => by rcases harr c h with rfl | rfl <;> exact hull_container _ _) (by decide) rfl
    (container_wf _ _) (container_distinct (Or.inl rfl) _ _) (container_wf _ _)
    (container_distinct (Or.inl rfl) _ _) (Or.inl fun idx h => ⟨idx, h, rfl⟩)
    (fun c h => by
      rcases harr c h with rfl | rfl <;> exact contig_apart (hc _ _) (hc _ _) (by decide))
    (plainTraits_ok _ _) (plainTraits_ok _ _) (by decide) (by decide) (fun p => p)
  exact ⟨res, h1, h3⟩

/-- `noalias(a) += b` in place, and `view += view` on overlapping parts of a vector. -/
example :
    (∃ res, computedAssign plainTraits 0 exA (StridedArr.container .row_major [2, 3] 300)
        (binEx (· + ·) exA (rdArr exB)) (fun p => p) = some res ∧ res.1.shape = [2, 3] ∧
      ∀ idx, InBounds [2, 3] idx → res.2 (addr res.1 idx) =
        addr exA (bcIndex exA.shape idx) + valueAt (rdArr exB) idx (fun p => p)) ∧
    ∃ m', viewAssign plainTraits plainTraits plainTraits 0 0 (StridedArr.container .row_major [3] 1)
        (StridedArr.container .row_major [3] 300)
        (binEx (· + ·) (StridedArr.container .row_major [3] 1)
          (rdArr (StridedArr.container .row_major [3] 0))) (fun p => p) = some m' ∧
      ∀ idx, InBounds [3] idx → m' (addr (StridedArr.container .row_major [3] 1) idx) =
        addr (StridedArr.container .row_major [3] 1) idx +
          valueAt (rdArr (StridedArr.container .row_major [3] 0)) idx (fun p => p) := by
  have hc : ∀ sh off, Contig .row_major (StridedArr.container .row_major sh off) :=
    fun sh off => container_contig (Or.inl rfl) sh off
  have hone : ∀ (a c : StridedArr), c ∈ (rdArr (β := Int) a).arrs → c = a := by
    intro a c h
    simpa [rdArr, Ex.arrs] using h
  constructor
  · have harr : ∀ c ∈ (binEx (· + ·) exA (rdArr (β := Int) exB)).arrs, c = exA ∨ c = exB := by
      intro c h
      simpa [binEx, pwFn, rdArr, Ex.arrs, Args.arrss] using h
    have hfit : Fits [2, 3] (binEx (· + ·) exA (rdArr (β := Int) exB)) :=
      ⟨⟨container_wf _ _, broadcastsTo_refl _⟩, ⟨container_wf _ _, broadcastsTo_refl _⟩, trivial⟩
    obtain ⟨res, h1, h2, h3, -⟩ := C28_noalias_compound_partial (β := Int) (· + ·) plainTraits 0 exA
      (StridedArr.container .row_major [2, 3] 300) (rdArr exB) [2, 3] (container_wf _ _)
      (container_distinct (Or.inl rfl) _ _) (container_wf _ _) (by decide)
      (by show szMax ∉ [2, 3]; decide)
      (isBroadcast_of_broadcastsTo (fun s hs => by
        simp only [rdArr, Ex.toSh, ShExpr.leaves, List.mem_singleton] at hs
        subst hs; exact broadcastsTo_refl _))
      (fun _ => doesNotReadIn_of rfl ⟨container_wf _ _, broadcastsTo_refl _⟩ (fun c h => by
        rw [hone _ _ h]; exact contig_apart (hc _ _) (hc _ _) (by decide)))
      (fun _ k hk h => by
        match k, hk, h with
        | 0, _, h => decide
        | 1, _, h => decide
        | k + 2, hk, _ => simp [exA, StridedArr.container, StridedArr.mk'] at hk)
      (container_wf _ _) (container_distinct (Or.inl rfl) _ _) rfl
      (doesNotReadIn_of (⟨⟨fun vs => (vs.getD 0 default) + (vs.getD 1 default), rfl⟩, rfl, rfl,
        trivial⟩) hfit (fun c h => by
          rcases harr c h with rfl | rfl <;> exact contig_apart (hc _ _) (hc _ _) (by decide)))
      (plainTraits_ok _ _) (plainTraits_ok _ _) (by decide) (by decide) (fun p => p)
    exact ⟨res, h1, h2, h3⟩
  · obtain ⟨m', h1, h2, -⟩ := C28_view_compound_partial (β := Int) (· + ·) plainTraits plainTraits
      plainTraits 0 0 (StridedArr.container .row_major [3] 1)
      (StridedArr.container .row_major [3] 300) (rdArr (StridedArr.container .row_major [3] 0))
      (container_wf _ _) (by decide) (by show szMax ∉ [3]; decide)
      (fun s hs => by
        simp only [rdArr, Ex.toSh, ShExpr.leaves, List.mem_singleton] at hs
        subst hs; exact broadcastsTo_refl _)
      (container_wf _ _) (container_distinct (Or.inl rfl) _ _) (container_wf _ _)
      (container_distinct (Or.inl rfl) _ _) rfl
      (doesNotReadIn_of rfl ⟨container_wf _ _, broadcastsTo_refl _⟩ (fun c h => by
        rw [hone _ _ h]; exact contig_apart (hc _ _) (hc _ _) (by decide)))
      (contig_apart (hc _ _) (hc _ _) (by decide))
      (plainTraits_ok _ _) (plainTraits_ok _ _) (plainTraits_ok _ _) (by decide) (by decide)
      (by decide) (fun p => p)
    exact ⟨m', h1, h2⟩

end Xt
