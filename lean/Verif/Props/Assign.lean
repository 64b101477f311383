import Verif.Lemmas.AssignStrided
/-!
# Assignment loops (C24, C25, C26)
-/

namespace Xt
open Spec

variable {α β : Type}

/-! ### Loop sizes -/

theorem foldl_max_ge (l : List StridedArr) (f : StridedArr → Nat) (a : Nat) :
    a ≤ l.foldl (fun cut c => let var := f c; if var > cut then var else cut) a ∧
    ∀ c ∈ l, f c ≤ l.foldl (fun cut c => let var := f c; if var > cut then var else cut) a := by
  induction l generalizing a with
  | nil => simp
  | cons c l ih =>
    simp only [List.foldl_cons, List.mem_cons, forall_eq_or_imp]
    obtain ⟨h1, h2⟩ := ih (if f c > a then f c else a)
    refine ⟨?_, ?_, h2⟩ <;> split at h1 <;> simp only [*] at h1 ⊢ <;> grind

theorem foldl_min_le (l : List StridedArr) (f : StridedArr → Nat) (a : Nat) :
    l.foldl (fun cut c => let var := f c; if var < cut then var else cut) a ≤ a ∧
    ∀ c ∈ l, l.foldl (fun cut c => let var := f c; if var < cut then var else cut) a ≤ f c := by
  induction l generalizing a with
  | nil => simp
  | cons c l ih =>
    simp only [List.foldl_cons, List.mem_cons, forall_eq_or_imp]
    obtain ⟨h1, h2⟩ := ih (if f c < a then f c else a)
    refine ⟨?_, ?_, h2⟩ <;> split at h1 <;> simp only [*] at h1 ⊢ <;> grind

theorem matchLen_pos {a b : List Int} (h : 0 < matchLen a b) :
    ∃ x as bs, a = x :: as ∧ b = x :: bs := by
  cases a with
  | nil => simp [matchLen] at h
  | cons x as =>
    cases b with
    | nil => simp [matchLen] at h
    | cons y bs =>
      unfold matchLen at h
      split at h
      · rename_i e; subst e; exact ⟨_, _, _, rfl, rfl⟩
      · omega

theorem getD_of_reverse_cons {l bs : List Int} {x : Int} (h : l.reverse = x :: bs) :
    l.getD (l.length - 1) 0 = x ∧ 0 < l.length := by
  have : l = bs.reverse ++ [x] := by
    have := congrArg List.reverse h
    simpa using this
  subst this
  simp

/-- The loop sizes describe the shape, and every operand has stride 1 on the axis of the inner
loop. -/
theorem getLoopSizes_spec {d : StridedArr} {e : Ex α} (hd : d.WF) (hD : Distinct d)
    (hf : Fits d.shape e) (hp : 0 < numel d.shape) (hc : (getLoopSizes d e).can = true) :
    ∃ osh, StridedOK d e (getLoopSizes d e) osh := by
  have harr := Ex.fits_arrs e hf
  have hprod : ∀ l : List Nat, l.foldl (· * ·) 1 = numel l := fun l => by rw [foldl_mul_eq]; omega
  have hlen := hd.len
  unfold getLoopSizes at hc ⊢
  simp only [hprod] at hc ⊢
  by_cases hrow : d.strides.reverse.find? (· ≠ 0) = some 1
  · rw [if_pos hrow] at hc ⊢
    simp only [decide_eq_true_eq] at hc
    have hcut : max (csfRow d.strides e) (d.strides.length - 1) = d.strides.length - 1 ∧
        0 < d.strides.length := by
      by_contra hne
      have hle : d.shape.length ≤ max (csfRow d.strides e) (d.strides.length - 1) := by omega
      rw [List.drop_eq_nil_of_le hle] at hc
      simp at hc
    obtain ⟨hcut, hpos⟩ := hcut
    rw [hcut] at hc ⊢
    rcases List.eq_nil_or_concat d.shape with hs | ⟨osh, n, hs⟩
    · rw [hs, List.length_nil] at hlen; omega
    have hol : d.strides.length - 1 = osh.length := by rw [hlen, hs]; simp
    have htake : d.shape.take (d.strides.length - 1) = osh := by rw [hol, hs]; simp
    have hdrop : d.shape.drop (d.strides.length - 1) = [n] := by rw [hol, hs]; simp
    rw [hdrop] at hc ⊢
    rw [htake]
    simp only [numel_cons, numel_nil, Nat.mul_one] at hc ⊢
    have hcs : ∀ c ∈ e.arrs, overlapRow d.strides c.strides ≤ d.strides.length - 1 := by
      intro c hcm
      have := (foldl_max_ge e.arrs (fun c => overlapRow d.strides c.strides) 0).2 c hcm
      have h2 : csfRow d.strides e ≤ d.strides.length - 1 := by omega
      exact le_trans this h2
    have hnd : 1 < d.shape.getD osh.length 0 := by rw [hs]; simpa using hc
    have hne0 := distinct_stride_ne_zero hD hp (k := osh.length) (by rw [hs]; simp) hnd
    have hlast : d.strides.getD osh.length 0 = 1 := by
      rcases List.eq_nil_or_concat d.strides with h | ⟨ss, x, h⟩
      · rw [h] at hpos; simp at hpos
      have hx : d.strides.getD osh.length 0 = x := by rw [← hol, h]; simp
      rw [hx] at hne0 ⊢
      rw [h] at hrow
      simpa [hne0] using hrow
    refine ⟨osh, ?_, hol, rfl, (by simpa using Nat.lt_of_succ_lt hc), ?_, ?_⟩
    · simp [full, hs]
    · intro c hcm
      have hov := hcs c hcm
      unfold overlapRow at hov
      obtain ⟨x, as, bs, e1, e2⟩ := matchLen_pos (a := d.strides.reverse) (b := c.strides.reverse)
        (by omega)
      obtain ⟨g1, g2⟩ := getD_of_reverse_cons e1
      obtain ⟨g3, g4⟩ := getD_of_reverse_cons e2
      obtain ⟨hcwf, hcb⟩ := harr c hcm
      have hcl := hcwf.len
      have hcle := hcb.1
      refine ⟨?_, ?_⟩
      · simp only [inAxis, if_true]; omega
      · simp only [inAxis, if_true]
        have : osh.length - (d.shape.length - c.shape.length) = c.strides.length - 1 := by omega
        rw [this, g3, ← g1, hol, hlast]
    · refine ⟨by simp [inAxis], ?_⟩
      simp only [inAxis, if_true, Nat.sub_self, Nat.sub_zero]
      exact hlast
  · rw [if_neg hrow] at hc ⊢
    by_cases hcol : d.strides.find? (· ≠ 0) = some 1
    · rw [if_pos hcol] at hc ⊢
      simp only [decide_eq_true_eq] at hc
      have hcut : min (csfCol d.strides e) 1 = 1 := by
        by_contra hne
        have : min (csfCol d.strides e) 1 = 0 := by omega
        rw [this] at hc
        simp at hc
      rw [hcut] at hc ⊢
      cases hs : d.shape with
      | nil => rw [hs] at hc; simp at hc
      | cons n osh =>
        rw [hs] at hc
        simp only [List.take_succ_cons, List.take_zero, List.drop_succ_cons, List.drop_zero,
          numel_cons, numel_nil, Nat.mul_one] at hc ⊢
        have hcs : ∀ c ∈ e.arrs, 1 ≤ overlapCol d.strides c.strides := by
          intro c hcm
          have := (foldl_min_le e.arrs (fun c => overlapCol d.strides c.strides)
            d.strides.length).2 c hcm
          have h2 : 1 ≤ csfCol d.strides e := by omega
          exact le_trans h2 this
        have hnd : 1 < d.shape.getD 0 0 := by rw [hs]; simpa using hc
        have hne0 := distinct_stride_ne_zero hD hp (k := 0) (by rw [hs]; simp) hnd
        have hfst : d.strides.getD 0 0 = 1 := by
          cases h : d.strides with
          | nil => rw [h, hs] at hlen; simp at hlen
          | cons x ss =>
            rw [h] at hne0 hcol
            simp only [List.getD_cons_zero] at hne0 ⊢
            simpa [hne0] using hcol
        refine ⟨osh, ?_, rfl, rfl, (by simpa using Nat.lt_of_succ_lt hc), ?_, ?_⟩
        · simp [full, hs]
        · intro c hcm
          have hov := hcs c hcm
          unfold overlapCol at hov
          split at hov
          · omega
          rename_i hle
          have hle : d.strides.length = c.strides.length := by simpa using hle
          obtain ⟨x, as, bs, e1, e2⟩ := matchLen_pos (a := d.strides) (b := c.strides) (by omega)
          obtain ⟨hcwf, hcb⟩ := harr c hcm
          have hcl := hcwf.len
          refine ⟨?_, ?_⟩
          · simp only [inAxis]; omega
          · simp only [inAxis, Bool.false_eq_true, if_false, Nat.zero_sub]
            rw [e1] at hfst
            rw [e2]
            simpa using hfst
        · refine ⟨by simp [inAxis], ?_⟩
          simp only [inAxis, Bool.false_eq_true, if_false, Nat.zero_sub]
          exact hfst
    · rw [if_neg hcol] at hc
      simp at hc

theorem getLoopSizes_inner {d : StridedArr} {e : Ex α} (hc : (getLoopSizes d e).can = true) :
    1 < (getLoopSizes d e).inner := by
  unfold getLoopSizes at hc ⊢
  simp only at hc ⊢
  split at hc
  · rename_i hr
    rw [if_pos hr]
    simpa using hc
  · rename_i hr
    rw [if_neg hr]
    split at hc
    · rename_i hr'
      rw [if_pos hr']
      simpa using hc
    · simp at hc

theorem getLoopSizes_outer_zero {d : StridedArr} {e : Ex α} (h0 : numel d.shape = 0)
    (hc : (getLoopSizes d e).can = true) : (getLoopSizes d e).outer = 0 := by
  have hprod : ∀ l : List Nat, l.foldl (· * ·) 1 = numel l := fun l => by rw [foldl_mul_eq]; omega
  have hta : ∀ c, numel (d.shape.take c) * numel (d.shape.drop c) = 0 := by
    intro c; rw [← numel_append, List.take_append_drop, h0]
  have hin := getLoopSizes_inner hc
  unfold getLoopSizes at hc hin ⊢
  simp only [hprod] at hc hin ⊢
  split at hc
  · rename_i hr
    rw [if_pos hr] at hin ⊢
    simp only at hin ⊢
    rcases Nat.mul_eq_zero.1 (hta (max (csfRow d.strides e) (d.strides.length - 1))) with h | h
    · exact h
    · omega
  · rename_i hr
    rw [if_neg hr] at hin ⊢
    split at hc
    · rename_i hr'
      rw [if_pos hr'] at hin ⊢
      simp only at hin ⊢
      rcases Nat.mul_eq_zero.1 (hta (min (csfCol d.strides e) 1)) with h | h
      · omega
      · exact h
    · simp at hc

theorem zeros_of_numel_one {sh idx : List Nat} (h : numel sh = 1) (hb : InBounds sh idx) :
    idx = List.replicate sh.length 0 := by
  have hz := inBounds_zeros (inBounds_last (show 0 < numel sh by omega))
  apply rankIn_inj (L := .row_major) hb hz
  have h1 := rankIn_lt (L := .row_major) hb
  have h2 := rankIn_lt (L := .row_major) hz
  omega

theorem full_zeros (r : Bool) (n : Nat) :
    full r (List.replicate n 0) 0 = List.replicate (n + 1) 0 := by
  unfold full
  cases r
  · simp [List.replicate_succ]
  · simp [List.replicate_succ']

theorem rank_zeros (L : Layout) {sh : List Nat} (h : 0 < numel sh) :
    rankIn L sh (List.replicate sh.length 0) = 0 :=
  ((iterAt_begin (L := L) (σ := Unit) (st := ()) (R := fun _ _ => True)
    (E := fun _ => True) h trivial).inner h).2.1

theorem dot_zeros (s : List Int) (n : Nat) : dot s (toInts (List.replicate n 0)) = 0 := by
  have : toInts (List.replicate n 0) = List.replicate n (0 : Int) := by simp [toInts]
  rw [this, dot_replicate_zero]

/-- Rank of the second position along the inner axis in the other order. -/
theorem rank_other {r : Bool} {osh : List Nat} {n : Nat} (hp : 0 < numel osh) :
    rankIn (outL (!r)) (full r osh n) (full r (List.replicate osh.length 0) 1) = numel osh := by
  cases r
  · simp only [full, outL, Bool.not_false, if_true, rankIn, Bool.false_eq_true, if_false,
      rowRank_cons, Nat.one_mul]
    have := rank_zeros .row_major hp
    simp only [rankIn] at this
    omega
  · simp only [full, outL, Bool.not_true, Bool.false_eq_true, if_false, rankIn, if_true]
    rw [colRank_eq_rowRank_reverse (by simp), List.reverse_append, List.reverse_append]
    simp only [List.reverse_cons, List.reverse_nil, List.nil_append, List.cons_append,
      rowRank_cons, Nat.one_mul, List.reverse_replicate, numel_reverse]
    have := rank_zeros .row_major (sh := osh.reverse) (by rwa [numel_reverse])
    simp only [rankIn, List.length_reverse] at this
    omega

theorem seqOK_of_contig {d : StridedArr} {e : Ex α} {ls : LoopSizes} {osh : List Nat}
    (h : StridedOK d e ls osh) (hin : 1 < ls.inner) (hp : 0 < numel d.shape) {L : Layout}
    (hL : L = .row_major ∨ L = .column_major) (hC : Contig L d) :
    SeqOK d ls.isRow osh ls.inner := by
  have hpo : 0 < numel osh := by
    rw [h.shape, full_numel] at hp
    exact Nat.pos_of_mul_pos_right hp
  intro idx hb
  have hB : InBounds d.shape (full ls.isRow idx 0) := by
    rw [h.shape]; exact (full_inBounds hb.length_eq).2 ⟨hb, h.inner⟩
  by_cases hLr : L = outL ls.isRow
  · have h1 := hC _ hB
    rw [h1, hLr, h.shape, full_rank hb.length_eq, Nat.add_zero]
  · have hLo : L = outL (!ls.isRow) := by
      rcases hL with rfl | rfl <;> cases hr : ls.isRow <;> simp_all [outL]
    have hz := inBounds_zeros (inBounds_last hpo)
    have hz' : InBounds d.shape (full ls.isRow (List.replicate osh.length 0) 1) := by
      rw [h.shape]; exact (full_inBounds (by simp)).2 ⟨hz, hin⟩
    have h1 := hC _ hz'
    rw [hLo] at h1
    have h3 := rank_other (r := ls.isRow) (n := ls.inner) hpo
    rw [← h.shape] at h3
    rw [h3] at h1
    have hset := full_set ls.isRow (List.replicate osh.length 0) 0 1
    rw [List.length_replicate] at hset
    have hax : inAxis ls.isRow osh.length < osh.length + 1 := by unfold inAxis; split <;> omega
    rw [← hset, dot_set _ _ _ _ (by rw [full_length, List.length_replicate]; exact hax),
      full_zeros, dot_zeros] at h1
    have hl2 := h.leadD.2
    rw [Nat.sub_self, Nat.sub_zero] at hl2
    have hg0 : (List.replicate (osh.length + 1) 0).getD (inAxis ls.isRow osh.length) 0 = 0 := by
      simp [List.getD_eq_getElem?_getD, List.getElem?_replicate]
      split <;> rfl
    rw [hl2, hg0] at h1
    have hone : numel osh = 1 := by omega
    have := zeros_of_numel_one hone hb
    rw [this, full_zeros, dot_zeros, rank_zeros _ hpo]
    simp

/-! ### Resizing -/

mutual
theorem Ex.toSh_leaves : ∀ (e : Ex α), NoGen e → NoBcast e →
    e.toSh.leaves = e.arrs.map StridedArr.shape
  | .arr _ _, _, _ => rfl
  | .scalar _, _, _ => rfl
  | .gen _ _, h, _ => h.elim
  | .fn _ args, hg, hb => Args.toSh_leaves args hg hb
  | .bcast _ _, _, h => h.elim
theorem Args.toSh_leaves : ∀ (es : Args α), NoGenAll es → NoBcastAll es →
    ShExpr.leavesL es.toShs = es.arrss.map StridedArr.shape
  | .nil, _, _ => rfl
  | .cons e es, hg, hb => by
    simp only [Args.toShs, ShExpr.leavesL, Args.arrss, List.map_append,
      Ex.toSh_leaves e hg.1 hb.1, Args.toSh_leaves es hg.2 hb.2]
end

mutual
theorem Ex.fits_of {sh : List Nat} : ∀ (e : Ex α), OperandsOK e →
    (∀ s ∈ e.toSh.leaves, BroadcastsTo s sh) → Fits sh e
  | .arr c _, h, hs => ⟨h, hs c.shape (by simp [Ex.toSh, ShExpr.leaves])⟩
  | .scalar _, _, _ => trivial
  | .gen s _, h, hs => ⟨h, hs s (by simp [Ex.toSh, ShExpr.leaves])⟩
  | .fn _ args, h, hs => Args.fits_of args h hs
  | .bcast _ s, h, hs => ⟨hs s (by simp [Ex.toSh, ShExpr.leaves]), h⟩
theorem Args.fits_of {sh : List Nat} : ∀ (es : Args α), OperandsOKAll es →
    (∀ s ∈ ShExpr.leavesL es.toShs, BroadcastsTo s sh) → FitsAll sh es
  | .nil, _, _ => trivial
  | .cons e es, h, hs => by
    simp only [Args.toShs, ShExpr.leavesL, List.mem_append] at hs
    exact ⟨Ex.fits_of e h.1 fun s hm => hs s (Or.inl hm),
      Args.fits_of es h.2 fun s hm => hs s (Or.inr hm)⟩
end

theorem axisR_getD {s : List Nat} {k : Nat} (hk : k < s.length) :
    axisR s (s.length - 1 - k) = some (s.getD k 0) := by
  unfold axisR
  rw [List.getElem?_reverse (by omega)]
  rw [show s.length - 1 - (s.length - 1 - k) = k by omega, List.getElem?_eq_getElem hk]
  simp [List.getD_eq_getElem?_getD, hk]

theorem broadcastsTo_of_isBroadcast {S : List (List Nat)} {out s : List Nat}
    (h : IsBroadcast S out) (hs : s ∈ S) : BroadcastsTo s out := by
  have hl := h.len_le s hs
  refine ⟨hl, fun k hk => ?_⟩
  have h1 := axisR_getD hk
  have h2 := axisR_getD (s := out) (k := k + (out.length - s.length)) (by omega)
  rw [show out.length - 1 - (k + (out.length - s.length)) = s.length - 1 - k by omega] at h2
  exact h.compatible _ _ h2 s hs _ h1

/-- The destination is given the broadcast shape, under which the expression can be evaluated; the
flag says that all operands have this shape. -/
theorem resizeInfo_spec {e : Ex α} {sh : List Nat} {tr : Bool} (ho : OperandsOK e)
    (hx : e.toSh.ExtentsOk) (h : resizeInfo e = some (sh, tr)) :
    Fits sh e ∧ (tr = true → NoGen e → NoBcast e → ∀ c ∈ e.arrs, c.shape = sh) := by
  cases e with
  | fn f args =>
    have h' : (Ex.fn f args).toSh.shape = some (sh, tr) := h
    have hb := ((C04_broadcast_shape _ hx).1 sh).1 ⟨tr, h'⟩
    refine ⟨Ex.fits_of _ ho fun s hs => broadcastsTo_of_isBroadcast hb hs, ?_⟩
    intro ht hg hn c hc
    have hall := (C05_trivial_iff _ hx sh tr h').1 ht
    rw [Ex.toSh_leaves _ hg hn] at hall
    exact hall c.shape (List.mem_map_of_mem hc)
  | arr c mem =>
    simp only [resizeInfo, Ex.exShape, Option.map_some, Option.some.injEq, Prod.mk.injEq] at h
    obtain ⟨rfl, -⟩ := h
    exact ⟨⟨ho, le_refl _, fun k _ => Or.inr (by simp)⟩, fun _ _ _ c' hc => by
      simp only [Ex.arrs, List.mem_singleton] at hc; rw [hc]⟩
  | scalar v => exact ⟨trivial, fun _ _ _ c hc => by simp [Ex.arrs] at hc⟩
  | gen s g =>
    simp only [resizeInfo, Ex.exShape, Option.map_some, Option.some.injEq, Prod.mk.injEq] at h
    obtain ⟨rfl, -⟩ := h
    exact ⟨⟨ho, le_refl _, fun k _ => Or.inr (by simp)⟩, fun _ hg => hg.elim⟩
  | bcast e s =>
    simp only [resizeInfo, Ex.exShape, Option.map_some, Option.some.injEq, Prod.mk.injEq] at h
    obtain ⟨rfl, -⟩ := h
    exact ⟨⟨⟨le_refl _, fun k _ => Or.inr (by simp)⟩, ho⟩, fun _ _ hn => hn.elim⟩

/-! ### Interference -/

mutual
theorem Ex.value_congr {d : StridedArr} (hD : Distinct d) {idx : List Nat}
    (hb : InBounds d.shape idx) {m m' : Mem β}
    (hm : ∀ p, (∀ j, InBounds d.shape j → j ≠ idx → p ≠ addr d j) → m p = m' p) :
    ∀ (e : MEx β), Pointwise e → Fits d.shape e → (∀ c ∈ e.arrs, SameAs c d ∨ Apart c d) →
      valueAt e idx m = valueAt e idx m'
  | .arr c mem, hp, hf, ha => by
    have hp : mem = fun p m => m p := hp
    subst hp
    simp only [valueAt]
    apply hm
    intro j hj hne he
    have hbc := inBounds_bcIndex hf.2 hb
    rcases ha c (by simp [Ex.arrs]) with ⟨h1, h2, h3⟩ | h
    · rw [h1, bcIndex_self hb, h2, h3] at he
      exact hne (hD j idx hj hb he.symm)
    · exact h _ j hbc hj he
  | .scalar v, hp, _, _ => by
    obtain ⟨x, rfl⟩ := hp
    rfl
  | .gen s g, hp, _, _ => by
    obtain ⟨g', rfl⟩ := hp
    rfl
  | .fn f args, hp, hf, ha => by
    obtain ⟨⟨g, rfl⟩, hp⟩ := hp
    simp only [valueAt]
    rw [Args.values_congr hD hb hm args hp hf ha]
  | .bcast e s, hp, hf, ha => by
    simp only [valueAt]
    rw [Ex.value_bcIndex e idx hf.2 (by have := hf.1.1; have := hb.length_eq; omega)]
    exact Ex.value_congr hD hb hm e hp (Ex.fits_trans hf.1 e hf.2) ha
theorem Args.values_congr {d : StridedArr} (hD : Distinct d) {idx : List Nat}
    (hb : InBounds d.shape idx) {m m' : Mem β}
    (hm : ∀ p, (∀ j, InBounds d.shape j → j ≠ idx → p ≠ addr d j) → m p = m' p) :
    ∀ (es : Args (Mem β → β)), PointwiseAll es → FitsAll d.shape es →
      (∀ c ∈ es.arrss, SameAs c d ∨ Apart c d) →
      (valuesAt es idx).map (· m) = (valuesAt es idx).map (· m')
  | .nil, _, _, _ => rfl
  | .cons e es, hp, hf, ha => by
    simp only [Args.arrss, List.mem_append] at ha
    simp only [valuesAt, List.map_cons]
    rw [Ex.value_congr hD hb hm e hp.1 hf.1 fun c hc => ha c (Or.inl hc),
      Args.values_congr hD hb hm es hp.2 hf.2 fun c hc => ha c (Or.inr hc)]
end

/-- Operands that are the destination itself or share nothing with it do not interfere. -/
theorem noInterference_of {d : StridedArr} {e : MEx β} (hD : Distinct d) (hp : Pointwise e)
    (hf : Fits d.shape e) (ha : ∀ c ∈ e.arrs, SameAs c d ∨ Apart c d) : NoInterference d e :=
  fun _ hb _ _ hm => Ex.value_congr hD hb hm e hp hf ha

/-! ### C24 -/

/-- The stores of the loop selected by the dispatcher are, in some traversal order, one store per
element of the destination, at its address and with the value of the expression at its index. -/
theorem assignTrace_flatten (t : Traits) (ab : Nat) (d : StridedArr) (e : MEx β) (trivial : Bool)
    (hd : d.WF) (hD : Distinct d) (hf : Fits d.shape e) (ht : TraitsOK t d e)
    (hs : d.size < 2 ^ 64) (hab : ab ≤ d.size)
    (htr : trivial = true → NoGen e → NoBcast e → ∀ c ∈ e.arrs, c.shape = d.shape) :
    ∃ L, (assignTrace t ab d e trivial).flatten = (orderIndices L d.shape).map (wr d e) := by
  obtain ⟨k, hk, hw⟩ := ht.width
  have hnil : ∀ L, numel d.shape = 0 → orderIndices L d.shape = [] := fun L h0 =>
    List.eq_nil_of_length_eq_zero (by rw [length_orderIndices, h0])
  unfold assignTrace
  by_cases hl : linearAssign t d e trivial = true
  · rw [if_pos hl]
    have hflat : (if t.simdLinear = true then simdTrace d e t.width ab
        else linearTrace d e).flatten = (linearTrace d e).flatten := by
      split
      · rw [hw]; exact simdTrace_flatten hk hs hab
      · rfl
    rw [hflat]
    by_cases h0 : numel d.shape = 0
    · refine ⟨.row_major, ?_⟩
      rw [hnil _ h0]
      unfold linearTrace
      rw [StridedArr.size_eq, h0]; rfl
    simp only [linearAssign, Bool.and_eq_true, Bool.or_eq_true] at hl
    obtain ⟨hl1, hl2⟩ := hl
    rcases hl2 with ⟨⟨h1, h2⟩, h3⟩ | ⟨h1, h2⟩
    · obtain ⟨L, hL, hC, hg, hn, hca⟩ := ht.static h1 h2 h3
      exact ⟨L, linearTrace_flatten hC hf hg fun c hc => ⟨htr hl1 hg hn c hc, hca c hc⟩⟩
    · obtain ⟨L, hL, hC⟩ := ht.isContig1 h1
      obtain ⟨hg, hst⟩ := Ex.hasLinear_arrs e h2
      refine ⟨L, linearTrace_flatten hC hf hg fun c hc => ?_⟩
      obtain ⟨hcwf, hcb⟩ := Ex.fits_arrs e hf c hc
      have hsh := shape_of_strides hD (by omega) hd hcwf hcb (hst c hc)
      refine ⟨hsh, fun idx hb => ?_⟩
      rw [hst c hc, hsh]
      exact hC idx (hsh ▸ hb)
  · rw [if_neg hl]
    by_cases hc : (t.simdStrided && (getLoopSizes d e).can) = true
    · simp only [hc, if_true]
      rw [Bool.and_eq_true] at hc
      by_cases h0 : numel d.shape = 0
      · refine ⟨.row_major, ?_⟩
        rw [hnil _ h0]
        have hout := getLoopSizes_outer_zero h0 hc.2
        unfold stridedTrace
        rw [hout]
        rfl
      · obtain ⟨osh, hok⟩ := getLoopSizes_spec hd hD hf (by omega) hc.2
        have hin := getLoopSizes_inner hc.2
        refine ⟨_, stridedTrace_flatten hok hd hf (ht.strided hc.1) fun h1 => ?_⟩
        obtain ⟨L, hL, hC⟩ := ht.contig1 h1
        exact seqOK_of_contig hok hin (by omega) hL hC
    · simp only [hc]
      refine ⟨_, stepperTrace_flatten ?_ hd hf⟩
      unfold Layout.defaultAssignable
      split
      · assumption
      · exact Or.inl rfl

/-- Whichever loop the dispatcher selects, every element of the destination receives the value the
expression had at its index before the assignment, and no other memory is written. -/
theorem C24_assign_data (t : Traits) (ab : Nat) (d : StridedArr) (e : MEx β) (trivial : Bool)
    (hd : d.WF) (hD : Distinct d) (hf : Fits d.shape e) (ht : TraitsOK t d e)
    (hs : d.size < 2 ^ 64) (hab : ab ≤ d.size)
    (htr : trivial = true → NoGen e → NoBcast e → ∀ c ∈ e.arrs, c.shape = d.shape)
    (hN : NoInterference d e) (m : Mem β) :
    Assigned d e m (runTrace (assignTrace t ab d e trivial) m) := by
  obtain ⟨L, hL⟩ := assignTrace_flatten t ab d e trivial hd hD hf ht hs hab htr
  exact runTrace_assigned hN hD hL m

/-- Assignment to a container: after `resize`, which gives the destination the shape of the
expression, the selected loop performs the assignment. -/
theorem C24_container_assign (t : Traits) (ab : Nat) (d : StridedArr) (e : MEx β) (trivial : Bool)
    (ho : OperandsOK e) (hx : e.toSh.ExtentsOk) (hr : resizeInfo e = some (d.shape, trivial))
    (hd : d.WF) (hD : Distinct d) (ht : TraitsOK t d e) (hs : d.size < 2 ^ 64) (hab : ab ≤ d.size)
    (hN : NoInterference d e) (m : Mem β) :
    Assigned d e m (runTrace (assignTrace t ab d e trivial) m) := by
  obtain ⟨hf, htr⟩ := resizeInfo_spec ho hx hr
  exact C24_assign_data t ab d e trivial hd hD hf ht hs hab htr hN m

/-- The result does not depend on the loop: any two selections give the same memory. -/
theorem C24_loops_agree (t t' : Traits) (ab ab' : Nat) (d : StridedArr) (e : MEx β) (trivial : Bool)
    (hd : d.WF) (hD : Distinct d) (hf : Fits d.shape e) (ht : TraitsOK t d e) (ht' : TraitsOK t' d e)
    (hs : d.size < 2 ^ 64) (hab : ab ≤ d.size) (hab' : ab' ≤ d.size)
    (htr : trivial = true → NoGen e → NoBcast e → ∀ c ∈ e.arrs, c.shape = d.shape)
    (hN : NoInterference d e) (m : Mem β) :
    runTrace (assignTrace t ab d e trivial) m = runTrace (assignTrace t' ab' d e trivial) m := by
  obtain ⟨h1, h2⟩ := C24_assign_data t ab d e trivial hd hD hf ht hs hab htr hN m
  obtain ⟨h3, h4⟩ := C24_assign_data t' ab' d e trivial hd hD hf ht' hs hab' htr hN m
  funext p
  by_cases hp : ∃ idx, InBounds d.shape idx ∧ p = addr d idx
  · obtain ⟨idx, hb, rfl⟩ := hp
    rw [h1 idx hb, h3 idx hb]
  · have : ∀ idx, InBounds d.shape idx → p ≠ addr d idx := fun idx hb he => hp ⟨idx, hb, he⟩
    rw [h2 p this, h4 p this]

/-! ### Containers -/

theorem contig_distinct {L : Layout} {c : StridedArr} (hL : L = .row_major ∨ L = .column_major)
    (h : Contig L c) : Distinct c := by
  intro i j hi hj he
  unfold addr at he
  rw [h i hi, h j hj] at he
  exact rankIn_inj (L := L) hi hj (by omega)

theorem container_contig {l : Layout} (hl : l = .row_major ∨ l = .column_major) (sh : List Nat)
    (off : Int) : Contig l (StridedArr.container l sh off) := by
  intro idx h
  rcases hl with rfl | rfl
  · exact dot_computeStrides_row (Or.inl rfl) h
  · exact dot_computeStrides_col (by simp) h

theorem container_wf {l : Layout} (sh : List Nat) (off : Int) :
    (StridedArr.container l sh off).WF := by
  have hlen : (computeStrides l l sh).1.length = sh.length := by simp
  refine ⟨hlen, ?_, StridedArr.mk'_back _ _ _ hlen⟩
  intro k hk
  have hk : sh.getD k 0 = 1 := hk
  show (computeStrides l l sh).1.getD k 0 = 0
  by_cases hkl : k < sh.length
  · have hg : sh[k]? = some 1 := by
      rw [List.getD_eq_getElem?_getD, List.getElem?_eq_getElem hkl] at hk
      rw [List.getElem?_eq_getElem hkl, ← hk]; rfl
    by_cases hL : l = .row_major ∨ l = .row_major
    · rw [List.getD_eq_getElem?_getD, C02_row_stride hL sh k 1 hg]; rfl
    · rw [List.getD_eq_getElem?_getD, C02_column_stride hL sh k 1 hg]; rfl
  · simp [List.getD_eq_getElem?_getD, hkl] at hk

theorem container_distinct {l : Layout} (hl : l = .row_major ∨ l = .column_major) (sh : List Nat)
    (off : Int) : Distinct (StridedArr.container l sh off) :=
  contig_distinct hl (container_contig hl sh off)

theorem contig_addr_range {L : Layout} {c : StridedArr} (h : Contig L c) {idx : List Nat}
    (hb : InBounds c.shape idx) : c.off ≤ addr c idx ∧ addr c idx < c.off + numel c.shape := by
  unfold addr
  rw [h idx hb]
  have := rankIn_lt (L := L) hb
  omega

/-- Containers in disjoint parts of the memory share nothing. -/
theorem contig_apart {L L' : Layout} {c d : StridedArr} (h : Contig L c) (h' : Contig L' d)
    (hs : c.off + numel c.shape ≤ d.off ∨ d.off + numel d.shape ≤ c.off) : Apart c d := by
  intro i j hi hj he
  have h1 := contig_addr_range h hi
  have h2 := contig_addr_range h' hj
  omega

/-- `a`, a 2×3 row major array at address 0. -/
def exA : StridedArr := .container .row_major [2, 3] 0
/-- `b`, a 2×3 row major array at address 100. -/
def exB : StridedArr := .container .row_major [2, 3] 100
/-- `v`, a vector of three elements at 200. -/
def exV : StridedArr := .container .row_major [3] 200

/-- `b + v`. -/
def exBV : MEx Int := pwFn List.sum (.cons (rdArr exB) (.cons (rdArr exV) .nil))

/-- `a + b`. -/
def exAB : MEx Int := pwFn List.sum (.cons (rdArr exA) (.cons (rdArr exB) .nil))

/-- Row major types, packs of two elements. -/
def exTraits : Traits := ⟨true, true, true, true, true, true, .row_major, 2⟩

theorem exTraits_ok (e : MEx Int) (hg : NoGen e) (hn : NoBcast e)
    (ha : ∀ c ∈ e.arrs, Contig .row_major c) : TraitsOK exTraits exA e where
  contig1 _ := ⟨_, Or.inl rfl, container_contig (Or.inl rfl) _ _⟩
  isContig1 _ := ⟨_, Or.inl rfl, container_contig (Or.inl rfl) _ _⟩
  static _ _ _ := ⟨_, Or.inl rfl, container_contig (Or.inl rfl) _ _, hg, hn, ha⟩
  strided _ := hg
  width := ⟨1, by omega, rfl⟩

theorem exBV_noInterference : NoInterference exA exBV := by
  have hc : ∀ sh off, Contig .row_major (StridedArr.container .row_major sh off) :=
    fun sh off => container_contig (Or.inl rfl) sh off
  refine noInterference_of (container_distinct (Or.inl rfl) _ _) ?_ ?_ ?_
  · exact ⟨⟨List.sum, rfl⟩, rfl, rfl, trivial⟩
  · exact ⟨⟨container_wf _ _, by decide⟩, ⟨container_wf _ _, by decide⟩, trivial⟩
  · intro c h
    simp only [exBV, pwFn, rdArr, Ex.arrs, Args.arrss, List.mem_append, List.mem_singleton,
      List.not_mem_nil, or_false] at h
    rcases h with rfl | rfl
    · exact Or.inr (contig_apart (hc _ _) (hc _ _) (by decide))
    · exact Or.inr (contig_apart (hc _ _) (hc _ _) (by decide))

/-- `a = b + v`: the broadcast makes the flat loop inapplicable; the strided loop runs with inner
size 3 and packs of 2, and gives the sums. -/
example : resizeInfo exBV = some (exA.shape, false) ∧ OperandsOK exBV ∧ exBV.toSh.ExtentsOk ∧
    exA.WF ∧ Distinct exA ∧ TraitsOK exTraits exA exBV ∧ NoInterference exA exBV ∧
    getLoopSizes exA exBV = ⟨true, true, 3, 2, 1⟩ ∧
    (List.range 6).map (fun (i : Nat) =>
      runTrace (assignTrace exTraits 0 exA exBV false) (fun p => p * p) (i : Int)) =
      [10000 + 40000, 10201 + 40401, 10404 + 40804, 10609 + 40000, 10816 + 40401, 11025 + 40804] := by
  refine ⟨by decide, ⟨container_wf _ _, container_wf _ _, trivial⟩, ?_, container_wf _ _,
    container_distinct (Or.inl rfl) _ _, exTraits_ok _ ⟨trivial, trivial, trivial⟩
      ⟨trivial, trivial, trivial⟩ ?_, exBV_noInterference, by decide, by decide⟩
  · intro s hs
    simp only [exBV, pwFn, rdArr, Ex.toSh, Args.toShs, ShExpr.leaves, ShExpr.leavesL,
      List.mem_append, List.mem_singleton, List.not_mem_nil, or_false] at hs
    rcases hs with rfl | rfl <;> decide
  · intro c h
    simp only [exBV, pwFn, rdArr, Ex.arrs, Args.arrss, List.mem_append, List.mem_singleton,
      List.not_mem_nil, or_false] at h
    rcases h with rfl | rfl <;> exact container_contig (Or.inl rfl) _ _

/-- `a = a + b` with the packed flat loop and one scalar element before the aligned part. -/
example : NoInterference exA exAB ∧ linearAssign exTraits exA exAB true = true ∧
    (assignTrace exTraits 1 exA exAB true).map List.length = [1, 2, 2, 1] ∧
    (List.range 6).map (fun (i : Nat) =>
      runTrace (assignTrace exTraits 1 exA exAB true) (fun p => p) (i : Int)) =
      [100, 102, 104, 106, 108, 110] := by
  have hc : ∀ sh off, Contig .row_major (StridedArr.container .row_major sh off) :=
    fun sh off => container_contig (Or.inl rfl) sh off
  refine ⟨noInterference_of (container_distinct (Or.inl rfl) _ _) ⟨⟨List.sum, rfl⟩, rfl, rfl, trivial⟩
    ⟨⟨container_wf _ _, by decide⟩, ⟨container_wf _ _, by decide⟩, trivial⟩ ?_, by decide, by decide,
    by decide⟩
  intro c h
  simp only [exAB, pwFn, rdArr, Ex.arrs, Args.arrss, List.mem_append, List.mem_singleton,
    List.not_mem_nil, or_false] at h
  rcases h with rfl | rfl
  · exact Or.inl ⟨rfl, rfl, rfl⟩
  · exact Or.inr (contig_apart (hc _ _) (hc _ _) (by decide))

/-! ### C25 -/

theorem packedLoop_eq {d : StridedArr} {e : MEx β} {W last : Nat} (hW : 0 < W) :
    ∀ (n i q : Nat), last = i + q * W → q ≤ n →
      packedLoop d e W last n i = (List.range q).map fun (b : Nat) => (List.range W).map
        fun (j : Nat) => ((d.off + (i + b * W + j : Nat) : Int), e.dataElement (i + b * W + j)) := by
  intro n
  induction n with
  | zero =>
    intro i q _ hq
    have : q = 0 := by omega
    subst this
    simp [packedLoop]
  | succ n ih =>
    intro i q hl hq
    unfold packedLoop
    cases q with
    | zero => rw [if_neg (by omega)]; simp
    | succ q =>
      have hlt : i < last := by
        rw [hl]; have : 0 < (q + 1) * W := Nat.mul_pos (by omega) hW
        omega
      rw [if_pos hlt, ih (i + W) q (by rw [hl]; ring) (by omega), List.range_succ_eq_map,
        List.map_cons, List.map_map]
      congr 1
      · simp
      · apply List.map_congr_left
        intro b _
        apply List.map_congr_left
        intro j _
        simp only [Function.comp, Nat.succ_eq_add_one]
        rw [show i + W + b * W + j = i + (b + 1) * W + j by ring]

/-- Shape of the packed loop: `alignBegin` scalar stores at `0, 1, ...`, then `q` full packs of `W`
consecutive positions starting at `alignBegin`, then fewer than `W` scalar stores up to the end. -/
theorem C25_batches (d : StridedArr) (e : MEx β) (k ab : Nat) (hk : k ≤ 64) (hs : d.size < 2 ^ 64)
    (hab : ab ≤ d.size) :
    ∃ q r, d.size = ab + q * 2 ^ k + r ∧ r < 2 ^ k ∧
      (simdTrace d e (2 ^ k) ab).map (fun b => b.map fun w => w.1) =
        ((List.range ab).map fun (i : Nat) => [d.off + (i : Int)]) ++
        ((List.range q).map fun (b : Nat) => (List.range (2 ^ k)).map
          fun (j : Nat) => d.off + ((ab + b * 2 ^ k + j : Nat) : Int)) ++
        ((List.range r).map fun (i : Nat) => [d.off + ((ab + q * 2 ^ k + i : Nat) : Int)]) := by
  have hW : 0 < 2 ^ k := by positivity
  have hae := alignEnd_eq k ab d.size hk hs
  have hqn : (d.size - ab) / 2 ^ k ≤ d.size := (Nat.div_le_self _ _).trans (Nat.sub_le _ _)
  have hdm := Nat.div_add_mod (d.size - ab) (2 ^ k)
  have hml := Nat.mod_lt (d.size - ab) hW
  rw [Nat.mul_comm] at hdm
  refine ⟨(d.size - ab) / 2 ^ k, (d.size - ab) % 2 ^ k, by omega, hml, ?_⟩
  unfold simdTrace
  simp only
  rw [packedLoop_eq hW d.size ab _ hae hqn]
  have hr : d.size - alignEnd ab d.size (2 ^ k) = (d.size - ab) % 2 ^ k := by rw [hae]; omega
  simp only [List.map_append, List.map_map, hr, Function.comp_def, List.map_cons, List.map_nil]
  rw [hae]

/-- Every position of the destination is stored exactly once and nothing else is. -/
theorem C25_each_once (d : StridedArr) (e : MEx β) (k ab : Nat) (hk : k ≤ 64)
    (hs : d.size < 2 ^ 64) (hab : ab ≤ d.size) :
    (simdTrace d e (2 ^ k) ab).flatten.map (fun w => w.1) =
      (List.range d.size).map fun (i : Nat) => d.off + (i : Int) := by
  rw [simdTrace_flatten hk hs hab]
  unfold linearTrace
  rw [flatten_map_singleton (f := fun (i : Nat) => ((d.off + i : Int), e.dataElement i)),
    List.map_map]
  rfl

/-- The packed loop has the effect of the scalar flat loop: if the value at a position reads no
other position of the destination, packs may be loaded and stored as a whole. -/
theorem C25_same_as_scalar (d : StridedArr) (e : MEx β) (k ab : Nat) (hk : k ≤ 64)
    (hs : d.size < 2 ^ 64) (hab : ab ≤ d.size)
    (hN : ∀ i, i < d.size → ∀ m m' : Mem β,
      (∀ p, (∀ j, j < d.size → j ≠ i → p ≠ d.off + j) → m p = m' p) →
      e.dataElement i m = e.dataElement i m') (m : Mem β) :
    runTrace (simdTrace d e (2 ^ k) ab) m = runTrace (linearTrace d e) m := by
  have hflat := simdTrace_flatten (d := d) (e := e) hk hs hab
  have hlin : (linearTrace d e).flatten =
      (List.range d.size).map fun (i : Nat) => ((d.off + i : Int), e.dataElement i) := by
    unfold linearTrace
    rw [flatten_map_singleton (f := fun (i : Nat) => ((d.off + i : Int), e.dataElement i))]
  have hI : Indep (linearTrace d e).flatten := by
    rw [hlin]
    intro w hw m m' h
    obtain ⟨i, hi, rfl⟩ := List.mem_map.1 hw
    apply hN i (List.mem_range.1 hi)
    intro p hp
    apply h
    intro u hu hne
    obtain ⟨j, hj, rfl⟩ := List.mem_map.1 hu
    exact hp j (List.mem_range.1 hj) fun he => hne (by rw [he])
  have hn : ((linearTrace d e).flatten.map Prod.fst).Nodup := by
    rw [hlin, List.map_map]
    exact List.nodup_range.map_on fun i _ j _ h => by simp at h; omega
  have h1 := runTrace_after hI m (simdTrace d e (2 ^ k) ab) []
    (by intro w hw; rw [List.nil_append, hflat] at hw; exact hw) (by rwa [List.nil_append, hflat])
  have h2 := runTrace_after hI m (linearTrace d e) [] (by intro w hw; exact hw)
    (by rwa [List.nil_append])
  rw [after_nil] at h1 h2
  rw [h1, h2, List.nil_append, List.nil_append, hflat]

/-- 11 elements, 3 before the aligned part, packs of 4: three single stores, two packs, no rest;
for 4 before the aligned part: one pack and three single stores. -/
example : (simdTrace (.container .row_major [11] 7) (rdArr (β := Int) exV) (2 ^ 2) 3).map
      (fun b => b.map fun w => w.1) =
      [[7], [8], [9], [10, 11, 12, 13], [14, 15, 16, 17]] ∧
    (simdTrace (.container .row_major [11] 7) (rdArr (β := Int) exV) (2 ^ 2) 4).map
      (fun b => b.map fun w => w.1) =
      [[7], [8], [9], [10], [11, 12, 13, 14], [15], [16], [17]] := by decide

/-! ### C26 -/

/-- Traces of workers that take consecutive ranges of the outer loop, of the given lengths. -/
def workers (d : StridedArr) (e : MEx β) (contig : Bool) (ls : LoopSizes) (W : Nat) :
    Nat → List Nat → List (List (Write β))
  | _, [] => []
  | first, n :: ns =>
    (workerTrace d e contig ls W first n).flatten :: workers d e contig ls W (first + n) ns

theorem workers_flatten {d : StridedArr} {e : MEx β} {ls : LoopSizes} {osh : List Nat}
    {contig : Bool} {W : Nat} (h : StridedOK d e ls osh) (hd : d.WF) (hf : Fits d.shape e)
    (hg : NoGen e) (hc : contig = true → SeqOK d ls.isRow osh ls.inner) :
    ∀ (ns : List Nat) (first : Nat), first + ns.sum ≤ numel osh →
      (workers d e contig ls W first ns).flatten = chunkWrites d e ls osh first ns.sum
  | [], first, _ => by simp [workers, chunkWrites]
  | n :: ns, first, hle => by
    rw [List.sum_cons] at hle ⊢
    rw [workers, List.flatten_cons, workers_flatten h hd hf hg hc ns _ (by omega),
      workerTrace_flatten h hd hf hg hc (by omega)]
    unfold chunkWrites
    rw [← List.flatMap_append, ← List.range'_append_1]

/-- Any number of workers taking consecutive ranges of the outer loop, whose loads and stores are
interleaved in any order that respects each element's own load-before-store, perform the
assignment. -/
theorem C26_strided_parallel (d : StridedArr) (e : MEx β) (contig : Bool) (W : Nat)
    (hd : d.WF) (hD : Distinct d) (hf : Fits d.shape e) (hg : NoGen e)
    (hcan : (getLoopSizes d e).can = true)
    (hc : contig = true → ∃ L, (L = .row_major ∨ L = .column_major) ∧ Contig L d)
    (ns : List Nat) (hns : ns.sum = (getLoopSizes d e).outer)
    (hN : NoInterference d e) (m : Mem β) (evs : List Ev)
    (hs : Schedule (workers d e contig (getLoopSizes d e) W 0 ns).flatten.length evs) :
    Assigned d e m
      (evs.foldl (exec (workers d e contig (getLoopSizes d e) W 0 ns).flatten)
        (m, fun _ => none)).1 := by
  by_cases h0 : numel d.shape = 0
  · have ho := getLoopSizes_outer_zero h0 hcan
    rw [ho] at hns
    have hflat : ∀ (ns : List Nat) (first : Nat), ns.sum = 0 →
        (workers d e contig (getLoopSizes d e) W first ns).flatten = [] := by
      intro ns
      induction ns with
      | nil => intros; rfl
      | cons n ns ih =>
        intro first h
        rw [List.sum_cons] at h
        have h1 : n = 0 := by omega
        subst h1
        rw [workers, List.flatten_cons, ih _ (by omega)]
        simp [workerTrace, stridedLoop]
    have hperm : (workers d e contig (getLoopSizes d e) W 0 ns).flatten.Perm
        ((orderIndices .row_major d.shape).map (wr d e)) := by
      rw [hflat ns 0 hns, List.eq_nil_of_length_eq_zero (by rw [length_orderIndices, h0] :
        (orderIndices .row_major d.shape).length = 0)]
      exact List.Perm.refl _
    exact exec_assigned hN hD hperm hs m
  · obtain ⟨osh, hok⟩ := getLoopSizes_spec hd hD hf (by omega) hcan
    have hin := getLoopSizes_inner hcan
    have hseq : contig = true → SeqOK d (getLoopSizes d e).isRow osh (getLoopSizes d e).inner := by
      intro h1
      obtain ⟨L, hL, hC⟩ := hc h1
      exact seqOK_of_contig hok hin (by omega) hL hC
    have hw := workers_flatten (W := W) hok hd hf hg hseq ns 0 (by rw [hns, hok.outer]; omega)
    rw [hns, hok.outer, chunkWrites_all hok] at hw
    exact exec_assigned (L := outL (getLoopSizes d e).isRow) hN hD (by rw [hw]) hs m

/-- The same for the flat loop, whose iterations may be distributed over workers arbitrarily. -/
theorem C26_linear_parallel (d : StridedArr) (e : MEx β) {L : Layout} (hD : Distinct d)
    (hC : Contig L d) (hf : Fits d.shape e) (hg : NoGen e)
    (ha : ∀ c ∈ e.arrs, c.shape = d.shape ∧ Contig L c) (hN : NoInterference d e) (m : Mem β)
    (ws : List (Write β)) (hp : ws.Perm (linearTrace d e).flatten) (evs : List Ev)
    (hs : Schedule ws.length evs) :
    Assigned d e m (evs.foldl (exec ws) (m, fun _ => none)).1 :=
  exec_assigned (L := L) hN hD (by rw [← linearTrace_flatten hC hf hg ha]; exact hp) hs m

/-- The parallel result is the result of the sequential strided loop. -/
theorem C26_equals_sequential (d : StridedArr) (e : MEx β) (contig : Bool) (W : Nat)
    (hd : d.WF) (hD : Distinct d) (hf : Fits d.shape e) (hg : NoGen e)
    (hcan : (getLoopSizes d e).can = true) (hp : 0 < numel d.shape)
    (hc : contig = true → ∃ L, (L = .row_major ∨ L = .column_major) ∧ Contig L d)
    (ns : List Nat) (hns : ns.sum = (getLoopSizes d e).outer)
    (hN : NoInterference d e) (m : Mem β) (evs : List Ev)
    (hs : Schedule (workers d e contig (getLoopSizes d e) W 0 ns).flatten.length evs) :
    (evs.foldl (exec (workers d e contig (getLoopSizes d e) W 0 ns).flatten)
        (m, fun _ => none)).1 =
      runTrace (stridedTrace d e contig (getLoopSizes d e) W) m := by
  obtain ⟨h1, h2⟩ := C26_strided_parallel d e contig W hd hD hf hg hcan hc ns hns hN m evs hs
  obtain ⟨osh, hok⟩ := getLoopSizes_spec hd hD hf hp hcan
  have hin := getLoopSizes_inner hcan
  have hseq : contig = true → SeqOK d (getLoopSizes d e).isRow osh (getLoopSizes d e).inner := by
    intro h1
    obtain ⟨L, hL, hC⟩ := hc h1
    exact seqOK_of_contig hok hin hp hL hC
  obtain ⟨h3, h4⟩ := runTrace_assigned hN hD (stridedTrace_flatten (W := W) hok hd hf hg hseq) m
  funext p
  by_cases hp : ∃ idx, InBounds d.shape idx ∧ p = addr d idx
  · obtain ⟨idx, hb, rfl⟩ := hp
    rw [h1 idx hb, h3 idx hb]
  · have : ∀ idx, InBounds d.shape idx → p ≠ addr d idx := fun idx hb he => hp ⟨idx, hb, he⟩
    rw [h2 p this, h4 p this]

/-- `a = b + v` by two workers, one row each, the second one finishing first. -/
example :
    let ws := (workers exA exBV true (getLoopSizes exA exBV) 2 0 [1, 1]).flatten
    ws.map (fun w => w.1) = [0, 1, 2, 3, 4, 5] ∧
    (((List.range 6).reverse.flatMap fun i => [Ev.load i, Ev.store i]).foldl (exec ws)
      ((fun p => p), fun _ => none)).1 4 = 104 + 201 := by decide

end Xt
