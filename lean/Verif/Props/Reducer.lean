import Mathlib.Data.List.Perm.Subperm
import Verif.Lemmas.Reducer
/-!
# Lazy reductions (C30)
-/

namespace Xt
open Spec

variable {α β : Type}

/-- `merge` continues a fold of `reduce`, and `init` is neutral for it. -/
structure Spec.ReducerLaws (F : RedFns α β) : Prop where
  assoc : ∀ x y v, F.merge x (F.reduce y v) = F.reduce (F.merge x y) v
  unit : ∀ x, F.merge x F.init = x

/-- The value the specification asks for: fold over the contributing elements in index order. -/
def Spec.redValue (F : RedFns α β) (start : β) (val : List Nat → α) (sh axes : List Nat) (keep : Bool)
    (ridx : List Nat) : β :=
  ((redGroup sh axes keep ridx).map val).foldl F.reduce start

/-! ### Checks, shape -/

theorem isSortedLess_iff : ∀ (l : List Nat), isSortedLess l = true ↔ l.Pairwise (· ≤ ·)
  | [] => by simp [isSortedLess]
  | [a] => by simp [isSortedLess]
  | a :: b :: l => by
    have ih := isSortedLess_iff (b :: l)
    simp only [isSortedLess, Bool.and_eq_true, ih, List.pairwise_cons (a := a)]
    constructor
    · rintro ⟨h1, h2⟩
      have h1 : a ≤ b := by simpa using h1
      refine ⟨fun c hc => ?_, h2⟩
      rcases List.mem_cons.1 hc with h | h
      · omega
      · have := (List.pairwise_cons.1 h2).1 c h; omega
    · rintro ⟨h1, h2⟩
      have := h1 b (by simp)
      exact ⟨by simpa using this, h2⟩

theorem sortedNodup_iff : ∀ (l : List Nat), isSortedLess l = true ∧ adjacentEq l = false ↔
    l.Pairwise (· < ·)
  | [] => by simp [isSortedLess, adjacentEq]
  | [a] => by simp [isSortedLess, adjacentEq]
  | a :: b :: l => by
    have ih := sortedNodup_iff (b :: l)
    simp only [isSortedLess, adjacentEq, Bool.and_eq_true, Bool.or_eq_false_iff,
      List.pairwise_cons (a := a), ← ih]
    constructor
    · rintro ⟨⟨h1, h2⟩, h3, h4⟩
      have h5 := ih.1 ⟨h2, h4⟩
      have h1 : a ≤ b := by simpa using h1
      have h3 : a ≠ b := by simpa using h3
      refine ⟨fun c hc => ?_, h2, h4⟩
      rcases List.mem_cons.1 hc with h | h
      · omega
      · have := (List.pairwise_cons.1 h5).1 c h; omega
    · rintro ⟨h1, h2, h4⟩
      have := h1 b (by simp)
      exact ⟨⟨by simp; omega, h2⟩, by simp; omega, h4⟩

theorem lt_iff_last {dim : Nat} : ∀ (l : List Nat), l.Pairwise (· < ·) → l ≠ [] →
    ((∀ a ∈ l, a < dim) ↔ l.getLastD 0 < dim)
  | [], _, h => absurd rfl h
  | [a], _, _ => by simp
  | a :: b :: l, hs, _ => by
    have hs' := List.pairwise_cons.1 hs
    have ih := lt_iff_last (dim := dim) (b :: l) hs'.2 (by simp)
    have e : (a :: b :: l).getLastD 0 = (b :: l).getLastD 0 := by
      simp [List.getLastD_eq_getLast?]
    rw [e, ← ih]
    constructor
    · intro h c hc; exact h c (by simp only [List.mem_cons] at hc ⊢; exact Or.inr hc)
    · intro h c hc
      rcases List.mem_cons.1 hc with h1 | h1
      · have := h b (by simp); have := hs'.1 b (by simp); omega
      · exact h c h1

theorem axesOk_iff {dim : Nat} (hd : dim ≠ 0) (axes : List Nat) :
    axesOk dim axes = true ↔ GoodAxes dim axes := by
  unfold axesOk GoodAxes
  rw [if_neg hd, Bool.and_eq_true, Bool.and_eq_true, Bool.not_eq_true', sortedNodup_iff,
    and_congr_right_iff]
  intro hs
  by_cases h : axes = []
  · subst h; simp
  · rw [lt_iff_last axes hs h]
    have : axes.length ≠ 0 := by simpa using h
    simp only [this, ne_eq, not_false_eq_true, decide_true, Bool.true_and, Bool.not_eq_true',
      decide_eq_false_iff_not]
    omega

/-- A reduction is constructed exactly when the axes are strictly increasing and exist; otherwise
an exception is thrown.  (For a zero-dimensional expression with `keep_dims` see
`C30_keep_dims_zero_dim_accepts_axis`.) -/
theorem C30_bad_axes_throw_partial (r : Reducer α β) (h : r.sh ≠ [] ∨ r.keep = false) :
    r.construct = if GoodAxes r.sh.length r.axes then some r else none := by
  unfold Reducer.construct
  by_cases hd : r.sh = []
  · have hk : r.keep = false := h.resolve_left (fun x => x hd)
    rw [hd, hk]
    by_cases ha : r.axes = []
    · rw [ha]; simp [axesOk, isSortedLess, adjacentEq, GoodAxes]
    · have h1 : 0 < r.axes.length := List.length_pos_iff.2 ha
      have h2 : ¬ GoodAxes 0 r.axes := by
        rintro ⟨_, h⟩
        obtain ⟨a, ha⟩ := List.exists_mem_of_ne_nil _ ha
        exact absurd (h a ha) (by omega)
      simp [h1, h2]
  · have hd : r.sh.length ≠ 0 := by simpa using hd
    by_cases hg : GoodAxes r.sh.length r.axes
    · rw [if_pos hg, if_pos ((axesOk_iff hd _).2 hg)]
      have : r.axes.length ≤ r.sh.length := by
        have hn : r.axes.Nodup := hg.1.imp (fun h => Nat.ne_of_lt h)
        have hsub : r.axes ⊆ List.range r.sh.length := fun a ha => List.mem_range.2 (hg.2 a ha)
        simpa using (List.subperm_of_subset hn hsub).length_le
      rw [if_neg (by simp; omega)]
    · rw [if_neg hg]
      have : axesOk r.sh.length r.axes ≠ true := fun e => hg ((axesOk_iff hd _).1 e)
      simp [this]

/-- `sum(x, {5}, keep_dims)` of a zero-dimensional `x` is accepted: `dimension() - 1` wraps. -/
theorem C30_keep_dims_zero_dim_accepts_axis :
    ∃ r : Reducer Int Int, r.keep = true ∧ ¬ GoodAxes r.sh.length r.axes ∧ r.construct.isSome :=
  ⟨{ e := .scalar 1, sh := [], fns := ⟨(· + ·), 0, (· + ·)⟩, axes := [5], keep := true,
     initial := none }, rfl, by decide, by decide⟩

theorem redPositions_of_lt {axes : List Nat} {keep : Bool} : ∀ (n p : Nat), (∀ a ∈ axes, a < p) →
    redPositions axes keep p n = List.range' p n
  | 0, _, _ => rfl
  | n + 1, p, h => by
    unfold redPositions
    rw [if_neg (fun e => by have := h p e.1; omega), List.range'_succ,
      redPositions_of_lt n (p + 1) fun a ha => by have := h a ha; omega]

theorem redPositions_keep {axes : List Nat} : ∀ (n p : Nat),
    redPositions axes true p n = List.range' p n
  | 0, _ => rfl
  | n + 1, p => by
    unfold redPositions
    rw [if_neg (by simp), List.range'_succ, redPositions_keep n (p + 1)]

theorem dropAxes_of_lt {axes : List Nat} {f : Option Nat} : ∀ (l : List Nat) (p : Nat),
    (∀ a ∈ axes, a < p) → dropAxes axes f p l = l
  | [], _, _ => rfl
  | i :: is, p, h => by
    unfold dropAxes
    rw [if_neg (fun e => by have := h p e; omega),
      dropAxes_of_lt is (p + 1) fun a ha => by have := h a ha; omega]

theorem shapeMappingLoop_eq {axes : List Nat} : ∀ (sh : List Nat) (i : Nat) (pre xs : List Nat),
    axes = pre ++ xs → axes.Pairwise (· < ·) → (∀ a ∈ pre, a < i) → (∀ a ∈ xs, i ≤ a) →
    shapeMappingLoop i sh xs = (dropAxes axes none i sh, redPositions axes false i sh.length)
  | [], i, pre, xs, _, _, _, _ => by cases xs <;> rfl
  | n :: sh, i, pre, [], he, hs, hp, hx => by
    have : ∀ a ∈ axes, a < i := by rw [he, List.append_nil]; exact hp
    rw [dropAxes_of_lt _ _ this, redPositions_of_lt _ _ this]
    rfl
  | n :: sh, i, pre, x :: xs, he, hs, hp, hx => by
    have hsx : (x :: xs).Pairwise (· < ·) := by rw [he] at hs; exact (List.pairwise_append.1 hs).2.1
    have hsc := List.pairwise_cons.1 hsx
    unfold shapeMappingLoop
    by_cases h : i = x
    · rw [if_neg (by simp [h])]
      have hm : i ∈ axes := by rw [he, h]; simp
      rw [shapeMappingLoop_eq sh (i + 1) (pre ++ [x]) xs (by rw [he]; simp) hs
        (fun a ha => by
          rcases List.mem_append.1 ha with h' | h'
          · have := hp a h'; omega
          · have : a = x := by simpa using h'
            omega)
        (fun a ha => by have := hsc.1 a ha; omega)]
      simp [dropAxes, redPositions, hm]
    · rw [if_pos h]
      have hm : i ∉ axes := by
        rw [he, List.mem_append, List.mem_cons]
        rintro (h' | h' | h')
        · have := hp i h'; omega
        · exact h h'
        · have h1 := hsc.1 i h'; have h2 := hx x (by simp); omega
      rw [shapeMappingLoop_eq sh (i + 1) pre (x :: xs) he hs (fun a ha => by have := hp a ha; omega)
        (fun a ha => by
          have h2 := hx x (by simp)
          rcases List.mem_cons.1 ha with h' | h'
          · omega
          · have := hsc.1 a h'; omega)]
      simp [dropAxes, redPositions, hm]

theorem dropAxes_keep {axes : List Nat} {v : Nat} : ∀ (l : List Nat) (p : Nat),
    dropAxes axes (some v) p l =
      (List.range l.length).map fun i => if axes.contains (i + p) then v else l.getD i 0
  | [], _ => rfl
  | i :: is, p => by
    unfold dropAxes
    rw [List.length_cons, List.range_succ_eq_map, List.map_cons, List.map_map,
      dropAxes_keep is (p + 1)]
    have e : (fun i_1 => if axes.contains (i_1 + (p + 1)) = true then v else is.getD i_1 0) =
        (fun i_1 => if axes.contains (i_1 + p) = true then v else (i :: is).getD i_1 0) ∘ Nat.succ := by
      funext k
      simp [Nat.add_assoc, Nat.add_comm 1 p]
    rw [e]
    by_cases h : p ∈ axes <;> simp [h]

theorem redShapeMapping_eq {sh axes : List Nat} {keep : Bool} (hg : GoodAxes sh.length axes) :
    redShapeMapping sh axes keep = (redShape sh axes keep, redPositions axes keep 0 sh.length) := by
  unfold redShapeMapping redShape
  cases keep with
  | true =>
    simp only [if_true, dropAxes_keep, redPositions_keep, Nat.add_zero, List.range_eq_range']
  | false =>
    simp only [Bool.false_eq_true, if_false]
    exact shapeMappingLoop_eq sh 0 [] axes rfl hg.1 (by simp) (by simp)

/-- The shape of a reduction is the shape of the input without the axes, or with 1 on the axes. -/
theorem C30_shape (r : Reducer α β) (hg : GoodAxes r.sh.length r.axes) :
    r.shape = redShape r.sh r.axes r.keep := by
  rw [Reducer.shape, redShapeMapping_eq hg]

theorem Reducer.mapping_eq (r : Reducer α β) (hg : GoodAxes r.sh.length r.axes) :
    r.mapping = redPositions r.axes r.keep 0 r.sh.length := by
  rw [Reducer.mapping, redShapeMapping_eq hg]

theorem length_redShape (sh axes : List Nat) (keep : Bool) :
    (redShape sh axes keep).length = (redPositions axes keep 0 sh.length).length :=
  length_dropAxes (by cases keep <;> rfl) sh 0

/-! ### Values -/

theorem merge_foldl {F : RedFns α β} (h : ReducerLaws F) (l : List α) : ∀ (x y : β),
    F.merge x (l.foldl F.reduce y) = l.foldl F.reduce (F.merge x y) := by
  induction l with
  | nil => intro x y; rfl
  | cons v l ih => intro x y; rw [List.foldl_cons, ih, h.assoc]; rfl

theorem range_pos {n : Nat} (h : 0 < n) : List.range n = 0 :: List.range' 1 (n - 1) := by
  rw [List.range_eq_range']
  obtain ⟨m, rfl⟩ : ∃ m, n = m + 1 := ⟨n - 1, by omega⟩
  rw [List.range'_succ]; simp

theorem nestFold_eq {F : RedFns α β} (h : ReducerLaws F) (val : List Nat → α) (sh : List Nat) :
    ∀ (as base : List Nat), as ≠ [] → (∀ a ∈ as, 0 < sh.getD a 0) →
      nestFold F val sh as base = ((nestVisit sh as base).map val).foldl F.reduce F.init
  | [], _, hne, _ => absurd rfl hne
  | [a], base, _, _ => by
    simp only [nestFold, nestVisit]
    rw [show (fun i => [base.set a i]) = fun i => pure (base.set a i) from rfl]
    simp only [List.pure_def]
    rw [← List.map_eq_flatMap, List.map_map, List.foldl_map]
    rfl
  | a :: b :: as, base, _, hpos => by
    have ih := fun i => nestFold_eq h val sh (b :: as) (base.set a i) (by simp)
      (fun c hc => hpos c (by simp only [List.mem_cons] at hc ⊢; exact Or.inr hc))
    simp only [nestFold, ih]
    have e : nestVisit sh (a :: b :: as) base =
        (List.range (sh.getD a 0)).flatMap fun i => nestVisit sh (b :: as) (base.set a i) := rfl
    rw [e, range_pos (hpos a (by simp)), List.flatMap_cons, List.map_append, List.foldl_append]
    generalize ((nestVisit sh (b :: as) (base.set a 0)).map val).foldl F.reduce F.init = x
    generalize List.range' 1 (sh.getD a 0 - 1) = l
    induction l generalizing x with
    | nil => rfl
    | cons i l ih2 =>
      rw [List.foldl_cons, List.flatMap_cons, List.map_append, List.foldl_append, ← ih2,
        merge_foldl h, h.unit]

theorem forall2_of_broadcasts {a b : List Nat} (h : BroadcastsTo a b) :
    List.Forall₂ (fun x y => x = 1 ∨ x = y) a (b.drop (b.length - a.length)) := by
  rw [List.forall₂_iff_get]
  refine ⟨by simp; have := h.1; omega, fun k h1 h2 => ?_⟩
  have := h.2 k h1
  simp only [List.getD_eq_getElem?_getD, List.getElem?_eq_getElem h1, Option.getD_some] at this
  rw [List.getElem?_eq_getElem (by simp at h2; omega), Option.getD_some] at this
  simp only [List.get_eq_getElem, List.getElem_drop]
  simp only [Nat.add_comm k] at this
  exact this

theorem broadcasts_of_forall2 {a b : List Nat}
    (h : List.Forall₂ (fun x y => x = 1 ∨ x = y) a b) : BroadcastsTo a b := by
  have hl := h.length_eq
  rw [List.forall₂_iff_get] at h
  refine ⟨by omega, fun k hk => ?_⟩
  have := h.2 k hk (by omega)
  simp only [List.get_eq_getElem] at this
  rw [hl, Nat.sub_self, Nat.add_zero]
  simp only [List.getD_eq_getElem?_getD, List.getElem?_eq_getElem hk,
    List.getElem?_eq_getElem (show k < b.length by omega), Option.getD_some]
  exact this

theorem inBounds_drop : ∀ (n : Nat) {sh idx : List Nat}, InBounds sh idx →
    InBounds (sh.drop n) (idx.drop n)
  | 0, _, _, h => by simpa using h
  | n + 1, [], [], _ => by simp
  | n + 1, _ :: sh, _ :: idx, h => by simpa using inBounds_drop n h.2

/-- The reducer's stepper stands at `idx` of the shape `osh`: the substepper is at the kept
coordinates and at 0 on the reduced axes. -/
def RedAt (r : Reducer α β) (osh : List Nat) (st : r.e.State) (idx : List Nat) : Prop :=
  numel r.sh = 0 ∨
    ExAt r.e st (embed r.axes r.keep 0 r.sh.length (idx.drop (osh.length - r.shape.length)))

/-- The shape under which the substepper moves. -/
abbrev Reducer.subShape (r : Reducer α β) (osh : List Nat) : List Nat :=
  expandShape r.axes r.keep 0 r.sh (osh.drop (osh.length - r.shape.length))

section
variable {r : Reducer α β} {osh : List Nat}

theorem Reducer.sub_bc (hg : GoodAxes r.sh.length r.axes) (hbc : BroadcastsTo r.shape osh) :
    BroadcastsTo r.sh (r.subShape osh) := by
  have := forall2_of_broadcasts hbc
  rw [C30_shape r hg] at this
  apply broadcasts_of_forall2
  rw [Reducer.subShape, C30_shape r hg]
  exact expandShape_bc _ r.sh 0 _ this

theorem Reducer.sub_fwd (hg : GoodAxes r.sh.length r.axes) (hbc : BroadcastsTo r.shape osh)
    (hf : Fits r.sh r.e) : FwdLaw (r.e.ops r.sh.length) (r.subShape osh) (ExAt r.e) := by
  have := Ex.fwd (sh := r.subShape osh) r.e (Ex.fits_trans (Reducer.sub_bc hg hbc) r.e hf)
  rwa [length_expandShape] at this

theorem pos_of_numel {sh : List Nat} (h : numel sh ≠ 0) {k : Nat} (hk : k < sh.length) :
    0 < sh.getD k 0 := by
  have := (inBounds_last (show 0 < numel sh by omega)).getD_lt hk
  omega

theorem Reducer.sub_inBounds (hg : GoodAxes r.sh.length r.axes) (hbc : BroadcastsTo r.shape osh)
    (h0 : numel r.sh ≠ 0) {idx : List Nat} (hb : InBounds osh idx) :
    InBounds (r.subShape osh)
      (embed r.axes r.keep 0 r.sh.length (idx.drop (osh.length - r.shape.length))) := by
  have hl := hbc.1
  apply embed_inBounds
  · intro k _ hk _
    exact pos_of_numel h0 (by omega)
  · exact inBounds_drop _ hb
  · rw [List.length_drop, ← length_redShape, ← C30_shape r hg]; omega

/-- A reduction whose value is a fold: either `merge` continues a fold, or there is at most one axis and no `initial`. -/
def FoldsUp (r : Reducer α β) : Prop := ReducerLaws r.fns ∨ (r.axes.length ≤ 1 ∧ r.initial = none)

theorem nestFold_eq' (hlaw : FoldsUp r) (val : List Nat → α) (base : List Nat) (hne : r.axes ≠ [])
    (hpos : ∀ a ∈ r.axes, 0 < r.sh.getD a 0) :
    nestFold r.fns val r.sh r.axes base = ((nestVisit r.sh r.axes base).map val).foldl r.fns.reduce r.fns.init := by
  rcases hlaw with h | ⟨h, _⟩
  · exact nestFold_eq h val r.sh _ _ hne hpos
  · obtain ⟨a, ha⟩ : ∃ a, r.axes = [a] := by
      cases hx : r.axes with
      | nil => exact absurd hx hne
      | cons a l =>
        rw [hx] at h
        simp only [List.length_cons] at h
        rw [List.eq_nil_of_length_eq_zero (show l.length = 0 by omega)]
        exact ⟨a, rfl⟩
    rw [ha]
    simp only [nestFold, nestVisit]
    rw [show (fun i => [base.set a i]) = fun i => pure (base.set a i) from rfl]
    simp only [List.pure_def]
    rw [← List.map_eq_flatMap, List.map_map, List.foldl_map]
    rfl

/-- Dereferencing: the fold over the contributing elements; the substepper comes back to where it
was. -/
theorem Reducer.deref_spec (hg : GoodAxes r.sh.length r.axes) (hbc : BroadcastsTo r.shape osh)
    (hf : Fits r.sh r.e) (hlaw : FoldsUp r) (dflt : β) {idx : List Nat} (hb : InBounds osh idx)
    {st : r.e.State} (hst : RedAt r osh st idx) :
    (r.deref dflt st).1 = redValue r.fns (r.initial.getD r.fns.init) (valueAt r.e) r.sh r.axes r.keep
      (bcIndex r.shape idx) ∧ RedAt r osh (r.deref dflt st).2 idx := by
  have hl := hbc.1
  have hlen := hb.length_eq
  have hsh := C30_shape r hg
  have hn : r.sh.foldl (· * ·) 1 = numel r.sh := by rw [foldl_mul_eq]; omega
  unfold Reducer.deref
  rw [hn]
  by_cases h0 : numel r.sh = 0
  · rw [if_pos h0]
    refine ⟨?_, Or.inl h0⟩
    have : rowIndices r.sh = [] := List.eq_nil_of_length_eq_zero (by rw [length_rowIndices, h0])
    simp [redValue, redGroup, this, Reducer.initialValue]
  · have hst := hst.resolve_left h0
    simp only [if_neg h0]
    -- the contributing elements
    have hrb : InBounds (redShape r.sh r.axes r.keep) (bcIndex r.shape idx) := by
      rw [← hsh]; exact inBounds_bcIndex hbc hb
    have hgrp : redGroup r.sh r.axes r.keep (bcIndex r.shape idx) =
        redVisit r.axes r.keep 0 r.sh (bcIndex r.shape idx) :=
      redVisit_eq _ r.sh 0 _ hrb
    have hib := Reducer.sub_inBounds hg hbc h0 hb
    have hF := Reducer.sub_fwd hg hbc hf
    have hfit := Ex.fits_trans (Reducer.sub_bc hg hbc) r.e hf
    have hrl : (idx.drop (osh.length - r.shape.length)).length =
        (redPositions r.axes r.keep 0 r.sh.length).length := by
      rw [List.length_drop, ← length_redShape, ← hsh]; omega
    have hvals : (redGroup r.sh r.axes r.keep (bcIndex r.shape idx)).map (valueAt r.e) =
        (nestVisit r.sh r.axes (embed r.axes r.keep 0 r.sh.length
          (idx.drop (osh.length - r.shape.length)))).map (valueAt r.e) := by
      have h1 := nestVisit_eq (axes := r.axes) (keep := r.keep) r.sh [] []
        (idx.drop (osh.length - r.shape.length)) r.axes rfl hg.1
        (fun a ha => ⟨by simp, by simpa using hg.2 a ha⟩) (fun a _ => Iff.rfl)
      simp only [List.nil_append, List.length_nil, List.map_id'] at h1
      rw [h1, hgrp]
      have h2 := redVisit_bc (axes := r.axes) r.keep r.sh 0 _ hrl
      have h3 : bcIndex r.shape idx = List.zipWith (fun n i => if n = 1 then 0 else i)
          (dropAxes r.axes (if r.keep then some 1 else none) 0 r.sh)
          (idx.drop (osh.length - r.shape.length)) := by
        unfold bcIndex
        rw [hlen, hsh]; rfl
      rw [h3, ← h2, List.map_map]
      apply List.map_congr_left
      intro x hx
      have hxl : x.length = r.sh.length := by
        have key : ∀ (sh : List Nat) (p : Nat) (q y : List Nat),
            y ∈ redVisit r.axes r.keep p sh q → y.length = sh.length := by
          intro sh
          induction sh with
          | nil => intro p q y hy; simp [redVisit] at hy; simp [hy]
          | cons s sh ih =>
            intro p q y hy
            unfold redVisit at hy
            split at hy
            · obtain ⟨i, _, hy⟩ := List.mem_flatMap.1 hy
              obtain ⟨z, hz, rfl⟩ := List.mem_map.1 hy
              simp [ih _ _ _ hz]
            · obtain ⟨z, hz, rfl⟩ := List.mem_map.1 hy
              simp [ih _ _ _ hz]
        exact key _ _ _ _ hx
      have := Ex.value_bcIndex r.e x hf (by omega)
      unfold bcIndex at this
      rw [hxl, Nat.sub_self, List.drop_zero] at this
      exact this
    have hd : ∀ st idx, InBounds (r.subShape osh) idx → ExAt r.e st idx → r.e.deref st = valueAt r.e idx :=
      fun st idx h1 h2 => Ex.deref_eq r.e st idx hfit h1 h2
    unfold redValue
    rw [hvals]
    by_cases ha : r.axes.length = 0
    · have ha' : r.axes = [] := List.eq_nil_of_length_eq_zero ha
      simp only [ha, beq_self_eq_true, Bool.or_true, if_true]
      refine ⟨?_, Or.inr hst⟩
      rw [hd _ _ hib hst]
      simp only [ha', nestVisit, List.map_cons, List.map_nil, List.foldl_cons, List.foldl_nil,
        Reducer.initialValue]
    · have hane : r.axes ≠ [] := fun e => ha (by simp [e])
      have hsne : r.sh ≠ [] := by
        intro e
        obtain ⟨a, ha⟩ := List.exists_mem_of_ne_nil _ hane
        have := hg.2 a ha
        rw [e] at this; simp at this
      have hcond : (r.sh.isEmpty || r.axes.length == 0) = false := by
        simp [hsne, hane]
      have hpos : ∀ a ∈ r.axes, 0 < r.sh.getD a 0 := fun a ha => pos_of_numel h0 (hg.2 a ha)
      have hq : (if r.keep = true then
          aggKeep (r.e.ops r.sh.length) r.e.deref r.fns r.sh r.axes dflt (r.sh.length + 1) st
          else aggImpl (r.e.ops r.sh.length) r.e.deref r.fns r.sh r.axes st) =
          aggImpl (r.e.ops r.sh.length) r.e.deref r.fns r.sh r.axes st := by
        by_cases hk : r.keep = true
        · rw [if_pos hk]
          exact aggKeep_eq _ st [] r.axes rfl hg.1 hane (le_refl _) (by simp)
            (fun a ha => ⟨by omega, hg.2 a ha⟩) hpos
        · rw [if_neg hk]
      simp only [hcond, Bool.false_eq_true, if_false, hq]
      obtain ⟨g1, g2⟩ := aggImpl_spec (F := r.fns) (sh := r.sh) hF hd r.axes _ st hg.1
        (fun a ha => ⟨by rw [length_expandShape]; exact hg.2 a ha,
          (expandShape_axis r.sh 0 _ a (Nat.zero_le _) ha).symm,
          embed_axis r.sh.length 0 _ a (Nat.zero_le _) ha⟩) hib hst
      rw [nestFold_eq' hlaw _ _ hane hpos] at g1
      cases hi : r.initial with
      | none => exact ⟨g1, Or.inr g2⟩
      | some v =>
        have hlaw := hlaw.resolve_right (fun h => by rw [hi] at h; exact absurd h.2 (by simp))
        refine ⟨?_, Or.inr g2⟩
        simp only [Option.getD_some]
        rw [g1, merge_foldl hlaw, hlaw.unit]

theorem getElem?_redPositions {j : Nat} (hg : GoodAxes r.sh.length r.axes) (hj : j < r.shape.length) :
    (redPositions r.axes r.keep 0 r.sh.length)[j]? = some (r.mapping.getD j 0) := by
  rw [C30_shape r hg, length_redShape] at hj
  rw [r.mapping_eq hg]
  simp [List.getD_eq_getElem?_getD, hj]

theorem mem_redPositions_axes {axes : List Nat} {keep : Bool} : ∀ (n p k : Nat),
    k ∈ redPositions axes keep p n → k ∈ axes → keep = true
  | 0, _, _, h, _ => by simp [redPositions] at h
  | n + 1, p, k, h, hk => by
    unfold redPositions at h
    split at h
    · exact mem_redPositions_axes n (p + 1) k h hk
    · rename_i hc
      rcases List.mem_cons.1 h with h | h
      · subst h
        by_contra hx
        exact hc ⟨hk, by simpa using hx⟩
      · exact mem_redPositions_axes n (p + 1) k h hk

theorem drop_set_lt {l : List Nat} {n a v : Nat} (h : a < n) : (l.set a v).drop n = l.drop n := by
  apply List.ext_getElem?
  intro i
  simp only [List.getElem?_drop, List.getElem?_set]
  rw [if_neg (by omega)]

theorem drop_set_ge {l : List Nat} {n a v : Nat} (h : n ≤ a) :
    (l.set a v).drop n = (l.drop n).set (a - n) v := by
  apply List.ext_getElem?
  intro i
  rw [List.getElem?_drop, List.getElem?_set, List.getElem?_set, List.length_drop, List.getElem?_drop]
  by_cases e : a = n + i
  · rw [if_pos e, if_pos (show a - n = i by omega)]
    by_cases h' : n + i < l.length
    · rw [if_pos (by omega), if_pos (by omega)]
    · rw [if_neg (by omega), if_neg (by omega)]
  · rw [if_neg e, if_neg (show ¬ a - n = i by omega)]

theorem set_getD_self {l : List Nat} {a : Nat} : l.set a (l.getD a 0) = l := by
  apply List.ext_getElem?
  intro i
  rw [List.getElem?_set]
  by_cases e : a = i
  · subst e
    rw [if_pos rfl]
    by_cases h : a < l.length
    · rw [if_pos h]; simp [List.getD_eq_getElem?_getD, h]
    · rw [if_neg h, List.getElem?_eq_none (by omega)]
  · rw [if_neg e]

/-- The stepper laws.  With `keep_dims` the reduced axes of the shape must have extent 1. -/
theorem Reducer.fwd (hg : GoodAxes r.sh.length r.axes) (hbc : BroadcastsTo r.shape osh)
    (hf : Fits r.sh r.e)
    (hk : r.keep = true → ∀ a ∈ r.axes, osh.getD (a + (osh.length - r.sh.length)) 0 = 1) :
    FwdLaw (r.ops (osh.length - r.shape.length)) osh (RedAt r osh) := by
  have hl := hbc.1
  have hsl : r.shape.length = (redPositions r.axes r.keep 0 r.sh.length).length := by
    rw [C30_shape r hg, length_redShape]
  -- an axis of the result is a kept axis of the input, or has extent 1
  have key : ∀ a, a < osh.length → osh.length - r.shape.length ≤ a →
      ∃ k, r.mapping.getD (a - (osh.length - r.shape.length)) 0 = k ∧
        (redPositions r.axes r.keep 0 r.sh.length)[a - (osh.length - r.shape.length)]? = some k ∧
        k < r.sh.length ∧
        (k ∈ r.axes → r.keep = true ∧ k = a - (osh.length - r.shape.length) ∧ osh.getD a 0 = 1) := by
    intro a ha ho
    have h1 := getElem?_redPositions (r := r) hg (j := a - (osh.length - r.shape.length)) (by omega)
    have hm := List.mem_of_getElem? h1
    have h2 := le_of_mem_redPositions _ _ _ hm
    refine ⟨_, rfl, h1, by omega, fun hax => ?_⟩
    have hkp := mem_redPositions_axes _ _ _ hm hax
    have h3 : r.shape.length = r.sh.length := by rw [hsl, hkp, redPositions_keep]; simp
    have h4 : r.mapping.getD (a - (osh.length - r.shape.length)) 0 =
        a - (osh.length - r.shape.length) := by
      have h5 := h1
      rw [hkp, redPositions_keep, List.getElem?_range' (by omega)] at h5
      have h5 := Option.some.inj h5
      omega
    refine ⟨hkp, h4, ?_⟩
    have h6 := hk hkp _ hax
    rw [h4, ← h3, show a - (osh.length - r.shape.length) + (osh.length - r.shape.length) = a by omega]
      at h6
    exact h6
  constructor
  · intro st idx a n hR hb ha h0 h1
    rcases hR with hR | hR
    · exact Or.inl hR
    by_cases hz : numel r.sh = 0
    · exact Or.inl hz
    refine Or.inr ?_
    have hlen := hb.length_eq
    simp only [Reducer.ops]
    by_cases ho : osh.length - r.shape.length ≤ a
    · rw [if_pos ho, drop_set_ge ho]
      obtain ⟨k, hk0, hk1, hk2, hk3⟩ := key a ha ho
      rw [hk0]
      have hib := Reducer.sub_inBounds hg hbc hz hb
      have hF := Reducer.sub_fwd hg hbc hf
      by_cases hax : k ∈ r.axes
      · obtain ⟨q1, q2, q3⟩ := hk3 hax
        have hia := hb.getD_lt ha
        have hi0 : idx.getD a 0 = 0 := by omega
        have hn0 : n = 0 := by omega
        subst hn0
        have := hF.step st _ k 0 hR hib (by rw [length_expandShape]; exact hk2) (by omega)
          (by have := hib.getD_lt (a := k) (by rw [length_expandShape]; exact hk2); omega)
        rw [Int.add_zero, Int.toNat_natCast, set_getD_self] at this
        rw [Int.add_zero, Int.toNat_natCast]
        have e : (idx.drop (osh.length - r.shape.length)).set (a - (osh.length - r.shape.length))
            (idx.getD a 0) = idx.drop (osh.length - r.shape.length) := by
          have : idx.getD a 0 = (idx.drop (osh.length - r.shape.length)).getD
              (a - (osh.length - r.shape.length)) 0 := by
            simp only [List.getD_eq_getElem?_getD, List.getElem?_drop]
            rw [show osh.length - r.shape.length + (a - (osh.length - r.shape.length)) = a by omega]
          rw [this, set_getD_self]
        rw [e]
        exact this
      · have e1 := embed_kept (axes := r.axes) r.keep r.sh.length 0
          (idx.drop (osh.length - r.shape.length)) _ k hk1 hax
        have e2 := expandShape_kept (axes := r.axes) r.keep r.sh 0
          (osh.drop (osh.length - r.shape.length)) _ k hk1 hax
        have g : ∀ l : List Nat, (l.drop (osh.length - r.shape.length)).getD
            (a - (osh.length - r.shape.length)) 0 = l.getD a 0 := by
          intro l
          simp only [List.getD_eq_getElem?_getD, List.getElem?_drop]
          rw [show osh.length - r.shape.length + (a - (osh.length - r.shape.length)) = a by omega]
        rw [Nat.sub_zero, g] at e1 e2
        have := hF.step st _ k n hR hib (by rw [length_expandShape]; exact hk2)
          (by rw [e1]; exact h0) (by rw [e1, e2]; exact h1)
        rw [e1] at this
        rw [embed_set r.keep r.sh.length 0 _ _ k hk1 hax
          (by rw [List.length_drop, ← hsl]; omega), Nat.sub_zero]
        exact this
    · rw [if_neg ho, drop_set_lt (by omega)]
      exact hR
  · intro st idx a hR hb ha h1
    rcases hR with hR | hR
    · exact Or.inl hR
    by_cases hz : numel r.sh = 0
    · exact Or.inl hz
    refine Or.inr ?_
    have hlen := hb.length_eq
    simp only [Reducer.ops]
    by_cases ho : osh.length - r.shape.length ≤ a
    · rw [if_pos ho, drop_set_ge ho]
      obtain ⟨k, hk0, hk1, hk2, hk3⟩ := key a ha ho
      rw [hk0]
      have hib := Reducer.sub_inBounds hg hbc hz hb
      have hF := Reducer.sub_fwd hg hbc hf
      have g : ∀ l : List Nat, (l.drop (osh.length - r.shape.length)).getD
          (a - (osh.length - r.shape.length)) 0 = l.getD a 0 := by
        intro l
        simp only [List.getD_eq_getElem?_getD, List.getElem?_drop]
        rw [show osh.length - r.shape.length + (a - (osh.length - r.shape.length)) = a by omega]
      by_cases hax : k ∈ r.axes
      · obtain ⟨q1, q2, q3⟩ := hk3 hax
        rw [q3] at h1
        have hi0 : idx.getD a 0 = 0 := by omega
        have : (!(r.keep && r.axes.contains (a - (osh.length - r.shape.length)))) = false := by
          rw [q1, ← q2]; simp [hax]
        simp only [this, Bool.false_eq_true, if_false]
        have e : (idx.drop (osh.length - r.shape.length)).set (a - (osh.length - r.shape.length))
            0 = idx.drop (osh.length - r.shape.length) := by
          rw [← hi0, ← g idx, set_getD_self]
        rw [e]
        exact hR
      · have : (!(r.keep && r.axes.contains (a - (osh.length - r.shape.length)))) = true := by
          cases hkp : r.keep with
          | false => rfl
          | true =>
            rw [hkp, redPositions_keep] at hk1
            obtain ⟨hh, hk1⟩ := List.getElem?_eq_some_iff.1 hk1
            simp at hk1
            rw [hk1]; simp [hax]
        simp only [this, if_true]
        have e1 := embed_kept (axes := r.axes) r.keep r.sh.length 0
          (idx.drop (osh.length - r.shape.length)) _ k hk1 hax
        have e2 := expandShape_kept (axes := r.axes) r.keep r.sh 0
          (osh.drop (osh.length - r.shape.length)) _ k hk1 hax
        rw [Nat.sub_zero, g] at e1 e2
        have := hF.reset st _ k hR hib (by rw [length_expandShape]; exact hk2)
          (by rw [e1, e2]; exact h1)
        rw [embed_set r.keep r.sh.length 0 _ _ k hk1 hax
          (by rw [List.length_drop, ← hsl]; omega), Nat.sub_zero]
        exact this
    · rw [if_neg ho, drop_set_lt (by omega)]
      exact hR

theorem embed_zeros {axes : List Nat} {keep : Bool} : ∀ (n p m : Nat),
    embed axes keep p n (List.replicate m 0) = List.replicate n 0
  | 0, _, _ => rfl
  | n + 1, p, m => by
    have ht : (List.replicate m 0).tail = List.replicate (m - 1) 0 := by cases m <;> rfl
    unfold embed
    rw [List.replicate_succ, ht]
    split
    · cases keep
      · simp [embed_zeros n]
      · simp [embed_zeros n]
    · rw [embed_zeros n]
      cases m <;> rfl

theorem Reducer.at_begin (hf : Fits r.sh r.e) : RedAt r osh r.stBegin (List.replicate osh.length 0) := by
  refine Or.inr ?_
  rw [List.drop_replicate, embed_zeros]
  exact Ex.at_begin r.e hf

theorem Reducer.walk_spec (L : Layout) (hL : L = .row_major ∨ L = .column_major)
    (hg : GoodAxes r.sh.length r.axes) (hbc : BroadcastsTo r.shape osh)
    (hf : Fits r.sh r.e) (hlaw : ReducerLaws r.fns) (dflt : β)
    (hk : r.keep = true → ∀ a ∈ r.axes, osh.getD (a + (osh.length - r.sh.length)) 0 = 1)
    (last : XIter r.e.State) (hlast : last.linear = numel osh) :
    ∀ (fuel p : Nat) (it : XIter r.e.State), IterAt L osh (RedAt r osh) (fun _ => True) it p →
      p ≤ numel osh → numel osh - p < fuel →
      r.walk dflt L osh last fuel it = ((orderIndices L osh).drop p).map fun idx =>
        redValue r.fns (r.initial.getD r.fns.init) (valueAt r.e) r.sh r.axes r.keep
          (bcIndex r.shape idx) := by
  intro fuel
  induction fuel with
  | zero => intro p it _ _ h; omega
  | succ fuel ih =>
    intro p it hit hp hfu
    unfold Reducer.walk
    by_cases hpe : p = numel osh
    · have he : it.equal last = true := by
        simp [XIter.equal, hit.1, hlast, hpe]
      rw [if_pos he, List.drop_eq_nil_of_le (by rw [length_orderIndices]; omega)]
      rfl
    · have hpl : p < numel osh := by omega
      have he : it.equal last = false := by
        have := hit.1
        simp only [XIter.equal, hlast, this, beq_eq_false_iff_ne]
        omega
      obtain ⟨h1, h2, h3⟩ := hit.inner hpl
      obtain ⟨d1, d2⟩ := Reducer.deref_spec hg hbc hf (.inl hlaw) dflt h1 h3
      rw [he, if_neg (by simp)]
      simp only
      have hit' : IterAt L osh (RedAt r osh) (fun _ => True)
          { it with st := (r.deref dflt it.st).2 } p :=
        ⟨hit.1, Or.inl ⟨h1, h2, d2⟩⟩
      have hinc := IterAt.inc hL (Reducer.fwd hg hbc hf hk) (fun _ _ _ _ => trivial) hit' hpl
      rw [ih (p + 1) _ hinc (by omega) (by omega)]
      have hlen : p < (orderIndices L osh).length := by rw [length_orderIndices]; exact hpl
      rw [List.drop_eq_getElem_cons hlen, List.map_cons]
      obtain ⟨j1, j2⟩ := rankIn_orderIndices (L := L) (List.getElem?_eq_getElem hlen)
      have : it.index = (orderIndices L osh)[p] := rankIn_inj (L := L) h1 j1 (by omega)
      rw [d1, this]

end

/-- Iterating over a lazy reduction, alone or broadcast inside a larger expression, yields at each
index the fold of the reducer over exactly the input elements whose kept coordinates match, in
row-major index order, from the given initial value (or `init`).

Not covered (see the counterexamples): `keep_dims` reductions under a shape whose extent on a reduced axis is not
1, and reducers whose `merge` does not continue a fold. -/
theorem C30_iteration_partial (r : Reducer α β) (osh : List Nat) (L : Layout)
    (hL : L = .row_major ∨ L = .column_major)
    (hg : GoodAxes r.sh.length r.axes) (hbc : BroadcastsTo r.shape osh) (hf : Fits r.sh r.e)
    (hlaw : ReducerLaws r.fns) (dflt : β)
    (hk : r.keep = true → ∀ a ∈ r.axes, osh.getD (a + (osh.length - r.sh.length)) 0 = 1) :
    r.values dflt L osh = (orderIndices L osh).map fun idx =>
      redValue r.fns (r.initial.getD r.fns.init) (valueAt r.e) r.sh r.axes r.keep
        (bcIndex r.shape idx) := by
  have hn : osh.foldl (· * ·) 1 = numel osh := by rw [foldl_mul_eq]; omega
  unfold Reducer.values
  by_cases h0 : numel osh = 0
  · have h1 : orderIndices L osh = [] :=
      List.eq_nil_of_length_eq_zero (by rw [length_orderIndices, h0])
    rw [h1]
    unfold Reducer.walk
    rw [if_pos (by simp [XIter.equal, XIter.mkBegin, XIter.mkEnd, hn, h0])]
    rfl
  · have := Reducer.walk_spec L hL hg hbc hf hlaw dflt hk (XIter.mkEnd (r.stEnd L) L osh)
      (by simp [XIter.mkEnd, hn]) (numel osh + 1) 0 (XIter.mkBegin r.stBegin osh)
      (iterAt_begin (by omega) (Reducer.at_begin hf)) (by omega) (by omega)
    rw [hn, this, List.drop_zero]

/-- Iterating over a lazy reduction over its own shape, with or without `keep_dims`. -/
theorem C30_own_shape (r : Reducer α β) (L : Layout)
    (hL : L = .row_major ∨ L = .column_major)
    (hg : GoodAxes r.sh.length r.axes) (hf : Fits r.sh r.e)
    (hlaw : ReducerLaws r.fns) (dflt : β) :
    r.values dflt L (redShape r.sh r.axes r.keep) =
      (orderIndices L (redShape r.sh r.axes r.keep)).map fun idx =>
        redValue r.fns (r.initial.getD r.fns.init) (valueAt r.e) r.sh r.axes r.keep idx := by
  have hsh := C30_shape r hg
  rw [C30_iteration_partial r _ L hL hg
    (by rw [hsh]; exact ⟨le_refl _, fun k _ => Or.inr (by simp)⟩) hf hlaw dflt]
  · apply List.map_congr_left
    intro idx h
    rw [hsh, bcIndex_self (mem_orderIndices.1 h)]
  · intro hk a ha
    have hlt := hg.2 a ha
    unfold redShape
    rw [hk]
    simp only [if_true, dropAxes_keep, List.length_map, List.length_range, Nat.sub_self, Nat.add_zero]
    rw [List.getD_eq_getElem?_getD, List.getElem?_map, List.getElem?_range hlt]
    simp [ha]

theorem stepLoop_spec {σ : Type} {ops : StepOps σ} {sh : List Nat} {R : σ → List Nat → Prop}
    (hF : FwdLaw ops sh R) : ∀ (is pre : List Nat) (st : σ),
      R st (pre ++ List.replicate is.length 0) → InBounds sh (pre ++ is) →
      R (stepLoop ops pre.length is st) (pre ++ is)
  | [], pre, st, h, _ => by simpa [stepLoop] using h
  | i :: is, pre, st, h, hb => by
    have hlen := hb.length_eq
    have hz : InBounds sh (pre ++ List.replicate (i :: is).length 0) := by
      rw [inBounds_iff_get] at hb ⊢
      refine ⟨by simp at hb ⊢; exact hb.1, fun k hk => ?_⟩
      have := hb.2 k hk
      simp only [List.getD_eq_getElem?_getD, List.getElem?_append] at this ⊢
      by_cases hc : k < pre.length
      · rw [if_pos hc] at this ⊢; exact this
      · rw [if_neg hc] at this ⊢
        rw [List.getElem?_replicate]
        split <;> simp <;> omega
    have ha : pre.length < sh.length := by rw [← hlen]; simp
    have hg0 : (pre ++ List.replicate (i :: is).length 0).getD pre.length 0 = 0 := by
      simp [List.getD_eq_getElem?_getD, List.getElem?_append]
    have hgi : i < sh.getD pre.length 0 := by
      have := hb.getD_lt ha
      simpa [List.getD_eq_getElem?_getD, List.getElem?_append] using this
    have hs := hF.step st _ pre.length i h hz ha (by omega) (by rw [hg0]; omega)
    rw [hg0] at hs
    have e : (pre ++ List.replicate (i :: is).length 0).set pre.length ((0 : Nat) + (i : Int)).toNat =
        (pre ++ [i]) ++ List.replicate is.length 0 := by
      rw [List.set_append_right _ _ (le_refl _), Nat.sub_self, List.length_cons, List.replicate_succ,
        List.set_cons_zero]
      simp
    rw [e] at hs
    have := stepLoop_spec hF is (pre ++ [i]) _ hs (by simpa using hb)
    simpa [stepLoop] using this

theorem Reducer.element_fold (r : Reducer α β) (hg : GoodAxes r.sh.length r.axes) (hf : Fits r.sh r.e)
    (hlaw : FoldsUp r) (dflt : β) (idx : List Nat)
    (hb : InBounds (redShape r.sh r.axes r.keep)
      (List.replicate ((redShape r.sh r.axes r.keep).length - idx.length) 0 ++
        idx.drop (idx.length - (redShape r.sh r.axes r.keep).length))) :
    r.element dflt idx =
      redValue r.fns (r.initial.getD r.fns.init) (valueAt r.e) r.sh r.axes r.keep
        (List.replicate ((redShape r.sh r.axes r.keep).length - idx.length) 0 ++
          idx.drop (idx.length - (redShape r.sh r.axes r.keep).length)) := by
  have hsh := C30_shape r hg
  have hbc : BroadcastsTo r.shape r.shape := ⟨le_refl _, fun k _ => Or.inr (by simp)⟩
  have hF := Reducer.fwd hg hbc hf (by
    intro hk a ha
    have hlt := hg.2 a ha
    rw [hsh]
    unfold redShape
    rw [hk]
    simp only [if_true, dropAxes_keep, List.length_map, List.length_range, Nat.sub_self, Nat.add_zero]
    rw [List.getD_eq_getElem?_getD, List.getElem?_map, List.getElem?_range hlt]
    simp [ha])
  unfold Reducer.element
  rw [← hsh] at hb ⊢
  generalize hfull : List.replicate (r.shape.length - idx.length) 0 ++
    idx.drop (idx.length - r.shape.length) = full at hb ⊢
  have hR : RedAt r r.shape (if idx.isEmpty then r.stBegin else stepLoop (r.ops 0) 0 full r.stBegin)
      full := by
    have h0 := Reducer.at_begin (osh := r.shape) hf
    by_cases he : idx = []
    · subst he
      have : full = List.replicate r.shape.length 0 := by rw [← hfull]; simp
      rw [this]
      simpa using h0
    · have : idx.isEmpty = false := by simpa using he
      rw [this, if_neg (by simp)]
      rw [Nat.sub_self] at hF
      have := stepLoop_spec hF full [] r.stBegin (by
        rw [hb.length_eq, List.nil_append]; exact h0) (by simpa using hb)
      simpa using this
  obtain ⟨h1, _⟩ := Reducer.deref_spec hg hbc hf hlaw dflt hb hR
  have hfinal := h1
  rw [bcIndex_self hb] at hfinal
  exact hfinal

/-- Element access: `element(idx)` of a lazy reduction is the fold over the contributing elements.
Extra leading indices are ignored and missing ones count as 0. -/
theorem C30_element (r : Reducer α β) (hg : GoodAxes r.sh.length r.axes) (hf : Fits r.sh r.e)
    (hlaw : ReducerLaws r.fns) (dflt : β) (idx : List Nat)
    (hb : InBounds (redShape r.sh r.axes r.keep)
      (List.replicate ((redShape r.sh r.axes r.keep).length - idx.length) 0 ++
        idx.drop (idx.length - (redShape r.sh r.axes r.keep).length))) :
    r.element dflt idx =
      redValue r.fns (r.initial.getD r.fns.init) (valueAt r.e) r.sh r.axes r.keep
        (List.replicate ((redShape r.sh r.axes r.keep).length - idx.length) 0 ++
          idx.drop (idx.length - (redShape r.sh r.axes r.keep).length)) :=
  Reducer.element_fold r hg hf (.inl hlaw) dflt idx hb

/-- Element access to a reduction along at most one axis, without `initial`: the same fold, whatever the functors. -/
theorem C30_element_one_axis (r : Reducer α β) (hg : GoodAxes r.sh.length r.axes) (hf : Fits r.sh r.e)
    (h1 : r.axes.length ≤ 1) (hi : r.initial = none) (dflt : β) (idx : List Nat)
    (hb : InBounds (redShape r.sh r.axes r.keep)
      (List.replicate ((redShape r.sh r.axes r.keep).length - idx.length) 0 ++
        idx.drop (idx.length - (redShape r.sh r.axes r.keep).length))) :
    r.element dflt idx =
      redValue r.fns (r.initial.getD r.fns.init) (valueAt r.e) r.sh r.axes r.keep
        (List.replicate ((redShape r.sh r.axes r.keep).length - idx.length) 0 ++
          idx.drop (idx.length - (redShape r.sh r.axes r.keep).length)) :=
  Reducer.element_fold r hg hf (.inr ⟨h1, hi⟩) dflt idx hb

/-! ### Where the property fails -/

/-- `xt::sum` on integers. -/
def sumFns : RedFns Int Int := ⟨(· + ·), 0, (· + ·)⟩

theorem sumFns_laws : ReducerLaws sumFns :=
  ⟨fun x y v => (Int.add_assoc x y v).symm, fun x => Int.add_zero x⟩

/-- Norm-like reducers fit the laws too: squares are accumulated, partial sums are added. -/
def sqSumFns : RedFns Int Int := ⟨fun s v => s + v * v, 0, (· + ·)⟩

theorem sqSumFns_laws : ReducerLaws sqSumFns :=
  ⟨fun x y v => (Int.add_assoc x y (v * v)).symm, fun x => Int.add_zero x⟩

/-- A row-major array of the given shape whose element at storage position `p` is `p`. -/
def iotaEx (sh : List Nat) (strides : List Int) : Ex Int := .arr (StridedArr.mk' sh strides 0) id

/-- A reducer built from one function (`merge` = `reduce`) that is not associative is not a fold:
`reduce(minus, a, {0, 1})` subtracts the partial results of the rows. -/
theorem C30_nonassociative_not_fold :
    ∃ r : Reducer Int Int, GoodAxes r.sh.length r.axes ∧ Fits r.sh r.e ∧
      r.fns.merge = r.fns.reduce ∧
      r.element 0 [] ≠ redValue r.fns r.fns.init (valueAt r.e) r.sh r.axes r.keep [] :=
  ⟨{ e := iotaEx [2, 2] [2, 1], sh := [2, 2], fns := ⟨(· - ·), 0, (· - ·)⟩, axes := [0, 1],
     keep := false, initial := none }, by decide,
    ⟨⟨rfl, fun k h => by
      match k with
      | 0 => simp [StridedArr.mk'] at h
      | 1 => simp [StridedArr.mk'] at h
      | k + 2 => simp [StridedArr.mk'] at h, fun k => by
      match k with
      | 0 => decide
      | 1 => decide
      | k + 2 => simp [StridedArr.mk']⟩, by decide⟩, rfl, by decide⟩

theorem iotaEx_fits : Fits [2, 3] (iotaEx [2, 3] [3, 1]) :=
  ⟨⟨rfl, fun k h => by
      match k with
      | 0 => simp [StridedArr.mk'] at h
      | 1 => simp [StridedArr.mk'] at h
      | k + 2 => simp [StridedArr.mk'] at h, fun k => by
      match k with
      | 0 => decide
      | 1 => decide
      | k + 2 => simp [StridedArr.mk']⟩, by decide⟩

/-- `a / sum(a, {1}, keep_dims)`: under the shape of `a`, stepping on the reduced axis moves the
substepper, so the sums start from the wrong element (and run past the row). -/
theorem C30_keep_dims_broadcast_wrong :
    ∃ (r : Reducer Int Int) (osh : List Nat), GoodAxes r.sh.length r.axes ∧ Fits r.sh r.e ∧
      ReducerLaws r.fns ∧ r.keep = true ∧ BroadcastsTo r.shape osh ∧
      r.values 0 .row_major osh ≠ (orderIndices .row_major osh).map fun idx =>
        redValue r.fns (r.initial.getD r.fns.init) (valueAt r.e) r.sh r.axes r.keep
          (bcIndex r.shape idx) :=
  ⟨{ e := iotaEx [2, 3] [3, 1], sh := [2, 3], fns := sumFns, axes := [1], keep := true,
     initial := none }, [2, 3], by decide, iotaEx_fits, sumFns_laws, rfl, by decide, by decide⟩

/-- Reverse iteration over a lazy reduction: `rbegin` places the substepper at the end of the reduced
axes too, so the elements summed lie past the array. -/
theorem C30_reverse_iteration_wrong :
    ∃ r : Reducer Int Int, GoodAxes r.sh.length r.axes ∧ Fits r.sh r.e ∧ ReducerLaws r.fns ∧
      r.rvalues 0 .row_major r.shape ≠ ((orderIndices .row_major r.shape).map fun idx =>
        redValue r.fns (r.initial.getD r.fns.init) (valueAt r.e) r.sh r.axes r.keep idx).reverse :=
  ⟨{ e := iotaEx [2, 3] [3, 1], sh := [2, 3], fns := sumFns, axes := [0], keep := false,
     initial := none }, by decide, iotaEx_fits, sumFns_laws, by decide⟩

/-! ### Examples -/

/-- `sum(a, {1}, initial(10))` of `{{0,1,2},{3,4,5}}`. -/
def exRed : Reducer Int Int :=
  { e := iotaEx [2, 3] [3, 1], sh := [2, 3], fns := sumFns, axes := [1], keep := false,
    initial := some 10 }

example : GoodAxes exRed.sh.length exRed.axes ∧ exRed.shape = [2] ∧
    exRed.values 0 .row_major [2] = [13, 22] ∧ exRed.values 0 .column_major [3, 2] =
      [13, 13, 13, 22, 22, 22] := by decide

example := C30_own_shape exRed .row_major (Or.inl rfl) (by decide) iotaEx_fits sumFns_laws 0
example := C30_iteration_partial exRed [3, 2] .column_major (Or.inr rfl) (by decide) (by decide)
  iotaEx_fits sumFns_laws 0 (by decide)
example := C30_element exRed (by decide) iotaEx_fits sumFns_laws 0 [1] (by decide)
/-- A functor that is not associative. -/
def subRed : Reducer Int Int := ⟨iotaEx [2, 3] [3, 1], [2, 3], ⟨fun x y => x - 2 * y, 7, fun x y => x - y⟩, [1], false, none⟩

example := C30_element_one_axis subRed (by decide) iotaEx_fits (by decide) rfl 0 [1] (by decide)
example : redGroup [2, 3] [1] false [1] = [[1, 0], [1, 1], [1, 2]] := by decide
example : ({ exRed with axes := [1, 0] } : Reducer Int Int).construct.isNone := by decide
example : ({ exRed with axes := [0, 2] } : Reducer Int Int).construct.isNone := by decide

/-- With `keep_dims`. -/
example : ({ exRed with keep := true } : Reducer Int Int).values 0 .row_major [2, 1] = [13, 22] := by
  decide
example := C30_own_shape { exRed with keep := true, fns := sqSumFns } .column_major (Or.inr rfl)
  (by decide) iotaEx_fits sqSumFns_laws 0
example := C30_bad_axes_throw_partial exRed (Or.inr rfl)

end Xt
