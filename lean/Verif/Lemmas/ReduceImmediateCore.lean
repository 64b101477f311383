import Verif.Lemmas.ReduceImmediate
/-!
# The main loop of `reduce_immediate` computes the reduction

Shapes split as `pre ++ mid ++ post`: `mid` is the block of reduced axes merged into the outer loop, no axis
of `post` is reduced.
-/

namespace Xt
open Spec

variable {α β : Type}

section DropAxes
variable {axes : List Nat} {f : Option Nat}

theorem dropAxes_append : ∀ (a b : List Nat) (p : Nat),
    dropAxes axes f p (a ++ b) = dropAxes axes f p a ++ dropAxes axes f (p + a.length) b
  | [], b, p => by simp [dropAxes]
  | i :: a, b, p => by
    have e : p + (i :: a).length = p + 1 + a.length := by simp; omega
    rw [e]
    simp only [List.cons_append, dropAxes]
    by_cases h : p ∈ axes
    · simp only [if_pos h]
      have ih := dropAxes_append a b (p + 1)
      cases f with
      | none => exact ih
      | some v => simp only [ih, List.cons_append]
    · simp only [if_neg h, dropAxes_append a b (p + 1), List.cons_append]

theorem dropAxes_reverse {axes' : List Nat} : ∀ (l : List Nat) (p q : Nat),
    (∀ k, k < l.length → (p + k ∈ axes ↔ q + (l.length - 1 - k) ∈ axes')) →
      dropAxes axes' f q l.reverse = (dropAxes axes f p l).reverse
  | [], _, _, _ => rfl
  | i :: l, p, q, h => by
    have h0 := h 0 (by simp)
    have ih := dropAxes_reverse l (p + 1) q (fun k hk => by
      have := h (k + 1) (by simpa using hk)
      rw [show p + 1 + k = p + (k + 1) by omega, this,
        show (i :: l).length - 1 - (k + 1) = l.length - 1 - k by simp; omega])
    simp only [List.length_cons, Nat.add_sub_cancel, Nat.sub_zero, Nat.add_zero] at h0
    rw [List.reverse_cons, dropAxes_append, ih, List.length_reverse]
    by_cases hp : p ∈ axes
    · have hq := h0.1 hp
      cases f with
      | none => simp [dropAxes, hp, hq]
      | some v => simp [dropAxes, hp, hq]
    · have hq : q + l.length ∉ axes' := fun e => hp (h0.2 e)
      cases f with
      | none => simp [dropAxes, hp, hq]
      | some v => simp [dropAxes, hp, hq]

theorem dropAxes_notMem : ∀ (l : List Nat) (p : Nat), (∀ k, k < l.length → p + k ∉ axes) →
    dropAxes axes f p l = l
  | [], _, _ => rfl
  | i :: l, p, h => by
    have h0 := h 0 (by simp)
    unfold dropAxes
    rw [if_neg (by simpa using h0), dropAxes_notMem l (p + 1) fun k hk => by
      have := h (k + 1) (by simpa using hk)
      rwa [show p + 1 + k = p + (k + 1) by omega]]

/-- On reduced axes only the number of entries matters. -/
theorem dropAxes_mem : ∀ (l : List Nat) (p : Nat), (∀ k, k < l.length → p + k ∈ axes) →
    dropAxes axes f p l = f.elim [] (List.replicate l.length)
  | [], _, _ => by cases f <;> rfl
  | i :: l, p, h => by
    have h0 := h 0 (by simp)
    unfold dropAxes
    rw [if_pos (by simpa using h0), dropAxes_mem l (p + 1) fun k hk => by
      have := h (k + 1) (by simpa using hk)
      rwa [show p + 1 + k = p + (k + 1) by omega]]
    cases f <;> rfl

end DropAxes

/-- The value put on reduced axes of a shape, of an index. -/
abbrev shFill (keep : Bool) : Option Nat := if keep then some 1 else none
abbrev ixFill (keep : Bool) : Option Nat := if keep then some 0 else none

theorem inBounds_dropAxes {axes : List Nat} {keep : Bool} : ∀ {sh t : List Nat} (p : Nat), InBounds sh t →
    InBounds (dropAxes axes (shFill keep) p sh) (dropAxes axes (ixFill keep) p t)
  | [], [], _, _ => trivial
  | s :: sh, i :: t, p, h => by
    have ih := inBounds_dropAxes (axes := axes) (keep := keep) (p + 1) h.2
    unfold dropAxes
    by_cases hp : p ∈ axes
    · rw [if_pos hp, if_pos hp]
      cases keep with
      | true => exact ⟨Nat.zero_lt_one, ih⟩
      | false => exact ih
    · rw [if_neg hp, if_neg hp]
      exact ⟨h.1, ih⟩
  | [], _ :: _, _, h => h.elim
  | _ :: _, [], _, h => h.elim

theorem length_dropAxes_fill {axes : List Nat} {keep : Bool} {l l' : List Nat} (h : l.length = l'.length)
    (p : Nat) : (dropAxes axes (shFill keep) p l).length = (dropAxes axes (ixFill keep) p l').length := by
  rw [length_dropAxes (keep := keep) (by cases keep <;> rfl),
    length_dropAxes (keep := keep) (by cases keep <;> rfl), h]

/-! ### Representatives of a group: zero on the reduced axes -/

/-- The index with 0 on the reduced axes. -/
abbrev zeroOn (axes : List Nat) (p : Nat) (t : List Nat) : List Nat := dropAxes axes (some 0) p t

theorem zeroOn_inBounds {axes : List Nat} : ∀ {sh t : List Nat} (p : Nat), InBounds sh t →
    InBounds sh (zeroOn axes p t)
  | [], [], _, _ => trivial
  | s :: sh, i :: t, p, h => by
    have ih := zeroOn_inBounds (axes := axes) (p + 1) h.2
    have h1 := h.1
    simp only [zeroOn, dropAxes]
    by_cases hp : p ∈ axes
    · rw [if_pos hp]; exact ⟨by omega, ih⟩
    · rw [if_neg hp]; exact ⟨h.1, ih⟩
  | [], _ :: _, _, h => h.elim
  | _ :: _, [], _, h => h.elim

theorem rowRank_zeroOn_le {axes : List Nat} : ∀ (sh t : List Nat) (p : Nat),
    rowRank sh (zeroOn axes p t) ≤ rowRank sh t
  | [], t, _ => by simp
  | s :: sh, [], _ => by simp [dropAxes]
  | s :: sh, i :: t, p => by
    have ih := rowRank_zeroOn_le (axes := axes) sh t (p + 1)
    simp only [zeroOn, dropAxes] at ih ⊢
    by_cases hp : p ∈ axes
    · simp only [if_pos hp, rowRank_cons]; omega
    · simp only [if_neg hp, rowRank_cons]; omega

theorem dropAxes_zeroOn {axes : List Nat} {keep : Bool} : ∀ (t : List Nat) (p : Nat),
    dropAxes axes (ixFill keep) p (zeroOn axes p t) = dropAxes axes (ixFill keep) p t
  | [], _ => rfl
  | i :: t, p => by
    have ih := dropAxes_zeroOn (axes := axes) (keep := keep) t (p + 1)
    simp only [zeroOn] at ih
    by_cases hp : p ∈ axes
    · simp only [zeroOn, dropAxes, if_pos hp, ih]
    · simp only [zeroOn, dropAxes, if_neg hp, ih]

theorem lexLt_dropAxes {axes : List Nat} {keep : Bool} : ∀ (t t' : List Nat) (p : Nat),
    zeroOn axes p t = t → lexLt t' t →
      lexLt (dropAxes axes (ixFill keep) p t') (dropAxes axes (ixFill keep) p t)
  | [], t', _, _, h => by cases t' <;> exact h.elim
  | i :: t, [], _, _, h => h.elim
  | i :: t, j :: t', p, hz, h => by
    by_cases hp : p ∈ axes
    · simp only [zeroOn, dropAxes, if_pos hp, List.cons.injEq] at hz
      rcases h with h | ⟨rfl, h⟩
      · omega
      · have ih := lexLt_dropAxes (keep := keep) t t' (p + 1) hz.2 h
        simp only [dropAxes, if_pos hp]
        cases keep with
        | true => exact .inr ⟨rfl, ih⟩
        | false => exact ih
    · simp only [zeroOn, dropAxes, if_neg hp, List.cons.injEq] at hz
      simp only [dropAxes, if_neg hp]
      rcases h with h | ⟨rfl, h⟩
      · exact .inl h
      · exact .inr ⟨rfl, lexLt_dropAxes t t' (p + 1) hz.2 h⟩

/-- Every index of the reduction comes from an index of the argument. -/
theorem exists_dropAxes {axes : List Nat} {keep : Bool} : ∀ {sh r : List Nat} (p : Nat), numel sh ≠ 0 →
    InBounds (dropAxes axes (shFill keep) p sh) r →
      ∃ t, InBounds sh t ∧ dropAxes axes (ixFill keep) p t = r
  | [], r, _, _, h => by
    have : r = [] := by cases r with
      | nil => rfl
      | cons _ _ => exact h.elim
    subst this
    exact ⟨[], trivial, rfl⟩
  | s :: sh, r, p, h0, h => by
    have hs : s ≠ 0 := fun e => h0 (by simp [e])
    have h0' : numel sh ≠ 0 := fun e => h0 (by simp [e])
    by_cases hp : p ∈ axes
    · cases keep with
      | true =>
        simp only [dropAxes, if_pos hp] at h
        obtain ⟨i, r', rfl⟩ : ∃ i r', r = i :: r' := by
          cases r with
          | nil => exact h.elim
          | cons i r' => exact ⟨i, r', rfl⟩
        obtain ⟨t, ht, hr⟩ := exists_dropAxes (keep := true) (p + 1) h0' h.2
        refine ⟨0 :: t, ⟨by omega, ht⟩, ?_⟩
        have : i = 0 := by have := h.1; omega
        subst this
        simp only [dropAxes, if_pos hp]
        rw [← hr]
        rfl
      | false =>
        simp only [dropAxes, if_pos hp] at h
        obtain ⟨t, ht, hr⟩ := exists_dropAxes (keep := false) (p + 1) h0' h
        refine ⟨0 :: t, ⟨by omega, ht⟩, ?_⟩
        simp only [dropAxes, if_pos hp]
        exact hr
    · simp only [dropAxes, if_neg hp] at h
      obtain ⟨i, r', rfl⟩ : ∃ i r', r = i :: r' := by
        cases r with
        | nil => exact h.elim
        | cons i r' => exact ⟨i, r', rfl⟩
      obtain ⟨t, ht, hr⟩ := exists_dropAxes (keep := keep) (p + 1) h0' h.2
      refine ⟨i :: t, ⟨h.1, ht⟩, ?_⟩
      simp only [dropAxes, if_neg hp]
      rw [← hr]

/-! ### `next_idx` is the odometer -/

theorem immNextIdxRev_spec : ∀ {ns is : List Nat}, InBounds ns is →
    (colRank ns is + 1 < numel ns → (immNextIdxRev is ns).2 = false ∧
      InBounds ns (immNextIdxRev is ns).1 ∧ colRank ns (immNextIdxRev is ns).1 = colRank ns is + 1) ∧
    (colRank ns is + 1 = numel ns → (immNextIdxRev is ns).2 = true)
  | [], [], _ => by simp [immNextIdxRev]
  | n :: ns, i :: is, h => by
    have ih := immNextIdxRev_spec h.2
    have hi := h.1
    have hlt := colRank_lt h.2
    by_cases hc : (i : Int) ≥ (n : Int) - 1
    · have hin : i + 1 = n := by omega
      have e : immNextIdxRev (i :: is) (n :: ns) =
          (0 :: (immNextIdxRev is ns).1, (immNextIdxRev is ns).2) := by
        simp only [immNextIdxRev, if_pos hc]
      rw [e]
      simp only [colRank_cons, numel_cons]
      have e2 : i + n * colRank ns is + 1 = n * (colRank ns is + 1) := by
        rw [Nat.mul_add, Nat.mul_one]; omega
      rw [e2]
      constructor
      · intro hl
        have := ih.1 (Nat.lt_of_mul_lt_mul_left hl)
        refine ⟨this.1, ⟨by omega, this.2.1⟩, ?_⟩
        rw [this.2.2]; omega
      · intro hl
        exact ih.2 (Nat.eq_of_mul_eq_mul_left (by omega) hl)
    · have e : immNextIdxRev (i :: is) (n :: ns) = ((i + 1) :: is, false) := by
        simp only [immNextIdxRev, if_neg hc]
      rw [e]
      simp only [colRank_cons, numel_cons]
      refine ⟨fun _ => ⟨trivial, ⟨by omega, h.2⟩, by omega⟩, fun hl => ?_⟩
      exfalso
      have : n * (colRank ns is + 1) ≤ n * numel ns := Nat.mul_le_mul_left _ hlt
      rw [Nat.mul_add, Nat.mul_one] at this
      omega
  | [], _ :: _, h => h.elim
  | _ :: _, [], h => h.elim

/-! ### Enumeration of the indices -/

/-- The `k`-th index in row-major order. -/
def nthIndex (sh : List Nat) (k : Nat) : List Nat := (rowIndices sh).getD k []

theorem nthIndex_spec {sh : List Nat} {k : Nat} (h : k < numel sh) :
    InBounds sh (nthIndex sh k) ∧ rowRank sh (nthIndex sh k) = k := by
  have hl : k < (rowIndices sh).length := by rw [length_rowIndices]; exact h
  have e : (rowIndices sh)[k]? = some (nthIndex sh k) := by
    unfold nthIndex
    rw [List.getD_eq_getElem?_getD, List.getElem?_eq_getElem hl]; rfl
  refine ⟨mem_rowIndices.1 (List.mem_of_getElem? e), ?_⟩
  have h2 := congrArg (fun l => l[k]?) (map_rowRank_rowIndices sh)
  simp only [List.getElem?_map, e, Option.map_some, List.getElem?_range h] at h2
  exact Option.some.inj h2

theorem nthIndex_rowRank {sh t : List Nat} (h : InBounds sh t) : nthIndex sh (rowRank sh t) = t := by
  have := nthIndex_spec (rowRank_lt h)
  exact rowRank_inj this.1 h this.2

theorem rowIndices_eq_nth (sh : List Nat) : rowIndices sh = (List.range (numel sh)).map (nthIndex sh) := by
  apply List.ext_getElem?
  intro k
  by_cases h : k < numel sh
  · rw [List.getElem?_map, List.getElem?_range h, Option.map_some]
    have hl : k < (rowIndices sh).length := by rw [length_rowIndices]; exact h
    unfold nthIndex
    rw [List.getD_eq_getElem?_getD, List.getElem?_eq_getElem hl]; rfl
  · rw [List.getElem?_eq_none (by rw [length_rowIndices]; omega), List.getElem?_eq_none (by simp; omega)]

theorem nextIdx_spec {p : ImmPlan} {t : List Nat} (h : InBounds p.iterShape t) :
    (rowRank p.iterShape t + 1 < numel p.iterShape →
      immNextIdx p t = (nthIndex p.iterShape (rowRank p.iterShape t + 1), false,
        (innerProduct ((nthIndex p.iterShape (rowRank p.iterShape t + 1)).map Int.ofNat)
          p.iterStrides 0).toNat)) ∧
    (rowRank p.iterShape t + 1 = numel p.iterShape → (immNextIdx p t).2.1 = true) := by
  have hs := immNextIdxRev_spec h.reverse
  have er : colRank p.iterShape.reverse t.reverse = rowRank p.iterShape t := by
    rw [colRank_eq_rowRank_reverse h.reverse.length_eq, List.reverse_reverse, List.reverse_reverse]
  rw [er, numel_reverse] at hs
  constructor
  · intro hl
    obtain ⟨h1, h2, h3⟩ := hs.1 hl
    have hb : InBounds p.iterShape (immNextIdxRev t.reverse p.iterShape.reverse).1.reverse := by
      have := h2.reverse
      rwa [List.reverse_reverse] at this
    have hr : rowRank p.iterShape (immNextIdxRev t.reverse p.iterShape.reverse).1.reverse =
        rowRank p.iterShape t + 1 := by
      rw [← h3, colRank_eq_rowRank_reverse h2.length_eq, List.reverse_reverse]
    have e := nthIndex_rowRank hb
    rw [hr] at e
    unfold immNextIdx
    simp only
    rw [h1, e]
  · intro hl
    exact hs.2 hl

/-! ### The group of an element of the result -/

theorem rowIndices_append (a b : List Nat) :
    rowIndices (a ++ b) = (rowIndices a).flatMap fun t => (rowIndices b).map (t ++ ·) := by
  induction a with
  | nil => simp [rowIndices]
  | cons s a ih =>
    simp only [List.cons_append, rowIndices, ih, List.flatMap_assoc, List.map_flatMap, List.flatMap_map,
      List.map_map]
    rfl

theorem flatMap_if {γ δ : Type} (c : γ → Bool) (g : γ → List δ) (l : List γ) :
    l.flatMap (fun t => if c t then g t else []) = (l.filter c).flatMap g := by
  induction l with
  | nil => rfl
  | cons x l ih =>
    rw [List.flatMap_cons, ih, List.filter_cons]
    by_cases h : c x = true
    · rw [if_pos h, if_pos h, List.flatMap_cons]
    · rw [if_neg h, if_neg h, List.nil_append]

theorem filter_eq_singleton {γ : Type} [DecidableEq γ] {s : γ} : ∀ (l : List γ), l.Nodup → s ∈ l →
    l.filter (fun x => decide (x = s)) = [s]
  | [], _, h => by simp at h
  | x :: l, hn, h => by
    rw [List.nodup_cons] at hn
    by_cases hx : x = s
    · subst hx
      rw [List.filter_cons, if_pos (by simp)]
      have : l.filter (fun y => decide (y = x)) = [] := by
        rw [List.filter_eq_nil_iff]
        intro y hy
        simp only [decide_eq_true_eq]
        rintro rfl
        exact hn.1 hy
      rw [this]
    · rw [List.filter_cons, if_neg (by simpa using hx)]
      exact filter_eq_singleton l hn.2 ((List.mem_cons.1 h).resolve_left (fun e => hx e.symm))

structure RowSplit (axes pre mid post : List Nat) : Prop where
  midIn : ∀ k, k < mid.length → pre.length + k ∈ axes
  postOut : ∀ k, k < post.length → pre.length + mid.length + k ∉ axes

section Split
variable {axes pre mid post : List Nat} {keep : Bool}

/-- Shape of the result along `pre`. -/
abbrev redPre (axes pre : List Nat) (keep : Bool) : List Nat := dropAxes axes (shFill keep) 0 pre
abbrev redPreIx (axes : List Nat) (keep : Bool) (t : List Nat) : List Nat := dropAxes axes (ixFill keep) 0 t

theorem redShape_split (hs : RowSplit axes pre mid post) :
    redShape (pre ++ (mid ++ post)) axes keep =
      redPre axes pre keep ++ ((shFill keep).elim [] (List.replicate mid.length) ++ post) := by
  unfold redShape
  rw [dropAxes_append, dropAxes_append, dropAxes_mem mid, dropAxes_notMem post]
  · intro k hk; rw [Nat.zero_add]; exact hs.postOut k hk
  · intro k hk; rw [Nat.zero_add]; exact hs.midIn k hk

theorem redIndex_split (hs : RowSplit axes pre mid post) {t u s : List Nat} (ht : t.length = pre.length)
    (hu : u.length = mid.length) (hsl : s.length = post.length) :
    redIndex axes keep (t ++ (u ++ s)) =
      redPreIx axes keep t ++ ((ixFill keep).elim [] (List.replicate mid.length) ++ s) := by
  unfold redIndex
  rw [dropAxes_append, dropAxes_append, dropAxes_mem u, dropAxes_notMem s, hu]
  · intro k hk; rw [Nat.zero_add, ht, hu]; exact hs.postOut k (by omega)
  · intro k hk; rw [Nat.zero_add, ht]; exact hs.midIn k (by omega)

theorem numel_fill (n : Nat) : numel ((shFill keep).elim [] (List.replicate n)) = 1 := by
  cases keep with
  | false => rfl
  | true =>
    show numel (List.replicate n 1) = 1
    induction n with
    | zero => rfl
    | succ n ih => rw [List.replicate_succ, numel_cons, ih]

theorem inBounds_fill {n : Nat} : InBounds ((shFill keep).elim [] (List.replicate n))
    ((ixFill keep).elim [] (List.replicate n)) := by
  cases keep with
  | false => trivial
  | true =>
    show InBounds (List.replicate n 1) (List.replicate n 0)
    induction n with
    | zero => trivial
    | succ n ih => exact ⟨Nat.zero_lt_one, ih⟩

theorem fill_unique {n : Nat} {r : List Nat} (h : InBounds ((shFill keep).elim [] (List.replicate n)) r) :
    r = (ixFill keep).elim [] (List.replicate n) := by
  have h1 := rowRank_lt h
  have h2 := rowRank_lt (inBounds_fill (keep := keep) (n := n))
  rw [numel_fill] at h1 h2
  exact rowRank_inj h inBounds_fill (by omega)

/-- Indices of the result. -/
theorem split_redIndex (hs : RowSplit axes pre mid post) {r : List Nat}
    (hb : InBounds (redShape (pre ++ (mid ++ post)) axes keep) r) :
    ∃ r1 s, InBounds (redPre axes pre keep) r1 ∧ InBounds post s ∧
      r = r1 ++ ((ixFill keep).elim [] (List.replicate mid.length) ++ s) ∧
      rowRank (redShape (pre ++ (mid ++ post)) axes keep) r =
        rowRank (redPre axes pre keep) r1 * numel post + rowRank post s := by
  rw [redShape_split hs] at hb ⊢
  have hlen := hb.length_eq
  rw [List.length_append, List.length_append] at hlen
  obtain ⟨r1, r', rfl, h1⟩ : ∃ r1 r', r = r1 ++ r' ∧ r1.length = (redPre axes pre keep).length :=
    ⟨r.take (redPre axes pre keep).length, r.drop (redPre axes pre keep).length,
      (List.take_append_drop _ _).symm, by rw [List.length_take]; omega⟩
  rw [inBounds_append_iff h1] at hb
  rw [List.length_append] at hlen
  obtain ⟨r2, s, rfl, h2⟩ : ∃ r2 s, r' = r2 ++ s ∧
      r2.length = ((shFill keep).elim [] (List.replicate mid.length)).length :=
    ⟨r'.take ((shFill keep).elim [] (List.replicate mid.length)).length,
      r'.drop ((shFill keep).elim [] (List.replicate mid.length)).length,
      (List.take_append_drop _ _).symm, by rw [List.length_take]; omega⟩
  rw [inBounds_append_iff h2] at hb
  have := fill_unique hb.2.1
  subst this
  refine ⟨r1, s, hb.1, hb.2.2, rfl, ?_⟩
  rw [rowRank_append h1, rowRank_append h2, numel_append, numel_fill, Nat.one_mul]
  have : rowRank ((shFill keep).elim [] (List.replicate mid.length))
      ((ixFill keep).elim [] (List.replicate mid.length)) = 0 := by
    have h2 := rowRank_lt (inBounds_fill (keep := keep) (n := mid.length))
    rw [numel_fill] at h2
    omega
  rw [this]; omega

theorem redGroup_split (hs : RowSplit axes pre mid post) {r1 s : List Nat}
    (hr1 : InBounds (redPre axes pre keep) r1) (hsb : InBounds post s) :
    redGroup (pre ++ (mid ++ post)) axes keep
        (r1 ++ ((ixFill keep).elim [] (List.replicate mid.length) ++ s)) =
      ((rowIndices pre).filter fun t => decide (redPreIx axes keep t = r1)).flatMap fun t =>
        (rowIndices mid).map fun u => t ++ (u ++ s) := by
  unfold redGroup
  rw [rowIndices_append, List.filter_flatMap, ← flatMap_if]
  apply List.flatMap_congr
  intro t ht
  have htb := mem_rowIndices.1 ht
  rw [rowIndices_append, List.map_flatMap, List.filter_flatMap]
  have key : ∀ u ∈ rowIndices mid,
      List.filter (fun idx => decide (redIndex axes keep idx =
          r1 ++ ((ixFill keep).elim [] (List.replicate mid.length) ++ s)))
        (List.map (fun x => t ++ x) (List.map (fun x => u ++ x) (rowIndices post))) =
      if decide (redPreIx axes keep t = r1) = true then [t ++ (u ++ s)] else [] := by
    intro u hu
    have hub := mem_rowIndices.1 hu
    rw [List.map_map, List.filter_map]
    have hfun : ∀ s' ∈ rowIndices post, ((fun idx => decide (redIndex axes keep idx =
          r1 ++ ((ixFill keep).elim [] (List.replicate mid.length) ++ s))) ∘
          ((fun x => t ++ x) ∘ fun x => u ++ x)) s' =
        (decide (redPreIx axes keep t = r1) && decide (s' = s)) := by
      intro s' hs'
      have hsb' := mem_rowIndices.1 hs'
      simp only [Function.comp]
      have e := redIndex_split (keep := keep) hs htb.length_eq hub.length_eq hsb'.length_eq
      rw [← Bool.decide_and]
      apply decide_eq_decide.2
      rw [e]
      have hl : (redPreIx axes keep t).length = r1.length := by
        rw [hr1.length_eq]
        exact (length_dropAxes_fill htb.length_eq.symm 0).symm
      constructor
      · intro h
        have := List.append_inj h hl
        exact ⟨this.1, List.append_cancel_left this.2⟩
      · rintro ⟨h, rfl⟩
        rw [h]
    rw [List.filter_congr hfun]
    by_cases hc : redPreIx axes keep t = r1
    · rw [if_pos (by simpa using hc)]
      simp only [hc, decide_true, Bool.true_and]
      rw [filter_eq_singleton _ (rowIndices_nodup post) (mem_rowIndices.2 hsb)]
      rfl
    · rw [if_neg (by simpa using hc)]
      simp [hc]
  rw [List.flatMap_congr key]
  by_cases hc : redPreIx axes keep t = r1
  · simp only [hc, decide_true, if_true]
    rw [List.map_eq_flatMap]
  · simp [hc]

end Split

end Xt
