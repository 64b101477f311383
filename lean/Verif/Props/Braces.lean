import Verif.Model.Braces
import Verif.Props.DynamicView
/-!
# C74: arrays from nested braces
-/

namespace Xt
open Spec

theorem nestedCopy_eq {α : Type} : (n : Nat) → (t : Braces α n) → nestedCopy n t = bvalues n t
  | 0, _ => rfl
  | n + 1, (l : List (Braces α n)) => by
    show (l.map (nestedCopy n)).flatten = l.flatMap (bvalues n)
    rw [← List.flatMap_def, funext (nestedCopy_eq n)]

theorem bget_succ {α : Type} (n : Nat) (l : List (Braces α n)) (i : Nat) (idx : List Nat) :
    bget (n + 1) l (i :: idx) = match l[i]? with
      | some t => bget n t idx
      | none => none := by
  rw [bget]
  rfl

/-- In rectangular braces the values in reading order are those at the indices in row-major order. -/
theorem bvalues_rect {α : Type} : (sh : List Nat) → (t : Braces α sh.length) → Rect sh t →
    (bvalues sh.length t).map some = (rowIndices sh).map (bget sh.length t)
  | [], _, _ => rfl
  | k :: sh, (l : List (Braces α sh.length)), h => by
    obtain ⟨h1, h2⟩ := h
    show (l.flatMap (bvalues sh.length)).map some =
      ((List.range k).flatMap fun i => (rowIndices sh).map (i :: ·)).map (bget (sh.length + 1) l)
    have key : ∀ (m : List (Braces α sh.length)), (∀ x ∈ m, Rect sh x) →
        ∀ (f : Nat → List (Option α)), (∀ i (x : Braces α sh.length), m[i]? = some x →
          f i = (rowIndices sh).map (bget sh.length x)) →
        (m.flatMap (bvalues sh.length)).map some = (List.range m.length).flatMap f := by
      intro m
      induction m with
      | nil => intro _ f _; rfl
      | cons x m ih =>
        intro hm f hf
        rw [List.flatMap_cons, List.map_append, List.length_cons, List.range_succ_eq_map,
          List.flatMap_cons, bvalues_rect sh x (hm x (by simp)), hf 0 x rfl,
          ih (fun y hy => hm y (by simp [hy])) (fun i => f (i + 1)) (fun i y hy => hf (i + 1) y hy),
          List.flatMap_map]
    rw [key l h2 (fun i => (rowIndices sh).map fun idx => bget (sh.length + 1) l (i :: idx))]
    · rw [h1, List.map_flatMap]; simp [Function.comp_def]
    · intro i x hx
      apply List.map_congr_left
      intro idx _
      rw [bget_succ, hx]

theorem initShape_cons {α : Type} (n : Nat) (x : Braces α n) (l : List (Braces α n)) :
    initShape (n + 1) (x :: l : List (Braces α n)) = (l.length + 1) :: initShape n x := by
  show (List.range (n + 1)).map (fun i => initShapeAt (n + 1) i (x :: l : List (Braces α n))) = _
  rw [List.range_succ_eq_map, List.map_cons, List.map_map]; rfl

/-- The shape found is that of the braces when no level but the last is empty. -/
theorem initShape_rect {α : Type} : (sh : List Nat) → (t : Braces α sh.length) → Rect sh t →
    (∀ k ∈ sh.dropLast, 0 < k) → initShape sh.length t = sh
  | [], _, _, _ => rfl
  | [k], (l : List (Braces α 0)), h, _ => by
    show [l.length] = [k]
    rw [h.1]
  | k :: k' :: sh, (l : List (Braces α (k' :: sh).length)), h, hp => by
    obtain ⟨h1, h2⟩ := h
    have hk := hp k (by simp)
    match l, h1, h2 with
    | [], h1, _ => simp at h1; omega
    | x :: l, h1, h2 =>
      show initShape ((k' :: sh).length + 1) (x :: l : List (Braces α (k' :: sh).length)) = _
      rw [initShape_cons, initShape_rect (k' :: sh) x (h2 x (by simp))
        (fun j hj => hp j (by simp [hj]))]
      simp at h1; rw [h1]

theorem bracePositions_eq (L : Layout) (sh : List Nat) :
    bracePositions L sh = (rowIndices sh).map fun (idx : List Nat) =>
      dataOffset (computeStrides L L sh).1 false (toInts idx) := by
  rw [bracePositions]
  split
  · rename_i h
    subst h
    rw [computeSize_eq, ← map_rowRank_rowIndices, List.map_map]
    apply List.map_congr_left
    intro idx hi
    have hb := mem_rowIndices.mp hi
    have hl : (computeStrides .row_major .row_major sh).1.length = sh.length := (computeStrides_length _ _ _)
    rw [dataOffset_eq _ _ (by rw [hl]; simp [toInts, hb.length_eq]),
      dot_computeStrides_row (Or.inl rfl) hb]; rfl
  · rfl

/-- Filling from as many values as elements, in reading order. -/
theorem fillBraces_ok {α : Type} (L : Layout) (sh : List Nat) (n : Nat) (t : Braces α n)
    (f : List Nat → α) (h : bvalues n t = (rowIndices sh).map f) :
    ∃ b, fillBraces L sh n t = .ok b ∧ b.length = numel sh ∧
      ∀ idx, InBounds sh idx → 0 ≤ dataOffset (computeStrides L L sh).1 false (toInts idx) ∧
        b[(dataOffset (computeStrides L L sh).1 false (toInts idx)).toNat]? = some (some (f idx)) := by
  have hl := computeStrides_length L L sh
  have hoff : ∀ idx, InBounds sh idx → dataOffset (computeStrides L L sh).1 false (toInts idx) =
      dot (computeStrides L L sh).1 (toInts idx) := by
    intro idx hb; exact dataOffset_eq _ _ (by rw [hl]; simp [toInts, hb.length_eq])
  have hd : ∃ rk : List Nat → Nat, (∀ idx, InBounds sh idx →
      dot (computeStrides L L sh).1 (toInts idx) = (rk idx : Int) ∧ rk idx < numel sh) ∧
      ∀ i j, InBounds sh i → InBounds sh j → rk i = rk j → i = j := by
    by_cases hL : L = .row_major
    · exact ⟨rowRank sh, fun idx hb => ⟨dot_computeStrides_row (Or.inl hL) hb, rowRank_lt hb⟩,
        fun i j hi hj h => rowRank_inj hi hj h⟩
    · exact ⟨colRank sh, fun idx hb => ⟨dot_computeStrides_col (by simp [hL]) hb, colRank_lt hb⟩,
        fun i j hi hj h => colRank_inj hi hj h⟩
  obtain ⟨rk, hrk, hinj⟩ := hd
  have hzip : (bracePositions L sh).zip ((nestedCopy n t).map some) = (rowIndices sh).map fun idx =>
      (dataOffset (computeStrides L L sh).1 false (toInts idx), some (f idx)) := by
    rw [bracePositions_eq, nestedCopy_eq, h, List.map_map, List.zip_map']; rfl
  obtain ⟨b, h1, h2, -, h4⟩ := writeAll_spec ((bracePositions L sh).zip ((nestedCopy n t).map some))
    (List.replicate (computeSize sh) (none : Option α)) (by
      intro w hw
      rw [hzip, List.mem_map] at hw
      obtain ⟨idx, hi, rfl⟩ := hw
      have hb := mem_rowIndices.mp hi
      have := hrk idx hb
      simp only [hoff idx hb, this.1, List.length_replicate, computeSize_eq]
      omega)
  refine ⟨b, ?_, by simpa [computeSize_eq] using h2, ?_⟩
  · rw [fillBraces, if_neg, h1]
    rw [bracePositions_eq, nestedCopy_eq, h]; simp
  · intro idx hb
    have := hrk idx hb
    refine ⟨by rw [hoff idx hb, this.1]; omega, ?_⟩
    apply h4
    · refine ⟨_, by rw [hzip, List.mem_map]; exact ⟨idx, mem_rowIndices.mpr hb, rfl⟩, ?_⟩
      simp only [hoff idx hb, this.1]; omega
    · intro w hw hwq
      rw [hzip, List.mem_map] at hw
      obtain ⟨jdx, hj, rfl⟩ := hw
      have hjb := mem_rowIndices.mp hj
      have hj2 := hrk jdx hjb
      simp only [hoff idx hb, hoff jdx hjb, this.1, hj2.1] at hwq
      have : jdx = idx := hinj jdx idx hjb hb (by omega)
      rw [this]

theorem bget_isSome {α : Type} : (sh : List Nat) → (t : Braces α sh.length) → Rect sh t →
    ∀ idx, InBounds sh idx → ∃ x, bget sh.length t idx = some x
  | [], t, _, [], _ => ⟨t, rfl⟩
  | [], _, _, _ :: _, h => by simp [InBounds] at h
  | _ :: _, _, _, [], h => by simp [InBounds] at h
  | k :: sh, (l : List (Braces α sh.length)), h, i :: idx, hi => by
    obtain ⟨h1, h2⟩ := h
    have hi' : i < k ∧ InBounds sh idx := hi
    have hlt : i < l.length := by omega
    obtain ⟨x, hx⟩ := bget_isSome sh l[i] (h2 _ (List.getElem_mem hlt)) idx hi'.2
    refine ⟨x, ?_⟩
    show bget (sh.length + 1) l (i :: idx) = _
    rw [bget_succ, List.getElem?_eq_getElem hlt]; exact hx

theorem rect_values {α : Type} (sh : List Nat) (t : Braces α sh.length) (h : Rect sh t) (d : α) :
    bvalues sh.length t = (rowIndices sh).map fun idx => (bget sh.length t idx).getD d := by
  have := bvalues_rect sh t h
  apply List.map_injective_iff.mpr (Option.some_injective α)
  rw [this, List.map_map]
  apply List.map_congr_left
  intro idx hi
  obtain ⟨x, hx⟩ := bget_isSome sh t h idx (mem_rowIndices.mp hi)
  simp [hx]

/-- Filling an array of shape `sh` from rectangular braces of that shape. -/
theorem fillBraces_rect {α : Type} (L : Layout) (sh : List Nat) (t : Braces α sh.length)
    (h : Rect sh t) :
    ∃ b, fillBraces L sh sh.length t = .ok b ∧ b.length = numel sh ∧
      ∀ idx, InBounds sh idx → ∃ x, bget sh.length t idx = some x ∧
        0 ≤ dataOffset (computeStrides L L sh).1 false (toInts idx) ∧
        b[(dataOffset (computeStrides L L sh).1 false (toInts idx)).toNat]? = some (some x) := by
  by_cases hne : Nonempty α
  · obtain ⟨d⟩ := hne
    obtain ⟨b, h1, h2, h3⟩ := fillBraces_ok L sh sh.length t _ (rect_values sh t h d)
    refine ⟨b, h1, h2, ?_⟩
    intro idx hi
    obtain ⟨x, hx⟩ := bget_isSome sh t h idx hi
    have := h3 idx hi
    rw [hx] at this
    exact ⟨x, hx, this⟩
  · have hemp : rowIndices sh = [] := by
      rw [List.eq_nil_iff_forall_not_mem]
      intro idx hi
      obtain ⟨x, -⟩ := bget_isSome sh t h idx (mem_rowIndices.mp hi)
      exact hne ⟨x⟩
    have hv : bvalues sh.length t = [] := by
      have := bvalues_rect sh t h
      rw [hemp] at this; simpa using this
    have hn : numel sh = 0 := by rw [← length_rowIndices, hemp]; rfl
    refine ⟨[], ?_, by rw [hn]; rfl, ?_⟩
    · rw [fillBraces, nestedCopy_eq, hv, bracePositions_eq, hemp, computeSize_eq, hn]
      rfl
    · intro idx hi
      have := mem_rowIndices.mpr hi
      rw [hemp] at this; simp at this

/-- C74: an `xarray` or `xtensor` built from rectangular braces, none of whose levels but the last is
empty, has the shape of the braces and at every index the value written there, in either layout. -/
theorem C74_rectangular {α : Type} (L : Layout) (sh : List Nat) (t : Braces α sh.length)
    (h : Rect sh t) (hp : ∀ k ∈ sh.dropLast, 0 < k) :
    ∃ b, arrayOfBraces L sh.length t = .ok (sh, b) ∧ b.length = numel sh ∧
      ∀ idx, InBounds sh idx → ∃ x, bget sh.length t idx = some x ∧
        0 ≤ dataOffset (computeStrides L L sh).1 false (toInts idx) ∧
        b[(dataOffset (computeStrides L L sh).1 false (toInts idx)).toNat]? = some (some x) := by
  obtain ⟨b, h1, h2⟩ := fillBraces_rect L sh t h
  exact ⟨b, by rw [arrayOfBraces, initShape_rect sh t h hp, h1]; rfl, h2⟩

example : Rect [2, 3] ([[1, 2, 3], [4, 5, 6]] : List (List Nat)) ∧
    arrayOfBraces .column_major 2 ([[1, 2, 3], [4, 5, 6]] : List (List Nat)) =
      .ok ([2, 3], [some 1, some 4, some 2, some 5, some 3, some 6]) :=
  ⟨⟨rfl, fun x hx => by
    have hx' : x = ([1, 2, 3] : List Nat) ∨ x = ([4, 5, 6] : List Nat) := by
      rcases List.mem_cons.mp hx with h | h
      · exact Or.inl h
      · exact Or.inr (List.mem_singleton.mp h)
    rcases hx' with rfl | rfl <;> exact ⟨rfl, fun _ _ => trivial⟩⟩, by decide⟩

/-- C74: the level at which braces are empty ends the shape: all further extents are 0, whatever is
written — `{{}, {}}` three levels deep has shape `(2, 0, 0)`. -/
theorem C74_empty {α : Type} (n : Nat) :
    initShape (α := α) (n + 1) ([] : List (Braces α n)) = List.replicate (n + 1) 0 := by
  show (List.range (n + 1)).map (fun i => initShapeAt (n + 1) i ([] : List (Braces α n))) = _
  rw [List.eq_replicate_iff]
  refine ⟨by simp, ?_⟩
  intro k hk
  simp only [List.mem_map, List.mem_range] at hk
  obtain ⟨i, -, rfl⟩ := hk
  cases i <;> rfl

example : arrayOfBraces .row_major 3 ([[], []] : List (List (List Nat))) = .ok ([2, 0, 0], []) := by
  decide

/-- C74: construction of an `xarray` or `xtensor` never throws; it is undefined exactly when the
braces hold more values than the shape read off the first braces of each level has elements. -/
theorem C74_undefined_iff {α : Type} (L : Layout) (n : Nat) (t : Braces α n) :
    arrayOfBraces L n t ≠ .throws ∧
    (arrayOfBraces L n t = .ub ↔ numel (initShape n t) < (bvalues n t).length) := by
  have hlen : (bracePositions L (initShape n t)).length = numel (initShape n t) := by
    rw [bracePositions_eq, List.length_map, length_rowIndices]
  have hbound : ∀ p ∈ bracePositions L (initShape n t), 0 ≤ p ∧ p < numel (initShape n t) := by
    intro p hp
    rw [bracePositions_eq, List.mem_map] at hp
    obtain ⟨idx, hi, rfl⟩ := hp
    have hb := mem_rowIndices.mp hi
    rw [dataOffset_eq _ _ (by rw [computeStrides_length]; simp [toInts, hb.length_eq])]
    by_cases hL : L = .row_major
    · rw [dot_computeStrides_row (Or.inl hL) hb]; have := rowRank_lt hb; omega
    · rw [dot_computeStrides_col (by simp [hL]) hb]; have := colRank_lt hb; omega
  by_cases h : numel (initShape n t) < (bvalues n t).length
  · have : fillBraces L (initShape n t) n t = .ub := by
      rw [fillBraces, hlen, nestedCopy_eq, if_pos h]
    rw [arrayOfBraces, this]
    exact ⟨by simp [Res.map, Res.bind], by simp [Res.map, Res.bind, h]⟩
  · obtain ⟨b, h1, -, -, -⟩ := writeAll_spec
      ((bracePositions L (initShape n t)).zip ((nestedCopy n t).map some))
      (List.replicate (computeSize (initShape n t)) (none : Option α)) (by
        intro w hw
        have := hbound w.1 (List.of_mem_zip hw).1
        simpa [computeSize_eq] using this)
    have : fillBraces L (initShape n t) n t = .ok b := by
      rw [fillBraces, hlen, nestedCopy_eq, if_neg h, ← nestedCopy_eq, h1]
    rw [arrayOfBraces, this]
    exact ⟨by simp [Res.map, Res.bind], by simp [Res.map, Res.bind, h]⟩

/-- C74 fails for braces that are not rectangular, which are accepted: with a short first row the
constructor writes past the storage; with a long first row elements get no value; and with as many
values as elements they end up at other places than written. -/
theorem C74_ragged_wrong :
    arrayOfBraces .row_major 2 ([[1], [2, 3, 4]] : List (List Nat)) = .ub ∧
    arrayOfBraces .row_major 2 ([[1, 2, 3], [4]] : List (List Nat)) =
      .ok ([2, 3], [some 1, some 2, some 3, some 4, none, none]) ∧
    arrayOfBraces .row_major 2 ([[1, 2], [3], [4, 5, 6]] : List (List Nat)) =
      .ok ([3, 2], [some 1, some 2, some 3, some 4, some 5, some 6]) := by decide

theorem checkInitShape_iff {α : Type} : (sh : List Nat) → (t : Braces α sh.length) →
    (checkInitShape sh.length t sh = true ↔ Rect sh t)
  | [], _ => by simp [checkInitShape, Rect]
  | k :: sh, (l : List (Braces α sh.length)) => by
    show ((k == l.length) && l.all fun (x : Braces α sh.length) => checkInitShape sh.length x sh) = true ↔
      (l.length = k ∧ ∀ x ∈ l, Rect sh x)
    rw [Bool.and_eq_true, List.all_eq_true, beq_iff_eq]
    constructor
    · rintro ⟨h1, h2⟩
      exact ⟨h1.symm, fun x hx => (checkInitShape_iff sh x).mp (h2 x hx)⟩
    · rintro ⟨h1, h2⟩
      exact ⟨h1.symm, fun x hx => (checkInitShape_iff sh x).mpr (h2 x hx)⟩

/-- C74: an `xtensor_fixed` built from braces of its shape has at every index the value written
there; with assertions enabled all other braces are refused. -/
theorem C74_fixed {α : Type} (asserts : Bool) (L : Layout) (sh : List Nat)
    (t : Braces α sh.length) :
    (Rect sh t → ∃ b, fixedOfBraces asserts L sh t = .ok b ∧ b.length = numel sh ∧
      ∀ idx, InBounds sh idx → ∃ x, bget sh.length t idx = some x ∧
        0 ≤ dataOffset (computeStrides L L sh).1 false (toInts idx) ∧
        b[(dataOffset (computeStrides L L sh).1 false (toInts idx)).toNat]? = some (some x)) ∧
    (¬ Rect sh t → fixedOfBraces true L sh t = .throws) := by
  constructor
  · intro h
    obtain ⟨b, h1, h2⟩ := fillBraces_rect L sh t h
    refine ⟨b, ?_, h2⟩
    rw [fixedOfBraces, if_neg, h1]
    rw [(checkInitShape_iff sh t).mpr h]; simp
  · intro h
    rw [fixedOfBraces, if_pos]
    refine ⟨rfl, ?_⟩
    have := mt (checkInitShape_iff sh t).mp h
    simpa using this

example : fixedOfBraces false .row_major [2, 2] ([[1, 2], [3, 4]] : List (List Nat)) =
      .ok [some 1, some 2, some 3, some 4] ∧
    fixedOfBraces true .row_major [2, 2] ([[1, 2], [3]] : List (List Nat)) = .throws := by decide

/-- C74 fails for `xtensor_fixed` without assertions: braces of another shape are accepted, and with
more values than elements the constructor writes past the storage. -/
theorem C74_fixed_unchecked_wrong :
    fixedOfBraces false .row_major [2, 2] ([[1, 2, 3], [4, 5, 6]] : List (List Nat)) = .ub ∧
    fixedOfBraces false .row_major [2, 2] ([[1, 2, 3]] : List (List Nat)) =
      .ok [some 1, some 2, some 3, none] := by decide

end Xt
