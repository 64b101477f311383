import Verif.Model.Adapt
import Verif.Props.Container
import Verif.Props.Manip
/-!
# Adapted memory: C78
-/

namespace Xt
open Spec

variable {α : Type}

/-! ## Specification -/

/-- Place of an index among the elements, last axis fastest (`row`) or first axis fastest. -/
def Spec.place (row : Bool) (shape idx : List Nat) : Nat :=
  if row then rowRank shape idx else colRank shape idx

/-- The elements of a storage, first to last. -/
def Spec.contents (mem : List α) : AStore α → List α
  | .vec l => l
  | .arr l => l
  | .const l => l
  | .raw p m => (mem.drop p).take m

/-- A pointer's elements exist; nothing to ask of a sequence. -/
def Spec.Backed (mem : List α) : AStore α → Prop
  | .raw p m => p + m ≤ mem.length
  | _ => True

/-- Cells of the memory that are none of the storage's. -/
def Spec.Foreign : AStore α → Nat → Prop
  | .raw p m, q => q < p ∨ p + m ≤ q
  | _, _ => True

/-- Storages whose elements can be assigned. -/
def Spec.Writable : AStore α → Prop
  | .const _ => False
  | _ => True

/-- The static layout `L` and the argument `l` ask for the order `row`: `l` is one the static layout
allows, and names the order, `dynamic` naming the default one. -/
def Spec.Asks (d L l : Layout) (row : Bool) : Prop :=
  (L = .dynamic ∨ l = L) ∧ (if l = .dynamic then d else l) = (if row then Layout.row_major else Layout.column_major)

instance (d L l : Layout) (row : Bool) : Decidable (Asks d L l row) := by unfold Asks; infer_instance

/-- Every in-bounds index of `shape` reads the element of `xs` at its place. -/
def Spec.ReadsAll (mem : List α) (a : Adp α) (row : Bool) (shape : List Nat) (xs : List α) : Prop :=
  ∀ idx, InBounds shape idx → ∃ x, xs[place row shape idx]? = some x ∧ a.read mem (toInts idx) = some x

/-! ## Lemmas -/

theorem place_lt {row : Bool} {shape idx : List Nat} (h : InBounds shape idx) : place row shape idx < numel shape := by
  unfold place; split
  · exact rowRank_lt h
  · exact colRank_lt h

theorem place_inj {row : Bool} {shape i j : List Nat} (hi : InBounds shape i) (hj : InBounds shape j)
    (h : place row shape i = place row shape j) : i = j := by
  unfold place at h; split at h
  · exact rowRank_inj hi hj h
  · exact colRank_inj hi hj h

theorem place_surj (row : Bool) {shape : List Nat} {p : Nat} (h : p < numel shape) :
    ∃ idx, InBounds shape idx ∧ place row shape idx = p := by
  unfold place; split
  · exact rowRank_surj h
  · exact colRank_surj h

theorem offset_place {L l : Layout} {row : Bool} (hr : row = true ↔ (L = .row_major ∨ l = .row_major))
    {shape idx : List Nat} (hb : InBounds shape idx) :
    dataOffset (computeStrides L l shape).1 false (toInts idx) = (place row shape idx : Int) := by
  rw [dataOffset_eq _ _ (by simp [hb.length_eq])]
  unfold place
  by_cases h : L = .row_major ∨ l = .row_major
  · rw [dot_computeStrides_row h hb, if_pos (hr.2 h)]
  · rw [dot_computeStrides_col h hb, if_neg (fun hh => h (hr.1 hh))]

theorem AStore.read_contents {mem : List α} {s : AStore α} (he : Backed mem s) {i : Nat} (hi : i < s.count) :
    s.read mem (i : Int) = (contents mem s)[i]? := by
  have h0 : ¬ ((i : Int) < 0) := by omega
  cases s with
  | vec l => simp [AStore.read, contents]
  | arr l => simp [AStore.read, contents]
  | const l => simp [AStore.read, contents]
  | raw p m =>
    have hi' : i < m := hi
    have e : ((p : Int) + (i : Int)).toNat = p + i := by omega
    have h1 : ¬ ((p : Int) + (i : Int) < 0) := by omega
    simp only [AStore.read, contents, h1, if_false, e]
    rw [List.getElem?_take, if_pos hi', List.getElem?_drop]

theorem contents_length {mem : List α} {s : AStore α} (he : Backed mem s) : (contents mem s).length = s.count := by
  cases s with
  | raw p m =>
    have he' : p + m ≤ mem.length := he
    simp only [contents, AStore.count, List.length_take, List.length_drop]; omega
  | _ => rfl

theorem cellSet_nat (l : List α) (i : Nat) (x : α) (h : i < l.length) : cellSet l (i : Int) x = some (l.set i x) := by
  unfold cellSet; rw [if_pos ⟨by omega, by omega⟩]; simp

theorem AStore.write_contents {mem : List α} {s : AStore α} (he : Backed mem s) (hw : Writable s) {i : Nat}
    (hi : i < s.count) (x : α) :
    ∃ mem' s', s.write mem (i : Int) x = some (mem', s') ∧ s'.count = s.count ∧ Backed mem' s' ∧ Writable s' ∧
      (∀ q, Foreign s q ↔ Foreign s' q) ∧ contents mem' s' = (contents mem s).set i x ∧ mem'.length = mem.length ∧
      ∀ q, Foreign s q → mem'[q]? = mem[q]? := by
  cases s with
  | vec l =>
    exact ⟨mem, .vec (l.set i x), by simp only [AStore.write, cellSet_nat l i x hi]; rfl, by simp [AStore.count],
      trivial, trivial, fun _ => Iff.rfl, rfl, rfl, fun _ _ => rfl⟩
  | arr l =>
    exact ⟨mem, .arr (l.set i x), by simp only [AStore.write, cellSet_nat l i x hi]; rfl, by simp [AStore.count],
      trivial, trivial, fun _ => Iff.rfl, rfl, rfl, fun _ _ => rfl⟩
  | const l => exact absurd hw id
  | raw p m =>
    have he' : p + m ≤ mem.length := he
    have hi' : i < m := hi
    refine ⟨mem.set (p + i) x, .raw p m, ?_, rfl, by simpa [Backed] using he', trivial, fun _ => Iff.rfl, ?_, by simp, ?_⟩
    · have := cellSet_nat mem (p + i) x (by omega)
      simp only [AStore.write]
      rw [show ((p : Int) + (i : Int)) = ((p + i : Nat) : Int) by omega, this]; rfl
    · simp only [contents]
      rw [List.drop_set, if_neg (by omega), show p + i - p = i by omega, List.take_set]
    · intro q hq
      have hq' : q < p ∨ p + m ≤ q := hq
      rw [List.getElem?_set_ne (by omega)]

/-- What the layout constructors build. -/
theorem adpLayout_eq (d : Layout) (v : α) (L l : Layout) (n : Nat) (s : AStore α) (shape : List Nat) :
    adpLayout d v L l n s shape =
      if L ≠ .dynamic ∧ l ≠ L then .throws
      else (s.resize v (numel shape)).map fun s' =>
        let layout := if L = .dynamic ∧ l = .dynamic then d else l
        { L := L, layout := layout, shape := shape, strides := (computeStrides L layout shape).1,
          backstr := backstrides shape (computeStrides L layout shape).1, store := s' } := by
  unfold adpLayout Adp.resizeLayout adpStart
  by_cases h : L ≠ .dynamic ∧ l ≠ L
  · simp only [if_pos h]; rfl
  · simp only [if_neg h]
    unfold Adp.resize Adp.resizeStore
    simp only [or_true, if_true, computeStrides_size, Int.toNat_natCast]
    cases s.resize v (numel shape) <;> rfl

theorem adpStrides_eq (v : α) (L : Layout) (n : Nat) (s : AStore α) (shape : List Nat) (strides : List Int) :
    adpStrides v L n s shape strides =
      if L ≠ .dynamic then .throws
      else (s.resize v (numel shape)).map fun s' =>
        { L := L, layout := .dynamic, shape := shape, strides := adaptStrides shape strides,
          backstr := backstrides shape (adaptStrides shape strides), store := s' } := by
  unfold adpStrides Adp.resizeStrides adpStart
  by_cases h : L ≠ .dynamic
  · simp only [if_pos h]; rfl
  · simp only [if_neg h]
    unfold Adp.resizeStore
    simp only [computeSize_eq]
    cases s.resize v (numel shape) <;> rfl

theorem AStore.resize_same (v : α) (s : AStore α) : s.resize v s.count = .ok s := by
  cases s <;> simp [AStore.resize, AStore.count]

theorem asks_layout {d L l : Layout} {row : Bool} (h : Asks d L l row) :
    ¬ (L ≠ .dynamic ∧ l ≠ L) ∧
      (row = true ↔ (L = .row_major ∨ (if L = .dynamic ∧ l = .dynamic then d else l) = .row_major)) := by
  obtain ⟨h1, h2⟩ := h
  cases row <;> cases L <;> cases l <;> cases d <;> simp_all

theorem asks_row {d L l : Layout} {row : Bool} (h : Asks d L l row) :
    row = true ↔ (L = .row_major ∨ (if row = true then Layout.row_major else Layout.column_major) = .row_major) := by
  obtain ⟨h1, h2⟩ := h
  cases row <;> cases L <;> cases l <;> cases d <;> simp_all

/-- An adaptor built with a layout on a storage of the right size. -/
theorem adpLayout_ok {d : Layout} (v : α) {L l : Layout} {row : Bool} (hl : Asks d L l row) (n : Nat)
    {s : AStore α} {shape : List Nat} (hs : s.count = numel shape) :
    ∃ a, adpLayout d v L l n s shape = .ok a ∧ a.shape = shape ∧ a.store = s ∧ a.L = L ∧
      (∀ idx, InBounds shape idx → dataOffset a.strides false (toInts idx) = (place row shape idx : Int)) ∧
      (a.layout = (if row then Layout.row_major else Layout.column_major)) := by
  obtain ⟨h1, h2⟩ := asks_layout hl
  rw [adpLayout_eq, if_neg h1, ← hs, AStore.resize_same]
  refine ⟨_, rfl, rfl, rfl, rfl, fun idx hb => offset_place h2 hb, ?_⟩
  obtain ⟨h3, h4⟩ := hl
  rw [← h4]
  show (if L = .dynamic ∧ l = .dynamic then d else l) = _
  rcases h3 with h3 | h3
  · simp [h3]
  · by_cases hd : l = .dynamic
    · simp [hd, ← h3]
    · simp [hd]

/-- Reading through any adaptor whose offsets are the places. -/
theorem readsAll_of_offsets {mem : List α} {a : Adp α} {row : Bool} {shape : List Nat} (he : Backed mem a.store)
    (hs : numel shape ≤ a.store.count)
    (ho : ∀ idx, InBounds shape idx → dataOffset a.strides false (toInts idx) = (place row shape idx : Int)) :
    ReadsAll mem a row shape (contents mem a.store) := by
  intro idx hb
  have hp := place_lt (row := row) hb
  have hlen : place row shape idx < (contents mem a.store).length := by rw [contents_length he]; omega
  refine ⟨_, List.getElem?_eq_getElem hlen, ?_⟩
  unfold Adp.read
  rw [ho idx hb, AStore.read_contents he (by omega), List.getElem?_eq_getElem hlen]

/-! ## C78 -/

/-- **C78 adapt.** Memory adapted with a shape and a layout has exactly the elements of the memory: index
`idx` reads the element at the place the layout gives it. -/
theorem C78_adapt {d : Layout} (v : α) {L l : Layout} {row : Bool} (hl : Asks d L l row) (rank : Option Nat)
    (mem : List α) {s : AStore α} (he : Backed mem s) {shape : List Nat} (hs : s.count = numel shape) :
    ∃ a, adaptSeq d v L l rank s shape = .ok a ∧ a.shape = shape ∧ a.store = s ∧
      ReadsAll mem a row shape (contents mem s) := by
  obtain ⟨a, h1, h2, h3, _, h5, _⟩ := adpLayout_ok v hl (startAxes rank) hs
  exact ⟨a, h1, h2, h3, h3 ▸ readsAll_of_offsets (h3 ▸ he) (by rw [h3]; omega) h5⟩

example : ∃ a, adaptSeq .row_major (0 : Int) .dynamic .column_major none (.vec [1, 2, 3, 4, 5, 6]) [2, 3] = .ok a ∧
    a.shape = [2, 3] ∧ a.store = .vec [1, 2, 3, 4, 5, 6] ∧
    ReadsAll [] a false [2, 3] (contents [] (.vec [1, 2, 3, 4, 5, 6])) :=
  C78_adapt 0 (by decide) none [] (s := .vec [1, 2, 3, 4, 5, 6]) trivial (by decide)

/-- **C78 adapt, pointers.** A pointer adapted with a shape, and a pointer with its size, refer to the memory
behind the pointer. -/
theorem C78_adapt_pointer {d : Layout} (v : α) {L l : Layout} {row : Bool} (hl : Asks d L l row) (rank : Option Nat)
    (mem : List α) (p : Nat) (shape : List Nat) (he : p + numel shape ≤ mem.length) :
    ∃ a, adaptPtr d v L l rank p shape = .ok a ∧ adaptBuf d v L l rank p (numel shape) shape = .ok a ∧
      a.shape = shape ∧ ReadsAll mem a row shape ((mem.drop p).take (numel shape)) := by
  obtain ⟨a, h1, h2, _, h4⟩ := C78_adapt v hl rank mem (s := .raw p (numel shape)) he (shape := shape) rfl
  refine ⟨a, ?_, h1, h2, h4⟩
  unfold adaptPtr; rw [computeSize_eq]; exact h1

example : ∃ a, adaptPtr .row_major (0 : Int) .column_major .column_major (some 2) 1 [2, 2] = .ok a ∧
    adaptBuf .row_major (0 : Int) .column_major .column_major (some 2) 1 (numel [2, 2]) [2, 2] = .ok a ∧
    a.shape = [2, 2] ∧ ReadsAll [9, 1, 2, 3, 4, 8] a false [2, 2] (([9, 1, 2, 3, 4, 8].drop 1).take (numel [2, 2])) :=
  C78_adapt_pointer 0 (by decide) _ _ 1 _ (by decide)

/-- **C78 one axis.** A sequence adapted without a shape is its elements in order. -/
theorem C78_adapt_flat {d : Layout} (v : α) {L l : Layout} {row : Bool} (hl : Asks d L l row)
    (mem : List α) {s : AStore α} (he : Backed mem s) :
    ∃ a, adaptFlat d v L l s = .ok a ∧ a.shape = [(contents mem s).length] ∧
      ∀ i, i < (contents mem s).length → ∃ x, (contents mem s)[i]? = some x ∧ a.read mem [(i : Int)] = some x := by
  obtain ⟨a, h1, h2, h3, _, h5, _⟩ := adpLayout_ok v hl 1 (s := s) (shape := [s.count]) (by simp)
  have hr := readsAll_of_offsets (row := row) (h3.symm ▸ he : Backed mem a.store) (by rw [h3]; simp) h5
  refine ⟨a, h1, by rw [h2, contents_length he], fun i hi => ?_⟩
  rw [contents_length he] at hi
  obtain ⟨x, hx, hx'⟩ := hr [i] ⟨hi, trivial⟩
  rw [h3] at hx
  refine ⟨x, ?_, hx'⟩
  rw [← hx]; unfold place; cases row <;> simp [rowRank, colRank]

example : ∃ a, adaptFlat .row_major (0 : Int) .row_major .row_major (.vec [4, 5, 6]) = .ok a ∧
    a.shape = [(contents [] (.vec [4, 5, 6])).length] ∧
    ∀ i, i < (contents ([] : List Int) (.vec [4, 5, 6])).length →
      ∃ x, (contents ([] : List Int) (.vec [4, 5, 6]))[i]? = some x ∧ a.read [] [(i : Int)] = some x :=
  C78_adapt_flat (row := true) 0 (by decide) [] trivial

/-- **C78 every element once.** The elements of the memory and the indices correspond one to one. -/
theorem C78_adapt_onto {d : Layout} (v : α) {L l : Layout} {row : Bool} (hl : Asks d L l row) (rank : Option Nat)
    (mem : List α) {s : AStore α} (he : Backed mem s) {shape : List Nat} (hs : s.count = numel shape)
    {a : Adp α} (ha : adaptSeq d v L l rank s shape = .ok a) (q : Nat) (hq : q < (contents mem s).length) :
    ∃ idx, InBounds shape idx ∧ (a.read mem (toInts idx) = (contents mem s)[q]?) ∧
      ∀ j, InBounds shape j → dataOffset a.strides false (toInts j) = (q : Int) → j = idx := by
  obtain ⟨a', h1, h2, h3, _, h5, _⟩ := adpLayout_ok v hl (startAxes rank) hs
  have : a' = a := by
    have := h1.symm.trans ha; injection this
  subst this
  rw [contents_length he, hs] at hq
  obtain ⟨idx, hb, hp⟩ := place_surj row hq
  refine ⟨idx, hb, ?_, fun j hj hjq => ?_⟩
  · unfold Adp.read; rw [h5 idx hb, hp, h3, AStore.read_contents he (by omega)]
  · rw [h5 j hj] at hjq; exact place_inj (row := row) hj hb (by omega)

example : ∃ idx, InBounds [2, 3] idx ∧
    ((⟨.dynamic, .column_major, [2, 3], [1, 2], [1, 4], .vec [1, 2, 3, 4, 5, 6]⟩ : Adp Int).read [] (toInts idx) =
      (contents ([] : List Int) (.vec [1, 2, 3, 4, 5, 6]))[4]?) ∧
    ∀ j, InBounds [2, 3] j → dataOffset [1, 2] false (toInts j) = ((4 : Nat) : Int) → j = idx :=
  C78_adapt_onto (d := .row_major) 0 (L := .dynamic) (l := .column_major) (row := false) (by decide) none []
    (s := .vec [1, 2, 3, 4, 5, 6]) trivial (by decide) (by decide) 4 (by decide)

/-- Writing through an adaptor whose offsets are places. -/
theorem write_of_offsets {mem : List α} {a : Adp α} {row : Bool} {shape : List Nat} (he : Backed mem a.store)
    (hw : Writable a.store) (hs : numel shape ≤ a.store.count)
    (ho : ∀ idx, InBounds shape idx → dataOffset a.strides false (toInts idx) = (place row shape idx : Int))
    {idx : List Nat} (hb : InBounds shape idx) (x : α) :
    ∃ mem' a', a.write mem (toInts idx) x = some (mem', a') ∧ a' = { a with store := a'.store } ∧
      a'.store.count = a.store.count ∧ Backed mem' a'.store ∧ Writable a'.store ∧
      (∀ q, Foreign a.store q ↔ Foreign a'.store q) ∧
      contents mem' a'.store = (contents mem a.store).set (place row shape idx) x ∧
      ∀ q, Foreign a.store q → mem'[q]? = mem[q]? := by
  have hp := place_lt (row := row) hb
  obtain ⟨mem', s', h1, h2, h3, h4, h5, h6, h7, h8⟩ :=
    AStore.write_contents he hw (i := place row shape idx) (by omega) x
  exact ⟨mem', { a with store := s' }, by unfold Adp.write; rw [ho idx hb, h1]; rfl, rfl, h2, h3, h4, h5, h6, h8⟩

/-- **C78 writes.** Assigning to an element of an adaptor changes that element of the adapted memory, and
nothing else. -/
theorem C78_write {d : Layout} (v : α) {L l : Layout} {row : Bool} (hl : Asks d L l row) (rank : Option Nat)
    (mem : List α) {s : AStore α} (he : Backed mem s) (hw : Writable s) {shape : List Nat} (hs : s.count = numel shape)
    {a : Adp α} (ha : adaptSeq d v L l rank s shape = .ok a) {idx : List Nat} (hb : InBounds shape idx) (x : α) :
    ∃ mem' a', a.write mem (toInts idx) x = some (mem', a') ∧ a'.shape = shape ∧
      contents mem' a'.store = (contents mem s).set (place row shape idx) x ∧
      (∀ q, Foreign s q → mem'[q]? = mem[q]?) ∧
      ∀ j, InBounds shape j → a'.read mem' (toInts j) = if j = idx then some x else a.read mem (toInts j) := by
  obtain ⟨a', h1, h2, h3, _, h5, _⟩ := adpLayout_ok v hl (startAxes rank) hs
  have hh : a' = a := by
    have := h1.symm.trans ha; injection this
  subst hh
  subst h3
  obtain ⟨mem', b, w1, w2, w3, w4, _, _, w7, w8⟩ := write_of_offsets he hw (by omega) h5 hb x
  refine ⟨mem', b, w1, by rw [w2]; exact h2, w7, w8, fun j hj => ?_⟩
  have ob : ∀ k, InBounds shape k → dataOffset b.strides false (toInts k) = (place row shape k : Int) := by
    rw [w2]; exact h5
  obtain ⟨y, hy, hy'⟩ := readsAll_of_offsets w4 (by omega) ob j hj
  obtain ⟨z, hz, hz'⟩ := readsAll_of_offsets he (by omega) h5 j hj
  rw [hy', hz', ← hy, w7]
  by_cases hji : j = idx
  · subst hji
    rw [if_pos rfl, List.getElem?_set_self]
    rw [contents_length he]; have := place_lt (row := row) hb; omega
  · rw [if_neg hji, List.getElem?_set_ne (fun hpp => hji (place_inj hj hb hpp.symm)), hz]

example : ∃ mem' a', (⟨.row_major, .row_major, [2, 2], [2, 1], [2, 1], .raw 1 4⟩ : Adp Int).write
      [9, 1, 2, 3, 4, 8] (toInts [1, 0]) 7 = some (mem', a') ∧ a'.shape = [2, 2] ∧
    contents mem' a'.store = (contents [9, 1, 2, 3, 4, 8] (.raw 1 4)).set (place true [2, 2] [1, 0]) 7 ∧
    (∀ q, Foreign (.raw 1 4 : AStore Int) q → mem'[q]? = [9, 1, 2, 3, 4, 8][q]?) ∧
    ∀ j, InBounds [2, 2] j → a'.read mem' (toInts j) = if j = [1, 0] then some 7 else
      (⟨.row_major, .row_major, [2, 2], [2, 1], [2, 1], .raw 1 4⟩ : Adp Int).read [9, 1, 2, 3, 4, 8] (toInts j) :=
  C78_write (d := .row_major) 0 (L := .row_major) (l := .row_major) (by decide) none _ (s := .raw 1 4)
    (by simp [Backed]) trivial (by decide) (by decide) (by decide) 7

/-- **C78 refusals.** Adapting throws exactly when the layout argument contradicts the static layout or the
pointer's declared size is not the number of elements; the user's memory is then untouched. -/
theorem C78_refusals (d : Layout) (v : α) (L l : Layout) (rank : Option Nat) (s : AStore α) (shape : List Nat) :
    adaptSeq d v L l rank s shape = .throws ↔
      (L ≠ .dynamic ∧ l ≠ L) ∨ (∃ p m, s = .raw p m ∧ m ≠ numel shape) := by
  unfold adaptSeq
  rw [adpLayout_eq]
  by_cases h : L ≠ .dynamic ∧ l ≠ L
  · simp only [if_pos h, true_iff]; exact Or.inl h
  · rw [if_neg h]
    cases s with
    | raw p m =>
      by_cases hm : numel shape = m
      · simp [AStore.resize, hm, h]
      · have hm' : ¬ (m = numel shape) := fun h => hm h.symm
        simp only [AStore.resize, ne_eq, hm, not_false_eq_true, if_true]
        constructor
        · intro _; exact Or.inr ⟨p, m, rfl, hm'⟩
        · intro _; rfl
    | _ => simp [AStore.resize, h]

example : adaptBuf .row_major (0 : Int) .row_major .row_major none 0 5 [2, 2] = .throws :=
  (C78_refusals .row_major 0 .row_major .row_major none (.raw 0 5) [2, 2]).2 (Or.inr ⟨0, 5, rfl, by decide⟩)

/-- **C78 vectors are resized.** A vector adapted with a shape is left with as many elements as the shape has:
the elements beyond are gone, missing ones are appended. -/
theorem C78_vector_size {d : Layout} (v : α) {L l : Layout} {row : Bool} (hl : Asks d L l row) (rank : Option Nat)
    (l₀ : List α) (shape : List Nat) :
    ∃ a l₁, adaptSeq d v L l rank (.vec l₀) shape = .ok a ∧ a.store = .vec l₁ ∧ l₁.length = numel shape ∧
      (∀ i, i < numel shape → i < l₀.length → l₁[i]? = l₀[i]?) ∧
      (∀ i, i < numel shape → l₀.length ≤ i → l₁[i]? = some v) ∧ ReadsAll [] a row shape l₁ := by
  obtain ⟨h1, h2⟩ := asks_layout hl
  have hlen : (l₀.take (numel shape) ++ List.replicate (numel shape - l₀.length) v).length = numel shape := by
    simp only [List.length_append, List.length_take, List.length_replicate]; omega
  unfold adaptSeq
  rw [adpLayout_eq, if_neg h1]
  refine ⟨_, l₀.take (numel shape) ++ List.replicate (numel shape - l₀.length) v, rfl, rfl, hlen, ?_, ?_, ?_⟩
  · intro i hi hi'
    rw [List.getElem?_append_left (by rw [List.length_take]; omega), List.getElem?_take, if_pos hi]
  · intro i hi hi'
    rw [List.getElem?_append_right (by rw [List.length_take]; omega)]
    simp only [List.length_take]
    rw [List.getElem?_replicate, if_pos (by omega)]
  · exact readsAll_of_offsets (a := ⟨L, _, shape, _, _, .vec (l₀.take (numel shape) ++
      List.replicate (numel shape - l₀.length) v)⟩) trivial (by simp only [AStore.count]; omega)
      (fun idx hb => offset_place h2 hb)

example : ∃ a l₁, adaptSeq .row_major (0 : Int) .row_major .row_major none (.vec [1, 2, 3]) [2, 2] = .ok a ∧
    a.store = .vec l₁ ∧ l₁.length = numel [2, 2] ∧
    (∀ i, i < numel [2, 2] → i < [(1 : Int), 2, 3].length → l₁[i]? = [(1 : Int), 2, 3][i]?) ∧
    (∀ i, i < numel [2, 2] → [(1 : Int), 2, 3].length ≤ i → l₁[i]? = some 0) ∧ ReadsAll [] a true [2, 2] l₁ :=
  C78_vector_size 0 (by decide) none _ _

/-- **C78 adapting is not only looking, violated.** Adapting the first four elements of the user's vector of
six throws the other two away. -/
theorem C78_vector_truncated_wrong :
    ∃ a, adaptSeq .row_major (0 : Int) .row_major .row_major none (.vec [1, 2, 3, 4, 5, 6]) [2, 2] = .ok a ∧
      a.store = .vec [1, 2, 3, 4] := ⟨_, rfl, by decide⟩

/-- **C78 arrays and constants.** A `std::array` or constant sequence with at least as many elements as the
shape is adapted to its first elements. -/
theorem C78_fixed_partial {d : Layout} (v : α) {L l : Layout} {row : Bool} (hl : Asks d L l row) (rank : Option Nat)
    (l₀ : List α) (shape : List Nat) (hs : numel shape ≤ l₀.length) :
    (∃ a, adaptSeq d v L l rank (.arr l₀) shape = .ok a ∧ a.store = .arr l₀ ∧ ReadsAll [] a row shape l₀) ∧
    (∃ a, adaptSeq d v L l rank (.const l₀) shape = .ok a ∧ a.store = .const l₀ ∧ ReadsAll [] a row shape l₀) := by
  obtain ⟨h1, h2⟩ := asks_layout hl
  unfold adaptSeq
  constructor
  · rw [adpLayout_eq, if_neg h1]
    exact ⟨_, rfl, rfl, readsAll_of_offsets (a := ⟨L, _, shape, _, _, .arr l₀⟩) trivial hs
      (fun idx hb => offset_place h2 hb)⟩
  · rw [adpLayout_eq, if_neg h1]
    exact ⟨_, rfl, rfl, readsAll_of_offsets (a := ⟨L, _, shape, _, _, .const l₀⟩) trivial hs
      (fun idx hb => offset_place h2 hb)⟩

example : (∃ a, adaptSeq .row_major (0 : Int) .row_major .row_major none (.arr [1, 2, 3, 4, 5]) [2, 2] = .ok a ∧
      a.store = .arr [1, 2, 3, 4, 5] ∧ ReadsAll [] a true [2, 2] [1, 2, 3, 4, 5]) ∧
    (∃ a, adaptSeq .row_major (0 : Int) .row_major .row_major none (.const [1, 2, 3, 4, 5]) [2, 2] = .ok a ∧
      a.store = .const [1, 2, 3, 4, 5] ∧ ReadsAll [] a true [2, 2] [1, 2, 3, 4, 5]) :=
  C78_fixed_partial 0 (by decide) none _ _ (by decide)

/-- **C78 arrays and constants, violated.** Too short a `std::array` or constant sequence is adapted without
a word, and some in-bounds index then reads outside it — whatever the shape, the layout and the elements. -/
theorem C78_fixed_short_wrong {d : Layout} (v : α) {L l : Layout} {row : Bool} (hl : Asks d L l row) (rank : Option Nat)
    (l₀ : List α) (shape : List Nat) (hs : l₀.length < numel shape) :
    (∃ a idx, adaptSeq d v L l rank (.arr l₀) shape = .ok a ∧ InBounds shape idx ∧ a.read [] (toInts idx) = none) ∧
    (∃ a idx, adaptSeq d v L l rank (.const l₀) shape = .ok a ∧ InBounds shape idx ∧
      a.read [] (toInts idx) = none) := by
  obtain ⟨h1, h2⟩ := asks_layout hl
  obtain ⟨idx, hb, hp⟩ := place_surj row hs
  unfold adaptSeq
  constructor
  · rw [adpLayout_eq, if_neg h1]
    refine ⟨_, idx, rfl, hb, ?_⟩
    simp only [Adp.read, AStore.read]
    rw [offset_place h2 hb, hp, if_neg (by omega)]
    simp
  · rw [adpLayout_eq, if_neg h1]
    refine ⟨_, idx, rfl, hb, ?_⟩
    simp only [Adp.read, AStore.read]
    rw [offset_place h2 hb, hp, if_neg (by omega)]
    simp

example : (∃ a idx, adaptSeq .row_major (0 : Int) .row_major .row_major none (.arr [1, 2, 3]) [2, 2] = .ok a ∧
      InBounds [2, 2] idx ∧ a.read [] (toInts idx) = none) ∧
    (∃ a idx, adaptSeq .row_major (0 : Int) .row_major .row_major none (.const [1, 2, 3]) [2, 2] = .ok a ∧
      InBounds [2, 2] idx ∧ a.read [] (toInts idx) = none) :=
  C78_fixed_short_wrong (row := true) 0 (by decide) none _ _ (by decide)

/-- **C78 layouts in the template argument, violated.** `adapt<column_major>(vector, {2, 3})` and
`adapt<column_major>(pointer, {2, 3})` give row-major arrays; `adapt<column_major>(c_array, shape)` throws. -/
theorem C78_template_layout_wrong :
    (∃ a, adaptSeqBraces .row_major (0 : Int) .column_major (.vec [1, 2, 3, 4, 5, 6]) [2, 3] = .ok a ∧
      ¬ ReadsAll [] a false [2, 3] [1, 2, 3, 4, 5, 6]) ∧
    (∃ a, adaptPtrBraces .row_major (0 : Int) .column_major 0 [2, 3] = .ok a ∧
      ¬ ReadsAll [1, 2, 3, 4, 5, 6] a false [2, 3] [1, 2, 3, 4, 5, 6]) ∧
    adaptCArray .row_major (0 : Int) .column_major .column_major none 0 6 [2, 3] = .throws := by
  refine ⟨⟨_, rfl, fun h => ?_⟩, ⟨_, rfl, fun h => ?_⟩, by decide⟩
  · obtain ⟨x, h1, h2⟩ := h [1, 0] (by decide)
    have e1 : x = 2 := by simpa [place, colRank] using h1.symm
    subst e1; exact absurd h2 (by decide)
  · obtain ⟨x, h1, h2⟩ := h [1, 0] (by decide)
    have e1 : x = 2 := by simpa [place, colRank] using h1.symm
    subst e1; exact absurd h2 (by decide)

/-- **C78 braces and C arrays.** With the default layout these forms are the others. -/
theorem C78_braces_partial {d : Layout} (hd : d = .row_major ∨ d = .column_major) (v : α) (mem : List α)
    {s : AStore α} (he : Backed mem s) {shape : List Nat} (hs : s.count = numel shape) (p : Nat)
    (hp : p + numel shape ≤ mem.length) :
    (∃ a, adaptSeqBraces d v d s shape = .ok a ∧ a.shape = shape ∧
      ReadsAll mem a (d = .row_major) shape (contents mem s)) ∧
    (∃ a, adaptPtrBraces d v d p shape = .ok a ∧ adaptCArray d v d d (some shape.length) p (numel shape) shape = .ok a ∧
      a.shape = shape ∧ ReadsAll mem a (d = .row_major) shape ((mem.drop p).take (numel shape))) := by
  have hl : Asks d d d (decide (d = .row_major)) := by rcases hd with rfl | rfl <;> decide
  obtain ⟨a, h1, h2, _, h4⟩ := C78_adapt v hl (some shape.length) mem he hs
  obtain ⟨b, g1, g2, g3, g4⟩ := C78_adapt_pointer v hl (some shape.length) mem p shape hp
  exact ⟨⟨a, h1, h2, h4⟩, ⟨b, g1, g2, g3, g4⟩⟩

example : (∃ a, adaptSeqBraces .row_major (0 : Int) .row_major (.vec [1, 2, 3, 4]) [2, 2] = .ok a ∧ a.shape = [2, 2] ∧
      ReadsAll [5, 6, 7, 8] a true [2, 2] (contents [5, 6, 7, 8] (.vec [1, 2, 3, 4]))) ∧
    (∃ a, adaptPtrBraces .row_major (0 : Int) .row_major 0 [2, 2] = .ok a ∧
      adaptCArray .row_major (0 : Int) .row_major .row_major (some [2, 2].length) 0 (numel [2, 2]) [2, 2] = .ok a ∧
      a.shape = [2, 2] ∧ ReadsAll [5, 6, 7, 8] a true [2, 2] (([5, 6, 7, 8].drop 0).take (numel [2, 2]))) :=
  C78_braces_partial (Or.inl rfl) 0 _ (s := .vec [1, 2, 3, 4]) trivial (by decide) 0 (by decide)


/-! ### Strides -/

theorem offset_strides {shape idx : List Nat} {strides : List Int} (hl : strides.length = shape.length)
    (hb : InBounds shape idx) :
    dataOffset (adaptStrides shape strides) false (toInts idx) = dot strides (toInts idx) := by
  rw [dataOffset_eq _ _ (by rw [adaptStrides_length hl]; simp [hb.length_eq]), dot_adaptStrides hl hb]

/-- **C78 strides over a vector.** A vector adapted with strides is cut or extended to the number of elements of
the shape, and index `idx` reads the vector's element at `idx · strides` when the vector still has it, and
nothing that exists otherwise. -/
theorem C78_strides (v : α) (rank : Option Nat) (l₀ : List α) (shape : List Nat) (strides : List Int)
    (hl : strides.length = shape.length) :
    ∃ a l₁, adaptSeqStrides v rank (.vec l₀) shape strides = .ok a ∧ a.shape = shape ∧ a.store = .vec l₁ ∧
      l₁.length = numel shape ∧ (∀ i, i < numel shape → i < l₀.length → l₁[i]? = l₀[i]?) ∧
      ∀ idx, InBounds shape idx →
        (∀ o : Nat, dot strides (toInts idx) = (o : Int) → o < numel shape → a.read [] (toInts idx) = l₁[o]?) ∧
        ((dot strides (toInts idx) < 0 ∨ (numel shape : Int) ≤ dot strides (toInts idx)) →
          a.read [] (toInts idx) = none) := by
  have hlen : (l₀.take (numel shape) ++ List.replicate (numel shape - l₀.length) v).length = numel shape := by
    simp only [List.length_append, List.length_take, List.length_replicate]; omega
  unfold adaptSeqStrides
  rw [adpStrides_eq, if_neg (by simp)]
  refine ⟨_, l₀.take (numel shape) ++ List.replicate (numel shape - l₀.length) v, rfl, rfl, rfl, hlen, ?_, ?_⟩
  · intro i hi hi'
    rw [List.getElem?_append_left (by rw [List.length_take]; omega), List.getElem?_take, if_pos hi]
  · intro idx hb
    constructor
    · intro o ho hon
      simp only [Adp.read, AStore.read]
      rw [offset_strides hl hb, ho, if_neg (by omega)]; simp
    · intro h
      simp only [Adp.read, AStore.read]
      rw [offset_strides hl hb]
      rcases h with h | h
      · rw [if_pos h]
      · rw [if_neg (by omega)]
        apply List.getElem?_eq_none
        omega

example : ∃ a l₁, adaptSeqStrides (0 : Int) none (.vec [1, 2, 3, 4, 5, 6]) [2, 3] [1, 2] = .ok a ∧ a.shape = [2, 3] ∧
      a.store = .vec l₁ ∧ l₁.length = numel [2, 3] ∧
      (∀ i, i < numel [2, 3] → i < [(1 : Int), 2, 3, 4, 5, 6].length → l₁[i]? = [(1 : Int), 2, 3, 4, 5, 6][i]?) ∧
      ∀ idx, InBounds [2, 3] idx →
        (∀ o : Nat, dot [1, 2] (toInts idx) = (o : Int) → o < numel [2, 3] → a.read [] (toInts idx) = l₁[o]?) ∧
        ((dot [1, 2] (toInts idx) < 0 ∨ (numel [2, 3] : Int) ≤ dot [1, 2] (toInts idx)) →
          a.read [] (toInts idx) = none) :=
  C78_strides 0 none _ _ _ rfl

/-- **C78 padded strides, violated.** Two columns out of a vector of three rows of four: `adapt(v, {3, 2}, {4, 1})`
throws away the second half of the user's vector and the last row is then read outside it.  A pointer to the
twelve elements, with its true size, is refused. -/
theorem C78_strides_padded_wrong :
    (∃ a, adaptSeqStrides (0 : Int) none (.vec [0, 1, 2, 3, 4, 5, 6, 7, 8, 9, 10, 11]) [3, 2] [4, 1] = .ok a ∧
      a.store = .vec [0, 1, 2, 3, 4, 5] ∧ InBounds [3, 2] [2, 1] ∧ a.read [] (toInts [2, 1]) = none) ∧
    adaptBufStrides (0 : Int) none 0 12 [3, 2] [4, 1] = .throws := by
  refine ⟨⟨_, rfl, by decide, by decide, by decide⟩, by decide⟩

/-- **C78 negative strides, violated.** Reversing strides have nowhere to start from. -/
theorem C78_strides_negative_wrong :
    ∃ a, adaptSeqStrides (0 : Int) none (.vec [1, 2, 3]) [3] [-1] = .ok a ∧ InBounds [3] [2] ∧
      a.read [] (toInts [2]) = none := ⟨_, rfl, by decide, by decide⟩

/-- **C78 strides over a pointer.** A pointer with strides is refused exactly when its declared size is not the
number of elements; otherwise index `idx` reads the memory at `idx · strides` after the pointer. -/
theorem C78_strides_pointer (v : α) (rank : Option Nat) (mem : List α) (p size : Nat) (shape : List Nat)
    (strides : List Int) (hl : strides.length = shape.length) :
    (adaptBufStrides v rank p size shape strides = .throws ↔ size ≠ numel shape) ∧
    (size = numel shape → ∃ a, adaptBufStrides v rank p size shape strides = .ok a ∧ a.shape = shape ∧
      ∀ idx, InBounds shape idx → ∀ q : Nat, (p : Int) + dot strides (toInts idx) = (q : Int) →
        a.read mem (toInts idx) = mem[q]?) := by
  unfold adaptBufStrides
  rw [adpStrides_eq, if_neg (by simp)]
  constructor
  · by_cases hm : numel shape = size
    · simp [AStore.resize, hm]
    · have hm' : size ≠ numel shape := fun h => hm h.symm
      simp only [AStore.resize, ne_eq, hm, not_false_eq_true, if_true]
      exact ⟨fun _ => hm', fun _ => rfl⟩
  · intro hs
    have e : (AStore.raw p size : AStore α).resize v (numel shape) = .ok (.raw p size) := by
      simp [AStore.resize, hs]
    rw [e]
    refine ⟨_, rfl, rfl, fun idx hb q hq => ?_⟩
    simp only [Adp.read, AStore.read]
    rw [offset_strides hl hb, hq, if_neg (by omega)]; simp

example : (adaptBufStrides (0 : Int) none 1 6 [3, 2] [4, 1] = .throws ↔ 6 ≠ numel [3, 2]) ∧
    (6 = numel [3, 2] → ∃ a, adaptBufStrides (0 : Int) none 1 6 [3, 2] [4, 1] = .ok a ∧ a.shape = [3, 2] ∧
      ∀ idx, InBounds [3, 2] idx → ∀ q : Nat, ((1 : Nat) : Int) + dot [4, 1] (toInts idx) = (q : Int) →
        a.read [9, 0, 1, 2, 3, 4, 5, 6, 7, 8, 9, 10, 11] (toInts idx) = [9, 0, 1, 2, 3, 4, 5, 6, 7, 8, 9, 10, 11][q]?) :=
  C78_strides_pointer 0 none _ 1 6 _ _ rfl

/-! ### Assignment -/

theorem getElem?_of_places {row : Bool} {sh : List Nat} {is : List (List Nat)} (hm : ∀ i ∈ is, InBounds sh i)
    (h : is.map (place row sh) = List.range (numel sh)) {idx : List Nat} (hb : InBounds sh idx) :
    is[place row sh idx]? = some idx := by
  have hlt := place_lt (row := row) hb
  have hlen : is.length = numel sh := by
    have := congrArg List.length h; simpa using this
  have h1 : (is.map (place row sh))[place row sh idx]? = some (place row sh idx) := by
    rw [h, List.getElem?_range hlt]
  rw [List.getElem?_map, List.getElem?_eq_getElem (by omega)] at h1
  rw [List.getElem?_eq_getElem (by omega)]
  simp only [Option.map_some, Option.some.injEq] at h1
  exact congrArg some (place_inj (hm _ (List.getElem_mem _)) hb h1)

/-- A list of writes through an adaptor whose offsets are places. -/
theorem writeEach_spec {row : Bool} {shape : List Nat} (ws : List (List Nat × α)) :
    ∀ (mem : List α) (a : Adp α), Backed mem a.store → Writable a.store → numel shape ≤ a.store.count →
      (∀ idx, InBounds shape idx → dataOffset a.strides false (toInts idx) = (place row shape idx : Int)) →
      (∀ w ∈ ws, InBounds shape w.1) →
      ∃ mem' a', a.writeEach mem ws = some (mem', a') ∧ a' = { a with store := a'.store } ∧
        a'.store.count = a.store.count ∧ Backed mem' a'.store ∧
        (∀ q, Foreign a.store q → mem'[q]? = mem[q]?) ∧
        (∀ q, (∀ w ∈ ws, place row shape w.1 ≠ q) → (contents mem' a'.store)[q]? = (contents mem a.store)[q]?) ∧
        (∀ idx x, InBounds shape idx → (∃ w ∈ ws, w.1 = idx) → (∀ w ∈ ws, w.1 = idx → w.2 = x) →
          (contents mem' a'.store)[place row shape idx]? = some x) := by
  induction ws with
  | nil =>
    intro mem a he hw hs ho _
    exact ⟨mem, a, rfl, rfl, rfl, he, fun _ _ => rfl, fun _ _ => rfl, fun _ _ _ h => by simp at h⟩
  | cons w ws ih =>
    intro mem a he hw hs ho hin
    obtain ⟨m1, a1, w1, w2, w3, w4, w5, w6, w7, w8⟩ :=
      write_of_offsets he hw hs ho (hin w (by simp)) w.2
    have ho1 : ∀ idx, InBounds shape idx → dataOffset a1.strides false (toInts idx) = (place row shape idx : Int) := by
      rw [w2]; exact ho
    obtain ⟨m2, a2, v1, v2, v3, v4, v5, v6, v7⟩ := ih m1 a1 w4 w5 (by omega) ho1 (fun x hx => hin x (by simp [hx]))
    refine ⟨m2, a2, ?_, ?_, by omega, v4, ?_, ?_, ?_⟩
    · show ((a.write mem (toInts w.1) w.2).bind fun r => Adp.writeEach r.1 r.2 ws) = _
      rw [w1]; exact v1
    · rw [v2, w2]
    · intro q hq; rw [v5 q ((w6 q).1 hq), w8 q hq]
    · intro q hq
      rw [v6 q (fun x hx => hq x (by simp [hx])), w7, List.getElem?_set_ne (hq w (by simp))]
    · intro idx x hb hex hall
      by_cases hlater : ∃ y ∈ ws, y.1 = idx
      · exact v7 idx x hb hlater (fun y hy => hall y (by simp [hy]))
      · have hwi : w.1 = idx := by
          obtain ⟨y, hy, hyi⟩ := hex
          rcases List.mem_cons.1 hy with rfl | hy
          · exact hyi
          · exact absurd ⟨y, hy, hyi⟩ hlater
        rw [v6 _ (fun y hy hp => hlater ⟨y, hy, place_inj (hin y (by simp [hy])) hb hp⟩), w7, hwi,
          List.getElem?_set_self, hall w (by simp) hwi]
        rw [contents_length he]; have := place_lt (row := row) hb; omega

/-- Every in-bounds index of the adaptor reads the value of `e`. -/
def Spec.Equals (mem : List α) (a : Adp α) (shape : List Nat) (e : List Nat → α) : Prop :=
  a.shape = shape ∧ ∀ idx, InBounds shape idx → a.read mem (toInts idx) = some (e idx)

theorem fillAll {row : Bool} {shape : List Nat} {mem : List α} {a : Adp α} (he : Backed mem a.store)
    (hw : Writable a.store) (hs : numel shape ≤ a.store.count)
    (ho : ∀ idx, InBounds shape idx → dataOffset a.strides false (toInts idx) = (place row shape idx : Int))
    (hsh : a.shape = shape) (e : List Nat → α) :
    ∃ mem' a', a.writeEach mem ((rowIndices shape).map fun (idx : List Nat) => (idx, e idx)) = some (mem', a') ∧
      Equals mem' a' shape e ∧ ∀ q, Foreign a.store q → mem'[q]? = mem[q]? := by
  obtain ⟨m, b, h1, h2, h3, h4, h5, h6, h7⟩ := writeEach_spec (row := row) (shape := shape)
    ((rowIndices shape).map fun (idx : List Nat) => (idx, e idx)) mem a he hw hs ho (by
      intro w hw
      obtain ⟨i, hi, rfl⟩ := List.mem_map.1 hw
      exact mem_rowIndices.1 hi)
  refine ⟨m, b, h1, ⟨by rw [h2]; exact hsh, fun idx hb => ?_⟩, h5⟩
  have ob : ∀ k, InBounds shape k → dataOffset b.strides false (toInts k) = (place row shape k : Int) := by
    rw [h2]; exact ho
  obtain ⟨y, hy, hy'⟩ := readsAll_of_offsets h4 (by omega) ob idx hb
  rw [hy', ← hy]
  refine h7 idx (e idx) hb ⟨(idx, e idx), List.mem_map.2 ⟨idx, mem_rowIndices.2 hb, rfl⟩, rfl⟩ ?_
  intro w hw hwi
  obtain ⟨i, _, rfl⟩ := List.mem_map.1 hw
  have : i = idx := hwi
  subst this; rfl

/-- **C78 assignment.** Assigning an expression to an adaptor makes it equal to the expression and touches no
other memory — when the adaptor is over a vector, or the expression has as many elements. -/
theorem C78_assign_partial {d : Layout} (v : α) {L l : Layout} {row : Bool} (hl : Asks d L l row)
    (rank : Option Nat) (mem : List α) {s : AStore α} (he : Backed mem s) (hw : Writable s) {shape₀ : List Nat}
    (hs : s.count = numel shape₀) {a : Adp α} (ha : adaptSeq d v L l rank s shape₀ = .ok a) (shape : List Nat)
    (hn : numel shape = numel shape₀ ∨ ∃ l₀, s = .vec l₀) (e : List Nat → α) :
    ∃ mem' a', a.assign d v mem shape e = .ok mem' a' ∧ Equals mem' a' shape e ∧
      ∀ q, Foreign s q → mem'[q]? = mem[q]? := by
  obtain ⟨a', h1, h2, h3, h4, h5, h6⟩ := adpLayout_ok v hl (startAxes rank) hs
  have hh : a' = a := by
    have := h1.symm.trans ha; injection this
  subst hh
  subst h3
  by_cases hsame : a'.shape = shape
  · obtain ⟨m, b, g1, g2, g3⟩ := fillAll (row := row) (shape := shape) he hw (by rw [hs, ← h2, hsame])
      (by rw [← hsame, h2]; exact h5) hsame e
    have hr : a'.resize d v shape false = .ok a' := by
      unfold Adp.resize; rw [if_neg (by simp [hsame])]
    exact ⟨m, b, by unfold Adp.assign; rw [hr]; simp only [g1], g2, g3⟩
  · obtain ⟨_, ho⟩ := asks_layout hl
    have hlay : (if a'.L = .dynamic ∧ a'.layout = .dynamic then d else a'.layout) = a'.layout := by
      rw [h6]; cases row <;> simp
    have hrow : row = true ↔ (a'.L = .row_major ∨ a'.layout = .row_major) := by
      rw [h4, h6]; exact asks_row hl
    have hst : ∃ s', a'.store.resize v (numel shape) = .ok s' ∧ s'.count = numel shape ∧ Backed mem s' ∧ Writable s' ∧
        ∀ q, Foreign a'.store q → Foreign s' q := by
      rcases hn with hn | ⟨l₀, hn⟩
      · refine ⟨a'.store, ?_, by omega, he, hw, fun _ h => h⟩
        rw [hn, ← hs]; exact AStore.resize_same v _
      · rw [hn]
        refine ⟨.vec (l₀.take (numel shape) ++ List.replicate (numel shape - l₀.length) v), rfl, ?_, trivial, trivial,
          fun _ _ => trivial⟩
        simp only [AStore.count, List.length_append, List.length_take, List.length_replicate]; omega
    obtain ⟨s', r1, r2, r3, r4, r5⟩ := hst
    have hr : a'.resize d v shape false = .ok (⟨a'.L, a'.layout, shape, (computeStrides a'.L a'.layout shape).1,
        backstrides shape (computeStrides a'.L a'.layout shape).1, s'⟩ : Adp α) := by
      unfold Adp.resize Adp.resizeStore
      rw [if_pos (Or.inl hsame)]
      simp only [hlay, computeStrides_size, Int.toNat_natCast, r1]
    obtain ⟨m, b, g1, g2, g3⟩ := fillAll (row := row) (shape := shape) (mem := mem)
      (a := ⟨a'.L, a'.layout, shape, (computeStrides a'.L a'.layout shape).1,
        backstrides shape (computeStrides a'.L a'.layout shape).1, s'⟩)
      r3 r4 (by show _ ≤ s'.count; omega) (fun idx hb => offset_place hrow hb) rfl e
    exact ⟨m, b, by unfold Adp.assign; rw [hr]; simp only [g1], g2, fun q hq => g3 q (r5 q hq)⟩

example : ∃ mem' a', (⟨.row_major, .row_major, [2, 2], [2, 1], [2, 1], .raw 1 4⟩ : Adp Int).assign .row_major 0
      [9, 1, 2, 3, 4, 8] [4] (fun idx => (rowRank [4] idx : Int)) = .ok mem' a' ∧
    Equals mem' a' [4] (fun idx => (rowRank [4] idx : Int)) ∧
    ∀ q, Foreign (.raw 1 4 : AStore Int) q → mem'[q]? = [9, 1, 2, 3, 4, 8][q]? :=
  C78_assign_partial (d := .row_major) 0 (L := .row_major) (l := .row_major) (row := true) (by decide) none _
    (s := .raw 1 4) (by simp [Backed]) trivial (shape₀ := [2, 2]) (by decide) (by decide) [4] (Or.inl (by decide)) _

/-- **C78 refused assignment, violated.** Assigning an expression of another number of elements to an adaptor over
a pointer throws, as it must, and changes no memory — but the adaptor is left with the expression's shape: if that
has more elements, some index in bounds of `shape()` now lies outside the adapted memory. -/
theorem C78_assign_refused_wrong {d : Layout} (v : α) {L l : Layout} {row : Bool} (hl : Asks d L l row)
    (rank : Option Nat) (mem : List α) (p : Nat) (shape₀ : List Nat) {a : Adp α}
    (ha : adaptPtr d v L l rank p shape₀ = .ok a) (shape : List Nat) (hn : numel shape₀ < numel shape)
    (e : List Nat → α) :
    ∃ a', a.assign d v mem shape e = .throws mem a' ∧ a'.store = .raw p (numel shape₀) ∧ a'.shape = shape ∧
      ∃ idx, InBounds a'.shape idx ∧ dataOffset a'.strides false (toInts idx) = (numel shape₀ : Int) := by
  obtain ⟨a', h1, h2, h3, h4, h5, h6⟩ := adpLayout_ok v hl (startAxes rank) (s := .raw p (computeSize shape₀))
    (shape := shape₀) (computeSize_eq shape₀)
  have hh : a' = a := by
    have := h1.symm.trans ha; injection this
  subst hh
  rw [computeSize_eq] at h3
  have hsame : a'.shape ≠ shape := by
    rw [h2]; rintro rfl; omega
  have hlay : (if a'.L = .dynamic ∧ a'.layout = .dynamic then d else a'.layout) = a'.layout := by
    rw [h6]; cases row <;> simp
  have hrow : row = true ↔ (a'.L = .row_major ∨ a'.layout = .row_major) := by
    rw [h4, h6]; exact asks_row hl
  have hr : a'.resize d v shape false = .throws (⟨a'.L, a'.layout, shape, (computeStrides a'.L a'.layout shape).1,
      backstrides shape (computeStrides a'.L a'.layout shape).1, a'.store⟩ : Adp α) := by
    unfold Adp.resize Adp.resizeStore
    rw [if_pos (Or.inl hsame)]
    have hne : numel shape ≠ numel shape₀ := by omega
    simp only [hlay, computeStrides_size, Int.toNat_natCast, h3, AStore.resize, if_pos hne]
  obtain ⟨idx, hb, hp⟩ := place_surj row hn
  refine ⟨⟨a'.L, a'.layout, shape, (computeStrides a'.L a'.layout shape).1,
      backstrides shape (computeStrides a'.L a'.layout shape).1, a'.store⟩, by unfold Adp.assign; rw [hr], h3, rfl, idx, hb, ?_⟩
  show dataOffset (computeStrides a'.L a'.layout shape).1 false (toInts idx) = _
  rw [offset_place hrow hb, hp]

example : ∃ a', (⟨.row_major, .row_major, [2, 2], [2, 1], [2, 1], .raw 1 4⟩ : Adp Int).assign .row_major 0
      [9, 1, 2, 3, 4, 8] [2, 3] (fun _ => 7) = .throws [9, 1, 2, 3, 4, 8] a' ∧ a'.store = .raw 1 (numel [2, 2]) ∧
    a'.shape = [2, 3] ∧
    ∃ idx, InBounds a'.shape idx ∧ dataOffset a'.strides false (toInts idx) = (numel [2, 2] : Int) :=
  C78_assign_refused_wrong (d := .row_major) 0 (L := .row_major) (l := .row_major) (row := true) (by decide) none _ 1
    [2, 2] (by decide) [2, 3] (by decide) _

theorem tempOf_storage (d L : Layout) (shape : List Nat) (e : List Nat → α) :
    ∃ row : Bool, (tempOf d L shape e).storage.length = numel shape ∧ ∀ idx, InBounds shape idx →
      dataOffset (tempOf d L shape e).strides false (toInts idx) = (place row shape idx : Int) ∧
      (tempOf d L shape e).storage[place row shape idx]? = some (e idx) := by
  have hr : ∀ idx, InBounds shape idx → ((rowIndices shape).map e)[place true shape idx]? = some (e idx) := by
    intro idx hb
    rw [List.getElem?_map, getElem?_of_places (row := true) (fun i hi => mem_rowIndices.1 hi) (map_rowRank_rowIndices shape) hb]; rfl
  have hc : ∀ idx, InBounds shape idx → ((colIndices shape).map e)[place false shape idx]? = some (e idx) := by
    intro idx hb
    rw [List.getElem?_map, getElem?_of_places (row := false) (fun i hi => mem_colIndices.1 hi) (map_colRank_colIndices shape) hb]; rfl
  by_cases h : L = .row_major ∨ (if L = .dynamic then d else L) = .row_major
  · have es : (tempOf d L shape e).storage = (rowIndices shape).map e := by
      unfold tempOf; simp only [if_pos h]
    refine ⟨true, by rw [es, List.length_map, Spec.length_rowIndices], fun idx hb => ⟨?_, by rw [es]; exact hr idx hb⟩⟩
    exact offset_place (by simpa using h) hb
  · have es : (tempOf d L shape e).storage = (colIndices shape).map e := by
      unfold tempOf; simp only [if_neg h]
    refine ⟨false, by rw [es, List.length_map, Spec.length_colIndices], fun idx hb => ⟨?_, by rw [es]; exact hc idx hb⟩⟩
    exact offset_place (by simpa using h) hb

/-- **C78 assignment through a temporary.** When the expression may refer to the adapted memory the result is the
same: the adaptor equals the expression, and no other memory changes. -/
theorem C78_assign_temporary_partial (d : Layout) (mem : List α) (a : Adp α) (he : Backed mem a.store) (shape : List Nat)
    (hn : (∃ l₀, a.store = .vec l₀) ∨ ∃ p, a.store = .raw p (numel shape)) (e : List Nat → α) :
    ∃ mem' a', a.assignVia d mem shape e = .ok mem' a' ∧ Equals mem' a' shape e ∧
      ∀ q, Foreign a.store q → mem'[q]? = mem[q]? := by
  obtain ⟨row, t1, t2⟩ := tempOf_storage d a.L shape e
  rcases hn with ⟨l₀, hn⟩ | ⟨p, hn⟩
  · refine ⟨mem, ⟨a.L, a.layout, shape, (tempOf d a.L shape e).strides, (tempOf d a.L shape e).backstr,
      .vec (tempOf d a.L shape e).storage⟩, ?_, ⟨rfl, fun idx hb => ?_⟩,
      fun _ _ => rfl⟩
    · unfold Adp.assignVia Adp.takeTemp; rw [hn]; rfl
    · obtain ⟨o1, o2⟩ := t2 idx hb
      simp only [Adp.read, AStore.read]
      rw [o1, if_neg (by omega), Int.toNat_natCast, o2]
  · have hm : p + numel shape ≤ mem.length := by rw [hn] at he; exact he
    have hlen : (mem.take p).length = p := by rw [List.length_take]; omega
    refine ⟨mem.take p ++ (tempOf d a.L shape e).storage ++ mem.drop (p + numel shape),
      ⟨a.L, a.layout, shape, (tempOf d a.L shape e).strides, (tempOf d a.L shape e).backstr, .raw p (numel shape)⟩, ?_, ⟨rfl, fun idx hb => ?_⟩, ?_⟩
    · unfold Adp.assignVia Adp.takeTemp; rw [hn]
      simp only [AStore.takeSeq, t1, ne_eq, not_true, if_false, if_pos hm]; rfl
    · obtain ⟨o1, o2⟩ := t2 idx hb
      have hp := place_lt (row := row) hb
      simp only [Adp.read, AStore.read]
      rw [o1, if_neg (by omega), show ((p : Int) + (place row shape idx : Int)).toNat = p + place row shape idx by omega,
        List.getElem?_append_left (by rw [List.length_append, hlen, t1]; omega),
        List.getElem?_append_right (by omega), hlen, show p + place row shape idx - p = place row shape idx by omega, o2]
    · intro q hq
      rw [hn] at hq
      have hq' : q < p ∨ p + numel shape ≤ q := hq
      rcases hq' with hq' | hq'
      · rw [List.append_assoc, List.getElem?_append_left (by omega), List.getElem?_take, if_pos hq']
      · rw [List.getElem?_append_right (by rw [List.length_append, hlen, t1]; omega), List.length_append, hlen, t1,
          List.getElem?_drop]
        congr 1; omega

example : ∃ mem' a', (⟨.dynamic, .column_major, [2, 2], [1, 2], [1, 2], .raw 1 4⟩ : Adp Int).assignVia .row_major
      [9, 1, 2, 3, 4, 8] [2, 2] (fun idx => (rowRank [2, 2] idx : Int)) = .ok mem' a' ∧
    Equals mem' a' [2, 2] (fun idx => (rowRank [2, 2] idx : Int)) ∧
    ∀ q, Foreign (.raw 1 4 : AStore Int) q → mem'[q]? = [9, 1, 2, 3, 4, 8][q]? :=
  C78_assign_temporary_partial _ _ _ (by simp [Backed]) _ (Or.inr ⟨1, rfl⟩) _

/-- **C78 refused temporary, violated.** The same through a temporary: for an adaptor over a pointer an expression with
more elements throws and changes no memory, but the adaptor is left with the expression's shape, and some index in
bounds of `shape()` lies outside the adapted memory. -/
theorem C78_temporary_refused_wrong (d : Layout) (mem : List α) (a : Adp α) (p m : Nat) (hs : a.store = .raw p m)
    (shape : List Nat) (hn : m < numel shape) (e : List Nat → α) :
    ∃ a', a.assignVia d mem shape e = .throws mem a' ∧ a'.store = .raw p m ∧ a'.shape = shape ∧
      ∃ idx, InBounds a'.shape idx ∧ dataOffset a'.strides false (toInts idx) = (m : Int) := by
  obtain ⟨row, t1, t2⟩ := tempOf_storage d a.L shape e
  obtain ⟨idx, hb, hp⟩ := place_surj row hn
  refine ⟨⟨a.L, a.layout, shape, (tempOf d a.L shape e).strides, (tempOf d a.L shape e).backstr, a.store⟩, ?_, hs, rfl,
    idx, hb, ?_⟩
  · unfold Adp.assignVia Adp.takeTemp
    have hne : (tempOf d a.L shape e).storage.length ≠ m := by omega
    rw [hs]; simp only [AStore.takeSeq, if_pos hne]; rfl
  · show dataOffset (tempOf d a.L shape e).strides false (toInts idx) = _
    rw [(t2 idx hb).1, hp]

example : ∃ a', (⟨.dynamic, .column_major, [2, 2], [1, 2], [1, 2], .raw 1 4⟩ : Adp Int).assignVia .row_major
      [9, 1, 2, 3, 4, 8] [2, 3] (fun _ => 7) = .throws [9, 1, 2, 3, 4, 8] a' ∧ a'.store = .raw 1 4 ∧ a'.shape = [2, 3] ∧
    ∃ idx, InBounds a'.shape idx ∧ dataOffset a'.strides false (toInts idx) = ((4 : Nat) : Int) :=
  C78_temporary_refused_wrong .row_major _ _ 1 4 rfl [2, 3] (by decide) _

/-! ### Saving -/

/-- Element `idx` of a `.npy` file: the cell at the index's column-major place if the header says
`fortran_order`, at its row-major place otherwise. -/
def Spec.fileElem (f : Bool × List (Option α)) (shape idx : List Nat) : Option α :=
  (f.2[if f.1 then colRank shape idx else rowRank shape idx]?).join

theorem place_short (row : Bool) {shape idx : List Nat} (hb : InBounds shape idx) (h : shape.length ≤ 1) :
    place row shape idx = rowRank shape idx := by
  unfold place
  cases row
  · match shape, idx, hb with
    | [], [], _ => rfl
    | [s], [i], _ => simp [rowRank, colRank]
    | _ :: _ :: _, _, _ => simp at h
  · rfl

/-- **C78 saving.** Saving memory adapted with a layout as a `.npy` file writes every element at its place. -/
theorem C78_save {d : Layout} (v : α) {L l : Layout} {row : Bool} (hl : Asks d L l row) (rank : Option Nat)
    (mem : List α) {s : AStore α} {shape : List Nat} (hs : s.count = numel shape)
    {a : Adp α} (ha : adaptSeq d v L l rank s shape = .ok a) (idx : List Nat) (hb : InBounds shape idx) :
    fileElem (a.npyDump mem) shape idx = a.read mem (toInts idx) := by
  obtain ⟨a', h1, h2, h3, h4, h5, h6⟩ := adpLayout_ok v hl (startAxes rank) hs
  have hh : a' = a := by
    have := h1.symm.trans ha; injection this
  subst hh
  have hp := place_lt (row := row) hb
  have hpl : (if (a'.npyDump mem).1 then colRank shape idx else rowRank shape idx) = place row shape idx := by
    show (if decide (a'.layout = .column_major ∧ a'.shape.length > 1) = true then colRank shape idx else rowRank shape idx) = _
    rw [h6, h2]
    by_cases h1 : shape.length > 1
    · cases row <;> simp [h1, place]
    · rw [place_short row hb (by omega)]; simp [h1]
  unfold fileElem
  rw [hpl]
  show (((List.range (computeSize a'.shape)).map fun (i : Nat) => a'.store.read mem i)[place row shape idx]?).join = _
  rw [List.getElem?_map, List.getElem?_range (by rw [computeSize_eq, h2]; exact hp)]
  unfold Adp.read
  rw [h5 idx hb]; rfl

example : fileElem ((⟨.dynamic, .column_major, [2, 3], [1, 2], [1, 4], .vec [1, 2, 3, 4, 5, 6]⟩ : Adp Int).npyDump [])
      [2, 3] [1, 2] = (⟨.dynamic, .column_major, [2, 3], [1, 2], [1, 4], .vec [1, 2, 3, 4, 5, 6]⟩ : Adp Int).read []
      (toInts [1, 2]) :=
  C78_save (d := .row_major) 0 (L := .dynamic) (l := .column_major) (row := false) (by decide) none []
    (s := .vec [1, 2, 3, 4, 5, 6]) (by decide) (by decide) _ (by decide)

/-- **C78 the layout after assignment, violated.** A column-major adaptor with run-time layout assigned from an
expression that refers to it has row-major strides afterwards but still says `column_major`: saved as a `.npy` file it
comes back with its elements elsewhere. -/
theorem C78_assign_layout_wrong :
    ∃ a mem' a', adaptSeq .row_major (0 : Int) .dynamic .column_major none (.vec [1, 2, 3, 4, 5, 6]) [2, 3] = .ok a ∧
      a.assignVia .row_major [] [2, 3] (fun idx => (rowRank [2, 3] idx : Int)) = .ok mem' a' ∧
      a'.layout = .column_major ∧ a'.strides = [3, 1] ∧
      a'.read [] (toInts [0, 1]) = some 1 ∧ fileElem (a'.npyDump []) [2, 3] [0, 1] = some 2 := by
  refine ⟨_, _, _, rfl, rfl, by decide, by decide, by decide, by decide⟩

/-- **C78 saving strided memory, violated.** Memory adapted with strides is saved cell after cell, not element
after element. -/
theorem C78_save_strided_wrong :
    ∃ a, adaptSeqStrides (0 : Int) none (.vec [1, 2, 3, 4, 5, 6]) [2, 3] [1, 2] = .ok a ∧
      a.read [] (toInts [0, 1]) = some 3 ∧ fileElem (a.npyDump []) [2, 3] [0, 1] = some 2 := by
  refine ⟨_, rfl, by decide, by decide⟩

/-! ### Copies -/

/-- **C78 copies.** After `a = b` the adaptor `a` equals what `b` equals, whatever `a` was. -/
theorem C78_copy (mem : List α) (a b : Adp α) (shape : List Nat) (e : List Nat → α) (hb : Equals mem b shape e) :
    Equals mem (a.copyFrom b) shape e :=
  ⟨hb.1, fun idx h => hb.2 idx h⟩

example : Equals [1, 2, 3, 4, 5] ((⟨.row_major, .row_major, [1], [0], [0], .raw 0 1⟩ : Adp Int).copyFrom
    ⟨.row_major, .row_major, [2, 2], [2, 1], [2, 1], .raw 1 4⟩) [2, 2] (fun idx => (rowRank [2, 2] idx : Int) + 2) :=
  C78_copy _ _ _ _ _ ⟨rfl, fun idx h => by
    have hm := mem_rowIndices.2 h
    clear h; revert idx; decide⟩

/-- **C78 copies over pointers, violated.** `a = b` for adaptors over pointers leaves `a`'s memory as it was and makes
`a` another name of `b`'s: the next assignment to an element of `a` changes `b`.  `a = b + 0` copies instead. -/
theorem C78_copy_pointer_wrong :
    ∃ a b, adaptPtr .row_major (0 : Int) .row_major .row_major none 0 [2] = .ok a ∧
      adaptPtr .row_major (0 : Int) .row_major .row_major none 2 [2] = .ok b ∧
      (∃ mem' a', (a.copyFrom b).write [1, 2, 3, 4] (toInts [0]) 9 = some (mem', a') ∧ mem' = [1, 2, 9, 4]) ∧
      (∃ mem' a', a.assign .row_major 0 [1, 2, 3, 4] [2] (fun idx => (b.read [1, 2, 3, 4] (toInts idx)).getD 0) =
        .ok mem' a' ∧ mem' = [3, 4, 3, 4]) := by
  refine ⟨_, _, rfl, rfl, ⟨_, _, rfl, by decide⟩, ⟨_, _, rfl, by decide⟩⟩

/-- **C78 new memory.** `reset_buffer(pointer, size)` with as much memory makes the adaptor read the new memory, at the
same places. -/
theorem C78_reset {d : Layout} (v : α) {L l : Layout} {row : Bool} (hl : Asks d L l row) (rank : Option Nat)
    (mem : List α) (p q : Nat) (shape : List Nat) {a : Adp α} (ha : adaptPtr d v L l rank p shape = .ok a)
    (he : q + numel shape ≤ mem.length) :
    ReadsAll mem (a.resetBuffer q (numel shape)) row shape ((mem.drop q).take (numel shape)) := by
  obtain ⟨a', h1, h2, h3, h4, h5, h6⟩ := adpLayout_ok v hl (startAxes rank) (s := .raw p (computeSize shape))
    (shape := shape) (computeSize_eq shape)
  have hh : a' = a := by
    have := h1.symm.trans ha; injection this
  subst hh
  exact readsAll_of_offsets (a := a'.resetBuffer q (numel shape)) he (Nat.le_refl _) h5

example : ReadsAll [1, 2, 3, 4] ((⟨.row_major, .row_major, [2], [1], [1], .raw 0 2⟩ : Adp Int).resetBuffer 2 (numel [2]))
    true [2] (([1, 2, 3, 4].drop 2).take (numel [2])) :=
  C78_reset (d := .row_major) 0 (L := .row_major) (l := .row_major) (by decide) none _ 0 2 [2] (by decide) (by decide)

end Xt
