import Verif.Model.Json
import Verif.Props.StridedView
import Verif.Lemmas.Sort
import Verif.Lemmas.Region
/-!
# C69: arrays from and to JSON documents
-/

namespace Xt
open Spec

variable {α : Type}

/-! ### Views at an integer prefix -/

theorem intSlices_valid : ∀ {sh1 p : List Nat} (sh2 : List Nat), InBounds sh1 p →
    SlicesValid (sh1 ++ sh2) (intSlices p)
  | [], [], _, _ => trivial
  | n :: sh1, i :: p, sh2, h => by
    have h' := (inBounds_cons _ _ _ _).1 h
    exact ⟨⟨by omega, by exact_mod_cast h'.1⟩, intSlices_valid sh2 h'.2⟩
  | [], _ :: _, _, h => h.elim
  | _ :: _, [], _, h => h.elim

theorem intSlices_shape : ∀ {sh1 p : List Nat} (sh2 : List Nat), InBounds sh1 p →
    selShape (sh1 ++ sh2) (intSlices p) = sh2
  | [], [], _, _ => rfl
  | n :: sh1, i :: p, sh2, h => by
    show selShape (sh1 ++ sh2) (intSlices p) = sh2
    exact intSlices_shape sh2 ((inBounds_cons _ _ _ _).1 h).2
  | [], _ :: _, _, h => h.elim
  | _ :: _, [], _, h => h.elim

theorem intSlices_index : ∀ {sh1 p : List Nat} (sh2 idx : List Nat), InBounds sh1 p →
    selIndex (sh1 ++ sh2) (intSlices p) idx = toInts (p ++ idx)
  | [], [], _, _, _ => rfl
  | n :: sh1, i :: p, sh2, idx, h => by
    have ih := intSlices_index (p := p) (sh1 := sh1) sh2 idx ((inBounds_cons _ _ _ _).1 h).2
    have e : pyIndex n (i : Int) = (i : Int) := by simp [pyIndex]
    simp only [List.cons_append, intSlices, List.map_cons, selIndex, toInts] at ih ⊢
    rw [e, ih]
    rfl
  | [], _ :: _, _, _, h => h.elim
  | _ :: _, [], _, _, h => h.elim

/-- `strided_view(e, {i, j, …})`. -/
theorem intView {sh1 sh2 p : List Nat} {st : List Int} (off : Int) (l : Layout)
    (hl : st.length = (sh1 ++ sh2).length) (h : InBounds sh1 p) :
    ∃ v, stridedView (sh1 ++ sh2) st off l (intSlices p) = .ok v ∧ v.shape = toInts sh2 ∧
      (sh2 = [] → v.index [] = off + dot st (toInts p)) := by
  have hne : USlice.ellipsis ∉ intSlices p := by simp [intSlices]
  have he : expandEllipsis (sh1 ++ sh2).length (intSlices p) = intSlices p := expandWith_eq_self _ _ hne
  obtain ⟨v, h1, h2, h3, _⟩ := C20_strided_view_partial (sh1 ++ sh2) st off l (intSlices p) hl
    (by rw [List.count_eq_zero_of_not_mem hne]; omega) (by rw [he]; exact intSlices_valid sh2 h)
    (by intro u hu; obtain ⟨i, -, rfl⟩ := List.mem_map.1 hu; simp)
    (by intro c hc; obtain ⟨i, -, hi⟩ := List.mem_map.1 hc; cases hi; omega)
  rw [he, intSlices_shape sh2 h] at h2 h3
  refine ⟨v, h1, h2, ?_⟩
  rintro rfl
  have := (h3 [] inBounds_nil).1
  rw [intSlices_index [] [] h] at this
  simpa using this

/-! ### Writing documents -/

theorem foldl_collect {β γ : Type} {f : β → Res γ} {g : β → γ} : ∀ (l : List β) (acc : List γ),
    (∀ i ∈ l, f i = .ok (g i)) →
    l.foldl (fun (r : Res (List γ)) i => r.bind fun js => (f i).map fun k => js ++ [k]) (.ok acc) =
      .ok (acc ++ l.map g)
  | [], acc, _ => by simp
  | i :: l, acc, h => by
    simp only [List.foldl_cons, Res.bind_ok, h i (by simp), Res.map_ok]
    rw [foldl_collect l _ fun k hk => h k (by simp [hk])]
    simp

theorem inBounds_snoc {sh p : List Nat} {n i : Nat} (h : InBounds sh p) (hi : i < n) :
    InBounds (sh ++ [n]) (p ++ [i]) := by
  induction sh generalizing p with
  | nil =>
    cases p with
    | nil => simpa using hi
    | cons _ _ => exact h.elim
  | cons a sh ih =>
    cases p with
    | nil => exact h.elim
    | cons b p => exact ⟨h.1, ih h.2⟩

theorem toJsonImpl_ok {st : List Int} {off : Int} {l : Layout} {mem : Int → α} :
    ∀ (sh2 sh1 p : List Nat) (fuel : Nat), st.length = (sh1 ++ sh2).length → InBounds sh1 p → sh2.length < fuel →
    toJsonImpl (sh1 ++ sh2) st off l mem fuel p =
      .ok (nested sh2 fun idx => mem (off + dot st (toInts (p ++ idx))))
  | [], sh1, p, fuel, hl, hp, hf => by
    obtain ⟨fuel, rfl⟩ : ∃ f, fuel = f + 1 := ⟨fuel - 1, by omega⟩
    obtain ⟨v, h1, h2, h3⟩ := intView off l hl hp
    simp only [toJsonImpl, h1, Res.bind_ok, h2, h3]
    simp [nested, toInts]
  | n :: sh2, sh1, p, fuel, hl, hp, hf => by
    obtain ⟨fuel, rfl⟩ : ∃ f, fuel = f + 1 := ⟨fuel - 1, by omega⟩
    obtain ⟨v, h1, h2, -⟩ := intView off l hl hp
    simp only [List.length_cons] at hf
    have e : sh1 ++ n :: sh2 = (sh1 ++ [n]) ++ sh2 := by simp
    have hrec : ∀ i ∈ List.range n, toJsonImpl (sh1 ++ n :: sh2) st off l mem fuel (p ++ [i]) =
        .ok (nested sh2 fun idx => mem (off + dot st (toInts (p ++ i :: idx)))) := by
      intro i hi
      have := toJsonImpl_ok (st := st) (off := off) (l := l) (mem := mem) sh2 (sh1 ++ [n]) (p ++ [i]) fuel (by rw [← e]; exact hl)
        (inBounds_snoc hp (List.mem_range.1 hi)) (by omega)
      rw [e, this]
      simp
    simp only [toJsonImpl, h1, Res.bind_ok, h2]
    rw [if_neg (by simp [toInts])]
    have hn : ((toInts (n :: sh2)).getD 0 0).toNat = n := by simp [toInts]
    rw [hn, foldl_collect (List.range n) [] hrec]
    simp [nested]

/-- The document made of a strided expression is the nested list of its elements, for every shape, also with extents 0. -/
theorem C69_to_json (sh : List Nat) (st : List Int) (off : Int) (l : Layout) (mem : Int → α)
    (hl : st.length = sh.length) :
    toJson sh st off l mem = .ok (nested sh fun idx => mem (off + dot st (toInts idx))) := by
  have := toJsonImpl_ok (st := st) (off := off) (l := l) (mem := mem) sh [] [] (sh.length + 1) (by simpa using hl)
    inBounds_nil (by omega)
  simpa [toJson] using this

/-! ### Reading documents -/

theorem foldl_ok {β γ : Type} {f : β → γ → Res γ} {g : β → γ → γ} (I : γ → Prop) : ∀ (l : List β) (x : γ), I x →
    (∀ i ∈ l, ∀ y, I y → f i y = .ok (g i y) ∧ I (g i y)) →
    l.foldl (fun (r : Res γ) i => r.bind (f i)) (.ok x) = .ok (l.foldl (fun y i => g i y) x) ∧
      I (l.foldl (fun y i => g i y) x)
  | [], x, hx, _ => ⟨rfl, hx⟩
  | i :: l, x, hx, h => by
    have h0 := h i (by simp) x hx
    simp only [List.foldl_cons, Res.bind_ok, h0.1]
    exact foldl_ok I l _ h0.2 fun k hk => h k (by simp [hk])

theorem fromJsonImpl_ok {st : List Int} {off : Int} {l : Layout} {N : Nat} :
    ∀ (sh2 sh1 p : List Nat) (fuel : Nat) (f : List Nat → α) (data : List α), st.length = (sh1 ++ sh2).length →
    InBounds sh1 p → sh2.length < fuel → data.length = N →
    (∀ idx, InBounds sh2 idx → 0 ≤ off + dot st (toInts (p ++ idx)) ∧ off + dot st (toInts (p ++ idx)) < N) →
    fromJsonImpl (sh1 ++ sh2) st off l fuel (nested sh2 f) data p =
      .ok ((rowIndices sh2).foldl (fun d idx => d.set (off + dot st (toInts (p ++ idx))).toNat (f idx)) data)
  | [], sh1, p, fuel, f, data, hl, hp, hf, hN, hr => by
    obtain ⟨fuel, rfl⟩ : ∃ k, fuel = k + 1 := ⟨fuel - 1, by omega⟩
    obtain ⟨v, h1, h2, h3⟩ := intView off l hl hp
    have h4 := hr [] inBounds_nil
    rw [List.append_nil] at h4
    simp only [fromJsonImpl, h1, Res.bind_ok, h2, h3, nested, Jv.get, storeAt]
    rw [if_pos (by simp [toInts]), if_pos (by rw [hN]; exact h4)]
    simp [rowIndices]
  | n :: sh2, sh1, p, fuel, f, data, hl, hp, hf, hN, hr => by
    obtain ⟨fuel, rfl⟩ : ∃ k, fuel = k + 1 := ⟨fuel - 1, by omega⟩
    obtain ⟨v, h1, h2, -⟩ := intView off l hl hp
    simp only [List.length_cons] at hf
    have e : sh1 ++ n :: sh2 = (sh1 ++ [n]) ++ sh2 := by simp
    simp only [fromJsonImpl, h1, Res.bind_ok, h2, nested]
    rw [if_neg (by simp [toInts])]
    have hn : ((toInts (n :: sh2)).getD 0 0).toNat = n := by simp [toInts]
    rw [hn]
    have hstep := foldl_ok
      (f := fun i data => (Jv.index (.arr ((List.range n).map fun i => nested sh2 fun idx => f (i :: idx))) i).bind fun k =>
        fromJsonImpl (sh1 ++ n :: sh2) st off l fuel k data (p ++ [i]))
      (g := fun i data => (rowIndices sh2).foldl
        (fun d idx => d.set (off + dot st (toInts (p ++ i :: idx))).toNat (f (i :: idx))) data)
      (fun d => d.length = N) (List.range n) data hN (by
        intro i hi y hy
        have hi' := List.mem_range.1 hi
        have hidx : Jv.index (.arr ((List.range n).map fun i => nested sh2 fun idx => f (i :: idx))) i =
            .ok (nested sh2 fun idx => f (i :: idx)) := by
          simp [Jv.index, List.getElem?_range hi']
        have := fromJsonImpl_ok (l := l) (N := N) sh2 (sh1 ++ [n]) (p ++ [i]) fuel (fun idx => f (i :: idx)) y
          (by rw [← e]; exact hl) (inBounds_snoc hp hi') (by omega) hy (by
            intro idx hidx
            have := hr (i :: idx) ⟨hi', hidx⟩
            simpa using this)
        refine ⟨?_, ?_⟩
        · simp only [hidx, Res.bind_ok]
          rw [e, this]
          simp
        · rw [foldl_set_length]; exact hy)
    rw [hstep.1]
    simp only [rowIndices, List.foldl_flatMap, List.foldl_map]

/-- What reading a document of the destination's shape leaves in its storage. -/
theorem fromJsonImpl_spec {sh : List Nat} {st : List Int} {off : Int} (l : Layout) (f : List Nat → α) (data : List α)
    (hl : st.length = sh.length)
    (hr : ∀ idx, InBounds sh idx → 0 ≤ off + dot st (toInts idx) ∧ off + dot st (toInts idx) < data.length)
    (hi : ∀ a b, InBounds sh a → InBounds sh b → dot st (toInts a) = dot st (toInts b) → a = b) :
    ∃ d, fromJsonImpl sh st off l (sh.length + 1) (nested sh f) data [] = .ok d ∧ d.length = data.length ∧
      (∀ idx, InBounds sh idx → d[(off + dot st (toInts idx)).toNat]? = some (f idx)) ∧
      (∀ k : Nat, (∀ idx, InBounds sh idx → off + dot st (toInts idx) ≠ k) → d[k]? = data[k]?) := by
  have h := fromJsonImpl_ok (l := l) (N := data.length) sh [] [] (sh.length + 1) f data (by simpa using hl) inBounds_nil
    (by omega) rfl (by simpa using hr)
  simp only [List.nil_append] at h
  refine ⟨_, h, foldl_set_length _ _ _ _, ?_, ?_⟩
  · intro idx hidx
    have hlt : (off + dot st (toInts idx)).toNat < data.length := by have := hr idx hidx; omega
    have hlen := foldl_set_length (rowIndices sh) (fun idx => (off + dot st (toInts idx)).toNat) f data
    have hh := foldl_set_hit (rowIndices sh) (fun idx => (off + dot st (toInts idx)).toNat) f data (f idx) idx
      (mem_rowIndices.2 hidx) (by
        intro r hr' e
        have hr' := mem_rowIndices.1 hr'
        have h1 := hr r hr'
        have h2 := hr idx hidx
        rw [hi r idx hr' hidx (by omega)]) hlt
    rw [List.getD_eq_getElem?_getD, List.getElem?_eq_getElem (by rw [hlen]; exact hlt)] at hh
    rw [List.getElem?_eq_getElem (by rw [hlen]; exact hlt)]
    exact congrArg some hh
  · intro k hk
    have hlen := foldl_set_length (rowIndices sh) (fun idx => (off + dot st (toInts idx)).toNat) f data
    by_cases hlt : k < data.length
    · have hm := foldl_set_miss (rowIndices sh) (fun idx => (off + dot st (toInts idx)).toNat) f data k data[k] (by
        intro q hq e
        have hq := mem_rowIndices.1 hq
        have := hr q hq
        exact hk q hq (by omega))
      rw [List.getD_eq_getElem?_getD, List.getElem?_eq_getElem (by rw [hlen]; exact hlt)] at hm
      rw [List.getElem?_eq_getElem (by rw [hlen]; exact hlt), List.getElem?_eq_getElem hlt]
      rw [List.getD_eq_getElem?_getD, List.getElem?_eq_getElem hlt] at hm
      exact congrArg some hm
    · rw [List.getElem?_eq_none (by rw [hlen]; omega), List.getElem?_eq_none (by omega)]

/-! ### Shapes of documents -/

theorem jsonDimension_nested : ∀ (sh : List Nat) (f : List Nat → α), 0 ∉ sh → jsonDimension (nested sh f) = sh.length
  | [], f, _ => rfl
  | 0 :: sh, f, h => by simp at h
  | (n + 1) :: sh, f, h => by
    simp only [nested, List.range_succ_eq_map, List.map_cons, jsonDimension, List.length_cons]
    rw [jsonDimension_nested sh _ fun h' => h (by simp [h'])]
    omega

theorem jsonShape_nested : ∀ (sh : List Nat) (f : List Nat → α) (pre mid post : List (Option Nat)) (size : Nat), 0 ∉ sh →
    mid.length = sh.length →
    jsonShape (nested sh f) ⟨pre ++ mid ++ post, size⟩ pre.length = .ok ⟨pre ++ sh.map some ++ post, size⟩
  | [], f, pre, mid, post, size, _, hm => by
    have : mid = [] := List.length_eq_zero_iff.1 (by simpa using hm)
    simp [nested, jsonShape, this]
  | 0 :: sh, f, _, _, _, _, h, _ => by simp at h
  | (n + 1) :: sh, f, pre, mid, post, size, h, hm => by
    obtain ⟨m, mid, rfl⟩ : ∃ m l, mid = m :: l := List.exists_cons_of_ne_nil (by rintro rfl; simp at hm)
    have hw : ShapeObj.write ⟨pre ++ m :: mid ++ post, size⟩ pre.length (n + 1) =
        .ok ⟨(pre ++ [some (n + 1)]) ++ mid ++ post, size⟩ := by
      unfold ShapeObj.write
      rw [if_pos (by simp)]
      simp
    simp only [nested, List.range_succ_eq_map, List.map_cons, jsonShape, List.length_map, List.length_range, hw, Res.bind_ok]
    have ih := jsonShape_nested sh (fun idx => f (0 :: idx)) (pre ++ [some (n + 1)]) mid post size
      (fun h' => h (by simp [h'])) (by simpa using hm)
    simp only [List.length_append, List.length_singleton] at ih
    rw [ih]
    simp

/-- A container of any layout, of dynamic dimension (`none`) or of the right fixed dimension, read from the document of an
array without empty axes has its shape and its elements, whatever it contained before. -/
theorem C69_from_json_partial [Inhabited α] (fixed : Option Nat) (L : Layout) (junk : Nat → α) (sh : List Nat)
    (f : List Nat → α) (h0 : 0 ∉ sh) (hfix : fixed = none ∨ fixed = some sh.length) :
    ∃ b, fromJson fixed L junk (nested sh f) = .ok b ∧ b.shape = sh ∧ b.layout = L ∧ b.WF ∧
      ∀ idx, InBounds sh idx → b.read idx = f idx := by
  have hext : ∃ s, jsonShape (nested sh f) (makeShape fixed (jsonDimension (nested sh f))) 0 = .ok s ∧ s.extents = sh := by
    rw [jsonDimension_nested sh f h0]
    rcases hfix with rfl | rfl
    · refine ⟨⟨sh.map some ++ List.replicate (4 - sh.length) (some 0), sh.length⟩, ?_, ?_⟩
      · have := jsonShape_nested sh f [] (List.replicate sh.length (some 0)) (List.replicate (4 - sh.length) (some 0)) sh.length
          h0 (by simp)
        simp only [List.nil_append, List.length_nil, List.replicate_append_replicate] at this
        have e : sh.length + (4 - sh.length) = max 4 sh.length := by omega
        rw [e] at this
        exact this
      · simp [ShapeObj.extents, Function.comp_def]
    · refine ⟨⟨sh.map some, sh.length⟩, ?_, by simp [ShapeObj.extents, Function.comp_def]⟩
      have := jsonShape_nested sh f [] (List.replicate sh.length (some 0)) [] sh.length h0 (by simp)
      simpa [makeShape] using this
  obtain ⟨s, hs, he⟩ := hext
  have hnum : sh.foldl (· * ·) 1 = numel sh := by rw [foldl_mul_eq]; omega
  have hdot : ∀ idx, InBounds sh idx → dot (computeStrides L L sh).1 (toInts idx) = (travRank L sh idx : Int) :=
    fun idx h => dot_travRank L h
  obtain ⟨d, h1, h2, h3, -⟩ := fromJsonImpl_spec (sh := sh) (st := (computeStrides L L sh).1) (off := 0) L f
    ((List.range (numel sh)).map junk) (by simp)
    (by
      intro idx h
      have := travRank_lt L h
      rw [hdot idx h]
      simp
      omega)
    (by
      intro a b ha hb e
      rw [hdot a ha, hdot b hb] at e
      exact travRank_inj L ha hb (by exact_mod_cast e))
  refine ⟨⟨sh, L, d⟩, ?_, rfl, rfl, ?_, ?_⟩
  · unfold fromJson
    rw [hs]
    simp only [Res.bind_ok, he, hnum, Buf.strides]
    rw [h1]
    rfl
  · show d.length = numel sh
    rw [h2]; simp
  · intro idx h
    rw [Buf.read_eq _ h]
    have := h3 idx h
    rw [hdot idx h] at this
    simp only [Int.zero_add, Int.toNat_natCast] at this
    simp [List.getD_eq_getElem?_getD, this]

/-- Writing any strided expression without empty axes as a document and reading it back into a container of any layout
gives an array equal to it. -/
theorem C69_round_trip_partial [Inhabited α] (fixed : Option Nat) (L l : Layout) (junk : Nat → α) (sh : List Nat)
    (st : List Int) (off : Int) (mem : Int → α) (hl : st.length = sh.length) (h0 : 0 ∉ sh)
    (hfix : fixed = none ∨ fixed = some sh.length) :
    ∃ j b, toJson sh st off l mem = .ok j ∧ fromJson fixed L junk j = .ok b ∧ b.shape = sh ∧ b.layout = L ∧ b.WF ∧
      ∀ idx, InBounds sh idx → b.read idx = mem (off + dot st (toInts idx)) := by
  obtain ⟨b, h⟩ := C69_from_json_partial fixed L junk sh (fun idx => mem (off + dot st (toInts idx))) h0 hfix
  exact ⟨_, b, C69_to_json sh st off l mem hl, h⟩

theorem equalShape_eq : ∀ (a b : List Nat), a.length = b.length → equalShape (a.map some) b = .ok (decide (a = b))
  | [], [], _ => rfl
  | [], _ :: _, h => by simp at h
  | _ :: _, [], h => by simp at h
  | x :: a, y :: b, h => by
    simp only [List.map_cons, equalShape]
    by_cases hxy : x = y
    · rw [if_pos hxy, equalShape_eq a b (by simpa using h)]; simp [hxy]
    · rw [if_neg hxy]; simp [hxy]

/-- A view with a fixed number of axes reads a document of its own shape: the elements of the view, and nothing else in
the storage, are overwritten. -/
theorem C69_from_json_view_partial (sh : List Nat) (st : List Int) (off : Int) (l : Layout) (data : List α) (f : List Nat → α)
    (h0 : 0 ∉ sh) (hl : st.length = sh.length)
    (hr : ∀ idx, InBounds sh idx → 0 ≤ off + dot st (toInts idx) ∧ off + dot st (toInts idx) < data.length)
    (hi : ∀ a b, InBounds sh a → InBounds sh b → dot st (toInts a) = dot st (toInts b) → a = b) :
    ∃ d, fromJsonView (some sh.length) sh st off l data (nested sh f) = .ok d ∧ d.length = data.length ∧
      (∀ idx, InBounds sh idx → d[(off + dot st (toInts idx)).toNat]? = some (f idx)) ∧
      (∀ k : Nat, (∀ idx, InBounds sh idx → off + dot st (toInts idx) ≠ k) → d[k]? = data[k]?) := by
  obtain ⟨d, h1, h2⟩ := fromJsonImpl_spec l f data hl hr hi
  refine ⟨d, ?_, h2⟩
  have := jsonShape_nested sh f [] (List.replicate sh.length none) [] sh.length h0 (by simp)
  simp only [List.nil_append, List.append_nil, List.length_nil] at this
  unfold fromJsonView viewShapeObj
  simp only [this, Res.bind_ok]
  rw [List.take_of_length_le (by simp), equalShape_eq sh sh rfl]
  simpa using h1

/-- A document of as many axes but another shape is refused, and nothing is written. -/
theorem C69_view_shape_mismatch (sh sh' : List Nat) (st : List Int) (off : Int) (l : Layout) (data : List α)
    (f : List Nat → α) (h0 : 0 ∉ sh') (hlen : sh'.length = sh.length) (hne : sh' ≠ sh) :
    fromJsonView (some sh.length) sh st off l data (nested sh' f) = .throws := by
  have := jsonShape_nested sh' f [] (List.replicate sh.length none) [] sh.length h0 (by simp [hlen])
  simp only [List.nil_append, List.append_nil, List.length_nil] at this
  unfold fromJsonView viewShapeObj
  simp only [this, Res.bind_ok]
  rw [List.take_of_length_le (by simp [hlen]), equalShape_eq sh' sh hlen]
  simp [hne]

/-! ### Examples -/

/-- A 2×3 view of stride 2 into a storage of 13 cells. -/
example : ∃ d, fromJsonView (some 2) [2, 3] [6, 2] 1 .dynamic (List.replicate 13 (0 : Int))
    (nested [2, 3] fun i => (10 * i.getD 0 0 + i.getD 1 0 : Nat)) = .ok d ∧ d = [0, 0, 0, 1, 0, 2, 0, 10, 0, 11, 0, 12, 0] :=
  ⟨_, rfl, by decide⟩

example := C69_from_json_view_partial (α := Int) [2, 3] [6, 2] 1 .dynamic (List.replicate 13 0) (fun i => (i.getD 0 0 : Nat))
  (by decide) rfl
  (by
    intro idx h
    match idx, h with
    | [a, b], h => obtain ⟨h1, h2, -⟩ := h; simp [dot, toInts]; omega)
  (by
    intro a b ha hb e
    match a, b, ha, hb with
    | [a1, a2], [b1, b2], ha, hb =>
      obtain ⟨h1, h2, -⟩ := ha
      obtain ⟨h3, h4, -⟩ := hb
      simp [dot, toInts] at e ⊢
      omega)

example := C69_round_trip_partial (α := Int) none .column_major .row_major (fun _ => 7) [2, 3] [3, 1] 0 id rfl (by decide)
  (Or.inl rfl)

/-! ### Where the code fails -/

/-- The document of an array with an empty axis cannot be read into a container of dynamic dimension: `{2, 0}` is written as
`[[], []]`, which is taken for an array of one axis. -/
theorem C69_empty_axis_wrong :
    (toJson [2, 0] [0, 1] 0 .row_major (fun p => p)).bind (fromJson none .row_major fun _ => 0) = .throws ∧
    (toJson [0] [1] 0 .row_major (fun p => p)).bind (fromJson none .row_major fun _ => 0) = .throws := by
  decide +kernel

/-- With more than three axes the extent of the empty axis is written past the cells of the shape. -/
theorem C69_empty_axis_undefined :
    (toJson [1, 1, 1, 1, 0] [0, 0, 0, 0, 1] 0 .row_major (fun p => p)).bind (fromJson none .row_major fun _ => 0) = .ub := by
  decide +kernel

/-- A container of fixed dimension reads the document of `{2, 0}` back, but that of `{0, 3}` as `{0, 0}`. -/
theorem C69_empty_axis_fixed_wrong :
    (toJson [2, 0] [0, 1] 0 .row_major (fun p => p)).bind (fromJson (some 2) .row_major fun _ => 0) =
      .ok ⟨[2, 0], .row_major, []⟩ ∧
    (toJson [0, 3] [3, 1] 0 .row_major (fun p => p)).bind (fromJson (some 2) .row_major fun _ => 0) =
      .ok ⟨[0, 0], .row_major, []⟩ := by decide +kernel

/-- `[[1, 2], [3]]`: the second row is read beyond its end. -/
theorem C69_short_row_undefined :
    fromJson none .row_major (fun _ => 0) (.arr [.arr [.val 1, .val 2], .arr [.val 3]] : Jv Int) = .ub := by decide +kernel

/-- `[[1], [2, 3]]`: the 3 is dropped. -/
theorem C69_long_row_wrong :
    fromJson none .row_major (fun _ => 0) (.arr [.arr [.val 1], .arr [.val 2, .val 3]] : Jv Int) =
      .ok ⟨[2, 1], .row_major, [1, 2]⟩ := by decide +kernel

/-- `[1, 2]` read into a container of two axes gives the shape `{2, 0}`: the numbers are dropped. -/
theorem C69_fewer_axes_wrong :
    fromJson (some 2) .row_major (fun _ => 0) (.arr [.val 1, .val 2] : Jv Int) = .ok ⟨[2, 0], .row_major, []⟩ := by
  decide +kernel

/-- `[[1]]` read into a container of one axis writes past the shape. -/
theorem C69_more_axes_undefined :
    fromJson (some 1) .row_major (fun _ => 0) (.arr [.arr [.val 1]] : Jv Int) = .ub := by decide +kernel

/-- The shape of a document is not checked for a view of dynamic dimension: its default-constructed shape is empty.  A longer
document is cut off, a shorter one read beyond its end; with a fixed dimension both are refused. -/
theorem C69_dynamic_view_unchecked_wrong :
    fromJsonView none [2] [1] 0 .row_major [0, 0] (.arr [.val 1, .val 2, .val 3] : Jv Int) = .ok [1, 2] ∧
    fromJsonView none [2] [1] 0 .row_major [0, 0] (.arr [.val 1] : Jv Int) = .ub ∧
    fromJsonView (some 1) [2] [1] 0 .row_major [0, 0] (.arr [.val 1, .val 2, .val 3] : Jv Int) = .throws ∧
    fromJsonView (some 1) [2] [1] 0 .row_major [0, 0] (.arr [.val 1] : Jv Int) = .throws := by decide +kernel

/-- A document with fewer axes than a view of fixed dimension is compared with indeterminate extents. -/
theorem C69_view_fewer_axes_undefined :
    fromJsonView (some 2) [2, 2] [2, 1] 0 .row_major [0, 0, 0, 0] (.arr [.val 1, .val 2] : Jv Int) = .ub := by decide +kernel

end Xt
