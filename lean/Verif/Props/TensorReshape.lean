import Verif.Model.TensorReshape
import Verif.Props.Container
/-!
# C107: arrays with a fixed number of axes are given as many extents
-/

namespace Xt
open Spec
universe u
variable {α : Type u}

/-- The extents given are the numbers `sh`. -/
def Spec.Gives : Extents → List Nat → Prop
  | .braces xs, sh => xs = toInts sh
  | .bracesU xs, sh => xs = sh
  | .seq xs, sh => xs = toInts sh
  | .seqU xs, sh => xs = sh

theorem Spec.Gives.count {x : Extents} {sh : List Nat} (h : Gives x sh) : x.count = sh.length := by
  cases x <;> (simp only [Gives] at h; subst h; simp [Extents.count, toInts])

theorem padExtents_full {β : Type} (zero : β) (xs : List β) : padExtents xs.length zero xs = some xs := by
  simp [padExtents]

theorem padExtents_more {β : Type} {N : Nat} (zero : β) {xs : List β} (h : N < xs.length) : padExtents N zero xs = none := by
  simp [padExtents, Nat.not_le.2 h]

theorem padExtents_fewer {β : Type} {N : Nat} (zero : β) {xs : List β} (h : xs.length < N) :
    ∃ k, padExtents N zero xs = some (xs ++ List.replicate (k + 1) zero) ∧ xs.length + (k + 1) = N := by
  refine ⟨N - xs.length - 1, ?_, by omega⟩
  rw [show N - xs.length - 1 + 1 = N - xs.length by omega]
  simp [padExtents, h.le]

theorem toInts_length (xs : List Nat) : (toInts xs).length = xs.length := by simp [toInts]

/-- C107: as many positive extents as the tensor has axes, given in any way: the tensor has them afterwards, with its elements where they
were, if their product is its number of elements; otherwise there is an exception and the tensor is as before. -/
theorem C107_reshape (d : Layout) (c : Cont α) (h : Consistent c) (l : Layout) (hl : c.L ≠ .dynamic → l = c.L) {x : Extents}
    {sh : List Nat} (hx : Gives x sh) (h0 : 0 ∉ sh) (hrep : c.size < 2 ^ 64) (hext : ∀ n ∈ sh, n < 2 ^ 64) :
    (numel sh = numel c.shape → ∃ c', tensorReshape d sh.length c l x = .ok c' ∧ c'.shape = sh ∧ c'.storage = c.storage) ∧
    (numel sh ≠ numel c.shape → tensorReshape d sh.length c l x = .throws c) := by
  have hs := C15_reshape_signed_plain c h sh l h0 hrep hext
  have hu := C15_reshape_unsigned d c h sh l hl
  cases x with
  | braces xs =>
    have hx : xs = toInts sh := hx
    subst hx
    have : tensorReshape d sh.length c l (.braces (toInts sh)) = c.reshapeSigned (toInts sh) l := by
      simp only [tensorReshape, ← toInts_length sh, padExtents_full]
    rw [this]; exact hs
  | bracesU xs =>
    have hx : xs = sh := hx
    subst hx
    have : tensorReshape d xs.length c l (.bracesU xs) = c.reshapeUnsigned d xs l := by
      simp only [tensorReshape, padExtents_full]
    rw [this]
    exact ⟨fun e => let ⟨c', h1, h2, h3, _⟩ := hu.1 e; ⟨c', h1, h2, h3⟩, hu.2⟩
  | seq xs =>
    have hx : xs = toInts sh := hx
    subst hx
    simp only [tensorReshape, toInts_length]
    constructor
    · intro e
      obtain ⟨c', h1, h2, h3⟩ := hs.1 e
      exact ⟨c', by rw [h1]; simp [storeExtents], h2, h3⟩
    · intro e; rw [hs.2 e]; rfl
  | seqU xs =>
    have hx : xs = sh := hx
    subst hx
    simp only [tensorReshape]
    constructor
    · intro e
      obtain ⟨c', h1, h2, h3, _⟩ := hu.1 e
      exact ⟨c', by rw [h1]; simp [storeExtents], h2, h3⟩
    · intro e; rw [hu.2 e]; rfl

/-- C107: the same with one extent left open by -1: it becomes the only one that keeps the number of elements. -/
theorem C107_reshape_placeholder (d : Layout) (c : Cont α) (h : Consistent c) (pre post : List Nat) (l : Layout) (hpre : 0 ∉ pre)
    (hpost : 0 ∉ post) (hrep : c.size < 2 ^ 64) (hext : ∀ x ∈ pre ++ post, x < 2 ^ 64) {x : Extents}
    (hx : x = .braces (toInts pre ++ (-1) :: toInts post) ∨ x = .seq (toInts pre ++ (-1) :: toInts post)) :
    (numel (pre ++ post) ∣ numel c.shape → ∃ c' m, tensorReshape d (pre.length + (post.length + 1)) c l x = .ok c' ∧
      c'.shape = pre ++ m :: post ∧ c'.storage = c.storage ∧ numel c'.shape = numel c.shape) ∧
    (¬ numel (pre ++ post) ∣ numel c.shape → tensorReshape d (pre.length + (post.length + 1)) c l x = .throws c) := by
  have hp := C15_reshape_placeholder_partial c h pre post l hpre hpost hrep hext
  have hlen : (toInts pre ++ (-1) :: toInts post).length = pre.length + (post.length + 1) := by simp [toInts]
  rcases hx with rfl | rfl
  · have : tensorReshape d (pre.length + (post.length + 1)) c l (.braces (toInts pre ++ (-1) :: toInts post)) =
        c.reshapeSigned (toInts pre ++ (-1) :: toInts post) l := by
      simp only [tensorReshape, ← hlen, padExtents_full]
    rw [this]
    exact ⟨fun e => let ⟨c', m, h1, h2, h3, h4, _⟩ := hp.1 e; ⟨c', m, h1, h2, h3, h4⟩, hp.2⟩
  · simp only [tensorReshape, hlen]
    constructor
    · intro e
      obtain ⟨c', m, h1, h2, h3, h4, _⟩ := hp.1 e
      exact ⟨c', m, by rw [h1]; simp [storeExtents], h2, h3, h4⟩
    · intro e; rw [hp.2 e]; rfl

/-- C107: `t.resize` with as many extents as axes, in braces or not: the tensor has them afterwards and is consistent. -/
theorem C107_resize (d : Layout) {fresh : Nat → List α} (hf : ∀ n, (fresh n).length = n) {c : Cont α} (h : Consistent c)
    (braced : Bool) (sh : List Nat) :
    ∃ c', tensorResize d fresh true sh.length c braced sh = .ok c' ∧ c'.shape = sh ∧ Consistent c' := by
  have he : tensorResize d fresh true sh.length c braced sh = c.resize d fresh true sh false := by
    cases braced
    · simp [tensorResize]
    · simp [tensorResize, padExtents_full]
  have hc := step_consistent d hf h (.resize sh false) trivial
  rw [he]
  simp only [Op.run] at hc
  by_cases hs : c.shape ≠ sh ∨ false = true
  · simp only [Cont.resize, if_pos hs, if_true] at hc ⊢
    exact ⟨_, rfl, rfl, hc.1⟩
  · simp only [Cont.resize, if_neg hs]
    refine ⟨c, rfl, ?_, h⟩
    by_contra hne
    exact hs (.inl hne)

/-- C107: another number of extents, not in braces, that does not fit the number of elements: an exception, and the tensor is as before.
Missing: braces (`C107_braces_fewer_wrong`, `C107_braces_more_wrong`) and extents that fit (`C107_sequence_wrong`). -/
theorem C107_other_count_partial (d : Layout) (N : Nat) (c : Cont α) (h : Consistent c) (l : Layout) {sh : List Nat} (h0 : 0 ∉ sh)
    (hrep : c.size < 2 ^ 64) (hext : ∀ n ∈ sh, n < 2 ^ 64) (hne : numel sh ≠ numel c.shape) :
    tensorReshape d N c l (.seq (toInts sh)) = .throws c ∧ tensorReshape d N c l (.seqU sh) = .throws c := by
  constructor
  · simp only [tensorReshape, (C15_reshape_signed_plain c h sh l h0 hrep hext).2 hne, storeExtents]
  · have : c.reshapeUnsigned d sh l = .throws c := by
      unfold Cont.reshapeUnsigned
      rw [if_pos (by rw [computeSize_eq, Consistent.size_eq h]; exact hne)]
    simp only [tensorReshape, this, storeExtents]

/-- C107 fails for every reshape to fewer signed extents in braces, as in `t.reshape({-1})`: the list is filled up with zeros, and the
number of elements is divided by zero. -/
theorem C107_braces_fewer_wrong (d : Layout) (N : Nat) (c : Cont α) (l : Layout) {xs : List Int} (h : xs.length < N) :
    tensorReshape d N c l (.braces xs) = .ub := by
  obtain ⟨k, hp, _⟩ := padExtents_fewer (0 : Int) h
  simp only [tensorReshape, hp]
  exact C15_zero_extent_ub c _ l (by simp)

/-- With unsigned numbers a tensor with elements refuses, and is as before … -/
theorem C107_braces_unsigned_fewer (d : Layout) (N : Nat) (c : Cont α) (h : Consistent c) (l : Layout) {xs : List Nat}
    (hx : xs.length < N) (h0 : 0 ∉ c.shape) : tensorReshape d N c l (.bracesU xs) = .throws c := by
  obtain ⟨k, hp, _⟩ := padExtents_fewer (0 : Nat) hx
  simp only [tensorReshape, hp]
  unfold Cont.reshapeUnsigned
  rw [if_pos]
  rw [computeSize_eq, Consistent.size_eq h, (numel_eq_zero_iff _).2 (by simp)]
  exact fun e => h0 ((numel_eq_zero_iff _).1 e.symm)

/-- … but a tensor without elements takes the extents and has zeros for the missing ones, so C107 fails. -/
theorem C107_braces_unsigned_fewer_wrong (d : Layout) (N : Nat) (c : Cont α) (h : Consistent c) (l : Layout)
    (hl : c.L ≠ .dynamic → l = c.L) {xs : List Nat} (hx : xs.length < N) (h0 : 0 ∈ c.shape) :
    ∃ c', tensorReshape d N c l (.bracesU xs) = .ok c' ∧ c'.shape = xs ++ List.replicate (N - xs.length) 0 := by
  obtain ⟨k, hp, hk⟩ := padExtents_fewer (0 : Nat) hx
  obtain ⟨c', h1, h2, _⟩ := (C15_reshape_unsigned d c h (xs ++ List.replicate (k + 1) 0) l hl).1
    (by rw [(numel_eq_zero_iff _).2 h0, (numel_eq_zero_iff _).2 (by simp)])
  refine ⟨c', by simp only [tensorReshape, hp]; exact h1, ?_⟩
  rw [h2, show N - xs.length = k + 1 by omega]

/-- C107 fails for every reshape to more extents in braces: they are copied past the end of a `std::array`. -/
theorem C107_braces_more_wrong (d : Layout) (N : Nat) (c : Cont α) (l : Layout) {xs : List Int} {ys : List Nat} (hx : N < xs.length)
    (hy : N < ys.length) : tensorReshape d N c l (.braces xs) = .ub ∧ tensorReshape d N c l (.bracesU ys) = .ub := by
  simp only [tensorReshape, padExtents_more _ hx, padExtents_more _ hy, and_self]

/-- C107 fails for other sequences with another number of extents whose product is the number of elements. -/
theorem C107_sequence_wrong (d : Layout) (N : Nat) (c : Cont α) (h : Consistent c) (l : Layout) (hl : c.L ≠ .dynamic → l = c.L)
    {sh : List Nat} (h0 : 0 ∉ sh) (hrep : c.size < 2 ^ 64) (hext : ∀ n ∈ sh, n < 2 ^ 64) (he : numel sh = numel c.shape)
    (hN : sh.length ≠ N) :
    tensorReshape d N c l (.seq (toInts sh)) = .ub ∧ tensorReshape d N c l (.seqU sh) = .ub := by
  obtain ⟨c1, h1, _⟩ := (C15_reshape_signed_plain c h sh l h0 hrep hext).1 he
  obtain ⟨c2, h2, _⟩ := (C15_reshape_unsigned d c h sh l hl).1 he
  simp only [tensorReshape, h1, h2, storeExtents, toInts_length, if_neg hN, and_self]

/-- C107 fails for every `t.resize({…})` with fewer extents than axes: it succeeds, and the tensor has no elements. -/
theorem C107_resize_fewer_wrong (d : Layout) {fresh : Nat → List α} (hf : ∀ n, (fresh n).length = n) {c : Cont α} (h : Consistent c)
    {N : Nat} {xs : List Nat} (hx : xs.length < N) :
    ∃ c', tensorResize d fresh true N c true xs = .ok c' ∧ c'.shape = xs ++ List.replicate (N - xs.length) 0 ∧ c'.storage = [] := by
  obtain ⟨k, hp, hk⟩ := padExtents_fewer (0 : Nat) hx
  obtain ⟨c', h1, h2, h3⟩ := C107_resize d hf h false (xs ++ List.replicate (k + 1) 0)
  have e1 : (xs ++ List.replicate (k + 1) 0).length = N := by simp; omega
  refine ⟨c', ?_, by rw [h2, show N - xs.length = k + 1 by omega], ?_⟩
  · rw [← h1]
    simp [tensorResize, hp]
  · have := h3.storage_size
    rw [h2, (numel_eq_zero_iff _).2 (by simp)] at this
    exact List.length_eq_zero_iff.1 this

/-- C107 fails for `t.resize(shape)` with another number of extents. -/
theorem C107_resize_other_wrong (d : Layout) (fresh : Nat → List α) (alloc : Bool) {N : Nat} (c : Cont α) {xs : List Nat}
    (hx : xs.length ≠ N) : tensorResize d fresh alloc N c false xs = .ub := by
  simp [tensorResize, hx]

/-! ### Examples -/

/-- A tensor of shape (2, 3). -/
def exTensor23 : Cont Nat :=
  { L := .row_major, layout := .row_major, shape := [2, 3], strides := (computeStrides .row_major .row_major [2, 3]).1,
    backstr := backstrides [2, 3] (computeStrides .row_major .row_major [2, 3]).1, storage := [1, 2, 3, 4, 5, 6] }

theorem exTensor23_consistent : Consistent exTensor23 := Consistent.of_computed .row_major .row_major [2, 3] _ rfl

/-- A tensor of shape (0, 3). -/
def exTensor03 : Cont Nat :=
  { L := .row_major, layout := .row_major, shape := [0, 3], strides := (computeStrides .row_major .row_major [0, 3]).1,
    backstr := backstrides [0, 3] (computeStrides .row_major .row_major [0, 3]).1, storage := [] }

theorem exTensor03_consistent : Consistent exTensor03 := Consistent.of_computed .row_major .row_major [0, 3] _ rfl

/-- `t.reshape({3, 2})` and `t.reshape({4, 2})`. -/
example : (∃ c', tensorReshape .row_major 2 exTensor23 .row_major (.braces [3, 2]) = .ok c' ∧ c'.shape = [3, 2] ∧
      c'.storage = [1, 2, 3, 4, 5, 6]) ∧
    tensorReshape .row_major 2 exTensor23 .row_major (.seqU [4, 2]) = .throws exTensor23 :=
  ⟨(C107_reshape .row_major exTensor23 exTensor23_consistent .row_major (fun _ => rfl) (x := .braces [3, 2]) (sh := [3, 2]) rfl
      (by decide) (by decide) (by decide)).1 (by decide),
   (C107_reshape .row_major exTensor23 exTensor23_consistent .row_major (fun _ => rfl) (x := .seqU [4, 2]) (sh := [4, 2]) rfl
      (by decide) (by decide) (by decide)).2 (by decide)⟩

/-- `t.reshape({-1, 2})`. -/
example : ∃ c' m, tensorReshape .row_major 2 exTensor23 .row_major (.braces [-1, 2]) = .ok c' ∧ c'.shape = [] ++ m :: [2] ∧
    c'.storage = [1, 2, 3, 4, 5, 6] ∧ numel c'.shape = 6 :=
  (C107_reshape_placeholder .row_major exTensor23 exTensor23_consistent [] [2] .row_major (by decide) (by decide) (by decide) (by decide)
    (.inl rfl)).1 (by decide)

/-- `t.resize({4, 5})`, and `t.resize({4})`. -/
example : (∃ c', tensorResize .row_major (fun n => List.replicate n 0) true 2 exTensor23 true [4, 5] = .ok c' ∧ c'.shape = [4, 5] ∧
      Consistent c') ∧
    (∃ c', tensorResize .row_major (fun n => List.replicate n 0) true 2 exTensor23 true [4] = .ok c' ∧ c'.shape = [4, 0] ∧
      c'.storage = []) :=
  ⟨C107_resize .row_major (fun n => by simp) exTensor23_consistent true [4, 5],
   C107_resize_fewer_wrong .row_major (fun n => by simp) exTensor23_consistent (xs := [4]) (by decide)⟩

/-- `t.reshape(std::vector<int>{5})`, and of `{6}`. -/
example : tensorReshape .row_major 2 exTensor23 .row_major (.seq (toInts [5])) = .throws exTensor23 ∧
    tensorReshape .row_major 2 exTensor23 .row_major (.seq (toInts [6])) = .ub :=
  ⟨(C107_other_count_partial .row_major 2 exTensor23 exTensor23_consistent .row_major (by decide) (by decide) (by decide)
      (by decide)).1,
   (C107_sequence_wrong .row_major 2 exTensor23 exTensor23_consistent .row_major (fun _ => rfl) (by decide) (by decide) (by decide)
      (by decide) (by decide)).1⟩

/-- `t.reshape({6})`, `t.reshape({1, 2, 3})`, and `{6u}` for a tensor with and without elements. -/
example : tensorReshape .row_major 2 exTensor23 .row_major (.braces [6]) = .ub ∧
    tensorReshape .row_major 2 exTensor23 .row_major (.braces [1, 2, 3]) = .ub ∧
    tensorReshape .row_major 2 exTensor23 .row_major (.bracesU [6]) = .throws exTensor23 ∧
    (∃ c', tensorReshape .row_major 2 exTensor03 .row_major (.bracesU [6]) = .ok c' ∧ c'.shape = [6, 0]) :=
  ⟨C107_braces_fewer_wrong _ 2 _ _ (by decide), (C107_braces_more_wrong _ 2 _ _ (ys := [1, 2, 3]) (by decide) (by decide)).1,
   C107_braces_unsigned_fewer _ 2 _ exTensor23_consistent _ (by decide) (by decide),
   C107_braces_unsigned_fewer_wrong _ 2 _ exTensor03_consistent _ (fun _ => rfl) (xs := [6]) (by decide) (by decide)⟩


/-- `t.resize(std::vector<size_t>{4})`. -/
example : tensorResize .row_major (fun n => List.replicate n 0) true 2 exTensor23 false [4] = .ub :=
  C107_resize_other_wrong _ _ _ _ (by decide)

end Xt
