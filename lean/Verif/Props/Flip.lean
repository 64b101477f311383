import Verif.Props.Manip
/-!
# C35: flips and rotations
-/

namespace Xt
open Spec

theorem dot_set_stride (st : List Int) (l : List Nat) (k : Nat) (v : Int) (hk : k < st.length)
    (hl : l.length = st.length) :
    dot (st.set k v) (toInts l) = dot st (toInts l) + (l.getD k 0 : Int) * (v - st.getD k 0) := by
  induction st generalizing l k with
  | nil => simp at hk
  | cons x st ih =>
    cases l with
    | nil => simp at hl
    | cons y l =>
      cases k with
      | zero =>
        simp only [List.set_cons_zero, toInts_cons, dot_cons, List.getD_cons_zero]
        rw [Int.mul_sub]; omega
      | succ k =>
        simp only [List.set_cons_succ, toInts_cons, dot_cons, List.getD_cons_succ]
        rw [ih l k (by simpa using hk) (by simpa using hl)]; omega

theorem flipIndex_inBounds {sh p : List Nat} {a : Nat} (h : InBounds sh p) : InBounds sh (flipIndex sh a p) := by
  unfold flipIndex
  rw [inBounds_iff_get] at h ⊢
  refine ⟨by simpa using h.1, fun k hk => ?_⟩
  by_cases ha : a < p.length
  · rw [getD_set_nat ha]
    split
    · subst_vars
      have := h.2 k hk
      omega
    · exact h.2 k hk
  · rw [List.set_eq_of_length_le (by omega)]
    exact h.2 k hk

theorem flipIndex_getD {sh p : List Nat} {a k : Nat} (ha : a < p.length) :
    (flipIndex sh a p).getD k 0 = if a = k then sh.getD a 0 - 1 - p.getD a 0 else p.getD k 0 := by
  unfold flipIndex
  rw [getD_set_nat ha]

theorem flipIndex_length (sh p : List Nat) (a : Nat) : (flipIndex sh a p).length = p.length := by simp [flipIndex]

theorem flipIndex_flipIndex {sh p : List Nat} {a : Nat} (ha : a < sh.length) (h : InBounds sh p) :
    flipIndex sh a (flipIndex sh a p) = p := by
  have hl := h.length_eq
  apply ext_getD (by simp [flipIndex])
  intro k hk
  rw [flipIndex_getD (by simpa [flipIndex, hl] using ha), flipIndex_getD (by omega), flipIndex_getD (by omega), if_pos rfl]
  by_cases hak : a = k
  · rw [if_pos hak]
    subst hak
    have := (inBounds_iff_get.1 h).2 a ha
    omega
  · rw [if_neg hak, if_neg hak]

theorem flipIndex_comm {sh p : List Nat} {a b : Nat} (hab : a ≠ b) (ha : a < p.length) (hb : b < p.length) :
    flipIndex sh a (flipIndex sh b p) = flipIndex sh b (flipIndex sh a p) := by
  apply ext_getD (by simp [flipIndex])
  intro k hk
  have ha' : a < (flipIndex sh b p).length := by simpa [flipIndex] using ha
  have hb' : b < (flipIndex sh a p).length := by simpa [flipIndex] using hb
  simp only [flipIndex_getD ha, flipIndex_getD hb, flipIndex_getD ha', flipIndex_getD hb']
  rw [if_neg hab, if_neg (Ne.symm hab)]
  by_cases h1 : a = k
  · rw [if_pos h1, if_neg (by omega), if_pos h1]
  · rw [if_neg h1, if_neg h1]

/-- C35: `flip` keeps the shape and reads the element mirrored along the axis. -/
theorem C35_flip {e : Strd} (he : e.WF) {a : Nat} (ha : a < e.shape.length) :
    ∃ v, flip e a = .ok v ∧ v.WF ∧ v.shape = e.shape ∧
      ∀ p, InBounds e.shape p → v.index (toInts p) = e.index (toInts (flipIndex e.shape a p)) := by
  have hs : a < e.strides.length := by rw [he]; exact ha
  unfold flip
  rw [List.getElem?_eq_getElem ha, List.getElem?_eq_getElem hs]
  simp only
  have hl : (e.strides.set a (e.strides[a] * -1)).length = e.shape.length := by
    rw [List.length_set]; exact he
  rw [mkStrd_ok hl]
  refine ⟨_, rfl, mkStrd_wf hl, rfl, fun p hp => ?_⟩
  have hpl := hp.length_eq
  have hpa := (inBounds_iff_get.1 hp).2 a ha
  rw [mkStrd_index hl hp, Strd.index_eq he (flipIndex_inBounds hp), flipIndex, dot_set _ _ _ _ (by omega),
    dot_set_stride _ _ _ _ hs (by rw [hpl, he])]
  have e1 : e.strides.getD a 0 = e.strides[a] := by simp [List.getD_eq_getElem?_getD, hs]
  have e2 : e.shape.getD a 0 = e.shape[a] := by simp [List.getD_eq_getElem?_getD, ha]
  rw [e1, e2]
  rw [e2] at hpa
  have e3 : ((e.shape[a] - 1 - p.getD a 0 : Nat) : Int) = (e.shape[a] : Int) - 1 - (p.getD a 0 : Int) := by omega
  rw [e3]
  generalize e.strides[a] = S
  generalize (e.shape[a] : Int) = N
  generalize (p.getD a 0 : Int) = P
  generalize dot e.strides (toInts p) = D
  have : S * (N - 1) + P * (S * -1 - S) = (N - 1 - P - P) * S := by ring
  omega

/-- C35: every element read through `flip` lies among the argument's elements. -/
theorem C35_flip_stays_inside {e : Strd} (he : e.WF) {a : Nat} (ha : a < e.shape.length) {v : Strd}
    (hv : flip e a = .ok v) {p : List Nat} (hp : InBounds v.shape p) :
    ∃ q, InBounds e.shape q ∧ v.index (toInts p) = e.index (toInts q) := by
  obtain ⟨w, h1, h2, h3, h4⟩ := C35_flip he ha
  rw [h1] at hv
  injection hv with hv
  subst hv
  rw [h3] at hp
  exact ⟨_, flipIndex_inBounds hp, h4 p hp⟩

/-- C35: flipping twice gives back the elements in their original places. -/
theorem C35_flip_involution {e : Strd} (he : e.WF) {a : Nat} (ha : a < e.shape.length) :
    ∃ v w, flip e a = .ok v ∧ flip v a = .ok w ∧ w.shape = e.shape ∧
      ∀ p, InBounds e.shape p → w.index (toInts p) = e.index (toInts p) := by
  obtain ⟨v, h1, h2, h3, h4⟩ := C35_flip he ha
  obtain ⟨w, g1, g2, g3, g4⟩ := C35_flip h2 (a := a) (by rw [h3]; exact ha)
  refine ⟨v, w, h1, g1, by rw [g3, h3], fun p hp => ?_⟩
  rw [g4 p (by rw [h3]; exact hp), h3, h4 _ (flipIndex_inBounds hp), flipIndex_flipIndex ha hp]

/-- `flip` does not check its axis. -/
theorem C35_flip_axis_unchecked {e : Strd} {a : Nat} (ha : e.shape.length ≤ a) : flip e a = .ub := by
  unfold flip
  rw [List.getElem?_eq_none ha]

/-! ### Rotations -/

theorem swapEntries_inBounds {sh p : List Nat} {a b : Nat} (ha : a < sh.length) (hb : b < sh.length)
    (h : InBounds sh p) : InBounds (swapEntries sh a b) (swapEntries p a b) := by
  have hl := h.length_eq
  rw [inBounds_iff_get] at h ⊢
  refine ⟨by rw [swapEntries_length, swapEntries_length, h.1], fun k hk => ?_⟩
  rw [swapEntries_length] at hk
  rw [swapEntries_getD ha hb, swapEntries_getD (by omega) (by omega)]
  exact h.2 _ (swapFn_lt ha hb hk)

theorem swap_flip_swap {sh q : List Nat} {a b : Nat} (ha : a < sh.length) (hb : b < sh.length)
    (hq : q.length = sh.length) :
    swapEntries (flipIndex (swapEntries sh a b) b (swapEntries q a b)) a b = flipIndex sh a q := by
  apply ext_getD (by simp [flipIndex, swapEntries])
  intro k hk
  have e1 : (flipIndex (swapEntries sh a b) b (swapEntries q a b)).length = sh.length := by
    rw [flipIndex_length, swapEntries_length, hq]
  rw [swapEntries_getD (by omega) (by omega), flipIndex_getD (by rw [swapEntries_length]; omega),
    flipIndex_getD (by omega), swapEntries_getD ha hb, swapEntries_getD (by omega) (by omega),
    swapEntries_getD (by omega) (by omega)]
  unfold swapFn
  by_cases h1 : k = b
  · subst h1
    by_cases h2 : k = a
    · subst h2; simp
    · simp [h2, Ne.symm h2]
  · by_cases h2 : k = a
    · subst h2; simp [h1, Ne.symm h1]
    · simp [h1, h2, Ne.symm h1, Ne.symm h2]

theorem flip_swap {sh q : List Nat} {a b : Nat} (ha : a < sh.length) (hb : b < sh.length)
    (hq : q.length = sh.length) :
    swapEntries (flipIndex (swapEntries sh a b) b q) a b = flipIndex sh a (swapEntries q a b) := by
  have := swap_flip_swap (q := swapEntries q a b) ha hb (by rw [swapEntries_length, hq])
  rwa [swapEntries_swap (n := sh.length) ha hb hq] at this

theorem rotShape_length (a b k : Nat) (sh : List Nat) : (rotShape a b k sh).length = sh.length := by
  induction k with
  | zero => rfl
  | succ k ih => rw [rotShape, swapEntries_length, ih]

theorem rotShape_two {sh : List Nat} {a b : Nat} (ha : a < sh.length) (hb : b < sh.length) (k : Nat) :
    rotShape a b (k + 2) sh = rotShape a b k sh := by
  rw [rotShape, rotShape, swapEntries_swap (n := sh.length) ha hb (rotShape_length _ _ _ _)]

theorem rotAt_inBounds {sh : List Nat} {a b : Nat} (ha : a < sh.length) (hb : b < sh.length) :
    ∀ (k : Nat) (q : List Nat), InBounds (rotShape a b k sh) q → InBounds sh (rotAt a b k sh q)
  | 0, _, h => h
  | k + 1, q, h => by
    rw [rotAt]
    apply rotAt_inBounds ha hb k
    apply flipIndex_inBounds
    have := swapEntries_inBounds (a := a) (b := b) (by rw [rotShape_length]; exact ha) (by rw [rotShape_length]; exact hb) h
    rwa [rotShape, swapEntries_swap (n := sh.length) ha hb (rotShape_length _ _ _ _)] at this

theorem rotAt_two {sh q : List Nat} {a b : Nat} (hab : a ≠ b) (ha : a < sh.length) (hb : b < sh.length)
    (hq : q.length = sh.length) : rotAt a b 2 sh q = flipIndex sh a (flipIndex sh b q) := by
  simp only [rotAt, rotShape]
  rw [swap_flip_swap ha hb hq, flipIndex_comm hab (by omega) (by omega)]

theorem rotAt_three {sh q : List Nat} {a b : Nat} (hab : a ≠ b) (ha : a < sh.length) (hb : b < sh.length)
    (hq : InBounds (swapEntries sh a b) q) : rotAt a b 3 sh q = flipIndex sh a (swapEntries q a b) := by
  have hl : q.length = sh.length := by rw [hq.length_eq, swapEntries_length]
  have hs : InBounds sh (swapEntries q a b) := by
    have := swapEntries_inBounds (a := a) (b := b) (by rw [swapEntries_length]; exact ha)
      (by rw [swapEntries_length]; exact hb) hq
    rwa [swapEntries_swap (n := sh.length) ha hb rfl] at this
  rw [rotAt, rotShape_two ha hb, rotShape, rotAt_two hab ha hb (by rw [flipIndex_length, swapEntries_length, hl]),
    flipIndex_flipIndex hb hs]

/-- Four quarter turns are the identity. -/
theorem C35_four_turns {sh q : List Nat} {a b : Nat} (hab : a ≠ b) (ha : a < sh.length) (hb : b < sh.length)
    (hq : InBounds sh q) : rotAt a b 4 sh q = q ∧ rotShape a b 4 sh = sh := by
  refine ⟨?_, by rw [rotShape_two ha hb, rotShape_two ha hb]; rfl⟩
  have hs := swapEntries_inBounds ha hb hq
  rw [rotAt, rotShape_two ha hb, rotShape, rotShape, rotAt_three hab ha hb (flipIndex_inBounds hs),
    swap_flip_swap ha hb hq.length_eq, flipIndex_flipIndex ha hq]

theorem rotAt_add {sh : List Nat} {a b : Nat} (m : Nat) : ∀ (k : Nat) (q : List Nat),
    rotAt a b (m + k) sh q = rotAt a b m sh (rotAt a b k (rotShape a b m sh) q) ∧
      rotShape a b (m + k) sh = rotShape a b k (rotShape a b m sh)
  | 0, q => ⟨rfl, rfl⟩
  | k + 1, q => by
    have h1 := fun q => (rotAt_add (sh := sh) (a := a) (b := b) m k q).1
    have h2 := (rotAt_add (sh := sh) (a := a) (b := b) m k q).2
    rw [← Nat.add_assoc]
    refine ⟨?_, by rw [rotShape, h2, rotShape]⟩
    rw [rotAt, h1, h2, rotAt]

/-- Whole turns do not matter. -/
theorem C35_turns_mod_four {sh : List Nat} {a b : Nat} (hab : a ≠ b) (ha : a < sh.length) (hb : b < sh.length)
    (k : Nat) : rotShape a b k sh = rotShape a b (k % 4) sh ∧
      ∀ q, InBounds (rotShape a b k sh) q → rotAt a b k sh q = rotAt a b (k % 4) sh q := by
  induction k using Nat.strongRecOn with
  | ind k ih =>
    by_cases hk : k < 4
    · rw [Nat.mod_eq_of_lt hk]; exact ⟨rfl, fun _ _ => rfl⟩
    · obtain ⟨h1, h2⟩ := ih (k - 4) (by omega)
      have e : k = (k - 4) + 4 := by omega
      have em : k % 4 = (k - 4) % 4 := by omega
      have h3 : rotShape a b k sh = rotShape a b (k - 4) sh := by
        conv_lhs => rw [e]
        rw [rotShape_two ha hb, rotShape_two ha hb]
      refine ⟨by rw [h3, h1, em], fun q hq => ?_⟩
      rw [em, ← h2 q (by rw [← h3]; exact hq)]
      conv_lhs => rw [e]
      rw [(rotAt_add (k - 4) 4 q).1, (C35_four_turns hab (by rw [rotShape_length]; exact ha)
        (by rw [rotShape_length]; exact hb) (by rw [← h3]; exact hq)).1]

theorem rot90Impl_spec {e : Strd} (he : e.WF) {a b : Nat} (hab : a ≠ b) (ha : a < e.shape.length)
    (hb : b < e.shape.length) {k : Nat} (hk : k < 4) :
    ∃ v, rot90Impl k e a b = .ok v ∧ v.WF ∧ v.shape = rotShape a b k e.shape ∧
      ∀ q, InBounds v.shape q → v.index (toInts q) = e.index (toInts (rotAt a b k e.shape q)) := by
  unfold rot90Impl
  rw [if_neg (by omega)]
  simp only
  rw [toInts_swap ha hb]
  match k, hk with
  | 0, _ => exact ⟨e, rfl, he, rfl, fun q _ => rfl⟩
  | 1, _ =>
    obtain ⟨w, h1, h2, h3, h4⟩ := C35_flip he hb
    rw [h1]
    simp only [Res.bind]
    have hv := swap_valid ha hb
    rw [← h3] at hv
    obtain ⟨v, g1, g2, g3, g4, _⟩ := C33_transpose h2 hv
    rw [h3, permute_swap ha hb rfl] at g3
    rw [h3] at g1
    refine ⟨v, g1, g2, g3, fun q hq => ?_⟩
    rw [g3] at hq
    have hq' := swapEntries_inBounds (a := a) (b := b) (by rw [swapEntries_length]; exact ha)
      (by rw [swapEntries_length]; exact hb) hq
    rw [swapEntries_swap (n := e.shape.length) ha hb rfl] at hq'
    have := (g4 _ (by rw [h3]; exact hq')).2
    rw [h3, permute_swap ha hb hq'.length_eq, swapEntries_swap (n := e.shape.length) ha hb
      (by rw [hq.length_eq, swapEntries_length])] at this
    rw [this, h4 _ hq']
    rfl
  | 2, _ =>
    obtain ⟨w, h1, h2, h3, h4⟩ := C35_flip he ha
    obtain ⟨v, g1, g2, g3, g4⟩ := C35_flip h2 (a := b) (by rw [h3]; exact hb)
    simp only [h1, Res.bind]
    refine ⟨v, g1, g2, by rw [g3, h3, rotShape_two ha hb]; rfl, fun q hq => ?_⟩
    rw [g3] at hq
    rw [g4 q hq, h3]
    rw [h3] at hq
    rw [h4 _ (flipIndex_inBounds hq), rotAt_two hab ha hb hq.length_eq]
  | 3, _ =>
    obtain ⟨w, h1, h2, h3, h4, _⟩ := C33_transpose he (swap_valid ha hb)
    rw [permute_swap ha hb rfl] at h3
    obtain ⟨v, g1, g2, g3, g4⟩ := C35_flip h2 (a := b) (by rw [h3, swapEntries_length]; exact hb)
    simp only [h1, Res.bind]
    refine ⟨v, g1, g2, by rw [g3, h3, rotShape_two ha hb]; rfl, fun q hq => ?_⟩
    rw [g3] at hq
    rw [g4 q hq, h3]
    rw [h3] at hq
    rw [rotAt_three hab ha hb hq, ← flip_swap ha hb (by rw [hq.length_eq, swapEntries_length])]
    have hf := flipIndex_inBounds (a := b) hq
    have hq' := swapEntries_inBounds (a := a) (b := b) (by rw [swapEntries_length]; exact ha)
      (by rw [swapEntries_length]; exact hb) hf
    rw [swapEntries_swap (n := e.shape.length) ha hb rfl] at hq'
    have := (h4 _ hq').2
    rwa [permute_swap ha hb hq'.length_eq, swapEntries_swap (n := e.shape.length) ha hb
      (by rw [hf.length_eq, swapEntries_length])] at this

/-- C35: `rot90<N>` turns the array `N` times (negative `N`: backwards), for every integer `N`. -/
theorem C35_rot90 {e : Strd} (he : e.WF) (hd : e.shape.length < 2 ^ 63) (N : Int) {x y : Int}
    (hx : -(e.shape.length : Int) ≤ x ∧ x < e.shape.length) (hy : -(e.shape.length : Int) ≤ y ∧ y < e.shape.length)
    (hxy : axisOf e.shape.length x ≠ axisOf e.shape.length y) (m : Nat) (hm : (m : Int) % 4 = N % 4) :
    ∃ v, rot90 N e x y = .ok v ∧ v.WF ∧
      v.shape = rotShape (axisOf e.shape.length x) (axisOf e.shape.length y) m e.shape ∧
      ∀ q, InBounds v.shape q → v.index (toInts q) =
        e.index (toInts (rotAt (axisOf e.shape.length x) (axisOf e.shape.length y) m e.shape q)) := by
  obtain ⟨hx1, hx2⟩ := normalizeAxis_eq hd hx.1 hx.2
  obtain ⟨hy1, hy2⟩ := normalizeAxis_eq hd hy.1 hy.2
  have hk : ((4 + N.tmod 4).tmod 4).toNat = m % 4 := by
    rw [Int.tmod_eq_emod (a := N)]
    rw [Int.tmod_eq_emod_of_nonneg (by split <;> omega)]
    split <;> omega
  unfold rot90
  rw [if_neg ?_, hk, hx1, hy1]
  · obtain ⟨v, h1, h2, h3, h4⟩ := rot90Impl_spec he hxy hx2 hy2 (Nat.mod_lt m (by omega : 4 > 0))
    obtain ⟨g1, g2⟩ := C35_turns_mod_four hxy hx2 hy2 m
    refine ⟨v, h1, h2, by rw [h3, g1], fun q hq => ?_⟩
    rw [h4 q hq, g2 q (by rw [g1, ← h3]; exact hq)]
  · unfold axisOf at hxy
    split at hxy <;> split at hxy <;> omega

/-- C35: naming the same axis twice is rejected, however it is written. -/
theorem C35_rot90_same_axis_throws {e : Strd} (N : Int) {x y : Int}
    (hx : -(e.shape.length : Int) ≤ x ∧ x < e.shape.length) (hy : -(e.shape.length : Int) ≤ y ∧ y < e.shape.length)
    (hxy : axisOf e.shape.length x = axisOf e.shape.length y) : rot90 N e x y = .throws := by
  unfold rot90
  rw [if_pos]
  unfold axisOf at hxy
  split at hxy <;> split at hxy <;> omega

/-- Axes outside the dimension are not checked unless their distance happens to be the dimension. -/
theorem C35_rot90_axis_unchecked :
    rot90 1 ⟨[2, 3], [3, 1], 0, .row_major⟩ 0 5 = .ub ∧ rot90 1 ⟨[2, 3], [3, 1], 0, .row_major⟩ 5 7 = .throws := by
  decide

/-! ### Flip along every axis -/

theorem assignThrough_other {α : Type} (mem : Int → α) (dst src : Strd) :
    ∀ (l : List (List Nat)) (m : Int → α) (x : Int), (∀ q ∈ l, dst.index (toInts q) ≠ x) →
      ((l.map toInts).foldl (fun m idx => updateAt m (dst.index idx) (mem (src.index idx))) m) x = m x
  | [], m, x, _ => rfl
  | q :: l, m, x, h => by
    rw [List.map_cons, List.foldl_cons, assignThrough_other mem dst src l _ x fun r hr => h r (by simp [hr]), updateAt,
      if_neg fun e => h q (by simp) e.symm]

theorem assignThrough_at {α : Type} (mem : Int → α) (dst src : Strd) :
    ∀ (l : List (List Nat)) (m : Int → α),
      (∀ p ∈ l, ∀ q ∈ l, dst.index (toInts p) = dst.index (toInts q) → p = q) → ∀ q ∈ l,
      ((l.map toInts).foldl (fun m idx => updateAt m (dst.index idx) (mem (src.index idx))) m) (dst.index (toInts q)) =
        mem (src.index (toInts q))
  | [], _, _, _, hq => by simp at hq
  | r :: l, m, hi, q, hq => by
    rw [List.map_cons, List.foldl_cons]
    by_cases hql : q ∈ l
    · exact assignThrough_at mem dst src l _ (fun p hp s hs => hi p (by simp [hp]) s (by simp [hs])) q hql
    · have hqr : q = r := by simpa [hql] using hq
      subst hqr
      rw [assignThrough_other, updateAt, if_pos rfl]
      intro s hs e
      exact hql ((hi s (by simp [hs]) q (by simp) e) ▸ hs)

/-- Flips along the axes `d`, …, `d + k - 1`. -/
def flipsFrom (sh : List Nat) : Nat → Nat → List Nat → List Nat
  | _, 0, q => q
  | d, k + 1, q => flipIndex sh d (flipsFrom sh (d + 1) k q)

theorem flipsFrom_length (sh : List Nat) : ∀ (d k : Nat) (q : List Nat), (flipsFrom sh d k q).length = q.length
  | _, 0, _ => rfl
  | d, k + 1, q => by rw [flipsFrom, flipIndex_length, flipsFrom_length sh (d + 1) k q]

theorem flipsFrom_inBounds {sh q : List Nat} (h : InBounds sh q) : ∀ (d k : Nat), InBounds sh (flipsFrom sh d k q)
  | _, 0 => h
  | d, k + 1 => flipIndex_inBounds (flipsFrom_inBounds h (d + 1) k)

theorem flipsFrom_getD {sh q : List Nat} (h : q.length = sh.length) : ∀ (k d j : Nat), d + k ≤ sh.length →
    (flipsFrom sh d k q).getD j 0 = if d ≤ j ∧ j < d + k then sh.getD j 0 - 1 - q.getD j 0 else q.getD j 0
  | 0, d, j, _ => by rw [if_neg (by omega)]; rfl
  | k + 1, d, j, hd => by
    rw [flipsFrom, flipIndex_getD (by rw [flipsFrom_length]; omega), flipsFrom_getD h k (d + 1) d (by omega),
      flipsFrom_getD h k (d + 1) j (by omega), if_neg (show ¬ (d + 1 ≤ d ∧ d < d + 1 + k) by omega)]
    by_cases h1 : d = j
    · subst h1; rw [if_pos rfl, if_pos (by omega)]
    · rw [if_neg h1]
      by_cases h2 : d + 1 ≤ j ∧ j < d + 1 + k
      · rw [if_pos h2, if_pos (by omega)]
      · rw [if_neg h2, if_neg (by omega)]

theorem flipsFrom_all {sh q : List Nat} (h : q.length = sh.length) : flipsFrom sh 0 sh.length q = mirror sh q := by
  apply ext_getD (by rw [flipsFrom_length]; simp [mirror, h])
  intro k hk
  rw [flipsFrom_length] at hk
  rw [flipsFrom_getD h _ _ _ (by omega), if_pos (by omega)]
  have h1 : k < sh.length := by omega
  simp [mirror, List.getD_eq_getElem?_getD, hk, h1]

theorem flipAllLoop_spec {α : Type} {r : Strd} (hr : r.WF) {ix : List (List Nat)}
    (hix : ∀ q, q ∈ ix ↔ InBounds r.shape q)
    (hinj : ∀ p q, InBounds r.shape p → InBounds r.shape q → r.index (toInts p) = r.index (toInts q) → p = q) :
    ∀ (k d : Nat) (mem : Int → α), d + k ≤ r.shape.length →
      ∃ m, flipAllLoop (ix.map toInts) r k d mem = .ok m ∧
        (∀ q, InBounds r.shape q → m (r.index (toInts q)) = mem (r.index (toInts (flipsFrom r.shape d k q)))) ∧
        ∀ x, (∀ q, InBounds r.shape q → r.index (toInts q) ≠ x) → m x = mem x
  | 0, d, mem, _ => ⟨mem, rfl, fun _ _ => rfl, fun _ _ => rfl⟩
  | k + 1, d, mem, hd => by
    obtain ⟨s, h1, h2, h3, h4⟩ := C35_flip hr (a := d) (by omega)
    unfold flipAllLoop
    rw [h1]
    simp only [Res.bind]
    obtain ⟨m, g1, g2, g3⟩ := flipAllLoop_spec hr hix hinj k (d + 1) (assignThrough mem r s (ix.map toInts)) (by omega)
    refine ⟨m, g1, fun q hq => ?_, fun x hx => ?_⟩
    · have hf := flipsFrom_inBounds hq (d + 1) k
      rw [g2 q hq, assignThrough, assignThrough_at mem r s ix _ _ _ ((hix _).2 hf), h4 _ hf]
      · rfl
      · exact fun p hp t ht => hinj p t ((hix p).1 hp) ((hix t).1 ht)
    · rw [g3 x hx, assignThrough, assignThrough_other]
      exact fun q hq => hx q ((hix q).1 hq)

/-- C35: through the view returned by `flip(e)` the element at `q` is the mirrored element of `e` as it was,
and storage outside the elements of `e` is not written. -/
theorem C35_flip_all_partial {α : Type} {e : Strd} (he : e.WF) (h0 : e.shape ≠ []) {ix : List (List Nat)}
    (hix : ∀ q, q ∈ ix ↔ InBounds e.shape q)
    (hinj : ∀ p q, InBounds e.shape p → InBounds e.shape q → e.index (toInts p) = e.index (toInts q) → p = q)
    (mem : Int → α) :
    ∃ v m, flipAll (ix.map toInts) e mem = .ok (v, m) ∧ v.shape = e.shape ∧
      (∀ q, InBounds e.shape q → m (v.index (toInts q)) = mem (e.index (toInts (mirror e.shape q)))) ∧
      (∀ x, (∀ q, InBounds e.shape q → e.index (toInts q) ≠ x) → m x = mem x) ∧
      (e.shape.length = 1 → m = mem) := by
  have hlen : 0 < e.shape.length := by
    cases hh : e.shape with
    | nil => exact absurd hh h0
    | cons => simp
  obtain ⟨v, h1, h2, h3, h4⟩ := C35_flip he hlen
  unfold flipAll
  rw [h1]
  simp only [Res.bind]
  have hinj' : ∀ p q, InBounds v.shape p → InBounds v.shape q → v.index (toInts p) = v.index (toInts q) → p = q := by
    rw [h3]
    intro p q hp hq hpq
    rw [h4 p hp, h4 q hq] at hpq
    have := hinj _ _ (flipIndex_inBounds hp) (flipIndex_inBounds hq) hpq
    rw [← flipIndex_flipIndex hlen hp, this, flipIndex_flipIndex hlen hq]
  obtain ⟨m, g1, g2, g3⟩ := flipAllLoop_spec (α := α) h2 (ix := ix) (by rw [h3]; exact hix) hinj'
    (e.shape.length - 1) 1 mem (by rw [h3]; omega)
  refine ⟨v, m, by rw [g1]; rfl, h3, fun q hq => ?_, fun x hx => ?_, fun h => ?_⟩
  · rw [g2 q (by rw [h3]; exact hq), h3, h4 _ (flipsFrom_inBounds hq _ _), ← flipsFrom_all hq.length_eq]
    have : e.shape.length = (e.shape.length - 1) + 1 := by omega
    conv_rhs => rw [this, flipsFrom]
  · apply g3
    rw [h3]
    intro q hq
    rw [h4 q hq]
    exact hx _ (flipIndex_inBounds hq)
  · rw [h] at g1
    simp only [Nat.sub_self, flipAllLoop, Res.ok.injEq] at g1
    exact g1.symm

/-- Beyond one dimension `flip(e)` overwrites the elements of its argument, and a scalar is undefined behaviour. -/
theorem C35_flip_all_overwrites :
    (∃ v m, flipAll [[0, 0], [0, 1], [1, 0], [1, 1]] ⟨[2, 2], [2, 1], 0, .row_major⟩ (fun x : Int => x) = .ok (v, m) ∧
      [0, 1, 2, 3].map m = [1, 0, 3, 2]) ∧
    flipAll [[]] ⟨[], [], 0, .row_major⟩ (fun x : Int => x) = .ub := by
  refine ⟨⟨_, _, rfl, by decide⟩, rfl⟩

example : flip ⟨[2, 3], [3, 1], 4, .row_major⟩ 1 = .ok ⟨[2, 3], [3, -1], 6, .dynamic⟩ ∧
    (Strd.mk [2, 3] [3, 1] 4 .row_major).WF ∧ flipIndex [2, 3] 1 [1, 0] = [1, 2] := by
  refine ⟨by decide, rfl, by decide⟩
example : rot90 1 ⟨[2, 3], [3, 1], 0, .row_major⟩ 0 (-1) = .ok ⟨[3, 2], [-1, 3], 2, .dynamic⟩ ∧
    rot90 (-1) ⟨[2, 3], [3, 1], 0, .row_major⟩ 0 1 = .ok ⟨[3, 2], [1, -3], 3, .dynamic⟩ ∧
    rotAt 0 1 1 [2, 3] [0, 1] = [1, 2] ∧ rotAt 0 1 3 [2, 3] [0, 0] = [1, 0] := by decide

end Xt
