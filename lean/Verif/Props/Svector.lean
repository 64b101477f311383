import Verif.Model.Svector
/-!
# C51: the small vector is a sequence

Every member function, called as its precondition says, does what the operation does on a plain list, whatever the
inline capacity, wherever the elements are, and whatever the unused cells hold; so does every history of calls over any
collection of vectors.  The number of elements never exceeds the capacity, and no call writes beyond the block.

Elements passed by reference to the vector they belong to are the exception: they are read after the old heap block has
been freed.
-/

namespace Xt

open Spec (SeqOp seqStep seqRun onSeq)

variable {α : Type}

/-- What holds between calls: the elements fit the block, the block is no smaller than the inline capacity asked for,
    and the inline block has its own size. -/
structure SVec.WF (N : Nat) (v : SVec α) : Prop where
  fits : v.size ≤ v.cells.length
  room : N ≤ v.cells.length
  inl : v.onStack = true → v.cells.length = inlineCells N

/-- A call succeeds, leaving a vector in order with the elements `l`. -/
def SVec.Yields (N : Nat) (r : Res (SVec α)) (l : List α) : Prop :=
  ∃ v, r = .ok v ∧ v.WF N ∧ v.toList = l

/-- Two lists made by cutting and joining are equal, index by index. -/
macro "cut_and_join" : tactic => `(tactic| (
  apply List.ext_getElem?
  intro i
  simp only [List.getElem?_take, List.getElem?_append, List.getElem?_drop, List.getElem?_set, List.length_append,
    List.length_take, List.length_drop, List.length_cons, List.length_nil]
  split_ifs <;> first | rfl | omega | (congr 1; omega)))

theorem SVec.length_toList {N : Nat} {v : SVec α} (h : v.WF N) : v.toList.length = v.size := by
  simp [SVec.toList, h.fits]

theorem copyInto_ok {c l : List α} {p : Nat} (h : p + l.length ≤ c.length) :
    copyInto c p l = .ok (c.take p ++ l ++ c.drop (p + l.length)) := if_pos h

theorem copyInto_length {c l : List α} {p : Nat} (h : p + l.length ≤ c.length) :
    (c.take p ++ l ++ c.drop (p + l.length)).length = c.length := by
  simp; omega

theorem grow_spec {N : Nat} (junk : Nat → α) {v : SVec α} (h : v.WF N) (m : Nat) (hm : N ≤ m ∨ N ≤ 2 * v.size + 1) :
    (v.grow junk m).WF N ∧ (v.grow junk m).toList = v.toList ∧ (v.grow junk m).size = v.size ∧
      m ≤ (v.grow junk m).cells.length ∧ v.size < (v.grow junk m).cells.length ∧
      (v.grow junk m).onStack = false := by
  have h1 := h.fits
  have h2 := h.room
  have hl : (v.grow junk m).cells.length = max (2 * v.size + 1) m := by
    simp only [SVec.grow, List.length_append, List.length_take, List.length_map, List.length_range]
    split <;> omega
  refine ⟨⟨?_, ?_, ?_⟩, ?_, rfl, ?_, ?_, rfl⟩
  · show v.size ≤ _
    omega
  · omega
  · intro hf
    exact absurd hf (by simp [SVec.grow])
  · simp only [SVec.toList, SVec.grow]
    rw [List.take_left']
    simp [h1]
  · omega
  · omega

theorem ensure_spec {N : Nat} (junk : Nat → α) {v : SVec α} (h : v.WF N) (n : Nat) :
    (v.ensure junk N n).WF N ∧ (v.ensure junk N n).toList = v.toList ∧ (v.ensure junk N n).size = v.size ∧
      n ≤ (v.ensure junk N n).cells.length := by
  rw [SVec.ensure]
  by_cases hc : n > N ∧ n > v.capacity
  · rw [if_pos hc]
    obtain ⟨a, b, c, d, _⟩ := grow_spec junk h n (Or.inl hc.1.le)
    exact ⟨a, b, c, d⟩
  · rw [if_neg hc]
    refine ⟨h, rfl, rfl, ?_⟩
    have := h.room
    have hcap : v.capacity = v.cells.length := rfl
    omega

/-- Writing into the block keeps it in order, if the new size fits. -/
theorem copyInto_wf {N : Nat} {v : SVec α} (h : v.WF N) {p n : Nat} {l : List α}
    (hp : p + l.length ≤ v.cells.length) (hn : n ≤ v.cells.length) :
    SVec.WF N ⟨v.onStack, v.cells.take p ++ l ++ v.cells.drop (p + l.length), n⟩ := by
  refine ⟨?_, ?_, ?_⟩
  · show n ≤ List.length _
    rw [copyInto_length hp]
    exact hn
  · show N ≤ List.length _
    rw [copyInto_length hp]
    exact h.room
  · intro hs
    show List.length _ = _
    rw [copyInto_length hp]
    exact h.inl hs

theorem pushBack_spec {N : Nat} (junk : Nat → α) {v : SVec α} (h : v.WF N) {elt : SArg α} {x : α}
    (hx : v.deref (decide (v.size ≥ v.capacity)) elt = .ok x) :
    SVec.Yields N (v.pushBack junk elt) (v.toList ++ [x]) := by
  have key : ∀ w : SVec α, w.WF N → w.toList = v.toList → w.size < w.cells.length →
      SVec.Yields N ((copyInto w.cells w.size [x]).map fun c => ⟨w.onStack, c, w.size + 1⟩) (v.toList ++ [x]) := by
    intro w hw hl hlt
    have hb : w.size + [x].length ≤ w.cells.length := by simp; omega
    rw [copyInto_ok hb]
    refine ⟨_, rfl, copyInto_wf hw hb hlt, ?_⟩
    rw [← hl]
    simp only [SVec.toList]
    rw [List.take_left']
    simp; omega
  rw [SVec.pushBack]
  simp only [hx, Res.bind_ok]
  by_cases hf : v.size ≥ v.capacity
  · simp only [hf, decide_true, if_true]
    have hcap : v.capacity = v.cells.length := rfl
    have := h.room
    obtain ⟨a, b, c, _, d, _⟩ := grow_spec junk h 0 (Or.inr (by omega))
    exact key _ a b (by rw [c]; exact d)
  · simp only [hf, decide_false, Bool.false_eq_true, if_false]
    exact key v h rfl (by simpa [SVec.capacity] using hf)

theorem popBack_spec {N : Nat} {v : SVec α} (h : v.WF N) (hne : v.toList ≠ []) :
    SVec.Yields N v.popBack v.toList.dropLast := by
  have hs : v.size ≠ 0 := by
    rintro h0
    exact hne (by simp [SVec.toList, h0])
  have := h.fits
  refine ⟨_, if_neg hs, ⟨?_, h.room, h.inl⟩, ?_⟩
  · show v.size - 1 ≤ v.cells.length
    omega
  · simp only [SVec.toList]
    rw [List.dropLast_eq_take, List.take_take, List.length_take]
    congr 1
    omega

theorem resize_spec {N : Nat} (junk : Nat → α) (init : Bool) (z : α) {v : SVec α} (h : v.WF N) (n : Nat) :
    ∃ ys, ys.length = n - v.size ∧ (init = true → ys = List.replicate (n - v.size) z) ∧
      SVec.Yields N (v.resize junk N init z n) (v.toList.take n ++ ys) := by
  obtain ⟨hw, hl, hs, hn⟩ := ensure_spec junk h n
  rw [SVec.resize, ← hl, ← hs]
  generalize v.ensure junk N n = w at *
  rw [if_pos (show n ≤ w.capacity from hn)]
  have hf := hw.fits
  by_cases hc : init = true ∧ w.size < n
  · rw [if_pos hc]
    have hb : w.size + (List.replicate (n - w.size) z).length ≤ w.cells.length := by simp; omega
    rw [copyInto_ok hb]
    refine ⟨List.replicate (n - w.size) z, by simp, fun _ => rfl, _, rfl, copyInto_wf hw hb hn, ?_⟩
    simp only [SVec.toList]
    rw [List.take_left']
    · rw [List.take_take, Nat.min_eq_right hc.2.le]
    · simp; omega
  · rw [if_neg hc]
    refine ⟨cellsOf w.cells w.size n, ?_, ?_, _, rfl, ⟨hn, hw.room, hw.inl⟩, ?_⟩
    · simp [cellsOf]; omega
    · intro hi
      have : n ≤ w.size := by
        by_contra hlt
        exact hc ⟨hi, by omega⟩
      have h0 : n - w.size = 0 := by omega
      rw [h0]
      simp only [cellsOf, List.replicate_zero, List.drop_eq_nil_iff, List.length_take]
      omega
    · simp only [SVec.toList, cellsOf]
      apply List.ext_getElem?
      intro i
      grind

theorem assignFill_spec {N : Nat} (junk : Nat → α) {v : SVec α} (h : v.WF N) (n : Nat) {elt : SArg α} {x : α}
    (hx : v.deref (decide (n > N ∧ n > v.capacity)) elt = .ok x) :
    SVec.Yields N (v.assignFill junk N n elt) (List.replicate n x) := by
  obtain ⟨hw, hl, hs, hn⟩ := ensure_spec junk h n
  rw [SVec.assignFill]
  simp only [hx, Res.bind_ok]
  have hb : 0 + (List.replicate n x).length ≤ (v.ensure junk N n).cells.length := by simp; omega
  rw [copyInto_ok hb]
  refine ⟨_, rfl, copyInto_wf hw hb hn, ?_⟩
  simp only [SVec.toList]
  rw [List.take_left'] <;> simp

theorem assignList_spec {N : Nat} (junk : Nat → α) {v : SVec α} (h : v.WF N) (l : List α) :
    SVec.Yields N (v.assignList junk N l) l := by
  obtain ⟨hw, hl, hs, hn⟩ := ensure_spec junk h l.length
  rw [SVec.assignList]
  have hb : 0 + l.length ≤ (v.ensure junk N l.length).cells.length := by omega
  rw [copyInto_ok hb]
  refine ⟨_, rfl, copyInto_wf hw hb hn, ?_⟩
  simp only [SVec.toList]
  rw [List.take_left'] <;> simp

theorem stdMove_ok {c : List α} {a b d : Nat} (h : a ≤ b) (hb : b ≤ c.length) (hd : d ≤ a) :
    stdMove c a b d = .ok (c.take d ++ cellsOf c a b ++ c.drop (d + (b - a))) := by
  have hl : (cellsOf c a b).length = b - a := by simp [cellsOf]; omega
  rw [stdMove, if_pos ⟨h, hb, hd⟩, copyInto_ok (by omega), hl]

theorem stdMoveBackward_ok {c : List α} {a b e : Nat} (h : a ≤ b) (hb : b ≤ e) (he : e ≤ c.length) :
    stdMoveBackward c a b e = .ok (c.take (e - (b - a)) ++ cellsOf c a b ++ c.drop e) := by
  have hl : (cellsOf c a b).length = b - a := by simp [cellsOf]; omega
  rw [stdMoveBackward, if_pos ⟨h, hb, by omega⟩, copyInto_ok (by omega), hl]
  congr 2
  congr 1
  omega

theorem erase_spec {N : Nat} {v : SVec α} (h : v.WF N) {p : Nat} (hp : p < v.size) :
    SVec.Yields N (v.erase p) (v.toList.take p ++ v.toList.drop (p + 1)) := by
  have hf := h.fits
  have hr := h.room
  rw [SVec.erase, stdMove_ok (by omega) hf (by omega)]
  refine ⟨_, rfl, ⟨?_, ?_, ?_⟩, ?_⟩
  · simp [cellsOf]; omega
  · simp [cellsOf]; omega
  · intro hs
    have := h.inl hs
    simp [cellsOf]; omega
  · simp only [SVec.toList, cellsOf]
    apply List.ext_getElem?
    intro i
    grind

theorem eraseRange_spec {N : Nat} {v : SVec α} (h : v.WF N) {a b : Nat} (hab : a ≤ b) (hb : b ≤ v.size) :
    SVec.Yields N (v.eraseRange a b) (v.toList.take a ++ v.toList.drop b) := by
  have hf := h.fits
  have hr := h.room
  rw [SVec.eraseRange, if_pos hab]
  by_cases hc : b = v.size
  · rw [if_pos hc]
    refine ⟨_, rfl, ⟨?_, hr, h.inl⟩, ?_⟩
    · show a ≤ v.cells.length
      omega
    · simp only [SVec.toList]
      apply List.ext_getElem?
      intro i
      grind
  · rw [if_neg hc, stdMove_ok (by omega) hf (by omega)]
    refine ⟨_, rfl, ⟨?_, ?_, ?_⟩, ?_⟩
    · simp [cellsOf]; omega
    · simp [cellsOf]; omega
    · intro hs
      have := h.inl hs
      simp [cellsOf]; omega
    · simp only [SVec.toList, cellsOf]
      apply List.ext_getElem?
      intro i
      grind

theorem setAt_spec {N : Nat} {v : SVec α} (h : v.WF N) {p : Nat} (hp : p < v.size) (x : α) :
    SVec.Yields N (v.setAt p x) (v.toList.set p x) := by
  have hf := h.fits
  have hb : p + [x].length ≤ v.cells.length := by simp; omega
  rw [SVec.setAt, if_pos hp, copyInto_ok hb]
  refine ⟨_, rfl, copyInto_wf h hb hf, ?_⟩
  simp only [SVec.toList, List.length_cons, List.length_nil] at hb ⊢
  apply List.ext_getElem?
  intro i
  simp only [List.getElem?_take, List.getElem?_append, List.getElem?_drop, List.getElem?_set, List.length_append,
    List.length_take, List.length_cons, List.length_nil, List.getElem?_singleton]
  split_ifs <;> first | rfl | omega | (congr 1; omega)

theorem insertList_spec {N : Nat} (junk : Nat → α) {v : SVec α} (h : v.WF N) {p : Nat} (hp : p ≤ v.size) (l : List α) :
    SVec.Yields N (v.insertList junk p l) (v.toList.take p ++ l ++ v.toList.drop p) := by
  have hf := h.fits
  have hr := h.room
  rw [SVec.insertList]
  by_cases hl : l.length > 0
  · rw [if_pos hl]
    have key : ∀ w : SVec α, w.WF N → w.toList = v.toList → w.size = v.size → w.size + l.length ≤ w.cells.length →
        SVec.Yields N ((stdMoveBackward w.cells p w.size (w.size + l.length)).bind fun c =>
          (copyInto c p l).map fun c => ⟨w.onStack, c, w.size + l.length⟩)
          (v.toList.take p ++ l ++ v.toList.drop p) := by
      intro w hw htl hs hb
      rw [stdMoveBackward_ok (by omega) (by omega) hb, Res.bind_ok]
      rw [copyInto_ok (by simp [cellsOf]; omega)]
      refine ⟨_, rfl, ⟨?_, ?_, ?_⟩, ?_⟩
      · simp [cellsOf]; omega
      · have := hw.room
        simp [cellsOf]; omega
      · intro hst
        have := hw.inl hst
        simp [cellsOf]; omega
      · rw [← htl]
        simp only [SVec.toList, cellsOf]
        have := hw.fits
        cut_and_join
    have hcap : v.capacity = v.cells.length := rfl
    by_cases hc : l.length > v.capacity - v.size
    · simp only [if_pos hc]
      obtain ⟨a, b, c, d, _⟩ := grow_spec junk h (v.capacity + l.length) (Or.inl (by omega))
      exact key _ a b c (by omega)
    · simp only [if_neg hc]
      exact key v h rfl rfl (by omega)
  · rw [if_neg hl]
    have : l = [] := List.length_eq_zero_iff.1 (by omega)
    subst this
    exact ⟨v, rfl, h, by simp⟩

/-- The block after `insert` has made room at `p`: the elements from `p` on have moved by one. -/
theorem insert_shift {w : SVec α} {p : Nat} {last : α} (hp : p < w.size) (hb : w.size < w.cells.length)
    (hlast : w.cells[w.size - 1]? = some last) :
    ∃ c, ((copyInto w.cells w.size [last]).bind fun c => stdMoveBackward c p (w.size - 1) w.size) = .ok c ∧
      c.length = w.cells.length ∧
      ∀ j, c[j]? = if p + 1 ≤ j ∧ j ≤ w.size then w.cells[j - 1]? else w.cells[j]? := by
  have h1 : w.size + [last].length ≤ w.cells.length := by simp; omega
  have hl := copyInto_length h1
  have hlast' : (w.cells.take w.size ++ [last] ++ w.cells.drop (w.size + [last].length)).length = w.cells.length := hl
  rw [copyInto_ok h1, Res.bind_ok, stdMoveBackward_ok (by omega) (by omega) (by omega)]
  refine ⟨_, rfl, ?_, ?_⟩
  · simp [cellsOf]; omega
  · intro j
    simp only [cellsOf, List.getElem?_take, List.getElem?_append, List.getElem?_drop, List.length_append,
      List.length_take, List.length_drop, List.length_cons, List.length_nil, List.getElem?_singleton]
    rcases Nat.lt_trichotomy j w.size with hj | hj | hj
    · split_ifs <;> first | rfl | omega | (congr 1; omega)
    · subst hj
      rw [← hlast]
      split_ifs <;> first | rfl | omega | (congr 1; omega)
    · split_ifs <;> first | rfl | omega | (congr 1; omega)

theorem insert_spec {N : Nat} (junk : Nat → α) {v : SVec α} (h : v.WF N) {p : Nat} (hp : p ≤ v.size)
    {elt : SArg α} {x : α} (hx : v.deref (decide (v.size ≥ v.capacity)) elt = .ok x) :
    SVec.Yields N (v.insert junk p elt) (v.toList.take p ++ x :: v.toList.drop p) := by
  have hf := h.fits
  have hr := h.room
  have hcap : v.capacity = v.cells.length := rfl
  rw [SVec.insert]
  by_cases hpe : p = v.size
  · rw [if_pos hpe]
    have hl := SVec.length_toList h
    rw [List.take_of_length_le (by omega), List.drop_of_length_le (by omega)]
    exact pushBack_spec junk h hx
  · rw [if_neg hpe]
    have key : ∀ w : SVec α, w.WF N → w.toList = v.toList → w.size = v.size → w.size < w.cells.length →
        (∀ c : List α, c.length = w.cells.length →
          (∀ j, c[j]? = if p + 1 ≤ j ∧ j ≤ w.size then w.cells[j - 1]? else w.cells[j]?) →
          v.insertSource c (decide (v.size ≥ v.capacity)) p elt = .ok x) →
        SVec.Yields N ((orUb w.cells[w.size - 1]?).bind fun last =>
          (copyInto w.cells w.size [last]).bind fun c =>
            (stdMoveBackward c p (w.size - 1) w.size).bind fun c =>
              (v.insertSource c (decide (v.size ≥ v.capacity)) p elt).bind fun x =>
                (copyInto c p [x]).map fun c => ⟨w.onStack, c, w.size + 1⟩)
          (v.toList.take p ++ x :: v.toList.drop p) := by
      intro w hw htl hs hb hsrc
      obtain ⟨last, hlast⟩ : ∃ last, w.cells[w.size - 1]? = some last :=
        ⟨_, List.getElem?_eq_getElem (by omega)⟩
      obtain ⟨c, hc, hcl, hcj⟩ := insert_shift (p := p) (by omega) hb hlast
      rw [hlast]
      have h1 : w.size + [last].length ≤ w.cells.length := by simp; omega
      rw [copyInto_ok h1, Res.bind_ok] at hc
      simp only [orUb, Res.bind_ok]
      rw [copyInto_ok h1, Res.bind_ok, hc, Res.bind_ok, hsrc c hcl hcj, Res.bind_ok]
      have h2 : p + [x].length ≤ c.length := by simp; omega
      rw [copyInto_ok h2]
      refine ⟨_, rfl, ⟨?_, ?_, ?_⟩, ?_⟩
      · show w.size + 1 ≤ _
        rw [copyInto_length h2]
        omega
      · show N ≤ _
        rw [copyInto_length h2, hcl]
        exact hw.room
      · intro hst
        show List.length _ = _
        rw [copyInto_length h2, hcl]
        exact hw.inl hst
      · rw [← htl]
        simp only [SVec.toList]
        apply List.ext_getElem?
        intro i
        have hlen : (w.cells.take w.size).length = w.size := by simp; omega
        simp only [List.getElem?_take, List.getElem?_append, List.getElem?_drop, List.length_append,
          List.length_take, List.length_cons, List.length_nil, List.getElem?_singleton, hcj, List.getElem?_cons]
        split_ifs <;> first | rfl | omega | (congr 1; omega)
    by_cases hfull : v.size ≥ v.capacity
    · simp only [hfull, decide_true, if_true] at hx key ⊢
      obtain ⟨a, b, c, _, d, _⟩ := grow_spec junk h 0 (Or.inr (by omega))
      refine key _ a b c (by rw [c]; exact d) ?_
      intro c' _ _
      cases elt with
      | val y => exact hx
      | own k => exact hx
    · simp only [hfull, decide_false, Bool.false_eq_true, if_false] at hx key ⊢
      refine key v h rfl rfl (by omega) ?_
      intro c hcl hcj
      cases elt with
      | val y => exact hx
      | own k =>
        simp only [SVec.deref] at hx
        by_cases hk : k < v.size
        · rw [if_pos ⟨hk, by simp⟩] at hx
          simp only [SVec.insertSource, Bool.false_eq_true, if_false, if_pos hk, hcj]
          rw [← hx]
          congr 1
          split_ifs <;> first | rfl | omega | (congr 1; omega)
        · rw [if_neg (by rintro ⟨h1, _⟩; exact hk h1)] at hx
          cases hx

theorem swapFirst_spec (a b : List α) : ∀ n, n ≤ a.length → n ≤ b.length →
    SVec.swapFirst a b n = (b.take n ++ a.drop n, a.take n ++ b.drop n) := by
  intro n
  induction n with
  | zero =>
    intro _ _
    simp [SVec.swapFirst]
  | succ n ih =>
    intro ha hb
    rw [SVec.swapFirst, ih (by omega) (by omega)]
    have h1 : (b.take n ++ a.drop n)[n]? = some a[n] := by
      rw [List.getElem?_append_right (by simp)]
      simp only [List.length_take, List.getElem?_drop]
      rw [List.getElem?_eq_getElem (by omega)]
      simp [Nat.min_eq_left (show n ≤ b.length by omega)]
    have h2 : (a.take n ++ b.drop n)[n]? = some b[n] := by
      rw [List.getElem?_append_right (by simp)]
      simp only [List.length_take, List.getElem?_drop]
      rw [List.getElem?_eq_getElem (by omega)]
      simp [Nat.min_eq_left (show n ≤ a.length by omega)]
    simp only [h1, h2]
    have key : ∀ (x y : List α) (hx : n < x.length) (hy : n < y.length),
        (y.take n ++ x.drop n).set n y[n] = y.take (n + 1) ++ x.drop (n + 1) := by
      intro x y hx hy
      apply List.ext_getElem?
      intro i
      have hyn : some y[n] = y[n]? := (List.getElem?_eq_getElem hy).symm
      simp only [List.getElem?_set, List.getElem?_append, List.getElem?_take, List.getElem?_drop, List.length_append,
        List.length_take, List.length_drop, hyn]
      split_ifs <;> first | rfl | omega | (congr 1 <;> omega)
    rw [key a b (by omega) (by omega), key b a (by omega) (by omega)]

theorem swapElements_spec {N : Nat} (junk : Nat → α) (init : Bool) (z : α) {v w : SVec α} (hv : v.WF N) (hw : w.WF N) :
    ∃ v' w', v.swapElements junk N init z w = .ok (v', w') ∧ v'.WF N ∧ w'.WF N ∧ v'.toList = w.toList ∧
      w'.toList = v.toList := by
  rw [SVec.swapElements]
  have hfv := hv.fits
  have hfw := hw.fits
  rcases Nat.lt_trichotomy v.size w.size with h | h | h
  · rw [if_pos h, if_neg (show ¬ v.size > w.size by omega)]
    obtain ⟨ys, hys, _, v', hv', hwf, hl⟩ := resize_spec junk init z hv w.size
    have hs : v'.size = w.size := by
      have h1 := SVec.length_toList hwf
      have h2 := SVec.length_toList hv
      rw [hl] at h1
      simp only [List.length_append, List.length_take, hys, h2] at h1
      omega
    have hf' := hwf.fits
    rw [hv', Res.bind_ok, Res.bind_ok]
    simp only [if_neg (show ¬ v.size > w.size by omega), if_pos h, Nat.min_eq_left h.le]
    rw [swapFirst_spec _ _ _ (by omega) (by omega)]
    have hcl : (cellsOf (v'.cells.take v.size ++ w.cells.drop v.size) v.size w.size).length = w.size - v.size := by
      simp [cellsOf]; omega
    have hb : v.size + (cellsOf (v'.cells.take v.size ++ w.cells.drop v.size) v.size w.size).length ≤
        (w.cells.take v.size ++ v'.cells.drop v.size).length := by
      rw [hcl]
      simp; omega
    have hfirst : v'.cells.take v.size = v.toList := by
      have : v'.toList.take v.size = v.toList := by
        rw [hl, List.take_append_of_le_length (by simp [SVec.length_toList hv]; omega), List.take_take]
        rw [Nat.min_eq_left h.le, List.take_of_length_le (SVec.length_toList hv).le]
      rw [← this, SVec.toList, List.take_take, Nat.min_eq_left (by omega)]
    simp only [copyInto_ok hb]
    refine ⟨_, _, rfl, ⟨?_, ?_, ?_⟩, ⟨?_, ?_, ?_⟩, ?_, ?_⟩
    · show v'.size ≤ List.length _
      rw [copyInto_length hb]
      simp; omega
    · show N ≤ List.length _
      rw [copyInto_length hb]
      have := hwf.room
      simp; omega
    · intro hst
      show List.length _ = _
      rw [copyInto_length hb]
      have := hwf.inl hst
      simp; omega
    · simp; omega
    · have := hw.room
      simp; omega
    · intro hst
      have := hw.inl hst
      simp; omega
    · simp only [SVec.toList, hcl]
      rw [hs]
      simp only [cellsOf]
      cut_and_join
    · rw [← hfirst]
      simp only [SVec.toList]
      cut_and_join
  · rw [if_neg (show ¬ w.size > v.size by omega), if_neg (show ¬ v.size > w.size by omega)]
    simp only [Res.bind_ok, h, Nat.min_self, gt_iff_lt, lt_irrefl, if_false]
    rw [swapFirst_spec _ _ _ (by omega) (by omega)]
    refine ⟨_, _, rfl, ⟨?_, ?_, ?_⟩, ⟨?_, ?_, ?_⟩, ?_, ?_⟩
    · simp; omega
    · have := hv.room
      simp; omega
    · intro hst
      have := hv.inl hst
      simp; omega
    · simp; omega
    · have := hw.room
      simp; omega
    · intro hst
      have := hw.inl hst
      simp; omega
    · simp only [SVec.toList]
      cut_and_join
    · simp only [SVec.toList, h]
      cut_and_join
  · rw [if_neg (show ¬ w.size > v.size by omega), if_pos h, Res.bind_ok]
    obtain ⟨ys, hys, _, w', hw', hwf, hl⟩ := resize_spec junk init z hw v.size
    have hs : w'.size = v.size := by
      have h1 := SVec.length_toList hwf
      have h2 := SVec.length_toList hw
      rw [hl] at h1
      simp only [List.length_append, List.length_take, hys, h2] at h1
      omega
    have hf' := hwf.fits
    rw [hw', Res.bind_ok]
    simp only [if_pos h, Nat.min_eq_right h.le]
    rw [swapFirst_spec _ _ _ (by omega) (by omega)]
    have hcl : (cellsOf (w'.cells.take w.size ++ v.cells.drop w.size) w.size v.size).length = v.size - w.size := by
      simp [cellsOf]; omega
    have hb : w.size + (cellsOf (w'.cells.take w.size ++ v.cells.drop w.size) w.size v.size).length ≤
        (v.cells.take w.size ++ w'.cells.drop w.size).length := by
      rw [hcl]
      simp; omega
    have hfirst : w'.cells.take w.size = w.toList := by
      have : w'.toList.take w.size = w.toList := by
        rw [hl, List.take_append_of_le_length (by simp [SVec.length_toList hw]; omega), List.take_take]
        rw [Nat.min_eq_left h.le, List.take_of_length_le (SVec.length_toList hw).le]
      rw [← this, SVec.toList, List.take_take, Nat.min_eq_left (by omega)]
    simp only [copyInto_ok hb]
    refine ⟨_, _, rfl, ⟨?_, ?_, ?_⟩, ⟨?_, ?_, ?_⟩, ?_, ?_⟩
    · simp; omega
    · have := hv.room
      simp; omega
    · intro hst
      have := hv.inl hst
      simp; omega
    · show w'.size ≤ List.length _
      rw [copyInto_length hb]
      simp; omega
    · show N ≤ List.length _
      rw [copyInto_length hb]
      have := hwf.room
      simp; omega
    · intro hst
      show List.length _ = _
      rw [copyInto_length hb]
      have := hwf.inl hst
      simp; omega
    · rw [← hfirst]
      simp only [SVec.toList]
      cut_and_join
    · simp only [SVec.toList, hcl]
      rw [hs]
      simp only [cellsOf]
      cut_and_join

theorem swapWith_spec {N : Nat} (junk : Nat → α) (init : Bool) (z : α) {v w : SVec α} (hv : v.WF N) (hw : w.WF N) :
    ∃ v' w', v.swapWith junk N init z w = .ok (v', w') ∧ v'.WF N ∧ w'.WF N ∧ v'.toList = w.toList ∧
      w'.toList = v.toList := by
  rw [SVec.swapWith]
  by_cases hc : v.onStack = false ∧ w.onStack = false
  · rw [if_pos hc]
    exact ⟨w, v, rfl, hw, hv, rfl, rfl⟩
  · rw [if_neg hc]
    exact swapElements_spec junk init z hv hw

/-- Collections: a member function that does what `f` does on the elements does so inside a collection. -/
theorem onVec_spec {N : Nat} {vs : List (SVec α)} (hvs : ∀ v ∈ vs, v.WF N) {i : Nat}
    {f : List α → Option (List α)} {g : SVec α → Res (SVec α)} {ls : List (List α)}
    (hfg : ∀ v ∈ vs, ∀ l, f v.toList = some l → SVec.Yields N (g v) l)
    (hs : onSeq (vs.map SVec.toList) i f = some ls) :
    ∃ vs', onVec vs i g = .ok vs' ∧ (∀ v ∈ vs', v.WF N) ∧ vs'.map SVec.toList = ls := by
  rw [onSeq, List.getElem?_map] at hs
  rw [onVec]
  cases hv : vs[i]? with
  | none =>
    rw [hv] at hs
    simp at hs
  | some v =>
    rw [hv] at hs
    simp only [Option.map_some, Option.bind_some] at hs
    cases hl : f v.toList with
    | none =>
      rw [hl] at hs
      simp at hs
    | some l =>
      rw [hl] at hs
      simp only [Option.map_some, Option.some.injEq] at hs
      obtain ⟨v', hg, hwf, htl⟩ := hfg v (List.mem_of_getElem? hv) l hl
      refine ⟨vs.set i v', by simp [orUb, hg], ?_, ?_⟩
      · intro u hu
        rcases List.mem_or_eq_of_mem_set hu with h | h
        · exact hvs u h
        · rw [h]
          exact hwf
      · rw [← hs, ← htl, List.map_set]

/-- A growing `resize` of a vector whose `Init` parameter is false leaves the new elements unspecified; every other
    call is a call to which the refinement applies. -/
def Specified (init : Bool) : SeqOp α → Prop
  | .resize _ _ => init = true
  | _ => True

/-- C51: one call. -/
theorem C51_step {N : Nat} (junk : Nat → α) (init : Bool) (z : α) {vs : List (SVec α)} (hvs : ∀ v ∈ vs, v.WF N)
    (op : SeqOp α) (hi : Specified init op) {ls : List (List α)}
    (hs : seqStep z (vs.map SVec.toList) op = some ls) :
    ∃ vs', svecStep junk N init z vs op = .ok vs' ∧ (∀ v ∈ vs', v.WF N) ∧ vs'.map SVec.toList = ls := by
  cases op with
  | push i x =>
    refine onVec_spec hvs ?_ hs
    intro v hv l hl
    rw [Option.some.injEq] at hl
    rw [← hl]
    exact pushBack_spec junk (hvs v hv) rfl
  | pop i =>
    refine onVec_spec hvs ?_ hs
    intro v hv l hl
    by_cases hne : v.toList = []
    · rw [if_pos hne] at hl
      cases hl
    · rw [if_neg hne, Option.some.injEq] at hl
      rw [← hl]
      exact popBack_spec (hvs v hv) hne
  | resize i n =>
    refine onVec_spec hvs ?_ hs
    intro v hv l hl
    rw [Option.some.injEq] at hl
    rw [← hl]
    obtain ⟨ys, _, hys, hy⟩ := resize_spec junk init z (hvs v hv) n
    rw [hys hi] at hy
    rw [SVec.length_toList (hvs v hv)]
    exact hy
  | reserve i n =>
    refine onVec_spec hvs ?_ hs
    intro v hv l hl
    rw [Option.some.injEq] at hl
    rw [← hl]
    obtain ⟨a, b, _, _⟩ := ensure_spec junk (hvs v hv) n
    exact ⟨_, rfl, a, b⟩
  | clear i =>
    refine onVec_spec hvs ?_ hs
    intro v hv l hl
    rw [Option.some.injEq] at hl
    rw [← hl]
    obtain ⟨ys, hlen, _, hy⟩ := resize_spec junk init z (hvs v hv) 0
    have : ys = [] := List.length_eq_zero_iff.1 (by omega)
    rw [this] at hy
    simpa using hy
  | assignFill i n x =>
    refine onVec_spec hvs ?_ hs
    intro v hv l hl
    rw [Option.some.injEq] at hl
    rw [← hl]
    exact assignFill_spec junk (hvs v hv) n rfl
  | assignList i l' =>
    refine onVec_spec hvs ?_ hs
    intro v hv l hl
    rw [Option.some.injEq] at hl
    rw [← hl]
    exact assignList_spec junk (hvs v hv) l'
  | copy i j =>
    refine onVec_spec hvs ?_ hs
    intro v hv l hl
    rw [List.getElem?_map] at hl
    cases hw : vs[j]? with
    | none =>
      rw [hw] at hl
      cases hl
    | some w =>
      rw [hw, Option.map_some, Option.some.injEq] at hl
      rw [← hl]
      exact assignList_spec junk (hvs v hv) w.toList
  | swap i j =>
    simp only [seqStep, List.getElem?_map] at hs
    cases hv : vs[i]? with
    | none => simp [hv] at hs
    | some v =>
      cases hw : vs[j]? with
      | none => simp [hw] at hs
      | some w =>
        simp only [hv, hw, Option.map_some, Option.bind_some, Option.some.injEq] at hs
        simp only [svecStep, hv, hw, orUb, Res.bind_ok]
        by_cases hij : i = j
        · subst hij
          rw [hv, Option.some.injEq] at hw
          subst hw
          rw [if_pos rfl]
          refine ⟨vs, rfl, hvs, ?_⟩
          rw [← hs, List.set_set]
          apply List.ext_getElem?
          intro k
          rw [List.getElem?_set, List.length_map, List.getElem?_map]
          have hlt := (List.getElem?_eq_some_iff.1 hv).1
          by_cases hk : i = k
          · subst hk
            rw [if_pos rfl, if_pos hlt, hv, Option.map_some]
          · rw [if_neg hk]
        · rw [if_neg hij]
          obtain ⟨v', w', h, hv', hw', hl1, hl2⟩ := swapWith_spec junk init z
            (hvs v (List.mem_of_getElem? hv)) (hvs w (List.mem_of_getElem? hw))
          rw [h]
          refine ⟨_, rfl, ?_, ?_⟩
          · intro u hu
            rcases List.mem_or_eq_of_mem_set hu with h | h
            · rcases List.mem_or_eq_of_mem_set h with h | h
              · exact hvs u h
              · rw [h]
                exact hv'
            · rw [h]
              exact hw'
          · rw [← hs, List.map_set, List.map_set, hl1, hl2]
  | insert i p x =>
    refine onVec_spec hvs ?_ hs
    intro v hv l hl
    by_cases hp : p ≤ v.toList.length
    · rw [if_pos hp, Option.some.injEq] at hl
      rw [← hl]
      rw [SVec.length_toList (hvs v hv)] at hp
      exact insert_spec junk (hvs v hv) hp rfl
    · rw [if_neg hp] at hl
      cases hl
  | insertList i p l' =>
    refine onVec_spec hvs ?_ hs
    intro v hv l hl
    by_cases hp : p ≤ v.toList.length
    · rw [if_pos hp, Option.some.injEq] at hl
      rw [← hl]
      rw [SVec.length_toList (hvs v hv)] at hp
      exact insertList_spec junk (hvs v hv) hp l'
    · rw [if_neg hp] at hl
      cases hl
  | erase i p =>
    refine onVec_spec hvs ?_ hs
    intro v hv l hl
    by_cases hp : p < v.toList.length
    · rw [if_pos hp, Option.some.injEq] at hl
      rw [← hl]
      rw [SVec.length_toList (hvs v hv)] at hp
      exact erase_spec (hvs v hv) hp
    · rw [if_neg hp] at hl
      cases hl
  | eraseRange i a b =>
    refine onVec_spec hvs ?_ hs
    intro v hv l hl
    by_cases hp : a ≤ b ∧ b ≤ v.toList.length
    · rw [if_pos hp, Option.some.injEq] at hl
      rw [← hl]
      rw [SVec.length_toList (hvs v hv)] at hp
      exact eraseRange_spec (hvs v hv) hp.1 hp.2
    · rw [if_neg hp] at hl
      cases hl
  | set i p x =>
    refine onVec_spec hvs ?_ hs
    intro v hv l hl
    by_cases hp : p < v.toList.length
    · rw [if_pos hp, Option.some.injEq] at hl
      rw [← hl]
      rw [SVec.length_toList (hvs v hv)] at hp
      exact setAt_spec (hvs v hv) hp x
    · rw [if_neg hp] at hl
      cases hl

theorem empty_wf (junk : Nat → α) (N : Nat) : (SVec.empty junk N).WF N := by
  refine ⟨Nat.zero_le _, ?_, fun _ => ?_⟩
  · simp only [SVec.empty, List.length_map, List.length_range, inlineCells]
    split <;> omega
  · simp [SVec.empty]

theorem svecRun_spec {N : Nat} (junk : Nat → α) (init : Bool) (z : α) :
    ∀ (ops : List (SeqOp α)) (vs : List (SVec α)), (∀ v ∈ vs, v.WF N) → (∀ op ∈ ops, Specified init op) →
      ∀ ls, seqRun z (vs.map SVec.toList) ops = some ls →
        ∃ vs', svecRun junk N init z vs ops = .ok vs' ∧ (∀ v ∈ vs', v.WF N) ∧ vs'.map SVec.toList = ls
  | [], vs, hvs, _, ls, hs => ⟨vs, rfl, hvs, Option.some.inj hs⟩
  | op :: ops, vs, hvs, hi, ls, hs => by
    rw [seqRun] at hs
    cases h1 : seqStep z (vs.map SVec.toList) op with
    | none =>
      rw [h1] at hs
      cases hs
    | some ls1 =>
      rw [h1, Option.bind_some] at hs
      obtain ⟨vs1, hr, hwf, hm⟩ := C51_step junk init z hvs op (hi op (by simp)) h1
      rw [← hm] at hs
      obtain ⟨vs', h2, h3, h4⟩ := svecRun_spec junk init z ops vs1 hwf (fun o ho => hi o (by simp [ho])) ls hs
      exact ⟨vs', by rw [svecRun, hr, Res.bind_ok, h2], h3, h4⟩

/-- C51: any number of default-constructed vectors, of any inline capacity, under any history of calls that is allowed
    on sequences, hold what the sequences hold; the calls all succeed and no vector exceeds its capacity. -/
theorem C51_history (junk : Nat → α) (N : Nat) (init : Bool) (z : α) (k : Nat) (ops : List (SeqOp α))
    (hi : ∀ op ∈ ops, Specified init op) {ls : List (List α)}
    (hs : seqRun z (List.replicate k []) ops = some ls) :
    ∃ vs, svecRun junk N init z (List.replicate k (SVec.empty junk N)) ops = .ok vs ∧
      vs.map SVec.toList = ls ∧
      ∀ v ∈ vs, v.toList.length = v.size ∧ v.size ≤ v.capacity := by
  have h0 : (List.replicate k (SVec.empty junk N)).map SVec.toList = List.replicate k [] := by
    rw [List.map_replicate]
    rfl
  obtain ⟨vs, h1, h2, h3⟩ := svecRun_spec (N := N) junk init z ops (List.replicate k (SVec.empty junk N))
    (fun v hv => by rw [List.eq_of_mem_replicate hv]; exact empty_wf junk N) hi ls (by rw [h0]; exact hs)
  exact ⟨vs, h1, h3, fun v hv => ⟨SVec.length_toList (h2 v hv), (h2 v hv).fits⟩⟩

/-- C51: two vectors under the same allowed history hold the same, whatever their inline capacities and whatever their
    unused cells held: where the elements are stored cannot be observed. -/
theorem C51_inline_unobservable (junk₁ junk₂ : Nat → α) (N₁ N₂ : Nat) (z : α) (k : Nat) (ops : List (SeqOp α))
    {ls : List (List α)} (hs : seqRun z (List.replicate k []) ops = some ls) :
    ∃ vs₁ vs₂, svecRun junk₁ N₁ true z (List.replicate k (SVec.empty junk₁ N₁)) ops = .ok vs₁ ∧
      svecRun junk₂ N₂ true z (List.replicate k (SVec.empty junk₂ N₂)) ops = .ok vs₂ ∧
      vs₁.map SVec.toList = vs₂.map SVec.toList := by
  have hi : ∀ op ∈ ops, Specified true op := by
    intro op _
    cases op <;> simp [Specified]
  obtain ⟨vs₁, a, b, _⟩ := C51_history junk₁ N₁ true z k ops hi hs
  obtain ⟨vs₂, c, d, _⟩ := C51_history junk₂ N₂ true z k ops hi hs
  exact ⟨vs₁, vs₂, a, c, by rw [b, d]⟩

-- Two vectors of inline capacity 2: one moves to the heap, is copied, swapped, cut and refilled.
example : seqRun 0 (List.replicate 2 [])
    [.push 0 1, .push 0 2, .push 0 3, .copy 1 0, .insert 1 1 9, .pop 0, .swap 0 1, .erase 0 0, .insertList 1 2 [7, 8],
      .resize 0 5, .eraseRange 1 1 3, .set 0 0 6] = some [[6, 2, 3, 0, 0], [1, 8]] := by decide

/-- C51: `at` reads the element at its position, and throws beyond the elements, also where the block has more
    cells. -/
theorem C51_at {N : Nat} {v : SVec α} (h : v.WF N) (p : Nat) :
    v.at' p = (match v.toList[p]? with | some x => .ok x | none => .throws) := by
  have hf := h.fits
  rw [SVec.at', SVec.toList, List.getElem?_take]
  by_cases hp : p ≥ v.size
  · rw [if_pos hp, if_neg (show ¬ p < v.size by omega)]
  · rw [if_neg hp, if_pos (show p < v.size by omega), List.getElem?_eq_getElem (by omega)]
    rfl

example : SVec.WF 2 (⟨false, [4, 5, 6, 0, 0], 3⟩ : SVec Nat) ∧ SVec.at' (⟨false, [4, 5, 6, 0, 0], 3⟩ : SVec Nat) 3 = .throws :=
  ⟨⟨by decide, by decide, by decide⟩, by decide⟩

/-- C51: two vectors compare equal exactly when they hold the same elements. -/
theorem C51_eq [DecidableEq α] (v w : SVec α) (hv : v.size ≤ v.cells.length) (hw : w.size ≤ w.cells.length) :
    v.eq' w = true ↔ v.toList = w.toList := by
  simp only [SVec.eq', Bool.and_eq_true, decide_eq_true_eq]
  constructor
  · exact fun h => h.2
  · intro h
    refine ⟨?_, h⟩
    have := congrArg List.length h
    simpa [SVec.toList, hv, hw] using this

example : SVec.eq' (⟨true, [4, 5], 1⟩ : SVec Nat) ⟨false, [4, 7, 8], 1⟩ = true := by decide

/-- C51: a `resize` without initialisation keeps the elements that fit and has the size asked for. -/
theorem C51_resize_uninitialised {N : Nat} (junk : Nat → α) (init : Bool) (z : α) {v : SVec α} (h : v.WF N) (n : Nat) :
    ∃ w, v.resize junk N init z n = .ok w ∧ w.WF N ∧ w.toList.length = n ∧
      w.toList.take (min n v.size) = v.toList.take n := by
  obtain ⟨ys, hys, _, w, hw, hwf, hl⟩ := resize_spec junk init z h n
  have hlen := SVec.length_toList h
  refine ⟨w, hw, hwf, ?_, ?_⟩
  · rw [hl]
    simp only [List.length_append, List.length_take, hys, hlen]
    omega
  · rw [hl, List.take_left']
    simp [hlen]

/-- C51: an element of the vector itself, passed by reference to `push_back`, `insert` or `assign`, is read correctly
    unless the call has to replace a heap block. -/
theorem C51_own_element_partial {N : Nat} (junk : Nat → α) {v : SVec α} (h : v.WF N) {k : Nat} {x : α}
    (hk : v.toList[k]? = some x) (hs : v.onStack = true ∨ v.size < v.capacity) :
    SVec.Yields N (v.pushBack junk (.own k)) (v.toList ++ [x]) ∧
      (∀ p ≤ v.size, SVec.Yields N (v.insert junk p (.own k)) (v.toList.take p ++ x :: v.toList.drop p)) ∧
      ∀ n, v.onStack = true ∨ n ≤ v.capacity →
        SVec.Yields N (v.assignFill junk N n (.own k)) (List.replicate n x) := by
  have hlt : k < v.size := by
    have := (List.getElem?_eq_some_iff.1 hk).1
    rwa [SVec.length_toList h] at this
  have hc : v.cells[k]? = some x := by
    rw [SVec.toList, List.getElem?_take, if_pos hlt] at hk
    exact hk
  have hd : ∀ g : Bool, (v.onStack = true ∨ g = false) → v.deref g (.own k) = .ok x := by
    intro g hg
    simp only [SVec.deref]
    rw [if_pos, hc]
    · rfl
    · refine ⟨hlt, ?_⟩
      rintro ⟨h1, h2⟩
      rcases hg with hg | hg
      · rw [h2] at hg
        cases hg
      · rw [h1] at hg
        cases hg
  have hd' : v.deref (decide (v.size ≥ v.capacity)) (.own k) = .ok x := by
    refine hd _ (hs.imp_right fun hlt => ?_)
    simpa using hlt
  refine ⟨pushBack_spec junk h hd', fun p hp => insert_spec junk h hp hd', ?_⟩
  intro n hn
  refine assignFill_spec junk h n (hd _ (hn.imp_right fun hle => ?_))
  simp only [decide_eq_false_iff_not, not_and, not_lt]
  intro _
  exact hle

example : (⟨true, [4, 5], 2⟩ : SVec Nat).toList[1]? = some 5 ∧
    (⟨true, [4, 5], 2⟩ : SVec Nat).insert (fun _ => 0) 0 (.own 1) = .ok ⟨false, [5, 4, 5, 0, 0], 3⟩ := by decide

/-- C51: on a full heap block, `push_back` and `insert` of an element of the vector itself read freed memory: a
    sequence in which this is allowed, such as `std::vector`, appends the element. -/
theorem C51_own_element_freed (junk : Nat → α) {v : SVec α} (hs : v.onStack = false)
    (hfull : v.size ≥ v.capacity) (k : Nat) :
    v.pushBack junk (.own k) = .ub ∧ (∀ n > v.capacity, ∀ N < n, v.assignFill junk N n (.own k) = .ub) ∧
      ∀ N, v.WF N → ∀ p ≤ v.size, v.insert junk p (.own k) = .ub := by
  have hpush : v.pushBack junk (.own k) = .ub := by
    simp only [SVec.pushBack, SVec.deref, hfull, decide_true]
    rw [if_neg]
    · rfl
    · rintro ⟨_, h⟩
      exact h ⟨trivial, hs⟩
  refine ⟨hpush, ?_, ?_⟩
  · intro n hn N hN
    simp only [SVec.assignFill, SVec.deref]
    rw [if_neg]
    · rfl
    · rintro ⟨_, h⟩
      exact h ⟨by simpa using ⟨hN, hn⟩, hs⟩
  · intro N h p hp
    rw [SVec.insert]
    by_cases hpe : p = v.size
    · rw [if_pos hpe]
      exact hpush
    · rw [if_neg hpe]
      have hr := h.room
      have hcap : v.capacity = v.cells.length := rfl
      obtain ⟨hw, _, c, _, d, _⟩ := grow_spec junk h 0 (Or.inr (by omega))
      simp only [hfull, decide_true, if_true]
      generalize v.grow junk 0 = w at *
      obtain ⟨last, hlast⟩ : ∃ last, w.cells[w.size - 1]? = some last :=
        ⟨_, List.getElem?_eq_getElem (by omega)⟩
      have h1 : w.size + [last].length ≤ w.cells.length := by simp; omega
      obtain ⟨cs, hc, _, _⟩ := insert_shift (p := p) (by omega) (by omega) hlast
      rw [copyInto_ok h1, Res.bind_ok] at hc
      rw [hlast]
      simp only [orUb, Res.bind_ok]
      rw [copyInto_ok h1, Res.bind_ok, hc, Res.bind_ok]
      simp only [SVec.insertSource, SVec.deref, if_true]
      rw [if_neg]
      · rfl
      · rintro ⟨_, h⟩
        exact h ⟨trivial, hs⟩

-- From an empty vector of inline capacity 2, by calls alone: three elements are pushed and the spare room is filled.
example : svecRun (fun _ => 0) 2 true 0 [SVec.empty (fun _ => 0) 2] [.push 0 1, .push 0 2, .push 0 3, .push 0 4, .push 0 5] =
      .ok [⟨false, [1, 2, 3, 4, 5], 5⟩] ∧
    (⟨false, [1, 2, 3, 4, 5], 5⟩ : SVec Nat).pushBack (fun _ => 0) (.own 0) = .ub ∧
    (⟨false, [1, 2, 3, 4, 5], 5⟩ : SVec Nat).insert (fun _ => 0) 2 (.own 0) = .ub := by decide

end Xt
