import Verif.Model.Sort
import Verif.Spec.Sort
import Verif.Props.Manip
import Verif.Props.Iterator
/-!
# Lines of a container and the loops over its leading axis
-/

namespace Xt

open Spec

/-! ### Blocks -/

theorem overBlocks_length {α : Type} {f : List α → List α} (hf : ∀ l, (f l).length = l.length) (s : Nat) :
    ∀ (n : Nat) (d : List α), (overBlocks f s n d).length = d.length
  | 0, d => rfl
  | n + 1, d => by
    simp only [overBlocks, List.length_append, hf, overBlocks_length hf s n, List.length_take, List.length_drop]
    omega

theorem getD_append_left' {α : Type} {a b : List α} {k : Nat} {d : α} (h : k < a.length) :
    (a ++ b).getD k d = a.getD k d := by
  simp [List.getD_eq_getElem?_getD, List.getElem?_append_left h]

theorem getD_append_right' {α : Type} {a b : List α} {k : Nat} {d : α} (h : a.length ≤ k) :
    (a ++ b).getD k d = b.getD (k - a.length) d := by
  simp [List.getD_eq_getElem?_getD, List.getElem?_append_right h]

theorem overBlocks_get {α : Type} {f : List α → List α} (hf : ∀ l, (f l).length = l.length) (s : Nat) (x : α) :
    ∀ (n : Nat) (d : List α), d.length = n * s → ∀ k t, k < n → t < s →
      (overBlocks f s n d).getD (k * s + t) x = (f ((d.drop (k * s)).take s)).getD t x
  | 0, _, _, k, _, hk, _ => by omega
  | n + 1, d, hd, k, t, hk, ht => by
    have hs : s ≤ d.length := by rw [hd]; exact Nat.le_mul_of_pos_left _ (by omega)
    have hl : (f (d.take s)).length = s := by rw [hf, List.length_take]; omega
    rw [overBlocks]
    cases k with
    | zero =>
      rw [getD_append_left' (by omega)]
      simp
    | succ k =>
      have e : (k + 1) * s = s + k * s := by rw [Nat.succ_mul]; omega
      rw [getD_append_right' (by omega), hl, e]
      rw [show s + k * s + t - s = k * s + t by omega,
        overBlocks_get hf s x n (d.drop s) (by rw [List.length_drop, hd, Nat.succ_mul]; omega) k t (by omega) ht,
        List.drop_drop]

/-- A block of a list as the list of its entries. -/
theorem segment_eq {α : Type} (d : List α) (x : α) (a s : Nat) (h : a + s ≤ d.length) :
    (d.drop a).take s = (List.range s).map fun (t : Nat) => d.getD (a + t) x := by
  apply List.ext_getElem?
  intro t
  by_cases ht : t < s
  · simp [List.getElem?_take, ht, List.getD_eq_getElem?_getD, List.getElem?_drop,
      List.getElem?_eq_getElem (show a + t < d.length by omega)]
  · rw [List.getElem?_eq_none (by simp; omega), List.getElem?_eq_none (by simp; omega)]

theorem list_eq_map_getD {α : Type} (l : List α) (x : α) :
    l = (List.range l.length).map fun (t : Nat) => l.getD t x := by
  have := segment_eq l x 0 l.length (by omega)
  simpa using this

/-! ### Containers -/

/-- A container whose storage has one cell per element. -/
def Buf.WF {α : Type} (b : Buf α) : Prop := b.data.length = numel b.shape

theorem Buf.strd_wf {α : Type} (b : Buf α) : b.strd.WF := by
  show (computeStrides b.layout b.layout b.shape).1.length = b.shape.length
  simp

theorem dot_travRank (L : Layout) {sh idx : List Nat} (h : InBounds sh idx) :
    dot (computeStrides L L sh).1 (toInts idx) = (travRank L sh idx : Int) := by
  unfold computeStrides travRank
  by_cases hL : L = .row_major
  · rw [if_pos (Or.inl hL), if_pos hL, dot_rowStrides h]
  · rw [if_neg (by simp [hL]), if_neg hL, dot_colStrides 1 h, Int.one_mul]

theorem Buf.index_eq {α : Type} (b : Buf α) {q : List Nat} (h : InBounds b.shape q) :
    b.strd.index (toInts q) = (travRank b.layout b.shape q : Int) := by
  rw [Strd.index_eq b.strd_wf h]
  show 0 + dot (computeStrides b.layout b.layout b.shape).1 (toInts q) = _
  rw [dot_travRank _ h]; omega

theorem Buf.read_eq {α : Type} [Inhabited α] (b : Buf α) {q : List Nat} (h : InBounds b.shape q) :
    b.read q = b.data.getD (travRank b.layout b.shape q) default := by
  unfold Buf.read
  rw [b.index_eq h]
  rfl

theorem travRank_lt (L : Layout) {sh q : List Nat} (h : InBounds sh q) : travRank L sh q < numel sh := by
  unfold travRank
  split
  · exact rowRank_lt h
  · exact colRank_lt h

theorem length_storageIndices (L : Layout) (sh : List Nat) : (storageIndices L sh).length = numel sh := by
  unfold storageIndices
  split
  · exact length_rowIndices sh
  · exact length_colIndices sh

theorem storageIndices_get (L : Layout) {sh q : List Nat} (h : InBounds sh q) :
    (storageIndices L sh)[travRank L sh q]? = some q := by
  have hlt := travRank_lt L h
  have hlen := length_storageIndices L sh
  have hex : ∃ r, (storageIndices L sh)[travRank L sh q]? = some r :=
    ⟨_, List.getElem?_eq_getElem (by omega)⟩
  obtain ⟨r, hr⟩ := hex
  have key : InBounds sh r ∧ travRank L sh r = travRank L sh q := by
    unfold storageIndices travRank at *
    by_cases hL : L = .row_major
    · simp only [if_pos hL] at hr ⊢
      exact rankIn_orderIndices (L := .row_major) hr
    · simp only [if_neg hL] at hr ⊢
      exact rankIn_orderIndices (L := .column_major) hr
  rw [hr]
  congr 1
  unfold travRank at key
  by_cases hL : L = .row_major
  · simp only [if_pos hL] at key
    exact rowRank_inj key.1 h key.2
  · simp only [if_neg hL] at key
    exact colRank_inj key.1 h key.2

theorem copyTo_wf {α : Type} (L : Layout) (v : Strd) (mem : Int → α) : (copyTo L v mem).WF := by
  unfold copyTo Buf.WF
  simp [length_storageIndices]

/-- Copying an expression into a container keeps its elements. -/
theorem copyTo_read {α : Type} [Inhabited α] (L : Layout) (v : Strd) (mem : Int → α) {q : List Nat}
    (h : InBounds v.shape q) : (copyTo L v mem).read q = v.read mem q := by
  rw [Buf.read_eq (copyTo L v mem) (by exact h)]
  unfold copyTo
  simp only [List.getD_eq_getElem?_getD, List.getElem?_map, storageIndices_get L h]
  rfl

/-! ### The leading axis -/

/-- Position of the fastest axis in a layout. -/
def leadOf (L : Layout) (dim : Nat) : Nat := if L = .row_major then dim - 1 else 0

theorem leadOf_lt (L : Layout) {dim : Nat} (h : 0 < dim) : leadOf L dim < dim := by
  unfold leadOf; split <;> omega

theorem split_last {l : List Nat} (h : 0 < l.length) : ∃ pre x, l = pre ++ [x] ∧ pre.length = l.length - 1 := by
  refine ⟨l.dropLast, l.getLast (List.length_pos_iff.1 h), (List.dropLast_append_getLast _).symm, by simp⟩

/-- Along the fastest axis the rank counts up from a multiple of the extent. -/
theorem travRank_set_lead (L : Layout) {sh p : List Nat} (hd : 0 < sh.length) (h : InBounds sh p) {t : Nat}
    (_ht : t < sh.getD (leadOf L sh.length) 0) :
    travRank L sh (p.set (leadOf L sh.length) t) =
      travRank L (sh.eraseIdx (leadOf L sh.length)) (p.eraseIdx (leadOf L sh.length)) *
        sh.getD (leadOf L sh.length) 0 + t := by
  have hl := h.length_eq
  unfold travRank leadOf
  by_cases hL : L = .row_major
  · simp only [if_pos hL]
    obtain ⟨pre, s, rfl, _⟩ := split_last hd
    obtain ⟨q, x, rfl, hq⟩ := split_last (l := p) (by omega)
    have hlen : q.length = pre.length := by simpa using hl
    have e1 : (pre ++ [s]).length - 1 = pre.length := by simp
    rw [e1]
    have e2 : (q ++ [x]).set pre.length t = q ++ [t] := by
      rw [← hlen, List.set_append_right _ _ (by omega)]; simp
    have e3 : (q ++ [x]).eraseIdx pre.length = q := by
      rw [← hlen, List.eraseIdx_append_of_length_le (by omega)]; simp
    have e4 : (pre ++ [s]).eraseIdx pre.length = pre := by
      rw [List.eraseIdx_append_of_length_le (by omega)]; simp
    rw [e2, e3, e4, rowRank_append hlen]
    simp [rowRank, numel, List.getD_eq_getElem?_getD]
  · simp only [if_neg hL]
    cases sh with
    | nil => simp at hd
    | cons s ss =>
      cases p with
      | nil => simp at hl
      | cons x xs =>
        simp [Nat.mul_comm, Nat.add_comm]

theorem inBounds_eraseIdx {sh p : List Nat} (h : InBounds sh p) (ax : Nat) :
    InBounds (sh.eraseIdx ax) (p.eraseIdx ax) := by
  induction sh generalizing p ax with
  | nil => cases p <;> simp_all
  | cons s ss ih =>
    cases p with
    | nil => simp at h
    | cons x xs =>
      cases ax with
      | zero => simpa using h.2
      | succ a =>
        simp only [List.eraseIdx_cons_succ]
        exact ⟨h.1, ih h.2 a⟩

theorem numel_eraseIdx {sh : List Nat} {ax : Nat} (h : ax < sh.length) :
    numel (sh.eraseIdx ax) * sh.getD ax 0 = numel sh := by
  induction sh generalizing ax with
  | nil => simp at h
  | cons s ss ih =>
    cases ax with
    | zero => simp [Nat.mul_comm]
    | succ a =>
      simp only [List.eraseIdx_cons_succ, numel_cons, List.getD_cons_succ]
      rw [← ih (by simpa using h)]; ring

theorem leadingIters_eq {α : Type} (b : Buf α) (hd : 0 < b.shape.length) :
    leadingIters b.strd = numel (b.shape.eraseIdx (leadOf b.layout b.shape.length)) := by
  unfold leadingIters leadOf
  show (if b.layout = .row_major then (b.shape.take (b.shape.length - 1)).foldl (· * ·) 1
    else (b.shape.drop 1).foldl (· * ·) 1) = _
  by_cases hL : b.layout = .row_major
  · rw [if_pos hL, if_pos hL, foldl_mul_eq, Nat.one_mul]
    congr 1
    obtain ⟨pre, s, h1, h2⟩ := split_last hd
    rw [h1]
    have e1 : (pre ++ [s]).length - 1 = pre.length := by simp
    rw [e1, List.take_left', List.eraseIdx_append_of_length_le (by omega)]
    · simp
    · rfl
  · rw [if_neg hL, if_neg hL, foldl_mul_eq, Nat.one_mul]
    cases b.shape with
    | nil => rfl
    | cons s ss => simp

/-- The stride between two lines is the extent of the fastest axis. -/
theorem secondaryStride_eq {α : Type} (b : Buf α) (hd : 2 ≤ b.shape.length) :
    secondaryStride b.strd = (b.shape.getD (leadOf b.layout b.shape.length) 0 : Int) := by
  unfold secondaryStride leadOf
  show (if b.layout = .row_major then
      adjustStride ((computeStrides b.layout b.layout b.shape).1.getD (b.shape.length - 2) 0)
        (b.shape.getD (b.shape.length - 1) 0)
    else adjustStride ((computeStrides b.layout b.layout b.shape).1.getD 1 0) (b.shape.getD 0 0)) = _
  unfold computeStrides
  by_cases hL : b.layout = .row_major
  · rw [if_pos hL, if_pos hL, if_pos (Or.inl hL)]
    have hstr : (rowStrides b.shape).1.getD (b.shape.length - 2) 0 =
        adaptStride (b.shape.getD (b.shape.length - 2) 0) (numel (b.shape.drop (b.shape.length - 2 + 1))) := by
      rw [List.getD_eq_getElem?_getD, rowStrides_get _ _ (by omega)]
      rfl
    rw [hstr]
    have hdrop : b.shape.drop (b.shape.length - 2 + 1) = [b.shape.getD (b.shape.length - 1) 0] := by
      rw [show b.shape.length - 2 + 1 = b.shape.length - 1 by omega]
      apply List.ext_getElem?
      intro k
      rw [List.getElem?_drop]
      cases k with
      | zero =>
        rw [Nat.add_zero, List.getElem?_eq_getElem (by omega)]
        simp [List.getD_eq_getElem?_getD, List.getElem?_eq_getElem (show b.shape.length - 1 < b.shape.length by omega)]
      | succ k => rw [List.getElem?_eq_none (by omega)]; simp
    rw [hdrop]
    simp only [numel, Nat.mul_one]
    unfold adjustStride adaptStride
    split <;> split <;> simp_all
  · rw [if_neg hL, if_neg hL, if_neg (by simp [hL])]
    match hs : b.shape with
    | [] => rw [hs] at hd; simp at hd
    | [_] => rw [hs] at hd; simp at hd
    | s :: a :: r =>
      simp only [colStrides, List.getD_cons_succ, List.getD_cons_zero]
      unfold adjustStride adaptStride
      split <;> split <;> simp_all

end Xt
