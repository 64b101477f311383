import Verif.Props.Concat
/-!
# C40: eye, diag, diagonal, tril, triu
-/

namespace Xt
open Spec

theorem wrap64_add {r : Nat} {k : Int} (hr : r < 2 ^ 63) (hk : k.natAbs ≤ 2 ^ 31) :
    wrap64 ((r : Int) + k) = if 0 ≤ (r : Int) + k then ((r : Int) + k).toNat else ((r : Int) + k + 2 ^ 64).toNat := by
  unfold wrap64
  split
  · rw [Int.emod_eq_of_lt (by omega) (by omega)]
  · rw [← Int.add_emod_right, Int.emod_eq_of_lt (by omega) (by omega)]

/-- Comparison in `size_t` arithmetic agrees with comparison of integers on extents below 2^63. -/
theorem wrap64_add_eq_iff {r c : Nat} {k : Int} (hr : r < 2 ^ 63) (hc : c < 2 ^ 63) (hk : k.natAbs ≤ 2 ^ 31) :
    wrap64 ((r : Int) + k) = c ↔ (c : Int) = r + k := by
  rw [wrap64_add hr hk]
  split <;> omega

theorem inBounds_lt {sh idx : List Nat} {B : Nat} (h : InBounds sh idx) (hs : ∀ n ∈ sh, n ≤ B) : ∀ i ∈ idx, i < B := by
  induction sh generalizing idx with
  | nil => cases idx with
    | nil => simp
    | cons _ _ => exact h.elim
  | cons n sh ih =>
    cases idx with
    | nil => simp
    | cons i idx =>
      intro x hx
      rcases List.mem_cons.1 hx with rfl | hx
      · have := h.1; have := hs n (by simp); omega
      · exact ih h.2 (fun m hm => hs m (by simp [hm])) x hx

/-- C40: `eye(shape, k)` is 1 exactly where the last coordinate equals the last but one plus `k`. -/
theorem C40_eye {shape pre : List Nat} {row col : Nat} {k : Int} (hk : k.natAbs ≤ 2 ^ 31) (hs : ∀ n ∈ shape, n ≤ 2 ^ 63)
    (h : InBounds shape (pre ++ [row, col])) :
    (eye shape k).Reads (pre ++ [row, col]) (if (col : Int) = row + k then 1 else 0) := by
  refine Gen.reads_of h ?_
  have hlt := inBounds_lt h hs
  show eyeAt k _ = _
  unfold eyeAt
  simp only [List.reverse_append, List.reverse_cons, List.reverse_nil, List.nil_append, List.singleton_append, List.cons_append, Res.ok.injEq]
  have := wrap64_add_eq_iff (hlt row (by simp)) (hlt col (by simp)) hk
  by_cases hc : (col : Int) = row + k
  · rw [if_pos hc, if_pos (this.2 hc).symm]
  · rw [if_neg hc, if_neg (fun e => hc (this.1 e.symm))]

example : (rowIndices [3, 4]).map (eye [3, 4] (-1)).call = [.ok 0, .ok 0, .ok 0, .ok 0, .ok 1, .ok 0, .ok 0, .ok 0, .ok 0, .ok 1, .ok 0, .ok 0] := by
  decide

/-- C40: `tril(e, k)` keeps the elements with column at most row plus `k` and is zero elsewhere; rows and columns are the
first two axes. -/
theorem C40_tril {α : Type} [Zero α] {shape rest : List Nat} {src : List Nat → Res α} {row col : Nat} {k : Int} {v : α}
    (h : InBounds shape (row :: col :: rest)) (hv : src (row :: col :: rest) = .ok v) :
    (tril shape src k).shape = shape ∧ (tril shape src k).Reads (row :: col :: rest) (if (col : Int) ≤ row + k then v else 0) := by
  refine ⟨rfl, Gen.reads_of h ?_⟩
  simp only [tril, triluAt]
  by_cases hc : (col : Int) ≤ row + k
  · simp [hc, hv]
  · simp [hc]

/-- C40: `triu(e, k)` keeps the elements with column at least row plus `k`. -/
theorem C40_triu {α : Type} [Zero α] {shape rest : List Nat} {src : List Nat → Res α} {row col : Nat} {k : Int} {v : α}
    (h : InBounds shape (row :: col :: rest)) (hv : src (row :: col :: rest) = .ok v) :
    (triu shape src k).shape = shape ∧ (triu shape src k).Reads (row :: col :: rest) (if (row : Int) + k ≤ col then v else 0) := by
  refine ⟨rfl, Gen.reads_of h ?_⟩
  simp only [triu, triluAt]
  by_cases hc : (row : Int) + k ≤ col
  · simp [hc, hv]
  · simp [hc]

/-- C40: `tril(e, k)` and `triu(e, k + 1)` complement each other: their sum is `e`. -/
theorem C40_tri_complement {α : Type} [AddZeroClass α] {shape rest : List Nat} {src : List Nat → Res α} {row col : Nat} {k : Int} {v : α}
    (h : InBounds shape (row :: col :: rest)) (hv : src (row :: col :: rest) = .ok v) :
    ∃ x y, (tril shape src k).Reads (row :: col :: rest) x ∧ (triu shape src (k + 1)).Reads (row :: col :: rest) y ∧ x + y = v := by
  refine ⟨_, _, (C40_tril (k := k) h hv).2, (C40_triu (k := k + 1) h hv).2, ?_⟩
  by_cases hc : (col : Int) ≤ row + k
  · rw [if_pos hc, if_neg (by omega), add_zero]
  · rw [if_neg hc, if_pos (by omega), zero_add]

example : (rowIndices [2, 3]).map (tril [2, 3] (fun i => .ok (10 + 3 * i.getD 0 0 + i.getD 1 0)) (-1)).call =
    [.ok 0, .ok 0, .ok 0, .ok 13, .ok 0, .ok 0] := by decide

/-- One-dimensional arguments are read past their only index; in more than two dimensions the matrices are those of the
first two axes, whereas `eye` uses the last two. -/
theorem C40_tri_dimensions :
    (tril [3] (fun _ => .ok 7) 0).call [1] = (.ub : Res Nat) ∧
    (tril [2, 2, 2] (fun _ => .ok 7) 0).call [0, 1, 0] = (.ok 0 : Res Nat) ∧ (eye [2, 2, 2] 0).call [0, 1, 1] = .ok 1 := by
  decide

/-- C40: `diag(v, k)` is square with `v` on diagonal `k` and zero elsewhere. -/
theorem C40_diag {α : Type} [Zero α] {v : List α} {k : Int} (hk : k.natAbs ≤ 2 ^ 31) {src : Nat → Res α}
    (hsrc : ∀ i x, v[i]? = some x → src i = .ok x) {row col : Nat} (hsz : v.length + k.natAbs ≤ 2 ^ 63)
    (hr : row < v.length + k.natAbs) (hc : col < v.length + k.natAbs) :
    (diag v.length src k).shape = [v.length + k.natAbs, v.length + k.natAbs] ∧
    ((col : Int) ≠ row + k → (diag v.length src k).Reads [row, col] 0) ∧
    ((col : Int) = row + k → ∃ x, v[min row col]? = some x ∧ (diag v.length src k).Reads [row, col] x) := by
  have hb : InBounds (diag v.length src k).shape [row, col] := ⟨hr, hc, trivial⟩
  have hiff := wrap64_add_eq_iff (r := row) (c := col) (k := k) (by omega) (by omega) hk
  refine ⟨rfl, fun hne => Gen.reads_of hb ?_, fun he => ?_⟩
  · simp only [diag, diagAt]
    rw [if_neg (fun h => hne (hiff.1 h)), if_neg (fun h => hne (hiff.1 h)), ite_self]
  · have hm : min row col < v.length := by omega
    refine ⟨v[min row col], List.getElem?_eq_getElem hm, Gen.reads_of hb ?_⟩
    simp only [diag, diagAt]
    rw [if_pos (hiff.2 he), if_pos (hiff.2 he), hiff.2 he]
    by_cases h0 : k > 0
    · rw [if_pos h0]
      exact hsrc row _ (by rw [List.getElem?_eq_some_iff]; exact ⟨by omega, by congr 1; omega⟩)
    · rw [if_neg h0]
      exact hsrc col _ (by rw [List.getElem?_eq_some_iff]; exact ⟨by omega, by congr 1; omega⟩)

example : (rowIndices [3, 3]).map (diag 2 (fun i => .ok (5 + i)) (-1)).call =
    ([.ok 0, .ok 0, .ok 0, .ok 5, .ok 0, .ok 0, .ok 0, .ok 6, .ok 0] : List (Res Nat)) := by decide

/-! ### diagonal -/

theorem diagonalRest_eq (a b : Nat) (l : List Nat) (i : Nat) :
    diagonalRest a b i l = ((l.zipIdx i).filter fun p => p.2 ≠ a ∧ p.2 ≠ b).map Prod.fst := by
  induction l generalizing i with
  | nil => rfl
  | cons n l ih =>
    rw [diagonalRest, List.zipIdx_cons, List.filter_cons, ih]
    by_cases h : i ≠ a ∧ i ≠ b
    · rw [if_pos h, if_pos (by simpa using h)]; rfl
    · rw [if_neg h, if_neg (by simpa using h)]

theorem diagonalRest_dropTwo (a b : Nat) (l : List Nat) : diagonalRest a b 0 l = dropTwo a b l := diagonalRest_eq a b l 0

/-- The index with the coordinates on the two axes set to zero. -/
def zeroTwo (a b : Nat) : Nat → List Nat → List Nat
  | _, [] => []
  | i, x :: l => (if i ≠ a ∧ i ≠ b then x else 0) :: zeroTwo a b (i + 1) l

theorem diagonalFree_eq (a b : Nat) (p : List Nat) (tail : List Nat) (i : Nat) :
    diagonalFree a b i p.length (diagonalRest a b i p ++ tail) = some (zeroTwo a b i p, tail) := by
  induction p generalizing i with
  | nil => simp [diagonalFree, diagonalRest, zeroTwo]
  | cons x p ih =>
    have ih' := ih (i + 1)
    rw [List.length_cons, diagonalRest, zeroTwo]
    by_cases h : i ≠ a ∧ i ≠ b
    · rw [if_pos h, if_pos h]
      unfold diagonalFree
      rw [if_pos h]
      simp [ih']
    · rw [if_neg h, if_neg h]
      unfold diagonalFree
      rw [if_neg h, ih']
      rfl

theorem zeroTwo_length (a b i : Nat) (p : List Nat) : (zeroTwo a b i p).length = p.length := by
  induction p generalizing i with
  | nil => rfl
  | cons x p ih => simp [zeroTwo, ih]

theorem zeroTwo_getD (a b : Nat) (p : List Nat) (i k : Nat) (h : i + k ≠ a ∧ i + k ≠ b) : (zeroTwo a b i p).getD k 0 = p.getD k 0 := by
  induction p generalizing i k with
  | nil => rfl
  | cons x p ih =>
    rw [zeroTwo]
    cases k with
    | zero => simp only [List.getD_cons_zero]; rw [if_pos (by simpa using h)]
    | succ k => simp only [List.getD_cons_succ]; exact ih (i + 1) k (by omega)

theorem zeroTwo_set {a b : Nat} {p : List Nat} (hab : a ≠ b) (ha : a < p.length) (hb : b < p.length) :
    ((zeroTwo a b 0 p).set a (p.getD a 0)).set b (p.getD b 0) = p := by
  refine ext_getD (by simp [zeroTwo_length]) fun k _ => ?_
  rw [getD_set_nat (by simp [zeroTwo_length, hb]), getD_set_nat (by simp [zeroTwo_length, ha])]
  split
  next e => rw [e]
  next e =>
    split
    next e' => rw [e']
    next e' => exact zeroTwo_getD a b p 0 k (by omega)

theorem inBounds_diagonalRest {a b : Nat} {sh p : List Nat} (h : InBounds sh p) (i : Nat) :
    InBounds (diagonalRest a b i sh) (diagonalRest a b i p) := by
  induction sh generalizing p i with
  | nil => cases p with
    | nil => trivial
    | cons _ _ => exact h.elim
  | cons n sh ih =>
    cases p with
    | nil => exact h.elim
    | cons x p =>
      rw [diagonalRest, diagonalRest]
      split
      · exact ⟨h.1, ih h.2 (i + 1)⟩
      · exact ih h.2 (i + 1)

/-- Length of a diagonal: the coordinates `t` for which both `t` (shifted by the offset on one side) are in range. -/
theorem diagonalShape_eq {shape : List Nat} {offset : Int} {a b : Nat} (hs : ∀ n ∈ [shape.getD a 0, shape.getD b 0], n < 2 ^ 31)
    (ho : if 0 ≤ offset then offset ≤ shape.getD b 0 else -offset ≤ shape.getD a 0) :
    diagonalShape shape offset a b = dropTwo a b shape ++
      [min ((shape.getD a 0 : Int) + min offset 0) ((shape.getD b 0 : Int) - max offset 0) |>.toNat] := by
  unfold diagonalShape
  have h1 := hs (shape.getD a 0) (by simp)
  have h2 := hs (shape.getD b 0) (by simp)
  simp only
  rw [diagonalRest_dropTwo, toInt32_nat h1, toInt32_nat h2]
  congr 2
  by_cases h0 : 0 ≤ offset
  · rw [if_pos h0] at ho
    rw [if_pos (by omega : offset ≥ 0), if_pos (by omega : offset ≥ 0)]
    unfold wrap64
    rw [Int.emod_eq_of_lt (by split <;> omega) (by split <;> omega)]
    split <;> omega
  · rw [if_neg h0] at ho
    rw [if_neg (by omega : ¬ offset ≥ 0), if_neg (by omega : ¬ offset ≥ 0)]
    unfold wrap64
    rw [Int.emod_eq_of_lt (by split <;> omega) (by split <;> omega)]
    split <;> omega

/-- C40: `diagonal(e, offset, a, b)` has the other axes of `e` followed by one for the diagonal, and holds exactly the
elements whose coordinates on `a` and `b` differ by the offset, in order.  Missing: offsets beyond the extent
(`C40_diagonal_offset_huge`). -/
theorem C40_diagonal_partial {α : Type} {shape : List Nat} {src : List Nat → Res α} {offset : Int} {a b : Nat} (hab : a ≠ b)
    (ha : a < shape.length) (hb : b < shape.length) (hs : ∀ n ∈ [shape.getD a 0, shape.getD b 0], n < 2 ^ 31)
    (ho : if 0 ≤ offset then offset ≤ shape.getD b 0 else -offset ≤ shape.getD a 0) :
    (diagonal shape src offset a b).shape = dropTwo a b shape ++
      [min ((shape.getD a 0 : Int) + min offset 0) ((shape.getD b 0 : Int) - max offset 0) |>.toNat] ∧
    ∀ p v, InBounds shape p → (p.getD b 0 : Int) = p.getD a 0 + offset → src p = .ok v →
      (diagonal shape src offset a b).Reads (dropTwo a b p ++ [min (p.getD a 0) (p.getD b 0)]) v := by
  refine ⟨diagonalShape_eq hs ho, fun p v hp hd hv => ?_⟩
  have hl := hp.length_eq
  have hpa := (inBounds_iff_get.1 hp).2 a ha
  have hpb := (inBounds_iff_get.1 hp).2 b hb
  have h1 := hs (shape.getD a 0) (by simp)
  have h2 := hs (shape.getD b 0) (by simp)
  refine Gen.reads_of ?_ ?_
  · show InBounds (diagonalShape shape offset a b) _
    rw [diagonalShape_eq hs ho, ← diagonalRest_dropTwo, ← diagonalRest_dropTwo]
    refine InBounds.append (inBounds_diagonalRest hp 0) ⟨?_, trivial⟩
    omega
  · show diagonalAt shape.length src offset a b _ = _
    unfold diagonalAt
    rw [← diagonalRest_dropTwo, ← hl, diagonalFree_eq]
    simp only
    rw [if_neg (by omega)]
    generalize hpA : p.getD a 0 = A at *
    generalize hpB : p.getD b 0 = B at *
    have hset := zeroTwo_set (p := p) hab (by omega) (by omega)
    rw [hpA, hpB] at hset
    by_cases h0 : offset ≥ 0
    · rw [if_pos h0, show min A B = A by omega, show wrap64 ((A : Int) + offset) = B by
        rw [← hd]; exact wrap64_nat (by omega), hset, hv]
    · rw [if_neg h0, show min A B = B by omega, show wrap64 ((B : Int) - (wrap64 offset : Nat)) = A by
        unfold wrap64
        rw [← Int.add_emod_right offset, Int.emod_eq_of_lt (a := offset + 2 ^ 64) (by omega) (by omega), Int.toNat_of_nonneg (by omega),
          ← Int.add_emod_right, Int.emod_eq_of_lt (by omega) (by omega)]
        omega, hset, hv]

example : (rowIndices [2]).map (diagonal [3, 4] (fun i => .ok (10 * i.getD 0 0 + i.getD 1 0)) (-1) 0 1).call = ([.ok 10, .ok 21] : List (Res Nat)) ∧
    (diagonal [3, 4] (fun i => .ok (10 * i.getD 0 0 + i.getD 1 0)) (-1) 0 1 : Gen Nat).shape = [2] := by decide

/-- C40: extracting the diagonal a vector was put on gives the vector back. -/
theorem C40_diagonal_diag {α : Type} [Zero α] {v : List α} {k : Int} {src : Nat → Res α}
    (hsrc : ∀ i x, v[i]? = some x → src i = .ok x) (hsz : v.length + k.natAbs < 2 ^ 31) :
    let m := diag v.length src k
    (diagonal m.shape m.call k 0 1).shape = [v.length] ∧ (diagonal m.shape m.elem k 0 1).shape = [v.length] ∧
    ∀ i x, v[i]? = some x → (diagonal m.shape m.call k 0 1).Reads [i] x ∧ (diagonal m.shape m.elem k 0 1).Reads [i] x := by
  intro m
  have habs := Int.abs_eq_natAbs k
  have hm : m.shape = [v.length + k.natAbs, v.length + k.natAbs] := rfl
  have key : ∀ f : List Nat → Res α, (∀ i x, v[i]? = some x → f (if 0 ≤ k then [i, i + k.natAbs] else [i + k.natAbs, i]) = .ok x) →
      (diagonal m.shape f k 0 1).shape = [v.length] ∧ ∀ i x, v[i]? = some x → (diagonal m.shape f k 0 1).Reads [i] x := by
    intro f hf
    obtain ⟨h1, h2⟩ := C40_diagonal_partial (shape := m.shape) (src := f) (offset := k) (a := 0) (b := 1) (by omega)
      (by rw [hm]; simp) (by rw [hm]; simp) (by rw [hm]; simpa using hsz) (by rw [hm]; simp; split <;> omega)
    constructor
    · rw [h1, hm]
      simp [dropTwo]
      omega
    · intro i x hi
      have hil : i < v.length := (List.getElem?_eq_some_iff.1 hi).1
      have := h2 (if 0 ≤ k then [i, i + k.natAbs] else [i + k.natAbs, i]) x
        (by rw [hm]; split <;> exact ⟨by omega, by omega, trivial⟩) (by split <;> simp <;> omega) (hf i x hi)
      convert this using 2
      split <;> simp [dropTwo]
  have hr : ∀ i x, v[i]? = some x → m.Reads (if 0 ≤ k then [i, i + k.natAbs] else [i + k.natAbs, i]) x := by
    intro i x hi
    have hil : i < v.length := (List.getElem?_eq_some_iff.1 hi).1
    by_cases h0 : 0 ≤ k
    · rw [if_pos h0]
      obtain ⟨y, h1, h2⟩ := (C40_diag (k := k) (by omega) hsrc (row := i) (col := i + k.natAbs) (by omega) (by omega) (by omega)).2.2 (by omega)
      rw [Nat.min_eq_left (by omega), hi] at h1
      cases h1; exact h2
    · rw [if_neg h0]
      obtain ⟨y, h1, h2⟩ := (C40_diag (k := k) (by omega) hsrc (row := i + k.natAbs) (col := i) (by omega) (by omega) (by omega)).2.2 (by omega)
      rw [Nat.min_eq_right (by omega), hi] at h1
      cases h1; exact h2
  obtain ⟨a1, a2⟩ := key m.call fun i x hi => (hr i x hi).1
  obtain ⟨b1, b2⟩ := key m.elem fun i x hi => (hr i x hi).2
  exact ⟨a1, b1, fun i x hi => ⟨a2 i x hi, b2 i x hi⟩⟩

example : (diagonal [4, 4] (diag 2 (fun i => .ok (5 + i)) 2).call 2 0 1).call [1] = (.ok 6 : Res Nat) := by decide

/-- An offset beyond the extent gives a diagonal of nearly 2^64 elements instead of none. -/
theorem C40_diagonal_offset_huge :
    (diagonal [2, 2] (fun _ => (.ok 0 : Res Nat)) 3 0 1).shape = [2 ^ 64 - 1] := by decide

end Xt
