import Verif.Model.IndexLists
import Verif.Props.Assembly
import Verif.Props.IndexView
import Verif.Props.Indexing
/-!
# C84: lists of indices as arrays, and trimmed sequences
-/

namespace Xt
open Spec

variable {α : Type}

namespace Spec

/-- All indices have `m` entries. -/
def Uniform (m : Nat) (idx : List (List α)) : Prop := ∀ r ∈ idx, r.length = m

/-- `r` is `l` without zeros at the chosen ends: what is cut are zeros, and no zero is left at an end that was cut. -/
structure Trimmed (isZero : α → Bool) (front back : Bool) (l r : List α) : Prop where
  parts : ∃ a b, l = a ++ r ++ b ∧ (∀ x ∈ a, isZero x = true) ∧ (∀ x ∈ b, isZero x = true) ∧
    (front = false → a = []) ∧ (back = false → b = [])
  firstKept : front = true → ∀ x, r.head? = some x → isZero x = false
  lastKept : back = true → ∀ x, r.getLast? = some x → isZero x = false

end Spec

/-! ### `from_indices` -/

theorem mem_loopPairs {n m i j : Nat} : (i, j) ∈ loopPairs n m ↔ i < n ∧ j < m := by
  simp only [loopPairs, List.mem_flatMap, List.mem_range, List.mem_map, Prod.mk.injEq]
  constructor
  · rintro ⟨a, ha, b, hb, rfl, rfl⟩; exact ⟨ha, hb⟩
  · rintro ⟨h1, h2⟩; exact ⟨i, h1, j, h2, rfl, rfl⟩

theorem fromIndices_loop (idx : List (List α)) (n m : Nat) (hn : idx.length = n) (hm : ∀ r ∈ idx, m ≤ r.length) :
    ∀ (ps : List (Nat × Nat)), (∀ p ∈ ps, p.1 < n ∧ p.2 < m) → ∀ c : Cont α, Addressable c → c.shape = [n, m] →
    ∃ c', ps.foldl (fromIndicesStep idx) (.ok c) = .ok c' ∧ Addressable c' ∧ c'.shape = [n, m] ∧
      ∀ i j, i < n → j < m → c'.elem? (toInts [i, j]) =
        if (i, j) ∈ ps then (idx[i]?).bind (fun (r : List α) => r[j]?) else c.elem? (toInts [i, j])
  | [], _, c, hc, hs => ⟨c, rfl, hc, hs, fun i j _ _ => by simp⟩
  | p :: ps, hps, c, hc, hs => by
    obtain ⟨hi, hj⟩ := hps p (by simp)
    have hr : p.1 < idx.length := by omega
    have hrow : p.2 < (idx[p.1]).length := lt_of_lt_of_le hj (hm _ (List.getElem_mem _))
    have hat : (idx[p.1]?).bind (fun (r : List α) => r[p.2]?) = some (idx[p.1][p.2]) := by
      rw [List.getElem?_eq_getElem hr, Option.bind_some, List.getElem?_eq_getElem hrow]
    have hin : InBounds c.shape [p.1, p.2] := by rw [hs]; simp [InBounds, hi, hj]
    obtain ⟨s, h1, h2, h3⟩ := put_spec c hc [p.1, p.2] hin (idx[p.1][p.2])
    have hc' : Addressable { c with storage := s } :=
      ⟨fun i h => by have := hc.inside i h; simp only; rw [h2]; exact this, fun i j hi hj h => hc.injective i j hi hj h,
        fun q hq => hc.surjective q (by simp only at hq; omega)⟩
    obtain ⟨c', g1, g2, g3, g4⟩ := fromIndices_loop idx n m hn hm ps (fun q hq => hps q (by simp [hq])) { c with storage := s } hc' hs
    refine ⟨c', ?_, g2, g3, fun i j hi' hj' => ?_⟩
    · rw [List.foldl_cons]
      have : fromIndicesStep idx (.ok c) p = .ok { c with storage := s } := by
        simp only [fromIndicesStep, Res.bind, idxAt, hat, orUb]
        exact h1
      rw [this]; exact g1
    · rw [g4 i j hi' hj', h3 [i, j] (by rw [hs]; simp [InBounds, hi', hj'])]
      by_cases he : (i, j) ∈ ps
      · rw [if_pos he, if_pos (by simp [he])]
      · rw [if_neg he]
        by_cases hp : (i, j) = p
        · subst hp; rw [if_pos rfl, if_pos (by simp)]; exact hat.symm
        · rw [if_neg (fun h => hp (by
            simp only [List.cons.injEq, and_true] at h
            exact Prod.ext h.1 h.2)), if_neg (by simp [hp, he])]

/-- **C84 `from_indices`.** Indices of the same number of entries become the rows of an array with as many rows and
columns, in the default layout, whatever the new memory held. -/
theorem C84_from_indices (d : Layout) (fresh : Nat → List α)
    (hf : ∀ n, (fresh n).length = n) (x : α) (idx : List (List α)) (m : Nat) (hu : Uniform m idx) (hne : idx ≠ []) :
    ∃ c, fromIndices d fresh x idx = .ok c ∧ Addressable c ∧ c.shape = [idx.length, m] ∧
      ∀ (i j : Nat) (hi : i < idx.length) (hj : j < (idx[i]).length), c.elem? (toInts [i, j]) = some (idx[i][j]) := by
  cases idx with
  | nil => exact absurd rfl hne
  | cons r idx =>
    have hr : r.length = m := hu r (by simp)
    obtain h | ⟨-, c, hc, hcons, hs, -⟩ := contOfShape_cases d fresh hf d 2 x [(r :: idx).length, r.length] d
    · exact absurd rfl h.2.1
    · obtain ⟨c', g1, g2, g3, g4⟩ := fromIndices_loop (r :: idx) (r :: idx).length r.length rfl
        (fun q hq => by rw [hu q hq, hr]) (loopPairs (r :: idx).length r.length)
        (fun p hp => mem_loopPairs.1 hp) c (Consistent.addressable hcons) hs
      refine ⟨c', ?_, g2, by rw [g3, hr], fun i j hi hj => ?_⟩
      · simp only [fromIndices]; rw [hc]; exact g1
      · have hj' : j < r.length := by rw [hr, ← hu _ (List.getElem_mem hi)]; exact hj
        rw [g4 i j hi hj', if_pos (mem_loopPairs.2 ⟨hi, hj'⟩), List.getElem?_eq_getElem hi, Option.bind_some,
          List.getElem?_eq_getElem hj]

example : Uniform 3 [[0, 1, 2], [5, 6, 7]] ∧
    fromIndices .column_major (fun (n : Nat) => List.replicate n 9) 0 [[0, 1, 2], [5, 6, 7]] =
      .ok ⟨.column_major, .column_major, [2, 3], [1, 2], [1, 4], [0, 5, 1, 6, 2, 7]⟩ := by
  constructor
  · intro r hr; simp at hr; rcases hr with rfl | rfl <;> rfl
  · decide


/-! ### `flatten_indices` -/

theorem flatten_length_uniform (m : Nat) : ∀ idx : List (List α), Uniform m idx → idx.flatten.length = idx.length * m
  | [], _ => by simp
  | r :: idx, h => by
    rw [List.flatten_cons, List.length_append, flatten_length_uniform m idx (fun q hq => h q (by simp [hq])),
      h r (by simp), List.length_cons]
    ring

/-- **C84 `flatten_indices`.** Indices of the same number of entries are written one behind the other. -/
theorem C84_flatten (fresh : Nat → List α) (hf : ∀ n, (fresh n).length = n) (idx : List (List α)) (m : Nat)
    (hu : Uniform m idx) : flattenIndices fresh idx = .ok idx.flatten := by
  have hl := flatten_length_uniform m idx hu
  have hn : idx.length * (idx.head?.map List.length).getD 1 = idx.flatten.length := by
    cases idx with
    | nil => simp
    | cons r idx => rw [hl]; simp [hu r (by simp)]
  simp only [flattenIndices]
  rw [hn, if_neg (by omega), List.drop_of_length_le (by rw [hf]), List.append_nil]

/-- Entry `j` of index `i` is at `i * m + j`, as in the array of `from_indices` read in row-major order. -/
theorem C84_flatten_entry (m : Nat) : ∀ (idx : List (List α)), Uniform m idx → ∀ (i j : Nat) (hi : i < idx.length)
    (hj : j < (idx[i]).length), idx.flatten[i * m + j]? = some (idx[i][j])
  | [], _, i, _, hi, _ => by simp at hi
  | r :: idx, h, 0, j, _, hj => by
    have hj' : j < r.length := by simpa using hj
    rw [List.flatten_cons, List.getElem?_append_left (by omega)]
    simp [hj']
  | r :: idx, h, i + 1, j, hi, hj => by
    have hr : r.length = m := h r (by simp)
    have := C84_flatten_entry m idx (fun q hq => h q (by simp [hq])) i j (by simpa using hi) (by simpa using hj)
    rw [List.flatten_cons, List.getElem?_append_right (by rw [hr]; nlinarith), hr,
      show (i + 1) * m + j - m = i * m + j by rw [Nat.add_mul]; omega, this]
    rfl

example : Uniform 2 [[1, 2], [3, 4], [5, 6]] ∧
    flattenIndices (fun (n : Nat) => List.replicate n 9) [[1, 2], [3, 4], [5, 6]] = .ok [1, 2, 3, 4, 5, 6] := by
  constructor
  · intro r hr; simp at hr; rcases hr with rfl | rfl | rfl <;> rfl
  · decide

/-! ### `ravel_indices` -/

/-- **C84 `ravel_indices`.** Valid indices become their positions in the given order, and `unravel_index` gives the
indices back. -/
theorem C84_ravel (l : Layout) (hl : l = .row_major ∨ l = .column_major) (sh : List Nat) (idx : List (List Nat))
    (h : ∀ i ∈ idx, InBounds sh i) :
    ravelIndices (idx.map toInts) sh l = idx.map (fun (i : List Nat) => (rankIn l sh i : Int)) ∧
      unravelIndices (ravelIndices (idx.map toInts) sh l) sh l = some (idx.map toInts) := by
  have h1 : ravelIndices (idx.map toInts) sh l = idx.map (fun (i : List Nat) => (rankIn l sh i : Int)) := by
    simp only [ravelIndices, List.map_map]
    exact List.map_congr_left fun i hi => (C03_unravel_ravel l hl sh i (h i hi)).1
  refine ⟨h1, ?_⟩
  rw [C03_unravel_indices, h1, List.mapM_map]
  clear h1
  induction idx with
  | nil => rfl
  | cons i idx ih =>
    have hi := C03_unravel_ravel l hl sh i (h i (by simp))
    rw [hi.1] at hi
    rw [List.mapM_cons, ih (fun j hj => h j (by simp [hj]))]
    simp only [Function.comp, hi.2]
    rfl

example : ravelIndices [[1, 2], [0, 1]] [2, 3] .row_major = [5, 1] ∧
    ravelIndices [[1, 2], [0, 1]] [2, 3] .column_major = [5, 2] ∧ InBounds [2, 3] [1, 2] := by decide

/-- **C84 `ravel_indices(argwhere(a), a.shape())`.** The positions of the elements that are set, in increasing order:
position `p` occurs exactly when the element there is set. -/
theorem C84_ravel_argwhere (L : Layout) (hL : L = .row_major ∨ L = .column_major) (sh : List Nat) (c : List Nat → Bool) :
    (ravelIndices ((argwhere L sh c).map toInts) sh L).Pairwise (· < ·) ∧
      ∀ p : Int, p ∈ ravelIndices ((argwhere L sh c).map toInts) sh L ↔
        ∃ i, InBounds sh i ∧ (rankIn L sh i : Int) = p ∧ c i = true := by
  obtain ⟨hm, hp⟩ := C60_argwhere L hL sh c
  rw [(C84_ravel L hL sh (argwhere L sh c) (fun i hi => ((hm i).1 hi).1)).1]
  refine ⟨?_, fun p => ?_⟩
  · rw [List.pairwise_map]
    exact hp.imp fun h => by exact_mod_cast h
  · simp only [List.mem_map, hm]
    constructor
    · rintro ⟨i, ⟨h1, h2⟩, rfl⟩; exact ⟨i, h1, rfl, h2⟩
    · rintro ⟨i, h1, rfl, h2⟩; exact ⟨i, ⟨h1, h2⟩, rfl⟩

/-! ### `trim_zeros` -/

theorem takeWhile_length_le (f : α → Bool) (l : List α) : (l.takeWhile f).length ≤ l.length :=
  (List.takeWhile_sublist f).length_le

theorem take_takeWhile_length (f : α → Bool) : ∀ l : List α, l.take (l.takeWhile f).length = l.takeWhile f
  | [] => by simp
  | x :: l => by
    cases h : f x <;> simp [List.takeWhile_cons, h, take_takeWhile_length f l]

theorem drop_takeWhile_length (f : α → Bool) : ∀ l : List α, l.drop (l.takeWhile f).length = l.dropWhile f
  | [] => by simp
  | x :: l => by
    cases h : f x <;> simp [List.takeWhile_cons, List.dropWhile_cons, h, drop_takeWhile_length f l]

theorem of_mem_takeWhile (f : α → Bool) : ∀ (l : List α) {x : α}, x ∈ l.takeWhile f → f x = true
  | [], _, h => by simp at h
  | y :: l, x, h => by
    cases hy : f y with
    | false => simp [List.takeWhile_cons, hy] at h
    | true =>
      simp only [List.takeWhile_cons, hy, if_true, List.mem_cons] at h
      rcases h with rfl | h
      · exact hy
      · exact of_mem_takeWhile f l h

theorem head_dropWhile_stops (f : α → Bool) : ∀ (l : List α) {x : α}, (l.dropWhile f).head? = some x → f x = false
  | [], _, h => by simp at h
  | y :: l, x, h => by
    cases hy : f y with
    | false =>
      simp only [List.dropWhile_cons, hy] at h
      simp at h; rw [← h]; exact hy
    | true =>
      simp only [List.dropWhile_cons, hy, if_true] at h
      exact head_dropWhile_stops f l h

theorem trim_bounds (z : α → Bool) (front back : Bool) (l : List α) :
    trimBegin z front l ≤ trimEnd z front back l ∧ trimEnd z front back l ≤ l.length := by
  have hb : trimBegin z front l ≤ l.length := by
    unfold trimBegin; split
    · exact takeWhile_length_le z l
    · omega
  unfold trimEnd
  split
  · rename_i h
    refine ⟨?_, by omega⟩
    by_cases hf : front = true
    · have hlt : (l.takeWhile z).length < l.length := by
        have := h.2; simp only [trimBegin, hf, if_true] at this
        have := takeWhile_length_le z l; omega
      -- the element at which the first search stopped also stops the second one
      have hdw : l.dropWhile z ≠ [] := by
        intro h0
        have := List.takeWhile_append_dropWhile (p := z) (l := l)
        rw [h0, List.append_nil] at this
        rw [this] at hlt; omega
      obtain ⟨y, ys, hy⟩ := List.exists_cons_of_ne_nil hdw
      have hyz : z y = false := by
        exact head_dropWhile_stops z l (by rw [hy]; rfl)
      have hl : l = l.takeWhile z ++ y :: ys := by rw [← hy, List.takeWhile_append_dropWhile]
      have hrev : l.reverse = ys.reverse ++ y :: (l.takeWhile z).reverse := by
        conv_lhs => rw [hl]
        simp
      have : (l.reverse.takeWhile z).length ≤ ys.length := by
        rw [hrev]
        have : (ys.reverse ++ y :: (l.takeWhile z).reverse).takeWhile z = ys.reverse.takeWhile z := by
          rw [List.takeWhile_append]
          split
          · rename_i h5
            have h6 := take_takeWhile_length z ys.reverse
            rw [h5, List.take_length] at h6
            simp [hyz, ← h6]
          · rfl
        rw [this]
        have := takeWhile_length_le z ys.reverse
        simpa using this
      have hlen := congrArg List.length hl
      simp only [List.length_append, List.length_cons] at hlen
      simp only [trimBegin, hf, if_true]
      omega
    · simp [trimBegin, hf]
  · exact ⟨hb, le_refl _⟩

/-- What lies between the two ends is trimmed. -/
theorem trim_spec (z : α → Bool) (front back : Bool) (l : List α) :
    Trimmed z front back l ((l.drop (trimBegin z front l)).take (trimEnd z front back l - trimBegin z front l)) := by
  obtain ⟨h1, h2⟩ := trim_bounds z front back l
  have htake : l.take (trimBegin z front l) = if front then l.takeWhile z else [] := by
    unfold trimBegin
    split
    · exact take_takeWhile_length z l
    · simp
  have hdrop : ∀ x ∈ l.drop (trimEnd z front back l), z x = true := by
    unfold trimEnd
    split
    · intro x hx
      have : l.drop (l.length - (l.reverse.takeWhile z).length) = (l.reverse.takeWhile z).reverse := by
        have h3 := take_takeWhile_length z l.reverse
        have h4 : l.reverse.take (l.reverse.takeWhile z).length =
            (l.drop (l.length - (l.reverse.takeWhile z).length)).reverse := by
          rw [List.take_reverse]
        rw [h3] at h4
        have h5 := congrArg List.reverse h4
        rw [List.reverse_reverse] at h5
        exact h5.symm
      rw [this, List.mem_reverse] at hx
      exact of_mem_takeWhile z _ hx
    · intro x hx; simp at hx
  refine ⟨⟨l.take (trimBegin z front l), l.drop (trimEnd z front back l), ?_, ?_, hdrop, ?_, ?_⟩, ?_, ?_⟩
  · rw [List.append_assoc]
    have : (l.drop (trimBegin z front l)).take (trimEnd z front back l - trimBegin z front l) ++
        l.drop (trimEnd z front back l) = l.drop (trimBegin z front l) := by
      have h3 : l.drop (trimEnd z front back l) =
          (l.drop (trimBegin z front l)).drop (trimEnd z front back l - trimBegin z front l) := by
        rw [List.drop_drop]; congr 1; omega
      rw [h3, List.take_append_drop]
    rw [this, List.take_append_drop]
  · intro x hx
    rw [htake] at hx
    split at hx
    · exact of_mem_takeWhile z _ hx
    · simp at hx
  · intro hf; rw [htake, hf]; rfl
  · intro hb; simp [trimEnd, hb]
  · intro hf x hx
    rw [List.head?_take] at hx
    split at hx
    · cases hx
    · have : l.drop (trimBegin z front l) = l.dropWhile z := by
        simp only [trimBegin, hf, if_true]
        exact drop_takeWhile_length z l
      rw [this] at hx
      exact head_dropWhile_stops z l hx
  · intro hb x hx
    by_cases hbe : trimBegin z front l = l.length
    · rw [hbe] at hx; simp at hx
    · have hte : trimEnd z front back l = l.length - (l.reverse.takeWhile z).length := by
        rw [trimEnd, if_pos ⟨hb, hbe⟩]
      have hlast : ((l.drop (trimBegin z front l)).take (trimEnd z front back l - trimBegin z front l)).getLast? =
          if trimEnd z front back l - trimBegin z front l = 0 then none else l[trimEnd z front back l - 1]? := by
        by_cases h0 : trimEnd z front back l - trimBegin z front l = 0
        · rw [h0]; simp
        · rw [if_neg h0, List.getLast?_eq_getElem?, List.length_take, List.length_drop, Nat.min_eq_left (by omega),
            List.getElem?_take, if_pos (by omega), List.getElem?_drop]
          congr 1; omega
      rw [hlast] at hx
      split at hx
      · cases hx
      · have hk : (l.reverse.takeWhile z).length < l.length := by omega
        have hg : l.reverse[(l.reverse.takeWhile z).length]? = some x := by
          rw [List.getElem?_reverse hk, ← hx, hte]; congr 1; omega
        have hdw : (l.reverse.dropWhile z).head? = some x := by
          rw [← drop_takeWhile_length z l.reverse, List.head?_drop]; exact hg
        exact head_dropWhile_stops z l.reverse hdw

/-- **C84 `trim_zeros`.** Of a sequence with any stride, `trim_zeros` is a view whose elements are the sequence without
its zeros at the chosen ends, and nothing else is cut. -/
theorem C84_trim_zeros (z : α → Bool) (n : Nat) (st off : Int) (l : Layout) (mem : Int → α) (front back : Bool) :
    let vals := (List.range n).map fun (i : Nat) => mem (off + i * st)
    ∃ (v : SView) (m : Nat), trimZeros z [n] [st] off l vals front back = .ok v ∧ v.shape = [(m : Int)] ∧
      Trimmed z front back vals ((List.range m).map fun (i : Nat) => mem (v.index [(i : Int)])) := by
  intro vals
  have hlen : vals.length = n := by simp [vals]
  obtain ⟨h1, h2⟩ := trim_bounds z front back vals
  rw [hlen] at h2
  have hs := trim_spec z front back vals
  generalize hb : trimBegin z front vals = b at h1 h2 hs
  generalize he : trimEnd z front back vals = e at h1 h2 hs
  have hrg : rangeGet (some (b : Int)) (some (e : Int)) none n = .ok (.range b (if (e : Int) > b then e - b else 0)) := by
    have n1 : rangeNormalize (b : Int) n = b := by simp only [rangeNormalize]; split <;> omega
    have n2 : rangeNormalize (e : Int) n = e := by simp only [rangeNormalize]; split <;> omega
    simp only [rangeGet, mkRange, n1, n2]
  have hsz : (if (e : Int) > b then (e : Int) - b else 0) = ((e - b : Nat) : Int) := by split <;> omega
  rw [hsz] at hrg
  refine ⟨svConstruct ⟨[((e - b : Nat) : Int)], [1 * st], off + (b * st + 0),
    if doStridesMatch [e - b] [1 * st] l true then l else .dynamic⟩, e - b, ?_, ?_, ?_⟩
  · simp only [trimZeros, hb, he, stridedView, svFillArgs, svCount, svLoop, Res.bind, Res.map, hrg]
    simp [svAxes, Res.map, Sl.value, Sl.size, Sl.stepSize, Res.bind, hrg]
  · rfl
  · have : (List.range (e - b)).map (fun (i : Nat) => mem ((svConstruct ⟨[((e - b : Nat) : Int)], [1 * st], off + (b * st + 0),
        if doStridesMatch [e - b] [1 * st] l true then l else .dynamic⟩).index [(i : Int)])) = (vals.drop b).take (e - b) := by
      apply List.ext_getElem?
      intro i
      by_cases hi : i < e - b
      · rw [List.getElem?_take, if_pos hi, List.getElem?_drop]
        simp only [vals, List.getElem?_map, List.getElem?_range (show i < e - b from hi),
          List.getElem?_range (show b + i < n by omega), Option.map_some]
        congr 2
        simp only [svConstruct, SView.index, List.zipWith_cons_cons, List.zipWith_nil_right]
        by_cases h1' : ((e - b : Nat) : Int) = 1
        · have : i = 0 := by omega
          subst this
          rw [if_pos h1']
          simp [dataOffset, rawDataOffset]
        · rw [if_neg h1']
          simp [dataOffset, rawDataOffset]
          ring
      · rw [List.getElem?_eq_none (by simp; omega), List.getElem?_eq_none (by simp; omega)]
    rw [this]
    exact hs


example : (List.range 6).map (fun (i : Nat) => ([7, 0, 0, 4, 0, 5, 0, 0, 0, 0, 0, 0] : List Nat).getD (1 + 2 * i) 9) = [0, 4, 5, 0, 0, 0] ∧
    trimZeros (fun (x : Nat) => x == 0) [6] [2] 1 .row_major [0, 4, 5, 0, 0, 0] true true = .ok ⟨[2], [2], 3, .dynamic⟩ ∧
    trimZeros (fun (x : Nat) => x == 0) [6] [2] 1 .row_major [0, 4, 5, 0, 0, 0] false true = .ok ⟨[3], [2], 1, .dynamic⟩ ∧
    trimZeros (fun (x : Nat) => x == 0) [6] [2] 1 .row_major [0, 4, 5, 0, 0, 0] true false = .ok ⟨[5], [2], 3, .dynamic⟩ := by
  decide

/-- **C84 `from_indices(argwhere(a))`.** When an element is set, the rows are the indices of the set elements: each row is
one, each one is a row, and there is a column for every axis. -/
theorem C84_from_argwhere (L d : Layout) (hL : L = .row_major ∨ L = .column_major) (fresh : Nat → List Nat)
    (hf : ∀ n, (fresh n).length = n) (x : Nat) (sh : List Nat) (c : List Nat → Bool)
    (hne : ∃ i, InBounds sh i ∧ c i = true) :
    ∃ (a : Cont Nat) (n : Nat), fromIndices d fresh x (argwhere L sh c) = .ok a ∧ Addressable a ∧ a.shape = [n, sh.length] ∧
      (∀ k < n, ∃ i, InBounds sh i ∧ c i = true ∧ ∀ j < sh.length, a.elem? (toInts [k, j]) = i[j]?) ∧
      ∀ i, InBounds sh i → c i = true → ∃ k < n, ∀ j < sh.length, a.elem? (toInts [k, j]) = i[j]? := by
  obtain ⟨hm, -⟩ := C60_argwhere L hL sh c
  have hu : Uniform sh.length (argwhere L sh c) := fun r hr => ((hm r).1 hr).1.length_eq
  have hne' : argwhere L sh c ≠ [] := by
    obtain ⟨i, hi⟩ := hne
    exact List.ne_nil_of_mem ((hm i).2 hi)
  obtain ⟨a, ha, hA, hs, hv⟩ := C84_from_indices d fresh hf x _ _ hu hne'
  have hrow : ∀ (k : Nat) (hk : k < (argwhere L sh c).length), ∀ j < sh.length,
      a.elem? (toInts [k, j]) = ((argwhere L sh c)[k])[j]? := by
    intro k hk j hj
    have hl : ((argwhere L sh c)[k]).length = sh.length := hu _ (List.getElem_mem hk)
    rw [hv k j hk (by omega), List.getElem?_eq_getElem]
  refine ⟨a, _, ha, hA, hs, fun k hk => ?_, fun i hi hc => ?_⟩
  · obtain ⟨h1, h2⟩ := (hm _).1 (List.getElem_mem hk)
    exact ⟨_, h1, h2, hrow k hk⟩
  · obtain ⟨k, hk, rfl⟩ := List.getElem_of_mem ((hm i).2 ⟨hi, hc⟩)
    exact ⟨k, hk, hrow k hk⟩

example : argwhere .row_major [2, 2] (fun (i : List Nat) => i.getD 0 0 == i.getD 1 0) = [[0, 0], [1, 1]] ∧
    fromIndices .row_major (fun (n : Nat) => List.replicate n 9) 0 [[0, 0], [1, 1]] =
      .ok ⟨.row_major, .row_major, [2, 2], [2, 1], [2, 1], [0, 0, 1, 1]⟩ := by decide

/-! ### Where they fail -/

/-- **C84 (violated): no index at all.** The array of no indices has no columns, whatever the number of axes: the
indices of the set elements of an array with `k` axes are an array with `k` columns only when one is set. -/
theorem C84_from_no_index_wrong (fresh : Nat → List α) (hf : ∀ n, (fresh n).length = n) (x : α) :
    ∀ c, fromIndices .row_major fresh x [] = .ok c → c.shape = [0, 0] := by
  intro c hc
  obtain h | ⟨-, c', hc', -, hs, -⟩ := contOfShape_cases .row_major fresh hf .row_major 2 x [0, 0] .row_major
  · simp [fromIndices, h] at hc
  · simp only [fromIndices, hc', Res.ok.injEq] at hc
    rw [← hc, hs]

/-- **C84 (violated): indices of different lengths are not refused.** A shorter one is read past its end, a longer one
loses its tail; flattened, they leave elements unset or are written past the end. -/
theorem C84_ragged_wrong :
    fromIndices .row_major (fun (n : Nat) => List.replicate n 9) 0 [[1, 2], [3]] = .ub ∧
    fromIndices .row_major (fun (n : Nat) => List.replicate n 9) 0 [[1], [3, 4]] =
      .ok ⟨.row_major, .row_major, [2, 1], [1, 0], [1, 0], [1, 3]⟩ ∧
    flattenIndices (fun (n : Nat) => List.replicate n 9) [[1, 2], [3]] = .ok [1, 2, 3, 9] ∧
    flattenIndices (fun (n : Nat) => List.replicate n 9) [[1], [3, 4]] = .ub := by decide

/-- **C84 (violated): positions of what is no index.** An index outside the shape, one with fewer entries and one with
more all get a position: that of another element. -/
theorem C84_ravel_wrong :
    ravelIndices [[0, 3], [1, 0]] [2, 3] .row_major = [3, 3] ∧
    ravelIndices [[1], [0, 1]] [2, 3] .row_major = [1, 1] ∧
    ravelIndices [[7, 1, 2], [1, 2]] [2, 3] .row_major = [5, 5] := by decide

/-- **C84 (violated): sequences of sequences.** Of an expression with two axes the zeros at the ends are counted in
elements and cut in rows: the row without a zero is cut, the one with nothing else stays. -/
theorem C84_trim_rows_wrong :
    trimZeros (fun (x : Nat) => x == 0) [2, 3] [3, 1] 0 .row_major [0, 0, 0, 1, 2, 3] true true = .ok ⟨[0, 3], [3, 1], 6, .row_major⟩ ∧
    trimZeros (fun (x : Nat) => x == 0) [2, 3] [3, 1] 0 .row_major [1, 2, 3, 0, 0, 0] true true = .ok ⟨[2, 3], [3, 1], 0, .row_major⟩ ∧
    trimZeros (fun (x : Nat) => x == 0) [] [] 0 .row_major [5] true true = .throws := by decide

end Xt
