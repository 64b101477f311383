import Verif.Model.Numeric
import Verif.Spec.Numeric
import Verif.Props.Stats
import Verif.Props.Quantile
import Mathlib.Algebra.Group.ForwardDiff
import Mathlib.Data.ZMod.Basic
import Mathlib.Tactic.Linarith
import Mathlib.Tactic.Ring
import Mathlib.Tactic.FieldSimp
import Mathlib.Algebra.BigOperators.Intervals
/-!
# Numerical functions (C66)
-/

namespace Xt
open Spec Finset

variable {α : Type}

/-! ### Functions of operands -/

theorem zipEx_ok {β γ : Type} (f : α → β → γ) {s : LazyEx α} {t : LazyEx β} (h : BroadcastsTo t.shape s.shape)
    (hs : szMax ∉ s.shape) (ht : szMax ∉ t.shape) :
    ∃ q, zipEx f s t = .ok q ∧ q.shape = s.shape ∧
      ∀ i, InBounds s.shape i → q.elem i = f (s.elem i) (t.elem (bcIndex t.shape i)) := by
  obtain ⟨b, hb⟩ := ((C04_broadcast_shape (.fn [.leaf s.shape, .leaf t.shape]) (by
    intro x hx
    simp [ShExpr.leaves, ShExpr.leavesL] at hx
    rcases hx with rfl | rfl
    · exact hs
    · exact ht)).1 s.shape).2 (isBroadcast_of_broadcastsTo (by
      intro x hx
      simp [ShExpr.leavesL, ShExpr.leaves] at hx
      rw [hx]; exact h))
  refine ⟨⟨s.shape, fun i => f (s.elem (operandIndex s.shape i)) (t.elem (operandIndex t.shape i))⟩, ?_, rfl, ?_⟩
  · unfold zipEx
    rw [hb]
  · intro i hi
    show f (s.elem (bcIndex s.shape i)) (t.elem (bcIndex t.shape i)) = _
    rw [bcIndex_self hi]

theorem zipEx_ok' {β γ : Type} (f : α → β → γ) {s : LazyEx α} {t : LazyEx β} (h : BroadcastsTo s.shape t.shape)
    (hs : szMax ∉ s.shape) (ht : szMax ∉ t.shape) :
    ∃ q, zipEx f s t = .ok q ∧ q.shape = t.shape ∧
      ∀ i, InBounds t.shape i → q.elem i = f (s.elem (bcIndex s.shape i)) (t.elem i) := by
  obtain ⟨b, hb⟩ := ((C04_broadcast_shape (.fn [.leaf s.shape, .leaf t.shape]) (by
    intro x hx
    simp [ShExpr.leaves, ShExpr.leavesL] at hx
    rcases hx with rfl | rfl
    · exact hs
    · exact ht)).1 t.shape).2 (by
      have h1 : IsBroadcast (t.shape :: [s.shape]) t.shape := isBroadcast_of_broadcastsTo (by
        intro x hx
        simp at hx
        rw [hx]; exact h)
      have hm : ∀ x, x ∈ (ShExpr.fn [.leaf s.shape, .leaf t.shape]).leaves ↔ x ∈ t.shape :: [s.shape] := by
        intro x
        simp [ShExpr.leavesL, ShExpr.leaves]
        exact or_comm
      obtain ⟨a1, a2, a3⟩ := h1
      refine ⟨fun s hs => a1 s ((hm s).1 hs), fun k d hk s hs => a2 k d hk s ((hm s).1 hs), fun k d hk => ?_⟩
      obtain ⟨s, hs, hk'⟩ := a3 k d hk
      exact ⟨s, (hm s).2 hs, hk'⟩)
  refine ⟨⟨t.shape, fun i => f (s.elem (operandIndex s.shape i)) (t.elem (operandIndex t.shape i))⟩, ?_, rfl, ?_⟩
  · unfold zipEx
    rw [hb]
  · intro i hi
    show f (s.elem (bcIndex s.shape i)) (t.elem (bcIndex t.shape i)) = _
    rw [bcIndex_self hi]

/-! ### Views of adjacent elements -/

theorem adjacentViews_ok (e : LazyEx α) {a : Nat} (ha : a < e.shape.length) :
    ∃ v, adjacentViews e a = .ok v ∧ v.1.shape = e.shape.set a (e.shape.getD a 0 - 1) ∧
      v.2.shape = e.shape.set a (e.shape.getD a 0 - 1) ∧
      ∀ i, InBounds (e.shape.set a (e.shape.getD a 0 - 1)) i →
        v.1.elem i = e.elem (i.set a (i.getD a 0 + 1)) ∧ v.2.elem i = e.elem i := by
  refine ⟨(sliceAxis e a (mkRange (rangeNormalize 1 (e.shape.getD a 0)) (e.shape.getD a 0)),
    sliceAxis e a (mkRange 0 (rangeNormalize ((e.shape.getD a 0 : Int) - 1) (e.shape.getD a 0)))), ?_, ?_, ?_, ?_⟩
  · unfold adjacentViews
    rw [if_neg (by omega)]
    rfl
  · show e.shape.set a _ = _
    congr 1
    unfold mkRange rangeNormalize Sl.size
    dsimp only
    split_ifs <;> omega
  · show e.shape.set a _ = _
    congr 1
    unfold mkRange rangeNormalize Sl.size
    dsimp only
    split_ifs <;> omega
  · intro i hi
    obtain ⟨hl, hg⟩ := inBounds_iff_get.1 hi
    have h1 := hg a (by simpa using ha)
    rw [getD_set_nat ha, if_pos rfl] at h1
    have hai : a < i.length := by rw [hl]; simpa using ha
    constructor
    · show e.elem (i.set a _) = _
      congr 2
      unfold mkRange rangeNormalize Sl.value
      dsimp only
      rw [if_pos (by omega)]
      omega
    · show e.elem (i.set a _) = _
      congr 1
      unfold mkRange rangeNormalize Sl.value
      dsimp only
      have : (0 + (i.getD a 0 : Int)).toNat = i.getD a 0 := by omega
      rw [this]
      rw [List.getD_eq_getElem?_getD, List.getElem?_eq_getElem hai]
      simp

/-! ### Differences -/

/-- Repeated differences of a sequence. -/
def iterDiff (sub : α → α → α) : Nat → (Nat → α) → Nat → α
  | 0, f => f
  | n + 1, f => iterDiff sub n fun k => sub (f (k + 1)) (f k)

theorem iterDiff_congr (sub : α → α → α) : ∀ (n : Nat) (f g : Nat → α) (k : Nat),
    (∀ j, k ≤ j → j ≤ k + n → f j = g j) → iterDiff sub n f k = iterDiff sub n g k
  | 0, f, g, k, h => h k (Nat.le_refl _) (Nat.le_refl _)
  | n + 1, f, g, k, h => iterDiff_congr sub n _ _ k fun j h1 h2 => by
      rw [h j h1 (by omega), h (j + 1) (by omega) (by omega)]

theorem iterDiff_eq (f : Nat → ℚ) (n k : Nat) : iterDiff (· - ·) n f k = finiteDiff n f k := by
  have h : ∀ (n : Nat) (f : Nat → ℚ), iterDiff (· - ·) n f = (fwdDiff 1)^[n] f := by
    intro n
    induction n with
    | zero => intro f; rfl
    | succ n ih => intro f; rw [Function.iterate_succ_apply, ← ih]; rfl
  rw [h, fwdDiff_iter_eq_sum_shift]
  unfold finiteDiff
  apply Finset.sum_congr rfl
  intro j _
  simp

theorem diffPass_ok (sub : α → α → α) {e : LazyEx α} {a : Nat} (ha : a < e.shape.length) (hx : ∀ n ∈ e.shape, n < szMax) :
    ∃ d, diffPass sub a e = .ok d ∧ d.shape = e.shape.set a (e.shape.getD a 0 - 1) ∧
      ∀ i, InBounds d.shape i → d.elem i = sub (e.elem (i.set a (i.getD a 0 + 1))) (e.elem i) := by
  obtain ⟨v, hv, h1, h2, hel⟩ := adjacentViews_ok e ha
  have hsz : szMax ∉ e.shape.set a (e.shape.getD a 0 - 1) := by
    intro hm
    rcases List.mem_or_eq_of_mem_set hm with h | h
    · exact absurd (hx _ h) (lt_irrefl _)
    · have := hx (e.shape.getD a 0) (by
        rw [List.getD_eq_getElem?_getD, List.getElem?_eq_getElem ha]
        exact List.getElem_mem _)
      omega
  obtain ⟨q, hq, hqs, hqe⟩ := zipEx_ok sub (s := v.1) (t := v.2) (by rw [h1, h2]; exact broadcastsTo_refl _)
    (by rw [h1]; exact hsz) (by rw [h2]; exact hsz)
  refine ⟨q, by rw [diffPass, hv]; exact hq, by rw [hqs, h1], ?_⟩
  intro i hi
  rw [hqs, h1] at hi
  rw [hqe i (by rw [h1]; exact hi), h2, bcIndex_self hi, (hel i hi).1, (hel i hi).2]

theorem extent_set_lt {sh : List Nat} {a m : Nat} (hx : ∀ n ∈ sh, n < szMax) (hm : m ≤ sh.getD a 0) (ha : a < sh.length) :
    ∀ n ∈ sh.set a m, n < szMax := by
  intro n hn
  rcases List.mem_or_eq_of_mem_set hn with h | h
  · exact hx _ h
  · have := hx (sh.getD a 0) (by
      rw [List.getD_eq_getElem?_getD, List.getElem?_eq_getElem ha]
      exact List.getElem_mem _)
    omega

theorem diffLoop_ok (sub : α → α → α) {a : Nat} : ∀ (n : Nat) {e : LazyEx α} (_ : a < e.shape.length)
    (_ : ∀ n ∈ e.shape, n < szMax),
    ∃ d, diffLoop sub a n e = .ok d ∧ d.shape = e.shape.set a (e.shape.getD a 0 - n) ∧
      ∀ i, InBounds d.shape i → d.elem i = iterDiff sub n (fun k => e.elem (i.set a k)) (i.getD a 0)
  | 0, e, ha, _ => by
    refine ⟨e, rfl, ?_, ?_⟩
    · rw [List.getD_eq_getElem?_getD, List.getElem?_eq_getElem ha]
      simp
    · intro i hi
      have hai : a < i.length := by rw [hi.length_eq]; exact ha
      show _ = e.elem (i.set a (i.getD a 0))
      rw [List.getD_eq_getElem?_getD, List.getElem?_eq_getElem hai]
      simp
  | n + 1, e, ha, hx => by
    obtain ⟨d1, h1, hs1, he1⟩ := diffPass_ok sub ha hx
    have ha1 : a < d1.shape.length := by rw [hs1]; simpa using ha
    obtain ⟨d, h, hs, he⟩ := diffLoop_ok sub n (e := d1) ha1 (by
      rw [hs1]; exact extent_set_lt hx (by omega) ha)
    have hsh : d.shape = e.shape.set a (e.shape.getD a 0 - (n + 1)) := by
      rw [hs, hs1, List.set_set, getD_set_nat ha, if_pos rfl]
      congr 1
      omega
    refine ⟨d, by rw [diffLoop, h1]; exact h, hsh, ?_⟩
    intro i hi
    have hlt : i.getD a 0 < e.shape.getD a 0 - (n + 1) := by
      rw [hsh] at hi
      have := (inBounds_iff_get.1 hi).2 a (by simpa using ha)
      rwa [getD_set_nat ha, if_pos rfl] at this
    have hai : a < i.length := by rw [hi.length_eq, hsh]; simpa using ha
    rw [he i hi]
    show _ = iterDiff sub n (fun k => sub (e.elem (i.set a (k + 1))) (e.elem (i.set a k))) (i.getD a 0)
    apply iterDiff_congr
    intro j h1 h2
    rw [he1]
    · rw [List.set_set, getD_set_nat hai, if_pos rfl]
    · rw [hs1]
      rw [hsh] at hi
      have hb := inBounds_iff_get.1 hi
      rw [inBounds_iff_get]
      refine ⟨by simpa using hb.1, ?_⟩
      intro k hk
      rw [getD_set_nat hai, getD_set_nat ha]
      by_cases hka : a = k
      · rw [if_pos hka, if_pos hka]; omega
      · rw [if_neg hka, if_neg hka]
        have := hb.2 k (by simpa using hk)
        rwa [getD_set_nat ha, if_neg hka] at this

/-- Full property: `diff(e, n, axis)` is the `n`-th difference along the axis, of which the extent is reduced by `n` (or to 0).
    Proved here for arrays with elements and for as many passes as would leave none; `C66_diff_empty_wrong` has an array without
    elements.  `sub` is any difference, as that of booleans. -/
theorem diffAxis_ok (sub : α → α → α) {e : LazyEx α} {axis : Int} (hd : e.shape.length < 2 ^ 63)
    (h1 : -(e.shape.length : Int) ≤ axis) (h2 : axis < e.shape.length) (hx : ∀ n ∈ e.shape, n < szMax) (n : Nat)
    (h0 : numel e.shape ≠ 0 ∨ e.shape.getD (axisOf e.shape.length axis) 0 ≤ n ∨ n = 0) :
    ∃ d, diffAxis sub e n axis = .ok d ∧
      d.shape = e.shape.set (axisOf e.shape.length axis) (e.shape.getD (axisOf e.shape.length axis) 0 - n) ∧
      ∀ i, InBounds d.shape i → d.elem i =
        iterDiff sub n (fun k => e.elem (i.set (axisOf e.shape.length axis) k)) (i.getD (axisOf e.shape.length axis) 0) := by
  obtain ⟨hax, hlt⟩ := normalizeAxis_eq hd h1 h2
  obtain ⟨a, ha⟩ : ∃ a, a = axisOf e.shape.length axis := ⟨_, rfl⟩
  rw [← ha] at hax hlt h0 ⊢
  unfold diffAxis
  simp only [hax]
  by_cases hn : n ≤ e.size
  · rw [if_pos hn]
    exact diffLoop_ok sub n hlt hx
  · rw [if_neg hn, if_neg (by omega)]
    have hle : e.shape.getD a 0 ≤ n := by
      rw [LazyEx.size_eq] at hn
      rcases h0 with h0 | h0 | h0
      · obtain ⟨A, B, hsh, hA, -⟩ := shape_split_at hlt
        rw [hsh, numel_append, numel_cons] at h0 hn
        have hA0 : 0 < numel A := Nat.pos_of_ne_zero fun h => h0 (by rw [h, Nat.zero_mul])
        have hB0 : 0 < numel B := Nat.pos_of_ne_zero fun h => h0 (by rw [h]; simp)
        have h3 : e.shape.getD a 0 ≤ e.shape.getD a 0 * numel B := Nat.le_mul_of_pos_right _ hB0
        have h4 : e.shape.getD a 0 * numel B ≤ numel A * (e.shape.getD a 0 * numel B) := Nat.le_mul_of_pos_left _ hA0
        omega
      · exact h0
      · omega
    refine ⟨_, rfl, ?_, ?_⟩
    · show e.shape.set a 0 = _
      rw [Nat.sub_eq_zero_of_le hle]
    · intro i hi
      exfalso
      have := (inBounds_iff_get.1 hi).2 a (by simpa using hlt)
      rw [getD_set_nat hlt, if_pos rfl] at this
      omega

/-- Full property: `diff(e, n, axis)` is the `n`-th finite difference along the axis, of which the extent is reduced by `n` (or
    to 0).  Proved here for arrays with elements and for as many passes as would leave none; `C66_diff_empty_wrong` has an array
    without elements. -/
theorem C66_diff_partial {e : LazyEx ℚ} {axis : Int} (hd : e.shape.length < 2 ^ 63)
    (h1 : -(e.shape.length : Int) ≤ axis) (h2 : axis < e.shape.length) (hx : ∀ n ∈ e.shape, n < szMax) (n : Nat)
    (h0 : numel e.shape ≠ 0 ∨ e.shape.getD (axisOf e.shape.length axis) 0 ≤ n ∨ n = 0) :
    ∃ d, diffAxis (· - ·) e n axis = .ok d ∧
      d.shape = e.shape.set (axisOf e.shape.length axis) (e.shape.getD (axisOf e.shape.length axis) 0 - n) ∧
      ∀ i, InBounds d.shape i → d.elem i =
        finiteDiff n (fun k => e.elem (i.set (axisOf e.shape.length axis) k)) (i.getD (axisOf e.shape.length axis) 0) := by
  obtain ⟨d, h, hs, he⟩ := diffAxis_ok (· - ·) hd h1 h2 hx n h0
  exact ⟨d, h, hs, fun i hi => by rw [he i hi, iterDiff_eq]⟩

/-- The elements 0, 1, 4, 9, … in two rows of four. -/
def squaresEx : LazyEx ℚ := ⟨[2, 4], fun i => ((i.getD 0 0 * 4 + i.getD 1 0 : Nat) : ℚ) ^ 2⟩

example : squaresEx.shape.length < 2 ^ 63 ∧ -(squaresEx.shape.length : Int) ≤ -1 ∧ (-1 : Int) < squaresEx.shape.length ∧
    (∀ n ∈ squaresEx.shape, n < szMax) ∧ numel squaresEx.shape ≠ 0 ∧
    ((diffAxis (· - ·) squaresEx 2 (-1)).map fun d => (d.shape, d.elem [1, 1])) = .ok ([2, 2], 2) := by decide +kernel

/-- The number of passes is compared with the number of elements: an array without elements loses the whole axis, and
    `diff(a, 1, 1)` of a shape `{0, 5}` has shape `{0, 0}` instead of `{0, 4}`. -/
theorem C66_diff_empty_wrong :
    ((diffAxis (· - ·) (⟨[0, 5], fun _ => 0⟩ : LazyEx ℚ) 1 1).map LazyEx.shape) = .ok [0, 0] := by decide +kernel

/-- The difference of booleans: true where adjacent elements differ, and after `n` passes the parity of the elements weighted by
    binomial coefficients. -/
theorem iterDiff_bool : ∀ (n : Nat) (f : Nat → Bool) (k : Nat),
    ((if iterDiff (fun x y => x != y) n f k then 1 else 0 : ZMod 2)) =
      ∑ j ∈ range (n + 1), (n.choose j : ZMod 2) * ((if f (k + j) then 1 else 0 : ZMod 2)) := by
  intro n
  induction n with
  | zero =>
    intro f k
    rw [Finset.sum_range_one, Nat.choose_self, Nat.cast_one, one_mul]
    rfl
  | succ n ih =>
    intro f k
    have hx : ∀ x y : Bool, ((if (x != y) then 1 else 0 : ZMod 2)) =
        ((if x then 1 else 0 : ZMod 2)) + (if y then 1 else 0 : ZMod 2) := by decide
    rw [iterDiff, ih]
    simp only [hx, mul_add, Finset.sum_add_distrib]
    rw [Finset.sum_range_succ' _ (n + 1)]
    simp only [Nat.choose_succ_succ, Nat.cast_add, add_mul, Finset.sum_add_distrib]
    rw [Finset.sum_range_succ (fun j => ((n.choose (j + 1) : Nat) : ZMod 2) * _)]
    rw [Nat.choose_succ_self]
    rw [Finset.sum_range_succ' (fun j => ((n.choose j : Nat) : ZMod 2) * ((if f (k + j) then 1 else 0 : ZMod 2))) n]
    simp only [Nat.cast_zero, zero_mul, add_zero, Nat.choose_zero_right, add_assoc]

/-- `diff` of booleans. -/
theorem C66_diff_bool_partial {e : LazyEx Bool} {axis : Int} (hd : e.shape.length < 2 ^ 63)
    (h1 : -(e.shape.length : Int) ≤ axis) (h2 : axis < e.shape.length) (hx : ∀ n ∈ e.shape, n < szMax) (n : Nat)
    (h0 : numel e.shape ≠ 0 ∨ e.shape.getD (axisOf e.shape.length axis) 0 ≤ n ∨ n = 0) :
    ∃ d, diffAxis (fun x y => x != y) e n axis = .ok d ∧
      d.shape = e.shape.set (axisOf e.shape.length axis) (e.shape.getD (axisOf e.shape.length axis) 0 - n) ∧
      ∀ i, InBounds d.shape i → ((if d.elem i then 1 else 0 : ZMod 2)) =
        ∑ j ∈ range (n + 1), (n.choose j : ZMod 2) * ((if e.elem (i.set (axisOf e.shape.length axis)
          (i.getD (axisOf e.shape.length axis) 0 + j)) then 1 else 0 : ZMod 2)) := by
  obtain ⟨d, h, hs, he⟩ := diffAxis_ok (fun x y => x != y) hd h1 h2 hx n h0
  exact ⟨d, h, hs, fun i hi => by rw [he i hi, iterDiff_bool]⟩

example : ((diffAxis (fun x y => x != y) (⟨[4], fun i => i.getD 0 0 == 2⟩ : LazyEx Bool) 2 0).map fun d =>
    (d.shape, d.elem [0], d.elem [1])) = .ok ([2], true, false) := by decide +kernel

/-! ### Trapezoids -/

theorem dropAxes_one_none : ∀ (l : List Nat) (p a : Nat), dropAxes [p + a] none p l = l.eraseIdx a
  | [], _, _ => by simp [dropAxes]
  | x :: l, p, 0 => by
    have h : ∀ (l : List Nat) (q : Nat), p < q → dropAxes [p] none q l = l := by
      intro l
      induction l with
      | nil => intro q _; rfl
      | cons y l ih =>
        intro q hq
        have : q ≠ p := by omega
        simp [dropAxes, this, ih (q + 1) (by omega)]
    simp [dropAxes, h l (p + 1) (by omega)]
  | x :: l, p, a + 1 => by
    have ih := dropAxes_one_none l (p + 1) a
    have : p + 1 + a = p + (a + 1) := by omega
    rw [this] at ih
    simp [dropAxes, ih]

theorem redShape_one (sh : List Nat) (a : Nat) : redShape sh [a] false = sh.eraseIdx a := by
  have := dropAxes_one_none sh 0 a
  rw [Nat.zero_add] at this
  exact this

theorem redIndex_one (idx : List Nat) (a : Nat) : redIndex [a] false idx = idx.eraseIdx a := by
  have := dropAxes_one_none idx 0 a
  rw [Nat.zero_add] at this
  exact this

theorem inBounds_insertIdx_one {sh i : List Nat} {a k : Nat} (ha : a < sh.length) (hi : InBounds (sh.eraseIdx a) i)
    (hk : k < sh.getD a 0) : InBounds sh (i.insertIdx a k) := by
  obtain ⟨A, B, hsh, hA, hAB⟩ := shape_split_at ha
  rw [hAB] at hi
  obtain ⟨p, q, rfl, hp, hq⟩ := inBounds_split hi
  rw [hsh, ← hA, ← hp.length_eq, insertIdx_split]
  refine hp.append (b := _ :: B) ⟨?_, hq⟩
  rw [hp.length_eq, hA]
  exact hk

theorem set_insertIdx {i : List Nat} {a k t : Nat} (ha : a ≤ i.length) : (i.insertIdx a k).set a t = i.insertIdx a t := by
  have e : i = i.take a ++ i.drop a := (List.take_append_drop ..).symm
  have hl : (i.take a).length = a := by simp; omega
  have h : ∀ k, i.insertIdx a k = i.take a ++ k :: i.drop a := by
    intro k
    have := insertIdx_split (i.take a) k (i.drop a)
    rw [hl, ← e] at this
    exact this
  rw [h, h, List.set_append_right _ _ (by omega), hl, Nat.sub_self]
  rfl

theorem getD_insertIdx {i : List Nat} {a k : Nat} (ha : a ≤ i.length) : (i.insertIdx a k).getD a 0 = k := by
  rw [List.getD_eq_getElem?_getD, List.getElem?_insertIdx_self, if_pos (by omega)]
  rfl

theorem list_range_sum (n : Nat) (g : Nat → ℚ) : ((List.range n).map g).sum = ∑ k ∈ range n, g k := by
  induction n with
  | zero => rfl
  | succ n ih => rw [List.range_succ, List.map_append, List.sum_append, ih, Finset.sum_range_succ]; simp

theorem sumAxis_ok (t : LazyEx ℚ) {a : Nat} (ha : a < t.shape.length) :
    ∃ r, sumAxis t a = .ok r ∧ r.shape = t.shape.eraseIdx a ∧
      ∀ i, InBounds r.shape i → r.elem i = ∑ k ∈ range (t.shape.getD a 0), t.elem (i.insertIdx a k) := by
  have hne : t.shape ≠ [] := by intro h; rw [h] at ha; simp at ha
  have hf : Fits t.shape t.toEx := ⟨hne, broadcastsTo_refl _⟩
  have hax : ([(a : Int)].map (normalizeAxis t.shape.length)) = [a] := by
    simp [normalizeAxis]
  obtain ⟨r, h1, h2, h3⟩ := lazyReduce_ok sumLaws 0 hf (axes := [(a : Int)]) (by
    rw [hax]
    exact ⟨by simp, by simpa using ha⟩) false
  rw [hax] at h2
  refine ⟨r, h1, by rw [h2, redShape_one], ?_⟩
  intro i hi
  rw [h3 i hi, hax, redValue_sum]
  rw [h2, redShape_one] at hi
  rcases Nat.eq_zero_or_pos (t.shape.getD a 0) with h0 | h0
  · rw [h0, Finset.sum_range_zero]
    have : redGroup t.shape [a] false i = [] := by
      rw [List.eq_nil_iff_forall_not_mem]
      intro x hx
      unfold redGroup at hx
      rw [List.mem_filter] at hx
      have := (inBounds_iff_get.1 (mem_rowIndices.1 hx.1)).2 a ha
      omega
    rw [this]
    rfl
  · have hil : i.length = t.shape.length - 1 := by rw [hi.length_eq, List.length_eraseIdx, if_pos ha]
    have hb := inBounds_insertIdx_one (k := 0) ha hi h0
    have hr : redIndex [a] false (i.insertIdx a 0) = i := by
      rw [redIndex_one, List.eraseIdx_insertIdx_self]
    have hg := redGroup_one false hb ha
    rw [hr] at hg
    rw [hg, List.map_map, list_range_sum]
    apply Finset.sum_congr rfl
    intro k hk
    rw [Finset.mem_range] at hk
    show t.elem ((toInts (bcIndex t.shape _)).map Int.toNat) = _
    rw [toNat_toInts]
    show t.elem (bcIndex t.shape ((i.insertIdx a 0).set a k)) = _
    rw [set_insertIdx (by omega), bcIndex_self (inBounds_insertIdx_one ha hi hk)]

theorem eraseIdx_set_self {sh : List Nat} {a m : Nat} : (sh.set a m).eraseIdx a = sh.eraseIdx a := by
  simp [List.eraseIdx_set_eq]

theorem extent_not_max {sh : List Nat} (hx : ∀ n ∈ sh, n < szMax) : szMax ∉ sh := fun h => absurd (hx _ h) (lt_irrefl _)

/-- The sums of adjacent elements of which `trapz` adds up multiples. -/
theorem adjacentSum_ok {y : LazyEx ℚ} {a : Nat} (ha : a < y.shape.length) (hx : ∀ n ∈ y.shape, n < szMax) :
    ∃ v s, adjacentViews y a = .ok v ∧ zipEx (· + ·) v.1 v.2 = .ok s ∧ s.shape = y.shape.set a (y.shape.getD a 0 - 1) ∧
      ∀ i, InBounds s.shape i → s.elem i = y.elem (i.set a (i.getD a 0 + 1)) + y.elem i := by
  obtain ⟨v, hv, h1, h2, hel⟩ := adjacentViews_ok y ha
  have hsz := extent_not_max (extent_set_lt hx (Nat.sub_le (y.shape.getD a 0) 1) ha)
  obtain ⟨q, hq, hqs, hqe⟩ := zipEx_ok (· + ·) (s := v.1) (t := v.2) (by rw [h1, h2]; exact broadcastsTo_refl _)
    (by rw [h1]; exact hsz) (by rw [h2]; exact hsz)
  refine ⟨v, q, hv, hq, by rw [hqs, h1], ?_⟩
  intro i hi
  rw [hqs, h1] at hi
  rw [hqe i (by rw [h1]; exact hi), h2, bcIndex_self hi, (hel i hi).1, (hel i hi).2]

/-- `trapz(y, dx, axis)` is the area of the trapezoids below the elements along the axis, `dx` apart. -/
theorem C66_trapz {y : LazyEx ℚ} {axis : Int} (hd : y.shape.length < 2 ^ 63) (h1 : -(y.shape.length : Int) ≤ axis)
    (h2 : axis < y.shape.length) (hx : ∀ n ∈ y.shape, n < szMax) (dx : ℚ) :
    ∃ r, trapzStep y dx axis = .ok r ∧ r.shape = y.shape.eraseIdx (axisOf y.shape.length axis) ∧
      ∀ i, InBounds r.shape i → r.elem i = trapezoids (y.shape.getD (axisOf y.shape.length axis) 0) (fun k => k * dx)
        (fun k => y.elem (i.insertIdx (axisOf y.shape.length axis) k)) := by
  obtain ⟨hax, hlt⟩ := normalizeAxis_eq hd h1 h2
  obtain ⟨a, ha⟩ : ∃ a, a = axisOf y.shape.length axis := ⟨_, rfl⟩
  rw [← ha] at hax hlt ⊢
  obtain ⟨v, s, hv, hs, hss, hse⟩ := adjacentSum_ok hlt hx
  obtain ⟨r, hr, hrs, hre⟩ := sumAxis_ok ⟨s.shape, fun i => dx * s.elem i * (1 / 2)⟩ (a := a)
    (by show a < s.shape.length; rw [hss]; simpa using hlt)
  have hrs' : r.shape = y.shape.eraseIdx a := by
    rw [hrs]
    show s.shape.eraseIdx a = _
    rw [hss, eraseIdx_set_self]
  refine ⟨r, ?_, hrs', ?_⟩
  · unfold trapzStep
    simp only [hax, hv, Res.bind]
    rw [hs]
    exact hr
  · intro i hi
    rw [hre i hi]
    show ∑ k ∈ range (s.shape.getD a 0), dx * s.elem (i.insertIdx a k) * (1 / 2) = _
    rw [hss, getD_set_nat hlt, if_pos rfl]
    unfold trapezoids
    apply Finset.sum_congr rfl
    intro k hk
    rw [Finset.mem_range] at hk
    have hil : i.length = y.shape.length - 1 := by rw [hi.length_eq, hrs', List.length_eraseIdx, if_pos hlt]
    have hb : InBounds s.shape (i.insertIdx a k) := by
      apply inBounds_insertIdx_one
      · rw [hss]; simpa using hlt
      · rw [hss, eraseIdx_set_self, ← hrs']; exact hi
      · rw [hss, getD_set_nat hlt, if_pos rfl]; exact hk
    rw [hse _ hb, set_insertIdx (by omega), getD_insertIdx (by omega)]
    push_cast
    ring

example : squaresEx.shape.length < 2 ^ 63 ∧ -(squaresEx.shape.length : Int) ≤ 1 ∧ (1 : Int) < squaresEx.shape.length ∧
    (∀ n ∈ squaresEx.shape, n < szMax) ∧
    ((trapzStep squaresEx 2 1).map fun d => (d.shape, d.elem [0])) = .ok ([2], 19) := by decide +kernel

/-- Equidistant trapezoids: the step times the sum, in which the first and the last count half. -/
theorem trapezoids_uniform (n : Nat) (dx : ℚ) (y : Nat → ℚ) :
    trapezoids (n + 1) (fun k => k * dx) y = dx * (∑ k ∈ range (n + 1), y k - (y 0 + y n) / 2) := by
  unfold trapezoids
  simp only [Nat.add_sub_cancel]
  induction n with
  | zero => simp
  | succ n ih =>
    rw [Finset.sum_range_succ, ih, Finset.sum_range_succ _ (n + 1)]
    push_cast
    ring

/-- The rule is exact for affine functions: the integral of `c x + d`. -/
theorem trapezoids_affine (n : Nat) (x y : Nat → ℚ) (c d : ℚ) (h : ∀ k ≤ n, y k = c * x k + d) :
    trapezoids (n + 1) x y = c * (x n ^ 2 - x 0 ^ 2) / 2 + d * (x n - x 0) := by
  unfold trapezoids
  simp only [Nat.add_sub_cancel]
  induction n with
  | zero => simp
  | succ n ih =>
    rw [Finset.sum_range_succ, ih (fun k hk => h k (by omega)), h n (by omega), h (n + 1) (by omega)]
    ring

/-- `trapz(y, x, axis)` along an axis with the points of a one-dimensional `x`. -/
theorem C66_trapz_points {y x : LazyEx ℚ} {axis : Int} (hd : y.shape.length < 2 ^ 63) (h1 : -(y.shape.length : Int) ≤ axis)
    (h2 : axis < y.shape.length) (hx : ∀ n ∈ y.shape, n < szMax)
    (hxs : x.shape = [y.shape.getD (axisOf y.shape.length axis) 0]) :
    ∃ r, trapzPoints y x axis = .ok r ∧ r.shape = y.shape.eraseIdx (axisOf y.shape.length axis) ∧
      ∀ i, InBounds r.shape i → r.elem i = trapezoids (y.shape.getD (axisOf y.shape.length axis) 0) (fun k => x.elem [k])
        (fun k => y.elem (i.insertIdx (axisOf y.shape.length axis) k)) := by
  obtain ⟨hax, hlt⟩ := normalizeAxis_eq hd h1 h2
  obtain ⟨a, ha⟩ : ∃ a, a = axisOf y.shape.length axis := ⟨_, rfl⟩
  rw [← ha] at hax hlt hxs ⊢
  have hmem : y.shape.getD a 0 ∈ y.shape := by
    rw [List.getD_eq_getElem?_getD, List.getElem?_eq_getElem hlt]
    exact List.getElem_mem _
  obtain ⟨d, hdd, hds, hde⟩ := diffAxis_ok (· - ·) (e := x) (axis := -1) (by rw [hxs]; simp) (by rw [hxs]; simp)
    (by rw [hxs]; simp) (by rw [hxs]; intro n hn; simp at hn; rw [hn]; exact hx _ hmem) 1 (by
      have : axisOf x.shape.length (-1) = 0 := by rw [hxs]; rfl
      rw [this, hxs]
      by_cases h : y.shape.getD a 0 = 0
      · right; left; rw [h]; decide
      · left; simpa [numel] using h)
  have hao : axisOf x.shape.length (-1) = 0 := by rw [hxs]; rfl
  rw [hao] at hds hde
  have hds' : d.shape = [y.shape.getD a 0 - 1] := by rw [hds, hxs]; rfl
  obtain ⟨v, s, hv, hs, hss, hse⟩ := adjacentSum_ok hlt hx
  obtain ⟨D, hD⟩ : ∃ D : LazyEx ℚ, D = ⟨(List.replicate y.shape.length 1).set a (d.shape.getD 0 0), fun i => d.elem [i.getD a 0]⟩ :=
    ⟨_, rfl⟩
  have hDs : D.shape = (List.replicate y.shape.length 1).set a (y.shape.getD a 0 - 1) := by rw [hD, hds']; rfl
  have hsp : trapzSpacing x y.shape.length a axis = .ok D := by
    unfold trapzSpacing
    rw [if_pos (by rw [hxs]; rfl), hdd]
    show (if _ then _ else _) = _
    rw [if_neg (by omega), hD]
  have hlen : D.shape.length = y.shape.length := by rw [hDs]; simp
  have hbc : BroadcastsTo D.shape s.shape := by
    refine ⟨by rw [hlen, hss]; simp, ?_⟩
    intro k hk
    rw [hlen] at hk
    rw [hlen, hss, List.length_set, Nat.sub_self, Nat.add_zero, getD_set_nat hlt, hDs, getD_set_nat (by simpa using hlt)]
    by_cases hka : a = k
    · right; rw [if_pos hka, if_pos hka]
    · left; rw [if_neg hka, List.getD_eq_getElem?_getD, List.getElem?_replicate, if_pos hk]; rfl
  have hszs : szMax ∉ s.shape := by
    rw [hss]; exact extent_not_max (extent_set_lt hx (Nat.sub_le _ 1) hlt)
  obtain ⟨p, hp, hps, hpe⟩ := zipEx_ok' (· * ·) hbc (by
    intro hm
    rw [hDs] at hm
    rcases List.mem_or_eq_of_mem_set hm with h | h
    · have := (List.mem_replicate.1 h).2
      exact absurd this (by decide)
    · have := hx _ hmem
      omega) hszs
  obtain ⟨r, hr, hrs, hre⟩ := sumAxis_ok ⟨p.shape, fun i => p.elem i * (1 / 2)⟩ (a := a)
    (by show a < p.shape.length; rw [hps, hss]; simpa using hlt)
  have hrs' : r.shape = y.shape.eraseIdx a := by
    rw [hrs]
    show p.shape.eraseIdx a = _
    rw [hps, hss, eraseIdx_set_self]
  refine ⟨r, ?_, hrs', ?_⟩
  · unfold trapzPoints
    simp only [hax, hsp, hv, Res.bind]
    rw [hs]
    simp only [Res.bind]
    rw [hp]
    exact hr
  · intro i hi
    rw [hre i hi]
    show ∑ k ∈ range (p.shape.getD a 0), p.elem (i.insertIdx a k) * (1 / 2) = _
    rw [hps, hss, getD_set_nat hlt, if_pos rfl]
    unfold trapezoids
    apply Finset.sum_congr rfl
    intro k hk
    rw [Finset.mem_range] at hk
    have hil : i.length = y.shape.length - 1 := by rw [hi.length_eq, hrs', List.length_eraseIdx, if_pos hlt]
    have hb : InBounds s.shape (i.insertIdx a k) := by
      apply inBounds_insertIdx_one
      · rw [hss]; simpa using hlt
      · rw [hss, eraseIdx_set_self, ← hrs']; exact hi
      · rw [hss, getD_set_nat hlt, if_pos rfl]; exact hk
    have hDe : D.elem (bcIndex D.shape (i.insertIdx a k)) = x.elem [k + 1] - x.elem [k] := by
      have hbi : (bcIndex D.shape (i.insertIdx a k)).getD a 0 = k := by
        have hll : (i.insertIdx a k).length = y.shape.length := by rw [hb.length_eq, hss]; simp
        unfold bcIndex
        rw [hll, hlen, Nat.sub_self, List.drop_zero]
        rw [List.getD_eq_getElem?_getD, List.getElem?_zipWith]
        have e1 : D.shape[a]? = some (y.shape.getD a 0 - 1) := by
          rw [hDs, List.getElem?_set_self (by simpa using hlt)]
        have e2 : (i.insertIdx a k)[a]? = some k := by
          rw [List.getElem?_insertIdx_self, if_pos (by omega)]
        rw [e1, e2]
        show (if y.shape.getD a 0 - 1 = 1 then 0 else k) = k
        split
        · omega
        · rfl
      rw [hD] at hbi ⊢
      show d.elem [_] = _
      rw [hbi, hde [k] (by rw [hds']; exact ⟨hk, trivial⟩)]
      rfl
    rw [hpe _ hb, hse _ hb, hDe, set_insertIdx (by omega), getD_insertIdx (by omega)]
    ring

example : ((trapzPoints squaresEx ⟨[4], fun i => ((i.getD 0 0 : Nat) : ℚ) ^ 2⟩ 1).map fun d => (d.shape, d.elem [0])) =
    .ok ([2], 81 / 2) := by decide +kernel

/-- `trapz(y, x, axis)` where `x` has the shape of `y`, which has elements. -/
theorem C66_trapz_points_array_partial {y x : LazyEx ℚ} {axis : Int} (hd : y.shape.length < 2 ^ 63)
    (h1 : -(y.shape.length : Int) ≤ axis) (h2 : axis < y.shape.length) (hx : ∀ n ∈ y.shape, n < szMax)
    (hxs : x.shape = y.shape) (h0 : numel y.shape ≠ 0) :
    ∃ r, trapzPoints y x axis = .ok r ∧ r.shape = y.shape.eraseIdx (axisOf y.shape.length axis) ∧
      ∀ i, InBounds r.shape i → r.elem i = trapezoids (y.shape.getD (axisOf y.shape.length axis) 0)
        (fun k => x.elem (i.insertIdx (axisOf y.shape.length axis) k))
        (fun k => y.elem (i.insertIdx (axisOf y.shape.length axis) k)) := by
  by_cases hdim : y.shape.length = 1
  · obtain ⟨n, hn⟩ := List.length_eq_one_iff.1 hdim
    have hao : axisOf y.shape.length axis = 0 := by
      have := (normalizeAxis_eq hd h1 h2).2
      omega
    obtain ⟨r, hr, hrs, hre⟩ := C66_trapz_points (x := x) hd h1 h2 hx (by rw [hxs, hao, hn]; rfl)
    refine ⟨r, hr, hrs, fun i hi => ?_⟩
    rw [hre i hi]
    have hi0 : i = [] := by
      rw [hrs, hao, hn] at hi
      exact List.eq_nil_of_length_eq_zero (by rw [hi.length_eq]; rfl)
    rw [hi0, hao]
    rfl
  obtain ⟨hax, hlt⟩ := normalizeAxis_eq hd h1 h2
  obtain ⟨d, hdd, hds, hde⟩ := diffAxis_ok (· - ·) (e := x) (axis := axis) (by rw [hxs]; exact hd) (by rw [hxs]; exact h1)
    (by rw [hxs]; exact h2) (by rw [hxs]; exact hx) 1 (by rw [hxs]; exact .inl h0)
  rw [hxs] at hds hde
  obtain ⟨a, ha⟩ : ∃ a, a = axisOf y.shape.length axis := ⟨_, rfl⟩
  rw [← ha] at hax hlt hds hde ⊢
  obtain ⟨v, s, hv, hs, hss, hse⟩ := adjacentSum_ok hlt hx
  have hsp : trapzSpacing x y.shape.length a axis = .ok d := by
    unfold trapzSpacing
    rw [if_neg (by rw [hxs]; exact hdim), hdd]
  have hszs : szMax ∉ y.shape.set a (y.shape.getD a 0 - 1) := extent_not_max (extent_set_lt hx (Nat.sub_le _ 1) hlt)
  obtain ⟨p, hp, hps, hpe⟩ := zipEx_ok (· * ·) (s := d) (t := s) (by rw [hds, hss]; exact broadcastsTo_refl _)
    (by rw [hds]; exact hszs) (by rw [hss]; exact hszs)
  obtain ⟨r, hr, hrs, hre⟩ := sumAxis_ok ⟨p.shape, fun i => p.elem i * (1 / 2)⟩ (a := a)
    (by show a < p.shape.length; rw [hps, hds]; simpa using hlt)
  have hrs' : r.shape = y.shape.eraseIdx a := by
    rw [hrs]
    show p.shape.eraseIdx a = _
    rw [hps, hds, eraseIdx_set_self]
  refine ⟨r, ?_, hrs', ?_⟩
  · unfold trapzPoints
    simp only [hax, hsp, hv, Res.bind]
    rw [hs]
    simp only [Res.bind]
    rw [hp]
    exact hr
  · intro i hi
    rw [hre i hi]
    show ∑ k ∈ range (p.shape.getD a 0), p.elem (i.insertIdx a k) * (1 / 2) = _
    rw [hps, hds, getD_set_nat hlt, if_pos rfl]
    unfold trapezoids
    apply Finset.sum_congr rfl
    intro k hk
    rw [Finset.mem_range] at hk
    have hil : i.length = y.shape.length - 1 := by rw [hi.length_eq, hrs', List.length_eraseIdx, if_pos hlt]
    have hb : InBounds (y.shape.set a (y.shape.getD a 0 - 1)) (i.insertIdx a k) := by
      apply inBounds_insertIdx_one
      · simpa using hlt
      · rw [eraseIdx_set_self, ← hrs']; exact hi
      · rw [getD_set_nat hlt, if_pos rfl]; exact hk
    rw [hpe _ (by rw [hds]; exact hb), hss, bcIndex_self hb, hse _ (by rw [hss]; exact hb), hde _ (by rw [hds]; exact hb)]
    show (x.elem _ - x.elem _) * _ * _ = _
    rw [set_insertIdx (by omega), getD_insertIdx (by omega), set_insertIdx (by omega)]
    ring

example : ((trapzPoints squaresEx squaresEx (-2)).map fun d => (d.shape, d.elem [1])) = .ok ([4], 312) := by decide +kernel

/-- The differences of an array without elements having lost the axis, `trapz(y, x, axis)` throws where `trapz(y, dx, axis)` is
    an array without elements. -/
theorem C66_trapz_empty_throws :
    trapzPoints ⟨[0, 5], fun _ => 0⟩ ⟨[0, 5], fun _ => 0⟩ 1 = .throws ∧
      (trapzStep ⟨[0, 5], fun _ => 0⟩ 1 1).map LazyEx.shape = .ok [0] := by
  constructor
  · rfl
  · decide +kernel

end Xt
