import Verif.Model.ContigView
import Verif.Props.ViewCompose
import Verif.Props.AssignAlias
/-!
# C80 — A view that claims to be contiguous is
-/

namespace Xt
open Spec

/-! ### Slices and the objects they become -/

/-- Slices bound to the axes they belong to, with the objects `getSlice` makes of them. -/
inductive BoundGet : List Nat → List USlice → List Sl → Prop
  | nil (sh) : BoundGet sh [] []
  | new {sh us S} (h : BoundGet sh us S) : BoundGet sh (.newaxis :: us) (.newaxis :: S)
  | cons {n sh u us s S} (hu : u ≠ .newaxis) (hg : getSlice n u = .ok s) (hs : SliceOk n u s)
      (h : BoundGet sh us S) : BoundGet (n :: sh) (u :: us) (s :: S)

theorem bindSlices_boundGet (full : List Nat) (us : List USlice) (pre : Nat)
    (h : SlicesValid (full.drop pre) us) :
    ∃ S, bindSlices full pre us = .ok S ∧ BoundGet (full.drop pre) us S := by
  induction us generalizing pre with
  | nil => exact ⟨[], rfl, .nil _⟩
  | cons u us ih =>
    by_cases hu : u = .newaxis
    · subst hu
      obtain ⟨S, h1, h2⟩ := ih pre h
      exact ⟨.newaxis :: S, by simp [bindSlices, USlice.isNew, getSlice, h1], .new h2⟩
    · have hnew : u.isNew = false := by cases u <;> simp_all [USlice.isNew]
      cases hd : full.drop pre with
      | nil => rw [hd] at h; cases u <;> simp_all [SlicesValid]
      | cons n sh =>
        rw [hd] at h
        have hv : SliceValid n u ∧ SlicesValid sh us := by
          cases u <;> simp_all [SlicesValid]
        have hn : full[pre]? = some n := by
          have : (full.drop pre)[0]? = some n := by rw [hd]; rfl
          simpa using this
        have hsh : full.drop (pre + 1) = sh := by
          rw [← List.drop_drop, hd]; rfl
        obtain ⟨s, h1, h2⟩ := slice_ok hv.1 hu
        obtain ⟨S, h3, h4⟩ := ih (pre + 1) (by rw [hsh]; exact hv.2)
        refine ⟨s :: S, ?_, .cons hu h1 h2 (hsh ▸ h4)⟩
        simp [bindSlices, hnew, hn, h1, h3]

theorem makeView_boundGet {sh : List Nat} {us : List USlice} (h : SlicesValid sh us) :
    ∃ S, makeView sh us = .ok S ∧ BoundGet sh us S := by
  have := bindSlices_boundGet sh us 0 (by simpa using h)
  simpa [makeView] using this

theorem BoundGet.bound {sh : List Nat} {us : List USlice} {S : List Sl} (h : BoundGet sh us S) :
    Bound sh us S := by
  induction h with
  | nil sh => exact .nil sh
  | new _ ih => exact .new ih
  | cons hu _ hs _ ih => exact .cons hu hs ih

theorem BoundGet.length {sh : List Nat} {us : List USlice} {S : List Sl} (h : BoundGet sh us S) :
    S.length = us.length := by
  induction h <;> simp_all

/-- An object of type `xall` is over the whole axis. -/
theorem all_slice {n : Nat} {u : USlice} {s : Sl} (hg : getSlice n u = .ok s) (hs : SliceOk n u s)
    (h : s.isAll = true) : (axisSel n u).length = n ∧ ∀ i, i < n → (axisSel n u).getD i 0 = (i : Int) := by
  have hsn : s = .all n := by
    cases u with
    | all => simp only [getSlice, Res.ok.injEq] at hg; exact hg.symm
    | range a b k =>
      have hst : ∀ a b k, mkStepped a b k = .ok s → False := by
        intro a b k h1
        unfold mkStepped at h1
        split at h1
        · cases h1
        · cases h1; cases h
      have hgs : ∀ a b k, getSteppedRange a b k n = .ok s → False := by
        intro a b k h1
        simp only [getSteppedRange] at h1
        split at h1 <;> exact hst _ _ _ h1
      simp only [getSlice, rangeGet] at hg
      split at hg
      all_goals first
        | exact (hgs _ _ _ hg).elim
        | exact (hst _ _ _ hg).elim
        | (simp only [Res.ok.injEq] at hg; exact hg.symm)
        | (simp only [Res.ok.injEq, mkRange] at hg; subst hg; cases h)
    | int _ => simp only [getSlice, Res.ok.injEq] at hg; subst hg; cases h
    | newaxis => simp only [getSlice, Res.ok.injEq] at hg; subst hg; cases h
    | ellipsis => cases hg
    | keep _ => simp only [getSlice, Res.ok.injEq] at hg; subst hg; cases h
    | drop _ => simp only [getSlice, Res.ok.injEq, dropNormalize] at hg; subst hg; cases h
  subst hsn
  have h1 : (n : Int) = (axisSel n u).length := hs.size
  refine ⟨by omega, fun i hi => ?_⟩
  exact (hs.value i (by omega)).symm

/-- An object of type `xrange` takes consecutive positions. -/
theorem range_slice {n : Nat} {u : USlice} {s : Sl} (hs : SliceOk n u s) (h : s.isRange = true) :
    ∃ b : Int, ∀ i : Nat, i < (axisSel n u).length → (axisSel n u).getD i 0 = b + i := by
  cases s with
  | range b m => exact ⟨b, fun i hi => (hs.value i hi).symm⟩
  | _ => cases h

theorem isRange_not_int {s : Sl} (h : s.isRange = true) : s.isInt = false := by
  cases s <;> simp_all [Sl.isRange, Sl.isInt]

theorem isAll_not_int {s : Sl} (h : s.isAll = true) : s.isInt = false := by
  cases s <;> simp_all [Sl.isAll, Sl.isInt]

theorem isAll_not_range {s : Sl} (h : s.isAll = true) : s.isRange = false := by
  cases s <;> simp_all [Sl.isAll, Sl.isRange]

/-! ### The compile-time test -/

theorem contigRow_false (a r : Bool) (S : List Sl) : contigRow false a r S = false := by
  induction S generalizing a r with
  | nil => rfl
  | cons s S ih => simp only [contigRow, Bool.false_and, ih]

theorem contigCol_false (a r : Bool) (S : List Sl) : contigCol false a r S = false := by
  induction S generalizing a r with
  | nil => rfl
  | cons s S ih => simp only [contigCol, Bool.false_and, ih]

theorem contigRow_allSeen (r : Bool) (S : List Sl) :
    contigRow true true r S = true ↔ ∀ s ∈ S, s.isAll = true := by
  induction S generalizing r with
  | nil => simp [contigRow]
  | cons s S ih =>
    simp only [contigRow, Bool.true_or, if_true, Bool.true_and]
    cases hs : s.isAll with
    | true => simp [ih, hs]
    | false => simp [contigRow_false, hs]

theorem contigRow_rangeSeen (S : List Sl) :
    contigRow true false true S = true ↔ ∀ s ∈ S, s.isAll = true := by
  cases S with
  | nil => simp [contigRow]
  | cons s S =>
    simp only [contigRow, Bool.false_or, Bool.true_and, Bool.not_true, Bool.false_and, Bool.true_or]
    cases hs : s.isAll with
    | true => simp [contigRow_allSeen, hs]
    | false => simp [contigRow_false, hs]

theorem contigCol_intSeen (r : Bool) (S : List Sl) :
    contigCol true true r S = true ↔ ∀ s ∈ S, s.isInt = true := by
  induction S generalizing r with
  | nil => simp [contigCol]
  | cons s S ih =>
    simp only [contigCol, Bool.true_or, if_true, Bool.true_and]
    cases hs : s.isInt with
    | true => simp [ih, hs]
    | false => simp [contigCol_false, hs]

theorem contigCol_rangeSeen (S : List Sl) :
    contigCol true false true S = true ↔ ∀ s ∈ S, s.isInt = true := by
  cases S with
  | nil => simp [contigCol]
  | cons s S =>
    simp only [contigCol, Bool.false_or, Bool.true_and, Bool.not_true, Bool.false_and, Bool.or_true]
    cases hs : s.isInt with
    | true => simp [contigCol_intSeen, hs]
    | false => simp [contigCol_false, hs]

/-- C80: the test accepts exactly what the documentation says — row-major: integers, then at most
one range, then `all()`s. -/
theorem C80_row_pattern (sdim : Option Nat) (S : List Sl) :
    isContiguousView .row_major sdim S = true ↔
      ∃ A R B, S = A ++ R ++ B ∧ (∀ s ∈ A, s.isInt = true) ∧ R.length ≤ 1 ∧
        (∀ s ∈ R, s.isRange = true) ∧ ∀ s ∈ B, s.isAll = true := by
  show contigRow true false false S = true ↔ _
  induction S with
  | nil =>
    simp only [contigRow, true_iff]
    exact ⟨[], [], [], rfl, by simp, by simp, by simp, by simp⟩
  | cons s S ih =>
    simp only [contigRow, Bool.false_or, Bool.true_and, Bool.not_false]
    constructor
    · intro h
      cases ha : s.isAll with
      | true =>
        rw [ha] at h
        simp only [if_true, contigRow_allSeen] at h
        exact ⟨[], [], s :: S, rfl, by simp, by simp, by simp, by simpa [ha] using h⟩
      | false =>
        rw [ha] at h
        simp only [Bool.false_eq_true, if_false] at h
        cases hr : s.isRange with
        | true =>
          rw [hr] at h
          simp only [Bool.or_true, contigRow_rangeSeen] at h
          exact ⟨[], [s], S, rfl, by simp, by simp, by simpa using hr, h⟩
        | false =>
          rw [hr] at h
          cases hi : s.isInt with
          | false => rw [hi] at h; simp [contigRow_false] at h
          | true =>
            rw [hi] at h
            obtain ⟨A, R, B, h1, h2, h3, h4, h5⟩ := ih.1 h
            exact ⟨s :: A, R, B, by simp [h1], by simpa [hi] using h2, h3, h4, h5⟩
    · rintro ⟨A, R, B, h1, h2, h3, h4, h5⟩
      cases A with
      | cons a A =>
        simp only [List.cons_append, List.cons.injEq] at h1
        obtain ⟨rfl, rfl⟩ := h1
        have hi : s.isInt = true := h2 s (by simp)
        have ha : s.isAll = false := by cases s <;> simp_all [Sl.isAll, Sl.isInt]
        have hr : s.isRange = false := by cases s <;> simp_all [Sl.isRange, Sl.isInt]
        rw [ha, hr, hi]
        exact ih.2 ⟨A, R, B, rfl, fun t ht => h2 t (by simp [ht]), h3, h4, h5⟩
      | nil =>
        cases R with
        | cons r R =>
          have hR : R = [] := by
            cases R with
            | nil => rfl
            | cons _ _ => simp at h3
          subst hR
          simp only [List.nil_append, List.cons_append, List.cons.injEq] at h1
          obtain ⟨rfl, rfl⟩ := h1
          have hr : s.isRange = true := h4 s (by simp)
          have ha : s.isAll = false := by cases s <;> simp_all [Sl.isAll, Sl.isRange]
          rw [ha, hr]
          simpa [contigRow_rangeSeen] using h5
        | nil =>
          simp only [List.nil_append] at h1
          subst h1
          have ha : s.isAll = true := h5 s (by simp)
          rw [ha]
          simp only [if_true, contigRow_allSeen]
          exact fun t ht => h5 t (by simp [ht])

/-- Column-major: `all()`s, then at most one range, then integers, one slice for every axis of an
expression whose number of axes is known at compile time. -/
theorem C80_column_pattern (sdim : Option Nat) (S : List Sl) :
    isContiguousView .column_major sdim S = true ↔
      sdim = some S.length ∧
      ∃ A R B, S = A ++ R ++ B ∧ (∀ s ∈ A, s.isAll = true) ∧ R.length ≤ 1 ∧
        (∀ s ∈ R, s.isRange = true) ∧ ∀ s ∈ B, s.isInt = true := by
  show (sdim == some S.length && contigCol true false false S) = true ↔ _
  rw [Bool.and_eq_true, beq_iff_eq]
  refine and_congr_right fun _ => ?_
  clear * -
  induction S with
  | nil =>
    simp only [contigCol, true_iff]
    exact ⟨[], [], [], rfl, by simp, by simp, by simp, by simp⟩
  | cons s S ih =>
    simp only [contigCol, Bool.false_or, Bool.true_and, Bool.not_false, Bool.or_false]
    constructor
    · intro h
      cases hi : s.isInt with
      | true =>
        rw [hi] at h
        simp only [if_true, contigCol_intSeen] at h
        exact ⟨[], [], s :: S, rfl, by simp, by simp, by simp, by simpa [hi] using h⟩
      | false =>
        rw [hi] at h
        simp only [Bool.false_eq_true, if_false] at h
        cases hr : s.isRange with
        | true =>
          rw [hr] at h
          simp only [Bool.or_true, contigCol_rangeSeen] at h
          exact ⟨[], [s], S, rfl, by simp, by simp, by simpa using hr, h⟩
        | false =>
          rw [hr] at h
          cases ha : s.isAll with
          | false => rw [ha] at h; simp [contigCol_false] at h
          | true =>
            rw [ha] at h
            obtain ⟨A, R, B, h1, h2, h3, h4, h5⟩ := ih.1 h
            exact ⟨s :: A, R, B, by simp [h1], by simpa [ha] using h2, h3, h4, h5⟩
    · rintro ⟨A, R, B, h1, h2, h3, h4, h5⟩
      cases A with
      | cons a A =>
        simp only [List.cons_append, List.cons.injEq] at h1
        obtain ⟨rfl, rfl⟩ := h1
        have ha : s.isAll = true := h2 s (by simp)
        rw [isAll_not_int ha, isAll_not_range ha, ha]
        exact ih.2 ⟨A, R, B, rfl, fun t ht => h2 t (by simp [ht]), h3, h4, h5⟩
      | nil =>
        cases R with
        | cons r R =>
          have hR : R = [] := by
            cases R with
            | nil => rfl
            | cons _ _ => simp at h3
          subst hR
          simp only [List.nil_append, List.cons_append, List.cons.injEq] at h1
          obtain ⟨rfl, rfl⟩ := h1
          have hr : s.isRange = true := h4 s (by simp)
          rw [isRange_not_int hr, hr]
          simpa [contigCol_rangeSeen] using h5
        | nil =>
          simp only [List.nil_append] at h1
          subst h1
          have hi : s.isInt = true := h5 s (by simp)
          rw [hi]
          simp only [if_true, contigCol_intSeen]
          exact fun t ht => h5 t (by simp [ht])

example : isContiguousView .row_major none [.int 1, .range 2 3, .all 4] = true ∧
    isContiguousView .row_major none [.all 4, .int 1] = false ∧
    isContiguousView .column_major (some 3) [.all 4, .range 0 2, .int 1] = true ∧
    isContiguousView .column_major none [.all 4, .range 0 2, .int 1] = false := by decide

/-! ### What the selection does to ranks -/

/-- Row-major strides before extents of 1 are given stride 0. -/
def plainRow : List Nat → List Int
  | [] => []
  | _ :: sh => (numel sh : Int) :: plainRow sh

/-- Column-major strides before extents of 1 are given stride 0. -/
def plainCol (ds : Int) : List Nat → List Int
  | [] => []
  | n :: sh => ds :: plainCol (ds * n) sh

theorem dot_plainRow {sh idx : List Nat} (h : InBounds sh idx) :
    dot (plainRow sh) (toInts idx) = (rowRank sh idx : Int) := by
  induction sh generalizing idx with
  | nil => cases idx <;> simp [plainRow, toInts, dot]
  | cons n sh ih =>
    cases idx with
    | nil => exact h.elim
    | cons i is => simp [plainRow, ih h.2]

theorem dot_plainCol {sh idx : List Nat} (ds : Int) (h : InBounds sh idx) :
    dot (plainCol ds sh) (toInts idx) = ds * (colRank sh idx : Int) := by
  induction sh generalizing idx ds with
  | nil => cases idx <;> simp [plainCol, toInts, dot]
  | cons n sh ih =>
    cases idx with
    | nil => exact h.elim
    | cons i is =>
      simp only [plainCol, toInts_cons, dot_cons, ih _ h.2, colRank_cons]
      push_cast; ring

theorem isInt_of {n : Nat} {u : USlice} {s : Sl} (hs : SliceOk n u s) (h : s.isInt = true) : IsInt u :=
  hs.isInt.1 h

theorem not_isInt_of {n : Nat} {u : USlice} {s : Sl} (hs : SliceOk n u s) (h : s.isInt = false) : ¬ IsInt u :=
  fun h' => by rw [hs.isInt.2 h'] at h; cases h

theorem sel_alls {sh : List Nat} {us : List USlice} {S : List Sl} (hb : BoundGet sh us S)
    (h : ∀ s ∈ S, s.isAll = true) :
    selShape sh us = sh ∧ ∀ idx, InBounds sh idx → selIndex sh us idx = toInts idx := by
  induction hb with
  | nil sh => exact ⟨rfl, fun _ _ => rfl⟩
  | new _ _ => exact absurd (h .newaxis (by simp)) (by simp [Sl.isAll])
  | @cons n sh u us s S hu hg hs hb ih =>
    obtain ⟨h1, h2⟩ := ih fun t ht => h t (by simp [ht])
    obtain ⟨h3, h4⟩ := all_slice hg hs (h s (by simp))
    have hni := not_isInt_of hs (isAll_not_int (h s (by simp)))
    refine ⟨by rw [selShape_cons hu hni, h3, h1], fun idx hi => ?_⟩
    cases idx with
    | nil => exact hi.elim
    | cons i is => rw [selIndex_cons hu hni, h4 i hi.1, h2 is hi.2]; rfl

theorem rank_row {sh : List Nat} {us : List USlice} {S : List Sl} (hb : BoundGet sh us S)
    (h : contigRow true false false S = true) :
    ∃ c : Int, ∀ idx, InBounds (selShape sh us) idx →
      dot (plainRow sh) (selIndex sh us idx) = c + (rowRank (selShape sh us) idx : Int) := by
  induction hb with
  | nil sh => exact ⟨0, fun idx hi => by rw [Int.zero_add]; exact dot_plainRow hi⟩
  | new _ _ => simp [contigRow, contigRow_false, Sl.isAll, Sl.isInt, Sl.isRange] at h
  | @cons n sh u us s S hu hg hs hb ih =>
    simp only [contigRow, Bool.false_or, Bool.true_and, Bool.not_false] at h
    cases ha : s.isAll with
    | true =>
      rw [ha] at h
      simp only [if_true, contigRow_allSeen] at h
      have hall : ∀ t ∈ s :: S, t.isAll = true := by simpa [ha] using h
      obtain ⟨h1, h2⟩ := sel_alls (.cons hu hg hs hb) hall
      refine ⟨0, fun idx hi => ?_⟩
      rw [h1] at hi ⊢
      rw [h2 idx hi, Int.zero_add]
      exact dot_plainRow hi
    | false =>
      rw [ha] at h
      simp only [Bool.false_eq_true, if_false] at h
      cases hr : s.isRange with
      | true =>
        rw [hr] at h
        simp only [Bool.or_true, contigRow_rangeSeen] at h
        obtain ⟨h1, h2⟩ := sel_alls hb h
        obtain ⟨b, hv⟩ := range_slice hs hr
        have hni := not_isInt_of hs (isRange_not_int hr)
        refine ⟨b * numel sh, fun idx hi => ?_⟩
        rw [selShape_cons hu hni, h1] at hi ⊢
        cases idx with
        | nil => exact hi.elim
        | cons i is =>
          rw [selIndex_cons hu hni, hv i hi.1, h2 is hi.2]
          simp only [plainRow, dot_cons, dot_plainRow hi.2, rowRank_cons]
          push_cast; ring
      | false =>
        rw [hr] at h
        cases hi : s.isInt with
        | false => rw [hi] at h; simp [contigRow_false] at h
        | true =>
          rw [hi] at h
          obtain ⟨c, hc⟩ := ih h
          obtain ⟨i, rfl⟩ := isInt_of hs hi
          refine ⟨pyIndex n i * numel sh + c, fun idx hb' => ?_⟩
          simp only [selShape, selIndex, plainRow, dot_cons] at hb' ⊢
          rw [hc idx hb']
          ring

theorem sel_ints {sh : List Nat} {us : List USlice} {S : List Sl} (hb : BoundGet sh us S)
    (hl : us.length = sh.length) (h : ∀ s ∈ S, s.isInt = true) : selShape sh us = [] := by
  induction hb with
  | nil sh => simpa [selShape, eq_comm] using hl
  | new _ _ => exact absurd (h .newaxis (by simp)) (by simp [Sl.isInt])
  | @cons n sh u us s S hu hg hs hb ih =>
    obtain ⟨i, rfl⟩ := isInt_of hs (h s (by simp))
    exact ih (by simpa using hl) fun t ht => h t (by simp [ht])

theorem rank_col {sh : List Nat} {us : List USlice} {S : List Sl} (hb : BoundGet sh us S)
    (hl : us.length = sh.length) (h : contigCol true false false S = true) (ds : Int) :
    ∃ c : Int, ∀ idx, InBounds (selShape sh us) idx →
      dot (plainCol ds sh) (selIndex sh us idx) = c + ds * (colRank (selShape sh us) idx : Int) := by
  induction hb generalizing ds with
  | nil sh => exact ⟨0, fun idx hi => by rw [Int.zero_add]; exact dot_plainCol ds hi⟩
  | new _ _ => simp [contigCol, contigCol_false, Sl.isAll, Sl.isInt, Sl.isRange] at h
  | @cons n sh u us s S hu hg hs hb ih =>
    simp only [contigCol, Bool.false_or, Bool.true_and, Bool.not_false, Bool.or_false] at h
    have hl' : us.length = sh.length := by simpa using hl
    cases hi : s.isInt with
    | true =>
      rw [hi] at h
      simp only [if_true, contigCol_intSeen] at h
      have hsh := sel_ints (.cons hu hg hs hb) hl (by simpa [hi] using h)
      refine ⟨dot (plainCol ds (n :: sh)) (selIndex (n :: sh) (u :: us) []), fun idx hb' => ?_⟩
      rw [hsh] at hb' ⊢
      cases idx with
      | nil => simp
      | cons _ _ => exact hb'.elim
    | false =>
      rw [hi] at h
      simp only [Bool.false_eq_true, if_false] at h
      have hni := not_isInt_of hs hi
      cases hr : s.isRange with
      | true =>
        rw [hr] at h
        simp only [Bool.or_true, contigCol_rangeSeen] at h
        have hsh := sel_ints hb hl' h
        obtain ⟨b, hv⟩ := range_slice hs hr
        refine ⟨b * ds + dot (plainCol (ds * n) sh) (selIndex sh us []), fun idx hb' => ?_⟩
        rw [selShape_cons hu hni, hsh] at hb' ⊢
        match idx, hb' with
        | [i], hb' =>
          rw [selIndex_cons hu hni, hv i hb'.1]
          simp only [plainCol, dot_cons, colRank_cons, colRank_nil_left]
          push_cast; ring
      | false =>
        rw [hr] at h
        cases ha : s.isAll with
        | false => rw [ha] at h; simp [contigCol_false] at h
        | true =>
          rw [ha] at h
          obtain ⟨c, hc⟩ := ih hl' h (ds * n)
          obtain ⟨h3, h4⟩ := all_slice hg hs ha
          refine ⟨c, fun idx hb' => ?_⟩
          rw [selShape_cons hu hni, h3] at hb' ⊢
          cases idx with
          | nil => exact hb'.elim
          | cons i is =>
            rw [selIndex_cons hu hni, h4 i hb'.1]
            simp only [plainCol, dot_cons, colRank_cons, hc is hb'.2]
            push_cast; ring

/-! ### Strides and shape taken over from the expression below -/

theorem recStrides_alls (S : List Sl) (pst : List Int) (hl : S.length ≤ pst.length)
    (h : ∀ s ∈ S, s.isAll = true) : recStrides S pst = pst := by
  induction S generalizing pst with
  | nil => cases pst <;> rfl
  | cons s S ih =>
    cases pst with
    | nil => simp at hl
    | cons p pst =>
      cases s with
      | all m =>
        show (Sl.all m).stepSize 1 1 * p :: recStrides S pst = _
        rw [ih pst (by simpa using hl) fun t ht => h t (by simp [ht])]
        simp [Sl.stepSize]
      | _ => exact absurd (h _ (List.mem_cons_self ..)) (by simp [Sl.isAll])

theorem recStrides_ints (S : List Sl) (pst : List Int) (hl : S.length ≤ pst.length)
    (h : ∀ s ∈ S, s.isInt = true) : recStrides S pst = pst.drop S.length := by
  induction S generalizing pst with
  | nil => cases pst <;> rfl
  | cons s S ih =>
    cases pst with
    | nil => simp at hl
    | cons p pst =>
      cases s with
      | int m =>
        show recStrides S pst = _
        rw [ih pst (by simpa using hl) fun t ht => h t (by simp [ht])]
        rfl
      | _ => exact absurd (h _ (List.mem_cons_self ..)) (by simp [Sl.isInt])

theorem recStrides_ints_alls (A B : List Sl) (pst : List Int) (hl : (A ++ B).length ≤ pst.length)
    (hA : ∀ s ∈ A, s.isInt = true) (hB : ∀ s ∈ B, s.isAll = true) :
    recStrides (A ++ B) pst = pst.drop A.length := by
  induction A generalizing pst with
  | nil => exact recStrides_alls B pst (by simpa using hl) hB
  | cons s A ih =>
    cases pst with
    | nil => simp at hl
    | cons p pst =>
      cases s with
      | int m => exact ih pst (by simpa using hl) fun t ht => hA t (by simp [ht])
      | _ => exact absurd (hA _ (List.mem_cons_self ..)) (by simp [Sl.isInt])

theorem recStrides_alls_ints (A B : List Sl) (pst : List Int) (hl : (A ++ B).length = pst.length)
    (hA : ∀ s ∈ A, s.isAll = true) (hB : ∀ s ∈ B, s.isInt = true) :
    recStrides (A ++ B) pst = pst.take A.length := by
  induction A generalizing pst with
  | nil =>
    have : B.length = pst.length := by simpa using hl
    rw [List.nil_append, recStrides_ints B pst (by omega) hB, this]
    simp
  | cons s A ih =>
    cases pst with
    | nil => simp at hl
    | cons p pst =>
      cases s with
      | all m =>
        show (Sl.all m).stepSize 1 1 * p :: recStrides (A ++ B) pst = _
        rw [ih pst (by simpa using hl) fun t ht => hA t (by simp [ht])]
        simp [Sl.stepSize]
      | _ => exact absurd (hA _ (List.mem_cons_self ..)) (by simp [Sl.isAll])

theorem integralCount_ints {A : List Sl} (h : ∀ s ∈ A, s.isInt = true) : integralCount A = A.length := by
  simpa [integralCount, List.countP_eq_length] using h

theorem integralCount_alls {A : List Sl} (h : ∀ s ∈ A, s.isAll = true) : integralCount A = 0 := by
  simp only [integralCount, List.countP_eq_zero]
  intro s hs
  simp [isAll_not_int (h s hs)]

theorem integralCount_append (A B : List Sl) :
    integralCount (A ++ B) = integralCount A + integralCount B := by simp [integralCount]

theorem no_range {R : List Sl} {S : List Sl} (hS : S.any Sl.isRange = false) (hR : ∀ s ∈ R, s ∈ S)
    (h : ∀ s ∈ R, s.isRange = true) : R = [] := by
  cases R with
  | nil => rfl
  | cons r R =>
    have := List.any_eq_false.1 hS r (hR r (by simp))
    exact absurd (h r (by simp)) this

theorem withoutInts_strides {L : Layout} {sdim : Option Nat} {S : List Sl} {pst : List Int}
    (hL : L = .row_major ∨ L = .column_major) (h : trivialStrides L sdim S = true)
    (hsd : sdim = none ∨ sdim = some pst.length) (hl : S.length ≤ pst.length) :
    withoutInts L S pst = recStrides S pst := by
  simp only [trivialStrides, Bool.and_eq_true, Bool.not_eq_true'] at h
  rcases hL with rfl | rfl
  · obtain ⟨A, R, B, rfl, hA, -, hR, hB⟩ := (C80_row_pattern sdim S).1 h.1
    have := no_range h.2 (fun s hs => by simp [hs]) hR
    subst this
    simp only [List.append_nil] at *
    rw [recStrides_ints_alls A B pst hl hA hB]
    simp [withoutInts, integralCount_append, integralCount_ints hA, integralCount_alls hB]
  · obtain ⟨hd, A, R, B, rfl, hA, -, hR, hB⟩ := (C80_column_pattern sdim S).1 h.1
    have := no_range h.2 (fun s hs => by simp [hs]) hR
    subst this
    simp only [List.append_nil] at *
    have hlen : (A ++ B).length = pst.length := by
      rcases hsd with hn | hn
      · rw [hn] at hd; cases hd
      · rw [hn] at hd; simpa using hd.symm
    rw [recStrides_alls_ints A B pst hlen hA hB]
    have : pst.length - integralCount (A ++ B) = A.length := by
      rw [integralCount_append, integralCount_ints hB, integralCount_alls hA, ← hlen]
      simp
    simp [withoutInts, this]

theorem sel_ints_drop {sh : List Nat} {us : List USlice} {S : List Sl} (hb : BoundGet sh us S)
    (h : contigRow true false false S = true) (hr : S.any Sl.isRange = false) :
    selShape sh us = sh.drop (integralCount S) := by
  induction hb with
  | nil sh => simp [selShape, integralCount]
  | new _ _ => simp [contigRow, contigRow_false, Sl.isAll, Sl.isInt, Sl.isRange] at h
  | @cons n sh u us s S hu hg hs hb ih =>
    simp only [List.any_cons, Bool.or_eq_false_iff] at hr
    simp only [contigRow, Bool.false_or, Bool.true_and, Bool.not_false, hr.1, Bool.or_false] at h
    cases ha : s.isAll with
    | true =>
      rw [ha] at h
      simp only [if_true, contigRow_allSeen] at h
      have hall : ∀ t ∈ s :: S, t.isAll = true := by simpa [ha] using h
      rw [(sel_alls (.cons hu hg hs hb) hall).1, integralCount_alls hall, List.drop_zero]
    | false =>
      rw [ha] at h
      cases hi : s.isInt with
      | false => rw [hi] at h; simp [contigRow_false] at h
      | true =>
        rw [hi] at h
        obtain ⟨i, rfl⟩ := isInt_of hs hi
        rw [show integralCount (s :: S) = integralCount S + 1 by simp [integralCount, hi]]
        exact ih h hr.2

theorem sel_ints_take {sh : List Nat} {us : List USlice} {S : List Sl} (hb : BoundGet sh us S)
    (hl : us.length = sh.length) (h : contigCol true false false S = true)
    (hr : S.any Sl.isRange = false) :
    selShape sh us = sh.take (sh.length - integralCount S) := by
  induction hb with
  | nil sh => simp [selShape, integralCount]
  | new _ _ => simp [contigCol, contigCol_false, Sl.isAll, Sl.isInt, Sl.isRange] at h
  | @cons n sh u us s S hu hg hs hb ih =>
    have hl' : us.length = sh.length := by simpa using hl
    simp only [List.any_cons, Bool.or_eq_false_iff] at hr
    simp only [contigCol, Bool.false_or, Bool.true_and, Bool.not_false, hr.1, Bool.or_false] at h
    cases hi : s.isInt with
    | true =>
      rw [hi] at h
      simp only [if_true, contigCol_intSeen] at h
      have hall : ∀ t ∈ s :: S, t.isInt = true := by simpa [hi] using h
      rw [sel_ints (.cons hu hg hs hb) hl hall, integralCount_ints hall]
      have : (s :: S).length = (n :: sh).length := by
        rw [(BoundGet.cons hu hg hs hb).length, hl]
      rw [this]
      simp
    | false =>
      rw [hi] at h
      cases ha : s.isAll with
      | false => rw [ha] at h; simp [contigCol_false] at h
      | true =>
        rw [ha] at h
        obtain ⟨h3, -⟩ := all_slice hg hs ha
        rw [selShape_cons hu (not_isInt_of hs hi), h3, ih hl' h hr.2]
        have h4 : integralCount (s :: S) = integralCount S := by simp [integralCount, hi]
        have h5 : integralCount S ≤ sh.length := by
          rw [← hl', ← hb.length]; exact List.countP_le_length
        rw [h4, List.length_cons, show sh.length + 1 - integralCount S = (sh.length - integralCount S) + 1 by omega,
          List.take_succ_cons]

theorem withoutInts_shape {L : Layout} {sdim : Option Nat} {sh : List Nat} {us : List USlice} {S : List Sl}
    (hL : L = .row_major ∨ L = .column_major) (hb : BoundGet sh us S)
    (h : trivialStrides L sdim S = true) (hsd : sdim = none ∨ sdim = some sh.length) :
    withoutInts L S sh = selShape sh us := by
  simp only [trivialStrides, Bool.and_eq_true, Bool.not_eq_true'] at h
  rcases hL with rfl | rfl
  · rw [sel_ints_drop hb h.1 h.2]; simp [withoutInts]
  · have h1 := h.1
    simp only [isContiguousView, Bool.and_eq_true, beq_iff_eq] at h1
    have hl : us.length = sh.length := by
      rcases hsd with hn | hn
      · rw [hn] at h1; cases h1.1
      · rw [hn] at h1
        have := h1.1
        rw [hb.length] at this
        simpa using this.symm
    rw [sel_ints_take hb hl h1.2 h.2]; simp [withoutInts]

theorem adapt_id {sh : List Nat} {st : List Int} (hl : st.length = sh.length)
    (hu : ∀ k : Nat, sh.getD k 0 = 1 → st.getD k 0 = 0) :
    List.zipWith (fun (s : Int) x => if s = 1 then 0 else x) (toInts sh) st = st := by
  induction sh generalizing st with
  | nil => cases st <;> simp_all [toInts]
  | cons n sh ih =>
    cases st with
    | nil => simp at hl
    | cons x st =>
      have h1 := ih (st := st) (by simpa using hl) fun k hk => by simpa using hu (k + 1) (by simpa using hk)
      rw [toInts_cons, List.zipWith_cons_cons, h1]
      congr 1
      by_cases h : (n : Int) = 1
      · have := hu 0 (by simpa using by exact_mod_cast h)
        simp [h]
        simpa using this.symm
      · simp [h]

/-! ### One more view -/

/-- The elements are stored in the order of `L`, without gaps. -/
def Solid (L : Layout) (v : MView) : Prop := (L = .row_major ∨ L = .column_major) ∧ Contig L v.arr

/-- What containers and their views keep true. -/
structure MView.Ok (v : MView) : Prop where
  wf : v.arr.WF
  distinct : Distinct v.arr
  slay : v.slay = .dynamic ∨ Solid v.slay v
  lay : v.lay = .dynamic ∨ Solid v.lay v
  sdim : v.sdim = none ∨ v.sdim = some v.shape.length

theorem noRepeats_of_strided {sh : List Nat} {us : List USlice} (hv : SlicesValid sh us)
    (hs : AllStrided us) : NoRepeats sh us := by
  induction us generalizing sh with
  | nil => cases sh <;> trivial
  | cons u us ih =>
    have hs' : AllStrided us := fun t ht => hs t (by simp [ht])
    cases sh with
    | nil =>
      cases u <;> first | exact ih (sh := []) hv hs' | trivial
    | cons n sh =>
      cases u with
      | newaxis => exact ih (sh := n :: sh) hv hs'
      | int i => exact ⟨by simp [axisSel], ih hv.2 hs'⟩
      | range a b k =>
        refine ⟨axisSel_range_nodup n a b k ?_, ih hv.2 hs'⟩
        cases k with
        | none => simp
        | some k => have := hv.1.1; simpa using this
      | all => exact ⟨by simpa [axisSel] using List.Nodup.map (fun a b h => by simpa using h) List.nodup_range, ih hv.2 hs'⟩
      | ellipsis => exact hv.1.elim
      | keep l => exact absurd rfl ((hs (.keep l) (by simp)).1 l)
      | drop l => exact absurd rfl ((hs (.drop l) (by simp)).2 l)

theorem viewStrides_wf (sh : List Nat) (us : List USlice) (hv : SlicesValid sh us)
    (hstr : AllStrided us) (pst : List Int) (hp : pst.length = sh.length) (S : List Sl)
    (hS : makeView sh us = .ok S) (off : Int) :
    (StridedArr.mk' (selShape sh us) (viewStrides sh pst S) off).WF := by
  obtain ⟨S2, hS2, hlen, -⟩ := C19_view_strides sh us hv hstr pst hp
  obtain ⟨S1, hS1, hunit⟩ := C19_view_unit_stride sh us hv pst hp
  rw [hS] at hS1 hS2
  cases hS1; cases hS2
  refine ⟨hlen, fun k hk => ?_, StridedArr.mk'_back _ _ _ hlen⟩
  have hk : (selShape sh us).getD k 0 = 1 := hk
  show (viewStrides sh pst S).getD k 0 = 0
  have hg : (selShape sh us)[k]? = some 1 := by
    rw [List.getD_eq_getElem?_getD] at hk
    cases h : (selShape sh us)[k]? with
    | none => rw [h] at hk; simp at hk
    | some x => rw [h] at hk; simpa using hk
  rw [List.getD_eq_getElem?_getD, hunit k hg]; rfl

theorem solid_of_offset {L : Layout} (hL : L = .row_major ∨ L = .column_major) {sh : List Nat}
    {st : List Int} (hl : st.length = sh.length) {c : Int}
    (h : ∀ idx, InBounds sh idx → dot st (toInts idx) = c + (rankIn L sh idx : Int)) :
    ∀ idx, InBounds sh idx → dot st (toInts idx) = (rankIn L sh idx : Int) := by
  intro idx hi
  have h0 : 0 ∉ sh := by
    intro h0
    have : numel sh = 0 := by
      clear * - h0
      induction sh with
      | nil => simp at h0
      | cons n sh ih =>
        rcases List.mem_cons.1 h0 with h | h
        · simp [numel_cons, ← h]
        · simp [numel_cons, ih h]
    have := rankIn_lt (L := L) hi
    omega
  have hz := h _ (zeros_inBounds h0)
  have hc : c = 0 := by
    have hr : rankIn L sh (List.replicate sh.length 0) = 0 := by
      rcases hL with rfl | rfl
      · exact rowRank_zeros sh _
      · exact colRank_zeros sh _
    rw [hr, toInts_replicate, dot_replicate_zero] at hz
    omega
  rw [h idx hi, hc]; omega

/-- The strides, shape and layout of a view of `p` describe the selected elements of `p`. -/
theorem view_ok {p : MView} (hp : p.Ok) {us : List USlice} (hv : SlicesValid p.shape us)
    (hs : AllStrided us) (hle : us.length ≤ p.shape.length) :
    ∃ S, makeView p.shape us = .ok S ∧ (p.view S).Ok ∧ (p.view S).shape = selShape p.shape us ∧
      ∀ idx, InBounds (selShape p.shape us) idx →
        addr (p.view S).arr idx = p.off + dot p.strides (selIndex p.shape us idx) := by
  obtain ⟨S, hS, hbg⟩ := makeView_boundGet hv
  have hb := hbg.bound
  have hlen : p.strides.length = p.shape.length := hp.wf.len
  have hunit : ∀ k : Nat, p.shape.getD k 0 = 1 → p.strides.getD k 0 = 0 := hp.wf.unit
  have hSl : S.length ≤ p.shape.length := by rw [hbg.length]; exact hle
  have hsl : ∀ {x}, p.slay = x → x ≠ .dynamic → Solid x p := by
    intro x hx hd
    rcases hp.slay with h | h
    · rw [h] at hx; exact absurd hx.symm hd
    · exact hx ▸ h
  have hcl : isContiguousView p.slay p.sdim S = true → p.slay ≠ .dynamic := by
    intro h h'
    rw [h'] at h; cases h
  have htriv : trivialStrides p.slay p.sdim S = true → p.slay ≠ .dynamic := fun h =>
    hcl (by simp only [trivialStrides, Bool.and_eq_true] at h; exact h.1)
  -- shape and strides
  have hshape : (p.view S).shape = selShape p.shape us := by
    show (if trivialStrides p.slay p.sdim S = true then _ else _) = _
    by_cases ht : trivialStrides p.slay p.sdim S = true
    · rw [if_pos ht]
      exact withoutInts_shape (hsl rfl (htriv ht)).1 hbg ht hp.sdim
    · rw [if_neg ht, viewShape_eq hb, map_toNat_toInts]
  have hwf0 := viewStrides_wf p.shape us hv hs p.strides hlen S hS (p.view S).off
  have hstr : (p.view S).strides = viewStrides p.shape p.strides S := by
    show (if trivialStrides p.slay p.sdim S = true then _ else _) = _
    by_cases ht : trivialStrides p.slay p.sdim S = true
    · rw [if_pos ht]
      have h1 := withoutInts_strides (pst := p.strides) (hsl rfl (htriv ht)).1 ht
        (by rw [hlen]; exact hp.sdim) (by rw [hlen]; exact hSl)
      have h2 := withoutInts_shape (hsl rfl (htriv ht)).1 hbg ht hp.sdim
      rw [viewStrides, viewShape_eq hb, viewRawStrides_eq hb p.strides hlen, ← h1, ← h2]
      refine (adapt_id ?_ ?_).symm
      · unfold withoutInts; split <;> simp [hlen]
      · intro k hk
        unfold withoutInts at hk ⊢
        split at hk
        · rename_i hr
          rw [if_pos hr]
          simp only [List.getD_eq_getElem?_getD, List.getElem?_drop] at hk ⊢
          have := hunit (integralCount S + k) (by simpa [List.getD_eq_getElem?_getD] using hk)
          simpa [List.getD_eq_getElem?_getD] using this
        · rename_i hr
          rw [if_neg hr]
          simp only [List.getD_eq_getElem?_getD, List.getElem?_take] at hk ⊢
          split at hk
          · rename_i hlt
            rw [if_pos (by rw [hlen]; exact hlt)]
            have := hunit k (by simpa [List.getD_eq_getElem?_getD] using hk)
            simpa [List.getD_eq_getElem?_getD] using this
          · simp at hk
    · rw [if_neg ht]
  have harr : (p.view S).arr = StridedArr.mk' (selShape p.shape us) (viewStrides p.shape p.strides S)
      (p.view S).off := by
    unfold MView.arr; rw [hshape, hstr]
  have haddr : ∀ idx, InBounds (selShape p.shape us) idx →
      addr (p.view S).arr idx = p.off + dot p.strides (selIndex p.shape us idx) := by
    intro idx hi
    obtain ⟨S1, hS1, hadd⟩ := C19_view_address p.shape us hv hs p.strides p.off hlen hle
    rw [hS] at hS1
    cases hS1
    rw [harr]
    exact hadd idx hi
  have hslen : (viewStrides p.shape p.strides S).length = (selShape p.shape us).length := hwf0.len
  -- contiguous by the types
  have hcont : isContiguousView p.slay p.sdim S = true → Solid p.slay (p.view S) := by
    intro hc
    obtain ⟨hL, hC⟩ := hsl rfl (hcl hc)
    refine ⟨hL, ?_⟩
    rw [harr]
    show ∀ idx, InBounds (selShape p.shape us) idx →
      dot (viewStrides p.shape p.strides S) (toInts idx) = (rankIn p.slay (selShape p.shape us) idx : Int)
    obtain ⟨c, hc'⟩ : ∃ c : Int, ∀ idx, InBounds (selShape p.shape us) idx →
        dot p.strides (selIndex p.shape us idx) = c + (rankIn p.slay (selShape p.shape us) idx : Int) := by
      rcases hL with hL | hL
      · rw [hL] at hc
        obtain ⟨c, h1⟩ := rank_row hbg hc
        refine ⟨c, fun idx hi => ?_⟩
        obtain ⟨q, hq, he⟩ := selIndex_bounds hb hi
        have h2 := hC q hq
        have h3 := h1 idx hi
        rw [he] at h3 ⊢
        rw [dot_plainRow hq] at h3
        rw [hL] at h2 ⊢
        exact Eq.trans h2 h3
      · rw [hL] at hc
        simp only [isContiguousView, Bool.and_eq_true, beq_iff_eq] at hc
        have hl : us.length = p.shape.length := by
          rcases hp.sdim with hn | hn
          · rw [hn] at hc; cases hc.1
          · rw [hn] at hc
            have := hc.1
            rw [hbg.length] at this
            simpa using this.symm
        obtain ⟨c, h1⟩ := rank_col hbg hl hc.2 1
        refine ⟨c, fun idx hi => ?_⟩
        obtain ⟨q, hq, he⟩ := selIndex_bounds hb hi
        have h2 := hC q hq
        have h3 := h1 idx hi
        rw [he] at h3 ⊢
        rw [dot_plainCol 1 hq, Int.one_mul, Int.one_mul] at h3
        rw [hL] at h2 ⊢
        exact Eq.trans h2 h3
    refine solid_of_offset hL hslen (c := p.off + c - (p.view S).off) fun idx hi => ?_
    have h1 := haddr idx hi
    rw [harr, hc' idx hi] at h1
    have h2 : (p.view S).off + dot (viewStrides p.shape p.strides S) (toInts idx) =
        p.off + (c + (rankIn p.slay (selShape p.shape us) idx : Int)) := h1
    omega
  have hslay : (p.view S).slay = .dynamic ∨ Solid (p.view S).slay (p.view S) := by
    show (if isContiguousView p.slay p.sdim S = true then p.slay else .dynamic) = .dynamic ∨
      Solid (if isContiguousView p.slay p.sdim S = true then p.slay else .dynamic) _
    by_cases hc : isContiguousView p.slay p.sdim S = true
    · rw [if_pos hc]; exact .inr (hcont hc)
    · rw [if_neg hc]; exact .inl rfl
  refine ⟨S, hS, ⟨by rw [harr]; exact hwf0, ?_, hslay, ?_, ?_⟩, hshape, haddr⟩
  · intro i j hi hj he
    have hi : InBounds (p.view S).shape i := hi
    have hj : InBounds (p.view S).shape j := hj
    rw [hshape] at hi hj
    rw [haddr i hi, haddr j hj] at he
    obtain ⟨q, hq, hqe⟩ := selIndex_bounds hb hi
    obtain ⟨r, hr, hre⟩ := selIndex_bounds hb hj
    rw [hqe, hre] at he
    have hqr : q = r := hp.distinct q r hq hr he
    exact C18_view_injective p.shape us hv (noRepeats_of_strided hv hs) i j hi hj (by rw [hqe, hre, hqr])
  · show (if (p.view S).slay ≠ .dynamic then (p.view S).slay else
        if doStridesMatch (p.view S).shape (p.view S).strides p.lay true = true then p.lay else .dynamic) = .dynamic ∨
      Solid (if (p.view S).slay ≠ .dynamic then (p.view S).slay else
        if doStridesMatch (p.view S).shape (p.view S).strides p.lay true = true then p.lay else .dynamic) _
    by_cases hd : (p.view S).slay ≠ .dynamic
    · rw [if_pos hd]
      rcases hslay with h | h
      · exact absurd h hd
      · exact .inr h
    · rw [if_neg hd]
      by_cases hm : doStridesMatch (p.view S).shape (p.view S).strides p.lay true = true
      · rw [if_pos hm]
        right
        have hl2 : (p.view S).strides.length = (p.view S).shape.length := by rw [hshape, hstr]; exact hslen
        obtain ⟨h1, h2⟩ := C13_contiguity_sound _ _ _ _ hl2 hm
        refine ⟨h1, fun idx hi => ?_⟩
        have hi' : InBounds (p.view S).shape idx := hi
        have := h2 idx hi'
        rw [dataOffset_eq _ _ (by simp [hl2, hi'.length_eq])] at this
        exact this
      · rw [if_neg hm]; exact .inl rfl
  · show p.sdim.map (· - integralCount S + newaxisCount S) = none ∨
      p.sdim.map (· - integralCount S + newaxisCount S) = some (p.view S).shape.length
    rcases hp.sdim with h | h
    · left; rw [h]; rfl
    · right
      rw [h, hshape, hb.selShape_length]; rfl

/-! ### Towers of views of a container -/

/-- Position, in the storage of a container of layout `l` and shape `sh`, of the element a tower of
views has at `idx`. -/
def Spec.towerPos (l : Layout) (sh : List Nat) (uss : List (List USlice)) (idx : List Nat) : Int :=
  (rankIn l sh ((towerIndex sh uss idx).map Int.toNat) : Int)

/-- The static layout of a container allows its layout. -/
def Spec.LayoutOf (L l : Layout) : Prop :=
  (l = .row_major ∨ l = .column_major) ∧ (L = l ∨ L = .dynamic)

/-- The static dimension, when there is one, is the number of axes. -/
def Spec.SdimOf (sdim : Option Nat) (sh : List Nat) : Prop := sdim = none ∨ sdim = some sh.length

theorem container_strides {L l : Layout} (h : LayoutOf L l) (sh : List Nat) :
    computeStrides L l sh = computeStrides l l sh := by
  obtain ⟨h1 | h1, h2 | h2⟩ := h <;> subst h1 <;> subst h2 <;> simp [computeStrides]

theorem container_arr {L l : Layout} (h : LayoutOf L l) (sh : List Nat) (sdim : Option Nat) :
    (MView.container L l sh sdim).arr = StridedArr.container l sh 0 := by
  unfold MView.arr MView.container StridedArr.container
  rw [container_strides h]

theorem container_lay {L l : Layout} (h : LayoutOf L l) (sh : List Nat) (sdim : Option Nat) :
    (MView.container L l sh sdim).lay = l := by
  show (if L = .dynamic then l else L) = l
  rcases h.2 with h2 | h2
  · subst h2; rcases h.1 with h | h <;> subst h <;> rfl
  · subst h2; rfl

theorem container_dok {L l : Layout} (h : LayoutOf L l) {sh : List Nat} {sdim : Option Nat}
    (hd : SdimOf sdim sh) : (MView.container L l sh sdim).Ok := by
  have hsol : Solid l (MView.container L l sh sdim) :=
    ⟨h.1, by rw [container_arr h]; exact container_contig h.1 sh 0⟩
  refine ⟨by rw [container_arr h]; exact container_wf sh 0,
    by rw [container_arr h]; exact container_distinct h.1 sh 0, ?_, ?_, hd⟩
  · show L = .dynamic ∨ Solid L _
    rcases h.2 with h2 | h2
    · subst h2; exact .inr hsol
    · exact .inl h2
  · rw [container_lay h]; exact .inr hsol

theorem tower_ok {p : MView} (hp : p.Ok) (uss : List (List USlice)) (hv : TowerStrided p.shape uss) :
    ∃ v, p.tower uss = .ok v ∧ v.Ok ∧ v.shape = towerShape p.shape uss ∧
      ∀ idx, InBounds (towerShape p.shape uss) idx →
        addr v.arr idx = p.off + dot p.strides (towerIndex p.shape uss idx) ∧
        ∃ q, InBounds p.shape q ∧ towerIndex p.shape uss idx = toInts q := by
  induction uss generalizing p with
  | nil => exact ⟨p, rfl, hp, rfl, fun idx hi => ⟨rfl, idx, hi, rfl⟩⟩
  | cons us uss ih =>
    obtain ⟨hv1, hs1, hle, hv2⟩ := hv
    obtain ⟨S, hS, hok, hsh, hadd⟩ := view_ok hp hv1 hs1 hle
    obtain ⟨S', hS', hb⟩ := makeView_ok hv1
    rw [hS] at hS'; cases hS'
    rw [← hsh] at hv2
    obtain ⟨v, hv, hvok, hvs, hall⟩ := ih hok hv2
    rw [hsh] at hvs hall
    refine ⟨v, ?_, hvok, hvs, fun idx hi => ?_⟩
    · show (makeView p.shape us).bind _ = _
      rw [hS]; exact hv
    · obtain ⟨h1, q, hq, he⟩ := hall idx hi
      show _ = p.off + dot p.strides (selIndex p.shape us ((towerIndex (selShape p.shape us) uss idx).map Int.toNat)) ∧
        ∃ r, InBounds p.shape r ∧ selIndex p.shape us ((towerIndex (selShape p.shape us) uss idx).map Int.toNat) = toInts r
      rw [he, map_toNat_toInts]
      refine ⟨?_, selIndex_bounds hb hq⟩
      rw [h1, he, ← hadd q hq]
      rfl

theorem container_tower {L l : Layout} (h : LayoutOf L l) {sh : List Nat} {sdim : Option Nat}
    (hd : SdimOf sdim sh) {uss : List (List USlice)} (hv : TowerStrided sh uss) :
    ∃ v, (MView.container L l sh sdim).tower uss = .ok v ∧ v.Ok ∧ v.shape = towerShape sh uss ∧
      ∀ idx, InBounds (towerShape sh uss) idx → addr v.arr idx = towerPos l sh uss idx ∧
        0 ≤ towerPos l sh uss idx ∧ towerPos l sh uss idx < numel sh := by
  obtain ⟨v, h1, h2, h3, h4⟩ := tower_ok (container_dok h hd) uss hv
  refine ⟨v, h1, h2, h3, fun idx hi => ?_⟩
  obtain ⟨h5, q, hq, he⟩ := h4 idx hi
  have hq : InBounds sh q := hq
  have he : towerIndex sh uss idx = toInts q := he
  have h6 : towerPos l sh uss idx = (rankIn l sh q : Int) := by
    unfold towerPos; rw [he, map_toNat_toInts]
  have h7 := rankIn_lt (L := l) hq
  refine ⟨?_, by rw [h6]; omega, by rw [h6]; omega⟩
  rw [h5, h6]
  show 0 + dot (computeStrides L l sh).1 (towerIndex sh uss idx) = _
  rw [he, container_strides h, Int.zero_add]
  exact container_contig h.1 sh 0 q hq

theorem solid_addr {L : Layout} {v : MView} (h : Solid L v) {idx : List Nat} (hi : InBounds v.shape idx) :
    addr v.arr idx = v.off + (rankIn L v.shape idx : Int) := by
  have h1 : dot v.strides (toInts idx) = (rankIn L v.shape idx : Int) := h.2 idx hi
  show v.off + dot v.strides (toInts idx) = _
  rw [h1]

/-- C80: views of views of a container, to any depth, report the shape of the selection; the element
at an index is the selected element of the container; and when the static layout or `layout()` of the
view is not dynamic, its elements follow each other in the storage in the order of that layout,
starting at the data offset. -/
theorem C80_contiguous (L l : Layout) (h : LayoutOf L l) (sh : List Nat) (sdim : Option Nat)
    (hd : SdimOf sdim sh) (uss : List (List USlice)) (hv : TowerStrided sh uss) :
    ∃ v, (MView.container L l sh sdim).tower uss = .ok v ∧ v.shape = towerShape sh uss ∧
      (v.sdim = none ∨ v.sdim = some (towerShape sh uss).length) ∧
      ∀ idx, InBounds (towerShape sh uss) idx →
        v.off + dot v.strides (toInts idx) = towerPos l sh uss idx ∧
        (v.slay ≠ .dynamic → towerPos l sh uss idx = v.off + (rankIn v.slay (towerShape sh uss) idx : Int)) ∧
        (v.lay ≠ .dynamic → towerPos l sh uss idx = v.off + (rankIn v.lay (towerShape sh uss) idx : Int)) := by
  obtain ⟨v, h1, h2, h3, h4⟩ := container_tower h hd hv
  refine ⟨v, h1, h3, ?_, fun idx hi => ?_⟩
  · rw [← h3]; exact h2.sdim
  obtain ⟨h5, -⟩ := h4 idx hi
  refine ⟨h5, fun hs => ?_, fun hs => ?_⟩
  · rw [← h5, ← h3]
    exact solid_addr (h2.slay.resolve_left hs) (h3 ▸ hi)
  · rw [← h5, ← h3]
    exact solid_addr (h2.lay.resolve_left hs) (h3 ▸ hi)

theorem demo_tower : TowerStrided [4, 3, 2] [[.range (some 1) none none], [.int (-1), .range (some 1) none none]] := by
  refine ⟨by decide, ?_, by decide, by decide, ?_, by decide, trivial⟩ <;>
    intro u hu <;> simp at hu <;> aesop

example : LayoutOf .row_major .row_major ∧ SdimOf (some 3) [4, 3, 2] ∧
    (∃ v, (MView.container .row_major .row_major [4, 3, 2] (some 3)).tower
      [[.range (some 1) none none], [.int (-1), .range (some 1) none none]] = .ok v ∧
      v.shape = [2, 2] ∧ v.slay = .row_major ∧ v.off = 20) :=
  ⟨⟨.inl rfl, .inl rfl⟩, .inr rfl, _, rfl, by decide⟩

/-- C80: iterating linearly over a view with a static layout visits exactly its elements, each once,
in the order of that layout; the reverse iterators visit them backwards. -/
theorem C80_linear (L l : Layout) (h : LayoutOf L l) (sh : List Nat) (sdim : Option Nat)
    (hd : SdimOf sdim sh) (uss : List (List USlice)) (hv : TowerStrided sh uss) :
    ∃ v, (MView.container L l sh sdim).tower uss = .ok v ∧
      (v.slay ≠ .dynamic →
        v.linear = (orderIndices v.slay (towerShape sh uss)).map (towerPos l sh uss) ∧
        v.linearReverse = ((orderIndices v.slay (towerShape sh uss)).map (towerPos l sh uss)).reverse) := by
  obtain ⟨v, h1, h2, h3, h4⟩ := container_tower h hd hv
  refine ⟨v, h1, fun hs => ?_⟩
  have hsol := h2.slay.resolve_left hs
  have hlin : v.linear = (orderIndices v.slay (towerShape sh uss)).map (towerPos l sh uss) := by
    have e1 : (orderIndices v.slay (towerShape sh uss)).map (towerPos l sh uss) =
        (orderIndices v.slay (towerShape sh uss)).map
          ((fun (i : Nat) => v.off + (i : Int)) ∘ rankIn v.slay (towerShape sh uss)) := by
      apply List.map_congr_left
      intro idx hi
      have hi := mem_orderIndices.1 hi
      rw [← (h4 idx hi).1, ← h3]
      exact solid_addr hsol (h3 ▸ hi)
    rw [e1, ← List.map_map, map_rankIn_orderIndices]
    unfold MView.linear MView.size
    rw [computeSize_eq, h3]
  refine ⟨hlin, ?_⟩
  rw [← hlin]
  unfold MView.linear MView.linearReverse
  refine List.ext_getElem (by simp) fun k hk1 hk2 => ?_
  simp only [List.getElem_map, List.getElem_range, List.getElem_reverse, List.length_map, List.length_range]
  simp only [List.length_map, List.length_range] at hk1
  omega

example : ∃ v, (MView.container .row_major .row_major [4, 3, 2] (some 3)).tower
      [[.range (some 1) none none], [.int (-1), .range (some 1) none none]] = .ok v ∧
      v.slay ≠ .dynamic ∧ v.linear = [20, 21, 22, 23] ∧ v.linearReverse = [23, 22, 21, 20] :=
  ⟨_, rfl, by decide⟩

example : ∃ v, (MView.container .column_major .column_major [4, 3, 2] (some 3)).tower
      [[.all, .range (some 1) none none, .int 1]] = .ok v ∧ v.shape = [4, 2] ∧
      v.slay = .column_major ∧ v.linear = [16, 17, 18, 19, 20, 21, 22, 23] :=
  ⟨_, rfl, by decide⟩

/-- C80: `fill(x)` and `v op= x` change exactly the elements of the view, by the linear loop when the
view has a static layout and by steppers when it has not. -/
theorem C80_update {β : Type} (L l : Layout) (h : LayoutOf L l) (sh : List Nat) (sdim : Option Nat)
    (hd : SdimOf sdim sh) (uss : List (List USlice)) (hv : TowerStrided sh uss) (f : β → β) (m : Mem β) :
    ∃ v, (MView.container L l sh sdim).tower uss = .ok v ∧
      (∀ idx, InBounds (towerShape sh uss) idx →
        v.update f m (towerPos l sh uss idx) = f (m (towerPos l sh uss idx))) ∧
      ∀ p, (∀ idx, InBounds (towerShape sh uss) idx → p ≠ towerPos l sh uss idx) → v.update f m p = m p := by
  obtain ⟨v, h1, h2, h3, h4⟩ := container_tower h hd hv
  obtain ⟨h5, h6⟩ := C29_view (decide (v.slay ≠ .dynamic)) v.arr f h2.wf h2.distinct (by
    intro hs
    have := h2.slay.resolve_left (by simpa using hs)
    exact ⟨v.slay, this.1, this.2⟩) m
  have hsh : v.arr.shape = towerShape sh uss := h3
  rw [hsh] at h5 h6
  refine ⟨v, h1, fun idx hi => ?_, fun p hp => ?_⟩
  · rw [← (h4 idx hi).1]; exact h5 idx hi
  · exact h6 p fun idx hi => by rw [(h4 idx hi).1]; exact hp idx hi

example : ∃ v, (MView.container .row_major .row_major [2, 3] (some 2)).tower [[.int 1, .range (some 1) none none]]
      = .ok v ∧ (List.range 6).map (fun (i : Nat) => v.update (fun _ => (9 : Nat)) (fun p => p.toNat) i) = [0, 1, 2, 3, 9, 9] :=
  ⟨_, rfl, by decide⟩

/-- C80: `layout()` of a view finds the layout of the container whenever the elements of the view
follow each other in that order. -/
theorem C80_layout_found (L l : Layout) (h : LayoutOf L l) (sh : List Nat) (sdim : Option Nat)
    (hd : SdimOf sdim sh) (us : List USlice) (hv : TowerStrided sh [us]) (h0 : 0 ∉ selShape sh us) (c : Int)
    (hc : ∀ idx, InBounds (selShape sh us) idx →
      towerPos l sh [us] idx = c + (rankIn l (selShape sh us) idx : Int)) :
    ∃ v, (MView.container L l sh sdim).tower [us] = .ok v ∧ v.lay = l := by
  obtain ⟨v, h1, h2, h3, h4⟩ := container_tower h hd hv
  have h3 : v.shape = selShape sh us := h3
  refine ⟨v, h1, ?_⟩
  obtain ⟨S, hS, -⟩ := makeView_ok hv.1
  have hvS : v = (MView.container L l sh sdim).view S := by
    have : (makeView sh us).bind (fun S => Res.ok ((MView.container L l sh sdim).view S)) = .ok v := h1
    rw [hS] at this
    exact (Res.ok.inj this).symm
  have hlay : v.lay = if v.slay ≠ .dynamic then v.slay else
      if doStridesMatch v.shape v.strides (MView.container L l sh sdim).lay true = true
        then (MView.container L l sh sdim).lay else .dynamic := by rw [hvS]; rfl
  have hslay : v.slay = if isContiguousView L sdim S = true then L else .dynamic := by rw [hvS]; rfl
  rw [hlay, container_lay h]
  by_cases hs : v.slay ≠ .dynamic
  · rw [if_pos hs]
    rcases h.2 with h2' | h2'
    · rw [hslay] at hs ⊢
      split at hs
      · rename_i hcv; rw [if_pos hcv, h2']
      · exact absurd rfl hs
    · rw [hslay, h2'] at hs; simp at hs
  · rw [if_neg hs, if_pos]
    have hlen : v.strides.length = v.shape.length := h2.wf.len
    refine C13_contiguity_complete _ _ _ hlen h.1 (by rw [h3]; exact h0) ?_ fun idx hi => ?_
    · intro k hk
      have := h2.wf.unit k (by
        show v.shape.getD k 0 = 1
        rw [List.getD_eq_getElem?_getD, hk]; rfl)
      have this : v.strides.getD k 0 = 0 := this
      have hkl : k < v.strides.length := by
        rw [hlen]; exact (List.getElem?_eq_some_iff.1 hk).1
      rw [List.getD_eq_getElem?_getD, List.getElem?_eq_getElem hkl] at this
      rw [List.getElem?_eq_getElem hkl]
      simpa using this
    · rw [dataOffset_eq _ _ (by simp [hlen, hi.length_eq])]
      rw [h3] at hi hlen ⊢
      refine solid_of_offset h.1 hlen (c := c - v.off) (fun idx hi => ?_) idx hi
      have e1 := (h4 idx hi).1
      have e2 := hc idx hi
      have e3 : addr v.arr idx = v.off + dot v.strides (toInts idx) := rfl
      omega

/-- The range over the first axis of length 1 keeps the elements adjacent: `layout()` notices, the
static layout does not. -/
example : ∃ v, (MView.container .row_major .row_major [3, 4] (some 2)).tower
      [[.range (some 1) (some 2) none, .range (some 1) (some 3) none]] = .ok v ∧ v.shape = [1, 2] ∧
      v.slay = .dynamic ∧ v.lay = .row_major ∧ v.off = 5 := ⟨_, rfl, by decide⟩

/-! ### `flat` and `data_element` -/

/-- C80 (partial: the view is taken of a container, not of another view): when `layout()` is not
dynamic, `flat(i)`, `data_element(i)` and the SIMD accessors reach the `i`-th element in the order of
that layout. -/
theorem C80_flat_partial (L l : Layout) (h : LayoutOf L l) (sh : List Nat) (sdim : Option Nat)
    (hd : SdimOf sdim sh) (us : List USlice) (hv : TowerStrided sh [us]) :
    ∃ v, (MView.container L l sh sdim).tower [us] = .ok v ∧
      (v.lay ≠ .dynamic → (List.range (numel (selShape sh us))).map v.flat =
        (orderIndices v.lay (selShape sh us)).map (towerPos l sh [us])) := by
  obtain ⟨v, h1, h2, h3, h4⟩ := container_tower h hd hv
  have h3 : v.shape = selShape sh us := h3
  refine ⟨v, h1, fun hs => ?_⟩
  have hsol := h2.lay.resolve_left hs
  obtain ⟨S, hS, -⟩ := makeView_ok hv.1
  have hvS : v = (MView.container L l sh sdim).view S := by
    have : (makeView sh us).bind (fun S => Res.ok ((MView.container L l sh sdim).view S)) = .ok v := h1
    rw [hS] at this
    exact (Res.ok.inj this).symm
  have hfa : v.flatAdd = v.off := by rw [hvS]; exact Int.zero_add _
  have e1 : (orderIndices v.lay (selShape sh us)).map (towerPos l sh [us]) =
      (orderIndices v.lay (selShape sh us)).map (v.flat ∘ rankIn v.lay (selShape sh us)) := by
    apply List.map_congr_left
    intro idx hi
    have hi := mem_orderIndices.1 hi
    rw [← (h4 idx hi).1]
    show _ = v.flatAdd + _
    rw [hfa, ← h3]
    exact solid_addr hsol (h3 ▸ hi)
  rw [e1, ← List.map_map, map_rankIn_orderIndices]

example : ∃ v, (MView.container .row_major .row_major [2, 2, 2] (some 3)).tower [[.int 1]] = .ok v ∧
    v.lay ≠ .dynamic ∧ (List.range 4).map v.flat = [4, 5, 6, 7] := ⟨_, rfl, by decide⟩

/-- For a view of a view, `flat` and `data_element` count the offset of the lower view twice:
`view(view(a, 1), 1)` of a container of shape `[2, 2, 2]` is the pair of positions 6 and 7, its
linear iterators say so, and its `flat(0)` is position 10, after the end of the storage.  The SIMD
loop of an assignment from such a view reads there. -/
theorem C80_nested_flat_wrong :
    TowerStrided [2, 2, 2] [[.int 1], [.int 1]] ∧
    ∃ v, (MView.container .row_major .row_major [2, 2, 2] (some 3)).tower [[.int 1], [.int 1]] = .ok v ∧
      v.slay = .row_major ∧ v.shape = [2] ∧ v.linear = [6, 7] ∧
      (List.range 2).map v.flat = [10, 11] ∧ (numel [2, 2, 2] : Int) ≤ v.flat 0 := by
  refine ⟨⟨by decide, ?_, by decide, by decide, ?_, by decide, trivial⟩, _, rfl, by decide⟩ <;>
    intro u hu <;> simp at hu <;> subst hu <;> simp

/-! ### `row` and `col` -/

/-- C80: `row(a, i)` of a two-dimensional container has the elements `a(i, 0)`, `a(i, 1)`, …, counting
from the end for negative `i`. -/
theorem C80_row (L l : Layout) (h : LayoutOf L l) (n m : Nat) (sdim : Option Nat)
    (hd : SdimOf sdim [n, m]) (i : Int) (hi : -(n : Int) ≤ i ∧ i < n) :
    ∃ v, (MView.container L l [n, m] sdim).row i = .ok v ∧ v.shape = [m] ∧
      ∀ j, j < m → v.off + dot v.strides (toInts [j]) =
        (rankIn l [n, m] [(if i < 0 then i + n else i).toNat, j] : Int) := by
  have hv : TowerStrided [n, m] [[.int i, .all]] := by
    refine ⟨⟨hi, trivial, trivial⟩, ?_, by simp, trivial⟩
    intro u hu; simp at hu; rcases hu with rfl | rfl <;> simp
  obtain ⟨v, h1, h2, -, h3⟩ := C80_contiguous L l h [n, m] sdim hd _ hv
  have hsh : towerShape [n, m] [[.int i, .all]] = [m] := by
    simp [towerShape, selShape, axisSel]
  have hrow : (MView.container L l [n, m] sdim).row i = .ok v := by
    show (if ([n, m] : List Nat).length ≠ 2 then Res.throws else
      (makeView [n, m] [.int i, .all]).map (MView.container L l [n, m] sdim).view) = _
    rw [if_neg (by simp)]
    have h1 : (makeView [n, m] [.int i, .all]).bind
      (fun S => Res.ok ((MView.container L l [n, m] sdim).view S)) = .ok v := h1
    cases hm : makeView [n, m] [.int i, .all] with
    | ok S => rw [hm] at h1; exact h1
    | throws => rw [hm] at h1; cases h1
    | ub => rw [hm] at h1; cases h1
  refine ⟨v, hrow, by rw [h2, hsh], fun j hj => ?_⟩
  rw [(h3 [j] (by rw [hsh]; exact ⟨hj, trivial⟩)).1]
  unfold towerPos
  congr 2
  simp [towerIndex, selIndex, axisSel, hj, toInts, pyIndex]

example : SdimOf (some 2) [3, 4] ∧ ∃ v, (MView.container .row_major .row_major [3, 4] (some 2)).row (-1) = .ok v ∧
    v.shape = [4] ∧ v.slay = .row_major ∧ v.linear = [8, 9, 10, 11] := ⟨.inr rfl, _, rfl, by decide⟩

/-- C80: `col(a, j)` of a two-dimensional container has the elements `a(0, j)`, `a(1, j)`, …. -/
theorem C80_col (L l : Layout) (h : LayoutOf L l) (n m : Nat) (sdim : Option Nat)
    (hd : SdimOf sdim [n, m]) (j : Int) (hj : -(m : Int) ≤ j ∧ j < m) :
    ∃ v, (MView.container L l [n, m] sdim).col j = .ok v ∧ v.shape = [n] ∧
      ∀ i, i < n → v.off + dot v.strides (toInts [i]) =
        (rankIn l [n, m] [i, (if j < 0 then j + m else j).toNat] : Int) := by
  have hv : TowerStrided [n, m] [[.all, .int j]] := by
    refine ⟨⟨trivial, hj, trivial⟩, ?_, by simp, trivial⟩
    intro u hu; simp at hu; rcases hu with rfl | rfl <;> simp
  obtain ⟨v, h1, h2, -, h3⟩ := C80_contiguous L l h [n, m] sdim hd _ hv
  have hsh : towerShape [n, m] [[.all, .int j]] = [n] := by
    simp [towerShape, selShape, axisSel]
  have hcol : (MView.container L l [n, m] sdim).col j = .ok v := by
    show (if ([n, m] : List Nat).length ≠ 2 then Res.throws else
      (makeView [n, m] [.all, .int j]).map (MView.container L l [n, m] sdim).view) = _
    rw [if_neg (by simp)]
    have h1 : (makeView [n, m] [.all, .int j]).bind
      (fun S => Res.ok ((MView.container L l [n, m] sdim).view S)) = .ok v := h1
    cases hm : makeView [n, m] [.all, .int j] with
    | ok S => rw [hm] at h1; exact h1
    | throws => rw [hm] at h1; cases h1
    | ub => rw [hm] at h1; cases h1
  refine ⟨v, hcol, by rw [h2, hsh], fun i hi => ?_⟩
  rw [(h3 [i] (by rw [hsh]; exact ⟨hi, trivial⟩)).1]
  unfold towerPos
  congr 2
  simp [towerIndex, selIndex, axisSel, hi, toInts, pyIndex]

example : SdimOf (some 2) [3, 4] ∧
    ∃ v, (MView.container .column_major .column_major [3, 4] (some 2)).col 1 = .ok v ∧
    v.shape = [3] ∧ v.slay = .column_major ∧ v.linear = [3, 4, 5] := ⟨.inr rfl, _, rfl, by decide⟩

/-- C80: `row` and `col` of anything but two axes throw. -/
theorem C80_row_dimension (p : MView) (i : Int) (h : p.shape.length ≠ 2) :
    p.row i = .throws ∧ p.col i = .throws := by
  unfold MView.row MView.col
  rw [if_pos h, if_pos h]; exact ⟨rfl, rfl⟩

example : (MView.container .row_major .row_major [3, 4, 2] none).shape.length ≠ 2 := by decide

/-! ### Lifetime -/

/-- C80 (partial: not for views that own their container and have trivial strides): a view made of a
live container has a shape, a copy of the view has the same shape, and it still has it when the view
copied from is gone, as long as the container referred to by both lives. -/
theorem C80_copy_partial (o : Objs) (L : Layout) (sdim : Option Nat) (arg fresh fresh2 : Nat)
    (rvalue : Bool) (S : List Sl) (sh : List Nat) (hlive : o arg = some sh)
    (hok : rvalue = false ∨ trivialStrides L sdim S = false) :
    let (o1, v) := viewOf o L sdim arg fresh rvalue S
    let (o2, w) := v.copy o1 fresh2
    ∃ s, v.shape o1 = .ok s ∧ w.shape o2 = .ok s ∧ w.shape (v.destroy o2) = .ok s := by
  cases ht : trivialStrides L sdim S with
  | false =>
    cases rvalue <;>
    simp [viewOf, mkVObj, ht, VObj.copy, VObj.shape]
  | true =>
    have : rvalue = false := hok.resolve_right (by simp [ht])
    subst this
    simp [viewOf, mkVObj, ht, VObj.copy, VObj.destroy, VObj.shape, hlive]

example : trivialStrides .row_major (some 2) [.int 1, .range 0 2] = false ∧
    trivialStrides .row_major (some 2) [.int 1] = true := by decide

/-- A view that owns its container and has trivial strides keeps, for its shape, a reference into
itself; the copy has the container and the old reference.  Functions copy their arguments, so
`auto e = view(xtensor{...}, 1) + 1; e.shape()` reads a destroyed object. -/
theorem C80_owning_copy_wrong :
    let o : Objs := setObj (fun _ => none) 0 (some [2, 3])
    let (o1, v) := viewOf o .row_major (some 2) 0 1 true [.int 1]
    let (o2, w) := v.copy o1 2
    v.shape o1 = .ok [3] ∧ o2 w.arr = some [2, 3] ∧ w.shape (v.destroy o2) = .ub := by decide

/-- `row(f(), i)` refers to the temporary `f()`, which `view(f(), i, all())` takes over. -/
theorem C80_row_temporary_wrong :
    let o : Objs := setObj (fun _ => none) 0 (some [2, 3])
    (let (o1, v) := viewOf o .row_major (some 2) 0 1 true [.int 1]
     v.shape (setObj o1 0 none) = .ok [3]) ∧
    (let (o1, v) := rowOf o .row_major (some 2) 0 1 true [.int 1]
     v.shape (setObj o1 0 none) = .ub) := by decide

/-- C80: views of rvalues, as opposed to rows of them, outlive the argument. -/
theorem C80_view_of_rvalue (o : Objs) (L : Layout) (sdim : Option Nat) (arg fresh : Nat) (S : List Sl)
    (sh : List Nat) (hlive : o arg = some sh) (hne : fresh ≠ arg) :
    let (o1, v) := viewOf o L sdim arg fresh true S
    ∃ s, v.shape o1 = .ok s ∧ v.shape (setObj o1 arg none) = .ok s := by
  cases ht : trivialStrides L sdim S <;>
    simp [viewOf, mkVObj, ht, VObj.shape, setObj, hlive, hne]

end Xt
