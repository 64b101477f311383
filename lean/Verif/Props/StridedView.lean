import Verif.Model.StridedView
import Verif.Spec.StridedView
import Verif.Props.View
import Verif.Props.Indexing
import Verif.Props.Addressing
/-!
# C20: `strided_view` and `reshape_view`
-/

namespace Xt
open Spec

/-! ### The counting loop -/

/-- Number of slices that address an axis of the parent. -/
def nAxes (us : List USlice) : Nat := (us.filter fun u => u ≠ .ellipsis ∧ u ≠ .newaxis).length
/-- Number of newaxes. -/
def nNew (us : List USlice) : Nat := us.count .newaxis
/-- Number of integers. -/
def nInt (us : List USlice) : Nat := us.countP fun u => match u with | .int _ => true | _ => false

theorem svCount_ok (us : List USlice) (c : SvCount)
    (h : us.count .ellipsis + (if c.ellipsis then 1 else 0) ≤ 1) :
    svCount c us = .ok ⟨c.dimension + nNew us - nInt us, c.check - nAxes us, c.newaxes + nNew us,
      c.ellipsis || decide (.ellipsis ∈ us)⟩ := by
  induction us generalizing c with
  | nil => simp [svCount, nNew, nInt, nAxes]
  | cons u us ih =>
    have hc : us.count .ellipsis + (if c.ellipsis then 1 else 0) ≤ 1 := by
      have : us.count .ellipsis ≤ (u :: us).count .ellipsis := List.count_le_count_cons
      omega
    cases u
    case ellipsis =>
      have hce : c.ellipsis = false := by
        cases he : c.ellipsis
        · rfl
        · rw [he] at h; simp at h
      rw [hce] at h
      simp only [svCount, hce, Bool.false_eq_true, if_false]
      rw [ih _ (by simp at h ⊢; omega)]
      simp [nNew, nInt, nAxes]
    all_goals
      simp only [svCount]
      rw [ih _ (by simpa using hc)]
      simp [nNew, nInt, nAxes, List.count_cons, List.countP_cons]
      try omega

/-- C20: a slice vector with two ellipses is rejected. -/
theorem C20_two_ellipses_throw (sh : List Nat) (st : List Int) (off : Int) (l : Layout)
    (us : List USlice) (h : 2 ≤ us.count .ellipsis) : stridedView sh st off l us = .throws := by
  have key : ∀ (us : List USlice) (c : SvCount),
      2 ≤ us.count .ellipsis + (if c.ellipsis then 1 else 0) → svCount c us = .throws := by
    intro us
    induction us with
    | nil => intro c h; exfalso; revert h; simp; split <;> simp
    | cons u us ih =>
      intro c h
      cases u
      case ellipsis =>
        simp only [svCount]
        split
        · rfl
        · rename_i hc
          apply ih
          simp [hc] at h ⊢; omega
      all_goals
        simp only [svCount]
        apply ih
        simpa [List.count_cons] using h
  have := key us ⟨sh.length, sh.length, 0, false⟩ (by simpa using h)
  simp only [stridedView, svFillArgs, this]
  rfl

example : (2 : Nat) ≤ List.count USlice.ellipsis [.ellipsis, .int 1, .ellipsis] := by decide

/-- C20: more axis-addressing slices than axes are rejected. -/
theorem C20_too_many_slices_throw (sh : List Nat) (st : List Int) (off : Int) (l : Layout)
    (us : List USlice)
    (h : sh.length < (us.filter fun u => u ≠ .ellipsis ∧ u ≠ .newaxis).length) :
    stridedView sh st off l us = .throws := by
  by_cases h2 : 2 ≤ us.count .ellipsis
  · exact C20_two_ellipses_throw sh st off l us h2
  · have := svCount_ok us ⟨sh.length, sh.length, 0, false⟩ (by simp; omega)
    simp only [stridedView, svFillArgs, this, Res.bind]
    rw [if_pos (by simp only [nAxes]; omega)]
    rfl

example : ([3] : List Nat).length < (([.all, .newaxis, .int 1] : List USlice).filter
    fun u => u ≠ .ellipsis ∧ u ≠ .newaxis).length := by decide

/-! ### The main loop -/

/-- Trailing axes copied from the parent. -/
def zipAxes (sh : List Nat) (st : List Int) : List (Int × Int) :=
  List.zip (toInts sh) st

theorem svAxes_eq (sh : List Nat) (st : List Int) (ax n : Nat) (hl : st.length = sh.length)
    (h : ax + n ≤ sh.length) :
    svAxes sh st ax n = .ok ((zipAxes (sh.drop ax) (st.drop ax)).take n) := by
  induction n generalizing ax with
  | zero => simp [svAxes]
  | succ n ih =>
    have h1 : ax < sh.length := by omega
    have h2 : ax < st.length := by omega
    have := ih (ax + 1) (by omega)
    rw [List.drop_eq_getElem_cons h1, List.drop_eq_getElem_cons h2]
    simp only [svAxes, svAxis, List.getElem?_eq_getElem h1, List.getElem?_eq_getElem h2, Res.bind,
      Res.map, this]
    rfl

/-- What the main loop computes, with the parent's axes consumed from the front. -/
def svRec (nAll : Nat) : List Nat → List Int → List USlice → Option (Int × List (Int × Int))
  | sh, st, [] => some (0, zipAxes sh st)
  | sh, st, .newaxis :: us => (svRec nAll sh st us).map fun r => (r.1, (1, 0) :: r.2)
  | sh, st, .ellipsis :: us => if nAll ≤ sh.length then
      (svRec nAll (sh.drop nAll) (st.drop nAll) us).map fun r =>
        (r.1, (zipAxes sh st).take nAll ++ r.2) else none
  | _ :: sh, s :: st, .int c :: us => (svRec nAll sh st us).map fun r => (c * s + r.1, r.2)
  | n :: sh, s :: st, .all :: us => (svRec nAll sh st us).map fun r => (r.1, ((n : Int), s) :: r.2)
  | n :: sh, s :: st, .range a b k :: us => match rangeGet a b k n with
    | .ok sl => (svRec nAll sh st us).map fun r =>
        (sl.value 0 * s + r.1, (sl.size, sl.stepSize 1 1 * s) :: r.2)
    | _ => none
  | _, _, _ => none

theorem svLoop_eq (sh : List Nat) (st : List Int) (nAll : Nat) (hl : st.length = sh.length)
    (us : List USlice) (i : Nat) (skip : Int) (ax : Nat) (hax : (i : Int) - skip = ax)
    (r : Int × List (Int × Int))
    (h : svRec nAll (sh.drop ax) (st.drop ax) us = some r) :
    svLoop sh st nAll i skip us = .ok r := by
  induction us generalizing i skip ax r with
  | nil =>
    have e : ((i : Int) - skip).toNat = ax := by omega
    simp only [svLoop, e]
    simp only [svRec, Option.some.injEq] at h
    by_cases hle : ax ≤ sh.length
    · rw [svAxes_eq sh st ax _ hl (by omega), ← h]
      simp only [Res.map, Res.bind]
      rw [List.take_of_length_le (by simp [zipAxes, hl])]
    · rw [Nat.sub_eq_zero_of_le (by omega), ← h]
      simp only [svAxes, Res.map, Res.bind]
      rw [List.drop_eq_nil_of_le (by omega : sh.length ≤ ax)]
      simp [zipAxes, toInts]
  | cons u us ih =>
    have e : ((i : Int) - skip).toNat = ax := by omega
    have cons_case : ∀ {n : Nat} {s : Int} {sh' : List Nat} {st' : List Int},
        sh.drop ax = n :: sh' → st.drop ax = s :: st' →
        sh[ax]? = some n ∧ st[ax]? = some s ∧ sh' = sh.drop (ax + 1) ∧ st' = st.drop (ax + 1) := by
      intro n s sh' st' h1 h2
      refine ⟨?_, ?_, ?_, ?_⟩
      · have := List.getElem?_drop (xs := sh) (i := ax) (j := 0); rw [h1] at this; simpa using this.symm
      · have := List.getElem?_drop (xs := st) (i := ax) (j := 0); rw [h2] at this; simpa using this.symm
      · rw [← List.drop_drop, h1]; rfl
      · rw [← List.drop_drop, h2]; rfl
    cases u with
    | newaxis =>
      simp only [svRec, Option.map_eq_some_iff] at h
      obtain ⟨r', h1, rfl⟩ := h
      simp only [svLoop]
      rw [ih (i + 1) (skip + 1) ax (by push_cast; omega) r' h1]; rfl
    | ellipsis =>
      simp only [svRec] at h
      by_cases hle : nAll ≤ (sh.drop ax).length
      · rw [if_pos hle, Option.map_eq_some_iff] at h
        obtain ⟨r', h1, rfl⟩ := h
        rw [List.drop_drop, List.drop_drop] at h1
        simp only [svLoop, e]
        rw [List.length_drop] at hle
        by_cases hax2 : ax ≤ sh.length
        · rw [svAxes_eq sh st ax nAll hl (by omega), Res.bind,
            ih (i + 1) _ (ax + nAll) (by push_cast; omega) r' h1]; rfl
        · have : nAll = 0 := by omega
          subst this
          simp only [svAxes, Res.bind]
          rw [ih (i + 1) _ ax (by push_cast; omega) r' (by simpa using h1)]; rfl
      · rw [if_neg hle] at h; cases h
    | int c =>
      cases h1 : sh.drop ax with
      | nil => rw [h1] at h; simp [svRec] at h
      | cons n sh' => cases h2 : st.drop ax with
        | nil => rw [h1, h2] at h; simp [svRec] at h
        | cons s st' =>
          obtain ⟨c1, c2, c3, c4⟩ := cons_case h1 h2
          rw [h1, h2] at h
          simp only [svRec, Option.map_eq_some_iff] at h
          obtain ⟨r', h3, rfl⟩ := h
          rw [c3, c4] at h3
          simp only [svLoop, e, c2]
          rw [ih (i + 1) skip (ax + 1) (by push_cast; omega) r' h3]; rfl
    | all =>
      cases h1 : sh.drop ax with
      | nil => rw [h1] at h; simp [svRec] at h
      | cons n sh' => cases h2 : st.drop ax with
        | nil => rw [h1, h2] at h; simp [svRec] at h
        | cons s st' =>
          obtain ⟨c1, c2, c3, c4⟩ := cons_case h1 h2
          rw [h1, h2] at h
          simp only [svRec, Option.map_eq_some_iff] at h
          obtain ⟨r', h3, rfl⟩ := h
          rw [c3, c4] at h3
          simp only [svLoop, e, svAxis, c1, c2, Res.bind]
          rw [ih (i + 1) skip (ax + 1) (by push_cast; omega) r' h3]; rfl
    | range a b k =>
      cases h1 : sh.drop ax with
      | nil => rw [h1] at h; simp [svRec] at h
      | cons n sh' => cases h2 : st.drop ax with
        | nil => rw [h1, h2] at h; simp [svRec] at h
        | cons s st' =>
          obtain ⟨c1, c2, c3, c4⟩ := cons_case h1 h2
          rw [h1, h2] at h
          simp only [svRec] at h
          cases hg : rangeGet a b k n with
          | ok sl =>
            simp only [hg, Option.map_eq_some_iff] at h
            obtain ⟨r', h3, rfl⟩ := h
            rw [c3, c4] at h3
            simp only [svLoop, e, c1, c2, hg, Res.bind]
            rw [ih (i + 1) skip (ax + 1) (by push_cast; omega) r' h3]; rfl
          | throws => simp [hg] at h
          | ub => simp [hg] at h
    | keep l => cases h1 : sh.drop ax <;> cases h2 : st.drop ax <;> rw [h1, h2] at h <;> simp [svRec] at h
    | drop l => cases h1 : sh.drop ax <;> cases h2 : st.drop ax <;> rw [h1, h2] at h <;> simp [svRec] at h

/-- `all` repeated copies axes, like an ellipsis. -/
theorem svRec_replicate_all (m nAll : Nat) (sh : List Nat) (st : List Int) (us : List USlice)
    (hl : st.length = sh.length) (hm : m ≤ sh.length) :
    svRec nAll sh st (List.replicate m .all ++ us) =
      (svRec nAll (sh.drop m) (st.drop m) us).map fun r => (r.1, (zipAxes sh st).take m ++ r.2) := by
  induction m generalizing sh st with
  | zero => simp
  | succ m ih =>
    cases sh with
    | nil => simp at hm
    | cons n sh => cases st with
      | nil => simp at hl
      | cons s st =>
        rw [List.replicate_succ, List.cons_append, svRec,
          ih sh st (by simpa using hl) (by simpa using hm)]
        simp [zipAxes, toInts, Option.map_map, Function.comp_def]

/-- An ellipsis stands for `nAll` times `all`. -/
def expandWith (nAll : Nat) (us : List USlice) : List USlice :=
  us.flatMap fun u => if u = .ellipsis then List.replicate nAll .all else [u]

theorem svRec_expand (nAll : Nat) (sh : List Nat) (st : List Int) (us : List USlice)
    (hl : st.length = sh.length) (r : Int × List (Int × Int))
    (h : svRec 0 sh st (expandWith nAll us) = some r) : svRec nAll sh st us = some r := by
  induction us generalizing sh st r with
  | nil => simpa [expandWith, svRec] using h
  | cons u us ih =>
    cases u with
    | ellipsis =>
      have e : expandWith nAll (.ellipsis :: us) = List.replicate nAll .all ++ expandWith nAll us := by
        simp [expandWith]
      rw [e] at h
      by_cases hm : nAll ≤ sh.length
      · rw [svRec_replicate_all nAll 0 sh st _ hl hm, Option.map_eq_some_iff] at h
        obtain ⟨r', h1, rfl⟩ := h
        simp only [svRec, if_pos hm]
        rw [ih _ _ (by simp [hl]) r' h1]; rfl
      · exfalso
        have : ∀ (m : Nat) (sh : List Nat) (st : List Int) (us : List USlice), sh.length < m →
            svRec 0 sh st (List.replicate m .all ++ us) = none := by
          intro m
          induction m with
          | zero => intro sh st us h; omega
          | succ m ih' =>
            intro sh st us hlt
            cases sh with
            | nil => cases st <;> simp [List.replicate_succ, svRec]
            | cons n sh => cases st with
              | nil => simp [List.replicate_succ, svRec]
              | cons s st =>
                rw [List.replicate_succ, List.cons_append, svRec, ih' sh st us (by simpa using hlt)]
                rfl
        rw [this nAll sh st _ (by omega)] at h
        cases h
    | newaxis =>
      have e : expandWith nAll (.newaxis :: us) = .newaxis :: expandWith nAll us := by simp [expandWith]
      rw [e] at h
      simp only [svRec, Option.map_eq_some_iff] at h ⊢
      obtain ⟨r', h1, rfl⟩ := h
      exact ⟨r', ih sh st hl r' h1, rfl⟩
    | int c =>
      have e : expandWith nAll (.int c :: us) = .int c :: expandWith nAll us := by simp [expandWith]
      rw [e] at h
      cases sh with
      | nil => simp [svRec] at h
      | cons n sh => cases st with
        | nil => simp at hl
        | cons s st =>
          simp only [svRec, Option.map_eq_some_iff] at h ⊢
          obtain ⟨r', h1, rfl⟩ := h
          exact ⟨r', ih sh st (by simpa using hl) r' h1, rfl⟩
    | all =>
      have e : expandWith nAll (.all :: us) = .all :: expandWith nAll us := by simp [expandWith]
      rw [e] at h
      cases sh with
      | nil => simp [svRec] at h
      | cons n sh => cases st with
        | nil => simp at hl
        | cons s st =>
          simp only [svRec, Option.map_eq_some_iff] at h ⊢
          obtain ⟨r', h1, rfl⟩ := h
          exact ⟨r', ih sh st (by simpa using hl) r' h1, rfl⟩
    | range a b k =>
      have e : expandWith nAll (.range a b k :: us) = .range a b k :: expandWith nAll us := by
        simp [expandWith]
      rw [e] at h
      cases sh with
      | nil => simp [svRec] at h
      | cons n sh => cases st with
        | nil => simp at hl
        | cons s st =>
          simp only [svRec] at h ⊢
          cases hg : rangeGet a b k n with
          | ok sl =>
            simp only [hg, Option.map_eq_some_iff] at h ⊢
            obtain ⟨r', h1, rfl⟩ := h
            exact ⟨r', ih sh st (by simpa using hl) r' h1, rfl⟩
          | throws => simp [hg] at h
          | ub => simp [hg] at h
    | keep l =>
      have e : expandWith nAll (.keep l :: us) = .keep l :: expandWith nAll us := by simp [expandWith]
      rw [e] at h
      cases sh <;> cases st <;> simp [svRec] at h
    | drop l =>
      have e : expandWith nAll (.drop l :: us) = .drop l :: expandWith nAll us := by simp [expandWith]
      rw [e] at h
      cases sh <;> cases st <;> simp [svRec] at h

/-- On a slice vector without ellipsis the loop produces the shape of the selection, and offset and
strides that address the selected elements. -/
theorem svRec_spec (sh : List Nat) (st : List Int) (us : List USlice) (hl : st.length = sh.length)
    (hv : SlicesValid sh us) (hk : NoKeepDrop us) (hn : IntsNonneg us) :
    ∃ r, svRec 0 sh st us = some r ∧ r.2.map Prod.fst = toInts (selShape sh us) ∧
      ∀ idx, InBounds (selShape sh us) idx →
        r.1 + dot (r.2.map Prod.snd) (toInts idx) = dot st (selIndex sh us idx) := by
  induction us generalizing sh st with
  | nil =>
    refine ⟨_, rfl, ?_, ?_⟩
    · simp only [zipAxes, selShape]
      rw [List.map_fst_zip (by simp [toInts, hl])]
    · intro idx _
      simp only [zipAxes, selIndex]
      rw [List.map_snd_zip (by simp [toInts, hl])]; simp
  | cons u us ih =>
    have hk' : NoKeepDrop us := fun v hv => hk v (by simp [hv])
    have hn' : IntsNonneg us := fun c hc => hn c (by simp [hc])
    cases u with
    | newaxis =>
      obtain ⟨r, h1, h2, h3⟩ := ih sh st hl hv hk' hn'
      refine ⟨(r.1, (1, 0) :: r.2), by simp [svRec, h1], by simp [selShape, h2, toInts], ?_⟩
      intro idx hi
      cases idx with
      | nil => simp [selShape, InBounds] at hi
      | cons a idx =>
        have := h3 idx hi.2
        simp only [selIndex, ← this, toInts, List.map_cons, dot]; ring
    | ellipsis => exact absurd hv (by cases sh <;> simp [SlicesValid, SliceValid])
    | keep l => exact absurd rfl ((hk (.keep l) (by simp)).1 l)
    | drop l => exact absurd rfl ((hk (.drop l) (by simp)).2 l)
    | int c =>
      cases sh with
      | nil => simp [SlicesValid] at hv
      | cons n sh => cases st with
        | nil => simp at hl
        | cons s st =>
          obtain ⟨r, h1, h2, h3⟩ := ih sh st (by simpa using hl) hv.2 hk' hn'
          refine ⟨(c * s + r.1, r.2), by simp [svRec, h1], by simp [selShape, h2], ?_⟩
          intro idx hi
          have := h3 idx hi
          have hc := hn c (by simp)
          simp only [selIndex, dot, ← this, pyIndex, if_neg (show ¬ c < 0 by omega)]; ring
    | all =>
      cases sh with
      | nil => simp [SlicesValid] at hv
      | cons n sh => cases st with
        | nil => simp at hl
        | cons s st =>
          obtain ⟨r, h1, h2, h3⟩ := ih sh st (by simpa using hl) hv.2 hk' hn'
          refine ⟨(r.1, ((n : Int), s) :: r.2), by simp [svRec, h1], by simp [selShape, h2, axisSel, toInts], ?_⟩
          intro idx hi
          cases idx with
          | nil => simp [selShape, InBounds] at hi
          | cons a idx =>
            have hi' : a < n ∧ InBounds (selShape sh us) idx := by
              simpa [selShape, axisSel, InBounds] using hi
            have := h3 idx hi'.2
            have ha : (axisSel n .all).getD a 0 = (a : Int) := by
              simp [axisSel, List.getElem?_range hi'.1]
            simp only [selIndex, ha, dot, ← this, toInts, List.map_cons]
            simp only [Int.ofNat_eq_natCast]; ring
    | range x y k =>
      cases sh with
      | nil => simp [SlicesValid] at hv
      | cons n sh => cases st with
        | nil => simp at hl
        | cons s st =>
          obtain ⟨r, h1, h2, h3⟩ := ih sh st (by simpa using hl) hv.2 hk' hn'
          obtain ⟨sl, hg, hok⟩ := slice_ok (u := .range x y k) hv.1 (by simp)
          have hg' : rangeGet x y k n = .ok sl := hg
          have hstr := bindSlices_strided (full := [n]) (us := [.range x y k]) (pre := 0) (S := [sl])
            (by simp [bindSlices, USlice.isNew, hg, Res.map, Res.bind])
            (by intro u hu; simp at hu; subst hu; simp) sl (by simp)
          have hint : sl.isInt = false := (rangeGet_shape hg').2
          refine ⟨(sl.value 0 * s + r.1, (sl.size, sl.stepSize 1 1 * s) :: r.2),
            by simp [svRec, h1, hg'], by simp [selShape, h2, toInts, hok.size], ?_⟩
          intro idx hi
          cases idx with
          | nil => simp [selShape, InBounds] at hi
          | cons a idx =>
            have hi' : a < (axisSel n (.range x y k)).length ∧ InBounds (selShape sh us) idx := hi
            have := h3 idx hi'.2
            simp only [selIndex, dot, ← this, toInts, List.map_cons, ← hok.value a hi'.1, hstr a hint]
            simp only [Int.ofNat_eq_natCast]; ring

theorem selShape_length_counts (sh : List Nat) (us : List USlice) (hv : SlicesValid sh us) :
    ((selShape sh us).length : Int) = sh.length + nNew us - nInt us := by
  induction us generalizing sh with
  | nil => simp [selShape, nNew, nInt]
  | cons u us ih =>
    cases u
    case newaxis =>
      have := ih sh (by cases sh <;> exact hv)
      simp only [selShape, List.length_cons, nNew, nInt, List.count_cons, List.countP_cons] at this ⊢
      simp; omega
    all_goals
      cases sh with
      | nil => simp [SlicesValid] at hv
      | cons n sh =>
        have := ih sh hv.2
        simp only [selShape, List.length_cons, nNew, nInt, List.count_cons, List.countP_cons] at this ⊢
        simp; omega

theorem expandWith_eq_self (n : Nat) (us : List USlice) (h : .ellipsis ∉ us) :
    expandWith n us = us := by
  induction us with
  | nil => rfl
  | cons u us ih =>
    simp only [List.mem_cons, not_or] at h
    have e : expandWith n (u :: us) = (if u = .ellipsis then List.replicate n .all else [u]) ++
      expandWith n us := by simp [expandWith]
    rw [e, if_neg (Ne.symm h.1), ih h.2]; rfl

theorem expandWith_counts (n : Nat) (us : List USlice) :
    nNew (expandWith n us) = nNew us ∧ nInt (expandWith n us) = nInt us := by
  induction us with
  | nil => simp [expandWith]
  | cons u us ih =>
    have e : expandWith n (u :: us) = (if u = .ellipsis then List.replicate n .all else [u]) ++
      expandWith n us := by simp [expandWith]
    rw [e]
    simp only [nNew, nInt] at ih ⊢
    rw [List.count_append, List.countP_append, ih.1, ih.2]
    by_cases hu : u = .ellipsis
    · subst hu
      rw [if_pos rfl, List.countP_replicate]
      simp [List.count_replicate]
    · rw [if_neg hu]
      simp only [List.count_cons, List.countP_cons, List.count_nil, List.countP_nil]
      omega

theorem mem_expandWith {n : Nat} {us : List USlice} {v : USlice} (h : v ∈ expandWith n us) :
    v ∈ us ∨ v = .all := by
  simp only [expandWith, List.mem_flatMap] at h
  obtain ⟨u, hu, hv⟩ := h
  by_cases he : u = .ellipsis
  · rw [if_pos he] at hv; exact Or.inr (List.eq_of_mem_replicate hv)
  · rw [if_neg he] at hv; simp at hv; subst hv; exact Or.inl hu

theorem length_counts (us : List USlice) : us.length = us.count .ellipsis + nNew us + nAxes us := by
  induction us with
  | nil => rfl
  | cons u us ih =>
    simp only [nNew, nAxes, List.length_cons, List.count_cons] at ih ⊢
    by_cases h1 : u = .ellipsis
    · subst h1; rw [List.filter_cons_of_neg (by simp)]; simp only [beq_self_eq_true, if_true]
      have : (USlice.ellipsis == USlice.newaxis) = false := rfl
      simp only [this, Bool.false_eq_true, if_false]; omega
    · by_cases h2 : u = .newaxis
      · subst h2; rw [List.filter_cons_of_neg (by simp)]; simp only [beq_self_eq_true, if_true]
        have : (USlice.newaxis == USlice.ellipsis) = false := rfl
        simp only [this, Bool.false_eq_true, if_false]; omega
      · rw [List.filter_cons_of_pos (by simp [h1, h2]), List.length_cons]
        simp only [beq_iff_eq, h1, h2, if_false]; omega

theorem nAxes_le {sh : List Nat} {us : List USlice} (h : SlicesValid sh us) : nAxes us ≤ sh.length := by
  induction us generalizing sh with
  | nil => simp [nAxes]
  | cons u us ih =>
    cases u
    case newaxis =>
      have := ih (sh := sh) (by cases sh <;> exact h)
      simpa [nAxes] using this
    all_goals
      cases sh with
      | nil => simp [SlicesValid] at h
      | cons n sh =>
        have := ih h.2
        simp only [nAxes] at this ⊢
        simp at this ⊢; try omega

theorem nAxes_expandWith (n : Nat) (us : List USlice) : nAxes us ≤ nAxes (expandWith n us) := by
  induction us with
  | nil => simp [expandWith]
  | cons u us ih =>
    have e : expandWith n (u :: us) = (if u = .ellipsis then List.replicate n .all else [u]) ++
      expandWith n us := by simp [expandWith]
    rw [e]
    simp only [nAxes] at ih ⊢
    rw [List.filter_append, List.length_append]
    by_cases hu : u = .ellipsis
    · subst hu; simp at ih ⊢; omega
    · rw [if_neg hu]
      by_cases hu2 : u = .newaxis
      · subst hu2; simpa using ih
      · simp [hu, hu2] at ih ⊢; omega

/-- C20: for every slice vector of integers, ranges, `all`, newaxes and at most one ellipsis, the
view is built without error, its shape is that of the selection with the ellipsis expanded, and
`offset + Σ index * stride` is the address, in the parent's storage, of the selected element — which
is an in-bounds element of the parent.  (Full claim: integers may be negative;
`C20_negative_int_wrong` is the counterexample.) -/
theorem C20_strided_view_partial (sh : List Nat) (st : List Int) (off : Int) (l : Layout)
    (us : List USlice) (hl : st.length = sh.length) (he : us.count .ellipsis ≤ 1)
    (hv : SlicesValid sh (expandEllipsis sh.length us)) (hk : NoKeepDrop us) (hn : IntsNonneg us) :
    ∃ v, stridedView sh st off l us = .ok v ∧
      v.shape = toInts (selShape sh (expandEllipsis sh.length us)) ∧
      (∀ idx, InBounds (selShape sh (expandEllipsis sh.length us)) idx →
        v.index (toInts idx) = off + dot st (selIndex sh (expandEllipsis sh.length us) idx) ∧
        v.elementIndex (toInts idx) = off + dot st (selIndex sh (expandEllipsis sh.length us) idx) ∧
        ∃ pidx, InBounds sh pidx ∧ selIndex sh (expandEllipsis sh.length us) idx = toInts pidx) ∧
      -- a layout other than dynamic is only claimed when the elements are contiguous in that order
      (v.layout ≠ .dynamic → v.layout = l ∧
        ∀ idx, InBounds (selShape sh (expandEllipsis sh.length us)) idx →
          v.index (toInts idx) =
            v.linear (rankIn l (selShape sh (expandEllipsis sh.length us)) idx)) := by
  have hE : expandEllipsis sh.length us = expandWith (sh.length - nAxes us) us := rfl
  have hcnt := svCount_ok us ⟨sh.length, sh.length, 0, false⟩ (by simpa using he)
  have hax : nAxes us ≤ sh.length := le_trans (nAxes_expandWith _ us) (nAxes_le hv)
  have hlen := length_counts us
  have hk' : NoKeepDrop (expandEllipsis sh.length us) := by
    intro v hv; rw [hE] at hv
    rcases mem_expandWith hv with h | rfl
    · exact hk v h
    · simp
  have hn' : IntsNonneg (expandEllipsis sh.length us) := by
    intro c hc; rw [hE] at hc
    rcases mem_expandWith hc with h | h
    · exact hn c h
    · cases h
  obtain ⟨r, h1, h2, h3⟩ := svRec_spec sh st _ hl hv hk' hn'
  obtain ⟨S, -, hb⟩ := makeView_ok hv
  -- the number of axes an ellipsis stands for
  have hAll : (if (decide (USlice.ellipsis ∈ us)) = true then
      (sh.length : Int) - ((us.length : Int) - 1 - nNew us) else 0).toNat =
      if .ellipsis ∈ us then sh.length - nAxes us else 0 := by
    by_cases hm : USlice.ellipsis ∈ us
    · have := List.count_pos_iff.mpr hm
      simp only [hm, decide_true, if_true]; omega
    · simp [hm]
  have hexp : expandWith (if .ellipsis ∈ us then sh.length - nAxes us else 0) us =
      expandEllipsis sh.length us := by
    by_cases hm : USlice.ellipsis ∈ us
    · rw [if_pos hm, hE]
    · rw [hE, expandWith_eq_self _ _ hm, expandWith_eq_self _ _ hm]
  have hloop := svLoop_eq sh st (if .ellipsis ∈ us then sh.length - nAxes us else 0) hl us 0 0 0 rfl r
    (by simpa using svRec_expand _ sh st us hl r (by rw [hexp]; exact h1))
  have hrl : r.2.length = (selShape sh (expandEllipsis sh.length us)).length := by
    have := congrArg List.length h2; simpa [toInts] using this
  have hdim : (r.2.length : Int) = sh.length + nNew us - nInt us := by
    rw [hrl, selShape_length_counts sh _ hv, hE, (expandWith_counts _ us).1, (expandWith_counts _ us).2]
  generalize hX : selShape sh (expandEllipsis sh.length us) = X at *
  have hfill : svFillArgs sh st off l us = .ok
      { shape := r.2.map Prod.fst, strides := r.2.map Prod.snd, offset := off + r.1,
        layout := if doStridesMatch ((r.2.map Prod.fst).map Int.toNat) (r.2.map Prod.snd) l true
          then l else .dynamic } := by
    simp only [svFillArgs, hcnt, Res.bind, Bool.false_or, Nat.zero_add]
    rw [if_neg (by simp only [not_lt]; omega), hAll, hloop]
    simp only
    rw [if_neg (by simp only [ne_eq, not_not]; exact hdim)]
  have hstl : (r.2.map Prod.snd).length = X.length := by simp [hrl]
  have hdot : ∀ idx, InBounds X idx → dot (List.zipWith (fun (s : Int) st => if s = 1 then 0 else st)
      (r.2.map Prod.fst) (r.2.map Prod.snd)) (toInts idx) = dot (r.2.map Prod.snd) (toInts idx) := by
    intro idx hi; rw [h2]; exact dot_adapt hi _
  have hzl : (List.zipWith (fun (s : Int) st => if s = 1 then 0 else st)
      (r.2.map Prod.fst) (r.2.map Prod.snd)).length = X.length := by simp [hrl]
  have hidx : ∀ idx, InBounds X idx → ∀ lay,
      (svConstruct ⟨r.2.map Prod.fst, r.2.map Prod.snd, off + r.1, lay⟩).index (toInts idx) =
        off + r.1 + dot (r.2.map Prod.snd) (toInts idx) := by
    intro idx hi lay
    simp only [svConstruct, SView.index]
    rw [dataOffset_eq _ _ (by rw [hzl]; simp [hi.length_eq]), hdot idx hi]
  refine ⟨_, by rw [stridedView, hfill]; rfl, h2, ?_, ?_⟩
  · intro idx hi
    have h4 := h3 idx hi
    refine ⟨?_, ?_, selIndex_bounds hb (by rw [hX]; exact hi)⟩
    · rw [hidx idx hi, ← h4]; ring
    · have h5 := hidx idx hi (if doStridesMatch ((r.2.map Prod.fst).map Int.toNat) (r.2.map Prod.snd) l true
          then l else .dynamic)
      simp only [SView.index, SView.elementIndex, elementOffset_eq_dataOffset] at h5 ⊢
      rw [h5, ← h4]; ring
  · intro hlay
    have hm : doStridesMatch ((r.2.map Prod.fst).map Int.toNat) (r.2.map Prod.snd) l true = true := by
      by_contra hc
      apply hlay
      simp only [svConstruct, if_neg hc]
    refine ⟨by simp only [svConstruct, if_pos hm], ?_⟩
    intro idx hi
    have e : (r.2.map Prod.fst).map Int.toNat = X := by
      rw [h2]; simp [toInts, Function.comp_def]
    rw [e] at hm
    have h6 := (C13_contiguity_sound X (r.2.map Prod.snd) l true hstl hm).2 idx hi
    rw [dataOffset_eq _ _ (by rw [hstl]; simp [hi.length_eq])] at h6
    rw [hidx idx hi, h6]
    rfl

/-- C20: an axis of extent 1 of a strided view always reports stride 0. -/
theorem C20_unit_stride (sh : List Nat) (st : List Int) (off : Int) (l : Layout) (us : List USlice)
    (v : SView) (h : stridedView sh st off l us = .ok v) (k : Nat) (hk : v.shape[k]? = some 1) :
    v.strides[k]? = some 0 := by
  simp only [stridedView, svFillArgs] at h
  cases hc : svCount ⟨sh.length, sh.length, 0, false⟩ us with
  | throws => simp [hc, Res.bind, Res.map] at h
  | ub => simp [hc, Res.bind, Res.map] at h
  | ok c =>
    simp only [hc, Res.bind, Res.map] at h
    by_cases h1 : c.check < 0
    · rw [if_pos h1] at h; cases h
    · rw [if_neg h1] at h
      generalize svLoop sh st _ 0 0 us = R at h
      cases R with
      | throws => simp at h
      | ub => simp at h
      | ok r =>
        simp only at h
        by_cases h2 : (r.2.length : Int) ≠ c.dimension
        · rw [if_pos h2] at h; cases h
        · rw [if_neg h2] at h
          simp only [svConstruct, Res.ok.injEq] at h
          subst h
          simp only [List.getElem?_map, Option.map_eq_some_iff] at hk
          obtain ⟨p, hp, hp1⟩ := hk
          simp [List.getElem?_zipWith, hp, hp1]

example : stridedView [2, 1] [1, 0] 5 .dynamic [.newaxis, .range (some 1) none none] =
    .ok ⟨[1, 1, 1], [0, 0, 0], 6, .dynamic⟩ := by decide

/-- Witness: `strided_view(a, {1, ellipsis, newaxis, range(_, _, -2)})` on a 4-axis parent. -/
example : SlicesValid [2, 3, 5, 4] (expandEllipsis 4 [.int 1, .ellipsis, .newaxis, .range none none (some (-2))]) ∧
    selShape [2, 3, 5, 4] (expandEllipsis 4 [.int 1, .ellipsis, .newaxis, .range none none (some (-2))])
      = [3, 5, 1, 2] ∧
    stridedView [2, 3, 5, 4] [60, 20, 4, 1] 0 .row_major
      [.int 1, .ellipsis, .newaxis, .range none none (some (-2))] =
      .ok ⟨[3, 5, 1, 2], [20, 4, 0, -2], 63, .dynamic⟩ := by decide

/-- Witness: a contiguous selection keeps its layout. -/
example : stridedView [2, 3] [3, 1] 0 .row_major [.int 1] = .ok ⟨[3], [1], 3, .row_major⟩ := by decide

/-- C20 fails for negative integers, which are not normalised: `strided_view(a, {-1})` on a vector of
length 3 addresses the position before the buffer (NumPy and `view(a, -1)`: position 2). -/
theorem C20_negative_int_wrong :
    SlicesValid [3] [.int (-1)] ∧
    stridedView [3] [1] 0 .row_major [.int (-1)] = .ok ⟨[], [], -1, .row_major⟩ ∧
    selIndex [3] [.int (-1)] [] = [2] := by decide

/-- `flat(i)` (also `data_element`, `load_simd`) of a contiguous strided view ignores the offset:
`strided_view(a, {1}).flat(0)` on a `2×3` array is `a(0,0)`, not `a(1,0)`. -/
theorem C20_flat_ignores_offset :
    ∃ v, stridedView [2, 3] [3, 1] 0 .row_major [.int 1] = .ok v ∧ v.layout = .row_major ∧
      v.index [0] = 3 ∧ v.linear 0 = 3 ∧ v.flat 0 = 0 :=
  ⟨⟨[3], [1], 3, .row_major⟩, by decide⟩

/-! ### reshape_view -/

/-- C20: `reshape_view<L>(e, shape)` with as many elements as `e` reads, at every in-bounds index,
the element of `e` with the same rank in order `L`. -/
theorem C20_reshape_view (L : Layout) (hL : L = .row_major ∨ L = .column_major) (sh shape : List Nat)
    (hsz : numel shape = numel sh) (idx : List Nat) (hi : InBounds shape idx) :
    ∃ j, InBounds sh j ∧ reshapeViewIndex sh L shape (toInts idx) = some (toInts j) ∧
      rankIn L sh j = rankIn L shape idx := by
  have hoff : dataOffset (computeStrides .dynamic L shape).1 false (toInts idx) =
      (rankIn L shape idx : Int) := by
    rw [dataOffset_eq _ _ (by simp [hi.length_eq])]
    rcases hL with rfl | rfl
    · exact dot_computeStrides_row (Or.inr rfl) hi
    · exact dot_computeStrides_col (by simp) hi
  have hlt : rankIn L shape idx < numel sh := by
    rw [← hsz]
    rcases hL with rfl | rfl
    · exact rowRank_lt hi
    · exact colRank_lt hi
  obtain ⟨j, h1, h2, h3⟩ := C03_ravel_unravel L hL sh _ hlt
  refine ⟨j, h1, ?_, ?_⟩
  · rw [reshapeViewIndex, hoff]; exact h2
  · have := (C03_unravel_ravel L hL sh j h1).1
    rw [h3] at this
    exact (Int.natCast_inj.mp this).symm

example : numel [3, 4] = numel [2, 6] ∧ InBounds [3, 4] [2, 1] ∧
    reshapeViewIndex [2, 6] .row_major [3, 4] [2, 1] = some [1, 3] := by decide

/-- C20: `reshape_view` with one `-1` extent: when the product of the other extents is positive and
divides the size, the placeholder is replaced by the extent that preserves the size. -/
theorem C20_reshape_view_placeholder (pre post : List Nat) (size : Nat)
    (hpos : 0 < numel pre * numel post) (hd : numel pre * numel post ∣ size) :
    ∃ k : Nat, recalculateShape (toInts pre ++ [-1] ++ toInts post) size =
        .ok (toInts (pre ++ [k] ++ post)) ∧ numel (pre ++ [k] ++ post) = size := by
  obtain ⟨k, rfl⟩ := hd
  refine ⟨k, ?_, ?_⟩
  · have hfind : (toInts pre ++ [-1] ++ toInts post).findIdx? (· = -1) = some pre.length := by
      rw [List.append_assoc, List.findIdx?_append]
      have : (toInts pre).findIdx? (fun x => decide (x = -1)) = none := by
        rw [List.findIdx?_eq_none_iff]; intro x hx
        simp only [toInts, List.mem_map] at hx
        obtain ⟨n, -, rfl⟩ := hx
        simp only [Int.ofNat_eq_natCast, decide_eq_false_iff_not]; omega
      rw [this]; simp [List.findIdx?_cons]
    have hfold : ∀ (l : List Nat) (a : Int), (toInts l).foldl (· * ·) a = a * numel l := by
      intro l
      induction l with
      | nil => intro a; simp [numel, toInts]
      | cons n l ih =>
        intro a
        have := ih (a * n)
        simp only [toInts, List.map_cons, List.foldl_cons, numel, Int.ofNat_eq_natCast] at this ⊢
        rw [this]; push_cast; ring
    have htot : (toInts pre ++ [-1] ++ toInts post).foldl (· * ·) (-1) =
        ((numel pre * numel post : Nat) : Int) := by
      rw [List.foldl_append, List.foldl_append, hfold, hfold]
      simp only [List.foldl_cons, List.foldl_nil]; push_cast; ring
    simp only [recalculateShape, hfind, htot]
    rw [if_neg (by omega)]
    congr 1
    rw [Nat.cast_mul, Int.mul_tdiv_cancel_left _ (by omega)]
    have hl : (toInts pre).length = pre.length := by simp [toInts]
    rw [List.append_assoc, List.set_append_right _ _ (by omega), hl]
    simp [toInts]
  · have happ : ∀ a b : List Nat, numel (a ++ b) = numel a * numel b := by
      intro a b
      induction a with
      | nil => simp [numel]
      | cons x a ih => simp [numel, ih, Nat.mul_assoc]
    rw [happ, happ]; simp [numel]; ring

example : recalculateShape [2, -1, 3] 24 = .ok [2, 4, 3] := by decide

/-- `reshape_view` checks nothing: a shape with more elements than the expression is accepted and its
last elements are read outside the expression; a placeholder that does not divide is truncated; a
zero extent beside a placeholder divides by zero. -/
theorem C20_reshape_view_unchecked :
    (InBounds [5] [4] ∧ reshapeViewIndex [2, 2] .row_major [5] [4] = some [2, 0] ∧
      ¬ InBounds [2, 2] [2, 0]) ∧
    recalculateShape [3, -1] 7 = .ok [3, 2] ∧ recalculateShape [0, -1] 0 = .ub := by decide

end Xt
