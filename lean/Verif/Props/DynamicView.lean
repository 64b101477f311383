import Verif.Model.DynamicView
import Verif.Props.StridedView
/-!
# C73: `dynamic_view`
-/

namespace Xt
open Spec

/-! ### The main loop -/

theorem dvAxes_eq (sh : List Nat) (st : List Int) (ax n : Nat) (hl : st.length = sh.length)
    (h : ax + n ≤ sh.length) :
    dvAxes sh st ax n = .ok (((zipAxes (sh.drop ax) (st.drop ax)).take n).map fakeAxis) := by
  simp only [dvAxes, svAxes_eq sh st ax n hl h, Res.map, Res.bind]

/-- What the main loop computes, with the parent's axes consumed from the front. -/
def dvRec (nAll : Nat) : List Nat → List Int → List USlice → Option (Int × List DAxis)
  | sh, st, [] => some (0, (zipAxes sh st).map fakeAxis)
  | sh, st, .newaxis :: us => (dvRec nAll sh st us).map fun r => (r.1, fakeAxis (1, 0) :: r.2)
  | sh, st, .ellipsis :: us => if nAll ≤ sh.length then
      (dvRec nAll (sh.drop nAll) (st.drop nAll) us).map fun r =>
        (r.1, ((zipAxes sh st).take nAll).map fakeAxis ++ r.2) else none
  | _ :: sh, s :: st, .int c :: us => (dvRec nAll sh st us).map fun r => (c * s + r.1, r.2)
  | n :: sh, s :: st, .all :: us =>
      (dvRec nAll sh st us).map fun r => (r.1, fakeAxis ((n : Int), s) :: r.2)
  | n :: sh, s :: st, .range a b k :: us => match rangeGet a b k n with
    | .ok sl => (dvRec nAll sh st us).map fun r =>
        (sl.value 0 * s + r.1, fakeAxis (sl.size, sl.stepSize 1 1 * s) :: r.2)
    | _ => none
  | n :: sh, s :: st, .keep l :: us =>
      (dvRec nAll sh st us).map fun r => (r.1, selAxis (.keep (l.map (normIndex n))) s :: r.2)
  | n :: sh, s :: st, .drop l :: us =>
      (dvRec nAll sh st us).map fun r => (r.1, selAxis (dropNormalize [] l n) s :: r.2)
  | _, _, _ => none

theorem dvLoop_eq (sh : List Nat) (st : List Int) (nAll : Nat) (hl : st.length = sh.length)
    (us : List USlice) (i : Nat) (skip : Int) (ax : Nat) (hax : (i : Int) - skip = ax)
    (r : Int × List DAxis)
    (h : dvRec nAll (sh.drop ax) (st.drop ax) us = some r) :
    dvLoop sh st nAll i skip us = .ok r := by
  induction us generalizing i skip ax r with
  | nil =>
    have e : ((i : Int) - skip).toNat = ax := by omega
    simp only [dvLoop, e]
    simp only [dvRec, Option.some.injEq] at h
    by_cases hle : ax ≤ sh.length
    · rw [dvAxes_eq sh st ax _ hl (by omega), ← h]
      simp only [Res.map, Res.bind]
      rw [List.take_of_length_le (by simp [zipAxes, hl])]
    · rw [Nat.sub_eq_zero_of_le (by omega), ← h]
      simp only [dvAxes, svAxes, Res.map, Res.bind]
      rw [List.drop_eq_nil_of_le (by omega : sh.length ≤ ax)]
      simp [zipAxes, toInts]
  | cons u us ih =>
    have e : ((i : Int) - skip).toNat = ax := by omega
    have cons_case : ∀ {n : Nat} {s : Int} {sh' : List Nat} {st' : List Int},
        sh.drop ax = n :: sh' → st.drop ax = s :: st' →
        sh[ax]? = some n ∧ st[ax]? = some s ∧ sh' = sh.drop (ax + 1) ∧ st' = st.drop (ax + 1) := by
      intro n s sh' st' h1 h2
      refine ⟨?_, ?_, ?_, ?_⟩
      · have := List.getElem?_drop (xs := sh) (i := ax) (j := 0); rw [h1] at this; simpa using this.symm
      · have := List.getElem?_drop (xs := st) (i := ax) (j := 0); rw [h2] at this; simpa using this.symm
      · rw [← List.drop_drop, h1]; rfl
      · rw [← List.drop_drop, h2]; rfl
    cases u with
    | newaxis =>
      simp only [dvRec, Option.map_eq_some_iff] at h
      obtain ⟨r', h1, rfl⟩ := h
      simp only [dvLoop]
      rw [ih (i + 1) (skip + 1) ax (by push_cast; omega) r' h1]; rfl
    | ellipsis =>
      simp only [dvRec] at h
      by_cases hle : nAll ≤ (sh.drop ax).length
      · rw [if_pos hle, Option.map_eq_some_iff] at h
        obtain ⟨r', h1, rfl⟩ := h
        rw [List.drop_drop, List.drop_drop] at h1
        simp only [dvLoop, e]
        rw [List.length_drop] at hle
        by_cases hax2 : ax ≤ sh.length
        · rw [dvAxes_eq sh st ax nAll hl (by omega), Res.bind,
            ih (i + 1) _ (ax + nAll) (by push_cast; omega) r' h1]; rfl
        · have : nAll = 0 := by omega
          subst this
          simp only [dvAxes, svAxes, Res.map, Res.bind]
          have := ih (i + 1) (skip - ((0 : Nat) : Int) + 1) ax (by push_cast; omega) r' (by simpa using h1)
          rw [this]; rfl
      · rw [if_neg hle] at h; cases h
    | _ =>
      cases h1 : sh.drop ax with
      | nil => rw [h1] at h; simp [dvRec] at h
      | cons n sh' => cases h2 : st.drop ax with
        | nil => rw [h1, h2] at h; simp [dvRec] at h
        | cons s st' =>
          obtain ⟨c1, c2, c3, c4⟩ := cons_case h1 h2
          rw [h1, h2] at h
          first
            | (simp only [dvRec, Option.map_eq_some_iff] at h
               obtain ⟨r', h3, rfl⟩ := h
               rw [c3, c4] at h3
               simp only [dvLoop, e, svAxis, c1, c2, Res.bind]
               rw [ih (i + 1) skip (ax + 1) (by push_cast; omega) r' h3]; rfl)
            | (simp only [dvRec] at h
               split at h
               · rename_i sl hg
                 simp only [Option.map_eq_some_iff] at h
                 obtain ⟨r', h3, rfl⟩ := h
                 rw [c3, c4] at h3
                 simp only [dvLoop, e, c1, c2, hg, Res.bind]
                 rw [ih (i + 1) skip (ax + 1) (by push_cast; omega) r' h3]; rfl
               · cases h)

/-- `all` repeated copies axes, like an ellipsis. -/
theorem dvRec_replicate_all (m nAll : Nat) (sh : List Nat) (st : List Int) (us : List USlice)
    (hl : st.length = sh.length) (hm : m ≤ sh.length) :
    dvRec nAll sh st (List.replicate m .all ++ us) =
      (dvRec nAll (sh.drop m) (st.drop m) us).map fun r =>
        (r.1, ((zipAxes sh st).take m).map fakeAxis ++ r.2) := by
  induction m generalizing sh st with
  | zero => simp
  | succ m ih =>
    cases sh with
    | nil => simp at hm
    | cons n sh => cases st with
      | nil => simp at hl
      | cons s st =>
        rw [List.replicate_succ, List.cons_append, dvRec,
          ih sh st (by simpa using hl) (by simpa using hm)]
        simp [zipAxes, toInts, Option.map_map, Function.comp_def]

theorem dvRec_expand (nAll : Nat) (sh : List Nat) (st : List Int) (us : List USlice)
    (hl : st.length = sh.length) (r : Int × List DAxis)
    (h : dvRec 0 sh st (expandWith nAll us) = some r) : dvRec nAll sh st us = some r := by
  induction us generalizing sh st r with
  | nil => simpa [expandWith, dvRec] using h
  | cons u us ih =>
    have e' : ∀ u, u ≠ .ellipsis → expandWith nAll (u :: us) = u :: expandWith nAll us := by
      intro u hu; simp [expandWith, hu]
    cases u with
    | ellipsis =>
      have e : expandWith nAll (.ellipsis :: us) = List.replicate nAll .all ++ expandWith nAll us := by
        simp [expandWith]
      rw [e] at h
      by_cases hm : nAll ≤ sh.length
      · rw [dvRec_replicate_all nAll 0 sh st _ hl hm, Option.map_eq_some_iff] at h
        obtain ⟨r', h1, rfl⟩ := h
        simp only [dvRec, if_pos hm]
        rw [ih _ _ (by simp [hl]) r' h1]; rfl
      · exfalso
        have : ∀ (m : Nat) (sh : List Nat) (st : List Int) (us : List USlice), sh.length < m →
            dvRec 0 sh st (List.replicate m .all ++ us) = none := by
          intro m
          induction m with
          | zero => intro sh st us h; omega
          | succ m ih' =>
            intro sh st us hlt
            cases sh with
            | nil => cases st <;> simp [List.replicate_succ, dvRec]
            | cons n sh => cases st with
              | nil => simp [List.replicate_succ, dvRec]
              | cons s st =>
                rw [List.replicate_succ, List.cons_append, dvRec, ih' sh st us (by simpa using hlt)]
                rfl
        rw [this nAll sh st _ (by omega)] at h
        cases h
    | newaxis =>
      rw [e' _ (by simp)] at h
      simp only [dvRec, Option.map_eq_some_iff] at h ⊢
      obtain ⟨r', h1, rfl⟩ := h
      exact ⟨r', ih sh st hl r' h1, rfl⟩
    | range a b k =>
      rw [e' _ (by simp)] at h
      cases sh with
      | nil => simp [dvRec] at h
      | cons n sh => cases st with
        | nil => simp at hl
        | cons s st =>
          simp only [dvRec] at h ⊢
          cases hg : rangeGet a b k n with
          | ok sl =>
            simp only [hg, Option.map_eq_some_iff] at h ⊢
            obtain ⟨r', h1, rfl⟩ := h
            exact ⟨r', ih sh st (by simpa using hl) r' h1, rfl⟩
          | throws => simp [hg] at h
          | ub => simp [hg] at h
    | _ =>
      rw [e' _ (by simp)] at h
      cases sh with
      | nil => simp [dvRec] at h
      | cons n sh => cases st with
        | nil => simp at hl
        | cons s st =>
          simp only [dvRec, Option.map_eq_some_iff] at h ⊢
          obtain ⟨r', h1, rfl⟩ := h
          exact ⟨r', ih sh st (by simpa using hl) r' h1, rfl⟩

/-- What the axes contribute to a position: stride times index, plus slice value times adjusting
stride. -/
def axSum : List DAxis → List Int → Int
  | a :: as, i :: is => a.stride * i + a.slice.value i * a.adj + axSum as is
  | _, _ => 0

theorem axSum_fake (l : List (Int × Int)) (is : List Int) :
    axSum (l.map fakeAxis) is = dot (l.map Prod.snd) is := by
  induction l generalizing is with
  | nil => cases is <;> simp [axSum]
  | cons p l ih => cases is with
    | nil => simp [axSum]
    | cons i is => simp [axSum, dot, fakeAxis, DSl.value, ih]; ring

/-- On a slice vector without ellipsis the loop produces the shape of the selection, and offset,
strides and slices that address the selected elements. -/
theorem dvRec_spec (sh : List Nat) (st : List Int) (us : List USlice) (hl : st.length = sh.length)
    (hv : SlicesValid sh us) (hn : IntsNonneg us) :
    ∃ r, dvRec 0 sh st us = some r ∧ r.2.map DAxis.extent = toInts (selShape sh us) ∧
      ∀ idx, InBounds (selShape sh us) idx →
        r.1 + axSum r.2 (toInts idx) = dot st (selIndex sh us idx) := by
  induction us generalizing sh st with
  | nil =>
    refine ⟨_, rfl, ?_, ?_⟩
    · simp only [zipAxes, selShape, List.map_map, Function.comp_def, fakeAxis]
      exact List.map_fst_zip (by simp [toInts, hl])
    · intro idx _
      rw [axSum_fake]
      simp only [zipAxes, selIndex]
      rw [List.map_snd_zip (by simp [toInts, hl])]; simp
  | cons u us ih =>
    have hn' : IntsNonneg us := fun c hc => hn c (by simp [hc])
    have selCase : ∀ (n : Nat) (sh : List Nat) (s : Int) (st : List Int) (u : USlice) (sl : Sl),
        st.length = sh.length → SlicesValid sh us → SliceOk n u sl → (∀ c, u ≠ .int c) →
        u ≠ .newaxis → u ≠ .ellipsis →
        dvRec 0 (n :: sh) (s :: st) (u :: us) =
          (dvRec 0 sh st us).map (fun r => (r.1, selAxis sl s :: r.2)) →
        ∃ r, dvRec 0 (n :: sh) (s :: st) (u :: us) = some r ∧
          r.2.map DAxis.extent = toInts (selShape (n :: sh) (u :: us)) ∧
          ∀ idx, InBounds (selShape (n :: sh) (u :: us)) idx →
            r.1 + axSum r.2 (toInts idx) = dot (s :: st) (selIndex (n :: sh) (u :: us) idx) := by
      intro n sh s st u sl hl' hv' hok hu1 hu2 hu3 hdv
      obtain ⟨r, h1, h2, h3⟩ := ih sh st hl' hv' hn'
      have hsh : selShape (n :: sh) (u :: us) = (axisSel n u).length :: selShape sh us := by
        cases u <;> simp_all [selShape]
      refine ⟨(r.1, selAxis sl s :: r.2), by rw [hdv, h1]; rfl, ?_, ?_⟩
      · rw [hsh]; simp [h2, selAxis, toInts, hok.size]
      · intro idx hi
        rw [hsh] at hi
        cases idx with
        | nil => simp [InBounds] at hi
        | cons a idx =>
          have hi' : a < (axisSel n u).length ∧ InBounds (selShape sh us) idx := hi
          have hx : selIndex (n :: sh) (u :: us) (a :: idx) =
              (axisSel n u).getD a 0 :: selIndex sh us idx := by
            cases u <;> simp_all [selIndex]
          have := h3 idx hi'.2
          rw [hx]
          simp only [dot, ← this, ← hok.value a hi'.1, toInts, List.map_cons, axSum, selAxis, DSl.value]
          simp only [Int.ofNat_eq_natCast]; ring
    cases u with
    | newaxis =>
      obtain ⟨r, h1, h2, h3⟩ := ih sh st hl hv hn'
      refine ⟨(r.1, fakeAxis (1, 0) :: r.2), by simp [dvRec, h1],
        by simp [selShape, h2, toInts, fakeAxis], ?_⟩
      intro idx hi
      cases idx with
      | nil => simp [selShape, InBounds] at hi
      | cons a idx =>
        have := h3 idx hi.2
        simp only [selIndex, ← this, toInts, List.map_cons, axSum, fakeAxis, DSl.value]; ring
    | ellipsis => exact absurd hv (by cases sh <;> simp [SlicesValid, SliceValid])
    | keep l =>
      cases sh with
      | nil => simp [SlicesValid] at hv
      | cons n sh => cases st with
        | nil => simp at hl
        | cons s st =>
          obtain ⟨sl, hg, hok⟩ := slice_ok (u := .keep l) hv.1 (by simp)
          simp only [getSlice, Res.ok.injEq] at hg
          subst hg
          exact selCase n sh s st _ _ (by simpa using hl) hv.2 hok (by simp) (by simp) (by simp) rfl
    | drop l =>
      cases sh with
      | nil => simp [SlicesValid] at hv
      | cons n sh => cases st with
        | nil => simp at hl
        | cons s st =>
          obtain ⟨sl, hg, hok⟩ := slice_ok (u := .drop l) hv.1 (by simp)
          simp only [getSlice, Res.ok.injEq] at hg
          subst hg
          exact selCase n sh s st _ _ (by simpa using hl) hv.2 hok (by simp) (by simp) (by simp) rfl
    | int c =>
      cases sh with
      | nil => simp [SlicesValid] at hv
      | cons n sh => cases st with
        | nil => simp at hl
        | cons s st =>
          obtain ⟨r, h1, h2, h3⟩ := ih sh st (by simpa using hl) hv.2 hn'
          refine ⟨(c * s + r.1, r.2), by simp [dvRec, h1], by simp [selShape, h2], ?_⟩
          intro idx hi
          have := h3 idx hi
          have hc := hn c (by simp)
          simp only [selIndex, dot, ← this, pyIndex, if_neg (show ¬ c < 0 by omega)]; ring
    | all =>
      cases sh with
      | nil => simp [SlicesValid] at hv
      | cons n sh => cases st with
        | nil => simp at hl
        | cons s st =>
          obtain ⟨r, h1, h2, h3⟩ := ih sh st (by simpa using hl) hv.2 hn'
          refine ⟨(r.1, fakeAxis ((n : Int), s) :: r.2), by simp [dvRec, h1],
            by simp [selShape, h2, axisSel, toInts, fakeAxis], ?_⟩
          intro idx hi
          cases idx with
          | nil => simp [selShape, InBounds] at hi
          | cons a idx =>
            have hi' : a < n ∧ InBounds (selShape sh us) idx := by
              simpa [selShape, axisSel, InBounds] using hi
            have := h3 idx hi'.2
            have ha : (axisSel n .all).getD a 0 = (a : Int) := by
              simp [axisSel, List.getElem?_range hi'.1]
            simp only [selIndex, ha, dot, ← this, toInts, List.map_cons, axSum, fakeAxis, DSl.value]
            simp only [Int.ofNat_eq_natCast]; ring
    | range x y k =>
      cases sh with
      | nil => simp [SlicesValid] at hv
      | cons n sh => cases st with
        | nil => simp at hl
        | cons s st =>
          obtain ⟨r, h1, h2, h3⟩ := ih sh st (by simpa using hl) hv.2 hn'
          obtain ⟨sl, hg, hok⟩ := slice_ok (u := .range x y k) hv.1 (by simp)
          have hg' : rangeGet x y k n = .ok sl := hg
          have hstr := bindSlices_strided (full := [n]) (us := [.range x y k]) (pre := 0) (S := [sl])
            (by simp [bindSlices, USlice.isNew, hg, Res.map, Res.bind])
            (by intro u hu; simp at hu; subst hu; simp) sl (by simp)
          have hint : sl.isInt = false := (rangeGet_shape hg').2
          refine ⟨(sl.value 0 * s + r.1, fakeAxis (sl.size, sl.stepSize 1 1 * s) :: r.2),
            by simp [dvRec, h1, hg'], by simp [selShape, h2, toInts, hok.size, fakeAxis], ?_⟩
          intro idx hi
          cases idx with
          | nil => simp [selShape, InBounds] at hi
          | cons a idx =>
            have hi' : a < (axisSel n (.range x y k)).length ∧ InBounds (selShape sh us) idx := hi
            have := h3 idx hi'.2
            simp only [selIndex, dot, ← this, toInts, List.map_cons, ← hok.value a hi'.1, hstr a hint,
              axSum, fakeAxis, DSl.value]
            simp only [Int.ofNat_eq_natCast]; ring

/-! ### Element access -/

theorem axSum_eq (as : List DAxis) (is : List Int) :
    axSum as is = dot (as.map DAxis.stride) is + axSum (as.map fun a => { a with stride := 0 }) is := by
  induction as generalizing is with
  | nil => cases is <;> simp [axSum, dot]
  | cons a as ih => cases is with
    | nil => simp [axSum, dot]
    | cons i is => simp only [axSum, List.map_cons, dot, ih is]; ring

theorem adjustImpl_eq (as : List DAxis) (is : List Int) (o : Int) :
    adjustImpl o as is = o + axSum (as.map fun a => { a with stride := 0 }) is := by
  induction as generalizing is o with
  | nil => cases is <;> simp [axSum, adjustImpl]
  | cons a as ih => cases is with
    | nil => simp [axSum, adjustImpl]
    | cons i is => simp only [axSum, List.map_cons, adjustImpl, ih]; ring

theorem adjustElementLoop_eq (as : List DAxis) (is : List Int) (o : Int) :
    adjustElementLoop o as is = adjustImpl o as is := by
  induction as generalizing is o with
  | nil => cases is <;> simp [adjustElementLoop, adjustImpl]
  | cons a as ih => cases is with
    | nil => simp [adjustElementLoop, adjustImpl]
    | cons i is => simp only [adjustElementLoop, adjustImpl, ih]

theorem adjustOffset_ge (v : DView) (o : Int) (is : List Int) (h : v.axes.length ≤ is.length) :
    adjustOffset v o is = adjustImpl o v.axes (is.drop (is.length - v.axes.length)) := by
  induction is with
  | nil => 
    have : v.axes = [] := by simpa using h
    simp [adjustOffset, this, adjustImpl]
  | cons i is ih =>
    simp only [adjustOffset]
    by_cases h' : v.axes.length < is.length + 1
    · rw [if_pos h', ih (by omega)]
      congr 1
      rw [List.length_cons, show is.length + 1 - v.axes.length = (is.length - v.axes.length) + 1 by omega]
      rfl
    · have e : v.axes.length = is.length + 1 := by simp at h; omega
      rw [if_neg h', List.length_cons, ← e]; simp

theorem adjustOffset_le (v : DView) (o : Int) (is : List Int) (h : is.length ≤ v.axes.length) :
    adjustOffset v o is = adjustImpl o (v.axes.drop (v.axes.length - is.length)) is := by
  cases is with
  | nil => simp [adjustOffset, adjustImpl]
  | cons i is =>
    simp only [adjustOffset]
    rw [if_neg (by simp at h; omega)]; rfl

theorem index_eq (v : DView) (is : List Int) (h : is.length = v.axes.length) :
    v.index is = v.offset + axSum v.axes is := by
  rw [DView.index, adjustOffset_ge v _ is (by omega), h, adjustImpl_eq,
    dataOffset_eq _ _ (by simp [DView.strides, h]), axSum_eq v.axes is]
  simp [DView.strides]; ring

theorem elementIndex_eq_index (v : DView) (is : List Int) : v.elementIndex is = v.index is := by
  simp only [DView.elementIndex, adjustElementOffset, elementOffset_eq_dataOffset,
    adjustElementLoop_eq, DView.index]
  by_cases h : is.length < v.axes.length
  · rw [if_pos h, if_neg (by omega), adjustOffset_le v _ is (by omega)]; rfl
  · rw [if_neg h, adjustOffset_ge v _ is (by omega)]
    by_cases h' : v.axes.length < is.length
    · rw [if_pos h']; rfl
    · have : is.length = v.axes.length := by omega
      rw [if_neg h', this]; simp

theorem axSum_unitStride (as : List DAxis) {X idx : List Nat} (hx : as.map DAxis.extent = toInts X)
    (hi : InBounds X idx) : axSum (as.map unitStride) (toInts idx) = axSum as (toInts idx) := by
  induction as generalizing X idx with
  | nil => rfl
  | cons a as ih =>
    cases X with
    | nil => simp [toInts] at hx
    | cons n X => cases idx with
      | nil => simp [InBounds] at hi
      | cons i idx =>
        simp only [toInts, List.map_cons, List.cons.injEq] at hx
        have := ih (X := X) (idx := idx) hx.2 hi.2
        simp only [toInts, List.map_cons, axSum] at this ⊢
        rw [this]
        have h1 := hi.1
        unfold unitStride
        split
        · rename_i he
          have : n = 1 := by rw [hx.1] at he; simpa using he
          have : i = 0 := by omega
          subst this; simp
        · rfl

/-- C73: a dynamic view is rejected exactly as a strided view is: for a second ellipsis, and for more
slices than axes. -/
theorem C73_bad_slices_throw (sh : List Nat) (st : List Int) (off : Int) (l : Layout)
    (us : List USlice) (h : 2 ≤ us.count .ellipsis ∨
      sh.length < (us.filter fun u => u ≠ .ellipsis ∧ u ≠ .newaxis).length) :
    dynamicView sh st off l us = .throws := by
  by_cases h2 : 2 ≤ us.count .ellipsis
  · have h3 := C20_two_ellipses_throw sh st off l us h2
    cases hc : svCount ⟨sh.length, sh.length, 0, false⟩ us with
    | throws => simp only [dynamicView, hc]; rfl
    | ub => 
      rw [stridedView, svFillArgs, hc] at h3; simp [Res.map, Res.bind] at h3
    | ok c =>
      exfalso
      have key : ∀ (us : List USlice) (c c' : SvCount), svCount c us = .ok c' →
          us.count .ellipsis + (if c.ellipsis then 1 else 0) ≤ 1 := by
        intro us
        induction us with
        | nil => intro c c' _; simp; split <;> simp
        | cons u us ih =>
          intro c c' h
          cases u
          case ellipsis =>
            simp only [svCount] at h
            split at h
            · cases h
            · rename_i hc
              have := ih _ _ h
              simp [hc] at this ⊢; exact this
          all_goals
            simp only [svCount] at h
            have := ih _ _ h
            simpa [List.count_cons] using this
      have := key us _ _ hc
      simp at this; omega
  · have := svCount_ok us ⟨sh.length, sh.length, 0, false⟩ (by simp; omega)
    have h4 := h.resolve_left h2
    simp only [dynamicView, this, Res.bind]
    rw [if_pos (by simp only [nAxes]; omega)]

example : dynamicView [3, 4] [4, 1] 0 .row_major [.ellipsis, .keep [1], .ellipsis] = .throws ∧
    dynamicView [3] [1] 0 .row_major [.keep [1], .newaxis, .all] = .throws := by decide

/-- C73: for every slice vector of integers, ranges, `all`, newaxes, keeps, drops and at most one
ellipsis, the view is built without error, its shape is that of the selection, and `operator()`,
`element` and `operator[]` at every in-bounds index read the parent's storage where the selected
element — an in-bounds element of the parent — is.  Arguments beyond the dimension are dropped from
the left.  (Full claim: integers may be negative, `C73_negative_int_wrong`; fewer arguments than axes
stand for leading zeros, `C73_fewer_arguments_wrong`.) -/
theorem C73_dynamic_view_partial (sh : List Nat) (st : List Int) (off : Int) (l : Layout)
    (us : List USlice) (hl : st.length = sh.length) (he : us.count .ellipsis ≤ 1)
    (hv : SlicesValid sh (expandEllipsis sh.length us)) (hn : IntsNonneg us) :
    ∃ v, dynamicView sh st off l us = .ok v ∧
      v.shape = toInts (selShape sh (expandEllipsis sh.length us)) ∧
      ∀ idx, InBounds (selShape sh (expandEllipsis sh.length us)) idx →
        v.index (toInts idx) = off + dot st (selIndex sh (expandEllipsis sh.length us) idx) ∧
        v.elementIndex (toInts idx) = off + dot st (selIndex sh (expandEllipsis sh.length us) idx) ∧
        (∀ extra : List Int, v.index (extra ++ toInts idx) = v.index (toInts idx) ∧
          v.elementIndex (extra ++ toInts idx) = v.index (toInts idx)) ∧
        ∃ pidx, InBounds sh pidx ∧ selIndex sh (expandEllipsis sh.length us) idx = toInts pidx := by
  have hE : expandEllipsis sh.length us = expandWith (sh.length - nAxes us) us := rfl
  have hcnt := svCount_ok us ⟨sh.length, sh.length, 0, false⟩ (by simpa using he)
  have hax : nAxes us ≤ sh.length := le_trans (nAxes_expandWith _ us) (nAxes_le hv)
  have hlen := length_counts us
  have hn' : IntsNonneg (expandEllipsis sh.length us) := by
    intro c hc; rw [hE] at hc
    rcases mem_expandWith hc with h | h
    · exact hn c h
    · cases h
  obtain ⟨r, h1, h2, h3⟩ := dvRec_spec sh st _ hl hv hn'
  obtain ⟨S, -, hb⟩ := makeView_ok hv
  have hAll : (if (decide (USlice.ellipsis ∈ us)) = true then
      (sh.length : Int) - ((us.length : Int) - 1 - nNew us) else 0).toNat =
      if .ellipsis ∈ us then sh.length - nAxes us else 0 := by
    by_cases hm : USlice.ellipsis ∈ us
    · have := List.count_pos_iff.mpr hm
      simp only [hm, decide_true, if_true]; omega
    · simp [hm]
  have hexp : expandWith (if .ellipsis ∈ us then sh.length - nAxes us else 0) us =
      expandEllipsis sh.length us := by
    by_cases hm : USlice.ellipsis ∈ us
    · rw [if_pos hm, hE]
    · rw [hE, expandWith_eq_self _ _ hm, expandWith_eq_self _ _ hm]
  have hloop := dvLoop_eq sh st (if .ellipsis ∈ us then sh.length - nAxes us else 0) hl us 0 0 0 rfl r
    (by simpa using dvRec_expand _ sh st us hl r (by rw [hexp]; exact h1))
  have hrl : r.2.length = (selShape sh (expandEllipsis sh.length us)).length := by
    have := congrArg List.length h2; simpa [toInts] using this
  have hdim : (r.2.length : Int) = sh.length + nNew us - nInt us := by
    rw [hrl, selShape_length_counts sh _ hv, hE, (expandWith_counts _ us).1, (expandWith_counts _ us).2]
  generalize hX : selShape sh (expandEllipsis sh.length us) = X at *
  refine ⟨⟨r.2.map unitStride, off + r.1, if doStridesMatch ((r.2.map DAxis.extent).map Int.toNat)
      (r.2.map DAxis.stride) l true then l else .dynamic⟩, ?_, ?_, ?_⟩
  · simp only [dynamicView, hcnt, Res.bind, Bool.false_or, Nat.zero_add]
    rw [if_neg (by simp only [not_lt]; omega), hAll, hloop]
    simp only
    rw [if_neg (by simp only [ne_eq, not_not]; exact hdim)]
  · simp only [DView.shape, List.map_map]
    rw [← h2]
    apply List.map_congr_left
    intro a _
    simp only [Function.comp_apply, unitStride]; split <;> rfl
  · intro idx hi
    have h4 := h3 idx hi
    have h5 := index_eq ⟨r.2.map unitStride, off + r.1,
      if doStridesMatch ((r.2.map DAxis.extent).map Int.toNat)
        (r.2.map DAxis.stride) l true then l else .dynamic⟩ (toInts idx)
      (by simp [toInts, hrl, hi.length_eq])
    simp only [axSum_unitStride r.2 h2 hi] at h5
    have h6 : ∀ (v : DView), v.axes.length = (toInts idx).length → ∀ extra : List Int,
        v.index (extra ++ toInts idx) = v.index (toInts idx) := by
      intro v hvl extra
      rw [DView.index, DView.index, adjustOffset_ge v _ _ (by simp [hvl]),
        adjustOffset_ge v _ (toInts idx) (by omega), dataOffset_ge _ _ (by simp [DView.strides, hvl]),
        dataOffset_ge _ (toInts idx) (by simp [DView.strides, hvl])]
      simp [DView.strides, hvl]
    refine ⟨by rw [h5, ← h4]; ring, by rw [elementIndex_eq_index, h5, ← h4]; ring, ?_,
      selIndex_bounds hb (by rw [hX]; exact hi)⟩
    intro extra
    rw [elementIndex_eq_index]
    exact ⟨h6 _ (by simp [toInts, hrl, hi.length_eq]) extra,
      h6 _ (by simp [toInts, hrl, hi.length_eq]) extra⟩

/-- Witness: keep, ellipsis and drop together on a 4-axis parent. -/
example : SlicesValid [3, 2, 2, 4]
      (expandEllipsis 4 [.keep [2, -3, 2], .ellipsis, .newaxis, .drop [1, -1]]) ∧
    selShape [3, 2, 2, 4] (expandEllipsis 4 [.keep [2, -3, 2], .ellipsis, .newaxis, .drop [1, -1]])
      = [3, 2, 2, 1, 2] ∧
    (dynamicView [3, 2, 2, 4] [16, 8, 4, 1] 0 .row_major
      [.keep [2, -3, 2], .ellipsis, .newaxis, .drop [1, -1]]).map
        (fun v => (v.shape, v.index [2, 1, 0, 0, 1])) = .ok ([3, 2, 2, 1, 2], 42) := by decide

/-! ### Without keeps and drops: a strided view -/

theorem dvLoop_svLoop (sh : List Nat) (st : List Int) (nAll : Nat) (us : List USlice)
    (hk : NoKeepDrop us) (i : Nat) (skip : Int) :
    dvLoop sh st nAll i skip us =
      (svLoop sh st nAll i skip us).map fun (r : Int × List (Int × Int)) => (r.1, r.2.map fakeAxis) := by
  induction us generalizing i skip with
  | nil => 
    simp only [dvLoop, svLoop, dvAxes]
    cases svAxes sh st ((i : Int) - skip).toNat (sh.length - ((i : Int) - skip).toNat) <;> rfl
  | cons u us ih =>
    have hk' : NoKeepDrop us := fun v hv => hk v (by simp [hv])
    cases u with
    | newaxis =>
      simp only [dvLoop, svLoop, ih hk']
      cases svLoop sh st nAll (i + 1) (skip + 1) us <;> rfl
    | ellipsis =>
      simp only [dvLoop, svLoop, ih hk', dvAxes]
      cases svAxes sh st ((i : Int) - skip).toNat nAll with
      | ok l => 
        simp only [Res.map, Res.bind]
        cases svLoop sh st nAll (i + 1) (skip - nAll + 1) us with
        | ok r => simp
        | throws => rfl
        | ub => rfl
      | throws => rfl
      | ub => rfl
    | int c =>
      simp only [dvLoop, svLoop, ih hk']
      cases st[((i : Int) - skip).toNat]? with
      | none => rfl
      | some s => cases svLoop sh st nAll (i + 1) skip us <;> rfl
    | all =>
      simp only [dvLoop, svLoop, ih hk']
      cases svAxis sh st ((i : Int) - skip).toNat with
      | ok p => cases svLoop sh st nAll (i + 1) skip us <;> rfl
      | throws => rfl
      | ub => rfl
    | range a b k =>
      simp only [dvLoop, svLoop, ih hk']
      cases sh[((i : Int) - skip).toNat]? with
      | none => rfl
      | some n => cases st[((i : Int) - skip).toNat]? with
        | none => rfl
        | some s => 
          simp only
          cases rangeGet a b k n with
          | ok sl => cases svLoop sh st nAll (i + 1) skip us <;> rfl
          | throws => rfl
          | ub => rfl
    | keep l => exact absurd rfl ((hk (.keep l) (by simp)).1 l)
    | drop l => exact absurd rfl ((hk (.drop l) (by simp)).2 l)

/-- The axes of a strided view, as axes of a dynamic view. -/
def asDynamic (v : SView) : DView :=
  ⟨(List.zip v.shape v.strides).map fakeAxis, v.offset, v.layout⟩

theorem dynamicView_stridedView (sh : List Nat) (st : List Int) (off : Int) (l : Layout)
    (us : List USlice) (hk : NoKeepDrop us) :
    dynamicView sh st off l us = (stridedView sh st off l us).map asDynamic := by
  simp only [dynamicView, stridedView, svFillArgs]
  cases svCount ⟨sh.length, sh.length, 0, false⟩ us with
  | throws => rfl
  | ub => rfl
  | ok c =>
    simp only [Res.bind, Res.map]
    by_cases h1 : c.check < 0
    · rw [if_pos h1, if_pos h1]
    · rw [if_neg h1, if_neg h1, dvLoop_svLoop sh st _ us hk]
      generalize svLoop sh st _ 0 0 us = R
      cases R with
      | throws => rfl
      | ub => rfl
      | ok r =>
        simp only [Res.map, Res.bind, List.length_map]
        by_cases h2 : (r.2.length : Int) ≠ c.dimension
        · rw [if_pos h2, if_pos h2]
        · rw [if_neg h2, if_neg h2]
          simp only [asDynamic, svConstruct, Res.ok.injEq, DView.mk.injEq, true_and]
          have e1 : (r.2.map fakeAxis).map DAxis.extent = r.2.map Prod.fst := by
            simp [Function.comp_def, fakeAxis]
          have e2 : (r.2.map fakeAxis).map DAxis.stride = r.2.map Prod.snd := by
            simp [Function.comp_def, fakeAxis]
          rw [e1, e2]
          refine ⟨?_, rfl⟩
          generalize r.2 = L
          induction L with
          | nil => rfl
          | cons p L ih =>
            simp only [List.map_cons, List.zipWith_cons_cons, List.zip_cons_cons, ih, List.cons.injEq,
              and_true, unitStride, fakeAxis]
            split <;> rfl

theorem adjustImpl_fake (l : List (Int × Int)) (is : List Int) (o : Int) :
    adjustImpl o (l.map fakeAxis) is = o := by
  induction l generalizing is o with
  | nil => cases is <;> rfl
  | cons p l ih => cases is with
    | nil => rfl
    | cons i is => simp [adjustImpl, fakeAxis, DSl.value, ih]

/-- C73: without keeps and drops, `dynamic_view` and `strided_view` end the same way on every slice
vector, and the two views agree in shape, in layout and in the element `operator()` and `element`
read for every list of arguments — also too few, too many, negative or out of bounds. -/
theorem C73_as_strided_view (sh : List Nat) (st : List Int) (off : Int) (l : Layout)
    (us : List USlice) (hk : NoKeepDrop us) :
    (stridedView sh st off l us = .throws ∧ dynamicView sh st off l us = .throws) ∨
    (stridedView sh st off l us = .ub ∧ dynamicView sh st off l us = .ub) ∨
    ∃ v w, stridedView sh st off l us = .ok v ∧ dynamicView sh st off l us = .ok w ∧
      w.shape = v.shape ∧ w.layout = v.layout ∧
      ∀ args, w.index args = v.index args ∧ w.elementIndex args = v.elementIndex args := by
  have h := dynamicView_stridedView sh st off l us hk
  cases hs : stridedView sh st off l us with
  | throws => rw [hs] at h; exact Or.inl ⟨rfl, h⟩
  | ub => rw [hs] at h; exact Or.inr (Or.inl ⟨rfl, h⟩)
  | ok v =>
    rw [hs] at h
    have hlen : v.strides.length = v.shape.length := by
      simp only [stridedView, svFillArgs] at hs
      cases hc : svCount ⟨sh.length, sh.length, 0, false⟩ us with
      | throws => simp [hc, Res.bind, Res.map] at hs
      | ub => simp [hc, Res.bind, Res.map] at hs
      | ok c =>
        simp only [hc, Res.bind, Res.map] at hs
        split at hs
        · rename_i x h1
          split at h1
          · cases h1
          · generalize svLoop sh st _ 0 0 us = R at h1
            cases R with
            | throws => simp at h1
            | ub => simp at h1
            | ok r =>
              simp only at h1
              split at h1
              · cases h1
              · simp only [Res.ok.injEq] at h1 hs
                subst h1; subst hs; simp [svConstruct]
        · cases hs
        · cases hs
    have hst : (asDynamic v).strides = v.strides := by
      simp only [asDynamic, DView.strides, List.map_map, Function.comp_def, fakeAxis]
      exact List.map_snd_zip (by omega)
    have hi : ∀ args, (asDynamic v).index args = v.index args := by
      intro args
      rw [DView.index, hst]
      have : (asDynamic v).offset + dataOffset v.strides false args = v.index args := rfl
      rw [this]
      by_cases hle : args.length ≤ (asDynamic v).axes.length
      · rw [adjustOffset_le _ _ _ hle]
        simp only [asDynamic, ← List.map_drop]
        exact adjustImpl_fake _ _ _
      · rw [adjustOffset_ge _ _ _ (by omega)]
        exact adjustImpl_fake _ _ _
    refine Or.inr (Or.inr ⟨v, asDynamic v, rfl, h, ?_, rfl, fun args => ⟨hi args, ?_⟩⟩)
    · simp only [asDynamic, DView.shape, List.map_map, Function.comp_def, fakeAxis]
      exact List.map_fst_zip (by omega)
    · rw [elementIndex_eq_index, hi, SView.index, SView.elementIndex, elementOffset_eq_dataOffset]

example : NoKeepDrop [.int 1, .ellipsis, .newaxis, .range none none (some (-2))] := by
  intro u hu; simp at hu; rcases hu with rfl | rfl | rfl | rfl <;> simp

/-! ### Too few arguments -/

theorem adjustImpl_append (as bs : List DAxis) (is js : List Int) (o : Int)
    (h : is.length = as.length) :
    adjustImpl o (as ++ bs) (is ++ js) = adjustImpl (adjustImpl o as is) bs js := by
  induction as generalizing is o with
  | nil => have : is = [] := by simpa using h
           subst this; cases bs <;> rfl
  | cons a as ih => cases is with
    | nil => simp at h
    | cons i is => exact ih _ _ (by simpa using h)

theorem dot_replicate_zero_left (st : List Int) (k : Nat) (is : List Int) (h : k ≤ st.length) :
    dot st (List.replicate k 0 ++ is) = dot (st.drop k) is := by
  induction k generalizing st with
  | zero => simp
  | succ k ih => cases st with
    | nil => simp at h
    | cons s st =>
      rw [List.replicate_succ, List.cons_append, dot, ih st (by simpa using h)]; simp

/-- C73: with fewer arguments than axes the missing leading ones stand for zero, provided none of the
axes left out comes from a keep or drop.  (Full claim: any axes; `C73_fewer_arguments_wrong` is the
counterexample.) -/
theorem C73_fewer_arguments_partial (v : DView) (args : List Int) (h : args.length ≤ v.axes.length)
    (hf : ∀ a ∈ v.axes.take (v.axes.length - args.length), a.slice = .fake) :
    v.index args = v.index (List.replicate (v.axes.length - args.length) 0 ++ args) ∧
    v.elementIndex args = v.index (List.replicate (v.axes.length - args.length) 0 ++ args) := by
  rw [elementIndex_eq_index]
  have key : v.index args = v.index (List.replicate (v.axes.length - args.length) 0 ++ args) := by
    rw [DView.index, DView.index, dataOffset_le _ _ (by simpa [DView.strides] using h),
      dataOffset_eq _ _ (by simp [DView.strides]; omega), adjustOffset_le v _ args h,
      adjustOffset_ge v _ (_ ++ args) (by simp; omega)]
    have e : (List.replicate (v.axes.length - args.length) (0 : Int) ++ args).length = v.axes.length := by
      simp; omega
    rw [e, Nat.sub_self, List.drop_zero]
    conv_rhs => rw [← List.take_append_drop (v.axes.length - args.length) v.axes]
    have e2 : (List.take (v.axes.length - args.length) v.axes ++
        List.drop (v.axes.length - args.length) v.axes).length - args.length =
        v.axes.length - args.length := by simp
    rw [e2, adjustImpl_append _ _ _ _ _ (by simp)]
    congr 1
    simp only [DView.strides, List.length_map]
    generalize v.offset + _ = o
    generalize List.take (v.axes.length - args.length) v.axes = as at hf
    generalize v.axes.length - args.length = k
    clear e e2
    induction as generalizing k with
    | nil => cases k <;> rfl
    | cons a as ih =>
      cases k with
      | zero => rfl
      | succ k =>
        rw [List.replicate_succ, adjustImpl, hf a (by simp)]
        simp only [DSl.value]
        have := ih (fun b hb => hf b (by simp [hb])) k
        simpa using this
  exact ⟨key, key⟩

example : ∃ v, dynamicView [2, 3] [3, 1] 0 .row_major [.all, .keep [2, 0]] = .ok v ∧
    (∀ a ∈ v.axes.take (v.axes.length - ([1] : List Int).length), a.slice = .fake) ∧
    v.index [1] = 0 ∧ v.index [0] = 2 := ⟨_, rfl, by decide⟩

/-- C73 fails with fewer arguments than axes when a leading axis is a keep or drop: `v(1)` on
`dynamic_view(a, {keep(2, 0), all()})` of a `3×2` array reads `a(0, 1)`, while `v(0, 1)` is
`a(2, 1)`. -/
theorem C73_fewer_arguments_wrong :
    ∃ v, dynamicView [3, 2] [2, 1] 0 .row_major [.keep [2, 0], .all] = .ok v ∧
      v.index [1] = 1 ∧ v.elementIndex [1] = 1 ∧ v.index [0, 1] = 5 := ⟨_, rfl, by decide⟩

/-- C73 fails for `v()`, which applies only the first axis's slice: on
`dynamic_view(a, {all(), keep(2, 0)})` of a `2×3` array, `v()` reads `a(0, 0)` while `v(0, 0)` is
`a(0, 2)`; and a view without axes, `dynamic_view(a, {1, 2})`, has no first slice to apply. -/
theorem C73_no_arguments_wrong :
    (∃ v, dynamicView [2, 3] [3, 1] 0 .row_major [.all, .keep [2, 0]] = .ok v ∧
      v.callNoArgs = .ok 0 ∧ v.index [0, 0] = 2) ∧
    (∃ v, dynamicView [2, 3] [3, 1] 0 .row_major [.int 1, .int 2] = .ok v ∧
      v.shape = [] ∧ v.callNoArgs = .ub ∧ v.elementIndex [] = 5) := ⟨⟨_, rfl, by decide⟩, ⟨_, rfl, by decide⟩⟩

/-- C73: `v()` is the first element when the view has an axis and no axis but the first comes from a
keep or drop.  (Full claim: always; `C73_no_arguments_wrong` is the counterexample.) -/
theorem C73_no_arguments_partial (v : DView) (a : DAxis) (as : List DAxis) (hv : v.axes = a :: as)
    (hf : ∀ b ∈ as, b.slice = .fake) :
    v.callNoArgs = .ok (v.index (List.replicate v.axes.length 0)) := by
  rw [index_eq v _ (by simp), DView.callNoArgs, DView.dataOffset0, hv]
  have : ∀ (bs : List DAxis), (∀ b ∈ bs, b.slice = .fake) →
      axSum bs (List.replicate bs.length 0) = 0 := by
    intro bs
    induction bs with
    | nil => intro _; rfl
    | cons b bs ih =>
      intro h
      simp only [List.length_cons, List.replicate_succ, axSum, h b (by simp), DSl.value,
        ih (fun c hc => h c (by simp [hc]))]; ring
  simp only [List.length_cons, List.replicate_succ, axSum, this as hf, Res.ok.injEq]
  ring

example : ∃ (v : DView) (a : DAxis) (as : List DAxis),
    dynamicView [3, 2] [2, 1] 0 .row_major [.keep [2, 0], .all] = .ok v ∧ v.axes = a :: as ∧
      (∀ b ∈ as, b.slice = .fake) ∧ v.callNoArgs = .ok 4 := ⟨_, _, _, rfl, rfl, by decide⟩

/-- C73 fails for `unchecked`, which forgets the offset it computed and takes its first argument for
it: on `dynamic_view(a, {1, all()})` of a `2×3` array, `v.unchecked(2)` reads `a(0, 2)` instead of
`a(1, 2)`; with two axes `v.unchecked(1, 2)` reads position 1. -/
theorem C73_unchecked_wrong :
    (∃ v, dynamicView [2, 3] [3, 1] 0 .row_major [.int 1, .all] = .ok v ∧
      v.unchecked [2] = 2 ∧ v.index [2] = 5) ∧
    (∃ v, dynamicView [2, 3] [3, 1] 0 .row_major [.all, .all] = .ok v ∧
      v.unchecked [1, 2] = 1 ∧ v.index [1, 2] = 5) := ⟨⟨_, rfl, by decide⟩, ⟨_, rfl, by decide⟩⟩

/-- C73: `unchecked` on a view without keeps and drops reads the storage at its first argument,
whatever the view and the other arguments. -/
theorem C73_unchecked_first_argument (sh : List Nat) (st : List Int) (off : Int) (l : Layout)
    (us : List USlice) (hk : NoKeepDrop us) (v : DView) (h : dynamicView sh st off l us = .ok v)
    (i : Int) (is : List Int) : v.unchecked (i :: is) = i := by
  rw [dynamicView_stridedView sh st off l us hk] at h
  cases hs : stridedView sh st off l us with
  | throws => rw [hs] at h; cases h
  | ub => rw [hs] at h; cases h
  | ok w =>
    rw [hs] at h
    have : asDynamic w = v := by simpa [Res.map, Res.bind] using h
    subst this
    show adjustOffset _ i is = i
    by_cases hle : is.length ≤ (asDynamic w).axes.length
    · rw [adjustOffset_le _ _ _ hle]
      simp only [asDynamic, ← List.map_drop]
      exact adjustImpl_fake _ _ _
    · rw [adjustOffset_ge _ _ _ (by omega)]
      exact adjustImpl_fake _ _ _

example : ∃ v, dynamicView [2, 3] [3, 1] 0 .row_major [.range none none (some (-1)), .int 1] = .ok v ∧
    v.unchecked [1, 7] = 1 ∧ v.index [1] = 1 ∧ v.index [0] = 4 := ⟨_, rfl, by decide⟩

/-- C73 fails for `flat(i)` beyond the first element: it ignores the strides.  On
`dynamic_view(a, {all(), range(0, 2)})` of a `2×3` array `v.flat(2)` reads `a(0, 2)`, which is not
even in the view. -/
theorem C73_flat_wrong :
    ∃ v, dynamicView [2, 3] [3, 1] 0 .row_major [.all, .range (some 0) (some 2) none] = .ok v ∧
      v.flat 2 = .ok 2 ∧ v.positions = [0, 1, 3, 4] := ⟨_, rfl, by decide⟩

/-- C73 fails for negative integers, as for strided views: `dynamic_view(a, {-1})` on a vector of
length 3 addresses the position before the buffer. -/
theorem C73_negative_int_wrong :
    SlicesValid [3] [.int (-1)] ∧ selIndex [3] [.int (-1)] [] = [2] ∧
    ∃ v, dynamicView [3] [1] 0 .row_major [.int (-1)] = .ok v ∧ v.elementIndex [] = -1 :=
  ⟨by decide, by decide, _, rfl, by decide⟩

/-! ### Iteration and assignment -/

theorem writeAll_spec {α : Type} (ws : List (Int × α)) (buf : List α)
    (h : ∀ w ∈ ws, 0 ≤ w.1 ∧ w.1 < buf.length) :
    ∃ b, writeAll buf ws = .ok b ∧ b.length = buf.length ∧
      (∀ q : Nat, (∀ w ∈ ws, w.1 ≠ q) → b[q]? = buf[q]?) ∧
      (∀ (q : Nat) (x : α), (∃ w ∈ ws, w.1 = q) → (∀ w ∈ ws, w.1 = q → w.2 = x) → b[q]? = some x) := by
  induction ws generalizing buf with
  | nil => exact ⟨buf, rfl, rfl, fun _ _ => rfl, fun q x h => by simp at h⟩
  | cons w ws ih =>
    obtain ⟨p, y⟩ := w
    have hp := h (p, y) (by simp)
    obtain ⟨b, h1, h2, h3, h4⟩ := ih (buf.set p.toNat y) (by
      intro w hw; have := h w (by simp [hw]); simpa using this)
    refine ⟨b, ?_, by simpa using h2, ?_, ?_⟩
    · rw [writeAll, writeAt, if_pos hp]; exact h1
    · intro q hq
      rw [h3 q (fun w hw => hq w (by simp [hw]))]
      have : p ≠ q := hq (p, y) (by simp)
      rw [List.getElem?_set_ne (by simp only at hp; omega)]
    · intro q x hex hall
      by_cases hl : ∃ w ∈ ws, w.1 = q
      · exact h4 q x hl (fun w hw => hall w (by simp [hw]))
      · have hq : p = q := by
          obtain ⟨w, hw, hwq⟩ := hex
          rcases List.mem_cons.mp hw with rfl | hw
          · exact hwq
          · exact absurd ⟨w, hw, hwq⟩ hl
        have hx : y = x := hall (p, y) (by simp) hq
        rw [h3 q (fun w hw hwq => hl ⟨w, hw, hwq⟩), ← hx]
        have : p.toNat = q := by omega
        rw [this, List.getElem?_set_self (by simp only at hp; omega)]

/-- C73: iteration visits the selected elements, each index once, in row-major order of the view. -/
theorem C73_iteration_partial (sh : List Nat) (st : List Int) (off : Int) (l : Layout)
    (us : List USlice) (hl : st.length = sh.length) (he : us.count .ellipsis ≤ 1)
    (hv : SlicesValid sh (expandEllipsis sh.length us)) (hn : IntsNonneg us) :
    ∃ v, dynamicView sh st off l us = .ok v ∧
      v.positions = (rowIndices (selShape sh (expandEllipsis sh.length us))).map fun (idx : List Nat) =>
        off + dot st (selIndex sh (expandEllipsis sh.length us) idx) := by
  obtain ⟨v, h1, h2, h3⟩ := C73_dynamic_view_partial sh st off l us hl he hv hn
  refine ⟨v, h1, ?_⟩
  have e : v.shape.map Int.toNat = selShape sh (expandEllipsis sh.length us) := by
    rw [h2]; simp [toInts, Function.comp_def]
  rw [DView.positions, e]
  apply List.map_congr_left
  intro idx hi
  exact (h3 idx (mem_rowIndices.mp hi)).2.1

example : (dynamicView [3, 2] [2, 1] 0 .row_major [.keep [2, 0], .drop [0]]).map DView.positions =
    .ok [5, 1] := by decide

/-- C73: `view = value` on a view of a parent whose elements lie in the storage gives `value` to
exactly the selected elements and leaves every other position of the storage alone. -/
theorem C73_assign_scalar_partial {α : Type} (sh : List Nat) (st : List Int) (off : Int) (l : Layout)
    (us : List USlice) (hl : st.length = sh.length) (he : us.count .ellipsis ≤ 1)
    (hv : SlicesValid sh (expandEllipsis sh.length us)) (hn : IntsNonneg us)
    (buf : List α) (x : α)
    (hb : ∀ p, InBounds sh p → 0 ≤ off + dot st (toInts p) ∧ off + dot st (toInts p) < buf.length) :
    ∃ v b, dynamicView sh st off l us = .ok v ∧ v.assignScalar buf x = .ok b ∧
      b.length = buf.length ∧
      (∀ idx, InBounds (selShape sh (expandEllipsis sh.length us)) idx → ∀ q : Nat,
        (q : Int) = off + dot st (selIndex sh (expandEllipsis sh.length us) idx) → b[q]? = some x) ∧
      (∀ q : Nat, (∀ idx, InBounds (selShape sh (expandEllipsis sh.length us)) idx →
          (q : Int) ≠ off + dot st (selIndex sh (expandEllipsis sh.length us) idx)) →
        b[q]? = buf[q]?) := by
  obtain ⟨v, h1, h2⟩ := C73_iteration_partial sh st off l us hl he hv hn
  obtain ⟨S, -, hbd⟩ := makeView_ok hv
  have hmem : ∀ w, w ∈ (v.positions.map fun (p : Int) => (p, x)) ↔
      ∃ idx, InBounds (selShape sh (expandEllipsis sh.length us)) idx ∧
        w = (off + dot st (selIndex sh (expandEllipsis sh.length us) idx), x) := by
    intro w
    rw [h2, List.map_map]
    simp only [List.mem_map, mem_rowIndices, Function.comp_apply]
    constructor
    · rintro ⟨idx, hi, rfl⟩; exact ⟨idx, hi, rfl⟩
    · rintro ⟨idx, hi, rfl⟩; exact ⟨idx, hi, rfl⟩
  obtain ⟨b, h3, h4, h5, h6⟩ := writeAll_spec (v.positions.map fun (p : Int) => (p, x)) buf (by
    intro w hw
    obtain ⟨idx, hi, rfl⟩ := (hmem w).mp hw
    obtain ⟨p, hp, hp2⟩ := selIndex_bounds hbd hi
    rw [hp2]; exact hb p hp)
  refine ⟨v, b, h1, h3, h4, ?_, ?_⟩
  · intro idx hi q hq
    refine h6 q x ⟨_, (hmem _).mpr ⟨idx, hi, rfl⟩, hq.symm⟩ ?_
    intro w hw _
    obtain ⟨_, _, rfl⟩ := (hmem w).mp hw
    rfl
  · intro q hq
    apply h5
    intro w hw hwq
    obtain ⟨idx, hi, rfl⟩ := (hmem w).mp hw
    exact hq idx hi hwq.symm

example : ((dynamicView [3, 2] [2, 1] 0 .row_major [.keep [2, 0, 2], .int 1]).bind
    fun v => v.assignScalar [1, 2, 3, 4, 5, 6] 0) = .ok [1, 0, 3, 4, 5, 0] := by decide

/-- C73: `view = expression` (through the temporary `tmp`, of the view's shape) gives every selected
element the value at its index, when no keep lists an index twice and different elements of the parent
lie at different positions; every other position of the storage is left alone. -/
theorem C73_assign_partial {α : Type} (sh : List Nat) (st : List Int) (off : Int) (l : Layout)
    (us : List USlice) (hl : st.length = sh.length) (he : us.count .ellipsis ≤ 1)
    (hv : SlicesValid sh (expandEllipsis sh.length us)) (hn : IntsNonneg us)
    (hr : NoRepeats sh (expandEllipsis sh.length us)) (buf : List α)
    (hb : ∀ p, InBounds sh p → 0 ≤ off + dot st (toInts p) ∧ off + dot st (toInts p) < buf.length)
    (hinj : ∀ p q, InBounds sh p → InBounds sh q → dot st (toInts p) = dot st (toInts q) → p = q)
    (f : List Nat → α) :
    ∃ v b, dynamicView sh st off l us = .ok v ∧
      v.assignTemporary buf ((rowIndices (selShape sh (expandEllipsis sh.length us))).map f) = .ok b ∧
      b.length = buf.length ∧
      (∀ idx, InBounds (selShape sh (expandEllipsis sh.length us)) idx → ∀ q : Nat,
        (q : Int) = off + dot st (selIndex sh (expandEllipsis sh.length us) idx) →
          b[q]? = some (f idx)) ∧
      (∀ q : Nat, (∀ idx, InBounds (selShape sh (expandEllipsis sh.length us)) idx →
          (q : Int) ≠ off + dot st (selIndex sh (expandEllipsis sh.length us) idx)) →
        b[q]? = buf[q]?) := by
  obtain ⟨v, h1, h2⟩ := C73_iteration_partial sh st off l us hl he hv hn
  obtain ⟨S, -, hbd⟩ := makeView_ok hv
  generalize hX : selShape sh (expandEllipsis sh.length us) = X at *
  have hmem : ∀ w, w ∈ v.positions.zip ((rowIndices X).map f) ↔
      ∃ idx, InBounds X idx ∧
        w = (off + dot st (selIndex sh (expandEllipsis sh.length us) idx), f idx) := by
    intro w
    rw [h2, List.zip_map', List.mem_map]
    simp only [mem_rowIndices]
    constructor
    · rintro ⟨idx, hi, rfl⟩; exact ⟨idx, hi, rfl⟩
    · rintro ⟨idx, hi, rfl⟩; exact ⟨idx, hi, rfl⟩
  obtain ⟨b, h3, h4, h5, h6⟩ := writeAll_spec (v.positions.zip ((rowIndices X).map f)) buf (by
    intro w hw
    obtain ⟨idx, hi, rfl⟩ := (hmem w).mp hw
    obtain ⟨p, hp, hp2⟩ := selIndex_bounds hbd (by rw [hX]; exact hi)
    rw [hp2]; exact hb p hp)
  refine ⟨v, b, h1, h3, h4, ?_, ?_⟩
  · intro idx hi q hq
    refine h6 q (f idx) ⟨_, (hmem _).mpr ⟨idx, hi, rfl⟩, hq.symm⟩ ?_
    intro w hw hwq
    obtain ⟨jdx, hj, rfl⟩ := (hmem w).mp hw
    obtain ⟨p, hp, hp2⟩ := selIndex_bounds hbd (by rw [hX]; exact hi)
    obtain ⟨p', hp', hp2'⟩ := selIndex_bounds hbd (by rw [hX]; exact hj)
    have e : off + dot st (toInts p') = off + dot st (toInts p) := by
      rw [← hp2, ← hp2', ← hq]; exact hwq
    have : p' = p := hinj p' p hp' hp (by omega)
    have : jdx = idx := C18_view_injective sh _ hv hr jdx idx (by rw [hX]; exact hj)
      (by rw [hX]; exact hi) (by rw [hp2, hp2', this])
    rw [this]
  · intro q hq
    apply h5
    intro w hw hwq
    obtain ⟨idx, hi, rfl⟩ := (hmem w).mp hw
    exact hq idx hi hwq.symm

example : NoRepeats [3, 2] [.keep [2, 0], .int 1] ∧
    ((dynamicView [3, 2] [2, 1] 0 .row_major [.keep [2, 0], .int 1]).bind
      fun v => v.assignTemporary [1, 2, 3, 4, 5, 6] [70, 80]) = .ok [1, 80, 3, 4, 5, 70] :=
  ⟨⟨by decide, by decide, trivial⟩, by decide⟩

end Xt
