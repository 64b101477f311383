import Verif.Lemmas.View
import Verif.Lemmas.Strides
/-!
# C18, C19, C21: views
-/

namespace Xt
open Spec

/-! ## C18 -/

/-- C18: the view of a shape through valid slices has the shape of the selection. -/
theorem C18_view_shape (sh : List Nat) (us : List USlice) (h : SlicesValid sh us) :
    ∃ S, makeView sh us = .ok S ∧ viewShape sh S = toInts (selShape sh us) := by
  obtain ⟨S, h1, h2⟩ := makeView_ok h
  exact ⟨S, h1, viewShape_eq h2⟩

example : SlicesValid [4, 5, 6] [.range (some 3) none (some (-2)), .newaxis, .int (-1)] ∧
    selShape [4, 5, 6] [.range (some 3) none (some (-2)), .newaxis, .int (-1)] = [2, 1, 6] := by
  decide

theorem newaxis_aligned {sh : List Nat} {us : List USlice} {S : List Sl} (hb : Bound sh us S)
    (h2 : SecondNewaxisTrailing sh.length us) (I : Nat) (hI : I < sh.length) :
    newaxisCountBefore S (I + 1) = newaxisCountBefore S (newaxisSkip S I) := by
  have hk := newaxisSkip_eq S I
  have hnn := newaxisSkip_not_new S I
  generalize newaxisSkip S I = k at *
  by_cases h0 : newaxisCountBefore S k = 0
  · have hkI : k = I := by omega
    subst hkI
    rw [nb_succ]
    cases hs : S[k]? with
    | none => simp
    | some s => simp [hnn s hs]
  · by_cases h1 : newaxisCountBefore S k = 1
    · have : k = I + 1 := by omega
      rw [this]
    · exfalso
      obtain ⟨p, q, s, t, hpq, hqk, hp, hps, hq, hqt⟩ :=
        exists_two_of_countP Sl.isNew S k (by simp only [newaxisCountBefore] at h0 h1; omega)
      obtain ⟨u, hu1, hu2, _⟩ := hb.kinds' p s hp
      obtain ⟨v, hv1, hv2, _⟩ := hb.kinds' q t hq
      have := h2 p q hpq (by rw [hu1, hu2.mp hps]) (by rw [hv1, hv2.mp hqt])
      have hc : ((us.take q).filter (fun u => u ≠ .newaxis)).length + newaxisCountBefore S q = q := by
        have hql : q < us.length := (List.getElem?_eq_some_iff.mp hv1).1
        have hcount : ∀ m, m ≤ us.length →
            ((us.take m).filter (fun u => u ≠ .newaxis)).length + newaxisCountBefore S m = m := by
          intro m
          induction m with
          | zero => intro _; simp [nb_zero]
          | succ m ih =>
            intro hm
            have hmu : us[m]? = some us[m] := by simp [show m < us.length by omega]
            obtain ⟨s, hs1, hs2, _⟩ := hb.kinds m us[m] hmu
            rw [List.take_add_one, List.filter_append, List.length_append, nb_succ, hs1, hmu]
            have := ih (by omega)
            by_cases hn : us[m] = .newaxis
            · have h5 : s.isNew = true := hs2.mpr hn
              have h6 : ((some us[m]).toList.filter (fun u => decide (u ≠ .newaxis))).length = 0 := by
                simp [hn]
              rw [h6, Option.any_some, h5, if_pos rfl]; omega
            · have h5 : s.isNew = false := by rw [Bool.eq_false_iff]; exact fun hc => hn (hs2.mp hc)
              have h6 : ((some us[m]).toList.filter (fun u => decide (u ≠ .newaxis))).length = 1 := by
                simp [hn]
              rw [h6, Option.any_some, h5, if_neg (by simp)]; omega
        exact hcount q (by omega)
      have := nb_lip S (show q ≤ k by omega)
      omega

theorem mapM_option_some {α β : Type} (f : α → Option β) (g : α → β) (l : List α)
    (h : ∀ a ∈ l, f a = some (g a)) : l.mapM f = some (l.map g) := by
  induction l with
  | nil => rfl
  | cons a l ih =>
    rw [List.mapM_cons, h a (by simp), ih (fun b hb => h b (by simp [hb]))]
    rfl

theorem trueIdx_isSome {sh : List Nat} {us : List USlice} {S : List Sl} (h : Bound sh us S)
    {idx : List Nat} (hi : InBounds (selShape sh us) idx) :
    (selIndex sh us idx).length = sh.length := by
  obtain ⟨p, h1, h2⟩ := selIndex_bounds h hi
  rw [h2]; simp [h1.length_eq]

theorem viewIndexAt_eq {sh : List Nat} {us : List USlice} {S : List Sl} (hb : Bound sh us S)
    (h1 : NoIntAfterNewaxis us) (h2 : SecondNewaxisTrailing sh.length us)
    {idx : List Nat} (hi : InBounds (selShape sh us) idx) (I : Nat) (hI : I < sh.length) :
    viewIndexAt S (toInts idx) I = (selIndex sh us idx)[I]? := by
  rw [selIndex_get hb hi I hI]
  have hsome : (trueIdx S (toInts idx) I).isSome := by
    rw [← selIndex_get hb hi I hI]
    simp [trueIdx_isSome hb hi, hI]
  have ha := newaxis_aligned hb h2 I hI
  have hk := newaxisSkip_eq S I
  have hnn := newaxisSkip_not_new S I
  simp only [viewIndexAt, trueIdx, ha] at hsome ⊢
  generalize newaxisSkip S I = k at *
  rw [← hk]
  cases hs : S[k]? with
  | none =>
    have hlen : S.length ≤ k := by simpa using hs
    simp only [hs] at hsome ⊢
    rw [nb_ge_length hlen] at hk
    have := Bound.counts_le S
    congr 1; omega
  | some s =>
    simp only [hs] at hsome ⊢
    cases hint : s.isInt with
    | true => cases s <;> first | rfl | simp [Sl.isInt] at hint
    | false =>
      simp only [hint, Bool.false_eq_true, if_false] at hsome ⊢
      have hib : integralCountBefore S I = integralCountBefore S k := by
        by_cases h0 : newaxisCountBefore S k = 0
        · have : k = I := by omega
          rw [this]
        · have hn1 : newaxisCountBefore S k = 1 := by
            by_contra hc
            -- two newaxes before k: excluded by alignment
            have hki : I + 2 ≤ k := by omega
            obtain ⟨p, q, s', t', hpq, hqk, hp, hps, hq, hqt⟩ :=
              exists_two_of_countP Sl.isNew S k (by simp only [newaxisCountBefore] at h0 hc; omega)
            have hl := nb_lip S (show I + 1 ≤ k by omega)
            -- counts up to I+1 equal counts up to k, so nothing new in between; and there are ≥ 2 by I+1
            obtain ⟨p, q, s', t', hpq, hqk, hp, hps, hq, hqt⟩ :=
              exists_two_of_countP Sl.isNew S (I + 1) (by
                simp only [newaxisCountBefore] at h0 hc ha; omega)
            obtain ⟨u, hu1, hu2, _⟩ := hb.kinds' p s' hp
            obtain ⟨v, hv1, hv2, _⟩ := hb.kinds' q t' hq
            have h3 := h2 p q hpq (by rw [hu1, hu2.mp hps]) (by rw [hv1, hv2.mp hqt])
            have h4 : ((us.take q).filter (fun u => u ≠ .newaxis)).length ≤ q :=
              (List.length_filter_le _ _).trans (by rw [List.length_take]; omega)
            omega
          have hkI : k = I + 1 := by omega
          rw [hkI, ib_succ]
          have hno : ((S[I]?).any Sl.isInt) = false := by
            rw [Bool.eq_false_iff]
            intro hc
            cases hSI : S[I]? with
            | none => rw [hSI] at hc; simp at hc
            | some t =>
              rw [hSI] at hc
              simp only [Option.any_some] at hc
              obtain ⟨p, s', hp, hps, hpn⟩ := exists_of_countP Sl.isNew S k (by
                simp only [newaxisCountBefore] at hn1; omega)
              obtain ⟨u, hu1, hu2, _⟩ := hb.kinds' p s' hps
              obtain ⟨v, hv1, _, hv3⟩ := hb.kinds' I t hSI
              obtain ⟨w, hw1, hw2, hw3⟩ := hb.kinds' k s hs
              have hpI : p ≠ I := by
                rintro rfl
                rw [hSI] at hps; cases hps
                exact Bound.isNew_isInt t ⟨hpn, hc⟩
              rcases h1 p I k v w (by omega) (by omega) (by rw [hu1, hu2.mp hpn]) hv1 hw1 (hv3.mp hc) with h | h
              · have := hw3.mpr h; rw [hint] at this; cases this
              · have := hw2.mpr h; have h9 := hnn s hs; rw [h9] at this; cases this
          simp [hno]
      have h3 := ib_le S I
      have hpos : I - integralCountBefore S I + newaxisCountBefore S k = k - integralCountBefore S k := by
        omega
      have hne : (toInts idx).isEmpty = false := by
        cases idx with
        | nil => simp [toInts] at hsome
        | cons => simp [toInts]
      rw [hpos]
      cases s <;> first | (simp only [slicedAccess, hne]; rfl) | simp [Sl.isInt] at hint

theorem viewAccess_eq {sh : List Nat} {us : List USlice} {S : List Sl} (hb : Bound sh us S)
    (h1 : NoIntAfterNewaxis us) (h2 : SecondNewaxisTrailing sh.length us)
    {idx : List Nat} (hi : InBounds (selShape sh us) idx) (extra : List Int) :
    viewAccess sh S (extra ++ toInts idx) = some (selIndex sh us idx) := by
  have hlen : (toInts idx).length = viewDim sh S := by
    simp [hi.length_eq, hb.selShape_length]
  have hic := hb.integralCount_le
  have hn : (toInts idx).length + integralCount S - newaxisCount S = sh.length := by
    rw [hlen, viewDim]; omega
  have hd : (extra ++ toInts idx).drop ((extra ++ toInts idx).length - viewDim sh S) = toInts idx := by
    rw [List.length_append, hlen, Nat.add_sub_cancel, List.drop_left]
  simp only [viewAccess, hd]
  rw [hn, mapM_option_some _ (fun I => (selIndex sh us idx).getD I 0)]
  · congr 1
    apply List.ext_getElem?
    intro I
    have hl := trueIdx_isSome hb hi
    simp only [List.getElem?_map]
    by_cases hI : I < sh.length
    · rw [List.getElem?_range hI]
      simp [List.getD_eq_getElem?_getD, hl, hI]
    · have h3 : (List.range sh.length)[I]? = none := by simp; omega
      rw [h3, List.getElem?_eq_none (by omega)]; rfl
  · intro I hI
    rw [viewIndexAt_eq hb h1 h2 hi I (by simpa using hI)]
    have hl := trueIdx_isSome hb hi
    have hI' : I < sh.length := by simpa using hI
    simp [List.getD_eq_getElem?_getD, hl, hI']

/-- C18: `view(e, slices...)(i...)` reads `e` at the index obtained by substituting the selected
positions — with any number of extra leading arguments, which are ignored — and that index is inside
`e`.  (Full claim: for every valid slice list.  The two newaxis hypotheses are needed, see the
witnesses below.) -/
theorem C18_view_element_partial (sh : List Nat) (us : List USlice) (hv : SlicesValid sh us)
    (h1 : NoIntAfterNewaxis us) (h2 : SecondNewaxisTrailing sh.length us) :
    ∃ S, makeView sh us = .ok S ∧ ∀ idx, InBounds (selShape sh us) idx → ∀ extra,
      viewAccess sh S (extra ++ toInts idx) = some (selIndex sh us idx) ∧
      ∃ pidx, InBounds sh pidx ∧ selIndex sh us idx = toInts pidx := by
  obtain ⟨S, hS, hb⟩ := makeView_ok hv
  exact ⟨S, hS, fun idx hi extra => ⟨viewAccess_eq hb h1 h2 hi extra, selIndex_bounds hb hi⟩⟩

/-- C18 without newaxis: every valid slice list. -/
theorem C18_view_element_no_newaxis (sh : List Nat) (us : List USlice) (hv : SlicesValid sh us)
    (hn : .newaxis ∉ us) :
    ∃ S, makeView sh us = .ok S ∧ ∀ idx, InBounds (selShape sh us) idx → ∀ extra,
      viewAccess sh S (extra ++ toInts idx) = some (selIndex sh us idx) ∧
      ∃ pidx, InBounds sh pidx ∧ selIndex sh us idx = toInts pidx := by
  apply C18_view_element_partial sh us hv
  · intro p q r s t _ _ hp; exact absurd (List.mem_of_getElem? hp) hn
  · intro p q _ hp; exact absurd (List.mem_of_getElem? hp) hn

example : SlicesValid [4, 5, 6] [.range (some 3) none (some (-2)), .int (-1), .keep [2, 2, 0]] ∧
    selIndex [4, 5, 6] [.range (some 3) none (some (-2)), .int (-1), .keep [2, 2, 0]] [1, 2]
      = [1, 4, 0] ∧ InBounds (selShape [4, 5, 6] [.range (some 3) none (some (-2)), .int (-1),
        .keep [2, 2, 0]]) [1, 2] := by
  decide

/-- C18, negation witness: with two newaxes in front (or separated), element access ignores the
index of a later axis: `view(a, newaxis, newaxis, all)(0, 0, 2)` reads `a(0)`. -/
theorem C18_two_newaxes_wrong :
    makeView [3] [.newaxis, .newaxis, .all] = .ok [.newaxis, .newaxis, .all 3] ∧
    InBounds (selShape [3] [.newaxis, .newaxis, .all]) [0, 0, 2] ∧
    viewAccess [3] [.newaxis, .newaxis, .all 3] [0, 0, 2] = some [0] ∧
    selIndex [3] [.newaxis, .newaxis, .all] [0, 0, 2] = [2] ∧
    viewAccess [2, 3] [.newaxis, .all 2, .newaxis, .all 3] [0, 1, 0, 2] = some [1, 0] ∧
    selIndex [2, 3] [.newaxis, .all, .newaxis, .all] [0, 1, 0, 2] = [1, 2] := by
  decide

/-- C18, negation witness: an integer between a newaxis and a later range.  `operator()` does not
compile and `element` reads the wrong position: `view(a, newaxis, 1, all).element({0, 2})` reads
`a(1, 0)`. -/
theorem C18_newaxis_int_wrong :
    viewAccess [2, 3] [.newaxis, .int 1, .all 3] [0, 2] = none ∧
    viewMakeIndex [2, 3] [.newaxis, .int 1, .all 3] [0, 2] = [1, 0] ∧
    selIndex [2, 3] [.newaxis, .int 1, .all] [0, 2] = [1, 2] := by
  decide


/-! ### `element` / `operator[]` -/

theorem selShape_cons {n : Nat} {sh : List Nat} {u : USlice} {us : List USlice} (hu : u ≠ .newaxis)
    (hint : ¬ IsInt u) :
    selShape (n :: sh) (u :: us) = (axisSel n u).length :: selShape sh us := by
  cases u <;> first | rfl | exact absurd rfl hu | exact absurd ⟨_, rfl⟩ hint

theorem selIndex_cons {n : Nat} {sh : List Nat} {u : USlice} {us : List USlice} (hu : u ≠ .newaxis)
    (hint : ¬ IsInt u) (a : Nat) (idx : List Nat) :
    selIndex (n :: sh) (u :: us) (a :: idx) = (axisSel n u).getD a 0 :: selIndex sh us idx := by
  cases u <;> first | rfl | exact absurd rfl hu | exact absurd ⟨_, rfl⟩ hint

/-- A slice list in which an integer follows a newaxis covers all `dim` axes of the parent. -/
def Spec.CoversIfIntAfterNewaxis (dim : Nat) (us : List USlice) : Prop :=
  ∀ (p q : Nat) (s : USlice), p < q → us[p]? = some .newaxis → us[q]? = some s → IsInt s →
    (us.filter (fun u => u ≠ .newaxis)).length = dim

theorem exists_int_between (S : List Sl) {I k : Nat} (hIk : I ≤ k)
    (h : integralCountBefore S I ≠ integralCountBefore S k) :
    ∃ (q : Nat) (s : Sl), I ≤ q ∧ q < k ∧ S[q]? = some s ∧ s.isInt = true := by
  induction hIk with
  | refl => exact absurd rfl h
  | @step m hm ih =>
    by_cases h2 : integralCountBefore S I = integralCountBefore S m
    · rw [ib_succ, h2] at h
      cases hs : S[m]? with
      | none => rw [hs] at h; simp at h
      | some s =>
        refine ⟨m, s, hm, Nat.lt_succ_self m, hs, ?_⟩
        by_contra hc
        rw [hs] at h; simp [hc] at h
    · obtain ⟨q, s, h3, h4, h5⟩ := ih h2
      exact ⟨q, s, h3, by omega, h5⟩

theorem filter_newaxis_length {sh : List Nat} {us : List USlice} {S : List Sl} (hb : Bound sh us S) :
    (us.filter (fun u => u ≠ .newaxis)).length + newaxisCount S = S.length := by
  induction hb with
  | nil => simp [newaxisCount]
  | new _ ih => simp only [newaxisCount, List.countP_cons, Sl.isNew, List.filter_cons] at ih ⊢; simp at ih ⊢; omega
  | cons hu hs _ ih =>
    have := hs.notNew
    simp only [newaxisCount, List.countP_cons, this, List.filter_cons] at ih ⊢; simp [hu] at ih ⊢; omega

/-- C18: `view(e, slices...).element(i...)` (also `v[{i...}]`) reads the selected element.  (Full
claim: for every valid slice list; `C18_newaxis_int_wrong` is the counterexample.) -/
theorem C18_view_element_iter_partial (sh : List Nat) (us : List USlice) (hv : SlicesValid sh us)
    (h1 : NoIntAfterNewaxis us) (h3 : CoversIfIntAfterNewaxis sh.length us) :
    ∃ S, makeView sh us = .ok S ∧ ∀ idx, InBounds (selShape sh us) idx → ∀ extra,
      viewMakeIndex sh S (extra ++ toInts idx) = selIndex sh us idx := by
  obtain ⟨S, hS, hb⟩ := makeView_ok hv
  refine ⟨S, hS, fun idx hi extra => ?_⟩
  have hlen : (toInts idx).length = viewDim sh S := by
    simp [hi.length_eq, hb.selShape_length]
  have hd : (extra ++ toInts idx).drop ((extra ++ toInts idx).length -
      min (extra ++ toInts idx).length (viewDim sh S)) = toInts idx := by
    rw [List.length_append, hlen, Nat.min_eq_right (by omega), Nat.add_sub_cancel, List.drop_left]
  have hl := trueIdx_isSome hb hi
  simp only [viewMakeIndex, hd]
  apply List.ext_getElem?
  intro I
  simp only [List.getElem?_map]
  by_cases hI : I < sh.length
  · rw [List.getElem?_range hI, Option.map_some, selIndex_get hb hi I hI]
    have hsome : (trueIdx S (toInts idx) I).isSome := by
      rw [← selIndex_get hb hi I hI]; simp [hl, hI]
    have hk := newaxisSkip_eq S I
    have hnn := newaxisSkip_not_new S I
    simp only [trueIdx] at hsome ⊢
    generalize newaxisSkip S I = k at *
    -- an integer between I and k implies a newaxis before I
    have hint_new : ∀ q s, I ≤ q → q < k → S[q]? = some s → s.isInt = true →
        ∃ p s', p < I ∧ S[p]? = some s' ∧ s'.isNew = true := by
      intro q s hq1 hq2 hq3 hq4
      have hq5 : s.isNew = false := by
        rw [Bool.eq_false_iff]; exact fun hc => Bound.isNew_isInt s ⟨hc, hq4⟩
      have e1 := nb_lip S hq1
      have e2 : newaxisCountBefore S (q + 1) = newaxisCountBefore S q := by
        rw [nb_succ, hq3]; simp [hq5]
      have e3 := nb_lip S (show q + 1 ≤ k by omega)
      exact exists_of_countP Sl.isNew S I (by simp only [newaxisCountBefore] at *; omega)
    cases hs : S[k]? with
    | none =>
      have hlenk : S.length ≤ k := by simpa using hs
      simp only [hs] at hsome ⊢
      have hib : integralCountBefore S I = integralCount S := by
        rw [← ib_ge_length hlenk]
        by_contra hc
        obtain ⟨q, t, q1, q2, q3, q4⟩ := exists_int_between S (by omega) hc
        obtain ⟨p, s', p1, p2, p3⟩ := hint_new q t q1 q2 q3 q4
        obtain ⟨u, hu1, hu2, _⟩ := hb.kinds' p s' p2
        obtain ⟨v, hv1, _, hv3⟩ := hb.kinds' q t q3
        have hcov := h3 p q v (by omega) (by rw [hu1, hu2.mp p3]) hv1 (hv3.mp q4)
        have hf := filter_newaxis_length hb
        rw [nb_ge_length hlenk] at hk
        omega
      rw [hib]
      cases hx : (toInts idx)[k - integralCount S]? with
      | none => rw [hx] at hsome; simp at hsome
      | some a => rfl
    | some s =>
      simp only [hs] at hsome ⊢
      cases hint : s.isInt with
      | true =>
        have hval : ∀ a, s.value a = s.value 0 := by
          intro a; cases s <;> first | rfl | simp [Sl.isInt] at hint
        simp only [if_true]
        split
        · rw [hval]
        · rfl
      | false =>
        simp only [hint, Bool.false_eq_true, if_false] at hsome ⊢
        have hib : integralCountBefore S I = integralCountBefore S k := by
          by_contra hc
          obtain ⟨q, t, q1, q2, q3, q4⟩ := exists_int_between S (by omega) hc
          obtain ⟨p, s', p1, p2, p3⟩ := hint_new q t q1 q2 q3 q4
          obtain ⟨u, hu1, hu2, _⟩ := hb.kinds' p s' p2
          obtain ⟨v, hv1, _, hv3⟩ := hb.kinds' q t q3
          obtain ⟨w, hw1, hw2, hw3⟩ := hb.kinds' k s hs
          rcases h1 p q k v w (by omega) (by omega) (by rw [hu1, hu2.mp p3]) hv1 hw1 (hv3.mp q4) with h | h
          · have := hw3.mpr h; rw [hint] at this; cases this
          · have := hw2.mpr h; have h9 := hnn s hs; rw [h9] at this; cases this
        rw [hib]
        cases hx : (toInts idx)[k - integralCountBefore S k]? with
        | none => rw [hx] at hsome; simp at hsome
        | some a => rfl
  · have h4 : (List.range sh.length)[I]? = none := by simp; omega
    rw [h4, List.getElem?_eq_none (by omega)]; rfl

/-- Two separated newaxes are fine for `element` (though not for `operator()`). -/
example : SlicesValid [2, 3] [.newaxis, .all, .newaxis, .all] ∧
    viewMakeIndex [2, 3] [.newaxis, .all 2, .newaxis, .all 3] [0, 1, 0, 2] = [1, 2] := by decide

/-! ### Distinct view indices, writes -/

/-- Slice lists that never select the same position of an axis twice. -/
def Spec.NoRepeats : List Nat → List USlice → Prop
  | _, [] => True
  | sh, .newaxis :: us => NoRepeats sh us
  | n :: sh, u :: us => (axisSel n u).Nodup ∧ NoRepeats sh us
  | [], _ :: _ => True

/-- C18: distinct indices of the view denote distinct elements of the parent, unless a `keep` lists
an index twice. -/
theorem C18_view_injective (sh : List Nat) (us : List USlice) (hv : SlicesValid sh us)
    (hr : NoRepeats sh us) (i j : List Nat) (hi : InBounds (selShape sh us) i)
    (hj : InBounds (selShape sh us) j) (he : selIndex sh us i = selIndex sh us j) : i = j := by
  obtain ⟨S, -, hb⟩ := makeView_ok hv
  clear hv
  induction hb generalizing i j with
  | nil =>
    simp only [selIndex] at he
    exact List.map_injective_iff.mpr (fun a b h => by simpa using h) he
  | new _ ih =>
    cases i with
    | nil => simp [selShape, InBounds] at hi
    | cons a i => cases j with
      | nil => simp [selShape, InBounds] at hj
      | cons b j =>
        have : a = b := by have h1 := hi.1; have h2 := hj.1; omega
        rw [this, ih hr i j hi.2 hj.2 he]
  | @cons n sh u us s S hu hs hb ih =>
    have hr' : (axisSel n u).Nodup ∧ NoRepeats sh us := by cases u <;> simp_all [NoRepeats]
    by_cases hint : IsInt u
    · obtain ⟨c, rfl⟩ := hint
      simp only [selIndex, List.cons.injEq, true_and] at he
      exact ih hr'.2 i j hi hj he
    · have h2 := selShape_cons (n := n) (sh := sh) (us := us) hu hint
      have h3 := selIndex_cons (n := n) (sh := sh) (us := us) hu hint
      rw [h2] at hi hj
      cases i with
      | nil => simp [InBounds] at hi
      | cons a i => cases j with
        | nil => simp [InBounds] at hj
        | cons b j =>
          rw [h3, h3, List.cons.injEq] at he
          have ha : a < (axisSel n u).length := hi.1
          have hb' : b < (axisSel n u).length := hj.1
          have hab : a = b := by
            have h4 := he.1
            simp only [List.getD_eq_getElem?_getD, List.getElem?_eq_getElem ha,
              List.getElem?_eq_getElem hb', Option.getD_some] at h4
            exact (List.Nodup.getElem_inj_iff hr'.1).mp h4
          rw [hab, ih hr'.2 i j hi.2 hj.2 he.2]

theorem axisSel_range_nodup (n : Nat) (a b k : Option Int) (hk : k ≠ some 0) :
    (axisSel n (.range a b k)).Nodup := by
  have hk' : k.getD 1 ≠ 0 := by cases k <;> simp_all
  simp only [axisSel, pySlice]
  apply List.Nodup.filter
  apply List.Nodup.map _ List.nodup_range
  intro x y hxy
  simp only [add_right_inj] at hxy
  have := mul_right_cancel₀ hk' hxy
  omega

example : NoRepeats [4, 5] [.range (some 3) none (some (-2)), .drop [1]] :=
  ⟨axisSel_range_nodup _ _ _ _ (by simp), by decide, trivial⟩

/-! ## C19 -/

/-- Strides of the view, slice by slice. -/
def recStrides : List Sl → List Int → List Int
  | [], pst => pst
  | .newaxis :: S, pst => 0 :: recStrides S pst
  | .int _ :: S, _ :: pst => recStrides S pst
  | s :: S, p :: pst => s.stepSize 1 1 * p :: recStrides S pst
  | _ :: _, [] => []

/-- Offset of the view, slice by slice. -/
def recOffset : List Sl → List Int → Int
  | [], _ => 0
  | .newaxis :: S, pst => recOffset S pst
  | s :: S, p :: pst => s.value 0 * p + recOffset S pst
  | _ :: _, [] => 0

/-- A slice list without `keep`/`drop`. -/
def Spec.AllStrided (us : List USlice) : Prop :=
  ∀ u ∈ us, (∀ l, u ≠ .keep l) ∧ (∀ l, u ≠ .drop l)

theorem bindSlices_strided {full : List Nat} {us : List USlice} {pre : Nat} {S : List Sl}
    (h : bindSlices full pre us = .ok S) (hs : AllStrided us) :
    ∀ s ∈ S, ∀ i : Int, s.isInt = false → s.value i = s.value 0 + i * s.stepSize 1 1 := by
  induction us generalizing pre S with
  | nil => simp only [bindSlices, Res.ok.injEq] at h; subst h; simp
  | cons u us ih =>
    simp only [bindSlices] at h
    have key : ∀ n s, getSlice n u = .ok s → ∀ i : Int, s.isInt = false →
        s.value i = s.value 0 + i * s.stepSize 1 1 := by
      intro n s hg i hint
      have hm : ∀ x y z, mkStepped x y z = .ok s → s.value i = s.value 0 + i * s.stepSize 1 1 := by
        intro x y z hxy
        simp only [mkStepped] at hxy
        split at hxy <;> simp at hxy
        subst hxy; simp [Sl.value, Sl.stepSize]
      cases u with
      | int c => simp [getSlice] at hg; subst hg; simp [Sl.isInt] at hint
      | range a b k =>
        simp only [getSlice] at hg
        rcases a with _ | a <;> rcases b with _ | b <;> rcases k with _ | k <;>
          simp only [rangeGet, getSteppedRange, Res.ok.injEq] at hg
        all_goals first
          | (subst hg; simp [mkRange, Sl.value, Sl.stepSize])
          | exact hm _ _ _ hg
          | (split at hg <;> exact hm _ _ _ hg)
      | all => simp [getSlice] at hg; subst hg; simp [Sl.value, Sl.stepSize]
      | newaxis => simp [getSlice] at hg; subst hg; simp [Sl.value, Sl.stepSize]
      | ellipsis => simp [getSlice] at hg
      | keep l => exact absurd rfl ((hs (.keep l) (by simp)).1 l)
      | drop l => exact absurd rfl ((hs (.drop l) (by simp)).2 l)
    have hs' : AllStrided us := fun u hu => hs u (by simp [hu])
    have fin : ∀ n s, getSlice n u = .ok s →
        (bindSlices full (if u.isNew then pre else pre + 1) us).map (s :: ·) = .ok S →
        ∀ t ∈ S, ∀ i : Int, t.isInt = false → t.value i = t.value 0 + i * t.stepSize 1 1 := by
      intro n s hg hm
      cases hr : bindSlices full (if u.isNew then pre else pre + 1) us with
      | ok S' =>
        rw [hr] at hm; simp at hm; subst hm
        intro t ht
        rcases List.mem_cons.mp ht with rfl | ht
        · exact key n _ hg
        · exact ih hr hs' t ht
      | throws => rw [hr] at hm; simp at hm
      | ub => rw [hr] at hm; simp at hm
    by_cases hu : u.isNew = true
    · simp only [hu, if_true] at h
      cases hg : getSlice 0 u with
      | ok s => rw [hg] at h; simp only [hu, if_true] at fin; exact fin 0 s hg h
      | throws => rw [hg] at h; simp at h
      | ub => rw [hg] at h; simp at h
    · simp only [hu] at h
      cases hn : full[pre]? with
      | none => rw [hn] at h; simp at h
      | some n =>
        rw [hn] at h
        simp only [Bool.false_eq_true, if_false] at h
        cases hg : getSlice n u with
        | ok s => rw [hg] at h; simp only [hu] at fin; exact fin n s hg h
        | throws => rw [hg] at h; simp at h
        | ub => rw [hg] at h; simp at h

theorem dot_nil_left (l : List Int) : dot [] l = 0 := by cases l <;> rfl
theorem dot_nil_right (l : List Int) : dot l [] = 0 := by cases l <;> rfl

theorem recStrides_dot {sh : List Nat} {us : List USlice} {S : List Sl} (hb : Bound sh us S)
    (hstr : ∀ s ∈ S, ∀ i : Int, s.isInt = false → s.value i = s.value 0 + i * s.stepSize 1 1)
    {idx : List Nat} (hi : InBounds (selShape sh us) idx) (pst : List Int)
    (hp : pst.length = sh.length) :
    dot pst (selIndex sh us idx) = recOffset S pst + dot (recStrides S pst) (toInts idx) := by
  induction hb generalizing idx pst with
  | nil => simp [selIndex, recOffset, recStrides]
  | new _ ih =>
    cases idx with
    | nil => simp [selShape, InBounds] at hi
    | cons i idx =>
      have := ih (fun s hs => hstr s (by simp [hs])) (idx := idx) hi.2 pst hp
      simp only [selIndex, this, recOffset, recStrides, toInts, List.map_cons, dot, mul_zero, zero_add]
  | @cons n sh u us s S hu hs hb ih =>
    cases pst with
    | nil => simp at hp
    | cons p pst =>
      have hp' : pst.length = sh.length := by simpa using hp
      have hoff : recOffset (s :: S) (p :: pst) = s.value 0 * p + recOffset S pst := by
        have := hs.notNew
        cases s <;> first | rfl | simp [Sl.isNew] at this
      rw [hoff]
      by_cases hint : IsInt u
      · obtain ⟨c, rfl⟩ := hint
        have h1 : s.isInt = true := hs.isInt.mpr ⟨c, rfl⟩
        have hval : pyIndex n c = s.value 0 := by
          have := hs.value 0 (by simp [axisSel]); simpa [axisSel] using this.symm
        have hst : recStrides (s :: S) (p :: pst) = recStrides S pst := by
          cases s <;> first | rfl | simp [Sl.isInt] at h1
        have := ih (fun s hs => hstr s (by simp [hs])) (idx := idx) hi pst hp'
        simp only [selIndex, dot, this, hst, hval]
        ring
      · have h1 : s.isInt = false := by rw [Bool.eq_false_iff]; exact fun hc => hint (hs.isInt.mp hc)
        have h2 := selShape_cons (n := n) (sh := sh) (us := us) hu hint
        rw [h2] at hi
        have hst : recStrides (s :: S) (p :: pst) = s.stepSize 1 1 * p :: recStrides S pst := by
          have := hs.notNew
          cases s <;> first | rfl | (simp [Sl.isNew] at this; done) | (simp [Sl.isInt] at h1; done)
        cases idx with
        | nil => simp [InBounds] at hi
        | cons i idx =>
          have h3 := selIndex_cons (n := n) (sh := sh) (us := us) hu hint i idx
          have := ih (fun s hs => hstr s (by simp [hs])) (idx := idx) hi.2 pst hp'
          rw [h3, hst, ← hs.value i hi.1, hstr s (by simp) i h1]
          simp only [dot, this, toInts, List.map_cons]
          simp only [Int.ofNat_eq_natCast]
          ring

theorem recStrides_get {sh : List Nat} {us : List USlice} {S : List Sl} (hb : Bound sh us S)
    (pst : List Int) (hp : pst.length = sh.length) (i : Nat) (hi : i < viewDim sh S) :
    (recStrides S pst)[i]? = some (if i < S.length - integralCount S then
      ((S[integralSkip S i]?).elim 0 (fun s => s.stepSize 1 1)) *
        (if integralSkip S i - newaxisCountBefore S (integralSkip S i) < sh.length then
          pst.getD (integralSkip S i - newaxisCountBefore S (integralSkip S i)) 0 else 1)
      else pst.getD (i + integralCount S - newaxisCount S) 0) := by
  induction hb generalizing i pst with
  | @nil sh =>
    have : i < sh.length := by simpa [viewDim, integralCount, newaxisCount] using hi
    simp [recStrides, integralCount, newaxisCount, hp, this]
  | @new sh us S hb ih =>
    have hic : integralCount (Sl.newaxis :: S) = integralCount S := by
      simp [integralCount, Sl.isInt]
    have hnc : newaxisCount (Sl.newaxis :: S) = newaxisCount S + 1 := by
      simp [newaxisCount, List.countP_cons, Sl.isNew]
    have hcl := Bound.counts_le S
    cases i with
    | zero =>
      rw [integralSkip_zero rfl, hic]
      have : 0 < (Sl.newaxis :: S).length - integralCount S := by rw [List.length_cons]; omega
      rw [if_pos this]
      simp [recStrides, Sl.stepSize]
    | succ i =>
      have hi' : i < viewDim sh S := by simp only [viewDim, hic, hnc] at hi ⊢; omega
      have e := ih pst hp i hi'
      rw [integralSkip_succ rfl, Nat.add_comm 1, hic, hnc, nb_cons]
      simp only [recStrides, List.getElem?_cons_succ, e, Sl.isNew, if_true, List.length_cons]
      have h1 : integralSkip S i + 1 - (1 + newaxisCountBefore S (integralSkip S i)) =
        integralSkip S i - newaxisCountBefore S (integralSkip S i) := by omega
      have h2 : i + 1 + integralCount S - (newaxisCount S + 1) = i + integralCount S - newaxisCount S := by
        omega
      have h3 : (i + 1 < S.length + 1 - integralCount S) ↔ (i < S.length - integralCount S) := by omega
      simp only [h1, h2, h3]
  | @cons n sh u us s S hu hs hb ih =>
    cases pst with
    | nil => simp at hp
    | cons p pst =>
      have hp' : pst.length = sh.length := by simpa using hp
      have hcl := Bound.counts_le S
      have hnc : newaxisCount (s :: S) = newaxisCount S := by
        simp [newaxisCount, hs.notNew]
      have hcle := hb.integralCount_le
      have hnb : ∀ k, k + 1 - newaxisCountBefore (s :: S) (k + 1) = (k - newaxisCountBefore S k) + 1 := by
        intro k
        rw [nb_cons]; have := nb_le S k; simp [hs.notNew]; omega
      cases hint : s.isInt with
      | true =>
        have hst : recStrides (s :: S) (p :: pst) = recStrides S pst := by
          cases s <;> first | rfl | simp [Sl.isInt] at hint
        have hic : integralCount (s :: S) = integralCount S + 1 := by
          simp [integralCount, List.countP_cons, hint]
        have hi' : i < viewDim sh S := by
          simp only [viewDim, hic, hnc, List.length_cons] at hi ⊢; omega
        have e := ih pst hp' i hi'
        rw [integralSkip_int hint, Nat.add_comm 1, hic, hnc, hst, e, hnb]
        simp only [List.length_cons, List.getElem?_cons_succ, Nat.add_lt_add_iff_right,
          Nat.add_sub_add_right, List.getD_cons_succ]
        by_cases hlt : i < S.length - integralCount S
        · rw [if_pos hlt, if_pos hlt]
        · rw [if_neg hlt, if_neg hlt]
          have : i + (integralCount S + 1) - newaxisCount S = (i + integralCount S - newaxisCount S) + 1 := by
            omega
          rw [this, List.getD_cons_succ]
      | false =>
        have hst : recStrides (s :: S) (p :: pst) = s.stepSize 1 1 * p :: recStrides S pst := by
          have := hs.notNew
          cases s <;> first | rfl | (simp [Sl.isNew] at this; done) | (simp [Sl.isInt] at hint; done)
        have hic : integralCount (s :: S) = integralCount S := by
          simp [integralCount, hint]
        rw [hst, hic, hnc]
        cases i with
        | zero =>
          rw [integralSkip_zero hint]
          have : 0 < (s :: S).length - integralCount S := by rw [List.length_cons]; omega
          rw [if_pos this]
          simp
        | succ i =>
          have hi' : i < viewDim sh S := by
            simp only [viewDim, hic, hnc, List.length_cons] at hi ⊢; omega
          have e := ih pst hp' i hi'
          rw [integralSkip_succ hint, Nat.add_comm 1, List.getElem?_cons_succ, e, hnb]
          simp only [List.length_cons, List.getElem?_cons_succ, Nat.add_lt_add_iff_right,
            List.getD_cons_succ]
          have h3 : (i + 1 < S.length + 1 - integralCount S) ↔ (i < S.length - integralCount S) := by omega
          simp only [h3]
          by_cases hlt : i < S.length - integralCount S
          · rw [if_pos hlt, if_pos hlt]
          · rw [if_neg hlt, if_neg hlt]
            have : i + 1 + integralCount S - newaxisCount S = (i + integralCount S - newaxisCount S) + 1 := by
              omega
            rw [this, List.getD_cons_succ]

theorem recStrides_length {sh : List Nat} {us : List USlice} {S : List Sl} (hb : Bound sh us S)
    (pst : List Int) (hp : pst.length = sh.length) : (recStrides S pst).length = viewDim sh S := by
  induction hb generalizing pst with
  | nil => simp [recStrides, viewDim, integralCount, newaxisCount, hp]
  | @new sh us S hb ih =>
    simp only [recStrides, List.length_cons, ih pst hp, viewDim, integralCount, newaxisCount,
      List.countP_cons, Sl.isNew, Sl.isInt]
    simp; omega
  | @cons n sh u us s S hu hs hb ih =>
    cases pst with
    | nil => simp at hp
    | cons p pst =>
      have hp' : pst.length = sh.length := by simpa using hp
      have hcle := hb.integralCount_le
      have hn := hs.notNew
      simp only [integralCount] at hcle
      cases hint : s.isInt with
      | true =>
        have hst : recStrides (s :: S) (p :: pst) = recStrides S pst := by
          cases s <;> first | rfl | simp [Sl.isInt] at hint
        rw [hst, ih pst hp']
        simp only [viewDim, integralCount, newaxisCount, List.countP_cons, hint, hn, List.length_cons]
        simp
      | false =>
        have hst : recStrides (s :: S) (p :: pst) = s.stepSize 1 1 * p :: recStrides S pst := by
          cases s <;> first | rfl | (simp [Sl.isNew] at hn; done) | (simp [Sl.isInt] at hint; done)
        rw [hst, List.length_cons, ih pst hp']
        simp only [viewDim, integralCount, newaxisCount, List.countP_cons, hint, hn, List.length_cons]
        simp; omega

theorem viewRawStrides_eq {sh : List Nat} {us : List USlice} {S : List Sl} (hb : Bound sh us S)
    (pst : List Int) (hp : pst.length = sh.length) : viewRawStrides sh pst S = recStrides S pst := by
  apply List.ext_getElem?
  intro i
  simp only [viewRawStrides, List.getElem?_map]
  by_cases hi : i < viewDim sh S
  · rw [List.getElem?_range hi, recStrides_get hb pst hp i hi]; rfl
  · have h1 : (List.range (viewDim sh S))[i]? = none := by simp; omega
    rw [h1, List.getElem?_eq_none (by rw [recStrides_length hb pst hp]; omega)]; rfl

theorem dot_adapt {vsh idx : List Nat} (hi : InBounds vsh idx) (st : List Int) :
    dot (List.zipWith (fun (s : Int) st => if s = 1 then 0 else st) (toInts vsh) st) (toInts idx) =
      dot st (toInts idx) := by
  induction vsh generalizing idx st with
  | nil => cases idx with
    | nil => simp [toInts, dot_nil_right]
    | cons => simp [InBounds] at hi
  | cons s vsh ih => cases idx with
    | nil => simp [InBounds] at hi
    | cons i idx => cases st with
      | nil => simp [dot_nil_left]
      | cons t st =>
        have := ih hi.2 st
        simp only [toInts, List.map_cons, List.zipWith_cons_cons, dot] at this ⊢
        rw [this]
        by_cases h1 : s = 1
        · have h0 : i = 0 := by have := hi.1; omega
          simp [h1, h0]
        · have : ¬ (Int.ofNat s = 1) := by simp only [Int.ofNat_eq_natCast]; omega
          rw [if_neg this]

/-- Where the offset computation of a view is exact: slices beyond position `pst.length` (possible
only when newaxes are present) that are not newaxes start at 0 or sit on an axis of stride 1. -/
def Spec.OffsetExact (sh : List Nat) (pst : List Int) (us : List USlice) : Prop :=
  ∀ (i : Nat) (u : USlice) (n : Nat) (p : Int), pst.length ≤ i → us[i]? = some u → u ≠ .newaxis →
    sh[i - ((us.take i).filter (· = .newaxis)).length]? = some n →
    pst[i - ((us.take i).filter (· = .newaxis)).length]? = some p →
    p = 1 ∨ ∀ x, (axisSel n u).head? = some x → x = 0

theorem viewOffsetLoop_eq {sh : List Nat} {us : List USlice} {S : List Sl} (hb : Bound sh us S)
    {idx : List Nat} (hi : InBounds (selShape sh us) idx) (full : List Int) (fsh : List Nat)
    (i news : Nat) (hn : news ≤ i)
    (hsh : fsh.drop (i - news) = sh) (hpl : full.length = fsh.length)
    (hex : ∀ (j : Nat) (u : USlice) (n : Nat) (p : Int), full.length ≤ i + j → us[j]? = some u →
      u ≠ .newaxis → fsh[i + j - (news + ((us.take j).filter (· = .newaxis)).length)]? = some n →
      full[i + j - (news + ((us.take j).filter (· = .newaxis)).length)]? = some p →
      p = 1 ∨ ∀ x, (axisSel n u).head? = some x → x = 0) :
    viewOffsetLoop full i news S = recOffset S (full.drop (i - news)) := by
  induction hb generalizing idx i news with
  | nil => simp [viewOffsetLoop, recOffset]
  | @new sh us S hb ih =>
    cases idx with
    | nil => simp [selShape, InBounds] at hi
    | cons a idx =>
      simp only [viewOffsetLoop, Sl.value, zero_mul, zero_add, recOffset, Sl.isNew, if_true]
      have h1 : i + 1 - (news + 1) = i - news := by omega
      rw [ih (idx := idx) hi.2 (i + 1) (news + 1) (by omega) (by rw [h1]; exact hsh), h1]
      intro j u n p hj hu hne hn1 hp1
      refine hex (j + 1) u n p (by omega) (by simpa using hu) hne ?_ ?_
      · rw [show i + (j + 1) - (news + (((USlice.newaxis :: us).take (j + 1)).filter (· = .newaxis)).length)
          = i + 1 + j - (news + 1 + ((us.take j).filter (· = .newaxis)).length) by
            simp [List.take_succ_cons]; omega]
        exact hn1
      · rw [show i + (j + 1) - (news + (((USlice.newaxis :: us).take (j + 1)).filter (· = .newaxis)).length)
          = i + 1 + j - (news + 1 + ((us.take j).filter (· = .newaxis)).length) by
            simp [List.take_succ_cons]; omega]
        exact hp1
  | @cons n sh u us s S hu hs hb ih =>
    have hnn := hs.notNew
    obtain ⟨p, hp⟩ : ∃ p, full[i - news]? = some p := by
      have : i - news < fsh.length := by
        by_contra hc; rw [List.drop_eq_nil_of_le (by omega)] at hsh; cases hsh
      exact ⟨full[i - news], by rw [List.getElem?_eq_getElem]⟩
    have hn0 : fsh[i - news]? = some n := by
      have := List.getElem?_drop (xs := fsh) (i := i - news) (j := 0)
      rw [hsh] at this; simpa using this.symm
    have hdrop : full.drop (i - news) = p :: full.drop (i + 1 - news) := by
      obtain ⟨hl, rfl⟩ := List.getElem?_eq_some_iff.mp hp
      rw [List.drop_eq_getElem_cons hl, show i + 1 - news = i - news + 1 by omega]
    have hsh' : fsh.drop (i + 1 - news) = sh := by
      rw [show i + 1 - news = i - news + 1 by omega, ← List.drop_drop, hsh]; rfl
    have hoff : recOffset (s :: S) (p :: full.drop (i + 1 - news)) =
        s.value 0 * p + recOffset S (full.drop (i + 1 - news)) := by
      cases s <;> first | rfl | simp [Sl.isNew] at hnn
    have hidx : ∃ idx', InBounds (selShape sh us) idx' := by
      by_cases hint : IsInt u
      · obtain ⟨c, rfl⟩ := hint; exact ⟨idx, hi⟩
      · rw [selShape_cons hu hint] at hi
        cases idx with
        | nil => simp [InBounds] at hi
        | cons a idx => exact ⟨idx, hi.2⟩
    obtain ⟨idx', hidx'⟩ := hidx
    have hrec := ih (idx := idx') hidx' (i + 1) news (by omega) hsh' (by
      intro j v n' p' hj hv hne hn1 hp1
      have e : i + (j + 1) - (news + (((u :: us).take (j + 1)).filter (· = .newaxis)).length)
          = i + 1 + j - (news + ((us.take j).filter (· = .newaxis)).length) := by
        rw [List.take_succ_cons, List.filter_cons_of_neg (by simpa using hu)]; omega
      exact hex (j + 1) v n' p' (by omega) (by simpa using hv) hne (by rw [e]; exact hn1)
        (by rw [e]; exact hp1))
    simp only [viewOffsetLoop, hnn, Bool.false_eq_true, if_false, Nat.add_zero]
    rw [hdrop, hoff, hrec]
    congr 1
    by_cases hlt : i < full.length
    · simp [hlt, hp]
    · simp only [hlt, if_false]
      rcases hex 0 u n p (by omega) rfl hu (by simpa using hn0) (by simpa using hp) with h | h
      · rw [h]
      · have hpos : 0 < (axisSel n u).length := by
          by_cases hint : IsInt u
          · obtain ⟨c, rfl⟩ := hint; simp [axisSel]
          · rw [selShape_cons hu hint] at hi
            cases idx with
            | nil => simp [InBounds] at hi
            | cons a idx => have := hi.1; omega
        have := hs.value 0 hpos
        have h0 : (axisSel n u).getD 0 0 = 0 := by
          cases hl : axisSel n u with
          | nil => rfl
          | cons b l => rw [hl] at h; simpa using h b rfl
        rw [h0] at this
        simp only [Nat.cast_zero] at this
        rw [this]; ring


/-- C19: for every strided slice list, `data_offset() + Σ strides()[k] * i[k]` is the position, in
the parent's storage, of the element the index selects — whatever the parent's own strides and
offset.  (Full claim: without `OffsetExact`; `C19_offset_wrong` is the counterexample.) -/
theorem C19_view_address_partial (sh : List Nat) (us : List USlice) (hv : SlicesValid sh us)
    (hstr : AllStrided us) (pst : List Int) (poff : Int) (hp : pst.length = sh.length)
    (hex : OffsetExact sh pst us) :
    ∃ S, makeView sh us = .ok S ∧ ∀ idx, InBounds (selShape sh us) idx →
      viewDataOffset pst poff S + dot (viewStrides sh pst S) (toInts idx) =
        poff + dot pst (selIndex sh us idx) := by
  obtain ⟨S, hS, hb⟩ := makeView_ok hv
  refine ⟨S, hS, fun idx hi => ?_⟩
  have hB : bindSlices sh 0 us = .ok S := hS
  have h1 := recStrides_dot hb (bindSlices_strided hB hstr) hi pst hp
  have h2 : viewDataOffset pst poff S = recOffset S pst + poff := by
    simp only [viewDataOffset]
    rw [viewOffsetLoop_eq hb hi pst sh 0 0 (le_refl 0) rfl hp]
    · simp
    · intro j u n p hj hu hne hn1 hp1
      simp only [Nat.zero_add] at *
      exact hex j u n p hj hu hne hn1 hp1
  rw [h1, h2, viewStrides, viewShape_eq hb, viewRawStrides_eq hb pst hp, dot_adapt hi]
  ring

/-- C19, the common case: no more slices than the parent has axes. -/
theorem C19_view_address (sh : List Nat) (us : List USlice) (hv : SlicesValid sh us)
    (hstr : AllStrided us) (pst : List Int) (poff : Int) (hp : pst.length = sh.length)
    (hle : us.length ≤ sh.length) :
    ∃ S, makeView sh us = .ok S ∧ ∀ idx, InBounds (selShape sh us) idx →
      viewDataOffset pst poff S + dot (viewStrides sh pst S) (toInts idx) =
        poff + dot pst (selIndex sh us idx) := by
  refine C19_view_address_partial sh us hv hstr pst poff hp ?_
  intro i u n p hi hu
  obtain ⟨h, -⟩ := List.getElem?_eq_some_iff.mp hu
  omega

/-- The stride of a view axis never depends on `OffsetExact`: differences of addresses are right for
every strided slice list. -/
theorem C19_view_strides (sh : List Nat) (us : List USlice) (hv : SlicesValid sh us)
    (hstr : AllStrided us) (pst : List Int) (hp : pst.length = sh.length) :
    ∃ S, makeView sh us = .ok S ∧ (viewStrides sh pst S).length = (selShape sh us).length ∧
      ∀ idx jdx, InBounds (selShape sh us) idx → InBounds (selShape sh us) jdx →
      dot (viewStrides sh pst S) (toInts idx) - dot (viewStrides sh pst S) (toInts jdx) =
        dot pst (selIndex sh us idx) - dot pst (selIndex sh us jdx) := by
  obtain ⟨S, hS, hb⟩ := makeView_ok hv
  have hB : bindSlices sh 0 us = .ok S := hS
  refine ⟨S, hS, ?_, fun idx jdx hi hj => ?_⟩
  · rw [viewStrides, viewShape_eq hb, viewRawStrides_eq hb pst hp, List.length_zipWith,
      recStrides_length hb pst hp, ← hb.selShape_length]; simp
  · rw [recStrides_dot hb (bindSlices_strided hB hstr) hi pst hp,
      recStrides_dot hb (bindSlices_strided hB hstr) hj pst hp, viewStrides, viewShape_eq hb,
      viewRawStrides_eq hb pst hp, dot_adapt hi, dot_adapt hj]
    ring

/-- C19: a view axis of extent 1 reports stride 0 (what broadcasting and the steppers rely on). -/
theorem C19_view_unit_stride (sh : List Nat) (us : List USlice) (hv : SlicesValid sh us)
    (pst : List Int) (hp : pst.length = sh.length) :
    ∃ S, makeView sh us = .ok S ∧ ∀ k : Nat, (selShape sh us)[k]? = some 1 →
      (viewStrides sh pst S)[k]? = some 0 := by
  obtain ⟨S, hS, hb⟩ := makeView_ok hv
  refine ⟨S, hS, fun k hk => ?_⟩
  have hl : k < (recStrides S pst).length := by
    rw [recStrides_length hb pst hp, ← hb.selShape_length]
    exact (List.getElem?_eq_some_iff.mp hk).1
  rw [viewStrides, viewShape_eq hb, viewRawStrides_eq hb pst hp, List.getElem?_zipWith]
  simp [toInts, hk, List.getElem?_eq_getElem hl]

example : SlicesValid [2, 3] [.all, .range (some 1) (some 2) none] ∧
    viewStrides [2, 3] [3, 1] [.all 2, .range 1 1] = [3, 0] := by decide

/-- Witness: a 4-axis parent, an integer, a reversed stepped range, a newaxis. -/
example : SlicesValid [2, 3, 5, 4] [.int 1, .newaxis, .range none none (some (-2))] ∧
    AllStrided [.int 1, .newaxis, .range none none (some (-2))] ∧
    viewStrides [2, 3, 5, 4] [60, 20, 4, 1] [.int 1, .newaxis, .stepped 2 2 (-2)] = [0, -40, 4, 1] ∧
    viewDataOffset [60, 20, 4, 1] 7 [.int 1, .newaxis, .stepped 2 2 (-2)] = 107 := by
  refine ⟨by decide, ?_, by decide, by decide⟩
  intro u hu; simp at hu; rcases hu with rfl | rfl | rfl <;> simp

/-- C19 fails beyond `OffsetExact`: `view(a, newaxis(), all(), 1)` on a column-major `2×3` array has
data offset 1, while its first element `a(0,1)` lies at position 2. -/
theorem C19_offset_wrong :
    SlicesValid [2, 3] [.newaxis, .all, .int 1] ∧
    makeView [2, 3] [.newaxis, .all, .int 1] = .ok [.newaxis, .all 2, .int 1] ∧
    viewDataOffset [1, 2] 0 [.newaxis, .all 2, .int 1] = 1 ∧
    dot [1, 2] (selIndex [2, 3] [.newaxis, .all, .int 1] [0, 0]) = 2 := by decide

theorem Bound.sliceOk {sh : List Nat} {us : List USlice} {S : List Sl} (hb : Bound sh us S)
    (i : Nat) (u : USlice) (hu : us[i]? = some u) (hne : u ≠ .newaxis) :
    ∃ n s, sh[i - ((us.take i).filter (· = .newaxis)).length]? = some n ∧ SliceOk n u s := by
  induction hb generalizing i with
  | nil => simp at hu
  | @new sh us S hb ih =>
    cases i with
    | zero => simp at hu; exact absurd hu.symm hne
    | succ i =>
      obtain ⟨n, s, h1, h2⟩ := ih i (by simpa using hu)
      refine ⟨n, s, ?_, h2⟩
      rw [← h1]; congr 1
      simp [List.take_succ_cons]
  | @cons n sh v us s S hv hs hb ih =>
    cases i with
    | zero =>
      simp at hu; subst hu
      exact ⟨n, s, by simp, hs⟩
    | succ i =>
      obtain ⟨n', s', h1, h2⟩ := ih i (by simpa using hu)
      refine ⟨n', s', ?_, h2⟩
      have hle : ((us.take i).filter (· = .newaxis)).length ≤ i :=
        le_trans (List.length_filter_le _ _) (by simp)
      rw [← h1, List.take_succ_cons, List.filter_cons_of_neg (by simpa using hv), Nat.succ_sub hle,
        List.getElem?_cons_succ]

/-- One newaxis on a row-major array is fine even when the slice list is longer than the dimension:
the axis concerned is the last one, whose stride is 1 (or whose extent is 1). -/
theorem C19_view_address_row_major_newaxis (sh : List Nat) (us : List USlice)
    (hv : SlicesValid sh us) (hstr : AllStrided us) (poff : Int) (pst : List Int)
    (hp : pst.length = sh.length) (hlast : ∀ n p, sh.getLast? = some n → pst.getLast? = some p →
      p = 1 ∨ n = 1)
    (hone : (us.filter (· = .newaxis)).length ≤ 1) :
    ∃ S, makeView sh us = .ok S ∧ ∀ idx, InBounds (selShape sh us) idx →
      viewDataOffset pst poff S + dot (viewStrides sh pst S) (toInts idx) =
        poff + dot pst (selIndex sh us idx) := by
  refine C19_view_address_partial sh us hv hstr pst poff hp ?_
  intro i u n p hi hu hne hn hp1
  obtain ⟨S, -, hb⟩ := makeView_ok hv
  obtain ⟨n', s, h1, h2⟩ := hb.sliceOk i u hu hne
  rw [hn] at h1
  obtain rfl : n = n' := by simpa using h1
  have hle : ((us.take i).filter (· = .newaxis)).length ≤ 1 :=
    le_trans ((List.take_sublist i us).filter _).length_le hone
  generalize ((us.take i).filter (· = .newaxis)).length = c at *
  have h3 := (List.getElem?_eq_some_iff.mp hn).1
  have hi2 : i - c = sh.length - 1 := by omega
  rw [hi2] at hn hp1
  rcases hlast n p (by rw [List.getLast?_eq_getElem?]; exact hn)
    (by rw [List.getLast?_eq_getElem?, hp]; exact hp1) with h | h
  · exact Or.inl h
  · right
    intro x hx
    have := h2.bounds x (List.mem_of_mem_head? hx)
    omega

/-- Witness: `view(a, newaxis(), all(), 1)` on a row-major `2×3` array. -/
example : SlicesValid [2, 3] [.newaxis, .all, .int 1] ∧
    viewDataOffset [3, 1] 0 [.newaxis, .all 2, .int 1] = 1 ∧
    dot [3, 1] (selIndex [2, 3] [.newaxis, .all, .int 1] [0, 0]) = 1 := by decide

end Xt
