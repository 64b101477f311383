import Verif.Props.View
import Verif.Props.StridedView
import Verif.Model.Strides
/-!
# C108: slices that do not fit
-/

namespace Xt
open Spec

/-- Only the extents of later axes matter to later slices. -/
theorem bindSlices_congr (sh sh' : List Nat) : ∀ (us : List USlice) (p : Nat), (∀ j, p ≤ j → sh[j]? = sh'[j]?) →
    bindSlices sh p us = bindSlices sh' p us
  | [], p, h => rfl
  | u :: us, p, h => by
    simp only [bindSlices, h p le_rfl]
    rw [bindSlices_congr sh sh' us _ (fun j hj => h j (by split at hj <;> omega))]

/-- A non-negative index does not look at the extent of its axis. -/
theorem bindSlices_index {n m : Nat} {i : Int} (hi : 0 ≤ i) (post : List Nat) (us1 : List USlice) : ∀ (us0 : List USlice)
    (A pre : List Nat), us0.length = pre.length → USlice.newaxis ∉ us0 →
    bindSlices (A ++ pre ++ n :: post) A.length (us0 ++ .int i :: us1) =
      bindSlices (A ++ pre ++ m :: post) A.length (us0 ++ .int i :: us1)
  | [], A, pre, hl, _ => by
    have hp : pre = [] := List.length_eq_zero_iff.1 hl.symm
    subst hp
    have h1 : (A ++ [] ++ n :: post)[A.length]? = some n := by simp
    have h2 : (A ++ [] ++ m :: post)[A.length]? = some m := by simp
    simp only [List.nil_append, bindSlices, USlice.isNew, h1, h2, getSlice, if_neg (Int.not_lt.2 hi), Bool.false_eq_true, if_false]
    rw [bindSlices_congr (A ++ [] ++ n :: post) (A ++ [] ++ m :: post) us1 (A.length + 1)]
    intro j hj
    obtain ⟨k, rfl⟩ : ∃ k, j = A.length + (k + 1) := ⟨j - A.length - 1, by omega⟩
    simp [List.getElem?_append_right]
  | u :: us0, A, [], hl, _ => by simp at hl
  | u :: us0, A, x :: pre, hl, hn => by
    have hu : u.isNew = false := by
      cases u <;> simp_all [USlice.isNew]
    have h1 : (A ++ x :: pre ++ n :: post)[A.length]? = some x := by simp
    have h2 : (A ++ x :: pre ++ m :: post)[A.length]? = some x := by simp
    have ih := bindSlices_index (n := n) (m := m) hi post us1 us0 (A ++ [x]) pre (by simpa using hl) (fun h => hn (by simp [h]))
    simp only [List.append_assoc, List.singleton_append, List.length_append, List.length_singleton] at ih
    simp only [List.cons_append, bindSlices, hu, Bool.false_eq_true, if_false]
    simp only [List.append_assoc, List.cons_append] at h1 h2 ⊢
    rw [h1, h2]
    simp only [List.cons_append, List.nil_append] at ih
    rw [ih]

theorem selIndex_at {m : Nat} {i : Int} (post : List Nat) (us1 : List USlice) : ∀ (us0 : List USlice) (pre idx : List Nat),
    us0.length = pre.length → USlice.newaxis ∉ us0 → InBounds (selShape (pre ++ m :: post) (us0 ++ .int i :: us1)) idx →
    ∃ p q, selIndex (pre ++ m :: post) (us0 ++ .int i :: us1) idx = p ++ pyIndex m i :: q ∧ p.length = pre.length
  | [], pre, idx, hl, _, _ => by
    have hp : pre = [] := List.length_eq_zero_iff.1 hl.symm
    subst hp
    exact ⟨[], selIndex post us1 idx, by simp [selIndex], rfl⟩
  | u :: us0, [], idx, hl, _, _ => by simp at hl
  | u :: us0, x :: pre, idx, hl, hn, hb => by
    have ih := fun (idx : List Nat) => selIndex_at (m := m) (i := i) post us1 us0 pre idx (by simpa using hl) (fun h => hn (by simp [h]))
    by_cases hint : ∃ k, u = .int k
    · obtain ⟨k, rfl⟩ := hint
      simp only [List.cons_append, selShape] at hb
      obtain ⟨p, q, h1, h2⟩ := ih idx hb
      exact ⟨pyIndex x k :: p, q, by simp [selIndex, h1], by simp [h2]⟩
    · have hs : selShape (x :: (pre ++ m :: post)) (u :: (us0 ++ .int i :: us1)) =
          (axisSel x u).length :: selShape (pre ++ m :: post) (us0 ++ .int i :: us1) := by
        cases u <;> first | rfl | (exfalso; exact hint ⟨_, rfl⟩) | (exfalso; exact hn (by simp))
      rw [List.cons_append, List.cons_append, hs] at hb
      cases idx with
      | nil => exact absurd hb.length_eq (by simp)
      | cons j idx =>
        have hb' : InBounds (selShape (pre ++ m :: post) (us0 ++ .int i :: us1)) idx := hb.2
        obtain ⟨p, q, h1, h2⟩ := ih idx hb'
        refine ⟨(axisSel x u).getD j 0 :: p, q, ?_, by simp [h2]⟩
        have : selIndex (x :: (pre ++ m :: post)) (u :: (us0 ++ .int i :: us1)) (j :: idx) =
            (axisSel x u).getD j 0 :: selIndex (pre ++ m :: post) (us0 ++ .int i :: us1) idx := by
          cases u <;> first | rfl | (exfalso; exact hint ⟨_, rfl⟩) | (exfalso; exact hn (by simp))
        rw [List.cons_append, List.cons_append, this, h1]; rfl

/-! ## The property -/

/-- Slices whose bounds are cut to the axis: `all()`, `newaxis()`, and ranges without a step. -/
def Spec.Clamped : USlice → Prop
  | .all => True
  | .newaxis => True
  | .range _ _ none => True
  | _ => False

theorem Spec.Clamped.valid : ∀ (sh : List Nat) (us : List USlice), (∀ u ∈ us, Clamped u) →
    (us.filter fun u => !u.isNew).length ≤ sh.length → SlicesValid sh us
  | _, [], _, _ => by simp [SlicesValid]
  | sh, .newaxis :: us, h, hl => by
    simp only [SlicesValid]
    exact Spec.Clamped.valid sh us (fun u hu => h u (by simp [hu])) (by simpa [USlice.isNew] using hl)
  | n :: sh, u :: us, h, hl => by
    by_cases hu : u = .newaxis
    · subst hu
      simp only [SlicesValid]
      exact Spec.Clamped.valid (n :: sh) us (fun u hu => h u (by simp [hu])) (by simpa [USlice.isNew] using hl)
    · have hnew : u.isNew = false := by cases u <;> simp_all [USlice.isNew]
      have hrest := Spec.Clamped.valid sh us (fun u hu => h u (by simp [hu])) (by simpa [hnew] using hl)
      have hc := h u (by simp)
      cases u with
      | range a b s =>
        cases s with
        | none => exact ⟨trivial, hrest⟩
        | some k => exact absurd hc (by simp [Clamped])
      | all => exact ⟨trivial, hrest⟩
      | newaxis => exact absurd rfl hu
      | int k => exact absurd hc (by simp [Clamped])
      | keep l => exact absurd hc (by simp [Clamped])
      | drop l => exact absurd hc (by simp [Clamped])
      | ellipsis => exact absurd hc (by simp [Clamped])
  | [], u :: us, h, hl => by
    by_cases hu : u = .newaxis
    · subst hu
      simp only [SlicesValid]
      exact Spec.Clamped.valid [] us (fun u hu => h u (by simp [hu])) (by simpa [USlice.isNew] using hl)
    · have hnew : u.isNew = false := by cases u <;> simp_all [USlice.isNew]
      simp [hnew] at hl

/-- C108: ranges whatever their bounds, no more than there are axes: the view shows elements of the array only. -/
theorem C108_ranges (sh : List Nat) (us : List USlice) (hc : ∀ u ∈ us, Clamped u) (hn : .newaxis ∉ us) (hl : us.length ≤ sh.length) :
    ∃ S, makeView sh us = .ok S ∧ viewShape sh S = toInts (selShape sh us) ∧ ∀ idx, InBounds (selShape sh us) idx →
      ∃ pidx, InBounds sh pidx ∧ viewAccess sh S (toInts idx) = some (toInts pidx) := by
  have hv : SlicesValid sh us := Clamped.valid sh us hc (le_trans (List.length_filter_le _ _) hl)
  obtain ⟨S, h1, h2⟩ := C18_view_element_no_newaxis sh us hv hn
  obtain ⟨S', h3, h4⟩ := C18_view_shape sh us hv
  obtain rfl : S = S' := by rw [h1] at h3; injection h3
  refine ⟨S, h1, h4, fun idx hi => ?_⟩
  obtain ⟨h5, pidx, h6, h7⟩ := h2 idx hi []
  exact ⟨pidx, h6, by rw [← h7]; exact h5⟩

/-- C108: `strided_view` refuses more slices than there are axes. -/
theorem C108_strided_count (sh : List Nat) (st : List Int) (off : Int) (l : Layout) (us : List USlice)
    (h : sh.length < (us.filter fun u => u ≠ .ellipsis ∧ u ≠ .newaxis).length) : stridedView sh st off l us = .throws :=
  C20_too_many_slices_throw sh st off l us h

theorem bindSlices_too_many : ∀ (us : List USlice) (A sh : List Nat) (u : USlice) (ws : List USlice), SlicesValid sh us →
    USlice.newaxis ∉ us → us.length = sh.length → u.isNew = false → bindSlices (A ++ sh) A.length (us ++ u :: ws) = .ub
  | [], A, sh, u, ws, _, _, hl, hu => by
    have : sh = [] := List.length_eq_zero_iff.1 hl.symm
    subst this
    simp [bindSlices, hu]
  | v :: us, A, [], u, ws, _, _, hl, _ => by simp at hl
  | v :: us, A, n :: sh, u, ws, hv, hn, hl, hu => by
    have hvn : v.isNew = false := by cases v <;> simp_all [USlice.isNew]
    have hv' : SliceValid n v ∧ SlicesValid sh us := by
      cases v <;> first | exact hv | (exfalso; exact hn (by simp))
    have hone : ∃ S, makeView [n] [v] = .ok S := by
      have : SlicesValid [n] [v] := by
        cases v <;> first | exact ⟨hv'.1, trivial⟩ | (exfalso; exact hn (by simp))
      obtain ⟨S, h, _⟩ := C18_view_shape [n] [v] this
      exact ⟨S, h⟩
    obtain ⟨s, hs⟩ : ∃ s, getSlice n v = .ok s := by
      obtain ⟨S, h⟩ := hone
      simp only [makeView, bindSlices, hvn, Bool.false_eq_true, if_false, List.getElem?_cons_zero] at h
      cases hg : getSlice n v with
      | ok s => exact ⟨s, rfl⟩
      | throws => rw [hg] at h; simp at h
      | ub => rw [hg] at h; simp at h
    have ih := bindSlices_too_many us (A ++ [n]) sh u ws hv'.2 (fun h => hn (by simp [h])) (by simpa using hl) hu
    have h1 : (A ++ n :: sh)[A.length]? = some n := by simp
    simp only [List.append_assoc, List.singleton_append, List.length_append, List.length_singleton] at ih
    simp only [List.cons_append, bindSlices, hvn, Bool.false_eq_true, if_false, h1, hs, ih, Res.map]
    rfl

/-- C108 fails for `xt::view` with more slices than there are axes: the extent of an axis that does not exist is read.
(The slices are those after an ellipsis has been replaced.) -/
theorem C108_view_count_wrong (sh : List Nat) (us : List USlice) (u : USlice) (ws : List USlice) (hv : SlicesValid sh us)
    (hn : .newaxis ∉ us) (hl : us.length = sh.length) (hu : u ≠ .newaxis) : makeView sh (us ++ u :: ws) = .ub := by
  have := bindSlices_too_many us [] sh u ws hv hn hl (by cases u <;> simp_all [USlice.isNew])
  simpa [makeView] using this

theorem inBounds_at {n i : Nat} : ∀ (pre post : List Nat) (p q : List Int) (pidx : List Nat), p.length = pre.length →
    InBounds (pre ++ n :: post) pidx → p ++ (i : Int) :: q = toInts pidx → i < n
  | [], post, [], q, x :: pidx, _, hb, he => by
    have h1 : (i : Int) = (x : Int) := by simpa [toInts] using (List.cons.inj he).1
    have h2 : x < n := hb.1
    omega
  | m :: pre, post, y :: p, q, x :: pidx, hl, hb, he =>
    inBounds_at pre post p q pidx (by simpa using hl) hb.2 (List.cons.inj he).2
  | [], _, _ :: _, _, _, hl, _, _ => by simp at hl
  | _ :: _, _, [], _, _, hl, _, _ => by simp at hl
  | [], _, [], _, [], _, hb, _ => by simp [InBounds] at hb
  | _ :: _, _, _ :: _, _, [], _, hb, _ => by simp [InBounds] at hb

/-- C108 fails for `xt::view` with an index `i` not less than the extent `n` of its axis, whatever the other slices: the view is made, and
each of its elements is looked up with the index `i` there, which is outside of the array. -/
theorem C108_view_index_wrong {pre post : List Nat} {n i : Nat} {us0 us1 : List USlice} (hi : n ≤ i)
    (hl : us0.length = pre.length) (hn : .newaxis ∉ us0 ++ .int i :: us1)
    (hv : SlicesValid (pre ++ (i + 1) :: post) (us0 ++ .int i :: us1)) :
    ∃ S, makeView (pre ++ n :: post) (us0 ++ .int i :: us1) = .ok S ∧
      ∀ idx, InBounds (selShape (pre ++ (i + 1) :: post) (us0 ++ .int i :: us1)) idx →
        ∃ p q, viewAccess (pre ++ n :: post) S (toInts idx) = some (p ++ (i : Int) :: q) ∧ p.length = pre.length ∧
          ∀ pidx, InBounds (pre ++ n :: post) pidx → p ++ (i : Int) :: q ≠ toInts pidx := by
  obtain ⟨S, h1, h2⟩ := C18_view_element_no_newaxis _ _ hv hn
  have hn0 : USlice.newaxis ∉ us0 := fun h => hn (by simp [h])
  have hm : makeView (pre ++ n :: post) (us0 ++ .int i :: us1) = .ok S := by
    rw [← h1]
    have := bindSlices_index (n := n) (m := i + 1) (i := (i : Int)) (by omega) post us1 us0 [] pre hl hn0
    simpa [makeView] using this
  refine ⟨S, hm, fun idx hb => ?_⟩
  obtain ⟨h3, _⟩ := h2 idx hb []
  obtain ⟨p, q, h4, h5⟩ := selIndex_at (m := i + 1) (i := (i : Int)) post us1 us0 pre idx hl hn0 hb
  refine ⟨p, q, ?_, h5, fun pidx hp he => absurd (inBounds_at pre post p q pidx h5 hp he) (by omega)⟩
  have hd : viewAccess (pre ++ n :: post) S (toInts idx) = viewAccess (pre ++ (i + 1) :: post) S (toInts idx) := by
    simp [viewAccess, viewDim]
  rw [hd]
  have h3' : viewAccess (pre ++ (i + 1) :: post) S (toInts idx) = some (selIndex (pre ++ (i + 1) :: post) (us0 ++ .int i :: us1) idx) := by
    simpa using h3
  rw [h3', h4]
  simp [pyIndex]

theorem svAxes_congr (sh sh' : List Nat) (st : List Int) : ∀ (k ax : Nat), (∀ j, ax ≤ j → sh[j]? = sh'[j]?) →
    svAxes sh st ax k = svAxes sh' st ax k
  | 0, _, _ => rfl
  | k + 1, ax, h => by
    have ih := svAxes_congr sh sh' st k (ax + 1) (fun j hj => h j (by omega))
    simp only [svAxes, svAxis, h ax (le_refl _), ih]

theorem svLoop_congr (sh sh' : List Nat) (st : List Int) (hl : sh.length = sh'.length) : ∀ (us : List USlice) (p : Nat),
    USlice.newaxis ∉ us → USlice.ellipsis ∉ us → (∀ j, p ≤ j → sh[j]? = sh'[j]?) → svLoop sh st 0 p 0 us = svLoop sh' st 0 p 0 us
  | [], p, _, _, h => by
    simp only [svLoop, hl]
    rw [svAxes_congr sh sh' st _ _ (fun j hj => h j (by omega))]
  | u :: us, p, hn, he, h => by
    have ih := svLoop_congr sh sh' st hl us (p + 1) (fun h => hn (by simp [h])) (fun h => he (by simp [h])) (fun j hj => h j (by omega))
    have hp : ((p : Int) - 0).toNat = p := by omega
    cases u <;> first
      | exact absurd List.mem_cons_self hn
      | exact absurd List.mem_cons_self he
      | simp only [svLoop, svAxis, hp, h p (le_refl _), ih]

theorem svLoop_index {n m : Nat} {i : Int} (st : List Int) (post : List Nat) (us1 : List USlice) (hn1 : USlice.newaxis ∉ us1)
    (he1 : USlice.ellipsis ∉ us1) : ∀ (us0 : List USlice) (A pre : List Nat), us0.length = pre.length → USlice.newaxis ∉ us0 →
    USlice.ellipsis ∉ us0 → svLoop (A ++ pre ++ n :: post) st 0 A.length 0 (us0 ++ .int i :: us1) =
      svLoop (A ++ pre ++ m :: post) st 0 A.length 0 (us0 ++ .int i :: us1)
  | [], A, pre, hl, _, _ => by
    have hp : pre = [] := List.length_eq_zero_iff.1 hl.symm
    subst hp
    simp only [List.nil_append, svLoop]
    rw [svLoop_congr (A ++ [] ++ n :: post) (A ++ [] ++ m :: post) st (by simp) us1 (A.length + 1) hn1 he1]
    intro j hj
    obtain ⟨k, rfl⟩ : ∃ k, j = A.length + (k + 1) := ⟨j - A.length - 1, by omega⟩
    simp [List.getElem?_append_right]
  | u :: us0, A, [], hl, _, _ => by simp at hl
  | u :: us0, A, x :: pre, hl, hn, he => by
    have h1 : (A ++ x :: pre ++ n :: post)[A.length]? = some x := by simp
    have h2 : (A ++ x :: pre ++ m :: post)[A.length]? = some x := by simp
    have ih := svLoop_index (n := n) (m := m) (i := i) st post us1 hn1 he1 us0 (A ++ [x]) pre (by simpa using hl)
      (fun h => hn (by simp [h])) (fun h => he (by simp [h]))
    have e : ∀ y : Nat, A ++ [x] ++ pre ++ y :: post = A ++ x :: pre ++ y :: post := by simp
    rw [e, e, List.length_append, List.length_singleton] at ih
    have hp : ((A.length : Int) - 0).toNat = A.length := by omega
    rw [List.cons_append]
    cases u <;> first
      | exact absurd List.mem_cons_self hn
      | exact absurd List.mem_cons_self he
      | simp only [svLoop, svAxis, hp, h1, h2, ih]

/-- C108 fails for `xt::strided_view` with an index `i` not less than the extent `n` of its axis, whatever the other slices: the view is
made, and its elements are at the places that the strides give for indices with `i` there. -/
theorem C108_strided_index_wrong {pre post : List Nat} {n i : Nat} {us0 us1 : List USlice} (st : List Int) (off : Int) (l : Layout)
    (hi : n ≤ i) (hst : st.length = (pre ++ n :: post).length) (hl : us0.length = pre.length)
    (hn : .newaxis ∉ us0 ++ .int i :: us1) (he : .ellipsis ∉ us0 ++ .int i :: us1)
    (hv : SlicesValid (pre ++ (i + 1) :: post) (us0 ++ .int i :: us1)) (hk : NoKeepDrop (us0 ++ .int i :: us1))
    (hp : IntsNonneg (us0 ++ .int i :: us1)) :
    ∃ v, stridedView (pre ++ n :: post) st off l (us0 ++ .int i :: us1) = .ok v ∧
      ∀ idx, InBounds (selShape (pre ++ (i + 1) :: post) (us0 ++ .int i :: us1)) idx →
        ∃ p q, selIndex (pre ++ (i + 1) :: post) (us0 ++ .int i :: us1) idx = p ++ (i : Int) :: q ∧ p.length = pre.length ∧
          v.index (toInts idx) = off + dot st (p ++ (i : Int) :: q) ∧
          ∀ pidx, InBounds (pre ++ n :: post) pidx → p ++ (i : Int) :: q ≠ toInts pidx := by
  have hc : (us0 ++ .int i :: us1).count .ellipsis = 0 := List.count_eq_zero.2 he
  have hex : expandEllipsis (pre ++ (i + 1) :: post).length (us0 ++ .int i :: us1) = us0 ++ .int i :: us1 :=
    expandWith_eq_self _ _ he
  obtain ⟨v, h1, _, h2, _⟩ := C20_strided_view_partial (pre ++ (i + 1) :: post) st off l (us0 ++ .int i :: us1)
    (by simpa using hst) (by omega) (by rw [hex]; exact hv) hk hp
  rw [hex] at h2
  have hn0 : USlice.newaxis ∉ us0 := fun h => hn (by simp [h])
  have he0 : USlice.ellipsis ∉ us0 := fun h => he (by simp [h])
  refine ⟨v, ?_, fun idx hb => ?_⟩
  · rw [← h1]
    have hlen : (pre ++ n :: post).length = (pre ++ (i + 1) :: post).length := by simp
    have hloop := svLoop_index (n := n) (m := i + 1) (i := (i : Int)) st post us1 (fun h => hn (by simp [h]))
      (fun h => he (by simp [h])) us0 [] pre hl hn0 he0
    simp only [List.nil_append, List.length_nil] at hloop
    have hcnt := svCount_ok (us0 ++ .int i :: us1) ⟨(pre ++ (i + 1) :: post).length, (pre ++ (i + 1) :: post).length, 0, false⟩
      (by simp [hc])
    have hd : decide (USlice.ellipsis ∈ us0 ++ .int i :: us1) = false := by simpa using he
    simp only [stridedView, svFillArgs, hlen, hcnt, hd, Res.bind, Bool.or_self, Bool.false_eq_true, if_false, Int.toNat_zero, hloop]
  · obtain ⟨p, q, h4, h5⟩ := selIndex_at (m := i + 1) (i := (i : Int)) post us1 us0 pre idx hl hn0 hb
    have hpy : pyIndex (i + 1) (i : Int) = (i : Int) := by simp [pyIndex]
    rw [hpy] at h4
    exact ⟨p, q, h4, h5, by rw [(h2 idx hb).1, h4], fun pidx hp he => absurd (inBounds_at pre post p q pidx h5 hp he) (by omega)⟩

theorem le_sum_of_mem_nat (x : Nat) : ∀ l : List Nat, x ∈ l → x ≤ l.sum
  | [], h => absurd h (by simp)
  | y :: l, h => by
    rw [List.sum_cons]
    rcases List.mem_cons.1 h with rfl | h
    · omega
    · have := le_sum_of_mem_nat x l h
      omega

/-- C108 fails for `keep`: whatever the listed positions, the view is made and shows the elements looked up with them. -/
theorem C108_keep_wrong (n : Nat) (l : List Nat) : ∃ S, makeView [n] [.keep (toInts l)] = .ok S ∧ viewShape [n] S = [(l.length : Int)] ∧
    ∀ (k x : Nat), l[k]? = some x → viewAccess [n] S [(k : Int)] = some [(x : Int)] := by
  have hm : ∀ x ∈ l, x < l.sum + 1 := fun x hx => Nat.lt_succ_of_le (le_sum_of_mem_nat x l hx)
  have hv : SlicesValid [l.sum + 1] [.keep (toInts l)] := by
    refine ⟨fun i hi => ?_, trivial⟩
    obtain ⟨x, hx, rfl⟩ := List.mem_map.1 hi
    have := hm x hx
    constructor <;> simp only [Int.ofNat_eq_natCast] <;> omega
  have hnorm : ∀ m : Nat, (toInts l).map (normIndex m) = toInts l := by
    intro m
    simp [toInts, normIndex, Function.comp_def]
  have heq : ∀ m : Nat, makeView [m] [.keep (toInts l)] = .ok [.keep (toInts l)] := by
    intro m
    simp [makeView, bindSlices, USlice.isNew, getSlice, hnorm, Res.map, Res.bind]
  obtain ⟨S, h1, h2⟩ := C18_view_element_no_newaxis _ _ hv (by simp)
  rw [heq] at h1
  injection h1 with h1
  subst h1
  refine ⟨_, heq n, ?_, fun k x hx => ?_⟩
  · simp [viewShape, viewDim, integralCount, newaxisCount, integralSkip, skipImpl, Sl.isInt, Sl.isNew, Sl.size, toInts, List.range_succ]
  · have hk : k < l.length := (List.getElem?_eq_some_iff.1 hx).1
    have h5 := (h2 [k] (by simp [selShape, axisSel, toInts, InBounds, hk]) []).1
    have h6 : viewAccess [n] [.keep (toInts l)] [(k : Int)] = viewAccess [l.sum + 1] [.keep (toInts l)] [(k : Int)] := by
      simp [viewAccess, viewDim]
    rw [h6]
    have h7 : selIndex [l.sum + 1] [.keep (toInts l)] [k] = [(x : Int)] := by
      simp [selIndex, axisSel, toInts, pyIndex, hx]
    rw [← h7]
    simpa [toInts] using h5

theorem bindSlices_same {n m : Nat} {u : USlice} (hg : getSlice n u = getSlice m u) (hu : u.isNew = false) (post : List Nat)
    (us1 : List USlice) : ∀ (us0 : List USlice) (A pre : List Nat), us0.length = pre.length → USlice.newaxis ∉ us0 →
    bindSlices (A ++ pre ++ n :: post) A.length (us0 ++ u :: us1) = bindSlices (A ++ pre ++ m :: post) A.length (us0 ++ u :: us1)
  | [], A, pre, hl, _ => by
    have hp : pre = [] := List.length_eq_zero_iff.1 hl.symm
    subst hp
    have h1 : (A ++ [] ++ n :: post)[A.length]? = some n := by simp
    have h2 : (A ++ [] ++ m :: post)[A.length]? = some m := by simp
    simp only [List.nil_append, bindSlices, hu, h1, h2, hg, Bool.false_eq_true, if_false]
    rw [bindSlices_congr (A ++ [] ++ n :: post) (A ++ [] ++ m :: post) us1 (A.length + 1)]
    intro j hj
    obtain ⟨k, rfl⟩ : ∃ k, j = A.length + (k + 1) := ⟨j - A.length - 1, by omega⟩
    simp [List.getElem?_append_right]
  | v :: us0, A, [], hl, _ => by simp at hl
  | v :: us0, A, x :: pre, hl, hn => by
    have hv : v.isNew = false := by
      cases v <;> simp_all [USlice.isNew]
    have h1 : (A ++ x :: pre ++ n :: post)[A.length]? = some x := by simp
    have h2 : (A ++ x :: pre ++ m :: post)[A.length]? = some x := by simp
    have ih := bindSlices_same hg hu post us1 us0 (A ++ [x]) pre (by simpa using hl) (fun h => hn (by simp [h]))
    have e : ∀ y : Nat, A ++ [x] ++ pre ++ y :: post = A ++ x :: pre ++ y :: post := by simp
    rw [e, e, List.length_append, List.length_singleton] at ih
    simp only [List.cons_append, bindSlices, hv, Bool.false_eq_true, if_false]
    simp only [List.append_assoc, List.cons_append] at h1 h2 ih ⊢
    rw [h1, h2, ih]

/-- C108 fails for `keep` among any other slices: the view is that of an array whose axis is long enough for the listed positions, however
short it is. -/
theorem C108_keep_among_wrong {pre post : List Nat} {n m : Nat} {l : List Nat} {us0 us1 : List USlice} (hl : us0.length = pre.length)
    (hn : .newaxis ∉ us0 ++ .keep (toInts l) :: us1) (hv : SlicesValid (pre ++ m :: post) (us0 ++ .keep (toInts l) :: us1)) :
    ∃ S, makeView (pre ++ n :: post) (us0 ++ .keep (toInts l) :: us1) = .ok S ∧
      ∀ idx, InBounds (selShape (pre ++ m :: post) (us0 ++ .keep (toInts l) :: us1)) idx →
        viewAccess (pre ++ n :: post) S (toInts idx) = some (selIndex (pre ++ m :: post) (us0 ++ .keep (toInts l) :: us1) idx) := by
  obtain ⟨S, h1, h2⟩ := C18_view_element_no_newaxis _ _ hv hn
  have hnorm : ∀ k : Nat, (toInts l).map (normIndex k) = toInts l := by
    intro k
    simp [toInts, normIndex, Function.comp_def]
  refine ⟨S, ?_, fun idx hb => ?_⟩
  · rw [← h1]
    have := bindSlices_same (n := n) (m := m) (u := .keep (toInts l)) (by simp [getSlice, hnorm]) rfl post us1 us0 [] pre hl
      (fun h => hn (by simp [h]))
    simpa [makeView] using this
  · have hd : viewAccess (pre ++ n :: post) S (toInts idx) = viewAccess (pre ++ m :: post) S (toInts idx) := by
      simp [viewAccess, viewDim]
    rw [hd]
    simpa using (h2 idx hb []).1

theorem viewAccess_int (n : Nat) (sh : List Nat) (k : Int) (args : List Int) (hl : args.length = sh.length) :
    viewAccess (n :: sh) [.int k] args = some (k :: args) := by
  have hd : viewDim (n :: sh) [.int k] = args.length := by
    simp [viewDim, integralCount, newaxisCount, Sl.isInt, Sl.isNew, hl]
  have hc : args.length + integralCount [.int k] - newaxisCount [.int k] = args.length + 1 := by
    simp [integralCount, newaxisCount, Sl.isInt, Sl.isNew]
  simp only [viewAccess, hd, Nat.sub_self, List.drop_zero, hc]
  rw [mapM_option_some _ (fun I => (k :: args).getD I 0)]
  · congr 1
    apply List.ext_getElem
    · simp
    · intro j h1 h2
      simp only [List.getElem_map, List.getElem_range]
      simp only [List.getD_eq_getElem?_getD, List.getElem?_eq_getElem h2, Option.getD_some]
  · intro I hI
    rw [List.mem_range] at hI
    cases I with
    | zero => simp [viewIndexAt, newaxisCountBefore, Sl.isNew, slicedAccess]
    | succ I =>
      have hI' : I < args.length := by omega
      simp [viewIndexAt, newaxisCountBefore, integralCount, newaxisCount, Sl.isInt, Sl.isNew, hI']

/-- C108 fails for negative indices too: with `i < -n` the view `view(a, i)` is made, and each of its elements is looked up with the
negative index `i + n`. -/
theorem C108_view_negative_wrong (n : Nat) (sh : List Nat) (i : Int) (hi : i < -(n : Int)) :
    ∃ S, makeView (n :: sh) [.int i] = .ok S ∧ ∀ idx, InBounds sh idx →
      viewAccess (n :: sh) S (toInts idx) = some ((i + n) :: toInts idx) ∧ i + n < 0 := by
  have h0 : i < 0 := by omega
  refine ⟨[.int (i + n)], ?_, fun idx hb => ⟨viewAccess_int n sh _ _ (by simpa [toInts] using hb.length_eq), by omega⟩⟩
  simp [makeView, bindSlices, USlice.isNew, getSlice, h0, Res.map, Res.bind]

/-- In a row-major matrix with `c` columns an index `c + k` of a column is read as the column `k` of the next row: where
`view(a, all(), c + k)` does not leave the memory of the array, it shows other elements of it. -/
theorem C108_next_row (r c j k : Nat) (hr : r ≠ 1) (hc : c ≠ 1) :
    dataOffset (computeStrides .row_major .row_major [r, c]).1 false [(j : Int), ((c + k : Nat) : Int)] =
      dataOffset (computeStrides .row_major .row_major [r, c]).1 false [((j + 1 : Nat) : Int), (k : Int)] := by
  have hs : (computeStrides .row_major .row_major [r, c]).1 = [(c : Int), 1] := by
    simp [computeStrides, rowStrides, adaptStride, hr, hc]
  rw [hs, dataOffset_eq [(c : Int), 1] _ (by simp), dataOffset_eq [(c : Int), 1] _ (by simp)]
  simp [dot]
  ring

/-! ### Examples -/

/-- `view(a, range(1, 100), range(-100, 2))` of a matrix of shape (3, 4). -/
example : ∃ S, makeView [3, 4] [.range (some 1) (some 100) none, .range (some (-100)) (some 2) none] = .ok S ∧
    viewShape [3, 4] S = [2, 2] ∧ ∀ idx, InBounds [2, 2] idx →
      ∃ pidx, InBounds [3, 4] pidx ∧ viewAccess [3, 4] S (toInts idx) = some (toInts pidx) :=
  C108_ranges [3, 4] [.range (some 1) (some 100) none, .range (some (-100)) (some 2) none] (by simp [Clamped]) (by decide) (by decide)

/-- `view(a, 0, 0, 0)` and `strided_view(a, {0, 0, 0})` of a matrix. -/
example : makeView [3, 4] ([.int 0, .int 0] ++ .int 0 :: []) = .ub ∧
    stridedView [3, 4] [4, 1] 0 .row_major [.int 0, .int 0, .int 0] = .throws :=
  ⟨C108_view_count_wrong [3, 4] [.int 0, .int 0] (.int 0) [] (by decide) (by decide) rfl (by decide),
   C108_strided_count [3, 4] _ _ _ _ (by decide)⟩

/-- `view(a, all(), 5)` of a matrix of shape (3, 4): the first element is `a(0, 5)`, in memory `a(1, 1)`. -/
example : (∃ S, makeView ([3] ++ 4 :: []) ([.all] ++ .int ((5 : Nat) : Int) :: []) = .ok S ∧
      ∀ idx, InBounds [3] idx → ∃ p q, viewAccess [3, 4] S (toInts idx) = some (p ++ ((5 : Nat) : Int) :: q) ∧ p.length = 1 ∧
        ∀ pidx, InBounds [3, 4] pidx → p ++ ((5 : Nat) : Int) :: q ≠ toInts pidx) ∧
    dataOffset (computeStrides .row_major .row_major [3, 4]).1 false [0, 5] =
      dataOffset (computeStrides .row_major .row_major [3, 4]).1 false [1, 1] :=
  ⟨C108_view_index_wrong (pre := [3]) (post := []) (n := 4) (i := 5) (us0 := [.all]) (us1 := []) (by decide) rfl (by decide) (by decide),
   C108_next_row 3 4 0 1 (by decide) (by decide)⟩

/-- `strided_view(a, {all(), 5})` of a row-major matrix of shape (3, 4). -/
example : ∃ v, stridedView ([3] ++ 4 :: []) [4, 1] 0 .row_major ([.all] ++ .int ((5 : Nat) : Int) :: []) = .ok v ∧
    ∀ idx, InBounds [3] idx → ∃ p q, selIndex [3, 6] [.all, .int ((5 : Nat) : Int)] idx = p ++ ((5 : Nat) : Int) :: q ∧ p.length = 1 ∧
      v.index (toInts idx) = 0 + dot [4, 1] (p ++ ((5 : Nat) : Int) :: q) ∧
      ∀ pidx, InBounds [3, 4] pidx → p ++ ((5 : Nat) : Int) :: q ≠ toInts pidx :=
  C108_strided_index_wrong (pre := [3]) (post := []) (n := 4) (i := 5) (us0 := [.all]) (us1 := []) [4, 1] 0 .row_major (by decide) rfl
    rfl (by decide) (by decide) (by decide) (by simp [NoKeepDrop]) (by simp [IntsNonneg])

/-- `view(v, keep(0, 7))` of an array with 3 elements. -/
example : ∃ S, makeView [3] [.keep (toInts [0, 7])] = .ok S ∧ viewShape [3] S = [2] ∧
    ∀ (k x : Nat), [0, 7][k]? = some x → viewAccess [3] S [(k : Int)] = some [(x : Int)] :=
  C108_keep_wrong 3 [0, 7]

/-- `view(a, -5)` of an array of shape (3, 4) shows the row with the index -2. -/
example : ∃ S, makeView [3, 4] [.int (-5)] = .ok S ∧ ∀ idx, InBounds [4] idx →
    viewAccess [3, 4] S (toInts idx) = some (((-5 : Int) + (3 : Nat)) :: toInts idx) ∧ (-5 : Int) + (3 : Nat) < 0 :=
  C108_view_negative_wrong 3 [4] (-5) (by decide)

/-- `view(a, all(), keep(0, 7))` of an array of shape (3, 4). -/
example : ∃ S, makeView ([3] ++ 4 :: []) ([.all] ++ .keep (toInts [0, 7]) :: []) = .ok S ∧ ∀ idx, InBounds [3, 2] idx →
    viewAccess [3, 4] S (toInts idx) = some (selIndex [3, 8] [.all, .keep (toInts [0, 7])] idx) :=
  C108_keep_among_wrong (pre := [3]) (post := []) (n := 4) (m := 8) (l := [0, 7]) (us0 := [.all]) (us1 := []) rfl (by decide) (by decide)

end Xt
