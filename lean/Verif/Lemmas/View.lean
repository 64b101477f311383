import Verif.Model.View
import Verif.Spec.View
import Verif.Props.Slice
import Verif.Lemmas.Index
/-!
# Lemmas on slice lists: skip/count functions, binding of user slices
-/

namespace Xt
open Spec

/-! ## Counting -/

theorem nb_zero (S : List Sl) : newaxisCountBefore S 0 = 0 := by simp [newaxisCountBefore]
theorem ib_zero (S : List Sl) : integralCountBefore S 0 = 0 := by simp [integralCountBefore]

theorem nb_cons (s : Sl) (S : List Sl) (k : Nat) :
    newaxisCountBefore (s :: S) (k + 1) = (if s.isNew then 1 else 0) + newaxisCountBefore S k := by
  simp only [newaxisCountBefore, List.take_succ_cons, List.countP_cons]; omega

theorem ib_cons (s : Sl) (S : List Sl) (k : Nat) :
    integralCountBefore (s :: S) (k + 1) = (if s.isInt then 1 else 0) + integralCountBefore S k := by
  simp only [integralCountBefore, List.take_succ_cons, List.countP_cons]; omega

theorem nb_le (S : List Sl) (k : Nat) : newaxisCountBefore S k ≤ k := by
  have h1 := List.countP_le_length (p := Sl.isNew) (l := S.take k)
  simp only [newaxisCountBefore]; rw [List.length_take] at h1; omega

theorem ib_le (S : List Sl) (k : Nat) : integralCountBefore S k ≤ k := by
  have h1 := List.countP_le_length (p := Sl.isInt) (l := S.take k)
  simp only [integralCountBefore]; rw [List.length_take] at h1; omega

theorem nb_ge_length {S : List Sl} {k : Nat} (h : S.length ≤ k) : newaxisCountBefore S k = newaxisCount S := by
  simp [newaxisCountBefore, newaxisCount, List.take_of_length_le h]

theorem ib_ge_length {S : List Sl} {k : Nat} (h : S.length ≤ k) : integralCountBefore S k = integralCount S := by
  simp [integralCountBefore, integralCount, List.take_of_length_le h]

theorem nb_succ (S : List Sl) (k : Nat) : newaxisCountBefore S (k + 1) =
    newaxisCountBefore S k + (if (S[k]?).any Sl.isNew then 1 else 0) := by
  simp only [newaxisCountBefore, List.take_add_one, List.countP_append]
  cases S[k]? with
  | none => simp
  | some s => simp [List.countP_cons]

theorem ib_succ (S : List Sl) (k : Nat) : integralCountBefore S (k + 1) =
    integralCountBefore S k + (if (S[k]?).any Sl.isInt then 1 else 0) := by
  simp only [integralCountBefore, List.take_add_one, List.countP_append]
  cases S[k]? with
  | none => simp
  | some s => simp [List.countP_cons]

theorem nb_mono (S : List Sl) {q k : Nat} (h : q ≤ k) : newaxisCountBefore S q ≤ newaxisCountBefore S k := by
  induction h with
  | refl => exact Nat.le_refl _
  | step _ ih => rw [nb_succ]; omega

theorem nb_lip (S : List Sl) {q k : Nat} (h : q ≤ k) :
    newaxisCountBefore S k ≤ newaxisCountBefore S q + (k - q) := by
  induction h with
  | refl => simp
  | step hqk ih => 
    rw [nb_succ]; split <;> (have := hqk; simp only [Nat.le_eq] at this; omega)

theorem exists_of_countP {α : Type} (P : α → Bool) (S : List α) (k : Nat) (h : 1 ≤ (S.take k).countP P) :
    ∃ (p : Nat) (s : α), p < k ∧ S[p]? = some s ∧ P s = true := by
  have h' : 0 < (S.take k).countP P := h
  rw [List.countP_pos_iff] at h'
  obtain ⟨a, ha, hP⟩ := h'
  obtain ⟨p, hp, rfl⟩ := List.mem_iff_getElem.mp ha
  have hp' : p < k ∧ p < S.length := by simp at hp; omega
  refine ⟨p, _, hp'.1, ?_, hP⟩
  simp [hp'.2]

theorem exists_two_of_countP {α : Type} (P : α → Bool) (S : List α) (k : Nat)
    (h : 2 ≤ (S.take k).countP P) :
    ∃ (p q : Nat) (s t : α), p < q ∧ q < k ∧ S[p]? = some s ∧ P s = true ∧ S[q]? = some t ∧ P t = true := by
  induction k with
  | zero => simp at h
  | succ k ih =>
    by_cases h2 : 2 ≤ (S.take k).countP P
    · obtain ⟨p, q, s, t, h1, h3, h4⟩ := ih h2
      exact ⟨p, q, s, t, h1, by omega, h4⟩
    · rw [List.take_add_one, List.countP_append] at h
      cases hk : S[k]? with
      | none => rw [hk] at h; simp at h; exact absurd h h2
      | some t =>
        rw [hk] at h
        simp only [Option.toList_some, List.countP_cons, List.countP_nil] at h
        have hP : P t = true := by
          by_contra hc
          have hc' : P t = false := by simpa using hc
          rw [hc', if_neg (by simp)] at h; omega
        rw [hP, if_pos rfl] at h
        obtain ⟨p, s, hp, hs, hPs⟩ := exists_of_countP P S k (by omega)
        exact ⟨p, k, s, t, hp, by omega, hs, hPs, hk, hP⟩

/-! ## Skip functions -/

theorem newaxisSkip_nil (i : Nat) : newaxisSkip [] i = i := by simp [newaxisSkip, skipImpl]

theorem newaxisSkip_new {s : Sl} (h : s.isNew = true) (S : List Sl) (i : Nat) :
    newaxisSkip (s :: S) i = 1 + newaxisSkip S i := by
  cases i <;> simp [newaxisSkip, skipImpl, h]

theorem newaxisSkip_zero {s : Sl} (h : s.isNew = false) (S : List Sl) : newaxisSkip (s :: S) 0 = 0 := by
  simp [newaxisSkip, skipImpl, h]

theorem newaxisSkip_succ {s : Sl} (h : s.isNew = false) (S : List Sl) (i : Nat) :
    newaxisSkip (s :: S) (i + 1) = 1 + newaxisSkip S i := by
  simp [newaxisSkip, skipImpl, h]

theorem integralSkip_nil (i : Nat) : integralSkip [] i = i := by simp [integralSkip, skipImpl]

theorem integralSkip_int {s : Sl} (h : s.isInt = true) (S : List Sl) (i : Nat) :
    integralSkip (s :: S) i = 1 + integralSkip S i := by
  cases i <;> simp [integralSkip, skipImpl, h]

theorem integralSkip_zero {s : Sl} (h : s.isInt = false) (S : List Sl) : integralSkip (s :: S) 0 = 0 := by
  simp [integralSkip, skipImpl, h]

theorem integralSkip_succ {s : Sl} (h : s.isInt = false) (S : List Sl) (i : Nat) :
    integralSkip (s :: S) (i + 1) = 1 + integralSkip S i := by
  simp [integralSkip, skipImpl, h]

/-- The slice of the `I`-th parent axis stands `I` places after the newaxes before it. -/
theorem newaxisSkip_eq (S : List Sl) (I : Nat) :
    newaxisSkip S I = I + newaxisCountBefore S (newaxisSkip S I) := by
  induction S generalizing I with
  | nil => simp [newaxisSkip_nil, newaxisCountBefore]
  | cons s S ih =>
    by_cases h : s.isNew = true
    · rw [newaxisSkip_new h, Nat.add_comm 1, nb_cons]
      simp only [h, if_true]; have := ih I; omega
    · have h' : s.isNew = false := by simpa using h
      cases I with
      | zero => rw [newaxisSkip_zero h']; simp [nb_zero]
      | succ I =>
        rw [newaxisSkip_succ h', Nat.add_comm 1, nb_cons]
        simp only [h', Bool.false_eq_true, if_false]; have := ih I; omega

theorem newaxisSkip_not_new (S : List Sl) (I : Nat) (s : Sl) (h : S[newaxisSkip S I]? = some s) :
    s.isNew = false := by
  induction S generalizing I with
  | nil => simp at h
  | cons t S ih =>
    by_cases ht : t.isNew = true
    · rw [newaxisSkip_new ht, Nat.add_comm 1] at h
      exact ih I (by simpa using h)
    · have h' : t.isNew = false := by simpa using ht
      cases I with
      | zero => rw [newaxisSkip_zero h'] at h; simp at h; rw [← h]; exact h'
      | succ I =>
        rw [newaxisSkip_succ h', Nat.add_comm 1] at h
        exact ih I (by simpa using h)

theorem integralSkip_eq (S : List Sl) (i : Nat) :
    integralSkip S i = i + integralCountBefore S (integralSkip S i) := by
  induction S generalizing i with
  | nil => simp [integralSkip_nil, integralCountBefore]
  | cons s S ih =>
    by_cases h : s.isInt = true
    · rw [integralSkip_int h, Nat.add_comm 1, ib_cons]
      simp only [h, if_true]; have := ih i; omega
    · have h' : s.isInt = false := by simpa using h
      cases i with
      | zero => rw [integralSkip_zero h']; simp [ib_zero]
      | succ I =>
        rw [integralSkip_succ h', Nat.add_comm 1, ib_cons]
        simp only [h', Bool.false_eq_true, if_false]; have := ih I; omega

/-! ## Binding -/

/-- A bound slice does what the user slice means on its axis. -/
structure SliceOk (n : Nat) (u : USlice) (s : Sl) : Prop where
  size : s.size = (axisSel n u).length
  value : ∀ i, i < (axisSel n u).length → s.value (i : Int) = (axisSel n u).getD i 0
  notNew : s.isNew = false
  isInt : s.isInt = true ↔ IsInt u
  bounds : ∀ p ∈ axisSel n u, 0 ≤ p ∧ p < n

/-- Slices bound to the axes they belong to. -/
inductive Bound : List Nat → List USlice → List Sl → Prop
  | nil (sh) : Bound sh [] []
  | new {sh us S} (h : Bound sh us S) : Bound sh (.newaxis :: us) (.newaxis :: S)
  | cons {n sh u us s S} (hu : u ≠ .newaxis) (hs : SliceOk n u s) (h : Bound sh us S) :
      Bound (n :: sh) (u :: us) (s :: S)

theorem SliceOk.of_positions {n : Nat} {u : USlice} {s : Sl} (hp : s.positions = axisSel n u)
    (hsz : s.size = (axisSel n u).length) (hnew : s.isNew = false) (hint : s.isInt = true ↔ IsInt u)
    (hb : ∀ p ∈ axisSel n u, 0 ≤ p ∧ p < n) : SliceOk n u s := by
  refine ⟨hsz, ?_, hnew, hint, hb⟩
  intro i hi
  rw [← hp] at hi ⊢
  have hi' : i < s.size.toNat := by rwa [length_positions] at hi
  simp [Sl.positions, List.getD_eq_getElem?_getD, hi']

theorem pyIndex_bounds {n : Nat} {i : Int} (h : -(n : Int) ≤ i ∧ i < n) :
    0 ≤ pyIndex n i ∧ pyIndex n i < n := by
  simp only [pyIndex]; split <;> omega

theorem rangeGet_shape {n : Nat} {a b k : Option Int} {s : Sl} (h : rangeGet a b k n = .ok s) :
    s.isNew = false ∧ s.isInt = false := by
  have hm : ∀ x y z, mkStepped x y z = .ok s → s.isNew = false ∧ s.isInt = false := by
    intro x y z hxy
    simp only [mkStepped] at hxy
    split at hxy <;> simp at hxy
    subst hxy; simp [Sl.isNew, Sl.isInt]
  rcases a with _ | a <;> rcases b with _ | b <;> rcases k with _ | k <;>
    simp only [rangeGet, getSteppedRange, Res.ok.injEq] at h
  all_goals first
    | (subst h; simp [Sl.isNew, Sl.isInt, mkRange])
    | exact hm _ _ _ h
    | (split at h <;> exact hm _ _ _ h)

theorem slice_ok {n : Nat} {u : USlice} (h : SliceValid n u) (hu : u ≠ .newaxis) :
    ∃ s, getSlice n u = .ok s ∧ SliceOk n u s := by
  cases u with
  | int i =>
    refine ⟨_, rfl, SliceOk.of_positions ?_ ?_ rfl ?_ ?_⟩
    · simp [Sl.positions, Sl.size, Sl.value, axisSel, pyIndex, List.range_succ]
    · simp [Sl.size, axisSel]
    · simp [Sl.isInt, IsInt]
    · intro p hp; simp only [axisSel, List.mem_singleton] at hp; subst hp; exact pyIndex_bounds h
  | range a b k =>
    cases k with
    | none =>
      obtain ⟨s, h1, h2, h3, h4⟩ := C16_range_no_step n a b
      have h5 := rangeGet_shape (show rangeGet a b none n = .ok s from h1)
      refine ⟨s, h1, SliceOk.of_positions h2 h3 h5.1 ?_ ?_⟩
      · simp [h5.2, IsInt]
      · intro p hp; exact h4 p (h2 ▸ hp)
    | some k =>
      obtain ⟨s, h1, h2, h4⟩ := C16_range_step_partial n a b k h.1
      obtain ⟨s', h1', h3⟩ := C16_size_exact_iff n a b k h.1
      rw [h1] at h1'; cases h1'
      have h5 := rangeGet_shape (show rangeGet a b (some k) n = .ok s from h1)
      refine ⟨s, h1, SliceOk.of_positions h2 (h3.mpr h.2) h5.1 ?_ ?_⟩
      · simp [h5.2, IsInt]
      · intro p hp; exact h4 p (h2 ▸ hp)
  | all =>
    refine ⟨_, rfl, SliceOk.of_positions ?_ ?_ rfl ?_ ?_⟩
    · simp [Sl.positions, Sl.size, Sl.value, axisSel]
    · simp [Sl.size, axisSel]
    · simp [Sl.isInt, IsInt]
    · intro p hp; simp only [axisSel, List.mem_map, List.mem_range] at hp
      obtain ⟨m, hm, rfl⟩ := hp; simp; omega
  | newaxis => exact absurd rfl hu
  | ellipsis => exact absurd h id
  | keep l =>
    obtain ⟨s, h1, h2, h3⟩ := C17_keep n l
    have h1' := h1
    simp only [getSlice, Res.ok.injEq] at h1'
    refine ⟨s, h1, SliceOk.of_positions h2 (by simp [axisSel, h3]) (by subst h1'; rfl) ?_ ?_⟩
    · subst h1'; simp [Sl.isInt, IsInt]
    · intro p hp; simp only [axisSel, List.mem_map] at hp
      obtain ⟨i, hi, rfl⟩ := hp
      exact pyIndex_bounds (h i hi)
  | drop l =>
    obtain ⟨s, h1, h2, h3⟩ := C17_drop_partial n l h.1 (fun i hi => pyIndex_bounds (h.2 i hi))
    have h1' := h1
    simp only [getSlice, dropNormalize, Res.ok.injEq] at h1'
    refine ⟨s, h1, SliceOk.of_positions h2 (by rw [h3, h2]; rfl) (by subst h1'; rfl) ?_ ?_⟩
    · subst h1'; simp [Sl.isInt, IsInt]
    · intro p hp; simp only [axisSel, List.mem_filter, List.mem_map, List.mem_range] at hp
      obtain ⟨⟨m, hm, rfl⟩, _⟩ := hp; simp; omega

theorem bindSlices_ok (full : List Nat) (us : List USlice) (pre : Nat)
    (h : SlicesValid (full.drop pre) us) :
    ∃ S, bindSlices full pre us = .ok S ∧ Bound (full.drop pre) us S := by
  induction us generalizing pre with
  | nil => exact ⟨[], rfl, .nil _⟩
  | cons u us ih =>
    by_cases hu : u = .newaxis
    · subst hu
      obtain ⟨S, h1, h2⟩ := ih pre h
      exact ⟨.newaxis :: S, by simp [bindSlices, USlice.isNew, getSlice, h1], .new h2⟩
    · have hnew : u.isNew = false := by cases u <;> simp_all [USlice.isNew]
      cases hd : full.drop pre with
      | nil => rw [hd] at h; cases u <;> simp_all [SlicesValid]
      | cons n sh =>
        rw [hd] at h
        have hv : SliceValid n u ∧ SlicesValid sh us := by
          cases u <;> simp_all [SlicesValid]
        have hn : full[pre]? = some n := by
          have : (full.drop pre)[0]? = some n := by rw [hd]; rfl
          simpa using this
        have hsh : full.drop (pre + 1) = sh := by
          rw [← List.drop_drop, hd]; rfl
        obtain ⟨s, h1, h2⟩ := slice_ok hv.1 hu
        obtain ⟨S, h3, h4⟩ := ih (pre + 1) (by rw [hsh]; exact hv.2)
        refine ⟨s :: S, ?_, .cons hu h2 (hsh ▸ h4)⟩
        simp [bindSlices, hnew, hn, h1, h3]

theorem makeView_ok {sh : List Nat} {us : List USlice} (h : SlicesValid sh us) :
    ∃ S, makeView sh us = .ok S ∧ Bound sh us S := by
  have := bindSlices_ok sh us 0 (by simpa using h)
  simpa [makeView] using this

/-! ## Facts about bound slice lists -/

namespace Bound
variable {sh : List Nat} {us : List USlice} {S : List Sl}

theorem kinds (h : Bound sh us S) (p : Nat) (u : USlice) (hp : us[p]? = some u) :
    ∃ s, S[p]? = some s ∧ (s.isNew = true ↔ u = .newaxis) ∧ (s.isInt = true ↔ IsInt u) := by
  induction h generalizing p with
  | nil => simp at hp
  | new _ ih =>
    cases p with
    | zero => simp at hp; subst hp; exact ⟨_, rfl, by simp [Sl.isNew], by simp [Sl.isInt, IsInt]⟩
    | succ p => exact ih p (by simpa using hp)
  | cons hu hs _ ih =>
    cases p with
    | zero => simp at hp; subst hp; exact ⟨_, rfl, by simp [hs.notNew, hu], hs.isInt⟩
    | succ p => exact ih p (by simpa using hp)

theorem length (h : Bound sh us S) : S.length = us.length := by
  induction h with
  | nil => rfl
  | new _ ih => simp [ih]
  | cons _ _ _ ih => simp [ih]

theorem kinds' (h : Bound sh us S) (p : Nat) (s : Sl) (hp : S[p]? = some s) :
    ∃ u, us[p]? = some u ∧ (s.isNew = true ↔ u = .newaxis) ∧ (s.isInt = true ↔ IsInt u) := by
  have : p < us.length := by
    rw [← h.length]; exact (List.getElem?_eq_some_iff.mp hp).1
  obtain ⟨s', h1, h2⟩ := h.kinds p us[p] (by simp [this])
  rw [hp] at h1; cases h1
  exact ⟨_, by simp [this], h2⟩

/-- Non-newaxis slices do not outnumber the parent's axes. -/
theorem count_le (h : Bound sh us S) : S.length - newaxisCount S ≤ sh.length := by
  induction h with
  | nil => simp
  | @new sh us S _ ih =>
    have : newaxisCount S ≤ S.length := List.countP_le_length
    simp [newaxisCount, List.countP_cons, Sl.isNew] at ih this ⊢; omega
  | @cons n sh u us s S hu hs _ ih =>
    have h2 := hs.notNew
    have : newaxisCount S ≤ S.length := List.countP_le_length
    simp [newaxisCount, List.countP_cons, h2] at ih this ⊢; omega

theorem isNew_isInt (s : Sl) : ¬ (s.isNew = true ∧ s.isInt = true) := by
  cases s <;> simp [Sl.isNew, Sl.isInt]

theorem counts_le (S : List Sl) : integralCount S + newaxisCount S ≤ S.length := by
  induction S with
  | nil => simp [integralCount, newaxisCount]
  | cons s S ih =>
    have := isNew_isInt s
    simp only [integralCount, newaxisCount, List.countP_cons, List.length_cons] at ih ⊢
    cases h1 : s.isNew <;> cases h2 : s.isInt <;> simp_all <;> omega

theorem integralCount_le (h : Bound sh us S) : integralCount S ≤ sh.length := by
  have := h.count_le; have := counts_le S; omega

theorem selShape_length (h : Bound sh us S) : (selShape sh us).length = viewDim sh S := by
  induction h with
  | nil => simp [selShape, viewDim, integralCount, newaxisCount]
  | @new sh us S hb ih =>
    simp only [selShape, List.length_cons, ih, viewDim, integralCount, newaxisCount, List.countP_cons,
      Sl.isNew, Sl.isInt]
    simp; omega
  | @cons n sh u us s S hu hs hb ih =>
    have hle := hb.integralCount_le
    have hn := hs.notNew
    by_cases hi : IsInt u
    · obtain ⟨i, rfl⟩ := hi
      have h1 : s.isInt = true := hs.isInt.mpr ⟨i, rfl⟩
      simp only [integralCount] at hle
      simp only [selShape, ih, viewDim, integralCount, newaxisCount, List.countP_cons, h1, hn,
        List.length_cons]
      simp
    · have h1 : s.isInt = false := by rw [Bool.eq_false_iff]; exact fun hc => hi (hs.isInt.mp hc)
      have h2 : (selShape (n :: sh) (u :: us)) = (axisSel n u).length :: selShape sh us := by
        cases u <;> simp_all [selShape, IsInt]
      simp only [integralCount] at hle
      simp only [h2, ih, viewDim, integralCount, newaxisCount, List.countP_cons, h1, hn,
        List.length_cons]
      simp; omega

end Bound

/-- Parent coordinate on axis `I`, read off the bound slices. -/
def trueIdx (S : List Sl) (idx : List Int) (I : Nat) : Option Int :=
  match S[newaxisSkip S I]? with
  | some s => if s.isInt then some (s.value 0)
      else (idx[newaxisSkip S I - integralCountBefore S (newaxisSkip S I)]?).map s.value
  | none => idx[newaxisSkip S I - integralCount S]?

theorem selIndex_get {sh : List Nat} {us : List USlice} {S : List Sl} (h : Bound sh us S)
    {idx : List Nat} (hi : InBounds (selShape sh us) idx) (I : Nat) (hI : I < sh.length) :
    (selIndex sh us idx)[I]? = trueIdx S (toInts idx) I := by
  induction h generalizing idx I with
  | nil => simp [selIndex, trueIdx, newaxisSkip_nil, integralCount]
  | @new sh us S hb ih =>
    cases idx with
    | nil => simp [selShape, InBounds] at hi
    | cons i idx =>
      have hi' : InBounds (selShape sh us) idx := hi.2
      have e := ih hi' I hI
      simp only [selIndex, e, trueIdx]
      rw [newaxisSkip_new rfl, Nat.add_comm 1, List.getElem?_cons_succ]
      have h1 := ib_le S (newaxisSkip S I)
      cases hk : S[newaxisSkip S I]? with
      | some s =>
        simp only [ib_cons]
        simp only [Sl.isInt, Bool.false_eq_true, if_false, Nat.zero_add]
        have : newaxisSkip S I + 1 - integralCountBefore S (newaxisSkip S I) =
            (newaxisSkip S I - integralCountBefore S (newaxisSkip S I)) + 1 := by omega
        rw [this]
        simp [toInts]
      | none =>
        have hlen : S.length ≤ newaxisSkip S I := by simpa using hk
        rw [ib_ge_length hlen] at h1
        have : newaxisSkip S I + 1 - integralCount (Sl.newaxis :: S) =
            (newaxisSkip S I - integralCount S) + 1 := by
          have : integralCount (Sl.newaxis :: S) = integralCount S := by
            simp [integralCount, List.countP_cons, Sl.isInt]
          omega
        simp only [this]
        simp [toInts]
  | @cons n sh u us s S hu hs hb ih =>
    by_cases hint : IsInt u
    · obtain ⟨i, rfl⟩ := hint
      have h1 : s.isInt = true := hs.isInt.mpr ⟨i, rfl⟩
      have hi' : InBounds (selShape sh us) idx := hi
      cases I with
      | zero =>
        simp only [selIndex, trueIdx, newaxisSkip_zero hs.notNew, List.getElem?_cons_zero, h1, if_true]
        have := hs.value 0 (by simp [axisSel])
        simpa [axisSel] using this.symm
      | succ I =>
        have e := ih hi' I (by simpa using hI)
        simp only [selIndex, List.getElem?_cons_succ, e, trueIdx]
        rw [newaxisSkip_succ hs.notNew, Nat.add_comm 1, List.getElem?_cons_succ]
        cases hk : S[newaxisSkip S I]? with
        | some t =>
          simp only [ib_cons, h1, if_true]
          have : newaxisSkip S I + 1 - (1 + integralCountBefore S (newaxisSkip S I)) =
            (newaxisSkip S I - integralCountBefore S (newaxisSkip S I)) := by omega
          rw [this]
        | none =>
          have : integralCount (s :: S) = integralCount S + 1 := by
            simp [integralCount, List.countP_cons, h1]
          rw [this, Nat.add_sub_add_right]
    · have h1 : s.isInt = false := by rw [Bool.eq_false_iff]; exact fun hc => hint (hs.isInt.mp hc)
      have h2 : (selShape (n :: sh) (u :: us)) = (axisSel n u).length :: selShape sh us := by
        cases u <;> simp_all [selShape, IsInt]
      rw [h2] at hi
      cases idx with
      | nil => simp [InBounds] at hi
      | cons i idx =>
        have h3 : selIndex (n :: sh) (u :: us) (i :: idx) =
            (axisSel n u).getD i 0 :: selIndex sh us idx := by
          cases u <;> simp_all [selIndex, IsInt]
        rw [h3]
        cases I with
        | zero =>
          simp only [trueIdx, newaxisSkip_zero hs.notNew, List.getElem?_cons_zero, h1]
          rw [← hs.value i hi.1]
          simp [toInts]
        | succ I =>
          have e := ih hi.2 I (by simpa using hI)
          simp only [List.getElem?_cons_succ, e, trueIdx]
          rw [newaxisSkip_succ hs.notNew, Nat.add_comm 1, List.getElem?_cons_succ]
          have h4 := ib_le S (newaxisSkip S I)
          cases hk : S[newaxisSkip S I]? with
          | some t =>
            simp only [ib_cons, h1, Bool.false_eq_true, if_false, Nat.zero_add]
            have : newaxisSkip S I + 1 - integralCountBefore S (newaxisSkip S I) =
              (newaxisSkip S I - integralCountBefore S (newaxisSkip S I)) + 1 := by omega
            rw [this]
            simp [toInts]
          | none =>
            have hlen : S.length ≤ newaxisSkip S I := by simpa using hk
            rw [ib_ge_length hlen] at h4
            have : integralCount (s :: S) = integralCount S := by
              simp [integralCount, List.countP_cons, h1]
            rw [this]
            have : newaxisSkip S I + 1 - integralCount S = (newaxisSkip S I - integralCount S) + 1 := by
              omega
            rw [this]
            simp [toInts]

theorem selShape_get {sh : List Nat} {us : List USlice} {S : List Sl} (h : Bound sh us S)
    (i : Nat) (hi : i < (selShape sh us).length) :
    (toInts (selShape sh us))[i]? = some (match S[integralSkip S i]? with
      | some s => s.size
      | none => ((sh.getD (integralSkip S i - newaxisCountBefore S (integralSkip S i)) 0 : Nat) : Int)) := by
  induction h generalizing i with
  | @nil sh =>
    simp only [selShape] at hi ⊢
    simp [integralSkip_nil, toInts, hi, newaxisCountBefore]
  | @new sh us S hb ih =>
    cases i with
    | zero => rw [integralSkip_zero rfl]; simp [selShape, toInts, Sl.size]
    | succ i =>
      have e := ih i (by simpa [selShape] using hi)
      rw [integralSkip_succ rfl, Nat.add_comm 1]
      simp only [selShape, toInts, List.map_cons, List.getElem?_cons_succ] at e ⊢
      rw [e, nb_cons]
      simp only [Sl.isNew, if_true]
      have h1 : integralSkip S i + 1 - (1 + newaxisCountBefore S (integralSkip S i)) =
        integralSkip S i - newaxisCountBefore S (integralSkip S i) := by omega
      rw [h1]
  | @cons n sh u us s S hu hs hb ih =>
    have tail : ∀ j, j < (selShape sh us).length → (match (s :: S)[integralSkip S j + 1]? with
      | some s => s.size
      | none => (((n :: sh).getD (integralSkip S j + 1 -
          newaxisCountBefore (s :: S) (integralSkip S j + 1)) 0 : Nat) : Int)) =
      (match S[integralSkip S j]? with
      | some s => s.size
      | none => ((sh.getD (integralSkip S j - newaxisCountBefore S (integralSkip S j)) 0 : Nat) : Int)) := by
      intro j _
      rw [List.getElem?_cons_succ, nb_cons]
      have h1 := nb_le S (integralSkip S j)
      have h2 : integralSkip S j + 1 - ((if s.isNew = true then 1 else 0) +
          newaxisCountBefore S (integralSkip S j)) =
        (integralSkip S j - newaxisCountBefore S (integralSkip S j)) + 1 := by
        simp [hs.notNew]; omega
      rw [h2, List.getD_cons_succ]
    by_cases hint : IsInt u
    · obtain ⟨c, rfl⟩ := hint
      have h1 : s.isInt = true := hs.isInt.mpr ⟨c, rfl⟩
      have hi' : i < (selShape sh us).length := hi
      rw [integralSkip_int h1, Nat.add_comm 1, tail i hi', ← ih i hi']
      rfl
    · have h1 : s.isInt = false := by rw [Bool.eq_false_iff]; exact fun hc => hint (hs.isInt.mp hc)
      have h2 : (selShape (n :: sh) (u :: us)) = (axisSel n u).length :: selShape sh us := by
        cases u <;> simp_all [selShape, IsInt]
      rw [h2] at hi ⊢
      cases i with
      | zero => rw [integralSkip_zero h1]; simp [toInts, hs.size]
      | succ i =>
        have hi' : i < (selShape sh us).length := by simpa using hi
        rw [integralSkip_succ h1, Nat.add_comm 1, tail i hi', ← ih i hi']
        rfl

theorem viewShape_eq {sh : List Nat} {us : List USlice} {S : List Sl} (h : Bound sh us S) :
    viewShape sh S = toInts (selShape sh us) := by
  apply List.ext_getElem?
  intro i
  simp only [viewShape, List.getElem?_map]
  by_cases hi : i < viewDim sh S
  · rw [List.getElem?_range hi, selShape_get h i (by rw [h.selShape_length]; exact hi)]
    rfl
  · have h1 : (List.range (viewDim sh S))[i]? = none := by simp; omega
    rw [h1]
    symm
    simp [toInts, h.selShape_length]; omega

theorem selIndex_bounds {sh : List Nat} {us : List USlice} {S : List Sl} (h : Bound sh us S)
    {idx : List Nat} (hi : InBounds (selShape sh us) idx) :
    ∃ pidx, InBounds sh pidx ∧ selIndex sh us idx = toInts pidx := by
  induction h generalizing idx with
  | nil => exact ⟨idx, hi, by simp [selIndex]⟩
  | @new sh us S hb ih =>
    cases idx with
    | nil => simp [selShape, InBounds] at hi
    | cons i idx => obtain ⟨p, h1, h2⟩ := ih (idx := idx) hi.2; exact ⟨p, h1, by simpa [selIndex] using h2⟩
  | @cons n sh u us s S hu hs hb ih =>
    by_cases hint : IsInt u
    · obtain ⟨i, rfl⟩ := hint
      obtain ⟨p, h1, h2⟩ := ih (idx := idx) hi
      have := hs.bounds (pyIndex n i) (by simp [axisSel])
      exact ⟨(pyIndex n i).toNat :: p, ⟨by omega, h1⟩, by simp [selIndex, h2, toInts]; omega⟩
    · have h2 : (selShape (n :: sh) (u :: us)) = (axisSel n u).length :: selShape sh us := by
        cases u <;> simp_all [selShape, IsInt]
      rw [h2] at hi
      cases idx with
      | nil => simp [InBounds] at hi
      | cons i idx =>
        have h3 : selIndex (n :: sh) (u :: us) (i :: idx) =
            (axisSel n u).getD i 0 :: selIndex sh us idx := by
          cases u <;> simp_all [selIndex, IsInt]
        obtain ⟨p, h4, h5⟩ := ih (idx := idx) hi.2
        have hlt : i < (axisSel n u).length := hi.1
        have hm : (axisSel n u).getD i 0 ∈ axisSel n u := by
          simp [List.getD_eq_getElem?_getD, hlt]
        have := hs.bounds _ hm
        refine ⟨((axisSel n u).getD i 0).toNat :: p, ⟨by omega, h4⟩, ?_⟩
        rw [h3, h5]; simp only [toInts, List.map_cons, List.cons.injEq, and_true]; simp only [Int.ofNat_eq_natCast]; omega

end Xt
