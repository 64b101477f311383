import Verif.Model.Repeat
import Verif.Props.ExprIter
import Verif.Props.Sort
import Verif.Props.AssignAlias
import Verif.Props.Manip
import Verif.Spec.Pad
/-!
# C47: `repeat`
-/

namespace Xt

open Spec

/-! ### Positions on the repeated axis -/

/-- Position `i` of the repeated axis shows position `k` of the original. -/
def Shows (r : List Nat) (i k : Nat) : Prop := k < r.length ∧ (r.take k).sum ≤ i ∧ i < (r.take k).sum + r.getD k 0

theorem take_sum_succ {r : List Nat} {k : Nat} (h : k < r.length) : (r.take (k + 1)).sum = (r.take k).sum + r.getD k 0 := by
  rw [List.take_add_one, List.sum_append]
  simp [List.getD_eq_getElem?_getD, h]

theorem take_sum_mono (r : List Nat) {j k : Nat} (h : j ≤ k) : (r.take j).sum ≤ (r.take k).sum := by
  obtain ⟨d, rfl⟩ := Nat.le.dest h
  rw [List.take_add, List.sum_append]
  omega

theorem Shows.unique {r : List Nat} {i j k : Nat} (h1 : Shows r i j) (h2 : Shows r i k) : j = k := by
  obtain ⟨a1, a2, a3⟩ := h1
  obtain ⟨b1, b2, b3⟩ := h2
  rcases Nat.lt_trichotomy j k with h | h | h
  · have := take_sum_mono r (show j + 1 ≤ k from h)
    rw [take_sum_succ a1] at this
    omega
  · exact h
  · have := take_sum_mono r (show k + 1 ≤ j from h)
    rw [take_sum_succ b1] at this
    omega

theorem repAdvance_spec (r : List Nat) (i : Nat) (hi : i < r.sum) : ∀ (fuel sub : Nat) (s : Int), 0 ≤ s →
    ((r.take sub).sum : Int) + s = i → r.length < sub + fuel →
    ∃ k, repAdvance r fuel sub s = some (k, (i : Int) - (r.take k).sum) ∧ Shows r i k
  | 0, sub, s, h0, hs, hf => by
    rw [List.take_of_length_le (by omega)] at hs
    omega
  | fuel + 1, sub, s, h0, hs, hf => by
    by_cases hlt : sub < r.length
    · have hget : r[sub]? = some (r.getD sub 0) := by simp [List.getD_eq_getElem?_getD, hlt]
      simp only [repAdvance, hget]
      by_cases hc : s ≥ (r.getD sub 0 : Nat)
      · rw [if_pos hc]
        apply repAdvance_spec r i hi fuel (sub + 1) _ (by omega) _ (by omega)
        rw [take_sum_succ hlt]; push_cast; omega
      · rw [if_neg hc]
        refine ⟨sub, by congr 2; omega, hlt, by omega, by omega⟩
    · rw [List.take_of_length_le (by omega)] at hs
      omega

theorem repeatList_length (r : List Nat) : (repeatList r).length = r.sum := by
  unfold repeatList
  rw [List.length_flatMap]
  congr 1
  apply List.ext_getElem (by simp)
  intro k h1 h2
  simp [List.getD_eq_getElem?_getD, h2]

theorem repeatList_append (r : List Nat) (c : Nat) :
    repeatList (r ++ [c]) = repeatList r ++ List.replicate c r.length := by
  unfold repeatList
  rw [List.length_append, List.length_singleton, List.range_succ, List.flatMap_append]
  congr 1
  · apply List.flatMap_congr
    intro k hk
    rw [List.mem_range] at hk
    simp [List.getD_eq_getElem?_getD, List.getElem?_append_left hk]
  · simp [List.getD_eq_getElem?_getD]

/-- The arithmetic description of a position agrees with the list of repeated positions. -/
theorem shows_iff (r : List Nat) (i k : Nat) : Shows r i k ↔ (repeatList r)[i]? = some k := by
  induction r using List.reverseRecOn generalizing k with
  | nil => simp [Shows, repeatList]
  | append_singleton r c ih =>
    rw [repeatList_append]
    by_cases hi : i < r.sum
    · rw [List.getElem?_append_left (by rw [repeatList_length]; exact hi), ← ih]
      unfold Shows
      constructor
      · rintro ⟨h1, h2, h3⟩
        by_cases hk : k < r.length
        · rw [List.take_append_of_le_length (by omega)] at h2 h3
          refine ⟨hk, h2, ?_⟩
          simpa [List.getD_eq_getElem?_getD, List.getElem?_append_left hk] using h3
        · have hk' : k = r.length := by simp at h1; omega
          subst hk'
          rw [List.take_left'] at h2
          · omega
          · rfl
      · rintro ⟨h1, h2, h3⟩
        refine ⟨by simp; omega, ?_, ?_⟩
        · rw [List.take_append_of_le_length (by omega)]; exact h2
        · rw [List.take_append_of_le_length (by omega)]
          simpa [List.getD_eq_getElem?_getD, List.getElem?_append_left h1] using h3
    · rw [List.getElem?_append_right (by rw [repeatList_length]; omega), repeatList_length, List.getElem?_replicate]
      unfold Shows
      constructor
      · rintro ⟨h1, h2, h3⟩
        by_cases hk : k < r.length
        · exfalso
          rw [List.take_append_of_le_length (by omega)] at h3
          have h4 : i < (r.take k).sum + r.getD k 0 := by
            simpa [List.getD_eq_getElem?_getD, List.getElem?_append_left hk] using h3
          have := take_sum_mono r (show k + 1 ≤ r.length from hk)
          rw [take_sum_succ hk, List.take_length] at this
          omega
        · have hk' : k = r.length := by simp at h1; omega
          subst hk'
          rw [List.take_left' rfl] at h3
          have h4 : i < r.sum + c := by simpa [List.getD_eq_getElem?_getD] using h3
          rw [if_pos (by omega)]
      · intro h
        split at h
        · next hlt =>
          have hk : k = r.length := by simpa using h.symm
          subst hk
          refine ⟨by simp, ?_, ?_⟩
          · rw [List.take_left' rfl]; omega
          · rw [List.take_left' rfl]
            have : i < r.sum + c := by omega
            simpa [List.getD_eq_getElem?_getD] using this
        · simp at h

theorem shows_exists {r : List Nat} {i : Nat} (h : i < r.sum) : ∃ k, Shows r i k := by
  obtain ⟨k, -, hk⟩ := repAdvance_spec r i h (r.length + 1) 0 i (by omega) (by simp) (by omega)
  exact ⟨k, hk⟩

/-! ### The stepper -/

section
variable {σ : Type u} {sub : StepOps σ} {esh r : List Nat} {axis : Nat} {Q : σ → List Nat → Prop}

/-- The stepper stands at index `idx` of the repeated array. -/
structure RepAt (r : List Nat) (axis : Nat) (Q : σ → List Nat → Prop) (st : RepSt σ) (idx : List Nat) : Prop where
  ok : st.ok = true
  pos : st.pos = toInts idx
  shows : Shows r (idx.getD axis 0) st.subpos
  rsteps : st.rsteps = (idx.getD axis 0 : Int) - (r.take st.subpos).sum
  sub : Q st.sub (idx.set axis st.subpos)

theorem toInts_set (l : List Nat) (k v : Nat) : toInts (l.set k v) = (toInts l).set k (v : Int) := by
  simp [toInts, List.map_set]

theorem set_inBounds_of {esh : List Nat} {axis m : Nat} {idx : List Nat} {k : Nat} (h : InBounds (esh.set axis m) idx)
    (hax : axis < esh.length) (hk : k < esh.getD axis 0) : InBounds esh (idx.set axis k) := by
  rw [inBounds_iff_get] at h ⊢
  have hl : idx.length = esh.length := by simpa using h.1
  refine ⟨by simpa using hl, fun j hj => ?_⟩
  rw [getD_set_nat (by omega)]
  split
  · next e => subst e; exact hk
  · next e =>
    have := h.2 j (by simpa using hj)
    rwa [getD_set_nat hax, if_neg e] at this

theorem repMakeStep_at (hF : FwdLaw sub esh Q) (hax : axis < esh.length) (hr : r.length = esh.getD axis 0)
    {st : RepSt σ} {idx : List Nat} (h : RepAt r axis Q st idx) (hb : InBounds (esh.set axis r.sum) idx) {a n : Nat}
    (ha : a < esh.length) (hn : idx.getD a 0 + n < (esh.set axis r.sum).getD a 0) :
    RepAt r axis Q (repMakeStep sub r axis st a n) (idx.set a (idx.getD a 0 + n)) := by
  have hl : idx.length = esh.length := by rw [hb.length_eq]; simp
  have hsub := set_inBounds_of hb hax (hr ▸ h.shows.1)
  unfold repMakeStep
  by_cases h0 : n = 0
  · subst h0
    rw [if_pos (by rfl), Nat.add_zero]
    have : idx.set a (idx.getD a 0) = idx := by
      apply ext_getD (by simp)
      intro k hk
      rw [List.length_set] at hk
      rw [getD_set_nat (by omega)]
      split
      · next e => rw [e]
      · rfl
    rw [this]; exact h
  rw [if_neg (by omega)]
  by_cases hc : a = axis
  · subst hc
    rw [if_pos rfl]
    rw [getD_set_nat ha, if_pos rfl] at hn
    obtain ⟨k, e, hk⟩ := repAdvance_spec r (idx.getD a 0 + n) hn (r.length + 1) st.subpos (st.rsteps + n)
      (by rw [h.rsteps]; have := h.shows.2.1; omega) (by rw [h.rsteps]; push_cast; omega) (by omega)
    rw [e]
    have hset : (idx.set a (idx.getD a 0 + n)).getD a 0 = idx.getD a 0 + n := by rw [getD_set_nat (by omega), if_pos rfl]
    refine ⟨h.ok, ?_, ?_, ?_, ?_⟩
    · show st.pos.set a _ = _
      rw [h.pos, toInts_getD, toInts_set]; push_cast; rfl
    · rw [hset]; exact hk
    · rw [hset]
    · show Q (sub.step st.sub a ((k : Int) - st.subpos)) ((idx.set a (idx.getD a 0 + n)).set a k)
      rw [List.set_set]
      have hg : (idx.set a st.subpos).getD a 0 = st.subpos := by rw [getD_set_nat (by omega), if_pos rfl]
      have := hF.step st.sub (idx.set a st.subpos) a ((k : Int) - st.subpos) h.sub hsub ha
        (by rw [hg]; omega) (by rw [hg, ← hr]; have := hk.1; omega)
      rw [hg, List.set_set] at this
      rwa [show ((st.subpos : Int) + ((k : Int) - st.subpos)).toNat = k by omega] at this
  · rw [if_neg hc]
    rw [getD_set_nat hax, if_neg (Ne.symm hc)] at hn
    have hset : (idx.set a (idx.getD a 0 + n)).getD axis 0 = idx.getD axis 0 := by rw [getD_set_nat (by omega), if_neg hc]
    refine ⟨h.ok, ?_, ?_, ?_, ?_⟩
    · show st.pos.set a _ = _
      rw [h.pos, toInts_getD, toInts_set]; push_cast; rfl
    · rw [hset]; exact h.shows
    · rw [hset]; exact h.rsteps
    · show Q (sub.step st.sub a n) ((idx.set a (idx.getD a 0 + n)).set axis st.subpos)
      have hg : (idx.set axis st.subpos).getD a 0 = idx.getD a 0 := by rw [getD_set_nat (by omega), if_neg (Ne.symm hc)]
      have := hF.step st.sub (idx.set axis st.subpos) a n h.sub hsub ha (by omega) (by rw [hg]; omega)
      rw [hg, List.set_comm _ _ (Ne.symm hc)] at this
      rwa [show ((idx.getD a 0 : Int) + (n : Int)).toNat = idx.getD a 0 + n by omega] at this

theorem repStep_at (hF : FwdLaw sub esh Q) (hax : axis < esh.length) (hr : r.length = esh.getD axis 0)
    {st : RepSt σ} {idx : List Nat} (h : RepAt r axis Q st idx) (hb : InBounds (esh.set axis r.sum) idx) {a n : Nat}
    (ha : a < esh.length) (hn : idx.getD a 0 + n < (esh.set axis r.sum).getD a 0) :
    RepAt r axis Q (repStep sub (esh.set axis r.sum) r axis st a n) (idx.set a (idx.getD a 0 + n)) := by
  unfold repStep
  rw [if_neg (by rw [List.length_set]; omega), if_neg (by rw [h.pos, toInts_getD]; omega)]
  exact repMakeStep_at hF hax hr h hb ha hn

/-- `xrepeat_stepper` with an ideal negative step, used to apply the laws of iteration; increments never step backwards. -/
def repeatOps' (sub : StepOps σ) (shape r : List Nat) (axis : Nat) (Q : RepSt σ → Nat → Int → RepSt σ) : StepOps (RepSt σ) :=
  { repeatOps sub shape r axis with step := fun st a n => if n < 0 then Q st a n else repStep sub shape r axis st a n }

theorem incLoop_congr {σ : Type u} {o1 o2 : StepOps σ} (h1 : ∀ st a, o1.step st a 1 = o2.step st a 1)
    (h2 : ∀ st a, o1.reset st a = o2.reset st a) (sh : List Nat) :
    ∀ (as : List Nat) (st : σ) (idx : List Nat), incLoop o1 sh as st idx = incLoop o2 sh as st idx
  | [], _, _ => rfl
  | a :: as, st, idx => by
    simp only [incLoop, h1, h2]
    rw [incLoop_congr h1 h2 sh as]

theorem walk_congr {σ : Type u} {o1 o2 : StepOps σ} (h1 : ∀ st a, o1.step st a 1 = o2.step st a 1)
    (h2 : ∀ st a, o1.reset st a = o2.reset st a) (h3 : ∀ st L, o1.toEnd st L = o2.toEnd st L) (L : Layout) (sh : List Nat)
    (last : XIter σ) : ∀ (fuel : Nat) (it : XIter σ), XIter.walk o1 L sh last fuel it = XIter.walk o2 L sh last fuel it
  | 0, _ => rfl
  | fuel + 1, it => by
    have : it.inc o1 L sh = it.inc o2 L sh := by
      simp only [XIter.inc, incStepper, incLoop_congr h1 h2, h3]
    simp only [XIter.walk, this, walk_congr h1 h2 h3 L sh last fuel]

/-- An ideal negative step. -/
def repBackTo (sub : StepOps σ) (r : List Nat) (axis : Nat) (st : RepSt σ) (a : Nat) (n : Int) : RepSt σ :=
  let x := (st.pos.getD a 0 + n).toNat
  if a = axis then
    let k := (repeatList r).getD x 0
    { st with sub := sub.step st.sub a ((k : Int) - st.subpos), pos := st.pos.set a x, subpos := k,
              rsteps := (x : Int) - (r.take k).sum }
  else { st with sub := sub.step st.sub a n, pos := st.pos.set a x }

theorem repeat_fwd (hF : FwdLaw sub esh Q) (hax : axis < esh.length) (hr : r.length = esh.getD axis 0)
    (h0 : r.getD 0 0 ≠ 0) (hlast : r.getD (r.length - 1) 0 ≠ 0) :
    FwdLaw (repeatOps' sub (esh.set axis r.sum) r axis (repBackTo sub r axis)) (esh.set axis r.sum) (RepAt r axis Q) where
  step st idx a n h hb ha hn0 hn1 := by
    rw [List.length_set] at ha
    have hl : idx.length = esh.length := by rw [hb.length_eq]; simp
    have hsub := set_inBounds_of hb hax (hr ▸ h.shows.1)
    show RepAt r axis Q (if n < 0 then _ else _) _
    by_cases hc : n < 0
    · rw [if_pos hc]
      unfold repBackTo
      simp only [h.pos, toInts_getD]
      generalize hx : ((idx.getD a 0 : Int) + n).toNat = x
      by_cases hca : a = axis
      · subst hca
        rw [if_pos rfl]
        rw [getD_set_nat ha, if_pos rfl] at hn1
        obtain ⟨k, hk⟩ := shows_exists (r := r) (i := x) (by omega)
        have hk' : (repeatList r).getD x 0 = k := by rw [List.getD_eq_getElem?_getD, (shows_iff r x k).1 hk]; rfl
        rw [hk']
        have hset : (idx.set a x).getD a 0 = x := by rw [getD_set_nat (by omega), if_pos rfl]
        refine ⟨h.ok, by rw [toInts_set], by rw [hset]; exact hk, by rw [hset], ?_⟩
        show Q (sub.step st.sub a ((k : Int) - st.subpos)) ((idx.set a x).set a k)
        rw [List.set_set]
        have hg : (idx.set a st.subpos).getD a 0 = st.subpos := by rw [getD_set_nat (by omega), if_pos rfl]
        have := hF.step st.sub (idx.set a st.subpos) a ((k : Int) - st.subpos) h.sub hsub ha
          (by rw [hg]; omega) (by rw [hg, ← hr]; have := hk.1; omega)
        rw [hg, List.set_set] at this
        rwa [show ((st.subpos : Int) + ((k : Int) - st.subpos)).toNat = k by omega] at this
      · rw [if_neg hca]
        rw [getD_set_nat hax, if_neg (Ne.symm hca)] at hn1
        have hset : (idx.set a x).getD axis 0 = idx.getD axis 0 := by rw [getD_set_nat (by omega), if_neg hca]
        refine ⟨h.ok, by rw [toInts_set], by rw [hset]; exact h.shows, by rw [hset]; exact h.rsteps, ?_⟩
        show Q (sub.step st.sub a n) ((idx.set a x).set axis st.subpos)
        have hg : (idx.set axis st.subpos).getD a 0 = idx.getD a 0 := by rw [getD_set_nat (by omega), if_neg (Ne.symm hca)]
        have := hF.step st.sub (idx.set axis st.subpos) a n h.sub hsub ha (by rw [hg]; omega) (by rw [hg]; omega)
        rw [hg, List.set_comm _ _ (Ne.symm hca), hx] at this
        exact this
    · rw [if_neg hc]
      obtain ⟨m, rfl⟩ := Int.eq_ofNat_of_zero_le (show 0 ≤ n by omega)
      rw [show ((idx.getD a 0 : Int) + (m : Int)).toNat = idx.getD a 0 + m by omega]
      exact repStep_at hF hax hr h hb ha (by omega)
  reset st idx a h hb ha h1 := by
    rw [List.length_set] at ha
    have hl : idx.length = esh.length := by rw [hb.length_eq]; simp
    have hsub := set_inBounds_of hb hax (hr ▸ h.shows.1)
    show RepAt r axis Q (if a ≥ (esh.set axis r.sum).length then _ else _) _
    rw [if_neg (by rw [List.length_set]; omega)]
    by_cases hc : a = axis
    · subst hc
      rw [if_pos rfl]
      rw [getD_set_nat ha, if_pos rfl] at h1
      have hpos : 0 < r.length := by
        have := h.shows.1; omega
      -- the stepper stands on the last position of the original axis
      have hsl : Shows r (idx.getD a 0) (r.length - 1) := by
        have hs := take_sum_succ (r := r) (k := r.length - 1) (by omega)
        rw [show r.length - 1 + 1 = r.length by omega, List.take_length] at hs
        exact ⟨by omega, by omega, by omega⟩
      have hk := h.shows.unique hsl
      have hset : (idx.set a 0).getD a 0 = 0 := by rw [getD_set_nat (by omega), if_pos rfl]
      refine ⟨h.ok, ?_, ?_, ?_, ?_⟩
      · show st.pos.set a 0 = _
        rw [h.pos, toInts_set]; rfl
      · rw [hset]; exact ⟨hpos, Nat.zero_le _, Nat.lt_of_lt_of_le (Nat.pos_of_ne_zero h0) (Nat.le_add_left _ _)⟩
      · rw [hset]; simp
      · show Q (sub.reset st.sub a) ((idx.set a 0).set a 0)
        rw [List.set_set]
        have := hF.reset st.sub (idx.set a st.subpos) a h.sub hsub ha (by
          rw [getD_set_nat (by omega), if_pos rfl, hk, ← hr]; omega)
        rwa [List.set_set] at this
    · rw [if_neg hc]
      rw [getD_set_nat hax, if_neg (Ne.symm hc)] at h1
      have hset : (idx.set a 0).getD axis 0 = idx.getD axis 0 := by rw [getD_set_nat (by omega), if_neg hc]
      refine ⟨h.ok, ?_, by rw [hset]; exact h.shows, by rw [hset]; exact h.rsteps, ?_⟩
      · show st.pos.set a 0 = _
        rw [h.pos, toInts_set]; rfl
      · show Q (sub.reset st.sub a) ((idx.set a 0).set axis st.subpos)
        have := hF.reset st.sub (idx.set axis st.subpos) a h.sub hsub ha (by
          rw [getD_set_nat (by omega), if_neg (Ne.symm hc)]; exact h1)
        rwa [List.set_comm _ _ (Ne.symm hc)] at this

theorem replicate_getD_zero (n k : Nat) : (List.replicate n 0).getD k 0 = 0 := by
  simp only [List.getD_eq_getElem?_getD, List.getElem?_replicate]
  split <;> rfl

theorem set_zero_replicate (n k : Nat) : (List.replicate n 0).set k 0 = List.replicate n 0 := by
  apply ext_getD (by simp)
  intro j hj
  by_cases hk : k < n
  · rw [getD_set_nat (by simpa using hk), replicate_getD_zero]; split <;> rfl
  · rw [List.set_eq_of_length_le (by simpa using hk)]

theorem repeatBegin_at {p : σ} (hQ : Q p (List.replicate esh.length 0)) (h0 : r.getD 0 0 ≠ 0) (hpos : 0 < r.length)
    : RepAt r axis Q (repeatBegin (esh.set axis r.sum) p) (List.replicate esh.length 0) := by
  refine ⟨rfl, ?_, ?_, ?_, ?_⟩
  · show List.replicate (esh.set axis r.sum).length (0 : Int) = _
    simp [toInts]
  · rw [replicate_getD_zero]; exact ⟨hpos, Nat.zero_le _, Nat.lt_of_lt_of_le (Nat.pos_of_ne_zero h0) (Nat.le_add_left _ _)⟩
  · rw [replicate_getD_zero]; simp [repeatBegin]
  · rw [show (repeatBegin (esh.set axis r.sum) p).subpos = 0 from rfl, set_zero_replicate]; exact hQ

end

/-! ### The claims -/

/-- **C47** (repeat, shape).  The extent along the axis is the sum of the repeats, the others are unchanged; a list of
repeats of another length than the axis is rejected. -/
theorem C47_repeat_shape (sh r : List Nat) (axis : Nat) (h : axis < sh.length) :
    (r.length = sh.getD axis 0 → repeatShape sh r axis = .ok (sh.set axis (repeatList r).length)) ∧
    (r.length ≠ sh.getD axis 0 → repeatShape sh r axis = .throws) := by
  unfold repeatShape
  rw [if_neg (by omega), repeatList_length]
  refine ⟨fun h => ?_, fun h => by rw [if_pos h]⟩
  rw [if_neg (by omega), List.sum_eq_foldl]

example : repeatShape [2, 3] [2, 0, 1] 1 = .ok [2, 3] ∧ repeatShape [2, 3] [2, 0] 1 = .throws := by decide

/-- An axis out of range is not rejected: it reads outside the shape. -/
theorem C47_repeat_axis_undefined (sh r : List Nat) (axis : Nat) (h : sh.length ≤ axis) : repeatShape sh r axis = .ub := by
  unfold repeatShape; rw [if_pos h]

theorem sum_replicate_nat (n k : Nat) : (List.replicate n k).sum = n * k := by simp

/-- With one number for all positions, position `i` of the axis shows position `i / k`. -/
theorem C47_repeat_same (sh : List Nat) (k axis : Nat) :
    (repeatSame sh k axis).length = sh.getD axis 0 ∧
    (repeatList (repeatSame sh k axis)).length = sh.getD axis 0 * k ∧
    ∀ i, i < sh.getD axis 0 * k → (repeatList (repeatSame sh k axis))[i]? = some (i / k) := by
  unfold repeatSame
  refine ⟨by simp, by rw [repeatList_length]; simp, fun i hi => ?_⟩
  rw [← shows_iff]
  have hk : 0 < k := by
    rcases Nat.eq_zero_or_pos k with h | h
    · subst h; simp at hi
    · exact h
  have hd : i / k < sh.getD axis 0 := Nat.div_lt_of_lt_mul (by rw [Nat.mul_comm]; exact hi)
  have hg : (List.replicate (sh.getD axis 0) k).getD (i / k) 0 = k := by
    rw [List.getD_eq_getElem?_getD, List.getElem?_replicate, if_pos hd]; rfl
  have hdm := Nat.div_add_mod i k
  have hml := Nat.mod_lt i hk
  refine ⟨by simpa using hd, ?_, ?_⟩
  · rw [List.take_replicate, Nat.min_eq_left (by omega), sum_replicate_nat, Nat.mul_comm]; omega
  · rw [hg, List.take_replicate, Nat.min_eq_left (by omega), sum_replicate_nat, Nat.mul_comm]; omega

example : repeatList (repeatSame [2, 3] 2 1) = [0, 0, 1, 1, 2, 2] := by decide

theorem map_idx_steps {σ : Type u} {sub : StepOps σ} {esh r : List Nat} {axis : Nat} {Q : σ → List Nat → Prop}
    (hF : FwdLaw sub esh Q) (hax : axis < esh.length) (hr : r.length = esh.getD axis 0) {q : List Nat}
    (hq : InBounds (esh.set axis r.sum) q) : ∀ (suf pre : List Nat), q = pre ++ suf → ∀ {st : RepSt σ},
      RepAt r axis Q st (pre ++ List.replicate suf.length 0) →
      RepAt r axis Q ((suf.zipIdx pre.length).foldl
        (fun st (x : Nat × Nat) => (repeatOps sub (esh.set axis r.sum) r axis).step st x.2 x.1) st) q
  | [], pre, e, st, h => by
    rw [e]; simpa using h
  | x :: suf, pre, e, st, h => by
    have hl : q.length = esh.length := by rw [hq.length_eq]; simp
    have hle : pre.length + (suf.length + 1) = esh.length := by rw [← hl, e]; simp
    rw [List.zipIdx_cons, List.foldl_cons]
    have hb : InBounds (esh.set axis r.sum) (pre ++ List.replicate (x :: suf).length 0) := by
      rw [inBounds_iff_get] at hq ⊢
      refine ⟨by simp; omega, fun k hk => ?_⟩
      have := hq.2 k hk
      by_cases hk' : k < pre.length
      · rw [getD_append_left' hk']
        rwa [e, getD_append_left' hk'] at this
      · rw [getD_append_right' (by omega), replicate_getD_zero]; omega
    have hg : (pre ++ List.replicate (x :: suf).length 0).getD pre.length 0 = 0 := by
      rw [getD_append_right' (by omega), replicate_getD_zero]
    have hx : q.getD pre.length 0 = x := by rw [e, getD_append_right' (by omega)]; simp
    have h2 := repStep_at hF hax hr h hb (a := pre.length) (n := x) (by omega) (by
      rw [hg, Nat.zero_add, ← hx]
      exact (inBounds_iff_get.1 hq).2 _ (by rw [List.length_set]; omega))
    rw [hg, Nat.zero_add] at h2
    have hset : (pre ++ List.replicate (x :: suf).length 0).set pre.length x = (pre ++ [x]) ++ List.replicate suf.length 0 := by
      rw [List.set_append_right _ _ (Nat.le_refl _)]
      simp [List.replicate_succ]
    rw [hset] at h2
    have := map_idx_steps hF hax hr hq suf (pre ++ [x]) (by rw [e]; simp) h2
    rw [List.length_append, List.length_singleton] at this
    exact this

theorem xat_begin (c : StridedArr) : XAt c c.off (List.replicate c.shape.length 0) := by
  unfold XAt
  rw [List.length_replicate, Nat.sub_self, List.drop_zero]
  have : ∀ (n : Nat) (l : List Int), dot l (toInts (List.replicate n 0)) = 0 := by
    intro n
    induction n with
    | zero => intro l; cases l <;> simp [dot, toInts]
    | succ n ih =>
      intro l
      cases l with
      | nil => simp [dot]
      | cons x l =>
        have := ih l
        simp only [toInts, List.replicate_succ, List.map_cons, dot] at this ⊢
        rw [this]; simp
  rw [this]; omega

/-- **C47** (repeat, access, partial).  With a full index, `operator()` and `element` of a repeated array read the
element of the original whose position on the axis is listed at that place.  Full claim: for every list of repeats and
every number of arguments; missing are a first repeat of zero (`C47_repeat_first_zero_wrong`) and fewer arguments than
axes (`C47_repeat_few_arguments_wrong`). -/
theorem C47_repeat_access_partial (c : StridedArr) (hc : c.WF) (r : List Nat) (axis : Nat)
    (hax : axis < c.shape.length) (hr : r.length = c.shape.getD axis 0) (h0 : r.getD 0 0 ≠ 0) (extra q : List Nat)
    (hq : InBounds (c.shape.set axis r.sum) q) :
    ∃ k, (repeatList r)[q.getD axis 0]? = some k ∧ InBounds c.shape (q.set axis k) ∧
      (repeatAccess (xstepperOps c 0) (c.shape.set axis r.sum) r axis c.off (extra ++ q)).ok = true ∧
      (repeatAccess (xstepperOps c 0) (c.shape.set axis r.sum) r axis c.off (extra ++ q)).sub =
        c.off + dot c.strides (toInts (q.set axis k)) := by
  have hF : FwdLaw (xstepperOps c 0) c.shape (XAt c) := by
    have := xstepper_fwd (sh := c.shape) hc (broadcastsTo_refl c.shape)
    rwa [Nat.sub_self] at this
  have hl : q.length = c.shape.length := by rw [hq.length_eq]; simp
  have hpos : 0 < r.length := by
    rcases r with _ | ⟨a, r⟩
    · simp at h0
    · simp
  have hbeg := xat_begin c
  have hb := repeatBegin_at (esh := c.shape) (axis := axis) hbeg h0 hpos
  have hst := map_idx_steps hF hax hr hq q [] rfl (st := repeatBegin (c.shape.set axis r.sum) c.off) (by
    rw [hl]; exact hb)
  have he : repeatAccess (xstepperOps c 0) (c.shape.set axis r.sum) r axis c.off (extra ++ q) =
      (q.zipIdx 0).foldl (fun st (x : Nat × Nat) => (repeatOps (xstepperOps c 0) (c.shape.set axis r.sum) r axis).step
        st x.2 x.1) (repeatBegin (c.shape.set axis r.sum) c.off) := by
    unfold repeatAccess repeatSteps
    rw [List.drop_left' (by rw [List.length_append, List.length_set]; omega)]
  rw [he]
  generalize (q.zipIdx 0).foldl (fun st (x : Nat × Nat) => (repeatOps (xstepperOps c 0) (c.shape.set axis r.sum) r
    axis).step st x.2 x.1) (repeatBegin (c.shape.set axis r.sum) c.off) = st at *
  have hst : RepAt r axis (XAt c) st q := by simpa using hst
  refine ⟨st.subpos, (shows_iff _ _ _).1 hst.shows, set_inBounds_of hq hax (hr ▸ hst.shows.1), hst.ok, ?_⟩
  have := hst.sub
  unfold XAt at this
  rwa [List.length_set, hl, Nat.sub_self, List.drop_zero] at this

/-- A 2 × 2 row-major array with elements at 0, 1, 2, 3. -/
def repSample : StridedArr := .mk' [2, 2] [2, 1] 0

theorem repSample_wf : repSample.WF := by
  refine ⟨rfl, ?_, StridedArr.mk'_back [2, 2] [2, 1] 0 rfl⟩
  intro k h
  rcases k with _ | _ | k <;> simp [repSample, StridedArr.mk'] at h ⊢

example : ((repeatList [1, 3])[2]? = some 1) ∧ (repeatAccess (xstepperOps repSample 0) [2, 4] [1, 3] 1 0 [1, 2]).sub = 3 := by
  decide

example := C47_repeat_access_partial repSample repSample_wf [1, 3] 1 (by decide) rfl (by decide) [] [1, 2] (by decide)

/-- The addresses visited by `begin()` … `end()` of a repeated array iterated with shape `osh`, and whether all reads of
the list of repeats were in range. -/
def repeatWalk (c : StridedArr) (r : List Nat) (axis : Nat) (L : Layout) (osh : List Nat) : List (Int × Bool) :=
  let sh := c.shape.set axis r.sum
  let ops := repeatOps (xstepperOps c (osh.length - c.shape.length)) sh r axis
  (XIter.walk ops L osh (XIter.mkEnd (ops.toEnd (repeatBegin sh c.off) L) L osh) (numel osh + 1)
    (XIter.mkBegin (repeatBegin sh c.off) osh)).map fun st => (st.sub, st.ok)

/-- The same for `rbegin()` … `rend()`. -/
def repeatWalkBack (c : StridedArr) (r : List Nat) (axis : Nat) (L : Layout) (osh : List Nat) : List (Int × Bool) :=
  let sh := c.shape.set axis r.sum
  let ops := repeatOps (xstepperOps c (osh.length - c.shape.length)) sh r axis
  (XIter.walkBack ops L osh (XIter.mkBegin (repeatBegin sh c.off) osh) (numel osh + 1)
    (XIter.mkEnd (ops.toEnd (repeatBegin sh c.off) L) L osh)).map fun st => (st.sub, st.ok)

/-- **C47** (repeat, iteration, partial).  Forward iteration in either order over a repeated array with its own shape
visits each index once, in order, at the element of the original listed there.  Full claim: for every list of repeats,
in both directions and when broadcast; missing are a first or last repeat of zero (`C47_repeat_first_zero_wrong`,
`C47_repeat_last_zero_wrong`), reverse iteration (`C47_repeat_reverse_wrong`) and broadcasting
(`C47_repeat_broadcast_wrong`). -/
theorem C47_repeat_forward_partial (c : StridedArr) (hc : c.WF) (r : List Nat) (axis : Nat)
    (hax : axis < c.shape.length) (hr : r.length = c.shape.getD axis 0) (h0 : r.getD 0 0 ≠ 0)
    (hlast : r.getD (r.length - 1) 0 ≠ 0) (L : Layout) (hL : L = .row_major ∨ L = .column_major)
    (hn : 0 < numel (c.shape.set axis r.sum)) :
    (repeatWalk c r axis L (c.shape.set axis r.sum)).length = numel (c.shape.set axis r.sum) ∧
    ∀ (i : Nat) (p : Int × Bool), (repeatWalk c r axis L (c.shape.set axis r.sum))[i]? = some p →
      ∃ q k, InBounds (c.shape.set axis r.sum) q ∧ rankIn L (c.shape.set axis r.sum) q = i ∧
        (repeatList r)[q.getD axis 0]? = some k ∧ InBounds c.shape (q.set axis k) ∧
        p = (c.off + dot c.strides (toInts (q.set axis k)), true) := by
  have hF : FwdLaw (xstepperOps c 0) c.shape (XAt c) := by
    have := xstepper_fwd (sh := c.shape) hc (broadcastsTo_refl c.shape)
    rwa [Nat.sub_self] at this
  have hpos : 0 < r.length := by
    rcases r with _ | ⟨a, r⟩
    · simp at h0
    · simp
  have hb := repeatBegin_at (esh := c.shape) (axis := axis) (xat_begin c) h0 hpos
  unfold repeatWalk
  simp only [List.length_set, Nat.sub_self]
  rw [walk_congr (o1 := repeatOps (xstepperOps c 0) (c.shape.set axis r.sum) r axis)
    (o2 := repeatOps' (xstepperOps c 0) (c.shape.set axis r.sum) r axis (repBackTo (xstepperOps c 0) r axis))
    (fun st a => by simp [repeatOps, repeatOps']) (fun _ _ => rfl) (fun _ _ => rfl)]
  have key := walk_spec (E := fun _ => True) hL (repeat_fwd hF hax hr h0 hlast) (fun _ _ _ _ => trivial)
    (XIter.mkEnd ((repeatOps (xstepperOps c 0) (c.shape.set axis r.sum) r axis).toEnd
      (repeatBegin (c.shape.set axis r.sum) c.off) L) L (c.shape.set axis r.sum))
    (by simp [XIter.mkEnd, foldl_mul_eq]) (numel (c.shape.set axis r.sum) + 1) 0
    (XIter.mkBegin (repeatBegin (c.shape.set axis r.sum) c.off) (c.shape.set axis r.sum))
    (iterAt_begin hn (by rw [List.length_set]; exact hb)) (by omega) (by omega)
  refine ⟨by rw [List.length_map, key.1]; omega, fun i p hp => ?_⟩
  rw [List.getElem?_map, Option.map_eq_some_iff] at hp
  obtain ⟨st, hst, rfl⟩ := hp
  obtain ⟨q, hq, hrk, hat⟩ := key.2 i st hst
  have hl : q.length = c.shape.length := by rw [hq.length_eq]; simp
  refine ⟨q, st.subpos, hq, by omega, (shows_iff _ _ _).1 hat.shows, set_inBounds_of hq hax (hr ▸ hat.shows.1), ?_⟩
  have := hat.sub
  unfold XAt at this
  rw [List.length_set, hl, Nat.sub_self, List.drop_zero] at this
  rw [hat.ok, this]

example := C47_repeat_forward_partial repSample repSample_wf [1, 3] 1 (by decide) rfl (by decide) (by decide) .row_major
  (Or.inl rfl) (by decide)

example : (repeatWalk repSample [1, 3] 1 .row_major [2, 4]).map (·.1) = [0, 1, 1, 1, 2, 3, 3, 3] ∧
    (repeatWalk repSample [1, 3] 1 .column_major [2, 4]).map (·.1) = [0, 2, 1, 3, 1, 3, 1, 3] := by decide

/-- A first repeat of zero is not skipped: `repeat(a, {0, 2}, 1)` of `{{0,1},{2,3}}` starts with 0 instead of 1, by index
and in iteration. -/
theorem C47_repeat_first_zero_wrong :
    (repeatList [0, 2])[0]? = some 1 ∧
    (repeatAccess (xstepperOps repSample 0) [2, 2] [0, 2] 1 0 [0, 0]).sub = 0 ∧
    (repeatWalk repSample [0, 2] 1 .row_major [2, 2]).map (·.1) = [0, 1, 2, 3] := by decide

/-- With a last repeat of zero the stepper is reset by too much: `repeat(a, {1, 0}, 1)` of `{{0,1},{2,3}}` iterates over
0, 1 instead of 0, 2, although the elements by index are right. -/
theorem C47_repeat_last_zero_wrong :
    (repeatAccess (xstepperOps repSample 0) [2, 1] [1, 0] 1 0 [1, 0]).sub = 2 ∧
    (repeatWalk repSample [1, 0] 1 .row_major [2, 1]).map (·.1) = [0, 1] := by decide

/-- Reverse iteration: in row-major order the list of repeats is read out of range; in column-major order other
elements come out (expected 3, 1, 3, 1, 3, 1, 2, 0). -/
theorem C47_repeat_reverse_wrong :
    (repeatWalkBack repSample [1, 3] 1 .row_major [2, 4]).all (·.2) = false ∧
    repeatWalkBack repSample [1, 3] 1 .column_major [2, 4] =
      [3, 1, 2, 0, 2, 0, 2, 0].map fun (x : Int) => (x, true) := by decide

/-- A repeated array used in a larger shape, with one more axis or with an axis of extent one stretched, reads the list of
repeats out of range. -/
theorem C47_repeat_broadcast_wrong :
    (repeatWalk (.mk' [2] [1] 0) [2, 2] 0 .row_major [2, 4]).all (·.2) = false ∧
    (repeatWalk (.mk' [2, 1] [1, 0] 0) [2, 2] 0 .row_major [4, 3]).all (·.2) = false := by decide

/-- Fewer arguments than axes address the leading axes instead of the trailing ones: `repeat(a, {1, 1}, 0)(1)` is
`a(1, 0)` where `a(1)` is `a(0, 1)`. -/
theorem C47_repeat_few_arguments_wrong :
    (repeatAccess (xstepperOps repSample 0) [2, 2] [1, 1] 0 0 [1]).sub = 2 ∧
    (repeatAccess (xstepperOps repSample 0) [2, 2] [1, 1] 0 0 [0, 1]).sub = 1 := by decide

end Xt
