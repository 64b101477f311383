import Verif.Props.Flip
import Verif.Props.Accumulator
/-!
# C36, C37 and C55: rolling, squeezing, adding axes and splitting
-/

namespace Xt
open Spec

/-! ### C36: roll -/

theorem wrapShift_spec {n : Nat} (hn : 0 < n) (k : Int) :
    ∃ s, wrapShift k n = some s ∧ 0 ≤ s ∧ s % n = k % n ∧ (k < 0 → s < n) ∧ (0 ≤ k → s = k) := by
  unfold wrapShift
  by_cases h : 0 ≤ k
  · exact ⟨k, by rw [if_pos h], h, rfl, by omega, fun _ => rfl⟩
  · refine ⟨k % n, by rw [if_neg h, if_neg (by omega)], Int.emod_nonneg _ (by omega), by simp, fun _ => ?_, by omega⟩
    exact Int.emod_lt_of_pos _ (by omega)

/-- C36: `roll(e, k)` moves the element at flat position `p` to `(p + k) mod size`, for every integer `k`. -/
theorem C36_roll_flat {α : Type} {vals : List α} (hv : vals ≠ []) (k : Int) :
    ∃ r, rollFlat vals k = .ok r ∧ r.length = vals.length ∧
      ∀ p, p < vals.length → r[(((p : Int) + k) % (vals.length : Int)).toNat]? = vals[p]? := by
  have hn : 0 < vals.length := List.length_pos_iff.2 hv
  obtain ⟨s, h1, h2, h3, _⟩ := wrapShift_spec hn k
  unfold rollFlat
  rw [h1]
  simp only
  rw [if_neg (by omega)]
  generalize hN : vals.length = N at *
  have hm : (s % (N : Int)).toNat < N := by
    have := Int.emod_lt_of_pos s (show (0 : Int) < N by omega); have := Int.emod_nonneg s (show (N : Int) ≠ 0 by omega); omega
  refine ⟨_, rfl, by simp [hN], fun p hp => ?_⟩
  have he : (((p : Int) + k) % (N : Int)).toNat = (p + (s % (N : Int)).toNat) % N := by
    have h4 : ((p : Int) + k) % (N : Int) = (((p + (s % (N : Int)).toNat) % N : Nat) : Int) := by
      rw [Int.natCast_emod, Int.natCast_add, Int.toNat_of_nonneg (Int.emod_nonneg s (by omega)), Int.add_emod,
        ← h3, Int.add_emod (p : Int) (s % (N : Int)), Int.emod_emod]
    omega
  rw [he]
  generalize (s % (N : Int)).toNat = m at *
  by_cases hpm : p + m < N
  · rw [Nat.mod_eq_of_lt hpm, List.getElem?_append_right (by simp [hN]; omega), List.getElem?_take]
    simp only [List.length_drop, hN]
    rw [if_pos (by omega)]
    congr 1; omega
  · rw [show (p + m) % N = p + m - N by
      rw [Nat.mod_eq_sub_mod (by omega), Nat.mod_eq_of_lt (by omega)]]
    rw [List.getElem?_append_left (by simp [hN]; omega), List.getElem?_drop]
    congr 1; omega

/-- C36: rolling back undoes rolling. -/
theorem C36_roll_back {α : Type} {vals : List α} (hv : vals ≠ []) (k : Int) :
    ∃ r, rollFlat vals k = .ok r ∧ rollFlat r (-k) = .ok vals := by
  obtain ⟨r, h1, h2, h3⟩ := C36_roll_flat hv k
  have hr : r ≠ [] := by
    intro e; subst e
    exact hv (List.length_eq_zero_iff.1 h2.symm)
  obtain ⟨t, g1, g2, g3⟩ := C36_roll_flat hr (-k)
  refine ⟨r, h1, ?_⟩
  rw [g1]
  congr 1
  apply List.ext_getElem?
  intro p
  have hn : 0 < vals.length := List.length_pos_iff.2 hv
  by_cases hp : p < vals.length
  · rw [← h3 p hp]
    have hb : (((p : Int) + k) % (vals.length : Int)).toNat < r.length := by
      have := Int.emod_lt_of_pos ((p : Int) + k) (show (0 : Int) < vals.length by omega)
      have := Int.emod_nonneg ((p : Int) + k) (show (vals.length : Int) ≠ 0 by omega); omega
    have := g3 _ hb
    rw [← this]
    congr 1
    rw [Int.toNat_of_nonneg (Int.emod_nonneg _ (by omega)), h2, Int.emod_add_emod]
    rw [show (p : Int) + k + -k = (p : Int) by omega, Int.emod_eq_of_lt (by omega) (by omega)]
    rfl
  · rw [List.getElem?_eq_none (by omega), List.getElem?_eq_none (by omega)]

/-- On an empty array `roll` divides by zero or loops for ever. -/
theorem C36_roll_empty_ub {α : Type} (k : Int) : rollFlat ([] : List α) k = .ub := by
  unfold rollFlat wrapShift
  by_cases h : 0 ≤ k
  · simp [h]
  · simp [h]

/-- Source coordinate of coordinate `i` on an axis of extent `d` rolled by `s ≤ d`. -/
def rollSrc (s d i : Nat) : Nat := if i < s then d - s + i else i - s

/-- Source index of a destination index. -/
def rollFrom (s : Nat) (sh : List Nat) (ax : Option Nat) (idx : List Nat) : List Nat :=
  match ax with
  | none => idx
  | some a => idx.set a (rollSrc s (sh.getD a 0) (idx.getD a 0))

theorem mapM_some {α β : Type} (f : α → β) : ∀ l : List α, (l.mapM fun x => some (f x)) = some (l.map f)
  | [] => rfl
  | x :: l => by
    rw [List.mapM_cons, mapM_some f l]
    rfl

theorem rollFor_eq {lo hi off frm : Nat} (h : lo ≤ hi) {body : Nat → Option (List Nat)} {g : Nat → List Nat}
    (hb : ∀ p, body p = some (g p)) (h0 : off = 0 → ∀ p, g p = []) :
    rollFor lo hi off frm body = some ((List.range' lo (hi - lo)).flatMap fun k => g (frm + k * off)) := by
  unfold rollFor
  by_cases ho : off = 0
  · rw [if_pos ho]
    congr 1
    symm
    rw [List.flatMap_eq_nil_iff]
    exact fun _ _ => h0 ho _
  · rw [if_neg ho, if_neg (by omega)]
    have e1 : (hi - lo : Int).toNat = hi - lo := by omega
    simp only [hb, Int.toNat_natCast, e1]
    rw [mapM_some (fun k => g (frm + k * off))]
    rfl

theorem range_rollSrc {s d : Nat} (h : s ≤ d) :
    (List.range d).map (rollSrc s d) = List.range' (d - s) s ++ List.range' 0 (d - s) := by
  apply List.ext_getElem?
  intro k
  by_cases hk : k < d
  · rw [List.getElem?_map, List.getElem?_range hk, Option.map_some]
    unfold rollSrc
    by_cases hs : k < s
    · rw [if_pos hs, List.getElem?_append_left (by simpa using hs), List.getElem?_range' hs]
      simp
    · rw [if_neg hs, List.getElem?_append_right (by simp; omega)]
      simp only [List.length_range']
      rw [List.getElem?_range' (by omega)]
      simp
  · rw [List.getElem?_eq_none (by simp; omega), List.getElem?_eq_none (by simp; omega)]

theorem rowIndices_empty {sh : List Nat} (h : numel sh = 0) : rowIndices sh = [] := by
  apply List.length_eq_zero_iff.1
  rw [length_rowIndices, h]

/-- The recursive call of `rollPositions`. -/
def rollBody (shift : Int) (axis : Option Nat) : List Nat → Nat → Option (List Nat)
  | [] => fun p => some [p]
  | r :: rs => fun p => rollPositions shift (axis.bind fun a => if a = 0 then none else some (a - 1)) (r :: rs) p

theorem rollPositions_cons (shift : Int) (axis : Option Nat) (d : Nat) (rest : List Nat) (frm : Nat) :
    rollPositions shift axis (d :: rest) frm =
      if axis = some 0 then
        (rollFor ((d : Int) - shift) d (rest.foldl (· * ·) 1) frm (rollBody shift axis rest)).bind fun a =>
          (rollFor 0 ((d : Int) - shift) (rest.foldl (· * ·) 1) frm (rollBody shift axis rest)).map fun b => a ++ b
      else rollFor 0 d (rest.foldl (· * ·) 1) frm (rollBody shift axis rest) := by
  cases rest <;> simp only [rollPositions, rollBody]

theorem rollPositions_eq (s : Nat) : ∀ (sh : List Nat) (ax : Option Nat) (frm : Nat), sh ≠ [] →
    (∀ a, ax = some a → a < sh.length ∧ s ≤ sh.getD a 0) →
    rollPositions s ax sh frm = some ((rowIndices sh).map fun idx => frm + rowRank sh (rollFrom s sh ax idx))
  | [], _, _, h, _ => absurd rfl h
  | d :: rest, ax, frm, _, hax => by
    rw [rollPositions_cons, foldl_mul_eq, Nat.one_mul]
    have hb : ∀ p, rollBody s ax rest p = some ((rowIndices rest).map fun idx =>
        p + rowRank rest (rollFrom s rest (ax.bind fun a => if a = 0 then none else some (a - 1)) idx)) := by
      intro p
      cases rest with
      | nil => simp [rowIndices, rowRank, rollBody]
      | cons r rs =>
        refine rollPositions_eq s (r :: rs) _ p (by simp) fun a ha => ?_
        cases ax with
        | none => simp at ha
        | some b =>
          have hb := hax b rfl
          by_cases hb0 : b = 0
          · simp [hb0] at ha
          · obtain ⟨c, rfl⟩ := Nat.exists_eq_succ_of_ne_zero hb0
            simp at ha
            subst ha
            exact ⟨by simpa using hb.1, by simpa using hb.2⟩
    have h0 : numel rest = 0 → ∀ p, (rowIndices rest).map (fun idx => p + rowRank rest (rollFrom s rest
        (ax.bind fun a => if a = 0 then none else some (a - 1)) idx)) = [] := by
      intro h p; rw [rowIndices_empty h]; rfl
    have hsrc : ∀ (f : Nat → Nat), (List.range d).flatMap (fun i => (rowIndices rest).map fun idx => frm + f i * numel rest +
        rowRank rest (rollFrom s rest (ax.bind fun a => if a = 0 then none else some (a - 1)) idx)) =
        ((List.range d).map f).flatMap fun k => (rowIndices rest).map fun idx => frm + k * numel rest +
        rowRank rest (rollFrom s rest (ax.bind fun a => if a = 0 then none else some (a - 1)) idx) := by
      intro f; rw [List.flatMap_map]
    by_cases ha : ax = some 0
    · have hd := (hax 0 ha).2
      simp only [List.getD_cons_zero] at hd
      rw [if_pos ha, show (d : Int) - s = ((d - s : Nat) : Int) by omega,
        rollFor_eq (by omega) hb h0, show (0 : Int) = ((0 : Nat) : Int) by rfl, rollFor_eq (by omega) hb h0]
      simp only [Option.bind_some, Option.map_some]
      rw [← List.flatMap_append, show d - (d - s) = s by omega, show d - s - 0 = d - s by omega, ← range_rollSrc hd, ← hsrc,
        rowIndices, List.map_flatMap]
      congr 1
      apply List.flatMap_congr
      intro i _
      rw [List.map_map]
      apply List.map_congr_left
      intro idx _
      subst ha
      simp only [Function.comp, rollFrom, List.getD_cons_zero, List.set_cons_zero, rowRank, Option.bind_some, if_pos]
      omega
    · rw [if_neg ha, show (0 : Int) = ((0 : Nat) : Int) by rfl, rollFor_eq (by omega) hb h0]
      rw [Nat.sub_zero, ← List.range_eq_range', rowIndices, List.map_flatMap]
      congr 1
      apply List.flatMap_congr
      intro i _
      rw [List.map_map]
      apply List.map_congr_left
      intro idx _
      cases ax with
      | none => simp only [Function.comp, rollFrom, rowRank, Option.bind_none]; omega
      | some a =>
        obtain ⟨c, rfl⟩ := Nat.exists_eq_succ_of_ne_zero (show a ≠ 0 from fun e => ha (by rw [e]))
        simp only [Function.comp, rollFrom, rowRank, Option.bind_some, if_neg (Nat.succ_ne_zero c), List.getD_cons_succ,
          List.set_cons_succ, Nat.succ_eq_add_one, Nat.add_sub_cancel]
        omega

theorem mapM_getElem {α : Type} {vals : List α} : ∀ {ps : List Nat}, (∀ p ∈ ps, p < vals.length) →
    ∃ r, (ps.mapM fun p => vals[p]?) = some r ∧ r.length = ps.length ∧ ∀ (j : Nat) (p : Nat), ps[j]? = some p → r[j]? = vals[p]?
  | [], _ => ⟨[], rfl, rfl, by simp⟩
  | p :: ps, h => by
    obtain ⟨r, h1, h2, h3⟩ := mapM_getElem (vals := vals) (ps := ps) fun q hq => h q (by simp [hq])
    have hp := h p (by simp)
    refine ⟨vals[p] :: r, ?_, by simp [h2], fun j q hj => ?_⟩
    · rw [List.mapM_cons, h1, List.getElem?_eq_getElem hp]; rfl
    · cases j with
      | zero =>
        simp only [List.getElem?_cons_zero, Option.some.injEq] at hj ⊢
        subst hj
        rw [List.getElem?_eq_getElem hp]
      | succ j => exact h3 j q (by simpa using hj)

theorem rollIndex_inBounds {sh idx : List Nat} {a : Nat} {k : Int} (ha : a < sh.length) (h : InBounds sh idx) :
    InBounds sh (rollIndex sh a k idx) := by
  have hl := h.length_eq
  rw [inBounds_iff_get] at h ⊢
  unfold rollIndex
  refine ⟨by simpa using h.1, fun j hj => ?_⟩
  rw [getD_set_nat (by omega)]
  split
  · next e =>
    subst e
    have := h.2 a ha
    have h1 := Int.emod_lt_of_pos ((idx.getD a 0 : Int) + k) (show (0 : Int) < (sh.getD a 0 : Int) by omega)
    have h2 := Int.emod_nonneg ((idx.getD a 0 : Int) + k) (show (sh.getD a 0 : Int) ≠ 0 by omega)
    omega
  · exact h.2 j hj

theorem rollFrom_rollIndex {sh idx : List Nat} {a s : Nat} {k : Int} (ha : a < sh.length) (h : InBounds sh idx)
    (hs : s ≤ sh.getD a 0) (hk : (s : Int) % (sh.getD a 0 : Int) = k % (sh.getD a 0 : Int)) :
    rollFrom s sh (some a) (rollIndex sh a k idx) = idx := by
  have hl := h.length_eq
  have hia := (inBounds_iff_get.1 h).2 a ha
  unfold rollFrom rollIndex
  simp only
  rw [List.set_set]
  apply ext_getD (by simp)
  intro j _
  rw [getD_set_nat (by omega), getD_set_nat (by omega), if_pos rfl]
  split
  · next e =>
    subst e
    have hm : ((idx.getD a 0 : Int) + k) % (sh.getD a 0 : Int) = ((idx.getD a 0 : Int) + s) % (sh.getD a 0 : Int) := by
      rw [Int.add_emod, ← hk, ← Int.add_emod]
    rw [hm]
    generalize idx.getD a 0 = i at *
    generalize sh.getD a 0 = d at *
    have : (((i : Int) + s) % (d : Int)).toNat = (i + s) % d := by
      rw [← Int.natCast_add, ← Int.natCast_emod]; rfl
    rw [this]
    unfold rollSrc
    by_cases h1 : i + s < d
    · rw [Nat.mod_eq_of_lt h1, if_neg (by omega)]; omega
    · have h2 : (i + s) % d = i + s - d := by
        rw [Nat.mod_eq_sub_mod (by omega), Nat.mod_eq_of_lt (by omega)]
      rw [h2]
      by_cases h3 : i + s - d < s
      · rw [if_pos h3]; omega
      · omega
  · rfl

/-- C36: `roll(e, k, axis)` moves every element `k` places along the axis, wrapping around, for a
non-negative axis and a shift that is negative or at most the extent.  (Full claim: every axis and shift; see
`C36_negative_axis_rejected` and `C36_large_shift_ub`.) -/
theorem C36_roll_axis_partial {α : Type} {sh : List Nat} {vals : List α} (hv : vals.length = numel sh)
    {a : Nat} (ha : a < sh.length) (h64 : sh.length < 2 ^ 64) (h0 : 0 < sh.getD a 0) {k : Int} (hk : k ≤ (sh.getD a 0 : Nat)) :
    ∃ r, rollAxis sh vals k a = .ok r ∧ r.length = numel sh ∧
      ∀ idx, InBounds sh idx → r[rowRank sh (rollIndex sh a k idx)]? = vals[rowRank sh idx]? := by
  obtain ⟨s, h1, h2, h3, h4, h5⟩ := wrapShift_spec h0 k
  have hs : s ≤ (sh.getD a 0 : Nat) := by
    by_cases hk0 : k < 0
    · have := h4 hk0; omega
    · rw [h5 (by omega)]; exact hk
  obtain ⟨t, rfl⟩ := Int.eq_ofNat_of_zero_le h2
  have hne : sh ≠ [] := by intro e; subst e; simp at ha
  unfold rollAxis
  have e1 : ((a : Int) % 2 ^ 64).toNat = a := by
    rw [Int.emod_eq_of_lt (by omega) (by omega)]; rfl
  simp only [e1]
  rw [if_neg (by omega), h1]
  simp only
  rw [rollPositions_eq t sh (some a) 0 hne (by
    intro b hb; injection hb with hb; subst hb; exact ⟨ha, by omega⟩)]
  simp only [Option.bind_some, Nat.zero_add]
  have hfrom : ∀ idx, InBounds sh idx → InBounds sh (rollFrom t sh (some a) idx) := by
    intro idx hi
    have hl := hi.length_eq
    rw [inBounds_iff_get] at hi ⊢
    unfold rollFrom
    refine ⟨by simpa using hi.1, fun j hj => ?_⟩
    rw [getD_set_nat (by omega)]
    split
    · next e =>
      subst e
      have := hi.2 a ha
      unfold rollSrc
      split <;> omega
    · exact hi.2 j hj
  obtain ⟨r, g1, g2, g3⟩ := mapM_getElem (vals := vals)
    (ps := (rowIndices sh).map fun idx => rowRank sh (rollFrom t sh (some a) idx)) (by
      intro p hp
      rw [List.mem_map] at hp
      obtain ⟨idx, hi, rfl⟩ := hp
      rw [hv]
      exact rowRank_lt (hfrom idx (mem_rowIndices.1 hi)))
  rw [g1]
  refine ⟨r, rfl, by rw [g2, List.length_map, length_rowIndices], fun idx hi => ?_⟩
  apply g3
  have hb := rollIndex_inBounds (k := k) ha hi
  rw [List.getElem?_map, rowIndices_eq_nth, List.getElem?_map, List.getElem?_range (rowRank_lt hb)]
  simp only [Option.map_some]
  rw [nthIndex_rowRank hb, rollFrom_rollIndex ha hi (by omega) h3]

/-- Negative axes are rejected although the code means to normalise them. -/
theorem C36_negative_axis_rejected {α : Type} {sh : List Nat} (vals : List α) (k : Int) {a : Int} (ha : a < 0)
    (hb : -(2 ^ 63) ≤ a) (hd : sh.length < 2 ^ 63) : rollAxis sh vals k a = .throws := by
  unfold rollAxis
  simp only
  rw [if_pos]
  left
  have : a % 2 ^ 64 = a + 2 ^ 64 := by omega
  rw [this]; omega

/-- A shift beyond the extent reads outside the array; an empty axis with a negative shift loops for ever. -/
theorem C36_large_shift_ub :
    rollAxis [2, 3] [1, 2, 3, 4, 5, 6] 4 1 = .ub ∧ rollAxis [2, 3] [1, 2, 3, 4, 5, 6] (-4) 1 = .ok [2, 3, 1, 5, 6, 4] ∧
    rollAxis [2, 0] ([] : List Nat) (-1) 1 = .ub := by
  decide

example : rollAxis [2, 3] [1, 2, 3, 4, 5, 6] 1 1 = .ok [3, 1, 2, 6, 4, 5] ∧
    rollAxis [2, 3] [1, 2, 3, 4, 5, 6] (-1) 0 = .ok [4, 5, 6, 1, 2, 3] ∧ rollIndex [2, 3] 1 1 [0, 2] = [0, 0] := by decide
example : rollFlat [1, 2, 3, 4] (-5) = .ok [2, 3, 4, 1] ∧ rollFlat [1, 2, 3, 4] 6 = .ok [3, 4, 1, 2] := by decide

/-! ### C37: squeeze, expand_dims, atleast_Nd -/

theorem squeezeLoop_fst {axes : List Nat} : ∀ (i : Nat) (sh : List Nat) (st : List Int), st.length = sh.length →
    (squeezeLoop axes i sh st).map Prod.fst = dropAxes axes none i sh
  | _, [], [], _ => rfl
  | _, [], _ :: _, h => by simp at h
  | _, _ :: _, [], h => by simp at h
  | i, n :: sh, s :: st, h => by
    have ih := squeezeLoop_fst (axes := axes) (i + 1) sh st (by simpa using h)
    unfold squeezeLoop dropAxes
    by_cases hi : i ∈ axes
    · simp [hi, ih]
    · simp [hi, ih]

theorem squeezeLoop_dot {axes : List Nat} : ∀ (i : Nat) (sh : List Nat) (st : List Int) (p : List Nat),
    st.length = sh.length → (∀ k, k < sh.length → i + k ∈ axes → sh.getD k 0 = 1) → InBounds sh p →
    dot ((squeezeLoop axes i sh st).map Prod.snd) (toInts (dropAxes axes none i p)) = dot st (toInts p)
  | _, [], [], [], _, _, _ => rfl
  | _, [], _ :: _, _, h, _, _ => by simp at h
  | _, _ :: _, [], _, h, _, _ => by simp at h
  | _, [], [], _ :: _, _, _, h => h.elim
  | _, _ :: _, _ :: _, [], _, _, h => h.elim
  | i, n :: sh, s :: st, j :: p, h, h1, hb => by
    have ih := squeezeLoop_dot (axes := axes) (i + 1) sh st p (by simpa using h)
      (fun k hk hm => by
        have := h1 (k + 1) (by simpa using hk) (by rwa [show i + (k + 1) = i + 1 + k by omega])
        simpa using this) hb.2
    unfold squeezeLoop dropAxes
    by_cases hi : i ∈ axes
    · have hn : n = 1 := by simpa using h1 0 (by simp) (by simpa using hi)
      have hj : j = 0 := by have := hb.1; omega
      subst hj
      simp only [List.contains_eq_mem, hi, decide_true, if_true, toInts_cons, dot_cons, ih]
      simp
    · simp only [List.contains_eq_mem, hi, decide_false, if_false, Bool.false_eq_true, List.map_cons, toInts_cons,
        dot_cons, ih]

theorem length_without {axes : List Nat} : ∀ (l : List Nat) (i : Nat),
    (dropAxes axes none i l).length = ((List.range' i l.length).filter fun k => k ∉ axes).length
  | [], _ => rfl
  | x :: l, i => by
    rw [List.length_cons, List.range'_succ, List.filter_cons]
    unfold dropAxes
    by_cases hi : i ∈ axes
    · simp only [hi, not_true_eq_false, decide_false, if_true, length_without l (i + 1)]
      simp
    · simp only [hi, not_false_eq_true, decide_true, if_false, if_true, List.length_cons, length_without l (i + 1)]

theorem length_without_nodup {axes l : List Nat} (hn : axes.Nodup) (hr : ∀ a ∈ axes, a < l.length) :
    (without axes l).length = l.length - axes.length ∧ axes.length ≤ l.length := by
  rw [without, length_without, ← List.range_eq_range']
  have h1 := List.length_eq_length_filter_add (l := List.range l.length) (fun k => decide (k ∈ axes))
  have h2 : ((List.range l.length).filter fun k => decide (k ∈ axes)).Perm axes := by
    rw [List.perm_ext_iff_of_nodup (List.nodup_range.filter _) hn]
    intro a
    simp only [List.mem_filter, List.mem_range, decide_eq_true_eq]
    exact ⟨fun h => h.2, fun h => ⟨hr a h, h⟩⟩
  have h3 := h2.length_eq
  simp only [List.length_range] at h1
  have e : (List.range l.length).filter (fun k => decide (k ∉ axes)) =
      (List.range l.length).filter (fun x => !(decide (x ∈ axes))) := by
    congr 1; funext k; simp
  rw [e]
  omega

theorem exists_without {axes : List Nat} : ∀ {sh r : List Nat} (i : Nat),
    (∀ k, k < sh.length → i + k ∈ axes → sh.getD k 0 = 1) → InBounds (dropAxes axes none i sh) r →
    ∃ t, InBounds sh t ∧ dropAxes axes none i t = r
  | [], r, _, _, h => by
    cases r with
    | nil => exact ⟨[], trivial, rfl⟩
    | cons _ _ => exact h.elim
  | n :: sh, r, i, h1, h => by
    have h1' : ∀ k, k < sh.length → (i + 1) + k ∈ axes → sh.getD k 0 = 1 := fun k hk hm => by
      have := h1 (k + 1) (by simpa using hk) (by rwa [show i + (k + 1) = i + 1 + k by omega])
      simpa using this
    unfold dropAxes at h
    by_cases hi : i ∈ axes
    · rw [if_pos hi] at h
      obtain ⟨t, ht, e⟩ := exists_without (i + 1) h1' h
      have hn : n = 1 := by simpa using h1 0 (by simp) (by simpa using hi)
      exact ⟨0 :: t, ⟨by omega, ht⟩, by simp [dropAxes, hi, e]⟩
    · rw [if_neg hi] at h
      cases r with
      | nil => exact h.elim
      | cons j r =>
        obtain ⟨t, ht, e⟩ := exists_without (i + 1) h1' h.2
        exact ⟨j :: t, ⟨h.1, ht⟩, by simp [dropAxes, hi, e]⟩

/-- C37: squeezing listed unit axes removes exactly these axes; up to the offset of the argument, which is
lost, no element moves.  (Full claim: without loss of the offset; see `C37_squeeze_loses_offset`.) -/
theorem C37_squeeze_axes_partial {e : Strd} (he : e.WF) {axes : List Nat} (hn : axes.Nodup)
    (ha : ∀ a ∈ axes, a < e.shape.length ∧ e.shape.getD a 0 = 1) :
    ∃ v, squeezeAxes e axes = .ok v ∧ squeezeFull e axes = .ok v ∧ v.WF ∧ v.shape = without axes e.shape ∧
      (∀ p, InBounds e.shape p → InBounds v.shape (without axes p) ∧
        v.index (toInts (without axes p)) = e.index (toInts p) - e.offset) ∧
      ∀ q, InBounds v.shape q → ∃ p, InBounds e.shape p ∧ without axes p = q := by
  have hu : ∀ k, k < e.shape.length → 0 + k ∈ axes → e.shape.getD k 0 = 1 := fun k _ h => (ha k (by simpa using h)).2
  obtain ⟨hl1, hl2⟩ := length_without_nodup hn fun a h => (ha a h).1
  have hfst := squeezeLoop_fst (axes := axes) 0 e.shape e.strides he
  have hlen : (squeezeLoop axes 0 e.shape e.strides).length = e.shape.length - axes.length := by
    rw [← hl1, without, ← hfst, List.length_map]
  have hsnd : ((squeezeLoop axes 0 e.shape e.strides).map Prod.snd).length = (dropAxes axes none 0 e.shape).length := by
    rw [← hfst]; simp
  have hcheck : ∀ l : List Nat, (∀ a ∈ l, a < e.shape.length ∧ e.shape.getD a 0 = 1) → squeezeCheck e l = .ok () := by
    intro l
    induction l with
    | nil => intro _; rfl
    | cons a l ih =>
      intro h
      obtain ⟨h1, h2⟩ := h a (by simp)
      unfold squeezeCheck
      rw [if_neg (by omega), List.getElem?_eq_getElem h1]
      simp only
      rw [List.getD_eq_getElem?_getD, List.getElem?_eq_getElem h1, Option.getD_some] at h2
      rw [if_neg (by simpa using h2)]
      exact ih fun b hb => h b (by simp [hb])
  have hfull : squeezeFull e axes = squeezeAxes e axes := by
    unfold squeezeFull
    rw [hcheck axes ha]; rfl
  rw [hfull]
  unfold squeezeAxes
  simp only
  rw [if_neg (by omega), hlen, Nat.sub_self, List.replicate_zero, List.replicate_zero, List.append_nil, List.append_nil,
    hfst, mkStrd_ok hsnd]
  refine ⟨_, rfl, rfl, mkStrd_wf hsnd, rfl, fun p hp => ?_, fun q hq => exists_without 0 hu hq⟩
  have hb : InBounds (dropAxes axes none 0 e.shape) (dropAxes axes none 0 p) :=
    inBounds_dropAxes (keep := false) 0 hp
  refine ⟨hb, ?_⟩
  unfold without
  rw [mkStrd_index hsnd hb, squeezeLoop_dot 0 e.shape e.strides p he hu hp, Strd.index_eq he hp]
  omega

/-- C37: an axis that is too large or not of extent 1 is rejected by the full check — except the axis equal
to the dimension, which reads past the shape; a repeated axis writes past the new shape. -/
theorem C37_squeeze_check_witness :
    squeezeFull ⟨[2, 1], [1, 0], 0, .row_major⟩ [0] = .throws ∧ squeezeFull ⟨[2, 1], [1, 0], 0, .row_major⟩ [3] = .throws ∧
    squeezeFull ⟨[2, 1], [1, 0], 0, .row_major⟩ [2] = .ub ∧ squeezeFull ⟨[2, 1], [1, 0], 0, .row_major⟩ [1, 1] = .ub := by
  decide

/-- Squeezing a view (here row 1 of a 2×1×3 array) loses its offset. -/
theorem C37_squeeze_loses_offset :
    ∃ e v w : Strd, e.WF ∧ e.shape = [1, 3] ∧ squeezeAll e = .ok v ∧ squeezeAxes e [0] = .ok w ∧
      e.index [0, 0] = 3 ∧ v.index [0] = 0 ∧ w.index [0] = 0 :=
  ⟨⟨[1, 3], [0, 1], 3, .row_major⟩, ⟨[3], [1], 0, .row_major⟩, ⟨[3], [1], 0, .row_major⟩, rfl, rfl, by decide, by decide,
    by decide, by decide, by decide⟩

theorem squeezeAll_lists : ∀ (sh : List Nat) (st : List Int), st.length = sh.length →
    (∀ k, k < sh.length → (st.getD k 0 = 0 ↔ sh.getD k 0 = 1)) →
    (st.filter (· ≠ 0)).length = (sh.filter (· ≠ 1)).length ∧ sh.filter (· ≠ 1) = dropUnit sh sh ∧
    ∀ p, InBounds sh p → InBounds (sh.filter (· ≠ 1)) (dropUnit sh p) ∧
      dot (st.filter (· ≠ 0)) (toInts (dropUnit sh p)) = dot st (toInts p)
  | [], [], _, _ => ⟨rfl, rfl, fun p hp => by
      cases p with
      | nil => exact ⟨trivial, rfl⟩
      | cons => exact hp.elim⟩
  | [], _ :: _, h, _ => by simp at h
  | _ :: _, [], h, _ => by simp at h
  | n :: sh, s :: st, h, hz => by
    have hz0 : s = 0 ↔ n = 1 := by simpa using hz 0 (by simp)
    obtain ⟨i1, i2, i3⟩ := squeezeAll_lists sh st (by simpa using h) fun k hk => by
      have := hz (k + 1) (by simpa using hk)
      simpa using this
    by_cases hn : n = 1
    · have hs := hz0.2 hn
      subst hn hs
      refine ⟨by simpa using i1, by simpa [dropUnit] using i2, fun p hp => ?_⟩
      cases p with
      | nil => exact hp.elim
      | cons j p =>
        obtain ⟨i4, i5⟩ := i3 p hp.2
        simp only [ne_eq, not_true_eq_false, decide_false, List.filter_cons, Bool.false_eq_true, if_false, dropUnit, if_true,
          toInts_cons, dot_cons] at i4 i5 ⊢
        exact ⟨i4, by rw [i5]; simp⟩
    · have hs : s ≠ 0 := fun e => hn (hz0.1 e)
      refine ⟨by simpa [hn, hs] using i1, by simpa [dropUnit, hn] using i2, fun p hp => ?_⟩
      cases p with
      | nil => exact hp.elim
      | cons j p =>
        obtain ⟨i4, i5⟩ := i3 p hp.2
        simp only [ne_eq, hn, hs, not_false_eq_true, decide_true, List.filter_cons, if_true, dropUnit, if_false, toInts_cons,
          dot_cons] at i4 i5 ⊢
        exact ⟨⟨hp.1, i4⟩, by rw [i5]⟩

/-- C37: `squeeze(e)` removes exactly the axes of extent 1 and, up to the offset, moves no element, provided
the strides are 0 exactly on those axes.  (Full claim: for all strides; see `C37_squeeze_zero_strides`.) -/
theorem C37_squeeze_partial {e : Strd} (he : e.WF)
    (hz : ∀ k, k < e.shape.length → (e.strides.getD k 0 = 0 ↔ e.shape.getD k 0 = 1)) :
    ∃ v, squeezeAll e = .ok v ∧ v.WF ∧ v.shape = dropUnit e.shape e.shape ∧
      ∀ p, InBounds e.shape p → InBounds v.shape (dropUnit e.shape p) ∧
        v.index (toInts (dropUnit e.shape p)) = e.index (toInts p) - e.offset := by
  obtain ⟨h1, h2, h3⟩ := squeezeAll_lists e.shape e.strides he hz
  unfold squeezeAll
  rw [mkStrd_ok h1]
  refine ⟨_, rfl, mkStrd_wf h1, h2, fun p hp => ?_⟩
  obtain ⟨h4, h5⟩ := h3 p hp
  refine ⟨h4, ?_⟩
  rw [mkStrd_index h1 h4, h5, Strd.index_eq he hp]
  omega

theorem rowStrides_zero_iff : ∀ {sh : List Nat}, (∀ n ∈ sh, n ≠ 0) →
    (rowStrides sh).1.length = sh.length ∧ (rowStrides sh).2 ≠ 0 ∧
    ∀ k, k < sh.length → ((rowStrides sh).1.getD k 0 = 0 ↔ sh.getD k 0 = 1)
  | [], _ => ⟨rfl, by simp [rowStrides], by simp⟩
  | n :: sh, h => by
    obtain ⟨h1, h2, h3⟩ := rowStrides_zero_iff (sh := sh) fun m hm => h m (by simp [hm])
    refine ⟨by simp [rowStrides, h1], ?_, fun k hk => ?_⟩
    · simp only [rowStrides]
      exact Int.mul_ne_zero h2 (by have := h n (by simp); omega)
    · cases k with
      | zero =>
        simp only [rowStrides, List.getD_cons_zero, adaptStride]
        by_cases hn : n = 1
        · simp [hn]
        · simp [hn, h2]
      | succ k => simpa [rowStrides] using h3 k (by simpa using hk)

/-- C37: row-major containers without empty axes are squeezed correctly. -/
theorem C37_squeeze_container {sh : List Nat} (h : ∀ n ∈ sh, n ≠ 0) :
    ∃ v, squeezeAll ⟨sh, (rowStrides sh).1, 0, .row_major⟩ = .ok v ∧ v.shape = dropUnit sh sh ∧
      ∀ p, InBounds sh p → v.index (toInts (dropUnit sh p)) = (rowRank sh p : Nat) := by
  obtain ⟨h1, _, h3⟩ := rowStrides_zero_iff h
  obtain ⟨v, g1, _, g3, g4⟩ := C37_squeeze_partial (e := ⟨sh, (rowStrides sh).1, 0, .row_major⟩) h1 h3
  refine ⟨v, g1, g3, fun p hp => ?_⟩
  rw [(g4 p hp).2, Strd.index_eq (e := ⟨sh, (rowStrides sh).1, 0, .row_major⟩) h1 hp]
  simp only
  rw [dot_rowStrides hp]
  omega

/-- Zero strides elsewhere (a broadcast axis, an empty array) break `squeeze(e)`. -/
theorem C37_squeeze_zero_strides :
    squeezeAll ⟨[2, 0], [0, 1], 0, .row_major⟩ = .ub ∧ squeezeAll ⟨[3, 2], [0, 1], 0, .dynamic⟩ = .ub ∧
    squeezeAll ⟨[1, 3, 1], [5, 0, 0], 0, .dynamic⟩ = .ok ⟨[3], [5], 0, .dynamic⟩ := by
  decide

/-! Views by `all` and `newaxis` -/

theorem sel_all_prefix (pre : List Nat) (us : List USlice) (post : List Nat) :
    selShape (pre ++ post) (List.replicate pre.length .all ++ us) = pre ++ selShape post us ∧
    (SlicesValid post us → SlicesValid (pre ++ post) (List.replicate pre.length .all ++ us)) ∧
    ∀ i j, InBounds pre i → selIndex (pre ++ post) (List.replicate pre.length .all ++ us) (i ++ j) =
      toInts i ++ selIndex post us j := by
  induction pre with
  | nil =>
    refine ⟨rfl, id, fun i j hi => ?_⟩
    cases i with
    | nil => rfl
    | cons => exact hi.elim
  | cons n pre ih =>
    obtain ⟨h1, h2, h3⟩ := ih
    refine ⟨?_, fun h => ⟨trivial, h2 h⟩, fun i j hi => ?_⟩
    · simp only [List.length_cons, List.replicate_succ, List.cons_append, selShape, h1, axisSel, List.length_map,
        List.length_range]
    · cases i with
      | nil => exact hi.elim
      | cons k i =>
        simp only [List.length_cons, List.replicate_succ, List.cons_append, selIndex, h3 i j hi.2, toInts_cons, axisSel]
        congr 1
        simp [List.getD_eq_getElem?_getD, hi.1]

theorem sel_new_prefix (m : Nat) (us : List USlice) (sh : List Nat) :
    selShape sh (List.replicate m .newaxis ++ us) = List.replicate m 1 ++ selShape sh us ∧
    (SlicesValid sh us → SlicesValid sh (List.replicate m .newaxis ++ us)) ∧
    ∀ j, selIndex sh (List.replicate m .newaxis ++ us) (List.replicate m 0 ++ j) = selIndex sh us j := by
  induction m with
  | zero => exact ⟨rfl, id, fun _ => rfl⟩
  | succ m ih =>
    obtain ⟨h1, h2, h3⟩ := ih
    refine ⟨?_, fun h => ?_, fun j => ?_⟩
    · simp only [List.replicate_succ, List.cons_append, selShape, h1]
    · simp only [List.replicate_succ, List.cons_append, SlicesValid]; exact h2 h
    · simp only [List.replicate_succ, List.cons_append, selIndex, h3]

/-- Slices that are only `all`, ranges and newaxes. -/
def PlainSlices (us : List USlice) : Prop := ∀ u ∈ us, u = .all ∨ u = .newaxis ∨ ∃ a b k, u = .range a b k

theorem stridedView_plain {sh : List Nat} {st : List Int} {off : Int} {l : Layout} {us : List USlice}
    (hl : st.length = sh.length) (hv : SlicesValid sh us) (hp : PlainSlices us) :
    ∃ v, stridedView sh st off l us = .ok v ∧ v.shape = toInts (selShape sh us) ∧
      ∀ idx, InBounds (selShape sh us) idx → v.index (toInts idx) = off + dot st (selIndex sh us idx) ∧
        ∃ pidx, InBounds sh pidx ∧ selIndex sh us idx = toInts pidx := by
  have hne : USlice.ellipsis ∉ us := by
    intro h
    rcases hp _ h with h | h | ⟨_, _, _, h⟩ <;> cases h
  have he : expandEllipsis sh.length us = us := expandWith_eq_self _ us hne
  obtain ⟨v, h1, h2, h3, _⟩ := C20_strided_view_partial sh st off l us hl (by rw [List.count_eq_zero.2 hne]; omega)
    (by rw [he]; exact hv)
    (by intro u hu; rcases hp _ hu with h | h | ⟨_, _, _, h⟩ <;> subst h <;> exact ⟨fun l e => (by cases e), fun l e => (by cases e)⟩)
    (by intro c hc; rcases hp _ hc with h | h | ⟨_, _, _, h⟩ <;> cases h)
  rw [he] at h2 h3
  exact ⟨v, h1, h2, fun idx hi => ⟨(h3 idx hi).1, (h3 idx hi).2.2⟩⟩

theorem replicate_set {α : Type} (x y : α) : ∀ (m n : Nat),
    (List.replicate (m + 1 + n) x).set m y = List.replicate m x ++ y :: List.replicate n x
  | 0, n => by rw [Nat.zero_add, Nat.add_comm, List.replicate_succ]; rfl
  | m + 1, n => by
    rw [show m + 1 + 1 + n = (m + 1 + n) + 1 by omega, List.replicate_succ, List.set_cons_succ, replicate_set x y m n,
      List.replicate_succ]
    rfl

theorem selIndex_all (sh : List Nat) : selShape sh (List.replicate sh.length .all) = sh ∧
    SlicesValid sh (List.replicate sh.length .all) ∧
    ∀ i, InBounds sh i → selIndex sh (List.replicate sh.length .all) i = toInts i := by
  obtain ⟨h1, h2, h3⟩ := sel_all_prefix sh [] []
  simp only [List.append_nil] at h1 h2 h3
  refine ⟨by rw [h1]; simp [selShape], h2 trivial, fun i hi => ?_⟩
  have := h3 i [] hi
  simpa [selIndex, toInts] using this

theorem insertIdx_append_at (a b : List Nat) (x : Nat) : (a ++ b).insertIdx a.length x = a ++ x :: b := by
  induction a with
  | nil => simp
  | cons y a ih => simp [ih]

/-- C37: `expand_dims` inserts exactly one unit axis and moves no element. -/
theorem C37_expand_dims {e : Strd} (he : e.WF) {axis : Nat} (ha : axis ≤ e.shape.length) :
    ∃ v, expandDims e axis = .ok v ∧ v.shape = toInts (e.shape.insertIdx axis 1) ∧
      ∀ p, InBounds e.shape p → InBounds (e.shape.insertIdx axis 1) (p.insertIdx axis 0) ∧
        v.index (toInts (p.insertIdx axis 0)) = e.index (toInts p) := by
  obtain ⟨pre, post, hsh, hpl⟩ : ∃ pre post, e.shape = pre ++ post ∧ pre.length = axis :=
    ⟨e.shape.take axis, e.shape.drop axis, (List.take_append_drop _ _).symm, by simp; omega⟩
  have hus : (List.replicate (e.shape.length + 1) USlice.all).set axis .newaxis =
      List.replicate pre.length .all ++ .newaxis :: List.replicate post.length .all := by
    rw [hsh, hpl, List.length_append, hpl, show axis + post.length + 1 = axis + 1 + post.length by omega, replicate_set]
  obtain ⟨a1, a2, a3⟩ := selIndex_all post
  obtain ⟨h1, h2, h3⟩ := sel_all_prefix pre (.newaxis :: List.replicate post.length .all) post
  have hv : SlicesValid (pre ++ post) (List.replicate pre.length .all ++ .newaxis :: List.replicate post.length .all) :=
    h2 (by simp only [SlicesValid]; exact a2)
  have hS : selShape (pre ++ post) (List.replicate pre.length .all ++ .newaxis :: List.replicate post.length .all) =
      (pre ++ post).insertIdx axis 1 := by
    rw [h1]
    simp only [selShape]
    rw [a1, ← hpl, insertIdx_append_at]
  unfold expandDims
  rw [if_neg (by omega), hus, hsh]
  obtain ⟨v, g1, g2, g3⟩ := stridedView_plain (off := e.offset) (l := e.layout) (st := e.strides) (by rw [he, hsh]) hv (by
    intro u hu
    simp only [List.mem_append, List.mem_replicate, List.mem_cons] at hu
    rcases hu with ⟨_, h⟩ | h | ⟨_, h⟩ <;> simp [h])
  rw [hS] at g2 g3
  refine ⟨v, g1, g2, fun p hp => ?_⟩
  obtain ⟨i, j, rfl, hil⟩ : ∃ i j, p = i ++ j ∧ i.length = pre.length :=
    ⟨p.take axis, p.drop axis, (List.take_append_drop _ _).symm, by
      have := hp.length_eq; simp at this; simp; omega⟩
  obtain ⟨hi, hj⟩ := (inBounds_append_iff hil).1 hp
  have hpi : (i ++ j).insertIdx axis 0 = i ++ 0 :: j := by
    rw [← hpl, ← hil, insertIdx_append_at]
  have hsi : (pre ++ post).insertIdx axis 1 = pre ++ 1 :: post := by
    rw [← hpl, insertIdx_append_at]
  have hb : InBounds ((pre ++ post).insertIdx axis 1) ((i ++ j).insertIdx axis 0) := by
    rw [hpi, hsi, inBounds_append_iff hil]
    exact ⟨hi, Nat.zero_lt_one, hj⟩
  refine ⟨hb, ?_⟩
  rw [(g3 _ hb).1, hpi, h3 i _ hi]
  simp only [selIndex]
  rw [a3 j hj, Strd.index_eq he (by rw [hsh]; exact hp), toInts_append]

/-- C37: an axis beyond the dimension is not checked by `expand_dims`. -/
theorem C37_expand_dims_unchecked {e : Strd} {axis : Nat} (ha : e.shape.length < axis) : expandDims e axis = .ub := by
  unfold expandDims
  rw [if_pos (by omega)]

theorem stridedView_wf {sh : List Nat} {st : List Int} {off : Int} {l : Layout} {us : List USlice} {v : SView}
    (h : stridedView sh st off l us = .ok v) : v.strides.length = v.shape.length := by
  simp only [stridedView, svFillArgs] at h
  cases hc : svCount ⟨sh.length, sh.length, 0, false⟩ us with
  | throws => simp [hc, Res.bind, Res.map] at h
  | ub => simp [hc, Res.bind, Res.map] at h
  | ok c =>
    simp only [hc, Res.bind, Res.map] at h
    by_cases h1 : c.check < 0
    · rw [if_pos h1] at h; cases h
    · rw [if_neg h1] at h
      generalize svLoop sh st _ 0 0 us = R at h
      cases R with
      | throws => simp at h
      | ub => simp at h
      | ok r =>
        simp only at h
        by_cases h2 : (r.2.length : Int) ≠ c.dimension
        · rw [if_pos h2] at h; cases h
        · rw [if_neg h2] at h
          simp only [Res.ok.injEq] at h
          subst h
          simp [svConstruct]

/-- A strided view as an argument of the functions of this file. -/
def SView.toStrd (v : SView) : Strd := ⟨v.shape.map Int.toNat, v.strides, v.offset, v.layout⟩

/-- C37: `expand_dims` followed by `squeeze` of the new axis gives back shape and elements (argument without
offset). -/
theorem C37_expand_then_squeeze {e : Strd} (he : e.WF) (h0 : e.offset = 0) {axis : Nat} (ha : axis ≤ e.shape.length) :
    ∃ v w, expandDims e axis = .ok v ∧ squeezeAxes v.toStrd [axis] = .ok w ∧ w.shape = e.shape ∧
      ∀ p, InBounds e.shape p → w.index (toInts p) = e.index (toInts p) := by
  obtain ⟨v, h1, h2, h3⟩ := C37_expand_dims he ha
  have hsv : v.toStrd.shape = e.shape.insertIdx axis 1 := by
    simp [SView.toStrd, h2, toInts, Function.comp_def]
  have hwf : v.toStrd.WF := by
    have : v.strides.length = v.shape.length := by
      unfold expandDims at h1
      rw [if_neg (by omega)] at h1
      exact stridedView_wf h1
    unfold Strd.WF SView.toStrd
    simpa using this
  have hlen : axis < (e.shape.insertIdx axis 1).length := by
    rw [List.length_insertIdx, if_pos ha]; omega
  have hdrop : ∀ (l : List Nat) (x : Nat), axis ≤ l.length → without [axis] (l.insertIdx axis x) = l := by
    have gen : ∀ (l : List Nat) (x a i : Nat), a ≤ l.length → dropAxes [i + a] none i (l.insertIdx a x) = l := by
      intro l x a
      induction a generalizing l with
      | zero =>
        intro i _
        rw [List.insertIdx_zero, dropAxes, if_pos (by simp)]
        have : ∀ (l : List Nat) (j : Nat), i < j → dropAxes [i + 0] none j l = l := by
          intro l
          induction l with
          | nil => intro _ _; rfl
          | cons y l ih => intro j hj; rw [dropAxes, if_neg (by simp; omega), ih (j + 1) (by omega)]
        exact this l (i + 1) (by omega)
      | succ a ih =>
        intro i h
        cases l with
        | nil => simp at h
        | cons y l =>
          rw [List.insertIdx_succ_cons, dropAxes, if_neg (by simp), show i + (a + 1) = i + 1 + a by omega,
            ih l (i + 1) (by simpa using h)]
    intro l x h
    have := gen l x axis 0 h
    rwa [Nat.zero_add] at this
  obtain ⟨w, g1, _, g3, g4, g5, _⟩ := C37_squeeze_axes_partial hwf (axes := [axis]) (by simp) (by
    intro a hm
    have : a = axis := by simpa using hm
    subst this
    rw [hsv]
    refine ⟨hlen, ?_⟩
    rw [List.getD_eq_getElem?_getD, List.getElem?_insertIdx_self]
    simp [ha])
  refine ⟨v, w, h1, g1, by rw [g4, hsv, hdrop _ _ ha], fun p hp => ?_⟩
  obtain ⟨hb, hi⟩ := h3 p hp
  have hpl := hp.length_eq
  have := (g5 _ (by rw [hsv]; exact hb)).2
  rw [hdrop _ _ (by omega)] at this
  have hvi : ∀ q, v.toStrd.index q = v.index q := fun q => rfl
  -- the offset of the expanded view, read off at the origin
  have hz : InBounds e.shape (List.replicate e.shape.length 0) := by
    rw [inBounds_iff_get] at hp ⊢
    refine ⟨by simp, fun k hk => ?_⟩
    have := hp.2 k hk
    simp [List.getD_eq_getElem?_getD, hk] at this ⊢
    omega
  obtain ⟨hb0, hi0⟩ := h3 _ hz
  have hdot0 : ∀ (st : List Int) (q : List Nat), (∀ x ∈ q, x = 0) → dot st (toInts q) = 0 := by
    intro st q
    induction q generalizing st with
    | nil => intro _; cases st <;> rfl
    | cons x q ih =>
      intro h
      cases st with
      | nil => rfl
      | cons s st =>
        rw [toInts_cons, dot_cons, h x (by simp), ih st fun y hy => h y (by simp [hy])]; simp
  have e1 : e.index (toInts (List.replicate e.shape.length 0)) = 0 := by
    rw [Strd.index_eq he hz, h0, hdot0 _ _ (by simp)]; rfl
  have e2 : v.toStrd.index (toInts ((List.replicate e.shape.length 0).insertIdx axis 0)) = v.toStrd.offset := by
    rw [Strd.index_eq hwf (by rw [hsv]; exact hb0), hdot0]
    · omega
    · intro x hx
      rw [List.mem_insertIdx (by simp; exact ha)] at hx
      rcases hx with h | h
      · exact h
      · simpa using (List.mem_replicate.1 h).2
  rw [this, hvi, hi]
  rw [hvi, hi0, e1] at e2
  omega

/-- C37: `atleast_Nd` adds unit axes at the front and at the back, and moves no element. -/
theorem C37_atleast {e : Strd} (he : e.WF) (N : Nat) :
    ∃ v lead trail, atleastNd N e = .ok v ∧ lead + trail = N - e.shape.length ∧
      (N = 1 → trail = 0) ∧ (N = 2 → e.shape.length ≠ 0 → trail = 0) ∧
      (N = 3 → lead = if e.shape.length < 2 then 1 else 0) ∧
      v.shape = toInts (List.replicate lead 1 ++ e.shape ++ List.replicate trail 1) ∧
      ∀ p, InBounds e.shape p →
        v.index (toInts (List.replicate lead 0 ++ p ++ List.replicate trail 0)) = e.index (toInts p) := by
  have key : ∀ lead trail : Nat, ∃ v, stridedView e.shape e.strides e.offset e.layout
      (List.replicate lead .newaxis ++ (List.replicate e.shape.length .all ++ (List.replicate trail .newaxis ++ []))) = .ok v ∧
      v.shape = toInts (List.replicate lead 1 ++ e.shape ++ List.replicate trail 1) ∧
      ∀ p, InBounds e.shape p →
        v.index (toInts (List.replicate lead 0 ++ p ++ List.replicate trail 0)) = e.index (toInts p) := by
    intro lead trail
    obtain ⟨a1, a2, a3⟩ := sel_new_prefix trail [] []
    obtain ⟨b1, b2, b3⟩ := sel_all_prefix e.shape (List.replicate trail .newaxis ++ []) []
    obtain ⟨c1, c2, c3⟩ := sel_new_prefix lead
      (List.replicate e.shape.length .all ++ (List.replicate trail .newaxis ++ [])) (e.shape ++ [])
    obtain ⟨v, g1, g2, g3⟩ := stridedView_plain (off := e.offset) (l := e.layout) he
      (by rw [← List.append_nil e.shape]; simpa using c2 (b2 (a2 trivial))) (us := List.replicate lead .newaxis ++
        (List.replicate e.shape.length .all ++ (List.replicate trail .newaxis ++ []))) (by
          intro u hu
          simp only [List.mem_append, List.mem_replicate] at hu
          rcases hu with ⟨_, h⟩ | ⟨_, h⟩ | ⟨_, h⟩ | h
          · simp [h]
          · simp [h]
          · simp [h]
          · simp at h)
    have hS : selShape e.shape (List.replicate lead .newaxis ++ (List.replicate e.shape.length .all ++
        (List.replicate trail .newaxis ++ []))) = List.replicate lead 1 ++ e.shape ++ List.replicate trail 1 := by
      rw [b1, a1] at c1
      simp only [List.append_nil, selShape] at c1 ⊢
      rw [c1, List.append_assoc]
    rw [hS] at g2 g3
    refine ⟨v, g1, g2, fun p hp => ?_⟩
    have hrep : ∀ m, InBounds (List.replicate m 1) (List.replicate m 0) := by
      intro m
      induction m with
      | zero => trivial
      | succ m ih => exact ⟨Nat.zero_lt_one, ih⟩
    have hb : InBounds (List.replicate lead 1 ++ e.shape ++ List.replicate trail 1)
        (List.replicate lead 0 ++ p ++ List.replicate trail 0) := by
      rw [inBounds_append_iff (by simp [hp.length_eq]), inBounds_append_iff (by simp)]
      exact ⟨⟨hrep _, hp⟩, hrep _⟩
    rw [(g3 _ hb).1, Strd.index_eq he hp, List.append_assoc]
    have c4 := c3 (p ++ List.replicate trail 0)
    have b4 := b3 p (List.replicate trail 0) hp
    have a4 := a3 []
    simp only [List.append_nil] at c4 b4 a4 ⊢
    rw [c4, b4, a4]
    simp [selIndex, toInts]
  by_cases hN : e.shape.length < N
  · obtain ⟨v, h1, h2, h3⟩ := key (atleastLead N e.shape.length) (N - e.shape.length - atleastLead N e.shape.length)
    refine ⟨v, _, _, ?_, ?_, ?_, ?_, ?_, h2, h3⟩
    · unfold atleastNd atleastSlices
      rw [if_pos hN]
      simpa using h1
    · unfold atleastLead; split <;> omega
    · intro h; unfold atleastLead; split <;> omega
    · intro h _; unfold atleastLead; split <;> omega
    · intro h; unfold atleastLead; split <;> split <;> omega
  · obtain ⟨v, h1, h2, h3⟩ := key 0 0
    refine ⟨v, 0, 0, ?_, by omega, by omega, by omega, ?_, h2, h3⟩
    · unfold atleastNd atleastSlices
      rw [if_neg hN]
      simpa using h1
    · intro h; rw [if_neg (by omega)]

/-! ### C55: split -/

theorem filter_lt_range (n k : Nat) : (List.range n).filter (fun m => decide (m < k)) = List.range (min n k) := by
  induction n with
  | zero => simp
  | succ n ih =>
    rw [List.range_succ, List.filter_append, ih]
    by_cases h : n < k
    · rw [show min (n + 1) k = min n k + 1 by omega, List.range_succ]
      simp [h]; omega
    · rw [show min (n + 1) k = min n k by omega]
      simp [h]

theorem pySlice_segment {n a b : Nat} (hab : a ≤ b) (hb : b ≤ n) :
    pySlice n (some (a : Int)) (some (b : Int)) 1 = (List.range (b - a)).map fun m => ((a + m : Nat) : Int) := by
  have hs : pyStart n 1 (some (a : Int)) = a := by simp [pyStart, pyClip]; omega
  have ht : pyStop n 1 (some (b : Int)) = b := by simp [pyStop, pyClip]; omega
  unfold pySlice
  rw [hs, ht, List.filter_map]
  have e : ((fun x : Int => if (0 : Int) < 1 then decide (x < b) else decide ((b : Int) < x)) ∘
      fun (m : Nat) => (a : Int) + m * 1) = fun m => decide (m < b - a) := by
    funext m
    simp only [Function.comp, Int.zero_lt_one, if_true, Int.mul_one]
    apply decide_eq_decide.2
    omega
  rw [e, filter_lt_range, Nat.min_eq_right (by omega)]
  apply List.map_congr_left
  intro m _
  omega

/-- C55: `split` cuts an axis into `n` consecutive equal pieces: piece `i` shows the elements whose coordinate
lies in `[i * step, (i + 1) * step)`. -/
theorem C55_split {e : Strd} (he : e.WF) {n axis : Nat} (ha : axis < e.shape.length) (hn : 0 < n) {step : Nat}
    (hst : e.shape.getD axis 0 = n * step) :
    ∃ vs, split e n axis = .ok vs ∧ vs.length = n ∧ ∀ i, i < n → ∃ v, vs[i]? = some (.ok v) ∧
      v.shape = toInts (e.shape.set axis step) ∧
      ∀ q, InBounds (e.shape.set axis step) q →
        InBounds e.shape (q.set axis (i * step + q.getD axis 0)) ∧
        v.index (toInts q) = e.index (toInts (q.set axis (i * step + q.getD axis 0))) := by
  unfold split
  rw [if_neg (by omega), if_neg (by omega), hst]
  simp only [Nat.mul_mod_right, ne_eq, not_true_eq_false, if_false, Nat.mul_div_cancel_left _ hn]
  refine ⟨_, rfl, by simp, fun i hi => ?_⟩
  obtain ⟨pre, m, post, hsh, hpl⟩ := split_at ha
  have hm : m = n * step := by
    rw [hsh, ← hpl, List.getD_eq_getElem?_getD] at hst
    simpa using hst
  have h1 : i * step ≤ (i + 1) * step := Nat.mul_le_mul_right _ (by omega)
  have h2 : (i + 1) * step ≤ m := by rw [hm]; exact Nat.mul_le_mul_right _ hi
  have h3 : (i + 1) * step - i * step = step := by rw [Nat.succ_mul]; omega
  have hus : (List.replicate e.shape.length USlice.all).set axis
      (.range (some ((i * step : Nat) : Int)) (some (((i + 1) * step : Nat) : Int)) none) =
      List.replicate pre.length .all ++ USlice.range (some ((i * step : Nat) : Int)) (some (((i + 1) * step : Nat) : Int)) none ::
        List.replicate post.length .all := by
    rw [hsh, ← hpl, List.length_append, List.length_cons,
      show pre.length + (post.length + 1) = pre.length + 1 + post.length by omega, replicate_set]
  have hsel : axisSel m (.range (some ((i * step : Nat) : Int)) (some (((i + 1) * step : Nat) : Int)) none) =
      (List.range step).map fun k => ((i * step + k : Nat) : Int) := by
    simp only [axisSel, Option.getD_none]
    rw [pySlice_segment h1 h2, h3]
  obtain ⟨a1, a2, a3⟩ := selIndex_all post
  obtain ⟨b1, b2, b3⟩ := sel_all_prefix pre (USlice.range (some ((i * step : Nat) : Int)) (some (((i + 1) * step : Nat) : Int)) none ::
    List.replicate post.length .all) (m :: post)
  have hS : selShape e.shape (List.replicate pre.length .all ++ USlice.range (some ((i * step : Nat) : Int))
      (some (((i + 1) * step : Nat) : Int)) none :: List.replicate post.length .all) = e.shape.set axis step := by
    rw [hsh, b1, ← hpl]
    simp only [selShape]
    rw [a1, hsel]
    simp
  obtain ⟨v, g1, g2, g3⟩ := stridedView_plain (off := e.offset) (l := e.layout) he
    (us := List.replicate pre.length .all ++ USlice.range (some ((i * step : Nat) : Int))
      (some (((i + 1) * step : Nat) : Int)) none :: List.replicate post.length .all)
    (by rw [hsh]; exact b2 ⟨trivial, a2⟩) (by
      intro u hu
      simp only [List.mem_append, List.mem_replicate, List.mem_cons] at hu
      rcases hu with ⟨_, h⟩ | h | ⟨_, h⟩
      · simp [h]
      · right; right; exact ⟨_, _, _, h⟩
      · simp [h])
  rw [hS] at g2 g3
  refine ⟨v, ?_, g2, fun q hq => ?_⟩
  · rw [List.getElem?_map, List.getElem?_range hi, Option.map_some, hus, g1]
  · obtain ⟨pidx, hp, hpe⟩ := (g3 q hq).2
    have hq' := hq
    rw [hsh, ← hpl, List.set_append_right _ _ (le_refl _), Nat.sub_self, List.set_cons_zero] at hq'
    obtain ⟨c, d, rfl, hcl⟩ : ∃ c d, q = c ++ d ∧ c.length = pre.length :=
      ⟨q.take axis, q.drop axis, (List.take_append_drop _ _).symm, by
        have := hq'.length_eq; simp at this; simp; omega⟩
    obtain ⟨hc, hd⟩ := (inBounds_append_iff hcl).1 hq'
    cases d with
    | nil => exact hd.elim
    | cons x d =>
      have hidx : selIndex e.shape (List.replicate pre.length .all ++ USlice.range (some ((i * step : Nat) : Int))
          (some (((i + 1) * step : Nat) : Int)) none :: List.replicate post.length .all) (c ++ x :: d) =
          toInts ((c ++ x :: d).set axis (i * step + (c ++ x :: d).getD axis 0)) := by
        have hgd : (c ++ x :: d).getD axis 0 = x := by
          rw [← hpl, ← hcl, List.getD_eq_getElem?_getD]; simp
        rw [hgd, ← hpl, ← hcl, List.set_append_right _ _ (le_refl _), Nat.sub_self, List.set_cons_zero, hcl, hsh, b3 c _ hc]
        simp only [selIndex, toInts_append, toInts_cons]
        rw [a3 d hd.2, hsel]
        congr 2
        have := hd.1
        simp [List.getD_eq_getElem?_getD, this]
      rw [hidx] at hpe
      have hpp := toInts_injective hpe
      refine ⟨by rw [hpp]; exact hp, ?_⟩
      rw [(g3 _ hq).1, hidx, Strd.index_eq he (by rw [hpp]; exact hp)]

/-- C55: every element of the argument is in exactly one piece, at exactly one place. -/
theorem C55_split_partition {sh : List Nat} {n axis step : Nat} (ha : axis < sh.length) (hst : sh.getD axis 0 = n * step)
    {p : List Nat} (hp : InBounds sh p) :
    ∃ i q, (i < n ∧ InBounds (sh.set axis step) q ∧ q.set axis (i * step + q.getD axis 0) = p) ∧
      ∀ i' q', i' < n → InBounds (sh.set axis step) q' → q'.set axis (i' * step + q'.getD axis 0) = p → i' = i ∧ q' = q := by
  have hl := hp.length_eq
  have hpa := (inBounds_iff_get.1 hp).2 axis ha
  rw [hst] at hpa
  have hs : 0 < step := by
    rcases Nat.eq_zero_or_pos step with h | h
    · subst h; simp at hpa
    · exact h
  refine ⟨p.getD axis 0 / step, p.set axis (p.getD axis 0 % step), ⟨?_, ?_, ?_⟩, ?_⟩
  · exact Nat.div_lt_of_lt_mul (by rwa [Nat.mul_comm] at hpa)
  · rw [inBounds_iff_get] at hp ⊢
    refine ⟨by simp [hl], fun k hk => ?_⟩
    rw [getD_set_nat (by omega), getD_set_nat ha]
    split
    · exact Nat.mod_lt _ hs
    · exact hp.2 k (by simpa using hk)
  · rw [getD_set_nat (by omega), if_pos rfl, List.set_set, Nat.mul_comm, Nat.div_add_mod]
    apply ext_getD (by simp)
    intro k _
    rw [getD_set_nat (by omega)]
    split
    · next h => rw [h]
    · rfl
  · intro i' q' hi' hq' he
    have hl' : q'.length = sh.length := by rw [hq'.length_eq]; simp
    have hqa := (inBounds_iff_get.1 hq').2 axis (by simpa using ha)
    rw [getD_set_nat ha, if_pos rfl] at hqa
    have hpx : p.getD axis 0 = i' * step + q'.getD axis 0 := by
      rw [← he, getD_set_nat (by omega), if_pos rfl]
    have hdiv : p.getD axis 0 / step = i' := by
      rw [hpx, Nat.mul_comm, Nat.mul_add_div hs, Nat.div_eq_of_lt hqa]; rfl
    have hmod : p.getD axis 0 % step = q'.getD axis 0 := by
      rw [hpx, Nat.mul_comm, Nat.mul_add_mod, Nat.mod_eq_of_lt hqa]
    refine ⟨hdiv.symm, ?_⟩
    rw [hmod, ← he, List.set_set]
    apply ext_getD (by simp)
    intro k _
    rw [getD_set_nat (by omega)]
    split
    · next h => rw [h]
    · rfl

/-- C55: an axis whose extent is not a multiple of the number of pieces, or that does not exist, is rejected;
no pieces at all divides by zero. -/
theorem C55_split_errors (e : Strd) (n axis : Nat) :
    (e.shape.length ≤ axis → split e n axis = .throws) ∧
    (axis < e.shape.length → n ≠ 0 → e.shape.getD axis 0 % n ≠ 0 → split e n axis = .throws) ∧
    (axis < e.shape.length → split e 0 axis = .ub) := by
  refine ⟨fun h => ?_, fun h1 h2 h3 => ?_, fun h => ?_⟩
  · unfold split; rw [if_pos (by omega)]
  · unfold split; rw [if_neg (by omega), if_neg h2]; simp only; rw [if_pos h3]
  · unfold split; rw [if_neg (by omega), if_pos rfl]

example : split ⟨[2, 4], [4, 1], 0, .row_major⟩ 2 1 =
    .ok [.ok ⟨[2, 2], [4, 1], 0, .dynamic⟩, .ok ⟨[2, 2], [4, 1], 2, .dynamic⟩] := by decide
example : squeezeAxes ⟨[1, 3, 1], [0, 1, 0], 0, .row_major⟩ [0] = .ok ⟨[3, 1], [1, 0], 0, .row_major⟩ ∧
    squeezeAll ⟨[1, 3, 1], [0, 1, 0], 0, .row_major⟩ = .ok ⟨[3], [1], 0, .row_major⟩ ∧
    without [0] [1, 3, 1] = [3, 1] ∧ dropUnit [1, 3, 1] [0, 2, 0] = [2] := by decide
example : expandDims ⟨[2, 3], [3, 1], 0, .row_major⟩ 1 = .ok ⟨[2, 1, 3], [3, 0, 1], 0, .row_major⟩ ∧
    atleastNd 3 ⟨[4], [1], 0, .row_major⟩ = .ok ⟨[1, 4, 1], [0, 1, 0], 0, .row_major⟩ := by decide

end Xt
