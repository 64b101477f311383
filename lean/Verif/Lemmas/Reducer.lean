import Verif.Model.Reducer
import Verif.Spec.Reducer
import Verif.Props.ExprIter
/-!
# Lemmas on reductions
-/

namespace Xt
open Spec

/-! ### Splitting indices into reduced and kept coordinates -/

/-- Positions of the entries kept by `dropAxes`. -/
def redPositions (axes : List Nat) (keep : Bool) : Nat → Nat → List Nat
  | _, 0 => []
  | p, n + 1 =>
    if p ∈ axes ∧ keep = false then redPositions axes keep (p + 1) n
    else p :: redPositions axes keep (p + 1) n

/-- Index of the input with the given kept coordinates and 0 on the reduced axes. -/
def embed (axes : List Nat) (keep : Bool) : Nat → Nat → List Nat → List Nat
  | _, 0, _ => []
  | p, n + 1, r =>
    if p ∈ axes then 0 :: embed axes keep (p + 1) n (if keep then r.tail else r)
    else r.headD 0 :: embed axes keep (p + 1) n r.tail

/-- Shape of the input with the kept extents replaced. -/
def expandShape (axes : List Nat) (keep : Bool) : Nat → List Nat → List Nat → List Nat
  | _, [], _ => []
  | p, s :: sh, r =>
    if p ∈ axes then s :: expandShape axes keep (p + 1) sh (if keep then r.tail else r)
    else r.headD 0 :: expandShape axes keep (p + 1) sh r.tail

/-- The indices with the given kept coordinates, in row-major order. -/
def redVisit (axes : List Nat) (keep : Bool) : Nat → List Nat → List Nat → List (List Nat)
  | _, [], _ => [[]]
  | p, s :: sh, r =>
    if p ∈ axes then
      (List.range s).flatMap fun i =>
        (redVisit axes keep (p + 1) sh (if keep then r.tail else r)).map (i :: ·)
    else (redVisit axes keep (p + 1) sh r.tail).map (r.headD 0 :: ·)

section
variable {axes : List Nat} {keep : Bool}

theorem length_embed : ∀ (n p : Nat) (r : List Nat), (embed axes keep p n r).length = n
  | 0, _, _ => rfl
  | n + 1, p, r => by unfold embed; split <;> simp [length_embed n]

theorem length_expandShape : ∀ (sh : List Nat) (p : Nat) (r : List Nat),
    (expandShape axes keep p sh r).length = sh.length
  | [], _, _ => rfl
  | s :: sh, p, r => by unfold expandShape; split <;> simp [length_expandShape sh]

theorem length_dropAxes {fill : Option Nat} (hk : fill.isSome = keep) : ∀ (l : List Nat) (p : Nat),
    (dropAxes axes fill p l).length = (redPositions axes keep p l.length).length
  | [], _ => rfl
  | i :: is, p => by
    have ih := length_dropAxes hk is (p + 1)
    cases fill <;> simp at hk <;> subst hk <;>
      by_cases hp : p ∈ axes <;> simp [dropAxes, redPositions, hp, ih]

theorem le_of_mem_redPositions : ∀ (n p k : Nat), k ∈ redPositions axes keep p n → p ≤ k ∧ k < p + n
  | 0, _, _, h => by simp [redPositions] at h
  | n + 1, p, k, h => by
    unfold redPositions at h
    split at h
    · have := le_of_mem_redPositions n (p + 1) k h; omega
    · rcases List.mem_cons.1 h with h | h
      · omega
      · have := le_of_mem_redPositions n (p + 1) k h; omega

theorem embed_set {v : Nat} : ∀ (keep : Bool) (n p : Nat) (r : List Nat) (j k : Nat),
    (redPositions axes keep p n)[j]? = some k → k ∉ axes →
    r.length = (redPositions axes keep p n).length →
    embed axes keep p n (r.set j v) = (embed axes keep p n r).set (k - p) v
  | keep, 0, _, _, _, _, h, _, _ => by simp [redPositions] at h
  | keep, n + 1, p, r, j, k, h, hk, hl => by
    have hkp : p ≤ k := (le_of_mem_redPositions (n + 1) p k (List.mem_of_getElem? h)).1
    unfold redPositions at h hl
    unfold embed
    by_cases hp : p ∈ axes
    · rw [if_pos hp, if_pos hp]
      have hne : p ≠ k := fun e => hk (e ▸ hp)
      have e2 : k - p = (k - (p + 1)) + 1 := by omega
      rw [e2, List.set_cons_succ]
      congr 1
      cases keep with
      | false =>
        rw [if_pos ⟨hp, rfl⟩] at h hl
        simp only [Bool.false_eq_true, if_false]
        exact embed_set _ n (p + 1) r j k h hk hl
      | true =>
        rw [if_neg (by simp)] at h hl
        simp only [if_true]
        cases j with
        | zero => simp at h; exact absurd h hne
        | succ j =>
          cases r with
          | nil => simp at hl
          | cons x r =>
            simp only [List.set_cons_succ, List.tail_cons]
            exact embed_set _ n (p + 1) r j k (by simpa using h) hk (by simpa using hl)
    · rw [if_neg hp, if_neg hp]
      rw [if_neg (fun e => hp e.1)] at h hl
      cases r with
      | nil => simp at hl
      | cons x r =>
        cases j with
        | zero =>
          simp only [List.getElem?_cons_zero, Option.some.injEq] at h
          subst h
          simp
        | succ j =>
          have h' : (redPositions axes keep (p + 1) n)[j]? = some k := by simpa using h
          have := (le_of_mem_redPositions n (p + 1) k (List.mem_of_getElem? h')).1
          have e2 : k - p = (k - (p + 1)) + 1 := by omega
          rw [e2]
          simp only [List.set_cons_succ, List.tail_cons, List.headD_cons]
          congr 1
          exact embed_set _ n (p + 1) r j k h' hk (by simpa using hl)

theorem embed_axis : ∀ (n p : Nat) (r : List Nat) (a : Nat), p ≤ a → a ∈ axes →
    (embed axes keep p n r).getD (a - p) 0 = 0
  | 0, _, _, _, _, _ => by simp [embed]
  | n + 1, p, r, a, h, ha => by
    unfold embed
    by_cases e : p = a
    · subst e; rw [if_pos ha]; simp
    · have e2 : a - p = (a - (p + 1)) + 1 := by omega
      rw [e2]
      split
      · rw [List.getD_cons_succ]; exact embed_axis n (p + 1) _ a (by omega) ha
      · rw [List.getD_cons_succ]; exact embed_axis n (p + 1) _ a (by omega) ha

theorem embed_kept : ∀ (keep : Bool) (n p : Nat) (r : List Nat) (j k : Nat),
    (redPositions axes keep p n)[j]? = some k → k ∉ axes →
    (embed axes keep p n r).getD (k - p) 0 = r.getD j 0
  | keep, 0, _, _, _, _, h, _ => by simp [redPositions] at h
  | keep, n + 1, p, r, j, k, h, hk => by
    have hkp : p ≤ k := (le_of_mem_redPositions (n + 1) p k (List.mem_of_getElem? h)).1
    unfold redPositions at h
    unfold embed
    by_cases hp : p ∈ axes
    · rw [if_pos hp]
      have hne : p ≠ k := fun e => hk (e ▸ hp)
      have e2 : k - p = (k - (p + 1)) + 1 := by omega
      rw [e2, List.getD_cons_succ]
      cases keep with
      | false =>
        rw [if_pos ⟨hp, rfl⟩] at h
        simp only [Bool.false_eq_true, if_false]
        exact embed_kept _ n (p + 1) r j k h hk
      | true =>
        rw [if_neg (by simp)] at h
        simp only [if_true]
        cases j with
        | zero => simp at h; exact absurd h hne
        | succ j =>
          rw [embed_kept _ n (p + 1) r.tail j k (by simpa using h) hk]
          cases r <;> simp
    · rw [if_neg hp]
      rw [if_neg (fun e => hp e.1)] at h
      cases j with
      | zero =>
        simp only [List.getElem?_cons_zero, Option.some.injEq] at h
        subst h
        cases r <;> simp
      | succ j =>
        have h' : (redPositions axes keep (p + 1) n)[j]? = some k := by simpa using h
        have := (le_of_mem_redPositions n (p + 1) k (List.mem_of_getElem? h')).1
        have e2 : k - p = (k - (p + 1)) + 1 := by omega
        rw [e2, List.getD_cons_succ, embed_kept _ n (p + 1) r.tail j k h' hk]
        cases r <;> simp

theorem expandShape_kept : ∀ (keep : Bool) (sh : List Nat) (p : Nat) (r : List Nat) (j k : Nat),
    (redPositions axes keep p sh.length)[j]? = some k → k ∉ axes →
    (expandShape axes keep p sh r).getD (k - p) 0 = r.getD j 0
  | keep, [], _, _, _, _, h, _ => by simp [redPositions] at h
  | keep, s :: sh, p, r, j, k, h, hk => by
    have hkp : p ≤ k := (le_of_mem_redPositions (sh.length + 1) p k (List.mem_of_getElem? h)).1
    rw [List.length_cons] at h
    unfold redPositions at h
    unfold expandShape
    by_cases hp : p ∈ axes
    · rw [if_pos hp]
      have hne : p ≠ k := fun e => hk (e ▸ hp)
      have e2 : k - p = (k - (p + 1)) + 1 := by omega
      rw [e2, List.getD_cons_succ]
      cases keep with
      | false =>
        rw [if_pos ⟨hp, rfl⟩] at h
        simp only [Bool.false_eq_true, if_false]
        exact expandShape_kept _ sh (p + 1) r j k h hk
      | true =>
        rw [if_neg (by simp)] at h
        simp only [if_true]
        cases j with
        | zero => simp at h; exact absurd h hne
        | succ j =>
          rw [expandShape_kept _ sh (p + 1) r.tail j k (by simpa using h) hk]
          cases r <;> simp
    · rw [if_neg hp]
      rw [if_neg (fun e => hp e.1)] at h
      cases j with
      | zero =>
        simp only [List.getElem?_cons_zero, Option.some.injEq] at h
        subst h
        cases r <;> simp
      | succ j =>
        have h' : (redPositions axes keep (p + 1) sh.length)[j]? = some k := by simpa using h
        have := (le_of_mem_redPositions sh.length (p + 1) k (List.mem_of_getElem? h')).1
        have e2 : k - p = (k - (p + 1)) + 1 := by omega
        rw [e2, List.getD_cons_succ, expandShape_kept _ sh (p + 1) r.tail j k h' hk]
        cases r <;> simp

theorem expandShape_axis : ∀ (sh : List Nat) (p : Nat) (r : List Nat) (a : Nat), p ≤ a → a ∈ axes →
    (expandShape axes keep p sh r).getD (a - p) 0 = sh.getD (a - p) 0
  | [], _, _, _, _, _ => by simp [expandShape]
  | s :: sh, p, r, a, h, ha => by
    unfold expandShape
    by_cases e : p = a
    · subst e; rw [if_pos ha]; simp
    · have e2 : a - p = (a - (p + 1)) + 1 := by omega
      rw [e2]
      split
      · rw [List.getD_cons_succ, List.getD_cons_succ]
        exact expandShape_axis sh (p + 1) _ a (by omega) ha
      · rw [List.getD_cons_succ, List.getD_cons_succ]
        exact expandShape_axis sh (p + 1) _ a (by omega) ha

/-- Extents of the input and of the expanded shape, when the reduced shape broadcasts entrywise. -/
theorem expandShape_bc : ∀ (keep : Bool) (sh : List Nat) (p : Nat) (r : List Nat),
    List.Forall₂ (fun a b => a = 1 ∨ a = b) (dropAxes axes (if keep then some 1 else none) p sh) r →
    List.Forall₂ (fun a b => a = 1 ∨ a = b) sh (expandShape axes keep p sh r)
  | keep, [], _, _, _ => .nil
  | keep, s :: sh, p, r, h => by
    unfold dropAxes at h
    unfold expandShape
    by_cases hp : p ∈ axes
    · rw [if_pos hp] at h ⊢
      cases keep with
      | false => exact .cons (Or.inr rfl) (expandShape_bc _ sh (p + 1) r h)
      | true =>
        cases h with
        | cons h1 h2 => exact .cons (Or.inr rfl) (expandShape_bc _ sh (p + 1) _ h2)
    · rw [if_neg hp] at h ⊢
      cases h with
      | cons h1 h2 => exact .cons h1 (expandShape_bc _ sh (p + 1) _ h2)

/-- The embedded index lies in the expanded shape, when the reduced extents are positive. -/
theorem embed_inBounds : ∀ (keep : Bool) (sh : List Nat) (p : Nat) (o r : List Nat),
    (∀ k, p ≤ k → k < p + sh.length → k ∈ axes → 0 < sh.getD (k - p) 0) →
    InBounds o r → o.length = (redPositions axes keep p sh.length).length →
    InBounds (expandShape axes keep p sh o) (embed axes keep p sh.length r)
  | keep, [], _, _, _, _, _, _ => by simp [expandShape, embed, InBounds]
  | keep, s :: sh, p, o, r, hpos, h, hl => by
    have hpos' : ∀ k, p + 1 ≤ k → k < p + 1 + sh.length → k ∈ axes → 0 < sh.getD (k - (p + 1)) 0 := by
      intro k h1 h2 h3
      have := hpos k (by omega) (by simp only [List.length_cons]; omega) h3
      rwa [show k - p = (k - (p + 1)) + 1 by omega, List.getD_cons_succ] at this
    rw [List.length_cons] at hl
    rw [List.length_cons]
    unfold redPositions at hl
    unfold expandShape embed
    by_cases hp : p ∈ axes
    · rw [if_pos hp, if_pos hp]
      refine ⟨by simpa using hpos p (le_refl _) (by simp) hp, ?_⟩
      cases keep with
      | false =>
        rw [if_pos ⟨hp, rfl⟩] at hl
        exact embed_inBounds _ sh (p + 1) o r hpos' h hl
      | true =>
        rw [if_neg (by simp)] at hl
        match o, r, h with
        | [], _, _ => simp at hl
        | _ :: o, x :: r, h => exact embed_inBounds _ sh (p + 1) o r hpos' h.2 (by simpa using hl)
    · rw [if_neg hp, if_neg hp]
      rw [if_neg (fun e => hp e.1)] at hl
      match o, r, h with
      | [], _, _ => simp at hl
      | _ :: o, x :: r, h =>
        exact ⟨by simpa using h.1, embed_inBounds _ sh (p + 1) o r hpos' h.2 (by simpa using hl)⟩

theorem flatMap_range_ite {γ : Type} {x s : Nat} (hx : x < s) (l : List γ) :
    ((List.range s).flatMap fun i => if i = x then l else []) = l := by
  induction s with
  | zero => omega
  | succ n ih =>
    rw [List.range_succ, List.flatMap_append]
    simp only [List.flatMap_cons, List.flatMap_nil, List.append_nil]
    by_cases hxn : x < n
    · rw [ih hxn, if_neg (by omega), List.append_nil]
    · have : x = n := by omega
      subst this
      rw [if_pos rfl]
      have hnil : ((List.range x).flatMap fun i => if i = x then l else []) = [] := by
        rw [List.flatMap_eq_nil_iff]
        intro i hi
        have := List.mem_range.1 hi
        rw [if_neg (by omega)]
      rw [hnil, List.nil_append]

/-- The indices contributing to an element. -/
theorem redVisit_eq : ∀ (keep : Bool) (sh : List Nat) (p : Nat) (r : List Nat),
    InBounds (dropAxes axes (if keep then some 1 else none) p sh) r →
    (rowIndices sh).filter (fun idx => dropAxes axes (if keep then some 0 else none) p idx = r) =
      redVisit axes keep p sh r
  | keep, [], p, r, h => by
    cases r with
    | nil => simp [rowIndices, dropAxes, redVisit]
    | cons x r => simp [dropAxes, InBounds] at h
  | keep, s :: sh, p, r, h => by
    unfold dropAxes at h
    unfold redVisit rowIndices
    rw [List.filter_flatMap]
    by_cases hp : p ∈ axes
    · rw [if_pos hp] at h ⊢
      cases keep with
      | false =>
        have ih := redVisit_eq _ sh (p + 1) r h
        simp only [Bool.false_eq_true, if_false] at ih ⊢
        congr 1
        funext i
        rw [← ih, List.filter_map]
        congr 1
        apply List.filter_congr
        intro x _
        simp [dropAxes, hp]
      | true =>
        match r, h with
        | x :: r, h =>
          have ih := redVisit_eq _ sh (p + 1) r h.2
          have hx : x = 0 := by have := h.1; omega
          subst hx
          simp only [if_true, List.tail_cons] at ih ⊢
          congr 1
          funext i
          rw [← ih, List.filter_map]
          congr 1
          apply List.filter_congr
          intro x _
          simp [dropAxes, hp]
    · rw [if_neg hp] at h ⊢
      match r, h with
      | x :: r, h =>
        have ih := redVisit_eq _ sh (p + 1) r h.2
        have hx : x < s := h.1
        simp only [List.headD_cons, List.tail_cons]
        have key : ∀ i, ((rowIndices sh).map (i :: ·)).filter (fun idx =>
            dropAxes axes (if keep then some 0 else none) p idx = x :: r) =
            if i = x then (redVisit axes keep (p + 1) sh r).map (x :: ·) else [] := by
          intro i
          rw [List.filter_map]
          by_cases hi : i = x
          · subst hi
            rw [if_pos rfl, ← ih]
            congr 1
            apply List.filter_congr
            intro y _
            simp [dropAxes, hp]
          · rw [if_neg hi]
            simp only [List.map_eq_nil_iff, List.filter_eq_nil_iff]
            intro y _
            simp [dropAxes, hp, hi]
        simp only [key]
        exact flatMap_range_ite hx _

/-- Broadcasting the kept coordinates. -/
theorem redVisit_bc : ∀ (keep : Bool) (sh : List Nat) (p : Nat) (r : List Nat),
    r.length = (redPositions axes keep p sh.length).length →
    (redVisit axes keep p sh r).map
        (fun idx => List.zipWith (fun n i => if n = 1 then 0 else i) sh idx) =
      redVisit axes keep p sh (List.zipWith (fun n i => if n = 1 then 0 else i)
        (dropAxes axes (if keep then some 1 else none) p sh) r)
  | keep, [], p, r, h => by simp [redVisit]
  | keep, s :: sh, p, r, h => by
    rw [List.length_cons] at h
    unfold redPositions at h
    unfold redVisit dropAxes
    by_cases hp : p ∈ axes
    · simp only [if_pos hp]
      rw [List.map_flatMap]
      apply List.flatMap_congr
      intro i hi
      have hi := List.mem_range.1 hi
      rw [List.map_map]
      have hz : (if s = 1 then 0 else i) = i := by split <;> omega
      cases keep with
      | false =>
        rw [if_pos ⟨hp, rfl⟩] at h
        have ih := redVisit_bc _ sh (p + 1) r h
        simp only [Bool.false_eq_true, if_false] at ih ⊢
        rw [← ih, List.map_map]
        apply List.map_congr_left
        intro x _
        simp [hz]
      | true =>
        rw [if_neg (by simp)] at h
        cases r with
        | nil => simp at h
        | cons x r =>
          have ih := redVisit_bc _ sh (p + 1) r (by simpa using h)
          simp only [if_true, List.tail_cons, List.zipWith_cons_cons] at ih ⊢
          rw [← ih, List.map_map]
          apply List.map_congr_left
          intro x _
          simp [hz]
    · simp only [if_neg hp]
      rw [if_neg (fun e => hp e.1)] at h
      cases r with
      | nil => simp at h
      | cons x r =>
        have ih := redVisit_bc _ sh (p + 1) r (by simpa using h)
        simp only [List.tail_cons, List.headD_cons, List.zipWith_cons_cons] at ih ⊢
        rw [← ih, List.map_map, List.map_map]
        apply List.map_congr_left
        intro y _
        simp

/-! ### The order in which `aggregate_impl` visits the elements -/

/-- Nested loops over the listed axes, the first one outermost, changing the coordinates of `base`. -/
def nestVisit (sh : List Nat) : List Nat → List Nat → List (List Nat)
  | [], base => [base]
  | a :: as, base => (List.range (sh.getD a 0)).flatMap fun i => nestVisit sh as (base.set a i)

theorem nestVisit_eq : ∀ (sh psh pre : List Nat) (r as : List Nat), pre.length = psh.length →
    as.Pairwise (· < ·) → (∀ a ∈ as, psh.length ≤ a ∧ a < psh.length + sh.length) →
    (∀ a, psh.length ≤ a → (a ∈ axes ↔ a ∈ as)) →
    nestVisit (psh ++ sh) as (pre ++ embed axes keep psh.length sh.length r) =
      (redVisit axes keep psh.length sh r).map (pre ++ ·)
  | [], psh, pre, r, as, hl, hs, hb, hm => by
    have : as = [] := by
      cases as with
      | nil => rfl
      | cons a as => have := hb a (by simp); simp at this; omega
    subst this
    simp [nestVisit, redVisit, embed]
  | s :: sh, psh, pre, r, as, hl, hs, hb, hm => by
    have e1 : psh ++ s :: sh = (psh ++ [s]) ++ sh := by simp
    have e2 : psh.length + 1 = (psh ++ [s]).length := by simp
    by_cases hp : psh.length ∈ axes
    · cases as with
      | nil => exact absurd ((hm _ (le_refl _)).1 hp) (by simp)
      | cons a as =>
        have ha : a = psh.length := by
          have h1 := (hm _ (le_refl _)).1 hp
          have h2 := (hb a (by simp)).1
          rcases List.mem_cons.1 h1 with h | h
          · exact h.symm
          · have := (List.pairwise_cons.1 hs).1 _ h; omega
        subst ha
        unfold nestVisit redVisit
        rw [if_pos hp, List.map_flatMap]
        have : (psh ++ s :: sh).getD psh.length 0 = s := by simp [List.getD_eq_getElem?_getD]
        rw [this]
        congr 1
        funext i
        rw [List.length_cons]
        unfold embed
        rw [if_pos hp, ← hl, List.set_append_right _ _ (le_refl _), Nat.sub_self, List.set_cons_zero,
          hl, List.map_map, e1]
        have ih := nestVisit_eq sh (psh ++ [s]) (pre ++ [i]) (if keep then r.tail else r) as
          (by simp [hl]) (List.pairwise_cons.1 hs).2
          (fun a h => by
            have h1 := (List.pairwise_cons.1 hs).1 a h
            have h2 := (hb a (by simp [h])).2
            simp at h2 ⊢; omega)
          (fun a h => by
            simp at h
            rw [hm a (by omega), List.mem_cons]
            constructor
            · rintro (h1 | h1)
              · omega
              · exact h1
            · exact Or.inr)
        rw [List.append_assoc] at ih
        rw [e2]
        rw [← List.append_assoc] at ih
        simp only [List.append_assoc, List.cons_append, List.nil_append] at ih
        simp only [List.append_assoc, List.cons_append, List.nil_append]
        rw [ih]
        rfl
    · have ih := nestVisit_eq sh (psh ++ [s]) (pre ++ [r.headD 0]) r.tail as
        (by simp [hl]) hs
        (fun a h => by
          have h1 := hb a h
          have : a ≠ psh.length := fun e => hp ((hm _ (by omega)).2 (e ▸ h))
          simp at h1 ⊢; omega)
        (fun a h => hm a (by simp at h; omega))
      unfold redVisit
      rw [if_neg hp, List.length_cons]
      unfold embed
      rw [if_neg hp, List.map_map]
      rw [e2, e1]
      simp only [List.append_assoc, List.cons_append, List.nil_append] at ih ⊢
      rw [ih]
      rfl

end

/-! ### `aggregate_impl` -/

section
variable {α β : Type} {σ : Type} {ops : StepOps σ} {deref : σ → α} {F : RedFns α β}
  {sh sh' : List Nat} {R : σ → List Nat → Prop} {val : List Nat → α}

/-- The loop from coordinate `i`: `k` more positions are combined. -/
theorem aggLoop_spec (hF : FwdLaw ops sh' R) {base : List Nat} {a : Nat} (ha : a < sh'.length)
    (hb : InBounds sh' base) (f : β → σ → β × σ) (g : β → Nat → β)
    (hf : ∀ res st i, i < sh'.getD a 0 → R st (base.set a i) →
      (f res st).1 = g res i ∧ R (f res st).2 (base.set a i)) :
    ∀ (k i : Nat) (res : β) (st : σ), i + k < sh'.getD a 0 → R st (base.set a i) →
      (aggLoop ops a f k res st).1 = (List.range' (i + 1) k).foldl g res ∧
      R (aggLoop ops a f k res st).2 (base.set a (i + k)) := by
  intro k
  induction k with
  | zero => intro i res st _ hR; exact ⟨rfl, hR⟩
  | succ k ih =>
    intro i res st hk hR
    have hlen : a < base.length := by rw [hb.length_eq]; exact ha
    have h1 := hF.step st (base.set a i) a 1 hR (inBounds_set hb (by omega)) ha
      (by omega) (by rw [getD_set_self hlen]; omega)
    rw [getD_set_self hlen, List.set_set, show ((i : Int) + 1).toNat = i + 1 by omega] at h1
    obtain ⟨h2, h3⟩ := hf res _ (i + 1) (by omega) h1
    have h4 := ih (i + 1) (f res (ops.step st a 1)).1 (f res (ops.step st a 1)).2 (by omega) h3
    rw [h2] at h4
    simp only [aggLoop, List.range'_succ, List.foldl_cons, h2]
    rw [show i + (k + 1) = i + 1 + k by omega]
    exact h4

/-- Nested combination of partial results. -/
def nestFold (F : RedFns α β) (val : List Nat → α) (sh : List Nat) : List Nat → List Nat → β
  | [], _ => F.init
  | [a], base => (List.range (sh.getD a 0)).foldl (fun r i => F.reduce r (val (base.set a i))) F.init
  | a :: b :: as, base =>
    (List.range' 1 (sh.getD a 0 - 1)).foldl (fun r i => F.merge r (nestFold F val sh (b :: as) (base.set a i)))
      (nestFold F val sh (b :: as) (base.set a 0))

theorem aggImpl_spec (hF : FwdLaw ops sh' R)
    (hd : ∀ st idx, InBounds sh' idx → R st idx → deref st = val idx) :
    ∀ (as : List Nat) (base : List Nat) (st : σ), as.Pairwise (· < ·) →
      (∀ a ∈ as, a < sh'.length ∧ sh.getD a 0 = sh'.getD a 0 ∧ base.getD a 0 = 0) →
      InBounds sh' base → R st base →
      (aggImpl ops deref F sh as st).1 = nestFold F val sh as base ∧
      R (aggImpl ops deref F sh as st).2 base
  | [], base, st, _, _, _, hR => ⟨rfl, hR⟩
  | [a], base, st, hs, h, hb, hR => by
    obtain ⟨h1, h2, h3⟩ := h a (by simp)
    have hlen : a < base.length := by rw [hb.length_eq]; exact h1
    have h0 : base.set a 0 = base := by
      apply ext_getD (by simp)
      intro k hk
      rw [getD_set_nat hlen]
      split
      · rename_i e; subst e; exact h3.symm
      · rfl
    have hpos := hb.getD_lt h1
    have hl := aggLoop_spec hF h1 hb (fun res st => (F.reduce res (deref st), st))
      (fun res i => F.reduce res (val (base.set a i)))
      (fun res st i hi hR => ⟨by simp only; rw [hd st _ (inBounds_set hb hi) hR], hR⟩)
      (sh.getD a 0 - 1) 0 (F.reduce F.init (deref st)) st (by omega) (by rw [h0]; exact hR)
    obtain ⟨e1, e2⟩ := hl
    simp only [aggImpl, nestFold]
    constructor
    · rw [e1, hd st base hb hR]
      have : List.range (sh.getD a 0) = 0 :: List.range' 1 (sh.getD a 0 - 1) := by
        rw [List.range_eq_range', show sh.getD a 0 = (sh.getD a 0 - 1) + 1 by omega, List.range'_succ]
        simp
      rw [this, List.foldl_cons, h0]
    · have := hF.reset _ (base.set a (0 + (sh.getD a 0 - 1))) a e2 (inBounds_set hb (by omega)) h1
        (by rw [getD_set_self hlen]; omega)
      rw [List.set_set, h0] at this
      exact this
  | a :: b :: as, base, st, hs, h, hb, hR => by
    obtain ⟨h1, h2, h3⟩ := h a (by simp)
    have hlen : a < base.length := by rw [hb.length_eq]; exact h1
    have h0 : base.set a 0 = base := by
      apply ext_getD (by simp)
      intro k hk
      rw [getD_set_nat hlen]
      split
      · rename_i e; subst e; exact h3.symm
      · rfl
    have hpos := hb.getD_lt h1
    have hs' := List.pairwise_cons.1 hs
    have ih : ∀ i, i < sh'.getD a 0 → ∀ st, R st (base.set a i) →
        (aggImpl ops deref F sh (b :: as) st).1 = nestFold F val sh (b :: as) (base.set a i) ∧
        R (aggImpl ops deref F sh (b :: as) st).2 (base.set a i) := fun i hi st hR =>
      aggImpl_spec hF hd (b :: as) (base.set a i) st hs'.2
        (fun c hc => by
          obtain ⟨g1, g2, g3⟩ := h c (by simp only [List.mem_cons] at hc ⊢; exact Or.inr hc)
          refine ⟨g1, g2, ?_⟩
          have : a < c := hs'.1 c hc
          rw [getD_set_nat hlen, if_neg (by omega)]
          exact g3) (inBounds_set hb hi) hR
    obtain ⟨i1, i2⟩ := ih 0 (by omega) st (by rw [h0]; exact hR)
    have hl := aggLoop_spec hF h1 hb
      (fun res st => (F.merge res (aggImpl ops deref F sh (b :: as) st).1,
        (aggImpl ops deref F sh (b :: as) st).2))
      (fun res i => F.merge res (nestFold F val sh (b :: as) (base.set a i)))
      (fun res st i hi hR => ⟨by simp only; rw [(ih i hi st hR).1], (ih i hi st hR).2⟩)
      (sh.getD a 0 - 1) 0 (aggImpl ops deref F sh (b :: as) st).1
      (aggImpl ops deref F sh (b :: as) st).2 (by omega) i2
    obtain ⟨e1, e2⟩ := hl
    simp only [aggImpl, nestFold]
    constructor
    · rw [e1, i1]
    · have := hF.reset _ (base.set a (0 + (sh.getD a 0 - 1))) a e2 (inBounds_set hb (by omega)) h1
        (by rw [getD_set_self hlen]; omega)
      rw [List.set_set, h0] at this
      exact this

theorem aggKeep_eq {axes : List Nat} {dflt : β} : ∀ (k : Nat) (st : σ) (pre as : List Nat),
    axes = pre ++ as → axes.Pairwise (· < ·) → as ≠ [] → k ≤ sh.length →
    (∀ a ∈ pre, a < sh.length - k) → (∀ a ∈ as, sh.length - k ≤ a ∧ a < sh.length) →
    (∀ a ∈ axes, 0 < sh.getD a 0) →
    aggKeep ops deref F sh axes dflt (k + 1) st = aggImpl ops deref F sh as st
  | k, st, pre, [], _, _, hne, _, _, _, _ => absurd rfl hne
  | k, st, pre, a :: as, he, hs, _, hkl, hpre, has, hpos => by
    have hs' : (a :: as).Pairwise (· < ·) := by
      rw [he] at hs; exact (List.pairwise_append.1 hs).2.1
    have hsc := List.pairwise_cons.1 hs'
    unfold aggKeep
    simp only
    have hk1 : 1 ≤ k := by have := has a (by simp); omega
    obtain ⟨k', rfl⟩ : ∃ k', k = k' + 1 := ⟨k - 1, by omega⟩
    have hdim : sh.length - (k' + 1) + 1 = sh.length - k' := by omega
    by_cases hd : sh.length - (k' + 1) = a
    · have hmem : axes.contains (sh.length - (k' + 1)) = true := by
        rw [hd, he]; simp
      rw [if_pos hmem]
      have hnp : a ∉ pre := fun h => by have := hpre a h; omega
      have hidx : axes.idxOf (sh.length - (k' + 1)) = pre.length := by
        rw [hd, he, List.idxOf_append_of_notMem hnp]; simp
      cases as with
      | nil =>
        rw [if_neg (by rw [hidx, he]; simp)]
        simp only [aggImpl]
        rw [hd]
      | cons b as =>
        have hp : sh.getD (sh.length - (k' + 1)) 0 ≠ 0 := by
          rw [hd]; have := hpos a (by rw [he]; simp); omega
        rw [if_pos ⟨by rw [hidx, he]; simp, hp⟩]
        have ih : ∀ st, aggKeep ops deref F sh axes dflt (k' + 1) st =
            aggImpl ops deref F sh (b :: as) st := fun st =>
          aggKeep_eq k' st (pre ++ [a]) (b :: as) (by rw [he]; simp) hs (by simp) (by omega)
            (fun c hc => by
              rcases List.mem_append.1 hc with h | h
              · have := hpre c h; omega
              · have : c = a := by simpa using h
                omega)
            (fun c hc => by
              have h1 := hsc.1 c hc
              have h2 := (has c (List.mem_cons_of_mem _ hc)).2
              omega) hpos
        simp only [ih, aggImpl]
        rw [hd]
    · have hnm : axes.contains (sh.length - (k' + 1)) = false := by
        rw [he]
        simp only [List.contains_eq_mem, decide_eq_false_iff_not, List.mem_append, not_or]
        refine ⟨fun h => ?_, fun h => ?_⟩
        · have := hpre _ h; omega
        · rcases List.mem_cons.1 h with h | h
          · exact hd h
          · have h1 := hsc.1 _ h
            have h2 := (has a (by simp)).1
            omega
      rw [if_neg (by rw [hnm]; simp), if_pos (by omega)]
      exact aggKeep_eq k' st pre (a :: as) he hs (by simp) (by omega)
        (fun c hc => by have := hpre c hc; omega)
        (fun c hc => by
          have h1 := has a (by simp)
          have h2 := has c hc
          rcases List.mem_cons.1 hc with h | h
          · omega
          · have := hsc.1 _ h; omega) hpos

end

end Xt
