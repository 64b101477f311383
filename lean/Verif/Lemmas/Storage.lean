import Verif.Model.Storage
import Mathlib.Data.List.Basic
/-!
# Heaps and who owns their blocks
-/

namespace Xt
open Spec

variable {α : Type}

/-! ### Single blocks -/

theorem blockCells_eq {h : List (Block α)} {p a : Nat} {c : List (Option α)} (hp : h[p]? = some ⟨a, c, true⟩) :
    blockCells h p = .ok c := by simp [blockCells, hp]

theorem setCells_eq {h : List (Block α)} {p a : Nat} {c : List (Option α)} (c' : List (Option α))
    (hp : h[p]? = some ⟨a, c, true⟩) : setCells h p c' = h.set p ⟨a, c', true⟩ := by simp [setCells, hp]

theorem cellLoop_succ (n : Nat) (f : Nat → List (Block α) → Res (List (Block α))) (h : List (Block α)) :
    cellLoop (n + 1) f h = (cellLoop n f h).bind (f n) := by
  simp [cellLoop, List.range_succ, List.foldl_append]

theorem cellLoop_cells {h : List (Block α)} {p a : Nat} {c : List (Option α)} (hp : h[p]? = some ⟨a, c, true⟩)
    (f : Nat → List (Block α) → Res (List (Block α))) (g : Nat → Option α) : ∀ n, n ≤ c.length →
    (∀ i < n, ∀ (h' : List (Block α)) c', h'[p]? = some ⟨a, c', true⟩ → c'[i]? = c[i]? →
      f i h' = .ok (h'.set p ⟨a, c'.set i (g i), true⟩)) →
    cellLoop n f h = .ok (h.set p ⟨a, (List.range n).map g ++ c.drop n, true⟩)
  | 0, _, _ => by
    have : h.set p ⟨a, c, true⟩ = h := by
      apply List.ext_getElem?
      intro i
      rw [List.getElem?_set]
      split
      · rename_i e; subst e
        have hlt : p < h.length := by
          by_contra hc
          rw [List.getElem?_eq_none (by omega)] at hp
          cases hp
        rw [if_pos hlt, hp]
      · rfl
    simp [cellLoop, this]
  | n + 1, hn, hf => by
    have hlt : p < h.length := by
      by_contra hc
      rw [List.getElem?_eq_none (by omega)] at hp
      cases hp
    rw [cellLoop_succ, cellLoop_cells hp f g n (by omega) fun i hi => hf i (by omega), Res.bind_ok,
      hf n (by omega) _ ((List.range n).map g ++ c.drop n) (by simp [hlt])
        (by rw [List.getElem?_append_right (by simp)]; simp)]
    rw [List.set_set]
    congr 3
    rw [List.set_append_right _ _ (by simp), List.range_succ, List.map_append, List.append_assoc]
    congr 1
    simp only [List.length_map, List.length_range, Nat.sub_self]
    rw [List.drop_eq_getElem_cons (by omega : n < c.length)]
    rfl

theorem range_map_getD (xs : List (Option α)) : (List.range xs.length).map (fun i => xs.getD i none) = xs := by
  apply List.ext_getElem?
  intro i
  by_cases hi : i < xs.length
  · simp [List.getElem?_eq_getElem hi, List.getElem?_map, List.getElem?_range hi]
  · rw [List.getElem?_eq_none (by simpa using hi), List.getElem?_eq_none (by simpa using hi)]

theorem uninitializedCopy_eq (e : StoreEnv α) {h : List (Block α)} {p a : Nat} {c : List (Option α)}
    (hp : h[p]? = some ⟨a, c, true⟩) (xs : List (Option α)) (hl : xs.length = c.length)
    (hc : e.trivial = true ∨ ∀ x ∈ c, x = none) :
    uninitializedCopy e h p xs = .ok (h.set p ⟨a, xs, true⟩) := by
  unfold uninitializedCopy
  rw [cellLoop_cells hp _ (fun i => xs.getD i none) xs.length (by omega)]
  · rw [range_map_getD, hl]; simp
  · intro i hi h' c' h1 h2
    have hi' : i < c.length := by omega
    simp only [constructAt, blockCells_eq h1, Res.bind_ok, h2, List.getElem?_eq_getElem hi']
    rw [setCells_eq _ h1]
    rcases hc with hc | hc
    · cases c[i] <;> simp [hc]
    · rw [hc c[i] (List.getElem_mem hi')]

theorem stdCopy_eq (e : StoreEnv α) {h : List (Block α)} {p a : Nat} {c : List (Option α)}
    (hp : h[p]? = some ⟨a, c, true⟩) (xs : List (Option α)) (hl : xs.length = c.length)
    (hc : e.trivial = true ∨ ∀ x ∈ c, x ≠ none) :
    stdCopy e h p xs = .ok (h.set p ⟨a, xs, true⟩) := by
  unfold stdCopy
  rw [cellLoop_cells hp _ (fun i => xs.getD i none) xs.length (by omega)]
  · rw [range_map_getD, hl]; simp
  · intro i hi h' c' h1 h2
    have hi' : i < c.length := by omega
    simp only [assignAt, blockCells_eq h1, Res.bind_ok, h2, List.getElem?_eq_getElem hi']
    rw [setCells_eq _ h1]
    rcases hc with hc | hc
    · cases c[i] <;> simp [hc]
    · have := hc c[i] (List.getElem_mem hi')
      cases h3 : c[i] with
      | none => exact absurd h3 this
      | some x => rfl

theorem length_newElements (t : Bool) (z : α) (n : Nat) : (newElements t z n).length = n := by simp [newElements]

theorem allocate_get (h : List (Block α)) (a n : Nat) :
    (allocate h a n).1[h.length]? = some ⟨a, List.replicate n none, true⟩ := by simp [allocate]

theorem append_set_length (h : List (Block α)) (b b' : Block α) : (h ++ [b]).set h.length b' = h ++ [b'] := by
  rw [List.set_append_right _ _ (le_refl _)]
  simp

theorem safeInitAllocate_eq (e : StoreEnv α) (h : List (Block α)) (a n : Nat) :
    safeInitAllocate e h a n = .ok (h ++ [⟨a, newElements e.trivial e.init n, true⟩], h.length) := by
  unfold safeInitAllocate
  cases ht : e.trivial with
  | true => simp [allocate, newElements]
  | false =>
    have hp := allocate_get h a n
    simp only [allocate] at hp ⊢
    rw [if_pos (by simp), cellLoop_cells hp _ (fun _ => some e.init) n (by simp)]
    · rw [append_set_length]
      simp [newElements]
    · intro i hi h' c' h1 h2
      simp only [constructAt, blockCells_eq h1, Res.bind_ok, h2]
      rw [setCells_eq _ h1]
      simp [hi]

theorem safeDestroyDeallocate_eq (e : StoreEnv α) {h : List (Block α)} {p a : Nat} {c : List (Option α)}
    (hp : h[p]? = some ⟨a, c, true⟩) (hc : e.trivial = false → ∀ x ∈ c, x ≠ none) :
    ∃ c', safeDestroyDeallocate e h a (some p) c.length = .ok (h.set p ⟨a, c', false⟩) := by
  have hlt : p < h.length := by
    by_contra hn
    rw [List.getElem?_eq_none (by omega)] at hp
    cases hp
  unfold safeDestroyDeallocate
  cases ht : e.trivial with
  | true => exact ⟨c, by simp [deallocate, hp, ht]⟩
  | false =>
    refine ⟨List.replicate c.length none, ?_⟩
    simp only []
    rw [if_pos (by simp), cellLoop_cells hp _ (fun _ => none) c.length (by simp)]
    · simp [deallocate, hlt, ht]
    · intro i hi h' c' h1 h2
      have := hc ht c[i] (List.getElem_mem hi)
      simp only [destroyAt, blockCells_eq h1, Res.bind_ok, h2, List.getElem?_eq_getElem hi]
      rw [setCells_eq _ h1]
      cases h3 : c[i] with
      | none => exact absurd h3 this
      | some x => rfl

/-! ### Ownership -/

/-- Every name holds a value of the specification, no two names own the same block, and every block in use is owned. -/
structure Holds {V S : Type} (own : V → Option Nat) (vr : List (Block α) → V → S → Prop) (h : List (Block α))
    (vs : List V) (ss : List S) : Prop where
  len : vs.length = ss.length
  rep : ∀ (k : Nat) v s, vs[k]? = some v → ss[k]? = some s → vr h v s
  sep : ∀ (j k : Nat) v w p, j ≠ k → vs[j]? = some v → vs[k]? = some w → own v = some p → own w ≠ some p
  all : ∀ (p : Nat) b, h[p]? = some b → b.live = true → ∃ (k : Nat) (v : V), vs[k]? = some v ∧ own v = some p

/-- A representation depends only on the block that is owned, which exists. -/
structure Local {V S : Type} (own : V → Option Nat) (vr : List (Block α) → V → S → Prop) : Prop where
  frame : ∀ (h h' : List (Block α)) v s, (∀ p, own v = some p → h'[p]? = h[p]?) → vr h v s → vr h' v s
  dom : ∀ (h : List (Block α)) v s p, vr h v s → own v = some p → p < h.length

variable {V S : Type} {own : V → Option Nat} {vr : List (Block α) → V → S → Prop}

theorem Holds.get {h : List (Block α)} {vs : List V} {ss : List S} (H : Holds own vr h vs ss) {k : Nat} {s : S} (hs : ss[k]? = some s) : ∃ v, vs[k]? = some v ∧ vr h v s := by
  have hk : k < ss.length := by
    by_contra hc
    rw [List.getElem?_eq_none (by omega)] at hs
    cases hs
  have hk' : k < vs.length := by have := H.len; omega
  exact ⟨vs[k], List.getElem?_eq_getElem hk', H.rep k _ s (List.getElem?_eq_getElem hk') hs⟩

/-- One name changes, and with it only its own block and new ones. -/
theorem Holds.update {h : List (Block α)} {vs : List V} {ss : List S} (L : Local own vr) (H : Holds own vr h vs ss) {k : Nat} {v v' : V} {s' : S} {h' : List (Block α)}
    (hk : vs[k]? = some v)
    (hsame : ∀ p, p < h.length → own v ≠ some p → h'[p]? = h[p]?)
    (hrep : vr h' v' s')
    (hnew : ∀ p, own v' = some p → own v = some p ∨ h.length ≤ p)
    (hlive : ∀ (p : Nat) b, h'[p]? = some b → b.live = true → own v' = some p ∨ (h[p]? = some b ∧ own v ≠ some p)) :
    Holds own vr h' (vs.set k v') (ss.set k s') := by
  have hkl : k < vs.length := by
    by_contra hc
    rw [List.getElem?_eq_none (by omega)] at hk
    cases hk
  have hdom : ∀ (j : Nat) w p, vs[j]? = some w → own w = some p → p < h.length := by
    intro j w p hj ho
    have hjl : j < vs.length := by
      by_contra hc
      rw [List.getElem?_eq_none (by omega)] at hj
      cases hj
    have hjs : j < ss.length := by have := H.len; omega
    exact L.dom h w _ p (H.rep j w _ hj (List.getElem?_eq_getElem hjs)) ho
  have hoth : ∀ (j : Nat) w p, j ≠ k → vs[j]? = some w → own w = some p → own v' ≠ some p := by
    intro j w p hjk hj ho hv'
    rcases hnew p hv' with h1 | h1
    · exact H.sep j k w v p hjk hj hk ho h1
    · have := hdom j w p hj ho; omega
  refine ⟨by simp [H.len], ?_, ?_, ?_⟩
  · intro j w s hj hs
    by_cases hjk : j = k
    · subst hjk
      rw [List.getElem?_set_self hkl] at hj
      rw [List.getElem?_set_self (by have := H.len; omega)] at hs
      cases hj; cases hs; exact hrep
    · rw [List.getElem?_set_ne (Ne.symm hjk)] at hj hs
      refine L.frame h h' w s ?_ (H.rep j w s hj hs)
      intro p hp
      refine hsame p (hdom j w p hj hp) fun hv => H.sep j k w v p hjk hj hk hp hv
  · intro i j x y p hij hi hj hx hy
    by_cases hik : i = k
    · subst hik
      rw [List.getElem?_set_self hkl] at hi
      rw [List.getElem?_set_ne hij] at hj
      cases hi
      exact hoth j y p (Ne.symm hij) hj hy hx
    · rw [List.getElem?_set_ne (Ne.symm hik)] at hi
      by_cases hjk : j = k
      · subst hjk
        rw [List.getElem?_set_self hkl] at hj
        cases hj
        exact hoth i x p hik hi hx hy
      · rw [List.getElem?_set_ne (Ne.symm hjk)] at hj
        exact H.sep i j x y p hij hi hj hx hy
  · intro p b hb hl
    rcases hlive p b hb hl with h1 | ⟨h1, h2⟩
    · exact ⟨k, v', by rw [List.getElem?_set_self hkl], h1⟩
    · obtain ⟨j, w, hj, hw⟩ := H.all p b h1 hl
      refine ⟨j, w, ?_, hw⟩
      rw [List.getElem?_set_ne]
      · exact hj
      · rintro rfl
        rw [hk] at hj
        cases hj
        exact h2 hw

/-- Two names exchange what they hold. -/
theorem Holds.swap {h : List (Block α)} {vs : List V} {ss : List S} (H : Holds own vr h vs ss) {k j : Nat} {v w : V} {s t : S} (hk : vs[k]? = some v)
    (hj : vs[j]? = some w) (hs : ss[k]? = some s) (ht : ss[j]? = some t) :
    Holds own vr h ((vs.set k w).set j v) ((ss.set k t).set j s) := by
  have hkl : k < vs.length := by
    by_contra hc; rw [List.getElem?_eq_none (by omega)] at hk; cases hk
  have hjl : j < vs.length := by
    by_contra hc; rw [List.getElem?_eq_none (by omega)] at hj; cases hj
  have key : ∀ i : Nat, ((vs.set k w).set j v)[i]? = vs[if i = j then k else if i = k then j else i]? ∧
      ((ss.set k t).set j s)[i]? = ss[if i = j then k else if i = k then j else i]? := by
    intro i
    have hl := H.len
    by_cases h1 : i = j
    · subst h1
      rw [List.getElem?_set_self (by simpa using hjl), List.getElem?_set_self (by simp; omega), if_pos rfl, hk, hs]
      exact ⟨rfl, rfl⟩
    · rw [List.getElem?_set_ne (Ne.symm h1), List.getElem?_set_ne (Ne.symm h1), if_neg h1]
      by_cases h2 : i = k
      · subst h2
        rw [List.getElem?_set_self hkl, List.getElem?_set_self (by omega), if_pos rfl, hj, ht]
        exact ⟨rfl, rfl⟩
      · rw [List.getElem?_set_ne (Ne.symm h2), List.getElem?_set_ne (Ne.symm h2), if_neg h2]
        exact ⟨rfl, rfl⟩
  have inj : ∀ a b : Nat, a ≠ b → (if a = j then k else if a = k then j else a) ≠ (if b = j then k else if b = k then j else b) := by
    intro a b hab
    split_ifs <;> omega
  refine ⟨by simp [H.len], ?_, ?_, ?_⟩
  · intro i x y hi hy
    rw [(key i).1] at hi
    rw [(key i).2] at hy
    exact H.rep _ x y hi hy
  · intro a b x y p hab hx hy hox
    rw [(key a).1] at hx
    rw [(key b).1] at hy
    exact H.sep _ _ x y p (inj a b hab) hx hy hox
  · intro p b hb hl
    obtain ⟨i, x, hi, hx⟩ := H.all p b hb hl
    refine ⟨if i = j then k else if i = k then j else i, x, ?_, hx⟩
    rw [(key _).1, ← hi]
    congr 1
    split_ifs <;> omega

end Xt
