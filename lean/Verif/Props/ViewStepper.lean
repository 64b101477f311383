import Verif.Model.ViewStepper
import Verif.Props.ExprIter
import Verif.Props.View
/-!
# C59: iterating over views that are not strided
-/

namespace Xt
open Spec

/-! ### One axis of the view -/

/-- What the slice found for axis `d` of the view (`o`) and the parent axis `a` mean for the
selection at `idx`. -/
structure ViewAxis (sh : List Nat) (us : List USlice) (o : Option Sl) (idx : List Nat) (d a : Nat) :
    Prop where
  notInt : ∀ s, o = some s → s.isInt = false
  new : ∀ s, o = some s → s.isNew = true → (selShape sh us).getD d 0 = 1 ∧
    ∀ v, selIndex sh us (idx.set d v) = selIndex sh us idx
  sl : ∀ s, o = some s → s.isNew = false → a < sh.length ∧
    s.size = ((selShape sh us).getD d 0 : Nat) ∧
    (∀ i : Nat, (i : Int) < s.size → 0 ≤ s.value i ∧ s.value i < (sh.getD a 0 : Nat)) ∧
    (selIndex sh us idx)[a]? = some (s.value (idx.getD d 0 : Nat)) ∧
    ∀ v : Nat, (v : Int) < s.size → selIndex sh us (idx.set d v) = (selIndex sh us idx).set a (s.value v)
  rest : o = none → a < sh.length ∧ (selShape sh us).getD d 0 = sh.getD a 0 ∧
    (selIndex sh us idx)[a]? = some ((idx.getD d 0 : Nat) : Int) ∧
    ∀ v : Nat, selIndex sh us (idx.set d v) = (selIndex sh us idx).set a v

theorem viewAxis {sh : List Nat} {us : List USlice} {S : List Sl} (hb : Bound sh us S)
    {idx : List Nat} (hi : InBounds (selShape sh us) idx) {d : Nat} (hd : d < idx.length) :
    ViewAxis sh us S[integralSkip S d]? idx d
      (integralSkip S d - newaxisCountBefore S (integralSkip S d)) := by
  induction hb generalizing idx d with
  | nil sh =>
    simp only [selShape] at hi
    have hl := hi.length_eq
    refine ⟨by simp, by simp, by simp, fun _ => ⟨?_, ?_, ?_, ?_⟩⟩
    · simp only [integralSkip_nil]; omega
    · simp [integralSkip_nil, selShape, newaxisCountBefore]
    · simp [integralSkip_nil, selIndex, newaxisCountBefore, toInts, hd]
    · intro v; simp [integralSkip_nil, selIndex, newaxisCountBefore, toInts, List.map_set]
  | @new sh us S hb ih =>
    cases idx with
    | nil => simp at hd
    | cons i idx =>
      cases d with
      | zero =>
        rw [integralSkip_zero rfl]
        refine ⟨?_, ?_, ?_, by simp⟩
        · rintro s h; simp at h; subst h; rfl
        · rintro s h _; simp [selShape, selIndex]
        · rintro s h h'; simp at h; subst h; simp [Sl.isNew] at h'
      | succ d =>
        have h := ih (idx := idx) hi.2 (d := d) (by simpa using hd)
        rw [integralSkip_succ rfl, Nat.add_comm 1, List.getElem?_cons_succ, nb_cons]
        have e : integralSkip S d + 1 - ((if Sl.isNew Sl.newaxis = true then 1 else 0) +
            newaxisCountBefore S (integralSkip S d)) =
            integralSkip S d - newaxisCountBefore S (integralSkip S d) := by
          simp [Sl.isNew]; omega
        rw [e]
        exact ⟨h.notInt, h.new, h.sl, h.rest⟩
  | @cons n sh u us s S hu hs hb ih =>
    have e : ∀ d, integralSkip S d + 1 - ((if s.isNew = true then 1 else 0) +
            newaxisCountBefore S (integralSkip S d)) =
            integralSkip S d - newaxisCountBefore S (integralSkip S d) + 1 := by
      intro d
      have := nb_le S (integralSkip S d)
      simp [hs.notNew]; omega
    by_cases hint : IsInt u
    · obtain ⟨c, rfl⟩ := hint
      have h1 : s.isInt = true := hs.isInt.mpr ⟨c, rfl⟩
      have h := ih (idx := idx) hi hd
      rw [integralSkip_int h1, Nat.add_comm 1, List.getElem?_cons_succ, nb_cons, e]
      refine ⟨h.notInt, fun t ht hn => ⟨(h.new t ht hn).1, fun v => ?_⟩, fun t ht hn => ?_,
        fun hn => ?_⟩
      · simp only [selIndex]; rw [(h.new t ht hn).2 v]
      · obtain ⟨a1, a2, a3, a4, a5⟩ := h.sl t ht hn
        refine ⟨by simpa using a1, a2, by simpa using a3, by simpa [selIndex] using a4, fun v hv => ?_⟩
        simp only [selIndex, List.set_cons_succ]; rw [a5 v hv]
      · obtain ⟨a1, a2, a4, a5⟩ := h.rest hn
        refine ⟨by simpa using a1, by simpa [selShape] using a2, by simpa [selIndex] using a4,
          fun v => ?_⟩
        simp only [selIndex, List.set_cons_succ]; rw [a5 v]
    · have h1 : s.isInt = false := by rw [Bool.eq_false_iff]; exact fun hc => hint (hs.isInt.mp hc)
      have h2 := selShape_cons (n := n) (sh := sh) (us := us) hu hint
      have h3 := selIndex_cons (n := n) (sh := sh) (us := us) hu hint
      rw [h2] at hi
      cases idx with
      | nil => simp at hd
      | cons i idx =>
        cases d with
        | zero =>
          rw [integralSkip_zero h1]
          refine ⟨?_, ?_, ?_, by simp⟩
          · rintro t h; simp at h; subst h; exact h1
          · rintro t h h'; simp at h; subst h; rw [hs.notNew] at h'; cases h'
          · rintro t h h'
            simp at h; subst h
            have hil : i < (axisSel n u).length := hi.1
            refine ⟨by simp, ?_, ?_, ?_, ?_⟩
            · rw [h2, hs.size]; simp
            · intro j hj
              rw [hs.size] at hj
              have hj' : j < (axisSel n u).length := by omega
              rw [hs.value j hj']
              have := hs.bounds ((axisSel n u).getD j 0) (by simp [List.getD_eq_getElem?_getD, hj'])
              simpa [newaxisCountBefore] using this
            · rw [h3]; simp only [newaxisCountBefore]
              simp [hs.value i hil]
            · intro v hv
              rw [hs.size] at hv
              simp only [List.set_cons_zero]
              rw [h3, h3, ← hs.value v (by omega)]
              simp [newaxisCountBefore]
        | succ d =>
          have h := ih (idx := idx) hi.2 (d := d) (by simpa using hd)
          rw [integralSkip_succ h1, Nat.add_comm 1, List.getElem?_cons_succ, nb_cons, e]
          refine ⟨h.notInt, fun t ht hn => ⟨?_, fun v => ?_⟩, fun t ht hn => ?_, fun hn => ?_⟩
          · rw [h2]; simpa using (h.new t ht hn).1
          · rw [List.set_cons_succ, h3, h3, (h.new t ht hn).2 v]
          · obtain ⟨a1, a2, a3, a4, a5⟩ := h.sl t ht hn
            refine ⟨by simpa using a1, by rw [h2]; simpa using a2, by simpa using a3,
              by rw [h3]; simpa using a4, fun v hv => ?_⟩
            rw [List.set_cons_succ, h3, h3, List.set_cons_succ, a5 v hv]
          · obtain ⟨a1, a2, a4, a5⟩ := h.rest hn
            refine ⟨by simpa using a1, by rw [h2]; simpa using a2, by rw [h3]; simpa using a4,
              fun v => ?_⟩
            rw [List.set_cons_succ, h3, h3, List.set_cons_succ, a5 v]

/-- Within the slice, a step leads from one selected position to the other. -/
theorem stepChk_eq {s : Sl} (hi : s.isInt = false) {c n : Int} (h0 : 0 ≤ c) (h1 : c < s.size)
    (h2 : 0 ≤ c + n) (h3 : c + n < s.size) : s.stepChk c n = some (s.value (c + n) - s.value c) := by
  cases s with
  | int _ => simp [Sl.isInt] at hi
  | range a m => simp only [Sl.stepChk, Sl.value]; congr 1; omega
  | stepped a m k => simp only [Sl.stepChk, Sl.value]; congr 1; ring
  | all m => simp only [Sl.stepChk, Sl.value]; congr 1; omega
  | newaxis => simp [Sl.stepChk, Sl.value]
  | keep l =>
    simp only [Sl.size] at h1 h3
    simp only [Sl.stepChk, Sl.value]
    split
    · simp
    · rw [if_pos ⟨h0, h1⟩, if_neg (by omega)]
  | drop m inc =>
    simp only [Sl.size] at h1 h3
    simp only [Sl.stepChk]
    rw [if_neg (by omega)]

theorem valueChk_eq {s : Sl} {c : Int} (h0 : 0 ≤ c) (h1 : c < s.size) :
    s.valueChk c = some (s.value c) := by
  cases s <;> simp only [Sl.valueChk]
  simp only [Sl.size] at h1
  rw [if_pos (Or.inr ⟨h0, h1⟩)]

/-! ### The parent's stepper -/

/-- The stepper can be moved in both directions between positions of the shape. -/
structure MoveLaw {σ : Type} (ops : StepOps σ) (sh : List Nat) (R : σ → List Nat → Prop) : Prop where
  step : ∀ st idx a (n : Int), R st idx → InBounds sh idx → a < sh.length →
    0 ≤ (idx.getD a 0 : Int) + n → (idx.getD a 0 : Int) + n < sh.getD a 0 →
    R (ops.step st a n) (idx.set a ((idx.getD a 0 : Int) + n).toNat)
  stepBack : ∀ st idx a (n : Int), R st idx → InBounds sh idx → a < sh.length →
    0 ≤ (idx.getD a 0 : Int) - n → (idx.getD a 0 : Int) - n < sh.getD a 0 →
    R (ops.stepBack st a n) (idx.set a ((idx.getD a 0 : Int) - n).toNat)

/-- Steps along an axis of extent 1 lead nowhere. -/
def UnitLaw {σ : Type} (ops : StepOps σ) (sh : List Nat) (R : σ → List Nat → Prop) : Prop :=
  ∀ st idx a (n : Int), R st idx → InBounds sh idx → a < sh.length → sh.getD a 0 = 1 →
    R (ops.step st a n) idx

/-- Parent position of a position of the view under a shape the view is broadcast to. -/
def viewPos (ush : List Nat) (us : List USlice) (idx : List Nat) : List Nat :=
  (selIndex ush us (bcIndex (selShape ush us) idx)).map Int.toNat

/-- Slices whose steps depend on the counter. -/
def Sl.counted : Sl → Bool
  | .keep _ => true
  | .drop _ _ => true
  | _ => false

/-- The steps of the other slices do not. -/
theorem stepChk_counter {s : Sl} {c c' : Int} (n : Int) (h : s.counted = true → c = c') :
    s.stepChk c n = s.stepChk c' n := by
  cases s <;> first | rfl | rw [h rfl]

/-- The view's stepper stands at `idx` of the iteration shape. -/
def ViewAt {σ : Type} (R : σ → List Nat → Prop) (ush : List Nat) (us : List USlice) (S : List Sl)
    (st : VState σ) (idx : List Nat) : Prop :=
  ∃ it kp, st = some (it, kp) ∧ R it (viewPos ush us idx) ∧ kp.length = S.length ∧
    ∀ d s, d < idx.length → S[integralSkip S d]? = some s → s.isNew = false →
      s.counted = true → kp.getD d 0 = (idx.getD d 0 : Nat)

/-- Axes that the view repeats when broadcast to `sh` are newaxes, `keep`s (of one index), or lie on
parent axes of extent 1. -/
def Spec.StillAxes : List Nat → List USlice → List Nat → Prop
  | _, [], _ => True
  | ush, .newaxis :: us, _ :: sh => StillAxes ush us sh
  | _ :: ush, .int _ :: us, sh => StillAxes ush us sh
  | n :: ush, u :: us, m :: sh =>
    (m = (axisSel n u).length ∨ n = 1 ∨ ∃ l, u = .keep l) ∧ StillAxes ush us sh
  | _, _, _ => True

theorem stillAxes_cons {n m : Nat} {ush sh : List Nat} {u : USlice} {us : List USlice}
    (hu : u ≠ .newaxis) (hint : ¬ IsInt u) :
    StillAxes (n :: ush) (u :: us) (m :: sh) =
      ((m = (axisSel n u).length ∨ n = 1 ∨ ∃ l, u = .keep l) ∧ StillAxes ush us sh) := by
  cases u <;> simp_all [StillAxes, IsInt]

theorem bindSlices_get {full : List Nat} {us : List USlice} {pre : Nat} {S : List Sl}
    (h : bindSlices full pre us = .ok S) : List.Forall₂ (fun u s => ∃ n, getSlice n u = .ok s) us S := by
  induction us generalizing pre S with
  | nil => simp only [bindSlices, Res.ok.injEq] at h; subst h; exact .nil
  | cons u us ih =>
    simp only [bindSlices] at h
    split at h
    · rename_i s hs
      cases hr : bindSlices full (if u.isNew = true then pre else pre + 1) us with
      | ok S' =>
        rw [hr] at h
        simp only [Res.map_ok, Res.ok.injEq] at h
        subst h
        refine .cons ?_ (ih hr)
        split at hs
        · exact ⟨0, hs⟩
        · split at hs
          · rename_i n _; exact ⟨n, hs⟩
          · cases hs
      | throws => rw [hr] at h; cases h
      | ub => rw [hr] at h; cases h
    · cases h
    · cases h

/-- On an axis that is repeated, the slice does not move, or it moves along a parent axis of
extent 1. -/
theorem still_axis {ush : List Nat} {us : List USlice} {S : List Sl} (hb : Bound ush us S)
    (hg : List.Forall₂ (fun u s => ∃ n, getSlice n u = .ok s) us S) {sh : List Nat}
    (hl : (selShape ush us).length = sh.length) (hs : StillAxes ush us sh) {d : Nat} (hd : d < sh.length)
    {s : Sl} (hk : S[integralSkip S d]? = some s) (hn : s.isNew = false) :
    sh.getD d 0 = (selShape ush us).getD d 0 ∨
      ush.getD (integralSkip S d - newaxisCountBefore S (integralSkip S d)) 0 = 1 ∨
      ∃ l, s = .keep l := by
  induction hb generalizing sh d with
  | nil => simp at hk
  | @new ush us S hb ih =>
    cases sh with
    | nil => simp [selShape] at hl
    | cons m sh =>
      cases d with
      | zero => rw [integralSkip_zero rfl] at hk; simp at hk; subst hk; simp [Sl.isNew] at hn
      | succ d =>
        rw [integralSkip_succ rfl, Nat.add_comm 1] at hk ⊢
        rw [nb_cons]
        cases hg with
        | cons _ hg =>
          have := ih hg (sh := sh) (by simpa [selShape] using hl) hs (d := d) (by simpa using hd)
            (by simpa using hk)
          have e : integralSkip S d + 1 - ((if Sl.isNew Sl.newaxis = true then 1 else 0) +
            newaxisCountBefore S (integralSkip S d)) =
            integralSkip S d - newaxisCountBefore S (integralSkip S d) := by
            simp [Sl.isNew]; omega
          rw [e]
          simpa [selShape] using this
  | @cons n ush u us t S hu hs' hb ih =>
    cases hg with
    | cons hg1 hg =>
    have e : ∀ d, integralSkip S d + 1 - ((if t.isNew = true then 1 else 0) +
            newaxisCountBefore S (integralSkip S d)) =
            integralSkip S d - newaxisCountBefore S (integralSkip S d) + 1 := by
      intro d
      have := nb_le S (integralSkip S d)
      simp [hs'.notNew]; omega
    by_cases hint : IsInt u
    · obtain ⟨c, rfl⟩ := hint
      have h1 : t.isInt = true := hs'.isInt.mpr ⟨c, rfl⟩
      rw [integralSkip_int h1, Nat.add_comm 1] at hk ⊢
      rw [nb_cons, e]
      have := ih hg (sh := sh) hl hs hd (by simpa using hk)
      simpa [selShape] using this
    · have h1 : t.isInt = false := by rw [Bool.eq_false_iff]; exact fun hc => hint (hs'.isInt.mp hc)
      have h2 := selShape_cons (n := n) (sh := ush) (us := us) hu hint
      cases sh with
      | nil => simp at hd
      | cons m sh =>
        rw [stillAxes_cons hu hint] at hs
        rw [h2] at hl ⊢
        cases d with
        | zero =>
          rw [integralSkip_zero h1] at hk ⊢
          simp at hk; subst hk
          rcases hs.1 with h | h | ⟨l, rfl⟩
          · left; simpa using h
          · right; left; simpa [newaxisCountBefore] using h
          · right; right
            obtain ⟨k, hk⟩ := hg1
            simp only [getSlice, Res.ok.injEq] at hk
            exact ⟨_, hk.symm⟩
        | succ d =>
          rw [integralSkip_succ h1, Nat.add_comm 1] at hk ⊢
          rw [nb_cons, e]
          have := ih hg (sh := sh) (by simpa using hl) hs.2 (d := d) (by simpa using hd)
            (by simpa using hk)
          simpa using this

/-! ### Moving the view's stepper -/

theorem length_viewPos {ush : List Nat} {us : List USlice} {S : List Sl} (hb : Bound ush us S)
    {idx : List Nat} (hi : InBounds (selShape ush us) (bcIndex (selShape ush us) idx)) :
    InBounds ush (viewPos ush us idx) := by
  obtain ⟨p, h1, h2⟩ := selIndex_bounds hb hi
  have : viewPos ush us idx = p := by
    simp only [viewPos, h2, toInts, List.map_map]
    conv_rhs => rw [← List.map_id p]
    apply List.map_congr_left; intro a _; simp
  rw [this]; exact h1

section
variable {σ : Type} {sub : StepOps σ} {R : σ → List Nat → Prop} {ush : List Nat} {us : List USlice}
  {S : List Sl} {sh : List Nat}

/-- Setting a coordinate before or after broadcasting. -/
theorem bcIndex_set {vsh idx : List Nat} (hl : vsh.length = idx.length) (d v : Nat) :
    bcIndex vsh (idx.set d v) =
      if vsh.getD d 0 = 1 then bcIndex vsh idx else (bcIndex vsh idx).set d v := by
  have h0 : ∀ x : List Nat, x.length = vsh.length → bcIndex vsh x =
      List.zipWith (fun n i => if n = 1 then 0 else i) vsh x := by
    intro x hx; simp [bcIndex, hx]
  rw [h0 _ (by simp [hl]), h0 _ hl.symm]
  apply List.ext_getElem?
  intro k
  split
  · rename_i h1
    simp only [List.getElem?_zipWith, List.getElem?_set]
    by_cases hk : d = k
    · subst hk
      by_cases hd : d < vsh.length
      · have : vsh[d]? = some 1 := by
          rw [List.getD_eq_getElem?_getD, List.getElem?_eq_getElem hd] at h1
          rw [List.getElem?_eq_getElem hd]; simpa using h1
        rw [this]
        have h2 : d < idx.length := by omega
        simp [h2]
      · rw [List.getElem?_eq_none (by omega)]
    · simp [hk]
  · rename_i h1
    simp only [List.getElem?_zipWith, List.getElem?_set, List.length_zipWith]
    by_cases hk : d = k
    · subst hk
      by_cases hd : d < vsh.length
      · have h3 : vsh[d] ≠ 1 := by
          intro hc; apply h1
          rw [List.getD_eq_getElem?_getD, List.getElem?_eq_getElem hd, hc]; rfl
        have h2 : d < idx.length := by omega
        simp [h2, hd, h3]
      · have h2 : ¬ d < idx.length := by omega
        simp [hd, h2]
    · simp [hk]

/-- A move of the parent's stepper by the distance between two selected positions. -/
theorem viewPos_getD {ush : List Nat} {us : List USlice} {idx : List Nat} {a : Nat} {x : Int}
    (h : (selIndex ush us (bcIndex (selShape ush us) idx))[a]? = some x) (hx : 0 ≤ x) :
    ((viewPos ush us idx).getD a 0 : Int) = x := by
  simp [viewPos, h, hx]

/-- The coordinate of the view read for coordinate `x` of the iteration shape. -/
def bcCoord (vsh : List Nat) (d x : Nat) : Nat := if vsh.getD d 0 = 1 then 0 else x

theorem bcIndex_getD {vsh idx : List Nat} (hl : vsh.length = idx.length) {d : Nat} (hd : d < idx.length) :
    (bcIndex vsh idx).getD d 0 = bcCoord vsh d (idx.getD d 0) := by
  rw [getD_bcIndex (by omega) (by omega)]
  simp [bcCoord, hl]

/-- Moves of the parent's stepper that correspond to a move of the view along one axis. -/
theorem view_move (hb : Bound ush us S) (hsh : BroadcastsTo (selShape ush us) sh)
    (hl : (selShape ush us).length = sh.length) {mv : σ → Nat → Int → σ}
    (hmv : ∀ st idx a (n : Int), R st idx → InBounds ush idx → a < ush.length →
      0 ≤ (idx.getD a 0 : Int) + n → (idx.getD a 0 : Int) + n < ush.getD a 0 →
      R (mv st a n) (idx.set a ((idx.getD a 0 : Int) + n).toNat))
    {it : σ} {idx : List Nat} (hR : R it (viewPos ush us idx)) (hi : InBounds sh idx) {d v : Nat}
    (hd : d < sh.length) (hv : v < sh.getD d 0) :
    (∀ s, S[integralSkip S d]? = some s → s.isNew = true →
      viewPos ush us (idx.set d v) = viewPos ush us idx) ∧
    (∀ s, S[integralSkip S d]? = some s → s.isNew = false →
      integralSkip S d - newaxisCountBefore S (integralSkip S d) < ush.length ∧
      s.isInt = false ∧ s.size = ((selShape ush us).getD d 0 : Nat) ∧
      R (mv it (integralSkip S d - newaxisCountBefore S (integralSkip S d))
        (s.value (bcCoord (selShape ush us) d v : Nat) -
          s.value (bcCoord (selShape ush us) d (idx.getD d 0) : Nat)))
        (viewPos ush us (idx.set d v))) ∧
    (S[integralSkip S d]? = none →
      integralSkip S d - newaxisCountBefore S (integralSkip S d) < ush.length ∧
      (selShape ush us).getD d 0 =
        ush.getD (integralSkip S d - newaxisCountBefore S (integralSkip S d)) 0 ∧
      R (mv it (integralSkip S d - newaxisCountBefore S (integralSkip S d))
        ((bcCoord (selShape ush us) d v : Nat) - (bcCoord (selShape ush us) d (idx.getD d 0) : Nat) : Int))
        (viewPos ush us (idx.set d v))) := by
  have hil := hi.length_eq
  have hbi : InBounds (selShape ush us) (bcIndex (selShape ush us) idx) := inBounds_bcIndex hsh hi
  have hbl := length_bcIndex (csh := selShape ush us) (idx := idx) (by omega)
  have hax := viewAxis hb hbi (d := d) (by omega)
  have hpos := length_viewPos hb hbi
  have hset := bcIndex_set (vsh := selShape ush us) (idx := idx) (by omega) d v
  have hg := bcIndex_getD (vsh := selShape ush us) (idx := idx) (by omega) (d := d) (by omega)
  have hext := hsh.2 d (by omega)
  rw [hl, Nat.sub_self, Nat.add_zero] at hext
  have hidx := hi.getD_lt hd
  refine ⟨fun s h1 h2 => ?_, fun s h1 h2 => ?_, fun h1 => ?_⟩
  · obtain ⟨e1, _⟩ := hax.new s h1 h2
    simp only [viewPos]; rw [hset, if_pos e1]
  · obtain ⟨a1, a2, a3, a4, a5⟩ := hax.sl s h1 h2
    refine ⟨a1, hax.notInt s h1, a2, ?_⟩
    have hc0 : ((bcCoord (selShape ush us) d (idx.getD d 0) : Nat) : Int) < s.size := by
      rw [a2]; simp only [bcCoord]; split <;> omega
    have hc1 : ((bcCoord (selShape ush us) d v : Nat) : Int) < s.size := by
      rw [a2]; simp only [bcCoord]; split <;> omega
    rw [hg] at a4
    have b0 := a3 _ hc0
    have b1 := a3 _ hc1
    have hp := viewPos_getD a4 b0.1
    have := hmv it _ _ (s.value (bcCoord (selShape ush us) d v : Nat) -
          s.value (bcCoord (selShape ush us) d (idx.getD d 0) : Nat)) hR hpos a1
          (by rw [hp]; omega) (by rw [hp]; omega)
    rw [hp] at this
    have e : viewPos ush us (idx.set d v) = (viewPos ush us idx).set
        (integralSkip S d - newaxisCountBefore S (integralSkip S d))
        (s.value (bcCoord (selShape ush us) d v : Nat)).toNat := by
      have h5 := a5 _ hc1
      simp only [viewPos]
      rw [hset, ← List.map_set, ← h5]
      split
      · rename_i hu
        simp only [bcCoord, if_pos hu] at hg ⊢
        congr 2
        apply ext_getD (by simp)
        intro k _
        rw [getD_set_nat (by omega)]
        split
        · rename_i hk; subst hk; exact hg
        · rfl
      · rename_i hu; simp only [bcCoord, if_neg hu]
    rw [e]
    convert this using 2
    congr 1; omega
  · obtain ⟨a1, a2, a4, a5⟩ := hax.rest h1
    refine ⟨a1, a2, ?_⟩
    rw [hg] at a4
    have hp := viewPos_getD a4 (by omega)
    have hc1 : (bcCoord (selShape ush us) d v : Nat) < (selShape ush us).getD d 0 := by
      simp only [bcCoord]; split <;> omega
    have := hmv it _ _ ((bcCoord (selShape ush us) d v : Nat) -
        (bcCoord (selShape ush us) d (idx.getD d 0) : Nat) : Int) hR hpos a1
          (by rw [hp]; omega) (by rw [hp]; omega)
    rw [hp] at this
    have e : viewPos ush us (idx.set d v) = (viewPos ush us idx).set
        (integralSkip S d - newaxisCountBefore S (integralSkip S d))
        (bcCoord (selShape ush us) d v) := by
      have h5 := a5 (bcCoord (selShape ush us) d v)
      simp only [viewPos]
      rw [hset, ← Int.toNat_natCast (bcCoord (selShape ush us) d v), ← List.map_set, ← h5]
      split
      · rename_i hu
        simp only [bcCoord, if_pos hu] at hg ⊢
        congr 2
        apply ext_getD (by simp)
        intro k _
        rw [getD_set_nat (by omega)]
        split
        · rename_i hk; subst hk; exact hg
        · rfl
      · rename_i hu; simp only [bcCoord, if_neg hu]
    rw [e]
    convert this using 2
    omega

theorem viewPos_set_unit (hl : (selShape ush us).length = sh.length) {idx : List Nat}
    (hi : InBounds sh idx) {d v : Nat} (h : (selShape ush us).getD d 0 = 1) :
    viewPos ush us (idx.set d v) = viewPos ush us idx := by
  have := hi.length_eq
  simp only [viewPos]
  rw [bcIndex_set (by omega), if_pos h]

/-- A slice of one element still answers every step, a `keep` with 0. -/
theorem stepChk_one {s : Sl} (h : s.size = 1) (c n : Int) :
    ∃ m, s.stepChk c n = some m ∧ ((∃ l, s = .keep l) → m = 0) := by
  cases s with
  | keep l =>
    have : l.length = 1 := by simpa [Sl.size] using h
    exact ⟨0, by simp [Sl.stepChk, this], fun _ => rfl⟩
  | drop m inc =>
    simp only [Sl.stepChk]
    split
    · exact ⟨_, rfl, by rintro ⟨l, hl⟩; cases hl⟩
    · exact ⟨_, rfl, by rintro ⟨l, hl⟩; cases hl⟩
  | _ => exact ⟨_, rfl, by rintro ⟨l, hl⟩; cases hl⟩

theorem keeper_set {idx : List Nat} {kp : List Int} (hlen : kp.length = S.length)
    (hk : ∀ d s, d < idx.length → S[integralSkip S d]? = some s → s.isNew = false →
      s.counted = true → kp.getD d 0 = (idx.getD d 0 : Nat)) {d v : Nat} (hd : d < idx.length) {w : Int}
    {s : Sl} (hw : s.counted = true → w = v) (hs : S[integralSkip S d]? = some s) :
    ∀ d' s', d' < (idx.set d v).length → S[integralSkip S d']? = some s' → s'.isNew = false →
      s'.counted = true → (kp.set d w).getD d' 0 = ((idx.set d v).getD d' 0 : Nat) := by
  intro d' s' h1 h2 h3 h4
  have hdl : d < kp.length := by
    have h5 : integralSkip S d < S.length := by
      by_contra hc
      rw [List.getElem?_eq_none (by omega)] at hs
      cases hs
    have := integralSkip_eq S d
    omega
  rw [getD_set_int hdl, getD_set_nat hd]
  split
  · rename_i he
    subst he
    rw [hs] at h2; cases h2
    exact hw h4
  · exact hk d' s' (by simpa using h1) h2 h3 h4

theorem keeper_set_none {idx : List Nat} {kp : List Int}
    (hk : ∀ d s, d < idx.length → S[integralSkip S d]? = some s → s.isNew = false →
      s.counted = true → kp.getD d 0 = (idx.getD d 0 : Nat)) {d v : Nat} (hd : d < idx.length) {w : Int}
    (hs : ∀ s, S[integralSkip S d]? = some s → s.isNew = true) :
    ∀ d' s', d' < (idx.set d v).length → S[integralSkip S d']? = some s' → s'.isNew = false →
      s'.counted = true → kp.getD d' 0 = ((idx.set d v).getD d' 0 : Nat) ∧
      (kp.set d w).getD d' 0 = ((idx.set d v).getD d' 0 : Nat) := by
  intro d' s' h1 h2 h3 h4
  have hne : d ≠ d' := by
    rintro rfl
    rw [hs s' h2] at h3; cases h3
  rw [getD_set_ne hne, ← hk d' s' (by simpa using h1) h2 h3 h4]
  refine ⟨rfl, ?_⟩
  simp [List.getD_eq_getElem?_getD, List.getElem?_set, hne]

/-- Forward moves of the view's stepper, under shapes of the view's own dimension. -/
theorem view_fwd (hb : Bound ush us S) (hg : List.Forall₂ (fun u s => ∃ n, getSlice n u = .ok s) us S)
    (hM : MoveLaw sub ush R) (hsh : BroadcastsTo (selShape ush us) sh)
    (hl : (selShape ush us).length = sh.length)
    (hstill : sh = selShape ush us ∨ (UnitLaw sub ush R ∧ StillAxes ush us sh)) :
    FwdLaw (viewOps sub ush S 0) sh (ViewAt R ush us S) where
  step st idx d n hR hi hd h0 h1 := by
    obtain ⟨it, kp, rfl, hR, hkl, hk⟩ := hR
    have hil := hi.length_eq
    obtain ⟨v, hv⟩ : ∃ v : Nat, (idx.getD d 0 : Int) + n = v :=
      ⟨((idx.getD d 0 : Int) + n).toNat, by omega⟩
    have hvlt : v < sh.getD d 0 := by omega
    obtain ⟨m1, m2, m3⟩ := view_move hb hsh hl hM.step hR hi hd hvlt
    rw [hv, Int.toNat_natCast]
    simp only [viewOps, viewStepFwd, Option.bind_some, ge_iff_le, Nat.zero_le, if_true]
    have hext := hsh.2 d (by omega)
    rw [hl, Nat.sub_self, Nat.add_zero] at hext
    have hidx := hi.getD_lt hd
    cases hs : S[integralSkip S d]? with
    | none =>
      obtain ⟨a1, a2, a3⟩ := m3 hs
      simp only [subMove, if_pos a1, Option.map_some]
      refine ⟨_, _, rfl, ?_, hkl, fun d' s' h1 h2 h3 h4 => (keeper_set_none (w := 0) hk (by omega)
        (by rw [hs]; rintro _ h; cases h) d' s' h1 h2 h3 h4).1⟩
      by_cases hu : (selShape ush us).getD d 0 = 1
      · rw [viewPos_set_unit hl hi hu]
        rcases hstill with hstill | ⟨hU, -⟩
        · have : n = 0 := by rw [hstill, hu] at hidx hvlt; omega
          subst this
          rw [viewPos_set_unit hl hi hu] at a3
          simp only [bcCoord, if_pos hu] at a3; simpa using a3
        · exact hU _ _ _ _ hR (length_viewPos hb (inBounds_bcIndex hsh hi)) a1 (by omega)
      · simp only [bcCoord, if_neg hu] at a3
        convert a3 using 2; omega
    | some s =>
      dsimp only
      by_cases hn : s.isNew = true
      · rw [if_pos hn]
        refine ⟨_, _, rfl, by rw [m1 s hs hn]; exact hR, hkl, fun d' s' h1 h2 h3 h4 =>
          (keeper_set_none (w := 0) hk (by omega)
          (by rw [hs]; rintro _ h; cases h; exact hn) d' s' h1 h2 h3 h4).1⟩
      · have hn' : s.isNew = false := by simpa using hn
        rw [if_neg hn]
        obtain ⟨a1, a2, a3, a4⟩ := m2 s hs hn'
        have hkd := hk d s (by omega) hs hn'
        rw [stepChk_counter n hkd]
        have hkeep : ∀ d' s', d' < (idx.set d v).length → S[integralSkip S d']? = some s' →
            s'.isNew = false → s'.counted = true → (kp.set d (kp.getD d 0 + n)).getD d' 0 =
              ((idx.set d v).getD d' 0 : Nat) :=
          keeper_set hkl hk (by omega) (fun h => by rw [hkd h]; exact hv) hs
        have main : ∃ m, s.stepChk (idx.getD d 0 : Nat) n = some m ∧
            R (sub.step it (integralSkip S d - newaxisCountBefore S (integralSkip S d)) m)
              (viewPos ush us (idx.set d v)) := by
          by_cases hu : (selShape ush us).getD d 0 = 1
          · by_cases hu' : sh.getD d 0 = 1
            · have hn0 : n = 0 := by omega
              have hi0 : idx.getD d 0 = 0 := by omega
              refine ⟨_, stepChk_eq a2 (by omega) (by omega) (by omega) (by omega), ?_⟩
              simp only [bcCoord, hu, if_true] at a4
              convert a4 using 2
              rw [hn0, hi0]; simp
            · obtain ⟨m, b1, b2⟩ := stepChk_one (s := s) (by omega) (idx.getD d 0 : Nat) n
              refine ⟨m, b1, ?_⟩
              rcases hstill with hstill | ⟨hU, hstill⟩
              · rw [hstill] at hu'; exact absurd hu hu'
              · rcases still_axis hb hg hl hstill hd hs hn' with h | h | h
                · omega
                · rw [viewPos_set_unit hl hi hu]
                  exact hU _ _ _ _ hR (length_viewPos hb (inBounds_bcIndex hsh hi)) a1 h
                · rw [b2 h]
                  simp only [bcCoord, if_pos hu] at a4; simpa using a4
          · refine ⟨_, stepChk_eq a2 (by omega) (by omega) (by omega) (by omega), ?_⟩
            simp only [bcCoord, if_neg hu] at a4
            convert a4 using 2
            rw [hv]
        obtain ⟨m, b1, b2⟩ := main
        simp only [b1, subMove, if_pos a1, Option.bind_eq_bind, Option.bind_some]
        exact ⟨_, _, rfl, b2, by simpa using hkl, hkeep⟩
  reset st idx d hR hi hd h1 := by
    obtain ⟨it, kp, rfl, hR, hkl, hk⟩ := hR
    have hil := hi.length_eq
    obtain ⟨m1, m2, m3⟩ := view_move hb hsh hl
      (mv := fun it a n => sub.stepBack it a (-n))
      (fun st idx a n g1 g2 g3 g4 g5 => by
        have := hM.stepBack st idx a (-n) g1 g2 g3 (by omega) (by omega)
        simpa using this) hR hi hd (v := 0) (by omega)
    simp only [viewOps, viewReset, Option.bind_some]
    have hext := hsh.2 d (by omega)
    rw [hl, Nat.sub_self, Nat.add_zero] at hext
    have hidx := hi.getD_lt hd
    cases hs : S[integralSkip S d]? with
    | none =>
      obtain ⟨a1, a2, a3⟩ := m3 hs
      have hvs : (viewShape ush S)[d]? = some ((selShape ush us).getD d 0 : Int) := by
        rw [viewShape_eq hb]
        simp [toInts, show d < (selShape ush us).length by omega]
      simp only [hvs, subMove, if_pos a1, Option.bind_eq_bind, Option.bind_some]
      refine ⟨_, _, rfl, ?_, by simpa using hkl, fun d' s' h1 h2 h3 h4 => (keeper_set_none hk (by omega)
        (by rw [hs]; rintro _ h; cases h) d' s' h1 h2 h3 h4).2⟩
      convert a3 using 2
      simp only [bcCoord]
      split <;> omega
    | some s =>
      dsimp only
      by_cases hn : s.isNew = true
      · rw [if_pos hn]
        refine ⟨_, _, rfl, by rw [m1 s hs hn]; exact hR, hkl, fun d' s' h1 h2 h3 h4 =>
          (keeper_set_none (w := 0) hk (by omega)
          (by rw [hs]; rintro _ h; cases h; exact hn) d' s' h1 h2 h3 h4).1⟩
      · have hn' : s.isNew = false := by simpa using hn
        rw [if_neg hn]
        obtain ⟨a1, a2, a3, a4⟩ := m2 s hs hn'
        have hkeep := keeper_set hkl hk (d := d) (v := 0) (w := 0) (by omega) (fun _ => rfl) hs
        simp only [valueChk_eq (s := s) (c := s.size - 1) (by omega) (by omega),
          valueChk_eq (s := s) (c := 0) (by omega) (by omega), subMove, if_pos a1,
          Option.bind_eq_bind, Option.bind_some]
        refine ⟨_, _, rfl, ?_, by simpa using hkl, by simpa using hkeep⟩
        convert a4 using 2
        have e1 : ((bcCoord (selShape ush us) d 0 : Nat) : Int) = 0 := by
          simp only [bcCoord]; split <;> rfl
        have e2 : ((bcCoord (selShape ush us) d (idx.getD d 0) : Nat) : Int) = s.size - 1 := by
          simp only [bcCoord]; split <;> omega
        rw [e1, e2]; omega

/-- Backward moves along an axis, within the view's own shape. -/
theorem view_stepBack (hb : Bound ush us S) (hM : MoveLaw sub ush R) {st : VState σ} {idx : List Nat}
    {d : Nat} {n : Int} (hR : ViewAt R ush us S st idx) (hi : InBounds (selShape ush us) idx)
    (hd : d < (selShape ush us).length) (h0 : 0 ≤ (idx.getD d 0 : Int) - n)
    (h1 : (idx.getD d 0 : Int) - n < (selShape ush us).getD d 0) :
    ViewAt R ush us S ((viewOps sub ush S 0).stepBack st d n)
      (idx.set d ((idx.getD d 0 : Int) - n).toNat) := by
  obtain ⟨it, kp, rfl, hR, hkl, hk⟩ := hR
  have hil := hi.length_eq
  have hsh : BroadcastsTo (selShape ush us) (selShape ush us) := ⟨le_refl _, fun k _ => Or.inr (by simp)⟩
  obtain ⟨v, hv⟩ : ∃ v : Nat, (idx.getD d 0 : Int) - n = v :=
    ⟨((idx.getD d 0 : Int) - n).toNat, by omega⟩
  obtain ⟨m1, m2, m3⟩ := view_move hb hsh rfl
      (mv := fun it a n => sub.stepBack it a (-n))
      (fun st idx a n g1 g2 g3 g4 g5 => by
        have := hM.stepBack st idx a (-n) g1 g2 g3 (by omega) (by omega)
        simpa using this) hR hi hd (v := v) (by omega)
  rw [hv, Int.toNat_natCast]
  simp only [viewOps, viewStepBwd, Option.bind_some, ge_iff_le, Nat.zero_le, if_true]
  have hidx := hi.getD_lt hd
  cases hs : S[integralSkip S d]? with
  | none =>
    obtain ⟨a1, a2, a3⟩ := m3 hs
    simp only [subMove, if_pos a1, Option.map_some]
    refine ⟨_, _, rfl, ?_, hkl, fun d' s' h1 h2 h3 h4 => (keeper_set_none (w := 0) hk (by omega)
      (by rw [hs]; rintro _ h; cases h) d' s' h1 h2 h3 h4).1⟩
    convert a3 using 2
    simp only [bcCoord]; split <;> omega
  | some s =>
    dsimp only
    by_cases hn : s.isNew = true
    · rw [if_pos hn]
      refine ⟨_, _, rfl, by rw [m1 s hs hn]; exact hR, hkl, fun d' s' h1 h2 h3 h4 =>
        (keeper_set_none (w := 0) hk (by omega)
        (by rw [hs]; rintro _ h; cases h; exact hn) d' s' h1 h2 h3 h4).1⟩
    · have hn' : s.isNew = false := by simpa using hn
      rw [if_neg hn]
      obtain ⟨a1, a2, a3, a4⟩ := m2 s hs hn'
      have hkd := hk d s (by omega) hs hn'
      rw [stepChk_counter n (c' := (idx.getD d 0 : Nat) - n) (fun h => by rw [hkd h])]
      have hkeep : ∀ d' s', d' < (idx.set d v).length → S[integralSkip S d']? = some s' →
          s'.isNew = false → s'.counted = true → (kp.set d (kp.getD d 0 - n)).getD d' 0 =
            ((idx.set d v).getD d' 0 : Nat) :=
        keeper_set hkl hk (by omega) (fun h => by rw [hkd h]; exact hv) hs
      simp only [stepChk_eq a2 (c := (idx.getD d 0 : Nat) - n) (n := n) (by omega) (by omega)
        (by omega) (by omega), subMove, if_pos a1, Option.bind_eq_bind, Option.bind_some]
      refine ⟨_, _, rfl, ?_, by simpa using hkl, hkeep⟩
      convert a4 using 2
      have e1 : ((bcCoord (selShape ush us) d v : Nat) : Int) = v := by
        simp only [bcCoord]; split <;> omega
      have e2 : ((bcCoord (selShape ush us) d (idx.getD d 0) : Nat) : Int) = (idx.getD d 0 : Nat) := by
        simp only [bcCoord]; split <;> omega
      rw [e1, e2, hv, show (v : Int) + n = (idx.getD d 0 : Nat) by omega]
      omega

/-- The loop of the constructor leads to the first selected position. -/
theorem viewBeginLoop_spec (hb : Bound ush us S) (hpos : 0 < numel (selShape ush us))
    (pre : List Nat) (ppos : List Nat) (hM : MoveLaw sub (pre ++ ush) R) (hp : InBounds pre ppos)
    {it : σ} (hR : R it (ppos ++ List.replicate ush.length 0)) :
    ∃ it', viewBeginLoop sub (pre ++ ush) S pre.length it = some it' ∧
      R it' (ppos ++ (selIndex ush us (List.replicate (selShape ush us).length 0)).map Int.toNat) := by
  induction hb generalizing pre ppos it with
  | nil sh =>
    refine ⟨it, rfl, ?_⟩
    simpa [selIndex, selShape, toInts] using hR
  | @new sh us S hb ih =>
    simp only [selShape, numel] at hpos
    obtain ⟨it', h1, h2⟩ := ih (by simpa using hpos) pre ppos hM hp hR
    refine ⟨it', by simpa [viewBeginLoop, Sl.isNew] using h1, ?_⟩
    simpa [selShape, selIndex, List.replicate_succ] using h2
  | @cons n sh u us s S hu hs hb ih =>
    have key : ∀ x : Int, s.valueChk 0 = some x → 0 ≤ x → x < n → 0 < numel (selShape sh us) →
        ∃ it', viewBeginLoop sub (pre ++ n :: sh) (s :: S) pre.length it = some it' ∧
          R it' (ppos ++ x.toNat :: (selIndex sh us
            (List.replicate (selShape sh us).length 0)).map Int.toNat) := by
      intro x hx h0 h1 hnum
      have hlp := hp.length_eq
      obtain ⟨q, hq, _⟩ := selIndex_bounds hb (inBounds_last hnum)
      have hbz : InBounds (pre ++ n :: sh) (ppos ++ 0 :: List.replicate sh.length 0) :=
        hp.append ⟨by omega, by simpa [hq.length_eq] using inBounds_zeros hq⟩
      have hs1 := hM.step it _ pre.length x (by simpa [List.replicate_succ] using hR) hbz (by simp)
        (by simp [← hlp]; omega) (by simp [← hlp]; omega)
      have e : (ppos ++ 0 :: List.replicate sh.length 0).set pre.length
          (((ppos ++ 0 :: List.replicate sh.length 0).getD pre.length 0 : Int) + x).toNat =
          (ppos ++ [x.toNat]) ++ List.replicate sh.length 0 := by
        simp [← hlp]
      rw [e] at hs1
      obtain ⟨it', g1, g2⟩ := ih hnum (pre ++ [n]) (ppos ++ [x.toNat]) (by simpa using hM)
        (hp.append ⟨by omega, trivial⟩) hs1
      refine ⟨it', ?_, by simpa using g2⟩
      simp only [viewBeginLoop, hs.notNew, hx, Option.bind_eq_bind, Option.bind_some, subMove]
      rw [if_neg (by simp), if_pos (by simp)]
      simpa using g1
    by_cases hint : IsInt u
    · obtain ⟨c, rfl⟩ := hint
      have hb0 := hs.bounds (pyIndex n c) (by simp [axisSel])
      have hv := hs.value 0 (by simp [axisSel])
      have hsz := hs.size
      have hx : s.valueChk 0 = some (pyIndex n c) := by
        rw [valueChk_eq (by omega) (by rw [hsz]; simp [axisSel])]
        simpa [axisSel] using hv
      obtain ⟨it', h1, h2⟩ := key _ hx hb0.1 hb0.2 hpos
      exact ⟨it', h1, by simpa [selIndex, selShape] using h2⟩
    · have h2 := selShape_cons (n := n) (sh := sh) (us := us) hu hint
      have h3 := selIndex_cons (n := n) (sh := sh) (us := us) hu hint
      rw [h2] at hpos ⊢
      have hp1 : 0 < (axisSel n u).length := by
        rcases Nat.eq_zero_or_pos (axisSel n u).length with h | h
        · simp [numel, h] at hpos
        · exact h
      have hp2 : 0 < numel (selShape sh us) := by
        rcases Nat.eq_zero_or_pos (numel (selShape sh us)) with h | h
        · simp [numel, h] at hpos
        · exact h
      have hb0 := hs.bounds ((axisSel n u).getD 0 0) (by simp [List.getD_eq_getElem?_getD, hp1])
      have hv := hs.value 0 hp1
      have hx : s.valueChk 0 = some ((axisSel n u).getD 0 0) := by
        rw [valueChk_eq (by omega) (by rw [hs.size]; omega), ← hv]; rfl
      obtain ⟨it', g1, g2⟩ := key _ hx hb0.1 hb0.2 hp2
      refine ⟨it', g1, ?_⟩
      simp only [List.length_cons, List.replicate_succ]
      rw [h3]; simpa using g2

/-- `stepper_begin` stands at the first element. -/
theorem viewBegin_at (hb : Bound ush us S) (hM : MoveLaw sub ush R)
    (hsh : BroadcastsTo (selShape ush us) sh) (hl : (selShape ush us).length = sh.length)
    (hpos : 0 < numel sh) {it : σ} (hR : R it (List.replicate ush.length 0)) :
    ViewAt R ush us S (viewBegin sub ush S it) (List.replicate sh.length 0) := by
  have hz : InBounds sh (List.replicate sh.length 0) := by
    have := inBounds_zeros (inBounds_last hpos); simpa using this
  have hbz : bcIndex (selShape ush us) (List.replicate sh.length 0) =
      List.replicate (selShape ush us).length 0 := by
    apply ext_getD (by rw [length_bcIndex (by simp; omega)]; simp)
    intro k hk
    rw [length_bcIndex (by simp; omega)] at hk
    rw [getD_bcIndex (by simp; omega) hk]
    have : k < sh.length := by omega
    simp [List.getD_eq_getElem?_getD, hl, this]
  have hpos' : 0 < numel (selShape ush us) := by
    have h1 := inBounds_bcIndex hsh hz
    exact Nat.lt_of_le_of_lt (Nat.zero_le _) (rankIn_lt (L := .row_major) h1)
  obtain ⟨it', h1, h2⟩ := viewBeginLoop_spec hb hpos' [] [] (by simpa using hM) trivial
    (by simpa using hR)
  simp only [List.nil_append, List.length_nil] at h1 h2
  refine ⟨it', List.replicate S.length 0, by simp [viewBegin, h1], ?_, by simp, ?_⟩
  · simpa [viewPos, hbz] using h2
  · intro d s hd hs hn _
    have hk : integralSkip S d < S.length := by
      by_contra hc
      rw [List.getElem?_eq_none (by omega)] at hs
      cases hs
    have := integralSkip_eq S d
    simp only [List.length_replicate] at hd
    simp [List.getD_eq_getElem?_getD, hd, show d < S.length by omega]

end

/-! ### Expressions as parents -/

section
variable {α : Type}

theorem xstepper_stepBack (c : StridedArr) (o : Nat) (p : Int) (a : Nat) (k : Int) :
    (xstepperOps c o).stepBack p a k = (xstepperOps c o).step p a (-k) := by
  simp only [xstepperOps]
  split
  · ring
  · rfl

theorem xindexed_stepBack (s : List Nat) (o : Nat) (p : List Int) (a : Nat) (k : Int) :
    (xindexedOps s o).stepBack p a k = (xindexedOps s o).step p a (-k) := by
  simp only [xindexedOps, Int.sub_eq_add_neg]

theorem xstepper_unit {c : StridedArr} {sh : List Nat} (hc : c.WF) (h : BroadcastsTo c.shape sh) :
    UnitLaw (xstepperOps c (sh.length - c.shape.length)) sh (XAt c) := by
  intro p idx a n hR hb ha h1
  simp only [xstepperOps]
  split
  · rename_i ho
    have : c.strides.getD (a - (sh.length - c.shape.length)) 0 = 0 :=
      hc.unit _ (by rcases broadcast_axis h ha ho with h | h <;> omega)
    rw [this]; simpa using hR
  · exact hR

mutual
theorem Ex.stepBack_eq {n : Nat} : ∀ (e : Ex α) (p : e.State) (a : Nat) (k : Int),
    (e.ops n).stepBack p a k = (e.ops n).step p a (-k)
  | .arr c _, p, a, k => xstepper_stepBack c _ p a k
  | .scalar _, _, _, _ => rfl
  | .gen s _, p, a, k => xindexed_stepBack s _ p a k
  | .fn _ args, p, a, k => Args.stepBacks_eq args p a k
  | .bcast e _, p, a, k => Ex.stepBack_eq e p a k
theorem Args.stepBacks_eq {n : Nat} : ∀ (es : Args α) (p : es.States) (a : Nat) (k : Int),
    (es.opss n).stepBack p a k = (es.opss n).step p a (-k)
  | .nil, _, _, _ => rfl
  | .cons e es, p, a, k => Prod.ext (Ex.stepBack_eq e p.1 a k) (Args.stepBacks_eq es p.2 a k)
end

theorem Ex.moveLaw {sh : List Nat} (e : Ex α) (hf : Fits sh e) :
    MoveLaw (e.ops sh.length) sh (ExAt e) where
  step := (Ex.fwd e hf).step
  stepBack st idx a n h1 h2 h3 h4 h5 := by
    rw [Ex.stepBack_eq, Int.sub_eq_add_neg]
    exact (Ex.fwd e hf).step st idx a (-n) h1 h2 h3 (by omega) (by omega)

mutual
theorem Ex.unitLaw {sh : List Nat} : ∀ (e : Ex α), Fits sh e → UnitLaw (e.ops sh.length) sh (ExAt e)
  | .arr _ _, hf => xstepper_unit hf.1 hf.2
  | .scalar _, _ => fun _ _ _ _ _ _ _ _ => trivial
  | .gen s _, hf => by
    intro p idx a n hR hb ha h1
    have h2 : idx.getD a 0 = 0 := by have := hb.getD_lt ha; omega
    have := GAt.move hf.2 hR hb (a := a) (v := idx.getD a 0) ha
      (w := p.getD (a - (sh.length - s.length)) 0 + n)
      (fun ho hu => absurd (show s.getD (a - (sh.length - s.length)) 0 = 1 by
        rcases broadcast_axis hf.2 ha ho with h | h <;> omega) hu)
    have e : idx.set a (idx.getD a 0) = idx := by
      apply ext_getD (by simp)
      intro k _
      have hl := hb.length_eq
      rw [getD_set_nat (by omega)]
      split
      · rename_i h; rw [h]
      · rfl
    rw [e] at this
    exact this
  | .fn _ args, hf => Args.unitLaw args hf
  | .bcast e _, hf => Ex.unitLaw e (Ex.fits_trans hf.1 e hf.2)
theorem Args.unitLaw {sh : List Nat} :
    ∀ (es : Args α), FitsAll sh es → UnitLaw (es.opss sh.length) sh (ArgsAt es)
  | .nil, _ => fun _ _ _ _ _ _ _ _ => trivial
  | .cons e es, hf => fun p idx a n hR hb ha h1 =>
    ⟨Ex.unitLaw e hf.1 p.1 idx a n hR.1 hb ha h1, Args.unitLaw es hf.2 p.2 idx a n hR.2 hb ha h1⟩
end

/-- What iterating over `view(e, us...)` under the shape `sh` should yield: for every index, the
element of `e` selected by the index broadcast to the view. -/
def Spec.selectedValues (e : Ex α) (ush : List Nat) (us : List USlice) (L : Layout) (sh : List Nat) :
    List α :=
  (orderIndices L sh).map fun idx =>
    valueAt e ((selIndex ush us (bcIndex (selShape ush us) idx)).map Int.toNat)

/-- C59: iterating over a view yields the selected elements in order, under the view's own shape and
under shapes of the same dimension that repeat only newaxes, `keep`s of one index and parent axes of
extent 1.  (Full claim: under every shape the view broadcasts to; `C59_more_axes_undefined` and
`C59_repeated_range_wrong` are the counterexamples.) -/
theorem C59_iteration_partial (L : Layout) (hL : L = .row_major ∨ L = .column_major)
    (e : Ex α) (ush : List Nat) (hf : Fits ush e) (us : List USlice) (hv : SlicesValid ush us)
    (sh : List Nat) (hsh : BroadcastsTo (selShape ush us) sh)
    (hl : (selShape ush us).length = sh.length)
    (hstill : sh = selShape ush us ∨ StillAxes ush us sh) :
    ∃ S, makeView ush us = .ok S ∧
      viewValues e ush S L sh = (selectedValues e ush us L sh).map some := by
  obtain ⟨S, hS, hb⟩ := makeView_ok hv
  refine ⟨S, hS, ?_⟩
  have hg := bindSlices_get hS
  have hM := Ex.moveLaw e hf
  have hF := view_fwd hb hg hM hsh hl (hstill.imp id fun h => ⟨Ex.unitLaw e hf, h⟩)
  have hn : sh.foldl (· * ·) 1 = numel sh := by rw [foldl_mul_eq]; omega
  unfold viewValues selectedValues
  simp only
  rw [hn, ← hb.selShape_length, hl, Nat.sub_self]
  by_cases h0 : numel sh = 0
  · have h1 : (orderIndices L sh).length = 0 := by rw [length_orderIndices, h0]
    rw [List.eq_nil_of_length_eq_zero h1]
    simp [XIter.walk, XIter.equal, XIter.mkBegin, XIter.mkEnd, hn, h0]
  · have hbg := iterAt_begin (L := L) (R := ViewAt (ExAt e) ush us S) (E := fun _ => True)
      (by omega) (viewBegin_at hb hM hsh hl (by omega) (Ex.at_begin e hf))
    obtain ⟨h1, h2⟩ := walk_spec hL hF (fun _ _ _ _ => trivial)
      (XIter.mkEnd (viewEnd (e.ops ush.length) ush S L (e.stEnd ush.length L)) L sh)
      (by simp [XIter.mkEnd, hn]) (numel sh + 1) 0 _ hbg (by omega) (by omega)
    apply List.ext_getElem?
    intro i
    simp only [List.getElem?_map]
    by_cases hi : i < numel sh
    · obtain ⟨st, hst⟩ : ∃ st, (XIter.walk (viewOps (e.ops ush.length) ush S 0) L sh
        (XIter.mkEnd (viewEnd (e.ops ush.length) ush S L (e.stEnd ush.length L)) L sh) (numel sh + 1)
        (XIter.mkBegin (viewBegin (e.ops ush.length) ush S e.stBegin) sh))[i]? = some st :=
        ⟨_, List.getElem?_eq_getElem (by rw [h1]; omega)⟩
      obtain ⟨idx, a, b, it, kp, rfl, c, _⟩ := h2 i st hst
      obtain ⟨j, hj⟩ : ∃ j, (orderIndices L sh)[i]? = some j :=
        ⟨_, List.getElem?_eq_getElem (by rw [length_orderIndices]; exact hi)⟩
      obtain ⟨hj1, hj2⟩ := rankIn_orderIndices hj
      have : idx = j := rankIn_inj (L := L) a hj1 (by omega)
      subst this
      rw [hst, hj]
      simp only [Option.map_some]
      rw [Ex.deref_eq e it _ hf (length_viewPos hb (inBounds_bcIndex hsh a)) c]
      rfl
    · rw [List.getElem?_eq_none (by rw [h1]; omega),
        List.getElem?_eq_none (by rw [length_orderIndices]; omega)]
      rfl

/-! ### Shapes with more axes -/

theorem integralSkip_append (P Q : List Sl) (d : Nat) :
    integralSkip (P ++ Q) (P.length - integralCount P + d) = P.length + integralSkip Q d := by
  induction P with
  | nil => simp [integralCount]
  | cons s P ih =>
    have hle : integralCount P ≤ P.length := List.countP_le_length
    by_cases h : s.isInt = true
    · have e : (s :: P).length - integralCount (s :: P) = P.length - integralCount P := by
        simp [integralCount, List.countP_cons, h]
      rw [e, List.cons_append, integralSkip_int h, ih, List.length_cons]; omega
    · have h' : s.isInt = false := by simpa using h
      have e : (s :: P).length - integralCount (s :: P) + d = (P.length - integralCount P + d) + 1 := by
        simp only [integralCount] at hle
        simp [integralCount, List.countP_cons, h']; omega
      rw [e, List.cons_append, integralSkip_succ h', ih, List.length_cons]; omega

/-- Axes beyond the view's dimension lie beyond the parent's axes. -/
theorem skip_outside {ush : List Nat} {us : List USlice} {S : List Sl} (hb : Bound ush us S) {d : Nat}
    (hd : viewDim ush S ≤ d) : S[integralSkip S d]? = none ∧
      integralSkip S d - newaxisCountBefore S (integralSkip S d) = ush.length + (d - viewDim ush S) := by
  have h1 := hb.count_le
  have h2 := Bound.counts_le S
  have h3 := hb.integralCount_le
  simp only [viewDim] at hd ⊢
  have h4 := integralSkip_append S [] (d - (S.length - integralCount S))
  rw [List.append_nil, integralSkip_nil] at h4
  have h5 : integralSkip S d = d + integralCount S := by
    rw [show S.length - integralCount S + (d - (S.length - integralCount S)) = d by omega] at h4
    omega
  rw [h5]
  refine ⟨List.getElem?_eq_none (by omega), ?_⟩
  rw [nb_ge_length (by omega)]; omega

/-- C59 fails as soon as the view is broadcast to a shape with more axes than it has: the second
step already moves the parent's stepper along an axis the parent does not have.  (For every
non-strided view that has an axis, every parent and every such shape whose last extent is at least
2.) -/
theorem C59_more_axes_undefined (e : Ex α) (ush : List Nat) (us : List USlice)
    (hv : SlicesValid ush us) (sh : List Nat) (h0 : selShape ush us ≠ [])
    (hl : (selShape ush us).length < sh.length) (hpos : 0 < numel sh)
    (hlast : 2 ≤ sh.getD (sh.length - 1) 0) :
    ∃ S, makeView ush us = .ok S ∧ (viewValues e ush S .row_major sh)[1]? = some none := by
  obtain ⟨S, hS, hb⟩ := makeView_ok hv
  refine ⟨S, hS, ?_⟩
  have hn : sh.foldl (· * ·) 1 = numel sh := by rw [foldl_mul_eq]; omega
  have hd0 : 0 < viewDim ush S := by
    rw [← hb.selShape_length]; exact List.length_pos_iff.2 h0
  rw [hb.selShape_length] at hl
  obtain ⟨h1, h2⟩ := skip_outside hb (d := sh.length - 1) (by omega)
  have hn2 : 2 ≤ numel sh := by
    have hb1 : InBounds sh (sh.map (· - 1)) := inBounds_last hpos
    have hi := inBounds_set (a := sh.length - 1) (v := 0) hb1 (by omega)
    have hi2 := inBounds_set (a := sh.length - 1) (v := 1) hb1 (by omega)
    have r1 := rankIn_lt (L := .row_major) hi
    have r2 := rankIn_lt (L := .row_major) hi2
    by_contra hc
    have := rankIn_inj (L := .row_major) hi hi2 (by omega)
    have h3 := congrArg (fun l : List Nat => l.getD (sh.length - 1) 0) this
    simp only [getD_set_self (l := sh.map (· - 1)) (a := sh.length - 1) (by simp; omega)] at h3
    omega
  unfold viewValues
  simp only [hn]
  obtain ⟨m, hm⟩ : ∃ m, numel sh = m + 2 := ⟨numel sh - 2, by omega⟩
  have hao : axisOrder .row_major sh.length = (sh.length - 1) :: axisOrder .row_major (sh.length - 1) := by
    obtain ⟨k, hk⟩ : ∃ k, sh.length = k + 1 := ⟨sh.length - 1, by omega⟩
    simp [axisOrder, hk, List.range_succ]
  have hinc : (incStepper (viewOps (e.ops ush.length) ush S (sh.length - viewDim ush S)) .row_major sh
      (viewBegin (e.ops ush.length) ush S e.stBegin) (List.replicate sh.length 0)).1 = none := by
    have hc : (List.replicate sh.length 0).getD (sh.length - 1) 0 + 1 ≠ sh.getD (sh.length - 1) 0 := by
      have h3 : (List.replicate sh.length 0).getD (sh.length - 1) 0 = 0 := by
        simp [List.getD_eq_getElem?_getD, List.getElem?_replicate]; split <;> rfl
      omega
    simp only [incStepper, List.length_replicate, hao, incLoop]
    rw [if_pos hc]
    simp only [Bool.false_eq_true, if_false, viewOps, viewStepFwd, h1, h2]
    cases viewBegin (e.ops ush.length) ush S e.stBegin with
    | none => rfl
    | some p =>
      simp only [Option.bind_some]
      rw [if_pos (by omega)]
      simp [subMove]
  rw [hm]
  simp only [XIter.walk, XIter.equal, XIter.mkBegin, XIter.mkEnd, XIter.inc, hn, hm]
  rw [if_neg (by simp; omega), if_neg (by simp; omega)]
  simp [hinc]

/-! ### Reverse iteration -/

/-- Slices for which the stepper keeps a counter. -/
def Spec.Counted : USlice → Prop
  | .keep _ => True
  | .drop _ => True
  | _ => False

/-- Slices from whose past-the-end position a step back leads to their last element: the position one
parent step after it. -/
def Spec.UnitStep : USlice → Prop
  | .range _ _ none => True
  | .range _ _ (some k) => k = 1
  | .all => True
  | .keep l => l.length ≠ 1
  | .drop _ => True
  | _ => False

/-- Views whose past-the-end stepper can be stepped back: no integer slice before a `keep` or `drop`;
in row major order the last axis of the view is the last axis of the parent, and in column major
order the first is the first, taken in steps of one. -/
def Spec.Reversible (L : Layout) (ush : List Nat) (us : List USlice) : Prop :=
  (∀ (p q : Nat) s t, p < q → us[p]? = some s → us[q]? = some t → IsInt s → ¬ Counted t) ∧
  if L = .row_major then
    ((us.filter (fun u => u ≠ .newaxis)).length < ush.length ∧
      ∀ (p : Nat) s, us[p]? = some s → Counted s →
        ∃ q t, p < q ∧ us[q]? = some t ∧ t ≠ .newaxis) ∨
    ((us.filter (fun u => u ≠ .newaxis)).length = ush.length ∧
      ∃ vs u, us = vs ++ [u] ∧ UnitStep u)
  else ∃ u vs, us = u :: vs ∧ UnitStep u

theorem getSlice_counted {n : Nat} {u : USlice} {s : Sl} (h : getSlice n u = .ok s) :
    s.counted = true ↔ Counted u := by
  cases u with
  | range a b k =>
    simp only [getSlice] at h
    have hm : ∀ x y z, mkStepped x y z = .ok s → s.counted = false := by
      intro x y z hxy
      simp only [mkStepped] at hxy
      split at hxy <;> simp at hxy
      subst hxy; simp [Sl.counted]
    have : s.counted = false := by
      rcases a with _ | a <;> rcases b with _ | b <;> rcases k with _ | k <;>
        simp only [rangeGet, getSteppedRange, Res.ok.injEq] at h
      all_goals first
        | (subst h; simp [Sl.counted, mkRange])
        | exact hm _ _ _ h
        | (split at h <;> exact hm _ _ _ h)
    simp [this, Counted]
  | ellipsis => simp [getSlice] at h
  | _ => simp only [getSlice, dropNormalize, Res.ok.injEq] at h; subst h; simp [Sl.counted, Counted]

/-- A step back from the past-the-end counter. -/
theorem getSlice_unitStep {n : Nat} {u : USlice} {s : Sl} (h : getSlice n u = .ok s)
    (hu : UnitStep u) {m : Int} (h1 : 1 ≤ m) (h2 : m ≤ s.size) :
    s.stepChk (s.size - m) m = some (s.value (s.size - 1) - s.value (s.size - m) + 1) := by
  cases u with
  | range a b k =>
    cases k with
    | none =>
      simp only [getSlice] at h
      cases a <;> cases b <;> simp only [rangeGet, Res.ok.injEq, mkRange] at h <;> subst h <;>
        simp only [Sl.stepChk, Sl.value] <;> congr 1 <;> omega
    | some k =>
      simp only [UnitStep] at hu
      subst hu
      have hk : ∀ x y, mkStepped x y 1 = .ok s → s.stepChk (s.size - m) m =
          some (s.value (s.size - 1) - s.value (s.size - m) + 1) := by
        intro x y hh
        simp only [mkStepped, Res.ok.injEq] at hh
        rw [if_neg (by omega)] at hh
        simp only [Res.ok.injEq] at hh
        subst hh
        simp only [Sl.stepChk, Sl.value]; congr 1; omega
      simp only [getSlice] at h
      cases a <;> cases b <;> simp only [rangeGet, getSteppedRange] at h
      · exact hk _ _ h
      · rw [if_pos (by omega)] at h; exact hk _ _ h
      · rw [if_pos (by omega)] at h; exact hk _ _ h
      · rw [if_pos (by omega)] at h; exact hk _ _ h
  | all =>
    simp only [getSlice, Res.ok.injEq] at h; subst h
    simp only [Sl.stepChk, Sl.value]; congr 1; omega
  | keep l =>
    simp only [getSlice, Res.ok.injEq] at h; subst h
    simp only [UnitStep] at hu
    simp only [Sl.size, List.length_map] at h2 ⊢
    simp only [Sl.stepChk, Sl.value, List.length_map]
    rw [if_neg hu, if_pos (by omega), if_pos (by omega), if_neg hu, if_neg hu]
    congr 3
    rw [List.getLastD_eq_getLast?, List.getLast?_eq_getElem?, List.getD_eq_getElem?_getD]
    congr 2
    simp only [List.length_map]; omega
  | drop l =>
    simp only [getSlice, dropNormalize, Res.ok.injEq] at h; subst h
    simp only [Sl.size] at h2 ⊢
    simp only [Sl.stepChk]
    rw [if_pos (by omega)]
  | int _ => simp [UnitStep] at hu
  | newaxis => simp [UnitStep] at hu
  | ellipsis => simp [UnitStep] at hu

/-- Moves commute and add up. -/
structure BackAlg {σ : Type} (ops : StepOps σ) : Prop where
  comm : ∀ p a b m k, ops.stepBack (ops.stepBack p a m) b k = ops.stepBack (ops.stepBack p b k) a m
  add : ∀ p a m k, ops.stepBack (ops.stepBack p a m) a k = ops.stepBack p a (m + k)

theorem xstepper_alg (c : StridedArr) (o : Nat) : BackAlg (xstepperOps c o) where
  comm p a b m k := by
    simp only [xstepperOps]
    split <;> split <;> omega
  add p a m k := by
    simp only [xstepperOps]
    split
    · ring
    · rfl

theorem xindexed_alg (s : List Nat) (o : Nat) : BackAlg (xindexedOps s o) where
  comm p a b m k := by
    simp only [xindexedOps]
    split <;> split <;> first | rfl | skip
    apply List.ext_getElem?
    intro i
    simp only [List.getElem?_set, List.length_set, List.getD_eq_getElem?_getD]
    generalize a - o = x
    generalize b - o = y
    by_cases h1 : x = y
    · subst h1
      split
      · split
        · rename_i h2 h3; simp [h3]; omega
        · rfl
      · rfl
    · have h2 : ¬ y = x := fun h => h1 h.symm
      by_cases h3 : y = i
      · subst h3; simp [h1, h2]
      · simp [h1, h2, h3]
  add p a m k := by
    simp only [xindexedOps]
    split
    · apply List.ext_getElem?
      intro i
      simp only [List.getElem?_set, List.length_set, List.getD_eq_getElem?_getD]
      split
      · split
        · rename_i h1 h2; simp [h2]; omega
        · rfl
      · rfl
    · rfl

mutual
theorem Ex.alg {n : Nat} : ∀ (e : Ex α), BackAlg (e.ops n)
  | .arr c _ => xstepper_alg c _
  | .scalar _ => ⟨fun _ _ _ _ _ => rfl, fun _ _ _ _ => rfl⟩
  | .gen s _ => xindexed_alg s _
  | .fn _ args => Args.alg args
  | .bcast e _ => Ex.alg e
theorem Args.alg {n : Nat} : ∀ (es : Args α), BackAlg (es.opss n)
  | .nil => ⟨fun _ _ _ _ _ => rfl, fun _ _ _ _ => rfl⟩
  | .cons e es => ⟨fun p a b m k => Prod.ext ((Ex.alg e).comm _ _ _ _ _) ((Args.alg es).comm _ _ _ _ _),
      fun p a m k => Prod.ext ((Ex.alg e).add _ _ _ _) ((Args.alg es).add _ _ _ _)⟩
end

section
variable {σ : Type} {sub : StepOps σ} {R : σ → List Nat → Prop} {ush : List Nat} {us : List USlice}
  {S : List Sl}

/-- The loop of `to_end_impl` leads from the parent's last position to the last selected one. -/
theorem viewEndLoop_spec (hb : Bound ush us S) (hpos : 0 < numel (selShape ush us))
    (pre : List Nat) (ppos : List Nat)
    (hM : ∀ st idx a (n : Int), R st idx → InBounds (pre ++ ush) idx → a < (pre ++ ush).length →
      0 ≤ (idx.getD a 0 : Int) - n → (idx.getD a 0 : Int) - n < (pre ++ ush).getD a 0 →
      R (sub.stepBack st a n) (idx.set a ((idx.getD a 0 : Int) - n).toNat))
    (hp : InBounds pre ppos) {it : σ} {kp : List Int} (hk : kp.length = S.length)
    (hR : R it (ppos ++ ush.map (· - 1))) :
    ∃ it' kp', viewEndLoop sub (pre ++ ush) S kp pre.length it = some (it', kp') ∧
      R it' (ppos ++ (selIndex ush us ((selShape ush us).map (· - 1))).map Int.toNat) ∧
      kp'.length = S.length ∧
      ∀ i s, S[i]? = some s → s.isNew = false → kp'.getD i 0 = s.size - 1 := by
  induction hb generalizing pre ppos it kp with
  | nil sh =>
    refine ⟨it, [], by cases kp <;> simp [viewEndLoop], ?_, rfl, by simp⟩
    simpa [selIndex, selShape, toInts, Function.comp_def] using hR
  | @new sh us S hb ih =>
    cases kp with
    | nil => simp at hk
    | cons k kp =>
      simp only [selShape, numel] at hpos
      obtain ⟨it', kp', h1, h2, h3, h4⟩ := ih (by simpa using hpos) pre ppos hM hp
        (kp := kp) (by simpa using hk) hR
      refine ⟨it', k :: kp', by simp [viewEndLoop, Sl.isNew, h1], ?_, by simp [h3], ?_⟩
      · simpa [selShape, selIndex] using h2
      · intro i s hs hn
        cases i with
        | zero => simp at hs; subst hs; simp [Sl.isNew] at hn
        | succ i => simpa using h4 i s (by simpa using hs) hn
  | @cons n sh u us s S hu hs hb ih =>
    cases kp with
    | nil => simp at hk
    | cons k kp =>
    have key : ∀ x : Int, s.valueChk (s.size - 1) = some x → 0 ≤ x → x < n →
        0 < numel (selShape sh us) →
        ∃ it' kp', viewEndLoop sub (pre ++ n :: sh) (s :: S) (k :: kp) pre.length it = some (it', kp') ∧
          R it' (ppos ++ x.toNat :: (selIndex sh us ((selShape sh us).map (· - 1))).map Int.toNat) ∧
          kp'.length = (s :: S).length ∧
          ∀ i t, (s :: S)[i]? = some t → t.isNew = false → kp'.getD i 0 = t.size - 1 := by
      intro x hx h0 h1 hnum
      have hlp := hp.length_eq
      obtain ⟨q, hq, _⟩ := selIndex_bounds hb (inBounds_last hnum)
      have hq0 : 0 < numel sh := Nat.lt_of_le_of_lt (Nat.zero_le _) (rankIn_lt (L := .row_major) hq)
      have hbz : InBounds (pre ++ n :: sh) (ppos ++ (n - 1) :: sh.map (· - 1)) :=
        hp.append ⟨by omega, inBounds_last hq0⟩
      have hs1 := hM it _ pre.length ((n : Int) - 1 - x) (by simpa using hR) hbz (by simp)
        (by simp [← hlp]; omega) (by simp [← hlp]; omega)
      have e : (ppos ++ (n - 1) :: sh.map (· - 1)).set pre.length
          (((ppos ++ (n - 1) :: sh.map (· - 1)).getD pre.length 0 : Int) - ((n : Int) - 1 - x)).toNat =
          (ppos ++ [x.toNat]) ++ sh.map (· - 1) := by
        have : (((n - 1 : Nat) : Int) - ((n : Int) - 1 - x)).toNat = x.toNat := by omega
        simp [← hlp, this]
      rw [e] at hs1
      obtain ⟨it', kp', g1, g2, g3, g4⟩ := ih hnum (pre ++ [n]) (ppos ++ [x.toNat])
        (by simpa using hM) (hp.append ⟨by omega, trivial⟩) (kp := kp) (by simpa using hk) hs1
      have g1' : viewEndLoop sub (pre ++ n :: sh) S kp (pre.length + 1)
          (sub.stepBack it pre.length ((n : Int) - 1 - x)) = some (it', kp') := by simpa using g1
      refine ⟨it', (s.size - 1) :: kp', ?_, by simpa using g2, by simp [g3], ?_⟩
      · simp only [viewEndLoop, hs.notNew, hx, Option.bind_eq_bind, Option.bind_some, subMove]
        rw [if_neg (by simp), if_pos (by simp)]
        simp [g1']
      · intro i t ht hn
        cases i with
        | zero => simp at ht; subst ht; simp
        | succ i => simpa using g4 i t (by simpa using ht) hn
    by_cases hint : IsInt u
    · obtain ⟨c, rfl⟩ := hint
      have hb0 := hs.bounds (pyIndex n c) (by simp [axisSel])
      have hv := hs.value 0 (by simp [axisSel])
      have hsz : s.size = 1 := by rw [hs.size]; simp [axisSel]
      have hx : s.valueChk (s.size - 1) = some (pyIndex n c) := by
        rw [valueChk_eq (by omega) (by omega), hsz]
        simpa [axisSel] using hv
      obtain ⟨it', kp', h1, h2, h3, h4⟩ := key _ hx hb0.1 hb0.2 hpos
      exact ⟨it', kp', h1, by simpa [selIndex, selShape] using h2, h3, h4⟩
    · have h2 := selShape_cons (n := n) (sh := sh) (us := us) hu hint
      have h3 := selIndex_cons (n := n) (sh := sh) (us := us) hu hint
      rw [h2] at hpos ⊢
      have hp1 : 0 < (axisSel n u).length := by
        rcases Nat.eq_zero_or_pos (axisSel n u).length with h | h
        · simp [numel, h] at hpos
        · exact h
      have hp2 : 0 < numel (selShape sh us) := by
        rcases Nat.eq_zero_or_pos (numel (selShape sh us)) with h | h
        · simp [numel, h] at hpos
        · exact h
      have hlt : (axisSel n u).length - 1 < (axisSel n u).length := by omega
      have hb0 := hs.bounds ((axisSel n u).getD ((axisSel n u).length - 1) 0)
        (by simp [List.getD_eq_getElem?_getD, hlt])
      have hv := hs.value _ hlt
      have hsz := hs.size
      have hx : s.valueChk (s.size - 1) = some ((axisSel n u).getD ((axisSel n u).length - 1) 0) := by
        rw [valueChk_eq (by omega) (by omega), ← hv]
        congr 2; omega
      obtain ⟨it', kp', g1, g2, g3, g4⟩ := key _ hx hb0.1 hb0.2 hp2
      refine ⟨it', kp', g1, ?_, g3, g4⟩
      simp only [List.map_cons]
      rw [h3]; simpa using g2

/-- The counter incremented by `to_end_impl` is that of the first slice that is not a newaxis. -/
theorem bumpFirst_spec (P Q : List Sl) (s : Sl) (hP : ∀ t ∈ P, t.isNew = true) (hs : s.isNew = false)
    (kp : List Int) (hk : kp.length = (P ++ s :: Q).length) :
    bumpFirst (P ++ s :: Q) kp = kp.set P.length (kp.getD P.length 0 + 1) := by
  induction P generalizing kp with
  | nil =>
    cases kp with
    | nil => simp at hk
    | cons k kp => simp [bumpFirst, hs]
  | cons t P ih =>
    cases kp with
    | nil => simp at hk
    | cons k kp =>
      have := ih (fun x hx => hP x (by simp [hx])) kp (by simpa using hk)
      simp only [List.cons_append, bumpFirst, hP t (by simp), if_true, this, List.length_cons,
        List.set_cons_succ, List.getD_cons_succ]

theorem bumpLast_spec (P Q : List Sl) (s : Sl) (hQ : ∀ t ∈ Q, t.isNew = true) (hs : s.isNew = false)
    (kp : List Int) (hk : kp.length = (P ++ s :: Q).length) :
    (bumpFirst (P ++ s :: Q).reverse kp.reverse).reverse =
      kp.set P.length (kp.getD P.length 0 + 1) := by
  have hk' : kp.length = P.length + Q.length + 1 := by simp at hk; omega
  have h := bumpFirst_spec Q.reverse P.reverse s (by simpa using hQ) hs kp.reverse (by simp; omega)
  rw [show (P ++ s :: Q).reverse = Q.reverse ++ s :: P.reverse by simp, h]
  apply List.ext_getElem?
  intro i
  have h1 : Q.length < kp.length := by omega
  have h2 : P.length < kp.length := by omega
  by_cases hi : i < kp.length
  · rw [List.getElem?_reverse (by simpa using hi)]
    simp only [List.length_set, List.length_reverse, List.getElem?_set, List.getD_eq_getElem?_getD]
    by_cases he : P.length = i
    · subst he
      rw [if_pos (by omega), if_pos h1, if_pos rfl, if_pos h2, List.getElem?_reverse h1]
      congr 3; congr 1; omega
    · rw [if_neg (by omega), if_neg he, List.getElem?_reverse (by omega)]
      congr 1; omega
  · rw [List.getElem?_eq_none (by simp; omega), List.getElem?_eq_none (by simp; omega)]

theorem bumpFirst_length (S : List Sl) (kp : List Int) : (bumpFirst S kp).length = kp.length := by
  induction S generalizing kp with
  | nil => cases kp <;> simp [bumpFirst]
  | cons s S ih => cases kp with
    | nil => simp [bumpFirst]
    | cons k kp => simp only [bumpFirst]; split <;> simp [ih]

theorem forall₂_getElem? {α β : Type} {r : α → β → Prop} {l : List α} {m : List β}
    (h : List.Forall₂ r l m) {p : Nat} {b : β} (hp : m[p]? = some b) : ∃ a, l[p]? = some a ∧ r a b := by
  induction h generalizing p with
  | nil => simp at hp
  | @cons a b' l m h1 _ ih =>
    cases p with
    | zero => simp at hp; subst hp; exact ⟨a, rfl, h1⟩
    | succ p => simpa using ih (by simpa using hp)

/-- A slice with a counter has the same place among the slices and among the axes of the view. -/
theorem counted_place (hb : Bound ush us S)
    (hg : List.Forall₂ (fun u s => ∃ n, getSlice n u = .ok s) us S)
    (h : ∀ (p q : Nat) s t, p < q → us[p]? = some s → us[q]? = some t → IsInt s → ¬ Counted t)
    {d : Nat} {s : Sl} (hs : S[integralSkip S d]? = some s) (hc : s.counted = true) :
    integralSkip S d = d := by
  have he := integralSkip_eq S d
  have h0 : integralCountBefore S (integralSkip S d) = 0 := by
    by_contra hne
    obtain ⟨q, t, hq, ht, hti⟩ := exists_of_countP Sl.isInt S (integralSkip S d)
      (by simp only [integralCountBefore] at hne; omega)
    obtain ⟨u, hu, n, hn⟩ := forall₂_getElem? hg hs
    obtain ⟨v, hv, _, hvi⟩ := hb.kinds' q t ht
    exact h q _ v u hq hv hu (hvi.mp hti) ((getSlice_counted hn).mp hc)
  omega

/-- The last slice that is not a newaxis. -/
theorem last_not_new (S : List Sl) : (∀ t ∈ S, t.isNew = true) ∨
    ∃ P s Q, S = P ++ s :: Q ∧ s.isNew = false ∧ ∀ t ∈ Q, t.isNew = true := by
  induction S with
  | nil => left; simp
  | cons s S ih =>
    rcases ih with h | ⟨P, t, Q, rfl, h1, h2⟩
    · cases hs : s.isNew with
      | true => left; intro t ht; rcases List.mem_cons.1 ht with rfl | ht
                · exact hs
                · exact h t ht
      | false => right; exact ⟨[], s, S, rfl, hs, h⟩
    · right; exact ⟨s :: P, t, Q, rfl, h1, h2⟩

/-- Where the view's leading axis lies: beyond the slices on the parent's last axis, or on a slice of
the parent's leading axis that is taken in steps of one. -/
theorem lead_place (hb : Bound ush us S)
    (hg : List.Forall₂ (fun u s => ∃ n, getSlice n u = .ok s) us S) {L : Layout}
    (hL : L = .row_major ∨ L = .column_major) (hr : Reversible L ush us)
    (hne : 0 < (selShape ush us).length) :
    integralSkip S (leadAxis L (selShape ush us).length) -
        newaxisCountBefore S (integralSkip S (leadAxis L (selShape ush us).length)) =
      leadAxis L ush.length ∧
    ∀ s, S[integralSkip S (leadAxis L (selShape ush us).length)]? = some s →
      s.isNew = false ∧ ∃ u n, getSlice n u = .ok s ∧ UnitStep u := by
  have hdim := hb.selShape_length
  have hf := filter_newaxis_length hb
  have hc1 := hb.count_le
  have hc2 := Bound.counts_le S
  have hc3 := hb.integralCount_le
  rcases hL with rfl | rfl
  · simp only [Reversible, if_true] at hr
    simp only [leadAxis, if_true]
    rw [hdim] at hne ⊢
    rcases hr.2 with ⟨h1, h2⟩ | ⟨h1, vs, u, rfl, h2⟩
    · have h4 := integralSkip_append S [] (viewDim ush S - 1 - (S.length - integralCount S))
      rw [List.append_nil, integralSkip_nil] at h4
      simp only [viewDim] at h4 hne ⊢
      have h5 : integralSkip S (ush.length - integralCount S + newaxisCount S - 1) =
          ush.length + newaxisCount S - 1 := by
        rw [show S.length - integralCount S + (ush.length - integralCount S + newaxisCount S - 1 -
          (S.length - integralCount S)) = ush.length - integralCount S + newaxisCount S - 1 by omega] at h4
        omega
      rw [h5]
      refine ⟨by rw [nb_ge_length (by omega)]; omega, fun s hs => ?_⟩
      rw [List.getElem?_eq_none (by omega)] at hs; cases hs
    · obtain ⟨P, s, rfl⟩ : ∃ P s, S = P ++ [s] := by
        have : S ≠ [] := by rintro rfl; have := hb.length; simp at this
        exact ⟨S.dropLast, S.getLast this, (List.dropLast_append_getLast this).symm⟩
      obtain ⟨u', hu', n, hn⟩ := forall₂_getElem? hg (p := P.length) (b := s) (by simp)
      have hlen := hb.length
      simp only [List.length_append, List.length_singleton] at hlen
      have hPl : P.length = vs.length := by omega
      rw [hPl] at hu'
      simp at hu'
      subst hu'
      have hsi : s.isInt = false ∧ s.isNew = false := by
        obtain ⟨u2, hu2, e1, e2⟩ := hb.kinds' P.length s (by simp)
        rw [hPl] at hu2
        simp at hu2; subst hu2
        constructor
        · rw [Bool.eq_false_iff]; intro hc
          obtain ⟨c, rfl⟩ := e2.mp hc
          simp [UnitStep] at h2
        · rw [Bool.eq_false_iff]; intro hc
          rw [e1.mp hc] at h2
          simp [UnitStep] at h2
      have hi1 : integralCount (P ++ [s]) = integralCount P := by
        simp [integralCount, hsi.1]
      have hn1 : newaxisCount (P ++ [s]) = newaxisCount P := by
        simp [newaxisCount, hsi.2]
      have h4 := integralSkip_append P [s] 0
      rw [integralSkip_zero hsi.1, Nat.add_zero, Nat.add_zero] at h4
      simp only [List.length_append, List.length_singleton] at hf hc1 hc2
      have hv : viewDim ush (P ++ [s]) - 1 = P.length - integralCount P := by
        simp only [viewDim]; omega
      rw [hv, h4]
      refine ⟨?_, fun t ht => ?_⟩
      · rw [show newaxisCountBefore (P ++ [s]) P.length = newaxisCount P by
          simp [newaxisCountBefore, newaxisCount]]
        omega
      · simp at ht; subst ht
        exact ⟨hsi.2, u, n, hn, h2⟩
  · simp only [Reversible, show ¬ (Layout.column_major = Layout.row_major) by decide, if_false] at hr
    obtain ⟨-, u, vs, rfl, h2⟩ := hr
    simp only [leadAxis, show ¬ (Layout.column_major = Layout.row_major) by decide, if_false]
    cases hg with
    | @cons _ s _ S hg1 hg =>
    obtain ⟨n, hn⟩ := hg1
    have hsi : s.isInt = false ∧ s.isNew = false := by
      obtain ⟨u2, hu2, e1, e2⟩ := hb.kinds' 0 s (by simp)
      simp at hu2; subst hu2
      constructor
      · rw [Bool.eq_false_iff]; intro hc
        obtain ⟨c, rfl⟩ := e2.mp hc
        simp [UnitStep] at h2
      · rw [Bool.eq_false_iff]; intro hc
        rw [e1.mp hc] at h2
        simp [UnitStep] at h2
    rw [integralSkip_zero hsi.1]
    refine ⟨by simp, fun t ht => ?_⟩
    simp at ht; subst ht
    exact ⟨hsi.2, u, n, hn, h2⟩

/-- Only the counter of the slice on the leading axis is incremented by `to_end_impl`. -/
theorem bump_lead (hb : Bound ush us S)
    (hg : List.Forall₂ (fun u s => ∃ n, getSlice n u = .ok s) us S)
    (hr : Reversible .row_major ush us) (hne : 0 < (selShape ush us).length)
    {P Q : List Sl} {t : Sl} (hS : S = P ++ t :: Q) (ht : t.isNew = false)
    (hQ : ∀ x ∈ Q, x.isNew = true) {d : Nat} {s : Sl} (hs : S[integralSkip S d]? = some s)
    (hn : s.isNew = false) (hc : s.counted = true) :
    P.length = d ↔ d = leadAxis .row_major (selShape ush us).length := by
  have hlead := (lead_place hb hg (Or.inl rfl) hr hne).1
  have hd := counted_place hb hg hr.1 hs hc
  rw [hd] at hs
  have hdl : d < S.length := by
    by_contra h
    rw [List.getElem?_eq_none (by omega)] at hs; cases hs
  have hdim := hb.selShape_length
  have hf := filter_newaxis_length hb
  have hc3 := hb.integralCount_le
  have hnb1 : newaxisCountBefore S (d + 1) = newaxisCountBefore S d := by
    rw [nb_succ, hs]; simp [hn]
  have hnbS : newaxisCountBefore S S.length = newaxisCount S := nb_ge_length (le_refl _)
  have hnbd := nb_le S d
  have hdP : d ≤ P.length := by
    by_contra h
    obtain ⟨i, hi⟩ : ∃ i, d = P.length + 1 + i := ⟨d - P.length - 1, by omega⟩
    have : Q[i]? = some s := by
      rw [hS, hi, List.getElem?_append_right (by omega)] at hs
      simpa [show P.length + 1 + i - P.length = i + 1 by omega] using hs
    rw [hQ s (List.mem_of_getElem? this)] at hn
    cases hn
  simp only [Reversible, if_true] at hr
  rw [hdim] at hlead hne ⊢
  simp only [leadAxis, if_true] at hlead ⊢
  rcases hr.2 with ⟨h1, h2⟩ | ⟨h1, vs, u, rfl, h2⟩
  · have hlt : d < P.length := by
      obtain ⟨u, hu, n, hn⟩ := forall₂_getElem? hg hs
      obtain ⟨q, v, hq, hv, hvn⟩ := h2 d u hu ((getSlice_counted hn).mp hc)
      obtain ⟨x, hx, hx1, _⟩ := hb.kinds q v hv
      have hqP : q ≤ P.length := by
        by_contra h
        obtain ⟨i, hi⟩ : ∃ i, q = P.length + 1 + i := ⟨q - P.length - 1, by omega⟩
        have : Q[i]? = some x := by
          rw [hS, hi, List.getElem?_append_right (by omega)] at hx
          simpa [show P.length + 1 + i - P.length = i + 1 by omega] using hx
        exact hvn (hx1.mp (hQ x (List.mem_of_getElem? this)))
      omega
    refine ⟨fun h => by omega, fun h => ?_⟩
    rw [← h, hd] at hlead
    have := nb_lip S (q := d + 1) (k := S.length) (by omega)
    omega
  · obtain ⟨P', s', hS'⟩ : ∃ P' s', S = P' ++ [s'] := by
      have : S ≠ [] := by rintro rfl; simp at hdl
      exact ⟨S.dropLast, S.getLast this, (List.dropLast_append_getLast this).symm⟩
    have hlen := hb.length
    have hPl : P'.length = vs.length := by rw [hS'] at hlen; simpa using hlen
    have hk := hb.kinds' P'.length s' (by simp [hS'])
    obtain ⟨u2, hu2, e1, e2⟩ := hk
    rw [hPl] at hu2
    simp at hu2; subst hu2
    have hs'i : s'.isInt = false := by
      rw [Bool.eq_false_iff]; intro hc
      obtain ⟨c, rfl⟩ := e2.mp hc
      simp [UnitStep] at h2
    have hs'n : s'.isNew = false := by
      rw [Bool.eq_false_iff]; intro hc
      rw [e1.mp hc] at h2
      simp [UnitStep] at h2
    have hQn : Q = [] := by
      rcases List.eq_nil_or_concat Q with h | ⟨Q', x, rfl⟩
      · exact h
      · exfalso
        rw [hS'] at hS
        have := congrArg List.getLast? hS
        have h5 : P ++ t :: (Q' ++ [x]) = (P ++ t :: Q') ++ [x] := by simp
        rw [List.concat_eq_append, h5] at this
        simp only [List.getLast?_append, List.getLast?_singleton, Option.some_or,
          Option.some.injEq] at this
        have h6 := hQ x (by simp)
        rw [← this, hs'n] at h6
        cases h6
    subst hQn
    have hSl : S.length = P.length + 1 := by rw [hS]; simp
    have hlastn : newaxisCountBefore S (P.length + 1) = newaxisCountBefore S P.length := by
      rw [nb_succ]; simp [hS, ht]
    rw [hSl, hlastn] at hnbS
    constructor
    · intro h
      have hi0 : integralCountBefore S d = 0 := by
        have := integralSkip_eq S d
        rw [hd] at this; omega
      have hPP : P' = P ∧ s' = t := by
        rw [hS'] at hS
        have := List.append_inj' hS (by simp)
        simpa using this
      have hic : integralCount S = 0 := by
        rw [← h] at hi0
        rw [hS] at hi0 ⊢
        simp only [integralCountBefore, List.take_left'] at hi0
        simp only [integralCount, List.countP_append, hi0]
        simp [← hPP.2, hs'i]
      simp only [viewDim] at *
      omega
    · intro h
      rw [← h, hd] at hlead
      by_contra hne'
      have := nb_lip S (q := d + 1) (k := P.length) (by omega)
      omega

/-- The past-the-end state: one step back along the leading axis of the parent it stands at the last
element, and the counter of the leading axis is one more. -/
def ViewEndAt (sub : StepOps σ) (R : σ → List Nat → Prop) (L : Layout) (ush : List Nat)
    (us : List USlice) (S : List Sl) (st : VState σ) : Prop :=
  ∃ it kp, st = some (it, kp) ∧
    R (sub.stepBack it (leadAxis L ush.length) 1) (viewPos ush us ((selShape ush us).map (· - 1))) ∧
    kp.length = S.length ∧
    ∀ d s, d < (selShape ush us).length → S[integralSkip S d]? = some s → s.isNew = false →
      s.counted = true → kp.getD d 0 = ((selShape ush us).getD d 0 : Nat) - 1 +
        if d = leadAxis L (selShape ush us).length then 1 else 0

theorem viewEndImpl_at (hb : Bound ush us S)
    (hg : List.Forall₂ (fun u s => ∃ n, getSlice n u = .ok s) us S) (hM : MoveLaw sub ush R)
    (hA : BackAlg sub) {L : Layout} (hL : L = .row_major ∨ L = .column_major)
    (hr : Reversible L ush us) (hne : 0 < (selShape ush us).length)
    (hpos : 0 < numel (selShape ush us)) {it : σ} {kp : List Int} (hk : kp.length = S.length)
    (hR : R (sub.stepBack it (leadAxis L ush.length) 1) (ush.map (· - 1))) :
    ViewEndAt sub R L ush us S (viewEndImpl sub ush S L it kp) := by
  obtain ⟨it', kp', h1, h2, h3, h4⟩ := viewEndLoop_spec (sub := sub)
    (R := fun st pos => R (sub.stepBack st (leadAxis L ush.length) 1) pos) hb hpos [] []
    (fun st idx a n g1 g2 g3 g4 g5 => by
      simp only [List.nil_append] at g1 g2 g3 g5 ⊢
      rw [hA.comm]
      exact hM.stepBack _ _ a n g1 g2 g3 g4 g5) trivial hk hR
  simp only [List.nil_append, List.length_nil] at h1 h2
  have hlast := inBounds_last hpos
  have hvp : viewPos ush us ((selShape ush us).map (· - 1)) =
      (selIndex ush us ((selShape ush us).map (· - 1))).map Int.toNat := by
    simp only [viewPos]; rw [bcIndex_self hlast]
  rw [← hvp] at h2
  have hsize : ∀ d s, d < (selShape ush us).length → S[integralSkip S d]? = some s →
      s.isNew = false → s.size = ((selShape ush us).getD d 0 : Nat) := by
    intro d s hd hs hn
    have hsh : BroadcastsTo (selShape ush us) (selShape ush us) :=
      ⟨le_refl _, fun k _ => Or.inr (by simp)⟩
    obtain ⟨-, m2, -⟩ := view_move hb hsh rfl hM.step h2 hlast hd (v := 0)
      (by have := hlast.getD_lt hd; omega)
    exact (m2 s hs hn).2.2.1
  simp only [viewEndImpl, h1, Option.bind_some]
  rcases hL with rfl | rfl
  · rw [if_pos rfl]
    refine ⟨it', _, rfl, h2, by rw [List.length_reverse, bumpFirst_length, List.length_reverse]; exact h3,
      fun d s hd hs hn hc => ?_⟩
    have hp := counted_place hb hg hr.1 hs hc
    have hz := hsize d s hd hs hn
    rcases last_not_new S with hall | ⟨P, t, Q, hS, ht, hQ⟩
    · rw [hall s (List.mem_of_getElem? hs)] at hn; cases hn
    · have hbl := bump_lead hb hg hr hne hS ht hQ hs hn hc
      have hPl : P.length < kp'.length := by rw [h3, hS]; simp
      have hb1 := bumpLast_spec P Q t hQ ht kp' (by rw [h3, hS])
      rw [← hS] at hb1
      rw [hb1, getD_set_int hPl]
      have h5 := h4 d s (by rw [← hp]; exact hs) hn
      by_cases he : P.length = d
      · rw [if_pos (hbl.mp he), if_pos (by omega), he, h5]; omega
      · rw [if_neg (fun h => he (hbl.mpr h)), if_neg (by omega), h5]; omega
  · rw [if_neg (by decide), if_pos rfl]
    refine ⟨it', _, rfl, h2, by rw [bumpFirst_length]; exact h3, fun d s hd hs hn hc => ?_⟩
    have hp := counted_place hb hg hr.1 hs hc
    have hz := hsize d s hd hs hn
    have h5 := h4 d s (by rw [← hp]; exact hs) hn
    have hlp := (lead_place hb hg (Or.inr rfl) hr hne).2
    obtain ⟨-, u, vs, rfl, hu⟩ := hr
    cases hg with
    | @cons _ s0 _ Q hg1 hg =>
    have hs0n : s0.isNew = false := by
      obtain ⟨u2, hu2, e1, e2⟩ := hb.kinds' 0 s0 (by simp)
      simp at hu2; subst hu2
      rw [Bool.eq_false_iff]; intro hc
      rw [e1.mp hc] at hu
      simp [UnitStep] at hu
    have hb1 := bumpFirst_spec [] Q s0 (by simp) hs0n kp' (by simpa using h3)
    simp only [List.nil_append, List.length_nil] at hb1
    rw [hb1, getD_set_int (by rw [h3]; simp)]
    simp only [leadAxis, show ¬ (Layout.column_major = Layout.row_major) by decide, if_false]
    by_cases he : 0 = d
    · subst he
      rw [if_pos rfl, if_pos rfl, h5]; omega
    · rw [if_neg (by omega), if_neg (by omega), h5]; omega

/-- Backward moves of the view's stepper, within the view's own shape. -/
theorem view_back (hb : Bound ush us S)
    (hg : List.Forall₂ (fun u s => ∃ n, getSlice n u = .ok s) us S) (hM : MoveLaw sub ush R)
    (hA : BackAlg sub) {L : Layout} (hL : L = .row_major ∨ L = .column_major)
    (hr : Reversible L ush us) (hne : 0 < (selShape ush us).length)
    (hpos : 0 < numel (selShape ush us))
    (hend : ∀ st pos, R st pos → R (sub.stepBack (sub.toEnd st L) (leadAxis L ush.length) 1)
      (ush.map (· - 1))) :
    BackLaw (viewOps sub ush S 0) (selShape ush us) L (ViewAt R ush us S)
      (ViewEndAt sub R L ush us S) where
  stepBack st idx d n hR hi hd h0 h1 := view_stepBack hb hM hR hi hd h0 h1
  resetBack st idx d hR hi hd h1 := by
    obtain ⟨it, kp, rfl, hR, hkl, hk⟩ := hR
    have hil := hi.length_eq
    have hsh : BroadcastsTo (selShape ush us) (selShape ush us) :=
      ⟨le_refl _, fun k _ => Or.inr (by simp)⟩
    have hidx := hi.getD_lt hd
    obtain ⟨m1, m2, m3⟩ := view_move hb hsh rfl hM.step hR hi hd
      (v := (selShape ush us).getD d 0 - 1) (by omega)
    simp only [viewOps, viewReset, Option.bind_some]
    cases hs : S[integralSkip S d]? with
    | none =>
      obtain ⟨a1, a2, a3⟩ := m3 hs
      have hvs : (viewShape ush S)[d]? = some ((selShape ush us).getD d 0 : Int) := by
        rw [viewShape_eq hb]
        simp [toInts, hd]
      simp only [hvs, subMove, if_pos a1, Option.bind_eq_bind, Option.bind_some]
      refine ⟨_, _, rfl, ?_, by simpa using hkl, fun d' s' h1 h2 h3 h4 => (keeper_set_none hk (by omega)
        (by rw [hs]; rintro _ h; cases h) d' s' h1 h2 h3 h4).2⟩
      convert a3 using 2
      simp only [bcCoord]
      split <;> omega
    | some s =>
      dsimp only
      by_cases hn : s.isNew = true
      · rw [if_pos hn]
        refine ⟨_, _, rfl, by rw [m1 s hs hn]; exact hR, hkl, fun d' s' h1 h2 h3 h4 =>
          (keeper_set_none (w := 0) hk (by omega)
          (by rw [hs]; rintro _ h; cases h; exact hn) d' s' h1 h2 h3 h4).1⟩
      · have hn' : s.isNew = false := by simpa using hn
        rw [if_neg hn]
        obtain ⟨a1, a2, a3, a4⟩ := m2 s hs hn'
        have hkeep := keeper_set hkl hk (d := d) (v := (selShape ush us).getD d 0 - 1)
          (w := s.size - 1) (by omega) (fun _ => by omega) hs
        simp only [valueChk_eq (s := s) (c := s.size - 1) (by omega) (by omega),
          valueChk_eq (s := s) (c := 0) (by omega) (by omega), subMove, if_pos a1,
          Option.bind_eq_bind, Option.bind_some]
        refine ⟨_, _, rfl, ?_, by simpa using hkl, by simpa using hkeep⟩
        convert a4 using 2
        have e1 : ((bcCoord (selShape ush us) d ((selShape ush us).getD d 0 - 1) : Nat) : Int) =
            s.size - 1 := by
          simp only [bcCoord]; split <;> omega
        have e2 : ((bcCoord (selShape ush us) d (idx.getD d 0) : Nat) : Int) = 0 := by
          simp only [bcCoord]; split <;> omega
        rw [e1, e2]
  toEnd st idx hR hi := by
    obtain ⟨it, kp, rfl, hR, hkl, hk⟩ := hR
    simp only [viewOps, Option.bind_some]
    exact viewEndImpl_at hb hg hM hA hL hr hne hpos hkl (hend _ _ hR)
  endBack st n hE _ _ h1 h2 := by
    obtain ⟨it, kp, rfl, hR, hkl, hk⟩ := hE
    obtain ⟨hl1, hl2⟩ := lead_place hb hg hL hr hne
    have hlast := inBounds_last hpos
    have hd : leadAxis L (selShape ush us).length < (selShape ush us).length := by
      rcases hL with rfl | rfl
      · simp [leadAxis]; omega
      · simpa [leadAxis] using hne
    generalize leadAxis L (selShape ush us).length = d at *
    have hlg : ((selShape ush us).map (· - 1)).getD d 0 = (selShape ush us).getD d 0 - 1 := by
      simp [List.getD_eq_getElem?_getD, hd]
    have hsh : BroadcastsTo (selShape ush us) (selShape ush us) :=
      ⟨le_refl _, fun k _ => Or.inr (by simp)⟩
    obtain ⟨m1, m2, m3⟩ := view_move hb hsh rfl
      (mv := fun it a n => sub.stepBack it a (-n))
      (fun st idx a n g1 g2 g3 g4 g5 => by
        have := hM.stepBack st idx a (-n) g1 g2 g3 (by omega) (by omega)
        simpa using this) hR hlast hd (v := (selShape ush us).getD d 0 - n) (by omega)
    have hadd : ∀ m : Int, sub.stepBack (sub.stepBack it (leadAxis L ush.length) 1)
        (leadAxis L ush.length) m = sub.stepBack it (leadAxis L ush.length) (1 + m) :=
      fun m => hA.add _ _ _ _
    simp only [viewOps, viewStepBwd, Option.bind_some, ge_iff_le, Nat.zero_le, if_true]
    cases hs : S[integralSkip S d]? with
    | none =>
      obtain ⟨a1, a2, a3⟩ := m3 hs
      simp only [subMove, if_pos a1, Option.map_some]
      refine ⟨_, _, rfl, ?_, hkl, fun d' s' g1 g2 g3 g4 => ?_⟩
      · rw [hl1] at a3 ⊢
        simp only [hadd] at a3
        convert a3 using 2
        rw [hlg]
        simp only [bcCoord]; split <;> omega
      · have hdd : d ≠ d' := by rintro rfl; rw [hs] at g2; cases g2
        have g1' : d' < (selShape ush us).length := by simpa using g1
        rw [hk d' s' g1' g2 g3 g4, if_neg (Ne.symm hdd), getD_set_ne hdd]
        have := hlast.getD_lt g1'
        have e : ((selShape ush us).map (· - 1)).getD d' 0 = (selShape ush us).getD d' 0 - 1 := by
          simp [List.getD_eq_getElem?_getD, g1']
        omega
    | some s =>
      obtain ⟨hn', u, nn, hgs, hu⟩ := hl2 s hs
      dsimp only
      rw [if_neg (by simp [hn'])]
      obtain ⟨a1, a2, a3, a4⟩ := m2 s hs hn'
      have hkd := hk d s hd hs hn'
      rw [if_pos rfl] at hkd
      rw [stepChk_counter n (c' := s.size - n) (fun h => by rw [hkd h]; omega)]
      simp only [getSlice_unitStep hgs hu (m := (n : Int)) (by omega) (by omega), subMove, if_pos a1,
        Option.bind_eq_bind, Option.bind_some]
      have hkeep : ∀ d' s', d' < (((selShape ush us).map (· - 1)).set d
            ((selShape ush us).getD d 0 - n)).length → S[integralSkip S d']? = some s' →
          s'.isNew = false → s'.counted = true → (kp.set d (kp.getD d 0 - n)).getD d' 0 =
            ((((selShape ush us).map (· - 1)).set d ((selShape ush us).getD d 0 - n)).getD d' 0 : Nat) := by
        intro d' s' g1 g2 g3 g4
        have hdl : d < kp.length := by
          have h5 : integralSkip S d < S.length := by
            by_contra hc
            rw [List.getElem?_eq_none (by omega)] at hs
            cases hs
          have := integralSkip_eq S d
          omega
        have g1' : d' < (selShape ush us).length := by simpa using g1
        rw [getD_set_int hdl, getD_set_nat (by simpa using hd)]
        split
        · rename_i he
          subst he
          rw [hs] at g2; cases g2
          rw [hkd g4]; omega
        · rename_i he
          rw [hk d' s' g1' g2 g3 g4, if_neg (by omega)]
          have := hlast.getD_lt g1'
          have e : ((selShape ush us).map (· - 1)).getD d' 0 = (selShape ush us).getD d' 0 - 1 := by
            simp [List.getD_eq_getElem?_getD, g1']
          omega
      refine ⟨_, _, rfl, ?_, by simpa using hkl, hkeep⟩
      rw [hl1] at a4 ⊢
      simp only [hadd] at a4
      convert a4 using 2
      rw [hlg]
      have e1 : ((bcCoord (selShape ush us) d ((selShape ush us).getD d 0 - n) : Nat) : Int) =
          s.size - n := by
        simp only [bcCoord]; split <;> omega
      have e2 : ((bcCoord (selShape ush us) d ((selShape ush us).getD d 0 - 1) : Nat) : Int) =
          s.size - 1 := by
        simp only [bcCoord]; split <;> omega
      rw [e1, e2]; omega
  endBegin st _ h := by rw [h] at hne; simp at hne

end

/-- C59, backwards: reverse iteration over a view yields the selected elements in reverse order, for the
views of `Reversible`.  (Full claim: for every view; the theorems below are counterexamples.) -/
theorem C59_reverse_partial (L : Layout) (hL : L = .row_major ∨ L = .column_major)
    (e : Ex α) (ush : List Nat) (hf : Fits ush e) (hz : NoZeroDim e) (hgen : NoGen e ∨ L = .row_major)
    (us : List USlice) (hv : SlicesValid ush us) (hr : Reversible L ush us)
    (hne : selShape ush us ≠ []) :
    ∃ S, makeView ush us = .ok S ∧
      viewRValues e ush S L (selShape ush us) =
        ((selectedValues e ush us L (selShape ush us)).map some).reverse := by
  obtain ⟨S, hS, hb⟩ := makeView_ok hv
  refine ⟨S, hS, ?_⟩
  have hg := bindSlices_get hS
  have hM := Ex.moveLaw e hf
  have hn : (selShape ush us).foldl (· * ·) 1 = numel (selShape ush us) := by rw [foldl_mul_eq]; omega
  unfold viewRValues selectedValues
  simp only
  rw [hn, ← hb.selShape_length, Nat.sub_self]
  by_cases h0 : numel (selShape ush us) = 0
  · have h1 : (orderIndices L (selShape ush us)).length = 0 := by rw [length_orderIndices, h0]
    rw [List.eq_nil_of_length_eq_zero h1]
    simp [XIter.walkBack, XIter.equal, XIter.mkBegin, XIter.mkEnd, hn, h0]
  · have hpos : 0 < numel (selShape ush us) := by omega
    have hlen : 0 < (selShape ush us).length := by
      rcases h : selShape ush us with _ | _
      · exact absurd h hne
      · simp
    obtain ⟨q, hq, _⟩ := selIndex_bounds hb (inBounds_last hpos)
    have hq0 : 0 < numel ush := Nat.lt_of_le_of_lt (Nat.zero_le _) (rankIn_lt (L := .row_major) hq)
    have hul : 0 < ush.length := by
      rcases h : ush with _ | _
      · exfalso
        rw [h] at hr
        have hus := filter_newaxis_length hb
        have hcl := hb.count_le
        rw [h] at hcl
        simp only [Reversible] at hr
        split at hr
        · rcases hr.2 with ⟨h1, _⟩ | ⟨h1, vs, u, hu1, hu2⟩
          · simp at h1
          · rw [hu1] at h1
            cases u <;> simp [UnitStep] at hu2 h1
        · obtain ⟨u, vs, hu1, hu2⟩ := hr.2
          rw [hu1] at hus
          cases u <;> simp [UnitStep] at hu2 hus hcl <;> omega
      · simp
    have hB := Ex.back hL e hf (Or.inl hz) hgen
    have hlead : leadAxis L ush.length < ush.length := by
      simp only [leadAxis]; split <;> omega
    have hend1 : ∀ st, ExEnd e ush.length L st →
        ExAt e ((e.ops ush.length).stepBack st (leadAxis L ush.length) 1) (ush.map (· - 1)) := by
      intro st hE
      have h2 := (inBounds_last hq0).getD_lt hlead
      have h3 := hB.endBack st 1 hE hq0 hul (le_refl _) (by omega)
      have e1 : (ush.map (· - 1)).set (leadAxis L ush.length) (ush.getD (leadAxis L ush.length) 0 - 1) =
          ush.map (· - 1) := by
        apply ext_getD (by simp)
        intro k _
        rw [getD_set_nat (by simpa using hlead)]
        split
        · rename_i he
          subst he
          simp [List.getD_eq_getElem?_getD, hlead]
        · rfl
      rw [e1] at h3
      exact h3
    have hV := view_back hb hg hM (Ex.alg e) hL hr hlen hpos
      (fun st pos _ => hend1 _ (Ex.toEnd_end e st))
    have hE := viewEndImpl_at hb hg hM (Ex.alg e) hL hr hlen hpos (kp := List.replicate S.length 0)
      (by simp) (hend1 _ (Ex.stEnd_eq e _ hgen))
    obtain ⟨h1, h2⟩ := walkBack_spec hL hV
      (XIter.mkBegin (viewBegin (e.ops ush.length) ush S e.stBegin) (selShape ush us))
      (by simp [XIter.mkBegin]) (numel (selShape ush us) + 1) (numel (selShape ush us)) _
      (iterAt_end hE) (le_refl _) (by omega)
    have hol := length_orderIndices L (selShape ush us)
    apply List.ext_getElem?
    intro i
    by_cases hi : i < numel (selShape ush us)
    · rw [List.getElem?_reverse (by simpa [hol] using hi)]
      simp only [List.getElem?_map, List.length_map, hol]
      obtain ⟨st, hst⟩ : ∃ st, (XIter.walkBack (viewOps (e.ops ush.length) ush S 0) L (selShape ush us)
        (XIter.mkBegin (viewBegin (e.ops ush.length) ush S e.stBegin) (selShape ush us))
        (numel (selShape ush us) + 1)
        (XIter.mkEnd (viewEnd (e.ops ush.length) ush S L (e.stEnd ush.length L)) L
          (selShape ush us)))[i]? = some st :=
        ⟨_, List.getElem?_eq_getElem (by rw [viewEnd, h1]; exact hi)⟩
      obtain ⟨idx, a, b, it, kp, rfl, c, _⟩ := h2 i st (by rw [← hst]; rfl)
      obtain ⟨j, hj⟩ : ∃ j, (orderIndices L (selShape ush us))[numel (selShape ush us) - 1 - i]? = some j :=
        ⟨_, List.getElem?_eq_getElem (by rw [hol]; omega)⟩
      obtain ⟨hj1, hj2⟩ := rankIn_orderIndices hj
      have : idx = j := rankIn_inj (L := L) a hj1 (by omega)
      subst this
      rw [hst, hj]
      simp only [Option.map_some]
      have hsh : BroadcastsTo (selShape ush us) (selShape ush us) :=
        ⟨le_refl _, fun k _ => Or.inr (by simp)⟩
      rw [Ex.deref_eq e it _ hf (length_viewPos hb (inBounds_bcIndex hsh a)) c]
      rfl
    · rw [List.getElem?_eq_none (by rw [List.length_map]; rw [viewEnd, h1]; omega),
        List.getElem?_eq_none (by simp [hol]; omega)]

end

/-! ### Instances -/

/-- A row major array of shape (4, 3) that holds its own positions. -/
def exPos43 : Ex Int := .arr (StridedArr.mk' [4, 3] [3, 1] 0) (fun p => p)

theorem exPos43_fits : Fits [4, 3] exPos43 := by
  refine ⟨⟨rfl, ?_, StridedArr.mk'_back _ _ _ rfl⟩, by decide⟩
  rintro (_ | _ | k) <;> simp [StridedArr.mk']

/-- `C59_iteration_partial` at `view(a, keep(3, 0), newaxis, drop(1))`, under its own shape and repeated
along the newaxis. -/
example : SlicesValid [4, 3] [.keep [3, 0], .newaxis, .drop [1]] ∧ NoZeroDim exPos43 ∧
    Reversible .row_major [4, 3] [.keep [3, 0], .newaxis, .drop [1]] ∧
    selShape [4, 3] [.keep [3, 0], .newaxis, .drop [1]] = [2, 1, 2] ∧
    BroadcastsTo [2, 1, 2] [2, 2, 2] ∧ StillAxes [4, 3] [.keep [3, 0], .newaxis, .drop [1]] [2, 2, 2] ∧
    selectedValues exPos43 [4, 3] [.keep [3, 0], .newaxis, .drop [1]] .row_major [2, 1, 2] =
      [9, 11, 0, 2] ∧
    selectedValues exPos43 [4, 3] [.keep [3, 0], .newaxis, .drop [1]] .row_major [2, 2, 2] =
      [9, 11, 9, 11, 0, 2, 0, 2] := by
  refine ⟨by decide, by simp [NoZeroDim, exPos43, StridedArr.mk'], ?_, by decide, by decide,
    by simp [StillAxes]; decide, by decide, by decide⟩
  refine ⟨?_, ?_⟩
  · rintro (_ | _ | _ | p) q s t _ hs _ ⟨c, rfl⟩ <;> simp at hs
  · rw [if_pos rfl]
    exact Or.inr ⟨by decide, [.keep [3, 0], .newaxis], .drop [1], rfl, trivial⟩

/-- The views of `C59_reverse_partial` in column major order. -/
example : Reversible .column_major [4, 3] [.range none none (some 1), .int 2] ∧
    SlicesValid [4, 3] [.range none none (some 1), .int 2] ∧
    selShape [4, 3] [.range none none (some 1), .int 2] = [4] := by
  refine ⟨⟨?_, ?_⟩, by decide, by decide⟩
  · rintro (_ | _ | p) (_ | _ | q) s t hpq hs ht ⟨c, rfl⟩ <;> simp at hs ht <;> omega
  · rw [if_neg (by decide)]
    exact ⟨_, _, rfl, rfl⟩

/-- The hypotheses of `C59_more_axes_undefined` at `view(a, keep(0, 2))` under shape (2, 2, 3). -/
example : SlicesValid [4, 3] [.keep [0, 2]] ∧ selShape [4, 3] [.keep [0, 2]] = [2, 3] ∧
    BroadcastsTo [2, 3] [2, 2, 3] ∧ 0 < numel [2, 2, 3] := by decide

/-- An axis of one element that is not a `keep` is not repeated: the stepper leaves the selected row. -/
theorem C59_repeated_range_wrong :
    ∃ (us : List USlice) (S : List Sl) (sh : List Nat), SlicesValid [4, 3] us ∧
      makeView [4, 3] us = .ok S ∧ BroadcastsTo (selShape [4, 3] us) sh ∧
      (selShape [4, 3] us).length = sh.length ∧
      viewValues exPos43 [4, 3] S .row_major sh = [some 5, some 3, some 8, some 6, some 11, some 9] ∧
      selectedValues exPos43 [4, 3] us .row_major sh = [5, 3, 5, 3, 5, 3] :=
  ⟨[.range (some 1) (some 2) none, .keep [2, 0]], [.range 1 1, .keep [2, 0]], [3, 2],
    by decide, by decide, by decide, by decide, by decide, by decide⟩

/-- What reverse iteration gives for views outside `Reversible`: the slices, the values read and the
values selected, in row major order. -/
def Spec.reverseRuns (L : Layout) (us : List USlice) : Option (List (Option Int) × List Int) :=
  match makeView [4, 3] us with
  | .ok S => some (viewRValues exPos43 [4, 3] S L (selShape [4, 3] us),
      (selectedValues exPos43 [4, 3] us L (selShape [4, 3] us)).reverse)
  | _ => none

/-- A `keep` that is the last slice but not on the last axis: the wrong row is read. -/
theorem C59_reverse_keep_before_implicit_axis_wrong :
    reverseRuns .row_major [.keep [0, 2]] =
      some ([some 8, some 7, some 6, some 5, some 4, some 3], [8, 7, 6, 2, 1, 0]) := by decide

/-- A `keep` of one index as the last slice: the column after it is read. -/
theorem C59_reverse_keep_one_wrong :
    reverseRuns .row_major [.range (some 1) (some 3) none, .keep [1]] =
      some ([some 8, some 5], [7, 4]) := by decide

/-- An integer before a `keep`: the counter is kept at another place than it was set. -/
theorem C59_reverse_int_before_keep_undefined :
    reverseRuns .row_major [.int 1, .keep [1, 2]] = some ([none, none], [5, 4]) := by decide

/-- A stepped range as the last slice, next to a `keep`. -/
theorem C59_reverse_stepped_wrong :
    reverseRuns .row_major [.keep [0, 2], .range none none (some 2)] =
      some ([some 7, some 5, some 1, some (-1)], [8, 6, 2, 0]) := by decide

/-- A newaxis as the last slice, and as the first in column major order. -/
theorem C59_reverse_newaxis_wrong :
    reverseRuns .row_major [.all, .keep [2, 0], .newaxis] =
      some ([some 10, some 9, some 4, some 6, some 1, some 3, some (-2), some 0],
        [9, 11, 6, 8, 3, 5, 0, 2]) ∧
    reverseRuns .column_major [.newaxis, .keep [2, 0], .all] =
      some ([some 5, some 2, some (-5), some 1, some (-6), some 0], [2, 8, 1, 7, 0, 6]) := by decide

/-- An integer on the last axis of the parent. -/
theorem C59_reverse_int_last_wrong :
    reverseRuns .row_major [.keep [2, 0], .int 1] = some ([some 8, none], [1, 7]) := by decide

/-- A view of dimension 0: `to_begin` forgets the integers. -/
theorem C59_reverse_zero_dim_wrong :
    reverseRuns .row_major [.int 2, .int 1] = some ([some 0], [7]) := by decide

/-- A view of dimension 0 repeated: the reset reads its shape out of bounds. -/
theorem C59_zero_dim_repeated_undefined :
    makeView [4, 3] [.int 1, .int 1] = .ok [.int 1, .int 1] ∧
    BroadcastsTo (selShape [4, 3] [.int 1, .int 1]) [2, 2] ∧
    viewValues exPos43 [4, 3] [.int 1, .int 1] .row_major [2, 2] = [some 4, some 4, none, none] := by
  decide

end Xt
