import Verif.Props.View
import Verif.Props.Addressing
/-!
# C18 (writes) and C21 (views of views)
-/

namespace Xt
open Spec

/-! ## C18: writes -/

/-- C18: storing `x` through a view at an in-bounds index of the view stores it at the selected
element of a contiguous parent and leaves every other element of the parent as it was. -/
theorem C18_view_write {α : Type} (L l : Layout) (sh : List Nat) (us : List USlice)
    (hv : SlicesValid sh us) (h1 : NoIntAfterNewaxis us) (h2 : SecondNewaxisTrailing sh.length us)
    (buf : List α) (hbuf : buf.length = numel sh) (x : α) :
    ∃ S, makeView sh us = .ok S ∧ ∀ idx, InBounds (selShape sh us) idx →
      ∃ args, viewAccess sh S (toInts idx) = some args ∧
      ∀ j, InBounds sh j →
        (buf.set (dataOffset (computeStrides L l sh).1 false args).toNat x)[
          (dataOffset (computeStrides L l sh).1 false (toInts j)).toNat]? =
        if toInts j = selIndex sh us idx then some x
        else buf[(dataOffset (computeStrides L l sh).1 false (toInts j)).toNat]? := by
  obtain ⟨S, hS, hall⟩ := C18_view_element_partial sh us hv h1 h2
  refine ⟨S, hS, fun idx hi => ?_⟩
  obtain ⟨ha, pidx, hp, hs⟩ := hall idx hi []
  refine ⟨selIndex sh us idx, by simpa using ha, fun j hj => ?_⟩
  obtain ⟨hsz, hin, hinj, -⟩ := C01_bijection L l sh
  have b1 := hin pidx hp
  have b2 := hin j hj
  rw [hs]
  by_cases hj' : toInts j = toInts pidx
  · rw [if_pos hj', hj', List.getElem?_set_self]
    rw [hsz] at b1; omega
  · rw [if_neg hj', List.getElem?_set_ne]
    intro hc
    apply hj'
    rw [hinj pidx j hp hj (by omega)]

example : SlicesValid [2, 3] [.all, .int (-1)] ∧
    viewAccess [2, 3] [.all 2, .int 2] [1] = some [1, 2] ∧
    selIndex [2, 3] [.all, .int (-1)] [1] = [1, 2] := by decide

/-! ## C21 -/

/-- Index of the base expression denoted by an index of a tower of selections, innermost (applied
to the base) first. -/
def Spec.towerIndex : List Nat → List (List USlice) → List Nat → List Int
  | _, [], idx => toInts idx
  | sh, us :: uss, idx => selIndex sh us ((towerIndex (selShape sh us) uss idx).map Int.toNat)

/-- Shape of a tower of selections. -/
def Spec.towerShape : List Nat → List (List USlice) → List Nat
  | sh, [] => sh
  | sh, us :: uss => towerShape (selShape sh us) uss

/-- Every level of the tower is valid on the shape of the level below. -/
def Spec.TowerValid : List Nat → List (List USlice) → Prop
  | _, [] => True
  | sh, us :: uss => SlicesValid sh us ∧ NoIntAfterNewaxis us ∧ SecondNewaxisTrailing sh.length us ∧
      TowerValid (selShape sh us) uss

/-- Building `view(view(...(e, us₁)..., usₖ₋₁), usₖ)`: each constructor call binds the slices to the
shape the view below reports — views/xview.hpp:1694-1711 (see `makeView`, `viewShape`). -/
def makeTower (sh : List Nat) : List (List USlice) → Res (List (List Nat × List Sl))
  | [] => .ok []
  | us :: uss =>
    match makeView sh us with
    | .ok S => (makeTower ((viewShape sh S).map Int.toNat) uss).map ((sh, S) :: ·)
    | .throws => .throws
    | .ub => .ub

/-- `operator()` through a tower: every level forwards the index it computes to the level below —
views/xview.hpp:1418-1424. -/
def towerAccess : List (List Nat × List Sl) → List Int → Option (List Int)
  | [], args => some args
  | (sh, S) :: lv, args => (towerAccess lv args).bind (viewAccess sh S)

theorem map_toNat_toInts (l : List Nat) : (toInts l).map Int.toNat = l := by
  simp [toInts, Function.comp_def]

/-- C21: element access through a tower of views of any depth is access to the base expression at
the composition of the selections. -/
theorem C21_tower (sh : List Nat) (uss : List (List USlice)) (hv : TowerValid sh uss) :
    ∃ T, makeTower sh uss = .ok T ∧ ∀ idx, InBounds (towerShape sh uss) idx →
      towerAccess T (toInts idx) = some (towerIndex sh uss idx) ∧
      ∃ pidx, InBounds sh pidx ∧ towerIndex sh uss idx = toInts pidx := by
  induction uss generalizing sh with
  | nil => exact ⟨[], rfl, fun idx hi => ⟨rfl, idx, hi, rfl⟩⟩
  | cons us uss ih =>
    obtain ⟨hv1, h1, h2, hv2⟩ := hv
    obtain ⟨S, hS, hb⟩ := makeView_ok hv1
    obtain ⟨T, hT, hall⟩ := ih (selShape sh us) hv2
    refine ⟨(sh, S) :: T, ?_, fun idx hi => ?_⟩
    · simp only [makeTower, hS, viewShape_eq hb, map_toNat_toInts, hT]; rfl
    · obtain ⟨ha, p, hp, hpe⟩ := hall idx hi
      have := viewAccess_eq hb h1 h2 hp []
      simp only [List.nil_append] at this
      simp only [towerAccess, ha, Option.bind_some, hpe, towerIndex, map_toNat_toInts]
      exact ⟨this, selIndex_bounds hb hp⟩

example : TowerValid [4, 6] [[.range (some 1) none none, .range none none (some 2)],
    [.int 1, .range none none (some (-1))]] := by
  refine ⟨by decide, ?_, ?_, by decide, ?_, ?_, trivial⟩
  all_goals first
    | (intro p q r s t _ _ hp; exact absurd (List.mem_of_getElem? hp) (by simp))
    | (intro p q _ hp; exact absurd (List.mem_of_getElem? hp) (by simp))

example : towerIndex [4, 6] [[.range (some 1) none none, .range none none (some 2)],
    [.int 1, .range none none (some (-1))]] [0] = [2, 4] := by decide

/-- Strides and offset of a tower of strided views, innermost first. -/
def towerStrides : List (List Nat × List Sl) → List Int → Int → List Int × Int
  | [], pst, poff => (pst, poff)
  | (sh, S) :: lv, pst, poff => towerStrides lv (viewStrides sh pst S) (viewDataOffset pst poff S)

/-- Every level uses strided slices and at most as many slices as the level below has axes. -/
def Spec.TowerStrided : List Nat → List (List USlice) → Prop
  | _, [] => True
  | sh, us :: uss => SlicesValid sh us ∧ AllStrided us ∧ us.length ≤ sh.length ∧
      TowerStrided (selShape sh us) uss

/-- C21: the strides and data offset reported at the top of a tower of strided views address, in the
buffer of the base, the element the composed selection denotes. -/
theorem C21_tower_address (sh : List Nat) (uss : List (List USlice)) (hv : TowerStrided sh uss)
    (pst : List Int) (poff : Int) (hp : pst.length = sh.length) :
    ∃ T, makeTower sh uss = .ok T ∧ ∀ idx, InBounds (towerShape sh uss) idx →
      (towerStrides T pst poff).2 + dot (towerStrides T pst poff).1 (toInts idx) =
        poff + dot pst (towerIndex sh uss idx) ∧
      ∃ pidx, InBounds sh pidx ∧ towerIndex sh uss idx = toInts pidx := by
  induction uss generalizing sh pst poff with
  | nil => exact ⟨[], rfl, fun idx hi => ⟨rfl, idx, hi, rfl⟩⟩
  | cons us uss ih =>
    obtain ⟨hv1, hs1, hle, hv2⟩ := hv
    obtain ⟨S, hS, hb⟩ := makeView_ok hv1
    obtain ⟨S1, hS1, hadd⟩ := C19_view_address sh us hv1 hs1 pst poff hp hle
    obtain ⟨S2, hS2, hlen, -⟩ := C19_view_strides sh us hv1 hs1 pst hp
    rw [hS] at hS1 hS2
    obtain rfl : S = S1 := by simpa using hS1
    obtain rfl : S = S2 := by simpa using hS2
    obtain ⟨T, hT, hall⟩ := ih (selShape sh us) hv2 (viewStrides sh pst S) (viewDataOffset pst poff S) hlen
    refine ⟨(sh, S) :: T, ?_, fun idx hi => ?_⟩
    · simp only [makeTower, hS, viewShape_eq hb, map_toNat_toInts, hT]; rfl
    · obtain ⟨ha, p, hp', hpe⟩ := hall idx hi
      simp only [towerStrides, towerIndex, ha, hpe, map_toNat_toInts]
      exact ⟨hadd p hp', selIndex_bounds hb hp'⟩

example : TowerStrided [4, 6] [[.range (some 1) none none, .range none none (some 2)],
    [.int 1, .range none none (some (-1))]] := by
  refine ⟨by decide, ?_, by decide, by decide, ?_, by decide, trivial⟩ <;>
    intro u hu <;> simp at hu <;> rcases hu with rfl | rfl <;> simp

/-! ### Ranges of ranges -/

theorem pySlice_progression (n : Nat) (a b : Option Int) (k : Int) (hk : k ≠ 0) :
    pySlice n a b k = (List.range (pySlice n a b k).length).map
      (fun (m : Nat) => pyStart n k a + m * k) := by
  have h := pySlice_step_bounds n a b k hk
  have hl : (pySlice n a b k).length = (steppedSize (pyStart n k a) (pyStop n k b) k).toNat := by
    rw [← h, length_positions]; rfl
  rw [hl]
  conv_lhs => rw [← h]
  rfl

/-- Every arithmetic progression inside an axis is a range slice of the axis. -/
theorem progression_is_slice (n c : Nat) (s k : Int) (hk : k ≠ 0)
    (hb : ∀ m : Nat, m < c → 0 ≤ s + m * k ∧ s + m * k < n) :
    ∃ a b k', SliceValid n (.range a b (some k')) ∧
      pySlice n a b k' = (List.range c).map (fun (m : Nat) => s + m * k) := by
  cases c with
  | zero =>
    refine ⟨some 0, some 0, 1, ?_, ?_⟩
    · refine ⟨by decide, ?_, by omega⟩
      simp [pyStop, pyStart, pyClip]
    · have := pySlice_step_bounds n (some 0) (some 0) 1 (by decide)
      rw [← this]
      simp [pyStart, pyStop, pyClip, steppedSize, Sl.positions, Sl.size]
  | succ c =>
    have h0 := hb 0 (by omega)
    have hc := hb c (by omega)
    simp only [Nat.cast_zero, zero_mul, add_zero] at h0
    have fin : ∀ a b, pyStart n k a = s →
        (∀ m : Nat, (m : Int) < steppedSize s (pyStop n k b) k ↔ m < c + 1) →
        pySlice n a b k = (List.range (c + 1)).map (fun (m : Nat) => s + m * k) := by
      intro a b ha hm
      rw [← pySlice_step_bounds n a b k hk, ha]
      simp only [Sl.positions, Sl.size]
      have : (steppedSize s (pyStop n k b) k).toNat = c + 1 := by
        have e1 := (hm c).mpr (by omega)
        have e2 : ¬ ((c + 1 : Nat) : Int) < steppedSize s (pyStop n k b) k :=
          fun h => by have := (hm (c + 1)).mp h; omega
        push_cast at e2
        omega
      rw [this]; rfl
    by_cases hp : 0 < k
    · have hst : pyStart n k (some s) = s := by simp only [pyStart, pyClip, hp, if_true]; omega
      have hsp : pyStop n k (some (s + c * k + 1)) = s + c * k + 1 := by
        simp only [pyStop, pyClip, hp, if_true]; generalize (c : Int) * k = P at *; omega
      have hck : 0 ≤ (c : Int) * k := mul_nonneg (by omega) (by omega)
      refine ⟨some s, some (s + c * k + 1), k, ⟨hk, ?_, by omega⟩, fin _ _ hst ?_⟩
      · rw [hst, hsp]; omega
      · intro m
        rw [hsp, ← steppedSize_pos hp (by omega)]
        constructor
        · intro h
          by_contra hcm
          have : ((c : Int) + 1) * k ≤ m * k := mul_le_mul_of_nonneg_right (by omega) (by omega)
          rw [add_mul] at this; omega
        · intro h
          have : (m : Int) * k ≤ c * k := mul_le_mul_of_nonneg_right (by omega) (by omega)
          omega
    · have hst : pyStart n k (some s) = s := by simp only [pyStart, pyClip, hp, if_false]; omega
      have hck : (c : Int) * k ≤ 0 := mul_nonpos_of_nonneg_of_nonpos (by omega) (by omega)
      obtain ⟨b, hsp⟩ : ∃ b, pyStop n k b = s + c * k - 1 := by
        by_cases hz : s + c * k = 0
        · exact ⟨none, by simp only [pyStop, hp, if_false]; omega⟩
        · refine ⟨some (s + c * k - 1), ?_⟩
          simp only [pyStop, pyClip, hp, if_false]; generalize (c : Int) * k = P at *; omega
      refine ⟨some s, b, k, ⟨hk, by omega, ?_⟩, fin _ _ hst ?_⟩
      · rw [hst, hsp]; omega
      · intro m
        rw [hsp, ← steppedSize_neg (by omega) (by omega)]
        constructor
        · intro h
          by_contra hcm
          have : (m : Int) * k ≤ ((c : Int) + 1) * k := mul_le_mul_of_nonpos_right (by omega) (by omega)
          rw [add_mul] at this; omega
        · intro h
          have : (c : Int) * k ≤ m * k := mul_le_mul_of_nonpos_right (by omega) (by omega)
          omega

/-- C21: a range slice of a range slice selects what one range slice selects. -/
theorem C21_range_of_range (n : Nat) (a1 b1 a2 b2 : Option Int) (k1 k2 : Int) (hk1 : k1 ≠ 0)
    (hk2 : k2 ≠ 0) :
    ∃ a b k, SliceValid n (.range a b (some k)) ∧
      pySlice n a b k = (pySlice (pySlice n a1 b1 k1).length a2 b2 k2).map
        (fun p => (pySlice n a1 b1 k1).getD p.toNat 0) := by
  have e1 := pySlice_progression n a1 b1 k1 hk1
  have hm1 : ∀ x ∈ pySlice n a1 b1 k1, 0 ≤ x ∧ x < n := fun x hx => mem_pySlice hk1 hx
  generalize (pySlice n a1 b1 k1).length = c1 at *
  have e2 := pySlice_progression c1 a2 b2 k2 hk2
  have hm2 : ∀ x ∈ pySlice c1 a2 b2 k2, 0 ≤ x ∧ x < c1 := fun x hx => mem_pySlice hk2 hx
  generalize (pySlice c1 a2 b2 k2).length = c2 at *
  generalize pyStart n k1 a1 = s1 at *
  generalize pyStart c1 k2 a2 = s2 at *
  have hpt : ∀ m : Nat, m < c2 →
      (pySlice n a1 b1 k1).getD (s2 + m * k2).toNat 0 = (s1 + s2 * k1) + m * (k1 * k2) := by
    intro m hm
    have hb := hm2 (s2 + m * k2) (by rw [e2]; exact List.mem_map.mpr ⟨m, by simpa using hm, rfl⟩)
    rw [e1, List.getD_eq_getElem?_getD, List.getElem?_map, List.getElem?_range (by omega)]
    simp only [Option.map_some, Option.getD_some]
    rw [Int.toNat_of_nonneg hb.1]; ring
  obtain ⟨a, b, k, h1, h2⟩ := progression_is_slice n c2 (s1 + s2 * k1) (k1 * k2)
    (mul_ne_zero hk1 hk2) (by
      intro m hm
      rw [← hpt m hm]
      have hb := hm2 (s2 + m * k2) (by rw [e2]; exact List.mem_map.mpr ⟨m, by simpa using hm, rfl⟩)
      apply hm1
      have hlen : (pySlice n a1 b1 k1).length = c1 := by rw [e1]; simp
      rw [List.getD_eq_getElem?_getD, List.getElem?_eq_getElem (by omega)]
      simp)
  refine ⟨a, b, k, h1, ?_⟩
  rw [h2, e2, List.map_map]
  apply List.map_congr_left
  intro m hm
  exact (hpt m (by simpa using hm)).symm

example : (pySlice (pySlice 20 (some 2) none 3).length none none (-2)).map
    (fun p => (pySlice 20 (some 2) none 3).getD p.toNat 0) = [17, 11, 5] ∧
    pySlice 20 (some 17) (some 4) (-6) = [17, 11, 5] := by decide

end Xt
