import Verif.Model.FrontBack
import Verif.Props.ViewStepper
import Verif.Props.AssignAlias
/-!
# C109: `front()` and `back()`
-/

namespace Xt
open Spec

variable {α : Type}

theorem rankIn_last : ∀ (sh : List Nat), 0 < numel sh → rankIn .row_major sh (sh.map (· - 1)) + 1 = numel sh := by
  intro sh
  show _ → rowRank sh (sh.map (· - 1)) + 1 = numel sh
  induction sh with
  | nil => intro _; rfl
  | cons x s ih =>
    intro h
    rw [numel_cons] at h
    have hs : 0 < numel s := Nat.pos_of_mul_pos_left h
    have hx : 0 < x := Nat.pos_of_mul_pos_right h
    rw [List.map_cons, rowRank_cons, numel_cons]
    have := ih hs
    obtain ⟨y, rfl⟩ : ∃ y, x = y + 1 := ⟨x - 1, by omega⟩
    rw [Nat.add_sub_cancel, Nat.succ_mul]
    omega

theorem getLast_orderIndices {sh : List Nat} (h : 0 < numel sh) :
    (orderIndices .row_major sh).getLast? = some (sh.map (· - 1)) := by
  rw [List.getLast?_eq_getElem?, length_orderIndices]
  obtain ⟨j, hj⟩ : ∃ j, (orderIndices .row_major sh)[numel sh - 1]? = some j :=
    ⟨_, List.getElem?_eq_getElem (by rw [length_orderIndices]; omega)⟩
  obtain ⟨h1, h2⟩ := rankIn_orderIndices hj
  rw [hj, rankIn_inj (L := .row_major) h1 (inBounds_last h) (by have := rankIn_last sh h; omega)]

theorem head_orderIndices {sh : List Nat} (h : 0 < numel sh) :
    (orderIndices .row_major sh).head? = some (List.replicate sh.length 0) := by
  rw [List.head?_eq_getElem?]
  obtain ⟨j, hj⟩ : ∃ j, (orderIndices .row_major sh)[0]? = some j :=
    ⟨_, List.getElem?_eq_getElem (by rw [length_orderIndices]; omega)⟩
  obtain ⟨h1, h2⟩ := rankIn_orderIndices hj
  have hz := (iterAt_begin (L := .row_major) (σ := Unit) (R := fun _ _ => True) (E := fun _ => True) (st := ()) h trivial).inner h
  rw [hj, rankIn_inj (L := .row_major) h1 hz.1 (by rw [h2]; exact hz.2.1.symm)]
  rfl

/-- C109: `front()` of an expression with elements is its element with all indices 0. -/
theorem C109_front (sh : List Nat) (e : Ex α) (hf : Fits sh e) (hp : 0 < numel sh) :
    e.accFront sh = valueAt e (List.replicate sh.length 0) :=
  Ex.deref_eq e _ _ hf (inBounds_zeros (inBounds_last hp)) (Ex.at_begin e hf)

/-- C109: `back()` of an expression with elements is its element with all indices at their largest, if no operand is an array without
axes or the expression itself has none.  (Full claim: for all expressions; `C109_back_zero_dim_wrong` is the counterexample.) -/
theorem C109_back_partial (sh : List Nat) (e : Ex α) (hf : Fits sh e) (hz : NoZeroDim e ∨ sh = []) (hp : 0 < numel sh) :
    e.accBack sh = valueAt e (sh.map (· - 1)) := by
  have hE := iterAt_end (L := .row_major) (sh := sh) (R := ExAt e) (E := ExEnd e sh.length .row_major)
    (st := e.stEnd sh.length .row_major) (Ex.stEnd_eq e _ (Or.inr rfl))
  obtain ⟨p, hpn⟩ : ∃ p, numel sh = p + 1 := ⟨numel sh - 1, by omega⟩
  rw [hpn] at hE
  have hD := hE.dec (Or.inl rfl) (Ex.back (Or.inl rfl) e hf hz (Or.inr rfl)) (by omega)
  obtain ⟨h1, h2, h3⟩ := hD.inner (by omega)
  have hi := rankIn_inj (L := .row_major) h1 (inBounds_last hp) (by have := rankIn_last sh hp; omega)
  rw [hi] at h3
  exact Ex.deref_eq e _ _ hf (inBounds_last hp) h3

/-- C109 for containers whose iterators are those of their storage. -/
theorem C109_storage (sh : List Nat) (hp : 0 < numel sh) :
    linearFront (numel sh) = dot (computeStrides .row_major .row_major sh).1 (toInts (List.replicate sh.length 0)) ∧
    linearBack (numel sh) = dot (computeStrides .row_major .row_major sh).1 (toInts (sh.map (· - 1))) := by
  have hb := inBounds_last hp
  have hz := (iterAt_begin (L := .row_major) (σ := Unit) (R := fun _ _ => True) (E := fun _ => True) (st := ()) hp trivial).inner hp
  have hr : rowRank sh (List.replicate sh.length 0) = 0 := hz.2.1
  have hl : rowRank sh (sh.map (· - 1)) + 1 = numel sh := rankIn_last sh hp
  rw [dot_computeStrides_row (Or.inl rfl) hb, dot_computeStrides_row (Or.inl rfl) (inBounds_zeros hb), hr]
  exact ⟨rfl, by unfold linearBack; omega⟩

/-- C109: `front()` of a view with elements is the first of the selected ones. -/
theorem C109_view_front (e : Ex α) (ush : List Nat) (hf : Fits ush e) (us : List USlice) (hv : SlicesValid ush us)
    (hp : 0 < numel (selShape ush us)) :
    ∃ S, makeView ush us = .ok S ∧ viewFront e ush S (selShape ush us) =
      some (valueAt e ((selIndex ush us (List.replicate (selShape ush us).length 0)).map Int.toNat)) := by
  obtain ⟨S, h1, h2⟩ := C59_iteration_partial .row_major (Or.inl rfl) e ush hf us hv (selShape ush us) (broadcastsTo_refl _) rfl (Or.inl rfl)
  refine ⟨S, h1, ?_⟩
  have hn : (selShape ush us).foldl (· * ·) 1 = numel (selShape ush us) := by rw [foldl_mul_eq]; omega
  have h3 := congrArg List.head? h2
  rw [selectedValues, List.map_map, List.head?_map, head_orderIndices hp] at h3
  simp only [Option.map_some, Function.comp_apply] at h3
  rw [bcIndex_self (inBounds_zeros (inBounds_last hp))] at h3
  have h0 : ∀ (st st' : VState e.State), (XIter.mkBegin st (selShape ush us)).equal (XIter.mkEnd st' .row_major (selShape ush us)) = false := by
    intro st st'
    simp [XIter.equal, XIter.mkBegin, XIter.mkEnd, hn]; omega
  unfold viewValues at h3
  simp only [XIter.walk, h0, Bool.false_eq_true, if_false, List.map_cons, List.head?_cons] at h3
  exact Option.some.inj h3

/-- C109: `back()` of a view with elements is the last of the selected ones, for the views of `Reversible`.  (Full claim: for every view;
the theorems below are counterexamples.) -/
theorem C109_view_back_partial (e : Ex α) (ush : List Nat) (hf : Fits ush e) (hz : NoZeroDim e) (us : List USlice)
    (hv : SlicesValid ush us) (hr : Reversible .row_major ush us) (hne : selShape ush us ≠ []) (hp : 0 < numel (selShape ush us)) :
    ∃ S, makeView ush us = .ok S ∧ viewBack e ush S (selShape ush us) =
      some (valueAt e ((selIndex ush us ((selShape ush us).map (· - 1))).map Int.toNat)) := by
  obtain ⟨S, h1, h2⟩ := C59_reverse_partial .row_major (Or.inl rfl) e ush hf hz (Or.inr rfl) us hv hr hne
  refine ⟨S, h1, ?_⟩
  have hn : (selShape ush us).foldl (· * ·) 1 = numel (selShape ush us) := by rw [foldl_mul_eq]; omega
  have h3 := congrArg List.head? h2
  rw [List.head?_reverse, selectedValues, List.map_map, List.getLast?_map, getLast_orderIndices hp] at h3
  simp only [Option.map_some, Function.comp_apply] at h3
  rw [bcIndex_self (inBounds_last hp)] at h3
  have h0 : ∀ (st st' : VState e.State), (XIter.mkEnd st' .row_major (selShape ush us)).equal (XIter.mkBegin st (selShape ush us)) = false := by
    intro st st'
    simp [XIter.equal, XIter.mkBegin, XIter.mkEnd, hn]; omega
  unfold viewRValues at h3
  simp only [XIter.walkBack, h0, Bool.false_eq_true, if_false, List.map_cons, List.head?_cons] at h3
  exact Option.some.inj h3

/-- The iterator before the end of an expression with axes and elements: one step back along the last axis. -/
theorem dec_end {σ : Type} (ops : StepOps σ) (st : σ) {sh : List Nat} (hne : sh ≠ []) (hp : 0 < numel sh) :
    (XIter.dec ops .row_major sh (XIter.mkEnd st .row_major sh)).st = ops.stepBack st (sh.length - 1) 1 := by
  have hpos : 0 < sh.length := List.length_pos_iff.2 hne
  have hl : (endIndex .row_major sh).length = sh.length := by simp [endIndex]
  obtain ⟨as, has⟩ := axisOrder_cons (L := .row_major) hpos
  have hd : (endIndex .row_major sh).getD (leadAxis .row_major sh.length) 0 ≠ 0 := by
    rw [getD_endIndex_lead hpos]
    have := lead_pos (L := .row_major) hp hpos
    omega
  simp only [XIter.dec, XIter.mkEnd, decStepper, hl, has, decLoop, if_pos hd, Bool.false_eq_true, if_false]
  simp [leadAxis]

/-- C109 fails for expressions with axes and an operand without: `back()` reads that operand one position past its only element. -/
theorem C109_back_zero_dim_wrong (f : List α → α) (a : Ex α) (off : Int) (mem : Int → α) (sh : List Nat) (hf : Fits sh a)
    (hz : NoZeroDim a) (hne : sh ≠ []) (hp : 0 < numel sh) :
    (Ex.fn f (.cons a (.cons (.arr (StridedArr.mk' [] [] off) mem) .nil))).accBack sh =
      f [valueAt a (sh.map (· - 1)), mem (off + 1)] := by
  have h1 := C109_back_partial sh a hf (Or.inl hz) hp
  have hpos : 0 < sh.length := List.length_pos_iff.2 hne
  unfold Ex.accBack Ex.iterEnd at h1 ⊢
  rw [dec_end _ _ hne hp] at h1 ⊢
  rw [← h1]
  have h2 : (xstepperOps (StridedArr.mk' [] [] off) (sh.length - 0)).stepBack
      (xstepperEnd (StridedArr.mk' [] [] off) .row_major (sh.length - 0)) (sh.length - 1) 1 = off + 1 := by
    have : ¬ (sh.length - 1 ≥ sh.length - 0) := by omega
    simp [xstepperOps, xstepperEnd, stridedDataEnd, StridedArr.mk', this]
  rw [← h2]
  rfl

/-- `front()` and `back()` of an array without elements look at memory all the same: they return a reference to something that is not an
element. -/
theorem C109_empty_wrong (c : StridedArr) (mem : Int → α) (h0 : numel c.shape = 0) :
    (∀ idx, ¬ InBounds c.shape idx) ∧ (Ex.arr c mem).accFront c.shape = mem c.off := by
  refine ⟨fun idx hb => ?_, rfl⟩
  have := rankIn_lt (L := .row_major) hb
  omega

/-- C109 fails for views with steppers of their own outside `Reversible`: what `back()` gives and what it should. -/
def Spec.backRuns (us : List USlice) : Option (Option Int × Option Int) :=
  match makeView [4, 3] us with
  | .ok S => some (viewBack exPos43 [4, 3] S (selShape [4, 3] us), (selectedValues exPos43 [4, 3] us .row_major (selShape [4, 3] us)).getLast?)
  | _ => none

/-- `view(e, range(1, 3), keep(1))`: the column after the selected one. -/
theorem C109_view_back_keep_wrong : backRuns [.range (some 1) (some 3) none, .keep [1]] = some (some 8, some 7) := by decide

/-- `view(e, 1, keep(1, 2))`: undefined. -/
theorem C109_view_back_int_keep_wrong : backRuns [.int 1, .keep [1, 2]] = some (none, some 5) := by decide

/-- `view(e, keep(0, 2), range(_, _, 2))`: one step of 1 instead of 2. -/
theorem C109_view_back_stepped_wrong : backRuns [.keep [0, 2], .range none none (some 2)] = some (some 7, some 8) := by decide

/-- `view(e, 2, 1)` of an expression without memory: the first element of `e`. -/
theorem C109_view_back_zero_dim_wrong : backRuns [.int 2, .int 1] = some (some 0, some 7) := by decide

/-! ### Examples -/

theorem exPos43_noZeroDim : NoZeroDim exPos43 := by simp [NoZeroDim, exPos43, StridedArr.mk']

/-- An array of shape (4, 3). -/
example : exPos43.accFront [4, 3] = 0 ∧ exPos43.accBack [4, 3] = 11 :=
  ⟨C109_front [4, 3] exPos43 exPos43_fits (by decide), C109_back_partial [4, 3] exPos43 exPos43_fits (Or.inl exPos43_noZeroDim) (by decide)⟩

/-- `a + b` for a scalar array `b` at the position 100: `back()` reads the position 101. -/
example : (Ex.fn List.sum (.cons exPos43 (.cons (.arr (StridedArr.mk' [] [] 100) (fun p => p)) .nil))).accBack [4, 3] =
    [(11 : Int), 101].sum :=
  C109_back_zero_dim_wrong List.sum exPos43 100 (fun p => p) [4, 3] exPos43_fits exPos43_noZeroDim (by decide) (by decide)

/-- A container of shape (2, 3). -/
example : linearBack (numel [2, 3]) = 5 ∧ dot (computeStrides .row_major .row_major [2, 3]).1 (toInts [1, 2]) = 5 :=
  ⟨rfl, (C109_storage [2, 3] (by decide)).2.symm⟩

/-- `view(e, keep(3, 1), range(1, 3))`. -/
example : (∃ S, makeView [4, 3] [.keep [3, 1], .range (some 1) (some 3) none] = .ok S ∧ viewFront exPos43 [4, 3] S [2, 2] = some 10) ∧
    (∃ S, makeView [4, 3] [.keep [3, 1], .range (some 1) (some 3) none] = .ok S ∧ viewBack exPos43 [4, 3] S [2, 2] = some 5) :=
  ⟨C109_view_front exPos43 [4, 3] exPos43_fits [.keep [3, 1], .range (some 1) (some 3) none] (by decide) (by decide),
   C109_view_back_partial exPos43 [4, 3] exPos43_fits exPos43_noZeroDim [.keep [3, 1], .range (some 1) (some 3) none]
     (by decide) (by
       refine ⟨?_, ?_⟩
       · rintro (_ | _ | p) q s t _ hs _ ⟨c, rfl⟩ <;> simp at hs
       · rw [if_pos rfl]
         exact Or.inr ⟨by decide, [.keep [3, 1]], .range (some 1) (some 3) none, rfl, trivial⟩) (by decide) (by decide)⟩

/-- An array of shape (0, 3). -/
example : (∀ idx, ¬ InBounds [0, 3] idx) ∧ (Ex.arr (StridedArr.mk' [0, 3] [3, 1] 0) (fun p => p)).accFront [0, 3] = 0 :=
  C109_empty_wrong (StridedArr.mk' [0, 3] [3, 1] 0) (fun p => p) (by decide)

end Xt
