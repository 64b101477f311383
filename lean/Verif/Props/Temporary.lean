import Verif.Model.Temporary
import Verif.Props.StaticShape
/-!
# C101: the containers that expressions are evaluated into have room for them
-/

namespace Xt
open Spec

/-- C101: a container has the shape that was asked for exactly if its type allows it. -/
theorem C101_resized (ct : ShapeTy) (s : List Nat) : containerResized ct s = .ok s ↔ TyFits ct s := by
  cases ct with
  | dyn => exact iff_of_true rfl trivial
  | arr n =>
    by_cases h : s.length = n
    · exact iff_of_true (if_pos h) h
    · refine iff_of_false ?_ h
      simp [containerResized, h]
  | fixed s' => exact ⟨fun h => by simpa [containerResized, TyFits] using h.symm, fun h => congrArg _ (Eq.symm h)⟩

theorem containerResized_fits {ct : ShapeTy} {s : List Nat} (h : TyFits ct s) : containerResized ct s = .ok s :=
  (C101_resized ct s).2 h

/-- The type of the container of an expression fits its shape. -/
theorem TyExpr.temporary_fits (e : TyExpr) (h : e.Plain) {s : List Nat} (hs : HasShape e s) :
    ∃ ct, e.temporary = some ct ∧ TyFits ct s := by
  obtain ⟨h1, h2⟩ := C101_shape_partial e h
  obtain ⟨t, hr⟩ := (h1 s).2 hs
  have hx : ∃ ct, (e.run.map fun (r : ShapeTy × List Nat) => xtypeForShape r.1) = some ct ∧ TyFits ct s := by
    refine ⟨t, ?_, h2 t s hr⟩
    rw [hr]
    cases t <;> rfl
  cases e with
  | leaf t sh => exact hx
  | fn args => exact hx
  | reduce e ax axes keep => exact hx
  | bcast e ax sh => exact hx
  | view e us =>
    simp only [TyExpr.Plain] at h
    simp only [HasShape] at hs
    obtain ⟨s0, hs0, rfl⟩ := hs
    obtain ⟨g1, g2⟩ := C101_shape_partial e h.1
    obtain ⟨t0, hr0⟩ := (g1 s0).2 hs0
    have hf := g2 t0 s0 hr0
    obtain ⟨S, k1, k2⟩ := makeView_ok (h.2 s0 hs0).1
    have hlen : (selShape s0 us).length = s0.length - integralCount S + newaxisCount S := k2.selShape_length
    have hle := k2.integralCount_le
    refine ⟨viewTemporaryTy t0 S, by simp only [TyExpr.temporary, hr0, k1], ?_⟩
    cases t0 with
    | dyn => trivial
    | fixed I => trivial
    | arr n =>
      simp only [TyFits] at hf
      simp only [viewTemporaryTy, TyFits]
      omega

/-- C101: evaluating an expression makes a container of the shape that the expression has by the rules for run-time shapes, whatever
the types of the operands tell the compiler; nothing is written past a shape that is too short, and no fixed shape is another one.
Missing: the conditions of `Plain`. -/
theorem C101_eval_partial (e : TyExpr) (h : e.Plain) (s : List Nat) : e.evalShape = some (.ok s) ↔ HasShape e s := by
  obtain ⟨h1, -⟩ := C101_shape_partial e h
  have key : ∀ s', HasShape e s' → e.evalShape = some (.ok s') := by
    intro s' hs
    obtain ⟨ct, k1, k2⟩ := e.temporary_fits h hs
    obtain ⟨t, hr⟩ := (h1 s').2 hs
    simp only [TyExpr.evalShape, hr, k1, containerResized_fits k2]
  refine ⟨fun he => ?_, key s⟩
  cases hr : e.run with
  | none => simp [TyExpr.evalShape, hr] at he
  | some r =>
    have hs' := (h1 r.2).1 ⟨r.1, hr⟩
    have := key r.2 hs'
    rw [he] at this
    simp only [Option.some.injEq, Res.ok.injEq] at this
    rw [this]; exact hs'

/-- C101: the temporary of an assignment to a view can take every expression of the shape of the view.
Missing: the conditions of `Plain`. -/
theorem C101_view_temporary_partial (e : TyExpr) (us : List USlice) (h : (TyExpr.view e us).Plain) {s : List Nat}
    (hs : HasShape (.view e us) s) : (TyExpr.view e us).tempShape s = some (.ok s) := by
  obtain ⟨ct, k1, k2⟩ := (TyExpr.view e us).temporary_fits h hs
  simp only [TyExpr.tempShape, k1, Option.map_some, containerResized_fits k2]

/-- C101: how much the type of the container knows: an `xtensor` for expressions whose number of axes is known and an
`xtensor_fixed` for those whose shape is; views of an `xtensor_fixed` get an `xarray`. -/
theorem C101_eval_types (t : ShapeTy) (sh : List Nat) (us : List USlice) {S : List Sl} (hS : makeView sh us = .ok S) :
    (TyExpr.leaf t sh).temporary = some t ∧
    ((TyExpr.view (.leaf t sh) us).temporary = some .dyn ↔ ∀ n, t ≠ .arr n) := by
  refine ⟨by cases t <;> rfl, ?_⟩
  cases t with
  | dyn => simp [TyExpr.temporary, TyExpr.run, hS, viewTemporaryTy]
  | arr n => simp [TyExpr.temporary, TyExpr.run, hS, viewTemporaryTy]
  | fixed I => simp [TyExpr.temporary, TyExpr.run, hS, viewTemporaryTy]

/-- C101 fails for the expressions of `C101_zero_extent_wrong`: `eval` makes an array of shape (3) of operands of shapes (0) and (3),
which have no common shape. -/
theorem C101_eval_wrong :
    (TyExpr.fn [.leaf (.fixed [0]) [0], .leaf (.fixed [3]) [3]]).evalShape = some (.ok [3]) ∧
      (TyExpr.fn [.leaf .dyn [0], .leaf .dyn [3]]).evalShape = none := by decide

example : containerResized (.arr 2) [4, 3] = .ok [4, 3] ∧ containerResized (.arr 2) [4] = .ub ∧
    containerResized (.fixed [4, 3]) [4] = .ok [4, 3] := by decide

/-- An expression of an `xtensor` with two axes and a fixed array is evaluated to an `xtensor` with two axes. -/
example : exTyExpr.temporary = some (.arr 2) ∧ exTyExpr.evalShape = some (.ok [4, 3]) :=
  ⟨by decide, by decide⟩
example := C101_eval_partial exTyExpr exTyExpr_plain [4, 3]

/-- A column of an `xtensor` with two axes and a new axis: again two axes. -/
def exTyView : TyExpr := .view (.leaf (.arr 2) [4, 3]) [.newaxis, .all, .int 1]

theorem exTyView_plain : exTyView.Plain := by
  refine ⟨?_, ?_⟩
  · simp only [TyExpr.Plain]
    exact ⟨rfl, by decide, trivial⟩
  · intro s hs
    simp only [HasShape] at hs
    subst hs
    exact ⟨by decide, by decide⟩

example : exTyView.temporary = some (.arr 2) ∧ exTyView.tempShape [1, 4] = some (.ok [1, 4]) :=
  ⟨by decide, C101_view_temporary_partial _ _ exTyView_plain ⟨_, rfl, by decide⟩⟩

end Xt
