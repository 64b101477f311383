import Verif.Props.Stats
import Verif.Props.Numeric
import Verif.Props.NumericSeq
import Verif.Props.Quantile
import Verif.Props.Random
/-!
# C63–C66: arguments that do not fit

What the statistics and numerical functions do with weights of another shape, axes that do not exist or are not sorted, and
missing data: exceptions where the code checks, undefined behaviour where it does not.
-/

namespace Xt
open Spec

/-- A lazy mean over axes that are not strictly increasing or do not exist is refused (without kept axes). -/
theorem C65_mean_axes_throws (e : Ex ℚ) (sh : List Nat) (axes : List Int) (ddof : Nat)
    (h : ¬ GoodAxes sh.length (axes.map (normalizeAxis sh.length))) : meanAxes e sh axes false ddof = .throws := by
  unfold meanAxes lazyReduce
  rw [C30_bad_axes_throw_partial _ (Or.inr rfl), if_neg h]
  rfl

example : ¬ GoodAxes 2 ([1, 0].map (normalizeAxis 2)) := by decide

/-- Weights of another shape are refused. -/
theorem C65_average_all_weights_throws (L : Layout) (e w : Ex ℚ) (sh wsh : List Nat) (keep : Bool) (junk : ℚ) (h : sh ≠ wsh) :
    averageAll L e sh w wsh keep junk = .throws := by
  unfold averageAll
  rw [if_pos h]

/-- Weights with several axes must have the shape of the operand; those with one axis the extent of the first reduced
axis. -/
theorem C65_average_weights_throws (L LW : Layout) (e : Ex ℚ) (sh : List Nat) (w : LazyEx ℚ) (axes : List Int) (keep : Bool)
    (junk : ℚ) (h : (w.shape.length ≠ 1 ∧ sh ≠ w.shape) ∨
      (∃ a t, axes = a :: t ∧ w.shape.length = 1 ∧ normalizeAxis sh.length a < sh.length ∧
        w.shape.getD 0 0 ≠ sh.getD (normalizeAxis sh.length a) 0)) :
    averageAxes L LW e sh w axes keep junk = .throws := by
  unfold averageAxes weightShape
  rcases h with ⟨h1, h2⟩ | ⟨a, t, rfl, h1, h2, h3⟩
  · simp only [if_neg h1, if_neg h2, Res.bind_throws]
  · simp only [if_pos h1, List.map_cons, if_neg (Nat.not_le.2 h2), if_pos h3, Res.bind_throws]

example : averageAxes .row_major .row_major (.scalar 1) [2, 3] ⟨[2], fun _ => 1⟩ [1] false 0 = .throws :=
  C65_average_weights_throws _ _ _ _ _ _ _ _ (Or.inr ⟨1, [], rfl, by decide, by decide, by decide⟩)

/-- With one-dimensional weights, no axis, or one that does not exist, is read outside the shape. -/
theorem C65_average_axis_undefined (L LW : Layout) (e : Ex ℚ) (sh : List Nat) (w : LazyEx ℚ) (axes : List Int) (keep : Bool)
    (junk : ℚ) (h1 : w.shape.length = 1)
    (h : axes = [] ∨ ∃ a t, axes = a :: t ∧ sh.length ≤ normalizeAxis sh.length a) :
    averageAxes L LW e sh w axes keep junk = .ub := by
  unfold averageAxes weightShape
  rcases h with rfl | ⟨a, t, rfl, h2⟩
  · simp only [if_pos h1, List.map_nil, Res.bind_ub]
  · simp only [if_pos h1, List.map_cons, if_pos h2, Res.bind_ub]

example : averageAxes .row_major .row_major (.scalar 1) [2, 3] ⟨[2], fun _ => 1⟩ [2] false 0 = .ub :=
  C65_average_axis_undefined _ _ _ _ _ _ _ _ (by decide) (Or.inr ⟨2, [], rfl, by decide⟩)

/-- Kept axes and weights of the shape of the operand: the quotient may not even be formed. -/
theorem C65_average_keep_throws :
    (averageAxes .row_major .row_major (.scalar 1) [1, 3, 2, 1] ⟨[1, 3, 2, 1], fun _ => 1⟩ [1] true 0).map
      (fun v => v.shape) = .ok [1, 1, 2, 1] ∧
    (averageAxes .row_major .row_major (.scalar 1) [2, 3, 1, 1] ⟨[2, 3, 1, 1], fun _ => 1⟩ [2] true 0).map
      (fun v => v.shape) = .throws := by
  decide +kernel

/-- `nanvar` over a sequence of axes with a negative one is undefined: it is used as an index. -/
theorem C65_nanvar_negative_undefined {e : Ex (Option ℚ)} {sh : List Nat} (hf : Fits sh e) {axes : List Int}
    (hg : GoodAxes sh.length (axes.map (normalizeAxis sh.length))) (keep : Bool) (h : ∃ a ∈ axes, a < 0) :
    nanVarSeq e sh axes keep = .ub := by
  obtain ⟨m, hm, -⟩ := C65_nanmean hf hg false
  obtain ⟨a, ha, hneg⟩ := h
  unfold nanVarSeq
  rw [hm, Res.bind_ok, if_pos (List.any_eq_true.2 ⟨a, ha, by simpa using hneg⟩)]

example : nanVarSeq (.gen [2, 2] fun i => if i = [0, 0] then none else some 1) [2, 2] [-1] false = .ub :=
  C65_nanvar_negative_undefined (show Fits [2, 2] (.gen [2, 2] _) from ⟨by decide, broadcastsTo_refl _⟩) (by decide) _ ⟨-1, by decide, by decide⟩

/-- An axis that does not exist is not checked by `diff`. -/
theorem C66_diff_axis_undefined {α : Type} (sub : α → α → α) (e : LazyEx α) (n : Nat) (axis : Int) (hn : 0 < n)
    (h : e.shape.length ≤ normalizeAxis e.shape.length axis) : diffAxis sub e n axis = .ub := by
  obtain ⟨n, rfl⟩ : ∃ m, n = m + 1 := ⟨n - 1, by omega⟩
  unfold diffAxis
  simp only []
  by_cases hs : n + 1 ≤ e.size
  · rw [if_pos hs]
    unfold diffLoop diffPass adjacentViews
    rw [if_pos h]
    rfl
  · rw [if_neg hs, if_pos h]

example : diffAxis (· - ·) (⟨[3], fun i => i.getD 0 0⟩ : LazyEx ℚ) 1 1 = .ub :=
  C66_diff_axis_undefined _ _ _ _ (by decide) (by decide)

/-- Nor by `trapz`. -/
theorem C66_trapz_axis_undefined (y : LazyEx ℚ) (dx : ℚ) (axis : Int)
    (h : y.shape.length ≤ normalizeAxis y.shape.length axis) : trapzStep y dx axis = .ub := by
  unfold trapzStep adjacentViews
  simp only [if_pos h, Res.bind_ub]

theorem C66_trapz_points_axis_undefined :
    trapzPoints ⟨[2, 2], fun _ => 1⟩ ⟨[2], fun i => i.getD 0 0⟩ 2 = .ub := by
  have hd : diffAxis (· - ·) (⟨[2], fun i => i.getD 0 0⟩ : LazyEx ℚ) 1 (-1) ≠ .ub ∧
      diffAxis (· - ·) (⟨[2], fun i => i.getD 0 0⟩ : LazyEx ℚ) 1 (-1) ≠ .throws := by
    have : (diffAxis (· - ·) (⟨[2], fun i => i.getD 0 0⟩ : LazyEx ℚ) 1 (-1)).map (fun _ => ()) = .ok () := by decide +kernel
    constructor <;> intro h <;> rw [h] at this <;> simp at this
  unfold trapzPoints trapzSpacing
  cases hx : diffAxis (· - ·) (⟨[2], fun i => i.getD 0 0⟩ : LazyEx ℚ) 1 (-1) with
  | ok dx => simp only [List.length_singleton, if_true]; rfl
  | throws => exact absurd hx hd.2
  | ub => exact absurd hx hd.1

/-- Interpolation without data points: nothing is read if there is nothing to interpolate, otherwise it is undefined. -/
theorem C66_interp_no_data (x fp f : List ℚ) (left right : ℚ) :
    interpWith x [] fp left right f = if x = [] then .ok f else .ub := rfl

/-- A quantile over an axis that does not exist is undefined. -/
theorem C64_quantile_axis_undefined (nth : List ℚ → Nat → List ℚ) (L : Layout) (v : Strd) (mem : Int → ℚ) (ps : List ℚ)
    (axis : Int) (a b : ℚ) (h : v.shape.length ≤ normalizeAxis v.shape.length axis) :
    quantileAxis nth L v mem ps axis a b = .ub := by
  unfold quantileAxis
  simp only [if_pos h]

/-- More different choices than weights: undefined. -/
theorem C63_weighted_unique_undefined {α : Type} (ps : (Nat → Nat → Bool) → Nat → List Nat → List Nat) (l : List α)
    (w : List ℚ) (n : Nat) (r : Nat → ℚ) (h : w.length < n) : choiceWeightedUnique ps l w n r = .ub := by
  unfold choiceWeightedUnique
  rw [if_pos h]

end Xt
