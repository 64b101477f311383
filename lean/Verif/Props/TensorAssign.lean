import Verif.Model.TensorAssign
import Verif.Props.Broadcast
import Verif.Props.Cache
/-!
# C106: arrays with a fixed number of axes take expressions with as many
-/

namespace Xt
open Spec

/-! ## Broadcasting into a longer shape -/

theorem bcLoop_longer : ∀ (is os rest : List Nat) (t t' : Bool), is.length ≤ os.length →
    (bcLoop is (os ++ rest) t).map Prod.fst = (bcLoop is os t').map fun r => r.1 ++ rest
  | [], os, rest, t, t', _ => by simp [bcLoop]
  | i :: is, [], rest, t, t', h => by simp at h
  | i :: is, o :: os, rest, t, t', h => by
    have ih := fun (t t' : Bool) => bcLoop_longer is os rest t t' (by simpa using h)
    have step : ∀ (x : Nat) (t t' : Bool),
        ((bcLoop is (os ++ rest) t).map fun r => (x :: r.1, r.2)).map Prod.fst =
          ((bcLoop is os t').map fun r => (x :: r.1, r.2)).map fun r => r.1 ++ rest := by
      intro x t t'
      have := ih t t'
      cases h1 : bcLoop is (os ++ rest) t <;> cases h2 : bcLoop is os t' <;> simp_all
    simp only [List.cons_append, bcLoop]
    by_cases h1 : o = szMax
    · rw [if_pos h1, if_pos h1]; exact step _ _ _
    · rw [if_neg h1, if_neg h1]
      by_cases h2 : o = 1
      · rw [if_pos h2, if_pos h2]; exact step _ _ _
      · rw [if_neg h2, if_neg h2]
        by_cases h3 : i = 1
        · rw [if_pos h3, if_pos h3]; exact step _ _ _
        · rw [if_neg h3, if_neg h3]
          by_cases h4 : i ≠ o
          · rw [if_pos h4, if_pos h4]; rfl
          · rw [if_neg h4, if_neg h4]; exact step _ _ _

theorem broadcastShape_longer {s out : List Nat} (pre : List Nat) (h : s.length ≤ out.length) :
    (broadcastShape s (pre ++ out)).map Prod.fst = (broadcastShape s out).map fun r => pre ++ r.1 := by
  unfold broadcastShape
  rw [if_neg (by simp; omega), if_neg (by omega), List.reverse_append]
  have := bcLoop_longer s.reverse out.reverse pre.reverse (s.length == (pre ++ out).length) (s.length == out.length) (by simpa)
  cases h1 : bcLoop s.reverse (out.reverse ++ pre.reverse) (s.length == (pre ++ out).length) <;>
    cases h2 : bcLoop s.reverse out.reverse (s.length == out.length) <;> rw [h1, h2] at this
  · rfl
  · simp at this
  · simp at this
  · simp only [Option.map_some, Option.some.injEq] at this ⊢
    rw [this]; simp

mutual
theorem ShExpr.bc_longer : ∀ (e : ShExpr) (pre out : List Nat), e.dim ≤ out.length →
    (e.bc (pre ++ out)).map Prod.fst = (e.bc out).map fun r => pre ++ r.1
  | .leaf s, pre, out, h => by
    simp only [ShExpr.dim] at h
    simp only [ShExpr.bc]
    exact broadcastShape_longer pre h
  | .scalar, pre, out, h => by simp [ShExpr.bc]
  | .fn args, pre, out, h => by
    simp only [ShExpr.dim] at h
    simp only [ShExpr.bc]
    exact ShExpr.bcs_longer args pre out true true h
theorem ShExpr.bcs_longer : ∀ (es : List ShExpr) (pre out : List Nat) (b b' : Bool), ShExpr.dims es ≤ out.length →
    (ShExpr.bcs es (pre ++ out) b).map Prod.fst = (ShExpr.bcs es out b').map fun r => pre ++ r.1
  | [], pre, out, b, b', h => by simp [ShExpr.bcs]
  | e :: es, pre, out, b, b', h => by
    simp only [ShExpr.dims] at h
    have h1 := ShExpr.bc_longer e pre out (by omega)
    simp only [ShExpr.bcs]
    cases h2 : e.bc out with
    | none =>
      rw [h2] at h1
      cases h3 : e.bc (pre ++ out) with
      | none => rfl
      | some q => rw [h3] at h1; simp at h1
    | some r =>
      rw [h2] at h1
      cases h3 : e.bc (pre ++ out) with
      | none => rw [h3] at h1; simp at h1
      | some q =>
        rw [h3] at h1
        simp only [Option.map_some, Option.some.injEq] at h1
        simp only [h1]
        have hl : r.1.length = out.length := ShExpr.bc_length e out h2
        exact ShExpr.bcs_longer es pre r.1 _ _ (by omega)
end

mutual
theorem ShExpr.bc_shorter : ∀ (e : ShExpr) (out : List Nat), out.length < e.dim → e.bc out = none
  | .leaf s, out, h => by
    simp only [ShExpr.dim] at h
    simp only [ShExpr.bc, broadcastShape, if_pos h]
  | .scalar, out, h => by simp [ShExpr.dim] at h
  | .fn args, out, h => by
    simp only [ShExpr.dim] at h
    simp only [ShExpr.bc]
    exact ShExpr.bcs_shorter args out true h
theorem ShExpr.bcs_shorter : ∀ (es : List ShExpr) (out : List Nat) (b : Bool), out.length < ShExpr.dims es → ShExpr.bcs es out b = none
  | [], out, b, h => by simp [ShExpr.dims] at h
  | e :: es, out, b, h => by
    simp only [ShExpr.dims] at h
    simp only [ShExpr.bcs]
    cases h2 : e.bc out with
    | none => rfl
    | some r =>
      have hl : r.1.length = out.length := ShExpr.bc_length e out h2
      have hd : ¬ out.length < e.dim := fun hlt => by
        rw [ShExpr.bc_shorter e out hlt] at h2; simp at h2
      exact ShExpr.bcs_shorter es r.1 _ (by omega)
end

/-- The shape of an expression has its number of axes. -/
theorem ShExpr.shape_dim {e : ShExpr} {r : List Nat × Bool} (h : e.shape = some r) : r.1.length = e.dim := by
  have := ShExpr.bc_length e _ h
  simpa [uninitializedShape] using this

/-- What a function that was not asked for its shape makes of `N` unset extents. -/
theorem tensorShape_unasked (e : ShExpr) (N : Nat) :
    tensorShape N (.fn false e) = if N < e.dim then .throws else
      match e.shape with
      | none => .throws
      | some r => .ok (uninitializedShape (N - e.dim) ++ r.1) := by
  by_cases h : N < e.dim
  · rw [if_pos h]
    simp only [tensorShape]
    rw [ShExpr.bc_shorter e _ (by simpa [uninitializedShape] using h)]
  · rw [if_neg h]
    have hu : uninitializedShape N = uninitializedShape (N - e.dim) ++ uninitializedShape e.dim := by
      simp only [uninitializedShape, ← List.replicate_add]
      congr 1; omega
    have hl := ShExpr.bc_longer e (uninitializedShape (N - e.dim)) (uninitializedShape e.dim) (by simp [uninitializedShape])
    simp only [tensorShape, hu]
    unfold ShExpr.shape
    cases h1 : e.bc (uninitializedShape e.dim) with
    | none =>
      rw [h1] at hl
      cases h2 : e.bc (uninitializedShape (N - e.dim) ++ uninitializedShape e.dim) with
      | none => rfl
      | some q => rw [h2] at hl; simp at hl
    | some r =>
      rw [h1] at hl
      cases h2 : e.bc (uninitializedShape (N - e.dim) ++ uninitializedShape e.dim) with
      | none => rw [h2] at hl; simp at hl
      | some q =>
        rw [h2] at hl
        simp only [Option.map_some, Option.some.injEq] at hl
        simp only [hl]

/-! ## The property -/

/-- What there is to assign has the shape `s`. -/
def Spec.RhsShape : TensorRhs → List Nat → Prop
  | .fn _ e, s => IsBroadcast e.leaves s
  | .other s', s => s = s'

/-- No extent of an operand is the mark of unset extents. -/
def Spec.RhsOk : TensorRhs → Prop
  | .fn _ e => e.ExtentsOk
  | .other _ => True

/-- C106: an expression with as many axes as the tensor is assigned: the tensor then has its shape and stores as many elements. -/
theorem C106_same_axes {N room : Nat} {old : List Nat × Nat} {rhs : TensorRhs} {s : List Nat} (hok : RhsOk rhs)
    (hs : RhsShape rhs s) (hN : s.length = N) (ho : old.2 = old.1.prod) (hr : s.prod ≤ room) (hroom : room < 2 ^ 64) :
    tensorAssign N room old rhs = .ok (s, s.prod) := by
  have key : tensorShape N rhs = .ok s := by
    cases rhs with
    | other s' =>
      have hs : s = s' := hs
      subst hs
      simp [tensorShape, hN]
    | fn asked e =>
      have hs : IsBroadcast e.leaves s := hs
      obtain ⟨t, ht⟩ := ((C04_broadcast_shape e hok).1 s).2 hs
      have hd : s.length = e.dim := ShExpr.shape_dim ht
      cases asked with
      | false =>
        rw [tensorShape_unasked, if_neg (by omega), ht]
        simp [uninitializedShape, show N - e.dim = 0 by omega]
      | true =>
        simp [tensorShape, ht, hN, uninitializedShape]
  have hmod : s.prod % 2 ^ 64 = s.prod := Nat.mod_eq_of_lt (by omega)
  unfold tensorAssign
  rw [key]
  simp only [hmod]
  by_cases h : s = old.1
  · rw [if_pos h]
    congr 1
    exact Prod.ext h.symm (by rw [ho, h])
  · rw [if_neg h, if_pos hr]

/-- C106: operands without a common shape: an exception, and the tensor is as before. -/
theorem C106_conflict {N room : Nat} {old : List Nat × Nat} {asked : Bool} {e : ShExpr} (hok : e.ExtentsOk)
    (hc : Conflict e.leaves) : tensorAssign N room old (.fn asked e) = .throws old := by
  have hn := (C04_broadcast_shape e hok).2.2 hc
  unfold tensorAssign
  cases asked with
  | false =>
    rw [tensorShape_unasked, hn]
    by_cases h : N < e.dim <;> simp [h]
  | true => simp [tensorShape, hn]

/-- C106: a function with more axes than the tensor: an exception, and the tensor is as before.
Missing: functions that were asked for their shape before (`C106_asked_wrong`) and other right-hand sides (`C106_other_wrong`). -/
theorem C106_more_axes_partial {N room : Nat} {old : List Nat × Nat} {e : ShExpr} {s : List Nat} (hok : e.ExtentsOk)
    (hs : IsBroadcast e.leaves s) (hN : N < s.length) : tensorAssign N room old (.fn false e) = .throws old := by
  obtain ⟨t, ht⟩ := ((C04_broadcast_shape e hok).1 s).2 hs
  have hd : s.length = e.dim := ShExpr.shape_dim ht
  unfold tensorAssign
  rw [tensorShape_unasked, if_pos (by omega)]

/-- C106 fails for every function with more axes than the tensor that was asked for its shape before: the extents are copied past the
end of those of the tensor. -/
theorem C106_asked_wrong {N room : Nat} {old : List Nat × Nat} {e : ShExpr} {s : List Nat} (hok : e.ExtentsOk)
    (hs : IsBroadcast e.leaves s) (hN : N < s.length) : tensorAssign N room old (.fn true e) = .ub := by
  obtain ⟨t, ht⟩ := ((C04_broadcast_shape e hok).1 s).2 hs
  unfold tensorAssign
  simp [tensorShape, ht, Nat.not_le.2 hN]

/-- C106 fails for right-hand sides that are no functions and have another number of axes. -/
theorem C106_other_wrong {N room : Nat} {old : List Nat × Nat} {s : List Nat} (hN : s.length ≠ N) :
    tensorAssign N room old (.other s) = .ub := by
  simp [tensorAssign, tensorShape, hN]

theorem prod_unset (k : Nat) (s : List Nat) (h : s.prod < 2 ^ 64) :
    (uninitializedShape k ++ s).prod % 2 ^ 64 = if k % 2 = 0 then s.prod else (2 ^ 64 - s.prod) % 2 ^ 64 := by
  induction k with
  | zero => simpa [uninitializedShape] using h
  | succ k ih =>
    have hc : (uninitializedShape (k + 1) ++ s).prod = szMax * (uninitializedShape k ++ s).prod := by
      simp [uninitializedShape, List.replicate_succ]
    rw [hc, Nat.mul_mod, ih]
    have hsz : szMax % 2 ^ 64 = 2 ^ 64 - 1 := by decide
    rw [hsz]
    generalize s.prod = p at h
    by_cases hk : k % 2 = 0
    · rw [if_pos hk, if_neg (by omega)]
      by_cases hp : p = 0
      · subst hp; simp
      · have e1 : (2 ^ 64 - 1) * p = (p - 1) * 2 ^ 64 + (2 ^ 64 - p) := by
          obtain ⟨q, rfl⟩ : ∃ q, p = q + 1 := ⟨p - 1, by omega⟩
          rw [Nat.sub_mul, one_mul]
          simp only [Nat.add_sub_cancel]
          omega
        rw [e1, Nat.mul_add_mod_self_right]
    · rw [if_neg hk, if_pos (by omega)]
      by_cases hp : p = 0
      · subst hp; simp
      · have e0 : (2 ^ 64 - p) % 2 ^ 64 = 2 ^ 64 - p := Nat.mod_eq_of_lt (by omega)
        rw [e0]
        have e1 : (2 ^ 64 - 1) * (2 ^ 64 - p) = (2 ^ 64 - p - 1) * 2 ^ 64 + p := by
          obtain ⟨q, hq⟩ : ∃ q, 2 ^ 64 - p = q + 1 := ⟨2 ^ 64 - p - 1, by omega⟩
          rw [hq, Nat.sub_mul, one_mul]
          simp only [Nat.add_sub_cancel]
          omega
        rw [e1, Nat.mul_add_mod_self_right, Nat.mod_eq_of_lt h]

/-- C106 fails for every function with an even number of axes less than the tensor: it is assigned, and the tensor reports an extent of
2^64 - 1 for each missing axis, while it stores the elements of the function only. -/
theorem C106_fewer_axes_wrong {N room : Nat} {old : List Nat × Nat} {e : ShExpr} {s : List Nat} (hok : e.ExtentsOk)
    (hs : IsBroadcast e.leaves s) {k : Nat} (hk : 0 < k) (hN : s.length + 2 * k = N) (hr : s.prod ≤ room) (hroom : room < 2 ^ 64)
    (ho : szMax ∉ old.1) :
    tensorAssign N room old (.fn false e) = .ok (List.replicate (2 * k) (2 ^ 64 - 1) ++ s, s.prod) := by
  obtain ⟨t, ht⟩ := ((C04_broadcast_shape e hok).1 s).2 hs
  have hd : s.length = e.dim := ShExpr.shape_dim ht
  have hsub : N - e.dim = 2 * k := by omega
  unfold tensorAssign
  rw [tensorShape_unasked, if_neg (by omega), ht]
  simp only [hsub]
  have hne : uninitializedShape (2 * k) ++ s ≠ old.1 := by
    intro h
    apply ho
    rw [← h]
    simp [uninitializedShape]
    left; omega
  have hprod := prod_unset (2 * k) s (by omega)
  rw [if_pos (by omega)] at hprod
  rw [if_neg hne, hprod, if_pos hr]
  rfl

/-- C106 fails for every function with elements that has an odd number of axes less than the tensor: there is no room for the elements,
and the exception leaves the tensor with the new shape and the old elements. -/
theorem C106_odd_axes_wrong {N room : Nat} {old : List Nat × Nat} {e : ShExpr} {s : List Nat} (hok : e.ExtentsOk)
    (hs : IsBroadcast e.leaves s) {k : Nat} (hN : s.length + (2 * k + 1) = N) (hp : 0 < s.prod) (hr : s.prod + room < 2 ^ 64)
    (ho : szMax ∉ old.1) :
    tensorAssign N room old (.fn false e) = .throws (List.replicate (2 * k + 1) (2 ^ 64 - 1) ++ s, old.2) := by
  obtain ⟨t, ht⟩ := ((C04_broadcast_shape e hok).1 s).2 hs
  have hd : s.length = e.dim := ShExpr.shape_dim ht
  have hsub : N - e.dim = 2 * k + 1 := by omega
  unfold tensorAssign
  rw [tensorShape_unasked, if_neg (by omega), ht]
  simp only [hsub]
  have hne : uninitializedShape (2 * k + 1) ++ s ≠ old.1 := by
    intro h
    apply ho
    rw [← h]
    simp [uninitializedShape]
  have hprod := prod_unset (2 * k + 1) s (by omega)
  rw [if_neg (by omega), Nat.mod_eq_of_lt (a := 2 ^ 64 - s.prod) (by omega)] at hprod
  rw [if_neg hne, hprod, if_neg (by omega)]
  rfl

/-- C106 fails differently when the function was asked for its shape before: the missing axes are then the last ones. -/
theorem C106_asked_fewer_wrong {N : Nat} {e : ShExpr} {s : List Nat} (hok : e.ExtentsOk) (hs : IsBroadcast e.leaves s)
    (hN : s.length < N) : tensorShape N (.fn true e) = .ok (s ++ List.replicate (N - s.length) (2 ^ 64 - 1)) := by
  obtain ⟨t, ht⟩ := ((C04_broadcast_shape e hok).1 s).2 hs
  simp only [tensorShape, ht, if_pos hN.le]
  rfl

/-! ### Examples -/

/-- `a + b` for shapes (2, 1) and (3). -/
def exTensorFn : ShExpr := .fn [.leaf [2, 1], .leaf [3]]

theorem exTensorFn_ok : exTensorFn.ExtentsOk := by
  intro s hs
  simp only [exTensorFn, ShExpr.leaves, ShExpr.leavesL, List.append_nil, List.singleton_append, List.mem_cons, List.not_mem_nil,
    or_false] at hs
  rcases hs with rfl | rfl <;> decide

theorem exTensorFn_shape : IsBroadcast exTensorFn.leaves [2, 3] :=
  ((C04_broadcast_shape exTensorFn exTensorFn_ok).1 _).1 ⟨false, by decide⟩

example : tensorAssign 2 1000 ([5, 5], 25) (.fn true exTensorFn) = .ok ([2, 3], 6) :=
  C106_same_axes (s := [2, 3]) exTensorFn_ok exTensorFn_shape rfl rfl (by decide) (by decide)

/-- Operands (2) and (3). -/
example : tensorAssign 2 1000 ([5, 5], 25) (.fn false (.fn [.leaf [2], .leaf [3]])) = .throws ([5, 5], 25) :=
  C106_conflict (by
    intro s hs
    simp only [ShExpr.leaves, ShExpr.leavesL, List.append_nil, List.singleton_append, List.mem_cons, List.not_mem_nil, or_false] at hs
    rcases hs with rfl | rfl <;> decide)
    ⟨[2], by simp [ShExpr.leaves, ShExpr.leavesL], [3], by simp [ShExpr.leaves, ShExpr.leavesL], 0, 2, 3, rfl, rfl, by decide, by decide,
      by decide⟩

/-- The same expression and a tensor with one axis: an exception, or undefined if its shape was asked for. -/
example : tensorAssign 1 1000 ([5], 5) (.fn false exTensorFn) = .throws ([5], 5) ∧
    tensorAssign 1 1000 ([5], 5) (.fn true exTensorFn) = .ub ∧ tensorAssign 1 1000 ([5], 5) (.other [2, 3]) = .ub :=
  ⟨C106_more_axes_partial exTensorFn_ok exTensorFn_shape (by decide), C106_asked_wrong exTensorFn_ok exTensorFn_shape (by decide),
    C106_other_wrong (by decide)⟩

/-- A tensor with four axes takes six elements and reports the shape (2^64 - 1, 2^64 - 1, 2, 3); with three axes it throws. -/
example : tensorAssign 4 1000 ([1, 1, 1, 1], 1) (.fn false exTensorFn) = .ok ([szMax, szMax, 2, 3], 6) ∧
    tensorAssign 3 1000 ([1, 1, 1], 1) (.fn false exTensorFn) = .throws ([szMax, 2, 3], 1) ∧
    tensorShape 3 (.fn true exTensorFn) = .ok [2, 3, szMax] :=
  ⟨C106_fewer_axes_wrong (k := 1) exTensorFn_ok exTensorFn_shape (by decide) rfl (by decide) (by decide) (by decide),
    C106_odd_axes_wrong (k := 0) exTensorFn_ok exTensorFn_shape rfl (by decide) (by decide) (by decide),
    C106_asked_fewer_wrong exTensorFn_ok exTensorFn_shape (by decide)⟩

end Xt
