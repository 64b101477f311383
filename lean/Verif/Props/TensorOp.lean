import Mathlib.Algebra.BigOperators.Ring.List
import Verif.Props.TensorAssign
import Verif.Props.AssignAlias
/-!
# C106: compound assignments to arrays with a fixed number of axes
-/

namespace Xt
open Spec

theorem tensorOpEx_leaves (s : List Nat) (e : ShExpr) : (tensorOpEx s e).leaves = s :: e.leaves := by
  simp [tensorOpEx, ShExpr.leaves, ShExpr.leavesL]

theorem tensorOpEx_ok {s : List Nat} {e : ShExpr} (hs : szMax ∉ s) (he : e.ExtentsOk) : (tensorOpEx s e).ExtentsOk := by
  intro t ht
  rw [tensorOpEx_leaves] at ht
  rcases List.mem_cons.1 ht with rfl | h
  · exact hs
  · exact he t h

/-- C106: `t op= e` where `t op e` has as many axes as `t`: the tensor then has its shape and stores as many elements. -/
theorem C106_compound {N room : Nat} {old : List Nat × Nat} {e : ShExpr} {s : List Nat} (hx : szMax ∉ old.1) (hok : e.ExtentsOk)
    (hs : IsBroadcast (old.1 :: e.leaves) s) (hN : s.length = N) (hr : s.prod ≤ room) (hroom : room < 2 ^ 64) :
    tensorOp N room old e = .ok (s, s.prod) := by
  have hb : IsBroadcast (tensorOpEx old.1 e).leaves s := by rw [tensorOpEx_leaves]; exact hs
  have hd : s.length = (tensorOpEx old.1 e).dim := by
    obtain ⟨t, ht⟩ := ((C04_broadcast_shape _ (tensorOpEx_ok hx hok)).1 s).2 hb
    exact ShExpr.shape_dim ht
  unfold tensorOp
  rw [C106_same_axes (rhs := .fn false (tensorOpEx old.1 e)) (s := s) (tensorOpEx_ok hx hok) hb hN _ hr hroom]
  rw [← hd, hN]
  cases N <;> simp

/-- C106: `t op= e` where `t op e` has more axes than `t`, or there is no common shape: an exception, and the tensor is as before. -/
theorem C106_compound_refused {N room : Nat} {old : List Nat × Nat} {e : ShExpr} (hx : szMax ∉ old.1) (hok : e.ExtentsOk)
    (h : Conflict (old.1 :: e.leaves) ∨ ∃ s, IsBroadcast (old.1 :: e.leaves) s ∧ N < s.length) :
    tensorOp N room old e = .throws old ∧ tensorNoaliasOp N room old e = .throws old := by
  have hE := tensorOpEx_ok hx hok
  have key : tensorShape N (.fn false (tensorOpEx old.1 e)) = .throws := by
    rw [tensorShape_unasked]
    by_cases hd : N < (tensorOpEx old.1 e).dim
    · rw [if_pos hd]
    · rw [if_neg hd]
      rcases h with h | ⟨s, hs, hN⟩
      · rw [(C04_broadcast_shape _ hE).2.2 (by rw [tensorOpEx_leaves]; exact h)]
      · obtain ⟨t, ht⟩ := ((C04_broadcast_shape _ hE).1 s).2 (by rw [tensorOpEx_leaves]; exact hs)
        exact absurd (ShExpr.shape_dim ht) (by simp only; omega)
  constructor
  · unfold tensorOp tensorAssign
    rw [key]
  · unfold tensorNoaliasOp
    simp only [tensorShape] at key
    cases h1 : (tensorOpEx old.1 e).bc (uninitializedShape N) with
    | none => rfl
    | some r => rw [h1] at key; simp at key

theorem tensorOpEx_bc {N : Nat} {old : List Nat} {e : ShExpr} {s : List Nat} (hx : szMax ∉ old) (hok : e.ExtentsOk)
    (hs : IsBroadcast (old :: e.leaves) s) (hN : s.length = N) :
    ∃ b, (tensorOpEx old e).bc (uninitializedShape N) = some (s, b) ∧ (tensorOpEx old e).dim = N := by
  obtain ⟨t, ht⟩ := ((C04_broadcast_shape _ (tensorOpEx_ok hx hok)).1 s).2 (by rw [tensorOpEx_leaves]; exact hs)
  have hd : s.length = (tensorOpEx old e).dim := ShExpr.shape_dim ht
  refine ⟨t, ?_, by omega⟩
  rw [← hN, hd]
  exact ht

/-- The extents of one of the shapes of a broadcast with as many axes. -/
theorem IsBroadcast_getD {a : List Nat} {S : List (List Nat)} {s : List Nat} (hs : IsBroadcast S s) (ha : a ∈ S)
    (hl : s.length = a.length) (k : Nat) (hk : k < a.length) : a.getD k 0 = 1 ∨ a.getD k 0 = s.getD k 0 := by
  have hks : k < s.length := by omega
  have h1 : axisR s (s.length - 1 - k) = some (s.getD k 0) := by
    unfold axisR
    rw [List.getElem?_reverse (by omega), show s.length - 1 - (s.length - 1 - k) = k by omega]
    simp [hks]
  have h2 : axisR a (s.length - 1 - k) = some (a.getD k 0) := by
    unfold axisR
    rw [List.getElem?_reverse (by omega), show a.length - 1 - (s.length - 1 - k) = k by omega]
    simp [hk]
  exact hs.compatible _ _ h1 a ha _ h2

/-- C106: the same for `noalias(t) op= e`.  Missing: an axis of extent 1 of the tensor becomes one of extent 0
(`C106_noalias_compound_wrong`). -/
theorem C106_noalias_compound_partial {N room : Nat} {old : List Nat × Nat} {e : ShExpr} {s : List Nat} (hx : szMax ∉ old.1)
    (hok : e.ExtentsOk) (hs : IsBroadcast (old.1 :: e.leaves) s) (hN : s.length = N) (hoN : old.1.length = N)
    (hz : ∀ k, k < N → old.1.getD k 0 = 1 → s.getD k 0 ≠ 0)
    (ho : old.2 = old.1.prod) (hr : s.prod ≤ room) (hroom : room < 2 ^ 64) :
    tensorNoaliasOp N room old e = .ok (s, s.prod) := by
  obtain ⟨b, hb, hd⟩ := tensorOpEx_bc hx hok hs hN
  have hmod : s.prod % 2 ^ 64 = s.prod := Nat.mod_eq_of_lt (by omega)
  unfold tensorNoaliasOp
  rw [hb, hd]
  simp only [gt_iff_lt, lt_irrefl, decide_false, Bool.false_or, hmod]
  by_cases hg : lexGreater s old.1 = true
  · rw [if_pos hg]
    by_cases h0 : s = List.replicate N 0
    · rw [if_pos h0]
      have hN0 : N ≠ 0 := by
        intro h
        subst h
        have hs0 : s = [] := List.length_eq_zero_iff.1 hN
        have ho0 : old.1 = [] := List.length_eq_zero_iff.1 hoN
        rw [hs0, ho0] at hg
        simp [lexGreater] at hg
      have : s.prod = 0 := by rw [h0]; simp [hN0]
      rw [this]
    · rw [if_neg h0, if_pos hr]
  · rw [if_neg hg]
    have heq : s = old.1 := lexGreater_false_of_pointwise (by omega)
      (IsBroadcast_getD hs (by simp) (by omega)) (fun k hk => hz k (by omega)) (by simpa using hg)
    have hne : ¬ (s.prod = 0 ∧ 0 < old.1.prod) := by
      rw [heq]; omega
    rw [if_neg hne]
    congr 1
    exact Prod.ext heq.symm (by rw [ho, heq])

theorem lexGreater_prefix : ∀ (p q r : List Nat), lexGreater (p ++ 0 :: r) (p ++ 1 :: q) = false
  | [], q, r => by simp [lexGreater]
  | x :: p, q, r => by simp [lexGreater, lexGreater_prefix p q r]

/-- C106 fails for `noalias(t) op= e` whenever the first axis that changes goes from extent 1 to extent 0: the tensor keeps its shape, and
if it has elements then operands without elements are read. -/
theorem C106_noalias_compound_wrong {N room n : Nat} {p q r : List Nat} {e : ShExpr} (hx : szMax ∉ p ++ 1 :: q)
    (hok : e.ExtentsOk) (hs : IsBroadcast ((p ++ 1 :: q) :: e.leaves) (p ++ 0 :: r)) (hN : (p ++ 0 :: r).length = N) :
    tensorNoaliasOp N room (p ++ 1 :: q, n) e = if 0 ∈ p ++ q then .ok (p ++ 1 :: q, n) else .ub := by
  obtain ⟨b, hb, hd⟩ := tensorOpEx_bc hx hok hs hN
  unfold tensorNoaliasOp
  simp only [hb, hd, gt_iff_lt, lt_irrefl, decide_false, Bool.false_or, lexGreater_prefix]
  simp only [Bool.false_eq_true, if_false]
  have hp : (p ++ 0 :: r).prod = 0 := by simp
  by_cases h0 : 0 ∈ p ++ q
  · have : (p ++ 1 :: q).prod = 0 := by
      rw [List.prod_eq_zero_iff]
      simp only [List.mem_append, List.mem_cons] at h0 ⊢
      tauto
    rw [if_pos h0, if_neg (by omega)]
  · have : (p ++ 1 :: q).prod ≠ 0 := by
      intro h
      rw [List.prod_eq_zero_iff] at h
      simp only [List.mem_append, List.mem_cons] at h h0
      rcases h with h | h | h
      · exact h0 (Or.inl h)
      · omega
      · exact h0 (Or.inr h)
    rw [if_neg h0, if_pos ⟨hp, by omega⟩]

/-- When memory runs out, neither changes the tensor. -/
theorem C106_compound_no_room {N room : Nat} {old : List Nat × Nat} {e : ShExpr} {s : List Nat} (hx : szMax ∉ old.1) (hok : e.ExtentsOk)
    (hs : IsBroadcast (old.1 :: e.leaves) s) (hN : s.length = N) (hr : room < s.prod) (hs64 : s.prod < 2 ^ 64)
    (hoN : old.1.length = N) (hne : s ≠ old.1) :
    tensorOp N room old e = .throws old ∧ tensorNoaliasOp N room old e = .throws old := by
  obtain ⟨b, hb, hd⟩ := tensorOpEx_bc hx hok hs hN
  have hmod : s.prod % 2 ^ 64 = s.prod := Nat.mod_eq_of_lt hs64
  have hp : 0 < s.prod := by omega
  have hs0 : 0 ∉ s := fun h => by rw [List.prod_eq_zero_iff.2 h] at hp; omega
  have hN0 : N ≠ 0 := by
    intro h
    subst h
    exact hne ((List.length_eq_zero_iff.1 hN).trans (List.length_eq_zero_iff.1 hoN).symm)
  have hrep : s ≠ List.replicate N 0 := fun h => hs0 (by rw [h]; simp [hN0])
  constructor
  · unfold tensorOp tensorAssign
    simp only [tensorShape, hb, hmod]
    rw [if_neg hrep, if_neg (by omega)]
  · unfold tensorNoaliasOp
    have hg : lexGreater s old.1 = true := by
      by_contra hg
      refine hne (lexGreater_false_of_pointwise (by omega) (IsBroadcast_getD hs (by simp) (by omega)) (fun k hk _ h => ?_)
        (by simpa using hg))
      have hks : k < s.length := by omega
      apply hs0
      have : s[k] = 0 := by simpa [List.getD_eq_getElem?_getD, hks] using h
      rw [← this]; exact List.getElem_mem _
    simp only [hb, hd, hg, Bool.or_true, if_true, hmod]
    rw [if_neg hrep, if_neg (by omega)]

/-! ### Examples -/

theorem exOp_ok (s : List Nat) (h : szMax ∉ s) : (ShExpr.leaf s).ExtentsOk := by
  intro t ht
  simp only [ShExpr.leaves, List.mem_singleton] at ht
  subst ht; exact h

theorem exOp_shape {a s o : List Nat} {b : Bool} (ha : szMax ∉ a) (hs : szMax ∉ s) (h : (tensorOpEx a (.leaf s)).shape = some (o, b)) :
    IsBroadcast (a :: (ShExpr.leaf s).leaves) o := by
  have := ((C04_broadcast_shape _ (tensorOpEx_ok ha (exOp_ok s hs))).1 o).1 ⟨b, h⟩
  rwa [tensorOpEx_leaves] at this

/-- A tensor of shape (2, 1) and an array of shape (3): the tensor has then the shape (2, 3). -/
example : tensorOp 2 1000 ([2, 1], 2) (.leaf [3]) = .ok ([2, 3], 6) ∧
    tensorNoaliasOp 2 1000 ([2, 1], 2) (.leaf [3]) = .ok ([2, 3], 6) :=
  ⟨C106_compound (s := [2, 3]) (by decide) (exOp_ok _ (by decide)) (exOp_shape (b := false) (by decide) (by decide) (by decide)) rfl
    (by decide) (by decide),
   C106_noalias_compound_partial (s := [2, 3]) (by decide) (exOp_ok _ (by decide))
    (exOp_shape (b := false) (by decide) (by decide) (by decide)) rfl rfl (by decide) rfl (by decide) (by decide)⟩

/-- An array with three axes, and one with another extent, are refused. -/
example : tensorOp 2 1000 ([2, 1], 2) (.leaf [1, 1, 3]) = .throws ([2, 1], 2) ∧
    tensorNoaliasOp 2 1000 ([2, 1], 2) (.leaf [1, 1, 3]) = .throws ([2, 1], 2) :=
  C106_compound_refused (by decide) (exOp_ok _ (by decide))
    (.inr ⟨[1, 2, 3], exOp_shape (b := false) (by decide) (by decide) (by decide), by decide⟩)

/-- An array of shape (0): the tensor keeps the shape (2, 1), and elements of the empty array are read. -/
example : tensorNoaliasOp 2 1000 ([2, 1], 2) (.leaf [0]) = .ub :=
  C106_noalias_compound_wrong (p := [2]) (q := []) (r := []) (by decide) (exOp_ok _ (by decide))
    (exOp_shape (b := false) (by decide) (by decide) (by decide)) rfl

/-- Room for three elements only. -/
example : tensorOp 2 3 ([2, 1], 2) (.leaf [3]) = .throws ([2, 1], 2) ∧ tensorNoaliasOp 2 3 ([2, 1], 2) (.leaf [3]) = .throws ([2, 1], 2) :=
  C106_compound_no_room (s := [2, 3]) (by decide) (exOp_ok _ (by decide))
    (exOp_shape (b := false) (by decide) (by decide) (by decide)) rfl (by decide) (by decide) rfl (by decide)

end Xt
