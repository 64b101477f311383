import Verif.Lemmas.Broadcast
/-!
# Broadcasting: C04, C05, C06
-/

namespace Xt
open Spec

/-- Every extent occurring in the expression is below the reserved marker value (2^64 - 1). -/
def ShExpr.ExtentsOk (e : ShExpr) : Prop := ∀ s ∈ e.leaves, szMax ∉ s

/-! ## C04 -/

/-- The shape of an expression tree is the NumPy broadcast of the shapes of its non-scalar leaves,
and an error is raised exactly when two leaves conflict.  `IsBroadcast` and `Conflict` treat the
leaves as a set, so order and grouping of operands are irrelevant. -/
theorem C04_broadcast_shape (e : ShExpr) (hok : e.ExtentsOk) :
    (∀ out, (∃ t, e.shape = some (out, t)) ↔ IsBroadcast e.leaves out) ∧
    (e.shape = none ↔ Conflict e.leaves) := by
  have hinit : BcInv (([] : List (List Nat)).map List.reverse) (uninitializedShape e.dim).reverse := by
    simp only [List.map_nil, uninitializedShape, List.reverse_replicate]
    exact BcInv.init _
  have hsome : ∀ out t, e.shape = some (out, t) → IsBroadcast e.leaves out := by
    intro out t h
    unfold ShExpr.shape at h
    rw [ShExpr.bc_eq_fold] at h
    obtain ⟨h1, h2⟩ := bcFold_inv hinit hok h
    have hlen : out.length = maxLen e.leaves := by
      rw [h1]; simp [uninitializedShape, ShExpr.dim_eq]
    refine isBroadcast_of_inv hlen ?_
    obtain ⟨a, b⟩ := h2
    refine ⟨fun s hs => a s (by simpa using hs), fun k o ho => ?_⟩
    rcases b k o ho with ⟨c, d⟩ | ⟨c, d, x, hx, hx'⟩
    · exact Or.inl ⟨c, fun s hs => d s (by simpa using hs)⟩
    · exact Or.inr ⟨c, fun s hs => d s (by simpa using hs), x, by simpa using hx, hx'⟩
  have hnone : e.shape = none → Conflict e.leaves := by
    intro h
    unfold ShExpr.shape at h
    rw [ShExpr.bc_eq_fold] at h
    have := bcFold_none hinit hok (fun s hs => by
      simpa [uninitializedShape, ShExpr.dim_eq] using le_maxLen hs) h
    simpa using this
  constructor
  · intro out
    constructor
    · rintro ⟨t, h⟩; exact hsome out t h
    · intro h
      cases hs : e.shape with
      | none => exact absurd h (Conflict.not_isBroadcast (hnone hs) out)
      | some r => exact ⟨r.2, by rw [← IsBroadcast.unique (hsome r.1 r.2 hs) h]⟩
  · constructor
    · exact hnone
    · intro h
      cases hs : e.shape with
      | none => rfl
      | some r => exact absurd (hsome r.1 r.2 hs) (Conflict.not_isBroadcast h r.1)

/-- Expressions over the same set of leaf shapes — in any order, grouping, multiplicity — have the
same shape, or both raise an error. -/
theorem C04_order_and_grouping_irrelevant (e f : ShExpr) (he : e.ExtentsOk) (hf : f.ExtentsOk)
    (h : ∀ s, s ∈ e.leaves ↔ s ∈ f.leaves) :
    e.shape.map Prod.fst = f.shape.map Prod.fst := by
  have e1 := (C04_broadcast_shape e he).1
  have f1 := (C04_broadcast_shape f hf).1
  cases hs : e.shape with
  | some r =>
    have := (e1 r.1).1 ⟨r.2, by rw [hs]⟩
    rw [isBroadcast_congr h] at this
    obtain ⟨t, ht⟩ := (f1 r.1).2 this
    simp [ht]
  | none =>
    cases hs' : f.shape with
    | none => rfl
    | some r =>
      have := (f1 r.1).1 ⟨r.2, by rw [hs']⟩
      rw [← isBroadcast_congr h] at this
      obtain ⟨t, ht⟩ := (e1 r.1).2 this
      rw [hs] at ht; simp at ht

/-- Commutativity for two operands. -/
theorem C04_comm (a b : ShExpr) (h : (ShExpr.fn [a, b]).ExtentsOk) :
    (ShExpr.fn [a, b]).shape.map Prod.fst = (ShExpr.fn [b, a]).shape.map Prod.fst := by
  apply C04_order_and_grouping_irrelevant _ _ h
  · intro s hs
    apply h s
    simp only [ShExpr.leaves, ShExpr.leavesL, List.append_nil, List.mem_append] at hs ⊢
    tauto
  · intro s
    simp only [ShExpr.leaves, ShExpr.leavesL, List.append_nil, List.mem_append]
    tauto

/-- Associativity: `(a op b) op c` and `a op (b op c)`. -/
theorem C04_assoc (a b c : ShExpr) (h : (ShExpr.fn [a, .fn [b, c]]).ExtentsOk) :
    (ShExpr.fn [.fn [a, b], c]).shape.map Prod.fst
      = (ShExpr.fn [a, .fn [b, c]]).shape.map Prod.fst := by
  have hl : (ShExpr.fn [.fn [a, b], c]).leaves = (ShExpr.fn [a, .fn [b, c]]).leaves := by
    simp [ShExpr.leaves, ShExpr.leavesL]
  apply C04_order_and_grouping_irrelevant _ _ (by intro s hs; rw [hl] at hs; exact h s hs) h
  intro s; rw [hl]

example : (ShExpr.fn [.leaf [3, 1], .scalar, .fn [.leaf [4], .leaf [2, 1, 1]]]).shape
    = some ([2, 3, 4], false) := by decide
example : (ShExpr.fn [.leaf [3, 2], .leaf [3]]).shape = none := by decide
/-- unit against zero extent gives zero extent -/
example : (ShExpr.fn [.leaf [3, 1], .leaf [0]]).shape = some ([3, 0], false) := by decide

/-! ## C05 -/

/-- The triviality flag is true exactly when every non-scalar leaf already has the result shape. -/
theorem C05_trivial_iff (e : ShExpr) (hok : e.ExtentsOk) (out : List Nat) (t : Bool)
    (h : e.shape = some (out, t)) : t = true ↔ ∀ s ∈ e.leaves, s = out := by
  unfold ShExpr.shape at h
  rw [ShExpr.bc_eq_fold, ShExpr.dim_eq] at h
  have hok' : ∀ s ∈ e.leaves, szMax ∉ s := hok
  generalize e.leaves = S at h hok'
  cases S with
  | nil => simp [bcFold] at h; simp [h.2]
  | cons s S =>
    have hn : s.length ≤ maxLen (s :: S) := le_maxLen (by simp)
    have hs := hok' s (by simp)
    simp only [bcFold, broadcastShape_init s _ hn, Bool.and_true] at h
    constructor
    · intro ht
      subst ht
      have hfl : (s.length == maxLen (s :: S)) = true := by
        rw [bcFold_flag] at h
        obtain ⟨q, _, he⟩ := Option.map_eq_some_iff.1 h
        simp only [Prod.mk.injEq, Bool.and_eq_true] at he
        exact he.2.2
      have hfl' : s.length = maxLen (s :: S) := by simpa using hfl
      rw [← hfl'] at h
      simp only [Nat.sub_self, uninitializedShape, List.replicate_zero, List.nil_append] at h
      obtain ⟨h1, h2, _⟩ := bcFold_true_set hs h
      intro x hx
      rcases List.mem_cons.1 hx with rfl | hx
      · exact h2.symm
      · rw [h2]; exact h1 x hx
    · intro hall
      have hso := hall s (by simp)
      have hmax : maxLen (s :: S) = s.length := by
        rcases maxLen_attained (s :: S) with h0 | ⟨x, hx, hx'⟩
        · omega
        · rw [← hx', hall x hx, hso]
      rw [hmax] at h
      simp only [Nat.sub_self, uninitializedShape, List.replicate_zero, List.nil_append,
        BEq.rfl] at h
      rw [bcFold_self hs (fun x hx => by rw [hall x (by simp [hx]), hso])] at h
      simp at h
      simp [h.2]

example : (ShExpr.fn [.leaf [2, 1], .scalar, .leaf [2, 1]]).shape = some ([2, 1], true) ∧
    (ShExpr.fn [.leaf [2, 1], .leaf [1]]).shape = some ([2, 1], false) := by decide

/-! ## C06 -/

theorem broadcastableLoop_iff {s d : List Nat} (t : Bool) (hM : szMax ∉ d) :
    broadcastableLoop s d = true ↔ ∃ t', bcLoop s d t = some (d, t') := by
  induction s generalizing d t with
  | nil => simp [broadcastableLoop, bcLoop]
  | cons i is ih =>
    cases d with
    | nil => simp [broadcastableLoop, bcLoop]
    | cons o os =>
      simp only [List.mem_cons, not_or] at hM
      simp only [broadcastableLoop, bcLoop]
      rw [if_neg (fun e => hM.1 e.symm)]
      have red : ∀ (t₁ : Bool) (x : Nat), (∃ t', (bcLoop is os t₁).map (fun r => (x :: r.1, r.2))
          = some (o :: os, t')) ↔ x = o ∧ broadcastableLoop is os = true := by
        intro t₁ x
        rw [ih t₁ hM.2]
        constructor
        · rintro ⟨t', h⟩
          obtain ⟨⟨q1, q2⟩, hq, he⟩ := Option.map_eq_some_iff.1 h
          simp only [Prod.mk.injEq, List.cons.injEq] at he
          exact ⟨he.1.1, q2, by rw [hq, he.1.2]⟩
        · rintro ⟨rfl, t', h⟩
          exact ⟨t', by rw [h]; rfl⟩
      simp only [Bool.and_eq_true, Bool.or_eq_true, beq_iff_eq]
      split
      · next h1 => rw [red]; constructor
                   · rintro ⟨h | h, h'⟩ <;> exact ⟨by omega, h'⟩
                   · rintro ⟨h, h'⟩; exact ⟨Or.inl h, h'⟩
      · split
        · next h2 => rw [red]; exact ⟨fun h => ⟨rfl, h.2⟩, fun h => ⟨Or.inr h2, h.2⟩⟩
        · split
          · next h2 h3 =>
            constructor
            · rintro ⟨h | h, _⟩
              · exact absurd h h3
              · exact absurd h h2
            · simp
          · next h3 => rw [red]; exact ⟨fun h => ⟨rfl, h.2⟩, fun h => ⟨Or.inl (by omega), h.2⟩⟩

/-- `broadcastable(src, dst)` holds exactly when broadcasting `src` into `dst` succeeds and leaves
`dst` unchanged. -/
theorem C06_broadcastable_iff (src dst : List Nat) (hM : szMax ∉ dst) :
    broadcastable src dst = true ↔ ∃ t, broadcastShape src dst = some (dst, t) := by
  unfold broadcastable broadcastShape
  by_cases hl : dst.length < src.length
  · simp [hl]
  · rw [if_neg hl]
    simp only [Bool.and_eq_true, decide_eq_true_eq]
    rw [broadcastableLoop_iff (src.length == dst.length) (by simpa using hM)]
    constructor
    · rintro ⟨_, t, h⟩
      exact ⟨t, by rw [h]; simp⟩
    · rintro ⟨t, h⟩
      obtain ⟨⟨q1, q2⟩, hq, he⟩ := Option.map_eq_some_iff.1 h
      simp only [Prod.mk.injEq] at he
      exact ⟨by omega, t, by rw [hq, ← he.1, he.2]; simp⟩

/-- In axis terms: every axis of the source, counted from the right, is 1 or the destination's. -/
theorem C06_broadcastable_axes (src dst : List Nat) :
    broadcastable src dst = true ↔
      src.length ≤ dst.length ∧
      ∀ (k e d : Nat), axisR src k = some e → axisR dst k = some d → e = d ∨ e = 1 := by
  unfold broadcastable axisR
  have : ∀ (s d : List Nat), s.length ≤ d.length → (broadcastableLoop s d = true ↔
      ∀ (k e x : Nat), s[k]? = some e → d[k]? = some x → e = x ∨ e = 1) := by
    intro s
    induction s with
    | nil => intro d _; simp [broadcastableLoop]
    | cons i is ih =>
      intro d hl
      cases d with
      | nil => simp at hl
      | cons o os =>
        simp only [broadcastableLoop, Bool.and_eq_true, Bool.or_eq_true, beq_iff_eq]
        rw [ih os (by simpa using hl)]
        constructor
        · rintro ⟨h0, h⟩ k e x h1 h2
          cases k with
          | zero => simp at h1 h2; subst h1 h2; exact h0
          | succ k => exact h k e x (by simpa using h1) (by simpa using h2)
        · intro h
          exact ⟨h 0 i o (by simp) (by simp), fun k e x h1 h2 =>
            h (k + 1) e x (by simpa using h1) (by simpa using h2)⟩
  by_cases hl : src.length ≤ dst.length
  · simp only [Bool.and_eq_true, decide_eq_true_eq, ge_iff_le, hl, true_and]
    exact this _ _ (by simpa using hl)
  · simp [hl]

example : broadcastable [3, 1] [2, 3, 4] = true ∧ broadcastable [3] [3, 1] = false ∧
    broadcastShape [3] [3, 1] = some ([3, 3], false) := by decide

end Xt
