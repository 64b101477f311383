import Verif.Model.Cache
import Verif.Props.Broadcast
import Verif.Model.Strides
import Mathlib.Data.List.Induction
/-!
# C54: the shape of a lazy expression and its operands' current shapes

The shape asked of an expression is the broadcast of its operands' current shapes as long as no operand below an
expression whose shape has already been asked for changes its shape.  After that the code answers with the old shape for
ever: the property fails.
-/

namespace Xt
open Spec

mutual
/-- The expression without caches, over the current shapes. -/
def LExpr.erase (σ : Nat → List Nat) : LExpr → ShExpr
  | .var i => .leaf (σ i)
  | .scalar => .scalar
  | .fn _ args => .fn (LExpr.erases σ args)
/-- Operands. -/
def LExpr.erases (σ : Nat → List Nat) : List LExpr → List ShExpr
  | [] => []
  | e :: es => LExpr.erase σ e :: LExpr.erases σ es
end

mutual
/-- The variables of an expression. -/
def LExpr.vars : LExpr → List Nat
  | .var i => [i]
  | .scalar => []
  | .fn _ args => LExpr.varsL args
/-- Operands. -/
def LExpr.varsL : List LExpr → List Nat
  | [] => []
  | e :: es => LExpr.vars e ++ LExpr.varsL es
end

mutual
/-- The variables below an expression whose shape has been asked for. -/
def LExpr.pinned : LExpr → List Nat
  | .var _ => []
  | .scalar => []
  | .fn (some _) args => LExpr.varsL args
  | .fn none args => LExpr.pinnedL args
/-- Operands. -/
def LExpr.pinnedL : List LExpr → List Nat
  | [] => []
  | e :: es => LExpr.pinned e ++ LExpr.pinnedL es
end

mutual
/-- Every cache in the tree holds what would be computed now. -/
def LExpr.Coherent (σ : Nat → List Nat) : LExpr → Prop
  | .var _ => True
  | .scalar => True
  | .fn c args => (∀ r, c = some r → (ShExpr.fn (LExpr.erases σ args)).shape = some r) ∧ LExpr.Coherents σ args
/-- Operands. -/
def LExpr.Coherents (σ : Nat → List Nat) : List LExpr → Prop
  | [] => True
  | e :: es => LExpr.Coherent σ e ∧ LExpr.Coherents σ es
end

mutual
theorem LExpr.broadcast_erase (σ : Nat → List Nat) : ∀ (e : LExpr) (out : List Nat),
    e.broadcast σ out = (e.erase σ).bc out
  | .var i, out => by simp only [LExpr.broadcast, LExpr.erase, ShExpr.bc]
  | .scalar, out => by simp only [LExpr.broadcast, LExpr.erase, ShExpr.bc]
  | .fn c args, out => by
    simp only [LExpr.broadcast, LExpr.erase, ShExpr.bc]
    exact LExpr.broadcasts_erases σ args out true
theorem LExpr.broadcasts_erases (σ : Nat → List Nat) : ∀ (es : List LExpr) (out : List Nat) (b : Bool),
    LExpr.broadcasts σ es out b = ShExpr.bcs (LExpr.erases σ es) out b
  | [], out, b => by simp only [LExpr.broadcasts, LExpr.erases, ShExpr.bcs]
  | e :: es, out, b => by
    simp only [LExpr.broadcasts, LExpr.erases, ShExpr.bcs]
    rw [LExpr.broadcast_erase σ e out]
    cases (LExpr.erase σ e).bc out with
    | none => rfl
    | some r => exact LExpr.broadcasts_erases σ es r.1 (r.2 && b)
end

theorem bcLoop_length : ∀ (is os : List Nat) (t : Bool) {r : List Nat × Bool}, bcLoop is os t = some r →
    r.1.length = os.length
  | [], os, t, r, h => by
    simp only [bcLoop, Option.some.injEq] at h
    rw [← h]
  | i :: is, [], t, r, h => by simp [bcLoop] at h
  | i :: is, o :: os, t, r, h => by
    have key : ∀ (x : Nat) (t' : Bool), ((bcLoop is os t').map fun r => (x :: r.1, r.2)) = some r →
        r.1.length = (o :: os).length := by
      intro x t' h'
      cases hb : bcLoop is os t' with
      | none =>
        rw [hb] at h'
        cases h'
      | some q =>
        rw [hb, Option.map_some, Option.some.injEq] at h'
        rw [← h']
        simp [bcLoop_length is os t' hb]
    rw [bcLoop] at h
    split at h
    · exact key _ _ h
    · split at h
      · exact key _ _ h
      · split at h
        · exact key _ _ h
        · split at h
          · cases h
          · exact key _ _ h

theorem broadcastShape_length {s out : List Nat} {r : List Nat × Bool} (h : broadcastShape s out = some r) :
    r.1.length = out.length := by
  unfold broadcastShape at h
  split at h
  · cases h
  · cases hb : bcLoop s.reverse out.reverse (s.length == out.length) with
    | none =>
      rw [hb] at h
      cases h
    | some q =>
      rw [hb, Option.map_some, Option.some.injEq] at h
      rw [← h]
      have := bcLoop_length _ _ _ hb
      simpa using this

mutual
theorem ShExpr.bc_length : ∀ (e : ShExpr) (out : List Nat) {r : List Nat × Bool}, e.bc out = some r →
    r.1.length = out.length
  | .leaf s, out, r, h => by
    rw [ShExpr.bc] at h
    exact broadcastShape_length h
  | .scalar, out, r, h => by
    rw [ShExpr.bc, Option.some.injEq] at h
    rw [← h]
  | .fn args, out, r, h => by
    rw [ShExpr.bc] at h
    exact ShExpr.bcs_length args out true h
theorem ShExpr.bcs_length : ∀ (es : List ShExpr) (out : List Nat) (b : Bool) {r : List Nat × Bool},
    ShExpr.bcs es out b = some r → r.1.length = out.length
  | [], out, b, r, h => by
    rw [ShExpr.bcs, Option.some.injEq] at h
    rw [← h]
  | e :: es, out, b, r, h => by
    rw [ShExpr.bcs] at h
    cases hb : e.bc out with
    | none =>
      rw [hb] at h
      cases h
    | some q =>
      rw [hb] at h
      rw [ShExpr.bcs_length es q.1 (q.2 && b) h, ShExpr.bc_length e out hb]
end

theorem ShExpr.shape_length {e : ShExpr} {r : List Nat × Bool} (h : e.shape = some r) : r.1.length = e.dim := by
  unfold ShExpr.shape at h
  rw [ShExpr.bc_length e _ h]
  simp [uninitializedShape]

mutual
theorem LExpr.dimension_erase (σ : Nat → List Nat) : ∀ (e : LExpr), e.Coherent σ → e.dimension σ = (e.erase σ).dim
  | .var i, _ => by simp only [LExpr.dimension, LExpr.erase, ShExpr.dim]
  | .scalar, _ => by simp only [LExpr.dimension, LExpr.erase, ShExpr.dim]
  | .fn (some c) args, h => by
    have h1 := ShExpr.shape_length (h.1 c rfl)
    simp only [LExpr.dimension, LExpr.erase]
    exact h1
  | .fn none args, h => by
    simp only [LExpr.dimension, LExpr.erase, ShExpr.dim]
    exact LExpr.dimensions_erases σ args h.2
theorem LExpr.dimensions_erases (σ : Nat → List Nat) : ∀ (es : List LExpr), LExpr.Coherents σ es →
    LExpr.dimensions σ es = ShExpr.dims (LExpr.erases σ es)
  | [], _ => by simp only [LExpr.dimensions, LExpr.erases, ShExpr.dims]
  | e :: es, h => by
    simp only [LExpr.dimensions, LExpr.erases, ShExpr.dims]
    rw [LExpr.dimension_erase σ e h.1, LExpr.dimensions_erases σ es h.2]
end


/-! ## What is asked now -/

theorem bcLoop_uninitialized : ∀ (s : List Nat) (t : Bool), bcLoop s (List.replicate s.length szMax) t = some (s, t)
  | [], t => rfl
  | i :: is, t => by
    rw [List.length_cons, List.replicate_succ, bcLoop, if_pos rfl, bcLoop_uninitialized is t]
    rfl

theorem leaf_shape (s : List Nat) : (ShExpr.leaf s).shape = some (s, true) := by
  unfold ShExpr.shape
  rw [ShExpr.bc, ShExpr.dim, broadcastShape, uninitializedShape, if_neg (by simp), List.reverse_replicate]
  have h := bcLoop_uninitialized s.reverse (s.length == (List.replicate s.length szMax).length)
  rw [List.length_reverse] at h
  rw [h]
  simp

theorem LExpr.useShape_coherent {σ : Nat → List Nat} : ∀ {e : LExpr}, e.Coherent σ →
    (e.useShape σ).2 = (e.erase σ).shape.map Prod.fst
  | .var i, _ => by simp only [LExpr.useShape, LExpr.erase, leaf_shape, Option.map_some]
  | .scalar, _ => rfl
  | .fn (some c) args, h => by
    simp only [LExpr.useShape, LExpr.erase]
    rw [h.1 c rfl]
    rfl
  | .fn none args, h => by
    simp only [LExpr.useShape, LExpr.erase]
    rw [LExpr.broadcasts_erases, LExpr.dimensions_erases σ args h.2]
    have : (ShExpr.fn (LExpr.erases σ args)).shape = ShExpr.bcs (LExpr.erases σ args)
        (uninitializedShape (ShExpr.dims (LExpr.erases σ args))) true := by
      rw [ShExpr.shape, ShExpr.bc, ShExpr.dim]
    rw [this]
    cases ShExpr.bcs (LExpr.erases σ args) (uninitializedShape (ShExpr.dims (LExpr.erases σ args))) true <;> rfl

theorem LExpr.useShape_keeps {σ : Nat → List Nat} : ∀ {e : LExpr}, e.Coherent σ → (e.useShape σ).1.Coherent σ
  | .var i, h => h
  | .scalar, h => h
  | .fn (some c) args, h => h
  | .fn none args, h => by
    simp only [LExpr.useShape]
    rw [LExpr.broadcasts_erases, LExpr.dimensions_erases σ args h.2]
    cases hb : ShExpr.bcs (LExpr.erases σ args) (uninitializedShape (ShExpr.dims (LExpr.erases σ args))) true with
    | none => exact h
    | some c =>
      refine ⟨?_, h.2⟩
      intro r hr
      rw [ShExpr.shape, ShExpr.bc, ShExpr.dim, hb, hr]

theorem LExpr.useShape_erase {σ τ : Nat → List Nat} : ∀ {e : LExpr}, (e.useShape σ).1.erase τ = e.erase τ
  | .var i => rfl
  | .scalar => rfl
  | .fn (some c) args => rfl
  | .fn none args => by
    simp only [LExpr.useShape]
    cases LExpr.broadcasts σ args (uninitializedShape (LExpr.dimensions σ args)) true <;> simp only [LExpr.erase]

theorem LExpr.useShape_vars {σ : Nat → List Nat} : ∀ {e : LExpr}, (e.useShape σ).1.vars = e.vars
  | .var i => rfl
  | .scalar => rfl
  | .fn (some c) args => rfl
  | .fn none args => by
    simp only [LExpr.useShape]
    cases LExpr.broadcasts σ args (uninitializedShape (LExpr.dimensions σ args)) true <;> simp only [LExpr.vars]

theorem erases_set (τ : Nat → List Nat) : ∀ (args : List LExpr) (k : Nat) (a b : LExpr), args[k]? = some a →
    b.erase τ = a.erase τ → LExpr.erases τ (args.set k b) = LExpr.erases τ args
  | [], k, a, b, h, _ => by simp at h
  | x :: xs, 0, a, b, h, hb => by
    simp only [List.getElem?_cons_zero, Option.some.injEq] at h
    subst h
    simp only [List.set_cons_zero, LExpr.erases, hb]
  | x :: xs, k + 1, a, b, h, hb => by
    simp only [List.getElem?_cons_succ] at h
    simp only [List.set_cons_succ, LExpr.erases, erases_set τ xs k a b h hb]

theorem varsL_set : ∀ (args : List LExpr) (k : Nat) (a b : LExpr), args[k]? = some a → b.vars = a.vars →
    LExpr.varsL (args.set k b) = LExpr.varsL args
  | [], k, a, b, h, _ => by simp at h
  | x :: xs, 0, a, b, h, hb => by
    simp only [List.getElem?_cons_zero, Option.some.injEq] at h
    subst h
    simp only [List.set_cons_zero, LExpr.varsL, hb]
  | x :: xs, k + 1, a, b, h, hb => by
    simp only [List.getElem?_cons_succ] at h
    simp only [List.set_cons_succ, LExpr.varsL, varsL_set xs k a b h hb]

theorem coherents_get {σ : Nat → List Nat} : ∀ {args : List LExpr} {k : Nat} {a : LExpr}, LExpr.Coherents σ args →
    args[k]? = some a → a.Coherent σ
  | [], k, a, _, h => by simp at h
  | x :: xs, 0, a, hc, h => by
    simp only [List.getElem?_cons_zero, Option.some.injEq] at h
    subst h
    exact hc.1
  | x :: xs, k + 1, a, hc, h => by
    simp only [List.getElem?_cons_succ] at h
    exact coherents_get hc.2 h

theorem coherents_set {σ : Nat → List Nat} : ∀ {args : List LExpr} {k : Nat} {b : LExpr}, LExpr.Coherents σ args →
    b.Coherent σ → LExpr.Coherents σ (args.set k b)
  | [], k, b, _, _ => by
    rw [List.set_nil]
    trivial
  | x :: xs, 0, b, hc, hb => ⟨hb, hc.2⟩
  | x :: xs, k + 1, b, hc, hb => ⟨hc.1, coherents_set hc.2 hb⟩

theorem LExpr.useAt_erase {σ : Nat → List Nat} (τ : Nat → List Nat) : ∀ (p : List Nat) (e : LExpr),
    (e.useAt σ p).1.erase τ = e.erase τ
  | [], e => by
    rw [LExpr.useAt]
    exact LExpr.useShape_erase
  | k :: p, .var i => rfl
  | k :: p, .scalar => rfl
  | k :: p, .fn c args => by
    rw [LExpr.useAt]
    cases h : args[k]? with
    | none => rfl
    | some a =>
      simp only [LExpr.erase]
      rw [erases_set τ args k a _ h (LExpr.useAt_erase τ p a)]

theorem LExpr.useAt_vars {σ : Nat → List Nat} : ∀ (p : List Nat) (e : LExpr), (e.useAt σ p).1.vars = e.vars
  | [], e => by
    rw [LExpr.useAt]
    exact LExpr.useShape_vars
  | k :: p, .var i => rfl
  | k :: p, .scalar => rfl
  | k :: p, .fn c args => by
    rw [LExpr.useAt]
    cases h : args[k]? with
    | none => rfl
    | some a =>
      simp only [LExpr.vars]
      rw [varsL_set args k a _ h (LExpr.useAt_vars p a)]

theorem LExpr.useAt_keeps {σ : Nat → List Nat} : ∀ (p : List Nat) (e : LExpr), e.Coherent σ → (e.useAt σ p).1.Coherent σ
  | [], e, h => by
    rw [LExpr.useAt]
    exact LExpr.useShape_keeps h
  | k :: p, .var i, h => h
  | k :: p, .scalar, h => h
  | k :: p, .fn c args, h => by
    rw [LExpr.useAt]
    cases hk : args[k]? with
    | none => exact h
    | some a =>
      refine ⟨?_, coherents_set h.2 (LExpr.useAt_keeps p a (coherents_get h.2 hk))⟩
      rw [erases_set σ args k a _ hk (LExpr.useAt_erase σ p a)]
      exact h.1

/-! ## Resizing -/

mutual
theorem LExpr.erase_congr {σ τ : Nat → List Nat} : ∀ (e : LExpr), (∀ i ∈ e.vars, σ i = τ i) → e.erase σ = e.erase τ
  | .var i, h => by simp only [LExpr.erase, h i (by simp [LExpr.vars])]
  | .scalar, _ => rfl
  | .fn c args, h => by
    simp only [LExpr.erase]
    rw [LExpr.erases_congr args (by simpa only [LExpr.vars] using h)]
theorem LExpr.erases_congr {σ τ : Nat → List Nat} : ∀ (es : List LExpr), (∀ i ∈ LExpr.varsL es, σ i = τ i) →
    LExpr.erases σ es = LExpr.erases τ es
  | [], _ => rfl
  | e :: es, h => by
    simp only [LExpr.varsL, List.mem_append] at h
    simp only [LExpr.erases]
    rw [LExpr.erase_congr e (fun i hi => h i (Or.inl hi)), LExpr.erases_congr es (fun i hi => h i (Or.inr hi))]
end

mutual
theorem LExpr.pinned_subset : ∀ (e : LExpr), ∀ i ∈ e.pinned, i ∈ e.vars
  | .var _, i, h => by simp [LExpr.pinned] at h
  | .scalar, i, h => by simp [LExpr.pinned] at h
  | .fn (some _) args, i, h => by simpa only [LExpr.pinned, LExpr.vars] using h
  | .fn none args, i, h => by
    simp only [LExpr.pinned] at h
    simp only [LExpr.vars]
    exact LExpr.pinnedL_subset args i h
theorem LExpr.pinnedL_subset : ∀ (es : List LExpr), ∀ i ∈ LExpr.pinnedL es, i ∈ LExpr.varsL es
  | [], i, h => by simp [LExpr.pinnedL] at h
  | e :: es, i, h => by
    simp only [LExpr.pinnedL, List.mem_append] at h
    simp only [LExpr.varsL, List.mem_append]
    exact h.imp (LExpr.pinned_subset e i) (LExpr.pinnedL_subset es i)
end

mutual
theorem LExpr.coherent_congr {σ τ : Nat → List Nat} : ∀ (e : LExpr), e.Coherent σ → (∀ i ∈ e.pinned, σ i = τ i) →
    e.Coherent τ
  | .var _, _, _ => trivial
  | .scalar, _, _ => trivial
  | .fn (some c) args, h, hp => by
    simp only [LExpr.pinned] at hp
    refine ⟨?_, LExpr.coherents_congr args h.2 (fun i hi => hp i (LExpr.pinnedL_subset args i hi))⟩
    rw [← LExpr.erases_congr args hp]
    exact h.1
  | .fn none args, h, hp => by
    simp only [LExpr.pinned] at hp
    refine ⟨?_, LExpr.coherents_congr args h.2 hp⟩
    rintro r ⟨⟩
theorem LExpr.coherents_congr {σ τ : Nat → List Nat} : ∀ (es : List LExpr), LExpr.Coherents σ es →
    (∀ i ∈ LExpr.pinnedL es, σ i = τ i) → LExpr.Coherents τ es
  | [], _, _ => trivial
  | e :: es, h, hp => by
    simp only [LExpr.pinnedL, List.mem_append] at hp
    exact ⟨LExpr.coherent_congr e h.1 (fun i hi => hp i (Or.inl hi)),
      LExpr.coherents_congr es h.2 (fun i hi => hp i (Or.inr hi))⟩
end

/-! ## Places in an expression -/

/-- The expression at a place. -/
def LExpr.at' : List Nat → LExpr → Option LExpr
  | [], e => some e
  | k :: p, .fn _ args =>
    match args[k]? with
    | none => none
    | some a => LExpr.at' p a
  | _ :: _, _ => none

/-- The variables whose shapes a function depends on; none for a variable or a scalar, which remember nothing. -/
def LExpr.underFn : LExpr → List Nat
  | .fn _ args => LExpr.varsL args
  | _ => []

/-- The variables below the function at a place. -/
def LExpr.varsBelow (e : LExpr) (p : List Nat) : List Nat :=
  match e.at' p with
  | some n => n.underFn
  | none => []

mutual
/-- No shape has been asked for anywhere in the expression. -/
def LExpr.Fresh : LExpr → Prop
  | .var _ => True
  | .scalar => True
  | .fn c args => c = none ∧ LExpr.Freshs args
/-- Operands. -/
def LExpr.Freshs : List LExpr → Prop
  | [] => True
  | e :: es => LExpr.Fresh e ∧ LExpr.Freshs es
end

mutual
theorem LExpr.Fresh.coherent {σ : Nat → List Nat} : ∀ {e : LExpr}, e.Fresh → e.Coherent σ
  | .var _, _ => trivial
  | .scalar, _ => trivial
  | .fn c args, h => ⟨(by rintro r rfl; cases h.1), LExpr.Freshs.coherents h.2⟩
theorem LExpr.Freshs.coherents {σ : Nat → List Nat} : ∀ {es : List LExpr}, LExpr.Freshs es → LExpr.Coherents σ es
  | [], _ => trivial
  | _ :: _, h => ⟨LExpr.Fresh.coherent h.1, LExpr.Freshs.coherents h.2⟩
end

mutual
theorem LExpr.Fresh.pinned_nil : ∀ {e : LExpr}, e.Fresh → e.pinned = []
  | .var _, _ => rfl
  | .scalar, _ => rfl
  | .fn c args, h => by
    obtain ⟨rfl, h2⟩ := h
    simp only [LExpr.pinned]
    exact LExpr.Freshs.pinnedL_nil h2
theorem LExpr.Freshs.pinnedL_nil : ∀ {es : List LExpr}, LExpr.Freshs es → LExpr.pinnedL es = []
  | [], _ => rfl
  | _ :: _, h => by
    simp only [LExpr.pinnedL]
    rw [LExpr.Fresh.pinned_nil h.1, LExpr.Freshs.pinnedL_nil h.2]
    rfl
end

theorem pinnedL_set : ∀ (args : List LExpr) (k : Nat) (b : LExpr) (i : Nat), i ∈ LExpr.pinnedL (args.set k b) →
    i ∈ LExpr.pinnedL args ∨ (k < args.length ∧ i ∈ b.pinned)
  | [], k, b, i, h => by simp [LExpr.pinnedL] at h
  | x :: xs, 0, b, i, h => by
    simp only [List.set_cons_zero, LExpr.pinnedL, List.mem_append] at h
    simp only [LExpr.pinnedL, List.mem_append, List.length_cons]
    rcases h with h | h
    · exact Or.inr ⟨by omega, h⟩
    · exact Or.inl (Or.inr h)
  | x :: xs, k + 1, b, i, h => by
    simp only [List.set_cons_succ, LExpr.pinnedL, List.mem_append] at h
    simp only [LExpr.pinnedL, List.mem_append, List.length_cons]
    rcases h with h | h
    · exact Or.inl (Or.inl h)
    · rcases pinnedL_set xs k b i h with h | ⟨h1, h2⟩
      · exact Or.inl (Or.inr h)
      · exact Or.inr ⟨by omega, h2⟩

theorem pinnedL_get : ∀ {args : List LExpr} {k : Nat} {a : LExpr} {i : Nat}, args[k]? = some a → i ∈ a.pinned →
    i ∈ LExpr.pinnedL args
  | [], k, a, i, h, _ => by simp at h
  | x :: xs, 0, a, i, h, hi => by
    simp only [List.getElem?_cons_zero, Option.some.injEq] at h
    subst h
    simp only [LExpr.pinnedL, List.mem_append]
    exact Or.inl hi
  | x :: xs, k + 1, a, i, h, hi => by
    simp only [List.getElem?_cons_succ] at h
    simp only [LExpr.pinnedL, List.mem_append]
    exact Or.inr (pinnedL_get h hi)

/-- Asking for a shape pins nothing but the variables below the place asked. -/
theorem LExpr.useAt_pinned {σ : Nat → List Nat} : ∀ (p : List Nat) (e : LExpr) (i : Nat), i ∈ (e.useAt σ p).1.pinned →
    i ∈ e.pinned ∨ i ∈ e.varsBelow p
  | [], .var j, i, h => Or.inl h
  | [], .scalar, i, h => Or.inl h
  | [], .fn (some c) args, i, h => Or.inl h
  | [], .fn none args, i, h => by
    rw [LExpr.useAt] at h
    simp only [LExpr.useShape] at h
    cases hb : LExpr.broadcasts σ args (uninitializedShape (LExpr.dimensions σ args)) true with
    | none =>
      rw [hb] at h
      exact Or.inl h
    | some c =>
      rw [hb] at h
      simp only [LExpr.pinned] at h
      exact Or.inr h
  | _ :: _, .var j, i, h => Or.inl h
  | k :: p, .scalar, i, h => Or.inl h
  | k :: p, .fn (some c) args, i, h => by
    rw [LExpr.useAt] at h
    cases hk : args[k]? with
    | none =>
      rw [hk] at h
      exact Or.inl h
    | some a =>
      rw [hk] at h
      simp only [LExpr.pinned] at h
      rw [varsL_set args k a _ hk (LExpr.useAt_vars p a)] at h
      exact Or.inl (by simpa only [LExpr.pinned] using h)
  | k :: p, .fn none args, i, h => by
    rw [LExpr.useAt] at h
    cases hk : args[k]? with
    | none =>
      rw [hk] at h
      exact Or.inl h
    | some a =>
      rw [hk] at h
      simp only [LExpr.pinned] at h
      rcases pinnedL_set _ _ _ _ h with h | ⟨_, h⟩
      · exact Or.inl (by simpa only [LExpr.pinned] using h)
      · rcases LExpr.useAt_pinned p a i h with h | h
        · refine Or.inl ?_
          simp only [LExpr.pinned]
          exact pinnedL_get hk h
        · refine Or.inr ?_
          simpa only [LExpr.varsBelow, LExpr.at', hk] using h

theorem LExpr.useAt_result {σ : Nat → List Nat} : ∀ (p : List Nat) (e n : LExpr), e.Coherent σ → e.at' p = some n →
    (e.useAt σ p).2 = (n.erase σ).shape.map Prod.fst
  | [], e, n, hc, hn => by
    simp only [LExpr.at', Option.some.injEq] at hn
    subst hn
    rw [LExpr.useAt]
    exact LExpr.useShape_coherent hc
  | k :: p, .var i, n, hc, hn => by simp [LExpr.at'] at hn
  | k :: p, .scalar, n, hc, hn => by simp [LExpr.at'] at hn
  | k :: p, .fn c args, n, hc, hn => by
    rw [LExpr.useAt]
    rw [LExpr.at'] at hn
    cases hk : args[k]? with
    | none =>
      rw [hk] at hn
      cases hn
    | some a =>
      rw [hk] at hn
      exact LExpr.useAt_result p a n (coherents_get hc.2 hk) hn


theorem LExpr.useShape_underFn {σ : Nat → List Nat} : ∀ {e : LExpr}, (e.useShape σ).1.underFn = e.underFn
  | .var i => rfl
  | .scalar => rfl
  | .fn (some c) args => rfl
  | .fn none args => by
    simp only [LExpr.useShape]
    cases LExpr.broadcasts σ args (uninitializedShape (LExpr.dimensions σ args)) true <;> simp only [LExpr.underFn]

theorem LExpr.useAt_underFn {σ : Nat → List Nat} : ∀ (p : List Nat) (e : LExpr),
    (e.useAt σ p).1.underFn = e.underFn
  | [], e => by
    rw [LExpr.useAt]
    exact LExpr.useShape_underFn
  | k :: p, .var i => rfl
  | k :: p, .scalar => rfl
  | k :: p, .fn c args => by
    rw [LExpr.useAt]
    cases h : args[k]? with
    | none => rfl
    | some a =>
      simp only [LExpr.underFn]
      rw [varsL_set args k a _ h (LExpr.useAt_vars p a)]

/-- Two places' contents that differ in caches only. -/
def SameButCaches (a b : Option LExpr) : Prop :=
  (a = none ∧ b = none) ∨ ∃ x y, a = some x ∧ b = some y ∧ (∀ τ, x.erase τ = y.erase τ) ∧ x.vars = y.vars ∧
    x.underFn = y.underFn

theorem SameButCaches.rfl' (a : Option LExpr) : SameButCaches a a := by
  cases a with
  | none => exact Or.inl ⟨rfl, rfl⟩
  | some x => exact Or.inr ⟨x, x, rfl, rfl, fun _ => rfl, rfl, rfl⟩

theorem SameButCaches.trans' {a b c : Option LExpr} (h : SameButCaches a b) (g : SameButCaches b c) :
    SameButCaches a c := by
  rcases h with ⟨rfl, rfl⟩ | ⟨x, y, rfl, rfl, h1, h2, h3⟩
  · exact g
  · rcases g with ⟨g1, _⟩ | ⟨y', z, g1, rfl, g2, g3, g4⟩
    · cases g1
    · cases g1
      exact Or.inr ⟨x, z, rfl, rfl, fun τ => (h1 τ).trans (g2 τ), h2.trans g3, h3.trans g4⟩

theorem LExpr.useAt_at {σ : Nat → List Nat} : ∀ (q p : List Nat) (e : LExpr),
    SameButCaches ((e.useAt σ p).1.at' q) (e.at' q)
  | [], p, e => Or.inr ⟨_, e, rfl, rfl, fun τ => LExpr.useAt_erase τ p e, LExpr.useAt_vars p e, LExpr.useAt_underFn p e⟩
  | _ :: _, [], .var _ => SameButCaches.rfl' _
  | _ :: _, [], .scalar => SameButCaches.rfl' _
  | _ :: _, [], .fn (some _) _ => SameButCaches.rfl' _
  | l :: q, [], .fn none args => by
    rw [LExpr.useAt]
    simp only [LExpr.useShape]
    cases LExpr.broadcasts σ args (uninitializedShape (LExpr.dimensions σ args)) true <;>
      exact SameButCaches.rfl' _
  | _ :: _, _ :: _, .var _ => SameButCaches.rfl' _
  | _ :: _, _ :: _, .scalar => SameButCaches.rfl' _
  | l :: q, k :: p, .fn c args => by
    rw [LExpr.useAt]
    cases h : args[k]? with
    | none => exact SameButCaches.rfl' _
    | some a =>
      simp only [LExpr.at']
      by_cases hkl : k = l
      · subst hkl
        rw [List.getElem?_set_self (List.getElem?_eq_some_iff.1 h).1, h]
        exact LExpr.useAt_at q p a
      · rw [List.getElem?_set_ne hkl]
        exact SameButCaches.rfl' _

mutual
theorem LExpr.leaves_erase (σ : Nat → List Nat) : ∀ (e : LExpr), (e.erase σ).leaves = e.vars.map σ
  | .var i => rfl
  | .scalar => rfl
  | .fn c args => by
    simp only [LExpr.erase, ShExpr.leaves, LExpr.vars]
    exact LExpr.leavesL_erases σ args
theorem LExpr.leavesL_erases (σ : Nat → List Nat) : ∀ (es : List LExpr),
    ShExpr.leavesL (LExpr.erases σ es) = (LExpr.varsL es).map σ
  | [] => rfl
  | e :: es => by
    simp only [LExpr.erases, ShExpr.leavesL, LExpr.varsL, List.map_append]
    rw [LExpr.leaves_erase σ e, LExpr.leavesL_erases σ es]
end

/-! ## Histories -/

/-- The variables' shapes after a history: uses do not matter. -/
def shapesAfter (σ : Nat → List Nat) (evs : List CacheEvent) : Nat → List Nat :=
  evs.foldl (fun (τ : Nat → List Nat) (ev : CacheEvent) =>
    match ev with
    | .use _ => τ
    | .resize i s => fun j => if j = i then s else τ j) σ

/-- Each resize of a history changes nothing, or concerns a variable that is not below a function whose shape was asked
    for before. -/
def NoLateResize (σ : Nat → List Nat) (e : LExpr) (evs : List CacheEvent) : Prop :=
  ∀ pre i s post, evs = pre ++ .resize i s :: post →
    s = shapesAfter σ pre i ∨ ∀ p, CacheEvent.use p ∈ pre → i ∉ e.varsBelow p

theorem cacheRun_append (st : (Nat → List Nat) × LExpr) (a b : List CacheEvent) :
    cacheRun st (a ++ b) = cacheRun (cacheRun st a) b := List.foldl_append

theorem cacheRun_shapes (e : LExpr) (σ : Nat → List Nat) (evs : List CacheEvent) :
    (cacheRun (σ, e) evs).1 = shapesAfter σ evs := by
  induction evs using List.reverseRecOn with
  | nil => rfl
  | append_singleton evs ev ih =>
    rw [cacheRun_append]
    unfold shapesAfter
    rw [List.foldl_append]
    change (cacheRun (cacheRun (σ, e) evs) [ev]).1 = _
    rw [show cacheRun (cacheRun (σ, e) evs) [ev] = cacheStep (cacheRun (σ, e) evs) ev from rfl]
    cases ev with
    | use p => exact ih
    | resize i s =>
      change resizeVar (cacheRun (σ, e) evs).1 i s = _
      rw [ih]
      rfl

theorem cacheRun_inv {σ : Nat → List Nat} {e : LExpr} (hf : e.Fresh) (evs : List CacheEvent)
    (hq : NoLateResize σ e evs) :
    (cacheRun (σ, e) evs).2.Coherent (shapesAfter σ evs) ∧
    (∀ q, SameButCaches ((cacheRun (σ, e) evs).2.at' q) (e.at' q)) ∧
    (∀ i ∈ (cacheRun (σ, e) evs).2.pinned, ∃ p, CacheEvent.use p ∈ evs ∧ i ∈ e.varsBelow p) := by
  induction evs using List.reverseRecOn with
  | nil =>
    refine ⟨LExpr.Fresh.coherent hf, fun q => SameButCaches.rfl' _, ?_⟩
    intro i hi
    have : (cacheRun (σ, e) []).2.pinned = [] := LExpr.Fresh.pinned_nil hf
    rw [this] at hi
    cases hi
  | append_singleton evs ev ih =>
    have hq' : NoLateResize σ e evs := by
      intro pre i s post h
      exact hq pre i s (post ++ [ev]) (by rw [h]; simp)
    obtain ⟨h1, h2, h3⟩ := ih hq'
    have hs := cacheRun_shapes e σ evs
    rw [cacheRun_append, show cacheRun (cacheRun (σ, e) evs) [ev] = cacheStep (cacheRun (σ, e) evs) ev from rfl]
    have hsa : shapesAfter σ (evs ++ [ev]) = (match ev with
        | .use _ => shapesAfter σ evs
        | .resize i s => fun j => if j = i then s else shapesAfter σ evs j) := by
      conv_lhs => unfold shapesAfter
      rw [List.foldl_append]
      cases ev <;> rfl
    rw [hsa]
    generalize hst : cacheRun (σ, e) evs = st at *
    obtain ⟨τ, f⟩ := st
    simp only [] at hs h1 h2 h3
    subst hs
    cases ev with
    | use p =>
      simp only [cacheStep]
      refine ⟨LExpr.useAt_keeps p f h1, fun q => SameButCaches.trans' (LExpr.useAt_at q p f) (h2 q), ?_⟩
      intro i hi
      rcases LExpr.useAt_pinned p f i hi with hi | hi
      · obtain ⟨q, hq1, hq2⟩ := h3 i hi
        exact ⟨q, by simp [hq1], hq2⟩
      · refine ⟨p, by simp, ?_⟩
        unfold LExpr.varsBelow at hi ⊢
        rcases h2 p with ⟨ha, hb⟩ | ⟨x, y, ha, hb, _, _, hu⟩
        · rw [ha] at hi
          cases hi
        · rw [ha] at hi
          rw [hb]
          simp only [] at hi ⊢
          rwa [← hu]
    | resize i s =>
      simp only [cacheStep]
      refine ⟨?_, h2, ?_⟩
      · refine LExpr.coherent_congr f h1 ?_
        intro j hj
        by_cases hji : j = i
        · subst hji
          simp only [if_true]
          rcases hq evs j s [] rfl with h | h
          · exact h.symm
          · obtain ⟨p, hp1, hp2⟩ := h3 j hj
            exact absurd hp2 (h p hp1)
        · simp only [if_neg hji]
      · intro j hj
        obtain ⟨p, hp1, hp2⟩ := h3 j hj
        exact ⟨p, by simp [hp1], hp2⟩

/-- After a history in which no variable changes its shape once the shape of a function over it has been asked for, the
shape asked at any place of the expression is the NumPy broadcast of the **current** shapes of the variables there, and
an error is raised exactly when those conflict.  Without the hypothesis on the history this is false:
`C54_stale_shape`. -/
theorem C54_current_shape_partial (e : LExpr) (hf : e.Fresh) (σ : Nat → List Nat) (evs : List CacheEvent)
    (hq : NoLateResize σ e evs) (p : List Nat) (n : LExpr) (hn : e.at' p = some n)
    (hok : ∀ i ∈ n.vars, szMax ∉ shapesAfter σ evs i) :
    let now := cacheRun (σ, e) evs
    (∀ out, (now.2.useAt now.1 p).2 = some out ↔ IsBroadcast (n.vars.map (shapesAfter σ evs)) out) ∧
    ((now.2.useAt now.1 p).2 = none ↔ Conflict (n.vars.map (shapesAfter σ evs))) := by
  intro now
  obtain ⟨h1, h2, _⟩ := cacheRun_inv hf evs hq
  have hs := cacheRun_shapes e σ evs
  rcases h2 p with ⟨_, hb⟩ | ⟨x, y, ha, hb, he, hv, _⟩
  · rw [hn] at hb
    cases hb
  · rw [hn] at hb
    cases hb
    have hr := LExpr.useAt_result p now.2 x h1 ha
    have hE : (n.erase (shapesAfter σ evs)).ExtentsOk := by
      intro s hs'
      rw [LExpr.leaves_erase] at hs'
      obtain ⟨i, hi, rfl⟩ := List.mem_map.1 hs'
      exact hok i hi
    have hC := C04_broadcast_shape _ hE
    rw [LExpr.leaves_erase] at hC
    rw [show now.1 = shapesAfter σ evs from hs, hr, he]
    refine ⟨?_, ?_⟩
    · intro out
      rw [← hC.1 out]
      cases (n.erase (shapesAfter σ evs)).shape with
      | none => simp
      | some r => simp [Prod.ext_iff]
    · rw [← hC.2]
      cases (n.erase (shapesAfter σ evs)).shape <;> simp

/-- Under the same hypothesis an assignment of the expression to a container finds that shape too, and its triviality flag
says whether all variables have exactly the shape assigned. -/
theorem C54_assign_current_partial (e : LExpr) (hf : e.Fresh) (σ : Nat → List Nat) (evs : List CacheEvent)
    (hq : NoLateResize σ e evs) (hok : ∀ i ∈ e.vars, szMax ∉ shapesAfter σ evs i) :
    let now := cacheRun (σ, e) evs
    (∀ out, (∃ t, now.2.assignShape now.1 = some (out, t)) ↔ IsBroadcast (e.vars.map (shapesAfter σ evs)) out) ∧
    (now.2.assignShape now.1 = none ↔ Conflict (e.vars.map (shapesAfter σ evs))) ∧
    (∀ out t, now.2.assignShape now.1 = some (out, t) → (t = true ↔ ∀ i ∈ e.vars, shapesAfter σ evs i = out)) := by
  intro now
  obtain ⟨h1, h2, _⟩ := cacheRun_inv hf evs hq
  have hs : now.1 = shapesAfter σ evs := cacheRun_shapes e σ evs
  have he : now.2.erase (shapesAfter σ evs) = e.erase (shapesAfter σ evs) := by
    rcases h2 [] with ⟨ha, _⟩ | ⟨x, y, ha, hb, he, hv, _⟩
    · cases ha
    · cases ha
      cases hb
      exact he _
  have hE : (e.erase (shapesAfter σ evs)).ExtentsOk := by
    intro s hs'
    rw [LExpr.leaves_erase] at hs'
    obtain ⟨i, hi, rfl⟩ := List.mem_map.1 hs'
    exact hok i hi
  have hA : now.2.assignShape now.1 = (e.erase (shapesAfter σ evs)).shape := by
    rw [← he, hs]
    change LExpr.Coherent (shapesAfter σ evs) now.2 at h1
    generalize now.2 = f at h1
    match f, h1 with
    | .var i, h1 =>
      rw [LExpr.assignShape, LExpr.broadcast_erase, LExpr.dimension_erase _ _ h1, ShExpr.shape]
      intro c args h
      cases h
    | .scalar, h1 =>
      rw [LExpr.assignShape, LExpr.broadcast_erase, LExpr.dimension_erase _ _ h1, ShExpr.shape]
      intro c args h
      cases h
    | .fn (some c) args, h1 =>
      rw [LExpr.assignShape, LExpr.erase, h1.1 c rfl]
    | .fn none args, h1 =>
      rw [LExpr.assignShape, LExpr.broadcast_erase, LExpr.dimension_erase _ _ h1, ShExpr.shape]
      intro c args h
      cases h
  have hC := C04_broadcast_shape _ hE
  rw [hA]
  refine ⟨?_, ?_, ?_⟩
  · intro out
    rw [hC.1 out, LExpr.leaves_erase]
  · rw [hC.2, LExpr.leaves_erase]
  · intro out t h
    rw [C05_trivial_iff _ hE out t h, LExpr.leaves_erase]
    simp only [List.mem_map, forall_exists_index, and_imp, forall_apply_eq_imp_iff₂]

theorem LExpr.useAt_cached {σ : Nat → List Nat} {c : List Nat × Bool} : ∀ (p : List Nat) (args : List LExpr),
    ∃ args', ((LExpr.fn (some c) args).useAt σ p).1 = .fn (some c) args'
  | [], args => ⟨args, rfl⟩
  | k :: p, args => by
    rw [LExpr.useAt]
    cases args[k]? with
    | none => exact ⟨args, rfl⟩
    | some a => exact ⟨_, rfl⟩

theorem cacheRun_cached {c : List Nat × Bool} (evs : List CacheEvent) : ∀ (σ : Nat → List Nat) (args : List LExpr),
    ∃ τ args', cacheRun (σ, .fn (some c) args) evs = (τ, .fn (some c) args') := by
  induction evs with
  | nil => exact fun σ args => ⟨σ, args, rfl⟩
  | cons ev evs ih =>
    intro σ args
    cases ev with
    | use p =>
      obtain ⟨args', h⟩ := LExpr.useAt_cached (σ := σ) (c := c) p args
      obtain ⟨τ, args'', h'⟩ := ih σ args'
      refine ⟨τ, args'', ?_⟩
      change cacheRun (σ, ((LExpr.fn (some c) args).useAt σ p).1) evs = _
      rw [h, h']
    | resize i s =>
      obtain ⟨τ, args'', h'⟩ := ih (resizeVar σ i s) args
      exact ⟨τ, args'', h'⟩

/-- The shape a function gave the first time it was asked is the shape it gives after **every** later history, and the
shape its assignment uses: resizes of its operands are never seen. -/
theorem C54_frozen (c : Option (List Nat × Bool)) (args : List LExpr) (σ : Nat → List Nat) (s : List Nat)
    (h : ((LExpr.fn c args).useShape σ).2 = some s) (evs : List CacheEvent) :
    let now := cacheRun (σ, ((LExpr.fn c args).useShape σ).1) evs
    (now.2.useShape now.1).2 = some s ∧ now.2.dimension now.1 = s.length ∧
    (now.2.assignShape now.1).map Prod.fst = some s := by
  have hx : ∃ t, ((LExpr.fn c args).useShape σ).1 = .fn (some (s, t)) args := by
    cases c with
    | some c =>
      simp only [LExpr.useShape, Option.some.injEq] at h
      subst h
      exact ⟨c.2, rfl⟩
    | none =>
      simp only [LExpr.useShape] at h ⊢
      cases hb : LExpr.broadcasts σ args (uninitializedShape (LExpr.dimensions σ args)) true with
      | none =>
        rw [hb] at h
        cases h
      | some c =>
        rw [hb] at h
        simp only [Option.some.injEq] at h
        subst h
        exact ⟨c.2, rfl⟩
  obtain ⟨t, hx⟩ := hx
  rw [hx]
  obtain ⟨τ, args', h'⟩ := cacheRun_cached (c := (s, t)) evs σ args
  intro now
  have hn : now = (τ, .fn (some (s, t)) args') := h'
  rw [hn]
  refine ⟨rfl, ?_, rfl⟩
  simp only [LExpr.dimension]

/-- A broadcasting error is not remembered: the expression is as before. -/
theorem C54_error_not_cached (σ : Nat → List Nat) (e : LExpr) (h : (e.useShape σ).2 = none) : (e.useShape σ).1 = e := by
  match e with
  | .var i => rfl
  | .scalar => rfl
  | .fn (some c) args => rfl
  | .fn none args =>
    simp only [LExpr.useShape] at h ⊢
    cases hb : LExpr.broadcasts σ args (uninitializedShape (LExpr.dimensions σ args)) true with
    | none => rfl
    | some c =>
      rw [hb] at h
      cases h

/-! ## The property fails -/

/-- `e = a + b` with `a`, `b` of shape `{2}`; `e.shape()`; both resized to `{3}`; `e.shape()` is still `{2}`. -/
theorem C54_stale_shape : ¬ ∀ (e : LExpr) (σ : Nat → List Nat) (evs : List CacheEvent), e.Fresh →
    ∀ out, ((cacheRun (σ, e) evs).2.useShape (cacheRun (σ, e) evs).1).2 = some out →
      IsBroadcast (e.vars.map (shapesAfter σ evs)) out := by
  intro h
  have h1 := h (.fn none [.var 0, .var 1]) (fun _ => [2]) [.use [], .resize 0 [3], .resize 1 [3]]
    ⟨rfl, trivial, trivial, trivial⟩ [2] (by decide)
  have h2 := h1.attained 0 2 rfl
  revert h2
  decide

/-- `e = a * 1`, `a` of shape `{3}`; `e.shape()`; `a.resize({2})`; an assignment then takes the shape `{3}` with the
broadcasting called trivial (a copy of three elements from the buffer of two), and the element at index 2 of that shape
is looked for at offset 2 of that buffer. -/
theorem C54_stale_reads_outside :
    let now := cacheRun (fun _ => [3], .fn none [.var 0, .scalar]) [.use [], .resize 0 [2]]
    now.2.assignShape now.1 = some ([3], true) ∧
    (now.1 0).prod = 2 ∧
    elementOffset (computeStrides .row_major .row_major (now.1 0)).1 [2] = 2 := by
  decide

/-- A stale operand inside: `e = (a + b) * c`, the shape of `a + b` asked when both have one axis; then `a` gets two axes.
The shape of `e`, never asked before, is an error although the shapes broadcast to `{4, 3}`; with `a` losing an axis
instead, an extent of the shape is never written and stays at the marker 2^64 - 1. -/
theorem C54_stale_operand :
    (let now := cacheRun (fun _ => [3], .fn none [.fn none [.var 0, .var 1], .var 2]) [.use [0], .resize 0 [4, 3]]
     (now.2.useShape now.1).2 = none) ∧
    IsBroadcast [[4, 3], [3], [3]] [4, 3] ∧
    (let now := cacheRun (fun i => if i = 0 then [4, 3] else [3], .fn none [.fn none [.var 0, .var 1], .var 2])
        [.use [0], .resize 0 [3]]
     (now.2.useShape now.1).2 = some [szMax, 3]) := by
  refine ⟨by decide, ⟨by decide, ?_, ?_⟩, by decide⟩
  · intro k d hk s hs e he
    match k with
    | 0 =>
      simp [axisR] at hk
      simp at hs
      rcases hs with rfl | rfl <;> simp [axisR] at he <;> omega
    | 1 =>
      simp [axisR] at hk
      simp at hs
      rcases hs with rfl | rfl <;> simp [axisR] at he <;> omega
    | k + 2 => simp [axisR] at hk
  · intro k d hk
    match k with
    | 0 => exact ⟨[4, 3], by simp, hk⟩
    | 1 => exact ⟨[4, 3], by simp, hk⟩
    | k + 2 => simp [axisR] at hk

/-! ## Examples -/

/-- `(a + b) * c`: the inner shape is asked, then `c` is resized, then the whole is asked, then `b` gets the shape it has. -/
example : NoLateResize (fun _ => [3]) (.fn none [.fn none [.var 0, .var 1], .var 2])
    [.use [0], .resize 2 [5, 3], .use [], .resize 1 [3]] := by
  intro pre i s post h
  match pre with
  | [] => cases h
  | [_] =>
    simp only [List.cons_append, List.nil_append, List.cons.injEq, CacheEvent.resize.injEq] at h
    obtain ⟨rfl, ⟨rfl, rfl⟩, rfl⟩ := h
    refine Or.inr ?_
    intro p hp
    simp only [List.mem_singleton, CacheEvent.use.injEq] at hp
    subst hp
    decide
  | [_, _] => simp at h
  | [x, y, z] =>
    simp only [List.cons_append, List.nil_append, List.cons.injEq, CacheEvent.resize.injEq] at h
    obtain ⟨rfl, rfl, rfl, ⟨rfl, rfl⟩, rfl⟩ := h
    exact Or.inl rfl
  | x :: y :: z :: w :: pre => simp at h

example :
    let now := cacheRun (fun _ => [3], .fn none [.fn none [.var 0, .var 1], .var 2])
      [.use [0], .resize 2 [5, 3], .use [], .resize 1 [3]]
    (now.2.useAt now.1 []).2 = some [5, 3] ∧ (now.2.useAt now.1 [0]).2 = some [3] ∧
    now.2.assignShape now.1 = some ([5, 3], false) := by
  decide

example : ((LExpr.fn none [.var 0, .scalar]).useShape fun _ => [3, 4]).2 = some [3, 4] := by decide

example : ((LExpr.fn none [.var 0, .var 1]).useShape fun i => [i + 2]).2 = none := by decide

end Xt
