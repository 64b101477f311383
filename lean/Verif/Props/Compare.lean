import Verif.Model.Compare
import Verif.Lemmas.Program
import Verif.Props.ExprIter
/-!
# C89: comparisons
-/

namespace Xt
open Spec

variable {α : Type}

/-! ### Specification -/

/-- `a` comes before `b` in the dictionary: at the first place where they differ `b` goes on and `a` stops or has the
smaller element. -/
def Spec.Before [LinearOrder α] (a b : List α) : Prop :=
  ∃ (p ys : List α) (y : α), b = p ++ y :: ys ∧ (a = p ∨ ∃ x xs, a = p ++ x :: xs ∧ x < y)

/-- The two sequences have the same first element, or neither has one. -/
def Spec.SameFirst (a b : List α) : Prop := a.head? = b.head?

/-- `<` of the elements as a function. -/
def ltOf [LinearOrder α] (x y : α) : Bool := decide (x < y)

/-! ### Sequences -/

theorem seqEqual_iff {eq : α → α → Bool} : ∀ (a b : List α), (∀ x y, eq x y = true ↔ x = y) →
    (seqEqual eq a b = true ↔ a = b)
  | [], [], _ => by simp [seqEqual]
  | [], _ :: _, _ => by simp [seqEqual]
  | _ :: _, [], _ => by simp [seqEqual]
  | x :: xs, y :: ys, h => by
    have ih := seqEqual_iff xs ys h
    simp only [seqEqual, Bool.and_eq_true, beq_iff_eq] at ih
    simp only [seqEqual, List.length_cons, List.zip_cons_cons, List.all_cons, Bool.and_eq_true, h, List.cons.injEq,
      beq_iff_eq, ← ih]
    constructor
    · rintro ⟨a, b, c⟩; exact ⟨b, by omega, c⟩
    · rintro ⟨a, b, c⟩; exact ⟨by omega, a, c⟩

theorem before_nil [LinearOrder α] (a : List α) : ¬ Before a [] := by
  rintro ⟨p, ys, y, h, -⟩
  simp at h

theorem nil_before [LinearOrder α] (y : α) (ys : List α) : Before [] (y :: ys) := ⟨[], ys, y, rfl, Or.inl rfl⟩

theorem cons_before [LinearOrder α] (x y : α) (xs ys : List α) :
    Before (x :: xs) (y :: ys) ↔ x < y ∨ (x = y ∧ Before xs ys) := by
  constructor
  · rintro ⟨p, zs, z, hb, ha⟩
    cases p with
    | nil =>
      simp only [List.nil_append, List.cons.injEq] at hb
      rcases ha with ha | ⟨w, ws, ha, hlt⟩
      · simp at ha
      · simp only [List.nil_append, List.cons.injEq] at ha
        left; rw [ha.1, hb.1]; exact hlt
    | cons q p =>
      simp only [List.cons_append, List.cons.injEq] at hb
      rcases ha with ha | ⟨w, ws, ha, hlt⟩
      · simp only [List.cons.injEq] at ha
        exact Or.inr ⟨ha.1.trans hb.1.symm, p, zs, z, hb.2, Or.inl ha.2⟩
      · simp only [List.cons_append, List.cons.injEq] at ha
        exact Or.inr ⟨ha.1.trans hb.1.symm, p, zs, z, hb.2, Or.inr ⟨w, ws, ha.2, hlt⟩⟩
  · rintro (h | ⟨rfl, p, zs, z, hb, ha⟩)
    · exact ⟨[], ys, y, rfl, Or.inr ⟨x, xs, rfl, h⟩⟩
    · refine ⟨x :: p, zs, z, by simp [hb], ?_⟩
      rcases ha with ha | ⟨w, ws, ha, hlt⟩
      · exact Or.inl (by rw [ha])
      · exact Or.inr ⟨w, ws, by simp [ha], hlt⟩

theorem lexCompare_lt [LinearOrder α] : ∀ (a b : List α), lexCompare ltOf a b = true ↔ Before a b
  | a, [] => by
    have : lexCompare ltOf a [] = false := by cases a <;> rfl
    rw [this]; simp [before_nil]
  | [], y :: ys => by simp [lexCompare, nil_before]
  | x :: xs, y :: ys => by
    rw [cons_before, lexCompare]
    have ih := lexCompare_lt xs ys
    rcases lt_trichotomy x y with h | h | h
    · simp [ltOf, h]
    · subst h; simp [ltOf, ih]
    · have h1 : ¬ x < y := not_lt.2 h.le
      have h2 : x ≠ y := ne_of_gt h
      simp [ltOf, h, h1, h2]

theorem before_total [LinearOrder α] : ∀ (a b : List α), Before a b ∨ a = b ∨ Before b a
  | [], [] => by simp
  | [], y :: ys => Or.inl (nil_before y ys)
  | x :: xs, [] => Or.inr (Or.inr (nil_before x xs))
  | x :: xs, y :: ys => by
    rw [cons_before, cons_before]
    rcases lt_trichotomy x y with h | h | h
    · exact Or.inl (Or.inl h)
    · subst h
      rcases before_total xs ys with h | h | h
      · exact Or.inl (Or.inr ⟨rfl, h⟩)
      · exact Or.inr (Or.inl (by rw [h]))
      · exact Or.inr (Or.inr (Or.inr ⟨rfl, h⟩))
    · exact Or.inr (Or.inr (Or.inl h))

theorem before_irrefl [LinearOrder α] : ∀ (a : List α), ¬ Before a a
  | [] => before_nil []
  | x :: xs => by
    rw [cons_before]
    rintro (h | ⟨-, h⟩)
    · exact lt_irrefl _ h
    · exact before_irrefl xs h

theorem before_trans [LinearOrder α] : ∀ (a b c : List α), Before a b → Before b c → Before a c
  | _, [], _, h, _ => absurd h (before_nil _)
  | _, _ :: _, [], _, h => absurd h (before_nil _)
  | [], _ :: _, z :: zs, _, _ => nil_before z zs
  | x :: xs, y :: ys, z :: zs, h, g => by
    rw [cons_before] at h g ⊢
    rcases h with h | ⟨rfl, h⟩
    · rcases g with g | ⟨rfl, -⟩
      · exact Or.inl (h.trans g)
      · exact Or.inl h
    · rcases g with g | ⟨rfl, g⟩
      · exact Or.inl g
      · exact Or.inr ⟨rfl, before_trans xs ys zs h g⟩

theorem before_asymm [LinearOrder α] {a b : List α} (h : Before a b) : ¬ Before b a :=
  fun g => before_irrefl a (before_trans _ _ _ h g)

/-- C89: the six comparisons of `uvector`, `svector` and `const_array` are those of the lexicographical order, which is
total: exactly one of `<`, `==`, `>` holds. -/
theorem C89_storage_order [LinearOrder α] (eq : α → α → Bool) (heq : ∀ x y, eq x y = true ↔ x = y) (a b : List α) :
    (vecLt ltOf a b = true ↔ Before a b) ∧ (vecGt ltOf a b = true ↔ Before b a) ∧
    (vecLe ltOf a b = true ↔ Before a b ∨ a = b) ∧ (vecGe ltOf a b = true ↔ Before b a ∨ a = b) ∧
    (vecEq eq a b = true ↔ a = b) ∧ (vecNe eq a b = true ↔ a ≠ b) ∧
    (Before a b ∨ a = b ∨ Before b a) ∧ ¬ (Before a b ∧ Before b a) ∧ ¬ Before a a := by
  have h1 := lexCompare_lt a b
  have h2 := lexCompare_lt b a
  have h3 := seqEqual_iff a b heq
  refine ⟨h1, h2, ?_, ?_, h3, ?_, before_total a b, fun h => before_asymm h.1 h.2, before_irrefl a⟩
  · unfold vecLe vecGt vecLt
    rw [Bool.not_eq_true', ← Bool.not_eq_true, h2]
    constructor
    · intro h
      rcases before_total a b with g | g | g
      · exact Or.inl g
      · exact Or.inr g
      · exact absurd g h
    · rintro (g | rfl)
      · exact before_asymm g
      · exact before_irrefl a
  · unfold vecGe vecLt
    rw [Bool.not_eq_true', ← Bool.not_eq_true, h1]
    constructor
    · intro h
      rcases before_total a b with g | g | g
      · exact absurd g h
      · exact Or.inr g
      · exact Or.inl g
    · rintro (g | rfl)
      · exact before_asymm g
      · exact before_irrefl a
  · unfold vecNe vecEq
    rw [Bool.not_eq_true', ← Bool.not_eq_true, h3]

theorem bufGreater_eq [LinearOrder α] (a b : List α) :
    bufGreater ltOf a b = true ↔ ∃ (p ys : List α) (y : α), b = p ++ y :: ys ∧ (a = p ∨ ∃ x xs, a = p ++ x :: xs ∧ y < x) :=
  lexCompare_lt (α := αᵒᵈ) a b

/-- What the comparisons of buffer adaptors are: `==`, `!=` and `<` as for other storages; `>` compares as `<` does with
the elements' order turned around, so that a sequence is greater than its continuations; `<=` and `>=` look at the first
elements only. -/
theorem C89_adaptor_order [LinearOrder α] (eq : α → α → Bool) (heq : ∀ x y, eq x y = true ↔ x = y) (a b : List α) :
    (bufEq eq a b = true ↔ a = b) ∧ (bufNe eq a b = true ↔ a ≠ b) ∧ (bufLess ltOf a b = true ↔ Before a b) ∧
    (bufGreater ltOf a b = true ↔ (Before b a ∧ ¬ b <+: a) ∨ (a <+: b ∧ a ≠ b)) ∧
    (bufLessEq ltOf a b = true ↔ b ≠ [] ∧ ∀ x ∈ a.head?, ∀ y ∈ b.head?, x ≤ y) ∧
    (bufGreaterEq ltOf a b = true ↔ b ≠ [] ∧ ∀ x ∈ a.head?, ∀ y ∈ b.head?, y ≤ x) := by
  refine ⟨seqEqual_iff a b heq, ?_, lexCompare_lt a b, ?_, ?_, ?_⟩
  · unfold bufNe bufEq
    rw [Bool.not_eq_true', ← Bool.not_eq_true, seqEqual_iff a b heq]
  · rw [bufGreater_eq]
    constructor
    · rintro ⟨p, ys, y, rfl, rfl | ⟨x, xs, rfl, hlt⟩⟩
      · right; exact ⟨List.prefix_append _ _, by simp⟩
      · left
        refine ⟨⟨p, xs, x, rfl, Or.inr ⟨y, ys, rfl, hlt⟩⟩, ?_⟩
        rw [List.prefix_append_right_inj]
        intro h
        have := (List.cons_prefix_cons.1 h).1
        exact absurd this (ne_of_lt hlt)
    · rintro (⟨⟨p, xs, x, rfl, rfl | ⟨y, ys, rfl, hlt⟩⟩, hp⟩ | ⟨⟨t, rfl⟩, hne⟩)
      · exact absurd (List.prefix_append _ _) hp
      · exact ⟨p, ys, y, rfl, Or.inr ⟨x, xs, rfl, hlt⟩⟩
      · cases t with
        | nil => simp at hne
        | cons y t => exact ⟨a, t, y, rfl, Or.inl rfl⟩
  · cases b with
    | nil => cases a <;> simp [bufLessEq, lexCompare]
    | cons y ys => cases a with
      | nil => simp [bufLessEq, lexCompare]
      | cons x xs =>
        simp only [bufLessEq, lexCompare, ltOf]
        by_cases h : x ≤ y
        · simp [h]
        · have h' : y ≤ x := le_of_not_ge h
          simp [h, h']
  · cases b with
    | nil => cases a <;> simp [bufGreaterEq, lexCompare]
    | cons y ys => cases a with
      | nil => simp [bufGreaterEq, lexCompare]
      | cons x xs =>
        simp only [bufGreaterEq, lexCompare, ltOf]
        by_cases h : y ≤ x
        · simp [h]
        · have h' : x ≤ y := le_of_not_ge h
          simp [h, h']

/-- Where they agree with the lexicographical order: `>` for sequences of one size, `<=` and `>=` if moreover the first
elements differ. -/
theorem C89_adaptor_partial [LinearOrder α] (a b : List α) (hl : a.length = b.length) :
    (bufGreater ltOf a b = vecGt ltOf a b) ∧
    (¬ SameFirst a b → bufLessEq ltOf a b = vecLe ltOf a b ∧ bufGreaterEq ltOf a b = vecGe ltOf a b) := by
  have heq : ∀ x y : α, decide (x = y) = true ↔ x = y := by simp
  obtain ⟨-, -, -, h1, h2, h3⟩ := C89_adaptor_order (fun x y : α => decide (x = y)) heq a b
  obtain ⟨-, g1, g2, g3, -⟩ := C89_storage_order (fun x y : α => decide (x = y)) heq a b
  constructor
  · rw [Bool.eq_iff_iff, h1, g1]
    constructor
    · rintro (h | ⟨h, hne⟩)
      · exact h.1
      · exact absurd (List.IsPrefix.eq_of_length h hl) hne
    · intro h
      refine Or.inl ⟨h, fun hp => ?_⟩
      rw [List.IsPrefix.eq_of_length hp hl.symm] at h
      exact before_irrefl _ h
  · intro hd
    cases a with
    | nil =>
      cases b with
      | nil => exact absurd rfl hd
      | cons y ys => simp at hl
    | cons x xs =>
      cases b with
      | nil => simp at hl
      | cons y ys =>
        have hne : x ≠ y := fun h => hd (by rw [SameFirst, h]; rfl)
        constructor
        · rw [Bool.eq_iff_iff, h2, g2, cons_before]
          simp [hne, le_iff_lt_or_eq]
        · rw [Bool.eq_iff_iff, h3, g3, cons_before]
          simp [hne, hne.symm, le_iff_lt_or_eq]

example : bufGreater (ltOf (α := Int)) [3, 1] [2, 9] = true := by decide
example := C89_adaptor_partial (α := Int) [3, 1] [2, 9] rfl
example : vecLe (ltOf (α := Int)) [1, 2] [1, 5] = true ∧ vecLe (ltOf (α := Int)) [1, 5] [1, 2] = false := by decide
example := C89_storage_order (α := Int) (fun x y => decide (x = y)) (by simp) [1, 2] [1, 5]

/-- For adapted buffers `{1, 5} <= {1, 2}`; an empty buffer is not `<=` itself; and both `{1} < {1, 2}` and
`{1} > {1, 2}` hold. -/
theorem C89_adaptor_wrong :
    bufLessEq (ltOf (α := Int)) [1, 5] [1, 2] = true ∧ vecLe (ltOf (α := Int)) [1, 5] [1, 2] = false ∧
    bufLessEq (ltOf (α := Int)) [] [] = false ∧ bufGreaterEq (ltOf (α := Int)) [1, 2] [1, 5] = true ∧
    bufLess (ltOf (α := Int)) [1] [1, 2] = true ∧ bufGreater (ltOf (α := Int)) [1] [1, 2] = true := by decide

/-! ### Expressions -/

theorem eqLoop_map (eq : α → α → Bool) (f g : List Nat → α) : ∀ (l : List (List Nat)) (res : Bool),
    ∃ b, eqLoop eq res (l.map f) (l.map g) = .ok b ∧ (b = true ↔ res = true ∧ ∀ i ∈ l, eq (f i) (g i) = true)
  | [], res => ⟨res, rfl, by simp⟩
  | i :: l, res => by
    cases res with
    | false => exact ⟨false, rfl, by simp⟩
    | true =>
      obtain ⟨b, h1, h2⟩ := eqLoop_map eq f g l (eq (f i) (g i))
      refine ⟨b, by simpa [eqLoop] using h1, ?_⟩
      rw [h2]; simp

theorem eqLoop_false (eq : α → α → Bool) (a b : List α) : eqLoop eq false a b = .ok false := by
  cases a <;> rfl

/-- Expressions whose operands broadcast together: shape, and elements by index. -/
theorem fits_shape {e : Ex α} (ho : OperandsOK e) (hx : ExtentsBelow e) {s : List Nat} (hs : e.exShape = some s) :
    Fits s e := by
  obtain ⟨tr, hr, -⟩ := exShape_resizeInfo hs
  exact (resizeInfo_spec ho (Ex.extents_ok _ hx) hr).1

/-- C89: `e1 == e2` holds if and only if the shapes are the same and the elements at every index are equal, whatever the
layouts of the operands; `!=` is its negation. -/
theorem C89_expressions (eq : α → α → Bool) {e1 e2 : Ex α} (h1 : OperandsOK e1) (h2 : OperandsOK e2)
    (x1 : ExtentsBelow e1) (x2 : ExtentsBelow e2) {s1 s2 : List Nat} (hs1 : e1.exShape = some s1)
    (hs2 : e2.exShape = some s2) :
    ∃ b, exprEq eq e1 e2 = .ok b ∧ exprNe eq e1 e2 = .ok (!b) ∧
      (b = true ↔ s1 = s2 ∧ ∀ idx, InBounds s1 idx → eq (valueAt e1 idx) (valueAt e2 idx) = true) := by
  have hseq := seqEqual_iff (eq := fun (x y : Nat) => x == y) s1 s2 (by simp)
  have key : ∃ b, exprEq eq e1 e2 = .ok b ∧
      (b = true ↔ s1 = s2 ∧ ∀ idx, InBounds s1 idx → eq (valueAt e1 idx) (valueAt e2 idx) = true) := by
    by_cases h : s1 = s2
    · subst h
      simp only [exprEq, hs1, hs2]
      rw [C22_iteration .row_major (Or.inl rfl) s1 _ (fits_shape h1 x1 hs1),
        C22_iteration .row_major (Or.inl rfl) s1 _ (fits_shape h2 x2 hs2)]
      obtain ⟨b, hb, hiff⟩ := eqLoop_map eq (valueAt e1) (valueAt e2) (orderIndices .row_major s1)
        (seqEqual (fun (x y : Nat) => x == y) s1 s1)
      refine ⟨b, hb, ?_⟩
      rw [hiff, hseq]
      simp only [mem_orderIndices]
    · have hf : seqEqual (fun (x y : Nat) => x == y) s1 s2 = false := by
        rw [← Bool.not_eq_true, hseq]; exact h
      refine ⟨false, ?_, by simp [h]⟩
      simp only [exprEq, hs1, hs2, hf, eqLoop_false]
  obtain ⟨b, hb, hiff⟩ := key
  exact ⟨b, hb, by simp only [exprNe, hb, Res.map, Res.bind], hiff⟩

/-- C89: `==` is an equivalence on expressions if it is on their elements. -/
theorem C89_equivalence (eq : α → α → Bool) (hr : ∀ x, eq x x = true) (hsy : ∀ x y, eq x y = true → eq y x = true)
    (htr : ∀ x y z, eq x y = true → eq y z = true → eq x z = true) {e1 e2 e3 : Ex α}
    (h1 : OperandsOK e1) (h2 : OperandsOK e2) (h3 : OperandsOK e3) (x1 : ExtentsBelow e1) (x2 : ExtentsBelow e2)
    (x3 : ExtentsBelow e3) {s1 s2 s3 : List Nat} (hs1 : e1.exShape = some s1)
    (hs2 : e2.exShape = some s2) (hs3 : e3.exShape = some s3) :
    exprEq eq e1 e1 = .ok true ∧ (exprEq eq e1 e2 = .ok true → exprEq eq e2 e1 = .ok true) ∧
    (exprEq eq e1 e2 = .ok true → exprEq eq e2 e3 = .ok true → exprEq eq e1 e3 = .ok true) := by
  have key : ∀ {e f : Ex α} (_ : OperandsOK e) (_ : OperandsOK f) (_ : ExtentsBelow e) (_ : ExtentsBelow f)
      {s t : List Nat} (_ : e.exShape = some s) (_ : f.exShape = some t),
      exprEq eq e f = .ok true ↔ s = t ∧ ∀ idx, InBounds s idx → eq (valueAt e idx) (valueAt f idx) = true := by
    intro e f a1 a2 a3 a4 s t a5 a6
    obtain ⟨b, hb, -, hiff⟩ := C89_expressions eq a1 a2 a3 a4 a5 a6
    rw [hb, Res.ok.injEq, hiff]
  rw [key h1 h1 x1 x1 hs1 hs1, key h1 h2 x1 x2 hs1 hs2, key h2 h1 x2 x1 hs2 hs1, key h2 h3 x2 x3 hs2 hs3,
    key h1 h3 x1 x3 hs1 hs3]
  refine ⟨⟨rfl, fun idx _ => hr _⟩, ?_, ?_⟩
  · rintro ⟨rfl, h⟩
    exact ⟨rfl, fun idx hi => hsy _ _ (h idx hi)⟩
  · rintro ⟨rfl, h⟩ ⟨rfl, g⟩
    exact ⟨rfl, fun idx hi => htr _ _ _ (h idx hi) (g idx hi)⟩

/-- `any` and `all` look at every element; of no elements `all` is true and `any` is false. -/
theorem C89_any_all (truthy : α → Bool) {e : Ex α} (h : OperandsOK e) (x : ExtentsBelow e) {s : List Nat}
    (hs : e.exShape = some s) :
    (∃ b, anyEx truthy e = .ok b ∧ (b = true ↔ ∃ idx, InBounds s idx ∧ truthy (valueAt e idx) = true)) ∧
    ∃ b, allEx truthy e = .ok b ∧ (b = true ↔ ∀ idx, InBounds s idx → truthy (valueAt e idx) = true) := by
  have hv := C22_iteration .row_major (Or.inl rfl) s _ (fits_shape h x hs)
  constructor
  · refine ⟨_, by simp only [anyEx, hs, hv]; rfl, ?_⟩
    simp only [List.any_map, List.any_eq_true, mem_orderIndices, Function.comp]
  · refine ⟨_, by simp only [allEx, hs, hv]; rfl, ?_⟩
    simp only [List.all_map, List.all_eq_true, mem_orderIndices, Function.comp]

theorem compareEx_leaves [Inhabited α] (yes no : α) (cmp : α → α → Bool) (e1 e2 : Ex α) :
    (compareEx yes no cmp e1 e2).toSh.leaves = e1.toSh.leaves ++ e2.toSh.leaves := by
  simp [compareEx, Ex.toSh, Args.toShs, ShExpr.leaves, ShExpr.leavesL]

/-- C89: for expressions of one shape, `e1 == e2` is `all(equal(e1, e2))`, and `e1 != e2` is `any(not_equal(e1, e2))`. -/
theorem C89_all_equal [Inhabited α] (yes no : α) (truthy : α → Bool) (hy : truthy yes = true) (hn : truthy no = false)
    (eq : α → α → Bool) {e1 e2 : Ex α} (h1 : OperandsOK e1) (h2 : OperandsOK e2)
    (x1 : ExtentsBelow e1) (x2 : ExtentsBelow e2) {s : List Nat} (hs1 : e1.exShape = some s)
    (hs2 : e2.exShape = some s) :
    ∃ b, exprEq eq e1 e2 = .ok b ∧ allEx truthy (compareEx yes no eq e1 e2) = .ok b ∧
      anyEx truthy (compareEx yes no (fun x y => !eq x y) e1 e2) = .ok (!b) := by
  have b1 : IsBroadcast e1.toSh.leaves s := by
    rcases exShape_spec e1 x1 with ⟨t, ht, hb⟩ | ⟨hn, -⟩
    · rw [hs1, Option.some.injEq] at ht; rw [ht]; exact hb
    · rw [hs1] at hn; simp at hn
  have b2 : IsBroadcast e2.toSh.leaves s := by
    rcases exShape_spec e2 x2 with ⟨t, ht, hb⟩ | ⟨hn, -⟩
    · rw [hs2, Option.some.injEq] at ht; rw [ht]; exact hb
    · rw [hs2] at hn; simp at hn
  have hbb : IsBroadcast (e1.toSh.leaves ++ e2.toSh.leaves) s := by
    refine ⟨fun t ht => ?_, fun k d hd t ht => ?_, fun k d hd => ?_⟩
    · rcases List.mem_append.1 ht with ht | ht
      · exact b1.len_le t ht
      · exact b2.len_le t ht
    · rcases List.mem_append.1 ht with ht | ht
      · exact b1.compatible k d hd t ht
      · exact b2.compatible k d hd t ht
    · obtain ⟨t, ht, he⟩ := b1.attained k d hd
      exact ⟨t, List.mem_append.2 (Or.inl ht), he⟩
  have hshape : ∀ cmp, (compareEx yes no cmp e1 e2).exShape = some s := by
    intro cmp
    have hx : ExtentsBelow (compareEx yes no cmp e1 e2) := ⟨x1, x2, trivial⟩
    rcases exShape_spec (compareEx yes no cmp e1 e2) hx with ⟨t, ht, hb⟩ | ⟨-, -, hc⟩
    · rw [compareEx_leaves] at hb
      rw [ht, IsBroadcast.unique hb hbb]
    · rw [compareEx_leaves] at hc
      exact absurd hc hbb.no_conflict
  obtain ⟨b, hb, -, hiff⟩ := C89_expressions eq h1 h2 x1 x2 hs1 hs2
  obtain ⟨-, c, hc, hciff⟩ := C89_any_all truthy (e := compareEx yes no eq e1 e2) ⟨h1, h2, trivial⟩ ⟨x1, x2, trivial⟩
    (hshape _)
  obtain ⟨⟨d, hd, hdiff⟩, -⟩ := C89_any_all truthy (e := compareEx yes no (fun x y => !eq x y) e1 e2)
    ⟨h1, h2, trivial⟩ ⟨x1, x2, trivial⟩ (hshape _)
  have v1 : ∀ (cmp : α → α → Bool) idx, truthy (valueAt (compareEx yes no cmp e1 e2) idx) =
      cmp (valueAt e1 idx) (valueAt e2 idx) := by
    intro cmp idx
    show truthy (if cmp (valueAt e1 idx) (valueAt e2 idx) = true then yes else no) = _
    cases h : cmp (valueAt e1 idx) (valueAt e2 idx) <;> simp [hy, hn]
  refine ⟨b, hb, ?_, ?_⟩
  · rw [hc, Res.ok.injEq, Bool.eq_iff_iff, hciff, hiff]
    simp only [v1, true_and]
  · rw [hd, Res.ok.injEq, Bool.eq_iff_iff, hdiff, Bool.not_eq_true', ← Bool.not_eq_true, hiff]
    simp only [v1, true_and, Bool.not_eq_true', ← Bool.not_eq_true]
    push Not
    rfl

/-- The same elements in row-major and in column-major order. -/
example : exprEq (fun x y : Int => x == y) (.arr (.container .row_major [2, 2] 0) fun p => p)
    (.arr (.container .column_major [2, 2] 0) fun p => if p = 1 then 2 else if p = 2 then 1 else p) = .ok true := by
  decide

example := C89_all_equal (α := Int) 1 0 (fun x => x != 0) (by decide) (by decide) (fun x y => x == y)
  (e1 := .arr (.container .row_major [2, 2] 0) fun p => p)
  (e2 := .arr (.container .column_major [2, 2] 0) fun p => p) (container_wf _ _) (container_wf _ _)
  (show szMax ∉ [2, 2] by decide) (show szMax ∉ [2, 2] by decide) (s := [2, 2]) rfl rfl

example := C89_equivalence (α := Int) (fun x y => x == y) (by simp) (by simp) (by simp)
  (e1 := .gen [2] fun i => i.sum) (e2 := .gen [2] fun i => i.sum) (e3 := .gen [3] fun i => i.sum)
  (by simp [OperandsOK]) (by simp [OperandsOK]) (by simp [OperandsOK]) (show szMax ∉ [2] by decide)
  (show szMax ∉ [2] by decide) (show szMax ∉ [3] by decide) rfl rfl rfl

/-- `equal` broadcasts, `==` does not: `all(equal({1}, {1, 1}))` holds and `{1} == {1, 1}` does not. -/
theorem C89_broadcast_wrong :
    let a : Ex Int := .gen [1] fun _ => 1
    let b : Ex Int := .gen [2] fun _ => 1
    allEx (fun x => x != 0) (compareEx 1 0 (fun x y => x == y) a b) = .ok true ∧
    exprEq (fun x y => x == y) a b = .ok false := by decide

/-! ### Slices -/

/-- C89: slices of the same kind, other than drop slices, are equal if and only if they have the same fields; then they
select the same elements.  `!=` is the negation, except for new axes. -/
theorem C89_slices_partial (a b : SlObj) (r : Bool) (h : a.eq b = some r) (hd : ∀ n inc, a.sl ≠ .drop n inc) :
    (r = true ↔ a.sl = b.sl) ∧ (r = true → a.sl.positions = b.sl.positions) ∧
    (a.sl ≠ .newaxis → a.ne b = some (!r)) := by
  have h1 : r = true ↔ a.sl = b.sl := by
    obtain ⟨s, i⟩ := a
    obtain ⟨t, j⟩ := b
    simp only [SlObj.eq] at h
    cases s <;> cases t <;> simp only [reduceCtorEq, Option.some.injEq] at h <;> subst h <;>
      simp [and_assoc] at hd ⊢
  refine ⟨h1, fun hr => by rw [h1.1 hr], fun hn => ?_⟩
  unfold SlObj.ne
  rw [h]
  cases hs : a.sl <;> simp_all

/-- Drop slices bound to axes of the same extent are equal if and only if they drop the same indices; then they select
the same elements. -/
theorem C89_drop_partial (n : Nat) (l m : List Int) {a b : SlObj} (ha : bindSlice n (.drop l) = .ok a)
    (hb : bindSlice n (.drop m) = .ok b) :
    (a.eq b = some true ↔ l.map (normIndex n) = m.map (normIndex n)) ∧
    (a.eq b = some true → a.sl.positions = b.sl.positions) ∧ a.ne b = (a.eq b).map fun (r : Bool) => !r := by
  simp only [bindSlice, getSlice, Res.map, Res.bind, Res.ok.injEq, dropNormalize] at ha hb
  subst ha; subst hb
  simp only [SlObj.eq, SlObj.ne, Option.some.injEq, beq_iff_eq, true_and]
  refine ⟨fun h => ?_, ?_⟩
  rotate_left
  · trivial
  have hl : l.length = m.length := by
    have := congrArg List.length h
    simpa using this
  rw [h, hl]

/-- Drop slices of axes of different extents compare equal but select different elements; two new axes are both equal
and not equal. -/
theorem C89_slices_wrong :
    (∃ a b, bindSlice 3 (.drop [0]) = .ok a ∧ bindSlice 5 (.drop [0]) = .ok b ∧ a.eq b = some true ∧
      a.sl.positions = [1, 2] ∧ b.sl.positions = [1, 2, 3, 4]) ∧
    ∀ i j, (⟨.newaxis, i⟩ : SlObj).eq ⟨.newaxis, j⟩ = some true ∧ (⟨.newaxis, i⟩ : SlObj).ne ⟨.newaxis, j⟩ = some true :=
  ⟨⟨_, _, rfl, rfl, by decide, by decide, by decide⟩, fun _ _ => ⟨rfl, rfl⟩⟩

example : (⟨.stepped 0 3 2, []⟩ : SlObj).eq ⟨.stepped 0 3 2, []⟩ = some true := by decide
example := C89_slices_partial ⟨.stepped 0 3 2, []⟩ ⟨.stepped 0 3 (-2), []⟩ false (by decide) (by simp)
example := C89_drop_partial 4 [-1, 0] [3, 0] rfl rfl

end Xt
