import Verif.Model.Layout
/-!
# C12 Layout combination table
-/

namespace Xt
namespace Layout

/-- The documented table (core/xlayout.hpp:38-43) written out. -/
def Spec.table : Layout → Layout → Layout
  | .dynamic, _ => .dynamic
  | _, .dynamic => .dynamic
  | .any, r => r
  | l, .any => l
  | .row_major, .row_major => .row_major
  | .column_major, .column_major => .column_major
  | .row_major, .column_major => .dynamic
  | .column_major, .row_major => .dynamic

/-- The bitwise combination always lands on an enumerator. -/
theorem combine2?_isSome (l r : Layout) : (combine2? l r).isSome = true := by
  cases l <;> cases r <;> decide

/-- Bitwise and implements the documented table. -/
theorem C12_table (l r : Layout) : combine2? l r = some (Spec.table l r) := by
  cases l <;> cases r <;> decide

/-- Associative, commutative, idempotent, `any` is the identity, `dynamic` absorbs. -/
theorem C12_algebra (a b c : Layout) :
    combine2 (combine2 a b) c = combine2 a (combine2 b c) ∧ combine2 a b = combine2 b a ∧
    combine2 a a = a ∧ combine2 .any a = a ∧ combine2 .dynamic a = .dynamic := by
  cases a <;> cases b <;> cases c <;> decide

theorem computeLayout_cons (l : Layout) (ls : List Layout) :
    computeLayout (l :: ls) = combine2 l (computeLayout ls) := by
  cases ls with
  | nil => cases l <;> decide
  | cons x xs => rfl

/-- Characterisation for any number of operands. -/
theorem C12_result (ls : List Layout) :
    (computeLayout ls = .any ↔ ∀ l ∈ ls, l = .any) ∧
    (computeLayout ls = .row_major ↔
      (∀ l ∈ ls, l = .row_major ∨ l = .any) ∧ ∃ l ∈ ls, l = .row_major) ∧
    (computeLayout ls = .column_major ↔
      (∀ l ∈ ls, l = .column_major ∨ l = .any) ∧ ∃ l ∈ ls, l = .column_major) := by
  induction ls with
  | nil => simp [computeLayout]
  | cons x xs ih =>
    obtain ⟨h1, h2, h3⟩ := ih
    rw [computeLayout_cons]
    simp only [List.mem_cons, forall_eq_or_imp, exists_eq_or_imp, ← h1]
    have hx : (∀ l ∈ xs, l = .row_major ∨ l = .any) ↔
        computeLayout xs = .row_major ∨ computeLayout xs = .any := by
      rw [h1, h2]
      constructor
      · intro h
        by_cases he : ∃ l ∈ xs, l = .row_major
        · exact Or.inl ⟨h, he⟩
        · right
          intro l hl
          rcases h l hl with h | h
          · exact absurd ⟨l, hl, h⟩ he
          · exact h
      · rintro (h | h)
        · exact h.1
        · exact fun l hl => Or.inr (h l hl)
    have hy : (∀ l ∈ xs, l = .column_major ∨ l = .any) ↔
        computeLayout xs = .column_major ∨ computeLayout xs = .any := by
      rw [h1, h3]
      constructor
      · intro h
        by_cases he : ∃ l ∈ xs, l = .column_major
        · exact Or.inl ⟨h, he⟩
        · right
          intro l hl
          rcases h l hl with h | h
          · exact absurd ⟨l, hl, h⟩ he
          · exact h
      · rintro (h | h)
        · exact h.1
        · exact fun l hl => Or.inr (h l hl)
    have er : (∃ l ∈ xs, l = .row_major) → computeLayout xs ≠ .any := by
      rw [Ne, h1]; rintro ⟨l, hl, e⟩ h; rw [h l hl] at e; cases e
    have ec : (∃ l ∈ xs, l = .column_major) → computeLayout xs ≠ .any := by
      rw [Ne, h1]; rintro ⟨l, hl, e⟩ h; rw [h l hl] at e; cases e
    rw [hx, hy]
    clear hx hy
    generalize computeLayout xs = y at *
    cases y <;> cases x <;> simp_all [combine2, combine2?, ofBits, toBits]

/-- Operand order is irrelevant. -/
theorem C12_perm (a b : List Layout) (h : a.Perm b) : computeLayout a = computeLayout b := by
  induction h with
  | nil => rfl
  | cons x _ ih => rw [computeLayout_cons, computeLayout_cons, ih]
  | swap x y l =>
    rw [computeLayout_cons, computeLayout_cons, computeLayout_cons, computeLayout_cons,
      ← (C12_algebra x y (computeLayout l)).1, ← (C12_algebra y x (computeLayout l)).1,
      (C12_algebra x y .any).2.1]
  | trans _ _ h1 h2 => rw [h1, h2]

/-- Layout used for a freshly assigned container: always row- or column-major when the configured
default is. -/
theorem C12_assignable (d l : Layout) (hd : d = .row_major ∨ d = .column_major) :
    (defaultAssignable d l = .row_major ∨ defaultAssignable d l = .column_major) ∧
    ((l = .row_major ∨ l = .column_major) → defaultAssignable d l = l) ∧
    removeAny d l ≠ .any := by
  rcases hd with rfl | rfl <;> cases l <;> decide

example : computeLayout [.any, .row_major, .any, .row_major] = .row_major ∧
    computeLayout [.row_major, .any, .column_major] = .dynamic := by decide

end Layout
end Xt
