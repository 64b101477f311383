import Verif.Model.StorageFail
import Verif.Props.Storage
/-!
# Failing operations on the heap
-/

namespace Xt
open Spec

variable {α : Type}

/-! ### Loops that fail -/

@[simp] theorem passOn_ok {β : Type} (h : List (Block α)) : passOn (β := β) (.ok h) = .threw h := rfl
@[simp] theorem next_done {β γ : Type} (k : List (Block α) → Option Nat → β → Att α γ) (h : List (Block α)) (f : Option Nat)
    (x : β) : Att.next k (.done h f x) = k h f x := rfl
@[simp] theorem next_threw {β γ : Type} (k : List (Block α) → Option Nat → β → Att α γ) (h : List (Block α)) :
    Att.next k (.threw h) = .threw h := rfl
@[simp] theorem nextVec_done {β : Type} (v : UVec) (k : List (Block α) → Option Nat → β → VecAtt α) (h : List (Block α))
    (f : Option Nat) (x : β) : Att.nextVec v k (.done h f x) = k h f x := rfl
@[simp] theorem nextVec_threw {β : Type} (v : UVec) (k : List (Block α) → Option Nat → β → VecAtt α) (h : List (Block α)) :
    Att.nextVec v k (.threw h) = .threw h v := rfl

/-- A loop over the cells of a block: either step `j` throws, or all are made. -/
theorem eachF_cells {p a : Nat} {step : List (Block α) → Nat → Option α → Res (List (Block α))}
    {undo : List (Block α) → Nat → Res (List (Block α))} (c : List (Option α)) (h : List (Block α)) (hp : p < h.length)
    (hstep : ∀ i < c.length, ∀ c' x, c'.length = c.length → c'[i]? = c[i]? →
      step (h.set p ⟨a, c', true⟩) i x = .ok (h.set p ⟨a, c'.set i x, true⟩)) :
    ∀ (xs pre : List (Option α)) (f : Option Nat), pre.length + xs.length = c.length →
      (∃ j, f = some j ∧ j < xs.length ∧ eachF step undo xs pre.length (h.set p ⟨a, pre ++ c.drop pre.length, true⟩) f =
        passOn (undo (h.set p ⟨a, pre ++ xs.take j ++ c.drop (pre.length + j), true⟩) (pre.length + j))) ∨
      ∃ f', eachF step undo xs pre.length (h.set p ⟨a, pre ++ c.drop pre.length, true⟩) f =
        .done (h.set p ⟨a, pre ++ xs, true⟩) f' () ∧ (f = none → f' = none)
  | [], pre, f, hl => by
    right
    refine ⟨f, ?_, fun h => h⟩
    have : c.drop pre.length = [] := by simp at hl; simp [hl]
    simp [eachF, this]
  | x :: xs, pre, f, hl => by
    match f with
    | some 0 =>
      left
      refine ⟨0, rfl, by simp, ?_⟩
      simp only [eachF, attempt, List.take_zero, List.append_nil, Nat.add_zero]
    | none =>
      have hi : pre.length < c.length := by simp at hl; omega
      have h1 := hstep pre.length hi (pre ++ c.drop pre.length) x (by simp; omega)
        (by rw [List.getElem?_append_right (le_refl _)]; simp)
      have h2 : (pre ++ c.drop pre.length).set pre.length x = (pre ++ [x]) ++ c.drop (pre ++ [x]).length := by
        rw [List.set_append_right _ _ (le_refl _), List.drop_eq_getElem_cons hi]
        simp only [Nat.sub_self, List.set_cons_zero, List.append_assoc, List.length_append, List.length_cons,
          List.length_nil, Nat.zero_add, List.singleton_append]
      have ih := eachF_cells (undo := undo) c h hp hstep xs (pre ++ [x]) none (by simp at hl ⊢; omega)
      simp only [eachF, attempt, h1, h2]
      rcases ih with ⟨j, hj, -⟩ | ⟨f', ih, h3⟩
      · cases hj
      · right
        refine ⟨f', ?_, fun _ => h3 rfl⟩
        simpa using ih
    | some (k + 1) =>
      have hi : pre.length < c.length := by simp at hl; omega
      have h1 := hstep pre.length hi (pre ++ c.drop pre.length) x (by simp; omega)
        (by rw [List.getElem?_append_right (le_refl _)]; simp)
      have h2 : (pre ++ c.drop pre.length).set pre.length x = (pre ++ [x]) ++ c.drop (pre ++ [x]).length := by
        rw [List.set_append_right _ _ (le_refl _), List.drop_eq_getElem_cons hi]
        simp only [Nat.sub_self, List.set_cons_zero, List.append_assoc, List.length_append, List.length_cons,
          List.length_nil, Nat.zero_add, List.singleton_append]
      have ih := eachF_cells (undo := undo) c h hp hstep xs (pre ++ [x]) (some k) (by simp at hl ⊢; omega)
      simp only [eachF, attempt, h1, h2]
      rcases ih with ⟨j, hj, hjl, ih⟩ | ⟨f', ih, h3⟩
      · left
        obtain rfl : k = j := by simpa using hj
        refine ⟨k + 1, rfl, by simpa using hjl, ?_⟩
        simp only [List.length_append, List.length_cons, List.length_nil, Nat.zero_add] at ih ⊢
        rw [ih]
        simp [Nat.add_assoc, Nat.add_comm 1 k]
      · right
        refine ⟨f', ?_, by simp⟩
        simpa using ih

theorem set_same_block {h : List (Block α)} {p : Nat} {b : Block α} (hp : h[p]? = some b) : h.set p b = h := set_getElem? hp

/-- `std::uninitialized_copy` to a block without objects, or of a trivial type. -/
theorem uninitializedCopyF_cases (e : StoreEnv α) {h : List (Block α)} {p a : Nat} {c : List (Option α)}
    (hp : h[p]? = some ⟨a, c, true⟩) (xs : List (Option α)) (hl : xs.length = c.length)
    (hc : e.trivial = true ∨ ∀ x ∈ c, x = none) (hx : e.trivial = false → ∀ x ∈ xs, x ≠ none) (f : Option Nat) :
    (∃ j, f = some j ∧ j < xs.length ∧ uninitializedCopyF e h f p xs =
      .threw (h.set p ⟨a, if e.trivial then xs.take j ++ c.drop j else c, true⟩)) ∨
    ∃ f', uninitializedCopyF e h f p xs = .done (h.set p ⟨a, xs, true⟩) f' () ∧ (f = none → f' = none) := by
  have hlt := lt_of_getElem? hp
  have key := eachF_cells (a := a) (step := fun h i x => constructAt e h p i x)
    (undo := fun h i => if e.trivial then .ok h else cellLoop i (fun i h => destroyAt h p i) h) c h hlt
    (fun i hi c' x hc' hci => by
      have hb : (h.set p ⟨a, c', true⟩)[p]? = some ⟨a, c', true⟩ := by simp [hlt]
      simp only [constructAt, blockCells_eq hb, Res.bind_ok, hci, List.getElem?_eq_getElem hi]
      rw [setCells_eq _ hb, List.set_set]
      rcases hc with hc | hc
      · cases c[i] <;> simp [hc]
      · rw [hc c[i] (List.getElem_mem hi)]) xs [] f (by simpa using hl)
  simp only [List.length_nil, List.drop_zero, List.nil_append, Nat.zero_add] at key
  rw [set_same_block hp] at key
  rcases key with ⟨j, h1, h2, h3⟩ | ⟨f', h1, h2⟩
  · left
    refine ⟨j, h1, h2, ?_⟩
    unfold uninitializedCopyF
    rw [h3]
    cases ht : e.trivial with
    | true => simp
    | false =>
      have hcn : ∀ x ∈ c, x = none := by
        rcases hc with hc | hc
        · rw [ht] at hc; cases hc
        · exact hc
      have hb : (h.set p ⟨a, xs.take j ++ c.drop j, true⟩)[p]? = some ⟨a, xs.take j ++ c.drop j, true⟩ := by simp [hlt]
      have := cellLoop_cells hb (fun i h => destroyAt h p i) (fun _ => none) j (by simp; omega) (fun i hi h' c' g1 g2 => by
        have hix : i < xs.length := by omega
        rw [List.getElem?_append_left (by simp; omega), List.getElem?_take_of_lt hi, List.getElem?_eq_getElem hix] at g2
        have hne := hx ht xs[i] (List.getElem_mem hix)
        simp only [destroyAt, blockCells_eq g1, Res.bind_ok, g2]
        rw [setCells_eq _ g1]
        cases h4 : xs[i] with
        | none => exact absurd h4 hne
        | some x => rfl)
      simp only [Bool.false_eq_true, if_false, this, List.set_set, passOn_ok]
      congr 3
      rw [List.drop_append_of_le_length (by simp; omega), List.drop_take]
      apply List.ext_getElem?
      intro i
      by_cases hi : i < c.length
      · have hci := hcn c[i] (List.getElem_mem hi)
        rw [List.getElem?_eq_getElem hi, hci]
        by_cases hij : i < j
        · rw [List.getElem?_append_left (by simpa using hij)]
          simp [hij]
        · rw [List.getElem?_append_right (by simpa using hij)]
          have hjj : i - j + j = i := by omega
          simp [List.getElem?_drop, show j + (i - j) = i by omega, List.getElem?_eq_getElem hi, hci]
      · rw [List.getElem?_eq_none (i := i) (l := c) (by omega), List.getElem?_eq_none]
        simp
        omega
  · exact .inr ⟨f', h1, h2⟩

/-- `std::copy` to a block of objects. -/
theorem stdCopyF_cases (e : StoreEnv α) {h : List (Block α)} {p a : Nat} {c : List (Option α)}
    (hp : h[p]? = some ⟨a, c, true⟩) (xs : List (Option α)) (hl : xs.length = c.length)
    (hc : e.trivial = true ∨ ∀ x ∈ c, x ≠ none) (f : Option Nat) :
    (∃ j, f = some j ∧ j < xs.length ∧ stdCopyF e h f p xs = .threw (h.set p ⟨a, xs.take j ++ c.drop j, true⟩)) ∨
    ∃ f', stdCopyF e h f p xs = .done (h.set p ⟨a, xs, true⟩) f' () ∧ (f = none → f' = none) := by
  have hlt := lt_of_getElem? hp
  have key := eachF_cells (a := a) (step := fun h i x => assignAt e h p i x) (undo := fun h _ => .ok h) c h hlt
    (fun i hi c' x hc' hci => by
      have hb : (h.set p ⟨a, c', true⟩)[p]? = some ⟨a, c', true⟩ := by simp [hlt]
      simp only [assignAt, blockCells_eq hb, Res.bind_ok, hci, List.getElem?_eq_getElem hi]
      rw [setCells_eq _ hb, List.set_set]
      rcases hc with hc | hc
      · cases c[i] <;> simp [hc]
      · have := hc c[i] (List.getElem_mem hi)
        cases h3 : c[i] with
        | none => exact absurd h3 this
        | some x => rfl) xs [] f (by simpa using hl)
  simp only [List.length_nil, List.drop_zero, List.nil_append, Nat.zero_add] at key
  rw [set_same_block hp] at key
  exact key

/-- `safe_init_allocate`: the allocation throws and nothing happened, or a constructor throws and the block stays. -/
theorem safeInitAllocateF_cases (e : StoreEnv α) (h : List (Block α)) (f : Option Nat) (a n : Nat) :
    (f = some 0 ∧ safeInitAllocateF e h f a n = .threw h) ∨
    (∃ j, f = some (j + 1) ∧ j < n ∧ e.trivial = false ∧ safeInitAllocateF e h f a n =
      .threw (h ++ [⟨a, List.replicate j (some e.init) ++ List.replicate (n - j) none, true⟩])) ∨
    ∃ f', safeInitAllocateF e h f a n = .done (h ++ [⟨a, newElements e.trivial e.init n, true⟩]) f' h.length ∧
      (f = none → f' = none) := by
  have main : ∀ f1, attempt f = some f1 → (f = none → f1 = none) → (∀ j, f1 = some j → f = some (j + 1)) →
      (∃ j, f = some (j + 1) ∧ j < n ∧ e.trivial = false ∧ safeInitAllocateF e h f a n =
        .threw (h ++ [⟨a, List.replicate j (some e.init) ++ List.replicate (n - j) none, true⟩])) ∨
      ∃ f', safeInitAllocateF e h f a n = .done (h ++ [⟨a, newElements e.trivial e.init n, true⟩]) f' h.length ∧
        (f = none → f' = none) := by
    intro f1 h1 h2 h3
    unfold safeInitAllocateF
    rw [h1]
    cases ht : e.trivial with
    | true =>
      right
      exact ⟨f1, by simp [allocate, newElements], h2⟩
    | false =>
      have hp := allocate_get h a n
      simp only [allocate] at hp ⊢
      have hlt := lt_of_getElem? hp
      have key := eachF_cells (a := a) (step := fun h' i x => constructAt e h' h.length i x) (undo := fun h _ => .ok h)
        (List.replicate n none) (h ++ [⟨a, List.replicate n none, true⟩]) hlt
        (fun i hi c' x hc' hci => by
          have hb : ((h ++ [(⟨a, List.replicate n none, true⟩ : Block α)]).set h.length ⟨a, c', true⟩)[h.length]? =
              some ⟨a, c', true⟩ := by
            simp
          simp only [constructAt, blockCells_eq hb, Res.bind_ok, hci, List.getElem?_eq_getElem hi]
          rw [setCells_eq _ hb, List.set_set]
          simp) (List.replicate n (some e.init)) [] f1 (by simp)
      simp only [List.length_nil, List.drop_zero, List.nil_append, Nat.zero_add, List.length_replicate] at key
      rw [set_same_block hp] at key
      rw [if_pos (by simp)]
      rcases key with ⟨j, g1, g2, g3⟩ | ⟨f', g1, g2⟩
      · left
        refine ⟨j, h3 j g1, g2, trivial, ?_⟩
        rw [g3, append_set_length, passOn_ok, next_threw]
        simp [Nat.min_eq_left (Nat.le_of_lt g2)]
      · right
        refine ⟨f', ?_, fun h => g2 (h2 h)⟩
        rw [g1, append_set_length, next_done]
        simp [newElements]
  match f, main with
  | some 0, _ => exact .inl ⟨rfl, rfl⟩
  | none, main => exact .inr (main none rfl (fun _ => rfl) (by simp))
  | some (k + 1), main => exact .inr (main (some k) rfl (by simp) (by simp))

/-- Construction from elements: the allocation throws and nothing happened, or a constructor throws and the block stays. -/
theorem initDataF_cases (e : StoreEnv α) (h : List (Block α)) (f : Option Nat) (a : Nat) (xs : List (Option α))
    (hx : e.trivial = false → ∀ x ∈ xs, x ≠ none) :
    (f = some 0 ∧ initDataF e h f a xs = .threw h) ∨
    (∃ j c, f = some (j + 1) ∧ j < xs.length ∧ initDataF e h f a xs = .threw (h ++ [⟨a, c, true⟩]) ∧ c.length = xs.length ∧
      (e.trivial = false → c = List.replicate xs.length none)) ∨
    ∃ f' r, initData e h a xs = .ok r ∧ initDataF e h f a xs = .done r.1 f' r.2 ∧ (f = none → f' = none) := by
  by_cases h0 : xs.length ≠ 0
  swap
  · refine .inr (.inr ⟨f, _, by rw [initData, if_neg h0], by rw [initDataF, if_neg h0], fun h => h⟩)
  have hi : initData e h a xs = .ok (h ++ [⟨a, xs, true⟩], ⟨a, some h.length, xs.length⟩) := by
    rw [initData, if_pos h0]
    simp only [allocate]
    rw [uninitializedCopy_eq e (a := a) (c := List.replicate xs.length none) (by simp) xs (by simp) (.inr (by simp)),
      append_set_length]
    rfl
  rw [hi, initDataF, if_pos h0]
  have main : ∀ f1, (∃ j, f1 = some j ∧ j < xs.length ∧ uninitializedCopyF e (h ++ [⟨a, List.replicate xs.length none, true⟩]) f1
        h.length xs = .threw (h ++ [⟨a, if e.trivial then xs.take j ++ (List.replicate xs.length none).drop j else
          List.replicate xs.length none, true⟩])) ∨
      ∃ f', uninitializedCopyF e (h ++ [⟨a, List.replicate xs.length none, true⟩]) f1 h.length xs =
        .done (h ++ [⟨a, xs, true⟩]) f' () ∧ (f1 = none → f' = none) := by
    intro f1
    have := uninitializedCopyF_cases e (h := h ++ [⟨a, List.replicate xs.length none, true⟩]) (p := h.length) (a := a)
      (c := List.replicate xs.length none) (by simp) xs (by simp) (.inr (by simp)) hx f1
    simpa only [append_set_length] using this
  match f with
  | some 0 => exact .inl ⟨rfl, rfl⟩
  | none =>
    rcases main none with ⟨j, g1, -⟩ | ⟨f', g1, g2⟩
    · cases g1
    · refine .inr (.inr ⟨f', _, rfl, ?_, fun _ => g2 rfl⟩)
      simp only [attempt, allocate, g1, next_done]
  | some (k + 1) =>
    rcases main (some k) with ⟨j, g1, g2, g3⟩ | ⟨f', g1, -⟩
    · obtain rfl : k = j := by simpa using g1
      refine .inr (.inl ⟨k, if e.trivial then xs.take k ++ (List.replicate xs.length none).drop k else
        List.replicate xs.length none, rfl, g2, by simp only [attempt, allocate, g3, next_threw], ?_, ?_⟩)
      · split
        · simp; omega
        · simp
      · intro ht; simp [ht]
    · refine .inr (.inr ⟨f', _, rfl, ?_, by simp⟩)
      simp only [attempt, allocate, g1, next_done]

/-! ### Heaps with lost blocks -/

/-- `h'` is `h`, except that the blocks `lost` are not in use in `h`. -/
structure Sparing (lost : List Nat) (h h' : List (Block α)) : Prop where
  len : h.length = h'.length
  same : ∀ p, p ∉ lost → h[p]? = h'[p]?
  dead : ∀ p ∈ lost, ∃ b, h[p]? = some b ∧ b.live = false

theorem Sparing.cells {lost : List Nat} {h h' : List (Block α)} (R : Sparing lost h h') {p : Nat} {c : List (Option α)}
    (hc : blockCells h p = .ok c) : p ∉ lost ∧ blockCells h' p = .ok c := by
  have hp : p ∉ lost := by
    intro hm
    obtain ⟨b, h1, h2⟩ := R.dead p hm
    simp [blockCells, h1, h2] at hc
  refine ⟨hp, ?_⟩
  unfold blockCells at hc ⊢
  rw [← R.same p hp]
  exact hc

theorem Sparing.set {lost : List Nat} {h h' : List (Block α)} (R : Sparing lost h h') {p : Nat} (hp : p ∉ lost) (b : Block α) :
    Sparing lost (h.set p b) (h'.set p b) := by
  refine ⟨by simpa using R.len, fun q hq => ?_, fun q hq => ?_⟩
  · by_cases hqp : p = q
    · subst hqp
      simp only [List.getElem?_set_self', R.same p hp]
    · rw [List.getElem?_set_ne hqp, List.getElem?_set_ne hqp, R.same q hq]
  · have hqp : p ≠ q := by rintro rfl; exact hp hq
    rw [List.getElem?_set_ne hqp]
    exact R.dead q hq

theorem Sparing.setCells {lost : List Nat} {h h' : List (Block α)} (R : Sparing lost h h') {p : Nat} (hp : p ∉ lost)
    (c : List (Option α)) : Sparing lost (setCells h p c) (setCells h' p c) := by
  unfold Xt.setCells
  rw [← R.same p hp]
  cases h[p]? with
  | none => exact R
  | some b => exact R.set hp _

theorem Sparing.append {lost : List Nat} {h h' : List (Block α)} (R : Sparing lost h h') (b : Block α) :
    Sparing lost (h ++ [b]) (h' ++ [b]) := by
  refine ⟨by simpa using R.len, fun q hq => ?_, fun q hq => ?_⟩
  · by_cases hl : q < h.length
    · rw [List.getElem?_append_left hl, List.getElem?_append_left (by rw [← R.len]; exact hl), R.same q hq]
    · rw [List.getElem?_append_right (by omega), List.getElem?_append_right (by rw [← R.len]; omega), R.len]
  · obtain ⟨x, h1, h2⟩ := R.dead q hq
    exact ⟨x, by rw [List.getElem?_append_left (lt_of_getElem? h1)]; exact h1, h2⟩

/-- Where `r` is defined, `r'` does the same, with the lost blocks left alone. -/
def ResSim (lost : List Nat) : Res (List (Block α)) → Res (List (Block α)) → Prop
  | .ok h, .ok h' => Sparing lost h h'
  | .ok _, _ => False
  | _, _ => True

theorem ResSim.bind {lost : List Nat} {r r' : Res (List (Block α))} (hr : ResSim lost r r')
    {g g' : List (Block α) → Res (List (Block α))} (hg : ∀ h h', Sparing lost h h' → ResSim lost (g h) (g' h')) :
    ResSim lost (r.bind g) (r'.bind g') := by
  cases r with
  | ok h => cases r' with
    | ok h' => exact hg h h' hr
    | throws => exact hr.elim
    | ub => exact hr.elim
  | throws => trivial
  | ub => trivial

theorem constructAt_sim (e : StoreEnv α) {lost : List Nat} {h h' : List (Block α)} (R : Sparing lost h h') (p i : Nat)
    (x : Option α) : ResSim lost (constructAt e h p i x) (constructAt e h' p i x) := by
  unfold constructAt
  cases hc : blockCells h p with
  | ok c =>
    obtain ⟨h1, h2⟩ := R.cells hc
    rw [h2]
    simp only [Res.bind_ok]
    cases hci : c[i]? with
    | none => trivial
    | some y => cases y with
      | none => exact R.setCells h1 _
      | some y =>
        cases e.trivial with
        | true => exact R.setCells h1 _
        | false => trivial
  | throws => trivial
  | ub => trivial

theorem assignAt_sim (e : StoreEnv α) {lost : List Nat} {h h' : List (Block α)} (R : Sparing lost h h') (p i : Nat)
    (x : Option α) : ResSim lost (assignAt e h p i x) (assignAt e h' p i x) := by
  unfold assignAt
  cases hc : blockCells h p with
  | ok c =>
    obtain ⟨h1, h2⟩ := R.cells hc
    rw [h2]
    simp only [Res.bind_ok]
    cases hci : c[i]? with
    | none => trivial
    | some y => cases y with
      | some y => exact R.setCells h1 _
      | none =>
        cases e.trivial with
        | true => exact R.setCells h1 _
        | false => trivial
  | throws => trivial
  | ub => trivial

theorem destroyAt_sim {lost : List Nat} {h h' : List (Block α)} (R : Sparing lost h h') (p i : Nat) :
    ResSim lost (destroyAt h p i) (destroyAt h' p i) := by
  unfold destroyAt
  cases hc : blockCells h p with
  | ok c =>
    obtain ⟨h1, h2⟩ := R.cells hc
    rw [h2]
    simp only [Res.bind_ok]
    cases hci : c[i]? with
    | none => trivial
    | some y => cases y with
      | some y => exact R.setCells h1 _
      | none => trivial
  | throws => trivial
  | ub => trivial

theorem cellLoop_sim {lost : List Nat} {f : Nat → List (Block α) → Res (List (Block α))}
    (hf : ∀ i h h', Sparing lost h h' → ResSim lost (f i h) (f i h')) :
    ∀ (n : Nat) {h h' : List (Block α)}, Sparing lost h h' → ResSim lost (cellLoop n f h) (cellLoop n f h')
  | 0, _, _, R => R
  | n + 1, _, _, R => by
    rw [cellLoop_succ, cellLoop_succ]
    exact (cellLoop_sim hf n R).bind fun h h' R => hf n h h' R

theorem deallocate_sim (e : StoreEnv α) {lost : List Nat} {h h' : List (Block α)} (R : Sparing lost h h') (a p n : Nat) :
    ResSim lost (deallocate e h a p n) (deallocate e h' a p n) := by
  unfold deallocate
  by_cases hp : p ∈ lost
  · obtain ⟨b, h1, h2⟩ := R.dead p hp
    simp only [h1, h2, Bool.false_eq_true, false_and, if_false]
    trivial
  · rw [← R.same p hp]
    cases h[p]? with
    | none => trivial
    | some b =>
      simp only []
      split
      · exact R.set hp _
      · trivial

theorem safeDestroyDeallocate_sim (e : StoreEnv α) {lost : List Nat} {h h' : List (Block α)} (R : Sparing lost h h') (a : Nat)
    (ptr : Option Nat) (n : Nat) :
    ResSim lost (safeDestroyDeallocate e h a ptr n) (safeDestroyDeallocate e h' a ptr n) := by
  unfold safeDestroyDeallocate
  cases ptr with
  | none => exact R
  | some p =>
    refine ResSim.bind ?_ fun h h' R => deallocate_sim e R a p n
    split
    · exact cellLoop_sim (fun i h h' R => destroyAt_sim R p i) n R
    · exact R

theorem elementsFrom_sim {lost : List Nat} {h h' : List (Block α)} (R : Sparing lost h h') {ptr : Option Nat} {n : Nat}
    {xs : List (Option α)} (hx : elementsFrom h ptr n = .ok xs) : elementsFrom h' ptr n = .ok xs := by
  unfold elementsFrom at hx ⊢
  cases ptr with
  | none => exact hx
  | some p =>
    simp only [] at hx ⊢
    cases hc : blockCells h p with
    | ok c => rw [(R.cells hc).2]; rw [hc] at hx; exact hx
    | throws => rw [hc] at hx; cases hx
    | ub => rw [hc] at hx; cases hx

/-- The same for outcomes. -/
def AttSim {β : Type} (lost : List Nat) : Att α β → Att α β → Prop
  | .done h f x, .done h' f' x' => Sparing lost h h' ∧ f = f' ∧ x = x'
  | .threw h, .threw h' => Sparing lost h h'
  | .ub, _ => True
  | _, _ => False

theorem passOn_sim {β : Type} {lost : List Nat} {r r' : Res (List (Block α))} (h : ResSim lost r r') :
    AttSim lost (passOn (β := β) r) (passOn r') := by
  cases r with
  | ok h => cases r' with
    | ok h' => exact h
    | throws => exact h.elim
    | ub => exact h.elim
  | throws => trivial
  | ub => trivial

theorem eachF_sim {lost : List Nat} {step : List (Block α) → Nat → Option α → Res (List (Block α))}
    {undo : List (Block α) → Nat → Res (List (Block α))}
    (hs : ∀ h h' i x, Sparing lost h h' → ResSim lost (step h i x) (step h' i x))
    (hu : ∀ h h' i, Sparing lost h h' → ResSim lost (undo h i) (undo h' i)) :
    ∀ (xs : List (Option α)) (i : Nat) {h h' : List (Block α)} (f : Option Nat), Sparing lost h h' →
      AttSim lost (eachF step undo xs i h f) (eachF step undo xs i h' f)
  | [], _, _, _, _, R => ⟨R, rfl, rfl⟩
  | x :: xs, i, h, h', f, R => by
    unfold eachF
    cases attempt f with
    | none => exact passOn_sim (hu h h' i R)
    | some f =>
      have := hs h h' i x R
      cases h1 : step h i x with
      | ok g =>
        rw [h1] at this
        cases h2 : step h' i x with
        | ok g' => rw [h2] at this; exact eachF_sim hs hu xs (i + 1) f this
        | throws => rw [h2] at this; exact this.elim
        | ub => rw [h2] at this; exact this.elim
      | throws => trivial
      | ub => trivial

theorem uninitializedCopyF_sim (e : StoreEnv α) {lost : List Nat} {h h' : List (Block α)} (R : Sparing lost h h')
    (f : Option Nat) (p : Nat) (xs : List (Option α)) :
    AttSim lost (uninitializedCopyF e h f p xs) (uninitializedCopyF e h' f p xs) := by
  refine eachF_sim (fun h h' i x R => constructAt_sim e R p i x) (fun h h' i R => ?_) xs 0 f R
  split
  · exact R
  · exact cellLoop_sim (fun i h h' R => destroyAt_sim R p i) i R

theorem stdCopyF_sim (e : StoreEnv α) {lost : List Nat} {h h' : List (Block α)} (R : Sparing lost h h')
    (f : Option Nat) (p : Nat) (xs : List (Option α)) : AttSim lost (stdCopyF e h f p xs) (stdCopyF e h' f p xs) :=
  eachF_sim (fun _ _ i x R => assignAt_sim e R p i x) (undo := fun h _ => .ok h) (fun _ _ _ R => R) xs 0 f R

theorem AttSim.next {β γ : Type} {lost : List Nat} {r r' : Att α β} (hr : AttSim lost r r')
    {k k' : List (Block α) → Option Nat → β → Att α γ}
    (hk : ∀ h h' f x, Sparing lost h h' → AttSim lost (k h f x) (k' h' f x)) : AttSim lost (r.next k) (r'.next k') := by
  cases r with
  | done h f x => cases r' with
    | done h' f' x' => obtain ⟨R, rfl, rfl⟩ := hr; exact hk h h' f x R
    | threw h' => exact hr.elim
    | ub => exact hr.elim
  | threw h => cases r' with
    | done h' f' x' => exact hr.elim
    | threw h' => exact hr
    | ub => exact hr.elim
  | ub => trivial

theorem safeInitAllocateF_sim (e : StoreEnv α) {lost : List Nat} {h h' : List (Block α)} (R : Sparing lost h h')
    (f : Option Nat) (a n : Nat) : AttSim lost (safeInitAllocateF e h f a n) (safeInitAllocateF e h' f a n) := by
  unfold safeInitAllocateF
  cases attempt f with
  | none => exact R
  | some f =>
    simp only [allocate, ← R.len]
    split
    · exact (eachF_sim (fun h h' i x R => constructAt_sim e R _ i x) (undo := fun h _ => .ok h) (fun _ _ _ R => R) _ 0 f (R.append _)).next
        fun h h' f x R => ⟨R, rfl, rfl⟩
    · exact ⟨R.append _, rfl, rfl⟩

theorem initDataF_sim (e : StoreEnv α) {lost : List Nat} {h h' : List (Block α)} (R : Sparing lost h h')
    (f : Option Nat) (a : Nat) (xs : List (Option α)) : AttSim lost (initDataF e h f a xs) (initDataF e h' f a xs) := by
  unfold initDataF
  split
  · cases attempt f with
    | none => exact R
    | some f =>
      simp only [allocate, ← R.len]
      exact (uninitializedCopyF_sim e (R.append _) f _ xs).next
        fun h h' f x R => ⟨R, rfl, rfl⟩
  · exact ⟨R, rfl, rfl⟩

theorem uCountF_sim (e : StoreEnv α) {lost : List Nat} {h h' : List (Block α)} (R : Sparing lost h h')
    (f : Option Nat) (a n : Nat) : AttSim lost (uCountF e h f a n) (uCountF e h' f a n) := by
  unfold uCountF
  split
  · exact (safeInitAllocateF_sim e R f a n).next
      fun h h' f x R => ⟨R, rfl, rfl⟩
  · exact ⟨R, rfl, rfl⟩

theorem uCopyF_sim (e : StoreEnv α) {lost : List Nat} {h h' : List (Block α)} (R : Sparing lost h h')
    (f : Option Nat) (v : UVec) : AttSim lost (uCopyF e h f v) (uCopyF e h' f v) := by
  unfold uCopyF
  cases hx : elementsFrom h v.block v.size with
  | ok xs => rw [elementsFrom_sim R hx]; exact initDataF_sim e R f _ xs
  | throws => trivial
  | ub => trivial

/-- The same for members. -/
def VecSim (lost : List Nat) : VecAtt α → VecAtt α → Prop
  | .done h f v, .done h' f' v' => Sparing lost h h' ∧ f = f' ∧ v = v'
  | .threw h v, .threw h' v' => Sparing lost h h' ∧ v = v'
  | .ub, _ => True
  | _, _ => False

theorem AttSim.nextVec {β : Type} {lost : List Nat} {r r' : Att α β} (hr : AttSim lost r r') (v : UVec)
    {k k' : List (Block α) → Option Nat → β → VecAtt α}
    (hk : ∀ h h' f x, Sparing lost h h' → VecSim lost (k h f x) (k' h' f x)) :
    VecSim lost (r.nextVec v k) (r'.nextVec v k') := by
  cases r with
  | done h f x => cases r' with
    | done h' f' x' => obtain ⟨R, rfl, rfl⟩ := hr; exact hk h h' f x R
    | threw h' => exact hr.elim
    | ub => exact hr.elim
  | threw h => cases r' with
    | done h' f' x' => exact hr.elim
    | threw h' => exact ⟨hr, rfl⟩
    | ub => exact hr.elim
  | ub => trivial

theorem resizeImplF_sim (e : StoreEnv α) {lost : List Nat} {h h' : List (Block α)} (R : Sparing lost h h')
    (f : Option Nat) (v : UVec) (n : Nat) : VecSim lost (resizeImplF e h f v n) (resizeImplF e h' f v n) := by
  unfold resizeImplF
  split
  · refine (safeInitAllocateF_sim e R f v.alloc n).nextVec v fun h h' f p R => ?_
    have := safeDestroyDeallocate_sim e R v.alloc v.block v.size
    cases h1 : safeDestroyDeallocate e h v.alloc v.block v.size with
    | ok g =>
      rw [h1] at this
      cases h2 : safeDestroyDeallocate e h' v.alloc v.block v.size with
      | ok g' => rw [h2] at this; exact ⟨this, rfl, rfl⟩
      | throws => rw [h2] at this; exact this.elim
      | ub => rw [h2] at this; exact this.elim
    | throws => trivial
    | ub => trivial
  · exact ⟨R, rfl, rfl⟩

theorem uCopyAssignF_sim (e : StoreEnv α) {lost : List Nat} {h h' : List (Block α)} (R : Sparing lost h h')
    (f : Option Nat) (v rhs : UVec) : VecSim lost (uCopyAssignF e h f v rhs) (uCopyAssignF e h' f v rhs) := by
  unfold uCopyAssignF
  have := resizeImplF_sim e R f ⟨e.select rhs.alloc, v.block, v.size⟩ rhs.size
  cases h1 : resizeImplF e h f ⟨e.select rhs.alloc, v.block, v.size⟩ rhs.size with
  | done g f v =>
    rw [h1] at this
    cases h2 : resizeImplF e h' _ ⟨e.select rhs.alloc, _, _⟩ rhs.size with
    | done g' f' v' =>
      rw [h2] at this
      obtain ⟨R, rfl, rfl⟩ := this
      simp only []
      cases hx : elementsFrom g rhs.block rhs.size with
      | ok xs =>
        rw [elementsFrom_sim R hx]
        simp only []
        cases v.block with
        | none =>
          simp only []
          split
          · exact ⟨R, rfl, rfl⟩
          · trivial
        | some p =>
          simp only []
          split
          · exact (uninitializedCopyF_sim e R f p xs).nextVec v fun h h' f x R => ⟨R, rfl, rfl⟩
          · exact (stdCopyF_sim e R f p xs).nextVec v fun h h' f x R => ⟨R, rfl, rfl⟩
      | throws => trivial
      | ub => trivial
    | threw g' v' => rw [h2] at this; exact this.elim
    | ub => rw [h2] at this; exact this.elim
  | threw g v =>
    rw [h1] at this
    cases h2 : resizeImplF e h' _ ⟨e.select rhs.alloc, _, _⟩ rhs.size with
    | done g' f' v' => rw [h2] at this; exact this.elim
    | threw g' v' => rw [h2] at this; exact this
    | ub => rw [h2] at this; exact this.elim
  | ub => trivial

theorem uWriteF_sim (e : StoreEnv α) {lost : List Nat} {h h' : List (Block α)} (R : Sparing lost h h')
    (f : Option Nat) (v : UVec) (i : Nat) (x : α) : VecSim lost (uWriteF e h f v i x) (uWriteF e h' f v i x) := by
  unfold uWriteF
  cases v.block with
  | none => trivial
  | some p =>
    simp only []
    cases attempt f with
    | none => exact ⟨R, rfl⟩
    | some f =>
      simp only []
      have := assignAt_sim e R p i (some x)
      cases h1 : assignAt e h p i (some x) with
      | ok g =>
        rw [h1] at this
        cases h2 : assignAt e h' p i (some x) with
        | ok g' => rw [h2] at this; exact ⟨this, rfl, rfl⟩
        | throws => rw [h2] at this; exact this.elim
        | ub => rw [h2] at this; exact this.elim
      | throws => trivial
      | ub => trivial

/-- The same for programs. -/
def StepSim (lost : List Nat) : StepAtt α → StepAtt α → Prop
  | .done w, .done w' => Sparing lost w.heap w'.heap ∧ w.vars = w'.vars
  | .threw w, .threw w' => Sparing lost w.heap w'.heap ∧ w.vars = w'.vars
  | .ub, _ => True
  | _, _ => False

theorem createF_sim {lost : List Nat} {h h' : List (Block α)} {vars : List (Option UVec)} (k : Nat)
    {g g' : List (Block α) → Att α UVec} (hg : AttSim lost (g h) (g' h')) :
    StepSim lost (UWorld.createF ⟨h, vars⟩ k g) (UWorld.createF ⟨h', vars⟩ k g') := by
  unfold UWorld.createF
  simp only []
  split
  · cases h1 : g h with
    | done x f u =>
      rw [h1] at hg
      cases h2 : g' h' with
      | done x' f' u' => rw [h2] at hg; obtain ⟨R, rfl, rfl⟩ := hg; exact ⟨R, rfl⟩
      | threw x' => rw [h2] at hg; exact hg.elim
      | ub => rw [h2] at hg; exact hg.elim
    | threw x =>
      rw [h1] at hg
      cases h2 : g' h' with
      | done x' f' u' => rw [h2] at hg; exact hg.elim
      | threw x' => rw [h2] at hg; exact ⟨hg, rfl⟩
      | ub => rw [h2] at hg; exact hg.elim
    | ub => trivial
  · trivial

theorem changeF_sim {lost : List Nat} {h h' : List (Block α)} {vars : List (Option UVec)} (k : Nat)
    {g g' : List (Block α) → UVec → VecAtt α} (hg : ∀ v, VecSim lost (g h v) (g' h' v)) :
    StepSim lost (UWorld.changeF ⟨h, vars⟩ k g) (UWorld.changeF ⟨h', vars⟩ k g') := by
  unfold UWorld.changeF
  have hget : UWorld.get ⟨h', vars⟩ k = UWorld.get (⟨h, vars⟩ : UWorld α) k := rfl
  rw [hget]
  cases UWorld.get (⟨h, vars⟩ : UWorld α) k with
  | ok v =>
    simp only []
    have := hg v
    cases h1 : g h v with
    | done x f u =>
      rw [h1] at this
      cases h2 : g' h' v with
      | done x' f' u' => rw [h2] at this; obtain ⟨R, rfl, rfl⟩ := this; exact ⟨R, rfl⟩
      | threw x' u' => rw [h2] at this; exact this.elim
      | ub => rw [h2] at this; exact this.elim
    | threw x u =>
      rw [h1] at this
      cases h2 : g' h' v with
      | done x' f' u' => rw [h2] at this; exact this.elim
      | threw x' u' => rw [h2] at this; obtain ⟨R, rfl⟩ := this; exact ⟨R, rfl⟩
      | ub => rw [h2] at this; exact this.elim
    | ub => trivial
  | throws => trivial
  | ub => trivial

theorem uStepF_sim (e : StoreEnv α) (a : Nat) {lost : List Nat} {h h' : List (Block α)} {vars : List (Option UVec)}
    (R : Sparing lost h h') (f : Option Nat) (o : StoreOp α) :
    StepSim lost (uStepF e a ⟨h, vars⟩ f o) (uStepF e a ⟨h', vars⟩ f o) := by
  have hget : ∀ k, UWorld.get (⟨h', vars⟩ : UWorld α) k = UWorld.get (⟨h, vars⟩ : UWorld α) k := fun _ => rfl
  cases o with
  | ctorCount k n => exact createF_sim (g := fun h => uCountF e h f a n) (g' := fun h => uCountF e h f a n) k (uCountF_sim e R f a n)
  | ctorFill k n x => exact createF_sim (g := fun h => initDataF e h f a _) (g' := fun h => initDataF e h f a _) k (initDataF_sim e R f a _)
  | ctorList k l => exact createF_sim (g := fun h => initDataF e h f a _) (g' := fun h => initDataF e h f a _) k (initDataF_sim e R f a _)
  | ctorCopy k j =>
    simp only [uStepF, hget]
    cases UWorld.get (⟨h, vars⟩ : UWorld α) j with
    | ok v => exact createF_sim k (uCopyF_sim e R f v)
    | throws => trivial
    | ub => trivial
  | copy k j =>
    simp only [uStepF, hget]
    cases UWorld.get (⟨h, vars⟩ : UWorld α) j with
    | ok u =>
      simp only []
      split
      · exact changeF_sim k fun v => uCopyAssignF_sim e R f v u
      · exact ⟨R, rfl⟩
    | throws => trivial
    | ub => trivial
  | resize k n => exact changeF_sim (g := fun h v => resizeImplF e h f v n) (g' := fun h v => resizeImplF e h f v n) k fun v => resizeImplF_sim e R f v n
  | write k i x => exact changeF_sim (g := fun h v => uWriteF e h f v i x) (g' := fun h v => uWriteF e h f v i x) k fun v => uWriteF_sim e R f v i x
  | ctorMove k j =>
    simp only [uStepF, uStep, hget]
    cases UWorld.get (⟨h, vars⟩ : UWorld α) j with
    | ok v =>
      simp only [Res.bind_ok, UWorld.create]
      split
      · exact ⟨R, rfl⟩
      · trivial
    | throws => trivial
    | ub => trivial
  | move k j =>
    simp only [uStepF, uStep, hget]
    cases UWorld.get (⟨h, vars⟩ : UWorld α) j with
    | ok u =>
      simp only [Res.bind_ok, UWorld.change]
      have hget' : ∀ vs, UWorld.get (⟨h', vs⟩ : UWorld α) k = UWorld.get (⟨h, vs⟩ : UWorld α) k := fun _ => rfl
      rw [hget']
      cases UWorld.get (⟨h, vars.set j (some (uMove u).2)⟩ : UWorld α) k with
      | ok v =>
        simp only [Res.bind_ok, uDestroy]
        have := safeDestroyDeallocate_sim e R (uMove u).1.alloc v.block v.size
        cases h1 : safeDestroyDeallocate e h (uMove u).1.alloc v.block v.size with
        | ok g =>
          rw [h1] at this
          cases h2 : safeDestroyDeallocate e h' (uMove u).1.alloc v.block v.size with
          | ok g' => rw [h2] at this; exact ⟨this, rfl⟩
          | throws => rw [h2] at this; exact this.elim
          | ub => rw [h2] at this; exact this.elim
        | throws => trivial
        | ub => trivial
      | throws => trivial
      | ub => trivial
    | throws => trivial
    | ub => trivial
  | swap k j =>
    simp only [uStepF, uStep, hget]
    cases UWorld.get (⟨h, vars⟩ : UWorld α) k with
    | ok v =>
      cases UWorld.get (⟨h, vars⟩ : UWorld α) j with
      | ok u => exact ⟨R, rfl⟩
      | throws => trivial
      | ub => trivial
    | throws => trivial
    | ub => trivial
  | destroy k =>
    simp only [uStepF, uStep, hget]
    cases UWorld.get (⟨h, vars⟩ : UWorld α) k with
    | ok v =>
      simp only [Res.bind_ok, uDestroy]
      have := safeDestroyDeallocate_sim e R v.alloc v.block v.size
      cases h1 : safeDestroyDeallocate e h v.alloc v.block v.size with
      | ok g =>
        rw [h1] at this
        cases h2 : safeDestroyDeallocate e h' v.alloc v.block v.size with
        | ok g' => rw [h2] at this; exact ⟨this, rfl⟩
        | throws => rw [h2] at this; exact this.elim
        | ub => rw [h2] at this; exact this.elim
      | throws => trivial
      | ub => trivial
    | throws => trivial
    | ub => trivial

end Xt
