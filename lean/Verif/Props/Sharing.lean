import Verif.Model.Sharing
import Mathlib.Tactic.Common
import Mathlib.Algebra.Order.Ring.Nat
/-!
# C85: shared expressions

A shared expression is one more holder of an object that lives while it is held; it reads what the container read when it
was shared; and sharing leaves the container as it is.
-/

namespace Xt
namespace Spec

variable {α : Type}

/-- How many objects hold cell `c`. -/
def holders (s : Sharing α) (c : Nat) : Nat := s.objs.countP fun (o : SObj α) => o.ptr == some c

/-- `P` holds for every step of the program, in the state where it is taken. -/
def Along (moved : α → α) (P : Sharing α → ShareOp α → Prop) : Sharing α → List (ShareOp α) → Prop
  | _, [] => True
  | s, op :: ops => P s op ∧ ∀ t, s.step moved op = some t → Along moved P t ops

/-- No write through a shared expression, and no write in place to a container that was shared (or is a copy of one that
was). -/
def Calm (s : Sharing α) : ShareOp α → Prop
  | .pokeShared _ _ => False
  | .poke v _ => s.ptr v = none
  | .assignExpr v _ false => s.ptr v = none
  | _ => True

/-- Shared expression `h` is not moved from, assigned or destroyed, and nothing is written through a shared expression of
the same object. -/
def Spares (h : Nat) (s : Sharing α) : ShareOp α → Prop
  | .pokeShared g _ => s.ptr g ≠ s.ptr h
  | .moveShared g => g ≠ h
  | .assignShared g _ => g ≠ h
  | .drop i => i ≠ h
  | _ => True

/-- What is done with shared expressions only. -/
def OfShared : ShareOp α → Prop
  | .share _ => True
  | .copyShared _ => True
  | .moveShared _ => True
  | .assignShared _ _ => True
  | .pokeShared _ _ => True
  | _ => False

end Spec
open Spec

variable {α : Type}

/-! ### Counts -/

/-- The count of cell `c`. -/
def cellCount (cells : List (α × Nat)) (c : Nat) : Nat := ((cells[c]?).map Prod.snd).getD 0

/-- The value of cell `c`. -/
def cellVal (cells : List (α × Nat)) (c : Nat) : Option α := (cells[c]?).map Prod.fst

theorem lt_of_cellCount (cells : List (α × Nat)) (c : Nat) (h : 0 < cellCount cells c) : c < cells.length := by
  by_contra hc
  rw [cellCount, List.getElem?_eq_none (by omega)] at h
  simp at h

theorem cellCount_hold (cells : List (α × Nat)) (q : Option Nat) (hq : ∀ c, q = some c → c < cells.length) (c : Nat) :
    cellCount (holdCell cells q) c = cellCount cells c + if q = some c then 1 else 0 := by
  cases q with
  | none => simp [holdCell]
  | some d =>
    simp only [holdCell, cellCount, List.getElem?_modify, Option.some.injEq]
    by_cases h : d = c
    · subst h
      have := hq d rfl
      simp [List.getElem?_eq_getElem this]
    · simp [h]

theorem cellCount_release (cells : List (α × Nat)) (q : Option Nat) (c : Nat) :
    cellCount (releaseCell cells q) c = cellCount cells c - if q = some c then 1 else 0 := by
  cases q with
  | none => simp [releaseCell]
  | some d =>
    simp only [releaseCell, cellCount, List.getElem?_modify, Option.some.injEq]
    by_cases h : d = c
    · subst h
      cases cells[d]? <;> simp
    · simp [h]

theorem cellVal_hold (cells : List (α × Nat)) (q : Option Nat) (c : Nat) :
    cellVal (holdCell cells q) c = cellVal cells c := by
  cases q with
  | none => rfl
  | some d =>
    simp only [holdCell, cellVal, List.getElem?_modify]
    by_cases h : d = c
    · subst h; cases cells[d]? <;> simp
    · simp [h]

theorem cellVal_release (cells : List (α × Nat)) (q : Option Nat) (c : Nat) :
    cellVal (releaseCell cells q) c = cellVal cells c := by
  cases q with
  | none => rfl
  | some d =>
    simp only [releaseCell, cellVal, List.getElem?_modify]
    by_cases h : d = c
    · subst h; cases cells[d]? <;> simp
    · simp [h]

theorem countP_setPtr (q : Option Nat) (c : Nat) : ∀ (objs : List (SObj α)) (i : Nat), i < objs.length →
    (objs.modify i fun (o : SObj α) => { o with ptr := q }).countP (fun (o : SObj α) => o.ptr == some c) +
      (if (objs[i]?).bind SObj.ptr = some c then 1 else 0) =
      objs.countP (fun (o : SObj α) => o.ptr == some c) + if q = some c then 1 else 0
  | [], _, h => by simp at h
  | o :: os, 0, _ => by
    simp only [List.modify_zero_cons, List.countP_cons, List.getElem?_cons_zero, Option.bind_some, beq_iff_eq]
    omega
  | o :: os, i + 1, h => by
    have := countP_setPtr q c os i (by simpa using h)
    simp only [List.modify_succ_cons, List.countP_cons, List.getElem?_cons_succ]
    omega

theorem countP_setVal (x : Option α) (c : Nat) : ∀ (objs : List (SObj α)) (i : Nat),
    (objs.modify i fun (o : SObj α) => { o with val := x }).countP (fun (o : SObj α) => o.ptr == some c) =
      objs.countP (fun (o : SObj α) => o.ptr == some c)
  | [], i => by cases i <;> simp
  | o :: os, 0 => by simp [List.countP_cons]
  | o :: os, i + 1 => by simp [List.countP_cons, countP_setVal x c os i]

/-- Every count is the number of holders. -/
def Counted (s : Sharing α) : Prop := ∀ c, cellCount s.cells c = holders s c

/-- A pointer that is null or points to a cell. -/
def Sharing.Valid (s : Sharing α) (q : Option Nat) : Prop := ∀ c, q = some c → c < s.cells.length

theorem holders_pos (s : Sharing α) (i c : Nat) (h : s.ptr i = some c) : 0 < holders s c := by
  simp only [Sharing.ptr] at h
  cases ho : s.objs[i]? with
  | none => simp [ho] at h
  | some o =>
    rw [ho] at h
    exact List.countP_pos_iff.2 ⟨o, List.mem_of_getElem? ho, by simpa using h⟩

theorem Counted.valid {s : Sharing α} (hc : Counted s) (i : Nat) : s.Valid (s.ptr i) := fun c h =>
  lt_of_cellCount _ _ (by rw [hc c]; exact holders_pos s i c h)

theorem valid_none (s : Sharing α) : s.Valid none := fun _ h => by cases h

theorem counted_setPtr {s : Sharing α} (hc : Counted s) (i : Nat) (q : Option Nat) (hq : s.Valid q) :
    Counted (s.setPtr i q) := by
  unfold Sharing.setPtr
  split
  · rename_i h
    intro c
    have h1 := countP_setPtr q c s.objs i h
    have h2 := hc c
    simp only [holders] at h2 ⊢
    rw [cellCount_release, cellCount_hold _ _ hq, h2]
    simp only [Sharing.ptr]
    by_cases h3 : (s.objs[i]?).bind SObj.ptr = some c <;> by_cases h4 : q = some c <;>
      simp only [h3, h4, if_true, if_false] at h1 ⊢ <;> omega
  · exact hc

theorem counted_setVal {s : Sharing α} (hc : Counted s) (i : Nat) (x : Option α) : Counted (s.setVal i x) := by
  intro c
  have h2 := hc c
  simp only [holders, Sharing.setVal] at h2 ⊢
  rw [countP_setVal, h2]

theorem counted_push {s : Sharing α} (hc : Counted s) (o : SObj α) (hq : s.Valid o.ptr) : Counted (s.push o) := by
  intro c
  have h2 := hc c
  simp only [holders, Sharing.push] at h2 ⊢
  rw [cellCount_hold _ _ hq, h2, List.countP_append, List.countP_singleton]
  simp

/-! ### What the steps leave alone -/

theorem length_setPtr (s : Sharing α) (i : Nat) (q : Option Nat) : (s.setPtr i q).objs.length = s.objs.length := by
  unfold Sharing.setPtr; split <;> simp

theorem length_setVal (s : Sharing α) (i : Nat) (x : Option α) : (s.setVal i x).objs.length = s.objs.length := by
  simp [Sharing.setVal]

theorem cells_setVal (s : Sharing α) (i : Nat) (x : Option α) : (s.setVal i x).cells = s.cells := rfl

theorem cellsLength_setPtr (s : Sharing α) (i : Nat) (q : Option Nat) :
    (s.setPtr i q).cells.length = s.cells.length := by
  unfold Sharing.setPtr
  split
  · cases q <;> cases s.ptr i <;> simp [holdCell, releaseCell]
  · rfl

theorem cellsLength_push (s : Sharing α) (o : SObj α) : (s.push o).cells.length = s.cells.length := by
  cases h : o.ptr <;> simp [Sharing.push, holdCell, h]

theorem ptr_setPtr (s : Sharing α) (i j : Nat) (q : Option Nat) (hi : i < s.objs.length) :
    (s.setPtr i q).ptr j = if i = j then q else s.ptr j := by
  simp only [Sharing.setPtr, if_pos hi, Sharing.ptr, List.getElem?_modify]
  by_cases h : i = j
  · subst h; simp [hi]
  · simp [h]

theorem val_setPtr (s : Sharing α) (i j : Nat) (q : Option Nat) : (s.setPtr i q).val j = s.val j := by
  unfold Sharing.setPtr
  split
  · simp only [Sharing.val, List.getElem?_modify]
    by_cases h : i = j
    · subst h; cases s.objs[i]? <;> simp
    · simp [h]
  · rfl

theorem ptr_setVal (s : Sharing α) (i j : Nat) (x : Option α) : (s.setVal i x).ptr j = s.ptr j := by
  simp only [Sharing.setVal, Sharing.ptr, List.getElem?_modify]
  by_cases h : i = j
  · subst h; cases s.objs[i]? <;> simp
  · simp [h]

theorem val_setVal (s : Sharing α) (i j : Nat) (x : Option α) (hi : i < s.objs.length) :
    (s.setVal i x).val j = if i = j then x else s.val j := by
  simp only [Sharing.setVal, Sharing.val, List.getElem?_modify]
  by_cases h : i = j
  · subst h; simp [hi]
  · simp [h]

theorem ptr_push (s : Sharing α) (o : SObj α) (j : Nat) :
    (s.push o).ptr j = if j = s.objs.length then o.ptr else s.ptr j := by
  simp only [Sharing.push, Sharing.ptr]
  rcases Nat.lt_trichotomy j s.objs.length with h | h | h
  · rw [List.getElem?_append_left h, if_neg (by omega)]
  · subst h; simp
  · rw [List.getElem?_eq_none (by simp; omega), if_neg (by omega), List.getElem?_eq_none (by omega)]

theorem val_push (s : Sharing α) (o : SObj α) (j : Nat) :
    (s.push o).val j = if j = s.objs.length then o.val else s.val j := by
  simp only [Sharing.push, Sharing.val]
  rcases Nat.lt_trichotomy j s.objs.length with h | h | h
  · rw [List.getElem?_append_left h, if_neg (by omega)]
  · subst h; simp
  · rw [List.getElem?_eq_none (by simp; omega), if_neg (by omega), List.getElem?_eq_none (by omega)]

theorem cellVal_setPtr (s : Sharing α) (i : Nat) (q : Option Nat) (c : Nat) :
    cellVal (s.setPtr i q).cells c = cellVal s.cells c := by
  unfold Sharing.setPtr
  split
  · rw [cellVal_release, cellVal_hold]
  · rfl

theorem cellVal_push (s : Sharing α) (o : SObj α) (c : Nat) : cellVal (s.push o).cells c = cellVal s.cells c := by
  simp only [Sharing.push]; rw [cellVal_hold]

theorem lt_of_val (s : Sharing α) (v : Nat) (x : α) (h : s.val v = some x) : v < s.objs.length := by
  by_contra hv
  rw [Sharing.val, List.getElem?_eq_none (by omega)] at h
  simp at h

theorem lt_of_ptr (s : Sharing α) (v c : Nat) (h : s.ptr v = some c) : v < s.objs.length := by
  by_contra hv
  rw [Sharing.ptr, List.getElem?_eq_none (by omega)] at h
  simp at h

theorem length_push (s : Sharing α) (o : SObj α) : (s.push o).objs.length = s.objs.length + 1 := by simp [Sharing.push]

/-- The state between the two halves of `share`. -/
def Sharing.shareCell (s : Sharing α) (v : Nat) (x : α) : Sharing α :=
  match s.ptr v with
  | none => { s with cells := s.cells ++ [(x, 0)] }.setPtr v (some s.cells.length)
  | some _ => s

theorem step_share (moved : α → α) (s : Sharing α) (v : Nat) :
    s.step moved (.share v) = (s.val v).map fun (x : α) => (s.shareCell v x).push ⟨none, (s.shareCell v x).ptr v⟩ := rfl

theorem counted_shareCell {s : Sharing α} (hc : Counted s) (v : Nat) (x : α) : Counted (s.shareCell v x) := by
  unfold Sharing.shareCell
  cases hp : s.ptr v with
  | some _ => exact hc
  | none =>
    refine counted_setPtr (s := { s with cells := s.cells ++ [(x, 0)] }) ?_ v _ ?_
    · intro c
      have := hc c
      simp only [holders] at this ⊢
      rw [← this]
      simp only [cellCount]
      rcases Nat.lt_trichotomy c s.cells.length with h | h | h
      · rw [List.getElem?_append_left h]
      · subst h; simp
      · rw [List.getElem?_eq_none (by simp; omega), List.getElem?_eq_none (by omega)]
    · intro c h
      simp only [Option.some.injEq] at h
      simp [← h]

theorem length_shareCell (s : Sharing α) (v : Nat) (x : α) : (s.shareCell v x).objs.length = s.objs.length := by
  unfold Sharing.shareCell
  cases s.ptr v with
  | some _ => rfl
  | none => exact length_setPtr _ _ _

theorem val_shareCell (s : Sharing α) (v : Nat) (x : α) (j : Nat) : (s.shareCell v x).val j = s.val j := by
  unfold Sharing.shareCell
  cases s.ptr v with
  | some _ => rfl
  | none => rw [val_setPtr]; rfl

theorem ptr_shareCell_ne (s : Sharing α) (v : Nat) (x : α) (j : Nat) (hx : s.val v = some x) (h : v ≠ j) :
    (s.shareCell v x).ptr j = s.ptr j := by
  unfold Sharing.shareCell
  cases s.ptr v with
  | some _ => rfl
  | none =>
    show ({ s with cells := s.cells ++ [(x, 0)] }.setPtr v (some s.cells.length)).ptr j = s.ptr j
    rw [ptr_setPtr { s with cells := s.cells ++ [(x, 0)] } _ _ _ (lt_of_val s v x hx), if_neg h]; rfl

theorem cellVal_shareCell (s : Sharing α) (v : Nat) (x : α) (c : Nat) (hc : c < s.cells.length) :
    cellVal (s.shareCell v x).cells c = cellVal s.cells c := by
  unfold Sharing.shareCell
  cases s.ptr v with
  | some _ => rfl
  | none => rw [cellVal_setPtr]; simp only [cellVal, List.getElem?_append_left hc]

/-- The cell of a container that has just been shared. -/
theorem shareCell_fresh (s : Sharing α) (v : Nat) (x : α) (hx : s.val v = some x) (hp : s.ptr v = none) :
    (s.shareCell v x).ptr v = some s.cells.length ∧ cellVal (s.shareCell v x).cells s.cells.length = some x := by
  simp only [Sharing.shareCell, hp]
  refine ⟨?_, ?_⟩
  · rw [ptr_setPtr { s with cells := s.cells ++ [(x, 0)] } _ _ _ (lt_of_val s v x hx), if_pos rfl]
  · rw [cellVal_setPtr]; simp [cellVal]

theorem shareCell_again (s : Sharing α) (v : Nat) (x : α) (c : Nat) (hp : s.ptr v = some c) : s.shareCell v x = s := by
  simp only [Sharing.shareCell, hp]

/-! ### Counts along a program -/

theorem counted_step (moved : α → α) {s t : Sharing α} (hc : Counted s) (op : ShareOp α) (h : s.step moved op = some t) :
    Counted t := by
  cases op with
  | decl x =>
    simp only [Sharing.step, Option.some.injEq] at h
    rw [← h]; exact counted_push hc _ (valid_none s)
  | copy v =>
    cases hv : s.val v with
    | none => simp [Sharing.step, hv] at h
    | some x =>
      simp only [Sharing.step, hv, Option.map_some, Option.some.injEq] at h
      rw [← h]; exact counted_push hc _ (hc.valid v)
  | move v =>
    cases hv : s.val v with
    | none => simp [Sharing.step, hv] at h
    | some x =>
      simp only [Sharing.step, hv, Option.map_some, Option.some.injEq] at h
      rw [← h]
      exact counted_setVal (counted_setPtr (counted_push hc _ (hc.valid v)) _ _ (valid_none _)) _ _
  | assign w v =>
    cases hw : s.val w with
    | none => simp [Sharing.step, hw] at h
    | some y =>
      cases hv : s.val v with
      | none => simp [Sharing.step, hw, hv] at h
      | some x =>
        simp only [Sharing.step, hv, hw, Option.bind_some, Option.map_some, Option.some.injEq] at h
        rw [← h]
        exact counted_setPtr (counted_setVal hc _ _) _ _ (hc.valid v)
  | moveAssign w v =>
    by_cases hwv : w = v
    · simp [Sharing.step, hwv] at h
    cases hw : s.val w with
    | none => simp [Sharing.step, hw] at h
    | some y =>
      cases hv : s.val v with
      | none => simp [Sharing.step, hw, hv] at h
      | some x =>
        simp only [Sharing.step, if_neg hwv, hv, hw, Option.bind_some, Option.map_some, Option.some.injEq] at h
        rw [← h]
        exact counted_setVal (counted_setPtr (counted_setPtr (counted_setVal hc _ _) _ _ (hc.valid v)) _ _
          (valid_none _)) _ _
  | assignExpr v x o =>
    cases hv : s.val v with
    | none => simp [Sharing.step, hv] at h
    | some y =>
      simp only [Sharing.step, hv, Option.map_some, Option.some.injEq] at h
      rw [← h]
      split
      · exact counted_setPtr (counted_setVal hc _ _) _ _ (valid_none _)
      · exact counted_setVal hc _ _
  | poke v x =>
    cases hv : s.val v with
    | none => simp [Sharing.step, hv] at h
    | some y =>
      simp only [Sharing.step, hv, Option.map_some, Option.some.injEq] at h
      rw [← h]
      exact counted_setVal hc _ _
  | share v =>
    rw [step_share] at h
    cases hv : s.val v with
    | none => simp [hv] at h
    | some x =>
      simp only [hv, Option.map_some, Option.some.injEq] at h
      rw [← h]
      exact counted_push (counted_shareCell hc v x) _ ((counted_shareCell hc v x).valid v)
  | copyShared g =>
    cases hg : s.ptr g with
    | none => simp [Sharing.step, hg] at h
    | some c =>
      simp only [Sharing.step, hg, Option.bind_some] at h
      split at h
      · simp only [Option.some.injEq] at h
        rw [← h]
        exact counted_push hc _ (hg ▸ hc.valid g)
      · cases h
  | moveShared g =>
    cases hg : s.ptr g with
    | none => simp [Sharing.step, hg] at h
    | some c =>
      simp only [Sharing.step, hg, Option.bind_some] at h
      split at h
      · simp only [Option.some.injEq] at h
        rw [← h]
        exact counted_setPtr (counted_push hc _ (hg ▸ hc.valid g)) _ _ (valid_none _)
      · cases h
  | assignShared g k =>
    cases hg : s.ptr g with
    | none => simp [Sharing.step, hg] at h
    | some c =>
      simp only [Sharing.step, hg, Option.bind_some] at h
      split at h
      · simp only [Option.some.injEq] at h
        rw [← h]
        exact counted_setPtr hc _ _ (hc.valid k)
      · cases h
  | pokeShared g x =>
    cases hg : s.ptr g with
    | none => simp [Sharing.step, hg] at h
    | some c =>
      simp only [Sharing.step, hg, Option.bind_some] at h
      split at h
      · simp only [Option.some.injEq] at h
        rw [← h]
        intro d
        show cellCount (s.cells.modify c fun (y : α × Nat) => (x, y.2)) d = holders s d
        rw [← hc d]
        simp only [cellCount, List.getElem?_modify]
        by_cases hd : c = d
        · subst hd; cases s.cells[c]? <;> simp
        · simp [hd]
      · cases h
  | drop i =>
    simp only [Sharing.step] at h
    split at h
    · simp only [Option.some.injEq] at h
      rw [← h]
      exact counted_setVal (counted_setPtr hc _ _ (valid_none _)) _ _
    · cases h

theorem counted_run (moved : α → α) : ∀ (ops : List (ShareOp α)) {s t : Sharing α}, Counted s → s.run moved ops = some t →
    Counted t
  | [], s, t, hc, h => by
    simp only [Sharing.run, Option.some.injEq] at h
    rwa [← h]
  | op :: ops, s, t, hc, h => by
    simp only [Sharing.run] at h
    cases hs : s.step moved op with
    | none => simp [hs] at h
    | some u =>
      rw [hs] at h
      exact counted_run moved ops (counted_step moved hc op hs) h

theorem counted_start : Counted (Sharing.start : Sharing α) := fun c => by simp [cellCount, holders, Sharing.start]

theorem read_of_held {s : Sharing α} (hc : Counted s) (h c : Nat) (x : α) (hp : s.ptr h = some c)
    (hv : cellVal s.cells c = some x) : s.read h = .ok x := by
  have hpos := holders_pos s h c hp
  rw [← hc c] at hpos
  simp only [cellCount] at hpos
  simp only [cellVal] at hv
  cases hcell : s.cells[c]? with
  | none => simp [hcell] at hv
  | some p =>
    obtain ⟨y, n⟩ := p
    simp only [hcell, Option.map_some, Option.some.injEq] at hv
    simp only [hcell, Option.map_some, Option.getD_some] at hpos
    subst hv
    cases n with
    | zero => omega
    | succ n => simp [Sharing.read, hp, hcell]

/-- **C85 counts.** After any program, `use_count` of a shared expression is the number of objects — containers and
shared expressions — that hold the same shared object; a shared object that is held is not destroyed, so a shared
expression that was not moved from can be read, and one that is not held is. -/
theorem C85_counts (moved : α → α) (ops : List (ShareOp α)) (s : Sharing α) (h : Sharing.start.run moved ops = some s) :
    (∀ g c, s.ptr g = some c → s.useCount g = holders s c ∧ 0 < s.useCount g ∧ ∃ x, s.read g = .ok x) ∧
      ∀ (c : Nat) (hc : c < s.cells.length), holders s c = 0 ↔ (s.cells[c]).2 = 0 := by
  have hc := counted_run moved ops counted_start h
  refine ⟨fun g c hg => ?_, fun c hlt => ?_⟩
  · have hu : s.useCount g = holders s c := by rw [← hc c]; simp [Sharing.useCount, hg, cellCount]
    refine ⟨hu, ?_, ?_⟩
    · rw [hu]; exact holders_pos s g c hg
    · have hlt := hc.valid g c hg
      exact ⟨_, read_of_held hc g c (s.cells[c]).1 hg (by simp [cellVal, hlt])⟩
  · rw [← hc c]; simp [cellCount, hlt]

example : (Sharing.start.run id [.decl 7, .share 0, .copyShared 1, .drop 0]).map (fun (s : Sharing Nat) =>
    (s, s.useCount 1, s.read 2)) = some (⟨[⟨none, none⟩, ⟨none, some 0⟩, ⟨none, some 0⟩], [(7, 2)]⟩, 2, .ok 7) := by decide

/-! ### Values along a program -/

/-- A container that was shared and its shared object have the same value. -/
def InStep (s : Sharing α) : Prop := ∀ i x c, s.val i = some x → s.ptr i = some c → cellVal s.cells c = some x

theorem inStep_push {s : Sharing α} (hi : InStep s) (o : SObj α)
    (ho : ∀ x c, o.val = some x → o.ptr = some c → cellVal s.cells c = some x) : InStep (s.push o) := by
  intro i x c hv hp
  rw [val_push] at hv; rw [ptr_push] at hp
  rw [cellVal_push]
  split at hv
  · rename_i h; rw [if_pos h] at hp; exact ho x c hv hp
  · rename_i h; rw [if_neg h] at hp; exact hi i x c hv hp

/-- A new value and a new pointer for a container. -/
theorem inStep_set {s : Sharing α} (hi : InStep s) (w : Nat) (hw : w < s.objs.length) (x : Option α) (q : Option Nat)
    (h : ∀ y c, x = some y → q = some c → cellVal s.cells c = some y) : InStep ((s.setVal w x).setPtr w q) := by
  intro i y c hv hp
  rw [val_setPtr, val_setVal _ _ _ _ hw] at hv
  rw [ptr_setPtr _ _ _ _ (by rw [length_setVal]; exact hw), ptr_setVal] at hp
  rw [cellVal_setPtr, cells_setVal]
  split at hv
  · rename_i he; rw [if_pos he] at hp; exact h y c hv hp
  · rename_i he; rw [if_neg he] at hp; exact hi i y c hv hp

theorem inStep_setVal {s : Sharing α} (hi : InStep s) (w : Nat) (hw : w < s.objs.length) (x : Option α)
    (h : s.ptr w = none) : InStep (s.setVal w x) := by
  intro i y c hv hp
  rw [val_setVal _ _ _ _ hw] at hv
  rw [ptr_setVal] at hp
  rw [cells_setVal]
  split at hv
  · rename_i he; rw [← he, h] at hp; cases hp
  · exact hi i y c hv hp

theorem inStep_clear {s : Sharing α} (hi : InStep s) (w : Nat) : InStep (s.setPtr w none) := by
  by_cases hw : w < s.objs.length
  · intro i y c hv hp
    rw [val_setPtr] at hv
    rw [ptr_setPtr _ _ _ _ hw] at hp
    rw [cellVal_setPtr]
    split at hp
    · cases hp
    · exact hi i y c hv hp
  · simpa [Sharing.setPtr, hw] using hi

theorem ptr_clear (s : Sharing α) (w : Nat) : (s.setPtr w none).ptr w = none := by
  by_cases hw : w < s.objs.length
  · rw [ptr_setPtr _ _ _ _ hw, if_pos rfl]
  · simp [Sharing.setPtr, hw, Sharing.ptr]

theorem inStep_setShared {s : Sharing α} (hi : InStep s) (w : Nat) (hw : w < s.objs.length) (hv : s.val w = none)
    (q : Option Nat) : InStep (s.setPtr w q) := by
  intro i y c h hp
  rw [val_setPtr] at h
  rw [ptr_setPtr _ _ _ _ hw] at hp
  rw [cellVal_setPtr]
  split at hp
  · rename_i he; rw [← he, hv] at h; cases h
  · exact hi i y c h hp

theorem inStep_shareCell {s : Sharing α} (hc : Counted s) (hi : InStep s) (v : Nat) (x : α) (hx : s.val v = some x) :
    InStep (s.shareCell v x) := by
  cases hp : s.ptr v with
  | some c => rw [shareCell_again s v x c hp]; exact hi
  | none =>
    obtain ⟨h1, h2⟩ := shareCell_fresh s v x hx hp
    intro i y c hv hq
    rw [val_shareCell] at hv
    by_cases h : v = i
    · subst h
      rw [h1] at hq
      simp only [Option.some.injEq] at hq
      rw [← hq, h2, ← hv, hx]
    · rw [ptr_shareCell_ne s v x i hx h] at hq
      rw [cellVal_shareCell s v x c (hc.valid i c hq)]
      exact hi i y c hv hq

theorem inStep_step (moved : α → α) {s t : Sharing α} (hc : Counted s) (hi : InStep s) (op : ShareOp α) (hq : Calm s op)
    (h : s.step moved op = some t) : InStep t := by
  cases op with
  | decl x =>
    simp only [Sharing.step, Option.some.injEq] at h
    rw [← h]; exact inStep_push hi _ (fun _ _ _ h => by cases h)
  | copy v =>
    cases hv : s.val v with
    | none => simp [Sharing.step, hv] at h
    | some x =>
      simp only [Sharing.step, hv, Option.map_some, Option.some.injEq] at h
      rw [← h]
      exact inStep_push hi _ (fun y c hy hp => by simp only [Option.some.injEq] at hy; rw [← hy]; exact hi v x c hv hp)
  | move v =>
    cases hv : s.val v with
    | none => simp [Sharing.step, hv] at h
    | some x =>
      simp only [Sharing.step, hv, Option.map_some, Option.some.injEq] at h
      rw [← h]
      have hlt := lt_of_val s v x hv
      refine inStep_setVal (inStep_clear (inStep_push hi _ ?_) v) v ?_ _ (ptr_clear _ _)
      · intro y c hy hp
        simp only [Option.some.injEq] at hy
        rw [← hy]; exact hi v x c hv hp
      · rw [length_setPtr, length_push]; omega
  | assign w v =>
    cases hw : s.val w with
    | none => simp [Sharing.step, hw] at h
    | some y =>
      cases hv : s.val v with
      | none => simp [Sharing.step, hw, hv] at h
      | some x =>
        simp only [Sharing.step, hv, hw, Option.bind_some, Option.map_some, Option.some.injEq] at h
        rw [← h]
        exact inStep_set hi w (lt_of_val s w y hw) _ _ (fun z c hz hp => by
          simp only [Option.some.injEq] at hz; rw [← hz]; exact hi v x c hv hp)
  | moveAssign w v =>
    by_cases hwv : w = v
    · simp [Sharing.step, hwv] at h
    cases hw : s.val w with
    | none => simp [Sharing.step, hw] at h
    | some y =>
      cases hv : s.val v with
      | none => simp [Sharing.step, hw, hv] at h
      | some x =>
        simp only [Sharing.step, if_neg hwv, hv, hw, Option.bind_some, Option.map_some, Option.some.injEq] at h
        rw [← h]
        have hlt := lt_of_val s v x hv
        refine inStep_setVal (inStep_clear (inStep_set hi w (lt_of_val s w y hw) _ _ ?_) v) v ?_ _ (ptr_clear _ _)
        · intro z c hz hp
          simp only [Option.some.injEq] at hz; rw [← hz]; exact hi v x c hv hp
        · rw [length_setPtr, length_setPtr, length_setVal]; exact hlt
  | assignExpr v x o =>
    cases hv : s.val v with
    | none => simp [Sharing.step, hv] at h
    | some y =>
      simp only [Sharing.step, hv, Option.map_some, Option.some.injEq] at h
      rw [← h]
      cases o with
      | true => exact inStep_set hi v (lt_of_val s v y hv) _ _ (fun _ _ _ h => by cases h)
      | false => exact inStep_setVal hi v (lt_of_val s v y hv) _ hq
  | poke v x =>
    cases hv : s.val v with
    | none => simp [Sharing.step, hv] at h
    | some y =>
      simp only [Sharing.step, hv, Option.map_some, Option.some.injEq] at h
      rw [← h]
      exact inStep_setVal hi v (lt_of_val s v y hv) _ hq
  | share v =>
    rw [step_share] at h
    cases hv : s.val v with
    | none => simp [hv] at h
    | some x =>
      simp only [hv, Option.map_some, Option.some.injEq] at h
      rw [← h]
      exact inStep_push (inStep_shareCell hc hi v x hv) _ (fun _ _ h => by cases h)
  | copyShared g =>
    cases hg : s.ptr g with
    | none => simp [Sharing.step, hg] at h
    | some c =>
      simp only [Sharing.step, hg, Option.bind_some] at h
      split at h
      · simp only [Option.some.injEq] at h
        rw [← h]
        exact inStep_push hi _ (fun _ _ h => by cases h)
      · cases h
  | moveShared g =>
    cases hg : s.ptr g with
    | none => simp [Sharing.step, hg] at h
    | some c =>
      simp only [Sharing.step, hg, Option.bind_some] at h
      split at h
      · simp only [Option.some.injEq] at h
        rw [← h]
        exact inStep_clear (inStep_push hi _ (fun _ _ h => by cases h)) g
      · cases h
  | assignShared g k =>
    cases hg : s.ptr g with
    | none => simp [Sharing.step, hg] at h
    | some c =>
      simp only [Sharing.step, hg, Option.bind_some] at h
      split at h
      · rename_i hn
        simp only [Option.some.injEq] at h
        rw [← h]
        exact inStep_setShared hi g (lt_of_ptr s g c hg) (by simpa using hn.1) _
      · cases h
  | pokeShared g x => exact absurd hq (by simp [Calm])
  | drop i =>
    simp only [Sharing.step] at h
    split at h
    · rename_i hlt
      simp only [Option.some.injEq] at h
      rw [← h]
      exact inStep_setVal (inStep_clear hi i) i (by rw [length_setPtr]; exact hlt) _ (ptr_clear _ _)
    · cases h

theorem inStep_run (moved : α → α) : ∀ (ops : List (ShareOp α)) {s t : Sharing α}, Counted s → InStep s →
    Along moved Calm s ops → s.run moved ops = some t → InStep t
  | [], s, t, hc, hi, _, h => by
    simp only [Sharing.run, Option.some.injEq] at h
    rwa [← h]
  | op :: ops, s, t, hc, hi, ha, h => by
    simp only [Sharing.run] at h
    cases hs : s.step moved op with
    | none => simp [hs] at h
    | some u =>
      rw [hs] at h
      exact inStep_run moved ops (counted_step moved hc op hs) (inStep_step moved hc hi op ha.1 hs) (ha.2 u hs) h

/-- **C85 `share` reads the container.** After a program that writes through no shared expression and writes in place to no
container that was shared, a container that is there can be shared; the shared expression reads the value of the container,
however often and through whichever copies it was shared before; and the container keeps its value. -/
theorem C85_share_reads (moved : α → α) (ops : List (ShareOp α)) (s : Sharing α)
    (h : Sharing.start.run moved ops = some s) (hq : Along moved Calm Sharing.start ops) (v : Nat) (x : α)
    (hv : s.val v = some x) :
    ∃ t, s.step moved (.share v) = some t ∧ t.read s.objs.length = .ok x ∧ t.val v = some x := by
  have hc := counted_run moved ops counted_start h
  have hi : InStep s := inStep_run moved ops counted_start (fun i _ _ h => by simp [Sharing.val, Sharing.start] at h) hq h
  have hst : s.step moved (.share v) = some ((s.shareCell v x).push ⟨none, (s.shareCell v x).ptr v⟩) := by
    rw [step_share, hv]; rfl
  refine ⟨_, hst, ?_, ?_⟩
  · have hi' := inStep_shareCell hc hi v x hv
    have hp : ∃ c, (s.shareCell v x).ptr v = some c := by
      cases hp : s.ptr v with
      | some c => rw [shareCell_again s v x c hp]; exact ⟨c, hp⟩
      | none => exact ⟨_, (shareCell_fresh s v x hv hp).1⟩
    obtain ⟨c, hp⟩ := hp
    refine read_of_held (counted_step moved hc _ hst) _ c x ?_ ?_
    · rw [ptr_push, if_pos (length_shareCell s v x).symm, hp]
    · rw [cellVal_push]
      exact hi' v x c (by rw [val_shareCell, hv]) hp
  · rw [val_push, if_neg (by rw [length_shareCell]; exact Nat.ne_of_lt (lt_of_val s v x hv)), val_shareCell, hv]

example : Along id Calm Sharing.start
    [.decl 7, .share 0, .copy 0, .assignExpr 0 9 true, .decl 5, .moveAssign 2 3] ∧
    (Sharing.start.run id [.decl 7, .share 0, .copy 0, .assignExpr 0 9 true, .decl 5, .moveAssign 2 3, .share 0, .share 2]).map
      (fun (s : Sharing Nat) => (s.read 1, s.read 4, s.read 5)) = some (.ok 7, .ok 9, .ok 5) := by
  refine ⟨?_, by decide⟩
  refine ⟨trivial, fun t h => ?_⟩
  simp only [Sharing.step, Option.some.injEq] at h
  subst h
  refine ⟨trivial, fun t h => ?_⟩
  simp only [step_share, Sharing.push, Sharing.start, Sharing.val] at h
  simp at h
  subst h
  exact ⟨trivial, fun _ _ => ⟨trivial, fun _ _ => ⟨trivial, fun _ _ => ⟨trivial, fun _ _ => trivial⟩⟩⟩⟩

/-! ### What a shared expression keeps -/

/-- A step spares a shared expression. -/
theorem spared_step (moved : α → α) {s t : Sharing α} (hc : Counted s) (h c : Nat) (op : ShareOp α) (hq : Spares h s op)
    (hn : s.val h = none) (hp : s.ptr h = some c) (hs : s.step moved op = some t) :
    t.val h = none ∧ t.ptr h = some c ∧ cellVal t.cells c = cellVal s.cells c := by
  have hlt := lt_of_ptr s h c hp
  have hcl := hc.valid h c hp
  have ne : ∀ v x, s.val v = some x → v ≠ h := fun v x hv e => by rw [e, hn] at hv; cases hv
  cases op with
  | decl x =>
    simp only [Sharing.step, Option.some.injEq] at hs
    rw [← hs, val_push, ptr_push, cellVal_push, if_neg (by omega), if_neg (by omega)]
    exact ⟨hn, hp, rfl⟩
  | copy v =>
    cases hv : s.val v with
    | none => simp [Sharing.step, hv] at hs
    | some x =>
      simp only [Sharing.step, hv, Option.map_some, Option.some.injEq] at hs
      rw [← hs, val_push, ptr_push, cellVal_push, if_neg (by omega), if_neg (by omega)]
      exact ⟨hn, hp, rfl⟩
  | move v =>
    cases hv : s.val v with
    | none => simp [Sharing.step, hv] at hs
    | some x =>
      simp only [Sharing.step, hv, Option.map_some, Option.some.injEq] at hs
      have h1 := lt_of_val s v x hv
      rw [← hs, val_setVal _ _ _ _ (by rw [length_setPtr, length_push]; omega), ptr_setVal, cells_setVal, val_setPtr,
        ptr_setPtr _ _ _ _ (by rw [length_push]; omega), cellVal_setPtr, val_push, ptr_push, cellVal_push,
        if_neg (ne v x hv), if_neg (ne v x hv), if_neg (by omega), if_neg (by omega)]
      exact ⟨hn, hp, rfl⟩
  | assign w v =>
    cases hw : s.val w with
    | none => simp [Sharing.step, hw] at hs
    | some y =>
      cases hv : s.val v with
      | none => simp [Sharing.step, hw, hv] at hs
      | some x =>
        simp only [Sharing.step, hv, hw, Option.bind_some, Option.map_some, Option.some.injEq] at hs
        have h1 := lt_of_val s w y hw
        rw [← hs, val_setPtr, ptr_setPtr _ _ _ _ (by rw [length_setVal]; omega), cellVal_setPtr, cells_setVal,
          val_setVal _ _ _ _ h1, ptr_setVal, if_neg (ne w y hw), if_neg (ne w y hw)]
        exact ⟨hn, hp, rfl⟩
  | moveAssign w v =>
    by_cases hwv : w = v
    · simp [Sharing.step, hwv] at hs
    cases hw : s.val w with
    | none => simp [Sharing.step, hw] at hs
    | some y =>
      cases hv : s.val v with
      | none => simp [Sharing.step, hw, hv] at hs
      | some x =>
        simp only [Sharing.step, if_neg hwv, hv, hw, Option.bind_some, Option.map_some, Option.some.injEq] at hs
        have h1 := lt_of_val s w y hw
        have h2 := lt_of_val s v x hv
        rw [← hs, val_setVal _ _ _ _ (by rw [length_setPtr, length_setPtr, length_setVal]; omega), ptr_setVal, cells_setVal,
          val_setPtr, ptr_setPtr _ _ _ _ (by rw [length_setPtr, length_setVal]; omega), cellVal_setPtr,
          val_setPtr, ptr_setPtr _ _ _ _ (by rw [length_setVal]; omega), cellVal_setPtr, cells_setVal,
          val_setVal _ _ _ _ h1, ptr_setVal, if_neg (ne w y hw), if_neg (ne w y hw), if_neg (ne v x hv), if_neg (ne v x hv)]
        exact ⟨hn, hp, rfl⟩
  | assignExpr v x o =>
    cases hv : s.val v with
    | none => simp [Sharing.step, hv] at hs
    | some y =>
      simp only [Sharing.step, hv, Option.map_some, Option.some.injEq] at hs
      have h1 := lt_of_val s v y hv
      cases o with
      | true =>
        rw [if_pos rfl] at hs
        rw [← hs, val_setPtr, ptr_setPtr _ _ _ _ (by rw [length_setVal]; omega), cellVal_setPtr, cells_setVal,
          val_setVal _ _ _ _ h1, ptr_setVal, if_neg (ne v y hv), if_neg (ne v y hv)]
        exact ⟨hn, hp, rfl⟩
      | false =>
        rw [if_neg (by simp)] at hs
        rw [← hs, cells_setVal, val_setVal _ _ _ _ h1, ptr_setVal, if_neg (ne v y hv)]
        exact ⟨hn, hp, rfl⟩
  | poke v x =>
    cases hv : s.val v with
    | none => simp [Sharing.step, hv] at hs
    | some y =>
      simp only [Sharing.step, hv, Option.map_some, Option.some.injEq] at hs
      rw [← hs, cells_setVal, val_setVal _ _ _ _ (lt_of_val s v y hv), ptr_setVal, if_neg (ne v y hv)]
      exact ⟨hn, hp, rfl⟩
  | share v =>
    rw [step_share] at hs
    cases hv : s.val v with
    | none => simp [hv] at hs
    | some x =>
      simp only [hv, Option.map_some, Option.some.injEq] at hs
      rw [← hs, val_push, ptr_push, cellVal_push, length_shareCell, if_neg (by omega), if_neg (by omega), val_shareCell,
        ptr_shareCell_ne s v x h hv (ne v x hv), cellVal_shareCell s v x c hcl]
      exact ⟨hn, hp, rfl⟩
  | copyShared g =>
    cases hg : s.ptr g with
    | none => simp [Sharing.step, hg] at hs
    | some d =>
      simp only [Sharing.step, hg, Option.bind_some] at hs
      split at hs
      · simp only [Option.some.injEq] at hs
        rw [← hs, val_push, ptr_push, cellVal_push, if_neg (by omega), if_neg (by omega)]
        exact ⟨hn, hp, rfl⟩
      · cases hs
  | moveShared g =>
    cases hg : s.ptr g with
    | none => simp [Sharing.step, hg] at hs
    | some d =>
      simp only [Sharing.step, hg, Option.bind_some] at hs
      have h1 := lt_of_ptr s g d hg
      split at hs
      · simp only [Option.some.injEq] at hs
        rw [← hs, val_setPtr, ptr_setPtr _ _ _ _ (by rw [length_push]; omega), cellVal_setPtr, val_push, ptr_push,
          cellVal_push, if_neg hq, if_neg (by omega), if_neg (by omega)]
        exact ⟨hn, hp, rfl⟩
      · cases hs
  | assignShared g k =>
    cases hg : s.ptr g with
    | none => simp [Sharing.step, hg] at hs
    | some d =>
      simp only [Sharing.step, hg, Option.bind_some] at hs
      have h1 := lt_of_ptr s g d hg
      split at hs
      · simp only [Option.some.injEq] at hs
        rw [← hs, val_setPtr, ptr_setPtr _ _ _ _ h1, cellVal_setPtr, if_neg hq]
        exact ⟨hn, hp, rfl⟩
      · cases hs
  | pokeShared g x =>
    cases hg : s.ptr g with
    | none => simp [Sharing.step, hg] at hs
    | some d =>
      simp only [Sharing.step, hg, Option.bind_some] at hs
      split at hs
      · simp only [Option.some.injEq] at hs
        have hd : d ≠ c := fun e => hq (by rw [hg, hp, e])
        rw [← hs]
        refine ⟨hn, hp, ?_⟩
        simp only [cellVal, List.getElem?_modify, if_neg hd]
        simp
      · cases hs
  | drop i =>
    simp only [Sharing.step] at hs
    split at hs
    · rename_i hi
      simp only [Option.some.injEq] at hs
      rw [← hs, val_setVal _ _ _ _ (by rw [length_setPtr]; exact hi), ptr_setVal, cells_setVal, val_setPtr,
        ptr_setPtr _ _ _ _ hi, cellVal_setPtr, if_neg hq, if_neg hq]
      exact ⟨hn, hp, rfl⟩
    · cases hs

theorem spared_run (moved : α → α) (h c : Nat) : ∀ (ops : List (ShareOp α)) {s t : Sharing α}, Counted s →
    Along moved (Spares h) s ops → s.val h = none → s.ptr h = some c → s.run moved ops = some t →
    t.ptr h = some c ∧ cellVal t.cells c = cellVal s.cells c
  | [], s, t, _, _, _, hp, hr => by
    simp only [Sharing.run, Option.some.injEq] at hr
    rw [← hr]; exact ⟨hp, rfl⟩
  | op :: ops, s, t, hc, ha, hn, hp, hr => by
    simp only [Sharing.run] at hr
    cases hs : s.step moved op with
    | none => simp [hs] at hr
    | some u =>
      rw [hs] at hr
      obtain ⟨h1, h2, h3⟩ := spared_step moved hc h c op ha.1 hn hp hs
      obtain ⟨h4, h5⟩ := spared_run moved h c ops (counted_step moved hc op hs) (ha.2 u hs) h1 h2 hr
      exact ⟨h4, h5.trans h3⟩

/-- **C85 a shared expression keeps its value.** Whatever a program goes on to do with containers — the end of the one that
was shared included — and with other shared expressions, a shared expression reads the same, until it is itself
moved from, assigned or destroyed or something is written through a shared expression of the same object. -/
theorem C85_keeps (moved : α → α) (ops ops' : List (ShareOp α)) (s t : Sharing α)
    (h0 : Sharing.start.run moved ops = some s) (h1 : s.run moved ops' = some t) (h : Nat) (x : α)
    (hn : s.val h = none) (hr : s.read h = .ok x) (ha : Along moved (Spares h) s ops') : t.read h = .ok x := by
  have hc := counted_run moved ops counted_start h0
  have hc' := counted_run moved ops' hc h1
  cases hp : s.ptr h with
  | none => simp [Sharing.read, hp] at hr
  | some c =>
    obtain ⟨h2, h3⟩ := spared_run moved h c ops' hc ha hn hp h1
    refine read_of_held hc' h c x h2 (h3.trans ?_)
    simp only [Sharing.read, hp, Option.bind_some] at hr
    cases hcell : s.cells[c]? with
    | none => simp [hcell] at hr
    | some p =>
      obtain ⟨y, n⟩ := p
      cases n with
      | zero => simp [hcell] at hr
      | succ n => simp [hcell] at hr; simp [cellVal, hcell, hr]

example : ∃ s, Sharing.start.run id [.decl 7, .share 0] = some s ∧ s.val 1 = none ∧ s.read 1 = .ok 7 ∧
    (s.run id [.poke 0 5, .copyShared 1, .drop 0, .moveShared 2]).map (Sharing.read · 1) = some (.ok 7) :=
  ⟨_, rfl, by decide, by decide, by decide⟩

/-! ### What sharing leaves alone -/

theorem ofShared_val (moved : α → α) {s t : Sharing α} (op : ShareOp α) (ho : OfShared op) (hs : s.step moved op = some t)
    (v : Nat) : t.val v = s.val v := by
  have out : s.val s.objs.length = none := by simp [Sharing.val]
  have pushed : ∀ (u : Sharing α) (q : Option Nat), u.objs.length = s.objs.length → (∀ j, u.val j = s.val j) →
      (u.push ⟨none, q⟩).val v = s.val v := by
    intro u q hl hu
    rw [val_push]
    split
    · rename_i e; rw [e, hl, out]
    · exact hu v
  cases op with
  | share w =>
    rw [step_share] at hs
    cases hv : s.val w with
    | none => simp [hv] at hs
    | some x =>
      simp only [hv, Option.map_some, Option.some.injEq] at hs
      rw [← hs]
      exact pushed _ _ (length_shareCell s w x) (val_shareCell s w x)
  | copyShared g =>
    cases hg : s.ptr g with
    | none => simp [Sharing.step, hg] at hs
    | some d =>
      simp only [Sharing.step, hg, Option.bind_some] at hs
      split at hs
      · simp only [Option.some.injEq] at hs
        rw [← hs]; exact pushed s _ rfl (fun _ => rfl)
      · cases hs
  | moveShared g =>
    cases hg : s.ptr g with
    | none => simp [Sharing.step, hg] at hs
    | some d =>
      simp only [Sharing.step, hg, Option.bind_some] at hs
      split at hs
      · simp only [Option.some.injEq] at hs
        rw [← hs, val_setPtr]; exact pushed s _ rfl (fun _ => rfl)
      · cases hs
  | assignShared g k =>
    cases hg : s.ptr g with
    | none => simp [Sharing.step, hg] at hs
    | some d =>
      simp only [Sharing.step, hg, Option.bind_some] at hs
      split at hs
      · simp only [Option.some.injEq] at hs
        rw [← hs, val_setPtr]
      · cases hs
  | pokeShared g x =>
    cases hg : s.ptr g with
    | none => simp [Sharing.step, hg] at hs
    | some d =>
      simp only [Sharing.step, hg, Option.bind_some] at hs
      split at hs
      · simp only [Option.some.injEq] at hs
        rw [← hs]; rfl
      · cases hs
  | _ => exact absurd ho (by simp [OfShared])

/-- **C85 sharing is a copy.** `share` and `make_xshared` move nothing, and nothing that is done with shared expressions is
seen in a container. -/
theorem C85_containers_unchanged (moved : α → α) : ∀ (ops : List (ShareOp α)) (s t : Sharing α), s.run moved ops = some t →
    (∀ op ∈ ops, OfShared op) → ∀ v, t.val v = s.val v
  | [], s, t, h, _, v => by
    simp only [Sharing.run, Option.some.injEq] at h
    rw [h]
  | op :: ops, s, t, h, ho, v => by
    simp only [Sharing.run] at h
    cases hs : s.step moved op with
    | none => simp [hs] at h
    | some u =>
      rw [hs] at h
      rw [C85_containers_unchanged moved ops u t h (fun o hm => ho o (by simp [hm])) v,
        ofShared_val moved op (ho op (by simp)) hs v]

example : ∃ s, (⟨[⟨some 7, none⟩], []⟩ : Sharing Nat).run id [.share 0, .pokeShared 1 9, .share 0] = some s ∧
    s.val 0 = some 7 ∧ s.read 1 = .ok 9 ∧ s.read 2 = .ok 9 := ⟨_, rfl, by decide, by decide, by decide⟩

/-- **C85 counts of copies.** A container that was not shared before, shared once and the shared expression used `k` times:
`use_count` is `k + 2` — the pointer in the container counts too. -/
theorem C85_use_count (moved : α → α) (ops : List (ShareOp α)) (s : Sharing α) (h : Sharing.start.run moved ops = some s)
    (v : Nat) (x : α) (hv : s.val v = some x) (hp : s.ptr v = none) (k : Nat) :
    ∃ t, s.run moved (.share v :: List.replicate k (.copyShared s.objs.length)) = some t ∧
      t.useCount s.objs.length = k + 2 := by
  have hc := counted_run moved ops counted_start h
  obtain ⟨h1, -⟩ := shareCell_fresh s v x hv hp
  have hst : s.step moved (.share v) = some ((s.shareCell v x).push ⟨none, (s.shareCell v x).ptr v⟩) := by
    rw [step_share, hv]; rfl
  have hc1 := counted_step moved hc _ hst
  have hp1 : ((s.shareCell v x).push ⟨none, (s.shareCell v x).ptr v⟩).ptr s.objs.length = some s.cells.length := by
    rw [ptr_push, if_pos (length_shareCell s v x).symm, h1]
  have hv1 : ((s.shareCell v x).push ⟨none, (s.shareCell v x).ptr v⟩).val s.objs.length = none := by
    rw [val_push, if_pos (length_shareCell s v x).symm]
  have hn1 : cellCount ((s.shareCell v x).push ⟨none, (s.shareCell v x).ptr v⟩).cells s.cells.length = 2 := by
    have hlen : s.cells.length < (s.shareCell v x).cells.length := by
      simp only [Sharing.shareCell, hp, cellsLength_setPtr]; simp
    simp only [Sharing.push, h1]
    rw [cellCount_hold _ _ (fun c e => by simp only [Option.some.injEq] at e; omega), if_pos rfl]
    simp only [Sharing.shareCell, hp, Sharing.setPtr, if_pos (lt_of_val s v x hv)]
    rw [cellCount_release, cellCount_hold _ _ (fun c e => by simp only [Option.some.injEq] at e; simp [← e]), if_pos rfl]
    rw [show Sharing.ptr ({ s with cells := s.cells ++ [(x, 0)] } : Sharing α) v = none from hp]
    simp [cellCount]
  have copies : ∀ (k : Nat) (u : Sharing α), Counted u → u.ptr s.objs.length = some s.cells.length →
      u.val s.objs.length = none → s.objs.length < u.objs.length →
      ∃ t, u.run moved (List.replicate k (.copyShared s.objs.length)) = some t ∧
        t.useCount s.objs.length = k + cellCount u.cells s.cells.length := by
    intro k
    induction k with
    | zero =>
      intro u _ hu _ _
      exact ⟨u, rfl, by simp [Sharing.useCount, hu, cellCount]⟩
    | succ k ih =>
      intro u hcu hu hvu hlu
      have hs : u.step moved (.copyShared s.objs.length) = some (u.push ⟨none, some s.cells.length⟩) := by
        simp [Sharing.step, hu, hvu]
      obtain ⟨t, ht, hn⟩ := ih (u.push ⟨none, some s.cells.length⟩) (counted_step moved hcu _ hs)
        (by rw [ptr_push, if_neg (by omega), hu]) (by rw [val_push, if_neg (by omega), hvu])
        (by rw [length_push]; omega)
      refine ⟨t, ?_, ?_⟩
      · simp only [List.replicate_succ, Sharing.run, hs]; exact ht
      · rw [hn]
        simp only [Sharing.push]
        rw [cellCount_hold _ _ (fun c e => by
          simp only [Option.some.injEq] at e; rw [← e]; exact hcu.valid _ _ hu), if_pos rfl]
        omega
  obtain ⟨t, ht, hn⟩ := copies k _ hc1 hp1 hv1 (by rw [length_push, length_shareCell]; omega)
  refine ⟨t, ?_, ?_⟩
  · simp only [Sharing.run, hst]; exact ht
  · rw [hn, hn1]

/-! ### Where it fails -/

/-- **C85 (violated): a container written in place after it was shared.** `share` gives what the container held when it was
shared first: elements, `noalias`, `+=` of a scalar and `v = expression` where the expression does not refer to `v`. -/
theorem C85_stale_wrong (moved : α → α) (x y : α) (hne : x ≠ y) :
    (∃ s, Sharing.start.run moved [.decl x, .share 0, .poke 0 y, .share 0] = some s ∧ s.val 0 = some y ∧
      s.read 2 = .ok x ∧ s.read 2 ≠ .ok y) ∧
    (∃ s, Sharing.start.run moved [.decl x, .share 0, .assignExpr 0 y false, .share 0] = some s ∧ s.val 0 = some y ∧
      s.read 2 = .ok x ∧ s.read 2 ≠ .ok y) ∧
    ∃ s, Sharing.start.run moved [.decl x, .share 0, .assignExpr 0 y true, .share 0] = some s ∧ s.val 0 = some y ∧
      s.read 2 = .ok y := by
  have e : ∀ (r : Res α), r = .ok x → r ≠ .ok y := fun r h h' => hne (by rw [h] at h'; exact Res.ok.inj h')
  exact ⟨⟨_, rfl, rfl, rfl, e _ rfl⟩, ⟨_, rfl, rfl, rfl, e _ rfl⟩, ⟨_, rfl, rfl, rfl⟩⟩

/-- **C85 (violated): copies of a shared container.** A copy that was never shared gives, when it is, the object of the
original: the value of the original whatever was written to the copy, and a write through the one is read
through the other. -/
theorem C85_copies_wrong (moved : α → α) (x y z : α) :
    ∃ s, Sharing.start.run moved [.decl x, .share 0, .copy 0, .poke 2 y, .share 2] = some s ∧ s.val 2 = some y ∧
      s.read 3 = .ok x ∧ (s.run moved [.pokeShared 3 z]).map (Sharing.read · 1) = some (.ok z) :=
  ⟨_, rfl, rfl, rfl, rfl⟩

/-- **C85 (violated): writes through a shared expression.** They are not seen in the container. -/
theorem C85_writes_wrong (moved : α → α) (x y : α) :
    ∃ s, Sharing.start.run moved [.decl x, .share 0, .pokeShared 1 y] = some s ∧ s.val 0 = some x ∧ s.read 1 = .ok y :=
  ⟨_, rfl, rfl, rfl⟩

/-- **C85 (violated): a shared expression that was moved from** has no object: a read is undefined. -/
theorem C85_moved_wrong (moved : α → α) (x : α) :
    ∃ s, Sharing.start.run moved [.decl x, .share 0, .moveShared 1] = some s ∧ s.read 1 = .ub ∧ s.read 2 = .ok x :=
  ⟨_, rfl, rfl, rfl⟩

end Xt
