import Verif.Model.Holder
import Mathlib.Tactic.Common
/-!
# C86: holders of expressions

"Value semantic", says the comment at the class: a copy reads the same, and is independent unless a variable is referred to.
-/

namespace Xt
namespace Spec

variable {α : Type}

/-- Holders are copied from constant holders and moved, never copied from a holder that could be changed. -/
def ConstCopies (ops : List (HoldOp α)) : Prop := ∀ h, HoldOp.copyNamed h ∉ ops

/-- Two holders hold the same variable. -/
def SameVar (s : Holders α) (g h : Nat) : Prop := ∃ a, s.ptr g = some (some (.var a)) ∧ s.ptr h = some (some (.var a))

end Spec
open Spec

variable {α : Type}

/-- No holder refers to a holder. -/
def Direct (s : Holders α) : Prop := ∀ h g, s.ptr h ≠ some (some (.holder g))

theorem hptr_push (s : Holders α) (p : Option (Held α)) (j : Nat) :
    (s.push p).ptr j = if j = s.hs.length then some p else s.ptr j := by
  simp only [Holders.push, Holders.ptr]
  rcases Nat.lt_trichotomy j s.hs.length with h | h | h
  · rw [List.getElem?_append_left h, if_neg (by omega)]
  · subst h; simp
  · rw [List.getElem?_eq_none (by simp; omega), if_neg (by omega), List.getElem?_eq_none (by omega)]

theorem lt_of_hptr (s : Holders α) (h : Nat) (p : Option (Held α)) (hp : s.ptr h = some p) : h < s.hs.length := by
  by_contra hl
  rw [Holders.ptr, List.getElem?_eq_none (by omega)] at hp
  cases hp

theorem hptr_set (s : Holders α) (h : Nat) (p : Option (Held α)) (j : Nat) (hl : h < s.hs.length) :
    (s.set h p).ptr j = if h = j then some p else s.ptr j := by
  simp only [Holders.set, Holders.ptr, List.getElem?_set]
  split
  · simp
  · rfl

theorem hvar_set (s : Holders α) (a b : Nat) (x y : Jv α) (ha : s.varVal a = some y) :
    ({ s with vars := s.vars.set a (some x) } : Holders α).varVal b = if a = b then some x else s.varVal b := by
  have hl : a < s.vars.length := by
    by_contra hl
    rw [Holders.varVal, List.getElem?_eq_none (by omega)] at ha
    cases ha
  simp only [Holders.varVal, List.getElem?_set]
  split
  · simp
  · rfl

theorem clone_ok (p : Option (Held α)) (hp : p ≠ none) : cloneHeld p = .ok p := by
  cases p with
  | none => exact absurd rfl hp
  | some q => rfl

theorem direct_push {s : Holders α} (hd : Direct s) (p : Option (Held α)) (hp : ∀ g, p ≠ some (.holder g)) :
    Direct (s.push p) := by
  intro h g
  rw [hptr_push]
  split
  · intro e; exact hp g (Option.some.inj e)
  · exact hd h g

theorem direct_set {s : Holders α} (hd : Direct s) (k : Nat) (p : Option (Held α)) (hk : k < s.hs.length)
    (hp : ∀ g, p ≠ some (.holder g)) : Direct (s.set k p) := by
  intro h g
  rw [hptr_set _ _ _ _ hk]
  split
  · intro e; exact hp g (Option.some.inj e)
  · exact hd h g

theorem direct_of {s : Holders α} (hd : Direct s) (h : Nat) (p : Option (Held α)) (hp : s.ptr h = some p) :
    ∀ g, p ≠ some (.holder g) := fun g e => hd h g (by rw [hp, e])

theorem initPointer_direct (zero : α → α) : ∀ (j : Jv α) (p : Option (Held α)), initPointer zero j = .ok p →
    ∀ g, p ≠ some (.holder g)
  | .arr [], p, h, g => by simp [initPointer] at h
  | .arr (j :: l), p, h, g => by
    simp only [initPointer] at h
    exact initPointer_direct zero j p h g
  | .val x, p, h, g => by simp only [initPointer, Res.ok.injEq] at h; rw [← h]; simp
  | .null, p, h, g => by simp only [initPointer, Res.ok.injEq] at h; rw [← h]; simp

theorem direct_step (zero : α → α) {s t : Holders α} {b : Bool} (hd : Direct s) (op : HoldOp α)
    (hn : ∀ h, op ≠ .copyNamed h) (h : s.step zero op = .ok (t, b)) : Direct t := by
  cases op with
  | declVar x => simp only [Holders.step, Res.ok.injEq, Prod.mk.injEq] at h; rw [← h.1]; exact hd
  | setVar a x =>
    simp only [Holders.step] at h
    split at h
    · simp only [Res.ok.injEq, Prod.mk.injEq] at h; rw [← h.1]; exact hd
    · cases h
  | endVar a => simp only [Holders.step, Res.ok.injEq, Prod.mk.injEq] at h; rw [← h.1]; exact hd
  | empty => simp only [Holders.step, Res.ok.injEq, Prod.mk.injEq] at h; rw [← h.1]; exact direct_push hd _ (by simp)
  | hold a => simp only [Holders.step, Res.ok.injEq, Prod.mk.injEq] at h; rw [← h.1]; exact direct_push hd _ (by simp)
  | holdValue x =>
    simp only [Holders.step, Res.ok.injEq, Prod.mk.injEq] at h; rw [← h.1]; exact direct_push hd _ (by simp)
  | copyConst k =>
    simp only [Holders.step] at h
    cases hp : s.ptr k with
    | none => simp [hp] at h
    | some p =>
      cases p with
      | none => simp [hp, cloneHeld] at h
      | some q =>
        simp only [hp, cloneHeld, Res.map_ok, Res.ok.injEq, Prod.mk.injEq] at h
        rw [← h.1]; exact direct_push hd _ (direct_of hd k _ hp)
  | copyNamed k => exact absurd rfl (hn k)
  | move k =>
    simp only [Holders.step] at h
    cases hp : s.ptr k with
    | none => simp [hp] at h
    | some p =>
      simp only [hp, Res.ok.injEq, Prod.mk.injEq] at h
      rw [← h.1]
      have := lt_of_hptr s k p hp
      exact direct_set (direct_push hd _ (direct_of hd k _ hp)) k none (by simp [Holders.push]; omega) (by simp)
  | assign g k =>
    simp only [Holders.step] at h
    cases hg : s.ptr g with
    | none => simp [hg] at h
    | some r =>
      cases hp : s.ptr k with
      | none => simp [hg, hp] at h
      | some p =>
        cases p with
        | none => simp [hg, hp, cloneHeld] at h
        | some q =>
          simp only [hg, hp, cloneHeld, Res.map_ok, Res.ok.injEq, Prod.mk.injEq] at h
          rw [← h.1]; exact direct_set hd g _ (lt_of_hptr s g r hg) (direct_of hd k _ hp)
  | swap g k =>
    simp only [Holders.step] at h
    cases hg : s.ptr g with
    | none => simp [hg] at h
    | some r =>
      cases hp : s.ptr k with
      | none => simp [hg, hp] at h
      | some p =>
        simp only [hg, hp, Res.ok.injEq, Prod.mk.injEq] at h
        rw [← h.1]
        exact direct_set (direct_set hd g _ (lt_of_hptr s g r hg) (direct_of hd k _ hp)) k _
          (by simp [Holders.set]; exact lt_of_hptr s k p hp) (direct_of hd g _ hg)
  | fromJson k j =>
    simp only [Holders.step, Holders.fromJson] at h
    cases j with
    | null => simp only [Res.ok.injEq, Prod.mk.injEq] at h; rw [← h.1]; exact hd
    | val x => simp only [Res.ok.injEq, Prod.mk.injEq] at h; rw [← h.1]; exact hd
    | arr l =>
      cases hp : s.ptr k with
      | none => simp [hp] at h
      | some p =>
        have hk := lt_of_hptr s k p hp
        cases p with
        | none =>
          simp only [hp] at h
          cases hi : initPointer zero (.arr l) with
          | ok q =>
            simp only [hi, Res.map_ok, Res.ok.injEq] at h
            cases q with
            | none => simp only [Prod.mk.injEq] at h; rw [← h.1]; exact hd
            | some q =>
              simp only [Prod.mk.injEq] at h
              rw [← h.1]
              exact direct_set hd k _ hk (initPointer_direct zero _ _ hi)
          | throws => simp [hi] at h
          | ub => simp [hi] at h
        | some q =>
          cases q with
          | own x =>
            simp only [hp, Res.ok.injEq, Prod.mk.injEq] at h
            rw [← h.1]; exact direct_set hd k _ hk (by simp)
          | var a =>
            simp only [hp] at h
            split at h
            · simp only [Res.ok.injEq, Prod.mk.injEq] at h
              rw [← h.1]; exact hd
            · cases h
          | holder g => exact absurd hp (hd k g)
  | endHolder k =>
    simp only [Holders.step, Res.ok.injEq, Prod.mk.injEq] at h
    rw [← h.1]
    intro i g
    simp only [Holders.ptr, List.getElem?_set]
    split
    · split <;> simp
    · exact hd i g

theorem direct_run (zero : α → α) : ∀ (ops : List (HoldOp α)) {s t : Holders α}, Direct s → ConstCopies ops →
    s.run zero ops = .ok t → Direct t
  | [], s, t, hd, _, h => by
    simp only [Holders.run, Res.ok.injEq] at h
    rwa [← h]
  | op :: ops, s, t, hd, hn, h => by
    simp only [Holders.run] at h
    cases hs : s.step zero op with
    | ok r =>
      rw [hs] at h
      exact direct_run zero ops (direct_step zero hd op (fun k e => hn k (by simp [e])) (b := r.2) hs)
        (fun k hm => hn k (by simp [hm])) h
    | throws => simp [hs] at h
    | ub => simp [hs] at h

theorem direct_start : Direct (Holders.start : Holders α) := fun h g => by simp [Holders.ptr, Holders.start]

/-- What a pointer that is no holder's reads. -/
def Holders.look (s : Holders α) : Option (Option (Held α)) → Res (Option (Jv α))
  | none => .ub
  | some none => .ok none
  | some (some (.own x)) => .ok (some x)
  | some (some (.var a)) => match s.varVal a with
    | some x => .ok (some x)
    | none => .ub
  | some (some (.holder _)) => .ub

theorem read_direct {s : Holders α} (hd : Direct s) (h : Nat) : s.read h = s.look (s.ptr h) := by
  cases hp : s.ptr h with
  | none => simp [Holders.read, Holders.toJson, Holders.look, hp]
  | some p =>
    cases p with
    | none => simp [Holders.read, Holders.toJson, Holders.look, hp]
    | some q =>
      cases q with
      | own x => simp [Holders.read, Holders.toJson, Holders.look, hp]
      | var a =>
        simp only [Holders.read, Holders.toJson, Holders.look, hp]
        cases s.varVal a <;> rfl
      | holder g => exact absurd hp (hd h g)

theorem look_congr (s t : Holders α) (h : ∀ a, t.varVal a = s.varVal a) (p : Option (Option (Held α))) :
    t.look p = s.look p := by
  cases p with
  | none => rfl
  | some p =>
    cases p with
    | none => rfl
    | some q =>
      cases q with
      | own x => rfl
      | var a => simp only [Holders.look, h a]
      | holder g => rfl

variable (zero : α → α)

/-- What a program reaches. -/
def Reached (s : Holders α) : Prop := ∃ ops : List (HoldOp α), ConstCopies ops ∧ Holders.start.run zero ops = .ok s

theorem Reached.direct {zero : α → α} {s : Holders α} (h : Reached zero s) : Direct s := by
  obtain ⟨ops, hn, hr⟩ := h
  exact direct_run zero ops direct_start hn hr

/-- **C86 copies.** A copy of a holder that is not empty reads what the holder reads, and no other holder and no variable
changes. -/
theorem C86_copy (s : Holders α) (hs : Reached zero s) (h : Nat) (x : Jv α) (hr : s.read h = .ok (some x)) :
    ∃ t, s.step zero (.copyConst h) = .ok (t, false) ∧ t.read s.hs.length = .ok (some x) ∧
      (∀ g, g ≠ s.hs.length → t.read g = s.read g) ∧ ∀ a, t.varVal a = s.varVal a := by
  have hd := hs.direct
  rw [read_direct hd] at hr
  cases hp : s.ptr h with
  | none => simp [hp, Holders.look] at hr
  | some p =>
    have hne : p ≠ none := fun e => by simp [hp, e, Holders.look] at hr
    have hst : s.step zero (.copyConst h) = .ok (s.push p, false) := by
      simp only [Holders.step, hp, clone_ok p hne, Res.map_ok]
    have hd' := direct_push hd p (direct_of hd h p hp)
    have hv : ∀ a, (s.push p).varVal a = s.varVal a := fun _ => rfl
    refine ⟨_, hst, ?_, fun g hg => ?_, hv⟩
    · rw [read_direct hd', hptr_push, if_pos rfl, look_congr s _ hv, ← hp, hr]
    · rw [read_direct hd', read_direct hd, hptr_push, if_neg hg, look_congr s _ hv]

/-- **C86 moves.** The new holder reads what the old one read, the old one is empty. -/
theorem C86_move (s : Holders α) (hs : Reached zero s) (h : Nat) (r : Option (Jv α)) (hr : s.read h = .ok r) :
    ∃ t, s.step zero (.move h) = .ok (t, false) ∧ t.read s.hs.length = .ok r ∧ t.read h = .ok none ∧
      (∀ g, g ≠ s.hs.length → g ≠ h → t.read g = s.read g) ∧ ∀ a, t.varVal a = s.varVal a := by
  have hd := hs.direct
  rw [read_direct hd] at hr
  cases hp : s.ptr h with
  | none => simp [hp, Holders.look] at hr
  | some p =>
    have hl := lt_of_hptr s h p hp
    have hl' : h < (s.push p).hs.length := by simp [Holders.push]; omega
    have hst : s.step zero (.move h) = .ok ((s.push p).set h none, false) := by simp only [Holders.step, hp]
    have hd' := direct_set (direct_push hd p (direct_of hd h p hp)) h none hl' (by simp)
    have hv : ∀ a, ((s.push p).set h none).varVal a = s.varVal a := fun _ => rfl
    refine ⟨_, hst, ?_, ?_, fun g hg hgh => ?_, hv⟩
    · rw [read_direct hd', hptr_set _ _ _ _ hl', if_neg (by omega), hptr_push, if_pos rfl, look_congr s _ hv, ← hp, hr]
    · rw [read_direct hd', hptr_set _ _ _ _ hl', if_pos rfl]; rfl
    · rw [read_direct hd', read_direct hd, hptr_set _ _ _ _ hl', if_neg (fun e => hgh e.symm), hptr_push, if_neg hg,
        look_congr s _ hv]

/-- **C86 assignment.** `g = h` makes `g` read what `h` reads, and changes nothing else; `h = h` changes nothing. -/
theorem C86_assign (s : Holders α) (hs : Reached zero s) (g h : Nat) (r : Option (Jv α)) (x : Jv α)
    (hg : s.read g = .ok r) (hr : s.read h = .ok (some x)) :
    ∃ t, s.step zero (.assign g h) = .ok (t, false) ∧ t.read g = .ok (some x) ∧
      (∀ k, k ≠ g → t.read k = s.read k) ∧ ∀ a, t.varVal a = s.varVal a := by
  have hd := hs.direct
  rw [read_direct hd] at hr hg
  cases hpg : s.ptr g with
  | none => simp [hpg, Holders.look] at hg
  | some q =>
    cases hp : s.ptr h with
    | none => simp [hp, Holders.look] at hr
    | some p =>
      have hne : p ≠ none := fun e => by simp [hp, e, Holders.look] at hr
      have hl := lt_of_hptr s g q hpg
      have hst : s.step zero (.assign g h) = .ok (s.set g p, false) := by
        simp only [Holders.step, hp, hpg, clone_ok p hne, Res.map_ok]
      have hd' := direct_set hd g p hl (direct_of hd h p hp)
      have hv : ∀ a, (s.set g p).varVal a = s.varVal a := fun _ => rfl
      refine ⟨_, hst, ?_, fun k hk => ?_, hv⟩
      · rw [read_direct hd', hptr_set _ _ _ _ hl, if_pos rfl, look_congr s _ hv, ← hp, hr]
      · rw [read_direct hd', read_direct hd, hptr_set _ _ _ _ hl, if_neg (fun e => hk e.symm), look_congr s _ hv]

/-- **C86 swaps.** Move assignment and `swap` exchange what two holders read. -/
theorem C86_swap (s : Holders α) (hs : Reached zero s) (g h : Nat) (r r' : Option (Jv α))
    (hg : s.read g = .ok r) (hr : s.read h = .ok r') :
    ∃ t, s.step zero (.swap g h) = .ok (t, false) ∧ t.read g = .ok r' ∧ t.read h = .ok r ∧
      (∀ k, k ≠ g → k ≠ h → t.read k = s.read k) ∧ ∀ a, t.varVal a = s.varVal a := by
  have hd := hs.direct
  rw [read_direct hd] at hr hg
  cases hpg : s.ptr g with
  | none => simp [hpg, Holders.look] at hg
  | some q =>
    cases hp : s.ptr h with
    | none => simp [hp, Holders.look] at hr
    | some p =>
      have hl := lt_of_hptr s g q hpg
      have hl' : h < (s.set g p).hs.length := by simp [Holders.set]; exact lt_of_hptr s h p hp
      have hst : s.step zero (.swap g h) = .ok ((s.set g p).set h q, false) := by simp only [Holders.step, hp, hpg]
      have hd' := direct_set (direct_set hd g p hl (direct_of hd h p hp)) h q hl' (direct_of hd g q hpg)
      have hv : ∀ a, ((s.set g p).set h q).varVal a = s.varVal a := fun _ => rfl
      have hgl : s.look (some q) = .ok r := by rw [← hpg]; exact hg
      have hhl : s.look (some p) = .ok r' := by rw [← hp]; exact hr
      refine ⟨_, hst, ?_, ?_, fun k hk hk' => ?_, hv⟩
      · rw [read_direct hd', hptr_set _ _ _ _ hl', look_congr s _ hv]
        split
        · rename_i e
          rw [← e, hp] at hpg
          rw [← Option.some.inj hpg]; exact hhl
        · rw [hptr_set _ _ _ _ hl, if_pos rfl]; exact hhl
      · rw [read_direct hd', hptr_set _ _ _ _ hl', if_pos rfl, look_congr s _ hv]; exact hgl
      · rw [read_direct hd', read_direct hd, hptr_set _ _ _ _ hl', if_neg (fun e => hk' e.symm), hptr_set _ _ _ _ hl,
          if_neg (fun e => hk e.symm), look_congr s _ hv]

/-- **C86 `from_json`.** A holder that is not empty reads the document it was given; another holder changes only if
both hold the same variable, and a variable only if the holder holds it. -/
theorem C86_from_json (s : Holders α) (hs : Reached zero s) (h : Nat) (x : Jv α) (hr : s.read h = .ok (some x))
    (l : List (Jv α)) :
    ∃ t, s.step zero (.fromJson h (.arr l)) = .ok (t, false) ∧ t.read h = .ok (some (.arr l)) ∧
      (∀ g, g ≠ h → ¬SameVar s g h → t.read g = s.read g) ∧
      (∀ g, SameVar s g h → t.read g = .ok (some (.arr l))) ∧
      ∀ a, s.ptr h ≠ some (some (.var a)) → t.varVal a = s.varVal a := by
  have hd := hs.direct
  rw [read_direct hd] at hr
  cases hp : s.ptr h with
  | none => simp [hp, Holders.look] at hr
  | some p =>
    have hl := lt_of_hptr s h p hp
    cases p with
    | none => simp [hp, Holders.look] at hr
    | some q =>
      cases q with
      | own y =>
        have hst : s.step zero (.fromJson h (.arr l)) = .ok (s.set h (some (.own (.arr l))), false) := by
          simp only [Holders.step, Holders.fromJson, hp]
        have hd' := direct_set hd h (some (.own (.arr l))) hl (by simp)
        have hv : ∀ a, (s.set h (some (.own (.arr l)))).varVal a = s.varVal a := fun _ => rfl
        refine ⟨_, hst, ?_, fun g hg _ => ?_, fun g hg => ?_, fun a _ => rfl⟩
        · rw [read_direct hd', hptr_set _ _ _ _ hl, if_pos rfl]; rfl
        · rw [read_direct hd', read_direct hd, hptr_set _ _ _ _ hl, if_neg (fun e => hg e.symm), look_congr s _ hv]
        · obtain ⟨a, -, ha⟩ := hg
          rw [hp] at ha; cases ha
      | var a =>
        cases hva : s.varVal a with
        | none => simp [hp, Holders.look, hva] at hr
        | some y =>
          have hst : s.step zero (.fromJson h (.arr l)) = .ok ({ s with vars := s.vars.set a (some (.arr l)) }, false) := by
            simp only [Holders.step, Holders.fromJson, hp, hva]
          have hd' : Direct ({ s with vars := s.vars.set a (some (.arr l)) } : Holders α) := hd
          have hpt : ∀ g, ({ s with vars := s.vars.set a (some (.arr l)) } : Holders α).ptr g = s.ptr g := fun _ => rfl
          have same : ∀ g, s.ptr g = some (some (.var a)) →
              ({ s with vars := s.vars.set a (some (.arr l)) } : Holders α).read g = .ok (some (.arr l)) := by
            intro g hg
            rw [read_direct hd', hpt, hg]
            simp only [Holders.look, hvar_set s a a (.arr l) y hva, if_true]
          refine ⟨_, hst, same h hp, fun g hg hn => ?_, fun g hg => ?_, fun b hb => ?_⟩
          · rw [read_direct hd', read_direct hd, hpt]
            cases hpg : s.ptr g with
            | none => rfl
            | some r =>
              cases r with
              | none => rfl
              | some r =>
                cases r with
                | own z => rfl
                | var b =>
                  have hab : a ≠ b := fun e => hn ⟨a, by rw [hpg, e], hp⟩
                  simp only [Holders.look, hvar_set s a b (.arr l) y hva, if_neg hab]
                | holder k => exact absurd hpg (hd g k)
          · obtain ⟨b, hb, hb'⟩ := hg
            rw [hp] at hb'
            simp only [Option.some.injEq, Held.var.injEq] at hb'
            exact same g (by rw [hb, hb'])
          · rw [hvar_set s a b (.arr l) y hva, if_neg (fun e => hb (by rw [e]))]
      | holder k => exact absurd hp (hd h k)

example : ∃ s : Holders Nat, Reached id s ∧ s.read 0 = .ok (some (.arr [.val 1, .val 2])) ∧ s.read 1 = .ok (some (.val 5)) ∧
    s.read 2 = .ok (some (.val 5)) ∧ s.read 3 = .ok none ∧ SameVar s 1 2 :=
  ⟨_, ⟨[.declVar (.val 5), .holdValue (.arr [.val 1, .val 2]), .hold 0, .copyConst 1, .empty],
    by intro h; simp, rfl⟩, rfl, rfl, rfl, rfl, ⟨0, rfl, rfl⟩⟩

/-! ### Where it fails -/

/-- **C86 (violated): a copy of a holder that is not constant** refers to the holder: what is stored through the copy is
read through the original, and a copy that outlives the original cannot be read. -/
theorem C86_copy_named_wrong (x : Jv α) (l : List (Jv α)) :
    (∃ s, Holders.start.run zero [.holdValue x, .copyNamed 0, .fromJson 1 (.arr l)] = .ok s ∧
      s.read 0 = .ok (some (.arr l))) ∧
    ∃ s, Holders.start.run zero [.holdValue x, .copyNamed 0, .endHolder 0] = .ok s ∧ s.read 1 = .ub :=
  ⟨⟨_, rfl, rfl⟩, ⟨_, rfl, rfl⟩⟩

/-- **C86 (violated): the copy assigned back.** `auto g = h; h = g;` makes `h` refer to itself: reading it never ends. -/
theorem C86_copy_back_wrong (x : Jv α) :
    ∃ s, Holders.start.run zero [.holdValue x, .copyNamed 0, .assign 0 1] = .ok s ∧ (∀ n, s.toJson n 0 = .ub) ∧
      ∀ n, s.toJson n 1 = .ub := by
  refine ⟨⟨[], [some (some (.holder 0)), some (some (.holder 0))]⟩, rfl, fun n => ?_, fun n => ?_⟩
  · induction n with
    | zero => rfl
    | succ n ih => exact ih
  · cases n with
    | zero => rfl
    | succ n =>
      show Holders.toJson _ n 0 = .ub
      induction n with
      | zero => rfl
      | succ n ih => exact ih

/-- **C86 (violated): an empty holder** cannot be copied, although it can be moved. -/
theorem C86_copy_empty_wrong :
    (Holders.start : Holders α).run zero [.empty, .copyConst 0] = .ub ∧
    (Holders.start : Holders α).run zero [.empty, .empty, .assign 0 1] = .ub ∧
    ∃ s, (Holders.start : Holders α).run zero [.empty, .move 0] = .ok s ∧ s.read 1 = .ok none := ⟨rfl, rfl, _, rfl, rfl⟩

/-- **C86 (violated): `from_json` into an empty holder** never succeeds: every document is refused with an exception, or
read past the end of an empty list.  The second attempt succeeds when the first element is a number. -/
theorem C86_from_json_empty_wrong (j : Jv α) :
    (∀ t b, (⟨[], [some none]⟩ : Holders α).step zero (.fromJson 0 j) = .ok (t, b) → b = true) ∧
    (⟨[], [some none]⟩ : Holders α).step zero (.fromJson 0 (.arr [])) = .ub ∧
    ∀ x l, ∃ s, (Holders.start : Holders α).run zero [.empty, .fromJson 0 (.arr (.val x :: l))] = .ok s ∧
      s.read 0 = .ok (some (.val (zero x))) ∧
      ∃ t, s.step zero (.fromJson 0 (.arr (.val x :: l))) = .ok (t, false) ∧ t.read 0 = .ok (some (.arr (.val x :: l))) := by
  refine ⟨fun t b h => ?_, rfl, fun x l => ⟨_, rfl, rfl, _, rfl, rfl⟩⟩
  cases j with
  | null => simp only [Holders.step, Holders.fromJson, Res.ok.injEq, Prod.mk.injEq] at h; exact h.2.symm
  | val x => simp only [Holders.step, Holders.fromJson, Res.ok.injEq, Prod.mk.injEq] at h; exact h.2.symm
  | arr l =>
    simp only [Holders.step, Holders.fromJson, Holders.ptr, List.getElem?_cons_zero, Option.join_some] at h
    cases hi : initPointer zero (.arr l) with
    | ok q =>
      simp only [hi, Res.map_ok, Res.ok.injEq] at h
      cases q with
      | none => simp only [Prod.mk.injEq] at h; exact h.2.symm
      | some q => simp only [Prod.mk.injEq] at h; exact h.2.symm
    | throws => simp [hi] at h
    | ub => simp [hi] at h

end Xt
