import Verif.Model.SvectorHeap
import Verif.Props.Svector
import Verif.Props.Storage
import Verif.Props.Optional
/-!
# C102: small vectors own their memory, also when there is none to be had

Programs construct, copy, move, exchange, change and destroy small vectors, and go on after exceptions.
-/

namespace Xt
open Spec

variable {α : Type}

/-! ### The vector and its block -/

/-- The vector `v`, its block in the heap `h` counted, is what Model/Svector.lean calls `s`. -/
structure IsVec (a N : Nat) (h : List (Block α)) (v : HVec α) (s : SVec (Option α)) : Prop where
  alloc : v.alloc = a
  cap : v.cap = s.cells.length
  size : v.size = s.size
  wf : s.WF N
  inl : v.block = none → s.onStack = true ∧ v.inl = s.cells
  heap : ∀ p, v.block = some p → s.onStack = false ∧ h[p]? = some ⟨a, s.cells, true⟩

/-- The heap changed from `h` to `h'` by someone who owned the block `o` and now owns `o'`. -/
structure Changed (h h' : List (Block α)) (o o' : Option Nat) : Prop where
  grows : h.length ≤ h'.length
  same : ∀ p, p < h.length → o ≠ some p → h'[p]? = h[p]?
  new : ∀ p, o' = some p → o = some p ∨ h.length ≤ p
  live : ∀ (p : Nat) b, h'[p]? = some b → b.live = true → o' = some p ∨ (h[p]? = some b ∧ o ≠ some p)

theorem Changed.trans {h h1 h2 : List (Block α)} {o o1 o2 : Option Nat} (A : Changed h h1 o o1)
    (B : Changed h1 h2 o1 o2) : Changed h h2 o o2 := by
  have hg := A.grows
  refine ⟨by have := B.grows; omega, ?_, ?_, ?_⟩
  · intro p hp ho
    have h1p : o1 ≠ some p := by
      intro hc
      rcases A.new p hc with h | h
      · exact ho h
      · omega
    rw [B.same p (by omega) h1p, A.same p hp ho]
  · intro p hp
    rcases B.new p hp with h | h
    · exact A.new p h
    · exact Or.inr (by omega)
  · intro p b hb hl
    rcases B.live p b hb hl with h | ⟨h, hn⟩
    · exact Or.inl h
    · rcases A.live p b h hl with h' | h'
      · exact absurd h' hn
      · exact Or.inr h'

theorem Changed.refl {h : List (Block α)} {o : Option Nat}
    (ho : ∀ p, o = some p → ∃ b : Block α, h[p]? = some b) : Changed h h o o := by
  refine ⟨le_refl _, fun _ _ _ => rfl, fun p hp => Or.inl hp, ?_⟩
  intro p b hb _
  by_cases hp : o = some p
  · exact Or.inl hp
  · exact Or.inr ⟨hb, hp⟩

theorem IsVec.view {a N : Nat} {h : List (Block α)} {v : HVec α} {s : SVec (Option α)} (H : IsVec a N h v s) :
    v.view h = .ok s := by
  unfold HVec.view
  cases hb : v.block with
  | none =>
    obtain ⟨h1, h2⟩ := H.inl hb
    simp only []
    rw [if_pos (by rw [H.cap, h2]), h2, H.size, ← h1]
  | some p =>
    obtain ⟨h1, h2⟩ := H.heap p hb
    simp only [blockCells_eq h2, Res.bind_ok]
    rw [if_pos H.cap, H.size, ← h1]

/-- Only the block of the vector matters. -/
theorem IsVec.frame {a N : Nat} {h h' : List (Block α)} {v : HVec α} {s : SVec (Option α)} (H : IsVec a N h v s)
    (hh : ∀ p, v.block = some p → h'[p]? = h[p]?) : IsVec a N h' v s :=
  ⟨H.alloc, H.cap, H.size, H.wf, H.inl, fun p hp => by rw [hh p hp]; exact H.heap p hp⟩

theorem IsVec.lt {a N : Nat} {h : List (Block α)} {v : HVec α} {s : SVec (Option α)} (H : IsVec a N h v s) {p : Nat}
    (hp : v.block = some p) : p < h.length := lt_of_getElem? (H.heap p hp).2

/-- New cells in the same block. -/
theorem IsVec.store {a N : Nat} {h : List (Block α)} {v : HVec α} {s s' : SVec (Option α)} (H : IsVec a N h v s)
    (hw : s'.WF N) (hs : s'.onStack = s.onStack) (hl : s'.cells.length = s.cells.length) :
    IsVec a N (v.store h s').1 (v.store h s').2 s' ∧ (v.store h s').2.block = v.block ∧
      Changed h (v.store h s').1 v.block v.block ∧ (s.onStack = true → (v.store h s').1 = h) := by
  unfold HVec.store
  cases hb : v.block with
  | none =>
    obtain ⟨h1, h2⟩ := H.inl hb
    simp only []
    refine ⟨⟨H.alloc, by simp [H.cap, hl], rfl, hw, fun _ => ⟨by rw [hs, h1], rfl⟩, ?_⟩, trivial, ?_, fun _ => trivial⟩
    · intro p hp
      simp at hp
    · exact Changed.refl (by simp)
  | some p =>
    obtain ⟨h1, h2⟩ := H.heap p hb
    have hlt := H.lt hb
    simp only [setCells_eq _ h2]
    refine ⟨⟨H.alloc, by simp [H.cap, hl], rfl, hw, by simp, ?_⟩, trivial, ⟨by simp, ?_, fun q hq => Or.inl hq, ?_⟩, ?_⟩
    · intro q hq
      simp only [Option.some.injEq] at hq
      subst hq
      exact ⟨by rw [hs, h1], by simp [hlt]⟩
    · intro q hq hne
      rw [List.getElem?_set_ne (by rintro rfl; exact hne rfl)]
    · intro q b hq hl
      by_cases hpq : p = q
      · subst hpq
        exact Or.inl rfl
      · rw [List.getElem?_set_ne hpq] at hq
        exact Or.inr ⟨hq, by simpa using hpq⟩
    · rw [h1]
      simp

theorem uninitializedCopy_prefix (e : StoreEnv α) {h : List (Block α)} {p a : Nat} {c : List (Option α)}
    (hp : h[p]? = some ⟨a, c, true⟩) (xs : List (Option α)) (hl : xs.length ≤ c.length)
    (hc : e.trivial = true ∨ ∀ x ∈ c, x = none) :
    uninitializedCopy e h p xs = .ok (h.set p ⟨a, xs ++ c.drop xs.length, true⟩) := by
  unfold uninitializedCopy
  rw [cellLoop_cells hp _ (fun i => xs.getD i none) xs.length (by omega)]
  · rw [range_map_getD]
  · intro i hi h' c' h1 h2
    have hi' : i < c.length := by omega
    simp only [constructAt, blockCells_eq h1, Res.bind_ok, h2, List.getElem?_eq_getElem hi']
    rw [setCells_eq _ h1]
    rcases hc with hc | hc
    · cases c[i] <;> simp [hc]
    · rw [hc c[i] (List.getElem_mem hi')]

/-- Growing, with memory and for a trivial type: the elements are in a new block, the old block is gone. -/
theorem growHeap_spec {e : StoreEnv α} (ht : e.trivial = true) {a N : Nat} {h : List (Block α)} {v : HVec α}
    {s : SVec (Option α)} (H : IsVec a N h v s) (m : Nat) (hm : N ≤ m ∨ N ≤ 2 * s.size + 1) :
    ∃ h' v', growHeap e h v m = .ok (h', v') ∧ IsVec a N h' v' (s.grow (fun _ => none) m) ∧
      Changed h h' v.block v'.block := by
  have hf := H.wf.fits
  have hz := H.size
  obtain ⟨hgw, -, -, -, -, -⟩ := grow_spec (fun _ => none) H.wf m hm
  unfold growHeap
  simp only [H.view, Res.bind_ok]
  generalize hn : (if 2 * v.size + 1 < m then m else 2 * v.size + 1) = n
  have hns : s.size ≤ n := by
    rw [← hn]
    split_ifs <;> omega
  have hlen : s.toList.length = s.size := SVec.length_toList H.wf
  have hp : (h ++ [(⟨v.alloc, List.replicate n none, true⟩ : Block α)])[h.length]? =
      some ⟨v.alloc, List.replicate n none, true⟩ := by simp
  simp only [allocate]
  rw [uninitializedCopy_prefix e hp s.toList (by simp; omega) (Or.inl ht)]
  simp only [Res.bind_ok, append_set_length]
  have hcells : s.toList ++ (List.replicate n (none : Option α)).drop s.toList.length =
      (s.grow (fun _ => none) m).cells := by
    simp only [SVec.grow, SVec.toList, ← hz, hn]
    rw [← hz] at hlen
    simp only [SVec.toList] at hlen
    rw [hz] at hlen ⊢
    rw [hlen, List.drop_replicate]
    congr 1
    apply List.ext_getElem?
    intro i
    by_cases hi : i < n - s.size
    · simp [hi]
    · rw [List.getElem?_eq_none (by simpa using hi), List.getElem?_eq_none (by simpa using hi)]
  have hcl : (s.grow (fun _ => none) m).cells.length = n := by
    rw [← hcells]
    simp [hlen]
    omega
  rw [hcells, H.alloc]
  generalize hg : s.grow (fun _ => none) m = g at *
  have hgs : g.onStack = false := by rw [← hg]; rfl
  have hgz : g.size = s.size := by rw [← hg]; rfl
  cases hb : v.block with
  | none =>
    refine ⟨_, _, rfl, ⟨rfl, hcl.symm, by rw [hgz]; exact hz, hgw, by simp, ?_⟩, ⟨by simp, ?_, ?_, ?_⟩⟩
    · intro p hp
      simp only [Option.some.injEq] at hp
      subst hp
      exact ⟨hgs, by simp⟩
    · intro p hp _
      rw [List.getElem?_append_left hp]
    · intro p hp
      simp only [Option.some.injEq] at hp
      exact Or.inr (by omega)
    · intro p b hb' _
      by_cases hpl : p < h.length
      · rw [List.getElem?_append_left hpl] at hb'
        exact Or.inr ⟨hb', by simp⟩
      · have hpl' := lt_of_getElem? hb'
        simp only [List.length_append, List.length_singleton] at hpl'
        exact Or.inl (by rw [show p = h.length by omega])
  | some q =>
    obtain ⟨h1, h2⟩ := H.heap q hb
    have hq := H.lt hb
    have hd : deallocate e (h ++ [(⟨a, g.cells, true⟩ : Block α)]) a q v.cap =
        .ok ((h ++ [(⟨a, g.cells, true⟩ : Block α)]).set q ⟨a, s.cells, false⟩) := by
      unfold deallocate
      rw [List.getElem?_append_left hq, h2]
      simp [H.cap, ht]
    simp only [hd, Res.map_ok]
    refine ⟨_, _, rfl, ⟨rfl, hcl.symm, by rw [hgz]; exact hz, hgw, by simp, ?_⟩, ⟨by simp, ?_, ?_, ?_⟩⟩
    · intro p hp
      simp only [Option.some.injEq] at hp
      subst hp
      refine ⟨hgs, ?_⟩
      rw [List.getElem?_set_ne (by omega)]
      simp
    · intro p hp hne
      rw [List.getElem?_set_ne (by rintro rfl; exact hne rfl), List.getElem?_append_left hp]
    · intro p hp
      simp only [Option.some.injEq] at hp
      exact Or.inr (by omega)
    · intro p b hb' hl
      by_cases hpq : q = p
      · subst hpq
        rw [List.getElem?_set_self (by simp; omega)] at hb'
        cases hb'
        cases hl
      · rw [List.getElem?_set_ne hpq] at hb'
        by_cases hpl : p < h.length
        · rw [List.getElem?_append_left hpl] at hb'
          exact Or.inr ⟨hb', by simpa using hpq⟩
        · have hpl' := lt_of_getElem? hb'
          simp only [List.length_append, List.length_singleton] at hpl'
          exact Or.inl (by rw [show p = h.length by omega])

/-! ### The bodies of the member functions stay in their block -/

theorem copyInto_keeps {β : Type} {c c' l : List β} {p : Nat} (h : copyInto c p l = .ok c') : c'.length = c.length := by
  unfold copyInto at h
  by_cases hc : p + l.length ≤ c.length
  · rw [if_pos hc, Res.ok.injEq] at h
    rw [← h]
    exact copyInto_length hc
  · rw [if_neg hc] at h
    cases h

theorem stdMove_keeps {β : Type} {c c' : List β} {a b d : Nat} (h : stdMove c a b d = .ok c') : c'.length = c.length := by
  unfold stdMove at h
  split_ifs at h
  exact copyInto_keeps h

theorem stdMoveBackward_keeps {β : Type} {c c' : List β} {a b d : Nat} (h : stdMoveBackward c a b d = .ok c') :
    c'.length = c.length := by
  unfold stdMoveBackward at h
  split_ifs at h
  exact copyInto_keeps h

/-- Same block, same number of cells. -/
def SVec.Keeps {β : Type} (s s' : SVec β) : Prop := s'.onStack = s.onStack ∧ s'.cells.length = s.cells.length

theorem ensure_room {β : Type} {junk : Nat → β} {N n : Nat} {s : SVec β} (h : roomFor N n s = none) :
    s.ensure junk N n = s := by
  unfold roomFor at h
  split_ifs at h with hc
  exact if_neg hc

theorem not_full {β : Type} {s : SVec β} (h : roomForOne s = none) : ¬ s.size ≥ s.capacity := by
  unfold roomForOne at h
  split_ifs at h with hc
  exact hc

theorem assignList_keeps {β : Type} {junk : Nat → β} {N : Nat} {s s' : SVec β} {l : List β}
    (hn : roomFor N l.length s = none) (h : s.assignList junk N l = .ok s') : s.Keeps s' := by
  simp only [SVec.assignList, ensure_room hn, Res.map_eq_ok] at h
  obtain ⟨c, hc, rfl⟩ := h
  exact ⟨rfl, copyInto_keeps hc⟩

theorem resize_keeps {β : Type} {junk : Nat → β} {N n : Nat} {init : Bool} {z : β} {s s' : SVec β}
    (hn : roomFor N n s = none) (h : s.resize junk N init z n = .ok s') : s.Keeps s' := by
  simp only [SVec.resize, ensure_room hn] at h
  split_ifs at h
  · rw [Res.map_eq_ok] at h
    obtain ⟨c, hc, rfl⟩ := h
    exact ⟨rfl, copyInto_keeps hc⟩
  · cases h
    exact ⟨rfl, rfl⟩

theorem pushBack_keeps {β : Type} {junk : Nat → β} {s s' : SVec β} {x : SArg β} (hn : roomForOne s = none)
    (h : s.pushBack junk x = .ok s') : s.Keeps s' := by
  have hf := not_full hn
  simp only [SVec.pushBack, hf, decide_false, Bool.false_eq_true, if_false, Res.bind_eq_ok, Res.map_eq_ok] at h
  obtain ⟨y, _, c, hc, rfl⟩ := h
  exact ⟨rfl, copyInto_keeps hc⟩

theorem memberBody_keeps {N : Nat} {init : Bool} {z : Option α} (o : SeqOp (Option α)) {s s' : SVec (Option α)}
    (hn : memberNeed N o s = none) (h : memberBody N init z o s = .ok s') : s.Keeps s' := by
  cases o with
  | push i x => exact pushBack_keeps hn (show s.pushBack (fun _ => none) (.val x) = .ok s' from h)
  | pop i =>
    simp only [memberBody, SVec.popBack] at h
    split_ifs at h
    cases h
    exact ⟨rfl, rfl⟩
  | resize i n => exact resize_keeps hn h
  | reserve i n =>
    cases h
    exact ⟨rfl, rfl⟩
  | clear i => exact resize_keeps hn h
  | assignFill i n x =>
    simp only [memberBody, SVec.assignFill, ensure_room hn, Res.bind_eq_ok, Res.map_eq_ok] at h
    obtain ⟨y, _, c, hc, rfl⟩ := h
    exact ⟨rfl, copyInto_keeps hc⟩
  | assignList i l => exact assignList_keeps hn h
  | copy i j => cases h
  | swap i j => cases h
  | insert i p x =>
    have hf := not_full hn
    simp only [memberBody, SVec.insert] at h
    by_cases hp : p = s.size
    · rw [if_pos hp] at h
      exact pushBack_keeps hn h
    · rw [if_neg hp] at h
      simp only [hf, decide_false, Bool.false_eq_true, if_false, Res.bind_eq_ok, Res.map_eq_ok] at h
      obtain ⟨l, _, c1, h1, c2, h2, y, _, c3, h3, rfl⟩ := h
      exact ⟨rfl, by rw [copyInto_keeps h3, stdMoveBackward_keeps h2, copyInto_keeps h1]⟩
  | insertList i p l =>
    simp only [memberBody, SVec.insertList] at h
    simp only [memberNeed] at hn
    by_cases h0 : l.length > 0
    · have hc : ¬ l.length > s.capacity - s.size := by
        intro hc
        rw [if_pos ⟨h0, hc⟩] at hn
        cases hn
      rw [if_pos h0, if_neg hc] at h
      simp only [Res.bind_eq_ok, Res.map_eq_ok] at h
      obtain ⟨c1, h1, c2, h2, rfl⟩ := h
      exact ⟨rfl, by rw [copyInto_keeps h2, stdMoveBackward_keeps h1]⟩
    · rw [if_neg h0] at h
      cases h
      exact ⟨rfl, rfl⟩
  | erase i p =>
    simp only [memberBody, SVec.erase, Res.map_eq_ok] at h
    obtain ⟨c, hc, rfl⟩ := h
    exact ⟨rfl, stdMove_keeps hc⟩
  | eraseRange i p q =>
    simp only [memberBody, SVec.eraseRange] at h
    split_ifs at h
    · cases h
      exact ⟨rfl, rfl⟩
    · rw [Res.map_eq_ok] at h
      obtain ⟨c, hc, rfl⟩ := h
      exact ⟨rfl, stdMove_keeps hc⟩
  | set i p x =>
    simp only [memberBody, SVec.setAt] at h
    split_ifs at h
    rw [Res.map_eq_ok] at h
    obtain ⟨c, hc, rfl⟩ := h
    exact ⟨rfl, copyInto_keeps hc⟩

theorem swapFirst_keeps {β : Type} (a b : List β) : ∀ n, (SVec.swapFirst a b n).1.length = a.length ∧
    (SVec.swapFirst a b n).2.length = b.length
  | 0 => ⟨rfl, rfl⟩
  | n + 1 => by
    obtain ⟨h1, h2⟩ := swapFirst_keeps a b n
    simp only [SVec.swapFirst]
    split
    · simp [h1, h2]
    · exact ⟨h1, h2⟩

theorem swapElements_keeps {β : Type} {junk : Nat → β} {N : Nat} {init : Bool} {z : β} {s t : SVec β}
    {r : SVec β × SVec β} (hs : t.size > s.size → roomFor N t.size s = none)
    (ht : s.size > t.size → roomFor N s.size t = none) (h : s.swapElements junk N init z t = .ok r) :
    s.Keeps r.1 ∧ t.Keeps r.2 := by
  unfold SVec.swapElements at h
  simp only [Res.bind_eq_ok] at h
  obtain ⟨s', h1, t', h2, h⟩ := h
  have k1 : s.Keeps s' := by
    split_ifs at h1 with hc
    · exact resize_keeps (hs hc) h1
    · cases h1
      exact ⟨rfl, rfl⟩
  have k2 : t.Keeps t' := by
    split_ifs at h2 with hc
    · exact resize_keeps (ht hc) h2
    · cases h2
      exact ⟨rfl, rfl⟩
  obtain ⟨f1, f2⟩ := swapFirst_keeps s'.cells t'.cells (min s.size t.size)
  split_ifs at h
  · rw [Res.map_eq_ok] at h
    obtain ⟨c, hc, rfl⟩ := h
    exact ⟨⟨k1.1, by rw [← k1.2]; exact f1⟩, k2.1, by rw [← k2.2, ← f2]; exact copyInto_keeps hc⟩
  · rw [Res.map_eq_ok] at h
    obtain ⟨c, hc, rfl⟩ := h
    exact ⟨⟨k1.1, by rw [← k1.2, ← f1]; exact copyInto_keeps hc⟩, k2.1, by rw [← k2.2]; exact f2⟩
  · cases h
    exact ⟨⟨k1.1, by rw [← k1.2]; exact f1⟩, k2.1, by rw [← k2.2]; exact f2⟩

/-! ### Worlds of vectors -/

/-- The block a name owns. -/
def svOwn (v : Option (HVec α)) : Option Nat := v.bind fun (v : HVec α) => v.block

/-- What a name holds. -/
def svHolds (a N : Nat) (h : List (Block α)) : Option (HVec α) → Option (SVec (Option α)) → Prop
  | none, none => True
  | some v, some s => IsVec a N h v s
  | _, _ => False

theorem svLocal (a N : Nat) : Local (α := α) svOwn (svHolds a N) where
  frame h h' v s hh H := by
    cases v with
    | none =>
      cases s with
      | none => trivial
      | some s => exact H.elim
    | some v =>
      cases s with
      | none => exact H.elim
      | some s => exact IsVec.frame H hh
  dom h v s p H hp := by
    cases v with
    | none => cases hp
    | some v =>
      cases s with
      | none => exact H.elim
      | some s => exact IsVec.lt H hp

/-- The names of the world hold the vectors `ss`, each with its own block, and there are no other blocks. -/
abbrev SmallHolds (a N : Nat) (w : HWorld α) (ss : List (Option (SVec (Option α)))) : Prop :=
  Holds svOwn (svHolds a N) w.heap w.vars ss

theorem SmallHolds.vec {a N : Nat} {w : HWorld α} {ss : List (Option (SVec (Option α)))} (H : SmallHolds a N w ss)
    {k : Nat} {s : SVec (Option α)} (hs : ss[k]? = some (some s)) :
    ∃ v, w.vars[k]? = some (some v) ∧ IsVec a N w.heap v s := by
  obtain ⟨v, h1, h2⟩ := Holds.get H hs
  cases v with
  | none => exact h2.elim
  | some v => exact ⟨v, h1, h2⟩

theorem SmallHolds.free {a N : Nat} {w : HWorld α} {ss : List (Option (SVec (Option α)))} (H : SmallHolds a N w ss)
    {k : Nat} (hs : ss[k]? = some none) : w.vars[k]? = some none := by
  obtain ⟨v, h1, h2⟩ := Holds.get H hs
  cases v with
  | none => exact h1
  | some v => exact h2.elim

theorem HWorld.get_eq {w : HWorld α} {k : Nat} {v : HVec α} (h : w.vars[k]? = some (some v)) : w.get k = .ok v := by
  simp [HWorld.get, h]

/-- One vector changes, with its own block. -/
theorem SmallHolds.change {a N : Nat} {w : HWorld α} {ss : List (Option (SVec (Option α)))} (H : SmallHolds a N w ss)
    {k : Nat} {v : Option (HVec α)} (hv : w.vars[k]? = some v) {h' : List (Block α)} {v' : HVec α}
    {s' : SVec (Option α)} (hs' : IsVec a N h' v' s') (hc : Changed w.heap h' (svOwn v) v'.block) :
    SmallHolds a N ⟨h', w.vars.set k (some v')⟩ (ss.set k (some s')) :=
  Holds.update (svLocal a N) H hv hc.same hs' hc.new hc.live

/-- All vectors are inline. -/
def InlineAll (ss : List (Option (SVec (Option α)))) : Prop :=
  ∀ (k : Nat) s, ss[k]? = some (some s) → s.onStack = true

theorem InlineAll.set {ss : List (Option (SVec (Option α)))} (h : InlineAll ss) (k : Nat) {s : SVec (Option α)}
    (hs : s.onStack = true) : InlineAll (ss.set k (some s)) := by
  intro j t ht
  by_cases hjk : k = j
  · subst hjk
    have := lt_of_getElem? ht
    rw [List.getElem?_set_self (by simpa using this)] at ht
    cases ht
    exact hs
  · rw [List.getElem?_set_ne hjk] at ht
    exact h j t ht

/-- The sequences. -/
def seqsOf (ss : List (Option (SVec (Option α)))) : List (Option (List (Option α))) :=
  ss.map fun (s : Option (SVec (Option α))) => s.map SVec.toList

/-- A statement ended well, with the sequences `t`; or there was no memory, and it threw and did nothing.  If `calm`, the
first, without touching the heap. -/
def SmallRes (a N : Nat) (mem : Bool) (calm : Prop) (w : HWorld α) (t : List (Option (List (Option α)))) (out : HOut α) :
    Prop :=
  (∃ w' ss', out = .done w' ∧ SmallHolds a N w' ss' ∧ seqsOf ss' = t ∧ (calm → InlineAll ss' ∧ w'.heap = w.heap)) ∨
    (mem = false ∧ ¬ calm ∧ out = .threw w)

/-- Growing where a function asks for it. -/
theorem makeRoom_spec {e : StoreEnv α} (ht : e.trivial = true) {a N : Nat} {h : List (Block α)} {v : HVec α}
    {s : SVec (Option α)} (H : IsVec a N h v s) (mem : Bool) (need : SVec (Option α) → Option Nat)
    (hm : ∀ m, need s = some m → N ≤ m ∨ N ≤ 2 * s.size + 1) :
    (∃ h' v' s', makeRoom e mem h v need = .ok (some (h', v')) ∧ IsVec a N h' v' s' ∧
      Changed h h' v.block v'.block ∧ s'.toList = s.toList ∧ s'.size = s.size ∧
      ((need s = none ∧ s' = s ∧ h' = h) ∨ ∃ m, need s = some m ∧ s' = s.grow (fun _ => none) m)) ∨
    (mem = false ∧ need s ≠ none ∧ makeRoom e mem h v need = .ok none) := by
  unfold makeRoom
  simp only [H.view, Res.bind_ok]
  cases hn : need s with
  | none =>
    refine Or.inl ⟨h, v, s, rfl, H, Changed.refl ?_, rfl, rfl, Or.inl ⟨rfl, rfl, rfl⟩⟩
    intro p hp
    exact ⟨_, (H.heap p hp).2⟩
  | some m =>
    cases mem with
    | false => exact Or.inr ⟨rfl, by simp, by simp⟩
    | true =>
      obtain ⟨h', v', h1, h2, h3⟩ := growHeap_spec ht H m (hm m hn)
      obtain ⟨-, g1, g2, -⟩ := grow_spec (fun _ => none) H.wf m (hm m hn)
      exact Or.inl ⟨h', v', _, by simp [h1], h2, h3, g1, g2, Or.inr ⟨m, rfl, rfl⟩⟩

/-- Calling a function on a vector. -/
theorem call_spec {e : StoreEnv α} (ht : e.trivial = true) {a N : Nat} {w : HWorld α}
    {ss : List (Option (SVec (Option α)))} (H : SmallHolds a N w ss) {k : Nat} {s : SVec (Option α)}
    (hk : ss[k]? = some (some s)) (mem : Bool) (need : SVec (Option α) → Option Nat)
    (body : SVec (Option α) → Res (SVec (Option α))) (l : List (Option α)) (calm : Prop)
    (hm : ∀ m, need s = some m → (N ≤ m ∨ N ≤ 2 * s.size + 1) ∧ need (s.grow (fun _ => none) m) = none)
    (hb : ∀ s' : SVec (Option α), s'.WF N → s'.toList = s.toList → s'.size = s.size → need s' = none →
      ∃ s'', body s' = .ok s'' ∧ s''.WF N ∧ s''.toList = l ∧ s'.Keeps s'')
    (hc : calm → InlineAll ss ∧ need s = none) :
    SmallRes a N mem calm w ((seqsOf ss).set k (some l)) (w.call e mem k need body) := by
  obtain ⟨v, hv, H1⟩ := SmallHolds.vec H hk
  unfold HWorld.call
  rw [HWorld.get_eq hv]
  simp only []
  rcases makeRoom_spec ht H1 mem need (fun m h => (hm m h).1) with
    ⟨h', v', s', hr, H2, hch, hl, hz, hcase⟩ | ⟨h1, h2, h3⟩
  · have hn : need s' = none := by
      rcases hcase with ⟨h1, rfl, -⟩ | ⟨m, h1, rfl⟩
      · exact h1
      · exact (hm m h1).2
    obtain ⟨s'', hb1, hb2, hb3, hb4⟩ := hb s' H2.wf hl hz hn
    obtain ⟨k1, k2, k3, k4⟩ := IsVec.store H2 hb2 hb4.1 hb4.2
    have hin : inPlace h' v' body = .ok (v'.store h' s'') := by
      unfold inPlace
      simp only [H2.view, Res.bind_ok, hb1]
      rw [if_pos ⟨hb4.1, hb4.2⟩]
    rw [hr]
    simp only [hin]
    left
    refine ⟨_, ss.set k (some s''), rfl, ?_, ?_, ?_⟩
    · refine SmallHolds.change H hv k1 ?_
      rw [k2]
      exact hch.trans k3
    · rw [seqsOf, seqsOf, List.map_set, Option.map_some, hb3]
    · intro hcalm
      obtain ⟨c1, c2⟩ := hc hcalm
      rcases hcase with ⟨-, rfl, rfl⟩ | ⟨m, h1, -⟩
      · have hs1 := c1 k s' hk
        exact ⟨c1.set k (by rw [hb4.1, hs1]), k4 hs1⟩
      · rw [c2] at h1
        cases h1
  · rw [h3]
    right
    exact ⟨h1, fun hcalm => h2 (hc hcalm).2, rfl⟩

/-! ### Single statements -/

theorem roomFor_some {β : Type} {N n m : Nat} {s : SVec β} (h : roomFor N n s = some m) :
    m = n ∧ n > N ∧ n > s.capacity := by
  unfold roomFor at h
  split_ifs at h with hc
  exact ⟨(Option.some.inj h).symm, hc⟩

theorem roomFor_need {N n m : Nat} {s : SVec (Option α)} (hw : s.WF N) (h : roomFor N n s = some m) :
    (N ≤ m ∨ N ≤ 2 * s.size + 1) ∧ roomFor N n (s.grow (fun _ => none) m) = none := by
  obtain ⟨rfl, h1, h2⟩ := roomFor_some h
  obtain ⟨-, -, -, g, -⟩ := grow_spec (fun _ => (none : Option α)) hw m (Or.inl (by omega))
  refine ⟨Or.inl (by omega), ?_⟩
  unfold roomFor
  rw [if_neg]
  intro hc
  have : m > (s.grow (fun _ => none) m).cells.length := hc.2
  omega

theorem roomFor_calm {β : Type} {N n : Nat} (s : SVec β) (h : n ≤ N) : roomFor N n s = none := by
  unfold roomFor
  rw [if_neg (by omega)]

theorem roomForOne_need {N m : Nat} {s : SVec (Option α)} (hw : s.WF N) (h : roomForOne s = some m) :
    (N ≤ m ∨ N ≤ 2 * s.size + 1) ∧ roomForOne (s.grow (fun _ => none) m) = none := by
  unfold roomForOne at h
  split_ifs at h with hc
  have hc' : s.size ≥ s.cells.length := hc
  have hr := hw.room
  obtain ⟨-, -, g1, -, g, -⟩ := grow_spec (fun _ => (none : Option α)) hw m (Or.inr (by omega))
  refine ⟨Or.inr (by omega), ?_⟩
  unfold roomForOne
  rw [if_neg]
  intro hc
  have : (s.grow (fun _ => none) m).size ≥ (s.grow (fun _ => none) m).cells.length := hc
  omega

theorem roomForOne_calm {β : Type} {N : Nat} {s : SVec β} (hw : s.WF N) (h : s.size + 1 ≤ N) : roomForOne s = none := by
  have := hw.room
  unfold roomForOne
  rw [if_neg]
  show ¬ s.size ≥ s.cells.length
  omega

theorem memberNeed_spec {N m : Nat} {s : SVec (Option α)} (hw : s.WF N) (o : SeqOp (Option α))
    (h : memberNeed N o s = some m) :
    (N ≤ m ∨ N ≤ 2 * s.size + 1) ∧ memberNeed N o (s.grow (fun _ => none) m) = none := by
  cases o with
  | push i x => exact roomForOne_need hw h
  | insert i p x => exact roomForOne_need hw h
  | resize i n => exact roomFor_need hw h
  | reserve i n => exact roomFor_need hw h
  | clear i => exact roomFor_need hw h
  | assignFill i n x => exact roomFor_need hw h
  | assignList i l => exact roomFor_need hw h
  | insertList i p l =>
    simp only [memberNeed] at h ⊢
    split_ifs at h with hc
    cases h
    have hr : N ≤ s.capacity := hw.room
    have hf : s.size ≤ s.capacity := hw.fits
    obtain ⟨-, -, g1, g, -⟩ := grow_spec (fun _ => (none : Option α)) hw (s.capacity + l.length) (Or.inl (by omega))
    refine ⟨Or.inl (by omega), ?_⟩
    rw [if_neg]
    intro hc'
    have h2 : l.length > (s.grow (fun _ => none) (s.capacity + l.length)).cells.length -
      (s.grow (fun _ => none) (s.capacity + l.length)).size := hc'.2
    omega
  | pop i => cases h
  | copy i j => cases h
  | swap i j => cases h
  | erase i p => cases h
  | eraseRange i p q => cases h
  | set i p x => cases h

/-- What a member function with one vector does to its sequence. -/
def seqFun {β : Type} (z : β) : SeqOp β → List β → Option (List β)
  | .push _ x, l => some (l ++ [x])
  | .pop _, l => if l = [] then none else some l.dropLast
  | .resize _ n, l => some (l.take n ++ List.replicate (n - l.length) z)
  | .reserve _ _, l => some l
  | .clear _, _ => some []
  | .assignFill _ n x, _ => some (List.replicate n x)
  | .assignList _ l', _ => some l'
  | .insert _ p x, l => if p ≤ l.length then some (l.take p ++ x :: l.drop p) else none
  | .insertList _ p l', l => if p ≤ l.length then some (l.take p ++ l' ++ l.drop p) else none
  | .erase _ p, l => if p < l.length then some (l.take p ++ l.drop (p + 1)) else none
  | .eraseRange _ a b, l => if a ≤ b ∧ b ≤ l.length then some (l.take a ++ l.drop b) else none
  | .set _ p x, l => if p < l.length then some (l.set p x) else none
  | .copy _ _, _ => none
  | .swap _ _, _ => none

/-- The member functions with two vectors. -/
def SeqOp.binary {β : Type} : SeqOp β → Bool
  | .copy _ _ => true
  | .swap _ _ => true
  | _ => false

theorem seqStep_unary {β : Type} (z : β) (o : SeqOp β) (ho : SeqOp.binary o = false) (ls : List (List β)) :
    seqStep z ls o = onSeq ls (memberTarget o) (seqFun z o) ∧ o.names = [memberTarget o] := by
  cases o <;> first | exact ⟨rfl, rfl⟩ | cases ho

theorem memberNeed_calm {N : Nat} {s : SVec (Option α)} (hw : s.WF N) {z : Option α} {o : SeqOp (Option α)}
    {l : List (Option α)} (hl : seqFun z o s.toList = some l) (hN : l.length ≤ N) (hm : (SmallOp.member o).modest N) :
    memberNeed N o s = none := by
  have hlen := SVec.length_toList hw
  cases o with
  | push i x =>
    cases hl
    simp only [List.length_append, List.length_singleton, hlen] at hN
    exact roomForOne_calm hw hN
  | insert i p x =>
    simp only [seqFun] at hl
    split_ifs at hl with hp
    cases hl
    simp only [List.length_append, List.length_cons, List.length_take, List.length_drop] at hN
    exact roomForOne_calm hw (by omega)
  | resize i n =>
    cases hl
    simp only [List.length_append, List.length_take, List.length_replicate] at hN
    exact roomFor_calm s (by omega)
  | reserve i n => exact roomFor_calm s hm
  | clear i => exact roomFor_calm s (by omega)
  | assignFill i n x =>
    cases hl
    rw [List.length_replicate] at hN
    exact roomFor_calm s hN
  | assignList i l' =>
    cases hl
    exact roomFor_calm s hN
  | insertList i p l' =>
    simp only [seqFun] at hl
    split_ifs at hl with hp
    cases hl
    simp only [List.length_append, List.length_take, List.length_drop] at hN
    have hr : N ≤ s.capacity := hw.room
    simp only [memberNeed]
    rw [if_neg]
    omega
  | pop i => rfl
  | copy i j => cases hl
  | swap i j => cases hl
  | erase i p => rfl
  | eraseRange i p q => rfl
  | set i p x => rfl

theorem memberBody_spec {N : Nat} {init : Bool} {z : Option α} {o : SeqOp (Option α)} (hi : Specified init o)
    {s : SVec (Option α)} (hw : s.WF N) {l : List (Option α)} (hl : seqFun z o s.toList = some l) :
    SVec.Yields N (memberBody N init z o s) l := by
  have hlen := SVec.length_toList hw
  cases o with
  | push i x =>
    cases hl
    exact pushBack_spec (elt := .val x) (fun _ => none) hw rfl
  | pop i =>
    simp only [seqFun] at hl
    split_ifs at hl with hne
    cases hl
    exact popBack_spec hw hne
  | resize i n =>
    cases hl
    obtain ⟨ys, _, hys, hy⟩ := resize_spec (fun _ => none) init z hw n
    rw [hys hi] at hy
    rw [hlen]
    exact hy
  | reserve i n =>
    cases hl
    exact ⟨s, rfl, hw, rfl⟩
  | clear i =>
    cases hl
    obtain ⟨ys, hlen, _, hy⟩ := resize_spec (fun _ => none) init z hw 0
    have : ys = [] := List.length_eq_zero_iff.1 (by omega)
    rw [this] at hy
    show SVec.Yields N (s.resize (fun _ => none) N init z 0) []
    simpa using hy
  | assignFill i n x =>
    cases hl
    exact assignFill_spec (elt := .val x) (fun _ => none) hw n rfl
  | assignList i l' =>
    cases hl
    exact assignList_spec _ hw _
  | copy i j => cases hl
  | swap i j => cases hl
  | insert i p x =>
    simp only [seqFun] at hl
    split_ifs at hl with hp
    cases hl
    exact insert_spec (elt := .val x) (fun _ => none) hw (by omega) rfl
  | insertList i p l' =>
    simp only [seqFun] at hl
    split_ifs at hl with hp
    cases hl
    exact insertList_spec _ hw (by omega) l'
  | erase i p =>
    simp only [seqFun] at hl
    split_ifs at hl with hp
    cases hl
    exact erase_spec hw (by omega)
  | eraseRange i p q =>
    simp only [seqFun] at hl
    split_ifs at hl with hp
    cases hl
    exact eraseRange_spec hw hp.1 (by omega)
  | set i p x =>
    simp only [seqFun] at hl
    split_ifs at hl with hp
    cases hl
    exact setAt_spec hw (by omega) x

theorem zipLive_self {β : Type} : ∀ ls : List (Option (List β)),
    List.zipWith (fun (l : List β) (old : Option (List β)) => old.map fun _ => l)
      (ls.map fun (l : Option (List β)) => l.getD []) ls = ls
  | [] => rfl
  | none :: ls => by simp [zipLive_self ls]
  | some l :: ls => by simp [zipLive_self ls]

theorem zipLive_set {β : Type} (x : List β) : ∀ (i : Nat) (r : List (List β)) (ls : List (Option (List β))) (l : List β),
    r.length = ls.length → ls[i]? = some (some l) →
    List.zipWith (fun (l : List β) (old : Option (List β)) => old.map fun _ => l) (r.set i x) ls =
      (List.zipWith (fun (l : List β) (old : Option (List β)) => old.map fun _ => l) r ls).set i (some x)
  | 0, y :: r, o :: ls, l, _, h => by
    simp only [List.getElem?_cons_zero, Option.some.injEq] at h
    simp [h]
  | i + 1, y :: r, o :: ls, l, hlen, h => by
    simp only [List.getElem?_cons_succ] at h
    simp [zipLive_set x i r ls l (by simpa using hlen) h]
  | _, [], [], _, _, h => by simp at h

theorem getElem?_live {β : Type} {ls : List (Option (List β))} {k : Nat}
    (h : (ls[k]?.getD none).isSome = true) : ∃ l, ls[k]? = some (some l) := by
  cases h1 : ls[k]? with
  | none => simp [h1] at h
  | some o =>
    cases o with
    | none => simp [h1] at h
    | some l => exact ⟨l, rfl⟩

theorem liveStep_unary {β : Type} {z : β} {ls t : List (Option (List β))} {o : SeqOp β} (ho : SeqOp.binary o = false)
    (h : liveStep z ls o = some t) :
    ∃ l l', ls[memberTarget o]? = some (some l) ∧ seqFun z o l = some l' ∧ t = ls.set (memberTarget o) (some l') := by
  obtain ⟨h1, h2⟩ := seqStep_unary z o ho (ls.map fun (l : Option (List β)) => l.getD [])
  unfold liveStep at h
  split_ifs at h with hc
  rw [h2] at hc
  simp only [List.all_cons, List.all_nil, Bool.and_true] at hc
  obtain ⟨l, hl⟩ := getElem?_live hc
  rw [h1, onSeq, List.getElem?_map, hl] at h
  simp only [Option.map_some, Option.bind_some, Option.getD_some, Option.map_eq_some_iff] at h
  obtain ⟨r, ⟨l', h3, rfl⟩, rfl⟩ := h
  exact ⟨l, l', hl, h3, by rw [zipLive_set l' _ _ ls l (by simp) hl, zipLive_self]⟩

theorem liveStep_copy {β : Type} {z : β} {ls t : List (Option (List β))} {i j : Nat}
    (h : liveStep z ls (.copy i j) = some t) :
    ∃ l m, ls[i]? = some (some l) ∧ ls[j]? = some (some m) ∧ t = ls.set i (some m) := by
  unfold liveStep at h
  split_ifs at h with hc
  simp only [SeqOp.names, List.all_cons, List.all_nil, Bool.and_true, Bool.and_eq_true] at hc
  obtain ⟨l, hl⟩ := getElem?_live hc.1
  obtain ⟨m, hm⟩ := getElem?_live hc.2
  simp only [seqStep, onSeq, List.getElem?_map, hl, hm, Option.map_some, Option.bind_some, Option.getD_some,
    Option.some.injEq] at h
  exact ⟨l, m, hl, hm, by rw [← h, zipLive_set m _ _ ls l (by simp) hl, zipLive_self]⟩

theorem liveStep_swap {β : Type} {z : β} {ls t : List (Option (List β))} {i j : Nat}
    (h : liveStep z ls (.swap i j) = some t) :
    ∃ l m, ls[i]? = some (some l) ∧ ls[j]? = some (some m) ∧ t = (ls.set i (some m)).set j (some l) := by
  unfold liveStep at h
  split_ifs at h with hc
  simp only [SeqOp.names, List.all_cons, List.all_nil, Bool.and_true, Bool.and_eq_true] at hc
  obtain ⟨l, hl⟩ := getElem?_live hc.1
  obtain ⟨m, hm⟩ := getElem?_live hc.2
  simp only [seqStep, List.getElem?_map, hl, hm, Option.map_some, Option.bind_some, Option.getD_some,
    Option.some.injEq] at h
  exact ⟨l, m, hl, hm, by
    rw [← h, zipLive_set l _ _ ls m (by simp) hm, zipLive_set m _ _ ls l (by simp) hl, zipLive_self]⟩

theorem seqsOf_some {ss : List (Option (SVec (Option α)))} {k : Nat} {l : List (Option α)}
    (h : (seqsOf ss)[k]? = some (some l)) : ∃ s, ss[k]? = some (some s) ∧ s.toList = l := by
  rw [seqsOf, List.getElem?_map] at h
  cases h1 : ss[k]? with
  | none => simp [h1] at h
  | some s =>
    cases s with
    | none => simp [h1] at h
    | some s => exact ⟨s, rfl, by simpa [h1] using h⟩

theorem seqsOf_none {ss : List (Option (SVec (Option α)))} {k : Nat} (h : (seqsOf ss)[k]? = some none) :
    ss[k]? = some none := by
  rw [seqsOf, List.getElem?_map] at h
  cases h1 : ss[k]? with
  | none => simp [h1] at h
  | some s =>
    cases s with
    | none => rfl
    | some s => simp [h1] at h

theorem copyHeap_spec {e : StoreEnv α} (ht : e.trivial = true) {a N : Nat} {w : HWorld α}
    {ss : List (Option (SVec (Option α)))} (H : SmallHolds a N w ss) {k j : Nat} {s u : SVec (Option α)}
    (hk : ss[k]? = some (some s)) (hj : ss[j]? = some (some u)) (mem : Bool) (calm : Prop)
    (hc : calm → InlineAll ss ∧ u.toList.length ≤ N) :
    SmallRes a N mem calm w ((seqsOf ss).set k (some u.toList)) (copyHeap e N mem w k j) := by
  obtain ⟨v, hv, H1⟩ := SmallHolds.vec H hj
  obtain ⟨_, _, Hs⟩ := SmallHolds.vec H hk
  unfold copyHeap
  rw [HWorld.get_eq hv, Res.bind_ok, H1.view]
  refine call_spec ht H hk mem _ _ _ calm (fun m hm => roomFor_need Hs.wf hm) ?_ ?_
  · intro s' hw _ _ hn
    obtain ⟨s'', h1, h2, h3⟩ := assignList_spec (fun _ => none) hw u.toList
    exact ⟨s'', h1, h2, h3, assignList_keeps hn h1⟩
  · intro hcalm
    exact ⟨(hc hcalm).1, roomFor_calm s (hc hcalm).2⟩

theorem set_of_getElem? {β : Type} {l : List β} {k : Nat} {x : β} (h : l[k]? = some x) : l.set k x = l := by
  apply List.ext_getElem?
  intro i
  by_cases hi : k = i
  · subst hi
    rw [List.getElem?_set_self (lt_of_getElem? h), h]
  · rw [List.getElem?_set_ne hi]

theorem swapHeap_spec {e : StoreEnv α} (ht : e.trivial = true) {a N : Nat} {w : HWorld α}
    {ss : List (Option (SVec (Option α)))} (H : SmallHolds a N w ss) {k j : Nat} {s t : SVec (Option α)}
    (hk : ss[k]? = some (some s)) (hj : ss[j]? = some (some t)) (init : Bool) (z : Option α) (mem : Bool) (calm : Prop)
    (hc : calm → InlineAll ss ∧ s.toList.length ≤ N ∧ t.toList.length ≤ N) :
    SmallRes a N mem calm w (((seqsOf ss).set k (some t.toList)).set j (some s.toList))
      (swapHeap e N init z mem w k j) := by
  obtain ⟨v, hv, Hv⟩ := SmallHolds.vec H hk
  obtain ⟨u, hu, Hu⟩ := SmallHolds.vec H hj
  have hls := SVec.length_toList Hv.wf
  have hlt := SVec.length_toList Hu.wf
  unfold swapHeap
  rw [HWorld.get_eq hv, HWorld.get_eq hu]
  simp only []
  by_cases hkj : k = j
  · subst hkj
    rw [hk, Option.some.injEq, Option.some.injEq] at hj
    subst hj
    rw [if_pos rfl]
    left
    refine ⟨w, ss, rfl, H, ?_, fun hcalm => ⟨(hc hcalm).1, rfl⟩⟩
    have h1 : (seqsOf ss)[k]? = some (some s.toList) := by simp [seqsOf, hk]
    rw [List.set_set, set_of_getElem? h1]
  rw [if_neg hkj]
  by_cases hb : v.block ≠ none ∧ u.block ≠ none
  · rw [if_pos hb]
    left
    have e1 : ({ u with alloc := v.alloc } : HVec α) = u := by rw [Hv.alloc, ← Hu.alloc]
    have e2 : ({ v with alloc := u.alloc } : HVec α) = v := by rw [Hu.alloc, ← Hv.alloc]
    rw [e1, e2]
    refine ⟨_, (ss.set k (some t)).set j (some s), rfl, Holds.swap H hv hu hk hj, ?_, ?_⟩
    · simp [seqsOf, List.map_set]
    · intro hcalm
      exfalso
      cases hvb : v.block with
      | none => exact hb.1 hvb
      | some p =>
        have := (hc hcalm).1 k s hk
        rw [(Hv.heap p hvb).1] at this
        cases this
  rw [if_neg hb]
  have hvz := Hv.size
  have huz := Hu.size
  have hm1 : ∀ m, (fun s' : SVec (Option α) => if u.size > v.size then roomFor N u.size s' else none) s = some m →
      N ≤ m ∨ N ≤ 2 * s.size + 1 := by
    intro m hm
    simp only [] at hm
    split_ifs at hm
    exact (roomFor_need Hv.wf hm).1
  have hm2 : ∀ m, (fun t' : SVec (Option α) => if v.size > u.size then roomFor N v.size t' else none) t = some m →
      N ≤ m ∨ N ≤ 2 * t.size + 1 := by
    intro m hm
    simp only [] at hm
    split_ifs at hm
    exact (roomFor_need Hu.wf hm).1
  rcases makeRoom_spec ht Hv mem (fun s' : SVec (Option α) => if u.size > v.size then roomFor N u.size s' else none) hm1 with ⟨h1, v1, s1, hr1, Hv1, hch1, hl1, hz1, hcase1⟩ | ⟨h1, h2, h3⟩
  · have W1 := SmallHolds.change H hv Hv1 hch1
    have hj1 : (ss.set k (some s1))[j]? = some (some t) := by rw [List.getElem?_set_ne hkj]; exact hj
    have huj1 : (w.vars.set k (some v1))[j]? = some (some u) := by rw [List.getElem?_set_ne hkj]; exact hu
    have Hu1 : IsVec a N h1 u t := W1.rep j _ _ huj1 hj1
    rw [hr1]
    simp only []
    rcases makeRoom_spec ht Hu1 mem (fun t' : SVec (Option α) => if v.size > u.size then roomFor N v.size t' else none) hm2 with ⟨h2, u2, t2, hr2, Hu2, hch2, hl2, hz2, hcase2⟩ | ⟨q1, q2, q3⟩
    · have W2 := SmallHolds.change W1 huj1 Hu2 hch2
      simp only [] at W2
      have hkl := lt_of_getElem? hk
      have hkl' := lt_of_getElem? hv
      have hk2 : ((ss.set k (some s1)).set j (some t2))[k]? = some (some s1) := by
        rw [List.getElem?_set_ne (Ne.symm hkj), List.getElem?_set_self hkl]
      have hv2 : ((w.vars.set k (some v1)).set j (some u2))[k]? = some (some v1) := by
        rw [List.getElem?_set_ne (Ne.symm hkj), List.getElem?_set_self hkl']
      have Hv2 : IsVec a N h2 v1 s1 := W2.rep k _ _ hv2 hk2
      have hroom1 : t2.size > s1.size → roomFor N t2.size s1 = none := by
        intro hgt
        rcases hcase1 with ⟨c1, rfl, -⟩ | ⟨m, c1, rfl⟩
        · rw [if_pos (by omega), huz, ← hz2] at c1
          exact c1
        · rw [if_pos (by omega), huz, ← hz2] at c1
          exact (roomFor_need Hv.wf c1).2
      have hroom2 : s1.size > t2.size → roomFor N s1.size t2 = none := by
        intro hgt
        rcases hcase2 with ⟨c1, rfl, -⟩ | ⟨m, c1, rfl⟩
        · rw [if_pos (by omega), hvz, ← hz1] at c1
          exact c1
        · rw [if_pos (by omega), hvz, ← hz1] at c1
          exact (roomFor_need Hu.wf c1).2
      obtain ⟨s3, t3, hsw, ws3, wt3, ls3, lt3⟩ := swapElements_spec (fun _ => none) init z Hv2.wf Hu2.wf
      obtain ⟨kp1, kp2⟩ := swapElements_keeps hroom1 hroom2 hsw
      obtain ⟨a1, a2, a3, a4⟩ := IsVec.store Hv2 ws3 kp1.1 kp1.2
      have W3 := SmallHolds.change W2 hv2 a1 (by rw [a2]; exact a3)
      have hu3 : (((w.vars.set k (some v1)).set j (some u2)).set k (some (v1.store h2 s3).2))[j]? = some (some u2) := by
        rw [List.getElem?_set_ne hkj, List.getElem?_set_self (by simpa using lt_of_getElem? hu)]
      have ht3 : (((ss.set k (some s1)).set j (some t2)).set k (some s3))[j]? = some (some t2) := by
        rw [List.getElem?_set_ne hkj, List.getElem?_set_self (by simpa using lt_of_getElem? hj)]
      have Hu3 : IsVec a N (v1.store h2 s3).1 u2 t2 := W3.rep j _ _ hu3 ht3
      obtain ⟨b1, b2, b3, b4⟩ := IsVec.store Hu3 wt3 kp2.1 kp2.2
      have W4 := SmallHolds.change W3 hu3 b1 (by rw [b2]; exact b3)
      have hsi : swapInPlace h2 N init z v1 u2 = .ok
          ((u2.store (v1.store h2 s3).1 t3).1, (v1.store h2 s3).2, (u2.store (v1.store h2 s3).1 t3).2) := by
        unfold swapInPlace
        simp only [Hv2.view, Hu2.view, Res.bind_ok, hsw]
        rw [if_pos ⟨⟨kp1.1, kp1.2⟩, kp2.1, kp2.2⟩]
      rw [hr2]
      simp only [hsi]
      left
      have hset : ∀ {β : Type} (l : List β) (x y x' y' : β),
          (((l.set k x).set j y).set k x').set j y' = (l.set k x').set j y' := by
        intro β l x y x' y'
        rw [List.set_comm _ _ (Ne.symm hkj), List.set_set, List.set_set]
      rw [hset] at W4
      rw [hset] at W4
      refine ⟨_, (ss.set k (some s3)).set j (some t3), rfl, W4, ?_, ?_⟩
      · simp [seqsOf, List.map_set, ls3, lt3, hl1, hl2]
      · intro hcalm
        obtain ⟨c1, c2, c3⟩ := hc hcalm
        have o1 := c1 k s hk
        have o2 := c1 j t hj
        have n1 : (if u.size > v.size then roomFor N u.size s else none) = none := by
          split_ifs
          · exact roomFor_calm s (by omega)
          · rfl
        have n2 : (if v.size > u.size then roomFor N v.size t else none) = none := by
          split_ifs
          · exact roomFor_calm t (by omega)
          · rfl
        rcases hcase1 with ⟨-, rfl, rfl⟩ | ⟨m, c1, -⟩
        · rcases hcase2 with ⟨-, rfl, rfl⟩ | ⟨m, c1, -⟩
          · refine ⟨(c1.set k (by rw [kp1.1, o1])).set j (by rw [kp2.1, o2]), ?_⟩
            rw [b4 o2, a4 o1]
          · rw [n2] at c1
            cases c1
        · rw [n1] at c1
          cases c1
    · rw [q3]
      right
      refine ⟨q1, fun hcalm => q2 ?_, rfl⟩
      obtain ⟨c1, c2, c3⟩ := hc hcalm
      split_ifs
      · exact roomFor_calm t (by omega)
      · rfl
  · rw [h3]
    right
    refine ⟨h1, fun hcalm => h2 ?_, rfl⟩
    obtain ⟨c1, c2, c3⟩ := hc hcalm
    split_ifs
    · exact roomFor_calm s (by omega)
    · rfl

theorem fresh_isVec {e : StoreEnv α} (ht : e.trivial = true) (a N : Nat) (h : List (Block α)) :
    IsVec a N h (HVec.fresh e N a) (SVec.empty (fun _ => none) N) := by
  have hc : (SVec.empty (fun _ => (none : Option α)) N).cells = List.replicate (inlineCells N) none := by
    simp [SVec.empty]
  refine ⟨rfl, by rw [hc]; simp [HVec.fresh], rfl, empty_wf _ _, fun _ => ⟨rfl, by rw [hc]; simp [HVec.fresh, ht]⟩, ?_⟩
  intro p hp
  cases hp

/-- Construction: an empty vector, then the rest. -/
theorem construct_spec {e : StoreEnv α} (ht : e.trivial = true) {a N : Nat} {w : HWorld α}
    {ss : List (Option (SVec (Option α)))} (H : SmallHolds a N w ss) {k : Nat} (hk : ss[k]? = some none) (mem : Bool)
    (calm : Prop) (t : List (Option (List (Option α)))) (rest : HWorld α → HOut α)
    (hr : ∀ w1 : HWorld α, w1.heap = w.heap →
      SmallHolds a N w1 (ss.set k (some (SVec.empty (fun _ => none) N))) → w1.vars = w.vars.set k (some (HVec.fresh e N a)) →
      SmallRes a N mem calm w1 t (rest w1)) :
    SmallRes a N mem calm w t (w.construct e N a k rest) := by
  have hv := SmallHolds.free H hk
  have W : SmallHolds a N ⟨w.heap, w.vars.set k (some (HVec.fresh e N a))⟩
      (ss.set k (some (SVec.empty (fun _ => none) N))) :=
    SmallHolds.change H hv (fresh_isVec ht a N w.heap) (Changed.refl (by simp [svOwn]))
  unfold HWorld.construct
  rw [hv]
  simp only []
  rcases hr ⟨w.heap, w.vars.set k (some (HVec.fresh e N a))⟩ rfl W rfl with ⟨w', ss', h1, h2, h3, h4⟩ | ⟨h1, h2, h3⟩
  · rw [h1]
    exact Or.inl ⟨w', ss', rfl, h2, h3, h4⟩
  · rw [h3]
    exact Or.inr ⟨h1, h2, rfl⟩

theorem drop_spec {e : StoreEnv α} (ht : e.trivial = true) {a N : Nat} {w : HWorld α}
    {ss : List (Option (SVec (Option α)))} (H : SmallHolds a N w ss) {k : Nat} {s : SVec (Option α)}
    (hk : ss[k]? = some (some s)) :
    ∃ w', w.drop e k = .done w' ∧ SmallHolds a N w' (ss.set k none) ∧ (s.onStack = true → w'.heap = w.heap) := by
  obtain ⟨v, hv, Hv⟩ := SmallHolds.vec H hk
  unfold HWorld.drop
  rw [HWorld.get_eq hv]
  simp only []
  cases hb : v.block with
  | none =>
    refine ⟨_, rfl, ?_, fun _ => rfl⟩
    refine Holds.update (svLocal a N) H hv (fun _ _ _ => rfl) trivial (by simp [svOwn]) ?_
    intro p b hp _
    exact Or.inr ⟨hp, by simp [svOwn, hb]⟩
  | some p =>
    obtain ⟨h1, h2⟩ := Hv.heap p hb
    obtain ⟨c', hd⟩ := safeDestroyDeallocate_eq e h2 (by simp [ht])
    rw [Hv.alloc, Hv.cap, hd]
    refine ⟨_, rfl, ?_, by simp [h1]⟩
    have ho : svOwn (some v) = some p := hb
    refine Holds.update (svLocal a N) H hv ?_ trivial (by simp [svOwn]) ?_
    · intro q hq hne
      rw [List.getElem?_set_ne (by rintro rfl; exact hne ho)]
    · intro q b hq hl
      by_cases hpq : p = q
      · subst hpq
        rw [List.getElem?_set_self (Hv.lt hb)] at hq
        cases hq
        cases hl
      · rw [List.getElem?_set_ne hpq] at hq
        exact Or.inr ⟨hq, by rw [ho]; simpa using hpq⟩

/-- Statements whose result is specified: without initialisation, `resize` leaves elements as they come. -/
def SmallSpecified (init : Bool) : SmallOp (Option α) → Prop
  | .member o => Specified init o
  | _ => True

theorem SmallRes.noexcept {a N : Nat} {mem : Bool} {calm : Prop} {w : HWorld α} {t : List (Option (List (Option α)))}
    {out : HOut α} (h : SmallRes a N mem calm w t out) :
    (∃ w' ss', out.noexcept = .done w' ∧ SmallHolds a N w' ss' ∧ seqsOf ss' = t ∧
      (calm → InlineAll ss' ∧ w'.heap = w.heap)) ∨ (mem = false ∧ ¬ calm ∧ out.noexcept = .terminated) := by
  rcases h with ⟨w', ss', rfl, h2⟩ | ⟨h1, h2, rfl⟩
  · exact Or.inl ⟨w', ss', rfl, h2⟩
  · exact Or.inr ⟨h1, h2, rfl⟩

theorem set_none_inline {ss : List (Option (SVec (Option α)))} (h : InlineAll ss) (k : Nat) : InlineAll (ss.set k none) := by
  intro j t ht
  by_cases hjk : k = j
  · subst hjk
    have := lt_of_getElem? ht
    rw [List.getElem?_set_self (by simpa using this)] at ht
    cases ht
  · rw [List.getElem?_set_ne hjk] at ht
    exact h j t ht

theorem shortAll_swap {N : Nat} {ls : List (Option (List (Option α)))} {k j : Nat} {l m : List (Option α)}
    (hl : ls[k]? = some (some l)) (hm : ls[j]? = some (some m))
    (h : ShortAll N ((ls.set k (some m)).set j (some l))) : l.length ≤ N ∧ m.length ≤ N := by
  have hj := lt_of_getElem? hm
  have h1 : l.length ≤ N := h j l (by rw [List.getElem?_set_self (by simpa using hj)])
  refine ⟨h1, ?_⟩
  by_cases hkj : k = j
  · subst hkj
    rw [hl] at hm
    cases hm
    exact h1
  · exact h k m (by rw [List.getElem?_set_ne (Ne.symm hkj), List.getElem?_set_self (lt_of_getElem? hl)])

/-- Any statement. -/
theorem smallRun1_spec {e : StoreEnv α} (ht : e.trivial = true) {a : Nat} (hsel : e.select a = a) {N : Nat} {init : Bool}
    {z : Option α} {w : HWorld α} {ss : List (Option (SVec (Option α)))} (H : SmallHolds a N w ss) (mem : Bool)
    {o : SmallOp (Option α)} (hi : SmallSpecified init o) {t : List (Option (List (Option α)))}
    (hs : smallStep z (seqsOf ss) o = some t) :
    (∃ w' ss', smallRun1 e N init z a mem w o = .done w' ∧ SmallHolds a N w' ss' ∧ seqsOf ss' = t ∧
      (InlineAll ss ∧ ShortAll N t ∧ o.modest N → InlineAll ss' ∧ w'.heap = w.heap)) ∨
    (mem = false ∧ ¬ (InlineAll ss ∧ ShortAll N t ∧ o.modest N) ∧
      smallRun1 e N init z a mem w o = if o.noThrow then .terminated else .threw w) := by
  have hempty : (SVec.empty (fun _ => (none : Option α)) N).toList = [] := by simp [SVec.toList, SVec.empty]
  cases o with
  | make k l =>
    obtain ⟨h1, rfl⟩ := create_some hs
    have hk := seqsOf_none h1
    have hkl := lt_of_getElem? hk
    have := construct_spec ht H hk mem (InlineAll ss ∧ ShortAll N ((seqsOf ss).set k (some l)) ∧
      (SmallOp.make k l).modest N) ((seqsOf ss).set k (some l))
      (fun w => w.call e mem k (roomFor N l.length) fun t => t.assignList (fun _ => none) N l) ?_
    · exact this
    · intro w1 _ W _
      have h2 := call_spec ht W (List.getElem?_set_self hkl) mem (roomFor N l.length)
        (fun t => t.assignList (fun _ => none) N l) l
        (InlineAll ss ∧ ShortAll N ((seqsOf ss).set k (some l)) ∧ (SmallOp.make k l).modest N)
        (fun m hm => roomFor_need (empty_wf _ _) hm) ?_ ?_
      · rw [show (seqsOf (ss.set k (some (SVec.empty (fun _ => none) N)))).set k (some l) =
          (seqsOf ss).set k (some l) by simp [seqsOf, List.map_set]] at h2
        exact h2
      · intro s' hw _ _ hn
        obtain ⟨s'', q1, q2, q3⟩ := assignList_spec (fun _ => none) hw l
        exact ⟨s'', q1, q2, q3, assignList_keeps hn q1⟩
      · rintro ⟨c1, c2, -⟩
        refine ⟨c1.set k rfl, roomFor_calm _ (c2 k l ?_)⟩
        rw [List.getElem?_set_self (by simpa [seqsOf] using hkl)]
  | makeCopy k j =>
    simp only [smallStep, Option.bind_eq_some_iff] at hs
    obtain ⟨l, hl, hs⟩ := hs
    obtain ⟨h1, rfl⟩ := create_some hs
    obtain ⟨u, hu, rfl⟩ := seqsOf_some (seqOf_some hl)
    have hk := seqsOf_none h1
    have hkl := lt_of_getElem? hk
    have hkj : k ≠ j := by
      rintro rfl
      rw [hk] at hu
      cases hu
    obtain ⟨v, hv, Hv⟩ := SmallHolds.vec H hu
    have := construct_spec ht H hk mem (InlineAll ss ∧ ShortAll N ((seqsOf ss).set k (some u.toList)) ∧
      (SmallOp.makeCopy (β := Option α) k j).modest N) ((seqsOf ss).set k (some u.toList))
      (fun w => copyHeap e N mem w k j) ?_
    · simp only [smallRun1, HWorld.get_eq hv, Hv.alloc, hsel]
      exact this
    · intro w1 _ W _
      have h2 := copyHeap_spec ht W (List.getElem?_set_self hkl)
        (show (ss.set k (some (SVec.empty (fun _ => none) N)))[j]? = some (some u) by
          rw [List.getElem?_set_ne hkj]; exact hu) mem
        (InlineAll ss ∧ ShortAll N ((seqsOf ss).set k (some u.toList)) ∧
          (SmallOp.makeCopy (β := Option α) k j).modest N) ?_
      · rw [show (seqsOf (ss.set k (some (SVec.empty (fun _ => none) N)))).set k (some u.toList) =
          (seqsOf ss).set k (some u.toList) by simp [seqsOf, List.map_set]] at h2
        exact h2
      · rintro ⟨c1, c2, -⟩
        refine ⟨c1.set k rfl, c2 k _ ?_⟩
        rw [List.getElem?_set_self (by simpa [seqsOf] using hkl)]
  | makeMove k j =>
    simp only [smallStep, Option.bind_eq_some_iff, Option.map_eq_some_iff] at hs
    obtain ⟨l, hl, t', hs, rfl⟩ := hs
    obtain ⟨h1, rfl⟩ := create_some hs
    obtain ⟨u, hu, rfl⟩ := seqsOf_some (seqOf_some hl)
    have hk := seqsOf_none h1
    have hkl := lt_of_getElem? hk
    have hkj : k ≠ j := by
      rintro rfl
      rw [hk] at hu
      cases hu
    have := construct_spec ht H hk mem
      (InlineAll ss ∧ ShortAll N (((seqsOf ss).set k (some u.toList)).set j (some [])) ∧
        (SmallOp.makeMove (β := Option α) k j).modest N) (((seqsOf ss).set k (some u.toList)).set j (some []))
      (fun w => swapHeap e N init z mem w k j) ?_
    · exact this.noexcept
    · intro w1 _ W _
      have h2 := swapHeap_spec ht W (List.getElem?_set_self hkl)
        (show (ss.set k (some (SVec.empty (fun _ => none) N)))[j]? = some (some u) by
          rw [List.getElem?_set_ne hkj]; exact hu) init z mem
        (InlineAll ss ∧ ShortAll N (((seqsOf ss).set k (some u.toList)).set j (some [])) ∧
          (SmallOp.makeMove (β := Option α) k j).modest N) ?_
      · rw [show ((seqsOf (ss.set k (some (SVec.empty (fun _ => none) N)))).set k (some u.toList)).set j
            (some (SVec.empty (fun _ => (none : Option α)) N).toList) =
          ((seqsOf ss).set k (some u.toList)).set j (some []) by simp [seqsOf, List.map_set, hempty]] at h2
        exact h2
      · rintro ⟨c1, c2, -⟩
        refine ⟨c1.set k rfl, by simp [hempty], c2 k _ ?_⟩
        rw [List.getElem?_set_ne (Ne.symm hkj), List.getElem?_set_self (by simpa [seqsOf] using hkl)]
  | drop k =>
    simp only [smallStep, Option.map_eq_some_iff] at hs
    obtain ⟨l, hl, rfl⟩ := hs
    obtain ⟨s, hk, rfl⟩ := seqsOf_some (seqOf_some hl)
    obtain ⟨w', h1, h2, h3⟩ := drop_spec ht H hk
    refine Or.inl ⟨w', ss.set k none, h1, h2, by simp [seqsOf, List.map_set], ?_⟩
    rintro ⟨c1, -⟩
    exact ⟨set_none_inline c1 k, h3 (c1 k s hk)⟩
  | member o =>
    cases hbin : SeqOp.binary o with
    | false =>
      obtain ⟨l, l', hl, hf, rfl⟩ := liveStep_unary hbin hs
      obtain ⟨s, hk, rfl⟩ := seqsOf_some hl
      obtain ⟨_, _, Hs⟩ := SmallHolds.vec H hk
      have hrun : smallRun1 e N init z a mem w (.member o) =
          w.call e mem (memberTarget o) (memberNeed N o) (memberBody N init z o) := by
        cases o <;> first | rfl | cases hbin
      rw [hrun]
      refine call_spec ht H hk mem (memberNeed N o) (memberBody N init z o) l' _
        (fun m hm => memberNeed_spec Hs.wf o hm) ?_ ?_
      · intro s' hw hll _ hn
        obtain ⟨s'', q1, q2, q3⟩ := memberBody_spec hi hw (show seqFun z o s'.toList = some l' by rw [hll]; exact hf)
        exact ⟨s'', q1, q2, q3, memberBody_keeps o hn q1⟩
      · rintro ⟨c1, c2, c3⟩
        refine ⟨c1, memberNeed_calm Hs.wf hf (c2 (memberTarget o) l' ?_) c3⟩
        rw [List.getElem?_set_self (lt_of_getElem? hl)]
    | true =>
      cases o with
      | copy k j =>
        obtain ⟨l, m, hl, hm, rfl⟩ := liveStep_copy hs
        obtain ⟨s, hk, rfl⟩ := seqsOf_some hl
        obtain ⟨u, hj, rfl⟩ := seqsOf_some hm
        refine copyHeap_spec ht H hk hj mem _ ?_
        rintro ⟨c1, c2, -⟩
        refine ⟨c1, c2 k _ ?_⟩
        rw [List.getElem?_set_self (lt_of_getElem? hl)]
      | swap k j =>
        obtain ⟨l, m, hl, hm, rfl⟩ := liveStep_swap hs
        obtain ⟨s, hk, rfl⟩ := seqsOf_some hl
        obtain ⟨u, hj, rfl⟩ := seqsOf_some hm
        refine swapHeap_spec ht H hk hj init z mem _ ?_
        rintro ⟨c1, c2, -⟩
        exact ⟨c1, shortAll_swap hl hm c2⟩
      | _ => cases hbin
  | moveAssign k j =>
    obtain ⟨l, m, hl, hm, rfl⟩ := liveStep_copy hs
    obtain ⟨s, hk, rfl⟩ := seqsOf_some hl
    obtain ⟨u, hj, rfl⟩ := seqsOf_some hm
    refine SmallRes.noexcept (copyHeap_spec ht H hk hj mem _ ?_)
    rintro ⟨c1, c2, -⟩
    refine ⟨c1, c2 k _ ?_⟩
    rw [List.getElem?_set_self (lt_of_getElem? hl)]
  | exchange k j =>
    obtain ⟨l, m, hl, hm, rfl⟩ := liveStep_swap hs
    obtain ⟨s, hk, rfl⟩ := seqsOf_some hl
    obtain ⟨u, hj, rfl⟩ := seqsOf_some hm
    refine SmallRes.noexcept (swapHeap_spec ht H hk hj init z mem _ ?_)
    rintro ⟨c1, c2, -⟩
    exact ⟨c1, shortAll_swap hl hm c2⟩

/-! ### The claims -/

/-- Each vector has allocator `a` and its own cells, there are no other blocks, and readers find the sequences `ls`. -/
def Small (a N : Nat) (w : HWorld α) (ls : List (Option (List (Option α)))) : Prop :=
  w.seqs = ls ∧ ∃ ss, SmallHolds a N w ss ∧ seqsOf ss = ls

theorem SmallHolds.seqs {a N : Nat} {w : HWorld α} {ss : List (Option (SVec (Option α)))} (H : SmallHolds a N w ss) :
    w.seqs = seqsOf ss := by
  apply List.ext_getElem?
  intro k
  rw [HWorld.seqs, seqsOf, List.getElem?_map, List.getElem?_map]
  cases hs : ss[k]? with
  | none =>
    have : w.vars[k]? = none := by
      rw [List.getElem?_eq_none_iff] at hs ⊢
      have := Holds.len H
      omega
    rw [this]
    rfl
  | some o =>
    cases o with
    | none =>
      rw [SmallHolds.free H hs]
      rfl
    | some s =>
      obtain ⟨v, hv, Hv⟩ := SmallHolds.vec H hs
      rw [hv]
      simp [Hv.view]

/-- C102: one statement, for an element type with trivial constructors and one allocator.  It does what it does to sequences; or
there is no memory, and it throws and leaves everything as it was, or ends the program if it is declared not to throw. -/
theorem C102_step {e : StoreEnv α} (ht : e.trivial = true) {a : Nat} (hsel : e.select a = a) {N : Nat} {init : Bool}
    {z : Option α} {w : HWorld α} {ls : List (Option (List (Option α)))} (H : Small a N w ls) (mem : Bool)
    {o : SmallOp (Option α)} (hi : SmallSpecified init o) {t : List (Option (List (Option α)))}
    (hs : smallStep z ls o = some t) :
    (∃ w', smallRun1 e N init z a mem w o = .done w' ∧ Small a N w' t) ∨
    (mem = false ∧ smallRun1 e N init z a mem w o = if o.noThrow then .terminated else .threw w) := by
  obtain ⟨-, ss, H, rfl⟩ := H
  rcases smallRun1_spec ht hsel H mem hi hs with ⟨w', ss', h1, h2, h3, -⟩ | ⟨h1, -, h2⟩
  · exact Or.inl ⟨w', h1, by rw [h2.seqs, h3], ss', h2, h3⟩
  · exact Or.inr ⟨h1, h2⟩

theorem Small.start (a N n : Nat) : Small (α := α) a N ⟨[], List.replicate n none⟩ (List.replicate n none) := by
  have H : SmallHolds (α := α) a N ⟨[], List.replicate n none⟩ (List.replicate n none) := by
    refine ⟨by simp, ?_, ?_, by simp⟩
    · intro k v s hv hs
      simp only [List.getElem?_replicate] at hv hs
      split_ifs at hv hs
      cases hv
      cases hs
      trivial
    · intro j k v u p _ hv _ ho
      simp only [List.getElem?_replicate] at hv
      split_ifs at hv
      cases hv
      cases ho
  exact ⟨by simp [HWorld.seqs], _, H, by simp [seqsOf]⟩

theorem smallRun_spec {e : StoreEnv α} (ht : e.trivial = true) {a : Nat} (hsel : e.select a = a) {N : Nat} {init : Bool}
    {z : Option α} : ∀ (prog : List (Bool × SmallOp (Option α))) (w : HWorld α) (ls : List (Option (List (Option α)))),
    Small a N w ls → (∀ q ∈ prog, SmallSpecified init q.2) → smallCan z prog ls →
    (∃ w' t, smallRun e N init z a prog w = .done w' ∧ smallMay z prog ls t ∧ Small a N w' t) ∨
    (smallRun e N init z a prog w = .terminated ∧ ∃ q ∈ prog, q.1 = false ∧ q.2.noThrow = true)
  | [], w, ls, H, _, _ => Or.inl ⟨w, ls, rfl, rfl, H⟩
  | (mem, o) :: r, w, ls, H, hi, hc => by
    obtain ⟨⟨t, hs, hc1⟩, hc2⟩ := hc
    have hi' : ∀ q ∈ r, SmallSpecified init q.2 := fun q hq => hi q (List.mem_cons_of_mem _ hq)
    rcases C102_step ht hsel H mem (hi (mem, o) List.mem_cons_self) hs with ⟨w1, h1, H1⟩ | ⟨hm, h1⟩
    · rcases smallRun_spec ht hsel r w1 t H1 hi' hc1 with ⟨w', t', h2, h3, h4⟩ | ⟨h2, q, hq, h3⟩
      · exact Or.inl ⟨w', t', by simp [smallRun, h1, h2], Or.inl ⟨t, hs, h3⟩, h4⟩
      · exact Or.inr ⟨by simp [smallRun, h1, h2], q, List.mem_cons_of_mem _ hq, h3⟩
    · cases hn : o.noThrow with
      | true =>
        rw [hn] at h1
        exact Or.inr ⟨by simp [smallRun, h1], (mem, o), List.mem_cons_self, hm, hn⟩
      | false =>
        rw [hn] at h1
        rcases smallRun_spec ht hsel r w ls H hi' (hc2 hm) with ⟨w', t', h2, h3, h4⟩ | ⟨h2, q, hq, h3⟩
        · exact Or.inl ⟨w', t', by simp [smallRun, h1, h2], Or.inr ⟨hm, h3⟩, h4⟩
        · exact Or.inr ⟨by simp [smallRun, h1, h2], q, List.mem_cons_of_mem _ hq, h3⟩

/-- C102: programs that go on after exceptions, whichever statements find no memory: nothing is undefined, and at the end every
statement was done or not done at all, as readers of the vectors see it; unless a statement that is declared not to throw found no
memory, which ends the program. -/
theorem C102_programs {e : StoreEnv α} (ht : e.trivial = true) {a : Nat} (hsel : e.select a = a) {N : Nat} {init : Bool}
    {z : Option α} (n : Nat) (prog : List (Bool × SmallOp (Option α))) (hi : ∀ q ∈ prog, SmallSpecified init q.2)
    (hc : smallCan z prog (List.replicate n none)) :
    (∃ w', smallRun e N init z a prog ⟨[], List.replicate n none⟩ = .done w' ∧
      smallMay z prog (List.replicate n none) w'.seqs) ∨
    (smallRun e N init z a prog ⟨[], List.replicate n none⟩ = .terminated ∧
      ∃ q ∈ prog, q.1 = false ∧ q.2.noThrow = true) := by
  rcases smallRun_spec ht hsel prog _ _ (Small.start a N n) hi hc with ⟨w', t, h1, h2, h3⟩ | h
  · exact Or.inl ⟨w', h1, by rw [h3.1]; exact h2⟩
  · exact Or.inr h

/-- C102: at the end of such a program every block in use belongs to a vector, to one only, and is no smaller than its elements.
So when all vectors are gone, all memory has been given back. -/
theorem C102_no_leak {e : StoreEnv α} (ht : e.trivial = true) {a : Nat} (hsel : e.select a = a) {N : Nat} {init : Bool}
    {z : Option α} (n : Nat) (prog : List (Bool × SmallOp (Option α))) (hi : ∀ q ∈ prog, SmallSpecified init q.2)
    (hc : smallCan z prog (List.replicate n none)) {w' : HWorld α}
    (hr : smallRun e N init z a prog ⟨[], List.replicate n none⟩ = .done w') (p : Nat) (b : Block α)
    (hp : w'.heap[p]? = some b) (hl : b.live = true) :
    ∃ (k : Nat) (v : HVec α), w'.vars[k]? = some (some v) ∧ v.block = some p ∧ v.size ≤ b.cells.length ∧ b.alloc = v.alloc ∧
      ∀ (j : Nat) (u : HVec α), w'.vars[j]? = some (some u) → u.block = some p → j = k := by
  rcases smallRun_spec ht hsel prog _ _ (Small.start a N n) hi hc with ⟨w1, t, h1, h2, -, ss, H, -⟩ | ⟨h, -⟩
  · rw [hr] at h1
    cases h1
    obtain ⟨k, v, hk, ho⟩ := H.all p b hp hl
    cases v with
    | none => cases ho
    | some v =>
      have hks : k < ss.length := by have := H.len; have := lt_of_getElem? hk; omega
      have hrep := H.rep k _ _ hk (List.getElem?_eq_getElem hks)
      cases hs : ss[k] with
      | none =>
        rw [hs] at hrep
        exact hrep.elim
      | some s =>
        rw [hs] at hrep
        have hrep : IsVec a N w'.heap v s := hrep
        obtain ⟨-, h3⟩ := hrep.heap p ho
        rw [hp, Option.some.injEq] at h3
        subst h3
        refine ⟨k, v, hk, ho, ?_, hrep.alloc.symm, ?_⟩
        · rw [hrep.size]
          exact hrep.wf.fits
        · intro j u hj hu
          by_contra hne
          exact H.sep j k _ _ p hne hj hk hu ho
  · rw [hr] at h
    cases h

theorem smallRun_inline {e : StoreEnv α} (ht : e.trivial = true) {a : Nat} (hsel : e.select a = a) {N : Nat} {init : Bool}
    {z : Option α} : ∀ (prog : List (Bool × SmallOp (Option α))) (w : HWorld α) (ss : List (Option (SVec (Option α))))
    (t : List (Option (List (Option α)))), SmallHolds a N w ss → InlineAll ss → (∀ q ∈ prog, SmallSpecified init q.2) →
    smallShort z N prog (seqsOf ss) t →
    ∃ w', smallRun e N init z a prog w = .done w' ∧ w'.heap = w.heap ∧ w'.seqs = t
  | [], w, ss, t, H, _, _, hs => ⟨w, rfl, rfl, by rw [H.seqs]; exact hs.symm⟩
  | (mem, o) :: r, w, ss, t, H, hin, hi, hs => by
    obtain ⟨u, h1, h2, h3, h4⟩ := hs
    have hi' : ∀ q ∈ r, SmallSpecified init q.2 := fun q hq => hi q (List.mem_cons_of_mem _ hq)
    rcases smallRun1_spec ht hsel H mem (hi (mem, o) List.mem_cons_self) h1 with ⟨w1, ss1, q1, q2, q3, q4⟩ | ⟨-, q2, -⟩
    · obtain ⟨c1, c2⟩ := q4 ⟨hin, h2, h3⟩
      obtain ⟨w', p1, p2, p3⟩ := smallRun_inline ht hsel r w1 ss1 t q2 c1 hi' (by rw [q3]; exact h4)
      exact ⟨w', by simp [smallRun, q1, p1], by rw [p2, c2], p3⟩
    · exact absurd ⟨hin, h2, h3⟩ q2

/-- C102: while no vector has more than `N` elements and no more are asked for, no memory is asked for either: all statements are
done even if there is none, and no block is ever allocated.  Shapes and strides of up to four dimensions are such vectors. -/
theorem C102_inline {e : StoreEnv α} (ht : e.trivial = true) {a : Nat} (hsel : e.select a = a) {N : Nat} {init : Bool}
    {z : Option α} (n : Nat) (prog : List (Bool × SmallOp (Option α))) (hi : ∀ q ∈ prog, SmallSpecified init q.2)
    {t : List (Option (List (Option α)))} (hs : smallShort z N prog (List.replicate n none) t) :
    ∃ w', smallRun e N init z a prog ⟨[], List.replicate n none⟩ = .done w' ∧ w'.heap = [] ∧ w'.seqs = t := by
  obtain ⟨-, ss, H, h1⟩ := Small.start (α := α) a N n
  refine smallRun_inline ht hsel prog _ ss t H ?_ hi (by rw [h1]; exact hs)
  intro k s hk
  have : (seqsOf ss)[k]? = some (some s.toList) := by simp [seqsOf, hk]
  rw [h1, List.getElem?_replicate] at this
  split_ifs at this
  cases this

theorem swapHeap_move {e : StoreEnv α} {a N : Nat} {w : HWorld α} {k j : Nat} {v u : HVec α} {s : SVec (Option α)}
    (hv : w.get k = .ok v) (hu : w.get j = .ok u) (hkj : k ≠ j) (hb : v.block = none) (Hv : IsVec a N w.heap v s)
    (hz : u.size > v.size) (hr : roomFor N u.size s ≠ none) (init : Bool) (z : Option α) :
    swapHeap e N init z false w k j = .threw w := by
  have hm : makeRoom e false w.heap v (fun s => if u.size > v.size then roomFor N u.size s else none) = .ok none := by
    unfold makeRoom
    simp only [Hv.view, Res.bind_ok, if_pos hz]
    cases hr' : roomFor N u.size s with
    | none => exact absurd hr' hr
    | some m => simp
  unfold swapHeap
  simp only [hv, hu, hm]
  rw [if_neg hkj, if_neg (by simp [hb])]

/-- C102: the move constructor, declared not to throw, ends the program when there is no memory and the vector it takes from has
more elements than fit inline: although nothing would have to be allocated, as the block could be handed over. -/
theorem C102_move_wrong {e : StoreEnv α} (ht : e.trivial = true) {a N : Nat} (init : Bool) (z : Option α) {w : HWorld α}
    {ls : List (Option (List (Option α)))} (H : Small a N w ls) {k j : Nat} (hk : ls[k]? = some none) {l : List (Option α)}
    (hj : ls[j]? = some (some l)) (hl : l.length > inlineCells N) :
    smallRun1 e N init z a false w (.makeMove k j) = .terminated := by
  obtain ⟨-, ss, H, rfl⟩ := H
  have hkn := seqsOf_none hk
  obtain ⟨u, hu, rfl⟩ := seqsOf_some hj
  have hkj : k ≠ j := by
    rintro rfl
    rw [hk] at hj
    cases hj
  have hkv := SmallHolds.free H hkn
  obtain ⟨v, hv, Hv⟩ := SmallHolds.vec H hu
  have hN : N ≤ inlineCells N := by
    unfold inlineCells
    split_ifs <;> omega
  have hlu := SVec.length_toList Hv.wf
  have hempty := fresh_isVec ht a N w.heap
  have hth := swapHeap_move (e := e) (a := a) (N := N)
    (w := ⟨w.heap, w.vars.set k (some (HVec.fresh e N a))⟩) (k := k) (j := j) (v := HVec.fresh e N a) (u := v)
    (HWorld.get_eq (List.getElem?_set_self (lt_of_getElem? hkv)))
    (HWorld.get_eq (by rw [List.getElem?_set_ne hkj]; exact hv)) hkj rfl hempty
    (by rw [Hv.size]; show _ > 0; omega)
    (by
      unfold roomFor
      rw [if_pos]
      · simp
      · refine ⟨by rw [Hv.size]; omega, ?_⟩
        rw [Hv.size]
        show _ > (SVec.empty (fun _ => (none : Option α)) N).cells.length
        simp only [SVec.empty, List.length_map, List.length_range]
        omega) init z
  simp only [smallRun1, HWorld.construct, hkv, hth, HOut.noexcept]

/-- C102: the same for `swap`, declared not to throw, of an empty inline vector with such a vector: it ends the program without
memory, and so does a move assignment to it. -/
theorem C102_swap_wrong {e : StoreEnv α} {a N : Nat} (init : Bool) (z : Option α) {w : HWorld α}
    {ls : List (Option (List (Option α)))} (H : Small a N w ls) {k j : Nat} {v : HVec α}
    (hv : w.vars[k]? = some (some v)) (hb : v.block = none) {l : List (Option α)} (hj : ls[j]? = some (some l))
    (hl : l.length > inlineCells N) :
    smallRun1 e N init z a false w (.exchange k j) = .terminated ∧
      smallRun1 e N init z a false w (.moveAssign k j) = .terminated := by
  obtain ⟨-, ss, H, rfl⟩ := H
  obtain ⟨u, hu, rfl⟩ := seqsOf_some hj
  obtain ⟨x, hx, Hx⟩ := SmallHolds.vec H hu
  have hks : k < ss.length := by have := H.len; have := lt_of_getElem? hv; omega
  have hrep := H.rep k _ _ hv (List.getElem?_eq_getElem hks)
  cases hs : ss[k] with
  | none =>
    rw [hs] at hrep
    exact hrep.elim
  | some s =>
    rw [hs] at hrep
    have Hs : IsVec a N w.heap v s := hrep
    have hN : N ≤ inlineCells N := by
      unfold inlineCells
      split_ifs <;> omega
    have hlu := SVec.length_toList Hx.wf
    have hsc := Hs.wf.inl (Hs.inl hb).1
    have hsf := Hs.wf.fits
    have hvz := Hs.size
    have hxz := Hx.size
    have hroom : roomFor N u.size s = some u.size := by
      unfold roomFor
      rw [if_pos]
      refine ⟨by omega, ?_⟩
      show _ > s.cells.length
      omega
    have hkj : k ≠ j := by
      rintro rfl
      rw [List.getElem?_eq_getElem hks, hs] at hu
      cases hu
      omega
    constructor
    · have := swapHeap_move (e := e) (HWorld.get_eq hv) (HWorld.get_eq hx) hkj hb Hs (by omega)
        (by rw [hxz, hroom]; simp) init z
      simp only [smallRun1, this, HOut.noexcept]
    · have hm : makeRoom e false w.heap v (roomFor N u.toList.length) = .ok none := by
        unfold makeRoom
        simp only [Hs.view, Res.bind_ok, hlu, hroom]
        simp
      simp only [smallRun1, copyHeap, HWorld.get_eq hx, Res.bind_ok, Hx.view, HWorld.call, HWorld.get_eq hv, hm, HOut.noexcept]

/-- C102: two vectors on the heap with different allocators: `swap` exchanges the blocks but not the allocators, and the destructor
of either then gives the block to an allocator it did not come from. -/
theorem C102_allocators_wrong {e : StoreEnv α} (ht : e.trivial = true) {N : Nat} (init : Bool) (z : Option α) (a : Nat)
    (mem : Bool) {w : HWorld α} {k j : Nat} (hkj : k ≠ j) {v u : HVec α} (hv : w.vars[k]? = some (some v))
    (hu : w.vars[j]? = some (some u)) (hne : v.alloc ≠ u.alloc) {p q : Nat} (hp : v.block = some p) (hq : u.block = some q)
    {c d : List (Option α)} (hc : w.heap[p]? = some ⟨v.alloc, c, true⟩) (hd : w.heap[q]? = some ⟨u.alloc, d, true⟩) :
    ∃ w', smallRun1 e N init z a mem w (.member (.swap k j)) = .done w' ∧
      smallRun1 e N init z a mem w' (.drop k) = .ub ∧ smallRun1 e N init z a mem w' (.drop j) = .ub := by
  have hkl := lt_of_getElem? hv
  have hjl := lt_of_getElem? hu
  refine ⟨⟨w.heap, (w.vars.set k (some { u with alloc := v.alloc })).set j (some { v with alloc := u.alloc })⟩, ?_, ?_, ?_⟩
  · simp only [smallRun1, swapHeap, HWorld.get_eq hv, HWorld.get_eq hu]
    rw [if_neg hkj, if_pos (by simp [hp, hq])]
  · have hg : HWorld.get (⟨w.heap, (w.vars.set k (some { u with alloc := v.alloc })).set j
        (some { v with alloc := u.alloc })⟩ : HWorld α) k = .ok { u with alloc := v.alloc } := by
      apply HWorld.get_eq
      simp only []
      rw [List.getElem?_set_ne (Ne.symm hkj), List.getElem?_set_self hkl]
    rw [smallRun1, HWorld.drop, hg]
    simp only [hq, safeDestroyDeallocate, ht, not_true_eq_false, if_false, Res.bind_ok, deallocate, hd]
    rw [if_neg (by simp [Ne.symm hne])]
  · have hg : HWorld.get (⟨w.heap, (w.vars.set k (some { u with alloc := v.alloc })).set j
        (some { v with alloc := u.alloc })⟩ : HWorld α) j = .ok { v with alloc := u.alloc } := by
      apply HWorld.get_eq
      simp only []
      rw [List.getElem?_set_self (by simpa using hjl)]
    rw [smallRun1, HWorld.drop, hg]
    simp only [hp, safeDestroyDeallocate, ht, not_true_eq_false, if_false, Res.bind_ok, deallocate, hc]
    rw [if_neg (by simp [hne])]

theorem cellLoop_ub {f : Nat → List (Block α) → Res (List (Block α))} {h : List (Block α)} (h0 : f 0 h = .ub) :
    ∀ n, cellLoop (n + 1) f h = .ub
  | 0 => by simp [cellLoop, h0]
  | n + 1 => by rw [cellLoop_succ, cellLoop_ub h0 n]; rfl

/-- C102: elements of class type.  The destructor destroys an object in every cell up to the capacity, but a heap block has objects
only where elements were put: reserving room in an empty vector and letting it go is undefined. -/
theorem C102_class_wrong {e : StoreEnv α} (ht : e.trivial = false) {N n : Nat} (hn : n > inlineCells N) (init : Bool)
    (z : Option α) (a : Nat) :
    smallRun e N init z a [(true, .make 0 []), (true, .member (.reserve 0 n)), (true, .drop 0)] ⟨[], [none]⟩ = .ub := by
  have hN : N ≤ inlineCells N := by
    unfold inlineCells
    split_ifs <;> omega
  obtain ⟨m, rfl⟩ : ∃ m, n = m + 1 := ⟨n - 1, by omega⟩
  have hz : inlineCells N ≥ 1 := by
    unfold inlineCells
    split_ifs <;> omega
  have h1 : smallRun1 e N init z a true ⟨[], [none]⟩ (.make 0 []) = .done ⟨[], [some (HVec.fresh e N a)]⟩ := by
    simp [smallRun1, HWorld.construct, HWorld.call, HWorld.get, makeRoom, HVec.view, HVec.fresh, roomFor, inPlace,
      SVec.assignList, SVec.ensure, copyInto, HVec.store]
  have hgrow : growHeap e [] (HVec.fresh e N a) (m + 1) =
      .ok ([⟨a, List.replicate (m + 1) none, true⟩], ⟨a, some 0, [], m + 1, 0⟩) := by
    have : 1 < m + 1 := by omega
    simp [growHeap, HVec.view, HVec.fresh, allocate, uninitializedCopy, SVec.toList, cellLoop, this]
  have h2 : smallRun1 e N init z a true ⟨[], [some (HVec.fresh e N a)]⟩ (.member (.reserve 0 (m + 1))) =
      .done ⟨[⟨a, List.replicate (m + 1) none, true⟩], [some ⟨a, some 0, [], m + 1, 0⟩]⟩ := by
    have hview : (HVec.fresh e N a).view [] = .ok ⟨true, (HVec.fresh e N a).inl, 0⟩ := by
      simp [HVec.view, HVec.fresh]
    have hroom : roomFor N (m + 1) (⟨true, (HVec.fresh e N a).inl, 0⟩ : SVec (Option α)) = some (m + 1) := by
      unfold roomFor
      rw [if_pos]
      refine ⟨by omega, ?_⟩
      simp [SVec.capacity, HVec.fresh]
      omega
    have hm : makeRoom e true [] (HVec.fresh e N a) (memberNeed N (.reserve 0 (m + 1))) =
        .ok (some ([⟨a, List.replicate (m + 1) none, true⟩], ⟨a, some 0, [], m + 1, 0⟩)) := by
      unfold makeRoom
      simp only [hview, Res.bind_ok, memberNeed, hroom, hgrow]
      simp
    simp only [smallRun1, HWorld.call, memberTarget, SeqOp.names, List.headD_cons]
    rw [HWorld.get_eq (w := ⟨[], [some (HVec.fresh e N a)]⟩) (k := 0) rfl]
    simp only [hm]
    simp [inPlace, HVec.view, blockCells, memberBody, HVec.store, setCells]
  have h3 : smallRun1 e N init z a true ⟨[⟨a, List.replicate (m + 1) none, true⟩], [some ⟨a, some 0, [], m + 1, 0⟩]⟩
      (.drop 0) = .ub := by
    have hl := cellLoop_ub (f := fun i h => destroyAt h 0 i)
      (h := [(⟨a, List.replicate (m + 1) none, true⟩ : Block α)]) (by simp [destroyAt, blockCells]) m
    simp [smallRun1, HWorld.drop, HWorld.get, safeDestroyDeallocate, ht, hl]
  simp [smallRun, h1, h2, h3]

/-! ### Examples -/

/-- Integers, and an allocator that copies keep. -/
def exSmallEnv : StoreEnv Int := ⟨true, 0, id⟩

/-- A small vector with room for two is filled past its inline room, copied when there is no memory, copied again, appended to when
there is no memory, and exchanged. -/
def exSmallProg : List (Bool × SmallOp (Option Int)) :=
  [(true, .make 0 [some 1, some 2]), (true, .member (.push 0 (some 3))), (false, .makeCopy 1 0), (true, .make 2 []),
    (true, .member (.copy 2 0)), (false, .member (.push 2 (some 4))), (true, .member (.swap 0 2)),
    (false, .member (.erase 0 1))]

example : smallCan (some 0) exSmallProg [none, none, none] := by
  simp [exSmallProg, smallCan, smallStep, create, liveStep, seqStep, onSeq, SeqOp.names, seqOf]

/-- Vector 1 was not made, vector 2 got no fourth element, and there are two blocks for two vectors. -/
example : smallRun exSmallEnv 2 true (some 0) 0 exSmallProg ⟨[], [none, none, none]⟩ =
    .done ⟨[⟨0, [some 1, some 2, some 3, none, none], true⟩, ⟨0, [some 1, some 3, some 3], true⟩],
      [some ⟨0, some 1, [], 3, 2⟩, none, some ⟨0, some 0, [], 5, 3⟩]⟩ := by decide

/-- The program of C102_inline: shapes of up to four dimensions, with no memory at all. -/
def exShortProg : List (Bool × SmallOp (Option Int)) :=
  [(false, .make 0 [some 2, some 3]), (false, .member (.insert 0 0 (some 4))), (false, .makeMove 1 0),
    (false, .member (.resize 1 4)), (false, .exchange 0 1), (false, .drop 1)]

example : smallShort (some 1) 4 exShortProg [none, none] [some [some 4, some 2, some 3, some 1], none] := by
  simp only [exShortProg, smallShort]
  refine ⟨_, rfl, ?_, trivial, _, rfl, ?_, trivial, _, rfl, ?_, trivial, _, rfl, ?_, trivial, _, rfl, ?_, trivial, _, rfl,
    ?_, trivial, rfl⟩ <;>
  · intro k l h
    rcases k with _ | _ | k <;> simp at h <;> subst h <;> simp

example : smallRun exSmallEnv 4 true (some 1) 0 exShortProg ⟨[], [none, none]⟩ =
    .done ⟨[], [some ⟨0, none, [some 4, some 2, some 3, some 1], 4, 4⟩, none]⟩ := by decide

/-- A world with a vector of three elements and inline room for two: as C102_move_wrong and C102_swap_wrong suppose. -/
def exSmallWorld : HWorld Int :=
  ⟨[⟨0, [some 1, some 2, some 3, none, none], true⟩], [some ⟨0, some 0, [], 5, 3⟩, none, some ⟨0, none, [none, none], 2, 0⟩]⟩

example : smallRun exSmallEnv 2 true (some 0) 0 [(true, .make 0 [some 1, some 2]), (true, .member (.push 0 (some 3))),
    (true, .make 2 [])] ⟨[], [none, none, none]⟩ = .done exSmallWorld := by decide

example : Small 0 2 exSmallWorld [some [some 1, some 2, some 3], none, some []] := by
  have hc : smallCan (some 0) [(true, SmallOp.make 0 [some (1 : Int), some 2]), (true, .member (.push 0 (some 3))),
      (true, .make 2 [])] (List.replicate 3 none) := by
    simp [smallCan, smallStep, create, liveStep, seqStep, onSeq, SeqOp.names]
  rcases smallRun_spec (e := exSmallEnv) (N := 2) (init := true) rfl rfl _ _ _ (Small.start 0 2 3)
    (by simp [SmallSpecified, Specified]) hc with ⟨w', t, h1, h2, h3⟩ | ⟨h1, -⟩
  · have : smallRun exSmallEnv 2 true (some 0) 0 [(true, .make 0 [some 1, some 2]), (true, .member (.push 0 (some 3))),
      (true, .make 2 [])] ⟨[], List.replicate 3 none⟩ = .done exSmallWorld := by decide
    rw [this] at h1
    cases h1
    have h4 : exSmallWorld.seqs = [some [some 1, some 2, some 3], none, some []] := by decide
    rw [← h4, h3.1]
    exact h3
  · have : smallRun exSmallEnv 2 true (some 0) 0 [(true, .make 0 [some 1, some 2]), (true, .member (.push 0 (some 3))),
      (true, .make 2 [])] ⟨[], List.replicate 3 none⟩ = .done exSmallWorld := by decide
    rw [this] at h1
    cases h1

example : smallRun1 exSmallEnv 2 true (some 0) 0 false exSmallWorld (.makeMove 1 0) = .terminated ∧
    smallRun1 exSmallEnv 2 true (some 0) 0 false exSmallWorld (.exchange 2 0) = .terminated ∧
    smallRun1 exSmallEnv 2 true (some 0) 0 false exSmallWorld (.moveAssign 2 0) = .terminated ∧
    smallRun1 exSmallEnv 2 true (some 0) 0 false exSmallWorld (.makeCopy 1 0) = .threw exSmallWorld := by decide

/-- Two vectors on the heap with allocators 1 and 2. -/
def exTwoAllocators : HWorld Int :=
  ⟨[⟨1, [some 1, some 2, some 3], true⟩, ⟨2, [some 4, some 5, some 6], true⟩],
    [some ⟨1, some 0, [], 3, 3⟩, some ⟨2, some 1, [], 3, 3⟩]⟩

example : exTwoAllocators.seqs = [some [some 1, some 2, some 3], some [some 4, some 5, some 6]] ∧
    smallRun exSmallEnv 2 true (some 0) 0 [(true, .drop 0), (true, .drop 1)] exTwoAllocators =
      .done ⟨[⟨1, [some 1, some 2, some 3], false⟩, ⟨2, [some 4, some 5, some 6], false⟩], [none, none]⟩ ∧
    smallRun exSmallEnv 2 true (some 0) 0 [(true, .exchange 0 1), (true, .drop 0)] exTwoAllocators = .ub := by decide

/-- Strings, say: for them even an empty vector of which room was asked is undefined at its end. -/
example : smallRun (⟨false, 0, id⟩ : StoreEnv Int) 4 true (some 0) 0
    [(true, .make 0 []), (true, .member (.reserve 0 9)), (true, .drop 0)] ⟨[], [none]⟩ = .ub ∧
    smallRun (⟨false, 0, id⟩ : StoreEnv Int) 4 true (some 0) 0
      [(true, .make 0 []), (true, .member (.reserve 0 4)), (true, .drop 0)] ⟨[], [none]⟩ = .done ⟨[], [none]⟩ := by decide

end Xt
