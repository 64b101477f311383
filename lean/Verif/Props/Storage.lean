import Verif.Lemmas.Storage
/-!
# C70: storages own their memory, and hold the sequences they should
-/

namespace Xt
open Spec

variable {α : Type}

/-! ### `uvector` -/

/-- The block a name owns. -/
def uOwn (v : Option UVec) : Option Nat := v.bind (·.block)

/-- A name holds what the specification says: nothing, or a vector with one block of exactly its elements. -/
def uHolds (e : StoreEnv α) (a : Nat) (h : List (Block α)) : Option UVec → Option (List (Option α)) → Prop
  | none, none => True
  | some v, some l => v.alloc = a ∧ v.size = l.length ∧ (e.trivial = false → ∀ x ∈ l, x ≠ none) ∧
      match v.block with
      | none => l = []
      | some p => h[p]? = some ⟨a, l, true⟩
  | _, _ => False

/-- The program state `w` represents the sequences `s`. -/
def uRep (e : StoreEnv α) (a : Nat) (w : UWorld α) (s : List (Option (List (Option α)))) : Prop :=
  Holds uOwn (uHolds e a) w.heap w.vars s

theorem uLocal (e : StoreEnv α) (a : Nat) : Local uOwn (uHolds e a) := by
  constructor
  · intro h h' v s hh hr
    match v, s, hr with
    | none, none, _ => trivial
    | some ⟨b, none, n⟩, some l, hr => exact hr
    | some ⟨b, some p, n⟩, some l, hr =>
      obtain ⟨h1, h2, h3, h4⟩ := hr
      refine ⟨h1, h2, h3, ?_⟩
      show h'[p]? = _
      rw [hh p rfl]; exact h4
  · intro h v s p hr hp
    match v, s, hr with
    | none, none, _ => simp [uOwn] at hp
    | some ⟨b, none, n⟩, some l, hr => simp [uOwn] at hp
    | some ⟨b, some q, n⟩, some l, hr =>
      obtain ⟨h1, h2, h3, h4⟩ := hr
      simp [uOwn] at hp
      subst hp
      by_contra hc
      have h4 : h[q]? = some ⟨a, l, true⟩ := h4
      rw [List.getElem?_eq_none (by omega)] at h4
      cases h4

theorem seqOf_some {s : List (Option (List (Option α)))} {k : Nat} {l : List (Option α)} (h : seqOf s k = some l) :
    s[k]? = some (some l) := by
  unfold seqOf at h
  cases hs : s[k]? with
  | none => simp [hs] at h
  | some x => simp [hs] at h; rw [h]

theorem uRep.get {e : StoreEnv α} {a : Nat} {w : UWorld α} {s : List (Option (List (Option α)))} (H : uRep e a w s) {k : Nat}
    {l : List (Option α)} (h : s[k]? = some (some l)) :
    ∃ v, w.vars[k]? = some (some v) ∧ w.get k = .ok v ∧ uHolds e a w.heap (some v) (some l) := by
  obtain ⟨v, h1, h2⟩ := Holds.get H h
  cases v with
  | none => exact h2.elim
  | some v => exact ⟨v, h1, by simp [UWorld.get, h1, orUb], h2⟩

theorem uRep.free {e : StoreEnv α} {a : Nat} {w : UWorld α} {s : List (Option (List (Option α)))} (H : uRep e a w s) {k : Nat}
    (h : s[k]? = some none) : w.vars[k]? = some none := by
  obtain ⟨v, h1, h2⟩ := Holds.get H h
  cases v with
  | none => exact h1
  | some v => exact h2.elim

/-- The elements of a vector. -/
theorem uHolds.elements {e : StoreEnv α} {a : Nat} {h : List (Block α)} {v : UVec} {l : List (Option α)}
    (H : uHolds e a h (some v) (some l)) : elementsFrom h v.block v.size = .ok l := by
  obtain ⟨h1, h2, h3, h4⟩ := H
  cases hb : v.block with
  | none => rw [hb] at h4; simp [elementsFrom, h2, h4]
  | some p => rw [hb] at h4; simp [elementsFrom, blockCells_eq h4, h2]

/-- The block of a vector can be released: the other blocks stay as they are. -/
theorem uHolds.release {e : StoreEnv α} {a : Nat} {h : List (Block α)} {v : UVec} {l : List (Option α)}
    (H : uHolds e a h (some v) (some l)) : ∃ h', safeDestroyDeallocate e h a v.block v.size = .ok h' ∧
      h'.length = h.length ∧ (∀ p, v.block ≠ some p → h'[p]? = h[p]?) ∧
      ∀ (p : Nat) b, h'[p]? = some b → b.live = true → h[p]? = some b ∧ v.block ≠ some p := by
  obtain ⟨h1, h2, h3, h4⟩ := H
  cases hb : v.block with
  | none => exact ⟨h, rfl, rfl, fun _ _ => rfl, fun p b hp _ => ⟨hp, by simp⟩⟩
  | some q =>
    rw [hb] at h4
    have h4 : h[q]? = some ⟨a, l, true⟩ := h4
    obtain ⟨c', hc⟩ := safeDestroyDeallocate_eq e h4 h3
    rw [h2]
    have hq : q < h.length := by
      by_contra hc
      rw [List.getElem?_eq_none (by omega)] at h4
      cases h4
    refine ⟨_, hc, by simp, ?_, ?_⟩
    · intro p hp
      rw [List.getElem?_set_ne]
      rintro rfl; exact hp rfl
    · intro p b hp hl
      by_cases hpq : p = q
      · subst hpq
        rw [List.getElem?_set_self hq] at hp
        cases hp; cases hl
      · rw [List.getElem?_set_ne (Ne.symm hpq)] at hp
        exact ⟨hp, by simpa using Ne.symm hpq⟩

/-- The same, after new blocks were appended to the heap. -/
theorem uHolds.append {e : StoreEnv α} {a : Nat} {h : List (Block α)} {v : Option UVec} {l : Option (List (Option α))}
    (H : uHolds e a h v l) (b : Block α) : uHolds e a (h ++ [b]) v l := by
  refine (uLocal e a).frame h _ v l ?_ H
  intro p hp
  have := (uLocal e a).dom h v l p H hp
  rw [List.getElem?_append_left this]

/-- A name that owned nothing gets a new block. -/
theorem uRep.fresh {e : StoreEnv α} {a : Nat} {w : UWorld α} {s : List (Option (List (Option α)))} (H : uRep e a w s) {k : Nat}
    {v : Option UVec} (hk : w.vars[k]? = some v) (hv : uOwn v = none) (l : List (Option α))
    (hl : e.trivial = false → ∀ x ∈ l, x ≠ none) :
    uRep e a ⟨w.heap ++ [⟨a, l, true⟩], w.vars.set k (some ⟨a, some w.heap.length, l.length⟩)⟩ (s.set k (some l)) := by
  refine Holds.update (uLocal e a) H hk ?_ ?_ ?_ ?_
  · intro p hp _
    exact List.getElem?_append_left hp
  · exact ⟨rfl, rfl, hl, by simp⟩
  · intro p hp
    right
    simp [uOwn] at hp
    omega
  · intro p b hp hb
    by_cases hpl : p < w.heap.length
    · right
      rw [List.getElem?_append_left hpl] at hp
      exact ⟨hp, by simp [hv]⟩
    · left
      have : p = w.heap.length := by
        by_contra hc
        rw [List.getElem?_eq_none (by simp; omega)] at hp
        cases hp
      simp [uOwn, this]

/-- A name that owned nothing gets an empty vector without a block. -/
theorem uRep.empty {e : StoreEnv α} {a : Nat} {w : UWorld α} {s : List (Option (List (Option α)))} (H : uRep e a w s) {k : Nat}
    {v : Option UVec} (hk : w.vars[k]? = some v) (hv : uOwn v = none) :
    uRep e a ⟨w.heap, w.vars.set k (some ⟨a, none, 0⟩)⟩ (s.set k (some [])) := by
  refine Holds.update (uLocal e a) H hk (fun _ _ _ => rfl) ⟨rfl, rfl, by simp, rfl⟩ ?_ ?_
  · intro p hp; simp [uOwn] at hp
  · intro p b hp _; exact .inr ⟨hp, by simp [hv]⟩

theorem newElements_some (e : StoreEnv α) (n : Nat) : e.trivial = false → ∀ x ∈ newElements e.trivial e.init n, x ≠ none := by
  intro h x hx
  simp only [newElements, h, List.mem_replicate] at hx
  simp [hx.2]

/-- Construction from elements. -/
theorem initData_rep {e : StoreEnv α} {a : Nat} {w : UWorld α} {s : List (Option (List (Option α)))} (H : uRep e a w s) {k : Nat}
    (hk : w.vars[k]? = some none) (l : List (Option α)) (hl : e.trivial = false → ∀ x ∈ l, x ≠ none) :
    ∃ r, initData e w.heap a l = .ok r ∧ uRep e a ⟨r.1, w.vars.set k (some r.2)⟩ (s.set k (some l)) := by
  unfold initData
  by_cases h0 : l.length ≠ 0
  · rw [if_pos h0]
    simp only [allocate]
    rw [uninitializedCopy_eq e (a := a) (c := List.replicate l.length none) (by simp) l (by simp)
      (.inr (by simp)), append_set_length]
    exact ⟨_, rfl, H.fresh hk rfl l hl⟩
  · rw [if_neg h0]
    have : l = [] := List.length_eq_zero_iff.1 (by omega)
    subst this
    exact ⟨_, rfl, H.empty hk rfl⟩

/-- A vector gets another size: an allocation, and the release of the old block. -/
theorem resizeImpl_rep {e : StoreEnv α} {a : Nat} {w : UWorld α} {s : List (Option (List (Option α)))} (H : uRep e a w s)
    {k : Nat} {v : UVec} {l : List (Option α)} (hk : w.vars[k]? = some (some v)) (hv : uHolds e a w.heap (some v) (some l))
    (n : Nat) : ∃ r, resizeImpl e w.heap v n = .ok r ∧
      uRep e a ⟨r.1, w.vars.set k (some r.2)⟩ (s.set k (some (resized e.trivial e.init l n))) ∧
      uHolds e a r.1 (some r.2) (some (resized e.trivial e.init l n)) ∧
      ∀ p, p < w.heap.length → v.block ≠ some p → r.1[p]? = w.heap[p]? := by
  have hsz : v.size = l.length := hv.2.1
  have hal : v.alloc = a := hv.1
  unfold resizeImpl resized
  by_cases hn : n ≠ v.size
  · rw [if_pos hn, if_neg (by omega), hal, safeInitAllocate_eq]
    simp only [Res.bind_ok]
    obtain ⟨h', h1, h2, h3, h4⟩ := (hv.append ⟨a, newElements e.trivial e.init n, true⟩).release
    rw [h1]
    have hne : v.block ≠ some w.heap.length := by
      intro hc
      have := (uLocal e a).dom w.heap (some v) (some l) w.heap.length hv (by simpa [uOwn] using hc)
      omega
    have hsame : ∀ p, p < w.heap.length → v.block ≠ some p → h'[p]? = w.heap[p]? := by
      intro p hp hvp
      rw [h3 p hvp, List.getElem?_append_left hp]
    have hnew : uHolds e a h' (some ⟨a, some w.heap.length, n⟩) (some (newElements e.trivial e.init n)) := by
      refine ⟨rfl, (length_newElements _ _ _).symm, newElements_some e n, ?_⟩
      show h'[w.heap.length]? = _
      rw [h3 _ hne]; simp
    refine ⟨_, rfl, ?_, hnew, hsame⟩
    refine Holds.update (uLocal e a) H hk ?_ hnew ?_ ?_
    · intro p hp hvp; exact hsame p hp (by simpa [uOwn] using hvp)
    · intro p hp
      right
      simp [uOwn] at hp
      omega
    · intro p b hp hb
      obtain ⟨h5, h6⟩ := h4 p b hp hb
      by_cases hpl : p < w.heap.length
      · right
        rw [List.getElem?_append_left hpl] at h5
        exact ⟨h5, by simpa [uOwn] using h6⟩
      · left
        have : p = w.heap.length := by
          by_contra hc
          rw [List.getElem?_eq_none (by simp; omega)] at h5
          cases h5
        simp [uOwn, this]
  · rw [if_neg hn, if_pos (by omega)]
    refine ⟨_, rfl, ?_, hv, fun _ _ _ => rfl⟩
    refine Holds.update (uLocal e a) H hk (fun _ _ _ => rfl) hv (fun p hp => .inl hp) ?_
    intro p b hp hb
    by_cases hpv : uOwn (some v) = some p
    · exact .inl hpv
    · exact .inr ⟨hp, hpv⟩

/-- The elements of a vector are overwritten in place. -/
theorem uRep.overwrite {e : StoreEnv α} {a : Nat} {w : UWorld α} {s : List (Option (List (Option α)))} (H : uRep e a w s)
    {k p : Nat} {v : UVec} {l : List (Option α)} (hk : w.vars[k]? = some (some v))
    (hv : uHolds e a w.heap (some v) (some l)) (hb : v.block = some p) (l' : List (Option α)) (hlen : l'.length = l.length)
    (hl' : e.trivial = false → ∀ x ∈ l', x ≠ none) :
    uRep e a ⟨w.heap.set p ⟨a, l', true⟩, w.vars⟩ (s.set k (some l')) := by
  have hp : p < w.heap.length := (uLocal e a).dom w.heap (some v) (some l) p hv (by simpa [uOwn] using hb)
  have : w.vars = w.vars.set k (some v) := by
    apply List.ext_getElem?
    intro i
    by_cases hi : k = i
    · subst hi
      have hkl : k < w.vars.length := by
        by_contra hc
        rw [List.getElem?_eq_none (by omega)] at hk
        cases hk
      rw [List.getElem?_set_self hkl, hk]
    · rw [List.getElem?_set_ne hi]
  unfold uRep
  simp only []
  rw [this]
  refine Holds.update (uLocal e a) H hk ?_ ?_ (fun q hq => .inl hq) ?_
  · intro q hq hvq
    rw [List.getElem?_set_ne]
    rintro rfl
    exact hvq (by simpa [uOwn] using hb)
  · obtain ⟨h1, h2, h3, h4⟩ := hv
    refine ⟨h1, by omega, hl', ?_⟩
    rw [hb]
    simp [hp]
  · intro q b hq hbl
    by_cases hqp : q = p
    · subst hqp; exact .inl (by simpa [uOwn] using hb)
    · rw [List.getElem?_set_ne (Ne.symm hqp)] at hq
      refine .inr ⟨hq, ?_⟩
      simp only [uOwn, Option.bind_some, hb, ne_eq, Option.some.injEq]
      exact Ne.symm hqp

theorem create_some {s s' : List (Option (List (Option α)))} {k : Nat} {l : List (Option α)} (h : create s k l = some s') :
    s[k]? = some none ∧ s' = s.set k (some l) := by
  unfold create at h
  split at h
  · rename_i h1; exact ⟨h1, by simpa using h.symm⟩
  · cases h

theorem set_getElem? {β : Type} {l : List β} {k : Nat} {x : β} (h : l[k]? = some x) : l.set k x = l := by
  apply List.ext_getElem?
  intro i
  by_cases hi : k = i
  · subst hi
    have hkl : k < l.length := by
      by_contra hc
      rw [List.getElem?_eq_none (by omega)] at h
      cases h
    rw [List.getElem?_set_self hkl, h]
  · rw [List.getElem?_set_ne hi]

theorem lt_of_getElem? {β : Type} {l : List β} {k : Nat} {x : β} (h : l[k]? = some x) : k < l.length := by
  by_contra hc
  rw [List.getElem?_eq_none (by omega)] at h
  cases h

/-- One operation. -/
theorem uStep_rep (e : StoreEnv α) (a : Nat) (hsel : e.select a = a) (w : UWorld α) (s s' : List (Option (List (Option α))))
    (o : StoreOp α) (H : uRep e a w s) (hs : storeStep e.trivial e.init s o = some s') :
    ∃ w', uStep e a w o = .ok w' ∧ uRep e a w' s' := by
  cases o with
  | ctorCount k n =>
    obtain ⟨h1, rfl⟩ := create_some hs
    have hk := H.free h1
    simp only [uStep, UWorld.create, if_pos hk, uCount]
    by_cases h0 : n ≠ 0
    · rw [if_pos h0, safeInitAllocate_eq]
      have := H.fresh hk rfl (newElements e.trivial e.init n) (newElements_some e n)
      rw [length_newElements] at this
      exact ⟨_, rfl, this⟩
    · rw [if_neg h0]
      have : n = 0 := by omega
      subst this
      exact ⟨_, rfl, H.empty hk rfl⟩
  | ctorFill k n x =>
    obtain ⟨h1, rfl⟩ := create_some hs
    have hk := H.free h1
    simp only [uStep, UWorld.create, if_pos hk, uFill]
    by_cases h0 : n ≠ 0
    · rw [if_pos h0]
      simp only [allocate]
      rw [uninitializedCopy_eq e (a := a) (c := List.replicate n none) (by simp) _ (by simp) (.inr (by simp)), append_set_length]
      have := H.fresh hk rfl (List.replicate n (some x)) (by simp)
      rw [List.length_replicate] at this
      exact ⟨_, rfl, this⟩
    · rw [if_neg h0]
      have : n = 0 := by omega
      subst this
      exact ⟨_, rfl, H.empty hk rfl⟩
  | ctorList k l =>
    obtain ⟨h1, rfl⟩ := create_some hs
    have hk := H.free h1
    simp only [uStep, UWorld.create, if_pos hk]
    obtain ⟨r, h2, h3⟩ := initData_rep H hk (l.map some) (by simp)
    rw [h2]
    exact ⟨_, rfl, h3⟩
  | ctorCopy k j =>
    simp only [storeStep, Option.bind_eq_some_iff] at hs
    obtain ⟨l, hl, hs⟩ := hs
    obtain ⟨h1, rfl⟩ := create_some hs
    have hk := H.free h1
    obtain ⟨v, hv1, hv2, hv3⟩ := H.get (seqOf_some hl)
    simp only [uStep, hv2, Res.bind_ok, UWorld.create, if_pos hk, uCopy, hv3.elements, hv3.1, hsel]
    obtain ⟨r, h2, h3⟩ := initData_rep H hk l hv3.2.2.1
    rw [h2]
    exact ⟨_, rfl, h3⟩
  | ctorMove k j =>
    simp only [storeStep, Option.bind_eq_some_iff] at hs
    obtain ⟨l, hl, hs⟩ := hs
    obtain ⟨h1, rfl⟩ := create_some hs
    have hj := seqOf_some hl
    obtain ⟨v, hv1, hv2, hv3⟩ := H.get hj
    have hkj : j ≠ k := by
      rintro rfl
      rw [List.getElem?_set_self (lt_of_getElem? hj)] at h1
      cases h1
    rw [List.getElem?_set_ne hkj] at h1
    have hk := H.free h1
    simp only [uStep, hv2, Res.bind_ok, UWorld.create]
    rw [if_pos (by rw [List.getElem?_set_ne hkj]; exact hk)]
    refine ⟨_, rfl, ?_⟩
    have h2 := Holds.swap H hk hv1 h1 hj
    have h3 := uRep.empty (e := e) (a := a) (w := ⟨w.heap, (w.vars.set k (some v)).set j none⟩) (k := j) (v := none) h2
      (by rw [List.getElem?_set_self (by simpa using lt_of_getElem? hv1)]) rfl
    simp only [List.set_set] at h3
    show uRep e a ⟨w.heap, (w.vars.set j (some ⟨v.alloc, none, 0⟩)).set k (some v)⟩ _
    rw [List.set_comm _ _ hkj, List.set_comm _ _ hkj, hv3.1]
    exact h3
  | copy k j =>
    simp only [storeStep, Option.bind_eq_some_iff, Option.map_eq_some_iff] at hs
    obtain ⟨l, hl, m, hm, rfl⟩ := hs
    have hj := seqOf_some hl
    have hk := seqOf_some hm
    obtain ⟨u, hu1, hu2, hu3⟩ := H.get hj
    obtain ⟨v, hv1, hv2, hv3⟩ := H.get hk
    simp only [uStep, hu2, Res.bind_ok]
    by_cases hkj : k ≠ j
    · rw [if_pos hkj]
      simp only [UWorld.change, hv2, Res.bind_ok, uCopyAssign, hu3.1, hsel]
      have hva : (⟨a, v.block, v.size⟩ : UVec) = v := by rw [← hv3.1]
      rw [hva, hu3.2.1]
      obtain ⟨r, h1, h2, h3, h4⟩ := resizeImpl_rep H hv1 hv3 l.length
      rw [h1]
      have hu4 : uHolds e a r.1 (some u) (some l) := by
        refine (uLocal e a).frame w.heap r.1 _ _ ?_ hu3
        intro p hp
        refine h4 p ((uLocal e a).dom _ _ _ p hu3 hp) ?_
        intro hc
        exact Holds.sep H k j (some v) (some u) p hkj hv1 hu1 hc hp
      have hsz := hu3.2.1
      have hel := hu4.elements
      rw [hsz] at hel
      simp only [Res.bind_ok, hel]
      have hlen : (resized e.trivial e.init m l.length).length = l.length := by
        unfold resized; split
        · omega
        · exact length_newElements _ _ _
      cases hb : r.2.block with
      | none =>
        have h5 : resized e.trivial e.init m l.length = [] := by
          have := h3.2.2.2
          rw [hb] at this
          exact this
        have : l = [] := by rw [h5] at hlen; exact List.length_eq_zero_iff.1 (by simpa using hlen.symm)
        subst this
        rw [h5] at h2
        exact ⟨_, rfl, h2⟩
      | some p =>
        have hb' := h3.2.2.2
        rw [hb] at hb'
        have hx : (if e.trivial = true then uninitializedCopy e r.1 p l else stdCopy e r.1 p l) =
            .ok (r.1.set p ⟨a, l, true⟩) := by
          cases ht : e.trivial with
          | true => rw [if_pos rfl]; exact uninitializedCopy_eq e hb' l hlen.symm (.inl ht)
          | false => rw [if_neg (by simp)]; exact stdCopy_eq e hb' l hlen.symm (.inr (h3.2.2.1 ht))
        simp only [hx]
        refine ⟨_, rfl, ?_⟩
        have := uRep.overwrite (w := ⟨r.1, w.vars.set k (some r.2)⟩) (v := r.2) h2
          (by rw [List.getElem?_set_self (lt_of_getElem? hv1)]) h3 hb l hlen.symm hu3.2.2.1
        rw [List.set_set] at this
        exact this
    · rw [if_neg hkj]
      have : k = j := by omega
      subst this
      rw [hj] at hk
      refine ⟨_, rfl, ?_⟩
      rw [set_getElem? hj]
      exact H
  | move k j =>
    simp only [storeStep, Option.bind_eq_some_iff, Option.map_eq_some_iff] at hs
    obtain ⟨l, hl, m, hm, rfl⟩ := hs
    have hj := seqOf_some hl
    have hk := seqOf_some hm
    obtain ⟨u, hu1, hu2, hu3⟩ := H.get hj
    obtain ⟨v, hv1, hv2, hv3⟩ := H.get hk
    simp only [uStep, hu2, Res.bind_ok]
    simp only [UWorld.change, UWorld.get, uMove]
    by_cases hkj : k = j
    · subst hkj
      rw [hv1] at hu1
      cases hu1
      rw [List.getElem?_set_self (lt_of_getElem? hv1)]
      simp only [Option.bind_some, id, orUb, Res.bind_ok, uDestroy, safeDestroyDeallocate, List.set_set]
      refine ⟨_, rfl, ?_⟩
      rw [hk] at hj
      cases hj
      show uRep e a ⟨w.heap, w.vars.set k (some u)⟩ _
      rw [set_getElem? hk, set_getElem? hv1]
      exact H
    · rw [List.getElem?_set_ne (Ne.symm hkj), hv1]
      simp only [Option.bind_some, id, orUb, Res.bind_ok, uDestroy, hu3.1]
      obtain ⟨h', h1, h2, h3, h4⟩ := hv3.release
      rw [h1]
      refine ⟨_, rfl, ?_⟩
      have h5 := Holds.swap H hv1 hu1 hk hj
      have h6 := Holds.update (v' := some ⟨a, none, 0⟩) (s' := some []) (uLocal e a) h5 (k := j) (v := some v) (h' := h')
        (by rw [List.getElem?_set_self (by simpa using lt_of_getElem? hu1)])
        (fun p hp hvp => h3 p (by simpa [uOwn] using hvp)) ⟨rfl, rfl, by simp, rfl⟩ (fun p hp => by simp [uOwn] at hp)
        (fun p b hp hb => .inr (by simpa [uOwn] using h4 p b hp hb))
      simp only [List.set_set] at h6
      rw [List.set_comm _ _ hkj, List.set_comm _ _ hkj] at h6
      have hua : (⟨v.alloc, u.block, u.size⟩ : UVec) = u := by rw [hv3.1, ← hu3.1]
      rw [hua]
      exact h6
  | resize k n =>
    simp only [storeStep, Option.map_eq_some_iff] at hs
    obtain ⟨l, hl, rfl⟩ := hs
    obtain ⟨v, hv1, hv2, hv3⟩ := H.get (seqOf_some hl)
    obtain ⟨r, h1, h2, -⟩ := resizeImpl_rep H hv1 hv3 n
    simp only [uStep, UWorld.change, hv2, Res.bind_ok, h1]
    exact ⟨_, rfl, h2⟩
  | write k i x =>
    simp only [storeStep, Option.bind_eq_some_iff] at hs
    obtain ⟨l, hl, hs⟩ := hs
    obtain ⟨hi, rfl⟩ : i < l.length ∧ s' = s.set k (some (l.set i (some x))) := by
      split at hs
      · rename_i h1; exact ⟨h1, by simpa using hs.symm⟩
      · cases hs
    obtain ⟨v, hv1, hv2, hv3⟩ := H.get (seqOf_some hl)
    simp only [uStep, UWorld.change, hv2, Res.bind_ok, uWrite]
    have hb := hv3.2.2.2
    cases hvb : v.block with
    | none => rw [hvb] at hb; rw [hb] at hi; simp at hi
    | some p =>
      rw [hvb] at hb
      have hx : assignAt e w.heap p i (some x) = .ok (w.heap.set p ⟨a, l.set i (some x), true⟩) := by
        simp only [assignAt, blockCells_eq hb, Res.bind_ok, List.getElem?_eq_getElem hi, setCells_eq _ hb]
        cases hli : l[i] with
        | none =>
          cases ht : e.trivial with
          | true => rfl
          | false => exact absurd hli (hv3.2.2.1 ht _ (List.getElem_mem hi))
        | some y => rfl
      simp only [hx]
      refine ⟨_, rfl, ?_⟩
      show uRep e a ⟨_, w.vars.set k (some v)⟩ _
      rw [set_getElem? hv1]
      refine H.overwrite hv1 hv3 hvb _ (by simp) ?_
      intro ht y hy
      rcases List.mem_or_eq_of_mem_set hy with hy | rfl
      · exact hv3.2.2.1 ht y hy
      · simp
  | swap k j =>
    simp only [storeStep, Option.bind_eq_some_iff, Option.map_eq_some_iff] at hs
    obtain ⟨l, hl, m, hm, rfl⟩ := hs
    obtain ⟨v, hv1, hv2, hv3⟩ := H.get (seqOf_some hl)
    obtain ⟨u, hu1, hu2, hu3⟩ := H.get (seqOf_some hm)
    simp only [uStep, hv2, hu2, Res.bind_ok]
    exact ⟨_, rfl, Holds.swap H hv1 hu1 (seqOf_some hl) (seqOf_some hm)⟩
  | destroy k =>
    simp only [storeStep, Option.map_eq_some_iff] at hs
    obtain ⟨l, hl, rfl⟩ := hs
    obtain ⟨v, hv1, hv2, hv3⟩ := H.get (seqOf_some hl)
    simp only [uStep, hv2, Res.bind_ok, uDestroy, hv3.1]
    obtain ⟨h', h1, h2, h3, h4⟩ := hv3.release
    rw [h1]
    refine ⟨_, rfl, ?_⟩
    exact Holds.update (uLocal e a) H hv1 (fun p hp hvp => h3 p (by simpa [uOwn] using hvp)) trivial
      (fun p hp => by simp [uOwn] at hp) (fun p b hp hb => .inr (by simpa [uOwn] using h4 p b hp hb))

/-- Any history of vectors with one allocator does what it should to the sequences: nothing undefined happens, every vector
holds its elements in a block of its own, and every block in use belongs to a vector. -/
theorem C70_uvector (e : StoreEnv α) (a : Nat) (hsel : e.select a = a) : ∀ (os : List (StoreOp α)) (w : UWorld α)
    (s s' : List (Option (List (Option α)))), uRep e a w s → storeRun e.trivial e.init os s = some s' →
    ∃ w', uRun e a os w = .ok w' ∧ uRep e a w' s'
  | [], w, s, s', H, hs => by
    simp only [storeRun, Option.some.injEq] at hs
    subst hs
    exact ⟨w, rfl, H⟩
  | o :: os, w, s, s', H, hs => by
    simp only [storeRun, Option.bind_eq_some_iff] at hs
    obtain ⟨t, h1, h2⟩ := hs
    obtain ⟨w', h3, h4⟩ := uStep_rep e a hsel w s t o H h1
    obtain ⟨w'', h5, h6⟩ := C70_uvector e a hsel os w' t s' h4 h2
    exact ⟨w'', by simp [uRun, h3, h5], h6⟩

/-- Nothing has been constructed. -/
theorem uRep_start (e : StoreEnv α) (a n : Nat) : uRep e a ⟨[], List.replicate n none⟩ (List.replicate n none) := by
  refine ⟨by simp, ?_, ?_, ?_⟩
  · intro k v s hv hs
    simp only [List.getElem?_replicate] at hv hs
    split at hv <;> simp at hv hs
    obtain ⟨-, rfl⟩ := hs
    subst hv
    trivial
  · intro j k v w p _ hj _ ho
    simp only [List.getElem?_replicate] at hj
    split at hj <;> simp at hj
    subst hj
    simp [uOwn] at ho
  · intro p b hp; simp at hp

/-- From the start: nothing undefined happens in a history that is allowed. -/
theorem C70_uvector_from_start (e : StoreEnv α) (a n : Nat) (hsel : e.select a = a) (os : List (StoreOp α))
    (s : List (Option (List (Option α)))) (hs : storeRun e.trivial e.init os (List.replicate n none) = some s) :
    ∃ w, uRun e a os ⟨[], List.replicate n none⟩ = .ok w ∧ uRep e a w s :=
  C70_uvector e a hsel os _ _ s (uRep_start e a n) hs

/-- When all vectors are gone, all memory was given back. -/
theorem C70_uvector_no_leak (e : StoreEnv α) (a n m : Nat) (hsel : e.select a = a) (os : List (StoreOp α))
    (hs : storeRun e.trivial e.init os (List.replicate n none) = some (List.replicate m none)) :
    ∃ w, uRun e a os ⟨[], List.replicate n none⟩ = .ok w ∧ ∀ b ∈ w.heap, b.live = false := by
  obtain ⟨w, h1, H⟩ := C70_uvector_from_start e a n hsel os _ hs
  refine ⟨w, h1, ?_⟩
  intro b hb
  obtain ⟨p, hp⟩ := List.mem_iff_getElem?.1 hb
  by_contra hc
  obtain ⟨k, v, hk, ho⟩ := H.all p b hp (by simpa using hc)
  have hks : k < (List.replicate m (none : Option (List (Option α)))).length := by
    have := lt_of_getElem? hk
    have := H.len
    omega
  have := H.rep k v none hk (by simp [List.getElem?_replicate] at hks ⊢; exact hks)
  cases v with
  | none => simp [uOwn] at ho
  | some v => exact this

/-- Access: `operator[]`, `at`, `front` and `back` find the elements of the sequence; `at` throws outside it. -/
theorem C70_uvector_access (e : StoreEnv α) (a : Nat) (w : UWorld α) (s : List (Option (List (Option α)))) (H : uRep e a w s)
    (k : Nat) (l : List (Option α)) (hk : s[k]? = some (some l)) : ∃ v, w.get k = .ok v ∧ v.size = l.length ∧
      (∀ i x, l[i]? = some (some x) → uRead w.heap v i = .ok x ∧ uAt w.heap v i = .ok x) ∧
      (∀ i, l.length ≤ i → uAt w.heap v i = .throws) ∧
      (∀ x, l.head? = some (some x) → uFront w.heap v = .ok x) ∧
      (∀ x, l.getLast? = some (some x) → uBack w.heap v = .ok x) := by
  obtain ⟨v, -, h2, h3, h4, h5, h6⟩ := H.get hk
  have hread : ∀ i x, l[i]? = some (some x) → uRead w.heap v i = .ok x := by
    intro i x hi
    unfold uRead
    cases hb : v.block with
    | none => rw [hb] at h6; rw [h6] at hi; simp at hi
    | some p => rw [hb] at h6; simp [blockCells_eq h6, hi]
  refine ⟨v, h2, h4, ?_, ?_, ?_, ?_⟩
  · intro i x hi
    refine ⟨hread i x hi, ?_⟩
    unfold uAt
    rw [if_neg (by have := lt_of_getElem? hi; omega)]
    exact hread i x hi
  · intro i hi
    unfold uAt
    rw [if_pos (by omega)]
  · intro x hx
    rw [List.head?_eq_getElem?] at hx
    exact hread 0 x hx
  · intro x hx
    rw [List.getLast?_eq_getElem?] at hx
    unfold uBack
    rw [if_neg (by have := lt_of_getElem? hx; omega), h4]
    exact hread _ x hx

/-! ### `xbuffer_adaptor` with `acquire_ownership` -/

/-- The buffer of an adaptor as if it were a vector. -/
def OwnerBuf.toU (v : OwnerBuf) : UVec := ⟨v.alloc, v.data, v.size⟩

/-- The block a name owns. -/
def oOwn (v : Option OwnerBuf) : Option Nat := v.bind fun v => if v.movedFrom then none else v.data

/-- A name holds what the specification says. -/
def oHolds (e : StoreEnv α) (a : Nat) (h : List (Block α)) : Option OwnerBuf → OwnerVal α → Prop
  | none, .nothing => True
  | some v, .moved => v.movedFrom = true
  | some v, .val l => v.movedFrom = false ∧ uHolds e a h (some v.toU) (some l)
  | _, _ => False

/-- The program state `w` represents the sequences `s`. -/
def oRep (e : StoreEnv α) (a : Nat) (w : OwnerWorld α) (s : List (OwnerVal α)) : Prop :=
  Holds oOwn (oHolds e a) w.heap w.vars s

theorem oLocal (e : StoreEnv α) (a : Nat) : Local oOwn (oHolds e a) := by
  constructor
  · intro h h' v s hh hr
    match v, s, hr with
    | none, .nothing, _ => trivial
    | some v, .moved, hr => exact hr
    | some v, .val l, hr =>
      refine ⟨hr.1, (uLocal e a).frame h h' _ _ ?_ hr.2⟩
      intro p hp
      exact hh p (by simp [oOwn, hr.1]; simpa [uOwn, OwnerBuf.toU] using hp)
  · intro h v s p hr hp
    match v, s, hr with
    | none, .nothing, _ => simp [oOwn] at hp
    | some v, .moved, hr =>
      have hr : v.movedFrom = true := hr
      simp [oOwn, hr] at hp
    | some v, .val l, hr =>
      refine (uLocal e a).dom h (some v.toU) (some l) p hr.2 ?_
      simpa [oOwn, hr.1, uOwn, OwnerBuf.toU] using hp

theorem ownerVal_some {s : List (OwnerVal α)} {k : Nat} {l : List (Option α)} (h : ownerVal s k = some l) :
    s[k]? = some (.val l) := by
  unfold ownerVal at h
  split at h
  · rename_i l' h1; cases h; exact h1
  · cases h

theorem oRep.get {e : StoreEnv α} {a : Nat} {w : OwnerWorld α} {s : List (OwnerVal α)} (H : oRep e a w s) {k : Nat}
    {l : List (Option α)} (h : s[k]? = some (.val l)) :
    ∃ v, w.vars[k]? = some (some v) ∧ w.get k = .ok v ∧ v.movedFrom = false ∧ uHolds e a w.heap (some v.toU) (some l) ∧
      oOwn (some v) = v.data := by
  obtain ⟨v, h1, h2⟩ := Holds.get H h
  cases v with
  | none => exact h2.elim
  | some v => exact ⟨v, h1, by simp [OwnerWorld.get, h1, orUb], h2.1, h2.2, by simp [oOwn, h2.1]⟩

theorem oRep.free {e : StoreEnv α} {a : Nat} {w : OwnerWorld α} {s : List (OwnerVal α)} (H : oRep e a w s) {k : Nat}
    (h : s[k]? = some .nothing) : w.vars[k]? = some none := by
  obtain ⟨v, h1, h2⟩ := Holds.get H h
  cases v with
  | none => exact h1
  | some v => exact h2.elim

theorem userBuffer_eq (e : StoreEnv α) (h : List (Block α)) (a : Nat) (l : List α) :
    userBuffer e h a l = .ok (h ++ [⟨a, l.map some, true⟩], h.length) := by
  simp only [userBuffer, allocate]
  rw [uninitializedCopy_eq e (a := a) (c := List.replicate l.length none) (by simp) _ (by simp) (.inr (by simp)),
    append_set_length]
  rfl

/-- An adaptor gets a new block and the old one is released. -/
theorem oRep.replace {e : StoreEnv α} {a : Nat} {w : OwnerWorld α} {s : List (OwnerVal α)} (H : oRep e a w s) {k : Nat}
    {v : OwnerBuf} {l : List (Option α)} (hk : w.vars[k]? = some (some v)) (hm : v.movedFrom = false)
    (hv : uHolds e a w.heap (some v.toU) (some l)) (l' : List (Option α)) (hl' : e.trivial = false → ∀ x ∈ l', x ≠ none) :
    ∃ h', safeDestroyDeallocate e (w.heap ++ [⟨a, l', true⟩]) a v.data v.size = .ok h' ∧
      oRep e a ⟨h', w.vars.set k (some ⟨some w.heap.length, l'.length, false, a⟩)⟩ (s.set k (.val l')) ∧
      h'[w.heap.length]? = some ⟨a, l', true⟩ := by
  obtain ⟨h', h1, h2, h3, h4⟩ := (hv.append ⟨a, l', true⟩).release
  have hown : oOwn (some v) = v.data := by simp [oOwn, hm]
  have hne : v.data ≠ some w.heap.length := by
    intro hc
    have := (uLocal e a).dom w.heap (some v.toU) (some l) w.heap.length hv (by simpa [uOwn, OwnerBuf.toU] using hc)
    omega
  have hget : h'[w.heap.length]? = some ⟨a, l', true⟩ := by rw [h3 _ hne]; simp
  refine ⟨h', h1, ?_, hget⟩
  refine Holds.update (oLocal e a) H hk ?_ ⟨rfl, rfl, rfl, hl', hget⟩ ?_ ?_
  · intro p hp hvp
    rw [hown] at hvp
    rw [h3 p hvp, List.getElem?_append_left hp]
  · intro p hp
    right
    simp [oOwn] at hp
    omega
  · intro p b hp hb
    obtain ⟨h5, h6⟩ := h4 p b hp hb
    by_cases hpl : p < w.heap.length
    · right
      rw [List.getElem?_append_left hpl] at h5
      exact ⟨h5, by rw [hown]; exact h6⟩
    · left
      have : p = w.heap.length := by
        by_contra hc
        rw [List.getElem?_eq_none (by simp; omega)] at h5
        cases h5
      simp [oOwn, this]

/-- The elements are overwritten in place. -/
theorem oRep.overwrite {e : StoreEnv α} {a : Nat} {w : OwnerWorld α} {s : List (OwnerVal α)} (H : oRep e a w s)
    {k p : Nat} {v : OwnerBuf} {l : List (Option α)} (hk : w.vars[k]? = some (some v)) (hm : v.movedFrom = false)
    (hv : uHolds e a w.heap (some v.toU) (some l)) (hb : v.data = some p) (l' : List (Option α)) (hlen : l'.length = l.length)
    (hl' : e.trivial = false → ∀ x ∈ l', x ≠ none) :
    oRep e a ⟨w.heap.set p ⟨a, l', true⟩, w.vars⟩ (s.set k (.val l')) := by
  have hown : oOwn (some v) = v.data := by simp [oOwn, hm]
  have hp : p < w.heap.length := (uLocal e a).dom w.heap (some v.toU) (some l) p hv (by simpa [uOwn, OwnerBuf.toU] using hb)
  have := set_getElem? hk
  unfold oRep
  simp only []
  rw [← this]
  refine Holds.update (oLocal e a) H hk ?_ ?_ (fun q hq => .inl hq) ?_
  · intro q hq hvq
    rw [List.getElem?_set_ne]
    rintro rfl
    exact hvq (by rw [hown]; exact hb)
  · obtain ⟨h1, h2, h3, h4⟩ := hv
    refine ⟨hm, h1, by omega, hl', ?_⟩
    show (match v.data with | none => l' = [] | some p => _)
    rw [hb]
    simp [hp]
  · intro q b hq hbl
    rw [hown, hb]
    by_cases hqp : q = p
    · subst hqp; exact .inl rfl
    · rw [List.getElem?_set_ne (Ne.symm hqp)] at hq
      refine .inr ⟨hq, ?_⟩
      simpa using Ne.symm hqp

theorem ownerCreate_some {s s' : List (OwnerVal α)} {k : Nat} {l : List (Option α)} (h : ownerCreate s k l = some s') :
    s[k]? = some .nothing ∧ s' = s.set k (.val l) := by
  unfold ownerCreate at h
  split at h
  · rename_i h1; exact ⟨h1, by simpa using h.symm⟩
  · cases h

theorem ownerResize_rep {e : StoreEnv α} {a : Nat} {w : OwnerWorld α} {s : List (OwnerVal α)} (H : oRep e a w s)
    {k : Nat} {v : OwnerBuf} {l : List (Option α)} (hk : w.vars[k]? = some (some v)) (hm : v.movedFrom = false)
    (hv : uHolds e a w.heap (some v.toU) (some l)) (n : Nat) : ∃ r, ownerResize e w.heap v n = .ok r ∧
      oRep e a ⟨r.1, w.vars.set k (some r.2)⟩ (s.set k (.val (resized e.trivial e.init l n))) ∧
      r.2.movedFrom = false ∧ uHolds e a r.1 (some r.2.toU) (some (resized e.trivial e.init l n)) := by
  have hsz : v.size = l.length := hv.2.1
  have hal : v.alloc = a := hv.1
  unfold ownerResize resized
  by_cases hn : n ≠ v.size
  · rw [if_pos hn, if_neg (by omega), hal, safeInitAllocate_eq]
    simp only [Res.bind_ok]
    obtain ⟨h', h1, h2, h3⟩ := H.replace hk hm hv (newElements e.trivial e.init n) (newElements_some e n)
    rw [h1]
    rw [length_newElements] at h2
    rw [hm]
    refine ⟨_, rfl, h2, rfl, rfl, (length_newElements _ _ _).symm, newElements_some e n, h3⟩
  · rw [if_neg hn, if_pos (by omega)]
    refine ⟨_, rfl, ?_, hm, hv⟩
    refine Holds.update (oLocal e a) H hk (fun _ _ _ => rfl) ⟨hm, hv⟩ (fun p hp => .inl hp) ?_
    intro p b hp hb
    by_cases hpv : oOwn (some v) = some p
    · exact .inl hpv
    · exact .inr ⟨hp, hpv⟩

theorem ownerSwap_eq {v u : OwnerBuf} (hv : v.movedFrom = false) (hu : u.movedFrom = false) : ownerSwap v u = (u, v) := by
  cases v; cases u; simp only at hv hu; subst hv; subst hu; rfl

/-- One operation. -/
theorem ownerModelStep_rep (e : StoreEnv α) (a : Nat) (hsel : e.select a = a) (w : OwnerWorld α) (s s' : List (OwnerVal α))
    (o : OwnerOp α) (H : oRep e a w s) (hs : ownerStep e.trivial e.init s o = some s') :
    ∃ w', ownerModelStep e a w o = .ok w' ∧ oRep e a w' s' := by
  cases o with
  | adopt k l =>
    obtain ⟨h1, rfl⟩ := ownerCreate_some hs
    have hk := H.free h1
    simp only [ownerModelStep, if_pos hk, userBuffer_eq]
    refine ⟨_, rfl, ?_⟩
    refine Holds.update (oLocal e a) H hk ?_ ?_ ?_ ?_
    · intro p hp _
      exact List.getElem?_append_left hp
    · exact ⟨rfl, rfl, by simp [OwnerBuf.toU, ownerNew], by simp, by simp [OwnerBuf.toU, ownerNew]⟩
    · intro p hp
      right
      simp [oOwn, ownerNew] at hp
      omega
    · intro p b hp hb
      by_cases hpl : p < w.heap.length
      · right
        simp only [List.getElem?_append_left hpl] at hp
        exact ⟨hp, by simp [oOwn]⟩
      · left
        have : p = w.heap.length := by
          by_contra hc
          rw [List.getElem?_eq_none (by simp; omega)] at hp
          cases hp
        simp [oOwn, ownerNew, this]
  | ctorMove k j =>
    simp only [ownerStep, Option.bind_eq_some_iff] at hs
    obtain ⟨l, hl, hs⟩ := hs
    obtain ⟨h1, rfl⟩ := ownerCreate_some hs
    have hj := ownerVal_some hl
    obtain ⟨v, hv1, hv2, hv3, hv4, hv5⟩ := H.get hj
    have hkj : j ≠ k := by
      rintro rfl
      rw [List.getElem?_set_self (lt_of_getElem? hj)] at h1
      cases h1
    rw [List.getElem?_set_ne hkj] at h1
    have hk := H.free h1
    simp only [ownerModelStep, hv2, Res.bind_ok, if_pos hk]
    refine ⟨_, rfl, ?_⟩
    have h2 := Holds.swap H hk hv1 h1 hj
    have h3 := Holds.update (oLocal e a) h2 (k := j) (v := none) (h' := w.heap) (v' := some ⟨v.data, 0, true, v.alloc⟩)
      (s' := .moved) (by rw [List.getElem?_set_self (by simpa using lt_of_getElem? hv1)]) (fun _ _ _ => rfl) rfl
      (fun p hp => by simp [oOwn] at hp) (fun p b hp _ => .inr ⟨hp, by simp [oOwn]⟩)
    simp only [List.set_set] at h3
    show oRep e a ⟨w.heap, (w.vars.set j (some ⟨v.data, 0, true, v.alloc⟩)).set k (some v)⟩ _
    rw [List.set_comm _ _ hkj, List.set_comm _ _ hkj]
    exact h3
  | copy k j =>
    simp only [ownerStep, Option.bind_eq_some_iff, Option.map_eq_some_iff] at hs
    obtain ⟨l, hl, m, hm, rfl⟩ := hs
    have hj := ownerVal_some hl
    have hk := ownerVal_some hm
    obtain ⟨u, hu1, hu2, hu3, hu4, hu5⟩ := H.get hj
    obtain ⟨v, hv1, hv2, hv3, hv4, hv5⟩ := H.get hk
    simp only [ownerModelStep, hu2, Res.bind_ok]
    by_cases hkj : k ≠ j
    · rw [if_pos hkj]
      have hua : u.alloc = a := hu4.1
      have hva : v.alloc = a := hv4.1
      have husz : u.size = l.length := hu4.2.1
      simp only [OwnerWorld.change, hv2, Res.bind_ok, ownerCopyAssign, hua, hsel, safeInitAllocate_eq, hva]
      have hel : elementsFrom (w.heap ++ [⟨a, newElements e.trivial e.init u.size, true⟩]) u.data u.size = .ok l :=
        (hu4.append _).elements
      simp only [hel, Res.bind_ok]
      have hx : (if e.trivial = true then
            uninitializedCopy e (w.heap ++ [⟨a, newElements e.trivial e.init u.size, true⟩]) w.heap.length l
          else stdCopy e (w.heap ++ [⟨a, newElements e.trivial e.init u.size, true⟩]) w.heap.length l) =
          .ok (w.heap ++ [⟨a, l, true⟩]) := by
        have hb : (w.heap ++ [(⟨a, newElements e.trivial e.init u.size, true⟩ : Block α)])[w.heap.length]? =
            some ⟨a, newElements e.trivial e.init u.size, true⟩ := by simp
        cases ht : e.trivial with
        | true =>
          rw [ht] at hb
          rw [if_pos rfl, uninitializedCopy_eq e hb l (by rw [length_newElements]; exact husz.symm) (.inl ht), append_set_length]
        | false =>
          rw [ht] at hb
          rw [if_neg (by simp), stdCopy_eq e hb l (by rw [length_newElements]; exact husz.symm)
            (.inr (by have := newElements_some e u.size ht; rw [ht] at this; exact this)), append_set_length]
      rw [hx]
      simp only [Res.bind_ok]
      obtain ⟨h', h1, h2, h3⟩ := H.replace hv1 hv3 hv4 l hu4.2.2.1
      rw [h1, hv3, husz]
      exact ⟨_, rfl, h2⟩
    · rw [if_neg hkj]
      have : k = j := by omega
      subst this
      refine ⟨_, rfl, ?_⟩
      rw [set_getElem? hj]
      exact H
  | move k j =>
    simp only [ownerStep, Option.bind_eq_some_iff, Option.map_eq_some_iff] at hs
    obtain ⟨l, hl, m, hm, rfl⟩ := hs
    obtain ⟨v, hv1, hv2, hv3, -⟩ := H.get (ownerVal_some hl)
    obtain ⟨u, hu1, hu2, hu3, -⟩ := H.get (ownerVal_some hm)
    simp only [ownerModelStep, hv2, hu2, Res.bind_ok, Res.map_ok]
    rw [ownerSwap_eq hv3 hu3]
    exact ⟨_, rfl, Holds.swap H hv1 hu1 (ownerVal_some hl) (ownerVal_some hm)⟩
  | assign k l =>
    simp only [ownerStep, Option.map_eq_some_iff] at hs
    obtain ⟨m, hm, rfl⟩ := hs
    obtain ⟨v, hv1, hv2, hv3, hv4, hv5⟩ := H.get (ownerVal_some hm)
    obtain ⟨r, h1, h2, h3, h4⟩ := ownerResize_rep H hv1 hv3 hv4 l.length
    simp only [ownerModelStep, OwnerWorld.change, hv2, Res.bind_ok, ownerAssign, h1]
    have hlen : (resized e.trivial e.init m l.length).length = l.length := by
      unfold resized; split
      · omega
      · exact length_newElements _ _ _
    have hb := h4.2.2.2
    cases hd : r.2.data with
    | none =>
      have h5 : resized e.trivial e.init m l.length = [] := by
        have : r.2.toU.block = none := hd
        rw [this] at hb
        exact hb
      have : l = [] := by rw [h5] at hlen; exact List.length_eq_zero_iff.1 (by simpa using hlen.symm)
      subst this
      rw [h5] at h2
      exact ⟨_, rfl, h2⟩
    | some p =>
      have : r.2.toU.block = some p := hd
      rw [this] at hb
      have ht : e.trivial = true ∨ e.trivial = false := by cases e.trivial <;> simp
      simp only [stdCopy_eq e hb (l.map some) (by simpa using hlen.symm) (ht.imp id h4.2.2.1)]
      refine ⟨_, rfl, ?_⟩
      have := oRep.overwrite (w := ⟨r.1, w.vars.set k (some r.2)⟩) (v := r.2) h2
        (by rw [List.getElem?_set_self (lt_of_getElem? hv1)]) h3 h4 hd (l.map some) (by simpa using hlen.symm) (by simp)
      rw [List.set_set] at this
      exact this
  | resize k n =>
    simp only [ownerStep, Option.map_eq_some_iff] at hs
    obtain ⟨m, hm, rfl⟩ := hs
    obtain ⟨v, hv1, hv2, hv3, hv4, hv5⟩ := H.get (ownerVal_some hm)
    obtain ⟨r, h1, h2, h3, h4⟩ := ownerResize_rep H hv1 hv3 hv4 n
    simp only [ownerModelStep, OwnerWorld.change, hv2, Res.bind_ok, h1]
    exact ⟨_, rfl, h2⟩
  | reset k l =>
    simp only [ownerStep, Option.map_eq_some_iff] at hs
    obtain ⟨m, hm, rfl⟩ := hs
    obtain ⟨v, hv1, hv2, hv3, hv4, hv5⟩ := H.get (ownerVal_some hm)
    obtain ⟨h', h1, h2, h3⟩ := H.replace hv1 hv3 hv4 (l.map some) (by simp)
    have hva : v.alloc = a := hv4.1
    simp only [ownerModelStep, OwnerWorld.change, hv2, Res.bind_ok, userBuffer_eq, ownerReset]
    rw [ownerSwap_eq hv3 (u := ownerNew w.heap.length l.length a) rfl]
    simp only [ownerDestroy, hv3, hva, Bool.false_eq_true, not_false_eq_true, if_true, h1]
    refine ⟨_, rfl, ?_⟩
    rw [List.length_map] at h2
    exact h2
  | write k i x =>
    simp only [ownerStep, Option.bind_eq_some_iff] at hs
    obtain ⟨l, hl, hs⟩ := hs
    obtain ⟨hi, rfl⟩ : i < l.length ∧ s' = s.set k (.val (l.set i (some x))) := by
      split at hs
      · rename_i h1; exact ⟨h1, by simpa using hs.symm⟩
      · cases hs
    obtain ⟨v, hv1, hv2, hv3, hv4, hv5⟩ := H.get (ownerVal_some hl)
    simp only [ownerModelStep, OwnerWorld.change, hv2, Res.bind_ok, ownerWrite]
    have hb := hv4.2.2.2
    cases hvb : v.data with
    | none =>
      have : v.toU.block = none := hvb
      rw [this] at hb; rw [hb] at hi; simp at hi
    | some p =>
      have hvb' : v.toU.block = some p := hvb
      rw [hvb'] at hb
      have hx : assignAt e w.heap p i (some x) = .ok (w.heap.set p ⟨a, l.set i (some x), true⟩) := by
        simp only [assignAt, blockCells_eq hb, Res.bind_ok, List.getElem?_eq_getElem hi, setCells_eq _ hb]
        cases hli : l[i] with
        | none =>
          cases ht : e.trivial with
          | true => rfl
          | false => exact absurd hli (hv4.2.2.1 ht _ (List.getElem_mem hi))
        | some y => rfl
      simp only [hx]
      refine ⟨_, rfl, ?_⟩
      show oRep e a ⟨_, w.vars.set k (some v)⟩ _
      rw [set_getElem? hv1]
      refine H.overwrite hv1 hv3 hv4 hvb _ (by simp) ?_
      intro ht y hy
      rcases List.mem_or_eq_of_mem_set hy with hy | rfl
      · exact hv4.2.2.1 ht y hy
      · simp
  | swap k j =>
    simp only [ownerStep, Option.bind_eq_some_iff, Option.map_eq_some_iff] at hs
    obtain ⟨l, hl, m, hm, rfl⟩ := hs
    obtain ⟨v, hv1, hv2, hv3, -⟩ := H.get (ownerVal_some hl)
    obtain ⟨u, hu1, hu2, hu3, -⟩ := H.get (ownerVal_some hm)
    simp only [ownerModelStep, hv2, hu2, Res.bind_ok, Res.map_ok]
    rw [ownerSwap_eq hv3 hu3]
    exact ⟨_, rfl, Holds.swap H hv1 hu1 (ownerVal_some hl) (ownerVal_some hm)⟩
  | destroy k =>
    simp only [ownerStep] at hs
    split at hs
    · rename_i l hl
      cases hs
      obtain ⟨v, hv1, hv2, hv3, hv4, hv5⟩ := H.get hl
      have hva : v.alloc = a := hv4.1
      obtain ⟨h', h1, h2, h3, h4⟩ := hv4.release
      have h1 : safeDestroyDeallocate e w.heap a v.data v.size = .ok h' := h1
      simp only [ownerModelStep, hv2, Res.bind_ok, ownerDestroy, hv3, hva, Bool.false_eq_true, not_false_eq_true, if_true, h1]
      refine ⟨_, rfl, ?_⟩
      refine Holds.update (oLocal e a) H hv1 (fun p hp hvp => h3 p ?_) trivial
        (fun p hp => by simp [oOwn] at hp) (fun p b hp hb => .inr ?_)
      · rw [hv5] at hvp; exact hvp
      · rw [hv5]; exact h4 p b hp hb
    · rename_i hl
      cases hs
      obtain ⟨v, h1, h2⟩ := Holds.get H hl
      cases v with
      | none => exact h2.elim
      | some v =>
        have h2 : v.movedFrom = true := h2
        have hg : w.get k = .ok v := by simp [OwnerWorld.get, h1, orUb]
        simp only [ownerModelStep, hg, Res.bind_ok, ownerDestroy, h2]
        refine ⟨_, rfl, ?_⟩
        have hown : oOwn (some v) = none := by simp [oOwn, h2]
        exact Holds.update (oLocal e a) H h1 (fun _ _ _ => rfl) trivial
          (fun p hp => by simp [oOwn] at hp) (fun p b hp _ => .inr ⟨hp, by simp [hown]⟩)
    · cases hs

/-- Any history of adaptors that own their buffer, in which adaptors that were moved from are only destroyed: nothing
undefined happens, the sequences are right, and every block in use belongs to an adaptor. -/
theorem C70_owner_partial (e : StoreEnv α) (a : Nat) (hsel : e.select a = a) : ∀ (os : List (OwnerOp α)) (w : OwnerWorld α)
    (s s' : List (OwnerVal α)), oRep e a w s → ownerRun e.trivial e.init os s = some s' →
    ∃ w', ownerModelRun e a os w = .ok w' ∧ oRep e a w' s'
  | [], w, s, s', H, hs => by
    simp only [ownerRun, Option.some.injEq] at hs
    subst hs
    exact ⟨w, rfl, H⟩
  | o :: os, w, s, s', H, hs => by
    simp only [ownerRun, Option.bind_eq_some_iff] at hs
    obtain ⟨t, h1, h2⟩ := hs
    obtain ⟨w', h3, h4⟩ := ownerModelStep_rep e a hsel w s t o H h1
    obtain ⟨w'', h5, h6⟩ := C70_owner_partial e a hsel os w' t s' h4 h2
    exact ⟨w'', by simp [ownerModelRun, h3, h5], h6⟩

theorem oRep_start (e : StoreEnv α) (a n : Nat) : oRep e a ⟨[], List.replicate n none⟩ (List.replicate n .nothing) := by
  refine ⟨by simp, ?_, ?_, ?_⟩
  · intro k v s hv hs
    simp only [List.getElem?_replicate] at hv hs
    split at hv <;> simp at hv hs
    obtain ⟨-, rfl⟩ := hs
    subst hv
    trivial
  · intro j k v w p _ hj _ ho
    simp only [List.getElem?_replicate] at hj
    split at hj <;> simp at hj
    subst hj
    simp [oOwn] at ho
  · intro p b hp; simp at hp

/-- From the start, and when all adaptors are gone, all memory was given back. -/
theorem C70_owner_no_leak_partial (e : StoreEnv α) (a n m : Nat) (hsel : e.select a = a) (os : List (OwnerOp α))
    (hs : ownerRun e.trivial e.init os (List.replicate n .nothing) = some (List.replicate m .nothing)) :
    ∃ w, ownerModelRun e a os ⟨[], List.replicate n none⟩ = .ok w ∧ ∀ b ∈ w.heap, b.live = false := by
  obtain ⟨w, h1, H⟩ := C70_owner_partial e a hsel os _ _ _ (oRep_start e a n) hs
  refine ⟨w, h1, ?_⟩
  intro b hb
  obtain ⟨p, hp⟩ := List.mem_iff_getElem?.1 hb
  by_contra hc
  obtain ⟨k, v, hk, ho⟩ := H.all p b hp (by simpa using hc)
  have hks : k < (List.replicate m (OwnerVal.nothing : OwnerVal α)).length := by
    have := lt_of_getElem? hk
    have := H.len
    omega
  have := H.rep k v .nothing hk (by simp [List.getElem?_replicate] at hks ⊢; exact hks)
  cases v with
  | none => simp [oOwn] at ho
  | some v => exact this

/-- An adaptor that holds a sequence has its elements in memory. -/
theorem C70_owner_elements (e : StoreEnv α) (a : Nat) (w : OwnerWorld α) (s : List (OwnerVal α)) (H : oRep e a w s)
    (k : Nat) (l : List (Option α)) (hk : s[k]? = some (.val l)) :
    ∃ v, w.get k = .ok v ∧ v.size = l.length ∧ elementsFrom w.heap v.data v.size = .ok l := by
  obtain ⟨v, -, h2, -, h3, -⟩ := H.get hk
  exact ⟨v, h2, h3.2.1, h3.elements⟩

/-! ### Buffers that are not owned -/

/-- Assignment to a buffer that is not owned overwrites exactly its elements, if there are as many; otherwise it throws. -/
theorem C70_borrowed (e : StoreEnv α) (h : List (Block α)) (a p : Nat) (c : List (Option α)) (hp : h[p]? = some ⟨a, c, true⟩)
    (hc : e.trivial = true ∨ ∀ x ∈ c, x ≠ none) (l : List α) :
    borrowedAssign e h p c.length l = if l.length = c.length then .ok (h.set p ⟨a, l.map some, true⟩) else .throws := by
  unfold borrowedAssign borrowedResize
  by_cases hl : l.length = c.length
  · rw [if_neg (by omega), if_pos hl, Res.bind_ok, stdCopy_eq e hp _ (by simpa using hl) hc]
  · rw [if_pos hl, if_neg hl]; rfl

/-! ### Comparisons -/

/-- `operator<` of vectors, and of buffers, is the lexicographic order, and the others follow from it. -/
theorem C70_uvector_compare (xs ys : List Int) :
    (uLt xs ys = true ↔ xs < ys) ∧ (uLe xs ys = true ↔ xs ≤ ys) ∧ (uGt xs ys = true ↔ xs > ys) ∧
    (uGe xs ys = true ↔ xs ≥ ys) := by
  have key : ∀ xs ys : List Int, uLt xs ys = true ↔ xs < ys := by
    intro xs
    induction xs with
    | nil => intro ys; cases ys <;> simp [uLt, lexCompare]
    | cons x xs ih =>
      intro ys
      cases ys with
      | nil => simp [uLt, lexCompare]
      | cons y ys =>
        have := ih ys
        simp only [uLt] at this
        simp only [uLt, lexCompare, List.cons_lt_cons_iff]
        by_cases h1 : x < y
        · simp [h1]
        · by_cases h2 : y < x
          · simp [h1, h2]; omega
          · have : x = y := by omega
            subst this
            simpa using this
  refine ⟨key xs ys, ?_, key ys xs, ?_⟩
  · simp only [uLe, uGt, Bool.not_eq_true', ← Bool.not_eq_true, key]
    exact List.not_lt
  · simp only [uGe, Bool.not_eq_true', ← Bool.not_eq_true, key]
    exact List.not_lt

theorem C70_buffer_less (xs ys : List Int) : bufLt xs ys = true ↔ xs < ys := (C70_uvector_compare xs ys).1

/-- The other comparisons of buffers pass `<=`, `>` and `>=` for elements to the lexicographic comparison: they decide at the
first elements, and a longer buffer is never greater. -/
theorem C70_buffer_compare_wrong :
    bufLe [1, 2] [1, 1] = true ∧ ¬ ([1, 2] : List Int) ≤ [1, 1] ∧
    bufLe [] [] = false ∧
    bufGt [1, 2] [1] = false ∧ ([1, 2] : List Int) > [1] ∧
    bufGt [1] [1, 2] = true ∧ ¬ ([1] : List Int) > [1, 2] ∧
    bufGe [1, 1] [1, 2] = true ∧ ¬ ([1, 1] : List Int) ≥ [1, 2] := by decide

/-! ### Examples -/

/-- A history with elements of class type: construction, copies, moves, changes of size, self-assignment, exchange. -/
def exampleHistory : List (StoreOp Int) :=
  [.ctorList 0 [1, 2, 3], .ctorCopy 1 0, .write 0 1 7, .ctorMove 2 0, .copy 0 1, .resize 1 2, .move 1 2, .move 1 1,
   .swap 0 1, .copy 2 0, .copy 2 2, .ctorCount 3 0, .resize 3 2, .resize 3 0, .copy 3 2]

example : storeRun false 0 exampleHistory (List.replicate 4 none) =
    some [some [some 1, some 7, some 3], some [some 1, some 2, some 3], some [some 1, some 7, some 3],
      some [some 1, some 7, some 3]] := by decide

example : ∃ w, uRun ⟨false, 0, id⟩ 5 exampleHistory ⟨[], List.replicate 4 none⟩ = .ok w ∧ uRep ⟨false, 0, id⟩ 5 w
    [some [some 1, some 7, some 3], some [some 1, some 2, some 3], some [some 1, some 7, some 3],
      some [some 1, some 7, some 3]] :=
  C70_uvector_from_start ⟨false, (0 : Int), id⟩ 5 4 rfl exampleHistory _ (by decide)

example : ∃ w, uRun ⟨true, 0, id⟩ 5 (exampleHistory ++ [.destroy 0, .destroy 3, .destroy 2, .destroy 1])
    ⟨[], List.replicate 4 none⟩ = .ok w ∧ ∀ b ∈ w.heap, b.live = false :=
  C70_uvector_no_leak ⟨true, (0 : Int), id⟩ 5 4 4 rfl _ (by decide)

/-- For a trivial type a change of size leaves elements of unspecified value. -/
example : storeRun true 0 [.ctorList 0 [1, 2, 3], .resize 0 2, .write 0 0 (5 : Int)] [none] =
    some [some [some 5, none]] := by decide

example := C70_owner_no_leak_partial ⟨false, (0 : Int), id⟩ 5 3 3 rfl
  [.adopt 0 [1, 2], .ctorMove 1 0, .destroy 0, .adopt 0 [3], .copy 0 1, .resize 1 3, .write 1 2 8, .adopt 2 [9], .move 1 2,
    .swap 0 1, .reset 0 [1, 1, 1], .assign 1 [5, 6], .copy 2 0, .destroy 0, .destroy 1, .destroy 2] (by decide)

example := C70_borrowed ⟨false, (0 : Int), id⟩ [⟨0, [some 1, some 2], true⟩] 0 0 [some 1, some 2] rfl (by decide) [3, 4]

/-! ### Where the code fails -/

/-- Adaptor 0 is moved to 1 and keeps the pointer.  Assigning, resizing or resetting it releases the block of 1, with size
0 instead of 1. -/
theorem C70_moved_from_reuse_undefined :
    ownerModelRun ⟨true, (0 : Int), id⟩ 5 [.adopt 0 [1], .ctorMove 1 0, .adopt 2 [2], .copy 0 2] ⟨[], [none, none, none]⟩ =
      .ub ∧
    ownerModelRun ⟨true, (0 : Int), id⟩ 5 [.adopt 0 [1], .ctorMove 1 0, .resize 0 3] ⟨[], [none, none, none]⟩ = .ub ∧
    ownerModelRun ⟨true, (0 : Int), id⟩ 5 [.adopt 0 [1], .ctorMove 1 0, .reset 0 [2]] ⟨[], [none, none, none]⟩ = .ub ∧
    ownerModelRun ⟨true, (0 : Int), id⟩ 5 [.adopt 0 [1], .ctorMove 1 0, .assign 0 [2]] ⟨[], [none, none, none]⟩ = .ub := by
  decide

/-- Assigning to it by moving, or exchanging it, does not exchange the flags: the other adaptor then releases the block of 1, and the
buffer that 0 received is never released. -/
theorem C70_moved_from_move_undefined :
    ownerModelRun ⟨true, (0 : Int), id⟩ 5 [.adopt 0 [1], .ctorMove 1 0, .adopt 2 [2], .move 0 2, .destroy 2]
      ⟨[], [none, none, none]⟩ = .ub ∧
    ownerModelRun ⟨true, (0 : Int), id⟩ 5 [.adopt 0 [1], .ctorMove 1 0, .adopt 2 [2], .swap 0 2, .destroy 2]
      ⟨[], [none, none, none]⟩ = .ub ∧
    ownerModelRun ⟨true, (0 : Int), id⟩ 5 [.adopt 0 [1], .ctorMove 1 0, .adopt 2 [2], .move 0 2, .destroy 0, .destroy 1]
      ⟨[], [none, none, none]⟩ =
      .ok ⟨[⟨5, [some 1], false⟩, ⟨5, [some 2], true⟩], [none, none, some ⟨some 0, 0, false, 5⟩]⟩ := by decide

/-- Vectors with different allocators, 5 and 6: a copy assignment changes the allocator before it releases, or keeps, the
block obtained from the old one; a move assignment exchanges the blocks but not the allocators.  Each block is then released
with the wrong allocator. -/
theorem C70_allocators_undefined :
    ((uStep ⟨true, (0 : Int), id⟩ 5 ⟨[], [none, none]⟩ (.ctorList 0 [1])).bind fun w =>
      (uStep ⟨true, 0, id⟩ 6 w (.ctorList 1 [2])).bind fun w => uRun ⟨true, 0, id⟩ 5 [.copy 0 1, .destroy 0] w) = .ub ∧
    ((uStep ⟨true, (0 : Int), id⟩ 5 ⟨[], [none, none]⟩ (.ctorList 0 [1])).bind fun w =>
      (uStep ⟨true, 0, id⟩ 6 w (.ctorList 1 [2, 3])).bind fun w => uRun ⟨true, 0, id⟩ 5 [.copy 0 1] w) = .ub ∧
    ((uStep ⟨true, (0 : Int), id⟩ 5 ⟨[], [none, none]⟩ (.ctorList 0 [1])).bind fun w =>
      (uStep ⟨true, 0, id⟩ 6 w (.ctorList 1 [2])).bind fun w => uRun ⟨true, 0, id⟩ 5 [.move 0 1] w) = .ub ∧
    ((uStep ⟨true, (0 : Int), id⟩ 5 ⟨[], [none, none]⟩ (.ctorCount 0 0)).bind fun w =>
      (uStep ⟨true, 0, id⟩ 6 w (.ctorList 1 [2])).bind fun w => uRun ⟨true, 0, id⟩ 5 [.move 0 1, .destroy 0] w) = .ub := by
  decide

/-- A vector moved to a new one with another allocator takes the block along: it is released with the wrong allocator. -/
theorem C70_move_allocator_undefined :
    ((initData ⟨true, (0 : Int), id⟩ [] 5 [some 1]).bind fun r => uDestroy ⟨true, 0, id⟩ r.1 (uMoveAlloc r.2 6).1) = .ub := by
  decide

/-! ### What the model counts as undefined -/

/-- A released block, and memory that was never allocated, must not be used; an object of a type that is not trivial must not be
created over another one, nor assigned or destroyed where there is none. -/
theorem C70_memory_rules (e : StoreEnv α) (h : List (Block α)) (p i : Nat) (x : Option α) (b : Block α) (hp : h[p]? = some b) :
    (b.live = false → constructAt e h p i x = .ub ∧ assignAt e h p i x = .ub ∧ destroyAt h p i = .ub ∧
      ∀ n, elementsFrom h (some p) n = .ub ∧ ∀ a v, uRead h ⟨a, some p, v⟩ i = .ub) ∧
    (b.cells.length ≤ i → constructAt e h p i x = .ub ∧ assignAt e h p i x = .ub ∧ destroyAt h p i = .ub ∧
      elementsFrom h (some p) (i + 1) = .ub) ∧
    (∀ y, e.trivial = false → b.cells[i]? = some (some y) → constructAt e h p i x = .ub) ∧
    (e.trivial = false → b.cells[i]? = some none → assignAt e h p i x = .ub) ∧
    (b.cells[i]? = some none → destroyAt h p i = .ub) := by
  have hb : blockCells h p = if b.live then .ok b.cells else .ub := by simp [blockCells, hp]
  refine ⟨fun hl => ?_, fun hi => ?_, fun y ht hy => ?_, fun ht hy => ?_, fun hy => ?_⟩
  · simp [constructAt, assignAt, destroyAt, elementsFrom, uRead, hb, hl, Res.bind]
  · have hn : b.cells[i]? = none := List.getElem?_eq_none hi
    cases hl : b.live
    · simp [constructAt, assignAt, destroyAt, elementsFrom, hb, hl, Res.bind]
    · simp [constructAt, assignAt, destroyAt, elementsFrom, hb, hl, Res.bind, hn]
      omega
  · cases hl : b.live <;> simp [constructAt, hb, hl, Res.bind, hy, ht]
  · cases hl : b.live <;> simp [assignAt, hb, hl, Res.bind, hy, ht]
  · cases hl : b.live <;> simp [destroyAt, hb, hl, Res.bind, hy]

example := C70_memory_rules ⟨false, (0 : Int), id⟩ [⟨5, [some 1, none], false⟩] 0 1 (some 3) ⟨5, [some 1, none], false⟩ rfl

/-- The copy of a vector has the allocator that the allocator of the original selects. -/
theorem C70_copy_allocator (e : StoreEnv α) (h h' : List (Block α)) (v v' : UVec) (hc : uCopy e h v = .ok (h', v')) :
    v'.alloc = e.select v.alloc := by
  unfold uCopy initData at hc
  cases he : elementsFrom h v.block v.size with
  | ok xs =>
    rw [he] at hc
    simp only [Res.bind] at hc
    split at hc
    · cases hu : uninitializedCopy e (allocate h (e.select v.alloc) xs.length).1 (allocate h (e.select v.alloc) xs.length).2 xs with
      | ok g =>
        rw [hu] at hc
        simp only [Res.map, Res.bind, Res.ok.injEq, Prod.mk.injEq] at hc
        rw [← hc.2]
      | throws => rw [hu] at hc; simp [Res.map, Res.bind] at hc
      | ub => rw [hu] at hc; simp [Res.map, Res.bind] at hc
    · simp only [Res.ok.injEq, Prod.mk.injEq] at hc
      rw [← hc.2]
  | throws => rw [he] at hc; simp [Res.bind] at hc
  | ub => rw [he] at hc; simp [Res.bind] at hc

example : uCopy ⟨true, (0 : Int), fun a => a + 1⟩ [⟨5, [some 1], true⟩] ⟨5, some 0, 1⟩ =
    .ok ([⟨5, [some 1], true⟩, ⟨6, [some 1], true⟩], ⟨6, some 1, 1⟩) := by decide

end Xt
