import Verif.Model.AssignFail
import Verif.Props.Container
/-!
# C100: assignments that throw
-/

namespace Xt
open Spec

variable {α : Type}

/-! ## The loop -/

theorem mem_loopOrder {g : FCfg α} {c : Cont α} {i : List Nat} : i ∈ loopOrder g c ↔ InBounds c.shape i := by
  unfold loopOrder storageIndices
  generalize (if c.L = .row_major ∨ c.L = .column_major then c.L else g.d) = L
  split
  · exact mem_rowIndices
  · exact mem_colIndices

theorem loopOrder_nodup (g : FCfg α) (c : Cont α) : (loopOrder g c).Nodup := by
  unfold loopOrder storageIndices
  generalize (if c.L = .row_major ∨ c.L = .column_major then c.L else g.d) = L
  split
  · exact rowIndices_nodup _
  · exact colIndices_nodup _

/-- The container with another storage. -/
def Cont.withStorage (c : Cont α) (st : List α) : Cont α := { c with storage := st }

theorem Consistent.withStorage {c : Cont α} (h : Consistent c) {st : List α} (hl : st.length = c.storage.length) :
    Consistent (c.withStorage st) := ⟨hl.trans h.storage_size, h.strides, h.backstrides⟩

theorem elem_set {c : Cont α} (ha : Addressable c) {i j : List Nat} (hi : InBounds c.shape i) (hj : InBounds c.shape j) (x : α) :
    (c.withStorage (c.storage.set (dataOffset c.strides false (toInts i)).toNat x)).elem? (toInts j) =
      if j = i then some x else c.elem? (toInts j) := by
  have h1 := ha.inside i hi
  have h2 := ha.inside j hj
  have e1 : (c.withStorage (c.storage.set (dataOffset c.strides false (toInts i)).toNat x)).elem? (toInts j) =
      (c.storage.set (dataOffset c.strides false (toInts i)).toNat x)[(dataOffset c.strides false (toInts j)).toNat]? :=
    if_neg (by show ¬ dataOffset c.strides false (toInts j) < 0; omega)
  have e2 : c.elem? (toInts j) = c.storage[(dataOffset c.strides false (toInts j)).toNat]? := if_neg (by omega)
  rw [e1, e2, List.getElem?_set]
  by_cases hij : j = i
  · subst hij
    rw [if_pos rfl, if_pos rfl, if_pos (by omega)]
  · rw [if_neg hij, if_neg]
    intro he
    exact hij (ha.injective j i hj hi (by omega))

/-- The loop over some of the indices: it reads all values or stops at one that cannot be computed, and never leaves the
storage. -/
theorem writeUntil_spec (elem : List Nat → Option α) : ∀ (l : List (List Nat)) (c : Cont α), Consistent c →
    (∀ i ∈ l, InBounds c.shape i) → l.Nodup →
    match writeUntil c (l.map fun i => (dataOffset c.strides false (toInts i), elem i)) with
    | .ok c' => (∃ st, st.length = c.storage.length ∧ c' = c.withStorage st) ∧
        (∀ i ∈ l, ∃ x, elem i = some x ∧ c'.elem? (toInts i) = some x) ∧
        ∀ i, InBounds c.shape i → i ∉ l → c'.elem? (toInts i) = c.elem? (toInts i)
    | .throws c' => (∃ st, st.length = c.storage.length ∧ c' = c.withStorage st) ∧
        ∃ pre i post, l = pre ++ i :: post ∧ elem i = none ∧
          (∀ j ∈ pre, ∃ x, elem j = some x ∧ c'.elem? (toInts j) = some x) ∧
          ∀ j, InBounds c.shape j → j ∉ pre → c'.elem? (toInts j) = c.elem? (toInts j)
    | .ub => False
  | [], c, _, _, _ => ⟨⟨c.storage, rfl, rfl⟩, by simp, fun _ _ _ => rfl⟩
  | i :: l, c, h, hb, hd => by
    have ha := Consistent.addressable h
    have hi := hb i (by simp)
    have hin := ha.inside i hi
    rw [List.nodup_cons] at hd
    simp only [List.map_cons]
    cases he : elem i with
    | none => exact ⟨⟨c.storage, rfl, rfl⟩, [], i, l, rfl, he, by simp, fun _ _ _ => rfl⟩
    | some x =>
      simp only [writeUntil]
      rw [if_pos ⟨hin.1, by omega⟩]
      have ih := writeUntil_spec elem l (c.withStorage (c.storage.set (dataOffset c.strides false (toInts i)).toNat x))
        (Consistent.withStorage h (by simp)) (fun j hj => hb j (by simp [hj])) hd.2
      have hset := fun j hj => elem_set ha hi (j := j) hj x
      change match writeUntil (c.withStorage (c.storage.set (dataOffset c.strides false (toInts i)).toNat x))
        (l.map fun i => (dataOffset c.strides false (toInts i), elem i)) with | _ => _
      simp only [Cont.withStorage] at ih hset ⊢
      split at ih
      · rename_i c' hc
        obtain ⟨⟨st, h1, h2⟩, h3, h4⟩ := ih
        refine ⟨⟨st, by rw [h1]; simp, h2⟩, fun j hj => ?_, fun j hjb hj => ?_⟩
        · rcases List.mem_cons.1 hj with rfl | hj
          · refine ⟨x, he, ?_⟩
            rw [h4 j hi hd.1, hset j hi, if_pos rfl]
          · exact h3 j hj
        · simp only [List.mem_cons, not_or] at hj
          rw [h4 j hjb hj.2, hset j hjb, if_neg hj.1]
      · rename_i c' hc
        obtain ⟨⟨st, h1, h2⟩, pre, i', post, h3, h4, h5, h6⟩ := ih
        refine ⟨⟨st, by rw [h1]; simp, h2⟩, i :: pre, i', post, by rw [h3]; rfl, h4, fun j hj => ?_, fun j hjb hj => ?_⟩
        · rcases List.mem_cons.1 hj with rfl | hj
          · refine ⟨x, he, ?_⟩
            rw [h6 j hi (fun hp => hd.1 (by rw [h3]; simp [hp])), hset j hi, if_pos rfl]
          · exact h5 j hj
        · simp only [List.mem_cons, not_or] at hj
          rw [h6 j hjb hj.2, hset j hjb, if_neg hj.1]
      · exact ih

/-- All elements have been computed and stored. -/
def Spec.AllStored (c' : Cont α) (elem : List Nat → Option α) : Prop :=
  ∀ i, InBounds c'.shape i → ∃ x, elem i = some x ∧ c'.elem? (toInts i) = some x

/-- The elements before one that cannot be computed have been stored, in some order of all indices; the others are those of
`c`. -/
def Spec.StoredUpTo (c c' : Cont α) (elem : List Nat → Option α) : Prop :=
  ∃ pre i post, (∀ j, j ∈ pre ++ i :: post ↔ InBounds c'.shape j) ∧ elem i = none ∧
    (∀ j ∈ pre, ∃ x, elem j = some x ∧ c'.elem? (toInts j) = some x) ∧ ∀ j ∈ i :: post, c'.elem? (toInts j) = c.elem? (toInts j)

theorem assignDataF_spec (g : FCfg α) {c : Cont α} (h : Consistent c) (elem : List Nat → Option α) :
    match assignDataF g c elem with
    | .ok c' => Consistent c' ∧ c'.shape = c.shape ∧ c'.L = c.L ∧ AllStored c' elem
    | .throws c' => Consistent c' ∧ c'.shape = c.shape ∧ c'.L = c.L ∧ StoredUpTo c c' elem
    | .ub => False := by
  have key := writeUntil_spec elem (loopOrder g c) c h (fun i hi => mem_loopOrder.1 hi) (loopOrder_nodup g c)
  unfold assignDataF
  split at key
  · obtain ⟨⟨st, h1, rfl⟩, h2, -⟩ := key
    exact ⟨Consistent.withStorage h h1, rfl, rfl, fun i hi => h2 i (mem_loopOrder.2 hi)⟩
  · obtain ⟨⟨st, h1, rfl⟩, pre, i, post, h2, h3, h4, h5⟩ := key
    refine ⟨Consistent.withStorage h h1, rfl, rfl, pre, i, post, fun j => by rw [← h2]; exact mem_loopOrder, h3, h4, fun j hj => ?_⟩
    have hd := loopOrder_nodup g c
    rw [h2, List.nodup_append] at hd
    exact h5 j (mem_loopOrder.1 (by rw [h2]; exact List.mem_append_right _ hj)) fun hp => hd.2.2 j hp j hj rfl
  · exact key

/-- The shape is the new one and the storage is that of the old one: the array cannot be used. -/
def Spec.Broken (c c' : Cont α) (s : List Nat) : Prop :=
  numel s ≠ numel c.shape ∧ c'.shape = s ∧ c'.storage = c.storage

theorem resizeF_spec (g : FCfg α) (hf : ∀ n, (g.fresh n).length = n) (alloc : Bool) {c : Cont α} (h : Consistent c) (s : List Nat) :
    match resizeF g alloc c s with
    | .ok c' => Consistent c' ∧ c'.shape = s ∧ c'.L = c.L ∧ (numel s = numel c.shape → c'.storage = c.storage)
    | .throws c' => alloc = false ∧ Broken c c' s
    | .ub => False := by
  unfold resizeF Cont.resize
  by_cases hs : c.shape = s
  · rw [if_neg (by simp [hs])]
    exact ⟨h, hs, rfl, fun _ => rfl⟩
  · rw [if_pos (.inl hs)]
    simp only []
    by_cases ha : (alloc || decide (computeSize s = c.storage.length)) = true
    · rw [if_pos ha]
      refine ⟨Consistent.of_computed _ _ _ _ ?_, rfl, rfl, fun hn => ?_⟩
      · rw [resizeStorage_length hf, computeStrides_size]; simp
      · show Cont.resizeStorage _ _ _ = _
        unfold Cont.resizeStorage
        rw [if_neg]
        rw [computeStrides_size, h.storage_size, ← hn]
        simp
    · rw [if_neg ha]
      simp only [Bool.or_eq_true, decide_eq_true_eq, not_or, Bool.not_eq_true, computeSize_eq, h.storage_size] at ha
      exact ⟨ha.1, ha.2, rfl, rfl⟩

/-- An assignment without a temporary: it stores all elements; or the shapes conflict and nothing changes; or memory is missing
and the array cannot be used; or an element cannot be computed and the array has the new shape and the elements before it. -/
theorem directF_spec (g : FCfg α) (hf : ∀ n, (g.fresh n).length = n) (alloc : Bool) {c : Cont α} (h : Consistent c) (e : FExpr α) :
    match directF g alloc c e with
    | .ok c' => Consistent c' ∧ c'.L = c.L ∧ e.shape = some c'.shape ∧ AllStored c' e.elem
    | .throws c' => (e.shape = none ∧ c' = c) ∨ (alloc = false ∧ ∃ s, e.shape = some s ∧ Broken c c' s) ∨
        (Consistent c' ∧ c'.L = c.L ∧ e.shape = some c'.shape ∧ ∃ r, (numel c'.shape = numel c.shape → r.storage = c.storage) ∧
          StoredUpTo r c' e.elem)
    | .ub => False := by
  unfold directF
  cases hs : e.shape with
  | none => exact .inl ⟨rfl, rfl⟩
  | some s =>
    simp only []
    have h1 := resizeF_spec g hf alloc h s
    cases hr : resizeF g alloc c s with
    | ok c1 =>
      rw [hr] at h1
      obtain ⟨h2, h3, h4, h5⟩ := h1
      have h6 := assignDataF_spec g h2 e.elem
      simp only [Out.next]
      cases hd : assignDataF g c1 e.elem with
      | ok c2 =>
        rw [hd] at h6
        obtain ⟨h7, h8, h9, h10⟩ := h6
        exact ⟨h7, h9.trans h4, by rw [h8, h3], h10⟩
      | throws c2 =>
        rw [hd] at h6
        obtain ⟨h7, h8, h9, h10⟩ := h6
        exact .inr (.inr ⟨h7, h9.trans h4, by rw [h8, h3], c1, fun hn => h5 (by rwa [h8, h3] at hn), h10⟩)
      | ub => rw [hd] at h6; exact h6
    | throws c1 => rw [hr] at h1; exact .inr (.inl ⟨h1.1, s, rfl, h1.2⟩)
    | ub => rw [hr] at h1; exact h1

/-- With a temporary: all elements are stored, or the array is as it was. -/
theorem temporaryF_spec (g : FCfg α) (hf : ∀ n, (g.fresh n).length = n) (alloc : Bool) (c : Cont α) (e : FExpr α) :
    match temporaryF g alloc c e with
    | .ok c' => Consistent c' ∧ c'.L = c.L ∧ e.shape = some c'.shape ∧ AllStored c' e.elem
    | .throws c' => c' = c
    | .ub => False := by
  unfold temporaryF
  have h := directF_spec g hf alloc (default_consistent c.L 0 g.v0) e
  cases hd : directF g alloc (Cont.default c.L 0 g.v0) e with
  | ok t => rw [hd] at h; exact h
  | throws t => rfl
  | ub => rw [hd] at h; exact h

/-- Compound assignment without a temporary for the whole: one is made only when the shape grows. -/
theorem computedF_spec (g : FCfg α) (hf : ∀ n, (g.fresh n).length = n) (alloc : Bool) {c : Cont α} (h : Consistent c) (e : FExpr α) :
    match computedF g alloc c e with
    | .ok c' => Consistent c' ∧ c'.L = c.L ∧ AllStored c' e.elem
    | .throws c' => Consistent c' ∧ c'.L = c.L ∧ (c' = c ∨ c'.shape = c.shape ∧ StoredUpTo c c' e.elem)
    | .ub => False := by
  unfold computedF
  cases hs : e.shape with
  | none => exact ⟨h, rfl, .inl rfl⟩
  | some s =>
    simp only []
    by_cases hl : (decide (s.length > c.shape.length) || lexGreater s c.shape) = true
    · rw [if_pos hl]
      have h1 := directF_spec g hf alloc (default_consistent c.L 0 g.v0) e
      unfold directF at h1
      rw [hs] at h1
      simp only [] at h1
      cases hd : (resizeF g alloc (Cont.default c.L 0 g.v0) s).next fun t => assignDataF g t e.elem with
      | ok t => rw [hd] at h1; exact ⟨h1.1, h1.2.1, h1.2.2.2⟩
      | throws t => exact ⟨h, rfl, .inl rfl⟩
      | ub => rw [hd] at h1; exact h1
    · rw [if_neg hl]
      have h1 := assignDataF_spec g h e.elem
      cases hd : assignDataF g c e.elem with
      | ok t => rw [hd] at h1; exact ⟨h1.1, h1.2.2.1, h1.2.2.2⟩
      | throws t => rw [hd] at h1; exact ⟨h1.1, h1.2.2.1, .inr ⟨h1.2.1, h1.2.2.2⟩⟩
      | ub => rw [hd] at h1; exact h1

/-- The walk over the storage: the first elements have been changed. -/
theorem scalarF_spec (f : α → Option α) : ∀ (rest pre : List α) (c : Cont α), c.storage = pre ++ rest →
    match writeUntil c (rest.mapIdx fun (i : Nat) (x : α) => (((pre.length + i : Nat) : Int), f x)) with
    | .ok c' => ∃ ys, rest.map f = ys.map some ∧ c' = c.withStorage (pre ++ ys)
    | .throws c' => ∃ a x b ys, rest = a ++ x :: b ∧ f x = none ∧ a.map f = ys.map some ∧ c' = c.withStorage (pre ++ ys ++ x :: b)
    | .ub => False
  | [], pre, c, h => ⟨[], rfl, by simp [Cont.withStorage, ← h]⟩
  | x :: rest, pre, c, h => by
    simp only [List.mapIdx_cons, Nat.add_zero]
    cases hx : f x with
    | none => exact ⟨[], x, rest, [], rfl, hx, rfl, by simp [Cont.withStorage, ← h]⟩
    | some y =>
      simp only [writeUntil]
      rw [if_pos ⟨by omega, by rw [h]; simp⟩]
      have hset : c.storage.set ((pre.length : Int)).toNat y = (pre ++ [y]) ++ rest := by
        rw [h]; simp
      have ih := scalarF_spec f rest (pre ++ [y]) { c with storage := c.storage.set ((pre.length : Int)).toNat y } hset
      have harg : (rest.mapIdx fun (i : Nat) (x : α) => ((((pre ++ [y]).length + i : Nat) : Int), f x)) =
          rest.mapIdx fun (i : Nat) (x : α) => (((pre.length + (i + 1) : Nat) : Int), f x) := by
        congr 1
        funext i x
        simp only [List.length_append, List.length_singleton]
        rw [show pre.length + 1 + i = pre.length + (i + 1) by omega]
      rw [harg] at ih
      cases hw : writeUntil { c with storage := c.storage.set ((pre.length : Int)).toNat y }
          (rest.mapIdx fun (i : Nat) (x : α) => (((pre.length + (i + 1) : Nat) : Int), f x)) with
      | ok c' =>
        rw [hw] at ih
        obtain ⟨ys, h1, h2⟩ := ih
        exact ⟨y :: ys, by simp [hx, h1], by rw [h2]; simp [Cont.withStorage]⟩
      | throws c' =>
        rw [hw] at ih
        obtain ⟨a, z, b, ys, h1, h2, h3, h4⟩ := ih
        exact ⟨x :: a, z, b, y :: ys, by rw [h1]; rfl, h2, by simp [hx, h3], by rw [h4]; simp [Cont.withStorage]⟩
      | ub => rw [hw] at ih; exact ih

/-! ## Statements and programs -/

theorem set_same {σ : List (Cont α)} {k : Nat} {c : Cont α} (h : σ[k]? = some c) : σ.set k c = σ := by
  apply List.ext_getElem?
  intro j
  rw [List.getElem?_set]
  split
  · rename_i hj
    subst hj
    have := (List.getElem?_eq_some_iff.1 h).1
    rw [if_pos this, h]
  · rfl

theorem changeF_ok {σ : List (Cont α)} {k : Nat} {f : Cont α → Out (Cont α)} {σ' : List (Cont α)} (h : changeF σ k f = .ok σ') :
    ∃ c c', σ[k]? = some c ∧ f c = .ok c' ∧ σ' = σ.set k c' := by
  unfold changeF at h
  cases hk : σ[k]? with
  | none => rw [hk] at h; simp at h
  | some c =>
    rw [hk] at h
    simp only [] at h
    cases hc : f c with
    | ok c' => rw [hc] at h; simp only [Out.ok.injEq] at h; exact ⟨c, c', rfl, hc, h.symm⟩
    | throws c' => rw [hc] at h; simp at h
    | ub => rw [hc] at h; simp at h

theorem changeF_throws {σ : List (Cont α)} {k : Nat} {f : Cont α → Out (Cont α)} {σ' : List (Cont α)}
    (h : changeF σ k f = .throws σ') : ∃ c c', σ[k]? = some c ∧ f c = .throws c' ∧ σ' = σ.set k c' := by
  unfold changeF at h
  cases hk : σ[k]? with
  | none => rw [hk] at h; simp at h
  | some c =>
    rw [hk] at h
    simp only [] at h
    cases hc : f c with
    | ok c' => rw [hc] at h; simp at h
    | throws c' => rw [hc] at h; simp only [Out.throws.injEq] at h; exact ⟨c, c', rfl, hc, h.symm⟩
    | ub => rw [hc] at h; simp at h

/-- An assignment through a temporary that throws, for whatever reason, changes nothing: all assignments if the library is
compiled so, otherwise those whose right-hand side overlaps the array, as in `a += b`. -/
theorem C100_temporary (g : FCfg α) (hf : ∀ n, (g.fresh n).length = n) (alloc : Bool) (σ : List (Cont α)) (k : Nat)
    (e : List (Cont α) → FExpr α) (overlap : Bool) (ho : g.force = true ∨ overlap = true) {σ' : List (Cont α)}
    (h : (FStmt.assign k e overlap).run g alloc σ = .throws σ') : σ' = σ := by
  obtain ⟨c, c', h1, h2, rfl⟩ := changeF_throws h
  rw [if_pos (by simpa using ho)] at h2
  have := temporaryF_spec g hf alloc c (e σ)
  rw [h2] at this
  rw [show c' = c from this]
  exact set_same h1

/-- An assignment that does not throw: the shape and the elements of the expression, and an array that can be used. -/
theorem C100_assigned (g : FCfg α) (hf : ∀ n, (g.fresh n).length = n) (alloc : Bool) (σ : List (Cont α))
    (hσ : ∀ c ∈ σ, Consistent c) (k : Nat) (e : List (Cont α) → FExpr α) (overlap : Bool) {σ' : List (Cont α)}
    (h : (FStmt.assign k e overlap).run g alloc σ = .ok σ' ∨ (FStmt.noalias k e).run g alloc σ = .ok σ') :
    ∃ c', σ' = σ.set k c' ∧ Consistent c' ∧ (e σ).shape = some c'.shape ∧ AllStored c' (e σ).elem := by
  have hdir : ∀ c c', σ[k]? = some c → directF g alloc c (e σ) = .ok c' →
      Consistent c' ∧ (e σ).shape = some c'.shape ∧ AllStored c' (e σ).elem := by
    intro c c' hc hd
    have := directF_spec g hf alloc (hσ c (List.mem_of_getElem? hc)) (e σ)
    rw [hd] at this
    exact ⟨this.1, this.2.2⟩
  rcases h with h | h
  · obtain ⟨c, c', h1, h2, rfl⟩ := changeF_ok h
    refine ⟨c', rfl, ?_⟩
    split at h2
    · have := temporaryF_spec g hf alloc c (e σ)
      rw [h2] at this
      exact ⟨this.1, this.2.2⟩
    · exact hdir c c' h1 h2
  · obtain ⟨c, c', h1, h2, rfl⟩ := changeF_ok h
    exact ⟨c', rfl, hdir c c' h1 h2⟩

/-- An assignment without a temporary that throws.  Nothing changed if the shapes conflict; if memory was missing the array is
broken; if an element could not be computed the array has the new shape, the elements before it, and behind them what was in the
storage if it was large enough. -/
theorem C100_direct (g : FCfg α) (hf : ∀ n, (g.fresh n).length = n) (alloc : Bool) (σ : List (Cont α))
    (hσ : ∀ c ∈ σ, Consistent c) (k : Nat) (e : List (Cont α) → FExpr α) {σ' : List (Cont α)}
    (h : (FStmt.noalias k e).run g alloc σ = .throws σ') :
    ∃ c c', σ[k]? = some c ∧ σ' = σ.set k c' ∧
      (((e σ).shape = none ∧ c' = c) ∨ (alloc = false ∧ ∃ s, (e σ).shape = some s ∧ Broken c c' s) ∨
        (Consistent c' ∧ (e σ).shape = some c'.shape ∧
          ∃ r, (numel c'.shape = numel c.shape → r.storage = c.storage) ∧ StoredUpTo r c' (e σ).elem)) := by
  obtain ⟨c, c', h1, h2, rfl⟩ := changeF_throws h
  refine ⟨c, c', h1, rfl, ?_⟩
  have := directF_spec g hf alloc (hσ c (List.mem_of_getElem? h1)) (e σ)
  rw [h2] at this
  rcases this with h | h | ⟨h3, -, h5⟩
  · exact .inl h
  · exact .inr (.inl h)
  · exact .inr (.inr ⟨h3, h5⟩)

/-- `a = e` does the same when `e` does not overlap `a`. -/
theorem C100_assign_is_direct (g : FCfg α) (hg : g.force = false) (alloc : Bool) (σ : List (Cont α)) (k : Nat)
    (e : List (Cont α) → FExpr α) : (FStmt.assign k e false).run g alloc σ = (FStmt.noalias k e).run g alloc σ := by
  simp [FStmt.run, hg]

/-- The statement refers to variables that exist, and copies between arrays of one type. -/
def Spec.StmtOk (types : List Layout) : FStmt α → Prop
  | .copy k j => k < types.length ∧ types[k]? = types[j]?
  | s => s.dest < types.length

/-- The statements that need no memory for the storage of their destination. -/
def Spec.Guarded (g : FCfg α) : FStmt α → Prop
  | .assign _ _ overlap => g.force = true ∨ overlap = true
  | .noaliasOp _ _ => True
  | .scalarOp _ _ => True
  | _ => False

/-- All variables can be used, and have their types. -/
def Spec.AllUsable (types : List Layout) (σ : List (Cont α)) : Prop := σ.map Cont.L = types ∧ ∀ c ∈ σ, Consistent c

theorem AllUsable.set {types : List Layout} {σ : List (Cont α)} (h : AllUsable types σ) {k : Nat} {c c' : Cont α}
    (hk : σ[k]? = some c) (hc : Consistent c') (hL : c'.L = c.L) : AllUsable types (σ.set k c') := by
  refine ⟨?_, fun x hx => ?_⟩
  · rw [← h.1]
    apply List.ext_getElem?
    intro j
    rw [List.getElem?_map, List.getElem?_map, List.getElem?_set]
    split
    · rename_i hj
      subst hj
      rw [if_pos (List.getElem?_eq_some_iff.1 hk).1, hk]
      simp [hL]
    · rfl
  · rcases List.mem_or_eq_of_mem_set hx with hx | rfl
    · exact h.2 x hx
    · exact hc

/-- A statement whose allocations succeed, or that is guarded, leaves all variables usable, whether it throws or not, and changes
only its destination. -/
theorem C100_statement (g : FCfg α) (hf : ∀ n, (g.fresh n).length = n) {types : List Layout} {σ : List (Cont α)}
    (hσ : AllUsable types σ) (alloc : Bool) (s : FStmt α) (hs : StmtOk types s) (ha : alloc = true ∨ Guarded g s) :
    ∃ σ', (s.run g alloc σ = .ok σ' ∨ s.run g alloc σ = .throws σ') ∧ AllUsable types σ' ∧
      ∀ j, j ≠ s.dest → σ'[j]? = σ[j]? := by
  have hlen : σ.length = types.length := by rw [← hσ.1]; simp
  have key : ∀ (k : Nat) (f : Cont α → Out (Cont α)), k < types.length →
      (∀ c, σ[k]? = some c → Consistent c → match f c with
        | .ok c' => Consistent c' ∧ c'.L = c.L
        | .throws c' => Consistent c' ∧ c'.L = c.L
        | .ub => False) →
      ∃ σ', (changeF σ k f = .ok σ' ∨ changeF σ k f = .throws σ') ∧ AllUsable types σ' ∧ ∀ j, j ≠ k → σ'[j]? = σ[j]? := by
    intro k f hk hfc
    obtain ⟨c, hc⟩ : ∃ c, σ[k]? = some c := ⟨_, List.getElem?_eq_getElem (by omega)⟩
    have h1 := hfc c hc (hσ.2 c (List.mem_of_getElem? hc))
    have hset : ∀ (c' : Cont α) (j : Nat), j ≠ k → (σ.set k c')[j]? = σ[j]? := fun c' j hj => by
      rw [List.getElem?_set_ne (Ne.symm hj)]
    cases hr : f c with
    | ok c' =>
      rw [hr] at h1
      exact ⟨σ.set k c', .inl (by simp only [changeF, hc, hr]), AllUsable.set hσ hc h1.1 h1.2, hset c'⟩
    | throws c' =>
      rw [hr] at h1
      exact ⟨σ.set k c', .inr (by simp only [changeF, hc, hr]), AllUsable.set hσ hc h1.1 h1.2, hset c'⟩
    | ub => rw [hr] at h1; exact h1.elim
  have hdirect : ∀ (e : FExpr α) (c : Cont α), alloc = true → Consistent c → match directF g alloc c e with
        | .ok c' => Consistent c' ∧ c'.L = c.L
        | .throws c' => Consistent c' ∧ c'.L = c.L
        | .ub => False := by
    intro e c hal hc
    have h1 := directF_spec g hf alloc hc e
    cases hd : directF g alloc c e with
    | ok c' => rw [hd] at h1; exact ⟨h1.1, h1.2.1⟩
    | throws c' =>
      rw [hd] at h1
      rcases h1 with ⟨-, rfl⟩ | ⟨h, -⟩ | ⟨h2, h3, -⟩
      · exact ⟨hc, rfl⟩
      · rw [hal] at h; simp at h
      · exact ⟨h2, h3⟩
    | ub => rw [hd] at h1; exact h1
  have htmp : ∀ (e : FExpr α) (c : Cont α), Consistent c → match temporaryF g alloc c e with
        | .ok c' => Consistent c' ∧ c'.L = c.L
        | .throws c' => Consistent c' ∧ c'.L = c.L
        | .ub => False := by
    intro e c hc
    have h1 := temporaryF_spec g hf alloc c e
    cases hd : temporaryF g alloc c e with
    | ok c' => rw [hd] at h1; exact ⟨h1.1, h1.2.1⟩
    | throws c' => rw [hd] at h1; rw [show c' = c from h1]; exact ⟨hc, rfl⟩
    | ub => rw [hd] at h1; exact h1
  cases s with
  | assign k e overlap =>
    refine key k _ hs fun c _ hc => ?_
    by_cases hb : (g.force || overlap) = true
    · simp only [hb, if_true]; exact htmp _ c hc
    · simp only [hb, Bool.false_eq_true, if_false]
      refine hdirect _ c ?_ hc
      rcases ha with ha | ha
      · exact ha
      · exact absurd (by simpa [Guarded] using ha) hb
  | noalias k e =>
    exact key k _ hs fun c _ hc => hdirect _ c (ha.resolve_right id) hc
  | noaliasOp k e =>
    refine key k _ hs fun c _ hc => ?_
    have h1 := computedF_spec g hf alloc hc (e σ)
    cases hd : computedF g alloc c (e σ) with
    | ok c' => rw [hd] at h1; exact ⟨h1.1, h1.2.1⟩
    | throws c' => rw [hd] at h1; exact ⟨h1.1, h1.2.1⟩
    | ub => rw [hd] at h1; exact h1
  | scalarOp k f =>
    refine key k _ hs fun c _ hc => ?_
    have h1 := scalarF_spec f c.storage [] c rfl
    simp only [List.length_nil, Nat.zero_add, List.nil_append] at h1
    cases hd : writeUntil c (c.storage.mapIdx fun (i : Nat) (x : α) => ((i : Int), f x)) with
    | ok c' =>
      rw [hd] at h1
      obtain ⟨ys, h2, rfl⟩ := h1
      exact ⟨Consistent.withStorage hc (by simpa using (congrArg List.length h2).symm), rfl⟩
    | throws c' =>
      rw [hd] at h1
      obtain ⟨a, x, b, ys, h2, -, h3, rfl⟩ := h1
      refine ⟨Consistent.withStorage hc ?_, rfl⟩
      have := congrArg List.length h3
      simp only [List.length_map] at this
      rw [h2]; simp [this]
    | ub => rw [hd] at h1; exact h1
  | copy k j =>
    obtain ⟨hk, hkj⟩ := hs
    have hj : j < types.length := by
      rw [List.getElem?_eq_getElem hk] at hkj
      exact (List.getElem?_eq_some_iff.1 hkj.symm).1
    obtain ⟨rhs, hr⟩ : ∃ c, σ[j]? = some c := ⟨_, List.getElem?_eq_getElem (by omega)⟩
    simp only [FStmt.run, hr]
    refine key k _ hk fun c hc hcc => ?_
    by_cases hkj' : k = j
    · simp only [hkj', if_true]; exact ⟨hcc, trivial⟩
    · simp only [hkj', if_false]
      have hal := ha.resolve_right id
      simp only [copyF, hal, Bool.true_or, if_true]
      have hL : c.L = rhs.L := by
        rw [← hσ.1, List.getElem?_map, List.getElem?_map, hc, hr] at hkj
        simpa using hkj
      have hrc := hσ.2 rhs (List.mem_of_getElem? hr)
      have : ({ rhs with L := c.L } : Cont α) = rhs := by rw [hL]
      exact ⟨by rw [this]; exact hrc, trivial⟩
  | resize k s =>
    refine key k _ hs fun c _ hc => ?_
    have h1 := resizeF_spec g hf alloc hc s
    cases hd : resizeF g alloc c s with
    | ok c' => rw [hd] at h1; exact ⟨h1.1, h1.2.2.1⟩
    | throws c' => rw [hd] at h1; exact absurd (ha.resolve_right id) (by rw [h1.1]; simp)
    | ub => rw [hd] at h1; exact h1

/-- Programs that go on after exceptions, in which memory is missing only for guarded statements: all variables stay usable. -/
theorem C100_programs (g : FCfg α) (hf : ∀ n, (g.fresh n).length = n) {types : List Layout} (prog : List (Bool × FStmt α))
    (hp : ∀ s ∈ prog, StmtOk types s.2 ∧ (s.1 = true ∨ Guarded g s.2)) (σ : List (Cont α)) (hσ : AllUsable types σ) :
    ∃ σ', runCatching g prog σ = some σ' ∧ AllUsable types σ' := by
  induction prog generalizing σ with
  | nil => exact ⟨σ, rfl, hσ⟩
  | cons s r ih =>
    obtain ⟨a, s⟩ := s
    obtain ⟨σ', h1, h2, -⟩ := C100_statement g hf hσ a s (hp (a, s) (by simp)).1 (hp (a, s) (by simp)).2
    obtain ⟨σ'', h3, h4⟩ := ih (fun x hx => hp x (by simp [hx])) σ' h2
    refine ⟨σ'', ?_, h4⟩
    rcases h1 with h1 | h1 <;> simp only [runCatching, h1, h3]

/-- `a += 1` whose computation throws at an element: the elements before it have been changed. -/
theorem C100_scalar (g : FCfg α) (alloc : Bool) (σ : List (Cont α)) (k : Nat) (f : α → Option α) {σ' : List (Cont α)}
    (h : (FStmt.scalarOp k f).run g alloc σ = .throws σ') :
    ∃ c a x b ys, σ[k]? = some c ∧ c.storage = a ++ x :: b ∧ f x = none ∧ a.map f = ys.map some ∧
      σ' = σ.set k (c.withStorage (ys ++ x :: b)) := by
  obtain ⟨c, c', h1, h2, rfl⟩ := changeF_throws h
  have h3 := scalarF_spec f c.storage [] c rfl
  simp only [List.length_nil, Nat.zero_add, List.nil_append] at h3
  rw [h2] at h3
  obtain ⟨a, x, b, ys, h4, h5, h6, rfl⟩ := h3
  exact ⟨c, a, x, b, ys, h1, h4, h5, h6, rfl⟩

/-- `noalias(a) += b` that throws: nothing changed, or only elements before the one that could not be computed. -/
theorem C100_computed (g : FCfg α) (hf : ∀ n, (g.fresh n).length = n) (alloc : Bool) (σ : List (Cont α))
    (hσ : ∀ c ∈ σ, Consistent c) (k : Nat) (e : List (Cont α) → FExpr α) {σ' : List (Cont α)}
    (h : (FStmt.noaliasOp k e).run g alloc σ = .throws σ') :
    σ' = σ ∨ ∃ c c', σ[k]? = some c ∧ σ' = σ.set k c' ∧ Consistent c' ∧ c'.shape = c.shape ∧ StoredUpTo c c' (e σ).elem := by
  obtain ⟨c, c', h1, h2, rfl⟩ := changeF_throws h
  have h3 := computedF_spec g hf alloc (hσ c (List.mem_of_getElem? h1)) (e σ)
  rw [h2] at h3
  rcases h3 with ⟨h4, -, rfl | ⟨h5, h6⟩⟩
  · exact .inl (set_same h1)
  · exact .inr ⟨c, c', h1, rfl, h4, h5, h6⟩

/-- A copy that does not throw has the shape and the elements of the source. -/
theorem C100_copied (g : FCfg α) (alloc : Bool) (σ : List (Cont α)) (k j : Nat) {σ' : List (Cont α)}
    (h : (FStmt.copy k j).run g alloc σ = .ok σ') :
    ∃ rhs c', σ[j]? = some rhs ∧ σ' = σ.set k c' ∧ c'.shape = rhs.shape ∧ ∀ i, c'.elem? i = rhs.elem? i := by
  simp only [FStmt.run] at h
  cases hj : σ[j]? with
  | none => rw [hj] at h; simp at h
  | some rhs =>
    rw [hj] at h
    obtain ⟨c, c', h1, h2, rfl⟩ := changeF_ok h
    refine ⟨rhs, c', rfl, rfl, ?_⟩
    split at h2
    · rename_i hkj
      subst hkj
      rw [h1] at hj
      simp only [Option.some.injEq, Out.ok.injEq] at hj h2
      subst hj h2
      exact ⟨rfl, fun _ => rfl⟩
    · unfold copyF at h2
      split at h2
      · simp only [Out.ok.injEq] at h2
        subst h2
        exact ⟨rfl, fun _ => rfl⟩
      · simp at h2

/-! ## Where memory is missing -/

theorem broken_reads {c : Cont α} (h : Consistent c) {s : List Nat} (L l : Layout) (hn : numel c.shape < numel s) (b : List Int) :
    ∃ idx, InBounds s idx ∧ (Cont.mk L l s (computeStrides L l s).1 b c.storage).elem? (toInts idx) = none := by
  have hne : c.storage.length < (List.replicate (numel s) (0 : Nat)).length := by simpa [h.storage_size] using hn
  obtain ⟨idx, h1, h2⟩ := (Consistent.addressable (Consistent.of_computed L l s (List.replicate (numel s) (0 : Nat))
    (by simp))).surjective c.storage.length hne
  refine ⟨idx, h1, ?_⟩
  have h2' : dataOffset (computeStrides L l s).1 false (toInts idx) = (c.storage.length : Int) := h2
  simp [Cont.elem?, h2']

/-- Without memory, `a = e` that does not overlap, `noalias(a) = e`, `a.resize(s)` and `a = b` throw and leave `a` with the new
shape and the old storage.  If the new shape is larger, there are elements whose reading is undefined. -/
theorem C100_no_memory_wrong (g : FCfg α) (hg : g.force = false) (σ : List (Cont α)) (hσ : ∀ c ∈ σ, Consistent c) (k : Nat)
    (c : Cont α) (hk : σ[k]? = some c) (s : List Nat) (hn : numel c.shape < numel s) (st : FStmt α)
    (hst : (∃ e, st = .assign k e false ∧ (e σ).shape = some s) ∨ (∃ e, st = .noalias k e ∧ (e σ).shape = some s) ∨
      st = .resize k s) :
    ∃ c' idx, st.run g false σ = .throws (σ.set k c') ∧ Broken c c' s ∧ InBounds c'.shape idx ∧ c'.elem? (toInts idx) = none := by
  have hc := hσ c (List.mem_of_getElem? hk)
  have hs : c.shape ≠ s := by rintro rfl; omega
  have hr : ∃ c' idx, resizeF g false c s = .throws c' ∧ Broken c c' s ∧ InBounds c'.shape idx ∧ c'.elem? (toInts idx) = none := by
    unfold resizeF Cont.resize
    rw [if_pos (.inl hs)]
    simp only []
    rw [if_neg (by simp [computeSize_eq, hc.storage_size]; omega)]
    obtain ⟨idx, h1, h2⟩ := broken_reads hc c.L (if c.L = .dynamic ∧ c.layout = .dynamic then g.d else c.layout) hn
      (backstrides s (computeStrides c.L (if c.L = .dynamic ∧ c.layout = .dynamic then g.d else c.layout) s).1)
    exact ⟨_, idx, rfl, ⟨by omega, rfl, rfl⟩, h1, h2⟩
  obtain ⟨c', idx, h1, h2⟩ := hr
  refine ⟨c', idx, ?_, h2⟩
  rcases hst with ⟨e, rfl, he⟩ | ⟨e, rfl, he⟩ | rfl
  · simp [FStmt.run, changeF, hk, hg, directF, he, h1, Out.next]
  · simp [FStmt.run, changeF, hk, directF, he, h1, Out.next]
  · simp [FStmt.run, changeF, hk, h1]

/-- The copy assignment of arrays does the same. -/
theorem C100_copy_wrong (g : FCfg α) (σ : List (Cont α)) (hσ : ∀ c ∈ σ, Consistent c) (k j : Nat) (c rhs : Cont α)
    (hk : σ[k]? = some c) (hj : σ[j]? = some rhs) (hL : c.L = rhs.L) (hn : numel c.shape < numel rhs.shape) :
    ∃ c' idx, (FStmt.copy k j).run g false σ = .throws (σ.set k c') ∧ Broken c c' rhs.shape ∧ InBounds c'.shape idx ∧
      c'.elem? (toInts idx) = none := by
  have hc := hσ c (List.mem_of_getElem? hk)
  have hr := hσ rhs (List.mem_of_getElem? hj)
  have hkj : k ≠ j := by rintro rfl; rw [hk] at hj; simp only [Option.some.injEq] at hj; subst hj; omega
  have hne : c.storage.length < rhs.storage.length := by rw [hc.storage_size, hr.storage_size]; exact hn
  obtain ⟨idx, h1, h2⟩ := (Consistent.addressable hr).surjective c.storage.length hne
  refine ⟨{ rhs with L := c.L, storage := c.storage }, idx, ?_, ⟨by omega, rfl, rfl⟩, h1, ?_⟩
  · have hne' : ¬ rhs.storage.length = c.storage.length := by omega
    simp [FStmt.run, changeF, hk, hj, hkj, copyF, hne']
  · simp [Cont.elem?, h2]

theorem lexGreater_self : ∀ (s : List Nat), lexGreater s s = false
  | [] => rfl
  | x :: s => by simp [lexGreater, lexGreater_self s]

theorem writeUntil_past : ∀ (l : List (Int × Option α)) (c : Cont α), (∀ q ∈ l, q.2 ≠ none) →
    (∃ q ∈ l, ¬(0 ≤ q.1 ∧ q.1.toNat < c.storage.length)) → writeUntil c l = .ub
  | [], _, _, ⟨_, h, _⟩ => absurd h List.not_mem_nil
  | (p, none) :: _, _, ha, _ => absurd rfl (ha (p, none) List.mem_cons_self)
  | (p, some x) :: r, c, ha, ⟨q, hq, hp⟩ => by
    unfold writeUntil
    by_cases h : 0 ≤ p ∧ p.toNat < c.storage.length
    · rw [if_pos h]
      refine writeUntil_past r _ (fun q hq => ha q (List.mem_cons_of_mem _ hq)) ⟨q, ?_, ?_⟩
      · rcases List.mem_cons.1 hq with rfl | hq
        · exact absurd h hp
        · exact hq
      · simpa using hp
    · rw [if_neg h]

/-- Nor can such an array be written: to assign to it an expression of the shape it claims to have, or to combine it with one in
place, is undefined. -/
theorem C100_broken_write_wrong (g : FCfg α) (alloc : Bool) (σ : List (Cont α)) (k : Nat) (c : Cont α) (hk : σ[k]? = some c)
    (idx : List Nat) (hi : InBounds c.shape idx) (hr : c.elem? (toInts idx) = none) (e : List (Cont α) → FExpr α)
    (he : (e σ).shape = some c.shape) (hv : ∀ i, InBounds c.shape i → (e σ).elem i ≠ none) :
    (FStmt.noalias k e).run g alloc σ = .ub ∧ (FStmt.noaliasOp k e).run g alloc σ = .ub := by
  have hw : assignDataF g c (e σ).elem = .ub := by
    refine writeUntil_past _ c ?_ ?_
    · intro q hq
      obtain ⟨i, hm, rfl⟩ := List.mem_map.1 hq
      exact hv i (mem_loopOrder.1 hm)
    · refine ⟨_, List.mem_map.2 ⟨idx, mem_loopOrder.2 hi, rfl⟩, ?_⟩
      rintro ⟨h1, h2⟩
      unfold Cont.elem? at hr
      simp only [] at hr
      rw [if_neg (by omega)] at hr
      exact absurd h2 (by simpa using hr)
  constructor
  · have : resizeF g alloc c c.shape = .ok c := by
      unfold resizeF Cont.resize
      rw [if_neg (by simp)]
    simp [FStmt.run, changeF, hk, directF, he, this, Out.next, hw]
  · simp [FStmt.run, changeF, hk, computedF, he, lexGreater_self, hw]

/-! ## Examples -/

/-- Row-major arrays of natural numbers, new memory full of sevens. -/
def fEx : FCfg Nat := ⟨false, .row_major, fun n => List.replicate n 7, 0⟩

theorem fEx_fresh : ∀ n, (fEx.fresh n).length = n := by intro n; simp [fEx]

/-- `{1, 2}` and `{{5, 6, 7}, {8, 9, 10}}`. -/
def fEx2 : List (Cont Nat) :=
  [⟨.row_major, .row_major, [2], [1], [1], [1, 2]⟩, ⟨.row_major, .row_major, [2, 3], [3, 1], [3, 2], [5, 6, 7, 8, 9, 10]⟩]

theorem fEx2_ok : AllUsable [.row_major, .row_major] fEx2 := by
  refine ⟨rfl, fun c hc => ?_⟩
  simp only [fEx2, List.mem_cons, List.not_mem_nil, or_false] at hc
  rcases hc with rfl | rfl
  · exact Consistent.of_computed .row_major .row_major [2] [1, 2] (by decide)
  · exact Consistent.of_computed .row_major .row_major [2, 3] [5, 6, 7, 8, 9, 10] (by decide)

/-- The second array, where the element after the first four cannot be computed. -/
def fExE : List (Cont Nat) → FExpr Nat := fun _ =>
  ⟨some [2, 3], fun i => if i = [1, 1] then none else some (i.sum * 100)⟩

-- C100_temporary: the exception of the fifth element, through a temporary.
example : (FStmt.assign 0 fExE true).run fEx true fEx2 = .throws fEx2 ∧
    (FStmt.assign 0 fExE true).run fEx false fEx2 = .throws fEx2 := by decide
-- C100_direct: the array has the new shape, four elements and the rest of the new memory.
example : (FStmt.noalias 0 fExE).run fEx true fEx2 =
    .throws (fEx2.set 0 ⟨.row_major, .row_major, [2, 3], [3, 1], [3, 2], [0, 100, 200, 100, 7, 7]⟩) := by decide
example : (FStmt.assign 0 fExE false).run fEx true fEx2 = (FStmt.noalias 0 fExE).run fEx true fEx2 :=
  C100_assign_is_direct fEx rfl true fEx2 0 fExE
-- C100_assigned: an expression that can be computed.
example : (FStmt.assign 0 (fun _ => ⟨some [3], fun i => some (i.sum + 1)⟩) false).run fEx true fEx2 =
    .ok (fEx2.set 0 ⟨.row_major, .row_major, [3], [1], [2], [1, 2, 3]⟩) := by decide
-- C100_scalar: the fifth element cannot be computed.
example : (FStmt.scalarOp 1 (fun x => if x = 9 then none else some (x + 1))).run fEx false fEx2 =
    .throws (fEx2.set 1 ⟨.row_major, .row_major, [2, 3], [3, 1], [3, 2], [6, 7, 8, 9, 9, 10]⟩) := by decide
-- C100_computed: no memory for the temporary: nothing changed; and an exception in the middle.
example : (FStmt.noaliasOp 0 fExE).run fEx false fEx2 = .throws fEx2 := by decide
example : (FStmt.noaliasOp 1 fExE).run fEx false fEx2 =
    .throws (fEx2.set 1 ⟨.row_major, .row_major, [2, 3], [3, 1], [3, 2], [0, 100, 200, 100, 9, 10]⟩) := by decide
-- C100_copied.
example : (FStmt.copy 0 1).run fEx true fEx2 = .ok [fEx2[1], fEx2[1]] := by decide

-- C100_statement and C100_programs.
example : ∃ σ', runCatching fEx [(true, .noalias 0 fExE), (false, .assign 1 fExE true), (true, .copy 0 1), (true, .resize 1 [7])]
    fEx2 = some σ' ∧ AllUsable [.row_major, .row_major] σ' :=
  C100_programs fEx fEx_fresh _ (by
    intro s hs
    simp only [List.mem_cons, List.not_mem_nil, or_false] at hs
    rcases hs with rfl | rfl | rfl | rfl <;> simp [StmtOk, Guarded, FStmt.dest]) fEx2 fEx2_ok
example : ∃ σ', ((FStmt.noalias 0 fExE).run fEx true fEx2 = .ok σ' ∨ (FStmt.noalias 0 fExE).run fEx true fEx2 = .throws σ') ∧
    AllUsable [.row_major, .row_major] σ' ∧ ∀ j, j ≠ 0 → σ'[j]? = fEx2[j]? :=
  C100_statement fEx fEx_fresh fEx2_ok true (.noalias 0 fExE) (by simp [StmtOk, FStmt.dest]) (.inl rfl)

-- C100_no_memory_wrong and C100_copy_wrong: two elements in memory, and a shape for six.
example : (FStmt.assign 0 fExE false).run fEx false fEx2 =
    .throws (fEx2.set 0 ⟨.row_major, .row_major, [2, 3], [3, 1], [3, 2], [1, 2]⟩) := by decide
example := C100_no_memory_wrong fEx rfl fEx2 fEx2_ok.2 0 _ rfl [2, 3] (by decide) (.resize 0 [2, 3]) (.inr (.inr rfl))
example : (FStmt.copy 0 1).run fEx false fEx2 =
    .throws (fEx2.set 0 ⟨.row_major, .row_major, [2, 3], [3, 1], [3, 2], [1, 2]⟩) := by decide
example := C100_copy_wrong fEx fEx2 fEx2_ok.2 0 1 _ _ rfl rfl rfl (by decide)
-- C100_broken_write_wrong: the array left by the last statement, and six values for it.
example := C100_broken_write_wrong fEx true (fEx2.set 0 ⟨.row_major, .row_major, [2, 3], [3, 1], [3, 2], [1, 2]⟩) 0 _ rfl [0, 2]
  (by decide) (by decide) (fun _ => ⟨some [2, 3], fun i => some i.sum⟩) rfl (by simp)

end Xt
