import Verif.Lemmas.StorageFail
/-!
# C97: storages when allocations and element operations throw
-/

namespace Xt
open Spec

variable {α : Type}

/-- A block that nobody owns does not matter as long as it is not in use. -/
theorem uRep.dead {e : StoreEnv α} {a : Nat} {w : UWorld α} {s : List (Option (List (Option α)))} (H : uRep e a w s)
    {b : Block α} (hb : b.live = false) : uRep e a ⟨w.heap ++ [b], w.vars⟩ s := by
  refine ⟨H.len, fun k v t hv ht => (H.rep k v t hv ht).append b, H.sep, fun p c hp hc => ?_⟩
  by_cases hl : p < w.heap.length
  · rw [List.getElem?_append_left hl] at hp
    exact H.all p c hp hc
  · rw [List.getElem?_append_right (by omega)] at hp
    have := lt_of_getElem? hp
    simp at this
    have h0 : p - w.heap.length = 0 := by omega
    rw [h0] at hp
    simp at hp
    subst hp
    rw [hb] at hc
    cases hc

theorem resized_length (t : Bool) (z : α) (l : List (Option α)) (n : Nat) : (resized t z l n).length = n := by
  unfold resized; split
  · omega
  · exact length_newElements _ _ _

theorem createF_of {w : UWorld α} {k : Nat} {g : List (Block α) → Att α UVec} (hk : w.vars[k]? = some none) :
    w.createF k g = match g w.heap with
      | .done h _ v => .done ⟨h, w.vars.set k (some v)⟩
      | .threw h => .threw ⟨h, w.vars⟩
      | .ub => .ub := by unfold UWorld.createF; rw [if_pos hk]; cases g w.heap <;> rfl

theorem changeF_of {w : UWorld α} {k : Nat} {v : UVec} {g : List (Block α) → UVec → VecAtt α} (hk : w.get k = .ok v) :
    w.changeF k g = match g w.heap v with
      | .done h _ v => .done ⟨h, w.vars.set k (some v)⟩
      | .threw h v => .threw ⟨h, w.vars.set k (some v)⟩
      | .ub => .ub := by unfold UWorld.changeF; simp only [hk]; cases g w.heap v <;> rfl

/-- One operation on vectors that own all memory: it is made, or it throws and the sequences are as the specification allows.
In the latter case either the vectors still own all memory, or nothing happened to them and one new block belongs to nobody.
That block was obtained by an allocation that succeeded. -/
theorem uStepF_rep (e : StoreEnv α) (a : Nat) (hsel : e.select a = a) (w : UWorld α) (s t : List (Option (List (Option α))))
    (f : Option Nat) (o : StoreOp α) (H : uRep e a w s) (hs : storeStep e.trivial e.init s o = some t) :
    (∃ w', uStepF e a w f o = .done w' ∧ uRep e a w' t) ∨
    (f ≠ none ∧ ∃ w' s', uStepF e a w f o = .threw w' ∧ MayFail e.trivial e.init s o s' ∧
      (uRep e a w' s' ∨ f ≠ some 0 ∧ s' = s ∧ ∃ b, b.alloc = a ∧ b.live = true ∧ w' = ⟨w.heap ++ [b], w.vars⟩)) := by
  obtain ⟨w1, hw1, hr1⟩ := uStep_rep e a hsel w s t o H hs
  have ctor : ∀ (k : Nat) (xs : List (Option α)), w.vars[k]? = some none → (e.trivial = false → ∀ x ∈ xs, x ≠ none) →
      t = s.set k (some xs) →
      (∃ w', w.createF k (fun h => initDataF e h f a xs) = .done w' ∧ uRep e a w' t) ∨
      (f ≠ none ∧ ∃ w', w.createF k (fun h => initDataF e h f a xs) = .threw w' ∧
        (uRep e a w' s ∨ f ≠ some 0 ∧ ∃ b, b.alloc = a ∧ b.live = true ∧ w' = ⟨w.heap ++ [b], w.vars⟩)) := by
    rintro k xs hk hx rfl
    rw [createF_of hk]
    rcases initDataF_cases e w.heap f a xs hx with ⟨h1, h2⟩ | ⟨j, c, h1, -, h2, -⟩ | ⟨f', r, h1, h2, -⟩
    · right
      rw [h2]
      exact ⟨by simp [h1], w, rfl, .inl H⟩
    · right
      rw [h2]
      exact ⟨by simp [h1], _, rfl, .inr ⟨by simp [h1], _, rfl, rfl, rfl⟩⟩
    · left
      rw [h2]
      obtain ⟨r', h3, h4⟩ := initData_rep H hk xs hx
      rw [h1, Res.ok.injEq] at h3
      subst h3
      exact ⟨_, rfl, h4⟩
  cases o with
  | ctorCount k n =>
    obtain ⟨h1, rfl⟩ := create_some hs
    have hk := H.free h1
    simp only [uStepF]
    rw [createF_of hk]
    unfold uCountF
    by_cases h0 : n ≠ 0
    · rw [if_pos h0]
      rcases safeInitAllocateF_cases e w.heap f a n with ⟨h2, h3⟩ | ⟨j, h2, -, -, h3⟩ | ⟨f', h3, -⟩
      · right
        rw [h3]
        exact ⟨by simp [h2], w, s, rfl, rfl, .inl H⟩
      · right
        rw [h3]
        exact ⟨by simp [h2], _, s, rfl, rfl, .inr ⟨by simp [h2], rfl, _, rfl, rfl, rfl⟩⟩
      · left
        rw [h3]
        have := H.fresh hk rfl (newElements e.trivial e.init n) (newElements_some e n)
        rw [length_newElements] at this
        exact ⟨_, rfl, this⟩
    · rw [if_neg h0]
      obtain rfl : n = 0 := by omega
      exact .inl ⟨_, rfl, H.empty hk rfl⟩
  | ctorFill k n x =>
    obtain ⟨h1, h2⟩ := create_some hs
    rcases ctor k _ (H.free h1) (by simp) h2 with h | ⟨hf, w', h3, h4⟩
    · exact .inl h
    · exact .inr ⟨hf, w', s, h3, rfl, h4.imp id fun ⟨g1, g2⟩ => ⟨g1, rfl, g2⟩⟩
  | ctorList k l =>
    obtain ⟨h1, h2⟩ := create_some hs
    rcases ctor k _ (H.free h1) (by simp) h2 with h | ⟨hf, w', h3, h4⟩
    · exact .inl h
    · exact .inr ⟨hf, w', s, h3, rfl, h4.imp id fun ⟨g1, g2⟩ => ⟨g1, rfl, g2⟩⟩
  | ctorCopy k j =>
    simp only [storeStep, Option.bind_eq_some_iff] at hs
    obtain ⟨l, hl, hs⟩ := hs
    obtain ⟨h1, h2⟩ := create_some hs
    obtain ⟨v, hv1, hv2, hv3⟩ := H.get (seqOf_some hl)
    have hc : uStepF e a w f (.ctorCopy k j) = w.createF k (fun h => initDataF e h f a l) := by
      simp only [uStepF, hv2]
      rw [createF_of (H.free h1), createF_of (H.free h1)]
      simp only [uCopyF, hv3.elements, hv3.1, hsel]
    rw [hc]
    rcases ctor k _ (H.free h1) hv3.2.2.1 h2 with h | ⟨hf, w', h3, h4⟩
    · exact .inl h
    · exact .inr ⟨hf, w', s, h3, rfl, h4.imp id fun ⟨g1, g2⟩ => ⟨g1, rfl, g2⟩⟩
  | ctorMove k j =>
    left
    refine ⟨w1, ?_, hr1⟩
    simp only [uStepF, hw1, StepAtt.safe]
  | move k j =>
    left
    refine ⟨w1, ?_, hr1⟩
    simp only [uStepF, hw1, StepAtt.safe]
  | swap k j =>
    left
    refine ⟨w1, ?_, hr1⟩
    simp only [uStepF, hw1, StepAtt.safe]
  | destroy k =>
    left
    refine ⟨w1, ?_, hr1⟩
    simp only [uStepF, hw1, StepAtt.safe]
  | resize k n =>
    simp only [storeStep, Option.map_eq_some_iff] at hs
    obtain ⟨l, hl, rfl⟩ := hs
    obtain ⟨v, hv1, hv2, hv3⟩ := H.get (seqOf_some hl)
    obtain ⟨r, h1, h2, -⟩ := resizeImpl_rep H hv1 hv3 n
    simp only [uStepF]
    rw [changeF_of hv2]
    unfold resizeImpl at h1
    unfold resizeImplF
    by_cases hn : n ≠ v.size
    · rw [if_pos hn] at h1 ⊢
      rw [safeInitAllocate_eq, Res.bind_ok] at h1
      rcases safeInitAllocateF_cases e w.heap f v.alloc n with ⟨h3, h4⟩ | ⟨j, h3, -, -, h4⟩ | ⟨f', h4, -⟩
      · right
        rw [h4]
        refine ⟨by simp [h3], _, s, rfl, rfl, .inl ?_⟩
        rw [set_getElem? hv1]
        exact H
      · right
        rw [h4]
        refine ⟨by simp [h3], _, s, rfl, rfl, .inr ⟨by simp [h3], rfl,
          ⟨v.alloc, List.replicate j (some e.init) ++ List.replicate (n - j) none, true⟩, hv3.1, rfl, ?_⟩⟩
        rw [set_getElem? hv1]
      · left
        rw [h4, nextVec_done]
        cases hd : safeDestroyDeallocate e (w.heap ++ [⟨v.alloc, newElements e.trivial e.init n, true⟩]) v.alloc v.block
            v.size with
        | ok h' =>
          rw [hd] at h1
          simp only [Res.map, Res.bind_ok, Res.ok.injEq] at h1
          subst h1
          exact ⟨_, rfl, h2⟩
        | throws => rw [hd] at h1; cases h1
        | ub => rw [hd] at h1; cases h1
    · rw [if_neg hn] at h1 ⊢
      rw [Res.ok.injEq] at h1
      subst h1
      exact .inl ⟨_, rfl, h2⟩
  | write k i x =>
    simp only [storeStep, Option.bind_eq_some_iff] at hs
    obtain ⟨l, hl, hs⟩ := hs
    obtain ⟨v, hv1, hv2, hv3⟩ := H.get (seqOf_some hl)
    simp only [uStep, UWorld.change, hv2, Res.bind_ok, uWrite] at hw1
    simp only [uStepF]
    rw [changeF_of hv2]
    unfold uWriteF
    cases hb : v.block with
    | none => rw [hb] at hw1; cases hw1
    | some p =>
      rw [hb] at hw1
      simp only [] at hw1 ⊢
      have hthrow : ∀ hf : f = some 0, (∃ w', (match (match attempt f with
            | none => VecAtt.threw w.heap v
            | some f => match assignAt e w.heap p i (some x) with
              | .ok h => .done h f v
              | _ => .ub) with
            | .done h _ v => StepAtt.done ⟨h, w.vars.set k (some v)⟩
            | .threw h v => .threw ⟨h, w.vars.set k (some v)⟩
            | .ub => .ub) = .threw w' ∧ uRep e a w' s) := by
        rintro rfl
        refine ⟨_, rfl, ?_⟩
        rw [set_getElem? hv1]
        exact H
      have hdone : ∀ f1, attempt f = some f1 → ∃ w', (match (match attempt f with
            | none => VecAtt.threw w.heap v
            | some f => match assignAt e w.heap p i (some x) with
              | .ok h => .done h f v
              | _ => .ub) with
            | .done h _ v => StepAtt.done ⟨h, w.vars.set k (some v)⟩
            | .threw h v => .threw ⟨h, w.vars.set k (some v)⟩
            | .ub => .ub) = .done w' ∧ uRep e a w' t := by
        intro f1 hf1
        rw [hf1]
        simp only []
        cases ha : assignAt e w.heap p i (some x) with
        | ok h' =>
          rw [ha] at hw1
          simp only [Res.map, Res.bind_ok, Res.ok.injEq] at hw1
          subst hw1
          exact ⟨_, rfl, hr1⟩
        | throws => rw [ha] at hw1; cases hw1
        | ub => rw [ha] at hw1; cases hw1
      match f, hthrow, hdone with
      | some 0, hthrow, _ =>
        obtain ⟨w', h3, h4⟩ := hthrow rfl
        exact .inr ⟨by simp, w', s, h3, rfl, .inl h4⟩
      | none, _, hdone => exact .inl (hdone none rfl)
      | some (j + 1), _, hdone => exact .inl (hdone (some j) rfl)
  | copy k j =>
    simp only [storeStep, Option.bind_eq_some_iff, Option.map_eq_some_iff] at hs
    obtain ⟨l, hl, m, hm, rfl⟩ := hs
    have hj := seqOf_some hl
    have hk := seqOf_some hm
    obtain ⟨u, hu1, hu2, hu3⟩ := H.get hj
    obtain ⟨v, hv1, hv2, hv3⟩ := H.get hk
    simp only [uStepF, hu2]
    by_cases hkj : k ≠ j
    swap
    · rw [if_neg hkj]
      obtain rfl : k = j := by omega
      rw [set_getElem? hj]
      exact .inl ⟨_, rfl, H⟩
    rw [if_pos hkj, changeF_of hv2]
    have hva : (⟨a, v.block, v.size⟩ : UVec) = v := by rw [← hv3.1]
    unfold uCopyAssignF
    rw [hu3.1, hsel, hva, hu3.2.1]
    obtain ⟨r, h1, h2, h3, h4⟩ := resizeImpl_rep H hv1 hv3 l.length
    have hlen := resized_length e.trivial e.init m l.length
    -- what the change of size comes to
    have hres : (f = some 0 ∧ resizeImplF e w.heap f v l.length = .threw w.heap v) ∨
        (f ≠ none ∧ f ≠ some 0 ∧ ∃ b, b.alloc = a ∧ b.live = true ∧
          resizeImplF e w.heap f v l.length = .threw (w.heap ++ [b]) v) ∨
        ∃ f', resizeImplF e w.heap f v l.length = .done r.1 f' r.2 ∧ (f = none → f' = none) := by
      unfold resizeImpl at h1
      unfold resizeImplF
      by_cases hn : l.length ≠ v.size
      · rw [if_pos hn] at h1 ⊢
        rw [safeInitAllocate_eq, Res.bind_ok] at h1
        rcases safeInitAllocateF_cases e w.heap f v.alloc l.length with ⟨g3, g4⟩ | ⟨j, g3, -, -, g4⟩ | ⟨f', g4, g5⟩
        · exact .inl ⟨g3, by rw [g4]; rfl⟩
        · exact .inr (.inl ⟨by simp [g3], by simp [g3], _, hv3.1, rfl, by rw [g4]; rfl⟩)
        · right; right
          refine ⟨f', ?_, g5⟩
          rw [g4, nextVec_done]
          cases hd : safeDestroyDeallocate e (w.heap ++ [⟨v.alloc, newElements e.trivial e.init l.length, true⟩]) v.alloc
              v.block v.size with
          | ok h' =>
            rw [hd] at h1
            simp only [Res.map, Res.bind_ok, Res.ok.injEq] at h1
            subst h1
            rfl
          | throws => rw [hd] at h1; cases h1
          | ub => rw [hd] at h1; cases h1
      · rw [if_neg hn] at h1 ⊢
        rw [Res.ok.injEq] at h1
        subst h1
        exact .inr (.inr ⟨f, rfl, fun h => h⟩)
    rcases hres with ⟨g1, g2⟩ | ⟨g1, g1', b, gb1, gb2, g2⟩ | ⟨f', g2, g3⟩
    · right
      rw [g2]
      refine ⟨by simp [g1], _, s, rfl, ⟨hkj, .inl rfl⟩, .inl ?_⟩
      rw [set_getElem? hv1]
      exact H
    · right
      rw [g2]
      refine ⟨g1, _, s, rfl, ⟨hkj, .inl rfl⟩, .inr ⟨g1', rfl, b, gb1, gb2, ?_⟩⟩
      rw [set_getElem? hv1]
    · rw [g2]
      have hu4 : uHolds e a r.1 (some u) (some l) := by
        refine (uLocal e a).frame w.heap r.1 _ _ ?_ hu3
        intro p hp
        refine h4 p ((uLocal e a).dom _ _ _ p hu3 hp) ?_
        intro hc
        exact Holds.sep H k j (some v) (some u) p hkj hv1 hu1 hc hp
      have hsz := hu3.2.1
      have hel := hu4.elements
      rw [hsz] at hel
      simp only [hel]
      cases hb : r.2.block with
      | none =>
        have h5 : resized e.trivial e.init m l.length = [] := by
          have := h3.2.2.2
          rw [hb] at this
          exact this
        have : l = [] := by rw [h5] at hlen; exact List.length_eq_zero_iff.1 (by simpa using hlen.symm)
        subst this
        rw [h5] at h2
        exact .inl ⟨_, rfl, h2⟩
      | some p =>
        have hb' := h3.2.2.2
        rw [hb] at hb'
        have hcopy : (∃ i, f' = some i ∧ i < l.length ∧
              (if e.trivial = true then uninitializedCopyF e r.1 f' p l else stdCopyF e r.1 f' p l) =
                .threw (r.1.set p ⟨a, l.take i ++ (resized e.trivial e.init m l.length).drop i, true⟩)) ∨
            ∃ f'', (if e.trivial = true then uninitializedCopyF e r.1 f' p l else stdCopyF e r.1 f' p l) =
              .done (r.1.set p ⟨a, l, true⟩) f'' () := by
          cases ht : e.trivial with
          | true =>
            rw [ht] at hb' hlen
            simp only [if_true]
            rcases uninitializedCopyF_cases e hb' l hlen.symm (.inl ht) (by simp [ht]) f' with ⟨i, i1, i2, i3⟩ | ⟨f'', i1, -⟩
            · rw [ht, if_pos rfl] at i3
              exact .inl ⟨i, i1, i2, i3⟩
            · exact .inr ⟨f'', i1⟩
          | false =>
            have h6 := h3.2.2.1 ht
            rw [ht] at hb' hlen h6
            simp only [Bool.false_eq_true, if_false]
            rcases stdCopyF_cases e hb' l hlen.symm (.inr h6) f' with ⟨i, i1, i2, i3⟩ | ⟨f'', i1, -⟩
            · exact .inl ⟨i, i1, i2, i3⟩
            · exact .inr ⟨f'', i1⟩
        have hset : (w.vars.set k (some r.2))[k]? = some (some r.2) := by
          rw [List.getElem?_set_self (lt_of_getElem? hv1)]
        rcases hcopy with ⟨i, i1, i2, i3⟩ | ⟨f'', i1⟩
        · right
          simp only [i3, nextVec_threw]
          refine ⟨?_, _, s.set k (some (l.take i ++ (resized e.trivial e.init m l.length).drop i)), rfl,
            ⟨hkj, .inr ⟨l, m, i, hl, hm, i2, rfl⟩⟩, .inl ?_⟩
          · rintro rfl
            rw [g3 rfl] at i1
            cases i1
          · have := uRep.overwrite (w := ⟨r.1, w.vars.set k (some r.2)⟩) (v := r.2) h2 hset h3 hb
              (l.take i ++ (resized e.trivial e.init m l.length).drop i) (by simp [hlen]; omega) (by
                intro ht x hx
                rcases List.mem_append.1 hx with hx | hx
                · exact hu3.2.2.1 ht x (List.mem_of_mem_take hx)
                · exact h3.2.2.1 ht x (List.mem_of_mem_drop hx))
            rw [List.set_set] at this
            exact this
        · left
          simp only [i1, nextVec_done]
          refine ⟨_, rfl, ?_⟩
          have := uRep.overwrite (w := ⟨r.1, w.vars.set k (some r.2)⟩) (v := r.2) h2 hset h3 hb l hlen.symm hu3.2.2.1
          rw [List.set_set] at this
          exact this

/-- The program state `w` represents the sequences `s`: every vector owns one block of exactly its elements, no two own the same,
and every block in use is owned, except for those numbered in `lost`, which nobody owns. -/
structure LeakyRep (e : StoreEnv α) (a : Nat) (w : UWorld α) (s : List (Option (List (Option α)))) (lost : List Nat) : Prop where
  len : w.vars.length = s.length
  rep : ∀ (k : Nat) v l, w.vars[k]? = some v → s[k]? = some l → uHolds e a w.heap v l
  sep : ∀ (j k : Nat) u v p, j ≠ k → w.vars[j]? = some u → w.vars[k]? = some v → uOwn u = some p → uOwn v ≠ some p
  all : ∀ (p : Nat) b, w.heap[p]? = some b → b.live = true → p ∈ lost ∨ ∃ (k : Nat) (v : Option UVec),
    w.vars[k]? = some v ∧ uOwn v = some p
  lost : ∀ p ∈ lost, p < w.heap.length ∧ ∀ (k : Nat) (v : Option UVec), w.vars[k]? = some v → uOwn v ≠ some p

/-- The same vectors, with the lost blocks given back. -/
def reclaim (lost : List Nat) (h : List (Block α)) : List (Block α) :=
  h.mapIdx fun p b => if p ∈ lost then ⟨b.alloc, b.cells, false⟩ else b

theorem reclaim_get (lost : List Nat) (h : List (Block α)) (p : Nat) :
    (reclaim lost h)[p]? = h[p]?.map fun b => if p ∈ lost then ⟨b.alloc, b.cells, false⟩ else b := by
  simp [reclaim, List.getElem?_mapIdx]

theorem reclaim_sparing (lost : List Nat) (h : List (Block α)) (hl : ∀ p ∈ lost, p < h.length) :
    Sparing lost (reclaim lost h) h := by
  refine ⟨by simp [reclaim], fun p hp => ?_, fun p hp => ?_⟩
  · rw [reclaim_get]
    cases h[p]? with
    | none => rfl
    | some b => simp [hp]
  · rw [reclaim_get, List.getElem?_eq_getElem (hl p hp)]
    exact ⟨_, rfl, by simp [hp]⟩

theorem LeakyRep.down {e : StoreEnv α} {a : Nat} {w : UWorld α} {s : List (Option (List (Option α)))} {lost : List Nat}
    (H : LeakyRep e a w s lost) : uRep e a ⟨reclaim lost w.heap, w.vars⟩ s ∧ Sparing lost (reclaim lost w.heap) w.heap := by
  have R := reclaim_sparing lost w.heap fun p hp => (H.lost p hp).1
  refine ⟨⟨H.len, fun k v l hv hs => ?_, H.sep, fun p b hb hl => ?_⟩, R⟩
  · refine (uLocal e a).frame w.heap _ v l ?_ (H.rep k v l hv hs)
    intro p hp
    exact R.same p fun hm => (H.lost p hm).2 k v hv hp
  · by_cases hm : p ∈ lost
    · obtain ⟨c, h1, h2⟩ := R.dead p hm
      simp only [] at hb
      rw [hb, Option.some.injEq] at h1
      subst h1
      rw [h2] at hl
      cases hl
    · have := R.same p hm
      simp only [] at hb
      rw [hb] at this
      exact (H.all p b this.symm hl).resolve_left hm

theorem LeakyRep.up {e : StoreEnv α} {a : Nat} {h h' : List (Block α)} {vars : List (Option UVec)}
    {s : List (Option (List (Option α)))} {lost : List Nat} (H : uRep e a ⟨h, vars⟩ s) (R : Sparing lost h h') :
    LeakyRep e a ⟨h', vars⟩ s lost := by
  have own : ∀ p ∈ lost, ∀ (k : Nat) (v : Option UVec), vars[k]? = some v → uOwn v ≠ some p := by
    intro p hp k v hv ho
    obtain ⟨b, h1, h2⟩ := R.dead p hp
    have hk : k < s.length := by have := H.len; have := lt_of_getElem? hv; simp only [] at *; omega
    have hr := H.rep k v _ hv (List.getElem?_eq_getElem hk)
    cases v with
    | none => cases ho
    | some v =>
      cases hs : s[k] with
      | none => rw [hs] at hr; exact hr.elim
      | some l =>
        rw [hs] at hr
        have := hr.2.2.2
        rw [show v.block = some p from ho] at this
        simp only [] at this
        rw [h1, Option.some.injEq] at this
        subst this
        cases h2
  refine ⟨H.len, fun k v l hv hs => ?_, H.sep, fun p b hb hl => ?_, fun p hp => ⟨?_, own p hp⟩⟩
  · refine (uLocal e a).frame h _ v l ?_ (H.rep k v l hv hs)
    intro p hp
    exact (R.same p fun hm => own p hm k v hv hp).symm
  · by_cases hm : p ∈ lost
    · exact .inl hm
    · have := R.same p hm
      simp only [] at hb
      rw [hb] at this
      exact .inr (H.all p b this hl)
  · obtain ⟨b, h1, -⟩ := R.dead p hp
    have := lt_of_getElem? h1
    rw [R.len] at this
    exact this

/-- One operation, also when blocks were lost before: it is made, or it throws, the sequences are as the specification allows,
and at most one block is lost, which does not happen when it is the allocation that fails. -/
theorem C97_step (e : StoreEnv α) (a : Nat) (hsel : e.select a = a) (w : UWorld α) (s t : List (Option (List (Option α))))
    (lost : List Nat) (f : Option Nat) (o : StoreOp α) (H : LeakyRep e a w s lost)
    (hs : storeStep e.trivial e.init s o = some t) :
    (∃ w', uStepF e a w f o = .done w' ∧ LeakyRep e a w' t lost) ∨
    (f ≠ none ∧ ∃ w' s', uStepF e a w f o = .threw w' ∧ MayFail e.trivial e.init s o s' ∧
      (LeakyRep e a w' s' lost ∨ f ≠ some 0 ∧ LeakyRep e a w' s' (w.heap.length :: lost))) := by
  obtain ⟨hr, R⟩ := H.down
  have hsim := uStepF_sim e a (vars := w.vars) R f o
  rcases uStepF_rep e a hsel _ s t f o hr hs with ⟨w1, h1, h2⟩ | ⟨hf, w1, s', h1, h2, h3⟩
  · left
    rw [h1] at hsim
    cases hw : uStepF e a ⟨w.heap, w.vars⟩ f o with
    | done w' =>
      rw [hw] at hsim
      obtain ⟨g1, g2⟩ := hsim
      refine ⟨w', rfl, ?_⟩
      have := LeakyRep.up (h := w1.heap) (vars := w1.vars) h2 g1
      rw [g2] at this
      exact this
    | threw w' => rw [hw] at hsim; exact hsim.elim
    | ub => rw [hw] at hsim; exact hsim.elim
  · right
    rw [h1] at hsim
    cases hw : uStepF e a ⟨w.heap, w.vars⟩ f o with
    | threw w' =>
      rw [hw] at hsim
      obtain ⟨g1, g2⟩ := hsim
      refine ⟨hf, w', s', rfl, h2, ?_⟩
      rcases h3 with h3 | ⟨hf0, rfl, b, hb1, hb2, rfl⟩
      · left
        have := LeakyRep.up (h := w1.heap) (vars := w1.vars) h3 g1
        rw [g2] at this
        exact this
      · right
        refine ⟨hf0, ?_⟩
        simp only [] at g1 g2
        have hd := hr.dead (b := ⟨b.alloc, b.cells, false⟩) rfl
        have R' : Sparing (w.heap.length :: lost) (reclaim lost w.heap ++ [⟨b.alloc, b.cells, false⟩]) w'.heap := by
          have hl := R.len
          refine ⟨by rw [← g1.len]; simp, fun p hp => ?_, fun p hp => ?_⟩
          · rw [List.mem_cons, not_or] at hp
            rw [← g1.same p hp.2]
            by_cases hlt : p < (reclaim lost w.heap).length
            · rw [List.getElem?_append_left hlt, List.getElem?_append_left hlt]
            · rw [List.getElem?_eq_none (by simp; omega), List.getElem?_eq_none (by simp; omega)]
          · rcases List.mem_cons.1 hp with rfl | hp
            · refine ⟨⟨b.alloc, b.cells, false⟩, ?_, rfl⟩
              rw [← hl]
              simp
            · obtain ⟨c, c1, c2⟩ := R.dead p hp
              exact ⟨c, by rw [List.getElem?_append_left (lt_of_getElem? c1)]; exact c1, c2⟩
        have := LeakyRep.up (vars := w.vars) hd R'
        rw [g2] at this
        exact this
    | done w' => rw [hw] at hsim; exact hsim.elim
    | ub => rw [hw] at hsim; exact hsim.elim

/-- Whether a failure is one of an element, after the memory was obtained. -/
def elementFails : Option Nat → Bool
  | some (_ + 1) => true
  | _ => false

theorem elementFails_iff (f : Option Nat) : elementFails f = true ↔ f ≠ none ∧ f ≠ some 0 := by
  match f with
  | none => simp [elementFails]
  | some 0 => simp [elementFails]
  | some (_ + 1) => simp [elementFails]

theorem countP_head_tail (P : Option Nat → Bool) (h0 : P none = false) (l : List (Option Nat)) :
    (if P (l.headD none) = true then 1 else 0) + l.tail.countP P = l.countP P := by
  cases l with
  | nil => simp [h0]
  | cons x l => simp [List.countP_cons]; omega

/-- Whatever throws at whatever moment, a program that catches the exceptions never has undefined behaviour; it ends with
sequences the specification allows, every vector owns exactly its elements, and the blocks that nobody owns are at most as many
as there were failures of elements. -/
theorem C97_uvector (e : StoreEnv α) (a : Nat) (hsel : e.select a = a) : ∀ (p : TryProg α) (fails : List (Option Nat))
    (w : UWorld α) (s : List (Option (List (Option α)))) (lost : List Nat), LeakyRep e a w s lost →
    CanTry e.trivial e.init p s → ∃ w' s' more, uRunF e a p fails w = .ok w' ∧ MayEnd e.trivial e.init p s s' ∧
      LeakyRep e a w' s' (more ++ lost) ∧ more.length ≤ fails.countP elementFails
  | .stop, fails, w, s, lost, H, _ => ⟨w, s, [], rfl, rfl, H, by simp⟩
  | .attempt o p q, fails, w, s, lost, H, hc => by
    obtain ⟨⟨t, ht, hp⟩, hq⟩ := hc
    have hcount := countP_head_tail elementFails rfl fails
    rcases C97_step e a hsel w s t lost (fails.headD none) o H ht with ⟨w1, h1, h2⟩ | ⟨hf, w1, s1, h1, h2, h3⟩
    · obtain ⟨w', s', more, g1, g2, g3, g4⟩ := C97_uvector e a hsel p fails.tail w1 t lost h2 hp
      refine ⟨w', s', more, ?_, .inl ⟨t, ht, g2⟩, g3, by omega⟩
      simp only [uRunF, h1]
      exact g1
    · rcases h3 with h3 | ⟨hf0, h3⟩
      · obtain ⟨w', s', more, g1, g2, g3, g4⟩ := C97_uvector e a hsel q fails.tail w1 s1 lost h3 (hq s1 h2)
        refine ⟨w', s', more, ?_, .inr ⟨s1, h2, g2⟩, g3, by omega⟩
        simp only [uRunF, h1]
        exact g1
      · obtain ⟨w', s', more, g1, g2, g3, g4⟩ := C97_uvector e a hsel q fails.tail w1 s1 _ h3 (hq s1 h2)
        have he := (elementFails_iff _).2 ⟨hf, hf0⟩
        rw [if_pos he] at hcount
        refine ⟨w', s', more ++ [w.heap.length], ?_, .inr ⟨s1, h2, g2⟩, by simpa using g3, by simp; omega⟩
        simp only [uRunF, h1]
        exact g1

theorem LeakyRep_nil {e : StoreEnv α} {a : Nat} {w : UWorld α} {s : List (Option (List (Option α)))} :
    LeakyRep e a w s [] ↔ uRep e a w s :=
  ⟨fun H => ⟨H.len, H.rep, H.sep, fun p b hb hl => (H.all p b hb hl).resolve_left (by simp)⟩,
    fun H => ⟨H.len, H.rep, H.sep, fun p b hb hl => .inr (H.all p b hb hl), by simp⟩⟩

theorem uRep.gone {e : StoreEnv α} {a m : Nat} {w : UWorld α} (H : uRep e a w (List.replicate m none)) :
    ∀ b ∈ w.heap, b.live = false := by
  intro b hb
  obtain ⟨p, hp⟩ := List.mem_iff_getElem?.1 hb
  by_contra hc
  obtain ⟨k, v, hk, ho⟩ := H.all p b hp (by simpa using hc)
  have hks : k < m := by
    have := lt_of_getElem? hk
    have := H.len
    simp at this
    omega
  have := H.rep k v none hk (by rw [List.getElem?_replicate, if_pos hks])
  cases v with
  | none => cases ho
  | some v => exact this.elim

/-- From nothing, with only allocations that fail: when all vectors are gone at the end, all memory was given back.

Full statement: the same without the condition on `fails`.  It is not so, by `C97_leak_wrong`. -/
theorem C97_no_leak_partial (e : StoreEnv α) (a n : Nat) (hsel : e.select a = a) (p : TryProg α) (fails : List (Option Nat))
    (hf : ∀ f ∈ fails, f = none ∨ f = some 0) (hp : CanTry e.trivial e.init p (List.replicate n none))
    (hend : ∀ s, MayEnd e.trivial e.init p (List.replicate n none) s → ∃ m, s = List.replicate m none) :
    ∃ w, uRunF e a p fails ⟨[], List.replicate n none⟩ = .ok w ∧ ∀ b ∈ w.heap, b.live = false := by
  obtain ⟨w, s, more, h1, h2, h3, h4⟩ := C97_uvector e a hsel p fails _ _ [] (LeakyRep_nil.2 (uRep_start e a n)) hp
  have h0 : fails.countP elementFails = 0 := by
    rw [List.countP_eq_zero]
    intro f hm
    rcases hf f hm with rfl | rfl <;> simp [elementFails]
  have : more = [] := List.length_eq_zero_iff.1 (by omega)
  subst this
  obtain ⟨m, rfl⟩ := hend s h2
  exact ⟨w, h1, (LeakyRep_nil.1 h3).gone⟩

/-- Operations that are made when nothing throws. -/
def _root_.Xt.Spec.TryProg.main : TryProg α → List (StoreOp α)
  | .stop => []
  | .attempt o p _ => o :: p.main

/-- When nothing throws the program makes its main operations, and no handler is entered. -/
theorem C97_no_fault (e : StoreEnv α) (a : Nat) (hsel : e.select a = a) : ∀ (p : TryProg α) (fails : List (Option Nat))
    (_ : ∀ f ∈ fails, f = none) (w : UWorld α) (s s' : List (Option (List (Option α)))), uRep e a w s →
    storeRun e.trivial e.init p.main s = some s' → ∃ w', uRunF e a p fails w = .ok w' ∧ uRep e a w' s'
  | .stop, _, _, w, s, s', H, hs => by
    simp only [TryProg.main, storeRun, Option.some.injEq] at hs
    subst hs
    exact ⟨w, rfl, H⟩
  | .attempt o p q, fails, hf, w, s, s', H, hs => by
    simp only [TryProg.main, storeRun, Option.bind_eq_some_iff] at hs
    obtain ⟨t, h1, h2⟩ := hs
    have h0 : fails.headD none = none := by
      cases fails with
      | nil => rfl
      | cons f l => exact hf f (by simp)
    rcases uStepF_rep e a hsel w s t (fails.headD none) o H h1 with ⟨w1, h3, h4⟩ | ⟨hc, -⟩
    · obtain ⟨w', g1, g2⟩ := C97_no_fault e a hsel p fails.tail (fun f hm => hf f (List.mem_of_mem_tail hm)) w1 t s' h4 h2
      refine ⟨w', ?_, g2⟩
      simp only [uRunF, h3]
      exact g1
    · exact absurd h0 hc

/-- Elements of the vectors are readable whatever was lost: `at` and `operator[]` return the elements of the sequence. -/
theorem C97_access (e : StoreEnv α) (a : Nat) (w : UWorld α) (s : List (Option (List (Option α)))) (lost : List Nat)
    (H : LeakyRep e a w s lost) (k : Nat) (l : List (Option α)) (hk : s[k]? = some (some l)) :
    ∃ v, w.get k = .ok v ∧ v.size = l.length ∧ elementsFrom w.heap v.block v.size = .ok l ∧
      ∀ i x, l[i]? = some (some x) → uRead w.heap v i = .ok x := by
  have hlt : k < w.vars.length := by have := H.len; have := lt_of_getElem? hk; omega
  have hv := List.getElem?_eq_getElem hlt
  have hr := H.rep k _ _ hv hk
  cases hw : w.vars[k] with
  | none => rw [hw] at hr; exact hr.elim
  | some v =>
    rw [hw] at hr hv
    refine ⟨v, by simp [UWorld.get, hv, orUb], hr.2.1, hr.elements, fun i x hi => ?_⟩
    unfold uRead
    have h6 := hr.2.2.2
    cases hb : v.block with
    | none => rw [hb] at h6; simp only [] at h6; rw [h6] at hi; simp at hi
    | some p => rw [hb] at h6; simp [blockCells_eq h6, hi]

/-- A loop that comes to its end was not interrupted. -/
theorem eachF_done {step : List (Block α) → Nat → Option α → Res (List (Block α))}
    {undo : List (Block α) → Nat → Res (List (Block α))} : ∀ {xs : List (Option α)} {i : Nat} {h h' : List (Block α)}
    {f f' : Option Nat} {u : Unit}, eachF step undo xs i h f = .done h' f' u → ∀ j, f = some j → xs.length ≤ j
  | [], _, _, _, _, _, _, _, j, _ => by simp
  | x :: xs, i, h, h', f, f', u, hd, j, hj => by
    subst hj
    unfold eachF at hd
    match j with
    | 0 =>
      simp only [attempt] at hd
      generalize undo h i = r at hd
      cases r <;> cases hd
    | j + 1 =>
      simp only [attempt] at hd
      cases hs : step h i x with
      | ok h2 =>
        rw [hs] at hd
        have := eachF_done hd j rfl
        simp
        omega
      | throws => rw [hs] at hd; cases hd
      | ub => rw [hs] at hd; cases hd

/-- The constructor that is given a size, and `resize`, leak: when a default constructor throws after `i` elements, the block
with its `i` objects stays in use, and no vector owns it. -/
theorem C97_leak_wrong (e : StoreEnv α) (a : Nat) (ht : e.trivial = false) (w : UWorld α)
    (s : List (Option (List (Option α)))) (H : uRep e a w s) (k n i : Nat) (hi : i < n) :
    (s[k]? = some none → uStepF e a w (some (i + 1)) (.ctorCount k n) =
      .threw ⟨w.heap ++ [⟨a, List.replicate i (some e.init) ++ List.replicate (n - i) none, true⟩], w.vars⟩) ∧
    (∀ l, s[k]? = some (some l) → l.length ≠ n → uStepF e a w (some (i + 1)) (.resize k n) =
      .threw ⟨w.heap ++ [⟨a, List.replicate i (some e.init) ++ List.replicate (n - i) none, true⟩], w.vars⟩) ∧
    ∀ (j : Nat) (v : Option UVec), w.vars[j]? = some v → uOwn v ≠ some w.heap.length := by
  have hc : ∀ a', safeInitAllocateF e w.heap (some (i + 1)) a' n =
      .threw (w.heap ++ [⟨a', List.replicate i (some e.init) ++ List.replicate (n - i) none, true⟩]) := by
    intro a'
    rcases safeInitAllocateF_cases e w.heap (some (i + 1)) a' n with ⟨h, -⟩ | ⟨j, h1, -, -, h2⟩ | ⟨f', h1, h2⟩
    · cases h
    · simp only [Option.some.injEq] at h1
      obtain rfl : i = j := by omega
      exact h2
    · exfalso
      unfold safeInitAllocateF at h1
      simp only [attempt, allocate, ht, Bool.false_eq_true, not_false_eq_true, if_true] at h1
      generalize hx : eachF _ _ _ _ _ _ = r at h1
      cases r with
      | done h' f2 u =>
        have := eachF_done hx i rfl
        simp at this
        omega
      | threw h' => cases h1
      | ub => cases h1
  refine ⟨fun hk => ?_, fun l hk hl => ?_, fun j v hv ho => ?_⟩
  · simp only [uStepF]
    rw [createF_of (H.free hk)]
    unfold uCountF
    rw [if_pos (by omega), hc]
    rfl
  · obtain ⟨v, hv1, hv2, hv3⟩ := H.get hk
    simp only [uStepF]
    rw [changeF_of hv2]
    unfold resizeImplF
    rw [if_pos (by have := hv3.2.1; omega), hc]
    simp only [nextVec_threw]
    rw [set_getElem? hv1, hv3.1]
  · have hj : j < s.length := by have := H.len; have := lt_of_getElem? hv; omega
    have := (uLocal e a).dom _ _ _ _ (H.rep j v _ hv (List.getElem?_eq_getElem hj)) ho
    omega

/-- A failed assignment leaves the vector it assigns to with some elements of either side, or, when the sizes differ, with some
elements of the new value and default values: neither what it was nor what it was to be. -/
theorem C97_assign_not_atomic_wrong :
    let e : StoreEnv Int := ⟨false, 0, id⟩
    (∃ w w', uRun e 5 [.ctorList 0 [1, 2, 3], .ctorList 1 [7, 8, 9]] ⟨[], [none, none]⟩ = .ok w ∧
      uStepF e 5 w (some 1) (.copy 1 0) = .threw w' ∧
      w'.vars = w.vars ∧ w'.heap[1]? = some ⟨5, [some 1, some 8, some 9], true⟩) ∧
    ∃ w w', uRun e 5 [.ctorList 0 [1, 2, 3], .ctorList 1 [7, 8]] ⟨[], [none, none]⟩ = .ok w ∧
      uStepF e 5 w (some 5) (.copy 1 0) = .threw w' ∧
      w'.vars[1]? = some (some ⟨5, some 2, 3⟩) ∧ w'.heap[2]? = some ⟨5, [some 1, some 0, some 0], true⟩ :=
  ⟨⟨_, _, rfl, rfl, by decide, by decide⟩, ⟨_, _, rfl, rfl, by decide, by decide⟩⟩

/-! ### Examples -/

/-- A vector of three, assigned to one of two; then everything is destroyed, whether or not that failed. -/
def failProgram : TryProg Int :=
  .attempt (.ctorList 0 [1, 2, 3]) (.attempt (.ctorList 1 [7, 8]) (.attempt (.copy 1 0)
    (.attempt (.destroy 0) (.attempt (.destroy 1) .stop .stop) .stop)
    (.attempt (.destroy 0) (.attempt (.destroy 1) .stop .stop) .stop))
      (.attempt (.destroy 0) .stop .stop)) .stop

theorem failProgram_canTry : CanTry false 0 failProgram (List.replicate 2 none) := by
  refine ⟨⟨_, rfl, ⟨_, rfl, ⟨_, rfl, ⟨_, rfl, ⟨_, rfl, trivial⟩, nofun⟩, nofun⟩, ?_⟩, ?_⟩, fun t _ => trivial⟩
  · rintro t ⟨-, rfl | ⟨l, m, i, hl, hm, hi, rfl⟩⟩
    · exact ⟨⟨_, rfl, ⟨_, rfl, trivial⟩, nofun⟩, nofun⟩
    · exact ⟨⟨_, rfl, ⟨_, rfl, trivial⟩, nofun⟩, nofun⟩
  · rintro t rfl
    exact ⟨⟨_, rfl, trivial⟩, nofun⟩

theorem failProgram_ends (s : List (Option (List (Option Int)))) (h : MayEnd false 0 failProgram (List.replicate 2 none) s) :
    ∃ m, s = List.replicate m none := by
  refine ⟨2, ?_⟩
  rcases h with ⟨t, h1, h⟩ | ⟨t, h1, h⟩
  · cases h1
    rcases h with ⟨t, h1, h⟩ | ⟨t, h1, h⟩
    · cases h1
      rcases h with ⟨t, h1, h⟩ | ⟨t, h1, h⟩
      · cases h1
        rcases h with ⟨t, h1, h⟩ | ⟨t, h1, h⟩
        · cases h1
          rcases h with ⟨t, h1, h⟩ | ⟨t, h1, h⟩
          · cases h1; exact h
          · cases h1
        · cases h1
      · rcases h1 with ⟨-, rfl | ⟨l, m, i, hl, hm, hi, rfl⟩⟩ <;>
        · rcases h with ⟨t, h1, h⟩ | ⟨t, h1, h⟩
          · cases h1
            rcases h with ⟨t, h1, h⟩ | ⟨t, h1, h⟩
            · cases h1; exact h
            · cases h1
          · cases h1
    · cases h1
      rcases h with ⟨t, h1, h⟩ | ⟨t, h1, h⟩
      · cases h1; exact h
      · cases h1
  · cases h1
    exact h

example (fails : List (Option Nat)) := C97_uvector ⟨false, (0 : Int), id⟩ 5 rfl failProgram fails ⟨[], List.replicate 2 none⟩
  (List.replicate 2 none) [] (LeakyRep_nil.2 (uRep_start _ 5 2)) failProgram_canTry

example := C97_no_leak_partial ⟨false, (0 : Int), id⟩ 5 2 rfl failProgram [none, none, some 0] (by decide) failProgram_canTry
  failProgram_ends

example := C97_no_fault ⟨false, (0 : Int), id⟩ 5 rfl failProgram [] (by simp) ⟨[], List.replicate 2 none⟩
  (List.replicate 2 none) (List.replicate 2 none) (uRep_start _ 5 2) (by decide)

/-- The allocation succeeds and the third default constructor throws: one block with two objects is lost. -/
example : ∃ w, uRunF ⟨false, 0, id⟩ 5 failProgram [none, none, some 3] ⟨[], List.replicate 2 none⟩ = .ok w ∧
    w.vars = [none, none] ∧ w.heap.filter (·.live) = [⟨5, [some 0, some 0, none], true⟩] := ⟨_, rfl, by decide, by decide⟩

example := C97_leak_wrong ⟨false, (0 : Int), id⟩ 5 rfl ⟨[], List.replicate 2 none⟩ (List.replicate 2 none) (uRep_start _ 5 2)
  0 3 2 (by decide)

example := C97_step ⟨false, (0 : Int), id⟩ 5 rfl ⟨[], List.replicate 2 none⟩ (List.replicate 2 none) _ [] (some 2)
  (.ctorList 0 [1, 2, 3]) (LeakyRep_nil.2 (uRep_start _ 5 2)) rfl

example : ∃ w lost, uRunF ⟨false, 0, id⟩ 5 (.attempt (.ctorCount 0 3) .stop (.attempt (.ctorList 0 [4, 5]) .stop .stop)) [some 2]
    ⟨[], [none]⟩ = .ok w ∧ LeakyRep ⟨false, (0 : Int), id⟩ 5 w [some [some 4, some 5]] lost ∧
    ∃ v, w.get 0 = .ok v ∧ uRead w.heap v 1 = .ok 5 := by
  obtain ⟨w, s, more, h1, h2, h3, -⟩ := C97_uvector ⟨false, (0 : Int), id⟩ 5 rfl
    (.attempt (.ctorCount 0 3) .stop (.attempt (.ctorList 0 [4, 5]) .stop .stop)) [some 2] ⟨[], List.replicate 1 none⟩
    (List.replicate 1 none) [] (LeakyRep_nil.2 (uRep_start _ 5 1))
    ⟨⟨_, rfl, trivial⟩, by rintro t rfl; exact ⟨⟨_, rfl, trivial⟩, fun _ _ => trivial⟩⟩
  have h4 : s = [some [some 4, some 5]] := by
    have hv := h3.len
    have hr := h3.rep
    cases h1
    rcases h2 with ⟨t, h5, h2⟩ | ⟨t, h5, h2⟩
    · cases h5; cases h2
      have := (hr 0 _ _ rfl rfl).2.1
      cases this
    · cases h5
      rcases h2 with ⟨t, h5, h2⟩ | ⟨t, h5, h2⟩
      · cases h5; cases h2; rfl
      · cases h5; cases h2
        exact (hr 0 _ _ rfl rfl).elim
  subst h4
  obtain ⟨v, g1, -, -, g2⟩ := C97_access _ 5 w _ _ h3 0 _ rfl
  exact ⟨w, _, h1, h3, v, g1, g2 1 5 rfl⟩

/-- The copy of a vector has the allocator that the allocator of the original selects. -/
theorem C97_copy_allocator (e : StoreEnv α) (h h' : List (Block α)) (f f' : Option Nat) (v v' : UVec)
    (hc : uCopyF e h f v = .done h' f' v') : v'.alloc = e.select v.alloc := by
  unfold uCopyF initDataF at hc
  cases he : elementsFrom h v.block v.size with
  | ok xs =>
    rw [he] at hc
    simp only [] at hc
    by_cases hx : xs.length ≠ 0
    · rw [if_pos hx] at hc
      cases ha : attempt f with
      | none => rw [ha] at hc; simp at hc
      | some f1 =>
        rw [ha] at hc
        simp only [] at hc
        cases hu : uninitializedCopyF e (allocate h (e.select v.alloc) xs.length).1 f1
            (allocate h (e.select v.alloc) xs.length).2 xs with
        | done h2 f2 _ =>
          rw [hu] at hc
          simp only [Att.next, Att.done.injEq] at hc
          rw [← hc.2.2]
        | threw h2 => rw [hu] at hc; simp [Att.next] at hc
        | ub => rw [hu] at hc; simp [Att.next] at hc
    · rw [if_neg hx] at hc
      simp only [Att.done.injEq] at hc
      rw [← hc.2.2]
  | throws => rw [he] at hc; simp at hc
  | ub => rw [he] at hc; simp at hc

example : uCopyF ⟨true, (0 : Int), fun a => a + 1⟩ [⟨5, [some 1], true⟩] none ⟨5, some 0, 1⟩ =
    .done [⟨5, [some 1], true⟩, ⟨6, [some 1], true⟩] none ⟨6, some 1, 1⟩ := by decide

end Xt
