import Verif.Model.SvectorHeap
/-!
# C102: allocators of copies, and names in use
-/

namespace Xt
open Spec

variable {α : Type}

theorem res_bind_done {β γ : Type} {r : Res β} {f : β → Res γ} {c : γ} (h : r.bind f = .ok c) : ∃ b, r = .ok b ∧ f b = .ok c := by
  cases r with
  | ok b => exact ⟨b, rfl, h⟩
  | throws => simp [Res.bind] at h
  | ub => simp [Res.bind] at h

theorem res_map_done {β γ : Type} {r : Res β} {f : β → γ} {c : γ} (h : r.map f = .ok c) : ∃ b, r = .ok b ∧ f b = c := by
  cases r with
  | ok b => exact ⟨b, rfl, by simpa [Res.map, Res.bind] using h⟩
  | throws => simp [Res.map, Res.bind] at h
  | ub => simp [Res.map, Res.bind] at h

theorem growHeap_alloc {e : StoreEnv α} {h : List (Block α)} {v : HVec α} {m : Nat} {r : List (Block α) × HVec α}
    (hr : growHeap e h v m = .ok r) : r.2.alloc = v.alloc := by
  unfold growHeap at hr
  obtain ⟨s, -, hr⟩ := res_bind_done hr
  obtain ⟨h1, -, hr⟩ := res_bind_done hr
  obtain ⟨h2, -, rfl⟩ := res_map_done hr
  rfl

theorem makeRoom_alloc {e : StoreEnv α} {mem : Bool} {h : List (Block α)} {v : HVec α} {need : SVec (Option α) → Option Nat}
    {r : List (Block α) × HVec α} (hr : makeRoom e mem h v need = .ok (some r)) : r.2.alloc = v.alloc := by
  unfold makeRoom at hr
  obtain ⟨s, -, hr⟩ := res_bind_done hr
  cases hn : need s with
  | none =>
    simp only [hn, Res.ok.injEq, Option.some.injEq] at hr
    subst hr; rfl
  | some m =>
    simp only [hn] at hr
    cases mem with
    | false => simp at hr
    | true =>
      simp only [if_true] at hr
      obtain ⟨b, hb, hc⟩ := res_map_done hr
      simp only [Option.some.injEq] at hc
      subst hc
      exact growHeap_alloc hb

theorem inPlace_alloc {h : List (Block α)} {v : HVec α} {body : SVec (Option α) → Res (SVec (Option α))}
    {r : List (Block α) × HVec α} (hr : inPlace h v body = .ok r) : r.2.alloc = v.alloc := by
  unfold inPlace at hr
  obtain ⟨s, -, hr⟩ := res_bind_done hr
  obtain ⟨s', -, hr⟩ := res_bind_done hr
  by_cases hc : s'.onStack = s.onStack ∧ s'.cells.length = s.cells.length
  · rw [if_pos hc] at hr
    simp only [Res.ok.injEq] at hr
    subst hr
    unfold HVec.store
    cases v.block <;> rfl
  · rw [if_neg hc] at hr
    simp at hr

/-- A call of a function on a vector does not change its allocator. -/
theorem call_alloc {e : StoreEnv α} {mem : Bool} {w w' : HWorld α} {k : Nat} {need : SVec (Option α) → Option Nat}
    {body : SVec (Option α) → Res (SVec (Option α))} (hr : w.call e mem k need body = .done w') :
    ∃ v v', w.vars[k]? = some (some v) ∧ w'.vars = w.vars.set k (some v') ∧ v'.alloc = v.alloc := by
  unfold HWorld.call at hr
  cases hg : w.get k with
  | throws => simp [hg] at hr
  | ub => simp [hg] at hr
  | ok v =>
    have hv : w.vars[k]? = some (some v) := by
      unfold HWorld.get at hg
      cases hk : w.vars[k]? with
      | none => simp [hk] at hg
      | some o => cases o with
        | none => simp [hk] at hg
        | some u => simp only [hk, Res.ok.injEq] at hg; rw [hg]
    simp only [hg] at hr
    cases hm : makeRoom e mem w.heap v need with
    | throws => simp [hm] at hr
    | ub => simp [hm] at hr
    | ok o => cases o with
      | none => simp [hm] at hr
      | some r =>
        simp only [hm] at hr
        cases hi : inPlace r.1 r.2 body with
        | throws => simp [hi] at hr
        | ub => simp [hi] at hr
        | ok q =>
          simp only [hi, HOut.done.injEq] at hr
          subst hr
          exact ⟨v, q.2, hv, rfl, (inPlace_alloc hi).trans (makeRoom_alloc hm)⟩

/-- C102: a copy has the allocator that the allocator of its source selects for copies, whatever the kind of elements and memory; all other
vectors are as they were. -/
theorem C102_copy_allocator {e : StoreEnv α} {N : Nat} {init : Bool} {z : Option α} {a : Nat} {mem : Bool} {w w' : HWorld α}
    {k j : Nat} {u : HVec α} (hj : w.vars[j]? = some (some u)) (hr : smallRun1 e N init z a mem w (.makeCopy k j) = .done w') :
    (∃ v, w'.vars[k]? = some (some v) ∧ v.alloc = e.select u.alloc) ∧ ∀ i, i ≠ k → w'.vars[i]? = w.vars[i]? := by
  have hg : w.get j = .ok u := by simp [HWorld.get, hj]
  simp only [smallRun1, hg, HWorld.construct] at hr
  cases hk : w.vars[k]? with
  | none => simp [hk] at hr
  | some o => cases o with
    | some x => simp [hk] at hr
    | none =>
      have hlt : k < w.vars.length := by
        rw [List.getElem?_eq_some_iff] at hk; exact hk.1
      simp only [hk] at hr
      cases hc : copyHeap e N mem ⟨w.heap, w.vars.set k (some (HVec.fresh e N (e.select u.alloc)))⟩ k j with
      | threw x => simp [hc] at hr
      | ub => simp [hc] at hr
      | terminated => simp [hc] at hr
      | done x =>
        simp only [hc, HOut.done.injEq] at hr
        subst hr
        unfold copyHeap at hc
        cases hs : (HWorld.get ⟨w.heap, w.vars.set k (some (HVec.fresh e N (e.select u.alloc)))⟩ j).bind fun u => u.view w.heap with
        | throws => simp [hs] at hc
        | ub => simp [hs] at hc
        | ok s =>
          simp only [hs] at hc
          obtain ⟨v, v', h1, h2, h3⟩ := call_alloc hc
          simp only [List.getElem?_set_self hlt, Option.some.injEq] at h1
          subst h1
          rw [h2]
          refine ⟨⟨v', by simp [hlt], h3⟩, fun i hi => ?_⟩
          simp [List.getElem?_set_ne (Ne.symm hi)]

/-- C102: no vector is constructed in the place of one that lives. -/
theorem C102_place {e : StoreEnv α} {N : Nat} {init : Bool} {z : Option α} {a : Nat} {mem : Bool} {w : HWorld α} {k : Nat}
    {v : HVec α} (hk : w.vars[k]? = some (some v)) (j : Nat) (l : List (Option α)) :
    smallRun1 e N init z a mem w (.make k l) = .ub ∧ smallRun1 e N init z a mem w (.makeCopy k j) = .ub ∧
      smallRun1 e N init z a mem w (.makeMove k j) = .ub := by
  refine ⟨by simp [smallRun1, HWorld.construct, hk], ?_, by simp [smallRun1, HWorld.construct, hk, HOut.noexcept]⟩
  cases hg : w.get j <;> simp [smallRun1, HWorld.construct, hk, hg]

/-- An allocator whose copies are given the default one, number 0: the copy has it, the source keeps number 5. -/
example :
    let e : StoreEnv Nat := ⟨true, 0, fun _ => 0⟩
    let w : HWorld Nat := ⟨[], [some ⟨5, none, [some 1, some 2], 2, 1⟩, none]⟩
    ∃ w', smallRun1 e 2 false none 5 true w (.makeCopy 1 0) = .done w' ∧
      w'.vars.map (fun (o : Option (HVec Nat)) => o.map HVec.alloc) = [some 5, some 0] :=
  ⟨_, rfl, by decide⟩

end Xt
