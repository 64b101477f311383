import Verif.Spec.Assign
/-!
# Executing stores
-/

namespace Xt
open Spec

variable {β : Type}

/-- The store of one element. -/
def wr (d : StridedArr) (e : MEx β) (idx : List Nat) : Write β := (addr d idx, valueAt e idx)

/-- Memory after the stores in `done`, with the values they have in `m0`. -/
def after (done : List (Write β)) (m0 : Mem β) : Mem β := fun p =>
  match done.find? (fun w => w.1 == p) with
  | some w => w.2 m0
  | none => m0 p

/-- No value depends on the address of another store. -/
def Indep (ws : List (Write β)) : Prop :=
  ∀ w ∈ ws, ∀ m m' : Mem β, (∀ p, (∀ u ∈ ws, u.1 ≠ w.1 → p ≠ u.1) → m p = m' p) → w.2 m = w.2 m'

theorem after_nil (m0 : Mem β) : after [] m0 = m0 := rfl

theorem after_of_not_mem {done : List (Write β)} {m0 : Mem β} {p : Int}
    (h : ∀ w ∈ done, w.1 ≠ p) : after done m0 p = m0 p := by
  have : done.find? (fun w => w.1 == p) = none := by
    rw [List.find?_eq_none]; intro w hw; simpa using h w hw
  simp only [after, this]

theorem after_of_mem {done : List (Write β)} {m0 : Mem β} (hn : (done.map Prod.fst).Nodup)
    {w : Write β} (h : w ∈ done) : after done m0 w.1 = w.2 m0 := by
  have : done.find? (fun u => u.1 == w.1) = some w := by
    induction done with
    | nil => simp at h
    | cons u us ih =>
      simp only [List.map_cons, List.nodup_cons] at hn
      rcases List.mem_cons.1 h with rfl | h
      · simp
      · have : u.1 ≠ w.1 := fun e => hn.1 (e ▸ List.mem_map_of_mem h)
        rw [List.find?_cons_of_neg (by simpa using this)]
        exact ih hn.2 h
  simp only [after, this]

theorem foldl_set_append (ws : List (Write β)) (m0 : Mem β) : ∀ (done : List (Write β)),
    ((done ++ ws).map Prod.fst).Nodup →
    (ws.map fun w => (w.1, w.2 m0)).foldl (fun (m : Mem β) w => m.set w.1 w.2) (after done m0) =
      after (done ++ ws) m0 := by
  induction ws with
  | nil => intro done _; simp
  | cons w ws ih =>
    intro done hn
    have hn' : ((done ++ [w] ++ ws).map Prod.fst).Nodup := by simpa using hn
    have hn1 : ((done ++ [w]).map Prod.fst).Nodup := by
      rw [List.map_append] at hn'
      exact (List.nodup_append.1 hn').1
    have e : (after done m0).set w.1 (w.2 m0) = after (done ++ [w]) m0 := by
      funext p
      by_cases hp : p = w.1
      · subst hp
        rw [after_of_mem hn1 (by simp)]
        simp [Mem.set]
      · simp only [Mem.set, hp, if_false]
        simp only [after, List.find?_append]
        have : [w].find? (fun u => u.1 == p) = none := by
          simp [Ne.symm hp]
        rw [this]
        cases done.find? (fun w => w.1 == p) <;> rfl
    simp only [List.map_cons, List.foldl_cons]
    rw [e, ih (done ++ [w]) hn']
    simp

theorem runBatch_after {ws : List (Write β)} (hI : Indep ws) {done b : List (Write β)}
    (hsub : ∀ w ∈ done ++ b, w ∈ ws) (hn : ((done ++ b).map Prod.fst).Nodup) (m0 : Mem β) :
    runBatch b (after done m0) = after (done ++ b) m0 := by
  unfold runBatch
  rw [← foldl_set_append b m0 done hn]
  congr 1
  apply List.map_congr_left
  intro w hw
  have : w.2 (after done m0) = w.2 m0 := by
    apply hI w (hsub w (by simp [hw]))
    intro p hp
    apply after_of_not_mem
    intro u hu hup
    rw [List.map_append, List.nodup_append] at hn
    have hne : u.1 ≠ w.1 := hn.2.2 u.1 (List.mem_map_of_mem hu) w.1 (List.mem_map_of_mem hw)
    exact hp u (hsub u (by simp [hu])) hne hup.symm
  rw [this]

theorem runTrace_after {ws : List (Write β)} (hI : Indep ws) (m0 : Mem β) :
    ∀ (bs : List (List (Write β))) (done : List (Write β)),
      (∀ w ∈ done ++ bs.flatten, w ∈ ws) → ((done ++ bs.flatten).map Prod.fst).Nodup →
      runTrace bs (after done m0) = after (done ++ bs.flatten) m0 := by
  intro bs
  induction bs with
  | nil => intro done _ _; simp [runTrace]
  | cons b bs ih =>
    intro done hsub hn
    have h1 : runBatch b (after done m0) = after (done ++ b) m0 := by
      apply runBatch_after hI
      · intro w hw
        apply hsub
        simp only [List.flatten_cons, List.mem_append] at hw ⊢
        tauto
      · rw [List.flatten_cons, ← List.append_assoc, List.map_append] at hn
        exact (List.nodup_append.1 hn).1
    have h2 := ih (done ++ b) (by simpa [List.append_assoc] using hsub)
      (by simpa [List.append_assoc] using hn)
    simp only [runTrace, List.foldl_cons] at h2 ⊢
    rw [h1, h2]
    simp

/-! ### Schedules -/

theorem exec_after {ws : List (Write β)} (hI : Indep ws) (hn : (ws.map Prod.fst).Nodup)
    (m0 : Mem β) {evs : List Ev} (hs : Schedule ws.length evs) :
    ∀ (pre post : List Ev), evs = pre ++ post → ∀ s, s = pre.foldl (exec ws) (m0, fun _ => none) →
      (∀ i w, Ev.load i ∈ pre → ws[i]? = some w → s.2 i = some (w.2 m0)) ∧
      (∀ i w, Ev.store i ∈ pre → ws[i]? = some w → s.1 w.1 = w.2 m0) ∧
      (∀ p, (∀ i w, Ev.store i ∈ pre → ws[i]? = some w → w.1 ≠ p) → s.1 p = m0 p) := by
  have hinj : ∀ (i j : Nat) (w u : Write β), ws[i]? = some w → ws[j]? = some u → w.1 = u.1 → i = j := by
    intro i j w u hi hj he
    obtain ⟨hi', hi⟩ := List.getElem?_eq_some_iff.1 hi
    obtain ⟨hj', hj⟩ := List.getElem?_eq_some_iff.1 hj
    have := hn.getElem_inj_iff (i := i) (j := j) (hi := by simpa using hi') (hj := by simpa using hj')
    apply this.1
    simp [hi, hj, he]
  intro pre
  induction pre using List.reverseRecOn with
  | nil =>
    intro post _ s hs'
    subst hs'
    exact ⟨by simp, by simp, by simp⟩
  | append_singleton pre ev ih =>
    intro post he s hs'
    have he' : evs = pre ++ (ev :: post) := by simpa using he
    obtain ⟨h1, h2, h3⟩ := ih (ev :: post) he' _ rfl
    rw [List.foldl_append, List.foldl_cons, List.foldl_nil] at hs'
    generalize pre.foldl (exec ws) (m0, fun _ => none) = t at *
    have hnd : ev ∉ pre := by
      have := hs.1
      rw [he', List.nodup_append] at this
      intro hm
      exact this.2.2 ev hm ev (by simp) rfl
    cases ev with
    | load i =>
      simp only [exec] at hs'
      subst hs'
      refine ⟨fun j w hj hw => ?_, fun j w hj hw => ?_, fun p hp => ?_⟩
      · simp only
        by_cases hji : j = i
        · subst hji
          simp only [if_true, hw, Option.map_some, Option.some.injEq]
          -- the value read now is the one in `m0`
          apply hI w (List.mem_of_getElem? hw)
          intro p hp
          apply h3
          intro k u hk hu hup
          apply hp u (List.mem_of_getElem? hu) _ hup.symm
          intro e
          have hkj := hinj k j u w hu hw e
          subst hkj
          -- `store k` before `load k`
          obtain ⟨a, b, hab⟩ := List.append_of_mem hk
          have := hs.2.2.2 a k (b ++ Ev.load k :: post) (by rw [he', hab]; simp)
          exact hnd (by rw [hab]; simp [this])
        · simp only [hji, if_false]
          refine h1 j w ?_ hw
          simp only [List.mem_append, List.mem_singleton, Ev.load.injEq] at hj
          tauto
      · simp only [List.mem_append, List.mem_singleton, reduceCtorEq, or_false] at hj
        exact h2 j w hj hw
      · apply h3
        intro k u hk hu
        exact hp k u (by simp [hk]) hu
    | store i =>
      have hl : Ev.load i ∈ pre := hs.2.2.2 pre i post he'
      have hi : i < ws.length := (hs.2.2.1 i).1 (by rw [he']; simp)
      have hwi : ws[i]? = some ws[i] := List.getElem?_eq_getElem hi
      have hv := h1 i ws[i] hl hwi
      simp only [exec, hwi, hv] at hs'
      subst hs'
      refine ⟨fun j w hj hw => ?_, fun j w hj hw => ?_, fun p hp => ?_⟩
      · simp only [List.mem_append, List.mem_singleton, reduceCtorEq, or_false] at hj
        exact h1 j w hj hw
      · simp only [Mem.set]
        by_cases hji : j = i
        · subst hji
          rw [hwi] at hw
          simp only [Option.some.injEq] at hw
          subst hw
          simp
        · have hne : w.1 ≠ ws[i].1 := fun e => hji (hinj _ _ _ _ hw hwi e)
          rw [if_neg hne]
          refine h2 j w ?_ hw
          simp only [List.mem_append, List.mem_singleton, Ev.store.injEq] at hj
          tauto
      · simp only [Mem.set]
        have : p ≠ ws[i].1 := fun e => hp i ws[i] (by simp) hwi e.symm
        rw [if_neg this]
        apply h3
        intro k u hk hu
        exact hp k u (by simp [hk]) hu

/-! ### Traces of element stores -/

/-- The stores of all elements in the order `is`. -/
theorem wr_indep {d : StridedArr} {e : MEx β} (hN : NoInterference d e) (hD : Distinct d)
    {is : List (List Nat)} (hm : ∀ i, i ∈ is ↔ InBounds d.shape i) : Indep (is.map (wr d e)) := by
  intro w hw m m' h
  obtain ⟨i, hi, rfl⟩ := List.mem_map.1 hw
  apply hN i ((hm i).1 hi)
  intro p hp
  apply h
  intro u hu hne
  obtain ⟨j, hj, rfl⟩ := List.mem_map.1 hu
  have hji : j ≠ i := fun e => hne (by rw [e])
  exact hp j ((hm j).1 hj) hji

theorem wr_nodup {d : StridedArr} {e : MEx β} (hD : Distinct d) {is : List (List Nat)}
    (hm : ∀ i, i ∈ is ↔ InBounds d.shape i) (hn : is.Nodup) :
    ((is.map (wr d e)).map Prod.fst).Nodup := by
  rw [List.map_map]
  exact hn.map_on fun i hi j hj h => hD i j ((hm i).1 hi) ((hm j).1 hj) h

theorem orderIndices_nodup (L : Layout) (sh : List Nat) : (orderIndices L sh).Nodup := by
  apply List.Nodup.of_map (rankIn L sh)
  rw [map_rankIn_orderIndices]
  exact List.nodup_range

/-- A trace that stores every element once performs the assignment. -/
theorem runTrace_assigned {d : StridedArr} {e : MEx β} (hN : NoInterference d e) (hD : Distinct d)
    {bs : List (List (Write β))} {L : Layout}
    (hb : bs.flatten = (orderIndices L d.shape).map (wr d e)) (m : Mem β) :
    Assigned d e m (runTrace bs m) := by
  have hm : ∀ i, i ∈ orderIndices L d.shape ↔ InBounds d.shape i := fun _ => mem_orderIndices
  have hI := wr_indep hN hD hm
  have hn := wr_nodup (e := e) hD hm (orderIndices_nodup L d.shape)
  have h := runTrace_after hI m bs [] (by simp [hb]) (by simpa [hb] using hn)
  rw [after_nil, List.nil_append, hb] at h
  rw [h]
  refine ⟨fun idx hi => ?_, fun p hp => ?_⟩
  · exact after_of_mem hn (w := wr d e idx) (List.mem_map_of_mem (mem_orderIndices.2 hi))
  · apply after_of_not_mem
    intro w hw
    obtain ⟨i, hi, rfl⟩ := List.mem_map.1 hw
    exact fun e => hp i (mem_orderIndices.1 hi) e.symm

/-- Any schedule of the element stores performs the assignment. -/
theorem exec_assigned {d : StridedArr} {e : MEx β} (hN : NoInterference d e) (hD : Distinct d)
    {ws : List (Write β)} {L : Layout} (hb : ws.Perm ((orderIndices L d.shape).map (wr d e)))
    {evs : List Ev} (hs : Schedule ws.length evs) (m : Mem β) :
    Assigned d e m (evs.foldl (exec ws) (m, fun _ => none)).1 := by
  have hm : ∀ i, i ∈ orderIndices L d.shape ↔ InBounds d.shape i := fun _ => mem_orderIndices
  have hI0 := wr_indep hN hD hm
  have hn0 := wr_nodup (e := e) hD hm (orderIndices_nodup L d.shape)
  have hI : Indep ws := by
    intro w hw m m' h
    exact hI0 w (hb.mem_iff.1 hw) m m' fun p hp => h p fun u hu => hp u (hb.mem_iff.1 hu)
  have hn : (ws.map Prod.fst).Nodup := (hb.map Prod.fst).nodup_iff.2 hn0
  obtain ⟨-, h2, h3⟩ := exec_after hI hn m hs evs [] (by simp) _ rfl
  refine ⟨fun idx hi => ?_, fun p hp => h3 p fun i w hi hw => ?_⟩
  · have : wr d e idx ∈ ws := hb.mem_iff.2 (List.mem_map_of_mem (mem_orderIndices.2 hi))
    obtain ⟨i, hi', he⟩ := List.getElem_of_mem this
    have := h2 i (wr d e idx) ((hs.2.2.1 i).2 hi') (by rw [List.getElem?_eq_getElem hi', he])
    exact this
  · have := hb.mem_iff.1 (List.mem_of_getElem? hw)
    obtain ⟨j, hj, rfl⟩ := List.mem_map.1 this
    exact fun e => hp j (mem_orderIndices.1 hj) e.symm

end Xt
