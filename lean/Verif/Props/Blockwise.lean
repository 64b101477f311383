import Verif.Lemmas.Blockwise
import Verif.Spec.Norms
import Mathlib.Tactic.LinearCombination
/-!
# C67: block-wise reducers
-/

namespace Xt

open Spec

variable {B M : Type}

/-! ### Sizes of blocks -/

theorem numel_boxW_le : ∀ {sh cs c : List Nat}, cs.length = sh.length → c.length = sh.length → numel (boxW sh cs c) ≤ numel sh
  | [], cs, c, _, _ => by cases cs <;> exact Nat.le_refl _
  | _ :: _, [], _, h, _ => by simp at h
  | _ :: _, _ :: _, [], _, h => by simp at h
  | s :: sh, x :: cs, k :: c, h1, h2 => by
    have ih := numel_boxW_le (sh := sh) (cs := cs) (c := c) (by simpa using h1) (by simpa using h2)
    rw [boxW, numel_cons, numel_cons]
    exact Nat.mul_le_mul (by omega) ih

theorem numel_boxW_ne : ∀ {sh cs c : List Nat}, cs.length = sh.length → (∀ c ∈ cs, 0 < c) → InBounds (chunkGrid sh cs) c →
    numel (boxW sh cs c) ≠ 0
  | [], cs, c, _, _, _ => by cases cs <;> simp [boxW, numel]
  | _ :: _, [], _, h, _, _ => by simp at h
  | _ :: _, _ :: _, [], _, _, h => h.elim
  | s :: sh, x :: cs, k :: c, h1, hp, h2 => by
    have ih := numel_boxW_ne (sh := sh) (cs := cs) (c := c) (by simpa using h1) (fun c h => hp c (by simp [h])) h2.2
    have hx := hp x (by simp)
    have h3 := grid_start_lt hx h2.1
    have h4 : (k + 1) * x = k * x + x := Nat.succ_mul k x
    rw [boxW, numel_cons]
    exact Nat.mul_ne_zero (by omega) ih

theorem le_numel {l : List Nat} (h0 : numel l ≠ 0) {n : Nat} (hn : n ∈ l) : n ≤ numel l := by
  induction l with
  | nil => simp at hn
  | cons x l ih =>
    rw [numel_cons] at h0 ⊢
    have hx := Nat.pos_of_ne_zero (left_ne_zero_of_mul h0)
    have hl := Nat.pos_of_ne_zero (right_ne_zero_of_mul h0)
    rcases List.mem_cons.1 hn with e | e
    · subst e; exact Nat.le_mul_of_pos_right _ hl
    · exact le_trans (ih (by omega) e) (Nat.le_mul_of_pos_left _ hx)

theorem szMax_notMem {l : List Nat} (h0 : numel l ≠ 0) (h : numel l < szMax) : szMax ∉ l := fun hm => by
  have := le_numel h0 hm
  omega

/-- Number of elements in every group. -/
theorem numel_dropAxes_fill (ax : List Nat) : ∀ (l : List Nat) (p : Nat), numel (dropAxes ax (some 1) p l) = numel (dropAxes ax none p l)
  | [], _ => rfl
  | x :: l, p => by
    have ih := numel_dropAxes_fill ax l (p + 1)
    by_cases hp : p ∈ ax <;> simp [dropAxes, hp, numel_cons, ih]

theorem numel_set_one {l : List Nat} {a : Nat} (h : a < l.length) : numel (l.set a 1) * l.getD a 0 = numel l := by
  induction l generalizing a with
  | nil => simp at h
  | cons x l ih =>
    cases a with
    | zero => simp [numel_cons, Nat.mul_comm]
    | succ a =>
      have := ih (a := a) (by simpa using h)
      rw [List.set_cons_succ, numel_cons, numel_cons, List.getD_cons_succ, Nat.mul_assoc, this]

theorem axesExtent_mul {sh : List Nat} {axes : List Int} (hg : GoodAxes sh.length (axes.map Int.toNat)) (keep : Bool) :
    numel (redShape sh (axes.map Int.toNat) keep) * axesExtent sh axes = numel sh := by
  have e1 : axesExtent sh axes = (axes.map Int.toNat).foldl (fun n a => n * sh.getD a 0) 1 := by
    unfold axesExtent; rw [List.foldl_map]
  rw [e1]
  obtain ⟨h1, h2⟩ := hg
  generalize axes.map Int.toNat = ax at *
  have e2 : numel (redShape sh ax keep) = numel (redShape sh ax true) := by
    cases keep with
    | true => rfl
    | false => exact (numel_dropAxes_fill ax sh 0).symm
  rw [e2, ← foldl_set_eq]
  have key : ∀ (ax s : List Nat) (n : Nat), ax.Nodup → s.length = sh.length → (∀ a ∈ ax, a < sh.length ∧ s.getD a 0 = sh.getD a 0) →
      numel (ax.foldl (fun s a => s.set a 1) s) * ax.foldl (fun n a => n * sh.getD a 0) n = numel s * n := by
    intro ax
    induction ax with
    | nil => intro s n _ _ _; rfl
    | cons a ax ih =>
      intro s n hnd hs h
      rw [List.nodup_cons] at hnd
      rw [List.foldl_cons, List.foldl_cons, ih (s.set a 1) _ hnd.2 (by simpa using hs)]
      · have ha := h a (by simp)
        have := numel_set_one (l := s) (a := a) (by omega)
        rw [ha.2] at this
        rw [← this]
        ring
      · intro b hb
        have hb' := h b (by simp [hb])
        refine ⟨hb'.1, ?_⟩
        rw [← hb'.2]
        have : a ≠ b := fun e => hnd.1 (e ▸ hb)
        simp [List.getD_eq_getElem?_getD, this]
  have := key ax sh 1 (h1.imp (fun h => by omega)) rfl (fun a ha => ⟨h2 a ha, rfl⟩)
  rw [Nat.mul_one] at this
  exact this

theorem length_redGroup_eq {sh : List Nat} {axes : List Int} (hg : GoodAxes sh.length (axes.map Int.toNat)) {keep : Bool} {r : List Nat}
    (hr : InBounds (redShape sh (axes.map Int.toNat) keep) r) :
    (redGroup sh (axes.map Int.toNat) keep r).length = axesExtent sh axes := by
  have h1 := length_redGroup hr
  have h2 := axesExtent_mul hg keep
  have h3 := redShape_pos hr
  rw [Nat.mul_comm] at h1
  exact Nat.eq_of_mul_eq_mul_left h3 (h1.trans h2.symm)

/-! ### What a functor has to do -/

/-- The contract of a reduction functor.  `R` relates a block result of a shape to the values of every group of the block, `S` the
    chunk of the result and the reduction variable to the values so far, `Out` the values of a group to the result. -/
structure BwLaw (F : BwFn B M) (R : List Nat → B → (List Nat → List ℚ) → Prop)
    (S : List Nat → LazyEx ℚ → M → (List Nat → List ℚ) → Prop) (Out : List ℚ → ℚ → Prop) : Prop where
  compute : ∀ {e : Ex ℚ} {w : List Nat} {axes : List Int} (keep : Bool), Fits w e → (∀ a ∈ axes, 0 ≤ a) →
    GoodAxes w.length (axes.map Int.toNat) → numel w ≠ 0 → numel w < szMax →
    ∃ b, F.compute e w axes keep = .ok b ∧
      R (redShape w (axes.map Int.toNat) keep) b fun r => (redGroup w (axes.map Int.toNat) keep r).map (valueAt e)
  first : ∀ {W b g} (cur : LazyEx ℚ), szMax ∉ W → R W b g →
    ∃ r, F.merge b true cur F.init = .ok r ∧ r.1.shape = W ∧
      ∀ cur' : LazyEx ℚ, cur'.shape = W → (∀ i, InBounds W i → cur'.elem i = r.1.elem i) → S W cur' r.2 g
  next : ∀ {W b g g0 m} (cur : LazyEx ℚ), szMax ∉ W → cur.shape = W → S W cur m g0 → R W b g →
    ∃ r, F.merge b false cur m = .ok r ∧ r.1.shape = W ∧
      ∀ cur' : LazyEx ℚ, cur'.shape = W → (∀ i, InBounds W i → cur'.elem i = r.1.elem i) → S W cur' r.2 fun i => g0 i ++ g i
  finish : ∀ {W g m sh axes} (cur : LazyEx ℚ), cur.shape = W → S W cur m g →
    (∀ i, InBounds W i → g i ≠ [] ∧ (g i).length = axesExtent sh axes) →
    (F.finalize m cur sh axes = none ∧ ∀ i, InBounds W i → Out (g i) (cur.elem i)) ∨
      ∃ r, F.finalize m cur sh axes = some r ∧ r.shape = W ∧ ∀ i, InBounds W i → Out (g i) (r.elem i)

/-- The values of the block `c` that contribute to the element `r` of a chunk of the result. -/
def blockGroup (e : Buf ℚ) (cs ax : List Nat) (keep : Bool) (c r : List Nat) : List ℚ :=
  (redGroup (boxW e.shape cs c) ax keep r).map fun q => e.read (applySel (boxFrom cs c) q)

/-- One chunk of the result. -/
theorem bwChunk_ok {F : BwFn B M} {R S Out} (law : BwLaw F R S Out) {e : Buf ℚ} (hw : e.WF) {cs : List Nat}
    (hl : cs.length = e.shape.length) (hp : ∀ c ∈ cs, 0 < c) {axes : List Int} (hpos : ∀ a ∈ axes, 0 ≤ a)
    (hg : GoodAxes e.shape.length (axes.map Int.toNat)) (h0 : numel e.shape ≠ 0) (hn : numel e.shape < szMax) (keep : Bool)
    {out : Buf ℚ} (how : out.WF) (hos : out.shape = redShape e.shape (axes.map Int.toNat) keep) {ci : List Nat} (k : Nat)
    (hci : InBounds (chunkGrid out.shape (redShape cs (axes.map Int.toNat) keep)) ci) :
    ∃ out', bwChunk F e cs (chunkGrid e.shape cs) ⟨redShape e.shape (axes.map Int.toNat) keep, redShape cs (axes.map Int.toNat) keep,
        keptAxes e.shape.length (axes.map Int.toNat) keep⟩ axes keep
        (chunkIt out.shape (redShape cs (axes.map Int.toNat) keep) ci k) out = .ok out' ∧
      out'.WF ∧ out'.shape = out.shape ∧ out'.layout = out.layout ∧
      (∀ p, InBounds out.shape p → chunkOf (redShape cs (axes.map Int.toNat) keep) p ≠ ci → out'.read p = out.read p) ∧
      ∀ p, InBounds out.shape p → chunkOf (redShape cs (axes.map Int.toNat) keep) p = ci →
        ∃ l, l.Perm ((redGroup e.shape (axes.map Int.toNat) keep p).map e.read) ∧ Out l (out'.read p) := by
  obtain ⟨ax, hax⟩ : ∃ ax, ax = axes.map Int.toNat := ⟨_, rfl⟩
  rw [← hax] at hg hos hci ⊢
  have hgl := chunkGrid_length hl
  have hrl : (redShape cs ax keep).length = out.shape.length := by rw [hos]; exact length_redShape_eq ax keep hl
  have hrp := redShape_mem_pos (ax := ax) (keep := keep) hp
  have hg0 : numel (chunkGrid e.shape cs) ≠ 0 := by
    have hz : InBounds e.shape (List.replicate e.shape.length 0) := zeros_inBounds (fun h => h0 ((numel_eq_zero_iff _).2 h))
    have := rowRank_lt (chunkOf_inBounds hl hp hz)
    omega
  obtain ⟨c0, hc0, hc1⟩ := exists_of_redIndex (axes := ax) (keep := keep) (r := ci) hg0 (by
    rw [redShape_chunkGrid ax keep hl, ← hos]; exact hci)
  have hsel := box_sels hrl hrp hci
  rw [← it_sv k hrl hci] at hsel
  obtain ⟨W, hW⟩ : ∃ W, W = boxW out.shape (redShape cs ax keep) ci := ⟨_, rfl⟩
  obtain ⟨φ, hφ⟩ : ∃ φ, φ = boxFrom (redShape cs ax keep) ci := ⟨_, rfl⟩
  obtain ⟨us, hus⟩ : ∃ us, us = (chunkIt out.shape (redShape cs ax keep) ci k).sv := ⟨_, rfl⟩
  obtain ⟨p, hpdef⟩ : ∃ p, p = bwRange (chunkGrid e.shape cs) ⟨redShape e.shape ax keep, redShape cs ax keep,
    keptAxes e.shape.length ax keep⟩ ci := ⟨_, rfl⟩
  rw [← hW, ← hφ, ← hus] at hsel
  obtain ⟨q1, q2, q3⟩ := bwRange_ok (ax := ax) (rc := redShape cs ax keep) hl hp keep hc0
  have hmem := mem_visited_iff (ax := ax) (rc := redShape cs ax keep) hl hp keep hc0
  rw [hc1, ← hpdef] at q1 q2 q3 hmem
  have hplen : p.2.length = p.1.length := by rw [q1, q2]
  have hple : ∀ k, p.1.getD k 0 ≤ p.2.getD k 0 := by
    intro k
    by_cases hk : k < e.shape.length
    · obtain ⟨a1, a2⟩ := q3 k hk
      rw [a1, a2]
      split <;> omega
    · rw [List.getD_eq_getElem?_getD, List.getElem?_eq_none (by omega)]
      simp
  have hvis : ∀ i, i < numel (subL p.2 p.1) → InBounds (chunkGrid e.shape cs) (addL p.1 (nthIndex (subL p.2 p.1) i)) ∧
      redIndex ax keep (addL p.1 (nthIndex (subL p.2 p.1) i)) = ci := by
    intro i hi
    exact (hmem _).1 (List.mem_map.2 ⟨i, List.mem_range.2 hi, rfl⟩)
  have hWc : ∀ c, InBounds (chunkGrid e.shape cs) c → redIndex ax keep c = ci → redShape (boxW e.shape cs c) ax keep = W := by
    intro c h1 h2
    rw [redShape_boxW ax keep hl (by rw [h1.length_eq, hgl]), h2, hW, hos]
  have hWs : szMax ∉ W := by
    rw [← hWc c0 hc0 hc1]
    apply szMax_redShape
    apply szMax_notMem (numel_boxW_ne hl hp hc0)
    exact lt_of_le_of_lt (numel_boxW_le hl (by rw [hc0.length_eq, hgl])) hn
  have hpos' : 0 < numel (subL p.2 p.1) := by
    have : c0 ∈ visited p := (hmem c0).2 ⟨hc0, hc1⟩
    unfold visited at this
    obtain ⟨i, hi, -⟩ := List.mem_map.1 this
    have := List.mem_range.1 hi
    omega
  obtain ⟨st, e1, hP⟩ := forMulti_inv hplen hple
    (body := bwStep F e cs axes keep (chunkIt out.shape (redShape cs ax keep) ci k))
    (fun n (st : Buf ℚ × M × Bool) => st.1.WF ∧ st.1.shape = out.shape ∧ st.1.layout = out.layout ∧
      (∀ x, InBounds out.shape x → (∀ q, InBounds W q → applySel φ q ≠ x) → st.1.read x = out.read x) ∧
      st.2.2 = decide (n = 0) ∧ (n = 0 → st.2.1 = F.init) ∧
      (0 < n → ∀ cur : LazyEx ℚ, cur.shape = W → (∀ q, InBounds W q → cur.elem q = st.1.read (applySel φ q)) →
        S W cur st.2.1 fun r => (List.range n).flatMap fun i => blockGroup e cs ax keep (addL p.1 (nthIndex (subL p.2 p.1) i)) r))
    (s := (out, F.init, true))
    (fun n st hnlt ⟨s1, s2, s3, s4, s5, s6, s7⟩ => by
      obtain ⟨v1, v2⟩ := hvis n hnlt
      obtain ⟨c, hc⟩ : ∃ c, c = addL p.1 (nthIndex (subL p.2 p.1) n) := ⟨_, rfl⟩
      rw [← hc] at v1 v2 ⊢
      have hbs := box_sels hl hp v1
      rw [← it_sv 0 hl v1] at hbs
      obtain ⟨v, b1, b2, b3, b4⟩ := blockEx_ok hw hbs
      have hwl : (boxW e.shape cs c).length = e.shape.length := boxW_len hl hp v1
      obtain ⟨b, c1, c2⟩ := law.compute (axes := axes) keep b3 hpos (by rw [hwl, ← hax]; exact hg) (numel_boxW_ne hl hp v1)
        (lt_of_le_of_lt (numel_boxW_le hl (by rw [v1.length_eq, hgl])) hn)
      rw [← hax, hWc c v1 v2] at c2
      have hgrp : (fun r => (redGroup (boxW e.shape cs c) ax keep r).map (valueAt (blockEx e v))) = blockGroup e cs ax keep c := by
        funext r
        unfold blockGroup
        apply List.map_congr_left
        intro q hq
        unfold redGroup at hq
        exact b4 q (mem_rowIndices.1 (List.mem_filter.1 hq).1)
      rw [hgrp] at c2
      obtain ⟨cur, d1, d2, d3⟩ := regionEx_ok (out := st.1) (us := us) (by rw [s2]; exact hsel)
      have merged : ∃ r, F.merge b st.2.2 cur st.2.1 = .ok r ∧ r.1.shape = W ∧
          ∀ cur' : LazyEx ℚ, cur'.shape = W → (∀ i, InBounds W i → cur'.elem i = r.1.elem i) →
            S W cur' r.2 fun r => (List.range (n + 1)).flatMap fun i =>
              blockGroup e cs ax keep (addL p.1 (nthIndex (subL p.2 p.1) i)) r := by
        by_cases hz : n = 0
        · subst hz
          rw [s5, s6 rfl]
          obtain ⟨r, r1, r2, r3⟩ := law.first cur hWs c2
          refine ⟨r, r1, r2, fun cur' a1 a2 => ?_⟩
          have := r3 cur' a1 a2
          rw [hc] at this
          simpa using this
        · obtain ⟨r, r1, r2, r3⟩ := law.next cur hWs d2 (s7 (by omega) cur d2 d3) c2
          refine ⟨r, by rw [s5, decide_eq_false hz]; exact r1, r2, fun cur' a1 a2 => ?_⟩
          have := r3 cur' a1 a2
          rw [hc] at this
          have e3 : (fun r => (List.range (n + 1)).flatMap fun i => blockGroup e cs ax keep (addL p.1 (nthIndex (subL p.2 p.1) i)) r) =
              fun r => ((List.range n).flatMap fun i => blockGroup e cs ax keep (addL p.1 (nthIndex (subL p.2 p.1) i)) r) ++
                blockGroup e cs ax keep (addL p.1 (nthIndex (subL p.2 p.1) n)) r := by
            funext r
            rw [List.range_succ, List.flatMap_append]
            simp
          rw [e3]
          exact this
      obtain ⟨r, r1, r2, r3⟩ := merged
      obtain ⟨o, o1, o2, o3, o4, o5, o6⟩ := assignRegion_spec s1 (us := us) (by rw [s2]; exact hsel) r.1.elem (compat_refl W)
      refine ⟨(o, r.2, false), ?_, o4, by rw [o2, s2], by rw [o3, s3], ?_, by simp, by simp, ?_⟩
      · unfold bwStep
        rw [b1]
        simp only [Res.bind]
        rw [b2, c1]
        simp only []
        rw [← hus, d1]
        simp only []
        rw [r1]
        simp only []
        rw [r2, o1]
        rfl
      · intro x hx hm
        show o.read x = _
        rw [o6 x (by rw [s2]; exact hx) hm, s4 x hx hm]
      · intro _ cur' a1 a2
        refine r3 cur' a1 (fun i hi => ?_)
        rw [a2 i hi]
        show o.read _ = _
        rw [o5 i hi, broadcastIndex_self hi])
    ⟨how, rfl, rfl, fun _ _ _ => rfl, rfl, fun _ => rfl, fun h => absurd h (lt_irrefl _)⟩
  obtain ⟨s1, s2, s3, s4, -, -, s7⟩ := hP
  obtain ⟨cur, d1, d2, d3⟩ := regionEx_ok (out := st.1) (us := us) (by rw [s2]; exact hsel)
  have hS := s7 hpos' cur d2 d3
  have hall : ∀ r, InBounds W r → ((List.range (numel (subL p.2 p.1))).flatMap fun i =>
        blockGroup e cs ax keep (addL p.1 (nthIndex (subL p.2 p.1) i)) r).Perm
      ((redGroup e.shape ax keep (applySel φ r)).map e.read) := by
    intro r hr
    have := redGroup_blocks (ax := ax) (rc := redShape cs ax keep) hl hp keep hc0 (r := r) (by rw [hc1, ← hos, ← hW]; exact hr)
    rw [hc1, ← hpdef, ← hφ] at this
    have := this.map e.read
    rw [List.map_flatMap] at this
    unfold visited at this
    rw [List.flatMap_map] at this
    simp only [List.map_map] at this
    exact this
  have hlenall : ∀ r, InBounds W r → ((List.range (numel (subL p.2 p.1))).flatMap fun i =>
        blockGroup e cs ax keep (addL p.1 (nthIndex (subL p.2 p.1) i)) r) ≠ [] ∧
      ((List.range (numel (subL p.2 p.1))).flatMap fun i =>
        blockGroup e cs ax keep (addL p.1 (nthIndex (subL p.2 p.1) i)) r).length = axesExtent e.shape axes := by
    intro r hr
    have hlen := (hall r hr).length_eq
    have hin : InBounds (redShape e.shape ax keep) (applySel φ r) := by rw [← hos]; exact hsel.inBounds hr
    rw [List.length_map, hax, length_redGroup_eq (by rw [← hax]; exact hg) (by rw [← hax]; exact hin)] at hlen
    refine ⟨fun h => ?_, by rw [hax]; exact hlen⟩
    have hmul := axesExtent_mul (axes := axes) (by rw [← hax]; exact hg) keep
    rw [← hlen, ← hax, h] at hmul
    exact h0 (by simpa using hmul.symm)
  have hinside : ∀ x, InBounds out.shape x → chunkOf (redShape cs ax keep) x = ci →
      ∃ r, InBounds W r ∧ applySel φ r = x := by
    intro x hx h
    obtain ⟨a1, a2⟩ := box_inside hrl hrp hx
    rw [h, ← hW] at a1
    rw [h, ← hφ] at a2
    exact ⟨_, a1, a2⟩
  have houtside : ∀ x, InBounds out.shape x → chunkOf (redShape cs ax keep) x ≠ ci → ∀ q, InBounds W q → applySel φ q ≠ x := by
    intro x hx h q hq e
    rw [hW] at hq
    have := box_chunk hrl hrp hci hq
    rw [← hφ, e] at this
    exact h this
  have hunf : ∀ z, bwFinish st.1 us (F.finalize st.2.1 cur e.shape axes) = z →
      bwChunk F e cs (chunkGrid e.shape cs) ⟨redShape e.shape ax keep, redShape cs ax keep, keptAxes e.shape.length ax keep⟩ axes keep
        (chunkIt out.shape (redShape cs ax keep) ci k) out = z := by
    intro z hz
    unfold bwChunk
    simp only []
    rw [show (chunkIt out.shape (redShape cs ax keep) ci k).index = ci from rfl, ← hpdef, e1]
    simp only [Res.bind]
    rw [← hus, d1]
    exact hz
  rcases law.finish (sh := e.shape) (axes := axes) cur d2 hS hlenall with ⟨f1, f2⟩ | ⟨r, f1, f2, f3⟩
  · refine ⟨st.1, hunf _ (by rw [f1]; rfl), s1, s2, s3, fun x hx h => s4 x hx (houtside x hx h), fun x hx h => ?_⟩
    obtain ⟨r, hr, rfl⟩ := hinside x hx h
    exact ⟨_, hall r hr, by rw [← d3 r hr]; exact f2 r hr⟩
  · obtain ⟨o, o1, o2, o3, o4, o5, o6⟩ := assignRegion_spec s1 (us := us) (by rw [s2]; exact hsel) r.elem (compat_refl W)
    refine ⟨o, hunf _ (by rw [f1]; show assignRegion _ _ r.shape _ = _; rw [f2, o1]), o4, by rw [o2, s2], by rw [o3, s3],
      fun x hx h => ?_, fun x hx h => ?_⟩
    · rw [o6 x (by rw [s2]; exact hx) (houtside x hx h), s4 x hx (houtside x hx h)]
    · obtain ⟨r', hr, rfl⟩ := hinside x hx h
      exact ⟨_, hall r' hr, by rw [o5 r' hr, broadcastIndex_self hr]; exact f3 r' hr⟩

/-- A block-wise reducer whose functor keeps its contract gives, for any chunk shape, at every element of the result what the
    functor makes of the values of the group of that element. -/
theorem blockwise_ok {F : BwFn B M} {R S Out} (law : BwLaw F R S Out) {e : Buf ℚ} (hw : e.WF) {cs : List Nat}
    (hl : cs.length = e.shape.length) (hp : ∀ c ∈ cs, 0 < c) {axes : List Int} (hpos : ∀ a ∈ axes, 0 ≤ a)
    (hg : GoodAxes e.shape.length (axes.map Int.toNat)) (hd : e.shape.length < 2 ^ 64) (h0 : numel e.shape ≠ 0)
    (hn : numel e.shape < szMax) (keep : Bool) {out : Buf ℚ} (how : out.WF)
    (hos : out.shape = redShape e.shape (axes.map Int.toNat) keep) :
    ∃ out', blockwiseAssign F e cs axes keep out = .ok out' ∧ out'.WF ∧ out'.shape = out.shape ∧ out'.layout = out.layout ∧
      ∀ p, InBounds out.shape p →
        ∃ l, l.Perm ((redGroup e.shape (axes.map Int.toNat) keep p).map e.read) ∧ Out l (out'.read p) := by
  have hrl : (redShape cs (axes.map Int.toNat) keep).length = out.shape.length := by rw [hos]; exact length_redShape_eq _ keep hl
  have hrp := redShape_mem_pos (ax := axes.map Int.toNat) (keep := keep) hp
  obtain ⟨o, e1, p1, p2, p3, p4⟩ := forChunks_inv (cs := redShape cs (axes.map Int.toNat) keep) (chunkGrid_length hrl)
    (body := bwChunk F e cs (chunkGrid e.shape cs) ⟨redShape e.shape (axes.map Int.toNat) keep, redShape cs (axes.map Int.toNat) keep,
        keptAxes e.shape.length (axes.map Int.toNat) keep⟩ axes keep)
    (fun k (b : Buf ℚ) => b.WF ∧ b.shape = out.shape ∧ b.layout = out.layout ∧
      ∀ q, InBounds out.shape q →
        rowRank (chunkGrid out.shape (redShape cs (axes.map Int.toNat) keep)) (chunkOf (redShape cs (axes.map Int.toNat) keep) q) < k →
        ∃ l, l.Perm ((redGroup e.shape (axes.map Int.toNat) keep q).map e.read) ∧ Out l (b.read q))
    (s := out)
    (fun k b hk ⟨b1, b2, b3, b4⟩ => by
      have hn' := nthIndex_spec hk
      obtain ⟨o, o1, o2, o3, o4, o5, o6⟩ := bwChunk_ok law hw hl hp hpos hg h0 hn keep b1 (by rw [b2]; exact hos) k
        (ci := nthIndex (chunkGrid out.shape (redShape cs (axes.map Int.toNat) keep)) k) (by rw [b2]; exact hn'.1)
      rw [b2] at o1 o3 o5 o6
      refine ⟨o, o1, o2, o3, by rw [o4, b3], fun q hq hr => ?_⟩
      by_cases hc : chunkOf (redShape cs (axes.map Int.toNat) keep) q =
          nthIndex (chunkGrid out.shape (redShape cs (axes.map Int.toNat) keep)) k
      · exact o6 q hq hc
      · rw [o5 q hq hc]
        refine b4 q hq ?_
        have : rowRank (chunkGrid out.shape (redShape cs (axes.map Int.toNat) keep))
            (chunkOf (redShape cs (axes.map Int.toNat) keep) q) ≠ k := by
          intro h
          exact hc (rowRank_inj (chunkOf_inBounds hrl hrp hq) hn'.1 (by rw [h, hn'.2]))
        omega)
    ⟨how, rfl, rfl, fun q hq h => by omega⟩
  refine ⟨o, ?_, p1, p2, p3, fun q hq => p4 q hq (rowRank_lt (chunkOf_inBounds hrl hrp hq))⟩
  unfold blockwiseAssign
  rw [gridShape_eq hl hp]
  simp only [Res.bind]
  rw [bwShapes_ok hl hpos hg hd keep]
  simp only []
  rw [gridShape_eq hrl hrp]
  exact e1

/-! ### The functors -/

/-- What a block-wise reduction is given: a container, positive chunk extents, the axes of a reduction, and a destination of
    the shape of the result. -/
structure BwInput (e : Buf ℚ) (cs : List Nat) (axes : List Int) (keep : Bool) (out : Buf ℚ) : Prop where
  wf : e.WF
  len : cs.length = e.shape.length
  pos : ∀ c ∈ cs, 0 < c
  nonneg : ∀ a ∈ axes, 0 ≤ a
  good : GoodAxes e.shape.length (axes.map Int.toNat)
  dim : e.shape.length < 2 ^ 64
  some_elem : numel e.shape ≠ 0
  size : numel e.shape < szMax
  out_wf : out.WF
  out_shape : out.shape = redShape e.shape (axes.map Int.toNat) keep

/-- The values of the group of an element of the result. -/
def groupValues (e : Buf ℚ) (axes : List Int) (keep : Bool) (r : List Nat) : List ℚ :=
  (redGroup e.shape (axes.map Int.toNat) keep r).map e.read

theorem BwInput.run {e out : Buf ℚ} {cs : List Nat} {axes : List Int} {keep : Bool} (h : BwInput e cs axes keep out)
    {F : BwFn B M} {R S Out} (law : BwLaw F R S Out) :
    ∃ out', blockwiseAssign F e cs axes keep out = .ok out' ∧ out'.WF ∧ out'.shape = out.shape ∧ out'.layout = out.layout ∧
      ∀ p, InBounds out.shape p → ∃ l, l.Perm (groupValues e axes keep p) ∧ Out l (out'.read p) :=
  blockwise_ok law h.wf h.len h.pos h.nonneg h.good h.dim h.some_elem h.size keep h.out_wf h.out_shape

theorem zip_same {f : ℚ → ℚ → ℚ} {a b : LazyEx ℚ} {W : List Nat} (hW : szMax ∉ W) (ha : a.shape = W) (hb : b.shape = W) :
    ∃ q, zipEx f a b = .ok q ∧ q.shape = W ∧ ∀ i, InBounds W i → q.elem i = f (a.elem i) (b.elem i) := by
  obtain ⟨q, h1, h2, h3⟩ := zipEx_ok f (s := a) (t := b) (by rw [ha, hb]; exact broadcastsTo_refl _) (by rw [ha]; exact hW)
    (by rw [hb]; exact hW)
  rw [ha] at h2 h3
  exact ⟨q, h1, h2, fun i hi => by rw [h3 i hi, hb, bcIndex_self hi]⟩

theorem zip_pair {a b : LazyEx ℚ} {W : List Nat} (hW : szMax ∉ W) (ha : a.shape = W) (hb : b.shape = W) :
    ∃ q, zipEx Prod.mk a b = .ok q ∧ q.shape = W ∧ ∀ i, InBounds W i → q.elem i = (a.elem i, b.elem i) := by
  obtain ⟨q, h1, h2, h3⟩ := zipEx_ok Prod.mk (s := a) (t := b) (by rw [ha, hb]; exact broadcastsTo_refl _) (by rw [ha]; exact hW)
    (by rw [hb]; exact hW)
  rw [ha] at h2 h3
  exact ⟨q, h1, h2, fun i hi => by rw [h3 i hi, hb, bcIndex_self hi]⟩

/-- Block results that are, for every group, `h` of its values. -/
def AccR (h : List ℚ → ℚ) (W : List Nat) (b : LazyEx ℚ) (g : List Nat → List ℚ) : Prop :=
  b.shape = W ∧ ∀ i, InBounds W i → b.elem i = h (g i)

/-- The same of the chunk of the result. -/
def AccS (h : List ℚ → ℚ) (W : List Nat) (cur : LazyEx ℚ) (_ : Unit) (g : List Nat → List ℚ) : Prop :=
  ∀ i, InBounds W i → cur.elem i = h (g i)

theorem mergeAcc_first (op : ℚ → ℚ → ℚ) (h : List ℚ → ℚ) {W b g} (cur : LazyEx ℚ) (hR : AccR h W b g) :
    ∃ r, mergeAcc op b true cur () = .ok r ∧ r.1.shape = W ∧
      ∀ cur' : LazyEx ℚ, cur'.shape = W → (∀ i, InBounds W i → cur'.elem i = r.1.elem i) → AccS h W cur' r.2 g :=
  ⟨(b, ()), rfl, hR.1, fun cur' _ h2 i hi => by rw [h2 i hi]; exact hR.2 i hi⟩

theorem mergeAcc_next (op : ℚ → ℚ → ℚ) (h : List ℚ → ℚ) (happ : ∀ a b, h (a ++ b) = op (h a) (h b)) {W b g g0 m}
    (cur : LazyEx ℚ) (hW : szMax ∉ W) (hc : cur.shape = W) (hS : AccS h W cur m g0) (hR : AccR h W b g) :
    ∃ r, mergeAcc op b false cur m = .ok r ∧ r.1.shape = W ∧
      ∀ cur' : LazyEx ℚ, cur'.shape = W → (∀ i, InBounds W i → cur'.elem i = r.1.elem i) → AccS h W cur' r.2 fun i => g0 i ++ g i := by
  obtain ⟨q, q1, q2, q3⟩ := zip_same (f := op) hW hc hR.1
  refine ⟨(q, m), by unfold mergeAcc; simp only [Bool.false_eq_true, if_false]; rw [q1]; rfl, q2, fun cur' _ h2 i hi => ?_⟩
  rw [h2 i hi]
  show q.elem i = _
  rw [q3 i hi, hS i hi, hR.2 i hi, happ]

theorem mergeExtremum_next (op : ℚ → ℚ → ℚ) (h : List ℚ → ℚ) (happ : ∀ a b, h (a ++ b) = op (h b) (h a)) {W b g g0 m}
    (cur : LazyEx ℚ) (hW : szMax ∉ W) (hc : cur.shape = W) (hS : AccS h W cur m g0) (hR : AccR h W b g) :
    ∃ r, mergeExtremum op b false cur m = .ok r ∧ r.1.shape = W ∧
      ∀ cur' : LazyEx ℚ, cur'.shape = W → (∀ i, InBounds W i → cur'.elem i = r.1.elem i) → AccS h W cur' r.2 fun i => g0 i ++ g i := by
  obtain ⟨q, q1, q2, q3⟩ := zip_same (f := op) hW hR.1 hc
  refine ⟨(q, m), by unfold mergeExtremum; simp only [Bool.false_eq_true, if_false]; rw [q1]; rfl, q2, fun cur' _ h2 i hi => ?_⟩
  rw [h2 i hi]
  show q.elem i = _
  rw [q3 i hi, hS i hi, hR.2 i hi, happ]

theorem fits_unary {f : ℚ → ℚ} {e : Ex ℚ} {w : List Nat} (h : Fits w e) : Fits w (unaryEx f e) := ⟨h, trivial⟩

theorem valueAt_unary (f : ℚ → ℚ) (e : Ex ℚ) (q : List Nat) : valueAt (unaryEx f e) q = f (valueAt e q) := rfl

theorem compute_sum {e : Ex ℚ} {w : List Nat} {axes : List Int} (f : ℚ → ℚ) (keep : Bool) (hf : Fits w e) (hpos : ∀ a ∈ axes, 0 ≤ a)
    (hg : GoodAxes w.length (axes.map Int.toNat)) :
    ∃ b, lazyReduce sumFnsQ 0 (unaryEx f e) w axes keep = .ok b ∧
      AccR (fun l => (l.map f).sum) (redShape w (axes.map Int.toNat) keep) b
        fun r => (redGroup w (axes.map Int.toNat) keep r).map (valueAt e) := by
  have hax := normalize_nonneg (dim := w.length) hpos
  obtain ⟨s, h1, h2, h3⟩ := lazyReduce_ok sumLaws 0 (fits_unary (f := f) hf) (axes := axes) (by rw [hax]; exact hg) keep
  rw [hax] at h2 h3
  refine ⟨s, h1, h2, fun i hi => ?_⟩
  rw [h3 i (by rw [h2]; exact hi), redValue_sum]
  show _ = (List.map f (List.map (valueAt e) _)).sum
  rw [List.map_map]
  rfl

/-- Functors that sum `f` of the elements, with whatever they do at the end. -/
theorem sumOf_law (f : ℚ → ℚ) {F : BwFn (LazyEx ℚ) Unit} {Out : List ℚ → ℚ → Prop} (hc : F.compute = (sumOfBw f).compute)
    (hi : F.init = ()) (hm : F.merge = mergeAcc (· + ·))
    (hfin : ∀ {W g m sh axes} (cur : LazyEx ℚ), cur.shape = W → AccS (fun l => (l.map f).sum) W cur m g →
      (∀ i, InBounds W i → g i ≠ [] ∧ (g i).length = axesExtent sh axes) →
      (F.finalize m cur sh axes = none ∧ ∀ i, InBounds W i → Out (g i) (cur.elem i)) ∨
        ∃ r, F.finalize m cur sh axes = some r ∧ r.shape = W ∧ ∀ i, InBounds W i → Out (g i) (r.elem i)) :
    BwLaw F (AccR fun l => (l.map f).sum) (AccS fun l => (l.map f).sum) Out where
  compute keep hf hpos hg _ _ := by rw [hc]; exact compute_sum f keep hf hpos hg
  first cur _ hR := by rw [hm, hi]; exact mergeAcc_first _ _ cur hR
  next cur hW hcur hS hR := by rw [hm]; exact mergeAcc_next _ _ (fun a b => by simp) cur hW hcur hS hR
  finish := hfin

theorem sumOfBw_law (f : ℚ → ℚ) : BwLaw (sumOfBw f) (AccR fun l => (l.map f).sum) (AccS fun l => (l.map f).sum)
    (fun l v => v = (l.map f).sum) :=
  sumOf_law f rfl rfl rfl fun _ _ hS _ => .inl ⟨rfl, hS⟩

theorem compute_plain {e : Ex ℚ} {w : List Nat} {axes : List Int} (keep : Bool) (hf : Fits w e) (hpos : ∀ a ∈ axes, 0 ≤ a)
    (hg : GoodAxes w.length (axes.map Int.toNat)) :
    ∃ b, lazyReduce sumFnsQ 0 e w axes keep = .ok b ∧
      AccR List.sum (redShape w (axes.map Int.toNat) keep) b fun r => (redGroup w (axes.map Int.toNat) keep r).map (valueAt e) := by
  have hax := normalize_nonneg (dim := w.length) hpos
  obtain ⟨s, h1, h2, h3⟩ := lazyReduce_ok sumLaws 0 hf (axes := axes) (by rw [hax]; exact hg) keep
  rw [hax] at h2 h3
  refine ⟨s, h1, h2, fun i hi => ?_⟩
  rw [h3 i (by rw [h2]; exact hi), redValue_sum]

theorem sumBw_law : BwLaw sumBw (AccR List.sum) (AccS List.sum) (fun l v => v = l.sum) where
  compute keep hf hpos hg _ _ := compute_plain keep hf hpos hg
  first cur _ hR := mergeAcc_first (· + ·) _ cur hR
  next cur hW hcur hS hR := mergeAcc_next _ _ (fun a b => by simp) cur hW hcur hS hR
  finish _ _ hS _ := .inl ⟨rfl, hS⟩

theorem meanBw_law : BwLaw meanBw (AccR List.sum) (AccS List.sum) (fun l v => v = listMean l) where
  compute keep hf hpos hg _ _ := compute_plain keep hf hpos hg
  first cur _ hR := mergeAcc_first (· + ·) _ cur hR
  next cur hW hcur hS hR := mergeAcc_next _ _ (fun a b => by simp) cur hW hcur hS hR
  finish cur hcur hS hg := .inr ⟨_, rfl, hcur, fun i hi => by
    show cur.elem i / _ = _
    rw [hS i hi, ← (hg i hi).2]
    rfl⟩

theorem prodLawsQ : ReducerLaws prodFnsQ := ⟨fun x y v => (mul_assoc x y v).symm, fun x => mul_one x⟩

theorem foldl_mul_prod (l : List ℚ) (a : ℚ) : l.foldl (· * ·) a = a * l.prod := by
  induction l generalizing a with
  | nil => simp
  | cons x l ih => rw [List.foldl_cons, ih, List.prod_cons, mul_assoc]

theorem prodBw_law : BwLaw prodBw (AccR List.prod) (AccS List.prod) (fun l v => v = l.prod) where
  compute {e w axes} keep hf hpos hg _ _ := by
    have hax := normalize_nonneg (dim := w.length) hpos
    obtain ⟨s, h1, h2, h3⟩ := lazyReduce_ok prodLawsQ 1 hf (axes := axes) (by rw [hax]; exact hg) keep
    rw [hax] at h2 h3
    refine ⟨s, h1, h2, fun i hi => ?_⟩
    rw [h3 i (by rw [h2]; exact hi)]
    show List.foldl (· * ·) 1 _ = _
    rw [foldl_mul_prod, one_mul]
  first cur _ hR := mergeAcc_first (· * ·) _ cur hR
  next cur hW hcur hS hR := mergeAcc_next _ _ (fun a b => by simp) cur hW hcur hS hR
  finish _ _ hS _ := .inl ⟨rfl, hS⟩

/-! ### Smallest and largest elements -/

/-- What `amin` keeps of a list of values. -/
def minAcc (hi : ℚ) (l : List ℚ) : ℚ := (l.foldl (aminFns hi).reduce (aminFns hi).init).1

/-- What `amax` keeps of a list of values. -/
def maxAcc (f : ℚ → ℚ) (lo : ℚ) (l : List ℚ) : ℚ := ((l.map f).foldl (amaxFns lo).reduce (amaxFns lo).init).1

theorem foldl_amin_val (hi : ℚ) : ∀ (l : List ℚ) (a : {x : ℚ // x ≤ hi}),
    (l.foldl (aminFns hi).reduce a).1 = min (l.foldl (aminFns hi).reduce (aminFns hi).init).1 a.1
  | [], a => (min_eq_right a.2).symm
  | x :: l, a => by
    rw [List.foldl_cons, List.foldl_cons, foldl_amin_val hi l ((aminFns hi).reduce a x),
      foldl_amin_val hi l ((aminFns hi).reduce (aminFns hi).init x)]
    show min _ (min a.1 x) = min (min _ (min hi x)) a.1
    have := a.2
    rw [min_assoc, min_comm (min hi x), ← min_assoc a.1, min_eq_left this]

theorem foldl_amax_val (lo : ℚ) : ∀ (l : List ℚ) (a : {x : ℚ // lo ≤ x}),
    (l.foldl (amaxFns lo).reduce a).1 = max (l.foldl (amaxFns lo).reduce (amaxFns lo).init).1 a.1
  | [], a => (max_eq_right a.2).symm
  | x :: l, a => by
    rw [List.foldl_cons, List.foldl_cons, foldl_amax_val lo l ((amaxFns lo).reduce a x),
      foldl_amax_val lo l ((amaxFns lo).reduce (amaxFns lo).init x)]
    show max _ (max a.1 x) = max (max _ (max lo x)) a.1
    have := a.2
    rw [max_assoc, max_comm (max lo x), ← max_assoc a.1, max_eq_left this]

theorem minAcc_append (hi : ℚ) (a b : List ℚ) : minAcc hi (a ++ b) = min (minAcc hi b) (minAcc hi a) := by
  unfold minAcc
  rw [List.foldl_append, foldl_amin_val]

theorem maxAcc_append (f : ℚ → ℚ) (lo : ℚ) (a b : List ℚ) : maxAcc f lo (a ++ b) = max (maxAcc f lo b) (maxAcc f lo a) := by
  unfold maxAcc
  rw [List.map_append, List.foldl_append, foldl_amax_val]

theorem aminBw_law (hi : ℚ) : BwLaw (aminBw hi) (AccR (minAcc hi)) (AccS (minAcc hi)) (fun l v => v = minAcc hi l) where
  compute {e w axes} keep hf hpos hg _ _ := by
    have hax := normalize_nonneg (dim := w.length) hpos
    obtain ⟨s, h1, h2, h3⟩ := lazyReduce_ok (aminLaws hi) (aminFns hi).init hf (axes := axes) (by rw [hax]; exact hg) keep
    rw [hax] at h2 h3
    refine ⟨⟨s.shape, fun i => (s.elem i).1⟩, by simp only [aminBw]; rw [h1]; rfl, h2, fun i hi => ?_⟩
    show (s.elem i).1 = _
    rw [h3 i (by rw [h2]; exact hi)]
    rfl
  first cur _ hR := mergeAcc_first min _ cur hR
  next cur hW hcur hS hR := mergeExtremum_next _ _ (minAcc_append hi) cur hW hcur hS hR
  finish _ _ hS _ := .inl ⟨rfl, hS⟩

theorem amaxBw_law (f : ℚ → ℚ) (lo : ℚ) :
    BwLaw (amaxBw f lo) (AccR (maxAcc f lo)) (AccS (maxAcc f lo)) (fun l v => v = maxAcc f lo l) where
  compute {e w axes} keep hf hpos hg _ _ := by
    have hax := normalize_nonneg (dim := w.length) hpos
    obtain ⟨s, h1, h2, h3⟩ := lazyReduce_ok (amaxLaws lo) (amaxFns lo).init (fits_unary (f := f) hf) (axes := axes)
      (by rw [hax]; exact hg) keep
    rw [hax] at h2 h3
    refine ⟨⟨s.shape, fun i => (s.elem i).1⟩, by simp only [amaxBw]; rw [h1]; rfl, h2, fun i hi => ?_⟩
    show (s.elem i).1 = _
    rw [h3 i (by rw [h2]; exact hi)]
    unfold redValue maxAcc
    rw [List.map_map]
    rfl
  first cur _ hR := mergeAcc_first max _ cur hR
  next cur hW hcur hS hR := mergeExtremum_next _ _ (maxAcc_append f lo) cur hW hcur hS hR
  finish _ _ hS _ := .inl ⟨rfl, hS⟩

/-! ### Pooled variance -/

theorem sum_sq_about (l : List ℚ) (c : ℚ) :
    (l.map fun x => (x - c) ^ 2).sum = (l.map fun x => x ^ 2).sum - 2 * c * l.sum + l.length * c ^ 2 := by
  induction l with
  | nil => simp
  | cons x l ih =>
    simp only [List.map_cons, List.sum_cons, List.length_cons, Nat.cast_add, Nat.cast_one, ih]
    ring

theorem listMean_mul {l : List ℚ} (h : l ≠ []) : (l.length : ℚ) * listMean l = l.sum := by
  have : (l.length : ℚ) ≠ 0 := by simpa using h
  unfold listMean
  rw [mul_comm]
  exact div_mul_cancel₀ _ this

theorem sumSqDev_eq {l : List ℚ} (h : l ≠ []) : sumSqDev l = (l.map fun x => x ^ 2).sum - l.length * listMean l ^ 2 := by
  unfold sumSqDev
  rw [sum_sq_about, ← listMean_mul h]
  ring

theorem newMean_eq {a b : List ℚ} (ha : a ≠ []) (hb : b ≠ []) :
    newMean a.length b.length (listMean a) (listMean b) = listMean (a ++ b) := by
  unfold newMean
  rw [listMean_mul ha, listMean_mul hb]
  unfold listMean
  simp

theorem newVariance_eq {a b : List ℚ} (ha : a ≠ []) (hb : b ≠ []) :
    newVariance a.length b.length (listVariance 0 a, listVariance 0 b) (listMean a, listMean b) = listVariance 0 (a ++ b) := by
  have hna : (a.length : ℚ) ≠ 0 := by simpa using ha
  have hnb : (b.length : ℚ) ≠ 0 := by simpa using hb
  have hab : a ++ b ≠ [] := by simp [ha]
  unfold newVariance
  simp only [newMean_eq ha hb]
  have va : (a.length : ℚ) * listVariance 0 a = sumSqDev a := by
    unfold listVariance
    rw [Nat.cast_zero, sub_zero]
    field_simp
  have vb : (b.length : ℚ) * listVariance 0 b = sumSqDev b := by
    unfold listVariance
    rw [Nat.cast_zero, sub_zero]
    field_simp
  rw [va, vb]
  unfold listVariance
  rw [List.length_append]
  push_cast
  rw [sub_zero]
  congr 1
  rw [sumSqDev_eq ha, sumSqDev_eq hb, sumSqDev_eq hab]
  have hm := listMean_mul hab
  rw [List.sum_append, ← listMean_mul ha, ← listMean_mul hb, List.length_append] at hm
  push_cast at hm
  simp only [List.map_append, List.sum_append, List.length_append]
  push_cast
  generalize listMean (a ++ b) = M at *
  generalize listMean a = x at *
  generalize listMean b = y at *
  linear_combination (2 * M) * hm

/-- Block results of `variance_functor`. -/
def VarR (W : List Nat) (b : LazyEx ℚ × LazyEx ℚ × ℚ) (g : List Nat → List ℚ) : Prop :=
  b.1.shape = W ∧ b.2.1.shape = W ∧ ∀ i, InBounds W i →
    g i ≠ [] ∧ b.1.elem i = listVariance 0 (g i) ∧ b.2.1.elem i = listMean (g i) ∧ b.2.2 = (g i).length

/-- State of the reduction with `variance_functor`. -/
def VarS (W : List Nat) (cur : LazyEx ℚ) (m : LazyEx ℚ × ℚ) (g : List Nat → List ℚ) : Prop :=
  m.1.shape = W ∧ ∀ i, InBounds W i →
    g i ≠ [] ∧ cur.elem i = listVariance 0 (g i) ∧ m.1.elem i = listMean (g i) ∧ m.2 = (g i).length

theorem varianceBw_law {L : Layout} (hL : L = .row_major ∨ L = .column_major) (junk : ℚ) (root : Option (ℚ → ℚ)) :
    BwLaw (varianceBw L junk root) VarR VarS (fun l v => v = (root.getD id) (listVariance 0 l)) where
  compute {e w axes} keep hf hpos hg h0 hn := by
    have hn' : numel w < 2 ^ 64 := by unfold szMax at hn; omega
    have hax := normalize_nonneg (dim := w.length) hpos
    obtain ⟨v, v1, v2, v3⟩ := C65_variance_partial hL hf hpos hg h0 hn' keep (ddof := 0) (Nat.zero_le _) (.inl (Nat.zero_le _)) junk
    obtain ⟨m, m1, m2, m3⟩ := C65_mean hf (axes := axes) (by rw [hax]; exact hg) keep hn'
    rw [hax] at m2 m3
    refine ⟨(v, m, (axesExtent w axes : ℚ)), by simp only [varianceBw]; rw [v1]; simp only [Res.bind]; rw [m1]; rfl, v2, m2, fun i hi => ?_⟩
    have hlen := length_redGroup_eq hg hi
    refine ⟨fun h => ?_, v3 i (by rw [v2]; exact hi), m3 i (by rw [m2]; exact hi), ?_⟩
    · have hmul := axesExtent_mul hg keep
      have : (redGroup w (axes.map Int.toNat) keep i).length = 0 := by rw [List.map_eq_nil_iff.1 h]; rfl
      rw [← hlen, this] at hmul
      exact h0 (by simpa using hmul.symm)
    · show (axesExtent w axes : ℚ) = _
      rw [List.length_map, hlen]
  first {W b g} cur hW hR := by
    refine ⟨(b.1, b.2.1, 0 + b.2.2), rfl, hR.1, fun cur' _ h2 => ⟨hR.2.1, fun i hi => ?_⟩⟩
    obtain ⟨r1, r2, r3, r4⟩ := hR.2.2 i hi
    exact ⟨r1, by rw [h2 i hi]; exact r2, r3, by rw [← r4]; exact zero_add _⟩
  next {W b g g0 m} cur hW hcur hS hR := by
    obtain ⟨v, v1, v2, v3⟩ := zip_pair hW hcur hR.1
    obtain ⟨ms, s1, s2, s3⟩ := zip_pair hW hS.1 hR.2.1
    obtain ⟨nv, n1, n2, n3⟩ := zipEx_ok (newVariance m.2 b.2.2) (s := v) (t := ms) (by rw [v2, s2]; exact broadcastsTo_refl _)
      (by rw [v2]; exact hW) (by rw [s2]; exact hW)
    obtain ⟨nm, k1, k2, k3⟩ := zip_same (f := newMean m.2 b.2.2) hW hS.1 hR.2.1
    refine ⟨(nv, nm, m.2 + b.2.2), ?_, by rw [← v2]; exact n2, fun cur' _ h2 => ⟨k2, fun i hi => ?_⟩⟩
    · show mergeVariance b false cur m = _
      unfold mergeVariance
      simp only [Bool.false_eq_true, if_false]
      rw [v1]
      simp only [Res.bind]
      rw [s1]
      simp only []
      rw [n1]
      simp only []
      rw [k1]
      rfl
    · obtain ⟨r1, r2, r3, r4⟩ := hR.2.2 i hi
      obtain ⟨t1, t2, t3, t4⟩ := hS.2 i hi
      refine ⟨by simp [t1], ?_, ?_, ?_⟩
      · rw [h2 i hi]
        show nv.elem i = _
        rw [n3 i (by rw [v2]; exact hi), s2, bcIndex_self hi, v3 i hi, s3 i hi, t2, r2, t3, r3, t4, r4, newVariance_eq t1 r1]
      · show nm.elem i = _
        rw [k3 i hi, t3, r3, t4, r4, newMean_eq t1 r1]
      · show m.2 + b.2.2 = _
        rw [t4, r4, List.length_append]
        push_cast
        rfl
  finish {W g m sh axes} cur hcur hS hg := by
    cases root with
    | none => exact .inl ⟨rfl, fun i hi => (hS.2 i hi).2.1⟩
    | some f => exact .inr ⟨_, rfl, hcur, fun i hi => by
        show f (cur.elem i) = f _
        rw [(hS.2 i hi).2.1]⟩

/-! ## The property -/

/-- The outcome of a block-wise reduction: the destination keeps its shape and layout, and every element of it is as `P` says of
    the values of the elements of the input that differ from it only along the reduced axes. -/
def BwResult (r : Res (Buf ℚ)) (e out : Buf ℚ) (axes : List Int) (keep : Bool) (P : List ℚ → ℚ → Prop) : Prop :=
  ∃ out', r = .ok out' ∧ out'.WF ∧ out'.shape = redShape e.shape (axes.map Int.toNat) keep ∧ out'.layout = out.layout ∧
    ∀ p, InBounds out'.shape p → P (groupValues e axes keep p) (out'.read p)

section
variable {e out : Buf ℚ} {cs : List Nat} {axes : List Int} {keep : Bool}

theorem BwInput.result (h : BwInput e cs axes keep out) {F : BwFn B M} {R S Out} (law : BwLaw F R S Out) {P : List ℚ → ℚ → Prop}
    (hP : ∀ l l' v, l ≠ [] → l.Perm l' → Out l v → P l' v) :
    BwResult (blockwiseAssign F e cs axes keep out) e out axes keep P := by
  obtain ⟨o, o1, o2, o3, o4, o5⟩ := h.run law
  refine ⟨o, o1, o2, by rw [o3, h.out_shape], o4, fun p hp => ?_⟩
  rw [o3] at hp
  obtain ⟨l, l1, l2⟩ := o5 p hp
  refine hP _ _ _ (fun h' => ?_) l1 l2
  subst h'
  have hlen := l1.length_eq
  unfold groupValues at hlen
  rw [h.out_shape] at hp
  rw [List.length_map, length_redGroup_eq h.good hp] at hlen
  have hmul := axesExtent_mul h.good keep
  rw [← hlen] at hmul
  exact h.some_elem (by simpa using hmul.symm)

/-- **C67** (sum).  `blockwise::sum(e, chunk_shape, axes)` assigned to a container of the shape of the result gives at every index
the sum of the elements of its group, whatever the chunk shape, also when chunks are cut off at the ends of the axes. -/
theorem C67_sum (h : BwInput e cs axes keep out) :
    BwResult (blockwiseAssign sumBw e cs axes keep out) e out axes keep fun l v => v = l.sum :=
  h.result sumBw_law fun _ _ _ _ hp hv => hv.trans hp.sum_eq

/-- **C67** (product). -/
theorem C67_prod (h : BwInput e cs axes keep out) :
    BwResult (blockwiseAssign prodBw e cs axes keep out) e out axes keep fun l v => v = l.prod :=
  h.result prodBw_law fun _ _ _ _ hp hv => hv.trans hp.prod_eq

theorem listMean_perm {l l' : List ℚ} (h : l.Perm l') : listMean l = listMean l' := by
  unfold listMean
  rw [h.sum_eq, h.length_eq]

theorem listVariance_perm {l l' : List ℚ} (h : l.Perm l') (d : Nat) : listVariance d l = listVariance d l' := by
  unfold listVariance sumSqDev
  rw [h.length_eq, listMean_perm h, (h.map _).sum_eq]

/-- **C67** (mean).  The mean of every group, from sums of blocks and one division. -/
theorem C67_mean (h : BwInput e cs axes keep out) :
    BwResult (blockwiseAssign meanBw e cs axes keep out) e out axes keep fun l v => v = listMean l :=
  h.result meanBw_law fun _ _ _ _ hp hv => hv.trans (listMean_perm hp)

/-- **C67** (variance).  The variance of every group, pooled from means and variances of blocks of different sizes. -/
theorem C67_variance {L : Layout} (hL : L = .row_major ∨ L = .column_major) (junk : ℚ) (h : BwInput e cs axes keep out) :
    BwResult (blockwiseAssign (varianceBw L junk none) e cs axes keep out) e out axes keep fun l v => v = listVariance 0 l :=
  h.result (varianceBw_law hL junk none) fun _ _ _ _ hp hv => hv.trans (listVariance_perm hp 0)

/-- **C67** (standard deviation): the root of the variance, taken once at the end. -/
theorem C67_stddev {L : Layout} (hL : L = .row_major ∨ L = .column_major) (junk : ℚ) (root : ℚ → ℚ) (h : BwInput e cs axes keep out) :
    BwResult (blockwiseAssign (varianceBw L junk (some root)) e cs axes keep out) e out axes keep
      fun l v => v = root (listVariance 0 l) :=
  h.result (varianceBw_law hL junk (some root)) fun _ _ _ _ hp hv => hv.trans (congrArg root (listVariance_perm hp 0))

theorem minAcc_least {hi : ℚ} {l : List ℚ} (h : ∃ x ∈ l, x ≤ hi) : IsLeastOf (minAcc hi l) l := by
  obtain ⟨h1, h2, h3⟩ := foldl_amin hi l (aminFns hi).init
  refine ⟨?_, h3⟩
  rcases h1 with h1 | h1
  · obtain ⟨x, hx, hle⟩ := h
    have e1 : minAcc hi l = hi := h1
    have := h3 x hx
    have e2 : minAcc hi l ≤ x := this
    rw [e1] at e2
    rw [e1, le_antisymm e2 hle]
    exact hx
  · exact h1

theorem maxAcc_greatest {f : ℚ → ℚ} {lo : ℚ} {l : List ℚ} (h : ∃ x ∈ l, lo ≤ f x) : IsGreatestOf (maxAcc f lo l) (l.map f) := by
  obtain ⟨h1, h2, h3⟩ := foldl_amax lo (l.map f) (amaxFns lo).init
  refine ⟨?_, h3⟩
  rcases h1 with h1 | h1
  · obtain ⟨x, hx, hle⟩ := h
    have e1 : maxAcc f lo l = lo := h1
    have hm : f x ∈ l.map f := List.mem_map.2 ⟨x, hx, rfl⟩
    have e2 : f x ≤ maxAcc f lo l := h3 (f x) hm
    rw [e1] at e2
    rw [e1, ← le_antisymm e2 hle]
    exact hm
  · exact h1

/-- **C67** (smallest element): every element of the result is the smallest of its group, when the group has an element that is
at most the largest number of the type. -/
theorem C67_amin (hi : ℚ) (h : BwInput e cs axes keep out) :
    BwResult (blockwiseAssign (aminBw hi) e cs axes keep out) e out axes keep fun l v => (∃ x ∈ l, x ≤ hi) → IsLeastOf v l :=
  h.result (aminBw_law hi) fun l l' v _ hp hv hle => by
    obtain ⟨x, hx, hxl⟩ := hle
    have := minAcc_least (l := l) ⟨x, hp.mem_iff.2 hx, hxl⟩
    rw [hv]
    exact ⟨hp.mem_iff.1 this.1, fun y hy => this.2 y (hp.mem_iff.2 hy)⟩

/-- **C67** (largest element), likewise. -/
theorem C67_amax (lo : ℚ) (h : BwInput e cs axes keep out) :
    BwResult (blockwiseAssign (amaxBw id lo) e cs axes keep out) e out axes keep fun l v => (∃ x ∈ l, lo ≤ x) → IsGreatestOf v l :=
  h.result (amaxBw_law id lo) fun l l' v _ hp hv hle => by
    obtain ⟨x, hx, hxl⟩ := hle
    have := maxAcc_greatest (f := id) (l := l) ⟨x, hp.mem_iff.2 hx, hxl⟩
    rw [List.map_id] at this
    rw [hv]
    exact ⟨hp.mem_iff.1 this.1, fun y hy => this.2 y (hp.mem_iff.2 hy)⟩

theorem sum_nonZero (l : List ℚ) : (l.map nonZero).sum = count0 l := by
  unfold count0
  induction l with
  | nil => rfl
  | cons x l ih =>
    rw [List.map_cons, List.sum_cons, ih]
    by_cases hx : x = 0
    · simp [nonZero, hx]
    · simp [nonZero, hx, add_comm]

theorem count0_perm {l l' : List ℚ} (h : l.Perm l') : count0 l = count0 l' := by
  unfold count0
  rw [(h.filter _).length_eq]

/-- **C67** (norms).  The number of elements of every group that are not zero, the sum of their absolute values and that of their
squares. -/
theorem C67_norms (h : BwInput e cs axes keep out) :
    BwResult (blockwiseAssign normL0Bw e cs axes keep out) e out axes keep (fun l v => v = count0 l) ∧
    BwResult (blockwiseAssign normL1Bw e cs axes keep out) e out axes keep (fun l v => v = absSum l) ∧
    BwResult (blockwiseAssign normSqBw e cs axes keep out) e out axes keep (fun l v => v = squareSum l) := by
  refine ⟨h.result (sumOfBw_law nonZero) fun _ _ _ _ hp hv => ?_, h.result (sumOfBw_law abs) fun _ _ _ _ hp hv => ?_,
    h.result (sumOfBw_law fun x => x * x) fun _ _ _ _ hp hv => ?_⟩
  · rw [hv, sum_nonZero, count0_perm hp]
  · rw [hv]; exact (hp.map abs).sum_eq
  · rw [hv]
    unfold squareSum
    simp only [pow_two]
    exact (hp.map _).sum_eq

/-- **C67** (Euclidean norm): the root of the sum of the squares, taken once at the end. -/
theorem C67_norm_l2 (root : ℚ → ℚ) (h : BwInput e cs axes keep out) :
    BwResult (blockwiseAssign (normL2Bw root) e cs axes keep out) e out axes keep fun l v => v = root (squareSum l) :=
  h.result (F := normL2Bw root) (Out := fun l v => v = root (l.map fun x => x * x).sum)
    (sumOf_law (fun x => x * x) rfl rfl rfl fun cur hcur hS _ => .inr ⟨_, rfl, hcur, fun i hi => by
      show root (cur.elem i) = _
      rw [hS i hi]⟩)
    fun _ _ _ _ hp hv => by
      rw [hv]
      unfold squareSum
      simp only [pow_two]
      rw [(hp.map _).sum_eq]

/-- **C67** (maximum norm): the largest absolute value of every group. -/
theorem C67_norm_linf (lo : ℚ) (hlo : lo ≤ 0) (h : BwInput e cs axes keep out) :
    BwResult (blockwiseAssign (amaxBw abs lo) e cs axes keep out) e out axes keep fun l v => IsGreatestOf v (l.map abs) :=
  h.result (amaxBw_law abs lo) fun l l' v hne hp hv => by
    obtain ⟨x, hx⟩ := List.exists_mem_of_ne_nil l hne
    have := maxAcc_greatest (f := abs) (l := l) ⟨x, hx, le_trans hlo (abs_nonneg x)⟩
    rw [hv]
    have hp' := hp.map abs
    exact ⟨hp'.mem_iff.1 this.1, fun y hy => this.2 y (hp'.mem_iff.2 hy)⟩

/-- Full property: `blockwise::norm_lp_to_p(e, p, …)` is the sum of the `p`-th powers of the absolute values of every group, for
    `p = 0` the number of elements that are not zero.  Proved for positive even `p`, and for positive `p` when no element is
    negative; `C67_norm_lp_odd_wrong` and `C67_norm_lp_zero_wrong` show that it fails otherwise. -/
theorem C67_norm_lp_partial {p : Nat} (hp0 : p ≠ 0) (h : BwInput e cs axes keep out)
    (hsign : Even p ∨ ∀ q, InBounds e.shape q → 0 ≤ e.read q) :
    BwResult (blockwiseAssign (normLpToPBw p) e cs axes keep out) e out axes keep fun l v => v = powerSum p l := by
  obtain ⟨o, o1, o2, o3, o4, o5⟩ := h.result (P := fun l v => v = (l.map fun x => x ^ p).sum) (sumOfBw_law fun x => x ^ p)
    fun _ _ _ _ hp hv => hv.trans (hp.map _).sum_eq
  refine ⟨o, o1, o2, o3, o4, fun r hr => ?_⟩
  show _ = powerSum p _
  rw [o5 r hr]
  unfold powerSum
  rw [if_neg hp0]
  congr 1
  apply List.map_congr_left
  intro x hx
  unfold groupValues redGroup at hx
  obtain ⟨q, hq, rfl⟩ := List.mem_map.1 hx
  rcases hsign with hs | hs
  · exact (hs.pow_abs _).symm
  · rw [abs_of_nonneg (hs q (mem_rowIndices.1 (List.mem_filter.1 hq).1))]

/-- **C67** (braced axes).  Axes in braces are normalised first, so negative ones count from the end. -/
theorem C67_braced_sum (h : BwInput e cs (axes.map fun a => (normalizeAxis e.shape.length a : Int)) keep out) :
    BwResult (blockwiseBraced sumBw e cs axes keep out) e out (axes.map fun a => (normalizeAxis e.shape.length a : Int)) keep
      fun l v => v = l.sum := C67_sum h

/-- **C67** (chunk shape).  The result does not depend on the chunk shape. -/
theorem C67_chunk_shape_irrelevant {cs' : List Nat} (h : BwInput e cs axes keep out) (h' : BwInput e cs' axes keep out) {L : Layout}
    (hL : L = .row_major ∨ L = .column_major) (junk : ℚ) :
    ∃ o o', blockwiseAssign (varianceBw L junk none) e cs axes keep out = .ok o ∧
      blockwiseAssign (varianceBw L junk none) e cs' axes keep out = .ok o' ∧ o.shape = o'.shape ∧
      ∀ p, InBounds o.shape p → o.read p = o'.read p := by
  obtain ⟨o, o1, -, o3, -, o5⟩ := C67_variance hL junk h
  obtain ⟨o', o1', -, o3', -, o5'⟩ := C67_variance hL junk h'
  exact ⟨o, o', o1, o1', o3.trans o3'.symm, fun p hp => (o5 p hp).trans (o5' p (by rw [o3', ← o3]; exact hp)).symm⟩

end

/-! ### Where it fails -/

/-- A negative axis that is not in braces, which `sum` accepts, is not normalised: shapes of the result are written out of
    bounds. -/
theorem C67_negative_axis_undefined (F : BwFn B M) (e out : Buf ℚ) {cs : List Nat} (hl : cs.length = e.shape.length)
    (hp : ∀ c ∈ cs, 0 < c) (hsh : e.shape ≠ []) (hd : e.shape.length < 2 ^ 63) {a : Int} (ha : a < 0) (ha' : -(2 ^ 63) ≤ a) :
    blockwiseAssign F e cs [a] false out = .ub := by
  have hin : ∀ i ∈ List.range e.shape.length, inAxes [a] i = false := by
    intro i hi
    rw [List.mem_range] at hi
    unfold inAxes toSizeT
    simp only [List.any_cons, List.any_nil, Bool.or_false, decide_eq_false_iff_not]
    omega
  have hpos : 0 < e.shape.length := List.length_pos_iff.2 hsh
  unfold blockwiseAssign
  rw [gridShape_eq hl hp]
  simp only [Res.bind]
  have : bwShapes e.shape cs [a] false = .ub := by
    unfold bwShapes
    simp only [Bool.false_eq_true, if_false]
    rw [List.filter_eq_self.2 (fun i hi => by rw [hin i hi]; rfl)]
    rw [if_neg (by simp; omega), if_pos (by simp; omega)]
  rw [this]

/-- Example: sums of the rows of a 2 by 3 matrix. -/
def bwMatrix : Buf ℚ := ⟨[2, 3], .row_major, [1, 2, 3, 4, 5, 6]⟩

/-- With kept axes the negative axis is ignored in the shape of the result, and the last column of a destination of that shape gets
    sums of the last block. -/
theorem C67_negative_axis_keep_wrong :
    blockwiseAssign sumBw bwMatrix [2, 2] [-1] true ⟨[2, 3], .row_major, [0, 0, 0, 0, 0, 0]⟩ =
        .ok ⟨[2, 3], .row_major, [3, 3, 3, 9, 9, 6]⟩ ∧
      blockwiseBraced sumBw bwMatrix [2, 2] [-1] true ⟨[2, 1], .row_major, [0, 0]⟩ = .ok ⟨[2, 1], .row_major, [6, 15]⟩ := by
  decide +kernel

/-- A reduced axis of extent 0: no block is visited and the destination keeps its contents, where the sums are 0. -/
theorem C67_empty_axis_wrong :
    blockwiseAssign sumBw ⟨[2, 0], .row_major, []⟩ [2, 2] [1] false ⟨[2], .row_major, [7, 7]⟩ = .ok ⟨[2], .row_major, [7, 7]⟩ ∧
      ((redGroup [2, 0] [1] false [0]).map (Buf.read ⟨[2, 0], .row_major, ([] : List ℚ)⟩)).sum = 0 := by
  decide +kernel

/-- An odd power of a negative element is negative. -/
theorem C67_norm_lp_odd_wrong :
    blockwiseAssign (normLpToPBw 3) ⟨[2], .row_major, [-1, -2]⟩ [2] [0] false ⟨[], .row_major, [0]⟩ = .ok ⟨[], .row_major, [-9]⟩ ∧
      powerSum 3 [-1, -2] = 9 := by
  decide +kernel

/-- For `p = 0` zeros count. -/
theorem C67_norm_lp_zero_wrong :
    blockwiseAssign (normLpToPBw 0) ⟨[2], .row_major, [0, -2]⟩ [2] [0] false ⟨[], .row_major, [0]⟩ = .ok ⟨[], .row_major, [2]⟩ ∧
      powerSum 0 [0, -2] = 1 := by
  decide +kernel

/-- The destination is not resized: with a smaller one only the first row is summed. -/
theorem C67_destination_shape_wrong :
    blockwiseAssign sumBw bwMatrix [1, 2] [1] false ⟨[1], .row_major, [0]⟩ = .ok ⟨[1], .row_major, [6]⟩ ∧
      redShape [2, 3] [1] false = [2] := by
  decide +kernel

/-! ### Examples -/

theorem bwMatrix_input (keep : Bool) :
    BwInput bwMatrix [2, 2] [1] keep ⟨redShape [2, 3] [1] keep, .row_major, [0, 0]⟩ :=
  ⟨rfl, by decide, by decide, by decide, by decide, by decide, by decide, by decide, by cases keep <;> rfl, rfl⟩

example : BwInput bwMatrix [2, 2] [1] false ⟨[2], .row_major, [0, 0]⟩ ∧
    blockwiseAssign sumBw bwMatrix [2, 2] [1] false ⟨[2], .row_major, [0, 0]⟩ = .ok ⟨[2], .row_major, [6, 15]⟩ ∧
    blockwiseAssign meanBw bwMatrix [2, 2] [1] false ⟨[2], .row_major, [0, 0]⟩ = .ok ⟨[2], .row_major, [2, 5]⟩ ∧
    blockwiseAssign (aminBw 100) bwMatrix [2, 2] [1] false ⟨[2], .row_major, [0, 0]⟩ = .ok ⟨[2], .row_major, [1, 4]⟩ ∧
    blockwiseAssign (normL2Bw id) bwMatrix [2, 2] [1] false ⟨[2], .row_major, [0, 0]⟩ = .ok ⟨[2], .row_major, [14, 77]⟩ :=
  ⟨bwMatrix_input false, by decide +kernel⟩

example : ∃ o, blockwiseAssign (varianceBw .row_major 0 none) bwMatrix [2, 2] [1] false ⟨[2], .row_major, [0, 0]⟩ = .ok o ∧
    o.read [0] = 2 / 3 := by
  obtain ⟨o, h1, -, h3, -, h5⟩ := C67_variance (.inl rfl) 0 (bwMatrix_input false)
  refine ⟨o, h1, ?_⟩
  rw [h5 [0] (by rw [h3]; decide)]
  decide +kernel

example : BwInput bwMatrix [1, 3] [1] false ⟨[2], .row_major, [0, 0]⟩ ∧ Even 2 :=
  ⟨⟨rfl, by decide, by decide, by decide, by decide, by decide, by decide, by decide, rfl, rfl⟩, by decide⟩

example : BwInput bwMatrix [2, 2] ([-1].map fun a => (normalizeAxis bwMatrix.shape.length a : Int)) true ⟨[2, 1], .row_major, [0, 0]⟩ :=
  ⟨rfl, by decide, by decide, by decide, by decide, by decide, by decide, by decide, rfl, rfl⟩

example : blockwiseAssign prodBw bwMatrix [2, 2] [-2] false ⟨[3], .row_major, [0, 0, 0]⟩ = .ub :=
  C67_negative_axis_undefined prodBw _ _ (by decide) (by decide) (by decide) (by decide) (by decide) (by decide)

end Xt
