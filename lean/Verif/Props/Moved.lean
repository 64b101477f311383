import Verif.Spec.Moved
import Verif.Props.AssignFail
/-!
# C103: arrays that were moved from
-/

namespace Xt
open Spec

variable {α : Type}

theorem Spec.MvWorld.get {σ : List (MvVar α)} {a : List (MvVal α)} (h : MvWorld σ a) {k : Nat} {w : MvVal α} (hk : a[k]? = some w) :
    ∃ v, σ[k]? = some v ∧ MvHolds v w := by
  unfold MvWorld at h
  induction h generalizing k with
  | nil => simp at hk
  | @cons v w' σ a h1 h2 ih =>
    cases k with
    | zero => simp only [List.getElem?_cons_zero, Option.some.injEq] at hk; exact ⟨v, rfl, hk ▸ h1⟩
    | succ k => simpa using ih (by simpa using hk)

theorem Spec.MvWorld.set {σ : List (MvVar α)} {a : List (MvVal α)} (h : MvWorld σ a) (k : Nat) {v : MvVar α} {w : MvVal α}
    (hv : MvHolds v w) : MvWorld (σ.set k v) (a.set k w) := by
  unfold MvWorld at *
  induction h generalizing k with
  | nil => exact .nil
  | cons h1 h2 ih =>
    cases k with
    | zero => exact .cons hv h2
    | succ k => exact .cons h1 (ih k)

theorem Spec.MvWorld.push {σ : List (MvVar α)} {a : List (MvVal α)} (h : MvWorld σ a) {v : MvVar α} {w : MvVal α}
    (hv : MvHolds v w) : MvWorld (σ ++ [v]) (a ++ [w]) := by
  unfold MvWorld at *
  induction h with
  | nil => exact .cons hv .nil
  | cons h1 h2 ih => exact .cons h1 ih

theorem Spec.MvWorld.shapes {σ : List (MvVar α)} {a : List (MvVal α)} (h : MvWorld σ a) :
    σ.map (·.cont.shape) = a.map (·.shape) := by
  unfold MvWorld at h
  induction h with
  | nil => rfl
  | cons h1 h2 ih => simp only [List.map_cons, ih, h1.shape]

theorem Spec.MvWorld.set_self {σ : List (MvVar α)} {a : List (MvVal α)} (h : MvWorld σ a) {k : Nat} {w : MvVal α}
    (hk : a[k]? = some w) : MvWorld σ (a.set k w) := by
  have : a.set k w = a := by
    apply List.ext_getElem?
    intro i
    rw [List.getElem?_set]
    split
    · next e => subst e; split
                · exact hk.symm
                · next hn => rw [List.getElem?_eq_none (by omega)]
    · rfl
  rwa [this]

theorem fitsRank_iff {rank : Option Nat} {s : List Nat} : fitsRank rank s = true ↔ RankFits rank s := by
  cases rank with
  | none => simp [fitsRank, RankFits]
  | some n => simp [fitsRank, RankFits]

/-! ## Expressions -/

theorem mvReads {σ : List (MvVar α)} {a : List (MvVal α)} (h : MvWorld σ a) : ∀ (l : List (Nat × List Nat)),
    (∀ r ∈ l, ∃ v f, a[r.1]? = some v ∧ v.val = some f ∧ InBounds v.shape r.2) →
    ∃ xs, l.mapM (mvRead σ) = some xs ∧
      List.Forall₂ (fun (r : Nat × List Nat) (x : α) => ∃ v h, a[r.1]? = some v ∧ v.val = some h ∧ x = h r.2) l xs
  | [], _ => ⟨[], rfl, .nil⟩
  | r :: l, hl => by
    obtain ⟨xs, h1, h2⟩ := mvReads h l fun r hr => hl r (List.mem_cons_of_mem _ hr)
    obtain ⟨w, f, h3, h4, h5⟩ := hl r List.mem_cons_self
    obtain ⟨v, h6, h7⟩ := h.get h3
    have h8 : mvRead σ r = some (f r.2) := by
      unfold mvRead; rw [h6]; exact (h7.elems f h4).2 _ h5
    refine ⟨f r.2 :: xs, ?_, .cons ⟨w, f, h3, h4, rfl⟩ h2⟩
    rw [List.mapM_cons, h8, h1]; rfl

theorem mvEval (v0 : α) {σ : List (MvVar α)} {a : List (MvVal α)} (h : MvWorld σ a) {e : MvExpr α} (he : MvReadable a e) :
    e.eval σ = some ⟨some (e.shape (a.map (·.shape))), e.elem σ⟩ ∧
    ∃ f, MvMeans a e f ∧ ∀ i, InBounds (e.shape (a.map (·.shape))) i → e.elem σ i = some (f i) := by
  have key : ∀ i, InBounds (e.shape (a.map (·.shape))) i → ∃ xs,
      e.elem σ i = some (e.value (a.map (·.shape)) i xs) ∧
      List.Forall₂ (fun (r : Nat × List Nat) (x : α) => ∃ v h, a[r.1]? = some v ∧ v.val = some h ∧ x = h r.2)
        (e.reads (a.map (·.shape)) i) xs := by
    intro i hi
    obtain ⟨xs, h1, h2⟩ := mvReads h _ (he i hi)
    refine ⟨xs, ?_, h2⟩
    unfold MvExpr.elem
    rw [h.shapes, h1]; rfl
  refine ⟨?_, fun i => (e.elem σ i).getD v0, fun i hi => ?_, fun i hi => ?_⟩
  · unfold MvExpr.eval
    rw [h.shapes, if_pos]
    rw [List.all_eq_true]
    intro i hi
    obtain ⟨xs, h1, -⟩ := key i (mem_rowIndices.1 hi)
    rw [h1]; rfl
  · obtain ⟨xs, h1, h2⟩ := key i hi
    exact ⟨xs, h2, by simp only [h1, Option.getD_some]⟩
  · obtain ⟨xs, h1, h2⟩ := key i hi
    simp only [h1, Option.getD_some]

/-! ## Giving a value in place -/

theorem resizeF_ready (g : FCfg α) (hf : ∀ n, (g.fresh n).length = n) {c : Cont α} {s : List Nat}
    (h : Consistent c ∨ c.shape ≠ s) :
    ∃ c', resizeF g true c s = .ok c' ∧ Consistent c' ∧ c'.shape = s ∧ c'.L = c.L ∧ (c.shape = s → c' = c) := by
  unfold resizeF Cont.resize
  by_cases hs : c.shape = s
  · rw [if_neg (by simp [hs])]
    exact ⟨c, rfl, h.resolve_right (fun h => h hs), hs, rfl, fun _ => rfl⟩
  · rw [if_pos (.inl hs)]
    simp only [Bool.true_or, if_true]
    refine ⟨_, rfl, Consistent.of_computed _ _ _ _ ?_, rfl, rfl, fun h => absurd h hs⟩
    rw [resizeStorage_length hf, computeStrides_size]; simp

theorem directF_ready (g : FCfg α) (hf : ∀ n, (g.fresh n).length = n) {c : Cont α} {s : List Nat}
    (h : Consistent c ∨ c.shape ≠ s) {elem : List Nat → Option α} {f : List Nat → α}
    (he : ∀ i, InBounds s i → elem i = some (f i)) :
    ∃ c', directF g true c ⟨some s, elem⟩ = .ok c' ∧ Consistent c' ∧ c'.shape = s ∧ c'.L = c.L ∧
      ∀ i, InBounds s i → c'.elem? (toInts i) = some (f i) := by
  obtain ⟨c1, h1, h2, h3, h4, -⟩ := resizeF_ready g hf h
  unfold directF
  simp only [h1, Out.next]
  have h5 := assignDataF_spec g h2 elem
  cases hd : assignDataF g c1 elem with
  | ok c2 =>
    rw [hd] at h5
    obtain ⟨h6, h7, h8, h9⟩ := h5
    refine ⟨c2, rfl, h6, h7.trans h3, h8.trans h4, fun i hi => ?_⟩
    obtain ⟨x, h10, h11⟩ := h9 i (by rw [h7, h3]; exact hi)
    rw [h11, ← h10, he i hi]
  | throws c2 =>
    rw [hd] at h5
    obtain ⟨-, hsh, -, pre, i, post, h6, h7, -⟩ := h5
    have : InBounds s i := by
      rw [← h3, ← hsh]; exact (h6 i).1 (by simp)
    rw [he i this] at h7; simp at h7
  | ub => rw [hd] at h5; exact h5.elim

theorem Spec.MvHolds.ready {v : MvVar α} {w : MvVal α} (h : MvHolds v w) {s : List Nat} (hs : MvReady w s) :
    Consistent v.cont ∨ v.cont.shape ≠ s := by
  rcases hs with hs | hs | hs
  · cases hv : w.val with
    | none => exact absurd hv hs
    | some f => exact .inl (h.elems f hv).1
  · exact .inr (by rwa [h.shape])
  · by_cases hq : v.cont.shape = s
    · left
      cases hv : w.val with
      | some f => exact (h.elems f hv).1
      | none =>
        obtain ⟨h1, st, h2⟩ := h.gone hv
        have h3 : st = [] := by
          have := h2.storage_size
          rw [show ({ v.cont with storage := st } : Cont α).shape = s from hq, hs] at this
          exact List.eq_nil_of_length_eq_zero this
        rw [h3, ← h1] at h2
        exact h2
    · exact .inr hq

/-! ## One statement -/

theorem mvAssign_spec (g : FCfg α) (hf : ∀ n, (g.fresh n).length = n) {σ : List (MvVar α)} {a : List (MvVal α)}
    (h : MvWorld σ a) {k : Nat} {e : MvExpr α} {x : MvVal α} (hk : a[k]? = some x) (hr : MvReadable a e)
    (hfit : RankFits x.rank (e.shape (a.map (·.shape)))) (viaTmp : Bool)
    (hrd : viaTmp = true ∨ MvReady x (e.shape (a.map (·.shape)))) :
    ∃ σ' f, mvAssign g viaTmp σ k e = .ok σ' ∧ MvMeans a e f ∧
      MvWorld σ' (a.set k { x with shape := e.shape (a.map (·.shape)), val := some f }) := by
  obtain ⟨v, h1, h2⟩ := h.get hk
  obtain ⟨h3, f, h4, h5⟩ := mvEval g.v0 h hr
  have fin : ∀ c, Consistent c → c.shape = e.shape (a.map (·.shape)) → c.L = v.cont.L →
      (∀ i, InBounds (e.shape (a.map (·.shape))) i → c.elem? (toInts i) = some (f i)) →
      MvHolds { v with cont := c } { x with shape := e.shape (a.map (·.shape)), val := some f } := by
    intro c c1 c2 c3 c4
    refine ⟨h2.rank, c3.trans h2.L, c2, hfit, fun f' hf' => ?_, fun hn => by simp at hn⟩
    simp only [Option.some.injEq] at hf'
    subst hf'
    exact ⟨c1, c4⟩
  have hc : ∃ c, v.assignE g viaTmp ⟨some (e.shape (a.map (·.shape))), e.elem σ⟩ = .ok { v with cont := c } ∧ Consistent c ∧
      c.shape = e.shape (a.map (·.shape)) ∧ c.L = v.cont.L ∧
      ∀ i, InBounds (e.shape (a.map (·.shape))) i → c.elem? (toInts i) = some (f i) := by
    unfold MvVar.assignE
    cases viaTmp with
    | true =>
      obtain ⟨c, c1, c2, c3, c4, c5⟩ := directF_ready g hf (c := Cont.default v.cont.L (v.rank.getD 0) g.v0)
        (.inl (default_consistent _ _ _)) h5
      exact ⟨c, by simp only [if_true, mvConstruct, c1], c2, c3, c4, c5⟩
    | false =>
      obtain ⟨c, c1, c2, c3, c4, c5⟩ := directF_ready g hf (h2.ready (hrd.resolve_left (by simp))) h5
      exact ⟨c, by simp [c1], c2, c3, c4, c5⟩
  obtain ⟨c, c1, c2, c3, c4, c5⟩ := hc
  refine ⟨σ.set k { v with cont := c }, f, ?_, h4, h.set k (fin c c2 c3 c4 c5)⟩
  unfold mvAssign
  simp only [h1, h3, c1]
  rw [if_pos]
  rw [fitsRank_iff, h.shapes, h2.rank]; exact hfit

theorem overArray_full {β : Type} {dst src : List β} (h : src.length = dst.length) : overArray dst src = some src := by
  unfold overArray
  rw [if_pos (by omega), List.drop_eq_nil_of_le (by omega), List.append_nil]

theorem Spec.MvHolds.takes {x y : MvVar α} {v w : MvVal α} (hx : MvHolds x v) (hy : MvHolds y w) (hL : v.L = w.L)
    (hfit : RankFits v.rank w.shape) : MvHolds (x.takes y) { w with rank := v.rank } := by
  have e : (x.takes y).cont = y.cont := by
    show { y.cont with L := x.cont.L } = y.cont
    rw [hx.L, hL, ← hy.L]
  exact ⟨hx.rank, by rw [e]; exact hy.L, by rw [e]; exact hy.shape, hfit, by rw [e]; exact hy.elems, by rw [e]; exact hy.gone⟩

theorem Spec.MvHolds.leftByAssign {v : MvVar α} {w : MvVal α} (h : MvHolds v w) : MvHolds v.leftByAssign w.gone := by
  refine ⟨h.rank, h.L, h.shape, h.fits, fun f hf => by simp [MvVal.gone] at hf, fun _ => ⟨rfl, ?_⟩⟩
  cases hv : w.val with
  | none => exact (h.gone hv).2
  | some f => exact ⟨v.cont.storage, (h.elems f hv).1⟩

theorem Spec.MvHolds.leftByNew (x : α) {v : MvVar α} {w : MvVal α} (h : MvHolds v w) : MvHolds v.leftByNew w.goneNew := by
  have ha := h.leftByAssign
  have hr := h.rank
  cases hv : v.rank with
  | some n =>
    rw [hv] at hr
    have e1 : v.leftByNew = v.leftByAssign := by unfold MvVar.leftByNew MvVar.leftByAssign; rw [hv]
    have e2 : w.goneNew = w.gone := by unfold MvVal.goneNew MvVal.gone; rw [← hr]; simp
    rw [e1, e2]; exact ha
  | none =>
    rw [hv] at hr
    unfold MvVar.leftByNew MvVal.goneNew
    rw [hv, ← hr]
    refine ⟨rfl, h.L, rfl, fun n hn => by simp at hn, fun f hf => by simp at hf, fun _ => ⟨rfl, [x], ?_⟩⟩
    exact ⟨rfl, .inr ⟨0, rfl, rfl⟩, .inl ⟨0, rfl, rfl⟩⟩

theorem Spec.MvHolds.strides_length {v : MvVar α} {w : MvVal α} (h : MvHolds v w) :
    v.cont.strides.length = w.shape.length ∧ v.cont.backstr.length = w.shape.length := by
  have key : ∀ c : Cont α, Consistent c → c.strides.length = c.shape.length ∧ c.backstr.length = c.shape.length := by
    intro c hc
    have h1 := Consistent.strides_length hc
    refine ⟨h1, ?_⟩
    rcases hc.backstrides with ⟨n, h2, h3⟩ | h2
    · rw [h2, h3]; simp
    · rw [h2]; simp [h1]
  rw [← h.shape]
  cases hv : w.val with
  | some f => exact key _ (h.elems f hv).1
  | none =>
    obtain ⟨-, st, h2⟩ := h.gone hv
    exact key ({ v.cont with storage := st } : Cont α) h2

theorem Spec.MvHolds.takesArray {x y : MvVar α} {v w : MvVal α} (hx : MvHolds x v) (hy : MvHolds y w) (hL : v.L = w.L) {n : Nat}
    (hn : v.rank = some n) (hfit : RankFits v.rank w.shape) :
    x.takesArray y = some (x.takes y) := by
  have h1 := hx.strides_length
  have h2 := hy.strides_length
  have h3 := hfit n hn
  have h4 := hx.fits n hn
  unfold MvVar.takesArray
  rw [overArray_full (by rw [hx.shape, hy.shape]; omega), overArray_full (by omega), overArray_full (by omega)]
  rfl

theorem Consistent.elem_some {c : Cont α} (h : Consistent c) {i : List Nat} (hi : InBounds c.shape i) :
    ∃ y, c.elem? (toInts i) = some y := by
  have h1 := (Consistent.addressable h).inside i hi
  unfold Cont.elem?
  simp only []
  rw [if_neg (by omega)]
  exact ⟨_, List.getElem?_eq_getElem (by omega)⟩

/-- Statements that are allowed are defined, and have their effect on the values: what is copied, moved or converted has the value
of the source, an assigned variable that of the expression, other variables are as they were — for variables that hold values and
those that were moved from.  An assignment in place must not give a moved-from variable the shape that it still has. -/
theorem C103_statement_partial (g : FCfg α) (hf : ∀ n, (g.fresh n).length = n) {σ : List (MvVar α)} {a : List (MvVal α)}
    (h : MvWorld σ a) (s : MvStmt α) (hs : MvAllowed g.force a s) :
    ∃ σ' a', s.run g σ = .ok σ' ∧ MvStep a s a' ∧ MvWorld σ' a' := by
  cases s with
  | create rank L e =>
    obtain ⟨h1, h2⟩ := hs
    obtain ⟨h3, f, h4, h5⟩ := mvEval g.v0 h h1
    obtain ⟨c, c1, c2, c3, c4, c5⟩ := directF_ready g hf (c := Cont.default L (rank.getD 0) g.v0)
      (.inl (default_consistent _ _ _)) h5
    refine ⟨σ ++ [⟨rank, c⟩], _, ?_, ⟨f, h4, rfl⟩, h.push ⟨rfl, c4, c3, h2, fun f' hf' => ?_, fun hn => by simp at hn⟩⟩
    · simp only [MvStmt.run, h3, mvConstruct, c1]
      rw [if_pos]
      rw [fitsRank_iff, h.shapes]; exact h2
    · simp only [Option.some.injEq] at hf'
      subst hf'
      exact ⟨c2, c5⟩
  | copyNew j =>
    have hj : a[j]? = some a[j] := List.getElem?_eq_getElem hs
    obtain ⟨v, h1, h2⟩ := h.get hj
    exact ⟨σ ++ [v], _, by simp only [MvStmt.run, h1], ⟨_, hj, rfl⟩, h.push h2⟩
  | moveNew j =>
    have hj : a[j]? = some a[j] := List.getElem?_eq_getElem hs
    obtain ⟨v, h1, h2⟩ := h.get hj
    exact ⟨_, _, by simp only [MvStmt.run, h1], ⟨_, hj, rfl⟩, (h.set j (h2.leftByNew g.v0)).push h2⟩
  | convNew rank j =>
    obtain ⟨w, hj, -, h3⟩ := hs
    obtain ⟨v, h1, h2⟩ := h.get hj
    refine ⟨σ.set j v.leftByAssign ++ [⟨rank, v.cont⟩], _, ?_, ⟨_, hj, rfl⟩,
      (h.set j h2.leftByAssign).push ⟨rfl, h2.L, h2.shape, h3, h2.elems, h2.gone⟩⟩
    simp only [MvStmt.run, h1]
    rw [if_pos]
    rw [fitsRank_iff, h2.shape]; exact h3
  | copy k j =>
    obtain ⟨x, w, hk, hj, h3, h4⟩ := hs
    obtain ⟨vx, h5, h6⟩ := h.get hk
    obtain ⟨vy, h7, h8⟩ := h.get hj
    by_cases he : k = j
    · subst he
      exact ⟨σ, _, by simp [MvStmt.run, h5], ⟨_, hj, rfl⟩, h.set_self hj⟩
    · refine ⟨σ.set k (vx.takes vy), _, by simp [MvStmt.run, h5, h7, he], ⟨_, hj, rfl⟩, h.set k ?_⟩
      have := h6.takes h8 h4 (h3 ▸ h8.fits)
      rwa [h3] at this
  | move k j =>
    obtain ⟨x, w, hk, hj, h3, h4⟩ := hs
    obtain ⟨vx, h5, h6⟩ := h.get hk
    obtain ⟨vy, h7, h8⟩ := h.get hj
    by_cases he : k = j
    · subst he
      exact ⟨σ, _, by simp [MvStmt.run, h5], ⟨_, hj, rfl⟩, by rw [if_pos rfl]; exact h⟩
    · refine ⟨_, _, by simp [MvStmt.run, h5, h7, he]; rfl, ⟨_, hj, rfl⟩, ?_⟩
      rw [if_neg he]
      refine (h.set k ?_).set j h8.leftByAssign
      have := h6.takes h8 h4 (h3 ▸ h8.fits)
      rwa [h3] at this
  | conv k j =>
    obtain ⟨x, w, hk, hj, h3, h4, h9⟩ := hs
    obtain ⟨vx, h5, h6⟩ := h.get hk
    obtain ⟨vy, h7, h8⟩ := h.get hj
    refine ⟨_, _, ?_, ⟨_, _, hk, hj, rfl⟩, (h.set k (h6.takes h8 h4 h9)).set j h8.leftByAssign⟩
    simp only [MvStmt.run, h5, h7]
    cases hr : vx.rank with
    | none => rfl
    | some n => rw [h6.takesArray h8 h4 (n := n) (by rw [← h6.rank, hr]) h9]
  | assign k e overlap =>
    obtain ⟨x, hk, h1, h2, h3⟩ := hs
    obtain ⟨σ', f, h4, h5, h6⟩ := mvAssign_spec g hf h hk h1 h2 (g.force || overlap) (by
      rcases h3 with h3 | h3 | h3
      · left; simp [h3]
      · left; simp [h3]
      · exact .inr h3.2)
    exact ⟨σ', _, h4, ⟨x, f, hk, h5, rfl⟩, h6⟩
  | noalias k e =>
    obtain ⟨x, hk, h1, h2, -, h3⟩ := hs
    obtain ⟨σ', f, h4, h5, h6⟩ := mvAssign_spec g hf h hk h1 h2 false (.inr h3)
    exact ⟨σ', _, h4, ⟨x, f, hk, h5, rfl⟩, h6⟩
  | resize k s =>
    obtain ⟨x, hk, h2, h3⟩ := hs
    obtain ⟨v, h5, h6⟩ := h.get hk
    obtain ⟨c, c1, c2, c3, c4, c5⟩ := resizeF_ready g hf (h6.ready h3)
    refine ⟨σ.set k { v with cont := c }, _, ?_,
      ⟨x, fun i => (c.elem? (toInts i)).getD g.v0, hk, ?_, rfl⟩, h.set k ⟨h6.rank, c4.trans h6.L, c3, h2, fun f' hf' => ?_,
        fun hn => by simp at hn⟩⟩
    · simp only [MvStmt.run, h5, c1]
      rw [if_pos]
      rw [fitsRank_iff, h6.rank]; exact h2
    · intro hs f hx i hi
      show (c.elem? (toInts i)).getD g.v0 = f i
      rw [c5 (by rw [h6.shape, hs]), (h6.elems f hx).2 i (hs ▸ hi)]; rfl
    · simp only [Option.some.injEq] at hf'
      subst hf'
      refine ⟨c2, fun i hi => ?_⟩
      obtain ⟨y, hy⟩ := Consistent.elem_some c2 (i := i) (by rw [c3]; exact hi)
      show c.elem? (toInts i) = some ((c.elem? (toInts i)).getD g.v0)
      rw [hy]; rfl

/-- Programs of allowed statements are defined and have the effect of their statements on the values, however often arrays are
moved, converted and assigned again. -/
theorem C103_programs_partial (g : FCfg α) (hf : ∀ n, (g.fresh n).length = n) : ∀ (prog : List (MvStmt α)) (σ : List (MvVar α))
    (a : List (MvVal α)), MvWorld σ a → MvSafe g.force prog a →
    ∃ σ' a', mvRun g prog σ = .ok σ' ∧ MvSteps a prog a' ∧ MvWorld σ' a'
  | [], σ, a, h, _ => ⟨σ, a, rfl, rfl, h⟩
  | s :: r, σ, a, h, hp => by
    obtain ⟨σ1, a1, h1, h2, h3⟩ := C103_statement_partial g hf h s hp.1
    obtain ⟨σ', a', h4, h5, h6⟩ := C103_programs_partial g hf r σ1 a1 h3 (hp.2 a1 h2)
    exact ⟨σ', a', by simp only [mvRun, h1, h4], ⟨a1, h2, h5⟩, h6⟩

/-! ## What goes wrong -/

/-- Of an array that was moved from no element can be read, even if its shape says that there are some. -/
theorem C103_read_wrong {v : MvVar α} {w : MvVal α} (h : MvHolds v w) (hw : w.val = none) (i : List Int) :
    v.cont.elem? i = none := by
  unfold Cont.elem?
  rw [(h.gone hw).1]
  simp

/-- An `xarray` that was moved into a new one has no axes, so one element, and `size()` says so if the layout is dynamic, but it
has none. -/
theorem C103_size_wrong (v : MvVar α) (hv : v.rank = none) :
    v.leftByNew.cont.shape = [] ∧ numel v.leftByNew.cont.shape = 1 ∧
      (v.cont.L = .dynamic → v.leftByNew.cont.size = 1) ∧ v.leftByNew.cont.elem? [] = none := by
  unfold MvVar.leftByNew
  rw [hv]
  refine ⟨rfl, rfl, fun hL => ?_, ?_⟩
  · simp [Cont.size, hL, computeSize_eq, numel]
  · simp [Cont.elem?]

theorem exists_inBounds : ∀ (s : List Nat), numel s ≠ 0 → ∃ i, InBounds s i
  | [], _ => ⟨[], trivial⟩
  | x :: s, h => by
    rw [numel] at h
    have h1 := Nat.ne_zero_of_mul_ne_zero_left h
    have h2 := Nat.ne_zero_of_mul_ne_zero_right h
    obtain ⟨i, hi⟩ := exists_inBounds s h2
    exact ⟨0 :: i, Nat.pos_of_ne_zero h1, hi⟩

/-- Giving a moved-from array elements of the shape that it still has: the resize sees nothing to do and the elements are written
where there is no memory. -/
theorem C103_in_place_wrong (g : FCfg α) {σ : List (MvVar α)} {a : List (MvVal α)} (h : MvWorld σ a) {k : Nat} {x : MvVal α}
    (hk : a[k]? = some x) (hx : x.val = none) (hn : numel x.shape ≠ 0) :
    (MvStmt.resize k x.shape).run g σ = .ok σ ∧
    ∀ e : MvExpr α, MvReadable a e → e.shape (a.map (·.shape)) = x.shape →
      (MvStmt.noalias k e).run g σ = .ub ∧ (g.force = false → (MvStmt.assign k e false).run g σ = .ub) := by
  obtain ⟨v, h1, h2⟩ := h.get hk
  have hr : resizeF g true v.cont x.shape = .ok v.cont := by
    unfold resizeF Cont.resize
    rw [if_neg (by simp [h2.shape])]
  constructor
  · simp only [MvStmt.run, h1, hr]
    rw [if_pos (by rw [fitsRank_iff, h2.rank]; exact h2.fits)]
    have : σ.set k v = σ := by
      apply List.ext_getElem?
      intro i
      rw [List.getElem?_set]
      split
      · next e => subst e; split
                  · exact h1.symm
                  · next hn => rw [List.getElem?_eq_none (by omega)]
      · rfl
    show Out.ok (σ.set k v) = _
    rw [this]
  · intro e he hs
    obtain ⟨h3, f, -, h5⟩ := mvEval g.v0 h he
    have key : mvAssign g false σ k e = .ub := by
      unfold mvAssign
      simp only [h1, h3]
      rw [if_pos (by rw [fitsRank_iff, h.shapes, h2.rank, hs]; exact h2.fits)]
      have : v.assignE g false ⟨some (e.shape (a.map (·.shape))), e.elem σ⟩ = .ub := by
        unfold MvVar.assignE directF
        simp only [Bool.false_eq_true, if_false]
        rw [hs, hr]
        simp only [Out.next]
        have hw : assignDataF g v.cont (e.elem σ) = .ub := by
          unfold assignDataF
          apply writeUntil_past
          · intro q hq
            obtain ⟨i, hi, rfl⟩ := List.mem_map.1 hq
            have := h5 i (by rw [hs, ← h2.shape]; exact mem_loopOrder.1 hi)
            show e.elem σ i ≠ none
            rw [this]; simp
          · obtain ⟨i, hi⟩ := exists_inBounds _ hn
            refine ⟨_, List.mem_map.2 ⟨i, mem_loopOrder.2 (by rw [h2.shape]; exact hi), rfl⟩, ?_⟩
            rw [(h2.gone hx).1]; simp
        rw [hw]
      rw [this]
    exact ⟨key, fun hg => by simp only [MvStmt.run, hg, Bool.or_false]; exact key⟩

/-- So after `x = std::move(y)` the assignment of a value of the shape that `y` had to `y` is undefined. -/
theorem C103_move_then_assign_wrong (g : FCfg α) (hf : ∀ n, (g.fresh n).length = n) {σ : List (MvVar α)} {a : List (MvVal α)}
    (h : MvWorld σ a) {k j : Nat} (hkj : k ≠ j) (hs : MvAllowed g.force a (.move k j)) {v : MvVal α} (hj : a[j]? = some v)
    (hn : numel v.shape ≠ 0) (e : MvExpr α) (he : MvReadable ((a.set k v).set j v.gone) e)
    (hes : e.shape (((a.set k v).set j v.gone).map (·.shape)) = v.shape) :
    mvRun g [.move k j, .noalias j e] σ = .ub ∧ (g.force = false → mvRun g [.move k j, .assign j e false] σ = .ub) := by
  obtain ⟨σ1, a1, h1, ⟨w, h2, h3⟩, h4⟩ := C103_statement_partial g hf h _ hs
  have : w = v := by rw [hj] at h2; exact (Option.some.inj h2).symm
  subst this
  rw [if_neg hkj] at h3
  subst h3
  have hl : j < a.length := (List.getElem?_eq_some_iff.1 hj).1
  obtain ⟨-, h5⟩ := C103_in_place_wrong g h4 (k := j) (x := w.gone) (by rw [List.getElem?_set]; simp [hl]) rfl hn
  obtain ⟨h6, h7⟩ := h5 e he hes
  exact ⟨by simp only [mvRun, h1, h6], fun hg => by simp only [mvRun, h1, h7 hg]⟩

/-- And after `auto x = std::move(y)`: for an `xtensor` `y` the same, for an `xarray` the assignment of an expression without
axes. -/
theorem C103_new_then_assign_wrong (g : FCfg α) (hf : ∀ n, (g.fresh n).length = n) {σ : List (MvVar α)} {a : List (MvVal α)}
    (h : MvWorld σ a) {j : Nat} {v : MvVal α} (hj : a[j]? = some v) (hn : v.rank ≠ none → numel v.shape ≠ 0) (e : MvExpr α)
    (he : MvReadable (a.set j v.goneNew ++ [v]) e)
    (hes : e.shape ((a.set j v.goneNew ++ [v]).map (·.shape)) = if v.rank = none then [] else v.shape) :
    mvRun g [.moveNew j, .noalias j e] σ = .ub ∧ (g.force = false → mvRun g [.moveNew j, .assign j e false] σ = .ub) := by
  have hl : j < a.length := (List.getElem?_eq_some_iff.1 hj).1
  obtain ⟨σ1, a1, h1, ⟨w, h2, h3⟩, h4⟩ := C103_statement_partial g hf h (.moveNew j) hl
  have : w = v := by rw [hj] at h2; exact (Option.some.inj h2).symm
  subst this
  subst h3
  obtain ⟨-, h5⟩ := C103_in_place_wrong g h4 (k := j) (x := w.goneNew)
    (by rw [List.getElem?_append_left (by simpa using hl), List.getElem?_set]; simp [hl]) rfl (by
      unfold MvVal.goneNew
      by_cases hr : w.rank = none
      · simp [hr, numel]
      · simpa [hr] using hn hr)
  obtain ⟨h6, h7⟩ := h5 e he hes
  exact ⟨by simp only [mvRun, h1, h6], fun hg => by simp only [mvRun, h1, h7 hg]⟩

/-- An `xtensor` that is assigned from an `xarray` with more axes is written past its end; with fewer axes it keeps its last
extents, with the elements of the other, which are not as many. -/
theorem C103_rank_wrong (g : FCfg α) {σ : List (MvVar α)} {a : List (MvVal α)} (h : MvWorld σ a) {k j : Nat} {x y : MvVal α}
    {n : Nat} (hk : a[k]? = some x) (hj : a[j]? = some y) (hx : x.rank = some n) (hy : y.rank = none) :
    (n < y.shape.length → (MvStmt.conv k j).run g σ = .ub) ∧
    (y.shape.length < n → ∃ σ' v, (MvStmt.conv k j).run g σ = .ok σ' ∧ σ'[k]? = some v ∧
      v.cont.shape = y.shape ++ x.shape.drop y.shape.length ∧
      (y.val ≠ none → numel y.shape ≠ 0 → numel (x.shape.drop y.shape.length) ≠ 1 → ¬ Consistent v.cont)) := by
  obtain ⟨vx, h1, h2⟩ := h.get hk
  obtain ⟨vy, h3, h4⟩ := h.get hj
  have hr : vx.rank = some n := h2.rank.trans hx
  have hlx := h2.fits n hx
  obtain ⟨s1, s2⟩ := h2.strides_length
  obtain ⟨s3, s4⟩ := h4.strides_length
  constructor
  · intro hlt
    simp only [MvStmt.run, h1, h3, hr, MvVar.takesArray]
    rw [show overArray vx.cont.shape vy.cont.shape = none from if_neg (by rw [h2.shape, h4.shape]; omega)]
  · intro hlt
    have e1 : overArray vx.cont.shape vy.cont.shape = some (y.shape ++ x.shape.drop y.shape.length) := by
      unfold overArray; rw [h2.shape, h4.shape, if_pos (by omega)]
    have e2 : overArray vx.cont.strides vy.cont.strides = some _ := if_pos (by omega)
    have e3 : overArray vx.cont.backstr vy.cont.backstr = some _ := if_pos (by omega)
    have hkj : k ≠ j := by
      intro e; subst e; rw [hj] at hk; rw [Option.some.inj hk, hx] at hy; simp at hy
    have hlen : k < σ.length := (List.getElem?_eq_some_iff.1 h1).1
    obtain ⟨nv, hnv⟩ : ∃ nv : MvVar α, nv = ⟨vx.rank, ⟨vx.cont.L, vy.cont.layout, y.shape ++ x.shape.drop y.shape.length,
        vy.cont.strides ++ vx.cont.strides.drop vy.cont.strides.length,
        vy.cont.backstr ++ vx.cont.backstr.drop vy.cont.backstr.length, vy.cont.storage⟩⟩ := ⟨_, rfl⟩
    have e4 : vx.takesArray vy = some nv := by
      rw [hnv]; simp only [MvVar.takesArray, e1, e2, e3]
    refine ⟨(σ.set k nv).set j vy.leftByAssign, nv, by simp only [MvStmt.run, h1, h3, hr, e4], ?_, by rw [hnv], ?_⟩
    · rw [List.getElem?_set_ne (Ne.symm hkj), List.getElem?_set_self hlen]
    · intro hv hn hd hc
      have := hc.storage_size
      cases hw : y.val with
      | none => exact hv hw
      | some f =>
        have h5 := (h4.elems f hw).1.storage_size
        rw [h4.shape] at h5
        rw [hnv] at this
        change vy.cont.storage.length = numel (y.shape ++ x.shape.drop y.shape.length) at this
        rw [h5, numel_append] at this
        exact hd (Nat.eq_of_mul_eq_mul_left (Nat.pos_of_ne_zero hn) (by omega))

/-! ## The loop of an assignment in place -/

theorem mvRead_set {σ : List (MvVar α)} {k : Nat} (v : MvVar α) {r : Nat × List Nat} (h : r.1 ≠ k) :
    mvRead (σ.set k v) r = mvRead σ r := by
  unfold mvRead
  rw [List.getElem?_set_ne (fun h' => h h'.symm)]

theorem Spec.MvApart.elem {k : Nat} {e : MvExpr α} (h : MvApart k e) (σ : List (MvVar α)) (v : MvVar α) (i : List Nat) :
    e.elem (σ.set k v) i = e.elem σ i := by
  unfold MvExpr.elem
  rw [List.map_set, h.reads]
  have h1 : (e.reads (σ.map (·.cont.shape)) i).mapM (mvRead (σ.set k v)) =
      (e.reads (σ.map (·.cont.shape)) i).mapM (mvRead σ) := by
    have h2 := h.other (σ.map (·.cont.shape)) i
    generalize e.reads (σ.map (·.cont.shape)) i = l at h2
    induction l with
    | nil => rfl
    | cons r l ih =>
      rw [List.mapM_cons, List.mapM_cons, mvRead_set v (h2 r (by simp)), ih fun r hr => h2 r (by simp [hr])]
  rw [h1]
  congr 1
  funext xs
  exact h.value _ _ _ _

theorem liveLoop_eq {k : Nat} {e : MvExpr α} (h : MvApart k e) {σ : List (MvVar α)} (hk : k < σ.length) (st : List Int) :
    ∀ (l : List (List Nat)) (v : MvVar α), (∀ i ∈ l, e.elem σ i ≠ none) →
    liveLoop e k (l.map fun i => (dataOffset st false (toInts i), i)) (σ.set k v) =
      match writeUntil v.cont (l.map fun i => (dataOffset st false (toInts i), e.elem σ i)) with
      | .ok c => .ok (σ.set k { v with cont := c })
      | .throws c => .throws (σ.set k { v with cont := c })
      | .ub => .ub
  | [], v, _ => rfl
  | i :: l, v, hl => by
    obtain ⟨x, hx⟩ := Option.ne_none_iff_exists'.1 (hl i (by simp))
    have hg : (σ.set k v)[k]? = some v := by simp [hk]
    simp only [List.map_cons, liveLoop, writeUntil, hg, h.elem, hx]
    by_cases hp : 0 ≤ dataOffset st false (toInts i) ∧ (dataOffset st false (toInts i)).toNat < v.cont.storage.length
    · rw [if_pos hp, if_pos hp, List.set_set]
      exact liveLoop_eq h hk st l _ fun j hj => hl j (by simp [hj])
    · rw [if_neg hp, if_neg hp]

theorem resizeF_shape (g : FCfg α) {c c' : Cont α} {s : List Nat} (h : resizeF g true c s = .ok c') : c'.shape = s := by
  unfold resizeF Cont.resize at h
  by_cases hs : c.shape = s
  · rw [if_neg (by simp [hs])] at h
    cases h; exact hs
  · rw [if_pos (.inl hs)] at h
    simp only [Bool.true_or, if_true] at h
    cases h; rfl

/-- An assignment in place of an expression that has nothing to do with the destination does the same whether the expression is
evaluated before the loop or in it. -/
theorem liveAssign_eq (g : FCfg α) {σ : List (MvVar α)} {k : Nat} {e : MvExpr α} (h : MvApart k e) (he : e.eval σ ≠ none) :
    liveAssign g σ k e = mvAssign g false σ k e := by
  have hall : ∀ i, InBounds (e.shape (σ.map (·.cont.shape))) i → e.elem σ i ≠ none := by
    intro i hi
    unfold MvExpr.eval at he
    by_cases hc : (rowIndices (e.shape (σ.map (·.cont.shape)))).all (fun i => (e.elem σ i).isSome)
    · rw [List.all_eq_true] at hc
      have := hc i (mem_rowIndices.2 hi)
      intro h0; rw [h0] at this; simp at this
    · rw [if_neg hc] at he; exact absurd rfl he
  have hev : e.eval σ = some ⟨some (e.shape (σ.map (·.cont.shape))), e.elem σ⟩ := by
    unfold MvExpr.eval at he ⊢
    by_cases hc : (rowIndices (e.shape (σ.map (·.cont.shape)))).all (fun i => (e.elem σ i).isSome)
    · rw [if_pos hc]
    · rw [if_neg hc] at he; exact absurd rfl he
  unfold liveAssign mvAssign
  rw [hev]
  cases hk : σ[k]? with
  | none => rfl
  | some v =>
    have hkl : k < σ.length := (List.getElem?_eq_some_iff.1 hk).1
    simp only
    by_cases hr : fitsRank v.rank (e.shape (σ.map (·.cont.shape)))
    · rw [if_pos hr, if_pos hr]
      simp only [MvVar.assignE, Bool.false_eq_true, if_false, directF]
      cases hz : resizeF g true v.cont (e.shape (σ.map (·.cont.shape))) with
      | ub => rfl
      | throws c => rfl
      | ok c =>
        simp only [Out.next, assignDataF]
        rw [liveLoop_eq h hkl]
        · simp only
          cases writeUntil c ((loopOrder g c).map fun i => (dataOffset c.strides false (toInts i), e.elem σ i)) <;> rfl
        · intro i hi
          refine hall i ?_
          rw [← resizeF_shape g hz]
          exact mem_loopOrder.1 hi
    · rw [if_neg hr, if_neg hr]

/-- Programs of allowed statements have the same outcome when elements are computed in the loops of assignments in place, from
variables that are being written, provided that what is assigned in place has nothing to do with the destination.  So
`C103_programs_partial` holds for them too. -/
theorem C103_live (g : FCfg α) (hf : ∀ n, (g.fresh n).length = n) : ∀ (prog : List (MvStmt α)) (σ : List (MvVar α))
    (a : List (MvVal α)), MvWorld σ a → MvSafe g.force prog a → (∀ s ∈ prog, MvAparts g.force s) →
    mvRunLive g prog σ = mvRun g prog σ ∧ ∃ σ' a', mvRunLive g prog σ = .ok σ' ∧ MvSteps a prog a' ∧ MvWorld σ' a'
  | [], σ, a, h, _, _ => ⟨rfl, σ, a, rfl, rfl, h⟩
  | s :: r, σ, a, h, hp, hq => by
    obtain ⟨σ1, a1, h1, h2, h3⟩ := C103_statement_partial g hf h s hp.1
    have hs : s.runLive g σ = s.run g σ := by
      have hsa := hq s (by simp)
      have hal := hp.1
      cases s with
      | assign k e overlap =>
        obtain ⟨x, hx, hre, -⟩ := hal
        show (if (g.force || overlap) = true then mvAssign g true σ k e else liveAssign g σ k e) =
          mvAssign g (g.force || overlap) σ k e
        by_cases hfo : (g.force || overlap) = true
        · rw [if_pos hfo, hfo]
        · rw [if_neg hfo]
          simp only [Bool.not_eq_true] at hfo
          rw [hfo]
          have hap : MvApart k e := by
            rcases hsa with h | h | h
            · rw [h] at hfo; simp at hfo
            · rw [h] at hfo; simp at hfo
            · exact h
          exact liveAssign_eq g hap (by rw [(mvEval g.v0 h hre).1]; simp)
      | noalias k e =>
        obtain ⟨x, hx, hre, -⟩ := hal
        exact liveAssign_eq g hsa (by rw [(mvEval g.v0 h hre).1]; simp)
      | _ => rfl
    obtain ⟨h4, σ2, a2, h5, h6, h7⟩ := C103_live g hf r σ1 a1 h3 (hp.2 a1 h2) fun s hs => hq s (by simp [hs])
    simp only [mvRunLive, mvRun, hs, h1]
    exact ⟨h4, σ2, a2, h5, ⟨a1, h2, h6⟩, h7⟩

/-- `noalias` with an expression that reads the destination: `x = flip(x)` in place, for two elements.  The loop reads for the
second what it wrote for the first.  (So `MvAparts` is needed in `C103_live`.) -/
theorem C103_noalias_wrong (g : FCfg α) (x y : α) (L : Layout) :
    (MvStmt.noalias 0 ⟨fun ss => ss.getD 0 [], fun _ i => [(0, [1 - i.headD 0])], fun _ _ xs => xs.headD g.v0⟩).runLive g
        [⟨none, ⟨.row_major, L, [2], [1], [1], [x, y]⟩⟩] = .ok [⟨none, ⟨.row_major, L, [2], [1], [1], [y, y]⟩⟩] ∧
    (MvStmt.noalias 0 ⟨fun ss => ss.getD 0 [], fun _ i => [(0, [1 - i.headD 0])], fun _ _ xs => xs.headD g.v0⟩).run g
        [⟨none, ⟨.row_major, L, [2], [1], [1], [x, y]⟩⟩] = .ok [⟨none, ⟨.row_major, L, [2], [1], [1], [y, x]⟩⟩] := by
  constructor <;> rfl

/-! ## Examples -/

/-- A generator with the value `p` plus the last index. -/
def mvGen (s : List Nat) (p : Nat) : MvExpr Nat := ⟨fun _ => s, fun _ _ => [], fun _ i _ => p + i.getLastD 0⟩

/-- Twice the elements of variable `j`. -/
def mvTwice (j : Nat) : MvExpr Nat := ⟨fun ss => ss.getD j [], fun _ i => [(j, i)], fun _ _ xs => 2 * xs.headD 0⟩

/-- An `xtensor` and an `xarray`. -/
def mvTwo : List (MvVar Nat) :=
  [⟨some 1, ⟨.row_major, .row_major, [2], [1], [1], [5, 6]⟩⟩, ⟨none, ⟨.row_major, .row_major, [3], [1], [2], [7, 8, 9]⟩⟩]

def mvTwoV : List (MvVal Nat) :=
  [⟨some 1, .row_major, [2], some fun i => 5 + i.getLastD 0⟩, ⟨none, .row_major, [3], some fun i => 7 + i.getLastD 0⟩]

theorem mvTwo_world : MvWorld mvTwo mvTwoV := by
  refine .cons ⟨rfl, rfl, rfl, ?_, ?_, ?_⟩ (.cons ⟨rfl, rfl, rfl, ?_, ?_, ?_⟩ .nil)
  · intro n hn; simp at hn; subst hn; rfl
  · intro f hf
    simp only [Option.some.injEq] at hf
    subst hf
    refine ⟨Consistent.of_computed .row_major .row_major [2] [5, 6] rfl, fun i hi => ?_⟩
    have := mem_rowIndices.2 hi
    clear hi
    revert i; decide
  · simp
  · intro n hn; simp at hn
  · intro f hf
    simp only [Option.some.injEq] at hf
    subst hf
    refine ⟨Consistent.of_computed .row_major .row_major [3] [7, 8, 9] rfl, fun i hi => ?_⟩
    have := mem_rowIndices.2 hi
    clear hi
    revert i; decide
  · simp

/-- The `xarray` is moved into a new one, assigned twice the `xtensor`, converted into the `xtensor` and assigned again. -/
def mvProg : List (MvStmt Nat) := [.moveNew 1, .noalias 1 (mvTwice 0), .conv 0 1, .assign 1 (mvGen [3] 4) false]

example : MvSafe fEx.force mvProg mvTwoV := by
  refine ⟨show 1 < 2 by decide, ?_⟩
  rintro _ ⟨v, hv, rfl⟩
  simp only [mvTwoV, List.getElem?_cons_succ, List.getElem?_cons_zero, Option.some.injEq] at hv
  subst hv
  refine ⟨⟨_, rfl, ?_, ?_, ?_, ?_⟩, ?_⟩
  · intro i hi r hr
    simp only [mvTwice, List.mem_singleton] at hr
    subst hr
    exact ⟨_, _, rfl, rfl, hi⟩
  · intro n hn; simp [MvVal.goneNew] at hn
  · intro i r hr
    simp only [mvTwice, List.mem_singleton] at hr
    subst hr; exact Nat.zero_ne_one
  · right; left; decide
  rintro _ ⟨x, f, hx, -, rfl⟩
  simp [mvTwoV, MvVal.goneNew] at hx
  subst hx
  refine ⟨⟨_, _, rfl, rfl, by simp, rfl, ?_⟩, ?_⟩
  · intro n hn; simp at hn; subst hn; rfl
  rintro _ ⟨x, v, hx, hv, rfl⟩
  simp [mvTwoV] at hx hv
  subst hx; subst hv
  refine ⟨⟨_, rfl, ?_, ?_, .inr (.inr ⟨?_, ?_⟩)⟩, fun _ _ => trivial⟩
  · intro i hi r hr; simp [mvGen] at hr
  · intro n hn; simp [MvVal.gone] at hn
  · intro i r hr; simp [mvGen] at hr
  · right; left; show [2] ≠ [3]; decide

example : mvRun fEx mvProg mvTwo = .ok
    [⟨some 1, ⟨.row_major, .row_major, [2], [1], [1], [10, 12]⟩⟩, ⟨none, ⟨.row_major, .row_major, [3], [1], [2], [4, 5, 6]⟩⟩,
     ⟨none, ⟨.row_major, .row_major, [3], [1], [2], [7, 8, 9]⟩⟩] := by decide

/-- After a move the `xtensor` cannot be assigned a vector of two elements, but one of three. -/
example : mvRun fEx [.moveNew 0, .noalias 0 (mvGen [2] 1)] mvTwo = .ub ∧
    mvRun fEx [.moveNew 0, .noalias 0 (mvGen [3] 1)] mvTwo ≠ .ub ∧
    mvRun fEx [.moveNew 1, .assign 1 (mvGen [] 1) false] mvTwo = .ub ∧
    mvRun fEx [.moveNew 0, .assign 0 (mvGen [2] 1) true] mvTwo ≠ .ub := by decide

/-- The theorems about the moves apply to these variables. -/
example : mvRun fEx [.moveNew 0, .noalias 0 (mvGen [2] 1)] mvTwo = .ub :=
  (C103_new_then_assign_wrong fEx fEx_fresh mvTwo_world (j := 0) rfl (by decide) _
    (fun i hi r hr => by simp [mvGen] at hr) rfl).1

/-- A vector assigned from a matrix or from a number. -/
example : (MvStmt.conv 0 1).run fEx [⟨some 1, ⟨.row_major, .row_major, [2], [1], [1], [5, 6]⟩⟩,
    ⟨none, ⟨.row_major, .row_major, [1, 1], [0, 0], [0, 0], [3]⟩⟩] = .ub ∧
    (MvStmt.conv 0 1).run fEx [⟨some 1, ⟨.row_major, .row_major, [2], [1], [1], [5, 6]⟩⟩,
      ⟨none, ⟨.row_major, .row_major, [], [], [], [3]⟩⟩] = .ok [⟨some 1, ⟨.row_major, .row_major, [2], [1], [1], [3]⟩⟩,
        ⟨none, ⟨.row_major, .row_major, [], [], [], []⟩⟩] := by decide

/-- The program with its loops as they are: twice the `xtensor`, and new elements, have nothing to do with variable 1. -/
example : (∀ s ∈ mvProg, MvAparts fEx.force s) ∧ mvRunLive fEx mvProg mvTwo = .ok
    [⟨some 1, ⟨.row_major, .row_major, [2], [1], [1], [10, 12]⟩⟩, ⟨none, ⟨.row_major, .row_major, [3], [1], [2], [4, 5, 6]⟩⟩,
     ⟨none, ⟨.row_major, .row_major, [3], [1], [2], [7, 8, 9]⟩⟩] := by
  refine ⟨?_, by decide⟩
  intro s hs
  simp only [mvProg, List.mem_cons, List.not_mem_nil, or_false] at hs
  rcases hs with rfl | rfl | rfl | rfl
  · trivial
  · refine ⟨fun ss s => ?_, fun _ _ _ => rfl, fun _ _ _ _ => rfl, fun _ i r hr => ?_⟩
    · simp [mvTwice, List.getD_eq_getElem?_getD]
    · simp only [mvTwice, List.mem_singleton] at hr
      subst hr; exact Nat.zero_ne_one
  · trivial
  · exact .inr (.inr ⟨fun _ _ => rfl, fun _ _ _ => rfl, fun _ _ _ _ => rfl, fun _ i r hr => by simp [mvGen] at hr⟩)

end Xt
