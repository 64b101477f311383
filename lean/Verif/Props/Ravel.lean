import Verif.Model.Ravel
import Verif.Props.Assembly
import Verif.Props.Masked
import Verif.Props.Iterator
import Verif.Props.DynamicView
/-!
# Flat views: C87
-/

namespace Xt
open Spec

variable {α : Type}

/-! ## What flat views are expected to do -/

/-- An array as its user sees it: a shape and the element at each index. -/
structure Spec.Seen (α : Type) where
  shape : List Nat
  val : List Nat → Option α

/-- A container seen through `operator()`. -/
def Spec.Seen.of (c : Cont α) : Seen α := ⟨c.shape, fun (idx : List Nat) => c.elem? (toInts idx)⟩

/-- The `k`-th element in the order of `L`. -/
def Spec.Seen.nth (a : Seen α) (L : Layout) (k : Nat) : Option α := ((orderIndices L a.shape)[k]?).bind a.val

/-- The `k`-th element in the order of `L` replaced, all others kept. -/
def Spec.Seen.setNth (a : Seen α) (L : Layout) (k : Nat) (x : α) : Seen α :=
  { a with val := fun (idx : List Nat) => if (orderIndices L a.shape)[k]? = some idx then some x else a.val idx }

/-- The elements replaced by those of a list, in the order of `L`. -/
def Spec.Seen.setList (a : Seen α) (L : Layout) (l : List α) : Seen α :=
  { a with val := fun (idx : List Nat) => l[rankIn L a.shape idx]? }

/-- A flat view: the order, and the variable it shows or the array it owns. -/
inductive Spec.FlatOf (α : Type)
  | of (L : Layout) (x : Nat)
  | own (L : Layout) (a : Seen α)

/-- Variables and flat views. -/
structure Spec.FlatSp (α : Type) where
  vars : List (Seen α)
  flats : List (FlatOf α)

/-- The array shown. -/
def Spec.FlatSp.shown (s : FlatSp α) : FlatOf α → Option (Layout × Seen α)
  | .of L x => (s.vars[x]?).map fun (a : Seen α) => (L, a)
  | .own L a => some (L, a)

/-- The array shown by view `f` changed: in the variable, or in the view that owns it. -/
def Spec.FlatSp.change (s : FlatSp α) (f : Nat) (g : Layout → Seen α → Seen α) : FlatSp α :=
  match s.flats[f]? with
  | some (.of L x) => { s with vars := s.vars.modify x (g L) }
  | some (.own L a) => { s with flats := s.flats.set f (.own L (g L a)) }
  | none => s

/-- What each operation is expected to do; `none` where nothing is expected: no such variable or view, an index out of
bounds, an expression of another size. -/
def Spec.FlatSp.step (s : FlatSp α) : FlatOp α → Option (FlatSp α × Option α)
  | .ravel L x => if x < s.vars.length ∧ L ≠ .dynamic ∧ L ≠ .any then some ({ s with flats := s.flats ++ [.of L x] }, none) else none
  | .ravelTemp L c => if L ≠ .dynamic ∧ L ≠ .any then some ({ s with flats := s.flats ++ [.own L (.of c)] }, none) else none
  | .copy f => (s.flats[f]?).map fun (v : FlatOf α) => ({ s with flats := s.flats ++ [v] }, none)
  | .get f i => ((s.flats[f]?).bind s.shown).bind fun (p : Layout × Seen α) =>
      (p.2.nth p.1 i).map fun (x : α) => (s, some x)
  | .put f i x => ((s.flats[f]?).bind s.shown).bind fun (p : Layout × Seen α) =>
      if i < numel p.2.shape then some (s.change f fun (L : Layout) (a : Seen α) => a.setNth L i x, none) else none
  | .fill f x => ((s.flats[f]?).bind s.shown).map fun (p : Layout × Seen α) =>
      (s.change f fun (L : Layout) (a : Seen α) => a.setList L (List.replicate (numel p.2.shape) x), none)
  | .assign f _ vals => ((s.flats[f]?).bind s.shown).bind fun (p : Layout × Seen α) =>
      if vals.length = numel p.2.shape then some (s.change f fun (L : Layout) (a : Seen α) => a.setList L vals, none)
      else match vals with
        | [x] => some (s.change f fun (L : Layout) (a : Seen α) => a.setList L (List.replicate (numel p.2.shape) x), none)
        | _ => none
  | .getVar x idx => (s.vars[x]?).bind fun (a : Seen α) =>
      if InBounds a.shape idx then (a.val idx).map fun (v : α) => (s, some v) else none
  | .putVar x idx v => (s.vars[x]?).bind fun (a : Seen α) =>
      if InBounds a.shape idx then
        some ({ s with vars := s.vars.set x { a with val := fun (j : List Nat) => if j = idx then some v else a.val j } }, none)
      else none

/-- A program as expected: the values read. -/
def Spec.FlatSp.run (s : FlatSp α) : List (FlatOp α) → Option (FlatSp α × List (Option α))
  | [] => some (s, [])
  | op :: ops => (s.step op).bind fun (r : FlatSp α × Option α) =>
      (r.1.run ops).map fun (q : FlatSp α × List (Option α)) => (q.1, r.2 :: q.2)

/-- A container as constructed, resized and reshaped without strides of the user's: strides of its layout, which is
the static one if there is one; and fewer elements than the largest `size_t`. -/
structure Spec.Made (c : Cont α) : Prop where
  consistent : Consistent c
  typed : c.L = .row_major ∨ c.L = .column_major → c.layout = c.L
  small : numel c.shape < szMax

/-! ## Positions -/

theorem made_wf {c : Cont α} (h : Consistent c) (hn : 0 < numel c.shape) : c.arr.WF := by
  have hl := Consistent.strides_length h
  have hst : c.strides = (computeStrides c.L c.layout c.shape).1 := by
    rcases h.strides with hs | ⟨n, h1, h2⟩
    · exact (contiguousStrides_iff _ _ _ _).1 hs
    · cases n with
      | zero => simp only [List.replicate_zero] at h1 h2; rw [h1, h2]; simp [computeStrides, rowStrides, colStrides]
      | succ n => rw [h1] at hn; simp [List.replicate_succ] at hn
  refine ⟨hl, fun k hk => ?_, fun k => ?_⟩
  · have hk : c.shape.getD k 0 = 1 := hk
    show c.strides.getD k 0 = 0
    have hkl : k < c.shape.length := by
      by_contra hc
      rw [List.getD_eq_getElem?_getD, List.getElem?_eq_none (by omega)] at hk; simp at hk
    have hg : c.shape[k]? = some 1 := by
      rw [List.getD_eq_getElem?_getD, List.getElem?_eq_getElem hkl] at hk
      rw [List.getElem?_eq_getElem hkl, ← hk]; rfl
    rw [hst]
    by_cases hL : c.L = .row_major ∨ c.layout = .row_major
    · rw [List.getD_eq_getElem?_getD, C02_row_stride hL c.shape k 1 hg]; rfl
    · rw [List.getD_eq_getElem?_getD, C02_column_stride hL c.shape k 1 hg]; rfl
  · show c.backstr.getD k 0 = ((c.shape.getD k 0 : Nat) - 1 : Int) * c.strides.getD k 0
    rcases h.backstrides with ⟨n, h1, h2⟩ | hb
    · cases n with
      | zero =>
        simp only [List.replicate_zero] at h1 h2
        have : c.strides = [] := by rw [← List.length_eq_zero_iff, hl, h1]; rfl
        rw [h1, h2, this]; simp
      | succ n => rw [h1] at hn; simp [List.replicate_succ] at hn
    · rw [hb]
      simp only [List.getD_eq_getElem?_getD, List.getElem?_zipWith]
      by_cases hk : k < c.shape.length
      · rw [List.getElem?_eq_getElem hk, List.getElem?_eq_getElem (by omega)]
        simp [Int.mul_comm]
      · rw [List.getElem?_eq_none (by omega), List.getElem?_eq_none (by omega)]; simp

theorem flatPos_rank {L : Layout} (hL : L = .row_major ∨ L = .column_major) {c : Cont α} (h : Made c) {idx : List Nat}
    (hi : InBounds c.shape idx) : flatPos L c (rankIn L c.shape idx) = dataOffset c.strides false (toInts idx) := by
  have hn : 0 < numel c.shape := hi.numel_pos
  have hl := Consistent.strides_length h.1
  have hlen : (toInts idx).length = c.strides.length := by simp [hi.length_eq, hl]
  rw [dataOffset_eq _ _ hlen]
  unfold flatPos
  by_cases hc : c.L = L
  · rw [if_pos hc]
    have hst : c.strides = (computeStrides c.L c.layout c.shape).1 := by
      rcases h.1.strides with hs | ⟨n, h1, h2⟩
      · exact (contiguousStrides_iff _ _ _ _).1 hs
      · cases n with
        | zero => simp only [List.replicate_zero] at h1 h2; rw [h1, h2]; simp [computeStrides, rowStrides, colStrides]
        | succ n => rw [h1] at hn; simp [List.replicate_succ] at hn
    rw [hst]
    rcases hL with rfl | rfl
    · rw [dot_computeStrides_row (Or.inl hc) hi]; rfl
    · have hlay := h.2 (Or.inr hc)
      rw [dot_computeStrides_col (by rw [hlay, hc]; simp) hi]; rfl
  · rw [if_neg hc]
    have hwf := made_wf h.1 hn
    have hbc : BroadcastsTo c.arr.shape c.shape := ⟨le_refl _, fun k _ => Or.inr (by simp [Cont.arr])⟩
    have hb := iterAt_begin (L := L) (R := XAt c.arr) (E := fun _ => True) hn (XAt_begin (c := c.arr) (le_refl c.shape.length))
    have hF := xstepper_fwd hwf hbc
    have hlt := rankIn_lt (L := L) hi
    have ha := hb.add (n := rankIn L c.shape idx) hL hF (fun _ _ _ _ => trivial) (by omega)
    rw [Nat.zero_add] at ha
    obtain ⟨h1, h2, h3⟩ := ha.inner hlt
    have e := rankIn_inj h1 hi h2
    rw [e] at h3
    have hz : c.shape.length - c.arr.shape.length = 0 := by simp [Cont.arr]
    rw [hz] at h3
    unfold XAt at h3
    rw [h3]
    have : idx.length - c.arr.shape.length = 0 := by simp [Cont.arr, hi.length_eq]
    rw [this]
    simp [Cont.arr]

theorem flat_read {L : Layout} (hL : L = .row_major ∨ L = .column_major) {c : Cont α} (h : Made c) {k : Nat}
    {idx : List Nat} (hk : (orderIndices L c.shape)[k]? = some idx) :
    (if flatPos L c k < 0 then none else c.storage[(flatPos L c k).toNat]?) = c.elem? (toInts idx) := by
  obtain ⟨h1, h2⟩ := rankIn_orderIndices hk
  rw [← h2, flatPos_rank hL h h1]
  rfl

theorem flat_writes {L : Layout} (hL : L = .row_major ∨ L = .column_major) {c : Cont α} (h : Made c)
    (ws : List (Int × α)) (hw : ∀ w ∈ ws, 0 ≤ w.1 ∧ w.1 < numel c.shape) :
    ∃ b, writeAll c.storage (ws.map fun (w : Int × α) => (flatPos L c w.1, w.2)) = .ok b ∧
      Made { c with storage := b } ∧
      (∀ idx, InBounds c.shape idx → (∀ w ∈ ws, w.1 ≠ rankIn L c.shape idx) →
        Cont.elem? { c with storage := b } (toInts idx) = c.elem? (toInts idx)) ∧
      (∀ idx x, InBounds c.shape idx → (∃ w ∈ ws, w.1 = rankIn L c.shape idx) →
        (∀ w ∈ ws, w.1 = rankIn L c.shape idx → w.2 = x) →
        Cont.elem? { c with storage := b } (toInts idx) = some x) := by
  have had := Consistent.addressable h.1
  have hidx : ∀ w ∈ ws, ∃ idx, InBounds c.shape idx ∧ w.1 = (rankIn L c.shape idx : Int) := by
    intro w hm
    obtain ⟨h1, h2⟩ := hw w hm
    have hlt : w.1.toNat < (orderIndices L c.shape).length := by rw [length_orderIndices]; omega
    obtain ⟨k1, k2⟩ := rankIn_orderIndices (List.getElem?_eq_getElem hlt)
    exact ⟨_, k1, by rw [k2]; omega⟩
  obtain ⟨b, b1, b2, b3, b4⟩ := writeAll_spec (ws.map fun (w : Int × α) => (flatPos L c w.1, w.2)) c.storage (by
    intro w hm
    obtain ⟨w', hm', rfl⟩ := List.mem_map.1 hm
    obtain ⟨idx, hi, e⟩ := hidx w' hm'
    simp only [e, flatPos_rank hL h hi]
    exact had.inside idx hi)
  have key : ∀ idx, InBounds c.shape idx → ∀ w ∈ ws, (flatPos L c w.1 = dataOffset c.strides false (toInts idx) ↔
      w.1 = rankIn L c.shape idx) := by
    intro idx hi w hm
    obtain ⟨j, hj, e⟩ := hidx w hm
    rw [e, flatPos_rank hL h hj]
    constructor
    · intro hh; rw [had.injective j idx hj hi hh]
    · intro hh; rw [rankIn_inj hj hi (by exact_mod_cast hh)]
  refine ⟨b, b1, ⟨⟨by simp only; rw [b2]; exact h.1.storage_size, h.1.strides, h.1.backstrides⟩, h.2, h.3⟩, ?_, ?_⟩
  · intro idx hi hno
    have h1 := had.inside idx hi
    rw [elem?_of_offset _ _ (dataOffset c.strides false (toInts idx)).toNat (by simp only; omega),
      elem?_of_offset c _ (dataOffset c.strides false (toInts idx)).toNat (by omega)]
    apply b3
    intro w hm
    obtain ⟨w', hm', rfl⟩ := List.mem_map.1 hm
    simp only
    intro e
    exact hno w' hm' ((key idx hi w' hm').1 (by omega))
  · rintro idx x hi ⟨w, hm, e⟩ hx
    have h1 := had.inside idx hi
    rw [elem?_of_offset _ _ (dataOffset c.strides false (toInts idx)).toNat (by simp only; omega)]
    apply b4
    · refine ⟨_, List.mem_map.2 ⟨w, hm, rfl⟩, ?_⟩
      simp only [(key idx hi w hm).2 e]; omega
    · intro v hv e'
      obtain ⟨w', hm', rfl⟩ := List.mem_map.1 hv
      exact hx w' hm' ((key idx hi w' hm').1 (by simp only at e'; omega))

/-! ## Refinement -/

/-- Two lists of one length, related place by place. -/
def RelL {β γ : Type} (P : β → γ → Prop) (l : List β) (k : List γ) : Prop :=
  l.length = k.length ∧ ∀ (i : Nat) (b : β) (c : γ), l[i]? = some b → k[i]? = some c → P b c

theorem RelL.get {β γ : Type} {P : β → γ → Prop} {l : List β} {k : List γ} (h : RelL P l k) {i : Nat} {c : γ}
    (hc : k[i]? = some c) : ∃ b, l[i]? = some b ∧ P b c := by
  have hi : i < k.length := (List.getElem?_eq_some_iff.1 hc).1
  have hl : l[i]? = some (l[i]'(by rw [h.1]; exact hi)) := List.getElem?_eq_getElem _
  exact ⟨_, hl, h.2 i _ _ hl hc⟩

theorem RelL.set {β γ : Type} {P : β → γ → Prop} {l : List β} {k : List γ} (h : RelL P l k) (i : Nat) {b : β} {c : γ}
    (hb : P b c) : RelL P (l.set i b) (k.set i c) := by
  refine ⟨by simp [h.1], fun j b' c' h1 h2 => ?_⟩
  simp only [List.getElem?_set] at h1 h2
  by_cases e : i = j
  · subst e
    by_cases hi : i < k.length
    · rw [if_pos rfl, if_pos (by rw [h.1]; exact hi)] at h1
      rw [if_pos rfl, if_pos hi] at h2
      cases h1; cases h2; exact hb
    · rw [if_pos rfl, if_neg hi] at h2; cases h2
  · rw [if_neg e] at h1 h2
    exact h.2 j b' c' h1 h2

theorem RelL.push {β γ : Type} {P : β → γ → Prop} {l : List β} {k : List γ} (h : RelL P l k) {b : β} {c : γ}
    (hb : P b c) : RelL P (l ++ [b]) (k ++ [c]) := by
  refine ⟨by simp [h.1], fun j b' c' h1 h2 => ?_⟩
  by_cases e : j < k.length
  · rw [List.getElem?_append_left (by rw [h.1]; exact e)] at h1
    rw [List.getElem?_append_left e] at h2
    exact h.2 j b' c' h1 h2
  · rw [List.getElem?_append_right (by have := h.1; omega)] at h1
    rw [List.getElem?_append_right (by omega)] at h2
    rw [h.1] at h1
    cases hj : j - k.length with
    | zero => rw [hj] at h1 h2; simp at h1 h2; subst h1; subst h2; exact hb
    | succ n => rw [hj] at h2; simp at h2

theorem RelL.mono {β γ : Type} {P Q : β → γ → Prop} {l : List β} {k : List γ} (h : RelL P l k)
    (hPQ : ∀ b c, P b c → Q b c) : RelL Q l k := ⟨h.1, fun i b c h1 h2 => hPQ b c (h.2 i b c h1 h2)⟩

/-- A container holds what is seen. -/
def ContHolds (c : Cont α) (a : Seen α) : Prop :=
  Made c ∧ a.shape = c.shape ∧ ∀ idx, InBounds c.shape idx → c.elem? (toInts idx) = a.val idx

/-- The members of a flat view of `n` elements. -/
def FlatMembers (v : FlatV α) (L : Layout) (n : Nat) : Prop :=
  v.L = L ∧ (L = .row_major ∨ L = .column_major) ∧ v.count = n ∧ v.shape = [n] ∧
    ∀ i : Nat, i < n → dataOffset v.strides false [(i : Int)] = i

/-- A flat view shows what is expected. -/
def FlatShows (vars : List (Seen α)) (v : FlatV α) : FlatOf α → Prop
  | .of L x => v.src = .ref x ∧ ∃ a, vars[x]? = some a ∧ FlatMembers v L (numel a.shape)
  | .own L a => ∃ c, v.src = .own c ∧ ContHolds c a ∧ FlatMembers v L (numel a.shape)

/-- Variables and views are as expected. -/
def FlatRel (m : FlatSt α) (s : FlatSp α) : Prop :=
  RelL ContHolds m.vars s.vars ∧ RelL (FlatShows s.vars) m.flats s.flats

theorem ravelView_ok (d : Layout) {L : Layout} (hL : L = .row_major ∨ L = .column_major) (src : FlatSrc α) {c : Cont α}
    (h : Made c) : ∃ v, ravelView d L src c = .ok v ∧ v.src = src ∧ FlatMembers v L (numel c.shape) := by
  have hs := Consistent.size_eq h.1
  have hz : ∀ a b : Layout, (computeStrides a b [c.size]).2.toNat = c.size := by
    intro a b
    rw [(C01_bijection a b [c.size]).1]; simp
  refine ⟨_, by rw [ravelView]; rw [if_neg (by rw [hz]; simp)], rfl, rfl, hL, hs, by rw [hs], fun i hi => ?_⟩
  have hb : InBounds [c.size] [i] := ⟨by rw [hs]; exact hi, trivial⟩
  have hr : rowRank [c.size] [i] = i := by simp [rowRank]
  have hcr : colRank [c.size] [i] = i := by simp [colRank]
  show dataOffset (computeStrides _ _ [c.size]).1 false (toInts [i]) = i
  rw [dataOffset_eq _ _ (by simp)]
  generalize (if c.L = L then L else Layout.dynamic) = vl
  generalize (if vl = Layout.dynamic then d else vl) = l
  by_cases hrow : vl = .row_major ∨ l = .row_major
  · rw [dot_computeStrides_row hrow hb, hr]
  · rw [dot_computeStrides_col hrow hb, hcr]

theorem FlatRel.shown {m : FlatSt α} {s : FlatSp α} (h : FlatRel m s) {f : Nat} {w : FlatOf α} {L : Layout} {a : Seen α}
    (hf : s.flats[f]? = some w) (hw : s.shown w = some (L, a)) :
    ∃ v c, m.flats[f]? = some v ∧ m.cont v.src = some c ∧ ContHolds c a ∧ FlatMembers v L (numel a.shape) := by
  obtain ⟨v, hv, hs⟩ := h.2.get hf
  cases w with
  | of L' x =>
    obtain ⟨h1, a', h2, h3⟩ := hs
    simp only [FlatSp.shown, h2, Option.map_some, Option.some.injEq, Prod.mk.injEq] at hw
    obtain ⟨rfl, rfl⟩ := hw
    obtain ⟨c, hc, hh⟩ := h.1.get h2
    exact ⟨v, c, hv, by rw [h1]; exact hc, hh, h3⟩
  | own L' a' =>
    obtain ⟨c, h1, h2, h3⟩ := hs
    simp only [FlatSp.shown, Option.some.injEq, Prod.mk.injEq] at hw
    obtain ⟨rfl, rfl⟩ := hw
    exact ⟨v, c, hv, by rw [h1]; rfl, h2, h3⟩

theorem flatShows_vars {vars : List (Seen α)} {x : Nat} {a b : Seen α} (ha : vars[x]? = some a) (hs : b.shape = a.shape)
    (v : FlatV α) (w : FlatOf α) (h : FlatShows vars v w) : FlatShows (vars.set x b) v w := by
  cases w with
  | own L a' => exact h
  | of L y =>
    obtain ⟨h1, a', h2, h3⟩ := h
    by_cases e : x = y
    · subst e
      rw [ha] at h2; cases h2
      refine ⟨h1, b, ?_, by rw [hs]; exact h3⟩
      rw [List.getElem?_set, if_pos rfl, if_pos (List.getElem?_eq_some_iff.1 ha).1]
    · exact ⟨h1, a', by rw [List.getElem?_set, if_neg e]; exact h2, h3⟩

theorem modify_eq_set {β : Type} {l : List β} {i : Nat} {b : β} (h : l[i]? = some b) (g : β → β) :
    l.modify i g = l.set i (g b) := by
  apply List.ext_getElem?
  intro j
  rw [List.getElem?_modify, List.getElem?_set]
  by_cases e : i = j
  · subst e; rw [if_pos rfl, if_pos (List.getElem?_eq_some_iff.1 h).1, h]; simp
  · rw [if_neg e]; cases l[j]? <;> simp [e]

/-- Writing through a view changes the array it shows as the written values say. -/
theorem write_rel {m : FlatSt α} {s : FlatSp α} (h : FlatRel m s) {f : Nat} {w : FlatOf α} {L : Layout} {a : Seen α}
    (hf : s.flats[f]? = some w) (hw : s.shown w = some (L, a)) (ws : FlatV α → List (Int × α))
    (g : Layout → Seen α → Seen α) (hg : (g L a).shape = a.shape)
    (hin : ∀ v, FlatMembers v L (numel a.shape) → ∀ p ∈ ws v, 0 ≤ p.1 ∧ p.1 < numel a.shape)
    (hkeep : ∀ v, FlatMembers v L (numel a.shape) → ∀ idx, InBounds a.shape idx →
      (∀ p ∈ ws v, p.1 ≠ rankIn L a.shape idx) → (g L a).val idx = a.val idx)
    (hnew : ∀ v, FlatMembers v L (numel a.shape) → ∀ idx, InBounds a.shape idx →
      (∃ p ∈ ws v, p.1 = rankIn L a.shape idx) → ∃ x, (g L a).val idx = some x ∧
        ∀ p ∈ ws v, p.1 = rankIn L a.shape idx → p.2 = x) :
    ∃ m', m.write f ws = .ok m' ∧ FlatRel m' (s.change f g) := by
  obtain ⟨v, c, hv, hc, hh, hm⟩ := h.shown hf hw
  obtain ⟨k1, k2, k3⟩ := hh
  have hLL := hm.2.1
  obtain ⟨b, b1, b2, b3, b4⟩ := flat_writes hLL k1 (ws v) (by rw [← k2]; exact hin v hm)
  have hold : ContHolds { c with storage := b } (g L a) := by
    refine ⟨b2, by rw [hg]; exact k2, fun idx hi => ?_⟩
    have hi' : InBounds c.shape idx := hi
    by_cases hex : ∃ p ∈ ws v, p.1 = (rankIn L c.shape idx : Int)
    · obtain ⟨x, x1, x2⟩ := hnew v hm idx (by rw [k2]; exact hi') (by rw [k2]; exact hex)
      rw [x1]; exact b4 idx x hi' hex (by rw [← k2]; exact x2)
    · have hno : ∀ p ∈ ws v, p.1 ≠ (rankIn L c.shape idx : Int) := fun p hp e => hex ⟨p, hp, e⟩
      rw [b3 idx hi' hno, k3 idx hi']
      exact (hkeep v hm idx (by rw [k2]; exact hi') (by rw [k2]; exact hno)).symm
  refine ⟨m.setCont f v { c with storage := b }, ?_, ?_⟩
  · simp only [FlatSt.write, hv, hc, orUb, Res.bind_ok, hm.1, b1]; rfl
  · cases w with
    | of L' x =>
      simp only [FlatSp.shown] at hw
      cases hx : s.vars[x]? with
      | none => rw [hx] at hw; simp at hw
      | some a' =>
        rw [hx] at hw
        simp only [Option.map_some, Option.some.injEq, Prod.mk.injEq] at hw
        obtain ⟨rfl, rfl⟩ := hw
        obtain ⟨v', hv', hs'⟩ := h.2.get hf
        rw [hv] at hv'; cases hv'
        simp only [FlatSp.change, hf, FlatSt.setCont, hs'.1, modify_eq_set hx]
        exact ⟨h.1.set x hold, h.2.mono fun b c hbc => flatShows_vars hx hg b c hbc⟩
    | own L' a' =>
      simp only [FlatSp.shown, Option.some.injEq, Prod.mk.injEq] at hw
      obtain ⟨rfl, rfl⟩ := hw
      obtain ⟨v', hv', c', hs', -⟩ := h.2.get hf
      rw [hv] at hv'; cases hv'
      simp only [FlatSp.change, hf, FlatSt.setCont, hs']
      exact ⟨h.1, h.2.set f ⟨_, rfl, hold, by rw [hg]; exact hm⟩⟩

theorem mem_zipIdx_map {l : List α} {p : Int × α} (h : p ∈ (l.zipIdx).map fun (q : α × Nat) => ((q.2 : Int), q.1)) :
    ∃ k : Nat, l[k]? = some p.2 ∧ p.1 = (k : Int) := by
  obtain ⟨⟨x, k⟩, h1, rfl⟩ := List.mem_map.1 h
  rw [List.mem_zipIdx_iff_getElem?] at h1
  exact ⟨k, h1, rfl⟩

/-- Writing a list through a view from its beginning. -/
theorem write_list {m : FlatSt α} {s : FlatSp α} (h : FlatRel m s) {f : Nat} {w : FlatOf α} {L : Layout} {a : Seen α}
    (hf : s.flats[f]? = some w) (hw : s.shown w = some (L, a)) (l : List α) (hl : l.length = numel a.shape) :
    ∃ m', (m.write f fun _ => (l.zipIdx).map fun (q : α × Nat) => ((q.2 : Int), q.1)) = .ok m' ∧
      FlatRel m' (s.change f fun (L : Layout) (a : Seen α) => a.setList L l) := by
  refine write_rel h hf hw _ _ rfl ?_ ?_ ?_
  · intro v _ p hp
    obtain ⟨k, h1, h2⟩ := mem_zipIdx_map hp
    have := (List.getElem?_eq_some_iff.1 h1).1
    omega
  · intro v _ idx hi hno
    have hlt := rankIn_lt (L := L) hi
    have hg : l[rankIn L a.shape idx]? = some (l[rankIn L a.shape idx]'(by omega)) := List.getElem?_eq_getElem _
    refine absurd rfl (hno ((rankIn L a.shape idx : Int), l[rankIn L a.shape idx]'(by omega)) ?_)
    exact List.mem_map.2 ⟨(_, rankIn L a.shape idx), List.mem_zipIdx_iff_getElem?.2 hg, rfl⟩
  · intro v _ idx hi _
    have hlt := rankIn_lt (L := L) hi
    have hg : l[rankIn L a.shape idx]? = some (l[rankIn L a.shape idx]'(by omega)) := List.getElem?_eq_getElem _
    refine ⟨_, hg, fun p hp e => ?_⟩
    obtain ⟨k, h1, h2⟩ := mem_zipIdx_map hp
    have : k = rankIn L a.shape idx := by omega
    subst this
    rw [hg] at h1; exact (Option.some.inj h1).symm

theorem fill_eq (x : α) (n : Nat) : ((List.range n).map fun (k : Nat) => ((k : Int), x)) =
    ((List.replicate n x).zipIdx).map fun (q : α × Nat) => ((q.2 : Int), q.1) := by
  apply List.ext_getElem?
  intro k
  simp only [List.getElem?_map, List.getElem?_zipIdx, List.getElem?_replicate, Nat.zero_add]
  by_cases hk : k < n
  · rw [List.getElem?_range hk, if_pos hk]; rfl
  · rw [List.getElem?_eq_none (by simpa using hk), if_neg hk]; rfl

theorem bcValues_one (x : α) (n : Nat) : bcValues [x] n = List.replicate n x := by
  simp only [bcValues, List.length_singleton, if_true]
  induction n with
  | zero => rfl
  | succ n ih => simp only [List.replicate_succ, List.flatten_cons, ih]; rfl

theorem flatRhs_one (x : α) (n : Nat) (hn : n < szMax) : flatRhs [n] [x] = .ok (List.replicate n x) := by
  unfold flatRhs
  by_cases h : n = 1
  · subst h; simp
  · have : [[x].length] ≠ [n] := by simp; omega
    rw [if_neg this]
    have hb : broadcastShape [[x].length] [n] = some ([n], false) := by
      simp [broadcastShape, bcLoop, h, show n ≠ szMax by omega]
    rw [hb]
    simp only [computeSize_eq, bcValues_one]
    simp

theorem flat_step (d : Layout) {m : FlatSt α} {s s' : FlatSp α} (h : FlatRel m s) (op : FlatOp α) (o : Option α)
    (hop : ∀ L c, op = .ravelTemp L c → Made c) (hs : s.step op = some (s', o)) :
    ∃ m', m.step d op = .ok (m', o) ∧ FlatRel m' s' := by
  have layouts : ∀ L : Layout, L ≠ .dynamic ∧ L ≠ .any → L = .row_major ∨ L = .column_major := by
    intro L; cases L <;> simp
  cases op with
  | ravel L x =>
    simp only [FlatSp.step] at hs
    split at hs
    case isFalse => cases hs
    case isTrue hc =>
    cases hs
    obtain ⟨a, ha⟩ : ∃ a, s.vars[x]? = some a := ⟨_, List.getElem?_eq_getElem hc.1⟩
    obtain ⟨c, hc', hh⟩ := h.1.get ha
    obtain ⟨v, v1, v2, v3⟩ := ravelView_ok d (layouts L hc.2) (.ref x) hh.1
    have hsh : FlatShows s.vars v (.of L x) := ⟨v2, a, ha, by rw [hh.2.1]; exact v3⟩
    exact ⟨{ m with flats := m.flats ++ [v] }, by simp only [FlatSt.step, hc', orUb, Res.bind_ok, v1]; rfl, h.1,
      h.2.push hsh⟩
  | ravelTemp L c =>
    simp only [FlatSp.step] at hs
    split at hs
    case isFalse => cases hs
    case isTrue hc =>
    cases hs
    have hm := hop L c rfl
    obtain ⟨v, v1, v2, v3⟩ := ravelView_ok d (layouts L hc) (.own c) hm
    have hsh : FlatShows s.vars v (.own L (.of c)) := ⟨c, v2, ⟨hm, rfl, fun _ _ => rfl⟩, v3⟩
    exact ⟨{ m with flats := m.flats ++ [v] }, by simp only [FlatSt.step, v1]; rfl, h.1, h.2.push hsh⟩
  | copy f =>
    simp only [FlatSp.step] at hs
    cases hf : s.flats[f]? with
    | none => rw [hf] at hs; simp at hs
    | some w =>
      rw [hf] at hs
      simp only [Option.map_some, Option.some.injEq, Prod.mk.injEq] at hs
      obtain ⟨rfl, rfl⟩ := hs
      obtain ⟨v, hv, hw⟩ := h.2.get hf
      exact ⟨{ m with flats := m.flats ++ [v] }, by simp only [FlatSt.step, hv, orUb]; rfl, h.1, h.2.push hw⟩
  | get f i =>
    simp only [FlatSp.step] at hs
    cases hf : s.flats[f]? with
    | none => rw [hf] at hs; simp at hs
    | some w =>
      rw [hf, Option.bind_some] at hs
      cases hw : s.shown w with
      | none => rw [hw] at hs; simp at hs
      | some p =>
        obtain ⟨L, a⟩ := p
        rw [hw, Option.bind_some] at hs
        simp only [Option.map_eq_some_iff, Prod.mk.injEq] at hs
        obtain ⟨x, hx, rfl, rfl⟩ := hs
        obtain ⟨v, c, hv, hc, ⟨k1, k2, k3⟩, hm⟩ := h.shown hf hw
        simp only [Seen.nth, Option.bind_eq_some_iff] at hx
        obtain ⟨idx, hi, hx⟩ := hx
        have hlt : i < numel a.shape := by
          have := (List.getElem?_eq_some_iff.1 hi).1; rwa [length_orderIndices] at this
        have hin := (rankIn_orderIndices hi).1
        have hr := flat_read hm.2.1 k1 (k := i) (idx := idx) (by rw [← k2]; exact hi)
        refine ⟨m, ?_, h⟩
        have e : m.get f (i : Int) = .ok x := by
          simp only [FlatSt.get, hv, Option.bind_some, hc, hm.1, hm.2.2.2.2 i hlt]
          rw [hr, k3 idx (by rw [← k2]; exact hin), hx]; rfl
        simp only [FlatSt.step, e]; rfl
  | put f i x =>
    simp only [FlatSp.step] at hs
    cases hf : s.flats[f]? with
    | none => rw [hf] at hs; simp at hs
    | some w =>
      rw [hf, Option.bind_some] at hs
      cases hw : s.shown w with
      | none => rw [hw] at hs; simp at hs
      | some p =>
        obtain ⟨L, a⟩ := p
        rw [hw, Option.bind_some] at hs
        by_cases hlt : i < numel a.shape
        swap
        · simp only [hlt, if_false] at hs; cases hs
        simp only [hlt, if_true, Option.some.injEq, Prod.mk.injEq] at hs
        obtain ⟨rfl, rfl⟩ := hs
        have hoi : i < (orderIndices L a.shape).length := by rw [length_orderIndices]; exact hlt
        obtain ⟨m', h1, h2⟩ := write_rel h hf hw (fun (v : FlatV α) => [(dataOffset v.strides false [(i : Int)], x)])
          (fun (L : Layout) (a : Seen α) => a.setNth L i x) rfl
          (by
            intro v hv p hp
            simp only [List.mem_singleton] at hp
            subst hp
            simp only [hv.2.2.2.2 i hlt]; omega)
          (by
            intro v hv idx hi hno
            simp only [List.mem_singleton, forall_eq, hv.2.2.2.2 i hlt] at hno
            simp only [Seen.setNth]
            rw [if_neg]
            intro e
            have := (rankIn_orderIndices e).2
            omega)
          (by
            rintro v hv idx hi ⟨p, hp, e⟩
            simp only [List.mem_singleton] at hp
            subst hp
            simp only [hv.2.2.2.2 i hlt] at e
            refine ⟨x, ?_, fun p hp _ => by simp only [List.mem_singleton] at hp; rw [hp]⟩
            simp only [Seen.setNth]
            have hg := List.getElem?_eq_getElem hoi
            obtain ⟨g1, g2⟩ := rankIn_orderIndices hg
            rw [hg, rankIn_inj (L := L) g1 hi (by omega), if_pos rfl])
        exact ⟨m', by simp only [FlatSt.step, FlatSt.put, h1]; rfl, h2⟩
  | fill f x =>
    simp only [FlatSp.step] at hs
    cases hf : s.flats[f]? with
    | none => rw [hf] at hs; simp at hs
    | some w =>
      rw [hf, Option.bind_some] at hs
      cases hw : s.shown w with
      | none => rw [hw] at hs; simp at hs
      | some p =>
        obtain ⟨L, a⟩ := p
        rw [hw] at hs
        simp only [Option.map_some, Option.some.injEq, Prod.mk.injEq] at hs
        obtain ⟨rfl, rfl⟩ := hs
        obtain ⟨m', h1, h2⟩ := write_list h hf hw (List.replicate (numel a.shape) x) (by simp)
        obtain ⟨v, c, hv, hc, -, hm⟩ := h.shown hf hw
        refine ⟨m', ?_, h2⟩
        have e : m.fill f x = .ok m' := by
          rw [← h1]
          simp only [FlatSt.fill, FlatSt.write, hv, orUb, Res.bind_ok, hm.2.2.1, fill_eq]
        simp only [FlatSt.step, e]; rfl
  | assign f ov vals =>
    simp only [FlatSp.step] at hs
    cases hf : s.flats[f]? with
    | none => rw [hf] at hs; simp at hs
    | some w =>
      rw [hf, Option.bind_some] at hs
      cases hw : s.shown w with
      | none => rw [hw] at hs; simp at hs
      | some p =>
        obtain ⟨L, a⟩ := p
        rw [hw, Option.bind_some] at hs
        obtain ⟨v, c, hv, hc, hh, hm⟩ := h.shown hf hw
        by_cases hlen : vals.length = numel a.shape
        · simp only [hlen, if_true, Option.some.injEq, Prod.mk.injEq] at hs
          obtain ⟨rfl, rfl⟩ := hs
          obtain ⟨m', h1, h2⟩ := write_list h hf hw vals hlen
          refine ⟨m', ?_, h2⟩
          have e : flatRhs v.shape vals = .ok vals := by
            rw [flatRhs, if_pos (by rw [hm.2.2.2.1, hlen])]
          have hb : broadcastable [vals.length] v.shape = true := by
            rw [hm.2.2.2.1, hlen]; simp [broadcastable, broadcastableLoop]
          simp only [FlatSt.step, FlatSt.assign, hv, orUb, Res.bind_ok, e, hb, h1]; simp
        · simp only [hlen, if_false] at hs
          match vals, hlen, hs with
          | [x], _, hs =>
            simp only [Option.some.injEq, Prod.mk.injEq] at hs
            obtain ⟨rfl, rfl⟩ := hs
            obtain ⟨m', h1, h2⟩ := write_list h hf hw (List.replicate (numel a.shape) x) (by simp)
            refine ⟨m', ?_, h2⟩
            have e : flatRhs v.shape [x] = .ok (List.replicate (numel a.shape) x) := by
              rw [hm.2.2.2.1]; exact flatRhs_one x _ (by rw [hh.2.1]; exact hh.1.small)
            have hb : broadcastable [(List.replicate (numel a.shape) x).length] v.shape = true := by
              rw [hm.2.2.2.1]; simp [broadcastable, broadcastableLoop]
            simp only [FlatSt.step, FlatSt.assign, hv, orUb, Res.bind_ok, e, hb, h1]; simp
          | [], _, hs => cases hs
          | _ :: _ :: _, _, hs => cases hs
  | getVar x idx =>
    simp only [FlatSp.step] at hs
    cases hx : s.vars[x]? with
    | none => rw [hx] at hs; simp at hs
    | some a =>
      rw [hx, Option.bind_some] at hs
      by_cases hi : InBounds a.shape idx
      swap
      · simp only [hi, if_false] at hs; cases hs
      simp only [hi, if_true, Option.map_eq_some_iff, Prod.mk.injEq] at hs
      obtain ⟨y, hy, rfl, rfl⟩ := hs
      obtain ⟨c, hc, k1, k2, k3⟩ := h.1.get hx
      refine ⟨m, ?_, h⟩
      simp only [FlatSt.step, hc, Option.bind_some, k3 idx (by rw [← k2]; exact hi), hy, orUb]; rfl
  | putVar x idx y =>
    simp only [FlatSp.step] at hs
    cases hx : s.vars[x]? with
    | none => rw [hx] at hs; simp at hs
    | some a =>
      rw [hx, Option.bind_some] at hs
      by_cases hi : InBounds a.shape idx
      swap
      · simp only [hi, if_false] at hs; cases hs
      simp only [hi, if_true, Option.some.injEq, Prod.mk.injEq] at hs
      obtain ⟨rfl, rfl⟩ := hs
      obtain ⟨c, hc, k1, k2, k3⟩ := h.1.get hx
      obtain ⟨b, b1, b2, b3⟩ := put_spec c (Consistent.addressable k1.1) idx (by rw [← k2]; exact hi) y
      refine ⟨{ m with vars := m.vars.set x { c with storage := b } },
        by simp only [FlatSt.step, hc, orUb, Res.bind_ok, b1]; rfl, ?_, ?_⟩
      · refine h.1.set x ⟨⟨⟨by simp only; rw [b2]; exact k1.1.storage_size, k1.1.strides, k1.1.backstrides⟩, k1.2, k1.3⟩,
          k2, fun j hj => ?_⟩
        rw [b3 j hj, k3 j hj]
      · exact h.2.mono fun b c hbc => flatShows_vars
          (b := ⟨a.shape, fun (j : List Nat) => if j = idx then some y else a.val j⟩) hx rfl b c hbc

theorem flat_run (d : Layout) : ∀ (ops : List (FlatOp α)) {m : FlatSt α} {s s' : FlatSp α} (outs : List (Option α)),
    FlatRel m s → (∀ L c, FlatOp.ravelTemp L c ∈ ops → Made c) → s.run ops = some (s', outs) →
    ∃ m', m.run d ops = .ok (m', outs) ∧ FlatRel m' s' := by
  intro ops
  induction ops with
  | nil =>
    intro m s s' outs h _ hr
    simp only [FlatSp.run, Option.some.injEq, Prod.mk.injEq] at hr
    obtain ⟨rfl, rfl⟩ := hr
    exact ⟨m, rfl, h⟩
  | cons op ops ih =>
    intro m s s' outs h ht hr
    simp only [FlatSp.run, Option.bind_eq_some_iff, Option.map_eq_some_iff, Prod.mk.injEq] at hr
    obtain ⟨⟨s1, o⟩, h1, ⟨s2, os⟩, h2, rfl, rfl⟩ := hr
    obtain ⟨m1, k1, k2⟩ := flat_step d h op o (fun L c e => ht L c (by simp [e])) h1
    obtain ⟨m2, k3, k4⟩ := ih os k2 (fun L c e => ht L c (List.mem_cons_of_mem _ e)) h2
    refine ⟨m2, ?_, k4⟩
    simp only [FlatSt.run, k1, Res.bind_ok, k3]; rfl

theorem flatRel_start (vars : List (Cont α)) (h : ∀ c ∈ vars, Made c) : FlatRel ⟨vars, []⟩ ⟨vars.map Seen.of, []⟩ := by
  refine ⟨⟨by simp, fun i b c h1 h2 => ?_⟩, ⟨rfl, fun i b c h1 _ => by simp at h1⟩⟩
  simp only [List.getElem?_map, h1, Option.map_some, Option.some.injEq] at h2
  subst h2
  exact ⟨h b (List.mem_of_getElem? h1), rfl, fun _ _ => rfl⟩

/-- C87: flat views of variables and of temporaries, copied, read, written at places, filled and assigned, and the
variables read and written beside them, in any order: every value read is the one expected, and so are the variables
afterwards.  A view of a variable is the variable's elements in the order asked for; a view of a temporary owns them. -/
theorem C87_program_partial (d : Layout) (vars : List (Cont α)) (hv : ∀ c ∈ vars, Made c) (ops : List (FlatOp α))
    (ht : ∀ L c, FlatOp.ravelTemp L c ∈ ops → Made c) (s : FlatSp α) (outs : List (Option α))
    (hs : (FlatSp.mk (vars.map Seen.of) []).run ops = some (s, outs)) :
    ∃ m, (FlatSt.mk vars []).run d ops = .ok (m, outs) ∧ m.vars.length = s.vars.length ∧
      ∀ (x : Nat) (c : Cont α) (a : Seen α), m.vars[x]? = some c → s.vars[x]? = some a →
        c.shape = a.shape ∧ ∀ idx, InBounds c.shape idx → c.elem? (toInts idx) = a.val idx := by
  obtain ⟨m, h1, h2⟩ := flat_run d ops outs (flatRel_start vars hv) ht hs
  exact ⟨m, h1, h2.1.1, fun x c a hc ha => ⟨(h2.1.2 x c a hc ha).2.1.symm, (h2.1.2 x c a hc ha).2.2⟩⟩

/-- C87: `ravel<L>(a)` has one axis as long as `a` has elements, and its `k`-th element is the `k`-th of `a` in the order
of `L`, whatever the layout of `a`. -/
theorem C87_ravel (d L : Layout) (hL : L = .row_major ∨ L = .column_major) (c : Cont α) (hc : Made c) :
    ∃ v, ravelView d L (.ref 0) c = .ok v ∧ v.shape = [numel c.shape] ∧
      ∀ (k : Nat) (idx : List Nat), (orderIndices L c.shape)[k]? = some idx →
        ∃ x, c.elem? (toInts idx) = some x ∧ (FlatSt.mk [c] [v]).get 0 k = .ok x := by
  obtain ⟨v, h1, h2, h3⟩ := ravelView_ok d hL (.ref 0) hc
  refine ⟨v, h1, h3.2.2.2.1, fun k idx hk => ?_⟩
  have hin := (rankIn_orderIndices hk).1
  have hlt : k < numel c.shape := by
    have := (List.getElem?_eq_some_iff.1 hk).1; rwa [length_orderIndices] at this
  have ha := (Consistent.addressable hc.1).inside idx hin
  have he := elem?_of_offset c (toInts idx) (dataOffset c.strides false (toInts idx)).toNat (by omega)
  rw [List.getElem?_eq_getElem (by omega)] at he
  refine ⟨_, he, ?_⟩
  have hr := flat_read hL hc hk
  simp only [FlatSt.get, FlatSt.cont, h2, List.getElem?_cons_zero, Option.bind_some, h3.1, h3.2.2.2.2 k hlt]
  rw [hr, he]; rfl

/-- C87: an expression of another size is refused and nothing changes (the outcome carries no state: no element has been
written when the exception leaves), unless it overlaps a view of one element. -/
theorem C87_refused_partial (s : FlatSt α) (f : Nat) (v : FlatV α) (n : Nat) (ov : Bool) (vals : List α)
    (hf : s.flats[f]? = some v) (hv : v.shape = [n]) (hn : ov = true → n ≠ 1) (hm : n < szMax) (h1 : vals.length ≠ n)
    (h2 : vals.length ≠ 1) : s.assign f ov vals = .throws := by
  by_cases h : n = 1
  · subst h
    have ho : ov = false := by cases ov <;> simp_all
    have hz : (1 : Nat) ≠ szMax := by decide
    have : flatRhs v.shape vals = .ok vals := by
      rw [hv, flatRhs, if_neg (by simpa using h1)]
      simp [broadcastShape, bcLoop, hz, bcValues, h2]
    have hb : broadcastable [vals.length] v.shape = false := by
      rw [hv]; simp [broadcastable, broadcastableLoop, h2]
    simp only [FlatSt.assign, hf, orUb, Res.bind_ok, this, ho, hb]; rfl
  · have hb : broadcastShape [vals.length] [n] = none := by
      simp [broadcastShape, bcLoop, h, h2, h1, show n ≠ szMax by omega]
    have : flatRhs v.shape vals = .throws := by
      rw [hv, flatRhs, if_neg (by simpa using h1), hb]
    simp only [FlatSt.assign, hf, orUb, Res.bind_ok, this]; rfl

theorem Res.all_ok {β : Type} : ∀ (l : List (Res β)), (∀ r ∈ l, ∃ x, r = .ok x) →
    ∃ xs, Res.all l = .ok xs ∧ ∀ (k : Nat) (x : β), l[k]? = some (.ok x) → xs[k]? = some x
  | [], _ => ⟨[], rfl, by simp⟩
  | r :: rs, h => by
    obtain ⟨x, rfl⟩ := h r (by simp)
    obtain ⟨xs, h1, h2⟩ := Res.all_ok rs fun r hr => h r (by simp [hr])
    refine ⟨x :: xs, by rw [Res.all, h1]; rfl, fun k y hk => ?_⟩
    cases k with
    | zero => simp at hk; simp [hk]
    | succ k => simp at hk; simpa using h2 k y hk

/-- C87: `flatnonzero<L>(a)` lists, in ascending order, the places of the elements that are not zero in the order of `L`. -/
theorem C87_flatnonzero (d L : Layout) (hL : L = .row_major ∨ L = .column_major) (nz : α → Bool) (c : Cont α)
    (hc : Made c) : ∃ l, flatnonzero d L nz c = .ok l ∧ l.Pairwise (· < ·) ∧
      ∀ k, k ∈ l ↔ ∃ idx x, (orderIndices L c.shape)[k]? = some idx ∧ c.elem? (toInts idx) = some x ∧ nz x = true := by
  obtain ⟨v, h1, h2, h3⟩ := C87_ravel d L hL c hc
  obtain ⟨v', h1', h2', h3'⟩ := ravelView_ok d hL (.ref 0) hc
  rw [h1] at h1'; cases h1'
  have hcount := h3'.2.2.1
  have hread : ∀ k, k < numel c.shape → ∃ idx x, (orderIndices L c.shape)[k]? = some idx ∧
      c.elem? (toInts idx) = some x ∧ (FlatSt.mk [c] [v]).get 0 k = .ok x := by
    intro k hk
    have hg := List.getElem?_eq_getElem (l := orderIndices L c.shape) (i := k) (by rw [length_orderIndices]; exact hk)
    obtain ⟨x, x1, x2⟩ := h3 k _ hg
    exact ⟨_, x, hg, x1, x2⟩
  obtain ⟨vals, k1, k2⟩ := Res.all_ok ((List.range (numel c.shape)).map fun (i : Nat) => (FlatSt.mk [c] [v]).get 0 i) (by
    intro r hr
    obtain ⟨k, hk, rfl⟩ := List.mem_map.1 hr
    obtain ⟨idx, x, -, -, hx⟩ := hread k (List.mem_range.1 hk)
    exact ⟨x, hx⟩)
  have k3 : ∀ (k : Nat) (idx : List Nat), k < numel c.shape → (orderIndices L c.shape)[k]? = some idx →
      vals[k]? = c.elem? (toInts idx) := by
    intro k idx hk hg
    obtain ⟨x, x1, x2⟩ := h3 k idx hg
    rw [x1]
    apply k2
    rw [List.getElem?_map, List.getElem?_range hk, Option.map_some, x2]
  refine ⟨(List.range v.count).filter fun (i : Nat) => ((vals[i]?).map nz).getD false, ?_, ?_, ?_⟩
  · simp only [flatnonzero, h1, Res.bind_ok, hcount, k1]; rfl
  · exact List.Pairwise.filter _ List.pairwise_lt_range
  · intro k
    simp only [List.mem_filter, List.mem_range, hcount]
    constructor
    · rintro ⟨hk, hz⟩
      have hoi : k < (orderIndices L c.shape).length := by rw [length_orderIndices]; exact hk
      have hg := List.getElem?_eq_getElem hoi
      obtain ⟨x, x1, x2⟩ := h3 k _ hg
      rw [k3 k _ hk hg, x1] at hz
      exact ⟨_, x, hg, x1, by simpa using hz⟩
    · rintro ⟨idx, x, hg, hx, hz⟩
      have hk : k < numel c.shape := by
        have := (List.getElem?_eq_some_iff.1 hg).1; rwa [length_orderIndices] at this
      refine ⟨hk, ?_⟩
      rw [k3 k idx hk hg, hx]
      simpa using hz

/-! ## Where flat views go wrong -/

/-- An assignment between two flat views of variables changes no variable, whatever their elements: the first view shows
the second's variable from then on. -/
theorem C87_rebinds_wrong (s : FlatSt α) (f g y : Nat) (v w : FlatV α) (hf : s.flats[f]? = some v)
    (hg : s.flats[g]? = some w) (hw : w.src = .ref y) :
    ∃ t, s.assignView f g = .ok t ∧ t.vars = s.vars ∧ ∀ i, t.get f i = s.get g i := by
  refine ⟨{ s with flats := s.flats.set f w }, ?_, rfl, fun i => ?_⟩
  · simp only [FlatSt.assignView, hg, orUb, Res.bind_ok, hw]
  · simp only [FlatSt.get]
    rw [List.getElem?_set, if_pos rfl, if_pos (List.getElem?_eq_some_iff.1 hf).1, hg]
    simp only [Option.bind_some, FlatSt.cont, hw]

/-- An assignment between two flat views of temporaries is undefined, even of a view to itself. -/
theorem C87_owned_wrong (s : FlatSt α) (f g : Nat) (w : FlatV α) (c : Cont α) (hg : s.flats[g]? = some w)
    (hw : w.src = .own c) : s.assignView f g = .ub := by
  simp only [FlatSt.assignView, hg, orUb, Res.bind_ok, hw]

theorem writeAll_past (l : List α) : ∀ (ws : List (Int × α)), (∃ w ∈ ws, (l.length : Int) ≤ w.1) → writeAll l ws = .ub
  | [], h => by simp at h
  | (p, x) :: ws, h => by
    by_cases hp : 0 ≤ p ∧ p < l.length
    · rw [writeAll, writeAt, if_pos hp, Res.bind_ok]
      obtain ⟨w, hw, hl⟩ := h
      refine writeAll_past _ ws ⟨w, ?_, by simpa using hl⟩
      rcases List.mem_cons.1 hw with rfl | hw
      · simp only at hl; omega
      · exact hw
    · rw [writeAll, writeAt, if_neg hp]; rfl

/-- An expression of several elements that overlaps a flat view of one element, as `broadcast(a, {3})` does the view of
`a`, is not refused: its elements are all written, past the end of the container. -/
theorem C87_larger_wrong (d : Layout) (c : Cont α) (hc : Made c) (hL : c.L = .row_major ∨ c.L = .column_major)
    (h1 : numel c.shape = 1) (vals : List α) (h2 : 2 ≤ vals.length) :
    ∃ v, ravelView d c.L (.ref 0) c = .ok v ∧ (FlatSt.mk [c] [v]).assign 0 true vals = .ub := by
  obtain ⟨v, k1, k2, k3⟩ := ravelView_ok d hL (.ref 0) hc
  refine ⟨v, k1, ?_⟩
  have hsh : v.shape = [1] := by rw [k3.2.2.2.1, h1]
  have hz : (1 : Nat) ≠ szMax := by decide
  have hr : flatRhs v.shape vals = .ok vals := by
    rw [hsh, flatRhs, if_neg (by simp; omega)]
    simp [broadcastShape, bcLoop, hz, bcValues, show vals.length ≠ 1 by omega]
  have hst : c.storage.length = 1 := by rw [hc.1.storage_size, h1]
  simp only [FlatSt.assign, List.getElem?_cons_zero, orUb, Res.bind_ok, hr, FlatSt.write, FlatSt.cont, k2, k3.1]
  simp only [Bool.not_true, Bool.false_and, Bool.false_eq_true, if_false]
  rw [writeAll_past]; · rfl
  refine ⟨((1 : Int), vals[1]'(by omega)), ?_, by simp [hst]⟩
  rw [List.mem_map]
  refine ⟨((1 : Int), vals[1]'(by omega)), ?_, by simp [flatPos]⟩
  rw [List.mem_map]
  exact ⟨(vals[1]'(by omega), 1), List.mem_zipIdx_iff_getElem?.2 (List.getElem?_eq_getElem _), rfl⟩

/-! ## Examples -/

/-- A row-major 2×3 container. -/
def flatExample : Cont Int := ⟨.row_major, .row_major, [2, 3], [3, 1], [3, 2], [10, 11, 12, 20, 21, 22]⟩

theorem flatExample_made : Made flatExample :=
  ⟨Consistent.of_computed .row_major .row_major [2, 3] _ rfl, fun _ => rfl, by decide⟩

/-- A row-major container of one element. -/
def flatOne : Cont Int := ⟨.row_major, .row_major, [1, 1], [0, 0], [0, 0], [5]⟩

theorem flatOne_made : Made flatOne :=
  ⟨Consistent.of_computed .row_major .row_major [1, 1] _ rfl, fun _ => rfl, by decide⟩

/-- A program: a column-major view written at a place and copied, a view of a temporary filled, the variable read. -/
def flatProgram : List (FlatOp Int) :=
  [.ravel .column_major 0, .put 0 1 99, .getVar 0 [1, 0], .copy 0, .putVar 0 [0, 1] 7, .get 1 2,
   .ravelTemp .row_major flatExample, .copy 2, .fill 2 0, .get 3 3, .assign 0 true [1, 2, 3, 4, 5, 6], .getVar 0 [1, 2], .get 2 5]

example : (∀ c ∈ [flatExample], Made c) ∧ (∀ L c, FlatOp.ravelTemp L c ∈ flatProgram → Made c) ∧
    ((FlatSp.mk ([flatExample].map Seen.of) []).run flatProgram).map Prod.snd =
      some [none, none, some 99, none, none, some 7, none, none, none, some 20, none, some 6, some 0] ∧
    ((FlatSt.mk [flatExample] []).run .row_major flatProgram).map Prod.snd =
      .ok [none, none, some 99, none, none, some 7, none, none, none, some 20, none, some 6, some 0] := by
  refine ⟨fun c hc => ?_, fun L c hc => ?_, by decide, by decide⟩
  · simp at hc; subst hc; exact flatExample_made
  · simp [flatProgram] at hc; rw [hc.2]; exact flatExample_made

example : Made flatExample ∧ (ravelView .row_major .column_major (.ref 0) flatExample).bind
    (fun (v : FlatV Int) => Res.all ((List.range 6).map fun (k : Nat) => (FlatSt.mk [flatExample] [v]).get 0 k)) =
      .ok [10, 20, 11, 21, 12, 22] := ⟨flatExample_made, by decide⟩

example : (ravelView .row_major .row_major (.ref 0) flatExample).bind
    (fun (v : FlatV Int) => (FlatSt.mk [flatExample] [v]).assign 0 false [1, 2, 3]) = .throws := by decide

example : flatnonzero .row_major .column_major (fun (x : Int) => x % 2 == 0) flatExample = .ok [0, 1, 4, 5] := by decide

example : Made flatOne ∧ numel flatOne.shape = 1 ∧ (ravelView .row_major .row_major (.ref 0) flatOne).bind
    (fun (v : FlatV Int) => (FlatSt.mk [flatOne] [v]).assign 0 true [1, 2]) = .ub := ⟨flatOne_made, by decide, by decide⟩

example : ∃ v w, ravelView .row_major .row_major (.ref 0) flatExample = .ok v ∧
    ravelView .row_major .row_major (.ref 1) flatExample = .ok w ∧
    (FlatSt.mk [flatExample, { flatExample with storage := [1, 2, 3, 4, 5, 6] }] [v, w]).assignView 0 1 =
      .ok ⟨[flatExample, { flatExample with storage := [1, 2, 3, 4, 5, 6] }], [w, w]⟩ := ⟨_, _, rfl, rfl, by decide⟩

example : ∃ v, ravelView .row_major .row_major (.own flatExample) flatExample = .ok v ∧
    (FlatSt.mk [] [v]).assignView 0 0 = .ub := ⟨_, rfl, by decide⟩

end Xt
