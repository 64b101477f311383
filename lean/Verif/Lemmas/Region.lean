import Verif.Model.Pad
import Verif.Props.StridedView
import Verif.Props.Sort
/-!
# Assignments to a region of a container
-/

namespace Xt

open Spec

/-- A slice that selects `m` distinct positions `φ 0, φ 1, ...` of an axis of extent `n`. -/
structure AxSel (n : Nat) (u : USlice) (m : Nat) (φ : Nat → Nat) : Prop where
  nonew : u ≠ .newaxis
  noint : ¬ IsInt u
  noell : u ≠ .ellipsis
  nokeep : ∀ l, u ≠ .keep l
  nodrop : ∀ l, u ≠ .drop l
  valid : SliceValid n u
  sel : axisSel n u = (List.range m).map fun (i : Nat) => (φ i : Int)
  lt : ∀ i, i < m → φ i < n
  inj : ∀ i j, i < m → j < m → φ i = φ j → i = j

/-- Such slices on every axis. -/
inductive Sels : List Nat → List USlice → List Nat → List (Nat → Nat) → Prop
  | nil : Sels [] [] [] []
  | cons {n u m φ sh us ms φs} : AxSel n u m φ → Sels sh us ms φs → Sels (n :: sh) (u :: us) (m :: ms) (φ :: φs)

/-- Index selected by an index of the selection. -/
def applySel (φs : List (Nat → Nat)) (q : List Nat) : List Nat := List.zipWith (fun φ i => φ i) φs q

theorem Sels.valid {sh us ms φs} (h : Sels sh us ms φs) : SlicesValid sh us := by
  induction h with
  | nil => trivial
  | @cons n u m φ sh us ms φs h1 h2 ih =>
    have hn := h1.nonew
    cases u <;> first | exact ⟨h1.valid, ih⟩ | exact absurd rfl hn

theorem Sels.shape {sh us ms φs} (h : Sels sh us ms φs) : selShape sh us = ms := by
  induction h with
  | nil => rfl
  | @cons n u m φ sh us ms φs h1 h2 ih =>
    rw [selShape_cons h1.nonew h1.noint, ih, h1.sel]; simp

theorem Sels.index {sh us ms φs} (h : Sels sh us ms φs) {q : List Nat} (hq : InBounds ms q) :
    selIndex sh us q = toInts (applySel φs q) := by
  induction h generalizing q with
  | nil => cases q with
    | nil => rfl
    | cons _ _ => exact hq.elim
  | @cons n u m φ sh us ms φs h1 h2 ih =>
    cases q with
    | nil => exact hq.elim
    | cons i q =>
      rw [inBounds_cons] at hq
      rw [selIndex_cons h1.nonew h1.noint, ih hq.2, h1.sel]
      simp [applySel, toInts, List.getD_eq_getElem?_getD, hq.1]

theorem Sels.inBounds {sh us ms φs} (h : Sels sh us ms φs) {q : List Nat} (hq : InBounds ms q) :
    InBounds sh (applySel φs q) := by
  induction h generalizing q with
  | nil => cases q with
    | nil => trivial
    | cons _ _ => exact hq.elim
  | @cons n u m φ sh us ms φs h1 h2 ih =>
    cases q with
    | nil => exact hq.elim
    | cons i q =>
      rw [inBounds_cons] at hq
      simp only [applySel, List.zipWith_cons_cons, inBounds_cons]
      exact ⟨h1.lt _ hq.1, ih hq.2⟩

theorem Sels.inj {sh us ms φs} (h : Sels sh us ms φs) {q r : List Nat} (hq : InBounds ms q) (hr : InBounds ms r)
    (e : applySel φs q = applySel φs r) : q = r := by
  induction h generalizing q r with
  | nil => cases q with
    | nil => cases r with
      | nil => rfl
      | cons _ _ => exact hr.elim
    | cons _ _ => exact hq.elim
  | @cons n u m φ sh us ms φs h1 h2 ih =>
    cases q with
    | nil => exact hq.elim
    | cons i q =>
      cases r with
      | nil => exact hr.elim
      | cons j r =>
        rw [inBounds_cons] at hq hr
        simp only [applySel, List.zipWith_cons_cons, List.cons.injEq] at e
        rw [h1.inj i j hq.1 hr.1 e.1, ih hq.2 hr.2 e.2]

theorem Sels.length {sh us ms φs} (h : Sels sh us ms φs) :
    us.length = sh.length ∧ ms.length = sh.length ∧ φs.length = sh.length := by
  induction h with
  | nil => simp
  | cons h1 h2 ih => simp [ih]

theorem Sels.noell {sh us ms φs} (h : Sels sh us ms φs) : USlice.ellipsis ∉ us := by
  induction h with
  | nil => simp
  | cons h1 h2 ih => simp only [List.mem_cons, not_or]; exact ⟨fun e => h1.noell e.symm, ih⟩

theorem Sels.noKeepDrop {sh us ms φs} (h : Sels sh us ms φs) : NoKeepDrop us := by
  induction h with
  | nil => intro u hu; simp at hu
  | cons h1 h2 ih =>
    intro u hu
    rcases List.mem_cons.1 hu with e | e
    · subst e; exact ⟨fun l e => h1.nokeep l e, fun l e => h1.nodrop l e⟩
    · exact ih u e

theorem Sels.intsNonneg {sh us ms φs} (h : Sels sh us ms φs) : IntsNonneg us := by
  induction h with
  | nil => intro u hu; simp at hu
  | cons h1 h2 ih =>
    intro c hc
    rcases List.mem_cons.1 hc with e | e
    · exact absurd ⟨c, e.symm⟩ h1.noint
    · exact ih c e

/-- The strided view of a container on such slices. -/
theorem Sels.view {α : Type} {out : Buf α} {us ms φs} (h : Sels out.shape us ms φs) :
    ∃ v, stridedView out.shape out.strides 0 out.layout us = .ok v ∧ v.shape = toInts ms ∧
      ∀ q, InBounds ms q → v.index (toInts q) = (travRank out.layout out.shape (applySel φs q) : Int) := by
  have hE : expandEllipsis out.shape.length us = us := expandWith_eq_self _ us h.noell
  have hc : us.count .ellipsis ≤ 1 := by rw [List.count_eq_zero_of_not_mem h.noell]; omega
  obtain ⟨v, h1, h2, h3, -⟩ := C20_strided_view_partial out.shape out.strides 0 out.layout us
    (by show (computeStrides out.layout out.layout out.shape).1.length = _; simp) hc (by rw [hE]; exact h.valid)
    h.noKeepDrop h.intsNonneg
  rw [hE, h.shape] at h2 h3
  refine ⟨v, h1, h2, fun q hq => ?_⟩
  rw [(h3 q hq).1, h.index hq]
  show 0 + dot (computeStrides out.layout out.layout out.shape).1 _ = _
  rw [dot_travRank _ (h.inBounds hq)]; omega

theorem map_toNat_toInts (l : List Nat) : (toInts l).map Int.toNat = l := by
  simp [toInts, Function.comp_def]

theorem travRank_inj (L : Layout) {sh i j : List Nat} (hi : InBounds sh i) (hj : InBounds sh j)
    (h : travRank L sh i = travRank L sh j) : i = j := by
  unfold travRank at h
  split at h
  · exact rowRank_inj hi hj h
  · exact colRank_inj hi hj h

/-! ### Writing the elements of a list of indices -/

theorem foldl_set_length {α ι : Type} (l : List ι) (g : ι → Nat) (f : ι → α) (d : List α) :
    (l.foldl (fun d q => d.set (g q) (f q)) d).length = d.length := by
  induction l generalizing d with
  | nil => rfl
  | cons q l ih => rw [List.foldl_cons, ih, List.length_set]

theorem foldl_set_miss {α ι : Type} (l : List ι) (g : ι → Nat) (f : ι → α) (d : List α) (k : Nat) (x : α)
    (h : ∀ q ∈ l, g q ≠ k) : (l.foldl (fun d q => d.set (g q) (f q)) d).getD k x = d.getD k x := by
  induction l generalizing d with
  | nil => rfl
  | cons q l ih =>
    rw [List.foldl_cons, ih _ (fun r hr => h r (by simp [hr]))]
    simp [List.getD_eq_getElem?_getD, List.getElem?_set, h q (by simp)]

theorem foldl_set_last {α ι : Type} (g : ι → Nat) (f : ι → α) (x y : α) (k : Nat) :
    ∀ (l : List ι) (d : List α), (∀ s ∈ l, g s = k → f s = y) → (∃ r ∈ l, g r = k) → k < d.length →
      (l.foldl (fun d q => d.set (g q) (f q)) d).getD k x = y
  | [], d, _, h, _ => by simp at h
  | s :: l, d, hs, he, hd => by
    rw [List.foldl_cons]
    by_cases h2 : ∃ r ∈ l, g r = k
    · exact foldl_set_last g f x y k l _ (fun s hs' => hs s (by simp [hs'])) h2 (by simpa using hd)
    · rw [foldl_set_miss l g f _ _ _ (fun t ht e => h2 ⟨t, ht, e⟩)]
      obtain ⟨r, hr, e⟩ := he
      rcases List.mem_cons.1 hr with e' | e'
      · subst e'
        rw [e]
        simp [List.getD_eq_getElem?_getD, hd, hs r (by simp) e]
      · exact absurd ⟨r, e', e⟩ h2

theorem foldl_set_hit {α ι : Type} (l : List ι) (g : ι → Nat) (f : ι → α) (d : List α) (x : α) (q : ι) (hq : q ∈ l)
    (hinj : ∀ r ∈ l, g r = g q → f r = f q) (hlt : g q < d.length) :
    (l.foldl (fun d q => d.set (g q) (f q)) d).getD (g q) x = f q :=
  foldl_set_last g f x (f q) (g q) l d hinj ⟨q, hq, rfl⟩ hlt

/-! ### Regions -/

/-- Shapes that `broadcast` accepts, of equal dimension. -/
def Compat : List Nat → List Nat → Prop
  | s :: ss, d :: ds => (s = d ∨ s = 1) ∧ Compat ss ds
  | [], [] => True
  | _, _ => False

theorem compat_iff (ss ds : List Nat) :
    Compat ss ds ↔ ss.length = ds.length ∧ (List.zipWith (fun s d => decide (s = d ∨ s = 1)) ss ds).all id = true := by
  induction ss generalizing ds with
  | nil => cases ds <;> simp [Compat]
  | cons s ss ih =>
    cases ds with
    | nil => simp [Compat]
    | cons d ds =>
      simp only [Compat, ih, List.length_cons, List.zipWith_cons_cons, List.all_cons, Bool.and_eq_true, id_eq,
        decide_eq_true_eq, Nat.add_right_cancel_iff]
      tauto

theorem compat_refl (l : List Nat) : Compat l l := by
  induction l with
  | nil => trivial
  | cons s l ih => exact ⟨Or.inl rfl, ih⟩

theorem broadcastIndex_self {l q : List Nat} (h : InBounds l q) : broadcastIndex l q = q := by
  induction l generalizing q with
  | nil => cases q with
    | nil => rfl
    | cons _ _ => exact h.elim
  | cons n l ih =>
    cases q with
    | nil => exact h.elim
    | cons i q =>
      rw [inBounds_cons] at h
      show (if n = 1 then 0 else i) :: broadcastIndex l q = _
      rw [ih h.2]
      congr 1
      split <;> omega

/-- Assigning to a region writes the broadcast source there and nothing elsewhere. -/
theorem assignRegion_spec {α : Type} [Inhabited α] {out : Buf α} {us ms φs} (hw : out.WF) (h : Sels out.shape us ms φs)
    {shape : List Nat} (val : List Nat → α) (hc : Compat shape ms) :
    ∃ out', assignRegion out us shape val = .ok out' ∧ out'.shape = out.shape ∧ out'.layout = out.layout ∧ out'.WF ∧
      (∀ q, InBounds ms q → out'.read (applySel φs q) = val (broadcastIndex shape q)) ∧
      ∀ p, InBounds out.shape p → (∀ q, InBounds ms q → applySel φs q ≠ p) → out'.read p = out.read p := by
  obtain ⟨v, h1, h2, h3⟩ := h.view
  have hvs : v.shape.map Int.toNat = ms := by rw [h2, map_toNat_toInts]
  have hcc := (compat_iff shape ms).1 hc
  have hin : ((rowIndices ms).all fun q => decide (0 ≤ v.index (toInts q) ∧ v.index (toInts q) < out.data.length)) = true := by
    rw [List.all_eq_true]
    intro q hq
    rw [mem_rowIndices] at hq
    have hlt := travRank_lt out.layout (h.inBounds hq)
    have hw' : out.data.length = numel out.shape := hw
    rw [decide_eq_true_eq, h3 q hq, hw']
    omega
  refine ⟨⟨out.shape, out.layout, (rowIndices ms).foldl
    (fun d q => d.set (v.index (toInts q)).toNat (val (broadcastIndex shape q))) out.data⟩, ?_, rfl, rfl, ?_, ?_, ?_⟩
  · unfold assignRegion
    rw [h1]
    simp only [Res.bind]
    rw [hvs, if_pos hcc, if_pos hin]
  · show List.length _ = _
    rw [foldl_set_length]; exact hw
  · intro q hq
    rw [Buf.read_eq _ (by exact h.inBounds hq)]
    have e : (v.index (toInts q)).toNat = travRank out.layout out.shape (applySel φs q) := by rw [h3 q hq]; omega
    show ((rowIndices ms).foldl _ out.data).getD (travRank out.layout out.shape (applySel φs q)) default = _
    rw [← e]
    apply foldl_set_hit (rowIndices ms) (fun q => (v.index (toInts q)).toNat) (fun q => val (broadcastIndex shape q)) out.data
      default q (mem_rowIndices.2 hq)
    · intro r hr er
      rw [mem_rowIndices] at hr
      beta_reduce at er
      rw [h3 q hq, h3 r hr] at er
      rw [h.inj hr hq (travRank_inj out.layout (h.inBounds hr) (h.inBounds hq) (by omega))]
    · beta_reduce
      rw [e]
      have hw' : out.data.length = numel out.shape := hw
      rw [hw']
      exact travRank_lt _ (h.inBounds hq)
  · intro p hp hmiss
    rw [Buf.read_eq _ (by exact hp), Buf.read_eq _ hp]
    show ((rowIndices ms).foldl _ out.data).getD (travRank out.layout out.shape p) default = _
    apply foldl_set_miss (rowIndices ms) (fun q => (v.index (toInts q)).toNat) (fun q => val (broadcastIndex shape q))
    intro q hq e
    rw [mem_rowIndices] at hq
    beta_reduce at e
    rw [h3 q hq] at e
    exact hmiss q hq (travRank_inj out.layout (h.inBounds hq) hp (by omega))

/-- Copying one region of a container onto another. -/
theorem copyRegion_spec {α : Type} [Inhabited α] {out : Buf α} {us ms φs ut mt φt} (hw : out.WF)
    (hs : Sels out.shape us ms φs) (ht : Sels out.shape ut mt φt) (hc : Compat ms mt)
    (hb : ∀ q, InBounds mt q → InBounds ms (broadcastIndex ms q)) :
    ∃ out', copyRegion out ut us = .ok out' ∧ out'.shape = out.shape ∧ out'.layout = out.layout ∧ out'.WF ∧
      (∀ q, InBounds mt q → out'.read (applySel φt q) = out.read (applySel φs (broadcastIndex ms q))) ∧
      ∀ p, InBounds out.shape p → (∀ q, InBounds mt q → applySel φt q ≠ p) → out'.read p = out.read p := by
  obtain ⟨v, h1, h2, h3⟩ := hs.view
  obtain ⟨out', e1, e2, e3, e4, e5, e6⟩ := assignRegion_spec hw ht (fun q => out.mem (v.index (toInts q))) hc
  refine ⟨out', ?_, e2, e3, e4, fun q hq => ?_, e6⟩
  · unfold copyRegion
    rw [h1]
    simp only [Res.bind]
    rw [h2, map_toNat_toInts, e1]
  · rw [e5 q hq, h3 _ (hb q hq), Buf.read_eq _ (hs.inBounds (hb q hq))]
    rfl

/-! ### One axis -/

theorem AxSel.all (n : Nat) : AxSel n .all n id :=
  ⟨by simp, (by rintro ⟨i, h⟩; cases h), by simp, by simp, by simp, trivial, rfl, fun _ h => h, fun _ _ _ _ h => h⟩

theorem map_filter_range {β : Type} (n k : Nat) (hk : k ≤ n) (f : Nat → β) (p : β → Bool)
    (hp : ∀ i, i < n → (p (f i) = true ↔ i < k)) : ((List.range n).map f).filter p = (List.range k).map f := by
  rw [List.filter_map]
  congr 1
  have h1 : (List.range n).filter (p ∘ f) = (List.range n).filter (fun i => decide (i < k)) := by
    apply List.filter_congr
    intro i hi
    rw [List.mem_range] at hi
    rw [Bool.eq_iff_iff, decide_eq_true_eq]
    exact hp i hi
  rw [h1]
  obtain ⟨d, rfl⟩ := Nat.le.dest hk
  rw [List.range_add, List.filter_append]
  have h2 : (List.range k).filter (fun i => decide (i < k)) = List.range k := by
    rw [List.filter_eq_self]; intro a ha; simpa using ha
  have h3 : ((List.range d).map fun x => k + x).filter (fun i => decide (i < k)) = [] := by
    rw [List.filter_eq_nil_iff]; intro a ha
    simp only [List.mem_map] at ha
    obtain ⟨x, _, rfl⟩ := ha
    simp
  rw [h2, h3, List.append_nil]

/-- `range(a, a + m)`. -/
theorem AxSel.up {n a m : Nat} (h : a + m ≤ n) {x y : Int} (hx : x = a) (hy : y = (a : Int) + m) :
    AxSel n (.range (some x) (some y) none) m (a + ·) := by
  subst hx hy
  refine ⟨by simp, (by rintro ⟨i, h⟩; cases h), by simp, by simp, by simp, trivial, ?_, fun i hi => by omega, fun i j _ _ e => by omega⟩
  show pySlice n _ _ 1 = _
  have e1 : pyStart n 1 (some (a : Int)) = a := by simp only [pyStart, pyClip]; split <;> omega
  have e2 : pyStop n 1 (some ((a : Int) + m)) = (a : Int) + m := by simp only [pyStop, pyClip]; split <;> omega
  unfold pySlice
  rw [e1, e2, map_filter_range n m (by omega)]
  · apply List.map_congr_left; intro i _; push_cast; omega
  · intro i _
    simp only [if_pos (show (0 : Int) < 1 by omega), decide_eq_true_eq]
    omega

/-- `range(a, a - m, -1)`. -/
theorem AxSel.down {n a m : Nat} (ha : a < n) (hm : m ≤ a + 1) {x : Int} {y : Option Int} (hx : x = a)
    (hy : (y = some ((a : Int) - m) ∧ m ≤ a) ∨ (y = none ∧ m = a + 1)) (hm0 : 0 < m) :
    AxSel n (.range (some x) y (some (-1))) m (a - ·) := by
  subst hx
  have e1 : pyStart n (-1) (some (a : Int)) = a := by
    simp only [pyStart, pyClip]; rw [if_neg (show ¬ (0 : Int) < -1 by omega)]; split <;> omega
  have e2 : pyStop n (-1) y = (a : Int) - m := by
    rcases hy with ⟨rfl, h⟩ | ⟨rfl, h⟩
    · simp only [pyStop, pyClip]; rw [if_neg (show ¬ (0 : Int) < -1 by omega)]; split <;> omega
    · simp only [pyStop]; rw [if_neg (show ¬ (0 : Int) < -1 by omega)]; omega
  refine ⟨by simp, (by rintro ⟨i, h⟩; cases h), by simp, by simp, by simp, ?_, ?_, fun i hi => by omega, fun i j _ _ e => by omega⟩
  · refine ⟨by omega, by omega, ?_⟩
    rw [e1, e2]; omega
  · show pySlice n _ _ (-1) = _
    unfold pySlice
    rw [e1, e2, map_filter_range n m (by omega)]
    · apply List.map_congr_left; intro i hi; rw [List.mem_range] at hi; omega
    · intro i _
      simp only [if_neg (show ¬ (0 : Int) < -1 by omega), decide_eq_true_eq]
      omega

theorem Sels.all (sh : List Nat) : Sels sh (List.replicate sh.length .all) sh (List.replicate sh.length id) := by
  induction sh with
  | nil => exact .nil
  | cons n sh ih => exact .cons (AxSel.all n) ih

/-- All axes whole except one. -/
theorem Sels.one {sh : List Nat} {ax : Nat} (h : ax < sh.length) {u m φ} (hs : AxSel (sh.getD ax 0) u m φ) :
    Sels sh (oneSlice sh.length ax u) (sh.set ax m) ((List.replicate sh.length id).set ax φ) := by
  unfold oneSlice
  induction sh generalizing ax with
  | nil => simp at h
  | cons n sh ih =>
    cases ax with
    | zero => exact .cons hs (Sels.all sh)
    | succ ax =>
      simp only [List.length_cons, List.replicate_succ, List.set_cons_succ]
      exact .cons (AxSel.all n) (ih (by simpa using h) (by simpa using hs))

theorem applySel_one {d ax : Nat} (φ : Nat → Nat) {q : List Nat} (hq : q.length = d) (h : ax < d) :
    applySel ((List.replicate d id).set ax φ) q = q.set ax (φ (q.getD ax 0)) := by
  subst hq
  unfold applySel
  induction q generalizing ax with
  | nil => simp at h
  | cons i q ih =>
    cases ax with
    | zero =>
      simp only [List.length_cons, List.replicate_succ, List.set_cons_zero, List.zipWith_cons_cons, List.getD_cons_zero]
      congr 1
      apply List.ext_getElem? ; intro k
      simp only [List.getElem?_zipWith, List.getElem?_replicate]
      by_cases hk : k < q.length
      · simp [hk]
      · simp [hk]
    | succ ax =>
      simp only [List.length_cons, List.replicate_succ, List.set_cons_succ, List.zipWith_cons_cons, List.getD_cons_succ, id]
      rw [ih (by simpa using h)]

theorem compat_set {sh : List Nat} {ax a b : Nat} (h : a = b ∨ a = 1) : Compat (sh.set ax a) (sh.set ax b) := by
  induction sh generalizing ax with
  | nil => trivial
  | cons n sh ih =>
    cases ax with
    | zero => exact ⟨h, compat_refl sh⟩
    | succ ax => exact ⟨Or.inl rfl, ih⟩

theorem broadcastIndex_set {sh : List Nat} {ax a b : Nat} (h : a = b ∨ a = 1) {q : List Nat}
    (hq : InBounds (sh.set ax b) q) :
    broadcastIndex (sh.set ax a) q = q.set ax (if a = 1 then 0 else q.getD ax 0) := by
  induction sh generalizing ax q with
  | nil => cases q with
    | nil => rfl
    | cons _ _ => exact hq.elim
  | cons n sh ih =>
    cases q with
    | nil => cases ax <;> exact hq.elim
    | cons i q =>
      cases ax with
      | zero =>
        simp only [List.set_cons_zero, inBounds_cons] at hq ⊢
        show (if a = 1 then 0 else i) :: broadcastIndex sh q = _
        rw [broadcastIndex_self hq.2]; rfl
      | succ ax =>
        simp only [List.set_cons_succ, inBounds_cons] at hq ⊢
        show (if n = 1 then 0 else i) :: broadcastIndex (sh.set ax a) q = _
        rw [ih hq.2, List.getD_cons_succ]
        congr 1
        split <;> omega

/-- Copying along one axis: the positions `ψ 0, ψ 1, ...` of the axis onto the positions `t, t + 1, ...`. -/
theorem copyAxis_spec {α : Type} [Inhabited α] {out : Buf α} (hw : out.WF) {ax : Nat} (hax : ax < out.shape.length)
    {ut us : USlice} {t mt ms : Nat} {ψ : Nat → Nat} (ht : AxSel (out.shape.getD ax 0) ut mt (t + ·))
    (hs : AxSel (out.shape.getD ax 0) us ms ψ) (hm : ms = mt ∨ ms = 1) :
    ∃ out', copyRegion out (oneSlice out.shape.length ax ut) (oneSlice out.shape.length ax us) = .ok out' ∧
      out'.shape = out.shape ∧ out'.layout = out.layout ∧ out'.WF ∧
      (∀ p, InBounds out.shape p → t ≤ p.getD ax 0 → p.getD ax 0 < t + mt →
        out'.read p = out.read (p.set ax (ψ (if ms = 1 then 0 else p.getD ax 0 - t)))) ∧
      ∀ p, InBounds out.shape p → ¬ (t ≤ p.getD ax 0 ∧ p.getD ax 0 < t + mt) → out'.read p = out.read p := by
  have hset : ∀ (m : Nat) (q : List Nat), InBounds (out.shape.set ax m) q →
      q.length = out.shape.length ∧ q.getD ax 0 < m ∧ ∀ k, k < out.shape.length → k ≠ ax → q.getD k 0 < out.shape.getD k 0 := by
    intro m q hq
    rw [inBounds_iff_get] at hq
    have hl : q.length = out.shape.length := by simpa using hq.1
    have h2 := hq.2
    simp only [List.length_set] at h2
    refine ⟨hl, ?_, fun k hk hne => ?_⟩
    · have := h2 ax hax
      rwa [getD_set_nat hax, if_pos rfl] at this
    · have := h2 k hk
      rwa [getD_set_nat hax, if_neg (Ne.symm hne)] at this
  have hb : ∀ q, InBounds (out.shape.set ax mt) q →
      InBounds (out.shape.set ax ms) (broadcastIndex (out.shape.set ax ms) q) := by
    intro q hq
    rw [broadcastIndex_set hm hq]
    obtain ⟨h1, h2, h3⟩ := hset mt q hq
    rw [inBounds_iff_get]
    refine ⟨by simp [h1], fun k hk => ?_⟩
    rw [List.length_set] at hk
    rw [getD_set_nat (by omega), getD_set_nat hax]
    by_cases e : ax = k
    · subst e; rw [if_pos rfl, if_pos rfl]; split <;> omega
    · rw [if_neg e, if_neg e]; exact h3 k hk (Ne.symm e)
  obtain ⟨out', e1, e2, e3, e4, e5, e6⟩ := copyRegion_spec hw (Sels.one hax hs) (Sels.one hax ht) (compat_set hm) hb
  refine ⟨out', e1, e2, e3, e4, ?_, ?_⟩
  · intro p hp h1 h2
    have hpl := hp.length_eq
    have hget := (inBounds_iff_get.1 hp).2
    have hq : InBounds (out.shape.set ax mt) (p.set ax (p.getD ax 0 - t)) := by
      rw [inBounds_iff_get]
      refine ⟨by simp [hpl], fun k hk => ?_⟩
      rw [List.length_set] at hk
      rw [getD_set_nat (by omega), getD_set_nat hax]
      by_cases e : ax = k
      · rw [if_pos e, if_pos e]; omega
      · rw [if_neg e, if_neg e]; exact hget k hk
    have hql := (hset _ _ hq).1
    have := e5 _ hq
    rw [applySel_one _ hql hax, broadcastIndex_set hm hq,
      applySel_one _ (by rw [List.length_set]; exact hql) hax] at this
    simp only [List.set_set] at this
    rw [getD_set_nat (by omega), if_pos rfl] at this
    have h3 : p.set ax (t + (p.getD ax 0 - t)) = p := by
      rw [show t + (p.getD ax 0 - t) = p.getD ax 0 by omega]
      apply ext_getD (by simp)
      intro k hk
      rw [List.length_set] at hk
      rw [getD_set_nat (by omega)]
      split
      · next e => rw [e]
      · rfl
    rw [h3] at this
    rw [this, getD_set_nat (by omega), if_pos rfl]
  · intro p hp hn
    apply e6 p hp
    intro q hq e
    obtain ⟨h1, h2, -⟩ := hset mt q hq
    rw [applySel_one _ h1 hax] at e
    apply hn
    rw [← e, getD_set_nat (by omega), if_pos rfl]
    omega

end Xt
