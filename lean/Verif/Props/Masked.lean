import Verif.Model.Masked
import Verif.Props.AssignAlias
/-!
# C82: masked views
-/

namespace Xt
open Spec

/-- The value and the flag that belong to an index: the flag of a mask of smaller shape is found by broadcasting. -/
def Spec.maskCell (v : MaskedV) (idx : List Nat) : Int × Int :=
  (addr v.data idx, addr v.mask (bcIndex v.mask.shape idx))

/-- What a user takes for granted of a mask: its shape can be broadcast to that of the data. -/
structure Spec.Masks (v : MaskedV) : Prop where
  data : v.data.WF
  mask : v.mask.WF
  fits : BroadcastsTo v.mask.shape v.data.shape

/-- Visible elements have become `g idx old`; nothing else has changed. -/
def Spec.Stored {α : Type} (v : MaskedV) (g : List Nat → α → α) (m m' : MaskMem α) : Prop :=
  (∀ idx, InBounds v.data.shape idx → m'.vals (maskCell v idx).1 =
    if m.vis (maskCell v idx).2 then g idx (m.vals (maskCell v idx).1) else m.vals (maskCell v idx).1) ∧
  (∀ p, (∀ idx, InBounds v.data.shape idx → p ≠ (maskCell v idx).1) → m'.vals p = m.vals p) ∧
  m'.vis = m.vis

/-- What is assumed of `xtl::xmasked_value`: assigning a visible value stores it if the destination is visible, assigning
to an element that is not visible changes nothing. -/
structure Spec.MaskRule {α : Type} (rule : α × Bool → α × Bool → α × Bool) : Prop where
  visible : ∀ x y, rule (x, true) (y, true) = (y, true)
  hidden : ∀ x r, rule (x, false) r = (x, false)

/-! ### Walking -/

/-- A walk with steppers whose states are determined by the index. -/
theorem walk_eq_map {σ : Type} {ops : StepOps σ} {sh : List Nat} {R : σ → List Nat → Prop} {L : Layout}
    (hL : L = .row_major ∨ L = .column_major) (hF : FwdLaw ops sh R) (F : List Nat → σ)
    (hR : ∀ st idx, R st idx → InBounds sh idx → st = F idx) (st₀ : σ)
    (h0 : R st₀ (List.replicate sh.length 0)) (last : XIter σ) (hlast : last.linear = numel sh) (fuel : Nat)
    (hfuel : fuel = numel sh + 1) :
    XIter.walk ops L sh last fuel (XIter.mkBegin st₀ sh) = (orderIndices L sh).map F := by
  subst hfuel
  by_cases hz : numel sh = 0
  · have h1 : (orderIndices L sh).length = 0 := by rw [length_orderIndices, hz]
    rw [List.eq_nil_of_length_eq_zero h1]
    have he : (XIter.mkBegin st₀ sh).equal last = true := by
      simp [XIter.equal, XIter.mkBegin, hlast, hz]
    simp [XIter.walk, he]
  · have hb := iterAt_begin (L := L) (R := R) (E := fun _ => True) (by omega) h0
    obtain ⟨h1, h2⟩ := walk_spec hL hF (fun _ _ _ _ => trivial) last hlast (numel sh + 1) 0 _ hb (by omega) (by omega)
    apply List.ext_getElem?
    intro i
    simp only [List.getElem?_map]
    by_cases hi : i < numel sh
    · obtain ⟨st, hst⟩ : ∃ st, (XIter.walk ops L sh last (numel sh + 1) (XIter.mkBegin st₀ sh))[i]? = some st :=
        ⟨_, List.getElem?_eq_getElem (by rw [h1]; omega)⟩
      obtain ⟨idx, a, b, c⟩ := h2 i st hst
      obtain ⟨j, hj⟩ : ∃ j, (orderIndices L sh)[i]? = some j :=
        ⟨_, List.getElem?_eq_getElem (by rw [length_orderIndices]; exact hi)⟩
      obtain ⟨hj1, hj2⟩ := rankIn_orderIndices hj
      have : idx = j := rankIn_inj (L := L) a hj1 (by omega)
      subst this
      rw [hst, hj, Option.map_some, hR st idx c a]
    · rw [List.getElem?_eq_none (by rw [h1]; omega), List.getElem?_eq_none (by rw [length_orderIndices]; omega)]
      rfl

/-- The same backwards. -/
theorem walkBack_eq_map {σ : Type} {ops : StepOps σ} {sh : List Nat} {R : σ → List Nat → Prop} {E : σ → Prop} {L : Layout}
    (hL : L = .row_major ∨ L = .column_major) (hB : BackLaw ops sh L R E) (F : List Nat → σ)
    (hR : ∀ st idx, R st idx → InBounds sh idx → st = F idx) (st₁ : σ) (hE : E st₁)
    (first : XIter σ) (hfirst : first.linear = 0) (fuel : Nat) (hfuel : fuel = numel sh + 1) :
    XIter.walkBack ops L sh first fuel (XIter.mkEnd st₁ L sh) = ((orderIndices L sh).map F).reverse := by
  subst hfuel
  have hb := iterAt_end (L := L) (sh := sh) (R := R) (E := E) hE
  obtain ⟨h1, h2⟩ := walkBack_spec hL hB first hfirst (numel sh + 1) (numel sh) _ hb (by omega) (by omega)
  apply List.ext_getElem?
  intro i
  by_cases hi : i < numel sh
  · rw [List.getElem?_reverse (by simp [length_orderIndices, hi])]
    simp only [List.length_map, length_orderIndices, List.getElem?_map]
    obtain ⟨st, hst⟩ : ∃ st, (XIter.walkBack ops L sh first (numel sh + 1) (XIter.mkEnd st₁ L sh))[i]? = some st :=
      ⟨_, List.getElem?_eq_getElem (by rw [h1]; omega)⟩
    obtain ⟨idx, a, b, c⟩ := h2 i st hst
    obtain ⟨j, hj⟩ : ∃ j, (orderIndices L sh)[numel sh - 1 - i]? = some j :=
      ⟨_, List.getElem?_eq_getElem (by rw [length_orderIndices]; omega)⟩
    obtain ⟨hj1, hj2⟩ := rankIn_orderIndices hj
    have : idx = j := rankIn_inj (L := L) a hj1 (by omega)
    subst this
    rw [hst, hj, Option.map_some, hR st idx c a]
  · rw [List.getElem?_eq_none (by rw [h1]; omega), List.getElem?_eq_none (by simp [length_orderIndices]; omega)]

theorem stepOffset_le {dim n : Nat} (h : n ≤ dim) : stepOffset dim n = dim - n := by
  unfold stepOffset; rw [if_pos h]

theorem XAt_begin {c : StridedArr} {n : Nat} (h : c.shape.length ≤ n) : XAt c (xstepperBegin c) (List.replicate n 0) := by
  have := Ex.at_begin (sh := List.replicate n 1) (Ex.arr c (fun p => p))
  unfold XAt
  have e : toInts ((List.replicate n 0).drop ((List.replicate n 0).length - c.shape.length)) =
      List.replicate c.shape.length (0 : Int) := by
    simp [toInts]; omega
  rw [e, dot_replicate_zero]
  simp [xstepperBegin]

theorem XAt_eq {c : StridedArr} {sh idx : List Nat} {p : Int} (hc : c.WF) (hf : BroadcastsTo c.shape sh)
    (h : XAt c p idx) (hb : InBounds sh idx) : p = addr c (bcIndex c.shape idx) := by
  have := hb.length_eq
  have := hf.1
  unfold XAt at h
  rw [h, addr, dot_bcIndex hc (by omega)]

theorem masked_fwd {v : MaskedV} (h : Masks v) :
    FwdLaw (v.ops v.shape.length) v.data.shape (fun p idx => XAt v.data p.1 idx ∧ XAt v.mask p.2 idx) := by
  unfold MaskedV.ops MaskedV.shape
  rw [stepOffset_le (le_refl _), stepOffset_le h.fits.1]
  exact fwd_pair (xstepper_fwd h.data (broadcastsTo_refl _)) (xstepper_fwd h.mask h.fits)

theorem masked_at {v : MaskedV} (h : Masks v) (st : Int × Int) (idx : List Nat)
    (hR : XAt v.data st.1 idx ∧ XAt v.mask st.2 idx) (hb : InBounds v.data.shape idx) : st = maskCell v idx := by
  have h1 := XAt_eq h.data (broadcastsTo_refl _) hR.1 hb
  have h2 := XAt_eq h.mask h.fits hR.2 hb
  rw [bcIndex_self hb] at h1
  exact Prod.ext h1 h2

theorem data_size (v : MaskedV) : v.data.size = numel v.data.shape := by
  unfold StridedArr.size; rw [foldl_mul_eq]; omega

/-! ### Reading -/

/-- Access by index finds the value at the index and the flag that belongs to it. -/
theorem C82_access (v : MaskedV) (h : Masks v) (hx : ∀ s ∈ v.data.shape, ExtentFits s) (idx : List Nat)
    (hb : InBounds v.data.shape idx) :
    v.cell (toInts idx) = maskCell v idx ∧ v.elementCell (toInts idx) = maskCell v idx ∧
    v.atCell (toInts idx) = some (maskCell v idx) := by
  have hl := hb.length_eq
  have hm := h.fits.1
  have h1 : v.cell (toInts idx) = maskCell v idx := by
    unfold MaskedV.cell maskCell addr
    rw [dataOffset_eq _ _ (by simp [toInts, h.data.len, hl]),
      dataOffset_ge _ _ (by simp [toInts, h.mask.len]; omega)]
    congr 2
    rw [← dot_bcIndex h.mask (by omega)]
    simp only [toInts, List.length_map, List.map_drop, h.mask.len]
  refine ⟨h1, ?_, ?_⟩
  · unfold MaskedV.elementCell
    rw [elementOffset_eq_dataOffset, elementOffset_eq_dataOffset]
    exact h1
  · unfold MaskedV.atCell
    rw [if_pos, h1]
    have := C09_no_throw v.data.shape idx v.data.strides hb hx
    unfold atOffset at this
    unfold MaskedV.shape
    by_contra hc
    rw [if_neg hc] at this
    exact absurd this (by simp)

/-- Iteration visits every element once in the order asked for, each with the flag that belongs to it. -/
theorem C82_traversal_partial (v : MaskedV) (h : Masks v) (L : Layout) (hL : L = .row_major ∨ L = .column_major) :
    v.each L = (orderIndices L v.data.shape).map (maskCell v) := by
  unfold MaskedV.each MaskedV.first
  refine walk_eq_map hL (masked_fwd h) (maskCell v) (masked_at h) _ ?_ _ ?_ _ (by rw [data_size])
  · exact ⟨XAt_begin (le_refl _), XAt_begin h.fits.1⟩
  · simp [MaskedV.last, XIter.mkEnd, foldl_mul_eq, MaskedV.shape]

/-- Backwards: the same elements in the opposite order; the mask may not be 0-dimensional unless the data are. -/
theorem C82_reverse_partial (v : MaskedV) (h : Masks v) (L : Layout) (hL : L = .row_major ∨ L = .column_major)
    (hz : v.mask.shape ≠ [] ∨ v.data.shape = []) :
    v.eachBack L = ((orderIndices L v.data.shape).map (maskCell v)).reverse := by
  have hd : v.data.shape ≠ [] ∨ v.data.shape = [] := by
    by_cases hq : v.data.shape = []
    · exact Or.inr hq
    · exact Or.inl hq
  have hB := back_pair (xstepper_back h.data (broadcastsTo_refl _) hL hd) (xstepper_back h.mask h.fits hL hz)
  unfold MaskedV.eachBack MaskedV.last MaskedV.ops MaskedV.first MaskedV.shape
  rw [stepOffset_le (le_refl _), stepOffset_le h.fits.1]
  exact walkBack_eq_map hL hB (maskCell v) (masked_at h) _ ⟨rfl, rfl⟩ _ rfl _ (by rw [data_size])

/-! ### Writing -/

variable {α : Type}

theorem Mem.set_self {β : Type} (m : Mem β) (p : Int) : m.set p (m p) = m := by
  funext q; unfold Mem.set; split
  · rename_i h; rw [h]
  · rfl

/-- One conditional store per index. -/
theorem foldl_stored (v : MaskedV) (hD : Distinct v.data) (g : List Nat → α → α)
    (step : MaskMem α → List Nat → MaskMem α)
    (hs : ∀ m idx, step m idx = if m.vis (maskCell v idx).2 then
      { m with vals := m.vals.set (maskCell v idx).1 (g idx (m.vals (maskCell v idx).1)) } else m) :
    ∀ (ids : List (List Nat)), ids.Nodup → (∀ i ∈ ids, InBounds v.data.shape i) → ∀ m : MaskMem α,
      (∀ i ∈ ids, (ids.foldl step m).vals (maskCell v i).1 =
        if m.vis (maskCell v i).2 then g i (m.vals (maskCell v i).1) else m.vals (maskCell v i).1) ∧
      (∀ p, (∀ i ∈ ids, p ≠ (maskCell v i).1) → (ids.foldl step m).vals p = m.vals p) ∧
      (ids.foldl step m).vis = m.vis := by
  intro ids
  induction ids with
  | nil => intro _ _ m; exact ⟨by simp, fun _ _ => rfl, rfl⟩
  | cons i ids ih =>
    intro hn hb m
    obtain ⟨hni, hn⟩ := List.nodup_cons.1 hn
    have hbi := hb i (by simp)
    obtain ⟨h1, h2, h3⟩ := ih hn (fun j hj => hb j (List.mem_cons_of_mem _ hj)) (step m i)
    have hvis : (step m i).vis = m.vis := by rw [hs]; split <;> rfl
    have hne : ∀ j ∈ ids, (maskCell v j).1 ≠ (maskCell v i).1 := by
      intro j hj he
      have := hD j i (hb j (List.mem_cons_of_mem _ hj)) hbi he
      exact hni (this ▸ hj)
    have hother : ∀ p, p ≠ (maskCell v i).1 → (step m i).vals p = m.vals p := by
      intro p hp
      rw [hs]; split
      · simp [Mem.set, hp]
      · rfl
    simp only [List.foldl_cons]
    refine ⟨?_, ?_, by rw [h3, hvis]⟩
    · intro j hj
      rcases List.mem_cons.1 hj with rfl | hj
      · rw [h2 _ (fun k hk => (hne k hk).symm), hs]
        split <;> simp_all [Mem.set]
      · rw [h1 j hj, hvis, hother _ (hne j hj)]
    · intro p hp
      rw [h2 p (fun j hj => hp j (List.mem_cons_of_mem _ hj)), hother p (hp i (by simp))]

theorem nodup_orderIndices (L : Layout) (sh : List Nat) : (orderIndices L sh).Nodup := by
  have h : ((orderIndices L sh).map (rankIn L sh)).Nodup := by
    rw [map_rankIn_orderIndices]; exact List.nodup_range
  exact List.Nodup.of_map _ h

theorem stored_of_fold (v : MaskedV) (hD : Distinct v.data) (g : List Nat → α → α)
    (step : MaskMem α → List Nat → MaskMem α)
    (hs : ∀ m idx, step m idx = if m.vis (maskCell v idx).2 then
      { m with vals := m.vals.set (maskCell v idx).1 (g idx (m.vals (maskCell v idx).1)) } else m) (m : MaskMem α) :
    Stored v g m ((orderIndices .row_major v.data.shape).foldl step m) := by
  obtain ⟨h1, h2, h3⟩ := foldl_stored v hD g step hs _ (nodup_orderIndices .row_major v.data.shape)
    (fun i hi => mem_orderIndices.1 hi) m
  exact ⟨fun idx hb => h1 idx (mem_orderIndices.2 hb), fun p hp => h2 p fun i hi => hp i (mem_orderIndices.1 hi), h3⟩

theorem putMasked_eq {rule : α × Bool → α × Bool → α × Bool} (hr : MaskRule rule) (m : MaskMem α) (c : Int × Int) (x : α)
    (b : Bool) (hb : m.vis c.2 = true → b = true) :
    m.putMasked rule c (x, b) = if m.vis c.2 then { m with vals := m.vals.set c.1 x } else m := by
  unfold MaskMem.putMasked
  cases hv : m.vis c.2 with
  | true =>
    rw [hb hv, hr.visible, if_pos rfl]
    simp only
    rw [← hv, Mem.set_self]
  | false =>
    rw [hr.hidden, if_neg (by simp)]
    simp only
    rw [Mem.set_self, ← hv, Mem.set_self]

/-- `fill(x)` and `view = x` set exactly the visible elements. -/
theorem C82_fill (v : MaskedV) (h : Masks v) (hD : Distinct v.data) (x : α) (m : MaskMem α) :
    Stored v (fun _ _ => x) m (v.fill x m) := by
  unfold MaskedV.fill
  rw [C82_traversal_partial v h _ (Or.inl rfl), List.foldl_map]
  exact stored_of_fold v hD _ _ (fun _ _ => rfl) m

/-- `view += x` and the like change exactly the visible elements. -/
theorem C82_scalar_op (rule : α × Bool → α × Bool → α × Bool) (hr : MaskRule rule) (v : MaskedV) (h : Masks v)
    (hD : Distinct v.data) (f : α → α) (m : MaskMem α) :
    Stored v (fun _ old => f old) m (v.scalarOp rule f m) := by
  unfold MaskedV.scalarOp
  rw [C82_traversal_partial v h _ (Or.inl rfl), List.foldl_map]
  exact stored_of_fold v hD _ _ (fun m idx => putMasked_eq hr m _ _ _ id) m

/-- `view = e` for an expression of plain values, of the shape of the view or broadcast to it: the visible elements get the
values of the expression as it was, nothing else changes. -/
theorem C82_assign (rule : α × Bool → α × Bool → α × Bool) (hr : MaskRule rule) (v : MaskedV) (h : Masks v)
    (hD : Distinct v.data) (hx : szMax ∉ v.data.shape) (e : Ex α) (s : List Nat) (he : e.exShape = some s) (hf : Fits s e)
    (hs : BroadcastsTo s v.data.shape) (m : MaskMem α) :
    ∃ m', v.assign rule e m = some (some m') ∧ Stored v (fun idx _ => valueAt e idx) m m' := by
  have key : ∀ r : Ex α, Fits v.data.shape r → (∀ idx, InBounds v.data.shape idx → valueAt r idx = valueAt e idx) →
      ∃ m', v.copyIn rule ((r.values .row_major v.data.shape).map fun (x : α) => (x, true)) m = some m' ∧
        Stored v (fun idx _ => valueAt e idx) m m' := by
    intro r hfr hv
    unfold MaskedV.copyIn
    rw [C82_traversal_partial v h _ (Or.inl rfl), C22_iteration _ (Or.inl rfl) _ _ hfr, List.map_map]
    rw [if_neg (by simp)]
    refine ⟨_, rfl, ?_⟩
    rw [List.zip_map', List.foldl_map]
    have hg : (orderIndices .row_major v.data.shape).map (fun i => (i, valueAt r i)) =
        (orderIndices .row_major v.data.shape).map (fun i => (i, valueAt e i)) := by
      apply List.map_congr_left
      intro i hi
      rw [hv i (mem_orderIndices.1 hi)]
    have hfold : (orderIndices .row_major v.data.shape).foldl (fun (m : MaskMem α) i =>
          m.putMasked rule (maskCell v i) (valueAt r i, true)) m =
        (orderIndices .row_major v.data.shape).foldl (fun (m : MaskMem α) i =>
          m.putMasked rule (maskCell v i) (valueAt e i, true)) m := by
      have := congrArg (fun l => l.foldl (fun (m : MaskMem α) (p : List Nat × α) =>
        m.putMasked rule (maskCell v p.1) (p.2, true)) m) hg
      simpa only [List.foldl_map] using this
    simp only [Function.comp]
    rw [hfold]
    exact stored_of_fold v hD _ _ (fun m idx => putMasked_eq hr m _ _ _ fun _ => rfl) m
  unfold MaskedV.assign MaskedV.shape
  rw [he]
  simp only
  by_cases hsq : s = v.data.shape
  · rw [if_pos hsq]
    subst hsq
    obtain ⟨m', h1, h2⟩ := key e hf (fun _ _ => rfl)
    exact ⟨m', by rw [h1], h2⟩
  · rw [if_neg hsq]
    obtain ⟨t, ht⟩ := (C06_broadcastable_iff s v.data.shape hx).1 ((broadcastable_iff_broadcastsTo _ _).2 hs)
    rw [ht]
    obtain ⟨m', h1, h2⟩ := key (.bcast e v.data.shape) ⟨broadcastsTo_refl _, Ex.fits_trans hs e hf⟩
      (fun idx hb => value_bcast_self hb)
    exact ⟨m', by simp only [Option.map_some]; rw [h1], h2⟩

/-- `view = masked view`: if mask and data have one shape, every element and its flag become what assigning the masked
value makes of them. -/
theorem C82_assign_masked_partial (rule : α × Bool → α × Bool → α × Bool) (v : MaskedV) (h : Masks v)
    (hsh : v.mask.shape = v.data.shape) (hD : Distinct v.data) (hM : Distinct v.mask) (val : List Nat → α × Bool)
    (m : MaskMem α) :
    ∃ m', v.copyIn rule ((orderIndices .row_major v.data.shape).map val) m = some m' ∧
      (∀ idx, InBounds v.data.shape idx → (m'.vals (addr v.data idx), m'.vis (addr v.mask idx)) =
        rule (m.vals (addr v.data idx), m.vis (addr v.mask idx)) (val idx)) ∧
      (∀ p, (∀ idx, InBounds v.data.shape idx → p ≠ addr v.data idx) → m'.vals p = m.vals p) ∧
      (∀ p, (∀ idx, InBounds v.data.shape idx → p ≠ addr v.mask idx) → m'.vis p = m.vis p) := by
  unfold MaskedV.copyIn
  rw [C82_traversal_partial v h _ (Or.inl rfl), if_neg (by simp)]
  refine ⟨_, rfl, ?_⟩
  rw [List.zip_map', List.foldl_map]
  have hc : ∀ i, InBounds v.data.shape i → maskCell v i = (addr v.data i, addr v.mask i) := by
    intro i hb
    unfold maskCell
    rw [hsh, bcIndex_self hb]
  have key : ∀ (ids : List (List Nat)), ids.Nodup → (∀ i ∈ ids, InBounds v.data.shape i) → ∀ m : MaskMem α,
      let m' := ids.foldl (fun (m : MaskMem α) i => m.putMasked rule (maskCell v i) (val i)) m
      (∀ i ∈ ids, (m'.vals (addr v.data i), m'.vis (addr v.mask i)) =
        rule (m.vals (addr v.data i), m.vis (addr v.mask i)) (val i)) ∧
      (∀ p, (∀ i ∈ ids, p ≠ addr v.data i) → m'.vals p = m.vals p) ∧
      (∀ p, (∀ i ∈ ids, p ≠ addr v.mask i) → m'.vis p = m.vis p) := by
    intro ids
    induction ids with
    | nil => intro _ _ m; exact ⟨by simp, fun _ _ => rfl, fun _ _ => rfl⟩
    | cons i ids ih =>
      intro hn hb m
      obtain ⟨hni, hn⟩ := List.nodup_cons.1 hn
      have hbi := hb i (by simp)
      have hbt := fun j hj => hb j (List.mem_cons_of_mem i hj)
      obtain ⟨h1, h2, h3⟩ := ih hn hbt (m.putMasked rule (maskCell v i) (val i))
      have hne : ∀ j ∈ ids, addr v.data j ≠ addr v.data i := fun j hj he =>
        hni (hD j i (hbt j hj) hbi he ▸ hj)
      have hnm : ∀ j ∈ ids, addr v.mask j ≠ addr v.mask i := fun j hj he =>
        hni (hM j i (hsh ▸ hbt j hj) (hsh ▸ hbi) he ▸ hj)
      have e : m.putMasked rule (maskCell v i) (val i) =
          ⟨m.vals.set (addr v.data i) (rule (m.vals (addr v.data i), m.vis (addr v.mask i)) (val i)).1,
            m.vis.set (addr v.mask i) (rule (m.vals (addr v.data i), m.vis (addr v.mask i)) (val i)).2⟩ := by
        rw [hc i hbi]; rfl
      rw [e] at h1 h2 h3
      simp only [List.foldl_cons]
      rw [e]
      refine ⟨?_, ?_, ?_⟩
      · intro j hj
        rcases List.mem_cons.1 hj with rfl | hj
        · rw [h2 _ (fun k hk => (hne k hk).symm), h3 _ (fun k hk => (hnm k hk).symm)]
          simp [Mem.set]
        · rw [h1 j hj]
          simp [Mem.set, hne j hj, hnm j hj]
      · intro p hp
        rw [h2 p (fun j hj => hp j (List.mem_cons_of_mem _ hj))]
        simp [Mem.set, hp i (by simp)]
      · intro p hp
        rw [h3 p (fun j hj => hp j (List.mem_cons_of_mem _ hj))]
        simp [Mem.set, hp i (by simp)]
  obtain ⟨h1, h2, h3⟩ := key _ (nodup_orderIndices .row_major v.data.shape) (fun i hi => mem_orderIndices.1 hi) m
  exact ⟨fun idx hb => h1 idx (mem_orderIndices.2 hb), fun p hp => h2 p fun i hi => hp i (mem_orderIndices.1 hi),
    fun p hp => h3 p fun i hi => hp i (mem_orderIndices.1 hi)⟩

/-- `array = masked view`: every element of the array gets the value and the flag at its index, unless the array is
contiguous in another than row-major order and has the strides of both the array and the mask viewed. -/
theorem C82_into_partial (v : MaskedV) (h : Masks v) (d : StridedArr) (hd : d.WF) (hs : d.shape = v.data.shape)
    (contig : Bool) (L : Layout) (hrow : contig = true → v.data.strides = d.strides → v.mask.strides = d.strides →
      Contig .row_major d) (p : Int × (Int × Int)) :
    p ∈ v.into d contig L ↔ ∃ idx, InBounds d.shape idx ∧ p = (addr d idx, maskCell v idx) := by
  have hsize : d.size = numel d.shape := by unfold StridedArr.size; rw [foldl_mul_eq]; omega
  unfold MaskedV.into
  by_cases hl : contig && v.hasLinear d.strides
  · rw [if_pos hl]
    have hc : Contig .row_major d := by
      simp only [MaskedV.hasLinear, Bool.and_eq_true, beq_iff_eq] at hl
      exact hrow hl.1 hl.2.1 hl.2.2
    have e : (List.range d.size).map (fun (i : Nat) => d.off + (i : Int)) =
        (orderIndices .row_major d.shape).map (addr d) := by
      rw [hsize, ← map_rankIn_orderIndices .row_major d.shape, List.map_map]
      apply List.map_congr_left
      intro i hi
      simp only [Function.comp, addr]
      rw [hc i (mem_orderIndices.1 hi)]
    rw [e, C82_traversal_partial v h _ (Or.inl rfl), ← hs, List.zip_map']
    simp only [List.mem_map, mem_orderIndices]
    exact ⟨fun ⟨i, hi, he⟩ => ⟨i, hi, he.symm⟩, fun ⟨i, hi, he⟩ => ⟨i, hi, he.symm⟩⟩
  · rw [if_neg hl]
    have hLa : Layout.defaultAssignable .row_major L = .row_major ∨
        Layout.defaultAssignable .row_major L = .column_major := by
      unfold Layout.defaultAssignable; split <;> simp_all
    have hF : FwdLaw (pairOps (xstepperOps d 0) (v.ops d.shape.length)) d.shape
        (fun q idx => XAt d q.1 idx ∧ XAt v.data q.2.1 idx ∧ XAt v.mask q.2.2 idx) := by
      have h1 := xstepper_fwd hd (broadcastsTo_refl d.shape)
      rw [Nat.sub_self] at h1
      have h2 := masked_fwd h
      rw [← hs, show v.shape.length = d.shape.length by rw [hs]; rfl] at h2
      exact fwd_pair h1 h2
    rw [walk_eq_map hLa hF (fun idx => (addr d idx, maskCell v idx)) ?_ _ ?_ _ ?_ _ (by rw [hsize])]
    · simp only [List.mem_map, mem_orderIndices]
      exact ⟨fun ⟨i, hi, he⟩ => ⟨i, hi, he.symm⟩, fun ⟨i, hi, he⟩ => ⟨i, hi, he.symm⟩⟩
    · intro st idx hR hb
      have h1 := XAt_eq hd (broadcastsTo_refl _) hR.1 hb
      rw [bcIndex_self hb] at h1
      exact Prod.ext h1 (masked_at h _ _ hR.2 (hs ▸ hb))
    · exact ⟨XAt_begin (le_refl _), XAt_begin (by rw [hs]), XAt_begin (by rw [hs]; exact h.fits.1)⟩
    · simp [XIter.mkEnd, foldl_mul_eq]

/-! ### Where it fails -/

/-- A container of the given shape whose storage starts at 0. -/
def maskArr (l : Layout) (sh : List Nat) : StridedArr := StridedArr.mk' sh (computeStrides l l sh).1 0

/-- Two rows of three, a mask for the columns. -/
def rowMasked : MaskedV := ⟨maskArr .row_major [2, 3], maskArr .row_major [3]⟩

theorem maskArr_wf (l : Layout) (sh : List Nat) (h1 : (computeStrides l l sh).1.length = sh.length)
    (h2 : ∀ k, k < sh.length → sh.getD k 0 = 1 → (computeStrides l l sh).1.getD k 0 = 0) : (maskArr l sh).WF :=
  ⟨h1, fun k hk => by
    by_cases hlt : k < sh.length
    · exact h2 k hlt hk
    · have : sh.getD k 0 = 0 := by simp [List.getD_eq_getElem?_getD, List.getElem?_eq_none (Nat.le_of_not_lt hlt)]
      have hk : sh.getD k 0 = 1 := hk
      omega, fun k => StridedArr.mk'_back _ _ _ h1 k⟩

/-- The hypotheses are met: a mask for the columns, and the elements of the data are distinct. -/
theorem rowMasked_masks : Masks rowMasked :=
  ⟨maskArr_wf _ _ rfl (by decide), maskArr_wf _ _ rfl (by decide), by decide⟩

theorem maskArr_distinct_row (sh : List Nat) : Distinct (maskArr .row_major sh) := by
  intro i j hi hj he
  have h1 := dot_computeStrides_row (L := .row_major) (l := .row_major) (Or.inl rfl) hi
  have h2 := dot_computeStrides_row (L := .row_major) (l := .row_major) (Or.inl rfl) hj
  unfold addr at he
  have e : (maskArr .row_major sh).strides = (computeStrides .row_major .row_major sh).1 := rfl
  rw [e] at he
  have h1 : dot (computeStrides .row_major .row_major sh).1 (toInts i) = (rowRank sh i : Int) := h1
  have h2 : dot (computeStrides .row_major .row_major sh).1 (toInts j) = (rowRank sh j : Int) := h2
  exact rankIn_inj (L := .row_major) hi hj (by show rowRank sh i = rowRank sh j; omega)

/-- `masked = masked` where a masked right-hand side hides the destination. -/
def hideRule {α : Type} (l r : α × Bool) : α × Bool := if l.2 && r.2 then (r.1, true) else (l.1, false)

theorem hideRule_ok {α : Type} : MaskRule (hideRule (α := α)) :=
  ⟨fun _ _ => rfl, fun _ _ => by simp [hideRule]⟩

/-- Values equal to their addresses, the first two columns visible. -/
def someMem : MaskMem Int := ⟨fun p => p, fun p => decide (p < 2)⟩

example : rowMasked.cell [1, 2] = (5, 2) ∧ rowMasked.atCell [1, 2] = some (5, 2) := by decide
example := C82_access rowMasked rowMasked_masks
  (fun s hs => by simp [rowMasked, maskArr, StridedArr.mk'] at hs; unfold ExtentFits; omega) [1, 2] (by decide)
example : rowMasked.each .row_major = [(0, 0), (1, 1), (2, 2), (3, 0), (4, 1), (5, 2)] := by decide
example : rowMasked.each .column_major = [(0, 0), (3, 0), (1, 1), (4, 1), (2, 2), (5, 2)] := by decide
example := C82_traversal_partial rowMasked rowMasked_masks .column_major (Or.inr rfl)
example : rowMasked.eachBack .row_major = [(5, 2), (4, 1), (3, 0), (2, 2), (1, 1), (0, 0)] := by decide
example := C82_reverse_partial rowMasked rowMasked_masks .row_major (Or.inl rfl) (Or.inl (by decide))
example : ((List.range 6).map fun (i : Nat) => (rowMasked.fill 7 someMem).vals i) = [7, 7, 2, 7, 7, 5] := by decide
example := C82_fill rowMasked rowMasked_masks (maskArr_distinct_row [2, 3]) 7 someMem
example : ((List.range 6).map fun (i : Nat) => (rowMasked.scalarOp hideRule (· + 10) someMem).vals i) =
    [10, 11, 2, 13, 14, 5] := by decide
example := C82_scalar_op hideRule hideRule_ok rowMasked rowMasked_masks (maskArr_distinct_row [2, 3]) (· + 10) someMem
example : (rowMasked.assign hideRule (.arr (maskArr .row_major [2, 1]) fun p => 20 + p) someMem).isSome = true := by decide
example := C82_assign hideRule hideRule_ok rowMasked rowMasked_masks (maskArr_distinct_row [2, 3]) (by decide)
  (.arr (maskArr .row_major [2, 1]) fun p => 20 + p) [2, 1] rfl
  ⟨maskArr_wf _ _ rfl (by decide), broadcastsTo_refl _⟩ (by decide) someMem

/-- Two rows of three with a flag each. -/
def fullMasked : MaskedV := ⟨maskArr .row_major [2, 3], maskArr .row_major [2, 3]⟩

theorem fullMasked_masks : Masks fullMasked :=
  ⟨maskArr_wf _ _ rfl (by decide), maskArr_wf _ _ rfl (by decide), by decide⟩

example := C82_assign_masked_partial hideRule fullMasked fullMasked_masks rfl (maskArr_distinct_row _)
  (maskArr_distinct_row _) (fun idx => (idx.sum, decide (idx.sum < 2))) ⟨fun p => p.toNat, fun p => decide (p < 2)⟩
example := C82_into_partial fullMasked fullMasked_masks (maskArr .row_major [2, 3]) fullMasked_masks.data rfl true .row_major
  (fun _ _ _ _ hb => dot_computeStrides_row (L := .row_major) (l := .row_major) (Or.inl rfl) hb) (4, (4, 4))
example : (fullMasked.into (maskArr .column_major [2, 3]) true .column_major) =
    [(0, 0, 0), (1, 3, 3), (2, 1, 1), (3, 4, 4), (4, 2, 2), (5, 5, 5)] := by decide

/-- A mask with more axes than the data: access by index takes the first row of the mask, iteration its first element. -/
theorem C82_mask_axes_wrong : ∃ (v : MaskedV), v.data.WF ∧ v.mask.WF ∧
    v.each .row_major ≠ ((orderIndices .row_major v.data.shape).map fun (idx : List Nat) => v.cell (toInts idx)) ∧
    (∀ c ∈ v.each .row_major, c.2 = v.mask.off) ∧ (v.each .row_major).length = 2 :=
  ⟨⟨maskArr .row_major [2], maskArr .row_major [2, 2]⟩, maskArr_wf _ _ rfl (by decide), maskArr_wf _ _ rfl (by decide),
    by decide, by decide, by decide⟩

/-- A mask shorter than the data: `at` does not throw and looks past the last flag. -/
theorem C82_short_mask_wrong : ∃ (v : MaskedV) (c : Int × Int), v.data.WF ∧ v.mask.WF ∧ v.atCell [2] = some c ∧
    ∀ idx, InBounds v.mask.shape idx → addr v.mask idx < c.2 := by
  refine ⟨⟨maskArr .row_major [3], maskArr .row_major [2]⟩, (2, 2), maskArr_wf _ _ rfl (by decide),
    maskArr_wf _ _ rfl (by decide), by decide, fun idx hb => ?_⟩
  have h1 := dot_computeStrides_row (L := .row_major) (l := .row_major) (Or.inl rfl) hb
  have h2 := rankIn_lt (L := .row_major) hb
  have h1 : dot (computeStrides .row_major .row_major [2]).1 (toInts idx) = (rowRank [2] idx : Int) := h1
  have h2 : rowRank [2] idx < numel [2] := h2
  have h3 : numel [2] = 2 := rfl
  show (0 : Int) + dot (computeStrides .row_major .row_major [2]).1 (toInts idx) < 2
  omega

/-- A 0-dimensional mask: reverse iteration looks past the only flag. -/
theorem C82_reverse_scalar_mask_wrong : ∃ (v : MaskedV), Masks v ∧
    v.eachBack .row_major ≠ ((orderIndices .row_major v.data.shape).map (maskCell v)).reverse :=
  ⟨⟨maskArr .row_major [2], maskArr .row_major []⟩,
    ⟨maskArr_wf _ _ rfl (by decide), maskArr_wf _ _ rfl (by decide), by decide⟩, by decide⟩

/-- `array = masked view` with everything in column-major order: the elements arrive transposed. -/
theorem C82_into_column_wrong : ∃ (v : MaskedV) (d : StridedArr), Masks v ∧ d.WF ∧ d.shape = v.data.shape ∧
    Contig .column_major d ∧ ∃ idx, InBounds d.shape idx ∧
      (addr d idx, maskCell v idx) ∉ v.into d true .column_major := by
  refine ⟨⟨maskArr .column_major [2, 3], maskArr .column_major [2, 3]⟩, maskArr .column_major [2, 3],
    ⟨maskArr_wf _ _ rfl (by decide), maskArr_wf _ _ rfl (by decide), by decide⟩, maskArr_wf _ _ rfl (by decide), rfl,
    fun idx hb => ?_, [1, 0], by decide, by decide⟩
  exact dot_computeStrides_col (L := .column_major) (l := .column_major) (by simp) hb

/-- One flag for several elements: assigning masked values, a hidden one hides the elements after it. -/
theorem C82_shared_flag_wrong : ∃ (v : MaskedV) (rule : Int × Bool → Int × Bool → Int × Bool) (val : List Nat → Int × Bool)
    (m m' : MaskMem Int), Masks v ∧ Distinct v.data ∧ MaskRule rule ∧
      v.copyIn rule ((orderIndices .row_major v.data.shape).map val) m = some m' ∧
      ∃ idx, InBounds v.data.shape idx ∧ m.vis (maskCell v idx).2 = true ∧ (val idx).2 = true ∧
        m'.vals (maskCell v idx).1 ≠ (val idx).1 :=
  ⟨⟨maskArr .row_major [2], maskArr .row_major [1]⟩, hideRule, fun idx => (20, decide (idx = [1])),
    ⟨fun p => p, fun _ => true⟩, _,
    ⟨maskArr_wf _ _ rfl (by decide), maskArr_wf _ _ rfl (by decide), by decide⟩, maskArr_distinct_row [2], hideRule_ok, rfl,
    [1], by decide, by decide, by decide, by decide⟩

/-- `view = e` with a larger `e` where the view has extent 1: written past the last element. -/
theorem C82_larger_rhs_wrong : ∃ (v : MaskedV) (e : Ex Int) (m : MaskMem Int), Masks v ∧ e.exShape = some [3] ∧
    ¬ BroadcastsTo [3] v.data.shape ∧ (v.assign hideRule e m).map Option.isSome = some false :=
  ⟨⟨maskArr .row_major [1], maskArr .row_major [1]⟩, .arr (maskArr .row_major [3]) fun p => p, someMem,
    ⟨maskArr_wf _ _ rfl (by decide), maskArr_wf _ _ rfl (by decide), by decide⟩, rfl, by decide, by decide⟩

end Xt
