import Verif.Props.Chunked
import Verif.Lemmas.ReduceImmediateCore
/-!
# C49: chunk iteration and chunk-wise assignment
-/

namespace Xt

open Spec

/-! ### The iterator -/

/-- The slices the iterator holds at a chunk index. -/
def slicesOf (sh cs idx : List Nat) : List (Nat × Nat) :=
  (List.range idx.length).map fun i => fillSlice sh cs i (idx.getD i 0)

theorem slicesOf_set (sh cs idx : List Nat) {a v : Nat} (ha : a < idx.length) :
    slicesOf sh cs (idx.set a v) = (slicesOf sh cs idx).set a (fillSlice sh cs a v) := by
  apply List.ext_getElem (by simp [slicesOf])
  intro k h1 h2
  have hk : k < idx.length := by simpa [slicesOf] using h1
  simp only [slicesOf, List.getElem_map, List.getElem_range, List.getElem_set]
  rw [getD_set_nat ha]
  by_cases e : a = k
  · rw [if_pos e, if_pos e, e]
  · rw [if_neg e, if_neg e]

/-- `operator++` as a stepper on the pair of index and slices. -/
def chunkOps (sh cs : List Nat) : StepOps (List Nat × List (Nat × Nat)) where
  step st a n := (st.1.set a ((st.1.getD a 0 : Int) + n).toNat, st.2.set a (fillSlice sh cs a ((st.1.getD a 0 : Int) + n).toNat))
  stepBack st _ _ := st
  reset st a := (st.1.set a 0, st.2.set a (fillSlice sh cs a 0))
  resetBack st _ := st
  toBegin st := st
  toEnd st _ := st

theorem chunkOps_fwd (sh cs g : List Nat) :
    FwdLaw (chunkOps sh cs) g (fun st idx => st = (idx, slicesOf sh cs idx)) where
  step st idx a n hR hb ha h0 h1 := by
    subst hR
    have hl := hb.length_eq
    rw [slicesOf_set _ _ _ (by omega)]
    rfl
  reset st idx a hR hb ha h1 := by
    subst hR
    have hl := hb.length_eq
    rw [slicesOf_set _ _ _ (by omega)]
    rfl

theorem chunkIncLoop_eq (sh cs g : List Nat) : ∀ (k : Nat) (idx : List Nat) (sl : List (Nat × Nat)),
    (incLoop (chunkOps sh cs) g (List.range k).reverse (idx, sl) idx).2.2 = false →
    chunkIncLoop sh cs g k idx sl = (incLoop (chunkOps sh cs) g (List.range k).reverse (idx, sl) idx).1
  | 0, idx, sl, h => rfl
  | k + 1, idx, sl, h => by
    rw [List.range_succ, List.reverse_append, List.reverse_singleton, List.singleton_append] at h ⊢
    rw [incLoop] at h ⊢
    rw [chunkIncLoop]
    by_cases hc : idx.getD k 0 + 1 = g.getD k 0
    · rw [if_neg (not_not.2 hc)] at h
      rw [if_neg (not_not.2 hc), if_pos hc]
      cases k with
      | zero => simp [incLoop] at h
      | succ k =>
        have hne : (List.range (k + 1)).reverse ≠ [] := by simp
        rw [if_pos hne] at h ⊢
        exact chunkIncLoop_eq sh cs g (k + 1) _ _ h
    · rw [if_pos hc, if_neg hc]
      have : ((idx.getD k 0 : Int) + 1).toNat = idx.getD k 0 + 1 := by omega
      simp only [chunkOps, this]

theorem chunkInc_eq {sh cs g : List Nat} (hl : g.length = sh.length) {k : Nat} (hk : k + 1 < numel g) :
    chunkInc sh cs g (chunkIt sh cs (nthIndex g k) k) = chunkIt sh cs (nthIndex g (k + 1)) (k + 1) := by
  obtain ⟨hb, hr⟩ := nthIndex_spec (sh := g) (k := k) (by omega)
  have hlen := hb.length_eq
  unfold chunkInc
  rw [foldl_mul_eq, Nat.one_mul]
  simp only []
  rw [if_pos (by show k + 1 ≠ numel g; omega)]
  show ChunkIt.mk (chunkIncLoop sh cs g sh.length (nthIndex g k) (slicesOf sh cs (nthIndex g k))).1 (k + 1)
    (chunkIncLoop sh cs g sh.length (nthIndex g k) (slicesOf sh cs (nthIndex g k))).2 = _
  have hs := incLoop_spec (chunkOps_fwd sh cs g) (List.range sh.length).reverse
    (nthIndex g k, slicesOf sh cs (nthIndex g k)) (nthIndex g k) (by simp [List.nodup_range])
    (by intro a ha; simp at ha; omega) hb rfl
  rw [← hl] at hs
  rcases hs with ⟨h1, h2, h3, h4, -⟩ | ⟨-, h2, -⟩
  · rw [oRank_row h3.length_eq, oRank_row hlen, hr] at h4
    have e : (incLoop (chunkOps sh cs) g (List.range g.length).reverse (nthIndex g k, slicesOf sh cs (nthIndex g k))
        (nthIndex g k)).2.1 = nthIndex g (k + 1) := by rw [← h4, nthIndex_rowRank h3]
    rw [← hl, chunkIncLoop_eq _ _ _ _ _ _ h1, h2, e]
    rfl
  · rw [oRank_row hlen, hr] at h2
    have := oNum_axisOrder .row_major g
    rw [axisOrder, if_pos rfl] at this
    omega

theorem nthIndex_zero {g : List Nat} (h : 0 < numel g) : nthIndex g 0 = List.replicate g.length 0 := by
  obtain ⟨hb, hr⟩ := nthIndex_spec h
  have hz := inBounds_zeros hb
  exact rowRank_inj hb hz (by rw [hr, rowRank_zeros])

/-- The loop over the chunks, by invariant. -/
theorem forChunks_inv {σ : Type} {sh cs g : List Nat} (hl : g.length = sh.length) {body : ChunkIt → σ → Res σ}
    (P : Nat → σ → Prop)
    (hstep : ∀ k s, k < numel g → P k s → ∃ s', body (chunkIt sh cs (nthIndex g k) k) s = .ok s' ∧ P (k + 1) s')
    {s : σ} (h0 : P 0 s) : ∃ s', forChunks sh cs g body s = .ok s' ∧ P (numel g) s' := by
  have key : ∀ (fuel k : Nat) (it : ChunkIt) (s : σ), k ≤ numel g → numel g < k + fuel → it.linear = k →
      (k < numel g → it = chunkIt sh cs (nthIndex g k) k) → P k s →
      ∃ s', chunkLoop sh cs g body fuel it s = .ok s' ∧ P (numel g) s' := by
    intro fuel
    induction fuel with
    | zero => intro k it s h1 h2; omega
    | succ fuel ih =>
      intro k it s h1 h2 h3 h4 hP
      rw [chunkLoop, foldl_mul_eq, Nat.one_mul, h3]
      by_cases hk : k = numel g
      · rw [if_pos hk]; exact ⟨s, rfl, hk ▸ hP⟩
      · rw [if_neg hk]
        have hk' : k < numel g := by omega
        obtain ⟨s', e, hP'⟩ := hstep k s hk' hP
        rw [h4 hk', e]
        refine ih (k + 1) _ s' hk' (by omega) rfl (fun h => chunkInc_eq hl h) hP'
  unfold forChunks
  rw [foldl_mul_eq, Nat.one_mul]
  refine key (numel g + 1) 0 _ s (by omega) (by omega) rfl (fun h => ?_) h0
  rw [nthIndex_zero h, hl]; rfl

theorem fillSlice_succ (s c : Nat) (sh cs : List Nat) (i k : Nat) :
    fillSlice (s :: sh) (c :: cs) (i + 1) k = fillSlice sh cs i k := by
  simp [fillSlice, List.getD_eq_getElem?_getD]

theorem slicesOf_eq {sh cs idx : List Nat} (h1 : cs.length = sh.length) (h2 : idx.length = sh.length) :
    slicesOf sh cs idx = chunkBox sh cs idx := by
  induction sh generalizing cs idx with
  | nil =>
    have : idx = [] := List.length_eq_zero_iff.1 h2
    subst this
    cases cs <;> rfl
  | cons s sh ih =>
    cases cs with
    | nil => simp at h1
    | cons c cs => cases idx with
      | nil => simp at h2
      | cons k idx =>
        have := ih (cs := cs) (idx := idx) (by simpa using h1) (by simpa using h2)
        rw [chunkBox, ← this]
        unfold slicesOf
        rw [List.length_cons, List.range_succ_eq_map, List.map_cons, List.map_map]
        congr 1

theorem chunkGrid_length {sh cs : List Nat} (h : cs.length = sh.length) : (chunkGrid sh cs).length = sh.length := by
  simp [chunkGrid, h]

/-- **C49** (iteration).  The loop over the chunks of an array visits the chunks of the grid in row-major order, each once,
and at each of them the iterator holds the part of the array that the chunk covers. -/
theorem C49_visits (sh cs : List Nat) (hl : cs.length = sh.length) :
    forChunks sh cs (chunkGrid sh cs) (fun it (l : List (List Nat × Nat × List (Nat × Nat))) =>
      .ok (l ++ [(it.index, it.linear, it.slices)])) [] =
    .ok ((List.range (numel (chunkGrid sh cs))).map fun k =>
      (nthIndex (chunkGrid sh cs) k, k, chunkBox sh cs (nthIndex (chunkGrid sh cs) k))) := by
  obtain ⟨s', e, h⟩ := forChunks_inv (cs := cs) (chunkGrid_length hl)
    (body := fun it (l : List (List Nat × Nat × List (Nat × Nat))) => .ok (l ++ [(it.index, it.linear, it.slices)]))
    (fun k l => l = (List.range k).map fun k =>
      (nthIndex (chunkGrid sh cs) k, k, chunkBox sh cs (nthIndex (chunkGrid sh cs) k)))
    (fun k l hk hP => ⟨_, rfl, by
      rw [hP, List.range_succ, List.map_append]
      congr 1
      show [(nthIndex _ k, k, slicesOf sh cs (nthIndex _ k))] = _
      rw [slicesOf_eq hl (by rw [(nthIndex_spec hk).1.length_eq, chunkGrid_length hl])]
      rfl⟩) (s := []) rfl
  rw [e, h]

example : forChunks [4, 5] [2, 3] [2, 2] (fun it (l : List (List Nat × List (Nat × Nat))) =>
      .ok (l ++ [(it.index, it.slices)])) [] =
    .ok [([0, 0], [(0, 2), (0, 3)]), ([0, 1], [(0, 2), (3, 5)]), ([1, 0], [(2, 4), (0, 3)]), ([1, 1], [(2, 4), (3, 5)])] := by
  decide

theorem inBox_unique {c k i : Nat} (h : 0 < c) (h1 : k * c ≤ i) (h2 : i < (k + 1) * c) : k = i / c := by
  have a1 : k ≤ i / c := (Nat.le_div_iff_mul_le h).2 h1
  have a2 : i / c < k + 1 := (Nat.div_lt_iff_lt_mul h).2 h2
  omega

/-- **C49** (partition).  The parts of the array held by the chunks cover it without overlap: an index lies in the part of
exactly one chunk, the one that holds it, and every part lies inside the array. -/
theorem C49_partition (sh cs : List Nat) (hl : cs.length = sh.length) (hp : ∀ c ∈ cs, 0 < c) :
    (∀ q, InBounds sh q → InBounds (chunkGrid sh cs) (chunkOf cs q) ∧ InBox (chunkBox sh cs (chunkOf cs q)) q) ∧
    ∀ idx q, InBounds (chunkGrid sh cs) idx → InBox (chunkBox sh cs idx) q → InBounds sh q ∧ idx = chunkOf cs q := by
  refine ⟨fun q hq => ⟨chunkOf_inBounds hl hp hq, ?_⟩, ?_⟩
  · induction sh generalizing cs q with
    | nil =>
      cases cs with
      | nil => cases q with
        | nil => trivial
        | cons _ _ => exact hq.elim
      | cons _ _ => simp at hl
    | cons s sh ih =>
      cases cs with
      | nil => simp at hl
      | cons c cs => cases q with
        | nil => exact hq.elim
        | cons i q =>
          rw [inBounds_cons] at hq
          refine ⟨⟨Nat.div_mul_le_self i c, ?_⟩, ih cs (by simpa using hl) (fun c h => hp c (by simp [h])) q hq.2⟩
          have := Nat.lt_div_mul_add (a := i) (hp c (by simp))
          rw [Nat.lt_min]
          refine ⟨?_, hq.1⟩
          show i < (i / c + 1) * c
          rw [Nat.add_mul]; omega
  · induction sh generalizing cs with
    | nil =>
      intro idx q h1 h2
      cases cs with
      | nil => cases idx with
        | nil => cases q with
          | nil => exact ⟨trivial, rfl⟩
          | cons _ _ => exact h2.elim
        | cons _ _ => exact h1.elim
      | cons _ _ => simp at hl
    | cons s sh ih =>
      intro idx q h1 h2
      cases cs with
      | nil => simp at hl
      | cons c cs => cases idx with
        | nil => exact h1.elim
        | cons k idx => cases q with
          | nil => exact h2.elim
          | cons i q =>
            obtain ⟨⟨b1, b2⟩, b3⟩ := h2
            rw [Nat.lt_min] at b2
            obtain ⟨r1, r2⟩ := ih cs (by simpa using hl) (fun c h => hp c (by simp [h])) idx q h1.2 b3
            refine ⟨⟨b2.2, r1⟩, ?_⟩
            show k :: idx = i / c :: chunkOf cs q
            rw [← r2, ← inBox_unique (hp c (by simp)) b1 b2.1]

/-! ### Boxes as slices -/

/-- Extents of the part of the array held by a chunk. -/
def boxW : List Nat → List Nat → List Nat → List Nat
  | s :: sh, c :: cs, k :: idx => (min ((k + 1) * c) s - k * c) :: boxW sh cs idx
  | _, _, _ => []

/-- Where the part starts, per axis. -/
def boxFrom (cs idx : List Nat) : List (Nat → Nat) := List.zipWith (fun c k => (k * c + ·)) cs idx

/-- Selection of the front of every axis. -/
def frontFrom (w : List Nat) : List (Nat → Nat) := w.map fun _ => (0 + ·)

theorem applySel_front {w q : List Nat} (h : q.length = w.length) : applySel (frontFrom w) q = q := by
  induction w generalizing q with
  | nil => rw [List.length_eq_zero_iff.1 h]; rfl
  | cons x w ih =>
    cases q with
    | nil => simp at h
    | cons i q =>
      show (0 + i) :: applySel (frontFrom w) q = _
      rw [ih (by simpa using h), Nat.zero_add]

theorem grid_start_lt {s c k : Nat} (hc : 0 < c) (hk : k < (s + c - 1) / c) : k * c < s := by
  have h := (Nat.le_div_iff_mul_le hc).1 (Nat.succ_le_of_lt hk)
  rw [Nat.succ_mul] at h
  omega

theorem box_sels {sh cs idx : List Nat} (hl : cs.length = sh.length) (hp : ∀ c ∈ cs, 0 < c)
    (hb : InBounds (chunkGrid sh cs) idx) :
    Sels sh ((chunkBox sh cs idx).map fun (p : Nat × Nat) => .range (some (p.1 : Int)) (some (p.2 : Int)) none)
      (boxW sh cs idx) (boxFrom cs idx) := by
  induction sh generalizing cs idx with
  | nil =>
    rw [List.length_eq_zero_iff.1 hl] at hb ⊢
    cases idx with
    | nil => exact .nil
    | cons _ _ => exact hb.elim
  | cons s sh ih =>
    cases cs with
    | nil => simp at hl
    | cons c cs => cases idx with
      | nil => exact hb.elim
      | cons k idx =>
        have hc := hp c (by simp)
        have h1 := grid_start_lt hc hb.1
        have h2 : (k + 1) * c = k * c + c := Nat.succ_mul k c
        refine .cons (AxSel.up (a := k * c) (by omega) rfl (by
            show ((min ((k + 1) * c) s : Nat) : Int) = _
            generalize (k + 1) * c = A at *
            generalize k * c = B at *
            omega))
          (ih (by simpa using hl) (fun c h => hp c (by simp [h])) hb.2)

theorem chunkSv_succ (s c k : Nat) (sh cs idx : List Nat) (n : Nat) (l : List (Nat × Nat)) :
    (ChunkIt.mk (k :: idx) n l).chunkSv (s :: sh) (c :: cs) =
      .range (some 0) (some ((min c (s - k * c) : Nat) : Int)) none :: (ChunkIt.mk idx n l).chunkSv sh cs := by
  unfold ChunkIt.chunkSv
  simp only [List.length_cons]
  rw [List.range_succ_eq_map, List.map_cons, List.map_map]
  congr 1

theorem front_sels {sh cs idx : List Nat} (n : Nat) (l : List (Nat × Nat)) (hl : cs.length = sh.length)
    (hp : ∀ c ∈ cs, 0 < c) (hb : InBounds (chunkGrid sh cs) idx) :
    Sels cs ((ChunkIt.mk idx n l).chunkSv sh cs) (boxW sh cs idx) (frontFrom (boxW sh cs idx)) := by
  induction sh generalizing cs idx with
  | nil =>
    rw [List.length_eq_zero_iff.1 hl] at hb ⊢
    cases idx with
    | nil => exact .nil
    | cons _ _ => exact hb.elim
  | cons s sh ih =>
    cases cs with
    | nil => simp at hl
    | cons c cs => cases idx with
      | nil => exact hb.elim
      | cons k idx =>
        have hc := hp c (by simp)
        have h1 := grid_start_lt hc hb.1
        have h2 : (k + 1) * c = k * c + c := Nat.succ_mul k c
        rw [chunkSv_succ]
        exact .cons (AxSel.up (a := 0) (by omega) rfl (by push_cast; omega))
          (ih (by simpa using hl) (fun c h => hp c (by simp [h])) hb.2)

/-- An index is the start of its chunk plus its place inside. -/
theorem box_inside {sh cs q : List Nat} (hl : cs.length = sh.length) (hp : ∀ c ∈ cs, 0 < c) (hq : InBounds sh q) :
    InBounds (boxW sh cs (chunkOf cs q)) (insideChunk cs q) ∧
      applySel (boxFrom cs (chunkOf cs q)) (insideChunk cs q) = q := by
  induction sh generalizing cs q with
  | nil =>
    rw [List.length_eq_zero_iff.1 hl]
    cases q with
    | nil => exact ⟨trivial, rfl⟩
    | cons _ _ => exact hq.elim
  | cons s sh ih =>
    cases cs with
    | nil => simp at hl
    | cons c cs => cases q with
      | nil => exact hq.elim
      | cons i q =>
        rw [inBounds_cons] at hq
        obtain ⟨r1, r2⟩ := ih (by simpa using hl) (fun c h => hp c (by simp [h])) hq.2
        have hm := Nat.mod_lt i (hp c (by simp))
        have hd : i / c * c + i % c = i := by rw [Nat.mul_comm]; exact Nat.div_add_mod i c
        constructor
        · refine ⟨?_, r1⟩
          show i % c < min ((i / c + 1) * c) s - i / c * c
          have h2 : (i / c + 1) * c = i / c * c + c := Nat.succ_mul _ c
          omega
        · show (i / c * c + i % c) :: applySel (boxFrom cs (chunkOf cs q)) (insideChunk cs q) = _
          rw [r2, hd]

/-- An index selected by a box lies in the chunk of the box. -/
theorem box_chunk {sh cs idx p : List Nat} (hl : cs.length = sh.length) (hp : ∀ c ∈ cs, 0 < c)
    (hb : InBounds (chunkGrid sh cs) idx) (h : InBounds (boxW sh cs idx) p) :
    chunkOf cs (applySel (boxFrom cs idx) p) = idx := by
  induction sh generalizing cs idx p with
  | nil =>
    rw [List.length_eq_zero_iff.1 hl] at hb ⊢
    cases idx with
    | nil => rfl
    | cons _ _ => exact hb.elim
  | cons s sh ih =>
    cases cs with
    | nil => simp at hl
    | cons c cs => cases idx with
      | nil => exact hb.elim
      | cons k idx => cases p with
        | nil => exact h.elim
        | cons i p =>
          have r := ih (by simpa using hl) (fun c h => hp c (by simp [h])) hb.2 h.2
          have h1 : i < min ((k + 1) * c) s - k * c := h.1
          show (k * c + i) / c :: chunkOf cs (applySel (boxFrom cs idx) p) = _
          rw [r, ← inBox_unique (hp c (by simp)) (show k * c ≤ k * c + i by omega) (by omega)]

theorem gridPos_eq {α : Type} (b : Buf α) (hw : b.WF) {k : Nat} (hk : k < numel b.shape) :
    gridPos b k = .ok (travRank b.layout b.shape (nthIndex b.shape k)) := by
  unfold gridPos
  have e : (rowIndices b.shape)[k]? = some (nthIndex b.shape k) := by
    rw [rowIndices_eq_nth, List.getElem?_map, List.getElem?_range hk]; rfl
  rw [e]
  exact elementPos_eq b hw (nthIndex_spec hk).1

theorem assignWhole_spec {α : Type} [Inhabited α] (c : Buf α) (sh : List Nat) (val : List Nat → α) :
    (assignWhole c sh val).WF ∧ ∀ q, InBounds sh q → (assignWhole c sh val).read q = val q := by
  constructor
  · show (List.map _ _).length = _
    rw [List.length_map, length_storageIndices]; rfl
  · intro q hq
    rw [Buf.read_eq _ (by exact hq)]
    show ((storageIndices c.layout sh).map val).getD (travRank c.layout sh q) default = _
    rw [List.getD_eq_getElem?_getD, List.getElem?_map, storageIndices_get _ hq]; rfl

theorem it_sv {sh cs idx : List Nat} (n : Nat) (hl : cs.length = sh.length) (hb : InBounds (chunkGrid sh cs) idx) :
    (chunkIt sh cs idx n).sv =
      (chunkBox sh cs idx).map fun (p : Nat × Nat) => .range (some (p.1 : Int)) (some (p.2 : Int)) none := by
  show (slicesOf sh cs idx).map _ = _
  rw [slicesOf_eq hl (by rw [hb.length_eq, chunkGrid_length hl])]

theorem boxW_len {sh cs idx : List Nat} (hl : cs.length = sh.length) (hp : ∀ c ∈ cs, 0 < c)
    (hb : InBounds (chunkGrid sh cs) idx) : (boxW sh cs idx).length = sh.length := (box_sels hl hp hb).length.2.1

/-! ### Assignment to a chunked array -/

/-- One turn of the loop: the chunk gets the part of the source it covers. -/
theorem chunkAssignStep_spec {α : Type} [Inhabited α] (e : Buf α) {a : Chunked α} (ha : a.WF)
    (hs : e.shape = a.shape) {k : Nat} (hk : k < numel a.chunks.shape) :
    ∃ c, chunkAssignStep e (chunkIt a.shape a.chunkShape (nthIndex a.chunks.shape k) k) a =
        .ok ⟨a.shape, a.chunkShape, ⟨a.chunks.shape, a.chunks.layout, a.chunks.data.set
          (travRank a.chunks.layout a.chunks.shape (nthIndex a.chunks.shape k)) c⟩⟩ ∧
      c.shape = a.chunkShape ∧ c.WF ∧
      ∀ p, InBounds (boxW a.shape a.chunkShape (nthIndex a.chunks.shape k)) p →
        c.read p = e.read (applySel (boxFrom a.chunkShape (nthIndex a.chunks.shape k)) p) := by
  have hb := (nthIndex_spec hk).1
  have hb' : InBounds (chunkGrid a.shape a.chunkShape) (nthIndex a.chunks.shape k) := by rw [← ha.grid]; exact hb
  have hg := gridPos_eq a.chunks ha.gridWf hk
  generalize nthIndex a.chunks.shape k = idx at *
  have hw : a.chunks.data.length = numel a.chunks.shape := ha.gridWf
  have hlt := travRank_lt a.chunks.layout hb
  rw [← hw] at hlt
  have hsel := box_sels ha.len ha.pos hb'
  rw [← it_sv k ha.len hb', ← hs] at hsel
  rw [hs] at hsel
  obtain ⟨v, v1, v2, v3⟩ := Sels.view (out := e) (by rw [hs]; exact hsel)
  have hvs : v.shape.map Int.toNat = boxW a.shape a.chunkShape idx := by rw [v2, map_toNat_toInts]
  have hval : ∀ p, InBounds (boxW a.shape a.chunkShape idx) p →
      viewAt e v p = e.read (applySel (boxFrom a.chunkShape idx) p) := by
    intro p hp
    unfold viewAt
    rw [v3 p hp, Buf.read, Buf.index_eq]
    rw [hs]; exact hsel.inBounds hp
  obtain ⟨c0, hc0⟩ : ∃ c0, a.chunks.data[travRank a.chunks.layout a.chunks.shape idx]? = some c0 :=
    ⟨_, List.getElem?_eq_getElem hlt⟩
  obtain ⟨hcs, hcw⟩ := ha.chunk c0 (List.mem_of_getElem? hc0)
  have main : ∃ c, (if v.shape.map Int.toNat ≠ a.chunkShape then assignRegion c0
        ((chunkIt a.shape a.chunkShape idx k).chunkSv a.shape a.chunkShape) (v.shape.map Int.toNat) (viewAt e v)
       else .ok (assignWhole c0 (v.shape.map Int.toNat) (viewAt e v))) = .ok c ∧ c.shape = a.chunkShape ∧ c.WF ∧
      ∀ p, InBounds (boxW a.shape a.chunkShape idx) p →
        c.read p = e.read (applySel (boxFrom a.chunkShape idx) p) := by
    rw [hvs]
    by_cases hc : boxW a.shape a.chunkShape idx = a.chunkShape
    · rw [if_neg (not_not.2 hc)]
      obtain ⟨w1, w2⟩ := assignWhole_spec c0 (boxW a.shape a.chunkShape idx) (viewAt e v)
      exact ⟨_, rfl, hc, w1, fun p hp => by rw [w2 p hp, hval p hp]⟩
    · rw [if_pos hc]
      obtain ⟨c, c1, c2, -, c3, c4, -⟩ := assignRegion_spec hcw (us := (chunkIt a.shape a.chunkShape idx k).chunkSv a.shape a.chunkShape)
        (by rw [hcs]; exact front_sels k _ ha.len ha.pos hb') (viewAt e v) (compat_refl _)
      refine ⟨c, c1, by rw [c2, hcs], c3, fun p hp => ?_⟩
      have := c4 p hp
      rw [applySel_front hp.length_eq, broadcastIndex_self hp, hval p hp] at this
      exact this
  obtain ⟨c, m1, m2, m3, m4⟩ := main
  refine ⟨c, ?_, m2, m3, m4⟩
  unfold chunkAssignStep
  rw [v1]
  simp only [Res.bind]
  rw [show (chunkIt a.shape a.chunkShape idx k).linear = k from rfl, hg]
  simp only [hc0, orUb]
  rw [m1]
  rfl

/-- Reading after a chunk has been replaced. -/
theorem get_set_chunk {α : Type} [Inhabited α] {a : Chunked α} (ha : a.WF) {idx : List Nat} (hb : InBounds a.chunks.shape idx)
    {c : Buf α} (hc : c.shape = a.chunkShape) (hcw : c.WF) :
    let a' : Chunked α := ⟨a.shape, a.chunkShape, ⟨a.chunks.shape, a.chunks.layout, a.chunks.data.set
          (travRank a.chunks.layout a.chunks.shape idx) c⟩⟩
    a'.WF ∧ (∀ q, InBounds a.shape q → chunkOf a.chunkShape q = idx → a'.get q = .ok (c.read (insideChunk a.chunkShape q))) ∧
      ∀ q, InBounds a.shape q → chunkOf a.chunkShape q ≠ idx → a'.get q = a.get q := by
  intro a'
  have hw : a.chunks.data.length = numel a.chunks.shape := ha.gridWf
  have hlt := travRank_lt a.chunks.layout hb
  rw [← hw] at hlt
  have hwf : a'.WF := by
    refine ⟨ha.len, ha.pos, ha.grid, ?_, fun d hd => ?_⟩
    · show (a.chunks.data.set _ _).length = _
      rw [List.length_set]; exact ha.gridWf
    · rcases List.mem_or_eq_of_mem_set hd with h | h
      · exact ha.chunk d h
      · rw [h]; exact ⟨hc, hcw⟩
  refine ⟨hwf, fun q hq e => ?_, fun q hq e => ?_⟩
  · obtain ⟨-, -, d, d1, -, d3⟩ := C48_address a' hwf q hq
    have : a'.chunks.data[travRank a'.chunks.layout a'.chunks.shape (chunkOf a'.chunkShape q)]? = some c := by
      show (a.chunks.data.set (travRank a.chunks.layout a.chunks.shape idx) c)[
        travRank a.chunks.layout a.chunks.shape (chunkOf a.chunkShape q)]? = some c
      rw [e, List.getElem?_set_self hlt]
    rw [this] at d1
    cases d1
    exact d3
  · obtain ⟨d, d1, -⟩ := ha.chunk_at hq
    have hne : travRank a.chunks.layout a.chunks.shape idx ≠ travRank a.chunks.layout a.chunks.shape (chunkOf a.chunkShape q) := by
      intro h
      exact e (travRank_inj a.chunks.layout hb (by rw [ha.grid]; exact chunkOf_inBounds ha.len ha.pos hq) h).symm
    have d2 : a'.chunks.data[travRank a'.chunks.layout a'.chunks.shape (chunkOf a'.chunkShape q)]? = some d := by
      show (a.chunks.data.set (travRank a.chunks.layout a.chunks.shape idx) c)[
        travRank a.chunks.layout a.chunks.shape (chunkOf a.chunkShape q)]? = some d
      rw [List.getElem?_set_ne hne, d1]
    rw [ha.get_eq hq d1, hwf.get_eq hq d2]

/-- **C49** (assignment).  Assigning an array to a chunked array of the same shape, through the loop over its chunks,
succeeds and every index then reads the value of the source, partial chunks at the ends of the axes included; the shape
and the chunk shape stay. -/
theorem C49_assign {α : Type} [Inhabited α] (e : Buf α) (a : Chunked α) (ha : a.WF) (hs : e.shape = a.shape) :
    ∃ a', chunkAssign e a = .ok a' ∧ a'.WF ∧ a'.shape = a.shape ∧ a'.chunkShape = a.chunkShape ∧
      ∀ q, InBounds a.shape q → a'.get q = .ok (e.read q) := by
  obtain ⟨a', e1, hP⟩ := forChunks_inv (cs := a.chunkShape) (g := a.chunks.shape) (sh := a.shape)
    (body := chunkAssignStep e) (by rw [ha.grid, chunkGrid_length ha.len])
    (fun k (b : Chunked α) => b.WF ∧ b.shape = a.shape ∧ b.chunkShape = a.chunkShape ∧ b.chunks.shape = a.chunks.shape ∧
      ∀ q, InBounds a.shape q → rowRank a.chunks.shape (chunkOf a.chunkShape q) < k → b.get q = .ok (e.read q))
    (fun k b hk ⟨b1, b2, b3, b4, b5⟩ => by
      obtain ⟨c, c1, c2, c3, c4⟩ := chunkAssignStep_spec e b1 (by rw [hs, b2]) (by rw [b4]; exact hk)
      have hn := nthIndex_spec hk
      obtain ⟨g1, g2, g3⟩ := get_set_chunk b1 (idx := nthIndex b.chunks.shape k) (by rw [b4]; exact hn.1) c2 c3
      rw [b2, b3, b4] at c1 c4
      rw [b2, b3, b4] at g1 g2 g3
      refine ⟨_, c1, g1, rfl, rfl, rfl, fun q hq hr => ?_⟩
      by_cases hc : chunkOf a.chunkShape q = nthIndex a.chunks.shape k
      · rw [g2 q hq hc]
        obtain ⟨i1, i2⟩ := box_inside ha.len ha.pos hq
        rw [hc] at i1 i2
        rw [c4 _ i1, i2]
      · rw [g3 q hq hc]
        refine b5 q hq ?_
        have hin : InBounds a.chunks.shape (chunkOf a.chunkShape q) := by rw [ha.grid]; exact chunkOf_inBounds ha.len ha.pos hq
        have : rowRank a.chunks.shape (chunkOf a.chunkShape q) ≠ k := by
          intro h
          exact hc (rowRank_inj hin hn.1 (by rw [h, hn.2]))
        omega)
    (s := a) ⟨ha, rfl, rfl, rfl, fun q hq h => by omega⟩
  obtain ⟨p1, p2, p3, p4, p5⟩ := hP
  refine ⟨a', e1, p1, p2, p3, fun q hq => p5 q hq (rowRank_lt ?_)⟩
  rw [ha.grid]; exact chunkOf_inBounds ha.len ha.pos hq

/-- **C49** (construction from an expression). -/
theorem C49_construct {α : Type} [Inhabited α] (gl cl : Layout) (x : α) (e : Buf α) (cs : List Nat)
    (hl : cs.length = e.shape.length) (hp : ∀ c ∈ cs, 0 < c) :
    ∃ a, chunkedFrom gl cl x e cs = .ok a ∧ a.WF ∧ a.shape = e.shape ∧ a.chunkShape = cs ∧
      ∀ q, InBounds e.shape q → a.get q = .ok (e.read q) := by
  obtain ⟨a0, h1, h2, h3, h4, -⟩ := C48_resize gl cl x e.shape cs hl hp
  obtain ⟨a, a1, a2, a3, a4, a5⟩ := C49_assign e a0 h2 h3.symm
  refine ⟨a, by unfold chunkedFrom; rw [h1]; exact a1, a2, by rw [a3, h3], by rw [a4, h4], fun q hq => a5 q (by rw [h3]; exact hq)⟩

example : ∃ a, chunkedFrom .row_major .column_major 0 (⟨[3, 4], .row_major, List.range 12⟩ : Buf Nat) [2, 3] = .ok a ∧
    a.chunks.data.map (·.data) = [[0, 4, 1, 5, 2, 6], [3, 7, 0, 0, 0, 0], [8, 0, 9, 0, 10, 0], [11, 0, 0, 0, 0, 0]] :=
  ⟨_, rfl, by decide⟩

/-! ### Assignment through a chunked view -/

theorem viewStep_inv {α : Type} [Inhabited α] {sh cs : List Nat} (hl : cs.length = sh.length) (hp : ∀ c ∈ cs, 0 < c)
    (f : List Nat → α) {body : ChunkIt → Buf α → Res (Buf α)} (out0 : Buf α) (h0 : out0.WF) (hs0 : out0.shape = sh)
    (hbody : ∀ k (out : Buf α), k < numel (chunkGrid sh cs) → out.WF → out.shape = sh → ∃ rs val,
      body (chunkIt sh cs (nthIndex (chunkGrid sh cs) k) k) out =
        assignRegion out (chunkIt sh cs (nthIndex (chunkGrid sh cs) k) k).sv rs val ∧
      rs = boxW sh cs (nthIndex (chunkGrid sh cs) k) ∧
      ∀ p, InBounds (boxW sh cs (nthIndex (chunkGrid sh cs) k)) p →
        val p = f (applySel (boxFrom cs (nthIndex (chunkGrid sh cs) k)) p)) :
    ∃ out, forChunks sh cs (chunkGrid sh cs) body out0 = .ok out ∧ out.WF ∧ out.shape = sh ∧ out.layout = out0.layout ∧
      ∀ q, InBounds sh q → out.read q = f q := by
  obtain ⟨out, e1, p1, p2, p3, p4⟩ := forChunks_inv (cs := cs) (body := body) (chunkGrid_length hl)
    (fun k (b : Buf α) => b.WF ∧ b.shape = sh ∧ b.layout = out0.layout ∧
      ∀ q, InBounds sh q → rowRank (chunkGrid sh cs) (chunkOf cs q) < k → b.read q = f q)
    (fun k b hk ⟨b1, b2, b3, b4⟩ => by
      obtain ⟨rs, val, v1, v2, v3⟩ := hbody k b hk b1 b2
      have hn := nthIndex_spec hk
      subst v2
      obtain ⟨o, o1, o2, o3, o4, o5, o6⟩ := assignRegion_spec b1 (us := (chunkIt sh cs (nthIndex (chunkGrid sh cs) k) k).sv)
        (by rw [b2, it_sv k hl hn.1]; exact box_sels hl hp hn.1) val (compat_refl _)
      refine ⟨o, by rw [v1, o1], o4, by rw [o2, b2], by rw [o3, b3], fun q hq hr => ?_⟩
      by_cases hc : chunkOf cs q = nthIndex (chunkGrid sh cs) k
      · obtain ⟨i1, i2⟩ := box_inside hl hp hq
        rw [hc] at i1 i2
        have := o5 _ i1
        rw [i2, broadcastIndex_self i1, v3 _ i1, i2] at this
        exact this
      · rw [o6 q (by rw [b2]; exact hq) (fun p hp' e => hc (by rw [← e]; exact box_chunk hl hp hn.1 hp'))]
        refine b4 q hq ?_
        have hin := chunkOf_inBounds hl hp hq
        have : rowRank (chunkGrid sh cs) (chunkOf cs q) ≠ k := by
          intro h
          exact hc (rowRank_inj hin hn.1 (by rw [h, hn.2]))
        omega)
    (s := out0) ⟨h0, hs0, rfl, fun q hq h => by omega⟩
  exact ⟨out, e1, p1, p2, p3, fun q hq => p4 q hq (rowRank_lt (chunkOf_inBounds hl hp hq))⟩

/-- **C49** (chunked view).  `as_chunked(out, chunk_shape) = e` for an array `e` of the shape of `out` copies every
element, and touches nothing else. -/
theorem C49_view_assign {α : Type} [Inhabited α] (cs : List Nat) (e out : Buf α) (hs : e.shape = out.shape) (ho : out.WF)
    (hl : cs.length = out.shape.length) (hp : ∀ c ∈ cs, 0 < c) :
    ∃ out', chunkedViewAssign cs e out = .ok out' ∧ out'.WF ∧ out'.shape = out.shape ∧ out'.layout = out.layout ∧
      ∀ q, InBounds out.shape q → out'.read q = e.read q := by
  unfold chunkedViewAssign
  rw [gridShape_eq hl hp]
  simp only [Res.bind]
  refine viewStep_inv hl hp e.read out ho rfl (fun k b hk b1 b2 => ?_)
  have hn := nthIndex_spec hk
  have hsel := box_sels hl hp hn.1
  obtain ⟨v, v1, v2, v3⟩ := Sels.view (out := e) (by rw [hs]; exact hsel)
  refine ⟨v.shape.map Int.toNat, viewAt e v, ?_, by rw [v2, map_toNat_toInts], fun p hp' => ?_⟩
  · rw [it_sv k hl hn.1, v1]
  · unfold viewAt
    rw [v3 p hp', Buf.read, Buf.index_eq]
    rw [hs]; exact hsel.inBounds hp'

example : chunkedViewAssign [2, 3] (⟨[3, 4], .column_major, List.range 12⟩ : Buf Nat) ⟨[3, 4], .row_major, List.replicate 12 0⟩ =
    .ok ⟨[3, 4], .row_major, [0, 3, 6, 9, 1, 4, 7, 10, 2, 5, 8, 11]⟩ := by decide

theorem map_front_sels {cs ls : List Nat} (h : List.Forall₂ (· ≤ ·) ls cs) :
    Sels cs (ls.map fun (n : Nat) => .range (some 0) (some (n : Int)) none) ls (frontFrom ls) := by
  induction h with
  | nil => exact .nil
  | cons h1 _ ih => exact .cons (AxSel.up (a := 0) (by omega) rfl (by omega)) ih

theorem boxW_le {sh cs idx : List Nat} (hl : cs.length = sh.length) (hb : InBounds (chunkGrid sh cs) idx) :
    List.Forall₂ (· ≤ ·) (boxW sh cs idx) cs := by
  induction sh generalizing cs idx with
  | nil =>
    rw [List.length_eq_zero_iff.1 hl] at hb ⊢
    cases idx with
    | nil => exact .nil
    | cons _ _ => exact hb.elim
  | cons s sh ih =>
    cases cs with
    | nil => simp at hl
    | cons c cs => cases idx with
      | nil => exact hb.elim
      | cons k idx =>
        refine .cons ?_ (ih (by simpa using hl) hb.2)
        have h2 : (k + 1) * c = k * c + c := Nat.succ_mul k c
        omega

/-- **C49** (chunked view from a chunked array).  `as_chunked(out) = a` copies every element of a chunked array of the
shape of `out`. -/
theorem C49_view_assign_chunked {α : Type} [Inhabited α] (a : Chunked α) (ha : a.WF) (out : Buf α) (ho : out.WF)
    (hs : out.shape = a.shape) :
    ∃ out', chunkedViewAssignChunked a out = .ok out' ∧ out'.WF ∧ out'.shape = out.shape ∧ out'.layout = out.layout ∧
      ∀ q, InBounds out.shape q → a.get q = .ok (out'.read q) := by
  have hl : a.chunkShape.length = out.shape.length := by rw [hs]; exact ha.len
  have hp := ha.pos
  unfold chunkedViewAssignChunked
  rw [if_neg (by omega), gridShape_eq hl hp]
  simp only [Res.bind]
  let f : List Nat → α := fun q => match a.get q with | .ok x => x | _ => default
  obtain ⟨o, o1, o2, o3, o4, o5⟩ := viewStep_inv (body := chunkedViewStep a) hl hp f out ho rfl (fun k b hk b1 b2 => by
    have hn := nthIndex_spec hk
    have hg := gridPos_eq a.chunks ha.gridWf (k := k) (by rw [ha.grid, ← hs]; exact hk)
    rw [ha.grid, ← hs] at hg
    generalize nthIndex (chunkGrid out.shape a.chunkShape) k = idx at *
    have hb := hn.1
    have hw : a.chunks.data.length = numel a.chunks.shape := ha.gridWf
    have hlt := travRank_lt a.chunks.layout hb
    rw [ha.grid, ← hs] at hw
    rw [← hw] at hlt
    have hsel := box_sels hl hp hb
    obtain ⟨v, v1, v2, -⟩ := Sels.view (out := b) (by rw [b2]; exact hsel)
    have hvs : v.shape.map Int.toNat = boxW out.shape a.chunkShape idx := by rw [v2, map_toNat_toInts]
    obtain ⟨c, hc⟩ : ∃ c0, a.chunks.data[travRank a.chunks.layout (chunkGrid out.shape a.chunkShape) idx]? = some c0 :=
      ⟨_, List.getElem?_eq_getElem hlt⟩
    obtain ⟨hcs, hcw⟩ := ha.chunk c (List.mem_of_getElem? hc)
    have hval : ∀ p, InBounds (boxW out.shape a.chunkShape idx) p → c.read p = f (applySel (boxFrom a.chunkShape idx) p) := by
      intro p hp'
      have e1 := box_chunk hl hp hb hp'
      have hq := hsel.inBounds hp'
      obtain ⟨i1, i2⟩ := box_inside hl hp hq
      rw [e1] at i1 i2
      have e2 := hsel.inj i1 hp' i2
      obtain ⟨-, -, d, d1, -, d3⟩ := C48_address a ha _ (by rw [← hs]; exact hq)
      rw [e1, ha.grid, ← hs, hc] at d1
      cases d1
      show _ = match a.get _ with | .ok x => x | _ => default
      rw [d3, e2]
    unfold chunkedViewStep
    rw [it_sv k hl hb, v1]
    simp only [Res.bind]
    rw [show (chunkIt out.shape a.chunkShape idx k).linear = k from rfl, hg]
    simp only [hc, orUb, hvs, hcs]
    by_cases he : boxW out.shape a.chunkShape idx = a.chunkShape
    · rw [if_neg (not_not.2 he)]
      exact ⟨_, _, rfl, he.symm, hval⟩
    · rw [if_pos he]
      obtain ⟨w, w1, w2, w3⟩ := Sels.view (out := c) (by rw [hcs]; exact map_front_sels (boxW_le hl hb))
      rw [hcs] at w1
      rw [w1]
      refine ⟨_, viewAt c w, rfl, by rw [w2, map_toNat_toInts], fun p hp' => ?_⟩
      rw [← hval p hp']
      unfold viewAt
      rw [w3 p hp', applySel_front hp'.length_eq, Buf.read, Buf.index_eq]
      have := (map_front_sels (boxW_le hl hb)).inBounds hp'
      rw [applySel_front hp'.length_eq] at this
      rw [hcs]; exact this)
  refine ⟨o, o1, o2, o3, o4, fun q hq => ?_⟩
  rw [o5 q hq]
  obtain ⟨-, -, d, -, -, d3⟩ := C48_address a ha q (by rw [← hs]; exact hq)
  show _ = Res.ok (match a.get q with | .ok x => x | _ => default)
  rw [d3]

/-- A source that broadcasts to the shape of the array is not assigned: `noalias(a) = e` with `e` of shape {1} and `a` of
shape {4}, in chunks of 2, takes slices of `e` that are empty and throws. -/
theorem C49_broadcast_wrong :
    chunkAssign (⟨[1], .row_major, [7]⟩ : Buf Nat) ⟨[4], [2], ⟨[2], .row_major, List.replicate 2 ⟨[2], .row_major, [0, 0]⟩⟩⟩ =
      .throws := by decide

end Xt
