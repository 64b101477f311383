import Verif.Model.Chunked
import Verif.Spec.Chunked
import Verif.Lemmas.Region
import Verif.Props.ExprIter
/-!
# C48: addressing in chunked arrays
-/

namespace Xt

open Spec

/-! ### Arithmetic per axis -/

theorem ceil_div_eq {s c : Nat} (h : 0 < c) : (if s % c > 0 then s / c + 1 else s / c) = (s + c - 1) / c := by
  have hd := Nat.div_add_mod s c
  generalize s / c = k at *
  have hr := Nat.mod_lt s h
  generalize s % c = r at *
  subst hd
  split
  · rw [show c * k + r + c - 1 = c * (k + 1) + (r - 1) by rw [Nat.mul_add]; omega, Nat.mul_add_div h,
      Nat.div_eq_of_lt (show r - 1 < c by omega)]
  · rw [show c * k + r + c - 1 = c * k + (c - 1) by omega, Nat.mul_add_div h, Nat.div_eq_of_lt (show c - 1 < c by omega)]; rfl

theorem sub_div_mul (i c : Nat) : i - i / c * c = i % c := by
  have := Nat.div_add_mod i c
  rw [Nat.mul_comm] at this
  omega

theorem div_lt_ceil {i s c : Nat} (h : 0 < c) (hi : i < s) : i / c < (s + c - 1) / c := by
  rw [Nat.lt_iff_add_one_le, Nat.le_div_iff_mul_le h, Nat.add_mul]
  have := Nat.div_mul_le_self i c
  omega

theorem gridShape_eq {sh cs : List Nat} (hl : cs.length = sh.length) (hp : ∀ c ∈ cs, 0 < c) :
    gridShape sh cs = .ok (chunkGrid sh cs) := by
  induction sh generalizing cs with
  | nil => rfl
  | cons s sh ih =>
    cases cs with
    | nil => simp at hl
    | cons c cs =>
      have hc : 0 < c := hp c (by simp)
      rw [gridShape, if_neg (by omega), ih (by simpa using hl) (fun c h => hp c (by simp [h]))]
      simp only [Res.map, Res.bind, chunkGrid, List.zipWith_cons_cons, ceil_div_eq hc]

theorem getIndexes_eq {cs q : List Nat} (hl : q.length = cs.length) (hp : ∀ c ∈ cs, 0 < c) :
    getIndexes cs q = .ok (chunkOf cs q, insideChunk cs q) := by
  induction cs generalizing q with
  | nil => cases q with
    | nil => rfl
    | cons _ _ => simp at hl
  | cons c cs ih =>
    cases q with
    | nil => simp at hl
    | cons i q =>
      have hc : 0 < c := hp c (by simp)
      rw [getIndexes, if_neg (by omega), ih (by simpa using hl) (fun c h => hp c (by simp [h]))]
      simp only [Res.map, Res.bind, chunkOf, insideChunk, List.zipWith_cons_cons, sub_div_mul]

theorem chunkOf_inBounds {sh cs q : List Nat} (hl : cs.length = sh.length) (hp : ∀ c ∈ cs, 0 < c) (hq : InBounds sh q) :
    InBounds (chunkGrid sh cs) (chunkOf cs q) := by
  induction sh generalizing cs q with
  | nil =>
    cases cs with
    | nil => cases q with
      | nil => trivial
      | cons _ _ => exact hq.elim
    | cons _ _ => simp at hl
  | cons s sh ih =>
    cases cs with
    | nil => simp at hl
    | cons c cs => cases q with
      | nil => exact hq.elim
      | cons i q =>
        rw [inBounds_cons] at hq
        exact ⟨div_lt_ceil (hp c (by simp)) hq.1, ih (by simpa using hl) (fun c h => hp c (by simp [h])) hq.2⟩

theorem insideChunk_inBounds {cs q : List Nat} (hl : q.length = cs.length) (hp : ∀ c ∈ cs, 0 < c) :
    InBounds cs (insideChunk cs q) := by
  induction cs generalizing q with
  | nil => cases q with
    | nil => trivial
    | cons _ _ => simp at hl
  | cons c cs ih =>
    cases q with
    | nil => simp at hl
    | cons i q => exact ⟨Nat.mod_lt _ (hp c (by simp)), ih (by simpa using hl) (fun c h => hp c (by simp [h]))⟩

theorem chunk_position_inj {cs q r : List Nat} (hq : q.length = cs.length) (hr : r.length = cs.length)
    (h1 : chunkOf cs q = chunkOf cs r) (h2 : insideChunk cs q = insideChunk cs r) : q = r := by
  induction cs generalizing q r with
  | nil => rw [List.length_eq_zero_iff.1 hq, List.length_eq_zero_iff.1 hr]
  | cons c cs ih =>
    cases q with
    | nil => simp at hq
    | cons i q => cases r with
      | nil => simp at hr
      | cons j r =>
        simp only [chunkOf, insideChunk, List.zipWith_cons_cons, List.cons.injEq] at h1 h2
        rw [ih (by simpa using hq) (by simpa using hr) h1.2 h2.2]
        have e1 := Nat.div_add_mod i c
        have e2 := Nat.div_add_mod j c
        rw [h1.1, h2.1, e2] at e1
        rw [e1]

theorem elementPos_eq {α : Type} (b : Buf α) (hw : b.WF) {q : List Nat} (hq : InBounds b.shape q) :
    b.elementPos q = .ok (travRank b.layout b.shape q) := by
  have hlt := travRank_lt b.layout hq
  have hw' : b.data.length = numel b.shape := hw
  have e : elementOffset b.strides (toInts q) = (travRank b.layout b.shape q : Int) := by
    rw [elementOffset_eq]
    · exact dot_travRank _ hq
    · show _ = (computeStrides b.layout b.layout b.shape).1.length
      simp [toInts, hq.length_eq]
  unfold Buf.elementPos
  simp only [e]
  rw [if_pos (by omega)]
  simp

/-! ### Well-formed chunked arrays -/

/-- What `resize` establishes and every member function keeps. -/
structure Chunked.WF {α : Type} (a : Chunked α) : Prop where
  len : a.chunkShape.length = a.shape.length
  pos : ∀ c ∈ a.chunkShape, 0 < c
  grid : a.chunks.shape = chunkGrid a.shape a.chunkShape
  gridWf : a.chunks.WF
  chunk : ∀ c ∈ a.chunks.data, c.shape = a.chunkShape ∧ c.WF

/-- **C48** (construction).  A chunked array of any shape and any chunk shape of positive extents has one chunk per cell of
the rounded-up grid. -/
theorem C48_resize {α : Type} (gl cl : Layout) (x : α) (sh cs : List Nat) (hl : cs.length = sh.length)
    (hp : ∀ c ∈ cs, 0 < c) :
    ∃ a, chunkedResize gl cl x sh cs = .ok a ∧ a.WF ∧ a.shape = sh ∧ a.chunkShape = cs ∧
      a.chunks.shape = chunkGrid sh cs ∧ a.chunks.data.length = numel (chunkGrid sh cs) := by
  unfold chunkedResize
  rw [if_neg (by omega), gridShape_eq hl hp]
  refine ⟨_, rfl, ⟨hl, hp, rfl, ?_, ?_⟩, rfl, rfl, rfl, ?_⟩
  · show (List.replicate _ _).length = _
    rw [List.length_replicate, foldl_mul_eq]; simp
  · intro c hc
    rw [List.eq_of_mem_replicate hc]
    refine ⟨rfl, ?_⟩
    show (List.replicate _ _).length = _
    rw [List.length_replicate, foldl_mul_eq]; simp
  · show (List.replicate _ _).length = _
    rw [List.length_replicate, foldl_mul_eq]; simp

example : ∃ a, chunkedResize .row_major .column_major 0 [4, 5] [2, 3] = .ok a ∧ a.chunks.shape = [2, 2] := ⟨_, rfl, rfl⟩

/-- A chunk extent of zero divides by zero. -/
theorem C48_zero_chunk_undefined {α : Type} (gl cl : Layout) (x : α) (sh cs : List Nat) (hl : cs.length = sh.length)
    (h : 0 ∈ cs) : chunkedResize gl cl x sh cs = .ub := by
  unfold chunkedResize
  rw [if_neg (by omega)]
  have : gridShape sh cs = .ub := by
    induction sh generalizing cs with
    | nil => rw [List.length_eq_zero_iff.1 hl] at h; simp at h
    | cons s sh ih =>
      cases cs with
      | nil => simp at h
      | cons c cs =>
        by_cases hc : c = 0
        · rw [gridShape, if_pos hc]
        · rw [gridShape, if_neg hc, ih cs (by simpa using hl) (by
            rcases List.mem_cons.1 h with e | e
            · exact absurd e.symm hc
            · exact e)]
          rfl
  rw [this]; rfl

theorem Chunked.WF.chunk_at {α : Type} {a : Chunked α} (h : a.WF) {q : List Nat} (hq : InBounds a.shape q) :
    ∃ c, a.chunks.data[travRank a.chunks.layout a.chunks.shape (chunkOf a.chunkShape q)]? = some c ∧
      c.shape = a.chunkShape ∧ c.WF := by
  have hb : InBounds a.chunks.shape (chunkOf a.chunkShape q) := by rw [h.grid]; exact chunkOf_inBounds h.len h.pos hq
  have hlt := travRank_lt a.chunks.layout hb
  have hw : a.chunks.data.length = numel a.chunks.shape := h.gridWf
  rw [← hw] at hlt
  exact ⟨_, List.getElem?_eq_getElem hlt, h.chunk _ (List.getElem_mem hlt)⟩

theorem Chunked.WF.locate_eq {α : Type} {a : Chunked α} (h : a.WF) {q : List Nat} (hq : InBounds a.shape q) {c : Buf α}
    (hc : a.chunks.data[travRank a.chunks.layout a.chunks.shape (chunkOf a.chunkShape q)]? = some c) :
    a.locate q = .ok (travRank a.chunks.layout a.chunks.shape (chunkOf a.chunkShape q),
      travRank c.layout c.shape (insideChunk a.chunkShape q)) := by
  have hl : q.length = a.chunkShape.length := by rw [hq.length_eq, h.len]
  have hb : InBounds a.chunks.shape (chunkOf a.chunkShape q) := by rw [h.grid]; exact chunkOf_inBounds h.len h.pos hq
  have hcc := h.chunk c (List.mem_of_getElem? hc)
  unfold Chunked.locate
  rw [getIndexes_eq hl h.pos]
  simp only [Res.bind]
  rw [elementPos_eq _ h.gridWf hb]
  simp only [hc, orUb]
  rw [elementPos_eq c hcc.2 (by rw [hcc.1]; exact insideChunk_inBounds hl h.pos)]
  rfl

theorem Chunked.WF.get_eq {α : Type} {a : Chunked α} (h : a.WF) {q : List Nat} (hq : InBounds a.shape q) {c : Buf α}
    (hc : a.chunks.data[travRank a.chunks.layout a.chunks.shape (chunkOf a.chunkShape q)]? = some c) :
    a.get q = orUb c.data[travRank c.layout c.shape (insideChunk a.chunkShape q)]? := by
  unfold Chunked.get
  rw [h.locate_eq hq hc]
  simp only [Res.bind, hc, orUb]

/-- **C48** (addressing).  Every index of the array has exactly one place: a chunk on the grid and a position inside the
chunk, and reading the index reads that place. -/
theorem C48_address {α : Type} [Inhabited α] (a : Chunked α) (h : a.WF) (q : List Nat) (hq : InBounds a.shape q) :
    InBounds a.chunks.shape (chunkOf a.chunkShape q) ∧ InBounds a.chunkShape (insideChunk a.chunkShape q) ∧
    ∃ c, a.chunks.data[travRank a.chunks.layout a.chunks.shape (chunkOf a.chunkShape q)]? = some c ∧
      c.shape = a.chunkShape ∧ a.get q = .ok (c.read (insideChunk a.chunkShape q)) := by
  have hl : q.length = a.chunkShape.length := by rw [hq.length_eq, h.len]
  obtain ⟨c, hc, hs, hcw⟩ := h.chunk_at hq
  refine ⟨by rw [h.grid]; exact chunkOf_inBounds h.len h.pos hq, insideChunk_inBounds hl h.pos, c, hc, hs, ?_⟩
  have hi : InBounds c.shape (insideChunk a.chunkShape q) := by rw [hs]; exact insideChunk_inBounds hl h.pos
  have hlt := travRank_lt c.layout hi
  have hw : c.data.length = numel c.shape := hcw
  rw [← hw] at hlt
  rw [h.get_eq hq hc, List.getElem?_eq_getElem hlt, Buf.read_eq _ hi, List.getD_eq_getElem?_getD, List.getElem?_eq_getElem hlt]
  rfl

/-- **C48** (no collisions).  Two indices with the same place are equal. -/
theorem C48_distinct {α : Type} (a : Chunked α) (h : a.WF) (q r : List Nat) (hq : InBounds a.shape q)
    (hr : InBounds a.shape r) (he : a.locate q = a.locate r) : q = r := by
  have hlq : q.length = a.chunkShape.length := by rw [hq.length_eq, h.len]
  have hlr : r.length = a.chunkShape.length := by rw [hr.length_eq, h.len]
  obtain ⟨c, hc, hs, -⟩ := h.chunk_at hq
  obtain ⟨d, hd, hs', -⟩ := h.chunk_at hr
  rw [h.locate_eq hq hc, h.locate_eq hr hd] at he
  simp only [Res.ok.injEq, Prod.mk.injEq] at he
  have e1 := travRank_inj a.chunks.layout (by rw [h.grid]; exact chunkOf_inBounds h.len h.pos hq)
    (by rw [h.grid]; exact chunkOf_inBounds h.len h.pos hr) he.1
  rw [e1, hd] at hc
  cases hc
  rw [hs] at he
  exact chunk_position_inj hlq hlr e1 (travRank_inj c.layout (insideChunk_inBounds hlq h.pos)
    (insideChunk_inBounds hlr h.pos) he.2)

/-- **C48** (write).  Writing an index succeeds, reading it back gives the value, and no other index changes. -/
theorem C48_write {α : Type} (a : Chunked α) (h : a.WF) (q : List Nat) (hq : InBounds a.shape q) (x : α) :
    ∃ a', a.put q x = .ok a' ∧ a'.WF ∧ a'.shape = a.shape ∧ a'.chunkShape = a.chunkShape ∧ a'.get q = .ok x ∧
      ∀ r, InBounds a.shape r → r ≠ q → a'.get r = a.get r := by
  have hlq : q.length = a.chunkShape.length := by rw [hq.length_eq, h.len]
  obtain ⟨c, hc, hs, hcw⟩ := h.chunk_at hq
  have hcw' : c.data.length = numel c.shape := hcw
  have hlt := travRank_lt c.layout (show InBounds c.shape (insideChunk a.chunkShape q) by
    rw [hs]; exact insideChunk_inBounds hlq h.pos)
  rw [← hcw'] at hlt
  let k := travRank a.chunks.layout a.chunks.shape (chunkOf a.chunkShape q)
  let j := travRank c.layout c.shape (insideChunk a.chunkShape q)
  let a' : Chunked α := { a with chunks := { a.chunks with data := a.chunks.data.modify k (setInChunk j x) } }
  have hwf : a'.WF := by
    refine ⟨h.len, h.pos, h.grid, ?_, fun d hd => ?_⟩
    · show (a.chunks.data.modify _ _).length = _
      rw [List.length_modify]; exact h.gridWf
    · obtain ⟨i, hi⟩ := List.mem_iff_getElem?.1 hd
      rw [List.getElem?_modify] at hi
      replace hi := Option.map_eq_some_iff.1 hi
      obtain ⟨d0, hd0, rfl⟩ := hi
      have := h.chunk d0 (List.mem_of_getElem? hd0)
      split
      · exact ⟨this.1, by show (d0.data.set _ _).length = _; rw [List.length_set]; exact this.2⟩
      · exact this
  have hget : ∀ r, InBounds a.shape r → ∀ d, a.chunks.data[travRank a.chunks.layout a.chunks.shape
      (chunkOf a.chunkShape r)]? = some d → a'.get r = orUb (if k = travRank a.chunks.layout a.chunks.shape
        (chunkOf a.chunkShape r) then d.data.set j x else d.data)[travRank d.layout d.shape (insideChunk a.chunkShape r)]? := by
    intro r hr d hd
    have hd' : a'.chunks.data[travRank a.chunks.layout a.chunks.shape (chunkOf a.chunkShape r)]? =
        some (if k = travRank a.chunks.layout a.chunks.shape (chunkOf a.chunkShape r) then setInChunk j x d else d) := by
      show (a.chunks.data.modify _ _)[_]? = _
      rw [List.getElem?_modify, hd]
      rfl
    rw [hwf.get_eq hr hd']
    by_cases hk : k = travRank a.chunks.layout a.chunks.shape (chunkOf a.chunkShape r)
    · simp only [if_pos hk]; rfl
    · simp only [if_neg hk]; rfl
  refine ⟨a', ?_, hwf, rfl, rfl, ?_, ?_⟩
  · unfold Chunked.put
    rw [h.locate_eq hq hc]
    rfl
  · rw [hget q hq c hc, if_pos rfl, List.getElem?_set, if_pos rfl, if_pos hlt]; rfl
  · intro r hr hne
    obtain ⟨d, hd, hds, -⟩ := h.chunk_at hr
    have hlr : r.length = a.chunkShape.length := by rw [hr.length_eq, h.len]
    rw [hget r hr d hd, h.get_eq hr hd]
    by_cases hk : k = travRank a.chunks.layout a.chunks.shape (chunkOf a.chunkShape r)
    · rw [if_pos hk]
      have e1 := travRank_inj a.chunks.layout (by rw [h.grid]; exact chunkOf_inBounds h.len h.pos hq)
        (by rw [h.grid]; exact chunkOf_inBounds h.len h.pos hr) hk
      have hcd : c = d := by rw [e1, hd] at hc; exact (Option.some.inj hc).symm
      subst hcd
      have hne' : j ≠ travRank c.layout c.shape (insideChunk a.chunkShape r) := by
        intro e
        refine hne (chunk_position_inj hlr hlq e1.symm (travRank_inj c.layout (sh := c.shape) ?_ ?_ e.symm))
        · rw [hs]; exact insideChunk_inBounds hlr h.pos
        · rw [hs]; exact insideChunk_inBounds hlq h.pos
      rw [List.getElem?_set, if_neg hne']
    · rw [if_neg hk]

/-- A list of writes, one after the other. -/
def putAll {α : Type} (a : Chunked α) : List (List Nat × α) → Res (Chunked α)
  | [] => .ok a
  | w :: ws => (a.put w.1 w.2).bind fun a => putAll a ws

/-- **C48** (write histories).  After any list of writes to indices of the array, every index holds the last value written
to it, or its initial value. -/
theorem C48_history {α : Type} (a : Chunked α) (h : a.WF) (init : List Nat → α)
    (hi : ∀ q, InBounds a.shape q → a.get q = .ok (init q)) (ws : List (List Nat × α))
    (hws : ∀ w ∈ ws, InBounds a.shape w.1) :
    ∃ a', putAll a ws = .ok a' ∧ a'.WF ∧ a'.shape = a.shape ∧
      ∀ q, InBounds a.shape q → a'.get q = .ok (lastWrite init ws q) := by
  induction ws generalizing a init with
  | nil => exact ⟨a, rfl, h, rfl, hi⟩
  | cons w ws ih =>
    obtain ⟨a1, e1, w1, s1, -, g1, g2⟩ := C48_write a h w.1 (hws w (by simp)) w.2
    obtain ⟨a2, e2, w2, s2, g3⟩ := ih a1 w1 (fun q => if w.1 = q then w.2 else init q) (fun q hq => by
        rw [s1] at hq
        by_cases e : w.1 = q
        · rw [if_pos e, ← e]; exact g1
        · rw [if_neg e, g2 q hq (Ne.symm e)]; exact hi q hq)
      (fun v hv => by rw [s1]; exact hws v (by simp [hv]))
    refine ⟨a2, by rw [putAll, e1]; exact e2, w2, by rw [s2, s1], fun q hq => ?_⟩
    rw [g3 q (by rw [s1]; exact hq)]
    rfl

/-- The array of shape 4 × 5 in chunks of 2 × 3, filled with zeros. -/
def chunkSample : Chunked Nat := ⟨[4, 5], [2, 3], ⟨[2, 2], .row_major, List.replicate 4 ⟨[2, 3], .column_major, List.replicate 6 0⟩⟩⟩

theorem chunkSample_wf : chunkSample.WF := by
  refine ⟨rfl, by decide, rfl, rfl, fun c hc => ?_⟩
  rw [List.eq_of_mem_replicate hc]
  exact ⟨rfl, rfl⟩

example := C48_address chunkSample chunkSample_wf [3, 4] (by decide)

example : ∃ a', putAll chunkSample [([3, 4], 7), ([1, 2], 8), ([3, 4], 9)] = .ok a' ∧ a'.get [3, 4] = .ok 9 ∧
    a'.get [1, 2] = .ok 8 ∧ a'.get [0, 0] = .ok 0 := ⟨_, rfl, by decide, by decide, by decide⟩

/-- **C48** (compound assignment with a scalar): `a += x` and the like apply to every element. -/
theorem C48_scalar_assign {α : Type} (f : α → α) (a : Chunked α) (h : a.WF) (q : List Nat) (hq : InBounds a.shape q) :
    (a.scalarAssign f).WF ∧ ∃ x, a.get q = .ok x ∧ (a.scalarAssign f).get q = .ok (f x) := by
  have hwf : (a.scalarAssign f).WF := by
    refine ⟨h.len, h.pos, h.grid, ?_, fun d hd => ?_⟩
    · show (a.chunks.data.map _).length = _
      rw [List.length_map]; exact h.gridWf
    · obtain ⟨d0, hd0, rfl⟩ := List.mem_map.1 hd
      have := h.chunk d0 hd0
      exact ⟨this.1, by show (d0.data.map _).length = _; rw [List.length_map]; exact this.2⟩
  refine ⟨hwf, ?_⟩
  have hl : q.length = a.chunkShape.length := by rw [hq.length_eq, h.len]
  obtain ⟨c, hc, hs, hcw⟩ := h.chunk_at hq
  have hlt := travRank_lt c.layout (show InBounds c.shape (insideChunk a.chunkShape q) by
    rw [hs]; exact insideChunk_inBounds hl h.pos)
  have hcw' : c.data.length = numel c.shape := hcw
  rw [← hcw'] at hlt
  have hc' : (a.scalarAssign f).chunks.data[travRank a.chunks.layout a.chunks.shape (chunkOf a.chunkShape q)]? =
      some { c with data := c.data.map f } := by
    show (a.chunks.data.map _)[_]? = _
    rw [List.getElem?_map, hc]; rfl
  refine ⟨c.data[travRank c.layout c.shape (insideChunk a.chunkShape q)], ?_, ?_⟩
  · rw [h.get_eq hq hc, List.getElem?_eq_getElem hlt]; rfl
  · rw [hwf.get_eq hq hc', List.getElem?_map]
    show orUb (Option.map f c.data[travRank c.layout c.shape (insideChunk a.chunkShape q)]?) = _
    rw [List.getElem?_eq_getElem hlt]
    rfl

/-! ### Iteration -/

theorem xindexed_own_fwd (sh : List Nat) : FwdLaw (xindexedOps sh 0) sh (fun ix idx => ix = toInts idx) where
  step ix idx a n hR hb ha h0 h1 := by
    subst hR
    simp only [xindexedOps, if_pos (Nat.zero_le a), Nat.sub_zero, toInts_getD]
    simp only [toInts, List.map_set]
    rw [Int.ofNat_eq_natCast, Int.toNat_of_nonneg h0]
  reset ix idx a hR hb ha h1 := by
    subst hR
    simp [xindexedOps, toInts, List.map_set]

/-- What `begin<L>()` … `end<L>()` of a chunked array used with shape `osh` reads: the stepper is `xindexed_stepper`. -/
def Chunked.walk {α : Type} (a : Chunked α) (L : Layout) (osh : List Nat) : List (Res α) :=
  let ops := xindexedOps a.shape (osh.length - a.shape.length)
  let ix := List.replicate a.shape.length (0 : Int)
  (XIter.walk ops L osh (XIter.mkEnd (ops.toEnd ix L) L osh) (numel osh + 1) (XIter.mkBegin ix osh)).map
    fun (ix : List Int) => a.get (ix.map Int.toNat)

/-- **C48** (iteration).  Iterating over a chunked array in either order reads every index once, in order. -/
theorem C48_iterate {α : Type} (a : Chunked α) (L : Layout) (hL : L = .row_major ∨ L = .column_major)
    (hn : 0 < numel a.shape) :
    (a.walk L a.shape).length = numel a.shape ∧
    ∀ (i : Nat) (x : Res α), (a.walk L a.shape)[i]? = some x →
      ∃ q, InBounds a.shape q ∧ rankIn L a.shape q = i ∧ x = a.get q := by
  unfold Chunked.walk
  simp only [Nat.sub_self]
  have key := walk_spec (E := fun _ => True) hL (xindexed_own_fwd a.shape) (fun _ _ _ _ => trivial)
    (XIter.mkEnd ((xindexedOps a.shape 0).toEnd (List.replicate a.shape.length (0 : Int)) L) L a.shape)
    (by simp [XIter.mkEnd, foldl_mul_eq]) (numel a.shape + 1) 0
    (XIter.mkBegin (List.replicate a.shape.length (0 : Int)) a.shape)
    (iterAt_begin hn (by simp [toInts])) (by omega) (by omega)
  refine ⟨by rw [List.length_map, key.1]; omega, fun i x hx => ?_⟩
  rw [List.getElem?_map, Option.map_eq_some_iff] at hx
  obtain ⟨st, hst, rfl⟩ := hx
  obtain ⟨q, hq, hrk, hat⟩ := key.2 i st hst
  refine ⟨q, hq, by omega, ?_⟩
  rw [hat, map_toNat_toInts]

example := C48_iterate chunkSample .column_major (Or.inr rfl) (by decide)

/-! ### Where the code departs from the claim -/

/-- The numbers 0 to 19 in shape 4 × 5, in chunks of 2 × 3; 99 marks elements outside the array. -/
def chunkNumbered : Chunked Nat := ⟨[4, 5], [2, 3], ⟨[2, 2], .row_major,
  [⟨[2, 3], .row_major, [0, 1, 2, 5, 6, 7]⟩, ⟨[2, 3], .row_major, [3, 4, 99, 8, 9, 99]⟩,
   ⟨[2, 3], .row_major, [10, 11, 12, 15, 16, 17]⟩, ⟨[2, 3], .row_major, [13, 14, 99, 18, 19, 99]⟩]⟩⟩

/-- Fewer indices than axes: chunk extents are taken from the first axis on while the indices count from the last, so
`a(4)` is `a(2, 0)` where a container gives `a(0, 4)`. -/
theorem C48_few_indices_wrong : chunkNumbered.get [0, 4] = .ok 4 ∧ chunkNumbered.get [4] = .ok 10 := by decide

/-- More indices than axes read past the end of the chunk shape, where a container drops the leading ones. -/
theorem C48_many_indices_undefined {α : Type} (a : Chunked α) (q : List Nat) (hp : ∀ c ∈ a.chunkShape, 0 < c)
    (h : a.chunkShape.length < q.length) : a.get q = .ub := by
  have : getIndexes a.chunkShape q = .ub := by
    generalize a.chunkShape = cs at h hp
    induction cs generalizing q with
    | nil => cases q with
      | nil => simp at h
      | cons _ _ => rfl
    | cons c cs ih =>
      cases q with
      | nil => simp at h
      | cons i q =>
        rw [getIndexes, if_neg (by have := hp c (by simp); omega), ih q (by simpa using h) (fun c h => hp c (by simp [h]))]
        rfl
  unfold Chunked.get Chunked.locate
  rw [this]; rfl

/-- A chunked array of extent 1 in chunks of 2, stretched to extent 3 by broadcasting, reads the element of the chunk that
is outside the array. -/
theorem C48_broadcast_wrong :
    (Chunked.mk [1] [2] ⟨[1], .row_major, [⟨[2], .row_major, [7, 99]⟩]⟩ : Chunked Nat).walk .row_major [3] =
      [.ok 7, .ok 99, .ok 7] := by decide

end Xt
