import Verif.Props.LawsOrder
import Verif.Props.Tile
import Verif.Props.Pad
import Verif.Props.Diag
import Verif.Props.Builder
import Verif.Props.Stats
/-!
# C96: Functions that enlarge, join and move arrays agree with one another
-/

namespace Xt

open Spec

variable {α : Type}

/-- The array a function returns, when all its cells have been written (observation; a cell nobody wrote shows the
default value here, which no theorem below relies on). -/
def Buf.written [Inhabited α] (b : Buf (Option α)) : Buf α := ⟨b.shape, b.layout, b.data.map (·.getD default)⟩

theorem Buf.written_wf [Inhabited α] {b : Buf (Option α)} (h : b.WF) : b.written.WF := by
  unfold Buf.WF at h ⊢
  simpa [Buf.written] using h

theorem Buf.written_read [Inhabited α] {b : Buf (Option α)} {q : List Nat} (hq : InBounds b.shape q) {v : α}
    (h : b.read q = some v) : b.written.read q = v := by
  rw [Buf.read_eq _ hq] at h
  rw [Buf.read_eq _ (show InBounds b.written.shape q from hq)]
  show (b.data.map (·.getD default)).getD (travRank b.layout b.shape q) default = v
  rw [List.getD_eq_getElem?_getD] at h ⊢
  rw [List.getElem?_map]
  cases hd : b.data[travRank b.layout b.shape q]? with
  | none => rw [hd] at h; cases h
  | some x => rw [hd] at h; simp only [Option.getD_some] at h; subst h; rfl

/-! ### tile -/

theorem tileSource_twice : ∀ {sh r q : List Nat}, r.length = sh.length → q.length = sh.length →
    tileSource sh (tileSource (List.zipWith (· * ·) sh r) q) = tileSource sh q
  | [], _, _, _, _ => rfl
  | n :: sh, k :: r, i :: q, h, h' => by
    have ih := tileSource_twice (sh := sh) (r := r) (q := q) (by simpa using h) (by simpa using h')
    simp only [tileSource, List.zipWith_cons_cons] at ih ⊢
    rw [ih, Nat.mod_mul_right_mod]
  | _ :: _, [], _, h, _ => by simp at h
  | _ :: _, _ :: _, [], _, h => by simp at h

theorem zipWith_mul_assoc : ∀ sh r s : List Nat, List.zipWith (· * ·) (List.zipWith (· * ·) sh r) s =
    List.zipWith (· * ·) sh (List.zipWith (· * ·) r s)
  | [], _, _ => rfl
  | _ :: _, [], _ => rfl
  | _ :: _, _ :: _, [] => rfl
  | n :: sh, k :: r, j :: s => by
    simp only [List.zipWith_cons_cons, Nat.mul_assoc, zipWith_mul_assoc sh r s]

theorem getD_zipWith_mul {a b : List Nat} {k : Nat} (ha : k < a.length) (hb : k < b.length) :
    (List.zipWith (· * ·) a b).getD k 0 = a.getD k 0 * b.getD k 0 := by
  simp [List.getD_eq_getElem?_getD, List.getElem?_zipWith, ha, hb]

/-- C96: tiling twice is tiling once with the products of the repetitions. -/
theorem C96_tile_tile [Inhabited α] (e : Buf α) (r s : List Nat) (hr : r.length = e.shape.length)
    (hs : s.length = e.shape.length) (hr1 : ∀ k, k < e.shape.length → 1 ≤ r.getD k 0)
    (hs1 : ∀ k, k < e.shape.length → 1 ≤ s.getD k 0) :
    ∃ x y z, tile e r = .ok x ∧ tile x.written s = .ok y ∧ tile e (List.zipWith (· * ·) r s) = .ok z ∧
      y.shape = z.shape ∧ ∀ q, InBounds z.shape q → y.read q = z.read q := by
  obtain ⟨x, x1, x2, x3, x4, x5⟩ := C47_tile_partial e r hr hr1
  have hl : (List.zipWith (· * ·) e.shape r).length = e.shape.length := by simp [hr]
  obtain ⟨y, y1, y2, y3, y4, y5⟩ := C47_tile_partial x.written s (by rw [show x.written.shape = _ from x2, hl, hs])
    (fun k hk => hs1 k (by rw [show x.written.shape = _ from x2, hl] at hk; exact hk))
  obtain ⟨z, z1, z2, z3, z4, z5⟩ := C47_tile_partial e (List.zipWith (· * ·) r s) (by simp [hr, hs]) (fun k hk => by
    rw [getD_zipWith_mul (by omega) (by omega)]
    exact Nat.mul_pos (hr1 k hk) (hs1 k hk))
  rw [show x.written.shape = _ from x2] at y2 y5
  rw [zipWith_mul_assoc] at y2 y5
  refine ⟨x, y, z, x1, y1, z1, by rw [y2, z2], fun q hq => ?_⟩
  rw [z2] at hq
  obtain ⟨hb, hv⟩ := y5 q hq
  obtain ⟨-, hw⟩ := x5 _ hb
  rw [hv, (z5 q hq).2, Buf.written_read (by rw [x2]; exact hb) hw]
  rw [tileSource_twice hr (by rw [hq.length_eq]; simp [hr, hs])]

example := C96_tile_tile (⟨[2, 1], .row_major, [1, 2]⟩ : Buf Nat) [2, 3] [1, 2] rfl rfl (by decide) (by decide)

/-- C96: one repetition along every axis gives the array back. -/
theorem C96_tile_one [Inhabited α] (e : Buf α) :
    ∃ x, tile e (List.replicate e.shape.length 1) = .ok x ∧ x.shape = e.shape ∧
      ∀ q, InBounds e.shape q → x.read q = some (e.read q) := by
  have hsh : ∀ sh : List Nat, List.zipWith (· * ·) sh (List.replicate sh.length 1) = sh := by
    intro sh
    induction sh with
    | nil => rfl
    | cons n sh ih => simp only [List.length_cons, List.replicate_succ, List.zipWith_cons_cons, ih, Nat.mul_one]
  have hsrc : ∀ {sh q : List Nat}, InBounds sh q → tileSource sh q = q := by
    intro sh
    induction sh with
    | nil => intro q h; cases q <;> simp_all [tileSource]
    | cons n sh ih =>
      intro q h
      cases q with
      | nil => simp at h
      | cons i q =>
        have ih := ih h.2
        simp only [tileSource, List.zipWith_cons_cons] at ih ⊢
        rw [ih, Nat.mod_eq_of_lt h.1]
  obtain ⟨x, x1, x2, -, -, x5⟩ := C47_tile_partial e (List.replicate e.shape.length 1) (by simp) (fun k hk => by
    simp [List.getD_eq_getElem?_getD, List.getElem?_replicate, hk])
  rw [hsh] at x2 x5
  refine ⟨x, x1, x2, fun q hq => ?_⟩
  rw [(x5 q hq).2, hsrc hq]

example := C96_tile_one (⟨[2, 3], .column_major, [1, 2, 3, 4, 5, 6]⟩ : Buf Nat)

/-- The elements of an array as an operand of `concatenate` and `stack`. -/
def Buf.opd [Inhabited α] (e : Buf α) : Opd α := ⟨e.shape, (rowIndices e.shape).map e.read⟩

theorem Buf.opd_get [Inhabited α] (e : Buf α) {idx : List Nat} (h : InBounds e.shape idx) :
    e.opd.vals[rowRank e.opd.shape idx]? = some (e.read idx) := by
  show ((rowIndices e.shape).map e.read)[rowRank e.shape idx]? = _
  rw [List.getElem?_map, rowIndices_rank h]
  rfl

theorem Buf.opd_wf [Inhabited α] (e : Buf α) : e.opd.WF := by simp [Opd.WF, Buf.opd, length_rowIndices]

/-- C96: tiling along one axis is the concatenation of as many copies. -/
theorem C96_tile_concat [Inhabited α] (e : Buf α) {axis n : Nat} (hax : axis < e.shape.length)
    (hsmall : numel e.shape < 2 ^ 31) (hn : (n + 1) * e.shape.getD axis 0 < 2 ^ 64) :
    ∃ x g, tile e ((List.replicate e.shape.length 1).set axis (n + 1)) = .ok x ∧
      concatenate (List.replicate (n + 1) e.opd) axis = .ok g ∧ x.shape = g.shape ∧
      ∀ q, InBounds g.shape q → ∃ v, x.read q = some v ∧ g.Reads q v := by
  have hrep : ((List.replicate (n + 1) e.opd).map fun p => p.shape.getD axis 0) =
      List.replicate (n + 1) (e.shape.getD axis 0) := by simp [Buf.opd]
  have hmem : ∀ p ∈ e.opd :: List.replicate n e.opd, p = e.opd := fun p hp => by
    rcases List.mem_cons.1 hp with h | h
    · exact h
    · exact List.eq_of_mem_replicate h
  have hag : ∀ p ∈ e.opd :: List.replicate n e.opd, AgreeOff axis e.opd.shape p.shape := fun p hp => by
    rw [hmem p hp]; exact ⟨rfl, fun _ _ _ => rfl⟩
  obtain ⟨g, g1, g2, g3⟩ := C39_concatenate (o := e.opd) (ops := List.replicate n e.opd) (axis := axis) hax hag
    (fun p hp => by rw [hmem p hp]; exact e.opd_wf) (fun p hp => by rw [hmem p hp]; exact hsmall)
    (by rw [← List.replicate_succ, hrep, List.sum_replicate_nat]; exact hn)
  have hcov := fun q => C39_concat_cover (o := e.opd) (ops := List.replicate n e.opd) (axis := axis) hax hag (q := q)
  rw [← List.replicate_succ] at g1 g2 g3 hcov
  rw [hrep, List.sum_replicate_nat] at g2 hcov
  rw [hrep] at g3
  have hsh : List.zipWith (· * ·) e.shape ((List.replicate e.shape.length 1).set axis (n + 1)) =
      e.shape.set axis ((n + 1) * e.shape.getD axis 0) := by
    apply List.ext_getElem?
    intro k
    rw [List.getElem?_zipWith, List.getElem?_set, List.getElem?_set]
    by_cases hk : k < e.shape.length
    · by_cases h : axis = k
      · subst h
        simp [hk, List.getD_eq_getElem?_getD, Nat.mul_comm]
      · simp [h, hk, List.getElem?_replicate]
    · by_cases h : axis = k
      · omega
      · simp [h, List.getElem?_eq_none (not_lt.1 hk)]
  obtain ⟨x, x1, x2, -, -, x5⟩ := C47_tile_partial e ((List.replicate e.shape.length 1).set axis (n + 1)) (by simp)
    (fun k hk => by
      rw [List.getD_eq_getElem?_getD, List.getElem?_set]
      split
      · simp_all
      · simp [List.getElem?_replicate, hk])
  rw [hsh] at x2 x5
  refine ⟨x, g, x1, g1, by rw [x2, g2]; rfl, fun q hq => ?_⟩
  rw [g2] at hq
  obtain ⟨j, p, idx, hj, hidx, rfl⟩ := hcov q hq
  have hpe : p = e.opd := List.eq_of_mem_replicate (List.mem_of_getElem? hj)
  subst hpe
  obtain ⟨v, hv, hr⟩ := g3 j _ hj idx hidx
  rw [e.opd_get hidx, Option.some.injEq] at hv
  subst hv
  refine ⟨_, ?_, hr⟩
  rw [(x5 _ hq).2]
  congr 2
  have hjl : j < n + 1 := by
    have := (List.getElem?_eq_some_iff.1 hj).1
    simpa using this
  have hb : blockStart (List.replicate (n + 1) (e.shape.getD axis 0)) j = j * e.shape.getD axis 0 := by
    rw [blockStart, List.take_replicate, List.sum_replicate_nat, Nat.min_eq_left (by omega)]
  rw [hb]
  have hil : idx.length = e.shape.length := hidx.length_eq
  apply List.ext_getElem?
  intro k
  rw [tileSource, List.getElem?_zipWith, shiftAxis, List.getElem?_set]
  by_cases hk : k < e.shape.length
  · have hlt := (inBounds_iff_get.1 hidx).2 k hk
    change idx.getD k 0 < e.shape.getD k 0 at hlt
    by_cases h : axis = k
    · subst h
      simp only [List.getD_eq_getElem?_getD, List.getElem?_eq_getElem hk, List.getElem?_eq_getElem (hil ▸ hk), if_true,
        Option.getD_some] at hlt ⊢
      simp [hil, hk, Nat.mod_eq_of_lt hlt]
    · simp only [List.getD_eq_getElem?_getD, List.getElem?_eq_getElem hk, List.getElem?_eq_getElem (hil ▸ hk),
        Option.getD_some] at hlt
      simp [h, hk, hil, Nat.mod_eq_of_lt hlt]
  · rw [List.getElem?_eq_none (by omega : e.shape.length ≤ k), List.getElem?_eq_none (by omega : idx.length ≤ k)]

example := C96_tile_concat (⟨[2, 3], .column_major, [1, 2, 3, 4, 5, 6]⟩ : Buf Nat) (axis := 1) (n := 2) (by decide) (by decide)
  (by decide)

/-! ### pad -/

/-- Repetitions of one or two, as a padding. -/
def onceMore (sh reps : List Nat) : List (Nat × Nat) := List.zipWith (fun n r => (0, (r - 1) * n)) sh reps

/-- C96: tiling at most twice along each axis is padding behind with `wrap`. -/
theorem C96_tile_wrap [Inhabited α] (e : Buf α) (reps : List Nat) (c : α) (hl : reps.length = e.shape.length)
    (hr : ∀ k, k < e.shape.length → reps.getD k 0 = 1 ∨ reps.getD k 0 = 2) :
    ∃ x y, tile e reps = .ok x ∧ pad e (onceMore e.shape reps) .wrap c = .ok y ∧ x.shape = y.shape ∧
      ∀ q, InBounds x.shape q → x.read q = y.read q := by
  obtain ⟨x, x1, x2, -, -, x5⟩ := C47_tile_partial e reps hl fun k hk => by rcases hr k hk with h | h <;> omega
  have hpl : (onceMore e.shape reps).length = e.shape.length := by simp [onceMore, hl]
  obtain ⟨y, y1, y2, -, -, y5⟩ := C46_pad e (onceMore e.shape reps) .wrap .wrap c (.inl rfl) hpl (by
    intro k hk
    have : (onceMore e.shape reps).getD k (0, 0) = (0, (reps.getD k 0 - 1) * e.shape.getD k 0) := by
      simp [onceMore, List.getD_eq_getElem?_getD, List.getElem?_zipWith, hk, hl]
    rw [this]
    refine ⟨Nat.zero_le _, ?_⟩
    rcases hr k hk with h | h <;> rw [h] <;> simp)
  have hsh : ∀ {sh reps : List Nat}, reps.length = sh.length → (∀ k, k < sh.length → 1 ≤ reps.getD k 0) →
      padShape sh (onceMore sh reps) = List.zipWith (· * ·) sh reps := by
    intro sh
    induction sh with
    | nil => intro reps _ _; rfl
    | cons n sh ih =>
      intro reps h h1
      cases reps with
      | nil => simp at h
      | cons r reps =>
        have ih := ih (reps := reps) (by simpa using h) fun k hk => by
          have := h1 (k + 1) (by simpa using hk)
          simpa using this
        have hr1 : 1 ≤ r := by have := h1 0 (by simp); simpa using this
        simp only [padShape, onceMore, List.zipWith_cons_cons] at ih ⊢
        rw [ih]
        congr 1
        obtain ⟨m, rfl⟩ : ∃ m, r = m + 1 := ⟨r - 1, by omega⟩
        rw [Nat.add_sub_cancel]
        ring
  have hsrc : ∀ {sh reps q : List Nat}, reps.length = sh.length → q.length = sh.length →
      padSource .wrap sh (onceMore sh reps) q = tileSource sh q := by
    intro sh
    induction sh with
    | nil => intro reps q _ h; cases q <;> simp_all [padSource, tileSource]
    | cons n sh ih =>
      intro reps q h h'
      cases reps with
      | nil => simp at h
      | cons r reps =>
        cases q with
        | nil => simp at h'
        | cons i q =>
          have ih := ih (reps := reps) (q := q) (by simpa using h) (by simpa using h')
          simp only [onceMore, tileSource, List.zipWith_cons_cons, padSource] at ih ⊢
          rw [ih]
          congr 1
  have h1 : ∀ k, k < e.shape.length → 1 ≤ reps.getD k 0 := fun k hk => by rcases hr k hk with h | h <;> omega
  rw [hsh hl h1] at y2 y5
  refine ⟨x, y, x1, y1, by rw [x2, y2], fun q hq => ?_⟩
  rw [x2] at hq
  rw [(x5 q hq).2, (y5 q hq).2, hsrc hl (by rw [hq.length_eq]; simp [hl])]

example := C96_tile_wrap (⟨[2, 3], .row_major, [1, 2, 3, 4, 5, 6]⟩ : Buf Nat) [1, 2] 0 rfl (by decide)

theorem inside_twice : ∀ {sh : List Nat} {p p' : List (Nat × Nat)} {q : List Nat}, p.length = sh.length →
    p'.length = sh.length → q.length = sh.length →
    (Inside sh (List.zipWith (fun a b => (a.1 + b.1, a.2 + b.2)) p p') q ↔
      Inside (padShape sh p) p' q ∧ Inside sh p (padShift p' q)) ∧
    padShift p (padShift p' q) = padShift (List.zipWith (fun a b => (a.1 + b.1, a.2 + b.2)) p p') q
  | [], [], [], [], _, _, _ => ⟨by simp [Inside], rfl⟩
  | n :: sh, a :: p, b :: p', i :: q, h1, h2, h3 => by
    obtain ⟨ih1, ih2⟩ := inside_twice (sh := sh) (p := p) (p' := p') (q := q) (by simpa using h1) (by simpa using h2)
      (by simpa using h3)
    refine ⟨?_, ?_⟩
    · show (a.1 + b.1 ≤ i ∧ i < a.1 + b.1 + n ∧ Inside sh _ q) ↔
        (b.1 ≤ i ∧ i < b.1 + (a.1 + n + a.2) ∧ Inside (padShape sh p) p' q) ∧
          a.1 ≤ i - b.1 ∧ i - b.1 < a.1 + n ∧ Inside sh p (padShift p' q)
      rw [ih1]
      constructor
      · rintro ⟨x, y, z, w⟩
        exact ⟨⟨by omega, by omega, z⟩, by omega, by omega, w⟩
      · rintro ⟨⟨x, y, z⟩, u, v, w⟩
        exact ⟨by omega, by omega, z, w⟩
    · show (i - b.1 - a.1) :: padShift p (padShift p' q) = (i - (a.1 + b.1)) :: _
      rw [ih2]
      congr 1
      omega
  | _ :: _, [], _, _, h, _, _ => by simp at h
  | _ :: _, _ :: _, [], _, _, h, _ => by simp at h
  | _ :: _, _ :: _, _ :: _, [], _, _, h => by simp at h
  | [], _ :: _, _, _, h, _, _ => by simp at h
  | [], [], _ :: _, _, _, h, _ => by simp at h
  | [], [], [], _ :: _, _, _, h => by simp at h

theorem padShape_twice : ∀ {sh : List Nat} {p p' : List (Nat × Nat)},
    padShape (padShape sh p) p' = padShape sh (List.zipWith (fun a b => (a.1 + b.1, a.2 + b.2)) p p')
  | [], _, _ => rfl
  | _ :: _, [], _ => rfl
  | _ :: _, _ :: _, [] => rfl
  | n :: sh, a :: p, b :: p' => by
    have := padShape_twice (sh := sh) (p := p) (p' := p')
    simp only [padShape, List.zipWith_cons_cons] at this ⊢
    rw [this]
    congr 1
    omega

/-- C96: padding twice with one constant is padding once with the sums of the widths. -/
theorem C96_pad_pad_constant [Inhabited α] (e : Buf α) (p p' : List (Nat × Nat)) (c : α) (hp : p.length = e.shape.length)
    (hp' : p'.length = e.shape.length) :
    ∃ x y z, pad e p .constant c = .ok x ∧ pad x.written p' .constant c = .ok y ∧
      pad e (List.zipWith (fun a b => (a.1 + b.1, a.2 + b.2)) p p') .constant c = .ok z ∧
      y.shape = z.shape ∧ ∀ q, InBounds z.shape q → y.read q = z.read q := by
  obtain ⟨x, x1, x2, -, -, x5, x6⟩ := C46_pad_constant e p c hp
  have hxl : x.written.shape.length = e.shape.length := by
    rw [show x.written.shape = _ from x2]; simp [padShape, hp]
  obtain ⟨y, y1, y2, -, -, y5, y6⟩ := C46_pad_constant x.written p' c (by rw [hp', hxl])
  obtain ⟨z, z1, z2, -, -, z5, z6⟩ := C46_pad_constant e (List.zipWith (fun a b => (a.1 + b.1, a.2 + b.2)) p p') c
    (by simp [hp, hp'])
  rw [show x.written.shape = _ from x2] at y2 y5 y6
  rw [padShape_twice] at y2 y5 y6
  refine ⟨x, y, z, x1, y1, z1, by rw [y2, z2], fun q hq => ?_⟩
  rw [z2] at hq
  have hql : q.length = e.shape.length := by rw [hq.length_eq]; simp [padShape, hp, hp']
  obtain ⟨h1, h2⟩ := inside_twice hp hp' hql
  by_cases ho : Inside (padShape e.shape p) p' q
  · obtain ⟨hb, hv⟩ := y5 q hq ho
    by_cases hi : Inside e.shape p (padShift p' q)
    · obtain ⟨-, hw⟩ := x5 _ hb hi
      rw [hv, Buf.written_read (by rw [x2]; exact hb) hw, (z5 q hq (h1.2 ⟨ho, hi⟩)).2, h2]
    · rw [hv, Buf.written_read (by rw [x2]; exact hb) (x6 _ hb hi), z6 q hq fun h => hi (h1.1 h).2]
  · rw [y6 q hq ho, z6 q hq fun h => ho (h1.1 h).1]

example := C96_pad_pad_constant (⟨[2, 1], .row_major, [1, 2]⟩ : Buf Nat) [(1, 0), (0, 2)] [(0, 1), (3, 0)] 7 rfl rfl

theorem edge_twice : ∀ {sh : List Nat} {p p' : List (Nat × Nat)} {q : List Nat}, p.length = sh.length →
    p'.length = sh.length → InBounds (padShape sh (List.zipWith (fun a b => (a.1 + b.1, a.2 + b.2)) p p')) q →
    (∀ k, k < sh.length → 0 < sh.getD k 0) →
    padSource .edge sh p (padSource .edge (padShape sh p) p' q) =
      padSource .edge sh (List.zipWith (fun a b => (a.1 + b.1, a.2 + b.2)) p p') q
  | [], [], [], [], _, _, _, _ => rfl
  | n :: sh, a :: p, b :: p', i :: q, h1, h2, h3, h4 => by
    have ih := edge_twice (sh := sh) (p := p) (p' := p') (q := q) (by simpa using h1) (by simpa using h2) h3.2
      fun k hk => by have := h4 (k + 1) (by simpa using hk); simpa using this
    have hn : 0 < n := by have := h4 0 (by simp); simpa using this
    have hi : i < a.1 + b.1 + n + (a.2 + b.2) := h3.1
    show _ :: padSource .edge sh p (padSource .edge (padShape sh p) p' q) = _ :: _
    rw [ih]
    congr 1
    simp only [extendIndex]
    push_cast
    split <;> split <;> (try split) <;> (try split) <;> (try split) <;> omega
  | _ :: _, [], _, _, h, _, _, _ => by simp at h
  | _ :: _, _ :: _, [], _, _, h, _, _ => by simp at h
  | _ :: _, _ :: _, _ :: _, [], _, _, h, _ => by simp [padShape] at h
  | [], _ :: _, _, _, h, _, _, _ => by simp at h
  | [], [], _ :: _, _, _, h, _, _ => by simp at h
  | [], [], [], _ :: _, _, _, h, _ => by simp [padShape] at h

/-- C96: so it is for `edge`, on arrays with elements. -/
theorem C96_pad_pad_edge [Inhabited α] (e : Buf α) (p p' : List (Nat × Nat)) (c : α) (hp : p.length = e.shape.length)
    (hp' : p'.length = e.shape.length) (h0 : ∀ k, k < e.shape.length → 0 < e.shape.getD k 0) :
    ∃ x y z, pad e p .edge c = .ok x ∧ pad x.written p' .edge c = .ok y ∧
      pad e (List.zipWith (fun a b => (a.1 + b.1, a.2 + b.2)) p p') .edge c = .ok z ∧
      y.shape = z.shape ∧ ∀ q, InBounds z.shape q → y.read q = z.read q := by
  obtain ⟨x, x1, x2, -, -, x5⟩ := C46_pad e p .edge .edge c rfl hp fun k hk => Or.inr (h0 k hk)
  have hxl : x.written.shape.length = e.shape.length := by
    rw [show x.written.shape = _ from x2]; simp [padShape, hp]
  obtain ⟨y, y1, y2, -, -, y5⟩ := C46_pad x.written p' .edge .edge c rfl (by rw [hp', hxl]) fun k hk => Or.inr (by
    rw [hxl] at hk
    have := h0 k hk
    rw [show x.written.shape = _ from x2]
    simp only [padShape, List.getD_eq_getElem?_getD, List.getElem?_zipWith, List.getElem?_eq_getElem hk,
      List.getElem?_eq_getElem (hp ▸ hk : k < p.length), Option.getD_some] at this ⊢
    omega)
  obtain ⟨z, z1, z2, -, -, z5⟩ := C46_pad e (List.zipWith (fun a b => (a.1 + b.1, a.2 + b.2)) p p') .edge .edge c rfl
    (by simp [hp, hp']) fun k hk => Or.inr (h0 k hk)
  rw [show x.written.shape = _ from x2] at y2 y5
  rw [padShape_twice] at y2 y5
  refine ⟨x, y, z, x1, y1, z1, by rw [y2, z2], fun q hq => ?_⟩
  rw [z2] at hq
  obtain ⟨hb, hv⟩ := y5 q hq
  obtain ⟨-, hw⟩ := x5 _ hb
  rw [hv, Buf.written_read (by rw [x2]; exact hb) hw, (z5 q hq).2, edge_twice hp hp' hq h0]

example := C96_pad_pad_edge (⟨[2, 1], .row_major, [1, 2]⟩ : Buf Nat) [(1, 0), (0, 2)] [(0, 1), (3, 0)] 7 rfl rfl (by decide)

/-- C96: not so for the other modes. -/
theorem C96_pad_pad_wrong : ∀ m ∈ [PadMode.wrap, .symmetric, .reflect], ∃ (e : Buf Nat) (x y z : Buf (Option Nat)),
    pad e [(1, 0)] m 0 = .ok x ∧ pad x.written [(1, 0)] m 0 = .ok y ∧ pad e [(2, 0)] m 0 = .ok z ∧ y ≠ z := by
  intro m hm
  refine ⟨⟨[3], .row_major, [1, 2, 3]⟩, ?_⟩
  fin_cases hm
  · exact ⟨_, _, _, rfl, rfl, rfl, by decide⟩
  · exact ⟨_, _, _, rfl, rfl, rfl, by decide⟩
  · exact ⟨_, _, _, rfl, rfl, rfl, by decide⟩

/-! ### Reductions of padded arrays -/

open Classical in
theorem sum_padded {M : Type} [AddCommMonoid M] : ∀ (sh : List Nat) (p : List (Nat × Nat)) (F : List Nat → M),
    p.length = sh.length →
    ((rowIndices (padShape sh p)).map fun q => if Inside sh p q then F (padShift p q) else 0).sum =
      ((rowIndices sh).map F).sum
  | [], [], F, _ => by simp [padShape, rowIndices, Inside, padShift]
  | n :: sh, a :: p, F, h => by
    have ih := fun i => sum_padded sh p (fun q => F (i :: q)) (by simpa using h)
    have key : ∀ i, ((rowIndices (padShape sh p)).map fun q =>
        if Inside (n :: sh) (a :: p) (i :: q) then F (padShift (a :: p) (i :: q)) else 0).sum =
        if a.1 ≤ i ∧ i < a.1 + n then ((rowIndices sh).map fun q => F ((i - a.1) :: q)).sum else 0 := by
      intro i
      split
      · rename_i hi
        rw [← ih]
        congr 1
        apply List.map_congr_left
        intro q _
        have : Inside (n :: sh) (a :: p) (i :: q) ↔ Inside sh p q := ⟨fun x => x.2.2, fun x => ⟨hi.1, hi.2, x⟩⟩
        simp only [this, padShift]
      · rename_i hi
        have : ∀ q, ¬ Inside (n :: sh) (a :: p) (i :: q) := fun q x => hi ⟨x.1, x.2.1⟩
        simp [this]
    have flat : ∀ (m : Nat) (t : List Nat) (G : List Nat → M), ((rowIndices (m :: t)).map G).sum =
        ((List.range m).map fun i => ((rowIndices t).map fun q => G (i :: q)).sum).sum := by
      intro m t G
      show (((List.range m).flatMap fun i => (rowIndices t).map (i :: ·)).map G).sum = _
      generalize List.range m = l
      induction l with
      | nil => rfl
      | cons i l ih => simp [List.sum_append, ih, Function.comp_def]
    show ((rowIndices ((a.1 + n + a.2) :: padShape sh p)).map _).sum = _
    rw [flat, flat]
    simp only [key]
    rw [List.range_add, List.map_append, List.sum_append, List.range_add, List.map_append, List.sum_append]
    have z1 : ((List.range a.1).map fun i => if a.1 ≤ i ∧ i < a.1 + n then
        ((rowIndices sh).map fun q => F ((i - a.1) :: q)).sum else 0).sum = 0 := by
      apply List.sum_eq_zero
      intro v hv
      obtain ⟨i, hi, rfl⟩ := List.mem_map.1 hv
      rw [if_neg (by have := List.mem_range.1 hi; omega)]
    have z2 : (((List.range a.2).map (a.1 + n + ·)).map fun i => if a.1 ≤ i ∧ i < a.1 + n then
        ((rowIndices sh).map fun q => F ((i - a.1) :: q)).sum else 0).sum = 0 := by
      apply List.sum_eq_zero
      intro v hv
      obtain ⟨i, hi, rfl⟩ := List.mem_map.1 hv
      obtain ⟨j, -, rfl⟩ := List.mem_map.1 hi
      rw [if_neg (by omega)]
    rw [z1, z2, zero_add, add_zero, List.map_map]
    congr 1
    apply List.map_congr_left
    intro i hi
    have := List.mem_range.1 hi
    simp only [Function.comp]
    rw [if_pos (by omega), Nat.add_sub_cancel_left]
  | [], _ :: _, _, h => by simp at h
  | _ :: _, [], _, h => by simp at h

theorem lazyReduce_total {M : Type} [AddCommMonoid M] (d : M) (z : LazyEx M) (hz : z.shape ≠ []) : ∃ s,
    lazyReduce (monoidFns M) d z.toEx z.shape (toInts (List.range z.shape.length)) false = .ok s ∧ s.shape = [] ∧
      s.elem [] = ((rowIndices z.shape).map z.elem).sum := by
  have hn : (toInts (List.range z.shape.length)).map (normalizeAxis z.shape.length) = List.range z.shape.length := by
    rw [toInts, List.map_map]
    exact (List.map_congr_left fun k hk => by simp [normalizeAxis]).trans (List.map_id _)
  obtain ⟨s, s1, s2, s3⟩ := lazyReduce_fold (e := z.toEx) (sh := z.shape) d ⟨hz, broadcastsTo_refl _⟩
    (by rw [hn]; exact goodAxes_range _) false (.inl (monoidLaws (M := M)))
  rw [hn] at s2 s3
  have hnil : s.shape = [] := by rw [s2]; simpa using redShape_all z.shape false
  refine ⟨s, s1, hnil, ?_⟩
  have hb : InBounds s.shape [] := by rw [hnil]; trivial
  rw [s3 [] hb, redValue_monoid, redGroup_all (by rw [← s2]; exact hb)]
  congr 1
  exact List.map_congr_left fun q hq => valueAt_toEx _ (mem_rowIndices.1 hq)

/-- C96: padding with zeros does not change the sum of all elements (in any commutative monoid). -/
theorem C96_pad_sum {M : Type} [AddCommMonoid M] [Inhabited M] (e : Buf M) (p : List (Nat × Nat)) (d : M)
    (hp : p.length = e.shape.length) (h0 : e.shape ≠ []) :
    ∃ x s t, pad e p .constant 0 = .ok x ∧
      lazyReduce (monoidFns M) d (LazyEx.mk x.shape x.written.read).toEx x.shape (toInts (List.range x.shape.length)) false
        = .ok s ∧
      lazyReduce (monoidFns M) d (LazyEx.mk e.shape e.read).toEx e.shape (toInts (List.range e.shape.length)) false = .ok t ∧
      s.shape = [] ∧ t.shape = [] ∧ s.elem [] = t.elem [] := by
  classical
  obtain ⟨x, x1, x2, -, -, x5, x6⟩ := C46_pad_constant e p 0 hp
  have hx0 : x.shape ≠ [] := by
    rw [x2]
    intro h
    have := congrArg List.length h
    simp only [padShape, List.length_zipWith, hp, Nat.min_self, List.length_nil, List.length_eq_zero_iff] at this
    exact h0 this
  obtain ⟨s, s1, s2, s3⟩ := lazyReduce_total d (LazyEx.mk x.shape x.written.read) hx0
  obtain ⟨t, t1, t2, t3⟩ := lazyReduce_total d (LazyEx.mk e.shape e.read) h0
  refine ⟨x, s, t, x1, s1, t1, s2, t2, ?_⟩
  rw [s3, t3]
  show ((rowIndices x.shape).map x.written.read).sum = ((rowIndices e.shape).map e.read).sum
  rw [← sum_padded e.shape p e.read hp, x2]
  congr 1
  apply List.map_congr_left
  intro q hq
  have hq := mem_rowIndices.1 hq
  by_cases hi : Inside e.shape p q
  · rw [if_pos hi, Buf.written_read (by rw [x2]; exact hq) (x5 q hq hi).2]
  · rw [if_neg hi, Buf.written_read (by rw [x2]; exact hq) (x6 q hq hi)]

example := C96_pad_sum (M := ℚ) ⟨[2, 1], .row_major, [1, 2]⟩ [(1, 0), (0, 2)] 0 rfl (by simp)

/-! ### roll -/

theorem roll_determined {vals r s : List α} (k : Int) (h0 : vals ≠ []) (hr : r.length = vals.length)
    (hs : s.length = vals.length)
    (h1 : ∀ p, p < vals.length → r[(((p : Int) + k) % (vals.length : Int)).toNat]? = vals[p]?)
    (h2 : ∀ p, p < vals.length → s[(((p : Int) + k) % (vals.length : Int)).toNat]? = vals[p]?) : r = s := by
  have hpos : 0 < vals.length := List.length_pos_iff.2 h0
  apply List.ext_getElem?
  intro q
  by_cases hq : q < vals.length
  · have hm := Int.emod_nonneg ((q : Int) - k) (show (vals.length : Int) ≠ 0 by omega)
    have hm' := Int.emod_lt_of_pos ((q : Int) - k) (show (0 : Int) < vals.length by omega)
    have e1 : (((((q : Int) - k) % vals.length).toNat : Int) + k) % (vals.length : Int) = q := by
      rw [Int.toNat_of_nonneg hm, Int.emod_add_emod, Int.sub_add_cancel, Int.emod_eq_of_lt (by omega) (by omega)]
    have a := h1 _ (show (((q : Int) - k) % vals.length).toNat < vals.length by omega)
    have b := h2 _ (show (((q : Int) - k) % vals.length).toNat < vals.length by omega)
    rw [e1, Int.toNat_natCast] at a b
    rw [a, b]
  · rw [List.getElem?_eq_none (by omega), List.getElem?_eq_none (by omega)]

/-- C96: rolling by `k` and then by `l` is rolling by `k + l`. -/
theorem C96_roll_roll {vals : List α} (hv : vals ≠ []) (k l : Int) :
    ∃ r s, rollFlat vals k = .ok r ∧ rollFlat r l = .ok s ∧ rollFlat vals (k + l) = .ok s := by
  have hpos : 0 < vals.length := List.length_pos_iff.2 hv
  obtain ⟨r, r1, r2, r3⟩ := C36_roll_flat hv k
  have hr : r ≠ [] := List.length_pos_iff.1 (by omega)
  obtain ⟨s, s1, s2, s3⟩ := C36_roll_flat hr l
  obtain ⟨u, u1, u2, u3⟩ := C36_roll_flat hv (k + l)
  refine ⟨r, s, r1, s1, ?_⟩
  rw [u1]
  congr 1
  refine roll_determined (k + l) hv u2 (by omega) u3 fun p hp => ?_
  have hm := Int.emod_nonneg ((p : Int) + k) (show (vals.length : Int) ≠ 0 by omega)
  have hm' := Int.emod_lt_of_pos ((p : Int) + k) (show (0 : Int) < vals.length by omega)
  have := s3 (((p : Int) + k) % vals.length).toNat (by omega)
  rw [r3 p hp, Int.toNat_of_nonneg hm, r2, Int.emod_add_emod, Int.add_assoc] at this
  exact this

example := C96_roll_roll (vals := [1, 2, 3]) (by simp) 5 (-7)

/-- C96: rolling by `0 ≤ k ≤ size` puts the last `k` elements in front of the others: it is the concatenation of two
pieces. -/
theorem C96_roll_concat {vals : List α} (hv : vals ≠ []) {k : Nat} (hk : k ≤ vals.length) :
    rollFlat vals k = .ok (vals.drop (vals.length - k) ++ vals.take (vals.length - k)) := by
  have hpos : 0 < vals.length := List.length_pos_iff.2 hv
  obtain ⟨r, r1, r2, r3⟩ := C36_roll_flat hv k
  rw [r1]
  congr 1
  refine roll_determined k hv r2 (by simp) r3 fun p hp => ?_
  by_cases h : p + k < vals.length
  · rw [Int.emod_eq_of_lt (by omega) (by omega), show ((p : Int) + k).toNat = p + k by omega,
      List.getElem?_append_right (by simp; omega), List.length_drop, List.getElem?_take]
    rw [if_pos (by omega)]
    congr 1
    omega
  · have e : ((p : Int) + k) % (vals.length : Int) = ((p + k - vals.length : Nat) : Int) := by
      rw [← Int.sub_emod_right, Int.emod_eq_of_lt (by omega) (by omega)]
      omega
    rw [e, Int.toNat_natCast, List.getElem?_append_left (by simp; omega), List.getElem?_drop]
    congr 1
    omega

example := C96_roll_concat (vals := [1, 2, 3]) (by simp) (k := 2) (by simp)

/-! ### concatenate and stack -/

/-- The operand holds what the generator reads. -/
structure Spec.HoldsGen (o : Opd α) (g : Gen α) : Prop where
  shape : o.shape = g.shape
  wf : o.WF
  reads : ∀ idx, InBounds o.shape idx → ∃ v, o.vals[rowRank o.shape idx]? = some v ∧ g.Reads idx v

theorem Gen.Reads.unique {g : Gen α} {idx : List Nat} {v w : α} (h : g.Reads idx v) (h' : g.Reads idx w) : v = w := by
  have := h.1.symm.trans h'.1
  cases this
  rfl

/-- C96: concatenating the concatenation of some operands with others is concatenating all of them. -/
theorem C96_concat_concat [Inhabited α] {o : Opd α} {as bs : List (Opd α)} {axis : Nat} (hax : axis < o.shape.length)
    (hag : ∀ p ∈ o :: (as ++ bs), AgreeOff axis o.shape p.shape) (hw : ∀ p ∈ o :: (as ++ bs), p.WF)
    (hsmall : ∀ p ∈ o :: (as ++ bs), numel p.shape < 2 ^ 31)
    (hsum : ((o :: (as ++ bs)).map fun p => p.shape.getD axis 0).sum < 2 ^ 64) :
    ∃ g, concatenate (o :: as) axis = .ok g ∧ ∀ x : Opd α, HoldsGen x g → numel x.shape < 2 ^ 31 →
      ∃ h h', concatenate (x :: bs) axis = .ok h ∧ concatenate (o :: (as ++ bs)) axis = .ok h' ∧ h.shape = h'.shape ∧
        ∀ q, InBounds h.shape q → ∃ v, h.Reads q v ∧ h'.Reads q v := by
  have sub1 : ∀ p ∈ o :: as, p ∈ o :: (as ++ bs) := fun p hp => by
    rcases List.mem_cons.1 hp with h | h <;> simp [h]
  have sub2 : ∀ p ∈ bs, p ∈ o :: (as ++ bs) := fun p hp => by simp [hp]
  have hmap : ((o :: (as ++ bs)).map fun p => p.shape.getD axis 0) =
      ((o :: as).map fun p => p.shape.getD axis 0) ++ bs.map fun p => p.shape.getD axis 0 := by
    rw [← List.cons_append, List.map_append]
  rw [hmap, List.sum_append] at hsum
  obtain ⟨g, g1, g2, g3⟩ := C39_concatenate (o := o) (ops := as) hax (fun p hp => hag p (sub1 p hp))
    (fun p hp => hw p (sub1 p hp)) (fun p hp => hsmall p (sub1 p hp)) (by omega)
  refine ⟨g, g1, fun x hx hxs => ?_⟩
  have hxsh : x.shape = o.shape.set axis ((o :: as).map fun p => p.shape.getD axis 0).sum := by rw [hx.shape, g2]
  have hxl : x.shape.length = o.shape.length := by rw [hxsh]; simp
  have hxa : x.shape.getD axis 0 = ((o :: as).map fun p => p.shape.getD axis 0).sum := by
    rw [hxsh, getD_set_self hax]
  have hagx : ∀ p ∈ x :: bs, AgreeOff axis x.shape p.shape := by
    intro p hp
    rcases List.mem_cons.1 hp with rfl | hp
    · exact ⟨rfl, fun _ _ _ => rfl⟩
    · obtain ⟨e1, e2⟩ := hag p (sub2 p hp)
      refine ⟨by rw [hxl, e1], fun k hk hka => ?_⟩
      rw [hxl] at hk
      rw [← e2 k hk hka, hxsh]
      simp only [List.getD_eq_getElem?_getD]
      rw [List.getElem?_set_ne (Ne.symm hka)]
  obtain ⟨h, h1, h2, h3⟩ := C39_concatenate (o := x) (ops := bs) (by rw [hxl]; exact hax) hagx
    (fun p hp => by
      rcases List.mem_cons.1 hp with rfl | hp
      · exact hx.wf
      · exact hw p (sub2 p hp))
    (fun p hp => by
      rcases List.mem_cons.1 hp with rfl | hp
      · exact hxs
      · exact hsmall p (sub2 p hp))
    (by rw [List.map_cons, List.sum_cons, hxa]; exact hsum)
  obtain ⟨h', k1, k2, k3⟩ := C39_concatenate (o := o) (ops := as ++ bs) hax hag hw hsmall
    (by rw [hmap, List.sum_append]; exact hsum)
  have hs : h.shape = h'.shape := by
    rw [h2, k2, hmap, List.sum_append, List.map_cons, List.sum_cons, hxa, hxsh, List.set_set]
  refine ⟨h, h', h1, k1, hs, fun q hq => ?_⟩
  rw [h2] at hq
  obtain ⟨j, p, idx, hj, hidx, rfl⟩ := C39_concat_cover (o := x) (ops := bs) (by rw [hxl]; exact hax) hagx hq
  obtain ⟨v, hv, hrd⟩ := h3 j p hj idx hidx
  refine ⟨v, hrd, ?_⟩
  cases j with
  | zero =>
    simp only [List.getElem?_cons_zero, Option.some.injEq] at hj
    subst hj
    rw [hxsh] at hidx
    obtain ⟨i, p', idx', hi, hidx', rfl⟩ := C39_concat_cover (o := o) (ops := as) hax (fun p hp => hag p (sub1 p hp)) hidx
    obtain ⟨w, hw', hrw⟩ := g3 i p' hi idx' hidx'
    have hiL : i < (o :: as).length := (List.getElem?_eq_some_iff.1 hi).1
    obtain ⟨u, hu, hru⟩ := hx.reads _ (by rw [hxsh]; exact hidx)
    have hvw : v = w := by
      rw [hv, Option.some.injEq] at hu
      rw [hu]
      exact hru.unique hrw
    obtain ⟨w', hw'', hrw'⟩ := k3 i p' (by rw [← List.cons_append, List.getElem?_append_left hiL]; exact hi) idx' hidx'
    rw [hw', Option.some.injEq] at hw''
    rw [hvw, hw'']
    have e1 : blockStart ((o :: (as ++ bs)).map fun p => p.shape.getD axis 0) i =
        blockStart ((o :: as).map fun p => p.shape.getD axis 0) i := by
      rw [hmap, blockStart, blockStart, List.take_append_of_le_length (by simpa using hiL.le)]
    have e2 : blockStart ((x :: bs).map fun p => p.shape.getD axis 0) 0 = 0 := rfl
    have e3 : ∀ l : List Nat, axis < l.length → shiftAxis axis 0 l = l := fun l hl => by
      unfold shiftAxis
      rw [Nat.add_zero]
      exact set_getD_self
    rw [e2, e3 _ (by
      have := hidx.length_eq
      rw [this]; simpa using hax), ← e1]
    exact hrw'
  | succ j =>
    have hjL : j < bs.length := by
      have := (List.getElem?_eq_some_iff.1 hj).1
      simpa using this
    obtain ⟨w', hw'', hrw'⟩ := k3 ((o :: as).length + j) p (by
      rw [← List.cons_append, List.getElem?_append_right (by omega), Nat.add_sub_cancel_left]
      simpa using hj) idx hidx
    rw [hv, Option.some.injEq] at hw''
    rw [hw'']
    have e1 : blockStart ((o :: (as ++ bs)).map fun p => p.shape.getD axis 0) ((o :: as).length + j) =
        blockStart ((x :: bs).map fun p => p.shape.getD axis 0) (j + 1) := by
      rw [hmap, blockStart, blockStart, List.take_append, List.sum_append, List.map_cons (l := bs), List.take_succ_cons,
        List.sum_cons, hxa, List.take_of_length_le (by simp)]
      simp
    rw [← e1]
    exact hrw'

/-- Whatever a generator reads can be held by an operand. -/
theorem holdsGen_exists [Inhabited α] {g : Gen α} (h : ∀ idx, InBounds g.shape idx → ∃ v, g.Reads idx v) :
    ∃ x, HoldsGen x g := by
  refine ⟨⟨g.shape, (rowIndices g.shape).map fun idx => match g.call idx with | .ok v => v | _ => default⟩, rfl, ?_, ?_⟩
  · simp [Opd.WF, length_rowIndices]
  · intro idx hidx
    obtain ⟨v, hv⟩ := h idx hidx
    refine ⟨v, ?_, hv⟩
    show ((rowIndices g.shape).map _)[rowRank g.shape idx]? = _
    rw [List.getElem?_map, rowIndices_rank hidx]
    simp only [Option.map_some, hv.1]

example := C96_concat_concat (o := (⟨[2, 1], [1, 2]⟩ : Opd Nat)) (as := [⟨[2, 2], [3, 4, 5, 6]⟩]) (bs := [⟨[2, 1], [7, 8]⟩])
  (axis := 1) (by decide) (fun p hp => concatCheck_iff.1 (by revert p hp; decide)) (by unfold Opd.WF; decide) (by decide)
  (by decide)
example : HoldsGen (⟨[2], [5, 6]⟩ : Opd Nat) ⟨[2], fun i => .ok (i.sum + 5)⟩ :=
  ⟨rfl, rfl, fun idx h => by
    match idx, h with
    | [0], _ => exact ⟨5, rfl, rfl, rfl⟩
    | [1], _ => exact ⟨6, rfl, rfl, rfl⟩⟩

theorem numel_insertIdx_unit : ∀ {a : Nat} {sh : List Nat}, a ≤ sh.length → numel (sh.insertIdx a 1) = numel sh
  | 0, sh, _ => by simp
  | a + 1, n :: sh, h => by
    have := numel_insertIdx_unit (a := a) (sh := sh) (by simpa using h)
    simp only [List.insertIdx_succ_cons, numel_cons, this]
  | _ + 1, [], h => by simp at h

theorem rowRank_insertIdx_unit : ∀ {a : Nat} {sh idx : List Nat}, a ≤ sh.length → InBounds sh idx →
    rowRank (sh.insertIdx a 1) (idx.insertIdx a 0) = rowRank sh idx
  | 0, sh, idx, _, _ => by simp
  | a + 1, n :: sh, i :: idx, h, hb => by
    have ih := rowRank_insertIdx_unit (a := a) (sh := sh) (idx := idx) (by simpa using h) hb.2
    simp only [List.insertIdx_succ_cons, rowRank, ih, numel_insertIdx_unit (show a ≤ sh.length by simpa using h)]
  | _ + 1, [], _, h, _ => by simp at h
  | _ + 1, _ :: _, [], _, h => by simp at h

/-- The same elements with one more axis of extent 1, what `expand_dims` shows (C37). -/
def expanded (axis : Nat) (o : Opd α) : Opd α := ⟨o.shape.insertIdx axis 1, o.vals⟩

/-- C96: stacking is concatenating along a new axis. -/
theorem C96_stack_concat [Inhabited α] {o : Opd α} {ops : List (Opd α)} {axis : Nat} (hax : axis ≤ o.shape.length)
    (hsh : ∀ p ∈ o :: ops, p.shape = o.shape) (hw : ∀ p ∈ o :: ops, p.WF) (hsmall : numel o.shape < 2 ^ 31)
    (hn : ops.length + 1 < 2 ^ 64) :
    ∃ g h, stackGen (o :: ops) axis = .ok g ∧ concatenate ((o :: ops).map (expanded axis)) axis = .ok h ∧
      g.shape = h.shape ∧ ∀ q, InBounds g.shape q → ∃ v, g.Reads q v ∧ h.Reads q v := by
  obtain ⟨g, g1, g2, g3⟩ := C39_stack_partial hax hsh hw hsmall
  have hel : ∀ p ∈ (o :: ops).map (expanded axis), p.shape = o.shape.insertIdx axis 1 := by
    intro p hp
    obtain ⟨p', hp', rfl⟩ := List.mem_map.1 hp
    show p'.shape.insertIdx axis 1 = _
    rw [hsh p' hp']
  have hlen : axis < (o.shape.insertIdx axis 1).length := by rw [List.length_insertIdx_of_le_length hax]; omega
  have hone : (o.shape.insertIdx axis 1).getD axis 0 = 1 := getD_insertIdx hax
  have hext : (((o :: ops).map (expanded axis)).map fun p => p.shape.getD axis 0) = List.replicate (ops.length + 1) 1 := by
    rw [List.eq_replicate_iff]
    refine ⟨by simp, fun b hb => ?_⟩
    obtain ⟨p, hp, rfl⟩ := List.mem_map.1 hb
    rw [hel p hp, hone]
  have hcons : (o :: ops).map (expanded axis) = expanded axis o :: ops.map (expanded axis) := rfl
  obtain ⟨h, h1, h2, h3⟩ := C39_concatenate (o := expanded axis o) (ops := ops.map (expanded axis)) (axis := axis) hlen
    (fun p hp => by
      rw [hel p hp]
      exact ⟨rfl, fun _ _ _ => rfl⟩)
    (fun p hp => by
      obtain ⟨p', hp', rfl⟩ := List.mem_map.1 (hcons ▸ hp)
      show p'.vals.length = numel (p'.shape.insertIdx axis 1)
      rw [numel_insertIdx_unit (by rw [hsh p' hp']; exact hax)]
      exact hw p' hp')
    (fun p hp => by rw [hel p hp, numel_insertIdx_unit hax]; exact hsmall)
    (by rw [← hcons, hext, List.sum_replicate_nat, Nat.mul_one]; exact hn)
  rw [← hcons] at h1 h2 h3
  rw [hext] at h2 h3
  have hgs : h.shape = g.shape := by
    rw [h2, g2, List.sum_replicate_nat, Nat.mul_one]
    exact set_insertIdx hax
  refine ⟨g, h, g1, h1, hgs.symm, fun q hq => ?_⟩
  rw [g2] at hq
  obtain ⟨j, p, idx, hj, hidx, rfl⟩ := C39_stack_cover hax hq
  obtain ⟨v, hv, hr⟩ := g3 j p hj idx hidx
  have hps : p.shape = o.shape := hsh p (List.mem_of_getElem? hj)
  obtain ⟨w, hw', hr'⟩ := h3 j (expanded axis p) (by rw [List.getElem?_map, hj]; rfl) (idx.insertIdx axis 0) (by
    show InBounds (p.shape.insertIdx axis 1) _
    rw [hps]
    exact inBounds_insertIdx hidx hax (by omega))
  have hvw : v = w := by
    have : (expanded axis p).vals[rowRank (expanded axis p).shape (idx.insertIdx axis 0)]? = some v := by
      show p.vals[rowRank (p.shape.insertIdx axis 1) (idx.insertIdx axis 0)]? = some v
      rw [hps, rowRank_insertIdx_unit hax hidx]
      exact hv
    rw [this, Option.some.injEq] at hw'
    exact hw'
  refine ⟨v, hr, ?_⟩
  have hjl : j < ops.length + 1 := by
    have := (List.getElem?_eq_some_iff.1 hj).1
    simpa using this
  have hil : axis ≤ idx.length := by rw [hidx.length_eq]; exact hax
  rw [blockStart, List.take_replicate, List.sum_replicate_nat, Nat.mul_one, Nat.min_eq_left (by omega), shiftAxis,
    getD_insertIdx hil, Nat.zero_add, set_insertIdx hil] at hr'
  rw [hvw]
  exact hr'

example := C96_stack_concat (o := (⟨[2], [1, 2]⟩ : Opd Nat)) (ops := [⟨[2], [3, 4]⟩]) (axis := 1) (by decide) (by decide)
  (by unfold Opd.WF; decide) (by decide) (by decide)

/-! ### Builders -/

/-- C96: `linspace` without its end point is `arange` with the step it divides the interval into (exact arithmetic). -/
theorem C96_linspace_arange {start stop : Rat} (h : start ≠ stop) {n : Nat} (hn : 0 < n) :
    ∃ g, arangeReal start stop ((stop - start) / n) = .ok g ∧ g.shape = [n] ∧
      (linspace start stop n false).shape = [n] ∧
      ∀ k, k < n → ∃ v, g.Reads [k] v ∧ (linspace start stop n false).Reads [k] v := by
  have hd : stop - start ≠ 0 := fun h' => h (by linarith)
  have hnq : (n : Rat) ≠ 0 := by exact_mod_cast hn.ne'
  have hstep : (stop - start) / n ≠ 0 := div_ne_zero hd hnq
  have hq : (stop - start) / ((stop - start) / n) = n := by field_simp
  have hsize : arangeSizeReal start stop ((stop - start) / n) = .ok n := by
    unfold arangeSizeReal
    rw [if_neg hstep, hq]
    have : ⌈(n : Rat)⌉ = (n : Int) := Int.ceil_natCast n
    rw [this, if_neg (by omega), Int.toNat_natCast]
  have hls : linspaceStep start stop n false = (stop - start) / n := by
    unfold linspaceStep
    simp only [Bool.false_eq_true, if_false]
    rw [max_eq_right (by exact_mod_cast hn)]
  obtain ⟨g, hg⟩ : ∃ g, arangeReal start stop ((stop - start) / n) = .ok g := by
    unfold arangeReal
    rw [hsize]
    exact ⟨_, rfl⟩
  obtain ⟨m, hm, hs, hr⟩ := C38_arange_values_real hg
  rw [hsize, Res.ok.injEq] at hm
  subst hm
  refine ⟨g, hg, hs, rfl, fun k hk => ⟨_, hr k hk, ?_⟩⟩
  by_cases h1 : 1 < n
  · have := (C56_linspace start stop n false k hk h1).2
    simp only [Bool.false_eq_true, if_false, sub_zero] at this
    rwa [mul_comm]
  · obtain rfl : k = 0 := by omega
    have := (C56_linspace_ends start stop n false hn).1
    simpa using this

example := C96_linspace_arange (start := 1) (stop := 3) (by norm_num) (n := 4) (by decide)

/-- C96: the diagonal matrix of ones is `eye`. -/
theorem C96_eye_diag {n : Nat} {k : Int} (hk : k.natAbs ≤ 2 ^ 31) (hsz : n + k.natAbs ≤ 2 ^ 63) :
    (diag n (fun _ => (.ok 1 : Res Nat)) k).shape = [n + k.natAbs, n + k.natAbs] ∧
      ∀ row col, row < n + k.natAbs → col < n + k.natAbs →
        ∃ v, (diag n (fun _ => .ok 1) k).Reads [row, col] v ∧ (eye [n + k.natAbs, n + k.natAbs] k).Reads [row, col] v := by
  have key : ∀ row col, row < n + k.natAbs → col < n + k.natAbs → _ := fun row col hr hc =>
    C40_diag (v := List.replicate n 1) (src := fun _ => .ok 1) hk
      (fun i x h => by rw [List.eq_of_mem_replicate (List.mem_of_getElem? h)]) (row := row) (col := col)
      (by simpa using hsz) (by simpa using hr) (by simpa using hc)
  simp only [List.length_replicate] at key
  refine ⟨rfl, fun row col hr hc => ?_⟩
  obtain ⟨-, h1, h2⟩ := key row col hr hc
  have he := C40_eye (shape := [n + k.natAbs, n + k.natAbs]) (pre := []) (row := row) (col := col) hk
    (by intro m hm; simp only [List.mem_cons, List.not_mem_nil, or_false, or_self] at hm; omega) ⟨hr, hc, trivial⟩
  by_cases h : (col : Int) = row + k
  · obtain ⟨x, hx, hxr⟩ := h2 h
    rw [if_pos h] at he
    have : x = 1 := List.eq_of_mem_replicate (List.mem_of_getElem? hx)
    subst this
    exact ⟨_, hxr, he⟩
  · rw [if_neg h] at he
    exact ⟨_, h1 h, he⟩

example := C96_eye_diag (n := 3) (k := -1) (by decide) (by decide)

/-! ### Least and greatest elements -/

/-- C96: the least of the negated elements is the negated greatest one, for every group of the reduction that has an
element `amin` and `amax` can represent. -/
theorem C96_amin_neg [AddCommGroup α] [LinearOrder α] [IsOrderedAddMonoid α] (lo hi : α) {e : Ex α} {sh : List Nat}
    (hf : Fits sh e) {axes : List Int} (hg : GoodAxes sh.length (axes.map (normalizeAxis sh.length))) (keep : Bool) :
    ∃ a b, lazyReduce (aminFns hi) (aminFns hi).init (.fn (fun l => -l.sum) (.cons e .nil)) sh axes keep = .ok a ∧
      lazyReduce (amaxFns lo) (amaxFns lo).init e sh axes keep = .ok b ∧ a.shape = b.shape ∧
      ∀ r, InBounds a.shape r →
        (∃ q ∈ redGroup sh (axes.map (normalizeAxis sh.length)) keep r, -valueAt e q ≤ hi) →
        (∃ q ∈ redGroup sh (axes.map (normalizeAxis sh.length)) keep r, lo ≤ valueAt e q) →
        (a.elem r).1 = -(b.elem r).1 := by
  have hf' : Fits sh (.fn (fun l : List α => -l.sum) (.cons e .nil)) := ⟨hf, trivial⟩
  obtain ⟨a, _, _, a1, _, _, a2, _, _, a3⟩ := C65_amin_amax_partial lo hi hf' hg keep
  obtain ⟨_, b, _, _, b1, _, b2, b4, _, b3⟩ := C65_amin_amax_partial lo hi hf hg keep
  have hab : a.shape = b.shape := by rw [a2, b4, b2]
  refine ⟨a, b, a1, b1, hab, fun r hr hlo hhi => ?_⟩
  obtain ⟨-, m1, -⟩ := a3 r hr
  obtain ⟨-, -, m2⟩ := b3 r (by rw [b2, ← a2]; exact hr)
  have hval : ∀ q, valueAt (.fn (fun l : List α => -l.sum) (.cons e .nil)) q = -valueAt e q := by
    intro q
    show -([valueAt e q].sum) = _
    simp
  obtain ⟨m11, m12⟩ := m1 (by
    obtain ⟨q, hq, h⟩ := hlo
    exact ⟨_, List.mem_map.2 ⟨q, hq, rfl⟩, by rw [hval]; exact h⟩)
  obtain ⟨m21, m22⟩ := m2 (by
    obtain ⟨q, hq, h⟩ := hhi
    exact ⟨_, List.mem_map.2 ⟨q, hq, rfl⟩, h⟩)
  apply le_antisymm
  · obtain ⟨q, hq, h⟩ := List.mem_map.1 m21
    rw [← h, ← hval]
    exact m12 _ (List.mem_map.2 ⟨q, hq, rfl⟩)
  · obtain ⟨q, hq, h⟩ := List.mem_map.1 m11
    rw [← h, hval]
    exact neg_le_neg (m22 _ (List.mem_map.2 ⟨q, hq, rfl⟩))

example := C96_amin_neg (-100 : ℚ) 100 (gridEx_fits 2 3) (axes := [-1]) (by decide) false

end Xt
