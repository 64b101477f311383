import Verif.Props.Pad
/-!
# C47: `tile`
-/

namespace Xt

open Spec

theorem tileShape_get {sh reps : List Nat} (h : reps.length = sh.length) {k : Nat} (hk : k < sh.length) :
    (List.zipWith (· * ·) sh reps).getD k 0 = sh.getD k 0 * reps.getD k 0 := by
  simp [List.getD_eq_getElem?_getD, hk, h]

theorem tileShape_length {sh reps : List Nat} (h : reps.length = sh.length) :
    (List.zipWith (· * ·) sh reps).length = sh.length := by simp [h]

theorem tileSource_get {sh q : List Nat} (h : q.length = sh.length) {k : Nat} (hk : k < sh.length) :
    (tileSource sh q).getD k 0 = q.getD k 0 % sh.getD k 0 := by
  simp [tileSource, List.getD_eq_getElem?_getD, hk, h]

theorem tileSource_length {sh q : List Nat} (h : q.length = sh.length) : (tileSource sh q).length = sh.length := by
  simp [tileSource, h]

theorem tileSource_inBounds {sh reps q : List Nat} (h : reps.length = sh.length)
    (hq : InBounds (List.zipWith (· * ·) sh reps) q) : InBounds sh (tileSource sh q) := by
  have hl : q.length = sh.length := by rw [hq.length_eq, tileShape_length h]
  rw [inBounds_iff_get]
  refine ⟨tileSource_length hl, fun k hk => ?_⟩
  rw [tileSource_get hl hk]
  have h1 := (inBounds_iff_get.1 hq).2 k (by rw [tileShape_length h]; exact hk)
  rw [tileShape_get h hk] at h1
  apply Nat.mod_lt
  apply Nat.pos_of_ne_zero
  intro e
  rw [e, Nat.zero_mul] at h1
  omega

theorem tileSource_self {sh q : List Nat} (h : InBounds sh q) : tileSource sh q = q := by
  have hl := h.length_eq
  apply ext_getD (by rw [tileSource_length hl, hl])
  intro k hk
  rw [tileSource_length hl] at hk
  rw [tileSource_get hl hk, Nat.mod_eq_of_lt ((inBounds_iff_get.1 h).2 k hk)]

theorem tileSource_congr {sh q : List Nat} (hq : q.length = sh.length) {a x : Nat} (ha : a < sh.length)
    (he : x % sh.getD a 0 = q.getD a 0 % sh.getD a 0) : tileSource sh (q.set a x) = tileSource sh q := by
  have hq' : (q.set a x).length = sh.length := by simpa using hq
  apply ext_getD (by rw [tileSource_length hq', tileSource_length hq])
  intro k hk
  rw [tileSource_length hq'] at hk
  rw [tileSource_get hq' hk, tileSource_get hq hk, getD_set_nat (by omega)]
  split
  · next e => subst e; rw [he]
  · rfl

/-- Axes before `a` are tiled, and `i` copies of axis `a` are written. -/
structure TileInv {α : Type} [Inhabited α] (e : Buf α) (reps : List Nat) (a i : Nat) (out : Buf (Option α)) : Prop where
  wf : out.WF
  shape : out.shape = List.zipWith (· * ·) e.shape reps
  layout : out.layout = e.layout
  val : ∀ q, InBounds (List.zipWith (· * ·) e.shape reps) q → q.getD a 0 < i * e.shape.getD a 0 →
    (∀ k, a < k → k < e.shape.length → q.getD k 0 < e.shape.getD k 0) →
    out.read q = some (e.read (tileSource e.shape q))

theorem tileAxis_inv {α : Type} [Inhabited α] {e : Buf α} {reps : List Nat} (hl : reps.length = e.shape.length) {a : Nat}
    (ha : a < e.shape.length) : ∀ (k i : Nat), 1 ≤ i → i + k = reps.getD a 0 → ∀ {out : Buf (Option α)},
      TileInv e reps a i out → ∃ out', tileAxis e.shape.length a (e.shape.getD a 0) k i out = .ok out' ∧
        TileInv e reps a (reps.getD a 0) out'
  | 0, i, _, hk, out, h => ⟨out, rfl, by rw [← hk]; exact h⟩
  | k + 1, i, hi, hk, out, h => by
    have hext := tileShape_get hl ha
    have hlen := tileShape_length hl
    have hdim : out.shape.length = e.shape.length := by rw [h.shape, hlen]
    have hextent : out.shape.getD a 0 = e.shape.getD a 0 * reps.getD a 0 := by rw [h.shape, hext]
    have hroom : (i + 1) * e.shape.getD a 0 ≤ e.shape.getD a 0 * reps.getD a 0 := by
      rw [Nat.mul_comm]; exact Nat.mul_le_mul_left _ (by omega)
    have hstep : (i + 1) * e.shape.getD a 0 = i * e.shape.getD a 0 + e.shape.getD a 0 := Nat.succ_mul _ _
    have hone : e.shape.getD a 0 ≤ i * e.shape.getD a 0 := Nat.le_mul_of_pos_left _ (by omega)
    obtain ⟨o1, e1, e2, e3, e4, e5, e6⟩ := copyAxis_spec h.wf (ax := a) (by rw [hdim]; exact ha)
      (ut := .range (some ((i * e.shape.getD a 0 : Nat) : Int)) (some (((i + 1) * e.shape.getD a 0 : Nat) : Int)) none)
      (us := .range (some 0) (some (e.shape.getD a 0 : Nat)) none)
      (t := i * e.shape.getD a 0) (mt := e.shape.getD a 0) (ms := e.shape.getD a 0) (ψ := (0 + ·))
      (by rw [hextent]; exact AxSel.up (by omega) rfl (by rw [hstep]; push_cast; rfl))
      (by rw [hextent]; exact AxSel.up (by omega) rfl (by push_cast; omega)) (Or.inl rfl)
    have hinv : TileInv e reps a (i + 1) o1 := by
      refine ⟨e4, by rw [e2, h.shape], by rw [e3, h.layout], fun q hq hqa hqk => ?_⟩
      have hql : q.length = e.shape.length := by rw [hq.length_eq, hlen]
      by_cases c : q.getD a 0 < i * e.shape.getD a 0
      · rw [e6 q (by rw [h.shape]; exact hq) (by omega)]
        exact h.val q hq c hqk
      · have hpos : 0 < e.shape.getD a 0 := by omega
        have hsrc : ∀ s, s = q.getD a 0 - i * e.shape.getD a 0 →
            out.read (q.set a s) = some (e.read (tileSource e.shape q)) := by
          intro s hs
          have hb : InBounds (List.zipWith (· * ·) e.shape reps) (q.set a s) :=
            inBounds_set_at hq (by rw [hext]; omega)
          rw [h.val _ hb, tileSource_congr hql ha]
          · have : q.getD a 0 = s + i * e.shape.getD a 0 := by omega
            rw [this, Nat.add_mul_mod_self_right]
          · rw [getD_set_nat (by omega), if_pos rfl]; omega
          · intro k h1 h2
            rw [getD_set_nat (by omega), if_neg (by omega)]
            exact hqk k h1 h2
        rw [e5 q (by rw [h.shape]; exact hq) (by omega) (by omega)]
        apply hsrc
        split <;> omega
    obtain ⟨o2, h1, h2⟩ := tileAxis_inv hl ha k (i + 1) (by omega) (by omega) hinv
    refine ⟨o2, ?_, h2⟩
    simp only [tileAxis]
    rw [hdim] at e1
    rw [e1]
    exact h1

theorem tileLoop_inv {α : Type} [Inhabited α] {e : Buf α} {reps : List Nat} (hl : reps.length = e.shape.length)
    (hr : ∀ k, k < e.shape.length → 1 ≤ reps.getD k 0) : ∀ (k a : Nat), a + k = e.shape.length →
      ∀ {out : Buf (Option α)}, TileInv e reps a 1 out → (a = e.shape.length → ∀ q,
        InBounds (List.zipWith (· * ·) e.shape reps) q → out.read q = some (e.read (tileSource e.shape q))) →
      ∃ out', tileLoop e.shape reps k a out = .ok out' ∧ out'.shape = List.zipWith (· * ·) e.shape reps ∧
        out'.layout = e.layout ∧ out'.WF ∧
        ∀ q, InBounds (List.zipWith (· * ·) e.shape reps) q → out'.read q = some (e.read (tileSource e.shape q))
  | 0, a, hk, out, h, h' => ⟨out, rfl, h.shape, h.layout, h.wf, h' (by omega)⟩
  | k + 1, a, hk, out, h, _ => by
    have ha : a < e.shape.length := by omega
    obtain ⟨o1, e1, h1⟩ := tileAxis_inv hl ha (reps.getD a 0 - 1) 1 (by omega) (by have := hr a ha; omega) h
    have hall : ∀ q, InBounds (List.zipWith (· * ·) e.shape reps) q → ∀ k, k < e.shape.length →
        q.getD k 0 < reps.getD k 0 * e.shape.getD k 0 := by
      intro q hq k hk
      have := (inBounds_iff_get.1 hq).2 k (by rw [tileShape_length hl]; exact hk)
      rwa [tileShape_get hl hk, Nat.mul_comm] at this
    have hinv : TileInv e reps (a + 1) 1 o1 := by
      refine ⟨h1.wf, h1.shape, h1.layout, fun q hq hqa hqk => ?_⟩
      apply h1.val q hq (hall q hq a ha)
      intro k hk1 hk2
      by_cases e : k = a + 1
      · subst e; rw [Nat.one_mul] at hqa; exact hqa
      · exact hqk k (by omega) hk2
    obtain ⟨o2, h2, h3⟩ := tileLoop_inv hl hr k (a + 1) (by omega) hinv
      (fun ea q hq => h1.val q hq (hall q hq a ha) (fun k hk1 hk2 => by omega))
    refine ⟨o2, ?_, h3⟩
    simp only [tileLoop]
    rw [e1]
    exact h2

theorem Sels.corner {sh reps : List Nat} (h : reps.length = sh.length) (hr : ∀ k, k < sh.length → 1 ≤ reps.getD k 0) :
    Sels (List.zipWith (· * ·) sh reps) (sh.map fun (n : Nat) => USlice.range (some 0) (some n) none) sh
      (sh.map fun _ => (0 + ·)) := by
  induction sh generalizing reps with
  | nil => exact .nil
  | cons n sh ih =>
    cases reps with
    | nil => simp at h
    | cons r reps =>
      have h1 : 1 ≤ r := hr 0 (by simp)
      refine .cons (AxSel.up ?_ rfl (by push_cast; omega))
        (ih (by simpa using h) (fun k hk => by simpa using hr (k + 1) (by simpa using hk)))
      show 0 + n ≤ n * r
      rw [Nat.zero_add]
      exact Nat.le_mul_of_pos_right _ h1

theorem applySel_corner {sh q : List Nat} (h : InBounds sh q) : applySel (sh.map fun _ => (0 + ·)) q = q := by
  induction sh generalizing q with
  | nil => cases q with
    | nil => rfl
    | cons _ _ => exact h.elim
  | cons n sh ih =>
    cases q with
    | nil => exact h.elim
    | cons i q =>
      rw [inBounds_cons] at h
      show (0 + i) :: applySel _ q = _
      rw [ih h.2, Nat.zero_add]

/-- **C47** (tile, partial).  With at least one repetition along every axis, `tile` returns an array of extents `n * reps`
whose element at each index is the element of the original at the index reduced modulo the extents.  Full claim: also for
zero repetitions, where an empty array is expected; `C47_tile_zero_throws` is the counterexample. -/
theorem C47_tile_partial {α : Type} [Inhabited α] (e : Buf α) (reps : List Nat)
    (hl : reps.length = e.shape.length) (hr : ∀ k, k < e.shape.length → 1 ≤ reps.getD k 0) :
    ∃ out, tile e reps = .ok out ∧ out.shape = List.zipWith (· * ·) e.shape reps ∧ out.layout = e.layout ∧ out.WF ∧
      ∀ q, InBounds (List.zipWith (· * ·) e.shape reps) q →
        InBounds e.shape (tileSource e.shape q) ∧ out.read q = some (e.read (tileSource e.shape q)) := by
  obtain ⟨o, e1, e2, e3, e4, e5, e6⟩ := assignRegion_spec
    (replicate_wf (List.zipWith (· * ·) e.shape reps) e.layout (none : Option α))
    (Sels.corner hl hr) (shape := e.shape) (fun q => some (e.read q)) (compat_refl _)
  have hplace : ∀ q, InBounds e.shape q → o.read q = some (e.read (tileSource e.shape q)) := by
    intro q hq
    have := e5 q hq
    rw [applySel_corner hq, broadcastIndex_self hq] at this
    rw [this, tileSource_self hq]
  have hall : ∀ q, q.length = e.shape.length → (∀ k, k < e.shape.length → q.getD k 0 < e.shape.getD k 0) →
      InBounds e.shape q := fun q h1 h2 => inBounds_iff_get.2 ⟨h1, h2⟩
  have hinv : TileInv e reps 0 1 o := by
    refine ⟨e4, e2, e3, fun q hq h0 hk => hplace q ?_⟩
    apply hall q (by rw [hq.length_eq, tileShape_length hl])
    intro k hk'
    cases k with
    | zero => rw [Nat.one_mul] at h0; exact h0
    | succ k => exact hk (k + 1) (by omega) hk'
  obtain ⟨out, h1, h2, h3, h4, h5⟩ := tileLoop_inv hl hr e.shape.length 0 (by omega) hinv
    (fun e0 q hq => hplace q (hall q (by rw [hq.length_eq, tileShape_length hl]) (fun k hk => by omega)))
  refine ⟨out, ?_, h2, h3, h4, fun q hq => ⟨tileSource_inBounds hl hq, h5 q hq⟩⟩
  unfold tile
  rw [if_neg (by omega)]
  simp only []
  rw [e1]
  exact h1

example : tile (⟨[2], .row_major, [1, 2]⟩ : Buf Nat) [3] =
    .ok ⟨[6], .row_major, [some 1, some 2, some 1, some 2, some 1, some 2]⟩ := by decide

example : ∃ out, tile (⟨[2, 1, 3], .column_major, [1, 2, 3, 4, 5, 6]⟩ : Buf Nat) [2, 3, 1] = .ok out ∧ out.shape = [4, 3, 3] := by
  obtain ⟨out, h1, h2, -⟩ := C47_tile_partial (⟨[2, 1, 3], .column_major, [1, 2, 3, 4, 5, 6]⟩ : Buf Nat) [2, 3, 1] rfl (by decide)
  exact ⟨out, h1, h2⟩

/-- Zero repetitions throw instead of giving an empty array, unless the extent is 0 or 1. -/
theorem C47_tile_zero_throws :
    tile (⟨[3], .row_major, [1, 2, 3]⟩ : Buf Nat) [0] = .throws ∧
    tile (⟨[1], .row_major, [1]⟩ : Buf Nat) [0] = .ok ⟨[0], .row_major, []⟩ := by decide

/-- **C47** (tile with an integer, partial): repetitions along the first axis only. -/
theorem C47_tile_first_partial {α : Type} [Inhabited α] (e : Buf α) (r n : Nat) (sh : List Nat) (hs : e.shape = n :: sh)
    (hr : 1 ≤ r) : ∃ out, tileFirst e r = .ok out ∧ out.shape = (n * r) :: sh ∧
      ∀ i q, i < n * r → InBounds sh q → out.read (i :: q) = some (e.read ((i % n) :: q)) := by
  have hset : (List.replicate e.shape.length 1).set 0 r = r :: List.replicate sh.length 1 := by
    rw [hs]; rfl
  have hrep : ∀ (sh : List Nat), List.zipWith (· * ·) sh (List.replicate sh.length 1) = sh := by
    intro sh
    induction sh with
    | nil => rfl
    | cons s sh ih => simp [List.replicate_succ, ih]
  obtain ⟨out, h1, h2, -, -, h5⟩ := C47_tile_partial e (r :: List.replicate sh.length 1) (by rw [hs]; simp) (by
    rw [hs]
    intro k hk
    cases k with
    | zero => exact hr
    | succ k =>
      have : k < sh.length := by simpa using hk
      simp [List.getD_eq_getElem?_getD, this])
  have hz : List.zipWith (· * ·) e.shape (r :: List.replicate sh.length 1) = (n * r) :: sh := by
    rw [hs, List.zipWith_cons_cons, hrep]
  rw [hz] at h2 h5
  refine ⟨out, ?_, h2, fun i q hi hq => ?_⟩
  · unfold tileFirst
    rw [if_neg (by rw [hs]; simp), hset]; exact h1
  · rw [(h5 (i :: q) ⟨hi, hq⟩).2, hs]
    show some (e.read ((i % n) :: tileSource sh q)) = _
    rw [tileSource_self hq]

example : tileFirst (⟨[2, 2], .row_major, [1, 2, 3, 4]⟩ : Buf Nat) 2 =
    .ok ⟨[4, 2], .row_major, [some 1, some 2, some 3, some 4, some 1, some 2, some 3, some 4]⟩ := by decide

/-- On an array without axes the integer form writes past the end of its list of repetitions. -/
theorem C47_tile_first_scalar_undefined {α : Type} [Inhabited α] (e : Buf α) (r : Nat) (h : e.shape = []) :
    tileFirst e r = .ub := by
  unfold tileFirst; rw [if_pos h]

/-- A list of repetitions of another length than the number of axes is not supported. -/
theorem C47_tile_length_undefined {α : Type} [Inhabited α] (e : Buf α) (reps : List Nat)
    (h : reps.length ≠ e.shape.length) : tile e reps = .ub := by
  unfold tile; rw [if_pos h]

end Xt
