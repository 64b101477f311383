import Verif.Lemmas.Region
import Verif.Spec.Pad
/-!
# C46: `pad`
-/

namespace Xt

open Spec

/-! ### The regions `pad` copies -/

/-- Modes of `pad` for each way of extending an array. -/
def Spec.PadsLike : Extend → PadMode → Prop
  | .wrap, mode => mode = .wrap ∨ mode = .periodic
  | .symmetric, mode => mode = .symmetric
  | .reflect, mode => mode = .reflect
  | .edge, mode => mode = .edge

theorem extendIndex_inside (m : Extend) {n : Nat} {j : Int} (h0 : 0 ≤ j) (h1 : j < n) : extendIndex m n j = j := by
  cases m <;> simp only [extendIndex]
  · exact Int.emod_eq_of_lt h0 h1
  all_goals rw [if_neg (by omega), if_pos h1]

theorem extendIndex_range (m : Extend) {n nb ne : Nat} (ha : ExtendAllowed m n nb ne) {j : Int} (h0 : -(nb : Int) ≤ j)
    (h1 : j < n + ne) : 0 ≤ extendIndex m n j ∧ extendIndex m n j < n := by
  cases m <;> simp only [extendIndex, ExtendAllowed] at *
  · have hn : (0 : Int) < n := by omega
    exact ⟨Int.emod_nonneg _ (by omega), Int.emod_lt_of_pos _ hn⟩
  all_goals
    split
    · omega
    · split <;> omega

theorem padBefore_sel {m : Extend} {mode : PadMode} (hm : PadsLike m mode) {n nb ne : Nat} (ha : ExtendAllowed m n nb ne)
    (h0 : 0 < nb) : ∃ ms ψ, AxSel (nb + n + ne) (padBefore mode n nb) ms ψ ∧ (ms = nb ∨ ms = 1) ∧
      ∀ i, i < nb → nb ≤ ψ (if ms = 1 then 0 else i) ∧ ψ (if ms = 1 then 0 else i) < nb + n ∧
        extendIndex m n ((ψ (if ms = 1 then 0 else i) : Int) - nb) = extendIndex m n ((i : Int) - nb) := by
  have hi : ∀ {nb i : Nat}, i < nb → (if nb = 1 then 0 else i) = i := by intro nb i h; split <;> omega
  cases m <;> simp only [PadsLike, ExtendAllowed] at hm ha
  · refine ⟨nb, (n + ·), ?_, Or.inl rfl, ?_⟩
    · rcases hm with rfl | rfl
      · exact AxSel.up (by omega) rfl (by push_cast; omega)
      · exact AxSel.up (by omega) rfl (by push_cast; omega)
    · intro i h
      rw [hi h]
      beta_reduce
      refine ⟨by omega, by omega, ?_⟩
      simp only [extendIndex]
      rw [show (((n + i : Nat) : Int) - nb) = ((i : Int) - nb) + n by push_cast; omega, Int.add_emod_right]
  · subst hm
    refine ⟨nb, (2 * nb - 1 - ·), AxSel.down (by omega) (by omega) (by omega) (Or.inl ⟨?_, by omega⟩) h0, Or.inl rfl, ?_⟩
    · congr 1; omega
    · intro i h
      rw [hi h]
      beta_reduce
      refine ⟨by omega, by omega, ?_⟩
      simp only [extendIndex]
      rw [if_neg (by omega), if_pos (by omega), if_pos (by omega)]; omega
  · subst hm
    refine ⟨nb, (2 * nb - ·), AxSel.down (by omega) (by omega) (by omega) (Or.inl ⟨?_, by omega⟩) h0, Or.inl rfl, ?_⟩
    · congr 1; omega
    · intro i h
      rw [hi h]
      beta_reduce
      refine ⟨by omega, by omega, ?_⟩
      simp only [extendIndex]
      rw [if_neg (by omega), if_pos (by omega), if_pos (by omega)]; omega
  · subst hm
    refine ⟨1, (nb + ·), AxSel.up (by omega) rfl (by push_cast; omega), Or.inr rfl, ?_⟩
    intro i h
    rw [if_pos rfl]
    beta_reduce
    refine ⟨by omega, by omega, ?_⟩
    simp only [extendIndex]
    rw [if_neg (by omega), if_pos (by omega), if_pos (by omega)]; omega

theorem padAfter_sel {m : Extend} {mode : PadMode} (hm : PadsLike m mode) {n nb ne : Nat} (ha : ExtendAllowed m n nb ne)
    (h0 : 0 < ne) : ∃ ms ψ, AxSel (nb + n + ne) (padAfter mode n nb ne) ms ψ ∧ (ms = ne ∨ ms = 1) ∧
      ∀ i, i < ne → nb ≤ ψ (if ms = 1 then 0 else i) ∧ ψ (if ms = 1 then 0 else i) < nb + n ∧
        extendIndex m n ((ψ (if ms = 1 then 0 else i) : Int) - nb) = extendIndex m n ((n : Int) + i) := by
  have hi : ∀ {nb i : Nat}, i < nb → (if nb = 1 then 0 else i) = i := by intro nb i h; split <;> omega
  cases m <;> simp only [PadsLike, ExtendAllowed] at hm ha
  · refine ⟨ne, (nb + ·), ?_, Or.inl rfl, ?_⟩
    · rcases hm with rfl | rfl
      · exact AxSel.up (by omega) rfl (by push_cast; omega)
      · exact AxSel.up (by omega) rfl (by push_cast; omega)
    · intro i h
      rw [hi h]
      beta_reduce
      refine ⟨by omega, by omega, ?_⟩
      simp only [extendIndex]
      rw [show (((nb + i : Nat) : Int) - nb) = (i : Int) by push_cast; omega, Int.add_emod_left]
  · subst hm
    refine ⟨ne, (nb + n - 1 - ·), ?_, Or.inl rfl, ?_⟩
    · simp only [padAfter]
      split
      · exact AxSel.down (by omega) (by omega) (by omega) (Or.inr ⟨rfl, by omega⟩) h0
      · exact AxSel.down (by omega) (by omega) (by omega) (Or.inl ⟨by congr 1; omega, by omega⟩) h0
    · intro i h
      rw [hi h]
      beta_reduce
      refine ⟨by omega, by omega, ?_⟩
      simp only [extendIndex]
      rw [if_neg (by omega), if_pos (by omega), if_neg (by omega), if_neg (by omega)]; omega
  · subst hm
    refine ⟨ne, (nb + n - 2 - ·), ?_, Or.inl rfl, ?_⟩
    · simp only [padAfter]
      split
      · exact AxSel.down (by omega) (by omega) (by omega) (Or.inr ⟨rfl, by omega⟩) h0
      · exact AxSel.down (by omega) (by omega) (by omega) (Or.inl ⟨by congr 1; omega, by omega⟩) h0
    · intro i h
      rw [hi h]
      beta_reduce
      refine ⟨by omega, by omega, ?_⟩
      simp only [extendIndex]
      rw [if_neg (by omega), if_pos (by omega), if_neg (by omega), if_neg (by omega)]; omega
  · subst hm
    refine ⟨1, (nb + n - 1 + ·), AxSel.up (by omega) (by omega) (by push_cast; omega), Or.inr rfl, ?_⟩
    intro i h
    rw [if_pos rfl]
    beta_reduce
    refine ⟨by omega, by omega, ?_⟩
    simp only [extendIndex]
    rw [if_neg (by omega), if_pos (by omega), if_neg (by omega), if_neg (by omega)]; omega

/-! ### Indices -/

theorem padShape_get {sh : List Nat} {pads : List (Nat × Nat)} (h : pads.length = sh.length) {k : Nat} (hk : k < sh.length) :
    (padShape sh pads).getD k 0 = (pads.getD k (0, 0)).1 + sh.getD k 0 + (pads.getD k (0, 0)).2 := by
  unfold padShape
  simp [List.getD_eq_getElem?_getD, hk, h]

theorem padShape_length {sh : List Nat} {pads : List (Nat × Nat)} (h : pads.length = sh.length) :
    (padShape sh pads).length = sh.length := by
  simp [padShape, h]

theorem padSource_length (m : Extend) {sh : List Nat} {pads : List (Nat × Nat)} {q : List Nat} (h : pads.length = sh.length)
    (hq : q.length = sh.length) : (padSource m sh pads q).length = sh.length := by
  induction sh generalizing pads q with
  | nil => cases pads <;> cases q <;> simp_all [padSource]
  | cons n sh ih =>
    cases pads with
    | nil => simp at h
    | cons p pads =>
      cases q with
      | nil => simp at hq
      | cons i q => simp [padSource, ih (by simpa using h) (by simpa using hq)]

theorem padSource_get (m : Extend) {sh : List Nat} {pads : List (Nat × Nat)} {q : List Nat} (h : pads.length = sh.length)
    (hq : q.length = sh.length) {k : Nat} (hk : k < sh.length) :
    (padSource m sh pads q).getD k 0 =
      (extendIndex m (sh.getD k 0) ((q.getD k 0 : Int) - (pads.getD k (0, 0)).1)).toNat := by
  induction sh generalizing pads q k with
  | nil => simp at hk
  | cons n sh ih =>
    cases pads with
    | nil => simp at h
    | cons p pads =>
      cases q with
      | nil => simp at hq
      | cons i q =>
        cases k with
        | zero => simp [padSource]
        | succ k =>
          simp only [padSource, List.getD_cons_succ]
          exact ih (by simpa using h) (by simpa using hq) (by simpa using hk)

theorem padSource_congr (m : Extend) {sh : List Nat} {pads : List (Nat × Nat)} {q : List Nat} (h : pads.length = sh.length)
    (hq : q.length = sh.length) {a x : Nat} (ha : a < sh.length)
    (he : extendIndex m (sh.getD a 0) ((x : Int) - (pads.getD a (0, 0)).1) =
      extendIndex m (sh.getD a 0) ((q.getD a 0 : Int) - (pads.getD a (0, 0)).1)) :
    padSource m sh pads (q.set a x) = padSource m sh pads q := by
  apply ext_getD
  · rw [padSource_length m h (by simpa using hq), padSource_length m h hq]
  · intro k hk
    rw [padSource_length m h (by simpa using hq)] at hk
    rw [padSource_get m h (by simpa using hq) hk, padSource_get m h hq hk, getD_set_nat (by omega)]
    split
    · next e => subst e; rw [he]
    · rfl

theorem padSource_inBounds (m : Extend) {sh : List Nat} {pads : List (Nat × Nat)} {q : List Nat} (h : pads.length = sh.length)
    (ha : ∀ k, k < sh.length → ExtendAllowed m (sh.getD k 0) (pads.getD k (0, 0)).1 (pads.getD k (0, 0)).2)
    (hq : InBounds (padShape sh pads) q) : InBounds sh (padSource m sh pads q) := by
  have hl : q.length = sh.length := by rw [hq.length_eq, padShape_length h]
  rw [inBounds_iff_get]
  refine ⟨padSource_length m h hl, fun k hk => ?_⟩
  rw [padSource_get m h hl hk]
  have h1 := (inBounds_iff_get.1 hq).2 k (by rw [padShape_length h]; exact hk)
  rw [padShape_get h hk] at h1
  have := extendIndex_range m (ha k hk) (j := (q.getD k 0 : Int) - (pads.getD k (0, 0)).1) (by omega) (by omega)
  omega

theorem inside_iff {sh : List Nat} {pads : List (Nat × Nat)} {q : List Nat} (h : pads.length = sh.length)
    (hq : q.length = sh.length) : Inside sh pads q ↔
      ∀ k, k < sh.length → (pads.getD k (0, 0)).1 ≤ q.getD k 0 ∧ q.getD k 0 < (pads.getD k (0, 0)).1 + sh.getD k 0 := by
  induction sh generalizing pads q with
  | nil => simp [Inside]
  | cons n sh ih =>
    cases pads with
    | nil => simp at h
    | cons p pads =>
      cases q with
      | nil => simp at hq
      | cons i q =>
        simp only [Inside, ih (by simpa using h) (by simpa using hq)]
        constructor
        · rintro ⟨h1, h2, h3⟩ k hk
          cases k with
          | zero => exact ⟨h1, h2⟩
          | succ k => simpa using h3 k (by simpa using hk)
        · intro h
          exact ⟨(h 0 (by simp)).1, (h 0 (by simp)).2, fun k hk => by simpa using h (k + 1) (by simpa using hk)⟩

theorem padShift_eq (m : Extend) {sh : List Nat} {pads : List (Nat × Nat)} {q : List Nat} (h : pads.length = sh.length)
    (hq : q.length = sh.length) (hi : Inside sh pads q) : padShift pads q = padSource m sh pads q := by
  induction sh generalizing pads q with
  | nil => cases pads <;> cases q <;> simp_all [padSource, padShift]
  | cons n sh ih =>
    cases pads with
    | nil => simp at h
    | cons p pads =>
      cases q with
      | nil => simp at hq
      | cons i q =>
        obtain ⟨h1, h2, h3⟩ := hi
        simp only [padShift, padSource]
        rw [ih (by simpa using h) (by simpa using hq) h3, extendIndex_inside m (by omega) (by omega)]
        congr 1; omega

/-- The slices that place the original array in the middle. -/
theorem Sels.center {sh : List Nat} {pads : List (Nat × Nat)} (h : pads.length = sh.length) :
    Sels (padShape sh pads) ((sh.zip pads).map fun (x : Nat × (Nat × Nat)) =>
      USlice.range (some x.2.1) (some ((x.2.1 + x.1 : Nat) : Int)) none) sh (pads.map fun p => (p.1 + ·)) := by
  induction sh generalizing pads with
  | nil => cases pads with
    | nil => exact .nil
    | cons _ _ => simp at h
  | cons n sh ih =>
    cases pads with
    | nil => simp at h
    | cons p pads =>
      exact .cons (AxSel.up (by show p.1 + n ≤ p.1 + n + p.2; omega) rfl (by push_cast; omega)) (ih (by simpa using h))

theorem applySel_center {sh : List Nat} {pads : List (Nat × Nat)} {q : List Nat} (h : pads.length = sh.length)
    (hq : InBounds (padShape sh pads) q) (hi : Inside sh pads q) :
    InBounds sh (padShift pads q) ∧ applySel (pads.map fun p => (p.1 + ·)) (padShift pads q) = q := by
  induction sh generalizing pads q with
  | nil => cases pads with
    | nil => cases q with
      | nil => exact ⟨trivial, rfl⟩
      | cons _ _ => exact hq.elim
    | cons _ _ => simp at h
  | cons n sh ih =>
    cases pads with
    | nil => simp at h
    | cons p pads =>
      cases q with
      | nil => exact hq.elim
      | cons i q =>
        obtain ⟨h1, h2, h3⟩ := hi
        have hq' : i < p.1 + n + p.2 ∧ InBounds (padShape sh pads) q := hq
        obtain ⟨e1, e2⟩ := ih (by simpa using h) hq'.2 h3
        refine ⟨⟨by omega, e1⟩, ?_⟩
        show (p.1 + (i - p.1)) :: applySel _ _ = _
        rw [e2]; congr 1; omega

theorem applySel_center_inside {sh : List Nat} {pads : List (Nat × Nat)} {q : List Nat} (h : pads.length = sh.length)
    (hq : InBounds sh q) : Inside sh pads (applySel (pads.map fun p => (p.1 + ·)) q) := by
  induction sh generalizing pads q with
  | nil => trivial
  | cons n sh ih =>
    cases pads with
    | nil => simp at h
    | cons p pads =>
      cases q with
      | nil => exact hq.elim
      | cons i q =>
        rw [inBounds_cons] at hq
        exact ⟨by show p.1 ≤ p.1 + i; omega, by show p.1 + i < p.1 + n; omega, ih (by simpa using h) hq.2⟩

/-! ### The loop over the axes -/

/-- The axes before `a` are padded: elements whose other coordinates are those of the original array are right. -/
structure PadInv {α : Type} [Inhabited α] (m : Extend) (e : Buf α) (pads : List (Nat × Nat)) (a : Nat)
    (out : Buf (Option α)) : Prop where
  wf : out.WF
  shape : out.shape = padShape e.shape pads
  layout : out.layout = e.layout
  val : ∀ q, InBounds (padShape e.shape pads) q → (∀ k, a ≤ k → k < e.shape.length →
      (pads.getD k (0, 0)).1 ≤ q.getD k 0 ∧ q.getD k 0 < (pads.getD k (0, 0)).1 + e.shape.getD k 0) →
    out.read q = some (e.read (padSource m e.shape pads q))

theorem padAxis_inv {α : Type} [Inhabited α] {m : Extend} {mode : PadMode} (hm : PadsLike m mode) {e : Buf α}
    {pads : List (Nat × Nat)} (hl : pads.length = e.shape.length) {a : Nat} (hlt : a < e.shape.length)
    (hal : ExtendAllowed m (e.shape.getD a 0) (pads.getD a (0, 0)).1 (pads.getD a (0, 0)).2)
    {out : Buf (Option α)} (h : PadInv m e pads a out) :
    ∃ out', padAxis mode e.shape.length a (e.shape.getD a 0) (pads.getD a (0, 0)).1 (pads.getD a (0, 0)).2 out = .ok out' ∧
      PadInv m e pads (a + 1) out' := by
  have hext := padShape_get hl hlt
  have hlen := padShape_length (pads := pads) hl
  generalize hnb : (pads.getD a (0, 0)).1 = nb at *
  generalize hne : (pads.getD a (0, 0)).2 = ne at *
  generalize hn : e.shape.getD a 0 = n at *
  have hax : a < out.shape.length := by rw [h.shape, hlen]; exact hlt
  have hdim : out.shape.length = e.shape.length := by rw [h.shape, hlen]
  have hextent : out.shape.getD a 0 = nb + n + ne := by rw [h.shape, hext]
  -- padding before
  obtain ⟨o1, ho1, hs1, hl1, hw1, hin1, hout1⟩ : ∃ o1, (if nb > 0 then
      copyRegion out (oneSlice e.shape.length a (.range (some 0) (some nb) none))
        (oneSlice e.shape.length a (padBefore mode n nb)) else .ok out) = .ok o1 ∧
      o1.shape = out.shape ∧ o1.layout = out.layout ∧ o1.WF ∧
      (∀ p, InBounds out.shape p → p.getD a 0 < nb → ∃ s, nb ≤ s ∧ s < nb + n ∧
        extendIndex m n ((s : Int) - nb) = extendIndex m n ((p.getD a 0 : Int) - nb) ∧ o1.read p = out.read (p.set a s)) ∧
      ∀ p, InBounds out.shape p → ¬ p.getD a 0 < nb → o1.read p = out.read p := by
    by_cases h0 : nb > 0
    · rw [if_pos h0]
      obtain ⟨ms, ψ, h1, h2, h3⟩ := padBefore_sel hm hal h0
      obtain ⟨o1, e1, e2, e3, e4, e5, e6⟩ := copyAxis_spec h.wf hax (ut := .range (some 0) (some nb) none) (t := 0) (mt := nb)
        (by rw [hextent]; exact AxSel.up (by omega) rfl (by push_cast; omega)) (by rw [hextent]; exact h1) h2
      rw [hdim] at e1
      refine ⟨o1, e1, e2, e3, e4, fun p hp hp' => ?_, fun p hp hp' => e6 p hp (by omega)⟩
      obtain ⟨a1, a2, a3⟩ := h3 _ hp'
      refine ⟨_, a1, a2, a3, ?_⟩
      rw [e5 p hp (by omega) (by omega)]
      simp
    · rw [if_neg h0]
      exact ⟨out, rfl, rfl, rfl, h.wf, fun p _ hp' => by omega, fun p _ _ => rfl⟩
  -- padding after
  obtain ⟨o2, ho2, hs2, hl2, hw2, hin2, hout2⟩ : ∃ o2, (if ne > 0 then
      copyRegion o1 (oneSlice e.shape.length a (.range (some ((o1.shape.getD a 0 : Nat) - (ne : Int)))
          (some (o1.shape.getD a 0 : Nat)) none))
        (oneSlice e.shape.length a (padAfter mode n nb ne)) else .ok o1) = .ok o2 ∧
      o2.shape = out.shape ∧ o2.layout = out.layout ∧ o2.WF ∧
      (∀ p, InBounds out.shape p → nb + n ≤ p.getD a 0 → ∃ s, nb ≤ s ∧ s < nb + n ∧
        extendIndex m n ((s : Int) - nb) = extendIndex m n ((p.getD a 0 : Int) - nb) ∧ o2.read p = o1.read (p.set a s)) ∧
      ∀ p, InBounds out.shape p → ¬ nb + n ≤ p.getD a 0 → o2.read p = o1.read p := by
    have hle : ∀ p, InBounds out.shape p → p.getD a 0 < nb + n + ne := by
      intro p hp
      have := (inBounds_iff_get.1 hp).2 a hax
      rwa [hextent] at this
    by_cases h0 : ne > 0
    · rw [if_pos h0]
      obtain ⟨ms, ψ, h1, h2, h3⟩ := padAfter_sel hm hal h0
      obtain ⟨o2, e1, e2, e3, e4, e5, e6⟩ := copyAxis_spec hw1 (ax := a) (by rw [hs1]; exact hax)
        (ut := .range (some ((o1.shape.getD a 0 : Nat) - (ne : Int))) (some (o1.shape.getD a 0 : Nat)) none)
        (t := nb + n) (mt := ne)
        (by rw [hs1, hextent]; exact AxSel.up (by omega) (by push_cast; omega) (by push_cast; omega))
        (by rw [hs1, hextent]; exact h1) h2
      rw [hs1] at e5 e6
      refine ⟨o2, ?_, by rw [e2, hs1], by rw [e3, hl1], e4, fun p hp hp' => ?_, fun p hp hp' => e6 p hp (by omega)⟩
      · rw [hs1] at e1 ⊢
        rw [hdim] at e1
        exact e1
      · have := hle p hp
        obtain ⟨a1, a2, a3⟩ := h3 (p.getD a 0 - (nb + n)) (by omega)
        refine ⟨_, a1, a2, ?_, e5 p hp (by omega) (by omega)⟩
        rw [a3]; congr 1; omega
    · rw [if_neg h0]
      exact ⟨o1, rfl, hs1, hl1, hw1, fun p hp hp' => by have := hle p hp; omega, fun p _ _ => rfl⟩
  refine ⟨o2, ?_, hw2, by rw [hs2, h.shape], by rw [hl2, h.layout], ?_⟩
  · unfold padAxis
    rw [ho1]
    exact ho2
  · intro q hq hk
    rw [← h.shape] at hq
    have hql : q.length = e.shape.length := by rw [hq.length_eq, hdim]
    -- the element of the padded axes shown at `q`
    have hset : ∀ s, nb ≤ s → s < nb + n → extendIndex m n ((s : Int) - nb) = extendIndex m n ((q.getD a 0 : Int) - nb) →
        InBounds out.shape (q.set a s) ∧ out.read (q.set a s) = some (e.read (padSource m e.shape pads q)) := by
      intro s h1 h2 h3
      have hb : InBounds out.shape (q.set a s) := inBounds_set_at hq (by rw [hextent]; omega)
      refine ⟨hb, ?_⟩
      rw [h.val _ (by rw [← h.shape]; exact hb), padSource_congr m hl hql hlt (by rw [hn, hnb]; exact h3)]
      intro k hk1 hk2
      rw [getD_set_nat (by omega)]
      split
      · next e => subst e; rw [hnb, hn]; exact ⟨h1, h2⟩
      · exact hk k (by omega) hk2
    by_cases c1 : nb + n ≤ q.getD a 0
    · obtain ⟨s, h1, h2, h3, h4⟩ := hin2 q hq c1
      obtain ⟨h5, h6⟩ := hset s h1 h2 h3
      rw [h4, hout1 _ h5 (by rw [getD_set_nat (by omega), if_pos rfl]; omega), h6]
    · rw [hout2 q hq c1]
      by_cases c2 : q.getD a 0 < nb
      · obtain ⟨s, h1, h2, h3, h4⟩ := hin1 q hq c2
        rw [h4, (hset s h1 h2 h3).2]
      · rw [hout1 q hq c2]
        apply h.val q (by rw [← h.shape]; exact hq)
        intro k hk1 hk2
        by_cases e : k = a
        · subst e; rw [hnb, hn]; omega
        · exact hk k (by omega) hk2

theorem padLoop_inv {α : Type} [Inhabited α] {m : Extend} {mode : PadMode} (hm : PadsLike m mode) {e : Buf α}
    {pads : List (Nat × Nat)} (hl : pads.length = e.shape.length)
    (ha : ∀ k, k < e.shape.length → ExtendAllowed m (e.shape.getD k 0) (pads.getD k (0, 0)).1 (pads.getD k (0, 0)).2) :
    ∀ (k a : Nat), a + k = e.shape.length → ∀ {out : Buf (Option α)}, PadInv m e pads a out →
      ∃ out', padLoop mode e.shape pads k a out = .ok out' ∧ PadInv m e pads e.shape.length out'
  | 0, a, hk, out, h => ⟨out, rfl, by rw [← hk]; exact h⟩
  | k + 1, a, hk, out, h => by
    obtain ⟨o1, e1, h1⟩ := padAxis_inv hm hl (show a < e.shape.length by omega) (ha a (by omega)) h
    obtain ⟨o2, e2, h2⟩ := padLoop_inv hm hl ha k (a + 1) (by omega) h1
    refine ⟨o2, ?_, h2⟩
    simp only [padLoop]
    rw [e1]
    exact e2

theorem map_zip_padShape {sh : List Nat} {pads : List (Nat × Nat)} :
    ((sh.zip pads).map fun (x : Nat × (Nat × Nat)) => x.2.1 + x.1 + x.2.2) = padShape sh pads := by
  induction sh generalizing pads with
  | nil => rfl
  | cons n sh ih =>
    cases pads with
    | nil => rfl
    | cons p pads =>
      simp only [List.zip_cons_cons, List.map_cons, ih]
      rfl

theorem replicate_wf {α : Type} (sh : List Nat) (L : Layout) (x : α) :
    (⟨sh, L, List.replicate (sh.foldl (· * ·) 1) x⟩ : Buf α).WF := by
  show List.length _ = numel sh
  rw [List.length_replicate, foldl_mul_eq, Nat.one_mul]

/-- Placing the original array in the middle. -/
theorem place_center {α : Type} [Inhabited α] (e : Buf α) {pads : List (Nat × Nat)} (hl : pads.length = e.shape.length)
    (x : Option α) : ∃ out, assignRegion
        (⟨padShape e.shape pads, e.layout, List.replicate ((padShape e.shape pads).foldl (· * ·) 1) x⟩ : Buf (Option α))
        ((e.shape.zip pads).map fun (x : Nat × (Nat × Nat)) =>
          USlice.range (some x.2.1) (some ((x.2.1 + x.1 : Nat) : Int)) none) e.shape (fun q => some (e.read q)) = .ok out ∧
      out.shape = padShape e.shape pads ∧ out.layout = e.layout ∧ out.WF ∧
      (∀ q, InBounds (padShape e.shape pads) q → Inside e.shape pads q →
        InBounds e.shape (padShift pads q) ∧ out.read q = some (e.read (padShift pads q))) ∧
      ∀ q, InBounds (padShape e.shape pads) q → ¬ Inside e.shape pads q → out.read q = x := by
  obtain ⟨out, e1, e2, e3, e4, e5, e6⟩ := assignRegion_spec (replicate_wf (padShape e.shape pads) e.layout x)
    (Sels.center hl) (shape := e.shape) (fun q => some (e.read q)) (compat_refl _)
  refine ⟨out, e1, e2, e3, e4, ?_, ?_⟩
  · intro q hq hi
    obtain ⟨h1, h2⟩ := applySel_center hl hq hi
    refine ⟨h1, ?_⟩
    have := e5 _ h1
    rw [h2, broadcastIndex_self h1] at this
    exact this
  · intro q hq hi
    rw [e6 q hq (fun p hp e => hi (by rw [← e]; exact applySel_center_inside hl hp)), Buf.read_eq _ (by exact hq)]
    have hlt := travRank_lt e.layout hq
    show (List.replicate ((padShape e.shape pads).foldl (· * ·) 1) x).getD (travRank e.layout (padShape e.shape pads) q) default = x
    rw [foldl_mul_eq, Nat.one_mul]
    simp [List.getD_eq_getElem?_getD, hlt]

/-! ### The claims -/

/-- **C46** (wrap, periodic, symmetric, reflect, edge).  Within the documented limits `pad` returns an array whose extents
are those of the original plus the paddings, and each element is the element of the original at the index obtained by
repeating, mirroring or clamping every coordinate. -/
theorem C46_pad {α : Type} [Inhabited α] (e : Buf α) (pads : List (Nat × Nat)) (m : Extend) (mode : PadMode) (c : α)
    (hm : PadsLike m mode) (hl : pads.length = e.shape.length)
    (ha : ∀ k, k < e.shape.length → ExtendAllowed m (e.shape.getD k 0) (pads.getD k (0, 0)).1 (pads.getD k (0, 0)).2) :
    ∃ out, pad e pads mode c = .ok out ∧ out.shape = padShape e.shape pads ∧ out.layout = e.layout ∧ out.WF ∧
      ∀ q, InBounds (padShape e.shape pads) q →
        InBounds e.shape (padSource m e.shape pads q) ∧ out.read q = some (e.read (padSource m e.shape pads q)) := by
  have hmode : mode ≠ .constant := by
    rintro rfl; cases m <;> simp [PadsLike] at hm
  obtain ⟨o, e1, e2, e3, e4, e5, e6⟩ := place_center e hl none
  have hinv : PadInv m e pads 0 o := by
    refine ⟨e4, e2, e3, fun q hq hk => ?_⟩
    have hql : q.length = e.shape.length := by rw [hq.length_eq, padShape_length hl]
    have hi := (inside_iff hl hql).2 (fun k hk' => hk k (by omega) hk')
    rw [(e5 q hq hi).2, padShift_eq m hl hql hi]
  obtain ⟨o2, h1, h2⟩ := padLoop_inv hm hl ha e.shape.length 0 (by omega) hinv
  refine ⟨o2, ?_, h2.shape, h2.layout, h2.wf, fun q hq => ⟨padSource_inBounds m hl ha hq, ?_⟩⟩
  · unfold pad
    rw [if_neg (by omega)]
    simp only [map_zip_padShape]
    rw [if_neg hmode, e1]
    simp only [Res.bind]
    rw [if_neg hmode]
    exact h1
  · exact h2.val q hq (fun k hk1 hk2 => by omega)

example : ∃ out, pad (⟨[2, 3], .column_major, [1, 2, 3, 4, 5, 6]⟩ : Buf Nat) [(1, 0), (2, 1)] .reflect 0 = .ok out ∧
    out.shape = [3, 6] := by
  obtain ⟨out, h1, h2, -⟩ := C46_pad (⟨[2, 3], .column_major, [1, 2, 3, 4, 5, 6]⟩ : Buf Nat) [(1, 0), (2, 1)] .reflect
    .reflect 0 rfl rfl (by decide)
  exact ⟨out, h1, h2⟩

/-- **C46** (constant).  Any padding: the original in the middle, the constant everywhere else. -/
theorem C46_pad_constant {α : Type} [Inhabited α] (e : Buf α) (pads : List (Nat × Nat)) (c : α)
    (hl : pads.length = e.shape.length) :
    ∃ out, pad e pads .constant c = .ok out ∧ out.shape = padShape e.shape pads ∧ out.layout = e.layout ∧ out.WF ∧
      (∀ q, InBounds (padShape e.shape pads) q → Inside e.shape pads q →
        InBounds e.shape (padShift pads q) ∧ out.read q = some (e.read (padShift pads q))) ∧
      ∀ q, InBounds (padShape e.shape pads) q → ¬ Inside e.shape pads q → out.read q = some c := by
  obtain ⟨o, e1, e2, e3, e4, e5, e6⟩ := place_center e hl (some c)
  refine ⟨o, ?_, e2, e3, e4, e5, e6⟩
  unfold pad
  rw [if_neg (by omega)]
  simp only [map_zip_padShape, if_true]
  rw [e1]
  simp [Res.bind]

example : pad (⟨[2], .row_major, [1, 2]⟩ : Buf Nat) [(3, 1)] .constant 7 =
    .ok ⟨[6], .row_major, [some 7, some 7, some 7, some 1, some 2, some 7]⟩ := by decide

/-- Every element of the original is in the result: the original can be recovered. -/
theorem C46_pad_keeps {α : Type} [Inhabited α] (e : Buf α) (pads : List (Nat × Nat)) (m : Extend) (mode : PadMode) (c : α)
    (hm : PadsLike m mode) (hl : pads.length = e.shape.length)
    (ha : ∀ k, k < e.shape.length → ExtendAllowed m (e.shape.getD k 0) (pads.getD k (0, 0)).1 (pads.getD k (0, 0)).2) :
    ∃ out, pad e pads mode c = .ok out ∧ ∀ p, InBounds e.shape p →
      out.read (List.zipWith (fun (w : Nat × Nat) i => w.1 + i) pads p) = some (e.read p) := by
  obtain ⟨out, h1, h2, h3, h4, h5⟩ := C46_pad e pads m mode c hm hl ha
  refine ⟨out, h1, fun p hp => ?_⟩
  have hpl := hp.length_eq
  have hget : ∀ k, k < e.shape.length → (List.zipWith (fun (w : Nat × Nat) i => w.1 + i) pads p).getD k 0 =
      (pads.getD k (0, 0)).1 + p.getD k 0 := by
    intro k hk
    simp [List.getD_eq_getElem?_getD, hk, hl, hpl]
  have hlen : (List.zipWith (fun (w : Nat × Nat) i => w.1 + i) pads p).length = e.shape.length := by simp [hl, hpl]
  have hb : InBounds (padShape e.shape pads) (List.zipWith (fun (w : Nat × Nat) i => w.1 + i) pads p) := by
    rw [inBounds_iff_get]
    refine ⟨by rw [hlen, padShape_length hl], fun k hk => ?_⟩
    rw [padShape_length hl] at hk
    rw [hget k hk, padShape_get hl hk]
    have := (inBounds_iff_get.1 hp).2 k hk
    omega
  rw [(h5 _ hb).2]
  congr 2
  apply ext_getD
  · rw [padSource_length m hl hlen, hpl]
  · intro k hk
    rw [padSource_length m hl hlen] at hk
    rw [padSource_get m hl hlen hk, hget k hk]
    have := (inBounds_iff_get.1 hp).2 k hk
    rw [extendIndex_inside m (by omega) (by omega)]
    omega

/-- The limits are only checked by assertions.  A wider wrap returns cells nobody wrote, and a wider mirror throws from
`broadcast`. -/
theorem C46_pad_too_wide :
    pad (⟨[3], .row_major, [1, 2, 3]⟩ : Buf Nat) [(5, 0)] .wrap 0 =
      .ok ⟨[8], .row_major, [none, none, some 1, some 2, some 3, some 1, some 2, some 3]⟩ ∧
    pad (⟨[3], .row_major, [1, 2, 3]⟩ : Buf Nat) [(5, 0)] .symmetric 0 = .throws ∧
    pad (⟨[2], .row_major, [1, 2]⟩ : Buf Nat) [(2, 2)] .reflect 0 =
      .ok ⟨[6], .row_major, [none, some 2, some 1, some 2, some 1, some 2]⟩ := by decide

/-- One pair of widths for every axis is required: fewer read past the end of `pad_width`. -/
theorem C46_pad_short {α : Type} [Inhabited α] (e : Buf α) (pads : List (Nat × Nat)) (mode : PadMode) (c : α)
    (h : pads.length < e.shape.length) : pad e pads mode c = .ub := by
  unfold pad; rw [if_pos h]

end Xt
