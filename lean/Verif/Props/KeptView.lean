import Verif.Spec.KeptView
import Verif.Props.AssignFail
import Verif.Props.ContigView
/-!
# C104: views that are kept while their array changes
-/

namespace Xt
open Spec

variable {α : Type}

/-! ## The array -/

/-- A block of memory with the wrong kind of strides does not occur when there are elements. -/
theorem Spec.KStatic.strides_eq {L : Layout} {c : Cont α} (h : KStatic L c) {p : List Nat} (hp : InBounds c.shape p) :
    c.strides = (computeStrides L L c.shape).1 := by
  rcases h.consistent.strides with hs | ⟨n, h1, h2⟩
  · rw [contiguousStrides_iff, h.static, h.layout] at hs
    exact hs
  · cases n with
    | zero =>
      simp only [List.replicate_zero] at h1 h2
      have hl := computeStrides_length L L c.shape
      rw [h2]
      rw [h1] at hl ⊢
      exact (List.eq_nil_of_length_eq_zero hl).symm
    | succ n =>
      rw [h1, List.replicate_succ] at hp
      cases p with
      | nil => exact absurd hp id
      | cons x p => exact absurd hp.1 (Nat.not_lt_zero x)

theorem KStatic.withStorage {L : Layout} {c : Cont α} (h : KStatic L c) {st : List α} (hl : st.length = c.storage.length) :
    KStatic L (c.withStorage st) := ⟨h.static, h.layout, Consistent.withStorage h.consistent hl⟩

theorem not_dynamic {L : Layout} (hL : L = .row_major ∨ L = .column_major) : L ≠ .dynamic := by
  rintro rfl; rcases hL with h | h <;> exact absurd h (by decide)

theorem kResize_spec {L : Layout} (hL : L = .row_major ∨ L = .column_major) {fresh : Nat → List α}
    (hf : ∀ n, (fresh n).length = n) (d : Layout) {c : Cont α} (h : KStatic L c) (s : List Nat) (force : Bool) :
    ∃ c', c.resize d fresh true s force = .ok c' ∧ KStatic L c' ∧ c'.shape = s ∧ (numel s = numel c.shape → c'.storage = c.storage) := by
  unfold Cont.resize
  by_cases hc : c.shape ≠ s ∨ force = true
  · have hl : (if c.L = .dynamic ∧ c.layout = .dynamic then d else c.layout) = c.layout :=
      if_neg (by rw [h.static]; exact fun h => not_dynamic hL h.1)
    simp only [if_pos hc, hl, if_true]
    refine ⟨_, rfl, ⟨h.static, h.layout, Consistent.of_computed _ _ _ _ ?_⟩, rfl, fun hn => ?_⟩
    · rw [resizeStorage_length hf, computeStrides_size]; simp
    · show Cont.resizeStorage _ _ _ = _
      unfold Cont.resizeStorage
      rw [if_neg]
      rw [computeStrides_size, h.consistent.storage_size, ← hn]
      simp
  · rw [if_neg hc]
    push Not at hc
    exact ⟨c, rfl, h, hc.1, fun _ => rfl⟩

theorem kReshape_spec {L : Layout} (d : Layout) {c : Cont α} (h : KStatic L c) (hL : L = .row_major ∨ L = .column_major)
    (s : List Nat) :
    if numel s = numel c.shape then ∃ c', c.reshapeUnsigned d s c.L = .ok c' ∧ KStatic L c' ∧ c'.shape = s ∧ c'.storage = c.storage
    else c.reshapeUnsigned d s c.L = .throws c := by
  unfold Cont.reshapeUnsigned
  have hs : computeSize s ≠ c.size ↔ ¬ numel s = numel c.shape := by
    rw [computeSize_eq, Consistent.size_eq h.consistent]
  by_cases hn : numel s = numel c.shape
  · rw [if_pos hn, if_neg (by rw [hs]; exact fun h => h hn)]
    have hl : (if c.L = .dynamic ∧ c.L = .dynamic then d else c.L) = c.L :=
      if_neg (by rw [h.static]; exact fun h => not_dynamic hL h.1)
    simp only [hl]
    rw [if_neg (by simp)]
    exact ⟨_, rfl, ⟨h.static, h.static, Consistent.of_computed _ _ _ _ (by rw [h.consistent.storage_size, hn])⟩, rfl, rfl⟩
  · rw [if_neg hn, if_pos (hs.2 hn)]

theorem kAssign_spec {L : Layout} (hL : L = .row_major ∨ L = .column_major) (g : FCfg α) (hf : ∀ n, (g.fresh n).length = n)
    {c : Cont α} (h : KStatic L c) (s : List Nat) (f : List Nat → α) :
    ∃ c', directF g true c ⟨some s, fun i => some (f i)⟩ = .ok c' ∧ KStatic L c' ∧ c'.shape = s ∧
      ∀ i, InBounds s i → c'.elem? (toInts i) = some (f i) := by
  obtain ⟨c1, h1, h2, h3, -⟩ := kResize_spec hL hf g.d h s false
  have hr : resizeF g true c s = .ok c1 := h1
  unfold directF
  simp only [hr, Out.next]
  have key := writeUntil_spec (fun i => some (f i)) (loopOrder g c1) c1 h2.consistent (fun i hi => mem_loopOrder.1 hi)
    (loopOrder_nodup g c1)
  unfold assignDataF
  split at key
  · rename_i c2 h4
    obtain ⟨⟨st, h5, rfl⟩, h6, -⟩ := key
    refine ⟨_, h4, KStatic.withStorage h2 h5, h3, fun i hi => ?_⟩
    obtain ⟨x, h7, h8⟩ := h6 i (mem_loopOrder.2 (by rw [h3]; exact hi))
    simp only [Option.some.injEq] at h7
    rw [h8, h7]
  · obtain ⟨-, pre, i, post, -, h9, -⟩ := key
    simp at h9
  · exact absurd key id

theorem kPut_spec {L : Layout} {c : Cont α} (h : KStatic L c) {p : List Nat} (hp : InBounds c.shape p) (x : α) :
    ∃ c', putPos c (some (dataOffset c.strides false (toInts p))) x = .ok c' ∧ KStatic L c' ∧ c'.shape = c.shape ∧
      ∀ j, InBounds c.shape j → c'.elem? (toInts j) = if j = p then some x else c.elem? (toInts j) := by
  have ha := Consistent.addressable h.consistent
  have h1 := ha.inside p hp
  refine ⟨c.withStorage (c.storage.set (dataOffset c.strides false (toInts p)).toNat x), ?_,
    KStatic.withStorage h (by simp), rfl, fun j hj => elem_set ha hp hj x⟩
  unfold putPos
  simp only []
  rw [if_pos ⟨h1.1, by omega⟩]
  rfl

/-! ## The views -/

/-- Strides of an array of shape `sh`, if it has elements. -/
def HomeStrides (L : Layout) (sh : List Nat) (st : List Int) : Prop :=
  st.length = sh.length ∧ ∀ p, InBounds sh p → st = (computeStrides L L sh).1

/-- What is kept belongs to the shape for which the view was built. -/
def KInv (L : Layout) (v : Kept) (g : KGhost) : Prop :=
  match v with
  | .x S shape cache => SlicesValid g.shape g.us ∧ .newaxis ∉ g.us ∧ g.us.length ≤ g.shape.length ∧
      makeView g.shape g.us = .ok S ∧ shape = viewShape g.shape S ∧
      ∀ d, cache = some d → ∃ st, HomeStrides L g.shape st ∧ d = (viewStrides g.shape st S, viewDataOffset st 0 S)
  | .c S offset => SlicesValid g.shape g.us ∧ .newaxis ∉ g.us ∧ g.us.length ≤ g.shape.length ∧
      makeView g.shape g.us = .ok S ∧ trivialStrides L none S = true ∧
      ∃ st, HomeStrides L g.shape st ∧ offset = viewDataOffset st 0 S
  | .s v => ∃ us st l, us.count .ellipsis ≤ 1 ∧ g.us = expandEllipsis g.shape.length us ∧ SlicesValid g.shape g.us ∧ NoKeepDrop us ∧
      IntsNonneg us ∧ HomeStrides L g.shape st ∧ stridedView g.shape st 0 l us = .ok v

theorem keptAccess_eq (sh : List Nat) (S : List Sl) (args : List Int) :
    keptAccess S (viewShape sh S).length args = viewAccess sh S args := by
  unfold keptAccess viewAccess
  have h : (viewShape sh S).length = viewDim sh S := by unfold viewShape; simp
  rw [h]

theorem keptStrides_eq (c : Cont α) (S : List Sl) :
    keptStrides c S (viewShape c.shape S) = viewStrides c.shape c.strides S := by
  unfold keptStrides viewStrides viewRawStrides
  have h : (viewShape c.shape S).length = viewDim c.shape S := by unfold viewShape; simp
  rw [h]

theorem KStatic.home {L : Layout} {c : Cont α} (h : KStatic L c) : HomeStrides L c.shape c.strides :=
  ⟨Consistent.strides_length h.consistent, fun _ hp => h.strides_eq hp⟩

theorem atPos_elem (c : Cont α) (args : List Int) :
    atPos c (some (dataOffset c.strides false args)) = c.elem? args := rfl

theorem elem_ne_none {c : Cont α} (h : Consistent c) {i : List Nat} (hi : InBounds c.shape i) :
    c.elem? (toInts i) ≠ none := by
  have h1 := (Consistent.addressable h).inside i hi
  unfold Cont.elem?
  simp only []
  rw [if_neg (by omega), List.getElem?_eq_getElem (by omega)]
  simp

/-- The position of the selected element. -/
theorem KInv.pos {L : Layout} (hL : L = .row_major ∨ L = .column_major) {c : Cont α} (h : KStatic L c) {v : Kept} {g : KGhost} (hv : KInv L v g) (hs : c.shape = g.shape)
    {idx : List Nat} (hi : InBounds (selShape g.shape g.us) idx) :
    ∃ p, InBounds c.shape p ∧ selIndex g.shape g.us idx = toInts p ∧
      keptPos c v (toInts idx) = some (dataOffset c.strides false (toInts p)) ∧
      (AllStrided g.us → keptDataPos c v (toInts idx) = dataOffset c.strides false (toInts p)) := by
  have hh := KStatic.home h
  cases v with
  | x S shape cache =>
    obtain ⟨h1, h2, h3, h4, rfl, h6⟩ := hv
    obtain ⟨S', h7, h8⟩ := C18_view_element_no_newaxis g.shape g.us h1 h2
    have hSS : S = S' := by rw [h4] at h7; cases h7; rfl
    subst hSS
    obtain ⟨h9, p, h10, h11⟩ := h8 idx hi []
    rw [List.nil_append] at h9
    refine ⟨p, hs ▸ h10, h11, ?_, fun ha => ?_⟩
    · unfold keptPos
      simp only []
      rw [keptAccess_eq, h9, h11]
      rfl
    · have key : ∀ st, HomeStrides L g.shape st →
          viewDataOffset st 0 S + dot (viewStrides g.shape st S) (toInts idx) = dataOffset c.strides false (toInts p) := by
        intro st hst
        obtain ⟨S', h12, h13⟩ := C19_view_address g.shape g.us h1 ha st 0 hst.1 h3
        have hSS : S = S' := by rw [h4] at h12; cases h12; rfl
        subst hSS
        rw [h13 idx hi, h11, hst.2 p h10, h.strides_eq (hs ▸ h10), hs,
          dataOffset_eq _ _ (by simp [h10.length_eq, computeStrides_length])]
        omega
      cases cache with
      | none =>
        show viewDataOffset c.strides 0 S + dot (keptStrides c S (viewShape g.shape S)) (toInts idx) = _
        rw [← hs, keptStrides_eq, hs]
        exact key _ (hs ▸ hh)
      | some d =>
        obtain ⟨st, h14, rfl⟩ := h6 d rfl
        exact key st h14
  | c S offset =>
    obtain ⟨h1, h2, h3, h4, h5, st, h6, rfl⟩ := hv
    obtain ⟨S', h7, h8⟩ := C18_view_element_no_newaxis g.shape g.us h1 h2
    have hSS : S = S' := by rw [h4] at h7; cases h7; rfl
    subst hSS
    obtain ⟨h9, p, h10, h11⟩ := h8 idx hi []
    rw [List.nil_append] at h9
    obtain ⟨S', b1, b2⟩ := makeView_boundGet h1
    have hSS : S = S' := by rw [h4] at b1; cases b1; rfl
    subst hSS
    refine ⟨p, hs ▸ h10, h11, ?_, fun ha => ?_⟩
    · have hd : (withoutInts c.L S c.shape).length = (viewShape g.shape S).length := by
        rw [h.static, hs, withoutInts_shape hL b2 h5 (.inl rfl), viewShape_eq b2.bound]
        simp [toInts]
      unfold keptPos
      simp only []
      rw [hd, keptAccess_eq, h9, h11]
      rfl
    · obtain ⟨S', h12, h13⟩ := C19_view_address g.shape g.us h1 ha st 0 h6.1 h3
      have hSS : S = S' := by rw [h4] at h12; cases h12; rfl
      subst hSS
      have h14 := h13 idx hi
      rw [viewStrides, viewShape_eq b2.bound, viewRawStrides_eq b2.bound st h6.1, dot_adapt hi,
        ← withoutInts_strides hL h5 (.inl rfl) (by rw [b2.length, h6.1]; exact h3), h11, h6.2 p h10] at h14
      show viewDataOffset st 0 S + dot (withoutInts c.L S c.strides) (toInts idx) = _
      rw [h.static, h.strides_eq (hs ▸ h10), hs, h6.2 p h10, h14, dataOffset_eq _ _ (by simp [h10.length_eq, computeStrides_length])]
      omega
  | s v =>
    obtain ⟨us, st, l, h1, h2, h3, h4, h5, h6, h7⟩ := hv
    obtain ⟨v', h8, -, h9, -⟩ := C20_strided_view_partial g.shape st 0 l us h6.1 h1 (h2 ▸ h3) h4 h5
    have hvv : v = v' := by rw [h7] at h8; cases h8; rfl
    subst hvv
    obtain ⟨h10, -, p, h11, h12⟩ := h9 idx (h2 ▸ hi)
    have e : v.index (toInts idx) = dataOffset c.strides false (toInts p) := by
      rw [h10, h12, h6.2 p h11, h.strides_eq (hs ▸ h11), hs,
          dataOffset_eq _ _ (by simp [h11.length_eq, computeStrides_length])]
      omega
    exact ⟨p, hs ▸ h11, by rw [h2]; exact h12, congrArg some e, fun _ => e⟩

theorem KInv.shows {L : Layout} (hL : L = .row_major ∨ L = .column_major) {c : Cont α} (h : KStatic L c) {v : Kept} {g : KGhost} (hv : KInv L v g) (hs : c.shape = g.shape) :
    Shows c v g := by
  refine ⟨?_, fun idx hi => ?_⟩
  · cases v with
    | x S shape cache =>
      obtain ⟨h1, -, -, h4, rfl, -⟩ := hv
      obtain ⟨S', h7, h8⟩ := C18_view_shape g.shape g.us h1
      have hSS : S = S' := by rw [h4] at h7; cases h7; rfl
      subst hSS
      exact h8
    | c S offset =>
      obtain ⟨h1, -, -, h4, h5, -⟩ := hv
      obtain ⟨S', b1, b2⟩ := makeView_boundGet h1
      have hSS : S = S' := by rw [h4] at b1; cases b1; rfl
      subst hSS
      show toInts (withoutInts c.L S c.shape) = _
      rw [h.static, hs, withoutInts_shape hL b2 h5 (.inl rfl)]
    | s v =>
      obtain ⟨us, st, l, h1, h2, h3, h4, h5, h6, h7⟩ := hv
      obtain ⟨v', h8, h9, -⟩ := C20_strided_view_partial g.shape st 0 l us h6.1 h1 (h2 ▸ h3) h4 h5
      have hvv : v = v' := by rw [h7] at h8; cases h8; rfl
      subst hvv
      rw [h2]
      exact h9
  obtain ⟨p, h1, h2, h3, h4⟩ := KInv.pos hL h hv hs hi
  exact ⟨p, h1, h2, by rw [h3]; rfl, elem_ne_none h.consistent h1, fun ha => by rw [h4 ha]; rfl⟩

/-! ## Histories -/

/-- The array is sound and the views belong to what is remembered of them. -/
structure KWorldOk (L : Layout) (w : KWorld α) (gs : List KGhost) : Prop where
  array : KStatic L w.c
  views : List.Forall₂ (KInv L) w.views gs

theorem forall₂_snoc {A B : Type} {R : A → B → Prop} {l : List A} {m : List B} (h : List.Forall₂ R l m) {a : A} {b : B}
    (hab : R a b) : List.Forall₂ R (l ++ [a]) (m ++ [b]) := by
  induction h with
  | nil => exact .cons hab .nil
  | cons h _ ih => exact .cons h ih

theorem forall₂_get {A B : Type} {R : A → B → Prop} {l : List A} {m : List B} (h : List.Forall₂ R l m) {k : Nat} {b : B}
    (hb : m[k]? = some b) : ∃ a, l[k]? = some a ∧ R a b := by
  induction h generalizing k with
  | nil => simp at hb
  | cons h _ ih =>
    cases k with
    | zero => simp only [List.getElem?_cons_zero, Option.some.injEq] at hb; subst hb; exact ⟨_, rfl, h⟩
    | succ k => exact ih (by simpa using hb)

theorem forall₂_set {A B : Type} {R : A → B → Prop} {l : List A} {m : List B} (h : List.Forall₂ R l m) {k : Nat} {a : A} {b : B}
    (hb : m[k]? = some b) (hab : R a b) : List.Forall₂ R (l.set k a) m := by
  induction h generalizing k with
  | nil => exact .nil
  | cons h t ih =>
    cases k with
    | zero => simp only [List.getElem?_cons_zero, Option.some.injEq] at hb; subst hb; exact .cons hab t
    | succ k => exact .cons h (ih (by simpa using hb))

/-- An allowed event is defined; the array stays sound and the views stay what they were. -/
theorem KEvent.sound {L : Layout} (hL : L = .row_major ∨ L = .column_major) (g : FCfg α) (hf : ∀ n, (g.fresh n).length = n)
    {w : KWorld α} {gs : List KGhost} (h : KWorldOk L w gs) (e : KEvent α) (he : KAllowed L w.c gs e) :
    ∃ w', ((e.run g w = .ok w' ∧ ¬ KThrows w.c e) ∨ (e.run g w = .throws w' ∧ KThrows w.c e)) ∧ KWorldOk L w' (kGhosts w.c gs e) ∧
      KEffect w.c gs w'.c e := by
  cases e with
  | view us =>
    obtain ⟨h1, h2, h3⟩ := he
    obtain ⟨S, h4, -⟩ := C18_view_shape w.c.shape us h1
    refine ⟨{ w with views := w.views ++
        [if trivialStrides w.c.L none S then .c S (viewDataOffset w.c.strides 0 S) else .x S (viewShape w.c.shape S) none] },
      .inl ⟨by simp only [KEvent.run, h4], id⟩, ⟨h.array, forall₂_snoc h.views ?_⟩, rfl⟩
    by_cases ht : trivialStrides w.c.L none S = true
    · rw [if_pos ht]
      rw [h.array.static] at ht
      exact ⟨h1, h2, h3, h4, ht, _, KStatic.home h.array, rfl⟩
    · rw [if_neg ht]
      exact ⟨h1, h2, h3, h4, rfl, fun d hd => by simp at hd⟩
  | strided us =>
    obtain ⟨h1, h2, h3, h4⟩ := he
    obtain ⟨v, h5, -⟩ := C20_strided_view_partial w.c.shape w.c.strides 0 w.c.layout us
      (Consistent.strides_length h.array.consistent) h1 h2 h3 h4
    refine ⟨{ w with views := w.views ++ [.s v] }, .inl ⟨by simp only [KEvent.run, h5], id⟩, ⟨h.array, forall₂_snoc h.views ?_⟩, rfl⟩
    exact ⟨us, _, _, h1, rfl, h2, h3, h4, KStatic.home h.array, h5⟩
  | ask k =>
    obtain ⟨gh, h1, h2⟩ := he
    obtain ⟨v, h3, h4⟩ := forall₂_get h.views h1
    cases v with
    | x S shape cache =>
      refine ⟨{ w with views := w.views.set k (.x S shape (some (keptData w.c S shape cache))) },
        .inl ⟨by simp only [KEvent.run, h3], id⟩, ⟨h.array, forall₂_set h.views h1 ?_⟩, rfl⟩
      obtain ⟨a1, a2, a3, a4, rfl, a6⟩ := h4
      refine ⟨a1, a2, a3, a4, rfl, fun d hd => ?_⟩
      simp only [Option.some.injEq] at hd
      subst hd
      cases cache with
      | some d => exact a6 d rfl
      | none =>
        refine ⟨w.c.strides, h2 ▸ KStatic.home h.array, ?_⟩
        show (keptStrides w.c S (viewShape gh.shape S), _) = _
        rw [← h2, keptStrides_eq]
    | c S offset => exact ⟨w, .inl ⟨by simp only [KEvent.run, h3], id⟩, h, rfl⟩
    | s v => exact ⟨w, .inl ⟨by simp only [KEvent.run, h3], id⟩, h, rfl⟩
  | put idx x =>
    obtain ⟨c', h1, h2, h3⟩ := kPut_spec h.array he x
    exact ⟨⟨c', w.views⟩, .inl ⟨by simp only [KEvent.run, h1, KWorld.lift], id⟩, ⟨h2, h.views⟩, h3⟩
  | putView k idx x =>
    obtain ⟨gh, h1, h2, h3⟩ := he
    obtain ⟨v, h4, h5⟩ := forall₂_get h.views h1
    obtain ⟨p, h6, hp, h7, -⟩ := KInv.pos hL h.array h5 h2 h3
    obtain ⟨c', h8, h9, h10, h11⟩ := kPut_spec h.array h6 x
    exact ⟨⟨c', w.views⟩, .inl ⟨by simp only [KEvent.run, h4, h7, h8, KWorld.lift], id⟩, ⟨h9, h.views⟩, h10, gh, p, h1, h6, hp, h11⟩
  | resize s force =>
    obtain ⟨c', h1, h2, h3, h4⟩ := kResize_spec hL hf g.d h.array s force
    refine ⟨⟨c', w.views⟩, .inl ⟨by simp only [KEvent.run, h1, KWorld.lift], id⟩, ⟨h2, h.views⟩, h3, h4, fun hs j hj => ?_⟩
    show c'.elem? (toInts j) = _
    unfold Cont.elem?
    rw [h4 (by rw [hs]), h2.strides_eq (p := j) (h3.symm ▸ hj), h3, h.array.strides_eq (p := j) (hs ▸ hj), hs]
  | reshape s =>
    have h1 := kReshape_spec g.d h.array hL s
    by_cases hn : numel s = numel w.c.shape
    · rw [if_pos hn] at h1
      obtain ⟨c', h1, h2, h3⟩ := h1
      exact ⟨⟨c', w.views⟩, .inl ⟨by simp only [KEvent.run, h1, KWorld.lift], fun h => h hn⟩, ⟨h2, h.views⟩, fun _ => h3,
        fun h => absurd hn h⟩
    · rw [if_neg hn] at h1
      exact ⟨w, .inr ⟨by simp only [KEvent.run, h1, KWorld.lift], hn⟩, h, fun h => absurd h hn, fun _ => rfl⟩
  | assign s f =>
    obtain ⟨c', h1, h2, h3⟩ := kAssign_spec hL g hf h.array s f
    exact ⟨⟨c', w.views⟩, .inl ⟨by simp only [KEvent.run, h1, KWorld.lift], id⟩, ⟨h2, h.views⟩, h3⟩
  | copy b =>
    have hb : KStatic L b := he
    have h1 : copyF true w.c b = .ok { b with L := w.c.L } := by unfold copyF; simp
    have h2 : ({ b with L := w.c.L } : Cont α) = b := by rw [h.array.static, ← hb.static]
    rw [h2] at h1
    exact ⟨⟨b, w.views⟩, .inl ⟨by simp only [KEvent.run, h1, KWorld.lift], id⟩, ⟨hb, h.views⟩, rfl⟩

theorem kRun_sound {L : Layout} (hL : L = .row_major ∨ L = .column_major) (g : FCfg α) (hf : ∀ n, (g.fresh n).length = n) :
    ∀ (es : List (KEvent α)) (w : KWorld α) (gs : List KGhost), KWorldOk L w gs → KHistory g L es w gs →
    ∃ w', kRun g es w = some w' ∧ KWorldOk L w' (kGhostsAll g es w gs)
  | [], w, gs, h, _ => ⟨w, rfl, h⟩
  | e :: r, w, gs, h, he => by
    obtain ⟨w1, h1, h2, -⟩ := KEvent.sound hL g hf h e he.1
    replace h1 : e.run g w = .ok w1 ∨ e.run g w = .throws w1 := h1.imp And.left And.left
    obtain ⟨w2, h3, h4⟩ := kRun_sound hL g hf r w1 _ h2 (he.2 w1 h1)
    refine ⟨w2, ?_, ?_⟩
    · unfold kRun
      rcases h1 with h1 | h1 <;> rw [h1] <;> exact h3
    · unfold kGhostsAll
      rcases h1 with h1 | h1 <;> rw [h1] <;> exact h4

/-- Whatever happens to an array and its views — elements written directly or through views, resizes, reshapes that succeed or
throw, assignments, other views built before or after — a view shows the elements that it selects of the array as it is now
whenever the array has the shape for which the view was built.  (Full claim: strides may be asked for at any time;
`C104_lazy_wrong` is the counterexample.) -/
theorem C104_kept_partial {L : Layout} (hL : L = .row_major ∨ L = .column_major) (g : FCfg α) (hf : ∀ n, (g.fresh n).length = n)
    (es : List (KEvent α)) (c : Cont α) (h : KStatic L c) (he : KHistory g L es ⟨c, []⟩ []) :
    ∃ w', kRun g es ⟨c, []⟩ = some w' ∧ KStatic L w'.c ∧ w'.views.length = (kGhostsAll g es ⟨c, []⟩ []).length ∧
      ∀ (k : Nat) gh, (kGhostsAll g es ⟨c, []⟩ [])[k]? = some gh → ∃ v, w'.views[k]? = some v ∧ (w'.c.shape = gh.shape → Shows w'.c v gh) := by
  obtain ⟨w', h1, h2⟩ := kRun_sound hL g hf es ⟨c, []⟩ [] ⟨h, .nil⟩ he
  refine ⟨w', h1, h2.array, h2.views.length_eq, fun k gh hk => ?_⟩
  obtain ⟨v, h3, h4⟩ := forall₂_get h2.views hk
  exact ⟨v, h3, KInv.shows hL h2.array h4⟩

/-- After a history, an allowed event throws only if it is a reshape to another number of elements, and changes the elements of the
array as it should; a write through a view changes the selected element and no other one. -/
theorem C104_event_partial {L : Layout} (hL : L = .row_major ∨ L = .column_major) (g : FCfg α) (hf : ∀ n, (g.fresh n).length = n)
    (es : List (KEvent α)) (c : Cont α) (h : KStatic L c) (he : KHistory g L es ⟨c, []⟩ []) {w : KWorld α}
    (hw : kRun g es ⟨c, []⟩ = some w) (e : KEvent α) (ha : KAllowed L w.c (kGhostsAll g es ⟨c, []⟩ []) e) :
    ∃ w', ((e.run g w = .ok w' ∧ ¬ KThrows w.c e) ∨ (e.run g w = .throws w' ∧ KThrows w.c e)) ∧
      KEffect w.c (kGhostsAll g es ⟨c, []⟩ []) w'.c e := by
  obtain ⟨w0, h1, h2⟩ := kRun_sound hL g hf es ⟨c, []⟩ [] ⟨h, .nil⟩ he
  rw [hw] at h1
  cases h1
  obtain ⟨w', h3, -, h4⟩ := KEvent.sound hL g hf h2 e ha
  exact ⟨w', h3, h4⟩

/-! ## Contiguous views follow the array -/

/-- A slice without the extent of `all`. -/
def slNorm : Sl → Sl
  | .all _ => .all 0
  | s => s

theorem slNorm_isInt (s : Sl) : (slNorm s).isInt = s.isInt := by cases s <;> rfl
theorem slNorm_isNew (s : Sl) : (slNorm s).isNew = s.isNew := by cases s <;> rfl
theorem slNorm_isAll (s : Sl) : (slNorm s).isAll = s.isAll := by cases s <;> rfl
theorem slNorm_isRange (s : Sl) : (slNorm s).isRange = s.isRange := by cases s <;> rfl
theorem slNorm_access (pos : Nat) (s : Sl) (args : List Int) : slicedAccess pos (slNorm s) args = slicedAccess pos s args := by
  cases s <;> rfl

theorem integralCount_norm (S : List Sl) : integralCount (S.map slNorm) = integralCount S := by
  unfold integralCount
  rw [List.countP_map]
  exact List.countP_congr fun s _ => by simp [slNorm_isInt]

theorem newaxisCount_norm (S : List Sl) : newaxisCount (S.map slNorm) = newaxisCount S := by
  unfold newaxisCount
  rw [List.countP_map]
  exact List.countP_congr fun s _ => by simp [slNorm_isNew]

theorem newaxisCountBefore_norm (S : List Sl) (k : Nat) : newaxisCountBefore (S.map slNorm) k = newaxisCountBefore S k := by
  unfold newaxisCountBefore
  rw [← List.map_take, List.countP_map]
  exact List.countP_congr fun s _ => by simp [slNorm_isNew]

theorem integralCountBefore_norm (S : List Sl) (k : Nat) : integralCountBefore (S.map slNorm) k = integralCountBefore S k := by
  unfold integralCountBefore
  rw [← List.map_take, List.countP_map]
  exact List.countP_congr fun s _ => by simp [slNorm_isInt]

theorem keptAccess_norm (S : List Sl) (dim : Nat) (args : List Int) : keptAccess (S.map slNorm) dim args = keptAccess S dim args := by
  have h : viewIndexAt (S.map slNorm) = viewIndexAt S := by
    funext a I
    unfold viewIndexAt
    rw [newaxisCountBefore_norm, integralCountBefore_norm, integralCount_norm, newaxisCount_norm, List.getElem?_map]
    cases S[I + newaxisCountBefore S (I + 1)]? with
    | none => rfl
    | some s => exact slNorm_access _ _ _
  unfold keptAccess
  rw [integralCount_norm, newaxisCount_norm, h]

theorem contigRow_norm (S : List Sl) : ∀ v a r, contigRow v a r (S.map slNorm) = contigRow v a r S := by
  induction S with
  | nil => intro v a r; rfl
  | cons s S ih =>
    intro v a r
    simp only [List.map_cons, contigRow, slNorm_isInt, slNorm_isAll, slNorm_isRange, ih]

theorem contigCol_norm (S : List Sl) : ∀ v a r, contigCol v a r (S.map slNorm) = contigCol v a r S := by
  induction S with
  | nil => intro v a r; rfl
  | cons s S ih =>
    intro v a r
    simp only [List.map_cons, contigCol, slNorm_isInt, slNorm_isAll, slNorm_isRange, ih]

theorem trivialStrides_norm (L : Layout) (S : List Sl) : trivialStrides L none (S.map slNorm) = trivialStrides L none S := by
  have h : (S.map slNorm).any Sl.isRange = S.any Sl.isRange := by
    rw [List.any_map]
    exact congrArg (S.any ·) (funext slNorm_isRange)
  unfold trivialStrides isContiguousView
  rw [h]
  cases L <;> simp [contigRow_norm]

/-- Slices that are integers from the front or everything are the same for any extents. -/
theorem bindSlices_rows {us : List USlice} (hu : ∀ u ∈ us, u = .all ∨ ∃ i, u = .int i ∧ 0 ≤ i) :
    ∀ {sh sh' : List Nat} {pre : Nat} {S S' : List Sl}, bindSlices sh pre us = .ok S → bindSlices sh' pre us = .ok S' →
    S.map slNorm = S'.map slNorm := by
  induction us with
  | nil =>
    intro sh sh' pre S S' h h'
    cases h; cases h'; rfl
  | cons u us ih =>
    intro sh sh' pre S S' h h'
    have key : ∀ (sh : List Nat) (S : List Sl), bindSlices sh pre (u :: us) = .ok S → ∃ n T, sh[pre]? = some n ∧
        bindSlices sh (pre + 1) us = .ok T ∧ ∃ s, getSlice n u = .ok s ∧ S = s :: T := by
      intro sh S h
      have hnew : u.isNew = false := by
        rcases hu u (by simp) with rfl | ⟨i, rfl, -⟩ <;> rfl
      unfold bindSlices at h
      rw [hnew] at h
      simp only [Bool.false_eq_true, if_false] at h
      cases hn : sh[pre]? with
      | none => rw [hn] at h; simp at h
      | some n =>
        rw [hn] at h
        simp only [] at h
        cases hg : getSlice n u with
        | ok s =>
          rw [hg] at h
          simp only [] at h
          cases hb : bindSlices sh (pre + 1) us with
          | ok T =>
            rw [hb] at h
            cases h
            exact ⟨n, T, rfl, rfl, s, hg, rfl⟩
          | throws => rw [hb] at h; cases h
          | ub => rw [hb] at h; cases h
        | throws => rw [hg] at h; cases h
        | ub => rw [hg] at h; cases h
    obtain ⟨n, T, -, h2, s, h3, rfl⟩ := key sh S h
    obtain ⟨n', T', -, h2', s', h3', rfl⟩ := key sh' S' h'
    have hs : slNorm s = slNorm s' := by
      rcases hu u (by simp) with rfl | ⟨i, rfl, hi⟩
      · cases h3; cases h3'; rfl
      · have e : ∀ (n : Nat) (s : Sl), getSlice n (.int i) = .ok s → s = .int i := by
          intro n s hs
          cases hs
          rw [if_neg (by omega)]
        rw [e n s h3, e n' s' h3']
    rw [List.map_cons, List.map_cons, hs, ih (fun u hu' => hu u (by simp [hu'])) h2 h2']

/-- A contiguous view — rows of a row-major array — follows the array: also when the array has another shape, the view has the
shape of the current selection, and element access finds its elements. -/
theorem C104_follows {L : Layout} (hL : L = .row_major ∨ L = .column_major) (g : FCfg α) (hf : ∀ n, (g.fresh n).length = n)
    (es : List (KEvent α)) (c : Cont α) (h : KStatic L c) (he : KHistory g L es ⟨c, []⟩ []) {w : KWorld α}
    (hw : kRun g es ⟨c, []⟩ = some w) {k : Nat} {S : List Sl} {o : Int} (hk : w.views[k]? = some (.c S o)) {gh : KGhost}
    (hg : (kGhostsAll g es ⟨c, []⟩ [])[k]? = some gh) (hu : ∀ u ∈ gh.us, u = .all ∨ ∃ i, u = .int i ∧ 0 ≤ i)
    (hv : SlicesValid w.c.shape gh.us) :
    keptShape w.c (.c S o) = toInts (selShape w.c.shape gh.us) ∧
    ∀ idx, InBounds (selShape w.c.shape gh.us) idx → ∃ p, InBounds w.c.shape p ∧ selIndex w.c.shape gh.us idx = toInts p ∧
      atPos w.c (keptPos w.c (.c S o) (toInts idx)) = w.c.elem? (toInts p) ∧ w.c.elem? (toInts p) ≠ none := by
  obtain ⟨w0, h1, h2⟩ := kRun_sound hL g hf es ⟨c, []⟩ [] ⟨h, .nil⟩ he
  rw [hw] at h1
  cases h1
  obtain ⟨v, h3, h4⟩ := forall₂_get h2.views hg
  rw [hk] at h3
  cases h3
  obtain ⟨-, a2, -, a4, a5, -⟩ := h4
  have hst := h2.array
  obtain ⟨S', b1, b2⟩ := makeView_boundGet hv
  have hn := bindSlices_rows hu a4 b1
  have ht : trivialStrides L none S' = true := by rw [← trivialStrides_norm, ← hn, trivialStrides_norm, a5]
  have hw' : ∀ l : List Nat, withoutInts L S l = withoutInts L S' l := fun l => by
    unfold withoutInts
    rw [← integralCount_norm S, hn, integralCount_norm]
  have hshape : withoutInts L S w.c.shape = selShape w.c.shape gh.us := by
    rw [hw', withoutInts_shape hL b2 ht (.inl rfl)]
  refine ⟨?_, fun idx hi => ?_⟩
  · show toInts (withoutInts w.c.L S w.c.shape) = _
    rw [hst.static, hshape]
  · obtain ⟨S'', d1, d2⟩ := C18_view_element_no_newaxis w.c.shape gh.us hv a2
    have hSS : S' = S'' := by rw [b1] at d1; cases d1; rfl
    subst hSS
    obtain ⟨d3, p, d4, d5⟩ := d2 idx hi []
    rw [List.nil_append, ← keptAccess_eq, ← keptAccess_norm, ← hn, keptAccess_norm] at d3
    refine ⟨p, d4, d5, ?_, elem_ne_none hst.consistent d4⟩
    have hl : (withoutInts w.c.L S w.c.shape).length = (viewShape w.c.shape S').length := by
      rw [hst.static, hshape, viewShape_eq b2.bound]
      simp [toInts]
    show atPos w.c ((keptAccess S (withoutInts w.c.L S w.c.shape).length (toInts idx)).map (dataOffset w.c.strides false)) = _
    rw [hl, d3, d5]
    rfl

theorem boundGet_alls (n : Nat) : ∀ {sh : List Nat} {S : List Sl}, BoundGet sh (List.replicate n .all) S → ∀ s ∈ S, s.isAll = true := by
  induction n with
  | zero =>
    intro sh S h
    cases h
    simp
  | succ n ih =>
    intro sh S h
    rw [List.replicate_succ] at h
    cases h with
    | cons hu hg hs h =>
      cases hg
      intro s hm
      rcases List.mem_cons.1 hm with rfl | hm
      · rfl
      · exact ih h s hm

theorem boundGet_rows (n : Nat) (is : List Int) : ∀ {sh : List Nat} {S : List Sl},
    BoundGet sh (is.map .int ++ List.replicate n .all) S → contigRow true false false S = true ∧ S.any Sl.isRange = false := by
  induction is with
  | nil =>
    intro sh S h
    have ha := boundGet_alls n h
    refine ⟨?_, ?_⟩
    · cases S with
      | nil => rfl
      | cons s S =>
        have h1 := ha s (by simp)
        simp only [contigRow, h1, Bool.false_or, if_true, Bool.and_self]
        exact (contigRow_allSeen _ S).2 fun s hs => ha s (by simp [hs])
    · rw [List.any_eq_false]
      intro s hs
      rw [isAll_not_range (ha s hs)]
      simp
  | cons i is ih =>
    intro sh S h
    rw [List.map_cons, List.cons_append] at h
    cases h with
    | cons hu hg hs h =>
      cases hg
      obtain ⟨h1, h2⟩ := ih h
      exact ⟨h1, by rw [List.any_cons, h2]; rfl⟩

/-- Rows of a row-major array are such views. -/
theorem C104_rows (g : FCfg α) {w : KWorld α} (h : KStatic .row_major w.c) (is : List Int) (n : Nat)
    (hv : SlicesValid w.c.shape (is.map .int ++ List.replicate n .all)) :
    ∃ S o, (KEvent.view (is.map .int ++ List.replicate n .all)).run g w = .ok ⟨w.c, w.views ++ [.c S o]⟩ := by
  obtain ⟨S, h1, h2⟩ := makeView_boundGet hv
  have ht : trivialStrides .row_major none S = true := by
    obtain ⟨h3, h4⟩ := boundGet_rows n is h2
    show (contigRow true false false S && !S.any Sl.isRange) = true
    rw [h3, h4]
    rfl
  refine ⟨S, viewDataOffset w.c.strides 0 S, ?_⟩
  simp only [KEvent.run, h1, h.static, ht, if_true]

/-! ## What goes wrong -/

theorem row_strides_two (n : Nat) :
    ((computeStrides .row_major .row_major [2, n]).1) = [(n : Int), if n = 1 then 0 else 1] := by
  simp [computeStrides, rowStrides, adaptStride]

theorem one_stride {L : Layout} (hL : L = .row_major ∨ L = .column_major) (k : Nat) :
    (computeStrides L L [k]).1 = [if k = 1 then 0 else 1] := by
  rcases hL with rfl | rfl <;> simp [computeStrides, rowStrides, colStrides, adaptStride]

theorem atPos_outside {c : Cont α} {n : Nat} (h : c.storage.length ≤ n) : atPos c (some (n : Int)) = none := by
  show (if (n : Int) < 0 then none else c.storage[(n : Int).toNat]?) = none
  rw [if_neg (by omega)]
  exact List.getElem?_eq_none (by omega)

/-- The strides of a view are kept once they were asked for: if the array had another shape then, they stay wrong when the array
has its shape again (the positions agree only if `p = q`).  The view of the second column finds it by element access, and through
`strides()` its second element is somewhere else, possibly outside of the storage. -/
theorem C104_lazy_wrong (g : FCfg α) (hf : ∀ n, (g.fresh n).length = n) {p q : Nat} (hp : 1 < p) (hq : 1 < q)
    {c : Cont α} (h : KStatic .row_major c) (hs : c.shape = [2, p]) :
    ∃ w' v, kRun g [.view [.all, .int 1], .resize [2, q] false, .ask 0, .resize [2, p] false] ⟨c, []⟩ = some w' ∧
      KStatic .row_major w'.c ∧ w'.c.shape = [2, p] ∧ w'.views = [v] ∧
      keptPos w'.c v [1] = some ((p + 1 : Nat) : Int) ∧ keptDataPos w'.c v [1] = ((q + 1 : Nat) : Int) ∧
      (2 * p ≤ q + 1 → ¬ Shows w'.c v ⟨[2, p], [.all, .int 1]⟩) := by
  obtain ⟨c1, a1, a2, a3, -⟩ := kResize_spec (.inl rfl) hf g.d h [2, q] false
  obtain ⟨c2, b1, b2, b3, -⟩ := kResize_spec (.inl rfl) hf g.d a2 [2, p] false
  have hv : makeView [2, p] [.all, .int 1] = .ok [.all 2, .int 1] := rfl
  have hsh : viewShape [2, p] [.all 2, .int 1] = [2] := rfl
  have ht : trivialStrides .row_major none [.all 2, .int 1] = false := rfl
  have st1 : c1.strides = [(q : Int), 1] := by
    rw [a2.strides_eq (p := [0, 0]) (by rw [a3]; exact ⟨by omega, by omega, trivial⟩), a3, row_strides_two, if_neg (by omega)]
  have st2 : c2.strides = [(p : Int), 1] := by
    rw [b2.strides_eq (p := [0, 0]) (by rw [b3]; exact ⟨by omega, by omega, trivial⟩), b3, row_strides_two, if_neg (by omega)]
  obtain ⟨d, hd⟩ : ∃ d, d = keptData c1 [.all 2, .int 1] [2] none := ⟨_, rfl⟩
  have hd' : d = ([(q : Int)], 1) := by
    rw [hd]
    show (keptStrides c1 [.all 2, .int 1] [2], viewDataOffset c1.strides 0 [.all 2, .int 1]) = _
    unfold keptStrides
    rw [st1, a3]
    simp [viewDataOffset, viewOffsetLoop, Sl.value, integralCount, integralSkip, skipImpl, Sl.isInt, newaxisCountBefore, Sl.isNew, Sl.stepSize, List.range_succ]
  have hrun : kRun g [.view [.all, .int 1], .resize [2, q] false, .ask 0, .resize [2, p] false] ⟨c, []⟩ =
      some ⟨c2, [.x [.all 2, .int 1] [2] (some d)]⟩ := by
    simp only [kRun, KEvent.run, hs, hv, hsh, h.static, ht, Bool.false_eq_true, if_false, List.nil_append, a1, b1, KWorld.lift,
      List.getElem?_cons_zero, List.set_cons_zero, hd]
  have e1 : keptPos c2 (.x [.all 2, .int 1] [2] (some d)) [1] = some ((p + 1 : Nat) : Int) := by
    have h1 : keptAccess [.all 2, .int 1] 1 [1] = some [1, 1] := rfl
    show (keptAccess [.all 2, .int 1] 1 [1]).map (dataOffset c2.strides false) = _
    rw [h1, st2]
    show some (dataOffset [(p : Int), 1] false [1, 1]) = _
    rw [dataOffset_eq _ _ (by rfl)]
    simp [dot]
  have e2 : keptDataPos c2 (.x [.all 2, .int 1] [2] (some d)) [1] = ((q + 1 : Nat) : Int) := by
    show d.2 + dot d.1 [1] = _
    rw [hd']
    simp [dot]
    omega
  refine ⟨_, _, hrun, b2, b3, rfl, e1, e2, fun hle hS => ?_⟩
  obtain ⟨pidx, -, -, -, h4, h5⟩ := hS.2 [1] ⟨by simp [axisSel], trivial⟩
  have h6 := h5 (by intro u hu; simp at hu; rcases hu with rfl | rfl <;> simp)
  apply h4
  rw [← h6]
  show atPos c2 (some (keptDataPos c2 _ [1])) = none
  rw [e2]
  apply atPos_outside
  rw [b2.consistent.storage_size, b3]
  simp [numel]
  omega

/-- A contiguous view has the current shape and strides of the array and the offset of the time when it was built: the second row
of a `2×p` array that now is `2×q` has `q` elements, is found by element access, and does not begin at `data_offset()`. -/
theorem C104_offset_wrong (g : FCfg α) (hf : ∀ n, (g.fresh n).length = n) {p q : Nat} (hp : 0 < p) (hq : 0 < q)
    {c : Cont α} (h : KStatic .row_major c) (hs : c.shape = [2, p]) :
    ∃ w' v, kRun g [.view [.int 1, .all], .resize [2, q] false] ⟨c, []⟩ = some w' ∧ w'.c.shape = [2, q] ∧ w'.views = [v] ∧
      keptShape w'.c v = [(q : Int)] ∧ keptPos w'.c v [0] = some (q : Int) ∧ keptDataPos w'.c v [0] = (p : Int) := by
  obtain ⟨c1, a1, a2, a3, -⟩ := kResize_spec (.inl rfl) hf g.d h [2, q] false
  have hv : makeView [2, p] [.int 1, .all] = .ok [.int 1, .all p] := rfl
  have ht : trivialStrides .row_major none [.int 1, .all p] = true := rfl
  have st0 : c.strides = [(p : Int), if p = 1 then 0 else 1] := by
    rw [h.strides_eq (p := [0, 0]) (by rw [hs]; exact ⟨by omega, hp, trivial⟩), hs, row_strides_two]
  have st1 : c1.strides = [(q : Int), if q = 1 then 0 else 1] := by
    rw [a2.strides_eq (p := [0, 0]) (by rw [a3]; exact ⟨by omega, hq, trivial⟩), a3, row_strides_two]
  have ho : viewDataOffset c.strides 0 [.int 1, .all p] = (p : Int) := by
    rw [st0]
    simp [viewDataOffset, viewOffsetLoop, Sl.value]
  have hrun : kRun g [.view [.int 1, .all], .resize [2, q] false] ⟨c, []⟩ = some ⟨c1, [.c [.int 1, .all p] (p : Int)]⟩ := by
    simp only [kRun, KEvent.run, hs, hv, h.static, ht, if_true, ho, List.nil_append, a1, KWorld.lift]
  refine ⟨_, _, hrun, a3, rfl, ?_, ?_, ?_⟩
  · show toInts (withoutInts c1.L _ c1.shape) = _
    rw [a2.static, a3]
    rfl
  · show (keptAccess _ (withoutInts c1.L _ c1.shape).length [0]).map (dataOffset c1.strides false) = _
    rw [a2.static, a3]
    have h1 : keptAccess [.int 1, .all p] (withoutInts .row_major [.int 1, .all p] [2, q]).length [0] = some [1, 0] := rfl
    rw [h1, st1]
    show some (dataOffset [(q : Int), if q = 1 then 0 else 1] false [1, 0]) = _
    rw [dataOffset_eq _ _ (by rfl)]
    simp [dot]
  · show (p : Int) + dot (withoutInts c1.L _ c1.strides) [0] = _
    rw [a2.static, st1]
    show (p : Int) + dot [if q = 1 then 0 else 1] [0] = _
    simp [dot]

/-- Resizing the array does not resize other views: their shape is that of the time when they were built, and beyond the new end
they refer to no element — `view(a, all())` of a column-major and `strided_view(a, {all()})` of any array of `n` elements that now
has `m`. -/
theorem C104_resized_wrong {L : Layout} (hL : L = .row_major ∨ L = .column_major) (g : FCfg α) (hf : ∀ n, (g.fresh n).length = n)
    {n m : Nat} (hnm : n ≠ m) {c : Cont α} (h : KStatic L c) (hs : c.shape = [n]) :
    ∃ w' v v', kRun g [.view [.all], .strided [.all], .resize [m] false] ⟨c, []⟩ = some w' ∧ w'.c.shape = [m] ∧
      w'.views = [v, v'] ∧ toInts (selShape w'.c.shape [.all]) = [(m : Int)] ∧
      keptShape w'.c v' = [(n : Int)] ∧ (m < n → atPos w'.c (keptPos w'.c v' [(m : Int)]) = none) ∧
      (L = .column_major → keptShape w'.c v = [(n : Int)] ∧
        (m < n → m ≠ 1 → atPos w'.c (keptPos w'.c v [(m : Int)]) = none)) := by
  obtain ⟨c1, a1, a2, a3, -⟩ := kResize_spec hL hf g.d h [m] false
  have hv : makeView [n] [.all] = .ok [.all n] := rfl
  have hsh : viewShape [n] [.all n] = [(n : Int)] := rfl
  have hlen := Consistent.strides_length h.consistent
  obtain ⟨v, d1, d2, d3, -⟩ := C20_strided_view_partial [n] c.strides 0 c.layout [.all] (by rw [hlen, hs]) (by decide) ⟨trivial, trivial⟩
    (by intro u hu; simp at hu; subst hu; simp) (by intro k hk; simp at hk)
  have hsel : ∀ k : Nat, selShape [k] [.all] = [k] := fun k => by simp [selShape, axisSel]
  have hex : expandEllipsis [n].length [.all] = [.all] := rfl
  rw [hex, hsel] at d2
  obtain ⟨vx, hvx⟩ : ∃ vx : Kept, vx = if trivialStrides L none [.all n] then .c [.all n] (viewDataOffset c.strides 0 [.all n])
    else .x [.all n] [(n : Int)] none := ⟨_, rfl⟩
  have hrun : kRun g [.view [.all], .strided [.all], .resize [m] false] ⟨c, []⟩ = some ⟨c1, [vx, .s v]⟩ := by
    simp only [kRun, KEvent.run, hs, hv, hsh, h.static, d1, List.nil_append, List.cons_append, a1, KWorld.lift, hvx]
  have hlen1 : c1.strides.length = 1 := by rw [Consistent.strides_length a2.consistent, a3]; rfl
  have hst : c1.storage.length = m := by rw [a2.consistent.storage_size, a3]; simp [numel]
  refine ⟨_, vx, .s v, hrun, a3, rfl, ?_, d2, fun hlt => ?_, fun hc => ?_⟩
  · show toInts (selShape c1.shape [.all]) = _
    rw [a3, hsel]
    rfl
  · have h1 := (d3 [m] ⟨by simpa [hex, axisSel] using hlt, trivial⟩).1
    have h2 : selIndex [n] (expandEllipsis [n].length [.all]) [m] = [(m : Int)] := by
      rw [hex]
      simp [selIndex, axisSel, List.getD_eq_getElem?_getD, hlt, toInts]
    have h3 := h.strides_eq (p := [0]) (by rw [hs]; exact ⟨by omega, trivial⟩)
    rw [hs, one_stride hL] at h3
    rw [h2, h3] at h1
    show atPos c1 (some (v.index [(m : Int)])) = none
    have h4 : v.index [(m : Int)] = (m : Int) := by
      refine h1.trans ?_
      by_cases hn : n = 1
      · have : m = 0 := by omega
        subst this
        simp [dot]
      · simp [dot, hn]
    rw [h4]
    exact atPos_outside (by omega)
  · subst hc
    have : vx = .x [.all n] [(n : Int)] none := hvx
    subst this
    refine ⟨rfl, fun hlt h1 => ?_⟩
    show atPos c1 (some (dataOffset c1.strides false [(m : Int)])) = none
    rw [dataOffset_eq _ _ (by rw [hlen1]; rfl)]
    have h2 : dot c1.strides [(m : Int)] = (m : Int) := by
      by_cases h0 : m = 0
      · subst h0
        match c1.strides, hlen1 with
        | [x], _ => simp [dot]
      · rw [a2.strides_eq (p := [0]) (by rw [a3]; exact ⟨by omega, trivial⟩), a3, one_stride hL]
        simp [dot, h1]
    rw [h2]
    exact atPos_outside (by omega)

/-- Between two shapes with the same number of elements the two kinds of views differ: the column of a row-major `2×3` array,
reshaped to `3×2`: the `xview` uses the new strides and finds the elements of the new column, the strided view those of the old
one. -/
theorem C104_reshaped_wrong :
    ∃ w' v v', kRun (⟨false, .row_major, fun n => List.replicate n 0, 0⟩ : FCfg Nat)
        [.view [.all, .int 1], .strided [.all, .int 1], .reshape [3, 2]]
        ⟨⟨.row_major, .row_major, [2, 3], [3, 1], [3, 2], [0, 1, 2, 3, 4, 5]⟩, []⟩ = some w' ∧ w'.c.shape = [3, 2] ∧
      w'.views = [v, v'] ∧ atPos w'.c (keptPos w'.c v [1]) = some 3 ∧ atPos w'.c (keptPos w'.c v' [1]) = some 4 :=
  ⟨⟨⟨.row_major, .row_major, [3, 2], [2, 1], [4, 1], [0, 1, 2, 3, 4, 5]⟩, _⟩, _, _, rfl, rfl, rfl, by decide, by decide⟩

/-! ## Examples -/

/-- A history: two views of a `2×3` array, one element written through each; a resize, another view, an assignment, and the shape
comes back. -/
example : ∃ w', kRun (⟨false, .row_major, fun n => List.replicate n 0, 0⟩ : FCfg Nat)
      [.view [.all, .int 1], .strided [.int 1, .ellipsis], .putView 0 [1] 40, .putView 1 [2] 50, .ask 0, .resize [4] false,
        .view [.all], .reshape [5], .assign [2, 3] (fun i => i.foldl (fun (a : Nat) x => 10 * a + x) 0)]
      ⟨⟨.row_major, .row_major, [2, 3], [3, 1], [3, 2], [0, 1, 2, 3, 4, 5]⟩, []⟩ = some w' ∧
    w'.c.storage = [0, 1, 2, 10, 11, 12] ∧ w'.views.map (fun v => atPos w'.c (keptPos w'.c v [1])) = [some 11, some 11, some 1] :=
  ⟨_, rfl, by decide, by decide⟩

example : KStatic .row_major (⟨.row_major, .row_major, [2, 3], [3, 1], [3, 2], [0, 1, 2, 3, 4, 5]⟩ : Cont Nat) :=
  ⟨rfl, rfl, Consistent.of_computed .row_major .row_major [2, 3] [0, 1, 2, 3, 4, 5] rfl⟩

/-- The hypotheses of `C104_kept_partial` for a history with a view, a write through it, a resize and an assignment. -/
example : KHistory (⟨false, .row_major, fun n => List.replicate n 0, 0⟩ : FCfg Nat) .row_major
    [.view [.all, .int 1], .ask 0, .putView 0 [1] 40, .resize [4] false, .put [3] 7, .assign [2, 3] (fun _ => 1)]
    ⟨⟨.row_major, .row_major, [2, 3], [3, 1], [3, 2], [0, 1, 2, 3, 4, 5]⟩, []⟩ [] := by
  refine ⟨⟨by decide, by decide, by decide⟩, fun w1 h1 => ?_⟩
  rcases h1 with h1 | h1 <;> cases h1
  refine ⟨⟨_, rfl, rfl⟩, fun w2 h2 => ?_⟩
  rcases h2 with h2 | h2 <;> cases h2
  refine ⟨⟨_, rfl, rfl, by decide⟩, fun w3 h3 => ?_⟩
  rcases h3 with h3 | h3 <;> cases h3
  refine ⟨trivial, fun w4 h4 => ?_⟩
  rcases h4 with h4 | h4 <;> cases h4
  refine ⟨by show InBounds [4] [3]; decide, fun w5 h5 => ?_⟩
  rcases h5 with h5 | h5 <;> cases h5
  exact ⟨trivial, fun _ _ => trivial⟩

/-- `C104_follows`: the second row of an array that was resized. -/
example : ∃ w', kRun (⟨false, .row_major, fun n => List.range n, 0⟩ : FCfg Nat) [.view [.int 1, .all], .resize [3, 4] false]
      ⟨⟨.row_major, .row_major, [2, 3], [3, 1], [3, 2], [0, 1, 2, 3, 4, 5]⟩, []⟩ = some w' ∧
    w'.views = [.c [.int 1, .all 3] 3] ∧ keptShape w'.c (.c [.int 1, .all 3] 3) = [4] ∧ SlicesValid w'.c.shape [.int 1, .all] ∧
    atPos w'.c (keptPos w'.c (.c [.int 1, .all 3] 3) [2]) = some 6 :=
  ⟨_, rfl, by decide, by decide, by decide, by decide⟩

end Xt
