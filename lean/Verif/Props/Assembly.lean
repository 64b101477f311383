import Verif.Model.Assembly
import Verif.Props.Container
import Verif.Props.Braces
import Verif.Props.Broadcast
import Verif.Props.Indexing
/-!
# C79: an assembly of values and flags is one container
-/

namespace Xt
open Spec

variable {α : Type}

/-- The two halves agree in everything but what they hold. -/
structure Spec.Lockstep (a : Asm α) : Prop where
  static : a.v.L = a.f.L
  layout : a.v.layout = a.f.layout
  shape : a.v.shape = a.f.shape
  strides : a.v.strides = a.f.strides
  backstr : a.v.backstr = a.f.backstr
  size : a.v.storage.length = a.f.storage.length

/-- Every element is a value and a flag held at the same place of the two storages: `slot` maps the indices of the
assembly one-to-one onto the places. -/
structure Spec.Paired (a : Asm α) (slot : List Nat → Nat) : Prop where
  sizes : a.v.storage.length = a.f.storage.length
  inside : ∀ idx, InBounds a.v.shape idx → slot idx < a.v.storage.length
  injective : ∀ i j, InBounds a.v.shape i → InBounds a.v.shape j → slot i = slot j → i = j
  onto : ∀ p, p < a.v.storage.length → ∃ idx, InBounds a.v.shape idx ∧ slot idx = p
  element : ∀ idx, InBounds a.v.shape idx → ∃ x b, a.v.storage[slot idx]? = some x ∧ a.f.storage[slot idx]? = some b ∧
    a.get (toInts idx) = .ok (if b then some x else none)

/-! ## Lockstep -/

/-- A container without its contents. -/
def Cont.skel {β : Type} (c : Cont β) : Cont Unit :=
  ⟨c.L, c.layout, c.shape, c.strides, c.backstr, List.replicate c.storage.length ()⟩

/-- An outcome without contents. -/
def Out.skel {β : Type} : Out (Cont β) → Out (Cont Unit)
  | .ok c => .ok c.skel
  | .throws c => .throws c.skel
  | .ub => .ub

theorem resizeStorage_skel {β : Type} (fresh : Nat → List β) (hf : ∀ n, (fresh n).length = n) (s : List β) (n : Nat) :
    List.replicate (Cont.resizeStorage fresh s n).length () =
      Cont.resizeStorage (fun n => List.replicate n ()) (List.replicate s.length ()) n := by
  unfold Cont.resizeStorage
  by_cases h : n = s.length
  · simp [h]
  · simp [h, hf]

theorem run_skel {β : Type} (d : Layout) (fresh : Nat → List β) (hf : ∀ n, (fresh n).length = n) (c : Cont β) (o : Op) :
    (o.run d fresh c).skel = o.run d (fun n => List.replicate n ()) c.skel := by
  have hsz : c.skel.size = c.size := by simp [Cont.size, Cont.skel]
  have e1 : c.skel.L = c.L := rfl
  have e2 : c.skel.shape = c.shape := rfl
  have e3 : c.skel.layout = c.layout := rfl
  cases o with
  | resize sh f =>
    simp only [Op.run, Cont.resize, e1, e2, e3]
    split
    · simp [Out.skel, Cont.skel, resizeStorage_skel fresh hf]
    · rfl
  | resizeLayout sh l =>
    simp only [Op.run, Cont.resizeLayout, e1]
    split
    · rfl
    · simp [Out.skel, Cont.skel, Cont.resize, resizeStorage_skel fresh hf]
  | resizeStrides sh st =>
    simp only [Op.run, Cont.resizeStrides, e1]
    split
    · rfl
    · simp [Out.skel, Cont.skel, resizeStorage_skel fresh hf]
  | reshapeU sh l =>
    simp only [Op.run, Cont.reshapeUnsigned, e1, hsz]
    generalize (if c.L = .dynamic ∧ l = .dynamic then d else l) = l'
    split
    · rfl
    · split <;> rfl
  | reshapeS sh l =>
    simp only [Op.run, Cont.reshapeSigned, e1, hsz]
    split
    · rfl
    · split
      · rfl
      · split <;> rfl

theorem lockstep_iff (a : Asm α) : Lockstep a ↔ a.v.skel = a.f.skel := by
  constructor
  · rintro ⟨h1, h2, h3, h4, h5, h6⟩
    simp only [Cont.skel, h1, h2, h3, h4, h5, h6]
  · intro h
    simp only [Cont.skel, Cont.mk.injEq] at h
    obtain ⟨h1, h2, h3, h4, h5, h6⟩ := h
    refine ⟨h1, h2, h3, h4, h5, ?_⟩
    simpa using congrArg List.length h6

/-- C79: every `resize` and `reshape` of an assembly whose halves agree — custom strides and signed extents included —
either succeeds on both halves, which agree again, or throws and changes neither. -/
theorem C79_lockstep (d : Layout) (fv : Nat → List α) (ff : Nat → List Bool) (hv : ∀ n, (fv n).length = n)
    (hf : ∀ n, (ff n).length = n) (a : Asm α) (h : Lockstep a) (o : Op) :
    (∀ a', a.run d fv ff o = .ok a' → Lockstep a') ∧ (∀ a', a.run d fv ff o = .throws a' → a' = a) ∧
    (a.run d fv ff o = .ub → o.run d fv a.v = .ub) := by
  have hs := (lockstep_iff a).mp h
  have h1 := run_skel d fv hv a.v o
  have h2 := run_skel d ff hf a.f o
  rw [hs, ← h2] at h1
  cases hx : o.run d fv a.v with
  | ok c =>
    cases hy : o.run d ff a.f with
    | ok g =>
      rw [hx, hy] at h1
      simp only [Out.skel, Out.ok.injEq] at h1
      simp only [Asm.run, Asm.both, hx, hy]
      refine ⟨?_, by simp, by simp⟩
      rintro a' ⟨⟩
      exact (lockstep_iff _).mpr h1
    | throws g => rw [hx, hy] at h1; simp [Out.skel] at h1
    | ub => rw [hx, hy] at h1; simp [Out.skel] at h1
  | throws c =>
    simp only [Asm.run, Asm.both, hx]
    refine ⟨by simp, ?_, by simp⟩
    rintro a' ⟨⟩
    rw [C14_throw_changes_nothing d fv a.v o c hx]
  | ub =>
    simp [Asm.run, Asm.both, hx]

/-- C79: the halves agree after any history of such calls, exceptions caught. -/
theorem C79_history (d : Layout) (fv : Nat → List α) (ff : Nat → List Bool) (hv : ∀ n, (fv n).length = n)
    (hf : ∀ n, (ff n).length = n) (a a' : Asm α) (h : Lockstep a) (ops : List Op) (hr : runAsm d fv ff a ops = some a') :
    Lockstep a' ∧ runOps d fv a.v ops = some a'.v := by
  induction ops generalizing a with
  | nil => simp only [runAsm, Option.some.injEq] at hr; subst hr; exact ⟨h, rfl⟩
  | cons o os ih =>
    obtain ⟨k1, k2, -⟩ := C79_lockstep d fv ff hv hf a h o
    simp only [runAsm] at hr
    cases hx : a.run d fv ff o with
    | ub => simp [hx] at hr
    | ok b =>
      simp only [hx] at hr
      have := ih b (k1 b hx) hr
      refine ⟨this.1, ?_⟩
      simp only [Asm.run, Asm.both] at hx
      cases hy : o.run d fv a.v with
      | ub => simp [hy] at hx
      | throws c => simp [hy] at hx
      | ok c =>
        simp only [hy] at hx
        cases hz : o.run d ff a.f with
        | ub => simp [hz] at hx
        | throws c => simp [hz] at hx
        | ok g =>
          simp only [hz, Out.ok.injEq] at hx
          subst hx
          simp only [runOps, hy]; exact this.2
    | throws b =>
      simp only [hx] at hr
      have hb := k2 b hx
      have := ih b (hb ▸ h) hr
      refine ⟨this.1, ?_⟩
      simp only [Asm.run, Asm.both] at hx
      cases hy : o.run d fv a.v with
      | ub => simp [hy] at hx
      | throws c =>
        simp only [hy, Out.throws.injEq] at hx
        subst hx
        simp only [runOps, hy]; exact this.2
      | ok c =>
        simp only [hy] at hx
        cases hz : o.run d ff a.f with
        | ub => simp [hz] at hx
        | ok g => simp [hz] at hx
        | throws g =>
          exfalso
          have h1 := run_skel d fv hv a.v o
          rw [(lockstep_iff a).mp h, ← run_skel d ff hf a.f o, hy, hz] at h1
          simp [Out.skel] at h1

/-! ## Elements -/

theorem elem?_of_offset {β : Type} (c : Cont β) (args : List Int) (p : Nat) (h : dataOffset c.strides false args = p) :
    c.elem? args = c.storage[p]? := by
  simp only [Cont.elem?, h]
  rw [if_neg (by omega)]; rfl

/-- C79: in an assembly whose halves agree and whose strides are those of its layout every element is a value and a flag
at one place, the same in both storages, and these places are the storages. -/
theorem C79_elements (a : Asm α) (h : Lockstep a) (hc : Consistent a.v) :
    Paired a fun idx => (dataOffset a.v.strides false (toInts idx)).toNat := by
  obtain ⟨k1, k2, k3⟩ := Consistent.addressable hc
  refine ⟨h.size, ?_, ?_, ?_, ?_⟩
  · intro idx hi; have := k1 idx hi; omega
  · intro i j hi hj e
    have h1 := k1 i hi; have h2 := k1 j hj
    exact k2 i j hi hj (by omega)
  · intro p hp
    obtain ⟨idx, hi, e⟩ := k3 p hp
    exact ⟨idx, hi, by simp [e]⟩
  · intro idx hi
    have h1 := k1 idx hi
    have hp : (dataOffset a.v.strides false (toInts idx)).toNat < a.v.storage.length := by omega
    have hq : (dataOffset a.v.strides false (toInts idx)).toNat < a.f.storage.length := by rw [← h.size]; exact hp
    refine ⟨_, _, List.getElem?_eq_getElem hp, List.getElem?_eq_getElem hq, ?_⟩
    have e1 := elem?_of_offset a.v (toInts idx) (dataOffset a.v.strides false (toInts idx)).toNat (by omega)
    have e2 := elem?_of_offset a.f (toInts idx) (dataOffset a.v.strides false (toInts idx)).toNat (by rw [← h.strides]; omega)
    rw [Asm.get, e1, e2, List.getElem?_eq_getElem hp, List.getElem?_eq_getElem hq]
    rfl

/-- C79: `flat(i)`, `storage()[i]` and the linear iterators give the elements: place `slot idx` holds the element at
`idx`. -/
theorem C79_flat (a : Asm α) (slot : List Nat → Nat) (h : Paired a slot) :
    (∀ idx, InBounds a.v.shape idx → a.flat (slot idx) = a.get (toInts idx)) ∧
    (∀ p, p < a.v.storage.length → ∃ idx, InBounds a.v.shape idx ∧ a.flat p = a.get (toInts idx)) := by
  have key : ∀ idx, InBounds a.v.shape idx → a.flat (slot idx) = a.get (toInts idx) := by
    intro idx hi
    obtain ⟨x, b, h1, h2, h3⟩ := h.element idx hi
    rw [h3, Asm.flat, h1, h2]; rfl
  refine ⟨key, fun p hp => ?_⟩
  obtain ⟨idx, hi, e⟩ := h.onto p hp
  exact ⟨idx, hi, e ▸ key idx hi⟩

theorem Res.all_map_ok {β γ : Type} (l : List γ) (f : γ → Res β) (g : γ → β) (h : ∀ x ∈ l, f x = .ok (g x)) :
    Res.all (l.map f) = .ok (l.map g) := by
  induction l with
  | nil => rfl
  | cons x xs ih =>
    rw [List.map_cons, Res.all, h x (by simp), ih fun y hy => h y (by simp [hy])]
    rfl

theorem Consistent.place {c : Cont α} (h : Consistent c) {idx : List Nat} (hi : InBounds c.shape idx) :
    dataOffset c.strides false (toInts idx) =
      ((if c.L = .row_major ∨ c.layout = .row_major then rowRank c.shape idx else colRank c.shape idx : Nat) : Int) := by
  have hl := Consistent.strides_length h
  rw [dataOffset_eq _ _ (by simp [hi.length_eq, hl])]
  rcases h.strides with hs | ⟨n, h1, h2⟩
  · rw [contiguousStrides_iff] at hs
    rw [hs]
    split
    · rename_i hr; exact dot_computeStrides_row hr hi
    · rename_i hr; exact dot_computeStrides_col hr hi
  · cases n with
    | zero =>
      simp only [List.replicate_zero] at h1 h2
      rw [h1] at hi ⊢
      rw [h2]
      cases idx <;> simp_all [dot, rowRank, colRank, InBounds]
    | succ n =>
      have := hi.numel_pos
      rw [h1] at this; simp [List.replicate_succ] at this

/-- C79: iteration.  `begin<row_major>()` gives the elements in row-major order, the linear iterators in the order of
the layout. -/
theorem C79_iterate (a : Asm α) (h : Lockstep a) (hc : Consistent a.v) :
    ∃ e : List Nat → Option α, (∀ idx, InBounds a.v.shape idx → a.get (toInts idx) = .ok (e idx)) ∧
      a.each = .ok ((rowIndices a.v.shape).map e) ∧
      a.linear = .ok ((if a.v.L = .row_major ∨ a.v.layout = .row_major then rowIndices a.v.shape
        else colIndices a.v.shape).map e) := by
  have hp := C79_elements a h hc
  have he : ∀ idx, InBounds a.v.shape idx → ∃ o, a.get (toInts idx) = .ok o := fun idx hi => by
    obtain ⟨x, b, -, -, h3⟩ := hp.element idx hi; exact ⟨_, h3⟩
  let e : List Nat → Option α := fun idx => match a.get (toInts idx) with
    | .ok o => o
    | _ => none
  have hee : ∀ idx, InBounds a.v.shape idx → a.get (toInts idx) = .ok (e idx) := by
    intro idx hi
    obtain ⟨o, ho⟩ := he idx hi
    simp only [e, ho]
  refine ⟨e, hee, ?_, ?_⟩
  · exact Res.all_map_ok _ _ _ fun idx hi => hee idx (mem_rowIndices.mp hi)
  · have hfl := (C79_flat a _ hp).1
    rw [Asm.linear, hc.storage_size]
    by_cases hr : a.v.L = .row_major ∨ a.v.layout = .row_major
    · rw [if_pos hr, ← map_rowRank_rowIndices, List.map_map]
      apply Res.all_map_ok
      intro idx hi
      have hi := mem_rowIndices.mp hi
      have := hfl idx hi
      rw [Consistent.place hc hi, if_pos hr] at this
      rw [← hee idx hi, ← this]; rfl
    · rw [if_neg hr, ← map_colRank_colIndices, List.map_map]
      apply Res.all_map_ok
      intro idx hi
      have hi := mem_colIndices.mp hi
      have := hfl idx hi
      rw [Consistent.place hc hi, if_neg hr] at this
      rw [← hee idx hi, ← this]; rfl

/-- C79: `at` throws exactly where the same call on the values does, and otherwise is `operator()`. -/
theorem C79_at (a : Asm α) (h : a.v.shape = a.f.shape) (args : List Int) (v : Option α)
    (hok : a.get args = .ok v) : a.at args = if checkAccess a.v.shape false args then .ok v else .throws := by
  rw [Asm.at, ← h]
  by_cases hc : checkAccess a.v.shape false args = true
  · simp only [hc]
    simpa [Asm.get] using hok
  · simp [hc]

/-! ## Writing -/

theorem put_spec {β : Type} (c : Cont β) (hc : Addressable c) (i : List Nat) (hi : InBounds c.shape i) (x : β) :
    ∃ s, c.put (toInts i) x = .ok { c with storage := s } ∧ s.length = c.storage.length ∧
      ∀ j, InBounds c.shape j → Cont.elem? { c with storage := s } (toInts j) =
        if j = i then some x else c.elem? (toInts j) := by
  have h1 := hc.inside i hi
  refine ⟨c.storage.set (dataOffset c.strides false (toInts i)).toNat x, ?_, by simp, ?_⟩
  · rw [Cont.put, writeAt, if_pos h1]; rfl
  · intro j hj
    have h2 := hc.inside j hj
    rw [elem?_of_offset _ _ (dataOffset c.strides false (toInts j)).toNat (by simp only; omega),
      elem?_of_offset c _ (dataOffset c.strides false (toInts j)).toNat (by omega)]
    simp only [List.getElem?_set]
    by_cases hij : j = i
    · subst hij
      rw [if_pos rfl, if_pos (by omega), if_pos rfl]
    · rw [if_neg, if_neg hij]
      intro e
      exact hij (hc.injective j i hj hi (by omega))

/-- C79: assigning an optional to an element changes that element and no other — also when the halves differ in
layout. -/
theorem C79_write (a : Asm α) (hs : a.v.shape = a.f.shape) (hv : Consistent a.v) (hf : Consistent a.f) (i : List Nat)
    (hi : InBounds a.v.shape i) (x : α) (b : Bool) :
    ∃ a', a.put (toInts i) x b = .ok a' ∧ a'.v.shape = a.v.shape ∧ a'.f.shape = a.f.shape ∧
      (Lockstep a → Lockstep a') ∧
      ∀ j, InBounds a.v.shape j → a'.get (toInts j) =
        if j = i then .ok (if b then some x else none) else a.get (toInts j) := by
  obtain ⟨s, h1, h2, h3⟩ := put_spec a.v (Consistent.addressable hv) i hi x
  obtain ⟨t, k1, k2, k3⟩ := put_spec a.f (Consistent.addressable hf) i (hs ▸ hi) b
  refine ⟨⟨{ a.v with storage := s }, { a.f with storage := t }⟩, ?_, rfl, rfl, ?_, ?_⟩
  · rw [Asm.put, h1, Res.bind_ok, k1]; rfl
  · rintro ⟨l1, l2, l3, l4, l5, l6⟩
    exact ⟨l1, l2, l3, l4, l5, by rw [h2, k2]; exact l6⟩
  · intro j hj
    rw [Asm.get, h3 j hj, k3 j (hs ▸ hj)]
    by_cases e : j = i
    · simp only [if_pos e]; rfl
    · simp only [if_neg e]; rfl

theorem writeAll_range {β : Type} (s : List β) (x : β) :
    writeAll s ((List.range s.length).map fun (i : Nat) => ((i : Int), x)) = .ok (List.replicate s.length x) := by
  obtain ⟨b, h1, h2, -, h4⟩ := writeAll_spec ((List.range s.length).map fun (i : Nat) => ((i : Int), x)) s (by
    intro w hw
    simp only [List.mem_map, List.mem_range] at hw
    obtain ⟨i, hi, rfl⟩ := hw
    simp only; omega)
  rw [h1]
  congr 1
  apply List.ext_getElem?
  intro q
  by_cases hq : q < s.length
  · rw [h4 q x ⟨((q : Int), x), by simp; exact hq, rfl⟩ (by
      intro w hw _
      simp only [List.mem_map, List.mem_range] at hw
      obtain ⟨i, hi, rfl⟩ := hw; rfl)]
    simp [hq]
  · rw [List.getElem?_eq_none (by omega), List.getElem?_eq_none (by simp; omega)]

/-- C79: `fill` makes every element the given optional. -/
theorem C79_fill (a : Asm α) (h : Lockstep a) (hc : Consistent a.v) (x : α) (b : Bool) :
    ∃ a', a.fill x b = .ok a' ∧ Lockstep a' ∧ a'.v.shape = a.v.shape ∧
      ∀ idx, InBounds a.v.shape idx → a'.get (toInts idx) = .ok (if b then some x else none) := by
  refine ⟨⟨{ a.v with storage := List.replicate a.v.storage.length x },
    { a.f with storage := List.replicate a.f.storage.length b }⟩, ?_, ?_, rfl, ?_⟩
  · rw [Asm.fill, writeAll_range, h.size, writeAll_range]; rfl
  · exact ⟨h.static, h.layout, h.shape, h.strides, h.backstr, by simp [h.size]⟩
  · intro idx hi
    have h1 := (Consistent.addressable hc).inside idx hi
    rw [Asm.get, elem?_of_offset _ _ (dataOffset a.v.strides false (toInts idx)).toNat (by simp only; omega),
      elem?_of_offset _ _ (dataOffset a.v.strides false (toInts idx)).toNat (by simp only [← h.strides]; omega)]
    simp only [List.getElem?_replicate, ← h.size]
    rw [if_pos (by omega), if_pos (by omega)]; rfl

/-! ## Construction -/

theorem contOfShape_cases {β : Type} (d : Layout) (fresh : Nat → List β) (hf : ∀ n, (fresh n).length = n) (L : Layout)
    (n : Nat) (v : β) (sh : List Nat) (l : Layout) :
    (L ≠ .dynamic ∧ l ≠ L ∧ contOfShape d fresh L n v sh l = .throws) ∨
    (¬ (L ≠ .dynamic ∧ l ≠ L) ∧ ∃ c, contOfShape d fresh L n v sh l = .ok c ∧ Consistent c ∧ c.shape = sh ∧ c.L = L) := by
  by_cases hc : L ≠ .dynamic ∧ l ≠ L
  · left
    refine ⟨hc.1, hc.2, ?_⟩
    simp [contOfShape, Cont.resizeLayout, Cont.default, hc.1, hc.2]
  · right
    refine ⟨hc, ?_⟩
    have hs := step_consistent d hf (default_consistent L n v) (.resizeLayout sh l) trivial
    have e : (Op.resizeLayout sh l).run d fresh (Cont.default L n v) =
        (Cont.default L n v).resizeLayout d fresh true sh l := rfl
    rw [e] at hs
    have : ∃ c, (Cont.default L n v).resizeLayout d fresh true sh l = .ok c ∧ c.shape = sh := by
      rw [Cont.resizeLayout, if_neg (by simpa [Cont.default] using hc)]
      simp [Cont.resize]
    obtain ⟨c, h1, h2⟩ := this
    rw [h1] at hs
    exact ⟨c, by simp [contOfShape, h1], hs.1, h2, by rw [hs.2]; rfl⟩

theorem contOfShape_skel {β γ : Type} (d : Layout) (fb : Nat → List β) (fg : Nat → List γ) (hb : ∀ n, (fb n).length = n)
    (hg : ∀ n, (fg n).length = n) (L : Layout) (n : Nat) (x : β) (y : γ) (sh : List Nat) (l : Layout) (c : Cont β)
    (g : Cont γ) (h1 : contOfShape d fb L n x sh l = .ok c) (h2 : contOfShape d fg L n y sh l = .ok g) :
    c.skel = g.skel := by
  have e1 := run_skel d fb hb (Cont.default L n x) (.resizeLayout sh l)
  have e2 := run_skel d fg hg (Cont.default L n y) (.resizeLayout sh l)
  have e3 : (Cont.default L n x).skel = (Cont.default L n y).skel := by
    simp only [Cont.skel, Cont.default]
    cases n <;> simp
  rw [e3, ← e2] at e1
  simp only [contOfShape] at h1 h2
  simp only [Op.run] at e1
  cases hx : (Cont.default L n x).resizeLayout d fb true sh l with
  | throws _ => simp [hx] at h1
  | ub => simp [hx] at h1
  | ok c' =>
    cases hy : (Cont.default L n y).resizeLayout d fg true sh l with
    | throws _ => simp [hy] at h2
    | ub => simp [hy] at h2
    | ok g' =>
      simp only [hx, Res.ok.injEq] at h1
      simp only [hy, Res.ok.injEq] at h2
      subst h1; subst h2
      rw [hx, hy] at e1
      simpa [Out.skel] using e1

theorem map_const_skel {β : Type} (c : Cont β) (x : β) : Cont.skel { c with storage := c.storage.map fun _ => x } = c.skel := by
  simp [Cont.skel]

/-- C79: construction from a shape and an optional.  When the halves have the same static layout it throws for a layout
that does not fit it, and otherwise gives an assembly of that shape all of whose elements are the optional. -/
theorem C79_filled (d : Layout) (fv : Nat → List α) (ff : Nat → List Bool) (hv : ∀ n, (fv n).length = n)
    (hf : ∀ n, (ff n).length = n) (L : Layout) (n : Nat) (x : α) (b : Bool) (sh : List Nat) (l : Layout) :
    (L ≠ .dynamic ∧ l ≠ L → asmFilled d fv ff L L n x b sh l = .throws) ∧
    (¬ (L ≠ .dynamic ∧ l ≠ L) → ∃ a, asmFilled d fv ff L L n x b sh l = .ok a ∧ Lockstep a ∧ Consistent a.v ∧
      a.v.shape = sh ∧ ∀ idx, InBounds sh idx → a.get (toInts idx) = .ok (if b then some x else none)) := by
  rcases contOfShape_cases d fv hv L n x sh l with ⟨h1, h2, h3⟩ | ⟨h1, c, h2, h3, h4, h5⟩
  · refine ⟨fun _ => by simp [asmFilled, contFilled, h3], fun h => absurd ⟨h1, h2⟩ h⟩
  · refine ⟨fun h => absurd h h1, fun _ => ?_⟩
    rcases contOfShape_cases d ff hf L n b sh l with ⟨k1, k2, k3⟩ | ⟨k1, g, k2, k3, k4, k5⟩
    · exact absurd ⟨k1, k2⟩ h1
    · have hsk := contOfShape_skel d fv ff hv hf L n x b sh l c g h2 k2
      refine ⟨⟨{ c with storage := c.storage.map fun _ => x }, { g with storage := g.storage.map fun _ => b }⟩, ?_, ?_, ?_, h4, ?_⟩
      · simp [asmFilled, contFilled, h2, k2]
      · rw [lockstep_iff]; simp only [map_const_skel]; exact hsk
      · exact ⟨by simpa using h3.storage_size, h3.strides, h3.backstrides⟩
      · intro idx hi
        have i1 := (Consistent.addressable h3).inside idx (h4 ▸ hi)
        have i2 := (Consistent.addressable k3).inside idx (k4 ▸ hi)
        rw [Asm.get, elem?_of_offset _ _ (dataOffset c.strides false (toInts idx)).toNat (by simp only; omega),
          elem?_of_offset _ _ (dataOffset g.strides false (toInts idx)).toNat (by simp only; omega)]
        simp only [List.getElem?_map]
        rw [List.getElem?_eq_getElem (by omega), List.getElem?_eq_getElem (by omega)]
        rfl

/-- C79: construction from values alone: nothing is missing and the elements are the values. -/
theorem C79_of_values (d : Layout) (ff : Nat → List Bool) (hf : ∀ n, (ff n).length = n) (n : Nat) (c : Cont α)
    (hc : Consistent c) (hl : c.L ≠ .dynamic → c.layout = c.L) :
    ∃ a, asmOfValues d ff c.L n c = .ok a ∧ a.v = c ∧ a.f.shape = c.shape ∧ Consistent a.f ∧
      ∀ idx, InBounds c.shape idx → ∃ x, c.elem? (toInts idx) = some x ∧ a.get (toInts idx) = .ok (some x) := by
  rcases contOfShape_cases d ff hf c.L n true c.shape c.layout with ⟨k1, k2, -⟩ | ⟨k1, g, k2, k3, k4, k5⟩
  · exact absurd (hl k1) k2
  · refine ⟨⟨c, { g with storage := g.storage.map fun _ => true }⟩, ?_, rfl, k4, ?_, ?_⟩
    · simp [asmOfValues, contFilled, k2]
    · exact ⟨by simpa using k3.storage_size, k3.strides, k3.backstrides⟩
    · intro idx hi
      have i1 := (Consistent.addressable hc).inside idx hi
      have i2 := (Consistent.addressable k3).inside idx (k4 ▸ hi)
      have e1 := elem?_of_offset c (toInts idx) (dataOffset c.strides false (toInts idx)).toNat (by omega)
      rw [List.getElem?_eq_getElem (by omega)] at e1
      refine ⟨_, e1, ?_⟩
      rw [Asm.get, e1, elem?_of_offset _ _ (dataOffset g.strides false (toInts idx)).toNat (by simp only; omega)]
      simp only [List.getElem?_map]
      rw [List.getElem?_eq_getElem (by omega)]
      rfl

/-! ## Broadcasting -/

theorem bcLoop_flag_false : ∀ (is os r : List Nat), bcLoop is os false ≠ some (r, true)
  | [], os, r, h => by simp [bcLoop] at h
  | _ :: _, [], r, h => by simp [bcLoop] at h
  | a :: as, b :: bs, r, h => by
    simp only [bcLoop, Bool.false_and] at h
    repeat' split at h
    all_goals first
      | simp at h; done
      | (simp only [Option.map_eq_some_iff, Prod.mk.injEq] at h
         obtain ⟨⟨q, t⟩, h1, h2, h3⟩ := h
         simp only at h3; subst h3; exact bcLoop_flag_false _ _ _ h1)

theorem bcLoop_trivial_eq : ∀ (i o : List Nat), i.length = o.length → ∀ r, bcLoop i o true = some (r, true) → r = i
  | [], [], _, r, h => by simp [bcLoop] at h; exact h
  | [], _ :: _, hl, _, _ => by simp at hl
  | _ :: _, [], hl, _, _ => by simp at hl
  | i :: is, o :: os, hl, r, h => by
    have ih := bcLoop_trivial_eq is os (by simpa using hl)
    simp only [bcLoop, Bool.true_and] at h
    split at h
    · simp only [Option.map_eq_some_iff, Prod.mk.injEq] at h
      obtain ⟨⟨q, t⟩, h1, h2, h3⟩ := h; simp only at h2 h3; subst h3; rw [← h2, ih q h1]
    · split at h
      · simp only [Option.map_eq_some_iff, Prod.mk.injEq] at h
        obtain ⟨⟨q, t⟩, h1, h2, h3⟩ := h; simp only at h2 h3; subst h3
        cases hi : (i == 1) with
        | false => rw [hi] at h1; exact absurd h1 (bcLoop_flag_false _ _ _)
        | true => rw [hi] at h1; rw [← h2, ih q h1]
      · split at h
        · simp only [Option.map_eq_some_iff, Prod.mk.injEq] at h
          obtain ⟨⟨q, t⟩, h1, h2, h3⟩ := h; simp only at h3; subst h3
          exact absurd h1 (bcLoop_flag_false _ _ _)
        · split at h
          · simp at h
          · rename_i hne
            simp only [Option.map_eq_some_iff, Prod.mk.injEq] at h
            obtain ⟨⟨q, t⟩, h1, h2, h3⟩ := h; simp only at h2 h3; subst h3
            have : i = o := by simpa using hne
            rw [← h2, ih q h1, this]

theorem bcLoop_same (l : List Nat) : bcLoop l l true = some (l, true) := by
  induction l with
  | nil => rfl
  | cons i is ih =>
    by_cases h1 : i = szMax
    · simp [bcLoop, h1, ih]
    · by_cases h2 : i = 1
      · simp [bcLoop, h2, ih, szMax]
      · simp [bcLoop, h1, h2, ih]

/-- C79: an assembly broadcasts as its values do. -/
theorem C79_broadcast (a : Asm α) (h : a.v.shape = a.f.shape) (out : List Nat) :
    a.broadcastTo out = broadcastShape a.v.shape out := by
  rw [Asm.broadcastTo, ← h]
  cases hb : broadcastShape a.v.shape out with
  | none => rfl
  | some r =>
    obtain ⟨s, t⟩ := r
    cases t with
    | false => rfl
    | true =>
      have hs : s = a.v.shape := by
        simp only [broadcastShape] at hb
        split at hb
        · simp at hb
        · simp only [Option.map_eq_some_iff, Prod.mk.injEq] at hb
          obtain ⟨⟨q, t⟩, h1, h2, h3⟩ := hb
          simp only at h2 h3
          subst h3
          by_cases hl : a.v.shape.length = out.length
          · rw [show (a.v.shape.length == out.length) = true by simp [hl]] at h1
            rw [← h2, bcLoop_trivial_eq _ _ (by simp [hl]) _ h1, List.reverse_reverse]
          · rw [show (a.v.shape.length == out.length) = false by simp [hl]] at h1
            exact absurd h1 (bcLoop_flag_false _ _ _)
      subst hs
      simp [broadcastShape, bcLoop_same]

/-! ## Braces -/

theorem resize_default {β : Type} (d : Layout) (fresh : Nat → List β) (hf : ∀ n, (fresh n).length = n) (L : Layout)
    (n : Nat) (v : β) (sh : List Nat) :
    ∃ c, (Op.resize sh false).run d fresh (Cont.default L n v) = .ok c ∧ Consistent c ∧ c.shape = sh ∧ c.L = L := by
  have hs := step_consistent d hf (default_consistent L n v) (.resize sh false) trivial
  have : ∃ c, (Op.resize sh false).run d fresh (Cont.default L n v) = .ok c ∧ c.shape = sh := by
    simp only [Op.run, Cont.resize]
    split
    · simp
    · rename_i h
      simp only [ne_eq, Bool.false_eq_true, or_false, not_not] at h
      exact ⟨_, rfl, h⟩
  obtain ⟨c, h1, h2⟩ := this
  rw [h1] at hs
  exact ⟨c, h1, hs.1, h2, by rw [hs.2]; rfl⟩

theorem braceSlots_eq (a : Asm α) (hv : Consistent a.v) (hf : Consistent a.f) (h : a.f.shape = a.v.shape) :
    a.braceSlots = (rowIndices a.v.shape).map fun (idx : List Nat) =>
      (dataOffset a.v.strides false (toInts idx), dataOffset a.f.strides false (toInts idx)) := by
  rw [Asm.braceSlots]
  split
  · rename_i hr
    rw [hv.storage_size, ← map_rowRank_rowIndices, List.map_map]
    apply List.map_congr_left
    intro idx hi
    have hi := mem_rowIndices.mp hi
    rw [Consistent.place hv hi, Consistent.place hf (h ▸ hi), if_pos (Or.inl hr.1), if_pos (Or.inl hr.2), h]
    rfl
  · rfl

theorem fill_places {β : Type} (c : Cont β) (hc : Consistent c) (e : List Nat → β) :
    ∃ s, writeAll c.storage ((rowIndices c.shape).map fun (idx : List Nat) =>
        (dataOffset c.strides false (toInts idx), e idx)) = .ok s ∧ s.length = c.storage.length ∧
      ∀ idx, InBounds c.shape idx → Cont.elem? { c with storage := s } (toInts idx) = some (e idx) := by
  have ha := Consistent.addressable hc
  obtain ⟨b, h1, h2, -, h4⟩ := writeAll_spec ((rowIndices c.shape).map fun (idx : List Nat) =>
      (dataOffset c.strides false (toInts idx), e idx)) c.storage (by
    intro w hw
    simp only [List.mem_map] at hw
    obtain ⟨idx, hi, rfl⟩ := hw
    exact ha.inside idx (mem_rowIndices.mp hi))
  refine ⟨b, h1, h2, ?_⟩
  intro idx hi
  have hin := ha.inside idx hi
  rw [elem?_of_offset _ _ (dataOffset c.strides false (toInts idx)).toNat (by simp only; omega)]
  apply h4
  · exact ⟨_, List.mem_map.mpr ⟨idx, mem_rowIndices.mpr hi, rfl⟩, by simp only; omega⟩
  · intro w hw hwq
    simp only [List.mem_map] at hw
    obtain ⟨j, hj, rfl⟩ := hw
    have hj := mem_rowIndices.mp hj
    have := ha.inside j hj
    simp only at hwq
    rw [ha.injective j idx hj hi (by omega)]

/-- C79: construction from rectangular braces, none of whose levels but the last is empty: the shape is that of the
braces and every element the optional written at its place — also when the halves differ in layout. -/
theorem C79_braces (d : Layout) (fv : Nat → List α) (ff : Nat → List Bool) (hv : ∀ n, (fv n).length = n)
    (hf : ∀ n, (ff n).length = n) (Lv Lf : Layout) (n₀ : Nat) (x₀ : α) (b₀ : Bool) (sh : List Nat)
    (t : Braces (α × Bool) sh.length) (h : Rect sh t) (hp : ∀ k ∈ sh.dropLast, 0 < k) :
    ∃ a, asmOfBraces d fv ff Lv Lf n₀ x₀ b₀ sh.length t = .ok a ∧ a.v.shape = sh ∧ a.f.shape = sh ∧
      ∀ idx, InBounds sh idx → ∃ x b, bget sh.length t idx = some (x, b) ∧
        a.get (toInts idx) = .ok (if b then some x else none) := by
  obtain ⟨c, h1, h2, h3, h4⟩ := resize_default d fv hv Lv n₀ x₀ sh
  obtain ⟨g, k1, k2, k3, k4⟩ := resize_default d ff hf Lf n₀ b₀ sh
  have hsl := braceSlots_eq (⟨c, g⟩ : Asm α) h2 k2 (by rw [k3, h3])
  have hval := rect_values sh t h (x₀, b₀)
  simp only [h3] at hsl
  obtain ⟨vs, e1, e2, e3⟩ := fill_places c h2 fun idx => ((bget sh.length t idx).getD (x₀, b₀)).1
  obtain ⟨fs, f1, f2, f3⟩ := fill_places g k2 fun idx => ((bget sh.length t idx).getD (x₀, b₀)).2
  refine ⟨⟨{ c with storage := vs }, { g with storage := fs }⟩, ?_, h3, k3, ?_⟩
  · rw [asmOfBraces, initShape_rect sh t h hp]
    simp only [Asm.run, asmDefault, h1, k1, Asm.both, hsl, nestedCopy_eq, hval]
    rw [if_neg (by simp)]
    simp only [List.map_map, List.zip_map']
    rw [h3] at e1
    rw [k3] at f1
    simp only [Function.comp_def, e1, f1]
    rfl
  · intro idx hi
    obtain ⟨⟨x, b⟩, hx⟩ := bget_isSome sh t h idx hi
    refine ⟨x, b, hx, ?_⟩
    rw [Asm.get, e3 idx (h3 ▸ hi), f3 idx (k3 ▸ hi), hx]
    rfl

/-! ## Comparison -/

theorem optEq_iff [DecidableEq α] (x y : Option α) : optEq x y = true ↔ x = y := by
  cases x <;> cases y <;> simp [optEq]

theorem get_defined (a : Asm α) (hs : a.f.shape = a.v.shape) (hv : Consistent a.v) (hf : Consistent a.f) (idx : List Nat)
    (hi : InBounds a.v.shape idx) : ∃ o, a.get (toInts idx) = .ok o := by
  have i1 := (Consistent.addressable hv).inside idx hi
  have i2 := (Consistent.addressable hf).inside idx (hs ▸ hi)
  rw [Asm.get, elem?_of_offset a.v _ (dataOffset a.v.strides false (toInts idx)).toNat (by omega),
    elem?_of_offset a.f _ (dataOffset a.f.strides false (toInts idx)).toNat (by omega),
    List.getElem?_eq_getElem (by omega), List.getElem?_eq_getElem (by omega)]
  exact ⟨_, rfl⟩

/-- C79: `==` of two assemblies holds exactly when the shapes are equal and at every index both are missing or both
present with equal values; what is stored for missing elements does not matter. -/
theorem C79_equality [DecidableEq α] (a b : Asm α) (ha : a.f.shape = a.v.shape) (hav : Consistent a.v)
    (haf : Consistent a.f) (hb : b.f.shape = b.v.shape) (hbv : Consistent b.v) (hbf : Consistent b.f) :
    ∃ q, a.eqv b = .ok q ∧ (q = true ↔ a.v.shape = b.v.shape ∧
      ∀ idx, InBounds a.v.shape idx → a.get (toInts idx) = b.get (toInts idx)) := by
  rw [Asm.eqv]
  by_cases hs : a.v.shape = b.v.shape
  · rw [if_pos hs]
    have key : ∀ (l : List (List Nat)), (∀ idx ∈ l, InBounds a.v.shape idx) → ∀ q : Bool,
        ∃ r, l.foldl (fun (r : Res Bool) (idx : List Nat) => r.bind fun (q : Bool) =>
          if q then (a.get (toInts idx)).bind fun (x : Option α) => (b.get (toInts idx)).map fun (y : Option α) => optEq x y
          else .ok false) (.ok q) = .ok r ∧
        (r = true ↔ q = true ∧ ∀ idx ∈ l, a.get (toInts idx) = b.get (toInts idx)) := by
      intro l
      induction l with
      | nil => intro _ q; exact ⟨q, rfl, by simp⟩
      | cons i l ih =>
        intro hl q
        have hi := hl i (by simp)
        obtain ⟨x, hx⟩ := get_defined a ha hav haf i hi
        obtain ⟨y, hy⟩ := get_defined b hb hbv hbf i (hs ▸ hi)
        rw [List.foldl_cons]
        cases q with
        | false =>
          obtain ⟨r, h1, h2⟩ := ih (fun j hj => hl j (by simp [hj])) false
          refine ⟨r, by simpa using h1, by simp at h2; simp [h2]⟩
        | true =>
          obtain ⟨r, h1, h2⟩ := ih (fun j hj => hl j (by simp [hj])) (optEq x y)
          refine ⟨r, by simpa [hx, hy] using h1, ?_⟩
          rw [h2, optEq_iff]
          simp [hx, hy]
    obtain ⟨r, h1, h2⟩ := key (rowIndices a.v.shape) (fun idx hi => mem_rowIndices.mp hi) true
    refine ⟨r, h1, ?_⟩
    rw [h2]
    constructor
    · rintro ⟨-, h⟩; exact ⟨hs, fun idx hi => h idx (mem_rowIndices.mpr hi)⟩
    · rintro ⟨-, h⟩; exact ⟨rfl, fun idx hi => h idx (mem_rowIndices.mp hi)⟩
  · rw [if_neg hs]
    exact ⟨false, rfl, by simp [hs]⟩

/-- C79 (partial): of two assemblies of one shape and layout, equal storages give equal assemblies; the converse holds
where nothing is missing (see `C79_storage_equality_wrong`). -/
theorem C79_storage_equality_partial [DecidableEq α] (a b : Asm α) (ha : Lockstep a) (hb : Lockstep b)
    (hav : Consistent a.v) (hs : a.v.shape = b.v.shape) (hst : a.v.strides = b.v.strides) (hbv : Consistent b.v) :
    (a.storageEq b = true → ∀ idx, InBounds a.v.shape idx → a.get (toInts idx) = b.get (toInts idx)) ∧
    ((∀ idx, InBounds a.v.shape idx → ∃ x, a.get (toInts idx) = .ok (some x) ∧ b.get (toInts idx) = .ok (some x)) →
      a.storageEq b = true) := by
  constructor
  · intro h idx hi
    simp only [Asm.storageEq, Bool.and_eq_true, beq_iff_eq] at h
    simp only [Asm.get, Cont.elem?, ← ha.strides, ← hb.strides, hst, h.1, h.2]
  · intro h
    have pa := C79_elements a ha hav
    have pb := C79_elements b hb hbv
    have hl : a.v.storage.length = b.v.storage.length := by rw [hav.storage_size, hbv.storage_size, hs]
    have key : ∀ p, p < a.v.storage.length → ∃ x, a.v.storage[p]? = some x ∧ b.v.storage[p]? = some x ∧
        a.f.storage[p]? = some true ∧ b.f.storage[p]? = some true := by
      intro p hp
      obtain ⟨idx, hi, e⟩ := pa.onto p hp
      obtain ⟨x, u, h1, h2, h3⟩ := pa.element idx hi
      obtain ⟨y, w, k1, k2, k3⟩ := pb.element idx (hs ▸ hi)
      obtain ⟨z, m1, m2⟩ := h idx hi
      rw [h3] at m1; rw [k3] at m2
      cases u <;> cases w <;> simp at m1 m2
      subst m1; subst m2
      simp only [e, ← hst] at h1 h2 k1 k2
      exact ⟨_, h1, k1, h2, k2⟩
    simp only [Asm.storageEq, Bool.and_eq_true, beq_iff_eq]
    constructor
    · apply List.ext_getElem?
      intro p
      by_cases hp : p < a.v.storage.length
      · obtain ⟨x, h1, h2, -, -⟩ := key p hp; rw [h1, h2]
      · rw [List.getElem?_eq_none (by omega), List.getElem?_eq_none (by omega)]
    · apply List.ext_getElem?
      intro p
      by_cases hp : p < a.v.storage.length
      · obtain ⟨x, -, -, h1, h2⟩ := key p hp; rw [h1, h2]
      · rw [List.getElem?_eq_none (by rw [← ha.size]; omega), List.getElem?_eq_none (by rw [← hb.size]; omega)]

/-! ## Where it fails -/

/-- A small assembly: two rows, two columns. -/
def asmSample (Lv Lf : Layout) (vs : List Int) (fs : List Bool) : Asm Int :=
  ⟨⟨Lv, Lv, [2, 2], (computeStrides Lv Lv [2, 2]).1, backstrides [2, 2] (computeStrides Lv Lv [2, 2]).1, vs⟩,
    ⟨Lf, Lf, [2, 2], (computeStrides Lf Lf [2, 2]).1, backstrides [2, 2] (computeStrides Lf Lf [2, 2]).1, fs⟩⟩

/-- C79 violated: two assemblies that are equal as expressions have unequal storages, what is stored under missing
elements being compared. -/
theorem C79_storage_equality_wrong :
    (asmSample .row_major .row_major [1, 2, 3, 4] [true, false, true, true]).eqv
      (asmSample .row_major .row_major [1, 9, 3, 4] [true, false, true, true]) = .ok true ∧
    (asmSample .row_major .row_major [1, 2, 3, 4] [true, false, true, true]).storageEq
      (asmSample .row_major .row_major [1, 9, 3, 4] [true, false, true, true]) = false := by decide

theorem seqLt_le : ∀ (a b : List Int), (!seqLt b a) = (seqLt a b || a == b)
  | [], [] => by decide
  | [], _ :: _ => rfl
  | _ :: _, [] => rfl
  | x :: xs, y :: ys => by
    have ih := seqLt_le xs ys
    by_cases h1 : x < y
    · have h2 : ¬ y < x := by omega
      simp [seqLt, h1, h2]
    · by_cases h2 : y < x
      · have h3 : x ≠ y := by omega
        simp [seqLt, h1, h2, h3]
      · have h3 : x = y := by omega
        subst h3
        simp only [seqLt, if_neg h1, ih]
        simp

/-- `<=` of two storages is `<` or `==`, and of storages with the same flags one is `<=` the other. -/
theorem C79_storage_le (a b : Asm Int) :
    a.storageLe b = (a.storageLt b || a.storageEq b) ∧
    (a.f.storage = b.f.storage → a.storageLe b = true ∨ b.storageLe a = true) := by
  constructor
  · unfold Asm.storageLe Asm.storageLt Asm.storageEq
    rw [seqLt_le]
    cases seqLt a.v.storage b.v.storage <;> cases a.v.storage == b.v.storage <;>
      cases a.f.storage == b.f.storage <;> rfl
  · intro h
    simp only [Asm.storageLe, h, beq_self_eq_true, Bool.and_true]
    by_cases hl : seqLt b.v.storage a.v.storage = true
    · right
      rw [seqLt_le, hl, Bool.true_or]
    · left
      simpa using hl

example : (asmSample .row_major .row_major [1, 2, 3, 4] [true, true, true, true]).storageLe
    (asmSample .row_major .row_major [1, 2, 3, 4] [true, true, true, true]) = true := by decide

/-- C79 violated: an adaptor may be made of values and flags of different sizes (optional/xoptional_assembly.hpp:635-645);
`fill` then writes past the end of the flags. -/
theorem C79_fill_sizes_wrong :
    let a : Asm Int := ⟨(asmSample .row_major .row_major [1, 2, 3, 4] []).v,
      ⟨.row_major, .row_major, [2], [1], [1], [true, false]⟩⟩
    a.fill 0 true = .ub := by decide

/-- C79 violated: the order of storages is not total; with different flags none of `<`, `>`, `==`, `<=`, `>=` holds. -/
theorem C79_storage_order_wrong :
    ∃ a b : Asm Int, Lockstep a ∧ Lockstep b ∧ a.storageLt b = false ∧ b.storageLt a = false ∧ a.storageEq b = false ∧
      a.storageLe b = false ∧ b.storageLe a = false :=
  ⟨asmSample .row_major .row_major [1, 2, 3, 4] [true, false, true, true],
    asmSample .row_major .row_major [1, 2, 3, 5] [true, true, true, true],
    ⟨rfl, rfl, rfl, rfl, rfl, rfl⟩, ⟨rfl, rfl, rfl, rfl, rfl, rfl⟩, by decide, by decide, by decide, by decide, by decide⟩

/-- C79 violated: values in row-major and flags in column-major order.  Every element is right by its index, but
`flat(1)` joins the value of one element, which is present, with the flag of another, which is missing; iterating
linearly gives a missing element too many and the wrong value. -/
theorem C79_mixed_layout_flat_wrong :
    let a := asmSample .row_major .column_major [1, 2, 3, 4] [true, false, true, true]
    a.each = .ok [some 1, some 2, none, some 4] ∧ a.linear = .ok [some 1, none, some 3, some 4] ∧ a.flat 1 = .ok none ∧
      a.get [0, 1] = .ok (some 2) := by decide

/-- C79 violated: with such halves construction from a shape throws whatever layout is asked for, since the one layout
is asked of both. -/
theorem C79_mixed_layout_shape_wrong (d : Layout) (fv : Nat → List α) (ff : Nat → List Bool) (n : Nat) (x : α) (b : Bool)
    (sh : List Nat) (l : Layout) :
    asmOfShape d fv ff .row_major .column_major n x b sh l = .throws := by
  simp only [asmOfShape, contOfShape, Cont.resizeLayout, Cont.default, Cont.resize]
  cases l <;> simp

/-- C79 violated: with such halves `resize(shape, l)` and `reshape(shape)` throw after the values have been changed,
and leave flags of another shape; the next access reads beyond them or beside the element. -/
theorem C79_mixed_layout_resize_wrong :
    let a := asmSample .row_major .column_major [1, 2, 3, 4] [true, false, true, true]
    (∃ a', a.run .row_major (fun n => List.replicate n 0) (fun n => List.replicate n false)
      (.resizeLayout [3, 2] .row_major) = .throws a' ∧ a'.v.shape = [3, 2] ∧ a'.f.shape = [2, 2] ∧
      a'.v.elem? [2, 1] = some 0 ∧ a'.get [2, 1] = .ub) ∧
    (∃ a', a.run .row_major (fun n => List.replicate n 0) (fun n => List.replicate n false)
      (.reshapeU [4] .row_major) = .throws a' ∧ a'.v.shape = [4] ∧ a'.f.shape = [2, 2]) := by
  refine ⟨⟨_, rfl, by decide⟩, ⟨_, rfl, by decide⟩⟩

/-- C79 violated: values and flags given together are not compared.  Flags of another shape are accepted; an element of
the assembly has a flag that does not exist, `at` throws within the shape, and broadcasting accepts a shape that the
flags do not fit. -/
theorem C79_pair_wrong :
    let a : Asm Int := asmOfPair ⟨.row_major, .row_major, [3], [1], [2], [1, 2, 3]⟩
      ⟨.row_major, .row_major, [2], [1], [1], [true, true]⟩
    let b : Asm Int := asmOfPair ⟨.row_major, .row_major, [1], [0], [0], [1]⟩
      ⟨.row_major, .row_major, [2], [1], [1], [true, true]⟩
    a.get [2] = .ub ∧ a.at [2] = .throws ∧ a.linear = .ub ∧ b.broadcastTo [3] = some ([3], false) ∧
      broadcastShape [2] [3] = none := by decide

/-- C79 violated: when the allocation of the flags fails, `resize` leaves the values with the new shape and the flags
without storage for theirs. -/
theorem C79_resize_alloc_wrong :
    let a := asmSample .row_major .row_major [1, 2, 3, 4] [true, false, true, true]
    ∃ a', a.resizeAlloc .row_major (fun n => List.replicate n 0) (fun n => List.replicate n false) true false [3, 2] false =
      .throws a' ∧ a'.v.storage.length = 6 ∧ a'.f.storage.length = 4 ∧ a'.get [2, 1] = .ub :=
  ⟨_, rfl, by decide⟩

/-! ## Examples -/

example : Lockstep (asmSample .column_major .column_major [1, 2, 3, 4] [true, false, true, true]) :=
  ⟨rfl, rfl, rfl, rfl, rfl, rfl⟩

example : Consistent (asmSample .column_major .column_major [1, 2, 3, 4] [true, false, true, true]).v :=
  Consistent.of_computed .column_major .column_major [2, 2] [1, 2, 3, 4] rfl

example : (asmSample .column_major .column_major [1, 2, 3, 4] [true, false, true, true]).each =
      .ok [some 1, some 3, none, some 4] ∧
    (asmSample .column_major .column_major [1, 2, 3, 4] [true, false, true, true]).linear =
      .ok [some 1, none, some 3, some 4] := by decide

example : (asmSample .row_major .row_major [1, 2, 3, 4] [true, false, true, true]).run .row_major
      (fun n => List.replicate n 0) (fun n => List.replicate n false) (.reshapeS [-1] .row_major) =
    .ok ⟨⟨.row_major, .row_major, [4], [1], [3], [1, 2, 3, 4]⟩,
      ⟨.row_major, .row_major, [4], [1], [3], [true, false, true, true]⟩⟩ := by decide

example : ∃ a, runAsm .row_major (fun n => List.replicate n 0) (fun n => List.replicate n false)
    (asmDefault .row_major .row_major 0 7 true) [.resize [2, 3] false, .reshapeU [6] .column_major, .reshapeU [3, 2] .row_major] =
    some a ∧ a.v.shape = [3, 2] ∧ a.f.shape = [3, 2] := ⟨_, rfl, by decide⟩

example : (asmOfBraces .row_major (fun n => List.replicate n 0) (fun n => List.replicate n false) .row_major .column_major 0 0
    false 2 ([[(1, true), (2, false)], [(3, true), (4, true)]] : List (List (Int × Bool)))).bind Asm.each =
    .ok [some 1, none, some 3, some 4] := by decide

example : (asmSample .row_major .row_major [1, 2, 3, 4] [true, false, true, true]).broadcastTo [1, 2] = some ([2, 2], false) ∧
    (asmSample .row_major .row_major [1, 2, 3, 4] [true, false, true, true]).broadcastTo [2, 2] = some ([2, 2], true) := by
  decide

example : (asmSample .row_major .row_major [1, 2, 3, 4] [true, false, true, true]).at [1, 1] = .ok (some 4) ∧
    (asmSample .row_major .row_major [1, 2, 3, 4] [true, false, true, true]).at [2, 1] = .throws := by decide

example : ((asmSample .row_major .row_major [1, 2, 3, 4] [true, false, true, true]).put [0, 0] 8 false).bind Asm.each =
    .ok [none, none, some 3, some 4] ∧
    ((asmSample .row_major .row_major [1, 2, 3, 4] [true, false, true, true]).fill 8 true).bind Asm.each =
    .ok [some 8, some 8, some 8, some 8] := by decide

example : (asmFilled .row_major (fun n => List.replicate n 0) (fun n => List.replicate n false) .column_major .column_major 2
    (5 : Int) true [1, 2] .column_major).bind Asm.each = .ok [some 5, some 5] := by decide

example : (asmOfValues .row_major (fun n => List.replicate n false) .row_major 0
    (asmSample .row_major .row_major [1, 2, 3, 4] []).v).bind Asm.each = .ok [some 1, some 2, some 3, some 4] := by decide

example : (asmSample .row_major .row_major [1, 2, 3, 4] [true, true, true, true]).storageEq
    (asmSample .row_major .row_major [1, 2, 3, 4] [true, true, true, true]) = true := by decide

end Xt
