import Verif.Model.Functor
import Verif.Props.AssignAlias
/-!
# C76: views of the real and imaginary parts
-/

namespace Xt.Spec

variable {β : Type}

/-- The cells an element consists of. -/
def cellsOf : ElemKind → Int → List Int
  | .plain, p => [p]
  | .part k, p => [2 * p + k]
  | .whole, p => [2 * p, 2 * p + 1]

/-- The value of the expression at an index of the shape depends only on the elements of its
operands at that index. -/
def ReadsElements (sh : List Nat) (r : PartRhs β) : Prop :=
  ∀ idx, InBounds sh idx → ∀ m m' : Mem β,
    (∀ x ∈ r.e.arrs.zip r.kinds, ∀ q ∈ cellsOf x.2 (addr x.1 (bcIndex x.1.shape idx)), m q = m' q) →
    valueAt r.e idx m = valueAt r.e idx m'

end Xt.Spec

namespace Xt

open Spec

variable {β : Type}

/-- The cells of the part as an array. -/
def partArr (k : Nat) (c : StridedArr) : StridedArr :=
  StridedArr.mk' c.shape (c.strides.map (2 * ·)) (2 * c.off + k)

theorem dot_double : ∀ (st x : List Int), dot (st.map (2 * ·)) x = 2 * dot st x
  | [], x => by cases x <;> simp [dot]
  | s :: st, [] => by simp [dot]
  | s :: st, y :: x => by
    have := dot_double st x
    simp only [List.map_cons, dot, List.zipWith_cons_cons, List.sum_cons] at this ⊢
    rw [this]; ring

theorem addr_partArr (k : Nat) (c : StridedArr) (idx : List Nat) :
    addr (partArr k c) idx = 2 * addr c idx + k := by
  show 2 * c.off + k + dot (c.strides.map (2 * ·)) (toInts idx) = 2 * (c.off + dot c.strides (toInts idx)) + k
  rw [dot_double]; ring

theorem partArr_distinct {k : Nat} {c : StridedArr} (h : Distinct c) : Distinct (partArr k c) := by
  intro i j hi hj he
  rw [addr_partArr, addr_partArr] at he
  exact h i j hi hj (by omega)

theorem partTrace_flatten {k : Nat} {c : StridedArr} {e : MEx β} {bs : List (List (Write β))}
    {is : List (List Nat)} (h : bs.flatten = is.map (wr c e)) :
    (partTrace k bs).flatten = is.map (wr (partArr k c) e) := by
  unfold partTrace
  rw [← List.map_flatten, h, List.map_map]
  apply List.map_congr_left
  intro idx _
  simp only [Function.comp, wr, addr_partArr, partAddr]

theorem TraitsOK.scalarOnly {t : Traits} {d : StridedArr} {e : MEx β} (h : Spec.TraitsOK t d e) :
    Spec.TraitsOK t.scalarOnly d e :=
  ⟨h.contig1, h.isContig1, h.static, fun h => by simp [Traits.scalarOnly] at h, h.width⟩

/-! ### Reading -/

/-- Iterating over `real(c)` or `imag(c)` in either order yields, for each index in turn, the part of
the element of `c` with that index. -/
theorem C76_iteration (k : Nat) (L : Layout) (hL : L = .row_major ∨ L = .column_major)
    (c : StridedArr) (hc : c.WF) (m : Mem β) :
    ((partEx (β := β) k c).values L c.shape).map (fun v => v m) =
      (orderIndices L c.shape).map fun idx => m (2 * addr c idx + k) := by
  have hf : Fits c.shape (partEx (β := β) k c) := ⟨hc, broadcastsTo_refl _⟩
  rw [C22_iteration L hL _ _ hf, List.map_map]
  apply List.map_congr_left
  intro idx h
  simp only [Function.comp, partEx, valueAt, bcIndex_self (mem_orderIndices.1 h)]
  rfl

/-- Access by index. -/
theorem C76_element (k : Nat) (c : StridedArr) (hc : c.WF) (idx : List Nat)
    (hb : InBounds c.shape idx) (m : Mem β) :
    (partEx (β := β) k c).element (toInts idx) m = m (2 * addr c idx + k) := by
  have hf : Fits c.shape (partEx (β := β) k c) := ⟨hc, broadcastsTo_refl _⟩
  rw [Ex.element_eq _ c.shape hf trivial idx (by rw [hb.length_eq])]
  simp only [partEx, valueAt, bcIndex_self hb]
  rfl

/-! ### Assignment -/

/-- Without a detected overlap no cell of an operand is a cell of the part assigned to. -/
theorem partOverlap_sound {k : Nat} {c : StridedArr} {e : MEx β} {kinds : List ElemKind}
    (hk : k = 0 ∨ k = 1 ∧ ElemKind.whole ∉ kinds) (hkk : ∀ j, ElemKind.part j ∈ kinds → j ≤ 1)
    (hc : c.WF) (hf : Fits c.shape e) (hH : Hull c) (hHe : ∀ c' ∈ e.arrs, Hull c')
    (h : partOverlap k c e kinds = false) (x : StridedArr × ElemKind) (hx : x ∈ e.arrs.zip kinds)
    (i j : List Nat) (hi : InBounds x.1.shape i) (hj : InBounds c.shape j)
    (q : Int) (hq : q ∈ cellsOf x.2 (addr x.1 i)) : q ≠ 2 * addr c j + k := by
  have hpc := numel_pos_of_inBounds hi
  have hpd := numel_pos_of_inBounds hj
  have hm := List.of_mem_zip hx
  unfold partOverlap at h
  rw [if_neg (by rw [StridedArr.size_eq]; omega)] at h
  simp only [List.any_eq_false] at h
  have h1 := rangeOverlaps_false (by simpa using h x hx)
  rw [firstAddr_eq, firstAddr_eq, lastAddr_eq hc hpd,
    lastAddr_eq (Ex.fits_arrs e hf _ hm.1).1 hpc] at h1
  have h2 := hHe _ hm.1 i hi
  have h3 := hH j hj
  obtain ⟨x1, x2⟩ := x
  cases x2 with
  | plain =>
    simp only [cellsOf, List.mem_singleton] at hq
    simp only [ElemKind.address, partAddr] at h1
    simp only at h2
    omega
  | part l =>
    simp only [cellsOf, List.mem_singleton] at hq
    simp only [ElemKind.address, partAddr] at h1
    simp only at h2
    omega
  | whole =>
    have hk0 : k = 0 := hk.resolve_right fun h => h.2 hm.2
    simp only [cellsOf, List.mem_cons, List.not_mem_nil, or_false] at hq
    simp only [ElemKind.address, partAddr] at h1
    simp only at h2
    omega

/-- `real(c) = e` and `imag(c) = e`: every element of `c` receives, as its part, the value the
expression had before at that index; the other parts and all other memory but the temporary are not
written.  Missing: assignments to `imag(c)` of expressions that use complex elements as a whole, see
`C76_imag_alias_wrong`. -/
theorem C76_assign_partial (t tt : Traits) (ab abt k : Nat) (c tmp : StridedArr) (r : PartRhs β)
    (s : List Nat) (hk : k = 0 ∨ k = 1 ∧ ElemKind.whole ∉ r.kinds)
    (hkk : ∀ j, ElemKind.part j ∈ r.kinds → j ≤ 1)
    (ho : OperandsOK r.e) (hx : ExtentsBelow r.e) (hxd : szMax ∉ c.shape)
    (hre : ReadsElements c.shape r) (hH : Hull c) (hHe : ∀ c' ∈ r.e.arrs, Hull c')
    (he : r.e.exShape = some s) (hb : BroadcastsTo s c.shape)
    (hd : c.WF) (hD : Distinct c) (hT : tmp.WF) (hDT : Distinct tmp) (htmp : tmp.shape = c.shape)
    (hfresh : ∀ j, InBounds tmp.shape j →
      (∀ x ∈ r.e.arrs.zip r.kinds, ∀ i, InBounds x.1.shape i → addr tmp j ∉ cellsOf x.2 (addr x.1 i)) ∧
      ∀ i, InBounds c.shape i → addr tmp j ≠ 2 * addr c i + k)
    (ht : ∀ rhs, viewRhs c r.e = some rhs → TraitsOK t c rhs ∧ TraitsOK tt tmp rhs)
    (hs : c.size < 2 ^ 64) (hab : ab ≤ c.size) (habt : abt ≤ c.size) (m : Mem β) :
    ∃ m', partAssign t tt ab abt k c tmp r m = some m' ∧
      (∀ idx, InBounds c.shape idx → m' (2 * addr c idx + k) = valueAt r.e idx m) ∧
      ∀ p, (∀ idx, InBounds c.shape idx → p ≠ 2 * addr c idx + k) →
        (∀ idx, InBounds tmp.shape idx → p ≠ addr tmp idx) → m' p = m p := by
  obtain ⟨e, kinds⟩ := r
  simp only at *
  have hxo : e.toSh.ExtentsOk := Ex.extents_ok e hx
  obtain ⟨tre, hre', -⟩ := exShape_resizeInfo he
  obtain ⟨hfs, -⟩ := resizeInfo_spec ho hxo hre'
  have hf : Fits c.shape e := Ex.fits_trans hb e hfs
  have hrhs := viewRhs_spec hxd he hb
  obtain ⟨htd, htt⟩ := ht _ hrhs
  unfold partAssign
  simp only [hrhs]
  generalize hR : (if s = c.shape then e else Ex.bcast e c.shape) = rhs at hrhs htd htt ⊢
  have hval : ∀ idx, InBounds c.shape idx → valueAt rhs idx = valueAt e idx := by
    intro idx hbi
    rw [← hR]
    split
    · rfl
    · exact value_bcast_self hbi
  have hfr : Fits c.shape rhs := by
    rw [← hR]; split
    · exact hf
    · exact ⟨broadcastsTo_refl _, hf⟩
  have hxr : ExtentsBelow rhs := by
    rw [← hR]; split
    · exact hx
    · exact ⟨hxd, hx⟩
  have hor : OperandsOK rhs := by
    rw [← hR]; split
    · exact ho
    · exact hf
  have hexr : rhs.exShape = some c.shape := by
    rw [← hR]; split
    · rename_i h; rw [he, h]
    · rfl
  have harr : rhs.arrs = e.arrs := by rw [← hR]; split <;> rfl
  have hin : ∀ x ∈ e.arrs.zip kinds, ∀ idx, InBounds c.shape idx →
      InBounds x.1.shape (bcIndex x.1.shape idx) := fun x hxm idx hbi =>
    inBounds_bcIndex (Ex.fits_arrs e hf _ (List.of_mem_zip hxm).1).2 hbi
  obtain ⟨tr, hrr, htr⟩ := exShape_resizeInfo hexr
  obtain ⟨-, hshr⟩ := resizeInfo_spec hor (Ex.extents_ok rhs hxr) hrr
  by_cases hc : partOverlap k c rhs kinds = true
  · rw [if_pos hc, hrr]
    refine ⟨_, rfl, ?_⟩
    have hft : Fits tmp.shape rhs := by rw [htmp]; exact hfr
    have hNt : NoInterference tmp rhs := by
      refine noInterference_of_doesNotRead fun idx hbi m m' hm => ?_
      rw [htmp] at hbi
      rw [hval idx hbi]
      refine hre idx hbi m m' fun x hxm q hq => hm q fun j hj hqj => ?_
      exact (hfresh j hj).1 x hxm _ (hin x hxm idx hbi) (hqj ▸ hq)
    have hst : tmp.size = c.size := by rw [StridedArr.size_eq, htmp, ← StridedArr.size_eq]
    obtain ⟨a1, a2⟩ := C24_assign_data tt abt tmp rhs tr hT hDT hft htt (by rw [hst]; exact hs)
      (by rw [hst]; exact habt) (by rw [htmp]; exact hshr) hNt m
    have hfc : Fits c.shape (rdArr (β := β) tmp) := ⟨hT, by rw [htmp]; exact broadcastsTo_refl _⟩
    have hL : (copyLoop (β := β) c tmp tmp.size
        (xstepperBegin c, List.replicate c.shape.length 0)
        (xstepperBegin tmp, List.replicate tmp.shape.length 0)).flatten =
        (orderIndices .row_major c.shape).map (wr c (rdArr tmp)) := by
      rw [← stepperTrace_flatten (Or.inl rfl) hd hfc]
      unfold stepperTrace
      rw [htmp, copyLoop_eq htmp, StridedArr.size_eq, StridedArr.size_eq, htmp]
      rfl
    have hNc : NoInterference (partArr k c) (rdArr (β := β) tmp) := by
      refine noInterference_of_doesNotRead (doesNotReadIn_of rfl hfc ?_)
      intro c' hcm
      simp only [rdArr, Ex.arrs, List.mem_singleton] at hcm
      subst hcm
      intro i j hi hj hij
      rw [addr_partArr] at hij
      exact (hfresh i hi).2 j hj hij
    obtain ⟨b1, b2⟩ := runTrace_assigned hNc (partArr_distinct hD) (partTrace_flatten (k := k) hL)
      (runTrace (assignTrace tt abt tmp rhs tr) m)
    refine ⟨fun idx hbi => ?_, fun p hp hpt => ?_⟩
    · have hb1 := b1 idx hbi
      rw [addr_partArr] at hb1
      rw [hb1]
      have hbt : InBounds tmp.shape idx := by rw [htmp]; exact hbi
      have := a1 idx hbt
      rw [hval idx hbi] at this
      rw [← this]
      simp only [rdArr, valueAt]
      rw [bcIndex_self hbt]
      rfl
    · rw [b2 p fun idx hbi => by rw [addr_partArr]; exact hp idx hbi, a2 p hpt]
  · rw [if_neg hc, hexr]
    simp only
    rw [if_pos ((broadcastable_iff_broadcastsTo _ _).2 (broadcastsTo_refl _))]
    refine ⟨_, rfl, ?_⟩
    have hov : partOverlap k c rhs kinds = false := by simpa using hc
    have hN : NoInterference (partArr k c) rhs := by
      intro idx hbi m m' hm
      have hbi : InBounds c.shape idx := hbi
      rw [hval idx hbi]
      refine hre idx hbi m m' fun x hxm q hq => hm q fun j hj _ hqj => ?_
      rw [addr_partArr] at hqj
      refine partOverlap_sound hk hkk hd hfr hH (by rw [harr]; exact hHe) hov x
        (by rw [harr]; exact hxm) _ j (hin x hxm idx hbi) hj q hq hqj
    obtain ⟨L, hL⟩ := assignTrace_flatten t.scalarOnly ab c rhs (rhsTriviality rhs) hd hD hfr
      (TraitsOK.scalarOnly htd) hs hab (fun h => hshr (htr h))
    obtain ⟨a1, a2⟩ := runTrace_assigned hN (partArr_distinct hD) (partTrace_flatten (k := k) hL) m
    refine ⟨fun idx hbi => ?_, fun p hp _ => a2 p fun idx hbi => by
      rw [addr_partArr]; exact hp idx hbi⟩
    have := a1 idx hbi
    rw [addr_partArr] at this
    rw [this, hval idx hbi]

/-- `imag(view(a, range(2, 5))) = norm(view(a, range(0, 3)))` with all elements of `a` equal to
`1 + i`.  The first imaginary part of the destination lies behind the start of the last element of the
source, so no overlap is found; element 2 of the source is `1 + 2i` when it is read, and the result is
5 instead of 2. -/
theorem C76_imag_alias_wrong :
    let d : StridedArr := StridedArr.mk' [3] [1] 2
    let c : StridedArr := StridedArr.mk' [3] [1] 0
    let tmp : StridedArr := StridedArr.container .row_major [3] 100
    let e : MEx Nat := wholeEx (fun x y => x * x + y * y) c
    let m : Mem Nat := fun _ => 1
    addr c [2] = addr d [0] ∧ partOverlap 1 d e [.whole] = false ∧
    (partAssign plainTraits plainTraits 0 0 1 d tmp ⟨e, [.whole]⟩ m).map
      (fun m' => m' (2 * addr d [2] + 1)) = some 5 ∧ valueAt e [2] m = 2 := by decide

/-- The same assignment to the real parts finds the overlap. -/
example :
    let d : StridedArr := StridedArr.mk' [3] [1] 2
    let c : StridedArr := StridedArr.mk' [3] [1] 0
    let tmp : StridedArr := StridedArr.container .row_major [3] 100
    let e : MEx Nat := wholeEx (fun x y => x * x + y * y) c
    let m : Mem Nat := fun _ => 1
    partOverlap 0 d e [.whole] = true ∧
    (partAssign plainTraits plainTraits 0 0 0 d tmp ⟨e, [.whole]⟩ m).map
      (fun m' => (List.range 10).map fun (i : Nat) => m' i) =
      some [1, 1, 1, 1, 2, 1, 2, 1, 2, 1] := by decide

/-- `real(c) op= x`, also through `linear_begin()` when `c` is stored contiguously: every part is
replaced by its image, nothing else is written. -/
theorem C76_scalar (k : Nat) (contig : Bool) (c : StridedArr) (f : β → β) (hd : c.WF)
    (hD : Distinct c) (hC : contig = true → ∃ L, (L = .row_major ∨ L = .column_major) ∧ Contig L c)
    (m : Mem β) :
    (∀ idx, InBounds c.shape idx →
      runTrace (partScalarTrace k contig c f) m (2 * addr c idx + k) = f (m (2 * addr c idx + k))) ∧
    ∀ p, (∀ idx, InBounds c.shape idx → p ≠ 2 * addr c idx + k) →
      runTrace (partScalarTrace k contig c f) m p = m p := by
  have hfl : ∃ L, (viewScalarTrace (β := β) contig c id).flatten =
      (orderIndices L c.shape).map (wr c (onElement c id)) := by
    cases contig with
    | true =>
      obtain ⟨L, hL, hC⟩ := hC rfl
      refine ⟨L, ?_⟩
      rw [← linearTrace_flatten hC (fits_onElement hd) trivial]
      · rfl
      · intro c' hc'
        simp only [onElement, Ex.arrs, List.mem_singleton] at hc'
        subst hc'
        exact ⟨rfl, hC⟩
    | false =>
      refine ⟨.row_major, ?_⟩
      rw [← stepperTrace_flatten (Or.inl rfl) hd (fits_onElement hd)]
      unfold viewScalarTrace stepperTrace
      rw [iterScalarLoop_eq]
      rfl
  obtain ⟨L, hfl⟩ := hfl
  have hfl2 : (partScalarTrace k contig c f).flatten = (orderIndices L c.shape).map
      (wr (partArr k c) (onElement (partArr k c) f)) := by
    unfold partScalarTrace
    rw [← List.map_flatten, hfl, List.map_map]
    apply List.map_congr_left
    intro idx h
    have hb : InBounds c.shape idx := mem_orderIndices.1 h
    have hb' : InBounds (partArr k c).shape idx := hb
    simp only [Function.comp, wr, partAddr]
    refine Prod.ext (addr_partArr k c idx).symm ?_
    funext m
    show f (m (2 * addr c idx + k)) = valueAt (onElement (partArr k c) f) idx m
    rw [valueAt_onElement hb' m, addr_partArr]
  obtain ⟨h1, h2⟩ := runTrace_assigned (noInterference_onElement (partArr_distinct hD))
    (partArr_distinct hD) hfl2 m
  refine ⟨fun idx hb => ?_, fun p hp => h2 p fun idx hb => by rw [addr_partArr]; exact hp idx hb⟩
  have hb' : InBounds (partArr k c).shape idx := hb
  have := h1 idx hb
  rwa [valueAt_onElement hb' m, addr_partArr] at this

/-- `real(c) = x`. -/
theorem C76_fill (k : Nat) (c : StridedArr) (x : β) (hd : c.WF) (hD : Distinct c) (m : Mem β) :
    (∀ idx, InBounds c.shape idx → partFill k c x m (2 * addr c idx + k) = x) ∧
    ∀ p, (∀ idx, InBounds c.shape idx → p ≠ 2 * addr c idx + k) → partFill k c x m p = m p :=
  C76_scalar k false c (fun _ => x) hd hD (fun h => by simp at h) m

/-- Filling one part leaves the other unchanged. -/
theorem C76_parts_independent (k l : Nat) (hk : k ≤ 1) (hl : l ≤ 1) (hkl : k ≠ l) (c : StridedArr)
    (x : β) (hd : c.WF) (hD : Distinct c) (m : Mem β) (idx : List Nat) :
    partFill k c x m (2 * addr c idx + l) = m (2 * addr c idx + l) :=
  (C76_fill k c x hd hD m).2 _ fun j _ => by omega

/-! ### Iterators -/

/-- Differences and equality of the iterators of the view are those of positions; `<` is the opposite
of the order of positions: it holds exactly when the first iterator is *not* before the second. -/
theorem C76_order_wrong (L : Layout) (hL : L = .row_major ∨ L = .column_major)
    (c : StridedArr) (hc : c.WF) (h0 : 0 < numel c.shape) (k j n : Nat)
    (hj : j ≤ numel c.shape) (hn : n ≤ numel c.shape) :
    let it : Nat → XIter (partEx (β := β) k c).State := fun i => (partEx k c).nth L c.shape i
    fiterDiff (it n) (it j) = (n : Int) - j ∧ (fiterEqual (it n) (it j) = true ↔ n = j) ∧
    (fiterLess (it n) (it j) = true ↔ j ≤ n) := by
  have hf : Fits c.shape (partEx (β := β) k c) := ⟨hc, broadcastsTo_refl _⟩
  obtain ⟨h1, h2, h3, -⟩ := C23_order L hL c.shape (partEx (β := β) k c) hf h0 j n hj hn
  refine ⟨h1, h2, ?_⟩
  show (!(XIter.lessThan _ _)) = true ↔ _
  rw [Bool.not_eq_true', ← Bool.not_eq_true, h3]
  omega

/-- `begin < end` is false and `begin < begin` is true for a view of three elements. -/
example :
    let c : StridedArr := StridedArr.mk' [3] [1] 0
    let e : MEx Nat := partEx 0 c
    fiterLess (e.iterBegin [3]) (e.iterEnd .row_major [3]) = false ∧
    fiterLess (e.iterBegin [3]) (e.iterBegin [3]) = true := by decide

/-! ### Adaptors -/

/-- `adaptor = e` when all operands have the shape and, for equal layouts, the storage order of the
destination: every part receives the value of the expression.  Missing: operands that are broadcast,
and layouts that do not determine the storage order; see `C76_adaptor_broadcast_wrong` and
`C76_adaptor_dynamic_wrong`. -/
theorem C76_adaptor_partial (k : Nat) (l le : Layout) (c : StridedArr) (e : MEx β) (hd : c.WF)
    (hD : Distinct c) (hf : Fits c.shape e) (hN : NoInterference (partArr k c) e)
    (hlin : l = le → NoGen e ∧ e.arrs ≠ [] ∧ ∃ L, Contig L c ∧
      ∀ c' ∈ e.arrs, c'.shape = c.shape ∧ Contig L c') (m : Mem β) :
    (∀ idx, InBounds c.shape idx →
      adaptorAssign k l le c e m (2 * addr c idx + k) = valueAt e idx m) ∧
    ∀ p, (∀ idx, InBounds c.shape idx → p ≠ 2 * addr c idx + k) →
      adaptorAssign k l le c e m p = m p := by
  have key : ∀ {bs : List (List (Write β))} {L : Layout},
      bs.flatten = (orderIndices L c.shape).map (wr c e) →
      (∀ idx, InBounds c.shape idx →
        runTrace (partTrace k bs) m (2 * addr c idx + k) = valueAt e idx m) ∧
      ∀ p, (∀ idx, InBounds c.shape idx → p ≠ 2 * addr c idx + k) →
        runTrace (partTrace k bs) m p = m p := by
    intro bs L h
    obtain ⟨h1, h2⟩ := runTrace_assigned hN (partArr_distinct hD) (partTrace_flatten (k := k) h) m
    refine ⟨fun idx hb => ?_, fun p hp => h2 p fun idx hb => by rw [addr_partArr]; exact hp idx hb⟩
    have := h1 idx hb
    rwa [addr_partArr] at this
  unfold adaptorAssign
  by_cases hl : l = le
  · obtain ⟨hg, hne, L, hC, ha⟩ := hlin hl
    have hlen : linearLength e = c.size := by
      unfold linearLength
      obtain ⟨x, xs, hx⟩ := List.exists_cons_of_ne_nil hne
      rw [hx]
      simp only
      rw [StridedArr.size_eq, StridedArr.size_eq, (ha x (by rw [hx]; simp)).1]
    rw [if_pos (by simpa using hl), hlen]
    exact key (linearTrace_flatten hC hf hg ha)
  · rw [if_neg (by simpa using hl)]
    exact key (stepperTrace_flatten (Or.inl rfl) hd hf)

/-- `adaptor = x + y`, row major, where one operand has shape `[2, 2]` and the other `[2]`.  With the
matrix first, the vector (cells 104, 105) is read past its end: element (1, 0) becomes 102 + 106
instead of 102 + 104.  With the vector first, only two of the four elements are assigned. -/
theorem C76_adaptor_broadcast_wrong :
    let c : StridedArr := StridedArr.container .row_major [2, 2] 0
    let x : StridedArr := StridedArr.container .row_major [2, 2] 100
    let y : StridedArr := StridedArr.container .row_major [2] 104
    let xy : MEx Nat := binEx (· + ·) x (rdArr y)
    let yx : MEx Nat := binEx (· + ·) y (rdArr x)
    let m : Mem Nat := fun p => p.toNat
    valueAt xy [1, 0] m = 206 ∧ valueAt yx [1, 0] m = 206 ∧
    adaptorAssign 0 .row_major .row_major c xy m (2 * addr c [1, 0]) = 208 ∧
    adaptorAssign 0 .row_major .row_major c yx m (2 * addr c [1, 0]) = 4 := by decide

/-- Both layouts `dynamic`: the storage is copied in order although the strides differ; element
(0, 1) of the destination receives element (1, 0). -/
theorem C76_adaptor_dynamic_wrong :
    let c : StridedArr := StridedArr.mk' [2, 2] [1, 2] 0
    let x : StridedArr := StridedArr.mk' [2, 2] [2, 1] 100
    let m : Mem Nat := fun p => p.toNat
    valueAt (rdArr x) [0, 1] m = 101 ∧
    adaptorAssign 0 .dynamic .dynamic c (rdArr x) m (2 * addr c [0, 1]) = 102 := by decide

/-- `real(a) = imag(a)`: a temporary is used; the real parts become the imaginary parts. -/
example :
    let c := StridedArr.container .row_major [3] 0
    let tmp := StridedArr.container .row_major [3] 100
    let r : PartRhs Int := ⟨partEx 1 c, [.part 1]⟩
    (∃ m', partAssign plainTraits plainTraits 0 0 0 c tmp r (fun p => p * p) = some m' ∧
      ∀ idx, InBounds [3] idx → m' (2 * addr c idx + (0 : Nat)) = valueAt r.e idx (fun p => p * p)) ∧
    partOverlap 0 c r.e r.kinds = true := by
  have hc : ∀ sh off, Contig .row_major (StridedArr.container .row_major sh off) :=
    fun sh off => container_contig (Or.inl rfl) sh off
  refine ⟨?_, by decide⟩
  obtain ⟨m', h1, h2, -⟩ := C76_assign_partial (β := Int) plainTraits plainTraits 0 0 0
    (StridedArr.container .row_major [3] 0) (StridedArr.container .row_major [3] 100)
    ⟨partEx 1 (StridedArr.container .row_major [3] 0), [.part 1]⟩ [3] (Or.inl rfl)
    (fun j h => by simp at h; omega) (container_wf _ _)
    (by show szMax ∉ [3]; decide) (by decide)
    (fun idx hb m m' h => by
      simp only [partEx, Ex.arrs, List.zip_cons_cons, List.zip_nil_right, List.mem_singleton,
        forall_eq, cellsOf] at h
      simp only [partEx, valueAt, partAddr]
      exact h)
    (hull_container _ _)
    (fun c h => by
      simp only [partEx, Ex.arrs, List.mem_singleton] at h
      subst h; exact hull_container _ _)
    rfl (broadcastsTo_refl _) (container_wf _ _) (container_distinct (Or.inl rfl) _ _)
    (container_wf _ _) (container_distinct (Or.inl rfl) _ _) rfl
    (fun j hj => by
      have hj' := contig_addr_range (hc [3] 100) hj
      have h3 : ∀ off, numel (StridedArr.container .row_major [3] off).shape = 3 := fun _ => rfl
      have h4 : ∀ off, (StridedArr.container .row_major [3] off).off = off := fun _ => rfl
      rw [h3, h4] at hj'
      constructor
      · intro x hx i hi
        simp only [partEx, Ex.arrs, List.zip_cons_cons, List.zip_nil_right, List.mem_singleton] at hx
        subst hx
        have hi' := contig_addr_range (hc [3] 0) hi
        rw [h3, h4] at hi'
        simp only [cellsOf, List.mem_singleton]
        omega
      · intro i hi
        have hi' := contig_addr_range (hc [3] 0) hi
        rw [h3, h4] at hi'
        omega)
    (fun rhs _ => ⟨plainTraits_ok _ _, plainTraits_ok _ _⟩) (by decide)
    (by decide) (by decide) (fun p => p * p)
  exact ⟨m', h1, h2⟩

/-- `imag(a) += 10` on a 2 by 2 array; iteration over `imag(a)`. -/
example :
    let c := StridedArr.container .row_major [2, 2] 0
    (List.range 8).map (fun (i : Nat) =>
      runTrace (partScalarTrace 1 true c (· + 10)) (fun p => p) (i : Int)) =
        [0, 11, 2, 13, 4, 15, 6, 17] ∧
    (List.range 8).map (fun (i : Nat) => partFill 0 c 7 (fun p => p) (i : Int)) =
        [7, 1, 7, 3, 7, 5, 7, 7] ∧
    ((partEx (β := Int) 1 c).values .column_major [2, 2]).map (fun v => v fun p => p) = [1, 5, 3, 7] ∧
    Contig .row_major c ∧ Distinct c ∧ c.WF :=
  ⟨by decide, by decide, by decide, container_contig (Or.inl rfl) _ _,
    container_distinct (Or.inl rfl) _ _, container_wf _ _⟩

/-- `adaptor = x` with a container of the same layout and with one of the other layout. -/
example :
    let c := StridedArr.container .row_major [2, 2] 0
    let x := StridedArr.container .row_major [2, 2] 100
    let y := StridedArr.container .column_major [2, 2] 100
    let m : Mem Int := fun p => p
    (List.range 8).map (fun (i : Nat) =>
      adaptorAssign 0 .row_major .row_major c (rdArr x) m (i : Int)) = [100, 1, 101, 3, 102, 5, 103, 7] ∧
    (List.range 8).map (fun (i : Nat) =>
      adaptorAssign 0 .row_major .column_major c (rdArr y) m (i : Int)) = [100, 1, 102, 3, 101, 5, 103, 7] ∧
    (∀ idx, InBounds c.shape idx →
      adaptorAssign 0 .row_major .row_major c (rdArr x) m (2 * addr c idx + (0 : Nat)) =
        valueAt (rdArr x) idx m) := by
  have hc : ∀ sh off, Contig .row_major (StridedArr.container .row_major sh off) :=
    fun sh off => container_contig (Or.inl rfl) sh off
  have hf : Fits [2, 2] (rdArr (β := Int) (StridedArr.container .row_major [2, 2] 100)) :=
    ⟨container_wf _ _, broadcastsTo_refl _⟩
  refine ⟨by decide, by decide, (C76_adaptor_partial (β := Int) 0 .row_major .row_major
    (StridedArr.container .row_major [2, 2] 0) (rdArr (StridedArr.container .row_major [2, 2] 100))
    (container_wf _ _) (container_distinct (Or.inl rfl) _ _) hf ?_ ?_ _).1⟩
  · refine noInterference_of_doesNotRead (doesNotReadIn_of rfl hf ?_)
    intro c h i j hi hj
    simp only [rdArr, Ex.arrs, List.mem_singleton] at h
    subst h
    rw [addr_partArr]
    have hi' := contig_addr_range (hc [2, 2] 100) hi
    have hj' := contig_addr_range (hc [2, 2] 0) hj
    have h3 : ∀ off, numel (StridedArr.container .row_major [2, 2] off).shape = 4 := fun _ => rfl
    have h4 : ∀ off, (StridedArr.container .row_major [2, 2] off).off = off := fun _ => rfl
    rw [h3, h4] at hi' hj'
    omega
  · intro _
    refine ⟨trivial, by simp [rdArr, Ex.arrs], .row_major, hc _ _, ?_⟩
    intro c h
    simp only [rdArr, Ex.arrs, List.mem_singleton] at h
    subst h
    exact ⟨rfl, hc _ _⟩

end Xt
