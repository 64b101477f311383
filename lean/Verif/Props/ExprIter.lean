import Verif.Props.Iterator
/-!
# Iteration over lazy expressions (C22, C23)
-/

namespace Xt
open Spec

variable {α : Type}

/-! ### Specification of the value of an expression at an index -/

mutual
/-- Value of the expression at an index: operands are read at the broadcast index, functions are
applied pointwise. -/
def Spec.valueAt : Ex α → List Nat → α
  | .arr c mem, idx => mem (c.off + dot c.strides (toInts (bcIndex c.shape idx)))
  | .scalar v, _ => v
  | .gen sh g, idx => g (toInts (bcIndex sh idx))
  | .fn f args, idx => f (valuesAt args idx)
  | .bcast e s, idx => valueAt e (bcIndex s idx)
/-- Values of the operands of a function. -/
def Spec.valuesAt : Args α → List Nat → List α
  | .nil, _ => []
  | .cons e es, idx => valueAt e idx :: valuesAt es idx
end

mutual
/-- The expression can be evaluated under the shape: every operand is well formed and its shape
broadcasts to it; generators have at least one axis (the past-the-end stepper of a 0-d generator
writes outside its index). -/
def Spec.Fits (sh : List Nat) : Ex α → Prop
  | .arr c _ => c.WF ∧ BroadcastsTo c.shape sh
  | .scalar _ => True
  | .gen s _ => s ≠ [] ∧ BroadcastsTo s sh
  | .fn _ args => FitsAll sh args
  | .bcast e s => BroadcastsTo s sh ∧ Fits s e
/-- All operands fit. -/
def Spec.FitsAll (sh : List Nat) : Args α → Prop
  | .nil => True
  | .cons e es => Fits sh e ∧ FitsAll sh es
end

mutual
/-- No operand is a zero-dimensional array (scalars are allowed). -/
def Spec.NoZeroDim : Ex α → Prop
  | .arr c _ => c.shape ≠ []
  | .scalar _ => True
  | .gen _ _ => True
  | .fn _ args => NoZeroDimAll args
  | .bcast e _ => NoZeroDim e
/-- No operand of the function is. -/
def Spec.NoZeroDimAll : Args α → Prop
  | .nil => True
  | .cons e es => NoZeroDim e ∧ NoZeroDimAll es
end

mutual
/-- No operand is a generator. -/
def Spec.NoGen : Ex α → Prop
  | .arr _ _ => True
  | .scalar _ => True
  | .gen _ _ => False
  | .fn _ args => NoGenAll args
  | .bcast e _ => NoGen e
/-- No operand of the function is. -/
def Spec.NoGenAll : Args α → Prop
  | .nil => True
  | .cons e es => NoGen e ∧ NoGenAll es
end

/-! ### Broadcast indices -/

theorem getD_bcIndex {csh idx : List Nat} (hl : csh.length ≤ idx.length) {k : Nat}
    (hk : k < csh.length) :
    (bcIndex csh idx).getD k 0 =
      if csh.getD k 0 = 1 then 0 else idx.getD (k + (idx.length - csh.length)) 0 := by
  unfold bcIndex
  simp only [List.getD_eq_getElem?_getD, List.getElem?_zipWith, List.getElem?_drop]
  rw [List.getElem?_eq_getElem hk, Nat.add_comm k,
    List.getElem?_eq_getElem (show idx.length - csh.length + k < idx.length by omega)]
  simp

theorem length_bcIndex {csh idx : List Nat} (hl : csh.length ≤ idx.length) :
    (bcIndex csh idx).length = csh.length := by
  simp [bcIndex]; omega

theorem ext_getD {a b : List Nat} (h : a.length = b.length)
    (h' : ∀ k, k < a.length → a.getD k 0 = b.getD k 0) : a = b := by
  apply List.ext_getElem h
  intro k h1 h2
  have := h' k h1
  simpa [List.getD_eq_getElem?_getD, h1, h2] using this

theorem BroadcastsTo.trans {a b c : List Nat} (h1 : BroadcastsTo a b) (h2 : BroadcastsTo b c) :
    BroadcastsTo a c := by
  have l1 := h1.1
  have l2 := h2.1
  refine ⟨by omega, fun k hk => ?_⟩
  rcases h1.2 k hk with h | h
  · exact Or.inl h
  · have := h2.2 (k + (b.length - a.length)) (by omega)
    rw [show k + (b.length - a.length) + (c.length - b.length) = k + (c.length - a.length) by omega]
      at this
    rcases this with h' | h'
    · exact Or.inl (by omega)
    · exact Or.inr (by omega)

theorem bcIndex_bcIndex {a b idx : List Nat} (h1 : BroadcastsTo a b) (hl : b.length ≤ idx.length) :
    bcIndex a (bcIndex b idx) = bcIndex a idx := by
  have l1 := h1.1
  have e1 := length_bcIndex hl
  apply ext_getD
  · rw [length_bcIndex (by omega), length_bcIndex (by omega)]
  · intro k hk
    rw [length_bcIndex (by omega)] at hk
    rw [getD_bcIndex (by omega) hk, getD_bcIndex (by omega) hk, e1,
      getD_bcIndex hl (by omega)]
    by_cases h : a.getD k 0 = 1
    · rw [if_pos h, if_pos h]
    · rw [if_neg h, if_neg h]
      rcases h1.2 k hk with h' | h'
      · exact absurd h' h
      · rw [if_neg (by omega)]
        congr 1
        omega

theorem bcIndex_self {sh idx : List Nat} (h : InBounds sh idx) : bcIndex sh idx = idx := by
  have hlen := h.length_eq
  apply ext_getD
  · rw [length_bcIndex (by omega)]; omega
  · intro k hk
    rw [length_bcIndex (by omega)] at hk
    rw [getD_bcIndex (by omega) hk]
    have := h.getD_lt hk
    split
    · omega
    · congr 1; omega

theorem inBounds_bcIndex {a sh idx : List Nat} (h1 : BroadcastsTo a sh) (h : InBounds sh idx) :
    InBounds a (bcIndex a idx) := by
  have hlen := h.length_eq
  have l1 := h1.1
  rw [inBounds_iff_get]
  refine ⟨length_bcIndex (by omega), fun k hk => ?_⟩
  rw [getD_bcIndex (by omega) hk]
  split
  · omega
  · rename_i hne
    rcases h1.2 k hk with h' | h'
    · exact absurd h' hne
    · rw [h', hlen]; exact h.getD_lt (by omega)

/-- For a well-formed operand the extent-1 coordinates do not matter. -/
theorem dot_bcIndex {c : StridedArr} (hc : c.WF) {idx : List Nat}
    (hl : c.shape.length ≤ idx.length) :
    dot c.strides (toInts (idx.drop (idx.length - c.shape.length))) =
      dot c.strides (toInts (bcIndex c.shape idx)) := by
  rw [← sum_range_dot _ _ c.shape.length hc.len (by simp [toInts]; omega),
    ← sum_range_dot _ _ c.shape.length hc.len (by simp [toInts, length_bcIndex hl])]
  congr 1
  apply List.map_congr_left
  intro k hk
  have hk : k < c.shape.length := by simpa using hk
  have e : ∀ l : List Nat, (toInts l).getD k 0 = (l.getD k 0 : Int) := by
    intro l
    simp only [toInts, List.getD_eq_getElem?_getD, List.getElem?_map]
    cases l[k]? <;> simp
  rw [e, e, getD_bcIndex hl hk]
  by_cases h : c.shape.getD k 0 = 1
  · rw [hc.unit k h]; simp only [Int.zero_mul]
  · rw [if_neg h]
    have : (idx.drop (idx.length - c.shape.length)).getD k 0 =
        idx.getD (k + (idx.length - c.shape.length)) 0 := by
      simp only [List.getD_eq_getElem?_getD, List.getElem?_drop, Nat.add_comm k]
    rw [this]

/-! ### The stepper of an expression -/

/-- `xindexed_stepper` stands at an index, up to the coordinates on extent-1 axes. -/
def GAt (s : List Nat) (ix : List Int) (idx : List Nat) : Prop :=
  ix.length = s.length ∧ s.length ≤ idx.length ∧ ∀ k, k < s.length → s.getD k 0 ≠ 1 →
    ix.getD k 0 = (idx.getD (k + (idx.length - s.length)) 0 : Nat)

theorem getD_set_int {l : List Int} {a k : Nat} {v : Int} (ha : a < l.length) :
    (l.set a v).getD k 0 = if a = k then v else l.getD k 0 := by
  simp only [List.getD_eq_getElem?_getD, List.getElem?_set]
  by_cases h : a = k
  · subst h; simp [ha]
  · simp [h]

theorem getD_set_nat {l : List Nat} {a k : Nat} {v : Nat} (ha : a < l.length) :
    (l.set a v).getD k 0 = if a = k then v else l.getD k 0 := by
  simp only [List.getD_eq_getElem?_getD, List.getElem?_set]
  by_cases h : a = k
  · subst h; simp [ha]
  · simp [h]

theorem GAt.move {s sh idx : List Nat} {ix : List Int} (h : BroadcastsTo s sh)
    (hR : GAt s ix idx) (hb : InBounds sh idx) {a v : Nat} (ha : a < sh.length) {w : Int}
    (hw : a ≥ sh.length - s.length → s.getD (a - (sh.length - s.length)) 0 ≠ 1 → w = v) :
    GAt s (if a ≥ sh.length - s.length then ix.set (a - (sh.length - s.length)) w else ix)
      (idx.set a v) := by
  obtain ⟨h1, h2, h3⟩ := hR
  have hl := h.1
  have hlen := hb.length_eq
  refine ⟨by split <;> simp [h1], by simpa using h2, fun k hk hk1 => ?_⟩
  rw [List.length_set, getD_set_nat (by omega), hlen]
  have h3' := h3 k hk hk1
  rw [hlen] at h3'
  by_cases ho : a ≥ sh.length - s.length
  · rw [if_pos ho, getD_set_int (by omega)]
    by_cases hak : a - (sh.length - s.length) = k
    · rw [if_pos hak, if_pos (by omega)]
      exact hw ho (by rwa [hak])
    · rw [if_neg hak, if_neg (by omega)]; exact h3'
  · rw [if_neg ho, if_neg (by omega)]; exact h3'

theorem GAt.coord {s sh idx : List Nat} {ix : List Int} (h : BroadcastsTo s sh)
    (hR : GAt s ix idx) (hb : InBounds sh idx) {a : Nat} (ha : a < sh.length)
    (ho : a ≥ sh.length - s.length) (h1 : s.getD (a - (sh.length - s.length)) 0 ≠ 1) :
    ix.getD (a - (sh.length - s.length)) 0 = (idx.getD a 0 : Nat) ∧
      s.getD (a - (sh.length - s.length)) 0 = sh.getD a 0 := by
  have hl := h.1
  have := hR.2.2 (a - (sh.length - s.length)) (by omega) h1
  rw [hb.length_eq, show a - (sh.length - s.length) + (sh.length - s.length) = a by omega] at this
  exact ⟨this, (broadcast_axis h ha ho).resolve_left h1⟩

theorem gen_fwd {s sh : List Nat} (h : BroadcastsTo s sh) :
    FwdLaw (xindexedOps s (sh.length - s.length)) sh (GAt s) where
  step ix idx a n hR hb ha h0 h1 :=
    GAt.move h hR hb ha (fun ho hu => by
      rw [(GAt.coord h hR hb ha ho hu).1, Int.toNat_of_nonneg h0])
  reset ix idx a hR hb ha h1 := GAt.move h hR hb ha (fun _ _ => by simp)

theorem getD_map_sub (sh : List Nat) (k : Nat) : (sh.map (· - 1)).getD k 0 = sh.getD k 0 - 1 := by
  simp only [List.getD_eq_getElem?_getD, List.getElem?_map]
  cases sh[k]? <;> simp

theorem gen_back {s sh : List Nat} (h : BroadcastsTo s sh) (hs : s ≠ []) (p0 : List Int) :
    BackLaw (xindexedOps s (sh.length - s.length)) sh .row_major (GAt s)
      (fun p => p = (xindexedOps s (sh.length - s.length)).toEnd p0 .row_major) where
  stepBack ix idx a n hR hb ha h0 h1 :=
    GAt.move h hR hb ha (fun ho hu => by
      rw [(GAt.coord h hR hb ha ho hu).1, Int.toNat_of_nonneg h0])
  resetBack ix idx a hR hb ha h1 := GAt.move h hR hb ha (fun ho hu => by
      rw [(GAt.coord h hR hb ha ho hu).2]
      have := hb.getD_lt ha
      omega)
  toEnd _ _ _ _ := rfl
  endBack st n hE hn hsh h1 h2 := by
    subst hE
    have hl := h.1
    have hsl : 0 < s.length := List.length_pos_iff.2 hs
    have hpos : ∀ k, k < sh.length → 0 < sh.getD k 0 := fun k hk => by
      have := (inBounds_last hn).getD_lt hk; omega
    have hlen : ∀ v, ((sh.map (· - 1)).set (leadAxis .row_major sh.length) v).length = sh.length := by
      simp
    have hbase' : ∀ k, k < s.length →
        (s.map fun (n : Nat) => (n : Int) - 1).getD k 0 = (s.getD k 0 : Int) - 1 := by
      intro k hk
      simp [List.getD_eq_getElem?_getD, List.getElem?_map, List.getElem?_eq_getElem hk]
    refine ⟨?_, by rw [hlen]; exact hl, fun k hk hk1 => ?_⟩
    · simp only [xindexedOps]; split <;> simp
    · simp only [leadAxis, if_true] at *
      rw [hlen, getD_set_nat (by simp; omega), getD_map_sub]
      have hbk := (h.2 k hk).resolve_left hk1
      have hp := hpos (k + (sh.length - s.length)) (by omega)
      simp only [xindexedOps, if_true]
      rw [if_pos (show sh.length - 1 ≥ sh.length - s.length by omega),
        show sh.length - 1 - (sh.length - s.length) = s.length - 1 by omega,
        getD_set_int (by simp; omega), getD_set_int (by simp; omega),
        getD_set_int (by simp; omega), if_pos rfl, hbase' k hk]
      by_cases hkl : s.length - 1 = k
      · subst hkl
        rw [if_pos rfl, if_pos (by omega), hbk,
          show s.length - 1 + (sh.length - s.length) = sh.length - 1 by omega]
        omega
      · rw [if_neg hkl, if_neg hkl, if_neg (by omega), hbk]; omega
  endBegin st hE hsh := by
    subst hsh
    have := h.1
    exact absurd (List.eq_nil_of_length_eq_zero (by simpa using this)) hs

/-- The clamped coordinates are those of the broadcast index. -/
theorem GAt.bounded {s sh idx : List Nat} {ix : List Int} (h : BroadcastsTo s sh)
    (hR : GAt s ix idx) (hb : InBounds sh idx) : boundedIndex s ix = toInts (bcIndex s idx) := by
  have hl := h.1
  have hlen := hb.length_eq
  apply List.ext_getElem
  · simp [boundedIndex, toInts, length_bcIndex (show s.length ≤ idx.length by omega), hR.1]
  · intro k h1 h2
    have hk : k < s.length := by simp [boundedIndex] at h1; omega
    have e1 : (boundedIndex s ix)[k] = boundedCoord (s.getD k 0) (ix.getD k 0) := by
      have : k < ix.length := by rw [hR.1]; exact hk
      simp [boundedIndex, List.getD_eq_getElem?_getD, hk, this]
    have e2 : (toInts (bcIndex s idx))[k] = ((bcIndex s idx).getD k 0 : Nat) := by
      have : k < (bcIndex s idx).length := by rw [length_bcIndex (by omega)]; exact hk
      simp [toInts, List.getD_eq_getElem?_getD, this]
    rw [e1, e2, getD_bcIndex (by omega) hk]
    by_cases hu : s.getD k 0 = 1
    · rw [if_pos hu, hu]
      simp only [boundedCoord]
      split <;> omega
    · rw [if_neg hu, hR.2.2 k hk hu]
      have hbk := (h.2 k hk).resolve_left hu
      have := hb.getD_lt (a := k + (sh.length - s.length)) (by omega)
      rw [hlen]
      simp only [boundedCoord]
      rw [if_neg (by omega)]
      omega

mutual
/-- The stepper of the expression stands at `idx`. -/
def ExAt : (e : Ex α) → e.State → List Nat → Prop
  | .arr c _, p, idx => XAt c p idx
  | .scalar _, _, _ => True
  | .gen s _, p, idx => GAt s p idx
  | .fn _ args, p, idx => ArgsAt args p idx
  | .bcast e _, p, idx => ExAt e p idx
/-- Every operand's stepper does. -/
def ArgsAt : (es : Args α) → es.States → List Nat → Prop
  | .nil, _, _ => True
  | .cons e es, p, idx => ExAt e p.1 idx ∧ ArgsAt es p.2 idx
end

mutual
theorem Ex.fits_trans {s sh : List Nat} (h : BroadcastsTo s sh) : ∀ (e : Ex α), Fits s e → Fits sh e
  | .arr _ _, hf => ⟨hf.1, BroadcastsTo.trans hf.2 h⟩
  | .scalar _, _ => trivial
  | .gen _ _, hf => ⟨hf.1, BroadcastsTo.trans hf.2 h⟩
  | .fn _ args, hf => Args.fits_trans h args hf
  | .bcast _ _, hf => ⟨BroadcastsTo.trans hf.1 h, hf.2⟩
theorem Args.fits_trans {s sh : List Nat} (h : BroadcastsTo s sh) :
    ∀ (es : Args α), FitsAll s es → FitsAll sh es
  | .nil, _ => trivial
  | .cons e es, hf => ⟨Ex.fits_trans h e hf.1, Args.fits_trans h es hf.2⟩
end

theorem fwd_pair {σ : Type u} {τ : Type v} {a : StepOps σ} {b : StepOps τ} {sh : List Nat}
    {R : σ → List Nat → Prop} {S : τ → List Nat → Prop} (ha : FwdLaw a sh R) (hb : FwdLaw b sh S) :
    FwdLaw (pairOps a b) sh (fun p idx => R p.1 idx ∧ S p.2 idx) where
  step p idx k n hR hi hk h0 h1 :=
    ⟨ha.step _ _ _ _ hR.1 hi hk h0 h1, hb.step _ _ _ _ hR.2 hi hk h0 h1⟩
  reset p idx k hR hi hk h0 := ⟨ha.reset _ _ _ hR.1 hi hk h0, hb.reset _ _ _ hR.2 hi hk h0⟩

theorem back_pair {σ : Type u} {τ : Type v} {a : StepOps σ} {b : StepOps τ} {sh : List Nat}
    {L : Layout} {R : σ → List Nat → Prop} {S : τ → List Nat → Prop} {E : σ → Prop} {F : τ → Prop}
    (ha : BackLaw a sh L R E) (hb : BackLaw b sh L S F) :
    BackLaw (pairOps a b) sh L (fun p idx => R p.1 idx ∧ S p.2 idx) (fun p => E p.1 ∧ F p.2) where
  stepBack p idx k n hR hi hk h0 h1 :=
    ⟨ha.stepBack _ _ _ _ hR.1 hi hk h0 h1, hb.stepBack _ _ _ _ hR.2 hi hk h0 h1⟩
  resetBack p idx k hR hi hk h0 :=
    ⟨ha.resetBack _ _ _ hR.1 hi hk h0, hb.resetBack _ _ _ hR.2 hi hk h0⟩
  toEnd p idx hR hi := ⟨ha.toEnd _ _ hR.1 hi, hb.toEnd _ _ hR.2 hi⟩
  endBack p n hE h0 h1 h2 h3 := ⟨ha.endBack _ _ hE.1 h0 h1 h2 h3, hb.endBack _ _ hE.2 h0 h1 h2 h3⟩
  endBegin p hE h0 := ⟨ha.endBegin _ hE.1 h0, hb.endBegin _ hE.2 h0⟩

mutual
theorem Ex.fwd {sh : List Nat} : ∀ (e : Ex α), Fits sh e → FwdLaw (e.ops sh.length) sh (ExAt e)
  | .arr _ _, hf => xstepper_fwd hf.1 hf.2
  | .scalar _, _ => ⟨fun _ _ _ _ _ _ _ _ _ => trivial, fun _ _ _ _ _ _ _ => trivial⟩
  | .gen _ _, hf => gen_fwd hf.2
  | .fn _ args, hf => Args.fwd args hf
  | .bcast e _, hf => Ex.fwd e (Ex.fits_trans hf.1 e hf.2)
theorem Args.fwd {sh : List Nat} :
    ∀ (es : Args α), FitsAll sh es → FwdLaw (es.opss sh.length) sh (ArgsAt es)
  | .nil, _ => ⟨fun _ _ _ _ _ _ _ _ _ => trivial, fun _ _ _ _ _ _ _ => trivial⟩
  | .cons e es, hf => fwd_pair (Ex.fwd e hf.1) (Args.fwd es hf.2)
end

mutual
theorem Ex.toEnd_const {n : Nat} {L : Layout} : ∀ (e : Ex α) (p q : e.State),
    (e.ops n).toEnd p L = (e.ops n).toEnd q L
  | .arr _ _, _, _ => rfl
  | .scalar _, _, _ => rfl
  | .gen _ _, _, _ => rfl
  | .fn _ args, p, q => Args.toEnd_const args p q
  | .bcast e _, p, q => Ex.toEnd_const e p q
theorem Args.toEnd_const {n : Nat} {L : Layout} : ∀ (es : Args α) (p q : es.States),
    (es.opss n).toEnd p L = (es.opss n).toEnd q L
  | .nil, _, _ => rfl
  | .cons e es, p, q => Prod.ext (Ex.toEnd_const e p.1 q.1) (Args.toEnd_const es p.2 q.2)
end

mutual
theorem Ex.stEnd_eq {n : Nat} {L : Layout} : ∀ (e : Ex α) (p : e.State),
    (NoGen e ∨ L = .row_major) → e.stEnd n L = (e.ops n).toEnd p L
  | .arr _ _, _, _ => rfl
  | .scalar _, _, _ => rfl
  | .gen _ _, _, h => by
    rcases h with h | rfl
    · exact h.elim
    · rfl
  | .fn _ args, p, h => Args.stEnds_eq args p h
  | .bcast e _, p, h => Ex.stEnd_eq e p h
theorem Args.stEnds_eq {n : Nat} {L : Layout} : ∀ (es : Args α) (p : es.States),
    (NoGenAll es ∨ L = .row_major) → es.stEnds n L = (es.opss n).toEnd p L
  | .nil, _, _ => rfl
  | .cons e es, p, h => Prod.ext (Ex.stEnd_eq e p.1 (h.imp And.left id))
      (Args.stEnds_eq es p.2 (h.imp And.right id))
end

/-- The past-the-end stepper state reached by `to_end(L)`. -/
def ExEnd (e : Ex α) (n : Nat) (L : Layout) (p : e.State) : Prop :=
  p = (e.ops n).toEnd e.stBegin L

/-- The same for the operands of a function. -/
def ArgsEnd (es : Args α) (n : Nat) (L : Layout) (p : es.States) : Prop :=
  p = (es.opss n).toEnd es.stBegins L

theorem Ex.toEnd_end {n : Nat} {L : Layout} (e : Ex α) (p : e.State) :
    ExEnd e n L ((e.ops n).toEnd p L) := Ex.toEnd_const e p _

mutual
/-- Moving backwards: no zero-dimensional array, and no generator in column major order. -/
theorem Ex.back {sh : List Nat} {L : Layout} (hL : L = .row_major ∨ L = .column_major) :
    ∀ (e : Ex α), Fits sh e → (NoZeroDim e ∨ sh = []) → (NoGen e ∨ L = .row_major) →
      BackLaw (e.ops sh.length) sh L (ExAt e) (ExEnd e sh.length L)
  | .arr c _, hf, h0, _ => xstepper_back hf.1 hf.2 hL h0
  | .scalar _, _, _, _ => ⟨fun _ _ _ _ _ _ _ _ _ => trivial, fun _ _ _ _ _ _ _ => trivial,
      fun _ _ _ _ => rfl, fun _ _ _ _ _ _ _ => trivial, fun _ _ _ => trivial⟩
  | .gen _ _, hf, _, h => by
    rcases h with h | rfl
    · exact h.elim
    · exact gen_back hf.2 hf.1 _
  | .fn _ args, hf, h0, h => Args.back hL args hf h0 h
  | .bcast e _, hf, h0, h => Ex.back hL e (Ex.fits_trans hf.1 e hf.2) h0 h
theorem Args.back {sh : List Nat} {L : Layout} (hL : L = .row_major ∨ L = .column_major) :
    ∀ (es : Args α), FitsAll sh es → (NoZeroDimAll es ∨ sh = []) → (NoGenAll es ∨ L = .row_major) →
      BackLaw (es.opss sh.length) sh L (ArgsAt es) (ArgsEnd es sh.length L)
  | .nil, _, _, _ => ⟨fun _ _ _ _ _ _ _ _ _ => trivial, fun _ _ _ _ _ _ _ => trivial,
      fun _ _ _ _ => rfl, fun _ _ _ _ _ _ _ => trivial, fun _ _ _ => trivial⟩
  | .cons e es, hf, h0, hg => by
    have h := back_pair (Ex.back hL e hf.1 (h0.imp And.left id) (hg.imp And.left id))
      (Args.back hL es hf.2 (h0.imp And.right id) (hg.imp And.right id))
    have e' : (fun p : e.State × es.States =>
        ExEnd e sh.length L p.1 ∧ ArgsEnd es sh.length L p.2) =
        ArgsEnd (Args.cons e es) sh.length L := by
      funext p
      refine propext ⟨fun h => Prod.ext h.1 h.2, fun h => ?_⟩
      have h : p = ((Args.cons e es).opss sh.length).toEnd (Args.cons e es).stBegins L := h
      rw [h]
      exact ⟨rfl, rfl⟩
    rw [e'] at h
    exact h
end

mutual
theorem Ex.at_begin {sh : List Nat} :
    ∀ (e : Ex α), Fits sh e → ExAt e e.stBegin (List.replicate sh.length 0)
  | .arr c _, hf => by
    have hl := hf.2.1
    unfold ExAt XAt
    have : toInts ((List.replicate sh.length 0).drop
        ((List.replicate sh.length 0).length - c.shape.length)) =
        List.replicate c.shape.length (0 : Int) := by
      simp [toInts]; omega
    rw [this, dot_replicate_zero]
    simp [Ex.stBegin, xstepperBegin]
  | .scalar _, _ => trivial
  | .gen s _, hf => by
    have hl := hf.2.1
    refine ⟨by simp [Ex.stBegin], by simpa using hl, fun k hk _ => ?_⟩
    simp [Ex.stBegin, List.getD_eq_getElem?_getD, List.getElem?_replicate]
    split <;> split <;> simp
  | .fn _ args, hf => Args.at_begin args hf
  | .bcast e _, hf => Ex.at_begin e (Ex.fits_trans hf.1 e hf.2)
theorem Args.at_begin {sh : List Nat} :
    ∀ (es : Args α), FitsAll sh es → ArgsAt es es.stBegins (List.replicate sh.length 0)
  | .nil, _ => trivial
  | .cons e es, hf => ⟨Ex.at_begin e hf.1, Args.at_begin es hf.2⟩
end

mutual
theorem Ex.at_unique : ∀ (e : Ex α) (p q : e.State) (idx : List Nat), NoGen e →
    ExAt e p idx → ExAt e q idx → p = q
  | .arr _ _, _, _, _, _, h1, h2 => h1.trans h2.symm
  | .scalar _, _, _, _, _, _, _ => rfl
  | .gen _ _, _, _, _, h, _, _ => h.elim
  | .fn _ args, p, q, idx, h, h1, h2 => Args.at_unique args p q idx h h1 h2
  | .bcast e _, p, q, idx, h, h1, h2 => Ex.at_unique e p q idx h h1 h2
theorem Args.at_unique : ∀ (es : Args α) (p q : es.States) (idx : List Nat), NoGenAll es →
    ArgsAt es p idx → ArgsAt es q idx → p = q
  | .nil, _, _, _, _, _, _ => rfl
  | .cons e es, p, q, idx, h, h1, h2 =>
    Prod.ext (Ex.at_unique e _ _ idx h.1 h1.1 h2.1) (Args.at_unique es _ _ idx h.2 h1.2 h2.2)
end

mutual
/-- Values are unchanged when the index is first broadcast to a shape the expression fits. -/
theorem Ex.value_bcIndex {s : List Nat} : ∀ (e : Ex α) (idx : List Nat), Fits s e →
    s.length ≤ idx.length → valueAt e (bcIndex s idx) = valueAt e idx
  | .arr c mem, idx, hf, hl => by simp only [valueAt]; rw [bcIndex_bcIndex hf.2 hl]
  | .scalar _, _, _, _ => rfl
  | .gen _ _, idx, hf, hl => by simp only [valueAt]; rw [bcIndex_bcIndex hf.2 hl]
  | .fn f args, idx, hf, hl => by simp only [valueAt]; rw [Args.value_bcIndex args idx hf hl]
  | .bcast e t, idx, hf, hl => by simp only [valueAt]; rw [bcIndex_bcIndex hf.1 hl]
theorem Args.value_bcIndex {s : List Nat} : ∀ (es : Args α) (idx : List Nat), FitsAll s es →
    s.length ≤ idx.length → valuesAt es (bcIndex s idx) = valuesAt es idx
  | .nil, _, _, _ => rfl
  | .cons e es, idx, hf, hl => by
    simp only [valuesAt]; rw [Ex.value_bcIndex e idx hf.1 hl, Args.value_bcIndex es idx hf.2 hl]
end

mutual
/-- Dereferencing at an index gives the value of the expression there. -/
theorem Ex.deref_eq {sh : List Nat} : ∀ (e : Ex α) (p : e.State) (idx : List Nat), Fits sh e →
    InBounds sh idx → ExAt e p idx → e.deref p = valueAt e idx
  | .arr c mem, p, idx, hf, hl, h => by
    simp only [Ex.deref, valueAt]
    rw [← dot_bcIndex hf.1 (by have := hf.2.1; have := hl.length_eq; omega)]
    exact congrArg mem h
  | .scalar _, _, _, _, _, _ => rfl
  | .gen s g, p, idx, hf, hl, h => congrArg g (GAt.bounded hf.2 h hl)
  | .fn f args, p, idx, hf, hl, h => by
    simp only [Ex.deref, valueAt]; rw [Args.deref_eq args p idx hf hl h]
  | .bcast e s, p, idx, hf, hl, h => by
    have h1 := Ex.deref_eq e p idx (Ex.fits_trans hf.1 e hf.2) hl h
    simp only [Ex.deref, valueAt]
    rw [Ex.value_bcIndex e idx hf.2 (by have := hf.1.1; have := hl.length_eq; omega)]
    exact h1
theorem Args.deref_eq {sh : List Nat} : ∀ (es : Args α) (p : es.States) (idx : List Nat),
    FitsAll sh es → InBounds sh idx → ArgsAt es p idx → es.derefs p = valuesAt es idx
  | .nil, _, _, _, _, _ => rfl
  | .cons e es, p, idx, hf, hl, h => by
    simp only [Args.derefs, valuesAt]
    rw [Ex.deref_eq e _ idx hf.1 hl h.1, Args.deref_eq es _ idx hf.2 hl h.2]
end

/-! ### C22 -/

/-- Iterating over an expression under any shape it broadcasts to yields exactly one value per index
of the shape, in the order of the traversal, the `k`-th being the value of the expression at the
`k`-th index. -/
theorem C22_iteration (L : Layout) (hL : L = .row_major ∨ L = .column_major) (sh : List Nat)
    (e : Ex α) (hf : Fits sh e) :
    e.values L sh = (orderIndices L sh).map (valueAt e) := by
  have hn : sh.foldl (· * ·) 1 = numel sh := by rw [foldl_mul_eq]; omega
  unfold Ex.values
  rw [hn]
  by_cases h0 : numel sh = 0
  · have h1 : (orderIndices L sh).length = 0 := by rw [length_orderIndices, h0]
    rw [List.eq_nil_of_length_eq_zero h1]
    have he : (e.iterBegin sh).equal (e.iterEnd L sh) = true := by
      simp [XIter.equal, Ex.iterBegin, Ex.iterEnd, XIter.mkBegin, XIter.mkEnd, hn, h0]
    simp [XIter.walk, he]
  · have hb := iterAt_begin (L := L) (R := ExAt e) (E := ExEnd e sh.length L)
      (by omega) (Ex.at_begin e hf)
    obtain ⟨h1, h2⟩ := walk_spec hL (Ex.fwd e hf) (fun st _ _ _ => Ex.toEnd_end e st)
      (e.iterEnd L sh) (by simp [Ex.iterEnd, XIter.mkEnd, hn]) (numel sh + 1) 0 (e.iterBegin sh) hb
      (by omega) (by omega)
    apply List.ext_getElem?
    intro i
    simp only [List.getElem?_map]
    by_cases hi : i < numel sh
    · obtain ⟨st, hst⟩ : ∃ st, (XIter.walk (e.ops sh.length) L sh (e.iterEnd L sh) (numel sh + 1)
        (e.iterBegin sh))[i]? = some st :=
        ⟨_, List.getElem?_eq_getElem (by rw [h1]; omega)⟩
      obtain ⟨idx, a, b, c⟩ := h2 i st hst
      obtain ⟨j, hj⟩ : ∃ j, (orderIndices L sh)[i]? = some j :=
        ⟨_, List.getElem?_eq_getElem (by rw [length_orderIndices]; exact hi)⟩
      obtain ⟨hj1, hj2⟩ := rankIn_orderIndices hj
      have : idx = j := rankIn_inj (L := L) a hj1 (by omega)
      subst this
      rw [hst, hj, Option.map_some, Option.map_some]
      rw [Ex.deref_eq e st idx hf a c]
    · rw [List.getElem?_eq_none (by rw [h1]; omega),
        List.getElem?_eq_none (by rw [length_orderIndices]; omega)]
      rfl

/-- Reverse iteration visits the same values in the opposite order, when no operand is a
zero-dimensional array (see `C22_reverse_zero_dim_wrong`). -/
theorem C22_reverse_partial (L : Layout) (hL : L = .row_major ∨ L = .column_major) (sh : List Nat)
    (e : Ex α) (hf : Fits sh e) (hz : NoZeroDim e ∨ sh = []) (hg : NoGen e ∨ L = .row_major) :
    e.rvalues L sh = ((orderIndices L sh).map (valueAt e)).reverse := by
  have hn : sh.foldl (· * ·) 1 = numel sh := by rw [foldl_mul_eq]; omega
  unfold Ex.rvalues
  rw [hn]
  have hb := iterAt_end (L := L) (sh := sh) (R := ExAt e)
    (E := ExEnd e sh.length L) (st := e.stEnd sh.length L) (Ex.stEnd_eq e _ hg)
  obtain ⟨h1, h2⟩ := walkBack_spec hL (Ex.back hL e hf hz hg) (e.iterBegin sh) rfl (numel sh + 1)
    (numel sh) (e.iterEnd L sh) hb (by omega) (by omega)
  apply List.ext_getElem?
  intro i
  simp only [List.getElem?_map]
  by_cases hi : i < numel sh
  · rw [List.getElem?_reverse (by simp [length_orderIndices, hi])]
    simp only [List.length_map, length_orderIndices, List.getElem?_map]
    obtain ⟨st, hst⟩ : ∃ st, (XIter.walkBack (e.ops sh.length) L sh (e.iterBegin sh) (numel sh + 1)
      (e.iterEnd L sh))[i]? = some st := ⟨_, List.getElem?_eq_getElem (by rw [h1]; omega)⟩
    obtain ⟨idx, a, b, c⟩ := h2 i st hst
    obtain ⟨j, hj⟩ : ∃ j, (orderIndices L sh)[numel sh - 1 - i]? = some j :=
      ⟨_, List.getElem?_eq_getElem (by rw [length_orderIndices]; omega)⟩
    obtain ⟨hj1, hj2⟩ := rankIn_orderIndices hj
    have : idx = j := rankIn_inj (L := L) a hj1 (by omega)
    subst this
    rw [hst, hj, Option.map_some, Option.map_some]
    rw [Ex.deref_eq e st idx hf a c]
  · rw [List.getElem?_eq_none (by rw [h1]; omega),
      List.getElem?_eq_none (by simp [length_orderIndices]; omega)]
    rfl

/-- A zero-dimensional array iterated backwards under a larger shape is read one position past its
only element: `strided_data_end` steps over the element but no axis of the array leads back. -/
theorem C22_reverse_zero_dim_wrong :
    ∃ (e : Ex Int) (sh : List Nat), Fits sh e ∧
      e.rvalues .row_major sh ≠ ((orderIndices .row_major sh).map (valueAt e)).reverse :=
  ⟨.arr (StridedArr.mk' [] [] 0) (fun p => p), [2],
    ⟨⟨rfl, fun k => by simp [StridedArr.mk'], fun k => by simp [StridedArr.mk']⟩, by decide⟩,
    by decide⟩

/-- Every address read while iterating over a strided operand is the address of one of its
elements: nothing outside the elements is ever dereferenced. -/
theorem C22_reads_elements_only (L : Layout) (hL : L = .row_major ∨ L = .column_major)
    (sh : List Nat) (c : StridedArr) (hc : c.WF) (hs : BroadcastsTo c.shape sh) (p : Int)
    (hp : p ∈ (Ex.arr c (fun q => q)).values L sh) :
    ∃ idx, InBounds c.shape idx ∧ p = c.off + dot c.strides (toInts idx) := by
  have hf : Fits sh (Ex.arr c (fun q => q)) := ⟨hc, hs⟩
  rw [C22_iteration L hL sh _ hf] at hp
  obtain ⟨idx, h1, h2⟩ := List.mem_map.1 hp
  exact ⟨bcIndex c.shape idx, inBounds_bcIndex hs (mem_orderIndices.1 h1), h2.symm⟩

/-- Iterating a strided operand over its own shape: the `k`-th address is the address of the element
with the `k`-th index. -/
theorem C22_container (L : Layout) (hL : L = .row_major ∨ L = .column_major)
    (c : StridedArr) (hc : c.WF) :
    (Ex.arr c (fun q => q)).values L c.shape =
      (orderIndices L c.shape).map fun idx => c.off + dot c.strides (toInts idx) := by
  have hf : Fits c.shape (Ex.arr c (fun q => q)) :=
    ⟨hc, le_refl _, fun k _ => Or.inr (by simp)⟩
  rw [C22_iteration L hL c.shape _ hf]
  apply List.map_congr_left
  intro idx h
  simp only [valueAt]
  rw [bcIndex_self (mem_orderIndices.1 h)]

mutual
theorem Ex.element_eq : ∀ (e : Ex α) (s : List Nat), Fits s e → NoGen e → ∀ (l : List Nat),
    s.length ≤ l.length → e.element (toInts l) = valueAt e l
  | .arr c mem, s, hf, hg, l, hl => by
    simp only [Ex.element, valueAt]
    have hl1 := hf.2.1
    have hlen := hf.1.len
    rw [elementOffset_ge _ _ (by simp [toInts]; omega), ← dot_bcIndex hf.1 (by omega)]
    simp [toInts, hlen]
  | .scalar _, _, _, _, _, _ => rfl
  | .gen _ _, _, _, hg, _, _ => hg.elim
  | .fn f args, s, hf, hg, l, hl => by
    simp only [Ex.element, valueAt]; rw [Args.elements_eq args s hf hg l hl]
  | .bcast e t, s, hf, hg, l, hl => by
    have hl1 := hf.1.1
    simp only [Ex.element, valueAt]
    rw [show (toInts l).drop ((toInts l).length - t.length) =
      toInts (l.drop (l.length - t.length)) by simp [toInts]]
    rw [Ex.element_eq e t hf.2 hg _ (by simp; omega)]
    rw [← Ex.value_bcIndex e (l.drop (l.length - t.length)) hf.2 (by simp; omega)]
    congr 1
    unfold bcIndex
    congr 1
    simp only [List.drop_drop, List.length_drop]
    congr 1
    omega
theorem Args.elements_eq : ∀ (es : Args α) (s : List Nat), FitsAll s es → NoGenAll es → ∀ (l : List Nat),
    s.length ≤ l.length → es.elements (toInts l) = valuesAt es l
  | .nil, _, _, _, _, _ => rfl
  | .cons e es, s, hf, hg, l, hl => by
    simp only [Args.elements, valuesAt]
    rw [Ex.element_eq e s hf.1 hg.1 l hl, Args.elements_eq es s hf.2 hg.2 l hl]
end

/-- Element access with an index sequence agrees with the value of the expression, when no operand
is a generator (see `C22_element_generator_wrong`). -/
theorem C22_element_eq_value_partial (sh : List Nat) (e : Ex α) (hf : Fits sh e) (hg : NoGen e)
    (idx : List Nat) (h : InBounds sh idx) : e.element (toInts idx) = valueAt e idx :=
  Ex.element_eq e sh hf hg idx (by rw [h.length_eq])

/-- A generator with fewer axes than the expression it is an operand of takes the leading
coordinates: `(a + arange(3)).element({1, 2})` reads `arange(3)` at 1. -/
theorem C22_element_generator_wrong :
    ∃ (e : Ex Int) (sh idx : List Nat), Fits sh e ∧ InBounds sh idx ∧
      e.element (toInts idx) ≠ valueAt e idx :=
  ⟨.gen [3] (fun i => i.headD 0), [2, 3], [1, 2], ⟨by decide, by decide⟩, by decide, by decide⟩

/-- A generator iterated backwards in column major order starts from the row major end. -/
theorem C22_reverse_generator_wrong :
    ∃ (e : Ex Int) (sh : List Nat), Fits sh e ∧ NoZeroDim e ∧
      e.rvalues .column_major sh ≠ ((orderIndices .column_major sh).map (valueAt e)).reverse :=
  ⟨.gen [2, 3] (fun i => 10 * i.headD 0 + i.getLastD 0), [2, 3], ⟨by decide, by decide⟩, trivial,
    by decide⟩

/-- Even an iterator incremented to the end cannot be decremented: with more axes than the
generator, `to_end` moves the generator's first axis, which stepping back does not undo. -/
theorem C22_generator_end_wrong :
    ∃ (e : Ex Int) (sh : List Nat), Fits sh e ∧ NoZeroDim e ∧
      (XIter.walkBack (e.ops sh.length) .column_major sh (e.iterBegin sh) (numel sh + 1)
        ((e.iterBegin sh).add (e.ops sh.length) .column_major sh (numel sh))).map e.deref ≠
      ((orderIndices .column_major sh).map (valueAt e)).reverse :=
  ⟨.gen [3] (fun i => i.headD 0), [2, 3], ⟨by decide, by decide⟩, trivial, by decide⟩

/-! ### C23 -/

/-- `k` increments from the beginning. -/
def Ex.nth (e : Ex α) (L : Layout) (sh : List Nat) (k : Nat) : XIter e.State :=
  (XIter.inc (e.ops sh.length) L sh)^[k] (e.iterBegin sh)

theorem Ex.nth_at (L : Layout) (hL : L = .row_major ∨ L = .column_major) (sh : List Nat)
    (e : Ex α) (hf : Fits sh e) (h0 : 0 < numel sh) (k : Nat) (hk : k ≤ numel sh) :
    IterAt L sh (ExAt e) (ExEnd e sh.length L) (e.nth L sh k) k := by
  have hb := iterAt_begin (L := L) (R := ExAt e) (E := ExEnd e sh.length L)
    h0 (Ex.at_begin e hf)
  have := hb.iterate hL (Ex.fwd e hf) (fun st _ _ _ => Ex.toEnd_end e st) k (by omega)
  rwa [Nat.zero_add] at this

theorem iterAt_unique {L : Layout} {sh : List Nat} {e : Ex α} (hg : NoGen e) {a b : XIter e.State} {k : Nat}
    (ha : IterAt L sh (ExAt e) (ExEnd e sh.length L) a k)
    (hb : IterAt L sh (ExAt e) (ExEnd e sh.length L) b k) (hk : k ≤ numel sh) :
    a = b := by
  obtain ⟨sa, ia, la⟩ := a
  obtain ⟨sb, ib, lb⟩ := b
  have hl : la = lb := by have h1 := ha.1; have h2 := hb.1; simp only at h1 h2; omega
  by_cases hkn : k = numel sh
  · subst hkn
    obtain ⟨h1, h2⟩ := ha.atEnd
    obtain ⟨h3, h4⟩ := hb.atEnd
    simp only at h1 h2 h3 h4
    rw [h1, h2, h3, h4, hl]
  · obtain ⟨h1, h2, h3⟩ := ha.inner (by omega)
    obtain ⟨h4, h5, h6⟩ := hb.inner (by omega)
    simp only at h1 h2 h3 h4 h5 h6
    have : ia = ib := rankIn_inj (L := L) h1 h4 (by omega)
    subst this
    rw [Ex.at_unique e sa sb ia hg h3 h6, hl]

/-- `it += n` from any position is the same iterator (stepper state, index and linear position) as
`n` increments (for expressions without generators, whose steppers keep irrelevant coordinates). -/
theorem C23_plus_eq_increments (L : Layout) (hL : L = .row_major ∨ L = .column_major)
    (sh : List Nat) (e : Ex α) (hf : Fits sh e) (hg : NoGen e) (h0 : 0 < numel sh) (k n : Nat)
    (hk : k + n ≤ numel sh) :
    (e.nth L sh k).add (e.ops sh.length) L sh n = e.nth L sh (k + n) :=
  iterAt_unique hg ((Ex.nth_at L hL sh e hf h0 k (by omega)).add hL (Ex.fwd e hf)
    (fun st _ _ _ => Ex.toEnd_end e st) hk) (Ex.nth_at L hL sh e hf h0 (k + n) hk) hk

/-- `it -= n` undoes `n` increments, from any position including the end. -/
theorem C23_minus_eq_decrements_partial (L : Layout) (hL : L = .row_major ∨ L = .column_major)
    (sh : List Nat) (e : Ex α) (hf : Fits sh e) (hz : NoZeroDim e ∨ sh = []) (hg : NoGen e)
    (h0 : 0 < numel sh) (k n : Nat) (hk : k + n ≤ numel sh) :
    (e.nth L sh (k + n)).sub (e.ops sh.length) L sh n = e.nth L sh k :=
  iterAt_unique hg ((Ex.nth_at L hL sh e hf h0 (k + n) (by omega)).sub hL
    (Ex.back hL e hf hz (Or.inl hg)) hk) (Ex.nth_at L hL sh e hf h0 k (by omega)) (by omega)

/-- `--` undoes `++`. -/
theorem C23_dec_inc_partial (L : Layout) (hL : L = .row_major ∨ L = .column_major)
    (sh : List Nat) (e : Ex α) (hf : Fits sh e) (hz : NoZeroDim e ∨ sh = []) (hg : NoGen e) (k : Nat)
    (hk : k < numel sh) :
    ((e.nth L sh k).inc (e.ops sh.length) L sh).dec (e.ops sh.length) L sh = e.nth L sh k := by
  have h1 := Ex.nth_at L hL sh e hf (by omega) (k + 1) (by omega)
  have h2 := h1.dec hL (Ex.back hL e hf hz (Or.inl hg)) hk
  have h3 := iterAt_unique hg h2 (Ex.nth_at L hL sh e hf (by omega) k (by omega)) (by omega)
  have h4 : e.nth L sh (k + 1) = (e.nth L sh k).inc (e.ops sh.length) L sh := by
    unfold Ex.nth
    rw [Function.iterate_succ_apply']
  rw [← h4]
  exact h3

/-- `size` increments lead from `begin` to exactly the iterator `end`. -/
theorem C23_begin_plus_size (L : Layout) (hL : L = .row_major ∨ L = .column_major)
    (sh : List Nat) (e : Ex α) (hf : Fits sh e) (hg : NoGen e) (h0 : 0 < numel sh) :
    e.nth L sh (numel sh) = e.iterEnd L sh ∧
    (e.iterBegin sh).add (e.ops sh.length) L sh (numel sh) = e.iterEnd L sh := by
  have h1 := Ex.nth_at L hL sh e hf h0 (numel sh) (le_refl _)
  have h2 := iterAt_end (L := L) (sh := sh) (R := ExAt e)
    (E := ExEnd e sh.length L) (st := e.stEnd sh.length L) (Ex.stEnd_eq e _ (Or.inl hg))
  have h3 := iterAt_unique hg h1 h2 (le_refl _)
  refine ⟨h3, ?_⟩
  have h4 := C23_plus_eq_increments L hL sh e hf hg h0 0 (numel sh) (by omega)
  rw [Nat.zero_add] at h4
  rw [← show e.nth L sh (numel sh) = e.iterEnd L sh from h3, ← h4]
  rfl

/-- A negative amount moves the other way. -/
theorem C23_negative {σ : Type u} (ops : StepOps σ) (L : Layout) (sh : List Nat) (it : XIter σ)
    (n : Int) (h : n ≠ 0) :
    it.add ops L sh (-n) = it.sub ops L sh n := by
  unfold XIter.add XIter.sub
  by_cases hn : n ≥ 0
  · rw [if_neg (by omega), if_pos hn]; simp [Int.sub_eq_add_neg]
  · rw [if_pos (by omega), if_neg hn]; simp [Int.sub_eq_add_neg]

/-- One operation on a random access iterator. -/
inductive Spec.Move
  | inc
  | dec
  | add (n : Int)
  | sub (n : Int)

/-- Signed distance of a move. -/
def Spec.Move.delta : Spec.Move → Int
  | .inc => 1
  | .dec => -1
  | .add n => n
  | .sub n => -n

/-- The position after each move, in order. -/
def Spec.positions (p : Int) : List Spec.Move → List Int
  | [] => []
  | m :: ms => (p + m.delta) :: positions (p + m.delta) ms

/-- The move performed on the iterator. -/
def Spec.Move.apply {σ : Type u} (ops : StepOps σ) (L : Layout) (sh : List Nat) (it : XIter σ) :
    Spec.Move → XIter σ
  | .inc => it.inc ops L sh
  | .dec => it.dec ops L sh
  | .add n => it.add ops L sh n
  | .sub n => it.sub ops L sh n

theorem IterAt.move {e : Ex α} {L : Layout} {sh : List Nat} {it : XIter e.State} {p : Nat}
    (hL : L = .row_major ∨ L = .column_major) (hf : Fits sh e) (hz : NoZeroDim e ∨ sh = [])
    (hg : NoGen e ∨ L = .row_major) (h : IterAt L sh (ExAt e) (ExEnd e sh.length L) it p)
    (hp : p ≤ numel sh) (m : Spec.Move) (h0 : 0 ≤ p + m.delta) (h1 : p + m.delta ≤ numel sh) :
    IterAt L sh (ExAt e) (ExEnd e sh.length L) (m.apply (e.ops sh.length) L sh it)
      (p + m.delta).toNat := by
  have hF := Ex.fwd e hf
  have hB := Ex.back hL e hf hz hg
  have hE : ∀ st idx, ExAt e st idx → InBounds sh idx →
    ExEnd e sh.length L ((e.ops sh.length).toEnd st L) := fun st _ _ _ => Ex.toEnd_end e st
  have fwd : ∀ n : Nat, p + n ≤ numel sh →
      IterAt L sh (ExAt e) (ExEnd e sh.length L) (it.add (e.ops sh.length) L sh n) (p + n) :=
    fun n hn => h.add hL hF hE hn
  have bwd : ∀ n : Nat, n ≤ p →
      IterAt L sh (ExAt e) (ExEnd e sh.length L) (it.sub (e.ops sh.length) L sh n) (p - n) := by
    intro n hn
    obtain ⟨q, rfl⟩ := Nat.exists_eq_add_of_le' hn
    rw [Nat.add_sub_cancel]
    exact h.sub hL hB hp
  cases m with
  | inc =>
    simp only [Spec.Move.delta] at *
    rw [show ((p : Int) + 1).toNat = p + 1 by omega]
    exact h.inc hL hF hE (by omega)
  | dec =>
    simp only [Spec.Move.delta] at *
    obtain ⟨q, rfl⟩ : ∃ q, p = q + 1 := ⟨p - 1, by omega⟩
    rw [show (((q + 1 : Nat) : Int) + -1).toNat = q by omega]
    exact h.dec hL hB (by omega)
  | add n =>
    simp only [Spec.Move.delta] at *
    by_cases hn : 0 ≤ n
    · have := fwd n.toNat (by omega)
      rw [Int.toNat_of_nonneg hn] at this
      rw [show ((p : Int) + n).toNat = p + n.toNat by omega]
      exact this
    · have := bwd (-n).toNat (by omega)
      rw [Int.toNat_of_nonneg (by omega), ← C23_negative _ _ _ _ _ (by omega), Int.neg_neg] at this
      rw [show ((p : Int) + n).toNat = p - (-n).toNat by omega]
      exact this
  | sub n =>
    simp only [Spec.Move.delta] at *
    by_cases hn : 0 ≤ n
    · have := bwd n.toNat (by omega)
      rw [Int.toNat_of_nonneg hn] at this
      rw [show ((p : Int) + -n).toNat = p - n.toNat by omega]
      exact this
    · have := fwd (-n).toNat (by omega)
      rw [Int.toNat_of_nonneg (by omega), C23_negative _ _ _ _ _ (by omega)] at this
      rw [show ((p : Int) + -n).toNat = p + (-n).toNat by omega]
      exact this

/-- After any sequence of `++`, `--`, `+= n`, `-= n` (`n` of either sign) that stays within
`[begin, end]`, the iterator is at the position given by the sum of the moves: it compares equal to
that position and, unless at the end, dereferences to the value at the index of that rank. -/
theorem C23_any_history_partial (L : Layout) (hL : L = .row_major ∨ L = .column_major)
    (sh : List Nat) (e : Ex α) (hf : Fits sh e) (hz : NoZeroDim e ∨ sh = [])
    (hg : NoGen e ∨ L = .row_major) (h0 : 0 < numel sh) (ms : List Spec.Move)
    (hms : ∀ p ∈ Spec.positions 0 ms, 0 ≤ p ∧ p ≤ numel sh) :
    let it := ms.foldl (fun it m => m.apply (e.ops sh.length) L sh it) (e.iterBegin sh)
    let pos := (ms.map Spec.Move.delta).sum
    it.linear = pos ∧
      ∀ idx, (orderIndices L sh)[pos.toNat]? = some idx → e.deref it.st = valueAt e idx := by
  have key : ∀ (ms : List Spec.Move) (it : XIter e.State) (p : Nat),
      IterAt L sh (ExAt e) (ExEnd e sh.length L) it p → p ≤ numel sh →
      (∀ q ∈ Spec.positions p ms, 0 ≤ q ∧ q ≤ numel sh) →
      0 ≤ (p : Int) + (ms.map Spec.Move.delta).sum ∧
      (p : Int) + (ms.map Spec.Move.delta).sum ≤ numel sh ∧
      IterAt L sh (ExAt e) (ExEnd e sh.length L)
        (ms.foldl (fun it m => m.apply (e.ops sh.length) L sh it) it)
        ((p : Int) + (ms.map Spec.Move.delta).sum).toNat := by
    intro ms
    induction ms with
    | nil => intro it p h hp _; exact ⟨by simp, by simpa using hp, by simpa using h⟩
    | cons m ms ih =>
      intro it p h hp hq
      obtain ⟨h1, h2⟩ := hq (p + m.delta) (by simp [Spec.positions])
      have h3 := h.move hL hf hz hg hp m h1 h2
      have := ih _ _ h3 (by omega) (by
        rw [Int.toNat_of_nonneg h1]
        exact fun q hq' => hq q (by simp [Spec.positions, hq']))
      rw [Int.toNat_of_nonneg h1] at this
      simp only [List.map_cons, List.sum_cons, List.foldl_cons]
      rw [← Int.add_assoc]
      exact this
  have hb := iterAt_begin (L := L) (R := ExAt e) (E := ExEnd e sh.length L) h0 (Ex.at_begin e hf)
  obtain ⟨h1, h2, h3⟩ := key ms (e.iterBegin sh) 0 hb (by omega) (by simpa using hms)
  simp only [Nat.cast_zero, Int.zero_add] at h1 h2 h3
  intro it pos
  have h4 : it.linear = pos := by
    have := h3.1
    rw [Int.toNat_of_nonneg h1] at this
    exact this
  refine ⟨h4, fun idx hidx => ?_⟩
  obtain ⟨hj1, hj2⟩ := rankIn_orderIndices hidx
  have hlt : pos.toNat < numel sh := by
    have := (List.getElem?_eq_some_iff.1 hidx).1
    rwa [length_orderIndices] at this
  obtain ⟨a, b, c⟩ := h3.inner hlt
  have hidx' : it.index = idx := rankIn_inj (L := L) a hj1 (by rw [hj2]; exact b)
  rw [← hidx']
  exact Ex.deref_eq e _ _ hf a c

/-- Differences, equality and order of iterators are those of positions; `end - begin` is the number
of elements. -/
theorem C23_order (L : Layout) (hL : L = .row_major ∨ L = .column_major)
    (sh : List Nat) (e : Ex α) (hf : Fits sh e) (h0 : 0 < numel sh) (j k : Nat)
    (hj : j ≤ numel sh) (hk : k ≤ numel sh) :
    (e.nth L sh k).diff (e.nth L sh j) = (k : Int) - j ∧
    ((e.nth L sh k).equal (e.nth L sh j) = true ↔ k = j) ∧
    ((e.nth L sh k).lessThan (e.nth L sh j) = true ↔ k < j) ∧
    (e.iterEnd L sh).diff (e.iterBegin sh) = numel sh := by
  have h1 := (Ex.nth_at L hL sh e hf h0 j hj).1
  have h2 := (Ex.nth_at L hL sh e hf h0 k hk).1
  refine ⟨by simp [XIter.diff, h1, h2], by simp [XIter.equal, h1, h2],
    by simp [XIter.lessThan, h1, h2], ?_⟩
  simp [XIter.diff, Ex.iterEnd, Ex.iterBegin, XIter.mkEnd, XIter.mkBegin, foldl_mul_eq]

/-! ### Instances -/

/-- `b(2,3) column major + row vector(3) + arange(3) + scalar`, under shape (2,3). -/
def exIter : Ex Int :=
  .fn (fun l => l.foldl (· + ·) 0)
    (.cons (.arr (StridedArr.mk' [2, 3] [1, 2] 0) (fun p => 10 * p))
      (.cons (.bcast (.arr (StridedArr.mk' [3] [1] 5) (fun p => p)) [1, 3])
        (.cons (.gen [3] (fun i => 1000 * i.headD 0)) (.cons (.scalar 100) .nil))))

theorem exIter_fits : Fits [2, 3] exIter := by
  refine ⟨⟨⟨rfl, ?_, StridedArr.mk'_back _ _ _ rfl⟩, by decide⟩,
    ⟨by decide, ⟨rfl, ?_, StridedArr.mk'_back _ _ _ rfl⟩, by decide⟩, ⟨by decide, by decide⟩,
    trivial, trivial⟩
  · rintro (_ | _ | k) <;> simp [StridedArr.mk']
  · rintro (_ | k) <;> simp [StridedArr.mk']

example : Fits [2, 3] exIter ∧ NoZeroDim exIter ∧
    exIter.values .row_major [2, 3] = [105, 1126, 2147, 115, 1136, 2157] ∧
    exIter.values .column_major [2, 3] = [105, 115, 1126, 1136, 2147, 2157] ∧
    exIter.rvalues .row_major [2, 3] = [2157, 1136, 115, 2147, 1126, 105] ∧
    0 < numel [2, 3] ∧
    (∀ p ∈ Spec.positions 0 [.add 5, .inc, .sub 4, .dec, .add (-1)], 0 ≤ p ∧ p ≤ numel [2, 3]) :=
  ⟨exIter_fits, ⟨by simp [StridedArr.mk', NoZeroDim], by simp [StridedArr.mk', NoZeroDim], trivial,
    trivial, trivial⟩, by decide, by decide, by decide, by decide, by decide⟩

/-- Without the generator all iterator identities apply in both orders. -/
def exIter2 : Ex Int :=
  .fn (fun l => l.foldl (· + ·) 0)
    (.cons (.arr (StridedArr.mk' [2, 3] [1, 2] 0) (fun p => 10 * p))
      (.cons (.bcast (.arr (StridedArr.mk' [3] [-1] 5) (fun p => p)) [1, 3]) .nil))

example : Fits [2, 3] exIter2 ∧ NoZeroDim exIter2 ∧ NoGen exIter2 ∧
    exIter2.rvalues .column_major [2, 3] = [53, 43, 34, 24, 15, 5] := by
  refine ⟨⟨⟨⟨rfl, ?_, StridedArr.mk'_back _ _ _ rfl⟩, by decide⟩,
    ⟨by decide, ⟨rfl, ?_, StridedArr.mk'_back _ _ _ rfl⟩, by decide⟩, trivial⟩,
    ⟨by simp [StridedArr.mk', NoZeroDim], by simp [StridedArr.mk', NoZeroDim], trivial⟩,
    ⟨trivial, trivial, trivial⟩, by decide⟩
  · rintro (_ | _ | k) <;> simp [StridedArr.mk']
  · rintro (_ | k) <;> simp [StridedArr.mk']

end Xt
