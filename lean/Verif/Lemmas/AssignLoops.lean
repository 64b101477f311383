import Verif.Lemmas.Assign
import Verif.Props.Broadcast
/-!
# Flat and stepper assignment loops
-/

namespace Xt
open Spec

variable {α β : Type}

/-! ### Operands -/

mutual
theorem Ex.fits_arrs {sh : List Nat} : ∀ (e : Ex α), Fits sh e →
    ∀ c ∈ e.arrs, c.WF ∧ BroadcastsTo c.shape sh
  | .arr c _, hf, c', hc => by
    simp only [Ex.arrs, List.mem_singleton] at hc; subst hc; exact hf
  | .scalar _, _, c', hc => by simp [Ex.arrs] at hc
  | .gen _ _, _, c', hc => by simp [Ex.arrs] at hc
  | .fn _ args, hf, c', hc => Args.fits_arrs args hf c' hc
  | .bcast e _, hf, c', hc => Ex.fits_arrs e (Ex.fits_trans hf.1 e hf.2) c' hc
theorem Args.fits_arrs {sh : List Nat} : ∀ (es : Args α), FitsAll sh es →
    ∀ c ∈ es.arrss, c.WF ∧ BroadcastsTo c.shape sh
  | .nil, _, c', hc => by simp [Args.arrss] at hc
  | .cons e es, hf, c', hc => by
    simp only [Args.arrss, List.mem_append] at hc
    exact hc.elim (Ex.fits_arrs e hf.1 c') (Args.fits_arrs es hf.2 c')
end

mutual
theorem Ex.hasLinear_arrs {s : List Int} : ∀ (e : Ex α), e.hasLinearAssign s = true →
    NoGen e ∧ ∀ c ∈ e.arrs, c.strides = s
  | .arr c _, h => by
    simp only [Ex.hasLinearAssign, beq_iff_eq] at h
    exact ⟨trivial, fun c' hc => by
      simp only [Ex.arrs, List.mem_singleton] at hc; subst hc; exact h⟩
  | .scalar _, _ => ⟨trivial, by simp [Ex.arrs]⟩
  | .gen _ _, h => by simp [Ex.hasLinearAssign] at h
  | .fn _ args, h => Args.hasLinear_arrs args (by simpa only [Ex.hasLinearAssign] using h)
  | .bcast e _, h => by
    simp only [Ex.hasLinearAssign, Bool.and_eq_true] at h
    exact Ex.hasLinear_arrs e h.2
theorem Args.hasLinear_arrs {s : List Int} : ∀ (es : Args α), es.haveLinearAssign s = true →
    NoGenAll es ∧ ∀ c ∈ es.arrss, c.strides = s
  | .nil, _ => ⟨trivial, by simp [Args.arrss]⟩
  | .cons e es, h => by
    simp only [Args.haveLinearAssign, Bool.and_eq_true] at h
    obtain ⟨h1, h2⟩ := Ex.hasLinear_arrs e h.1
    obtain ⟨h3, h4⟩ := Args.hasLinear_arrs es h.2
    refine ⟨⟨h1, h3⟩, fun c hc => ?_⟩
    simp only [Args.arrss, List.mem_append] at hc
    exact hc.elim (h2 c) (h4 c)
end

mutual
/-- Reading contiguous operands of the full shape by position. -/
theorem Ex.dataElement_eq {L : Layout} {sh idx : List Nat} (hb : InBounds sh idx) :
    ∀ (e : Ex α), Fits sh e → NoGen e → (∀ c ∈ e.arrs, c.shape = sh ∧ Contig L c) →
      e.dataElement (rankIn L sh idx) = valueAt e idx
  | .arr c mem, _, _, h => by
    obtain ⟨h1, h2⟩ := h c (by simp [Ex.arrs])
    have h3 := h2 idx (h1 ▸ hb)
    rw [h1] at h3
    simp only [Ex.dataElement, valueAt, h1, bcIndex_self hb, h3]
  | .scalar _, _, _, _ => rfl
  | .gen _ _, _, h, _ => h.elim
  | .fn f args, hf, hg, h => by
    simp only [Ex.dataElement, valueAt, Args.dataElements_eq hb args hf hg h]
  | .bcast e s, hf, hg, h => by
    have h1 := Ex.dataElement_eq hb e (Ex.fits_trans hf.1 e hf.2) hg h
    simp only [Ex.dataElement, valueAt]
    rw [h1, Ex.value_bcIndex e idx hf.2 (by have := hf.1.1; have := hb.length_eq; omega)]
theorem Args.dataElements_eq {L : Layout} {sh idx : List Nat} (hb : InBounds sh idx) :
    ∀ (es : Args α), FitsAll sh es → NoGenAll es → (∀ c ∈ es.arrss, c.shape = sh ∧ Contig L c) →
      es.dataElements (rankIn L sh idx) = valuesAt es idx
  | .nil, _, _, _ => rfl
  | .cons e es, hf, hg, h => by
    simp only [Args.arrss, List.mem_append] at h
    simp only [Args.dataElements, valuesAt,
      Ex.dataElement_eq hb e hf.1 hg.1 fun c hc => h c (Or.inl hc),
      Args.dataElements_eq hb es hf.2 hg.2 fun c hc => h c (Or.inr hc)]
end

theorem StridedArr.size_eq (c : StridedArr) : c.size = numel c.shape := by
  unfold StridedArr.size; rw [foldl_mul_eq]; omega

/-- Unit coordinate vector differing from zero at one axis. -/
theorem addr_unit {c : StridedArr} {k : Nat} (hz : InBounds c.shape (List.replicate c.shape.length 0))
    (hk : k < c.shape.length) (h : 1 < c.shape.getD k 0) :
    InBounds c.shape ((List.replicate c.shape.length 0).set k 1) ∧
    addr c ((List.replicate c.shape.length 0).set k 1) =
      addr c (List.replicate c.shape.length 0) + c.strides.getD k 0 := by
  refine ⟨inBounds_set hz h, ?_⟩
  unfold addr
  rw [dot_set _ _ _ _ (by simpa using hk)]
  have : (List.replicate c.shape.length 0).getD k 0 = 0 := by
    simp [List.getD_eq_getElem?_getD, List.getElem?_replicate]
    split <;> rfl
  rw [this]
  push_cast
  ring

/-- In an array whose elements have different addresses every axis of extent above 1 has a non-zero
stride. -/
theorem distinct_stride_ne_zero {c : StridedArr} (h : Distinct c) (hp : 0 < numel c.shape) {k : Nat}
    (hk : k < c.shape.length) (h1 : 1 < c.shape.getD k 0) : c.strides.getD k 0 ≠ 0 := by
  intro h0
  have hz := inBounds_zeros (inBounds_last hp)
  obtain ⟨hb, ha⟩ := addr_unit hz hk h1
  rw [h0, Int.add_zero] at ha
  have := h _ _ hb hz ha
  have h2 := congrArg (fun l => l.getD k 0) this
  simp [List.getD_eq_getElem?_getD, hk] at h2

/-- An operand with the strides of the destination has its shape. -/
theorem shape_of_strides {c d : StridedArr} (hD : Distinct d) (hp : 0 < numel d.shape)
    (hd : d.WF) (hc : c.WF) (hbc : BroadcastsTo c.shape d.shape) (hs : c.strides = d.strides) :
    c.shape = d.shape := by
  have hl : c.shape.length = d.shape.length := by rw [← hc.len, ← hd.len, hs]
  apply ext_getD hl
  intro k hk
  have h := hbc.2 k hk
  rw [hl, Nat.sub_self, Nat.add_zero] at h
  rcases h with h | h
  · have h0 := hc.unit k h
    rw [hs] at h0
    by_contra hne
    have hpos := (inBounds_last hp).getD_lt (show k < d.shape.length by omega)
    exact distinct_stride_ne_zero hD hp (show k < d.shape.length by omega) (by omega) h0
  · exact h

/-! ### Flattened traces -/

theorem flatten_map_singleton {γ : Type} (l : List Nat) (f : Nat → γ) :
    (l.map fun i => [f i]).flatten = l.map f := by
  induction l with
  | nil => rfl
  | cons x l ih => simp [ih]

theorem range'_map_append {γ : Type} (f : Nat → γ) (a n k : Nat) :
    (List.range' a n).map f ++ (List.range' (a + n) k).map f = (List.range' a (n + k)).map f := by
  rw [← List.map_append]
  congr 1
  have := List.range'_append (s := a) (m := n) (n := k) (step := 1)
  rw [Nat.one_mul] at this
  exact this

/-- A list of indices in bounds whose ranks count up is the traversal. -/
theorem eq_orderIndices {L : Layout} {sh : List Nat} {is : List (List Nat)}
    (hb : ∀ i ∈ is, InBounds sh i) (h : is.map (rankIn L sh) = List.range (numel sh)) :
    is = orderIndices L sh := by
  rw [← map_rankIn_orderIndices L sh] at h
  apply List.ext_getElem?
  intro k
  have h1 := congrArg (fun l => l[k]?) h
  simp only [List.getElem?_map] at h1
  cases ha : is[k]? with
  | none =>
    rw [ha] at h1
    cases hb' : (orderIndices L sh)[k]? with
    | none => rfl
    | some b => rw [hb'] at h1; simp at h1
  | some a =>
    rw [ha] at h1
    cases hb' : (orderIndices L sh)[k]? with
    | none => rw [hb'] at h1; simp at h1
    | some b =>
      rw [hb'] at h1
      simp only [Option.map_some, Option.some.injEq] at h1
      rw [rankIn_inj (hb a (List.mem_of_getElem? ha))
        (mem_orderIndices.1 (List.mem_of_getElem? hb')) h1]

theorem map_orderIndices_rank {γ : Type} {L : Layout} {sh : List Nat} {f : Nat → γ}
    {g : List Nat → γ} (h : ∀ idx, InBounds sh idx → f (rankIn L sh idx) = g idx) :
    (List.range (numel sh)).map f = (orderIndices L sh).map g := by
  rw [← map_rankIn_orderIndices L sh, List.map_map]
  exact List.map_congr_left fun i hi => h i (mem_orderIndices.1 hi)

/-- Element `i` of the flat loops is stored where and with the value it should be. -/
theorem flat_write {L : Layout} {d : StridedArr} {e : MEx β} (hd : Contig L d)
    (hf : Fits d.shape e) (hg : NoGen e) (h : ∀ c ∈ e.arrs, c.shape = d.shape ∧ Contig L c)
    (idx : List Nat) (hb : InBounds d.shape idx) :
    (((d.off + (rankIn L d.shape idx : Nat) : Int), e.dataElement (rankIn L d.shape idx)) : Write β)
      = wr d e idx := by
  unfold wr addr
  rw [hd idx hb, Ex.dataElement_eq hb e hf hg h]

theorem linearTrace_flatten {L : Layout} {d : StridedArr} {e : MEx β} (hd : Contig L d)
    (hf : Fits d.shape e) (hg : NoGen e) (h : ∀ c ∈ e.arrs, c.shape = d.shape ∧ Contig L c) :
    (linearTrace d e).flatten = (orderIndices L d.shape).map (wr d e) := by
  unfold linearTrace
  rw [flatten_map_singleton (f := fun (i : Nat) => ((d.off + i : Int), e.dataElement i)),
    StridedArr.size_eq]
  exact map_orderIndices_rank fun idx hb => flat_write hd hf hg h idx hb

/-- Clearing the low bits. -/
theorem land_compl (k x : Nat) (hk : k ≤ 64) (hx : x < 2 ^ 64) :
    x &&& (szMax - (2 ^ k - 1)) = x / 2 ^ k * 2 ^ k := by
  have e : szMax - (2 ^ k - 1) = (2 ^ (64 - k) - 1) <<< k := by
    have h1 : szMax = 2 ^ 64 - 1 := by decide
    have h2 : 2 ^ 64 = 2 ^ (64 - k) * 2 ^ k := by rw [← Nat.pow_add]; congr 1; omega
    have h3 : 0 < 2 ^ k := by positivity
    rw [h1, h2, Nat.shiftLeft_eq, Nat.sub_mul]
    omega
  rw [e, ← Nat.shiftRight_eq_div_pow, ← Nat.shiftLeft_eq]
  apply Nat.eq_of_testBit_eq
  intro i
  rw [Nat.testBit_and, Nat.testBit_shiftLeft, Nat.testBit_shiftLeft, Nat.testBit_shiftRight,
    Nat.testBit_two_pow_sub_one]
  by_cases hi : i ≥ k
  · by_cases h64 : i < 64
    · have : i - k < 64 - k := by omega
      simp [hi, this]
    · have hx0 : x.testBit i = false := Nat.testBit_lt_two_pow (lt_of_lt_of_le hx
        (Nat.pow_le_pow_right (by omega) (by omega)))
      simp [hi, hx0, show k + (i - k) = i by omega]
  · simp [hi]

theorem alignEnd_eq (k ab size : Nat) (hk : k ≤ 64) (hs : size < 2 ^ 64) :
    alignEnd ab size (2 ^ k) = ab + (size - ab) / 2 ^ k * 2 ^ k := by
  unfold alignEnd
  rw [land_compl k _ hk (by omega)]

theorem packedLoop_flatten {d : StridedArr} {e : MEx β} {W last : Nat} (hW : 0 < W) :
    ∀ (n i q : Nat), last = i + q * W → q ≤ n →
      (packedLoop d e W last n i).flatten =
        (List.range' i (q * W)).map fun (i : Nat) => ((d.off + i : Int), e.dataElement i) := by
  intro n
  induction n with
  | zero =>
    intro i q _ hq
    have : q = 0 := by omega
    subst this
    simp [packedLoop]
  | succ n ih =>
    intro i q hl hq
    unfold packedLoop
    cases q with
    | zero => rw [if_neg (by omega)]; simp
    | succ q =>
      have hlt : i < last := by
        rw [hl]; have : 0 < (q + 1) * W := Nat.mul_pos (by omega) hW
        omega
      rw [if_pos hlt, List.flatten_cons, ih (i + W) q (by rw [hl]; ring) (by omega)]
      rw [show (q + 1) * W = W + q * W by ring, ← range'_map_append]
      congr 1
      rw [List.range'_eq_map_range, List.map_map]
      rfl

theorem simdTrace_flatten {d : StridedArr} {e : MEx β} {k ab : Nat} (hk : k ≤ 64)
    (hs : d.size < 2 ^ 64) (hab : ab ≤ d.size) :
    (simdTrace d e (2 ^ k) ab).flatten = (linearTrace d e).flatten := by
  have hW : 0 < 2 ^ k := by positivity
  have hae := alignEnd_eq k ab d.size hk hs
  have hq : (d.size - ab) / 2 ^ k * 2 ^ k ≤ d.size - ab := Nat.div_mul_le_self _ _
  have hqn : (d.size - ab) / 2 ^ k ≤ d.size := (Nat.div_le_self _ _).trans (Nat.sub_le _ _)
  unfold simdTrace linearTrace
  simp only [List.flatten_append]
  rw [flatten_map_singleton (f := fun (i : Nat) => ((d.off + i : Int), e.dataElement i)),
    flatten_map_singleton (f := fun (i : Nat) => ((d.off + i : Int), e.dataElement i)),
    flatten_map_singleton (f := fun (j : Nat) =>
      ((d.off + (alignEnd ab d.size (2 ^ k) + j : Nat) : Int),
        e.dataElement (alignEnd ab d.size (2 ^ k) + j))),
    packedLoop_flatten hW d.size ab ((d.size - ab) / 2 ^ k) hae hqn]
  have h3 : ((List.range (d.size - alignEnd ab d.size (2 ^ k))).map fun (j : Nat) =>
      (((d.off + (alignEnd ab d.size (2 ^ k) + j : Nat) : Int),
        e.dataElement (alignEnd ab d.size (2 ^ k) + j)) : Write β)) =
      (List.range' (ab + (d.size - ab) / 2 ^ k * 2 ^ k)
        (d.size - (ab + (d.size - ab) / 2 ^ k * 2 ^ k))).map
        fun (i : Nat) => ((d.off + i : Int), e.dataElement i) := by
    rw [List.range'_eq_map_range, List.map_map, hae]
    rfl
  rw [h3]
  generalize (d.size - ab) / 2 ^ k * 2 ^ k = t at *
  rw [List.range_eq_range', List.range_eq_range', List.append_assoc, range'_map_append]
  have := range'_map_append (fun (i : Nat) => (((d.off + i : Int), e.dataElement i) : Write β)) 0 ab
    (t + (d.size - (ab + t)))
  rw [Nat.zero_add] at this
  rw [this]
  congr 2
  omega

theorem stepperLoop_flatten {d : StridedArr} {e : MEx β} {L : Layout}
    (hL : L = .row_major ∨ L = .column_major) (hd : d.WF) (hf : Fits d.shape e) :
    ∀ (n : Nat) (it : XIter (Int × e.State)) (k : Nat),
      IterAt L d.shape (fun p idx => XAt d p.1 idx ∧ ExAt e p.2 idx) (fun _ => True) it k →
      k + n = numel d.shape →
      (stepperLoop d e L n it.st it.index).flatten =
        ((orderIndices L d.shape).drop k).map (wr d e) := by
  have hF : FwdLaw (pairOps (xstepperOps d 0) (e.ops d.shape.length)) d.shape
      (fun p idx => XAt d p.1 idx ∧ ExAt e p.2 idx) := by
    have := xstepper_fwd hd (sh := d.shape) ⟨le_refl _, fun k _ => Or.inr (by simp)⟩
    rw [Nat.sub_self] at this
    exact fwd_pair this (Ex.fwd e hf)
  intro n
  induction n with
  | zero =>
    intro it k _ hk
    rw [List.drop_eq_nil_of_le (by rw [length_orderIndices]; omega)]
    simp [stepperLoop]
  | succ n ih =>
    intro it k hit hk
    obtain ⟨hb, hr, hx, he⟩ := hit.inner (by omega)
    have hn := ih (it.inc (pairOps (xstepperOps d 0) (e.ops d.shape.length)) L d.shape) (k + 1)
      (hit.inc hL hF (fun _ _ _ _ => trivial) (by omega)) (by omega)
    have hlen : k < (orderIndices L d.shape).length := by rw [length_orderIndices]; omega
    have hidx : (orderIndices L d.shape)[k] = it.index := by
      obtain ⟨h1, h2⟩ := rankIn_orderIndices (List.getElem?_eq_getElem hlen)
      exact rankIn_inj h1 hb (by rw [h2, hr])
    rw [List.drop_eq_getElem_cons hlen, List.map_cons, ← hn, hidx]
    have hw : ((it.st.1, e.deref it.st.2) : Write β) = wr d e it.index := by
      unfold wr addr
      rw [Ex.deref_eq e it.st.2 it.index hf hb he]
      unfold XAt at hx
      rw [hx, show it.index.length - d.shape.length = 0 by rw [hb.length_eq]; omega, List.drop_zero]
    rw [← hw]
    rfl

theorem stepperTrace_flatten {d : StridedArr} {e : MEx β} {L : Layout}
    (hL : L = .row_major ∨ L = .column_major) (hd : d.WF) (hf : Fits d.shape e) :
    (stepperTrace d e L).flatten = (orderIndices L d.shape).map (wr d e) := by
  unfold stepperTrace
  rw [StridedArr.size_eq]
  by_cases h0 : numel d.shape = 0
  · have : orderIndices L d.shape = [] :=
      List.eq_nil_of_length_eq_zero (by rw [length_orderIndices, h0])
    rw [h0, this]; rfl
  · have hfd : Fits d.shape (rdArr (β := β) d) := ⟨hd, le_refl _, fun k _ => Or.inr (by simp)⟩
    have h := stepperLoop_flatten hL hd hf (numel d.shape)
      (XIter.mkBegin (xstepperBegin d, e.stBegin) d.shape) 0
      (iterAt_begin (by omega) ⟨Ex.at_begin (rdArr d) hfd, Ex.at_begin e hf⟩) (by omega)
    exact h

end Xt
