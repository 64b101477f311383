import Verif.Model.AxisIter
import Verif.Props.Assign
/-!
# Iteration over slices along an axis (C61)
-/

namespace Xt
open Spec

/-- The index of all axes made from the index `o` of the other axes and the coordinate `k` on the axis. -/
def Spec.withAxis (axis k : Nat) (o : List Nat) : List Nat := o.take axis ++ k :: o.drop axis

/-- The shape without the axis. -/
def Spec.otherAxes (axis : Nat) (sh : List Nat) : List Nat := sh.take axis ++ sh.drop (axis + 1)

theorem shape_split {sh : List Nat} {axis : Nat} (h : axis < sh.length) :
    sh = sh.take axis ++ sh.getD axis 0 :: sh.drop (axis + 1) := by
  rw [List.getD_eq_getElem?_getD, List.getElem?_eq_getElem h, Option.getD_some, ← List.drop_eq_getElem_cons h,
    List.take_append_drop]

theorem inBounds_withAxis {sh o : List Nat} {axis k : Nat} (h : axis < sh.length) (ho : InBounds (otherAxes axis sh) o)
    (hk : k < sh.getD axis 0) :
    ∃ p q, o = p ++ q ∧ withAxis axis k o = p ++ k :: q ∧ p.length = axis ∧
      InBounds (sh.take axis) p ∧ InBounds (sh.drop (axis + 1)) q ∧ InBounds sh (withAxis axis k o) := by
  have hl : o.length = sh.length - 1 := by
    rw [ho.length_eq]; simp [otherAxes]; omega
  have hpl : (o.take axis).length = axis := by simp; omega
  have hpl' : (o.take axis).length = (sh.take axis).length := by simp; omega
  have hb := ho
  rw [← List.take_append_drop axis o] at hb
  obtain ⟨h1, h2⟩ := (inBounds_append_iff hpl').1 hb
  refine ⟨o.take axis, o.drop axis, (List.take_append_drop axis o).symm, rfl, hpl, h1, h2, ?_⟩
  rw [shape_split h]
  exact h1.append ⟨hk, h2⟩

/-! ### Slices across the axis -/

theorem dot_split (s1 s2 : List Int) (x : Int) (p q : List Int) (k : Int) (h : p.length = s1.length) :
    dot (s1 ++ x :: s2) (p ++ k :: q) = dot (s1 ++ s2) (p ++ q) + k * x := by
  induction s1 generalizing p with
  | nil => cases p with
    | nil => simp [dot]; omega
    | cons => simp at h
  | cons a s1 ih => cases p with
    | nil => simp at h
    | cons b p =>
      simp only [List.cons_append, dot]
      rw [ih p (by simpa using h)]
      omega

theorem strides_split {a : StridedArr} (hw : a.WF) {axis : Nat} (h : axis < a.shape.length) :
    a.strides = a.strides.take axis ++ a.strides.getD axis 0 :: a.strides.drop (axis + 1) := by
  have h' : axis < a.strides.length := by rw [hw.len]; exact h
  rw [List.getD_eq_getElem?_getD, List.getElem?_eq_getElem h', Option.getD_some, ← List.drop_eq_getElem_cons h',
    List.take_append_drop]

/-- The k-th view of the iteration over an axis consists of the elements whose coordinate on the axis is `k`. -/
theorem C61_axis_element (a : StridedArr) (hw : a.WF) (axis : Nat) (h : axis < a.shape.length) (k : Nat)
    (hk : k < a.shape.getD axis 0) (o : List Nat) (ho : InBounds (otherAxes axis a.shape) o) :
    let v := (AxisIt.deref a axis ((AxisIt.next a axis)^[k] (axisBegin a)))
    v.shape = otherAxes axis a.shape ∧ addr v o = addr a (withAxis axis k o) := by
  intro v
  have hoff : ∀ k : Nat, ((AxisIt.next a axis)^[k] (axisBegin a)).off = a.off + k * a.strides.getD axis 0 := by
    intro k
    induction k with
    | zero => simp [axisBegin]
    | succ k ih =>
      rw [Function.iterate_succ_apply']
      show ((AxisIt.next a axis)^[k] (axisBegin a)).off + _ = _
      rw [ih]; push_cast; ring
  refine ⟨rfl, ?_⟩
  obtain ⟨p, q, e1, e2, hp, -, -, -⟩ := inBounds_withAxis h ho hk
  have hs := strides_split hw h
  show ((AxisIt.next a axis)^[k] (axisBegin a)).off +
    dot (a.strides.take axis ++ a.strides.drop (axis + 1)) (toInts o) = a.off + dot a.strides (toInts (withAxis axis k o))
  rw [hoff, e2, e1]
  conv_rhs => rw [hs]
  simp only [toInts, List.map_append, List.map_cons]
  rw [dot_split _ _ _ _ _ _ (by simp [hp, hw.len]; omega)]
  show _ = _ + (_ + (k : Int) * _)
  omega

theorem axis_iterate (a : StridedArr) (axis k : Nat) :
    ((AxisIt.next a axis)^[k] (axisBegin a)) = ⟨k, a.off + k * a.strides.getD axis 0⟩ := by
  induction k with
  | zero => simp [axisBegin]
  | succ k ih =>
    rw [Function.iterate_succ_apply', ih]
    simp only [AxisIt.next, AxisIt.mk.injEq, true_and]
    push_cast; ring

theorem axisLoop_from (a : StridedArr) (axis : Nat) (h0 : a.off = 0) : ∀ (n k fuel : Nat),
    k + n = a.shape.getD axis 0 → n < fuel →
    axisLoop a axis fuel ⟨k, (k : Int) * a.strides.getD axis 0⟩ =
      some ((List.range' k n).map fun i => AxisIt.deref a axis ((AxisIt.next a axis)^[i] (axisBegin a)))
  | n, k, 0, _, h => by omega
  | 0, k, fuel + 1, hk, _ => by
    have : k = a.shape.getD axis 0 := by omega
    unfold axisLoop
    rw [if_pos]
    · rfl
    · simp only [AxisIt.equal, axisEnd, Bool.and_eq_true, beq_iff_eq]
      exact ⟨this, by rw [← this, Int.mul_comm]⟩
  | n + 1, k, fuel + 1, hk, h => by
    unfold axisLoop
    rw [if_neg (by simp only [AxisIt.equal, axisEnd, Bool.and_eq_true, beq_iff_eq]; omega)]
    have e : AxisIt.next a axis ⟨k, (k : Int) * a.strides.getD axis 0⟩ =
        ⟨k + 1, ((k + 1 : Nat) : Int) * a.strides.getD axis 0⟩ := by
      simp only [AxisIt.next, AxisIt.mk.injEq, true_and]; push_cast; ring
    rw [e, axisLoop_from a axis h0 n (k + 1) fuel (by omega) (by omega), List.range'_succ]
    simp only [Option.map_some, List.map_cons]
    rw [axis_iterate a axis k, h0, Int.zero_add]

/-- Iterating from `axis_begin` to `axis_end` visits every slice across the axis once, in order, when the first element
of the expression is the first of its storage.  (Partial: `C61_axis_offset_endless`.) -/
theorem C61_axis_partial (a : StridedArr) (axis : Nat) (h0 : a.off = 0) (fuel : Nat) (hf : a.shape.getD axis 0 < fuel) :
    axisLoop a axis fuel (axisBegin a) =
      some ((List.range (a.shape.getD axis 0)).map fun i =>
        AxisIt.deref a axis ((AxisIt.next a axis)^[i] (axisBegin a))) := by
  have := axisLoop_from a axis h0 (a.shape.getD axis 0) 0 fuel (by omega) hf
  rw [List.range_eq_range']
  rw [← this]
  congr 1
  simp [axisBegin, h0]

/-- Otherwise the end is never reached: every such loop over a view that starts later in its storage leaves it. -/
theorem C61_axis_offset_endless (a : StridedArr) (axis : Nat) (h0 : a.off ≠ 0) (fuel : Nat) :
    axisLoop a axis fuel (axisBegin a) = none := by
  have key : ∀ (fuel k : Nat), axisLoop a axis fuel ⟨k, a.off + k * a.strides.getD axis 0⟩ = none := by
    intro fuel
    induction fuel with
    | zero => intro k; rfl
    | succ fuel ih =>
      intro k
      unfold axisLoop
      rw [if_neg]
      · have e : AxisIt.next a axis ⟨k, a.off + k * a.strides.getD axis 0⟩ =
            ⟨k + 1, a.off + ((k + 1 : Nat) : Int) * a.strides.getD axis 0⟩ := by
          simp only [AxisIt.next, AxisIt.mk.injEq, true_and]; push_cast; ring
        rw [e, ih (k + 1)]; rfl
      · simp only [AxisIt.equal, axisEnd, Bool.and_eq_true, beq_iff_eq]
        rintro ⟨h1, h2⟩
        rw [h1, Int.mul_comm] at h2
        omega
  have := key fuel 0
  simpa [axisBegin] using this

example :
    let a := StridedArr.container .row_major [2, 3] 0
    (axisLoop a 1 10 (axisBegin a)).map (·.map fun v => (v.shape, v.strides, v.off)) =
      some [([2], [3], 0), ([2], [3], 1), ([2], [3], 2)] ∧ a.WF :=
  ⟨by decide, container_wf _ _⟩

/-! ### Slices along the axis -/

/-- Start of the `r`-th slice in a contiguous array: `n` elements on the axis, `c` in the faster axes. -/
def Spec.sliceStart (n c r : Nat) : Nat := (r / c) * (n * c) + r % c

theorem next_ok (k : SliceConsts) (h : 0 < k.iterSize) (off : Int) : ∃ o, k.next off = .ok o := by
  unfold SliceConsts.next
  rw [if_neg (by omega)]
  exact ⟨_, rfl⟩

theorem next_jump {k : SliceConsts} (h : 0 < k.iterSize) {off : Int}
    (hj : k.target = true ∨ (k.upper ≥ (off + 1) % (k.iterSize : Int) ∧ (off + 1) % (k.iterSize : Int) ≥ (k.lower : Int))) :
    k.next off = .ok (off + 1 + k.axisStride) := by
  unfold SliceConsts.next
  rw [if_neg (by omega)]
  simp only
  rw [if_pos hj]

theorem next_step {k : SliceConsts} (h : 0 < k.iterSize) {off : Int}
    (hj : ¬ (k.target = true ∨
      (k.upper ≥ (off + 1) % (k.iterSize : Int) ∧ (off + 1) % (k.iterSize : Int) ≥ (k.lower : Int)))) :
    k.next off = .ok (off + 1) := by
  unfold SliceConsts.next
  rw [if_neg (by omega)]
  simp only
  rw [if_neg hj]

theorem emod_shift {D : Int} {it x : Nat} (hD : (it : Int) ∣ D) : (D + (x : Int)) % (it : Int) = ((x % it : Nat) : Int) := by
  obtain ⟨z, rfl⟩ := hD
  rw [Int.add_comm, Int.add_mul_emod_self_left]
  norm_cast

/-- Conditions on the constants under which the jumps are right. -/
structure JumpsRight (k : SliceConsts) (n c P : Nat) (D : Int) : Prop where
  pos : 0 < k.iterSize
  cpos : 0 < c
  stride : k.axisStride = ((if n = 1 then 0 else c * (n - 1) : Nat) : Int)
  lower : k.lower = c
  upper : k.upper = c + k.axisStride
  cond : n = 1 ∨ (k.target = true ∧ c = 1) ∨
    (k.target = false ∧ (k.iterSize : Int) ∣ D ∧
      ((P ≤ 1 ∧ c ≤ k.iterSize) ∨ k.iterSize = n * c ∨ (P ≤ 2 ∧ k.iterSize = 2 * (n * c))))
  npos : 0 < n

theorem sliceStart_step {n c r : Nat} (hc : 0 < c) (h : r % c + 1 < c) :
    sliceStart n c (r + 1) = sliceStart n c r + 1 := by
  have h1 : (r + 1) / c = r / c := by
    have := Nat.div_add_mod r c
    rw [show r + 1 = r % c + 1 + c * (r / c) from by omega, Nat.add_mul_div_left _ _ hc, Nat.div_eq_of_lt h]
    simp
  have h2 : (r + 1) % c = r % c + 1 := by
    have := Nat.div_add_mod r c
    conv_lhs => rw [show r + 1 = r % c + 1 + c * (r / c) from by omega]
    rw [Nat.add_mul_mod_self_left, Nat.mod_eq_of_lt h]
  unfold sliceStart
  rw [h1, h2]; omega

theorem sliceStart_jump {n c r : Nat} (hc : 0 < c) (hn : 0 < n) (h : r % c + 1 = c) :
    sliceStart n c (r + 1) = sliceStart n c r + 1 + c * (n - 1) := by
  have h0 := Nat.div_add_mod r c
  have e : r + 1 = c * (r / c + 1) := by rw [Nat.mul_add]; omega
  have h1 : (r + 1) / c = r / c + 1 := by rw [e, Nat.mul_div_cancel_left _ hc]
  have h2 : (r + 1) % c = 0 := by rw [e, Nat.mul_mod_right]
  unfold sliceStart
  rw [h1, h2]
  obtain ⟨n, rfl⟩ : ∃ m, n = m + 1 := ⟨n - 1, by omega⟩
  have : r % c = c - 1 := by omega
  rw [this]
  simp only [Nat.add_sub_cancel]
  have e2 : (r / c + 1) * ((n + 1) * c) = r / c * ((n + 1) * c) + (c * n + c) := by ring
  omega

theorem next_sliceStart {k : SliceConsts} {n c P : Nat} {D : Int} (H : JumpsRight k n c P D) {r : Nat}
    (hr : r + 1 < P * c) :
    k.next (D + (sliceStart n c r : Int)) = .ok (D + (sliceStart n c (r + 1) : Int)) := by
  have hc := H.cpos
  have hn := H.npos
  have hmod := Nat.mod_lt r hc
  by_cases hn1 : n = 1
  · -- nothing to jump over
    have hs : k.axisStride = 0 := by rw [H.stride, if_pos hn1]; rfl
    have e : sliceStart n c (r + 1) = sliceStart n c r + 1 := by
      by_cases h : r % c + 1 < c
      · exact sliceStart_step hc h
      · rw [sliceStart_jump hc hn (by omega), hn1]; simp
    rw [e]
    unfold SliceConsts.next
    have := H.pos
    rw [if_neg (by omega)]
    simp only [hs, Int.add_zero, ite_self]
    push_cast; congr 1
    omega
  have hst : k.axisStride = ((c * (n - 1) : Nat) : Int) := by rw [H.stride, if_neg hn1]
  have hup : k.upper = ((n * c : Nat) : Int) := by
    rw [H.upper, hst]
    have : c + c * (n - 1) = n * c := by
      obtain ⟨m, rfl⟩ : ∃ m, n = m + 1 := ⟨n - 1, by omega⟩
      simp only [Nat.add_sub_cancel]; ring
    exact_mod_cast this
  have hnc : 2 * c ≤ n * c := Nat.mul_le_mul_right c (by omega)
  rcases H.cond with h | ⟨ht, h1⟩ | ⟨ht, hD, h⟩
  · exact absurd h hn1
  · rw [next_jump H.pos (Or.inl ht), hst, sliceStart_jump hc hn (by omega)]
    push_cast; congr 1; omega
  · -- the remainder of the next offset
    have hcmp : (D + (sliceStart n c r : Int) + 1) % (k.iterSize : Int) =
        (((sliceStart n c r + 1) % k.iterSize : Nat) : Int) := by
      rw [← emod_shift hD]; push_cast; congr 1; omega
    have hdm := Nat.div_add_mod r c
    by_cases hj : r % c + 1 < c
    · rw [sliceStart_step hc hj, next_step H.pos]
      · push_cast; congr 1; omega
      · rw [ht, hcmp, hup, H.lower]
        simp only [Bool.false_eq_true, false_or, not_and, ge_iff_le]
        intro h2
        rcases h with ⟨hP, hci⟩ | hit | ⟨hP, hit⟩
        · have hq : r / c = 0 := by
            apply Nat.div_eq_of_lt
            have : P * c ≤ 1 * c := Nat.mul_le_mul_right c hP
            omega
          have : (sliceStart n c r + 1) % k.iterSize = r % c + 1 := by
            unfold sliceStart; rw [hq, Nat.zero_mul, Nat.zero_add, Nat.mod_eq_of_lt (by omega)]
          rw [this]; omega
        · have : (sliceStart n c r + 1) % k.iterSize = r % c + 1 := by
            unfold sliceStart
            rw [hit, show r / c * (n * c) + r % c + 1 = r % c + 1 + n * c * (r / c) from by ring,
              Nat.add_mul_mod_self_left, Nat.mod_eq_of_lt (by omega)]
          rw [this]; omega
        · have hq : r / c < 2 := by
            apply Nat.div_lt_of_lt_mul
            have : P * c ≤ 2 * c := Nat.mul_le_mul_right c hP
            rw [Nat.mul_comm c 2]; omega
          by_cases hq0 : r / c = 0
          · have : (sliceStart n c r + 1) % k.iterSize = r % c + 1 := by
              unfold sliceStart; rw [hq0, Nat.zero_mul, Nat.zero_add, Nat.mod_eq_of_lt (by omega)]
            rw [this]; omega
          · have hq1 : r / c = 1 := Nat.le_antisymm (Nat.le_of_lt_succ hq) (Nat.pos_of_ne_zero hq0)
            have : (sliceStart n c r + 1) % k.iterSize = n * c + r % c + 1 := by
              unfold sliceStart; rw [hq1, Nat.one_mul, Nat.mod_eq_of_lt (by omega)]
            rw [this] at h2; omega
    · have hj' : r % c + 1 = c := by omega
      rw [sliceStart_jump hc hn hj', next_jump H.pos, hst]
      · push_cast; congr 1; omega
      · right
        rw [hcmp, hup, H.lower]
        have hv : (sliceStart n c r + 1) % k.iterSize = c := by
          rcases h with ⟨hP, hci⟩ | hit | ⟨hP, hit⟩
          · exfalso
            have h3 : P * c ≤ 1 * c := Nat.mul_le_mul_right c hP
            have : r % c ≤ r := Nat.mod_le r c
            omega
          · unfold sliceStart
            rw [hit, show r / c * (n * c) + r % c + 1 = r % c + 1 + n * c * (r / c) from by ring,
              Nat.add_mul_mod_self_left, hj', Nat.mod_eq_of_lt (by omega)]
          · have h3 : P * c ≤ 2 * c := Nat.mul_le_mul_right c hP
            have hq0 : r / c = 0 := by
              by_contra hne
              have : 1 * c ≤ r / c * c := Nat.mul_le_mul_right c (Nat.pos_of_ne_zero hne)
              rw [Nat.mul_comm (r / c)] at this
              omega
            unfold sliceStart
            rw [hq0, Nat.zero_mul, Nat.zero_add, hj', Nat.mod_eq_of_lt (by omega)]
        rw [hv]
        constructor <;> omega

theorem sliceLoop_spec {k : SliceConsts} {n c P : Nat} {D : Int} (H : JumpsRight k n c P D) : ∀ (s r : Nat),
    r + s = P * c →
    sliceLoop k s (D + (sliceStart n c r : Int)) =
      .ok ((List.range' r s).map fun i => D + (sliceStart n c i : Int))
  | 0, r, _ => rfl
  | s + 1, r, h => by
    unfold sliceLoop
    cases s with
    | zero =>
      obtain ⟨o, ho⟩ := next_ok k H.pos (D + (sliceStart n c r : Int))
      rw [ho]; rfl
    | succ s =>
      rw [next_sliceStart H (by omega), Res.bind_ok, sliceLoop_spec H (s + 1) (r + 1) (by omega),
        List.range'_succ (s := r)]
      rfl

theorem sliceLoop_consecutive (k : SliceConsts) : ∀ (s : Nat) (off : Int) (l : List Int), sliceLoop k s off = .ok l →
    l.length = s ∧ (∀ i x y, l[i]? = some x → l[i + 1]? = some y → k.next x = .ok y) ∧ (0 < s → l[0]? = some off)
  | 0, off, l, h => by
    cases h; simp
  | s + 1, off, l, h => by
    unfold sliceLoop at h
    cases hn : k.next off with
    | ok o =>
      rw [hn, Res.bind_ok] at h
      cases hl : sliceLoop k s o with
      | ok l' =>
        rw [hl, Res.map_ok] at h
        cases h
        obtain ⟨h1, h2, h3⟩ := sliceLoop_consecutive k s o l' hl
        refine ⟨by simp [h1], ?_, by simp⟩
        intro i x y hx hy
        cases i with
        | zero =>
          have hx' : off = x := by simpa using hx
          have hy' : l'[0]? = some y := by simpa using hy
          have hs : 0 < s := by
            rw [← h1]; exact (List.getElem?_eq_some_iff.1 hy').1
          have := h3 hs
          rw [hy'] at this
          rw [← hx', hn]
          simpa using this.symm
        | succ i => exact h2 i x y (by simpa using hx) (by simpa using hy)
      | throws => rw [hl] at h; cases h
      | ub => rw [hl] at h; cases h
    | throws => rw [hn] at h; cases h
    | ub => rw [hn] at h; cases h

/-! ### Instances for the two layouts -/

/-- The slower axes, the faster axes and the part of the slower axes after the slowest, for the traversal order. -/
def Spec.slower : Layout → List Nat → Nat → List Nat
  | .column_major, sh, axis => sh.drop (axis + 1)
  | _, sh, axis => sh.take axis
def Spec.faster : Layout → List Nat → Nat → List Nat
  | .column_major, sh, axis => sh.take axis
  | _, sh, axis => sh.drop (axis + 1)
def Spec.between : Layout → List Nat → Nat → List Nat
  | .column_major, sh, axis => (sh.drop (axis + 1)).dropLast
  | _, sh, axis => (sh.take axis).tail

/-- The axis has one element, is the fastest, has no more than one position between the slowest axis and itself, or no
more than two positions in all slower axes. -/
def Spec.SlicesFit (l : Layout) (sh : List Nat) (axis : Nat) : Prop :=
  sh.getD axis 0 = 1 ∨ faster l sh axis = [] ∨ numel (between l sh axis) = 1 ∨ numel (slower l sh axis) ≤ 2

/-- The elements of all axes but the slowest. -/
def Spec.rest : Layout → List Nat → List Nat
  | .column_major, sh => sh.dropLast
  | _, sh => sh.tail

theorem contig_stride {l : Layout} (hl : l = .row_major ∨ l = .column_major) {a : StridedArr} (hw : a.WF)
    (hc : Contig l a) (hp : 0 < numel a.shape) {axis : Nat} (h : axis < a.shape.length) :
    a.strides.getD axis 0 = if a.shape.getD axis 0 = 1 then 0 else (numel (faster l a.shape axis) : Int) := by
  split
  · next h1 => exact hw.unit axis h1
  · next h1 =>
    have hz := inBounds_zeros (inBounds_last hp)
    have hx : 0 < a.shape.getD axis 0 := by
      rw [shape_split h, numel_append, numel] at hp
      exact Nat.pos_of_ne_zero fun e => by rw [e] at hp; simp at hp
    obtain ⟨h2, h3⟩ := addr_unit hz h (by omega)
    unfold addr at h3
    rw [hc _ h2, hc _ hz] at h3
    have e0 : rankIn l a.shape (List.replicate a.shape.length 0) = 0 := by
      have := iterAt_begin (L := l) (sh := a.shape) (σ := Unit) (st := ()) (R := fun _ _ => True)
        (E := fun _ => True) hp trivial
      exact (this.inner hp).2.1
    have hset : (List.replicate a.shape.length 0).set axis 1 =
        List.replicate axis 0 ++ 1 :: List.replicate (a.shape.length - (axis + 1)) 0 := by
      rw [List.set_eq_take_append_cons_drop, if_pos (by simpa using h)]
      simp [List.take_replicate, List.drop_replicate]
      omega
    have key : rankIn l a.shape ((List.replicate a.shape.length 0).set axis 1) = numel (faster l a.shape axis) := by
      rw [hset]
      have hz1 : ∀ s : List Nat, rowRank s (List.replicate s.length 0) = 0 ∧ colRank s (List.replicate s.length 0) = 0 := by
        intro s
        induction s with
        | nil => exact ⟨rfl, rfl⟩
        | cons x s ih => simp [List.replicate_succ, ih.1, ih.2]
      have l1 : axis = (a.shape.take axis).length := by simp; omega
      have l2 : a.shape.length - (axis + 1) = (a.shape.drop (axis + 1)).length := by simp
      rw [l2]
      have l3 : List.replicate axis 0 = List.replicate (a.shape.take axis).length 0 := by rw [← l1]
      rw [l3]
      have hr : ∀ i, rankIn l a.shape i =
          rankIn l (a.shape.take axis ++ a.shape.getD axis 0 :: a.shape.drop (axis + 1)) i := fun i => by
        rw [← shape_split h]
      rw [hr]
      rcases hl with rfl | rfl
      · show rowRank _ _ = numel (a.shape.drop (axis + 1))
        rw [rowRank_append (by simp), rowRank, (hz1 _).1, (hz1 _).1]; simp
      · show colRank _ _ = numel (a.shape.take axis)
        rw [colRank_append (by simp), colRank, (hz1 _).2, (hz1 _).2]; simp
    rw [key, e0] at h3
    omega

theorem foldl_mul_numel (l : List Nat) : l.foldl (· * ·) 1 = numel l := by rw [foldl_mul_eq, Nat.one_mul]

theorem sliceCount_eq {l : Layout} (hl : l = .row_major ∨ l = .column_major) (a : StridedArr) (axis : Nat) :
    sliceCount a axis = numel (slower l a.shape axis) * numel (faster l a.shape axis) := by
  unfold sliceCount
  rw [foldl_mul_eq, foldl_mul_numel]
  rcases hl with rfl | rfl
  · rfl
  · exact Nat.mul_comm _ _

theorem consts_eq {l : Layout} (hl : l = .row_major ∨ l = .column_major) {a : StridedArr} (hw : a.WF)
    (hc : Contig l a) (hp : 0 < numel a.shape) {axis : Nat} (h : axis < a.shape.length) :
    let k := sliceConsts a l axis
    k.axisStride = ((if a.shape.getD axis 0 = 1 then 0 else
        numel (faster l a.shape axis) * (a.shape.getD axis 0 - 1) : Nat) : Int) ∧
    k.lower = numel (faster l a.shape axis) ∧ k.upper = k.lower + k.axisStride ∧
    k.iterSize = numel (rest l a.shape) ∧ (k.target = true ↔ faster l a.shape axis = []) := by
  have hst := contig_stride hl hw hc hp h
  have hx : 0 < a.shape.getD axis 0 := by
    have hp' := hp
    rw [shape_split h, numel_append, numel] at hp'
    exact Nat.pos_of_ne_zero fun e => by rw [e] at hp'; simp at hp'
  have hst' : a.strides.getD axis 0 * ((a.shape.getD axis 0 : Int) - 1) = ((if a.shape.getD axis 0 = 1 then 0 else
        numel (faster l a.shape axis) * (a.shape.getD axis 0 - 1) : Nat) : Int) := by
    rw [hst]
    split
    · simp
    · rw [Int.natCast_mul, Int.natCast_sub hx]; rfl
  rcases hl with rfl | rfl
  · refine ⟨hst', foldl_mul_numel _, rfl, ?_, ?_⟩
    · show (a.shape.drop 1).foldl (· * ·) 1 = _
      rw [foldl_mul_numel, List.drop_one]; rfl
    · show (axis == a.shape.length - 1) = true ↔ a.shape.drop (axis + 1) = []
      rw [List.drop_eq_nil_iff, beq_iff_eq]; omega
  · refine ⟨hst', foldl_mul_numel _, rfl, ?_, ?_⟩
    · show (a.shape.take (a.shape.length - 1)).foldl (· * ·) 1 = _
      rw [foldl_mul_numel, ← List.dropLast_eq_take]; rfl
    · show (axis == 0) = true ↔ a.shape.take axis = []
      rw [List.take_eq_nil_iff, beq_iff_eq]
      constructor
      · intro h; exact Or.inl h
      · rintro (h' | h')
        · exact h'
        · rw [h'] at h; simp at h

theorem numel_rest {l : Layout} (hl : l = .row_major ∨ l = .column_major) {sh : List Nat} {axis : Nat}
    (h : axis < sh.length) :
    (slower l sh axis = [] ∧ numel (rest l sh) = numel (faster l sh axis)) ∨
    (slower l sh axis ≠ [] ∧
      numel (rest l sh) = numel (between l sh axis) * (sh.getD axis 0 * numel (faster l sh axis))) := by
  have hs := shape_split h
  generalize sh.getD axis 0 = n at *
  rcases hl with rfl | rfl
  · show (sh.take axis = [] ∧ numel sh.tail = numel (sh.drop (axis + 1))) ∨ (sh.take axis ≠ [] ∧
      numel sh.tail = numel (sh.take axis).tail * (n * numel (sh.drop (axis + 1))))
    generalize sh.take axis = p at *
    generalize sh.drop (axis + 1) = q at *
    subst hs
    cases p with
    | nil => left; exact ⟨rfl, rfl⟩
    | cons x p => right; refine ⟨by simp, ?_⟩; simp [numel_append, numel]
  · show (sh.drop (axis + 1) = [] ∧ numel sh.dropLast = numel (sh.take axis)) ∨ (sh.drop (axis + 1) ≠ [] ∧
      numel sh.dropLast = numel (sh.drop (axis + 1)).dropLast * (n * numel (sh.take axis)))
    generalize sh.take axis = p at *
    generalize sh.drop (axis + 1) = q at *
    subst hs
    rcases List.eq_nil_or_concat q with rfl | ⟨q, x, rfl⟩
    · left; exact ⟨rfl, by simp⟩
    · right
      refine ⟨by simp, ?_⟩
      have e : (p ++ n :: q.concat x).dropLast = p ++ n :: q := by
        rw [List.concat_eq_append, ← List.cons_append, ← List.append_assoc, List.dropLast_concat]
      rw [e]
      simp [numel_append, numel]
      ring

theorem numel_slower {l : Layout} (hl : l = .row_major ∨ l = .column_major) (sh : List Nat) (axis : Nat)
    (h : slower l sh axis ≠ []) : ∃ s, numel (slower l sh axis) = s * numel (between l sh axis) := by
  rcases hl with rfl | rfl
  · revert h
    show sh.take axis ≠ [] → ∃ s, numel (sh.take axis) = s * numel (sh.take axis).tail
    cases sh.take axis with
    | nil => intro h; exact absurd rfl h
    | cons x p => intro _; exact ⟨x, rfl⟩
  · revert h
    show sh.drop (axis + 1) ≠ [] → ∃ s, numel (sh.drop (axis + 1)) = s * numel (sh.drop (axis + 1)).dropLast
    intro h
    refine ⟨(sh.drop (axis + 1)).getLast h, ?_⟩
    conv_lhs => rw [← List.dropLast_concat_getLast h, numel_append]
    simp [numel, Nat.mul_comm]

theorem numel_shape {l : Layout} (hl : l = .row_major ∨ l = .column_major) {sh : List Nat} {axis : Nat}
    (h : axis < sh.length) (hp : 0 < numel sh) :
    0 < numel (slower l sh axis) ∧ 0 < sh.getD axis 0 ∧ 0 < numel (faster l sh axis) := by
  rw [shape_split h, numel_append, numel] at hp
  have h1 := Nat.pos_of_mul_pos_right hp
  have h2 := Nat.pos_of_mul_pos_left hp
  have h3 := Nat.pos_of_mul_pos_right h2
  have h4 := Nat.pos_of_mul_pos_left h2
  rcases hl with rfl | rfl
  · exact ⟨by assumption, by assumption, by assumption⟩
  · exact ⟨by assumption, by assumption, by assumption⟩

theorem rank_withAxis {l : Layout} (hl : l = .row_major ∨ l = .column_major) {sh : List Nat} {axis : Nat}
    (h : axis < sh.length) (hp : 0 < numel sh) {o : List Nat} (ho : InBounds (otherAxes axis sh) o) :
    rankIn l sh (withAxis axis 0 o) =
      sliceStart (sh.getD axis 0) (numel (faster l sh axis)) (rankIn l (otherAxes axis sh) o) := by
  obtain ⟨-, hn, hcpos⟩ := numel_shape hl h hp
  obtain ⟨p, q, e1, e2, hpl, hbp, hbq, -⟩ := inBounds_withAxis h ho hn
  have hpl' : p.length = (sh.take axis).length := by simp; omega
  rw [e2, e1]
  unfold sliceStart
  rcases hl with rfl | rfl
  · show rowRank _ _ = rowRank _ _ / numel (sh.drop (axis + 1)) * (_ * numel (sh.drop (axis + 1))) +
      rowRank _ _ % numel (sh.drop (axis + 1))
    have hq := rowRank_lt hbq
    unfold otherAxes
    rw [rowRank_append hpl', Nat.add_comm (rowRank _ _ * _) (rowRank _ _), Nat.add_mul_div_right _ _ (by omega), Nat.div_eq_of_lt hq, Nat.zero_add,
      Nat.add_mul_mod_self_right, Nat.mod_eq_of_lt hq]
    conv_lhs => rw [shape_split h]
    rw [rowRank_append hpl']
    simp [rowRank, numel]
  · show colRank _ _ = colRank _ _ / numel (sh.take axis) * (_ * numel (sh.take axis)) +
      colRank _ _ % numel (sh.take axis)
    have hq := colRank_lt hbp
    unfold otherAxes
    rw [colRank_append hpl', Nat.add_mul_div_left _ _ (by omega), Nat.div_eq_of_lt hq, Nat.zero_add,
      Nat.add_mul_mod_self_left, Nat.mod_eq_of_lt hq]
    conv_lhs => rw [shape_split h]
    rw [colRank_append hpl']
    simp [colRank]
    ring

/-- The starts of all slices, in order. -/
theorem slice_starts {l : Layout} (hl : l = .row_major ∨ l = .column_major) {a : StridedArr} (hc : Contig l a)
    (hp : 0 < numel a.shape) {axis : Nat} (h : axis < a.shape.length) :
    (orderIndices l (otherAxes axis a.shape)).map (fun o => addr a (withAxis axis 0 o)) =
      (List.range (numel (slower l a.shape axis) * numel (faster l a.shape axis))).map fun i =>
        a.off + (sliceStart (a.shape.getD axis 0) (numel (faster l a.shape axis)) i : Int) := by
  have hn : numel (otherAxes axis a.shape) = numel (slower l a.shape axis) * numel (faster l a.shape axis) := by
    unfold otherAxes
    rw [numel_append]
    rcases hl with rfl | rfl
    · rfl
    · exact Nat.mul_comm _ _
  rw [← hn, ← map_rankIn_orderIndices l, List.map_map]
  apply List.map_congr_left
  intro o ho
  have hb := mem_orderIndices.1 ho
  obtain ⟨-, hpos, -⟩ := numel_shape hl h hp
  obtain ⟨-, -, -, -, -, -, -, hbw⟩ := inBounds_withAxis h hb hpos
  show a.off + dot a.strides (toInts (withAxis axis 0 o)) = _
  rw [hc _ hbw, rank_withAxis hl h hp hb]
  rfl

theorem jumpsRight_of_fit {l : Layout} (hl : l = .row_major ∨ l = .column_major) {a : StridedArr} (hw : a.WF)
    (hc : Contig l a) (hp : 0 < numel a.shape) {axis : Nat} (h : axis < a.shape.length)
    (hD : (numel (rest l a.shape) : Int) ∣ a.off) (hf : SlicesFit l a.shape axis) :
    JumpsRight (sliceConsts a l axis) (a.shape.getD axis 0) (numel (faster l a.shape axis))
      (numel (slower l a.shape axis)) a.off := by
  obtain ⟨h1, h2, h3, h4, h5⟩ := consts_eq hl hw hc hp h
  obtain ⟨p1, p2, p3⟩ := numel_shape hl h hp
  have hnr := numel_rest hl h
  have hit : 0 < numel (rest l a.shape) := by
    rcases hnr with ⟨-, e⟩ | ⟨hne, e⟩
    · omega
    · obtain ⟨s, hs⟩ := numel_slower hl a.shape axis hne
      rw [e]
      have : 0 < numel (between l a.shape axis) := Nat.pos_of_ne_zero fun e => by rw [e] at hs; omega
      exact Nat.mul_pos this (Nat.mul_pos p2 p3)
  refine ⟨by rw [h4]; exact hit, p3, h1, h2, by rw [h3, h2], ?_, p2⟩
  by_cases hn1 : a.shape.getD axis 0 = 1
  · exact Or.inl hn1
  right
  by_cases ht : (sliceConsts a l axis).target = true
  · left; refine ⟨ht, ?_⟩
    rw [h5.1 ht]; rfl
  · right
    refine ⟨by simpa using ht, by rw [h4]; exact hD, ?_⟩
    rw [h4]
    rcases hnr with ⟨hs, e⟩ | ⟨hne, e⟩
    · left; rw [hs, e]; exact ⟨le_refl _, le_refl _⟩
    · have hcases : numel (between l a.shape axis) = 1 ∨ numel (slower l a.shape axis) ≤ 2 := by
        rcases hf with h | h | h | h
        · exact absurd h hn1
        · exact absurd (h5.2 h) ht
        · exact Or.inl h
        · exact Or.inr h
      obtain ⟨s, hs⟩ := numel_slower hl a.shape axis hne
      by_cases hb1 : numel (between l a.shape axis) = 1
      · right; left; rw [e, hb1, Nat.one_mul]
      · have hle : numel (slower l a.shape axis) ≤ 2 := by
          rcases hcases with h | h
          · exact absurd h hb1
          · exact h
        right; right
        refine ⟨hle, ?_⟩
        have hb2 : numel (between l a.shape axis) = 2 := by
          have hs0 : 0 < s := Nat.pos_of_ne_zero fun e => by rw [e, Nat.zero_mul] at hs; omega
          have hb0 : 0 < numel (between l a.shape axis) := Nat.pos_of_ne_zero fun e => by rw [e] at hs; omega
          have : 1 * numel (between l a.shape axis) ≤ s * numel (between l a.shape axis) := Nat.mul_le_mul_right _ hs0
          omega
        rw [e, hb2]

/-- Iterating from `axis_slice_begin` to `axis_slice_end` over a contiguous array visits every one-dimensional slice along
the axis once, in the order of the layout, when the storage offset is a multiple of the size without the slowest axis and
the axis is one of those of `SlicesFit`.  (Partial: `C61_slices_exact` shows that the others are wrong,
`C61_slices_offset_wrong`, `C61_slices_layout_wrong` and `C61_slices_empty_undefined` the rest.) -/
theorem C61_slices_partial (l : Layout) (hl : l = .row_major ∨ l = .column_major) (a : StridedArr) (hw : a.WF)
    (hc : Contig l a) (hp : 0 < numel a.shape) (axis : Nat) (h : axis < a.shape.length)
    (hD : (numel (rest l a.shape) : Int) ∣ a.off) (hf : SlicesFit l a.shape axis) :
    axisSlices a l axis = .ok ((orderIndices l (otherAxes axis a.shape)).map fun o =>
      StridedArr.mk' [a.shape.getD axis 0] [a.strides.getD axis 0] (addr a (withAxis axis 0 o))) := by
  have H := jumpsRight_of_fit hl hw hc hp h hD hf
  have hs := sliceLoop_spec H (sliceCount a axis) 0 (by rw [sliceCount_eq hl]; omega)
  have e0 : sliceStart (a.shape.getD axis 0) (numel (faster l a.shape axis)) 0 = 0 := by simp [sliceStart]
  rw [e0] at hs
  simp only [Int.natCast_zero, Int.add_zero] at hs
  unfold axisSlices
  rw [hs, Res.map_ok, ← List.range_eq_range', sliceCount_eq hl, ← slice_starts hl hc hp h, List.map_map]
  rfl

/-- The elements of such a slice are those that differ in the coordinate on the axis only. -/
theorem C61_slice_element (a : StridedArr) (hw : a.WF) (axis : Nat) (h : axis < a.shape.length) (o : List Nat)
    (ho : InBounds (otherAxes axis a.shape) o) (k : Nat) (hk : k < a.shape.getD axis 0) :
    addr (StridedArr.mk' [a.shape.getD axis 0] [a.strides.getD axis 0] (addr a (withAxis axis 0 o))) [k] =
      addr a (withAxis axis k o) := by
  have h0 : 0 < a.shape.getD axis 0 := by omega
  obtain ⟨p, q, e1, e2, hp, -, -, -⟩ := inBounds_withAxis h ho hk
  have e3 : withAxis axis 0 o = p ++ 0 :: q := by
    unfold withAxis at e2 ⊢
    have := List.append_inj e2 (by rw [hp, List.length_take]; have := ho.length_eq; simp [otherAxes] at this; omega)
    rw [this.1]
    have := this.2
    simp only [List.cons.injEq, true_and] at this
    rw [this]
  have hs := strides_split hw h
  unfold addr
  rw [e2, e3]
  conv_lhs => rw [hs]
  conv_rhs => rw [hs]
  simp only [toInts, List.map_append, List.map_cons]
  rw [dot_split _ _ _ _ _ _ (by simp [hp, hw.len]; omega), dot_split _ _ _ _ _ _ (by simp [hp, hw.len]; omega)]
  have hget : (a.strides.take axis ++ a.strides.getD axis 0 :: a.strides.drop (axis + 1)).getD axis 0 =
      a.strides.getD axis 0 := by rw [← hs]
  rw [hget]
  simp only [StridedArr.mk', dot, List.map_nil]
  push_cast
  simp
  ring

theorem next_wrong {k : SliceConsts} {n c b : Nat} {D : Int} (hn : 2 ≤ n) (hc : 0 < c) (hb : 2 ≤ b)
    (hst : k.axisStride = ((c * (n - 1) : Nat) : Int)) (hlo : k.lower = c) (hup : k.upper = k.lower + k.axisStride)
    (hit : k.iterSize = b * (n * c)) (ht : k.target = false) (hD : (k.iterSize : Int) ∣ D) :
    k.next (D + (sliceStart n c (2 * c - 1) : Int)) ≠ .ok (D + (sliceStart n c (2 * c) : Int)) := by
  have e1 : sliceStart n c (2 * c - 1) = n * c + (c - 1) := by
    unfold sliceStart
    rw [show 2 * c - 1 = c - 1 + c * 1 from by omega, Nat.add_mul_div_left _ _ hc, Nat.div_eq_of_lt (by omega),
      Nat.add_mul_mod_self_left, Nat.mod_eq_of_lt (by omega)]
    simp
  have e2 : sliceStart n c (2 * c) = 2 * (n * c) := by
    unfold sliceStart
    rw [Nat.mul_div_cancel _ hc, Nat.mul_mod_left]; omega
  have hnc : 2 * c ≤ n * c := Nat.mul_le_mul_right c hn
  have hbnc : 2 * (n * c) ≤ b * (n * c) := Nat.mul_le_mul_right _ hb
  have hcmp : (D + (sliceStart n c (2 * c - 1) : Int) + 1) % (k.iterSize : Int) = ((n * c + c : Nat) : Int) := by
    have h1 : D + (sliceStart n c (2 * c - 1) : Int) + 1 = D + ((n * c + c : Nat) : Int) := by
      rw [e1, Int.add_assoc]; congr 1
      have : n * c + (c - 1) + 1 = n * c + c := by omega
      exact_mod_cast this
    rw [h1, emod_shift hD, Nat.mod_eq_of_lt (by omega)]
  have hup' : k.upper = ((n * c : Nat) : Int) := by
    rw [hup, hlo, hst]
    have : c + c * (n - 1) = n * c := by
      obtain ⟨m, rfl⟩ : ∃ m, n = m + 1 := ⟨n - 1, by omega⟩
      simp only [Nat.add_sub_cancel]; ring
    exact_mod_cast this
  rw [next_step (by omega)]
  · rw [e1, e2]
    intro h
    simp only [Res.ok.injEq] at h
    push_cast at h
    omega
  · rw [ht, hcmp, hup', hlo]
    simp only [Bool.false_eq_true, false_or, not_and, ge_iff_le]
    intro h
    omega

/-- On containers that start at the beginning of their storage the slices visited are right exactly for the axes of
`SlicesFit`; so never for an axis in the middle with at least two elements, if the axes between the slowest and it have at
least two positions and all slower axes three. -/
theorem C61_slices_exact (l : Layout) (hl : l = .row_major ∨ l = .column_major) (sh : List Nat) (hp : 0 < numel sh)
    (axis : Nat) (h : axis < sh.length) :
    let a := StridedArr.container l sh 0
    axisSlices a l axis = .ok ((orderIndices l (otherAxes axis sh)).map fun o =>
      StridedArr.mk' [sh.getD axis 0] [a.strides.getD axis 0] (addr a (withAxis axis 0 o))) ↔ SlicesFit l sh axis := by
  intro a
  have hw : a.WF := container_wf _ _
  have hc : Contig l a := container_contig hl _ _
  have hoff : a.off = 0 := rfl
  have hsh : a.shape = sh := rfl
  constructor
  · intro heq
    by_contra hnf
    unfold SlicesFit at hnf
    simp only [not_or, not_le] at hnf
    obtain ⟨n1, n2, n3, n4⟩ := hnf
    obtain ⟨h1, h2, h3, h4, h5⟩ := consts_eq hl hw hc hp h
    obtain ⟨p1, p2, p3⟩ := numel_shape hl h hp
    have hne : slower l sh axis ≠ [] := by intro e; rw [e] at n4; simp [numel] at n4
    have hnr : numel (rest l sh) = numel (between l sh axis) * (sh.getD axis 0 * numel (faster l sh axis)) := by
      rcases numel_rest hl h with ⟨e, -⟩ | ⟨-, e⟩
      · exact absurd e hne
      · exact e
    have hb : 2 ≤ numel (between l sh axis) := by
      obtain ⟨s, hs⟩ := numel_slower hl sh axis hne
      have : numel (between l sh axis) ≠ 0 := fun e => by rw [e] at hs; omega
      omega
    have ht : (sliceConsts a l axis).target = false := by
      by_contra hcon
      exact n2 (h5.1 (by simpa using hcon))
    rw [hsh] at h1 h2 h4
    rw [if_neg n1] at h1
    have hwrong := next_wrong (k := sliceConsts a l axis) (D := 0) (n := sh.getD axis 0)
      (c := numel (faster l sh axis)) (b := numel (between l sh axis)) (by omega) p3 hb h1 h2 h3
      (by rw [h4, hnr]) ht (by simp)
    unfold axisSlices at heq
    cases hl' : sliceLoop (sliceConsts a l axis) (sliceCount a axis) a.off with
    | throws => rw [hl'] at heq; cases heq
    | ub => rw [hl'] at heq; cases heq
    | ok offs =>
      rw [hl', Res.map_ok, Res.ok.injEq] at heq
      have hoffs : offs = (List.range (numel (slower l sh axis) * numel (faster l sh axis))).map fun i =>
          a.off + (sliceStart (sh.getD axis 0) (numel (faster l sh axis)) i : Int) := by
        refine Eq.trans ?_ (slice_starts hl hc hp h)
        have := congrArg (List.map StridedArr.off) heq
        simp only [List.map_map] at this
        have id1 : (StridedArr.off ∘ fun o => StridedArr.mk' [a.shape.getD axis 0] [a.strides.getD axis 0] o) = id := rfl
        rw [id1, List.map_id] at this
        exact this
      obtain ⟨hlen, hcons, -⟩ := sliceLoop_consecutive _ _ _ _ hl'
      have hcount : 2 * numel (faster l sh axis) < numel (slower l sh axis) * numel (faster l sh axis) :=
        Nat.mul_lt_mul_of_pos_right n4 p3
      refine hwrong ?_
      have hget : ∀ i, i < numel (slower l sh axis) * numel (faster l sh axis) →
          offs[i]? = some (0 + (sliceStart (sh.getD axis 0) (numel (faster l sh axis)) i : Int)) := by
        intro i hi
        rw [hoffs, List.getElem?_map, List.getElem?_range hi]; rfl
      refine hcons (2 * numel (faster l sh axis) - 1) _ _ (hget _ (by omega)) ?_
      rw [show 2 * numel (faster l sh axis) - 1 + 1 = 2 * numel (faster l sh axis) from by omega]
      exact hget _ hcount
  · intro hf
    exact C61_slices_partial l hl a hw hc hp axis h (by rw [hoff]; exact dvd_zero _) hf

instance (l : Layout) (sh : List Nat) (axis : Nat) : Decidable (SlicesFit l sh axis) := by
  unfold SlicesFit; infer_instance

/-- Two and three axes are always right; with four, the third (row-major) or second (column-major) may be wrong. -/
theorem C61_few_axes (l : Layout) (hl : l = .row_major ∨ l = .column_major) (sh : List Nat) (axis : Nat)
    (h : axis < sh.length) (h3 : sh.length ≤ 3) : SlicesFit l sh axis := by
  match sh, h, h3 with
  | [a], h, _ =>
    have : axis = 0 := by simp at h; omega
    subst this
    rcases hl with rfl | rfl <;> simp [SlicesFit, faster]
  | [a, b], h, _ =>
    have : axis = 0 ∨ axis = 1 := by simp at h; omega
    rcases this with rfl | rfl <;> rcases hl with rfl | rfl <;> simp [SlicesFit, faster, between, numel]
  | [a, b, c], h, _ =>
    have : axis = 0 ∨ axis = 1 ∨ axis = 2 := by simp at h; omega
    rcases this with rfl | rfl | rfl <;> rcases hl with rfl | rfl <;> simp [SlicesFit, faster, between, numel]

example : SlicesFit .row_major [4, 5, 6] 1 ∧ SlicesFit .row_major [1, 2, 5, 6] 2 ∧ ¬ SlicesFit .row_major [2, 2, 2, 2] 2 ∧
    ¬ SlicesFit .column_major [2, 2, 2, 2] 1 ∧ SlicesFit .row_major [2, 2, 2, 2] 3 := by decide

example :
    let a := StridedArr.container .row_major [2, 2, 2] 0
    axisSlices a .row_major 1 = .ok ([0, 1, 4, 5].map (StridedArr.mk' [2] [2])) := rfl

/-- In a 2 × 2 × 2 × 2 array the slices along the third axis are visited at 0, 1, 4, 5, 6, ... instead of 0, 1, 4, 5, 8, ... -/
example : sliceLoop (sliceConsts (StridedArr.container .row_major [2, 2, 2, 2] 0) .row_major 2) 8 0 =
    .ok [0, 1, 4, 5, 6, 7, 8, 9] := by decide

/-- A contiguous array that starts elsewhere in its storage, such as a reshaped part of a vector. -/
theorem C61_slices_offset_wrong :
    ¬ ∀ (off : Int) (sh : List Nat) (axis : Nat), 0 ≤ off → axis < sh.length → 0 < numel sh →
      SlicesFit .row_major sh axis →
      let a := StridedArr.container .row_major sh off
      (sliceLoop (sliceConsts a .row_major axis) (sliceCount a axis) a.off) =
        .ok ((orderIndices .row_major (otherAxes axis sh)).map fun o => addr a (withAxis axis 0 o)) := by
  intro h
  have := h 1 [2, 2, 2] 1 (by decide) (by decide) (by decide) (by decide)
  revert this; decide

/-- A view that is not contiguous, every second column of a 2 × 4 array, whose `layout()` is dynamic. -/
theorem C61_slices_layout_wrong :
    ¬ ∀ (a : StridedArr) (l : Layout) (axis : Nat), a.WF → axis < a.shape.length → 0 < numel a.shape →
      (sliceLoop (sliceConsts a l axis) (sliceCount a axis) a.off) =
        .ok ((orderIndices .row_major (otherAxes axis a.shape)).map fun o => addr a (withAxis axis 0 o)) := by
  intro h
  have := h (StridedArr.mk' [2, 2] [4, 2] 0) .dynamic 1 ⟨rfl, by
    intro k hk
    match k with
    | 0 => exact absurd hk (by decide)
    | 1 => exact absurd hk (by decide)
    | k + 2 => rfl, StridedArr.mk'_back _ _ _ rfl⟩ (by decide) (by decide)
  revert this; decide

/-- An axis without elements, with slower axes: the first increment divides by zero. -/
theorem C61_slices_empty_undefined (l : Layout) (hl : l = .row_major ∨ l = .column_major) (a : StridedArr) (axis : Nat)
    (h : axis < a.shape.length) (h0 : a.shape.getD axis 0 = 0) (hs : slower l a.shape axis ≠ [])
    (hc : 0 < sliceCount a axis) : axisSlices a l axis = .ub := by
  have hit : (sliceConsts a l axis).iterSize = 0 := by
    have hnr : numel (rest l a.shape) = 0 := by
      rcases numel_rest hl h with ⟨e, -⟩ | ⟨-, e⟩
      · exact absurd e hs
      · rw [e, h0]; simp
    rw [← hnr]
    rcases hl with rfl | rfl
    · show (a.shape.drop 1).foldl (· * ·) 1 = _
      rw [foldl_mul_numel, List.drop_one]; rfl
    · show (a.shape.take (a.shape.length - 1)).foldl (· * ·) 1 = _
      rw [foldl_mul_numel, ← List.dropLast_eq_take]; rfl
  unfold axisSlices
  obtain ⟨n, hn⟩ : ∃ n, sliceCount a axis = n + 1 := ⟨sliceCount a axis - 1, by omega⟩
  rw [hn]
  unfold sliceLoop SliceConsts.next
  rw [if_pos hit]
  rfl

example : axisSlices (StridedArr.container .row_major [2, 0] 0) .row_major 1 = .ub :=
  C61_slices_empty_undefined .row_major (Or.inl rfl) _ _ (by decide) rfl (by decide) (by decide)

end Xt
