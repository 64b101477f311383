import Verif.Props.Norms
import Verif.Props.Numeric
import Verif.Props.Accumulator
import Verif.Props.Concat
import Verif.Props.ManipShape
import Verif.Props.Flip
import Verif.Props.ArgExtremum
import Mathlib.Algebra.BigOperators.Group.Finset.Basic
/-!
# C90: functions of the library agree with one another
-/

namespace Xt
open Spec

/-! ### Specification -/

/-- Number that axis `a` has after the axes `A` were reduced: unchanged if they are kept, else the number of axes before
it that are left. -/
def Spec.newNumber (A : List Nat) (keep : Bool) (a : Nat) : Nat :=
  if keep then a else ((List.range a).filter fun (b : Nat) => b ∉ A).length

/-- Reducing `A` and then `B`, in the numbering after the first reduction, reduces `C`. -/
def Spec.InStages (dim : Nat) (A B C : List Nat) (keep : Bool) : Prop :=
  ∀ a, a < dim → (a ∈ C ↔ a ∈ A ∨ newNumber A keep a ∈ B)

/-! ### Reductions in stages -/

/-- Functors of `sum`, and with another operation of `prod`, `amin` and `amax`, over a commutative monoid —
core/xmath.hpp:367-383, 777-805, 1838, 1858. -/
def monoidFns (M : Type) [AddCommMonoid M] : RedFns M M := ⟨(· + ·), 0, (· + ·)⟩

variable {M : Type} [AddCommMonoid M]

theorem monoidLaws : ReducerLaws (monoidFns M) := ⟨fun x y v => (add_assoc x y v).symm, fun x => add_zero x⟩

theorem foldl_add_sum : ∀ (l : List M) (a : M), l.foldl (· + ·) a = a + l.sum
  | [], a => by simp
  | x :: l, a => by rw [List.foldl_cons, foldl_add_sum l, List.sum_cons, add_assoc]

theorem redValue_monoid (val : List Nat → M) (sh axes : List Nat) (keep : Bool) (r : List Nat) :
    redValue (monoidFns M) (monoidFns M).init val sh axes keep r = ((redGroup sh axes keep r).map val).sum := by
  unfold redValue
  show List.foldl (· + ·) 0 _ = _
  rw [foldl_add_sum, zero_add]

theorem dropAxes_keep_stages {A B C : List Nat} (v : Nat) : ∀ (is : List Nat) (p : Nat),
    (∀ k, k < is.length → (p + k ∈ C ↔ p + k ∈ A ∨ p + k ∈ B)) →
    dropAxes B (some v) p (dropAxes A (some v) p is) = dropAxes C (some v) p is
  | [], _, _ => rfl
  | i :: is, p, h => by
    have ih := dropAxes_keep_stages v is (p + 1) fun k hk => by
      have := h (k + 1) (by simpa using hk)
      rwa [show p + (k + 1) = p + 1 + k by omega] at this
    have h0 := h 0 (by simp)
    simp only [Nat.add_zero] at h0
    by_cases hA : p ∈ A <;> by_cases hB : p ∈ B <;> simp [dropAxes, h0, hA, hB, ih]

theorem dropAxes_none_stages {A B C : List Nat} : ∀ (is : List Nat) (p q : Nat),
    (∀ k, k < is.length → (p + k ∈ C ↔ p + k ∈ A ∨
      q + ((List.range' p k).filter fun (b : Nat) => b ∉ A).length ∈ B)) →
    dropAxes B none q (dropAxes A none p is) = dropAxes C none p is
  | [], _, _, _ => rfl
  | i :: is, p, q, h => by
    have h0 := h 0 (by simp)
    simp only [Nat.add_zero, List.range'_zero, List.filter_nil, List.length_nil] at h0
    by_cases hA : p ∈ A
    · have ih := dropAxes_none_stages is (p + 1) q fun k hk => by
        have := h (k + 1) (by simpa using hk)
        rw [List.range'_succ, List.filter_cons_of_neg (by simpa using hA)] at this
        rwa [show p + (k + 1) = p + 1 + k by omega] at this
      simp [dropAxes, h0, hA, ih]
    · have ih := dropAxes_none_stages is (p + 1) (q + 1) fun k hk => by
        have := h (k + 1) (by simpa using hk)
        rw [List.range'_succ, List.filter_cons_of_pos (by simpa using hA), List.length_cons] at this
        rwa [show p + (k + 1) = p + 1 + k by omega, show ∀ x, q + (x + 1) = q + 1 + x by omega] at this
      by_cases hB : q ∈ B <;> simp [dropAxes, h0, hA, hB, ih]

theorem dropAxes_stages {dim : Nat} {A B C : List Nat} {keep : Bool} (h : InStages dim A B C keep) (v : Nat)
    {is : List Nat} (hl : is.length = dim) :
    dropAxes B (if keep then some v else none) 0 (dropAxes A (if keep then some v else none) 0 is) =
      dropAxes C (if keep then some v else none) 0 is := by
  cases keep with
  | true =>
    exact dropAxes_keep_stages v is 0 fun k hk => by simpa [newNumber] using h k (by omega)
  | false =>
    exact dropAxes_none_stages is 0 0 fun k hk => by
      simpa [newNumber, List.range_eq_range'] using h k (by omega)

theorem sum_stages {sh A B C : List Nat} {keep : Bool} (h : InStages sh.length A B C keep) (val : List Nat → M)
    {r : List Nat} :
    ((redGroup (redShape sh A keep) B keep r).map fun q => ((redGroup sh A keep q).map val).sum).sum =
      ((redGroup sh C keep r).map val).sum := by
  rw [← List.sum_toFinset _ (redGroup_nodup _ _ _ _), ← List.sum_toFinset _ (redGroup_nodup _ _ _ _)]
  rw [← Finset.sum_fiberwise_of_maps_to (s := (redGroup sh C keep r).toFinset)
    (t := (redGroup (redShape sh A keep) B keep r).toFinset) (g := redIndex A keep)]
  · apply Finset.sum_congr rfl
    intro q hq
    rw [← List.sum_toFinset _ (redGroup_nodup _ _ _ _)]
    apply Finset.sum_congr _ fun _ _ => rfl
    ext idx
    simp only [redGroup, List.mem_toFinset, List.mem_filter, mem_rowIndices, decide_eq_true_eq, Finset.mem_filter] at hq ⊢
    constructor
    · rintro ⟨h1, h2⟩
      refine ⟨⟨h1, ?_⟩, h2⟩
      rw [← hq.2, ← h2]
      exact (dropAxes_stages h 0 h1.length_eq).symm
    · rintro ⟨⟨h1, -⟩, h2⟩
      exact ⟨h1, h2⟩
  · intro idx hi
    simp only [redGroup, List.mem_toFinset, List.mem_filter, mem_rowIndices, decide_eq_true_eq] at hi ⊢
    refine ⟨inBounds_redIndex keep hi.1, ?_⟩
    rw [← hi.2]
    exact dropAxes_stages h 0 hi.1.length_eq

/-- C90: reducing in stages is reducing at once: `sum(sum(e, A), B)` is `sum(e, C)` where `C` has the axes of `A` and
those that `B` names after the first reduction, with or without `keep_dims`, for every commutative monoid.  The inner
reducer enters the outer one through its elements (`C30_own_shape`); it has at least one axis. -/
theorem C90_stages {e : Ex M} {sh : List Nat} (hf : Fits sh e) (keep : Bool) {A B C : List Int}
    (hA : GoodAxes sh.length (A.map (normalizeAxis sh.length)))
    (hB : GoodAxes (redShape sh (A.map (normalizeAxis sh.length)) keep).length
      (B.map (normalizeAxis (redShape sh (A.map (normalizeAxis sh.length)) keep).length)))
    (hC : GoodAxes sh.length (C.map (normalizeAxis sh.length)))
    (h : InStages sh.length (A.map (normalizeAxis sh.length))
      (B.map (normalizeAxis (redShape sh (A.map (normalizeAxis sh.length)) keep).length))
      (C.map (normalizeAxis sh.length)) keep)
    (hne : redShape sh (A.map (normalizeAxis sh.length)) keep ≠ []) (d : M) :
    ∃ s t u, lazyReduce (monoidFns M) d e sh A keep = .ok s ∧ lazyReduce (monoidFns M) d s.toEx s.shape B keep = .ok t ∧
      lazyReduce (monoidFns M) d e sh C keep = .ok u ∧ t.shape = u.shape ∧
      ∀ r, InBounds t.shape r → t.elem r = u.elem r := by
  obtain ⟨s, h1, h2, h3⟩ := lazyReduce_fold d hf hA keep (.inl (monoidLaws (M := M)))
  obtain ⟨u, h4, h5, h6⟩ := lazyReduce_fold d hf hC keep (.inl (monoidLaws (M := M)))
  obtain ⟨t, h7, h8, h9⟩ := lazyReduce_fold (sh := s.shape) (e := s.toEx) d ⟨by rw [h2]; exact hne, broadcastsTo_refl _⟩
    (axes := B) (by rw [h2]; exact hB) keep (.inl (monoidLaws (M := M)))
  have hsh : t.shape = u.shape := by
    rw [h8, h5, h2]
    exact dropAxes_stages h 1 rfl
  refine ⟨s, t, u, h1, h7, h4, hsh, fun r hr => ?_⟩
  rw [h9 r hr, h6 r (by rw [← hsh]; exact hr), redValue_monoid, redValue_monoid, ← sum_stages h]
  congr 1
  rw [h2]
  apply List.map_congr_left
  intro q hq
  have hq' : InBounds s.shape q := by
    rw [h2]
    exact mem_rowIndices.1 (List.mem_filter.1 hq).1
  rw [valueAt_toEx _ hq', h3 q hq', redValue_monoid]

/-- `sum(sum(e, {0}), {-1})` and `sum(e, {0, 2})`. -/
example := C90_stages (M := ℚ) (e := .gen [2, 3, 4] fun i => i.sum) (sh := [2, 3, 4])
  (show Fits _ _ from ⟨by simp, broadcastsTo_refl _⟩) false (A := [0]) (B := [-1]) (C := [0, 2]) (by decide) (by decide)
  (by decide) (show ∀ a, a < 3 → _ by decide) (by decide) 0

/-! ### Linearity -/

/-- C90: a reduction of a sum of expressions is the sum of the reductions. -/
theorem C90_sum_add {e1 e2 : Ex M} {sh : List Nat} (h1 : Fits sh e1) (h2 : Fits sh e2) (keep : Bool) {A : List Int}
    (hA : GoodAxes sh.length (A.map (normalizeAxis sh.length))) (d : M) :
    ∃ s t u, lazyReduce (monoidFns M) d e1 sh A keep = .ok s ∧ lazyReduce (monoidFns M) d e2 sh A keep = .ok t ∧
      lazyReduce (monoidFns M) d (.fn List.sum (.cons e1 (.cons e2 .nil))) sh A keep = .ok u ∧
      ∀ r, InBounds (redShape sh (A.map (normalizeAxis sh.length)) keep) r → u.elem r = s.elem r + t.elem r := by
  obtain ⟨s, a1, a2, a3⟩ := lazyReduce_fold d h1 hA keep (.inl (monoidLaws (M := M)))
  obtain ⟨t, b1, b2, b3⟩ := lazyReduce_fold d h2 hA keep (.inl (monoidLaws (M := M)))
  obtain ⟨u, c1, c2, c3⟩ := lazyReduce_fold (e := .fn List.sum (.cons e1 (.cons e2 .nil))) d ⟨h1, h2, trivial⟩ hA keep
    (.inl (monoidLaws (M := M)))
  refine ⟨s, t, u, a1, b1, c1, fun r hr => ?_⟩
  rw [a3 r (by rw [a2]; exact hr), b3 r (by rw [b2]; exact hr), c3 r (by rw [c2]; exact hr), redValue_monoid,
    redValue_monoid, redValue_monoid, ← List.sum_map_add]
  congr 1
  apply List.map_congr_left
  intro i _
  simp [valueAt, valuesAt]

/-- C90: a reduction of `f(e)` for a homomorphism `f` is `f` of the reduction, so `sum(c * e)` is `c * sum(e)`. -/
theorem C90_sum_hom (f : M →+ M) {e : Ex M} {sh : List Nat} (h1 : Fits sh e) (keep : Bool)
    {A : List Int} (hA : GoodAxes sh.length (A.map (normalizeAxis sh.length))) (d : M) :
    ∃ s u, lazyReduce (monoidFns M) d e sh A keep = .ok s ∧
      lazyReduce (monoidFns M) d (.fn (fun l => f l.sum) (.cons e .nil)) sh A keep = .ok u ∧
      ∀ r, InBounds (redShape sh (A.map (normalizeAxis sh.length)) keep) r → u.elem r = f (s.elem r) := by
  obtain ⟨s, a1, a2, a3⟩ := lazyReduce_fold d h1 hA keep (.inl (monoidLaws (M := M)))
  obtain ⟨u, c1, c2, c3⟩ := lazyReduce_fold (e := .fn (fun l => f l.sum) (.cons e .nil)) d ⟨h1, trivial⟩ hA keep
    (.inl (monoidLaws (M := M)))
  refine ⟨s, u, a1, c1, fun r hr => ?_⟩
  rw [a3 r (by rw [a2]; exact hr), c3 r (by rw [c2]; exact hr), redValue_monoid, redValue_monoid, map_list_sum, List.map_map]
  congr 1
  apply List.map_congr_left
  intro i _
  simp [valueAt, valuesAt]

example := C90_sum_add (M := ℚ) (e1 := .gen [2, 3] fun i => i.sum) (e2 := .scalar 5) (sh := [2, 3])
  (show Fits _ _ from ⟨by simp, broadcastsTo_refl _⟩) trivial true (A := [-1]) (by decide) 0
example := C90_sum_hom (AddMonoidHom.mulLeft (3 : ℚ)) (e := .gen [2, 3] fun i => i.sum) (sh := [2, 3])
  (show Fits _ _ from ⟨by simp, broadcastsTo_refl _⟩) true (A := [-1]) (by decide) 0

/-! ### Accumulations -/

theorem buf_read_map {β : Type} [Inhabited β] {L : Layout} (hL : L = .row_major ∨ L = .column_major) (sh : List Nat)
    (f : List Nat → β) {p : List Nat} (hp : InBounds sh p) :
    (Buf.mk sh L ((orderIndices L sh).map f)).read p = f p := by
  rw [Buf.read_eq _ (by exact hp)]
  have e : orderIndices L sh = storageIndices L sh := by
    rcases hL with rfl | rfl <;> rfl
  simp only [e, List.getD_eq_getElem?_getD, List.getElem?_map, storageIndices_get L hp]
  rfl

theorem accValue_sum (val : List Nat → M) (a : Nat) (idx : List Nat) :
    accValue (· + ·) id val a idx = ((List.range (idx.getD a 0 + 1)).map fun k => val (idx.set a k)).sum := by
  unfold accValue
  rw [foldl_add_sum, List.range_succ_eq_map, List.map_cons, List.sum_cons, List.map_map, List.range'_eq_map_range,
    List.map_map]
  simp only [Function.comp_def, id, Nat.succ_eq_add_one, Nat.add_comm 1]

/-- C90: the last element of an accumulation along an axis is the reduction along that axis, in either layout. -/
theorem C90_cumsum_last [Inhabited M] {L : Layout} (hL : L = .row_major ∨ L = .column_major) {e : Ex M} {sh : List Nat}
    (hf : Fits sh e) (hsz : numel sh < 2 ^ 64) {a : Nat} (ha : a < sh.length) (d : M) :
    ∃ c s, accumulateAxis L L sh (e.values L sh) (· + ·) none a = .ok c ∧
      lazyReduce (monoidFns M) d e sh [(a : Int)] false = .ok s ∧
      ∀ idx, InBounds sh idx →
        (Buf.mk sh L c).read (idx.set a (sh.getD a 0 - 1)) = s.elem (redIndex [a] false idx) := by
  have hax : ([(a : Int)]).map (normalizeAxis sh.length) = [a] := by simp [normalizeAxis]
  obtain ⟨s, h1, h2, h3⟩ := lazyReduce_fold d hf (axes := [(a : Int)])
    (by rw [hax]; exact ⟨by simp, by simpa using ha⟩) false (.inl (monoidLaws (M := M)))
  refine ⟨_, s, by rw [C22_iteration L hL sh e hf]; exact C32_accumulate_axis hL (valueAt e) hsz _ ha, h1, ?_⟩
  intro idx hi
  rw [hax] at h2 h3
  have hpos : idx.getD a 0 < sh.getD a 0 := (inBounds_iff_get.1 hi).2 a ha
  have hal : a < idx.length := by rw [hi.length_eq]; exact ha
  rw [buf_read_map hL sh _ (inBounds_set hi (by omega)), accValue_sum, h3 _ (by rw [h2]; exact inBounds_redIndex false hi),
    redValue_monoid, redGroup_one false hi ha, List.map_map, getD_set_nat hal, if_pos rfl,
    show sh.getD a 0 - 1 + 1 = sh.getD a 0 by omega]
  simp only [List.set_set, Function.comp_def]

/-- C90: differences of an accumulation give the elements back, except for the first of each line. -/
theorem C90_diff_cumsum {L : Layout} (hL : L = .row_major ∨ L = .column_major) {e : Ex ℚ} {sh : List Nat}
    (hf : Fits sh e) (hd : sh.length < 2 ^ 63) (hx : ∀ n ∈ sh, n < szMax) (hsz : numel sh < 2 ^ 64) (h0 : numel sh ≠ 0)
    {axis : Int} (h1 : -(sh.length : Int) ≤ axis) (h2 : axis < sh.length) :
    ∃ c d, accumulate L L sh (e.values L sh) (· + ·) none axis = .ok c ∧
      diffAxis (· - ·) ⟨sh, (Buf.mk sh L c).read⟩ 1 axis = .ok d ∧
      d.shape = sh.set (axisOf sh.length axis) (sh.getD (axisOf sh.length axis) 0 - 1) ∧
      ∀ i, InBounds d.shape i →
        d.elem i = valueAt e (i.set (axisOf sh.length axis) (i.getD (axisOf sh.length axis) 0 + 1)) := by
  obtain ⟨hn, hlt⟩ := normalizeAxis_eq hd h1 h2
  have hc : accumulate L L sh (e.values L sh) (· + ·) none axis =
      .ok ((orderIndices L sh).map (accValue (· + ·) id (valueAt e) (axisOf sh.length axis))) := by
    rw [C22_iteration L hL sh e hf]
    have : accumulate L L sh ((orderIndices L sh).map (valueAt e)) (· + ·) none axis =
        accumulateAxis L L sh ((orderIndices L sh).map (valueAt e)) (· + ·) none (normalizeAxis sh.length axis) := rfl
    rw [this, hn]
    exact C32_accumulate_axis hL (valueAt e) hsz _ hlt
  obtain ⟨d, d1, d2, d3⟩ := C66_diff_partial (e := ⟨sh, (Buf.mk sh L ((orderIndices L sh).map
    (accValue (· + ·) id (valueAt e) (axisOf sh.length axis)))).read⟩) (axis := axis) hd h1 h2 hx 1 (.inl h0)
  refine ⟨_, d, hc, d1, d2, fun i hi => ?_⟩
  rw [d3 i hi]
  rw [d2] at hi
  have d2' : InBounds (sh.set (axisOf sh.length axis) (sh.getD (axisOf sh.length axis) 0 - 1)) i := hi
  obtain ⟨a, haa⟩ : ∃ a, a = axisOf sh.length axis := ⟨_, rfl⟩
  simp only [← haa] at d2' hlt ⊢
  have hil : i.length = sh.length := by simpa using d2'.length_eq
  have hk : i.getD a 0 < sh.getD a 0 - 1 := by
    have := (inBounds_iff_get.1 d2').2 a (by simpa using hlt)
    rwa [getD_set_nat hlt, if_pos rfl] at this
  have hin : ∀ t, t < sh.getD a 0 → InBounds sh (i.set a t) := by
    intro t ht
    rw [inBounds_iff_get] at d2' ⊢
    refine ⟨by simpa using hil, fun k hk => ?_⟩
    by_cases hka : a = k
    · subst hka
      rw [getD_set_nat (by omega), if_pos rfl]; exact ht
    · have := d2'.2 k (by simpa using hk)
      rw [getD_set_nat hlt, if_neg hka] at this
      rw [getD_set_nat (by omega), if_neg hka]
      exact this
  simp only [finiteDiff, Finset.sum_range_succ, Finset.sum_range_zero, Nat.choose_self, Nat.choose_zero_right]
  rw [buf_read_map hL sh _ (hin _ (by omega)), buf_read_map hL sh _ (hin _ (by omega)), accValue_sum, accValue_sum,
    getD_set_nat (by omega), if_pos rfl, getD_set_nat (by omega), if_pos rfl, List.range_succ (n := i.getD a 0 + 1)]
  simp only [List.set_set, List.map_append, List.sum_append, List.map_cons, List.map_nil, List.sum_cons, List.sum_nil,
    Nat.add_zero]
  norm_num

example := C90_cumsum_last (M := ℚ) (.inr rfl) (e := .gen [2, 3] fun i => i.sum) (sh := [2, 3])
  (show Fits _ _ from ⟨by simp, broadcastsTo_refl _⟩) (by decide) (a := 1) (by decide) 0
example := C90_diff_cumsum (.inr rfl) (e := .gen [2, 3] fun i => i.sum) (sh := [2, 3])
  (show Fits _ _ from ⟨by simp, broadcastsTo_refl _⟩) (by decide) (by decide) (by decide) (by decide) (axis := -1) (by decide)
  (by decide)

/-! ### Splitting and concatenating -/

/-- A view of memory as an operand of `concatenate`: its shape and its elements in the order of `begin()`. -/
def svOpd {α : Type} (mem : Int → α) (v : SView) : Opd α :=
  ⟨v.shape.map Int.toNat, (rowIndices (v.shape.map Int.toNat)).map fun q => mem (v.index (toInts q))⟩

theorem all_ok {β : Type} : ∀ {l : List (Res β)}, (∀ i, i < l.length → ∃ v, l[i]? = some (.ok v)) → ∃ vs : List β, l = vs.map .ok
  | [], _ => ⟨[], rfl⟩
  | x :: l, h => by
    obtain ⟨v, hv⟩ := h 0 (by simp)
    obtain ⟨vs, hvs⟩ := all_ok (l := l) fun i hi => by simpa using h (i + 1) (by simpa using hi)
    exact ⟨v :: vs, by simp at hv; rw [hv, hvs]; rfl⟩

theorem rowIndices_rank {sh q : List Nat} (h : InBounds sh q) : (rowIndices sh)[rowRank sh q]? = some q :=
  storageIndices_get .row_major h

/-- C90: concatenating the pieces of `split` gives the array back. -/
theorem C90_concat_split {α : Type} [Inhabited α] {e : Strd} (he : e.WF) (mem : Int → α) {n axis step : Nat}
    (ha : axis < e.shape.length) (hn : 0 < n) (hst : e.shape.getD axis 0 = n * step)
    (hsmall : numel (e.shape.set axis step) < 2 ^ 31) (hsz : e.shape.getD axis 0 < 2 ^ 64) :
    ∃ (vs : List SView) (g : Gen α), split e n axis = .ok (vs.map .ok) ∧ concatenate (vs.map (svOpd mem)) axis = .ok g ∧
      g.shape = e.shape ∧ ∀ p, InBounds e.shape p → g.Reads p (mem (e.index (toInts p))) := by
  obtain ⟨vs0, h1, h2, h3⟩ := C55_split he ha hn hst
  obtain ⟨vs, rfl⟩ := all_ok (l := vs0) fun i hi => by
    obtain ⟨v, hv, -⟩ := h3 i (by omega)
    exact ⟨v, hv⟩
  rw [List.length_map] at h2
  have hsh : ∀ v ∈ vs, v.shape.map Int.toNat = e.shape.set axis step := by
    intro v hv
    obtain ⟨i, hi, hvi⟩ := List.mem_iff_getElem.1 hv
    obtain ⟨w, hw, hws, -⟩ := h3 i (by omega)
    rw [List.getElem?_map, List.getElem?_eq_getElem hi, Option.map_some, Option.some.injEq, Res.ok.injEq] at hw
    rw [← hvi, hw, hws, toInts, List.map_map]
    exact (List.map_congr_left fun _ _ => rfl).trans (List.map_id _)
  have hax' : axis < (e.shape.set axis step).length := by simpa using ha
  have hstep : (e.shape.set axis step).getD axis 0 = step := getD_set_self ha
  match vs, h2, h1, h3, hsh with
  | [], h2, _, _, _ => simp at h2; omega
  | v :: vs, h2, h1, h3, hsh =>
    have hops : ∀ p ∈ (v :: vs).map (svOpd mem), p.shape = e.shape.set axis step := by
      intro p hp
      obtain ⟨w, hw, rfl⟩ := List.mem_map.1 hp
      exact hsh w hw
    have hext : (((v :: vs).map (svOpd mem)).map fun p => p.shape.getD axis 0) = List.replicate n step := by
      rw [List.eq_replicate_iff]
      refine ⟨by simpa using h2, fun b hb => ?_⟩
      obtain ⟨p, hp, rfl⟩ := List.mem_map.1 hb
      rw [hops p hp, hstep]
    have hext' : (svOpd mem v).shape.getD axis 0 :: ((vs.map (svOpd mem)).map fun p => p.shape.getD axis 0) =
        List.replicate n step := hext
    obtain ⟨g, g1, g2, g3⟩ := C39_concatenate (o := svOpd mem v) (ops := vs.map (svOpd mem)) (axis := axis)
      (by rw [hops _ (by simp)]; exact hax')
      (by
        intro p hp
        rw [hops p hp, hops (svOpd mem v) (by simp)]
        exact ⟨rfl, fun _ _ _ => rfl⟩)
      (by
        intro p hp
        obtain ⟨w, -, rfl⟩ := List.mem_map.1 (show p ∈ (v :: vs).map (svOpd mem) from hp)
        simp [svOpd, Opd.WF, length_rowIndices])
      (by intro p hp; rw [hops p hp]; exact hsmall)
      (by
        rw [List.map_cons, hext', List.sum_replicate_nat, ← hst]
        exact hsz)
    refine ⟨v :: vs, g, h1, g1, ?_, ?_⟩
    · rw [g2, List.map_cons, hext', List.sum_replicate_nat, ← hst, hops _ (by simp), List.set_set, set_getD_self]
    · intro p hp
      obtain ⟨i, q, ⟨hi, hq, hqp⟩, -⟩ := C55_split_partition ha hst hp
      obtain ⟨w, hw, hws, hwe⟩ := h3 i hi
      rw [List.getElem?_map, Option.map_eq_some_iff] at hw
      obtain ⟨w', hw', hww⟩ := hw
      rw [Res.ok.injEq] at hww
      subst hww
      have hwm : w' ∈ v :: vs := List.mem_of_getElem? hw'
      obtain ⟨x, hx, hr⟩ := g3 i (svOpd mem w') (by
        show ((v :: vs).map (svOpd mem))[i]? = _
        rw [List.getElem?_map, hw']; rfl) q (by
          rw [show (svOpd mem w').shape = _ from hsh w' hwm]; exact hq)
      have hx' : x = mem (e.index (toInts p)) := by
        have : (svOpd mem w').vals[rowRank (svOpd mem w').shape q]? = some (mem (w'.index (toInts q))) := by
          show ((rowIndices (w'.shape.map Int.toNat)).map _)[rowRank (w'.shape.map Int.toNat) q]? = _
          rw [List.getElem?_map, rowIndices_rank (by rw [hsh w' hwm]; exact hq)]
          rfl
        rw [hx, Option.some.injEq] at this
        rw [this, (hwe q hq).2, hqp]
      have hp' : shiftAxis axis (blockStart (((v :: vs).map (svOpd mem)).map fun p => p.shape.getD axis 0) i) q = p := by
        rw [hext, blockStart, List.take_replicate, List.sum_replicate_nat, Nat.min_eq_left (by omega), ← hqp, shiftAxis,
          Nat.add_comm]
      rw [← hx', ← hp']
      exact hr

example := C90_concat_split (e := ⟨[2, 6], [6, 1], 0, .row_major⟩) rfl (fun k => k) (n := 3) (axis := 1) (step := 2)
  (by decide) (by decide) (by decide) (by decide) (by decide)

/-! ### Reductions of a concatenation -/

theorem sum_range_blocks : ∀ (ext : List Nat) (f : Nat → M),
    ((List.range ext.sum).map f).sum =
      ((List.range ext.length).map fun j => ((List.range (ext.getD j 0)).map fun t => f (blockStart ext j + t)).sum).sum
  | [], f => by simp
  | n :: ext, f => by
    have ih := sum_range_blocks ext fun t => f (n + t)
    rw [List.sum_cons, List.range_add, List.map_append, List.sum_append, List.map_map, List.length_cons,
      List.range_succ_eq_map, List.map_cons, List.sum_cons, List.map_map]
    congr 1
    · simp [blockStart]
    · show ((List.range ext.sum).map fun t => f (n + t)).sum = _
      rw [ih]
      simp [Function.comp_def, blockStart, Nat.add_assoc]

/-- Elements of an operand by index: what its `operator[]` returns (observation). -/
def Opd.at {α : Type} [Inhabited α] (o : Opd α) (idx : List Nat) : α := o.vals.getD (rowRank o.shape idx) default

theorem redGroup_insert {sh r : List Nat} {a : Nat} (ha : a < sh.length) (hr : InBounds (sh.eraseIdx a) r) :
    redGroup sh [a] false r = (List.range (sh.getD a 0)).map fun t => r.insertIdx a t := by
  have hrl : a ≤ r.length := by rw [hr.length_eq, List.length_eraseIdx_of_lt ha]; omega
  by_cases h0 : sh.getD a 0 = 0
  · have : redGroup sh [a] false r = [] := by
      rw [List.eq_nil_iff_forall_not_mem]
      intro q hq
      have := (inBounds_iff_get.1 (mem_rowIndices.1 (List.mem_filter.1 hq).1)).2 a ha
      omega
    rw [this, h0]; rfl
  · have hin : InBounds sh (r.insertIdx a 0) := inBounds_insertIdx_one ha hr (by omega)
    have hri : redIndex [a] false (r.insertIdx a 0) = r := by
      rw [redIndex_one, insertIdx_eraseIdx_self hrl]
    have := redGroup_one false hin ha
    rw [hri] at this
    rw [this]
    apply List.map_congr_left
    intro t _
    exact set_insertIdx hrl

/-- C90: the reduction of a concatenation along its axis is the sum of the reductions of the parts. -/
theorem C90_sum_concat [Inhabited M] {o : Opd M} {ops : List (Opd M)} {axis : Nat} (hax : axis < o.shape.length)
    (hag : ∀ p ∈ o :: ops, AgreeOff axis o.shape p.shape) (hw : ∀ p ∈ o :: ops, p.WF)
    (hsmall : ∀ p ∈ o :: ops, numel p.shape < 2 ^ 31)
    (hsum : ((o :: ops).map fun p => p.shape.getD axis 0).sum < 2 ^ 64) (d : M) :
    ∃ g, concatenate (o :: ops) axis = .ok g ∧ ∀ x : LazyEx M, x.shape = g.shape →
      (∀ idx, InBounds g.shape idx → g.Reads idx (x.elem idx)) →
      ∃ (s : LazyEx M) (ts : List (LazyEx M)), lazyReduce (monoidFns M) d x.toEx x.shape [(axis : Int)] false = .ok s ∧
        ((o :: ops).map fun p => lazyReduce (monoidFns M) d (LazyEx.mk p.shape p.at).toEx p.shape [(axis : Int)] false) =
          ts.map .ok ∧
        (∀ t ∈ ts, t.shape = s.shape) ∧ ∀ r, InBounds s.shape r → s.elem r = (ts.map fun t => t.elem r).sum := by
  obtain ⟨g, g1, g2, g3⟩ := C39_concatenate hax hag hw hsmall hsum
  refine ⟨g, g1, fun x hx hread => ?_⟩
  have hnorm : ∀ k : Nat, ([(axis : Int)]).map (normalizeAxis k) = [axis] := fun k => by simp [normalizeAxis]
  have hgood : ∀ sh : List Nat, axis < sh.length → GoodAxes sh.length (([(axis : Int)]).map (normalizeAxis sh.length)) :=
    fun sh h => by rw [hnorm]; exact ⟨by simp, by simpa using h⟩
  have hlen : ∀ p ∈ o :: ops, axis < p.shape.length := fun p hp => by rw [← (hag p hp).1]; exact hax
  have hne : ∀ {sh : List Nat}, axis < sh.length → sh ≠ [] := fun h e => by rw [e] at h; simp at h
  have hgl : axis < x.shape.length := by rw [hx, g2]; simpa using hax
  obtain ⟨s, s1, s2, s3⟩ := lazyReduce_fold (e := x.toEx) (sh := x.shape) d ⟨hne hgl, broadcastsTo_refl _⟩ (hgood _ hgl) false
    (.inl (monoidLaws (M := M)))
  rw [hnorm] at s2 s3
  have hred : ∀ p ∈ o :: ops, p.shape.eraseIdx axis = o.shape.eraseIdx axis := by
    intro p hp
    have h := hag p hp
    have hl := h.1
    apply List.ext_getElem?
    intro i
    rw [List.getElem?_eraseIdx, List.getElem?_eraseIdx]
    have key : ∀ k, k ≠ axis → p.shape[k]? = o.shape[k]? := by
      intro k hk
      by_cases hkl : k < o.shape.length
      · have := h.2 k hkl hk
        rw [List.getD_eq_getElem?_getD, List.getD_eq_getElem?_getD, List.getElem?_eq_getElem hkl,
          List.getElem?_eq_getElem (show k < p.shape.length by omega)] at this
        rw [List.getElem?_eq_getElem hkl, List.getElem?_eq_getElem (show k < p.shape.length by omega)]
        simpa using this.symm
      · rw [List.getElem?_eq_none (by omega), List.getElem?_eq_none (by omega)]
    split <;> exact key _ (by omega)
  have hxe : x.shape.eraseIdx axis = o.shape.eraseIdx axis := by rw [hx, g2, List.eraseIdx_set_eq]
  have hsh : s.shape = o.shape.eraseIdx axis := by rw [s2, redShape_one, hxe]
  have parts : ∀ p ∈ o :: ops, ∃ t, lazyReduce (monoidFns M) d (LazyEx.mk p.shape p.at).toEx p.shape [(axis : Int)] false = .ok t ∧
      t.shape = s.shape ∧ ∀ r, InBounds s.shape r →
        t.elem r = ((List.range (p.shape.getD axis 0)).map fun k => p.at (r.insertIdx axis k)).sum := by
    intro p hp
    obtain ⟨t, t1, t2, t3⟩ := lazyReduce_fold (e := (LazyEx.mk p.shape p.at).toEx) (sh := p.shape) d
      (show Fits _ _ from ⟨hne (hlen p hp), broadcastsTo_refl _⟩) (hgood _ (hlen p hp)) false (.inl (monoidLaws (M := M)))
    rw [hnorm] at t2 t3
    have ht : t.shape = s.shape := by rw [t2, redShape_one, hred p hp, hsh]
    refine ⟨t, t1, ht, fun r hr => ?_⟩
    have hr' : InBounds (p.shape.eraseIdx axis) r := by rw [hred p hp, ← hsh]; exact hr
    rw [t3 r (by rw [ht]; exact hr), redValue_monoid, redGroup_insert (hlen p hp) hr', List.map_map]
    congr 1
    apply List.map_congr_left
    intro q hq
    exact valueAt_toEx _ (inBounds_insertIdx_one (hlen p hp) hr' (List.mem_range.1 hq))
  obtain ⟨ts, hts⟩ := all_ok (l := (o :: ops).map fun p => lazyReduce (monoidFns M) d (LazyEx.mk p.shape p.at).toEx p.shape
      [(axis : Int)] false) fun i hi => by
    have hi' : i < (o :: ops).length := by simpa using hi
    obtain ⟨t, t1, -⟩ := parts _ (List.getElem_mem hi')
    exact ⟨t, by rw [List.getElem?_map, List.getElem?_eq_getElem hi', Option.map_some, t1]⟩
  have hlts : ts.length = (o :: ops).length := by have := congrArg List.length hts; simpa using this.symm
  have hget : ∀ i (hi : i < ts.length), ∃ hp : i < (o :: ops).length,
      ts[i].shape = s.shape ∧ ∀ r, InBounds s.shape r → ts[i].elem r =
        ((List.range ((o :: ops)[i].shape.getD axis 0)).map fun k => (o :: ops)[i].at (r.insertIdx axis k)).sum := by
    intro i hi
    have hi' : i < (o :: ops).length := by omega
    obtain ⟨t, t1, t2, t3⟩ := parts _ (List.getElem_mem hi')
    have := congrArg (fun l => l[i]?) hts
    simp only [List.getElem?_map, List.getElem?_eq_getElem hi', List.getElem?_eq_getElem hi, Option.map_some] at this
    rw [t1, Option.some.injEq, Res.ok.injEq] at this
    rw [← this]
    exact ⟨hi', t2, t3⟩
  refine ⟨s, ts, s1, hts, fun t ht => ?_, fun r hr => ?_⟩
  · obtain ⟨i, hi, rfl⟩ := List.mem_iff_getElem.1 ht
    exact (hget i hi).2.1
  · have hr' : InBounds (x.shape.eraseIdx axis) r := by rw [hxe, ← hsh]; exact hr
    have hrl : axis ≤ r.length := by rw [hr'.length_eq, List.length_eraseIdx_of_lt hgl]; omega
    rw [s3 r hr, redValue_monoid, redGroup_insert hgl hr', List.map_map]
    have hext : x.shape.getD axis 0 = ((o :: ops).map fun p => p.shape.getD axis 0).sum := by
      rw [hx, g2, getD_set_self hax]
    have hval : ((List.range (x.shape.getD axis 0)).map (valueAt x.toEx ∘ fun t => r.insertIdx axis t)) =
        (List.range (x.shape.getD axis 0)).map fun t => x.elem (r.insertIdx axis t) := by
      apply List.map_congr_left
      intro q hq
      exact valueAt_toEx _ (inBounds_insertIdx_one hgl hr' (List.mem_range.1 hq))
    rw [hval, hext, sum_range_blocks]
    congr 1
    apply List.ext_getElem
    · simp [hlts]
    intro i h1 h2
    have hi : i < ts.length := by simpa using h2
    obtain ⟨hp, hs1, hs2⟩ := hget i hi
    rw [List.getElem_map, List.getElem_range, List.getElem_map, hs2 r hr]
    have hge : ((o :: ops).map fun p => p.shape.getD axis 0).getD i 0 = (o :: ops)[i].shape.getD axis 0 := by
      rw [List.getD_eq_getElem?_getD, List.getElem?_map, List.getElem?_eq_getElem hp]; rfl
    rw [hge]
    congr 1
    apply List.map_congr_left
    intro k hk
    have hpm := List.getElem_mem hp
    have hin : InBounds (o :: ops)[i].shape (r.insertIdx axis k) := inBounds_insertIdx_one (hlen _ hpm)
      (by rw [hred _ hpm, ← hsh]; exact hr) (List.mem_range.1 hk)
    obtain ⟨v, v1, v2⟩ := g3 i _ (List.getElem?_eq_getElem hp) _ hin
    have hshift : shiftAxis axis (blockStart ((o :: ops).map fun p => p.shape.getD axis 0) i) (r.insertIdx axis k) =
        r.insertIdx axis (blockStart ((o :: ops).map fun p => p.shape.getD axis 0) i + k) := by
      rw [shiftAxis, getD_insertIdx hrl, set_insertIdx hrl, Nat.add_comm]
    rw [hshift] at v2
    have hb : InBounds g.shape (r.insertIdx axis (blockStart ((o :: ops).map fun p => p.shape.getD axis 0) i + k)) := by
      refine inBounds_insertIdx_one (by rw [← hx]; exact hgl) (by rw [← hx]; exact hr') ?_
      rw [← hx, hext]
      have hil : i < ((o :: ops).map fun p => p.shape.getD axis 0).length := by simpa using hp
      have := blockStart_le hil
      rw [List.getElem_map] at this
      have := List.mem_range.1 hk
      omega
    have hx1 := (hread _ hb).1
    rw [v2.1, Res.ok.injEq] at hx1
    rw [Opd.at, List.getD_eq_getElem?_getD, v1, ← hx1]
    rfl

example := C90_sum_concat (M := ℚ) (o := ⟨[2, 1], [1, 2]⟩) (ops := [⟨[2, 2], [3, 4, 5, 6]⟩]) (axis := 1) (by decide)
  (by simp only [List.forall_mem_cons, List.not_mem_nil, false_imp_iff, implies_true, and_true]; exact ⟨⟨rfl, by decide⟩, rfl, by decide⟩)
  (by simp [Opd.WF, numel]) (by simp [numel]) (by simp) 0

end Xt
