import Verif.Model.RowCol
import Verif.Props.DynamicView
import Verif.Props.ViewCompose
import Verif.Props.IndexView
import Verif.Props.Flip
import Verif.Props.LawsOrder
/-!
# C91: different ways to select the same elements agree
-/

namespace Xt
open Spec

theorem ellipsis_not_mem : ∀ {us : List USlice} {sh : List Nat}, SlicesValid sh us → .ellipsis ∉ us
  | [], _, _ => by simp
  | u :: us, sh, h => by
    have key : u ≠ .ellipsis ∧ ∃ t, SlicesValid t us := by
      cases u <;> cases sh <;> first | exact h.elim | exact h.1.elim | exact ⟨by simp, _, h.2⟩ | exact ⟨by simp, _, h⟩
    obtain ⟨h1, t, h2⟩ := key
    intro hm
    rcases List.mem_cons.1 hm with hu | hm'
    · exact h1 hu.symm
    · exact ellipsis_not_mem h2 hm'

theorem expandEllipsis_none {dim : Nat} {us : List USlice} (h : .ellipsis ∉ us) : expandEllipsis dim us = us :=
  expandWith_eq_self _ us h

/-- C91: `view(e, s...)`, `strided_view(e, {s...})` and `dynamic_view(e, {s...})` have the same shape and read the same
element of the storage at every index.  (Full claim: for all slices each of them accepts; see `C91_negative_wrong` and
`C91_newaxes_wrong`.) -/
theorem C91_views_partial (sh : List Nat) (st : List Int) (off : Int) (l : Layout) (us : List USlice)
    (hl : st.length = sh.length) (hv : SlicesValid sh us) (hk : NoKeepDrop us) (hn : IntsNonneg us)
    (h1 : NoIntAfterNewaxis us) (h2 : SecondNewaxisTrailing sh.length us) :
    ∃ S v w, makeView sh us = .ok S ∧ stridedView sh st off l us = .ok v ∧ dynamicView sh st off l us = .ok w ∧
      v.shape = viewShape sh S ∧ w.shape = viewShape sh S ∧
      v.shape = toInts (selShape sh us) ∧ ∀ idx, InBounds (selShape sh us) idx → ∃ args, viewAccess sh S (toInts idx) = some args ∧
        v.index (toInts idx) = off + dot st args ∧ w.index (toInts idx) = off + dot st args := by
  have hx := ellipsis_not_mem hv
  have he : us.count .ellipsis ≤ 1 := by rw [List.count_eq_zero_of_not_mem hx]; omega
  obtain ⟨S, s1, s2⟩ := C18_view_shape sh us hv
  obtain ⟨S', t1, t2⟩ := C18_view_element_partial sh us hv h1 h2
  obtain rfl : S' = S := by rw [s1, Res.ok.injEq] at t1; exact t1.symm
  obtain ⟨v, v1, v2, v3, -⟩ := C20_strided_view_partial sh st off l us hl he (by rwa [expandEllipsis_none hx]) hk hn
  obtain ⟨w, w1, w2, w3⟩ := C73_dynamic_view_partial sh st off l us hl he (by rwa [expandEllipsis_none hx]) hn
  rw [expandEllipsis_none hx] at v2 v3 w2 w3
  refine ⟨S', v, w, s1, v1, w1, by rw [v2, s2], by rw [w2, s2], v2, fun idx hi => ?_⟩
  exact ⟨_, (t2 idx hi []).1, (v3 idx hi).1, (w3 idx hi).1⟩

example := C91_views_partial [3, 4] [4, 1] 0 .row_major [.int 1, .range (some 3) none (some (-2))] rfl (by decide)
  (by simp [NoKeepDrop]) (by simp [IntsNonneg])
  (fun _ _ _ _ _ _ _ hp => absurd (List.mem_of_getElem? hp) (by simp))
  (fun _ _ _ hp => absurd (List.mem_of_getElem? hp) (by simp))

/-- Negative integers: `view(a, -1)` is the last element, the other two read before the storage. -/
theorem C91_negative_wrong :
    SlicesValid [3] [.int (-1)] ∧ makeView [3] [.int (-1)] = .ok [.int 2] ∧ viewAccess [3] [.int 2] [] = some [2] ∧
    (stridedView [3] [1] 0 .row_major [.int (-1)]).map (fun v => v.index []) = .ok (-1) ∧
    (dynamicView [3] [1] 0 .row_major [.int (-1)]).map (fun v => v.index []) = .ok (-1) := by decide

/-- Two newaxes before an axis: at `(0, 0, 2)` a view reads the first element, the other two the third. -/
theorem C91_newaxes_wrong :
    makeView [3] [.newaxis, .newaxis, .all] = .ok [.newaxis, .newaxis, .all 3] ∧
    viewAccess [3] [.newaxis, .newaxis, .all 3] [0, 0, 2] = some [0] ∧
    (stridedView [3] [1] 0 .row_major [.newaxis, .newaxis, .all]).map (fun v => v.index [0, 0, 2]) = .ok 2 ∧
    (dynamicView [3] [1] 0 .row_major [.newaxis, .newaxis, .all]).map (fun v => v.index [0, 0, 2]) = .ok 2 := by decide

/-! ### One slice on one axis -/

theorem split_index {pre post : List Nat} {m : Nat} {p : List Nat} (h : InBounds (pre ++ m :: post) p) :
    ∃ i k j, p = i ++ k :: j ∧ InBounds pre i ∧ k < m ∧ InBounds post j := by
  induction pre generalizing p with
  | nil =>
    cases p with
    | nil => exact h.elim
    | cons k j => exact ⟨[], k, j, rfl, trivial, h.1, h.2⟩
  | cons n pre ih =>
    cases p with
    | nil => exact h.elim
    | cons x p =>
      obtain ⟨i, k, j, rfl, hi, hk, hj⟩ := ih h.2
      exact ⟨x :: i, k, j, rfl, ⟨h.1, hi⟩, hk, hj⟩

theorem selIndex_rest {sh j : List Nat} : selIndex sh [] j = toInts j := by cases sh <;> rfl
theorem selShape_rest {sh : List Nat} : selShape sh [] = sh := by cases sh <;> rfl

theorem toInts_append (a b : List Nat) : toInts (a ++ b) = toInts a ++ toInts b := by simp [toInts]

theorem pySlice_reverse (n : Nat) : pySlice n none none (-1) = (List.range n).map fun k => ((n - 1 - k : Nat) : Int) := by
  unfold pySlice pyStart pyStop
  rw [List.filter_eq_self.2]
  · refine List.map_congr_left fun k hk => ?_
    have := List.mem_range.1 hk
    simp only [if_neg (show ¬ (0 : Int) < -1 by omega)]
    omega
  · intro x hx
    obtain ⟨k, hk, rfl⟩ := List.mem_map.1 hx
    have := List.mem_range.1 hk
    simp only [if_neg (show ¬ (0 : Int) < -1 by omega), decide_eq_true_eq]
    omega

/-- C91: `flip(e, a)` is `strided_view(e, {all(), ..., range(_, _, -1)})` with the range on axis `a`. -/
theorem C91_flip {e : Strd} (he : e.WF) {a : Nat} (ha : a < e.shape.length) :
    ∃ v w, flip e a = .ok v ∧
      stridedView e.shape e.strides e.offset e.layout (List.replicate a .all ++ [.range none none (some (-1))]) = .ok w ∧
      w.shape = toInts v.shape ∧ ∀ p, InBounds v.shape p → w.index (toInts p) = v.index (toInts p) := by
  obtain ⟨v, h1, -, h3, h4⟩ := C35_flip he ha
  obtain ⟨pre, m, post, hsh, hpl⟩ := split_at ha
  obtain ⟨b1, b2, b3⟩ := sel_all_prefix pre [USlice.range none none (some (-1))] (m :: post)
  have hsel : axisSel m (.range none none (some (-1))) = (List.range m).map fun k => ((m - 1 - k : Nat) : Int) :=
    pySlice_reverse m
  rw [hpl, ← hsh] at b1 b2 b3
  have hS : selShape e.shape (List.replicate a .all ++ [.range none none (some (-1))]) = e.shape := by
    rw [b1]
    simp only [selShape, hsel, selShape_rest]
    simp [hsh]
  obtain ⟨w, g1, g2, g3⟩ := stridedView_plain (off := e.offset) (l := e.layout) he
    (us := List.replicate a .all ++ [.range none none (some (-1))])
    (b2 ⟨⟨by decide, by simp, by simp [pyStart, pyStop]; omega⟩, by cases post <;> trivial⟩) (by
      intro u hu
      simp only [List.mem_append, List.mem_replicate, List.mem_singleton] at hu
      rcases hu with ⟨-, h⟩ | h
      · simp [h]
      · right; right; exact ⟨_, _, _, h⟩)
  rw [hS] at g2 g3
  refine ⟨v, w, h1, g1, by rw [g2, h3], fun p hp => ?_⟩
  rw [h3] at hp
  rw [h4 p hp, (g3 p hp).1, Strd.index_eq he (flipIndex_inBounds hp)]
  congr 2
  have hp' := hp
  rw [hsh] at hp'
  obtain ⟨i, k, j, rfl, hi, hk, hj⟩ := split_index hp'
  have hil : i.length = a := by rw [hi.length_eq, hpl]
  rw [b3 i (k :: j) hi]
  simp only [selIndex, selIndex_rest, hsel]
  rw [List.getD_eq_getElem?_getD, List.getElem?_map, List.getElem?_range hk]
  unfold flipIndex
  rw [hsh, ← hpl]
  simp [toInts, ← hi.length_eq, List.getD_eq_getElem?_getD]

example := C91_flip (e := ⟨[2, 3], [3, 1], 0, .row_major⟩) rfl (a := 1) (by decide)

/-! ### Rows and columns -/

/-- C91: `row(e, i)(j)` and `col(e, j)(i)` are `e(i, j)`; negative positions count from the end; other dimensions than two
are refused. -/
theorem C91_row_col (m n : Nat) (x y : Int) (hx : -(m : Int) ≤ x ∧ x < m) (hy : -(n : Int) ≤ y ∧ y < n) :
    (∃ S, rowExpr [m, n] x = .ok S ∧ viewShape [m, n] S = [(n : Int)] ∧
      ∀ j, j < n → viewAccess [m, n] S [(j : Int)] = some [if x < 0 then x + m else x, (j : Int)]) ∧
    ∃ S, colExpr [m, n] y = .ok S ∧ viewShape [m, n] S = [(m : Int)] ∧
      ∀ i, i < m → viewAccess [m, n] S [(i : Int)] = some [(i : Int), if y < 0 then y + n else y] := by
  constructor
  · have hv : SlicesValid [m, n] [.int x, .all] := ⟨hx, trivial, trivial⟩
    obtain ⟨S, h1, h2⟩ := C18_view_shape [m, n] [.int x, .all] hv
    obtain ⟨S', h3, h4⟩ := C18_view_element_no_newaxis [m, n] [.int x, .all] hv (by simp)
    obtain rfl : S' = S := by rw [h1, Res.ok.injEq] at h3; exact h3.symm
    refine ⟨S', h1, by rw [h2]; simp [selShape, axisSel, toInts], fun j hj => ?_⟩
    have := (h4 [j] ⟨by simpa [axisSel] using hj, trivial⟩ []).1
    simp only [List.nil_append, toInts, List.map_cons, List.map_nil] at this
    rw [show ((j : Nat) : Int) = Int.ofNat j from rfl, this]
    simp [selIndex, axisSel, toInts, pyIndex, List.getD_eq_getElem?_getD, hj]
  · have hv : SlicesValid [m, n] [.all, .int y] := ⟨trivial, hy, trivial⟩
    obtain ⟨S, h1, h2⟩ := C18_view_shape [m, n] [.all, .int y] hv
    obtain ⟨S', h3, h4⟩ := C18_view_element_no_newaxis [m, n] [.all, .int y] hv (by simp)
    obtain rfl : S' = S := by rw [h1, Res.ok.injEq] at h3; exact h3.symm
    refine ⟨S', h1, by rw [h2]; simp [selShape, axisSel, toInts], fun j hj => ?_⟩
    have := (h4 [j] ⟨by simpa [axisSel] using hj, trivial⟩ []).1
    simp only [List.nil_append, toInts, List.map_cons, List.map_nil] at this
    rw [show ((j : Nat) : Int) = Int.ofNat j from rfl, this]
    simp [selIndex, axisSel, toInts, pyIndex, List.getD_eq_getElem?_getD, hj]

example := C91_row_col 2 3 (-1) 2 (by decide) (by decide)

/-- C91: on an expression of another dimension both throw. -/
theorem C91_row_col_throws (sh : List Nat) (x : Int) (h : sh.length ≠ 2) : rowExpr sh x = .throws ∧ colExpr sh x = .throws := by
  simp [rowExpr, colExpr, h]

example : rowExpr [2, 2, 2] 0 = .throws ∧ rowExpr [2, 3] (-1) = .ok [.int 1, .all 3] := by decide

/-! ### Index views -/

/-- C91: `index_view` on the list of the elements a view selects, in row-major order of the view, reads at position `k` the
`k`-th element of the view. -/
theorem C91_index_view (a : StridedArr) (hw : a.WF) (us : List USlice) (hv : SlicesValid a.shape us)
    (h1 : NoIntAfterNewaxis us) (h2 : SecondNewaxisTrailing a.shape.length us) (indices : List (List Nat))
    (hi : indices.map toInts = (rowIndices (selShape a.shape us)).map (selIndex a.shape us)) :
    ∃ S, makeView a.shape us = .ok S ∧ ∀ idx, InBounds (selShape a.shape us) idx →
      ∃ args, viewAccess a.shape S (toInts idx) = some args ∧
        (IdxView.mk a indices).call [rowRank (selShape a.shape us) idx] = some (a.off + dot a.strides args) := by
  obtain ⟨S, h3, h4⟩ := C18_view_element_partial a.shape us hv h1 h2
  refine ⟨S, h3, fun idx hb => ⟨_, (h4 idx hb []).1, ?_⟩⟩
  have key : ∀ q ∈ indices, InBounds a.shape q := by
    intro q hq
    have : toInts q ∈ (rowIndices (selShape a.shape us)).map (selIndex a.shape us) := hi ▸ List.mem_map_of_mem hq
    obtain ⟨r, hr, hrq⟩ := List.mem_map.1 this
    obtain ⟨p, hp, hpr⟩ := (h4 r (mem_rowIndices.1 hr) []).2
    rw [hpr] at hrq
    have : p = q := List.map_injective_iff.2 Int.ofNat_injective hrq
    exact this ▸ hp
  have hget : (indices.map toInts)[rowRank (selShape a.shape us) idx]? = some (selIndex a.shape us idx) := by
    rw [hi, List.getElem?_map, rowIndices_rank hb]; rfl
  rw [List.getElem?_map, Option.map_eq_some_iff] at hget
  obtain ⟨q, hq, hqi⟩ := hget
  rw [(C60_access ⟨a, indices⟩ hw key _ q hq).1, ← hqi]
  rfl

example := C91_index_view (StridedArr.container .row_major [3, 4] 0) (container_wf _ _)
  [.keep [2, 0], .int 1] (by decide)
  (fun _ _ _ _ _ _ _ hp => absurd (List.mem_of_getElem? hp) (by simp))
  (fun _ _ _ hp => absurd (List.mem_of_getElem? hp) (by simp)) [[2, 1], [0, 1]] (by decide)

/-! ### Stacked arrays -/

theorem sel_int_axis {sh : List Nat} {a j : Nat} (ha : a < sh.length) (hj : j < sh.getD a 0) :
    selShape sh (List.replicate a .all ++ [.int (j : Int)]) = sh.eraseIdx a ∧
    SlicesValid sh (List.replicate a .all ++ [.int (j : Int)]) ∧
    ∀ q, InBounds (sh.eraseIdx a) q →
      selIndex sh (List.replicate a .all ++ [.int (j : Int)]) q = toInts (q.insertIdx a j) := by
  obtain ⟨pre, m, post, rfl, rfl⟩ := split_at ha
  have hm : j < m := by simpa [List.getD_eq_getElem?_getD] using hj
  obtain ⟨b1, b2, b3⟩ := sel_all_prefix pre [USlice.int (j : Int)] (m :: post)
  have he : (pre ++ m :: post).eraseIdx pre.length = pre ++ post := by
    rw [List.eraseIdx_append_of_length_le (Nat.le_refl _)]; simp
  rw [he]
  refine ⟨by rw [b1]; simp [selShape], b2 ⟨⟨by omega, by omega⟩, by cases post <;> trivial⟩, fun q hq => ?_⟩
  obtain ⟨i, r, rfl, hi, hr⟩ : ∃ i r, q = i ++ r ∧ InBounds pre i ∧ InBounds post r := by
    clear he b1 b2 b3 ha hj
    induction pre generalizing q with
    | nil => exact ⟨[], q, rfl, trivial, hq⟩
    | cons n pre ih =>
      cases q with
      | nil => exact hq.elim
      | cons x q =>
        obtain ⟨i, r, rfl, hi, hr⟩ := ih q hq.2
        exact ⟨x :: i, r, rfl, ⟨hq.1, hi⟩, hr⟩
  rw [b3 i r hi, ← hi.length_eq, insertIdx_append_at]
  simp [selIndex, pyIndex, toInts]

/-- C91: `view(stack({x0, x1, ...}, a), all(), ..., j)` is `xj`. -/
theorem C91_stack {α : Type} [Inhabited α] {o : Opd α} {ops : List (Opd α)} {a : Nat} (hax : a ≤ o.shape.length)
    (hsh : ∀ p ∈ o :: ops, p.shape = o.shape) (hw : ∀ p ∈ o :: ops, p.WF) (hsmall : numel o.shape < 2 ^ 31)
    {j : Nat} {p : Opd α} (hj : (o :: ops)[j]? = some p) :
    ∃ g S, stackGen (o :: ops) a = .ok g ∧ makeView g.shape (List.replicate a .all ++ [.int (j : Int)]) = .ok S ∧
      viewShape g.shape S = toInts o.shape ∧
      ∀ idx, InBounds o.shape idx → ∃ v q, p.vals[rowRank o.shape idx]? = some v ∧
        viewAccess g.shape S (toInts idx) = some (toInts q) ∧ g.Reads q v := by
  obtain ⟨g, g1, g2, g3⟩ := C39_stack_partial hax hsh hw hsmall
  have hjl : j < ops.length + 1 := by simpa using (List.getElem?_eq_some_iff.1 hj).1
  have hd : a < g.shape.length := by rw [g2, List.length_insertIdx_of_le_length hax]; omega
  have hext : g.shape.getD a 0 = ops.length + 1 := by
    rw [g2, List.getD_eq_getElem?_getD, List.getElem?_insertIdx_self]; simp [hax]
  have her : g.shape.eraseIdx a = o.shape := by rw [g2, List.eraseIdx_insertIdx_self]
  obtain ⟨s1, s2, s3⟩ := sel_int_axis hd (show j < g.shape.getD a 0 by omega)
  rw [her] at s1 s3
  obtain ⟨S, t1, t2⟩ := C18_view_shape g.shape _ s2
  obtain ⟨S', u1, u2⟩ := C18_view_element_no_newaxis g.shape _ s2 (by simp)
  obtain rfl : S' = S := by rw [t1, Res.ok.injEq] at u1; exact u1.symm
  refine ⟨g, S', g1, t1, by rw [t2, s1], fun idx hb => ?_⟩
  obtain ⟨v, hv, hr⟩ := g3 j p hj idx hb
  refine ⟨v, _, hv, ?_, hr⟩
  have := (u2 idx (by rw [s1]; exact hb) []).1
  rw [s3 idx hb] at this
  exact this

example := C91_stack (o := (⟨[2], [1, 2]⟩ : Opd Nat)) (ops := [⟨[2], [5, 6]⟩]) (a := 1) (by decide)
  (by simp) (by simp [Opd.WF, numel]) (by decide) (j := 1) rfl

/-! ### Squeezing -/

theorem dropAxes_one (a : Nat) : ∀ (l : List Nat) (i : Nat), i ≤ a → dropAxes [a] none i l = l.eraseIdx (a - i)
  | [], _, _ => by simp [dropAxes]
  | x :: l, i, h => by
    unfold dropAxes
    by_cases hi : i = a
    · subst hi
      have : ∀ (l : List Nat) (k : Nat), i < k → dropAxes [i] none k l = l := by
        intro l
        induction l with
        | nil => simp [dropAxes]
        | cons y l ih =>
          intro k hk
          unfold dropAxes
          rw [if_neg (by simp; omega), ih _ (by omega)]
      simp [this l (i + 1) (by omega)]
    · rw [if_neg (by simpa using hi), dropAxes_one a l (i + 1) (by omega), show a - i = a - (i + 1) + 1 by omega,
        List.eraseIdx_cons_succ]

theorem without_one (a : Nat) (l : List Nat) : without [a] l = l.eraseIdx a := dropAxes_one a l 0 (Nat.zero_le _)

/-- C91: `squeeze(e, {a})` of a container is `strided_view(e, {all(), ..., 0})` with the 0 on axis `a`.  (Full claim: also for
views with an offset, which `squeeze` loses; see `C37_squeeze_loses_offset`.) -/
theorem C91_squeeze_partial {e : Strd} (he : e.WF) (h0 : e.offset = 0) {a : Nat} (ha : a < e.shape.length)
    (h1 : e.shape.getD a 0 = 1) :
    ∃ v w, squeezeAxes e [a] = .ok v ∧
      stridedView e.shape e.strides e.offset e.layout (List.replicate a .all ++ [.int 0]) = .ok w ∧
      w.shape = toInts v.shape ∧ v.shape = e.shape.eraseIdx a ∧
      ∀ p, InBounds v.shape p → w.index (toInts p) = v.index (toInts p) := by
  obtain ⟨v, v1, -, -, v2, v3, v4⟩ := C37_squeeze_axes_partial he (axes := [a]) (by simp) (by simpa using ⟨ha, h1⟩)
  obtain ⟨s1, s2, s3⟩ := sel_int_axis ha (j := 0) (by omega)
  have hx := ellipsis_not_mem s2
  obtain ⟨w, w1, w2, w3, -⟩ := C20_strided_view_partial e.shape e.strides e.offset e.layout
    (List.replicate a .all ++ [.int ((0 : Nat) : Int)]) he (by rw [List.count_eq_zero_of_not_mem hx]; omega)
    (by rwa [expandEllipsis_none hx]) (by
      intro u hu
      simp only [List.mem_append, List.mem_replicate, List.mem_singleton] at hu
      rcases hu with ⟨-, rfl⟩ | rfl <;> simp)
    (by
      intro c hc
      simp only [List.mem_append, List.mem_replicate, List.mem_singleton, USlice.int.injEq] at hc
      rcases hc with ⟨-, hc⟩ | rfl
      · cases hc
      · simp)
  rw [expandEllipsis_none hx, s1] at w2 w3
  refine ⟨v, w, v1, w1, by rw [w2, v2, without_one], by rw [v2, without_one], fun p hp => ?_⟩
  rw [v2, without_one] at hp
  have hb : InBounds e.shape (p.insertIdx a 0) := by
    obtain ⟨q, hq, hqp⟩ := (w3 p hp).2.2
    rw [s3 p hp] at hqp
    have : p.insertIdx a 0 = q := List.map_injective_iff.2 Int.ofNat_injective hqp
    exact this ▸ hq
  have h5 := (v3 _ hb).2
  rw [without_one, List.eraseIdx_insertIdx_self, h0, Int.sub_zero, Strd.index_eq he hb] at h5
  rw [h5, (w3 p hp).1, s3 p hp]

example := C91_squeeze_partial (e := ⟨[2, 1, 3], [3, 0, 1], 0, .row_major⟩) rfl rfl (a := 1) (by decide) rfl

/-! ### Ranges -/

theorem sel_range_axis {sh : List Nat} {a s t : Nat} (ha : a < sh.length) (hst : s ≤ t) (ht : t ≤ sh.getD a 0) :
    selShape sh (List.replicate a .all ++ [.range (some (s : Int)) (some (t : Int)) none]) = sh.set a (t - s) ∧
    SlicesValid sh (List.replicate a .all ++ [.range (some (s : Int)) (some (t : Int)) none]) ∧
    ∀ q, InBounds (sh.set a (t - s)) q →
      selIndex sh (List.replicate a .all ++ [.range (some (s : Int)) (some (t : Int)) none]) q = toInts (shiftAxis a s q) := by
  obtain ⟨pre, m, post, rfl, rfl⟩ := split_at ha
  have hm : t ≤ m := by simpa [List.getD_eq_getElem?_getD] using ht
  obtain ⟨b1, b2, b3⟩ := sel_all_prefix pre [USlice.range (some (s : Int)) (some (t : Int)) none] (m :: post)
  have hsel : axisSel m (.range (some (s : Int)) (some (t : Int)) none) = (List.range (t - s)).map fun k => ((s + k : Nat) : Int) := by
    simp only [axisSel, Option.getD_none]
    rw [pySlice_segment hst hm]
  have hset : (pre ++ m :: post).set pre.length (t - s) = pre ++ (t - s) :: post := by simp
  rw [hset]
  refine ⟨by rw [b1]; simp only [selShape, hsel, selShape_rest]; simp, b2 ⟨trivial, by cases post <;> trivial⟩, fun q hq => ?_⟩
  obtain ⟨i, k, j, rfl, hi, hk, hj⟩ := split_index hq
  rw [b3 i (k :: j) hi]
  simp only [selIndex, selIndex_rest, hsel]
  rw [List.getD_eq_getElem?_getD, List.getElem?_map, List.getElem?_range hk]
  unfold shiftAxis
  rw [← hi.length_eq]
  simp [toInts, List.getD_eq_getElem?_getD, Nat.add_comm]

theorem range_view {e : Strd} (he : e.WF) {a s t : Nat} (ha : a < e.shape.length) (hst : s ≤ t) (ht : t ≤ e.shape.getD a 0) :
    ∃ v, stridedView e.shape e.strides e.offset e.layout
        (List.replicate a .all ++ [.range (some (s : Int)) (some (t : Int)) none]) = .ok v ∧
      v.shape.map Int.toNat = e.shape.set a (t - s) ∧ ∀ q, InBounds (e.shape.set a (t - s)) q →
        InBounds e.shape (shiftAxis a s q) ∧ v.index (toInts q) = e.index (toInts (shiftAxis a s q)) := by
  obtain ⟨s1, s2, s3⟩ := sel_range_axis ha hst ht
  obtain ⟨v, g1, g2, g3⟩ := stridedView_plain (off := e.offset) (l := e.layout) he s2 (by
    intro u hu
    simp only [List.mem_append, List.mem_replicate, List.mem_singleton] at hu
    rcases hu with ⟨-, h⟩ | h
    · simp [h]
    · right; right; exact ⟨_, _, _, h⟩)
  rw [s1] at g2 g3
  refine ⟨v, g1, ?_, fun q hq => ?_⟩
  · rw [g2, toInts, List.map_map]
    exact (List.map_congr_left fun _ _ => rfl).trans (List.map_id _)
  · obtain ⟨h1, p, hp, h2⟩ := g3 q hq
    rw [s3 q hq] at h1 h2
    have : shiftAxis a s q = p := List.map_injective_iff.2 Int.ofNat_injective h2
    rw [← this] at hp
    exact ⟨hp, by rw [h1, Strd.index_eq he hp]⟩

theorem numel_set_le {sh : List Nat} {a x : Nat} (ha : a < sh.length) (hx : x ≤ sh.getD a 0) :
    numel (sh.set a x) ≤ numel sh := by
  obtain ⟨pre, m, post, rfl, rfl⟩ := split_at ha
  have hm : x ≤ m := by simpa [List.getD_eq_getElem?_getD] using hx
  clear ha hx
  induction pre with
  | nil => exact Nat.mul_le_mul_right _ hm
  | cons n pre ih => exact Nat.mul_le_mul_left _ ih

theorem inBounds_set_set {sh p : List Nat} {a n i : Nat} (ha : a < sh.length) (hp : InBounds sh p) (hi : i < n) :
    InBounds (sh.set a n) (p.set a i) := by
  rw [inBounds_iff_get] at hp ⊢
  refine ⟨by simpa using hp.1, fun k hk => ?_⟩
  rw [getD_set_nat ha, getD_set_nat (by omega)]
  split
  · exact hi
  · exact hp.2 k (by simpa using hk)

/-- C91: cutting an array in two along an axis, with `range(0, k)` and `range(k, n)`, and concatenating the parts gives the
array back. -/
theorem C91_concat_ranges {α : Type} [Inhabited α] {e : Strd} (he : e.WF) (mem : Int → α) {a k : Nat}
    (ha : a < e.shape.length) (hk : k ≤ e.shape.getD a 0) (hsmall : numel e.shape < 2 ^ 31) (hsz : e.shape.getD a 0 < 2 ^ 64) :
    ∃ (v w : SView) (g : Gen α),
      stridedView e.shape e.strides e.offset e.layout
        (List.replicate a .all ++ [.range (some ((0 : Nat) : Int)) (some (k : Int)) none]) = .ok v ∧
      stridedView e.shape e.strides e.offset e.layout
        (List.replicate a .all ++ [.range (some (k : Int)) (some (e.shape.getD a 0 : Int)) none]) = .ok w ∧
      concatenate [svOpd mem v, svOpd mem w] a = .ok g ∧
      g.shape = e.shape ∧ ∀ p, InBounds e.shape p → g.Reads p (mem (e.index (toInts p))) := by
  obtain ⟨v, v1, v2, v3⟩ := range_view he ha (Nat.zero_le k) hk
  obtain ⟨w, w1, w2, w3⟩ := range_view he ha hk (Nat.le_refl _)
  rw [Nat.sub_zero] at v2 v3
  have hle : ∀ x, x ≤ e.shape.getD a 0 → numel (e.shape.set a x) ≤ numel e.shape := fun x hx => numel_set_le ha hx
  have hvs : (svOpd mem v).shape = e.shape.set a k := v2
  have hws : (svOpd mem w).shape = e.shape.set a (e.shape.getD a 0 - k) := w2
  obtain ⟨g, g1, g2, g3⟩ := C39_concatenate (o := svOpd mem v) (ops := [svOpd mem w]) (axis := a)
    (by rw [hvs]; simpa using ha)
    (by
      intro p hp
      simp only [List.mem_cons, List.not_mem_nil, or_false] at hp
      rcases hp with rfl | rfl
      · exact ⟨rfl, fun _ _ _ => rfl⟩
      · rw [hvs, hws]
        refine ⟨by simp, fun i hi hne => ?_⟩
        rw [getD_set_nat ha, getD_set_nat ha, if_neg (Ne.symm hne), if_neg (Ne.symm hne)])
    (by
      intro p hp
      simp only [List.mem_cons, List.not_mem_nil, or_false] at hp
      rcases hp with rfl | rfl <;> simp [svOpd, Opd.WF, length_rowIndices])
    (by
      intro p hp
      simp only [List.mem_cons, List.not_mem_nil, or_false] at hp
      rcases hp with rfl | rfl
      · rw [hvs]; exact Nat.lt_of_le_of_lt (hle _ hk) hsmall
      · rw [hws]; exact Nat.lt_of_le_of_lt (hle _ (Nat.sub_le _ _)) hsmall)
    (by
      simp only [List.map_cons, List.map_nil, hvs, hws, getD_set_self ha, List.sum_cons, List.sum_nil]
      omega)
  have hext : ([svOpd mem v, svOpd mem w].map fun p => p.shape.getD a 0) = [k, e.shape.getD a 0 - k] := by
    simp only [List.map_cons, List.map_nil, hvs, hws, getD_set_self ha]
  rw [hext] at g2 g3
  have hrd : ∀ (x : SView) (q : List Nat), InBounds (svOpd mem x).shape q →
      (svOpd mem x).vals[rowRank (svOpd mem x).shape q]? = some (mem (x.index (toInts q))) := by
    intro x q hq
    show ((rowIndices (x.shape.map Int.toNat)).map _)[rowRank (x.shape.map Int.toNat) q]? = _
    rw [List.getElem?_map, rowIndices_rank (show InBounds (x.shape.map Int.toNat) q from hq)]
    rfl
  refine ⟨v, w, g, v1, w1, g1, ?_, fun p hp => ?_⟩
  · rw [g2, hvs, List.set_set, List.sum_cons, List.sum_cons, List.sum_nil, show k + (e.shape.getD a 0 - k + 0) = e.shape.getD a 0 by omega,
      set_getD_self]
  · have hpa := (inBounds_iff_get.1 hp).2 a ha
    have hpl := hp.length_eq
    by_cases hc : p.getD a 0 < k
    · have hq : InBounds (e.shape.set a k) p := by
        have := inBounds_set_set ha hp hc
        rwa [set_getD_self] at this
      obtain ⟨x, hx, hr⟩ := g3 0 _ rfl p (by rw [hvs]; exact hq)
      rw [hrd v p (by rw [hvs]; exact hq), Option.some.injEq] at hx
      have h0 : shiftAxis a 0 p = p := by unfold shiftAxis; rw [Nat.add_zero, set_getD_self]
      rw [(v3 p hq).2, h0] at hx
      have : shiftAxis a (blockStart [k, e.shape.getD a 0 - k] 0) p = p := h0
      rw [this] at hr
      rw [hx]; exact hr
    · have hq : InBounds (e.shape.set a (e.shape.getD a 0 - k)) (p.set a (p.getD a 0 - k)) :=
        inBounds_set_set ha hp (by omega)
      obtain ⟨x, hx, hr⟩ := g3 1 _ rfl _ (by rw [hws]; exact hq)
      rw [hrd w _ (by rw [hws]; exact hq), Option.some.injEq] at hx
      have h0 : shiftAxis a k (p.set a (p.getD a 0 - k)) = p := by
        unfold shiftAxis
        rw [getD_set_self (by omega), List.set_set, show p.getD a 0 - k + k = p.getD a 0 by omega, set_getD_self]
      rw [(w3 _ hq).2, h0] at hx
      have : shiftAxis a (blockStart [k, e.shape.getD a 0 - k] 1) (p.set a (p.getD a 0 - k)) = p := by
        rw [show blockStart [k, e.shape.getD a 0 - k] 1 = k by simp [blockStart]]; exact h0
      rw [this] at hr
      rw [hx]; exact hr

example := C91_concat_ranges (e := ⟨[2, 5], [5, 1], 0, .row_major⟩) rfl (fun k => k) (a := 1) (k := 2)
  (by decide) (by decide) (by decide) (by decide)

end Xt
