import Verif.Spec.SelectLayout
import Verif.Props.Assign
import Verif.Props.Layout
/-!
# C105: vectors are assigned whatever their layouts
-/

namespace Xt
open Spec

variable {α β : Type}

/-! ## Arrays with at most one axis -/

theorem rankIn_short {sh idx : List Nat} (h : sh.length ≤ 1) (hi : InBounds sh idx) (L L' : Layout) :
    rankIn L sh idx = rankIn L' sh idx := by
  match sh, idx, h, hi with
  | [], _, _, _ => cases L <;> cases L' <;> simp [rankIn, rowRank, colRank]
  | [n], [], _, hi => cases L <;> cases L' <;> simp [rankIn, rowRank, colRank]
  | [n], [i], _, hi => cases L <;> cases L' <;> simp [rankIn, rowRank, colRank, numel]
  | [n], i :: j :: l, _, hi => exact absurd hi.length_eq (by simp)

theorem contig_short {c : StridedArr} (h : c.shape.length ≤ 1) {L : Layout} (hc : Contig L c) (L' : Layout) : Contig L' c := by
  intro idx hi
  rw [hc idx hi, rankIn_short h hi L L']

/-! ## Promotion of shape types -/

theorem promoteFixed_length : ∀ (S : List (List Nat)) (I : List Nat) {r : List Nat × Bool}, promoteFixed I S = some r →
    ∀ s ∈ I :: S, s.length ≤ r.1.length
  | [], I, r, h => by
    simp only [promoteFixed, Option.some.injEq] at h
    subst h; simp
  | J :: S, I, r, h => by
    have hb : ∀ {A B : List Nat} {q : List Nat × Bool}, bcFixed A B = some q → A.length ≤ q.1.length ∧ B.length ≤ q.1.length := by
      intro A B q hq
      unfold bcFixed at hq
      by_cases h1 : B.length < A.length
      · rw [if_pos h1] at hq; simp at hq
      · rw [if_neg h1] at hq
        by_cases h2 : (List.range B.length).all fun jx => cmpOk (cmpI A B jx) (cmpJ B jx)
        · rw [if_pos h2] at hq
          simp only [Option.some.injEq] at hq
          subst hq
          simp only [List.length_map, List.length_range]
          omega
        · rw [if_neg h2] at hq; simp at hq
    simp only [promoteFixed] at h
    cases hq : (if I.length > J.length then bcFixed J I else bcFixed I J) with
    | none => rw [hq] at h; simp at h
    | some q =>
      rw [hq] at h
      simp only [Option.map_eq_some_iff] at h
      obtain ⟨q', h1, rfl⟩ := h
      have ih := promoteFixed_length S q.1 h1
      have hq1 := ih q.1 (by simp)
      have hIJ : I.length ≤ q.1.length ∧ J.length ≤ q.1.length := by
        by_cases hl : I.length > J.length
        · rw [if_pos hl] at hq; exact (hb hq).symm
        · rw [if_neg hl] at hq; exact hb hq
      intro s hs
      simp only [List.mem_cons] at hs
      rcases hs with rfl | rfl | hs
      · exact hIJ.1.trans hq1
      · exact hIJ.2.trans hq1
      · exact ih s (by simp [hs])

theorem le_foldr_max : ∀ (l : List Nat) {n : Nat}, n ∈ l → n ≤ l.foldr max 0
  | [], _, h => by simp at h
  | m :: l, n, h => by
    simp only [List.mem_cons] at h
    simp only [List.foldr_cons]
    rcases h with rfl | h
    · exact le_max_left _ _
    · exact (le_foldr_max l h).trans (le_max_right _ _)

/-- If the type of the shape of a function has a number of axes, so have those of the operands, and not more. -/
theorem promoteTy_dim {ts : List ShapeTy} {t : ShapeTy} (h : promoteTy ts = some t) {n : Nat} (hn : t.staticDim = some n) :
    ∀ u ∈ ts, ∃ m, u.staticDim = some m ∧ m ≤ n := by
  unfold promoteTy at h
  by_cases hf : (ts.any ShapeTy.isFixed && ts.all (fun (t : ShapeTy) => t.isFixed || t.isScalar)) = true
  · rw [if_pos hf, Option.map_eq_some_iff] at h
    obtain ⟨r, h1, rfl⟩ := h
    simp only [ShapeTy.staticDim, Option.some.injEq] at hn
    subst hn
    simp only [Bool.and_eq_true, List.all_eq_true] at hf
    intro u hu
    have hu' := hf.2 u hu
    have hm : filterScalar u.operand ∈ ((ts.map ShapeTy.operand).map filterScalar) :=
      List.mem_map_of_mem (List.mem_map_of_mem hu)
    unfold fixedFunction at h1
    cases hl : (ts.map ShapeTy.operand).map filterScalar with
    | nil => rw [hl] at hm; simp at hm
    | cons I S =>
      rw [hl] at h1 hm
      have := promoteFixed_length S I h1 _ hm
      cases u with
      | dyn => simp [ShapeTy.isFixed, ShapeTy.isScalar] at hu'
      | arr m =>
        simp only [ShapeTy.isFixed, ShapeTy.isScalar, Bool.false_or, beq_iff_eq, ShapeTy.arr.injEq] at hu'
        exact ⟨m, rfl, by omega⟩
      | fixed s => exact ⟨s.length, rfl, this⟩
  · rw [if_neg hf] at h
    by_cases ha : ts.all (fun (t : ShapeTy) => t != .dyn) = true
    · rw [if_pos ha] at h
      simp only [Option.some.injEq] at h
      subst h
      simp only [ShapeTy.staticDim, Option.some.injEq] at hn
      subst hn
      intro u hu
      rw [List.all_eq_true] at ha
      have hu' := ha u hu
      have hle := le_foldr_max (ts.map ShapeTy.size) (List.mem_map_of_mem (f := ShapeTy.size) hu)
      cases u with
      | dyn => simp at hu'
      | arr m => exact ⟨m, rfl, hle⟩
      | fixed s => exact ⟨s.length, rfl, hle⟩
    · rw [if_neg ha] at h
      simp only [Option.some.injEq] at h
      subst h
      simp [ShapeTy.staticDim] at hn

/-! ## What the type of an expression says -/

/-- What is known about the arrays in an expression of layout `l` other than `dynamic`. -/
def Spec.LaidOut (l : Layout) (arrs : List StridedArr) : Prop :=
  ∀ c ∈ arrs, (l = .row_major ∨ l = .column_major) ∧ Contig l c

theorem layout_part {ls : List Layout} (h : Layout.computeLayout ls ≠ .dynamic) {l : Layout} (hl : l ∈ ls) :
    l = .any ∨ l = Layout.computeLayout ls := by
  obtain ⟨h1, h2, h3⟩ := Layout.C12_result ls
  cases hc : Layout.computeLayout ls with
  | dynamic => exact absurd hc h
  | any => exact .inl (h1.1 hc l hl)
  | row_major => rcases (h2.1 hc).1 l hl with h | h <;> simp [h]
  | column_major => rcases (h3.1 hc).1 l hl with h | h <;> simp [h]

mutual
theorem Spec.HasType.stored : ∀ {e : Ex α} {l : Layout} {t : ShapeTy}, HasType e l t → l ≠ .dynamic →
    NoGen e ∧ NoBcast e ∧ LaidOut l e.arrs
  | .arr c _, l, t, h, hl => by
    refine ⟨trivial, trivial, fun c' hc' => ?_⟩
    simp only [Ex.arrs, List.mem_singleton] at hc'
    subst hc'
    have h : ArrTyped c' l t := h
    refine ⟨?_, h.stored hl⟩
    have := h.named
    cases l <;> simp_all
  | .scalar _, l, t, h, hl => ⟨trivial, trivial, fun c hc => by simp [Ex.arrs] at hc⟩
  | .gen _ _, l, t, h, hl => absurd h hl
  | .bcast _ _, l, t, h, hl => absurd h hl
  | .fn _ args, l, t, h, hl => by
    obtain ⟨ts, h1, h2, h3⟩ := h
    have := Spec.HaveTypes.stored h1 (l := l) hl fun a ha => by
      rw [h2]; exact layout_part (by rw [← h2]; exact hl) (List.mem_map_of_mem ha)
    exact ⟨this.1, this.2.1, this.2.2⟩
theorem Spec.HaveTypes.stored : ∀ {es : Args α} {ts : List (Layout × ShapeTy)}, HaveTypes es ts → ∀ {l : Layout}, l ≠ .dynamic →
    (∀ a ∈ ts, a.1 = .any ∨ a.1 = l) → NoGenAll es ∧ NoBcastAll es ∧ LaidOut l es.arrss
  | .nil, ts, _, l, _, _ => ⟨trivial, trivial, fun c hc => by simp [Args.arrss] at hc⟩
  | .cons e es, ts, h, l, hl, ha => by
    obtain ⟨l', t', ts', rfl, h1, h2⟩ := h
    have h3 := Spec.HaveTypes.stored h2 hl fun a h => ha a (by simp [h])
    have h4 := ha (l', t') (by simp)
    simp only at h4
    have h5 := Spec.HasType.stored h1 (by rcases h4 with h | h <;> rw [h] <;> simp [hl])
    refine ⟨⟨h5.1, h3.1⟩, ⟨h5.2.1, h3.2.1⟩, fun c hc => ?_⟩
    simp only [Args.arrss, List.mem_append] at hc
    rcases hc with hc | hc
    · rcases h4 with h | h
      · have := (h5.2.2 c hc).1
        rw [h] at this; simp at this
      · rw [← h]; exact h5.2.2 c hc
    · exact h3.2.2 c hc
end

mutual
theorem Spec.HasType.axes : ∀ {e : Ex α} {l : Layout} {t : ShapeTy}, HasType e l t → NoBcast e → ∀ {n : Nat}, t.staticDim = some n →
    ∀ c ∈ e.arrs, c.shape.length ≤ n
  | .arr c _, l, t, h, _, n, hn => by
    intro c' hc'
    simp only [Ex.arrs, List.mem_singleton] at hc'
    subst hc'
    have h : ArrTyped c' l t := h
    exact (h.axes n hn).le
  | .scalar _, l, t, h, _, n, hn => fun c hc => by simp [Ex.arrs] at hc
  | .gen _ _, l, t, h, _, n, hn => fun c hc => by simp [Ex.arrs] at hc
  | .bcast _ _, l, t, h, hb, n, hn => hb.elim
  | .fn _ args, l, t, h, hb, n, hn => by
    obtain ⟨ts, h1, h2, h3⟩ := h
    exact Spec.HaveTypes.axes h1 hb fun a ha => promoteTy_dim h3 hn a.2 (List.mem_map_of_mem ha)
theorem Spec.HaveTypes.axes : ∀ {es : Args α} {ts : List (Layout × ShapeTy)}, HaveTypes es ts → NoBcastAll es → ∀ {n : Nat},
    (∀ a ∈ ts, ∃ m, a.2.staticDim = some m ∧ m ≤ n) → ∀ c ∈ es.arrss, c.shape.length ≤ n
  | .nil, ts, _, _, n, _ => fun c hc => by simp [Args.arrss] at hc
  | .cons e es, ts, h, hb, n, ha => by
    obtain ⟨l', t', ts', rfl, h1, h2⟩ := h
    intro c hc
    simp only [Args.arrss, List.mem_append] at hc
    rcases hc with hc | hc
    · obtain ⟨m, h3, h4⟩ := ha (l', t') (by simp)
      exact (Spec.HasType.axes h1 hb.1 h3 c hc).trans h4
    · exact Spec.HaveTypes.axes h2 hb.2 (fun a h => ha a (by simp [h])) c hc
end

theorem selectLayout_cases (l : Layout) (t : ShapeTy) :
    selectLayout l t = l ∨ (selectLayout l t = .any ∧ ∃ n, t.staticDim = some n ∧ n ≤ 1) := by
  unfold selectLayout
  cases h : t.staticDim with
  | none => exact .inl rfl
  | some n =>
    by_cases hc : n ≤ 1 ∧ l ≠ .dynamic
    · right
      simp only [if_pos hc, true_and]
      exact ⟨n, rfl, hc.1⟩
    · left
      simp only [if_neg hc]

/-- Containers with the strides that their layout has by `compute_strides` are typed. -/
theorem C105_container {l : Layout} (hl : l = .row_major ∨ l = .column_major) (sh : List Nat) (off : Int) {t : ShapeTy}
    (ht : ∀ n, t.staticDim = some n → sh.length = n) : ArrTyped (.container l sh off) l t where
  named := by rcases hl with rfl | rfl <;> decide
  stored _ := container_contig hl sh off
  axes n h := ht n h

/-- When the types say that both sides are stored in one order, they are. -/
theorem C105_same_order {d : StridedArr} {e : Ex α} {l1 l2 : Layout} {t1 t2 : ShapeTy} (hd : ArrTyped d l1 t1)
    (he : HasType e l2 t2) (h1 : l1 ≠ .dynamic) (h2 : l2 ≠ .dynamic) (hs : linearStaticLayout l1 t1 l2 t2 = true) :
    ∃ L, (L = .row_major ∨ L = .column_major) ∧ Contig L d ∧ NoGen e ∧ NoBcast e ∧ ∀ c ∈ e.arrs, Contig L c := by
  obtain ⟨hg, hb, hl⟩ := he.stored h2
  have hL1 : l1 = .row_major ∨ l1 = .column_major := by
    have := hd.named
    cases l1 <;> simp_all
  have hc1 := hd.stored h1
  -- one of the sides has at most one axis
  by_cases hshort : ∃ n, t1.staticDim = some n ∧ n ≤ 1
  · obtain ⟨n, hn, hn1⟩ := hshort
    have hlen : d.shape.length ≤ 1 := (hd.axes n hn).le.trans hn1
    by_cases h2a : l2 = .any
    · refine ⟨l1, hL1, hc1, hg, hb, fun c hc => ?_⟩
      have := (hl c hc).1
      rw [h2a] at this; simp at this
    · have hL2 : l2 = .row_major ∨ l2 = .column_major := by
        cases l2 <;> simp_all
      exact ⟨l2, hL2, contig_short hlen hc1 l2, hg, hb, fun c hc => (hl c hc).2⟩
  · have hsel1 : selectLayout l1 t1 = l1 := (selectLayout_cases l1 t1).resolve_right fun h => hshort h.2
    refine ⟨l1, hL1, hc1, hg, hb, fun c hc => ?_⟩
    obtain ⟨hlc, hcc⟩ := hl c hc
    rcases selectLayout_cases l2 t2 with h | ⟨h, n, hn, hn1⟩
    · unfold linearStaticLayout at hs
      rw [hsel1, h] at hs
      have : l1 = l2 := by
        rcases hL1 with rfl | rfl <;> rcases hlc with rfl | rfl <;> first | rfl | exact absurd hs (by decide)
      rw [this]; exact hcc
    · exact contig_short ((he.axes hb hn c hc).trans hn1) hcc l1

/-- Assignment to a container, by the types: whatever the layouts and the numbers of axes that the types know of, every element of
the destination gets the value of the expression at its index and nothing else is written. -/
theorem C105_assign (t : Traits) (ab : Nat) (d : StridedArr) (e : MEx β) (trivial : Bool) {l1 l2 : Layout} {t1 t2 : ShapeTy}
    (hd1 : ArrTyped d l1 t1) (he : HasType e l2 t2)
    (ho : OperandsOK e) (hx : e.toSh.ExtentsOk) (hr : resizeInfo e = some (d.shape, trivial))
    (hd : d.WF) (hD : Distinct d) (hi : t.isContig1 = true → ∃ L, (L = .row_major ∨ L = .column_major) ∧ Contig L d)
    (hst : t.simdStrided = true → NoGen e) (hw : ∃ k, k ≤ 64 ∧ t.width = 2 ^ k) (hs : d.size < 2 ^ 64) (hab : ab ≤ d.size)
    (hN : NoInterference d e) (m : Mem β) :
    Assigned d e m (runTrace (assignTrace (t.ofTypes l1 t1 l2 t2) ab d e trivial) m) := by
  refine C24_container_assign (t.ofTypes l1 t1 l2 t2) ab d e trivial ho hx hr hd hD ⟨?_, hi, ?_, hst, hw⟩ hs hab hN m
  · intro h
    have h1 : l1 ≠ .dynamic := by simpa [Traits.ofTypes] using h
    refine ⟨l1, ?_, hd1.stored h1⟩
    have := hd1.named
    cases l1 <;> simp_all
  · intro h1 h2 h3
    exact C105_same_order hd1 he (by simpa [Traits.ofTypes] using h1) (by simpa [Traits.ofTypes] using h2) h3

/-- Vectors are assigned by the flat loop whatever their layouts are: if the types of both sides have at most one axis. -/
theorem C105_flat (t : Traits) (d : StridedArr) (e : Ex α) {l1 l2 : Layout} {t1 t2 : ShapeTy} (h1 : l1 ≠ .dynamic)
    (h2 : l2 ≠ .dynamic) {n m : Nat} (hn : t1.staticDim = some n) (hm : t2.staticDim = some m) (hn1 : n ≤ 1) (hm1 : m ≤ 1) :
    linearAssign (t.ofTypes l1 t1 l2 t2) d e true = true := by
  have hs1 : selectLayout l1 t1 = .any := by
    unfold selectLayout; rw [hn]; simp only [if_pos (And.intro hn1 h1)]
  have hs2 : selectLayout l2 t2 = .any := by
    unfold selectLayout; rw [hm]; simp only [if_pos (And.intro hm1 h2)]
  have h3 : linearStaticLayout l1 t1 l2 t2 = true := by
    unfold linearStaticLayout; rw [hs1, hs2]; decide
  simp [linearAssign, Traits.ofTypes, h1, h2, h3]

/-- Matrices of opposite layouts, or with a type that does not know the number of axes, are not: the flat loop would transpose. -/
theorem C105_not_flat (t : Traits) {l1 l2 : Layout} {t1 t2 : ShapeTy}
    (hl : (l1 = .row_major ∧ l2 = .column_major) ∨ (l1 = .column_major ∧ l2 = .row_major))
    (h1 : ∀ n, t1.staticDim = some n → 1 < n) (h2 : ∀ n, t2.staticDim = some n → 1 < n) :
    (t.ofTypes l1 t1 l2 t2).linStatic = false := by
  have hs1 : selectLayout l1 t1 = l1 := (selectLayout_cases l1 t1).resolve_right fun h => by
    obtain ⟨-, n, hn, hn1⟩ := h
    have := h1 n hn; omega
  have hs2 : selectLayout l2 t2 = l2 := (selectLayout_cases l2 t2).resolve_right fun h => by
    obtain ⟨-, n, hn, hn1⟩ := h
    have := h2 n hn; omega
  show linearStaticLayout l1 t1 l2 t2 = false
  unfold linearStaticLayout
  rw [hs1, hs2]
  rcases hl with ⟨rfl, rfl⟩ | ⟨rfl, rfl⟩ <;> decide

/-! ### Examples: `v = 2 * w` for an `xtensor<T, 1, row_major>` and an `xtensor<T, 1, column_major>` -/

def slV : StridedArr := .container .row_major [3] 0
def slW : StridedArr := .container .column_major [3] 100
def slE : MEx Nat := pwFn List.prod (.cons (.scalar fun _ => 2) (.cons (rdArr slW) .nil))

theorem slE_typed : HasType slE .column_major (.arr 1) :=
  ⟨[(.any, .arr 0), (.column_major, .arr 1)],
    ⟨_, _, _, rfl, ⟨rfl, rfl⟩, _, _, _, rfl, ⟨by decide, fun _ => container_contig (Or.inr rfl) _ _, fun n h => by
      simp only [ShapeTy.staticDim, Option.some.injEq] at h; subst h; rfl⟩, rfl⟩, by decide, by decide⟩

/-- Hypotheses of `C105_same_order` and `C105_flat`; the assignment is flat and doubles the elements. -/
example : ArrTyped slV .row_major (.arr 1) ∧ HasType slE .column_major (.arr 1) ∧
    linearStaticLayout .row_major (.arr 1) .column_major (.arr 1) = true ∧
    (List.range 3).map (fun (i : Nat) => runTrace (assignTrace (exTraits.ofTypes .row_major (.arr 1) .column_major (.arr 1)) 0 slV slE
      true) (fun p => p.toNat) (i : Int)) = [200, 202, 204] :=
  ⟨⟨by decide, fun _ => container_contig (Or.inl rfl) _ _, fun n h => by
    simp only [ShapeTy.staticDim, Option.some.injEq] at h; subst h; rfl⟩, slE_typed, by decide, by decide⟩

/-- Hypotheses of `C105_assign`. -/
example (m : Mem Nat) : Assigned slV slE m
    (runTrace (assignTrace (exTraits.ofTypes .row_major (.arr 1) .column_major (.arr 1)) 0 slV slE true) m) := by
  refine C105_assign exTraits 0 slV slE true (t1 := .arr 1) (t2 := .arr 1) ?_ slE_typed
    ⟨trivial, container_wf _ _, trivial⟩ ?_ (by decide) (container_wf _ _) (container_distinct (Or.inl rfl) _ _)
    (fun _ => ⟨_, Or.inl rfl, container_contig (Or.inl rfl) _ _⟩) (fun _ => ⟨trivial, trivial, trivial⟩) ⟨1, by decide, rfl⟩ (by decide)
    (by decide) ?_ m
  · exact ⟨by decide, fun _ => container_contig (Or.inl rfl) _ _, fun n h => by
      simp only [ShapeTy.staticDim, Option.some.injEq] at h; subst h; rfl⟩
  · intro s hs
    simp only [slE, pwFn, rdArr, Ex.toSh, Args.toShs, ShExpr.leaves, ShExpr.leavesL,
      List.mem_append, List.mem_singleton, List.not_mem_nil, or_false, List.nil_append] at hs
    revert hs
    first | (rintro rfl; decide) | (rintro (rfl | rfl) <;> decide)
  · refine noInterference_of (container_distinct (Or.inl rfl) _ _) ⟨⟨List.prod, rfl⟩, ?_⟩
      ⟨trivial, ⟨container_wf _ _, by decide⟩, trivial⟩ ?_
    · exact ⟨⟨2, rfl⟩, rfl, trivial⟩
    · intro c h
      simp only [slE, pwFn, rdArr, Ex.arrs, Args.arrss, List.mem_append, List.mem_singleton,
        List.not_mem_nil, or_false, List.nil_append] at h
      subst h
      exact Or.inr (contig_apart (container_contig (Or.inl rfl) _ _) (container_contig (Or.inr rfl) _ _) (by decide))

/-- Hypotheses of `C105_not_flat`: matrices, or vectors stored in an `xarray`. -/
example : (exTraits.ofTypes .row_major (.arr 2) .column_major .dyn).linStatic = false :=
  C105_not_flat exTraits (.inl ⟨rfl, rfl⟩) (fun n h => by simp only [ShapeTy.staticDim, Option.some.injEq] at h; omega)
    (fun n h => by simp [ShapeTy.staticDim] at h)

end Xt
