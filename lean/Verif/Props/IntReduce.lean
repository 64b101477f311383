import Verif.Props.IntArith
/-!
# Sums, products, means and accumulations of integer elements (C94)
-/

namespace Xt
open Spec

variable {α β γ : Type}

/-! ## Two reductions by related functors -/

theorem aggLoop_rel {σ : Type} (R : β → γ → Prop) (ops : StepOps σ) (index : Nat) {f : β → σ → β × σ} {g : γ → σ → γ × σ}
    (h : ∀ r q st, R r q → R (f r st).1 (g q st).1 ∧ (f r st).2 = (g q st).2) :
    ∀ (k : Nat) (r : β) (q : γ) (st : σ), R r q →
      R (aggLoop ops index f k r st).1 (aggLoop ops index g k q st).1 ∧
        (aggLoop ops index f k r st).2 = (aggLoop ops index g k q st).2
  | 0, _, _, _, hr => ⟨hr, rfl⟩
  | k + 1, r, q, st, hr => by
    have h1 := h r q (ops.step st index 1) hr
    have := aggLoop_rel R ops index h k _ _ (f r (ops.step st index 1)).2 h1.1
    simp only [aggLoop]
    rw [← h1.2]
    exact this

/-- The functors keep the relation. -/
structure RelFns (R : β → γ → Prop) (F : RedFns α β) (G : RedFns α γ) : Prop where
  init : R F.init G.init
  reduce : ∀ r q v, R r q → R (F.reduce r v) (G.reduce q v)
  merge : ∀ r q r' q', R r q → R r' q' → R (F.merge r r') (G.merge q q')

variable {R : β → γ → Prop} {F : RedFns α β} {G : RedFns α γ}

theorem aggImpl_rel {σ : Type} (h : RelFns R F G) (ops : StepOps σ) (deref : σ → α) (sh : List Nat) :
    ∀ (axes : List Nat) (st : σ), R (aggImpl ops deref F sh axes st).1 (aggImpl ops deref G sh axes st).1 ∧
      (aggImpl ops deref F sh axes st).2 = (aggImpl ops deref G sh axes st).2
  | [], st => ⟨h.init, rfl⟩
  | [a], st => by
    have := aggLoop_rel R ops a (f := fun res st => (F.reduce res (deref st), st))
      (g := fun res st => (G.reduce res (deref st), st)) (fun r q st hr => ⟨h.reduce r q _ hr, rfl⟩) (sh.getD a 0 - 1)
      _ _ st (h.reduce _ _ (deref st) h.init)
    simp only [aggImpl]
    exact ⟨this.1, by rw [this.2]⟩
  | a :: b :: axes, st => by
    have h0 := aggImpl_rel h ops deref sh (b :: axes) st
    have := aggLoop_rel R ops a
      (f := fun res st => let q := aggImpl ops deref F sh (b :: axes) st; (F.merge res q.1, q.2))
      (g := fun res st => let q := aggImpl ops deref G sh (b :: axes) st; (G.merge res q.1, q.2))
      (fun r q st hr => by
        have h1 := aggImpl_rel h ops deref sh (b :: axes) st
        exact ⟨h.merge _ _ _ _ hr h1.1, h1.2⟩)
      (sh.getD a 0 - 1) _ _ (aggImpl ops deref F sh (b :: axes) st).2 h0.1
    rw [aggImpl, aggImpl]
    simp only
    rw [← h0.2]
    exact ⟨this.1, by rw [this.2]⟩

theorem aggKeep_rel {σ : Type} (h : RelFns R F G) (ops : StepOps σ) (deref : σ → α) (sh axes : List Nat) {d : β} {d' : γ}
    (hd : R d d') :
    ∀ (k : Nat) (st : σ), R (aggKeep ops deref F sh axes d k st).1 (aggKeep ops deref G sh axes d' k st).1 ∧
      (aggKeep ops deref F sh axes d k st).2 = (aggKeep ops deref G sh axes d' k st).2
  | 0, st => ⟨hd, rfl⟩
  | k + 1, st => by
    rw [aggKeep, aggKeep]
    simp only
    split
    · split
      · have h0 := aggKeep_rel h ops deref sh axes hd k st
        have := aggLoop_rel R ops (sh.length - k)
          (f := fun res st => let q := aggKeep ops deref F sh axes d k st; (F.merge res q.1, q.2))
          (g := fun res st => let q := aggKeep ops deref G sh axes d' k st; (G.merge res q.1, q.2))
          (fun r q st hr => by
            have h1 := aggKeep_rel h ops deref sh axes hd k st
            exact ⟨h.merge _ _ _ _ hr h1.1, h1.2⟩)
          (sh.getD (sh.length - k) 0 - 1) _ _ (aggKeep ops deref F sh axes d k st).2 h0.1
        rw [← h0.2]
        exact ⟨this.1, by rw [this.2]⟩
      · have := aggLoop_rel R ops (sh.length - k) (f := fun res st => (F.reduce res (deref st), st))
          (g := fun res st => (G.reduce res (deref st), st)) (fun r q st hr => ⟨h.reduce r q _ hr, rfl⟩)
          (sh.getD (sh.length - k) 0 - 1) _ _ st (h.reduce _ _ (deref st) h.init)
        exact ⟨this.1, by rw [this.2]⟩
    · split
      · exact aggKeep_rel h ops deref sh axes hd k st
      · exact ⟨hd, rfl⟩

theorem deref_rel (h : RelFns R F G) {d : β} {d' : γ} (hd : R d d') (e : Ex α) (sh axes : List Nat) (keep : Bool) (st : e.State) :
    R (Reducer.deref ⟨e, sh, F, axes, keep, none⟩ d st).1 (Reducer.deref ⟨e, sh, G, axes, keep, none⟩ d' st).1 := by
  unfold Reducer.deref Reducer.initialValue
  simp only [Option.getD_none]
  split
  · exact h.init
  · split
    · exact h.reduce _ _ _ h.init
    · split
      · exact (aggKeep_rel h _ _ sh axes hd _ st).1
      · exact (aggImpl_rel h _ _ sh axes st).1

theorem lazyReduce_rel (h : RelFns R F G) {d : β} {d' : γ} (hd : R d d') {e : Ex α} {sh : List Nat} {axes : List Int} {keep : Bool}
    {s' : LazyEx γ} (hs : lazyReduce G d' e sh axes keep = .ok s') :
    ∃ s, lazyReduce F d e sh axes keep = .ok s ∧ s.shape = s'.shape ∧ ∀ idx, R (s.elem idx) (s'.elem idx) := by
  unfold lazyReduce Reducer.construct at hs ⊢
  simp only at hs ⊢
  split at hs
  · cases hs
  · rename_i r hr
    split at hr
    · cases hr
    · rename_i h1
      split at hr
      · rename_i h2
        cases hr
        cases hs
        rw [if_neg h1, if_pos h2]
        refine ⟨_, rfl, rfl, fun idx => ?_⟩
        exact deref_rel h hd e sh _ keep _
      · cases hr

/-! ## Sums and products -/

/-- The mathematical sum of the elements contributing to an element of a reduction. -/
def Spec.integerSum (e : Ex Int) (sh axes : List Nat) (keep : Bool) (idx : List Nat) : Int :=
  ((redGroup sh axes keep idx).map (valueAt e)).sum

/-- The sum of their absolute values. -/
def Spec.magnitudeSum (e : Ex Int) (sh axes : List Nat) (keep : Bool) (idx : List Nat) : Int :=
  ((redGroup sh axes keep idx).map fun i => |valueAt e i|).sum

/-- Their mathematical product. -/
def Spec.integerProd (e : Ex Int) (sh axes : List Nat) (keep : Bool) (idx : List Nat) : Int :=
  ((redGroup sh axes keep idx).map (valueAt e)).prod

/-- The product of their absolute values, those that are 0 left out. -/
def Spec.magnitudeProd (e : Ex Int) (sh axes : List Nat) (keep : Bool) (idx : List Nat) : Int :=
  ((redGroup sh axes keep idx).map fun i => max 1 |valueAt e i|).prod

/-- Plain integer functors. -/
def exactFns (op : IntOp) (init : Int) : RedFns Int Int := ⟨op.exact, init, op.exact⟩

theorem redKind_ge (T : Option IntKind) (E : IntKind) : 32 ≤ (redKind T E).bits := IntKind.usual_ge _ _

theorem redKind_elem (T : Option IntKind) (E : IntKind) : (redKind T E).usual E = redKind T E := IntKind.usual_usual _ _

theorem intOp_unsigned {t a b : IntKind} (hu : t.signed = false) (ht : a.usual b = t) (op : IntOp) (x y : Int) :
    intOp op a b (x % 2 ^ t.bits) y = some (op.exact x y % 2 ^ t.bits) := by
  unfold intOp
  simp only [ht]
  unfold IntKind.arith
  rw [if_neg (by simp [hu])]
  congr 1
  apply emod_eq_of_dvd_sub
  apply opExact_dvd
  · exact dvd_trans_sub dvd_rfl (t.conv_dvd _) (emod_sub_dvd _ _)
  · exact t.conv_dvd _

theorem unsigned_rel (op : IntOp) {T : Option IntKind} {E : IntKind} (hu : (redKind T E).signed = false) (init : Int) :
    RelFns (fun (o : Option Int) (s : Int) => o = some (s % 2 ^ (redKind T E).bits)) (intRedFns op (redKind T E) E init)
      (exactFns op init) where
  init := by
    show some ((redKind T E).conv init) = _
    unfold IntKind.conv
    rw [if_neg (by simp [hu])]
    rfl
  reduce := by
    rintro r q v rfl
    exact intOp_unsigned hu (redKind_elem T E) op q v
  merge := by
    rintro r q r' q' rfl rfl
    show intOp op _ _ _ _ = _
    rw [intOp_unsigned hu (IntKind.usual_self (redKind_ge T E)) op q]
    congr 1
    apply emod_eq_of_dvd_sub
    apply opExact_dvd
    · simp
    · exact emod_sub_dvd _ _

theorem exactFns_laws_add : ReducerLaws (exactFns .add 0) :=
  ⟨fun x y v => (add_assoc x y v).symm, fun x => add_zero x⟩

theorem exactFns_laws_mul : ReducerLaws (exactFns .mul 1) :=
  ⟨fun x y v => (mul_assoc x y v).symm, fun x => mul_one x⟩

theorem foldl_int_add : ∀ (l : List Int) (a : Int), l.foldl (· + ·) a = a + l.sum
  | [], a => by simp
  | x :: l, a => by rw [List.foldl_cons, foldl_int_add l, List.sum_cons]; ring

theorem foldl_int_mul : ∀ (l : List Int) (a : Int), l.foldl (· * ·) a = a * l.prod
  | [], a => by simp
  | x :: l, a => by rw [List.foldl_cons, foldl_int_mul l, List.prod_cons]; ring

/-- C94: a sum computed in an unsigned type is the mathematical one modulo 2^bits: every expression, shape, list of axes and
    choice of `T`. -/
theorem C94_sum_unsigned {T : Option IntKind} {E : IntKind} (hu : (redKind T E).signed = false) {e : Ex Int} {sh : List Nat}
    (hf : Fits sh e) {axes : List Int} (hg : GoodAxes sh.length (axes.map (normalizeAxis sh.length))) (keep : Bool) :
    ∃ s, sumInts T E e sh axes keep = .ok s ∧ s.shape = redShape sh (axes.map (normalizeAxis sh.length)) keep ∧
      ∀ idx, InBounds s.shape idx →
        s.elem idx = some (integerSum e sh (axes.map (normalizeAxis sh.length)) keep idx % 2 ^ (redKind T E).bits) := by
  obtain ⟨s', h1, h2, h3⟩ := lazyReduce_ok exactFns_laws_add 0 hf hg keep
  obtain ⟨s, h4, h5, h6⟩ := lazyReduce_rel (unsigned_rel .add hu 0) (d := some 0) (d' := 0) (by simp) h1
  refine ⟨s, h4, by rw [h5, h2], fun idx hi => ?_⟩
  rw [h6 idx, h3 idx (by rw [← h5]; exact hi)]
  congr 2
  unfold redValue integerSum
  show List.foldl (· + ·) 0 _ = _
  rw [foldl_int_add, zero_add]

/-- C94: so is a product. -/
theorem C94_prod_unsigned {T : Option IntKind} {E : IntKind} (hu : (redKind T E).signed = false) {e : Ex Int} {sh : List Nat}
    (hf : Fits sh e) {axes : List Int} (hg : GoodAxes sh.length (axes.map (normalizeAxis sh.length))) (keep : Bool) :
    ∃ s, prodInts T E e sh axes keep = .ok s ∧ s.shape = redShape sh (axes.map (normalizeAxis sh.length)) keep ∧
      ∀ idx, InBounds s.shape idx →
        s.elem idx = some (integerProd e sh (axes.map (normalizeAxis sh.length)) keep idx % 2 ^ (redKind T E).bits) := by
  obtain ⟨s', h1, h2, h3⟩ := lazyReduce_ok exactFns_laws_mul 0 hf hg keep
  obtain ⟨s, h4, h5, h6⟩ := lazyReduce_rel (unsigned_rel .mul hu 1) (d := some 0) (d' := 0) (by simp) h1
  refine ⟨s, h4, by rw [h5, h2], fun idx hi => ?_⟩
  rw [h6 idx, h3 idx (by rw [← h5]; exact hi)]
  congr 2
  unfold redValue integerProd
  show List.foldl (· * ·) 1 _ = _
  rw [foldl_int_mul, one_mul]

/-- Sum and sum of absolute values. -/
def boundSum : RedFns Int (Int × Int) := ⟨fun r v => (r.1 + v, r.2 + |v|), (0, 0), fun r q => (r.1 + q.1, r.2 + q.2)⟩

/-- Product and product of absolute values. -/
def boundProd : RedFns Int (Int × Int) := ⟨fun r v => (r.1 * v, r.2 * max 1 |v|), (1, 1), fun r q => (r.1 * q.1, r.2 * q.2)⟩

theorem boundSum_laws : ReducerLaws boundSum where
  assoc x y v := by
    show (x.1 + (y.1 + v), x.2 + (y.2 + |v|)) = (x.1 + y.1 + v, x.2 + y.2 + |v|)
    rw [add_assoc, add_assoc]
  unit x := by
    show (x.1 + 0, x.2 + 0) = x
    rw [add_zero, add_zero]

theorem boundProd_laws : ReducerLaws boundProd where
  assoc x y v := by
    show (x.1 * (y.1 * v), x.2 * (y.2 * max 1 |v|)) = (x.1 * y.1 * v, x.2 * y.2 * max 1 |v|)
    rw [mul_assoc, mul_assoc]
  unit x := by
    show (x.1 * 1, x.2 * 1) = x
    rw [mul_one, mul_one]

theorem holds_of_abs {t : IntKind} (hs : t.signed = true) {v : Int} (h : |v| < 2 ^ (t.bits - 1)) : t.holds v := by
  unfold IntKind.holds
  rw [if_pos hs]
  have := abs_lt.1 h
  exact ⟨by linarith [this.1], this.2⟩

theorem intOp_signed {t a b : IntKind} (ht : a.usual b = t) {op : IntOp} {x y : Int}
    (hx : t.holds x) (hy : t.holds y) (hr : t.holds (op.exact x y)) : intOp op a b x y = some (op.exact x y) := by
  have hp : 0 < t.bits := by rw [← ht]; exact IntKind.usual_pos a b
  unfold intOp
  simp only [ht, IntKind.conv_of_holds hp hx, IntKind.conv_of_holds hp hy]
  exact IntKind.arith_of_holds hr

/-- The bound, and the exact value as long as the bound is in range. -/
def SumRel (H : Int) (o : Option Int) (p : Int × Int) : Prop := |p.1| ≤ p.2 ∧ (p.2 < H → o = some p.1)

/-- The same for products. -/
def ProdRel (H : Int) (o : Option Int) (p : Int × Int) : Prop := 1 ≤ p.2 ∧ |p.1| ≤ p.2 ∧ (p.2 < H → o = some p.1)

theorem conv_small {t : IntKind} (hb : 32 ≤ t.bits) {v : Int} (h0 : 0 ≤ v) (h1 : v ≤ 1) : t.conv v = v := by
  apply IntKind.conv_of_holds (by omega)
  have h2 := pow_mono (show 1 ≤ t.bits - 1 by omega)
  have h3 := pow_mono (show 1 ≤ t.bits by omega)
  unfold IntKind.holds
  split <;> constructor <;> linarith

theorem signed_sum_rel {T : Option IntKind} {E : IntKind} (hs : (redKind T E).signed = true) :
    RelFns (SumRel (2 ^ ((redKind T E).bits - 1))) (intRedFns .add (redKind T E) E 0) boundSum where
  init := ⟨by simp [boundSum], fun _ => congrArg some (conv_small (redKind_ge T E) le_rfl zero_le_one)⟩
  reduce := by
    intro r q v ⟨h1, h2⟩
    have h3 := abs_add_le q.1 v
    have h4 := abs_nonneg v
    have h5 := abs_nonneg q.1
    refine ⟨by show |q.1 + v| ≤ q.2 + |v|; linarith, fun h => ?_⟩
    change q.2 + |v| < _ at h
    have hr := h2 (by linarith)
    subst hr
    exact intOp_signed (op := .add) (redKind_elem T E) (holds_of_abs hs (by linarith)) (holds_of_abs hs (by linarith))
      (holds_of_abs hs (by show |q.1 + v| < _; linarith))
  merge := by
    intro r q r' q' ⟨h1, h2⟩ ⟨h1', h2'⟩
    have h3 := abs_add_le q.1 q'.1
    have h4 := abs_nonneg q'.1
    have h5 := abs_nonneg q.1
    refine ⟨by show |q.1 + q'.1| ≤ q.2 + q'.2; linarith, fun h => ?_⟩
    change q.2 + q'.2 < _ at h
    have hr := h2 (by linarith)
    have hr' := h2' (by linarith)
    subst hr; subst hr'
    exact intOp_signed (op := .add) (IntKind.usual_self (redKind_ge T E)) (holds_of_abs hs (by linarith))
      (holds_of_abs hs (by linarith)) (holds_of_abs hs (by show |q.1 + q'.1| < _; linarith))

theorem signed_prod_rel {T : Option IntKind} {E : IntKind} (hs : (redKind T E).signed = true) :
    RelFns (ProdRel (2 ^ ((redKind T E).bits - 1))) (intRedFns .mul (redKind T E) E 1) boundProd where
  init := ⟨le_refl _, by simp [boundProd], fun _ => congrArg some (conv_small (redKind_ge T E) zero_le_one le_rfl)⟩
  reduce := by
    intro r q v ⟨h0, h1, h2⟩
    have hm : (1 : Int) ≤ max 1 |v| := le_max_left _ _
    have hv : |v| ≤ max 1 |v| := le_max_right _ _
    have h3 : |q.1 * v| ≤ q.2 * max 1 |v| := by
      rw [abs_mul]
      exact mul_le_mul h1 hv (abs_nonneg _) (by linarith)
    have h4 : q.2 ≤ q.2 * max 1 |v| := le_mul_of_one_le_right (by linarith) hm
    have h5 : max 1 |v| ≤ q.2 * max 1 |v| := le_mul_of_one_le_left (by linarith) h0
    refine ⟨by show 1 ≤ q.2 * max 1 |v|; linarith, h3, fun h => ?_⟩
    change q.2 * max 1 |v| < _ at h
    have hr := h2 (by linarith)
    subst hr
    exact intOp_signed (op := .mul) (redKind_elem T E) (holds_of_abs hs (by linarith)) (holds_of_abs hs (by linarith))
      (holds_of_abs hs (by show |q.1 * v| < _; linarith))
  merge := by
    intro r q r' q' ⟨h0, h1, h2⟩ ⟨h0', h1', h2'⟩
    have h3 : |q.1 * q'.1| ≤ q.2 * q'.2 := by
      rw [abs_mul]
      exact mul_le_mul h1 h1' (abs_nonneg _) (by linarith)
    have h4 : q.2 ≤ q.2 * q'.2 := le_mul_of_one_le_right (by linarith) h0'
    have h5 : q'.2 ≤ q.2 * q'.2 := le_mul_of_one_le_left (by linarith) h0
    refine ⟨by show 1 ≤ q.2 * q'.2; linarith, h3, fun h => ?_⟩
    change q.2 * q'.2 < _ at h
    have hr := h2 (by linarith)
    have hr' := h2' (by linarith)
    subst hr; subst hr'
    exact intOp_signed (op := .mul) (IntKind.usual_self (redKind_ge T E)) (holds_of_abs hs (by linarith))
      (holds_of_abs hs (by linarith)) (holds_of_abs hs (by show |q.1 * q'.1| < _; linarith))

theorem foldl_boundSum : ∀ (l : List Int) (a : Int × Int),
    l.foldl boundSum.reduce a = (a.1 + l.sum, a.2 + (l.map fun v => |v|).sum)
  | [], a => by simp
  | x :: l, a => by
    rw [List.foldl_cons, foldl_boundSum l]
    simp only [boundSum, List.sum_cons, List.map_cons]
    rw [add_assoc, add_assoc]

theorem foldl_boundProd : ∀ (l : List Int) (a : Int × Int),
    l.foldl boundProd.reduce a = (a.1 * l.prod, a.2 * (l.map fun v => max 1 |v|).prod)
  | [], a => by simp
  | x :: l, a => by
    rw [List.foldl_cons, foldl_boundProd l]
    simp only [boundProd, List.prod_cons, List.map_cons]
    rw [mul_assoc, mul_assoc]

/-- C94: a sum computed in a signed type is the mathematical one, if the absolute values do not add up to more than the type
    holds.  Missing: sums that stay in range by cancellation, whose definedness depends on the order of the additions (see
    `C94_sum_order_wrong`). -/
theorem C94_sum_signed_partial {T : Option IntKind} {E : IntKind} (hs : (redKind T E).signed = true) {e : Ex Int} {sh : List Nat}
    (hf : Fits sh e) {axes : List Int} (hg : GoodAxes sh.length (axes.map (normalizeAxis sh.length))) (keep : Bool) :
    ∃ s, sumInts T E e sh axes keep = .ok s ∧ s.shape = redShape sh (axes.map (normalizeAxis sh.length)) keep ∧
      ∀ idx, InBounds s.shape idx →
        magnitudeSum e sh (axes.map (normalizeAxis sh.length)) keep idx < 2 ^ ((redKind T E).bits - 1) →
        s.elem idx = some (integerSum e sh (axes.map (normalizeAxis sh.length)) keep idx) := by
  obtain ⟨s', h1, h2, h3⟩ := lazyReduce_ok boundSum_laws (0, 0) hf hg keep
  obtain ⟨s, h4, h5, h6⟩ := lazyReduce_rel (signed_sum_rel hs) (d := some 0) (d' := (0, 0)) ⟨by simp, fun _ => rfl⟩ h1
  refine ⟨s, h4, by rw [h5, h2], fun idx hi hb => ?_⟩
  have h7 := h3 idx (by rw [← h5]; exact hi)
  unfold redValue at h7
  rw [foldl_boundSum] at h7
  have h8 := (h6 idx).2
  rw [h7] at h8
  unfold integerSum
  unfold magnitudeSum at hb
  simp only [boundSum, zero_add, List.map_map] at h8
  exact h8 hb

/-- C94: the same for products.  Missing: products with a factor 0, whose definedness depends on the order. -/
theorem C94_prod_signed_partial {T : Option IntKind} {E : IntKind} (hs : (redKind T E).signed = true) {e : Ex Int}
    {sh : List Nat} (hf : Fits sh e) {axes : List Int} (hg : GoodAxes sh.length (axes.map (normalizeAxis sh.length)))
    (keep : Bool) :
    ∃ s, prodInts T E e sh axes keep = .ok s ∧ s.shape = redShape sh (axes.map (normalizeAxis sh.length)) keep ∧
      ∀ idx, InBounds s.shape idx →
        magnitudeProd e sh (axes.map (normalizeAxis sh.length)) keep idx < 2 ^ ((redKind T E).bits - 1) →
        s.elem idx = some (integerProd e sh (axes.map (normalizeAxis sh.length)) keep idx) := by
  obtain ⟨s', h1, h2, h3⟩ := lazyReduce_ok boundProd_laws (0, 1) hf hg keep
  obtain ⟨s, h4, h5, h6⟩ := lazyReduce_rel (signed_prod_rel hs) (d := some 0) (d' := (0, 1))
    ⟨le_refl _, by simp, fun _ => rfl⟩ h1
  refine ⟨s, h4, by rw [h5, h2], fun idx hi hb => ?_⟩
  have h7 := h3 idx (by rw [← h5]; exact hi)
  unfold redValue at h7
  rw [foldl_boundProd] at h7
  have h8 := (h6 idx).2.2
  rw [h7] at h8
  unfold integerProd
  unfold magnitudeProd at hb
  simp only [boundProd, one_mul, List.map_map] at h8
  exact h8 hb

/-! ### Types wide enough -/

theorem abs_of_holds {t : IntKind} {v : Int} (h : t.holds v) : |v| ≤ 2 ^ t.bits := by
  unfold IntKind.holds at h
  have h1 := pow_mono (show t.bits - 1 ≤ t.bits by omega)
  split at h
  · exact abs_le.2 ⟨by linarith [h.1], by linarith [h.2]⟩
  · exact abs_le.2 ⟨by linarith [h.1, pow_two_pos t.bits], by linarith [h.2]⟩

theorem sum_abs_le {B : Int} (f : List Nat → Int) : ∀ (l : List (List Nat)), (∀ i ∈ l, |f i| ≤ B) →
    (l.map fun i => |f i|).sum ≤ l.length * B
  | [], _ => by simp
  | x :: l, h => by
    have h1 := h x (by simp)
    have h2 := sum_abs_le f l fun i hi => h i (by simp [hi])
    rw [List.map_cons, List.sum_cons, List.length_cons]
    push_cast
    linarith

theorem sum_nonneg_abs (f : List Nat → Int) : ∀ (l : List (List Nat)), (∀ i ∈ l, 0 ≤ f i) →
    0 ≤ (l.map f).sum ∧ (l.map f).sum = (l.map fun i => |f i|).sum
  | [], _ => by simp
  | x :: l, h => by
    have h1 := h x (by simp)
    have h2 := sum_nonneg_abs f l fun i hi => h i (by simp [hi])
    rw [List.map_cons, List.map_cons, List.sum_cons, List.sum_cons, abs_of_nonneg h1]
    exact ⟨by linarith [h2.1], by rw [h2.2]⟩

/-- C94: a sum is exact if so many elements of their type cannot exceed the type of the result, and that type is signed or the
    elements are not. -/
theorem C94_sum_exact {T : Option IntKind} {E : IntKind} (hs : (redKind T E).signed = true ∨ E.signed = false) {e : Ex Int}
    {sh : List Nat} (hf : Fits sh e) {axes : List Int} (hg : GoodAxes sh.length (axes.map (normalizeAxis sh.length)))
    (keep : Bool) (hE : ∀ i, InBounds sh i → E.holds (valueAt e i)) :
    ∃ s, sumInts T E e sh axes keep = .ok s ∧ s.shape = redShape sh (axes.map (normalizeAxis sh.length)) keep ∧
      ∀ idx, InBounds s.shape idx →
        ((redGroup sh (axes.map (normalizeAxis sh.length)) keep idx).length : Int) * 2 ^ E.bits < 2 ^ ((redKind T E).bits - 1) →
        s.elem idx = some (integerSum e sh (axes.map (normalizeAxis sh.length)) keep idx) := by
  have hmem : ∀ idx, ∀ i ∈ redGroup sh (axes.map (normalizeAxis sh.length)) keep idx, InBounds sh i := by
    intro idx i hi
    exact mem_rowIndices.1 (List.mem_filter.1 hi).1
  have habs : ∀ idx, magnitudeSum e sh (axes.map (normalizeAxis sh.length)) keep idx ≤
      ((redGroup sh (axes.map (normalizeAxis sh.length)) keep idx).length : Int) * 2 ^ E.bits := fun idx =>
    sum_abs_le (valueAt e) _ fun i hi => abs_of_holds (hE i (hmem idx i hi))
  cases hu : (redKind T E).signed
  · obtain ⟨s, h1, h2, h3⟩ := C94_sum_unsigned hu hf hg keep
    refine ⟨s, h1, h2, fun idx hi hb => ?_⟩
    rw [h3 idx hi]
    have hE' : E.signed = false := by
      rcases hs with h | h
      · rw [hu] at h; cases h
      · exact h
    have hnn := sum_nonneg_abs (valueAt e) (redGroup sh (axes.map (normalizeAxis sh.length)) keep idx) fun i hi' => by
      have := hE i (hmem idx i hi')
      unfold IntKind.holds at this
      rw [if_neg (by simp [hE'])] at this
      exact this.1
    have h4 := pow_mono (show (redKind T E).bits - 1 ≤ (redKind T E).bits by omega)
    have h5 := habs idx
    unfold magnitudeSum at h5
    rw [Int.emod_eq_of_lt]
    · exact hnn.1
    · unfold integerSum
      linarith [hnn.2]
  · obtain ⟨s, h1, h2, h3⟩ := C94_sum_signed_partial hu hf hg keep
    exact ⟨s, h1, h2, fun idx hi hb => h3 idx hi (lt_of_le_of_lt (habs idx) hb)⟩

/-- C94: `sum<big_promote_value_type_t<E>>(e, axes)` is exact for elements of at most 32 bits, as long as fewer than 2^31 are
    added. -/
theorem C94_sum_big {E : IntKind} (hb : E.bits ≤ 32) {e : Ex Int} {sh : List Nat} (hf : Fits sh e) {axes : List Int}
    (hg : GoodAxes sh.length (axes.map (normalizeAxis sh.length))) (keep : Bool)
    (hE : ∀ i, InBounds sh i → E.holds (valueAt e i)) (hn : numel sh < 2 ^ 31) :
    ∃ s, sumInts (some ⟨64, E.signed⟩) E e sh axes keep = .ok s ∧
      s.shape = redShape sh (axes.map (normalizeAxis sh.length)) keep ∧
      ∀ idx, InBounds s.shape idx → s.elem idx = some (integerSum e sh (axes.map (normalizeAxis sh.length)) keep idx) := by
  have hp : E.promoted.bits = 32 := by
    have := E.promoted_bits
    unfold IntKind.promoted at this ⊢
    split
    · rfl
    · omega
  have hk : redKind (some ⟨64, E.signed⟩) E = ⟨64, E.signed⟩ := by
    unfold redKind IntKind.usual
    simp only [Option.getD_some, IntKind.promoted_of_ge (show 32 ≤ (⟨64, E.signed⟩ : IntKind).bits from (by decide : 32 ≤ 64)), hp]
    rfl
  have hc : (redKind (some ⟨64, E.signed⟩) E).signed = true ∨ E.signed = false := by
    rw [hk]
    cases E.signed <;> simp
  obtain ⟨s, h1, h2, h3⟩ := C94_sum_exact hc hf hg keep hE
  refine ⟨s, h1, h2, fun idx hi => h3 idx hi ?_⟩
  rw [hk]
  have h4 : (redGroup sh (axes.map (normalizeAxis sh.length)) keep idx).length ≤ numel sh := by
    rw [← length_rowIndices]
    exact List.length_filter_le _ _
  have h5 : (2 : Int) ^ E.bits ≤ 2 ^ 32 := pow_mono hb
  have h6 : ((redGroup sh (axes.map (normalizeAxis sh.length)) keep idx).length : Int) < 2 ^ 31 := by
    exact_mod_cast lt_of_le_of_lt h4 hn
  have h7 := pow_two_pos E.bits
  calc ((redGroup sh (axes.map (normalizeAxis sh.length)) keep idx).length : Int) * 2 ^ E.bits
      ≤ (redGroup sh (axes.map (normalizeAxis sh.length)) keep idx).length * 2 ^ 32 :=
        mul_le_mul_of_nonneg_left h5 (by positivity)
    _ < 2 ^ 31 * 2 ^ 32 := mul_lt_mul_of_pos_right h6 (by norm_num)
    _ = 2 ^ (64 - 1) := by norm_num

/-- C94: sums of elements narrower than `int` are computed in `int`: fewer than 2^15 elements of at most 16 bits are added
    exactly. -/
theorem C94_sum_narrow {E : IntKind} (hb : E.bits ≤ 16) {e : Ex Int} {sh : List Nat} (hf : Fits sh e) {axes : List Int}
    (hg : GoodAxes sh.length (axes.map (normalizeAxis sh.length))) (keep : Bool)
    (hE : ∀ i, InBounds sh i → E.holds (valueAt e i)) (hn : numel sh < 2 ^ 15) :
    ∃ s, sumInts none E e sh axes keep = .ok s ∧ s.shape = redShape sh (axes.map (normalizeAxis sh.length)) keep ∧
      ∀ idx, InBounds s.shape idx → s.elem idx = some (integerSum e sh (axes.map (normalizeAxis sh.length)) keep idx) := by
  have hk : redKind none E = ⟨32, true⟩ := by
    have hp : E.promoted = ⟨32, true⟩ := by
      unfold IntKind.promoted
      rw [if_pos (by omega)]
    unfold redKind IntKind.usual
    simp [hp]
  obtain ⟨s, h1, h2, h3⟩ := C94_sum_exact (T := none) (.inl (by rw [hk])) hf hg keep hE
  refine ⟨s, h1, h2, fun idx hi => h3 idx hi ?_⟩
  rw [hk]
  have h4 : (redGroup sh (axes.map (normalizeAxis sh.length)) keep idx).length ≤ numel sh := by
    rw [← length_rowIndices]
    exact List.length_filter_le _ _
  have h5 : (2 : Int) ^ E.bits ≤ 2 ^ 16 := pow_mono hb
  have h6 : ((redGroup sh (axes.map (normalizeAxis sh.length)) keep idx).length : Int) < 2 ^ 15 := by
    exact_mod_cast lt_of_le_of_lt h4 hn
  calc ((redGroup sh (axes.map (normalizeAxis sh.length)) keep idx).length : Int) * 2 ^ E.bits
      ≤ (redGroup sh (axes.map (normalizeAxis sh.length)) keep idx).length * 2 ^ 16 :=
        mul_le_mul_of_nonneg_left h5 (by positivity)
    _ < 2 ^ 15 * 2 ^ 16 := mul_lt_mul_of_pos_right h6 (by norm_num)
    _ = 2 ^ (32 - 1) := by norm_num

/-! ### What goes wrong -/

/-- The elements of a reduction that returned. -/
def reductionAt {δ : Type} (x : Res (LazyEx (Option δ))) (idx : List Nat) : Option δ :=
  match x with
  | .ok s => s.elem idx
  | _ => none

/-- A row of numbers. -/
def intRow (l : List Int) : Ex Int := .arr (StridedArr.container .row_major [l.length] 0) fun k => l.getD k.toNat 0

theorem intRow_fits (l : List Int) : Fits [l.length] (intRow l) := ⟨container_wf _ _, Nat.le_refl _, fun _ _ => .inr rfl⟩

/-- C94: the type asked for is lost when the axis is given as an integer: `sum<T>(e, axis)` is `sum(e, {axis})`, and
    `prod<T>(e, axis)` is `prod(e, {axis})`, whatever `T`. -/
theorem C94_axis_forgets_type_wrong (T : Option IntKind) (E : IntKind) (e : Ex Int) (sh : List Nat) (axis : Int) (keep : Bool) :
    sumIntsAxis T E e sh axis keep = sumInts none E e sh [axis] keep ∧
      prodIntsAxis T E e sh axis keep = prodInts none E e sh [axis] keep := ⟨rfl, rfl⟩

/-- C94: so the advice to pass `big_promote_value_type_t<E>` does not help there: two `int`s overflow, with `{0}` they do
    not. -/
theorem C94_sum_axis_overflow_wrong :
    reductionAt (sumIntsAxis (some ⟨64, true⟩) ⟨32, true⟩ (intRow [2 ^ 31 - 1, 1]) [2] 0 false) [] = none ∧
      reductionAt (sumInts (some ⟨64, true⟩) ⟨32, true⟩ (intRow [2 ^ 31 - 1, 1]) [2] [0] false) [] = some (2 ^ 31) := by
  decide +kernel

/-- C94: a sum that is in range can be undefined, depending on the order of the elements. -/
theorem C94_sum_order_wrong :
    reductionAt (sumInts none ⟨32, true⟩ (intRow [2 ^ 31 - 1, 1, -1]) [3] [0] false) [] = none ∧
      reductionAt (sumInts none ⟨32, true⟩ (intRow [2 ^ 31 - 1, -1, 1]) [3] [0] false) [] = some (2 ^ 31 - 1) := by
  decide +kernel

/-- C94: an unsigned `T` and negative elements: `sum<unsigned>` of -1 and 0. -/
theorem C94_sum_mixed_wrong :
    reductionAt (sumInts (some ⟨32, false⟩) ⟨32, true⟩ (intRow [-1, 0]) [2] [0] false) [] = some (2 ^ 32 - 1) := by
  decide +kernel

example : Fits [3] (intRow [7, -300, 2]) ∧ GoodAxes 1 ([(0 : Int)].map (normalizeAxis 1)) ∧
    magnitudeSum (intRow [7, -300, 2]) [3] [0] false [] < 2 ^ ((redKind none ⟨16, true⟩).bits - 1) ∧
    reductionAt (sumInts none ⟨16, true⟩ (intRow [7, -300, 2]) [3] [0] false) [] = some (-291) ∧
    reductionAt (prodInts none ⟨16, true⟩ (intRow [7, -300, 2]) [3] [0] false) [] = some (-4200) :=
  ⟨intRow_fits [7, -300, 2], by decide, by decide +kernel, by decide +kernel, by decide +kernel⟩

example : (redKind none ⟨32, false⟩).signed = false ∧
    reductionAt (sumInts none ⟨32, false⟩ (intRow [2 ^ 32 - 1, 5]) [2] [0] false) [] = some 4 := by decide +kernel

/-! ## Means -/

theorem castSum : ∀ l : List Int, ((l.sum : Int) : ℚ) = (l.map fun v : Int => ((v : Int) : ℚ)).sum
  | [] => by simp
  | x :: l => by rw [List.sum_cons, List.map_cons, List.sum_cons, ← castSum l]; push_cast; rfl

/-- C94: the mean of integer elements is the mean of the numbers, as long as their sum cannot leave its type.  Missing: the
    other cases, and means for a type `T` (see `C94_mean_overflow_wrong`, `C94_mean_truncates_wrong`). -/
theorem C94_mean_partial {E : IntKind} (hs : (redKind none E).signed = true ∨ E.signed = false) {e : Ex Int}
    {sh : List Nat} (hf : Fits sh e) {axes : List Int} (hg : GoodAxes sh.length (axes.map (normalizeAxis sh.length)))
    (keep : Bool) (hE : ∀ i, InBounds sh i → E.holds (valueAt e i)) :
    ∃ s, meanInts none E e sh axes keep = .ok s ∧ s.shape = redShape sh (axes.map (normalizeAxis sh.length)) keep ∧
      ∀ idx, InBounds s.shape idx →
        ((redGroup sh (axes.map (normalizeAxis sh.length)) keep idx).length : Int) * 2 ^ E.bits <
          2 ^ ((redKind none E).bits - 1) →
        s.elem idx = some (listMean ((redGroup sh (axes.map (normalizeAxis sh.length)) keep idx).map fun i =>
          ((valueAt e i : Int) : ℚ))) := by
  obtain ⟨s, h1, h2, h3⟩ := C94_sum_exact (T := none) hs hf hg keep hE
  refine ⟨_, by unfold meanInts; rw [h1]; rfl, h2, fun idx hi hb => ?_⟩
  have hi : InBounds s.shape idx := hi
  show (s.elem idx).bind _ = _
  rw [h3 idx hi hb]
  show some _ = some _
  have hlen := length_redGroup (by rw [← h2]; exact hi)
  have hpos := redShape_pos (by rw [← h2]; exact hi)
  rw [s.size_eq, h2, foldl_mul_eq, one_mul, ← hlen, Nat.mul_div_cancel _ hpos]
  unfold listMean integerSum
  rw [castSum, List.map_map, List.length_map]
  rfl

/-- C94: a mean is in range whenever the elements are, but the sum need not be. -/
theorem C94_mean_overflow_wrong :
    reductionAt (meanInts none ⟨32, true⟩ (intRow [2 ^ 31 - 1, 1]) [2] [0] false) [] = none ∧
      reductionAt (meanInts none ⟨32, false⟩ (intRow [2 ^ 32 - 1, 1]) [2] [0] false) [] = some 0 := by decide +kernel

/-- C94: the mean computed with a wider type, as the documentation advises, is rounded towards 0: every expression with elements
    of at most 32 bits. -/
theorem C94_mean_truncates_wrong {E : IntKind} (hb : E.bits ≤ 32) {e : Ex Int} {sh : List Nat} (hf : Fits sh e) {axes : List Int}
    (hg : GoodAxes sh.length (axes.map (normalizeAxis sh.length))) (keep : Bool)
    (hE : ∀ i, InBounds sh i → E.holds (valueAt e i)) (hn : numel sh < 2 ^ 31) (h0 : numel sh ≠ 0) :
    ∃ s, meanInts (some ⟨64, E.signed⟩) E e sh axes keep = .ok s ∧
      s.shape = redShape sh (axes.map (normalizeAxis sh.length)) keep ∧
      ∀ idx, InBounds s.shape idx →
        s.elem idx = some (((integerSum e sh (axes.map (normalizeAxis sh.length)) keep idx).tdiv
          ((redGroup sh (axes.map (normalizeAxis sh.length)) keep idx).length : Int) : Int) : ℚ) := by
  have hp : E.promoted.bits = 32 := by
    have := E.promoted_bits
    unfold IntKind.promoted at this ⊢
    split
    · rfl
    · omega
  have hk : redKind (some ⟨64, E.signed⟩) E = ⟨64, E.signed⟩ := by
    unfold redKind IntKind.usual
    simp only [Option.getD_some, IntKind.promoted_of_ge (show 32 ≤ (⟨64, E.signed⟩ : IntKind).bits from (by decide : 32 ≤ 64)), hp]
    rfl
  obtain ⟨s, h1, h2, h3⟩ := C94_sum_big hb hf hg keep hE hn
  refine ⟨_, by unfold meanInts; rw [h1]; rfl, h2, fun idx hi => ?_⟩
  have hi : InBounds s.shape idx := hi
  show (s.elem idx).bind _ = _
  rw [h3 idx hi]
  have hlen := length_redGroup (by rw [← h2]; exact hi)
  have hpos := redShape_pos (by rw [← h2]; exact hi)
  rw [Option.bind_some]
  rw [s.size_eq, h2, foldl_mul_eq, one_mul, ← hlen, Nat.mul_div_cancel _ hpos, hk]
  obtain ⟨g, hgd⟩ : ∃ g, g = redGroup sh (axes.map (normalizeAxis sh.length)) keep idx := ⟨_, rfl⟩
  rw [← hgd] at hlen ⊢
  have hg0 : 0 < g.length := by
    rcases Nat.eq_zero_or_pos g.length with h | h
    · rw [h] at hlen; omega
    · exact h
  have hgl : g.length ≤ numel sh := by
    rw [hgd, ← length_rowIndices]
    exact List.length_filter_le _ _
  have hmem : ∀ i ∈ g, InBounds sh i := by
    intro i hi
    rw [hgd] at hi
    exact mem_rowIndices.1 (List.mem_filter.1 hi).1
  have habs := sum_abs_le (valueAt e) g fun i hi => abs_of_holds (hE i (hmem i hi))
  have h5 : (2 : Int) ^ E.bits ≤ 2 ^ 32 := pow_mono hb
  have h6 : (g.length : Int) < 2 ^ 31 := by exact_mod_cast lt_of_le_of_lt hgl hn
  have h7 : (g.length : Int) * 2 ^ E.bits < 2 ^ 63 := calc
    (g.length : Int) * 2 ^ E.bits ≤ g.length * 2 ^ 32 := mul_le_mul_of_nonneg_left h5 (by positivity)
    _ < 2 ^ 31 * 2 ^ 32 := mul_lt_mul_of_pos_right h6 (by norm_num)
    _ = 2 ^ 63 := by norm_num
  have hx : |integerSum e sh (axes.map (normalizeAxis sh.length)) keep idx| < 2 ^ 63 := by
    refine lt_of_le_of_lt ?_ (lt_of_le_of_lt habs h7)
    unfold integerSum
    rw [← hgd]
    have : ∀ l : List (List Nat), |(l.map (valueAt e)).sum| ≤ (l.map fun i => |valueAt e i|).sum := by
      intro l
      induction l with
      | nil => simp
      | cons x l ih =>
        rw [List.map_cons, List.map_cons, List.sum_cons, List.sum_cons]
        exact le_trans (abs_add_le _ _) (by linarith)
    exact this g
  have hnn : E.signed = false → 0 ≤ integerSum e sh (axes.map (normalizeAxis sh.length)) keep idx := by
    intro hu
    unfold integerSum
    rw [← hgd]
    refine (sum_nonneg_abs (valueAt e) g fun i hi => ?_).1
    have := hE i (hmem i hi)
    unfold IntKind.holds at this
    rw [if_neg (by simp [hu])] at this
    exact this.1
  obtain ⟨x, hxd⟩ : ∃ x, x = integerSum e sh (axes.map (normalizeAxis sh.length)) keep idx := ⟨_, rfl⟩
  rw [← hxd] at hx hnn ⊢
  have holds64 : ∀ v : Int, |v| < 2 ^ 63 → (E.signed = false → 0 ≤ v) → (⟨64, E.signed⟩ : IntKind).holds v := by
    intro v hv h
    have := abs_lt.1 hv
    unfold IntKind.holds
    cases hsg : E.signed
    · exact ⟨h hsg, by show v < 2 ^ 64; linarith [this.2]⟩
    · exact ⟨by show -(2 ^ 63) ≤ v; linarith [this.1], by show v < 2 ^ 63; exact this.2⟩
  have hgn : (⟨64, E.signed⟩ : IntKind).holds (g.length : Int) := by
    apply holds64
    · rw [abs_of_nonneg (by positivity)]
      linarith
    · intro _; positivity
  have hus : (⟨64, E.signed⟩ : IntKind).usual ⟨64, E.signed⟩ = ⟨64, E.signed⟩ := IntKind.usual_self (by show 32 ≤ 64; omega)
  unfold meanQuotient intDiv
  simp only [hus]
  rw [IntKind.conv_of_holds (by show 0 < 64; omega) hgn, IntKind.conv_of_holds (by show 0 < 64; omega) hgn,
    IntKind.conv_of_holds (by show 0 < 64; omega) (holds64 x hx hnn), if_neg (by omega)]
  have htd : (x.tdiv (g.length : Int)).natAbs ≤ x.natAbs := by rw [Int.natAbs_tdiv]; exact Nat.div_le_self _ _
  rw [IntKind.arith_of_holds (holds64 _ (by
    have h8 : |x.tdiv (g.length : Int)| ≤ |x| := by
      rw [Int.abs_eq_natAbs, Int.abs_eq_natAbs]
      exact_mod_cast htd
    linarith) fun hu => Int.tdiv_nonneg (hnn hu) (by positivity))]
  rfl

/-- C94: `mean<long long>` of 1 and 2 is 1, of no elements it divides by the integer 0. -/
theorem C94_mean_integer_wrong :
    reductionAt (meanInts (some ⟨64, true⟩) ⟨32, true⟩ (intRow [1, 2]) [2] [0] false) [] = some 1 ∧
      reductionAt (meanInts none ⟨32, true⟩ (intRow [1, 2]) [2] [0] false) [] = some (3 / 2) ∧
      reductionAt (meanInts (some ⟨64, true⟩) ⟨32, true⟩ (intRow []) [0] [0] false) [] = none := by decide +kernel

/-! ## Accumulations -/

theorem holds_usual_right {a b : IntKind} (hs : (a.usual b).signed = true) {v : Int} (h : b.holds v) : (a.usual b).holds v := by
  have hp := holds_promoted h
  have hub := a.usual_bits b
  refine holds_wider hp (by omega) ?_
  cases hq : b.promoted.signed
  · right; left
    refine ⟨rfl, ?_⟩
    unfold IntKind.usual at hs ⊢
    simp only at hs ⊢
    split at hs
    · rw [hq] at hs; cases hs
    · rename_i h1
      split at hs
      · rename_i h2
        rw [if_neg h1, if_pos h2]
        exact h2
      · rw [hq, Bool.and_false] at hs; cases hs
  · left
    rw [hs]

/-- One step of an accumulation in the type `R`. -/
abbrev accStep (op : IntOp) (R : IntKind) (p v : Option Int) : Option Int := p.bind fun p => v.bind fun v => intOp op R R p v

theorem foldl_accStep_none (op : IntOp) (R : IntKind) : ∀ l : List (Option Int), l.foldl (accStep op R) none = none
  | [] => rfl
  | _ :: l => foldl_accStep_none op R l

theorem foldl_accStep (op : IntOp) {R : IntKind} (hb : 32 ≤ R.bits) (hs : R.signed = true) :
    ∀ (l : List Int) (p : Int), R.holds p → (∀ v ∈ l, R.holds v) →
      (l.map some).foldl (accStep op R) (some p) =
        if ∀ j ≤ l.length, R.holds ((l.take j).foldl op.exact p) then some (l.foldl op.exact p) else none
  | [], p, hp, _ => by
    rw [if_pos (fun j _ => by simpa using hp)]
    rfl
  | x :: l, p, hp, hl => by
    have hx := hl x (by simp)
    have hstep : accStep op R (some p) (some x) = R.arith (op.exact p x) := by
      show intOp op R R p x = _
      unfold intOp
      simp only [IntKind.usual_self hb, IntKind.conv_of_holds (show 0 < R.bits by omega) hp,
        IntKind.conv_of_holds (show 0 < R.bits by omega) hx]
    rw [List.map_cons, List.foldl_cons, hstep]
    by_cases hr : R.holds (op.exact p x)
    · rw [IntKind.arith_of_holds hr, foldl_accStep op hb hs l _ hr fun v hv => hl v (by simp [hv]), List.foldl_cons]
      congr 1
      apply propext
      constructor
      · intro h j hj
        cases j with
        | zero => simpa using hp
        | succ j => exact h j (by simpa using hj)
      · intro h j hj
        exact h (j + 1) (by simpa using hj)
    · have hn : R.arith (op.exact p x) = none := by
        unfold IntKind.arith
        rw [if_pos hs, if_neg hr]
      rw [hn, foldl_accStep_none, if_neg]
      intro h
      exact hr (h 1 (by simp))

theorem foldl_accStep_unsigned (op : IntOp) {R : IntKind} (hb : 32 ≤ R.bits) (hs : R.signed = false) :
    ∀ (l : List Int) (p : Int), (l.map fun v => some (R.conv v)).foldl (accStep op R) (some (p % 2 ^ R.bits)) =
        some (l.foldl op.exact p % 2 ^ R.bits)
  | [], p => rfl
  | x :: l, p => by
    rw [List.map_cons, List.foldl_cons, List.foldl_cons, ← foldl_accStep_unsigned op hb hs l]
    congr 1
    show intOp op R R _ _ = _
    rw [intOp_unsigned hs (IntKind.usual_self hb)]
    congr 1
    apply emod_eq_of_dvd_sub
    exact opExact_dvd op (by simp) (R.conv_dvd x)

theorem take_range'_one {j n : Nat} (h : j ≤ n) : (List.range' 1 n).take j = List.range' 1 j := by
  obtain ⟨m, rfl⟩ : ∃ m, n = j + m := ⟨n - j, by omega⟩
  rw [← List.range'_append_1, List.take_left' (by simp)]

theorem accValue_prefix (f : Int → Int → Int) (val : List Nat → Int) {axis : Nat} {idx : List Nat} (ha : axis < idx.length) {j : Nat}
    (hj : j ≤ idx.getD axis 0) :
    accValue f id val axis (idx.set axis j) =
      ((((List.range' 1 (idx.getD axis 0)).map fun k => val (idx.set axis k))).take j).foldl f (val (idx.set axis 0)) := by
  unfold accValue
  rw [getD_set_self ha, ← List.map_take, take_range'_one hj]
  simp only [List.set_set, id]

/-- C94: `cumsum<T>(e, axis)` and `cumprod<T>(e, axis)` in a signed type give the exact running sum or product at an index if
    all those before it on the axis are in range, and are undefined otherwise. -/
theorem C94_cumulative_signed {op : IntOp} {T : Option IntKind} {E : IntKind} (hs : (redKind T E).signed = true) {L : Layout}
    (hL : L = .row_major ∨ L = .column_major) {sh : List Nat} (hn : numel sh < 2 ^ 64)
    {val : List Nat → Int} (hE : ∀ i, InBounds sh i → E.holds (val i)) {axis : Nat} (ha : axis < sh.length) :
    cumInts op T E L sh ((orderIndices L sh).map val) axis = .ok ((orderIndices L sh).map fun idx =>
      if ∀ j ≤ idx.getD axis 0, (redKind T E).holds (accValue op.exact id val axis (idx.set axis j))
      then some (accValue op.exact id val axis idx) else none) := by
  unfold cumInts accumulate
  simp only
  rw [show normalizeAxis sh.length (axis : Int) = axis by unfold normalizeAxis; rw [if_neg (by omega)]; rfl]
  rw [List.map_map]
  rw [C32_accumulate_axis hL _ hn _ ha]
  congr 1
  apply List.map_congr_left
  intro idx hidx
  have hib := mem_orderIndices.1 hidx
  have hlen : axis < idx.length := by rw [hib.length_eq]; exact ha
  have hhold : ∀ k, k ≤ idx.getD axis 0 → (redKind T E).holds (val (idx.set axis k)) := by
    intro k hk
    refine holds_usual_right hs (hE _ (inBounds_set hib ?_))
    have := hib.getD_lt ha
    omega
  have hl : ((List.range' 1 (idx.getD axis 0)).map fun k => (((fun v => some ((redKind T E).conv v)) ∘ val) (idx.set axis k))) =
      ((List.range' 1 (idx.getD axis 0)).map fun k => val (idx.set axis k)).map some := by
    rw [List.map_map]
    apply List.map_congr_left
    intro k hk
    rw [List.mem_range'_1] at hk
    show some _ = some _
    rw [IntKind.conv_of_holds (by have := redKind_ge T E; omega) (hhold k (by omega))]
  conv_lhs => unfold accValue
  rw [hl]
  show List.foldl (accStep op (redKind T E)) (some ((redKind T E).conv _)) _ = _
  rw [IntKind.conv_of_holds (by have := redKind_ge T E; omega) (hhold 0 (by omega)),
    foldl_accStep op (redKind_ge T E) hs _ _ (hhold 0 (by omega)) ?_]
  · rw [List.length_map, List.length_range']
    have hx : accValue op.exact id val axis idx = List.foldl op.exact (val (idx.set axis 0))
        ((List.range' 1 (idx.getD axis 0)).map fun k => val (idx.set axis k)) := rfl
    rw [← hx]
    congr 1
    apply propext
    constructor
    · intro h j hj
      rw [accValue_prefix _ _ hlen hj]
      exact h j hj
    · intro h j hj
      rw [← accValue_prefix _ _ hlen hj]
      exact h j hj
  · intro v hv
    obtain ⟨k, hk, rfl⟩ := List.mem_map.1 hv
    rw [List.mem_range'_1] at hk
    exact hhold k (by omega)

/-- C94: in an unsigned type they are the running sums and products modulo 2^bits. -/
theorem C94_cumulative_unsigned {op : IntOp} {T : Option IntKind} {E : IntKind} (hs : (redKind T E).signed = false) {L : Layout}
    (hL : L = .row_major ∨ L = .column_major) {sh : List Nat} (hn : numel sh < 2 ^ 64) (val : List Nat → Int) {axis : Nat}
    (ha : axis < sh.length) :
    cumInts op T E L sh ((orderIndices L sh).map val) axis = .ok ((orderIndices L sh).map fun idx =>
      some (accValue op.exact id val axis idx % 2 ^ (redKind T E).bits)) := by
  unfold cumInts accumulate
  simp only
  rw [show normalizeAxis sh.length (axis : Int) = axis by unfold normalizeAxis; rw [if_neg (by omega)]; rfl]
  rw [List.map_map]
  rw [C32_accumulate_axis hL _ hn _ ha]
  congr 1
  apply List.map_congr_left
  intro idx hidx
  have := foldl_accStep_unsigned op (redKind_ge T E) hs ((List.range' 1 (idx.getD axis 0)).map fun k => val (idx.set axis k))
    (val (idx.set axis 0))
  rw [List.map_map] at this
  rw [show accValue op.exact id val axis idx = List.foldl op.exact (val (idx.set axis 0))
        ((List.range' 1 (idx.getD axis 0)).map fun k => val (idx.set axis k)) from rfl, ← this]
  unfold accValue
  have hc : (redKind T E).conv (val (idx.set axis 0)) = val (idx.set axis 0) % 2 ^ (redKind T E).bits := by
    unfold IntKind.conv
    rw [if_neg (by simp [hs])]
  show List.foldl (accStep op (redKind T E)) (some ((redKind T E).conv _)) _ = _
  rw [hc]
  rfl

/-- C94: the flat forms, in a signed type. -/
theorem C94_cumulative_flat {op : IntOp} {T : Option IntKind} {E : IntKind} (hs : (redKind T E).signed = true) {vals : List Int}
    (hE : ∀ v ∈ vals, E.holds v) :
    cumIntsFlat op T E vals = (List.range vals.length).map fun k =>
      if ∀ j ≤ k, (redKind T E).holds ((vals.tail.take j).foldl op.exact (vals.headD 0))
      then some ((vals.tail.take k).foldl op.exact (vals.headD 0)) else none := by
  have hh : ∀ v ∈ vals, (redKind T E).holds v := fun v hv => holds_usual_right hs (hE v hv)
  have hc : (vals.map fun v => some ((redKind T E).conv v)) = vals.map some := by
    apply List.map_congr_left
    intro v hv
    rw [IntKind.conv_of_holds (by have := redKind_ge T E; omega) (hh v hv)]
  unfold cumIntsFlat
  simp only [hc]
  cases vals with
  | nil => rfl
  | cons v vs =>
    rw [List.map_cons]
    unfold accumulateFlat
    simp only
    rw [accFlatLoop_eq, List.length_map, List.length_cons, List.range_succ_eq_map, List.map_cons, List.map_map]
    congr 1
    · rw [if_pos]
      · rfl
      · intro j hj
        rw [Nat.le_zero.1 hj]
        exact hh v (by simp)
    · apply List.map_congr_left
      intro k hk
      have hk : k < vs.length := List.mem_range.1 hk
      show List.foldl (accStep op (redKind T E)) (some v) ((vs.map some).take (k + 1)) = _
      rw [← List.map_take, foldl_accStep op (redKind_ge T E) hs _ v (hh v (by simp))
        fun w hw => hh w (by simp [List.mem_of_mem_take hw])]
      show _ = if ∀ j ≤ k + 1, (redKind T E).holds (List.foldl op.exact v (vs.take j))
        then some (List.foldl op.exact v (vs.take (k + 1))) else none
      have hlen : (vs.take (k + 1)).length = k + 1 := by rw [List.length_take]; omega
      rw [hlen]
      congr 1
      apply propext
      constructor
      · intro h j hj
        have := h j hj
        rwa [List.take_take, Nat.min_eq_left hj] at this
      · intro h j hj
        rw [List.take_take, Nat.min_eq_left hj]
        exact h j hj

example : cumInts .add none ⟨32, true⟩ .row_major [2, 2] [2 ^ 31 - 1, 5, 1, -7] 0 =
      .ok [some (2 ^ 31 - 1), some 5, none, some (-2)] ∧
    cumInts .add (some ⟨64, true⟩) ⟨32, true⟩ .row_major [2, 2] [2 ^ 31 - 1, 5, 1, -7] 0 =
      .ok [some (2 ^ 31 - 1), some 5, some (2 ^ 31), some (-2)] ∧
    cumIntsFlat .mul none ⟨32, false⟩ [2 ^ 31, 2, 3] = [some (2 ^ 31), some 0, some 0] ∧
    cumIntsFlat .mul none ⟨16, true⟩ [300, -200, 3] = [some 300, some (-60000), some (-180000)] := by decide +kernel

end Xt
