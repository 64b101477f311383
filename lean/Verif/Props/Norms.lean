import Verif.Model.Norms
import Verif.Spec.NormsReal
import Verif.Props.Numeric
import Mathlib.Analysis.MeanInequalities
/-!
# C72: norms of arrays
-/

namespace Xt
open Spec

variable {α β γ : Type}

/-! ### Accumulators -/

theorem normSumLaws [AddCommMonoid β] (f : α → Option β) : ReducerLaws (normSumFns f) := by
  constructor
  · intro x y v
    show normBoth (· + ·) x (normBoth (· + ·) y (f v)) = normBoth (· + ·) (normBoth (· + ·) x y) (f v)
    cases x <;> cases y <;> cases f v <;> simp [normBoth, add_assoc]
  · intro x
    show normBoth (· + ·) x (some 0) = x
    cases x <;> simp [normBoth]

theorem normSumComm [AddCommMonoid β] (f : α → Option β) : ReducerComm (normSumFns f) := by
  constructor
  · intro x a b
    show normBoth (· + ·) (normBoth (· + ·) x (f a)) (f b) = normBoth (· + ·) (normBoth (· + ·) x (f b)) (f a)
    cases x <;> cases f a <;> cases f b <;> simp [normBoth, add_right_comm]
  · intro x y
    show normBoth (· + ·) x y = normBoth (· + ·) y x
    cases x <;> cases y <;> simp [normBoth, add_comm]

theorem normMaxLaws [LinearOrder β] [Zero β] (h0 : ∀ x : β, 0 ≤ x) (f : α → Option β) : ReducerLaws (normMaxFns f) := by
  constructor
  · intro x y v
    show normBoth max x (normBoth max y (f v)) = normBoth max (normBoth max x y) (f v)
    cases x <;> cases y <;> cases f v <;> simp [normBoth, max_assoc]
  · intro x
    show normBoth max x (some 0) = x
    cases x <;> simp [normBoth, h0]

theorem normMaxComm [LinearOrder β] [Zero β] (f : α → Option β) : ReducerComm (normMaxFns f) := by
  constructor
  · intro x a b
    show normBoth max (normBoth max x (f a)) (f b) = normBoth max (normBoth max x (f b)) (f a)
    cases x <;> cases f a <;> cases f b <;> simp [normBoth, max_right_comm]
  · intro x y
    show normBoth max x y = normBoth max y x
    cases x <;> cases y <;> simp [normBoth, max_comm]

theorem foldl_normBoth_none (op : β → β → β) (f : α → Option β) : ∀ l : List α,
    l.foldl (fun r v => normBoth op r (f v)) none = none
  | [] => rfl
  | x :: l => by
    show l.foldl _ (normBoth op none (f x)) = none
    exact foldl_normBoth_none op f l

theorem foldl_normBoth_undefined (op : β → β → β) (f : α → Option β) : ∀ (l : List α) (a : Option β),
    (∃ x ∈ l, f x = none) → l.foldl (fun r v => normBoth op r (f v)) a = none
  | [], _, h => by simp at h
  | x :: l, a, h => by
    show l.foldl _ (normBoth op a (f x)) = none
    by_cases hx : f x = none
    · rw [hx]
      have : normBoth op a none = none := by cases a <;> rfl
      rw [this]; exact foldl_normBoth_none op f l
    · obtain ⟨y, hy, hn⟩ := h
      rcases List.mem_cons.1 hy with rfl | hy
      · exact absurd hn hx
      · exact foldl_normBoth_undefined op f l _ ⟨y, hy, hn⟩

theorem foldl_normSum [AddCommMonoid β] {f : α → Option β} {g : α → β} : ∀ (l : List α) (a : β),
    (∀ x ∈ l, f x = some (g x)) → l.foldl (fun r v => normBoth (· + ·) r (f v)) (some a) = some (a + (l.map g).sum)
  | [], a, _ => by simp
  | x :: l, a, h => by
    show l.foldl _ (normBoth (· + ·) (some a) (f x)) = _
    rw [h x (by simp)]
    show l.foldl _ (some (a + g x)) = _
    rw [foldl_normSum l _ (fun y hy => h y (by simp [hy]))]
    simp [add_assoc]

theorem foldl_normMax [LinearOrder β] {f : α → Option β} {g : α → β} : ∀ (l : List α) (a : β),
    (∀ x ∈ l, f x = some (g x)) → l.foldl (fun r v => normBoth max r (f v)) (some a) = some ((l.map g).foldl max a)
  | [], a, _ => rfl
  | x :: l, a, h => by
    show l.foldl _ (normBoth max (some a) (f x)) = _
    rw [h x (by simp)]
    exact foldl_normMax l _ (fun y hy => h y (by simp [hy]))

theorem foldl_max_spec [LinearOrder β] : ∀ (l : List β) (a : β),
    (l.foldl max a = a ∨ l.foldl max a ∈ l) ∧ a ≤ l.foldl max a ∧ ∀ x ∈ l, x ≤ l.foldl max a
  | [], a => ⟨.inl rfl, le_refl _, by simp⟩
  | y :: l, a => by
    obtain ⟨h1, h2, h3⟩ := foldl_max_spec l (max a y)
    rw [List.foldl_cons]
    refine ⟨?_, le_trans (le_max_left _ _) h2, ?_⟩
    · rcases h1 with h | h
      · rcases max_choice a y with h' | h'
        · left; rw [h, h']
        · right; rw [h, h']; simp
      · right; simp [h]
    · intro x hx
      rcases List.mem_cons.1 hx with rfl | hx
      · exact le_trans (le_max_right _ _) h2
      · exact h3 x hx

/-! ### Reductions inside `noexcept` functions -/

theorem normAxes_ok {F : RedFns α β} (hlaw : ReducerLaws F) {e : Ex α} {sh : List Nat} (hf : Fits sh e) {axes : List Int}
    (hg : GoodAxes sh.length (axes.map (normalizeAxis sh.length))) (keep : Bool) :
    ∃ s, normAxes F e sh axes keep = .returns s ∧ s.shape = redShape sh (axes.map (normalizeAxis sh.length)) keep ∧
      ∀ r, InBounds s.shape r → s.elem r =
        ((redGroup sh (axes.map (normalizeAxis sh.length)) keep r).map (valueAt e)).foldl F.reduce F.init := by
  obtain ⟨s, hs, hsh, hel⟩ := lazyReduce_ok hlaw F.init hf hg keep
  exact ⟨s, by rw [normAxes, hs]; rfl, hsh, hel⟩

theorem normSum_ok [AddCommMonoid β] {f : α → Option β} {g : α → β} (h : ∀ x, f x = some (g x)) {e : Ex α} {sh : List Nat}
    (hf : Fits sh e) {axes : List Int} (hg : GoodAxes sh.length (axes.map (normalizeAxis sh.length))) (keep : Bool) :
    ∃ s, normAxes (normSumFns f) e sh axes keep = .returns s ∧
      s.shape = redShape sh (axes.map (normalizeAxis sh.length)) keep ∧
      ∀ r, InBounds s.shape r → s.elem r =
        some (((redGroup sh (axes.map (normalizeAxis sh.length)) keep r).map fun i => g (valueAt e i)).sum) := by
  obtain ⟨s, hs, hsh, hel⟩ := normAxes_ok (normSumLaws f) hf hg keep
  refine ⟨s, hs, hsh, fun r hr => ?_⟩
  rw [hel r hr]
  show List.foldl (fun r v => normBoth (· + ·) r (f v)) (some 0) _ = _
  rw [foldl_normSum (g := g) _ _ (fun x _ => h x), zero_add, List.map_map]
  rfl

theorem normMax_ok [LinearOrder β] [Zero β] (h0 : ∀ x : β, 0 ≤ x) {f : α → Option β} {g : α → β} (h : ∀ x, f x = some (g x))
    {e : Ex α} {sh : List Nat} (hf : Fits sh e) {axes : List Int}
    (hg : GoodAxes sh.length (axes.map (normalizeAxis sh.length))) (keep : Bool) :
    ∃ s, normAxes (normMaxFns f) e sh axes keep = .returns s ∧
      s.shape = redShape sh (axes.map (normalizeAxis sh.length)) keep ∧
      ∀ r, InBounds s.shape r → s.elem r =
        some (((redGroup sh (axes.map (normalizeAxis sh.length)) keep r).map fun i => g (valueAt e i)).foldl max 0) := by
  obtain ⟨s, hs, hsh, hel⟩ := normAxes_ok (normMaxLaws h0 f) hf hg keep
  refine ⟨s, hs, hsh, fun r hr => ?_⟩
  rw [hel r hr]
  show List.foldl (fun r v => normBoth max r (f v)) (some 0) _ = _
  rw [foldl_normMax (g := g) _ _ (fun x _ => h x), List.map_map]
  rfl

theorem sum_indicator (l : List ℝ) :
    (l.map fun x => (if x ≠ 0 then 1 else 0 : Int)).sum = nonZeros l := by
  unfold nonZeros
  induction l with
  | nil => rfl
  | cons x l ih =>
    rw [List.map_cons, List.sum_cons, ih, List.filter_cons]
    by_cases h : x ≠ 0
    · simp only [if_pos h, decide_eq_true h, if_true, List.length_cons]
      push_cast; ring
    · simp only [if_neg h, decide_eq_false h, zero_add]
      rfl

theorem isMaxAbs_foldl (l : List ℝ) : IsMaxAbs ((l.map Real.nnabs).foldl max 0 : NNReal) l := by
  obtain ⟨h1, h2, h3⟩ := foldl_max_spec (l.map Real.nnabs) 0
  refine ⟨NNReal.coe_nonneg _, ?_, ?_, ?_⟩
  · intro x hx
    have := h3 _ (List.mem_map.2 ⟨x, hx, rfl⟩)
    have := NNReal.coe_le_coe.2 this
    rwa [Real.coe_nnabs] at this
  · intro hl
    rcases h1 with h | h
    · obtain ⟨x, hx⟩ := List.exists_mem_of_ne_nil l hl
      refine ⟨x, hx, ?_⟩
      have := h3 _ (List.mem_map.2 ⟨x, hx, rfl⟩)
      rw [h] at this ⊢
      rw [← Real.coe_nnabs, le_antisymm this zero_le]
    · obtain ⟨x, hx, he⟩ := List.mem_map.1 h
      exact ⟨x, hx, by rw [← Real.coe_nnabs, he]⟩
  · rintro rfl; rfl

/-! ### Norms over axes -/

/-- Norms of arrays of floating-point numbers over a set of axes, given as a sequence whose negative entries count from the
end: at every place of the result stands the number of non-zero elements, the sum of the absolute values, the sum of the
squares, its square root, the largest absolute value of the elements that differ from it only along those axes. -/
theorem C72_norms {e : Ex ℝ} {sh : List Nat} (hf : Fits sh e) {axes : List Int}
    (hg : GoodAxes sh.length (axes.map (normalizeAxis sh.length))) (keep : Bool) :
    ∃ l0 l1 sq l2 li, normAxes (normSumFns realL0) e sh axes keep = .returns l0 ∧
      normAxes (normSumFns realAbs) e sh axes keep = .returns l1 ∧
      normAxes (normSumFns realSq) e sh axes keep = .returns sq ∧
      normL2 realSq e sh axes keep = .returns l2 ∧
      normAxes (normMaxFns realLinf) e sh axes keep = .returns li ∧
      (let out := redShape sh (axes.map (normalizeAxis sh.length)) keep
       l0.shape = out ∧ l1.shape = out ∧ sq.shape = out ∧ l2.shape = out ∧ li.shape = out ∧
        ∀ r, InBounds out r →
          let l := (redGroup sh (axes.map (normalizeAxis sh.length)) keep r).map (valueAt e)
          l0.elem r = some (nonZeros l) ∧ l1.elem r = some (absTotal l) ∧ sq.elem r = some (squareTotal l) ∧
          l2.elem r = some (Real.sqrt (squareTotal l)) ∧ ∃ v, li.elem r = some v ∧ IsMaxAbs v l) := by
  obtain ⟨l0, h0, s0, e0⟩ := normSum_ok (f := realL0) (fun _ => rfl) hf hg keep
  obtain ⟨l1, h1, s1, e1⟩ := normSum_ok (f := realAbs) (fun _ => rfl) hf hg keep
  obtain ⟨sq, h2, s2, e2⟩ := normSum_ok (f := realSq) (fun _ => rfl) hf hg keep
  obtain ⟨li, h4, s4, e4⟩ := normMax_ok (f := realLinf) (fun _ => zero_le) (fun _ => rfl) hf hg keep
  refine ⟨l0, l1, sq, mapElems Real.sqrt sq, li, h0, h1, h2, by rw [normL2, h2]; rfl, h4, s0, s1, s2, s2, s4, ?_⟩
  intro r hr l
  have q : sq.elem r = some (squareTotal l) := by
    rw [e2 r (by rw [s2]; exact hr)]
    simp only [l, squareTotal, List.map_map, Function.comp_def, pow_two]
  refine ⟨?_, ?_, q, ?_, ?_⟩
  · rw [e0 r (by rw [s0]; exact hr), ← sum_indicator, List.map_map]; rfl
  · rw [e1 r (by rw [s1]; exact hr)]
    simp only [l, absTotal, List.map_map, Function.comp_def]
  · show (sq.elem r).map Real.sqrt = _
    rw [q]; rfl
  · refine ⟨_, e4 r (by rw [s4]; exact hr), ?_⟩
    have := isMaxAbs_foldl l
    simpa only [l, List.map_map, Function.comp_def] using this


theorem redGroup_nodup (sh axes : List Nat) (keep : Bool) (r : List Nat) : (redGroup sh axes keep r).Nodup :=
  (rowIndices_nodup sh).filter _

/-- The `p`-norms over a set of axes; for `p = 0` the sums count the non-zero elements, and `norm_lp` refuses it. -/
theorem C72_lp {e : Ex ℝ} {sh : List Nat} (hf : Fits sh e) {axes : List Int}
    (hg : GoodAxes sh.length (axes.map (normalizeAxis sh.length))) (keep : Bool) {p : ℝ} (hp : 0 ≤ p) :
    ∃ s, normAxes (normSumFns (realLpToP p)) e sh axes keep = .returns s ∧
      s.shape = redShape sh (axes.map (normalizeAxis sh.length)) keep ∧
      (p = 0 → normLp realLpToP e sh p axes keep = .throws ∧ ∀ r, InBounds s.shape r → s.elem r =
        some (nonZeros ((redGroup sh (axes.map (normalizeAxis sh.length)) keep r).map (valueAt e)) : ℝ)) ∧
      (0 < p → ∃ t, normLp realLpToP e sh p axes keep = .returns t ∧ t.shape = s.shape ∧ ∀ r, InBounds s.shape r →
        s.elem r = some (((redGroup sh (axes.map (normalizeAxis sh.length)) keep r).map fun i => |valueAt e i| ^ p).sum) ∧
        t.elem r = some (pNorm p ((redGroup sh (axes.map (normalizeAxis sh.length)) keep r).map (valueAt e)))) := by
  obtain ⟨s, h, hs, he⟩ := normSum_ok (f := realLpToP p) (fun _ => rfl) hf hg keep
  refine ⟨s, h, hs, ?_, ?_⟩
  · intro h0
    refine ⟨by rw [normLp, if_pos h0], fun r hr => ?_⟩
    rw [he r hr, ← sum_indicator, List.map_map, Int.cast_list_sum, List.map_map]
    congr 2
    apply List.map_congr_left
    intro i _
    show (if p = 0 then (if valueAt e i ≠ 0 then (1 : ℝ) else 0) else _) = (((if valueAt e i ≠ 0 then 1 else 0 : Int)) : ℝ)
    rw [if_pos h0]
    split <;> simp
  · intro h0
    refine ⟨mapElems (fun x => x ^ (1 / p)) s, by rw [normLp, if_neg (ne_of_gt h0), h]; rfl, rfl, fun r hr => ?_⟩
    have key : s.elem r = some (((redGroup sh (axes.map (normalizeAxis sh.length)) keep r).map
        fun i => |valueAt e i| ^ p).sum) := by
      rw [he r hr]
      simp only [if_neg (ne_of_gt h0)]
    refine ⟨key, ?_⟩
    show (s.elem r).map (fun x => x ^ (1 / p)) = _
    rw [key, pNorm, List.map_map]
    rfl

/-! ### What a norm is for -/

/-- Sum of two expressions, and a multiple of one. -/
def plusEx (a b : Ex ℝ) : Ex ℝ := .fn List.sum (.cons a (.cons b .nil))

/-- `c * a`. -/
noncomputable def timesEx (c : ℝ) (a : Ex ℝ) : Ex ℝ := .fn List.prod (.cons (.scalar c) (.cons a .nil))

theorem valueAt_plusEx (a b : Ex ℝ) (i : List Nat) : valueAt (plusEx a b) i = valueAt a i + valueAt b i := by
  simp [plusEx, valueAt, valuesAt]

theorem valueAt_timesEx (c : ℝ) (a : Ex ℝ) (i : List Nat) : valueAt (timesEx c a) i = c * valueAt a i := by
  simp [timesEx, valueAt, valuesAt]

theorem pNorm_eq_finset {p : ℝ} {l : List (List Nat)} (hl : l.Nodup) (v : List Nat → ℝ) :
    pNorm p (l.map v) = (∑ i ∈ l.toFinset, |v i| ^ p) ^ (1 / p) := by
  rw [pNorm, List.map_map, List.sum_toFinset _ hl]
  rfl

theorem pNorm_nonneg (p : ℝ) (l : List ℝ) : 0 ≤ pNorm p l := by
  apply Real.rpow_nonneg
  apply List.sum_nonneg
  intro x hx
  obtain ⟨y, _, rfl⟩ := List.mem_map.1 hx
  exact Real.rpow_nonneg (abs_nonneg _) _

/-- For `p ≥ 1` the results of `norm_lp` have the properties of a norm: of a sum at most the sum of the norms, of a multiple
the multiple of the norm, and 0 only if all elements are. -/
theorem C72_lp_is_norm {a b : Ex ℝ} {sh : List Nat} (ha : Fits sh a) (hb : Fits sh b) {axes : List Int}
    (hg : GoodAxes sh.length (axes.map (normalizeAxis sh.length))) (keep : Bool) {p : ℝ} (hp : 1 ≤ p) (c : ℝ) :
    ∃ na nb ns nm, normLp realLpToP a sh p axes keep = .returns na ∧ normLp realLpToP b sh p axes keep = .returns nb ∧
      normLp realLpToP (plusEx a b) sh p axes keep = .returns ns ∧
      normLp realLpToP (timesEx c a) sh p axes keep = .returns nm ∧
      ∀ r, InBounds (redShape sh (axes.map (normalizeAxis sh.length)) keep) r →
        ∃ x y s m, na.elem r = some x ∧ nb.elem r = some y ∧ ns.elem r = some s ∧ nm.elem r = some m ∧
          s ≤ x + y ∧ m = |c| * x ∧ 0 ≤ x ∧
          (x = 0 ↔ ∀ i ∈ redGroup sh (axes.map (normalizeAxis sh.length)) keep r, valueAt a i = 0) := by
  have h0 : 0 < p := by linarith
  obtain ⟨_, _, hsa, _, ka⟩ := C72_lp ha hg keep (le_of_lt h0)
  obtain ⟨_, _, hsb, _, kb⟩ := C72_lp hb hg keep (le_of_lt h0)
  obtain ⟨_, _, hss, _, ks⟩ := C72_lp (e := plusEx a b) (show Fits sh (plusEx a b) from ⟨ha, hb, trivial⟩) hg keep (le_of_lt h0)
  obtain ⟨_, _, hsm, _, km⟩ := C72_lp (e := timesEx c a) (show Fits sh (timesEx c a) from ⟨trivial, ha, trivial⟩) hg keep
    (le_of_lt h0)
  obtain ⟨na, ea, _, va⟩ := ka h0
  obtain ⟨nb, eb, _, vb⟩ := kb h0
  obtain ⟨ns, es, _, vs⟩ := ks h0
  obtain ⟨nm, em, _, vm⟩ := km h0
  refine ⟨na, nb, ns, nm, ea, eb, es, em, fun r hr => ?_⟩
  have hn := redGroup_nodup sh (axes.map (normalizeAxis sh.length)) keep r
  refine ⟨_, _, _, _, (va r (by rw [hsa]; exact hr)).2, (vb r (by rw [hsb]; exact hr)).2, (vs r (by rw [hss]; exact hr)).2,
    (vm r (by rw [hsm]; exact hr)).2, ?_, ?_, pNorm_nonneg _ _, ?_⟩
  · rw [pNorm_eq_finset hn, pNorm_eq_finset hn, pNorm_eq_finset hn]
    simp only [valueAt_plusEx]
    exact Real.Lp_add_le _ _ _ hp
  · rw [pNorm_eq_finset hn, pNorm_eq_finset hn]
    simp only [valueAt_timesEx, abs_mul]
    simp only [Real.mul_rpow (abs_nonneg c) (abs_nonneg _)]
    rw [← Finset.mul_sum, Real.mul_rpow (Real.rpow_nonneg (abs_nonneg c) _)
      (Finset.sum_nonneg fun i _ => Real.rpow_nonneg (abs_nonneg _) _), ← Real.rpow_mul (abs_nonneg c),
      mul_one_div_cancel (ne_of_gt h0), Real.rpow_one]
  · rw [pNorm_eq_finset hn, Real.rpow_eq_zero (Finset.sum_nonneg fun i _ => Real.rpow_nonneg (abs_nonneg _) _)
      (by positivity), Finset.sum_eq_zero_iff_of_nonneg fun i _ => Real.rpow_nonneg (abs_nonneg _) _]
    constructor
    · intro h i hi
      have := h i (List.mem_toFinset.2 hi)
      rwa [Real.rpow_eq_zero (abs_nonneg _) (ne_of_gt h0), abs_eq_zero] at this
    · intro h i hi
      rw [h i (List.mem_toFinset.1 hi), abs_zero, Real.zero_rpow (ne_of_gt h0)]

/-- Norms of the whole array. -/
theorem C72_norms_all {e : Ex ℝ} {sh : List Nat} (hf : Fits sh e) (keep : Bool) :
    ∃ l0 l1 sq li, normAll (normSumFns realL0) e sh keep = .returns l0 ∧
      normAll (normSumFns realAbs) e sh keep = .returns l1 ∧ normAll (normSumFns realSq) e sh keep = .returns sq ∧
      normAll (normMaxFns realLinf) e sh keep = .returns li ∧
      (let out := if keep then List.replicate sh.length 1 else []
       l0.shape = out ∧ l1.shape = out ∧ sq.shape = out ∧ li.shape = out ∧
        ∀ r, InBounds out r →
          let l := (rowIndices sh).map (valueAt e)
          l0.elem r = some (nonZeros l) ∧ l1.elem r = some (absTotal l) ∧ sq.elem r = some (squareTotal l) ∧
          ∃ v, li.elem r = some v ∧ IsMaxAbs v l) := by
  have hax := normalize_allAxes sh sh.length
  obtain ⟨l0, l1, sq, l2, li, h0, h1, h2, _, h4, h⟩ := C72_norms hf (axes := allAxes sh)
    (by rw [hax]; exact goodAxes_range _) keep
  rw [hax, ← redShape_all] at *
  simp only at h
  obtain ⟨s0, s1, s2, _, s4, hv⟩ := h
  refine ⟨l0, l1, sq, li, h0, h1, h2, h4, s0, s1, s2, s4, fun r hr => ?_⟩
  obtain ⟨a, b, c, _, d⟩ := hv r hr
  rw [redGroup_all hr] at a b c d
  exact ⟨a, b, c, d⟩

/-! ### Axes that do not fit -/

/-- Braced axes that exist work as a sequence does. -/
theorem C72_braced (F : RedFns α β) (e : Ex α) (sh : List Nat) (axes : List Int) (keep : Bool)
    (h : ∀ a ∈ axes, 0 ≤ a ∧ a < 2 ^ 64) : normBraced F e sh axes keep = normAxes F e sh axes keep := by
  unfold normBraced unsignedAxes
  have : axes.map (fun a => a % 2 ^ 64) = axes.map id :=
    List.map_congr_left fun a ha => Int.emod_eq_of_lt (h a ha).1 (h a ha).2
  rw [this, List.map_id]

/-- The full property would be an exception for every bad set of axes: the norm functions are declared `noexcept`, so the
exception ends the program instead.  (Without kept axes; for those see `C30_keep_dims_zero_dim_accepts_axis`.) -/
theorem C72_bad_axes_terminate (F : RedFns α β) (e : Ex α) (sh : List Nat) (axes : List Int) (keep : Bool)
    (hk : sh ≠ [] ∨ keep = false) (h : ¬ GoodAxes sh.length (axes.map (normalizeAxis sh.length))) :
    normAxes F e sh axes keep = .terminates := by
  unfold normAxes lazyReduce
  rw [C30_bad_axes_throw_partial _ hk, if_neg h]
  rfl

/-- A negative braced axis, which every other reducer counts from the end, ends the program. -/
theorem C72_braced_negative_terminates (F : RedFns α β) (e : Ex α) (sh : List Nat) (axes : List Int) (keep : Bool)
    (hk : sh ≠ [] ∨ keep = false) (hd : sh.length ≤ 2 ^ 63) (h : ∃ a ∈ axes, -2 ^ 63 ≤ a ∧ a < 0) :
    normBraced F e sh axes keep = .terminates := by
  apply C72_bad_axes_terminate _ _ _ _ _ hk
  rintro ⟨_, hlt⟩
  obtain ⟨a, ha, h1, h2⟩ := h
  have := hlt (normalizeAxis sh.length (a % 2 ^ 64)) (List.mem_map.2 ⟨_, List.mem_map.2 ⟨a, ha, rfl⟩, rfl⟩)
  unfold normalizeAxis at this
  have e1 : a % 2 ^ 64 = a + 2 ^ 64 := by omega
  rw [e1, if_neg (by omega)] at this
  omega

/-! ### Induced norms -/

theorem list_range_sum_real (n : Nat) (g : Nat → ℝ) : ((List.range n).map g).sum = ∑ k ∈ Finset.range n, g k := by
  induction n with
  | zero => rfl
  | succ n ih => rw [List.range_succ, List.map_append, List.sum_append, ih, Finset.sum_range_succ]; simp

theorem flatMap_one (f : α → β) : ∀ l : List α, (l.flatMap fun a => [f a]) = l.map f
  | [] => rfl
  | a :: l => by rw [List.flatMap_cons, flatMap_one f l]; rfl

theorem redGroup_column {m n j : Nat} (keep : Bool) (hj : j < n) :
    redGroup [m, n] [0] keep (if keep then [0, j] else [j]) = (List.range m).map fun i => [i, j] := by
  rcases Nat.eq_zero_or_pos m with rfl | hm
  · rfl
  · have := redGroup_one (sh := [m, n]) (idx := [0, j]) (a := 0) keep ⟨hm, hj, trivial⟩ (by simp)
    cases keep <;> exact this

theorem redGroup_row {m n i : Nat} (keep : Bool) (hi : i < m) :
    redGroup [m, n] [1] keep (if keep then [i, 0] else [i]) = (List.range n).map fun j => [i, j] := by
  rcases Nat.eq_zero_or_pos n with rfl | hn
  · have : rowIndices [m, 0] = [] := by simp [rowIndices]
    simp [redGroup, this]
  · have := redGroup_one (sh := [m, n]) (idx := [i, 0]) (a := 1) keep ⟨hi, hn, trivial⟩ (by simp)
    cases keep <;> exact this

theorem valueAt_toEx (x : LazyEx β) {idx : List Nat} (h : InBounds x.shape idx) : valueAt x.toEx idx = x.elem idx := by
  show x.elem ((toInts (bcIndex x.shape idx)).map Int.toNat) = _
  rw [toNat_toInts, bcIndex_self h]

/-- The largest absolute column sum bounds the growth of vectors, and no smaller number does. -/
theorem operatorNorm_l1 (A : Nat → Nat → ℝ) (m n : Nat) (v : ℝ)
    (h : IsMaxAbs v ((List.range n).map fun j => ∑ i ∈ Finset.range m, |A i j|)) : IsOperatorNorm vecL1 A m n v := by
  obtain ⟨h0, hle, hat, hz⟩ := h
  have hcol : ∀ j, 0 ≤ ∑ i ∈ Finset.range m, |A i j| := fun j => Finset.sum_nonneg fun _ _ => abs_nonneg _
  constructor
  · refine ⟨h0, fun x => ?_⟩
    unfold vecL1 matVec
    calc ∑ i ∈ Finset.range m, |∑ j ∈ Finset.range n, A i j * x j|
        ≤ ∑ i ∈ Finset.range m, ∑ j ∈ Finset.range n, |A i j| * |x j| := by
          apply Finset.sum_le_sum
          intro i _
          refine (Finset.abs_sum_le_sum_abs _ _).trans (le_of_eq ?_)
          exact Finset.sum_congr rfl fun j _ => abs_mul _ _
      _ = ∑ j ∈ Finset.range n, (∑ i ∈ Finset.range m, |A i j|) * |x j| := by
          rw [Finset.sum_comm]
          exact Finset.sum_congr rfl fun j _ => by rw [Finset.sum_mul]
      _ ≤ ∑ j ∈ Finset.range n, v * |x j| := by
          apply Finset.sum_le_sum
          intro j hj
          apply mul_le_mul_of_nonneg_right _ (abs_nonneg _)
          have := hle _ (List.mem_map.2 ⟨j, List.mem_range.2 (Finset.mem_range.1 hj), rfl⟩)
          rwa [abs_of_nonneg (hcol j)] at this
      _ = v * ∑ j ∈ Finset.range n, |x j| := by rw [Finset.mul_sum]
  · rintro c ⟨hc0, hc⟩
    rcases Nat.eq_zero_or_pos n with rfl | hn
    · rw [hz rfl]; exact hc0
    · obtain ⟨y, hy, hv⟩ := hat (by simp; omega)
      obtain ⟨k, hk, rfl⟩ := List.mem_map.1 hy
      rw [List.mem_range] at hk
      rw [abs_of_nonneg (hcol k)] at hv
      have := hc (fun j => if j = k then 1 else 0)
      unfold vecL1 matVec at this
      simp only [mul_ite, mul_one, mul_zero, Finset.sum_ite_eq', Finset.mem_range, if_pos hk, apply_ite abs, abs_one,
        abs_zero] at this
      rw [hv] at this
      simpa using this

/-- The largest absolute row sum bounds the growth of vectors in the maximum norm, and no smaller number does. -/
theorem operatorNorm_linf (A : Nat → Nat → ℝ) (m n : Nat) (v : ℝ)
    (h : IsMaxAbs v ((List.range m).map fun i => ∑ j ∈ Finset.range n, |A i j|)) : IsOperatorNorm vecLinf A m n v := by
  obtain ⟨h0, hle, hat, hz⟩ := h
  have hrow : ∀ i, 0 ≤ ∑ j ∈ Finset.range n, |A i j| := fun j => Finset.sum_nonneg fun _ _ => abs_nonneg _
  have hget : ∀ (n : Nat) (x : Nat → ℝ) (j : Nat), j < n → |x j| ≤ vecLinf n x := by
    intro n x j hj
    unfold vecLinf
    rw [← Real.coe_nnabs, NNReal.coe_le_coe]
    exact Finset.le_sup (f := fun j => Real.nnabs (x j)) (Finset.mem_range.2 hj)
  have hbound : ∀ (n : Nat) (x : Nat → ℝ) (c : ℝ), 0 ≤ c → (∀ j < n, |x j| ≤ c) → vecLinf n x ≤ c := by
    intro n x c hc hx
    unfold vecLinf
    rw [← Real.coe_toNNReal c hc, NNReal.coe_le_coe]
    apply Finset.sup_le
    intro j hj
    rw [← NNReal.coe_le_coe, Real.coe_toNNReal c hc, Real.coe_nnabs]
    exact hx j (Finset.mem_range.1 hj)
  have hnn : ∀ n x, 0 ≤ vecLinf n x := fun n x => NNReal.coe_nonneg _
  constructor
  · refine ⟨h0, fun x => ?_⟩
    apply hbound _ _ _ (mul_nonneg h0 (hnn _ _))
    intro i hi
    unfold matVec
    calc |∑ j ∈ Finset.range n, A i j * x j| ≤ ∑ j ∈ Finset.range n, |A i j| * vecLinf n x := by
          refine (Finset.abs_sum_le_sum_abs _ _).trans ?_
          apply Finset.sum_le_sum
          intro j hj
          rw [abs_mul]
          exact mul_le_mul_of_nonneg_left (hget n x j (Finset.mem_range.1 hj)) (abs_nonneg _)
      _ = (∑ j ∈ Finset.range n, |A i j|) * vecLinf n x := by rw [Finset.sum_mul]
      _ ≤ v * vecLinf n x := by
          apply mul_le_mul_of_nonneg_right _ (hnn _ _)
          have := hle _ (List.mem_map.2 ⟨i, List.mem_range.2 hi, rfl⟩)
          rwa [abs_of_nonneg (hrow i)] at this
  · rintro c ⟨hc0, hc⟩
    rcases Nat.eq_zero_or_pos m with rfl | hm
    · rw [hz rfl]; exact hc0
    · obtain ⟨y, hy, hv⟩ := hat (by simp; omega)
      obtain ⟨k, hk, rfl⟩ := List.mem_map.1 hy
      rw [List.mem_range] at hk
      rw [abs_of_nonneg (hrow k)] at hv
      have h1 := hc (fun j => if A k j < 0 then -1 else 1)
      have h2 := hget m (matVec A n fun j => if A k j < 0 then -1 else 1) k hk
      have h3 : matVec A n (fun j => if A k j < 0 then -1 else 1) k = v := by
        rw [← hv]
        unfold matVec
        apply Finset.sum_congr rfl
        intro j _
        show A k j * (if A k j < 0 then -1 else 1) = |A k j|
        split
        · rename_i h; rw [abs_of_neg h]; ring
        · rename_i h; rw [abs_of_nonneg (not_lt.1 h)]; ring
      have h4 : vecLinf n (fun j => if A k j < 0 then -1 else 1) ≤ 1 := by
        apply hbound _ _ _ zero_le_one
        intro j _
        show |if A k j < 0 then (-1 : ℝ) else 1| ≤ 1
        split <;> simp
      rw [h3, abs_of_nonneg h0] at h2
      calc v ≤ _ := h2
        _ ≤ _ := h1
        _ ≤ c * 1 := mul_le_mul_of_nonneg_left h4 hc0
        _ = c := mul_one c

theorem normInduced_ok {e : Ex ℝ} {sh : List Nat} (hf : Fits sh e) (axis : Nat) (h2 : sh.length = 2) (ha : axis < 2)
    (keep : Bool) :
    ∃ s v, normInduced realAbs realLinf (axis : Int) e sh keep = .returns s ∧
      s.shape = (if keep then [1, 1] else []) ∧ (∀ r, InBounds s.shape r → s.elem r = some v) ∧
      IsMaxAbs v ((rowIndices (redShape sh [axis] keep)).map fun r => ((redGroup sh [axis] keep r).map
        fun i => |valueAt e i|).sum) := by
  have hax : ([(axis : Int)].map (normalizeAxis sh.length)) = [axis] := by simp [normalizeAxis]
  obtain ⟨c, hc, hcs, hce⟩ := normSum_ok (f := realAbs) (fun _ => rfl) hf (axes := [(axis : Int)]) (by
    rw [hax]; exact ⟨by simp, by simpa [h2] using ha⟩) keep
  rw [hax] at hcs hce
  have hne : c.shape ≠ [] := by
    rw [hcs]
    match sh, h2 with
    | [a, b], _ =>
      have : axis = 0 ∨ axis = 1 := by omega
      rcases this with rfl | rfl <;> cases keep <;> simp [redShape, dropAxes]
  have hlen : keep = true → c.shape.length = 2 := by
    rintro rfl
    rw [hcs]
    match sh, h2 with
    | [a, b], _ =>
      have : axis = 0 ∨ axis = 1 := by omega
      rcases this with rfl | rfl <;> simp [redShape, dropAxes]
  have hall := normalize_allAxes c.shape c.shape.length
  obtain ⟨s, hs, hss, hse⟩ := normAxes_ok (normMaxLaws (fun _ => zero_le) (fun v : Option ℝ => v.bind realLinf))
    (show Fits c.shape c.toEx from ⟨hne, broadcastsTo_refl _⟩) (axes := allAxes c.shape)
    (by rw [hall]; exact goodAxes_range _) keep
  rw [hall] at hss hse
  obtain ⟨l, hl⟩ : ∃ l, l = (rowIndices c.shape).map fun r => ((redGroup sh [axis] keep r).map fun i => |valueAt e i|).sum :=
    ⟨_, rfl⟩
  refine ⟨s, (l.map Real.nnabs).foldl max 0, ?_, ?_, ?_, ?_⟩
  · unfold normInduced
    rw [if_neg (by omega), C72_braced _ _ _ _ _ (by intro a h; simp at h; omega), hc]
    exact hs
  · rw [hss, redShape_all]
    cases keep with
    | false => rfl
    | true => rw [hlen rfl]; rfl
  · intro r hr
    rw [hse r hr, redGroup_all (by rw [← hss]; exact hr)]
    have : (rowIndices c.shape).map (valueAt c.toEx) = l.map some := by
      rw [hl, List.map_map]
      apply List.map_congr_left
      intro i hi
      rw [valueAt_toEx _ (mem_rowIndices.1 hi), hce i (mem_rowIndices.1 hi)]
      rfl
    rw [this, List.foldl_map]
    show List.foldl (fun r (v : ℝ) => normBoth max r (realLinf v)) (some 0) l = _
    exact foldl_normMax (f := realLinf) (g := Real.nnabs) l 0 (fun _ _ => rfl)
  · rw [← hcs, ← hl]
    exact isMaxAbs_foldl l

/-- The induced norms of a matrix are its operator norms for the sum and the maximum norm. -/
theorem C72_induced {e : Ex ℝ} {m n : Nat} (hf : Fits [m, n] e) (keep : Bool) :
    ∃ s t v w, normInduced realAbs realLinf 0 e [m, n] keep = .returns s ∧
      normInduced realAbs realLinf 1 e [m, n] keep = .returns t ∧
      s.shape = (if keep then [1, 1] else []) ∧ t.shape = (if keep then [1, 1] else []) ∧
      (∀ r, InBounds s.shape r → s.elem r = some v ∧ t.elem r = some w) ∧
      IsOperatorNorm vecL1 (fun i j => valueAt e [i, j]) m n v ∧
      IsOperatorNorm vecLinf (fun i j => valueAt e [i, j]) m n w := by
  obtain ⟨s, v, hs, hss, hse, hv⟩ := normInduced_ok hf 0 rfl (by omega) keep
  obtain ⟨t, w, ht, hts, hte, hw⟩ := normInduced_ok hf 1 rfl (by omega) keep
  refine ⟨s, t, v, w, hs, ht, hss, hts, fun r hr => ⟨hse r hr, hte r (by rw [hts, ← hss]; exact hr)⟩, ?_, ?_⟩
  · apply operatorNorm_l1
    have : ((rowIndices (redShape [m, n] [0] keep)).map fun r => ((redGroup [m, n] [0] keep r).map
        fun i => |valueAt e i|).sum) = (List.range n).map fun j => ∑ i ∈ Finset.range m, |valueAt e [i, j]| := by
      have h1 : rowIndices (redShape [m, n] [0] keep) = (List.range n).map fun j => if keep then [0, j] else [j] := by
        cases keep <;> simp [redShape, dropAxes, rowIndices, List.map_flatMap, flatMap_one]
      rw [h1, List.map_map]
      apply List.map_congr_left
      intro j hj
      show ((redGroup [m, n] [0] keep (if keep then [0, j] else [j])).map _).sum = _
      rw [redGroup_column keep (List.mem_range.1 hj), List.map_map, ← list_range_sum_real]
      rfl
    rwa [this] at hv
  · apply operatorNorm_linf
    have : ((rowIndices (redShape [m, n] [1] keep)).map fun r => ((redGroup [m, n] [1] keep r).map
        fun i => |valueAt e i|).sum) = (List.range m).map fun i => ∑ j ∈ Finset.range n, |valueAt e [i, j]| := by
      have h1 : rowIndices (redShape [m, n] [1] keep) = (List.range m).map fun i => if keep then [i, 0] else [i] := by
        cases keep <;> simp [redShape, dropAxes, rowIndices, List.map_flatMap, flatMap_one]
      rw [h1, List.map_map]
      apply List.map_congr_left
      intro i hi
      show ((redGroup [m, n] [1] keep (if keep then [i, 0] else [i])).map _).sum = _
      rw [redGroup_row keep (List.mem_range.1 hi), List.map_map, ← list_range_sum_real]
      rfl
    rwa [this] at hw

/-- Only matrices have induced norms. -/
theorem C72_induced_throws (axis : Int) (e : Ex ℝ) (sh : List Nat) (keep : Bool) (h : sh.length ≠ 2) :
    normInduced realAbs realLinf axis e sh keep = .throws := by
  unfold normInduced
  rw [if_pos h]

/-! ### Integers -/

theorem normSum_some [AddCommMonoid β] {f : α → Option β} {g : α → β} {e : Ex α} {sh : List Nat} (hf : Fits sh e)
    {axes : List Int} (hg : GoodAxes sh.length (axes.map (normalizeAxis sh.length))) (keep : Bool) :
    ∃ s, normAxes (normSumFns f) e sh axes keep = .returns s ∧
      s.shape = redShape sh (axes.map (normalizeAxis sh.length)) keep ∧
      ∀ r, InBounds s.shape r →
        ((∀ i ∈ redGroup sh (axes.map (normalizeAxis sh.length)) keep r, f (valueAt e i) = some (g (valueAt e i))) →
          s.elem r = some (((redGroup sh (axes.map (normalizeAxis sh.length)) keep r).map fun i => g (valueAt e i)).sum)) ∧
        ((∃ i ∈ redGroup sh (axes.map (normalizeAxis sh.length)) keep r, f (valueAt e i) = none) → s.elem r = none) := by
  obtain ⟨s, hs, hsh, hel⟩ := normAxes_ok (normSumLaws f) hf hg keep
  refine ⟨s, hs, hsh, fun r hr => ⟨fun h => ?_, fun h => ?_⟩⟩
  · rw [hel r hr]
    show List.foldl (fun r v => normBoth (· + ·) r (f v)) (some 0) _ = _
    rw [foldl_normSum (g := g) _ _ (by
      intro x hx
      obtain ⟨i, hi, rfl⟩ := List.mem_map.1 hx
      exact h i hi), zero_add, List.map_map]
    rfl
  · rw [hel r hr]
    obtain ⟨i, hi, hn⟩ := h
    exact foldl_normBoth_undefined _ _ _ _ ⟨_, List.mem_map.2 ⟨i, hi, rfl⟩, hn⟩

/-- Norms of integers are exact as long as the absolute values and the squares of the elements can be represented in the type
of the elements, or in `int` if that is wider.  Missing from the full statement: elements for which they cannot, see
`C72_square_overflow`. -/
theorem C72_integers_partial {e : Ex Int} {sh : List Nat} (hf : Fits sh e) {axes : List Int}
    (hg : GoodAxes sh.length (axes.map (normalizeAxis sh.length))) (keep : Bool) (t : IntKind)
    (ht : ∀ i, InBounds sh i → t.holds (valueAt e i) ∧ t.promoted.holds |valueAt e i| ∧
      t.promoted.holds (valueAt e i * valueAt e i)) :
    ∃ l0 l1 sq li, normAxes (normSumFns intL0) e sh axes keep = .returns l0 ∧
      normAxes (normSumFns (intAbs t)) e sh axes keep = .returns l1 ∧
      normAxes (normSumFns (intSq t)) e sh axes keep = .returns sq ∧
      normAxes (normMaxFns fun v => (intAbs t v).map Int.toNat) e sh axes keep = .returns li ∧
      (let out := redShape sh (axes.map (normalizeAxis sh.length)) keep
       l0.shape = out ∧ l1.shape = out ∧ sq.shape = out ∧ li.shape = out ∧
        ∀ r, InBounds out r →
          let l := (redGroup sh (axes.map (normalizeAxis sh.length)) keep r).map (valueAt e)
          l0.elem r = some ((l.filter fun x => decide (x ≠ 0)).length : Int) ∧
          l1.elem r = some ((l.map fun x => |x|).sum) ∧ sq.elem r = some ((l.map fun x => x ^ 2).sum) ∧
          ∃ v, li.elem r = some v ∧ (∀ x ∈ l, x.natAbs ≤ v) ∧ (v = 0 ∨ ∃ x ∈ l, x.natAbs = v)) := by
  have hgrp : ∀ r, ∀ i ∈ redGroup sh (axes.map (normalizeAxis sh.length)) keep r, InBounds sh i := by
    intro r i hi
    unfold redGroup at hi
    exact mem_rowIndices.1 (List.mem_filter.1 hi).1
  have habs : ∀ i, InBounds sh i → intAbs t (valueAt e i) = some |valueAt e i| := by
    intro i hi
    obtain ⟨h1, h2, _⟩ := ht i hi
    unfold intAbs
    split
    · rename_i hs
      have : t.promoted.signed = true := by
        unfold IntKind.promoted; split
        · rfl
        · exact hs
      rw [IntKind.arith, if_pos this, if_pos h2]
    · rename_i hs
      unfold IntKind.holds at h1
      rw [if_neg hs] at h1
      rw [abs_of_nonneg h1.1]
  have hsq : ∀ i, InBounds sh i → intSq t (valueAt e i) = some (valueAt e i ^ 2) := by
    intro i hi
    obtain ⟨_, _, h3⟩ := ht i hi
    unfold intSq IntKind.arith
    rw [pow_two]
    split
    · first | rfl | rw [if_pos h3]
    · rename_i hs
      unfold IntKind.holds at h3
      rw [if_neg hs] at h3
      rw [Int.emod_eq_of_lt h3.1 h3.2]
  obtain ⟨l0, h0, s0, e0⟩ := normSum_ok (f := intL0) (fun _ => rfl) hf hg keep
  obtain ⟨l1, h1, s1, e1⟩ := normSum_some (f := intAbs t) (g := fun x => |x|) hf hg keep
  obtain ⟨sq, h2, s2, e2⟩ := normSum_some (f := intSq t) (g := fun x => x ^ 2) hf hg keep
  obtain ⟨li, h4, s4, e4⟩ := normAxes_ok (normMaxLaws (fun x => Nat.zero_le x) fun v => (intAbs t v).map Int.toNat) hf hg keep
  refine ⟨l0, l1, sq, li, h0, h1, h2, h4, s0, s1, s2, s4, ?_⟩
  intro r hr l
  refine ⟨?_, ?_, ?_, ?_⟩
  · rw [e0 r (by rw [s0]; exact hr)]
    have : ∀ k : List Int, (k.map fun x => (if x ≠ 0 then 1 else 0 : Int)).sum =
        ((k.filter fun x => decide (x ≠ 0)).length : Int) := by
      intro k
      induction k with
      | nil => rfl
      | cons x k ih =>
        rw [List.map_cons, List.sum_cons, ih, List.filter_cons]
        by_cases h : x ≠ 0
        · simp only [if_pos h, decide_eq_true h, if_true, List.length_cons]
          push_cast; ring
        · simp only [if_neg h, decide_eq_false h, zero_add]
          rfl
    rw [← this, List.map_map]
    rfl
  · rw [(e1 r (by rw [s1]; exact hr)).1 fun i hi => habs i (hgrp r i hi), List.map_map]
    rfl
  · rw [(e2 r (by rw [s2]; exact hr)).1 fun i hi => hsq i (hgrp r i hi), List.map_map]
    rfl
  · rw [e4 r (by rw [s4]; exact hr)]
    have hfold : List.foldl (normMaxFns fun v => (intAbs t v).map Int.toNat).reduce (some 0) l =
        some ((l.map Int.natAbs).foldl max 0) := by
      apply foldl_normMax
      intro x hx
      obtain ⟨i, hi, rfl⟩ := List.mem_map.1 hx
      rw [habs i (hgrp r i hi)]
      show some (|valueAt e i|.toNat) = _
      rw [Int.abs_eq_natAbs]; rfl
    refine ⟨_, hfold, ?_, ?_⟩
    · intro x hx
      exact (foldl_max_spec (l.map Int.natAbs) 0).2.2 _ (List.mem_map.2 ⟨x, hx, rfl⟩)
    · rcases (foldl_max_spec (l.map Int.natAbs) 0).1 with h | h
      · exact .inl h
      · right
        obtain ⟨x, hx, he⟩ := List.mem_map.1 h
        exact ⟨x, hx, he⟩

/-- For `signed char`, `unsigned char` and `short` that is always so. -/
theorem C72_narrow_integers {t : IntKind} (ht : t = ⟨8, true⟩ ∨ t = ⟨8, false⟩ ∨ t = ⟨16, true⟩) {v : Int} (h : t.holds v) :
    t.promoted.holds |v| ∧ t.promoted.holds (v * v) := by
  have hv : -32768 ≤ v ∧ v ≤ 32768 := by
    rcases ht with rfl | rfl | rfl <;> simp [IntKind.holds] at h <;> omega
  have hp : t.promoted = ⟨32, true⟩ := by rcases ht with rfl | rfl | rfl <;> rfl
  rw [hp]
  have h1 : |v| ≤ 32768 := abs_le.2 hv
  have h0 := abs_nonneg v
  have h2 : v * v ≤ 32768 * 32768 := by nlinarith [abs_mul_abs_self v]
  have h3 := mul_self_nonneg v
  simp only [IntKind.holds, if_true]
  refine ⟨⟨by omega, by omega⟩, ⟨by omega, by omega⟩⟩

/-- Where squares are computed in an unsigned type they wrap before they are added to the 64-bit sum; in a signed type one
square too large makes the whole sum undefined. -/
theorem C72_square_overflow {e : Ex Int} {sh : List Nat} (hf : Fits sh e) {axes : List Int}
    (hg : GoodAxes sh.length (axes.map (normalizeAxis sh.length))) (keep : Bool) (t : IntKind) :
    ∃ sq, normAxes (normSumFns (intSq t)) e sh axes keep = .returns sq ∧
      ∀ r, InBounds sq.shape r →
        let l := (redGroup sh (axes.map (normalizeAxis sh.length)) keep r).map (valueAt e)
        (t.promoted.signed = false → sq.elem r = some ((l.map fun x => x ^ 2 % 2 ^ t.promoted.bits).sum)) ∧
        (t.promoted.signed = true → (∃ x ∈ l, ¬ t.promoted.holds (x * x)) → sq.elem r = none) := by
  obtain ⟨sq, h2, s2, e2⟩ := normSum_some (f := intSq t) (g := fun x => x ^ 2 % 2 ^ t.promoted.bits) hf hg keep
  refine ⟨sq, h2, fun r hr => ⟨fun h => ?_, fun h hx => ?_⟩⟩
  · rw [(e2 r hr).1 fun i _ => by rw [intSq, IntKind.arith, if_neg (by rw [h]; decide), pow_two], List.map_map]
    rfl
  · obtain ⟨x, hx, hn⟩ := hx
    obtain ⟨i, hi, rfl⟩ := List.mem_map.1 hx
    exact (e2 r hr).2 ⟨i, hi, by rw [intSq, IntKind.arith, if_pos h, if_neg hn]⟩

/-- So the squared norm of `{65536}` as `unsigned int` is 0, and those of `{46341}` as `int` and as `unsigned short` are
undefined. -/
theorem C72_square_wrong :
    intSq ⟨32, false⟩ 65536 = some 0 ∧ intSq ⟨32, true⟩ 46341 = none ∧ intSq ⟨16, false⟩ 46341 = none ∧
      (⟨32, false⟩ : IntKind).holds 65536 ∧ (⟨32, true⟩ : IntKind).holds 46341 ∧ (⟨16, false⟩ : IntKind).holds 46341 := by
  decide

/-! ### Immediate evaluation -/

theorem immediateReduce_copies [Inhabited β] {F : RedFns α β} (hlaw : ReducerLaws F) (hcm : ReducerComm F) {L : Layout}
    (hL : L = .row_major ∨ L = .column_major) {e : Ex α} {sh : List Nat} (hf : Fits sh e)
    {axes : List Int} (hg : GoodAxes sh.length (axes.map (normalizeAxis sh.length))) (h0 : numel sh ≠ 0) {copy : α → β}
    (hcopy : ImmCopies L sh (axes.map (normalizeAxis sh.length)) → ∀ v, copy v = F.reduce F.init v) (junk : β) :
    ∃ s, immediateReduce F L e sh axes copy junk = .ok s ∧
      s.shape = redShape sh (axes.map (normalizeAxis sh.length)) false ∧
      ∀ idx, InBounds s.shape idx →
        s.elem idx = redValue F F.init (valueAt e) sh (axes.map (normalizeAxis sh.length)) false idx := by
  obtain ⟨ax, hax⟩ : ∃ ax, ax = axes.map (normalizeAxis sh.length) := ⟨_, rfl⟩
  rw [← hax] at hg hcopy ⊢
  have hsh : (if ax.length = 0 then sh else immShape sh ax false) = redShape sh ax false := by
    split
    · rename_i h
      rw [List.length_eq_zero_iff] at h
      rw [h, redShape, dropAxes_of_lt _ _ (by simp)]
    · exact immShape_eq _ _ _
  unfold immediateReduce
  simp only [← hax, hsh]
  rw [C22_iteration L hL sh e hf]
  have h := C31_immediate_values_partial hL (val := valueAt e) hlaw hcm (keep := false) (initial := none) (copy := copy)
    (junk := List.replicate ((redShape sh ax false).foldl (· * ·) 1) junk) hg
    (by rw [List.length_replicate, foldl_mul_eq]; omega) (.inl h0) hcopy
  rw [h]
  refine ⟨_, rfl, rfl, ?_⟩
  intro idx hi
  have hi : InBounds (redShape sh ax false) idx := hi
  show (Buf.mk (redShape sh ax false) L _).read idx = _
  rw [Buf.read_eq _ hi]
  simp only [List.getD_eq_getElem?_getD, List.getElem?_map, orderIndices_get hL hi]
  rfl

/-- Immediate evaluation of a norm gives what lazy evaluation gives.  Missing from the full statement: no axes, and axes in
front of which all extents are 1, where the elements are copied (`C72_immediate_wrong`), and empty arrays
(`C31_zero_extent_ub`). -/
theorem C72_immediate_partial [AddCommMonoid β] (f : α → Option β) {L : Layout} (hL : L = .row_major ∨ L = .column_major)
    {e : Ex α} {sh : List Nat} (hf : Fits sh e) {axes : List Int}
    (hg : GoodAxes sh.length (axes.map (normalizeAxis sh.length))) (h0 : numel sh ≠ 0)
    (hc : ¬ ImmCopies L sh (axes.map (normalizeAxis sh.length))) (copy : α → Option β) (junk : Option β) :
    ∃ s t, normImmediate (normSumFns f) L e sh axes copy junk = .returns s ∧
      normAxes (normSumFns f) e sh axes false = .returns t ∧ s.shape = t.shape ∧
      ∀ r, InBounds t.shape r → s.elem r = t.elem r := by
  obtain ⟨s, hs, hss, hse⟩ := immediateReduce_copies (normSumLaws f) (normSumComm f) hL hf hg h0 (copy := copy)
    (fun h => absurd h hc) junk
  obtain ⟨t, ht, hts, hte⟩ := normAxes_ok (normSumLaws f) hf hg false
  refine ⟨s, t, by rw [normImmediate, hs]; rfl, ht, by rw [hss, hts], fun r hr => ?_⟩
  rw [hse r (by rw [hss, ← hts]; exact hr), hte r hr]
  rfl

/-- The same for the maximum norm. -/
theorem C72_immediate_linf_partial [LinearOrder β] [Zero β] (hz : ∀ x : β, 0 ≤ x) (f : α → Option β) {L : Layout}
    (hL : L = .row_major ∨ L = .column_major) {e : Ex α} {sh : List Nat} (hf : Fits sh e) {axes : List Int}
    (hg : GoodAxes sh.length (axes.map (normalizeAxis sh.length))) (h0 : numel sh ≠ 0)
    (hc : ¬ ImmCopies L sh (axes.map (normalizeAxis sh.length))) (copy : α → Option β) (junk : Option β) :
    ∃ s t, normImmediate (normMaxFns f) L e sh axes copy junk = .returns s ∧
      normAxes (normMaxFns f) e sh axes false = .returns t ∧ s.shape = t.shape ∧
      ∀ r, InBounds t.shape r → s.elem r = t.elem r := by
  obtain ⟨s, hs, hss, hse⟩ := immediateReduce_copies (normMaxLaws hz f) (normMaxComm f) hL hf hg h0 (copy := copy)
    (fun h => absurd h hc) junk
  obtain ⟨t, ht, hts, hte⟩ := normAxes_ok (normMaxLaws hz f) hf hg false
  refine ⟨s, t, by rw [normImmediate, hs]; rfl, ht, by rw [hss, hts], fun r hr => ?_⟩
  rw [hse r (by rw [hss, ← hts]; exact hr), hte r hr]
  rfl

/-- Immediate evaluation over an axis of extent 1 in front, or over all axes of a zero-dimensional array, returns the elements
themselves: the "norms" of `{{-3, 4}}` over axis 0 are -3 and 4. -/
theorem C72_immediate_wrong :
    ((normImmediate (normSumFns (intAbs ⟨32, true⟩)) .row_major
        (.gen [1, 2] fun i => if i = [0, 0] then -3 else 4) [1, 2] [0] some none).map fun s => (s.shape, s.elem [0], s.elem [1])) =
      .returns ([2], some (-3), some 4) ∧
    ((normAxes (normSumFns (intAbs ⟨32, true⟩)) (.gen [1, 2] fun i => if i = [0, 0] then -3 else 4) [1, 2] [0] false).map
        fun s => (s.shape, s.elem [0], s.elem [1])) = .returns ([2], some 3, some 4) := by
  decide +kernel

/-! ### Complex numbers -/

/-- The real and imaginary parts of a family of complex numbers. -/
def Spec.parts (l : List (ℝ × ℝ)) : List ℝ := l.flatMap fun z => [z.1, z.2]

theorem sum_parts (g : ℝ → ℝ) : ∀ l : List (ℝ × ℝ), (l.map fun z => g z.1 + g z.2).sum = ((parts l).map g).sum
  | [] => rfl
  | z :: l => by
    rw [List.map_cons, List.sum_cons, sum_parts g l]
    show _ = (List.map g (z.1 :: z.2 :: parts l)).sum
    rw [List.map_cons, List.map_cons, List.sum_cons, List.sum_cons, add_assoc]

theorem foldl_max_parts : ∀ (l : List (ℝ × ℝ)) (a : NNReal),
    (l.map fun z => max (Real.nnabs z.1) (Real.nnabs z.2)).foldl max a = ((parts l).map Real.nnabs).foldl max a
  | [], _ => rfl
  | z :: l, a => by
    show (l.map _).foldl max (max a (max (Real.nnabs z.1) (Real.nnabs z.2))) =
      ((parts l).map Real.nnabs).foldl max (max (max a (Real.nnabs z.1)) (Real.nnabs z.2))
    rw [foldl_max_parts l, max_assoc]

/-- Norms of arrays of complex numbers are those of the family of their real and imaginary parts, so the square root of
`norm_sq` is the Euclidean norm; only `norm_l0` counts complex numbers. -/
theorem C72_complex {e : Ex (ℝ × ℝ)} {sh : List Nat} (hf : Fits sh e) {axes : List Int}
    (hg : GoodAxes sh.length (axes.map (normalizeAxis sh.length))) (keep : Bool) {p : ℝ} (hp : 0 < p) :
    ∃ l0 l1 l2 li lp, normAxes (normSumFns complexL0) e sh axes keep = .returns l0 ∧
      normAxes (normSumFns complexL1) e sh axes keep = .returns l1 ∧ normL2 complexSq e sh axes keep = .returns l2 ∧
      normAxes (normMaxFns complexLinf) e sh axes keep = .returns li ∧ normLp complexLpToP e sh p axes keep = .returns lp ∧
      (let out := redShape sh (axes.map (normalizeAxis sh.length)) keep
       l0.shape = out ∧ l1.shape = out ∧ l2.shape = out ∧ li.shape = out ∧ lp.shape = out ∧
        ∀ r, InBounds out r →
          let l := (redGroup sh (axes.map (normalizeAxis sh.length)) keep r).map (valueAt e)
          l0.elem r = some ((l.filter fun z => decide (z ≠ (0, 0))).length : Int) ∧
          l1.elem r = some (absTotal (parts l)) ∧ l2.elem r = some (Real.sqrt (squareTotal (parts l))) ∧
          (∃ v, li.elem r = some v ∧ IsMaxAbs v (parts l)) ∧ lp.elem r = some (pNorm p (parts l))) := by
  obtain ⟨l0, h0, s0, e0⟩ := normSum_ok (f := complexL0) (fun _ => rfl) hf hg keep
  obtain ⟨l1, h1, s1, e1⟩ := normSum_ok (f := complexL1) (fun _ => rfl) hf hg keep
  obtain ⟨sq, h2, s2, e2⟩ := normSum_ok (f := complexSq) (fun _ => rfl) hf hg keep
  obtain ⟨li, h4, s4, e4⟩ := normMax_ok (f := complexLinf) (fun _ => zero_le) (fun _ => rfl) hf hg keep
  obtain ⟨lp, h5, s5, e5⟩ := normSum_ok (f := complexLpToP p) (fun _ => rfl) hf hg keep
  refine ⟨l0, l1, mapElems Real.sqrt sq, li, mapElems (fun x => x ^ (1 / p)) lp, h0, h1, by rw [normL2, h2]; rfl, h4,
    by rw [normLp, if_neg (ne_of_gt hp), h5]; rfl, s0, s1, s2, s4, s5, ?_⟩
  intro r hr l
  refine ⟨?_, ?_, ?_, ?_, ?_⟩
  · rw [e0 r (by rw [s0]; exact hr)]
    have : ∀ k : List (ℝ × ℝ), (k.map fun z => (if z.1 ≠ 0 ∨ z.2 ≠ 0 then 1 else 0 : Int)).sum =
        ((k.filter fun z => decide (z ≠ (0, 0))).length : Int) := by
      intro k
      induction k with
      | nil => rfl
      | cons z k ih =>
        rw [List.map_cons, List.sum_cons, ih, List.filter_cons]
        have hiff : (z.1 ≠ 0 ∨ z.2 ≠ 0) ↔ z ≠ (0, 0) := by
          simp only [ne_eq, Prod.ext_iff]; tauto
        by_cases h : z ≠ (0, 0)
        · simp only [if_pos (hiff.2 h), decide_eq_true h, if_true, List.length_cons]
          push_cast; ring
        · simp only [if_neg (fun x => h (hiff.1 x)), decide_eq_false h, zero_add]
          rfl
    rw [← this, List.map_map]
    rfl
  · rw [e1 r (by rw [s1]; exact hr), absTotal, ← sum_parts, List.map_map]
    rfl
  · show (sq.elem r).map Real.sqrt = _
    rw [e2 r (by rw [s2]; exact hr), squareTotal, ← sum_parts, List.map_map]
    simp only [pow_two]
    rfl
  · refine ⟨_, e4 r (by rw [s4]; exact hr), ?_⟩
    have := isMaxAbs_foldl (parts l)
    rw [← foldl_max_parts, List.map_map] at this
    exact this
  · show (lp.elem r).map _ = _
    rw [e5 r (by rw [s5]; exact hr), pNorm, ← sum_parts, List.map_map]
    simp only [if_neg (ne_of_gt hp)]
    rfl

/-- Consequently `norm_l1` of complex numbers is not the sum of their absolute values: of `{3 + 4i}` it is 7. -/
theorem C72_complex_l1 : complexL1 (3, 4) = some 7 ∧ Real.sqrt (3 * 3 + 4 * 4) = 5 := by
  constructor
  · unfold complexL1; norm_num
  · rw [show (3 * 3 + 4 * 4 : ℝ) = 5 ^ 2 by norm_num]
    exact Real.sqrt_sq (by norm_num)

/-! ### Examples -/

/-- A matrix of numbers of both signs. -/
noncomputable def exNorm : Ex ℝ := .gen [2, 2] fun i => if i = [0, 1] then -3 else (i.sum : ℝ)

theorem exNorm_fits : Fits [2, 2] exNorm := ⟨by decide, broadcastsTo_refl _⟩

example := C72_norms exNorm_fits (axes := [-1]) (by decide) true
example := C72_norms_all exNorm_fits false
example := C72_lp exNorm_fits (axes := [0]) (by decide) false (p := 3) (by norm_num)
example := C72_lp exNorm_fits (axes := [0]) (by decide) false (p := 0) (by norm_num)
example := C72_lp_is_norm exNorm_fits exNorm_fits (axes := [0, 1]) (by decide) false (p := 3 / 2) (by norm_num) (-2)
example : normBraced (normSumFns realAbs) exNorm [2, 2] [-1] false = .terminates :=
  C72_braced_negative_terminates _ _ _ _ _ (Or.inr rfl) (by decide) ⟨-1, by decide, by decide⟩
example : normAxes (normSumFns realAbs) exNorm [2, 2] [1, 0] false = .terminates :=
  C72_bad_axes_terminate _ _ _ _ _ (Or.inr rfl) (by decide)
example := C72_braced (normSumFns realAbs) exNorm [2, 2] [0, 1] false (by decide)
example := C72_induced exNorm_fits false
example : normInduced realAbs realLinf 0 exNorm [2] false = .throws := C72_induced_throws _ _ _ _ (by decide)

/-- A row of `short` integers. -/
def exShorts : Ex Int := .gen [1, 3] fun i => if i = [0, 1] then -300 else 5

theorem exShorts_fits : Fits [1, 3] exShorts := ⟨by decide, broadcastsTo_refl _⟩

theorem exShorts_holds : ∀ i, InBounds [1, 3] i → (⟨16, true⟩ : IntKind).holds (valueAt exShorts i) := by
  intro i _
  show (⟨16, true⟩ : IntKind).holds (if _ then _ else _)
  split <;> decide

example := C72_integers_partial exShorts_fits (axes := [1]) (by decide) false ⟨16, true⟩ fun i hi =>
  ⟨exShorts_holds i hi, C72_narrow_integers (.inr (.inr rfl)) (exShorts_holds i hi)⟩
example := C72_square_overflow exShorts_fits (axes := [1]) (by decide) false ⟨32, false⟩
example := C72_immediate_partial (intSq ⟨16, true⟩) (L := .row_major) (.inl rfl) exShorts_fits (axes := [1]) (by decide)
  (by decide) (by decide) some none
example := C72_immediate_linf_partial (β := Nat) Nat.zero_le (fun v : Int => some v.natAbs) (L := .row_major) (.inl rfl)
  exShorts_fits (axes := [-1]) (by decide) (by decide) (by decide) (fun v => some v.natAbs) none
example := C72_complex (e := .gen [2] fun i => ((i.sum : ℝ), -1)) (sh := [2]) ⟨by decide, broadcastsTo_refl _⟩ (axes := [0])
  (by decide) false (p := 2) (by norm_num)

end Xt
