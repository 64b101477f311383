import Verif.Model.CountNonzero
import Verif.Props.Stats
import Verif.Props.Blockwise
import Verif.Props.Quantile
import Verif.Props.Partition
import Verif.Props.NumericSeq
import Verif.Props.IndexView
import Verif.Props.LawsOrder
import Verif.Props.Laws
/-!
# C92: statistics agree with one another

The theorems named `_partial` keep the limits of the functions they compare: `quantile` and `median` are proved for operands of
the default layout (C42, C64), `variance` for axes that are not negative, and `average` over axes for operands that do not
have exactly one axis (C65).
-/

namespace Xt
open Spec

/-! ### Means of lists -/

theorem listMean_map_affine {γ : Type} (l : List γ) (hl : l ≠ []) (f : γ → ℚ) (c d : ℚ) :
    listMean (l.map fun x => c * f x + d) = c * listMean (l.map f) + d := by
  have h0 : (l.length : ℚ) ≠ 0 := by simpa using hl
  have : (l.map fun x => c * f x + d).sum = c * (l.map f).sum + l.length * d := by
    clear hl h0
    induction l with
    | nil => simp
    | cons x l ih => simp only [List.map_cons, List.sum_cons, List.length_cons, ih]; push_cast; ring
  unfold listMean
  rw [this]
  simp only [List.length_map]
  field_simp

theorem sumSqDev_affine {γ : Type} (l : List γ) (f : γ → ℚ) (c d : ℚ) :
    sumSqDev (l.map fun x => c * f x + d) = c ^ 2 * sumSqDev (l.map f) := by
  by_cases hl : l = []
  · subst hl; simp [sumSqDev]
  unfold sumSqDev
  rw [listMean_map_affine l hl]
  generalize listMean (l.map f) = m
  clear hl
  induction l with
  | nil => simp
  | cons x l ih => simp only [List.map_cons, List.sum_cons, ih]; ring

theorem sumSqDev_moments {γ : Type} (l : List γ) (hl : l ≠ []) (f : γ → ℚ) :
    sumSqDev (l.map f) / l.length = listMean (l.map fun x => f x * f x) - listMean (l.map f) * listMean (l.map f) := by
  have h0 : (l.length : ℚ) ≠ 0 := by simpa using hl
  have key : ∀ m : ℚ, ((l.map f).map fun x => (x - m) ^ 2).sum =
      (l.map fun x => f x * f x).sum - 2 * m * (l.map f).sum + l.length * m ^ 2 := by
    intro m
    clear hl h0
    induction l with
    | nil => simp
    | cons x l ih => simp only [List.map_cons, List.sum_cons, List.length_cons, ih]; push_cast; ring
  unfold sumSqDev
  rw [key]
  unfold listMean
  simp only [List.length_map]
  field_simp
  ring

theorem listMean_bounds {l : List ℚ} (hl : l ≠ []) {a b : ℚ} (ha : ∀ x ∈ l, a ≤ x) (hb : ∀ x ∈ l, x ≤ b) :
    a ≤ listMean l ∧ listMean l ≤ b := by
  have h0 : (0 : ℚ) < l.length := by exact_mod_cast List.length_pos_iff.2 hl
  unfold listMean
  rw [le_div_iff₀ h0, div_le_iff₀ h0]
  clear hl h0
  induction l with
  | nil => simp
  | cons x l ih =>
    obtain ⟨h1, h2⟩ := ih (fun y hy => ha y (List.mem_cons_of_mem _ hy)) (fun y hy => hb y (List.mem_cons_of_mem _ hy))
    have := ha x List.mem_cons_self
    have := hb x List.mem_cons_self
    simp only [List.sum_cons, List.length_cons]
    push_cast
    constructor <;> linarith

theorem weightedMean_const {γ : Type} (l : List γ) (f w : γ → ℚ) {c : ℚ} (hc : c ≠ 0) (hw : ∀ x ∈ l, w x = c) :
    weightedMean (l.map fun x => (f x, w x)) = listMean (l.map f) := by
  have h1 : ((l.map fun x => (f x, w x)).map fun p => p.1 * p.2).sum = c * (l.map f).sum := by
    induction l with
    | nil => simp
    | cons x l ih =>
      simp only [List.map_cons, List.sum_cons]
      rw [ih fun y hy => hw y (List.mem_cons_of_mem _ hy), hw x List.mem_cons_self]; ring
  have h2 : ((l.map fun x => (f x, w x)).map Prod.snd).sum = c * l.length := by
    clear h1
    induction l with
    | nil => simp
    | cons x l ih =>
      simp only [List.map_cons, List.sum_cons, List.length_cons]
      rw [ih fun y hy => hw y (List.mem_cons_of_mem _ hy), hw x List.mem_cons_self]; push_cast; ring
  unfold weightedMean listMean
  rw [h1, h2, mul_div_mul_left _ _ hc, List.length_map]

theorem redGroup_ne_nil {sh axes r : List Nat} {keep : Bool} (h0 : numel sh ≠ 0) (h : InBounds (redShape sh axes keep) r) :
    redGroup sh axes keep r ≠ [] := by
  obtain ⟨idx, h1, h2⟩ := exists_of_redIndex h0 h
  exact List.ne_nil_of_mem (List.mem_filter.2 ⟨mem_rowIndices.2 h1, by simpa using h2⟩)

theorem redGroup_inBounds {sh axes r q : List Nat} {keep : Bool} (h : q ∈ redGroup sh axes keep r) : InBounds sh q :=
  mem_rowIndices.1 (List.mem_filter.1 h).1

theorem normalizeAxis_nonneg {d : Nat} {axes : List Int} (h : ∀ a ∈ axes, 0 ≤ a) :
    axes.map (normalizeAxis d) = axes.map Int.toNat :=
  List.map_congr_left fun a ha => by
    unfold normalizeAxis
    rw [if_neg (by have := h a ha; omega)]

/-! ### Averages, means and variances -/

/-- C92: with equal weights, not zero, the average of all elements is their mean. -/
theorem C92_average_equal_weights {L : Layout} (hL : L = .row_major ∨ L = .column_major) {e w : Ex ℚ} {sh : List Nat}
    (hf : Fits sh e) (hfw : Fits sh w) (h0 : numel sh ≠ 0) (hn : numel sh < 2 ^ 64) (keep : Bool) (junk : ℚ) {c : ℚ} (hc : c ≠ 0)
    (hw : ∀ idx, InBounds sh idx → valueAt w idx = c) :
    ∃ v m, averageAll L e sh w sh keep junk = .ok v ∧ meanAll e sh keep 0 = .ok m ∧ v.shape = m.shape ∧
      ∀ r, InBounds m.shape r → v.elem r = m.elem r := by
  obtain ⟨v, v1, v2, v3⟩ := C65_average_all hL hf hfw h0 keep junk
  obtain ⟨m, m1, m2, -, m3⟩ := C65_mean_all hf keep hn
  refine ⟨v, m, v1, m1, by rw [v2, m2], fun r hr => ?_⟩
  rw [m3 r hr, v3 r (by rw [v2, ← m2]; exact hr)]
  exact weightedMean_const _ _ _ hc fun q hq => hw q (mem_rowIndices.1 hq)

/-- C92: and so it is for the average over some of the axes, with weights of the shape of the operand. -/
theorem C92_average_axes_equal_weights_partial {L LW : Layout} (hL : L = .row_major ∨ L = .column_major)
    (hLW : LW = .row_major ∨ LW = .column_major) {e : Ex ℚ} {sh : List Nat} (hf : Fits sh e) (hx : szMax ∉ sh) (w : LazyEx ℚ)
    (hw : w.shape = sh) (hd : sh.length ≠ 1) {axes : List Int}
    (hg : GoodAxes sh.length (axes.map (normalizeAxis sh.length))) (h0 : numel sh ≠ 0) (hn : numel sh < 2 ^ 64) (junk : ℚ)
    {c : ℚ} (hc : c ≠ 0) (hwc : ∀ idx, InBounds sh idx → w.elem idx = c) :
    ∃ v m, averageAxes L LW e sh w axes false junk = .ok v ∧ meanAxes e sh axes false 0 = .ok m ∧ v.shape = m.shape ∧
      ∀ r, InBounds m.shape r → v.elem r = m.elem r := by
  obtain ⟨v, v1, v2, v3⟩ := C65_average_partial hL hLW hf hx w hw hd hg h0 junk
  obtain ⟨m, m1, m2, m3⟩ := C65_mean hf hg false hn
  refine ⟨v, m, v1, m1, by rw [v2, m2], fun r hr => ?_⟩
  rw [m3 r hr, v3 r (by rw [v2, ← m2]; exact hr)]
  exact weightedMean_const _ _ _ hc fun q hq => hwc q (redGroup_inBounds hq)

/-- C92: the mean of `c * x + d` is `c` times the mean of `x`, plus `d`, and its variance is `c * c` times the variance of
`x`. -/
theorem C92_affine_partial {L : Layout} (hL : L = .row_major ∨ L = .column_major) {e : Ex ℚ} {sh : List Nat} (hf : Fits sh e)
    {axes : List Int} (hpos : ∀ a ∈ axes, 0 ≤ a) (hg : GoodAxes sh.length (axes.map Int.toNat)) (h0 : numel sh ≠ 0)
    (hn : numel sh < 2 ^ 64) (keep : Bool) {ddof : Nat} (hd : ddof ≤ numel sh) (junk c d : ℚ) :
    ∃ m m' v v', meanAxes e sh axes keep 0 = .ok m ∧ meanAxes (unaryEx (fun x => c * x + d) e) sh axes keep 0 = .ok m' ∧
      varianceSeq L e sh axes keep ddof junk = .ok v ∧
      varianceSeq L (unaryEx (fun x => c * x + d) e) sh axes keep ddof junk = .ok v' ∧
      m'.shape = m.shape ∧ v.shape = m.shape ∧ v'.shape = m.shape ∧
      ∀ r, InBounds m.shape r → m'.elem r = c * m.elem r + d ∧ v'.elem r = c * c * v.elem r := by
  have hax := normalizeAxis_nonneg (d := sh.length) hpos
  have hg' : GoodAxes sh.length (axes.map (normalizeAxis sh.length)) := by rw [hax]; exact hg
  obtain ⟨m, m1, m2, m3⟩ := C65_mean hf hg' keep hn
  obtain ⟨m', n1, n2, n3⟩ := C65_mean (fits_unary (f := fun x => c * x + d) hf) hg' keep hn
  obtain ⟨v, v1, v2, v3⟩ := C65_variance_divisor hL hf hpos hg h0 hn keep hd junk
  obtain ⟨v', w1, w2, w3⟩ := C65_variance_divisor hL (fits_unary (f := fun x => c * x + d) hf) hpos hg h0 hn keep hd junk
  rw [hax] at m2 m3 n2 n3
  refine ⟨m, m', v, v', m1, n1, v1, w1, by rw [n2, m2], by rw [v2, m2], by rw [w2, m2], fun r hr => ⟨?_, ?_⟩⟩
  · rw [m3 r hr, n3 r (by rw [n2, ← m2]; exact hr)]
    exact listMean_map_affine _ (redGroup_ne_nil h0 (by rw [← m2]; exact hr)) _ _ _
  · rw [v3 r (by rw [v2, ← m2]; exact hr), w3 r (by rw [w2, ← m2]; exact hr), v2, w2]
    have := sumSqDev_affine (redGroup sh (axes.map Int.toNat) keep r) (valueAt e) c d
    rw [show (redGroup sh (axes.map Int.toNat) keep r).map (valueAt (unaryEx (fun x => c * x + d) e)) =
      (redGroup sh (axes.map Int.toNat) keep r).map (fun q => c * valueAt e q + d) from rfl, this]
    ring

/-- C92: the variance is the mean of the squares less the square of the mean. -/
theorem C92_variance_moments_partial {L : Layout} (hL : L = .row_major ∨ L = .column_major) {e : Ex ℚ} {sh : List Nat} (hf : Fits sh e)
    {axes : List Int} (hpos : ∀ a ∈ axes, 0 ≤ a) (hg : GoodAxes sh.length (axes.map Int.toNat)) (h0 : numel sh ≠ 0)
    (hn : numel sh < 2 ^ 64) (keep : Bool) (junk : ℚ) :
    ∃ m q v, meanAxes e sh axes keep 0 = .ok m ∧ meanAxes (unaryEx (fun x => x * x) e) sh axes keep 0 = .ok q ∧
      varianceSeq L e sh axes keep 0 junk = .ok v ∧ q.shape = m.shape ∧ v.shape = m.shape ∧
      ∀ r, InBounds m.shape r → v.elem r = q.elem r - m.elem r * m.elem r ∧ 0 ≤ v.elem r := by
  have hax := normalizeAxis_nonneg (d := sh.length) hpos
  have hg' : GoodAxes sh.length (axes.map (normalizeAxis sh.length)) := by rw [hax]; exact hg
  obtain ⟨m, m1, m2, m3⟩ := C65_mean hf hg' keep hn
  obtain ⟨q, n1, n2, n3⟩ := C65_mean (fits_unary (f := fun x => x * x) hf) hg' keep hn
  obtain ⟨v, v1, v2, v3⟩ := C65_variance_partial hL hf hpos hg h0 hn keep (Nat.zero_le _) (.inl (Nat.zero_le _)) junk
  rw [hax] at m2 m3 n2 n3
  refine ⟨m, q, v, m1, n1, v1, by rw [n2, m2], by rw [v2, m2], fun r hr => ?_⟩
  have hne := redGroup_ne_nil (keep := keep) h0 (show InBounds (redShape sh (axes.map Int.toNat) keep) r by rw [← m2]; exact hr)
  have := sumSqDev_moments _ hne (valueAt e)
  rw [m3 r hr, n3 r (by rw [n2, ← m2]; exact hr), v3 r (by rw [v2, ← m2]; exact hr)]
  refine ⟨?_, ?_⟩
  · rw [show (redGroup sh (axes.map Int.toNat) keep r).map (valueAt (unaryEx (fun x => x * x) e)) =
      (redGroup sh (axes.map Int.toNat) keep r).map (fun q => valueAt e q * valueAt e q) from rfl, ← this]
    simp [listVariance]
  · unfold listVariance
    refine div_nonneg (List.sum_nonneg fun x hx => ?_) (by simp)
    obtain ⟨y, -, rfl⟩ := List.mem_map.1 hx
    exact sq_nonneg _

/-- C92: the mean lies between the least and the greatest element. -/
theorem C92_mean_between (lo hi : ℚ) {e : Ex ℚ} {sh : List Nat} (hf : Fits sh e) {axes : List Int}
    (hg : GoodAxes sh.length (axes.map (normalizeAxis sh.length))) (keep : Bool) (h0 : numel sh ≠ 0) (hn : numel sh < 2 ^ 64)
    (hr : ∀ idx, InBounds sh idx → lo ≤ valueAt e idx ∧ valueAt e idx ≤ hi) :
    ∃ a b m, lazyReduce (aminFns hi) (aminFns hi).init e sh axes keep = .ok a ∧
      lazyReduce (amaxFns lo) (amaxFns lo).init e sh axes keep = .ok b ∧ meanAxes e sh axes keep 0 = .ok m ∧
      a.shape = m.shape ∧ b.shape = m.shape ∧
      ∀ r, InBounds m.shape r → (a.elem r).1 ≤ m.elem r ∧ m.elem r ≤ (b.elem r).1 := by
  obtain ⟨a, b, c, a1, b1, -, a2, b2, -, h⟩ := C65_amin_amax_partial lo hi hf hg keep
  obtain ⟨m, m1, m2, m3⟩ := C65_mean hf hg keep hn
  refine ⟨a, b, m, a1, b1, m1, by rw [a2, m2], by rw [b2, a2, m2], fun r hb => ?_⟩
  obtain ⟨-, h1, h2⟩ := h r (by rw [a2, ← m2]; exact hb)
  have hne := redGroup_ne_nil h0 (show InBounds (redShape sh _ keep) r by rw [← m2]; exact hb)
  obtain ⟨q, hq⟩ := List.exists_mem_of_ne_nil _ hne
  have hq' := hr q (redGroup_inBounds hq)
  rw [m3 r hb]
  exact listMean_bounds (by simpa using hne) (h1 ⟨_, List.mem_map_of_mem hq, hq'.2⟩).2 (h2 ⟨_, List.mem_map_of_mem hq, hq'.1⟩).2

/-! ### Values that are numbers -/

theorem numbers_some {γ : Type} (l : List γ) (f : γ → Option ℚ) (g : γ → ℚ) (h : ∀ x ∈ l, f x = some (g x)) :
    numbers (l.map f) = l.map g := by
  induction l with
  | nil => rfl
  | cons x l ih =>
    have := ih fun y hy => h y (List.mem_cons_of_mem _ hy)
    rw [List.map_cons, List.map_cons, h x List.mem_cons_self, ← this]
    rfl

/-- C92: without NaN, `nansum` and `nanmean` are `sum` and `mean`, and `count_nonnan` is the size of the groups. -/
theorem C92_nan_free {e : Ex ℚ} {e' : Ex (Option ℚ)} {sh : List Nat} (hf : Fits sh e) (hf' : Fits sh e') {axes : List Int}
    (hg : GoodAxes sh.length (axes.map (normalizeAxis sh.length))) (keep : Bool) (h0 : numel sh ≠ 0) (hn : numel sh < 2 ^ 64)
    (he : ∀ idx, InBounds sh idx → valueAt e' idx = some (valueAt e idx)) :
    ∃ s s' c m m', lazyReduce (monoidFns ℚ) 0 e sh axes keep = .ok s ∧ lazyReduce nanSumFns 0 e' sh axes keep = .ok s' ∧
      lazyReduce nanCountFns 0 e' sh axes keep = .ok c ∧ meanAxes e sh axes keep 0 = .ok m ∧
      nanMeanAxes e' sh axes keep = .ok m' ∧
      s'.shape = s.shape ∧ c.shape = s.shape ∧ m.shape = s.shape ∧ m'.shape = s.shape ∧
      ∀ r, InBounds s.shape r → s'.elem r = s.elem r ∧ m'.elem r = some (m.elem r) ∧
        c.elem r * numel s.shape = numel sh := by
  obtain ⟨s, s1, s2, s3⟩ := lazyReduce_fold (0 : ℚ) hf hg keep (.inl (monoidLaws (M := ℚ)))
  obtain ⟨s', p, c, t1, -, c1, t2, -, c2, h⟩ := C65_nan_sum_prod_count hf' hg keep
  obtain ⟨m, m1, m2, m3⟩ := C65_mean hf hg keep hn
  obtain ⟨m', n1, n2, n3⟩ := C65_nanmean hf' hg keep
  refine ⟨s, s', c, m, m', s1, t1, c1, m1, n1, by rw [t2, s2], by rw [c2, t2, s2], by rw [m2, s2], by rw [n2, s2], fun r hr => ?_⟩
  have hb : InBounds (redShape sh (axes.map (normalizeAxis sh.length)) keep) r := by rw [← s2]; exact hr
  have hne := redGroup_ne_nil h0 hb
  have hnum := numbers_some (redGroup sh (axes.map (normalizeAxis sh.length)) keep r) (valueAt e') (valueAt e)
    fun q hq => he q (redGroup_inBounds hq)
  obtain ⟨h1, -, h3⟩ := h r (by rw [t2]; exact hb)
  have h4 := n3 r (by rw [n2]; exact hb)
  simp only [hnum] at h1 h3 h4
  refine ⟨?_, ?_, ?_⟩
  · rw [h1, s3 r hr, redValue, List.sum_eq_foldl]
    simp only [monoidFns]
  · rw [h4, m3 r (by rw [m2]; exact hb), if_neg (by simpa using hne)]
  · rw [h3, List.length_map, s2, length_redGroup hb]

theorem zero_notMem {sh : List Nat} (h : numel sh ≠ 0) : 0 ∉ sh := fun hm => by
  obtain ⟨k, hk, e⟩ := List.getElem_of_mem hm
  have := pos_of_numel h hk
  rw [List.getD_eq_getElem?_getD, List.getElem?_eq_getElem hk, e] at this
  simp at this

theorem listMean_stages {sh A B C : List Nat} {keep : Bool} (h : InStages sh.length A B C keep) (val : List Nat → ℚ)
    (h0 : numel sh ≠ 0) {r : List Nat} (hr : InBounds (redShape (redShape sh A keep) B keep) r) :
    listMean ((redGroup (redShape sh A keep) B keep r).map fun q => listMean ((redGroup sh A keep q).map val)) =
      listMean ((redGroup sh C keep r).map val) := by
  have hsh : redShape (redShape sh A keep) B keep = redShape sh C keep := dropAxes_stages h 1 rfl
  have hp := redShape_pos hr
  have lB := length_redGroup hr
  have lC := length_redGroup (sh := sh) (axes := C) (keep := keep) (r := r) (by rw [← hsh]; exact hr)
  have hA0 : numel (redShape sh A keep) ≠ 0 := by
    obtain ⟨idx, i1, -⟩ := exists_of_redIndex h0 (axes := C) (keep := keep) (r := r) (by rw [← hsh]; exact hr)
    exact (redShape_pos (inBounds_redIndex (axes := A) keep i1)).ne'
  have hA : ∀ q, InBounds (redShape sh A keep) q →
      (redGroup sh A keep q).length = numel sh / numel (redShape sh A keep) := fun q hq => by
    rw [← length_redGroup hq, Nat.mul_div_cancel _ (by omega)]
  obtain ⟨k, hk⟩ : ∃ k, k = numel sh / numel (redShape sh A keep) := ⟨_, rfl⟩
  rw [← hk] at hA
  have hkn : k * numel (redShape sh A keep) = numel sh := by
    have hz := zeros_inBounds (zero_notMem hA0)
    rw [← hA _ hz, length_redGroup hz]
  have hn : (redGroup sh C keep r).length = k * (redGroup (redShape sh A keep) B keep r).length := by
    rw [← hsh, ← hkn, ← lB] at lC
    apply Nat.eq_of_mul_eq_mul_right hp
    rw [lC]; ring
  have e1 : (redGroup (redShape sh A keep) B keep r).map (fun q => listMean ((redGroup sh A keep q).map val)) =
      (redGroup (redShape sh A keep) B keep r).map fun q => ((redGroup sh A keep q).map val).sum * (k : ℚ)⁻¹ := by
    apply List.map_congr_left
    intro q hq
    rw [listMean, List.length_map, hA q (redGroup_inBounds hq), div_eq_mul_inv]
  rw [e1, listMean, listMean, List.sum_map_mul_right, sum_stages h, List.length_map, List.length_map, hn]
  push_cast
  rw [div_eq_mul_inv, div_eq_mul_inv, mul_inv, mul_assoc]

/-- C92: means can be taken in stages: `mean(mean(e, A), B)` is `mean(e, C)` where `C` has the axes of `A` and those that `B`
names after the first reduction. -/
theorem C92_mean_stages {e : Ex ℚ} {sh : List Nat} (hf : Fits sh e) (keep : Bool) {A B C : List Int}
    (hA : GoodAxes sh.length (A.map (normalizeAxis sh.length)))
    (hB : GoodAxes (redShape sh (A.map (normalizeAxis sh.length)) keep).length
      (B.map (normalizeAxis (redShape sh (A.map (normalizeAxis sh.length)) keep).length)))
    (hC : GoodAxes sh.length (C.map (normalizeAxis sh.length)))
    (h : InStages sh.length (A.map (normalizeAxis sh.length))
      (B.map (normalizeAxis (redShape sh (A.map (normalizeAxis sh.length)) keep).length))
      (C.map (normalizeAxis sh.length)) keep)
    (hne : redShape sh (A.map (normalizeAxis sh.length)) keep ≠ []) (h0 : numel sh ≠ 0) (hn : numel sh < 2 ^ 64) :
    ∃ s t u, meanAxes e sh A keep 0 = .ok s ∧ meanAxes s.toEx s.shape B keep 0 = .ok t ∧
      meanAxes e sh C keep 0 = .ok u ∧ t.shape = u.shape ∧
      ∀ r, InBounds t.shape r → t.elem r = u.elem r := by
  obtain ⟨s, h1, h2, h3⟩ := C65_mean hf hA keep hn
  obtain ⟨u, h4, h5, h6⟩ := C65_mean hf hC keep hn
  have hsn : numel s.shape < 2 ^ 64 := by
    rw [h2]
    rcases Nat.eq_zero_or_pos (numel (redShape sh (A.map (normalizeAxis sh.length)) keep)) with hz | hz
    · rw [hz]; decide
    · have hz' := zeros_inBounds (zero_notMem hz.ne')
      have := length_redGroup hz'
      have h1 : 0 < (redGroup sh (A.map (normalizeAxis sh.length)) keep
        (List.replicate (redShape sh (A.map (normalizeAxis sh.length)) keep).length 0)).length :=
        List.length_pos_iff.2 (redGroup_ne_nil h0 hz')
      nlinarith
  obtain ⟨t, h7, h8, h9⟩ := C65_mean (sh := s.shape) (e := s.toEx) ⟨by rw [h2]; exact hne, broadcastsTo_refl _⟩
    (axes := B) (by rw [h2]; exact hB) keep hsn
  have hsh : t.shape = u.shape := by
    rw [h8, h5, h2]
    exact dropAxes_stages h 1 rfl
  refine ⟨s, t, u, h1, h7, h4, hsh, fun r hr => ?_⟩
  rw [h9 r hr, h6 r (by rw [← hsh]; exact hr)]
  have hrB := hr
  rw [h8] at hrB
  have hrC := hr
  rw [hsh, h5] at hrC
  rw [h2] at hrB ⊢
  rw [← listMean_stages h (valueAt e) h0 hrB]
  congr 1
  apply List.map_congr_left
  intro q hq
  have hq' : InBounds s.shape q := by
    rw [h2]
    exact redGroup_inBounds hq
  rw [valueAt_toEx _ hq', h3 q hq']

/-! ### Counting -/

theorem countLaws {α : Type} [DecidableEq α] [Zero α] : ReducerLaws (countFns (α := α)) :=
  ⟨fun x y v => by
    show x + (if v ≠ 0 then y + 1 else y) = if v ≠ 0 then x + y + 1 else x + y
    split <;> omega, fun x => Nat.add_zero x⟩

theorem foldl_count {α : Type} [DecidableEq α] [Zero α] : ∀ (l : List α) (a : Nat),
    l.foldl countFns.reduce a = a + (l.filter (· ≠ 0)).length
  | [], a => rfl
  | x :: l, a => by
    rw [List.foldl_cons, foldl_count l]
    show (if x ≠ 0 then a + 1 else a) + _ = _
    by_cases hx : x = 0
    · simp [hx]
    · simp [hx]; omega

/-- C92: `count_nonzero(e, axes)` is the number of the elements of each group that are not zero. -/
theorem C92_count_groups {α : Type} [DecidableEq α] [Zero α] (d : Nat) {e : Ex α} {sh : List Nat} (hf : Fits sh e)
    {axes : List Int} (hg : GoodAxes sh.length (axes.map (normalizeAxis sh.length))) (keep : Bool) :
    ∃ c, lazyReduce countFns d e sh axes keep = .ok c ∧ c.shape = redShape sh (axes.map (normalizeAxis sh.length)) keep ∧
      ∀ r, InBounds c.shape r → c.elem r =
        ((redGroup sh (axes.map (normalizeAxis sh.length)) keep r).filter fun q => valueAt e q ≠ 0).length := by
  obtain ⟨c, c1, c2, c3⟩ := lazyReduce_ok (countLaws (α := α)) d hf hg keep
  refine ⟨c, c1, c2, fun r hr => ?_⟩
  rw [c3 r hr, redValue, foldl_count, List.filter_map, List.length_map]
  exact Nat.zero_add _

theorem filter_orderIndices_length (L : Layout) (sh : List Nat) (c : List Nat → Bool) :
    ((orderIndices L sh).filter c).length = ((rowIndices sh).filter c).length := by
  have : (orderIndices L sh).Perm (rowIndices sh) := by
    cases L <;> first
      | exact List.Perm.refl _
      | exact (List.perm_ext_iff_of_nodup (colIndices_nodup sh) (rowIndices_nodup sh)).2 fun q => by
          rw [mem_colIndices, mem_rowIndices]
  exact (this.filter c).length_eq

/-- C92: `count_nonzero(e)` is the number of rows of `argwhere(e)`, in either order of traversal, the length of each list of
`nonzero(e)` and the size of `filter(e, e != 0)`. -/
theorem C92_count_where {α : Type} [DecidableEq α] [Zero α] (d : Nat) {e : Ex α} {sh : List Nat} (hf : Fits sh e)
    {L : Layout} (hL : L = .row_major ∨ L = .column_major) (a : StridedArr) :
    ∃ c, lazyReduce countFns d e sh (toInts (List.range sh.length)) false = .ok c ∧ c.shape = [] ∧
      c.elem [] = (argwhere L sh fun q => valueAt e q ≠ 0).length ∧
      (∀ col ∈ nonzero sh (fun q => valueAt e q ≠ 0), c.elem [] = col.length) ∧
      c.elem [] = (filterView L a sh fun q => valueAt e q ≠ 0).indices.length := by
  have hn : (toInts (List.range sh.length)).map (normalizeAxis sh.length) = List.range sh.length := by
    rw [toInts, List.map_map]
    exact (List.map_congr_left fun k _ => by
      show normalizeAxis _ ((k : Nat) : Int) = k
      unfold normalizeAxis
      rw [if_neg (by omega)]; rfl).trans (List.map_id _)
  obtain ⟨c, c1, c2, c3⟩ := C92_count_groups d hf (axes := toInts (List.range sh.length)) (by rw [hn]; exact goodAxes_range _) false
  rw [hn] at c2 c3
  have hs : c.shape = [] := by rw [c2, redShape_all]; rfl
  have hc := c3 [] (by rw [hs]; trivial)
  rw [redGroup_all (by rw [← c2, hs]; trivial)] at hc
  refine ⟨c, c1, hs, ?_, ?_, ?_⟩
  · rw [hc, argwhere_eq hL, filter_orderIndices_length]
  · intro col hcol
    rw [C60_nonzero, columns] at hcol
    obtain ⟨j, _, rfl⟩ := List.mem_map.1 hcol
    rw [hc, List.length_map, filter_orderIndices_length]
  · rw [hc, filterView, argwhere_eq hL, filter_orderIndices_length]

/-! ### Quantiles -/

theorem sortedOf_exists (l : List ℚ) : ∃ s, SortedOf l s :=
  ⟨l.insertionSort (· ≤ ·), List.perm_insertionSort _ _, List.pairwise_insertionSort _ _⟩

/-- C92: the quantile of probability one half, with equal parameters, is the median. -/
theorem C92_quantile_median_partial {nth : List ℚ → Nat → List ℚ} (hn : NthBy (fun a : ℚ => a) nth) {L : Layout}
    (hL : L = .row_major ∨ L = .column_major) {v : Strd} (hv : v.WF) (hl : v.layout = L)
    (mem : Int → ℚ) (hd : 1 ≤ v.shape.length) (hsmall : v.shape.length < 2 ^ 63) {axis : Int} (h1 : -(v.shape.length : Int) ≤ axis)
    (h2 : axis < v.shape.length) (hpos : 1 ≤ v.shape.getD (axisOf v.shape.length axis) 0)
    (h64 : v.shape.getD (axisOf v.shape.length axis) 0 < 2 ^ 64) {a : ℚ} (ha : a ≤ 1) :
    ∃ w m, quantileAxis nth L v mem [1 / 2] axis a a = .ok (w, m) ∧
      w.shape = 1 :: v.shape.eraseIdx (axisOf v.shape.length axis) ∧
      ∀ q, InBounds (v.shape.eraseIdx (axisOf v.shape.length axis)) q →
        medianAxis nth L v mem axis q = .ok (w.read m (0 :: q)) := by
  obtain ⟨w, m, w1, w2, w3⟩ := C64_quantile_partial hn hL hv (.inl hl) mem hsmall h1 h2 hpos h64 [1 / 2] ha ha
  refine ⟨w, m, w1, w2, fun q hq => ?_⟩
  obtain ⟨s, hs⟩ : ∃ s, SortedOf (line (v.read mem) (v.shape.getD (axisOf v.shape.length axis) 0) (axisOf v.shape.length axis)
      (q.insertIdx (axisOf v.shape.length axis) 0)) s := sortedOf_exists _
  have hlen : s.length = v.shape.getD (axisOf v.shape.length axis) 0 := by
    rw [hs.1.length_eq]; simp [line]
  rw [C42_median_axis_partial hn hL hv hl mem hd hsmall h1 h2 (by omega) hq hs]
  rw [C64_quantile_half (by omega) (by omega) ha (w3 0 _ q s rfl hq hs)]

/-- C92: quantiles grow with the probability, and with the default method those of probability 0 and 1 are the least and the
greatest element. -/
theorem C92_quantile_order_partial {nth : List ℚ → Nat → List ℚ} (hn : NthBy (fun a : ℚ => a) nth) {L : Layout}
    (hL : L = .row_major ∨ L = .column_major) {v : Strd} (hv : v.WF) (hl : v.layout = L)
    (mem : Int → ℚ) (hsmall : v.shape.length < 2 ^ 63) {axis : Int} (h1 : -(v.shape.length : Int) ≤ axis)
    (h2 : axis < v.shape.length) (hpos : 1 ≤ v.shape.getD (axisOf v.shape.length axis) 0)
    (h64 : v.shape.getD (axisOf v.shape.length axis) 0 < 2 ^ 64) (ps : List ℚ) {a b : ℚ} (ha : a ≤ 1) (hb : b ≤ 1) :
    ∃ w m, quantileAxis nth L v mem ps axis a b = .ok (w, m) ∧
      ∀ q, InBounds (v.shape.eraseIdx (axisOf v.shape.length axis)) q →
        let l := line (v.read mem) (v.shape.getD (axisOf v.shape.length axis) 0) (axisOf v.shape.length axis)
          (q.insertIdx (axisOf v.shape.length axis) 0)
        (∀ (i j : Nat) (x y : ℚ), ps[i]? = some x → ps[j]? = some y → x ≤ y → w.read m (i :: q) ≤ w.read m (j :: q)) ∧
        (a = 1 → b = 1 → ∀ i : Nat, ps[i]? = some 0 → w.read m (i :: q) ∈ l ∧ ∀ x ∈ l, w.read m (i :: q) ≤ x) ∧
        (a = 1 → b = 1 → ∀ i : Nat, ps[i]? = some 1 → w.read m (i :: q) ∈ l ∧ ∀ x ∈ l, x ≤ w.read m (i :: q)) := by
  obtain ⟨w, m, w1, w2, w3⟩ := C64_quantile_partial hn hL hv (.inl hl) mem hsmall h1 h2 hpos h64 ps ha hb
  refine ⟨w, m, w1, fun q hq => ?_⟩
  intro l
  obtain ⟨s, hs⟩ : ∃ s, SortedOf l s := sortedOf_exists _
  have hlen : s.length = v.shape.getD (axisOf v.shape.length axis) 0 := by
    rw [hs.1.length_eq]; simp [l, line]
  have hmem : ∀ x, x ∈ s ↔ x ∈ l := fun x => hs.1.mem_iff
  refine ⟨fun i j x y hx hy hxy => ?_, fun ea eb i hi => ?_, fun ea eb i hi => ?_⟩
  · exact C64_quantile_monotone (by omega) (by omega) hs.2 ha hb (w3 i x q s hx hq hs) (w3 j y q s hy hq hs) hxy
  · subst ea eb
    rw [(C64_linear_extremes (by omega)).1 (w3 i 0 q s hi hq hs)]
    obtain ⟨x, t, rfl⟩ := List.exists_cons_of_length_pos (l := s) (by omega)
    refine ⟨(hmem _).1 List.mem_cons_self, fun y hy => ?_⟩
    rcases List.mem_cons.1 ((hmem y).2 hy) with rfl | h
    · exact le_refl _
    · exact (List.pairwise_cons.1 hs.2).1 y h
  · subst ea eb
    rw [(C64_linear_extremes (by omega)).2 (w3 i 1 q s hi hq hs)]
    have hl : s.length - 1 < s.length := by omega
    rw [List.getD_eq_getElem?_getD, List.getElem?_eq_getElem hl, Option.getD_some]
    refine ⟨(hmem _).1 (List.getElem_mem _), fun y hy => ?_⟩
    obtain ⟨k, hk, rfl⟩ := List.getElem_of_mem ((hmem y).2 hy)
    rcases Nat.lt_or_ge k (s.length - 1) with h | h
    · exact List.pairwise_iff_getElem.1 hs.2 k _ hk hl h
    · have : k = s.length - 1 := by omega
      subst this; exact le_refl _

/-! ### Covariance -/

/-- C92: the covariance of a sample with itself is its variance with one degree of freedom taken off, and the matrix is
symmetric. -/
theorem C92_cov_variance {x : List (List ℚ)} {n r c : Nat} (hx : ∀ row ∈ x, row.length = n) (hn : 2 ≤ n) (hr : r < x.length)
    (hc : c < x.length) :
    covMatrix x n r r = listVariance 1 (x.getD r []) ∧ covMatrix x n r c = covMatrix x n c r := by
  have hl : (x.getD r []).length = n := by
    rw [List.getD_eq_getElem?_getD, List.getElem?_eq_getElem hr]
    exact hx _ (List.getElem_mem _)
  refine ⟨?_, ?_⟩
  · rw [C66_cov hx hn hr hr, covariance, listVariance, sumSqDev, hl]
    generalize x.getD r [] = row at hl
    have hs : ∀ f : ℚ → ℚ, ∑ k ∈ Finset.range n, f (row.getD k 0) = (row.map f).sum := by
      intro f
      subst hl
      rw [Finset.sum_range]
      simp [← List.sum_ofFn]
    have h1 := hs id
    simp only [id] at h1
    rw [List.map_id] at h1
    rw [h1, ← hs, listMean, hl]
    push_cast
    congr 1
    exact Finset.sum_congr rfl fun k _ => by ring
  · rw [C66_cov hx hn hr hc, C66_cov hx hn hc hr, covariance, covariance]
    congr 1
    exact Finset.sum_congr rfl fun k _ => mul_comm _ _

/-! ### Examples -/

example : ∃ v m, averageAll .row_major (gridEx 2 3) [2, 3] (.scalar 5) [2, 3] false 9 = .ok v ∧
    meanAll (gridEx 2 3) [2, 3] false 0 = .ok m ∧ v.shape = m.shape ∧ ∀ r, InBounds m.shape r → v.elem r = m.elem r :=
  C92_average_equal_weights (.inl rfl) (gridEx_fits 2 3) (w := .scalar 5) trivial (by decide) (by decide) false 9 (c := 5) (by decide +kernel)
    fun _ _ => rfl

example : ∃ v m, averageAxes .row_major .column_major (gridEx 2 3) [2, 3] ⟨[2, 3], fun _ => 7⟩ [-1] false 9 = .ok v ∧
    meanAxes (gridEx 2 3) [2, 3] [-1] false 0 = .ok m ∧ v.shape = m.shape ∧ ∀ r, InBounds m.shape r → v.elem r = m.elem r :=
  C92_average_axes_equal_weights_partial (.inl rfl) (.inr rfl) (gridEx_fits 2 3) (by decide) ⟨[2, 3], fun _ => 7⟩ rfl (by decide)
    (by decide) (by decide) (by decide) 9 (c := 7) (by decide +kernel) fun _ _ => rfl

example : ∃ m m' v v', meanAxes (gridEx 2 3) [2, 3] [1] true 0 = .ok m ∧
    meanAxes (unaryEx (fun x => 2 * x + 1) (gridEx 2 3)) [2, 3] [1] true 0 = .ok m' ∧
    varianceSeq .row_major (gridEx 2 3) [2, 3] [1] true 1 9 = .ok v ∧
    varianceSeq .row_major (unaryEx (fun x => 2 * x + 1) (gridEx 2 3)) [2, 3] [1] true 1 9 = .ok v' ∧
    m'.shape = m.shape ∧ v.shape = m.shape ∧ v'.shape = m.shape ∧
    ∀ r, InBounds m.shape r → m'.elem r = 2 * m.elem r + 1 ∧ v'.elem r = 2 * 2 * v.elem r :=
  C92_affine_partial (.inl rfl) (gridEx_fits 2 3) (by decide) (by decide) (by decide) (by decide) true (by decide) 9 2 1

example : ∃ m q v, meanAxes (gridEx 2 3) [2, 3] [0] false 0 = .ok m ∧
    meanAxes (unaryEx (fun x => x * x) (gridEx 2 3)) [2, 3] [0] false 0 = .ok q ∧
    varianceSeq .row_major (gridEx 2 3) [2, 3] [0] false 0 9 = .ok v ∧ q.shape = m.shape ∧ v.shape = m.shape ∧
    ∀ r, InBounds m.shape r → v.elem r = q.elem r - m.elem r * m.elem r ∧ 0 ≤ v.elem r :=
  C92_variance_moments_partial (.inl rfl) (gridEx_fits 2 3) (by decide) (by decide) (by decide) (by decide) false 9

example : ∃ a b m, lazyReduce (aminFns (100 : ℚ)) (aminFns 100).init (unaryEx (fun x => if x < 3 then 3 else 50) (gridEx 2 3)) [2, 3] [0] false = .ok a ∧
    lazyReduce (amaxFns (-100 : ℚ)) (amaxFns (-100)).init (unaryEx (fun x => if x < 3 then 3 else 50) (gridEx 2 3)) [2, 3] [0] false = .ok b ∧
    meanAxes (unaryEx (fun x => if x < 3 then 3 else 50) (gridEx 2 3)) [2, 3] [0] false 0 = .ok m ∧
    a.shape = m.shape ∧ b.shape = m.shape ∧
    ∀ r, InBounds m.shape r → (a.elem r).1 ≤ m.elem r ∧ m.elem r ≤ (b.elem r).1 :=
  C92_mean_between (-100) 100 (fits_unary (gridEx_fits 2 3)) (by decide) false (by decide) (by decide) fun idx _ => by
    rw [valueAt_unary]
    split <;> norm_num

example : ∃ s s' c m m', lazyReduce (monoidFns ℚ) 0 (gridEx 2 3) [2, 3] [-1] false = .ok s ∧
    lazyReduce nanSumFns 0 (.arr (StridedArr.container .row_major [2, 3] 0) fun k => some (k : ℚ)) [2, 3] [-1] false = .ok s' ∧
    lazyReduce nanCountFns 0 (.arr (StridedArr.container .row_major [2, 3] 0) fun k => some (k : ℚ)) [2, 3] [-1] false = .ok c ∧
    meanAxes (gridEx 2 3) [2, 3] [-1] false 0 = .ok m ∧
    nanMeanAxes (.arr (StridedArr.container .row_major [2, 3] 0) fun k => some (k : ℚ)) [2, 3] [-1] false = .ok m' ∧
    s'.shape = s.shape ∧ c.shape = s.shape ∧ m.shape = s.shape ∧ m'.shape = s.shape ∧
    ∀ r, InBounds s.shape r → s'.elem r = s.elem r ∧ m'.elem r = some (m.elem r) ∧ c.elem r * numel s.shape = numel [2, 3] :=
  C92_nan_free (gridEx_fits 2 3) (e' := .arr (StridedArr.container .row_major [2, 3] 0) fun k => some (k : ℚ))
    ⟨container_wf _ _, Nat.le_refl _, fun _ _ => .inr rfl⟩ (by decide) false (by decide) (by decide)
    fun _ _ => rfl

example : ∃ s t u, meanAxes (gridEx 2 3) [2, 3] [0] false 0 = .ok s ∧ meanAxes s.toEx s.shape [0] false 0 = .ok t ∧
    meanAxes (gridEx 2 3) [2, 3] [0, 1] false 0 = .ok u ∧ t.shape = u.shape ∧ ∀ r, InBounds t.shape r → t.elem r = u.elem r :=
  C92_mean_stages (gridEx_fits 2 3) false (by decide) (by decide) (by decide)
    (by
      intro a ha
      match a, ha with
      | 0, _ => decide
      | 1, _ => decide) (by decide) (by decide) (by decide)

example : (lazyReduce countFns 9 (gridEx 2 3) [2, 3] [1] false).map (fun c => (c.shape, c.elem [0], c.elem [1])) =
    .ok ([2], 2, 3) ∧ (argwhere .column_major [2, 3] fun q => valueAt (gridEx 2 3) q ≠ 0).length = 5 := by decide +kernel

example (a : StridedArr) : ∃ c, lazyReduce countFns 9 (gridEx 2 3) [2, 3] (toInts (List.range 2)) false = .ok c ∧ c.shape = [] ∧
    c.elem [] = (argwhere .row_major [2, 3] fun q => valueAt (gridEx 2 3) q ≠ 0).length ∧
    (∀ col ∈ nonzero [2, 3] (fun q => valueAt (gridEx 2 3) q ≠ 0), c.elem [] = col.length) ∧
    c.elem [] = (filterView .row_major a [2, 3] fun q => valueAt (gridEx 2 3) q ≠ 0).indices.length :=
  C92_count_where 9 (gridEx_fits 2 3) (.inl rfl) a

/-- A matrix meets the hypotheses of `C92_quantile_median_partial` and `C92_quantile_order_partial`. -/
example : ∃ w m, quantileAxis ratNth .row_major ⟨[2, 3], [3, 1], 0, .row_major⟩ quantMem [1 / 2] 1 (2 / 5) (2 / 5) = .ok (w, m) ∧
    w.shape = [1, 2] ∧ ∀ q, InBounds [2] q →
      medianAxis ratNth .row_major ⟨[2, 3], [3, 1], 0, .row_major⟩ quantMem 1 q = .ok (w.read m (0 :: q)) :=
  C92_quantile_median_partial (nthBy_of_sortBy (sortBy_insertion fun a : Rat => a)) (.inl rfl) (v := ⟨[2, 3], [3, 1], 0, .row_major⟩) rfl rfl
    quantMem (by decide) (by decide) (by decide) (by decide) (by decide) (by decide) (by norm_num)

example : (quantileAxis ratNth .row_major ⟨[2, 3], [3, 1], 0, .row_major⟩ quantMem [0, 1 / 2, 1] 1 1 1).map
    (fun r => (rowIndices r.1.shape).map (r.1.read r.2)) = .ok [1, 0, 2, 4, 3, 5] := by decide +kernel

example : covMatrix [[1, 2, 3], [5, 1, 0]] 3 1 1 = listVariance 1 [5, 1, 0] ∧
    covMatrix [[1, 2, 3], [5, 1, 0]] 3 1 0 = covMatrix [[1, 2, 3], [5, 1, 0]] 3 0 1 :=
  C92_cov_variance (r := 1) (c := 0) (by simp) (by decide) (by decide) (by decide)

end Xt
