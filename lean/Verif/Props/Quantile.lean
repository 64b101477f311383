import Verif.Model.Quantile
import Verif.Spec.Quantile
import Verif.Props.Partition
import Verif.Props.StridedView
import Verif.Props.Chunked
import Mathlib.Tactic.Linarith
import Mathlib.Tactic.FieldSimp
import Mathlib.Algebra.Order.Floor.Ring
/-!
# C64: quantiles
-/

namespace Xt

open Spec

/-! ### The interpolation -/

/-- The value interpolated at a position. -/
def interp (s : List ℚ) (h : ℚ) : ℚ :=
  s.getD (clipIndex s.length ⌊h⌋) 0 * (1 - (h - ⌊h⌋)) + s.getD (clipIndex s.length (⌊h⌋ + 1)) 0 * (h - ⌊h⌋)

theorem clipIndex_eq {n : Nat} (h1 : 1 ≤ n) (h2 : n < 2 ^ 64) (j : Int) :
    clipIndex n j = (max 0 (min j ((n : Int) - 1))).toNat := by
  unfold clipIndex
  have e : ((n : Int) - 1) % 2 ^ 64 = (n : Int) - 1 := Int.emod_eq_of_lt (by omega) (by omega)
  simp only [e]
  split
  · omega
  · split <;> omega

theorem clipIndex_lt {n : Nat} (h1 : 1 ≤ n) (h2 : n < 2 ^ 64) (j : Int) : clipIndex n j < n := by
  rw [clipIndex_eq h1 h2]
  omega

theorem interp_below {s : List ℚ} (h1 : 1 ≤ s.length) (h2 : s.length < 2 ^ 64) {h : ℚ} (hh : h ≤ 0) :
    interp s h = s.getD 0 0 := by
  unfold interp
  have hj : ⌊h⌋ ≤ 0 := by
    have := Int.floor_le_floor hh
    simpa using this
  rw [clipIndex_eq h1 h2, clipIndex_eq h1 h2]
  rcases hj.lt_or_eq with hlt | heq
  · rw [show (max 0 (min ⌊h⌋ ((s.length : Int) - 1))).toNat = 0 by omega,
      show (max 0 (min (⌊h⌋ + 1) ((s.length : Int) - 1))).toNat = 0 by omega]
    ring
  · have h0 : h = 0 := le_antisymm hh (by have := Int.floor_le h; rw [heq] at this; simpa using this)
    subst h0
    simp

theorem interp_above {s : List ℚ} (h1 : 1 ≤ s.length) (h2 : s.length < 2 ^ 64) {h : ℚ} (hh : (s.length : ℚ) - 1 ≤ h) :
    interp s h = s.getD (s.length - 1) 0 := by
  unfold interp
  have hj : (s.length : Int) - 1 ≤ ⌊h⌋ := Int.le_floor.2 (by push_cast; exact hh)
  rw [clipIndex_eq h1 h2, clipIndex_eq h1 h2]
  rw [show (max 0 (min ⌊h⌋ ((s.length : Int) - 1))).toNat = s.length - 1 by omega,
    show (max 0 (min (⌊h⌋ + 1) ((s.length : Int) - 1))).toNat = s.length - 1 by omega]
  ring

theorem interp_between {s : List ℚ} (h2 : s.length < 2 ^ 64) {k : Nat} {t : ℚ}
    (hk : k + 1 < s.length) (ht0 : 0 ≤ t) (ht1 : t ≤ 1) :
    interp s ((k : ℚ) + t) = s.getD k 0 + t * (s.getD (k + 1) 0 - s.getD k 0) := by
  have h1 : 1 ≤ s.length := by omega
  unfold interp
  rw [clipIndex_eq h1 h2, clipIndex_eq h1 h2]
  rcases ht1.lt_or_eq with hlt | rfl
  · have hf : ⌊(k : ℚ) + t⌋ = (k : Int) := by
      rw [Int.floor_eq_iff]
      push_cast
      constructor <;> linarith
    rw [hf, show (max 0 (min (k : Int) ((s.length : Int) - 1))).toNat = k by omega,
      show (max 0 (min ((k : Int) + 1) ((s.length : Int) - 1))).toNat = k + 1 by omega]
    push_cast
    ring
  · have hf : ⌊(k : ℚ) + 1⌋ = (k : Int) + 1 := by
      rw [Int.floor_eq_iff]
      push_cast
      constructor <;> linarith
    rw [hf, show (max 0 (min ((k : Int) + 1) ((s.length : Int) - 1))).toNat = k + 1 by omega]
    push_cast
    ring

theorem quantilePos_eq (n : Nat) (a b p : ℚ) : quantilePos n a b p = p * ((n : ℚ) + 1 - a - b) + a - 1 := by
  unfold quantilePos
  ring

theorem length_cast_ge {n : Nat} (h : 1 ≤ n) : (1 : ℚ) ≤ (n : ℚ) := by exact_mod_cast h

/-- The position used by the code gives the quantile of Hyndman and Fan. -/
theorem interp_isQuantile {s : List ℚ} (h1 : 1 ≤ s.length) (h2 : s.length < 2 ^ 64) {a b : ℚ} (ha : a ≤ 1) (hb : b ≤ 1)
    (p : ℚ) : IsQuantile s a b p (interp s (quantilePos s.length a b p)) := by
  have hn := length_cast_ge h1
  rw [quantilePos_eq]
  by_cases hD : 0 < (s.length : ℚ) + 1 - a - b
  · have hp : ∀ k, plotPos s.length a b k * ((s.length : ℚ) + 1 - a - b) = (k : ℚ) + 1 - a := by
      intro k
      unfold plotPos
      exact div_mul_cancel₀ _ hD.ne'
    refine ⟨?_, ?_, ?_⟩
    · intro k t hk ht0 ht1 e
      rw [← interp_between h2 hk ht0 ht1]
      congr 1
      have e1 := hp k
      have e2 := hp (k + 1)
      rw [e]
      have : (plotPos s.length a b k + t * (plotPos s.length a b (k + 1) - plotPos s.length a b k)) *
          ((s.length : ℚ) + 1 - a - b) = plotPos s.length a b k * ((s.length : ℚ) + 1 - a - b) +
          t * (plotPos s.length a b (k + 1) * ((s.length : ℚ) + 1 - a - b) -
            plotPos s.length a b k * ((s.length : ℚ) + 1 - a - b)) := by ring
      rw [this, e1, e2]
      push_cast
      ring
    · intro e
      apply interp_below h1 h2
      have := mul_le_mul_of_nonneg_right e hD.le
      rw [hp 0] at this
      push_cast at this
      linarith
    · intro e
      apply interp_above h1 h2
      have := mul_le_mul_of_nonneg_right e hD.le
      rw [hp (s.length - 1)] at this
      rw [Nat.cast_sub h1] at this
      push_cast at this
      linarith
  · have e1 : s.length = 1 := by
      have : (s.length : ℚ) ≤ 1 := by linarith
      have : s.length ≤ 1 := by exact_mod_cast this
      omega
    have hc : ∀ j, clipIndex s.length j = 0 := fun j => by
      have := clipIndex_lt h1 h2 j
      omega
    have hi : ∀ h, interp s h = s.getD 0 0 := fun h => by
      unfold interp
      rw [hc, hc]
      ring
    rw [hi]
    exact ⟨fun k t hk => by omega, fun _ => rfl, fun _ => by rw [e1]⟩

/-- The specification determines the quantile. -/
theorem C64_quantile_unique {s : List ℚ} (h1 : 1 ≤ s.length) {a b p q q' : ℚ} (ha : a ≤ 1) (hb : b ≤ 1)
    (h : IsQuantile s a b p q) (h' : IsQuantile s a b p q') : q = q' := by
  have hn := length_cast_ge h1
  by_cases hD : 0 < (s.length : ℚ) + 1 - a - b
  · rcases le_or_gt p (plotPos s.length a b 0) with c | c
    · rw [h.2.1 c, h'.2.1 c]
    rcases le_or_gt (plotPos s.length a b (s.length - 1)) p with c' | c'
    · rw [h.2.2 c', h'.2.2 c']
    have lo : 0 < p * ((s.length : ℚ) + 1 - a - b) + a - 1 := by
      unfold plotPos at c
      have := (div_lt_iff₀ hD).1 c
      push_cast at this
      linarith
    have hi : p * ((s.length : ℚ) + 1 - a - b) + a - 1 < (s.length : ℚ) - 1 := by
      unfold plotPos at c'
      have := (lt_div_iff₀ hD).1 c'
      rw [Nat.cast_sub h1] at this
      push_cast at this
      linarith
    obtain ⟨x, hx⟩ : ∃ x, x = p * ((s.length : ℚ) + 1 - a - b) + a - 1 := ⟨_, rfl⟩
    rw [← hx] at lo hi
    have f0 : 0 ≤ ⌊x⌋ := Int.floor_nonneg.2 lo.le
    have f1 : ⌊x⌋ < (s.length : Int) - 1 := Int.floor_lt.2 (by push_cast; exact hi)
    obtain ⟨k, hk⟩ := Int.eq_ofNat_of_zero_le f0
    have hp : p = plotPos s.length a b k + (x - k) * (plotPos s.length a b (k + 1) - plotPos s.length a b k) := by
      unfold plotPos
      field_simp
      push_cast
      rw [hx]
      ring
    have g1 := Int.floor_le x
    have g2 := Int.lt_floor_add_one x
    rw [hk] at g1 g2
    push_cast at g1 g2
    rw [h.1 k (x - k) (by omega) (by linarith) (by linarith) hp,
      h'.1 k (x - k) (by omega) (by linarith) (by linarith) hp]
  · have e1 : (s.length : ℚ) + 1 - a - b = 0 := by linarith
    have e0 : plotPos s.length a b 0 = 0 := by
      unfold plotPos
      rw [e1, div_zero]
    have e2 : plotPos s.length a b (s.length - 1) = 0 := by
      unfold plotPos
      rw [e1, div_zero]
    have e3 : s.length = 1 := by
      have : (s.length : ℚ) ≤ 1 := by linarith
      have : s.length ≤ 1 := by exact_mod_cast this
      omega
    rcases le_total p 0 with c | c
    · rw [h.2.1 (by rw [e0]; exact c), h'.2.1 (by rw [e0]; exact c)]
    · rw [h.2.2 (by rw [e2]; exact c), h'.2.2 (by rw [e2]; exact c)]

theorem sorted_getD {s : List ℚ} (hs : s.Pairwise (· ≤ ·)) {i j : Nat} (hij : i ≤ j) (hj : j < s.length) :
    s.getD i 0 ≤ s.getD j 0 := by
  rw [List.getD_eq_getElem?_getD, List.getD_eq_getElem?_getD, List.getElem?_eq_getElem (by omega),
    List.getElem?_eq_getElem hj]
  rcases hij.lt_or_eq with h | rfl
  · exact List.pairwise_iff_getElem.1 hs i j (by omega) hj h
  · exact le_refl _

theorem interp_mono {s : List ℚ} (h1 : 1 ≤ s.length) (h2 : s.length < 2 ^ 64) (hs : s.Pairwise (· ≤ ·)) {x y : ℚ}
    (hxy : x ≤ y) : interp s x ≤ interp s y := by
  have hc : ∀ i j : Int, i ≤ j → s.getD (clipIndex s.length i) 0 ≤ s.getD (clipIndex s.length j) 0 := by
    intro i j hij
    apply sorted_getD hs _ (clipIndex_lt h1 h2 j)
    rw [clipIndex_eq h1 h2, clipIndex_eq h1 h2]
    omega
  have hfl : ⌊x⌋ ≤ ⌊y⌋ := Int.floor_le_floor hxy
  have x1 := Int.floor_le x
  have x2 := Int.lt_floor_add_one x
  have y1 := Int.floor_le y
  have y2 := Int.lt_floor_add_one y
  unfold interp
  rcases hfl.lt_or_eq with hlt | heq
  · have m1 := hc ⌊x⌋ (⌊x⌋ + 1) (by omega)
    have m2 := hc (⌊x⌋ + 1) ⌊y⌋ (by omega)
    have m3 := hc ⌊y⌋ (⌊y⌋ + 1) (by omega)
    generalize s.getD (clipIndex s.length ⌊x⌋) 0 = u1 at *
    generalize s.getD (clipIndex s.length (⌊x⌋ + 1)) 0 = u2 at *
    generalize s.getD (clipIndex s.length ⌊y⌋) 0 = u3 at *
    generalize s.getD (clipIndex s.length (⌊y⌋ + 1)) 0 = u4 at *
    have e1 : u1 * (1 - (x - ⌊x⌋)) + u2 * (x - ⌊x⌋) ≤ u2 := by nlinarith
    have e2 : u3 ≤ u3 * (1 - (y - ⌊y⌋)) + u4 * (y - ⌊y⌋) := by nlinarith
    linarith
  · rw [← heq]
    have m1 := hc ⌊x⌋ (⌊x⌋ + 1) (by omega)
    generalize s.getD (clipIndex s.length ⌊x⌋) 0 = u1 at *
    generalize s.getD (clipIndex s.length (⌊x⌋ + 1)) 0 = u2 at *
    nlinarith

/-- Quantiles grow with the probability. -/
theorem C64_quantile_monotone {s : List ℚ} (h1 : 1 ≤ s.length) (h2 : s.length < 2 ^ 64) (hs : s.Pairwise (· ≤ ·))
    {a b p p' q q' : ℚ} (ha : a ≤ 1) (hb : b ≤ 1) (hq : IsQuantile s a b p q) (hq' : IsQuantile s a b p' q')
    (hp : p ≤ p') : q ≤ q' := by
  have hn := length_cast_ge h1
  rw [C64_quantile_unique h1 ha hb hq (interp_isQuantile h1 h2 ha hb p),
    C64_quantile_unique h1 ha hb hq' (interp_isQuantile h1 h2 ha hb p')]
  apply interp_mono h1 h2 hs
  rw [quantilePos_eq, quantilePos_eq]
  have : p * ((s.length : ℚ) + 1 - a - b) ≤ p' * ((s.length : ℚ) + 1 - a - b) :=
    mul_le_mul_of_nonneg_right hp (by linarith)
  linarith

/-- The quantile of probability one half is the median whenever the two parameters agree. -/
theorem C64_quantile_half {s : List ℚ} (h1 : 1 ≤ s.length) (h2 : s.length < 2 ^ 64) {a q : ℚ} (ha : a ≤ 1)
    (hq : IsQuantile s a a (1 / 2) q) : q = Median s := by
  rw [C64_quantile_unique h1 ha ha hq (interp_isQuantile h1 h2 ha ha _)]
  have e : quantilePos s.length a a (1 / 2) = ((s.length : ℚ) - 1) / 2 := by
    rw [quantilePos_eq]
    ring
  rw [e]
  unfold Median
  by_cases hodd : s.length % 2 = 1
  · rw [if_pos hodd]
    have e2 : ((s.length : ℚ) - 1) / 2 = ((s.length / 2 : Nat) : ℚ) := by
      have : s.length = 2 * (s.length / 2) + 1 := by omega
      have h3 : (s.length : ℚ) = 2 * ((s.length / 2 : Nat) : ℚ) + 1 := by exact_mod_cast this
      linarith
    rw [e2]
    unfold interp
    rw [Int.floor_natCast, clipIndex_eq h1 h2, clipIndex_eq h1 h2,
      show (max 0 (min ((s.length / 2 : Nat) : Int) ((s.length : Int) - 1))).toNat = s.length / 2 by omega, Int.cast_natCast,
      sub_self, sub_zero, mul_one, mul_zero, add_zero]
  · rw [if_neg hodd]
    have e2 : ((s.length : ℚ) - 1) / 2 = ((s.length / 2 - 1 : Nat) : ℚ) + 1 / 2 := by
      have : s.length = 2 * (s.length / 2 - 1) + 2 := by omega
      have h3 : (s.length : ℚ) = 2 * ((s.length / 2 - 1 : Nat) : ℚ) + 2 := by exact_mod_cast this
      linarith
    rw [e2, interp_between h2 (by omega) (by norm_num) (by norm_num), show s.length / 2 - 1 + 1 = s.length / 2 by omega]
    ring

/-- The plotting positions of the methods, as in the list of Hyndman and Fan (`k` counted from 1 there). -/
theorem C64_methods (n k : Nat) :
    (plotPos n (QuantileMethod.params .interpolated_inverted_cdf).1 (QuantileMethod.params .interpolated_inverted_cdf).2 k =
      ((k : ℚ) + 1) / n) ∧
    (plotPos n (QuantileMethod.params .hazen).1 (QuantileMethod.params .hazen).2 k = ((k : ℚ) + 1 - 1 / 2) / n) ∧
    (plotPos n (QuantileMethod.params .weibull).1 (QuantileMethod.params .weibull).2 k = ((k : ℚ) + 1) / (n + 1)) ∧
    (plotPos n (QuantileMethod.params .linear).1 (QuantileMethod.params .linear).2 k = ((k : ℚ) + 1 - 1) / (n - 1)) ∧
    (plotPos n (QuantileMethod.params .median_unbiased).1 (QuantileMethod.params .median_unbiased).2 k =
      ((k : ℚ) + 1 - 1 / 3) / (n + 1 / 3)) ∧
    (plotPos n (QuantileMethod.params .normal_unbiased).1 (QuantileMethod.params .normal_unbiased).2 k =
      ((k : ℚ) + 1 - 3 / 8) / (n + 1 / 4)) := by
  unfold plotPos QuantileMethod.params
  refine ⟨?_, ?_, ?_, ?_, ?_, ?_⟩ <;> congr 1 <;> ring

/-- With the default method probabilities 0 and 1 give the smallest and the largest value. -/
theorem C64_linear_extremes {s : List ℚ} (h1 : 1 ≤ s.length) {q : ℚ} :
    (IsQuantile s 1 1 0 q → q = s.getD 0 0) ∧ (IsQuantile s 1 1 1 q → q = s.getD (s.length - 1) 0) := by
  constructor
  · intro h
    apply h.2.1
    unfold plotPos
    simp
  · intro h
    apply h.2.2
    unfold plotPos
    rw [Nat.cast_sub h1]
    push_cast
    rw [show (s.length : ℚ) - 1 + 1 - 1 = (s.length : ℚ) + 1 - 1 - 1 by ring]
    exact div_self_le_one _

/-! ### Indices selected along an axis -/

/-- A shape or index with the entry on the axis replaced, `d` being the number of the first axis. -/
def onAxis (axis : Nat) (f : Nat → Nat) : List Nat → Nat → List Nat
  | [], _ => []
  | n :: l, d => (if d = axis then f n else n) :: onAxis axis f l (d + 1)

theorem onAxis_past (axis : Nat) (f : Nat → Nat) : ∀ (l : List Nat) (d : Nat), axis < d → onAxis axis f l d = l
  | [], _, _ => rfl
  | n :: l, d, h => by
    rw [onAxis, if_neg (by omega), onAxis_past axis f l (d + 1) (by omega)]

theorem onAxis_split (f : Nat → Nat) : ∀ (A : List Nat) (n : Nat) (B : List Nat) (d : Nat),
    onAxis (d + A.length) f (A ++ n :: B) d = A ++ f n :: B
  | [], n, B, d => by
    simp only [List.length_nil, Nat.add_zero, List.nil_append, onAxis, if_true]
    rw [onAxis_past _ _ _ _ (by omega)]
  | a :: A, n, B, d => by
    have := onAxis_split f A n B (d + 1)
    rw [show d + 1 + A.length = d + (a :: A).length by simp; omega] at this
    simp only [List.cons_append, onAxis]
    rw [if_neg (by simp), this]

theorem flatMap_map_range {β : Type} (ks : List Nat) (g : Nat → List β) :
    ks.flatMap g = (List.range ks.length).flatMap fun i => g (ks.getD i 0) := by
  conv => lhs; rw [list_eq_map_getD ks 0]
  rw [List.flatMap_map]

theorem selectFrom_eq (ks : List Nat) (axis : Nat) : ∀ (sh : List Nat) (d : Nat) (pre : List Nat), sh ≠ [] →
    selectFrom ks axis sh d pre =
      (rowIndices (onAxis axis (fun _ => ks.length) sh d)).map fun q => pre ++ onAxis axis (fun i => ks.getD i 0) q d
  | [], _, _, h => absurd rfl h
  | [n], d, pre, _ => by
    simp only [selectFrom, onAxis, rowIndices, List.map_cons, List.map_nil, List.map_flatMap]
    by_cases h : d = axis
    · simp only [h, if_true]
      conv => lhs; rw [list_eq_map_getD ks 0]
      rw [List.map_map, ← List.map_eq_flatMap]
      rfl
    · simp only [if_neg h]
      rw [← List.map_eq_flatMap]
  | n :: m :: sh, d, pre, _ => by
    have ih := fun p => selectFrom_eq ks axis (m :: sh) (d + 1) p (by simp)
    rw [selectFrom, onAxis, rowIndices, List.map_flatMap]
    by_cases h : d = axis
    · rw [if_pos h, if_pos h, flatMap_map_range]
      congr 1
      funext i
      rw [ih, List.map_map]
      apply List.map_congr_left
      intro q _
      simp [onAxis, h]
    · rw [if_neg h, if_neg h]
      congr 1
      funext i
      rw [ih, List.map_map]
      apply List.map_congr_left
      intro q _
      simp [onAxis, h]

theorem selectIndices_get {ks A B : List Nat} {n k : Nat} {i j : List Nat} (hi : InBounds A i) (hk : k < ks.length)
    (hj : InBounds B j) :
    (selectIndices (A ++ n :: B) ks A.length)[rowRank (A ++ ks.length :: B) (i ++ k :: j)]? =
      some (i ++ ks.getD k 0 :: j) := by
  have hb : InBounds (A ++ ks.length :: B) (i ++ k :: j) := hi.append (b := ks.length :: B) ⟨hk, hj⟩
  have e : selectIndices (A ++ n :: B) ks A.length = (rowIndices (A ++ ks.length :: B)).map fun q =>
      onAxis A.length (fun i => ks.getD i 0) q 0 := by
    unfold selectIndices
    rw [selectFrom_eq _ _ _ _ _ (by simp)]
    have := onAxis_split (fun _ => ks.length) A n B 0
    rw [Nat.zero_add] at this
    rw [this]
    simp
  have g := storageIndices_get .row_major hb
  unfold storageIndices travRank at g
  simp only [if_true] at g
  rw [e, List.getElem?_map, g, Option.map_some]
  have := onAxis_split (fun i => ks.getD i 0) i k j 0
  rw [Nat.zero_add, hi.length_eq] at this
  rw [this]

theorem length_selectIndices (ks A B : List Nat) (n : Nat) :
    (selectIndices (A ++ n :: B) ks A.length).length = numel (A ++ ks.length :: B) := by
  unfold selectIndices
  rw [selectFrom_eq _ _ _ _ _ (by simp), List.length_map, length_rowIndices]
  have := onAxis_split (fun _ => ks.length) A n B 0
  rw [Nat.zero_add] at this
  rw [this]

/-! ### Reshaped views -/

theorem toNat_toInts (l : List Nat) : (toInts l).map Int.toNat = l := by
  unfold toInts
  rw [List.map_map]
  conv => rhs; rw [← List.map_id l]
  rfl

theorem reshapeAt_eq {sh shape q j : List Nat} (f : List Nat → Res ℚ) (hn : numel shape = numel sh)
    (hq : InBounds shape q) (hj : InBounds sh j) (hr : rowRank sh j = rowRank shape q) : reshapeAt sh shape f q = f j := by
  obtain ⟨j', h1, h2, h3⟩ := C20_reshape_view .row_major (Or.inl rfl) sh shape hn q hq
  have : j' = j := rowRank_inj h1 hj (h3.trans hr.symm)
  unfold reshapeAt
  rw [h2, this]
  show f ((toInts j).map Int.toNat) = f j
  rw [toNat_toInts]

theorem evalAll_eq {f : List Nat → Res ℚ} {g : List Nat → ℚ} : ∀ (qs : List (List Nat)), (∀ q ∈ qs, f q = .ok (g q)) →
    evalAll f qs = .ok (qs.map g)
  | [], _ => rfl
  | q :: qs, h => by
    rw [evalAll, h q (by simp), evalAll_eq qs fun q hq => h q (by simp [hq])]
    rfl

theorem numel_replicate_one (n : Nat) : numel (List.replicate n 1) = 1 := by
  induction n with
  | zero => rfl
  | succ n ih => rw [List.replicate_succ, numel_cons, ih]

theorem orUb_getElem? {l : List ℚ} {k : Nat} (h : k < l.length) (d : ℚ) : orUb l[k]? = .ok (l.getD k d) := by
  rw [List.getD_eq_getElem?_getD, List.getElem?_eq_getElem h]
  rfl

theorem fancyAt_eq {e : Buf ℚ} (hw : e.WF) {A B ks : List Nat} {n k : Nat} {i j : List Nat} (hs : e.shape = A ++ n :: B)
    (hks : ∀ k ∈ ks, k < n) (hi : InBounds A i) (hk : k < ks.length) (hj : InBounds B j) :
    fancyAt e ks A.length (i ++ k :: j) = .ok (e.read (i ++ ks.getD k 0 :: j)) := by
  have hb : InBounds (A ++ ks.length :: B) (i ++ k :: j) := hi.append (b := ks.length :: B) ⟨hk, hj⟩
  have hset : e.shape.set A.length ks.length = A ++ ks.length :: B := by rw [hs]; simp
  unfold fancyAt
  simp only [hset]
  have hkn : ks.getD k 0 < n := by
    rw [List.getD_eq_getElem?_getD, List.getElem?_eq_getElem hk]
    exact hks _ (List.getElem_mem hk)
  have hb' : InBounds e.shape (i ++ ks.getD k 0 :: j) := by
    rw [hs]
    exact hi.append (b := n :: B) ⟨hkn, hj⟩
  have hlt := rowRank_lt hb
  rw [reshapeAt_eq (j := [rowRank (A ++ ks.length :: B) (i ++ k :: j)]) _ _ hb]
  · simp only [List.headD_cons]
    rw [hs, selectIndices_get hi hk hj]
    show (e.elementPos _).bind _ = _
    rw [elementPos_eq e hw hb', Res.bind_ok, e.read_eq hb']
    have h3 : travRank e.layout e.shape (i ++ ks.getD k 0 :: j) < e.data.length := by
      rw [hw]
      exact travRank_lt _ hb'
    exact orUb_getElem? h3 _
  · rw [hs, length_selectIndices]
    exact ⟨hlt, trivial⟩
  · simp [rowRank, numel]
  · rw [hs, length_selectIndices]
    simp [numel]

theorem weightedAt_eq {e : Buf ℚ} (hw : e.WF) {A B ks : List Nat} {gamma : List ℚ} {n k : Nat} {i j : List Nat}
    (hs : e.shape = A ++ n :: B) (hks : ∀ k ∈ ks, k < n) (hg : gamma.length = ks.length) (hi : InBounds A i)
    (hk : k < ks.length) (hj : InBounds B j) :
    weightedAt e ks gamma A.length (i ++ k :: j) = .ok (e.read (i ++ ks.getD k 0 :: j) * gamma.getD k 0) := by
  unfold weightedAt
  rw [fancyAt_eq hw hs hks hi hk hj, Res.bind_ok]
  have e1 : (List.replicate e.shape.length 1).set A.length gamma.length =
      List.replicate A.length 1 ++ gamma.length :: List.replicate B.length 1 := by
    rw [hs, List.length_append, List.replicate_add, List.length_cons, List.replicate_succ]
    rw [List.set_append_right _ _ (by simp)]
    simp
  have e2 : (List.replicate e.shape.length 0).set A.length ((i ++ k :: j).getD A.length 0) =
      List.replicate A.length 0 ++ k :: List.replicate B.length 0 := by
    have : (i ++ k :: j).getD A.length 0 = k := by
      rw [← hi.length_eq]
      simp
    rw [this, hs, List.length_append, List.replicate_add, List.length_cons, List.replicate_succ]
    rw [List.set_append_right _ _ (by simp)]
    simp
  have z : ∀ m : Nat, InBounds (List.replicate m 1) (List.replicate m 0) := by
    intro m
    induction m with
    | zero => trivial
    | succ m ih => exact ⟨by omega, ih⟩
  rw [e1, e2, reshapeAt_eq (j := [k])]
  · simp only [List.headD_cons]
    rw [orUb_getElem? (by omega) 0]
    rfl
  · simp [numel_append, numel_replicate_one, numel]
  · exact (z _).append (b := gamma.length :: List.replicate B.length 1) ⟨by omega, z _⟩
  · exact ⟨by omega, trivial⟩
  · rw [rowRank_append (by simp), rowRank_zeros]
    simp [rowRank, numel, numel_replicate_one, rowRank_zeros]

theorem insertIdx_split (i : List Nat) (c : Nat) (j : List Nat) : (i ++ j).insertIdx i.length c = i ++ c :: j := by
  induction i with
  | nil => cases j <;> rfl
  | cons x i ih => simp [ih]

theorem pairShape_eq (A B : List Nat) (P : Nat) : pairShape (A ++ (P + P) :: B) A.length = A ++ 2 :: P :: B := by
  unfold pairShape
  rw [insertIdx_split]
  have e1 : (A ++ 1 :: (P + P) :: B).set A.length 2 = A ++ 2 :: (P + P) :: B := by simp
  simp only [e1]
  have e2 : (A ++ 2 :: (P + P) :: B).getD (A.length + 1) 0 = P + P := by
    rw [List.getD_eq_getElem?_getD, List.getElem?_append_right (by omega)]
    simp
  rw [e2, List.set_append_right _ _ (by omega)]
  simp
  omega

theorem pairSumAt_eq {e : Buf ℚ} (hw : e.WF) {A B ks : List Nat} {gamma : List ℚ} {n P t : Nat} {i j : List Nat}
    (hs : e.shape = A ++ n :: B) (hks : ∀ k ∈ ks, k < n) (hg : gamma.length = ks.length) (hP : ks.length = P + P)
    (hi : InBounds A i) (ht : t < P) (hj : InBounds B j) :
    pairSumAt e ks gamma A.length (i ++ t :: j) =
      .ok (e.read (i ++ ks.getD t 0 :: j) * gamma.getD t 0 + e.read (i ++ ks.getD (P + t) 0 :: j) * gamma.getD (P + t) 0) := by
  unfold pairSumAt
  have hset : e.shape.set A.length ks.length = A ++ (P + P) :: B := by rw [hs, hP]; simp
  simp only [hset, pairShape_eq]
  have step : ∀ c, c < 2 → reshapeAt (A ++ (P + P) :: B) (A ++ 2 :: P :: B) (weightedAt e ks gamma A.length)
      ((i ++ t :: j).insertIdx A.length c) =
      .ok (e.read (i ++ ks.getD (c * P + t) 0 :: j) * gamma.getD (c * P + t) 0) := by
    intro c hc
    have hlt : c * P + t < P + P := by
      have : c = 0 ∨ c = 1 := by omega
      rcases this with rfl | rfl <;> omega
    rw [← hi.length_eq, insertIdx_split, hi.length_eq]
    rw [reshapeAt_eq (j := i ++ (c * P + t) :: j)]
    · exact weightedAt_eq hw hs hks hg hi (by omega) hj
    · simp only [numel_append, numel_cons]
      ring
    · exact hi.append (b := 2 :: P :: B) ⟨hc, ht, hj⟩
    · exact hi.append (b := (P + P) :: B) ⟨hlt, hj⟩
    · rw [rowRank_append hi.length_eq, rowRank_append hi.length_eq]
      simp only [rowRank, numel_cons]
      ring
  rw [step 0 (by omega), step 1 (by omega), Res.bind_ok, Res.map_ok, Nat.zero_mul, Nat.zero_add, Nat.one_mul, zero_add]

/-! ### The whole function -/

/-- Partition of an expression whose layout is that of the temporary, or of a single axis. -/
theorem partition_lines {nth : List ℚ → Nat → List ℚ}
    (hn : NthBy (fun a : ℚ => a) nth) {L : Layout} (hL : L = .row_major ∨ L = .column_major) {v : Strd}
    (hv : v.WF) (hl : v.layout = L ∨ v.shape.length = 1) (mem : Int → ℚ) (hd : 1 ≤ v.shape.length)
    (hsmall : v.shape.length < 2 ^ 63) {ax : Nat} (hax : ax < v.shape.length) {kth : List Nat}
    (hk : ∀ k ∈ kth, k < v.shape.getD ax 0) :
    ∃ r, partitionAxis nth L v mem kth (ax : Int) = .ok r ∧ r.shape = v.shape ∧ r.WF ∧
      ∀ p, InBounds v.shape p → ∀ s, SortedOf (line (v.read mem) (v.shape.getD ax 0) ax p) s →
        ∀ k ∈ kth, r.read (p.set ax k) = s.getD k 0 := by
  wlog hl' : v.layout = L generalizing v
  · have h1 : v.shape.length = 1 := hl.resolve_left hl'
    have := this (v := ⟨v.shape, v.strides, v.offset, L⟩) hv (Or.inl rfl) hd hsmall hax hk rfl
    obtain ⟨r, r1, r2⟩ := this
    refine ⟨r, ?_, r2⟩
    rw [← r1]
    unfold partitionAxis mapAxis
    simp only [h1, if_true]
    rfl
  have hao : axisOf v.shape.length (ax : Int) = ax := by
    unfold axisOf
    split <;> omega
  obtain ⟨r, r1, r2, r3, r4, r5⟩ := mapAxis_lines (partition_line_length hn kth) hL hv hl' mem hd hsmall
    (axis := (ax : Int)) (by omega) (by omega)
  rw [hao] at r5
  obtain ⟨hn1, hn2⟩ := normalizeAxis_eq hsmall (axis := (ax : Int)) (by omega) (by omega)
  have hax' : (if v.shape.length = 1 then 0 else normalizeAxis v.shape.length (ax : Int)) = ax := by
    split <;> omega
  refine ⟨r, ?_, r2, r4, ?_⟩
  · unfold partitionAxis
    simp only [hax']
    rw [if_neg]
    · exact r1
    · simp only [List.any_eq_true, decide_eq_true_eq, not_exists, not_and, not_lt]
      exact fun k hk' => (hk k hk').le
  · intro p hp s hs k hk'
    have e := r5 p hp
    obtain ⟨o, o1, o2, o3⟩ := partitionList_spec hn (kth := kth)
      (d := line (v.read mem) (v.shape.getD ax 0) ax p) (by rw [length_line]; exact fun k h => (hk k h).le)
    simp only [o1] at e
    have hlen : o.length = v.shape.getD ax 0 := by rw [← e, length_line]
    have hpv := pivotBy_id (by rw [hlen]; exact hk k hk') (o3 k hk')
    have h := C42_pivot_is_sorted_value (by rw [hlen]; exact hk k hk') ⟨hs.1.trans o2.symm, hs.2⟩ hpv
    rw [← e, line_getD _ _ (hk k hk')] at h
    exact h

theorem inBounds_split {A B q : List Nat} (h : InBounds (A ++ B) q) : ∃ i j, q = i ++ j ∧ InBounds A i ∧ InBounds B j := by
  have hl := h.length_eq
  rw [List.length_append] at hl
  have e : q = q.take A.length ++ q.drop A.length := (List.take_append_drop ..).symm
  rw [e, inBounds_append_iff (by simp; omega)] at h
  exact ⟨_, _, e, h.1, h.2⟩

theorem length_quantileKth (n : Nat) (ps : List ℚ) (a b : ℚ) : (quantileKth n ps a b).length = ps.length + ps.length := by
  simp [quantileKth]

theorem length_quantileGamma (n : Nat) (ps : List ℚ) (a b : ℚ) : (quantileGamma n ps a b).length = ps.length + ps.length := by
  simp [quantileGamma]

theorem shape_split_at {sh : List Nat} {ax : Nat} (h : ax < sh.length) :
    ∃ A B, sh = A ++ sh.getD ax 0 :: B ∧ A.length = ax ∧ sh.eraseIdx ax = A ++ B := by
  refine ⟨sh.take ax, sh.drop (ax + 1), ?_, by simp; omega, List.eraseIdx_eq_take_drop_succ ..⟩
  rw [List.getD_eq_getElem?_getD, List.getElem?_eq_getElem h]
  simp

/-- C64: `quantile(e, probas, axis, alpha, beta)` has the probabilities on the first axis and the remaining axes of `e` after
it, and each element is the quantile of the values on the line through it.
Missing for the full claim: expressions in another layout than their temporary, see `C64_quantile_transposed_wrong`, and lines
without elements, see `C64_quantile_empty_undefined`. -/
theorem C64_quantile_partial {nth : List ℚ → Nat → List ℚ} (hn : NthBy (fun a : ℚ => a) nth) {L : Layout}
    (hL : L = .row_major ∨ L = .column_major) {v : Strd} (hv : v.WF) (hl : v.layout = L ∨ v.shape.length = 1)
    (mem : Int → ℚ) (hsmall : v.shape.length < 2 ^ 63) {axis : Int} (h1 : -(v.shape.length : Int) ≤ axis)
    (h2 : axis < v.shape.length) (hpos : 1 ≤ v.shape.getD (axisOf v.shape.length axis) 0)
    (h64 : v.shape.getD (axisOf v.shape.length axis) 0 < 2 ^ 64) (ps : List ℚ) {a b : ℚ} (ha : a ≤ 1) (hb : b ≤ 1) :
    ∃ w m, quantileAxis nth L v mem ps axis a b = .ok (w, m) ∧
      w.shape = ps.length :: v.shape.eraseIdx (axisOf v.shape.length axis) ∧
      ∀ (t : Nat) (p : ℚ) (q s : _), ps[t]? = some p → InBounds (v.shape.eraseIdx (axisOf v.shape.length axis)) q →
        SortedOf (line (v.read mem) (v.shape.getD (axisOf v.shape.length axis) 0) (axisOf v.shape.length axis)
          (q.insertIdx (axisOf v.shape.length axis) 0)) s →
        IsQuantile s a b p (w.read m (t :: q)) := by
  obtain ⟨hn1, hax⟩ := normalizeAxis_eq hsmall h1 h2
  generalize axisOf v.shape.length axis = ax at *
  obtain ⟨A, B, hsh, hA, hAB⟩ := shape_split_at hax
  obtain ⟨n, hnn⟩ : ∃ n, n = v.shape.getD ax 0 := ⟨_, rfl⟩
  have hks : ∀ k ∈ quantileKth n ps a b, k < n := by
    intro k hk
    unfold quantileKth at hk
    rw [List.mem_append, List.mem_map, List.mem_map] at hk
    rcases hk with ⟨p, _, rfl⟩ | ⟨p, _, rfl⟩ <;> exact clipIndex_lt (by omega) (by omega) _
  obtain ⟨r, r1, r2, r3, r4⟩ := partition_lines hn hL hv hl mem (by omega) hsmall hax (kth := quantileKth n ps a b)
    (by rw [← hnn]; exact hks)
  rw [← hnn] at hsh r4 hpos h64
  have hP := length_quantileKth n ps a b
  have hset : r.shape.set ax (quantileKth n ps a b).length = A ++ (ps.length + ps.length) :: B := by
    rw [r2, hsh, hP, ← hA]
    simp
  have hshape : (pairShape (r.shape.set ax (quantileKth n ps a b).length) ax).eraseIdx ax = A ++ ps.length :: B := by
    rw [hset, ← hA, pairShape_eq]
    simp [List.eraseIdx_append_of_length_le]
  -- the value at an index
  obtain ⟨g, hg⟩ : ∃ g : List Nat → ℚ, g = fun q =>
      r.read (q.set ax ((quantileKth n ps a b).getD (q.getD ax 0) 0)) * (quantileGamma n ps a b).getD (q.getD ax 0) 0 +
      r.read (q.set ax ((quantileKth n ps a b).getD (ps.length + q.getD ax 0) 0)) *
        (quantileGamma n ps a b).getD (ps.length + q.getD ax 0) 0 := ⟨_, rfl⟩
  have hev : evalAll (pairSumAt r (quantileKth n ps a b) (quantileGamma n ps a b) ax) (rowIndices (A ++ ps.length :: B)) =
      .ok ((rowIndices (A ++ ps.length :: B)).map g) := by
    apply evalAll_eq
    intro q hq
    obtain ⟨i, q', rfl, hi, hq'⟩ := inBounds_split (mem_rowIndices.1 hq)
    match q', hq' with
    | t :: j, ⟨ht, hj⟩ =>
      have hil : i.length = ax := by rw [hi.length_eq, hA]
      rw [← hA, pairSumAt_eq r3 (r2.trans hsh) hks (by rw [length_quantileGamma, hP]) hP hi ht hj, hg, ← hil]
      simp
  obtain ⟨buf, hbuf⟩ : ∃ buf : Buf ℚ, buf = ⟨A ++ ps.length :: B, .row_major, (rowIndices (A ++ ps.length :: B)).map g⟩ :=
    ⟨_, rfl⟩
  have hbs : buf.strd.shape = A ++ ps.length :: B := by rw [hbuf]; rfl
  have hlen : (A ++ ps.length :: B).length = v.shape.length := by rw [hsh]; simp
  obtain ⟨w, w1, w2, w3, w4⟩ := C34_moveaxis buf.strd_wf (x := (ax : Int)) (y := 0) (by rw [hbs, hlen]; exact hsmall)
    (by rw [hbs, hlen]; omega) (by rw [hbs, hlen]; omega)
  have ax1 : axisOf buf.strd.shape.length (ax : Int) = ax := by
    unfold axisOf
    split <;> omega
  have ax2 : axisOf buf.strd.shape.length 0 = 0 := by
    unfold axisOf
    simp
  rw [ax1, ax2] at w3 w4
  have mv : ∀ l : List Nat, l.length = v.shape.length →
      permute (movePerm buf.strd.shape.length ax 0) l = l.getD ax 0 :: l.eraseIdx ax := by
    intro l hll
    rw [hbs, hlen, ← hll, C34_movePerm_spec (by omega) (by omega)]
    simp
  refine ⟨w, buf.mem, ?_, ?_, ?_⟩
  · unfold quantileAxis
    simp only [hn1]
    rw [if_neg (by omega), ← hnn, r1, Res.bind_ok, hshape, hev, Res.bind_ok, ← hbuf, w1]
    rfl
  · rw [w3, mv _ (by rw [hbs, hlen]), hbs, hAB]
    rw [← hA]
    simp [List.eraseIdx_append_of_length_le]
  · intro t p q s ht hq hs
    rw [hAB] at hq
    obtain ⟨i, j, rfl, hi, hj⟩ := inBounds_split hq
    have hil : i.length = ax := by rw [hi.length_eq, hA]
    have htl : t < ps.length := (List.getElem?_eq_some_iff.1 ht).1
    have hib : InBounds (A ++ ps.length :: B) (i ++ t :: j) := hi.append (b := ps.length :: B) ⟨htl, hj⟩
    have hget : (i ++ t :: j).getD ax 0 = t := by rw [← hil]; simp
    have hset' : ∀ k, (i ++ t :: j).set ax k = i ++ k :: j := by
      intro k
      rw [← hil]
      simp
    have hread : w.read buf.mem (t :: (i ++ j)) = g (i ++ t :: j) := by
      have e := w4 (i ++ t :: j) (by rw [hbs]; exact hib)
      rw [mv _ (by rw [hib.length_eq, hlen]), hget] at e
      have e3 : (i ++ t :: j).eraseIdx ax = i ++ j := by
        rw [← hil]
        simp [List.eraseIdx_append_of_length_le]
      rw [e3] at e
      unfold Strd.read
      rw [e]
      have e4 : buf.mem (buf.strd.index (toInts (i ++ t :: j))) = buf.read (i ++ t :: j) := rfl
      have hib' : InBounds buf.shape (i ++ t :: j) := by rw [hbuf]; exact hib
      rw [e4, buf.read_eq hib', hbuf]
      show ((rowIndices (A ++ ps.length :: B)).map g).getD (travRank .row_major (A ++ ps.length :: B) (i ++ t :: j)) default = _
      have g' := storageIndices_get .row_major hib
      unfold storageIndices at g'
      simp only [if_true] at g'
      rw [List.getD_eq_getElem?_getD, List.getElem?_map, g']
      rfl
    rw [hread, hg]
    simp only [hget, hset']
    have hin : (i ++ j).insertIdx ax 0 = i ++ 0 :: j := by rw [← hil, insertIdx_split]
    rw [hin] at hs
    have hsl : s.length = n := by rw [hs.1.length_eq, length_line, ← hnn]
    have hr : ∀ k ∈ quantileKth n ps a b, r.read (i ++ k :: j) = s.getD k 0 := by
      intro k hk
      have := r4 (i ++ 0 :: j) (by rw [hsh]; exact hi.append (b := n :: B) ⟨by omega, hj⟩) s (by rw [← hnn] at hs; exact hs) k hk
      rw [← this, ← hil]
      simp
    have k1 : (quantileKth n ps a b).getD t 0 = clipIndex n ⌊quantilePos n a b p⌋ := by
      unfold quantileKth
      rw [List.getD_eq_getElem?_getD, List.getElem?_append_left (by simpa using htl), List.getElem?_map, ht]
      rfl
    have k2 : (quantileKth n ps a b).getD (ps.length + t) 0 = clipIndex n (⌊quantilePos n a b p⌋ + 1) := by
      unfold quantileKth
      rw [List.getD_eq_getElem?_getD, List.getElem?_append_right (by simp), List.length_map, Nat.add_sub_cancel_left,
        List.getElem?_map, ht]
      rfl
    have g1 : (quantileGamma n ps a b).getD t 0 = 1 - (quantilePos n a b p - ⌊quantilePos n a b p⌋) := by
      unfold quantileGamma
      rw [List.getD_eq_getElem?_getD, List.getElem?_append_left (by simpa using htl), List.getElem?_map, ht]
      rfl
    have g2 : (quantileGamma n ps a b).getD (ps.length + t) 0 = quantilePos n a b p - ⌊quantilePos n a b p⌋ := by
      unfold quantileGamma
      rw [List.getD_eq_getElem?_getD, List.getElem?_append_right (by simp), List.length_map, Nat.add_sub_cancel_left,
        List.getElem?_map, ht]
      rfl
    have mem1 : ∀ x, x < ps.length + ps.length → (quantileKth n ps a b).getD x 0 ∈ quantileKth n ps a b := by
      intro x hx
      rw [List.getD_eq_getElem?_getD, List.getElem?_eq_getElem (by omega)]
      exact List.getElem_mem _
    rw [hr _ (mem1 t (by omega)), hr _ (mem1 (ps.length + t) (by omega)), k1, k2, g1, g2, ← hsl]
    exact interp_isQuantile (by omega) (by omega) ha hb p

/-- Quantiles of `1, 2, 4`: the hypotheses of `C64_quantile_unique`, `C64_quantile_monotone`, `C64_quantile_half` and
`C64_linear_extremes` are met. -/
example : IsQuantile [1, 2, 4] 1 1 (1 / 4) (3 / 2) ∧ IsQuantile [1, 2, 4] 1 1 (1 / 2) 2 ∧ IsQuantile [1, 2, 4] 1 1 1 4 ∧
    Median ([1, 2, 4] : List ℚ) = 2 := by
  have h := fun p => interp_isQuantile (s := [1, 2, 4]) (a := 1) (b := 1) (by decide) (by decide) (by norm_num) (by norm_num) p
  have e1 : interp [1, 2, 4] (quantilePos 3 1 1 (1 / 4)) = 3 / 2 := by decide +kernel
  have e2 : interp [1, 2, 4] (quantilePos 3 1 1 (1 / 2)) = 2 := by decide +kernel
  have e3 : interp [1, 2, 4] (quantilePos 3 1 1 1) = 4 := by decide +kernel
  exact ⟨Eq.mp (congrArg (IsQuantile [1, 2, 4] 1 1 _) e1) (h _), Eq.mp (congrArg (IsQuantile [1, 2, 4] 1 1 _) e2) (h _),
    Eq.mp (congrArg (IsQuantile [1, 2, 4] 1 1 _) e3) (h _), by decide +kernel⟩

/-- C64: the named methods use their own parameters. -/
theorem C64_quantile_method_partial {nth : List ℚ → Nat → List ℚ} (hn : NthBy (fun a : ℚ => a) nth) {L : Layout}
    (hL : L = .row_major ∨ L = .column_major) {v : Strd} (hv : v.WF) (hl : v.layout = L ∨ v.shape.length = 1)
    (mem : Int → ℚ) (hsmall : v.shape.length < 2 ^ 63) {axis : Int} (h1 : -(v.shape.length : Int) ≤ axis)
    (h2 : axis < v.shape.length) (hpos : 1 ≤ v.shape.getD (axisOf v.shape.length axis) 0)
    (h64 : v.shape.getD (axisOf v.shape.length axis) 0 < 2 ^ 64) (ps : List ℚ) (method : QuantileMethod) :
    ∃ w m, quantileMethodAxis nth L v mem ps axis method = .ok (w, m) ∧
      w.shape = ps.length :: v.shape.eraseIdx (axisOf v.shape.length axis) ∧
      ∀ (t : Nat) (p : ℚ) (q s : _), ps[t]? = some p → InBounds (v.shape.eraseIdx (axisOf v.shape.length axis)) q →
        SortedOf (line (v.read mem) (v.shape.getD (axisOf v.shape.length axis) 0) (axisOf v.shape.length axis)
          (q.insertIdx (axisOf v.shape.length axis) 0)) s →
        IsQuantile s method.params.1 method.params.2 p (w.read m (t :: q)) := by
  apply C64_quantile_partial hn hL hv hl mem hsmall h1 h2 hpos h64
  all_goals cases method <;> norm_num [QuantileMethod.params]

/-- Elements of the matrix `{{3, 1, 2}, {0, 5, 4}}`. -/
def quantMem : Int → ℚ := fun k => ([3, 1, 2, 0, 5, 4] : List ℚ).getD k.toNat 0

/-- The hypotheses of `C64_quantile_partial` and `C64_quantile_method_partial` are met; the quartiles of its rows. -/
example : NthBy (fun a : ℚ => a) ratNth ∧ (⟨[2, 3], [3, 1], 0, .row_major⟩ : Strd).WF ∧
    (quantileMethodAxis ratNth .row_major ⟨[2, 3], [3, 1], 0, .row_major⟩ quantMem [1 / 4, 1 / 2] 1 .linear).map
      (fun r => (r.1.shape, (rowIndices r.1.shape).map (r.1.read r.2))) = .ok ([2, 2], [3 / 2, 2, 2, 4]) := by
  exact ⟨nthBy_of_sortBy (sortBy_insertion fun a : Rat => a), rfl, by decide +kernel⟩

example : (quantileAxis ratNth .row_major ⟨[2, 3], [3, 1], 0, .row_major⟩ quantMem [1] (-2) 0 1).map
    (fun r => (r.1.shape, (rowIndices r.1.shape).map (r.1.read r.2))) = .ok ([1, 3], [3, 5, 4]) := by decide +kernel

theorem evalAll_ub {f : List Nat → Res ℚ} (h : ∀ q, f q = .ub) {qs : List (List Nat)} (hq : qs ≠ []) : evalAll f qs = .ub := by
  cases qs with
  | nil => exact absurd rfl hq
  | cons q qs =>
    rw [evalAll, h]
    rfl

theorem reshapeAt_ub {sh shape : List Nat} {f : List Nat → Res ℚ} (h : ∀ q, f q = .ub) (q : List Nat) :
    reshapeAt sh shape f q = .ub := by
  unfold reshapeAt
  cases reshapeViewIndex sh .row_major shape (toInts q) with
  | none => rfl
  | some j => exact h _

theorem pairSumAt_ub {e : Buf ℚ} (he : e.data = []) (ks : List Nat) (gamma : List ℚ) (ax : Nat) (q : List Nat) :
    pairSumAt e ks gamma ax q = .ub := by
  have h1 : ∀ q, fancyAt e ks ax q = .ub := by
    intro q
    unfold fancyAt
    apply reshapeAt_ub
    intro k
    cases (selectIndices e.shape ks ax)[k.headD 0]? with
    | none => rfl
    | some idx =>
      show (e.elementPos idx).bind _ = _
      unfold Buf.elementPos
      rw [he]
      simp only [List.length_nil, Nat.cast_zero]
      rw [if_neg (by omega)]
      rfl
  have h2 : ∀ q, weightedAt e ks gamma ax q = .ub := by
    intro q
    unfold weightedAt
    rw [h1]
    rfl
  unfold pairSumAt
  simp only
  rw [reshapeAt_ub h2]
  rfl

/-- C64 fails: quantiles along an axis without elements read outside the storage, whatever the parameters. -/
theorem C64_quantile_empty_undefined {nth : List ℚ → Nat → List ℚ} (hn : NthBy (fun a : ℚ => a) nth) {L : Layout}
    (hL : L = .row_major ∨ L = .column_major) {v : Strd} (hv : v.WF) (hl : v.layout = L) (mem : Int → ℚ)
    (hsmall : v.shape.length < 2 ^ 63) {axis : Int} (h1 : -(v.shape.length : Int) ≤ axis)
    (h2 : axis < v.shape.length) (hzero : v.shape.getD (axisOf v.shape.length axis) 0 = 0)
    (hother : numel (v.shape.eraseIdx (axisOf v.shape.length axis)) ≠ 0) {ps : List ℚ} (hps : ps ≠ []) (a b : ℚ) :
    quantileAxis nth L v mem ps axis a b = .ub := by
  obtain ⟨hn1, hax⟩ := normalizeAxis_eq hsmall h1 h2
  generalize axisOf v.shape.length axis = ax at *
  obtain ⟨A, B, hsh, hA, hAB⟩ := shape_split_at hax
  unfold quantileAxis
  simp only [hn1]
  rw [if_neg (by omega), hzero]
  unfold partitionAxis
  simp only
  generalize ((quantileKth 0 ps a b).any fun _ => _) = c
  cases c
  swap
  · rfl
  simp only [Bool.false_eq_true, if_false]
  have hao : axisOf v.shape.length (ax : Int) = ax := by
    unfold axisOf
    split <;> omega
  obtain ⟨r, r1, r2, r3, r4, r5⟩ := mapAxis_lines (partition_line_length hn (quantileKth 0 ps a b)) hL hv hl mem (by omega) hsmall
    (axis := (ax : Int)) (by omega) (by omega)
  refine Eq.trans (congrArg (fun z : Res (Buf ℚ) => z.bind _) r1) ?_
  simp only [Res.bind_ok]
  rw [hzero] at hsh
  have hdata : r.data = [] := by
    apply List.eq_nil_of_length_eq_zero
    rw [r4, r2, hsh]
    simp [numel_append]
  have hP := length_quantileKth 0 ps a b
  have hset : r.shape.set ax (quantileKth 0 ps a b).length = A ++ (ps.length + ps.length) :: B := by
    rw [r2, hsh, hP, ← hA]
    simp
  rw [evalAll_ub (pairSumAt_ub hdata _ _ _)]
  · rfl
  · rw [hset, ← hA, pairShape_eq]
    have : (A ++ 2 :: ps.length :: B).eraseIdx A.length = A ++ ps.length :: B := by
      simp [List.eraseIdx_append_of_length_le]
    rw [this]
    intro h
    have hlen := length_rowIndices (A ++ ps.length :: B)
    rw [h, numel_append, numel_cons] at hlen
    rw [hAB, numel_append] at hother
    have : 0 < ps.length := List.length_pos_of_ne_nil hps
    simp at hlen
    rcases hlen with e | e | e
    · rw [e] at hother; simp at hother
    · exact hps e
    · rw [e] at hother; simp at hother

example : quantileAxis ratNth .row_major ⟨[2, 0], [0, 1], 0, .row_major⟩ quantMem [1 / 2] 1 1 1 = .ub :=
  C64_quantile_empty_undefined (nthBy_of_sortBy (sortBy_insertion fun a : Rat => a)) (Or.inl rfl)
    (v := ⟨[2, 0], [0, 1], 0, .row_major⟩) rfl rfl _ (by decide) (by decide)
    (by decide) (by decide) (by decide) (by simp) _ _

/-- C64 fails: quantiles of a transposed matrix are taken along the other axis: `{{3, 1}, {2, 4}}` transposed has the
columns `{3, 1}` and `{2, 4}`, whose smallest values are 1 and 2, and the code gives 2 and 3. -/
theorem C64_quantile_transposed_wrong :
    ∃ v : Strd, transposeRev ⟨[2, 2], [2, 1], 0, .row_major⟩ = .ok v ∧
      line (v.read fun k => ([3, 1, 2, 4] : List ℚ).getD k.toNat 0) 2 0 [0, 0] = [3, 1] ∧
      (quantileAxis ratNth .row_major v (fun k => ([3, 1, 2, 4] : List ℚ).getD k.toNat 0) [0] 0 1 1).map
        (fun r => (r.1.shape, (rowIndices r.1.shape).map (r.1.read r.2))) = .ok ([1, 2], [2, 3]) ∧
      ¬ IsQuantile [1, 3] 1 1 0 2 := by
  refine ⟨⟨[2, 2], [1, 2], 0, .column_major⟩, by decide, by decide +kernel, by decide +kernel, ?_⟩
  intro h
  have := h.2.1 (by unfold plotPos; norm_num)
  norm_num at this

end Xt
