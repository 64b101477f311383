import Verif.Model.Builder
import Verif.Spec.Builder
import Verif.Lemmas.Index
import Verif.Props.Manip
import Mathlib.Tactic.Linarith
import Mathlib.Tactic.FieldSimp
/-!
# C38 and C56: arange and linspace
-/

namespace Xt
open Spec

/-! ### Generators -/

theorem adaptTail_inBounds {sh idx : List Nat} (h : InBounds sh idx) : adaptTail sh idx = idx := by
  induction sh generalizing idx with
  | nil => rfl
  | cons n sh ih =>
    cases idx with
    | nil => rfl
    | cons i idx =>
      obtain ⟨h1, h2⟩ := h
      rw [adaptTail, if_neg (by omega), ih h2]

/-- Both ways of reading a generator hand an in-bounds index to the functor unchanged. -/
theorem Gen.call_inBounds {α : Type} (g : Gen α) {idx : List Nat} (h : InBounds g.shape idx) : g.call idx = g.f idx := by
  unfold Gen.call adaptIndex
  rw [← h.length_eq, Nat.sub_self, List.take_zero, List.drop_zero, List.nil_append, adaptTail_inBounds h]

theorem Gen.elem_inBounds {α : Type} (g : Gen α) {idx : List Nat} (h : InBounds g.shape idx) : g.elem idx = g.f idx := by
  unfold Gen.elem
  rw [← h.length_eq, if_neg (by omega)]
  congr 1
  generalize g.shape = sh at h
  induction sh generalizing idx with
  | nil => cases idx with
    | nil => rfl
    | cons _ _ => exact h.elim
  | cons n sh ih =>
    cases idx with
    | nil => exact h.elim
    | cons i idx =>
      rw [List.zipWith_cons_cons, ih h.2]
      have := h.1
      congr 1; omega

/-- `g` reads `v` at `idx`, through `operator()` and through `element`. -/
def Gen.Reads {α : Type} (g : Gen α) (idx : List Nat) (v : α) : Prop := g.call idx = .ok v ∧ g.elem idx = .ok v

theorem Gen.reads_of {α : Type} {g : Gen α} {idx : List Nat} {v : α} (h : InBounds g.shape idx) (hf : g.f idx = .ok v) :
    g.Reads idx v := by
  unfold Gen.Reads; rw [Gen.call_inBounds g h, Gen.elem_inBounds g h]; exact ⟨hf, hf⟩

/-- `element` with an index of any values on axes that are not empty reads an element of the generator: past the end of an
axis the last one. -/
theorem C38_element_clamps {α : Type} (g : Gen α) (idx : List Nat) (hl : idx.length = g.shape.length)
    (hn : ∀ n ∈ g.shape, n ≠ 0) :
    ∃ j, InBounds g.shape j ∧ g.elem idx = g.f j ∧
      ∀ k n i : Nat, g.shape[k]? = some n → idx[k]? = some i → j[k]? = some (if i < n then i else n - 1) := by
  refine ⟨List.zipWith (fun n i => min i (n - 1)) g.shape idx, ?_, ?_, ?_⟩
  · generalize g.shape = sh at hl hn
    induction sh generalizing idx with
    | nil =>
      cases idx with
      | nil => trivial
      | cons _ _ => cases hl
    | cons n sh ih =>
      cases idx with
      | nil => cases hl
      | cons i idx =>
        refine ⟨?_, ih idx (Nat.succ.inj hl) fun m hm => hn m (List.mem_cons_of_mem _ hm)⟩
        have := hn n List.mem_cons_self
        show min i (n - 1) < n
        omega
  · unfold Gen.elem
    rw [hl, if_neg (by omega)]
  · intro k n i h1 h2
    rw [List.getElem?_zipWith, h1, h2]
    show some (min i (n - 1)) = _
    congr 1
    split <;> omega

/-- With more coordinates than axes it is undefined. -/
theorem C38_element_long_undefined {α : Type} (g : Gen α) (idx : List Nat) (hl : g.shape.length < idx.length) :
    g.elem idx = .ub := by
  unfold Gen.elem
  rw [if_pos hl]

example : (⟨[2, 3], fun i => .ok i⟩ : Gen (List Nat)).elem [5, 1] = .ok [1, 1] := by decide

/-! ### C38: arange -/

theorem signedFit_ok {w : Nat} {x : Int} (h1 : -(2 ^ (w - 1) : Int) ≤ x) (h2 : x < 2 ^ (w - 1)) : signedFit w x = .ok x := by
  unfold signedFit; rw [if_pos ⟨h1, h2⟩]

/-- The number of points of a range is unique. -/
theorem rangeCount_unique {start stop step : Int} {m n : Nat} (hm : RangeCount start stop step m)
    (hn : RangeCount start stop step n) : m = n := by
  rcases Nat.lt_trichotomy m n with h | h | h
  · exact absurd (hn.1 m h) hm.2
  · exact h
  · exact absurd (hm.1 n h) hn.2

theorem tdiv_nonpos_nonneg {a b : Int} (ha : a ≤ 0) (hb : 0 ≤ b) : a.tdiv b ≤ 0 := by
  have h := Int.tdiv_nonneg (a := -a) (by omega) hb
  rw [Int.neg_tdiv] at h
  omega

theorem ceil_count_pos {d step : Int} (hd : 0 < d) (hs : 0 < step) :
    0 ≤ (d + step - 1) / step ∧ (∀ k : Int, 0 ≤ k → (k < (d + step - 1) / step ↔ step * k < d)) := by
  refine ⟨Int.ediv_nonneg (by omega) (by omega), fun k _ => ?_⟩
  rw [Int.lt_iff_add_one_le, Int.le_ediv_iff_mul_le hs, Int.add_mul, Int.mul_comm step k]
  omega

/-- C38: over signed integers the length of `arange(start, stop, step)` is the number of points of the half-open interval,
provided the extent of the interval is not smaller than the step (or the interval is empty) and the arithmetic does not
overflow.  Missing: intervals shorter than the step (`C38_short_interval_empty`). -/
theorem C38_arange_size_partial {w : Nat} {start stop step : Int} (hstep : step ≠ 0)
    (hfit : (stop - start).natAbs + step.natAbs < 2 ^ (w - 1))
    (hlong : (0 < step ∧ start < stop → step ≤ stop - start) ∧ (step < 0 ∧ stop < start → -step ≤ start - stop)) :
    ∃ n, arangeSizeSigned w start stop step = .ok n ∧ RangeCount start stop step n := by
  have hfx : ∀ x : Int, x.natAbs ≤ (stop - start).natAbs + step.natAbs → signedFit w x = .ok x := by
    intro x hx
    have h1 : ((x.natAbs : Nat) : Int) < 2 ^ (w - 1) := by exact_mod_cast Nat.lt_of_le_of_lt hx hfit
    generalize hM : (2 : Int) ^ (w - 1) = M at *
    exact signedFit_ok (by rw [hM]; omega) (by rw [hM]; omega)
  have hq := Int.natAbs_tdiv_le_natAbs (stop - start) step
  unfold arangeSizeSigned
  rw [hfx _ (by omega), Res.bind_ok, if_neg hstep, hfx _ (by omega), Res.bind_ok]
  rcases Int.lt_or_gt_of_ne hstep with hs | hs
  · by_cases hlt : stop < start
    · have hd := hlong.2 ⟨hs, hlt⟩
      have hqe : (stop - start).tdiv step = (start - stop) / (-step) := by
        rw [show stop - start = -(start - stop) by omega, Int.neg_tdiv, show step = -(-step) by omega, Int.tdiv_neg, Int.neg_neg,
          Int.tdiv_eq_ediv_of_nonneg (by omega), Int.neg_neg]
      have h1 : 1 ≤ (start - stop) / (-step) := by rw [Int.le_ediv_iff_mul_le (by omega)]; omega
      rw [hqe, if_neg (by omega), if_neg (by omega), hfx _ (by omega), Res.bind_ok, hfx _ (by omega), Res.bind_ok]
      refine ⟨_, rfl, ?_⟩
      rw [Int.tdiv_eq_ediv_of_nonneg (by omega)]
      obtain ⟨c1, c2⟩ := ceil_count_pos (d := start - stop) (step := -step) (by omega) (by omega)
      rw [show start - stop - step - 1 = start - stop + -step - 1 by omega]
      generalize (start - stop + -step - 1) / -step = c at *
      refine ⟨fun k hk => Or.inr ⟨hs, ?_⟩, fun h => ?_⟩
      · have h2 := (c2 k (by omega)).1 (by omega)
        have h3 : step * (k : Int) ≤ 0 := Int.mul_nonpos_of_nonpos_of_nonneg (by omega) (by omega)
        rw [Int.neg_mul] at h2
        constructor <;> omega
      · rcases h with h | ⟨_, h⟩
        · omega
        · have h2 := (c2 c c1).2
          rw [Int.toNat_of_nonneg c1] at h
          rw [Int.neg_mul] at h2
          omega
    · have hq0 : (stop - start).tdiv step ≤ 0 := Int.tdiv_nonpos_of_nonneg_of_nonpos (by omega) (by omega)
      rw [if_pos hq0]
      refine ⟨0, rfl, fun k hk => by omega, fun h => ?_⟩
      rcases h with h | h <;> simp at h <;> omega
  · by_cases hlt : start < stop
    · have hd := hlong.1 ⟨hs, hlt⟩
      have h1 : 1 ≤ (stop - start) / step := by rw [Int.le_ediv_iff_mul_le (by omega)]; omega
      rw [Int.tdiv_eq_ediv_of_nonneg (by omega), if_neg (by omega), if_pos hlt, hfx _ (by omega), Res.bind_ok]
      refine ⟨_, rfl, ?_⟩
      rw [Int.tdiv_eq_ediv_of_nonneg (by omega)]
      obtain ⟨c1, c2⟩ := ceil_count_pos (d := stop - start) (step := step) (by omega) (by omega)
      generalize (stop - start + step - 1) / step = c at *
      refine ⟨fun k hk => Or.inl ⟨hs, ?_⟩, fun h => ?_⟩
      · have h2 := (c2 k (by omega)).1 (by omega)
        have h3 : 0 ≤ step * (k : Int) := Int.mul_nonneg (by omega) (by omega)
        constructor <;> omega
      · rcases h with ⟨_, h⟩ | h
        · have h2 := (c2 c c1).2
          rw [Int.toNat_of_nonneg c1] at h
          omega
        · omega
    · have hq0 : (stop - start).tdiv step ≤ 0 := tdiv_nonpos_nonneg (by omega) (by omega)
      rw [if_pos hq0]
      refine ⟨0, rfl, fun k hk => by omega, fun h => ?_⟩
      rcases h with h | h <;> simp at h <;> omega

example : arangeSizeSigned 32 2 (-9) (-4) = .ok 3 ∧ RangeCount 2 (-9) (-4) 3 := by
  refine ⟨by decide, ?_, ?_⟩
  · intro k hk; unfold inRange; omega
  · unfold inRange; omega

/-- An interval shorter than the step holds one point, its start, but `arange` is empty. -/
theorem C38_short_interval_empty :
    arangeSizeSigned 32 0 1 2 = .ok 0 ∧ RangeCount 0 1 2 1 ∧ arangeSizeSigned 32 5 3 (-4) = .ok 0 ∧ RangeCount 5 3 (-4) 1 := by
  refine ⟨by decide, ⟨fun k hk => ?_, ?_⟩, by decide, ⟨fun k hk => ?_, ?_⟩⟩ <;> unfold inRange <;> omega

/-- C38, what happens in general: the result is empty exactly for intervals shorter than the step. -/
theorem C38_empty_iff {w : Nat} {start stop step : Int} (hstep : step ≠ 0)
    (hfit : (stop - start).natAbs + step.natAbs < 2 ^ (w - 1)) :
    arangeSizeSigned w start stop step = .ok 0 ↔
      ¬ ((0 < step ∧ step ≤ stop - start) ∨ (step < 0 ∧ -step ≤ start - stop)) := by
  constructor
  · intro h hc
    obtain ⟨n, h1, h2⟩ := C38_arange_size_partial (w := w) hstep hfit (by omega)
    rw [h] at h1
    cases h1
    apply h2.2
    unfold inRange
    simp only [Nat.cast_zero, Int.mul_zero]
    omega
  · intro h
    have hfx : ∀ x : Int, x.natAbs ≤ (stop - start).natAbs + step.natAbs → signedFit w x = .ok x := by
      intro x hx
      have h1 : ((x.natAbs : Nat) : Int) < 2 ^ (w - 1) := by exact_mod_cast Nat.lt_of_le_of_lt hx hfit
      generalize hM : (2 : Int) ^ (w - 1) = M at *
      exact signedFit_ok (by rw [hM]; omega) (by rw [hM]; omega)
    have hq := Int.natAbs_tdiv_le_natAbs (stop - start) step
    unfold arangeSizeSigned
    rw [hfx _ (by omega), Res.bind_ok, if_neg hstep, hfx _ (by omega), Res.bind_ok, if_pos]
    rcases Int.lt_or_gt_of_ne hstep with hs | hs
    · by_cases h0 : 0 ≤ stop - start
      · exact Int.tdiv_nonpos_of_nonneg_of_nonpos h0 (by omega)
      · rw [show stop - start = -(start - stop) by omega, Int.neg_tdiv, show step = -(-step) by omega, Int.tdiv_neg, Int.neg_neg,
          Int.tdiv_eq_zero_of_lt (by omega) (by omega)]
    · by_cases h0 : stop - start ≤ 0
      · exact tdiv_nonpos_nonneg h0 (by omega)
      · rw [Int.tdiv_eq_zero_of_lt (by omega) (by omega)]

example : arangeSizeSigned 32 0 3 5 = .ok 0 := by decide

/-- A zero step divides by zero; an interval wider than the type overflows although every value of it is
representable. -/
theorem C38_undefined : arangeSizeSigned 32 0 5 0 = .ub ∧ arangeSizeSigned 32 (-2000000000) 2000000000 1000000000 = .ub ∧
    RangeCount (-2000000000) 2000000000 1000000000 4 := by
  refine ⟨by decide, by decide, fun k hk => ?_, ?_⟩ <;> unfold inRange <;> omega

/-- C38, unsigned integers: no short-interval error. -/
theorem C38_arange_size_unsigned {w start stop step : Nat} (hstep : 0 < step) (hfit : stop - start + step - 1 < 2 ^ w) :
    ∃ n, arangeSizeUnsigned w start stop step = .ok n ∧ RangeCount start stop step n := by
  unfold arangeSizeUnsigned
  by_cases h : stop ≤ start
  · rw [if_pos h]
    refine ⟨0, rfl, fun k hk => by omega, fun h => ?_⟩
    rcases h with h | h <;> simp at h <;> omega
  · rw [if_neg h, if_neg (by omega), Nat.mod_eq_of_lt hfit]
    refine ⟨_, rfl, ?_⟩
    obtain ⟨c1, c2⟩ := ceil_count_pos (d := (stop - start : Nat)) (step := step) (by omega) (by omega)
    have he : (((stop - start + step - 1) / step : Nat) : Int) = (((stop - start : Nat) : Int) + step - 1) / step := by
      rw [Int.natCast_ediv]; congr 1; omega
    generalize (stop - start + step - 1) / step = n at *
    rw [← he] at c2
    refine ⟨fun k hk => Or.inl ⟨by omega, ?_⟩, fun h => ?_⟩
    · have h2 := (c2 k (by omega)).1 (by omega)
      have h3 : 0 ≤ (step : Int) * (k : Int) := Int.mul_nonneg (by omega) (by omega)
      constructor <;> omega
    · rcases h with ⟨_, h⟩ | h
      · have h2 := (c2 n (by omega)).2
        omega
      · omega

example : arangeSizeUnsigned 32 0 1 2 = .ok 1 := by decide

/-- With a step close to the largest value the sum wraps and the range is lost. -/
theorem C38_unsigned_wraps : arangeSizeUnsigned 32 0 10 4294967295 = .ok 0 ∧ RangeCount 0 10 4294967295 1 := by
  refine ⟨by decide, fun k hk => ?_, ?_⟩ <;> unfold inRange <;> omega

/-- C38, floating point (exact arithmetic): correct unless the interval points against the step. -/
theorem C38_arange_size_real_partial {start stop step : Rat} (hstep : step ≠ 0) (hdir : 0 ≤ (stop - start) / step) :
    ∃ n, arangeSizeReal start stop step = .ok n ∧ RangeCountQ start stop step n := by
  have hc : 0 ≤ ⌈(stop - start) / step⌉ := Int.ceil_nonneg hdir
  unfold arangeSizeReal
  rw [if_neg hstep, if_neg (by omega)]
  refine ⟨_, rfl, ?_⟩
  have key : ∀ k : Nat, k < ⌈(stop - start) / step⌉.toNat ↔ (k : Rat) < (stop - start) / step := by
    intro k
    rw [show (k < ⌈(stop - start) / step⌉.toNat ↔ ((k : Int) < ⌈(stop - start) / step⌉)) by omega, Int.lt_ceil]
    simp
  generalize hn : ⌈(stop - start) / step⌉.toNat = n at *
  rcases lt_or_gt_of_ne hstep with hs | hs
  · have key' : ∀ k : Nat, k < n ↔ stop < start + step * k := by
      intro k
      rw [key, lt_div_iff_of_neg hs]
      constructor <;> intro h <;> linarith
    refine ⟨fun k hk => Or.inr ⟨hs, ?_, (key' k).1 hk⟩, fun h => ?_⟩
    · have : step * (k : Rat) ≤ 0 := mul_nonpos_of_nonpos_of_nonneg (le_of_lt hs) (by positivity)
      linarith
    · rcases h with h | h
      · linarith [h.1]
      · exact absurd ((key' n).2 h.2.2) (by omega)
  · have key' : ∀ k : Nat, k < n ↔ start + step * k < stop := by
      intro k
      rw [key, lt_div_iff₀ hs]
      constructor <;> intro h <;> linarith
    refine ⟨fun k hk => Or.inl ⟨hs, ?_, (key' k).1 hk⟩, fun h => ?_⟩
    · have : 0 ≤ step * (k : Rat) := mul_nonneg (le_of_lt hs) (by positivity)
      linarith
    · rcases h with h | h
      · exact absurd ((key' n).2 h.2.2) (by omega)
      · linarith [h.1]

example : arangeSizeReal 0 1 (2 / 5) = .ok 3 := by decide +kernel

/-- An interval pointing against the step has no point, but the negative length is converted to `size_t`. -/
theorem C38_reversed_interval_undefined : arangeSizeReal 1 (-1) 1 = .ub ∧ RangeCountQ 1 (-1) 1 0 := by
  refine ⟨by decide +kernel, fun k hk => by omega, ?_⟩
  unfold inRange
  norm_num

/-- C38: the elements are `start + k * step`. -/
theorem C38_arange_values {w : Nat} {start stop step : Int} {g : Gen Int} (h : arangeSigned w start stop step = .ok g) :
    ∃ n, arangeSizeSigned w start stop step = .ok n ∧ g.shape = [n] ∧ ∀ k, k < n → g.Reads [k] (start + step * k) := by
  unfold arangeSigned at h
  cases hn : arangeSizeSigned w start stop step with
  | ok n =>
    rw [hn] at h
    simp only [Res.map_ok, Res.ok.injEq] at h
    subst h
    refine ⟨n, rfl, rfl, fun k hk => Gen.reads_of ⟨hk, trivial⟩ ?_⟩
    simp [arangeAt]
  | throws => rw [hn] at h; simp at h
  | ub => rw [hn] at h; simp at h

theorem C38_arange_values_real {start stop step : Rat} {g : Gen Rat} (h : arangeReal start stop step = .ok g) :
    ∃ n, arangeSizeReal start stop step = .ok n ∧ g.shape = [n] ∧ ∀ k, k < n → g.Reads [k] (start + step * k) := by
  unfold arangeReal at h
  cases hn : arangeSizeReal start stop step with
  | ok n =>
    rw [hn] at h
    simp only [Res.map_ok, Res.ok.injEq] at h
    subst h
    refine ⟨n, rfl, rfl, fun k hk => Gen.reads_of ⟨hk, trivial⟩ ?_⟩
    simp [arangeAt]
  | throws => rw [hn] at h; simp at h
  | ub => rw [hn] at h; simp at h

/-- C38: evaluating into contiguous storage (`arange_assign_to`) writes the same values. -/
theorem C38_arange_assign (start step : Int) (n : Nat) :
    arangeFill step n start = (List.range n).map fun (k : Nat) => start + step * (k : Int) := by
  induction n generalizing start with
  | zero => rfl
  | succ n ih =>
    rw [arangeFill, ih, List.range_succ_eq_map, List.map_cons, List.map_map]
    congr 1
    · simp
    · apply List.map_congr_left
      intro k _
      simp only [Function.comp, Nat.cast_succ, Int.mul_add]
      omega

example : arangeFill (-4) 3 2 = [2, -2, -6] := by decide

/-- The functor reads its first index, so a surplus leading index, which a container would skip, is taken for the
position: `arange(0, 5)(1, 3)` is 1, and at `(7, 0)` a value outside of the range comes out. -/
theorem C38_leading_index_wrong :
    (arangeSigned 32 0 5 1).bind (fun g => g.call [1, 3]) = .ok 1 ∧ (arangeSigned 32 0 5 1).bind (fun g => g.call [7, 0]) = .ok 7 := by
  decide

/-- `noalias(x) = arange(0, 3)` on an adaptor of stride 2 over a buffer of 6 elements fills the whole storage in storage
order: elements 0, 1, 2 of `x` (positions 0, 2, 4) become 0, 2, 4. -/
theorem C38_strided_assign_wrong :
    [0, 1, 2].map (fun k => (arangeFill 1 6 0).getD (2 * k) 0) = [0, 2, 4] ∧
    (arangeSigned 32 0 3 1).bind (fun g => g.call [1]) = .ok 1 := by decide

/-! ### C56: linspace -/

/-- C56: `linspace(start, stop, n)` divides the interval evenly (exact arithmetic): element `k` is
`start + k * (stop - start) / (n - 1)`, or `… / n` without the end point. -/
theorem C56_linspace (start stop : Rat) (n : Nat) (endpoint : Bool) (k : Nat) (hk : k < n) (hn : 1 < n) :
    (linspace start stop n endpoint).shape = [n] ∧
    (linspace start stop n endpoint).Reads [k] (start + k * ((stop - start) / ((n : Rat) - if endpoint then 1 else 0))) := by
  refine ⟨rfl, Gen.reads_of ⟨hk, trivial⟩ ?_⟩
  have hm : (1 : Rat) ≤ ((n - 1 : Nat) : Rat) := by exact_mod_cast (show 1 ≤ n - 1 by omega)
  have hc : ((n - 1 : Nat) : Rat) = (n : Rat) - 1 := by rw [Nat.cast_sub (by omega)]; simp
  simp only [linspace, arangeAt, Res.ok.injEq]
  cases endpoint with
  | true =>
    by_cases hl : k = n - 1
    · rw [if_pos ⟨rfl, hn, hl⟩]
      subst hl
      rw [hc]
      have : (n : Rat) - 1 ≠ 0 := by rw [← hc]; intro h; rw [h] at hm; norm_num at hm
      simp only [if_true]
      field_simp
      ring
    · rw [if_neg (by omega)]
      simp only [linspaceStep, if_true]
      rw [if_neg (by omega), max_eq_right hm, hc]
      ring
  | false =>
    have hm' : (1 : Rat) ≤ (n : Rat) := by exact_mod_cast (show 1 ≤ n by omega)
    simp [linspaceStep]
    rw [max_eq_right hm']
    ring

/-- C56: the first element is `start`, also for a single sample, and with the end point the last is exactly `stop`. -/
theorem C56_linspace_ends (start stop : Rat) (n : Nat) (endpoint : Bool) (hn : 0 < n) :
    (linspace start stop n endpoint).Reads [0] start ∧
    (1 < n → endpoint = true → (linspace start stop n endpoint).Reads [n - 1] stop) := by
  constructor
  · refine Gen.reads_of ⟨hn, trivial⟩ ?_
    simp only [linspace, arangeAt, Res.ok.injEq]
    rw [if_neg (by omega)]
    simp
  · intro h1 h2
    refine Gen.reads_of ⟨by omega, trivial⟩ ?_
    simp only [linspace, arangeAt, Res.ok.injEq]
    simp [h2, h1]

/-- C56: evaluating into contiguous storage writes the values that access reads. -/
theorem C56_linspace_assign (start stop : Rat) (n : Nat) (endpoint : Bool) (k : Nat) (hk : k < n) :
    ∃ v, (arangeFillReal start stop (linspaceStep start stop n endpoint) endpoint n)[k]? = some v ∧
      (linspace start stop n endpoint).Reads [k] v := by
  refine ⟨arangeAt start stop (linspaceStep start stop n endpoint) n endpoint [k], ?_, Gen.reads_of ⟨hk, trivial⟩ rfl⟩
  unfold arangeFillReal
  simp only [arangeAt]
  by_cases he : endpoint = true ∧ n > 1
  · rw [if_pos he, List.getElem?_set]
    by_cases hl : n - 1 = k
    · rw [if_pos hl, if_pos (by simp; omega), if_pos ⟨he.1, he.2, hl.symm⟩]
    · rw [if_neg hl, if_neg (by omega)]
      simp [hk]
  · rw [if_neg he, if_neg (by tauto)]
    simp [hk]

example : (linspace 0 1 5 true).call [1] = .ok (1 / 4) := by decide +kernel

end Xt
