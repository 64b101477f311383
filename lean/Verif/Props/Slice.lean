import Verif.Model.Slice
import Verif.Spec.Slice
import Mathlib.Tactic.Ring
import Mathlib.Tactic.Linarith
import Mathlib.Data.List.Range
/-!
# C16, C17: slices on one axis
-/

namespace Xt
open Spec

/-! ## Auxiliary facts -/

theorem filter_range_lt (n c : Nat) (h : c ≤ n) :
    (List.range n).filter (fun m => decide (m < c)) = List.range c := by
  induction n with
  | zero => have : c = 0 := by omega
            subst this; rfl
  | succ n ih =>
    rw [List.range_succ, List.filter_append]
    by_cases hc : c ≤ n
    · rw [ih hc]; simp; omega
    · have : c = n + 1 := by omega
      subst this
      have h2 : (List.range n).filter (fun m => decide (m < n + 1)) = List.range n := by
        rw [List.filter_eq_self]; intro a ha; simp at ha; simp; omega
      rw [h2]; simp [List.range_succ]

/-- The size computed for a forward stepped range is the number of strides needed. -/
theorem steppedSize_pos {i j k : Int} (hk : 0 < k) (hij : i ≤ j) (m : Nat) :
    i + m * k < j ↔ (m : Int) < steppedSize i j k := by
  have hn : 0 ≤ j - i := by omega
  simp only [steppedSize]
  rw [Int.tdiv_eq_ediv_of_nonneg hn, Int.tmod_eq_emod_of_nonneg hn]
  generalize hN : j - i = N at *
  have h1 := Int.mul_ediv_add_emod N k
  have h2 := Int.emod_nonneg N (by omega : k ≠ 0)
  have h3 := Int.emod_lt_of_pos N hk
  have e1 : decide (N < 0) = false := by simpa using hn
  have e2 : decide (k > 0) = true := by simpa using hk
  have : i + m * k < j ↔ (m : Int) * k < N := by constructor <;> intro <;> omega
  rw [this, e1, e2]
  generalize hq : N / k = q at *
  generalize hr : N % k = r at *
  by_cases hr0 : r = 0
  · simp [hr0]
    constructor
    · intro h
      have : (m : Int) * k < q * k := by rw [← h1, hr0] at h; linarith [mul_comm k q]
      exact lt_of_mul_lt_mul_right this hk.le
    · intro h
      have : (m : Int) * k < q * k := mul_lt_mul_of_pos_right h hk
      rw [← h1, hr0]; linarith [mul_comm k q]
  · simp [hr0]
    constructor
    · intro h
      by_contra hc
      have : q + 1 ≤ (m : Int) := by omega
      have h5 : (q + 1) * k ≤ m * k := mul_le_mul_of_nonneg_right this hk.le
      have : (q + 1) * k = k * q + k := by ring
      omega
    · intro h
      have : (m : Int) ≤ q := by omega
      have h5 : (m : Int) * k ≤ q * k := mul_le_mul_of_nonneg_right this hk.le
      have : q * k = k * q := by ring
      omega

theorem steppedSize_neg_neg (i j k : Int) (hk : k ≠ 0) (h : j - i ≠ 0) : steppedSize i j k = steppedSize (-i) (-j) (-k) := by
  simp only [steppedSize]
  have e : -j - -i = -(j - i) := by ring
  rw [e, Int.neg_tdiv, Int.tdiv_neg, Int.neg_tmod, Int.tmod_neg]
  generalize j - i = N at *
  simp only [neg_neg, ne_eq, neg_eq_zero]
  congr 1
  have a1 : (decide (N < 0) != decide (k > 0)) = (decide (-N < 0) != decide (-k > 0)) := by
    by_cases h1 : N < 0
    · by_cases h2 : 0 < k
      · have h3 : ¬ k < 0 := by omega
        have h4 : ¬ 0 < N := by omega
        simp [h1, h2, h3, h4]
      · have h3 : k < 0 := by omega
        have h4 : ¬ 0 < N := by omega
        simp [h1, h2, h3, h4]
    · by_cases h2 : 0 < k
      · have h3 : ¬ k < 0 := by omega
        have h4 : 0 < N := by omega
        simp [h1, h2, h3, h4]
      · have h3 : k < 0 := by omega
        have h4 : 0 < N := by omega
        simp [h1, h2, h3, h4]
  rw [a1]

theorem steppedSize_self (i k : Int) : steppedSize i i k = 0 := by
  simp [steppedSize]

theorem steppedSize_neg {i j k : Int} (hk : k < 0) (hij : j ≤ i) (m : Nat) :
    j < i + m * k ↔ (m : Int) < steppedSize i j k := by
  by_cases h0 : j - i = 0
  · have : j = i := by omega
    subst this
    rw [steppedSize_self]
    have : (m : Int) * k ≤ 0 := mul_nonpos_of_nonneg_of_nonpos (by omega) hk.le
    omega
  · rw [steppedSize_neg_neg _ _ _ (by omega) h0, ← steppedSize_pos (by omega) (by omega)]
    have : (m : Int) * -k = -(m * k) := by ring
    omega

/-- Wrong-direction ranges: the computed size is `-(|n| / |step|)`. -/
theorem steppedSize_opp_pos {i j k : Int} (hk : 0 < k) (hij : j < i) :
    steppedSize i j k ≤ 0 ∧ (steppedSize i j k = 0 ↔ i < j + k) := by
  have hn : 0 ≤ i - j := by omega
  simp only [steppedSize]
  have e : j - i = -(i - j) := by ring
  have e1 : decide (j - i < 0) = true := by simp; omega
  have e2 : decide (k > 0) = true := by simpa using hk
  rw [e1, e2, e, Int.neg_tdiv, Int.tdiv_eq_ediv_of_nonneg hn]
  have h1 := Int.mul_ediv_add_emod (i - j) k
  have h2 := Int.emod_nonneg (i - j) (by omega : k ≠ 0)
  have h3 := Int.emod_lt_of_pos (i - j) hk
  have h4 : 0 ≤ (i - j) / k := Int.ediv_nonneg hn hk.le
  generalize hq : (i - j) / k = q at *
  generalize (i - j) % k = r at *
  simp only [bne_self_eq_false, Bool.false_and, Bool.false_eq_true, if_false, add_zero]
  refine ⟨by omega, ?_, ?_⟩
  · intro h; have : q = 0 := by omega
    subst this; simp at h1; omega
  · intro h
    by_contra hc
    have : 1 ≤ q := by omega
    have := mul_le_mul_of_nonneg_left this hk.le
    omega

theorem steppedSize_opp_neg {i j k : Int} (hk : k < 0) (hij : i < j) :
    steppedSize i j k ≤ 0 ∧ (steppedSize i j k = 0 ↔ j + k < i) := by
  rw [steppedSize_neg_neg _ _ _ (by omega) (by omega)]
  have := steppedSize_opp_pos (i := -i) (j := -j) (k := -k) (by omega) (by omega)
  refine ⟨this.1, this.2.trans ?_⟩
  constructor <;> intro <;> omega

/-- Positions of a stepped range, written with the Python filter. -/
theorem stepped_positions {n : Nat} {i j k : Int} (hk : k ≠ 0)
    (hb : 0 < k → 0 ≤ i ∧ j ≤ n) (hb' : k < 0 → i ≤ (n : Int) - 1 ∧ -1 ≤ j) :
    (Sl.stepped i (steppedSize i j k) k).positions =
      ((List.range n).map fun (m : Nat) => i + m * k).filter
        (fun x => if 0 < k then decide (x < j) else decide (j < x)) := by
  have key : ∀ m : Nat, (if 0 < k then decide (i + m * k < j) else decide (j < i + m * k)) =
      decide (m < (steppedSize i j k).toNat) := by
    intro m
    by_cases hp : 0 < k
    · rw [if_pos hp]
      by_cases hij : i ≤ j
      · have := steppedSize_pos hp hij m
        simp only [decide_eq_decide]; omega
      · have := steppedSize_opp_pos hp (not_le.mp hij)
        have h2 : 0 ≤ (m : Int) * k := mul_nonneg (by omega) hp.le
        simp only [decide_eq_decide]; omega
    · have hn : k < 0 := by omega
      rw [if_neg hp]
      by_cases hij : j ≤ i
      · have := steppedSize_neg hn hij m
        simp only [decide_eq_decide]; omega
      · have := steppedSize_opp_neg hn (not_le.mp hij)
        have h2 : (m : Int) * k ≤ 0 := mul_nonpos_of_nonneg_of_nonpos (by omega) hn.le
        simp only [decide_eq_decide]; omega
  have hle : (steppedSize i j k).toNat ≤ n := by
    by_contra hc
    have hc' := key n
    rw [decide_eq_true (by omega : n < (steppedSize i j k).toNat)] at hc'
    by_cases hp : 0 < k
    · rw [if_pos hp] at hc'
      simp at hc'
      have := hb hp
      have : (n : Int) * 1 ≤ n * k := mul_le_mul_of_nonneg_left (by omega) (by omega)
      omega
    · rw [if_neg hp] at hc'
      simp at hc'
      have := hb' (by omega)
      have : (n : Int) * k ≤ n * (-1) := mul_le_mul_of_nonneg_left (by omega) (by omega)
      omega
  rw [List.filter_map]
  have : ((fun x => if 0 < k then decide (x < j) else decide (j < x)) ∘ fun (m : Nat) => i + m * k)
      = fun m : Nat => decide (m < (steppedSize i j k).toNat) := by
    funext m; exact key m
  rw [this, filter_range_lt _ _ hle]
  rfl

theorem range_positions {n : Nat} {i j : Int} (hi : 0 ≤ i) (hj : j ≤ n) :
    (mkRange i j).positions =
      ((List.range n).map fun (m : Nat) => i + m * 1).filter (fun x => decide (x < j)) := by
  have e : steppedSize i j 1 = j - i := by simp [steppedSize]
  have := stepped_positions (n := n) (i := i) (j := j) (k := 1) (by decide) (fun _ => ⟨hi, hj⟩)
    (by intro h; omega)
  simp only [Int.zero_lt_one, if_true] at this
  rw [← this]
  simp only [Sl.positions, mkRange, Sl.size, Sl.value, e, mul_one]
  congr 2
  split <;> omega

theorem rangeNormalize_eq (n : Nat) (b : Int) : rangeNormalize b n = pyClip n 1 b := by
  simp only [rangeNormalize, pyClip, Int.zero_lt_one, if_true]
  by_cases h : b < 0
  · rw [if_neg (by omega), if_pos h]
  · rw [if_pos (by omega), if_neg h]

theorem pyClip_pos {n : Nat} {k : Int} (hk : 0 < k) (b : Int) : 0 ≤ pyClip n k b ∧ pyClip n k b ≤ n := by
  simp only [pyClip, hk, if_true]; omega

theorem pyClip_neg {n : Nat} {k : Int} (hk : ¬ 0 < k) (b : Int) :
    -1 ≤ pyClip n k b ∧ pyClip n k b ≤ (n : Int) - 1 := by
  simp only [pyClip, hk, if_false]; omega

theorem pyStart_pos {n : Nat} {k : Int} (hk : 0 < k) (b : Option Int) :
    0 ≤ pyStart n k b ∧ pyStart n k b ≤ n := by
  cases b with
  | none => simp [pyStart, hk]
  | some b => exact pyClip_pos hk b

theorem pyStart_neg {n : Nat} {k : Int} (hk : ¬ 0 < k) (b : Option Int) :
    -1 ≤ pyStart n k b ∧ pyStart n k b ≤ (n : Int) - 1 := by
  cases b with
  | none => simp [pyStart, hk]
  | some b => exact pyClip_neg hk b

theorem pyStop_pos {n : Nat} {k : Int} (hk : 0 < k) (b : Option Int) :
    0 ≤ pyStop n k b ∧ pyStop n k b ≤ n := by
  cases b with
  | none => simp [pyStop, hk]
  | some b => exact pyClip_pos hk b

theorem pyStop_neg {n : Nat} {k : Int} (hk : ¬ 0 < k) (b : Option Int) :
    -1 ≤ pyStop n k b ∧ pyStop n k b ≤ (n : Int) - 1 := by
  cases b with
  | none => simp [pyStop, hk]
  | some b => exact pyClip_neg hk b

theorem getSteppedRange_eq (a b k : Int) (n : Nat) :
    getSteppedRange a b k n = mkStepped (pyClip n k a) (pyClip n k b) k := by
  have e : ∀ x : Int, (if x ≥ 0 then x else x + n) = if x < 0 then x + n else x := by
    intro x; by_cases h : x < 0
    · rw [if_neg (by omega), if_pos h]
    · rw [if_pos (by omega), if_neg h]
  simp only [getSteppedRange, e, pyClip]
  by_cases hk : 0 < k
  · simp [hk]
  · simp [hk]

/-- With a step, the bound slice is the stepped range between the Python-adjusted bounds. -/
theorem rangeGet_step (n : Nat) (a b : Option Int) (k : Int) (hk : k ≠ 0) :
    rangeGet a b (some k) n =
      .ok (.stepped (pyStart n k a) (steppedSize (pyStart n k a) (pyStop n k b) k) k) := by
  rcases a with _ | a <;> rcases b with _ | b <;> simp only [rangeGet]
  · rw [mkStepped, if_neg hk]
    simp only [pyStart, pyStop]
    by_cases h : 0 < k
    · simp [h, h.le]
    · have : ¬ 0 ≤ k := by omega
      simp [h, this]
  · rw [getSteppedRange_eq, mkStepped, if_neg hk]
    have : pyClip n k (if k > 0 then 0 else (n : Int) - 1) = pyStart n k none := by
      simp only [pyClip, pyStart, gt_iff_lt]
      by_cases h : 0 < k
      · simp [h]
      · simp only [h, if_false]; split <;> omega
    rw [this]; rfl
  · rw [getSteppedRange_eq, mkStepped, if_neg hk]
    have : pyClip n k (if k > 0 then n else -((n : Int) + 1)) = pyStop n k none := by
      simp only [pyClip, pyStop, gt_iff_lt]
      by_cases h : 0 < k
      · simp only [h, if_true]; split <;> omega
      · simp only [h, if_false]; split <;> omega
    rw [this]; rfl
  · rw [getSteppedRange_eq, mkStepped, if_neg hk]; rfl

theorem pySlice_step_bounds (n : Nat) (a b : Option Int) (k : Int) (hk : k ≠ 0) :
    (Sl.stepped (pyStart n k a) (steppedSize (pyStart n k a) (pyStop n k b) k) k).positions
      = pySlice n a b k := by
  apply stepped_positions hk
  · intro h; exact ⟨(pyStart_pos h a).1, (pyStop_pos h b).2⟩
  · intro h; exact ⟨(pyStart_neg (by omega) a).2, (pyStop_neg (by omega) b).1⟩

theorem mem_pySlice {n : Nat} {a b : Option Int} {k x : Int} (hk : k ≠ 0) (h : x ∈ pySlice n a b k) :
    0 ≤ x ∧ x < n := by
  simp only [pySlice, List.mem_filter, List.mem_map, List.mem_range] at h
  obtain ⟨⟨m, _, rfl⟩, h2⟩ := h
  by_cases hp : 0 < k
  · simp [hp] at h2
    have h0 : 0 ≤ (m : Int) * k := mul_nonneg (by omega) hp.le
    have := pyStart_pos (n := n) hp a
    have := pyStop_pos (n := n) hp b
    omega
  · simp [hp] at h2
    have h0 : (m : Int) * k ≤ 0 := mul_nonpos_of_nonneg_of_nonpos (by omega) (by omega)
    have := pyStart_neg (n := n) hp a
    have := pyStop_neg (n := n) hp b
    omega

theorem length_positions (s : Sl) : s.positions.length = s.size.toNat := by simp [Sl.positions]

/-! ## C16 -/

/-- C16: `range(start, stop)` (each bound given or a placeholder) bound to an axis of length `n`
selects exactly the positions of Python's `slice(start, stop)`, reports their number as its size,
and every position is inside the axis. -/
theorem C16_range_no_step (n : Nat) (start stop : Option Int) :
    ∃ s, getSlice n (.range start stop none) = .ok s ∧
      s.positions = pySlice n start stop 1 ∧ s.size = (pySlice n start stop 1).length ∧
      ∀ p ∈ s.positions, 0 ≤ p ∧ p < n := by
  have main : ∀ s : Sl, 0 ≤ s.size → s.positions = pySlice n start stop 1 →
      getSlice n (.range start stop none) = .ok s →
      ∃ s, getSlice n (.range start stop none) = .ok s ∧
      s.positions = pySlice n start stop 1 ∧ s.size = (pySlice n start stop 1).length ∧
      ∀ p ∈ s.positions, 0 ≤ p ∧ p < n := by
    intro s h0 h1 h2
    refine ⟨s, h2, h1, ?_, ?_⟩
    · rw [← h1, length_positions]; omega
    · intro p hp; rw [h1] at hp; exact mem_pySlice (by decide) hp
  have hsz : ∀ i j : Int, 0 ≤ (mkRange i j).size := by
    intro i j; simp only [mkRange, Sl.size]; split <;> omega
  have hr : ∀ i j : Int, i = pyStart n 1 start → j = pyStop n 1 stop →
      (mkRange i j).positions = pySlice n start stop 1 := by
    intro i j hi hj
    rw [range_positions (n := n)]
    · subst hi hj; simp [pySlice]
    · have := (pyStart_pos (n := n) (k := 1) (by decide) start).1; omega
    · have := (pyStop_pos (n := n) (k := 1) (by decide) stop).2; omega
  rcases start with _ | a <;> rcases stop with _ | b
  · refine main (.all n) (by simp [Sl.size]) ?_ rfl
    rw [← hr 0 n (by simp [pyStart]) (by simp [pyStop])]
    simp only [Sl.positions, mkRange, Sl.size, Sl.value]
    have : (if (n : Int) > 0 then (n : Int) - 0 else 0).toNat = n := by split <;> omega
    rw [this]; simp
  · exact main _ (hsz _ _) (hr 0 (rangeNormalize b n) (by simp [pyStart]) (rangeNormalize_eq n b)) rfl
  · exact main _ (hsz _ _) (hr (rangeNormalize a n) n (rangeNormalize_eq n a) (by simp [pyStop])) rfl
  · exact main _ (hsz _ _) (hr (rangeNormalize a n) (rangeNormalize b n) (rangeNormalize_eq n a)
      (rangeNormalize_eq n b)) rfl

example : getSlice 5 (.range (some (-4)) (some 9) none) = .ok (.range 1 4) ∧
    pySlice 5 (some (-4)) (some 9) 1 = [1, 2, 3, 4] := by decide

/-- C16: `range(start, stop, step)` with any non-zero step addresses the positions of Python's
`slice(start, stop, step)`, all inside the axis. -/
theorem C16_range_step_partial (n : Nat) (start stop : Option Int) (step : Int) (hs : step ≠ 0) :
    ∃ s, getSlice n (.range start stop (some step)) = .ok s ∧
      s.positions = pySlice n start stop step ∧ ∀ p ∈ s.positions, 0 ≤ p ∧ p < n := by
  refine ⟨_, rangeGet_step n start stop step hs, pySlice_step_bounds n start stop step hs, ?_⟩
  intro p hp
  rw [pySlice_step_bounds n start stop step hs] at hp
  exact mem_pySlice hs hp

example : getSlice 5 (.range none none (some (-2))) = .ok (.stepped 4 3 (-2)) ∧
    pySlice 5 none none (-2) = [4, 2, 0] ∧ pySlice 5 (some (-7)) (some (-1)) 3 = [0, 3] := by decide

/-- C16: exactly when the size reported by a stepped range is the number of positions selected: the
adjusted stop is not a whole step or more *behind* the adjusted start.  (Full claim: always.) -/
theorem C16_size_exact_iff (n : Nat) (start stop : Option Int) (step : Int) (hs : step ≠ 0) :
    ∃ s, getSlice n (.range start stop (some step)) = .ok s ∧
      (s.size = (pySlice n start stop step).length ↔
        ¬ (0 < step ∧ pyStop n step stop + step ≤ pyStart n step start) ∧
        ¬ (step < 0 ∧ pyStart n step start ≤ pyStop n step stop + step)) := by
  refine ⟨_, rangeGet_step n start stop step hs, ?_⟩
  rw [← pySlice_step_bounds n start stop step hs, length_positions]
  generalize pyStart n step start = i
  generalize pyStop n step stop = j
  simp only [Sl.size]
  have : steppedSize i j step = ((steppedSize i j step).toNat : Int) ↔ 0 ≤ steppedSize i j step := by
    constructor <;> intro <;> omega
  rw [this]
  by_cases hp : 0 < step
  · have hn : ¬ step < 0 := by omega
    simp only [hp, hn, true_and, false_and, not_false_eq_true, and_true, not_le]
    by_cases hij : j < i
    · have := steppedSize_opp_pos hp hij
      rw [← this.2]; constructor <;> intro <;> omega
    · have h1 := steppedSize_pos hp (not_lt.mp hij) 0
      by_cases h2 : i = j
      · subst h2; rw [steppedSize_self]; constructor <;> intro <;> omega
      · have : i + ((0 : Nat) : Int) * step < j := by simp; omega
        have := h1.mp this
        constructor <;> intro <;> omega
  · have hn : step < 0 := by omega
    simp only [hp, hn, true_and, false_and, not_false_eq_true, not_le]
    by_cases hij : i < j
    · have := steppedSize_opp_neg hn hij
      rw [← this.2]; constructor <;> intro <;> omega
    · have h1 := steppedSize_neg hn (not_lt.mp hij) 0
      by_cases h2 : i = j
      · subst h2; rw [steppedSize_self]; constructor <;> intro <;> omega
      · have : j < i + ((0 : Nat) : Int) * step := by simp; omega
        have := h1.mp this
        constructor <;> intro <;> omega

/-- C16, negation witness: `range(4, 1, 2)` on an axis of length 6 selects nothing in Python but
reports size -1 (an enormous extent once converted to an unsigned shape). -/
theorem C16_negative_size : getSlice 6 (.range (some 4) (some 1) (some 2)) = .ok (.stepped 4 (-1) 2) ∧
    pySlice 6 (some 4) (some 1) 2 = [] := by decide

/-- C16: a zero step divides by zero (Python raises an error). -/
theorem C16_zero_step_ub (n : Nat) (start stop : Option Int) :
    getSlice n (.range start stop (some 0)) = .ub := by
  rcases start with _ | a <;> rcases stop with _ | b <;> simp [getSlice, rangeGet, getSteppedRange, mkStepped]

example : getSlice 3 (.range none (some 2) (some 0)) = .ub := by decide

/-- C16: membership tests on a bound range agree with the positions for positive steps. -/
theorem C16_contains_partial (n : Nat) (start stop : Option Int) (step : Option Int)
    (hs : ∀ k, step = some k → 0 < k) :
    ∃ s, getSlice n (.range start stop step) = .ok s ∧
      ∀ p : Int, 0 ≤ p → p < n → (s.contains p = true ↔ p ∈ s.positions) := by
  have hrange : ∀ i j p : Int, (mkRange i j).contains p = true ↔ p ∈ (mkRange i j).positions := by
    intro i j p
    simp only [mkRange, Sl.contains, Sl.positions, Sl.size, Sl.value, Bool.and_eq_true,
      decide_eq_true_eq, List.mem_map, List.mem_range]
    constructor
    · rintro ⟨h1, h2⟩; exact ⟨(p - i).toNat, by omega, by omega⟩
    · rintro ⟨m, h1, rfl⟩; omega
  rcases step with _ | k
  · rcases start with _ | a <;> rcases stop with _ | b
    · refine ⟨_, rfl, ?_⟩
      intro p h0 h1
      simp only [Sl.contains, Sl.positions, Sl.size, Sl.value, decide_eq_true_eq, List.mem_map, List.mem_range]
      constructor
      · intro h; exact ⟨p.toNat, by omega, by omega⟩
      · intro _; omega
    all_goals exact ⟨_, rfl, fun p _ _ => hrange _ _ p⟩
  · have hk := hs k rfl
    refine ⟨_, rangeGet_step n start stop k (by omega), ?_⟩
    intro p _ _
    generalize pyStart n k start = i
    generalize pyStop n k stop = j
    generalize steppedSize i j k = c
    simp only [Sl.contains, Sl.positions, Sl.size, Sl.value, Bool.and_eq_true, decide_eq_true_eq,
      List.mem_map, List.mem_range]
    constructor
    · rintro ⟨⟨h1, h2⟩, h3⟩
      have h4 := Int.dvd_of_tmod_eq_zero h3
      obtain ⟨m, hm⟩ := h4
      have hm0 : 0 ≤ m := by
        by_contra hc
        have : k * m < 0 := mul_neg_of_pos_of_neg hk (by omega)
        omega
      have hmc : m < c := by
        have : k * m < k * c := by have := mul_comm c k; omega
        exact lt_of_mul_lt_mul_left this hk.le
      refine ⟨m.toNat, by omega, ?_⟩
      have : ((m.toNat : Nat) : Int) = m := by omega
      rw [this]
      have := mul_comm m k
      omega
    · rintro ⟨m, h1, rfl⟩
      have hmc : (m : Int) < c := by omega
      have h2 : (m : Int) * k < c * k := mul_lt_mul_of_pos_right hmc hk
      have h3 : 0 ≤ (m : Int) * k := mul_nonneg (by omega) hk.le
      refine ⟨⟨by omega, by omega⟩, ?_⟩
      rw [show i + (m : Int) * k - i = m * k by ring]
      exact Int.mul_tmod_left _ _

example : (∀ k, some (2 : Int) = some k → 0 < k) := by simp

/-- C16, negation witness: for a negative step `contains` denies selected positions. -/
theorem C16_contains_negative_step :
    getSlice 5 (.range none none (some (-2))) = .ok (.stepped 4 3 (-2)) ∧
    (Sl.stepped 4 3 (-2)).positions = [4, 2, 0] ∧
    (Sl.stepped 4 3 (-2)).positions.map (Sl.stepped 4 3 (-2)).contains = [false, false, false] := by
  decide

/-! ## C17 -/

/-- C17: `keep(i₀, i₁, …)` selects exactly the listed indices, in the listed order and with
repetitions, negative ones counting from the end; its size is the number of listed indices. -/
theorem C17_keep (n : Nat) (raw : List Int) :
    ∃ s, getSlice n (.keep raw) = .ok s ∧ s.positions = raw.map (pyIndex n) ∧
      s.size = raw.length := by
  refine ⟨_, rfl, ?_, by simp [Sl.size]⟩
  have e : raw.map (normIndex n) = raw.map (pyIndex n) := by
    apply List.map_congr_left; intro a _
    simp only [normIndex, pyIndex]; split <;> omega
  simp only [Sl.positions, Sl.size, Sl.value, e]
  generalize raw.map (pyIndex n) = l
  apply List.ext_getElem?
  intro i
  simp only [List.getElem?_map, List.getElem?_range', Int.toNat_natCast]
  by_cases hi : i < l.length
  · simp only [List.getElem?_range hi, Option.map_some]
    by_cases h1 : l.length = 1
    · obtain ⟨a, rfl⟩ := List.length_eq_one_iff.mp h1
      have : i = 0 := by simpa using hi
      subst this; simp
    · simp [h1, List.getElem?_eq_getElem hi]
  · have h2 : (List.range l.length)[i]? = none := by simp; omega
    rw [h2, List.getElem?_eq_none (by omega)]; rfl

example : getSlice 4 (.keep [3, -4, 3]) = .ok (.keep [3, 0, 3]) := by decide

theorem runLen_le (d : Int) (l : List Int) : runLen d l ≤ l.length := by
  induction l generalizing d with
  | nil => simp [runLen]
  | cons x xs ih => simp only [runLen]; split <;> simp [ih]

/-- The table built by the loop when keys come out increasing. -/
def dropTable (c : Int) : List Int → List (Int × Int)
  | [] => []
  | d :: rest => (d - c, c + (runLen d rest + 1)) :: dropTable (c + (runLen d rest + 1)) (rest.drop (runLen d rest))
  termination_by l => l.length
  decreasing_by simp; omega

/-- `i`-th position not in the sorted list, counting from `x`. -/
def nthKept : List Int → Int → Int
  | [], x => x
  | d :: ds, x => if x < d then x else nthKept ds (x + 1)

theorem mapSet_append {k v : Int} {m : List (Int × Int)} (h : ∀ p ∈ m, p.1 < k) :
    mapSet k v m = m ++ [(k, v)] := by
  induction m with
  | nil => rfl
  | cons p m ih =>
    obtain ⟨a, b⟩ := p
    have ha : a < k := h (a, b) (by simp)
    simp only [mapSet]
    rw [if_neg (by omega), if_neg (by omega), ih (fun p hp => h p (by simp [hp]))]
    rfl

/-- In a strictly increasing list, what remains after a run starts at least two past its end. -/
theorem run_gap (d : Int) (rest : List Int) (h : List.Pairwise (· < ·) (d :: rest)) :
    ∀ x ∈ rest.drop (runLen d rest), d + runLen d rest + 1 < x := by
  induction rest generalizing d with
  | nil => simp
  | cons y ys ih =>
    rw [List.pairwise_cons] at h
    have hy := h.1 y (by simp)
    simp only [runLen]
    by_cases hc : y = d + 1
    · rw [if_pos hc]
      intro x hx
      have := ih y h.2 x (by simpa using hx)
      push_cast; omega
    · rw [if_neg hc]
      intro x hx
      simp only [List.drop_zero, List.mem_cons] at hx
      rcases hx with rfl | hx
      · simp; omega
      · have := (List.pairwise_cons.mp h.2).1 x hx
        simp; omega

theorem dropLoop_eq (fuel : Nat) (l : List Int) (c : Int) (inc : List (Int × Int))
    (hf : l.length ≤ fuel) (h : List.Pairwise (· < ·) l)
    (hk : ∀ p ∈ inc, ∀ x ∈ l, p.1 < x - c) : dropLoop fuel c inc l = inc ++ dropTable c l := by
  induction fuel generalizing l c inc with
  | zero =>
    have : l = [] := List.length_eq_zero_iff.mp (by omega)
    subst this
    simp [dropLoop, dropTable]
  | succ fuel ih =>
    cases l with
    | nil => simp [dropLoop, dropTable]
    | cons d rest =>
      rw [dropLoop, dropTable]
      rw [mapSet_append (fun p hp => hk p hp d (by simp))]
      rw [ih]
      · simp
      · simp at hf ⊢; omega
      · exact (List.pairwise_cons.mp h).2.sublist (List.drop_sublist _ _)
      · intro p hp x hx
        have hg := run_gap d rest h x hx
        simp only [List.mem_append, List.mem_singleton] at hp
        rcases hp with hp | rfl
        · have := hk p hp d (by simp); omega
        · simp only; omega

theorem nthKept_run (d : Int) (rest : List Int) (x : Int) (hx : d < x) :
    nthKept rest x = nthKept (rest.drop (runLen d rest)) (x + runLen d rest) := by
  induction rest generalizing d x with
  | nil => simp [nthKept, runLen]
  | cons y ys ih =>
    simp only [runLen]
    by_cases hc : y = d + 1
    · rw [if_pos hc]
      simp only [nthKept, List.drop_succ_cons]
      rw [if_neg (by omega), ih y (x + 1) (by omega)]
      congr 1; push_cast; ring
    · rw [if_neg hc]; simp

theorem lookup_table (l : List Int) (c i : Int) :
    i + (incLookup i (dropTable c l)).getD c = nthKept l (i + c) := by
  induction hn : l.length using Nat.strong_induction_on generalizing l c with
  | _ N ih =>
    cases l with
    | nil => simp [dropTable, incLookup, nthKept]
    | cons d rest =>
      rw [dropTable]
      simp only [incLookup, nthKept]
      by_cases hc : i < d - c
      · rw [if_pos hc, if_pos (by omega)]; rfl
      · rw [if_neg hc, if_neg (by omega)]
        simp only [Option.getD_some]
        rw [ih (rest.drop (runLen d rest)).length (by simp at hn ⊢; omega) _ _ rfl]
        rw [nthKept_run d rest (i + c + 1) (by omega)]
        congr 1; ring

theorem value_drop (sz : Int) (inc : List (Int × Int)) (i : Int) :
    (Sl.drop sz inc).value i = i + (incLookup i inc).getD 0 := by
  cases inc with
  | nil => simp [Sl.value, incLookup]
  | cons p m =>
    obtain ⟨k, v⟩ := p
    simp only [Sl.value]
    by_cases h : i < k
    · simp [h, incLookup]
    · simp [h]

/-- `b, b+1, …, b+k-1`. -/
def intRange (b : Int) : Nat → List Int
  | 0 => []
  | k + 1 => b :: intRange (b + 1) k

theorem intRange_eq (b : Int) (k : Nat) : intRange b k = (List.range k).map fun (m : Nat) => b + m := by
  induction k generalizing b with
  | zero => rfl
  | succ k ih =>
    rw [intRange, ih, List.range_succ_eq_map]
    simp only [List.map_cons, List.map_map]
    congr 1
    · simp
    · apply List.map_congr_left; intro a _; simp; ring

theorem mem_intRange {b x : Int} {k : Nat} : x ∈ intRange b k ↔ b ≤ x ∧ x < b + k := by
  rw [intRange_eq]; simp only [List.mem_map, List.mem_range]
  constructor
  · rintro ⟨m, h, rfl⟩; omega
  · intro h; exact ⟨(x - b).toNat, by omega, by omega⟩

theorem strictInc_length {l : List Int} {b : Int} {k : Nat} (h : List.Pairwise (· < ·) l)
    (hb : ∀ x ∈ l, b ≤ x ∧ x < b + k) : l.length ≤ k := by
  induction k generalizing l b with
  | zero =>
    cases l with
    | nil => simp
    | cons a l => have := hb a (by simp); simp at this; omega
  | succ k ih =>
    cases l with
    | nil => simp
    | cons a l =>
      rw [List.pairwise_cons] at h
      have := ih (l := l) (b := b + 1) h.2 (fun x hx => by
        have h1 := hb x (by simp [hx]); have h2 := h.1 x hx; have h3 := hb a (by simp)
        push_cast at h1; omega)
      simp; omega

theorem kept_eq_filter (k : Nat) (b : Int) (l : List Int) (h : List.Pairwise (· < ·) l)
    (hb : ∀ x ∈ l, b ≤ x ∧ x < b + k) :
    (intRange b (k - l.length)).map (nthKept l) = (intRange b k).filter (fun x => !l.contains x) := by
  induction k generalizing b l with
  | zero => simp [intRange]
  | succ k ih =>
    cases l with
    | nil =>
      have h1 : nthKept [] = id := by funext x; rfl
      rw [h1]; simp
    | cons d ds =>
      rw [List.pairwise_cons] at h
      have hd := hb d (by simp)
      have hds : ∀ x ∈ ds, b + 1 ≤ x ∧ x < b + 1 + k := fun x hx => by
        have h1 := hb x (by simp [hx]); have h2 := h.1 x hx
        push_cast at h1; omega
      by_cases hdb : d = b
      · subst hdb
        have h1 : intRange d (k + 1) = d :: intRange (d + 1) k := rfl
        rw [h1, List.filter_cons]
        simp only [List.contains_cons, BEq.rfl, Bool.true_or, Bool.not_true, Bool.false_eq_true, if_false]
        have hrec := ih (d + 1) ds h.2 hds
        have h3 : (intRange (d + 1) k).filter (fun x => !(x == d || ds.contains x)) =
            (intRange (d + 1) k).filter (fun x => !ds.contains x) := by
          apply List.filter_congr
          intro x hx
          have := (mem_intRange.mp hx).1
          have : (x == d) = false := by simp; omega
          rw [this]; simp
        rw [h3, ← hrec]
        have h4 : k + 1 - (d :: ds).length = k - ds.length := by simp
        rw [h4, intRange_eq, intRange_eq, List.map_map, List.map_map]
        apply List.map_congr_left
        intro m _
        simp only [Function.comp, nthKept]
        rw [if_neg (by omega)]; congr 1; ring
      · have hdb' : b < d := by omega
        have hlen := strictInc_length (l := d :: ds) (b := b + 1) (k := k)
          (List.pairwise_cons.mpr h) (fun x hx => by
            rcases List.mem_cons.mp hx with rfl | hx
            · push_cast at hd; omega
            · exact hds x hx)
        have h1 : k + 1 - (d :: ds).length = (k - (d :: ds).length) + 1 := by omega
        rw [h1]
        have h2 : intRange b (k + 1) = b :: intRange (b + 1) k := rfl
        rw [h2, List.filter_cons]
        have h3 : (d :: ds).contains b = false := by
          rw [Bool.eq_false_iff]; intro hc
          simp only [List.contains_cons, Bool.or_eq_true, beq_iff_eq, List.contains_iff_mem] at hc
          rcases hc with hc | hc
          · omega
          · have := (hds b hc).1; omega
        rw [h3]
        simp only [Bool.not_false, if_true, intRange, List.map_cons]
        congr 1
        · simp [nthKept, hdb']
        · apply ih
          · exact List.pairwise_cons.mpr h
          · intro x hx
            rcases List.mem_cons.mp hx with rfl | hx
            · push_cast at hd; omega
            · exact hds x hx

/-- C17: `drop(i₀, i₁, …)` with listed indices that denote strictly increasing positions of the axis
selects exactly the positions not listed, in increasing order, and its size is their number.  (Full
claim: for every list of valid indices; the two witnesses below show what goes wrong otherwise.) -/
theorem C17_drop_partial (n : Nat) (raw : List Int)
    (hsort : (raw.map (pyIndex n)).Pairwise (· < ·))
    (hin : ∀ i ∈ raw, 0 ≤ pyIndex n i ∧ pyIndex n i < n) :
    ∃ s, getSlice n (.drop raw) = .ok s ∧
      s.positions = ((List.range n).map Int.ofNat).filter (fun p => !(raw.map (pyIndex n)).contains p) ∧
      s.size = s.positions.length := by
  have e : raw.map (normIndex n) = raw.map (pyIndex n) := by
    apply List.map_congr_left; intro a _
    simp only [normIndex, pyIndex]; split <;> omega
  have hlen : raw.length ≤ n := by
    have := strictInc_length (l := raw.map (pyIndex n)) (b := 0) (k := n) hsort (by
      intro x hx; obtain ⟨i, hi, rfl⟩ := List.mem_map.mp hx
      have := hin i hi; omega)
    simpa using this
  refine ⟨_, rfl, ?_, ?_⟩
  · simp only [dropNormalize, e]
    rw [dropLoop_eq _ _ _ _ (by simp) hsort (by simp)]
    have h0 : ((List.range n).map Int.ofNat) = intRange 0 n := by
      rw [intRange_eq]; apply List.map_congr_left; intro a _; simp
    have h1 := kept_eq_filter n 0 (raw.map (pyIndex n)) hsort (by
      intro x hx; obtain ⟨i, hi, rfl⟩ := List.mem_map.mp hx
      have := hin i hi; omega)
    rw [h0, ← h1, intRange_eq, List.map_map]
    simp only [Sl.positions, Sl.size, List.nil_append]
    have h2 : ((n : Int) - raw.length).toNat = n - (raw.map (pyIndex n)).length := by simp
    rw [h2]
    apply List.map_congr_left
    intro m _
    rw [value_drop, lookup_table]
    simp
  · rw [length_positions]; simp only [dropNormalize, Sl.size]; omega

example : ([-5, 2, 3].map (pyIndex 6)).Pairwise (· < ·) ∧
    (∀ i ∈ ([-5, 2, 3] : List Int), 0 ≤ pyIndex 6 i ∧ pyIndex 6 i < (6 : Nat)) ∧
    (dropNormalize [] [-5, 2, 3] 6).positions = [0, 4, 5] := by
  decide

/-- C17, negation witnesses: unsorted or repeated indices.  `drop(2, 1)` on an axis of length 4
yields positions 2 and 3 (instead of 0 and 3), `drop(1, 1)` reports size 2 instead of 3. -/
theorem C17_drop_unsorted : (dropNormalize [] [2, 1] 4).positions = [2, 3] ∧
    (dropNormalize [] [1, 1] 4).size = 2 := by
  decide

/-- C17, negation witness: a `drop` object used first on an axis of length 3 and then on one of
length 5 keeps stale entries: `drop(-1)` then skips position 2 and addresses position 4. -/
theorem C17_drop_reuse : ∃ inc, dropNormalize [] [-1] 3 = .drop 2 inc ∧
    (dropNormalize inc [-1] 5).positions = [0, 1, 3, 4] ∧
    (dropNormalize [] [-1] 5).positions = [0, 1, 2, 3] := by
  refine ⟨[(2, 1)], by decide, by decide, by decide⟩

end Xt
