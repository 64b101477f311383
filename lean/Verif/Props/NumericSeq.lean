import Verif.Props.Numeric
/-!
# Numerical functions (C66): unwrapping, interpolation, covariance, convolution
-/

namespace Xt
open Spec Finset

/-! ### Unwrapping -/

theorem ratMod_congr (x p : ℚ) : ∃ z : ℤ, ratMod x p = x + z * p := by
  unfold ratMod
  split
  · exact ⟨-⌊x / p⌋, by push_cast; ring⟩
  · exact ⟨-⌈x / p⌉, by push_cast; ring⟩

theorem ratMod_nonneg {x p : ℚ} (hp : 0 < p) (hx : 0 ≤ x) : 0 ≤ ratMod x p ∧ ratMod x p < p := by
  have hq : 0 ≤ x / p := div_nonneg hx hp.le
  unfold ratMod
  rw [if_pos hq]
  have h1 := Int.floor_le (x / p)
  have h2 := Int.lt_floor_add_one (x / p)
  have hxp : x = p * (x / p) := by field_simp
  constructor
  · have := mul_le_mul_of_nonneg_left h1 hp.le
    linarith
  · have := mul_lt_mul_of_pos_left h2 hp
    linarith

theorem ratMod_neg {x p : ℚ} (hp : 0 < p) (hx : x < 0) : -p < ratMod x p ∧ ratMod x p ≤ 0 := by
  have hq : x / p < 0 := div_neg_of_neg_of_pos hx hp
  unfold ratMod
  rw [if_neg (by linarith)]
  have h1 := Int.le_ceil (x / p)
  have h2 := Int.ceil_lt_add_one (x / p)
  have hxp : x = p * (x / p) := by field_simp
  constructor
  · have := mul_lt_mul_of_pos_left h2 hp
    linarith
  · have := mul_le_mul_of_nonneg_left h1 hp.le
    linarith

/-- The difference after the correction: itself if below the discontinuity, else the representative modulo the period that is at
    most half a period, and of the sign of the difference if it is exactly half. -/
theorem unwrapCorrect_spec {period : ℚ} (hp : 0 < period) (discont d : ℚ) :
    (∃ z : ℤ, unwrapCorrect discont period true d = z * period) ∧
    (|d| < discont → unwrapCorrect discont period true d = 0) ∧
    (discont ≤ |d| → |d + unwrapCorrect discont period true d| ≤ period / 2 ∧
      (d + unwrapCorrect discont period true d = period / 2 → 0 < d) ∧
      (d + unwrapCorrect discont period true d = -(period / 2) → d ≤ 0)) := by
  obtain ⟨low, hlow⟩ : ∃ low, low = -(1 / 2 * period) := ⟨_, rfl⟩
  obtain ⟨m, hm⟩ : ∃ m, m = ratMod (ratMod (d - low) period + period) period := ⟨_, rfl⟩
  have hpos : 0 ≤ ratMod (d - low) period + period := by
    rcases lt_or_ge (d - low) 0 with h | h
    · have := (ratMod_neg hp h).1; linarith
    · have := (ratMod_nonneg hp h).1; linarith
  have hm1 := ratMod_nonneg hp hpos
  rw [← hm] at hm1
  obtain ⟨z1, hz1⟩ := ratMod_congr (d - low) period
  obtain ⟨z2, hz2⟩ := ratMod_congr (ratMod (d - low) period + period) period
  rw [← hm, hz1] at hz2
  have hmd : m + low = d + ((z1 + z2 + 1 : ℤ) : ℚ) * period := by rw [hz2]; push_cast; ring
  have hu : unwrapCorrect discont period true d =
      if |d| < discont then 0 else (if m + low = low ∧ 0 < d then 1 / 2 * period else m + low) - d := by
    unfold unwrapCorrect
    simp only [← hlow, ← hm, Bool.true_and, Bool.and_eq_true, decide_eq_true_eq]
  rw [hu]
  refine ⟨?_, fun h => if_pos h, fun h => ?_⟩
  · split_ifs with h1 h2
    · exact ⟨0, by simp⟩
    · refine ⟨z1 + z2 + 1 + 1, ?_⟩
      have : m = 0 := by linarith [h2.1]
      have : d = -((z1 + z2 + 1 : ℤ) : ℚ) * period + low := by linarith
      rw [this, hlow]
      push_cast
      ring
    · exact ⟨z1 + z2 + 1, by rw [hmd]; ring⟩
  · rw [if_neg (by linarith)]
    split_ifs with h2
    · refine ⟨?_, fun _ => h2.2, fun h3 => ?_⟩
      · rw [abs_le]; constructor <;> linarith
      · linarith
    · refine ⟨?_, fun h3 => ?_, fun h3 => ?_⟩
      · rw [abs_le]; constructor <;> linarith [hm1.1, hm1.2]
      · linarith [hm1.2]
      · have : m + low = low := by linarith
        by_contra hd
        exact h2 ⟨this, lt_of_not_ge hd⟩

theorem foldl_range_sum (n : Nat) (g : Nat → ℚ) : (List.range n).foldl (fun s t => s + g t) 0 = ∑ t ∈ range n, g t := by
  rw [← list_range_sum, ← List.foldl_map (f := g) (g := fun s x : ℚ => s + x), foldl_add_eq, zero_add]

/-- Full property: `unwrap` keeps the first element along the axis, changes the others by multiples of the period, and changes
    each difference that is not below the discontinuity into one of at most half a period, the others not; and the argument is
    as before.  Proved here, except for the argument (`C66_unwrap_modifies_argument`), for arrays with elements. -/
theorem C66_unwrap_partial (lvalue : Bool) {p : LazyEx ℚ} {axis : Int} (hd : p.shape.length < 2 ^ 63)
    (h1 : -(p.shape.length : Int) ≤ axis) (h2 : axis < p.shape.length) (hx : ∀ n ∈ p.shape, n < szMax)
    (h0 : numel p.shape ≠ 0) (discont : Option ℚ) {period : ℚ} (hp : 0 < period) :
    ∃ up q, unwrapCall lvalue p discont axis period = .ok (up, q) ∧ up.shape = p.shape ∧ q = (if lvalue then up else p) ∧
      ∀ i, InBounds p.shape i →
        (i.getD (axisOf p.shape.length axis) 0 = 0 → up.elem i = p.elem i) ∧
        (∃ z : ℤ, up.elem i = p.elem i + z * period) ∧
        ∀ j, j = i.set (axisOf p.shape.length axis) (i.getD (axisOf p.shape.length axis) 0 + 1) → InBounds p.shape j →
          (|p.elem j - p.elem i| < discont.getD (period / 2) → up.elem j - up.elem i = p.elem j - p.elem i) ∧
          (discont.getD (period / 2) ≤ |p.elem j - p.elem i| → |up.elem j - up.elem i| ≤ period / 2 ∧
            (up.elem j - up.elem i = period / 2 → 0 < p.elem j - p.elem i) ∧
            (up.elem j - up.elem i = -(period / 2) → p.elem j - p.elem i ≤ 0)) := by
  obtain ⟨hax, hlt⟩ := normalizeAxis_eq hd h1 h2
  obtain ⟨dd, hdd, hds, hde⟩ := diffAxis_ok (· - ·) (e := p) (axis := axis) hd h1 h2 hx 1 (.inl h0)
  obtain ⟨a, ha⟩ : ∃ a, a = axisOf p.shape.length axis := ⟨_, rfl⟩
  rw [← ha] at hax hlt hds hde ⊢
  obtain ⟨v, hv, hv1, hv2, hve⟩ := adjacentViews_ok p hlt
  have hsz := extent_not_max (extent_set_lt hx (Nat.sub_le (p.shape.getD a 0) 1) hlt)
  have hdisc : discont.getD (1 / 2 * period) = discont.getD (period / 2) := by
    congr 1; ring
  obtain ⟨C, hC⟩ : ∃ C : LazyEx ℚ, C = cumsumEx ⟨dd.shape, fun i =>
    unwrapCorrect (discont.getD (1 / 2 * period)) period true (dd.elem i)⟩ a := ⟨_, rfl⟩
  have hCs : C.shape = p.shape.set a (p.shape.getD a 0 - 1) := by rw [hC]; exact hds
  obtain ⟨s, hs, hss, hse⟩ := zipEx_ok (· + ·) (s := v.1) (t := C) (by rw [hv1, hCs]; exact broadcastsTo_refl _)
    (by rw [hv1]; exact hsz) (by rw [hCs]; exact hsz)
  obtain ⟨up, hup⟩ : ∃ up : LazyEx ℚ, up = ⟨p.shape, fun i => if i.getD a 0 = 0 then p.elem i
    else s.elem (i.set a (i.getD a 0 - 1))⟩ := ⟨_, rfl⟩
  refine ⟨up, if lvalue then up else p, ?_, by rw [hup], rfl, ?_⟩
  · unfold unwrapCall
    simp only [hdd, hax, hv, Res.bind]
    rw [← hC, hs, hup]
  -- the correction of the difference before position `k + 1`
  obtain ⟨g, hg⟩ : ∃ g : List Nat → Nat → ℚ, g = fun i k => unwrapCorrect (discont.getD (period / 2)) period true
    (p.elem (i.set a (k + 1)) - p.elem (i.set a k)) := ⟨_, rfl⟩
  have hself : ∀ i, InBounds p.shape i → i.set a (i.getD a 0) = i := by
    intro i hi
    have hai : a < i.length := by rw [hi.length_eq]; exact hlt
    rw [List.getD_eq_getElem?_getD, List.getElem?_eq_getElem hai]
    simp
  have key : ∀ i, InBounds p.shape i → up.elem i = p.elem i + ∑ k ∈ range (i.getD a 0), g i k := by
    intro i hi
    have hai : a < i.length := by rw [hi.length_eq]; exact hlt
    have hlti := (inBounds_iff_get.1 hi).2 a hlt
    rw [hup]
    show (if _ then _ else _) = _
    by_cases hz : i.getD a 0 = 0
    · rw [if_pos hz, hz]; simp
    · rw [if_neg hz]
      have hb : ∀ t, t < p.shape.getD a 0 - 1 → InBounds (p.shape.set a (p.shape.getD a 0 - 1)) (i.set a t) := by
        intro t ht
        rw [inBounds_iff_get]
        refine ⟨by simpa using hi.length_eq, ?_⟩
        intro k hk
        rw [getD_set_nat hai, getD_set_nat hlt]
        by_cases hka : a = k
        · rw [if_pos hka, if_pos hka]; exact ht
        · rw [if_neg hka, if_neg hka]
          exact (inBounds_iff_get.1 hi).2 k (by simpa using hk)
      have hbi := hb (i.getD a 0 - 1) (by omega)
      rw [hse _ (by rw [hv1]; exact hbi), (hve _ hbi).1, List.set_set, getD_set_nat hai, if_pos rfl,
        show i.getD a 0 - 1 + 1 = i.getD a 0 by omega, hself i hi, hCs, bcIndex_self hbi]
      congr 1
      rw [hC]
      show (List.range ((i.set a (i.getD a 0 - 1)).getD a 0 + 1)).foldl (fun s t => s +
        unwrapCorrect (discont.getD (1 / 2 * period)) period true (dd.elem ((i.set a (i.getD a 0 - 1)).set a t))) 0 = _
      rw [foldl_range_sum, getD_set_nat hai, if_pos rfl, show i.getD a 0 - 1 + 1 = i.getD a 0 by omega]
      apply Finset.sum_congr rfl
      intro t ht
      rw [Finset.mem_range] at ht
      rw [List.set_set, hde _ (by rw [hds]; exact hb t (by omega)), hdisc, hg]
      show unwrapCorrect _ _ _ (p.elem _ - p.elem _) = _
      rw [getD_set_nat hai, if_pos rfl, List.set_set, List.set_set]
  intro i hi
  have hai : a < i.length := by rw [hi.length_eq]; exact hlt
  refine ⟨?_, ?_, ?_⟩
  · intro hz
    rw [key i hi, hz]
    simp
  · rw [key i hi]
    have hz : ∀ n, ∃ z : ℤ, ∑ k ∈ range n, g i k = z * period := by
      intro n
      induction n with
      | zero => exact ⟨0, by simp⟩
      | succ n ih =>
        obtain ⟨z, hz⟩ := ih
        obtain ⟨w, hw⟩ := (unwrapCorrect_spec hp (discont.getD (period / 2))
          (p.elem (i.set a (n + 1)) - p.elem (i.set a n))).1
        refine ⟨z + w, ?_⟩
        rw [Finset.sum_range_succ, hz]
        have : g i n = w * period := by rw [hg]; exact hw
        rw [this]
        push_cast
        ring
    obtain ⟨z, hz⟩ := hz (i.getD a 0)
    exact ⟨z, by rw [hz]⟩
  · intro j hj hjb
    have hja : j.getD a 0 = i.getD a 0 + 1 := by rw [hj, getD_set_nat hai, if_pos rfl]
    have hgj : ∀ k, g j k = g i k := by
      intro k
      rw [hg, hj]
      simp only [List.set_set]
    have hstep : up.elem j - up.elem i = (p.elem j - p.elem i) + unwrapCorrect (discont.getD (period / 2)) period true
        (p.elem j - p.elem i) := by
      rw [key i hi, key j hjb, hja, Finset.sum_range_succ]
      simp only [hgj]
      have : g i (i.getD a 0) = unwrapCorrect (discont.getD (period / 2)) period true (p.elem j - p.elem i) := by
        rw [hg]
        show unwrapCorrect _ _ _ _ = _
        rw [← hj, hself i hi]
      rw [this]
      ring
    obtain ⟨-, c1, c2⟩ := unwrapCorrect_spec hp (discont.getD (period / 2)) (p.elem j - p.elem i)
    rw [hstep]
    exact ⟨fun h => by rw [c1 h, add_zero], c2⟩

/-- The sequence 0, 3, 1, 4 with period 4. -/
def phasesEx : LazyEx ℚ := ⟨[4], fun i => [0, 3, 1, 4].getD (i.getD 0 0) 0⟩

example : phasesEx.shape.length < 2 ^ 63 ∧ -(phasesEx.shape.length : Int) ≤ -1 ∧ (-1 : Int) < phasesEx.shape.length ∧
    (∀ n ∈ phasesEx.shape, n < szMax) ∧ numel phasesEx.shape ≠ 0 ∧
    ((unwrapCall false phasesEx none (-1) 4).map fun r => (List.range 4).map fun k => r.1.elem [k]) =
      .ok [0, -1, -3, -4] := by decide +kernel

/-- Every difference of the result is at most the greater of the discontinuity and half the period. -/
theorem C66_unwrap_bound {lvalue : Bool} {p : LazyEx ℚ} {axis : Int} (hd : p.shape.length < 2 ^ 63)
    (h1 : -(p.shape.length : Int) ≤ axis) (h2 : axis < p.shape.length) (hx : ∀ n ∈ p.shape, n < szMax)
    (h0 : numel p.shape ≠ 0) (discont : Option ℚ) {period : ℚ} (hp : 0 < period) {up q : LazyEx ℚ}
    (h : unwrapCall lvalue p discont axis period = .ok (up, q)) {i : List Nat} (hi : InBounds p.shape i)
    (hj : InBounds p.shape (i.set (axisOf p.shape.length axis) (i.getD (axisOf p.shape.length axis) 0 + 1))) :
    |up.elem (i.set (axisOf p.shape.length axis) (i.getD (axisOf p.shape.length axis) 0 + 1)) - up.elem i| ≤
      max (discont.getD (period / 2)) (period / 2) := by
  obtain ⟨up', q', e, -, -, hel⟩ := C66_unwrap_partial lvalue hd h1 h2 hx h0 discont hp
  rw [h] at e
  injection e with e
  injection e with e1 e2
  subst e1
  obtain ⟨-, -, h3⟩ := hel i hi
  obtain ⟨a1, a2⟩ := h3 _ rfl hj
  rcases lt_or_ge (|p.elem (i.set (axisOf p.shape.length axis) (i.getD (axisOf p.shape.length axis) 0 + 1)) - p.elem i|)
    (discont.getD (period / 2)) with hc | hc
  · rw [a1 hc]
    exact le_max_of_le_left hc.le
  · exact le_max_of_le_right (a2 hc).1

/-- A discontinuity below half the period has the effect of half the period. -/
theorem unwrapCorrect_small {period discont : ℚ} (hp : 0 < period) (hd : discont ≤ period / 2) (d : ℚ) :
    unwrapCorrect discont period true d = unwrapCorrect (period / 2) period true d := by
  obtain ⟨⟨z, hz⟩, a1, a2⟩ := unwrapCorrect_spec hp discont d
  obtain ⟨-, b1, -⟩ := unwrapCorrect_spec hp (period / 2) d
  rcases lt_or_ge (|d|) (period / 2) with hc | hc
  · rw [b1 hc]
    rcases lt_or_ge (|d|) discont with hc' | hc'
    · exact a1 hc'
    · obtain ⟨c1, -, -⟩ := a2 hc'
      rw [hz] at c1 ⊢
      rw [abs_le] at c1
      rw [abs_lt] at hc
      have l1 : -(1 : ℚ) < z := by
        by_contra hcon
        have : (z : ℚ) * period ≤ -1 * period := mul_le_mul_of_nonneg_right (not_lt.1 hcon) hp.le
        linarith
      have l2 : (z : ℚ) < 1 := by
        by_contra hcon
        have : 1 * period ≤ (z : ℚ) * period := mul_le_mul_of_nonneg_right (not_lt.1 hcon) hp.le
        linarith
      have : z = 0 := by
        have k1 : (-1 : ℤ) < z := by exact_mod_cast l1
        have k2 : z < (1 : ℤ) := by exact_mod_cast l2
        omega
      rw [this]; simp
  · unfold unwrapCorrect
    have n1 : ¬ |d| < discont := by linarith
    have n2 : ¬ |d| < period / 2 := by linarith
    simp only [n1, n2, if_false]

theorem C66_unwrap_small_discontinuity (lvalue : Bool) (p : LazyEx ℚ) (axis : Int) {period discont : ℚ} (hp : 0 < period)
    (hd : discont ≤ period / 2) :
    unwrapCall lvalue p (some discont) axis period = unwrapCall lvalue p none axis period := by
  unfold unwrapCall
  have : ∀ d, unwrapCorrect ((some discont).getD (1 / 2 * period)) period true d =
      unwrapCorrect ((none : Option ℚ).getD (1 / 2 * period)) period true d := by
    intro d
    show unwrapCorrect discont period true d = unwrapCorrect (1 / 2 * period) period true d
    rw [unwrapCorrect_small hp hd, show 1 / 2 * period = period / 2 by ring]
  simp only [this]

example : ((unwrapCall false phasesEx (some 1) (-1) 4).map fun r => r.1.elem [3]) = .ok (-4) ∧
    ((unwrapCall false phasesEx (some 3) (-1) 4).map fun r => (List.range 4).map fun k => r.1.elem [k]) =
      .ok [0, -1, -3, -4] ∧
    ((unwrapCall false phasesEx (some 4) (-1) 4).map fun r => (List.range 4).map fun k => r.1.elem [k]) =
      .ok [0, 3, 1, 4] := by decide +kernel

/-- Called with a variable, `unwrap` changes it: the array that is filled is a reference to the argument. -/
theorem C66_unwrap_modifies_argument :
    ((unwrapCall true phasesEx none (-1) 4).map fun r => r.2.elem [1]) = .ok (-1) ∧ phasesEx.elem [1] = 3 ∧
      ((unwrapCall false phasesEx none (-1) 4).map fun r => r.2.elem [1]) = .ok 3 := by decide +kernel

/-! ### Interpolation -/

theorem interpLeft_spec (xp0 left : ℚ) : ∀ (xs : List ℚ) (i : Nat) (f : List ℚ),
    i ≤ (interpLeft xp0 left xs i f).1 ∧ (interpLeft xp0 left xs i f).1 ≤ i + xs.length ∧
    (interpLeft xp0 left xs i f).2.length = f.length ∧
    (∀ k, i ≤ k → k < (interpLeft xp0 left xs i f).1 → xs.getD (k - i) 0 ≤ xp0 ∧
      (k < f.length → (interpLeft xp0 left xs i f).2.getD k 0 = left)) ∧
    (∀ k, k < i → (interpLeft xp0 left xs i f).2.getD k 0 = f.getD k 0) ∧
    ((interpLeft xp0 left xs i f).1 < i + xs.length → xp0 < xs.getD ((interpLeft xp0 left xs i f).1 - i) 0)
  | [], i, f => by
    refine ⟨Nat.le_refl _, Nat.le_refl _, rfl, ?_, fun _ _ => rfl, ?_⟩
    · intro k h1 h2; exact absurd h2 (by show ¬ k < i; omega)
    · intro h; exact absurd h (by show ¬ i < i + 0; omega)
  | x :: xs, i, f => by
    unfold interpLeft
    by_cases hx : xp0 < x
    · rw [if_pos hx]
      refine ⟨Nat.le_refl _, Nat.le_add_right _ _, rfl, ?_, fun _ _ => rfl, ?_⟩
      · intro k h1 h2; exact absurd h2 (by show ¬ k < i; omega)
      · intro _
        show xp0 < (x :: xs).getD (i - i) 0
        rw [Nat.sub_self]
        exact hx
    · rw [if_neg hx]
      obtain ⟨h1, h2, h3, h4, h5, h6⟩ := interpLeft_spec xp0 left xs (i + 1) (f.set i left)
      refine ⟨by omega, by simp only [List.length_cons]; omega, by rw [h3]; simp, ?_, ?_, ?_⟩
      · intro k hk1 hk2
        by_cases hki : k = i
        · subst hki
          rw [Nat.sub_self]
          refine ⟨not_lt.1 hx, fun hl => ?_⟩
          rw [h5 k (by omega), List.getD_eq_getElem?_getD, List.getElem?_set_self hl]
          rfl
        · have := h4 k (by omega) hk2
          rw [show k - i = (k - (i + 1)) + 1 by omega]
          exact ⟨this.1, fun hl => this.2 (by simpa using hl)⟩
      · intro k hk
        rw [h5 k (by omega)]
        rw [List.getD_eq_getElem?_getD, List.getElem?_set_ne (by omega), List.getD_eq_getElem?_getD]
      · intro h
        simp only [List.length_cons] at h
        have := h6 (by omega)
        rw [show (interpLeft xp0 left xs (i + 1) (f.set i left)).1 - i =
          ((interpLeft xp0 left xs (i + 1) (f.set i left)).1 - (i + 1)) + 1 by omega]
        exact this

theorem interpRight_spec (xpl right : ℚ) (x : List ℚ) : ∀ (n : Nat) (f : List ℚ),
    (interpRight xpl right x n f).1 ≤ n ∧ (interpRight xpl right x n f).2.length = f.length ∧
    (∀ k, (interpRight xpl right x n f).1 ≤ k → k < n → xpl ≤ x.getD k 0 ∧
      (k < f.length → (interpRight xpl right x n f).2.getD k 0 = right)) ∧
    (∀ k, k < (interpRight xpl right x n f).1 ∨ n ≤ k → (interpRight xpl right x n f).2.getD k 0 = f.getD k 0) ∧
    (0 < (interpRight xpl right x n f).1 → x.getD ((interpRight xpl right x n f).1 - 1) 0 < xpl)
  | 0, f => by
    refine ⟨Nat.le_refl _, rfl, ?_, fun _ _ => rfl, ?_⟩
    · intro k _ h; omega
    · intro h; exact absurd h (by show ¬ 0 < 0; omega)
  | n + 1, f => by
    unfold interpRight
    by_cases hx : x.getD n 0 < xpl
    · rw [if_pos hx]
      refine ⟨Nat.le_refl _, rfl, ?_, fun _ _ => rfl, fun _ => hx⟩
      intro k h1 h2
      exact absurd h2 (by have : n + 1 ≤ k := h1; omega)
    · rw [if_neg hx]
      obtain ⟨h1, h2, h3, h4, h5⟩ := interpRight_spec xpl right x n (f.set n right)
      refine ⟨by omega, by rw [h2]; simp, ?_, ?_, h5⟩
      · intro k hk1 hk2
        by_cases hkn : k = n
        · subst hkn
          refine ⟨not_lt.1 hx, fun hl => ?_⟩
          rw [h4 k (.inr (Nat.le_refl _)), List.getD_eq_getElem?_getD, List.getElem?_set_self hl]
          rfl
        · have := h3 k hk1 (by omega)
          exact ⟨this.1, fun hl => this.2 (by simpa using hl)⟩
      · intro k hk
        rw [h4 k (by omega)]
        rw [List.getD_eq_getElem?_getD, List.getElem?_set_ne (by omega), List.getD_eq_getElem?_getD]

theorem interpSearch_ok {xp : List ℚ} {xi : ℚ} : ∀ (fuel ip : Nat), xp.length < ip + fuel → ip < xp.length →
    xi ≤ xp.getD (xp.length - 1) 0 →
    ∃ ip', interpSearch xp xi fuel ip = .ok ip' ∧ ip ≤ ip' ∧ ip' < xp.length ∧ xi ≤ xp.getD ip' 0 ∧
      (ip < ip' → xp.getD (ip' - 1) 0 < xi)
  | 0, ip, h, h', _ => by omega
  | fuel + 1, ip, h, hip, hl => by
    unfold interpSearch
    rw [List.getElem?_eq_getElem hip]
    have hg : xp.getD ip 0 = xp[ip] := by rw [List.getD_eq_getElem?_getD, List.getElem?_eq_getElem hip]; rfl
    show ∃ ip', (if xp[ip] < xi then _ else _) = _ ∧ _
    by_cases hv : xp[ip] < xi
    · rw [if_pos hv]
      have hne : ip ≠ xp.length - 1 := by
        intro e
        rw [← e, hg] at hl
        linarith
      obtain ⟨ip', h1, h2, h3, h4, h5⟩ := interpSearch_ok fuel (ip + 1) (by omega) (by omega) hl
      refine ⟨ip', h1, by omega, h3, h4, fun _ => ?_⟩
      by_cases he : ip + 1 < ip'
      · exact h5 he
      · rw [show ip' - 1 = ip by omega, hg]; exact hv
    · rw [if_neg hv]
      exact ⟨ip, rfl, Nat.le_refl _, hip, by rw [hg]; exact not_lt.1 hv, fun h => absurd h (lt_irrefl _)⟩

/-- The interpolation on the segment ending at the `ip`-th point. -/
def segValue (xp fp : List ℚ) (x : ℚ) (ip : Nat) : ℚ :=
  fp.getD (ip - 1) 0 + (fp.getD ip 0 - fp.getD (ip - 1) 0) / (xp.getD ip 0 - xp.getD (ip - 1) 0) * (x - xp.getD (ip - 1) 0)

theorem interpInner_ok {x xp fp : List ℚ} (hfp : fp.length = xp.length) : ∀ (m i ip : Nat) (f : List ℚ),
    0 < ip → ip < xp.length → (0 < m → xp.getD (ip - 1) 0 < x.getD i 0) →
    (∀ k, i ≤ k → k + 1 < i + m → x.getD k 0 ≤ x.getD (k + 1) 0) →
    (∀ k, i ≤ k → k < i + m → x.getD k 0 ≤ xp.getD (xp.length - 1) 0) →
    ∃ g, interpInner x xp fp m i ip f = .ok g ∧ g.length = f.length ∧
      (∀ k, k < i ∨ i + m ≤ k → g.getD k 0 = f.getD k 0) ∧
      ∀ k, i ≤ k → k < i + m → ∃ jp, 0 < jp ∧ jp < xp.length ∧ xp.getD (jp - 1) 0 < x.getD k 0 ∧ x.getD k 0 ≤ xp.getD jp 0 ∧
        (k < f.length → g.getD k 0 = segValue xp fp (x.getD k 0) jp)
  | 0, i, ip, f, _, _, _, _, _ => ⟨f, rfl, rfl, fun _ _ => rfl, fun k h1 h2 => by omega⟩
  | m + 1, i, ip, f, h0, hip, hlo, hsort, hhi => by
    obtain ⟨ip', e, h1, h2, h3, h4⟩ := interpSearch_ok (xp := xp) (xi := x.getD i 0) (xp.length + 1) ip (by omega) hip
      (hhi i (Nat.le_refl _) (by omega))
    have hlo' : xp.getD (ip' - 1) 0 < x.getD i 0 := by
      by_cases he : ip < ip'
      · exact h4 he
      · rw [show ip' = ip by omega]; exact hlo (by omega)
    have ef : fp[ip']? = some (fp.getD ip' 0) := by
      rw [List.getD_eq_getElem?_getD, List.getElem?_eq_getElem (by omega)]; rfl
    have ef' : fp[ip' - 1]? = some (fp.getD (ip' - 1) 0) := by
      rw [List.getD_eq_getElem?_getD, List.getElem?_eq_getElem (by omega)]; rfl
    obtain ⟨g, hg, hgl, hg1, hg2⟩ := interpInner_ok hfp m (i + 1) ip' (f.set i (segValue xp fp (x.getD i 0) ip'))
      (by omega) h2 (fun hm => lt_of_lt_of_le hlo' (hsort i (Nat.le_refl _) (by omega)))
      (fun k hk1 hk2 => hsort k (by omega) (by omega)) (fun k hk1 hk2 => hhi k (by omega) (by omega))
    refine ⟨g, ?_, by rw [hgl]; simp, ?_, ?_⟩
    · unfold interpInner
      rw [e]
      show (orUb fp[ip']?).bind _ = _
      rw [ef]
      show (orUb fp[ip' - 1]?).bind _ = _
      rw [ef']
      exact hg
    · intro k hk
      rw [hg1 k (by omega), List.getD_eq_getElem?_getD, List.getElem?_set_ne (by omega), List.getD_eq_getElem?_getD]
    · intro k hk1 hk2
      by_cases hki : k = i
      · subst hki
        refine ⟨ip', by omega, h2, hlo', h3, fun hl => ?_⟩
        rw [hg1 k (.inl (by omega)), List.getD_eq_getElem?_getD, List.getElem?_set_self hl]
        rfl
      · obtain ⟨jp, a1, a2, a3, a4, a5⟩ := hg2 k (by omega) (by omega)
        exact ⟨jp, a1, a2, a3, a4, fun hl => a5 (by simpa using hl)⟩

theorem getD_mono {l : List ℚ} (h : l.Pairwise (· ≤ ·)) {i j : Nat} (hij : i ≤ j) (hj : j < l.length) :
    l.getD i 0 ≤ l.getD j 0 := by
  rw [List.getD_eq_getElem?_getD, List.getD_eq_getElem?_getD, List.getElem?_eq_getElem hj,
    List.getElem?_eq_getElem (by omega)]
  show l[i] ≤ l[j]
  rcases Nat.lt_or_ge i j with h' | h'
  · exact List.pairwise_iff_getElem.1 h i j (by omega) hj h'
  · have : i = j := by omega
    subst this
    exact le_refl _

theorem getLast?_getD {l : List ℚ} (h : l ≠ []) : l.getLast? = some (l.getD (l.length - 1) 0) := by
  have hl : 0 < l.length := List.length_pos_iff.2 h
  rw [List.getLast?_eq_getElem?, List.getD_eq_getElem?_getD, List.getElem?_eq_getElem (by omega)]
  rfl

theorem head?_getD {l : List ℚ} (h : l ≠ []) : l[0]? = some (l.getD 0 0) := by
  have hl : 0 < l.length := List.length_pos_iff.2 h
  rw [List.getD_eq_getElem?_getD, List.getElem?_eq_getElem (by omega)]
  rfl

/-- What `interp` computes: `right` from the last point on, else `left` up to the first point, else the value on the segment
    around `x`. -/
theorem interpWith_ok {x xp fp f : List ℚ} (hx : x.Pairwise (· ≤ ·)) (hne : xp ≠ [])
    (hfp : fp.length = xp.length) (hf : f.length = x.length) (left right : ℚ) :
    ∃ g, interpWith x xp fp left right f = .ok g ∧ g.length = x.length ∧ ∀ k, k < x.length →
      (xp.getD (xp.length - 1) 0 ≤ x.getD k 0 → g.getD k 0 = right) ∧
      (x.getD k 0 < xp.getD (xp.length - 1) 0 → x.getD k 0 ≤ xp.getD 0 0 → g.getD k 0 = left) ∧
      (x.getD k 0 < xp.getD (xp.length - 1) 0 → xp.getD 0 0 < x.getD k 0 →
        ∃ jp, 0 < jp ∧ jp < xp.length ∧ xp.getD (jp - 1) 0 < x.getD k 0 ∧ x.getD k 0 ≤ xp.getD jp 0 ∧
          g.getD k 0 = segValue xp fp (x.getD k 0) jp) := by
  have hl : 0 < xp.length := List.length_pos_iff.2 hne
  unfold interpWith
  rw [head?_getD hne, getLast?_getD hne]
  simp only []
  obtain ⟨x0, hx0⟩ : ∃ x0, x0 = xp.getD 0 0 := ⟨_, rfl⟩
  obtain ⟨xl, hxl⟩ : ∃ xl, xl = xp.getD (xp.length - 1) 0 := ⟨_, rfl⟩
  rw [← hx0, ← hxl]
  obtain ⟨p, hp⟩ : ∃ p, p = interpLeft x0 left x 0 f := ⟨_, rfl⟩
  obtain ⟨-, l2, l3, l4, -, l6⟩ := interpLeft_spec x0 left x 0 f
  rw [← hp] at l2 l3 l4 l6 ⊢
  obtain ⟨q, hq⟩ : ∃ q, q = interpRight xl right x x.length p.2 := ⟨_, rfl⟩
  obtain ⟨r1, r2, r3, r4, r5⟩ := interpRight_spec xl right x x.length p.2
  rw [← hq] at r1 r2 r3 r4 r5 ⊢
  have hql : q.2.length = x.length := by rw [r2, l3, hf]
  have hpl : p.2.length = x.length := by rw [l3, hf]
  -- facts on positions
  have hR : ∀ k, k < x.length → (q.1 ≤ k ↔ xl ≤ x.getD k 0) := by
    intro k hk
    constructor
    · intro h; exact (r3 k h hk).1
    · intro h
      by_contra hc
      have := r5 (by omega)
      have := getD_mono hx (show k ≤ q.1 - 1 by omega) (by omega)
      linarith
  have hL : ∀ k, k < x.length → (k < p.1 ↔ x.getD k 0 ≤ x0) := by
    intro k hk
    constructor
    · intro h
      have := (l4 k (Nat.zero_le _) h).1
      simpa using this
    · intro h
      by_contra hc
      have h6 := l6 (by omega)
      rw [Nat.sub_zero] at h6
      have := getD_mono hx (show p.1 ≤ k by omega) hk
      linarith
  have fin : ∀ g : List ℚ, g.length = x.length → (∀ k, k < p.1 ∨ q.1 ≤ k → g.getD k 0 = q.2.getD k 0) →
      (∀ k, p.1 ≤ k → k < q.1 → ∃ jp, 0 < jp ∧ jp < xp.length ∧ xp.getD (jp - 1) 0 < x.getD k 0 ∧ x.getD k 0 ≤ xp.getD jp 0 ∧
          g.getD k 0 = segValue xp fp (x.getD k 0) jp) →
      ∀ k, k < x.length →
      (xl ≤ x.getD k 0 → g.getD k 0 = right) ∧
      (x.getD k 0 < xl → x.getD k 0 ≤ x0 → g.getD k 0 = left) ∧
      (x.getD k 0 < xl → x0 < x.getD k 0 →
        ∃ jp, 0 < jp ∧ jp < xp.length ∧ xp.getD (jp - 1) 0 < x.getD k 0 ∧ x.getD k 0 ≤ xp.getD jp 0 ∧
          g.getD k 0 = segValue xp fp (x.getD k 0) jp) := by
    intro g _ h1 h2 k hk
    refine ⟨fun h => ?_, fun h h' => ?_, fun h h' => ?_⟩
    · have := (hR k hk).2 h
      rw [h1 k (.inr this)]
      exact (r3 k this hk).2 (by omega)
    · have a1 : k < q.1 := by
        by_contra hc
        have := (hR k hk).1 (by omega)
        linarith
      have a2 := (hL k hk).2 h'
      rw [h1 k (.inl a2), r4 k (.inl a1)]
      exact (l4 k (Nat.zero_le _) a2).2 (by omega)
    · have a1 : k < q.1 := by
        by_contra hc
        have := (hR k hk).1 (by omega)
        linarith
      have a2 : p.1 ≤ k := by
        by_contra hc
        have := (hL k hk).1 (by omega)
        linarith
      exact h2 k a2 a1
  by_cases hz : q.1 = 0
  · rw [if_pos hz]
    exact ⟨q.2, rfl, hql, fin q.2 hql (fun _ _ => rfl) (fun k _ h => by omega)⟩
  · rw [if_neg hz]
    by_cases hpq : p.1 < q.1
    · have hx01 : x0 < x.getD p.1 0 := by
        have h6 := l6 (by omega)
        rwa [Nat.sub_zero] at h6
      have hxp1 : x.getD p.1 0 < xl := by
        by_contra hc
        have := (hR p.1 (by omega)).2 (by linarith)
        omega
      have hlen2 : 1 < xp.length := by
        by_contra hc
        have : xp.length - 1 = 0 := by omega
        rw [this, ← hx0] at hxl
        linarith
      obtain ⟨g, hg, hgl, hg1, hg2⟩ := interpInner_ok (x := x) (xp := xp) hfp (q.1 - p.1) p.1 1 q.2 (by omega) hlen2
        (fun _ => by rw [Nat.sub_self, ← hx0]; exact hx01)
        (fun k hk1 hk2 => getD_mono hx (by omega) (by omega))
        (fun k hk1 hk2 => by
          by_contra hc
          rw [← hxl] at hc
          have := (hR k (by omega)).2 (by linarith)
          omega)
      refine ⟨g, hg, by rw [hgl, hql], fin g (by rw [hgl, hql]) (fun k hk => hg1 k (by omega)) ?_⟩
      intro k hk1 hk2
      obtain ⟨jp, a1, a2, a3, a4, a5⟩ := hg2 k hk1 (by omega)
      exact ⟨jp, a1, a2, a3, a4, a5 (by omega)⟩
    · rw [show q.1 - p.1 = 0 by omega]
      exact ⟨q.2, rfl, hql, fin q.2 hql (fun _ _ => rfl) (fun k h1 h2 => by omega)⟩

theorem segValue_onSegment {xp fp : List ℚ} {x : ℚ} {jp : Nat} (h0 : 0 < jp) (h1 : jp < xp.length)
    (h2 : xp.getD (jp - 1) 0 < x) (h3 : x ≤ xp.getD jp 0) : OnSegment xp fp x (segValue xp fp x jp) := by
  refine ⟨jp - 1, by omega, ?_, h2.le, ?_, ?_⟩
  · rw [show jp - 1 + 1 = jp by omega]; linarith
  · rw [show jp - 1 + 1 = jp by omega]; exact h3
  · rw [show jp - 1 + 1 = jp by omega]
    unfold segValue
    have : xp.getD jp 0 - xp.getD (jp - 1) 0 ≠ 0 := by
      have : xp.getD (jp - 1) 0 < xp.getD jp 0 := by linarith
      linarith
    field_simp
    ring

/-- `interp(x, xp, fp, left, right)`: for increasing coordinates, `left` before the first point, `right` after the last, on a
    segment in between.  Full property: also at the first and the last point, where the values are `left` and `right` too instead
    of those of the points (`C66_interp_ends_wrong`). -/
theorem C66_interp_partial {x xp fp f : List ℚ} (hx : x.Pairwise (· ≤ ·)) (hxp : xp.Pairwise (· ≤ ·)) (hne : xp ≠ [])
    (hfp : fp.length = xp.length) (hf : f.length = x.length) (left right : ℚ) :
    ∃ g, interpWith x xp fp left right f = .ok g ∧ g.length = x.length ∧ ∀ k, k < x.length →
      (x.getD k 0 < xp.getD 0 0 → g.getD k 0 = left) ∧
      (xp.getD (xp.length - 1) 0 < x.getD k 0 → g.getD k 0 = right) ∧
      (xp.getD 0 0 < x.getD k 0 → x.getD k 0 < xp.getD (xp.length - 1) 0 → OnSegment xp fp (x.getD k 0) (g.getD k 0)) := by
  have hl : 0 < xp.length := List.length_pos_iff.2 hne
  obtain ⟨g, hg, hgl, h⟩ := interpWith_ok hx hne hfp hf left right
  refine ⟨g, hg, hgl, fun k hk => ?_⟩
  obtain ⟨a1, a2, a3⟩ := h k hk
  refine ⟨fun h' => ?_, fun h' => a1 h'.le, fun h1 h2 => ?_⟩
  · have := getD_mono hxp (Nat.zero_le (xp.length - 1)) (by omega)
    exact a2 (by linarith) h'.le
  · obtain ⟨jp, b1, b2, b3, b4, b5⟩ := a3 h2 h1
    rw [b5]
    exact segValue_onSegment b1 b2 b3 b4

/-- `interp(x, xp, fp)` is the piecewise linear function through the points, constant outside: at the points it has their values,
    everywhere in between it is on a segment. -/
theorem C66_interp {x xp fp f : List ℚ} (hx : x.Pairwise (· ≤ ·)) (hxp : xp.Pairwise (· < ·)) (hne : xp ≠ [])
    (hfp : fp.length = xp.length) (hf : f.length = x.length) :
    ∃ g, interpDefault x xp fp f = .ok g ∧ g.length = x.length ∧ ∀ k, k < x.length →
      (x.getD k 0 ≤ xp.getD 0 0 → g.getD k 0 = fp.getD 0 0) ∧
      (xp.getD (xp.length - 1) 0 ≤ x.getD k 0 → g.getD k 0 = fp.getD (xp.length - 1) 0) ∧
      (xp.getD 0 0 < x.getD k 0 → x.getD k 0 < xp.getD (xp.length - 1) 0 → OnSegment xp fp (x.getD k 0) (g.getD k 0)) ∧
      (∀ i, i < xp.length → x.getD k 0 = xp.getD i 0 → g.getD k 0 = fp.getD i 0) := by
  have hl : 0 < xp.length := List.length_pos_iff.2 hne
  have hnef : fp ≠ [] := by intro h; rw [h] at hfp; simp at hfp; omega
  have hle : xp.Pairwise (· ≤ ·) := hxp.imp fun h => le_of_lt h
  have hstrict : ∀ i j, i < j → j < xp.length → xp.getD i 0 < xp.getD j 0 := by
    intro i j hij hj
    rw [List.getD_eq_getElem?_getD, List.getD_eq_getElem?_getD, List.getElem?_eq_getElem hj,
      List.getElem?_eq_getElem (by omega)]
    exact List.pairwise_iff_getElem.1 hxp i j (by omega) hj hij
  unfold interpDefault
  rw [head?_getD hnef, getLast?_getD hnef, hfp]
  simp only []
  obtain ⟨g, hg, hgl, h⟩ := interpWith_ok hx hne hfp hf (fp.getD 0 0) (fp.getD (xp.length - 1) 0)
  refine ⟨g, hg, hgl, fun k hk => ?_⟩
  obtain ⟨a1, a2, a3⟩ := h k hk
  have first : x.getD k 0 ≤ xp.getD 0 0 → g.getD k 0 = fp.getD 0 0 := by
    intro h'
    by_cases h1 : xp.length = 1
    · have := a1
      rw [h1, Nat.sub_self] at this
      rcases lt_or_ge (x.getD k 0) (xp.getD 0 0) with h2 | h2
      · exact a2 (by rw [h1, Nat.sub_self]; exact h2) h'
      · exact this h2
    · have := hstrict 0 (xp.length - 1) (by omega) (by omega)
      exact a2 (by linarith) h'
  refine ⟨first, a1, fun h1 h2 => ?_, fun i hi he => ?_⟩
  · obtain ⟨jp, b1, b2, b3, b4, b5⟩ := a3 h2 h1
    rw [b5]
    exact segValue_onSegment b1 b2 b3 b4
  · by_cases hi0 : i = 0
    · subst hi0; exact first he.le
    · by_cases hil : i = xp.length - 1
      · subst hil; exact a1 he.ge
      · have c1 := hstrict 0 i (by omega) hi
        have c2 := hstrict i (xp.length - 1) (by omega) (by omega)
        obtain ⟨jp, b1, b2, b3, b4, b5⟩ := a3 (by linarith) (by linarith)
        have hji : jp = i := by
          rcases Nat.lt_trichotomy jp i with h' | h' | h'
          · have := hstrict jp i h' hi; linarith
          · exact h'
          · have := getD_mono hle (show i ≤ jp - 1 by omega) (by omega); linarith
        rw [b5, hji]
        unfold segValue
        rw [he]
        have := hstrict (i - 1) i (by omega) hi
        have hne' : xp.getD i 0 - xp.getD (i - 1) 0 ≠ 0 := by linarith
        field_simp
        ring

example : ([-1, 0, 1 / 2, 2, 3, 5] : List ℚ).Pairwise (· ≤ ·) ∧ ([0, 1, 3] : List ℚ).Pairwise (· < ·) ∧
    interpDefault [-1, 0, 1 / 2, 2, 3, 5] [0, 1, 3] [10, 20, 0] [7, 7, 7, 7, 7, 7] = .ok [10, 10, 15, 10, 0, 0] := by
  decide +kernel

/-- The values for coordinates outside the points are also used at the first and the last point. -/
theorem C66_interp_ends_wrong :
    interpWith [0, 3] [0, 1, 3] [10, 20, 30] (-1) (-2) [7, 7] = .ok [-1, -2] ∧
      OnSegment [0, 1, 3] [10, 20, 30] 0 10 ∧ OnSegment [0, 1, 3] [10, 20, 30] 3 30 := by
  refine ⟨by decide +kernel, ⟨0, by decide +kernel⟩, ⟨1, by decide +kernel⟩⟩

/-- Without points there is nothing to read. -/
theorem C66_interp_no_points_undefined (x f : List ℚ) : interpDefault x [] [] f = .ub := rfl

/-! ### Covariance -/

theorem innerProduct_sum : ∀ (x y : List ℚ) (_ : x.length = y.length),
    innerProductQ x y = ∑ k ∈ range x.length, x.getD k 0 * y.getD k 0 := by
  intro x y h
  unfold innerProductQ
  rw [foldl_add_eq, zero_add]
  induction x generalizing y with
  | nil => simp
  | cons a x ih =>
    cases y with
    | nil => simp at h
    | cons b y =>
      rw [List.zipWith_cons_cons, List.sum_cons, ih y (by simpa using h), List.length_cons, Finset.sum_range_succ']
      simp [add_comm]

theorem sum_getD : ∀ (x : List ℚ), x.sum = ∑ k ∈ range x.length, x.getD k 0
  | [] => by simp
  | a :: x => by rw [List.sum_cons, sum_getD x, List.length_cons, Finset.sum_range_succ']; simp [add_comm]

theorem innerProduct_centred {x y : List ℚ} {n : Nat} (hx : x.length = n) (hy : y.length = n) (h0 : 0 < n) :
    innerProductQ (centred x) (centred y) / ((n - 1 : Nat) : ℚ) =
      covariance n (fun k => x.getD k 0) (fun k => y.getD k 0) := by
  rw [innerProduct_sum _ _ (by simp [centred, hx, hy])]
  unfold covariance
  rw [Nat.cast_sub (by omega), Nat.cast_one]
  congr 1
  have hc : (centred x).length = n := by simp [centred, hx]
  rw [hc]
  apply Finset.sum_congr rfl
  intro k hk
  rw [Finset.mem_range] at hk
  have e : ∀ (z : List ℚ), z.length = n → (centred z).getD k 0 = z.getD k 0 - (∑ i ∈ range n, z.getD i 0) / n := by
    intro z hz
    unfold centred
    rw [foldl_add_eq, zero_add, sum_getD, hz, List.getD_eq_getElem?_getD, List.getElem?_map,
      List.getElem?_eq_getElem (by omega), List.getD_eq_getElem?_getD, List.getElem?_eq_getElem (by omega)]
    rfl
  rw [e x hx, e y hy]

theorem covariance_comm (n : Nat) (x y : Nat → ℚ) : covariance n x y = covariance n y x := by
  unfold covariance
  congr 1
  exact Finset.sum_congr rfl fun k _ => mul_comm _ _

/-- The element `(r, c)` of `cov(x)` is the covariance of the rows `r` and `c` (with `n - 1` degrees of freedom; one observation
    per row is a division by zero). -/
theorem C66_cov {x : List (List ℚ)} {n r c : Nat} (hx : ∀ row ∈ x, row.length = n) (hn : 2 ≤ n) (hr : r < x.length)
    (hc : c < x.length) :
    covMatrix x n r c = covariance n (fun k => (x.getD r []).getD k 0) (fun k => (x.getD c []).getD k 0) := by
  have hl : ∀ i, i < x.length → (x.getD i []).length = n := by
    intro i hi
    rw [List.getD_eq_getElem?_getD, List.getElem?_eq_getElem hi]
    exact hx _ (List.getElem_mem _)
  have hlow : ∀ r c, r < x.length → c < x.length → c ≤ r → covarLower x n r c =
      covariance n (fun k => (x.getD r []).getD k 0) (fun k => (x.getD c []).getD k 0) := by
    intro r c hr hc h
    unfold covarLower
    rw [if_pos h, innerProduct_centred (hl c hc) (hl r hr) (by omega), covariance_comm]
  unfold covMatrix
  rcases Nat.lt_trichotomy r c with h | h | h
  · rw [hlow c r hc hr (by omega), if_neg (by omega), covariance_comm]
    unfold covarLower
    rw [if_neg (by omega)]
    ring
  · subst h
    rw [if_pos rfl, hlow r r hr hr (Nat.le_refl _)]
    ring
  · rw [hlow r c hr hc (by omega), if_neg (by omega)]
    unfold covarLower
    rw [if_neg (by omega)]
    ring

example : covMatrix [[1, 2, 3], [5, 1, 0]] 3 0 1 = -5 / 2 ∧ covMatrix [[1, 2, 3], [5, 1, 0]] 3 1 1 = 7 := by decide +kernel

/-- One vector: its variance. -/
theorem C66_cov_vector {x : List ℚ} (hn : 2 ≤ x.length) :
    covVector x = covariance x.length (fun k => x.getD k 0) (fun k => x.getD k 0) :=
  innerProduct_centred rfl rfl (by omega)

/-- Two vectors: the covariances of each with each. -/
theorem C66_cov_pair {x y : List ℚ} (hn : 2 ≤ x.length) (hy : y.length = x.length) (r c : Fin 2) :
    covPair x y r c = covariance x.length (fun k => ([x, y].getD r []).getD k 0) (fun k => ([x, y].getD c []).getD k 0) :=
  C66_cov (by intro row hrow; simp at hrow; rcases hrow with rfl | rfl <;> simp [hy]) hn r.2 c.2

example : covPair [1, 2, 3] [5, 1, 0] 1 0 = -5 / 2 ∧ covVector [5, 1, 0] = 7 := by decide +kernel

/-! ### Convolution -/

theorem foldl_res_sum {γ : Type} (g : γ → Res ℚ) (h : γ → ℚ) : ∀ (l : List γ) (s : ℚ), (∀ j ∈ l, g j = .ok (h j)) →
    l.foldl (fun (s : Res ℚ) j => s.bind fun s => (g j).bind fun v => .ok (s + v)) (.ok s) = .ok (s + (l.map h).sum)
  | [], s, _ => by simp
  | a :: l, s, hl => by
    rw [List.foldl_cons]
    show l.foldl _ ((g a).bind fun v => .ok (s + v)) = _
    rw [hl a List.mem_cons_self]
    show l.foldl _ (Res.ok (s + h a)) = _
    rw [foldl_res_sum g h l (s + h a) fun j hj => hl j (List.mem_cons_of_mem _ hj)]
    simp [add_assoc]

theorem foldl_pair {γ : Type} (e1 e2 : γ → Res ℚ) (l : List γ) (s : Res ℚ) :
    l.foldl (fun (s : Res ℚ) j => s.bind fun s => (e1 j).bind fun x => (e2 j).bind fun y => .ok (s + x * y)) s =
      l.foldl (fun (s : Res ℚ) j => s.bind fun s => ((e1 j).bind fun x => (e2 j).bind fun y => .ok (x * y)).bind
        fun v => .ok (s + v)) s := by
  congr 1
  funext s j
  cases s <;> cases e1 j <;> cases e2 j <;> rfl

theorem foldr_res_ok {γ : Type} : ∀ (l : List (Res γ)) (v : List γ), l = v.map Res.ok →
    l.foldr (fun r rs => r.bind fun v => rs.bind fun vs => Res.ok (v :: vs)) (Res.ok []) = Res.ok v
  | [], [], _ => rfl
  | [], _ :: _, h => by simp at h
  | _ :: _, [], h => by simp at h
  | a :: l, b :: v, h => by
    simp only [List.map_cons, List.cons.injEq] at h
    rw [List.foldr_cons, foldr_res_ok l v h.2, h.1]
    rfl

theorem convCoeff_comm (a v : List ℚ) (k : Nat) : convCoeff a v k = convCoeff v a k := by
  unfold convCoeff
  rw [Finset.sum_comm]
  apply Finset.sum_congr rfl
  intro i _
  apply Finset.sum_congr rfl
  intro j _
  rw [Nat.add_comm i j, mul_comm]

theorem convCoeff_single (a v : List ℚ) (k : Nat) : convCoeff a v k =
    ∑ i ∈ range a.length, if i ≤ k ∧ k - i < v.length then a.getD i 0 * v.getD (k - i) 0 else 0 := by
  unfold convCoeff
  apply Finset.sum_congr rfl
  intro i _
  by_cases h : i ≤ k ∧ k - i < v.length
  · rw [if_pos h, Finset.sum_eq_single (k - i)]
    · rw [if_pos (by omega)]
    · intro j _ hj
      rw [if_neg (by omega)]
    · intro hj
      exact absurd (Finset.mem_range.2 h.2) hj
  · rw [if_neg h]
    apply Finset.sum_eq_zero
    intro j hj
    rw [Finset.mem_range] at hj
    rw [if_neg (by omega)]

theorem convolveFull_ok {a v : List ℚ} (ha : a ≠ []) (hv : v ≠ []) :
    convolveFull a v = .ok ((List.range (a.length + v.length - 1)).map (convCoeff a v)) := by
  have hla : 0 < a.length := List.length_pos_iff.2 ha
  have hlv : 0 < v.length := List.length_pos_iff.2 hv
  unfold convolveFull
  apply foldr_res_ok
  rw [List.map_map]
  apply List.map_congr_left
  intro i hi
  rw [List.mem_range] at hi
  simp only [Function.comp]
  obtain ⟨lo, hlo⟩ : ∃ lo, lo = if v.length - 1 ≤ i then i - (v.length - 1) else 0 := ⟨_, rfl⟩
  obtain ⟨hi', hhi⟩ : ∃ hi', hi' = if i < a.length - 1 then i else a.length - 1 := ⟨_, rfl⟩
  rw [← hlo, ← hhi]
  have hlo1 : ∀ j, lo ≤ j → j ≤ hi' → j < a.length ∧ j ≤ i ∧ i - j < v.length := by
    intro j h1 h2
    rw [hlo] at h1
    rw [hhi] at h2
    split_ifs at h1 h2 <;> omega
  have hlo2 : ∀ j, j < a.length → j ≤ i → i - j < v.length → lo ≤ j ∧ j ≤ hi' := by
    intro j h1 h2 h3
    rw [hlo, hhi]
    split_ifs <;> omega
  rw [foldl_pair, foldl_res_sum _ (fun j => a.getD j 0 * v.getD (i - j) 0)]
  · rw [zero_add, convCoeff_single]
    congr 1
    rw [← Finset.sum_filter, List.range'_eq_map_range, List.map_map, list_range_sum]
    have : ((range a.length).filter fun j => j ≤ i ∧ i - j < v.length) = Finset.Ico lo (hi' + 1) := by
      ext j
      simp only [Finset.mem_filter, Finset.mem_range, Finset.mem_Ico]
      constructor
      · rintro ⟨h1, h2, h3⟩
        have := hlo2 j h1 h2 h3
        omega
      · rintro ⟨h1, h2⟩
        have := hlo1 j h1 (by omega)
        exact ⟨this.1, this.2.1, this.2.2⟩
    rw [this, Finset.sum_Ico_eq_sum_range]
    rfl
  · intro j hj
    rw [List.mem_range'] at hj
    obtain ⟨t, ht, rfl⟩ := hj
    rw [Nat.one_mul] at *
    obtain ⟨h1, h2, h3⟩ := hlo1 (lo + t) (by omega) (by omega)
    rw [List.getElem?_eq_getElem h1, List.getElem?_eq_getElem h3, List.getD_eq_getElem?_getD, List.getD_eq_getElem?_getD,
      List.getElem?_eq_getElem h1, List.getElem?_eq_getElem h3]
    rfl

/-- `convolve(a, v, full)`: every sum of products of elements at positions with the same sum. -/
theorem C66_convolve_full {a v : List ℚ} (ha : a ≠ []) (hv : v ≠ []) :
    convolve convolveFull 1 1 a v = .ok ((List.range (a.length + v.length - 1)).map (convCoeff a v)) := by
  unfold convolve
  rw [if_neg (by decide)]
  by_cases h : a.length < v.length
  · rw [if_pos h, convolveFull_ok hv ha, Nat.add_comm]
    congr 1
    apply List.map_congr_left
    intro k _
    exact convCoeff_comm v a k
  · rw [if_neg h, convolveFull_ok ha hv]

example : convolve convolveFull 1 1 [1, 2, 3] [0, 1, 2, 5] = .ok [0, 1, 4, 12, 16, 15] := by decide +kernel

/-- Arguments of other dimensions are refused. -/
theorem C66_convolve_dimension_throws (impl : List ℚ → List ℚ → Res (List ℚ)) {dimA dimV : Nat} (h : dimA ≠ 1 ∨ dimV ≠ 1)
    (a v : List ℚ) : convolve impl dimA dimV a v = .throws := if_pos h

theorem foldl_ub {γ δ : Type} (f : γ → δ → Res γ) (l : List δ) :
    l.foldl (fun (s : Res γ) j => s.bind fun s => f s j) .ub = .ub := by
  induction l with
  | nil => rfl
  | cons a l ih => exact ih

theorem convolveValid_ub {a v : List ℚ} (hv : v ≠ []) (h : v.length < a.length) : convolveValid a v = .ub := by
  have hlv : 0 < v.length := List.length_pos_iff.2 hv
  unfold convolveValid
  obtain ⟨m, hm⟩ : ∃ m, a.length - v.length + 1 = m + 2 := ⟨a.length - v.length - 1, by omega⟩
  rw [hm]
  have hok : ∀ i, i = 0 → ∃ c, (List.range v.length).foldl (fun (s : Res ℚ) j =>
      s.bind fun s => (orUb a[j]?).bind fun x => (orUb v[j + i]?).bind fun y => .ok (s + x * y)) (.ok 0) = .ok c := by
    intro i hi
    subst hi
    rw [foldl_pair]
    refine ⟨_, foldl_res_sum _ (fun j => a.getD j 0 * v.getD j 0) _ _ ?_⟩
    intro j hj
    rw [List.mem_range] at hj
    rw [Nat.add_zero, List.getElem?_eq_getElem hj, List.getElem?_eq_getElem (by omega), List.getD_eq_getElem?_getD,
      List.getD_eq_getElem?_getD, List.getElem?_eq_getElem hj, List.getElem?_eq_getElem (by omega)]
    rfl
  have hub : (List.range v.length).foldl (fun (s : Res ℚ) j =>
      s.bind fun s => (orUb a[j]?).bind fun x => (orUb v[j + 1]?).bind fun y => .ok (s + x * y)) (.ok 0) = .ub := by
    obtain ⟨n, hn⟩ : ∃ n, v.length = n + 1 := ⟨v.length - 1, by omega⟩
    rw [hn, List.range_succ, List.foldl_append,
      foldl_pair _ _ (List.range n), foldl_res_sum _ (fun j => a.getD j 0 * v.getD (j + 1) 0)]
    · show ((orUb a[n]?).bind fun x => (orUb v[n + 1]?).bind fun y => Res.ok _) = _
      rw [List.getElem?_eq_getElem (by omega), List.getElem?_eq_none (by omega)]
      rfl
    · intro j hj
      rw [List.mem_range] at hj
      rw [List.getElem?_eq_getElem (by omega), List.getElem?_eq_getElem (by omega), List.getD_eq_getElem?_getD,
        List.getD_eq_getElem?_getD, List.getElem?_eq_getElem (by omega), List.getElem?_eq_getElem (by omega)]
      rfl
  rw [List.range_succ_eq_map, List.range_succ_eq_map]
  obtain ⟨c, hc⟩ := hok 0 rfl
  simp only [List.map_cons, List.foldr_cons, Nat.succ_eq_add_one, Nat.zero_add]
  rw [hc, hub]
  rfl

/-- `convolve(a, v, valid)` of vectors of different lengths reads past the end of the shorter one. -/
theorem C66_convolve_valid_undefined {a v : List ℚ} (ha : a ≠ []) (hv : v ≠ []) (h : a.length ≠ v.length) :
    convolve convolveValid 1 1 a v = .ub := by
  unfold convolve
  rw [if_neg (by decide)]
  by_cases hl : a.length < v.length
  · rw [if_pos hl]; exact convolveValid_ub ha hl
  · rw [if_neg hl]; exact convolveValid_ub hv (by omega)

example : convolve convolveValid 1 1 [1, 2, 3] [0, 1] = .ub := by decide +kernel

/-- Full property: `convolve(a, v, valid)` has the coefficients from `nv - 1` to `na - 1`.  Proved here for vectors of the same
    length of which one is a palindrome: the second vector is not reversed (`C66_convolve_valid_wrong`). -/
theorem C66_convolve_valid_partial {a v : List ℚ} (hv : v ≠ []) (h : a.length = v.length) (hp : v.reverse = v) :
    convolve convolveValid 1 1 a v = .ok [convCoeff a v (v.length - 1)] := by
  have hlv : 0 < v.length := List.length_pos_iff.2 hv
  unfold convolve
  rw [if_neg (by decide), if_neg (by omega)]
  unfold convolveValid
  rw [h, Nat.sub_self, Nat.zero_add]
  apply foldr_res_ok
  show [_] = [_]
  congr 1
  simp only []
  rw [foldl_pair, foldl_res_sum _ (fun j => a.getD j 0 * v.getD j 0)]
  · rw [zero_add, list_range_sum, convCoeff_single, h]
    congr 1
    apply Finset.sum_congr rfl
    intro j hj
    rw [Finset.mem_range] at hj
    rw [if_pos (by omega)]
    congr 1
    conv_lhs => rw [← hp]
    rw [List.getD_eq_getElem?_getD, List.getElem?_reverse hj, List.getD_eq_getElem?_getD]
  · intro j hj
    rw [List.mem_range] at hj
    rw [Nat.add_zero, List.getElem?_eq_getElem hj, List.getElem?_eq_getElem (by omega), List.getD_eq_getElem?_getD,
      List.getD_eq_getElem?_getD, List.getElem?_eq_getElem hj, List.getElem?_eq_getElem (by omega)]
    rfl

example : ([1, 2, 1] : List ℚ).reverse = [1, 2, 1] ∧ convolve convolveValid 1 1 [3, 4, 6] [1, 2, 1] = .ok [17] := by
  decide +kernel

/-- Otherwise the products are of elements at the same positions: a correlation. -/
theorem C66_convolve_valid_wrong : convolve convolveValid 1 1 [1, 2] [3, 5] = .ok [13] ∧ convCoeff [1, 2] [3, 5] 1 = 11 := by
  decide +kernel

end Xt
