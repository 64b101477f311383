import Verif.Model.Special
import Verif.Props.Stats
import Verif.Props.Accumulator
import Verif.Props.AssignAlias
import Mathlib.Tactic.Ring
import Mathlib.Tactic.Linarith
/-!
# C77: element functions on all floating-point values
-/

namespace Xt

open Spec (InBounds numel rowIndices redShape redGroup redValue valueAt Fits GoodAxes accValue orderIndices OperandsOK
  IsBroadcast Conflict)

variable {R : Type}

/-- The extended number a value stands for; none for NaN. -/
def Spec.extended : Flt → Option (WithBot (WithTop ℚ))
  | .nan => none
  | .inf true => some ⊥
  | .inf false => some ((⊤ : WithTop ℚ) : WithBot (WithTop ℚ))
  | .fin q => some ((q : WithTop ℚ) : WithBot (WithTop ℚ))

/-- `r` is one of `l`, and the smallest. -/
def Spec.Smallest (r : Flt) (l : List Flt) : Prop :=
  r ∈ l ∧ ∀ x ∈ l, ∃ u v, Spec.extended r = some u ∧ Spec.extended x = some v ∧ u ≤ v

/-- `r` is one of `l`, and the largest. -/
def Spec.Largest (r : Flt) (l : List Flt) : Prop :=
  r ∈ l ∧ ∀ x ∈ l, ∃ u v, Spec.extended r = some u ∧ Spec.extended x = some v ∧ v ≤ u

/-- Sum in IEEE arithmetic, in order. -/
def Spec.ieeeSum (l : List Flt) : Flt := l.foldl Flt.add (.fin 0)

/-- Product in IEEE arithmetic, in order. -/
def Spec.ieeeProd (l : List Flt) : Flt := l.foldl Flt.mul (.fin 1)

open Spec (extended Smallest Largest ieeeSum ieeeProd)

/-! ### Comparisons -/

theorem extended_some {a : Flt} (h : a ≠ .nan) : ∃ x, extended a = some x := by
  cases a with
  | nan => exact absurd rfl h
  | inf n => cases n <;> exact ⟨_, rfl⟩
  | fin q => exact ⟨_, rfl⟩

theorem extended_inj {a b : Flt} {x : WithBot (WithTop ℚ)} (ha : extended a = some x) (hb : extended b = some x) : a = b := by
  rcases a with _ | n | p <;> rcases b with _ | m | q
  case fin.fin =>
    have h := Option.some.inj (ha.trans hb.symm)
    rw [WithTop.coe_inj.1 (WithBot.coe_inj.1 h)]
  case inf.inf =>
    have h := ha.trans hb.symm
    cases n <;> cases m <;> first | rfl | (simp [extended] at h)
  case inf.fin =>
    have h := ha.trans hb.symm
    cases n <;> simp [extended] at h
  case fin.inf =>
    have h := ha.trans hb.symm
    cases m <;> simp [extended] at h
  all_goals simp [extended] at ha hb

theorem lt_extended {a b : Flt} {x y : WithBot (WithTop ℚ)} (ha : extended a = some x) (hb : extended b = some y) :
    a.lt b = decide (x < y) := by
  rcases a with _ | n | p <;> rcases b with _ | m | q
  case nan.nan | nan.inf | nan.fin | inf.nan | fin.nan => all_goals simp [extended] at ha hb
  case fin.fin =>
    simp only [extended, Option.some.injEq] at ha hb
    subst ha hb
    simp [Flt.lt, WithBot.coe_lt_coe, WithTop.coe_lt_coe]
  case inf.fin =>
    simp only [extended, Option.some.injEq] at hb
    subst hb
    cases n <;> simp only [extended, Option.some.injEq] at ha <;> subst ha
    · simp [Flt.lt]
    · simp [Flt.lt, WithBot.bot_lt_coe]
  case fin.inf =>
    simp only [extended, Option.some.injEq] at ha
    subst ha
    cases m <;> simp only [extended, Option.some.injEq] at hb <;> subst hb
    · have h : ((p : WithTop ℚ) : WithBot (WithTop ℚ)) < ((⊤ : WithTop ℚ) : WithBot (WithTop ℚ)) :=
        WithBot.coe_lt_coe.2 (WithTop.coe_lt_top p)
      rw [decide_eq_true h]; rfl
    · simp [Flt.lt]
  case inf.inf =>
    cases n <;> cases m <;> simp only [extended, Option.some.injEq] at ha hb <;> subst ha hb <;>
      simp [Flt.lt]

theorem lt_nan (a : Flt) : a.lt .nan = false := by rcases a with _ | _ | _ <;> rfl

theorem nan_lt (a : Flt) : Flt.nan.lt a = false := by rcases a with _ | _ | _ <;> rfl

/-! ### C77: minimum, maximum, clip -/

/-- C77: `minimum` and `maximum` of two values neither of which is NaN are the lesser and the greater, infinities included. -/
theorem C77_minimum_maximum {a b : Flt} (ha : a ≠ .nan) (hb : b ≠ .nan) :
    ∃ x y, extended a = some x ∧ extended b = some y ∧ extended (minimumF a b) = some (min x y) ∧
      extended (maximumF a b) = some (max x y) := by
  obtain ⟨x, hx⟩ := extended_some ha
  obtain ⟨y, hy⟩ := extended_some hb
  refine ⟨x, y, hx, hy, ?_, ?_⟩
  · unfold minimumF
    rw [lt_extended hx hy]
    by_cases h : x < y
    · simp [h, hx, min_eq_left h.le]
    · simp [h, hy, min_eq_right (not_lt.1 h)]
  · unfold maximumF
    rw [lt_extended hy hx]
    by_cases h : y < x
    · simp [h, hx, max_eq_left h.le]
    · simp [h, hy, max_eq_right (not_lt.1 h)]

/-- C77: with a NaN argument, both return the second argument: a NaN there is kept, a NaN in the first place is dropped. -/
theorem C77_minimum_maximum_nan (a b : Flt) (h : a = .nan ∨ b = .nan) : minimumF a b = b ∧ maximumF a b = b := by
  rcases h with rfl | rfl
  · exact ⟨by simp [minimumF, nan_lt], by simp [maximumF, lt_nan]⟩
  · exact ⟨by simp [minimumF, lt_nan], by simp [maximumF, nan_lt]⟩

/-- C77 fails: neither function is commutative. -/
theorem C77_minimum_order_wrong :
    minimumF .nan (.fin 1) = .fin 1 ∧ minimumF (.fin 1) .nan = .nan ∧
    maximumF .nan (.fin 1) = .fin 1 ∧ maximumF (.fin 1) .nan = .nan := by decide +kernel

/-- C77: `clip` between bounds in order gives the point of the interval nearest to the value; a NaN stays NaN. -/
theorem C77_clip {v lo hi : Flt} {x y : WithBot (WithTop ℚ)} (hl : extended lo = some x) (hh : extended hi = some y)
    (hle : x ≤ y) :
    (v = .nan → clampF v lo hi = .nan) ∧
    ∀ z, extended v = some z → ∃ r, extended (clampF v lo hi) = some r ∧ r = max x (min z y) ∧ x ≤ r ∧ r ≤ y ∧
      (x ≤ z → z ≤ y → clampF v lo hi = v) := by
  constructor
  · rintro rfl
    simp [clampF, nan_lt, lt_nan]
  · intro z hz
    unfold clampF
    rw [lt_extended hz hl, lt_extended hh hz]
    by_cases h1 : z < x
    · refine ⟨x, by simp [h1, hl], ?_, le_refl _, hle, fun h => absurd h1 (not_lt.2 h)⟩
      rw [min_eq_left (h1.le.trans hle), max_eq_left h1.le]
    · by_cases h2 : y < z
      · refine ⟨y, by simp [h1, h2, hh], ?_, hle, le_refl _, fun _ h => absurd h2 (not_lt.2 h)⟩
        rw [min_eq_right h2.le, max_eq_right hle]
      · refine ⟨z, by simp [h1, h2, hz], ?_, not_lt.1 h1, not_lt.1 h2, fun _ _ => by simp [h1, h2]⟩
        rw [min_eq_left (not_lt.1 h2), max_eq_right (not_lt.1 h1)]

/-- C77: clipping twice is clipping once. -/
theorem C77_clip_idempotent {v lo hi : Flt} {x y : WithBot (WithTop ℚ)} (hl : extended lo = some x) (hh : extended hi = some y)
    (hle : x ≤ y) : clampF (clampF v lo hi) lo hi = clampF v lo hi := by
  by_cases hv : v = .nan
  · rw [(C77_clip hl hh hle).1 hv]
    exact (C77_clip hl hh hle).1 rfl
  · obtain ⟨z, hz⟩ := extended_some hv
    obtain ⟨r, h1, _, h2, h3, _⟩ := (C77_clip hl hh hle).2 z hz
    obtain ⟨r', h4, _, _, _, h5⟩ := (C77_clip (v := clampF v lo hi) hl hh hle).2 r h1
    exact h5 h2 h3

/-! ### C77: sign -/

/-- C77: the sign of a real value is NaN for NaN, otherwise -1, 0 or 1 as the value is below, at or above zero. -/
theorem C77_sign (x : Flt) :
    (x = .nan → signF x = .nan) ∧
    ∀ z, extended x = some z →
      (z < ((0 : ℚ) : WithTop ℚ) → signF x = .fin (-1)) ∧ (z = ((0 : ℚ) : WithTop ℚ) → signF x = .fin 0) ∧
      (((0 : ℚ) : WithTop ℚ) < z → signF x = .fin 1) := by
  constructor
  · rintro rfl; rfl
  · intro z hz
    have h0 : extended (.fin 0) = some (((0 : ℚ) : WithTop ℚ) : WithBot (WithTop ℚ)) := rfl
    have hlt := lt_extended hz h0
    have hn : x.isNan = false := by
      rcases x with _ | _ | _
      · simp [extended] at hz
      all_goals rfl
    have heq : ∀ h : z ≠ ((0 : ℚ) : WithTop ℚ), x.eq (.fin 0) = false := by
      intro h
      rcases x with _ | _ | q
      · rfl
      · rfl
      · simp only [Flt.eq, decide_eq_false_iff_not]
        rintro rfl
        exact h (by rw [h0] at hz; exact (Option.some.inj hz).symm)
    refine ⟨fun h => ?_, fun h => ?_, fun h => ?_⟩
    · unfold signF
      rw [hn, heq h.ne, hlt, decide_eq_true h]; rfl
    · rw [h] at hz
      rw [extended_inj hz h0]
      decide +kernel
    · unfold signF
      rw [hn, heq h.ne', hlt, decide_eq_false (not_lt.2 h.le)]; rfl

/-- C77: the sign of a complex number is the sign of its real part, or of its imaginary part when the real part is zero: 1 on the numbers
    after zero in lexicographic order, -1 on those before. -/
theorem C77_sign_complex (a b : ℚ) :
    signC (.fin a, .fin b) =
      (if a = 0 ∧ b = 0 then .fin 0 else if a < 0 ∨ (a = 0 ∧ b < 0) then .fin (-1) else .fin 1, .fin 0) := by
  by_cases ha : a = 0
  · subst ha
    by_cases hb : b = 0
    · subst hb; decide +kernel
    · simp [signC, signF, Flt.eq, Flt.lt, Flt.isNan, hb]
  · simp [signC, signF, Flt.eq, Flt.lt, Flt.isNan, ha]

/-- C77: the sign of an unsigned number. -/
theorem C77_sign_unsigned (x : Nat) : (signU x = 0 ↔ x = 0) ∧ (signU x = 1 ↔ 0 < x) ∧ signU x ≤ 1 := by
  unfold signU
  split <;> refine ⟨?_, ?_, ?_⟩ <;> omega

/-! ### C77: `nan_to_num` -/

/-- C77: `nan_to_num` gives a number: 0 for NaN, the extreme numbers for the infinities, the number itself otherwise. -/
theorem C77_nan_to_num {lo hi : ℚ} (a : Flt) :
    ∃ q, nanToNum lo hi a = .fin q ∧ (a = .nan → q = 0) ∧ (a = .inf true → q = lo) ∧ (a = .inf false → q = hi) ∧
      ∀ p, a = .fin p → q = p := by
  rcases a with _ | n | p
  · exact ⟨0, rfl, by simp, by simp, by simp, by simp⟩
  · cases n
    · exact ⟨hi, rfl, by simp, by simp, by simp, by simp⟩
    · exact ⟨lo, rfl, by simp, by simp, by simp, by simp⟩
  · exact ⟨p, rfl, by simp, by simp, by simp, by simp⟩

/-! ### C77: `pow<N>` -/

theorem powImpl_eq {M : Type} [Monoid M] {narrow : M → M} {v : M} : ∀ (fuel n : Nat), n ≤ fuel →
    (∀ k, 2 * k ≤ n → 0 < k → narrow (v ^ k) = v ^ k) → powImpl (· * ·) 1 narrow fuel n v = v ^ n
  | 0, n, hn, _ => by
    rw [show n = 0 by omega]; simp [powImpl]
  | fuel + 1, n, hn, hk => by
    unfold powImpl
    by_cases h0 : n = 0
    · subst h0; simp
    · by_cases h1 : n = 1
      · subst h1; simp
      · have ih := powImpl_eq fuel (n / 2) (by omega) (fun k h1 h2 => hk k (by omega) h2)
        simp only [h0, h1, if_false, ih]
        rw [hk (n / 2) (by omega) (by omega), ← pow_add]
        by_cases h2 : n % 2 = 1
        · rw [if_pos h2, ← pow_succ]
          congr 1; omega
        · rw [if_neg h2, mul_one]
          congr 1; omega

/-- C77: `pow<N>` is the power, for every exponent and every associative multiplication with a unit, when the powers up to half the
    exponent are values of the element type. -/
theorem C77_pow_partial {M : Type} [Monoid M] {narrow : M → M} {v : M} {n : Nat}
    (h : ∀ k, 2 * k ≤ n → 0 < k → narrow (v ^ k) = v ^ k) : powN (· * ·) 1 narrow n v = v ^ n :=
  powImpl_eq n n (le_refl _) h

/-- C77 fails for element types narrower than `int`: the result is an `int`, but the inner powers are cut to the element type;
    `pow<4>` of 16 in `int8_t` is 0, `pow<2>` of it is 256. -/
theorem C77_pow_narrow_wrong :
    powN (· * ·) 1 toInt8 4 16 = 0 ∧ (16 : Int) ^ 4 = 65536 ∧ powN (· * ·) 1 toInt8 2 16 = 256 := by decide

/-! ### C77: `isclose` and `allclose` -/

/-- C77: two finite numbers are close when they differ by no more than the absolute tolerance, or than the relative tolerance times the
    larger magnitude. -/
theorem C77_isclose_finite (rtol atol : ℚ) (en : Bool) (a b : ℚ) :
    iscloseF (.fin rtol) (.fin atol) en (.fin a) (.fin b) = true ↔
      |a - b| ≤ atol ∨ |a - b| ≤ rtol * max |a| |b| := by
  have hm : (Flt.fin a).abs.stdMax (Flt.fin b).abs = .fin (max |a| |b|) := by
    simp only [Flt.abs, Flt.stdMax, Flt.lt, decide_eq_true_eq]
    split
    · rename_i h; rw [max_eq_right h.le]
    · rename_i h; rw [max_eq_left (not_lt.1 h)]
  unfold iscloseF
  simp only [hm]
  simp [Flt.isNan, Flt.isInf, Flt.sub, Flt.neg, Flt.add, Flt.abs, Flt.le, Flt.mul, sub_eq_add_neg]

/-- C77: NaN is close to NaN if asked for, and to nothing else; an infinity is close to an infinity when the signs agree. -/
theorem C77_isclose_special (rtol atol : Flt) (en : Bool) :
    iscloseF rtol atol en .nan .nan = en ∧
    (∀ x, x ≠ .nan → iscloseF rtol atol en x .nan = false ∧ iscloseF rtol atol en .nan x = false) ∧
    ∀ m n, iscloseF rtol atol en (.inf m) (.inf n) = (m == n) := by
  refine ⟨by simp [iscloseF, Flt.isNan], fun x hx => ?_, fun m n => by simp [iscloseF, Flt.isNan, Flt.isInf, Flt.eq]⟩
  rcases x with _ | _ | _
  · exact absurd rfl hx
  all_goals constructor <;> simp [iscloseF, Flt.isNan, Flt.isInf, Flt.sub, Flt.neg, Flt.add, Flt.abs, Flt.le]

/-- C77: closeness does not depend on the order of the arguments, whatever the values and tolerances. -/
theorem C77_isclose_symm (rtol atol : Flt) (en : Bool) (a b : Flt) :
    iscloseF rtol atol en a b = iscloseF rtol atol en b a := by
  have hd : (a.sub b).abs = (b.sub a).abs := by
    rcases a with _ | n | p <;> rcases b with _ | m | q
    case fin.fin =>
      simp only [Flt.sub, Flt.neg, Flt.add, Flt.abs]
      rw [← sub_eq_add_neg, ← sub_eq_add_neg, abs_sub_comm]
    case inf.inf => cases n <;> cases m <;> rfl
    all_goals rfl
  have hm : a ≠ .nan → b ≠ .nan → a.abs.stdMax b.abs = b.abs.stdMax a.abs := by
    intro ha hb
    rcases a with _ | n | p <;> rcases b with _ | m | q
    case fin.fin =>
      simp only [Flt.abs, Flt.stdMax, Flt.lt, decide_eq_true_eq]
      split <;> split <;> first | rfl | (congr 1; linarith)
    case inf.inf => rfl
    case inf.fin | fin.inf => all_goals rfl
    all_goals first | exact absurd rfl ha | exact absurd rfl hb
  by_cases ha : a = .nan
  · subst ha
    by_cases hb : b = .nan
    · subst hb; rfl
    · have := (C77_isclose_special rtol atol en).2.1 b hb
      rw [this.1, this.2]
  · by_cases hb : b = .nan
    · subst hb
      have := (C77_isclose_special rtol atol en).2.1 a ha
      rw [this.1, this.2]
    · have he : a.eq b = b.eq a := by
        rcases a with _ | n | p <;> rcases b with _ | m | q <;> simp only [Flt.eq]
        · cases n <;> cases m <;> rfl
        · exact decide_eq_decide.2 eq_comm
      unfold iscloseF
      rw [hd, hm ha hb, he, Bool.and_comm (x := a.isNan), Bool.and_comm (x := a.isInf)]

/-- C77: every value but NaN is close to itself. -/
theorem C77_isclose_self {rtol : Flt} {atol : ℚ} (h : 0 ≤ atol) (en : Bool) {a : Flt} (ha : a ≠ .nan) :
    iscloseF rtol (.fin atol) en a a = true := by
  rcases a with _ | n | p
  · exact absurd rfl ha
  · simp [iscloseF, Flt.isNan, Flt.isInf, Flt.eq]
  · simp [iscloseF, Flt.isNan, Flt.isInf, Flt.sub, Flt.neg, Flt.add, Flt.abs, Flt.le, h]

/-- C77 fails: with a positive relative tolerance, as by default, an infinity is close to every finite number: the difference and
    the bound are both infinite. -/
theorem C77_isclose_infinite_wrong {rtol : ℚ} (h : 0 < rtol) (atol : ℚ) (en n : Bool) (q : ℚ) :
    iscloseF (.fin rtol) (.fin atol) en (.inf n) (.fin q) = true := by
  simp [iscloseF, Flt.isNan, Flt.isInf, Flt.sub, Flt.neg, Flt.add, Flt.abs, Flt.le, Flt.stdMax, Flt.lt, Flt.mul, h.ne', h.le]

/-- C77 fails: the documented test `|a - b| <= atol + rtol * |b|` is another one, neither weaker nor stronger. -/
theorem C77_isclose_formula_wrong :
    (∃ rtol atol a b : ℚ, 0 ≤ rtol ∧ 0 ≤ atol ∧ |a - b| ≤ atol + rtol * |b| ∧
      iscloseF (.fin rtol) (.fin atol) false (.fin a) (.fin b) = false) ∧
    ∃ rtol atol a b : ℚ, 0 ≤ rtol ∧ 0 ≤ atol ∧ ¬|a - b| ≤ atol + rtol * |b| ∧
      iscloseF (.fin rtol) (.fin atol) false (.fin a) (.fin b) = true :=
  ⟨⟨1 / 2, 1, 0, 2, by decide +kernel⟩, ⟨1 / 2, 0, 2, 1, by decide +kernel⟩⟩

/-- C77: both tests agree up to the roles of the arguments: a close pair is within the documented bound for the larger of the two magnitudes,
    and a pair within half the documented bound is close. -/
theorem C77_isclose_bounds {rtol atol : ℚ} (hr : 0 ≤ rtol) (ha : 0 ≤ atol) (en : Bool) (a b : ℚ) :
    (iscloseF (.fin rtol) (.fin atol) en (.fin a) (.fin b) = true → |a - b| ≤ atol + rtol * max |a| |b|) ∧
    (2 * |a - b| ≤ atol + rtol * |b| → iscloseF (.fin rtol) (.fin atol) en (.fin a) (.fin b) = true) := by
  rw [C77_isclose_finite]
  have h0 : 0 ≤ rtol * max |a| |b| := mul_nonneg hr (le_trans (abs_nonneg a) (le_max_left _ _))
  have h1 : rtol * |b| ≤ rtol * max |a| |b| := mul_le_mul_of_nonneg_left (le_max_right _ _) hr
  constructor
  · rintro (h | h) <;> linarith
  · intro h
    by_cases hc : |a - b| ≤ atol
    · exact .inl hc
    · right; linarith

/-- C77: `allclose` is true exactly when all pairs of elements of the broadcast operands are close. -/
theorem C77_allclose (rtol atol : Flt) {e1 e2 : Ex Flt} (ho : OperandsOK (iscloseEx rtol atol false e1 e2))
    (hx : (iscloseEx rtol atol false e1 e2).toSh.ExtentsOk) {sh : List Nat}
    (hsh : (iscloseEx rtol atol false e1 e2).exShape = some sh) :
    IsBroadcast (iscloseEx rtol atol false e1 e2).toSh.leaves sh ∧
    ∃ b, allcloseEx rtol atol e1 e2 = .returns b ∧
      (b = true ↔ ∀ idx, InBounds sh idx → iscloseF rtol atol false (valueAt e1 idx) (valueAt e2 idx) = true) := by
  obtain ⟨tr, hr, _⟩ := exShape_resizeInfo hsh
  have hf : Fits sh (iscloseEx rtol atol false e1 e2) := (resizeInfo_spec ho hx hr).1
  refine ⟨((C04_broadcast_shape _ hx).1 sh).1 ⟨tr, hr⟩,
    ((iscloseEx rtol atol false e1 e2).values .row_major sh).all fun v => v != .fin 0, ?_, ?_⟩
  · unfold allcloseEx
    simp only [hsh, insideNoexcept]
  · rw [C22_iteration .row_major (.inl rfl) sh _ hf, List.all_map, List.all_eq_true]
    have hv : ∀ idx, valueAt (iscloseEx rtol atol false e1 e2) idx =
        if iscloseF rtol atol false (valueAt e1 idx) (valueAt e2 idx) then .fin 1 else .fin 0 := fun _ => rfl
    have h10 : (Flt.fin 1 != Flt.fin 0) = true := by decide +kernel
    constructor
    · intro h idx hi
      have := h idx (mem_orderIndices.2 hi)
      simp only [Function.comp, hv] at this
      by_contra hc
      rw [if_neg hc] at this
      simp at this
    · intro h idx hi
      simp only [Function.comp, hv, h idx (mem_orderIndices.1 hi), if_true, h10]

/-- C77 fails: `allclose` of arrays whose shapes do not broadcast ends the program, the exception leaves a `noexcept` function. -/
theorem C77_allclose_terminates {rtol atol : Flt} {e1 e2 : Ex Flt} (hx : (iscloseEx rtol atol false e1 e2).toSh.ExtentsOk)
    (hc : Conflict (iscloseEx rtol atol false e1 e2).toSh.leaves) : allcloseEx rtol atol e1 e2 = .terminates := by
  have hn : (iscloseEx rtol atol false e1 e2).exShape = none := by
    have := (C04_broadcast_shape _ hx).2.2 hc
    show ((iscloseEx rtol atol false e1 e2).toSh.shape).map (·.1) = none
    rw [this]; rfl
  unfold allcloseEx
  simp only [hn, insideNoexcept]

/-! ### C77: reductions over values that may be NaN or infinite -/

theorem foldl_minimum : ∀ (l : List Flt) (a : Flt), a ≠ .nan → (∀ x ∈ l, x ≠ .nan) → Smallest (l.foldl minimumF a) (a :: l)
  | [], a, ha, _ => by
    obtain ⟨x, hx⟩ := extended_some ha
    exact ⟨by simp, fun y hy => ⟨x, x, hx, by simp at hy; rw [hy]; exact hx, le_refl _⟩⟩
  | b :: l, a, ha, hl => by
    have hb : b ≠ .nan := hl b (by simp)
    obtain ⟨x, y, hx, hy, hm, _⟩ := C77_minimum_maximum ha hb
    have hne : minimumF a b ≠ .nan := by
      unfold minimumF; split <;> assumption
    obtain ⟨h1, h2⟩ := foldl_minimum l (minimumF a b) hne (fun x hx => hl x (by simp [hx]))
    rw [List.foldl_cons]
    refine ⟨?_, ?_⟩
    · rcases List.mem_cons.1 h1 with h | h
      · rw [h]; unfold minimumF; split <;> simp
      · simp [h]
    · intro z hz
      obtain ⟨u, v, hu, hv, huv⟩ := h2 (minimumF a b) (by simp)
      rw [hm] at hv
      have hv := Option.some.inj hv
      rcases List.mem_cons.1 hz with rfl | hz
      · exact ⟨u, x, hu, hx, le_trans huv (hv ▸ min_le_left _ _)⟩
      · rcases List.mem_cons.1 hz with rfl | hz
        · exact ⟨u, y, hu, hy, le_trans huv (hv ▸ min_le_right _ _)⟩
        · exact h2 z (by simp [hz])

theorem foldl_maximum : ∀ (l : List Flt) (a : Flt), a ≠ .nan → (∀ x ∈ l, x ≠ .nan) → Largest (l.foldl maximumF a) (a :: l)
  | [], a, ha, _ => by
    obtain ⟨x, hx⟩ := extended_some ha
    exact ⟨by simp, fun y hy => ⟨x, x, hx, by simp at hy; rw [hy]; exact hx, le_refl _⟩⟩
  | b :: l, a, ha, hl => by
    have hb : b ≠ .nan := hl b (by simp)
    obtain ⟨x, y, hx, hy, _, hm⟩ := C77_minimum_maximum ha hb
    have hne : maximumF a b ≠ .nan := by
      unfold maximumF; split <;> assumption
    obtain ⟨h1, h2⟩ := foldl_maximum l (maximumF a b) hne (fun x hx => hl x (by simp [hx]))
    rw [List.foldl_cons]
    refine ⟨?_, ?_⟩
    · rcases List.mem_cons.1 h1 with h | h
      · rw [h]; unfold maximumF; split <;> simp
      · simp [h]
    · intro z hz
      obtain ⟨u, v, hu, hv, huv⟩ := h2 (maximumF a b) (by simp)
      rw [hm] at hv
      have hv := Option.some.inj hv
      rcases List.mem_cons.1 hz with rfl | hz
      · exact ⟨u, x, hu, hx, le_trans (hv ▸ le_max_left _ _) huv⟩
      · rcases List.mem_cons.1 hz with rfl | hz
        · exact ⟨u, y, hu, hy, le_trans (hv ▸ le_max_right _ _) huv⟩
        · exact h2 z (by simp [hz])

theorem foldl_after_nan {f : Flt → Flt → Flt} (h1 : ∀ x, f .nan x = x) (h2 : ∀ x, f x .nan = .nan) (init : Flt) (l1 l2 : List Flt) :
    (l1 ++ .nan :: l2).foldl f init = match l2 with
      | [] => .nan
      | x :: l => l.foldl f x := by
  rw [List.foldl_append, List.foldl_cons, h2]
  cases l2 with
  | nil => rfl
  | cons x l => rw [List.foldl_cons, h1]

/-- C77, what `amin` and `amax` along one axis do with NaN: only the elements after the last NaN count, and if there are none the result
    is NaN. -/
theorem C77_amin_amax_nan (lo hi : ℚ) {e : Ex Flt} {sh : List Nat} (hf : Fits sh e) {axis : Int}
    (hg : GoodAxes sh.length ([axis].map (normalizeAxis sh.length))) (keep : Bool) :
    ∃ s t, lazyReduce (aminFnsF hi) (.fin hi) e sh [axis] keep = .ok s ∧
      lazyReduce (amaxFnsF lo) (.fin lo) e sh [axis] keep = .ok t ∧
      s.shape = redShape sh ([axis].map (normalizeAxis sh.length)) keep ∧ t.shape = s.shape ∧
      ∀ idx, InBounds s.shape idx → ∀ l1 l2,
        (redGroup sh ([axis].map (normalizeAxis sh.length)) keep idx).map (valueAt e) = l1 ++ .nan :: l2 →
        (∀ x ∈ l2, x ≠ .nan) →
        (l2 = [] → s.elem idx = .nan ∧ t.elem idx = .nan) ∧
        (l2 ≠ [] → Smallest (s.elem idx) l2 ∧ Largest (t.elem idx) l2) := by
  obtain ⟨s, hs, hss, hse⟩ := lazyReduce_fold (F := aminFnsF hi) (.fin hi) hf hg keep (.inr (by simp))
  obtain ⟨t, ht, hts, hte⟩ := lazyReduce_fold (F := amaxFnsF lo) (.fin lo) hf hg keep (.inr (by simp))
  refine ⟨s, t, hs, ht, hss, by rw [hts, hss], ?_⟩
  intro idx hi l1 l2 hl hn
  rw [hse idx hi, hte idx (by rw [hts, ← hss]; exact hi)]
  unfold redValue
  rw [hl]
  have e1 := fun init => foldl_after_nan (f := minimumF) (fun x => (C77_minimum_maximum_nan _ _ (.inl rfl)).1)
    (fun x => (C77_minimum_maximum_nan _ _ (.inr rfl)).1) init l1 l2
  have e2 := fun init => foldl_after_nan (f := maximumF) (fun x => (C77_minimum_maximum_nan _ _ (.inl rfl)).2)
    (fun x => (C77_minimum_maximum_nan _ _ (.inr rfl)).2) init l1 l2
  show (l2 = [] → (l1 ++ .nan :: l2).foldl minimumF _ = .nan ∧ (l1 ++ .nan :: l2).foldl maximumF _ = .nan) ∧
    (l2 ≠ [] → Smallest ((l1 ++ .nan :: l2).foldl minimumF _) l2 ∧ Largest ((l1 ++ .nan :: l2).foldl maximumF _) l2)
  rw [e1, e2]
  cases l2 with
  | nil => exact ⟨fun _ => ⟨rfl, rfl⟩, fun h => absurd rfl h⟩
  | cons x l =>
    refine ⟨by simp, fun _ => ⟨?_, ?_⟩⟩
    · exact foldl_minimum l x (hn x (by simp)) (fun y hy => hn y (by simp [hy]))
    · exact foldl_maximum l x (hn x (by simp)) (fun y hy => hn y (by simp [hy]))

/-- Three elements. -/
def threeF (a b c : Flt) : Ex Flt :=
  .arr (StridedArr.container .row_major [3] 0) fun k => if k = 0 then a else if k = 1 then b else c

theorem threeF_fits (a b c : Flt) : Fits [3] (threeF a b c) := ⟨container_wf _ _, Nat.le_refl _, fun _ _ => .inr rfl⟩

/-- C77 fails: `amin` neither ignores NaN nor propagates it, and depends on the order of the elements. -/
theorem C77_amin_nan_wrong (hi : ℚ) :
    ((lazyReduce (aminFnsF hi) (.fin hi) (threeF (.fin 1) .nan (.fin 2)) [3] [0] false).map fun s => s.elem []) = .ok (.fin 2) ∧
    ((lazyReduce (aminFnsF hi) (.fin hi) (threeF (.fin 1) (.fin 2) .nan) [3] [0] false).map fun s => s.elem []) = .ok .nan := by
  constructor
  · obtain ⟨s, t, h1, _, h3, _, h5⟩ := C77_amin_amax_nan 0 hi (threeF_fits (.fin 1) .nan (.fin 2)) (axis := 0) (by decide) false
    rw [h1]
    have hs : s.shape = [] := by rw [h3]; decide
    obtain ⟨_, h⟩ := h5 [] (by rw [hs]; trivial) [.fin 1] [.fin 2] (by decide +kernel) (by simp)
    have := (h (by simp)).1.1
    simp only [List.mem_singleton] at this
    simp [Res.map_ok, this]
  · obtain ⟨s, t, h1, _, h3, _, h5⟩ := C77_amin_amax_nan 0 hi (threeF_fits (.fin 1) (.fin 2) .nan) (axis := 0) (by decide) false
    rw [h1]
    have hs : s.shape = [] := by rw [h3]; decide
    obtain ⟨h, _⟩ := h5 [] (by rw [hs]; trivial) [.fin 1, .fin 2] [] (by decide +kernel) (by simp)
    simp [Res.map_ok, (h rfl).1]

/-! ### C77: sums that skip NaN -/

theorem foldl_nanPlus : ∀ (l : List Flt) (a : Flt), l.foldl nanPlusF a = (l.filter fun x => !x.isNan).foldl Flt.add a
  | [], _ => rfl
  | x :: l, a => by
    rw [List.foldl_cons, foldl_nanPlus l]
    unfold nanPlusF
    cases hx : x.isNan <;> simp [hx]

theorem foldl_nanTimes : ∀ (l : List Flt) (a : Flt), l.foldl nanTimesF a = (l.filter fun x => !x.isNan).foldl Flt.mul a
  | [], _ => rfl
  | x :: l, a => by
    rw [List.foldl_cons, foldl_nanTimes l]
    unfold nanTimesF
    cases hx : x.isNan <;> simp [hx]

/-- C77: `nansum` along one axis is the sum of the elements that are not NaN, in order, infinities included. -/
theorem C77_nansum_partial {e : Ex Flt} {sh : List Nat} (hf : Fits sh e) {axis : Int}
    (hg : GoodAxes sh.length ([axis].map (normalizeAxis sh.length))) (keep : Bool) :
    ∃ s, lazyReduce nanSumFnsF (.fin 0) e sh [axis] keep = .ok s ∧
      s.shape = redShape sh ([axis].map (normalizeAxis sh.length)) keep ∧
      ∀ idx, InBounds s.shape idx → s.elem idx =
        ieeeSum (((redGroup sh ([axis].map (normalizeAxis sh.length)) keep idx).map (valueAt e)).filter fun x => !x.isNan) := by
  obtain ⟨s, hs, hss, hse⟩ := lazyReduce_fold (F := nanSumFnsF) (.fin 0) hf hg keep (.inr (by simp))
  refine ⟨s, hs, hss, fun idx hi => ?_⟩
  rw [hse idx hi]
  exact foldl_nanPlus _ _

/-- Rows `(1, 1)` and `(inf, -inf)`. -/
def gridF : Ex Flt :=
  .arr (StridedArr.container .row_major [2, 2] 0) fun k => if k = 2 then .inf false else if k = 3 then .inf true else .fin 1

/-- C77 fails over several axes: the sum of a part of the elements, when it is NaN, is skipped like an element; `nansum` of
    `{{1, 1}, {inf, -inf}}` is 2 over both axes, and NaN along the flattened array. -/
theorem C77_nansum_axes_wrong :
    ((lazyReduce nanSumFnsF (.fin 0) gridF [2, 2] [0, 1] false).map fun s => s.elem []) = .ok (.fin 2) ∧
    ieeeSum (((rowIndices [2, 2]).map (valueAt gridF)).filter fun x => !x.isNan) = .nan := by decide +kernel

theorem nanInit_sum (x : Flt) (l : List Flt) :
    (l.filter fun x => !x.isNan).foldl Flt.add (nanInitF 0 x) = ieeeSum ((x :: l).filter fun x => !x.isNan) := by
  unfold nanInitF ieeeSum
  rcases x with _ | n | q <;> simp [Flt.isNan, Flt.add]

theorem nanInit_prod (x : Flt) (l : List Flt) :
    (l.filter fun x => !x.isNan).foldl Flt.mul (nanInitF 1 x) = ieeeProd ((x :: l).filter fun x => !x.isNan) := by
  unfold nanInitF ieeeProd
  have h10 : ¬(1 : ℚ) < 0 := by norm_num
  rcases x with _ | n | q <;> simp [Flt.isNan, Flt.mul, h10]

theorem take_tail_cons {l : List Flt} (h : l ≠ []) (d : Flt) (k : Nat) : l.headD d :: l.tail.take k = l.take (k + 1) := by
  cases l with
  | nil => exact absurd rfl h
  | cons x l => rfl

/-- C77: element `k` of `nancumsum(e)` and `nancumprod(e)` is the sum and the product of those of the first `k + 1` elements that are not NaN. -/
theorem C77_nancumsum_flat {e : Ex Flt} {sh : List Nat} (hf : Fits sh e) :
    nanCumsumFlat e sh = (List.range (numel sh)).map (fun k =>
      ieeeSum ((((rowIndices sh).map (valueAt e)).take (k + 1)).filter fun x => !x.isNan)) ∧
    nanCumprodFlat e sh = (List.range (numel sh)).map (fun k =>
      ieeeProd ((((rowIndices sh).map (valueAt e)).take (k + 1)).filter fun x => !x.isNan)) := by
  have hne : ∀ k ∈ List.range (numel sh), (rowIndices sh).map (valueAt e) ≠ [] := by
    intro k hk h
    have := congrArg List.length h
    rw [List.length_map, Spec.length_rowIndices] at this
    rw [List.mem_range] at hk
    simp at this; omega
  constructor
  · unfold nanCumsumFlat
    rw [C32_accumulate_flat e hf _ _ (.fin 0)]
    apply List.map_congr_left
    intro k hk
    rw [foldl_nanPlus, ← take_tail_cons (hne k hk) (.fin 0)]
    exact nanInit_sum _ _
  · unfold nanCumprodFlat
    rw [C32_accumulate_flat e hf _ _ (.fin 0)]
    apply List.map_congr_left
    intro k hk
    rw [foldl_nanTimes, ← take_tail_cons (hne k hk) (.fin 0)]
    exact nanInit_prod _ _

/-- C77: `nancumsum(e, axis)` holds at every index the sum of the elements up to it on that axis that are not NaN.  Missing: shapes with a
    unit extent beside the axis, where it is not so (`C32_init_zero_stride`). -/
theorem C77_nancumsum_axis_partial {L : Layout} (hL : L = .row_major ∨ L = .column_major) {sh : List Nat}
    (val : List Nat → Flt) (hsz : numel sh < 2 ^ 64) {axis : Nat} (ha : axis < sh.length) (hi : AccInitOk sh axis) :
    nanCumsum L L sh ((orderIndices L sh).map val) axis =
      .ok ((orderIndices L sh).map fun idx =>
        ieeeSum (((List.range (idx.getD axis 0 + 1)).map fun k => val (idx.set axis k)).filter fun x => !x.isNan)) := by
  unfold nanCumsum accumulate
  have hn : normalizeAxis sh.length (axis : Int) = axis := by
    unfold normalizeAxis; rw [if_neg (by omega)]; simp
  rw [hn, C32_accumulate_axis_init_partial hL val hsz _ _ ha hi]
  congr 1
  apply List.map_congr_left
  intro idx _
  unfold accValue
  rw [foldl_nanPlus, nanInit_sum, range_pos (Nat.succ_pos _)]
  rfl

/-! ### Instances -/

example : extended (minimumF (.inf true) (.fin 3)) = some ⊥ := rfl
example := C77_minimum_maximum (a := .inf false) (b := .fin 3) (by simp) (by simp)
example := C77_clip (v := .fin 7) (lo := .fin (-1)) (hi := .inf false) rfl rfl (by simp)
example : clampF (.fin 7) (.fin (-1)) (.fin 5) = .fin 5 := by decide +kernel
example := C77_clip_idempotent (v := .fin 7) (lo := .fin (-1)) (hi := .inf false) rfl rfl (by simp)
example : signF (.inf true) = .fin (-1) := by decide +kernel
example := C77_pow_partial (narrow := id) (v := (3 : Int)) (n := 20) (fun _ _ _ => rfl)
example : powN (· * ·) 1 toInt8 5 (3 : Int) = 243 := by decide
example := C77_isclose_self (rtol := .fin 0) (atol := 0) (le_refl _) false (a := .inf true) (by simp)
example : iscloseF (.fin (1 / 100000)) (.fin (1 / 100000000)) false (.inf false) (.fin 5) = true := by decide +kernel
example := C77_isclose_infinite_wrong (rtol := 1 / 100000) (by norm_num) (1 / 100000000) false false 5
example := C77_isclose_bounds (rtol := 1 / 2) (atol := 1) (by norm_num) (by norm_num) false 4 2

theorem threeF_ok (a b c d : Flt) : OperandsOK (iscloseEx (.fin 0) (.fin 1) false (threeF a b c) (.scalar d)) :=
  ⟨container_wf _ _, trivial, trivial⟩

example := C77_allclose (.fin 0) (.fin 1) (threeF_ok (.fin 1) (.fin 2) (.inf false) (.fin 1)) (by
  intro x hx; decide +revert) (sh := [3]) (by decide +kernel)
example : allcloseEx (.fin 0) (.fin 1) (threeF (.fin 1) (.fin 2) (.fin 0)) (.scalar (.fin 1)) = .returns true := by decide +kernel
example : allcloseEx (.fin 0) (.fin 1) (threeF (.fin 1) .nan (.fin 0)) (.scalar (.fin 1)) = .returns false := by decide +kernel
example : allcloseEx (.fin 0) (.fin 1) (threeF (.fin 1) .nan (.fin 0))
    (.arr (StridedArr.container .row_major [2] 0) fun _ => .fin 1) = .terminates := by decide +kernel
example := C77_amin_amax_nan 0 9 (threeF_fits (.fin 1) .nan (.fin 2)) (axis := 0) (by decide) true
example := C77_nansum_partial (threeF_fits (.fin 1) .nan (.inf true)) (axis := -1) (by decide) false
example := C77_nancumsum_flat (threeF_fits .nan (.fin 1) (.inf true))
example : nanCumsumFlat (threeF .nan (.fin 1) (.inf true)) [3] = [.fin 0, .fin 1, .inf true] := by decide +kernel
example := C77_nancumsum_axis_partial (L := .column_major) (.inr rfl) (sh := [2, 3]) (fun i => if i = [0, 0] then .nan else .fin 1)
  (by decide) (axis := 1) (by decide) (by decide)

/-! ### The floating-point operations themselves -/

/-- Sign of a value: -1, 0 or 1; 0 for NaN. -/
def Spec.signOf : Flt → Int
  | .nan => 0
  | .inf n => if n then -1 else 1
  | .fin q => if q < 0 then -1 else if 0 < q then 1 else 0

open Spec (signOf)

/-- **C77 comparisons.** `<`, `<=` and `==` are the comparisons of extended numbers, and false whenever NaN is involved. -/
theorem C77_comparisons (a b : Flt) :
    (a.lt b = true ↔ ∃ x y, extended a = some x ∧ extended b = some y ∧ x < y) ∧
    (a.le b = true ↔ ∃ x y, extended a = some x ∧ extended b = some y ∧ x ≤ y) ∧
    (a.eq b = true ↔ ∃ x, extended a = some x ∧ extended b = some x) := by
  have hlt : ∀ a b : Flt, (a.lt b = true ↔ ∃ x y, extended a = some x ∧ extended b = some y ∧ x < y) := by
    intro a b
    by_cases ha : a = .nan
    · subst ha; simp [Flt.lt, extended]
    · by_cases hb : b = .nan
      · subst hb; cases a <;> simp [Flt.lt, extended]
      · obtain ⟨x, hx⟩ := extended_some ha
        obtain ⟨y, hy⟩ := extended_some hb
        rw [lt_extended hx hy]
        simp [hx, hy]
  have heq : a.eq b = true ↔ ∃ x, extended a = some x ∧ extended b = some x := by
    constructor
    · intro h
      have hab : a = b ∧ a ≠ .nan := by
        cases a <;> cases b <;> simp_all [Flt.eq]
      obtain ⟨x, hx⟩ := extended_some hab.2
      exact ⟨x, hx, hab.1 ▸ hx⟩
    · rintro ⟨x, hx, hy⟩
      have := extended_inj hx hy
      subst this
      cases a <;> simp_all [Flt.eq, extended]
  have hle : a.le b = (a.lt b || a.eq b) := by
    rcases a with _ | n | p <;> rcases b with _ | m | q <;> simp only [Flt.le, Flt.lt, Flt.eq, Bool.or_false]
    · cases n <;> cases m <;> rfl
    · by_cases h1 : p < q
      · simp [h1, h1.le]
      · by_cases h2 : p = q
        · simp [h2]
        · have : ¬ p ≤ q := fun h => h2 (le_antisymm h (not_lt.1 h1))
          simp [h1, h2, this]
  refine ⟨hlt a b, ?_, heq⟩
  rw [hle, Bool.or_eq_true, hlt, heq]
  constructor
  · rintro (⟨x, y, hx, hy, h⟩ | ⟨x, hx, hy⟩)
    · exact ⟨x, y, hx, hy, h.le⟩
    · exact ⟨x, x, hx, hy, le_refl _⟩
  · rintro ⟨x, y, hx, hy, h⟩
    rcases h.lt_or_eq with h | h
    · exact Or.inl ⟨x, y, hx, hy, h⟩
    · exact Or.inr ⟨x, hx, h ▸ hy⟩

example : ((Flt.fin 3).le (.inf false) = true ↔ ∃ x y, extended (.fin 3) = some x ∧ extended (.inf false) = some y ∧ x ≤ y) :=
  (C77_comparisons _ _).2.1

/-- **C77 products.** A product is NaN exactly when a factor is or zero meets an infinity; otherwise it is infinite exactly when a
factor is, has the product of the signs, and is the product of finite factors. -/
theorem C77_product (a b : Flt) :
    (a.mul b = .nan ↔ a = .nan ∨ b = .nan ∨ (a.isInf = true ∧ b = .fin 0) ∨ (a = .fin 0 ∧ b.isInf = true)) ∧
    (a.mul b ≠ .nan → ((a.mul b).isInf = true ↔ a.isInf = true ∨ b.isInf = true) ∧ signOf (a.mul b) = signOf a * signOf b) ∧
    (∀ p q, a = .fin p → b = .fin q → a.mul b = .fin (p * q)) := by
  refine ⟨?_, ?_, ?_⟩
  · rcases a with _ | n | p <;> rcases b with _ | m | q <;> simp [Flt.mul, Flt.isInf]
  · intro h
    rcases a with _ | n | p <;> rcases b with _ | m | q
    case inf.inf => cases n <;> cases m <;> simp [Flt.mul, Flt.isInf, signOf]
    case inf.fin =>
      by_cases hq : q = 0
      · simp [Flt.mul, hq] at h
      · rcases lt_or_gt_of_ne hq with hq' | hq'
        · cases n <;> simp [Flt.mul, Flt.isInf, signOf, hq, hq']
        · have : ¬ q < 0 := not_lt.2 (le_of_lt hq')
          cases n <;> simp [Flt.mul, Flt.isInf, signOf, hq, this, hq']
    case fin.inf =>
      by_cases hq : p = 0
      · simp [Flt.mul, hq] at h
      · rcases lt_or_gt_of_ne hq with hq' | hq'
        · cases m <;> simp [Flt.mul, Flt.isInf, signOf, hq, hq']
        · have : ¬ p < 0 := not_lt.2 (le_of_lt hq')
          cases m <;> simp [Flt.mul, Flt.isInf, signOf, hq, this, hq']
    case fin.fin =>
      refine ⟨by simp [Flt.mul, Flt.isInf], ?_⟩
      simp only [Flt.mul, signOf]
      rcases lt_trichotomy p 0 with hp | hp | hp <;> rcases lt_trichotomy q 0 with hq | hq | hq
      · have h1 := mul_pos_of_neg_of_neg hp hq
        simp [hp, hq, h1, not_lt.2 (le_of_lt h1)]
      · simp [hq]
      · have h1 := mul_neg_of_neg_of_pos hp hq
        simp [hp, hq, h1, not_lt.2 (le_of_lt hq)]
      · simp [hp]
      · simp [hp]
      · simp [hp]
      · have h1 := mul_neg_of_pos_of_neg hp hq
        simp [hp, hq, h1, not_lt.2 (le_of_lt hp)]
      · simp [hq]
      · have h1 := mul_pos hp hq
        simp [hp, hq, h1, not_lt.2 (le_of_lt hp), not_lt.2 (le_of_lt hq), not_lt.2 (le_of_lt h1)]
    all_goals simp [Flt.mul] at h
  · rintro p q rfl rfl; rfl

example : (Flt.inf true).mul (.fin (-2)) ≠ .nan →
    (((Flt.inf true).mul (.fin (-2))).isInf = true ↔ (Flt.inf true).isInf = true ∨ (Flt.fin (-2)).isInf = true) ∧
      signOf ((Flt.inf true).mul (.fin (-2))) = signOf (.inf true) * signOf (.fin (-2)) := (C77_product _ _).2.1

/-- **C77 sums and differences.** A sum is NaN exactly when a term is or the terms are opposite infinities; otherwise it is an
infinite term if there is one, and the sum of finite terms; `a - b` is `a` plus the opposite of `b`, which has the opposite
sign. -/
theorem C77_sum (a b : Flt) :
    (a.add b = .nan ↔ a = .nan ∨ b = .nan ∨ (a.isInf = true ∧ b.isInf = true ∧ a ≠ b)) ∧
    (a.add b ≠ .nan → (a.isInf = true → a.add b = a) ∧ (b.isInf = true → a.add b = b)) ∧
    (∀ p q, a = .fin p → b = .fin q → a.add b = .fin (p + q) ∧ a.sub b = .fin (p - q)) ∧
    signOf b.neg = - signOf b ∧ b.neg.neg = b ∧ signOf a.abs = |signOf a| := by
  refine ⟨?_, ?_, ?_, ?_, ?_, ?_⟩
  · rcases a with _ | n | p <;> rcases b with _ | m | q <;> simp [Flt.add, Flt.isInf]
  · intro h
    rcases a with _ | n | p <;> rcases b with _ | m | q <;> simp_all [Flt.add, Flt.isInf]
  · rintro p q rfl rfl; simp [Flt.add, Flt.sub, Flt.neg, sub_eq_add_neg]
  · rcases b with _ | m | q
    · rfl
    · cases m <;> rfl
    · simp only [Flt.neg, signOf]
      rcases lt_trichotomy q 0 with hq | hq | hq
      · have : ¬ 0 < q := not_lt.2 (le_of_lt hq)
        simp [hq, this]
      · simp [hq]
      · have : ¬ q < 0 := not_lt.2 (le_of_lt hq)
        simp [hq, this]
  · rcases b with _ | m | q <;> simp [Flt.neg]
  · rcases a with _ | m | q
    · rfl
    · cases m <;> rfl
    · simp only [Flt.abs, signOf]
      rcases lt_trichotomy q 0 with hq | hq | hq
      · simp [hq, hq.ne, not_lt.2 (abs_nonneg q)]
      · simp [hq]
      · simp [hq, hq.ne', not_lt.2 (abs_nonneg q), not_lt.2 (le_of_lt hq)]

example : (Flt.inf true).add (.inf false) = .nan ↔
    Flt.inf true = .nan ∨ Flt.inf false = .nan ∨ ((Flt.inf true).isInf = true ∧ (Flt.inf false).isInf = true ∧
      Flt.inf true ≠ .inf false) := (C77_sum _ _).1

end Xt
