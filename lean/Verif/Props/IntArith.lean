import Verif.Props.Stats
import Verif.Props.Accumulator
import Verif.Model.IntArith
/-!
# Integer elements: results are the mathematical ones as far as the C++ types hold them (C94)
-/

namespace Xt
open Spec

/-! ## Conversions -/

theorem pow_two_pos (n : Nat) : (0 : Int) < 2 ^ n := by positivity

theorem pow_half {n : Nat} (h : 0 < n) : (2 : Int) ^ n = 2 * 2 ^ (n - 1) := by
  obtain ⟨k, rfl⟩ : ∃ k, n = k + 1 := ⟨n - 1, by omega⟩
  rw [Nat.add_sub_cancel]
  ring

theorem emod_sub_dvd (v m : Int) : m ∣ v % m - v := ⟨-(v / m), by have := Int.mul_ediv_add_emod v m; linarith⟩

theorem IntKind.conv_dvd (t : IntKind) (v : Int) : (2 ^ t.bits : Int) ∣ t.conv v - v := by
  unfold IntKind.conv
  split
  · have := emod_sub_dvd (v + 2 ^ (t.bits - 1)) (2 ^ t.bits)
    rwa [show (v + 2 ^ (t.bits - 1)) % 2 ^ t.bits - 2 ^ (t.bits - 1) - v
      = (v + 2 ^ (t.bits - 1)) % 2 ^ t.bits - (v + 2 ^ (t.bits - 1)) by ring]
  · exact emod_sub_dvd _ _

theorem emod_eq_of_dvd_sub {v w m : Int} (h : m ∣ v - w) : v % m = w % m :=
  Int.emod_eq_emod_iff_emod_sub_eq_zero.2 (Int.emod_eq_zero_of_dvd h)

theorem IntKind.conv_eq_of_dvd {t : IntKind} {v w : Int} (h : (2 ^ t.bits : Int) ∣ v - w) : t.conv v = t.conv w := by
  unfold IntKind.conv
  split
  · rw [emod_eq_of_dvd_sub (v := v + _) (w := w + 2 ^ (t.bits - 1)) (by simpa using h)]
  · rw [emod_eq_of_dvd_sub h]

theorem IntKind.conv_of_holds {t : IntKind} (hb : 0 < t.bits) {v : Int} (h : t.holds v) : t.conv v = v := by
  unfold IntKind.holds at h
  unfold IntKind.conv
  have hp := pow_half hb
  split
  · rename_i hs
    rw [if_pos hs] at h
    rw [Int.emod_eq_of_lt (by linarith) (by linarith)]
    ring
  · rename_i hs
    rw [if_neg hs] at h
    exact Int.emod_eq_of_lt h.1 h.2

theorem IntKind.conv_holds {t : IntKind} (hb : 0 < t.bits) (v : Int) : t.holds (t.conv v) := by
  unfold IntKind.holds IntKind.conv
  have hp := pow_half hb
  have hm := pow_two_pos t.bits
  by_cases hs : t.signed
  · rw [if_pos hs, if_pos hs]
    have h1 := Int.emod_nonneg (v + 2 ^ (t.bits - 1)) hm.ne'
    have h2 := Int.emod_lt_of_pos (v + 2 ^ (t.bits - 1)) hm
    constructor <;> linarith
  · rw [if_neg hs, if_neg hs]
    exact ⟨Int.emod_nonneg _ hm.ne', Int.emod_lt_of_pos _ hm⟩

theorem IntKind.arith_of_holds {t : IntKind} {v : Int} (h : t.holds v) : t.arith v = some v := by
  unfold IntKind.arith
  by_cases hs : t.signed
  · rw [if_pos hs, if_pos h]
  · unfold IntKind.holds at h
    rw [if_neg hs] at h
    rw [if_neg hs, Int.emod_eq_of_lt h.1 h.2]

theorem IntKind.arith_dvd {t : IntKind} {v r : Int} (h : t.arith v = some r) : (2 ^ t.bits : Int) ∣ r - v := by
  unfold IntKind.arith at h
  split at h
  · split at h
    · cases h; simp
    · cases h
  · cases h
    exact emod_sub_dvd _ _

theorem IntKind.promoted_bits (t : IntKind) : 32 ≤ t.promoted.bits := by
  unfold IntKind.promoted
  split
  · exact le_refl _
  · omega

theorem IntKind.promoted_of_ge {t : IntKind} (h : 32 ≤ t.bits) : t.promoted = t := by
  unfold IntKind.promoted
  rw [if_neg (by omega)]

theorem IntKind.usual_bits (a b : IntKind) : (a.usual b).bits = max a.promoted.bits b.promoted.bits := by
  unfold IntKind.usual
  simp only
  split
  · rw [max_eq_right]; omega
  · split
    · rw [max_eq_left]; omega
    · show a.promoted.bits = _
      rw [max_eq_left]; omega

theorem IntKind.usual_ge (a b : IntKind) : 32 ≤ (a.usual b).bits := by
  rw [IntKind.usual_bits]
  have := a.promoted_bits
  omega

theorem IntKind.usual_pos (a b : IntKind) : 0 < (a.usual b).bits := by
  have := a.usual_ge b
  omega

theorem IntKind.usual_self {a : IntKind} (h : 32 ≤ a.bits) : a.usual a = a := by
  unfold IntKind.usual
  simp only [IntKind.promoted_of_ge h]
  simp

/-- The type of a reduction is that of its result combined with one more element. -/
theorem IntKind.usual_usual (a b : IntKind) : (a.usual b).usual b = a.usual b := by
  have key : ∀ r : IntKind, 32 ≤ r.bits → r.usual b = if r.bits < b.promoted.bits then b.promoted
      else if b.promoted.bits < r.bits then r else ⟨r.bits, r.signed && b.promoted.signed⟩ := by
    intro r hr
    unfold IntKind.usual
    simp only [IntKind.promoted_of_ge hr]
  have hb := a.usual_bits b
  rw [key _ (a.usual_ge b), if_neg (by omega)]
  by_cases h1 : b.promoted.bits < (a.usual b).bits
  · rw [if_pos h1]
  · rw [if_neg h1]
    unfold IntKind.usual
    simp only
    by_cases h2 : a.promoted.bits < b.promoted.bits
    · simp only [if_pos h2, Bool.and_self]
    · have h3 : ¬b.promoted.bits < a.promoted.bits := by omega
      simp only [if_neg h2, if_neg h3, Bool.and_assoc, Bool.and_self]

/-! ## Expressions -/

/-- The mathematical value of an expression at an index. -/
def Spec.exactAt (idx : List Nat) : IntTm → Int
  | .arr _ e => valueAt e idx
  | .neg a => -exactAt idx a
  | .bin .add a b => exactAt idx a + exactAt idx b
  | .bin .sub a b => exactAt idx a - exactAt idx b
  | .bin .mul a b => exactAt idx a * exactAt idx b

/-- Every operation has mathematical operands and a mathematical result in the range of its C++ type. -/
def Spec.InRange (idx : List Nat) : IntTm → Prop
  | .arr _ _ => True
  | .neg a => InRange idx a ∧ a.kind.promoted.holds (exactAt idx a) ∧ a.kind.promoted.holds (-exactAt idx a)
  | .bin op a b => InRange idx a ∧ InRange idx b ∧ (a.kind.usual b.kind).holds (exactAt idx a) ∧
      (a.kind.usual b.kind).holds (exactAt idx b) ∧ (a.kind.usual b.kind).holds (exactAt idx (.bin op a b))

/-- The operands are expressions over the shape, without generators. -/
def Spec.OperandsOn (sh : List Nat) : IntTm → Prop
  | .arr _ e => Fits sh e ∧ NoGen e
  | .neg a => OperandsOn sh a
  | .bin _ a b => OperandsOn sh a ∧ OperandsOn sh b

/-- Every operation has at least this width. -/
def Spec.OpsAtLeast (w : Nat) : IntTm → Prop
  | .arr _ _ => True
  | .neg a => OpsAtLeast w a ∧ w ≤ a.kind.promoted.bits
  | .bin _ a b => OpsAtLeast w a ∧ OpsAtLeast w b ∧ w ≤ (a.kind.usual b.kind).bits

theorem exactAt_bin (idx : List Nat) (op : IntOp) (a b : IntTm) :
    exactAt idx (.bin op a b) = op.exact (exactAt idx a) (exactAt idx b) := by
  cases op <;> rfl

/-- C94: the element of an expression over integers of any types is the mathematical one, if every operation has operands and
    result in the range of its type. -/
theorem C94_expression_exact {sh idx : List Nat} (hidx : InBounds sh idx) : ∀ {a : IntTm}, OperandsOn sh a → InRange idx a →
    a.eval idx = some (exactAt idx a)
  | .arr t e, ho, _ => by
    show some _ = some _
    exact congrArg some (C22_element_eq_value_partial sh e ho.1 ho.2 idx hidx)
  | .neg a, ho, hr => by
    show (a.eval idx).bind _ = _
    rw [C94_expression_exact hidx (a := a) ho hr.1]
    show intNeg _ _ = _
    unfold intNeg
    have := a.kind.promoted_bits
    rw [IntKind.conv_of_holds (by omega) hr.2.1, IntKind.arith_of_holds hr.2.2]
    rfl
  | .bin op a b, ho, hr => by
    obtain ⟨h1, h2, h3, h4, h5⟩ := hr
    show ((a.eval idx).bind fun x => (b.eval idx).bind fun y => _) = _
    rw [C94_expression_exact hidx (a := a) ho.1 h1, C94_expression_exact hidx (a := b) ho.2 h2]
    show intOp _ _ _ _ _ = _
    unfold intOp
    rw [exactAt_bin] at h5 ⊢
    have hp := IntKind.usual_pos a.kind b.kind
    simp only [IntKind.conv_of_holds hp h3, IntKind.conv_of_holds hp h4]
    exact IntKind.arith_of_holds h5

theorem opExact_dvd {m : Int} (op : IntOp) {x y x' y' : Int} (hx : m ∣ x' - x) (hy : m ∣ y' - y) :
    m ∣ op.exact x' y' - op.exact x y := by
  cases op
  · show m ∣ x' + y' - (x + y)
    rw [show x' + y' - (x + y) = x' - x + (y' - y) by ring]
    exact dvd_add hx hy
  · show m ∣ x' - y' - (x - y)
    rw [show x' - y' - (x - y) = x' - x - (y' - y) by ring]
    exact dvd_sub hx hy
  · show m ∣ x' * y' - x * y
    rw [show x' * y' - x * y = x' * (y' - y) + (x' - x) * y by ring]
    exact dvd_add (Dvd.dvd.mul_left hy _) (Dvd.dvd.mul_right hx _)

theorem dvd_trans_sub {m n : Int} {x y z : Int} (h1 : n ∣ m) (h : m ∣ x - y) (h' : n ∣ y - z) : n ∣ x - z := by
  rw [show x - z = x - y + (y - z) by ring]
  exact dvd_add (dvd_trans h1 h) h'

theorem eval_dvd {sh idx : List Nat} (hidx : InBounds sh idx) {w : Nat} : ∀ {a : IntTm}, OperandsOn sh a → OpsAtLeast w a →
    ∀ v, a.eval idx = some v → (2 ^ w : Int) ∣ v - exactAt idx a
  | .arr t e, ho, _, v, h => by
    cases h
    show _ ∣ e.element (toInts idx) - valueAt e idx
    rw [C22_element_eq_value_partial sh e ho.1 ho.2 idx hidx]
    simp
  | .neg a, ho, hw, v, h => by
    change (a.eval idx).bind _ = _ at h
    obtain ⟨x, hx, hv⟩ := Option.bind_eq_some_iff.1 h
    have ih := eval_dvd hidx (a := a) ho hw.1 x hx
    have hd : (2 ^ w : Int) ∣ 2 ^ a.kind.promoted.bits := pow_dvd_pow _ hw.2
    have h1 := dvd_trans_sub hd (a.kind.promoted.conv_dvd x) ih
    have h2 := IntKind.arith_dvd hv
    refine dvd_trans_sub hd h2 ?_
    show _ ∣ -_ - -_
    rw [show ∀ p q : Int, -p - -q = -(p - q) from fun p q => by ring]
    exact (dvd_neg).2 h1
  | .bin op a b, ho, hw, v, h => by
    change ((a.eval idx).bind fun x => (b.eval idx).bind fun y => _) = _ at h
    obtain ⟨x, hx, h⟩ := Option.bind_eq_some_iff.1 h
    obtain ⟨y, hy, hv⟩ := Option.bind_eq_some_iff.1 h
    have iha := eval_dvd hidx (a := a) ho.1 hw.1 x hx
    have ihb := eval_dvd hidx (a := b) ho.2 hw.2.1 y hy
    have hd : (2 ^ w : Int) ∣ 2 ^ (a.kind.usual b.kind).bits := pow_dvd_pow _ hw.2.2
    have h1 := dvd_trans_sub hd ((a.kind.usual b.kind).conv_dvd x) iha
    have h2 := dvd_trans_sub hd ((a.kind.usual b.kind).conv_dvd y) ihb
    refine dvd_trans_sub hd (IntKind.arith_dvd hv) ?_
    rw [exactAt_bin]
    exact opExact_dvd op h1 h2

/-- C94: what an assignment writes, whatever the types met on the way and whatever wrapped around, is the mathematical value
    converted to the type of the destination, as long as no operation is narrower than the destination and none is undefined. -/
theorem C94_assign_modular {sh idx : List Nat} (hidx : InBounds sh idx) {a : IntTm} (ho : OperandsOn sh a) {dest : IntKind}
    (hw : OpsAtLeast dest.bits a) {v : Int} (h : a.store dest idx = some v) : v = dest.conv (exactAt idx a) := by
  obtain ⟨x, hx, rfl⟩ := Option.map_eq_some_iff.1 h
  exact IntKind.conv_eq_of_dvd (eval_dvd hidx ho hw x hx)

theorem opsAtLeast_int {w : Nat} (hw : w ≤ 32) : ∀ a : IntTm, OpsAtLeast w a
  | .arr _ _ => trivial
  | .neg a => ⟨opsAtLeast_int hw a, le_trans hw (IntKind.promoted_bits _)⟩
  | .bin _ a b => ⟨opsAtLeast_int hw a, opsAtLeast_int hw b, le_trans hw (IntKind.usual_ge _ _)⟩

/-- C94: this holds of every expression for destinations of at most 32 bits. -/
theorem C94_assign_modular_int {sh idx : List Nat} (hidx : InBounds sh idx) {a : IntTm} (ho : OperandsOn sh a) {dest : IntKind}
    (hd : dest.bits ≤ 32) {v : Int} (h : a.store dest idx = some v) : v = dest.conv (exactAt idx a) :=
  C94_assign_modular hidx ho (opsAtLeast_int hd a) h

/-- C94: a wider destination does not help: the difference of two `unsigned` is computed in `unsigned`. -/
theorem C94_assign_wide_wrong :
    ∃ a : IntTm, OperandsOn [1] a ∧ a.store ⟨64, true⟩ [0] = some (2 ^ 32 - 1) ∧
      (⟨64, true⟩ : IntKind).conv (exactAt [0] a) = -1 :=
  ⟨.bin .sub (.arr ⟨32, false⟩ (.scalar 1)) (.arr ⟨32, false⟩ (.scalar 2)),
    ⟨⟨trivial, trivial⟩, trivial, trivial⟩, by decide, by decide⟩

/-- C94: the product of two `int16` elements can be an overflow of `int`, and that of two `uint16` elements too: undefined. -/
theorem C94_narrow_product_undefined :
    (IntTm.bin .mul (.arr ⟨16, false⟩ (.scalar 65535)) (.arr ⟨16, false⟩ (.scalar 65535))).eval [0] = none := by decide

example : OperandsOn [2] (.bin .mul (.arr ⟨8, true⟩ (.scalar (-3))) (.arr ⟨32, true⟩ (.scalar 7))) ∧
    InRange [1] (.bin .mul (.arr ⟨8, true⟩ (.scalar (-3))) (.arr ⟨32, true⟩ (.scalar 7))) ∧
    (IntTm.bin .mul (.arr ⟨8, true⟩ (.scalar (-3))) (.arr ⟨32, true⟩ (.scalar 7))).eval [1] = some (-21) :=
  ⟨⟨⟨trivial, trivial⟩, trivial, trivial⟩, ⟨trivial, trivial, by decide, by decide, by decide⟩, by decide⟩

example : (IntTm.bin .add (.arr ⟨8, false⟩ (.scalar 200)) (.arr ⟨8, false⟩ (.scalar 100))).store ⟨8, false⟩ [1] = some 44 := by
  decide

/-! ## Comparisons, division -/

/-- Both numbers are in the range of the type in which they are combined. -/
def Spec.BothIn (a b : IntKind) (x y : Int) : Prop := (a.usual b).holds x ∧ (a.usual b).holds y

instance (a b : IntKind) (x y : Int) : Decidable (BothIn a b x y) := by unfold BothIn; infer_instance

theorem pow_mono {m n : Nat} (h : m ≤ n) : (2 : Int) ^ m ≤ 2 ^ n := pow_le_pow_right₀ (by norm_num) h

theorem holds_wider {s t : IntKind} {v : Int} (hs : s.holds v) (hb : s.bits ≤ t.bits)
    (h : s.signed = t.signed ∨ (s.signed = false ∧ s.bits < t.bits) ∨ 0 ≤ v ∧ s.signed = true) : t.holds v := by
  unfold IntKind.holds at hs ⊢
  have h1 := pow_mono (show s.bits - 1 ≤ t.bits - 1 by omega)
  have h2 := pow_mono hb
  have h4 := pow_mono (show s.bits - 1 ≤ t.bits by omega)
  by_cases hsg : s.signed <;> by_cases htg : t.signed
  · rw [if_pos hsg] at hs
    rw [if_pos htg]
    constructor <;> linarith [hs.1, hs.2]
  · rw [if_pos hsg] at hs
    rw [if_neg htg]
    rcases h with h | h | h
    · rw [hsg] at h; exact absurd h.symm htg
    · rw [hsg] at h; cases h.1
    · exact ⟨h.1, by linarith [hs.2]⟩
  · rw [if_neg hsg] at hs
    rw [if_pos htg]
    rcases h with h | h | h
    · rw [htg] at h; exact absurd h hsg
    · have h3 := pow_mono (show s.bits ≤ t.bits - 1 by omega)
      have := pow_two_pos (t.bits - 1)
      exact ⟨by linarith [hs.1], by linarith [hs.2]⟩
    · exact absurd h.2 hsg
  · rw [if_neg hsg] at hs
    rw [if_neg htg]
    exact ⟨hs.1, by linarith [hs.2]⟩

theorem holds_promoted {s : IntKind} {v : Int} (hs : s.holds v) : s.promoted.holds v := by
  unfold IntKind.promoted
  split
  · rename_i h
    refine holds_wider hs (by show s.bits ≤ 32; omega) ?_
    cases hsg : s.signed
    · exact .inr (.inl ⟨rfl, h⟩)
    · exact .inl rfl
  · exact hs

/-- Elements of two signed or two unsigned types can be combined. -/
theorem bothIn_of_signed {a b : IntKind} {x y : Int} (hx : a.holds x) (hy : b.holds y) (h : a.signed = b.signed) :
    BothIn a b x y := by
  have hp := holds_promoted hx
  have hq := holds_promoted hy
  have key : ∀ {s : IntKind} {v : Int}, s.promoted.holds v → s.promoted.bits ≤ (a.usual b).bits →
      (s.promoted.signed = (a.usual b).signed ∨ (s.promoted.signed = false ∧ s.promoted.bits < (a.usual b).bits) ∨
        (0 ≤ v ∧ s.promoted.signed = true)) → (a.usual b).holds v := fun h1 h2 h3 => holds_wider h1 h2 h3
  have hub := a.usual_bits b
  have hnn : ∀ {s : IntKind} {v : Int}, s.holds v → s.signed = false → 0 ≤ v := by
    intro s v h1 h2
    unfold IntKind.holds at h1
    rw [if_neg (by simp [h2])] at h1
    exact h1.1
  have hps : ∀ s : IntKind, s.promoted.signed = s.signed ∨ (s.signed = false ∧ s.promoted.signed = true) := by
    intro s
    unfold IntKind.promoted
    split
    · cases s.signed <;> simp
    · exact .inl rfl
  have hus : (a.usual b).signed = a.promoted.signed ∧ b.promoted.bits ≤ a.promoted.bits ∨
      (a.usual b).signed = b.promoted.signed ∧ a.promoted.bits ≤ b.promoted.bits ∨
      ((a.usual b).signed = (a.promoted.signed && b.promoted.signed)) ∧ a.promoted.bits = b.promoted.bits := by
    unfold IntKind.usual
    simp only
    split
    · right; left; exact ⟨rfl, by omega⟩
    · split
      · left; exact ⟨rfl, by omega⟩
      · right; right; exact ⟨rfl, by omega⟩
  have gen : ∀ {s : IntKind} {v : Int}, s.holds v → s.promoted.bits ≤ (a.usual b).bits →
      ((a.usual b).signed = true → s.promoted.signed = true ∨ s.promoted.bits < (a.usual b).bits) →
      ((a.usual b).signed = false → s.signed = false) → (a.usual b).holds v := by
    intro s v h1 h2 h3 h4
    apply key (holds_promoted h1) h2
    cases hu : (a.usual b).signed
    · have h5 := h4 hu
      cases hq : s.promoted.signed
      · exact .inl rfl
      · exact .inr (.inr ⟨hnn h1 h5, rfl⟩)
    · rcases h3 hu with h5 | h5
      · exact .inl h5
      · cases hq : s.promoted.signed
        · exact .inr (.inl ⟨rfl, h5⟩)
        · exact .inl rfl
  have hpa := hps a
  have hpb := hps b
  have fact : ∀ s : IntKind, s.promoted.signed = false → s.promoted.bits = s.bits ∧ 32 ≤ s.bits ∧ s.signed = false := by
    intro s hs
    unfold IntKind.promoted at hs ⊢
    split at hs
    · cases hs
    · rename_i h1
      rw [if_neg h1]
      exact ⟨rfl, by omega, hs⟩
  have fact2 : ∀ s : IntKind, s.promoted.bits = 32 ∨ s.promoted.signed = s.signed := by
    intro s
    unfold IntKind.promoted
    split
    · exact .inl rfl
    · exact .inr rfl
  have usig : (a.usual b).signed = true → (a.promoted.signed = true ∨ a.promoted.bits < (a.usual b).bits) ∧
      (b.promoted.signed = true ∨ b.promoted.bits < (a.usual b).bits) := by
    intro hu
    unfold IntKind.usual at hu ⊢
    simp only at hu ⊢
    split at hu
    · rename_i h1
      rw [if_pos h1]
      exact ⟨.inr h1, .inl hu⟩
    · rename_i h1
      split at hu
      · rename_i h2
        rw [if_neg h1, if_pos h2]
        exact ⟨.inl hu, .inr h2⟩
      · rw [Bool.and_eq_true] at hu
        exact ⟨.inl hu.1, .inl hu.2⟩
  have uuns : (a.usual b).signed = false → a.signed = false ∧ b.signed = false := by
    intro hu
    have : a.promoted.signed = false ∨ b.promoted.signed = false := by
      unfold IntKind.usual at hu
      simp only at hu
      split at hu
      · exact .inr hu
      · split at hu
        · exact .inl hu
        · rw [Bool.and_eq_false_iff] at hu
          exact hu
    rcases this with h1 | h1
    · have := (fact a h1).2.2
      exact ⟨this, by rw [← h]; exact this⟩
    · have := (fact b h1).2.2
      exact ⟨by rw [h]; exact this, this⟩
  exact ⟨gen hx (by omega) (fun hu => (usig hu).1) fun hu => (uuns hu).1,
    gen hy (by omega) (fun hu => (usig hu).2) fun hu => (uuns hu).2⟩

theorem usual_comm (a b : IntKind) : a.usual b = b.usual a := by
  unfold IntKind.usual
  simp only
  by_cases h1 : a.promoted.bits < b.promoted.bits
  · rw [if_pos h1, if_neg (by omega), if_pos h1]
  · by_cases h2 : b.promoted.bits < a.promoted.bits
    · rw [if_neg h1, if_pos h2, if_pos h2]
    · rw [if_neg h1, if_neg h2, if_neg h2, if_neg h1, Bool.and_comm, show a.promoted.bits = b.promoted.bits by omega]

/-- C94: elements of two types compare as numbers when the common type holds both; so they do when both types are signed or
    both unsigned. -/
theorem C94_compare {a b : IntKind} {x y : Int} (h : BothIn a b x y) :
    intLt a b x y = decide (x < y) ∧ intLe a b x y = decide (x ≤ y) ∧ intEq a b x y = decide (x = y) := by
  have hp := IntKind.usual_pos a b
  unfold intLt intLe intEq
  rw [IntKind.conv_of_holds hp h.1, IntKind.conv_of_holds hp h.2]
  exact ⟨rfl, rfl, rfl⟩

theorem C94_compare_signed {a b : IntKind} {x y : Int} (hx : a.holds x) (hy : b.holds y) (h : a.signed = b.signed) :
    intLt a b x y = decide (x < y) ∧ intLe a b x y = decide (x ≤ y) ∧ intEq a b x y = decide (x = y) :=
  C94_compare (bothIn_of_signed hx hy h)

/-- C94: an `int` and an `unsigned` do not: -1 is not less than 1, and is equal to 2^32 - 1. -/
theorem C94_compare_wrong :
    (⟨32, true⟩ : IntKind).holds (-1) ∧ (⟨32, false⟩ : IntKind).holds 1 ∧
      intLt ⟨32, true⟩ ⟨32, false⟩ (-1) 1 = false ∧ intEq ⟨32, true⟩ ⟨32, false⟩ (-1) (2 ^ 32 - 1) = true := by decide

theorem common_holds {a b : IntKind} {x y : Int} (ha : 0 < a.bits) (hx : a.holds x) (hy : b.holds y) (h : BothIn a b x y) :
    (a.common b).conv x = x ∧ (a.common b).conv y = y := by
  unfold IntKind.common
  split
  · rename_i he
    subst he
    exact ⟨IntKind.conv_of_holds ha hx, IntKind.conv_of_holds ha hy⟩
  · have hp := IntKind.usual_pos a b
    exact ⟨IntKind.conv_of_holds hp h.1, IntKind.conv_of_holds hp h.2⟩

/-- C94: `minimum` and `maximum` of elements of two signed or two unsigned types. -/
theorem C94_minmax {a b : IntKind} {x y : Int} (ha : 0 < a.bits) (hx : a.holds x) (hy : b.holds y) (h : a.signed = b.signed) :
    intMin a b x y = min x y ∧ intMax a b x y = max x y := by
  have hb := bothIn_of_signed hx hy h
  have hc := common_holds ha hx hy hb
  have h1 := (C94_compare hb).1
  have h2 := (C94_compare (bothIn_of_signed hy hx h.symm)).1
  unfold intMin intMax
  rw [h1, h2]
  simp only [decide_eq_true_eq]
  constructor
  · split
    · rw [hc.1, min_eq_left (by omega)]
    · rw [hc.2, min_eq_right (by omega)]
  · split
    · rw [hc.1, max_eq_left (by omega)]
    · rw [hc.2, max_eq_right (by omega)]

theorem C94_minimum_wrong : intMin ⟨32, true⟩ ⟨32, false⟩ (-1) 1 = 1 ∧ intMax ⟨32, true⟩ ⟨32, false⟩ (-1) 1 = 2 ^ 32 - 1 := by
  decide

/-- C94: `clip` of elements and bounds of one type. -/
theorem C94_clip {a : IntKind} {v lo hi : Int} (ha : 0 < a.bits) (hv : a.holds v) (hl : a.holds lo) (hh : a.holds hi)
    (h : lo ≤ hi) : intClip a a a v lo hi = max lo (min v hi) := by
  have h1 := (C94_compare_signed hh hv rfl).1
  have h2 := (C94_compare_signed hv hl rfl).1
  have hc : a.common a = a := if_pos rfl
  unfold intClip
  simp only [h1, h2, decide_eq_true_eq, hc]
  have hcv := IntKind.conv_of_holds ha hv
  have hcl := IntKind.conv_of_holds ha hl
  have hch := IntKind.conv_of_holds ha hh
  by_cases hx : v < lo
  · rw [if_pos hx, hcl, min_eq_left (by omega), max_eq_left (by omega)]
  · rw [if_neg hx]
    by_cases hy : hi < v
    · rw [if_pos hy, hch, hch, min_eq_right (by omega), max_eq_right h]
    · rw [if_neg hy, hcv, hcv, min_eq_left (by omega), max_eq_right (by omega)]

/-- C94: with `unsigned` bounds a negative element is clipped to the upper one. -/
theorem C94_clip_wrong : intClip ⟨32, true⟩ ⟨32, false⟩ ⟨32, false⟩ (-5) 0 10 = 10 := by decide

example : BothIn ⟨8, true⟩ ⟨64, true⟩ (-3) (2 ^ 40) ∧ intLt ⟨8, true⟩ ⟨64, true⟩ (-3) (2 ^ 40) = true := by decide

/-- C94: the quotient is the one rounded towards 0 and the remainder has the sign of the dividend; both are undefined for a
    divisor 0, and when the quotient is out of range. -/
theorem C94_division {a b : IntKind} {x y : Int} (h : BothIn a b x y) (hy : y ≠ 0) :
    ((a.usual b).holds (x.tdiv y) → ∃ q r, intDiv a b x y = some q ∧ intMod a b x y = some r ∧ x = q * y + r ∧ |r| < |y| ∧
      0 ≤ r * x ∧ 0 ≤ (x - r) * x) ∧
    (¬(a.usual b).holds (x.tdiv y) → intDiv a b x y = none ∧ intMod a b x y = none) := by
  have hp := IntKind.usual_pos a b
  unfold intDiv intMod
  simp only [IntKind.conv_of_holds hp h.1, IntKind.conv_of_holds hp h.2, if_neg hy]
  constructor
  · intro hd
    refine ⟨x.tdiv y, x.tmod y, IntKind.arith_of_holds hd, by rw [IntKind.arith_of_holds hd]; rfl, ?_, ?_, ?_, ?_⟩
    · have := Int.tdiv_mul_add_tmod x y
      exact this.symm
    · rw [Int.abs_eq_natAbs, Int.abs_eq_natAbs, Int.natAbs_tmod]
      exact_mod_cast Nat.mod_lt _ (Int.natAbs_pos.2 hy)
    · rcases le_total 0 x with h0 | h0
      · exact mul_nonneg (Int.tmod_nonneg _ h0) h0
      · have : x.tmod y ≤ 0 := by
          have := Int.tmod_nonneg y (a := -x) (by omega)
          rw [Int.neg_tmod] at this
          omega
        nlinarith
    · have hx : x - x.tmod y = x.tdiv y * y := by have := Int.tdiv_mul_add_tmod x y; linarith
      rcases le_total 0 x with h0 | h0
      · have : x.tmod y ≤ x := by
          have h1 : (x.tmod y).natAbs ≤ x.natAbs := by rw [Int.natAbs_tmod]; exact Nat.mod_le _ _
          omega
        exact mul_nonneg (by omega) h0
      · have : x ≤ x.tmod y := by
          have h1 : (x.tmod y).natAbs ≤ x.natAbs := by rw [Int.natAbs_tmod]; exact Nat.mod_le _ _
          omega
        nlinarith
  · intro hd
    have hs : (a.usual b).signed = true := by
      by_contra hs
      apply hd
      obtain ⟨h1, h2⟩ := h
      unfold IntKind.holds at h1 h2 ⊢
      rw [if_neg hs] at h1 h2 ⊢
      have h3 : (x.tdiv y).natAbs ≤ x.natAbs := by rw [Int.natAbs_tdiv]; exact Nat.div_le_self _ _
      have h4 := Int.tdiv_nonneg h1.1 h2.1
      exact ⟨h4, by omega⟩
    unfold IntKind.arith
    rw [if_pos hs, if_neg hd]
    exact ⟨rfl, rfl⟩

theorem C94_division_by_zero (a b : IntKind) (x : Int) : intDiv a b x 0 = none ∧ intMod a b x 0 = none := by
  have : (a.usual b).conv 0 = 0 := by
    apply IntKind.conv_of_holds (IntKind.usual_pos a b)
    unfold IntKind.holds
    have := pow_two_pos ((a.usual b).bits - 1)
    have := pow_two_pos (a.usual b).bits
    split <;> constructor <;> linarith
  unfold intDiv intMod
  exact ⟨if_pos this, if_pos this⟩

example : BothIn ⟨16, true⟩ ⟨32, true⟩ (-7) 2 ∧ intDiv ⟨16, true⟩ ⟨32, true⟩ (-7) 2 = some (-3) ∧
    intMod ⟨16, true⟩ ⟨32, true⟩ (-7) 2 = some (-1) ∧ intDiv ⟨32, true⟩ ⟨32, true⟩ (-2 ^ 31) (-1) = none := by decide

/-- C94: a negative dividend and an `unsigned` divisor: `-7 / 2u` is 2147483644. -/
theorem C94_division_wrong : intDiv ⟨32, true⟩ ⟨32, false⟩ (-7) 2 = some 2147483644 := by decide

/-! ## Types of expressions -/

/-- The types of the arrays in an expression. -/
def Spec.operandKinds : IntTm → List IntKind
  | .arr t _ => [t]
  | .neg a => operandKinds a
  | .bin _ a b => operandKinds a ++ operandKinds b

theorem IntKind.usual_signed (a b : IntKind) : (a.usual b).signed = true ↔
    (a.promoted.bits = (a.usual b).bits → a.promoted.signed = true) ∧
      (b.promoted.bits = (a.usual b).bits → b.promoted.signed = true) := by
  rw [IntKind.usual_bits]
  unfold IntKind.usual
  simp only
  split
  · rename_i h
    rw [max_eq_right h.le]
    exact ⟨fun hs => ⟨fun he => absurd he (by omega), fun _ => hs⟩, fun hs => hs.2 rfl⟩
  · split
    · rename_i h
      rw [max_eq_left h.le]
      exact ⟨fun hs => ⟨fun _ => hs, fun he => absurd he (by omega)⟩, fun hs => hs.1 rfl⟩
    · have : a.promoted.bits = b.promoted.bits := by omega
      simp [this]

theorem foldr_maxBits_ge : ∀ (l : List Nat), 32 ≤ l.foldr max 32
  | [] => le_refl _
  | x :: l => by
    have := foldr_maxBits_ge l
    simp only [List.foldr_cons]
    omega

theorem foldr_maxBits_append (l m : List Nat) : (l ++ m).foldr max 32 = max (l.foldr max 32) (m.foldr max 32) := by
  induction l with
  | nil => exact (max_eq_right (foldr_maxBits_ge m)).symm
  | cons x l ih => rw [List.cons_append, List.foldr_cons, ih, List.foldr_cons, max_assoc]

theorem le_foldr_maxBits {x : Nat} : ∀ {l : List Nat}, x ∈ l → x ≤ l.foldr max 32
  | [], h => absurd h List.not_mem_nil
  | y :: l, h => by
    rcases List.mem_cons.1 h with rfl | h
    · exact le_max_left _ _
    · exact (le_foldr_maxBits h).trans (le_max_right _ _)

theorem IntTm.promoted_kind : ∀ (a : IntTm),
    a.kind.promoted.bits = ((operandKinds a).map IntKind.bits).foldr max 32 ∧
      (a.kind.promoted.signed = true ↔ ∀ t ∈ operandKinds a, t.bits = a.kind.promoted.bits → t.signed = true)
  | .arr t _ => by
    unfold IntTm.kind IntKind.promoted operandKinds
    by_cases h : t.bits < 32
    · rw [if_pos h]
      simp only [List.map_cons, List.map_nil, List.foldr_cons, List.foldr_nil, List.mem_singleton, forall_eq, true_iff]
      exact ⟨by omega, fun he => absurd he (by omega)⟩
    · rw [if_neg h]
      simp only [List.map_cons, List.map_nil, List.foldr_cons, List.foldr_nil, List.mem_singleton, forall_eq]
      exact ⟨by omega, by simp⟩
  | .neg a => by
    have ih := IntTm.promoted_kind a
    have : (IntTm.neg a).kind.promoted = a.kind.promoted := IntKind.promoted_of_ge a.kind.promoted_bits
    rw [this]
    exact ih
  | .bin _ a b => by
    obtain ⟨ia, sa⟩ := IntTm.promoted_kind a
    obtain ⟨ib, sb⟩ := IntTm.promoted_kind b
    have hk : (IntTm.bin ‹_› a b).kind.promoted = a.kind.usual b.kind := IntKind.promoted_of_ge (IntKind.usual_ge _ _)
    rw [hk]
    have hb := IntKind.usual_bits a.kind b.kind
    refine ⟨?_, ?_⟩
    · rw [hb, ia, ib, operandKinds, List.map_append, foldr_maxBits_append]
    · rw [IntKind.usual_signed, operandKinds]
      have key : ∀ (c : IntTm), c.kind.promoted.bits = ((operandKinds c).map IntKind.bits).foldr max 32 →
          (c.kind.promoted.signed = true ↔ ∀ t ∈ operandKinds c, t.bits = c.kind.promoted.bits → t.signed = true) →
          c.kind.promoted.bits ≤ (a.kind.usual b.kind).bits →
          ((c.kind.promoted.bits = (a.kind.usual b.kind).bits → c.kind.promoted.signed = true) ↔
            ∀ t ∈ operandKinds c, t.bits = (a.kind.usual b.kind).bits → t.signed = true) := by
        intro c ic sc hle
        rcases hle.lt_or_eq with hlt | heq
        · refine ⟨fun _ t ht he => ?_, fun _ he => absurd he hlt.ne⟩
          have := le_foldr_maxBits (List.mem_map_of_mem (f := IntKind.bits) ht)
          omega
        · rw [← heq]
          exact ⟨fun h => sc.1 (h rfl), fun h _ => sc.2 h⟩
      rw [key a ia sa (by rw [hb]; exact le_max_left _ _), key b ib sb (by rw [hb]; exact le_max_right _ _)]
      simp only [List.mem_append]
      exact ⟨fun h t ht => ht.elim (h.1 t) (h.2 t), fun h => ⟨fun t ht => h t (.inl ht), fun t ht => h t (.inr ht)⟩⟩

/-- C94: the type of the elements of an expression with at least one operation: as wide as the widest operand, at least `int`,
    and signed unless an operand of that width is unsigned. -/
theorem C94_type (a : IntTm) (h : ∀ t e, a ≠ .arr t e) :
    a.kind.bits = ((operandKinds a).map IntKind.bits).foldr max 32 ∧
      (a.kind.signed = true ↔ ∀ t ∈ operandKinds a, t.bits = a.kind.bits → t.signed = true) := by
  have hp : a.kind.promoted = a.kind := by
    cases a with
    | arr t e => exact absurd rfl (h t e)
    | neg a => exact IntKind.promoted_of_ge a.kind.promoted_bits
    | bin _ a b => exact IntKind.promoted_of_ge (IntKind.usual_ge _ _)
  have := IntTm.promoted_kind a
  rwa [hp] at this

example (e : Ex Int) : (IntTm.neg (.arr ⟨8, false⟩ e)).kind = ⟨32, true⟩ ∧
    (IntTm.bin .add (.arr ⟨64, true⟩ e) (.neg (.arr ⟨32, false⟩ e))).kind = ⟨64, true⟩ ∧
    (IntTm.bin .mul (.arr ⟨32, true⟩ e) (.arr ⟨32, false⟩ e)).kind = ⟨32, false⟩ := ⟨rfl, rfl, rfl⟩

end Xt
