import Mathlib.Data.List.Induction
import Verif.Model.Stepper
import Verif.Lemmas.Index
import Verif.Props.Indexing
/-!
# Mixed-radix counting with `stepper_tools`
-/

namespace Xt
open Spec

/-! ### Ranks along a list of axes, fastest first -/

/-- Rank of `idx` when the axes of the list vary, the first one fastest. -/
def oRank (sh : List Nat) : List Nat → List Nat → Nat
  | [], _ => 0
  | a :: as, idx => idx.getD a 0 + sh.getD a 0 * oRank sh as idx

/-- Product of the extents of the listed axes. -/
def oNum (sh : List Nat) : List Nat → Nat
  | [] => 1
  | a :: as => sh.getD a 0 * oNum sh as

theorem getD_set_self {l : List Nat} {a v : Nat} (h : a < l.length) : (l.set a v).getD a 0 = v := by
  simp [List.getD_eq_getElem?_getD, h]

theorem getD_set_ne {l : List Nat} {a b v : Nat} (h : a ≠ b) :
    (l.set a v).getD b 0 = l.getD b 0 := by
  simp [List.getD_eq_getElem?_getD, List.getElem?_set_ne h]

theorem oRank_set {sh : List Nat} {as idx : List Nat} {a v : Nat} (h : a ∉ as) :
    oRank sh as (idx.set a v) = oRank sh as idx := by
  induction as with
  | nil => rfl
  | cons b as ih =>
    have hb : a ≠ b := fun e => h (by simp [e])
    have := ih (fun h' => h (by simp [h']))
    simp only [oRank, this, getD_set_ne hb]

theorem oRank_congr {sh : List Nat} {as i j : List Nat} (h : ∀ b ∈ as, i.getD b 0 = j.getD b 0) :
    oRank sh as i = oRank sh as j := by
  induction as with
  | nil => rfl
  | cons b as ih =>
    simp only [oRank, h b (by simp), ih fun c hc => h c (by simp [hc])]

theorem oRank_append (sh a b idx : List Nat) :
    oRank sh (a ++ b) idx = oRank sh a idx + oNum sh a * oRank sh b idx := by
  induction a with
  | nil => simp [oRank, oNum]
  | cons x a ih => simp only [List.cons_append, oRank, oNum, ih]; ring

theorem oNum_append (sh a b : List Nat) : oNum sh (a ++ b) = oNum sh a * oNum sh b := by
  induction a with
  | nil => simp [oNum]
  | cons x a ih => simp only [List.cons_append, oNum, ih]; ring

theorem oRank_lt {sh as idx : List Nat} (h : ∀ a ∈ as, idx.getD a 0 < sh.getD a 0) :
    oRank sh as idx < oNum sh as := by
  induction as with
  | nil => simp [oRank, oNum]
  | cons a as ih =>
    have h1 := h a (by simp)
    have h2 := ih fun b hb => h b (by simp [hb])
    simp only [oRank, oNum]
    calc _ < sh.getD a 0 + sh.getD a 0 * oRank sh as idx := by omega
      _ = sh.getD a 0 * (oRank sh as idx + 1) := by ring
      _ ≤ _ := Nat.mul_le_mul_left _ h2

theorem oRank_zero {sh as idx : List Nat} (h : ∀ a ∈ as, idx.getD a 0 = 0) :
    oRank sh as idx = 0 := by
  induction as with
  | nil => rfl
  | cons a as ih =>
    simp only [oRank, h a (by simp), ih fun b hb => h b (by simp [hb])]; rfl

theorem oRank_max {sh as idx : List Nat} (h : ∀ a ∈ as, idx.getD a 0 + 1 = sh.getD a 0) :
    oRank sh as idx + 1 = oNum sh as := by
  induction as with
  | nil => rfl
  | cons a as ih =>
    have h1 := h a (by simp)
    have h2 := ih fun b hb => h b (by simp [hb])
    simp only [oRank, oNum, ← h2, ← h1]; ring

theorem oRank_range_col (pre sh idx : List Nat) (pidx : List Nat) (hp : pidx.length = pre.length)
    (hl : idx.length = sh.length) :
    oRank (pre ++ sh) ((List.range sh.length).map (pre.length + ·)) (pidx ++ idx) = colRank sh idx := by
  induction sh generalizing pre pidx idx with
  | nil => cases idx <;> simp_all [oRank, colRank]
  | cons s sh ih =>
    cases idx with
    | nil => simp at hl
    | cons i idx =>
      have := ih (pre ++ [s]) idx (pidx ++ [i]) (by simp [hp]) (by simpa using hl)
      simp only [List.length_cons, List.range_succ_eq_map, List.map_cons, oRank, colRank,
        List.map_map]
      simp only [List.append_assoc, List.cons_append, List.nil_append, List.length_append,
        List.length_cons, List.length_nil] at this
      rw [← this]
      congr 1
      · simp [List.getD_eq_getElem?_getD, hp]
      · congr 1
        · simp [List.getD_eq_getElem?_getD]
        · congr 1
          apply List.map_congr_left
          intro k _
          simp only [Function.comp]; omega

theorem oRank_col {sh idx : List Nat} (hl : idx.length = sh.length) :
    oRank sh (List.range sh.length) idx = colRank sh idx := by
  have := oRank_range_col [] sh idx [] rfl hl
  simpa using this

theorem oRank_row {sh idx : List Nat} (hl : idx.length = sh.length) :
    oRank sh (List.range sh.length).reverse idx = rowRank sh idx := by
  -- by induction on the last axis
  induction sh using List.reverseRecOn generalizing idx with
  | nil => cases idx <;> simp_all [oRank, rowRank]
  | append_singleton sh s ih =>
    rcases List.eq_nil_or_concat idx with rfl | ⟨idx, i, rfl⟩
    · simp at hl
    · simp only [List.concat_eq_append] at hl ⊢
      have hl' : idx.length = sh.length := by simpa using hl
      rw [rowRank_append hl', ← ih hl']
      simp only [List.length_append, List.length_cons, List.length_nil, List.range_succ,
        List.reverse_append, List.reverse_cons, List.reverse_nil, List.nil_append,
        List.cons_append, oRank, rowRank, numel]
      have e1 : (idx ++ [i]).getD sh.length 0 = i := by
        simp [List.getD_eq_getElem?_getD, hl']
      have e2 : (sh ++ [s]).getD sh.length 0 = s := by simp [List.getD_eq_getElem?_getD]
      have e3 : oRank (sh ++ [s]) (List.range sh.length).reverse (idx ++ [i]) =
          oRank sh (List.range sh.length).reverse idx := by
        have key : ∀ as : List Nat, (∀ a ∈ as, a < sh.length) →
            oRank (sh ++ [s]) as (idx ++ [i]) = oRank sh as idx := by
          intro as has
          induction as with
          | nil => rfl
          | cons a as ih2 =>
            have ha := has a (by simp)
            simp only [oRank, ih2 fun b hb => has b (by simp [hb])]
            congr 1
            · simp [List.getD_eq_getElem?_getD, List.getElem?_append_left, hl', ha]
            · congr 1
              simp [List.getD_eq_getElem?_getD, List.getElem?_append_left, ha]
        exact key _ (by simp)
      rw [e1, e2, e3]; ring

theorem oNum_col (sh : List Nat) : oNum sh (List.range sh.length) = numel sh := by
  have key : ∀ pre sh : List Nat, oNum (pre ++ sh) ((List.range sh.length).map (pre.length + ·)) =
      numel sh := by
    intro pre sh
    induction sh generalizing pre with
    | nil => rfl
    | cons s sh ih =>
      have := ih (pre ++ [s])
      simp only [List.length_cons, List.range_succ_eq_map, List.map_cons, oNum, numel, List.map_map]
      simp only [List.append_assoc, List.cons_append, List.nil_append, List.length_append,
        List.length_cons, List.length_nil] at this
      rw [← this]
      congr 1
      · simp [List.getD_eq_getElem?_getD]
      · congr 1
        apply List.map_congr_left
        intro k _
        simp only [Function.comp]; omega
  simpa using key [] sh

theorem oNum_perm {sh a b : List Nat} (h : a.Perm b) : oNum sh a = oNum sh b := by
  induction h with
  | nil => rfl
  | cons x _ ih => simp only [oNum, ih]
  | swap x y l => simp only [oNum]; ring
  | trans _ _ h1 h2 => rw [h1, h2]

theorem axisOrder_nodup (L : Layout) (n : Nat) : (axisOrder L n).Nodup := by
  unfold axisOrder
  split
  · exact List.nodup_reverse.2 List.nodup_range
  · exact List.nodup_range

theorem mem_axisOrder {L : Layout} {n a : Nat} : a ∈ axisOrder L n ↔ a < n := by
  unfold axisOrder
  split <;> simp

theorem length_axisOrder (L : Layout) (n : Nat) : (axisOrder L n).length = n := by
  unfold axisOrder
  split <;> simp

theorem axisOrder_perm (L : Layout) (n : Nat) : (axisOrder L n).Perm (List.range n) := by
  unfold axisOrder
  split
  · exact List.reverse_perm _
  · exact List.Perm.refl _

theorem oNum_axisOrder (L : Layout) (sh : List Nat) : oNum sh (axisOrder L sh.length) = numel sh := by
  rw [oNum_perm (axisOrder_perm L _), oNum_col]

theorem oRank_axisOrder {L : Layout} (hL : L = .row_major ∨ L = .column_major) {sh idx : List Nat}
    (hl : idx.length = sh.length) :
    oRank sh (axisOrder L sh.length) idx = rankIn L sh idx := by
  rcases hL with rfl | rfl
  · simp only [axisOrder, if_true, rankIn]; exact oRank_row hl
  · simp only [axisOrder, rankIn]; exact oRank_col hl

theorem head_axisOrder {L : Layout} {n : Nat} (h : 0 < n) :
    (axisOrder L n).head? = some (leadAxis L n) := by
  obtain ⟨m, rfl⟩ : ∃ m, n = m + 1 := ⟨n - 1, by omega⟩
  unfold axisOrder leadAxis
  split
  · simp [List.range_succ]
  · simp [List.range_succ_eq_map]

theorem leadAxis_lt {L : Layout} {n : Nat} (h : 0 < n) : leadAxis L n < n := by
  unfold leadAxis; split <;> omega

theorem rankIn_inj {L : Layout} {sh i j : List Nat} (hi : InBounds sh i) (hj : InBounds sh j)
    (h : rankIn L sh i = rankIn L sh j) : i = j := by
  cases L <;> first | exact rowRank_inj hi hj h | exact colRank_inj hi hj h

theorem rankIn_lt {L : Layout} {sh i : List Nat} (hi : InBounds sh i) : rankIn L sh i < numel sh := by
  cases L <;> first | exact rowRank_lt hi | exact colRank_lt hi

theorem rankIn_surj (L : Layout) {sh : List Nat} {p : Nat} (h : p < numel sh) :
    ∃ idx, InBounds sh idx ∧ rankIn L sh idx = p := by
  cases L <;> first | exact rowRank_surj h | exact colRank_surj h

/-! ### Laws of a stepper -/

/-- `R st idx`: the stepper state `st` stands at position `idx` of the shape `sh`. -/
structure FwdLaw {σ : Type u} (ops : StepOps σ) (sh : List Nat) (R : σ → List Nat → Prop) : Prop where
  step : ∀ st idx a (n : Int), R st idx → InBounds sh idx → a < sh.length →
    0 ≤ (idx.getD a 0 : Int) + n → (idx.getD a 0 : Int) + n < sh.getD a 0 →
    R (ops.step st a n) (idx.set a ((idx.getD a 0 : Int) + n).toNat)
  reset : ∀ st idx a, R st idx → InBounds sh idx → a < sh.length →
    idx.getD a 0 + 1 = sh.getD a 0 → R (ops.reset st a) (idx.set a 0)

/-- Laws for moving backwards; `E` describes the past-the-end states for the order `L`. -/
structure BackLaw {σ : Type u} (ops : StepOps σ) (sh : List Nat) (L : Layout)
    (R : σ → List Nat → Prop) (E : σ → Prop) : Prop where
  stepBack : ∀ st idx a (n : Int), R st idx → InBounds sh idx → a < sh.length →
    0 ≤ (idx.getD a 0 : Int) - n → (idx.getD a 0 : Int) - n < sh.getD a 0 →
    R (ops.stepBack st a n) (idx.set a ((idx.getD a 0 : Int) - n).toNat)
  resetBack : ∀ st idx a, R st idx → InBounds sh idx → a < sh.length →
    idx.getD a 0 = 0 → R (ops.resetBack st a) (idx.set a (sh.getD a 0 - 1))
  toEnd : ∀ st idx, R st idx → InBounds sh idx → E (ops.toEnd st L)
  endBack : ∀ (st : σ) (n : Nat), E st → 0 < numel sh → 0 < sh.length → 1 ≤ n →
    n ≤ sh.getD (leadAxis L sh.length) 0 →
    R (ops.stepBack st (leadAxis L sh.length) n)
      ((sh.map (· - 1)).set (leadAxis L sh.length) (sh.getD (leadAxis L sh.length) 0 - n))
  endBegin : ∀ st, E st → sh = [] → R (ops.toBegin st) []

section
variable {σ : Type u} {ops : StepOps σ} {sh : List Nat} {R : σ → List Nat → Prop}

theorem inBounds_set {sh idx : List Nat} {a v : Nat} (h : InBounds sh idx) (hv : v < sh.getD a 0) :
    InBounds sh (idx.set a v) := by
  rw [inBounds_iff_get] at h ⊢
  refine ⟨by simpa using h.1, fun k hk => ?_⟩
  by_cases e : a = k
  · subst e
    rw [getD_set_self (by rw [h.1]; exact hk)]; exact hv
  · rw [getD_set_ne e]; exact h.2 k hk

theorem Spec.InBounds.getD_lt {sh idx : List Nat} (h : InBounds sh idx) {a : Nat} (ha : a < sh.length) :
    idx.getD a 0 < sh.getD a 0 := (inBounds_iff_get.1 h).2 a ha

/-- One increment along the listed axes. -/
theorem incLoop_spec (hF : FwdLaw ops sh R) :
    ∀ (as : List Nat) (st : σ) (idx : List Nat), as.Nodup → (∀ a ∈ as, a < sh.length) →
      InBounds sh idx → R st idx →
      ((incLoop ops sh as st idx).2.2 = false ∧
        R (incLoop ops sh as st idx).1 (incLoop ops sh as st idx).2.1 ∧
        InBounds sh (incLoop ops sh as st idx).2.1 ∧
        oRank sh as (incLoop ops sh as st idx).2.1 = oRank sh as idx + 1 ∧
        ∀ b, b ∉ as → (incLoop ops sh as st idx).2.1.getD b 0 = idx.getD b 0) ∨
      ((incLoop ops sh as st idx).2.2 = true ∧ oRank sh as idx + 1 = oNum sh as ∧
        ∃ j, InBounds sh j ∧ R (incLoop ops sh as st idx).1 j) := by
  intro as
  induction as with
  | nil => intro st idx _ _ hb hR; exact Or.inr ⟨rfl, rfl, idx, hb, hR⟩
  | cons a as ih =>
    intro st idx hn hlt hb hR
    have ha := hlt a (by simp)
    have hlen := hb.length_eq
    have hn' := List.nodup_cons.1 hn
    have hia := hb.getD_lt ha
    unfold incLoop
    by_cases hc : idx.getD a 0 + 1 ≠ sh.getD a 0
    · rw [if_pos hc]
      left
      have hv : idx.getD a 0 + 1 < sh.getD a 0 := by omega
      have hs := hF.step st idx a 1 hR hb ha (by omega) (by omega)
      rw [show ((idx.getD a 0 : Int) + 1).toNat = idx.getD a 0 + 1 by omega] at hs
      refine ⟨rfl, hs, inBounds_set hb hv, ?_, fun b hb' => ?_⟩
      · simp only [oRank, oRank_set hn'.1]
        rw [getD_set_self (by omega)]; omega
      · have : a ≠ b := fun e => hb' (by simp [e])
        exact getD_set_ne this
    · rw [if_neg hc]
      have hc : idx.getD a 0 + 1 = sh.getD a 0 := by omega
      by_cases hn2 : as = []
      · subst hn2
        right
        refine ⟨rfl, ?_, idx, hb, by simpa [incLoop] using hR⟩
        simp only [oRank, oNum]; omega
      · rw [if_pos hn2]
        have hr := hF.reset st idx a hR hb ha hc
        have hb2 : InBounds sh (idx.set a 0) := inBounds_set hb (by omega)
        rcases ih _ _ hn'.2 (fun b h => hlt b (by simp [h])) hb2 hr with
          ⟨h1, h2, h3, h4, h5⟩ | ⟨h1, h2, h3⟩
        · left
          refine ⟨h1, h2, h3, ?_, fun b hb' => ?_⟩
          · have e := h5 a hn'.1
            rw [getD_set_self (by omega)] at e
            simp only [oRank, e, h4, oRank_set hn'.1, ← hc]; ring
          · rw [h5 b fun h => hb' (by simp [h]), getD_set_ne fun e => hb' (by simp [e])]
        · right
          refine ⟨h1, ?_, h3⟩
          rw [oRank_set hn'.1] at h2
          simp only [oRank, oNum, ← h2, ← hc]; ring

/-- One decrement along the listed axes. -/
theorem decLoop_spec {L : Layout} {E : σ → Prop} (hB : BackLaw ops sh L R E) :
    ∀ (as : List Nat) (st : σ) (idx : List Nat), as.Nodup → (∀ a ∈ as, a < sh.length) →
      InBounds sh idx → R st idx → 0 < oRank sh as idx →
      ((decLoop ops sh as st idx).2.2 = false ∧
        R (decLoop ops sh as st idx).1 (decLoop ops sh as st idx).2.1 ∧
        InBounds sh (decLoop ops sh as st idx).2.1 ∧
        oRank sh as (decLoop ops sh as st idx).2.1 + 1 = oRank sh as idx ∧
        ∀ b, b ∉ as → (decLoop ops sh as st idx).2.1.getD b 0 = idx.getD b 0) := by
  intro as
  induction as with
  | nil => intro st idx _ _ hb hR h0; simp [oRank] at h0
  | cons a as ih =>
    intro st idx hn hlt hb hR h0
    have ha := hlt a (by simp)
    have hlen := hb.length_eq
    have hn' := List.nodup_cons.1 hn
    have hia := hb.getD_lt ha
    unfold decLoop
    by_cases hc : idx.getD a 0 ≠ 0
    · rw [if_pos hc]
      have hv : idx.getD a 0 - 1 < sh.getD a 0 := by omega
      have hs := hB.stepBack st idx a 1 hR hb ha (by omega) (by omega)
      rw [show ((idx.getD a 0 : Int) - 1).toNat = idx.getD a 0 - 1 by omega] at hs
      refine ⟨rfl, hs, inBounds_set hb hv, ?_, fun b hb' => ?_⟩
      · simp only [oRank, oRank_set hn'.1]
        rw [getD_set_self (by omega)]; omega
      · have : a ≠ b := fun e => hb' (by simp [e])
        exact getD_set_ne this
    · rw [if_neg hc]
      have hc : idx.getD a 0 = 0 := by omega
      simp only [oRank, hc, Nat.zero_add] at h0
      have h0' : 0 < oRank sh as idx := Nat.pos_of_mul_pos_left h0
      have hn2 : as ≠ [] := by rintro rfl; simp [oRank] at h0'
      rw [if_pos hn2]
      have hr := hB.resetBack st idx a hR hb ha hc
      have hb2 : InBounds sh (idx.set a (sh.getD a 0 - 1)) := inBounds_set hb (by omega)
      obtain ⟨h1, h2, h3, h4, h5⟩ := ih _ _ hn'.2 (fun b h => hlt b (by simp [h])) hb2 hr
        (by rw [oRank_set hn'.1]; exact h0')
      refine ⟨h1, h2, h3, ?_, fun b hb' => ?_⟩
      · have e := h5 a hn'.1
        rw [getD_set_self (by omega)] at e
        rw [oRank_set hn'.1] at h4
        simp only [oRank, e, hc, ← h4]
        obtain ⟨m, hm⟩ : ∃ m, sh.getD a 0 = m + 1 := ⟨sh.getD a 0 - 1, by omega⟩
        rw [hm]; simp only [Nat.add_sub_cancel]; ring
      · rw [h5 b fun h => hb' (by simp [h]), getD_set_ne fun e => hb' (by simp [e])]

/-! ### Moving by `n` -/

theorem inBounds_zeros {sh idx : List Nat} (h : InBounds sh idx) :
    InBounds sh (List.replicate sh.length 0) := by
  rw [inBounds_iff_get] at h ⊢
  refine ⟨by simp, fun k hk => ?_⟩
  have := h.2 k hk
  simp only [List.getD_eq_getElem?_getD, List.getElem?_replicate, hk, if_true]
  simp only [List.getD_eq_getElem?_getD] at this
  simp only [Option.getD_some]
  omega

/-- The loop of `increment_stepper(n)`: with target `T`, it stops at the index of rank `T`, or with
part of `n` left when `T` is past the last index. -/
theorem incNLoop_spec (hF : FwdLaw ops sh R) (order : List Nat) (hnd : order.Nodup)
    (hlt : ∀ a ∈ order, a < sh.length) (T : Nat) :
    ∀ (fuel : Nat) (pre rem : List Nat) (n : Nat) (st : σ) (idx : List Nat),
      order = pre ++ rem → n * (order.length + 1) + rem.length < fuel → InBounds sh idx →
      (rem = order ∨ n ≠ 0) →
      (∀ a ∈ pre, idx.getD a 0 = 0) →
      T + 1 = oRank sh order idx + n + oNum sh pre →
      ((rem ≠ [] ∨ order = []) → R st idx) → (∃ j, InBounds sh j ∧ R st j) →
      ((incNLoop ops sh order fuel rem n st idx).2.2 = 0 ∧
        R (incNLoop ops sh order fuel rem n st idx).1 (incNLoop ops sh order fuel rem n st idx).2.1 ∧
        InBounds sh (incNLoop ops sh order fuel rem n st idx).2.1 ∧
        oRank sh order (incNLoop ops sh order fuel rem n st idx).2.1 = T ∧
        ∀ b, b ∉ order → (incNLoop ops sh order fuel rem n st idx).2.1.getD b 0 = idx.getD b 0) ∨
      ((incNLoop ops sh order fuel rem n st idx).2.2 ≠ 0 ∧ oNum sh order ≤ T ∧
        ∃ j, InBounds sh j ∧ R (incNLoop ops sh order fuel rem n st idx).1 j) := by
  intro fuel
  induction fuel with
  | zero => intro pre rem n st idx _ h; omega
  | succ fuel ih =>
    intro pre rem n st idx hord hf hb hrem hz hT hR hex
    have hlen := hb.length_eq
    cases rem with
    | nil =>
      simp only [incNLoop]
      simp only [List.append_nil] at hord
      subst hord
      by_cases hn : n = 0
      · subst hn
        rcases hrem with h | h
        · -- order = []
          subst h
          left
          refine ⟨rfl, hR (Or.inr rfl), hb, ?_, fun _ _ => by trivial⟩
          simp only [oRank, oNum] at hT ⊢; omega
        · exact absurd rfl h
      · right
        refine ⟨hn, ?_, hex⟩
        rw [oRank_zero hz] at hT
        omega
    | cons a as =>
      have hR := hR (Or.inl (by simp))
      have haord : a ∈ order := by rw [hord]; simp
      have ha := hlt a haord
      have hia := hb.getD_lt ha
      have hpos : 0 < order.length := List.length_pos_of_mem haord
      simp only [incNLoop]
      by_cases hn : n = 0
      · rw [if_pos hn]
        left
        refine ⟨hn, hR, hb, ?_, fun _ _ => rfl⟩
        rcases hrem with h | h
        · have : pre = [] := by
            have h2 := congrArg List.length h
            have := congrArg List.length hord
            simp only [List.length_append] at this
            exact List.eq_nil_of_length_eq_zero (by omega)
          subst this
          simp only [oNum] at hT
          simp only; omega
        · exact absurd hn h
      · rw [if_neg hn]
        have hnd' : (pre ++ a :: as).Nodup := hord ▸ hnd
        have hnda : a ∉ as := (List.nodup_cons.1 (List.nodup_append.1 hnd').2.1).1
        have hndp : a ∉ pre := fun h =>
          (List.nodup_append.1 hnd').2.2 a h a (by simp) rfl
        have hlead : order.head? = some a ↔ pre = [] := by
          rw [hord]
          cases pre with
          | nil => simp
          | cons b pre =>
            simp only [List.cons_append, List.head?_cons, Option.some.injEq, reduceCtorEq, iff_false]
            exact fun e => hndp (by simp [e])
        have hrank : ∀ j : List Nat, oRank sh order j = oRank sh pre j +
            oNum sh pre * (j.getD a 0 + sh.getD a 0 * oRank sh as j) := by
          intro j; rw [hord, oRank_append]; rfl
        have hzp : oRank sh pre idx = 0 := oRank_zero hz
        by_cases hp : pre = []
        · -- leading axis
          subst hp
          have hl := hlead.2 rfl
          simp only [hl, if_true]
          simp only [oRank, oNum, Nat.one_mul, Nat.zero_add] at hrank
          simp only [oNum] at hT
          by_cases hc : idx.getD a 0 + n < sh.getD a 0
          · rw [if_pos hc]
            have hs := hF.step st idx a n hR hb ha (by omega) (by omega)
            rw [show ((idx.getD a 0 : Int) + (n : Int)).toNat = idx.getD a 0 + n by omega] at hs
            have hb' := inBounds_set hb hc (sh := sh)
            rw [Nat.sub_self]
            -- with nothing left the loop stops
            have stop : ∀ (rem : List Nat) (st : σ) (j : List Nat),
                incNLoop ops sh order fuel rem 0 st j = (st, j, 0) := by
              intro rem st j
              cases fuel <;> cases rem <;> simp [incNLoop]
            rw [stop]
            left
            refine ⟨rfl, hs, hb', ?_, fun b hb' => getD_set_ne fun e => hb' (by rw [← e]; exact haord)⟩
            rw [hrank]
            rw [hrank] at hT
            rw [getD_set_self (by omega), oRank_set hnda]; omega
          · rw [if_neg hc]
            have hs := hF.step st idx a ((sh.getD a 0 - idx.getD a 0 - 1 : Nat) : Int) hR hb ha
              (by omega) (by omega)
            rw [show ((idx.getD a 0 : Int) + ((sh.getD a 0 - idx.getD a 0 - 1 : Nat) : Int)).toNat
              = sh.getD a 0 - 1 by omega] at hs
            have hb1 : InBounds sh (idx.set a (sh.getD a 0 - 1)) := inBounds_set hb (by omega)
            have hb2 : InBounds sh (idx.set a 0) := inBounds_set hb (by omega)
            have hset : (idx.set a (sh.getD a 0 - 1)).set a 0 = idx.set a 0 := by simp
            have hr := hF.reset _ _ a hs hb1 ha (by rw [getD_set_self (by omega)]; omega)
            rw [hset] at hr
            have := ih [a] as (n - (sh.getD a 0 - idx.getD a 0 - 1))
              (if as ≠ [] then ops.reset (ops.step st a ((sh.getD a 0 - idx.getD a 0 - 1 : Nat) : Int)) a
                else ops.step st a ((sh.getD a 0 - idx.getD a 0 - 1 : Nat) : Int))
              (idx.set a 0) (by simpa using hord) ?_ hb2 (Or.inr (by omega)) ?_ ?_ ?_ ?_
            · rcases this with ⟨h1, h2, h3, h4, h5⟩ | h
              · exact Or.inl ⟨h1, h2, h3, h4, fun b hb' => by
                  rw [h5 b hb', getD_set_ne fun e => hb' (by rw [← e]; exact haord)]⟩
              · exact Or.inr h
            · simp only [List.length_cons] at hf
              have : (n - (sh.getD a 0 - idx.getD a 0 - 1)) * (order.length + 1) ≤
                n * (order.length + 1) := Nat.mul_le_mul_right _ (by omega)
              omega
            · intro b hb'
              simp only [List.mem_singleton] at hb'
              subst hb'
              exact getD_set_self (by omega)
            · rw [hrank] at hT ⊢
              rw [getD_set_self (by omega), oRank_set hnda]
              simp only [oNum, Nat.mul_one]; omega
            · intro hne
              by_cases has : as = []
              · subst has
                rcases hne with h | h
                · exact absurd rfl h
                · simp [hord] at h
              · rw [if_pos has]; exact hr
            · by_cases has : as = []
              · simp only [has, ne_eq, not_true_eq_false, if_false]
                exact ⟨_, hb1, hs⟩
              · rw [if_pos has]; exact ⟨_, hb2, hr⟩
        · have hl : ¬ order.head? = some a := fun h => hp (hlead.1 h)
          simp only [hl, if_false, not_false_eq_true, true_or, if_true]
          by_cases hc : idx.getD a 0 + 1 < sh.getD a 0
          · rw [if_pos hc]
            have hs := hF.step st idx a ((1 : Nat) : Int) hR hb ha (by omega) (by omega)
            rw [show ((idx.getD a 0 : Int) + ((1 : Nat) : Int)).toNat = idx.getD a 0 + 1 by omega] at hs
            have hb' := inBounds_set hb hc (sh := sh)
            have := ih [] order (n - 1) (ops.step st a ((1 : Nat) : Int)) (idx.set a (idx.getD a 0 + 1)) rfl ?_ hb'
              (Or.inl rfl) (by simp) ?_ (fun _ => hs) ⟨_, hb', hs⟩
            · rcases this with ⟨h1, h2, h3, h4, h5⟩ | h
              · exact Or.inl ⟨h1, h2, h3, h4, fun b hb' => by
                  rw [h5 b hb', getD_set_ne fun e => hb' (by rw [← e]; exact haord)]⟩
              · exact Or.inr h
            · obtain ⟨m, rfl⟩ : ∃ m, n = m + 1 := ⟨n - 1, by omega⟩
              simp only [Nat.add_sub_cancel, List.length_cons] at hf ⊢
              rw [Nat.add_mul] at hf
              omega
            · rw [hrank, hzp] at hT
              rw [hrank, oRank_set hndp, hzp, getD_set_self (by omega), oRank_set hnda]
              simp only [oNum]
              rw [show idx.getD a 0 + 1 + sh.getD a 0 * oRank sh as idx =
                (idx.getD a 0 + sh.getD a 0 * oRank sh as idx) + 1 by omega, Nat.mul_add]
              omega
          · rw [if_neg hc]
            have hc : idx.getD a 0 + 1 = sh.getD a 0 := by omega
            have hb2 : InBounds sh (idx.set a 0) := inBounds_set hb (by omega)
            have hr := hF.reset _ _ a hR hb ha hc
            have := ih (pre ++ [a]) as n (if as ≠ [] then ops.reset st a else st) (idx.set a 0)
              (by simpa using hord) ?_ hb2 (Or.inr hn) ?_ ?_ ?_ ?_
            · rcases this with ⟨h1, h2, h3, h4, h5⟩ | h
              · exact Or.inl ⟨h1, h2, h3, h4, fun b hb' => by
                  rw [h5 b hb', getD_set_ne fun e => hb' (by rw [← e]; exact haord)]⟩
              · exact Or.inr h
            · simp only [List.length_cons] at hf; omega
            · intro b hb'
              simp only [List.mem_append, List.mem_singleton] at hb'
              rcases hb' with hb' | hb'
              · rw [getD_set_ne fun e => hndp (by rw [e]; exact hb')]; exact hz b hb'
              · subst hb'; exact getD_set_self (by omega)
            · rw [hrank, hzp] at hT
              rw [hrank, oRank_set hndp, hzp, getD_set_self (by omega), oRank_set hnda, oNum_append]
              simp only [oNum, ← hc]
              rw [← hc] at hT
              rw [hT]; ring
            · intro hne
              by_cases has : as = []
              · subst has
                rcases hne with h | h
                · exact absurd rfl h
                · simp [hord] at h
              · rw [if_pos has]; exact hr
            · by_cases has : as = []
              · simp only [has, ne_eq, not_true_eq_false, if_false]
                exact ⟨_, hb, hR⟩
              · rw [if_pos has]; exact ⟨_, hb2, hr⟩

/-- With nothing left to do the loop stops. -/
theorem decNLoop_zero (order : List Nat) (fuel : Nat) (rem : List Nat) (st : σ) (j : List Nat) :
    decNLoop ops sh order fuel rem 0 st j = (st, j, 0) := by
  cases fuel <;> cases rem <;> simp [decNLoop]

theorem incNLoop_zero (order : List Nat) (fuel : Nat) (rem : List Nat) (st : σ) (j : List Nat) :
    incNLoop ops sh order fuel rem 0 st j = (st, j, 0) := by
  cases fuel <;> cases rem <;> simp [incNLoop]

/-- The loop of `decrement_stepper(n)` reaches the index of rank `T`. -/
theorem decNLoop_spec {L : Layout} {E : σ → Prop} (hB : BackLaw ops sh L R E) (order : List Nat)
    (hnd : order.Nodup) (hlt : ∀ a ∈ order, a < sh.length) (T : Nat) :
    ∀ (fuel : Nat) (pre rem : List Nat) (n : Nat) (st : σ) (idx : List Nat),
      order = pre ++ rem → n * (order.length + 1) + rem.length < fuel → InBounds sh idx →
      (rem = order ∨ n ≠ 0) →
      (∀ a ∈ pre, idx.getD a 0 + 1 = sh.getD a 0) →
      oRank sh order idx + 1 = T + n + oNum sh pre →
      ((rem ≠ [] ∨ order = []) → R st idx) →
      ((decNLoop ops sh order fuel rem n st idx).2.2 = 0 ∧
        R (decNLoop ops sh order fuel rem n st idx).1 (decNLoop ops sh order fuel rem n st idx).2.1 ∧
        InBounds sh (decNLoop ops sh order fuel rem n st idx).2.1 ∧
        oRank sh order (decNLoop ops sh order fuel rem n st idx).2.1 = T ∧
        ∀ b, b ∉ order → (decNLoop ops sh order fuel rem n st idx).2.1.getD b 0 = idx.getD b 0) := by
  intro fuel
  induction fuel with
  | zero => intro pre rem n st idx _ h; omega
  | succ fuel ih =>
    intro pre rem n st idx hord hf hb hrem hz hT hR
    have hlen := hb.length_eq
    cases rem with
    | nil =>
      simp only [decNLoop]
      simp only [List.append_nil] at hord
      subst hord
      by_cases hn : n = 0
      · subst hn
        rcases hrem with h | h
        · subst h
          refine ⟨rfl, hR (Or.inr rfl), hb, ?_, fun _ _ => by trivial⟩
          simp only [oRank, oNum] at hT ⊢; omega
        · exact absurd rfl h
      · exfalso
        have := oRank_max hz
        omega
    | cons a as =>
      have hR := hR (Or.inl (by simp))
      have haord : a ∈ order := by rw [hord]; simp
      have ha := hlt a haord
      have hia := hb.getD_lt ha
      have hpos : 0 < order.length := List.length_pos_of_mem haord
      simp only [decNLoop]
      by_cases hn : n = 0
      · rw [if_pos hn]
        refine ⟨hn, hR, hb, ?_, fun _ _ => rfl⟩
        rcases hrem with h | h
        · have : pre = [] := by
            have h2 := congrArg List.length h
            have := congrArg List.length hord
            simp only [List.length_append] at this
            exact List.eq_nil_of_length_eq_zero (by omega)
          subst this
          simp only [oNum] at hT
          simp only; omega
        · exact absurd hn h
      · rw [if_neg hn]
        have hnd' : (pre ++ a :: as).Nodup := hord ▸ hnd
        have hnda : a ∉ as := (List.nodup_cons.1 (List.nodup_append.1 hnd').2.1).1
        have hndp : a ∉ pre := fun h =>
          (List.nodup_append.1 hnd').2.2 a h a (by simp) rfl
        have hlead : order.head? = some a ↔ pre = [] := by
          rw [hord]
          cases pre with
          | nil => simp
          | cons b pre =>
            simp only [List.cons_append, List.head?_cons, Option.some.injEq, reduceCtorEq, iff_false]
            exact fun e => hndp (by simp [e])
        have hrank : ∀ j : List Nat, oRank sh order j = oRank sh pre j +
            oNum sh pre * (j.getD a 0 + sh.getD a 0 * oRank sh as j) := by
          intro j; rw [hord, oRank_append]; rfl
        have hzp : oRank sh pre idx + 1 = oNum sh pre := oRank_max hz
        by_cases hp : pre = []
        · subst hp
          have hl := hlead.2 rfl
          simp only [hl, if_true]
          simp only [oRank, oNum, Nat.one_mul, Nat.zero_add] at hrank
          simp only [oNum] at hT
          by_cases hc : idx.getD a 0 ≥ n
          · rw [if_pos hc]
            have hs := hB.stepBack st idx a n hR hb ha (by omega) (by omega)
            rw [show ((idx.getD a 0 : Int) - (n : Int)).toNat = idx.getD a 0 - n by omega] at hs
            have hb' : InBounds sh (idx.set a (idx.getD a 0 - n)) := inBounds_set hb (by omega)
            rw [Nat.sub_self, decNLoop_zero]
            refine ⟨rfl, hs, hb', ?_, fun b hb' => getD_set_ne fun e => hb' (by rw [← e]; exact haord)⟩
            rw [hrank]
            rw [hrank] at hT
            rw [getD_set_self (by omega), oRank_set hnda]; omega
          · rw [if_neg hc]
            have hs := hB.stepBack st idx a (idx.getD a 0 : Int) hR hb ha (by omega) (by omega)
            rw [show ((idx.getD a 0 : Int) - (idx.getD a 0 : Int)).toNat = 0 by omega] at hs
            have hb1 : InBounds sh (idx.set a 0) := inBounds_set hb (by omega)
            have hb2 : InBounds sh (idx.set a (sh.getD a 0 - 1)) := inBounds_set hb (by omega)
            have hr := hB.resetBack _ _ a hs hb1 ha (getD_set_self (by omega))
            rw [List.set_set] at hr
            have hrank0 := hrank
            have := ih [a] as (n - idx.getD a 0)
              (if as ≠ [] then ops.resetBack (ops.stepBack st a (idx.getD a 0 : Int)) a
                else ops.stepBack st a (idx.getD a 0 : Int))
              (idx.set a (sh.getD a 0 - 1)) (by simpa using hord) ?_ hb2 (Or.inr (by omega)) ?_ ?_ ?_
            · obtain ⟨h1, h2, h3, h4, h5⟩ := this
              exact ⟨h1, h2, h3, h4, fun b hb' => by
                  rw [h5 b hb', getD_set_ne fun e => hb' (by rw [← e]; exact haord)]⟩
            · simp only [List.length_cons] at hf
              have : (n - idx.getD a 0) * (order.length + 1) ≤
                n * (order.length + 1) := Nat.mul_le_mul_right _ (by omega)
              omega
            · intro b hb'
              simp only [List.mem_singleton] at hb'
              subst hb'
              rw [getD_set_self (by omega)]; omega
            · rw [hrank] at hT ⊢
              rw [getD_set_self (by omega), oRank_set hnda]
              simp only [oNum, Nat.mul_one]; omega
            · intro hne
              by_cases has : as = []
              · subst has
                rcases hne with h | h
                · exact absurd rfl h
                · simp [hord] at h
              · rw [if_pos has]; exact hr
        · have hl : ¬ order.head? = some a := fun h => hp (hlead.1 h)
          simp only [hl, if_false, not_false_eq_true, true_or, if_true]
          by_cases hc : idx.getD a 0 ≥ 1
          · rw [if_pos hc]
            have hs := hB.stepBack st idx a ((1 : Nat) : Int) hR hb ha (by omega) (by omega)
            rw [show ((idx.getD a 0 : Int) - ((1 : Nat) : Int)).toNat = idx.getD a 0 - 1 by omega] at hs
            have hb' : InBounds sh (idx.set a (idx.getD a 0 - 1)) := inBounds_set hb (by omega)
            have := ih [] order (n - 1) (ops.stepBack st a ((1 : Nat) : Int))
              (idx.set a (idx.getD a 0 - 1)) rfl ?_ hb' (Or.inl rfl) (by simp) ?_ (fun _ => hs)
            · obtain ⟨h1, h2, h3, h4, h5⟩ := this
              exact ⟨h1, h2, h3, h4, fun b hb' => by
                  rw [h5 b hb', getD_set_ne fun e => hb' (by rw [← e]; exact haord)]⟩
            · obtain ⟨m, rfl⟩ : ∃ m, n = m + 1 := ⟨n - 1, by omega⟩
              simp only [Nat.add_sub_cancel, List.length_cons] at hf ⊢
              rw [Nat.add_mul] at hf
              omega
            · rw [hrank] at hT
              rw [hrank, oRank_set hndp, getD_set_self (by omega), oRank_set hnda]
              simp only [oNum]
              obtain ⟨m, hm⟩ : ∃ m, idx.getD a 0 = m + 1 := ⟨idx.getD a 0 - 1, by omega⟩
              rw [hm] at hT ⊢
              rw [Nat.add_sub_cancel]
              rw [show m + 1 + sh.getD a 0 * oRank sh as idx =
                (m + sh.getD a 0 * oRank sh as idx) + 1 by omega, Nat.mul_add] at hT
              omega
          · rw [if_neg hc]
            have hc : idx.getD a 0 = 0 := by omega
            have hb2 : InBounds sh (idx.set a (sh.getD a 0 - 1)) := inBounds_set hb (by omega)
            have hr := hB.resetBack _ _ a hR hb ha hc
            have := ih (pre ++ [a]) as n (if as ≠ [] then ops.resetBack st a else st)
              (idx.set a (sh.getD a 0 - 1)) (by simpa using hord) ?_ hb2 (Or.inr hn) ?_ ?_ ?_
            · obtain ⟨h1, h2, h3, h4, h5⟩ := this
              exact ⟨h1, h2, h3, h4, fun b hb' => by
                  rw [h5 b hb', getD_set_ne fun e => hb' (by rw [← e]; exact haord)]⟩
            · simp only [List.length_cons] at hf; omega
            · intro b hb'
              simp only [List.mem_append, List.mem_singleton] at hb'
              rcases hb' with hb' | hb'
              · rw [getD_set_ne fun e => hndp (by rw [e]; exact hb')]; exact hz b hb'
              · subst hb'; rw [getD_set_self (by omega)]; omega
            · rw [hrank] at hT
              rw [hrank, oRank_set hndp, getD_set_self (by omega), oRank_set hnda, oNum_append]
              simp only [oNum]
              obtain ⟨m, hm⟩ : ∃ m, sh.getD a 0 = m + 1 := ⟨sh.getD a 0 - 1, by omega⟩
              rw [hc] at hT
              rw [hm] at hT ⊢
              rw [Nat.add_sub_cancel, Nat.mul_one]
              calc _ = (oRank sh pre idx + oNum sh pre * (0 + (m + 1) * oRank sh as idx) + 1) +
                    oNum sh pre * m := by ring
                _ = _ := by rw [hT]; ring
            · intro hne
              by_cases has : as = []
              · subst has
                rcases hne with h | h
                · exact absurd rfl h
                · simp [hord] at h
              · rw [if_pos has]; exact hr

end

end Xt
