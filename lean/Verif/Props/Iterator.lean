import Verif.Model.Expr
import Verif.Spec.Expr
import Verif.Lemmas.Stepper
import Verif.Lemmas.Strides
/-!
# Iteration (C22, C23)
-/

namespace Xt
open Spec

/-- All indices of a shape in the order of the given traversal. -/
def Spec.orderIndices : Layout → List Nat → List (List Nat)
  | .column_major, sh => colIndices sh
  | _, sh => rowIndices sh

theorem map_rankIn_orderIndices (L : Layout) (sh : List Nat) :
    (orderIndices L sh).map (rankIn L sh) = List.range (numel sh) := by
  cases L <;> first | exact map_rowRank_rowIndices sh | exact map_colRank_colIndices sh

theorem mem_orderIndices {L : Layout} {sh idx : List Nat} :
    idx ∈ orderIndices L sh ↔ InBounds sh idx := by
  cases L <;> first | exact mem_rowIndices | exact mem_colIndices

theorem length_orderIndices (L : Layout) (sh : List Nat) :
    (orderIndices L sh).length = numel sh := by
  cases L <;> first | exact length_rowIndices sh | exact length_colIndices sh

theorem rankIn_orderIndices {L : Layout} {sh : List Nat} {k : Nat} {idx : List Nat}
    (h : (orderIndices L sh)[k]? = some idx) : InBounds sh idx ∧ rankIn L sh idx = k := by
  have hm := mem_orderIndices.1 (List.mem_of_getElem? h)
  refine ⟨hm, ?_⟩
  have h2 := congrArg (fun l => l[k]?) (map_rankIn_orderIndices L sh)
  simp only [List.getElem?_map, h, Option.map_some] at h2
  have := (List.getElem?_eq_some_iff.1 h2.symm)
  obtain ⟨h3, h4⟩ := this
  simpa using h4.symm

/-! ### Positions of an iterator -/

section
variable {σ : Type u} {ops : StepOps σ} {sh : List Nat} {R : σ → List Nat → Prop} {L : Layout}
  {E : σ → Prop}

/-- The iterator stands at the element of rank `p`, or past the end. -/
def IterAt (L : Layout) (sh : List Nat) (R : σ → List Nat → Prop) (E : σ → Prop) (it : XIter σ)
    (p : Nat) : Prop :=
  it.linear = p ∧
  ((InBounds sh it.index ∧ rankIn L sh it.index = p ∧ R it.st it.index) ∨
    (p = numel sh ∧ it.index = endIndex L sh ∧ E it.st))

theorem IterAt.inner {it : XIter σ} {p : Nat} (h : IterAt L sh R E it p) (hp : p < numel sh) :
    InBounds sh it.index ∧ rankIn L sh it.index = p ∧ R it.st it.index := by
  rcases h.2 with h | h
  · exact h
  · omega

theorem IterAt.atEnd {it : XIter σ} (h : IterAt L sh R E it (numel sh)) :
    it.index = endIndex L sh ∧ E it.st := by
  rcases h.2 with h | h
  · have := rankIn_lt (L := L) h.1; omega
  · exact h.2

theorem IterAt.inc (hL : L = .row_major ∨ L = .column_major) (hF : FwdLaw ops sh R)
    (hE : ∀ st idx, R st idx → InBounds sh idx → E (ops.toEnd st L))
    {it : XIter σ} {p : Nat} (h : IterAt L sh R E it p) (hp : p < numel sh) :
    IterAt L sh R E (it.inc ops L sh) (p + 1) := by
  obtain ⟨hb, hr, hR⟩ := h.inner hp
  have hlen := hb.length_eq
  have hs := incLoop_spec hF (axisOrder L sh.length) it.st it.index (axisOrder_nodup _ _)
    (fun a ha => mem_axisOrder.1 ha) hb hR
  refine ⟨by simp [XIter.inc, h.1], ?_⟩
  simp only [XIter.inc, incStepper, hlen]
  rcases hs with ⟨h1, h2, h3, h4, _⟩ | ⟨h1, h2, j, hj, hj'⟩
  · left
    simp only [h1, Bool.false_eq_true, if_false]
    refine ⟨h3, ?_, h2⟩
    rw [oRank_axisOrder hL h3.length_eq, oRank_axisOrder hL hlen] at h4
    omega
  · right
    rw [if_pos h1]
    rw [oRank_axisOrder hL hlen, oNum_axisOrder] at h2
    exact ⟨by omega, rfl, hE _ j hj' hj⟩

theorem IterAt.add (hL : L = .row_major ∨ L = .column_major) (hF : FwdLaw ops sh R)
    (hE : ∀ st idx, R st idx → InBounds sh idx → E (ops.toEnd st L))
    {it : XIter σ} {p n : Nat} (h : IterAt L sh R E it p) (hp : p + n ≤ numel sh) :
    IterAt L sh R E (it.add ops L sh n) (p + n) := by
  by_cases hn : n = 0
  · subst hn
    have : it.add ops L sh ((0 : Nat) : Int) = it := by
      simp only [XIter.add, incStepperN]
      simp only [Int.natCast_zero, ge_iff_le, Int.le_refl, if_true, Int.toNat_zero, incNLoop_zero]
      simp
    rw [this]; exact h
  obtain ⟨hb, hr, hR⟩ := h.inner (by omega)
  have hlen := hb.length_eq
  refine ⟨by simp [XIter.add, h.1], ?_⟩
  have hs := incNLoop_spec hF (axisOrder L sh.length) (axisOrder_nodup _ _)
    (fun a ha => mem_axisOrder.1 ha) (p + n) ((n + 1) * ((axisOrder L sh.length).length + 1)) []
    (axisOrder L sh.length) n it.st it.index rfl
    (by rw [Nat.add_mul]; omega) hb (Or.inl rfl) (by simp)
    (by rw [oRank_axisOrder hL hlen]; simp only [oNum]; omega) (fun _ => hR) ⟨_, hb, hR⟩
  have hpos : (0 : Int) ≤ (n : Int) := by omega
  simp only [XIter.add, ge_iff_le, hpos, if_true, Int.toNat_natCast, incStepperN, hlen]
  rcases hs with ⟨h1, h2, h3, h4, _⟩ | ⟨h1, h2, j, hj, hj'⟩
  · left
    simp only [h1, ne_eq, not_true_eq_false, if_false]
    rw [oRank_axisOrder hL h3.length_eq] at h4
    exact ⟨h3, h4, h2⟩
  · right
    rw [if_pos h1]
    rw [oNum_axisOrder] at h2
    exact ⟨by omega, rfl, hE _ j hj' hj⟩

/-- Last index of a shape. -/
theorem inBounds_last {sh : List Nat} (h : 0 < numel sh) : InBounds sh (sh.map (· - 1)) := by
  rw [inBounds_iff_get]
  refine ⟨by simp, fun k hk => ?_⟩
  have : 0 ∉ sh := (numel_pos_iff sh).1 h
  have h1 : sh[k] ≠ 0 := fun e => this (e ▸ List.getElem_mem hk)
  simp only [List.getD_eq_getElem?_getD, List.getElem?_map, List.getElem?_eq_getElem hk,
    Option.map_some, Option.getD_some]
  omega

theorem getD_last {sh : List Nat} (a : Nat) : (sh.map (· - 1)).getD a 0 = sh.getD a 0 - 1 := by
  simp only [List.getD_eq_getElem?_getD, List.getElem?_map]
  cases sh[a]? <;> simp

/-- Rank of the last index with another value on the leading axis. -/
theorem oRank_last_set (h : 0 < numel sh) (hpos : 0 < sh.length) {v : Nat} :
    oRank sh (axisOrder L sh.length) ((sh.map (· - 1)).set (leadAxis L sh.length) v) +
      sh.getD (leadAxis L sh.length) 0 = numel sh + v := by
  have hh := head_axisOrder (L := L) hpos
  have hll : leadAxis L sh.length < sh.length := leadAxis_lt hpos
  have hb := inBounds_last h
  have hnd := axisOrder_nodup L sh.length
  have hnum := oNum_axisOrder L sh
  have hmem : ∀ a ∈ axisOrder L sh.length, a < sh.length := fun a ha => mem_axisOrder.1 ha
  generalize axisOrder L sh.length = order at *
  cases order with
  | nil => simp at hh
  | cons a as =>
    simp only [List.head?_cons, Option.some.injEq] at hh
    subst hh
    have hnd := List.nodup_cons.1 hnd
    simp only [oRank, oRank_set hnd.1]
    rw [getD_set_self (by simpa using hll)]
    have hm : oRank sh as (sh.map (· - 1)) + 1 = oNum sh as := by
      apply oRank_max
      intro b hb'
      have h1 := hb.getD_lt (hmem b (by simp [hb']))
      rw [getD_last] at h1 ⊢; omega
    rw [← hnum]
    simp only [oNum, ← hm]
    ring

theorem getD_endIndex_lead (hpos : 0 < sh.length) :
    (endIndex L sh).getD (leadAxis L sh.length) 0 = sh.getD (leadAxis L sh.length) 0 := by
  unfold endIndex
  rw [getD_set_self (by simpa using leadAxis_lt hpos)]

theorem axisOrder_cons (hpos : 0 < sh.length) :
    ∃ as, axisOrder L sh.length = leadAxis L sh.length :: as := by
  have hh := head_axisOrder (L := L) hpos
  cases h : axisOrder L sh.length with
  | nil => simp [h] at hh
  | cons a as =>
    simp only [h, List.head?_cons, Option.some.injEq] at hh
    exact ⟨as, by rw [hh]⟩

theorem lead_pos (h : 0 < numel sh) (hpos : 0 < sh.length) :
    0 < sh.getD (leadAxis L sh.length) 0 := by
  have h1 := (inBounds_last h).getD_lt (leadAxis_lt (L := L) hpos)
  omega

theorem IterAt.dec (hL : L = .row_major ∨ L = .column_major) (hB : BackLaw ops sh L R E)
    {it : XIter σ} {p : Nat} (h : IterAt L sh R E it (p + 1)) (hp : p < numel sh) :
    IterAt L sh R E (it.dec ops L sh) p := by
  refine ⟨by simp [XIter.dec, h.1], Or.inl ?_⟩
  rcases h.2 with ⟨hb, hr, hR⟩ | ⟨he, hi, hE⟩
  · have hlen := hb.length_eq
    obtain ⟨h1, h2, h3, h4, _⟩ := decLoop_spec hB (axisOrder L sh.length) it.st it.index
      (axisOrder_nodup _ _) (fun a ha => mem_axisOrder.1 ha) hb hR
      (by rw [oRank_axisOrder hL hlen]; omega)
    simp only [XIter.dec, decStepper, hlen, h1, Bool.false_eq_true, if_false]
    rw [oRank_axisOrder hL h3.length_eq, oRank_axisOrder hL hlen] at h4
    exact ⟨h3, by omega, h2⟩
  · by_cases hpos : 0 < sh.length
    · obtain ⟨as, has⟩ := axisOrder_cons (L := L) hpos
      have hl0 := lead_pos (L := L) (by omega) hpos
      have hlen : it.index.length = sh.length := by rw [hi]; simp [endIndex]
      simp only [XIter.dec, decStepper, hlen]
      have hg := getD_endIndex_lead (L := L) hpos
      rw [has]
      simp only [decLoop, hi, hg]
      have : sh.getD (leadAxis L sh.length) 0 ≠ 0 := by omega
      simp only [ne_eq, this, not_false_eq_true, if_true, Bool.false_eq_true, if_false]
      have hs := hB.endBack it.st 1 hE (by omega) hpos (by omega) hl0
      have e : (endIndex L sh).set (leadAxis L sh.length) (sh.getD (leadAxis L sh.length) 0 - 1) =
          (sh.map (· - 1)).set (leadAxis L sh.length) (sh.getD (leadAxis L sh.length) 0 - 1) := by
        unfold endIndex; rw [List.set_set]
      rw [e]
      have hb : InBounds sh ((sh.map (· - 1)).set (leadAxis L sh.length)
          (sh.getD (leadAxis L sh.length) 0 - 1)) := inBounds_set (inBounds_last (by omega)) (by omega)
      refine ⟨hb, ?_, hs⟩
      rw [← oRank_axisOrder hL hb.length_eq]
      have := oRank_last_set (L := L) (sh := sh) (by omega) hpos
        (v := sh.getD (leadAxis L sh.length) 0 - 1)
      omega
    · have hsh : sh = [] := List.eq_nil_of_length_eq_zero (by omega)
      subst hsh
      have hix : it.index = [] := by rw [hi]; rfl
      have : axisOrder L 0 = [] := by cases L <;> rfl
      simp only [XIter.dec, decStepper, hix, List.length_nil, this, decLoop, if_true]
      refine ⟨trivial, ?_, hB.endBegin _ hE rfl⟩
      simp only [numel] at he
      have : rankIn L [] [] = 0 := by cases L <;> rfl
      omega

theorem IterAt.sub (hL : L = .row_major ∨ L = .column_major) (hB : BackLaw ops sh L R E)
    {it : XIter σ} {p n : Nat} (h : IterAt L sh R E it (p + n)) (hp : p + n ≤ numel sh) :
    IterAt L sh R E (it.sub ops L sh n) p := by
  by_cases hn : n = 0
  · subst hn
    have : it.sub ops L sh ((0 : Nat) : Int) = it := by
      simp only [XIter.sub, decStepperN]
      simp only [Int.natCast_zero, ge_iff_le, Int.le_refl, if_true, Int.toNat_zero, decNLoop_zero]
      simp
    rw [this]; exact h
  have hpos' : (0 : Int) ≤ (n : Int) := by omega
  refine ⟨by simp only [XIter.sub, h.1]; push_cast; omega, Or.inl ?_⟩
  simp only [XIter.sub, ge_iff_le, hpos', if_true, Int.toNat_natCast, decStepperN]
  rcases h.2 with ⟨hb, hr, hR⟩ | ⟨he, hi, hE⟩
  · have hlen := hb.length_eq
    have hs := decNLoop_spec hB (axisOrder L sh.length) (axisOrder_nodup _ _)
      (fun a ha => mem_axisOrder.1 ha) p ((n + 1) * ((axisOrder L sh.length).length + 1)) []
      (axisOrder L sh.length) n it.st it.index rfl
      (by rw [Nat.add_mul]; omega) hb (Or.inl rfl) (by simp)
      (by rw [oRank_axisOrder hL hlen]; simp only [oNum]; omega) (fun _ => hR)
    obtain ⟨h1, h2, h3, h4, _⟩ := hs
    simp only [hlen, h1, ne_eq, not_true_eq_false, if_false]
    rw [oRank_axisOrder hL h3.length_eq] at h4
    exact ⟨h3, h4, h2⟩
  · by_cases hpos : 0 < sh.length
    · obtain ⟨as, has⟩ := axisOrder_cons (L := L) hpos
      have hnum : 0 < numel sh := by omega
      have hl0 := lead_pos (L := L) hnum hpos
      have hlen : it.index.length = sh.length := by rw [hi]; simp [endIndex]
      have hg := getD_endIndex_lead (L := L) hpos
      have hll := leadAxis_lt (L := L) hpos
      simp only [hlen, length_axisOrder]
      obtain ⟨f, hf⟩ : ∃ f, (n + 1) * (sh.length + 1) = f + 1 :=
        ⟨(n + 1) * (sh.length + 1) - 1, by
          have : 0 < (n + 1) * (sh.length + 1) := Nat.mul_pos (by omega) (by omega)
          omega⟩
      rw [hf]
      rw [show axisOrder L sh.length = leadAxis L sh.length :: as from has]
      simp only [decNLoop, hn, if_false, List.head?_cons, if_true, hi, hg]
      have e : ∀ v, (endIndex L sh).set (leadAxis L sh.length) v =
          (sh.map (· - 1)).set (leadAxis L sh.length) v := by
        intro v; unfold endIndex; rw [List.set_set]
      by_cases hc : sh.getD (leadAxis L sh.length) 0 ≥ n
      · rw [if_pos hc]
        have hs := hB.endBack it.st n hE hnum hpos (by omega) hc
        rw [Nat.sub_self, decNLoop_zero, e]
        have hb : InBounds sh ((sh.map (· - 1)).set (leadAxis L sh.length)
          (sh.getD (leadAxis L sh.length) 0 - n)) := inBounds_set (inBounds_last hnum) (by omega)
        simp only [ne_eq, not_true_eq_false, if_false]
        refine ⟨hb, ?_, hs⟩
        rw [← oRank_axisOrder hL hb.length_eq]
        have := oRank_last_set (L := L) (sh := sh) hnum hpos
          (v := sh.getD (leadAxis L sh.length) 0 - n)
        omega
      · rw [if_neg hc]
        have hs := hB.endBack it.st (sh.getD (leadAxis L sh.length) 0) hE hnum hpos (by omega)
          (le_refl _)
        rw [Nat.sub_self] at hs
        have hb0 : InBounds sh ((sh.map (· - 1)).set (leadAxis L sh.length) 0) :=
          inBounds_set (inBounds_last hnum) (by omega)
        have hr := hB.resetBack _ _ (leadAxis L sh.length) hs hb0 hll
          (getD_set_self (by simpa using hll))
        rw [List.set_set] at hr
        rw [e]
        have hb1 : InBounds sh ((sh.map (· - 1)).set (leadAxis L sh.length)
          (sh.getD (leadAxis L sh.length) 0 - 1)) := inBounds_set (inBounds_last hnum) (by omega)
        have hne : as ≠ [] := by
          rintro rfl
          have h1 := oNum_axisOrder L sh
          rw [has] at h1
          simp only [oNum] at h1
          omega
        rw [if_pos hne]
        have hcons : leadAxis L sh.length :: as = [leadAxis L sh.length] ++ as := rfl
        have h5 := decNLoop_spec hB (axisOrder L sh.length) (axisOrder_nodup _ _)
          (fun a ha => mem_axisOrder.1 ha) p f [leadAxis L sh.length] as
          (n - sh.getD (leadAxis L sh.length) 0)
          (ops.resetBack (ops.stepBack it.st (leadAxis L sh.length)
            (sh.getD (leadAxis L sh.length) 0 : Nat)) (leadAxis L sh.length))
          ((sh.map (· - 1)).set (leadAxis L sh.length) (sh.getD (leadAxis L sh.length) 0 - 1))
          (by rw [has]; rfl) ?_ hb1 (Or.inr (by omega)) ?_ ?_ (fun _ => hr)
        · rw [← has]
          obtain ⟨h1, h2, h3, h4, _⟩ := h5
          simp only [h1, ne_eq, not_true_eq_false, if_false]
          rw [oRank_axisOrder hL h3.length_eq] at h4
          exact ⟨h3, h4, h2⟩
        · have hlo := length_axisOrder L sh.length
          rw [has, List.length_cons] at hlo
          rw [length_axisOrder]
          have : (n - sh.getD (leadAxis L sh.length) 0) * (sh.length + 1) ≤ n * (sh.length + 1) :=
            Nat.mul_le_mul_right _ (by omega)
          rw [Nat.add_mul] at hf
          omega
        · intro a ha
          simp only [List.mem_singleton] at ha
          subst ha
          rw [getD_set_self (by simpa using hll)]; omega
        · have := oRank_last_set (L := L) (sh := sh) hnum hpos
            (v := sh.getD (leadAxis L sh.length) 0 - 1)
          simp only [oNum, Nat.mul_one]
          omega
    · have hsh : sh = [] := List.eq_nil_of_length_eq_zero (by omega)
      subst hsh
      have hix : it.index = [] := by rw [hi]; rfl
      have : axisOrder L 0 = [] := by cases L <;> rfl
      have hn1 : n = 1 ∧ p = 0 := by simp only [numel] at hp; omega
      obtain ⟨rfl, rfl⟩ := hn1
      simp only [hix, List.length_nil, this, decNLoop]
      refine ⟨trivial, ?_, hB.endBegin _ hE rfl⟩
      cases L <;> rfl

end

/-! ### Walking an iterator -/

section
variable {σ : Type u} {ops : StepOps σ} {sh : List Nat} {R : σ → List Nat → Prop} {L : Layout}
  {E : σ → Prop}

theorem IterAt.iterate (hL : L = .row_major ∨ L = .column_major) (hF : FwdLaw ops sh R)
    (hE : ∀ st idx, R st idx → InBounds sh idx → E (ops.toEnd st L))
    {it : XIter σ} {p : Nat} (h : IterAt L sh R E it p) (n : Nat) (hp : p + n ≤ numel sh) :
    IterAt L sh R E ((XIter.inc ops L sh)^[n] it) (p + n) := by
  induction n with
  | zero => exact h
  | succ n ih =>
    rw [Function.iterate_succ_apply']
    exact (ih (by omega)).inc hL hF hE (by omega)

theorem iterAt_begin {st : σ} (h : 0 < numel sh) (hR : R st (List.replicate sh.length 0)) :
    IterAt L sh R E (XIter.mkBegin st sh) 0 := by
  have hb := inBounds_zeros (inBounds_last h)
  refine ⟨rfl, Or.inl ⟨hb, ?_, hR⟩⟩
  have e : rankIn L sh (List.replicate sh.length 0) = 0 := by
    have key : ∀ s : List Nat, rowRank s (List.replicate s.length 0) = 0 ∧
        colRank s (List.replicate s.length 0) = 0 := by
      intro s
      induction s with
      | nil => exact ⟨rfl, rfl⟩
      | cons x s ih => simp [List.replicate_succ, ih.1, ih.2]
    cases L <;> first | exact (key sh).1 | exact (key sh).2
  exact e

theorem iterAt_end {st : σ} (hE : E st) : IterAt L sh R E (XIter.mkEnd st L sh) (numel sh) := by
  refine ⟨?_, Or.inr ⟨rfl, rfl, hE⟩⟩
  simp [XIter.mkEnd, foldl_mul_eq]

/-- Walking forward: the `i`-th state reached stands at the index of rank `p + i`. -/
theorem walk_spec (hL : L = .row_major ∨ L = .column_major) (hF : FwdLaw ops sh R)
    (hE : ∀ st idx, R st idx → InBounds sh idx → E (ops.toEnd st L)) (last : XIter σ)
    (hlast : last.linear = numel sh) :
    ∀ (fuel p : Nat) (it : XIter σ), IterAt L sh R E it p → p ≤ numel sh → numel sh - p < fuel →
      (XIter.walk ops L sh last fuel it).length = numel sh - p ∧
      ∀ (i : Nat) (st : σ), (XIter.walk ops L sh last fuel it)[i]? = some st →
        ∃ idx, InBounds sh idx ∧ rankIn L sh idx = p + i ∧ R st idx := by
  intro fuel
  induction fuel with
  | zero => intro p it _ _ h; omega
  | succ fuel ih =>
    intro p it hit hp hf
    unfold XIter.walk
    by_cases hpe : p = numel sh
    · have he : it.equal last = true := by
        simp only [XIter.equal, hlast, hit.1, hpe, beq_self_eq_true]
      rw [if_pos he]
      exact ⟨by simp [hpe], by simp⟩
    · have he : ¬ it.equal last = true := by
        simp only [XIter.equal, hlast, hit.1, beq_iff_eq]; omega
      rw [if_neg he]
      obtain ⟨h1, h2⟩ := ih (p + 1) _ (hit.inc hL hF hE (by omega)) (by omega) (by omega)
      refine ⟨by simp only [List.length_cons, h1]; omega, fun i st hi => ?_⟩
      cases i with
      | zero =>
        simp only [List.getElem?_cons_zero, Option.some.injEq] at hi
        subst hi
        obtain ⟨a, b, c⟩ := hit.inner (by omega)
        exact ⟨_, a, b, c⟩
      | succ i =>
        simp only [List.getElem?_cons_succ] at hi
        obtain ⟨idx, a, b, c⟩ := h2 i st hi
        exact ⟨idx, a, by omega, c⟩

/-- Walking backward. -/
theorem walkBack_spec (hL : L = .row_major ∨ L = .column_major) (hB : BackLaw ops sh L R E)
    (first : XIter σ) (hfirst : first.linear = 0) :
    ∀ (fuel p : Nat) (it : XIter σ), IterAt L sh R E it p → p ≤ numel sh → p < fuel →
      (XIter.walkBack ops L sh first fuel it).length = p ∧
      ∀ (i : Nat) (st : σ), (XIter.walkBack ops L sh first fuel it)[i]? = some st →
        ∃ idx, InBounds sh idx ∧ rankIn L sh idx + i + 1 = p ∧ R st idx := by
  intro fuel
  induction fuel with
  | zero => intro p it _ _ h; omega
  | succ fuel ih =>
    intro p it hit hp hf
    unfold XIter.walkBack
    cases p with
    | zero =>
      have he : it.equal first = true := by
        simp only [XIter.equal, hfirst, hit.1]; rfl
      rw [if_pos he]
      exact ⟨by simp, by simp⟩
    | succ p =>
      have he : ¬ it.equal first = true := by
        simp only [XIter.equal, hfirst, hit.1, beq_iff_eq]; omega
      rw [if_neg he]
      have hd := hit.dec hL hB (by omega)
      obtain ⟨h1, h2⟩ := ih p _ hd (by omega) (by omega)
      refine ⟨by simp only [List.length_cons, h1], fun i st hi => ?_⟩
      cases i with
      | zero =>
        simp only [List.getElem?_cons_zero, Option.some.injEq] at hi
        subst hi
        obtain ⟨a, b, c⟩ := hd.inner (by omega)
        exact ⟨_, a, by omega, c⟩
      | succ i =>
        simp only [List.getElem?_cons_succ] at hi
        obtain ⟨idx, a, b, c⟩ := h2 i st hi
        exact ⟨idx, a, by omega, c⟩

end

/-! ### Strided operands -/

/-- A strided operand as containers and strided views maintain it: one stride per axis, extent-1
axes have stride 0, back-strides are `stride * (extent - 1)`. -/
structure StridedArr.WF (c : StridedArr) : Prop where
  len : c.strides.length = c.shape.length
  unit : ∀ k, c.shape.getD k 0 = 1 → c.strides.getD k 0 = 0
  back : ∀ k, c.back.getD k 0 = ((c.shape.getD k 0 : Nat) - 1 : Int) * c.strides.getD k 0

theorem StridedArr.mk'_back (shape : List Nat) (strides : List Int) (off : Int)
    (h : strides.length = shape.length) (k : Nat) :
    (StridedArr.mk' shape strides off).back.getD k 0 =
      ((shape.getD k 0 : Nat) - 1 : Int) * strides.getD k 0 := by
  simp only [StridedArr.mk', List.getD_eq_getElem?_getD, List.getElem?_zipWith]
  by_cases hk : k < shape.length
  · rw [List.getElem?_eq_getElem hk, List.getElem?_eq_getElem (by omega)]
    simp
  · rw [List.getElem?_eq_none (by omega), List.getElem?_eq_none (l := strides) (by omega)]
    simp

theorem dot_set (st : List Int) (l : List Nat) (k v : Nat) (hk : k < l.length) :
    dot st (toInts (l.set k v)) = dot st (toInts l) + ((v : Int) - l.getD k 0) * st.getD k 0 := by
  induction l generalizing st k with
  | nil => simp at hk
  | cons x l ih =>
    cases st with
    | nil => simp [dot]
    | cons s st =>
      cases k with
      | zero => simp [toInts, dot]; ring
      | succ k =>
        have := ih st k (by simpa using hk)
        simp only [toInts, List.set_cons_succ, List.map_cons, dot, List.getD_cons_succ] at this ⊢
        rw [this]; ring

theorem getD_drop_sub {l : List Nat} {a d : Nat} (h : d ≤ a) :
    (l.drop d).getD (a - d) 0 = l.getD a 0 := by
  simp only [List.getD_eq_getElem?_getD, List.getElem?_drop]
  rw [show d + (a - d) = a by omega]

/-- Position of `xstepper` at an index of the iteration shape. -/
def XAt (c : StridedArr) (p : Int) (idx : List Nat) : Prop :=
  p = c.off + dot c.strides (toInts (idx.drop (idx.length - c.shape.length)))

theorem xstepper_move {c : StridedArr} {sh idx : List Nat} (hb : InBounds sh idx)
    (hl : c.shape.length ≤ sh.length) (a v : Nat) (ha : a < sh.length) :
    dot c.strides (toInts ((idx.set a v).drop ((idx.set a v).length - c.shape.length))) =
      dot c.strides (toInts (idx.drop (idx.length - c.shape.length))) +
      if a ≥ sh.length - c.shape.length then
        ((v : Int) - idx.getD a 0) * c.strides.getD (a - (sh.length - c.shape.length)) 0 else 0 := by
  have hlen := hb.length_eq
  simp only [List.length_set, hlen, List.drop_set]
  by_cases h : a < sh.length - c.shape.length
  · rw [if_pos h, if_neg (by omega)]; omega
  · rw [if_neg h, if_pos (by omega), dot_set _ _ _ _ (by simp; omega), getD_drop_sub (by omega)]

theorem broadcast_axis {c sh : List Nat} (h : BroadcastsTo c sh) {a : Nat} (ha : a < sh.length)
    (ho : a ≥ sh.length - c.length) :
    c.getD (a - (sh.length - c.length)) 0 = 1 ∨
      c.getD (a - (sh.length - c.length)) 0 = sh.getD a 0 := by
  have h1 := h.1
  have := h.2 (a - (sh.length - c.length)) (by omega)
  rwa [show a - (sh.length - c.length) + (sh.length - c.length) = a by omega] at this

theorem xstepper_fwd {c : StridedArr} {sh : List Nat} (hc : c.WF) (h : BroadcastsTo c.shape sh) :
    FwdLaw (xstepperOps c (sh.length - c.shape.length)) sh (XAt c) where
  step p idx a n hR hb ha h0 h1 := by
    unfold XAt at hR ⊢
    rw [xstepper_move hb h.1 _ _ ha, hR]
    simp only [xstepperOps]
    by_cases ho : a ≥ sh.length - c.shape.length
    · simp only [ho, if_true]
      rw [Int.toNat_of_nonneg h0]; ring
    · simp only [ho, if_false]; omega
  reset p idx a hR hb ha h1 := by
    unfold XAt at hR ⊢
    rw [xstepper_move hb h.1 _ _ ha, hR]
    simp only [xstepperOps]
    by_cases ho : a ≥ sh.length - c.shape.length
    · simp only [ho, if_true]
      rw [hc.back]
      rcases broadcast_axis h ha ho with he | he
      · rw [hc.unit _ he]; simp
      · rw [he, ← h1]; push_cast; ring
    · simp only [ho, if_false]; omega

theorem foldl_add_range (f : Nat → Int) (n : Nat) (a : Int) :
    (List.range n).foldl (fun b i => b + f i) a = a + ((List.range n).map f).sum := by
  induction n with
  | zero => simp
  | succ n ih => simp [List.range_succ, ih, Int.add_assoc]

theorem sum_range_dot (st : List Int) (l : List Int) (n : Nat) (h1 : st.length = n)
    (h2 : l.length = n) :
    ((List.range n).map fun i => st.getD i 0 * l.getD i 0).sum = dot st l := by
  induction n generalizing st l with
  | zero =>
    have : st = [] := List.eq_nil_of_length_eq_zero h1
    subst this
    cases l <;> simp [dot]
  | succ n ih =>
    cases st with
    | nil => simp at h1
    | cons s st =>
      cases l with
      | nil => simp at h2
      | cons x l =>
        have := ih st l (by simpa using h1) (by simpa using h2)
        simp only [List.range_succ_eq_map, List.map_cons, List.map_map, List.sum_cons, dot,
          List.getD_cons_zero]
        rw [← this]
        congr 1
        · ring
        

/-- The position computed by `strided_data_end` before the final step: the last element. -/
theorem dataEnd_last {c : StridedArr} {sh : List Nat} (hc : c.WF) (h : BroadcastsTo c.shape sh)
    (hn : 0 < numel sh) :
    (List.range c.shape.length).foldl
      (fun b i => b + c.strides.getD i 0 * ((c.shape.getD i 0 : Nat) - 1 : Int)) c.off =
    c.off + dot c.strides (toInts ((sh.map (· - 1)).drop (sh.length - c.shape.length))) := by
  rw [foldl_add_range]
  congr 1
  have hl1 := h.1
  rw [← sum_range_dot c.strides _ c.shape.length hc.len (by simp [toInts]; omega)]
  congr 1
  apply List.map_congr_left
  intro i hi
  have hi : i < c.shape.length := by simpa using hi
  have hk := h.2 i hi
  have e : (toInts ((sh.map (· - 1)).drop (sh.length - c.shape.length))).getD i 0 =
      ((sh.getD (i + (sh.length - c.shape.length)) 0 - 1 : Nat) : Int) := by
    have hlt : i + (sh.length - c.shape.length) < sh.length := by omega
    simp only [toInts, List.getD_eq_getElem?_getD, List.getElem?_map, List.getElem?_drop]
    rw [Nat.add_comm i, List.getElem?_eq_getElem (by omega)]
    simp
  rw [e]
  rcases hk with he | he
  · rw [hc.unit _ he]; simp
  · rw [he]
    have hp := (inBounds_last hn).getD_lt (a := i + (sh.length - c.shape.length)) (by omega)
    have : ((sh.getD (i + (sh.length - c.shape.length)) 0 - 1 : Nat) : Int) =
      (sh.getD (i + (sh.length - c.shape.length)) 0 : Int) - 1 := by omega
    rw [this]

theorem xstepper_back {c : StridedArr} {sh : List Nat} {L : Layout} (hc : c.WF)
    (h : BroadcastsTo c.shape sh) (hL : L = .row_major ∨ L = .column_major)
    (h0 : c.shape ≠ [] ∨ sh = []) :
    BackLaw (xstepperOps c (sh.length - c.shape.length)) sh L (XAt c)
      (fun p => p = xstepperEnd c L (sh.length - c.shape.length)) where
  stepBack p idx a n hR hb ha h0 h1 := by
    unfold XAt at hR ⊢
    rw [xstepper_move hb h.1 _ _ ha, hR]
    simp only [xstepperOps]
    by_cases ho : a ≥ sh.length - c.shape.length
    · simp only [ho, if_true]
      rw [Int.toNat_of_nonneg h0]; ring
    · simp only [ho, if_false]; omega
  resetBack p idx a hR hb ha h1 := by
    unfold XAt at hR ⊢
    rw [xstepper_move hb h.1 _ _ ha, hR]
    simp only [xstepperOps]
    have hlt := hb.getD_lt ha
    by_cases ho : a ≥ sh.length - c.shape.length
    · simp only [ho, if_true]
      rw [hc.back]
      rcases broadcast_axis h ha ho with he | he
      · rw [hc.unit _ he]; simp
      · rw [he, h1]
        have : ((sh.getD a 0 - 1 : Nat) : Int) = (sh.getD a 0 : Int) - 1 := by omega
        rw [this]; push_cast; ring
    · simp only [ho, if_false]; omega
  toEnd p idx hR hb := rfl
  endBegin p hE hsh := by
    subst hsh
    have : c.shape = [] := List.eq_nil_of_length_eq_zero (by have := h.1; simpa using this)
    simp [XAt, xstepperOps, dot, toInts]
  endBack p n hE hn hpos h1 h2 := by
    have hne : c.shape ≠ [] := by
      rcases h0 with h | h
      · exact h
      · subst h; simp at hpos
    have hcl : 0 < c.shape.length := List.length_pos_iff.2 hne
    have hl1 := h.1
    have hll := leadAxis_lt (L := L) hpos
    unfold XAt
    have hb := inBounds_last hn
    rw [xstepper_move hb h.1 _ _ hll, hE]
    have hz : ¬ c.shape.length = 0 := by omega
    simp only [xstepperOps, xstepperEnd, stridedDataEnd, hz, if_false]
    rw [dataEnd_last hc h hn, getD_last, List.length_map]
    have hp := lead_pos (L := L) hn hpos
    have e1 : ((sh.getD (leadAxis L sh.length) 0 - n : Nat) : Int) =
      (sh.getD (leadAxis L sh.length) 0 : Int) - n := by omega
    have e2 : ((sh.getD (leadAxis L sh.length) 0 - 1 : Nat) : Int) =
      (sh.getD (leadAxis L sh.length) 0 : Int) - 1 := by omega
    rw [e1, e2]
    rcases hL with rfl | rfl
    · simp only [leadAxis, if_true]
      have ho : sh.length - 1 ≥ sh.length - c.shape.length := by omega
      simp only [ho, if_true]
      have e3 : sh.length - 1 - (sh.length - c.shape.length) = c.shape.length - 1 := by omega
      rw [e3]
      have e4 : c.strides.getLastD 0 = c.strides.getD (c.shape.length - 1) 0 := by
        rw [List.getLastD_eq_getLast?, List.getLast?_eq_getElem?, hc.len,
          List.getD_eq_getElem?_getD]
      rw [e4]; ring
    · simp only [leadAxis, reduceCtorEq, if_false]
      by_cases ho : sh.length - c.shape.length = 0
      · simp only [ho, if_true, ge_iff_le, Nat.le_refl, Nat.sub_zero]
        have e4 : c.strides.headD 0 = c.strides.getD 0 0 := by
          cases c.strides <;> rfl
        rw [e4]; ring
      · have h5 : ¬ (0 ≥ sh.length - c.shape.length) := by omega
        simp only [ho, if_false, h5]; omega

end Xt
