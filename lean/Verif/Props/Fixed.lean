import Verif.Model.Fixed
import Verif.Model.Assign
import Verif.Props.Broadcast
import Verif.Lemmas.Strides
/-!
# C75: fixed shapes
-/

namespace Xt
open Spec

/-! ## Broadcasting at compile time -/

theorem axisR_get (s : List Nat) (k : Nat) (h : k < s.length) :
    axisR s k = some (s.getD (s.length - 1 - k) 0) := by
  rw [axisR, List.getElem?_reverse h, List.getElem?_eq_getElem (by omega), List.getD_eq_getElem?_getD,
    List.getElem?_eq_getElem (by omega)]
  rfl

theorem axisR_none (s : List Nat) (k : Nat) (h : s.length ≤ k) : axisR s k = none := by
  rw [axisR, List.getElem?_eq_none (by simpa using h)]

theorem axisR_lt {s : List Nat} {k d : Nat} (h : axisR s k = some d) : k < s.length := by
  by_contra hn
  rw [axisR_none s k (by omega)] at h; cases h

theorem axisR_mem {s : List Nat} {k d : Nat} (h : axisR s k = some d) : d ∈ s := by
  have := List.mem_of_getElem? h
  simpa using this

theorem cmpJ_axis (J : List Nat) (k : Nat) (h : k < J.length) :
    axisR J k = some (cmpJ J (J.length - 1 - k)) := by
  rw [axisR_get J k h, cmpJ, packAt, if_pos (by omega)]

theorem cmpI_axis (I J : List Nat) (k : Nat) (h : k < I.length) (hl : I.length ≤ J.length) :
    axisR I k = some (cmpI I J (J.length - 1 - k)) := by
  rw [axisR_get I k h, cmpI, if_neg (by omega), packAt, if_pos (by omega)]
  congr 2; omega

theorem cmpI_out (I J : List Nat) (k : Nat) (h : I.length ≤ k) (hk : k < J.length) :
    cmpI I J (J.length - 1 - k) = 0 := by
  rw [cmpI, if_pos (by omega)]

theorem axisR_map_range (n : Nat) (f : Nat → Nat) (k : Nat) (h : k < n) :
    axisR ((List.range n).map f) k = some (f (n - 1 - k)) := by
  rw [axisR_get _ _ (by simpa using h), List.getD_eq_getElem?_getD]
  simp only [List.length_map, List.length_range, List.getElem?_map]
  rw [List.getElem?_range (by omega)]; rfl

/-- The pairwise rule, for positive extents. -/
theorem bcFixed_spec (I J : List Nat) (hI : ∀ x ∈ I, 0 < x) (hJ : ∀ x ∈ J, 0 < x)
    (hl : I.length ≤ J.length) :
    match bcFixed I J with
    | some (out, b) => IsBroadcast [I, J] out ∧ (b = true ↔ I = J)
    | none => Conflict [I, J] := by
  rw [bcFixed, if_neg (by omega)]
  have hjpos : ∀ k, k < J.length → 0 < cmpJ J (J.length - 1 - k) := fun k hk =>
    hJ _ (axisR_mem (cmpJ_axis J k hk))
  have hipos : ∀ k, k < I.length → 0 < cmpI I J (J.length - 1 - k) := fun k hk =>
    hI _ (axisR_mem (cmpI_axis I J k hk hl))
  by_cases hall : ((List.range J.length).all fun jx => cmpOk (cmpI I J jx) (cmpJ J jx)) = true
  · simp only [hall, if_true]
    have hok : ∀ k, k < J.length →
        cmpOk (cmpI I J (J.length - 1 - k)) (cmpJ J (J.length - 1 - k)) = true := by
      intro k hk
      exact List.all_eq_true.mp hall _ (List.mem_range.mpr (by omega))
    have hout : ∀ k d, axisR ((List.range J.length).map fun jx =>
        if cmpI I J jx > cmpJ J jx then cmpI I J jx else cmpJ J jx) k = some d → k < J.length ∧
        d = if cmpI I J (J.length - 1 - k) > cmpJ J (J.length - 1 - k)
          then cmpI I J (J.length - 1 - k) else cmpJ J (J.length - 1 - k) := by
      intro k d h
      have hk : k < J.length := by simpa using axisR_lt h
      rw [axisR_map_range _ _ _ hk] at h
      exact ⟨hk, (Option.some.inj h).symm⟩
    refine ⟨⟨?_, ?_, ?_⟩, ?_⟩
    · intro s hs
      simp only [List.mem_cons, List.not_mem_nil, or_false] at hs
      rcases hs with rfl | rfl <;> simp [hl]
    · intro k d hd s hs e he
      obtain ⟨hk, rfl⟩ := hout k d hd
      have h1 := hok k hk
      have h2 := hjpos k hk
      simp only [cmpOk, Bool.or_eq_true, beq_iff_eq] at h1
      simp only [List.mem_cons, List.not_mem_nil, or_false] at hs
      rcases hs with rfl | rfl
      · have hki := axisR_lt he
        rw [cmpI_axis s J k hki hl] at he
        have h3 := hipos k hki
        obtain rfl := Option.some.inj he
        split <;> omega
      · rw [cmpJ_axis s k hk] at he
        obtain rfl := Option.some.inj he
        split <;> omega
    · intro k d hd
      obtain ⟨hk, rfl⟩ := hout k d hd
      split
      · rename_i hgt
        have hki : k < I.length := by
          by_contra hn
          rw [cmpI_out I J k (by omega) hk] at hgt
          omega
        exact ⟨I, by simp, cmpI_axis I J k hki hl⟩
      · exact ⟨J, by simp, cmpJ_axis J k hk⟩
    · rw [List.all_eq_true]
      constructor
      · intro h
        have heq : ∀ k, k < J.length → cmpI I J (J.length - 1 - k) = cmpJ J (J.length - 1 - k) := by
          intro k hk
          simpa using h _ (List.mem_range.mpr (show J.length - 1 - k < J.length by omega))
        have hlen : I.length = J.length := by
          by_contra hn
          have := heq I.length (by omega)
          rw [cmpI_out I J I.length (le_refl _) (by omega)] at this
          have := hjpos I.length (by omega)
          omega
        have : I.reverse = J.reverse := by
          apply List.ext_getElem?
          intro k
          show axisR I k = axisR J k
          by_cases hk : k < J.length
          · rw [cmpI_axis I J k (by omega) hl, cmpJ_axis J k hk, heq k hk]
          · rw [axisR_none I k (by omega), axisR_none J k (by omega)]
        exact List.reverse_injective this
      · rintro rfl jx _
        simp [cmpI, cmpJ]
  · simp only [hall]
    have : ∃ jx ∈ List.range J.length, ¬ cmpOk (cmpI I J jx) (cmpJ J jx) = true := by
      by_contra hn
      push Not at hn
      exact hall (List.all_eq_true.mpr hn)
    obtain ⟨jx, hjx, hbad⟩ := this
    rw [List.mem_range] at hjx
    obtain ⟨k, rfl, hk⟩ : ∃ k, jx = J.length - 1 - k ∧ k < J.length := ⟨J.length - 1 - jx, by omega, by omega⟩
    simp only [cmpOk, Bool.or_eq_true, beq_iff_eq, not_or] at hbad
    obtain ⟨⟨⟨h0, h1⟩, h2⟩, h3⟩ := hbad
    have hki : k < I.length := by
      by_contra hn
      exact h0 (cmpI_out I J k (by omega) hk)
    exact ⟨I, by simp, J, by simp, k, _, _, cmpI_axis I J k hki hl, cmpJ_axis J k hk,
      fun h => h3 h.symm, h1, h2⟩

/-- Either order of the two shapes. -/
theorem bcFixed_pair (I J : List Nat) (hI : ∀ x ∈ I, 0 < x) (hJ : ∀ x ∈ J, 0 < x) :
    match (if I.length > J.length then bcFixed J I else bcFixed I J) with
    | some (out, b) => IsBroadcast [I, J] out ∧ (b = true ↔ I = J)
    | none => Conflict [I, J] := by
  by_cases h : I.length > J.length
  · rw [if_pos h]
    have := bcFixed_spec J I hJ hI (by omega)
    have hmem : ∀ s, s ∈ [J, I] ↔ s ∈ [I, J] := by intro s; simp [or_comm]
    cases hb : bcFixed J I with
    | none =>
      rw [hb] at this
      obtain ⟨s, hs, t, ht, rest⟩ := this
      exact ⟨s, (hmem s).mp hs, t, (hmem t).mp ht, rest⟩
    | some r =>
      rw [hb] at this
      exact ⟨(isBroadcast_congr hmem r.1).mp this.1, this.2.trans eq_comm⟩
  · rw [if_neg h]
    exact bcFixed_spec I J hI hJ (by omega)

theorem IsBroadcast.glue {s t r out : List Nat} {S : List (List Nat)} (h1 : IsBroadcast [s, t] r)
    (h2 : IsBroadcast (r :: S) out) : IsBroadcast (s :: t :: S) out := by
  have hlr := h2.len_le r (by simp)
  have pair : ∀ x ∈ [s, t], x.length ≤ out.length ∧ ∀ k d, axisR out k = some d →
      ∀ e, axisR x k = some e → e = 1 ∨ e = d := by
    intro x hx
    have hxl := h1.len_le x hx
    refine ⟨by omega, ?_⟩
    intro k d hd e he
    have hk := axisR_lt he
    obtain ⟨f, hf⟩ : ∃ f, axisR r k = some f := ⟨_, axisR_get r k (by omega)⟩
    rcases h1.compatible k f hf x hx e he with h | h
    · exact Or.inl h
    · subst h; exact h2.compatible k d hd r (by simp) e hf
  refine ⟨?_, ?_, ?_⟩
  · intro x hx
    simp only [List.mem_cons] at hx
    rcases hx with rfl | rfl | hx
    · exact (pair _ (by simp)).1
    · exact (pair _ (by simp)).1
    · exact h2.len_le x (by simp [hx])
  · intro k d hd x hx
    simp only [List.mem_cons] at hx
    rcases hx with rfl | rfl | hx
    · exact (pair _ (by simp)).2 k d hd
    · exact (pair _ (by simp)).2 k d hd
    · exact h2.compatible k d hd x (by simp [hx])
  · intro k d hd
    obtain ⟨x, hx, hxa⟩ := h2.attained k d hd
    simp only [List.mem_cons] at hx
    rcases hx with rfl | hx
    · obtain ⟨y, hy, hya⟩ := h1.attained k d hxa
      simp only [List.mem_cons, List.not_mem_nil, or_false] at hy
      exact ⟨y, by simp; tauto, hya⟩
    · exact ⟨x, by simp [hx], hxa⟩

theorem Conflict.glue {s t r : List Nat} {S : List (List Nat)} (h1 : IsBroadcast [s, t] r)
    (h2 : Conflict (r :: S)) : Conflict (s :: t :: S) := by
  obtain ⟨x, hx, y, hy, k, d, e, hxa, hya, rest⟩ := h2
  have back : ∀ x ∈ r :: S, ∀ d, axisR x k = some d → ∃ x' ∈ s :: t :: S, axisR x' k = some d := by
    intro x hx d hd
    simp only [List.mem_cons] at hx
    rcases hx with rfl | hx
    · obtain ⟨y, hy, hya⟩ := h1.attained k d hd
      simp only [List.mem_cons, List.not_mem_nil, or_false] at hy
      exact ⟨y, by simp; tauto, hya⟩
    · exact ⟨x, by simp [hx], hd⟩
  obtain ⟨x', hx', hxa'⟩ := back x hx d hxa
  obtain ⟨y', hy', hya'⟩ := back y hy e hya
  exact ⟨x', hx', y', hy', k, d, e, hxa', hya', rest⟩

theorem isBroadcast_singleton (I : List Nat) : IsBroadcast [I] I :=
  ⟨by simp, by
    intro k d hd s hs e he
    simp only [List.mem_singleton] at hs
    subst hs
    rw [hd] at he
    exact Or.inr (Option.some.inj he).symm, fun k d hd => ⟨I, by simp, hd⟩⟩

theorem IsBroadcast.pos {S : List (List Nat)} {out : List Nat} (h : IsBroadcast S out)
    (hS : ∀ s ∈ S, ∀ x ∈ s, 0 < x) : ∀ x ∈ out, 0 < x := by
  intro x hx
  have : x ∈ out.reverse := by simpa using hx
  obtain ⟨k, hk⟩ := List.mem_iff_getElem?.mp this
  obtain ⟨s, hs, hsa⟩ := h.attained k x hk
  exact hS s hs x (axisR_mem hsa)

theorem promoteFixed_spec (I : List Nat) (S : List (List Nat))
    (h : ∀ s ∈ I :: S, ∀ x ∈ s, 0 < x) :
    match promoteFixed I S with
    | some (out, b) => IsBroadcast (I :: S) out ∧ (b = true ↔ ∀ s ∈ I :: S, s = out)
    | none => Conflict (I :: S) := by
  induction S generalizing I with
  | nil => exact ⟨isBroadcast_singleton I, by simp⟩
  | cons J S ih =>
    rw [promoteFixed]
    have hp := bcFixed_pair I J (h I (by simp)) (h J (by simp))
    cases hb : (if I.length > J.length then bcFixed J I else bcFixed I J) with
    | none =>
      rw [hb] at hp
      obtain ⟨s, hs, t, ht, rest⟩ := hp
      have hmem : ∀ s, s ∈ [I, J] → s ∈ I :: J :: S := by
        intro s hs; simp at hs ⊢; tauto
      exact ⟨s, hmem s hs, t, hmem t ht, rest⟩
    | some r =>
      rw [hb] at hp
      obtain ⟨r, b⟩ := r
      obtain ⟨h1, h2⟩ := hp
      have hih := ih r (by
        intro s hs
        simp only [List.mem_cons] at hs
        rcases hs with rfl | hs
        · apply IsBroadcast.pos h1
          intro s hs
          apply h
          simp at hs ⊢; tauto
        · exact h s (by simp [hs]))
      simp only
      cases hq : promoteFixed r S with
      | none => rw [hq] at hih; exact Conflict.glue h1 hih
      | some q =>
        rw [hq] at hih
        obtain ⟨out, c⟩ := q
        obtain ⟨h3, h4⟩ := hih
        refine ⟨IsBroadcast.glue h1 h3, ?_⟩
        rw [Bool.and_eq_true, h2, h4]
        constructor
        · rintro ⟨rfl, h5⟩
          have hIr : r = I := by
            have := isBroadcast_congr (S := [I, I]) (T := [I]) (by simp) r
            exact IsBroadcast.unique (this.mp h1) (isBroadcast_singleton I)
          subst hIr
          intro s hs
          apply h5
          simp at hs ⊢; tauto
        · intro h5
          have hI := h5 I (by simp)
          have hJ := h5 J (by simp)
          subst hI
          subst hJ
          refine ⟨rfl, ?_⟩
          have hIr : r = J := by
            have := isBroadcast_congr (S := [J, J]) (T := [J]) (by simp) r
            exact IsBroadcast.unique (this.mp h1) (isBroadcast_singleton J)
          subst hIr
          intro s hs
          apply h5
          simp at hs ⊢; tauto

/-- The shape of an operand: a scalar has no axes. -/
def Spec.operandShape (o : Option (List Nat)) : List Nat := o.getD []

theorem filterScalar_broadcast (ops : List (Option (List Nat))) (out : List Nat)
    (h1 : none ∈ ops → ∃ o ∈ ops, operandShape o ≠ []) :
    (IsBroadcast (ops.map filterScalar) out ↔ IsBroadcast (ops.map operandShape) out) ∧
    (Conflict (ops.map filterScalar) ↔ Conflict (ops.map operandShape)) := by
  have ax0 : ∀ k d, axisR [1] k = some d → k = 0 ∧ d = 1 := by
    intro k d h
    have hk : k < 1 := axisR_lt h
    have h0 : k = 0 := by omega
    subst h0
    exact ⟨rfl, by simpa [axisR] using h.symm⟩
  have axn : ∀ k d, axisR [] k ≠ some d := by intro k d h; simp [axisR] at h
  refine ⟨⟨?_, ?_⟩, ⟨?_, ?_⟩⟩
  · intro h
    refine ⟨?_, ?_, ?_⟩
    · intro s hs
      obtain ⟨o, ho, rfl⟩ := List.mem_map.mp hs
      cases o with
      | none => simp [operandShape]
      | some s => exact h.len_le s (List.mem_map.mpr ⟨some s, ho, rfl⟩)
    · intro k d hd s hs e he
      obtain ⟨o, ho, rfl⟩ := List.mem_map.mp hs
      cases o with
      | none => exact absurd he (axn k e)
      | some s => exact h.compatible k d hd s (List.mem_map.mpr ⟨some s, ho, rfl⟩) e he
    · intro k d hd
      obtain ⟨s, hs, hsa⟩ := h.attained k d hd
      obtain ⟨o, ho, rfl⟩ := List.mem_map.mp hs
      cases o with
      | some s => exact ⟨s, List.mem_map.mpr ⟨some s, ho, rfl⟩, hsa⟩
      | none =>
        obtain ⟨rfl, rfl⟩ := ax0 k d hsa
        obtain ⟨p, hp, hpn⟩ := h1 ho
        cases p with
        | none => exact absurd rfl hpn
        | some t =>
          have ht : t ≠ [] := hpn
          have hpos : 0 < t.length := List.length_pos_iff.mpr ht
          have := h.compatible 0 1 hd t (List.mem_map.mpr ⟨some t, hp, rfl⟩) _ (axisR_get t 0 hpos)
          refine ⟨t, List.mem_map.mpr ⟨some t, hp, rfl⟩, ?_⟩
          rw [axisR_get t 0 hpos]
          congr 1
          omega
  · intro h
    refine ⟨?_, ?_, ?_⟩
    · intro s hs
      obtain ⟨o, ho, rfl⟩ := List.mem_map.mp hs
      cases o with
      | some s => exact h.len_le s (List.mem_map.mpr ⟨some s, ho, rfl⟩)
      | none =>
        obtain ⟨p, hp, hpn⟩ := h1 ho
        have := h.len_le _ (List.mem_map.mpr ⟨p, hp, rfl⟩)
        have hpos : 0 < (operandShape p).length := List.length_pos_iff.mpr hpn
        show 1 ≤ out.length
        omega
    · intro k d hd s hs e he
      obtain ⟨o, ho, rfl⟩ := List.mem_map.mp hs
      cases o with
      | none => exact Or.inl (ax0 k e he).2
      | some s => exact h.compatible k d hd s (List.mem_map.mpr ⟨some s, ho, rfl⟩) e he
    · intro k d hd
      obtain ⟨s, hs, hsa⟩ := h.attained k d hd
      obtain ⟨o, ho, rfl⟩ := List.mem_map.mp hs
      cases o with
      | some s => exact ⟨s, List.mem_map.mpr ⟨some s, ho, rfl⟩, hsa⟩
      | none => exact absurd hsa (axn k d)
  · rintro ⟨s, hs, t, ht, k, d, e, hd, he, hne, hd1, he1⟩
    obtain ⟨o, ho, rfl⟩ := List.mem_map.mp hs
    obtain ⟨p, hp, rfl⟩ := List.mem_map.mp ht
    cases o with
    | none => exact absurd (ax0 k d hd).2 hd1
    | some s => cases p with
      | none => exact absurd (ax0 k e he).2 he1
      | some t => exact ⟨s, List.mem_map.mpr ⟨some s, ho, rfl⟩, t, List.mem_map.mpr ⟨some t, hp, rfl⟩,
          k, d, e, hd, he, hne, hd1, he1⟩
  · rintro ⟨s, hs, t, ht, k, d, e, hd, he, hne, hd1, he1⟩
    obtain ⟨o, ho, rfl⟩ := List.mem_map.mp hs
    obtain ⟨p, hp, rfl⟩ := List.mem_map.mp ht
    cases o with
    | none => exact absurd hd (axn k d)
    | some s => cases p with
      | none => exact absurd he (axn k e)
      | some t => exact ⟨s, List.mem_map.mpr ⟨some s, ho, rfl⟩, t, List.mem_map.mpr ⟨some t, hp, rfl⟩,
          k, d, e, hd, he, hne, hd1, he1⟩

/-- C75 for positive extents: a function of fixed-shape operands and scalars has the broadcast of their
shapes as its static shape and is refused exactly when they conflict; its operands may be assigned
element by element exactly when they all have that shape, a scalar counting as one of extent 1.
Missing: extents 0, and scalars beside operands without axes (the `_wrong` theorems below). -/
theorem C75_static_broadcast_partial (ops : List (Option (List Nat))) (hne : ops ≠ [])
    (hpos : ∀ s, some s ∈ ops → ∀ x ∈ s, 0 < x)
    (h1 : none ∈ ops → ∃ o ∈ ops, operandShape o ≠ []) :
    (∀ out, (∃ b, fixedFunction ops = some (out, b)) ↔ IsBroadcast (ops.map operandShape) out) ∧
    (fixedFunction ops = none ↔ Conflict (ops.map operandShape)) ∧
    (∀ out b, fixedFunction ops = some (out, b) →
      (b = true ↔ ∀ o ∈ ops, o = some out ∨ (o = none ∧ out = [1]))) := by
  have hf := filterScalar_broadcast ops
  have key : match fixedFunction ops with
      | some (out, b) => IsBroadcast (ops.map filterScalar) out ∧
          (b = true ↔ ∀ s ∈ ops.map filterScalar, s = out)
      | none => Conflict (ops.map filterScalar) := by
    cases ops with
    | nil => exact absurd rfl hne
    | cons o ops =>
      have := promoteFixed_spec (filterScalar o) (ops.map filterScalar) (by
        intro s hs x hx
        rw [← List.map_cons, List.mem_map] at hs
        obtain ⟨p, hp, rfl⟩ := hs
        cases p with
        | none => simp [filterScalar] at hx; omega
        | some s => exact hpos s hp x hx)
      simpa only [fixedFunction, List.map_cons] using this
  cases hq : fixedFunction ops with
  | none =>
    rw [hq] at key
    have hc := ((hf []  h1).2).mp key
    refine ⟨fun out => ⟨by simp, fun h => absurd h (Conflict.not_isBroadcast hc out)⟩, by simp [hc], by simp⟩
  | some r =>
    rw [hq] at key
    obtain ⟨out, b⟩ := r
    obtain ⟨k1, k2⟩ := key
    have k1' := ((hf out h1).1).mp k1
    refine ⟨?_, ?_, ?_⟩
    · intro out'
      constructor
      · rintro ⟨b', h⟩
        cases h
        exact k1'
      · intro h
        rw [IsBroadcast.unique h k1']
        exact ⟨b, rfl⟩
    · simp only [reduceCtorEq, false_iff]
      exact fun hc => Conflict.not_isBroadcast hc out k1'
    · intro out' b' h
      cases h
      rw [k2]
      constructor
      · intro h o ho
        have := h (filterScalar o) (List.mem_map.mpr ⟨o, ho, rfl⟩)
        cases o with
        | none => exact Or.inr ⟨rfl, this.symm⟩
        | some s => exact Or.inl (by rw [← this]; rfl)
      · intro h s hs
        obtain ⟨o, ho, rfl⟩ := List.mem_map.mp hs
        rcases h o ho with rfl | ⟨rfl, rfl⟩ <;> rfl

example : fixedFunction [some [3, 1], none, some [4], some [2, 1, 1]] = some ([2, 3, 4], false) ∧
    fixedFunction [some [2, 3], some [2]] = none ∧
    fixedFunction [some [2, 3], some [2, 3]] = some ([2, 3], true) := by decide

theorem operands_without_scalars (ops : List (Option (List Nat))) (out : List Nat) :
    (IsBroadcast (ops.filterMap id) out ↔ IsBroadcast (ops.map operandShape) out) ∧
    (Conflict (ops.filterMap id) ↔ Conflict (ops.map operandShape)) := by
  have ax : ∀ k d, axisR [] k ≠ some d := by intro k d h; simp [axisR] at h
  have mem1 : ∀ s ∈ ops.filterMap id, s ∈ ops.map operandShape := by
    intro s hs
    obtain ⟨o, ho, h⟩ := List.mem_filterMap.mp hs
    have h' : o = some s := h
    subst h'
    exact List.mem_map.mpr ⟨_, ho, rfl⟩
  have mem2 : ∀ s ∈ ops.map operandShape, s = [] ∨ s ∈ ops.filterMap id := by
    intro s hs
    obtain ⟨o, ho, rfl⟩ := List.mem_map.mp hs
    cases o with
    | none => exact Or.inl rfl
    | some s => exact Or.inr (List.mem_filterMap.mpr ⟨_, ho, rfl⟩)
  have mem3 : ∀ s ∈ ops.map operandShape, ∀ k d, axisR s k = some d → s ∈ ops.filterMap id := by
    intro s hs k d h
    rcases mem2 s hs with rfl | h'
    · exact absurd h (ax k d)
    · exact h'
  refine ⟨⟨?_, ?_⟩, ⟨?_, ?_⟩⟩
  · intro h
    refine ⟨?_, fun k d hd s hs e he => h.compatible k d hd s (mem3 s hs k e he) e he, ?_⟩
    · intro s hs
      rcases mem2 s hs with rfl | h'
      · simp
      · exact h.len_le s h'
    · intro k d hd
      obtain ⟨s, hs, h'⟩ := h.attained k d hd
      exact ⟨s, mem1 s hs, h'⟩
  · intro h
    refine ⟨fun s hs => h.len_le s (mem1 s hs), fun k d hd s hs => h.compatible k d hd s (mem1 s hs), ?_⟩
    intro k d hd
    obtain ⟨s, hs, h'⟩ := h.attained k d hd
    exact ⟨s, mem3 s hs k d h', h'⟩
  · rintro ⟨s, hs, t, ht, rest⟩
    exact ⟨s, mem1 s hs, t, mem1 t ht, rest⟩
  · rintro ⟨s, hs, t, ht, k, d, e, hd, he, rest⟩
    exact ⟨s, mem3 s hs k d hd, t, mem3 t ht k e he, k, d, e, hd, he, rest⟩

/-- C75: at compile time and at run time the same shape results: `e.shape` is the run-time computation
of C04 for any expression with the same operands, scalars left out. -/
theorem C75_static_as_dynamic_partial (ops : List (Option (List Nat))) (hne : ops ≠ [])
    (hpos : ∀ s, some s ∈ ops → ∀ x ∈ s, 0 < x)
    (h1 : none ∈ ops → ∃ o ∈ ops, operandShape o ≠ []) (e : ShExpr) (he : e.ExtentsOk)
    (hl : e.leaves = ops.filterMap id) :
    (fixedFunction ops).map Prod.fst = e.shape.map Prod.fst := by
  obtain ⟨k1, k2, -⟩ := C75_static_broadcast_partial ops hne hpos h1
  obtain ⟨d1, d2⟩ := C04_broadcast_shape e he
  cases hq : fixedFunction ops with
  | none =>
    have := d2.mpr (by rw [hl]; exact ((operands_without_scalars ops []).2).mpr (k2.mp hq))
    rw [this]
  | some r =>
    obtain ⟨t, ht⟩ := (d1 r.1).mpr (by
      rw [hl]
      exact ((operands_without_scalars ops r.1).1).mpr ((k1 r.1).mp ⟨r.2, by rw [hq]⟩))
    rw [ht]; rfl

example : (ShExpr.fn [.leaf [3, 1], .scalar, .leaf [4]]).leaves =
      [some [3, 1], none, some [4]].filterMap id ∧
    (fixedFunction [some [3, 1], none, some [4]]).map Prod.fst = some [3, 4] := by decide

/-- C75 fails for extents 0: shapes `(0)` and `(3)` are broadcast to `(3)` and `(0)` and `(1)` to
`(1)`, though the first conflict and the second broadcast to `(0)`; the function then has elements
for which an operand has none.  In the other order the first is refused.  A scalar counts as `(1)`. -/
theorem C75_zero_extent_wrong :
    fixedFunction [some [0], some [3]] = some ([3], false) ∧ Conflict [[0], [3]] ∧
    fixedFunction [some [3], some [0]] = none ∧
    fixedFunction [some [0], some [1]] = some ([1], false) ∧ IsBroadcast [[0], [1]] [0] ∧
    fixedFunction [some [2, 0], none] = some ([2, 1], false) ∧ IsBroadcast [[2, 0], []] [2, 0] := by
  have run : ∀ (e : ShExpr) (out : List Nat) (t : Bool), e.ExtentsOk → e.shape = some (out, t) →
      IsBroadcast e.leaves out := fun e out t h h' => ((C04_broadcast_shape e h).1 out).mp ⟨t, h'⟩
  refine ⟨by decide, ⟨[0], by simp, [3], by simp, 0, 0, 3, rfl, rfl, by decide, by decide, by decide⟩,
    by decide, by decide, ?_, by decide, ?_⟩
  · exact run (.fn [.leaf [0], .leaf [1]]) [0] false
      (by unfold ShExpr.ExtentsOk; decide +kernel) (by decide +kernel)
  · exact run (.fn [.leaf [2, 0], .leaf []]) [2, 0] false
      (by unfold ShExpr.ExtentsOk; decide +kernel) (by decide +kernel)

/-- C75 fails for scalars beside operands without axes: the sum of an `xtensor_fixed<T, xshape<>>` and
a number has one axis. -/
theorem C75_scalar_rank_wrong :
    fixedFunction [some [], none] = some ([1], false) ∧ IsBroadcast [[], []] [] :=
  ⟨by decide, ⟨by simp, by simp [axisR], by simp [axisR]⟩⟩

/-! ## Strides -/

theorem fixedSize_eq : (xs : List Nat) → fixedSize xs = numel xs
  | [] => rfl
  | [x] => by simp [fixedSize, numel]
  | y :: x :: xs => by
    have := fixedSize_eq (x :: xs)
    simp only [fixedSize, numel] at this ⊢
    rw [this]

theorem calcStrideCol_eq (i : Nat) (xs : List Nat) (h : i < xs.length) :
    calcStrideCol i xs = (numel (xs.take i) : Int) := by
  induction xs generalizing i with
  | nil => simp at h
  | cons y xs ih =>
    cases i with
    | zero => rfl
    | succ i => simp only [calcStrideCol, ih i (by simpa using h), List.take_succ_cons, numel]; push_cast; ring

theorem calcStrideRowAux_eq (i : Nat) (xs : List Nat) (h : i ≤ xs.length) :
    calcStrideRowAux i xs = (numel (xs.drop (xs.length - i)) : Int) := by
  induction i with
  | zero => simp [calcStrideRowAux]
  | succ i ih =>
    rw [calcStrideRowAux, ih (by omega), List.drop_eq_getElem_cons (i := xs.length - (i + 1)) (by omega),
      numel, packAt, if_pos (by omega), List.getD_eq_getElem?_getD, List.getElem?_eq_getElem (by omega)]
    rw [show xs.length - (i + 1) + 1 = xs.length - i by omega]
    push_cast
    rfl

/-- C75: the strides, backstrides and size computed from a fixed shape at compile time are those an
array of the same shape computes at run time. -/
theorem C75_static_strides (L : Layout) (xs : List Nat) (hL : L = .row_major ∨ L = .column_major) :
    getStridesFixed L xs = (computeStrides L L xs).1 ∧
    getBackstridesFixed xs (getStridesFixed L xs) = backstrides xs (computeStrides L L xs).1 ∧
    fixedSize xs = computeSize xs := by
  have hs : getStridesFixed L xs = (computeStrides L L xs).1 := by
    apply List.ext_getElem?
    intro k
    by_cases hk : k < xs.length
    · rw [getStridesFixed, List.getElem?_map, List.getElem?_range hk]
      rcases hL with rfl | rfl
      · rw [computeStrides, if_pos (Or.inl rfl), rowStrides_get xs k hk, adaptStride]
        simp only [Option.map_some, calcStride, if_true]
        rw [calcStrideRowAux_eq _ _ (by omega), show xs.length - (xs.length - k - 1) = k + 1 by omega]
      · rw [computeStrides, if_neg (by decide), colStrides_get 1 xs k hk, adaptStride]
        simp only [Option.map_some, calcStride, calcStrideCol_eq k xs hk, Int.one_mul]
        rfl
    · rw [List.getElem?_eq_none (by simpa [getStridesFixed] using hk),
        List.getElem?_eq_none (by simpa using hk)]
  refine ⟨hs, ?_, by rw [fixedSize_eq, computeSize_eq]⟩
  rw [hs]
  have hl := computeStrides_length L L xs
  apply List.ext_getElem?
  intro k
  by_cases hk : k < xs.length
  · simp only [getBackstridesFixed, backstrides, List.getElem?_map, List.getElem?_range hk,
      List.getElem?_zipWith, List.getElem?_eq_getElem hk, List.getElem?_eq_getElem (hl ▸ hk : k < _),
      List.getD_eq_getElem?_getD, Option.map_some, Option.getD_some]
    rfl
  · rw [List.getElem?_eq_none (by simpa [getBackstridesFixed] using hk),
      List.getElem?_eq_none (by simp [backstrides]; omega)]

example : getStridesFixed .row_major [2, 1, 3] = [3, 0, 1] ∧
    getStridesFixed .column_major [2, 1, 3] = [1, 0, 2] ∧
    getBackstridesFixed [2, 1, 3] [3, 0, 1] = [3, 0, 2] := by decide

/-- C75: so the elements of an `xtensor_fixed` are those of its storage, each at its own place: the
offset of an index within the shape is an index into the storage, and different indices have
different offsets. -/
theorem C75_fixed_addresses (L : Layout) (xs : List Nat) (hL : L = .row_major ∨ L = .column_major) :
    (∀ idx, InBounds xs idx → 0 ≤ dataOffset (getStridesFixed L xs) false (toInts idx) ∧
      dataOffset (getStridesFixed L xs) false (toInts idx) < fixedSize xs) ∧
    (∀ i j, InBounds xs i → InBounds xs j → dataOffset (getStridesFixed L xs) false (toInts i) =
      dataOffset (getStridesFixed L xs) false (toInts j) → i = j) := by
  rw [(C75_static_strides L xs hL).1, fixedSize_eq]
  obtain ⟨rk, h1, h2, h3, -⟩ := dot_computeStrides L L xs
  have ho : ∀ idx, InBounds xs idx →
      dataOffset (computeStrides L L xs).1 false (toInts idx) = (rk idx : Int) := by
    intro idx hb
    rw [dataOffset_eq _ _ (by rw [computeStrides_length]; simp [toInts, hb.length_eq]), h1 idx hb]
  refine ⟨fun idx hb => ?_, fun i j hi hj h => ?_⟩
  · rw [ho idx hb]; have := h2 idx hb; omega
  · rw [ho i hi, ho j hj] at h
    exact h3 i j hi hj (by omega)

/-- C75: `is_contiguous()` of a fixed array says no exactly when the last axis (the first one in
column-major layout) has extent 1, although the storage is contiguous for every shape
(`C75_fixed_addresses`). -/
theorem C75_is_contiguous (xs : List Nat) :
    (fixedIsContiguous .row_major xs = true ↔ xs.getLast? ≠ some 1) ∧
    (fixedIsContiguous .column_major xs = true ↔ xs.head? ≠ some 1) := by
  constructor
  · rcases List.eq_nil_or_concat xs with rfl | ⟨ys, y, rfl⟩
    · simp [fixedIsContiguous, getStridesFixed]
    · have : (getStridesFixed .row_major (ys ++ [y])).getLast? = some (if y = 1 then 0 else 1) := by
        rw [getStridesFixed, List.length_append, List.length_singleton, List.range_succ, List.map_append,
          List.map_singleton, List.getLast?_append]
        simp [calcStride, calcStrideRowAux]
      have hne : (getStridesFixed .row_major (ys ++ [y])).isEmpty = false := by simp [getStridesFixed]
      simp only [List.concat_eq_append, fixedIsContiguous, this, hne]
      by_cases hy : y = 1 <;> simp [hy]
  · cases xs with
    | nil => simp [fixedIsContiguous, getStridesFixed]
    | cons y ys =>
      have : (getStridesFixed .column_major (y :: ys)).head? = some (if y = 1 then 0 else 1) := by
        rw [getStridesFixed, List.length_cons, List.range_succ_eq_map, List.map_cons]
        simp [calcStride, calcStrideCol]
      have hne : (getStridesFixed .column_major (y :: ys)).isEmpty = false := by simp [getStridesFixed]
      simp only [fixedIsContiguous, this, hne]
      by_cases hy : y = 1 <;> simp [hy]

example : fixedIsContiguous .row_major [3, 1] = false ∧ fixedIsContiguous .row_major [1, 3] = true := by
  decide

/-! ## Reshaping, resizing, assigning -/

theorem equalThenSize_spec (new sh : List Nat) :
    (equalThenSize new sh = .ub ↔ ∃ x t, new = sh ++ x :: t) ∧
    (equalThenSize new sh = .ok true ↔ new = sh) ∧ equalThenSize new sh ≠ .throws := by
  induction new generalizing sh with
  | nil => cases sh <;> simp [equalThenSize]
  | cons a as ih =>
    cases sh with
    | nil => simp [equalThenSize]
    | cons m ms =>
      by_cases h : a = m
      · subst h
        have := ih ms
        simpa [equalThenSize] using this
      · simp [equalThenSize, h]

/-- C75: `reshape` of a fixed array succeeds exactly for its own shape and layout; for another shape it
throws, except that it reads past its own shape when the new one is longer and begins with it. -/
theorem C75_reshape (L l : Layout) (sh new : List Nat) :
    (fixedReshape L sh new l = .ok () ↔ new = sh ∧ l = L) ∧
    (fixedReshape L sh new l = .ub ↔ ∃ x t, new = sh ++ x :: t) := by
  obtain ⟨h1, h2, h3⟩ := equalThenSize_spec new sh
  rw [← h1, ← h2]
  cases h : equalThenSize new sh with
  | ub => simp [fixedReshape, h]
  | throws => exact absurd h h3
  | ok b =>
    cases b
    · simp [fixedReshape, h]
    · by_cases hl : l = L <;> simp [fixedReshape, h, hl]

example : fixedReshape .row_major [2, 3] [2, 3] .row_major = .ok () ∧
    fixedReshape .row_major [2, 3] [3, 2] .row_major = .throws ∧
    fixedReshape .row_major [2, 3] [2, 3, 1] .row_major = .ub := by decide

/-- C75: with assertions `resize`, and so assignment, accepts no shape but the array's own. -/
theorem C75_resize_asserts (sh new : List Nat) : fixedResize true sh new = .ok () ↔ new = sh := by
  obtain ⟨-, h2, h3⟩ := equalThenSize_spec new sh
  rw [← h2]
  cases h : equalThenSize new sh with
  | ub => simp [fixedResize, h]
  | throws => exact absurd h h3
  | ok b => cases b <;> simp [fixedResize, h]

/-- C75 fails without assertions: `resize` accepts every shape without effect, so assigning an array of
two elements (at 100 and 101) to a fixed array of four reads 102 and 103 too. -/
theorem C75_assign_unchecked_wrong :
    fixedResize false [4] [2] = .ok () ∧
    (let d := StridedArr.mk' [4] (getStridesFixed .row_major [4]) 0
     let e : MEx Int := rdArr (StridedArr.container .row_major [2] 100)
     let t : Traits := ⟨true, true, true, fixedIsContiguous .row_major [4], false, false, .row_major, 1⟩
     let m := runTrace (assignTrace t 0 d e true) fun (p : Int) => p
     [m 0, m 1, m 2, m 3] = [100, 101, 102, 103]) := by decide +kernel

/-- C75: construction from a value succeeds exactly for shapes with one element, which has the value. -/
theorem C75_scalar_constructor {α : Type} (sh : List Nat) (v : α) :
    fixedOfScalar sh v = if numel sh = 1 then .ok [some v] else .throws := by
  rw [fixedOfScalar, fixedSize_eq]
  by_cases h : numel sh = 1 <;> simp [h]

example : fixedOfScalar [] 7 = .ok [some 7] ∧ fixedOfScalar [1, 1] 7 = .ok [some 7] ∧
    fixedOfScalar [2] 7 = .throws := by decide

end Xt
