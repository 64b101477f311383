import Verif.Model.Accumulator
import Verif.Spec.Accumulator
import Verif.Props.ReduceImmediate
/-!
# C32: accumulations are prefix folds along the axis
-/

namespace Xt
open Spec

variable {β : Type}

/-! ### The accumulation loop -/

/-- Prefix fold along a column of stride `P`. -/
def accCol (f : β → β → β) (b : Nat → β) (x P : Nat) : Nat → β
  | 0 => b x
  | k + 1 => f (accCol f b x P k) (b (x + (k + 1) * P))

theorem accCol_eq (f : β → β → β) (b : Nat → β) (x P : Nat) : ∀ k, accCol f b x P k =
    ((List.range' 1 k).map fun m => b (x + m * P)).foldl f (b x)
  | 0 => rfl
  | k + 1 => by
    rw [List.range'_concat, List.map_append, List.foldl_append, ← accCol_eq f b x P k]
    show f _ (b (x + (k + 1) * P)) = f _ (b (x + (1 + 1 * k) * P))
    rw [show 1 + 1 * k = k + 1 by omega]

/-- Coordinate along the axis of the storage position `x`. -/
abbrev accCoord (P n x : Nat) : Nat := x / P % n

/-- Value expected at the storage position `x`. -/
def accFin (f : β → β → β) (b : Nat → β) (P n x : Nat) : β :=
  accCol f b (x - accCoord P n x * P) P (accCoord P n x)

section Loop
variable {f : β → β → β} {b : Nat → β} {P n N : Nat}

theorem accFin_zero {x : Nat} (h : accCoord P n x = 0) : accFin f b P n x = b x := by
  unfold accFin; rw [h]; simp [accCol]

theorem accFin_succ (hP : 0 < P) {x : Nat} (h : accCoord P n x + 1 < n) :
    accFin f b P n (x + P) = f (accFin f b P n x) (b (x + P)) := by
  have hc : accCoord P n (x + P) = accCoord P n x + 1 := by
    unfold accCoord at *
    rw [Nat.add_div_right _ hP, Nat.add_mod, Nat.mod_eq_of_lt (show 1 < n by omega),
      Nat.mod_eq_of_lt h]
  have hle : accCoord P n x * P ≤ x :=
    Nat.le_trans (Nat.mul_le_mul_right _ (Nat.mod_le _ _)) (Nat.div_mul_le_self x P)
  unfold accFin
  rw [hc]
  have e : x + P - (accCoord P n x + 1) * P = x - accCoord P n x * P := by
    rw [Nat.add_mul, Nat.one_mul]; omega
  rw [e]
  show f _ (b (x - accCoord P n x * P + (accCoord P n x + 1) * P)) = _
  rw [Nat.add_mul, Nat.one_mul, show x - accCoord P n x * P + (accCoord P n x * P + P) = x + P by omega]

/-- Storage positions below `c` hold their final value, the others their initial value. -/
def AccInv (f : β → β → β) (b : Nat → β) (P n N c : Nat) (res : List β) : Prop :=
  res.length = N ∧ ∀ x, x < N → res[x]? = some (if x < c then accFin f b P n x else b x)

theorem AccInv.mono {c c' : Nat} {res : List β} (h : AccInv f b P n N c res) (hcc : c ≤ c')
    (hz : ∀ x, c ≤ x → x < c' → accCoord P n x = 0) : AccInv f b P n N c' res := by
  refine ⟨h.1, fun x hx => ?_⟩
  rw [h.2 x hx]
  by_cases h1 : x < c
  · rw [if_pos h1, if_pos (by omega)]
  · rw [if_neg h1]
    by_cases h2 : x < c'
    · rw [if_pos h2, accFin_zero (hz x (by omega) h2)]
    · rw [if_neg h2]

theorem accInner_spec (hP : 0 < P) : ∀ (m pos : Nat) (res : List β),
    (∀ j, j < m → accCoord P n (pos + j) + 1 < n) → pos + m + P ≤ N → AccInv f b P n N (pos + P) res →
    ∃ res', accInner f P m pos res = some (pos + m, res') ∧ AccInv f b P n N (pos + m + P) res'
  | 0, pos, res, _, _, hi => ⟨res, rfl, hi⟩
  | m + 1, pos, res, hk, hN, hi => by
    have h1 := hi.2 pos (by omega)
    have h2 := hi.2 (pos + P) (by omega)
    rw [if_pos (by omega)] at h1
    rw [if_neg (by omega)] at h2
    have h0 : accCoord P n pos + 1 < n := hk 0 (by omega)
    unfold accInner
    rw [h1, h2]
    simp only
    rw [← accFin_succ (f := f) (b := b) hP h0]
    have hi' : AccInv f b P n N (pos + 1 + P) (res.set (pos + P) (accFin f b P n (pos + P))) := by
      refine ⟨by rw [List.length_set]; exact hi.1, fun x hx => ?_⟩
      rw [List.getElem?_set]
      by_cases hx' : pos + P = x
      · subst hx'
        rw [if_pos rfl, if_pos (by rw [hi.1]; exact hx), if_pos (by omega)]
      · rw [if_neg hx', hi.2 x hx]
        by_cases h3 : x < pos + P
        · rw [if_pos h3, if_pos (by omega)]
        · rw [if_neg h3, if_neg (by omega)]
    obtain ⟨res', g1, g2⟩ := accInner_spec hP m (pos + 1) _
      (fun j hj => by have := hk (j + 1) (by omega); rwa [show pos + 1 + j = pos + (j + 1) by omega])
      (by omega) hi'
    exact ⟨res', by rw [g1, show pos + 1 + m = pos + (m + 1) by omega],
      by rwa [show pos + (m + 1) + P = pos + 1 + m + P by omega]⟩

theorem accCoord_eq (hP : 0 < P) {i j : Nat} (hj : j < n * P) : accCoord P n (i * (n * P) + j) = j / P := by
  unfold accCoord
  rw [← Nat.mul_assoc, Nat.mul_comm, Nat.mul_add_div hP, Nat.add_comm, Nat.add_mul_mod_self_right,
    Nat.mod_eq_of_lt ((Nat.div_lt_iff_lt_mul hP).2 hj)]

theorem accOuter_spec (hP : 0 < P) (hn : 0 < n) : ∀ (k i : Nat) (res : List β), (i + k) * (n * P) = N →
    AccInv f b P n N (i * (n * P)) res →
    ∃ res', accOuter f P (n * P - P) k (i * (n * P)) res = some res' ∧ AccInv f b P n N N res'
  | 0, i, res, hN, hi => ⟨res, rfl, by rw [Nat.add_zero] at hN; rwa [hN] at hi⟩
  | k + 1, i, res, hN, hi => by
    have hle : P ≤ n * P := Nat.le_mul_of_pos_left _ hn
    have hN' : (i + 1) * (n * P) ≤ N := by rw [← hN]; exact Nat.mul_le_mul_right _ (by omega)
    rw [Nat.add_mul, Nat.one_mul] at hN'
    have hi1 := hi.mono (show i * (n * P) ≤ i * (n * P) + P by omega) (fun x h1 h2 => by
      obtain ⟨j, rfl⟩ : ∃ j, x = i * (n * P) + j := ⟨x - i * (n * P), by omega⟩
      rw [accCoord_eq hP (by omega)]
      exact Nat.div_eq_of_lt (by omega))
    obtain ⟨r1, g1, g2⟩ := accInner_spec hP (n * P - P) (i * (n * P)) res (fun j hj => by
      rw [accCoord_eq hP (by omega)]
      have : j / P < n - 1 := (Nat.div_lt_iff_lt_mul hP).2 (by rw [Nat.sub_mul, Nat.one_mul]; exact hj)
      omega) (by omega) hi1
    have e : i * (n * P) + (n * P - P) + P = (i + 1) * (n * P) := by
      rw [Nat.add_mul, Nat.one_mul]; omega
    rw [e] at g2
    obtain ⟨r2, g3, g4⟩ := accOuter_spec hP hn k (i + 1) r1 (by rw [← hN]; congr 1; omega) g2
    refine ⟨r2, ?_, g4⟩
    unfold accOuter
    rw [g1, Option.bind_some]
    simp only
    rw [e, g3]

theorem accOuter_nothing (s : Nat) : ∀ (k pos : Nat) (res : List β), accOuter f s 0 k pos res = some res
  | 0, _, _ => rfl
  | k + 1, pos, res => by
    unfold accOuter
    exact accOuter_nothing s k _ res

end Loop

/-! ### The initialisation loop -/

section Init
variable {g : β → β} {P n N : Nat}

theorem accInitInner_spec {s : Nat} : ∀ (m pos : Nat) (res : List β), s = 1 ∨ m ≤ 1 → pos + m ≤ res.length →
    ∃ res', accInitInner g s m pos res = some res' ∧ res'.length = res.length ∧
      ∀ x, res'[x]? = if pos ≤ x ∧ x < pos + m then (res[x]?).map g else res[x]?
  | 0, pos, res, _, _ => ⟨res, rfl, rfl, fun x => by rw [if_neg (by omega)]⟩
  | m + 1, pos, res, hs, hl => by
    have hlen : (res.modify pos g).length = res.length := by simp
    have hcase : (s = 1 ∧ (s = 1 ∨ m ≤ 1)) ∨ m = 0 := by
      rcases hs with h | h
      · exact .inl ⟨h, .inl h⟩
      · exact .inr (by omega)
    rcases hcase with ⟨rfl, hs'⟩ | rfl
    · obtain ⟨res', h1, h2, h3⟩ := accInitInner_spec m (pos + 1) (res.modify pos g) hs' (by omega)
      refine ⟨res', ?_, by omega, fun x => ?_⟩
      · unfold accInitInner
        rw [if_pos (by omega), h1]
      · rw [h3, List.getElem?_modify]
        by_cases hx : pos = x
        · subst hx
          rw [if_neg (by omega), if_pos (by omega)]
          cases res[pos]? <;> simp
        · by_cases hx2 : pos ≤ x ∧ x < pos + (m + 1)
          · rw [if_pos (by omega), if_pos hx2]
            simp only [if_neg hx]
            cases res[x]? <;> rfl
          · rw [if_neg (by omega), if_neg hx2]
            simp only [if_neg hx]
            cases res[x]? <;> rfl
    · refine ⟨res.modify pos g, ?_, hlen, fun x => ?_⟩
      · unfold accInitInner
        rw [if_pos (by omega)]; rfl
      · rw [List.getElem?_modify]
        by_cases hx : pos = x
        · subst hx
          rw [if_pos (by omega)]
          cases res[pos]? <;> simp
        · rw [if_neg (by omega)]
          simp only [if_neg hx]
          cases res[x]? <;> rfl

theorem accInitOuter_spec {so si : Nat} (hP : 0 < P) (hn : 0 < n) (hsi : si = 1 ∨ P = 1) :
    ∀ (k i : Nat) (res : List β), so = n * P ∨ (i = 0 ∧ k ≤ 1) → (i + k) * (n * P) ≤ res.length →
    ∃ res', accInitOuter g so si P k i res = some res' ∧ res'.length = res.length ∧
      ∀ x, res'[x]? = if i * (n * P) ≤ x ∧ x < (i + k) * (n * P) ∧ accCoord P n x = 0 then
        (res[x]?).map g else res[x]?
  | 0, i, res, _, _ => ⟨res, rfl, rfl, fun x => by
      rw [if_neg]; rintro ⟨h1, h2, _⟩; rw [Nat.add_zero] at h2; omega⟩
  | k + 1, i, res, hso, hl => by
    have hle : P ≤ n * P := Nat.le_mul_of_pos_left _ hn
    have e1 : i * so = i * (n * P) := by
      rcases hso with h | ⟨rfl, _⟩
      · rw [h]
      · simp
    have hl1 : (i + 1) * (n * P) ≤ res.length :=
      Nat.le_trans (Nat.mul_le_mul_right _ (by omega)) hl
    rw [Nat.add_mul, Nat.one_mul] at hl1
    obtain ⟨r1, h1, h2, h3⟩ := accInitInner_spec (g := g) (s := si) P (i * so) res
      (hsi.imp id fun h => by omega) (by rw [e1]; omega)
    have hso' : so = n * P ∨ (i + 1 = 0 ∧ k ≤ 1) ∨ k = 0 := by
      rcases hso with h | ⟨_, h⟩
      · exact .inl h
      · exact .inr (.inr (by omega))
    have hcoord : ∀ x, i * (n * P) ≤ x → x < (i + 1) * (n * P) →
        (accCoord P n x = 0 ↔ x < i * (n * P) + P) := by
      intro x hx1 hx2
      rw [Nat.add_mul, Nat.one_mul] at hx2
      obtain ⟨j, rfl⟩ : ∃ j, x = i * (n * P) + j := ⟨x - i * (n * P), by omega⟩
      rw [accCoord_eq hP (by omega), Nat.div_eq_zero_iff]
      omega
    have step : ∀ x, (r1[x]?) = if i * (n * P) ≤ x ∧ x < (i + 1) * (n * P) ∧ accCoord P n x = 0 then
        (res[x]?).map g else res[x]? := by
      intro x
      rw [h3, e1]
      by_cases hx : i * (n * P) ≤ x ∧ x < (i + 1) * (n * P)
      · have := hcoord x hx.1 hx.2
        by_cases hz : accCoord P n x = 0
        · rw [if_pos ⟨hx.1, this.1 hz⟩, if_pos ⟨hx.1, hx.2, hz⟩]
        · rw [if_neg (fun h => hz (this.2 h.2)), if_neg (fun h => hz h.2.2)]
      · rw [if_neg, if_neg (fun h => hx ⟨h.1, h.2.1⟩)]
        intro h
        apply hx
        refine ⟨h.1, ?_⟩
        rw [Nat.add_mul, Nat.one_mul]; omega
    rcases hso' with h | h | rfl
    · obtain ⟨r2, g1, g2, g3⟩ := accInitOuter_spec (si := si) hP hn hsi k (i + 1) r1 (.inl h)
        (by rw [h2, show i + 1 + k = i + (k + 1) by omega]; exact hl)
      refine ⟨r2, ?_, by omega, fun x => ?_⟩
      · unfold accInitOuter
        rw [h1, Option.bind_some, g1]
      · rw [g3, step]
        have e2 : (i + 1 + k) * (n * P) = (i + (k + 1)) * (n * P) := by congr 1; omega
        have e3 : (i + 1) * (n * P) ≤ (i + (k + 1)) * (n * P) := Nat.mul_le_mul_right _ (by omega)
        rw [e2]
        by_cases hz : accCoord P n x = 0
        · by_cases hlo : x < (i + 1) * (n * P)
          · rw [if_neg (fun h => absurd h.1 (by omega))]
            by_cases h4 : i * (n * P) ≤ x
            · rw [if_pos ⟨h4, hlo, hz⟩, if_pos ⟨h4, by omega, hz⟩]
            · rw [if_neg (fun h => h4 h.1), if_neg (fun h => h4 h.1)]
          · rw [if_neg (fun h => hlo h.2.1) (c := i * (n * P) ≤ x ∧ x < (i + 1) * (n * P) ∧ accCoord P n x = 0)]
            have h5 : i * (n * P) ≤ (i + 1) * (n * P) := Nat.mul_le_mul_right _ (by omega)
            by_cases h4 : x < (i + (k + 1)) * (n * P)
            · rw [if_pos ⟨by omega, h4, hz⟩, if_pos ⟨by omega, h4, hz⟩]
            · rw [if_neg (fun h => h4 h.2.1), if_neg (fun h => h4 h.2.1)]
        · rw [if_neg (fun h => hz h.2.2), if_neg (fun h => hz h.2.2), if_neg (fun h => hz h.2.2)]
    · omega
    · refine ⟨r1, ?_, h2, step⟩
      unfold accInitOuter
      rw [h1]; rfl

theorem accInitOuter_nothing {so si : Nat} : ∀ (k i : Nat) (res : List β),
    accInitOuter g so si 0 k i res = some res
  | 0, _, _ => rfl
  | k + 1, i, res => by
    unfold accInitOuter
    exact accInitOuter_nothing k (i + 1) res

end Init

/-! ### Storage positions and indices -/

section Split
variable {f : β → β → β} {pre post : List Nat} {n : Nat}

theorem set_split {t s : List Nat} {k k' : Nat} (ht : t.length = pre.length) :
    (t ++ k :: s).set pre.length k' = t ++ k' :: s := by
  rw [← ht]; simp

theorem getD_split {t s : List Nat} {k : Nat} (ht : t.length = pre.length) :
    (t ++ k :: s).getD pre.length 0 = k := by
  rw [← ht]; simp

theorem index_split {idx : List Nat} (h : InBounds (pre ++ n :: post) idx) :
    ∃ t k s, idx = t ++ k :: s ∧ InBounds pre t ∧ k < n ∧ InBounds post s := by
  have hl := h.length_eq
  simp only [List.length_append, List.length_cons] at hl
  have e : idx = idx.take pre.length ++ idx.drop pre.length := (List.take_append_drop _ _).symm
  have h1 : (idx.take pre.length).length = pre.length := by simp; omega
  rw [e, inBounds_append_iff h1] at h
  cases hd : idx.drop pre.length with
  | nil => rw [hd] at h; exact h.2.elim
  | cons k s =>
    rw [hd] at h
    exact ⟨_, k, s, by rw [← hd]; exact e, h.1, h.2.1, h.2.2⟩

theorem rank_split {t s : List Nat} {k : Nat} (ht : t.length = pre.length) :
    rowRank (pre ++ n :: post) (t ++ k :: s) =
      rowRank pre t * (n * numel post) + (k * numel post + rowRank post s) := by
  rw [rowRank_append ht, rowRank_cons, numel_cons]

/-- The storage after the loops holds the prefix folds. -/
theorem acc_values {g : β → β} {val : List Nat → β} {b : Nat → β} (h0 : numel (pre ++ n :: post) ≠ 0)
    (hb : ∀ idx, InBounds (pre ++ n :: post) idx → b (rowRank (pre ++ n :: post) idx) =
      if idx.getD pre.length 0 = 0 then g (val idx) else val idx) {res : List β}
    (hi : AccInv f b (numel post) n (numel (pre ++ n :: post)) (numel (pre ++ n :: post)) res) :
    res = (rowIndices (pre ++ n :: post)).map (accValue f g val pre.length) := by
  have hn : n ≠ 0 ∧ numel post ≠ 0 := by
    rw [numel_append, numel_cons] at h0
    exact ⟨fun e => h0 (by simp [e]), fun e => h0 (by simp [e])⟩
  apply List.ext_getElem?
  intro x
  by_cases hx : x < numel (pre ++ n :: post)
  · rw [hi.2 x hx, if_pos hx, rowIndices_eq_nth, List.getElem?_map, List.getElem?_map, List.getElem?_range hx,
      Option.map_some, Option.map_some]
    congr 1
    obtain ⟨hbd, hr⟩ := nthIndex_spec hx
    obtain ⟨t, k, s, he, ht, hk, hs⟩ := index_split hbd
    rw [he] at hr ⊢
    rw [rank_split ht.length_eq] at hr
    have hs' := rowRank_lt hs
    have hP : 0 < numel post := by omega
    have hkP : k * numel post + rowRank post s < n * numel post := by
      have : (k + 1) * numel post ≤ n * numel post := Nat.mul_le_mul_right _ hk
      rw [Nat.add_mul, Nat.one_mul] at this
      omega
    have hc : accCoord (numel post) n x = k := by
      rw [← hr, accCoord_eq hP hkP, Nat.mul_comm, Nat.mul_add_div hP, Nat.div_eq_of_lt hs', Nat.add_zero]
    unfold accFin accValue
    rw [hc, accCol_eq, getD_split ht.length_eq, set_split ht.length_eq]
    have hx0 : x - k * numel post = rowRank (pre ++ n :: post) (t ++ 0 :: s) := by
      rw [rank_split ht.length_eq]; omega
    have hbk : ∀ m, m < n → InBounds (pre ++ n :: post) (t ++ m :: s) :=
      fun m hm => ht.append ⟨hm, hs⟩
    rw [hx0, hb _ (hbk 0 (by omega)), getD_split ht.length_eq, if_pos rfl]
    congr 1
    apply List.map_congr_left
    intro m hm
    rw [List.mem_range'_1] at hm
    have e : rowRank (pre ++ n :: post) (t ++ 0 :: s) + m * numel post =
        rowRank (pre ++ n :: post) (t ++ m :: s) := by
      rw [rank_split ht.length_eq, rank_split ht.length_eq]; omega
    rw [e, hb _ (hbk m (by omega)), getD_split ht.length_eq, if_neg (by omega), set_split ht.length_eq]
  · rw [List.getElem?_eq_none (by rw [hi.1]; omega), List.getElem?_eq_none (by
      rw [List.length_map, length_rowIndices]; omega)]

theorem coord_rank {idx : List Nat} (h : InBounds (pre ++ n :: post) idx) :
    accCoord (numel post) n (rowRank (pre ++ n :: post) idx) = idx.getD pre.length 0 := by
  obtain ⟨t, k, s, rfl, ht, hk, hs⟩ := index_split h
  have hs' := rowRank_lt hs
  have hP : 0 < numel post := by omega
  have hkP : k * numel post + rowRank post s < n * numel post := by
    have : (k + 1) * numel post ≤ n * numel post := Nat.mul_le_mul_right _ hk
    rw [Nat.add_mul, Nat.one_mul] at this
    omega
  rw [rank_split ht.length_eq, accCoord_eq hP hkP, Nat.mul_comm, Nat.mul_add_div hP, Nat.div_eq_of_lt hs',
    Nat.add_zero, getD_split ht.length_eq]

end Split

/-! ### The loops on a row-major storage -/

theorem minStride_eq {m : Int} : ∀ {l : List Int}, m ∈ l → (∀ x ∈ l, m ≤ x) → minStride l = m
  | [], h, _ => by simp at h
  | [s], h, _ => by simp at h; simp [minStride, h]
  | s :: t :: l, h, hle => by
    unfold minStride
    simp only
    by_cases hm : m ∈ t :: l
    · rw [minStride_eq hm fun x hx => hle x (List.mem_cons_of_mem _ hx)]
      have := hle s (List.mem_cons_self ..)
      split
      · rfl
      · omega
    · have hs : m = s := by
        rcases List.mem_cons.1 h with h | h
        · exact h
        · exact absurd h hm
      subst hs
      rw [if_neg]
      have hmem : ∀ (l : List Int), l ≠ [] → minStride l ∈ l := by
        intro l
        induction l with
        | nil => simp
        | cons a l ih =>
          intro _
          cases l with
          | nil => simp [minStride]
          | cons b l =>
            unfold minStride
            simp only
            split
            · exact List.mem_cons_of_mem _ (ih (by simp))
            · simp
      have := hle _ (List.mem_cons_of_mem _ (hmem (t :: l) (by simp)))
      omega

theorem rowStrides_drop (pre rest : List Nat) :
    (rowStrides (pre ++ rest)).1.drop pre.length = (rowStrides rest).1 := by
  induction pre with
  | nil => rfl
  | cons a pre ih => simpa [rowStrides] using ih

theorem rowStrides_take {pre rest : List Nat} (h1 : 1 ∉ pre) (h0 : numel pre ≠ 0) :
    (∀ st ∈ (rowStrides (pre ++ rest)).1.take pre.length, (numel rest : Int) ≤ st) ∧
    (pre ≠ [] → (numel rest : Int) ∈ (rowStrides (pre ++ rest)).1.take pre.length) := by
  induction pre with
  | nil => simp
  | cons a pre ih =>
    rw [List.mem_cons, not_or] at h1
    rw [numel_cons] at h0
    have h0' : numel pre ≠ 0 := fun e => h0 (by simp [e])
    obtain ⟨ih1, ih2⟩ := ih h1.2 h0'
    have hst : adaptStride a (rowStrides (pre ++ rest)).2 = (numel pre : Int) * numel rest := by
      unfold adaptStride
      rw [if_neg (fun e => h1.1 e.symm), rowStrides_size, numel_append, Int.natCast_mul]
    simp only [List.cons_append, rowStrides, List.length_cons, List.take_succ_cons]
    rw [hst]
    constructor
    · intro st hst'
      rcases List.mem_cons.1 hst' with rfl | h
      · rw [← Int.natCast_mul]
        exact Int.ofNat_le.2 (Nat.le_mul_of_pos_left _ (by omega))
      · exact ih1 st h
    · intro _
      by_cases hp : pre = []
      · subst hp; simp
      · exact List.mem_cons_of_mem _ (ih2 hp)

theorem rowStrides_at (pre post : List Nat) (n : Nat) :
    (rowStrides (pre ++ n :: post)).1.getD pre.length 0 = adaptStride n (numel post) := by
  have := rowStrides_drop pre (n :: post)
  have h2 : ((rowStrides (pre ++ n :: post)).1.drop pre.length)[0]? = some (adaptStride n (numel post)) := by
    rw [this]; simp [rowStrides, rowStrides_size]
  rw [List.getElem?_drop, Nat.add_zero] at h2
  rw [List.getD_eq_getElem?_getD, h2]; rfl

/-- The initialisation followed by the accumulation, on sizes and strides already computed. -/
def accLoops (f : β → β → β) (g : Option (β → β)) (so si m1 m2 s inner k : Nat) (data : List β) :
    Option (List β) :=
  (match g with
    | none => some data
    | some g => accInitOuter g so si m1 m2 0 data).bind fun res => accOuter f s inner k 0 res

theorem accLoops_spec {f : β → β → β} {g : Option (β → β)} {pre post : List Nat} {n so si s inner k : Nat}
    (val : List Nat → β) (h0 : numel (pre ++ n :: post) ≠ 0)
    (hg : g ≠ none → (so = n * numel post ∨ numel pre = 1) ∧ (si = 1 ∨ numel post = 1))
    (hl : (s = numel post ∧ inner = n * numel post - numel post ∧ k = numel pre) ∨
      (n = 1 ∧ (k = 0 ∨ inner = 0))) :
    accLoops f g so si (numel post) (numel pre) s inner k ((rowIndices (pre ++ n :: post)).map val) =
      some ((rowIndices (pre ++ n :: post)).map (accValue f (g.getD id) val pre.length)) := by
  have hsz : numel (pre ++ n :: post) = numel pre * (n * numel post) := by rw [numel_append, numel_cons]
  have hn : n ≠ 0 := by rintro rfl; simp [hsz] at h0
  have hP : numel post ≠ 0 := by intro e; simp [hsz, e] at h0
  -- storage after the initialisation
  obtain ⟨r, hr, hlen, hval⟩ : ∃ r, (match g with
      | none => some ((rowIndices (pre ++ n :: post)).map val)
      | some g => accInitOuter g so si (numel post) (numel pre) 0 ((rowIndices (pre ++ n :: post)).map val)) =
        some r ∧ r.length = numel (pre ++ n :: post) ∧
        ∀ idx, InBounds (pre ++ n :: post) idx → r[rowRank (pre ++ n :: post) idx]? =
          some (if idx.getD pre.length 0 = 0 then (g.getD id) (val idx) else val idx) := by
    have hd : ∀ idx, InBounds (pre ++ n :: post) idx →
        ((rowIndices (pre ++ n :: post)).map val)[rowRank (pre ++ n :: post) idx]? = some (val idx) := by
      intro idx hidx
      have := rowRank_lt hidx
      rw [rowIndices_eq_nth, List.getElem?_map, List.getElem?_map, List.getElem?_range this, Option.map_some,
        Option.map_some, nthIndex_rowRank hidx]
    cases g with
    | none =>
      refine ⟨_, rfl, by rw [List.length_map, length_rowIndices], fun idx hidx => ?_⟩
      rw [hd idx hidx]; simp
    | some g =>
      obtain ⟨hso, hsi⟩ := hg (by simp)
      obtain ⟨r, h1, h2, h3⟩ := accInitOuter_spec (g := g) (so := so) (si := si) (P := numel post) (n := n)
        (by omega) (by omega) hsi (numel pre) 0 ((rowIndices (pre ++ n :: post)).map val)
        (hso.imp id fun h => ⟨rfl, by omega⟩)
        (by rw [List.length_map, length_rowIndices, Nat.zero_add, hsz])
      refine ⟨r, h1, by rw [h2, List.length_map, length_rowIndices], fun idx hidx => ?_⟩
      have hlt := rowRank_lt hidx
      rw [hsz] at hlt
      rw [h3, hd idx hidx, coord_rank hidx]
      by_cases hz : idx.getD pre.length 0 = 0
      · rw [if_pos ⟨by omega, by rw [Nat.zero_add]; exact hlt, hz⟩, if_pos hz]; rfl
      · rw [if_neg (fun h => hz h.2.2), if_neg hz]
  unfold accLoops
  rw [hr, Option.bind_some]
  have hr0 : ∃ d : β, True := by
    have : 0 < r.length := by omega
    exact ⟨r[0], trivial⟩
  obtain ⟨d, -⟩ := hr0
  have hb : ∀ idx, InBounds (pre ++ n :: post) idx → (fun x => r.getD x d) (rowRank (pre ++ n :: post) idx) =
      if idx.getD pre.length 0 = 0 then (g.getD id) (val idx) else val idx := by
    intro idx hidx
    simp only [List.getD_eq_getElem?_getD, hval idx hidx, Option.getD_some]
  have hget : ∀ x, x < numel (pre ++ n :: post) → r[x]? = some (r.getD x d) := by
    intro x hx
    rw [List.getD_eq_getElem?_getD, List.getElem?_eq_getElem (by omega)]; rfl
  have hinv0 : AccInv f (fun x => r.getD x d) (numel post) n (numel (pre ++ n :: post)) 0 r :=
    ⟨hlen, fun x hx => by rw [if_neg (by omega), hget x hx]⟩
  rcases hl with ⟨rfl, rfl, rfl⟩ | ⟨rfl, hk⟩
  · obtain ⟨res, h1, h2⟩ := accOuter_spec (f := f) (b := fun x => r.getD x d) (P := numel post) (n := n)
      (N := numel (pre ++ n :: post)) (by omega) (by omega) (numel pre) 0 r
      (by rw [hsz, Nat.zero_add]) (by rw [Nat.zero_mul]; exact hinv0)
    rw [Nat.zero_mul] at h1
    rw [h1, acc_values h0 hb h2]
  · have hsame : accOuter f s inner k 0 r = some r := by
      rcases hk with rfl | rfl
      · rfl
      · exact accOuter_nothing s k 0 r
    rw [hsame]
    congr 1
    refine acc_values h0 hb (hinv0.mono (Nat.zero_le _) fun x _ _ => ?_)
    exact Nat.mod_one _

/-! ### The accumulation along an axis -/

/-- Shapes on which the strides computed for the initialisation pass are right: on each side of the
axis, no unit extent unless that side has one element. -/
def AccInitOk (sh : List Nat) (axis : Nat) : Prop :=
  (numel (sh.take axis) = 1 ∨ 1 ∉ sh.take axis) ∧
  (numel (sh.drop (axis + 1)) = 1 ∨ 1 ∉ sh.drop (axis + 1))

instance (sh : List Nat) (axis : Nat) : Decidable (AccInitOk sh axis) := by
  unfold AccInitOk; infer_instance

theorem split_at {sh : List Nat} {axis : Nat} (h : axis < sh.length) :
    ∃ pre n post, sh = pre ++ n :: post ∧ pre.length = axis :=
  ⟨sh.take axis, sh[axis], sh.drop (axis + 1), by
    rw [← List.drop_eq_getElem_cons h, List.take_append_drop], by simp; omega⟩

theorem accLoops_empty {f : β → β → β} {g : Option (β → β)} {so si m1 m2 s inner k : Nat}
    (hm : m1 = 0 ∨ m2 = 0) (hk : k = 0 ∨ inner = 0) : accLoops f g so si m1 m2 s inner k [] = some [] := by
  unfold accLoops
  have h1 : accOuter f s inner k 0 [] = some [] := by
    rcases hk with rfl | rfl
    · rfl
    · exact accOuter_nothing s k 0 []
  cases g with
  | none => exact h1
  | some g =>
    have h2 : accInitOuter g so si m1 m2 0 [] = some [] := by
      rcases hm with rfl | rfl
      · exact accInitOuter_nothing m2 0 []
      · rfl
    simp only [h2, Option.bind_some, h1]

/-- The loops, with the sizes the code computes from extents before (`pre`) and after (`post`) the axis in
decreasing order of strides. -/
theorem accLoops_code {f : β → β → β} {g : Option (β → β)} {pre post : List Nat} {n so si k inner : Nat}
    (val : List Nat → β) (hsz : numel (pre ++ n :: post) < 2 ^ 64) (hn : n ≠ 0)
    (hso : g ≠ none → numel (pre ++ n :: post) ≠ 0 → (so = n * numel post ∨ numel pre = 1) ∧
      (si = 1 ∨ numel post = 1))
    (hk : (k = (if n ≠ 1 then 1 else 0) * numel pre ∧ inner = n * numel post) ∨
      (k = numel pre ∧ inner = (if n ≠ 1 then 1 else 0) * (n * numel post))) :
    accLoops f g so si (numel post) (numel pre) (adaptStride n (numel post : Int)).toNat
      (((inner : Int) - ((adaptStride n (numel post : Int)).toNat : Int)) % 2 ^ 64).toNat k
      ((rowIndices (pre ++ n :: post)).map val) =
      some ((rowIndices (pre ++ n :: post)).map (accValue f (g.getD id) val pre.length)) := by
  have hnum : numel (pre ++ n :: post) = numel pre * (n * numel post) := by rw [numel_append, numel_cons]
  by_cases h0 : numel (pre ++ n :: post) = 0
  · have hemp : rowIndices (pre ++ n :: post) = [] := by
      rw [← List.length_eq_zero_iff, length_rowIndices, h0]
    rw [hemp]
    have hz : numel post = 0 ∨ numel pre = 0 := by
      rw [hnum] at h0
      rcases Nat.mul_eq_zero.1 h0 with h | h
      · exact .inr h
      · exact .inl ((Nat.mul_eq_zero.1 h).resolve_left hn)
    refine accLoops_empty hz ?_
    rcases hz with hz | hz
    · right
      have hs : adaptStride n (numel post : Int) = 0 := by unfold adaptStride; rw [hz]; split <;> rfl
      rw [hs]
      rcases hk with ⟨_, rfl⟩ | ⟨_, rfl⟩ <;> rw [hz] <;> simp
    · left
      rcases hk with ⟨rfl, _⟩ | ⟨rfl, _⟩ <;> rw [hz]
      simp
  · refine accLoops_spec val h0 (fun h => hso h h0) ?_
    by_cases h1 : n = 1
    · right
      refine ⟨h1, ?_⟩
      rcases hk with ⟨rfl, rfl⟩ | ⟨rfl, rfl⟩
      · left; simp [h1]
      · right; simp [h1, adaptStride]
    · left
      have hs : adaptStride n (numel post : Int) = (numel post : Int) := by unfold adaptStride; rw [if_neg h1]
      rw [hs, Int.toNat_natCast]
      have hpre : numel pre ≠ 0 := by intro e; rw [hnum, e] at h0; simp at h0
      have hle : n * numel post ≤ numel (pre ++ n :: post) := by
        rw [hnum]; exact Nat.le_mul_of_pos_left _ (by omega)
      have hle2 : numel post ≤ n * numel post := Nat.le_mul_of_pos_left _ (by omega)
      have hin : ((((n * numel post : Nat) : Int) - (numel post : Int)) % 2 ^ 64).toNat =
          n * numel post - numel post := by
        generalize n * numel post = A at *
        omega
      refine ⟨rfl, ?_, ?_⟩
      · rcases hk with ⟨_, rfl⟩ | ⟨_, rfl⟩
        · exact hin
        · rw [if_pos h1, Nat.one_mul]; exact hin
      · rcases hk with ⟨rfl, _⟩ | ⟨rfl, _⟩
        · rw [if_pos h1, Nat.one_mul]
        · rfl

/-- Smallest stride before the axis: the one of the axis block, except with a unit extent. -/
theorem minStride_pre {pre rest : List Nat} (h1 : 1 ∉ pre) (h0 : numel pre ≠ 0) (hp : pre ≠ []) {l : List Int}
    (hl : ∀ x, x ∈ l ↔ x ∈ (rowStrides (pre ++ rest)).1.take pre.length) : minStride l = (numel rest : Int) := by
  obtain ⟨h2, h3⟩ := rowStrides_take (rest := rest) h1 h0
  exact minStride_eq ((hl _).2 (h3 hp)) fun x hx => h2 x ((hl x).1 hx)

theorem accumulateAxis_row {f : β → β → β} {g : Option (β → β)} {pre post : List Nat} {n : Nat}
    (val : List Nat → β) (hsz : numel (pre ++ n :: post) < 2 ^ 64)
    (hg : g ≠ none → (numel pre = 1 ∨ 1 ∉ pre) ∧ (numel post = 1 ∨ 1 ∉ post)) :
    accumulateAxis .row_major .row_major (pre ++ n :: post) ((rowIndices (pre ++ n :: post)).map val) f g
      pre.length = .ok ((rowIndices (pre ++ n :: post)).map (accValue f (g.getD id) val pre.length)) := by
  have hget : (pre ++ n :: post).getD pre.length 0 = n := getD_split rfl
  unfold accumulateAxis
  rw [if_neg (by simp), hget]
  by_cases hn : n = 0
  · rw [if_pos hn]
    have hemp : rowIndices (pre ++ n :: post) = [] := by
      rw [← List.length_eq_zero_iff, length_rowIndices, numel_append, numel_cons, hn]; simp
    rw [hemp]; rfl
  · rw [if_neg hn]
    have hst : (computeStrides .row_major .row_major (pre ++ n :: post)).1 = (rowStrides (pre ++ n :: post)).1 := by
      simp [computeStrides]
    have hsizes : accSizes .row_major (pre ++ n :: post) pre.length =
        ((if n ≠ 1 then 1 else 0) * numel pre, n * numel post) := by
      unfold accSizes
      rw [hget]
      simp only [if_pos, List.take_left', List.drop_left', foldl_mul_eq, numel_cons, Nat.one_mul]
    simp only [hst, rowStrides_at, hsizes]
    have hdrop : (pre ++ n :: post).drop (pre.length + 1) = post := by
      rw [← List.drop_drop]; simp
    have hsdrop : (rowStrides (pre ++ n :: post)).1.drop (pre.length + 1) = (rowStrides post).1 := by
      rw [← List.drop_drop, rowStrides_drop]; rfl
    have key := accLoops_code (f := f) (g := g) (pre := pre) (post := post) (n := n)
      (so := (if pre.length = 0 then 1 else minStride ((rowStrides (pre ++ n :: post)).1.take pre.length)).toNat)
      (si := (if pre.length + 1 = (rowStrides (pre ++ n :: post)).1.length then 1 else
        minStride ((rowStrides (pre ++ n :: post)).1.drop (pre.length + 1))).toNat) val hsz hn ?_ (.inl ⟨rfl, rfl⟩)
    · unfold accLoops at key
      cases g with
      | none => simp only at key; simp only [Option.bind_some] at key ⊢; rw [key]
      | some g =>
        simp only at key
        have hinit : accInit .row_major (pre ++ n :: post) (rowStrides (pre ++ n :: post)).1 g pre.length
            ((rowIndices (pre ++ n :: post)).map val) = accInitOuter g
              ((if pre.length = 0 then 1 else minStride ((rowStrides (pre ++ n :: post)).1.take pre.length)).toNat)
              ((if pre.length + 1 = (rowStrides (pre ++ n :: post)).1.length then 1 else
                minStride ((rowStrides (pre ++ n :: post)).1.drop (pre.length + 1))).toNat)
              (numel post) (numel pre) 0 ((rowIndices (pre ++ n :: post)).map val) := by
          unfold accInit
          simp only [foldl_mul_eq, Nat.one_mul, hdrop, List.take_left']
          rw [if_neg (by decide)]
        simp only [hinit, key]
    · intro hgn h0
      obtain ⟨ha, hb⟩ := hg hgn
      rw [numel_append, numel_cons] at h0
      constructor
      · rcases ha with h | h
        · exact .inr h
        · by_cases hp : pre = []
          · right; subst hp; rfl
          · left
            rw [if_neg (by simpa using hp), minStride_pre (rest := n :: post) h (fun e => h0 (by simp [e])) hp
              (fun x => Iff.rfl), Int.toNat_natCast, numel_cons]
      · rcases hb with h | h
        · exact .inr h
        · by_cases hp : post = []
          · right; subst hp; rfl
          · left
            rw [if_neg (by simpa using hp), hsdrop, minStride_pre (pre := post) (rest := []) h
              (fun e => h0 (by simp [e])) hp (fun x => by
                rw [List.append_nil, List.take_of_length_le (by simp)])]
            rfl

theorem accValue_rev {f : β → β → β} {g : β → β} {val : List Nat → β} {axis : Nat} {idx : List Nat}
    (h : axis < idx.length) :
    accValue f g val axis idx = accValue f g (val ∘ List.reverse) (idx.length - 1 - axis) idx.reverse := by
  obtain ⟨t, k, s, rfl, rfl⟩ := split_at h
  have hl : (t ++ k :: s).length - 1 - t.length = s.reverse.length := by simp
  have hr : (t ++ k :: s).reverse = s.reverse ++ k :: t.reverse := by simp
  unfold accValue
  rw [hl, hr, getD_split (pre := t) rfl, getD_split (pre := s.reverse) rfl]
  simp only [Function.comp, set_split (pre := t) rfl, set_split (pre := s.reverse) rfl]
  simp

theorem accumulateAxis_col {f : β → β → β} {g : Option (β → β)} {pre post : List Nat} {n : Nat}
    (val : List Nat → β) (hsz : numel (pre ++ n :: post) < 2 ^ 64)
    (hg : g ≠ none → (numel pre = 1 ∨ 1 ∉ pre) ∧ (numel post = 1 ∨ 1 ∉ post)) :
    accumulateAxis .column_major .column_major (pre ++ n :: post) ((colIndices (pre ++ n :: post)).map val) f g
      pre.length = .ok ((colIndices (pre ++ n :: post)).map (accValue f (g.getD id) val pre.length)) := by
  have hget : (pre ++ n :: post).getD pre.length 0 = n := getD_split rfl
  have hrev : (pre ++ n :: post).reverse = post.reverse ++ n :: pre.reverse := by simp
  have hdata : (colIndices (pre ++ n :: post)).map val =
      (rowIndices (post.reverse ++ n :: pre.reverse)).map (val ∘ List.reverse) := by
    rw [colIndices_eq_reverse, List.map_map, hrev]
  have hres : (colIndices (pre ++ n :: post)).map (accValue f (g.getD id) val pre.length) =
      (rowIndices (post.reverse ++ n :: pre.reverse)).map
        (accValue f (g.getD id) (val ∘ List.reverse) post.reverse.length) := by
    rw [colIndices_eq_reverse, List.map_map, hrev]
    apply List.map_congr_left
    intro idx hidx
    have hl := (mem_rowIndices.1 hidx).length_eq
    simp only [List.length_append, List.length_cons, List.length_reverse] at hl
    simp only [Function.comp]
    rw [accValue_rev (by simp; omega), List.reverse_reverse]
    congr 1
    simp
    omega
  rw [hdata, hres]
  unfold accumulateAxis
  rw [if_neg (by simp), hget]
  by_cases hn : n = 0
  · rw [if_pos hn]
    have hemp : rowIndices (post.reverse ++ n :: pre.reverse) = [] := by
      rw [← List.length_eq_zero_iff, length_rowIndices, numel_append, numel_cons, hn]; simp
    rw [hemp]; rfl
  · rw [if_neg hn]
    have hst : (computeStrides .column_major .column_major (pre ++ n :: post)).1 =
        (rowStrides (post.reverse ++ n :: pre.reverse)).1.reverse := by
      rw [rowStrides_reverse, ← hrev, List.reverse_reverse]
      simp [computeStrides]
    have hsizes : accSizes .column_major (pre ++ n :: post) pre.length =
        (numel post, (if n ≠ 1 then 1 else 0) * (n * numel pre)) := by
      unfold accSizes
      rw [hget, if_neg (by decide)]
      have h1 : (pre ++ n :: post).drop (pre.length + 1) = post := by rw [← List.drop_drop]; simp
      have h2 : (pre ++ n :: post).take (pre.length + 1) = pre ++ [n] := by
        rw [List.take_append]; simp [List.take_of_length_le]
      simp only [h1, h2, foldl_mul_eq, numel_append, numel_cons, numel_nil, Nat.one_mul, Nat.mul_one]
      rw [Nat.mul_comm n]
    have hat : ((rowStrides (post.reverse ++ n :: pre.reverse)).1.reverse).getD pre.length 0 =
        adaptStride n (numel pre : Int) := by
      have h1 := rowStrides_at post.reverse pre.reverse n
      rw [numel_reverse] at h1
      rw [← h1, List.getD_eq_getElem?_getD, List.getElem?_reverse (by simp; omega), ← List.getD_eq_getElem?_getD]
      congr 1
      simp
    simp only [hst, hat, hsizes]
    have hdrop : (pre ++ n :: post).drop (pre.length + 1) = post := by
      rw [← List.drop_drop]; simp
    have hsdrop : ∀ x, x ∈ (rowStrides (post.reverse ++ n :: pre.reverse)).1.reverse.drop (pre.length + 1) ↔
        x ∈ (rowStrides (post.reverse ++ n :: pre.reverse)).1.take post.reverse.length := by
      intro x
      rw [List.drop_reverse, List.mem_reverse]
      simp only [rowStrides_length, List.length_append, List.length_cons, List.length_reverse]
      rw [show post.length + (pre.length + 1) - (pre.length + 1) = post.length by omega]
    have hstake : ∀ x, x ∈ (rowStrides (post.reverse ++ n :: pre.reverse)).1.reverse.take pre.length ↔
        x ∈ (rowStrides (pre.reverse ++ [])).1.take pre.reverse.length := by
      intro x
      rw [List.take_reverse, List.mem_reverse, List.append_nil, List.take_of_length_le (by simp)]
      simp only [rowStrides_length, List.length_append, List.length_cons, List.length_reverse]
      rw [show post.length + (pre.length + 1) - pre.length = post.reverse.length + 1 by simp; omega,
        ← List.drop_drop, rowStrides_drop]
      rfl
    have key := accLoops_code (f := f) (g := g) (pre := post.reverse) (post := pre.reverse) (n := n)
      (so := (if pre.length + 1 = (rowStrides (post.reverse ++ n :: pre.reverse)).1.reverse.length then 1 else
        minStride ((rowStrides (post.reverse ++ n :: pre.reverse)).1.reverse.drop (pre.length + 1))).toNat)
      (si := (if pre.length = 0 then 1 else
        minStride ((rowStrides (post.reverse ++ n :: pre.reverse)).1.reverse.take pre.length)).toNat)
      (val ∘ List.reverse) (by rw [← hrev, numel_reverse]; exact hsz) hn ?_ (.inr ⟨rfl, rfl⟩)
    · unfold accLoops at key
      simp only [numel_reverse] at key
      cases g with
      | none => simp only at key; simp only [Option.bind_some] at key ⊢; rw [key]
      | some g =>
        simp only at key
        have hinit : accInit .column_major (pre ++ n :: post)
            (rowStrides (post.reverse ++ n :: pre.reverse)).1.reverse g pre.length
            ((rowIndices (post.reverse ++ n :: pre.reverse)).map (val ∘ List.reverse)) = accInitOuter g
              ((if pre.length + 1 = (rowStrides (post.reverse ++ n :: pre.reverse)).1.reverse.length then 1 else
                minStride ((rowStrides (post.reverse ++ n :: pre.reverse)).1.reverse.drop (pre.length + 1))).toNat)
              ((if pre.length = 0 then 1 else
                minStride ((rowStrides (post.reverse ++ n :: pre.reverse)).1.reverse.take pre.length)).toNat)
              (numel pre) (numel post) 0
              ((rowIndices (post.reverse ++ n :: pre.reverse)).map (val ∘ List.reverse)) := by
          unfold accInit
          simp only [foldl_mul_eq, Nat.one_mul, hdrop, List.take_left']
          rw [if_pos trivial]
        simp only [hinit, key]
    · intro hgn h0
      obtain ⟨ha, hb⟩ := hg hgn
      rw [numel_append, numel_cons, numel_reverse, numel_reverse] at h0
      simp only [numel_reverse]
      constructor
      · rcases hb with h | h
        · exact .inr h
        · by_cases hp : post = []
          · right; subst hp; rfl
          · left
            rw [if_neg (by simpa using hp), minStride_pre (pre := post.reverse) (rest := n :: pre.reverse)
              (by simpa using h) (fun e => h0 (by rw [numel_reverse] at e; simp [e])) (by simpa using hp) hsdrop,
              Int.toNat_natCast, numel_cons, numel_reverse]
      · rcases ha with h | h
        · exact .inr h
        · by_cases hp : pre = []
          · right; subst hp; rfl
          · left
            rw [if_neg (by simpa using hp), minStride_pre (pre := pre.reverse) (rest := [])
              (by simpa using h) (fun e => h0 (by rw [numel_reverse] at e; simp [e])) (by simpa using hp) hstake]
            rfl

/-- C32: accumulating along an axis gives at every index the left fold of the elements up to it on that
axis — every shape of fewer than 2^64 elements, both layouts, zero and unit extents included. -/
theorem C32_accumulate_axis {L : Layout} (hL : L = .row_major ∨ L = .column_major) {sh : List Nat}
    (val : List Nat → β) (hsz : numel sh < 2 ^ 64) (f : β → β → β) {axis : Nat} (ha : axis < sh.length) :
    accumulateAxis L L sh ((orderIndices L sh).map val) f none axis =
      .ok ((orderIndices L sh).map (accValue f id val axis)) := by
  obtain ⟨pre, n, post, rfl, rfl⟩ := split_at ha
  rcases hL with rfl | rfl
  · exact accumulateAxis_row val hsz (by simp)
  · exact accumulateAxis_col val hsz (by simp)

/-- C32, accumulators with an initialisation function (`nancumsum`, `nancumprod`): same, the first element of
each column passed through that function; missing: shapes with a unit extent beside the axis, on which
the initialisation pass uses a zero stride. -/
theorem C32_accumulate_axis_init_partial {L : Layout} (hL : L = .row_major ∨ L = .column_major) {sh : List Nat}
    (val : List Nat → β) (hsz : numel sh < 2 ^ 64) (f : β → β → β) (g : β → β) {axis : Nat}
    (ha : axis < sh.length) (hi : AccInitOk sh axis) :
    accumulateAxis L L sh ((orderIndices L sh).map val) f (some g) axis =
      .ok ((orderIndices L sh).map (accValue f g val axis)) := by
  obtain ⟨pre, n, post, rfl, rfl⟩ := split_at ha
  have hdrop : (pre ++ n :: post).drop (pre.length + 1) = post := by rw [← List.drop_drop]; simp
  unfold AccInitOk at hi
  rw [hdrop, List.take_left'] at hi
  rcases hL with rfl | rfl
  · exact accumulateAxis_row val hsz fun _ => hi
  · exact accumulateAxis_col val hsz fun _ => hi
  · rfl

/-- The axis argument: an axis outside `[-dim, dim)` throws, whatever the layouts. -/
theorem C32_bad_axis_throws (SL l : Layout) {sh : List Nat} (data : List β) (f : β → β → β)
    (g : Option (β → β)) {axis : Int} (hd : sh.length < 2 ^ 63) (hr : -2 ^ 63 ≤ axis)
    (ha : axis < -(sh.length : Int) ∨ (sh.length : Int) ≤ axis) :
    accumulate SL l sh data f g axis = .throws := by
  unfold accumulate accumulateAxis
  rw [if_pos]
  unfold normalizeAxis
  split <;> omega

/-- The axis argument: a negative axis counts from the end. -/
theorem C32_negative_axis (SL l : Layout) {sh : List Nat} (data : List β) (f : β → β → β)
    (g : Option (β → β)) {axis : Int} (hd : sh.length < 2 ^ 63) (h0 : axis < 0) (ha : -(sh.length : Int) ≤ axis) :
    accumulate SL l sh data f g axis = accumulateAxis SL l sh data f g (axis + sh.length).toNat := by
  unfold accumulate
  congr 1
  unfold normalizeAxis
  rw [if_pos h0]
  omega

theorem accFlatLoop_eq (f : β → β → β) : ∀ (prev : β) (vs : List β),
    accFlatLoop f prev vs = (List.range vs.length).map fun k => (vs.take (k + 1)).foldl f prev
  | _, [] => rfl
  | prev, v :: vs => by
    unfold accFlatLoop
    rw [accFlatLoop_eq f (f prev v) vs, List.length_cons, List.range_succ_eq_map, List.map_cons, List.map_map]
    rfl

/-- C32, flat form: element `k` is the left fold of the first `k + 1` elements of the argument in row-major
order. -/
theorem C32_accumulate_flat {sh : List Nat} (e : Ex β) (hf : Fits sh e) (f : β → β → β) (g : Option (β → β)) (d : β) :
    accumulateFlat f g (e.values .row_major sh) = (List.range (numel sh)).map fun k =>
      (((rowIndices sh).map (valueAt e)).tail.take k).foldl f
        (g.getD id (((rowIndices sh).map (valueAt e)).headD d)) := by
  have hv : e.values .row_major sh = (rowIndices sh).map (valueAt e) := C22_iteration .row_major (.inl rfl) sh e hf
  rw [hv, ← length_rowIndices sh, ← List.length_map (f := valueAt e)]
  cases (rowIndices sh).map (valueAt e) with
  | nil => rfl
  | cons v vs =>
    unfold accumulateFlat
    simp only [accFlatLoop_eq, List.length_cons, List.range_succ_eq_map, List.map_cons, List.map_map]
    cases g <;> rfl

/-! ### Where the code differs -/

/-- A result type of dynamic layout (the argument's type has a dynamic layout) takes the column-major sizes
although its storage is row-major: the second row of `cumsum(a, 1)` continues the first. -/
theorem C32_dynamic_layout_wrong :
    accumulateAxis .dynamic .row_major [2, 2] [1, 2, 3, 4] (· + ·) none 1 = .ok [1, 3, 6, 10] ∧
      (orderIndices .row_major [2, 2]).map (accValue (· + ·) id
        (fun i => ((rowRank [2, 2] i : Int)) + 1) 1) = [1, 3, 3, 7] := by decide

/-- Along axis 0 such a result is not even read and written within its storage. -/
theorem C32_dynamic_layout_ub :
    accumulateAxis .dynamic .row_major [2, 3] [1, 2, 3, 4, 5, 6] (fun a b : Int => a + b) none 0 = .ub := by decide

/-- A unit extent beside the axis: the initialisation pass has stride 0 and visits one element only (here the
value 9 stands for NaN, which `nancumsum` replaces by 0). -/
theorem C32_init_zero_stride :
    accumulateAxis .row_major .row_major [2, 3, 1] [9, 9, 9, 1, 1, 1] (fun a b : Int => a + b)
        (some fun v => if v = 9 then 0 else v) 0 = .ok [0, 9, 9, 1, 10, 10] ∧
      (orderIndices .row_major [2, 3, 1]).map (accValue (fun a b : Int => a + b) (fun v => if v = 9 then 0 else v)
        (fun i => if i.headD 0 = 0 then 9 else 1) 0) = [0, 0, 0, 1, 1, 1] := by decide

/-! ### Examples -/

example : accumulateAxis .row_major .row_major [2, 3] [1, 2, 3, 4, 5, 6] (fun a b : Int => a - b) none 1 =
    .ok [1, -1, -4, 4, -1, -7] := by decide
example : accumulateAxis .column_major .column_major [2, 3] [1, 4, 2, 5, 3, 6] (fun a b : Int => a - b) none 1 =
    .ok [1, 4, -1, -1, -4, -7] := by decide
example : accumulate .row_major .row_major [2, 3] [1, 2, 3, 4, 5, 6] (fun a b : Int => a + b) none (-2) =
    .ok [1, 2, 3, 5, 7, 9] := by decide
example : (2 : Nat) < [2, 1, 3, 2].length ∧ numel [2, 1, 3, 2] < 2 ^ 64 := by decide
example : AccInitOk [2, 3, 4] 1 ∧ AccInitOk [1, 1, 4, 2] 2 ∧ ¬ AccInitOk [2, 3, 1] 0 := by decide
example : accumulateAxis .row_major .row_major [2, 2, 2] [9, 1, 9, 2, 3, 9, 4, 5] (fun a b : Int => a + b)
    (some fun v => if v = 9 then 0 else v) 1 = .ok [0, 1, 9, 3, 3, 0, 7, 5] := by decide
example : accumulate .row_major .row_major [2, 3] [1, 2, 3, 4, 5, 6] (fun a b : Int => a + b) none (-3) =
    .throws := by decide
example : accumulateFlat (fun a b : Int => a + b) (some (· * 2)) ((iotaEx [2, 2] [1, 2]).values .row_major [2, 2]) =
    [0, 2, 3, 6] := by decide

end Xt
