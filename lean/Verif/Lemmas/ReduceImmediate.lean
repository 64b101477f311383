import Verif.Model.ReduceImmediate
import Verif.Props.Reducer
/-!
# Lemmas on `reduce_immediate`
-/

namespace Xt
open Spec

variable {α β : Type}

/-! ### Blocks -/

theorem readBlock_eq {data : List α} {b n : Nat} (h : b + n ≤ data.length) :
    readBlock data b n = some ((data.drop b).take n) := if_pos h

theorem length_block {data : List α} {b n : Nat} (h : b + n ≤ data.length) :
    ((data.drop b).take n).length = n := by simp; omega

theorem block_eq {data : List α} {val : Nat → α} (hv : ∀ k, k < data.length → data[k]? = some (val k))
    {b n : Nat} (h : b + n ≤ data.length) :
    (data.drop b).take n = (List.range n).map fun m => val (b + m) := by
  apply List.ext_getElem?
  intro i
  rw [List.getElem?_map]
  by_cases hi : i < n
  · rw [List.getElem?_take_of_lt hi, List.getElem?_drop, hv _ (by omega), List.getElem?_range hi]
    rfl
  · rw [List.getElem?_eq_none (by simp; omega), List.getElem?_eq_none (by simp; omega)]
    rfl

theorem length_transformBlock {res : List β} {out : Nat} {vs : List α} {f : β → α → β}
    (h : out + vs.length ≤ res.length) : (transformBlock res out vs f).length = res.length := by
  simp [transformBlock]; omega

theorem getElem?_transformBlock {res : List β} {out : Nat} {vs : List α} {f : β → α → β}
    (h : out + vs.length ≤ res.length) (o : Nat) :
    (transformBlock res out vs f)[o]? =
      if out ≤ o ∧ o < out + vs.length then
        (res[o]?).bind fun v => (vs[o - out]?).map (f v)
      else res[o]? := by
  unfold transformBlock
  have l1 : (res.take out).length = out := by simp; omega
  have l2 : (List.zipWith f ((res.drop out).take vs.length) vs).length = vs.length := by simp; omega
  rw [List.append_assoc, List.getElem?_append, l1]
  by_cases h1 : o < out
  · rw [if_pos h1, if_neg (by omega), List.getElem?_take_of_lt h1]
  · rw [if_neg h1, List.getElem?_append, l2]
    by_cases h2 : o < out + vs.length
    · rw [if_pos (by omega), if_pos ⟨by omega, h2⟩, List.getElem?_zipWith]
      rw [List.getElem?_take_of_lt (by omega), List.getElem?_drop,
        show out + (o - out) = o by omega]
      cases res[o]? <;> cases vs[o - out]? <;> rfl
    · rw [if_neg (by omega), if_neg (by omega), List.getElem?_drop]
      congr 1; omega

/-- Values read on column `q` of `m` consecutive blocks of size `P`. -/
def colVals (val : Nat → α) (b P m q : Nat) : List α := (List.range m).map fun i => val (b + i * P + q)

theorem immPasses_spec {F : RedFns α β} {data : List α} {val : Nat → α}
    (hv : ∀ k, k < data.length → data[k]? = some (val k)) {P out : Nat} :
    ∀ (k b : Nat) (res : List β), b + k * P ≤ data.length → out + P ≤ res.length →
      ∃ res', immPasses F data P out k b res = some (b + k * P, res') ∧ res'.length = res.length ∧
        ∀ o, res'[o]? = if out ≤ o ∧ o < out + P then
          (res[o]?).map fun v => (colVals val b P k (o - out)).foldl F.reduce v else res[o]? := by
  intro k
  induction k with
  | zero =>
    intro b res _ _
    refine ⟨res, by simp [immPasses], rfl, fun o => ?_⟩
    split
    · cases res[o]? <;> rfl
    · rfl
  | succ k ih =>
    intro b res hd hr
    have e : (k + 1) * P = P + k * P := by ring
    rw [e] at hd ⊢
    have hlen := length_block (data := data) (b := b) (n := P) (by omega)
    obtain ⟨res', h1, h2, h3⟩ := ih (b + P)
      (transformBlock res out ((data.drop b).take P) F.reduce) (by omega)
      (by rw [length_transformBlock (by rw [hlen]; exact hr)]; exact hr)
    refine ⟨res', ?_, ?_, fun o => ?_⟩
    · simp only [immPasses]
      rw [readBlock_eq (by omega), Option.bind_some, h1, Nat.add_assoc]
    · rw [h2, length_transformBlock (by rw [hlen]; exact hr)]
    · rw [h3, getElem?_transformBlock (by rw [hlen]; exact hr), hlen]
      by_cases ho : out ≤ o ∧ o < out + P
      · simp only [if_pos ho]
        rw [block_eq hv (by omega), List.getElem?_map, List.getElem?_range (by omega)]
        cases res[o]? with
        | none => rfl
        | some v =>
          simp only [Option.bind_some, Option.map_some]
          unfold colVals
          rw [List.range_succ_eq_map, List.map_cons, List.foldl_cons, List.map_map]
          have e1 : (fun i => val (b + P + i * P + (o - out))) =
              (fun i => val (b + i * P + (o - out))) ∘ Nat.succ := by
            funext i
            simp only [Function.comp]
            congr 1
            rw [Nat.succ_mul]; omega
          rw [e1]
          simp
      · simp only [if_neg ho]

theorem immStep_spec {F : RedFns α β} (hlaw : ReducerLaws F) {data : List α} {val : Nat → α}
    (hv : ∀ k, k < data.length → data[k]? = some (val k)) {P M b out : Nat} (hP : 0 < P) (hM : 0 < M)
    {merge : Bool} {res : List β} (hd : b + M * P ≤ data.length) (hr : out + P ≤ res.length) :
    ∃ res', immStep F data P M b out merge res = some (b + M * P, res') ∧ res'.length = res.length ∧
      ∀ o, res'[o]? = if out ≤ o ∧ o < out + P then
        (res[o]?).map fun v => (colVals val b P M (o - out)).foldl F.reduce
          (if merge then v else F.init) else res[o]? := by
  unfold immStep
  by_cases h1 : P = 1
  · subst h1
    rw [Nat.mul_one] at hd
    rw [if_pos rfl, readBlock_eq hd, Option.bind_some, if_pos (by omega)]
    refine ⟨_, by rw [Nat.mul_one], by simp, fun o => ?_⟩
    rw [List.getElem?_modify, block_eq hv hd]
    by_cases ho : out ≤ o ∧ o < out + 1
    · have : o = out := by omega
      subst this
      simp only [if_pos ho, if_true]
      have e : colVals val b 1 M (o - o) = (List.range M).map fun m => val (b + m) := by
        unfold colVals
        simp
      rw [e]
      cases res[o]? with
      | none => rfl
      | some v =>
        cases merge with
        | false => rfl
        | true => simp [merge_foldl hlaw, hlaw.unit]
    · have : out ≠ o := by omega
      simp only [if_neg ho, if_neg this]
      cases res[o]? <;> rfl
  · rw [if_neg h1, if_pos hr]
    obtain ⟨m, rfl⟩ : ∃ m, M = m + 1 := ⟨M - 1, by omega⟩
    have e : (m + 1) * P = P + m * P := by ring
    rw [e] at hd ⊢
    have hlen := length_block (data := data) (b := b) (n := P) (by omega)
    rw [readBlock_eq (by omega), Option.bind_some, Nat.add_sub_cancel]
    obtain ⟨res', g1, g2, g3⟩ := immPasses_spec (F := F) hv (P := P) (out := out) m (b + P)
      (transformBlock res out ((data.drop b).take P)
        (fun v1 v2 => if merge = true then F.reduce v1 v2 else F.reduce F.init v2)) (by omega)
      (by rw [length_transformBlock (by rw [hlen]; exact hr)]; exact hr)
    refine ⟨res', by rw [g1, Nat.add_assoc], ?_, fun o => ?_⟩
    · rw [g2, length_transformBlock (by rw [hlen]; exact hr)]
    · rw [g3, getElem?_transformBlock (by rw [hlen]; exact hr), hlen]
      by_cases ho : out ≤ o ∧ o < out + P
      · simp only [if_pos ho]
        rw [block_eq hv (by omega), List.getElem?_map, List.getElem?_range (by omega)]
        cases res[o]? with
        | none => rfl
        | some v =>
          simp only [Option.bind_some, Option.map_some]
          unfold colVals
          rw [List.range_succ_eq_map, List.map_cons, List.foldl_cons, List.map_map]
          have e1 : (fun i => val (b + P + i * P + (o - out))) =
              (fun i => val (b + i * P + (o - out))) ∘ Nat.succ := by
            funext i
            simp only [Function.comp]
            congr 1
            rw [Nat.succ_mul]; omega
          rw [e1]
          cases merge <;> simp
      · simp only [if_neg ho]

/-! ### The main loop -/

/-- The positions of the first `k` iterations that go to the output block `c`. -/
def toBlock (kr : Nat → Nat) (k c : Nat) : List Nat := (List.range k).filter fun j => kr j = c

theorem toBlock_succ (kr : Nat → Nat) (k c : Nat) :
    toBlock kr (k + 1) c = if kr k = c then toBlock kr k c ++ [k] else toBlock kr k c := by
  unfold toBlock
  rw [List.range_succ, List.filter_append]
  by_cases h : kr k = c
  · simp [h]
  · simp [h]

theorem toBlock_ne_nil {kr : Nat → Nat} {k c : Nat} : toBlock kr k c ≠ [] ↔ ∃ j, j < k ∧ kr j = c := by
  unfold toBlock
  rw [← List.length_pos_iff, List.length_pos_iff_exists_mem]
  simp

theorem immLoop_spec {F : RedFns α β} (hlaw : ReducerLaws F) {data : List α} {val : Nat → α}
    (hv : ∀ k, k < data.length → data[k]? = some (val k)) {p : ImmPlan} {K : Nat} {kr : Nat → Nat}
    {idxs : Nat → List Nat} (hP : 0 < p.innerStride) (hM : 0 < p.outer)
    (hN : data.length = K * (p.outer * p.innerStride))
    (hnext : ∀ k, k + 1 < K → immNextIdx p (idxs k) = (idxs (k + 1), false, kr (k + 1) * p.innerStride))
    (hlast : (immNextIdx p (idxs (K - 1))).2.1 = true)
    (hV : ∀ k, k < K → (∀ j, j < k → kr j < kr k) ∨ ∃ j, j < k ∧ kr j = kr k)
    {R : Nat} (hR : ∀ k, k < K → kr k < R) :
    ∀ (fuel k : Nat) (border : Nat) (merge : Bool) (res : List β), k < K → K ≤ fuel + k →
      res.length = R * p.innerStride →
      (merge = true ↔ ∃ j, j < k ∧ kr j = kr k) →
      (∃ j, j ≤ k ∧ border = kr j * p.innerStride) → (∀ j, j ≤ k → kr j * p.innerStride ≤ border) →
      (∀ o, o < R * p.innerStride → (∃ j, j < k ∧ kr j = o / p.innerStride) →
        res[o]? = some (((toBlock kr k (o / p.innerStride)).flatMap fun j =>
          colVals val (j * (p.outer * p.innerStride)) p.innerStride p.outer (o % p.innerStride)).foldl
            F.reduce F.init)) →
      ∃ res', immLoop F data p fuel (k * (p.outer * p.innerStride)) (kr k * p.innerStride) border merge
          (idxs k) res = some res' ∧ res'.length = R * p.innerStride ∧
        ∀ o, o < R * p.innerStride → (∃ j, j < K ∧ kr j = o / p.innerStride) →
          res'[o]? = some (((toBlock kr K (o / p.innerStride)).flatMap fun j =>
            colVals val (j * (p.outer * p.innerStride)) p.innerStride p.outer (o % p.innerStride)).foldl
              F.reduce F.init) := by
  intro fuel
  induction fuel with
  | zero => intro k _ _ _ hk hf; omega
  | succ fuel ih =>
    intro k border merge res hk hf hlen hmerge hb1 hb2 hinv
    have hsz : (k + 1) * (p.outer * p.innerStride) ≤ data.length := by
      rw [hN]; exact Nat.mul_le_mul_right _ hk
    have hb : k * (p.outer * p.innerStride) + p.outer * p.innerStride ≤ data.length := by
      rw [Nat.succ_mul] at hsz; exact hsz
    have hkr := hR k hk
    have hout : kr k * p.innerStride + p.innerStride ≤ res.length := by
      rw [hlen, ← Nat.succ_mul]; exact Nat.mul_le_mul_right _ hkr
    obtain ⟨res', h1, h2, h3⟩ := immStep_spec hlaw hv hP hM (merge := merge) (res := res) hb hout
    -- the invariant after this iteration
    have hinv' : ∀ o, o < R * p.innerStride → (∃ j, j < k + 1 ∧ kr j = o / p.innerStride) →
        res'[o]? = some (((toBlock kr (k + 1) (o / p.innerStride)).flatMap fun j =>
          colVals val (j * (p.outer * p.innerStride)) p.innerStride p.outer (o % p.innerStride)).foldl
            F.reduce F.init) := by
      intro o ho hex
      have hdm := Nat.div_add_mod o p.innerStride
      have hmod := Nat.mod_lt o hP
      have hcomm : p.innerStride * (o / p.innerStride) = o / p.innerStride * p.innerStride :=
        Nat.mul_comm _ _
      rw [h3, toBlock_succ]
      by_cases hc : kr k = o / p.innerStride
      · have hin : kr k * p.innerStride ≤ o ∧ o < kr k * p.innerStride + p.innerStride := by
          rw [hc]; omega
        have hsub : o - kr k * p.innerStride = o % p.innerStride := by rw [hc]; omega
        rw [if_pos hin, if_pos hc, hsub, List.flatMap_append, List.foldl_append]
        simp only [List.flatMap_cons, List.flatMap_nil, List.append_nil]
        by_cases hpre : ∃ j, j < k ∧ kr j = o / p.innerStride
        · have hm : merge = true := hmerge.2 (by rw [hc]; exact hpre)
          rw [hinv o ho hpre, Option.map_some, hm, if_pos rfl]
        · have hm : merge = false := by
            cases merge with
            | false => rfl
            | true => exact absurd (by rw [← hc]; exact hmerge.1 rfl) hpre
          have hnil : toBlock kr k (o / p.innerStride) = [] := by
            by_contra hne
            exact hpre (toBlock_ne_nil.1 hne)
          rw [hm, hnil]
          have : o < res.length := by rw [hlen]; exact ho
          rw [List.getElem?_eq_getElem this]
          rfl
      · have hnin : ¬ (kr k * p.innerStride ≤ o ∧ o < kr k * p.innerStride + p.innerStride) := by
          rintro ⟨g1, g2⟩
          apply hc
          have : kr k * p.innerStride + p.innerStride = (kr k + 1) * p.innerStride := by ring
          rw [this] at g2
          have e1 : kr k ≤ o / p.innerStride := (Nat.le_div_iff_mul_le hP).2 g1
          have e2 : o / p.innerStride < kr k + 1 := (Nat.div_lt_iff_lt_mul hP).2 g2
          omega
        rw [if_neg hnin, if_neg hc]
        apply hinv o ho
        obtain ⟨j, hj, hjc⟩ := hex
        have : j ≠ k := fun e => hc (e ▸ hjc)
        exact ⟨j, by omega, hjc⟩
    unfold immLoop
    rw [h1, Option.bind_some]
    simp only
    by_cases hlastk : k + 1 = K
    · have e : k = K - 1 := by omega
      rw [e, hlast, if_pos rfl]
      exact ⟨res', rfl, by rw [h2, hlen], by rw [← hlastk]; exact hinv'⟩
    · have hk1 : k + 1 < K := by omega
      rw [hnext k hk1]
      simp only [Bool.false_eq_true, if_false]
      have ebeg : k * (p.outer * p.innerStride) + p.outer * p.innerStride =
          (k + 1) * (p.outer * p.innerStride) := by ring
      rw [ebeg]
      by_cases hgt : kr (k + 1) * p.innerStride > border
      · rw [if_pos hgt]
        apply ih (k + 1) _ false res' hk1 (by omega) (by rw [h2, hlen])
        · constructor
          · intro h; cases h
          · rintro ⟨j, hj, hje⟩
            have := hb2 j (by omega)
            rw [hje] at this
            omega
        · exact ⟨k + 1, le_refl _, rfl⟩
        · intro j hj
          by_cases hjk : j = k + 1
          · rw [hjk]
          · have := hb2 j (by omega); omega
        · exact hinv'
      · rw [if_neg hgt]
        apply ih (k + 1) border true res' hk1 (by omega) (by rw [h2, hlen])
        · refine ⟨fun _ => ?_, fun _ => rfl⟩
          rcases hV (k + 1) hk1 with h | h
          · obtain ⟨j, hj, hje⟩ := hb1
            have h4 := h j (by omega)
            have : kr j * p.innerStride < kr (k + 1) * p.innerStride := Nat.mul_lt_mul_of_pos_right h4 hP
            omega
          · exact h
        · obtain ⟨j, hj, hje⟩ := hb1
          exact ⟨j, by omega, hje⟩
        · intro j hj
          by_cases hjk : j = k + 1
          · rw [hjk]; omega
          · exact hb2 j (by omega)
        · exact hinv'

end Xt
