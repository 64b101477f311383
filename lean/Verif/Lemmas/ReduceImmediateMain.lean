import Verif.Lemmas.ReduceImmediateCore
/-!
# `reduce_immediate`: the set-up is right, hence so is the result
-/

namespace Xt
open Spec

variable {α β : Type}

/-- The plan fits the split of the shape. -/
structure PlanFits (p : ImmPlan) (axes pre mid post : List Nat) (keep : Bool) : Prop where
  inner : p.innerStride = numel post
  outer : p.outer = numel mid
  shape : p.iterShape = pre
  strides : ∀ t, InBounds pre t → (innerProduct (t.map Int.ofNat) p.iterStrides 0).toNat =
    rowRank (redPre axes pre keep) (redPreIx axes keep t) * numel post

section Core
variable {F : RedFns α β} {data : List α} {val : Nat → α} {p : ImmPlan} {axes pre mid post : List Nat}
  {keep : Bool}

/-- Rank, along `pre`, of the element to which the `k`-th iteration contributes. -/
abbrev keptRank (axes pre : List Nat) (keep : Bool) (k : Nat) : Nat :=
  rowRank (redPre axes pre keep) (redPreIx axes keep (nthIndex pre k))

theorem keptRank_spec (axes : List Nat) {pre : List Nat} (keep : Bool) {k : Nat} (hk : k < numel pre) :
    (∀ j, j < k → keptRank axes pre keep j < keptRank axes pre keep k) ∨
      ∃ j, j < k ∧ keptRank axes pre keep j = keptRank axes pre keep k := by
  obtain ⟨hb, hr⟩ := nthIndex_spec hk
  have hz := zeroOn_inBounds (axes := axes) 0 hb
  have hle := rowRank_zeroOn_le (axes := axes) pre (nthIndex pre k) 0
  rw [hr] at hle
  rcases Nat.lt_or_eq_of_le hle with h | h
  · refine .inr ⟨_, h, ?_⟩
    simp only [keptRank, nthIndex_rowRank hz, redPreIx, dropAxes_zeroOn]
  · refine .inl fun j hj => ?_
    have hzt : zeroOn axes 0 (nthIndex pre k) = nthIndex pre k :=
      rowRank_inj hz hb (by rw [h, hr])
    obtain ⟨hbj, hrj⟩ := nthIndex_spec (Nat.lt_trans hj hk)
    have hlex : lexLt (nthIndex pre j) (nthIndex pre k) :=
      (rowRank_lt_iff_lexLt hbj hb).1 (by rw [hr, hrj]; exact hj)
    exact (rowRank_lt_iff_lexLt (inBounds_dropAxes 0 hbj) (inBounds_dropAxes 0 hb)).2
      (lexLt_dropAxes _ _ 0 hzt hlex)

theorem group_vals (hs : RowSplit axes pre mid post) {r1 s : List Nat}
    (hr1 : InBounds (redPre axes pre keep) r1) (hsb : InBounds post s) :
    (redGroup (pre ++ (mid ++ post)) axes keep
        (r1 ++ ((ixFill keep).elim [] (List.replicate mid.length) ++ s))).map
        (fun idx => val (rowRank (pre ++ (mid ++ post)) idx)) =
      (toBlock (keptRank axes pre keep) (numel pre) (rowRank (redPre axes pre keep) r1)).flatMap fun j =>
        colVals val (j * (numel mid * numel post)) (numel post) (numel mid) (rowRank post s) := by
  rw [redGroup_split hs hr1 hsb, rowIndices_eq_nth pre, List.filter_map, List.flatMap_map, List.map_flatMap]
  unfold toBlock
  have hf : (List.range (numel pre)).filter ((fun t => decide (redPreIx axes keep t = r1)) ∘ nthIndex pre) =
      (List.range (numel pre)).filter
        fun j => decide (keptRank axes pre keep j = rowRank (redPre axes pre keep) r1) := by
    apply List.filter_congr
    intro j hj
    obtain ⟨hb, hr⟩ := nthIndex_spec (List.mem_range.1 hj)
    simp only [Function.comp]
    apply decide_eq_decide.2
    constructor
    · intro h; rw [← h]
    · intro h; exact rowRank_inj (inBounds_dropAxes 0 hb) hr1 h
  rw [hf]
  apply List.flatMap_congr
  intro j hj
  obtain ⟨hb, hr⟩ := nthIndex_spec (List.mem_range.1 (List.mem_of_mem_filter hj))
  rw [List.map_map]
  unfold colVals
  rw [← map_rowRank_rowIndices mid, List.map_map]
  apply List.map_congr_left
  intro u hu
  have hu' := mem_rowIndices.1 hu
  simp only [Function.comp]
  rw [rowRank_append hb.length_eq, rowRank_append hu'.length_eq, hr, numel_append, Nat.add_assoc]

theorem imm_core (hlaw : ReducerLaws F) (hs : RowSplit axes pre mid post)
    (hp : PlanFits p axes pre mid post keep) (h0 : numel (pre ++ (mid ++ post)) ≠ 0)
    (hd : data.length = numel (pre ++ (mid ++ post)))
    (hv : ∀ k, k < data.length → data[k]? = some (val k)) {junk : List β}
    (hj : junk.length = numel (redShape (pre ++ (mid ++ post)) axes keep)) {fuel : Nat}
    (hf : numel pre ≤ fuel) :
    immLoop F data p fuel 0 0 0 false (List.replicate p.iterShape.length 0) junk =
      some ((rowIndices (redShape (pre ++ (mid ++ post)) axes keep)).map
        (redValue F F.init (fun idx => val (rowRank (pre ++ (mid ++ post)) idx))
          (pre ++ (mid ++ post)) axes keep)) := by
  have hn : numel pre ≠ 0 ∧ numel mid ≠ 0 ∧ numel post ≠ 0 := by
    rw [numel_append, numel_append] at h0
    exact ⟨fun e => h0 (by simp [e]), fun e => h0 (by simp [e]), fun e => h0 (by simp [e])⟩
  have hP : 0 < p.innerStride := by rw [hp.inner]; omega
  have hM : 0 < p.outer := by rw [hp.outer]; omega
  have hK : 0 < numel pre := by omega
  have hnum : numel (redShape (pre ++ (mid ++ post)) axes keep) =
      numel (redPre axes pre keep) * p.innerStride := by
    rw [redShape_split hs, numel_append, numel_append, numel_fill, Nat.one_mul, hp.inner]
  have hz : List.replicate p.iterShape.length 0 = nthIndex pre 0 := by
    obtain ⟨hb, hr⟩ := nthIndex_spec hK
    have hb0 := inBounds_zeros (nthIndex_spec hK).1
    refine (rowRank_inj (sh := pre) ?_ hb ?_)
    · rw [hp.shape]; exact hb0
    · rw [hr, rowRank_zeros]
  have hkr0 : keptRank axes pre keep 0 = 0 := by
    have hb0 := inBounds_zeros (nthIndex_spec hK).1
    have e : nthIndex pre 0 = List.replicate pre.length 0 := by rw [← hz, hp.shape]
    rcases keptRank_spec axes keep hK with h | ⟨j, hj, _⟩
    · have hle : rowRank (redPre axes pre keep) (redPreIx axes keep (nthIndex pre 0)) = 0 := by
        have hzero : ∀ (n q : Nat), ∃ m, dropAxes axes (ixFill keep) q (List.replicate n 0) =
            List.replicate m 0 := by
          intro n
          induction n with
          | zero => intro q; exact ⟨0, rfl⟩
          | succ n ih =>
            intro q
            obtain ⟨m, hm⟩ := ih (q + 1)
            rw [List.replicate_succ]
            unfold dropAxes
            by_cases hq : q ∈ axes
            · rw [if_pos hq]
              cases keep with
              | true => exact ⟨m + 1, by rw [List.replicate_succ, ← hm]; rfl⟩
              | false => exact ⟨m, hm⟩
            · rw [if_neg hq]
              exact ⟨m + 1, by rw [List.replicate_succ, ← hm]⟩
        rw [e]
        obtain ⟨m, hm⟩ := hzero pre.length 0
        rw [redPreIx, hm, rowRank_zeros]
      exact hle
    · omega
  have hstr : ∀ k, k < numel pre → (innerProduct ((nthIndex pre k).map Int.ofNat) p.iterStrides 0).toNat =
      keptRank axes pre keep k * p.innerStride := by
    intro k hk
    rw [hp.strides _ (nthIndex_spec hk).1, hp.inner]
  have hmain := immLoop_spec hlaw hv (p := p) (K := numel pre) (kr := keptRank axes pre keep)
    (idxs := nthIndex pre) hP hM
    (by rw [hd, numel_append, numel_append, hp.inner, hp.outer])
    (by
      intro k hk
      obtain ⟨hb, hr⟩ := nthIndex_spec (show k < numel pre by omega)
      have := (nextIdx_spec (p := p) (t := nthIndex pre k) (by rw [hp.shape]; exact hb)).1
        (by rw [hp.shape, hr]; exact hk)
      rw [this, hp.shape, hr, hstr _ hk])
    (by
      obtain ⟨hb, hr⟩ := nthIndex_spec (show numel pre - 1 < numel pre by omega)
      exact (nextIdx_spec (p := p) (t := nthIndex pre (numel pre - 1)) (by rw [hp.shape]; exact hb)).2
        (by rw [hp.shape, hr]; omega))
    (fun k hk => keptRank_spec axes keep hk) (R := numel (redPre axes pre keep))
    (fun k hk => rowRank_lt (inBounds_dropAxes 0 (nthIndex_spec hk).1))
    fuel 0 0 false junk hK (by omega) (by rw [hj, hnum]) (by simp) ⟨0, le_refl _, by rw [hkr0]; simp⟩
    (fun j hj => by
      have : j = 0 := by omega
      subst this
      rw [hkr0]; simp)
    (fun o _ ⟨j, hj, _⟩ => absurd hj (by omega))
  obtain ⟨res', h1, h2, h3⟩ := hmain
  rw [Nat.zero_mul, hkr0, Nat.zero_mul, ← hz] at h1
  rw [h1]
  congr 1
  apply List.ext_getElem?
  intro o
  by_cases ho : o < numel (redPre axes pre keep) * p.innerStride
  · have ho' : o < numel (redShape (pre ++ (mid ++ post)) axes keep) := by rw [hnum]; exact ho
    obtain ⟨hrb, hrr⟩ := nthIndex_spec ho'
    rw [List.getElem?_map, rowIndices_eq_nth, List.getElem?_map, List.getElem?_range ho', Option.map_some,
      Option.map_some]
    obtain ⟨r1, s, hr1, hsb, hre, hrk⟩ := split_redIndex hs hrb
    rw [hrr] at hrk
    have hs1 := rowRank_lt hsb
    have hdiv : o / p.innerStride = rowRank (redPre axes pre keep) r1 := by
      rw [hp.inner, hrk, Nat.mul_comm, Nat.mul_add_div (by omega), Nat.div_eq_of_lt hs1, Nat.add_zero]
    have hmod : o % p.innerStride = rowRank post s := by
      rw [hp.inner, hrk, Nat.mul_comm, Nat.mul_add_mod, Nat.mod_eq_of_lt hs1]
    obtain ⟨t, ht, htr⟩ := exists_dropAxes (axes := axes) (keep := keep) 0 hn.1 hr1
    rw [h3 o ho ⟨rowRank pre t, rowRank_lt ht, by
      rw [hdiv]
      show rowRank _ (redPreIx axes keep (nthIndex pre (rowRank pre t))) = _
      rw [nthIndex_rowRank ht, redPreIx, htr]⟩]
    congr 1
    unfold redValue
    rw [hre, group_vals hs hr1 hsb, hdiv, hmod, hp.inner, hp.outer]
  · rw [List.getElem?_eq_none (by omega), List.getElem?_eq_none (by
      rw [List.length_map, length_rowIndices, hnum]; omega)]

end Core

/-! ### Merging the reduced axes -/

theorem mergeLoops_far {sh : List Nat} : ∀ (l : List Nat) (r : Nat × Nat),
    (∀ a ∈ l, a + 1 < r.1) → mergeLoops sh r l = r
  | [], _, _ => rfl
  | a :: l, r, h => by
    have h1 := h a (by simp)
    unfold mergeLoops
    rw [if_neg (by omega)]
    exact mergeLoops_far l r fun b hb => h b (by simp [hb])

/-- Going down from `last`: the consecutive axes `last-1, …, last-n` are merged. -/
theorem mergeLoops_down {sh : List Nat} : ∀ (l : List Nat) (last outer : Nat), l.Pairwise (· > ·) →
    (∀ a ∈ l, a < last) →
    ∃ n rest, n ≤ last ∧ l = (List.range' (last - n) n).reverse ++ rest ∧ (∀ a ∈ rest, a < last - n) ∧
      mergeLoops sh (last, outer) l =
        (last - n, outer * numel ((List.range' (last - n) n).map fun i => sh.getD i 0))
  | [], last, outer, _, _ => ⟨0, [], by omega, by simp, by simp, by simp [mergeLoops]⟩
  | a :: l, last, outer, hp, hlt => by
    have hp' := List.pairwise_cons.1 hp
    have ha := hlt a (by simp)
    by_cases hadj : a + 1 = last
    · obtain ⟨n, rest, hn, hl, hr, hm⟩ := mergeLoops_down (sh := sh) l a (outer * sh.getD a 0) hp'.2 hp'.1
      have e : last - (n + 1) = a - n := by omega
      refine ⟨n + 1, rest, by omega, ?_, ?_, ?_⟩
      · rw [e, List.range'_concat, List.reverse_append, hl]
        have : a - n + 1 * n = a := by omega
        rw [this]; rfl
      · rw [e]; exact hr
      · unfold mergeLoops
        rw [if_pos (by simp only; omega), hm, e, List.range'_concat, List.map_append, numel_append,
          show a - n + 1 * n = a by omega]
        simp only [List.map_cons, List.map_nil, numel_cons, numel_nil, Nat.mul_one]
        rw [Nat.mul_assoc, Nat.mul_comm (sh.getD a 0)]
    · refine ⟨0, a :: l, by omega, by simp, by simpa using hlt, ?_⟩
      rw [mergeLoops_far]
      · simp
      · intro b hb
        rcases List.mem_cons.1 hb with rfl | hb
        · simp only; omega
        · have := hp'.1 b hb; simp only; omega

/-- Going up from `last`. -/
theorem mergeLoops_up {sh : List Nat} : ∀ (l : List Nat) (last outer : Nat), l.Pairwise (· < ·) →
    (∀ a ∈ l, last < a) →
    ∃ n rest, l = List.range' (last + 1) n ++ rest ∧ (∀ a ∈ rest, last + n < a) ∧
      mergeLoops sh (last, outer) l =
        (last + n, outer * numel ((List.range' (last + 1) n).map fun i => sh.getD i 0))
  | [], last, outer, _, _ => ⟨0, [], by simp, by simp, by simp [mergeLoops]⟩
  | a :: l, last, outer, hp, hlt => by
    have hp' := List.pairwise_cons.1 hp
    have ha := hlt a (by simp)
    by_cases hadj : a = last + 1
    · subst hadj
      obtain ⟨n, rest, hl, hr, hm⟩ :=
        mergeLoops_up (sh := sh) l (last + 1) (outer * sh.getD (last + 1) 0) hp'.2 hp'.1
      refine ⟨n + 1, rest, ?_, ?_, ?_⟩
      · rw [List.range'_succ, hl]; rfl
      · intro b hb; have := hr b hb; omega
      · unfold mergeLoops
        rw [if_pos (by simp only; omega), hm, List.range'_succ]
        simp only [List.map_cons, numel_cons, Nat.mul_assoc]
        rw [show last + 1 + n = last + (n + 1) by omega]
    · refine ⟨0, a :: l, by simp, by simpa using hlt, ?_⟩
      have : ∀ (l : List Nat) (r : Nat × Nat), (∀ b ∈ l, r.1 + 1 < b) → mergeLoops sh r l = r := by
        intro l
        induction l with
        | nil => intro _ _; rfl
        | cons b l ih =>
          intro r h
          have h1 := h b (by simp)
          unfold mergeLoops
          rw [if_neg (by omega)]
          exact ih r fun c hc => h c (by simp [hc])
      rw [this]
      · simp
      · intro b hb
        rcases List.mem_cons.1 hb with rfl | hb
        · simp only; omega
        · have := hp'.1 b hb; simp only; omega

/-! ### The inner stride -/

theorem findStride_cons (s : Int) (l : List Int) :
    findStride (s :: l) = if s = 0 ∧ l ≠ [] then findStride l else s := by
  cases l with
  | nil => simp [findStride]
  | cons t l => simp [findStride]

/-- Strides of the axes seen from the fastest one. -/
theorem findStride_colStrides {P : Int} (hP : P ≠ 0) : ∀ (X : List Nat),
    findStride (colStrides P X).1 = if ∀ x ∈ X, x = 1 then 0 else P
  | [] => by simp [colStrides, findStride]
  | x :: X => by
    have ih := findStride_colStrides hP X
    simp only [colStrides]
    rw [findStride_cons]
    by_cases hx : x = 1
    · subst hx
      have e : P * ((1 : Nat) : Int) = P := by simp
      rw [e]
      have ha : adaptStride 1 P = 0 := by simp [adaptStride]
      rw [ha]
      by_cases hX : X = []
      · subst hX; simp [colStrides]
      · have hne : (colStrides P X).1 ≠ [] := by
          intro h
          have := congrArg List.length h
          simp at this
          exact hX this
        rw [if_pos ⟨rfl, hne⟩, ih]
        simp
    · have ha : adaptStride x P = P := by simp [adaptStride, hx]
      rw [ha, if_neg (fun h => hP h.1), if_neg (fun h => hx (h x (by simp)))]

theorem colStrides_append (ds : Int) (a b : List Nat) :
    (colStrides ds (a ++ b)).1 = (colStrides ds a).1 ++ (colStrides (ds * numel a) b).1 := by
  induction a generalizing ds with
  | nil => simp [colStrides]
  | cons s a ih =>
    simp only [List.cons_append, colStrides, ih, numel_cons, Int.natCast_mul, Int.mul_assoc]

theorem colStrides_snd (ds : Int) (a : List Nat) : (colStrides ds a).2 = ds * numel a := colStrides_size ds a

theorem rowStrides_reverse (sh : List Nat) : (rowStrides sh).1.reverse = (colStrides 1 sh.reverse).1 := by
  induction sh with
  | nil => rfl
  | cons s sh ih =>
    simp only [rowStrides, List.reverse_cons, colStrides_append, ih, rowStrides_size, numel_reverse]
    simp [colStrides]

/-! ### Shape of the result and strides of the iteration -/

theorem immShape_eq (sh axes : List Nat) (keep : Bool) : immShape sh axes keep = redShape sh axes keep := by
  unfold immShape redShape
  cases keep with
  | true => simp only [if_true, dropAxes_keep, Nat.add_zero]
  | false =>
    simp only [Bool.false_eq_true, if_false]
    have : ∀ (l : List Nat) (p : Nat), dropAxes axes none p l =
        ((List.range l.length).filter fun i => !axes.contains (i + p)).map fun i => l.getD i 0 := by
      intro l
      induction l with
      | nil => intro p; rfl
      | cons x l ih =>
        intro p
        rw [List.length_cons, List.range_succ_eq_map, List.filter_cons, List.filter_map, Nat.zero_add]
        unfold dropAxes
        rw [ih (p + 1)]
        have e : ((fun i => !axes.contains (i + p)) ∘ Nat.succ) = fun i => !axes.contains (i + (p + 1)) := by
          funext i
          simp only [Function.comp]
          rw [show i.succ + p = i + (p + 1) by omega]
        rw [e]
        by_cases hp : p ∈ axes
        · simp only [if_pos hp]
          rw [if_neg (by simpa using hp), List.map_map]
          rfl
        · simp only [if_neg hp]
          rw [if_pos (by simpa using hp), List.map_cons, List.map_map]
          rfl
    rw [this]
    simp only [Nat.add_zero]

theorem length_iterStridesLoop {axes : List Nat} {keep : Bool} {rs : List Int} : ∀ (n i idx : Nat),
    (iterStridesLoop axes keep rs i idx n).length = n
  | 0, _, _ => rfl
  | n + 1, i, idx => by
    unfold iterStridesLoop
    split <;> simp [length_iterStridesLoop n]

/-- The dot product with the iteration strides is that of the kept coordinates. -/
theorem dot_iterStrides {axes : List Nat} {keep : Bool} {rs : List Int} : ∀ (x : List Nat) (i idx : Nat),
    dot (iterStridesLoop axes keep rs i idx x.length) (toInts x) =
      dot (rs.drop (if keep then i else idx)) (toInts (dropAxes axes (ixFill keep) i x)) ∨
    rs.length < (if keep then i else idx) + (dropAxes axes (ixFill keep) i x).length
  | [], i, idx => by simp [iterStridesLoop, dropAxes]
  | a :: x, i, idx => by
    by_cases hi : i ∈ axes
    · have ih := dot_iterStrides (axes := axes) (keep := keep) (rs := rs) x (i + 1) idx
      have e : iterStridesLoop axes keep rs i idx (a :: x).length =
          0 :: iterStridesLoop axes keep rs (i + 1) idx x.length := by
        rw [List.length_cons, iterStridesLoop, if_pos (by simpa using hi)]
      rw [e, toInts_cons, dot_cons, Int.mul_zero, Int.zero_add]
      cases keep with
      | true =>
        have e3 : dropAxes axes (ixFill true) i (a :: x) = 0 :: dropAxes axes (ixFill true) (i + 1) x := by
          simp only [dropAxes, if_pos hi]; rfl
        rw [e3]
        simp only [if_true] at ih ⊢
        rcases ih with ih | ih
        · left
          rw [ih]
          by_cases hl : i < rs.length
          · rw [List.drop_eq_getElem_cons hl, toInts_cons, dot_cons]
            simp
          · rw [List.drop_eq_nil_of_le (by omega), List.drop_eq_nil_of_le (by omega)]
            simp
        · right; simp only [List.length_cons]; omega
      | false =>
        simp only [Bool.false_eq_true, if_false, dropAxes, if_pos hi] at ih ⊢
        exact ih
    · have ih := dot_iterStrides (axes := axes) (keep := keep) (rs := rs) x (i + 1) (idx + 1)
      have e : iterStridesLoop axes keep rs i idx (a :: x).length =
          rs.getD (if keep then i else idx) 0 :: iterStridesLoop axes keep rs (i + 1) (idx + 1) x.length := by
        rw [List.length_cons, iterStridesLoop, if_neg (by simpa using hi)]
      rw [e, toInts_cons, dot_cons]
      have e2 : (if keep = true then i + 1 else idx + 1) = (if keep = true then i else idx) + 1 := by
        cases keep <;> rfl
      rw [e2] at ih
      have e3 : dropAxes axes (ixFill keep) i (a :: x) = a :: dropAxes axes (ixFill keep) (i + 1) x := by
        cases keep <;> simp [dropAxes, hi]
      rw [e3]
      generalize (if keep = true then i else idx) = c at ih ⊢
      by_cases hl : c < rs.length
      · rcases ih with ih | ih
        · left
          rw [List.drop_eq_getElem_cons hl, toInts_cons, dot_cons, ih, List.getD_eq_getElem?_getD,
            List.getElem?_eq_getElem hl]
          rfl
        · right; simp only [List.length_cons]; omega
      · right; simp only [List.length_cons]; omega

theorem dot_its {axes sh : List Nat} {keep : Bool} {rs : List Int} {x : List Nat} (hx : x.length = sh.length)
    (hrs : rs.length = (redShape sh axes keep).length) :
    dot (iterStridesLoop axes keep rs 0 0 sh.length) (toInts x) = dot rs (toInts (redIndex axes keep x)) := by
  rcases dot_iterStrides (axes := axes) (keep := keep) (rs := rs) x 0 0 with h | h
  · rw [hx] at h
    rw [h]
    simp [redIndex]
  · exfalso
    rw [hrs, redShape, length_dropAxes_fill hx.symm 0] at h
    simp at h

end Xt
