import Verif.Model.Blockwise
import Verif.Props.ChunkIter
import Verif.Props.Numeric
import Verif.Props.Container
/-!
# Multi-index iteration, blocks and their groups
-/

namespace Xt

open Spec

/-! ### The multi-index iterator -/

/-- Sum of two lists, entry by entry. -/
def addL (x y : List Nat) : List Nat := List.zipWith (· + ·) x y

/-- Difference of two lists, entry by entry. -/
def subL (x y : List Nat) : List Nat := List.zipWith (· - ·) x y

theorem getD_addL {x y : List Nat} (h : x.length = y.length) (k : Nat) : (addL x y).getD k 0 = x.getD k 0 + y.getD k 0 := by
  unfold addL
  simp only [List.getD_eq_getElem?_getD, List.getElem?_zipWith]
  by_cases hk : k < x.length
  · simp [hk, show k < y.length by omega]
  · simp [hk, show ¬ k < y.length by omega]

theorem getD_subL {x y : List Nat} (h : x.length = y.length) (k : Nat) : (subL x y).getD k 0 = x.getD k 0 - y.getD k 0 := by
  unfold subL
  simp only [List.getD_eq_getElem?_getD, List.getElem?_zipWith]
  by_cases hk : k < x.length
  · simp [hk, show k < y.length by omega]
  · simp [hk, show ¬ k < y.length by omega]

theorem addL_set {x y : List Nat} (h : x.length = y.length) {k v : Nat} (hk : k < y.length) :
    addL x (y.set k v) = (addL x y).set k (x.getD k 0 + v) := by
  have hl : (addL x y).length = y.length := by simp [addL, h]
  apply ext_getD (by simp [addL, h])
  intro i hi
  rw [getD_addL (by simp [h]), getD_set_nat hk, getD_set_nat (by omega), getD_addL h]
  split
  · next e => rw [e]
  · rfl

theorem multiIncLoop_eq {first last : List Nat} (hl : last.length = first.length)
    (hle : ∀ k, first.getD k 0 ≤ last.getD k 0) : ∀ (k : Nat) (idx : List Nat) (sl : List (Nat × Nat)), k ≤ first.length →
    idx.length = first.length →
    multiIncLoop first last k (addL first idx) = addL first (chunkIncLoop [] [] (subL last first) k idx sl).1
  | 0, _, _, _, _ => rfl
  | k + 1, idx, sl, hk, hi => by
    rw [multiIncLoop, chunkIncLoop, getD_addL hi.symm, getD_subL hl]
    have := hle k
    by_cases h : idx.getD k 0 + 1 = last.getD k 0 - first.getD k 0
    · rw [if_pos h, if_pos (by omega),
        ← multiIncLoop_eq hl hle k (idx.set k 0) _ (by omega) (by simpa using hi), addL_set hi.symm (by omega)]
      rfl
    · rw [if_neg h, if_neg (by omega)]
      show _ = addL first (idx.set k (idx.getD k 0 + 1))
      rw [addL_set hi.symm (by omega)]
      congr 1

theorem multiEnd_eq {first last : List Nat} (hl : last.length = first.length) :
    multiEnd first last = numel (subL last first) := by
  unfold multiEnd
  have h : ∀ (n : Nat) (l : List Nat), l.length = n → ∀ a, (List.range n).foldl (fun n i => n * l.getD i 0) a = a * numel l := by
    intro n
    induction n with
    | zero => intro l h a; rw [List.length_eq_zero_iff.1 h]; simp [numel]
    | succ n ih =>
      intro l h a
      cases l with
      | nil => simp at h
      | cons x l =>
        rw [List.range_succ_eq_map, List.foldl_cons, List.foldl_map, numel_cons]
        simp only [List.getD_cons_zero, List.getD_cons_succ]
        rw [ih l (by simpa using h), Nat.mul_assoc]
  have e : ∀ i, last.getD i 0 - first.getD i 0 = (subL last first).getD i 0 := fun i => (getD_subL hl i).symm
  simp only [e]
  rw [h first.length _ (by simp [subL, hl]), Nat.one_mul]

/-- The loop over a box of multi-indices, by invariant. -/
theorem forMulti_inv {σ : Type} {first last : List Nat} (hl : last.length = first.length)
    (hle : ∀ k, first.getD k 0 ≤ last.getD k 0) {body : List Nat → σ → Res σ} (P : Nat → σ → Prop)
    (hstep : ∀ k s, k < numel (subL last first) → P k s →
      ∃ s', body (addL first (nthIndex (subL last first) k)) s = .ok s' ∧ P (k + 1) s')
    {s : σ} (h0 : P 0 s) : ∃ s', forMulti first last body s = .ok s' ∧ P (numel (subL last first)) s' := by
  have hgl : (subL last first).length = first.length := by simp [subL, hl]
  have key : ∀ (fuel k : Nat) (cur : List Nat) (s : σ), k ≤ numel (subL last first) → numel (subL last first) < k + fuel →
      (k < numel (subL last first) → cur = addL first (nthIndex (subL last first) k)) → P k s →
      ∃ s', multiLoop first last body fuel cur k s = .ok s' ∧ P (numel (subL last first)) s' := by
    intro fuel
    induction fuel with
    | zero => intro k cur s h1 h2; omega
    | succ fuel ih =>
      intro k cur s h1 h2 h4 hP
      rw [multiLoop, multiEnd_eq hl]
      by_cases hk : k = numel (subL last first)
      · rw [if_pos hk]; exact ⟨s, rfl, hk ▸ hP⟩
      · rw [if_neg hk]
        have hk' : k < numel (subL last first) := by omega
        obtain ⟨s', e, hP'⟩ := hstep k s hk' hP
        rw [h4 hk', e]
        refine ih (k + 1) _ s' hk' (by omega) (fun h => ?_) hP'
        have hn := (nthIndex_spec hk').1.length_eq
        rw [multiIncLoop_eq hl hle _ _ (slicesOf [] [] (nthIndex (subL last first) k)) (Nat.le_refl _) (by omega)]
        have := congrArg ChunkIt.index (chunkInc_eq (sh := subL last first) (cs := []) rfl h)
        unfold chunkInc at this
        simp only [] at this
        rw [foldl_mul_eq, Nat.one_mul, if_pos (by show k + 1 ≠ _; omega)] at this
        have h5 : (chunkIncLoop [] [] (subL last first) first.length (nthIndex (subL last first) k)
            (slicesOf [] [] (nthIndex (subL last first) k))).1 =
          (chunkIncLoop (subL last first) [] (subL last first) first.length (nthIndex (subL last first) k)
            (slicesOf (subL last first) [] (nthIndex (subL last first) k))).1 := by
          have gen : ∀ (j : Nat) (idx : List Nat) (sh1 sh2 : List Nat) (s1 s2 : List (Nat × Nat)),
              (chunkIncLoop sh1 [] (subL last first) j idx s1).1 = (chunkIncLoop sh2 [] (subL last first) j idx s2).1 := by
            intro j
            induction j with
            | zero => intros; rfl
            | succ j ih2 =>
              intro idx sh1 sh2 s1 s2
              rw [chunkIncLoop, chunkIncLoop]
              split
              · exact ih2 _ _ _ _ _
              · rfl
          exact gen _ _ _ _ _ _
        rw [h5]
        congr 1
        rw [hgl] at this
        exact this
  unfold forMulti
  rw [multiEnd_eq hl]
  refine key (numel (subL last first) + 1) 0 _ s (by omega) (by omega) (fun h => ?_) h0
  rw [nthIndex_zero h, hgl]
  apply ext_getD (by simp [addL])
  intro k hk
  rw [getD_addL (by simp)]
  simp only [List.getD_eq_getElem?_getD, List.getElem?_replicate]
  split <;> simp

/-! ### Entries kept by a reduction -/

theorem dropAxes_eq_iff_get (axes : List Nat) (f : Option Nat) : ∀ (x y : List Nat) (p : Nat), x.length = y.length →
    (dropAxes axes f p x = dropAxes axes f p y ↔ ∀ k, k < x.length → p + k ∉ axes → x.getD k 0 = y.getD k 0)
  | [], [], _, _ => by simp
  | [], _ :: _, _, h => by simp at h
  | _ :: _, [], _, h => by simp at h
  | i :: x, j :: y, p, h => by
    have ih := dropAxes_eq_iff_get axes f x y (p + 1) (by simpa using h)
    have split : (∀ k, k < (i :: x).length → p + k ∉ axes → (i :: x).getD k 0 = (j :: y).getD k 0) ↔
        (p ∉ axes → i = j) ∧ ∀ k, k < x.length → p + 1 + k ∉ axes → x.getD k 0 = y.getD k 0 := by
      constructor
      · intro h
        refine ⟨fun hp => by simpa using h 0 (by simp) (by simpa using hp), fun k hk hp => ?_⟩
        have := h (k + 1) (by simpa using hk) (by rw [show p + (k + 1) = p + 1 + k by omega]; exact hp)
        simpa using this
      · rintro ⟨h1, h2⟩ k hk hp
        cases k with
        | zero => simpa using h1 (by simpa using hp)
        | succ k =>
          have := h2 k (by simpa using hk) (by rw [show p + 1 + k = p + (k + 1) by omega]; exact hp)
          simpa using this
    rw [split, ← ih]
    by_cases hp : p ∈ axes
    · cases f <;> simp [dropAxes, hp]
    · simp [dropAxes, hp]

/-- Removing axes as a selection of the others. -/
theorem dropAxes_none_eq (axes : List Nat) : ∀ (l : List Nat) (p : Nat),
    dropAxes axes none p l = ((List.range l.length).filter fun i => decide (p + i ∉ axes)).map fun i => l.getD i 0
  | [], _ => rfl
  | x :: l, p => by
    have ih := dropAxes_none_eq axes l (p + 1)
    rw [List.length_cons, List.range_succ_eq_map, List.filter_cons, List.filter_map]
    have e : (fun i => decide (p + i ∉ axes)) ∘ Nat.succ = fun i => decide (p + 1 + i ∉ axes) := by
      funext i
      simp only [Function.comp]
      rw [show p + i.succ = p + 1 + i by omega]
    rw [e]
    by_cases hp : p ∈ axes
    · simp only [dropAxes, hp, if_true, Nat.add_zero, not_true, decide_false]
      rw [ih]
      simp [Function.comp_def]
    · simp only [dropAxes, hp, if_false, Nat.add_zero, not_false_eq_true, decide_true, if_true]
      rw [ih]
      simp [Function.comp_def]

/-- Removing axes commutes with operations entry by entry. -/
theorem dropAxes_zipWith (axes : List Nat) (g : Nat → Nat → Nat) {f f1 f2 : Option Nat}
    (h : (f = none ∧ f1 = none ∧ f2 = none) ∨ ∃ v v1 v2, f = some v ∧ f1 = some v1 ∧ f2 = some v2 ∧ g v1 v2 = v) :
    ∀ (x y : List Nat) (p : Nat), x.length = y.length →
    dropAxes axes f p (List.zipWith g x y) = List.zipWith g (dropAxes axes f1 p x) (dropAxes axes f2 p y)
  | [], [], _, _ => rfl
  | [], _ :: _, _, h => by simp at h
  | _ :: _, [], _, h => by simp at h
  | i :: x, j :: y, p, hl => by
    have ih := dropAxes_zipWith axes g h x y (p + 1) (by simpa using hl)
    by_cases hp : p ∈ axes
    · rcases h with ⟨rfl, rfl, rfl⟩ | ⟨v, v1, v2, rfl, rfl, rfl, hv⟩
      · simp [dropAxes, hp, ih]
      · simp [dropAxes, hp, ih, hv]
    · simp [dropAxes, hp, ih]

/-- Axes of the input that have an axis in the result. -/
def keptAxes (dim : Nat) (ax : List Nat) (keep : Bool) : List Nat :=
  if keep then List.range dim else (List.range dim).filter fun i => decide (i ∉ ax)

theorem mem_keptAxes {dim : Nat} {ax : List Nat} {keep : Bool} {k : Nat} (h : k < dim) (hk : k ∉ ax) : k ∈ keptAxes dim ax keep := by
  cases keep <;> simp [keptAxes, h, hk]

theorem dropAxes_kept (ax : List Nat) (keep : Bool) (v : Nat) (l : List Nat) :
    dropAxes ax (if keep then some v else none) 0 l =
      (keptAxes l.length ax keep).map fun i => if i ∈ ax then v else l.getD i 0 := by
  cases keep with
  | true =>
    simp only [if_true, dropAxes_keep, keptAxes, Nat.add_zero]
    apply List.map_congr_left
    intro i _
    simp
  | false =>
    simp only [Bool.false_eq_true, if_false, dropAxes_none_eq, keptAxes, Nat.zero_add]
    apply List.map_congr_left
    intro i hi
    have := (List.mem_filter.1 hi).2
    rw [if_neg (by simpa using this)]

/-! ### Shapes of the result -/

theorem inAxes_iff {axes : List Int} {dim i : Nat} (hpos : ∀ a ∈ axes, 0 ≤ a) (hg : GoodAxes dim (axes.map Int.toNat))
    (hd : dim < 2 ^ 64) : inAxes axes i = decide (i ∈ axes.map Int.toNat) := by
  unfold inAxes
  rw [Bool.eq_iff_iff, List.any_eq_true, decide_eq_true_eq, List.mem_map]
  have key : ∀ a ∈ axes, toSizeT a = a.toNat := by
    intro a ha
    have h1 := hpos a ha
    have h2 := hg.2 a.toNat (List.mem_map.2 ⟨a, ha, rfl⟩)
    have := toSizeT_cast h1 (by omega)
    omega
  constructor
  · rintro ⟨a, ha, h⟩
    exact ⟨a, ha, by rw [← key a ha]; simpa using h⟩
  · rintro ⟨a, ha, h⟩
    exact ⟨a, ha, by rw [key a ha]; simpa using h⟩

theorem length_filter_notMem {dim : Nat} {ax : List Nat} (hg : GoodAxes dim ax) :
    ((List.range dim).filter fun i => decide (i ∉ ax)).length + ax.length = dim := by
  have hnd : ax.Nodup := hg.1.imp (fun h => by omega)
  have h1 : ((List.range dim).filter fun i => decide (i ∈ ax)).length = ax.length := by
    apply List.Perm.length_eq
    rw [List.perm_ext_iff_of_nodup (List.nodup_range.filter _) hnd]
    intro a
    simp only [List.mem_filter, List.mem_range, decide_eq_true_eq]
    exact ⟨fun h => h.2, fun h => ⟨hg.2 a h, h⟩⟩
  have h2 := List.length_eq_length_filter_add (l := List.range dim) (fun i => decide (i ∈ ax))
  rw [List.length_range] at h2
  have h3 : ((List.range dim).filter fun x => !decide (x ∈ ax)) = (List.range dim).filter fun i => decide (i ∉ ax) := by
    apply List.filter_congr
    intro i _
    simp
  rw [h3] at h2
  omega

theorem bwShapes_ok {sh cs : List Nat} (hl : cs.length = sh.length) {axes : List Int} (hpos : ∀ a ∈ axes, 0 ≤ a)
    (hg : GoodAxes sh.length (axes.map Int.toNat)) (hd : sh.length < 2 ^ 64) (keep : Bool) :
    bwShapes sh cs axes keep = .ok ⟨redShape sh (axes.map Int.toNat) keep, redShape cs (axes.map Int.toNat) keep,
      keptAxes sh.length (axes.map Int.toNat) keep⟩ := by
  have hin : ∀ i, inAxes axes i = decide (i ∈ axes.map Int.toNat) := fun i => inAxes_iff hpos hg hd
  have hlen := length_filter_notMem hg
  rw [List.length_map] at hlen
  unfold bwShapes redShape
  rw [dropAxes_kept, dropAxes_kept, hl]
  simp only [hin]
  generalize axes.map Int.toNat = ax at *
  cases keep with
  | true => simp [keptAxes]
  | false =>
    have hf : ((List.range sh.length).filter fun i => !decide (i ∈ ax)) =
        (List.range sh.length).filter fun i => decide (i ∉ ax) := by
      apply List.filter_congr
      intro i _
      simp
    simp only [Bool.false_eq_true, if_false, keptAxes]
    rw [hf, if_neg (by omega), if_neg (by omega)]
    congr 2
    · apply List.map_congr_left
      intro i hi
      rw [if_neg (by simpa using (List.mem_filter.1 hi).2)]
    · apply List.map_congr_left
      intro i hi
      rw [if_neg (by simpa using (List.mem_filter.1 hi).2)]

/-! ### The chunks of the input for a chunk of the result -/

theorem foldl_pair_set (cond : Nat → Prop) [DecidablePred cond] (f g : Nat → Nat) : ∀ (l : List Nat) (x y : List Nat), x.length = y.length →
    let r := l.foldl (fun (p : List Nat × List Nat) a => if cond a then (p.1.set a (f a), p.2.set a (g a)) else p) (x, y)
    r.1.length = x.length ∧ r.2.length = x.length ∧ ∀ k, k < x.length →
      r.1.getD k 0 = (if k ∈ l ∧ cond k then f k else x.getD k 0) ∧
      r.2.getD k 0 = (if k ∈ l ∧ cond k then g k else y.getD k 0)
  | [], x, y, h => by simp [h]
  | a :: l, x, y, h => by
    intro r
    by_cases hc : cond a
    · obtain ⟨h1, h2, h3⟩ := foldl_pair_set cond f g l (x.set a (f a)) (y.set a (g a)) (by simpa using h)
      have er : r = l.foldl (fun (p : List Nat × List Nat) a => if cond a then (p.1.set a (f a), p.2.set a (g a)) else p)
        (x.set a (f a), y.set a (g a)) := by
        show List.foldl _ _ _ = _
        rw [List.foldl_cons, if_pos hc]
      rw [er]
      refine ⟨by rw [h1]; simp, by rw [h2]; simp, fun k hk => ?_⟩
      obtain ⟨h4, h5⟩ := h3 k (by simpa using hk)
      rw [h4, h5]
      by_cases hka : k = a
      · subst hka
        rw [getD_set_nat hk, getD_set_nat (by omega)]
        by_cases hm : k ∈ l <;> simp [hm, hc]
      · have e1 : (x.set a (f a)).getD k 0 = x.getD k 0 := by
          simp [List.getD_eq_getElem?_getD, Ne.symm hka]
        have e2 : (y.set a (g a)).getD k 0 = y.getD k 0 := by
          simp [List.getD_eq_getElem?_getD, Ne.symm hka]
        rw [e1, e2]
        simp [hka]
    · obtain ⟨h1, h2, h3⟩ := foldl_pair_set cond f g l x y h
      have er : r = l.foldl (fun (p : List Nat × List Nat) a => if cond a then (p.1.set a (f a), p.2.set a (g a)) else p)
        (x, y) := by
        show List.foldl _ _ _ = _
        rw [List.foldl_cons, if_neg hc]
      rw [er]
      refine ⟨h1, h2, fun k hk => ?_⟩
      obtain ⟨h4, h5⟩ := h3 k hk
      rw [h4, h5]
      by_cases hka : k = a
      · subst hka
        simp [hc]
      · simp [hka]

/-- First and last chunk along each axis: all of them on the reduced axes, the one of the result on the others. -/
theorem bwRange_ok {sh cs ax : List Nat} (hl : cs.length = sh.length) (hp : ∀ c ∈ cs, 0 < c) (keep : Bool)
    {rc c0 : List Nat} (h0 : InBounds (chunkGrid sh cs) c0) :
    let p := bwRange (chunkGrid sh cs) ⟨redShape sh ax keep, rc, keptAxes sh.length ax keep⟩ (redIndex ax keep c0)
    p.1.length = sh.length ∧ p.2.length = sh.length ∧ ∀ k, k < sh.length →
      p.1.getD k 0 = (if k ∈ ax then 0 else c0.getD k 0) ∧
      p.2.getD k 0 = (if k ∈ ax then (chunkGrid sh cs).getD k 0 else c0.getD k 0 + 1) := by
  intro p
  have hgl := chunkGrid_length hl
  have hcl : c0.length = sh.length := by rw [h0.length_eq, hgl]
  have er : p = (keptAxes sh.length ax keep).foldl
      (fun (p : List Nat × List Nat) a => if (a ∉ ax ∧ sh.getD a 0 ≠ 1) then (p.1.set a (c0.getD a 0), p.2.set a (c0.getD a 0 + 1)) else p)
      (List.replicate (chunkGrid sh cs).length 0, chunkGrid sh cs) := by
    show bwRange _ _ _ = _
    unfold bwRange redShape redIndex
    simp only []
    rw [dropAxes_kept, dropAxes_kept, hcl]
    generalize keptAxes sh.length ax keep = ks
    have e2 : ks = (List.range ks.length).map fun r => ks.getD r 0 := by
      apply List.ext_getElem (by simp)
      intro k h1 h2
      simp [List.getD_eq_getElem?_getD, h1]
    conv_rhs => rw [e2]
    rw [List.foldl_map, List.length_map]
    apply List.foldl_ext
    intro q r hr
    have hr : r < ks.length := by simpa using hr
    have g1 : ∀ f : Nat → Nat, (ks.map f).getD r 0 = f (ks.getD r 0) := by
      intro f
      simp [List.getD_eq_getElem?_getD, hr]
    rw [g1, g1]
    by_cases ha : ks.getD r 0 ∈ ax
    · rw [if_pos ha, if_neg (by simp), if_neg (fun h => h.1 ha)]
    · rw [if_neg ha, if_neg ha]
      by_cases h : sh.getD (ks.getD r 0) 0 = 1
      · rw [if_neg (not_not.2 h), if_neg (fun h' => h'.2 h)]
      · rw [if_pos h, if_pos ⟨ha, h⟩]
  obtain ⟨h1, h2, h3⟩ := foldl_pair_set (fun a => a ∉ ax ∧ sh.getD a 0 ≠ 1) (fun a => c0.getD a 0) (fun a => c0.getD a 0 + 1)
    (keptAxes sh.length ax keep) (List.replicate (chunkGrid sh cs).length 0) (chunkGrid sh cs) (by simp)
  rw [← er] at h1 h2 h3
  rw [List.length_replicate, hgl] at h1 h2 h3
  refine ⟨h1, h2, fun k hk => ?_⟩
  obtain ⟨h4, h5⟩ := h3 k hk
  have hz : (List.replicate sh.length 0).getD k 0 = 0 := by
    simp [List.getD_eq_getElem?_getD, List.getElem?_replicate, hk]
  rw [h4, h5, hz]
  by_cases ha : k ∈ ax
  · have hn : ¬ (k ∈ keptAxes sh.length ax keep ∧ k ∉ ax ∧ sh.getD k 0 ≠ 1) := fun h => h.2.1 ha
    rw [if_neg hn, if_neg hn, if_pos ha, if_pos ha]
    exact ⟨rfl, rfl⟩
  · have hm := mem_keptAxes (keep := keep) hk ha
    by_cases h1 : sh.getD k 0 = 1
    · have hb := inBounds_iff_get.1 h0
      have hg : (chunkGrid sh cs).getD k 0 = 1 := by
        have hck : 0 < cs.getD k 0 := by
          rw [List.getD_eq_getElem?_getD, List.getElem?_eq_getElem (by omega)]
          exact hp _ (List.getElem_mem _)
        have : (chunkGrid sh cs).getD k 0 = (sh.getD k 0 + cs.getD k 0 - 1) / cs.getD k 0 := by
          unfold chunkGrid
          simp [List.getD_eq_getElem?_getD, List.getElem?_zipWith, hk, show k < cs.length by omega]
        rw [this, h1, show 1 + cs.getD k 0 - 1 = cs.getD k 0 by omega, Nat.div_self hck]
      have hc0 : c0.getD k 0 = 0 := by
        have := hb.2 k (by omega)
        rw [hg] at this
        omega
      have hn : ¬ (k ∈ keptAxes sh.length ax keep ∧ k ∉ ax ∧ sh.getD k 0 ≠ 1) := fun h => h.2.2 h1
      rw [if_neg hn, if_neg hn, if_neg ha, if_neg ha, hg, hc0]
      exact ⟨rfl, rfl⟩
    · have hy : (k ∈ keptAxes sh.length ax keep ∧ k ∉ ax ∧ sh.getD k 0 ≠ 1) := ⟨hm, ha, h1⟩
      rw [if_pos hy, if_pos hy, if_neg ha, if_neg ha]
      exact ⟨rfl, rfl⟩

/-- The chunks visited for a chunk of the result, in order. -/
def visited (p : List Nat × List Nat) : List (List Nat) :=
  (List.range (numel (subL p.2 p.1))).map fun k => addL p.1 (nthIndex (subL p.2 p.1) k)

theorem visited_nodup {p : List Nat × List Nat} (hl : p.2.length = p.1.length) : (visited p).Nodup := by
  have hgl : (subL p.2 p.1).length = p.1.length := by simp [subL, hl]
  unfold visited
  rw [List.nodup_map_iff_inj_on List.nodup_range]
  intro i hi j hj e
  rw [List.mem_range] at hi hj
  obtain ⟨b1, r1⟩ := nthIndex_spec hi
  obtain ⟨b2, r2⟩ := nthIndex_spec hj
  have : nthIndex (subL p.2 p.1) i = nthIndex (subL p.2 p.1) j := by
    apply ext_getD (by rw [b1.length_eq, b2.length_eq])
    intro k _
    have := congrArg (fun l : List Nat => l.getD k 0) e
    simp only [getD_addL (show p.1.length = (nthIndex (subL p.2 p.1) i).length by rw [b1.length_eq, hgl]),
      getD_addL (show p.1.length = (nthIndex (subL p.2 p.1) j).length by rw [b2.length_eq, hgl])] at this
    omega
  rw [← r1, ← r2, this]

theorem mem_visited {p : List Nat × List Nat} (hl : p.2.length = p.1.length) (c : List Nat) :
    c ∈ visited p ↔ c.length = p.1.length ∧ ∀ k, k < p.1.length → p.1.getD k 0 ≤ c.getD k 0 ∧ c.getD k 0 < p.2.getD k 0 := by
  have hgl : (subL p.2 p.1).length = p.1.length := by simp [subL, hl]
  unfold visited
  rw [List.mem_map]
  constructor
  · rintro ⟨i, hi, rfl⟩
    rw [List.mem_range] at hi
    obtain ⟨b, r⟩ := nthIndex_spec hi
    have hb := inBounds_iff_get.1 b
    refine ⟨by simp [addL, b.length_eq, hgl], fun k hk => ?_⟩
    have h1 := hb.2 k (by omega)
    rw [getD_subL hl] at h1
    rw [getD_addL (by rw [b.length_eq, hgl])]
    omega
  · rintro ⟨h1, h2⟩
    have hb : InBounds (subL p.2 p.1) (subL c p.1) := by
      rw [inBounds_iff_get]
      refine ⟨by simp [subL, h1, hl], fun k hk => ?_⟩
      have := h2 k (by omega)
      rw [getD_subL hl, getD_subL h1]
      omega
    refine ⟨rowRank (subL p.2 p.1) (subL c p.1), List.mem_range.2 (rowRank_lt hb), ?_⟩
    rw [nthIndex_rowRank hb]
    apply ext_getD (by simp [addL, subL, h1])
    intro k hk
    have hk : k < p.1.length := by
      have : (addL p.1 (subL c p.1)).length = p.1.length := by simp [addL, subL, h1]
      omega
    have := h2 k hk
    rw [getD_addL (by simp [subL, h1]), getD_subL h1]
    omega

/-- The visited chunks are those whose elements contribute to the chunk of the result. -/
theorem mem_visited_iff {sh cs ax : List Nat} (hl : cs.length = sh.length) (hp : ∀ c ∈ cs, 0 < c) (keep : Bool)
    {rc c0 : List Nat} (h0 : InBounds (chunkGrid sh cs) c0) (c : List Nat) :
    c ∈ visited (bwRange (chunkGrid sh cs) ⟨redShape sh ax keep, rc, keptAxes sh.length ax keep⟩ (redIndex ax keep c0)) ↔
      InBounds (chunkGrid sh cs) c ∧ redIndex ax keep c = redIndex ax keep c0 := by
  have hgl := chunkGrid_length hl
  obtain ⟨h1, h2, h3⟩ := bwRange_ok (ax := ax) (rc := rc) hl hp keep h0
  generalize bwRange (chunkGrid sh cs) ⟨redShape sh ax keep, rc, keptAxes sh.length ax keep⟩ (redIndex ax keep c0) = p at *
  rw [mem_visited (by omega), inBounds_iff_get, h1, hgl]
  have hb0 := (inBounds_iff_get.1 h0).2
  rw [hgl] at hb0
  have hc0 := h0.length_eq
  rw [hgl] at hc0
  unfold redIndex
  constructor
  · rintro ⟨a1, a2⟩
    refine ⟨⟨a1, fun k hk => ?_⟩, ?_⟩
    · have := a2 k hk
      obtain ⟨b1, b2⟩ := h3 k hk
      have := hb0 k hk
      by_cases ha : k ∈ ax
      · rw [if_pos ha] at b2; omega
      · rw [if_neg ha] at b2; omega
    · rw [dropAxes_eq_iff_get _ _ _ _ _ (by omega)]
      intro k hk ha
      have := a2 k (by omega)
      obtain ⟨b1, b2⟩ := h3 k (by omega)
      rw [if_neg (by simpa using ha)] at b1 b2
      omega
  · rintro ⟨⟨a1, a2⟩, a3⟩
    rw [dropAxes_eq_iff_get _ _ _ _ _ (by omega)] at a3
    refine ⟨a1, fun k hk => ?_⟩
    obtain ⟨b1, b2⟩ := h3 k hk
    have := a2 k hk
    by_cases ha : k ∈ ax
    · rw [if_pos ha] at b1 b2; omega
    · rw [if_neg ha] at b1 b2
      have := a3 k (by omega) (by simpa using ha)
      omega

/-! ### Boxes and reductions -/

theorem dropAxes_boxW (ax : List Nat) (keep : Bool) : ∀ (sh cs c : List Nat) (p : Nat), cs.length = sh.length → c.length = sh.length →
    dropAxes ax (if keep then some 1 else none) p (boxW sh cs c) = boxW (dropAxes ax (if keep then some 1 else none) p sh)
      (dropAxes ax (if keep then some 1 else none) p cs) (dropAxes ax (if keep then some 0 else none) p c)
  | [], cs, c, p, _, _ => by cases cs <;> rfl
  | _ :: _, [], _, _, h, _ => by simp at h
  | _ :: _, _ :: _, [], _, _, h => by simp at h
  | s :: sh, x :: cs, k :: c, p, h1, h2 => by
    have ih := dropAxes_boxW ax keep sh cs c (p + 1) (by simpa using h1) (by simpa using h2)
    by_cases hp : p ∈ ax
    · cases keep <;> simp_all [dropAxes, boxW]
    · simp [dropAxes, boxW, hp, ih]

theorem redShape_boxW (ax : List Nat) (keep : Bool) {sh cs c : List Nat} (h1 : cs.length = sh.length) (h2 : c.length = sh.length) :
    redShape (boxW sh cs c) ax keep = boxW (redShape sh ax keep) (redShape cs ax keep) (redIndex ax keep c) :=
  dropAxes_boxW ax keep sh cs c 0 h1 h2

theorem dropAxes_applySel (ax : List Nat) (keep : Bool) : ∀ (cs c q : List Nat) (p : Nat), c.length = cs.length → q.length = cs.length →
    dropAxes ax (if keep then some 0 else none) p (applySel (boxFrom cs c) q) =
      applySel (boxFrom (dropAxes ax (if keep then some 1 else none) p cs) (dropAxes ax (if keep then some 0 else none) p c))
        (dropAxes ax (if keep then some 0 else none) p q)
  | [], c, q, p, _, _ => rfl
  | _ :: _, [], _, _, h, _ => by simp at h
  | _ :: _, _ :: _, [], _, _, h => by simp at h
  | x :: cs, k :: c, i :: q, p, h1, h2 => by
    have ih := dropAxes_applySel ax keep cs c q (p + 1) (by simpa using h1) (by simpa using h2)
    simp only [applySel, boxFrom] at ih
    by_cases hp : p ∈ ax
    · cases keep <;> simp_all [dropAxes, applySel, boxFrom]
    · simp [dropAxes, applySel, boxFrom, hp, ih]

theorem redIndex_applySel (ax : List Nat) (keep : Bool) {cs c q : List Nat} (h1 : c.length = cs.length) (h2 : q.length = cs.length) :
    redIndex ax keep (applySel (boxFrom cs c) q) =
      applySel (boxFrom (redShape cs ax keep) (redIndex ax keep c)) (redIndex ax keep q) :=
  dropAxes_applySel ax keep cs c q 0 h1 h2

theorem redIndex_chunkOf (ax : List Nat) (keep : Bool) {cs q : List Nat} (h : cs.length = q.length) :
    redIndex ax keep (chunkOf cs q) = chunkOf (redShape cs ax keep) (redIndex ax keep q) := by
  unfold redIndex redShape chunkOf
  apply dropAxes_zipWith _ _ _ _ _ _ h
  cases keep
  · exact .inl ⟨rfl, rfl, rfl⟩
  · exact .inr ⟨0, 1, 0, rfl, rfl, rfl, rfl⟩

theorem redShape_chunkGrid (ax : List Nat) (keep : Bool) {sh cs : List Nat} (h : cs.length = sh.length) :
    redShape (chunkGrid sh cs) ax keep = chunkGrid (redShape sh ax keep) (redShape cs ax keep) := by
  unfold redShape chunkGrid
  apply dropAxes_zipWith _ _ _ _ _ _ h.symm
  cases keep
  · exact .inl ⟨rfl, rfl, rfl⟩
  · exact .inr ⟨1, 1, 1, rfl, rfl, rfl, rfl⟩

theorem length_redShape_eq (ax : List Nat) (keep : Bool) {sh cs : List Nat} (h : cs.length = sh.length) :
    (redShape cs ax keep).length = (redShape sh ax keep).length := by
  unfold redShape
  rw [dropAxes_kept, dropAxes_kept, h]
  simp

theorem redShape_mem_pos {ax cs : List Nat} {keep : Bool} (hp : ∀ c ∈ cs, 0 < c) : ∀ c ∈ redShape cs ax keep, 0 < c := by
  intro c hc
  rcases mem_dropAxes hc with h | h
  · exact hp c h
  · cases keep <;> simp at h; omega

/-- The elements of the input that contribute to an element of the result, block after block. -/
theorem redGroup_blocks {sh cs ax : List Nat} (hl : cs.length = sh.length) (hp : ∀ c ∈ cs, 0 < c) (keep : Bool)
    {rc c0 r : List Nat} (h0 : InBounds (chunkGrid sh cs) c0)
    (hr : InBounds (boxW (redShape sh ax keep) (redShape cs ax keep) (redIndex ax keep c0)) r) :
    ((visited (bwRange (chunkGrid sh cs) ⟨redShape sh ax keep, rc, keptAxes sh.length ax keep⟩ (redIndex ax keep c0))).flatMap
        fun c => (redGroup (boxW sh cs c) ax keep r).map (applySel (boxFrom cs c))).Perm
      (redGroup sh ax keep (applySel (boxFrom (redShape cs ax keep) (redIndex ax keep c0)) r)) := by
  have hgl := chunkGrid_length hl
  have hmem := mem_visited_iff (ax := ax) (rc := rc) hl hp keep h0
  have hnd := visited_nodup (p := bwRange (chunkGrid sh cs) ⟨redShape sh ax keep, rc, keptAxes sh.length ax keep⟩
    (redIndex ax keep c0)) (by
      obtain ⟨h1, h2, -⟩ := bwRange_ok (ax := ax) (rc := rc) hl hp keep h0
      rw [h1, h2])
  generalize visited (bwRange (chunkGrid sh cs) ⟨redShape sh ax keep, rc, keptAxes sh.length ax keep⟩ (redIndex ax keep c0)) = C at *
  have hrl := length_redShape_eq ax keep hl
  have hrp := redShape_mem_pos (ax := ax) (keep := keep) hp
  have hrb : InBounds (chunkGrid (redShape sh ax keep) (redShape cs ax keep)) (redIndex ax keep c0) := by
    rw [← redShape_chunkGrid ax keep hl]
    exact inBounds_redIndex keep h0
  have hsel := box_sels hrl hrp hrb
  have hsize : ∀ c, InBounds (chunkGrid sh cs) c → ∀ q, InBounds (boxW sh cs c) q → q.length = cs.length ∧ c.length = cs.length := by
    intro c hc q hq
    rw [hq.length_eq, boxW_len hl hp hc, hc.length_eq, hgl, hl]
    exact ⟨rfl, rfl⟩
  have hgrp : ∀ (w : List Nat) (y x : List Nat), x ∈ redGroup w ax keep y ↔ InBounds w x ∧ redIndex ax keep x = y := by
    intro w y x
    unfold redGroup
    rw [List.mem_filter, mem_rowIndices, decide_eq_true_eq]
  rw [List.perm_ext_iff_of_nodup]
  · intro x
    rw [List.mem_flatMap, hgrp]
    constructor
    · rintro ⟨c, hc, hx⟩
      obtain ⟨q, hq, rfl⟩ := List.mem_map.1 hx
      rw [hgrp] at hq
      rw [hmem] at hc
      obtain ⟨l1, l2⟩ := hsize c hc.1 q hq.1
      exact ⟨(box_sels hl hp hc.1).inBounds hq.1, by rw [redIndex_applySel ax keep l2 l1, hc.2, hq.2]⟩
    · rintro ⟨hx, hj⟩
      obtain ⟨b1, b2⟩ := box_inside hl hp hx
      have hc : InBounds (chunkGrid sh cs) (chunkOf cs x) := chunkOf_inBounds hl hp hx
      have hci : redIndex ax keep (chunkOf cs x) = redIndex ax keep c0 := by
        rw [redIndex_chunkOf ax keep (by rw [hx.length_eq, hl]), hj, box_chunk hrl hrp hrb hr]
      obtain ⟨l1, l2⟩ := hsize _ hc _ b1
      refine ⟨chunkOf cs x, (hmem _).2 ⟨hc, hci⟩, List.mem_map.2 ⟨insideChunk cs x, ?_, b2⟩⟩
      rw [hgrp]
      refine ⟨b1, hsel.inj ?_ hr ?_⟩
      · have := inBounds_redIndex (axes := ax) keep b1
        rw [redShape_boxW ax keep hl (by rw [hc.length_eq, hgl]), hci] at this
        exact this
      · have := redIndex_applySel ax keep l2 l1
        rw [b2, hj, hci] at this
        exact this.symm
  · rw [List.nodup_flatMap]
    refine ⟨fun c hc => ?_, ?_⟩
    · have hc := ((hmem c).1 hc).1
      refine List.Nodup.map_on (fun x hx y hy e => ?_) ((rowIndices_nodup _).filter _)
      exact (box_sels hl hp hc).inj ((hgrp _ _ _).1 hx).1 ((hgrp _ _ _).1 hy).1 e
    · refine List.Pairwise.imp_of_mem ?_ hnd
      intro c d hc hd hne x hx hy
      obtain ⟨q, hq, rfl⟩ := List.mem_map.1 hx
      obtain ⟨t, ht, e⟩ := List.mem_map.1 hy
      have h1 := box_chunk hl hp ((hmem c).1 hc).1 ((hgrp _ _ _).1 hq).1
      have h2 := box_chunk hl hp ((hmem d).1 hd).1 ((hgrp _ _ _).1 ht).1
      rw [e] at h2
      exact hne (h1.symm.trans h2)
  · exact (rowIndices_nodup _).filter _

/-! ### Blocks as operands -/

theorem stridedView_strides {sh : List Nat} {st : List Int} {off : Int} {l : Layout} {us : List USlice} {v : SView}
    (h : stridedView sh st off l us = .ok v) : v.strides.length = v.shape.length ∧
      ∀ k, v.shape.getD k 0 = 1 → v.strides.getD k 0 = 0 := by
  unfold stridedView svFillArgs at h
  cases h1 : svCount ⟨sh.length, sh.length, 0, false⟩ us with
  | throws => rw [h1] at h; cases h
  | ub => rw [h1] at h; cases h
  | ok c =>
    rw [h1] at h
    simp only [Res.bind] at h
    split at h
    · cases h
    · revert h
      generalize svLoop sh st _ 0 0 us = x
      intro h
      cases x with
      | throws => cases h
      | ub => cases h
      | ok r =>
        simp only [Res.bind] at h
        split at h
        · cases h
        · injection h with h
          subst h
          constructor
          · simp [svConstruct]
          · intro k hk
            simp only [svConstruct] at hk ⊢
            simp only [List.getD_eq_getElem?_getD, List.getElem?_zipWith, List.getElem?_map] at hk ⊢
            cases hr : r.2[k]? with
            | none => simp
            | some y =>
              rw [hr] at hk
              simp only [Option.map_some, Option.getD_some] at hk
              simp [hk]

/-- A region of a container as an operand. -/
theorem blockEx_ok {α : Type} [Inhabited α] {e : Buf α} (hw : e.WF) {us ms φs} (h : Sels e.shape us ms φs) :
    ∃ v, stridedView e.shape e.strides 0 e.layout us = .ok v ∧ v.shape.map Int.toNat = ms ∧ Fits ms (blockEx e v) ∧
      ∀ q, InBounds ms q → valueAt (blockEx e v) q = e.read (applySel φs q) := by
  obtain ⟨v, h1, h2, h3⟩ := h.view
  obtain ⟨s1, s2⟩ := stridedView_strides h1
  have hvs : v.shape.map Int.toNat = ms := by rw [h2, map_toNat_toInts]
  have hlen : v.strides.length = ms.length := by rw [s1, h2]; simp [toInts]
  refine ⟨v, h1, hvs, ⟨⟨?_, ?_, ?_⟩, ?_⟩, ?_⟩
  · show v.strides.length = (v.shape.map Int.toNat).length
    rw [hvs, hlen]
  · show ∀ k, (v.shape.map Int.toNat).getD k 0 = 1 → v.strides.getD k 0 = 0
    intro k hk
    apply s2
    rw [h2]
    rw [hvs] at hk
    have hkl : k < ms.length := by
      by_contra hc
      rw [List.getD_eq_getElem?_getD, List.getElem?_eq_none (by omega)] at hk
      simp at hk
    rw [List.getD_eq_getElem?_getD, List.getElem?_eq_getElem hkl] at hk
    simp only [Option.getD_some] at hk
    simp [toInts, List.getD_eq_getElem?_getD, hkl, hk]
  · intro k
    exact StridedArr.mk'_back _ _ _ (by rw [hvs, hlen]) k
  · show BroadcastsTo (v.shape.map Int.toNat) ms
    rw [hvs]; exact broadcastsTo_refl _
  · intro q hq
    show e.mem (v.offset + dot v.strides (toInts (bcIndex (v.shape.map Int.toNat) q))) = _
    rw [hvs, bcIndex_self hq]
    have := h3 q hq
    unfold SView.index at this
    rw [dataOffset_eq _ _ (by simp [toInts, hq.length_eq, hlen])] at this
    rw [this, Buf.read, Buf.index_eq]
    exact h.inBounds hq

theorem regionEx_ok {α : Type} [Inhabited α] {out : Buf α} {us ms φs} (h : Sels out.shape us ms φs) :
    ∃ cur, regionEx out us = .ok cur ∧ cur.shape = ms ∧ ∀ q, InBounds ms q → cur.elem q = out.read (applySel φs q) := by
  obtain ⟨v, h1, h2, h3⟩ := h.view
  refine ⟨⟨v.shape.map Int.toNat, viewAt out v⟩, by unfold regionEx; rw [h1]; rfl, by show v.shape.map Int.toNat = ms; rw [h2, map_toNat_toInts], fun q hq => ?_⟩
  show viewAt out v q = _
  unfold viewAt
  rw [h3 q hq, Buf.read, Buf.index_eq]
  exact h.inBounds hq

end Xt
