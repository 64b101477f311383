import Verif.Spec.Program
import Verif.Props.AssignAlias
import Verif.Props.StridedView
import Verif.Props.ContigView
import Verif.Props.Fixed
import Verif.Props.Layout
/-!
# Lemmas about programs over containers
-/

namespace Xt
open Spec

variable {β : Type}

/-! ### Broadcasting as a function -/

theorem bcExtent_spec (S : List (List Nat)) (k : Nat) :
    (bcExtent S k = 1 ∧ ∀ s ∈ S, ∀ d, axisR s k = some d → d = 1) ∨
    (bcExtent S k ≠ 1 ∧ ∃ s ∈ S, axisR s k = some (bcExtent S k)) := by
  unfold bcExtent
  cases h : (S.filterMap fun s => axisR s k).find? (· ≠ 1) with
  | none =>
    left
    refine ⟨rfl, fun s hs d hd => ?_⟩
    rw [List.find?_eq_none] at h
    simpa using h d (List.mem_filterMap.2 ⟨s, hs, hd⟩)
  | some d =>
    right
    have h1 := List.find?_some h
    obtain ⟨s, hs, hd⟩ := List.mem_filterMap.1 (List.mem_of_find?_eq_some h)
    exact ⟨by simpa using h1, s, hs, hd⟩

theorem le_foldr_max {l : List Nat} {x : Nat} (h : x ∈ l) : x ≤ l.foldr max 0 := by
  induction l with
  | nil => simp at h
  | cons a l ih =>
    simp only [List.mem_cons] at h
    simp only [List.foldr_cons]
    rcases h with rfl | h
    · omega
    · have := ih h; omega

theorem foldr_max_mem {l : List Nat} (h : 0 < l.foldr max 0) : l.foldr max 0 ∈ l := by
  induction l with
  | nil => simp at h
  | cons a l ih =>
    simp only [List.foldr_cons] at h ⊢
    by_cases ha : l.foldr max 0 ≤ a
    · rw [Nat.max_eq_left ha]; simp
    · rw [Nat.max_eq_right (by omega)]
      exact List.mem_cons_of_mem _ (ih (by omega))

/-- The candidate for the broadcast shape. -/
def bcOut (S : List (List Nat)) : List Nat :=
  ((List.range ((S.map List.length).foldr max 0)).map (bcExtent S)).reverse

theorem bcShape_eq (S : List (List Nat)) :
    bcShape S = if ∀ s ∈ S, BroadcastsTo s (bcOut S) then some (bcOut S) else none := rfl

theorem length_bcOut (S : List (List Nat)) : (bcOut S).length = (S.map List.length).foldr max 0 := by
  simp [bcOut]

theorem axisR_bcOut {S : List (List Nat)} {k : Nat} (h : k < (bcOut S).length) :
    axisR (bcOut S) k = some (bcExtent S k) := by
  rw [length_bcOut] at h
  unfold axisR bcOut
  rw [List.reverse_reverse, List.getElem?_map, List.getElem?_range h]
  rfl

theorem bcShape_some {S : List (List Nat)} {out : List Nat} (h : bcShape S = some out) :
    IsBroadcast S out := by
  rw [bcShape_eq] at h
  by_cases hc : ∀ s ∈ S, BroadcastsTo s (bcOut S)
  · rw [if_pos hc, Option.some.injEq] at h
    subst h
    refine ⟨fun s hs => (hc s hs).1, ?_, ?_⟩
    · intro k d hd s hs e he
      have hk := axisR_lt hd
      rw [axisR_bcOut hk, Option.some.injEq] at hd
      subst hd
      have hks := axisR_lt he
      have hb := hc s hs
      have h1 := hb.2 (s.length - 1 - k) (by omega)
      have e1 := axisR_getD (s := s) (k := s.length - 1 - k) (by omega)
      rw [show s.length - 1 - (s.length - 1 - k) = k by omega, he, Option.some.injEq] at e1
      have hl := hb.1
      have e2 := axisR_getD (s := bcOut S) (k := s.length - 1 - k + ((bcOut S).length - s.length))
        (by omega)
      rw [show (bcOut S).length - 1 - (s.length - 1 - k + ((bcOut S).length - s.length)) = k by omega,
        axisR_bcOut hk, Option.some.injEq] at e2
      rw [← e1, ← e2] at h1
      exact h1
    · intro k d hd
      have hk := axisR_lt hd
      rw [axisR_bcOut hk, Option.some.injEq] at hd
      subst hd
      rcases bcExtent_spec S k with ⟨h1, h2⟩ | ⟨-, h2⟩
      · rw [h1]
        rw [length_bcOut] at hk
        obtain ⟨s, hs, hlen⟩ := List.mem_map.1 (foldr_max_mem (l := S.map List.length) (by omega))
        have hks : k < s.length := by omega
        have hax : axisR s k = some (s.getD (s.length - 1 - k) 0) := by
          have := axisR_getD (s := s) (k := s.length - 1 - k) (by omega)
          rwa [show s.length - 1 - (s.length - 1 - k) = k by omega] at this
        exact ⟨s, hs, by rw [hax, h2 s hs _ hax]⟩
      · exact h2
  · rw [if_neg hc] at h; simp at h

theorem bcShape_none {S : List (List Nat)} (h : bcShape S = none) : Conflict S := by
  rw [bcShape_eq] at h
  by_cases hc : ∀ s ∈ S, BroadcastsTo s (bcOut S)
  · rw [if_pos hc] at h; simp at h
  · push Not at hc
    obtain ⟨s, hs, hb⟩ := hc
    have hl : s.length ≤ (bcOut S).length := by
      rw [length_bcOut]; exact le_foldr_max (List.mem_map.2 ⟨s, hs, rfl⟩)
    have : ∃ k, k < s.length ∧ s.getD k 0 ≠ 1 ∧
        s.getD k 0 ≠ (bcOut S).getD (k + ((bcOut S).length - s.length)) 0 := by
      by_contra hno
      push Not at hno
      refine hb ⟨hl, fun k hk => ?_⟩
      by_cases h1 : s.getD k 0 = 1
      · exact Or.inl h1
      · exact Or.inr (hno k hk h1)
    obtain ⟨k, hk, h1, h2⟩ := this
    have e1 := axisR_getD hk
    have e2 := axisR_getD (s := bcOut S) (k := k + ((bcOut S).length - s.length)) (by omega)
    rw [show (bcOut S).length - 1 - (k + ((bcOut S).length - s.length)) = s.length - 1 - k by omega,
      axisR_bcOut (by omega), Option.some.injEq] at e2
    rcases bcExtent_spec S (s.length - 1 - k) with ⟨-, h3⟩ | ⟨h3, t, ht, h4⟩
    · exact absurd (h3 s hs _ e1) h1
    · exact ⟨s, hs, t, ht, _, _, _, e1, h4, by rw [e2]; exact h2, h1, h3⟩

theorem Spec.IsBroadcast.no_conflict {S : List (List Nat)} {out : List Nat} (h : IsBroadcast S out) :
    ¬ Conflict S := by
  rintro ⟨s, hs, t, ht, k, d, e, hd, he, hne, h1, h2⟩
  have hk : k < out.length := lt_of_lt_of_le (axisR_lt hd) (h.len_le s hs)
  have hax := axisR_getD (s := out) (k := out.length - 1 - k) (by omega)
  have a := (h.compatible _ _ hax s hs d (by
    rw [show out.length - 1 - (out.length - 1 - k) = k by omega]; exact hd)).resolve_left h1
  have b := (h.compatible _ _ hax t ht e (by
    rw [show out.length - 1 - (out.length - 1 - k) = k by omega]; exact he)).resolve_left h2
  exact hne (a.trans b.symm)

theorem Spec.Conflict.mono {S T : List (List Nat)} (h : Conflict S) (hs : ∀ s ∈ S, s ∈ T) : Conflict T := by
  obtain ⟨s, h1, t, h2, rest⟩ := h
  exact ⟨s, hs s h1, t, hs t h2, rest⟩

theorem no_conflict_of_broadcastsTo {S : List (List Nat)} {out : List Nat}
    (h : ∀ s ∈ S, BroadcastsTo s out) : ¬ Conflict S := fun hc =>
  (isBroadcast_of_broadcastsTo h).no_conflict (hc.mono fun s hs => by simp [hs])

theorem bcShape_singleton (s : List Nat) : bcShape [s] = some s := by
  cases h : bcShape [s] with
  | none => exact absurd (bcShape_none h) (isBroadcast_singleton s).no_conflict
  | some out => rw [IsBroadcast.unique (bcShape_some h) (isBroadcast_singleton s)]

theorem Spec.IsBroadcast.below {S : List (List Nat)} {out : List Nat} (h : IsBroadcast S out)
    (hS : ∀ s ∈ S, szMax ∉ s) : szMax ∉ out := by
  intro hm
  obtain ⟨k, hk, he⟩ := List.getElem_of_mem hm
  have hax := axisR_getD hk
  rw [List.getD_eq_getElem?_getD, List.getElem?_eq_getElem hk, he, Option.getD_some] at hax
  obtain ⟨s, hs, hd⟩ := h.attained _ _ hax
  exact hS s hs (axisR_mem hd)

/-! ### Expressions in the model -/

/-- The shape of an expression is the broadcast of its operands. -/
theorem exShape_spec {α : Type} (e : Ex α) (hx : ExtentsBelow e) :
    (∃ s, e.exShape = some s ∧ IsBroadcast e.toSh.leaves s) ∨
    (e.exShape = none ∧ resizeInfo e = none ∧ Conflict e.toSh.leaves) := by
  cases e with
  | arr c f => exact Or.inl ⟨_, rfl, isBroadcast_singleton _⟩
  | scalar v => exact Or.inl ⟨[], rfl, ⟨by simp [Ex.toSh, ShExpr.leaves], by simp [axisR], by simp [axisR]⟩⟩
  | gen s g => exact Or.inl ⟨_, rfl, isBroadcast_singleton _⟩
  | bcast e s => exact Or.inl ⟨_, rfl, isBroadcast_singleton _⟩
  | fn f args =>
    have h := C04_broadcast_shape (Ex.fn f args).toSh (Ex.extents_ok _ hx)
    cases hs : (Ex.fn f args).toSh.shape with
    | none =>
      refine Or.inr ⟨?_, hs, h.2.1 hs⟩
      show Option.map Prod.fst (Ex.fn f args).toSh.shape = none
      rw [hs]; rfl
    | some r =>
      refine Or.inl ⟨r.1, ?_, (h.1 r.1).1 ⟨r.2, hs⟩⟩
      show Option.map Prod.fst (Ex.fn f args).toSh.shape = _
      rw [hs]; rfl

/-- `resize` gives the shape computed by the specification. -/
theorem resizeInfo_bc {α : Type} {e : Ex α} (hx : ExtentsBelow e) {S : List (List Nat)}
    (hS : e.toSh.leaves = S) :
    (∀ out, bcShape S = some out → ∃ tr, resizeInfo e = some (out, tr)) ∧
    (bcShape S = none → resizeInfo e = none) := by
  subst hS
  rcases exShape_spec e hx with ⟨s, hs, hb⟩ | ⟨-, hr, hc⟩
  · refine ⟨fun out ho => ?_, fun hn => absurd (bcShape_none hn) hb.no_conflict⟩
    obtain ⟨tr, htr, -⟩ := exShape_resizeInfo hs
    rw [IsBroadcast.unique (bcShape_some ho) hb]
    exact ⟨tr, htr⟩
  · exact ⟨fun out ho => absurd hc (bcShape_some ho).no_conflict, fun _ => hr⟩

theorem bcLoop_output {s d out : List Nat} {t t' : Bool} (hx : szMax ∉ d)
    (h : bcLoop s d t = some (out, t')) : broadcastableLoop d out = true := by
  induction s generalizing d out t t' with
  | nil =>
    simp [bcLoop] at h
    rw [← h.1]
    clear h hx
    induction d with
    | nil => rfl
    | cons a d ih => simp [broadcastableLoop, ih]
  | cons i is ih =>
    cases d with
    | nil => simp [bcLoop] at h
    | cons o os =>
      have ho : o ≠ szMax := fun he => hx (by simp [he])
      have hos : szMax ∉ os := fun he => hx (by simp [he])
      unfold bcLoop at h
      rw [if_neg ho] at h
      split at h
      · obtain ⟨r, hr, he⟩ := Option.map_eq_some_iff.1 h
        simp only [Prod.mk.injEq] at he
        rw [← he.1]
        simp [broadcastableLoop, ih hos hr, *]
      · split at h
        · obtain ⟨r, hr, he⟩ := Option.map_eq_some_iff.1 h
          simp only [Prod.mk.injEq] at he
          rw [← he.1]
          simp [broadcastableLoop, ih hos hr]
        · split at h
          · simp at h
          · obtain ⟨r, hr, he⟩ := Option.map_eq_some_iff.1 h
            simp only [Prod.mk.injEq] at he
            rw [← he.1]
            simp [broadcastableLoop, ih hos hr]

theorem broadcastShape_output {s d out : List Nat} {t : Bool} (hx : szMax ∉ d)
    (h : broadcastShape s d = some (out, t)) : BroadcastsTo d out := by
  unfold broadcastShape at h
  split at h
  · simp at h
  · obtain ⟨r, hr, he⟩ := Option.map_eq_some_iff.1 h
    simp only [Prod.mk.injEq] at he
    have h1 := bcLoop_output (by simpa using hx) hr
    have h2 := length_bcLoop hr
    rw [← broadcastable_iff_broadcastsTo, ← he.1]
    unfold broadcastable
    rw [List.length_reverse, h2, List.length_reverse, List.reverse_reverse, h1]
    simp

/-- An expression that conflicts with the view makes the assignment throw. -/
theorem viewRhs_conflict {α : Type} {d : StridedArr} {e : Ex α} (hx : ExtentsBelow e)
    (hxd : szMax ∉ d.shape) (hc : Conflict (d.shape :: e.toSh.leaves)) : viewRhs d e = none := by
  unfold viewRhs
  rcases exShape_spec e hx with ⟨s, hs, hb⟩ | ⟨hs, -, -⟩
  · rw [hs]
    simp only
    have hle : ∀ x ∈ e.toSh.leaves, BroadcastsTo x s := fun x hxl => broadcastsTo_of_isBroadcast hb hxl
    by_cases heq : s = d.shape
    · exfalso
      refine no_conflict_of_broadcastsTo (out := d.shape) ?_ hc
      intro x hxm
      rcases List.mem_cons.1 hxm with rfl | hxm
      · exact broadcastsTo_refl _
      · rw [← heq]; exact hle x hxm
    · rw [if_neg (by simp [heq])]
      cases hbs : broadcastShape s d.shape with
      | none => rfl
      | some r =>
        exfalso
        refine no_conflict_of_broadcastsTo (out := r.1) ?_ hc
        intro x hxm
        rcases List.mem_cons.1 hxm with rfl | hxm
        · exact broadcastShape_output hxd (t := r.2) hbs
        · exact BroadcastsTo.trans (hle x hxm) (broadcastShape_broadcastsTo (t := r.2) hbs)
  · rw [hs]

theorem contig_surj {L : Layout} {c : StridedArr} (h : Contig L c) {k : Nat} (hk : k < numel c.shape) :
    ∃ idx, InBounds c.shape idx ∧ addr c idx = c.off + k := by
  have hr := map_rankIn_orderIndices L c.shape
  have hm : k ∈ (orderIndices L c.shape).map (rankIn L c.shape) := by rw [hr]; simpa using hk
  obtain ⟨idx, hi, he⟩ := List.mem_map.1 hm
  have hb := mem_orderIndices.1 hi
  exact ⟨idx, hb, by unfold addr; rw [h idx hb, he]⟩

/-! ### Strided views with positive steps -/

theorem stridedView_len {sh : List Nat} {st : List Int} {off : Int} {l : Layout} {us : List USlice}
    {v : SView} (h : stridedView sh st off l us = .ok v) : v.strides.length = v.shape.length := by
  simp only [stridedView, svFillArgs] at h
  cases hc : svCount ⟨sh.length, sh.length, 0, false⟩ us with
  | throws => simp [hc, Res.bind, Res.map] at h
  | ub => simp [hc, Res.bind, Res.map] at h
  | ok c =>
    simp only [hc, Res.bind, Res.map] at h
    by_cases h1 : c.check < 0
    · rw [if_pos h1] at h; cases h
    · rw [if_neg h1] at h
      generalize svLoop sh st _ 0 0 us = R at h
      cases R with
      | throws => simp at h
      | ub => simp at h
      | ok r =>
        simp only at h
        by_cases h2 : (r.2.length : Int) ≠ c.dimension
        · rw [if_pos h2] at h; cases h
        · rw [if_neg h2] at h
          simp only [svConstruct, Res.ok.injEq] at h
          subst h
          simp

/-- Componentwise order. -/
def leAll : List Int → List Int → Prop
  | a :: as, b :: bs => a ≤ b ∧ leAll as bs
  | [], [] => True
  | _, _ => False

theorem leAll_refl (l : List Int) : leAll l l := by
  induction l with
  | nil => trivial
  | cons a l ih => exact ⟨le_refl _, ih⟩

theorem dot_mono_ints {st : List Int} (hs : ∀ s ∈ st, (0 : Int) ≤ s) : ∀ {a b : List Int}, leAll a b →
    dot st a ≤ dot st b := by
  induction st with
  | nil => intro a b _; simp [dot]
  | cons s st ih =>
    intro a b h
    cases a with
    | nil => cases b with
      | nil => simp [dot]
      | cons => exact h.elim
    | cons x a => cases b with
      | nil => exact h.elim
      | cons y b =>
        simp only [dot]
        have h1 := ih (fun s hs' => hs s (by simp [hs'])) h.2
        have h2 := hs s (by simp)
        have h3 := mul_le_mul_of_nonneg_right h.1 h2
        omega

theorem axisSel_mono {n : Nat} {u : USlice} (hu : (∀ l, u ≠ .keep l) ∧ ∀ l, u ≠ .drop l)
    (hi : ∀ c, u ≠ .int c) (hk : ∀ a b k, u = .range a b (some k) → 0 < k) {i j : Nat} (hij : i ≤ j)
    (hj : j < (axisSel n u).length) : (axisSel n u).getD i 0 ≤ (axisSel n u).getD j 0 := by
  have hp : (axisSel n u).Pairwise (· ≤ ·) := by
    have hall : ((List.range n).map Int.ofNat).Pairwise (· ≤ ·) := by
      rw [List.pairwise_map]
      exact List.pairwise_lt_range.imp (fun h => by
        show ((_ : Nat) : Int) ≤ _
        exact Int.ofNat_le.2 (le_of_lt h))
    cases u with
    | int c => exact absurd rfl (hi c)
    | keep l => exact absurd rfl (hu.1 l)
    | drop l => exact absurd rfl (hu.2 l)
    | all => exact hall
    | newaxis => exact hall
    | ellipsis => exact hall
    | range a b k =>
      simp only [axisSel, pySlice]
      apply List.Pairwise.filter
      rw [List.pairwise_map]
      have hk' : 0 < k.getD 1 := by
        cases k with
        | none => simp
        | some k => exact hk a b k rfl
      refine List.pairwise_lt_range.imp (fun {x y} h => ?_)
      have : (x : Int) * k.getD 1 ≤ y * k.getD 1 :=
        mul_le_mul_of_nonneg_right (Int.ofNat_le.2 (le_of_lt h)) (le_of_lt hk')
      omega
  rcases Nat.lt_or_ge i j with h | h
  · rw [List.getD_eq_getElem?_getD, List.getD_eq_getElem?_getD,
      List.getElem?_eq_getElem (by omega), List.getElem?_eq_getElem hj]
    exact List.pairwise_iff_getElem.1 hp i j (by omega) hj h
  · rw [show i = j by omega]

theorem selIndex_mono : ∀ (us : List USlice) (sh : List Nat), NoKeepDrop us →
    (∀ a b k, .range a b (some k) ∈ us → 0 < k) → ∀ {i j : List Nat},
    InBounds (selShape sh us) j → leAll (toInts i) (toInts j) → i.length = j.length →
    leAll (selIndex sh us i) (selIndex sh us j) := by
  intro us
  induction us with
  | nil => intro sh _ _ i j _ h _; simpa [selIndex] using h
  | cons u us ih =>
    intro sh hn hs i j hj hle hlen
    have hn' : NoKeepDrop us := fun u hu => hn u (by simp [hu])
    have hs' : ∀ a b k, .range a b (some k) ∈ us → 0 < k := fun a b k h => hs a b k (by simp [h])
    have gen : ∀ n sh', sh = n :: sh' → (∀ c, u ≠ .int c) → u ≠ .newaxis →
        selShape sh (u :: us) = (axisSel n u).length :: selShape sh' us →
        (∀ a idx, selIndex sh (u :: us) (a :: idx) = (axisSel n u).getD a 0 :: selIndex sh' us idx) →
        leAll (selIndex sh (u :: us) i) (selIndex sh (u :: us) j) := by
      intro n sh' hsh hi _ h1 h2
      rw [h1] at hj
      cases j with
      | nil => simp [InBounds] at hj
      | cons b j => cases i with
        | nil => simp at hlen
        | cons a i =>
          rw [h2, h2]
          refine ⟨axisSel_mono (hn u (by simp)) hi (fun a b k h => hs a b k (by simp [h]))
            (Int.ofNat_le.1 hle.1) hj.1, ih sh' hn' hs' hj.2 hle.2 (by simpa using hlen)⟩
    cases sh with
    | nil =>
      cases u with
      | newaxis =>
        cases j with
        | nil => simp [selShape] at hj
        | cons b j => cases i with
          | nil => simp at hlen
          | cons a i =>
            simp only [selIndex]
            exact ih [] hn' hs' hj.2 hle.2 (by simpa using hlen)
      | _ => simp only [selIndex]; trivial
    | cons n sh' =>
      cases u with
      | newaxis =>
        cases j with
        | nil => simp [selShape] at hj
        | cons b j => cases i with
          | nil => simp at hlen
          | cons a i =>
            simp only [selIndex]
            exact ih (n :: sh') hn' hs' hj.2 hle.2 (by simpa using hlen)
      | int c =>
        simp only [selIndex]
        exact ⟨le_refl _, ih sh' hn' hs' hj hle hlen⟩
      | keep l => exact absurd rfl ((hn (.keep l) (by simp)).1 l)
      | drop l => exact absurd rfl ((hn (.drop l) (by simp)).2 l)
      | range a b k => exact gen n sh' rfl (by simp) (by simp) rfl (fun _ _ => rfl)
      | all => exact gen n sh' rfl (by simp) (by simp) rfl (fun _ _ => rfl)
      | ellipsis => exact gen n sh' rfl (by simp) (by simp) rfl (fun _ _ => rfl)

theorem axisSel_anti {n : Nat} {a b : Option Int} {k : Int} (hk : k < 0) {i j : Nat} (hij : i ≤ j)
    (hj : j < (axisSel n (.range a b (some k))).length) :
    (axisSel n (.range a b (some k))).getD j 0 ≤ (axisSel n (.range a b (some k))).getD i 0 := by
  have hp : (axisSel n (.range a b (some k))).Pairwise (· ≥ ·) := by
    simp only [axisSel, pySlice]
    apply List.Pairwise.filter
    rw [List.pairwise_map]
    refine List.pairwise_lt_range.imp (fun {x y} h => ?_)
    have : (y : Int) * (some k).getD 1 ≤ x * (some k).getD 1 :=
      mul_le_mul_of_nonpos_right (Int.ofNat_le.2 (le_of_lt h)) (le_of_lt hk)
    show _ ≤ _
    omega
  rcases Nat.lt_or_ge i j with h | h
  · rw [List.getD_eq_getElem?_getD, List.getD_eq_getElem?_getD,
      List.getElem?_eq_getElem hj, List.getElem?_eq_getElem (Nat.lt_of_le_of_lt hij hj)]
    exact List.pairwise_iff_getElem.1 hp i j (by omega) hj h
  · rw [show i = j by omega]

theorem selIndex_anti : ∀ (us : List USlice) (sh : List Nat), (∀ u ∈ us, Backward u) → ∀ {i j : List Nat},
    InBounds (selShape sh us) j → leAll (toInts i) (toInts j) → i.length = j.length → us.length ≥ sh.length →
    us.countP (· ≠ .newaxis) = sh.length →
    leAll (selIndex sh us j) (selIndex sh us i) := by
  intro us
  induction us with
  | nil =>
    intro sh _ i j hj h hlen hl _
    cases sh with
    | nil =>
      cases j with
      | nil => cases i with
        | nil => trivial
        | cons => simp at hlen
      | cons => simp [selShape, InBounds] at hj
    | cons => simp at hl
  | cons u us ih =>
    intro sh hb i j hj hle hlen hl hc
    have hb' : ∀ u ∈ us, Backward u := fun v hv => hb v (by simp [hv])
    cases sh with
    | nil =>
      cases u with
      | newaxis =>
        cases j with
        | nil => simp [selShape] at hj
        | cons b j => cases i with
          | nil => simp at hlen
          | cons a i =>
            simp only [selIndex]
            exact ih [] hb' hj.2 hle.2 (by simpa using hlen) (by simp) (by simpa using hc)
      | _ => simp only [selIndex]; trivial
    | cons n sh' =>
      cases u with
      | newaxis =>
        cases j with
        | nil => simp [selShape] at hj
        | cons b j => cases i with
          | nil => simp at hlen
          | cons a i =>
            simp only [selIndex]
            have hc' : us.countP (· ≠ .newaxis) = (n :: sh').length := by simpa using hc
            exact ih (n :: sh') hb' hj.2 hle.2 (by simpa using hlen)
              (by rw [← hc']; exact List.countP_le_length) hc'
      | int c =>
        simp only [selIndex]
        have hc' : us.countP (· ≠ .newaxis) = sh'.length := by simpa using hc
        exact ⟨le_refl _, ih sh' hb' hj hle hlen (by rw [← hc']; exact List.countP_le_length) hc'⟩
      | range a b k =>
        obtain ⟨k', rfl, hk⟩ : ∃ k', k = some k' ∧ k' < 0 := by
          have := hb (.range a b k) (by simp)
          cases k with
          | none => exact this.elim
          | some k' => exact ⟨k', rfl, this⟩
        have hc' : us.countP (· ≠ .newaxis) = sh'.length := by simpa using hc
        have hj' : InBounds ((axisSel n (.range a b (some k'))).length :: selShape sh' us) j := hj
        cases j with
        | nil => simp [InBounds] at hj'
        | cons b' j => cases i with
          | nil => simp at hlen
          | cons a' i =>
            show leAll ((axisSel n (.range a b (some k'))).getD b' 0 :: selIndex sh' us j)
              ((axisSel n (.range a b (some k'))).getD a' 0 :: selIndex sh' us i)
            exact ⟨axisSel_anti hk (Int.ofNat_le.1 hle.1) hj'.1,
              ih sh' hb' hj'.2 hle.2 (by simpa using hlen) (by rw [← hc']; exact List.countP_le_length) hc'⟩
      | keep l => exact (hb (.keep l) (by simp)).elim
      | drop l => exact (hb (.drop l) (by simp)).elim
      | all => exact (hb .all (by simp)).elim
      | ellipsis => exact (hb .ellipsis (by simp)).elim

theorem leAll_zeros {j : List Nat} : leAll (toInts (List.replicate j.length 0)) (toInts j) := by
  induction j with
  | nil => trivial
  | cons a j ih => exact ⟨Int.natCast_nonneg a, ih⟩

theorem leAll_last {sh j : List Nat} (h : InBounds sh j) : leAll (toInts j) (toInts (lastIdx sh)) := by
  induction sh generalizing j with
  | nil => cases j with
    | nil => trivial
    | cons => simp [InBounds] at h
  | cons n sh ih => cases j with
    | nil => simp [InBounds] at h
    | cons a j =>
      have h1 := h.1
      exact ⟨Int.ofNat_le.2 (show a ≤ n - 1 by omega), ih h.2⟩

theorem length_lastIdx (sh : List Nat) : (lastIdx sh).length = sh.length := by simp [lastIdx]

theorem mem_expandEllipsis {n : Nat} {us : List USlice} {u : USlice} (h : u ∈ expandEllipsis n us) :
    u ∈ us ∨ u = .all := by
  unfold expandEllipsis at h
  obtain ⟨v, hv, hu⟩ := List.mem_flatMap.1 h
  by_cases he : v = .ellipsis
  · rw [if_pos he] at hu; exact Or.inr (List.eq_of_mem_replicate hu)
  · rw [if_neg he, List.mem_singleton] at hu; exact Or.inl (hu ▸ hv)

theorem computeStrides_nonneg (l : Layout) (sh : List Nat) :
    ∀ s ∈ (computeStrides l l sh).1, (0 : Int) ≤ s := by
  intro s hs
  obtain ⟨k, hk, he⟩ := List.getElem_of_mem hs
  have hlen : (computeStrides l l sh).1.length = sh.length := by simp
  have hg : sh[k]? = some (sh[k]'(by omega)) := List.getElem?_eq_getElem _
  have h1 : (computeStrides l l sh).1[k]? = some s := by rw [List.getElem?_eq_getElem hk, he]
  by_cases hL : l = .row_major ∨ l = .row_major
  · have h2 := C02_row_stride hL sh k _ hg
    rw [h1, Option.some.injEq] at h2
    rw [h2]; split <;> simp
  · have h2 := C02_column_stride hL sh k _ hg
    rw [h1, Option.some.injEq] at h2
    rw [h2]; split <;> simp

theorem leAll_toInts {p q : List Nat} (h : List.Forall₂ (· ≤ ·) p q) : leAll (toInts p) (toInts q) := by
  induction h with
  | nil => trivial
  | cons h _ ih => exact ⟨Int.ofNat_le.2 h, ih⟩

theorem forall₂_of_leAll : ∀ {p q : List Nat}, leAll (toInts p) (toInts q) → List.Forall₂ (· ≤ ·) p q
  | [], [], _ => .nil
  | _ :: _, _ :: _, h => .cons (Int.ofNat_le.1 h.1) (forall₂_of_leAll h.2)
  | [], _ :: _, h => h.elim
  | _ :: _, [], h => h.elim

theorem forall₂_zeros (idx : List Nat) : List.Forall₂ (· ≤ ·) (List.replicate idx.length 0) idx :=
  forall₂_of_leAll leAll_zeros

theorem forall₂_last {sh j : List Nat} (h : InBounds sh j) : List.Forall₂ (· ≤ ·) j (lastIdx sh) :=
  forall₂_of_leAll (leAll_last h)

/-- Ranges with positive steps only. -/
theorem oneWay_of_forward {sh : List Nat} {us : List USlice} (hv : SlicesValid sh (expandEllipsis sh.length us))
    (hn : NoKeepDrop us) (hs : ∀ a b k, .range a b (some k) ∈ us → 0 < k) : OneWay sh us := by
  refine Or.inl fun i j hi hj h => ?_
  have hnk : NoKeepDrop (expandEllipsis sh.length us) := by
    intro u hu
    rcases mem_expandEllipsis hu with h | rfl
    · exact hn u h
    · simp
  have hsteps : ∀ a b k, .range a b (some k) ∈ expandEllipsis sh.length us → 0 < k := by
    intro a b k hu
    rcases mem_expandEllipsis hu with h | h
    · exact hs a b k h
    · cases h
  have := selIndex_mono _ sh hnk hsteps hj (leAll_toInts h) h.length_eq
  obtain ⟨p, hp, e1⟩ := selIndex_bounds ((makeView_ok hv).choose_spec.2) hi
  obtain ⟨q, hq, e2⟩ := selIndex_bounds ((makeView_ok hv).choose_spec.2) hj
  unfold vindex
  rw [e1, e2] at this ⊢
  rw [map_toNat_toInts, map_toNat_toInts]
  exact forall₂_of_leAll this

/-- Ranges with negative steps, integers and newaxes only, for all axes. -/
theorem oneWay_of_backward {sh : List Nat} {us : List USlice} (hv : SlicesValid sh (expandEllipsis sh.length us))
    (hb : ∀ u ∈ expandEllipsis sh.length us, Backward u)
    (hc : (expandEllipsis sh.length us).countP (· ≠ .newaxis) = sh.length) : OneWay sh us := by
  refine Or.inr fun i j hi hj h => ?_
  have := selIndex_anti _ sh hb hj (leAll_toInts h) h.length_eq
    (Nat.le_trans (Nat.le_of_eq hc.symm) List.countP_le_length) hc
  obtain ⟨p, hp, e1⟩ := selIndex_bounds ((makeView_ok hv).choose_spec.2) hi
  obtain ⟨q, hq, e2⟩ := selIndex_bounds ((makeView_ok hv).choose_spec.2) hj
  unfold vindex
  rw [e1, e2] at this ⊢
  rw [map_toNat_toInts, map_toNat_toInts]
  exact forall₂_of_leAll this

/-- What a program may rely on when it takes a strided view of a container. -/
structure GoodView (x : StridedArr) (us : List USlice) (v : SView) : Prop where
  wf : v.arr.WF
  shape : v.arr.shape = vshape x.shape us
  distinct : Distinct v.arr
  hull : Hull v.arr
  inside : ∀ idx, InBounds (vshape x.shape us) idx →
    InBounds x.shape (vindex x.shape us idx) ∧ addr v.arr idx = addr x (vindex x.shape us idx)
  contig : v.layout ≠ .dynamic → ∃ L, (L = .row_major ∨ L = .column_major) ∧ Contig L v.arr

theorem goodView {x : PVar} {sh : List Nat} {us : List USlice} (hl : x.lay = .row_major ∨ x.lay = .column_major)
    (ha : x.arr = .container x.lay sh x.arr.off) (hs : SaneSlices sh us) :
    ∃ v, x.view us = .ok v ∧ GoodView x.arr us v := by
  have hsh : x.arr.shape = sh := by rw [ha]; rfl
  have hst : x.arr.strides = (computeStrides x.lay x.lay sh).1 := by rw [ha]; rfl
  have hlen : x.arr.strides.length = x.arr.shape.length := by rw [hst, hsh]; simp
  have hv := hs.valid
  have hnk : NoKeepDrop (expandEllipsis sh.length us) := by
    intro u hu
    rcases mem_expandEllipsis hu with h | rfl
    · exact hs.strided u h
    · simp
  rw [← hsh] at hs hv hnk
  obtain ⟨v, h1, h2, h3, h4⟩ := C20_strided_view_partial x.arr.shape x.arr.strides x.arr.off x.lay us
    hlen hs.ell hv hs.strided hs.ints
  refine ⟨v, h1, ?_⟩
  have hvs : v.arr.shape = vshape x.arr.shape us := by
    show v.shape.map Int.toNat = _
    rw [h2, map_toNat_toInts]; rfl
  have hvl : v.strides.length = v.arr.shape.length := by
    rw [stridedView_len h1]; show _ = (v.shape.map Int.toNat).length; simp
  have haddr : ∀ idx, InBounds (vshape x.arr.shape us) idx →
      addr v.arr idx = x.arr.off + dot x.arr.strides
        (selIndex x.arr.shape (expandEllipsis x.arr.shape.length us) idx) := by
    intro idx hi
    rw [← (h3 idx hi).1]
    unfold SView.index
    rw [dataOffset_eq _ _ (by rw [toInts_length, hi.length_eq, hvl, hvs])]
    rfl
  have hin : ∀ idx, InBounds (vshape x.arr.shape us) idx →
      InBounds x.arr.shape (vindex x.arr.shape us idx) ∧
      selIndex x.arr.shape (expandEllipsis x.arr.shape.length us) idx =
        toInts (vindex x.arr.shape us idx) := by
    intro idx hi
    obtain ⟨-, -, p, hp, he⟩ := h3 idx hi
    have : vindex x.arr.shape us idx = p := by
      unfold vindex; rw [he, map_toNat_toInts]
    rw [this]
    exact ⟨hp, he⟩
  have haddr' : ∀ idx, InBounds (vshape x.arr.shape us) idx →
      addr v.arr idx = addr x.arr (vindex x.arr.shape us idx) := by
    intro idx hi
    rw [haddr idx hi, (hin idx hi).2]; rfl
  have hdx : Distinct x.arr := by rw [ha]; exact container_distinct hl _ _
  have hwf : v.arr.WF := by
    refine ⟨hvl, ?_, StridedArr.mk'_back _ _ _ hvl⟩
    intro k hk
    have hk' : (v.shape.map Int.toNat).getD k 0 = 1 := hk
    have : v.shape[k]? = some 1 := by
      rw [List.getD_eq_getElem?_getD, List.getElem?_map] at hk'
      cases hg : v.shape[k]? with
      | none => rw [hg] at hk'; simp at hk'
      | some a =>
        rw [hg] at hk'
        simp only [Option.map_some, Option.getD_some] at hk'
        congr 1; omega
    have h5 := C20_unit_stride _ _ _ _ _ _ h1 k this
    show v.strides.getD k 0 = 0
    rw [List.getD_eq_getElem?_getD, h5]; rfl
  refine ⟨hwf, hvs, ?_, ?_, fun idx hi => ⟨(hin idx hi).1, haddr' idx hi⟩, ?_⟩
  · intro i j hi hj he
    rw [hvs] at hi hj
    rw [haddr' i hi, haddr' j hj] at he
    have := hdx _ _ (hin i hi).1 (hin j hj).1 he
    refine C18_view_injective _ _ hv (noRepeats_of_strided hv hnk) i j hi hj ?_
    rw [(hin i hi).2, (hin j hj).2, this]
  · intro idx hi
    have hpos := numel_pos_of_inBounds hi
    have hnn : ∀ s ∈ x.arr.strides, (0 : Int) ≤ s := by
      rw [hst]; exact computeStrides_nonneg _ _
    have hlast : InBounds v.arr.shape (lastIdx v.arr.shape) := lastIdx_inBounds hpos
    have hoff : v.arr.off = addr v.arr (List.replicate idx.length 0) := by
      unfold addr; rw [dot_zeros]; omega
    have hz : InBounds v.arr.shape (List.replicate idx.length 0) := by
      rw [hi.length_eq]
      exact inBounds_zeros hi
    rw [hvs] at hi hlast hz
    rw [hoff]
    have hzi : List.Forall₂ (· ≤ ·) (List.replicate idx.length 0) idx := forall₂_zeros idx
    have hil : List.Forall₂ (· ≤ ·) idx (lastIdx (vshape x.arr.shape us)) := forall₂_last hi
    rw [show addr v.arr (lastIdx v.arr.shape) = addr v.arr (lastIdx (vshape x.arr.shape us)) by rw [hvs],
      haddr' _ hz, haddr' _ hi, haddr' _ hlast]
    have mono : ∀ {p q : List Nat}, List.Forall₂ (· ≤ ·) p q → addr x.arr p ≤ addr x.arr q := by
      intro p q h
      unfold addr
      have := dot_mono_ints hnn (leAll_toInts h)
      omega
    rcases hs.oneWay with h | h
    · have k1 := mono (h _ _ hz hi hzi)
      have k2 := mono (h _ _ hi hlast hil)
      omega
    · have k1 := mono (h _ _ hz hi hzi)
      have k2 := mono (h _ _ hi hlast hil)
      omega
  · intro hd
    obtain ⟨h5, h6⟩ := h4 hd
    refine ⟨x.lay, hl, ?_⟩
    intro idx hi
    rw [hvs] at hi
    have h7 := h6 idx hi
    unfold SView.index SView.linear at h7
    rw [dataOffset_eq _ _ (by rw [toInts_length, hi.length_eq, hvl, hvs])] at h7
    rw [hvs]
    show dot v.strides (toInts idx) = _
    have h8 : (rankIn x.lay (selShape x.arr.shape (expandEllipsis x.arr.shape.length us)) idx : Int) =
      rankIn x.lay (vshape x.arr.shape us) idx := rfl
    omega

end Xt
