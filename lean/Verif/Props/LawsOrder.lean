import Verif.Props.Laws
import Verif.Props.Sort
import Verif.Props.SetOps
import Verif.Props.Random
import Verif.Props.Manip
/-!
# C90: rearrangements, sorting and sets
-/

namespace Xt
open Spec

/-! ### Rearranged elements -/

theorem perm_of_indices {α : Type} {s t : List Nat} {f : List Nat → List Nat} {x y : List Nat → α}
    (hin : ∀ p, InBounds s p → InBounds t (f p)) (hinj : ∀ p q, InBounds s p → InBounds s q → f p = f q → p = q)
    (hsurj : ∀ q, InBounds t q → ∃ p, InBounds s p ∧ q = f p) (hv : ∀ p, InBounds s p → y (f p) = x p) :
    ((rowIndices t).map y).Perm ((rowIndices s).map x) := by
  have h1 : ((rowIndices s).map f).Perm (rowIndices t) := by
    apply (List.perm_ext_iff_of_nodup _ (rowIndices_nodup t)).2
    · intro q
      rw [mem_rowIndices, List.mem_map]
      constructor
      · rintro ⟨p, hp, rfl⟩
        exact hin p (mem_rowIndices.1 hp)
      · intro hq
        obtain ⟨p, hp, rfl⟩ := hsurj q hq
        exact ⟨p, mem_rowIndices.2 hp, rfl⟩
    · exact (List.nodup_map_iff_inj_on (rowIndices_nodup s)).2 fun p hp q hq h =>
        hinj p q (mem_rowIndices.1 hp) (mem_rowIndices.1 hq) h
  have h2 : ((rowIndices s).map f).map y = (rowIndices s).map x := by
    rw [List.map_map]
    exact List.map_congr_left fun p hp => hv p (mem_rowIndices.1 hp)
  rw [← h2]
  exact (h1.map y).symm

/-- C90: the transpose lists the elements of its argument in another order. -/
theorem C90_transpose_perm {α : Type} {e : Strd} (he : e.WF) {perm : List Nat} (hp : ValidPerm e.shape.length perm)
    (mem : Int → α) :
    ∃ v, transposePerm e (toInts perm) = .ok v ∧
      ((rowIndices v.shape).map (v.read mem)).Perm ((rowIndices e.shape).map (e.read mem)) := by
  obtain ⟨v, h1, -, h3, h4, h5⟩ := C33_transpose he hp
  refine ⟨v, h1, perm_of_indices (f := permute perm) (fun p h => (h4 p h).1) (fun p q h h' heq => ?_) h5 fun p h => ?_⟩
  · rw [← permute_inv hp h.length_eq, heq, permute_inv hp h'.length_eq]
  · show mem _ = mem _
    rw [(h4 p h).2]

/-- C90: so does `flip`. -/
theorem C90_flip_perm {α : Type} {e : Strd} (he : e.WF) {a : Nat} (ha : a < e.shape.length) (mem : Int → α) :
    ∃ v, flip e a = .ok v ∧
      ((rowIndices v.shape).map (v.read mem)).Perm ((rowIndices e.shape).map (e.read mem)) := by
  obtain ⟨v, h1, -, h3, h4⟩ := C35_flip he ha
  have hb : ∀ p, InBounds e.shape p → InBounds e.shape (flipIndex e.shape a p) := fun p hp => flipIndex_inBounds hp
  refine ⟨v, h1, ?_⟩
  rw [h3]
  refine perm_of_indices (f := flipIndex e.shape a) hb (fun p q h h' heq => ?_) (fun q h => ⟨_, hb q h, ?_⟩) fun p h => ?_
  · rw [← flipIndex_flipIndex ha h, heq, flipIndex_flipIndex ha h']
  · rw [flipIndex_flipIndex ha h]
  · show mem _ = mem _
    rw [h4 _ (hb p h), flipIndex_flipIndex ha h]

theorem perm_of_positions {α : Type} {l r : List α} {f : Nat → Nat} (hl : r.length = l.length)
    (hin : ∀ p, p < l.length → f p < l.length) (hinj : ∀ p q, p < l.length → q < l.length → f p = f q → p = q)
    (hv : ∀ p, p < l.length → r[f p]? = l[p]?) : r.Perm l := by
  have h1 : ((List.range l.length).map f).Perm (List.range l.length) := by
    refine List.Perm.symm (List.Subperm.perm_of_length_le ?_ (by simp)).symm
    refine List.subperm_of_subset ?_ ?_
    · exact (List.nodup_map_iff_inj_on List.nodup_range).2 fun p hp q hq h =>
        hinj p q (List.mem_range.1 hp) (List.mem_range.1 hq) h
    · intro x hx
      obtain ⟨p, hp, rfl⟩ := List.mem_map.1 hx
      exact List.mem_range.2 (hin p (List.mem_range.1 hp))
  have h2 : (r.map some).Perm (l.map some) := by
    have hr : ∀ m : List α, (List.range m.length).map (fun k : Nat => m[k]?) = m.map some := by
      intro m
      apply List.ext_getElem?
      intro i
      rw [List.getElem?_map, List.getElem?_map]
      by_cases hi : i < m.length
      · rw [List.getElem?_range hi, List.getElem?_eq_getElem hi]; simp [hi]
      · rw [List.getElem?_eq_none (by simpa using hi), List.getElem?_eq_none (by omega)]; rfl
    rw [← hr l, ← hr r, hl]
    have := h1.map fun k : Nat => r[k]?
    rw [List.map_map] at this
    refine this.symm.trans ?_
    rw [show (List.range l.length).map ((fun k : Nat => r[k]?) ∘ f) = (List.range l.length).map fun k : Nat => l[k]? from
      List.map_congr_left fun p hp => hv p (List.mem_range.1 hp)]
  have := h2.filterMap id
  simpa using this

theorem rollPos_inj {n : Nat} (hn : 0 < n) (k : Int) {p q : Nat} (hp : p < n) (hq : q < n)
    (h : (((p : Int) + k) % (n : Int)).toNat = (((q : Int) + k) % (n : Int)).toNat) : p = q := by
  have h1 := Int.emod_nonneg ((p : Int) + k) (show (n : Int) ≠ 0 by omega)
  have h2 := Int.emod_nonneg ((q : Int) + k) (show (n : Int) ≠ 0 by omega)
  have h3 : ((p : Int) + k) % (n : Int) = ((q : Int) + k) % (n : Int) := by omega
  have h4 := Int.emod_emod_of_dvd
  have h5 : (n : Int) ∣ ((p : Int) - q) := by
    have := Int.emod_emod_of_dvd
    have := Int.dvd_of_emod_eq_zero (Int.emod_eq_emod_iff_emod_sub_eq_zero.1 h3)
    rwa [show ((p : Int) + k) - ((q : Int) + k) = (p : Int) - q by ring] at this
  obtain ⟨c, hc⟩ := h5
  have : c = 0 := by
    by_contra h0
    rcases lt_or_gt_of_ne h0 with h | h
    · have : (n : Int) * c ≤ (n : Int) * (-1) := Int.mul_le_mul_of_nonneg_left (by omega) (by omega)
      omega
    · have : (n : Int) * 1 ≤ (n : Int) * c := Int.mul_le_mul_of_nonneg_left (by omega) (by omega)
      omega
  subst this
  omega

/-- C90: so does `roll`. -/
theorem C90_roll_perm {α : Type} {vals : List α} (hv : vals ≠ []) (k : Int) :
    ∃ r, rollFlat vals k = .ok r ∧ r.Perm vals := by
  obtain ⟨r, h1, h2, h3⟩ := C36_roll_flat hv k
  have hpos : 0 < vals.length := List.length_pos_iff.2 hv
  refine ⟨r, h1, perm_of_positions h2 (fun p _ => ?_) (fun p q hp hq h => rollPos_inj hpos k hp hq h) h3⟩
  have := Int.emod_nonneg ((p : Int) + k) (show (vals.length : Int) ≠ 0 by omega)
  have := Int.emod_lt_of_pos ((p : Int) + k) (show (0 : Int) < vals.length by omega)
  omega

/-- C90: total reductions do not depend on the order of the elements. -/
theorem C90_total {M : Type} [AddCommMonoid M] {x y : LazyEx M} (hx : x.shape ≠ []) (hy : y.shape ≠ []) (d : M)
    (h : ((rowIndices y.shape).map y.elem).Perm ((rowIndices x.shape).map x.elem)) :
    ∃ s t, lazyReduce (monoidFns M) d x.toEx x.shape (toInts (List.range x.shape.length)) false = .ok s ∧
      lazyReduce (monoidFns M) d y.toEx y.shape (toInts (List.range y.shape.length)) false = .ok t ∧
      s.shape = [] ∧ t.shape = [] ∧ s.elem [] = t.elem [] := by
  have main : ∀ z : LazyEx M, z.shape ≠ [] → ∃ s,
      lazyReduce (monoidFns M) d z.toEx z.shape (toInts (List.range z.shape.length)) false = .ok s ∧ s.shape = [] ∧
        s.elem [] = ((rowIndices z.shape).map z.elem).sum := by
    intro z hz
    have hn : (toInts (List.range z.shape.length)).map (normalizeAxis z.shape.length) = List.range z.shape.length := by
      rw [toInts, List.map_map]
      exact (List.map_congr_left fun k hk => by simp [normalizeAxis]).trans (List.map_id _)
    obtain ⟨s, s1, s2, s3⟩ := lazyReduce_fold (e := z.toEx) (sh := z.shape) d ⟨hz, broadcastsTo_refl _⟩
      (by rw [hn]; exact goodAxes_range _) false (.inl (monoidLaws (M := M)))
    rw [hn] at s2 s3
    have hnil : s.shape = [] := by rw [s2]; simpa using redShape_all z.shape false
    refine ⟨s, s1, hnil, ?_⟩
    have hb : InBounds s.shape [] := by rw [hnil]; trivial
    rw [s3 [] hb, redValue_monoid, redGroup_all (by rw [← s2]; exact hb)]
    congr 1
    exact List.map_congr_left fun q hq => valueAt_toEx _ (mem_rowIndices.1 hq)
  obtain ⟨s, s1, s2, s3⟩ := main x hx
  obtain ⟨t, t1, t2, t3⟩ := main y hy
  exact ⟨s, t, s1, t1, s2, t2, by rw [s3, t3, h.sum_eq]⟩

example := C90_transpose_perm (α := Nat) (e := ⟨[2, 3], [3, 1], 0, .row_major⟩) rfl (perm := [1, 0]) (by decide) fun k => k.toNat
example := C90_flip_perm (α := Nat) (e := ⟨[2, 3], [3, 1], 0, .row_major⟩) rfl (a := 1) (by decide) fun k => k.toNat
example := C90_roll_perm (vals := [1, 2, 3]) (by simp) (-5)
example := C90_total (M := ℚ) (x := ⟨[3], fun i => i.sum⟩) (y := ⟨[3], fun i => 2 - i.sum⟩) (by simp) (by simp) 0 (by decide +kernel)

/-! ### Sorting -/

theorem SortedOf.unique {α : Type} [LinearOrder α] {l l' a b : List α} (hl : l.Perm l') (ha : SortedOf l a) (hb : SortedOf l' b) :
    a = b :=
  List.Perm.eq_of_pairwise (fun _ _ _ _ => le_antisymm) ha.2 hb.2 (ha.1.trans (hl.trans hb.1.symm))

theorem line_get {α : Type} {g g' : List Nat → α} {n axis : Nat} {p : List Nat} (h : line g n axis p = line g' n axis p)
    (hp : p.getD axis 0 < n) (hl : axis < p.length) : g p = g' p := by
  have := congrArg (fun l => l[p.getD axis 0]?) h
  simp only [line, List.getElem?_map, List.getElem?_range hp, Option.map_some, Option.some.injEq] at this
  rwa [set_getD_self] at this

/-- C90: sorting twice is sorting once, whichever algorithms sort. -/
theorem C90_sort_sorted {α : Type} [LinearOrder α] [Inhabited α] {srt srt' : List α → List α}
    (hs : SortBy (fun a : α => a) srt) (hs' : SortBy (fun a : α => a) srt') {L : Layout}
    (hL : L = .row_major ∨ L = .column_major) {v : Strd}
    (hv : v.WF) (hl : v.layout = L) (mem : Int → α) (hd : 1 ≤ v.shape.length) (hsmall : v.shape.length < 2 ^ 63)
    {axis : Int} (h1 : -(v.shape.length : Int) ≤ axis) (h2 : axis < v.shape.length) :
    ∃ r r' r'', sortAxis srt L v mem axis = .ok r ∧ sortAxis srt' L v mem axis = .ok r' ∧
      sortAxis srt' L r.strd r.mem axis = .ok r'' ∧ r.shape = v.shape ∧ r'.shape = v.shape ∧ r''.shape = v.shape ∧
      ∀ p, InBounds v.shape p → r'.read p = r.read p ∧ r''.read p = r.read p := by
  obtain ⟨r, r1, r2, r3, _, r5⟩ := mapAxis_lines (fun l => (hs.perm l).length_eq) hL hv hl mem hd hsmall h1 h2
  obtain ⟨r', q1, q2, _, _, q5⟩ := mapAxis_lines (fun l => (hs'.perm l).length_eq) hL hv hl mem hd hsmall h1 h2
  obtain ⟨r'', t1, t2, _, _, t5⟩ := mapAxis_lines (f := srt') (v := r.strd) (fun l => (hs'.perm l).length_eq) hL r.strd_wf
    (show r.layout = L from r3) r.mem (show 1 ≤ r.shape.length by rw [r2]; exact hd) (show r.shape.length < 2 ^ 63 by rw [r2]; exact hsmall) (axis := axis)
    (show -(r.shape.length : Int) ≤ axis by rw [r2]; exact h1) (show axis < r.shape.length by rw [r2]; exact h2)
  have t2' : r''.shape = v.shape := t2.trans r2
  have hsh : r.strd.shape = v.shape := r2
  rw [hsh] at t5
  refine ⟨r, r', r'', r1, q1, t1, r2, q2, t2', fun p hp => ?_⟩
  obtain ⟨-, hlt⟩ := normalizeAxis_eq hsmall h1 h2
  have hpl := hp.length_eq
  have hb := (inBounds_iff_get.1 hp).2 _ hlt
  constructor
  · refine line_get ?_ hb (by omega)
    rw [q5 p hp, r5 p hp]
    exact SortedOf.unique (List.Perm.refl _) ⟨hs'.perm _, hs'.sorted _⟩ ⟨hs.perm _, hs.sorted _⟩
  · refine line_get ?_ hb (by omega)
    rw [t5 p hp]
    refine SortedOf.unique (List.Perm.refl _) ⟨hs'.perm _, hs'.sorted _⟩ ⟨List.Perm.refl _, ?_⟩
    show (line r.read _ _ p).Pairwise _
    rw [r5 p hp]
    exact hs.sorted _

/-- C90: gathering the elements along the axis at the positions of `argsort` sorts. -/
theorem C90_argsort_gather {α : Type} [LinearOrder α] [Inhabited α] {srt : List α → List α}
    (hs : SortBy (fun a : α => a) srt) {asrt : (Nat → α) → List Nat → List Nat}
    (ha : ∀ key, SortBy key (asrt key)) (m : SortMethod) (b : Buf α) (hb : b.WF)
    (hL : b.layout = .row_major ∨ b.layout = .column_major) (hd : 1 ≤ b.shape.length)
    (hsmall : b.shape.length < 2 ^ 63) {axis : Int} (h1 : -(b.shape.length : Int) ≤ axis)
    (h2 : axis < b.shape.length) :
    ∃ r s, argsortAxis asrt m b.layout b.strd b.mem axis = .ok r ∧ sortAxis srt b.layout b.strd b.mem axis = .ok s ∧
      r.shape = b.shape ∧ s.shape = b.shape ∧
      ∀ p, InBounds b.shape p →
        s.read p = b.read (p.set (axisOf b.shape.length axis) (r.read p)) ∧
        InBounds b.shape (p.set (axisOf b.shape.length axis) (r.read p)) := by
  obtain ⟨r, r1, r2, r3⟩ := C41_argsort_partial ha m b hb hL hd hsmall h1 h2
  obtain ⟨s, s1, s2, s3⟩ := C41_sort_partial hs hL b.strd_wf rfl b.mem hd hsmall h1 h2
  refine ⟨r, s, r1, s1, r2, s2, fun p hp => ?_⟩
  obtain ⟨-, hlt⟩ := normalizeAxis_eq hsmall h1 h2
  have hpl := hp.length_eq
  have hn := (inBounds_iff_get.1 hp).2 _ hlt
  have hr := (r3 p hp).1
  have hsv := s3 p hp
  have hsv' : SortedOf (line b.read (b.shape.getD (axisOf b.shape.length axis) 0) (axisOf b.shape.length axis) p)
    (line s.read (b.shape.getD (axisOf b.shape.length axis) 0) (axisOf b.shape.length axis) p) := hsv
  generalize axisOf b.shape.length axis = a at hlt hn hr hsv' ⊢
  clear r3 s3 hsv
  have hlen : (line b.read (b.shape.getD a 0) a p).length = b.shape.getD a 0 := by simp [line]
  have hrp : r.read p < b.shape.getD a 0 := by
    have : r.read p ∈ line r.read (b.shape.getD a 0) a p :=
      List.mem_map.2 ⟨p.getD a 0, List.mem_range.2 hn, by rw [set_getD_self]⟩
    have := hr.1.mem_iff.1 this
    rw [hlen] at this
    exact List.mem_range.1 this
  have hg : SortedOf (line b.read (b.shape.getD a 0) a p)
      ((line r.read (b.shape.getD a 0) a p).map fun (i : Nat) => (line b.read (b.shape.getD a 0) a p).getD i default) := by
    refine ⟨?_, hr.2⟩
    have := hr.1.map fun (i : Nat) => (line b.read (b.shape.getD a 0) a p).getD i default
    refine this.trans (List.Perm.of_eq ?_)
    apply List.ext_getElem
    · simp
    intro i h1 h2
    rw [List.getElem_map, List.getElem_range, List.getD_eq_getElem?_getD, List.getElem?_eq_getElem h2, Option.getD_some]
  have heq := SortedOf.unique (List.Perm.refl _) hsv' hg
  have := congrArg (fun l => l[p.getD a 0]?) heq
  have hget : ∀ (g : Nat → α) , ((List.range (b.shape.getD a 0)).map g).getD (r.read p) default = g (r.read p) := by
    intro g
    rw [List.getD_eq_getElem?_getD, List.getElem?_map, List.getElem?_range hrp]; rfl
  simp only [line, List.getElem?_map, List.getElem?_range hn, Option.map_some, Option.some.injEq, set_getD_self, hget] at this
  exact ⟨this, inBounds_set hp hrp⟩

theorem storageIndices_perm (L : Layout) (sh : List Nat) : (storageIndices L sh).Perm (rowIndices sh) := by
  unfold storageIndices
  split
  · exact List.Perm.refl _
  · exact (List.perm_ext_iff_of_nodup (colIndices_nodup sh) (rowIndices_nodup sh)).2 fun q => by
      rw [mem_colIndices, mem_rowIndices]

/-- C90: the ends of the sorted elements are the elements at `argmin` and `argmax`. -/
theorem C90_sort_extremes {α : Type} [LinearOrder α] [Inhabited α] {srt : List α → List α}
    (hs : SortBy (fun a : α => a) srt) (L : Layout) (e : Buf α) (h : 0 < numel e.shape) :
    (sortFlat srt e.strd e.mem).head? = ((storageIndices L e.shape).map e.read)[argFlat lessThan L e]? ∧
      (sortFlat srt e.strd e.mem).getLast? = ((storageIndices L e.shape).map e.read)[argFlat greaterThan L e]? := by
  obtain ⟨hmin, hmax⟩ := C43_flat L e h
  generalize argFlat lessThan L e = k at hmin
  generalize argFlat greaterThan L e = m at hmax
  have hp : (sortFlat srt e.strd e.mem).Perm ((storageIndices L e.shape).map e.read) :=
    (hs.perm _).trans ((storageIndices_perm L e.shape).map e.read).symm
  have hsd : (sortFlat srt e.strd e.mem).Pairwise (· ≤ ·) := hs.sorted _
  generalize sortFlat srt e.strd e.mem = S at hp hsd
  generalize (storageIndices L e.shape).map e.read = V at hp hmin hmax
  obtain ⟨hk, hk2, -⟩ := hmin
  obtain ⟨hm, hm2, -⟩ := hmax
  have hv : ∀ i (hi : i < V.length), V.getD i default = V[i] := fun i hi => by
    rw [List.getD_eq_getElem?_getD, List.getElem?_eq_getElem hi]; rfl
  have lo : ∀ x ∈ V, V[k] ≤ x := by
    intro x hx
    obtain ⟨i, hi, rfl⟩ := List.mem_iff_getElem.1 hx
    have := hk2 i hi
    rwa [hv k hk, hv i hi] at this
  have hi : ∀ x ∈ V, x ≤ V[m] := by
    intro x hx
    obtain ⟨i, hi, rfl⟩ := List.mem_iff_getElem.1 hx
    have := hm2 i hi
    rwa [hv m hm, hv i hi] at this
  have hne : S ≠ [] := by
    intro h0
    rw [h0] at hp
    have := hp.length_eq
    simp at this; omega
  rw [List.getElem?_eq_getElem hk, List.getElem?_eq_getElem hm, List.head?_eq_some_head hne, List.getLast?_eq_some_getLast hne]
  constructor
  · congr 1
    refine le_antisymm ?_ (lo _ (hp.mem_iff.1 (List.head_mem hne)))
    have hmem := hp.mem_iff.2 (List.getElem_mem hk)
    generalize V[k] = y at hmem
    match S, hne, hsd with
    | s :: S, _, hsd =>
      rcases List.mem_cons.1 hmem with rfl | h1
      · exact le_refl _
      · exact (List.pairwise_cons.1 hsd).1 _ h1
  · congr 1
    refine le_antisymm (hi _ (hp.mem_iff.1 (List.getLast_mem hne))) ?_
    have hmem := hp.mem_iff.2 (List.getElem_mem hm)
    generalize V[m] = y at hmem
    rw [← List.dropLast_append_getLast hne] at hmem hsd
    rcases List.mem_append.1 hmem with h1 | h1
    · exact (List.pairwise_append.1 hsd).2.2 _ h1 _ (by simp)
    · rw [List.mem_singleton.1 h1]

/-! ### Sets -/

theorem SortedSet.unique {α : Type} [LinearOrder α] {P Q : α → Prop} {a b : List α} (hPQ : ∀ x, P x ↔ Q x)
    (ha : SortedSet P a) (hb : SortedSet Q b) : a = b := by
  refine List.Perm.eq_of_pairwise (le := (· ≤ ·)) (fun _ _ _ _ => le_antisymm) (ha.1.imp le_of_lt) (hb.1.imp le_of_lt) ?_
  refine (List.perm_ext_iff_of_nodup (ha.1.imp ne_of_lt) (hb.1.imp ne_of_lt)).2 fun x => ?_
  rw [ha.2, hb.2, hPQ]

/-- C90: `unique` depends on the set of elements only: not on their order, on repetitions or on the algorithm; applied
again it changes nothing. -/
theorem C90_unique {α : Type} [LinearOrder α] {srt srt' : List α → List α} (hs : SortBy (fun a : α => a) srt)
    (hs' : SortBy (fun a : α => a) srt') (l l' : List α) :
    ((∀ x, x ∈ l ↔ x ∈ l') ↔ unique srt l = unique srt' l') ∧ unique srt' (unique srt l) = unique srt l := by
  have key : ∀ l l' : List α, (∀ x, x ∈ l ↔ x ∈ l') → unique srt l = unique srt' l' := fun l l' h =>
    SortedSet.unique h (C44_unique hs l) (C44_unique hs' l')
  refine ⟨⟨key l l', fun h x => ?_⟩, ?_⟩
  · have h1 := (C44_unique hs l).2 x
    have h2 := (C44_unique hs' l').2 x
    rw [h] at h1
    exact h1.symm.trans h2
  · exact SortedSet.unique (fun x => (C44_unique hs l).2 x) (C44_unique hs' _) (C44_unique hs l)

/-- C90: `setdiff1d` with nothing is `unique`, with itself it is empty, and it lists the values that `isin` rejects. -/
theorem C90_setdiff {α : Type} [LinearOrder α] {srt : List α → List α} (hs : SortBy (fun a : α => a) srt) (a b : List α) :
    setdiff1d srt a [] = unique srt a ∧ setdiff1d srt a a = [] ∧
      setdiff1d srt a b = (unique srt a).filter fun x => !isinAt b x := by
  refine ⟨SortedSet.unique (by simp) (C44_setdiff1d hs a []) (C44_unique hs a), ?_, ?_⟩
  · rw [List.eq_nil_iff_forall_not_mem]
    intro x hx
    have := ((C44_setdiff1d hs a a).2 x).1 hx
    exact this.2 this.1
  · refine SortedSet.unique (Q := fun x => x ∈ a ∧ x ∉ b) (fun _ => Iff.rfl) (C44_setdiff1d hs a b) ⟨(C44_unique hs a).1.filter _, fun x => ?_⟩
    rw [List.mem_filter, (C44_unique hs a).2 x, Bool.not_eq_true', ← Bool.not_eq_true, C44_isin]

/-- C90: shuffling changes neither the sorted elements nor their set. -/
theorem C90_shuffle {α : Type} [LinearOrder α] {srt : List α → List α} (hs : SortBy (fun a : α => a) srt)
    (d : Nat → Nat) (l : List α) (h : l ≠ []) (hd : Draws 1 l.length d) :
    ∃ l', shuffleList d l = .ok l' ∧ srt l' = srt l ∧ unique srt l' = unique srt l := by
  obtain ⟨l', h1, h2⟩ := C63_shuffle d l h hd
  refine ⟨l', h1, SortedOf.unique h2 ⟨hs.perm _, hs.sorted _⟩ ⟨hs.perm _, hs.sorted _⟩, ?_⟩
  exact (C90_unique hs hs l' l).1.1 fun x => h2.mem_iff

example := C90_sort_sorted natSort_sortBy natSort_sortBy (.inl rfl) (v := ⟨[2, 3], [3, 1], 0, .row_major⟩) rfl rfl
  (natMem [3, 1, 2, 0, 5, 4]) (by decide) (by decide) (axis := -1) (by decide) (by decide)
example := C90_argsort_gather natSort_sortBy (fun key => sortBy_insertion key) .stable ⟨[2, 3], .column_major, [3, 1, 2, 0, 5, 4]⟩ rfl
  (.inr rfl) (by decide) (by decide) (axis := 0) (by decide) (by decide)
example := C90_sort_extremes natSort_sortBy .column_major ⟨[2, 3], .column_major, [3, 1, 2, 0, 5, 4]⟩ (by decide)
example := C90_unique natSort_sortBy natSort_sortBy [3, 1, 3] [1, 1, 3]
example := C90_setdiff natSort_sortBy [3, 1, 3] [1, 7]
example := C90_shuffle natSort_sortBy (fun i => i / 2) [10, 11, 12, 13] (by simp) fun i _ _ => Nat.div_le_self _ _

end Xt
