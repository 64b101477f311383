import Verif.Model.Container
import Verif.Props.Addressing
/-!
# Containers: C14, C15
-/

namespace Xt
open Spec

variable {α : Type u}

/-! ## C14 -/

/-- Contiguous strides of a shape: on axis `k`, zero for extent 1, otherwise the number of elements
of the axes after `k` (last axis fastest, `row`) or before `k` (first axis fastest). -/
def Spec.ContiguousStrides (row : Prop) [Decidable row] (sh : List Nat) (st : List Int) : Prop :=
  st.length = sh.length ∧ ∀ k s, sh[k]? = some s →
    st[k]? = some (if s = 1 then 0 else if row then (numel (sh.drop (k + 1)) : Int)
      else (numel (sh.take k) : Int))

/-- The strides and backstrides are the contiguous ones of the current shape, for the layout in
force, and the storage has one slot per element.  A default-constructed `xtensor` has the all-zero
shape with all-zero strides instead. -/
structure Spec.Consistent (c : Cont α) : Prop where
  storage_size : c.storage.length = numel c.shape
  strides : ContiguousStrides (c.L = .row_major ∨ c.layout = .row_major) c.shape c.strides ∨
    ∃ n, c.shape = List.replicate n 0 ∧ c.strides = List.replicate n 0
  backstrides : (∃ n, c.shape = List.replicate n 0 ∧ c.backstr = List.replicate n 0) ∨
    c.backstr = List.zipWith (fun (s : Nat) (st : Int) => st * ((s : Int) - 1)) c.shape c.strides

/-- Every in-bounds access through `operator()` hits a storage slot, distinct indices distinct
slots, and every slot is reached. -/
structure Spec.Addressable (c : Cont α) : Prop where
  inside : ∀ idx, InBounds c.shape idx →
    0 ≤ dataOffset c.strides false (toInts idx) ∧
    dataOffset c.strides false (toInts idx) < (c.storage.length : Int)
  injective : ∀ i j, InBounds c.shape i → InBounds c.shape j →
    dataOffset c.strides false (toInts i) = dataOffset c.strides false (toInts j) → i = j
  surjective : ∀ p, p < c.storage.length →
    ∃ idx, InBounds c.shape idx ∧ dataOffset c.strides false (toInts idx) = (p : Int)

theorem contiguousStrides_iff (L l : Layout) (sh : List Nat) (st : List Int) :
    ContiguousStrides (L = .row_major ∨ l = .row_major) sh st ↔ st = (computeStrides L l sh).1 := by
  have hc : ∀ k s, sh[k]? = some s → (computeStrides L l sh).1[k]? =
      some (if s = 1 then 0 else if L = .row_major ∨ l = .row_major then
        (numel (sh.drop (k + 1)) : Int) else (numel (sh.take k) : Int)) := by
    intro k s hk
    by_cases h : L = .row_major ∨ l = .row_major
    · rw [C02_row_stride h sh k s hk]; simp [h]
    · rw [C02_column_stride h sh k s hk]; simp [h]
  constructor
  · rintro ⟨h1, h2⟩
    apply List.ext_getElem?
    intro k
    cases hk : sh[k]? with
    | some s => rw [h2 k s hk, hc k s hk]
    | none =>
      rw [List.getElem?_eq_none_iff] at hk
      rw [List.getElem?_eq_none (by omega), List.getElem?_eq_none (by simpa using hk)]
  · rintro rfl
    exact ⟨by simp, hc⟩

theorem computeStrides_row_or_col (L l : Layout) (sh : List Nat) :
    (computeStrides L l sh).1 = (rowStrides sh).1 ∨
    (computeStrides L l sh).1 = (colStrides 1 sh).1 := by
  unfold computeStrides; split <;> simp

theorem Consistent.strides' {c : Cont α} (h : Consistent c) :
    (c.strides = (rowStrides c.shape).1 ∨ c.strides = (colStrides 1 c.shape).1) ∨
    ∃ n, c.shape = List.replicate n 0 ∧ c.strides = List.replicate n 0 := by
  rcases h.strides with hs | hs
  · rw [contiguousStrides_iff] at hs
    rw [hs]; exact Or.inl (computeStrides_row_or_col _ _ _)
  · exact Or.inr hs

theorem Consistent.strides_length {c : Cont α} (h : Consistent c) :
    c.strides.length = c.shape.length := by
  rcases Consistent.strides' h with (h | h) | ⟨n, h1, h2⟩
  · simp [h]
  · simp [h]
  · simp [h1, h2]

theorem Consistent.addressable {c : Cont α} (h : Consistent c) : Addressable c := by
  have hl := Consistent.strides_length h
  rcases Consistent.strides' h with (hs | hs) | ⟨n, h1, h2⟩
  · have e : ∀ idx, InBounds c.shape idx →
        dataOffset c.strides false (toInts idx) = (rowRank c.shape idx : Int) := fun idx hi => by
      rw [dataOffset_eq _ _ (by simp [hi.length_eq, hl]), hs, dot_rowStrides hi]
    refine ⟨fun idx hi => ?_, fun i j hi hj hij => ?_, fun p hp => ?_⟩
    · rw [e idx hi, h.storage_size]; have := rowRank_lt hi; omega
    · rw [e i hi, e j hj] at hij; exact rowRank_inj hi hj (by omega)
    · rw [h.storage_size] at hp
      obtain ⟨idx, hi, hr⟩ := rowRank_surj hp
      exact ⟨idx, hi, by rw [e idx hi, hr]⟩
  · have e : ∀ idx, InBounds c.shape idx →
        dataOffset c.strides false (toInts idx) = (colRank c.shape idx : Int) := fun idx hi => by
      rw [dataOffset_eq _ _ (by simp [hi.length_eq, hl]), hs, dot_colStrides 1 hi, Int.one_mul]
    refine ⟨fun idx hi => ?_, fun i j hi hj hij => ?_, fun p hp => ?_⟩
    · rw [e idx hi, h.storage_size]; have := colRank_lt hi; omega
    · rw [e i hi, e j hj] at hij; exact colRank_inj hi hj (by omega)
    · rw [h.storage_size] at hp
      obtain ⟨idx, hi, hr⟩ := colRank_surj hp
      exact ⟨idx, hi, by rw [e idx hi, hr]⟩
  · cases n with
    | zero =>
      simp only [List.replicate_zero] at h1 h2
      have hst : c.storage.length = 1 := by rw [h.storage_size, h1]; rfl
      refine ⟨fun idx hi => ?_, fun i j hi hj _ => ?_, fun p hp => ?_⟩
      · rw [h1] at hi; cases idx <;> simp_all [dataOffset]
      · rw [h1] at hi hj; cases i <;> cases j <;> simp_all
      · exact ⟨[], by rw [h1]; trivial, by simp [dataOffset]; omega⟩
    | succ n =>
      have hz : numel c.shape = 0 := by rw [h1]; simp [List.replicate_succ]
      have hne : ∀ idx, ¬ InBounds c.shape idx := fun idx hi => by
        have := hi.numel_pos; omega
      exact ⟨fun idx hi => absurd hi (hne idx), fun i _ hi => absurd hi (hne i), fun p hp => by
        rw [h.storage_size] at hp; omega⟩

theorem Consistent.of_computed (L l : Layout) (sh : List Nat) (st : List α)
    (h : st.length = numel sh) :
    Consistent ({ L := L, layout := l, shape := sh, strides := (computeStrides L l sh).1,
                  backstr := backstrides sh (computeStrides L l sh).1, storage := st } : Cont α) :=
  ⟨h, Or.inl ((contiguousStrides_iff L l sh _).2 rfl), Or.inr rfl⟩

theorem resizeStorage_length {fresh : Nat → List α} (hf : ∀ n, (fresh n).length = n) (s : List α)
    (n : Nat) : (Cont.resizeStorage fresh s n).length = n := by
  unfold Cont.resizeStorage; split
  · exact hf n
  · omega

/-- Size queries agree with the shape. -/
theorem Consistent.size_eq {c : Cont α} (h : Consistent c) : c.size = numel c.shape := by
  unfold Cont.size; split
  · exact h.storage_size
  · exact computeSize_eq _

theorem natAbs_foldl (l : List Int) (a : Int) :
    (l.foldl (· * ·) a).natAbs = a.natAbs * numel (l.map Int.natAbs) := by
  induction l generalizing a with
  | nil => simp
  | cons x xs ih => simp only [List.foldl_cons, ih, Int.natAbs_mul, List.map_cons, numel_cons]; ring

theorem natAbs_toInts (l : List Nat) : (toInts l).map Int.natAbs = l := by
  induction l with
  | nil => rfl
  | cons x xs ih => simp [ih]

/-- The signed reshapes considered: representable extents and at most one negative extent, equal
to -1 (the documented contract; the code only asserts it, and asserts are off by default). -/
structure Spec.SignedContract (size : Nat) (sh : List Int) : Prop where
  representable : size < 2 ^ 64
  extents : ∀ x ∈ sh, x < 2 ^ 64
  placeholder : (∀ x ∈ sh, 0 ≤ x) ∨
    ∃ pre post, sh = pre ++ (-1) :: post ∧ (∀ x ∈ pre, 0 ≤ x) ∧ (∀ x ∈ post, 0 ≤ x)

theorem toSizeT_cast {a : Int} (h : 0 ≤ a) (h' : a < 2 ^ 64) : (toSizeT a : Int) = a := by
  unfold toSizeT
  rw [Int.emod_eq_of_lt h (by norm_num at h' ⊢; exact h')]
  omega

theorem map_toSizeT {l : List Int} (h : ∀ x ∈ l, 0 ≤ x) (h' : ∀ x ∈ l, x < 2 ^ 64) :
    l.map toSizeT = l.map Int.natAbs := by
  apply List.map_congr_left
  intro x hx
  have := toSizeT_cast (h x hx) (h' x hx)
  have := h x hx
  omega

theorem negIdx_nonneg (d i : Nat) (l : List Int) (h : ∀ x ∈ l, 0 ≤ x) : Cont.negIdx d i l = d := by
  induction l generalizing i with
  | nil => rfl
  | cons x xs ih =>
    simp only [Cont.negIdx]
    rw [if_neg (by have := h x (by simp); omega)]
    exact ih _ fun y hy => h y (by simp [hy])

theorem negIdx_append (d i : Nat) (pre post : List Int) (h1 : ∀ x ∈ pre, 0 ≤ x)
    (h2 : ∀ x ∈ post, 0 ≤ x) : Cont.negIdx d i (pre ++ (-1) :: post) = i + pre.length := by
  induction pre generalizing i with
  | nil => simp [Cont.negIdx, negIdx_nonneg _ _ _ h2]
  | cons x xs ih =>
    simp only [List.cons_append, Cont.negIdx]
    rw [if_neg (by have := h1 x (by simp); omega), ih _ fun y hy => h1 y (by simp [hy])]
    simp; omega

theorem foldl_nonneg {l : List Int} (h : ∀ x ∈ l, 0 ≤ x) (a : Int) (ha : 0 ≤ a) :
    0 ≤ l.foldl (· * ·) a := by
  induction l generalizing a with
  | nil => exact ha
  | cons x xs ih =>
    exact ih (fun y hy => h y (by simp [hy])) _ (Int.mul_nonneg ha (h x (by simp)))

theorem foldl_mul_pull (l : List Int) (a : Int) : l.foldl (· * ·) a = a * l.foldl (· * ·) 1 := by
  induction l generalizing a with
  | nil => simp
  | cons x xs ih => simp only [List.foldl_cons]; rw [ih (a * x), ih (1 * x)]; ring

/-- What a signed reshape computes under its contract: the extents with -1 replaced by the
quotient. -/
theorem reshapeSigned_cases (c : Cont α) (sh : List Int) (l : Layout)
    (hsize : c.size = numel c.shape) (hc : SignedContract c.size sh) :
    c.reshapeSigned sh l = .ub ∧ 0 ∈ sh ∨
    0 ∉ sh ∧ (c.reshapeSigned sh l = .throws c ∧
      (∀ pre post, sh = pre ++ (-1) :: post → (∀ x ∈ pre, 0 ≤ x) → (∀ x ∈ post, 0 ≤ x) →
        ¬ numel ((pre ++ post).map Int.natAbs) ∣ c.size) ∧
      ((∀ x ∈ sh, 0 ≤ x) → numel (sh.map Int.natAbs) ≠ c.size) ∨
    ∃ sh', c.reshapeSigned sh l = .ok { c with
        layout := l, shape := sh', strides := (computeStrides c.L l sh').1,
        backstr := backstrides sh' (computeStrides c.L l sh').1 } ∧
      numel sh' = c.size ∧
      (∀ pre post, sh = pre ++ (-1) :: post → (∀ x ∈ pre, 0 ≤ x) → (∀ x ∈ post, 0 ≤ x) →
        sh' = pre.map Int.natAbs ++ (c.size / numel ((pre ++ post).map Int.natAbs)) ::
          post.map Int.natAbs) ∧
      ((∀ x ∈ sh, 0 ≤ x) → sh' = sh.map Int.natAbs)) := by
  have hns : computeSizeSigned sh = numel (sh.map Int.natAbs) := by
    unfold computeSizeSigned; rw [natAbs_foldl]; simp
  by_cases hz : (0 : Int) ∈ sh
  · left
    refine ⟨?_, hz⟩
    unfold Cont.reshapeSigned
    have : computeSizeSigned sh = 0 := by
      rw [hns, numel_eq_zero_iff]
      exact List.mem_map.2 ⟨0, hz, rfl⟩
    simp [this]
  · right
    refine ⟨hz, ?_⟩
    have hnz : numel (sh.map Int.natAbs) ≠ 0 := by
      rw [Ne, numel_eq_zero_iff]
      intro h
      obtain ⟨x, hx, hx0⟩ := List.mem_map.1 h
      rw [Int.natAbs_eq_zero] at hx0
      exact hz (hx0 ▸ hx)
    unfold Cont.reshapeSigned
    rw [hns]
    simp only [hnz, if_false]
    rcases hc.placeholder with hpos | ⟨pre, post, rfl, hpre, hpost⟩
    · have hacc : ¬ sh.foldl (· * ·) 1 < 0 := by have := foldl_nonneg hpos 1 (by omega); omega
      have hno : ∀ pre post, sh = pre ++ (-1) :: post → False := by
        rintro pre post rfl
        have := hpos (-1) (by simp); omega
      simp only [hacc, not_false_eq_true, true_and, if_false]
      by_cases he : c.size = numel (sh.map Int.natAbs)
      · right
        refine ⟨sh.map Int.natAbs, ?_, he.symm, fun p q h => (hno p q h).elim, fun _ => rfl⟩
        rw [map_toSizeT hpos hc.extents]
        simp [he]
      · left
        refine ⟨?_, fun p q h => (hno p q h).elim, fun _ h => he h.symm⟩
        split
        · rfl
        · simp [he]
    · have hfold : (pre ++ (-1) :: post).foldl (· * ·) 1 = - ((pre ++ post).foldl (· * ·) 1) := by
        simp only [List.foldl_append, List.foldl_cons]
        rw [foldl_mul_pull post, foldl_mul_pull post (pre.foldl _ 1)]
        ring
      have hnp : numel ((pre ++ (-1) :: post).map Int.natAbs)
          = numel ((pre ++ post).map Int.natAbs) := by simp [numel_append]
      rw [hnp] at hnz ⊢
      have hP : ((pre ++ post).foldl (· * ·) 1).natAbs = numel ((pre ++ post).map Int.natAbs) := by
        rw [natAbs_foldl]; simp
      have hnn : 0 ≤ (pre ++ post).foldl (· * ·) 1 := foldl_nonneg (by
        intro x hx; rcases List.mem_append.1 hx with h | h
        · exact hpre x h
        · exact hpost x h) 1 (by omega)
      have hneg : (pre ++ (-1) :: post).foldl (· * ·) 1 < 0 := by rw [hfold]; omega
      simp only [hneg, not_true_eq_false, false_and, if_false, if_true]
      -- the decomposition is unique
      have huniq : ∀ p q, pre ++ (-1) :: post = p ++ (-1) :: q → (∀ x ∈ p, 0 ≤ x) →
          (∀ x ∈ q, 0 ≤ x) → p = pre ∧ q = post := by
        intro p q hpq hp hq
        have e : Cont.negIdx 0 0 (pre ++ (-1) :: post) = Cont.negIdx 0 0 (p ++ (-1) :: q) := by
          rw [hpq]
        rw [negIdx_append _ _ _ _ hpre hpost, negIdx_append _ _ _ _ hp hq] at e
        have := List.append_inj hpq (by omega)
        simp at this
        exact ⟨this.1.symm, this.2.symm⟩
      have hPP : numel ((pre ++ post).map Int.natAbs) =
          numel (pre.map Int.natAbs) * numel (post.map Int.natAbs) := by
        rw [List.map_append, numel_append]
      generalize hPg : numel ((pre ++ post).map Int.natAbs) = P at *
      by_cases hd : P ∣ c.size
      · right
        have hmod := Nat.mod_eq_zero_of_dvd hd
        rw [hfold, Int.natAbs_neg, hP, negIdx_append _ _ _ _ hpre hpost]
        have hset : (pre ++ (-1) :: post).set (0 + pre.length) ((c.size : Int).tdiv (P : Int))
            = pre ++ ((c.size / P : Nat) : Int) :: post := by
          rw [← Int.ofNat_tdiv]; simp
        rw [hset]
        have hq : c.size / P ≤ c.size := Nat.div_le_self _ _
        have hrep := hc.representable
        generalize hQ : c.size / P = Q at *
        have hmap : (pre ++ (Q : Int) :: post).map toSizeT
            = pre.map Int.natAbs ++ Q :: post.map Int.natAbs := by
          rw [map_toSizeT]
          · simp
          · intro x hx
            rcases List.mem_append.1 hx with h | h
            · exact hpre x h
            · rcases List.mem_cons.1 h with h | h
              · omega
              · exact hpost x h
          · intro x hx
            rcases List.mem_append.1 hx with h | h
            · exact hc.extents x (by simp [h])
            · rcases List.mem_cons.1 h with h | h
              · rw [h]; norm_num at hrep ⊢; omega
              · exact hc.extents x (by simp [h])
        refine ⟨pre.map Int.natAbs ++ Q :: post.map Int.natAbs, by
          rw [hmap, if_neg (by simp [hmod])], ?_, ?_, ?_⟩
        · rw [numel_append, numel_cons]
          calc _ = Q * (numel (pre.map Int.natAbs) * numel (post.map Int.natAbs)) := by ring
            _ = c.size := by rw [← hPP, ← hQ]; exact Nat.div_mul_cancel hd
        · intro p q hpq hp hq
          obtain ⟨rfl, rfl⟩ := huniq p q hpq hp hq
          rw [hPg, hQ]
        · intro h; have := h (-1) (by simp); omega
      · left
        have hmod : c.size % P ≠ 0 := fun h => hd (Nat.dvd_of_mod_eq_zero h)
        refine ⟨by rw [if_pos hmod], ?_, ?_⟩
        · intro p q hpq hp hq
          obtain ⟨rfl, rfl⟩ := huniq p q hpq hp hq
          rw [hPg]; exact hd
        · intro h; have := h (-1) (by simp); omega

/-- A call is *covered* when it does not impose custom strides, and a signed reshape respects its
contract for the current size. -/
def Spec.Covered (c : Cont α) : Op → Prop
  | .resizeStrides _ _ => False
  | .reshapeS sh _ => SignedContract c.size sh
  | _ => True

theorem step_consistent (d : Layout) {fresh : Nat → List α} (hf : ∀ n, (fresh n).length = n)
    {c : Cont α} (h : Consistent c) (o : Op) (ho : Covered c o) :
    match o.run d fresh c with
    | .ok c' => Consistent c' ∧ c'.L = c.L
    | .throws c' => c' = c
    | .ub => ∃ sh l, o = .reshapeS sh l ∧ 0 ∈ sh := by
  have hres : ∀ (lay : Layout) (sh : List Nat),
      Consistent ({ c with
        layout := lay, shape := sh, strides := (computeStrides c.L lay sh).1,
        backstr := backstrides sh (computeStrides c.L lay sh).1,
        storage := Cont.resizeStorage fresh c.storage (computeStrides c.L lay sh).2.toNat } : Cont α) :=
    fun lay sh => Consistent.of_computed c.L lay sh _ (by
      rw [resizeStorage_length hf, computeStrides_size]; simp)
  cases o with
  | resize sh f =>
    by_cases hc : c.shape ≠ sh ∨ f = true
    · simp only [Op.run, Cont.resize, if_pos hc, if_true]
      exact ⟨hres _ _, trivial⟩
    · simp only [Op.run, Cont.resize, if_neg hc]
      exact ⟨h, trivial⟩
  | resizeLayout sh l =>
    by_cases hc : c.L ≠ .dynamic ∧ l ≠ c.L
    · simp only [Op.run, Cont.resizeLayout, if_pos hc]
    · simp only [Op.run, Cont.resizeLayout, if_neg hc, Cont.resize, or_true, if_true]
      exact ⟨hres _ _, trivial⟩
  | resizeStrides sh st => exact absurd ho id
  | reshapeU sh l =>
    by_cases hs : computeSize sh ≠ c.size
    · simp only [Op.run, Cont.reshapeUnsigned, if_pos hs]
    · have hsz : c.storage.length = numel sh := by
        rw [h.storage_size, ← Consistent.size_eq h, ← computeSize_eq]; omega
      by_cases hc : c.L ≠ .dynamic ∧ (if c.L = .dynamic ∧ l = .dynamic then d else l) ≠ c.L
      · simp only [Op.run, Cont.reshapeUnsigned, if_neg hs, if_pos hc]
      · simp only [Op.run, Cont.reshapeUnsigned, if_neg hs, if_neg hc]
        exact ⟨Consistent.of_computed _ _ _ _ hsz, trivial⟩
  | reshapeS sh l =>
    rcases reshapeSigned_cases c sh l (Consistent.size_eq h) ho with ⟨h1, h2⟩ | ⟨_, h1 | h1⟩
    · simp only [Op.run, h1]; exact ⟨sh, l, rfl, h2⟩
    · simp only [Op.run, h1.1]
    · obtain ⟨sh', e, hn, _⟩ := h1
      simp only [Op.run, e]
      refine ⟨Consistent.of_computed _ _ _ _ ?_, trivial⟩
      rw [h.storage_size, hn, Consistent.size_eq h]

/-- Histories: each call is covered in the state it is applied to. -/
def Spec.CoveredAll (d : Layout) (fresh : Nat → List α) (c : Cont α) : List Op → Prop
  | [] => True
  | o :: os => Covered c o ∧ match o.run d fresh c with
    | .ok c' => CoveredAll d fresh c' os
    | .throws c' => CoveredAll d fresh c' os
    | .ub => True

theorem default_consistent (L : Layout) (n : Nat) (v : α) : Consistent (Cont.default L n v) := by
  refine ⟨?_, Or.inr ⟨n, rfl, rfl⟩, Or.inl ⟨n, rfl, rfl⟩⟩
  cases n <;> simp [Cont.default, List.replicate_succ]

/-- Any history of constructions, resizes and reshapes without custom strides — successful or
throwing — leaves strides, backstrides and storage size consistent with the shape, and element
access a bijection onto the storage.  (Partial: calls imposing custom strides are excluded, see
`C14_custom_strides_out_of_bounds`; allocation never fails, see `C14_bad_alloc`.) -/
theorem C14_history_partial (d : Layout) (fresh : Nat → List α) (hf : ∀ n, (fresh n).length = n)
    (L : Layout) (n : Nat) (v : α) (ops : List Op)
    (hcov : CoveredAll d fresh (Cont.default L n v) ops) (c : Cont α)
    (hrun : runOps d fresh (Cont.default L n v) ops = some c) :
    Consistent c ∧ Addressable c := by
  have key : ∀ (ops : List Op) (c₀ : Cont α), Consistent c₀ → CoveredAll d fresh c₀ ops →
      ∀ c, runOps d fresh c₀ ops = some c → Consistent c := by
    intro ops
    induction ops with
    | nil => intro c₀ h _ c hr; simp [runOps] at hr; exact hr ▸ h
    | cons o os ih =>
      intro c₀ h hcov c hr
      have hs := step_consistent d hf h o hcov.1
      have h2 := hcov.2
      simp only [runOps] at hr
      cases ho : o.run d fresh c₀ with
      | ok c' => simp only [ho] at hr hs h2; exact ih c' hs.1 h2 c hr
      | throws c' => simp only [ho] at hr hs h2; exact ih c' (hs ▸ h) h2 c hr
      | ub => simp [ho] at hr
  have := key ops _ (default_consistent L n v) hcov c hrun
  exact ⟨this, Consistent.addressable this⟩

/-- The only undefined behaviour in such a history is a signed reshape with a zero extent. -/
theorem C14_no_ub (d : Layout) (fresh : Nat → List α) (hf : ∀ n, (fresh n).length = n)
    (c : Cont α) (h : Consistent c) (ops : List Op) (hcov : CoveredAll d fresh c ops)
    (hz : ∀ sh l, Op.reshapeS sh l ∈ ops → 0 ∉ sh) : runOps d fresh c ops ≠ none := by
  induction ops generalizing c with
  | nil => simp [runOps]
  | cons o os ih =>
    have hs := step_consistent d hf h o hcov.1
    have h2 := hcov.2
    simp only [runOps]
    cases ho : o.run d fresh c with
    | ok c' => simp only [ho] at hs h2 ⊢; exact ih c' hs.1 h2 fun sh l hm => hz sh l (by simp [hm])
    | throws c' =>
      simp only [ho] at hs h2 ⊢; exact ih c' (hs ▸ h) h2 fun sh l hm => hz sh l (by simp [hm])
    | ub =>
      simp only [ho] at hs
      obtain ⟨sh, l, rfl, h0⟩ := hs
      exact absurd h0 (hz sh l (by simp))

/-- A throwing call (other than an allocation failure) changes nothing. -/
theorem C14_throw_changes_nothing (d : Layout) (fresh : Nat → List α) (c : Cont α) (o : Op)
    (c' : Cont α) (h : o.run d fresh c = .throws c') : c' = c := by
  cases o with
  | resize sh f => simp only [Op.run, Cont.resize] at h; split at h <;> simp at h
  | resizeLayout sh l =>
    simp only [Op.run, Cont.resizeLayout, Cont.resize] at h
    split at h
    · simp at h; exact h.symm
    · simp at h
  | resizeStrides sh st =>
    simp only [Op.run, Cont.resizeStrides] at h
    split at h
    · simp at h; exact h.symm
    · simp at h
  | reshapeU sh l =>
    simp only [Op.run, Cont.reshapeUnsigned] at h
    generalize (if c.L = .dynamic ∧ l = .dynamic then d else l) = l' at h
    split at h
    · simp at h; exact h.symm
    · split at h
      · simp at h; exact h.symm
      · simp at h
  | reshapeS sh l =>
    simp only [Op.run, Cont.reshapeSigned] at h
    split at h
    · simp at h
    · split at h
      · simp at h; exact h.symm
      · split at h
        · simp at h; exact h.symm
        · simp at h

/-- What a successful `resize(shape)` leaves behind when it does anything (new shape or `force`):
the requested shape, the layout the container already had — or the library default when that is
undetermined — and the contiguous strides of that layout. -/
theorem C14_resize_effect (d : Layout) (fresh : Nat → List α) (c : Cont α) (sh : List Nat)
    (force : Bool) (h : c.shape ≠ sh ∨ force = true) :
    ∃ c', c.resize d fresh true sh force = .ok c' ∧ c'.shape = sh ∧ c'.L = c.L ∧
      c'.layout = (if c.L = .dynamic ∧ c.layout = .dynamic then d else c.layout) ∧
      ContiguousStrides (c'.L = .row_major ∨ c'.layout = .row_major) sh c'.strides := by
  simp only [Cont.resize, if_pos h, if_true]
  refine ⟨_, rfl, rfl, rfl, rfl, ?_⟩
  rw [contiguousStrides_iff]

example : (Cont.default .dynamic 0 (0 : Nat)).shape ≠ [2, 3] ∨ false = true := by decide

/-- `resize(shape)` with the current shape and no `force` does nothing. -/
theorem C14_resize_same (d : Layout) (fresh : Nat → List α) (c : Cont α) (alloc : Bool) :
    c.resize d fresh alloc c.shape false = .ok c := by
  simp [Cont.resize]

/-- `resize(shape, strides)` on a container of undetermined static layout takes the requested shape
and the given strides (zeroed on unit axes) and reports an undetermined layout; on any other
container it throws. -/
theorem C14_resize_strides_effect (fresh : Nat → List α) (c : Cont α) (sh : List Nat)
    (st : List Int) (hl : st.length = sh.length) :
    (c.L ≠ .dynamic → c.resizeStrides fresh true sh st = .throws c) ∧
    (c.L = .dynamic → ∃ c', c.resizeStrides fresh true sh st = .ok c' ∧ c'.shape = sh ∧
      c'.layout = .dynamic ∧ c'.strides.length = sh.length ∧
      ∀ (k s : Nat) (a : Int), sh[k]? = some s → st[k]? = some a →
        c'.strides[k]? = some (if s = 1 then 0 else a)) := by
  constructor
  · intro h; simp [Cont.resizeStrides, h]
  · intro h
    refine ⟨_, by simp only [Cont.resizeStrides, h, ne_eq, not_true_eq_false, if_false, if_true]; rfl,
      rfl, rfl, ?_, ?_⟩
    · simp [adaptStrides, hl]
    · intro k s a h1 h2
      simp [adaptStrides, List.getElem?_zipWith, h1, h2, adaptStride]

example : (Cont.default .dynamic 0 (0 : Nat)).L = .dynamic ∧
    (Cont.default .dynamic 0 (0 : Nat)).resizeStrides (fun n => List.replicate n 0) true [2, 1] [1, 5]
      = .ok ⟨.dynamic, .dynamic, [2, 1], [1, 0], [1, 0], [0, 0]⟩ := by decide

/-- The reported layout is the static one along histories without signed reshapes that pass a
different layout. -/
theorem C14_static_layout_partial (d : Layout) (fresh : Nat → List α) (L : Layout)
    (hL : L ≠ .dynamic) (n : Nat) (v : α) (ops : List Op)
    (hs : ∀ sh l, Op.reshapeS sh l ∈ ops → l = L) (c : Cont α)
    (hrun : runOps d fresh (Cont.default L n v) ops = some c) : c.L = L ∧ c.layout = L := by
  have key : ∀ (ops : List Op) (c₀ : Cont α), (∀ sh l, Op.reshapeS sh l ∈ ops → l = L) →
      (c₀.L = L ∧ c₀.layout = L) → ∀ c, runOps d fresh c₀ ops = some c → c.L = L ∧ c.layout = L := by
    intro ops
    induction ops with
    | nil => intro c₀ _ h c hr; simp [runOps] at hr; exact hr ▸ h
    | cons o os ih =>
      intro c₀ hs h c hr
      have hos : ∀ sh l, Op.reshapeS sh l ∈ os → l = L := fun sh l hm => hs sh l (by simp [hm])
      simp only [runOps] at hr
      cases ho : o.run d fresh c₀ with
      | ub => simp [ho] at hr
      | throws c' =>
        simp only [ho] at hr
        have := C14_throw_changes_nothing d fresh c₀ o c' ho
        exact ih c' hos (this ▸ h) c hr
      | ok c' =>
        simp only [ho] at hr
        refine ih c' hos ?_ c hr
        cases o with
        | resize sh f =>
          simp only [Op.run, Cont.resize] at ho
          split at ho
          · simp at ho; subst ho; simp [h.1, h.2, hL]
          · simp at ho; subst ho; exact h
        | resizeLayout sh l =>
          simp only [Op.run, Cont.resizeLayout, Cont.resize] at ho
          split at ho
          · simp at ho
          · next hc =>
            simp at ho; subst ho
            simp only [h.1, hL, ne_eq, not_false_eq_true, true_and, not_not, false_and, if_false] at hc ⊢
            exact hc
        | resizeStrides sh st =>
          simp only [Op.run, Cont.resizeStrides] at ho
          rw [if_pos (by rw [h.1]; exact hL)] at ho
          simp at ho
        | reshapeU sh l =>
          simp only [Op.run, Cont.reshapeUnsigned] at ho
          generalize (if c₀.L = .dynamic ∧ l = .dynamic then d else l) = l' at ho
          split at ho
          · simp at ho
          · split at ho
            · simp at ho
            · next hc =>
              simp at ho; subst ho
              simp only [h.1, hL, ne_eq, not_false_eq_true, true_and, not_not, false_and, if_false] at hc ⊢
              exact hc
        | reshapeS sh l =>
          have hl := hs sh l (by simp)
          simp only [Op.run, Cont.reshapeSigned] at ho
          split at ho
          · simp at ho
          · split at ho
            · simp at ho
            · split at ho
              · simp at ho
              · simp at ho; subst ho; exact ⟨h.1, hl⟩
  exact key ops _ hs ⟨rfl, rfl⟩ c hrun

/-- Custom strides: the storage holds one slot per element whatever the strides, so the full claim
fails: shape (2,2) with strides (4,1) addresses slot 5 of a 4-slot storage. -/
theorem C14_custom_strides_out_of_bounds :
    ∃ c : Cont Nat,
      (Op.resizeStrides [2, 2] [4, 1]).run .row_major (fun n => List.replicate n 0)
        (Cont.default .dynamic 0 0) = .ok c ∧
      InBounds c.shape [1, 1] ∧ c.storage.length = 4 ∧
      dataOffset c.strides false (toInts [1, 1]) = 5 ∧ c.elem? [1, 1] = none := by
  exact ⟨_, rfl, by decide, by decide, by decide, by decide⟩

theorem dot_mono {sh : List Nat} {st : List Int} (hst : ∀ x ∈ st, 0 ≤ x) {idx : List Nat}
    (h : InBounds sh idx) :
    0 ≤ dot st (toInts idx) ∧ dot st (toInts idx) ≤ dot st (toInts (sh.map (· - 1))) := by
  induction sh generalizing st idx with
  | nil => cases idx <;> simp_all
  | cons s ss ih =>
    cases idx with
    | nil => simp at h
    | cons i is =>
      cases st with
      | nil => simp
      | cons t ts =>
        have ih' := ih (st := ts) (fun x hx => hst x (by simp [hx])) h.2
        have ht := hst t (by simp)
        have hi : (i : Int) ≤ ((s - 1 : Nat) : Int) := by have := h.1; omega
        simp only [toInts_cons, dot_cons, List.map_cons]
        have h1 : 0 ≤ (i : Int) * t := Int.mul_nonneg (by omega) ht
        have h2 : (i : Int) * t ≤ ((s - 1 : Nat) : Int) * t := Int.mul_le_mul_of_nonneg_right hi ht
        omega

/-- With custom non-negative strides on a non-empty shape, all in-bounds accesses stay inside the
storage exactly when the last element does. -/
theorem C14_custom_strides_safe_iff (fresh : Nat → List α) (hf : ∀ n, (fresh n).length = n)
    (c : Cont α) (hc : c.L = .dynamic) (sh : List Nat) (st : List Int)
    (hlen : st.length = sh.length) (hst : ∀ x ∈ st, 0 ≤ x) (hne : 0 ∉ sh) :
    ∃ c', c.resizeStrides fresh true sh st = .ok c' ∧ c'.shape = sh ∧
      c'.storage.length = numel sh ∧
      ((∀ idx, InBounds sh idx → ∃ p : Nat, p < c'.storage.length ∧
          dataOffset c'.strides false (toInts idx) = p) ↔
        dot st (toInts (sh.map (· - 1))) < numel sh) := by
  simp only [Cont.resizeStrides, hc, ne_eq, not_true_eq_false, if_false, if_true]
  refine ⟨_, rfl, rfl, by rw [resizeStorage_length hf, computeSize_eq], ?_⟩
  rw [resizeStorage_length hf, computeSize_eq]
  have hdot : ∀ idx, InBounds sh idx →
      dataOffset (adaptStrides sh st) false (toInts idx) = dot st (toInts idx) := by
    intro idx h
    rw [dataOffset_eq _ _ (by simp [adaptStrides, h.length_eq, hlen])]
    clear hne
    induction sh generalizing st idx with
    | nil => cases idx <;> simp_all
    | cons s ss ih =>
      cases idx with
      | nil => simp at h
      | cons i is =>
        cases st with
        | nil => simp at hlen
        | cons t ts =>
          simp only [adaptStrides, List.zipWith_cons_cons, toInts_cons, dot_cons, mul_adaptStride h.1]
          congr 1
          exact ih ts (by simpa using hlen) (fun x hx => hst x (by simp [hx])) is h.2
  have hlast : InBounds sh (sh.map (· - 1)) := by
    clear hlen hst hdot
    induction sh with
    | nil => trivial
    | cons s ss ih =>
      simp only [List.mem_cons, not_or] at hne
      exact ⟨by simp only; omega, ih hne.2⟩
  constructor
  · intro h
    obtain ⟨p, hp, e⟩ := h _ hlast
    rw [hdot _ hlast] at e
    omega
  · intro h idx hi
    have := dot_mono hst hi
    exact ⟨(dot st (toInts idx)).toNat, by omega, by rw [hdot idx hi]; omega⟩

/-- An allocation failure inside `resize` leaves the new shape with the old storage. -/
theorem C14_bad_alloc :
    ∃ c : Cont Nat, (Cont.default .row_major 0 7).resize .row_major (fun n => List.replicate n 0)
        false [1000] false = .throws c ∧
      c.shape = [1000] ∧ c.storage.length = 1 ∧ c.elem? [999] = none := by
  exact ⟨_, rfl, by decide, by decide, by decide⟩

/-- A signed reshape passing the other layout to a statically column-major container is accepted:
strides become row-major and `layout()` reports row-major, so the static-layout fast path
(`unchecked`, which omits the first stride) reads another element. -/
theorem C14_signed_reshape_layout_mismatch :
    ∃ c : Cont Nat,
      runOps .row_major (fun n => List.range n) (Cont.default .column_major 0 0)
        [.resize [6] false, .reshapeS [2, 3] .row_major] = some c ∧
      c.L = .column_major ∧ c.layout = .row_major ∧ InBounds c.shape [1, 0] ∧
      dataOffset c.strides false [1, 0] = 3 ∧
      uncheckedDataOffset c.L none c.strides [1, 0] = 1 := by
  exact ⟨_, rfl, by decide, by decide, by decide, by decide, by decide⟩

/-- A five-call history with a caught exception in the middle. -/
example : (runOps .row_major (fun n => List.replicate n 0) (Cont.default .row_major 0 0)
      [.resize [2, 3] false, .reshapeU [4] .row_major, .reshapeU [6, 1] .row_major,
       .resizeLayout [3] .column_major, .reshapeS [-1, 3] .row_major]).map
    (fun c => (c.shape, c.strides, c.storage.length)) = some ([2, 3], [3, 1], 6) := by decide

/-! ## C15 -/

/-- Unsigned reshape: succeeds exactly when the number of elements agrees (and, for a static layout,
the layout is that one); then the shape is the requested one and the storage is untouched.
Otherwise it throws and the container is unchanged. -/
theorem C15_reshape_unsigned (d : Layout) (c : Cont α) (h : Consistent c) (sh : List Nat)
    (l : Layout) (hl : c.L ≠ .dynamic → l = c.L) :
    (numel sh = numel c.shape → ∃ c', c.reshapeUnsigned d sh l = .ok c' ∧ c'.shape = sh ∧
      c'.storage = c.storage ∧ Consistent c') ∧
    (numel sh ≠ numel c.shape → c.reshapeUnsigned d sh l = .throws c) := by
  have hsz := Consistent.size_eq h
  constructor
  · intro he
    unfold Cont.reshapeUnsigned
    rw [if_neg (by rw [computeSize_eq, hsz, he]; simp)]
    simp only
    rw [if_neg]
    · refine ⟨_, rfl, rfl, rfl, Consistent.of_computed _ _ _ _ ?_⟩
      rw [h.storage_size, he]
    · rintro ⟨h1, h2⟩
      apply h2
      rw [if_neg (by simp [h1])]
      exact hl h1
  · intro he
    unfold Cont.reshapeUnsigned
    rw [if_pos (by rw [computeSize_eq, hsz]; exact he)]

/-- A static-layout container rejects a reshape to another layout. -/
theorem C15_reshape_layout_rejected (d : Layout) (c : Cont α) (sh : List Nat) (l : Layout)
    (h1 : c.L ≠ .dynamic) (h2 : l ≠ c.L) : c.reshapeUnsigned d sh l = .throws c := by
  unfold Cont.reshapeUnsigned
  split
  · rfl
  · simp only [h1, false_and, if_false]
    rw [if_pos ⟨by simp [h1], h2⟩]

/-- The element order is preserved: for a row-major (resp. column-major) container, the element at
flat position `r` is the same before and after. -/
theorem C15_elements_kept (d : Layout) (c c' : Cont α) (hL : c.L = .row_major ∨ c.L = .column_major)
    (hlay : c.layout = c.L) (h : Consistent c) (sh : List Nat) (hok : c.reshapeUnsigned d sh c.L = .ok c')
    (hcomp : c.strides = (computeStrides c.L c.layout c.shape).1)
    (i j : List Nat) (hi : InBounds c.shape i) (hj : InBounds sh j) :
    (c.L = .row_major → rowRank c.shape i = rowRank sh j → c'.elem? (toInts j) = c.elem? (toInts i)) ∧
    (c.L = .column_major → colRank c.shape i = colRank sh j →
      c'.elem? (toInts j) = c.elem? (toInts i)) := by
  have hdyn : c.L ≠ .dynamic := by rcases hL with h | h <;> simp [h]
  unfold Cont.reshapeUnsigned at hok
  split at hok
  · simp at hok
  · simp only [hdyn, false_and, if_false, ne_eq, not_true_eq_false, and_false, Out.ok.injEq] at hok
    subst hok
    constructor
    · intro hr he
      unfold Cont.elem?
      simp only
      rw [hcomp, hlay, hr,
        dataOffset_eq (computeStrides _ _ sh).1 _ (by simp [hj.length_eq]),
        dataOffset_eq (computeStrides _ _ c.shape).1 _ (by simp [hi.length_eq]),
        dot_computeStrides_row (Or.inl rfl) hi, dot_computeStrides_row (Or.inl rfl) hj, he]
    · intro hr he
      unfold Cont.elem?
      simp only
      rw [hcomp, hlay, hr,
        dataOffset_eq (computeStrides _ _ sh).1 _ (by simp [hj.length_eq]),
        dataOffset_eq (computeStrides _ _ c.shape).1 _ (by simp [hi.length_eq]),
        dot_computeStrides_col (by simp) hi, dot_computeStrides_col (by simp) hj, he]

/-- Signed reshape with a -1 placeholder, other extents positive: succeeds exactly when the product
of the others divides the size; the placeholder becomes the one extent that preserves the size, and
the storage is untouched.  (Partial: excludes zero extents, see `C15_zero_extent_ub`, and
out-of-contract negative extents, see `C15_contract_not_checked`.) -/
theorem C15_reshape_placeholder_partial (c : Cont α) (h : Consistent c) (pre post : List Nat)
    (l : Layout) (hpre : 0 ∉ pre) (hpost : 0 ∉ post) (hrep : c.size < 2 ^ 64)
    (hext : ∀ x ∈ pre ++ post, x < 2 ^ 64) :
    (numel (pre ++ post) ∣ numel c.shape →
      ∃ c' m, c.reshapeSigned (toInts pre ++ (-1) :: toInts post) l = .ok c' ∧
        c'.shape = pre ++ m :: post ∧ c'.storage = c.storage ∧
        numel c'.shape = numel c.shape ∧
        ∀ m', numel (pre ++ m' :: post) = numel c.shape → m' = m) ∧
    (¬ numel (pre ++ post) ∣ numel c.shape →
      c.reshapeSigned (toInts pre ++ (-1) :: toInts post) l = .throws c) := by
  have hsz := Consistent.size_eq h
  have nn : ∀ (l : List Nat), ∀ x ∈ toInts l, 0 ≤ x := by
    intro l x hx; obtain ⟨y, _, rfl⟩ := List.mem_map.1 hx; exact Int.natCast_nonneg y
  have na : ∀ l : List Nat, (toInts l).map Int.natAbs = l := by
    intro l; exact natAbs_toInts l
  have hc : SignedContract c.size (toInts pre ++ (-1) :: toInts post) := by
    refine ⟨hrep, fun x hx => ?_, Or.inr ⟨_, _, rfl, nn pre, nn post⟩⟩
    simp only [List.mem_append, List.mem_cons] at hx
    rcases hx with hx | rfl | hx
    · obtain ⟨y, hy, rfl⟩ := List.mem_map.1 hx
      have := hext y (by simp [hy]); norm_num at this ⊢; omega
    · norm_num
    · obtain ⟨y, hy, rfl⟩ := List.mem_map.1 hx
      have := hext y (by simp [hy]); norm_num at this ⊢; omega
  have h0 : (0 : Int) ∉ toInts pre ++ (-1) :: toInts post := by
    simp only [List.mem_append, List.mem_cons, not_or]
    refine ⟨fun hx => ?_, by norm_num, fun hx => ?_⟩
    · obtain ⟨y, hy, e⟩ := List.mem_map.1 hx
      exact hpre (by rw [Int.ofNat_eq_zero.1 e] at hy; exact hy)
    · obtain ⟨y, hy, e⟩ := List.mem_map.1 hx
      exact hpost (by rw [Int.ofNat_eq_zero.1 e] at hy; exact hy)
  have hmm : ((toInts pre ++ toInts post).map Int.natAbs) = pre ++ post := by
    rw [List.map_append, na, na]
  rcases reshapeSigned_cases c _ l hsz hc with ⟨_, hz⟩ | ⟨_, ⟨he, hnd, _⟩ | ⟨sh', he, hn, hsh, _⟩⟩
  · exact absurd hz h0
  · have := hnd _ _ rfl (nn pre) (nn post)
    rw [hmm, hsz] at this
    exact ⟨fun hd => absurd hd this, fun _ => he⟩
  · have hsh' := hsh _ _ rfl (nn pre) (nn post)
    rw [hmm, na, na] at hsh'
    constructor
    · intro _
      refine ⟨_, c.size / numel (pre ++ post), he, hsh', rfl, by rw [← hsz]; exact hn, ?_⟩
      intro m' hm'
      have hpos : 0 < numel (pre ++ post) := by
        rw [numel_pos_iff]; simp [hpre, hpost]
      rw [hsz, ← hm']
      have : numel (pre ++ m' :: post) = m' * numel (pre ++ post) := by
        simp only [numel_append, numel_cons]; ring
      rw [this, Nat.mul_div_cancel _ hpos]
    · intro hnd
      exfalso
      apply hnd
      rw [hsh', hsz] at hn
      rw [← hn]
      exact ⟨c.shape |> fun _ => numel c.shape / numel (pre ++ post), by
        simp only [numel_append, numel_cons]; ring⟩

/-- Signed reshape without placeholder, positive extents. -/
theorem C15_reshape_signed_plain (c : Cont α) (h : Consistent c) (sh : List Nat) (l : Layout)
    (h0 : 0 ∉ sh) (hrep : c.size < 2 ^ 64) (hext : ∀ x ∈ sh, x < 2 ^ 64) :
    (numel sh = numel c.shape → ∃ c', c.reshapeSigned (toInts sh) l = .ok c' ∧ c'.shape = sh ∧
      c'.storage = c.storage) ∧
    (numel sh ≠ numel c.shape → c.reshapeSigned (toInts sh) l = .throws c) := by
  have hsz := Consistent.size_eq h
  have nn : ∀ x ∈ toInts sh, 0 ≤ x := by
    intro x hx; obtain ⟨y, _, rfl⟩ := List.mem_map.1 hx; exact Int.natCast_nonneg y
  have na : (toInts sh).map Int.natAbs = sh := natAbs_toInts sh
  have hc : SignedContract c.size (toInts sh) := by
    refine ⟨hrep, fun x hx => ?_, Or.inl nn⟩
    obtain ⟨y, hy, rfl⟩ := List.mem_map.1 hx
    have := hext y hy; norm_num at this ⊢; omega
  rcases reshapeSigned_cases c _ l hsz hc with ⟨_, hz⟩ | ⟨_, ⟨he, _, hne⟩ | ⟨sh', he, hn, _, hsh⟩⟩
  · obtain ⟨y, hy, e⟩ := List.mem_map.1 hz
    exact absurd (by rw [Int.ofNat_eq_zero.1 e] at hy; exact hy) h0
  · have := hne nn
    rw [na, hsz] at this
    exact ⟨fun hd => absurd hd this, fun _ => he⟩
  · have := hsh nn
    rw [na] at this
    subst this
    exact ⟨fun _ => ⟨_, he, rfl, rfl⟩, fun hne => absurd (by rw [hn, hsz]) hne⟩

/-- A zero extent in a signed reshape divides by zero, even when the sizes agree. -/
theorem C15_zero_extent_ub (c : Cont α) (sh : List Int) (l : Layout) (h : 0 ∈ sh) :
    c.reshapeSigned sh l = .ub := by
  have : computeSizeSigned sh = 0 := by
    unfold computeSizeSigned
    rw [natAbs_foldl]
    simp only [Int.natAbs_one, Nat.one_mul, numel_eq_zero_iff]
    exact List.mem_map.2 ⟨0, h, rfl⟩
  unfold Cont.reshapeSigned
  simp [this]

/-- Out-of-contract extents are accepted: {-2, 3} on 6 elements gives shape (1,3) with 6 slots left
in storage, and {-1, -1, 6} is accepted although nothing can be inferred. -/
theorem C15_contract_not_checked :
    (∃ c : Cont Nat, runOps .row_major (fun n => List.range n) (Cont.default .row_major 0 0)
      [.resize [6] false, .reshapeS [-2, 3] .row_major] = some c ∧
      c.shape = [1, 3] ∧ c.storage.length = 6) ∧
    (∃ c : Cont Nat, runOps .row_major (fun n => List.range n) (Cont.default .row_major 0 0)
      [.resize [6] false, .reshapeS [-1, -1, 6] .row_major] = some c ∧
      c.shape = [2 ^ 64 - 1, 2 ^ 64 - 1, 6]) := by
  refine ⟨⟨_, rfl, by decide, by decide⟩, ⟨_, rfl, by decide⟩⟩

/-- Signed reshape of a dynamic-layout container with the default layout argument: the unsigned
overload falls back to the default layout (row-major here), the signed one computes column-major
strides, so the same call with `int` extents permutes the elements. -/
theorem C15_dynamic_signed_differs :
    ∃ c₁ c₂ : Cont Nat,
      runOps .row_major (fun n => List.range n) (Cont.default .dynamic 0 0)
        [.resize [6] false, .reshapeU [2, 3] .dynamic] = some c₁ ∧
      runOps .row_major (fun n => List.range n) (Cont.default .dynamic 0 0)
        [.resize [6] false, .reshapeS [2, 3] .dynamic] = some c₂ ∧
      c₁.elem? [0, 1] = some 1 ∧ c₂.elem? [0, 1] = some 2 := by
  exact ⟨_, _, rfl, rfl, by decide, by decide⟩

example : ((Cont.default .row_major 0 0 : Cont Nat).resize .row_major (fun n => List.range n) true
    [2, 6] false) = .ok ⟨.row_major, .row_major, [2, 6], [6, 1], [6, 5], List.range 12⟩ := by decide
example : ((⟨.row_major, .row_major, [2, 6], [6, 1], [6, 5], List.range 12⟩ : Cont Nat).reshapeSigned
    [3, -1, 2] .row_major) = .ok ⟨.row_major, .row_major, [3, 2, 2], [4, 2, 1], [8, 2, 1], List.range 12⟩ := by
  decide

/-! ## Contiguity flag of containers -/

theorem find_rowStrides (sh : List Nat) :
    ((rowStrides sh).1.reverse.find? (· ≠ 0) = none ∧ (rowStrides sh).2 = 1 ∧ True) ∨
    (rowStrides sh).1.reverse.find? (· ≠ 0) = some 1 := by
  induction sh with
  | nil => left; simp [rowStrides]
  | cons s ss ih =>
    simp only [rowStrides, List.reverse_cons, List.find?_append]
    rcases ih with ⟨h1, h2, _⟩ | h1
    · rw [h1, h2]
      by_cases hs : s = 1
      · left; simp [adaptStride, hs]
      · right; simp [adaptStride, hs]
    · right; rw [h1]; rfl

theorem find_colStrides (sh : List Nat) :
    (colStrides 1 sh).1.find? (· ≠ 0) = none ∨ (colStrides 1 sh).1.find? (· ≠ 0) = some 1 := by
  induction sh with
  | nil => left; simp [colStrides]
  | cons s ss ih =>
    simp only [colStrides, Int.one_mul]
    by_cases hs : s = 1
    · subst hs; simpa [adaptStride] using ih
    · right; simp [adaptStride, hs]

/-- `is_contiguous()` answers true for every container whose strides were computed by the library
for a row- or column-major layout. -/
theorem C13_container_is_contiguous (c : Cont α) (h : c.layout = .row_major ∨
      (c.layout = .column_major ∧ c.L ≠ .row_major))
    (hs : c.strides = (computeStrides c.L c.layout c.shape).1) : c.isContiguous = true := by
  unfold Cont.isContiguous
  rcases h with h | ⟨h, hL⟩
  · rw [h] at hs ⊢
    have : c.strides = (rowStrides c.shape).1 := by rw [hs]; simp [computeStrides]
    simp only [this]
    rcases find_rowStrides c.shape with ⟨h1, _⟩ | h1 <;> rw [h1] <;> rfl
  · rw [h] at hs ⊢
    have : c.strides = (colStrides 1 c.shape).1 := by rw [hs]; simp [computeStrides, hL]
    simp only [this]
    rcases find_colStrides c.shape with h1 | h1 <;> rw [h1] <;> rfl

end Xt
