import Verif.Spec.Index
import Mathlib.Data.List.Basic
import Mathlib.Data.List.Nodup
import Mathlib.Data.List.Forall2
import Mathlib.Tactic.Ring
import Mathlib.Tactic.Linarith
/-!
# Lemmas on multi-indices and ranks
-/

namespace Xt.Spec

@[simp] theorem numel_nil : numel [] = 1 := rfl
@[simp] theorem numel_cons (s : Nat) (ss : List Nat) : numel (s :: ss) = s * numel ss := rfl

theorem numel_append (a b : List Nat) : numel (a ++ b) = numel a * numel b := by
  induction a with
  | nil => simp
  | cons x xs ih => simp [ih, Nat.mul_assoc]

theorem numel_reverse (a : List Nat) : numel a.reverse = numel a := by
  induction a with
  | nil => rfl
  | cons x xs ih => simp [numel_append, ih, Nat.mul_comm]

theorem numel_pos_iff (a : List Nat) : 0 < numel a ↔ 0 ∉ a := by
  induction a with
  | nil => simp
  | cons x xs ih =>
    simp only [numel_cons, List.mem_cons, not_or, ← ih, Nat.pos_iff_ne_zero, Nat.mul_ne_zero_iff]
    exact ⟨fun h => ⟨fun e => h.1 e.symm, h.2⟩, fun h => ⟨fun e => h.1 e.symm, h.2⟩⟩

theorem numel_eq_zero_iff (a : List Nat) : numel a = 0 ↔ 0 ∈ a := by
  have := numel_pos_iff a
  constructor
  · intro h
    by_contra h'
    have := this.2 h'
    omega
  · intro h
    by_contra h'
    exact (this.1 (Nat.pos_of_ne_zero h')) h

@[simp] theorem inBounds_nil : InBounds [] [] := trivial
@[simp] theorem inBounds_cons (s i : Nat) (ss is : List Nat) :
    InBounds (s :: ss) (i :: is) ↔ i < s ∧ InBounds ss is := Iff.rfl
@[simp] theorem inBounds_nil_cons (i : Nat) (is : List Nat) : ¬ InBounds [] (i :: is) := id
@[simp] theorem inBounds_cons_nil (s : Nat) (ss : List Nat) : ¬ InBounds (s :: ss) [] := id

theorem InBounds.length_eq {sh idx : List Nat} (h : InBounds sh idx) :
    idx.length = sh.length := by
  induction sh generalizing idx with
  | nil => cases idx <;> simp_all
  | cons s ss ih => cases idx <;> simp_all

theorem InBounds.append {a b i j : List Nat} (h : InBounds a i) (h' : InBounds b j) :
    InBounds (a ++ b) (i ++ j) := by
  induction a generalizing i with
  | nil => cases i <;> simp_all
  | cons s ss ih => cases i <;> simp_all

theorem inBounds_append_iff {a b i j : List Nat} (hl : i.length = a.length) :
    InBounds (a ++ b) (i ++ j) ↔ InBounds a i ∧ InBounds b j := by
  induction a generalizing i with
  | nil => cases i <;> simp_all
  | cons s ss ih =>
    cases i with
    | nil => simp at hl
    | cons x xs => simp only [List.cons_append, inBounds_cons, ih (by simpa using hl), and_assoc]

theorem InBounds.reverse {a i : List Nat} (h : InBounds a i) :
    InBounds a.reverse i.reverse := by
  induction a generalizing i with
  | nil => cases i <;> simp_all
  | cons s ss ih =>
    cases i with
    | nil => simp at h
    | cons x xs =>
      simp only [List.reverse_cons]
      exact (ih h.2).append ⟨h.1, trivial⟩

theorem inBounds_reverse_iff {a i : List Nat} :
    InBounds a.reverse i.reverse ↔ InBounds a i :=
  ⟨fun h => by simpa using h.reverse, fun h => h.reverse⟩

theorem inBounds_iff_forall {sh idx : List Nat} :
    InBounds sh idx ↔ List.Forall₂ (· < ·) idx sh := by
  induction sh generalizing idx with
  | nil => cases idx <;> simp
  | cons s ss ih => cases idx <;> simp [ih]

theorem inBounds_iff_get {sh idx : List Nat} :
    InBounds sh idx ↔ idx.length = sh.length ∧ ∀ k, k < sh.length → idx.getD k 0 < sh.getD k 0 := by
  induction sh generalizing idx with
  | nil => cases idx <;> simp
  | cons s ss ih =>
    cases idx with
    | nil => simp
    | cons i is =>
      simp only [inBounds_cons, ih, List.length_cons, Nat.add_right_cancel_iff]
      constructor
      · rintro ⟨h, hl, h'⟩
        refine ⟨hl, fun k hk => ?_⟩
        cases k with
        | zero => simpa using h
        | succ k => simpa using h' k (by omega)
      · rintro ⟨hl, h⟩
        refine ⟨by simpa using h 0 (by omega), hl, fun k hk => ?_⟩
        simpa using h (k + 1) (by omega)

theorem InBounds.numel_pos {sh idx : List Nat} (h : InBounds sh idx) : 0 < numel sh := by
  induction sh generalizing idx with
  | nil => simp
  | cons s ss ih =>
    cases idx with
    | nil => simp at h
    | cons i is => exact Nat.mul_pos (by have := h.1; omega) (ih h.2)

/-! ## Row-major rank -/

@[simp] theorem rowRank_nil_left (i : List Nat) : rowRank [] i = 0 := by cases i <;> rfl
@[simp] theorem rowRank_nil_right (s : List Nat) : rowRank s [] = 0 := by cases s <;> rfl
@[simp] theorem rowRank_cons (s i : Nat) (ss is : List Nat) :
    rowRank (s :: ss) (i :: is) = i * numel ss + rowRank ss is := rfl
@[simp] theorem colRank_nil_left (i : List Nat) : colRank [] i = 0 := by cases i <;> rfl
@[simp] theorem colRank_nil_right (s : List Nat) : colRank s [] = 0 := by cases s <;> rfl
@[simp] theorem colRank_cons (s i : Nat) (ss is : List Nat) :
    colRank (s :: ss) (i :: is) = i + s * colRank ss is := rfl

theorem rowRank_lt {sh idx : List Nat} (h : InBounds sh idx) : rowRank sh idx < numel sh := by
  induction sh generalizing idx with
  | nil => cases idx <;> simp_all
  | cons s ss ih =>
    cases idx with
    | nil => simp at h
    | cons i is =>
      simp only [rowRank_cons, numel_cons]
      have h1 := ih h.2
      have h2 : (i + 1) * numel ss ≤ s * numel ss := Nat.mul_le_mul_right _ h.1
      rw [Nat.add_mul] at h2
      omega

theorem rowRank_inj {sh i j : List Nat} (hi : InBounds sh i) (hj : InBounds sh j)
    (h : rowRank sh i = rowRank sh j) : i = j := by
  induction sh generalizing i j with
  | nil => cases i <;> cases j <;> simp_all
  | cons s ss ih =>
    cases i with
    | nil => simp at hi
    | cons x xs =>
      cases j with
      | nil => simp at hj
      | cons y ys =>
        simp only [rowRank_cons] at h
        have h1 := rowRank_lt hi.2
        have h2 := rowRank_lt hj.2
        have hp : 0 < numel ss := by omega
        have e1 : (x * numel ss + rowRank ss xs) / numel ss = x := by
          rw [Nat.mul_comm, Nat.mul_add_div hp, Nat.div_eq_of_lt h1, Nat.add_zero]
        have e2 : (y * numel ss + rowRank ss ys) / numel ss = y := by
          rw [Nat.mul_comm, Nat.mul_add_div hp, Nat.div_eq_of_lt h2, Nat.add_zero]
        have e : x = y := by rw [← e1, ← e2, h]
        subst e
        rw [ih hi.2 hj.2 (by omega)]

theorem rowRank_surj {sh : List Nat} {p : Nat} (h : p < numel sh) :
    ∃ idx, InBounds sh idx ∧ rowRank sh idx = p := by
  induction sh generalizing p with
  | nil => exact ⟨[], trivial, by simp at h; simp [h]⟩
  | cons s ss ih =>
    simp only [numel_cons] at h
    have hp : 0 < numel ss := by
      rcases Nat.eq_zero_or_pos (numel ss) with e | e
      · rw [e] at h; omega
      · exact e
    obtain ⟨is, hb, hr⟩ := ih (Nat.mod_lt p hp)
    refine ⟨p / numel ss :: is, ⟨?_, hb⟩, ?_⟩
    · rw [Nat.div_lt_iff_lt_mul hp]; exact h
    · simp only [rowRank_cons, hr]
      exact Nat.div_add_mod' p (numel ss)

theorem rowRank_append {a b i j : List Nat} (hl : i.length = a.length) :
    rowRank (a ++ b) (i ++ j) = rowRank a i * numel b + rowRank b j := by
  induction a generalizing i with
  | nil => cases i <;> simp_all
  | cons s ss ih =>
    cases i with
    | nil => simp at hl
    | cons x xs =>
      simp only [List.cons_append, rowRank_cons, ih (by simpa using hl), numel_append]
      ring

theorem colRank_append {a b i j : List Nat} (hl : i.length = a.length) :
    colRank (a ++ b) (i ++ j) = colRank a i + numel a * colRank b j := by
  induction a generalizing i with
  | nil => cases i <;> simp_all
  | cons s ss ih =>
    cases i with
    | nil => simp at hl
    | cons x xs =>
      simp only [List.cons_append, colRank_cons, ih (by simpa using hl), numel_cons]
      ring

/-- Column-major order is row-major order of the reversed axes. -/
theorem colRank_eq_rowRank_reverse {sh idx : List Nat} (hl : idx.length = sh.length) :
    colRank sh idx = rowRank sh.reverse idx.reverse := by
  induction sh generalizing idx with
  | nil => simp
  | cons s ss ih =>
    cases idx with
    | nil => simp at hl
    | cons i is =>
      have hl' : is.length = ss.length := by simpa using hl
      simp only [colRank_cons, List.reverse_cons]
      rw [rowRank_append (by simpa using hl'), ih hl']
      simp
      ring

theorem colRank_lt {sh idx : List Nat} (h : InBounds sh idx) : colRank sh idx < numel sh := by
  rw [colRank_eq_rowRank_reverse h.length_eq, ← numel_reverse sh]
  exact rowRank_lt h.reverse

theorem colRank_inj {sh i j : List Nat} (hi : InBounds sh i) (hj : InBounds sh j)
    (h : colRank sh i = colRank sh j) : i = j := by
  rw [colRank_eq_rowRank_reverse hi.length_eq, colRank_eq_rowRank_reverse hj.length_eq] at h
  exact List.reverse_injective (rowRank_inj hi.reverse hj.reverse h)

theorem colRank_surj {sh : List Nat} {p : Nat} (h : p < numel sh) :
    ∃ idx, InBounds sh idx ∧ colRank sh idx = p := by
  rw [← numel_reverse] at h
  obtain ⟨idx, hb, hr⟩ := rowRank_surj h
  have hb' : InBounds sh idx.reverse := by simpa using hb.reverse
  exact ⟨idx.reverse, hb', by rw [colRank_eq_rowRank_reverse hb'.length_eq]; simpa using hr⟩

/-! ## Order -/

theorem rowRank_lt_iff_lexLt {sh i j : List Nat} (hi : InBounds sh i) (hj : InBounds sh j) :
    rowRank sh i < rowRank sh j ↔ lexLt i j := by
  induction sh generalizing i j with
  | nil => cases i <;> cases j <;> simp_all [lexLt]
  | cons s ss ih =>
    cases i with
    | nil => simp at hi
    | cons x xs =>
      cases j with
      | nil => simp at hj
      | cons y ys =>
        simp only [rowRank_cons, lexLt]
        have h1 := rowRank_lt hi.2
        have h2 := rowRank_lt hj.2
        rw [← ih hi.2 hj.2]
        rcases Nat.lt_trichotomy x y with h | h | h
        · have : (x + 1) * numel ss ≤ y * numel ss := Nat.mul_le_mul_right _ h
          rw [Nat.add_mul] at this
          constructor
          · intro _; exact Or.inl h
          · intro _; omega
        · subst h; simp
        · have : (y + 1) * numel ss ≤ x * numel ss := Nat.mul_le_mul_right _ h
          rw [Nat.add_mul] at this
          constructor
          · intro _; omega
          · rintro (h' | ⟨h', _⟩) <;> omega

theorem colRank_lt_iff_colexLt {sh i j : List Nat} (hi : InBounds sh i) (hj : InBounds sh j) :
    colRank sh i < colRank sh j ↔ colexLt i j := by
  induction sh generalizing i j with
  | nil => cases i <;> cases j <;> simp_all [colexLt]
  | cons s ss ih =>
    cases i with
    | nil => simp at hi
    | cons x xs =>
      cases j with
      | nil => simp at hj
      | cons y ys =>
        simp only [colRank_cons, colexLt]
        rw [← ih hi.2 hj.2]
        have hx := hi.1
        have hy := hj.1
        rcases Nat.lt_trichotomy (colRank ss xs) (colRank ss ys) with h | h | h
        · have : s * (colRank ss xs + 1) ≤ s * colRank ss ys := Nat.mul_le_mul_left _ h
          rw [Nat.mul_add] at this
          constructor
          · intro _; exact Or.inl h
          · intro _; omega
        · have := colRank_inj hi.2 hj.2 h
          subst this; simp
        · have : s * (colRank ss ys + 1) ≤ s * colRank ss xs := Nat.mul_le_mul_left _ h
          rw [Nat.mul_add] at this
          constructor
          · intro _; omega
          · rintro (h' | ⟨h', _⟩)
            · omega
            · subst h'; omega

/-! ## Enumerations -/

theorem flatMap_range_add (s m : Nat) :
    (List.range s).flatMap (fun i => (List.range m).map fun j => i * m + j) = List.range (s * m) := by
  induction s with
  | zero => simp
  | succ s ih =>
    rw [List.range_succ, List.flatMap_append, ih, Nat.succ_mul, List.range_add]
    simp

theorem mem_rowIndices {sh idx : List Nat} : idx ∈ rowIndices sh ↔ InBounds sh idx := by
  induction sh generalizing idx with
  | nil => cases idx <;> simp [rowIndices]
  | cons s ss ih =>
    simp only [rowIndices, List.mem_flatMap, List.mem_range, List.mem_map, ih]
    cases idx with
    | nil => simp
    | cons i is =>
      simp only [List.cons.injEq, inBounds_cons]
      constructor
      · rintro ⟨a, ha, b, hb, rfl, rfl⟩; exact ⟨ha, hb⟩
      · rintro ⟨ha, hb⟩; exact ⟨i, ha, is, hb, rfl, rfl⟩

theorem length_rowIndices (sh : List Nat) : (rowIndices sh).length = numel sh := by
  induction sh with
  | nil => rfl
  | cons s ss ih =>
    have := congrArg List.length (flatMap_range_add s (numel ss))
    simp only [rowIndices, List.length_flatMap, List.length_map, ih, List.length_range, numel_cons] at this ⊢
    exact this

theorem mem_colIndices {sh idx : List Nat} : idx ∈ colIndices sh ↔ InBounds sh idx := by
  induction sh generalizing idx with
  | nil => cases idx <;> simp [colIndices]
  | cons s ss ih =>
    simp only [colIndices, List.mem_flatMap, List.mem_range, List.mem_map, ih]
    cases idx with
    | nil => simp
    | cons i is =>
      simp only [List.cons.injEq, inBounds_cons]
      constructor
      · rintro ⟨a, ha, b, hb, rfl, rfl⟩; exact ⟨hb, ha⟩
      · rintro ⟨ha, hb⟩; exact ⟨is, hb, i, ha, rfl, rfl⟩

/-- The k-th entry of `rowIndices` has rank `k`. -/
theorem map_rowRank_rowIndices (sh : List Nat) :
    (rowIndices sh).map (rowRank sh) = List.range (numel sh) := by
  induction sh with
  | nil => rfl
  | cons s ss ih =>
    simp only [rowIndices, List.map_flatMap, List.map_map, numel_cons]
    rw [← flatMap_range_add]
    congr 1
    funext i
    rw [← ih, List.map_map]
    rfl

/-- The k-th entry of `colIndices` has rank `k`. -/
theorem map_colRank_colIndices (sh : List Nat) :
    (colIndices sh).map (colRank sh) = List.range (numel sh) := by
  induction sh with
  | nil => rfl
  | cons s ss ih =>
    simp only [colIndices, List.map_flatMap, List.map_map, numel_cons]
    rw [Nat.mul_comm, ← flatMap_range_add, ← ih, List.flatMap_map]
    congr 1
    funext is
    apply List.map_congr_left
    intro a _
    simp [Nat.mul_comm, Nat.add_comm]

theorem length_colIndices (sh : List Nat) : (colIndices sh).length = numel sh := by
  have := congrArg List.length (map_colRank_colIndices sh)
  simpa using this

theorem rowIndices_nodup (sh : List Nat) : (rowIndices sh).Nodup := by
  have h := map_rowRank_rowIndices sh
  have : ((rowIndices sh).map (rowRank sh)).Nodup := by rw [h]; exact List.nodup_range
  exact List.Nodup.of_map _ this

theorem colIndices_nodup (sh : List Nat) : (colIndices sh).Nodup := by
  have h := map_colRank_colIndices sh
  have : ((colIndices sh).map (colRank sh)).Nodup := by rw [h]; exact List.nodup_range
  exact List.Nodup.of_map _ this

/-! ## dot -/

@[simp] theorem dot_nil_left (i : List Int) : dot [] i = 0 := by cases i <;> rfl
@[simp] theorem dot_nil_right (s : List Int) : dot s [] = 0 := by cases s <;> rfl
@[simp] theorem dot_cons (s i : Int) (ss is : List Int) :
    dot (s :: ss) (i :: is) = i * s + dot ss is := rfl

theorem dot_append {a b i j : List Int} (hl : i.length = a.length) :
    dot (a ++ b) (i ++ j) = dot a i + dot b j := by
  induction a generalizing i with
  | nil => cases i <;> simp_all
  | cons s ss ih =>
    cases i with
    | nil => simp at hl
    | cons x xs => simp [ih (by simpa using hl)]; ring

theorem dot_replicate_zero (a : List Int) (n : Nat) : dot a (List.replicate n 0) = 0 := by
  induction a generalizing n with
  | nil => simp
  | cons s ss ih => cases n <;> simp [List.replicate_succ, ih]

@[simp] theorem toInts_nil : toInts [] = [] := rfl
@[simp] theorem toInts_cons (i : Nat) (is : List Nat) : toInts (i :: is) = (i : Int) :: toInts is := rfl
@[simp] theorem toInts_length (l : List Nat) : (toInts l).length = l.length := by simp [toInts]
@[simp] theorem toInts_append (a b : List Nat) : toInts (a ++ b) = toInts a ++ toInts b := by
  simp [toInts]
theorem toInts_reverse (a : List Nat) : toInts a.reverse = (toInts a).reverse := by simp [toInts]

theorem toInts_injective : Function.Injective toInts :=
  List.map_injective_iff.2 fun _ _ h => Int.ofNat.inj h

end Xt.Spec
