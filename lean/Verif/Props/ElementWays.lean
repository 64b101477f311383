import Verif.Model.ElementWays
import Verif.Props.Indexing
import Verif.Props.Iterator
import Verif.Props.AssignAlias
/-!
# C110: the ways to reach an element of a container
-/

namespace Xt
open Spec

variable {α : Type}

/-- What a user means by an access: the index of the element.  Arguments of `periodic` count modulo the extents, `flat` counts in the order
of the storage, iterators in the order that they are asked for. -/
def Spec.Designates (L l : Layout) (sh : List Nat) : Acc → List Nat → Prop
  | .call args, idx => args = toInts idx
  | .brackets args, idx => args = toInts idx
  | .checked args, idx => args = toInts idx
  | .unchecked sd args, idx => args = toInts idx ∧ (sd = none ∨ sd = some sh.length)
  | .periodic args, idx => args.length = sh.length ∧ List.zipWith (fun (n : Nat) (a : Int) => a % (n : Int)) sh args = toInts idx
  | .flat k, idx => k = if L = .row_major ∨ l = .row_major then (rowRank sh idx : Int) else (colRank sh idx : Int)
  | .iter lt k, idx => (lt = .row_major ∧ k = rowRank sh idx) ∨ (lt = .column_major ∧ k = colRank sh idx)

/-- Containers whose layout is the one in their type, if there is one, and whose extents are less than 2^63. -/
structure Spec.SoundLayout (L l : Layout) (sh : List Nat) : Prop where
  row : L = .row_major → l = .row_major
  col : L = .column_major → l = .column_major
  fits : ∀ s ∈ sh, ExtentFits s

theorem strides_wf (L l : Layout) (sh : List Nat) (off : Int) : (StridedArr.mk' sh (computeStrides L l sh).1 off).WF := by
  have hlen : (computeStrides L l sh).1.length = sh.length := by simp
  refine ⟨hlen, ?_, StridedArr.mk'_back _ _ _ hlen⟩
  intro k hk
  have hk : sh.getD k 0 = 1 := hk
  show (computeStrides L l sh).1.getD k 0 = 0
  by_cases hkl : k < sh.length
  · have hg : sh[k]? = some 1 := by
      rw [List.getD_eq_getElem?_getD, List.getElem?_eq_getElem hkl] at hk
      rw [List.getElem?_eq_getElem hkl, ← hk]; rfl
    by_cases hL : L = .row_major ∨ l = .row_major
    · rw [List.getD_eq_getElem?_getD, C02_row_stride hL sh k 1 hg]; rfl
    · rw [List.getD_eq_getElem?_getD, C02_column_stride hL sh k 1 hg]; rfl
  · simp [List.getD_eq_getElem?_getD, hkl] at hk

theorem iter_pos {L l : Layout} {sh idx : List Nat} (hs : SoundLayout L l sh) (hb : InBounds sh idx) (lt : Layout)
    (hlt : lt = .row_major ∨ lt = .column_major) :
    (Acc.iter lt (rankIn lt sh idx)).pos L l sh = .ok (dot (computeStrides L l sh).1 (toInts idx)) := by
  by_cases he : lt = L
  · subst he
    simp only [Acc.pos, if_true]
    rcases hlt with rfl | rfl
    · rw [dot_computeStrides_row (Or.inl rfl) hb]; rfl
    · rw [dot_computeStrides_col (by simp [hs.col rfl]) hb]; rfl
  have hc := strides_wf L l sh 0
  have hF := xstepper_fwd hc (broadcastsTo_refl sh)
  have hsh : (StridedArr.mk' sh (computeStrides L l sh).1 0).shape = sh := rfl
  rw [hsh, Nat.sub_self] at hF
  have hr : rankIn lt sh idx < numel sh := by
    rcases hlt with rfl | rfl
    · exact rowRank_lt hb
    · exact colRank_lt hb
  have h0 : XAt (StridedArr.mk' sh (computeStrides L l sh).1 0) (xstepperBegin (StridedArr.mk' sh (computeStrides L l sh).1 0))
      (List.replicate sh.length 0) := by
    have h1 : dot (computeStrides L l sh).1 (List.replicate sh.length (0 : Int)) = 0 := dot_replicate_zero _ _
    simp [XAt, xstepperBegin, StridedArr.mk', toInts, h1]
  have hB := iterAt_begin (L := lt) (E := fun _ => True) (by omega : 0 < numel sh) h0
  have hA := hB.add (n := rankIn lt sh idx) hlt hF (fun _ _ _ _ => trivial) (by omega)
  rw [Nat.zero_add] at hA
  obtain ⟨h1, h2, h3⟩ := hA.inner hr
  have hi := rankIn_inj (L := lt) h1 hb h2
  rw [hi] at h3
  have h4 : idx.length = sh.length := hb.length_eq
  unfold XAt at h3
  simp only [Acc.pos, if_neg he]
  rw [h3]
  simp [StridedArr.mk', h4]

/-- C110: all accesses to an element refer to one place. -/
theorem C110_same_place {L l : Layout} {sh idx : List Nat} (hs : SoundLayout L l sh) (hb : InBounds sh idx) (a : Acc)
    (ha : Designates L l sh a idx) : a.pos L l sh = .ok (dataOffset (computeStrides L l sh).1 false (toInts idx)) := by
  have hd : dataOffset (computeStrides L l sh).1 false (toInts idx) = dot (computeStrides L l sh).1 (toInts idx) :=
    dataOffset_eq _ _ (by simp [hb.length_eq])
  cases a with
  | call args => rw [show args = toInts idx from ha]; rfl
  | brackets args =>
    rw [show args = toInts idx from ha]
    simp only [Acc.pos, elementOffset_eq_dataOffset]
  | checked args =>
    rw [show args = toInts idx from ha]
    simp only [Acc.pos, C09_no_throw sh idx _ hb hs.fits]
  | unchecked sd args =>
    obtain ⟨rfl, h2⟩ := ha
    simp only [Acc.pos, C08_unchecked_eq_checked L l sh idx sd h2 hs.row hs.col hb]
  | periodic args =>
    obtain ⟨h1, h2⟩ := ha
    have h0 : 0 ∉ sh := (numel_pos_iff sh).1 (Nat.lt_of_le_of_lt (Nat.zero_le _) (rowRank_lt hb))
    simp only [Acc.pos, C11_periodic_any_strides sh _ args h0 h1, modIndex, h2]
  | flat k =>
    have hk : k = _ := ha
    rw [hk, hd]
    by_cases h : L = .row_major ∨ l = .row_major
    · rw [if_pos h, dot_computeStrides_row h hb]; rfl
    · rw [if_neg h, dot_computeStrides_col h hb]; rfl
  | iter lt k =>
    rcases ha with ⟨rfl, rfl⟩ | ⟨rfl, rfl⟩
    · rw [show rowRank sh idx = rankIn .row_major sh idx from rfl, iter_pos hs hb _ (Or.inl rfl), hd]
    · rw [show colRank sh idx = rankIn .column_major sh idx from rfl, iter_pos hs hb _ (Or.inr rfl), hd]

/-- The value of an element after writes to elements, given what it was before. -/
def Spec.lastWritten (j : List Nat) (old : α) : List (List Nat × α) → α
  | [] => old
  | w :: ws => lastWritten j (if w.1 = j then w.2 else old) ws

/-- C110: after any sequence of writes through any accesses, every access to an element reads what was written to this element last, and
elements that were not written are what they were. -/
theorem C110_history {L l : Layout} {sh : List Nat} (hs : SoundLayout L l sh) (ws : List (Acc × List Nat × α)) (mem : List α)
    (hm : mem.length = numel sh) (hw : ∀ w ∈ ws, InBounds sh w.2.1 ∧ Designates L l sh w.1 w.2.1) :
    ∃ mem', Acc.storeAll L l sh (ws.map fun w => (w.1, w.2.2)) mem = .ok mem' ∧ mem'.length = numel sh ∧
      ∀ j a b, InBounds sh j → Designates L l sh a j → Designates L l sh b j →
        ∃ old, a.load L l sh mem = .ok old ∧ b.load L l sh mem' = .ok (lastWritten j old (ws.map fun w => w.2)) := by
  obtain ⟨h1, h2, h3, -⟩ := C01_bijection L l sh
  induction ws generalizing mem with
  | nil =>
    refine ⟨mem, rfl, hm, fun j a b hj ha hb => ?_⟩
    have hr := h2 j hj
    obtain ⟨x, hx⟩ : ∃ x, mem[(dataOffset (computeStrides L l sh).1 false (toInts j)).toNat]? = some x :=
      ⟨_, List.getElem?_eq_getElem (by omega)⟩
    refine ⟨x, ?_, ?_⟩ <;> unfold Acc.load
    · rw [C110_same_place hs hj a ha]; simp only [if_pos hr.1, hx]
    · rw [C110_same_place hs hj b hb]; simp only [if_pos hr.1, hx]; rfl
  | cons w ws ih =>
    obtain ⟨hwi, hwd⟩ := hw w (by simp)
    have hr := h2 _ hwi
    obtain ⟨mem', g1, g2, g3⟩ := ih (mem.set (dataOffset (computeStrides L l sh).1 false (toInts w.2.1)).toNat w.2.2) (by simpa using hm)
      (fun w hw' => hw w (by simp [hw']))
    have hst : w.1.store L l sh mem w.2.2 =
        .ok (mem.set (dataOffset (computeStrides L l sh).1 false (toInts w.2.1)).toNat w.2.2) := by
      unfold Acc.store
      rw [C110_same_place hs hwi w.1 hwd]
      simp only
      rw [if_pos ⟨hr.1, by omega⟩]
    refine ⟨mem', ?_, g2, fun j a b hj ha hb => ?_⟩
    · simp only [List.map_cons, Acc.storeAll, hst]
      exact g1
    · obtain ⟨old, k1, k2⟩ := g3 j a b hj ha hb
      have hrj := h2 j hj
      obtain ⟨x, hx⟩ : ∃ x, mem[(dataOffset (computeStrides L l sh).1 false (toInts j)).toNat]? = some x :=
        ⟨_, List.getElem?_eq_getElem (by omega)⟩
      refine ⟨x, ?_, ?_⟩
      · unfold Acc.load
        rw [C110_same_place hs hj a ha]; simp only [if_pos hrj.1, hx]
      · rw [k2, List.map_cons, lastWritten]
        have hold : old = if w.2.1 = j then w.2.2 else x := by
          unfold Acc.load at k1
          rw [C110_same_place hs hj a ha] at k1
          simp only [if_pos hrj.1, List.getElem?_set] at k1
          by_cases he : w.2.1 = j
          · rw [if_pos he]
            subst he
            rw [if_pos rfl, if_pos (by omega)] at k1
            exact (Res.ok.inj k1).symm
          · rw [if_neg he]
            have : ¬ (dataOffset (computeStrides L l sh).1 false (toInts w.2.1)).toNat =
                (dataOffset (computeStrides L l sh).1 false (toInts j)).toNat := by
              intro h
              exact he (h3 _ _ hwi hj (by omega))
            rw [if_neg this, hx] at k1
            exact (Res.ok.inj k1).symm
        rw [hold]

/-- C110: a write through `at` with as many arguments as axes is never undefined.  It throws exactly if an argument on an axis with an
extent other than 1 is out of range, and so does a read. -/
theorem C110_at {L l : Layout} {sh : List Nat} (hs : ∀ s ∈ sh, ExtentFits s) (args : List Int) (hl : args.length = sh.length)
    (ha : ∀ a ∈ args, Fits64 a) (mem : List α) (hm : mem.length = numel sh) (v : α) :
    (Acc.checked args).store L l sh mem v ≠ .ub ∧ (Acc.checked args).load L l sh mem ≠ .ub ∧
    ((Acc.checked args).store L l sh mem v = .throws ↔
      ∃ (k s : Nat) (a : Int), sh[k]? = some s ∧ args[k]? = some a ∧ s ≠ 1 ∧ (a < 0 ∨ (s : Int) ≤ a)) ∧
    ((Acc.checked args).load L l sh mem = .throws ↔ (Acc.checked args).store L l sh mem v = .throws) := by
  rw [← C09_throws_iff sh (computeStrides L l sh).1 args hl ha hs]
  cases h : atOffset sh (computeStrides L l sh).1 false args with
  | none => simp [Acc.store, Acc.load, Acc.pos, h]
  | some p =>
    obtain ⟨h0, h1⟩ := C09_at_safe_full L l sh args p hl ha hs h
    have h2 : p.toNat < mem.length := by omega
    have h3 : p < (mem.length : Int) := by omega
    simp [Acc.store, Acc.load, Acc.pos, h, h0, h3, List.getElem?_eq_getElem h2]

/-! ### Examples -/

/-- Shape (2, 3): `a.at(1, 3) = 7` throws. -/
example : (Acc.checked [1, 3]).store .row_major .row_major [2, 3] [0, 0, 0, 0, 0, (0 : Int)] 7 = .throws :=
  (C110_at (by simp [ExtentFits]) [1, 3] rfl (by simp [Fits64]) _ rfl 7).2.2.1.2 ⟨1, 3, 3, rfl, rfl, by decide, by decide⟩

/-- A column-major container of shape (2, 3): `a(1, 2) = 7`, `a.periodic(-1, 5) = 8`, `*(a.begin<row_major>() + 1) = 9`; then `a.flat(5)` is 8 and
`a[{0, 1}]` is 9. -/
example : ∃ mem', Acc.storeAll .column_major .column_major [2, 3]
      [(.call [1, 2], 7), (.periodic [-1, 5], 8), (.iter .row_major 1, 9)] [0, 0, 0, 0, 0, (0 : Int)] = .ok mem' ∧
    (Acc.flat 5).load .column_major .column_major [2, 3] mem' = .ok 8 ∧
    (Acc.brackets [0, 1]).load .column_major .column_major [2, 3] mem' = .ok 9 := by
  have hs : SoundLayout .column_major .column_major [2, 3] := ⟨by simp, by simp, by simp [ExtentFits]⟩
  obtain ⟨mem', h1, -, h3⟩ := C110_history hs [(.call [1, 2], [1, 2], 7), (.periodic [-1, 5], [1, 2], 8), (.iter .row_major 1, [0, 1], 9)]
    [0, 0, 0, 0, 0, (0 : Int)] rfl (by
      intro w hw
      simp only [List.mem_cons, List.not_mem_nil, or_false] at hw
      rcases hw with rfl | rfl | rfl
      · exact ⟨by decide, rfl⟩
      · exact ⟨by decide, rfl, by decide⟩
      · exact ⟨by decide, Or.inl ⟨rfl, rfl⟩⟩)
  refine ⟨mem', h1, ?_, ?_⟩
  · obtain ⟨old, -, h⟩ := h3 [1, 2] (.flat 5) (.flat 5) (by decide) rfl rfl
    exact h
  · obtain ⟨old, -, h⟩ := h3 [0, 1] (.brackets [0, 1]) (.brackets [0, 1]) (by decide) rfl rfl
    exact h

/-- The places of the elements (1, 0), twice, and (0, 2) there. -/
example : (Acc.iter .row_major 3).pos .column_major .column_major [2, 3] = .ok 1 ∧
    (Acc.iter .column_major 1).pos .column_major .column_major [2, 3] = .ok 1 ∧ (Acc.checked [0, 2]).pos .column_major .column_major [2, 3] = .ok 4 :=
  have hs : SoundLayout .column_major .column_major [2, 3] := ⟨by simp, by simp, by simp [ExtentFits]⟩
  ⟨C110_same_place (idx := [1, 0]) hs (by decide) _ (Or.inl ⟨rfl, rfl⟩),
    C110_same_place (idx := [1, 0]) hs (by decide) _ (Or.inr ⟨rfl, rfl⟩), C110_same_place (idx := [0, 2]) hs (by decide) (.checked [0, 2]) rfl⟩

end Xt
