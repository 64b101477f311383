import Verif.Model.Npy
import Verif.Lemmas.Region
/-!
# C50: NumPy files
-/

namespace Xt

open Spec

/-! ### Numbers -/

theorem digitsValue_append (ds : List Nat) (d : Nat) : digitsValue (ds ++ [d]) = 10 * digitsValue ds + (d - 48) := by
  simp [digitsValue]

theorem decimalAux_spec : ∀ (fuel n : Nat), n < fuel → IsDecimal (decimalAux fuel n) n := by
  intro fuel
  induction fuel with
  | zero => intro n h; omega
  | succ fuel ih =>
    intro n h
    rw [decimalAux]
    by_cases hn : n < 10
    · rw [if_pos hn]
      refine ⟨by simp, by simp; omega, fun h => by simp at h; simp [h], by simp [digitsValue]⟩
    · rw [if_neg hn]
      obtain ⟨h1, h2, h3, h4⟩ := ih (n / 10) (by omega)
      refine ⟨by simp, ?_, ?_, ?_⟩
      · intro d hd
        rcases List.mem_append.1 hd with h | h
        · exact h2 d h
        · simp at h; omega
      · intro h0
        rw [List.head?_append_of_ne_nil _ h1] at h0
        have := h3 h0
        rw [this] at h4
        simp [digitsValue] at h4
        omega
      · rw [digitsValue_append, h4]; omega

theorem decimal_spec (n : Nat) : IsDecimal (decimal n) n := decimalAux_spec (n + 1) n (by omega)

theorem value_zero_head {l : List Nat} (hne : l ≠ []) (hd : ∀ d ∈ l, 48 ≤ d ∧ d ≤ 57) (h : digitsValue l = 0) :
    l.head? = some 48 := by
  induction l using List.reverseRecOn with
  | nil => exact absurd rfl hne
  | append_singleton l d ih =>
    rw [digitsValue_append] at h
    have := hd d (by simp)
    by_cases hl : l = []
    · subst hl; simp; omega
    · rw [List.head?_append_of_ne_nil _ hl]
      exact ih hl (fun x hx => hd x (by simp [hx])) (by omega)

/-- A number has one decimal text. -/
theorem isDecimal_unique {a b : List Nat} {n : Nat} (ha : IsDecimal a n) (hb : IsDecimal b n) : a = b := by
  induction a using List.reverseRecOn generalizing b n with
  | nil => exact absurd rfl ha.1
  | append_singleton a d ih =>
    obtain ⟨b, e, rfl⟩ : ∃ b' e, b = b' ++ [e] := ⟨b.dropLast, b.getLast hb.1, (List.dropLast_append_getLast hb.1).symm⟩
    obtain ⟨-, a2, a3, a4⟩ := ha
    obtain ⟨-, b2, b3, b4⟩ := hb
    rw [digitsValue_append] at a4 b4
    have d1 := a2 d (by simp)
    have e1 := b2 e (by simp)
    have hv : digitsValue a = digitsValue b := by omega
    have hde : d = e := by omega
    have na : a ≠ [] → a.head? ≠ some 48 := fun h h0 => by
      have := a3 (by rw [List.head?_append_of_ne_nil _ h, h0])
      have := congrArg List.length this
      simp at this; exact h this
    have nb : b ≠ [] → b.head? ≠ some 48 := fun h h0 => by
      have := b3 (by rw [List.head?_append_of_ne_nil _ h, h0])
      have := congrArg List.length this
      simp at this; exact h this
    have hda : ∀ x ∈ a, 48 ≤ x ∧ x ≤ 57 := fun x hx => a2 x (by simp [hx])
    have hdb : ∀ x ∈ b, 48 ≤ x ∧ x ≤ 57 := fun x hx => b2 x (by simp [hx])
    rw [hde]
    congr 1
    by_cases ea : a = []
    · by_cases eb : b = []
      · rw [ea, eb]
      · exact absurd (value_zero_head eb hdb (by rw [← hv, ea]; rfl)) (nb eb)
    · by_cases eb : b = []
      · exact absurd (value_zero_head ea hda (by rw [hv, eb]; rfl)) (na ea)
      · exact ih (n := digitsValue a) ⟨ea, hda, fun h => absurd h (na ea), rfl⟩ ⟨eb, hdb, fun h => absurd h (nb eb), hv.symm⟩

theorem takeWhile_all {p : Nat → Bool} : ∀ {l : List Nat}, (∀ x ∈ l, p x = true) → l.takeWhile p = l
  | [], _ => rfl
  | x :: l, h => by
    rw [List.takeWhile_cons, if_pos (h x (by simp)), takeWhile_all (fun y hy => h y (by simp [hy]))]

theorem parseNat_decimal {ds : List Nat} {n : Nat} (h : IsDecimal ds n) (hn : n < 2 ^ 64) : parseNat ds = n := by
  unfold parseNat
  rw [takeWhile_all (fun d hd => by have := h.2.1 d hd; simp [isDigit]; omega)]
  have := h.2.2.2
  unfold digitsValue at this
  rw [this]; omega

/-! ### The shape -/

theorem joinWith_append (sep x : List Nat) : ∀ (l : List (List Nat)), l ≠ [] →
    joinWith sep (x :: l) = x ++ sep ++ joinWith sep l
  | [], h => absurd rfl h
  | y :: l, _ => rfl

theorem flatten_sep (sep : List Nat) : ∀ (l : List (List Nat)), l ≠ [] →
    (l.map fun x => x ++ sep).flatten = joinWith sep l ++ sep
  | [], h => absurd rfl h
  | [x], _ => by simp [joinWith]
  | x :: y :: l, _ => by
    rw [List.map_cons, List.flatten_cons, flatten_sep sep (y :: l) (by simp), joinWith]
    simp

theorem shapeText_eq (shape : List Nat) : shapeText shape = pyTuple (shape.map decimal) := by
  unfold shapeText pyTuple
  have hm : (shape.map fun (n : Nat) => decimal n ++ ascii [',', ' ']) = (shape.map decimal).map fun x => x ++ ascii [',', ' '] := by
    rw [List.map_map]; rfl
  match shape, hm with
  | [], _ => rfl
  | [n], _ =>
    have : ascii ['('] ++ (List.map (fun (n : Nat) => decimal n ++ ascii [',', ' ']) [n]).flatten =
        ascii ['('] ++ decimal n ++ ascii [','] ++ [32] := by
      simp [ascii]
    simp only
    rw [this, if_neg (by simp), if_pos (show [n].length = 1 from rfl)]
    have hl : (ascii ['('] ++ decimal n ++ ascii [','] ++ [32]).length - 1 = (ascii ['('] ++ decimal n ++ ascii [',']).length := by
      rw [List.length_append]; rfl
    rw [hl, List.take_left']
    · simp
    · rfl
  | n :: m :: shape, hm =>
    simp only
    rw [hm, flatten_sep _ _ (by simp), if_pos (by simp), ← List.append_assoc]
    rw [show (ascii ['('] ++ joinWith (ascii [',', ' ']) (List.map decimal (n :: m :: shape)) ++ ascii [',', ' ']).length - 2 =
      (ascii ['('] ++ joinWith (ascii [',', ' ']) (List.map decimal (n :: m :: shape))).length by
      rw [List.length_append]; show _ + 2 - 2 = _; omega, List.take_left']
    · rfl
    · rfl

theorem headerText_eq (descr : List Nat) (fortran : Bool) (shape : List Nat) :
    headerText descr fortran shape = npyDict descr fortran (shape.map decimal) := by
  unfold headerText npyDict
  rw [shapeText_eq]

/-! ### Writing -/

theorem le16 {n : Nat} (h : n < 2 ^ 16) : leValue [n % 2 ^ 16 % 256, n % 2 ^ 16 / 2 ^ 8 % 256] = n := by
  simp only [leValue]; omega

theorem le32 {n : Nat} (h : n < 2 ^ 32) : leValue [n % 2 ^ 32 % 256, n % 2 ^ 32 / 2 ^ 8 % 256, n % 2 ^ 32 / 2 ^ 16 % 256,
    n % 2 ^ 32 / 2 ^ 24 % 256] = n := by
  simp only [leValue]; omega

theorem writeHeader_spec (descr : List Nat) (fortran : Bool) (shape data : List Nat)
    (h : (headerText descr fortran shape).length < 2 ^ 31) :
    IsNpy (npyDict descr fortran (shape.map decimal)) data (writeHeader descr fortran shape ++ data) := by
  unfold writeHeader
  rw [← headerText_eq]
  generalize headerText descr fortran shape = text at *
  simp only [List.length_append, List.length_replicate, List.length_singleton]
  by_cases hv : needsV2 (text.length + 1)
  · have hp : padLen (text.length + 1) = 64 - (12 + (text.length + 1)) % 64 := by
      unfold padLen; rw [if_pos hv]
    have e := le32 (n := text.length + padLen (text.length + 1) + 1) (by omega)
    rw [if_pos hv]
    refine ⟨2, _, padLen (text.length + 1), by rfl, Or.inr ⟨rfl, rfl⟩, ?_, e, ?_⟩
    · intro b hb
      simp only [List.mem_cons, List.not_mem_nil, or_false] at hb
      omega
    · rw [e, hp]
      show (8 + 4 + _) % 64 = 0
      omega
  · have hp : padLen (text.length + 1) = 64 - (10 + (text.length + 1)) % 64 := by
      unfold padLen; rw [if_neg hv]
    have hs : 10 + (text.length + 1) < 255 * 255 := by
      have := hv; simp [needsV2] at this; omega
    have e := le16 (n := text.length + padLen (text.length + 1) + 1) (by omega)
    rw [if_neg hv]
    refine ⟨1, _, padLen (text.length + 1), by rfl, Or.inl ⟨rfl, rfl⟩, ?_, e, ?_⟩
    · intro b hb
      simp only [List.mem_cons, List.not_mem_nil, or_false] at hb
      omega
    · rw [e, hp]
      show (8 + 2 + _) % 64 = 0
      omega

/-- Byte order mark of the format. -/
def npyOrder (en : Endian) (size : Nat) : Nat :=
  if size ≤ 1 then '|'.toNat else match en with | .little => '<'.toNat | .big => '>'.toNat | .mixed => '|'.toNat

/-- **C50** (format).  What `dump_npy` writes is a file of the format: magic bytes, version, length, a dictionary with the
type, the order and the shape in decimal, blanks up to a multiple of 64 bytes, then the elements.  (The bound only
excludes shapes of half a billion axes.) -/
theorem C50_format (en : Endian) (t : NpyType) (L : Layout) (shape : List Nat) (data : List (List Nat))
    (h : (headerText (typestring en t) (decide (L = .column_major ∧ shape.length > 1)) shape).length < 2 ^ 31) :
    ∃ dims word, List.Forall₂ IsDecimal dims shape ∧ IsDecimal word t.size ∧
      IsNpy (npyDict (npyOrder en t.size :: t.kind :: word) (decide (L = .column_major ∧ shape.length > 1)) dims)
        (data.take (numel shape)).flatten (dumpNpy en t L shape data) := by
  refine ⟨shape.map decimal, decimal t.size, ?_, decimal_spec _, ?_⟩
  · rw [List.forall₂_map_left_iff, List.forall₂_same]
    exact fun n _ => decimal_spec n
  · unfold dumpNpy
    rw [foldl_mul_eq, Nat.one_mul]
    exact writeHeader_spec _ _ _ _ h

example : (dumpNpy .little ⟨'i'.toNat, 2⟩ .row_major [2] [[1, 0], [2, 1]]).take 12 =
    [0x93, 78, 85, 77, 80, 89, 1, 0, 118, 0, 123, 39] ∧
    (dumpNpy .little ⟨'i'.toNat, 2⟩ .row_major [2] [[1, 0], [2, 1]]).length = 132 := by decide +kernel

/-! ### Parsing -/

theorem filter_ne_self {c : Nat} {l : List Nat} (h : ∀ x ∈ l, x ≠ c) : l.filter (· ≠ c) = l :=
  List.filter_eq_self.2 (fun x hx => by simpa using h x hx)

theorem decimal_ne {ds : List Nat} {n c : Nat} (h : IsDecimal ds n) (hc : c < 48 ∨ 57 < c) : ∀ x ∈ ds, x ≠ c := by
  intro x hx e
  have := h.2.1 x hx
  omega

theorem mem_joinWith {sep : List Nat} {P : Nat → Prop} (hs : ∀ x ∈ sep, P x) : ∀ {l : List (List Nat)},
    (∀ t ∈ l, ∀ x ∈ t, P x) → ∀ x ∈ joinWith sep l, P x
  | [], _, x, hx => by simp [joinWith] at hx
  | [t], h, x, hx => h t (by simp) x hx
  | t :: u :: l, h, x, hx => by
    rw [joinWith] at hx
    rcases List.mem_append.1 hx with hx | hx
    · rcases List.mem_append.1 hx with hx | hx
      · exact h t (by simp) x hx
      · exact hs x hx
    · exact mem_joinWith hs (fun v hv => h v (by simp only [List.mem_cons] at hv ⊢; exact Or.inr hv)) x hx

/-- Between the parentheses after the blanks are gone. -/
def tupleBody : List (List Nat) → List Nat
  | [x] => x ++ [44]
  | xs => joinWith [44] xs

theorem filter_joinWith : ∀ {l : List (List Nat)}, (∀ t ∈ l, ∀ x ∈ t, x ≠ 32) →
    (joinWith (ascii [',', ' ']) l).filter (· ≠ 32) = joinWith [44] l
  | [], _ => rfl
  | [t], h => filter_ne_self (h t (by simp))
  | t :: u :: l, h => by
    rw [joinWith, List.filter_append, List.filter_append, filter_ne_self (h t (by simp)),
      filter_joinWith (l := u :: l) (fun v hv => h v (by simp only [List.mem_cons] at hv ⊢; exact Or.inr hv))]
    rfl

theorem filter_pyTuple {l : List (List Nat)} (h : ∀ t ∈ l, ∀ x ∈ t, x ≠ 32) :
    (pyTuple l).filter (· ≠ 32) = 40 :: (tupleBody l ++ [41]) := by
  unfold pyTuple
  rw [List.filter_append, List.filter_append]
  match l, h with
  | [], _ => rfl
  | [t], h =>
    simp only
    rw [List.filter_append, filter_ne_self (h t (by simp))]
    rfl
  | t :: u :: l, h =>
    simp only
    rw [filter_joinWith h]
    rfl

theorem splitComma_append {w rest : List Nat} (h : ∀ x ∈ w, x ≠ 44) : splitComma (w ++ 44 :: rest) = w :: splitComma rest := by
  induction w with
  | nil => rfl
  | cons c w ih =>
    rw [List.cons_append, splitComma, if_neg (show c ≠ ','.toNat from h c (by simp)), ih (fun x hx => h x (by simp [hx]))]

theorem splitComma_self {w : List Nat} (h : ∀ x ∈ w, x ≠ 44) : splitComma w = [w] := by
  induction w with
  | nil => rfl
  | cons c w ih =>
    rw [splitComma, if_neg (show c ≠ ','.toNat from h c (by simp)), ih (fun x hx => h x (by simp [hx]))]

theorem splitComma_join : ∀ {l : List (List Nat)}, l ≠ [] → (∀ t ∈ l, ∀ x ∈ t, x ≠ 44) → splitComma (joinWith [44] l) = l
  | [], h, _ => absurd rfl h
  | [t], _, h => splitComma_self (h t (by simp))
  | t :: u :: l, _, h => by
    have e : joinWith [44] (t :: u :: l) = t ++ 44 :: joinWith [44] (u :: l) := by rw [joinWith]; simp
    rw [e, splitComma_append (h t (by simp)),
      splitComma_join (l := u :: l) (by simp) (fun v hv => h v (by simp only [List.mem_cons] at hv ⊢; exact Or.inr hv))]

theorem parseDims_eq : ∀ {ds : List (List Nat)} {sh : List Nat}, List.Forall₂ IsDecimal ds sh → (∀ n ∈ sh, n < 2 ^ 64) →
    ds ≠ [] → parseDims ds = .ok sh
  | [], _, _, _, h => absurd rfl h
  | [t], _, .cons (b := n) h1 .nil, hn, _ => by
    rw [parseDims, if_neg h1.1, parseNat_decimal h1 (hn n (by simp))]
  | t :: u :: ds, _, .cons (b := n) (l₂ := sh) h1 h2, hn, _ => by
    rw [parseDims, if_neg h1.1, parseDims_eq h2 (fun m hm => hn m (by simp [hm])) (by simp), parseNat_decimal h1 (hn n (by simp))]
    · rfl
    · simp

theorem parse_tuple {ds : List (List Nat)} {sh : List Nat} (h : List.Forall₂ IsDecimal ds sh) (hn : ∀ n ∈ sh, n < 2 ^ 64) :
    parseDims (splitComma (tupleBody ds)) = .ok sh := by
  have hne : ∀ t ∈ ds, ∀ x ∈ t, x ≠ 44 := by
    intro t ht
    clear hn
    induction h with
    | nil => simp at ht
    | cons h1 h2 ih =>
      rcases List.mem_cons.1 ht with e | e
      · rw [e]; exact decimal_ne h1 (by omega)
      · exact ih e
  match ds, sh, h, hn, hne with
  | [], _, .nil, _, _ => rfl
  | [t], _, .cons (b := n) h1 .nil, hn, hne =>
    show parseDims (splitComma (t ++ 44 :: [])) = _
    rw [splitComma_append (hne t (by simp))]
    show parseDims [t, []] = _
    rw [parseDims, if_neg h1.1, parseNat_decimal h1 (hn n (by simp))]
    · rfl
    · simp
  | t :: u :: ds, sh, h, hn, hne =>
    show parseDims (splitComma (joinWith [44] (t :: u :: ds))) = _
    rw [splitComma_join (by simp) hne, parseDims_eq h hn (by simp)]

/-! ### The dictionary -/

theorem findSub_skip {c : Nat} {pat w rest : List Nat} (h : ∀ x ∈ w, x ≠ c) :
    findSub (c :: pat) (w ++ rest) = (findSub (c :: pat) rest).map (· + w.length) := by
  induction w with
  | nil => simp
  | cons x w ih =>
    rw [List.cons_append, findSub, if_neg, ih (fun y hy => h y (by simp [hy])), Option.map_map]
    · congr 1
    · have := h x (by simp)
      simp [List.isPrefixOf, Ne.symm this]

/-- `'descr':'` … `',` -/
def kvDescr (descr : List Nat) : List Nat := ascii ['\'', 'd', 'e', 's', 'c', 'r', '\'', ':', '\''] ++ descr ++ ascii ['\'']
/-- `'fortran_order':` -/
def kvFortran (fo : Bool) : List Nat :=
  ascii ['\'', 'f', 'o', 'r', 't', 'r', 'a', 'n', '_', 'o', 'r', 'd', 'e', 'r', '\'', ':'] ++
    (if fo then ascii ['T', 'r', 'u', 'e'] else ascii ['F', 'a', 'l', 's', 'e'])
/-- `'shape':(…)` -/
def kvShape (dims : List (List Nat)) : List Nat :=
  ascii ['\'', 's', 'h', 'a', 'p', 'e', '\'', ':'] ++ 40 :: (tupleBody dims ++ [41])

theorem filter_dict {descr : List Nat} {fo : Bool} {dims : List (List Nat)} (h1 : ∀ x ∈ descr, x ≠ 32)
    (h2 : ∀ t ∈ dims, ∀ x ∈ t, x ≠ 32) :
    (npyDict descr fo dims).filter (· ≠ 32) =
      123 :: (kvDescr descr ++ [44] ++ (kvFortran fo ++ [44] ++ (kvShape dims ++ [44])) ++ [125]) := by
  unfold npyDict
  simp only [List.filter_append]
  rw [filter_ne_self h1, filter_pyTuple h2]
  unfold kvDescr kvFortran kvShape
  cases fo
  · simp [ascii, List.filter_cons]
  · simp [ascii, List.filter_cons]

theorem findSub_step {pat s : List Nat} {c : Nat} (h : pat.isPrefixOf (c :: s) = false) :
    findSub pat (c :: s) = (findSub pat s).map (· + 1) := by
  rw [findSub, if_neg (by simp [h])]

theorem find_second {p1 : Nat} {pat descr X : List Nat} (h : ∀ x ∈ descr, x ≠ 39) (hd : descr.head? ≠ some p1) (hne : descr ≠ [])
    (h1 : p1 ≠ 100) (h2 : p1 ≠ 58) (h3 : p1 ≠ 44) :
    findSub (39 :: p1 :: pat) (kvDescr descr ++ [44] ++ X) =
      (findSub (39 :: p1 :: pat) X).map (· + (kvDescr descr ++ [44]).length) := by
  have e : kvDescr descr ++ [44] ++ X = 39 :: 100 :: 101 :: 115 :: 99 :: 114 :: 39 :: 58 :: 39 :: (descr ++ (39 :: 44 :: X)) := by
    simp [kvDescr, ascii]
  rw [e]
  have hq : ∀ (y : Nat) (s : List Nat), p1 ≠ y → (39 :: p1 :: pat).isPrefixOf (39 :: y :: s) = false := by
    intro y s hy; simp [List.isPrefixOf, hy]
  have hn : ∀ (y : Nat) (s : List Nat), 39 ≠ y → (39 :: p1 :: pat).isPrefixOf (y :: s) = false := by
    intro y s hy; simp [List.isPrefixOf, hy]
  rw [findSub_step (hq _ _ h1), findSub_step (hn _ _ (by omega)), findSub_step (hn _ _ (by omega)),
    findSub_step (hn _ _ (by omega)), findSub_step (hn _ _ (by omega)), findSub_step (hn _ _ (by omega)),
    findSub_step (hq _ _ h2), findSub_step (hn _ _ (by omega)), findSub_step (by
      cases descr with
      | nil => exact absurd rfl hne
      | cons y descr => exact hq _ _ (fun e => hd (by rw [e]; rfl))),
    findSub_skip h, findSub_step (hq _ _ h3), findSub_step (hn _ _ (by omega))]
  simp only [Option.map_map]
  congr 1
  funext k
  simp [kvDescr, ascii]
  omega

theorem find_third {fo : Bool} {pat X : List Nat} :
    findSub (39 :: 115 :: pat) (kvFortran fo ++ [44] ++ X) =
      (findSub (39 :: 115 :: pat) X).map (· + (kvFortran fo ++ [44]).length) := by
  cases fo
  · have e : kvFortran false ++ [44] ++ X = 39 :: ((ascii ['f', 'o', 'r', 't', 'r', 'a', 'n', '_', 'o', 'r', 'd', 'e', 'r']) ++
        (39 :: (ascii [':', 'F', 'a', 'l', 's', 'e', ','] ++ X))) := by
      simp [kvFortran, ascii]
    rw [e, findSub_step rfl, findSub_skip (by decide), findSub_step rfl, findSub_skip (by decide)]
    simp only [Option.map_map]
    congr 1
  · have e : kvFortran true ++ [44] ++ X = 39 :: ((ascii ['f', 'o', 'r', 't', 'r', 'a', 'n', '_', 'o', 'r', 'd', 'e', 'r']) ++
        (39 :: (ascii [':', 'T', 'r', 'u', 'e', ','] ++ X))) := by
      simp [kvFortran, ascii]
    rw [e, findSub_step rfl, findSub_skip (by decide), findSub_step rfl, findSub_skip (by decide)]
    simp only [Option.map_map]
    congr 1

theorem findSub_prefix {pat X : List Nat} (hne : pat ++ X ≠ []) : findSub pat (pat ++ X) = some 0 := by
  have hp : pat.isPrefixOf (pat ++ X) = true := by rw [List.isPrefixOf_iff_prefix]; exact List.prefix_append _ _
  revert hp hne
  generalize pat ++ X = Y
  intro hne hp
  cases Y with
  | nil => exact absurd rfl hne
  | cons c Y => rw [findSub, if_pos hp]

theorem popChar_append (s : List Nat) (c : Nat) : popChar c (s ++ [c]) = .ok s := by
  unfold popChar
  rw [if_neg (by simp), if_pos (by simp)]
  simp

theorem typestringOk_eq {o k : Nat} {ds : List Nat} {n : Nat} (ho : o ∈ ascii ['<', '>', '|'])
    (hk : k ∈ ascii ['i', 'f', 'u', 'c', 'b']) (hd : IsDecimal ds n) :
    typestringOk (39 :: ((o :: k :: ds) ++ [39])) = true := by
  show typestringOk (39 :: o :: k :: (ds ++ [39])) = true
  unfold typestringOk
  have h1 : ds.all isDigit = true := by
    rw [List.all_eq_true]
    intro d hd'
    have := hd.2.1 d hd'
    simp [isDigit]; omega
  have h2 : ds.isEmpty = false := by
    cases ds with
    | nil => exact absurd rfl hd.1
    | cons _ _ => rfl
  simp only [List.dropLast_concat, List.getLast?_concat, h1, h2]
  rw [List.contains_iff_mem.2 ho, List.contains_iff_mem.2 hk]
  rfl

theorem unwrapS_eq (f b : Nat) (s : List Nat) : unwrapS f b (f :: (s ++ [b])) = .ok s := by
  unfold unwrapS
  rw [if_neg (by simp), if_pos ⟨by rw [← List.cons_append, List.getLast?_concat], rfl⟩]
  simp

/-- Every dictionary of the format is parsed to what it says. -/
theorem parsePairs_eq {o k : Nat} {ds : List Nat} {n : Nat} (ho : o ∈ ascii ['<', '>', '|'])
    (hk : k ∈ ascii ['i', 'f', 'u', 'c', 'b']) (hd : IsDecimal ds n) (fo : Bool) {dims : List (List Nat)} {sh : List Nat}
    (h : List.Forall₂ IsDecimal dims sh) (hn : ∀ n ∈ sh, n < 2 ^ 64) :
    parsePairs (kvDescr (o :: k :: ds) ++ [44] ++ (kvFortran fo ++ [44] ++ (kvShape dims ++ [44]))) =
      .ok (o :: k :: ds, fo, sh) := by
  have hq : ∀ x ∈ o :: k :: ds, x ≠ 39 := by
    intro x hx
    rcases List.mem_cons.1 hx with e | hx
    · rw [e]; revert ho; generalize o = o; intro ho e; subst e; revert ho; decide
    · rcases List.mem_cons.1 hx with e | hx
      · rw [e]; intro e; subst e; revert hk; decide
      · exact decimal_ne hd (by omega) x hx
  have hf : (o :: k :: ds).head? ≠ some 102 := by
    intro e; simp at e; subst e; revert ho; decide
  have hs : (o :: k :: ds).head? ≠ some 115 := by
    intro e; simp at e; subst e; revert ho; decide
  generalize hA : kvDescr (o :: k :: ds) = A
  have e1 : findSub (ascii ['\'', 'd', 'e', 's', 'c', 'r', '\'']) (A ++ [44] ++ (kvFortran fo ++ [44] ++ (kvShape dims ++ [44]))) =
      some 0 := by
    rw [← hA]; rfl
  have e2 : findSub (ascii ['\'', 'f', 'o', 'r', 't', 'r', 'a', 'n', '_', 'o', 'r', 'd', 'e', 'r', '\''])
      (A ++ [44] ++ (kvFortran fo ++ [44] ++ (kvShape dims ++ [44]))) = some (A ++ [44]).length := by
    rw [← hA]
    refine (find_second (p1 := 102) (pat := ascii ['o', 'r', 't', 'r', 'a', 'n', '_', 'o', 'r', 'd', 'e', 'r', '\''])
      hq hf (by simp) (by omega) (by omega) (by omega)).trans ?_
    have : findSub (39 :: 102 :: ascii ['o', 'r', 't', 'r', 'a', 'n', '_', 'o', 'r', 'd', 'e', 'r', '\''])
        (kvFortran fo ++ [44] ++ (kvShape dims ++ [44])) = some 0 := rfl
    rw [this]; simp
  have e3 : findSub (ascii ['\'', 's', 'h', 'a', 'p', 'e', '\''])
      (A ++ [44] ++ (kvFortran fo ++ [44] ++ (kvShape dims ++ [44]))) =
        some ((A ++ [44]).length + (kvFortran fo ++ [44]).length) := by
    rw [← hA]
    refine (find_second (p1 := 115) (pat := ascii ['h', 'a', 'p', 'e', '\''])
      hq hs (by simp) (by omega) (by omega) (by omega)).trans ?_
    rw [find_third]
    have : findSub (39 :: 115 :: ascii ['h', 'a', 'p', 'e', '\'']) (kvShape dims ++ [44]) = some 0 := rfl
    rw [this]; simp; omega
  unfold parsePairs
  rw [e1, e2, e3]
  simp only [orThrow, Res.bind]
  have l1 : 0 < (A ++ [44]).length := by simp
  have l2 : 0 < (kvFortran fo ++ [44]).length := by simp
  rw [if_neg (by omega), List.drop_zero, Nat.sub_zero, List.take_left' rfl, List.drop_left' rfl,
    Nat.add_sub_cancel_left, List.take_left' rfl, ← List.drop_drop, List.drop_left' rfl, List.drop_left' rfl]
  simp only [show ','.toNat = 44 from rfl, popChar_append]
  have v1 : valueOf A = 39 :: ((o :: k :: ds) ++ [39]) := by rw [← hA]; rfl
  have v2 : valueOf (kvFortran fo) = if fo then ascii ['T', 'r', 'u', 'e'] else ascii ['F', 'a', 'l', 's', 'e'] := by
    cases fo <;> rfl
  have v3 : valueOf (kvShape dims) = 40 :: (tupleBody dims ++ [41]) := rfl
  rw [v1, v2, v3]
  unfold parseValues
  rw [if_neg (by rw [typestringOk_eq ho hk hd]; simp)]
  have u1 := unwrapS_eq 39 39 (o :: k :: ds)
  have u3 := unwrapS_eq 40 41 (tupleBody dims)
  simp only [show '\''.toNat = 39 from rfl, show '('.toNat = 40 from rfl, show ')'.toNat = 41 from rfl]
  rw [u1, u3]
  simp only [Res.bind, Res.map, parse_tuple h hn]
  cases fo <;> rfl

theorem parseHeader_eq {o k : Nat} {ds : List Nat} {n : Nat} (ho : o ∈ ascii ['<', '>', '|'])
    (hk : k ∈ ascii ['i', 'f', 'u', 'c', 'b']) (hd : IsDecimal ds n) (fo : Bool) {dims : List (List Nat)} {sh : List Nat}
    (h : List.Forall₂ IsDecimal dims sh) (hn : ∀ n ∈ sh, n < 2 ^ 64) (pad : Nat) :
    parseHeader (npyDict (o :: k :: ds) fo dims ++ List.replicate pad 32 ++ [10]) = .ok (o :: k :: ds, fo, sh) := by
  have hq : ∀ x ∈ o :: k :: ds, x ≠ 32 := by
    intro x hx
    rcases List.mem_cons.1 hx with e | hx
    · rw [e]; intro e; subst e; revert ho; decide
    · rcases List.mem_cons.1 hx with e | hx
      · rw [e]; intro e; subst e; revert hk; decide
      · exact decimal_ne hd (by omega) x hx
  have hds : ∀ t ∈ dims, ∀ x ∈ t, x ≠ 32 := by
    intro t ht
    clear hn
    induction h with
    | nil => simp at ht
    | cons h1 h2 ih =>
      rcases List.mem_cons.1 ht with e | e
      · rw [e]; exact decimal_ne h1 (by omega)
      · exact ih e
  unfold parseHeader
  rw [if_neg (by simp), if_neg (by rw [List.getLast?_concat]; simp), List.dropLast_concat, List.filter_append,
    filter_dict hq hds]
  have : (List.replicate pad 32).filter (· ≠ 32) = [] := by
    rw [List.filter_eq_nil_iff]
    intro x hx
    rw [List.eq_of_mem_replicate hx]; simp
  rw [this, List.append_nil]
  have u := unwrapS_eq 123 125 (kvDescr (o :: k :: ds) ++ [44] ++ (kvFortran fo ++ [44] ++ (kvShape dims ++ [44])))
  simp only [show '{'.toNat = 123 from rfl, show '}'.toNat = 125 from rfl]
  rw [u]
  exact parsePairs_eq ho hk hd fo h hn

/-! ### Loading -/

theorem readBytes_append (junk : Nat → Nat) {n : Nat} {a b : List Nat} (h : a.length = n) : readBytes junk n (a ++ b) = (a, b) := by
  unfold readBytes
  have : n - (a ++ b).length = 0 := by rw [List.length_append]; omega
  rw [this, List.take_left' h, List.drop_left' h]
  simp

theorem promote_small {sg : Bool} {b : Nat} (h : sg = false ∨ b < 128) : promote sg b = b := by
  unfold promote
  rw [if_neg]
  rintro ⟨h1, h2⟩
  rcases h with h | h
  · rw [h] at h1; simp at h1
  · omega

theorem promote_mod {sg : Bool} {b m : Nat} (hb : b < 256) (hm : m = 2 ^ 8 ∨ m = 2 ^ 24) :
    promote sg b * m % (m * 2 ^ 8) = b * m := by
  unfold promote
  rcases hm with rfl | rfl <;> split <;> omega

theorem headerLen16_eq {sg : Bool} {b0 b1 : Nat} (h0 : b0 < 256) (h1 : b1 < 256) (h : sg = false ∨ b0 < 128) :
    headerLen16 sg b0 b1 = leValue [b0, b1] := by
  unfold headerLen16
  have e : promote sg b1 * 2 ^ 8 % 2 ^ 16 = b1 * 2 ^ 8 := promote_mod (m := 2 ^ 8) h1 (Or.inl rfl)
  rw [promote_small h, e, Nat.mod_eq_of_lt (by omega), Nat.or_comm, Nat.mul_comm, ← Nat.two_pow_add_eq_or_of_lt (by omega)]
  simp only [leValue]; omega

theorem headerLen32_eq {sg : Bool} {b0 b1 b2 b3 : Nat} (h0 : b0 < 256) (h1 : b1 < 256) (h2 : b2 < 256) (h3 : b3 < 256)
    (h : sg = false ∨ (b0 < 128 ∧ b1 < 128 ∧ b2 < 128)) :
    headerLen32 sg b0 b1 b2 b3 = leValue [b0, b1, b2, b3] := by
  unfold headerLen32
  have e : promote sg b3 * 2 ^ 24 % 2 ^ 32 = b3 * 2 ^ 24 := promote_mod (m := 2 ^ 24) h3 (Or.inr rfl)
  rw [promote_small (h.imp id (·.1)), promote_small (h.imp id (·.2.1)), promote_small (h.imp id (·.2.2)), e,
    Nat.mod_eq_of_lt (show b0 < 2 ^ 32 by omega), Nat.mod_eq_of_lt (show b1 * 2 ^ 8 < 2 ^ 32 by omega),
    Nat.mod_eq_of_lt (show b2 * 2 ^ 16 < 2 ^ 32 by omega)]
  have s1 : b0 ||| b1 * 2 ^ 8 = b0 + b1 * 2 ^ 8 := by
    rw [Nat.or_comm, Nat.mul_comm, ← Nat.two_pow_add_eq_or_of_lt (by omega)]; omega
  have s2 : (b0 + b1 * 2 ^ 8) ||| b2 * 2 ^ 16 = b0 + b1 * 2 ^ 8 + b2 * 2 ^ 16 := by
    rw [Nat.or_comm, Nat.mul_comm b2, ← Nat.two_pow_add_eq_or_of_lt (by omega)]; omega
  have s3 : (b0 + b1 * 2 ^ 8 + b2 * 2 ^ 16) ||| b3 * 2 ^ 24 = b0 + b1 * 2 ^ 8 + b2 * 2 ^ 16 + b3 * 2 ^ 24 := by
    rw [Nat.or_comm, Nat.mul_comm b3, ← Nat.two_pow_add_eq_or_of_lt (by omega)]; omega
  rw [s1, s2, s3]
  simp only [leValue]; omega

/-- The bytes of the header length that the code reads through `char` without trouble. -/
def LengthBytesFit (sg : Bool) (file : List Nat) : Prop :=
  sg = false ∨ (file.getD 8 0 < 128 ∧ (file.getD 6 0 = 1 ∨ (file.getD 9 0 < 128 ∧ file.getD 10 0 < 128)))

theorem readHeader_eq {sg : Bool} {junk : Nat → Nat} {dict data file : List Nat} (h : IsNpy dict data file)
    (hf : LengthBytesFit sg file) :
    ∃ pad, readHeader sg junk file = .ok (dict ++ List.replicate pad 32 ++ [10], data) := by
  obtain ⟨v, len, pad, rfl, hv, hb, hl, -⟩ := h
  refine ⟨pad, ?_⟩
  generalize hH : dict ++ List.replicate pad 32 ++ [10] = H at *
  have hHl : H.length = leValue len := by rw [hl, ← hH]; simp; omega
  rcases hv with ⟨rfl, h2⟩ | ⟨rfl, h4⟩
  · match len, h2 with
    | [b0, b1], _ =>
      have e : readHeader sg junk ([0x93] ++ ascii ['N', 'U', 'M', 'P', 'Y'] ++ [1, 0] ++ [b0, b1] ++ H ++ data) =
          .ok (readHeader1 sg junk ([b0, b1] ++ (H ++ data))) := by
        unfold readHeader
        rw [if_neg (by simp [ascii]), if_neg (by simp [ascii, magic])]
        simp [ascii]
      rw [e]
      unfold readHeader1
      rw [readBytes_append junk (n := 2) (a := [b0, b1]) rfl]
      simp only [List.getD_cons_zero, List.getD_cons_succ]
      rw [headerLen16_eq (hb b0 (by simp)) (hb b1 (by simp)), readBytes_append junk hHl]
      rcases hf with hf | hf
      · exact Or.inl hf
      · exact Or.inr hf.1
  · match len, h4 with
    | [b0, b1, b2, b3], _ =>
      have e : readHeader sg junk ([0x93] ++ ascii ['N', 'U', 'M', 'P', 'Y'] ++ [2, 0] ++ [b0, b1, b2, b3] ++ H ++ data) =
          .ok (readHeader2 sg junk ([b0, b1, b2, b3] ++ (H ++ data))) := by
        unfold readHeader
        rw [if_neg (by simp [ascii]), if_neg (by simp [ascii, magic])]
        simp [ascii]
      rw [e]
      unfold readHeader2
      rw [readBytes_append junk (n := 4) (a := [b0, b1, b2, b3]) rfl]
      simp only [List.getD_cons_zero, List.getD_cons_succ]
      rw [headerLen32_eq (hb b0 (by simp)) (hb b1 (by simp)) (hb b2 (by simp)) (hb b3 (by simp)), readBytes_append junk hHl]
      rcases hf with hf | hf
      · exact Or.inl hf
      · rcases hf.2 with h | h
        · exact absurd h (by simp [ascii])
        · exact Or.inr ⟨hf.1, h.1, h.2⟩

/-- Element `i` of a sequence of bytes. -/
def word (size : Nat) (data : List Nat) (i : Nat) : List Nat := (data.drop (i * size)).take size

theorem mem_order (en : Endian) (n : Nat) : npyOrder en n ∈ ascii ['<', '>', '|'] := by
  unfold npyOrder
  split
  · decide
  · cases en <;> decide

theorem typestring_eq {en : Endian} {t : NpyType} {w : List Nat} (h : IsDecimal w t.size) :
    typestring en t = npyOrder en t.size :: t.kind :: w := by
  unfold typestring
  rw [isDecimal_unique (decimal_spec t.size) h]
  rfl

theorem loadNpyFile_eq {sg : Bool} {junk : Nat → Nat} {en : Endian} {t : NpyType} {fo : Bool} {dims : List (List Nat)}
    {w shape data file : List Nat} (hk : t.kind ∈ ascii ['i', 'f', 'u', 'c', 'b']) (ht : t.size < 2 ^ 64)
    (hw : IsDecimal w t.size) (hd : List.Forall₂ IsDecimal dims shape) (hn : ∀ n ∈ shape, n < 2 ^ 64)
    (hfile : IsNpy (npyDict (npyOrder en t.size :: t.kind :: w) fo dims) data file) (hf : LengthBytesFit sg file) :
    loadNpyFile sg junk file = .ok ⟨shape, fo, typestring en t, t.size,
      data.take (numel shape * t.size) ++ (List.range (numel shape * t.size - data.length)).map junk⟩ := by
  obtain ⟨pad, e⟩ := readHeader_eq (junk := junk) hfile hf
  unfold loadNpyFile
  rw [e]
  simp only [Res.bind]
  rw [parseHeader_eq (mem_order en t.size) hk hw fo hd hn pad]
  simp only [Res.map, Res.bind, foldl_mul_eq, Nat.one_mul]
  have hps : parseNat ((npyOrder en t.size :: t.kind :: w).drop 2) = t.size := parseNat_decimal hw ht
  rw [hps, typestring_eq hw]
  rfl

theorem word_take {size n i : Nat} {data : List Nat} (hi : i < n) : word size (data.take (n * size)) i = word size data i := by
  unfold word
  rw [List.drop_take, List.take_take, Nat.min_eq_left]
  have : (i + 1) * size ≤ n * size := Nat.mul_le_mul_right _ hi
  rw [Nat.succ_mul] at this
  omega

/-- **C50** (loading).  `load_npy<T, L>` of any file of the format, whatever its padding and version, whose type is `T` and
whose order is that of `L` or for dynamic `L`, gives the shape, the order and the elements of the file; what follows them
is ignored.  Missing: with a signed `char` the bytes of the header length must be below 128 (see `C50_long_header_wrong`). -/
theorem C50_load_partial (sg : Bool) (junk : Nat → Nat) (en : Endian) (t : NpyType) (L : Layout) (fo : Bool)
    (dims : List (List Nat)) (w shape data file : List Nat) (hk : t.kind ∈ ascii ['i', 'f', 'u', 'c', 'b'])
    (ht : t.size < 2 ^ 64) (hw : IsDecimal w t.size) (hd : List.Forall₂ IsDecimal dims shape) (hn : ∀ n ∈ shape, n < 2 ^ 64)
    (hfile : IsNpy (npyDict (npyOrder en t.size :: t.kind :: w) fo dims) data file)
    (hdata : numel shape * t.size ≤ data.length)
    (hL : ¬ (L = .column_major ∧ fo = false) ∧ ¬ (L = .row_major ∧ fo = true)) (hf : LengthBytesFit sg file) :
    loadNpy sg en t L junk file = .ok ⟨shape, if fo then .column_major else .row_major,
      (List.range (numel shape)).map (word t.size data)⟩ := by
  unfold loadNpy
  rw [loadNpyFile_eq hk ht hw hd hn hfile hf]
  simp only [Res.bind, castNpy, foldl_mul_eq, Nat.one_mul]
  rw [if_neg (not_not.2 rfl), if_neg (by push Not; push Not at hL; exact hL), Nat.sub_eq_zero_of_le hdata, List.range_zero,
    List.map_nil, List.append_nil]
  congr 2
  apply List.map_congr_left
  intro i hi
  rw [List.mem_range] at hi
  exact word_take hi

/-- **C50** (type and order are checked).  Loading a file as another type, or as the other order, throws. -/
theorem C50_mismatch_throws (sg : Bool) (junk : Nat → Nat) (en : Endian) (t t' : NpyType) (L : Layout) (fo : Bool)
    (dims : List (List Nat)) (w shape data file : List Nat) (hk : t.kind ∈ ascii ['i', 'f', 'u', 'c', 'b'])
    (ht : t.size < 2 ^ 64) (hw : IsDecimal w t.size) (hd : List.Forall₂ IsDecimal dims shape) (hn : ∀ n ∈ shape, n < 2 ^ 64)
    (hfile : IsNpy (npyDict (npyOrder en t.size :: t.kind :: w) fo dims) data file) (hf : LengthBytesFit sg file)
    (h : t' ≠ t ∨ (L = .column_major ∧ fo = false) ∨ (L = .row_major ∧ fo = true)) :
    loadNpy sg en t' L junk file = .throws := by
  unfold loadNpy
  rw [loadNpyFile_eq hk ht hw hd hn hfile hf]
  simp only [Res.bind, castNpy]
  by_cases e : typestring en t = typestring en t'
  · rw [if_neg (not_not.2 e), if_pos]
    rcases h with h | h
    · exfalso
      apply h
      unfold typestring at e
      simp only [List.cons.injEq] at e
      have h1 := decimal_spec t.size
      have h2 := decimal_spec t'.size
      rw [e.2.2] at h1
      have h3 : t.size = t'.size := by rw [← h1.2.2.2, h2.2.2.2]
      have h4 := e.2.1
      cases t; cases t'
      simp only at h3 h4
      rw [h3, h4]
    · exact h
  · rw [if_pos e]

theorem word_flatten {size : Nat} : ∀ {data : List (List Nat)}, (∀ x ∈ data, x.length = size) → ∀ i, i < data.length →
    word size data.flatten i = data.getD i []
  | [], _, i, h => by simp at h
  | x :: data, hx, 0, _ => by
    unfold word
    rw [Nat.zero_mul, List.drop_zero, List.flatten_cons, List.take_left' (hx x (by simp))]; rfl
  | x :: data, hx, i + 1, h => by
    have ih := word_flatten (size := size) (fun y hy => hx y (List.mem_cons_of_mem x hy)) i (by simpa using h)
    unfold word at ih ⊢
    rw [List.flatten_cons, Nat.succ_mul, Nat.add_comm, ← List.drop_drop, List.drop_left' (hx x (by simp)), ih]; rfl

theorem travRank_short {sh q : List Nat} (L M : Layout) (h : sh.length ≤ 1) (hq : InBounds sh q) :
    travRank L sh q = travRank M sh q := by
  match sh, h, q, hq with
  | [], _, [], _ => unfold travRank; split <;> split <;> rfl
  | [n], _, [i], _ => unfold travRank; split <;> split <;> simp [rowRank, colRank, numel]

/-- **C50** (round trip).  Loading what was dumped from a row-major or column-major container gives back the shape and every
element; the order is kept from two dimensions on.  Missing: with a signed `char` the bytes of the header length must be
below 128 (see `C50_long_header_wrong`). -/
theorem C50_roundtrip_partial (sg : Bool) (junk : Nat → Nat) (en : Endian) (t : NpyType) (L : Layout) (e : Buf (List Nat))
    (hk : t.kind ∈ ascii ['i', 'f', 'u', 'c', 'b']) (ht : t.size < 2 ^ 64) (hw : e.WF) (hx : ∀ x ∈ e.data, x.length = t.size)
    (hl : e.layout = .row_major ∨ e.layout = .column_major) (hn : ∀ n ∈ e.shape, n < 2 ^ 64)
    (hlen : (headerText (typestring en t) (decide (e.layout = .column_major ∧ e.shape.length > 1)) e.shape).length < 2 ^ 31)
    (hL : L = .dynamic ∨ L = if e.layout = .column_major ∧ e.shape.length > 1 then .column_major else .row_major)
    (hf : LengthBytesFit sg (dumpNpy en t e.layout e.shape e.data)) :
    ∃ e', loadNpy sg en t L junk (dumpNpy en t e.layout e.shape e.data) = .ok e' ∧ e'.shape = e.shape ∧
      (e.shape.length > 1 → e'.layout = e.layout) ∧ e'.WF ∧ ∀ q, InBounds e.shape q → e'.read q = e.read q := by
  obtain ⟨dims, w, h1, h2, h3⟩ := C50_format en t e.layout e.shape e.data hlen
  have hw' : e.data.length = numel e.shape := hw
  rw [List.take_of_length_le (by omega)] at h3
  have hfl : e.data.flatten.length = numel e.shape * t.size := by
    rw [List.length_flatten, ← hw']
    have : e.data.map List.length = List.replicate e.data.length t.size := by
      rw [List.eq_replicate_iff]; simp
      intro x hx'; exact hx x hx'
    rw [this, List.sum_replicate]; simp
  have main := C50_load_partial sg junk en t L _ dims w e.shape _ _ hk ht h2 h1 hn h3 (by omega) (by
    rcases hL with hL | hL
    · rw [hL]; simp
    · rw [hL]
      by_cases hc : e.layout = .column_major ∧ e.shape.length > 1
      · rw [if_pos hc]; simp [hc]
      · rw [if_neg hc]; simp [hc]) hf
  refine ⟨_, main, rfl, ?_, ?_, ?_⟩
  · intro hd
    rcases hl with h | h <;> simp [h, hd]
  · show (List.map _ _).length = _
    simp
  · intro q hq
    rw [Buf.read_eq _ (by exact hq), Buf.read_eq _ hq]
    have hrank : travRank (if decide (e.layout = .column_major ∧ e.shape.length > 1) = true then Layout.column_major else .row_major)
        e.shape q = travRank e.layout e.shape q := by
      by_cases hc : e.layout = .column_major ∧ e.shape.length > 1
      · simp [hc]
      · rcases hl with h | h
        · simp [h]
        · exact travRank_short _ _ (by have : ¬ e.shape.length > 1 := fun h' => hc ⟨h, h'⟩; omega) hq
    have hlt := travRank_lt e.layout hq
    show ((List.range (numel e.shape)).map (word t.size e.data.flatten)).getD (travRank _ e.shape q) default = _
    rw [hrank, List.getD_eq_getElem?_getD, List.getElem?_map, List.getElem?_range hlt]
    show word t.size e.data.flatten _ = _
    rw [word_flatten hx _ (by omega)]
    rfl

/-- Headers of at most 117 characters, as all arrays of up to eight dimensions with extents of up to five digits have, are
read correctly with either kind of `char`. -/
theorem C50_short_header_fits (en : Endian) (t : NpyType) (L : Layout) (shape : List Nat) (data : List (List Nat)) (sg : Bool)
    (h : (headerText (typestring en t) (decide (L = .column_major ∧ shape.length > 1)) shape).length ≤ 116) :
    LengthBytesFit sg (dumpNpy en t L shape data) := by
  right
  unfold dumpNpy writeHeader
  simp only []
  generalize headerText (typestring en t) (decide (L = .column_major ∧ shape.length > 1)) shape = text at *
  have hv : needsV2 (text.length + 1) = false := by simp [needsV2]; omega
  have hp : padLen (text.length + 1) = 64 - (10 + (text.length + 1)) % 64 := by
    unfold padLen; rw [hv]; rfl
  rw [if_neg (by simp [hv])]
  rw [List.append_assoc, List.append_assoc]
  refine ⟨?_, Or.inl rfl⟩
  show ((text ++ List.replicate (padLen (text.length + 1)) 32 ++ [10]).length % 2 ^ 16 % 256) < 128
  simp only [List.length_append, List.length_replicate, List.length_singleton]
  omega

/-- A header whose length has a low byte of 128 or more is not read back where `char` is signed: the byte is extended to a
length beyond 65279 and loading throws.  The array of 24 unit axes is one such. -/
theorem C50_long_header_wrong (junk : Nat → Nat) (en : Endian) (t : NpyType) (L : Layout) (b0 b1 : Nat) (rest : List Nat)
    (hb : 128 ≤ b0) (hb' : b0 < 256) (hr : rest.length < 65280) (hj : ∀ i, junk i ≠ 10) :
    loadNpy true en t L junk (magic ++ [1, 0] ++ [b0, b1] ++ rest) = .throws := by
  have e : readHeader true junk (magic ++ [1, 0] ++ [b0, b1] ++ rest) = .ok (readHeader1 true junk ([b0, b1] ++ rest)) := by
    unfold readHeader
    rw [if_neg (by simp [magic]), if_neg (by simp [magic])]
    simp [magic]
  have hN : 65280 ≤ headerLen16 true b0 b1 := by
    unfold headerLen16
    have h1 : promote true b0 % 2 ^ 16 = 65280 + b0 := by
      unfold promote; rw [if_pos ⟨rfl, hb⟩]; omega
    have := Nat.left_le_or (n := promote true b0 % 2 ^ 16) (m := promote true b1 * 2 ^ 8 % 2 ^ 16)
    omega
  unfold loadNpy loadNpyFile
  rw [e]
  simp only [Res.bind]
  unfold readHeader1
  rw [readBytes_append junk (n := 2) (a := [b0, b1]) rfl]
  simp only [List.getD_cons_zero, List.getD_cons_succ]
  generalize headerLen16 true b0 b1 = N at *
  have hp : parseHeader (readBytes junk N rest).1 = .throws := by
    unfold readBytes
    obtain ⟨m, hm⟩ : ∃ m, N - rest.length = m + 1 := ⟨N - rest.length - 1, by omega⟩
    simp only [hm]
    rw [List.range_succ, List.map_append, ← List.append_assoc]
    unfold parseHeader
    rw [if_neg (by simp), if_pos]
    show (_ ++ [junk m]).getLast? ≠ _
    rw [List.getLast?_concat]
    simp [hj m]
  rw [hp]
  rfl

example : (dumpNpy .little ⟨'f'.toNat, 8⟩ .row_major (List.replicate 24 1) [[0, 0, 0, 0, 0, 0, 0, 0]]).take 10 = magic ++ [1, 0] ++ [182, 0] ∧
    (dumpNpy .little ⟨'f'.toNat, 8⟩ .row_major (List.replicate 24 1) [[0, 0, 0, 0, 0, 0, 0, 0]]).length = 200 := by decide +kernel

/-- A file that ends before its elements do is accepted: the missing bytes are those the buffer happened to hold. -/
theorem C50_truncated_accepted (sg : Bool) (junk : Nat → Nat) (en : Endian) (t : NpyType) (fo : Bool)
    (dims : List (List Nat)) (w shape data file : List Nat) (hk : t.kind ∈ ascii ['i', 'f', 'u', 'c', 'b'])
    (ht : t.size < 2 ^ 64) (hw : IsDecimal w t.size) (hd : List.Forall₂ IsDecimal dims shape) (hn : ∀ n ∈ shape, n < 2 ^ 64)
    (hfile : IsNpy (npyDict (npyOrder en t.size :: t.kind :: w) fo dims) data file)
    (hdata : data.length < numel shape * t.size) (hf : LengthBytesFit sg file) :
    loadNpy sg en t .dynamic junk file = .ok ⟨shape, if fo then .column_major else .row_major,
      (List.range (numel shape)).map (word t.size (data ++ (List.range (numel shape * t.size - data.length)).map junk))⟩ := by
  unfold loadNpy
  rw [loadNpyFile_eq hk ht hw hd hn hfile hf]
  simp only [Res.bind, castNpy, foldl_mul_eq, Nat.one_mul]
  rw [if_neg (not_not.2 rfl), if_neg (by simp), List.take_of_length_le (by omega)]
  rfl

/-- A one-dimensional column-major array is written as row-major and cannot be loaded as column-major. -/
theorem C50_column_vector_rejected :
    loadNpy false .little ⟨'i'.toNat, 2⟩ .column_major (fun _ => 0)
      (dumpNpy .little ⟨'i'.toNat, 2⟩ .column_major [2] [[1, 0], [2, 1]]) = .throws ∧
    loadNpy false .little ⟨'i'.toNat, 2⟩ .dynamic (fun _ => 0)
      (dumpNpy .little ⟨'i'.toNat, 2⟩ .column_major [2] [[1, 0], [2, 1]]) = .ok ⟨[2], .row_major, [[1, 0], [2, 1]]⟩ := by
  decide +kernel

/-- A container of dynamic layout is written in the order of its storage, whatever its strides: with shape {2, 3} and
strides {1, 2}, element (0, 1) is the third of the storage, but the second is loaded. -/
theorem C50_custom_strides_wrong :
    ∃ e', loadNpy false .little ⟨'i'.toNat, 1⟩ .dynamic (fun _ => 0)
      (dumpNpy .little ⟨'i'.toNat, 1⟩ .dynamic [2, 3] [[10], [11], [12], [13], [14], [15]]) = .ok e' ∧
      elementOffset [1, 2] [0, 1] = 2 ∧ e'.read [0, 1] = [11] :=
  ⟨⟨[2, 3], .row_major, [[10], [11], [12], [13], [14], [15]]⟩, by decide +kernel⟩

example : loadNpy true .little ⟨'i'.toNat, 1⟩ .dynamic (fun _ => 0)
    (dumpNpy .little ⟨'i'.toNat, 1⟩ .column_major [2, 3] [[10], [11], [12], [13], [14], [15]]) =
      .ok ⟨[2, 3], .column_major, [[10], [11], [12], [13], [14], [15]]⟩ := by decide +kernel

/-! ## What is rejected -/

/-- C50: a file is only accepted if it starts with the six magic bytes and a version that is known, 1.0 or 2.0. -/
theorem C50_preamble_required (sg : Bool) (junk : Nat → Nat) (en : Endian) (t : NpyType) (L : Layout) (file : List Nat)
    {e : Buf (List Nat)} (h : loadNpy sg en t L junk file = .ok e) :
    ∃ v rest, (v = 1 ∨ v = 2) ∧ file = [0x93] ++ ascii ['N', 'U', 'M', 'P', 'Y'] ++ [v, 0] ++ rest := by
  have key : ∃ r, readHeader sg junk file = .ok r := by
    unfold loadNpy loadNpyFile at h
    cases hr : readHeader sg junk file with
    | ok r => exact ⟨r, rfl⟩
    | throws =>
      rw [hr] at h
      cases h
    | ub =>
      rw [hr] at h
      cases h
  obtain ⟨r, hr⟩ := key
  rw [readHeader] at hr
  by_cases h1 : file.length < 8
  · rw [if_pos h1] at hr
    cases hr
  rw [if_neg h1] at hr
  by_cases h2 : file.take 6 ≠ magic
  · rw [if_pos h2] at hr
    cases hr
  rw [if_neg h2] at hr
  have h2' : file.take 6 = magic := not_not.1 h2
  have hsplit : file = magic ++ [file.getD 6 0, file.getD 7 0] ++ file.drop 8 := by
    rw [← h2']
    have e6 : file.drop 6 = file.getD 6 0 :: file.drop 7 := by
      rw [List.drop_eq_getElem_cons (by omega), List.getD_eq_getElem?_getD, List.getElem?_eq_getElem (by omega)]
      rfl
    have e7 : file.drop 7 = file.getD 7 0 :: file.drop 8 := by
      rw [List.drop_eq_getElem_cons (by omega), List.getD_eq_getElem?_getD, List.getElem?_eq_getElem (by omega)]
      rfl
    conv => lhs; rw [← List.take_append_drop 6 file, e6, e7]
    simp
  by_cases h3 : file.getD 6 0 = 1 ∧ file.getD 7 0 = 0
  · rw [h3.1, h3.2] at hsplit
    exact ⟨1, file.drop 8, Or.inl rfl, hsplit⟩
  rw [if_neg h3] at hr
  by_cases h4 : file.getD 6 0 = 2 ∧ file.getD 7 0 = 0
  · rw [h4.1, h4.2] at hsplit
    exact ⟨2, file.drop 8, Or.inr rfl, hsplit⟩
  rw [if_neg h4] at hr
  cases hr

/-- C50: a type string is a quoted byte order, letter and word size of at least one digit. -/
theorem C50_typestring_form (d : List Nat) :
    typestringOk d = true ↔ ∃ o k w, d = '\''.toNat :: o :: k :: (w ++ ['\''.toNat]) ∧ o ∈ ascii ['<', '>', '|'] ∧
      k ∈ ascii ['i', 'f', 'u', 'c', 'b'] ∧ w ≠ [] ∧ ∀ c ∈ w, 48 ≤ c ∧ c ≤ 57 := by
  constructor
  · intro h
    match d, h with
    | q :: o :: k :: ds, h =>
      simp only [typestringOk, Bool.and_eq_true, decide_eq_true_eq, Bool.not_eq_true', List.all_eq_true] at h
      obtain ⟨⟨⟨⟨⟨h1, h2⟩, h3⟩, h4⟩, h5⟩, h6⟩ := h
      have hne : ds ≠ [] := by
        rintro rfl
        cases h4
      refine ⟨o, k, ds.dropLast, ?_, ?_, ?_, ?_, ?_⟩
      · rw [h1]
        congr 3
        rw [List.getLast?_eq_getLast_of_ne_nil hne, Option.some.injEq] at h4
        rw [← h4, List.dropLast_concat_getLast]
      · exact List.contains_iff_mem.1 h2
      · exact List.contains_iff_mem.1 h3
      · intro e
        rw [e] at h5
        cases h5
      · intro c hc
        have := h6 c hc
        simpa [isDigit] using this
  · rintro ⟨o, k, w, rfl, ho, hk, hw, hd⟩
    simp only [typestringOk, List.getLast?_concat, List.dropLast_concat, decide_true, Bool.true_and, Bool.and_eq_true,
      Bool.and_true]
    refine ⟨⟨⟨List.contains_iff_mem.2 ho, List.contains_iff_mem.2 hk⟩, ?_⟩, ?_⟩
    · cases w with
      | nil => exact absurd rfl hw
      | cons _ _ => rfl
    · rw [List.all_eq_true]
      intro c hc
      simpa [isDigit] using hd c hc

example : typestringOk ('\''.toNat :: '<'.toNat :: 'f'.toNat :: ([49, 54] ++ ['\''.toNat])) = true := by decide

theorem splitComma_ne (s : List Nat) : splitComma s ≠ [] := by
  cases s with
  | nil => simp [splitComma]
  | cons c s =>
    rw [splitComma]
    split
    · simp
    · split <;> simp

theorem splitComma_double (a b : List Nat) :
    ∃ pre post, splitComma (a ++ [','.toNat, ','.toNat] ++ b) = pre ++ [] :: post ∧ post ≠ [] ∧ pre ≠ [] := by
  induction a with
  | nil => exact ⟨[[]], splitComma b, rfl, splitComma_ne b, by simp⟩
  | cons c a ih =>
    obtain ⟨pre, post, h, hp, hq⟩ := ih
    rw [List.cons_append, List.cons_append, splitComma, h]
    cases pre with
    | nil => exact absurd rfl hq
    | cons t ts =>
      split
      · exact ⟨[] :: t :: ts, post, rfl, hp, by simp⟩
      · exact ⟨(c :: t) :: ts, post, rfl, hp, by simp⟩

theorem parseDims_empty (pre post : List (List Nat)) (hp : post ≠ []) : parseDims (pre ++ [] :: post) = .throws := by
  induction pre with
  | nil =>
    cases post with
    | nil => exact absurd rfl hp
    | cons p ps => simp [parseDims]
  | cons t ts ih =>
    cases hts : ts ++ [] :: post with
    | nil => simp at hts
    | cons u us =>
      rw [hts] at ih
      rw [List.cons_append, hts, parseDims, ih]
      · split <;> rfl
      · simp

/-- C50: a shape with an extent left out is rejected, whatever else the dictionary says. -/
theorem C50_missing_extent_rejected (d f a b : List Nat) :
    parseValues d f (['('.toNat] ++ (a ++ [','.toNat, ','.toNat] ++ b) ++ [')'.toNat]) = .throws := by
  unfold parseValues
  by_cases ht : typestringOk d = true
  · rw [if_neg (not_not.2 ht)]
    obtain ⟨o, k, w, rfl, -⟩ := (C50_typestring_form d).1 ht
    have hu : unwrapS '\''.toNat '\''.toNat ('\''.toNat :: o :: k :: (w ++ ['\''.toNat])) = .ok (o :: k :: w) := by
      unfold unwrapS
      rw [if_neg (by simp), if_pos]
      · rw [List.drop_one, List.tail_cons]
        rw [show o :: k :: (w ++ ['\''.toNat]) = (o :: k :: w) ++ ['\''.toNat] from rfl, List.dropLast_concat]
      · refine ⟨?_, rfl⟩
        rw [show '\''.toNat :: o :: k :: (w ++ ['\''.toNat]) = ('\''.toNat :: o :: k :: w) ++ ['\''.toNat] from rfl,
          List.getLast?_concat]
    rw [hu, Res.bind_ok]
    have hv : unwrapS '('.toNat ')'.toNat (['('.toNat] ++ (a ++ [','.toNat, ','.toNat] ++ b) ++ [')'.toNat]) =
        .ok (a ++ [','.toNat, ','.toNat] ++ b) := by
      unfold unwrapS
      rw [if_neg (by simp), if_pos ⟨List.getLast?_concat, rfl⟩]
      rw [List.append_assoc, List.singleton_append, List.drop_one, List.tail_cons, List.dropLast_concat]
    obtain ⟨pre, post, hs, hp, -⟩ := splitComma_double a b
    have hpb : parseBool f = .throws ∨ ∃ x, parseBool f = .ok x := by
      unfold parseBool
      split
      · exact Or.inr ⟨_, rfl⟩
      · split
        · exact Or.inr ⟨_, rfl⟩
        · exact Or.inl rfl
    rcases hpb with hb | ⟨x, hb⟩
    · rw [hb]
      rfl
    · rw [hb, Res.bind_ok, hv, Res.bind_ok, hs, parseDims_empty pre post hp]
      rfl
  · rw [if_pos ht]

theorem findSub_spec (pat : List Nat) : ∀ (s : List Nat) (k : Nat), findSub pat s = some k → pat <+: s.drop k
  | [], k, h => by
    rw [findSub] at h
    split at h
    · next hp => rw [hp]; exact List.nil_prefix
    · cases h
  | c :: s, k, h => by
    rw [findSub] at h
    split at h
    · next hp =>
      rw [Option.some.injEq] at h
      subst h
      exact List.isPrefixOf_iff_prefix.1 hp
    · cases hk : findSub pat s with
      | none =>
        rw [hk] at h
        cases h
      | some k' =>
        rw [hk, Option.map_some, Option.some.injEq] at h
        subst h
        exact findSub_spec pat s k' hk

/-- C50: a dictionary is only accepted if it has the three keys in the order in which they are written. -/
theorem C50_keys_required (h : List Nat) {r : List Nat × Bool × List Nat} (hr : parsePairs h = .ok r) :
    ∃ kd kf ks, kd < kf ∧ kf < ks ∧ ascii ['\'', 'd', 'e', 's', 'c', 'r', '\''] <+: h.drop kd ∧
      ascii ['\'', 'f', 'o', 'r', 't', 'r', 'a', 'n', '_', 'o', 'r', 'd', 'e', 'r', '\''] <+: h.drop kf ∧
      ascii ['\'', 's', 'h', 'a', 'p', 'e', '\''] <+: h.drop ks := by
  unfold parsePairs at hr
  cases h1 : findSub (ascii ['\'', 'd', 'e', 's', 'c', 'r', '\'']) h with
  | none => rw [h1] at hr; cases hr
  | some kd =>
    rw [h1] at hr
    cases h2 : findSub (ascii ['\'', 'f', 'o', 'r', 't', 'r', 'a', 'n', '_', 'o', 'r', 'd', 'e', 'r', '\'']) h with
    | none => rw [h2] at hr; cases hr
    | some kf =>
      rw [h2] at hr
      cases h3 : findSub (ascii ['\'', 's', 'h', 'a', 'p', 'e', '\'']) h with
      | none => rw [h3] at hr; cases hr
      | some ks =>
        rw [h3] at hr
        simp only [orThrow, Res.bind_ok] at hr
        by_cases hc : kd ≥ kf ∨ kf ≥ ks
        · rw [if_pos hc] at hr
          cases hr
        · exact ⟨kd, kf, ks, by omega, by omega, findSub_spec _ _ _ h1, findSub_spec _ _ _ h2, findSub_spec _ _ _ h3⟩

end Xt
