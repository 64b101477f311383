import Verif.Model.Print
import Verif.Spec.Print
import Verif.Spec.Npy
import Verif.Lemmas.Index
import Verif.Lemmas.Strides
import Verif.Props.Npy
import Verif.Props.Csv
/-!
# C71: printed arrays show the elements at their places
-/

namespace Xt
open Spec

theorem sizePred_pos {n : Nat} (h : 0 < n) (hn : n < 2 ^ 64) : sizePred n = n - 1 := by
  unfold sizePred
  have : n + (2 ^ 64 - 1) = (n - 1) + 2 ^ 64 := by omega
  rw [this, Nat.add_mod_right, Nat.mod_eq_of_lt (by omega)]

attribute [local irreducible] sizePred

/-- The extents for which the loops end: positive, and not longer than two if one item is shown at each end. -/
def Printable (lim n : Nat) : Prop := 0 < n ∧ n < 2 ^ 64 ∧ (lim = 1 → n ≤ 2)

/-! ### The cache -/

theorem recurserLoop_steps {β : Type} (n lim : Nat) (body : Nat → List β → Res (List β)) (v : Nat → List β)
    (hb : ∀ i < n, ∀ c, body i c = .ok (c ++ v i)) (hn : 0 < n) (hn' : n < 2 ^ 64) :
    ∀ (k i fuel : Nat) (c : List β), i + k ≤ n - 1 → k ≤ fuel →
      (∀ j, i ≤ j → j < i + k → ¬(lim ≠ 0 ∧ n > lim * 2 ∧ j = lim)) →
      recurserLoop n lim body fuel i c = recurserLoop n lim body (fuel - k) (i + k) (c ++ (List.range' i k).flatMap v)
  | 0, i, fuel, c, _, _, _ => by simp
  | k + 1, i, fuel, c, hik, hf, hj => by
    obtain ⟨fuel, rfl⟩ : ∃ f, fuel = f + 1 := ⟨fuel - 1, by omega⟩
    have h1 : i ≠ sizePred n := by rw [sizePred_pos hn hn']; omega
    have h2 := hj i (by omega) (by omega)
    conv => lhs; unfold recurserLoop
    simp only [if_neg h1, if_neg h2]
    rw [hb i (by omega), Res.bind_ok,
      recurserLoop_steps n lim body v hb hn hn' k (i + 1) fuel _ (by omega) (by omega)
        (fun j h h' => hj j (by omega) (by omega))]
    rw [List.range'_succ, List.flatMap_cons, List.append_assoc]
    congr 1
    · omega
    · omega

theorem recurserLoop_end {β : Type} (n lim : Nat) (body : Nat → List β → Res (List β)) (hn : 0 < n) (hn' : n < 2 ^ 64)
    (fuel : Nat) (c : List β) : recurserLoop n lim body fuel (n - 1) c = .ok (n - 1, c) := by
  cases fuel <;> unfold recurserLoop <;> rw [if_pos (sizePred_pos hn hn').symm]

theorem shown_filterMap (n lim : Nat) : (shown n lim).filterMap id =
    if lim = 0 ∨ n ≤ 2 * lim then List.range n else List.range lim ++ List.range' (n - lim) lim := by
  unfold shown
  split
  · simp [List.filterMap_map]
  · simp [List.filterMap_map]

/-- The loop of `recurser_run` and the item after it. -/
theorem recurserLoop_eq {β : Type} (n lim : Nat) (body : Nat → List β → Res (List β)) (v : Nat → List β)
    (hb : ∀ i < n, ∀ c, body i c = .ok (c ++ v i)) (hp : Printable lim n) (c : List β) :
    (recurserLoop n lim body n 0 c).bind (fun r => body r.1 r.2)
      = .ok (c ++ ((shown n lim).filterMap id).flatMap v) := by
  obtain ⟨hn, hn', hl⟩ := hp
  rw [shown_filterMap]
  by_cases h : lim = 0 ∨ n ≤ 2 * lim
  · rw [if_pos h, recurserLoop_steps n lim body v hb hn hn' (n - 1) 0 n c (by omega) (by omega) (fun j _ _ => by omega),
      Nat.zero_add, recurserLoop_end n lim body hn hn', Res.bind_ok, hb (n - 1) (by omega), List.append_assoc]
    congr 2
    obtain ⟨m, rfl⟩ : ∃ m, n = m + 1 := ⟨n - 1, by omega⟩
    rw [List.range_eq_range', Nat.add_sub_cancel, List.range'_concat]
    simp
  · rw [if_neg h, recurserLoop_steps n lim body v hb hn hn' lim 0 n c (by omega) (by omega) (fun j _ _ => by omega),
      Nat.zero_add]
    obtain ⟨fuel, hf⟩ : ∃ f, n - lim = f + 1 := ⟨n - lim - 1, by omega⟩
    conv => lhs; rw [hf]; unfold recurserLoop
    have h1 : lim ≠ sizePred n := by rw [sizePred_pos hn hn']; omega
    have h2 : lim ≠ 0 ∧ n > lim * 2 ∧ True := ⟨by omega, by omega, trivial⟩
    simp only [if_neg h1, if_pos h2]
    rw [hb (n - lim) (by omega), Res.bind_ok,
      recurserLoop_steps n lim body v hb hn hn' (lim - 2) (n - lim + 1) fuel _ (by omega) (by omega)
        (fun j _ _ => by omega)]
    have h3 : n - lim + 1 + (lim - 2) = n - 1 := by omega
    rw [h3, recurserLoop_end n lim body hn hn', Res.bind_ok, hb (n - 1) (by omega)]
    simp only [List.append_assoc, List.flatMap_append, List.range_eq_range']
    congr 3
    obtain ⟨m, rfl⟩ : ∃ m, lim = m + 2 := ⟨lim - 2, by omega⟩
    rw [List.range'_succ, List.range'_concat, List.flatMap_cons, List.flatMap_append]
    have h4 : n - (m + 2) + 1 + 1 * m = n - 1 := by omega
    rw [h4]
    simp

theorem recurserRun_eq {β : Type} (shape : List Nat) (e : List Nat → β) (lim : Nat) :
    ∀ (sh pre : List Nat) (cache : List β), (∀ n ∈ sh, Printable lim n) →
      (∀ j, InBounds sh j → InBounds shape (pre ++ j)) →
      recurserRun shape e lim sh pre cache = .ok (cache ++ (shownIndices lim sh).map fun j => e (pre ++ j))
  | [], pre, cache, _, hin => by
    have := hin [] trivial
    rw [List.append_nil] at this
    simp [recurserRun, elementAt, this, shownIndices]
  | n :: sh, pre, cache, hp, hin => by
    have ih : ∀ i < n, ∀ c, recurserRun shape e lim sh (pre ++ [i]) c
        = .ok (c ++ (shownIndices lim sh).map fun j => e (pre ++ i :: j)) := by
      intro i hi c
      rw [recurserRun_eq shape e lim sh (pre ++ [i]) c (fun m hm => hp m (by simp [hm]))
        (fun j hj => by
          have := hin (i :: j) ⟨hi, hj⟩
          simpa using this)]
      simp
    unfold recurserRun
    have := recurserLoop_eq n lim (fun i c => recurserRun shape e lim sh (pre ++ [i]) c)
      (fun i => (shownIndices lim sh).map fun j => e (pre ++ i :: j)) ih (hp n (by simp)) cache
    rw [this]
    simp only [shownIndices, List.map_flatMap, List.map_map]
    rfl

/-! ### The text -/

/-- Parts each followed by a comma. -/
def Items {ρ : Type} (part : ρ → List Nat → Prop) : List ρ → List Nat → Prop
  | [], t => AllBlank t
  | r :: rs, t => ∃ ws p t', t = ws ++ p ++ [44] ++ t' ∧ AllBlank ws ∧ part r p ∧ Items part rs t'

theorem allBlank_append {a b : List Nat} (ha : AllBlank a) (hb : AllBlank b) : AllBlank (a ++ b) := by
  intro c hc
  rcases List.mem_append.1 hc with h | h
  · exact ha c h
  · exact hb c h

theorem allBlank_nil : AllBlank [] := by intro c hc; simp at hc

theorem allBlank_newLine (b : Nat) : AllBlank (newLine b) := by
  intro c hc
  simp only [newLine, List.mem_cons, List.mem_replicate] at hc
  omega

theorem Items.blank {ρ : Type} {part : ρ → List Nat → Prop} {w : List Nat} (hw : AllBlank w) :
    ∀ {rs : List ρ} {t : List Nat}, Items part rs t → Items part rs (w ++ t)
  | [], _, h => allBlank_append hw h
  | r :: rs, t, ⟨ws, p, t', h1, h2, h3, h4⟩ => ⟨w ++ ws, p, t', by rw [h1]; simp, allBlank_append hw h2, h3, h4⟩

theorem Items.append {ρ : Type} {part : ρ → List Nat → Prop} :
    ∀ {rs rs' : List ρ} {t t' : List Nat}, Items part rs t → Items part rs' t' → Items part (rs ++ rs') (t ++ t')
  | [], rs', t, t', h, h' => Items.blank h h'
  | r :: rs, rs', t, t', ⟨ws, p, u, h1, h2, h3, h4⟩, h' =>
    ⟨ws, p, u ++ t', by rw [h1]; simp, h2, h3, Items.append h4 h'⟩

theorem Items.separated {ρ : Type} {part : ρ → List Nat → Prop} (r' : ρ) (p' w' : List Nat) (hw' : AllBlank w')
    (hp' : part r' p') : ∀ {rs : List ρ} {t : List Nat}, Items part rs t → Separated part (rs ++ [r']) (t ++ w' ++ p')
  | [], t, h => ⟨t ++ w', p', rfl, allBlank_append h hw', hp'⟩
  | [r], t, ⟨ws, p, u, h1, h2, h3, h4⟩ =>
    ⟨ws, p, u ++ w' ++ p', by rw [h1]; simp, h2, h3, Items.separated r' p' w' hw' hp' (rs := []) h4⟩
  | r :: r2 :: rs, t, ⟨ws, p, u, h1, h2, h3, h4⟩ =>
    ⟨ws, p, u ++ w' ++ p', by rw [h1]; simp, h2, h3, Items.separated r' p' w' hw' hp' (rs := r2 :: rs) h4⟩

theorem breakLine_spec {β : Type} (oneD : Bool) (lineLim blanks : Nat) (s : PrintState β × Nat) :
    ∃ ws k, breakLine oneD lineLim blanks s = (s.1.put ws, k) ∧ AllBlank ws := by
  unfold breakLine
  split
  · exact ⟨newLine blanks, 0, rfl, allBlank_newLine _⟩
  · exact ⟨[], s.2, by simp [PrintState.put], allBlank_nil⟩

theorem putComma_spec {β : Type} (oneD : Bool) (lineLim blanks elems : Nat) (s : PrintState β) :
    ∃ ws k, putComma oneD lineLim blanks elems s = (s.put ([44] ++ ws), k) ∧ AllBlank ws := by
  unfold putComma
  simp only []
  split
  · exact ⟨[32], elems + 1, rfl, by intro c hc; simp at hc; omega⟩
  · split
    · exact ⟨newLine blanks, elems + 1, rfl, allBlank_newLine _⟩
    · exact ⟨[], elems + 1, rfl, allBlank_nil⟩

theorem putEllipsis_spec {β : Type} (oneD : Bool) (lineLim blanks : Nat) (s : PrintState β × Nat) :
    ∃ ws ws' k, putEllipsis oneD lineLim blanks s = (s.1.put (ws ++ [46, 46, 46] ++ [44] ++ ws'), k) ∧ AllBlank ws ∧
      AllBlank ws' := by
  have hb : AllBlank [32] := by intro c hc; simp at hc; omega
  unfold putEllipsis
  split
  · exact ⟨[32], [], s.2, by simp [PrintState.put], hb, allBlank_nil⟩
  · split
    · exact ⟨[], newLine blanks, 0, by simp [PrintState.put], allBlank_nil, allBlank_newLine _⟩
    · exact ⟨[], [32], s.2, by simp [PrintState.put], allBlank_nil, hb⟩

/-- What printing the item `i` does, when its values come next: an item is written, the values are used up. -/
def SubPrints {β : Type} (sub : PrintState β → Res (PrintState β)) (vals : List β) (item : List Nat → Prop) : Prop :=
  ∀ out rest, ∃ t, sub ⟨out, vals ++ rest⟩ = .ok ⟨out ++ t, rest⟩ ∧ item t

theorem outputLoop_steps {β : Type} (n lim : Nat) (oneD : Bool) (lineLim blanks : Nat)
    (sub : PrintState β → Res (PrintState β)) (v : Nat → List β) (item : Nat → List Nat → Prop)
    (hb : ∀ i < n, SubPrints sub (v i) (item i)) (hn : 0 < n) (hn' : n < 2 ^ 64) :
    ∀ (k i fuel : Nat) (out : List Nat) (rest : List β) (el : Nat), i + k ≤ n - 1 → k ≤ fuel →
      (∀ j, i ≤ j → j < i + k → ¬(lim ≠ 0 ∧ n > lim * 2 ∧ j = lim)) →
      ∃ t el', Items (IsPart item) ((List.range' i k).map some) t ∧
        outputLoop n lim oneD lineLim blanks sub fuel i (⟨out, (List.range' i k).flatMap v ++ rest⟩, el)
          = outputLoop n lim oneD lineLim blanks sub (fuel - k) (i + k) (⟨out ++ t, rest⟩, el')
  | 0, i, fuel, out, rest, el, _, _, _ => ⟨[], el, allBlank_nil, by simp⟩
  | k + 1, i, fuel, out, rest, el, hik, hf, hj => by
    obtain ⟨fuel, rfl⟩ : ∃ f, fuel = f + 1 := ⟨fuel - 1, by omega⟩
    have h1 : i ≠ sizePred n := by rw [sizePred_pos hn hn']; omega
    have h2 := hj i (by omega) (by omega)
    obtain ⟨ws, el1, hbr, hws⟩ := breakLine_spec oneD lineLim blanks
      ((⟨out, (List.range' i (k + 1)).flatMap v ++ rest⟩ : PrintState β), el)
    obtain ⟨p, hsub, hitem⟩ := hb i (by omega) (out ++ ws) ((List.range' (i + 1) k).flatMap v ++ rest)
    obtain ⟨ws2, el2, hco, hws2⟩ := putComma_spec oneD lineLim blanks el1
      (⟨out ++ ws ++ p, (List.range' (i + 1) k).flatMap v ++ rest⟩ : PrintState β)
    obtain ⟨t, el', hit, hrec⟩ := outputLoop_steps n lim oneD lineLim blanks sub v item hb hn hn' k (i + 1) fuel
      (out ++ ws ++ p ++ ([44] ++ ws2)) rest el2 (by omega) (by omega) (fun j h h' => hj j (by omega) (by omega))
    refine ⟨ws ++ p ++ [44] ++ (ws2 ++ t), el', ?_, ?_⟩
    · rw [List.range'_succ, List.map_cons]
      exact ⟨ws, p, ws2 ++ t, rfl, hws, hitem, Items.blank hws2 hit⟩
    · conv => lhs; unfold outputLoop
      simp only [if_neg h1, if_neg h2]
      rw [hbr]
      simp only [PrintState.put]
      rw [List.range'_succ, List.flatMap_cons, List.append_assoc, hsub, Res.bind_ok, hco]
      simp only [PrintState.put]
      rw [hrec]
      have e1 : fuel + 1 - (k + 1) = fuel - k := by omega
      have e2 : i + (k + 1) = i + 1 + k := by omega
      rw [e1, e2]
      simp [List.append_assoc]

theorem outputLoop_end {β : Type} (n lim : Nat) (oneD : Bool) (lineLim blanks : Nat)
    (sub : PrintState β → Res (PrintState β)) (hn : 0 < n) (hn' : n < 2 ^ 64) (fuel : Nat) (s : PrintState β × Nat) :
    outputLoop n lim oneD lineLim blanks sub fuel (n - 1) s = .ok (n - 1, s) := by
  cases fuel <;> unfold outputLoop <;> rw [if_pos (sizePred_pos hn hn').symm]

/-- The loop of `xoutput` writes all shown parts but the last, each with its comma. -/
theorem outputLoop_eq {β : Type} (n lim : Nat) (oneD : Bool) (lineLim blanks : Nat)
    (sub : PrintState β → Res (PrintState β)) (v : Nat → List β) (item : Nat → List Nat → Prop)
    (hb : ∀ i < n, SubPrints sub (v i) (item i)) (hp : Printable lim n) (out : List Nat) (rest : List β) :
    ∃ rs t el, shown n lim = rs ++ [some (n - 1)] ∧ Items (IsPart item) rs t ∧
      outputLoop n lim oneD lineLim blanks sub n 0 (⟨out, ((shown n lim).filterMap id).flatMap v ++ rest⟩, 0)
        = .ok (n - 1, (⟨out ++ t, v (n - 1) ++ rest⟩, el)) := by
  obtain ⟨hn, hn', hl⟩ := hp
  rw [shown_filterMap]
  unfold shown
  by_cases h : lim = 0 ∨ n ≤ 2 * lim
  · rw [if_pos h, if_pos h]
    have hr : List.range n = List.range' 0 (n - 1) ++ [n - 1] := by
      obtain ⟨m, rfl⟩ : ∃ m, n = m + 1 := ⟨n - 1, by omega⟩
      rw [List.range_eq_range', Nat.add_sub_cancel, List.range'_concat]
      simp
    obtain ⟨t, el, h1, h2⟩ := outputLoop_steps n lim oneD lineLim blanks sub v item hb hn hn' (n - 1) 0 n out
      (v (n - 1) ++ rest) 0 (by omega) (by omega) (fun j _ _ => by omega)
    refine ⟨(List.range' 0 (n - 1)).map some, t, el, by rw [hr]; simp, h1, ?_⟩
    rw [hr, List.flatMap_append, List.append_assoc, List.flatMap_cons, List.flatMap_nil, List.append_nil, h2, Nat.zero_add,
      outputLoop_end n lim oneD lineLim blanks sub hn hn']
  · rw [if_neg h, if_neg h]
    obtain ⟨m, hm⟩ : ∃ m, lim = m + 2 := ⟨lim - 2, by omega⟩
    have hr : List.range' (n - lim) lim = (n - lim) :: (List.range' (n - lim + 1) m ++ [n - 1]) := by
      rw [hm, List.range'_succ, List.range'_concat]
      have : n - (m + 2) + 1 + 1 * m = n - 1 := by omega
      rw [this]
    obtain ⟨t, el, h1, h2⟩ := outputLoop_steps n lim oneD lineLim blanks sub v item hb hn hn' lim 0 n out
      (v (n - lim) ++ ((List.range' (n - lim + 1) m).flatMap v ++ (v (n - 1) ++ rest))) 0 (by omega) (by omega)
      (fun j _ _ => by omega)
    obtain ⟨w1, w2, el1, he, hw1, hw2⟩ := putEllipsis_spec oneD lineLim blanks
      ((⟨out ++ t, v (n - lim) ++ ((List.range' (n - lim + 1) m).flatMap v ++ (v (n - 1) ++ rest))⟩ : PrintState β), el)
    obtain ⟨w3, el2, hbr, hw3⟩ := breakLine_spec oneD lineLim blanks
      ((⟨out ++ t ++ (w1 ++ [46, 46, 46] ++ [44] ++ w2),
        v (n - lim) ++ ((List.range' (n - lim + 1) m).flatMap v ++ (v (n - 1) ++ rest))⟩ : PrintState β), el1)
    obtain ⟨p, hsub, hitem⟩ := hb (n - lim) (by omega) (out ++ t ++ (w1 ++ [46, 46, 46] ++ [44] ++ w2) ++ w3)
      ((List.range' (n - lim + 1) m).flatMap v ++ (v (n - 1) ++ rest))
    obtain ⟨w4, el3, hco, hw4⟩ := putComma_spec oneD lineLim blanks el2
      (⟨out ++ t ++ (w1 ++ [46, 46, 46] ++ [44] ++ w2) ++ w3 ++ p,
        (List.range' (n - lim + 1) m).flatMap v ++ (v (n - 1) ++ rest)⟩ : PrintState β)
    obtain ⟨fuel, hf⟩ : ∃ f, n - lim = f + 1 := ⟨n - lim - 1, by omega⟩
    obtain ⟨t', el4, h3, h4⟩ := outputLoop_steps n lim oneD lineLim blanks sub v item hb hn hn' m (n - lim + 1) fuel
      (out ++ t ++ (w1 ++ [46, 46, 46] ++ [44] ++ w2) ++ w3 ++ p ++ ([44] ++ w4)) (v (n - 1) ++ rest) el3 (by omega)
      (by omega) (fun j _ _ => by omega)
    refine ⟨(List.range lim).map some ++ ([none] ++ ((n - lim) :: List.range' (n - lim + 1) m).map
      (fun i => if i = 0 ∧ False then none else some i)),
      t ++ (w1 ++ [46, 46, 46] ++ [44] ++ (w2 ++ (w3 ++ p ++ [44] ++ (w4 ++ t')))), el4, ?_, ?_, ?_⟩
    · rw [hr]; simp
    · rw [List.range_eq_range']
      refine Items.append h1 ⟨w1, [46, 46, 46], _, rfl, hw1, rfl, Items.blank hw2 ⟨w3, p, _, rfl, hw3, ?_, Items.blank hw4 ?_⟩⟩
      · simpa [IsPart] using hitem
      · simpa using h3
    · have h0 : List.flatMap v (List.range lim ++ List.range' (n - lim) lim) ++ rest
          = (List.range' 0 lim).flatMap v ++
            (v (n - lim) ++ ((List.range' (n - lim + 1) m).flatMap v ++ (v (n - 1) ++ rest))) := by
        rw [hr, List.range_eq_range']; simp
      rw [h0, h2, Nat.zero_add]
      conv => lhs; rw [show n - lim = fuel + 1 from hf]
      unfold outputLoop
      have g1 : lim ≠ sizePred n := by rw [sizePred_pos hn hn']; omega
      have g2 : lim ≠ 0 ∧ n > lim * 2 ∧ True := ⟨by omega, by omega, trivial⟩
      simp only [if_neg g1, if_pos g2]
      rw [← hf, he]
      simp only [PrintState.put] at hbr hco ⊢
      rw [hbr]
      simp only []
      rw [hsub, Res.bind_ok, hco]
      rw [h4]
      have g3 : n - lim + 1 + m = n - 1 := by omega
      rw [g3, outputLoop_end n lim oneD lineLim blanks sub hn hn']
      simp [List.append_assoc]

theorem xoutput_eq {β : Type} (text : β → List Nat) (e : List Nat → β) (lim lineLim : Nat) :
    ∀ (sh pre : List Nat) (blanks : Nat), (∀ n ∈ sh, Printable lim n) →
      SubPrints (xoutput text lim lineLim sh blanks) ((shownIndices lim sh).map fun j => e (pre ++ j))
        (IsLiteral lim (fun idx => text (e idx)) sh pre)
  | [], pre, blanks, _ => fun out rest => ⟨text (e pre), by simp [shownIndices, xoutput, printNext], rfl⟩
  | n :: sh, pre, blanks, hp => by
    intro out rest
    have hb : ∀ i < n, SubPrints (xoutput text lim lineLim sh (blanks + 1))
        ((shownIndices lim sh).map fun j => e (pre ++ [i] ++ j))
        (IsLiteral lim (fun idx => text (e idx)) sh (pre ++ [i])) := fun i _ =>
      xoutput_eq text e lim lineLim sh (pre ++ [i]) (blanks + 1) (fun m hm => hp m (by simp [hm]))
    have hpn := hp n (by simp)
    obtain ⟨rs, t, el, h1, h2, h3⟩ := outputLoop_eq n lim sh.isEmpty lineLim blanks
      (xoutput text lim lineLim sh (blanks + 1)) _ _ hb hpn (out ++ [123]) rest
    obtain ⟨ws, el1, hbr, hws⟩ := breakLine_spec sh.isEmpty lineLim blanks
      ((⟨out ++ [123] ++ t, (shownIndices lim sh).map (fun j => e (pre ++ [n - 1] ++ j)) ++ rest⟩ : PrintState β), el)
    obtain ⟨p, hsub, hitem⟩ := hb (n - 1) (by have := hpn.1; omega) (out ++ [123] ++ t ++ ws) rest
    refine ⟨[123] ++ (t ++ ws ++ p) ++ [125], ?_, t ++ ws ++ p, rfl, ?_⟩
    · have h0 : (shownIndices lim (n :: sh)).map (fun j => e (pre ++ j))
          = ((shown n lim).filterMap id).flatMap fun i => (shownIndices lim sh).map fun j => e (pre ++ [i] ++ j) := by
        simp only [shownIndices, List.map_flatMap, List.map_map]
        congr 1
        funext i
        congr 1
        funext j
        simp
      rw [h0]
      unfold xoutput
      simp only [PrintState.put]
      rw [h3, Res.bind_ok]
      simp only [PrintState.put] at hbr
      simp only []
      rw [hbr, hsub, Res.map_ok]
      simp [List.append_assoc]
    · rw [h1]
      exact Items.separated (some (n - 1)) p ws hws hitem h2

/-! ### `out << e` -/

theorem sizeOfInt_nonneg {i : Int} (h : 0 ≤ i) (h' : i < 2 ^ 31) : sizeOfInt i = i.toNat := by
  unfold sizeOfInt
  rw [Int.emod_eq_of_lt h (by omega)]

theorem inBounds_id {sh : List Nat} : ∀ j, InBounds sh j → InBounds sh ([] ++ j) := fun _ h => h

/-- The words of the stream after the manipulators `given` were written to it. -/
def givenWords (e l t p : Option Int) : PrintOptions := ⟨e.getD 0, l.getD 0, t.getD 0, p.getD 0⟩

theorem takeOption_given (w : Option Int) (g : Int) (h : w ≠ some 0) :
    takeOption (w.getD 0) g = (optionInForce w g, 0) := by
  cases w with
  | none => simp [takeOption, optionInForce]
  | some x =>
    have : x ≠ 0 := fun hx => h (by rw [hx])
    simp [takeOption, optionInForce, this]

/-- Printing: what is written is the literal of the array, every element at its place, with an ellipsis in the middle of
axes that are longer than twice the number of edge items when there are more elements than the threshold.  The options are
those given to the stream, for this output only, and otherwise the global ones; the precision of the stream is kept.
Partial: the options that are given are not zero, and not one edge item with an axis longer than two
(`C71_zero_option_wrong`, `C71_one_edge_item_undefined`). -/
theorem C71_pretty_print_partial {β : Type} (P : Printer β) (g : PrintOptions) (shape : List Nat) (e : List Nat → β)
    (text : List Nat) (prec : Int) (ge gl gt gp : Option Int)
    (h0 : ge ≠ some 0 ∧ gl ≠ some 0 ∧ gt ≠ some 0 ∧ gp ≠ some 0)
    (hpos : ∀ n ∈ shape, 0 < n ∧ n < 2 ^ 64)
    (hopt : ∀ x ∈ [optionInForce ge g.edgeItems, optionInForce gt g.threshold], 0 ≤ x ∧ x < 2 ^ 31)
    (lim : Nat) (hlim : lim = if numel shape > (optionInForce gt g.threshold).toNat
      then (optionInForce ge g.edgeItems).toNat else 0)
    (hone : lim = 1 → ∀ n ∈ shape, n ≤ 2)
    (p : Int) (hp : p = if optionInForce gp g.precision = -1 then prec else optionInForce gp g.precision) :
    ∃ t, prettyPrint P g shape e ⟨text, prec, givenWords ge gl gt gp⟩ = .ok ⟨text ++ t, prec, ⟨0, 0, 0, 0⟩⟩ ∧
      IsLiteral lim (fun idx => P.text p ((shownIndices lim shape).map e) (e idx)) shape [] t := by
  obtain ⟨h1, h2, h3, h4⟩ := h0
  have hz : ¬ shape.foldl (· * ·) 1 = 0 := by
    rw [foldl_mul_eq, Nat.one_mul, numel_eq_zero_iff]
    intro h
    have := (hpos 0 h).1
    omega
  have hP : ∀ n ∈ shape, Printable lim n := fun n hn => ⟨(hpos n hn).1, (hpos n hn).2, fun h => hone h n hn⟩
  have hl : printLimit (shape.foldl (· * ·) 1)
      ⟨optionInForce ge g.edgeItems, optionInForce gl g.lineWidth, optionInForce gt g.threshold,
        optionInForce gp g.precision⟩ = lim := by
    unfold printLimit
    simp only [foldl_mul_eq, Nat.one_mul]
    have a := hopt (optionInForce ge g.edgeItems) (by simp)
    have b := hopt (optionInForce gt g.threshold) (by simp)
    rw [sizeOfInt_nonneg a.1 a.2, sizeOfInt_nonneg b.1 b.2, hlim]
  have hc := recurserRun_eq shape e lim shape [] [] hP inBounds_id
  simp only [List.nil_append] at hc
  have key : ∀ lineLim, ∃ t, xoutput (P.text p ((shownIndices lim shape).map e)) lim lineLim shape 1
      ⟨text, (shownIndices lim shape).map e⟩ = .ok ⟨text ++ t, []⟩ ∧
      IsLiteral lim (fun idx => P.text p ((shownIndices lim shape).map e) (e idx)) shape [] t := by
    intro lineLim
    obtain ⟨t, a, b⟩ := xoutput_eq (P.text p ((shownIndices lim shape).map e)) e lim lineLim shape [] 1 hP text []
    refine ⟨t, ?_, b⟩
    simpa using a
  obtain ⟨t, ht, hlit⟩ := key (sizeOfInt (optionInForce gl g.lineWidth) /
    (P.width p ((shownIndices lim shape).map e) + 2))
  refine ⟨t, ?_, hlit⟩
  unfold prettyPrint
  simp only [getPrintOptions, givenWords, takeOption_given _ _ h1, takeOption_given _ _ h2, takeOption_given _ _ h3,
    takeOption_given _ _ h4, if_neg hz, hl]
  have hp' : (if optionInForce gp g.precision ≠ -1 then optionInForce gp g.precision else prec) = p := by
    rw [hp]
    by_cases h : optionInForce gp g.precision = -1 <;> simp [h]
  have htext : (if optionInForce gp g.precision ≠ -1 then
      ({ text := text, precision := optionInForce gp g.precision, words := ⟨0, 0, 0, 0⟩ } : OutStream)
      else ⟨text, prec, ⟨0, 0, 0, 0⟩⟩) = ⟨text, p, ⟨0, 0, 0, 0⟩⟩ := by
    rw [← hp']
    by_cases h : optionInForce gp g.precision = -1 <;> simp [h]
  rw [hp', htext, hc, Res.bind_ok]
  simp only [ht, Res.map_ok]

/-- An array without elements is printed as `{}`. -/
theorem C71_empty {β : Type} (P : Printer β) (g : PrintOptions) (shape : List Nat) (e : List Nat → β) (h : 0 ∈ shape)
    (text : List Nat) (prec : Int) (ge gl gt gp : Option Int)
    (h0 : ge ≠ some 0 ∧ gl ≠ some 0 ∧ gt ≠ some 0 ∧ gp ≠ some 0) :
    prettyPrint P g shape e ⟨text, prec, givenWords ge gl gt gp⟩ = .ok ⟨text ++ [123, 125], prec, ⟨0, 0, 0, 0⟩⟩ := by
  obtain ⟨h1, h2, h3, h4⟩ := h0
  have hz : shape.foldl (· * ·) 1 = 0 := by
    rw [foldl_mul_eq, Nat.one_mul, numel_eq_zero_iff]; exact h
  unfold prettyPrint
  simp only [getPrintOptions, givenWords, takeOption_given _ _ h1, takeOption_given _ _ h2, takeOption_given _ _ h3,
    takeOption_given _ _ h4, if_pos hz]

/-! ### The elements can be read back -/

/-- Without blanks and braces. -/
def bare (t : List Nat) : List Nat := t.filter fun c => decide (c ≠ 32 ∧ c ≠ 10 ∧ c ≠ 123 ∧ c ≠ 125)

theorem bare_append (a b : List Nat) : bare (a ++ b) = bare a ++ bare b := by simp [bare]

theorem bare_blank {a : List Nat} (h : AllBlank a) : bare a = [] := by
  unfold bare
  rw [List.filter_eq_nil_iff]
  intro c hc
  have := h c hc
  simp only [decide_eq_true_eq]
  omega

theorem joinWith_flat (sep : List Nat) {ρ : Type} (f : ρ → List (List Nat)) :
    ∀ (rs : List ρ), (∀ r ∈ rs, f r ≠ []) → joinWith sep (rs.map fun r => joinWith sep (f r)) = joinWith sep (rs.flatMap f)
  | [], _ => rfl
  | [r], _ => by simp [joinWith]
  | r :: r' :: rs, h => by
    have ih := joinWith_flat sep f (r' :: rs) (fun x hx => h x (by simp [hx]))
    have hne : (r' :: rs).flatMap f ≠ [] := by
      have := h r' (by simp)
      rw [List.flatMap_cons]
      intro h'
      exact this (List.append_eq_nil_iff.1 h').1
    rw [List.flatMap_cons]
    have aux : ∀ (a b : List (List Nat)), a ≠ [] → b ≠ [] → joinWith sep (a ++ b) = joinWith sep a ++ sep ++ joinWith sep b := by
      intro a b ha hb
      induction a with
      | nil => exact absurd rfl ha
      | cons x a iha =>
        cases a with
        | nil =>
          cases b with
          | nil => exact absurd rfl hb
          | cons y b => rfl
        | cons x' a =>
          have := iha (by simp)
          simp only [List.cons_append] at this ⊢
          simp only [joinWith]
          rw [this]
          simp
    rw [aux _ _ (h r (by simp)) hne, ← ih]
    rfl

theorem separated_bare {ρ : Type} (part : ρ → List Nat → Prop) (u : ρ → List Nat) :
    ∀ (rs : List ρ) (t : List Nat), (∀ r ∈ rs, ∀ p, part r p → bare p = u r) → Separated part rs t →
      bare t = joinWith [44] (rs.map u)
  | [], _, _, h => h.elim
  | [r], t, hu, ⟨ws, p, h1, h2, h3⟩ => by
    rw [h1, bare_append, bare_blank h2, hu r (by simp) p h3]; rfl
  | r :: r' :: rs, t, hu, ⟨ws, p, t', h1, h2, h3, h4⟩ => by
    rw [h1, bare_append, bare_append, bare_append, bare_blank h2, hu r (by simp) p h3,
      separated_bare part u (r' :: rs) t' (fun x hx => hu x (by simp [hx])) h4]
    rfl

theorem rowIndices_ne_nil : ∀ (sh : List Nat), (∀ n ∈ sh, 0 < n) → rowIndices sh ≠ []
  | [], _ => by simp [rowIndices]
  | n :: sh, h => by
    have ih := rowIndices_ne_nil sh (fun m hm => h m (by simp [hm]))
    obtain ⟨m, rfl⟩ : ∃ m, n = m + 1 := ⟨n - 1, by have := h n (by simp); omega⟩
    rw [rowIndices, List.range_succ_eq_map, List.flatMap_cons]
    intro h'
    have := (List.append_eq_nil_iff.1 h').1
    simp at this
    exact ih this

/-- Without blanks and braces a literal is the list of the texts of the elements, last axis fastest. -/
theorem literal_bare (text : List Nat → List Nat) : ∀ (sh pre t : List Nat), (∀ n ∈ sh, 0 < n) →
    IsLiteral 0 text sh pre t → bare t = joinWith [44] ((rowIndices sh).map fun j => bare (text (pre ++ j)))
  | [], pre, t, _, h => by
    have h : t = text pre := h
    rw [h]; simp [rowIndices, joinWith]
  | n :: sh, pre, t, hpos, ⟨b, h1, h2⟩ => by
    have hsh : shown n 0 = (List.range n).map some := by simp [shown]
    rw [hsh] at h2
    have hu := separated_bare (IsPart fun i p => IsLiteral 0 text sh (pre ++ [i]) p)
      (fun r => match r with
        | none => [46, 46, 46]
        | some i => joinWith [44] ((rowIndices sh).map fun j => bare (text (pre ++ [i] ++ j))))
      ((List.range n).map some) b (by
        intro r hr p hp
        obtain ⟨i, _, rfl⟩ := List.mem_map.1 hr
        exact literal_bare text sh (pre ++ [i]) p (fun m hm => hpos m (by simp [hm])) hp) h2
    rw [h1, bare_append, bare_append]
    have e1 : bare [123] = [] := rfl
    have e2 : bare [125] = [] := rfl
    rw [e1, e2, List.nil_append, List.append_nil, hu, List.map_map]
    have hj := joinWith_flat [44] (fun i : Nat => (rowIndices sh).map fun j => bare (text (pre ++ [i] ++ j))) (List.range n)
      (fun i _ h' => rowIndices_ne_nil sh (fun m hm => hpos m (by simp [hm])) (List.map_eq_nil_iff.1 h'))
    have e3 : ((fun r : Option Nat => match r with
        | none => [46, 46, 46]
        | some i => joinWith [44] ((rowIndices sh).map fun j => bare (text (pre ++ [i] ++ j)))) ∘ some)
        = fun i => joinWith [44] ((rowIndices sh).map fun j => bare (text (pre ++ [i] ++ j))) := by
      funext i; rfl
    rw [e3, hj]
    congr 1
    rw [rowIndices, List.map_flatMap]
    congr 1
    funext i
    rw [List.map_map]
    congr 1
    funext j
    simp

theorem writeInt_bare (w : Nat) (v : Int) : bare (padLeft w (writeInt v)) = writeInt v := by
  unfold padLeft
  rw [bare_append, bare_blank (by intro c hc; exact Or.inl (List.eq_of_mem_replicate hc)), List.nil_append]
  unfold bare
  rw [List.filter_eq_self]
  intro c hc
  have hd : ∀ n, c ∈ decimal n → 48 ≤ c ∧ c ≤ 57 := fun n h => (decimal_spec n).2.1 c h
  simp only [decide_eq_true_eq]
  unfold writeInt at hc
  split at hc
  · rcases List.mem_cons.1 hc with h | h
    · omega
    · have := hd _ h; omega
  · have := hd _ hc; omega

theorem writeInt_inj {a b : Int} (h : writeInt a = writeInt b) : a = b := by
  have key : ∀ v : Int, (scanNumber (writeInt v)).map scanValue = some v := by
    intro v
    unfold writeInt
    split
    · rw [scanNumber_negative]
      show some (-((v.natAbs : Nat) : Int)) = some v
      congr 1; omega
    · rw [scanNumber_decimal]
      show some ((v.natAbs : Nat) : Int) = some v
      congr 1; omega
  have := key a
  rw [h, key b] at this
  exact (Option.some.inj this).symm

theorem literal_ints_inj (p p' : Int) (b b' : Nat) (sh : List Nat) (hpos : ∀ n ∈ sh, 0 < n)
    (e e' : List Nat → Int) (c c' : List Int) (t : List Nat)
    (h : IsLiteral 0 (fun idx => (intPrinter b).text p c (e idx)) sh [] t)
    (h' : IsLiteral 0 (fun idx => (intPrinter b').text p' c' (e' idx)) sh [] t) :
    ∀ idx, InBounds sh idx → e idx = e' idx := by
  have h1 := literal_bare _ sh [] t hpos h
  have h2 := literal_bare _ sh [] t hpos h'
  simp only [List.nil_append, intPrinter, intText, writeInt_bare] at h1 h2
  rw [h1] at h2
  have hne : ∀ f : List Nat → Int, (rowIndices sh).map (fun j => writeInt (f j)) ≠ [] := fun f h =>
    rowIndices_ne_nil sh hpos (List.map_eq_nil_iff.1 h)
  have hc : ∀ f : List Nat → Int, ∀ t ∈ (rowIndices sh).map (fun j => writeInt (f j)), ∀ x ∈ t, x ≠ 44 := by
    intro f t ht x hx
    obtain ⟨j, _, rfl⟩ := List.mem_map.1 ht
    have hd : ∀ n, x ∈ decimal n → 48 ≤ x ∧ x ≤ 57 := fun n h => (decimal_spec n).2.1 x h
    unfold writeInt at hx
    split at hx
    · rcases List.mem_cons.1 hx with h | h
      · omega
      · have := hd _ h; omega
    · have := hd _ hx; omega
  have h3 := congrArg splitComma h2
  rw [splitComma_join (hne e) (hc e), splitComma_join (hne e') (hc e')] at h3
  intro idx hidx
  have hm := (mem_rowIndices).2 hidx
  exact writeInt_inj (List.map_inj_left.1 h3 idx hm)

/-- Printed arrays of integers that are not abbreviated can be told apart: the elements are determined by the text. -/
theorem C71_integers_read_back (g : PrintOptions) (b b' : Nat) (sh : List Nat) (hpos : ∀ n ∈ sh, 0 < n ∧ n < 2 ^ 64)
    (hg : 0 ≤ g.edgeItems ∧ g.edgeItems < 2 ^ 31 ∧ 0 ≤ g.threshold ∧ g.threshold < 2 ^ 31)
    (hsz : numel sh ≤ g.threshold.toNat) (e e' : List Nat → Int) (text : List Nat) (prec : Int)
    (h : prettyPrint (intPrinter b) g sh e ⟨text, prec, ⟨0, 0, 0, 0⟩⟩
      = prettyPrint (intPrinter b') g sh e' ⟨text, prec, ⟨0, 0, 0, 0⟩⟩) :
    ∀ idx, InBounds sh idx → e idx = e' idx := by
  have main : ∀ (b : Nat) (e : List Nat → Int), ∃ t, prettyPrint (intPrinter b) g sh e ⟨text, prec, ⟨0, 0, 0, 0⟩⟩
      = .ok ⟨text ++ t, prec, ⟨0, 0, 0, 0⟩⟩ ∧
      IsLiteral 0 (fun idx => (intPrinter b).text (if g.precision = -1 then prec else g.precision)
        ((shownIndices 0 sh).map e) (e idx)) sh [] t := by
    intro b e
    exact C71_pretty_print_partial (intPrinter b) g sh e text prec none none none none
      ⟨by simp, by simp, by simp, by simp⟩ hpos
      (by intro x hx; simp [optionInForce] at hx; rcases hx with rfl | rfl <;> omega) 0
      (if_neg (by show ¬ numel sh > g.threshold.toNat; omega)).symm (by simp) _ rfl
  obtain ⟨t, h1, h2⟩ := main b e
  obtain ⟨t', h3, h4⟩ := main b' e'
  rw [h1, h3] at h
  injection h with h
  have ht : t = t' := by
    have := congrArg OutStream.text h
    exact List.append_cancel_left this
  subst ht
  exact literal_ints_inj _ _ b b' sh (fun n hn => (hpos n hn).1) e e' _ _ t h2 h4

/-! ### Alignment -/

theorem log10Aux_mono : ∀ (f k : Nat) (n m : Nat), n < f → m < k → n ≤ m → log10Aux f n ≤ log10Aux k m
  | 0, _, n, m, h, _, _ => by omega
  | f + 1, k, n, m, h, h', hnm => by
    obtain ⟨k, rfl⟩ : ∃ j, k = j + 1 := ⟨k - 1, by omega⟩
    unfold log10Aux
    by_cases h1 : n < 10
    · rw [if_pos h1]; omega
    · rw [if_neg h1, if_neg (by omega)]
      have := log10Aux_mono f k (n / 10) (m / 10) (by omega) (by omega) (Nat.div_le_div_right hnm)
      omega

theorem decimalAux_length : ∀ (f n : Nat), n < f → (decimalAux f n).length = log10Aux f n + 1
  | 0, n, h => by omega
  | f + 1, n, h => by
    unfold decimalAux log10Aux
    by_cases h1 : n < 10
    · rw [if_pos h1, if_pos h1]; rfl
    · rw [if_neg h1, if_neg h1, List.length_append, decimalAux_length f (n / 10) (by omega)]
      rfl

theorem narrowSigned_small {bits : Nat} {x : Int} (hb : 0 < bits) (h : 0 ≤ x) (h' : x < 2 ^ (bits - 1)) :
    narrowSigned bits x = x := by
  have h2 : (2 : Int) ^ bits = 2 * 2 ^ (bits - 1) := by
    obtain ⟨k, rfl⟩ : ∃ k, bits = k + 1 := ⟨bits - 1, by omega⟩
    rw [Nat.add_sub_cancel, Int.pow_succ]; omega
  unfold narrowSigned
  simp only []
  rw [Int.emod_eq_of_lt h (by omega), if_neg (by omega)]

theorem intUpdate_fold {bits : Nat} (hb : 0 < bits) : ∀ (cache : List Int) (m : Int), 0 ≤ m →
    (∀ v ∈ cache, (v.natAbs : Int) < 2 ^ (bits - 1)) →
    m ≤ cache.foldl (intUpdate bits) m ∧ ∀ v ∈ cache, (v.natAbs : Int) ≤ cache.foldl (intUpdate bits) m
  | [], m, _, _ => ⟨by simp, by simp⟩
  | v :: cache, m, hm, hv => by
    have hs := narrowSigned_small hb (x := v.natAbs) (by omega) (hv v (by simp))
    have hu : intUpdate bits m v = max m v.natAbs := by
      unfold intUpdate
      rw [hs]
      split <;> omega
    obtain ⟨h1, h2⟩ := intUpdate_fold hb cache (intUpdate bits m v) (by omega) (fun w hw => hv w (by simp [hw]))
    rw [List.foldl_cons]
    refine ⟨by omega, ?_⟩
    intro w hw
    rcases List.mem_cons.1 hw with rfl | hw
    · omega
    · exact h2 w hw

/-- Integers are aligned: the texts of all elements that are shown have the width that the printer announces.  Partial: the
smallest number of the type is not among them (`C71_smallest_integer_wrong`). -/
theorem C71_integers_aligned_partial {bits : Nat} (hb : 0 < bits) (p : Int) (cache : List Int)
    (hv : ∀ v ∈ cache, -(2 ^ (bits - 1)) < v ∧ v < 2 ^ (bits - 1)) (v : Int) (h : v ∈ cache) :
    ((intPrinter bits).text p cache v).length = (intPrinter bits).width p cache := by
  have hv' : ∀ v ∈ cache, (v.natAbs : Int) < 2 ^ (bits - 1) := by
    intro w hw
    have := hv w hw
    omega
  obtain ⟨h1, h2⟩ := intUpdate_fold hb cache 0 (by omega) hv'
  have h3 := h2 v h
  show (padLeft (intWidth bits cache) (writeInt v)).length = intWidth bits cache
  have key : (writeInt v).length ≤ intWidth bits cache := by
    have hd : (decimal v.natAbs).length = log10 v.natAbs + 1 := decimalAux_length _ _ (by omega)
    have hl : log10 v.natAbs ≤ (if cache.foldl (intUpdate bits) 0 > 0 then
        log10 (cache.foldl (intUpdate bits) 0).toNat else 0) := by
      split
      · exact log10Aux_mono _ _ _ _ (by omega) (by omega) (by omega)
      · have : v.natAbs = 0 := by omega
        rw [this]; decide
    unfold intWidth writeInt
    simp only []
    by_cases hneg : v < 0
    · have hany : cache.any (fun v => decide (v < 0)) = true := List.any_eq_true.2 ⟨v, h, by simpa using hneg⟩
      rw [if_pos hneg, if_pos hany, List.length_cons, hd]
      omega
    · rw [if_neg hneg, hd]
      omega
  unfold padLeft
  rw [List.length_append, List.length_replicate]
  omega

/-- Strings are aligned, if none that is shown is longer than 20 characters; otherwise they are written as they are. -/
theorem C71_strings_aligned (p : Int) (cache : List (List Nat)) (s : List Nat) (h : s ∈ cache) :
    ((∀ s ∈ cache, s.length ≤ 20) → (stringPrinter.text p cache s).length = stringPrinter.width p cache) ∧
    ((∃ s ∈ cache, 20 < s.length) → stringPrinter.text p cache s = s) := by
  have fold : ∀ (c : List (List Nat)) (w : Nat),
      (c.foldl (fun w s => if s.length > w then s.length else w) w ≥ w) ∧
      (∀ s ∈ c, s.length ≤ c.foldl (fun w s => if s.length > w then s.length else w) w) ∧
      (w ≤ 20 → (∀ s ∈ c, s.length ≤ 20) → c.foldl (fun w s => if s.length > w then s.length else w) w ≤ 20) := by
    intro c
    induction c with
    | nil => intro w; simp
    | cons x c ih =>
      intro w
      obtain ⟨h1, h2, h3⟩ := ih (if x.length > w then x.length else w)
      rw [List.foldl_cons]
      have hx : w ≤ (if x.length > w then x.length else w) ∧ x.length ≤ (if x.length > w then x.length else w) := by
        split <;> omega
      refine ⟨by omega, ?_, ?_⟩
      · intro s hs
        rcases List.mem_cons.1 hs with rfl | hs
        · omega
        · exact h2 s hs
      · intro hw hall
        refine h3 ?_ (fun s hs => hall s (by simp [hs]))
        have := hall x (by simp)
        split <;> omega
  obtain ⟨_, f2, f3⟩ := fold cache 0
  show (_ → (padLeft (stringWidth cache) s).length = stringWidth cache) ∧ (_ → padLeft (stringWidth cache) s = s)
  refine ⟨fun hall => ?_, fun ⟨x, hx, hlong⟩ => ?_⟩
  · have hw : stringWidth cache = cache.foldl (fun w s => if s.length > w then s.length else w) 0 := by
      unfold stringWidth
      simp only []
      rw [if_neg (by have := f3 (by omega) hall; omega)]
    have := f2 s h
    rw [← hw] at this
    unfold padLeft
    rw [List.length_append, List.length_replicate]
    omega
  · have hw : stringWidth cache = 0 := by
      unfold stringWidth
      simp only []
      rw [if_pos (by have := f2 x hx; omega)]
    simp [padLeft, hw]

/-- Booleans are aligned. -/
theorem C71_booleans_aligned (p : Int) (cache : List Bool) (v : Bool) :
    (boolPrinter.text p cache v).length = boolPrinter.width p cache := by
  cases v <;> rfl

/-! ### Lines -/

/-- Every end of the text without a line end is at most `c` long. -/
def TailWithin (c : Nat) (t : List Nat) : Prop := ∀ a b, t = a ++ b → 10 ∉ b → b.length ≤ c

theorem tail_append {c : Nat} {t s : List Nat} (h : TailWithin c t) : TailWithin (c + s.length) (t ++ s) := by
  intro a b hab hb
  rcases List.append_eq_append_iff.1 hab with ⟨a', h1, h2⟩ | ⟨b', h1, h2⟩
  · rw [h2] at *
    simp only [List.length_append]
    omega
  · have := h a b' h1 (fun h' => hb (by rw [h2]; simp [h']))
    rw [h2, List.length_append]
    omega

theorem lines_append {w c : Nat} {t s : List Nat} (h : LinesWithin w t) (h' : TailWithin c t) (hs : c + s.length ≤ w) :
    LinesWithin w (t ++ s) := by
  intro a b d hab hb
  rw [List.append_assoc] at hab
  rcases List.append_eq_append_iff.1 hab with ⟨a', h1, h2⟩ | ⟨b', h1, h2⟩
  · have : b.length ≤ s.length := by
      rw [h2]; simp only [List.length_append]; omega
    omega
  · rcases List.append_eq_append_iff.1 h2 with ⟨x, h3, h4⟩ | ⟨x, h3, h4⟩
    · exact h a b x (by rw [h1, h3]; simp) hb
    · have := h' a b' h1 (fun hh => hb (by rw [h3]; simp [hh]))
      rw [h3, List.length_append]
      have : x.length ≤ s.length := by rw [h4]; simp
      omega

theorem tail_newLine (t : List Nat) (k : Nat) : TailWithin k (t ++ newLine k) := by
  intro a b hab hb
  rcases List.append_eq_append_iff.1 hab with ⟨a', h1, h2⟩ | ⟨b', h1, h2⟩
  · cases a' with
    | nil =>
      rw [List.nil_append] at h2
      exact absurd (by rw [← h2]; simp [newLine]) hb
    | cons x a' =>
      have := congrArg List.length h2
      simp [newLine] at this
      omega
  · exact absurd (by rw [h2]; simp [newLine]) hb

theorem lines_newLine {w : Nat} {t : List Nat} (h : LinesWithin w t) (k : Nat) (hk : k ≤ w) :
    LinesWithin w (t ++ newLine k) := by
  have h10 : LinesWithin w (t ++ [10]) := by
    intro a b d hab hb
    rcases List.append_eq_append_iff.1 hab with ⟨a', h1, h2⟩ | ⟨b', h1, h2⟩
    · have hd : d = [10] ∨ d = [] := by
        cases a' with
        | nil => rw [List.nil_append] at h2; exact Or.inl h2.symm
        | cons x a' =>
          cases d with
          | nil => exact Or.inr rfl
          | cons y d => simp at h2
      rcases hd with rfl | rfl
      · have : t = a ++ b := by
          have := List.append_inj_left' hab rfl
          exact this
        exact h a b [] (by rw [this]; simp) hb
      · rcases List.eq_nil_or_concat b with rfl | ⟨b', x, rfl⟩
        · simp
        · rw [List.append_nil, List.concat_eq_append, ← List.append_assoc] at hab
          have := List.append_inj_right' hab rfl
          simp at this
          exact absurd (by rw [← this]; simp) hb
    · exact h a b b' (by rw [h1]) hb
  have ht : TailWithin 0 (t ++ [10]) := by
    have := tail_newLine t 0
    simpa [newLine] using this
  have := lines_append h10 ht (s := List.replicate k 32) (by simp [hk])
  simpa [newLine] using this

/-- The state of a row while it is printed: `el` elements of width `w` on the line. -/
def RowState {β : Type} (W w L : Nat) (s : PrintState β × Nat) : Prop :=
  LinesWithin W s.1.out ∧ s.2 ≤ L ∧
    TailWithin (if lineFull L s.2 then s.2 * (w + 2) else s.2 * (w + 2) + 1) s.1.out

theorem row_break {β : Type} {W w L : Nat} (hL : 0 < L) (hW : L * (w + 2) ≤ W) {s : PrintState β × Nat}
    (h : RowState W w L s) : LinesWithin W (breakLine true L 1 s).1.out ∧ (breakLine true L 1 s).2 < L ∧
      TailWithin ((breakLine true L 1 s).2 * (w + 2) + 1) (breakLine true L 1 s).1.out ∧
      (breakLine true L 1 s).1.rest = s.1.rest := by
  obtain ⟨h1, h2, h3⟩ := h
  have hW1 : 1 ≤ W := by
    have : 1 * 1 ≤ L * (w + 2) := Nat.mul_le_mul hL (by omega)
    omega
  unfold breakLine
  by_cases hf : lineFull L s.2 = true
  · simp only [hf, Bool.and_self, if_true, PrintState.put]
    exact ⟨lines_newLine h1 1 hW1, hL, by simpa using tail_newLine s.1.out 1, trivial⟩
  · simp only [hf, Bool.and_false]
    rw [if_neg (by simp)]
    rw [if_neg hf] at h3
    have : s.2 < L := by
      simp only [lineFull, decide_eq_true_eq] at hf
      omega
    exact ⟨h1, this, h3, rfl⟩

/-- A row of elements of width `w`, of which `L` fit on a line. -/
theorem row_loop {β : Type} (text : β → List Nat) {W w L : Nat} (hL : 0 < L) (hW : L * (w + 2) ≤ W) (n : Nat) (hn : 0 < n)
    (hn' : n < 2 ^ 64) : ∀ (k fuel i : Nat) (s : PrintState β × Nat), i + k = n - 1 → k ≤ fuel → k < s.1.rest.length →
      (∀ v ∈ s.1.rest, (text v).length = w) → RowState W w L s →
      ∃ s', outputLoop n 0 true L 1 (printNext text) fuel i s = .ok (n - 1, s') ∧ RowState W w L s' ∧
        s'.1.rest = s.1.rest.drop k
  | 0, fuel, i, s, hi, _, _, _, h => by
    have : i = n - 1 := by omega
    rw [this, outputLoop_end n 0 true L 1 _ hn hn']
    exact ⟨s, rfl, h, by simp⟩
  | k + 1, fuel, i, s, hi, hf, hr, ht, h => by
    obtain ⟨fuel, rfl⟩ : ∃ f, fuel = f + 1 := ⟨fuel - 1, by omega⟩
    obtain ⟨b1, b2, b3, b4⟩ := row_break hL hW h
    obtain ⟨v, rest, hv⟩ : ∃ v rest, s.1.rest = v :: rest := by
      cases hs : s.1.rest with
      | nil => rw [hs] at hr; simp at hr
      | cons v rest => exact ⟨v, rest, rfl⟩
    have h1 : i ≠ sizePred n := by rw [sizePred_pos hn hn']; omega
    have h2 : ¬((0 : Nat) ≠ 0 ∧ n > 0 * 2 ∧ i = 0) := by omega
    generalize hbs : breakLine true L 1 s = bs at b1 b2 b3 b4
    have hw : (text v).length = w := ht v (by rw [hv]; simp)
    have hmul : (bs.2 + 1) * (w + 2) ≤ W := Nat.le_trans (Nat.mul_le_mul_right _ (by omega)) hW
    have hexp : (bs.2 + 1) * (w + 2) = bs.2 * (w + 2) + (w + 2) := by rw [Nat.add_mul]; omega
    have hst : RowState W w L (putComma true L 1 bs.2 (⟨bs.1.out ++ text v, rest⟩ : PrintState β)) := by
      have t1 := tail_append b3 (s := text v)
      have l1 := lines_append b1 b3 (s := text v) (by omega)
      unfold putComma RowState
      simp only []
      by_cases hfull : lineFull L (bs.2 + 1) = true
      · simp only [hfull, Bool.true_and, Bool.not_true, PrintState.put]
        rw [if_neg (by simp), if_neg (by simp)]
        simp only [hfull, if_true]
        refine ⟨lines_append l1 t1 (by simp; omega), by omega, ?_⟩
        have := tail_append t1 (s := [44])
        have e : bs.2 * (w + 2) + 1 + (text v).length + [44].length = (bs.2 + 1) * (w + 2) := by simp; omega
        rw [e] at this
        exact this
      · have hfull' : lineFull L (bs.2 + 1) = false := by simpa using hfull
        have hlt : bs.2 + 1 < L := by
          simp only [lineFull, decide_eq_true_eq] at hfull
          omega
        have hmul2 : (bs.2 + 2) * (w + 2) ≤ W := Nat.le_trans (Nat.mul_le_mul_right _ (by omega)) hW
        have hexp2 : (bs.2 + 2) * (w + 2) = bs.2 * (w + 2) + 2 * (w + 2) := by rw [Nat.add_mul]
        simp only [hfull', Bool.true_and, Bool.not_false, PrintState.put, if_true]
        refine ⟨lines_append l1 t1 (by simp; omega), by omega, ?_⟩
        rw [if_neg (by simp)]
        have := tail_append t1 (s := [44, 32])
        have e : bs.2 * (w + 2) + 1 + (text v).length + [44, 32].length = (bs.2 + 1) * (w + 2) + 1 := by simp; omega
        rw [e] at this
        exact this
    have hrest : (putComma true L 1 bs.2 (⟨bs.1.out ++ text v, rest⟩ : PrintState β)).1.rest = rest := by
      unfold putComma
      simp only []
      split
      · rfl
      · split <;> rfl
    obtain ⟨s', g1, g2, g3⟩ := row_loop text hL hW n hn hn' k fuel (i + 1) _ (by omega) (by omega)
      (by rw [hrest]; rw [hv] at hr; simpa using hr) (by rw [hrest]; intro u hu; exact ht u (by rw [hv]; simp [hu])) hst
    refine ⟨s', ?_, g2, by rw [g3, hrest, hv]; rfl⟩
    unfold outputLoop
    simp only [if_neg h1, if_neg h2, hbs]
    have hpn : printNext text bs.1 = .ok ⟨bs.1.out ++ text v, rest⟩ := by
      unfold printNext
      rw [b4, hv]
    rw [hpn, Res.bind_ok, g1]

/-- The lines of a printed sequence are not longer than the line width, if it is not abbreviated, its elements have the
announced width, and at least one of them fits on a line.  Partial: not true of arrays with more axes, of abbreviated ones,
and of wider elements (`C71_line_width_wrong`). -/
theorem C71_line_width_partial {β : Type} (P : Printer β) (g : PrintOptions) (n : Nat) (hn : 0 < n) (hn' : n < 2 ^ 64)
    (e : List Nat → β) (prec : Int) (cache : List β) (hc : cache = (List.range n).map fun i => e [i])
    (hg : 0 ≤ g.threshold ∧ g.threshold < 2 ^ 31 ∧ 0 ≤ g.lineWidth ∧ g.lineWidth < 2 ^ 31) (hsz : n ≤ g.threshold.toNat)
    (p : Int) (hp : p = if g.precision = -1 then prec else g.precision)
    (hw : ∀ v ∈ cache, (P.text p cache v).length = P.width p cache)
    (hfit : P.width p cache + 2 ≤ g.lineWidth.toNat) :
    ∃ o, prettyPrint P g [n] e ⟨[], prec, ⟨0, 0, 0, 0⟩⟩ = .ok o ∧ LinesWithin g.lineWidth.toNat o.text := by
  have hP : ∀ m ∈ [n], Printable 0 m := by
    intro m hm
    rw [List.mem_singleton.1 hm]
    exact ⟨hn, hn', by omega⟩
  have hcache := recurserRun_eq [n] e 0 [n] [] [] hP inBounds_id
  have hcc : (shownIndices 0 [n]).map e = cache := by
    rw [hc]
    rw [shownIndices, shown_filterMap, if_pos (Or.inl rfl)]
    simp [shownIndices, List.map_flatMap, ← List.map_eq_flatMap]
  simp only [List.nil_append, hcc] at hcache
  generalize hL : g.lineWidth.toNat / (P.width p cache + 2) = L
  have hLp : 0 < L := by rw [← hL]; exact Nat.div_pos hfit (by omega)
  have hLW : L * (P.width p cache + 2) ≤ g.lineWidth.toNat := by rw [← hL]; exact Nat.div_mul_le_self _ _
  have hlen : cache.length = n := by rw [hc]; simp
  have hst : RowState g.lineWidth.toNat (P.width p cache) L ((⟨[123], cache⟩ : PrintState β), 0) := by
    have h0 : lineFull L 0 = false := by simp [lineFull]; try omega
    refine ⟨?_, Nat.zero_le _, ?_⟩
    · intro a b c h _
      have := congrArg List.length h
      simp at this
      omega
    · rw [if_neg (by simp [h0])]
      intro a b h _
      have := congrArg List.length h
      simp at this
      omega
  obtain ⟨s', r1, r2, r3⟩ := row_loop (P.text p cache) hLp hLW n hn hn' (n - 1) n 0 _ (by omega) (by omega)
    (by simp only [hlen]; omega) (by intro v hv; exact hw v hv) hst
  obtain ⟨b1, b2, b3, b4⟩ := row_break hLp hLW r2
  generalize hbs : breakLine true L 1 s' = bs at b1 b2 b3 b4
  obtain ⟨v, hv, hvm⟩ : ∃ v, s'.1.rest = [v] ∧ v ∈ cache := by
    have hlen' : s'.1.rest.length = 1 := by rw [r3]; simp only [List.length_drop, hlen]; omega
    obtain ⟨v, hv⟩ := List.length_eq_one_iff.1 hlen'
    refine ⟨v, hv, ?_⟩
    have : v ∈ s'.1.rest := by rw [hv]; simp
    rw [r3] at this
    exact List.mem_of_mem_drop this
  have hx : xoutput (P.text p cache) 0 L [n] 1 ⟨[], cache⟩
      = .ok ⟨bs.1.out ++ P.text p cache v ++ [125], []⟩ := by
    have hsub : xoutput (P.text p cache) 0 L [] (1 + 1) = printNext (P.text p cache) := by funext s; rfl
    unfold xoutput
    simp only [List.isEmpty_nil, hsub, PrintState.put, List.nil_append]
    rw [r1, Res.bind_ok]
    simp only [hbs]
    unfold printNext
    simp only [b4, hv, Res.map_ok]
  refine ⟨⟨bs.1.out ++ P.text p cache v ++ [125], prec, ⟨0, 0, 0, 0⟩⟩, ?_, ?_⟩
  · have hz : ¬ [n].foldl (· * ·) 1 = 0 := by simp; omega
    have hlim : ∀ po : PrintOptions, po.threshold = g.threshold → printLimit ([n].foldl (· * ·) 1) po = 0 := by
      intro po hpo
      unfold printLimit
      rw [hpo, sizeOfInt_nonneg hg.1 hg.2.1, if_neg (by simp; omega)]
    unfold prettyPrint
    simp only [getPrintOptions, takeOption, if_true, if_neg hz]
    rw [hlim _ rfl]
    have hp' : (if g.precision ≠ -1 then g.precision else prec) = p := by
      rw [hp]
      by_cases h : g.precision = -1 <;> simp [h]
    have htext : (if g.precision ≠ -1 then
        ({ text := [], precision := g.precision, words := ⟨0, 0, 0, 0⟩ } : OutStream)
        else ⟨[], prec, ⟨0, 0, 0, 0⟩⟩) = ⟨[], p, ⟨0, 0, 0, 0⟩⟩ := by
      rw [← hp']
      by_cases h : g.precision = -1 <;> simp [h]
    rw [hp', htext, hcache, Res.bind_ok, sizeOfInt_nonneg hg.2.2.1 hg.2.2.2, hL]
    simp only [hx, Res.map_ok]
  · have hwv := hw v hvm
    have t1 := tail_append b3 (s := P.text p cache v)
    have hmul : (bs.2 + 1) * (P.width p cache + 2) ≤ g.lineWidth.toNat :=
      Nat.le_trans (Nat.mul_le_mul_right _ (by omega)) hLW
    have hexp : (bs.2 + 1) * (P.width p cache + 2) = bs.2 * (P.width p cache + 2) + (P.width p cache + 2) := by
      rw [Nat.add_mul]; omega
    have l1 := lines_append b1 b3 (s := P.text p cache v) (by omega)
    exact lines_append l1 t1 (by simp; omega)

/-! ### HTML -/

/-- The cells of a piece of HTML. -/
def htmlCells (h : List HtmlPiece) : List (List Nat × List Nat) :=
  h.filterMap fun p => match p with
    | .markup _ => none
    | .cell i t => some (i, t)

theorem htmlCells_append (a b : List HtmlPiece) : htmlCells (a ++ b) = htmlCells a ++ htmlCells b := by simp [htmlCells]

/-- What writing a part does, when its values come next: cells are written, the values are used up. -/
def HtmlPrints {β : Type} (sub : HtmlState β → Res (HtmlState β)) (vals : List β) (cells : List (List Nat × List Nat)) :
    Prop :=
  ∀ out rest, ∃ h, sub ⟨out, vals ++ rest⟩ = .ok ⟨out ++ h, rest⟩ ∧ htmlCells h = cells

/-- A step that only writes markup. -/
def OnlyMarkup {β : Type} (f : HtmlState β → HtmlState β) : Prop :=
  ∀ s, ∃ h, f s = ⟨s.out ++ h, s.rest⟩ ∧ htmlCells h = []

theorem onlyMarkup_tag {β : Type} (t : String) : OnlyMarkup (fun s : HtmlState β => s.tag t) :=
  fun _ => ⟨[.markup t], rfl, rfl⟩

theorem htmlFor_prints {β : Type} (body : Nat → HtmlState β → Res (HtmlState β)) (v : Nat → List β)
    (c : Nat → List (List Nat × List Nat)) : ∀ (ks : List Nat), (∀ k ∈ ks, HtmlPrints (body k) (v k) (c k)) →
      HtmlPrints (htmlFor body ks) (ks.flatMap v) (ks.flatMap c)
  | [], _ => fun out rest => ⟨[], by simp [htmlFor], rfl⟩
  | k :: ks, hb => by
    intro out rest
    obtain ⟨h1, a1, a2⟩ := hb k (by simp) out (ks.flatMap v ++ rest)
    obtain ⟨h2, b1, b2⟩ := htmlFor_prints body v c ks (fun j hj => hb j (by simp [hj])) (out ++ h1) rest
    refine ⟨h1 ++ h2, ?_, by rw [htmlCells_append, a2, b2, List.flatMap_cons]⟩
    unfold htmlFor
    rw [List.flatMap_cons, List.append_assoc, a1, Res.bind_ok, b1, List.append_assoc]

theorem htmlAxis_prints {β : Type} (n lim : Nat) (body : Nat → HtmlState β → Res (HtmlState β))
    (between : HtmlState β → HtmlState β) (hbt : OnlyMarkup between) (v : Nat → List β)
    (c : Nat → List (List Nat × List Nat)) (hb : ∀ k < n, HtmlPrints (body k) (v k) (c k)) :
    HtmlPrints (htmlAxis n lim body between) (((shown n lim).filterMap id).flatMap v)
      (((shown n lim).filterMap id).flatMap c) := by
  rw [shown_filterMap]
  unfold htmlAxis
  by_cases h : lim = 0 ∨ n ≤ 2 * lim
  · rw [if_pos h]
    have h' : lim = 0 ∨ 2 * lim ≥ n := h
    intro out rest
    show ∃ x, (if lim = 0 ∨ 2 * lim ≥ n then _ else _) = _ ∧ _
    rw [if_pos h']
    exact htmlFor_prints body v c (List.range n) (fun k hk => hb k (List.mem_range.1 hk)) out rest
  · rw [if_neg h]
    have h' : ¬ (lim = 0 ∨ 2 * lim ≥ n) := h
    intro out rest
    show ∃ x, (if lim = 0 ∨ 2 * lim ≥ n then _ else _) = _ ∧ _
    rw [if_neg h', List.flatMap_append, List.flatMap_append, List.append_assoc]
    obtain ⟨h1, a1, a2⟩ := htmlFor_prints body v c (List.range lim) (fun k hk => hb k (by have := List.mem_range.1 hk; omega))
      out ((List.range' (n - lim) lim).flatMap v ++ rest)
    obtain ⟨h2, b1, b2⟩ := hbt ⟨out ++ h1, (List.range' (n - lim) lim).flatMap v ++ rest⟩
    obtain ⟨h3, c1, c2⟩ := htmlFor_prints body v c (List.range' (n - lim) lim)
      (fun k hk => hb k (by have := List.mem_range'_1.1 hk; omega)) (out ++ h1 ++ h2) rest
    have hsub : n - (n - lim) = lim := by omega
    refine ⟨h1 ++ h2 ++ h3, ?_, by rw [htmlCells_append, htmlCells_append, a2, b2, c2, List.append_nil]⟩
    rw [a1, Res.bind_ok, b1, hsub, c1]
    simp

theorem HtmlPrints.wrap {β : Type} {f : HtmlState β → Res (HtmlState β)} {v : List β} {c : List (List Nat × List Nat)}
    (h : HtmlPrints f v c) (a b : String) : HtmlPrints (fun s => (f (s.tag a)).map (·.tag b)) v c := by
  intro out rest
  obtain ⟨h1, a1, a2⟩ := h (out ++ [.markup a]) rest
  refine ⟨[.markup a] ++ h1 ++ [.markup b], ?_, ?_⟩
  · simp only [HtmlState.tag]
    rw [a1, Res.map_ok]
    simp
  · rw [htmlCells_append, htmlCells_append, a2]
    simp [htmlCells]

theorem htmlCell_prints {β : Type} (text : β → List Nat) (title : List Nat) (v : β) :
    HtmlPrints (htmlCell text title) [v] [(title, text v)] :=
  fun out rest => ⟨[.cell title (text v)], by simp [htmlCell], rfl⟩

theorem htmlDots_markup {β : Type} (cols lim : Nat) : OnlyMarkup (htmlDots (β := β) cols lim) := by
  have fold : ∀ (nb : Nat) (ks : List Nat) (s : HtmlState β), ∃ h,
      ks.foldl (fun (s : HtmlState β) k => if k = lim ∧ nb ≠ cols then s.tag "<td>diagonal</td>"
        else s.tag "<td>vertical</td>") s = ⟨s.out ++ h, s.rest⟩ ∧ htmlCells h = [] := by
    intro nb ks
    induction ks with
    | nil => intro s; exact ⟨[], by simp, rfl⟩
    | cons k ks ih =>
      intro s
      rw [List.foldl_cons]
      split
      · obtain ⟨h, h1, h2⟩ := ih (s.tag "<td>diagonal</td>")
        exact ⟨[.markup "<td>diagonal</td>"] ++ h, by rw [h1]; simp [HtmlState.tag], by rw [htmlCells_append, h2]; rfl⟩
      · obtain ⟨h, h1, h2⟩ := ih (s.tag "<td>vertical</td>")
        exact ⟨[.markup "<td>vertical</td>"] ++ h, by rw [h1]; simp [HtmlState.tag], by rw [htmlCells_append, h2]; rfl⟩
  intro s
  unfold htmlDots
  simp only []
  obtain ⟨h, h1, h2⟩ := fold (if cols ≤ 2 * lim + 1 then cols else 2 * lim + 1)
    (List.range (if cols ≤ 2 * lim + 1 then cols else 2 * lim + 1)) (s.tag "<tr>")
  refine ⟨[.markup "<tr>"] ++ h ++ [.markup "</tr>"], ?_, by rw [htmlCells_append, htmlCells_append, h2]; rfl⟩
  rw [h1]
  simp [HtmlState.tag]

/-- The cells for the axes that are left. -/
def expectedCells {β : Type} (text : β → List Nat) (e : List Nat → β) (lim : Nat) (pre sh : List Nat) :
    List (List Nat × List Nat) :=
  (shownIndices lim sh).map fun j => (pre ++ j, text (e (pre ++ j)))

theorem htmlNd_prints {β : Type} (text : β → List Nat) (e : List Nat → β) (lim : Nat) :
    ∀ (sh : List Nat) (pre : List Nat), 2 ≤ sh.length →
      HtmlPrints (htmlNd text lim sh pre) ((shownIndices lim sh).map fun j => e (pre ++ j)) (expectedCells text e lim pre sh)
  | [], _, h => by simp at h
  | [_], _, h => by simp at h
  | [n, m], pre, _ => by
    have hrow : ∀ r < n, HtmlPrints (fun s => htmlRow text m lim pre r s)
        (((shown m lim).filterMap id).flatMap fun k => [e (pre ++ [r, k])])
        (((shown m lim).filterMap id).flatMap fun k => [(pre ++ [r, k], text (e (pre ++ [r, k])))]) := by
      intro r _
      exact (htmlAxis_prints m lim (fun col s => htmlCell text (pre ++ [r, col]) s) (·.tag "<td>horizontal</td>")
        (onlyMarkup_tag _) _ _ (fun k _ => htmlCell_prints text (pre ++ [r, k]) (e (pre ++ [r, k])))).wrap _ _
    have := (htmlAxis_prints n lim (fun row s => htmlRow text m lim pre row s) (htmlDots m lim) (htmlDots_markup m lim) _ _
      hrow).wrap "<table>" "</table>"
    intro out rest
    obtain ⟨h, h1, h2⟩ := this out rest
    refine ⟨h, ?_, ?_⟩
    · have e1 : (shownIndices lim [n, m]).map (fun j => e (pre ++ j)) =
          ((shown n lim).filterMap id).flatMap fun r => ((shown m lim).filterMap id).flatMap fun k => [e (pre ++ [r, k])] := by
        simp [shownIndices, List.map_flatMap]
      rw [e1]
      unfold htmlNd
      rw [if_pos rfl]
      exact h1
    · rw [h2]
      simp [expectedCells, shownIndices, List.map_flatMap]
  | n :: m :: k :: sh, pre, _ => by
    have hrow : ∀ r < n, HtmlPrints
        (fun s => (htmlNd text lim (m :: k :: sh) (pre ++ [r]) (s.tag "<tr><td>")).map (·.tag "</td></tr>"))
        ((shownIndices lim (m :: k :: sh)).map fun j => e (pre ++ [r] ++ j))
        (expectedCells text e lim (pre ++ [r]) (m :: k :: sh)) := by
      intro r _
      exact (htmlNd_prints text e lim (m :: k :: sh) (pre ++ [r]) (by simp)).wrap _ _
    have := (htmlAxis_prints n lim _ (·.tag "<tr><td>horizontal</td></tr>") (onlyMarkup_tag _) _ _ hrow).wrap
      "<table>" "</table>"
    intro out rest
    obtain ⟨h, h1, h2⟩ := this out rest
    refine ⟨h, ?_, ?_⟩
    · have e1 : (shownIndices lim (n :: m :: k :: sh)).map (fun j => e (pre ++ j)) =
          ((shown n lim).filterMap id).flatMap fun r =>
            (shownIndices lim (m :: k :: sh)).map fun j => e (pre ++ [r] ++ j) := by
        rw [shownIndices]
        simp only [List.map_flatMap, List.map_map]
        congr 1
        funext i
        congr 1
        funext j
        simp
      rw [e1]
      unfold htmlNd
      rw [if_neg (by simp)]
      exact h1
    · rw [h2]
      conv => rhs; unfold expectedCells; rw [shownIndices]
      simp only [List.map_flatMap, List.map_map]
      congr 1
      funext i
      unfold expectedCells
      congr 1
      funext j
      simp

theorem html1d_prints {β : Type} (text : β → List Nat) (e : List Nat → β) (n lim : Nat) :
    HtmlPrints (html1d text n lim) ((shownIndices lim [n]).map e) (expectedCells text e lim [] [n]) := by
  have := (htmlAxis_prints n lim (fun i s => (htmlCell text [i] (s.tag "<tr>")).map (·.tag "</tr>"))
    (·.tag "<tr><td>vertical</td></tr>") (onlyMarkup_tag _) _ _
    (fun k _ => (htmlCell_prints text [k] (e [k])).wrap "<tr>" "</tr>")).wrap "<table>" "</table>"
  intro out rest
  obtain ⟨h, h1, h2⟩ := this out rest
  refine ⟨h, ?_, ?_⟩
  · have e1 : (shownIndices lim [n]).map e = ((shown n lim).filterMap id).flatMap fun k => [e [k]] := by
      simp [shownIndices, List.map_flatMap]
    rw [e1]
    exact h1
  · rw [h2]
    simp [expectedCells, shownIndices, List.map_flatMap]

/-- HTML: the cells are those of the elements that are shown, in order; each carries its index and its text.  (An expression
without axes is written with `<<` instead of the printer.)  Partial: the array has elements, and there is not one edge item
with an axis longer than two (`C71_html_empty_undefined`, `C71_one_edge_item_undefined`). -/
theorem C71_html_partial {β : Type} (P : Printer β) (raw : β → List Nat) (g : PrintOptions) (prec : Int) (shape : List Nat)
    (e : List Nat → β) (hpos : ∀ n ∈ shape, 0 < n ∧ n < 2 ^ 64)
    (hg : 0 ≤ g.edgeItems ∧ g.edgeItems < 2 ^ 31 ∧ 0 ≤ g.threshold ∧ g.threshold < 2 ^ 31)
    (lim : Nat) (hlim : lim = if numel shape > g.threshold.toNat then g.edgeItems.toNat else 0)
    (hone : lim = 1 → ∀ n ∈ shape, n ≤ 2) (p : Int) (hp : p = if g.precision = -1 then prec else g.precision) :
    ∃ h, mimeRepr P raw g prec shape e = .ok h ∧
      htmlCells h = (shownIndices lim shape).map fun idx =>
        (idx, if shape = [] then raw (e idx) else P.text p ((shownIndices lim shape).map e) (e idx)) := by
  have hP : ∀ n ∈ shape, Printable lim n := fun n hn => ⟨(hpos n hn).1, (hpos n hn).2, fun h => hone h n hn⟩
  have hc := recurserRun_eq shape e lim shape [] [] hP inBounds_id
  simp only [List.nil_append] at hc
  have hl : (if shape.foldl (· * ·) 1 > sizeOfInt g.threshold then sizeOfInt g.edgeItems else 0) = lim := by
    rw [foldl_mul_eq, Nat.one_mul, sizeOfInt_nonneg hg.1 hg.2.1, sizeOfInt_nonneg hg.2.2.1 hg.2.2.2, hlim]
  have hp' : (if g.precision ≠ -1 then g.precision else prec) = p := by
    rw [hp]
    by_cases h : g.precision = -1 <;> simp [h]
  unfold mimeRepr
  simp only [hl, hp', hc, Res.bind_ok]
  match shape with
  | [] =>
    refine ⟨_, rfl, ?_⟩
    simp [htmlCells, shownIndices]
  | [n] =>
    obtain ⟨h, h1, h2⟩ := html1d_prints (P.text p ((shownIndices lim [n]).map e)) e n lim [] []
    rw [List.append_nil] at h1
    refine ⟨h, by simp only []; rw [h1, Res.map_ok]; rfl, ?_⟩
    rw [h2]
    simp [expectedCells]
  | n :: m :: sh =>
    obtain ⟨h, h1, h2⟩ := htmlNd_prints (P.text p ((shownIndices lim (n :: m :: sh)).map e)) e lim (n :: m :: sh) []
      (by simp) [] []
    simp only [List.append_nil, List.nil_append] at h1
    refine ⟨h, by simp only []; rw [h1, Res.map_ok], ?_⟩
    rw [h2]
    simp [expectedCells]

/-! ### What is not true of the code -/

/-- The standard options. -/
def stdOptions : PrintOptions := ⟨3, 75, 1000, -1⟩

/-- With one edge item every sequence longer than two that is to be abbreviated is read out of bounds, and the loop does not
end. -/
theorem C71_one_edge_item_undefined {β : Type} (P : Printer β) (n : Nat) (hn : 2 < n) (hn' : n < 2 ^ 64) (e : List Nat → β)
    (text : List Nat) (prec : Int) (g : PrintOptions) :
    prettyPrint P g [n] e ⟨text, prec, ⟨1, 0, 1, 0⟩⟩ = .ub := by
  have hrun : recurserRun [n] e 1 [n] [] [] = .ub := by
    unfold recurserRun
    obtain ⟨k, rfl⟩ : ∃ k, n = k + 3 := ⟨n - 3, by omega⟩
    have hs : sizePred (k + 3) = k + 2 := sizePred_pos (by omega) hn'
    have hb : ∀ i c, recurserRun [k + 3] e 1 [] [i] c = if i < k + 3 then .ok (c ++ [e [i]]) else .ub := by
      intro i c
      unfold recurserRun elementAt
      by_cases h : i < k + 3
      · have : InBounds [k + 3] [i] := ⟨h, trivial⟩
        rw [if_pos this, if_pos h]; rfl
      · have : ¬ InBounds [k + 3] [i] := fun h' => h h'.1
        rw [if_neg this, if_neg h]; rfl
    have hloop : recurserLoop (k + 3) 1 (fun i c => recurserRun [k + 3] e 1 [] ([] ++ [i]) c) (k + 3) 0 ([] : List β) = .ub := by
      simp only [List.nil_append]
      unfold recurserLoop
      rw [if_neg (by omega), if_neg (by omega)]
      simp only [hb]
      rw [if_pos (by omega), Res.bind_ok]
      unfold recurserLoop
      have hj : (1 : Nat) ≠ 0 ∧ k + 3 > 1 * 2 ∧ 0 + 1 = 1 := by omega
      rw [if_neg (by omega), if_pos hj]
      simp only [hb]
      rw [if_pos (by omega), Res.bind_ok]
      unfold recurserLoop
      have hj' : ¬((1 : Nat) ≠ 0 ∧ k + 3 > 1 * 2 ∧ k + 3 - 1 + 1 = 1) := by omega
      rw [if_neg (by omega), if_neg hj']
      simp only [hb]
      rw [if_neg (by omega), Res.bind_ub]
    rw [hloop, Res.bind_ub]
  have hz : ¬ [n].foldl (· * ·) 1 = 0 := by simp; omega
  have h1 : sizeOfInt 1 = 1 := by decide
  unfold prettyPrint
  simp only [getPrintOptions, takeOption, if_neg hz, if_true]
  have hl : ∀ l p, printLimit ([n].foldl (· * ·) 1) ⟨1, l, 1, p⟩ = 1 := by
    intro l p
    unfold printLimit
    simp only [h1]
    rw [if_pos (by simp; omega)]
  rw [if_neg (by decide), if_neg (by decide)]
  simp only [hl]
  split <;> rw [hrun, Res.bind_ub]

example : prettyPrint (intPrinter 32) stdOptions [4, 2] (fun i => i.getD 0 0) ⟨[], 6, ⟨1, 0, 3, 0⟩⟩ = .ub := by
  decide +kernel

/-- A manipulator with the value zero is ignored: after `po::threshold(0)` everything is printed, although the same
threshold set globally abbreviates. -/
theorem C71_zero_option_wrong :
    prettyPrint (intPrinter 32) stdOptions [8] (fun i => i.getD 0 0) ⟨[], 6, givenWords none none (some 0) none⟩
      = .ok ⟨ascii "{0, 1, 2, 3, 4, 5, 6, 7}".toList, 6, ⟨0, 0, 0, 0⟩⟩ ∧
    prettyPrint (intPrinter 32) { stdOptions with threshold := 0 } [8] (fun i => i.getD 0 0) ⟨[], 6, ⟨0, 0, 0, 0⟩⟩
      = .ok ⟨ascii "{0, 1, 2, ..., 5, 6, 7}".toList, 6, ⟨0, 0, 0, 0⟩⟩ := by decide +kernel

/-- HTML of an array without elements is undefined. -/
theorem C71_html_empty_undefined : mimeRepr (intPrinter 32) writeInt stdOptions 6 [0] (fun _ => 0) = .ub ∧
    mimeRepr (intPrinter 32) writeInt stdOptions 6 [2, 0] (fun _ => 0) = .ub := by decide +kernel

theorem not_linesWithin {w : Nat} (b c : List Nat) (hb : 10 ∉ b) (hl : w < b.length) : ¬ LinesWithin w (b ++ c) := by
  intro h
  have := h [] b c rfl hb
  omega

/-- Lines longer than the line width: rows of arrays with two axes, abbreviated sequences, and sequences of elements that
do not fit on a line, which are not broken at all. -/
theorem C71_line_width_wrong :
    (∃ t, prettyPrint (intPrinter 32) { stdOptions with lineWidth := 6 } [1, 2] (fun _ => 0) ⟨[], 6, ⟨0, 0, 0, 0⟩⟩ = .ok t ∧
      ¬ LinesWithin 6 t.text) ∧
    (∃ t, prettyPrint (intPrinter 32) { stdOptions with lineWidth := 9, threshold := 1, edgeItems := 2 } [5] (fun _ => 0)
      ⟨[], 6, ⟨0, 0, 0, 0⟩⟩ = .ok t ∧ ¬ LinesWithin 9 t.text) ∧
    (∃ t, prettyPrint (intPrinter 32) { stdOptions with lineWidth := 2 } [3] (fun _ => 0) ⟨[], 6, ⟨0, 0, 0, 0⟩⟩ = .ok t ∧
      ¬ LinesWithin 2 t.text) :=
  ⟨⟨⟨ascii "{{0, 0}}".toList ++ [], 6, ⟨0, 0, 0, 0⟩⟩, by decide +kernel,
    not_linesWithin _ _ (by decide +kernel) (by decide +kernel)⟩,
   ⟨⟨ascii "{0, 0, ..., 0,".toList ++ ascii "\n 0}".toList, 6, ⟨0, 0, 0, 0⟩⟩, by decide +kernel,
    not_linesWithin _ _ (by decide +kernel) (by decide +kernel)⟩,
   ⟨⟨ascii "{0, 0, 0}".toList ++ [], 6, ⟨0, 0, 0, 0⟩⟩, by decide +kernel,
    not_linesWithin _ _ (by decide +kernel) (by decide +kernel)⟩⟩

/-- The smallest number of a type is not counted in the width: `{-128, 5}` as `int8_t`. -/
theorem C71_smallest_integer_wrong :
    ((intPrinter 8).text 6 [-128, 5] (-128)).length ≠ (intPrinter 8).width 6 [-128, 5] := by decide

/-! ### Examples -/

example : prettyPrint (intPrinter 32) stdOptions [2, 3] (fun i => 10 * i.getD 0 0 - i.getD 1 0) ⟨[], 6, ⟨0, 0, 0, 0⟩⟩
    = .ok ⟨ascii "{{  0,  -1,  -2},\n { 10,   9,   8}}".toList, 6, ⟨0, 0, 0, 0⟩⟩ := by decide +kernel

/-- The hypotheses of `C71_pretty_print_partial` are met by an array that is abbreviated, with given options. -/
example : ∃ t, prettyPrint (intPrinter 32) stdOptions [9, 2] (fun i => i.getD 0 0)
      ⟨[], 6, givenWords (some 2) none (some 5) none⟩ = .ok ⟨[] ++ t, 6, ⟨0, 0, 0, 0⟩⟩ ∧
    IsLiteral 2 (fun idx => (intPrinter 32).text 6 ((shownIndices 2 [9, 2]).map fun i => (i.getD 0 0 : Int))
      (idx.getD 0 0)) [9, 2] [] t :=
  C71_pretty_print_partial (intPrinter 32) stdOptions [9, 2] (fun i => i.getD 0 0) [] 6 (some 2) none (some 5) none
    (by decide) (by decide) (by decide) 2 (by decide) (by decide) 6 (by decide)

example : prettyPrint (intPrinter 32) stdOptions [9, 2] (fun i => i.getD 0 0) ⟨[], 6, givenWords (some 2) none (some 5) none⟩
    = .ok ⟨ascii "{{0, 0},\n {1, 1},\n ...,\n {7, 7},\n {8, 8}}".toList, 6, ⟨0, 0, 0, 0⟩⟩ := by decide +kernel

/-- The hypotheses of `C71_line_width_partial` are met, and the line is broken. -/
example : ∃ o, prettyPrint (intPrinter 32) { stdOptions with lineWidth := 9 } [7] (fun i => i.getD 0 0)
      ⟨[], 6, ⟨0, 0, 0, 0⟩⟩ = .ok o ∧ LinesWithin 9 o.text :=
  C71_line_width_partial (intPrinter 32) { stdOptions with lineWidth := 9 } 7 (by decide) (by decide) (fun i => i.getD 0 0) 6
    [0, 1, 2, 3, 4, 5, 6] (by decide) (by decide) (by decide) 6 (by decide) (by decide) (by decide)

example : prettyPrint (intPrinter 32) { stdOptions with lineWidth := 9 } [7] (fun i => i.getD 0 0) ⟨[], 6, ⟨0, 0, 0, 0⟩⟩
    = .ok ⟨ascii "{0, 1, 2,\n 3, 4, 5,\n 6}".toList, 6, ⟨0, 0, 0, 0⟩⟩ := by decide +kernel

example : ((intPrinter 8).text 6 [-12, 127, 5] 5).length = (intPrinter 8).width 6 [-12, 127, 5] :=
  C71_integers_aligned_partial (by decide) 6 _ (by decide) 5 (by decide)

example : stringPrinter.text 6 [ascii "ab".toList, ascii "c".toList] (ascii "c".toList) = ascii " c".toList := by decide

/-- The hypotheses of `C71_html_partial` are met by an abbreviated array. -/
example : ∃ h, mimeRepr (intPrinter 32) writeInt ⟨2, 75, 4, -1⟩ 6 [5, 2] (fun i => i.getD 0 0) = .ok h ∧
    htmlCells h = (shownIndices 2 [5, 2]).map fun idx => (idx, if [5, 2] = ([] : List Nat) then writeInt (idx.getD 0 0)
      else (intPrinter 32).text 6 ((shownIndices 2 [5, 2]).map fun i => (i.getD 0 0 : Int)) (idx.getD 0 0)) :=
  C71_html_partial (intPrinter 32) writeInt ⟨2, 75, 4, -1⟩ 6 [5, 2] (fun i => i.getD 0 0) (by decide) (by decide) 2
    (by decide) (by decide) 6 (by decide)

example : shownIndices 2 [5, 2] = [[0, 0], [0, 1], [1, 0], [1, 1], [3, 0], [3, 1], [4, 0], [4, 1]] := by decide

end Xt
