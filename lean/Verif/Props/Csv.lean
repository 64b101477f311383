import Mathlib.Data.List.TakeWhile
import Verif.Model.Csv
import Verif.Spec.Csv
import Verif.Props.ExprIter
import Verif.Props.Npy
import Verif.Lemmas.Sort
/-!
# C68: comma separated values
-/

namespace Xt
open Spec

variable {α : Type}

/-! ### Cutting texts -/

theorem getLine_cut {d : Nat} {l s : List Nat} (h : d ∉ l) : getLine d (l ++ d :: s) = some (l, s) := by
  have h1 : (l ++ d :: s).takeWhile (fun x => decide (x ≠ d)) = l := by
    rw [List.takeWhile_append_of_pos (by intro x hx; simp; rintro rfl; exact h hx)]; simp
  have h2 : (l ++ d :: s).dropWhile (fun x => decide (x ≠ d)) = d :: s := by
    rw [List.dropWhile_append_of_pos (by intro x hx; simp; rintro rfl; exact h hx)]; simp
  unfold getLine
  rw [if_neg (by simp), h1, h2]
  rfl

theorem getLine_last {d : Nat} {l : List Nat} (h : d ∉ l) (hn : l ≠ []) : getLine d l = some (l, []) := by
  have h1 : l.takeWhile (fun x => decide (x ≠ d)) = l := by
    rw [List.takeWhile_eq_self_iff]; intro x hx; simp; rintro rfl; exact h hx
  have h2 : l.dropWhile (fun x => decide (x ≠ d)) = [] := by
    rw [List.dropWhile_eq_nil_iff]; intro x hx; simp; rintro rfl; exact h hx
  unfold getLine
  rw [if_neg hn, h1, h2]
  rfl

theorem csvRowLoop_nil (cast : List Nat → Res α) (d fuel : Nat) (data : List α) (n : Nat) :
    csvRowLoop cast d fuel [] data n = .ok (data, n) := by
  cases fuel <;> simp [csvRowLoop, getLine]

/-- The cells of a row are read in order. -/
theorem csvRowLoop_join {cast : List Nat → Res α} {d : Nat} {val : List Nat → α} :
    ∀ (cells : List (List Nat)) (fuel : Nat) (data : List α) (n : Nat),
    (∀ c ∈ cells, d ∉ c) → cells.getLast? ≠ some [] → (joinWith [d] cells).length ≤ fuel →
    (∀ c ∈ cells, cast c = .ok (val c)) →
    csvRowLoop cast d fuel (joinWith [d] cells) data n = .ok (data ++ cells.map val, n + cells.length)
  | [], fuel, data, n, _, _, _, _ => by simp [joinWith, csvRowLoop_nil]
  | [x], fuel, data, n, hd, hl, hf, hc => by
    have hx : x ≠ [] := by rintro rfl; simp at hl
    obtain ⟨f, rfl⟩ : ∃ f, fuel = f + 1 := by
      have : 0 < x.length := List.length_pos_iff.2 hx
      exact ⟨fuel - 1, by simp only [joinWith] at hf; omega⟩
    simp only [joinWith, csvRowLoop, getLine_last (hd x (by simp)) hx, hc x (by simp), Res.bind_ok,
      csvRowLoop_nil]
    simp
  | x :: y :: l, fuel, data, n, hd, hl, hf, hc => by
    obtain ⟨f, rfl⟩ : ∃ f, fuel = f + 1 := by
      exact ⟨fuel - 1, by simp [joinWith] at hf; omega⟩
    have he : joinWith [d] (x :: y :: l) = x ++ d :: joinWith [d] (y :: l) := by simp [joinWith]
    have hf' : (joinWith [d] (y :: l)).length ≤ f := by rw [he] at hf; simp at hf; omega
    rw [he]
    simp only [csvRowLoop, getLine_cut (hd x (by simp)), hc x (by simp), Res.bind_ok]
    rw [csvRowLoop_join (y :: l) f _ _ (fun c h => hd c (by simp [h]))
      (by simpa using hl) hf' (fun c h => hc c (by simp [h]))]
    simp [Nat.add_assoc, Nat.add_comm 1]

/-! ### The loop over the lines -/

theorem equalFrom_eq : ∀ (cm row : List Nat), 0 ∉ cm → equalFrom cm row = .ok (decide (cm <+: row))
  | [], row, _ => by simp [equalFrom]
  | c :: cs, [], h => by
    have : c ≠ 0 := by rintro rfl; simp at h
    simp [equalFrom, this]
  | c :: cs, r :: rs, h => by
    simp only [equalFrom]
    by_cases hc : c = r
    · subst hc
      rw [if_pos rfl, equalFrom_eq cs rs (fun h' => h (by simp [h']))]
      simp [List.cons_prefix_cons]
    · rw [if_neg hc]; simp [List.cons_prefix_cons, hc]

/-- `csvLoop` on a list of lines. -/
def csvLines (cast : List Nat → Res α) (cfg : CsvConfig) :
    List (List Nat) → CsvState α → Res (CsvState α × List (List Nat))
  | [], st => .ok (st, [])
  | row :: rest, st =>
      if st.nhead < cfg.skipRows then csvLines cast cfg rest { st with nhead := st.nhead + 1 }
      else (equalFrom cfg.comments row).bind fun c =>
        if c then csvLines cast cfg rest st
        else if 0 < cfg.maxRows ∧ cfg.maxRows ≤ (st.nbrow : Int) then .ok (st, rest)
        else (loadCsvRow cast cfg.delimiter row st.data).bind fun r =>
          csvLines cast cfg rest { st with data := r.1, nbcol := r.2, nbrow := st.nbrow + 1 }

theorem csvLoop_nil (cast : List Nat → Res α) (cfg : CsvConfig) (fuel : Nat) (st : CsvState α) :
    csvLoop cast cfg fuel [] st = .ok (st, []) := by
  cases fuel <;> simp [csvLoop, getLine]

theorem csvLoop_eq {cast : List Nat → Res α} {cfg : CsvConfig} {ls : List (List Nat)} {s : List Nat}
    (h : IsText ls s) : (∀ l ∈ ls, 10 ∉ l) → ∀ (fuel : Nat) (st : CsvState α), s.length ≤ fuel →
    ∃ f : List (List Nat) → List Nat,
      csvLoop cast cfg fuel s st = (csvLines cast cfg ls st).map fun r => (r.1, f r.2) := by
  induction h with
  | nil => intro _ fuel st _; exact ⟨fun _ => [], by simp [csvLoop_nil, csvLines]⟩
  | last l hl =>
    intro hn fuel st hf
    obtain ⟨f, rfl⟩ : ∃ f, fuel = f + 1 := by
      have : 0 < l.length := List.length_pos_iff.2 hl
      exact ⟨fuel - 1, by omega⟩
    refine ⟨fun _ => [], ?_⟩
    simp only [csvLoop, getLine_last (hn l (by simp)) hl, csvLines, csvLoop_nil]
    split
    · rfl
    · cases equalFrom cfg.comments l with
      | throws => rfl
      | ub => rfl
      | ok c =>
        simp only [Res.bind_ok]
        split
        · rfl
        · split
          · rfl
          · cases loadCsvRow cast cfg.delimiter l st.data <;> rfl
  | cons l ls s _ ih =>
    intro hn fuel st hf
    obtain ⟨f, rfl⟩ : ∃ f, fuel = f + 1 := ⟨fuel - 1, by simp at hf; omega⟩
    have ih' := ih (fun l h => hn l (by simp [h])) f
    have hf' : s.length ≤ f := by simp at hf; omega
    simp only [csvLoop, getLine_cut (hn l (by simp)), csvLines]
    split
    · exact ih' _ hf'
    · cases equalFrom cfg.comments l with
      | throws => exact ⟨fun _ => [], rfl⟩
      | ub => exact ⟨fun _ => [], rfl⟩
      | ok c =>
        simp only [Res.bind_ok]
        split
        · exact ih' _ hf'
        · split
          · exact ⟨fun _ => s, rfl⟩
          · cases loadCsvRow cast cfg.delimiter l st.data with
            | throws => exact ⟨fun _ => [], rfl⟩
            | ub => exact ⟨fun _ => [], rfl⟩
            | ok r => exact ih' _ hf'

theorem csvLines_header {cast : List Nat → Res α} {cfg : CsvConfig} (ls : List (List Nat)) :
    ∀ (hd : List (List Nat)) (st : CsvState α), hd.length + st.nhead = cfg.skipRows →
    csvLines cast cfg (hd ++ ls) st = csvLines cast cfg ls { st with nhead := cfg.skipRows }
  | [], st, h => by simp at h; simp [← h]
  | x :: hd, st, h => by
    simp only [List.length_cons] at h
    simp only [List.cons_append, csvLines]
    rw [if_pos (by omega), csvLines_header ls hd _ (by simp only; omega)]

/-- How many rows may still be read; negative: all. -/
def csvLeft (cfg : CsvConfig) (n : Nat) : Int := if cfg.maxRows < 0 then -1 else cfg.maxRows - (n : Int)

/-- State after reading the rows `w`. -/
def csvAdd (val : List Nat → α) (k : Nat) (st : CsvState α) (w : List (List (List Nat))) : CsvState α :=
  ⟨st.data ++ w.flatten.map val, st.nbrow + w.length, if w.isEmpty then st.nbcol else k, st.nhead⟩

theorem csvLines_body {cast : List Nat → Res α} {cfg : CsvConfig} {k : Nat} {val : List Nat → α}
    (h0 : 0 ∉ cfg.comments) (hm : cfg.maxRows ≠ 0) :
    ∀ (ls : List CsvLine) (st : CsvState α), st.nhead = cfg.skipRows →
    (0 < cfg.maxRows → (st.nbrow : Int) ≤ cfg.maxRows) →
    (∀ l ∈ ls, l.Good cfg.delimiter cfg.comments k) →
    (∀ row ∈ csvRows ls, ∀ c ∈ row, cast c = .ok (val c)) →
    ∃ rest, csvLines cast cfg (ls.map (CsvLine.text cfg.delimiter cfg.comments)) st =
      .ok (csvAdd val k st (wantedRows (csvLeft cfg st.nbrow) (csvRows ls)), rest)
  | [], st, _, _, _, _ => ⟨[], by simp [csvLines, csvRows, wantedRows, csvAdd]⟩
  | .comment t :: ls, st, hh, hb, hg, hc => by
    obtain ⟨rest, hr⟩ := csvLines_body (k := k) h0 hm ls st hh hb (fun l h => hg l (by simp [h])) hc
    refine ⟨rest, ?_⟩
    simp only [List.map_cons, csvLines, CsvLine.text, csvRows]
    rw [if_neg (by omega), equalFrom_eq _ _ h0]
    simp only [Res.bind_ok, List.prefix_append, decide_true, if_true]
    exact hr
  | .row cells :: ls, st, hh, hb, hg, hc => by
    have hgr := hg (.row cells) (by simp)
    have e : csvRows (.row cells :: ls) = cells :: csvRows ls := rfl
    simp only [List.map_cons, csvLines, CsvLine.text]
    rw [e, if_neg (by omega), equalFrom_eq _ _ h0]
    have hpre : decide (cfg.comments <+: joinWith [cfg.delimiter] cells) = false := by simpa using hgr.2.2.2
    simp only [Res.bind_ok, hpre, Bool.false_eq_true, if_false]
    by_cases hstop : 0 < cfg.maxRows ∧ cfg.maxRows ≤ (st.nbrow : Int)
    · rw [if_pos hstop]
      have hw : ∀ (rs : List (List (List Nat))), wantedRows (csvLeft cfg st.nbrow) rs = [] := by
        intro rs
        have := hb hstop.1
        unfold wantedRows csvLeft
        rw [if_neg (by omega), if_neg (by omega)]
        have : (cfg.maxRows - (st.nbrow : Int)).toNat = 0 := by omega
        simp [this]
      rw [hw]
      exact ⟨ls.map (CsvLine.text cfg.delimiter cfg.comments), by simp [csvAdd]⟩
    · rw [if_neg hstop]
      have hrow : loadCsvRow cast cfg.delimiter (joinWith [cfg.delimiter] cells) st.data =
          .ok (st.data ++ cells.map val, 0 + cells.length) :=
        csvRowLoop_join cells _ _ _ (fun c h => (hgr.2.1 c h).1) hgr.2.2.1 (Nat.le_refl _)
          (fun c h => hc cells (by simp [csvRows]) c h)
      rw [hrow]
      simp only [Res.bind_ok]
      obtain ⟨rest, hr⟩ := csvLines_body (k := k) h0 hm ls
        ⟨st.data ++ cells.map val, st.nbrow + 1, 0 + cells.length, st.nhead⟩ hh
        (fun h => by simp only; push_cast; omega) (fun l h => hg l (by simp [h]))
        (fun row h => hc row (by simp [csvRows, h]))
      refine ⟨rest, ?_⟩
      rw [hr]
      have hw : wantedRows (csvLeft cfg st.nbrow) (cells :: csvRows ls) =
          cells :: wantedRows (csvLeft cfg (st.nbrow + 1)) (csvRows ls) := by
        unfold csvLeft wantedRows
        by_cases hneg : cfg.maxRows < 0
        · rw [if_pos hneg, if_pos hneg]; rfl
        · rw [if_neg hneg, if_neg hneg, if_neg (by omega), if_neg (by push_cast; omega)]
          have : (cfg.maxRows - (st.nbrow : Int)).toNat = (cfg.maxRows - ((st.nbrow + 1 : Nat) : Int)).toNat + 1 := by
            push_cast; omega
          rw [this, List.take_succ_cons]
      rw [hw]
      have hk : cells.length = k := hgr.1
      simp [csvAdd, hk, Nat.add_assoc, Nat.add_comm 1]

/-! ### Reading -/

theorem joinWith_noNl {d : Nat} (hd : d ≠ 10) : ∀ (cells : List (List Nat)), (∀ c ∈ cells, 10 ∉ c) →
    10 ∉ joinWith [d] cells
  | [], _ => by simp [joinWith]
  | [x], h => by simpa [joinWith] using h
  | x :: y :: l, h => by
    have := joinWith_noNl hd (y :: l) (fun c hc => h c (by simp [hc]))
    simp only [joinWith, List.mem_append, List.mem_singleton]
    rintro ((h1 | h1) | h1)
    · exact h x (by simp) h1
    · exact hd h1.symm
    · exact this h1

/-- A table of `k` columns below a header of `skip_rows` lines, with comment lines anywhere, is read as the array of its
rows, or of the first `max_rows` of them, whatever the delimiter, the comment marker and the conversion of cells. -/
theorem C68_load (cast : List Nat → Res α) (cfg : CsvConfig) (k : Nat) (val : List Nat → α)
    (header : List (List Nat)) (lines : List CsvLine) (s : List Nat)
    (hs : IsText (header ++ lines.map (CsvLine.text cfg.delimiter cfg.comments)) s)
    (hh : header.length = cfg.skipRows) (hh' : ∀ l ∈ header, 10 ∉ l)
    (hd : cfg.delimiter ≠ 10) (hcm : 0 ∉ cfg.comments ∧ 10 ∉ cfg.comments) (hm : cfg.maxRows ≠ 0)
    (hg : ∀ l ∈ lines, l.Good cfg.delimiter cfg.comments k)
    (hc : ∀ row ∈ csvRows lines, ∀ c ∈ row, cast c = .ok (val c))
    (hne : csvRows lines ≠ []) :
    ∃ rest, loadCsv cast cfg s =
      .ok (⟨[(wantedRows cfg.maxRows (csvRows lines)).length, k], .row_major,
        (wantedRows cfg.maxRows (csvRows lines)).flatten.map val⟩, rest) := by
  have hnl : ∀ l ∈ header ++ lines.map (CsvLine.text cfg.delimiter cfg.comments), 10 ∉ l := by
    intro l hl
    rcases List.mem_append.1 hl with h | h
    · exact hh' l h
    · obtain ⟨x, hx, rfl⟩ := List.mem_map.1 h
      cases x with
      | comment t =>
        have : 10 ∉ t := hg _ hx
        simp [CsvLine.text, hcm.2, this]
      | row cells => exact joinWith_noNl hd cells fun c h => ((hg _ hx).2.1 c h).2
  obtain ⟨f, hf⟩ := csvLoop_eq (cast := cast) (cfg := cfg) hs hnl s.length ⟨[], 0, 0, 0⟩ (Nat.le_refl _)
  obtain ⟨rest, hr⟩ := csvLines_body (k := k) (val := val) hcm.1 hm lines ⟨[], 0, 0, cfg.skipRows⟩ rfl
    (fun h => by simp only; omega) hg hc
  rw [csvLines_header _ header _ (by simpa using hh)] at hf
  rw [hr] at hf
  have hw : wantedRows (csvLeft cfg 0) (csvRows lines) = wantedRows cfg.maxRows (csvRows lines) := by
    unfold csvLeft wantedRows
    by_cases hneg : cfg.maxRows < 0
    · simp [hneg]
    · simp [hneg]
  have hrows : ∀ row ∈ csvRows lines, row.length = k := by
    clear hs hc hne hnl f hf rest hr hw
    induction lines with
    | nil => simp [csvRows]
    | cons l ls ih =>
      have ih := ih fun l h => hg l (by simp [h])
      cases l with
      | comment t => simpa [csvRows] using ih
      | row cells =>
        intro row h
        simp only [csvRows, List.mem_cons] at h
        rcases h with rfl | h
        · exact (hg (.row row) (by simp)).1
        · exact ih row h
  have hsub : ∀ row ∈ wantedRows cfg.maxRows (csvRows lines), row.length = k := by
    intro row h
    unfold wantedRows at h
    split at h
    · exact hrows row h
    · exact hrows row (List.mem_of_mem_take h)
  have hwne : wantedRows cfg.maxRows (csvRows lines) ≠ [] := by
    unfold wantedRows
    split
    · exact hne
    · simp [hne]; omega
  have hlen : ((wantedRows cfg.maxRows (csvRows lines)).flatten.map val).length =
      (wantedRows cfg.maxRows (csvRows lines)).length * k := by
    rw [List.length_map, List.length_flatten]
    generalize wantedRows cfg.maxRows (csvRows lines) = w at hsub
    clear hwne hw hf hr
    induction w with
    | nil => simp
    | cons x w ih =>
      simp only [List.map_cons, List.sum_cons, List.length_cons]
      rw [ih fun row h => hsub row (by simp [h]), hsub x (by simp)]
      ring
  refine ⟨f rest, ?_⟩
  unfold loadCsv
  rw [hf]
  have hie : (wantedRows cfg.maxRows (csvRows lines)).isEmpty = false := by
    simpa [List.isEmpty_iff] using hwne
  simp only [Res.map_ok, Res.bind_ok, csvAdd, hw, hie, Bool.false_eq_true, if_false, List.nil_append, Nat.zero_add, hlen]
  simp

/-! ### Writing -/

theorem joinWith_snoc (sep : List Nat) : ∀ (l : List (List Nat)) (x : List Nat),
    joinWith sep (l ++ [x]) = (l.flatMap fun c => c ++ sep) ++ x
  | [], x => by simp [joinWith]
  | [y], x => by simp [joinWith]
  | y :: z :: l, x => by
    have := joinWith_snoc sep (z :: l) x
    simp only [List.cons_append] at this
    simp only [List.cons_append, joinWith, this]
    simp

/-- Cells of row `i` of an expression. -/
def csvCells (enc : α → List Nat) (e : Ex α) (n i : Nat) : List (List Nat) :=
  (List.range n).map fun j => enc (valueAt e [i, j])

theorem inBounds_pair {m n i j : Nat} (hi : i < m) (hj : j < n) : InBounds [m, n] [i, j] := by
  rw [inBounds_cons]; exact ⟨hi, hj, inBounds_nil⟩

theorem dump_cols {enc : α → List Nat} {e : Ex α} {m n : Nat} (hf : Fits [m, n] e) {r : Nat} (hr : r < m)
    {st : e.State} (t : List Nat) (hst : ExAt e st [r, 0]) : ∀ c < n,
    ∃ p, (List.range c).foldl (dumpCell enc e n) (st, t) =
        (p, t ++ (List.range c).flatMap fun j => enc (valueAt e [r, j]) ++ [44]) ∧ ExAt e p [r, c]
  | 0, _ => ⟨st, by simp, hst⟩
  | c + 1, hc => by
    obtain ⟨p, h1, h2⟩ := dump_cols hf hr t hst c (by omega)
    have hb : InBounds [m, n] [r, c] := inBounds_pair hr (by omega)
    refine ⟨(e.ops 2).step p 1 1, ?_, ?_⟩
    · rw [List.range_succ, List.foldl_append, h1]
      simp only [List.foldl_cons, List.foldl_nil, dumpCell]
      rw [if_pos (by omega), Ex.deref_eq e p _ hf hb h2]
      simp
    · have := (Ex.fwd e hf).step p [r, c] 1 1 h2 hb (by simp) (by simp; omega) (by simp; omega)
      simpa using this

theorem dump_rows {enc : α → List Nat} {e : Ex α} {m n : Nat} (hf : Fits [m, n] e) (hn : 0 < n) : ∀ r ≤ m,
    ∃ p, (List.range r).foldl (fun (st : e.State × List Nat) _ => (List.range n).foldl (dumpCell enc e n) st)
        (e.stBegin, []) = (p, csvTable 44 ((List.range r).map (csvCells enc e n))) ∧ (r < m → ExAt e p [r, 0])
  | 0, _ => ⟨e.stBegin, by simp [csvTable], fun _ => Ex.at_begin e hf⟩
  | r + 1, hr => by
    obtain ⟨p, h1, h2⟩ := dump_rows (enc := enc) hf hn r (by omega)
    obtain ⟨k, rfl⟩ : ∃ k, n = k + 1 := ⟨n - 1, by omega⟩
    obtain ⟨q, h3, h4⟩ := dump_cols (enc := enc) hf (show r < m by omega)
      (csvTable 44 ((List.range r).map (csvCells enc e (k + 1)))) (h2 (by omega)) k (by omega)
    have hb : InBounds [m, k + 1] [r, k] := inBounds_pair (by omega) (by omega)
    refine ⟨(e.ops 2).step ((e.ops 2).reset q 1) 0 1, ?_, fun hm => ?_⟩
    · rw [show List.range (r + 1) = List.range r ++ [r] from List.range_succ, List.foldl_append, h1]
      simp only [List.foldl_cons, List.foldl_nil]
      rw [show List.range (k + 1) = List.range k ++ [k] from List.range_succ, List.foldl_append, h3]
      simp only [List.foldl_cons, List.foldl_nil, dumpCell]
      rw [if_neg (by simp), Ex.deref_eq e q _ hf hb h4]
      have hj : joinWith [44] (csvCells enc e (k + 1) r) =
          ((List.range k).flatMap fun j => enc (valueAt e [r, j]) ++ [44]) ++ enc (valueAt e [r, k]) := by
        unfold csvCells
        rw [List.range_succ, List.map_append, List.map_singleton, joinWith_snoc, List.flatMap_map]
      simp [csvTable, hj]
    · have h5 := (Ex.fwd e hf).reset q [r, k] 1 h4 hb (by simp) (by simp)
      have hb0 : InBounds [m, k + 1] [r, 0] := inBounds_pair (by omega) (by omega)
      have h6 := (Ex.fwd e hf).step _ [r, 0] 0 1 (by simpa using h5) hb0 (by simp) (by simp; omega) (by simp; omega)
      simpa using h6

/-- `dump_csv` writes one line per row of any expression with two axes, the elements of the row separated by commas. -/
theorem C68_dump (enc : α → List Nat) (e : Ex α) (m n : Nat) (hf : Fits [m, n] e) (hn : 0 < n) :
    dumpCsv enc e [m, n] = .ok (csvTable 44 ((List.range m).map fun i =>
      (List.range n).map fun j => enc (valueAt e [i, j]))) := by
  obtain ⟨p, h1, _⟩ := dump_rows (enc := enc) hf hn m (Nat.le_refl _)
  unfold dumpCsv
  rw [if_neg (by simp)]
  simp only [List.getD_cons_zero, List.getD_cons_succ]
  rw [h1]
  rfl

/-- Expressions with another number of axes are refused. -/
theorem C68_dump_dimension (enc : α → List Nat) (e : Ex α) (sh : List Nat) (h : sh.length ≠ 2) :
    dumpCsv enc e sh = .throws := by
  unfold dumpCsv; rw [if_pos h]

/-! ### Round trips -/

theorem isText_table (d : Nat) : ∀ (rows : List (List (List Nat))),
    IsText (rows.map (joinWith [d])) (csvTable d rows)
  | [] => IsText.nil
  | r :: rows => by
    have := IsText.cons (joinWith [d] r) _ _ (isText_table d rows)
    simpa [csvTable] using this

theorem csvRows_row (rows : List (List (List Nat))) : csvRows (rows.map .row) = rows := by
  induction rows with
  | nil => rfl
  | cons r rows ih => simp [csvRows, ih]

/-- A conversion that never throws on the texts it understands. -/
def optCast (cast : List Nat → Res α) (c : List Nat) : Option α := match cast c with
  | .ok x => some x
  | _ => none

theorem optCast_some {cast : List Nat → Res α} {c : List Nat} {x : α} (h : optCast cast c = some x) :
    cast c = .ok x := by
  unfold optCast at h
  split at h <;> simp_all

theorem flatten_map_range_get (m n : Nat) (f : Nat → Nat → α) (i j : Nat) (hi : i < m) (hj : j < n) :
    ((List.range m).map fun i => (List.range n).map (f i)).flatten[n * i + j]? = some (f i j) := by
  induction m generalizing i f with
  | zero => omega
  | succ m ih =>
    rw [List.range_succ_eq_map, List.map_cons, List.flatten_cons, List.map_map]
    cases i with
    | zero =>
      rw [List.getElem?_append_left (by simpa using hj)]
      simp [hj]
    | succ i =>
      rw [List.getElem?_append_right (by simp; ring_nf; omega)]
      have e : n * (i + 1) + j - ((List.range n).map (f 0)).length = n * i + j := by
        simp; ring_nf; omega
      rw [e]
      exact ih (fun i => f (i + 1)) i (by omega)

/-- Writing any expression with at least one row and one column and reading the text back, with default options, gives an
array of the same shape with the same elements, provided every element survives on its own. -/
theorem C68_round_trip [Inhabited α] (enc : α → List Nat) (cast : List Nat → Res α) (P : α → Prop)
    (hP : CsvCodec enc (optCast cast) P) (e : Ex α) (m n : Nat) (hf : Fits [m, n] e) (hm : 0 < m) (hn : 0 < n)
    (hv : ∀ i < m, ∀ j < n, P (valueAt e [i, j])) :
    ∃ s b rest, dumpCsv enc e [m, n] = .ok s ∧ loadCsv cast {} s = .ok (b, rest) ∧ b.shape = [m, n] ∧ b.WF ∧
      ∀ i < m, ∀ j < n, b.read [i, j] = valueAt e [i, j] := by
  have hd := C68_dump enc e m n hf hn
  set rows := (List.range m).map fun i => (List.range n).map fun j => enc (valueAt e [i, j]) with hrows
  have hmem : ∀ row ∈ rows, ∃ i < m, row = (List.range n).map fun j => enc (valueAt e [i, j]) := by
    intro row h
    obtain ⟨i, hi, rfl⟩ := List.mem_map.1 h
    exact ⟨i, List.mem_range.1 hi, rfl⟩
  have hcell : ∀ row ∈ rows, ∀ c ∈ row, ∃ v, P v ∧ c = enc v := by
    intro row h c hc
    obtain ⟨i, hi, rfl⟩ := hmem row h
    obtain ⟨j, hj, rfl⟩ := List.mem_map.1 hc
    exact ⟨_, hv i hi j (List.mem_range.1 hj), rfl⟩
  have hgood : ∀ l ∈ rows.map CsvLine.row, l.Good 44 [35] n := by
    intro l hl
    obtain ⟨row, hr, rfl⟩ := List.mem_map.1 hl
    obtain ⟨i, hi, hri⟩ := hmem row hr
    refine ⟨by simp [hri], ?_, ?_, ?_⟩
    · intro c hc
      obtain ⟨v, hpv, rfl⟩ := hcell row hr c hc
      exact ⟨(hP v hpv).2.1, (hP v hpv).2.2.1⟩
    · intro hl
      have : [] ∈ row := List.mem_of_getLast? hl
      obtain ⟨v, hpv, hv⟩ := hcell row hr _ this
      exact (hP v hpv).1 hv.symm
    · obtain ⟨k, rfl⟩ : ∃ k, n = k + 1 := ⟨n - 1, by omega⟩
      rw [hri, List.range_succ_eq_map, List.map_cons]
      have hp := hP _ (hv i hi 0 hn)
      obtain ⟨x, l, hx⟩ : ∃ x l, enc (valueAt e [i, 0]) = x :: l := List.exists_cons_of_ne_nil hp.1
      have hx35 : x ≠ 35 := by
        have := hp.2.2.2.1
        rw [hx] at this
        simpa using this
      rw [hx]
      generalize List.map (fun j => enc (valueAt e [i, j])) (List.map Nat.succ (List.range k)) = tl
      cases tl <;> simp [joinWith, List.cons_prefix_cons, Ne.symm hx35]
  let val : List Nat → α := fun c => (optCast cast c).getD default
  have hval : ∀ row ∈ csvRows (rows.map .row), ∀ c ∈ row, cast c = .ok (val c) := by
    rw [csvRows_row]
    intro row h c hc
    obtain ⟨v, hpv, rfl⟩ := hcell row h c hc
    have h5 := (hP v hpv).2.2.2.2
    simp only [val, h5, Option.getD_some]
    exact optCast_some h5
  have hne : csvRows (rows.map .row) ≠ [] := by
    rw [csvRows_row, hrows]
    simp; omega
  obtain ⟨rest, hl⟩ := C68_load cast {} n val [] (rows.map .row) (csvTable 44 rows)
    (by have h := isText_table 44 rows
        have e' : [] ++ (rows.map CsvLine.row).map (CsvLine.text 44 [35]) = rows.map (joinWith [44]) := by
          simp [List.map_map, Function.comp_def, CsvLine.text]
        rw [← e'] at h
        exact h)
    rfl (by simp) (by simp) (by simp) (by simp) hgood hval hne
  have hw : wantedRows (-1) (csvRows (rows.map .row)) = rows := by rw [csvRows_row]; rfl
  refine ⟨_, _, rest, hd, hl, ?_, ?_, ?_⟩
  · show [(wantedRows (-1) (csvRows (rows.map .row))).length, n] = _
    rw [hw, hrows]; simp
  · show ((wantedRows (-1) (csvRows (rows.map .row))).flatten.map val).length =
      numel [(wantedRows (-1) (csvRows (rows.map .row))).length, n]
    rw [hw, hrows]
    simp [List.length_flatten, Function.comp_def, numel]
  · intro i hi j hj
    have hlen : (wantedRows (-1) (csvRows (rows.map .row))).length = m := by rw [hw, hrows]; simp
    rw [Buf.read_eq _ (by
      show InBounds [(wantedRows (-1) (csvRows (rows.map .row))).length, n] [i, j]
      rw [hlen]
      exact inBounds_pair hi hj)]
    show ((wantedRows (-1) (csvRows (rows.map .row))).flatten.map val).getD
      (travRank .row_major [(wantedRows (-1) (csvRows (rows.map .row))).length, n] [i, j]) default = _
    rw [hlen, hw, hrows, List.map_flatten, List.map_map]
    have hr : travRank .row_major [m, n] [i, j] = n * i + j := by
      simp [travRank, rowRank, numel]; ring
    have hmap : (List.map val ∘ fun i => (List.range n).map fun j => enc (valueAt e [i, j])) =
        fun i => (List.range n).map fun j => val (enc (valueAt e [i, j])) := by
      funext i; simp [Function.comp_def]
    rw [hr, hmap, List.getD_eq_getElem?_getD,
      flatten_map_range_get m n (fun i j => val (enc (valueAt e [i, j]))) i j hi hj]
    have h5 := (hP _ (hv i hi j hj)).2.2.2.2
    simp [val, h5]

/-! ### Cells -/

theorem dropWhile_space {c : Nat} {l : List Nat} (h : isSpace c = false) : (c :: l).dropWhile isSpace = c :: l := by
  simp [List.dropWhile_cons, h]

theorem scanNumber_decimal {n : Nat} : scanNumber (decimal n) = some (false, n) := by
  obtain ⟨h1, h2, h3, h4⟩ := decimal_spec n
  obtain ⟨c, l, hc⟩ := List.exists_cons_of_ne_nil h1
  rw [hc] at h2 h4 ⊢
  have hcd := h2 c (by simp)
  have hsp : isSpace c = false := by simp [isSpace]; omega
  have ht : (c :: l).takeWhile isDigit = c :: l :=
    takeWhile_all fun d hd => by have := h2 d hd; simp [isDigit]; omega
  have hn : ¬((c :: l).head? = some 45 ∨ (c :: l).head? = some 43) := by simp; omega
  have hn' : ¬((c :: l).head? = some 45) := fun h => hn (Or.inl h)
  unfold scanNumber
  simp only [dropWhile_space hsp, if_neg hn, ht]
  rw [if_neg (by simp)]
  simp only [Option.some.injEq, Prod.mk.injEq]
  exact ⟨by simpa using hn', h4⟩

theorem scanNumber_negative {n : Nat} : scanNumber (45 :: decimal n) = some (true, n) := by
  obtain ⟨h1, h2, h3, h4⟩ := decimal_spec n
  have ht : (decimal n).takeWhile isDigit = decimal n :=
    takeWhile_all fun d hd => by have := h2 d hd; simp [isDigit]; omega
  have hsp : isSpace 45 = false := by decide
  unfold scanNumber
  simp only [dropWhile_space hsp, List.head?_cons, true_or, if_true, List.drop_succ_cons, List.drop_zero, ht, if_neg h1]
  simp only [Option.some.injEq, Prod.mk.injEq]
  exact ⟨by simp, h4⟩

theorem scanNumber_writeInt (x : Int) : ∃ r, scanNumber (writeInt x) = some r ∧ scanValue r = x := by
  unfold writeInt
  by_cases h : x < 0
  · rw [if_pos h]
    exact ⟨_, scanNumber_negative, by unfold scanValue; simp only [if_true]; omega⟩
  · rw [if_neg h]
    exact ⟨_, scanNumber_decimal, by unfold scanValue; simp only [Bool.false_eq_true, if_false]; omega⟩

/-- Texts of integers as cells. -/
theorem decimal_cell (n : Nat) : decimal n ≠ [] ∧ 44 ∉ decimal n ∧ 10 ∉ decimal n ∧ (decimal n).head? ≠ some 35 := by
  obtain ⟨h1, h2, _, _⟩ := decimal_spec n
  refine ⟨h1, fun h => ?_, fun h => ?_, fun h => ?_⟩
  · have := h2 _ h; omega
  · have := h2 _ h; omega
  · have := h2 35 (List.mem_of_head? h); omega

theorem writeInt_cell (x : Int) : writeInt x ≠ [] ∧ 44 ∉ writeInt x ∧ 10 ∉ writeInt x ∧ (writeInt x).head? ≠ some 35 := by
  have h := decimal_cell x.natAbs
  unfold writeInt
  split
  · exact ⟨by simp, by simpa using h.2.1, by simpa using h.2.2.1, by simp⟩
  · exact h

/-- Signed integers of the types `int`, `long` and `long long` survive. -/
theorem C68_signed_cells (lo hi : Int) : CsvCodec writeInt (optCast (lexSigned lo hi)) (fun x => lo ≤ x ∧ x ≤ hi) := by
  intro x hx
  obtain ⟨r, h1, h2⟩ := scanNumber_writeInt x
  have h := writeInt_cell x
  refine ⟨h.1, h.2.1, h.2.2.1, h.2.2.2, ?_⟩
  simp [optCast, lexSigned, h1, h2, hx]

/-- Integers the type cannot hold are refused, on either side. -/
theorem C68_signed_range (lo hi x : Int) (hx : x < lo ∨ hi < x) : lexSigned lo hi (writeInt x) = .throws := by
  obtain ⟨r, h1, h2⟩ := scanNumber_writeInt x
  unfold lexSigned
  rw [h1]
  simp only [h2]
  exact if_neg (by omega)

example : lexSigned (-2 ^ 31) (2 ^ 31 - 1) (ascii "-2147483649".toList) = .throws :=
  C68_signed_range _ _ (-2147483649) (.inl (by decide))

/-- The character types take the first character that is not white space. -/
theorem C68_char_cell {blanks : List Nat} {c : Nat} (rest : List Nat) (hb : ∀ b ∈ blanks, isSpace b = true)
    (hc : isSpace c = false) : lexChar (blanks ++ c :: rest) = .ok c := by
  unfold lexChar
  rw [List.dropWhile_append_of_pos hb, List.dropWhile_cons_of_neg (by simp [hc])]

example := C68_char_cell (blanks := ascii [' ', ' ']) (c := 65) (ascii ['b']) (by decide) (by decide)

/-- Unsigned integers of the types `unsigned int`, `unsigned long` and `unsigned long long` survive. -/
theorem C68_unsigned_cells (bits : Nat) (hb : bits ≤ 64) :
    CsvCodec decimal (optCast (lexUnsigned bits)) (fun n => n < 2 ^ bits) := by
  intro n hn
  have h := decimal_cell n
  refine ⟨h.1, h.2.1, h.2.2.1, h.2.2.2, ?_⟩
  have h64 : n < 2 ^ 64 := Nat.lt_of_lt_of_le hn (Nat.pow_le_pow_right (by decide) hb)
  have hn' : ¬ (n ≥ 2 ^ 64) := by omega
  unfold optCast lexUnsigned
  rw [scanNumber_decimal]
  simp only [if_neg hn', Bool.false_eq_true, if_false, Nat.mod_eq_of_lt hn]

/-- Integers of a type read through a stream, such as `short`, survive. -/
theorem C68_small_cells (lo hi : Int) : CsvCodec writeInt (optCast (lexStream lo hi)) (fun x => lo ≤ x ∧ x ≤ hi) := by
  intro x hx
  obtain ⟨r, h1, h2⟩ := scanNumber_writeInt x
  have h := writeInt_cell x
  refine ⟨h.1, h.2.1, h.2.2.1, h.2.2.2, ?_⟩
  have hne : ¬ (writeInt x).dropWhile isSpace = [] := by
    intro h0
    simp [scanNumber, h0] at h1
  unfold optCast lexStream
  rw [if_neg hne, h1]
  simp only [h2, Option.some.injEq]
  omega

/-- Position of the first byte other than a blank. -/
theorem findIdx_blanks (a : Nat) {c : Nat} (l : List Nat) (h : c ≠ 32) :
    (List.replicate a 32 ++ c :: l).findIdx (fun x => decide (x ≠ 32)) = a := by
  induction a with
  | zero => simp [List.findIdx_cons, h]
  | succ a ih =>
    rw [List.replicate_succ, List.cons_append, List.findIdx_cons, ih]
    simp

/-- What becomes of a text cell: blanks in front are removed, of those behind as many are kept as there were in front, at
most all of them. -/
theorem C68_string_cell (a b : Nat) (core : List Nat) (h1 : core.head? ≠ some 32) (h2 : core.getLast? ≠ some 32)
    (h3 : core ≠ []) :
    lexString (List.replicate a 32 ++ core ++ List.replicate b 32) = .ok (core ++ List.replicate (min a b) 32) := by
  obtain ⟨c, l, rfl⟩ := List.exists_cons_of_ne_nil h3
  have hc : c ≠ 32 := by simpa using h1
  set cell := List.replicate a 32 ++ (c :: l) ++ List.replicate b 32 with hcell
  have e1 : cell.findIdx (fun x => decide (x ≠ 32)) = a := by
    rw [hcell, List.append_assoc, List.cons_append, findIdx_blanks a _ hc]
  have hlt : a < cell.length := by simp [hcell]
  have e2 : cell.findIdx? (fun x => decide (x ≠ 32)) = some a := by
    rw [List.findIdx?_eq_some_iff_findIdx_eq]
    exact ⟨hlt, e1⟩
  have e3 : cell.reverse.findIdx (fun x => decide (x ≠ 32)) = b := by
    obtain ⟨d, r, hr⟩ : ∃ d r, (c :: l).reverse = d :: r := List.exists_cons_of_ne_nil (by simp)
    have hd : d ≠ 32 := by
      intro e
      apply h2
      rw [← List.head?_reverse, hr, e]; rfl
    rw [hcell, List.reverse_append, List.reverse_append, List.reverse_replicate, hr, List.cons_append,
      findIdx_blanks b _ hd]
  unfold lexString
  rw [e2]
  simp only [e3]
  congr 1
  have hlen : cell.length - 1 - b + 1 = a + (c :: l).length := by simp [hcell]; omega
  rw [hlen, hcell, List.append_assoc, List.drop_left' (by simp), List.take_append, List.take_of_length_le (by omega),
    List.take_replicate]
  congr 2
  omega

/-- Texts survive if they are not empty, have no blank at either end, contain neither a comma nor a newline and do not begin
with `#`. -/
theorem C68_string_cells : CsvCodec id (optCast lexString) (fun s => s ≠ [] ∧ s.head? ≠ some 32 ∧ s.getLast? ≠ some 32 ∧
    44 ∉ s ∧ 10 ∉ s ∧ s.head? ≠ some 35) := by
  intro s hs
  refine ⟨hs.1, hs.2.2.2.1, hs.2.2.2.2.1, hs.2.2.2.2.2, ?_⟩
  have := C68_string_cell 0 0 s hs.2.1 hs.2.2.1 hs.1
  simp at this
  simp [optCast, this]

/-! ### Examples -/

/-- The array `{{1, -20, 3}, {400, 0, -6}}` in column major storage. -/
def exCsv : Ex Int := .arr (StridedArr.mk' [2, 3] [1, 2] 0) fun p => [1, 400, -20, 0, 3, -6].getD p.toNat 0

theorem exCsv_fits : Fits [2, 3] exCsv := by
  refine ⟨⟨rfl, ?_, StridedArr.mk'_back _ _ _ rfl⟩, by decide⟩
  rintro (_ | _ | k) <;> simp [StridedArr.mk']

/-- Its text and what is read back from it. -/
example : dumpCsv writeInt exCsv [2, 3] = .ok (ascii "1,-20,3\n400,0,-6\n".toList) ∧
    (loadCsv (lexSigned (-2 ^ 31) (2 ^ 31 - 1)) {} (ascii "1,-20,3\n400,0,-6\n".toList)).map (·.1) =
      .ok ⟨[2, 3], .row_major, [1, -20, 3, 400, 0, -6]⟩ := by decide +kernel

/-- `C68_round_trip` applies to it. -/
example : ∃ s b rest, dumpCsv writeInt exCsv [2, 3] = .ok s ∧
    loadCsv (lexSigned (-2 ^ 31) (2 ^ 31 - 1)) {} s = .ok (b, rest) ∧ b.shape = [2, 3] ∧ b.WF ∧
    ∀ i < 2, ∀ j < 3, b.read [i, j] = valueAt exCsv [i, j] :=
  C68_round_trip writeInt _ _ (C68_signed_cells (-2 ^ 31) (2 ^ 31 - 1)) exCsv 2 3 exCsv_fits (by decide) (by decide)
    (by decide +kernel)

/-- `C68_load` on a text with a header, comments, another delimiter, a bound on the rows and no newline at the end. -/
example : ∃ rest, loadCsv lexString ⟨59, 1, 2, ascii ['/', '/']⟩ (ascii "x;y\n//c\na;b\nc;d\n//\ne;f".toList) =
    .ok (⟨[2, 2], .row_major, [ascii ['a'], ascii ['b'], ascii ['c'], ascii ['d']]⟩, rest) := by
  have h := C68_load lexString ⟨59, 1, 2, ascii ['/', '/']⟩ 2 id [ascii ['x', ';', 'y']]
    [.comment (ascii ['c']), .row [ascii ['a'], ascii ['b']], .row [ascii ['c'], ascii ['d']], .comment [],
      .row [ascii ['e'], ascii ['f']]] (ascii "x;y\n//c\na;b\nc;d\n//\ne;f".toList)
    (.cons (ascii ['x', ';', 'y']) _ _ (.cons (ascii ['/', '/', 'c']) _ _ (.cons (ascii ['a', ';', 'b']) _ _
      (.cons (ascii ['c', ';', 'd']) _ _ (.cons (ascii ['/', '/']) _ _ (.last (ascii ['e', ';', 'f']) (by decide)))))))
    rfl (by decide) (by decide) (by decide) (by decide)
    (by
      intro l hl
      simp only [List.mem_cons, List.not_mem_nil, or_false] at hl
      rcases hl with rfl | rfl | rfl | rfl | rfl <;> simp only [CsvLine.Good] <;> decide)
    (by decide) (by decide)
  exact h

example : CsvCodec id (optCast lexString) (fun s => s ≠ [] ∧ s.head? ≠ some 32 ∧ s.getLast? ≠ some 32 ∧
    44 ∉ s ∧ 10 ∉ s ∧ s.head? ≠ some 35) ∧ ascii ['a', ' ', 'b'] ≠ [] := ⟨C68_string_cells, by decide⟩

/-! ### Where the code fails -/

/-- Rows of different lengths are accepted if the total happens to be the number of rows times the length of the last. -/
theorem C68_ragged_rows_wrong :
    (loadCsv (lexSigned (-2 ^ 31) (2 ^ 31 - 1)) {} (ascii "1\n2,3,4\n5,6\n".toList)).map (·.1) =
      .ok ⟨[3, 2], .row_major, [1, 2, 3, 4, 5, 6]⟩ := by decide +kernel

/-- Blanks are removed in front of a text but kept behind it. -/
theorem C68_string_blanks_wrong :
    lexString (ascii [' ', ' ', 'a', ' ']) = .ok (ascii ['a', ' ']) ∧
    lexString (ascii ['a', ' ']) = .ok (ascii ['a']) := by decide

/-- `max_rows = 0` reads all rows. -/
theorem C68_max_rows_zero_wrong :
    (loadCsv (lexSigned (-2 ^ 31) (2 ^ 31 - 1)) { maxRows := 0 } (ascii "1\n2\n".toList)).map (·.1) =
      .ok ⟨[2, 1], .row_major, [1, 2]⟩ := by decide +kernel

/-- With `max_rows` the line after the last row read is taken from the stream and lost: reading a file of three rows one row
at a time gives the first and the third. -/
theorem C68_max_rows_loses_line_wrong :
    loadCsv (lexSigned (-2 ^ 31) (2 ^ 31 - 1)) { maxRows := 1 } (ascii "1\n2\n3\n".toList) =
      .ok (⟨[1, 1], .row_major, [1]⟩, ascii "3\n".toList) := by decide +kernel

/-- With an empty comment marker every line is a comment. -/
theorem C68_empty_marker_wrong :
    (loadCsv (lexSigned (-2 ^ 31) (2 ^ 31 - 1)) { comments := [] } (ascii "1\n2\n".toList)).map (·.1) =
      .ok ⟨[0, 0], .row_major, []⟩ := by decide +kernel

/-- An empty last cell is dropped, an empty cell elsewhere is not. -/
theorem C68_empty_last_cell_wrong :
    (loadCsv lexString {} (ascii "a,\n".toList)).map (·.1) = .ok ⟨[1, 1], .row_major, [ascii ['a']]⟩ ∧
    (loadCsv lexString {} (ascii ",a\n".toList)).map (·.1) = .ok ⟨[1, 2], .row_major, [[], ascii ['a']]⟩ := by
  decide +kernel

/-- An empty line at the end of the file makes it unreadable. -/
theorem C68_empty_line_wrong :
    (loadCsv (lexSigned (-2 ^ 31) (2 ^ 31 - 1)) {} (ascii "1\n2\n\n".toList)) = .throws := by decide +kernel

/-- The shape of an array without elements is lost: nothing is written for `{2, 0}` and `{0, 3}`, and `{0, 0}` is read. -/
theorem C68_no_elements_wrong (sh : List Nat) (h : sh = [2, 0] ∨ sh = [0, 3]) :
    (dumpCsv writeInt (.scalar 1) sh).bind (fun s => (loadCsv (lexSigned (-2 ^ 31) (2 ^ 31 - 1)) {} s).map (·.1.shape)) =
      .ok [0, 0] := by
  rcases h with rfl | rfl <;> decide +kernel

/-- A row whose first text begins with `#` is lost. -/
theorem C68_hash_row_wrong :
    (dumpCsv id (.arr (StridedArr.mk' [2, 1] [1, 0] 0) fun p => if p = 0 then ascii ['#', 'a'] else ascii ['b']) [2, 1]).bind
      (fun s => (loadCsv lexString {} s).map (·.1)) = .ok ⟨[1, 1], .row_major, [ascii ['b']]⟩ := by decide +kernel

/-- Eight-bit integers are written as characters: 44 is read as a delimiter, and the value of the empty cell before it is
indeterminate. -/
theorem C68_bytes_undefined :
    (dumpCsv (fun (x : Nat) => [x]) (.scalar 44) [1, 1]).bind (fun s => loadCsv lexChar {} s) = .ub := by decide +kernel

/-- A cell without a number is an error for `int` but 0 for `short`, and a number out of range is replaced by the nearest
bound; a blank cell gives an indeterminate value. -/
theorem C68_small_types_wrong :
    lexSigned (-2 ^ 31) (2 ^ 31 - 1) (ascii ['x']) = .throws ∧ lexStream (-2 ^ 15) (2 ^ 15 - 1) (ascii ['x']) = .ok 0 ∧
    lexStream (-2 ^ 15) (2 ^ 15 - 1) (ascii ['4', '0', '0', '0', '0']) = .ok 32767 ∧
    lexStream (-2 ^ 15) (2 ^ 15 - 1) (ascii [' ']) = .ub := by decide +kernel

/-- Negative numbers and numbers too large are accepted for `unsigned int`, modulo `2^32`. -/
theorem C68_unsigned_wraps_wrong :
    lexUnsigned 32 (ascii ['-', '1']) = .ok 4294967295 ∧ lexUnsigned 32 (ascii "4294967296".toList) = .ok 0 := by
  decide +kernel

/-- Characters after a number are ignored: `1.5` and `1x` are read as the integer 1. -/
theorem C68_trailing_characters_wrong :
    lexSigned (-2 ^ 31) (2 ^ 31 - 1) (ascii ['1', '.', '5']) = .ok 1 ∧
    lexSigned (-2 ^ 31) (2 ^ 31 - 1) (ascii ['1', 'x']) = .ok 1 := by decide +kernel

/-- `dump_file` ignores the delimiter of the configuration, `load_file` uses it: `{{1, 2}}` written and read with `;` comes
back as `{{1}}`. -/
theorem C68_file_delimiter_wrong :
    (dumpCsvFile writeInt (.arr (StridedArr.mk' [1, 2] [0, 1] 0) fun p => p + 1) [1, 2] { delimiter := 59 }).bind
      (fun s => loadCsvFile (lexSigned (-2 ^ 31) (2 ^ 31 - 1)) { delimiter := 59 } .row_major s) =
      .ok ⟨[1, 1], .row_major, [1]⟩ := by decide +kernel

/-- `load_file` into a container of either layout gives the array `load_csv` reads, in that layout, and fails as it fails. -/
theorem C68_load_file [Inhabited α] (cast : List Nat → Res α) (cfg : CsvConfig) (L : Layout) (s : List Nat) :
    (∀ b rest, loadCsv cast cfg s = .ok (b, rest) → ∃ x, loadCsvFile cast cfg L s = .ok x ∧ x.layout = L ∧ x.shape = b.shape ∧
      x.WF ∧ ∀ q, InBounds b.shape q → x.read q = b.read q) ∧
    (loadCsv cast cfg s = .throws → loadCsvFile cast cfg L s = .throws) ∧
    (loadCsv cast cfg s = .ub → loadCsvFile cast cfg L s = .ub) := by
  unfold loadCsvFile
  refine ⟨fun b rest h => ?_, fun h => by rw [h]; rfl, fun h => by rw [h]; rfl⟩
  rw [h]
  exact ⟨_, rfl, rfl, rfl, copyTo_wf _ _ _, fun q hq => copyTo_read L b.strd b.mem hq⟩

example : loadCsvFile (lexSigned (-2 ^ 31) (2 ^ 31 - 1)) {} .column_major (ascii "1,2\n3,4\n".toList) =
    .ok ⟨[2, 2], .column_major, [1, 3, 2, 4]⟩ := by decide +kernel

end Xt
