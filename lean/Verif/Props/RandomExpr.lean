import Verif.Spec.RandomExpr
import Verif.Lemmas.Sort
import Verif.Lemmas.Region
import Verif.Props.IntArith
import Verif.Lemmas.Program
/-!
# C95: Random expressions draw at every read, and once per element when they are assigned
-/

namespace Xt

open Spec

variable {σ β : Type}

theorem drawAll_append (a b : List (σ → β × σ)) (st : σ) :
    drawAll (a ++ b) st = ((drawAll a st).1 ++ (drawAll b (drawAll a st).2).1, (drawAll b (drawAll a st).2).2) := by
  induction a generalizing st with
  | nil => rfl
  | cons d a ih => simp [drawAll, ih]

theorem drawsIn_left [Inhabited β] {f : β → β → β} {a b : REx σ β} {o : List Nat}
    (ho : o.Perm (List.range (randomLeaves a).length)) : drawsIn (.bin f a b) o = drawsIn a o := by
  unfold drawsIn
  apply List.map_congr_left
  intro l hl
  have : l < (randomLeaves a).length := List.mem_range.1 (ho.mem_iff.1 hl)
  simp only [randomLeaves, List.getD_eq_getElem?_getD]
  rw [List.getElem?_append_left this]

theorem drawsIn_right [Inhabited β] {f : β → β → β} {a b : REx σ β} (o : List Nat) :
    drawsIn (.bin f a b) (o.map ((randomLeaves a).length + ·)) = drawsIn b o := by
  unfold drawsIn
  rw [List.map_map]
  apply List.map_congr_left
  intro l _
  simp only [Function.comp, randomLeaves, List.getD_eq_getElem?_getD]
  rw [List.getElem?_append_right (by omega), Nat.add_sub_cancel_left]

theorem order_join {o p : List Nat} {m n : Nat} (ho : o.Perm (List.range m)) (hp : p.Perm (List.range n)) :
    (o ++ p.map (m + ·)).Perm (List.range (m + n)) := by
  rw [List.range_add]
  exact ho.append (hp.map _)

theorem values_left [Inhabited β] {o : List Nat} {us vs : List β} (ho : o.Perm (List.range us.length)) :
    (o.map fun l => (us ++ vs).getD l default) = o.map fun l => us.getD l default := by
  apply List.map_congr_left
  intro l hl
  have : l < us.length := List.mem_range.1 (ho.mem_iff.1 hl)
  simp only [List.getD_eq_getElem?_getD]
  rw [List.getElem?_append_left this]

theorem values_right [Inhabited β] (o : List Nat) (us vs : List β) :
    ((o.map (us.length + ·)).map fun l => (us ++ vs).getD l default) = o.map fun l => vs.getD l default := by
  rw [List.map_map]
  apply List.map_congr_left
  intro l _
  simp only [Function.comp, List.getD_eq_getElem?_getD]
  rw [List.getElem?_append_right (by omega), Nat.add_sub_cancel_left]

/-- C95: one read of an element draws every random operand exactly once, in some order; the value is that of the
expression on the values drawn. -/
theorem C95_read [Inhabited β] (swap : σ → Bool) (e : REx σ β) (idx : List Nat) (st : σ) :
    ∃ o vs, DrawnOnce e st o vs (e.eval swap idx st).2 ∧ (e.eval swap idx st).1 = valueGiven e vs idx := by
  induction e generalizing st with
  | read s g => exact ⟨[], [], ⟨rfl, List.Perm.refl _, rfl⟩, rfl⟩
  | rnd s draw => exact ⟨[0], [(draw st).1], ⟨rfl, List.Perm.refl _, rfl⟩, rfl⟩
  | un f e ih =>
    obtain ⟨o, vs, h, hv⟩ := ih st
    exact ⟨o, vs, ⟨h.length, h.order, h.draws⟩, congrArg f hv⟩
  | bcast e s ih =>
    obtain ⟨o, vs, h, hv⟩ := ih st
    exact ⟨o, vs, ⟨h.length, h.order, h.draws⟩, hv⟩
  | bin f a b iha ihb =>
    have join : ∀ us vs : List β, us.length = (randomLeaves a).length → vs.length = (randomLeaves b).length →
        valueGiven (.bin f a b) (us ++ vs) idx = f (valueGiven a us idx) (valueGiven b vs idx) := by
      intro us vs hu _
      show f (valueGiven a ((us ++ vs).take _) idx) (valueGiven b ((us ++ vs).drop _) idx) = _
      rw [← hu, List.take_left, List.drop_left]
    unfold REx.eval
    by_cases hs : swap st
    · simp only [hs, if_true]
      obtain ⟨p, vs, hb, hvb⟩ := ihb st
      obtain ⟨o, us, ha, hva⟩ := iha (b.eval swap idx st).2
      refine ⟨p.map ((randomLeaves a).length + ·) ++ o, us ++ vs, ⟨?_, ?_, ?_⟩, ?_⟩
      · rw [List.length_append, ha.length, hb.length]; simp [randomLeaves]
      · have := order_join ha.order hb.order
        refine (List.perm_append_comm.trans this).trans ?_
        simp [randomLeaves]
      · have e1 : drawsIn (.bin f a b) (p.map ((randomLeaves a).length + ·) ++ o) = drawsIn b p ++ drawsIn a o := by
          rw [← drawsIn_right (f := f) (a := a) p, ← drawsIn_left (f := f) (b := b) ha.order]
          unfold drawsIn
          rw [List.map_append]
        rw [e1, drawAll_append, hb.draws, ha.draws, List.map_append, values_left (o := o) (us := us) (vs := vs) (ha.length ▸ ha.order),
          ← ha.length, values_right]
      · rw [join us vs ha.length hb.length, hva, hvb]
    · simp only [hs, if_false, Bool.false_eq_true]
      obtain ⟨o, us, ha, hva⟩ := iha st
      obtain ⟨p, vs, hb, hvb⟩ := ihb (a.eval swap idx st).2
      refine ⟨o ++ p.map ((randomLeaves a).length + ·), us ++ vs, ⟨?_, ?_, ?_⟩, ?_⟩
      · rw [List.length_append, ha.length, hb.length]; simp [randomLeaves]
      · refine (order_join ha.order hb.order).trans ?_
        simp [randomLeaves]
      · have e1 : drawsIn (.bin f a b) (o ++ p.map ((randomLeaves a).length + ·)) = drawsIn a o ++ drawsIn b p := by
          rw [← drawsIn_right (f := f) (a := a) p, ← drawsIn_left (f := f) (b := b) ha.order]
          unfold drawsIn
          rw [List.map_append]
        rw [e1, drawAll_append, ha.draws, hb.draws, List.map_append, values_left (o := o) (us := us) (vs := vs) (ha.length ▸ ha.order),
          ← ha.length, values_right]
      · rw [join us vs ha.length hb.length, hva, hvb]

theorem evals_spec [Inhabited β] (swap : σ → Bool) (e : REx σ β) : ∀ (is : List (List Nat)) (st : σ),
    ∃ vss, DrawnEach e st vss (e.evals swap is st).2 ∧ vss.length = is.length ∧
      (e.evals swap is st).1 = List.zipWith (valueGiven e) vss is
  | [], st => ⟨[], .nil st, rfl, rfl⟩
  | i :: is, st => by
    obtain ⟨o, vs, h, hv⟩ := C95_read swap e i st
    obtain ⟨vss, t, hl, ht⟩ := evals_spec swap e is (e.eval swap i st).2
    refine ⟨vs :: vss, .cons h t, by simp [hl], ?_⟩
    simp only [REx.evals, List.zipWith_cons_cons, hv, ht]

theorem length_evals (swap : σ → Bool) (e : REx σ β) : ∀ (is : List (List Nat)) (st : σ),
    (e.evals swap is st).1.length = is.length
  | [], _ => rfl
  | i :: is, st => by simp [REx.evals, length_evals swap e is]

/-- The storage order lists the index of rank `k` at position `k`. -/
theorem map_travRank_storageIndices (L : Layout) (sh : List Nat) :
    (storageIndices L sh).map (travRank L sh) = List.range (numel sh) := by
  unfold storageIndices
  by_cases h : L = .row_major
  · rw [if_pos h]
    have : travRank L sh = rowRank sh := by funext q; simp [travRank, h]
    rw [this, map_rowRank_rowIndices]
  · rw [if_neg h]
    have : travRank L sh = colRank sh := by funext q; simp [travRank, h]
    rw [this, map_colRank_colIndices]

theorem storageIndices_travRank (L : Layout) {sh p : List Nat} (hp : InBounds sh p) :
    (storageIndices L sh)[travRank L sh p]? = some p := by
  have hlt := travRank_lt L hp
  have hl := length_storageIndices L sh
  rw [List.getElem?_eq_getElem (by omega)]
  congr 1
  have hmem : (storageIndices L sh)[travRank L sh p]'(by omega) ∈ storageIndices L sh := List.getElem_mem _
  have hin : InBounds sh ((storageIndices L sh)[travRank L sh p]'(by omega)) := by
    unfold storageIndices at hmem
    split at hmem
    · exact mem_rowIndices.1 (by simpa [storageIndices, *] using hmem)
    · exact mem_colIndices.1 (by simpa [storageIndices, *] using hmem)
  refine travRank_inj L hin hp ?_
  have := congrArg (fun l => l[travRank L sh p]?) (map_travRank_storageIndices L sh)
  simp only [List.getElem?_map] at this
  rw [List.getElem?_eq_getElem (by omega), List.getElem?_range hlt] at this
  simpa using this

theorem fillDraws_eq (draw : σ → β × σ) : ∀ (n : Nat) (st : σ), fillDraws draw n st = drawAll (List.replicate n draw) st
  | 0, _ => rfl
  | n + 1, st => by simp [fillDraws, drawAll, List.replicate_succ, fillDraws_eq draw n]

/-- C95: `a = random::rand(shape)`: as many draws as elements, and the element at `p` is the draw whose number is the
place of `p` in the storage. -/
theorem C95_direct [Inhabited β] (swap : σ → Bool) (L : Layout) (s : List Nat) (draw : σ → β × σ) (st : σ) :
    ∃ a st', (REx.rnd s draw).assignTo swap L st = .ok (a, st') ∧ a.shape = s ∧ a.layout = L ∧ a.WF ∧
      drawAll (List.replicate (numel s) draw) st = (a.data, st') ∧
      ∀ p, InBounds s p → a.read p = (drawAll (List.replicate (numel s) draw) st).1.getD (travRank L s p) default := by
  have hn : s.foldl (· * ·) 1 = numel s := by rw [foldl_mul_eq, Nat.one_mul]
  have hlen : ∀ (ds : List (σ → β × σ)) (st : σ), (drawAll ds st).1.length = ds.length := by
    intro ds
    induction ds with
    | nil => intro; rfl
    | cons d ds ih => intro st; simp [drawAll, ih]
  refine ⟨_, _, rfl, rfl, rfl, ?_, ?_, fun p hp => ?_⟩
  · unfold Buf.WF
    simp only [fillDraws_eq, hn, hlen, List.length_replicate]
  · rw [fillDraws_eq, hn]
  · rw [Buf.read_eq _ hp]
    simp only [fillDraws_eq, hn]

theorem toEx_leaves : ∀ e : REx σ β, e.toEx.toSh.leaves = operandShapes e
  | .read s _ => rfl
  | .rnd s _ => rfl
  | .un _ e => by
    show e.toEx.toSh.leaves ++ [] = operandShapes e
    rw [List.append_nil, toEx_leaves e]
  | .bin _ a b => by
    show a.toEx.toSh.leaves ++ (b.toEx.toSh.leaves ++ []) = operandShapes a ++ operandShapes b
    rw [List.append_nil, toEx_leaves a, toEx_leaves b]
  | .bcast e s => rfl

theorem toEx_below : ∀ e : REx σ β, SmallOperands e → ExtentsBelow e.toEx
  | .read _ _, h => h
  | .rnd _ _, h => h
  | .un _ e, h => ⟨toEx_below e h, trivial⟩
  | .bin _ a b, h => ⟨toEx_below a h.1, toEx_below b h.2, trivial⟩
  | .bcast e _, h => ⟨h.1, toEx_below e h.2⟩

/-- C95: any other expression with random operands assigned to a container: each element draws every random operand
exactly once, no two elements share a draw, elements draw in the order of the storage, and the element's value is that
of the expression on its own draws. -/
theorem C95_assign [Inhabited β] (swap : σ → Bool) (L : Layout) (e : REx σ β) (st : σ) (hne : ¬ isGenerator e)
    (hx : SmallOperands e) {sh : List Nat} (hsh : bcShape (operandShapes e) = some sh) :
    ∃ a st' vss, e.assignTo swap L st = .ok (a, st') ∧ a.shape = sh ∧ a.layout = L ∧ a.WF ∧
      DrawnEach e st vss st' ∧ vss.length = numel sh ∧
      ∀ p, InBounds sh p → a.read p = valueGiven e (vss.getD (travRank L sh p) []) p := by
  obtain ⟨tr, hr⟩ := (resizeInfo_bc (toEx_below e hx) (toEx_leaves e)).1 sh hsh
  obtain ⟨vss, t, hl, hv⟩ := evals_spec swap e (storageIndices L sh) st
  refine ⟨⟨sh, L, (e.evals swap (storageIndices L sh) st).1⟩, _, vss, ?_, rfl, rfl, ?_, t, ?_, fun p hp => ?_⟩
  · unfold REx.assignTo
    split
    · exact absurd trivial hne
    · simp only [hr]
  · unfold Buf.WF
    simp only [length_evals, length_storageIndices, foldl_mul_eq, Nat.one_mul]
  · rw [hl, length_storageIndices]
  · rw [Buf.read_eq _ hp]
    simp only
    rw [hv]
    have hlt := travRank_lt L hp
    have hi := storageIndices_travRank L hp
    have hvl : travRank L sh p < vss.length := by rw [hl, length_storageIndices]; exact hlt
    rw [List.getD_eq_getElem?_getD, List.getElem?_zipWith, hi, List.getD_eq_getElem?_getD,
      List.getElem?_eq_getElem hvl]
    rfl

/-- C95: the same through a view of that shape: each of its elements is written once, with the value of the expression
on draws of its own, in the order of the layout of the view. -/
theorem C95_view [Inhabited β] (swap : σ → Bool) (L : Layout) (e : REx σ β) (st : σ) (sh : List Nat) :
    ∃ ws st' vss, e.assignView swap L sh st = (ws, st') ∧ ws.length = numel sh ∧ DrawnEach e st vss st' ∧
      vss.length = numel sh ∧
      ∀ p, InBounds sh p → ws[travRank L sh p]? = some (p, valueGiven e (vss.getD (travRank L sh p) []) p) := by
  obtain ⟨vss, t, hl, hv⟩ := evals_spec swap e (storageIndices L sh) st
  refine ⟨_, _, vss, rfl, ?_, t, by rw [hl, length_storageIndices], fun p hp => ?_⟩
  · rw [List.length_zip, length_evals, length_storageIndices, Nat.min_self]
  · have hlt := travRank_lt L hp
    have hi := storageIndices_travRank L hp
    have hvl : travRank L sh p < vss.length := by rw [hl, length_storageIndices]; exact hlt
    rw [hv, List.getElem?_zip_eq_some]
    refine ⟨hi, ?_⟩
    rw [List.getElem?_zipWith, hi, List.getD_eq_getElem?_getD, List.getElem?_eq_getElem hvl]
    rfl

theorem drawnEach_count [Inhabited β] {e : REx σ β} (c : σ → Nat)
    (hc : ∀ d ∈ randomLeaves e, ∀ s, c (d s).2 = c s + 1) {st st' : σ} {vss : List (List β)}
    (h : DrawnEach e st vss st') : c st' = c st + vss.length * (randomLeaves e).length := by
  induction h with
  | nil => simp
  | @cons st st' st'' o vs vss h t ih =>
    rw [ih]
    have key : ∀ (ds : List (σ → β × σ)) (s : σ), (∀ d ∈ ds, d ∈ randomLeaves e) →
        c (drawAll ds s).2 = c s + ds.length := by
      intro ds
      induction ds with
      | nil => intro s _; rfl
      | cons d ds ih =>
        intro s hd
        simp only [drawAll, List.length_cons]
        rw [ih _ fun d' h' => hd d' (by simp [h']), hc d (hd d (by simp))]
        omega
    have hk := key (drawsIn e o) st (by
      intro d hd
      unfold drawsIn at hd
      obtain ⟨l, hl, rfl⟩ := List.mem_map.1 hd
      have : l < (randomLeaves e).length := List.mem_range.1 (h.order.mem_iff.1 hl)
      rw [List.getD_eq_getElem?_getD, List.getElem?_eq_getElem this]
      exact List.getElem_mem _)
    rw [h.draws] at hk
    have hol : (drawsIn e o).length = (randomLeaves e).length := by
      unfold drawsIn
      rw [List.length_map, h.order.length_eq, List.length_range]
    rw [hol] at hk
    simp only at hk
    rw [hk, List.length_cons, Nat.succ_mul]
    omega

theorem drawAll_count (c : σ → Nat) (d : σ → β × σ) (hc : ∀ s, c (d s).2 = c s + 1) : ∀ (n : Nat) (x : σ),
    c (drawAll (List.replicate n d) x).2 = c x + n
  | 0, _ => rfl
  | n + 1, x => by
    simp only [List.replicate_succ, drawAll]
    rw [drawAll_count c d hc n, hc]
    omega

/-- C95: the number of draws is the number of elements of the result times the number of random operands, also when
the operands are broadcast. -/
theorem C95_draw_count [Inhabited β] (swap : σ → Bool) (L : Layout) (e : REx σ β) (st : σ)
    (c : σ → Nat) (hc : ∀ d ∈ randomLeaves e, ∀ s, c (d s).2 = c s + 1) (hx : SmallOperands e) {sh : List Nat}
    (hsh : bcShape (operandShapes e) = some sh) :
    ∃ a st', e.assignTo swap L st = .ok (a, st') ∧ c st' = c st + numel sh * (randomLeaves e).length := by
  by_cases hr : isGenerator e
  · cases e with
    | rnd s d =>
      have hs : s = sh := by
        have : bcShape [s] = some sh := hsh
        rw [bcShape_singleton] at this
        exact Option.some.inj this
      subst hs
      obtain ⟨a, st', h1, -, -, -, h5, -⟩ := C95_direct swap L s d st
      refine ⟨a, st', h1, ?_⟩
      have := drawAll_count c d (hc d (by simp [randomLeaves])) (numel s) st
      rw [h5] at this
      simpa [randomLeaves] using this
    | read => exact hr.elim
    | un => exact hr.elim
    | bin => exact hr.elim
    | bcast => exact hr.elim
  · obtain ⟨a, st', vss, h1, -, -, -, h5, h6, -⟩ := C95_assign swap L e st hr hx hsh
    refine ⟨a, st', h1, ?_⟩
    rw [drawnEach_count c hc h5, h6]

/-- C95: operands that cannot be broadcast together are refused before anything is drawn. -/
theorem C95_refused (swap : σ → Bool) (L : Layout) (e : REx σ β) (st : σ) (hx : SmallOperands e)
    (h : bcShape (operandShapes e) = none) : e.assignTo swap L st = .throws := by
  have hr := (resizeInfo_bc (toEx_below e hx) (toEx_leaves e)).2 h
  unfold REx.assignTo
  split
  · simp [REx.toEx, resizeInfo, Ex.exShape] at hr
  · simp only [hr]

/-- C95: filling the storage and going through an expression give the same array and leave the engine in the same
state: `a = rand(s)` and `a = f(rand(s))` for the identity `f`. -/
theorem C95_direct_is_expression (swap : σ → Bool) (L : Layout) (s : List Nat) (hs : szMax ∉ s) (draw : σ → β × σ)
    (st : σ) :
    (REx.un (fun v => v) (.rnd s draw)).assignTo swap L st = (REx.rnd s draw).assignTo swap L st := by
  obtain ⟨tr, h⟩ := (resizeInfo_bc (toEx_below (REx.un (fun v : β => v) (.rnd s draw)) hs) (toEx_leaves _)).1 s
    (bcShape_singleton s)
  have key : ∀ (is : List (List Nat)) (st : σ), (REx.un (fun v => v) (.rnd s draw)).evals swap is st =
      fillDraws draw is.length st := by
    intro is
    induction is with
    | nil => intro; rfl
    | cons i is ih => intro st; simp [REx.evals, REx.eval, fillDraws, ih]
  simp only [REx.assignTo, h, key, length_storageIndices, foldl_mul_eq, Nat.one_mul]

/-! ### Examples -/

/-- A generator of known results: the number of draws made so far. -/
def countDraws (k : Nat) : Nat × Nat := (10 * k, k + 1)

/-- `random::rand({2, 2}) - 3 * random::rand({2})`. -/
def sampleRandom : REx Nat Int :=
  .bin (· - ·) (.rnd [2, 2] fun k => (10 * k, k + 1)) (.un (3 * ·) (.rnd [2] fun k => (10 * k, k + 1)))

example : sampleRandom.eval (fun k => k % 2 == 0) [1, 0] 4 = (-70, 6) := by decide
example : ¬ isGenerator sampleRandom ∧ bcShape (operandShapes sampleRandom) = some [2, 2] ∧
    (sampleRandom.assignTo (fun _ => false) .row_major 0).map (fun r => (r.1.data, r.2))
      = .ok ([-30, -70, -110, -150], 8) :=
  ⟨fun h => h, by decide, by decide⟩
example : SmallOperands sampleRandom :=
  ⟨show szMax ∉ [2, 2] by decide, show szMax ∉ [2] by decide⟩
example : sampleRandom.assignView (fun _ => false) .row_major [2, 2] 0
    = ([([0, 0], -30), ([0, 1], -70), ([1, 0], -110), ([1, 1], -150)], 8) := by decide
example : ∀ d ∈ randomLeaves sampleRandom, ∀ s, (d s).2 = s + 1 := by simp [sampleRandom, randomLeaves]
example : bcShape (operandShapes (.bin (· + ·) (.rnd [2] countDraws) (.rnd [3] countDraws))) = none := by decide
example : szMax ∉ [2, 3] := by decide

/-! ### What does not hold -/

/-- C95: the same engine in the same state gives different arrays in containers of different layouts. -/
theorem C95_layout_wrong : ∃ (s p : List Nat) (a b : Buf Nat) (st : Nat), InBounds s p ∧
    (REx.rnd s countDraws).assignTo (fun _ => false) .row_major 0 = .ok (a, st) ∧
    (REx.rnd s countDraws).assignTo (fun _ => false) .column_major 0 = .ok (b, st) ∧ a.read p ≠ b.read p :=
  ⟨[2, 2], [0, 1], _, _, _, by decide, rfl, rfl, by decide⟩

/-- C95: nor does a view of the whole of a column-major container (a view of dynamic layout is written in row-major
order) receive what the container receives. -/
theorem C95_view_order_wrong : ∃ (s p : List Nat) (a : Buf Nat) (st : Nat) (ws : List (List Nat × Nat)), InBounds s p ∧
    (REx.rnd s countDraws).assignTo (fun _ => false) .column_major 0 = .ok (a, st) ∧
    (REx.rnd s countDraws).assignView (fun _ => false) .row_major s 0 = (ws, st) ∧ (p, a.read p) ∉ ws :=
  ⟨[2, 2], [0, 1], _, _, _, by decide, rfl, rfl, by decide⟩

/-- C95: an element of a random expression that is read twice has two values, whenever two successive draws differ. -/
theorem C95_read_twice_wrong (swap : σ → Bool) (s : List Nat) (draw : σ → β × σ) (idx : List Nat) (st : σ)
    (h : (draw (draw st).2).1 ≠ (draw st).1) :
    ((REx.rnd s draw).eval swap idx ((REx.rnd s draw).eval swap idx st).2).1 ≠ ((REx.rnd s draw).eval swap idx st).1 := h

example : (countDraws (countDraws 3).2).1 ≠ (countDraws 3).1 := by decide

/-- C95: so `r - r` is not 0 for a random expression `r`, in either order of the operands. -/
theorem C95_difference_wrong (swap : σ → Bool) (s : List Nat) (draw : σ → Int × σ) (idx : List Nat) (st : σ)
    (h : (draw (draw st).2).1 ≠ (draw st).1) :
    ((REx.bin (· - ·) (.rnd s draw) (.rnd s draw)).eval swap idx st).1 ≠ 0 := by
  unfold REx.eval
  split
  · show (draw (draw st).2).1 - (draw st).1 ≠ 0
    omega
  · show (draw st).1 - (draw (draw st).2).1 ≠ 0
    omega

/-- C95: the value of `r - r'` depends on the order in which the compiler evaluates arguments. -/
theorem C95_order_wrong : ∃ (e : REx Nat Int) (idx : List Nat) (st : Nat),
    (e.eval (fun _ => true) idx st).1 ≠ (e.eval (fun _ => false) idx st).1 :=
  ⟨sampleRandom, [0, 0], 0, by decide⟩

/-- C95: a random operand that is broadcast is not repeated along the new axis: each element of the result draws. -/
theorem C95_broadcast_wrong : ∃ (a : Buf Nat) (st : Nat),
    (REx.bcast (.rnd [2] countDraws) [2, 2]).assignTo (fun _ => false) .row_major 0 = .ok (a, st) ∧
    a.read [0, 1] ≠ a.read [1, 1] ∧ st = 4 :=
  ⟨_, _, rfl, by decide, rfl⟩

/-! ### Integers -/

theorem IntKind.usual_int (t : IntKind) : t.usual ⟨32, true⟩ = if t.bits < 32 then ⟨32, true⟩ else t := by
  unfold IntKind.usual IntKind.promoted
  by_cases h : t.bits < 32
  · simp [h]
  · simp only [h, if_false, Nat.lt_irrefl]
    by_cases h' : 32 < t.bits
    · rw [if_pos h']
    · rw [if_neg h']
      obtain ⟨b, s⟩ := t
      simp

theorem IntKind.usual_int_holds {t : IntKind} (hb : 0 < t.bits) {v : Int} (h : t.holds v) :
    (t.usual ⟨32, true⟩).holds v := by
  rw [IntKind.usual_int]
  by_cases h32 : t.bits < 32
  · rw [if_pos h32]
    have hp := pow_half hb
    have hm : (2 : Int) ^ t.bits ≤ 2 ^ 31 := by
      exact_mod_cast Nat.pow_le_pow_right (by decide) (by omega : t.bits ≤ 31)
    unfold IntKind.holds at h ⊢
    have e31 : (2 : Int) ^ 31 = 2147483648 := by norm_num
    rw [e31] at hm
    have := pow_two_pos (t.bits - 1)
    simp only [if_true]
    norm_num
    split at h <;> omega
  · rw [if_neg h32]
    exact h

/-- C95: `randint(shape, lower, upper)` draws between `lower` and `upper - 1`, for every integer type and all bounds of
that type with `lower < upper`. -/
theorem C95_randint_partial (t : IntKind) (hb : 0 < t.bits) (lower upper : Int) (hl : t.holds lower) (hu : t.holds upper)
    (h : lower < upper) : randintBounds t lower upper = .ok (lower, upper - 1) := by
  have h1 : t.holds (upper - 1) := by
    unfold IntKind.holds at hl hu ⊢
    split at hl <;> split <;> simp_all <;> omega
  have one : (t.usual ⟨32, true⟩).conv 1 = 1 := by
    refine IntKind.conv_of_holds (IntKind.usual_pos _ _) ?_
    have h32 := t.usual_ge ⟨32, true⟩
    unfold IntKind.holds
    have p1 : (2 : Int) ^ 31 ≤ 2 ^ ((t.usual ⟨32, true⟩).bits - 1) := by
      exact_mod_cast Nat.pow_le_pow_right (by decide) (by omega)
    have p2 : (2 : Int) ^ 32 ≤ 2 ^ (t.usual ⟨32, true⟩).bits := by
      exact_mod_cast Nat.pow_le_pow_right (by decide) (by omega)
    norm_num at p1 p2
    split <;> omega
  unfold randintBounds intOp
  simp only [IntOp.exact, one]
  rw [IntKind.conv_of_holds (IntKind.usual_pos _ _) (IntKind.usual_int_holds hb hu),
    IntKind.arith_of_holds (IntKind.usual_int_holds hb h1)]
  simp only [IntKind.conv_of_holds hb h1]
  rw [if_pos (by omega)]

example : randintBounds ⟨8, true⟩ (-128) 127 = .ok (-128, 126) := by decide +kernel
example : (⟨8, true⟩ : IntKind).holds (-128) ∧ (⟨8, true⟩ : IntKind).holds 127 := by decide

/-- C95: an empty interval is not refused: the requirement of the distribution is broken. -/
theorem C95_randint_empty_ub : randintBounds ⟨32, true⟩ 5 5 = .ub ∧ randintBounds ⟨32, true⟩ 5 3 = .ub := by decide +kernel

/-- C95: with `upper` the least value of an unsigned type, or of a type narrower than `int`, the interval is that of all
values from `lower` on; and an `int` overflows. -/
theorem C95_randint_wraps_wrong : randintBounds ⟨64, false⟩ 0 0 = .ok (0, 18446744073709551615) ∧
    randintBounds ⟨8, true⟩ (-128) (-128) = .ok (-128, 127) ∧ randintBounds ⟨32, true⟩ 0 (-2147483648) = .ub := by
  decide +kernel

/-! ### Adapted memory -/

/-- C95: a random generator of another size assigned to adapted memory that cannot grow ends the program, where any
other expression throws. -/
theorem C95_adaptor_wrong (v : β) (p m : Nat) (sh : List Nat) (h : numel sh ≠ m) :
    generatorResize v (.raw p m) sh = .terminates ∧ expressionResize v (.raw p m) sh = .throws := by
  have hn : sh.foldl (· * ·) 1 = numel sh := by rw [foldl_mul_eq, Nat.one_mul]
  constructor
  · unfold generatorResize AStore.resize
    simp only [hn, h, ne_eq, not_false_eq_true, if_true]
    rfl
  · unfold expressionResize AStore.resize
    simp only [hn, h, ne_eq, not_false_eq_true, if_true]

example : numel [2, 3] ≠ 4 := by decide

/-- C95: memory of the right size is filled. -/
theorem C95_adaptor_fits (v : β) (p : Nat) (sh : List Nat) :
    generatorResize v (.raw p (numel sh)) sh = .returns (.raw p (numel sh)) := by
  have hn : sh.foldl (· * ·) 1 = numel sh := by rw [foldl_mul_eq, Nat.one_mul]
  unfold generatorResize AStore.resize
  simp only [hn, ne_eq, not_true_eq_false, if_false]
  rfl

end Xt
