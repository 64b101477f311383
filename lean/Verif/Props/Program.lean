import Verif.Lemmas.Program
/-!
# C88: programs of assignments have value semantics
-/

namespace Xt
open Spec

variable {β : Type}

/-! ### States that hold given values -/

/-- The blocks of the two arrays do not overlap. -/
def Spec.Away (a b : StridedArr) : Prop :=
  a.off + numel a.shape ≤ b.off ∨ b.off + numel b.shape ≤ a.off

/-- The container holds the table. -/
structure Spec.VarHolds (m : Mem β) (x : PVar) (t : Tab β) : Prop where
  lay : x.lay = .row_major ∨ x.lay = .column_major
  arr : x.arr = .container x.lay t.shape x.arr.off
  small : numel t.shape < 2 ^ 64
  below : szMax ∉ t.shape
  vals : ∀ idx, InBounds t.shape idx → m (addr x.arr idx) = t.at' idx

/-- The state holds the tables, in blocks of their own. -/
structure Spec.StHolds (st : PSt β) (env : List (Tab β)) : Prop where
  len : st.vars.length = env.length
  var : ∀ (i : Nat) (x : PVar), st.vars[i]? = some x → ∃ t, env[i]? = some t ∧ VarHolds st.mem x t
  away : ∀ (i j : Nat) (x y : PVar), i ≠ j → st.vars[i]? = some x → st.vars[j]? = some y →
    Away x.arr y.arr

/-- The allocator returns blocks disjoint from the live ones. -/
def Spec.GoodAlloc (cfg : PCfg) : Prop :=
  ∀ t live n, ∀ b ∈ live, cfg.alloc t live n + n ≤ b.1 ∨ b.1 + b.2 ≤ cfg.alloc t live n

theorem Spec.VarHolds.shape {m : Mem β} {x : PVar} {t : Tab β} (h : VarHolds m x t) :
    x.arr.shape = t.shape := by rw [h.arr]; rfl

theorem Spec.VarHolds.contig {m : Mem β} {x : PVar} {t : Tab β} (h : VarHolds m x t) :
    Contig x.lay x.arr := by rw [h.arr]; exact container_contig h.lay _ _

theorem Spec.VarHolds.wf {m : Mem β} {x : PVar} {t : Tab β} (h : VarHolds m x t) : x.arr.WF := by
  rw [h.arr]; exact container_wf _ _

theorem Spec.VarHolds.distinct {m : Mem β} {x : PVar} {t : Tab β} (h : VarHolds m x t) :
    Distinct x.arr := contig_distinct h.lay h.contig

theorem Spec.StHolds.get {st : PSt β} {env : List (Tab β)} (h : StHolds st env) {i : Nat} {t : Tab β}
    (hi : env[i]? = some t) : ∃ x, st.vars[i]? = some x ∧ VarHolds st.mem x t := by
  have hlt : i < st.vars.length := by
    rw [h.len]; exact (List.getElem?_eq_some_iff.1 hi).1
  obtain ⟨t', ht', hv⟩ := h.var i _ (List.getElem?_eq_getElem hlt)
  rw [hi, Option.some.injEq] at ht'
  subst ht'
  exact ⟨_, List.getElem?_eq_getElem hlt, hv⟩

theorem foldl_numel_eq (sh : List Nat) : sh.foldl (· * ·) 1 = numel sh :=
  StridedArr.size_eq (.container .row_major sh 0)

theorem newArr_away {cfg : PCfg} (hg : GoodAlloc cfg) (st : PSt β) (l : Layout) (sh : List Nat)
    {j : Nat} {y : PVar} (hy : st.vars[j]? = some y) : Away (cfg.newArr st l sh) y.arr := by
  have hm : (y.arr.off, y.arr.size) ∈ st.live :=
    List.mem_map.2 ⟨y, List.mem_of_getElem? hy, rfl⟩
  have := hg st.clock st.live (sh.foldl (· * ·) 1) _ hm
  simp only [StridedArr.size_eq] at this
  unfold Away
  show cfg.alloc st.clock st.live (sh.foldl (· * ·) 1) + (numel sh : Int) ≤ _ ∨
    _ ≤ cfg.alloc st.clock st.live (sh.foldl (· * ·) 1)
  have e := foldl_numel_eq sh
  omega

/-- Replacing one variable. -/
theorem Spec.StHolds.put {st : PSt β} {env : List (Tab β)} (h : StHolds st env) {i : Nat} {x : PVar}
    (hx : st.vars[i]? = some x) {a' : StridedArr} {m' : Mem β} {t' : Tab β} (c : Nat)
    (ha : a' = .container x.lay t'.shape a'.off) (hs : numel t'.shape < 2 ^ 64)
    (hb : szMax ∉ t'.shape)
    (haw : ∀ (j : Nat) (y : PVar), j ≠ i → st.vars[j]? = some y → Away a' y.arr)
    (hv : ∀ idx, InBounds t'.shape idx → m' (addr a' idx) = t'.at' idx)
    (hf : ∀ (j : Nat) (y : PVar), j ≠ i → st.vars[j]? = some y → ∀ idx, InBounds y.arr.shape idx →
      m' (addr y.arr idx) = st.mem (addr y.arr idx)) :
    StHolds (β := β) ⟨st.vars.set i { x with arr := a' }, m', c⟩ (env.set i t') := by
  have hlt : i < st.vars.length := (List.getElem?_eq_some_iff.1 hx).1
  obtain ⟨t, ht, hvt⟩ := h.var i x hx
  refine ⟨by simp [h.len], ?_, ?_⟩
  · intro j y hy
    simp only at hy
    rw [List.getElem?_set] at hy ⊢
    by_cases hij : i = j
    · rw [if_pos hij, if_pos (by omega), Option.some.injEq] at hy
      subst hy
      rw [if_pos hij, if_pos (by rw [← h.len]; omega)]
      exact ⟨t', rfl, ⟨hvt.lay, ha, hs, hb, hv⟩⟩
    · rw [if_neg hij] at hy
      rw [if_neg hij]
      obtain ⟨u, hu, hvu⟩ := h.var j y hy
      refine ⟨u, hu, ⟨hvu.lay, hvu.arr, hvu.small, hvu.below, fun idx hi => ?_⟩⟩
      show m' _ = _
      rw [hf j y (Ne.symm hij) hy idx (by rw [hvu.shape]; exact hi)]
      exact hvu.vals idx hi
  · intro j k y z hjk hy hz
    simp only at hy hz
    rw [List.getElem?_set] at hy hz
    by_cases hij : i = j
    · have hik : i ≠ k := fun he => hjk (by omega)
      rw [if_pos hij, if_pos (by omega), Option.some.injEq] at hy
      rw [if_neg hik] at hz
      subst hy
      exact haw k z (Ne.symm hik) hz
    · rw [if_neg hij] at hy
      by_cases hik : i = k
      · rw [if_pos hik, if_pos (by omega), Option.some.injEq] at hz
        subst hz
        exact (haw j y (Ne.symm hij) hy).symm
      · rw [if_neg hik] at hz
        exact h.away j k y z hjk hy hz

/-- Adding a variable. -/
theorem Spec.StHolds.append {st : PSt β} {env : List (Tab β)} (h : StHolds st env) {l : Layout}
    (hl : l = .row_major ∨ l = .column_major) {a' : StridedArr} {m' : Mem β} {t' : Tab β} (c : Nat)
    (ha : a' = .container l t'.shape a'.off) (hs : numel t'.shape < 2 ^ 64)
    (hb : szMax ∉ t'.shape)
    (haw : ∀ (j : Nat) (y : PVar), st.vars[j]? = some y → Away a' y.arr)
    (hv : ∀ idx, InBounds t'.shape idx → m' (addr a' idx) = t'.at' idx)
    (hf : ∀ (j : Nat) (y : PVar), st.vars[j]? = some y → ∀ idx, InBounds y.arr.shape idx →
      m' (addr y.arr idx) = st.mem (addr y.arr idx)) :
    StHolds (β := β) ⟨st.vars ++ [⟨l, a'⟩], m', c⟩ (env ++ [t']) := by
  have key : ∀ (j : Nat) (y : PVar), (st.vars ++ [⟨l, a'⟩])[j]? = some y →
      (j < st.vars.length ∧ st.vars[j]? = some y) ∨ (j = st.vars.length ∧ y = ⟨l, a'⟩) := by
    intro j y hy
    by_cases hj : j < st.vars.length
    · rw [List.getElem?_append_left hj] at hy; exact Or.inl ⟨hj, hy⟩
    · rw [List.getElem?_append_right (by omega)] at hy
      have := (List.getElem?_eq_some_iff.1 hy).1
      simp at this
      have hj0 : j - st.vars.length = 0 := by omega
      rw [hj0] at hy
      simp at hy
      exact Or.inr ⟨by omega, hy.symm⟩
  refine ⟨by simp [h.len], ?_, ?_⟩
  · intro j y hy
    rcases key j y hy with ⟨hj, hy⟩ | ⟨hj, rfl⟩
    · obtain ⟨u, hu, hvu⟩ := h.var j y hy
      refine ⟨u, by rw [List.getElem?_append_left (by rw [← h.len]; exact hj)]; exact hu,
        ⟨hvu.lay, hvu.arr, hvu.small, hvu.below, fun idx hi => ?_⟩⟩
      show m' _ = _
      rw [hf j y hy idx (by rw [hvu.shape]; exact hi)]
      exact hvu.vals idx hi
    · refine ⟨t', ?_, ⟨hl, ha, hs, hb, hv⟩⟩
      rw [List.getElem?_append_right (by rw [← h.len]; omega), ← h.len, hj, Nat.sub_self]
      rfl
  · intro j k y z hjk hy hz
    rcases key j y hy with ⟨hj, hy⟩ | ⟨hj, rfl⟩ <;> rcases key k z hz with ⟨hk, hz⟩ | ⟨hk, rfl⟩
    · exact h.away j k y z hjk hy hz
    · exact (haw j y hy).symm
    · exact haw k z hz
    · omega

/-! ### Expressions -/

/-- What the proofs use about an expression built in a state: it reads only the variables `vs`,
its operands have the shapes `S`, its values are `g`; `el` is its static layout, `sl` whether its
steppers can walk the innermost axis. -/
structure Built (st : PSt β) (vs : List Nat) (S : List (List Nat)) (g : List Nat → β) (el : Layout)
    (sl : Bool) (ex : MEx β) : Prop where
  ok : OperandsOK ex
  below : ExtentsBelow ex
  pw : Pointwise ex
  hull : ∀ c ∈ ex.arrs, Hull c
  inside : ∀ c ∈ ex.arrs, ∃ i ∈ vs, ∃ x : PVar, st.vars[i]? = some x ∧
    ∀ idx, InBounds c.shape idx → ∃ j, InBounds x.arr.shape j ∧ addr c idx = addr x.arr j
  leaves : ex.toSh.leaves = S
  val : ∀ out idx, Fits out ex → InBounds out idx → valueAt ex idx st.mem = g idx
  lin : el ≠ .dynamic → NoGen ex ∧ NoBcast ex ∧ ∀ L, (L = .row_major ∨ L = .column_major) →
    (el = .any ∨ el = L) → ∀ c ∈ ex.arrs, Contig L c
  strided : sl = true → NoGen ex

/-- The same for operands. -/
structure BuiltAll (st : PSt β) (vs : List Nat) (S : List (List Nat)) (g : List Nat → List β)
    (el : Layout) (sl : Bool) (ex : Args (Mem β → β)) : Prop where
  ok : OperandsOKAll ex
  below : ExtentsBelowAll ex
  pw : PointwiseAll ex
  hull : ∀ c ∈ ex.arrss, Hull c
  inside : ∀ c ∈ ex.arrss, ∃ i ∈ vs, ∃ x : PVar, st.vars[i]? = some x ∧
    ∀ idx, InBounds c.shape idx → ∃ j, InBounds x.arr.shape j ∧ addr c idx = addr x.arr j
  leaves : ShExpr.leavesL ex.toShs = S
  val : ∀ out idx, FitsAll out ex → InBounds out idx →
    (valuesAt ex idx).map (fun v => v st.mem) = g idx
  lin : el ≠ .dynamic → NoGenAll ex ∧ NoBcastAll ex ∧ ∀ L, (L = .row_major ∨ L = .column_major) →
    (el = .any ∨ el = L) → ∀ c ∈ ex.arrss, Contig L c
  strided : sl = true → NoGenAll ex

theorem layout_split (a b : Layout) (h : Layout.combine2 a b ≠ .dynamic) :
    a ≠ .dynamic ∧ b ≠ .dynamic ∧ ∀ L, (L = .row_major ∨ L = .column_major) →
      (Layout.combine2 a b = .any ∨ Layout.combine2 a b = L) →
      (a = .any ∨ a = L) ∧ (b = .any ∨ b = L) := by
  revert h
  cases a <;> cases b <;> intro h <;>
    first
    | (exact absurd rfl h)
    | (refine ⟨by decide, by decide, ?_⟩
       rintro L (rfl | rfl) <;> decide)

theorem hull_container' {l : Layout} (hl : l = .row_major ∨ l = .column_major) (c : StridedArr)
    (h : Contig l c) : Hull c := hull_of_contig hl h

/-- A variable as operand. -/
theorem built_var {st : PSt β} {t : Tab β} {i : Nat} {x : PVar} (hx : st.vars[i]? = some x)
    (hv : VarHolds st.mem x t) :
    Built st [i] [t.shape] (fun idx => t.at' (bcIndex t.shape idx)) x.lay true (rdArr x.arr) := by
  refine ⟨hv.wf, ?_, rfl, ?_, ?_, ?_, ?_, ?_, fun _ => trivial⟩
  · show szMax ∉ x.arr.shape
    rw [hv.shape]; exact hv.below
  · intro c hc
    simp only [rdArr, Ex.arrs, List.mem_singleton] at hc
    subst hc
    exact hull_of_contig hv.lay hv.contig
  · intro c hc
    simp only [rdArr, Ex.arrs, List.mem_singleton] at hc
    subst hc
    exact ⟨i, by simp, x, hx, fun idx hi => ⟨idx, hi, rfl⟩⟩
  · show [x.arr.shape] = _
    rw [hv.shape]
  · intro out idx hf hi
    show st.mem (addr x.arr (bcIndex x.arr.shape idx)) = _
    have hb := inBounds_bcIndex hf.2 hi
    rw [hv.shape] at hb ⊢
    exact hv.vals _ hb
  · intro _
    refine ⟨trivial, trivial, fun L hL he c hc => ?_⟩
    simp only [rdArr, Ex.arrs, List.mem_singleton] at hc
    subst hc
    rcases he with he | he
    · rcases hv.lay with h | h <;> rw [h] at he <;> cases he
    · rw [← he]; exact hv.contig

/-- A strided view as operand. -/
theorem built_slice {st : PSt β} {t : Tab β} {i : Nat} {x : PVar} (hx : st.vars[i]? = some x)
    (hv : VarHolds st.mem x t) {us : List USlice} (hs : SaneSlices t.shape us) {v : SView}
    (hg : GoodView x.arr us v) :
    Built st [i] [vshape t.shape us]
      (fun idx => t.at' (vindex t.shape us (bcIndex (vshape t.shape us) idx))) .dynamic true
      (rdArr v.arr) := by
  have hsh : v.arr.shape = vshape t.shape us := by rw [hg.shape, hv.shape]
  have hin := hg.inside
  rw [hv.shape] at hin
  refine ⟨hg.wf, ?_, rfl, ?_, ?_, ?_, ?_, fun h => absurd rfl h, fun _ => trivial⟩
  · show szMax ∉ v.arr.shape
    rw [hsh]; exact hs.small.1
  · intro c hc
    simp only [rdArr, Ex.arrs, List.mem_singleton] at hc
    subst hc
    exact hg.hull
  · intro c hc
    simp only [rdArr, Ex.arrs, List.mem_singleton] at hc
    subst hc
    refine ⟨i, by simp, x, hx, fun idx hi => ?_⟩
    rw [hsh] at hi
    exact ⟨_, by rw [hv.shape]; exact (hin idx hi).1, (hin idx hi).2⟩
  · show [v.arr.shape] = _
    rw [hsh]
  · intro out idx hf hi
    show st.mem (addr v.arr (bcIndex v.arr.shape idx)) = _
    have hb := inBounds_bcIndex hf.2 hi
    rw [hsh] at hb ⊢
    rw [(hin _ hb).2]
    exact hv.vals _ (hin _ hb).1

/-- `a op e`. -/
theorem Built.bin [Inhabited β] {st : PSt β} {vs : List Nat} {S : List (List Nat)} {g : List Nat → β}
    {el : Layout} {sl : Bool} {ex : MEx β} (h : Built st vs S g el sl ex) {vs' : List Nat}
    {s : List Nat} {g' : List Nat → β} {el' : Layout} {c : StridedArr}
    (h' : Built st vs' [s] g' el' true (rdArr c)) (f : β → β → β) :
    Built st (vs' ++ vs) (s :: S) (fun idx => f (g' idx) (g idx)) (Layout.computeLayout [el', el]) sl
      (binEx f c ex) := by
  refine ⟨⟨h'.ok, h.ok, trivial⟩, ⟨h'.below, h.below, trivial⟩,
    ⟨⟨fun vs => f (vs.getD 0 default) (vs.getD 1 default), rfl⟩, h'.pw, h.pw, trivial⟩, ?_, ?_, ?_,
    ?_, ?_, fun hs => ⟨trivial, h.strided hs, trivial⟩⟩
  · intro d hd
    simp only [binEx, pwFn, Ex.arrs, Args.arrss, List.append_nil] at hd
    rcases List.mem_append.1 hd with hd | hd
    · exact h'.hull d hd
    · exact h.hull d hd
  · intro d hd
    simp only [binEx, pwFn, Ex.arrs, Args.arrss, List.append_nil] at hd
    rcases List.mem_append.1 hd with hd | hd
    · obtain ⟨i, hi, r⟩ := h'.inside d hd
      exact ⟨i, by simp [hi], r⟩
    · obtain ⟨i, hi, r⟩ := h.inside d hd
      exact ⟨i, by simp [hi], r⟩
  · rw [binEx_leaves, h.leaves]
    have := h'.leaves
    simp only [rdArr, Ex.toSh, ShExpr.leaves, List.cons.injEq, and_true] at this
    rw [this]
  · intro out idx hf hi
    rw [valueAt_binEx, h.val out idx hf.2.1 hi]
    have := h'.val out idx hf.1 hi
    rw [← this]; rfl
  · intro hne
    rw [Layout.computeLayout_cons, Layout.computeLayout_cons] at hne
    have hany : Layout.combine2 el (Layout.computeLayout []) = el := by cases el <;> decide
    rw [hany] at hne
    obtain ⟨h1, h2, h3⟩ := layout_split _ _ hne
    obtain ⟨a1, a2, a3⟩ := h'.lin h1
    obtain ⟨b1, b2, b3⟩ := h.lin h2
    refine ⟨⟨a1, b1, trivial⟩, ⟨a2, b2, trivial⟩, fun L hL he d hd => ?_⟩
    rw [Layout.computeLayout_cons, Layout.computeLayout_cons, hany] at he
    obtain ⟨e1, e2⟩ := h3 L hL he
    simp only [binEx, pwFn, Ex.arrs, Args.arrss, List.append_nil] at hd
    rcases List.mem_append.1 hd with hd | hd
    · exact a3 L hL e1 d hd
    · exact b3 L hL e2 d hd

mutual
/-- Expressions of a meaningful program are built without error and read the values of the
specification. -/
theorem PEx.build_ok [Inhabited β] {st : PSt β} {env : List (Tab β)} (h : StHolds st env) :
    ∀ (e : PEx β), SaneEx env e → ∃ ex, e.build st.vars = .ok ex ∧
      Built st (pvars e) (pleaves env e) (pval env e) (e.slay st.vars) e.stridedLoop ex
  | .var i, hs => by
    obtain ⟨t, ht⟩ := hs
    obtain ⟨x, hx, hv⟩ := h.get ht
    refine ⟨rdArr x.arr, by simp only [PEx.build, hx], ?_⟩
    have := built_var hx hv
    simp only [pvars, pleaves, ht, PEx.slay, hx, PEx.stridedLoop]
    refine cast ?_ this
    congr 1
    funext idx
    simp only [pval, ht]
  | .slice i us, hs => by
    obtain ⟨t, ht, hsl⟩ := hs
    obtain ⟨x, hx, hv⟩ := h.get ht
    obtain ⟨v, hvw, hg⟩ := goodView hv.lay hv.arr hsl
    refine ⟨rdArr v.arr, by simp only [PEx.build, hx, hvw, Res.map, Res.bind], ?_⟩
    have := built_slice hx hv hsl hg
    simp only [pvars, pleaves, ht, PEx.slay, PEx.stridedLoop]
    refine cast ?_ this
    congr 1
    funext idx
    simp only [pval, ht]
  | .lit v, _ => by
    refine ⟨_, rfl, ⟨trivial, trivial, ⟨v, rfl⟩, ?_, ?_, rfl, fun _ _ _ _ => rfl, ?_, fun _ => trivial⟩⟩
    · intro c hc; simp [Ex.arrs] at hc
    · intro c hc; simp [Ex.arrs] at hc
    · intro _; exact ⟨trivial, trivial, fun _ _ _ c hc => by simp [Ex.arrs] at hc⟩
  | .gen s g, hs => by
    refine ⟨_, rfl, ⟨hs.1, hs.2, ⟨g, rfl⟩, ?_, ?_, rfl, fun _ _ _ _ => rfl, fun h => absurd rfl h, ?_⟩⟩
    · intro c hc; simp [Ex.arrs] at hc
    · intro c hc; simp [Ex.arrs] at hc
    · intro h; simp [PEx.stridedLoop] at h
  | .fn f args, hs => by
    obtain ⟨es, h1, b⟩ := PArgs.build_ok h args hs
    refine ⟨pwFn f es, by simp only [PEx.build, h1, Res.map, Res.bind], ⟨b.ok, b.below, ⟨⟨f, rfl⟩, b.pw⟩, b.hull,
      b.inside, ?_, ?_, b.lin, b.strided⟩⟩
    · exact b.leaves
    · intro out idx hf hi
      have := b.val out idx hf hi
      show f ((valuesAt es idx).map (fun v => v st.mem)) = f (pvals env args idx)
      rw [this]
  | .bcast e s, hs => by
    obtain ⟨hse, hx, hbt⟩ := hs
    obtain ⟨ex, h1, b⟩ := PEx.build_ok h e hse
    rcases exShape_spec ex b.below with ⟨es, he, hbr⟩ | ⟨-, -, hc⟩
    · rw [b.leaves] at hbr
      have hle := isBroadcast_length hbr fun x hx => (hbt x hx).1
      have hes : BroadcastsTo es s := isBroadcast_broadcastsTo hbr hbt hle
      obtain ⟨tr, hbs⟩ := (C06_broadcastable_iff es s hx).1
        ((broadcastable_iff_broadcastsTo _ _).2 hes)
      refine ⟨.bcast ex s, by simp only [PEx.build, h1, Res.bind, he, hbs], ?_⟩
      have hfit : Fits s ex := by
        refine Ex.fits_of ex b.ok ?_
        intro x hx
        rw [b.leaves] at hx
        exact hbt x hx
      refine ⟨hfit, ⟨hx, b.below⟩, b.pw, b.hull, b.inside, rfl, ?_, fun h => absurd rfl h, ?_⟩
      · intro out idx hf hi
        exact b.val s _ hfit (inBounds_bcIndex hf.1 hi)
      · intro h; simp [PEx.stridedLoop] at h
    · rw [b.leaves] at hc
      exact absurd hc (no_conflict_of_broadcastsTo hbt)
/-- The same for operands. -/
theorem PArgs.build_ok [Inhabited β] {st : PSt β} {env : List (Tab β)} (h : StHolds st env) :
    ∀ (es : PArgs β), SaneArgs env es → ∃ exs, es.build st.vars = .ok exs ∧
      BuiltAll st (pvarss es) (pleavess env es) (pvals env es)
        (Layout.computeLayout (es.slays st.vars)) es.stridedLoops exs
  | .nil, _ => by
    refine ⟨.nil, rfl, ⟨trivial, trivial, trivial, ?_, ?_, rfl, fun _ _ _ _ => rfl, ?_, fun _ => trivial⟩⟩
    · intro c hc; simp [Args.arrss] at hc
    · intro c hc; simp [Args.arrss] at hc
    · intro _; exact ⟨trivial, trivial, fun _ _ _ c hc => by simp [Args.arrss] at hc⟩
  | .cons e es, hs => by
    obtain ⟨ex, h1, a⟩ := PEx.build_ok h e hs.1
    obtain ⟨exs, h2, b⟩ := PArgs.build_ok h es hs.2
    refine ⟨.cons ex exs, by simp only [PArgs.build, h1, h2, Res.bind, Res.map], ⟨⟨a.ok, b.ok⟩,
      ⟨a.below, b.below⟩, ⟨a.pw, b.pw⟩, ?_, ?_, ?_, ?_, ?_, ?_⟩⟩
    · intro c hc
      rcases List.mem_append.1 hc with hc | hc
      · exact a.hull c hc
      · exact b.hull c hc
    · intro c hc
      rcases List.mem_append.1 hc with hc | hc
      · obtain ⟨i, hi, r⟩ := a.inside c hc
        exact ⟨i, by simp [pvarss, hi], r⟩
      · obtain ⟨i, hi, r⟩ := b.inside c hc
        exact ⟨i, by simp [pvarss, hi], r⟩
    · show ex.toSh.leaves ++ ShExpr.leavesL exs.toShs = _
      rw [a.leaves, b.leaves]; rfl
    · intro out idx hf hi
      show valueAt ex idx st.mem :: (valuesAt exs idx).map (fun v => v st.mem) = _
      rw [a.val out idx hf.1 hi, b.val out idx hf.2 hi]; rfl
    · intro hne
      simp only [PArgs.slays, Layout.computeLayout_cons] at hne ⊢
      obtain ⟨k1, k2, k3⟩ := layout_split _ _ hne
      obtain ⟨a1, a2, a3⟩ := a.lin k1
      obtain ⟨b1, b2, b3⟩ := b.lin k2
      refine ⟨⟨a1, b1⟩, ⟨a2, b2⟩, fun L hL he c hc => ?_⟩
      obtain ⟨e1, e2⟩ := k3 L hL he
      rcases List.mem_append.1 hc with hc | hc
      · exact a3 L hL e1 c hc
      · exact b3 L hL e2 c hc
    · intro hsl
      simp only [PArgs.stridedLoops, Bool.and_eq_true] at hsl
      exact ⟨a.strided hsl.1, b.strided hsl.2⟩
end

/-! ### Containers as destination -/

theorem layout_linear {l el : Layout} (hl : l = .row_major ∨ l = .column_major)
    (h : Layout.computeLayout [l, el] ≠ .dynamic) : el = .any ∨ el = l := by
  revert h
  rcases hl with rfl | rfl <;> cases el <;> decide

theorem contTraits_ok (cfg : PCfg) {st : PSt β} {vs : List Nat} {S : List (List Nat)}
    {g : List Nat → β} {el : Layout} {sl : Bool} {ex : MEx β} (h : Built st vs S g el sl ex)
    {l : Layout} (hl : l = .row_major ∨ l = .column_major) {d : StridedArr} (hd : Contig l d)
    (t : Nat) (str : List Int) (simd : Bool) {sl' : Bool} (hsl : sl' = true → sl = true) :
    TraitsOK (cfg.contTraits t l str el simd sl') d ex where
  contig1 _ := ⟨l, hl, hd⟩
  isContig1 _ := ⟨l, hl, hd⟩
  static _ h2 h3 := by
    have h2 : (el != .dynamic) = true := h2
    have h3 : (Layout.computeLayout [l, el] != .dynamic) = true := h3
    obtain ⟨a, b, c⟩ := h.lin (by simpa using h2)
    exact ⟨l, hl, hd, a, b, c l hl (layout_linear hl (by simpa using h3))⟩
  strided hs := by
    have hs : (cfg.simd t && simd && sl') = true := hs
    simp only [Bool.and_eq_true] at hs
    exact h.strided (hsl hs.2)
  width := ⟨min (cfg.logw t) 64, by omega, rfl⟩

theorem Built.apart {st : PSt β} {env : List (Tab β)} (hst : StHolds st env) {vs : List Nat}
    {S : List (List Nat)} {g : List Nat → β} {el : Layout} {sl : Bool} {ex : MEx β}
    (h : Built st vs S g el sl ex) {L : Layout} {d : StridedArr} (hd : Contig L d)
    (haw : ∀ i ∈ vs, ∀ y : PVar, st.vars[i]? = some y → Away d y.arr) : ∀ c ∈ ex.arrs, Apart c d := by
  intro c hc i j hi hj he
  obtain ⟨k, hk, x, hx, hin⟩ := h.inside c hc
  obtain ⟨p, hp, hpe⟩ := hin i hi
  obtain ⟨t, -, hv⟩ := hst.var k x hx
  exact contig_apart hd hv.contig (haw k hk x hx) j p hj hp (by rw [← he, hpe])

theorem size_resized (x : PVar) (sh : List Nat) (fresh : Int) :
    (x.resized sh fresh).size = numel sh := StridedArr.size_eq _

/-- Storage after `resize`: the old block, or a new one. -/
theorem resized_cases {st : PSt β} {env : List (Tab β)} (hst : StHolds st env) {i : Nat} {x : PVar}
    (hx : st.vars[i]? = some x) {cfg : PCfg} (hg : GoodAlloc cfg) (out : List Nat) :
    (∀ (j : Nat) (y : PVar), j ≠ i → st.vars[j]? = some y →
      Away (x.resized out (cfg.newArr st x.lay out).off) y.arr) ∧
    ((numel out = numel x.arr.shape ∧ (x.resized out (cfg.newArr st x.lay out).off).off = x.arr.off) ∨
      x.resized out (cfg.newArr st x.lay out).off = cfg.newArr st x.lay out) := by
  by_cases hc : out.foldl (· * ·) 1 = x.arr.size
  · have hn : numel out = numel x.arr.shape := by
      rw [← foldl_numel_eq, hc, StridedArr.size_eq]
    have ho : (x.resized out (cfg.newArr st x.lay out).off).off = x.arr.off := by
      show (if out.foldl (· * ·) 1 = x.arr.size then x.arr.off else _) = _
      rw [if_pos hc]
    refine ⟨fun j y hj hy => ?_, Or.inl ⟨hn, ho⟩⟩
    have := hst.away i j x y (Ne.symm hj) hx hy
    unfold Away at this ⊢
    rw [ho]
    show x.arr.off + (numel out : Int) ≤ _ ∨ _
    rw [hn]; exact this
  · have he : x.resized out (cfg.newArr st x.lay out).off = cfg.newArr st x.lay out := by
      unfold PVar.resized
      rw [if_neg hc]
      rfl
    refine ⟨fun j y _ hy => ?_, Or.inr he⟩
    rw [he]; exact newArr_away hg st _ _ hy

/-- The variable after an assignment. -/
theorem put_assigned {st : PSt β} {env : List (Tab β)} (hst : StHolds st env) {i : Nat} {x : PVar}
    (hx : st.vars[i]? = some x) {vs : List Nat} {S : List (List Nat)} {g : List Nat → β}
    {el : Layout} {sl : Bool} {ex : MEx β} (h : Built st vs S g el sl ex) {out : List Nat}
    (hout : bcShape S = some out) (hsm : numel out < 2 ^ 64) {a' : StridedArr} {m' : Mem β}
    (ha : a' = .container x.lay out a'.off)
    (haw : ∀ (j : Nat) (y : PVar), j ≠ i → st.vars[j]? = some y → Away a' y.arr)
    (hm : Assigned a' ex st.mem m') : StHolds (st.put i x (a', m')) (env.set i ⟨out, g⟩) := by
  obtain ⟨t, -, hv⟩ := hst.var i x hx
  have hsh : a'.shape = out := by rw [ha]; rfl
  obtain ⟨tr, hr⟩ := (resizeInfo_bc h.below h.leaves).1 out hout
  have hf := (resizeInfo_spec h.ok (Ex.extents_ok _ h.below) hr).1
  have hb : szMax ∉ out := (bcShape_some hout).below (by
    rw [← h.leaves]; exact Ex.extents_ok _ h.below)
  refine StHolds.put hst hx _ ha hsm hb haw ?_ ?_
  · intro idx hi
    show m' (addr a' idx) = g idx
    rw [hm.1 idx (by rw [hsh]; exact hi)]
    exact h.val out idx hf hi
  · intro j y hj hy idx hi
    obtain ⟨u, -, hvu⟩ := hst.var j y hy
    refine hm.2 _ fun k hk => ?_
    have hc : Contig x.lay a' := by rw [ha]; exact container_contig hv.lay _ _
    exact fun he => contig_apart hc hvu.contig (haw j y hj hy) k idx hk hi he.symm

theorem assignTo_throws [Inhabited β] (cfg : PCfg) (st : PSt β) (i : Nat) (x : PVar) {vs : List Nat}
    {S : List (List Nat)} {g : List Nat → β} {el : Layout} {sl : Bool} {ex : MEx β}
    (h : Built st vs S g el sl ex) (hout : bcShape S = none) (simd : Bool) :
    cfg.assignTo st i x ex el simd sl = .throws := by
  unfold PCfg.assignTo
  rw [(resizeInfo_bc h.below h.leaves).2 hout]

theorem assignTo_ok [Inhabited β] {cfg : PCfg} (hg : GoodAlloc cfg) {st : PSt β} {env : List (Tab β)}
    (hst : StHolds st env) {i : Nat} {x : PVar} (hx : st.vars[i]? = some x) {vs : List Nat}
    {S : List (List Nat)} {g : List Nat → β} {el : Layout} {sl : Bool} {ex : MEx β}
    (h : Built st vs S g el sl ex) {out : List Nat} (hout : bcShape S = some out)
    (hsm : numel out < 2 ^ 64) (simd : Bool) :
    ∃ st', cfg.assignTo st i x ex el simd sl = .ok st' ∧ StHolds st' (env.set i ⟨out, g⟩) := by
  obtain ⟨t, -, hv⟩ := hst.var i x hx
  obtain ⟨tr, hr⟩ := (resizeInfo_bc h.below h.leaves).1 out hout
  obtain ⟨haw, hcase⟩ := resized_cases hst hx hg out
  have hfresh : ∀ c ∈ ex.arrs, Apart c (cfg.newArr st x.lay out) :=
    h.apart hst (container_contig hv.lay _ _) fun j _ y hy => newArr_away hg st _ _ hy
  have hdc : Contig x.lay (x.resized out (cfg.newArr st x.lay out).off) :=
    container_contig hv.lay _ _
  obtain ⟨res, h1, h2, h3⟩ := C27_container_partial
    (cfg.contTraits st.clock x.lay (x.resized out (cfg.newArr st x.lay out).off).strides el simd sl)
    (min (cfg.align st.clock) (x.resized out (cfg.newArr st x.lay out).off).size) x.arr
    (x.resized out (cfg.newArr st x.lay out).off) (cfg.newArr st x.lay out) ex h.ok h.below h.pw hv.wf
    (hull_of_contig hv.lay hv.contig) h.hull hr rfl (container_wf _ _)
    (container_distinct hv.lay _ _) (container_wf _ _) (container_distinct hv.lay _ _)
    (by
      rcases hcase with ⟨hn, ho⟩ | he
      · left
        intro idx hi
        obtain ⟨j, hj, hje⟩ := contig_surj hv.contig (k := rankIn x.lay out idx)
          (by rw [← hn]; exact rankIn_lt (L := x.lay) hi)
        refine ⟨j, hj, ?_⟩
        rw [hje]
        unfold addr
        rw [ho, hdc idx hi]
        rfl
      · right
        rw [he]; exact hfresh)
    hfresh (contTraits_ok cfg h hv.lay hdc _ _ _ id)
    (contTraits_ok cfg h hv.lay (container_contig hv.lay _ _) _ _ _ id)
    (by rw [size_resized]; exact hsm) (by omega) st.mem
  refine ⟨st.put i x res, ?_, ?_⟩
  · unfold PCfg.assignTo
    rw [hr]
    simp only
    rw [h1]
  · have hres : res.1 = x.resized out (cfg.newArr st x.lay out).off ∨ res.1 = cfg.newArr st x.lay out := by
      unfold containerAssign at h1
      rw [hr] at h1
      simp only at h1
      split at h1
      · right; rw [Option.some.injEq] at h1; rw [← h1]
      · left; rw [Option.some.injEq] at h1; rw [← h1]
    obtain ⟨a', m'⟩ := res
    simp only at hres h2 h3
    rcases hres with rfl | rfl
    · exact put_assigned hst hx h hout hsm rfl haw h3
    · exact put_assigned hst hx h hout hsm rfl (fun j y _ hy => newArr_away hg st _ _ hy) h3

/-- An assignment whose destination no operand reads. -/
theorem direct_assigned {cfg : PCfg} {st : PSt β} {env : List (Tab β)}
    (hst : StHolds st env) {vs : List Nat} {S : List (List Nat)} {g : List Nat → β} {el : Layout}
    {sl : Bool} {ex : MEx β} (h : Built st vs S g el sl ex) {out : List Nat} {tr : Bool}
    (hr : resizeInfo ex = some (out, tr)) (hsm : numel out < 2 ^ 64) {l : Layout}
    (hl : l = .row_major ∨ l = .column_major) (off : Int)
    (haw : ∀ i ∈ vs, ∀ y : PVar, st.vars[i]? = some y → Away (.container l out off) y.arr)
    (str : List Int) (simd : Bool) :
    Assigned (.container l out off) ex st.mem
      (runTrace (assignTrace (cfg.contTraits st.clock l str el simd sl)
        (min (cfg.align st.clock) (StridedArr.container l out off).size) (.container l out off) ex tr)
        st.mem) := by
  have hf := (resizeInfo_spec h.ok (Ex.extents_ok _ h.below) hr).1
  refine C24_container_assign _ _ _ ex tr h.ok (Ex.extents_ok _ h.below) hr (container_wf _ _)
    (container_distinct hl _ _) (contTraits_ok cfg h hl (container_contig hl _ _) _ _ _ id)
    (by rw [StridedArr.size_eq]; exact hsm) (by omega) ?_ st.mem
  exact noInterference_of_doesNotRead (doesNotReadIn_of h.pw hf
    (h.apart hst (container_contig hl _ _) haw))

/-! ### Views as destination -/

theorem over_spec {x : PVar} {t : Tab β} {m : Mem β} (hv : VarHolds m x t) {us : List USlice}
    {v : SView} (hg : GoodView x.arr us v) (G : List Nat → β → β) :
    (∀ idx, InBounds (vshape t.shape us) idx →
      (t.over us G).at' (vindex t.shape us idx) = G idx (t.at' (vindex t.shape us idx))) ∧
    ∀ p, (∀ idx, InBounds (vshape t.shape us) idx → vindex t.shape us idx ≠ p) →
      (t.over us G).at' p = t.at' p := by
  have hin := hg.inside
  have hsh := hg.shape
  rw [hv.shape] at hin hsh
  constructor
  · intro idx hi
    unfold Tab.over
    simp only
    cases hf : (rowIndices (vshape t.shape us)).find? fun j => decide (vindex t.shape us j = vindex t.shape us idx) with
    | none =>
      rw [List.find?_eq_none] at hf
      have := hf idx (mem_rowIndices.2 hi)
      simp at this
    | some j =>
      have h1 : vindex t.shape us j = vindex t.shape us idx := by simpa using List.find?_some hf
      have h2 : InBounds (vshape t.shape us) j := mem_rowIndices.1 (List.mem_of_find?_eq_some hf)
      have : j = idx := by
        refine hg.distinct j idx (by rw [hsh]; exact h2) (by rw [hsh]; exact hi) ?_
        rw [(hin j h2).2, (hin idx hi).2, h1]
      rw [this]
  · intro p hp
    unfold Tab.over
    simp only
    cases hf : (rowIndices (vshape t.shape us)).find? fun j => decide (vindex t.shape us j = p) with
    | none => rfl
    | some j =>
      have h1 : vindex t.shape us j = p := by simpa using List.find?_some hf
      exact absurd h1 (hp j (mem_rowIndices.1 (List.mem_of_find?_eq_some hf)))

/-- The variable after its view has been written. -/
theorem view_written {st : PSt β} {env : List (Tab β)} (hst : StHolds st env) {i : Nat} {x : PVar}
    (hx : st.vars[i]? = some x) {t : Tab β} (hv : VarHolds st.mem x t)
    {us : List USlice} {v : SView} (hg : GoodView x.arr us v) (G : List Nat → β → β) {m' : Mem β}
    (hm : ∀ idx, InBounds (vshape t.shape us) idx →
      m' (addr v.arr idx) = G idx (t.at' (vindex t.shape us idx)))
    (hf : ∀ (j : Nat) (y : PVar) (k : List Nat), st.vars[j]? = some y → InBounds y.arr.shape k →
      (∀ idx, InBounds (vshape t.shape us) idx → addr y.arr k ≠ addr v.arr idx) →
      m' (addr y.arr k) = st.mem (addr y.arr k)) :
    StHolds { st with mem := m', clock := st.clock + 1 } (env.set i (t.over us G)) := by
  have hin := hg.inside
  rw [hv.shape] at hin
  obtain ⟨o1, o2⟩ := over_spec hv hg G
  have hset : st.vars.set i { x with arr := x.arr } = st.vars := by
    have := List.getElem?_eq_some_iff.1 hx
    obtain ⟨hlt, he⟩ := this
    show st.vars.set i x = st.vars
    rw [← he]; exact List.set_getElem_self hlt
  have key := StHolds.put hst hx (a' := x.arr) (m' := m') (t' := t.over us G) (st.clock + 1) hv.arr
    hv.small hv.below (fun j y hj hy => hst.away i j x y (Ne.symm hj) hx hy) ?_ ?_
  · rw [hset] at key
    exact key
  · intro p hp
    have hp : InBounds t.shape p := hp
    by_cases hsel : ∃ idx, InBounds (vshape t.shape us) idx ∧ vindex t.shape us idx = p
    · obtain ⟨idx, hi, rfl⟩ := hsel
      rw [o1 idx hi, ← hm idx hi, (hin idx hi).2]
    · push Not at hsel
      rw [o2 p hsel, hf i x p hx (by rw [hv.shape]; exact hp) ?_]
      · exact hv.vals p hp
      · intro idx hi he
        rw [(hin idx hi).2] at he
        exact hsel idx hi (hv.distinct _ _ (by rw [hv.shape]; exact hp)
          (by rw [hv.shape]; exact (hin idx hi).1) he).symm
  · intro j y hj hy k hk
    obtain ⟨u, -, hvu⟩ := hst.var j y hy
    refine hf j y k hy hk fun idx hi => ?_
    rw [(hin idx hi).2]
    exact contig_apart hvu.contig hv.contig (hst.away j i y x hj hy hx) k _ hk
      (by rw [hv.shape]; exact (hin idx hi).1)

theorem viewTraits_ok {α : Type} (cfg : PCfg) (t : Nat) (x : PVar) {us : List USlice} {v : SView}
    (hg : GoodView x.arr us v) (el : Layout) (e : Ex α) : TraitsOK (cfg.viewTraits t x v el) v.arr e where
  contig1 h := by simp [PCfg.viewTraits] at h
  isContig1 h := by
    simp only [PCfg.viewTraits, Bool.and_eq_true, bne_iff_ne] at h
    exact hg.contig h.1
  static h := by simp [PCfg.viewTraits] at h
  strided h := by simp [PCfg.viewTraits] at h
  width := ⟨min (cfg.logw t) 64, by omega, rfl⟩

theorem viewTo_ok {cfg : PCfg} (hga : GoodAlloc cfg) {st : PSt β} {env : List (Tab β)}
    (hst : StHolds st env) {i : Nat} {x : PVar} (hx : st.vars[i]? = some x) {t : Tab β}
    (hv : VarHolds st.mem x t) {us : List USlice} (hs : SaneSlices t.shape us)
    {v : SView} (hg : GoodView x.arr us v) {vs : List Nat} {S : List (List Nat)} {g : List Nat → β}
    {el : Layout} {sl : Bool} {ex : MEx β} (h : Built st vs S g el sl ex)
    (hS : ∀ s ∈ S, BroadcastsTo s (vshape t.shape us)) (G : List Nat → β → β)
    (hG : ∀ idx, InBounds (vshape t.shape us) idx → g idx = G idx (t.at' (vindex t.shape us idx)))
    (simd : Bool) :
    ∃ st', cfg.viewTo st i x v ex el simd sl = .ok st' ∧ StHolds st' (env.set i (t.over us G)) := by
  have hsh : v.arr.shape = vshape t.shape us := by rw [hg.shape, hv.shape]
  have hin := hg.inside
  rw [hv.shape] at hin
  have hxd : szMax ∉ v.arr.shape := by rw [hsh]; exact hs.small.1
  rcases exShape_spec ex h.below with ⟨s, he, hbr⟩ | ⟨-, -, hc⟩
  · rw [h.leaves] at hbr
    have hle := isBroadcast_length hbr fun z hz => (hS z hz).1
    have hbt : BroadcastsTo s v.arr.shape := by rw [hsh]; exact isBroadcast_broadcastsTo hbr hS hle
    have htc : Contig x.lay (cfg.newArr st x.lay v.arr.shape) := container_contig hv.lay _ _
    have hvt : Apart v.arr (cfg.newArr st x.lay v.arr.shape) := by
      intro a b ha hb hab
      rw [hsh] at ha
      rw [(hin a ha).2] at hab
      exact contig_apart htc hv.contig (newArr_away hga st _ _ hx) b _ hb
        (by rw [hv.shape]; exact (hin a ha).1) hab.symm
    obtain ⟨m', h1, h2, h3⟩ := C27_view_partial
      (cfg.viewTraits st.clock x v (if (ex.exShape == some v.arr.shape) = true then el else .dynamic))
      (cfg.contTraits st.clock x.lay (cfg.newArr st x.lay v.arr.shape).strides
        (if (ex.exShape == some v.arr.shape) = true then el else .dynamic) simd
        (sl && (ex.exShape == some v.arr.shape)))
      (cfg.viewTraits st.clock x v x.lay) (min (cfg.align st.clock) v.arr.size)
      (min (cfg.align st.clock) v.arr.size) v.arr (cfg.newArr st x.lay v.arr.shape) ex s h.ok h.below
      hxd h.pw hg.hull h.hull he hbt hg.wf hg.distinct (container_wf _ _)
      (container_distinct hv.lay _ _) rfl
      ⟨h.apart hst htc fun j _ y hy => newArr_away hga st _ _ hy, hvt⟩
      (by
        intro rhs hrhs
        rw [viewRhs_spec hxd he hbt, Option.some.injEq] at hrhs
        refine ⟨viewTraits_ok cfg _ _ hg _ _, ?_⟩
        by_cases heq : s = v.arr.shape
        · rw [if_pos heq] at hrhs
          subst hrhs
          have hb : (ex.exShape == some v.arr.shape) = true := by rw [he, heq]; simp
          rw [if_pos hb, hb]
          exact contTraits_ok cfg h hv.lay htc _ _ _ (by simp)
        · rw [if_neg heq] at hrhs
          subst hrhs
          have hb : (ex.exShape == some v.arr.shape) = false := by rw [he]; simpa using heq
          rw [hb]
          exact { contig1 := fun _ => ⟨x.lay, hv.lay, htc⟩
                  isContig1 := fun _ => ⟨x.lay, hv.lay, htc⟩
                  static := fun _ h2 _ => by simp [PCfg.contTraits] at h2
                  strided := fun h2 => by simp [PCfg.contTraits] at h2
                  width := ⟨min (cfg.logw st.clock) 64, by omega, rfl⟩ })
      (viewTraits_ok cfg _ _ hg _ _) (by rw [StridedArr.size_eq, hsh]; exact hs.small.2) (by omega)
      (by omega) st.mem
    refine ⟨{ st with mem := m', clock := st.clock + 1 }, ?_, ?_⟩
    · unfold PCfg.viewTo
      simp only
      rw [h1]
    · refine view_written hst hx hv hg G ?_ ?_
      · intro idx hi
        have hf : Fits v.arr.shape ex := Ex.fits_of ex h.ok (by rw [h.leaves, hsh]; exact hS)
        rw [h2 idx (by rw [hsh]; exact hi), h.val v.arr.shape idx hf (by rw [hsh]; exact hi), hG idx hi]
      · intro j y k hy hk hne
        obtain ⟨u, -, hvu⟩ := hst.var j y hy
        refine h3 _ (by rw [hsh]; exact hne) fun idx hi => ?_
        exact fun he => contig_apart htc hvu.contig (newArr_away hga st _ _ hy) idx k hi hk he.symm
  · rw [h.leaves] at hc
    exact absurd hc (no_conflict_of_broadcastsTo hS)

theorem viewTo_throws (cfg : PCfg) (st : PSt β) (i : Nat) (x : PVar) {us : List USlice} {v : SView}
    {sh : List Nat} (hsh : v.arr.shape = vshape sh us) (hs : SaneSlices sh us)
    {vs : List Nat} {S : List (List Nat)} {g : List Nat → β} {el : Layout} {sl : Bool} {ex : MEx β}
    (h : Built st vs S g el sl ex) (hc : Conflict (vshape sh us :: S)) (simd : Bool) :
    cfg.viewTo st i x v ex el simd sl = .throws := by
  unfold PCfg.viewTo viewAssign
  simp only
  rw [viewRhs_conflict h.below (by rw [hsh]; exact hs.small.1) (by rw [hsh, h.leaves]; exact hc)]

/-! ### Statements and programs -/

/-- Copying the storage of another container of the same layout. -/
theorem copyTo_ok {cfg : PCfg} (hg : GoodAlloc cfg) {st : PSt β} {env : List (Tab β)}
    (hst : StHolds st env) {i j : Nat} {x y : PVar} (hx : st.vars[i]? = some x)
    (hy : st.vars[j]? = some y) {u : Tab β} (hu : VarHolds st.mem y u) (hl : y.lay = x.lay) :
    StHolds (cfg.copyTo st i x j y) (env.set i ⟨u.shape, fun idx => u.at' (bcIndex u.shape idx)⟩) := by
  obtain ⟨t, -, hv⟩ := hst.var i x hx
  unfold PCfg.copyTo
  by_cases hij : i = j
  · subst hij
    rw [if_pos rfl]
    rw [hx, Option.some.injEq] at hy
    subst hy
    have hset : st.vars.set i { x with arr := x.arr } = st.vars := by
      obtain ⟨hlt, he⟩ := List.getElem?_eq_some_iff.1 hx
      show st.vars.set i x = st.vars
      rw [← he]; exact List.set_getElem_self hlt
    have key := StHolds.put hst hx (a' := x.arr) (m' := st.mem)
      (t' := ⟨u.shape, fun idx => u.at' (bcIndex u.shape idx)⟩) (st.clock + 1) hu.arr
      hu.small hu.below (fun j y hj hy => hst.away i j x y (Ne.symm hj) hx hy)
      (fun idx hi => by
        have hi : InBounds u.shape idx := hi
        show _ = u.at' (bcIndex u.shape idx)
        rw [bcIndex_self hi]; exact hu.vals idx hi) (fun _ _ _ _ _ _ => rfl)
    rw [hset] at key
    exact key
  · rw [if_neg hij]
    obtain ⟨haw, -⟩ := resized_cases hst hx hg u.shape
    have hb := built_var hy hu
    have hs : y.arr.shape = u.shape := hu.shape
    simp only [hs]
    refine put_assigned hst hx hb (bcShape_singleton _) hu.small rfl haw ?_
    have hdc : Contig x.lay (x.resized u.shape (cfg.newArr st x.lay u.shape).off) :=
      container_contig hv.lay _ _
    have := C24_container_assign
      { contig1 := true, contig2 := true, linStatic := true, isContig1 := true, simdLinear := false,
        simdStrided := false, layout := x.lay, width := 1 } 0
      (x.resized u.shape (cfg.newArr st x.lay u.shape).off) (rdArr y.arr) true hb.ok
      (Ex.extents_ok _ hb.below) (by show some (y.arr.shape, true) = _; rw [hs]; rfl) (container_wf _ _)
      (container_distinct hv.lay _ _)
      { contig1 := fun _ => ⟨x.lay, hv.lay, hdc⟩
        isContig1 := fun _ => ⟨x.lay, hv.lay, hdc⟩
        static := fun _ _ _ => ⟨x.lay, hv.lay, hdc, trivial, trivial, fun c hc => by
          simp only [rdArr, Ex.arrs, List.mem_singleton] at hc
          subst hc
          rw [← hl]; exact hu.contig⟩
        strided := fun h => by simp at h
        width := ⟨0, by omega, rfl⟩ }
      (by rw [size_resized]; exact hu.small) (by omega)
      (noInterference_of_doesNotRead (doesNotReadIn_of hb.pw ⟨hu.wf, by
          show BroadcastsTo y.arr.shape u.shape
          rw [hs]; exact broadcastsTo_refl _⟩
        (hb.apart hst hdc fun k hk z hz => by
          simp only [List.mem_singleton] at hk
          subst hk
          exact haw k z (Ne.symm hij) hz))) st.mem
    simpa only [assignTrace, linearAssign, Bool.and_self, Bool.true_or, if_true, Bool.false_eq_true,
      if_false] using this

theorem lay_of {st : PSt β} {env : List (Tab β)} (hst : StHolds st env) {i : Nat} {x : PVar}
    (hx : st.vars[i]? = some x) : x.lay = .row_major ∨ x.lay = .column_major := by
  obtain ⟨t, -, hv⟩ := hst.var i x hx
  exact hv.lay

/-- One statement with a meaning does what the specification says: it completes with the specified
values, or throws and leaves everything as it was — for every allocator, whether or not loops are
packed, and wherever the first aligned element is. -/
theorem C88_step_partial [Inhabited β] (cfg : PCfg) (hg : GoodAlloc cfg) (st : PSt β) (env : List (Tab β))
    (hst : StHolds st env) (s : PStmt β) (hs : Sane env s) :
    (∀ env', pstep env s = some env' → ∃ st', cfg.step st s = .ok st' ∧ StHolds st' env') ∧
    (pstep env s = none → cfg.step st s = .throws) := by
  have hassign : ∀ (i : Nat) (x : PVar) (e : PEx β), st.vars[i]? = some x → SaneEx env e →
      SmallResult (pleaves env e) →
      (∀ env', pstep.put env i e = some env' → ∃ st', ((e.build st.vars).bind fun ex =>
        cfg.assignTo st i x ex (e.slay st.vars) e.simd e.stridedLoop) = .ok st' ∧ StHolds st' env') ∧
      (pstep.put env i e = none → ((e.build st.vars).bind fun ex =>
        cfg.assignTo st i x ex (e.slay st.vars) e.simd e.stridedLoop) = .throws) := by
    intro i x e hx he hsm
    obtain ⟨ex, hb, B⟩ := PEx.build_ok hst e he
    simp only [hb, Res.bind, pstep.put]
    constructor
    · intro env' hp
      obtain ⟨out, ho, rfl⟩ := Option.map_eq_some_iff.1 hp
      exact assignTo_ok hg hst hx B ho (hsm out ho) _
    · intro hp
      exact assignTo_throws cfg st i x B (by simpa using hp) _
  cases s with
  | decl l e =>
    obtain ⟨hl, he, hsm⟩ := hs
    obtain ⟨ex, hb, B⟩ := PEx.build_ok hst e he
    simp only [PCfg.step, hb, Res.bind, pstep]
    constructor
    · intro env' hp
      obtain ⟨out, ho, rfl⟩ := Option.map_eq_some_iff.1 hp
      obtain ⟨tr, hr⟩ := (resizeInfo_bc B.below B.leaves).1 out ho
      rw [hr]
      refine ⟨_, rfl, ?_⟩
      have haw : ∀ (j : Nat) (y : PVar), st.vars[j]? = some y → Away (cfg.newArr st l out) y.arr :=
        fun j y hy => newArr_away hg st _ _ hy
      have hA := direct_assigned (cfg := cfg) hst B hr (hsm out ho) hl
        (cfg.alloc st.clock st.live (out.foldl (· * ·) 1)) (fun i _ y hy => haw i y hy)
        (cfg.newArr st l out).strides e.simd
      have hf := (resizeInfo_spec B.ok (Ex.extents_ok _ B.below) hr).1
      refine StHolds.append hst hl _ rfl (hsm out ho) ?_ haw ?_ ?_
      · exact (bcShape_some ho).below (by rw [← B.leaves]; exact Ex.extents_ok _ B.below)
      · intro idx hi
        exact (hA.1 idx hi).trans (B.val out idx hf hi)
      · intro j y hy idx hi
        obtain ⟨u, -, hvu⟩ := hst.var j y hy
        exact hA.2 _ fun k hk he => contig_apart (container_contig hl out
          (cfg.alloc st.clock st.live (out.foldl (· * ·) 1))) hvu.contig (haw j y hy) k idx hk hi he.symm
    · intro hp
      rw [(resizeInfo_bc B.below B.leaves).2 (by simpa using hp)]
  | assign i e =>
    obtain ⟨⟨t, ht⟩, he, hsm⟩ := hs
    obtain ⟨x, hx, hv⟩ := hst.get ht
    have hgen := hassign i x e hx he hsm
    simp only [PCfg.step, hx]
    cases e with
    | var j =>
      obtain ⟨u, hu⟩ := he
      obtain ⟨y, hy, hvu⟩ := hst.get hu
      simp only [hy]
      by_cases hl : y.lay = x.lay
      · simp only [hl, if_true]
        simp only [pstep, pstep.put, pleaves, hu, bcShape_singleton, Option.map_some, Option.some.injEq]
        refine ⟨fun env' he => ?_, fun h => by simp at h⟩
        subst he
        refine ⟨_, rfl, ?_⟩
        have := copyTo_ok hg hst hx hy hvu hl
        have hfun : pval env (.var j) = fun idx => u.at' (bcIndex u.shape idx) := by
          funext idx; simp only [pval, hu]
        rw [hfun]
        exact this
      · simp only [hl, if_false]
        exact hgen
    | slice j us => exact hgen
    | lit v => exact hgen
    | gen s g => exact hgen
    | fn f args => exact hgen
    | bcast e s => exact hgen
  | opAssign i f e =>
    obtain ⟨t, ht, he, hsm⟩ := hs
    obtain ⟨x, hx, hv⟩ := hst.get ht
    obtain ⟨ex, hb, B⟩ := PEx.build_ok hst e he
    have B2 := B.bin (built_var hx hv) f
    simp only [PCfg.step, hx, hb, Res.bind, pstep, pstep.upd, ht, Option.bind_some]
    constructor
    · intro env' hp
      obtain ⟨out, ho, rfl⟩ := Option.map_eq_some_iff.1 hp
      exact assignTo_ok hg hst hx B2 ho (hsm out ho) _
    · intro hp
      exact assignTo_throws cfg st i x B2 (by simpa using hp) _
  | noalias i e =>
    obtain ⟨⟨t, ht⟩, he, hsm, hni⟩ := hs
    obtain ⟨x, hx, hv⟩ := hst.get ht
    obtain ⟨ex, hb, B⟩ := PEx.build_ok hst e he
    simp only [PCfg.step, hx, hb, Res.bind, pstep, pstep.put]
    constructor
    · intro env' hp
      obtain ⟨out, ho, rfl⟩ := Option.map_eq_some_iff.1 hp
      obtain ⟨tr, hr⟩ := (resizeInfo_bc B.below B.leaves).1 out ho
      rw [hr]
      obtain ⟨haw, -⟩ := resized_cases hst hx hg out
      refine ⟨_, rfl, put_assigned hst hx B ho (hsm out ho) rfl haw ?_⟩
      exact direct_assigned hst B hr (hsm out ho) hv.lay _
        (fun j hj y hy => haw j y (fun h => hni (h ▸ hj)) hy) _ _
    · intro hp
      rw [(resizeInfo_bc B.below B.leaves).2 (by simpa using hp)]
  | opNoalias i f e =>
    obtain ⟨t, ht, he, hsm, hni, hz⟩ := hs
    obtain ⟨x, hx, hv⟩ := hst.get ht
    obtain ⟨ex, hb, B⟩ := PEx.build_ok hst e he
    have B2 := B.bin (built_var hx hv) f
    simp only [PCfg.step, hx, hb, Res.bind, pstep, pstep.upd, ht, Option.bind_some]
    constructor
    · intro env' hp
      obtain ⟨out, ho, rfl⟩ := Option.map_eq_some_iff.1 hp
      obtain ⟨tr, hr⟩ := (resizeInfo_bc B2.below B2.leaves).1 out ho
      rw [hr]
      simp only
      have htc : Contig x.lay (cfg.newArr st x.lay out) := container_contig hv.lay _ _
      have hawn : ∀ (j : Nat) (y : PVar), st.vars[j]? = some y → Away (cfg.newArr st x.lay out) y.arr :=
        fun j y hy => newArr_away hg st _ _ hy
      have hawx : ∀ (j : Nat) (y : PVar), j ≠ i → st.vars[j]? = some y → Away x.arr y.arr :=
        fun j y hj hy => hst.away i j x y (Ne.symm hj) hx hy
      have hf2 := (resizeInfo_spec B2.ok (Ex.extents_ok _ B2.below) hr).1
      have hib : IsBroadcast (x.arr.shape :: ex.toSh.leaves) out := by
        rw [B.leaves, hv.shape]; exact bcShape_some ho
      obtain ⟨res, h1, h2, h3, h4⟩ := C28_noalias_compound_partial f
        (cfg.contTraits st.clock x.lay (cfg.newArr st x.lay out).strides
          (Layout.computeLayout [x.lay, e.slay st.vars]) e.simd e.stridedLoop)
        (min (cfg.align st.clock) (cfg.newArr st x.lay out).size) x.arr (cfg.newArr st x.lay out) ex out
        hv.wf hv.distinct B.ok (by rw [hv.shape]; exact hv.below) B.below hib
        (fun heq => doesNotReadIn_of B.pw (by rw [← heq]; exact hf2.2.1)
          (B.apart hst hv.contig fun j hj y hy => hawx j y (fun h => hni (h ▸ hj)) hy))
        (fun hlen k hk _ h0 => by
          have hk' : k < out.length := by omega
          rw [List.getD_eq_getElem?_getD, List.getElem?_eq_getElem hk', Option.getD_some] at h0
          exact hz out ho (h0 ▸ List.getElem_mem hk'))
        (container_wf _ _) (container_distinct hv.lay _ _) rfl
        (doesNotReadIn_of B2.pw hf2 (B2.apart hst htc fun j _ y hy => hawn j y hy))
        (contTraits_ok cfg B2 hv.lay hv.contig _ _ _ id) (contTraits_ok cfg B2 hv.lay htc _ _ _ id)
        (hsm out ho)
        (by
          have : (cfg.newArr st x.lay out).size = numel out := StridedArr.size_eq _
          omega) st.mem
      rw [h1]
      refine ⟨_, rfl, ?_⟩
      have hA : Assigned res.1 (binEx f x.arr ex) st.mem res.2 :=
        ⟨fun idx hi => h3 idx (by rw [← h2]; exact hi), fun p hp => h4 p (by rw [← h2]; exact hp)⟩
      have hres : res.1 = cfg.newArr st x.lay out ∨ res.1 = x.arr := by
        unfold computedAssign at h1
        rw [hr] at h1
        simp only at h1
        split at h1
        · left; rw [Option.some.injEq] at h1; rw [← h1]
        · right; rw [Option.some.injEq] at h1; rw [← h1]
      obtain ⟨a', m'⟩ := res
      simp only at hres h2 hA
      rcases hres with rfl | rfl
      · exact put_assigned hst hx B2 ho (hsm out ho) rfl (fun j y _ hy => hawn j y hy) hA
      · refine put_assigned hst hx B2 ho (hsm out ho) ?_ hawx hA
        rw [← h2, hv.shape]; exact hv.arr
    · intro hp
      rw [(resizeInfo_bc B2.below B2.leaves).2 (by simpa using hp)]
  | scalarOp i f =>
    obtain ⟨t, ht⟩ := hs
    obtain ⟨x, hx, hv⟩ := hst.get ht
    simp only [PCfg.step, hx, pstep, ht, Option.map_some, Option.some.injEq]
    refine ⟨fun env' he => ?_, fun h => by simp at h⟩
    subst he
    refine ⟨_, rfl, ?_⟩
    obtain ⟨h1, h2⟩ := C29_container_partial x.lay hv.lay x.arr f hv.wf hv.contig st.mem
    have hset : st.vars.set i { x with arr := x.arr } = st.vars := by
      obtain ⟨hlt, he⟩ := List.getElem?_eq_some_iff.1 hx
      show st.vars.set i x = st.vars
      rw [← he]; exact List.set_getElem_self hlt
    have key := StHolds.put hst hx (a' := x.arr) (m' := runTrace (storageScalarTrace x.arr f) st.mem)
      (t' := ⟨t.shape, fun idx => f (t.at' idx)⟩) (st.clock + 1) hv.arr hv.small hv.below
      (fun j y hj hy => hst.away i j x y (Ne.symm hj) hx hy)
      (fun idx hi => by
        have hi : InBounds t.shape idx := hi
        rw [h1 idx (by rw [hv.shape]; exact hi), hv.vals idx hi])
      (fun j y hj hy idx hi => by
        obtain ⟨u, -, hvu⟩ := hst.var j y hy
        exact h2 _ fun k hk he => contig_apart hv.contig hvu.contig
          (hst.away i j x y (Ne.symm hj) hx hy) k idx hk hi he.symm)
    rw [hset] at key
    exact key
  | viewAssign i us e =>
    obtain ⟨t, ht, hsl, he, hor⟩ := hs
    obtain ⟨x, hx, hv⟩ := hst.get ht
    obtain ⟨ex, hb, B⟩ := PEx.build_ok hst e he
    obtain ⟨v, hvw, hgv⟩ := goodView hv.lay hv.arr hsl
    simp only [PCfg.step, hx, hb, hvw, Res.bind, pstep, pstep.over, ht, Option.bind_some]
    constructor
    · intro env' hp
      split at hp
      · rename_i hall
        rw [Option.some.injEq] at hp
        subst hp
        exact viewTo_ok hg hst hx hv hsl hgv B hall _ (fun _ _ => rfl) _
      · simp at hp
    · intro hp
      split at hp
      · simp at hp
      · rename_i hall
        exact viewTo_throws cfg st i x (by rw [hgv.shape, hv.shape]) hsl B
          (hor.resolve_left hall) _
  | viewOp i us f e =>
    obtain ⟨t, ht, hsl, he, hor⟩ := hs
    obtain ⟨x, hx, hv⟩ := hst.get ht
    obtain ⟨ex, hb, B⟩ := PEx.build_ok hst e he
    obtain ⟨v, hvw, hgv⟩ := goodView hv.lay hv.arr hsl
    have B2 := B.bin (built_slice hx hv hsl hgv) f
    have hdyn : Layout.computeLayout [.dynamic, e.slay st.vars] = .dynamic := by
      cases e.slay st.vars <;> decide
    rw [hdyn] at B2
    simp only [PCfg.step, hx, hb, hvw, Res.bind, pstep, pstep.over, ht, Option.bind_some]
    constructor
    · intro env' hp
      split at hp
      · rename_i hall
        rw [Option.some.injEq] at hp
        subst hp
        refine viewTo_ok hg hst hx hv hsl hgv B2 ?_ _ (fun idx hi => ?_) _
        · intro s hs
          rcases List.mem_cons.1 hs with rfl | hs
          · exact broadcastsTo_refl _
          · exact hall s hs
        · show f (t.at' (vindex t.shape us (bcIndex (vshape t.shape us) idx))) _ = _
          rw [bcIndex_self hi]
      · simp at hp
    · intro hp
      split at hp
      · simp at hp
      · rename_i hall
        refine viewTo_throws cfg st i x (by rw [hgv.shape, hv.shape]) hsl B2 ?_ _
        exact (hor.resolve_left hall).mono fun s hs => by
          rcases List.mem_cons.1 hs with rfl | hs
          · simp
          · simp [hs]
  | viewScalar i us f =>
    obtain ⟨t, ht, hsl⟩ := hs
    obtain ⟨x, hx, hv⟩ := hst.get ht
    obtain ⟨v, hvw, hgv⟩ := goodView hv.lay hv.arr hsl
    have hsh : v.arr.shape = vshape t.shape us := by rw [hgv.shape, hv.shape]
    have hin := hgv.inside
    rw [hv.shape] at hin
    simp only [PCfg.step, hx, hvw, Res.map, Res.bind, pstep, ht, Option.map_some, Option.some.injEq]
    refine ⟨fun env' he => ?_, fun h => by simp at h⟩
    subst he
    refine ⟨_, rfl, ?_⟩
    obtain ⟨h1, h2⟩ := C29_view false v.arr f hgv.wf hgv.distinct (by simp) st.mem
    refine view_written hst hx hv hgv _ ?_ ?_
    · intro idx hi
      rw [h1 idx (by rw [hsh]; exact hi), (hin idx hi).2, hv.vals _ (hin idx hi).1]
    · intro j y k hy hk hne
      exact h2 _ (by rw [hsh]; exact hne)
  | viewFill i us c =>
    obtain ⟨t, ht, hsl⟩ := hs
    obtain ⟨x, hx, hv⟩ := hst.get ht
    obtain ⟨v, hvw, hgv⟩ := goodView hv.lay hv.arr hsl
    have hsh : v.arr.shape = vshape t.shape us := by rw [hgv.shape, hv.shape]
    simp only [PCfg.step, hx, hvw, Res.map, Res.bind, pstep, ht, Option.map_some, Option.some.injEq]
    refine ⟨fun env' he => ?_, fun h => by simp at h⟩
    subst he
    refine ⟨_, rfl, ?_⟩
    obtain ⟨h1, h2⟩ := C29_view (v.layout != .dynamic) v.arr (fun _ => c) hgv.wf hgv.distinct
      (fun h => hgv.contig (by simpa using h)) st.mem
    refine view_written hst hx hv hgv _ ?_ ?_
    · intro idx hi
      exact h1 idx (by rw [hsh]; exact hi)
    · intro j y k hy hk hne
      exact h2 _ (by rw [hsh]; exact hne)

theorem StHolds.tick {st : PSt β} {env : List (Tab β)} (h : StHolds st env) (c : Nat) :
    StHolds { st with clock := c } env := ⟨h.len, h.var, h.away⟩

/-- C88: a program of assignments, compound assignments, `noalias` assignments and assignments to
strided views computes what the specification computes, statement by statement and including which
statements throw: assignments copy values, never share storage, and a refused assignment changes
nothing. -/
theorem C88_programs_partial [Inhabited β] (cfg : PCfg) (hg : GoodAlloc cfg) (p : List (PStmt β)) :
    ∀ (st : PSt β) (env : List (Tab β)), StHolds st env → SaneRun env p →
      ∃ st', cfg.run st p = some (st', (prun env p).2) ∧ StHolds st' (prun env p).1 := by
  induction p with
  | nil => intro st env h _; exact ⟨st, rfl, h⟩
  | cons s p ih =>
    intro st env h hs
    obtain ⟨h1, h2⟩ := C88_step_partial cfg hg st env h s hs.1
    cases hp : pstep env s with
    | some env' =>
      obtain ⟨st1, e1, r1⟩ := h1 env' hp
      have hs2 := hs.2
      rw [hp] at hs2
      obtain ⟨st2, e2, r2⟩ := ih st1 env' r1 hs2
      refine ⟨st2, ?_, ?_⟩
      · simp only [PCfg.run, e1, e2, prun, hp, Option.map_some]
      · simp only [prun, hp]; exact r2
    | none =>
      have e1 := h2 hp
      have hs2 := hs.2
      rw [hp] at hs2
      obtain ⟨st2, e2, r2⟩ := ih { st with clock := st.clock + 1 } env (StHolds.tick h _) hs2
      refine ⟨st2, ?_, ?_⟩
      · simp only [PCfg.run, e1, e2, prun, hp, Option.map_some]
      · simp only [prun, hp]; exact r2

/-- The values after a program depend neither on the allocator nor on packing nor on alignment, nor
on where the variables were. -/
theorem C88_deterministic_partial [Inhabited β] (cfg cfg' : PCfg) (hg : GoodAlloc cfg) (hg' : GoodAlloc cfg')
    (p : List (PStmt β)) (st st' : PSt β) (env : List (Tab β)) (h : StHolds st env)
    (h' : StHolds st' env) (hs : SaneRun env p) :
    ∃ r r' flags, cfg.run st p = some (r, flags) ∧ cfg'.run st' p = some (r', flags) ∧
      r.vars.length = r'.vars.length ∧
      ∀ (i : Nat) (x x' : PVar), r.vars[i]? = some x → r'.vars[i]? = some x' →
        x.arr.shape = x'.arr.shape ∧
        ∀ idx, InBounds x.arr.shape idx → r.mem (addr x.arr idx) = r'.mem (addr x'.arr idx) := by
  obtain ⟨r, e1, h1⟩ := C88_programs_partial cfg hg p st env h hs
  obtain ⟨r', e2, h2⟩ := C88_programs_partial cfg' hg' p st' env h' hs
  refine ⟨r, r', _, e1, e2, by rw [h1.len, h2.len], ?_⟩
  intro i x x' hx hx'
  obtain ⟨t, ht, hv⟩ := h1.var i x hx
  obtain ⟨t', ht', hv'⟩ := h2.var i x' hx'
  rw [ht, Option.some.injEq] at ht'
  subst ht'
  refine ⟨by rw [hv.shape, hv'.shape], fun idx hi => ?_⟩
  rw [hv.shape] at hi
  rw [hv.vals idx hi, hv'.vals idx hi]

/-- A statement that throws leaves every variable as it was. -/
theorem C88_refused_partial [Inhabited β] (cfg : PCfg) (hg : GoodAlloc cfg) (st : PSt β) (env : List (Tab β))
    (hst : StHolds st env) (s : PStmt β) (hs : Sane env s) (hr : pstep env s = none) :
    cfg.run st [s] = some ({ st with clock := st.clock + 1 }, [false]) := by
  simp only [PCfg.run, (C88_step_partial cfg hg st env hst s hs).2 hr, Option.map_some]

/-- An explicit broadcast to a shape that an operand conflicts with, or that has fewer axes than one, is refused: the
expression is not built, and the statement leaves every variable as it was. -/
theorem C88_broadcast_refused [Inhabited β] (cfg : PCfg) {st : PSt β} {env : List (Tab β)} (hst : StHolds st env)
    {e : PEx β} (he : SaneEx env e) {s : List Nat} (hx : szMax ∉ s)
    (hc : Conflict (s :: pleaves env e) ∨ ∃ x ∈ pleaves env e, s.length < x.length) :
    (PEx.bcast e s).build st.vars = .throws ∧
      ∀ i, i < st.vars.length →
        cfg.run st [.assign i (.bcast e s)] = some ({ st with clock := st.clock + 1 }, [false]) := by
  have hb : (PEx.bcast e s).build st.vars = .throws := by
    obtain ⟨ex, h1, b⟩ := PEx.build_ok hst e he
    simp only [PEx.build, h1, Res.bind]
    rcases exShape_spec ex b.below with ⟨es, hes, hbr⟩ | ⟨hes, -, -⟩
    · rw [hes]
      simp only
      have hle : ∀ x ∈ pleaves env e, BroadcastsTo x es := fun x hxl =>
        broadcastsTo_of_isBroadcast hbr (by rw [b.leaves]; exact hxl)
      cases hbs : broadcastShape es s with
      | none => rfl
      | some r =>
        exfalso
        have ho := broadcastShape_output hx (t := r.2) hbs
        have hi := broadcastShape_broadcastsTo (t := r.2) hbs
        have hl : r.1.length = s.length := by
          unfold broadcastShape at hbs
          split at hbs
          · simp at hbs
          · obtain ⟨q, hq, hq'⟩ := Option.map_eq_some_iff.1 hbs
            rw [← hq', List.length_reverse, length_bcLoop hq, List.length_reverse]
        rcases hc with hc | ⟨x, hxl, hlt⟩
        · refine no_conflict_of_broadcastsTo (out := r.1) ?_ hc
          intro x hxm
          rcases List.mem_cons.1 hxm with rfl | hxm
          · exact ho
          · exact BroadcastsTo.trans (hle x hxm) hi
        · have := (BroadcastsTo.trans (hle x hxl) hi).1
          omega
    · rw [hes]
  refine ⟨hb, fun i hi => ?_⟩
  simp only [PCfg.run, PCfg.step, List.getElem?_eq_getElem hi, hb, Res.bind, Option.map_some]

example (m : Mem Int) := C88_broadcast_refused (β := Int) ⟨fun _ _ _ => 0, fun _ => false, fun _ => 0, fun _ => 0⟩
  (st := ⟨[], m, 0⟩) (env := []) ⟨rfl, by simp, by simp⟩ (e := .gen [3] fun i => i.sum) ⟨by simp, by decide⟩
  (s := [2]) (by decide) (.inl ⟨[2], by simp, [3], by simp [pleaves], 0, 2, 3, by decide⟩)

/-! ### Examples -/

/-- Allocates above the live blocks. -/
def topAlloc : Nat → List (Int × Nat) → Nat → Int := fun _ live _ =>
  live.foldr (fun b m => max m (b.1 + b.2)) 0

/-- Plain loops. -/
def plainCfg : PCfg := ⟨topAlloc, fun _ => false, fun _ => 0, fun _ => 0⟩

/-- Packs of four elements, the first aligned one at varying places. -/
def packedCfg : PCfg := ⟨fun t l n => topAlloc t l n + 7, fun _ => true, fun _ => 2, fun t => t % 4⟩

theorem topAlloc_good (live : List (Int × Nat)) (t n : Nat) :
    ∀ b ∈ live, b.1 + b.2 ≤ topAlloc t live n := by
  induction live with
  | nil => simp
  | cons c live ih =>
    intro b hb
    simp only [topAlloc, List.foldr_cons] at ih ⊢
    rcases List.mem_cons.1 hb with rfl | hb
    · omega
    · have := ih b hb
      omega

theorem plainCfg_good : GoodAlloc plainCfg := fun t live n b hb => Or.inr (topAlloc_good live t n b hb)

theorem packedCfg_good : GoodAlloc packedCfg := fun t live n b hb => Or.inr (by
  have := topAlloc_good live t n b hb
  show _ ≤ topAlloc t live n + 7
  omega)

/-- `xarray<int, row_major> a = {{0,1,2},{10,11,12}}; xarray<int, column_major> b = {5,6,7};
a += b; strided_view(a, {all(), range(0, 2)}) = strided_view(a, {all(), range(1, 3)});
strided_view(a, {all(), range(0, 2)}) = b; noalias(b) = 100 * strided_view(a, {1}); a = b;` -/
def sampleProgram : List (PStmt Int) :=
  [.decl .row_major (.gen [2, 3] fun i => dot i [10, 1]),
   .decl .column_major (.gen [3] fun i => dot i [1] + 5),
   .opAssign 0 (· + ·) (.var 1),
   .viewAssign 0 [.all, .range (some 0) (some 2) none] (.slice 0 [.all, .range (some 1) (some 3) none]),
   .viewAssign 0 [.all, .range (some 0) (some 2) none] (.var 1),
   .noalias 1 (.fn (fun l => 100 * l.sum) (.cons (.slice 0 [.int 1]) .nil)),
   .assign 0 (.var 1)]

theorem small_of {S : List (List Nat)} {o : List Nat} (h : bcShape S = some o) (hn : numel o < 2 ^ 64) :
    SmallResult S := by
  intro out ho
  rw [h, Option.some.injEq] at ho
  rw [← ho]; exact hn

theorem sampleSlices (us : List USlice) (h : us = [.all, .range (some 0) (some 2) none] ∨
    us = [.all, .range (some 1) (some 3) none] ∨ us = [.int 1]) : SaneSlices [2, 3] us := by
  rcases h with rfl | rfl | rfl <;>
  · refine ⟨by decide, by decide, by simp [NoKeepDrop], by simp [IntsNonneg],
      oneWay_of_forward (by decide) (by simp [NoKeepDrop]) fun a b k h => ?_, by decide⟩
    simp at h

/-- Both axes backwards; one row backwards. -/
theorem backwardSlices (us : List USlice) (h : us = [.range none none (some (-1)), .range none none (some (-1))] ∨
    us = [.int 1, .newaxis, .ellipsis, .range none none (some (-2))]) : SaneSlices [2, 3] us := by
  rcases h with rfl | rfl
  · refine ⟨by decide, by decide, by simp [NoKeepDrop], by simp [IntsNonneg],
      oneWay_of_backward (by decide) (fun u hu => ?_) (by decide), by decide⟩
    simp [expandEllipsis] at hu
    subst hu
    show (-1 : Int) < 0
    omega
  · refine ⟨by decide, by decide, by simp [NoKeepDrop], by simp [IntsNonneg],
      oneWay_of_backward (by decide) (fun u hu => ?_) (by decide), by decide⟩
    simp [expandEllipsis] at hu
    rcases hu with rfl | rfl | rfl
    · trivial
    · trivial
    · show (-2 : Int) < 0
      omega

theorem sampleProgram_sane : SaneRun [] sampleProgram := by
  refine ⟨⟨Or.inl rfl, ⟨by simp, by decide⟩, small_of (o := [2, 3]) (by decide) (by decide)⟩, ?_⟩
  refine ⟨⟨Or.inr rfl, ⟨by simp, by decide⟩, small_of (o := [3]) (by decide) (by decide)⟩, ?_⟩
  refine ⟨⟨_, rfl, ⟨_, rfl⟩, small_of (o := [2, 3]) (by decide) (by decide)⟩, ?_⟩
  refine ⟨⟨_, rfl, sampleSlices _ (by simp), ⟨_, rfl, sampleSlices _ (by simp)⟩, Or.inl (by decide)⟩, ?_⟩
  refine ⟨⟨_, rfl, sampleSlices _ (by simp), ⟨_, rfl⟩, Or.inr ?_⟩, ?_⟩
  · exact ⟨[2, 2], by simp [vshape, selShape]; decide, [3], by decide, 0, 2, 3, by decide⟩
  refine ⟨⟨⟨_, rfl⟩, ⟨⟨_, rfl, sampleSlices _ (by simp)⟩, trivial⟩,
    small_of (o := [3]) (by decide) (by decide), by decide⟩, ?_⟩
  exact ⟨⟨⟨_, rfl⟩, ⟨_, rfl⟩, small_of (o := [3]) (by decide) (by decide)⟩, trivial⟩

/-- `a` turned over in both directions, then added to itself, and a row filled backwards. -/
def backwardProgram : List (PStmt Int) :=
  [.decl .column_major (.gen [2, 3] fun i => dot i [10, 1]),
   .viewAssign 0 [.range none none (some (-1)), .range none none (some (-1))] (.var 0),
   .opAssign 0 (· + ·) (.slice 0 [.range none none (some (-1)), .range none none (some (-1))]),
   .viewFill 0 [.int 1, .newaxis, .ellipsis, .range none none (some (-2))] 7]

theorem backwardProgram_sane : SaneRun [] backwardProgram := by
  refine ⟨⟨Or.inr rfl, ⟨by simp, by decide⟩, small_of (o := [2, 3]) (by decide) (by decide)⟩, ?_⟩
  refine ⟨⟨_, rfl, backwardSlices _ (by simp), ⟨_, rfl⟩, Or.inl (by decide)⟩, ?_⟩
  refine ⟨⟨_, rfl, ⟨_, rfl, backwardSlices _ (by simp)⟩, small_of (o := [2, 3]) (by decide) (by decide)⟩, ?_⟩
  exact ⟨⟨_, rfl, backwardSlices _ (by simp)⟩, trivial⟩

example : (prun [] backwardProgram).1.map (fun t => (t.shape, (rowIndices t.shape).map t.at')) =
    [([2, 3], [12, 12, 12, 7, 12, 7])] := by decide

example : (packedCfg.run ⟨[], fun _ => -1, 0⟩ backwardProgram).map (fun r =>
      (r.1.vars.map fun x => (x.arr.shape, (rowIndices x.arr.shape).map fun i => r.1.mem (addr x.arr i)))) =
    some [([2, 3], [12, 12, 12, 7, 12, 7])] := by decide +kernel

/-- The fifth statement is refused; the others complete. -/
example : (prun [] sampleProgram).2 = [true, true, true, true, false, true, true] := by decide

example : (prun [] sampleProgram).1.map (fun t => (t.shape, (rowIndices t.shape).map t.at')) =
    [([3], [1700, 1900, 1900]), ([3], [1700, 1900, 1900])] := by decide

/-- `C88_programs_partial` and `C88_deterministic_partial` apply to it, with packs and without. -/
example (m : Mem Int) : ∃ r r' flags,
    plainCfg.run ⟨[], m, 0⟩ sampleProgram = some (r, flags) ∧
    packedCfg.run ⟨[], m, 5⟩ sampleProgram = some (r', flags) ∧ r.vars.length = r'.vars.length ∧
      ∀ (i : Nat) (x x' : PVar), r.vars[i]? = some x → r'.vars[i]? = some x' →
        x.arr.shape = x'.arr.shape ∧
        ∀ idx, InBounds x.arr.shape idx → r.mem (addr x.arr idx) = r'.mem (addr x'.arr idx) :=
  C88_deterministic_partial plainCfg packedCfg plainCfg_good packedCfg_good sampleProgram _ _ []
    ⟨rfl, by simp, by simp⟩ ⟨rfl, by simp, by simp⟩ sampleProgram_sane

/-- The model run with packs. -/
example : (packedCfg.run ⟨[], fun _ => -1, 0⟩ sampleProgram).map (fun r =>
      (r.1.vars.map fun x => (x.arr.shape, (rowIndices x.arr.shape).map fun i => r.1.mem (addr x.arr i)),
        r.2)) =
    some ([([3], [1700, 1900, 1900]), ([3], [1700, 1900, 1900])],
      [true, true, true, true, false, true, true]) := by decide +kernel

/-- `noalias(a) = broadcast(strided_view(a, {range(1, 2)}), {3}) + 1` with `a = {0, 10, 20}`: the
promise is broken, and the last element is computed from the new middle one. -/
theorem C88_noalias_reading_wrong :
    let p : List (PStmt Int) := [.decl .row_major (.gen [3] fun i => dot i [10]),
      .noalias 0 (.fn (fun l => l.sum + 1)
        (.cons (.bcast (.slice 0 [.range (some 1) (some 2) none]) [3]) .nil))]
    (prun [] p).1.map (fun t => (rowIndices t.shape).map t.at') = [[11, 11, 11]] ∧
    (plainCfg.run ⟨[], fun _ => 0, 0⟩ p).map (fun r => r.1.vars.map fun x =>
      (rowIndices x.arr.shape).map fun i => r.1.mem (addr x.arr i)) = some [[11, 11, 12]] := by
  decide +kernel

/-- `noalias(a) = scalar` does not fill `a`, as `noalias(a) += scalar` and `a.fill(scalar)` would: it assigns an `xscalar`
(core/xnoalias.hpp:97-102), so that `a` becomes an array without axes that holds the scalar, whatever its shape was. -/
theorem C88_noalias_scalar_reshapes [Inhabited β] (cfg : PCfg) (hg : GoodAlloc cfg) {st : PSt β} {env : List (Tab β)}
    (hst : StHolds st env) {i : Nat} (hi : i < st.vars.length) (v : β) :
    ∃ (st' : PSt β) (x : PVar), cfg.run st [.noalias i (.lit v)] = some (st', [true]) ∧ st'.vars[i]? = some x ∧
      x.arr.shape = [] ∧ st'.mem (addr x.arr []) = v := by
  have hie : i < env.length := hst.len ▸ hi
  obtain ⟨st', h1, h2⟩ := C88_programs_partial cfg hg [.noalias i (.lit v)] st env hst
    ⟨⟨⟨_, List.getElem?_eq_getElem hie⟩, trivial, fun out ho => by
      have : out = [] := by simpa [bcShape, pleaves] using ho.symm
      subst this; decide, by simp [pvars]⟩, trivial⟩
  have hp : prun env [.noalias i (.lit v)] = (env.set i ⟨[], pval env (.lit v)⟩, [true]) := by
    simp [prun, pstep, pstep.put, pleaves, bcShape]
  rw [hp] at h1 h2
  have hl : i < st'.vars.length := by rw [h2.len]; simpa using hie
  have hx := List.getElem?_eq_getElem hl
  obtain ⟨t, ht, hh⟩ := h2.var i _ hx
  rw [List.getElem?_set_self hie, Option.some.injEq] at ht
  subst ht
  refine ⟨st', _, h1, hx, hh.shape, ?_⟩
  rw [hh.vals [] trivial]
  simp [pval]

example : (plainCfg.run ⟨[], fun _ => 0, 0⟩ [.decl .row_major (.gen [2, 2] fun _ => 1), .noalias 0 (.lit (7 : Int))]).map
    (fun r => r.1.vars.map fun x => x.arr.shape) = some [[]] := by decide +kernel

/-- `strided_view(a, {range(0, 1)}) = a + 1` with `a = {0, 10}`: two elements do not broadcast to one,
but the assignment is not refused and takes the first of them. -/
theorem C88_view_larger_wrong :
    let p : List (PStmt Int) := [.decl .row_major (.gen [2] fun i => dot i [10]),
      .viewAssign 0 [.range (some 0) (some 1) none] (.fn (fun l => l.sum + 1) (.cons (.var 0) .nil))]
    (prun [] p).1.map (fun t => (rowIndices t.shape).map t.at') = [[0, 10]] ∧
    (prun [] p).2 = [true, false] ∧
    (plainCfg.run ⟨[], fun _ => 0, 0⟩ p).map (fun r => (r.1.vars.map fun x =>
      (rowIndices x.arr.shape).map fun i => r.1.mem (addr x.arr i), r.2)) =
      some ([[1, 10]], [true, true]) := by
  decide +kernel

/-- `strided_view(a, {range(_, _, -1), all()}) = strided_view(a, {range(0, 1), range(0, 1)}) + 10` with
`a = {{0, 1}, {2, 3}}`: the view runs backwards along one axis only, the addresses of its first and last elements do not
enclose `a(0, 0)`, no overlap is found, and the last element is computed from the new `a(0, 0)`. -/
theorem C88_mixed_directions_wrong :
    let p : List (PStmt Int) := [.decl .row_major (.gen [2, 2] fun i => dot i [2, 1]),
      .viewAssign 0 [.range none none (some (-1)), .all] (.fn (fun l => l.sum + 10)
        (.cons (.slice 0 [.range (some 0) (some 1) none, .range (some 0) (some 1) none]) .nil))]
    (prun [] p).1.map (fun t => (rowIndices t.shape).map t.at') = [[10, 10, 10, 10]] ∧
    (plainCfg.run ⟨[], fun _ => 0, 0⟩ p).map (fun r => r.1.vars.map fun x =>
      (rowIndices x.arr.shape).map fun i => r.1.mem (addr x.arr i)) = some [[10, 20, 10, 10]] := by
  decide +kernel

/-- `noalias(a) += b` with `a` of shape `[1]` and `b` of shape `[0]`: the sum has no elements, but `a`
keeps its element, combined with a value read past the end of `b`. -/
theorem C88_noalias_empty_wrong :
    let p : List (PStmt Int) := [.decl .row_major (.gen [1] fun _ => 1),
      .decl .row_major (.gen [0] fun _ => 0), .opNoalias 0 (· + ·) (.var 1)]
    (prun [] p).1.map (fun t => t.shape) = [[0], [0]] ∧
    (plainCfg.run ⟨[], fun _ => 40, 0⟩ p).map (fun r => r.1.vars.map fun x =>
      (rowIndices x.arr.shape).map fun i => r.1.mem (addr x.arr i)) = some [[41], []] := by
  decide +kernel

/-- A refused statement: a vector of three elements for a view of shape `[2, 2]`. -/
example (st : PSt Int) (env : List (Tab Int)) (h : StHolds st env) (t u : Tab Int)
    (h0 : env[0]? = some t) (h1 : env[1]? = some u) (ht : t.shape = [2, 3]) (hu : u.shape = [3]) :
    plainCfg.run st [.viewAssign 0 [.all, .range (some 0) (some 2) none] (.var 1)] =
      some ({ st with clock := st.clock + 1 }, [false]) := by
  refine C88_refused_partial plainCfg plainCfg_good st env h _ ⟨t, h0, ?_, ⟨u, h1⟩, Or.inr ?_⟩ ?_
  · rw [ht]; exact sampleSlices _ (by simp)
  · simp only [pleaves, h1, ht, hu]
    exact ⟨[2, 2], by simp [vshape]; decide, [3], by simp, 0, 2, 3, by decide⟩
  · simp only [pstep, pstep.over, h0, Option.bind_some, pleaves, h1, ht, hu]
    rw [if_neg (by decide)]

end Xt
