import Verif.Model.Threads
import Verif.Props.Cache
import Verif.Props.Broadcast
import Verif.Props.Addressing
import Mathlib.Logic.Relation
/-!
# C99: constant expressions used by several threads at once

The answers a thread gets are compared with what the expression means without any cache (`TExpr.sh`, `Spec.dataAt`, …).
-/

namespace Xt
open Spec

variable {α ρ τ : Type}

/-! ## The meaning of expressions without caches -/

mutual
/-- The element at position `i` of the storages. -/
def Spec.dataAt : TExpr α → Nat → α
  | .var _ _ _ fl, i => fl i
  | .scalar x, _ => x
  | .view _ _ _ off _ fl, i => fl (off + i)
  | .fn f args, i => f (Spec.dataAts args i)
def Spec.dataAts : List (TExpr α) → Nat → List α
  | [], _ => []
  | e :: es, i => Spec.dataAt e i :: Spec.dataAts es i
end

mutual
/-- The element at an index, by the strides. -/
def Spec.stepAt : TExpr α → List Nat → α
  | .var _ st _ fl, idx => fl (dataOffset st false (toInts idx))
  | .scalar x, _ => x
  | .view _ st _ off _ fl, idx => fl (off + dataOffset st false (toInts idx))
  | .fn f args, idx => f (Spec.stepAts args idx)
def Spec.stepAts : List (TExpr α) → List Nat → List α
  | [], _ => []
  | e :: es, idx => Spec.stepAt e idx :: Spec.stepAts es idx
end

mutual
/-- All arrays of the expression have these strides. -/
def Spec.linearIn (str : List Int) : TExpr α → Bool
  | .var _ st _ _ => decide (st = str)
  | .scalar _ => true
  | .view _ st _ _ _ _ => decide (st = str)
  | .fn _ args => Spec.linearsIn str args
def Spec.linearsIn (str : List Int) : List (TExpr α) → Bool
  | [] => true
  | e :: es => Spec.linearIn str e && Spec.linearsIn str es
end

/-- What the array made from the expression holds. -/
def Spec.assigned (static : Bool) (L : Layout) (e : TExpr α) : Option (List Nat × List α) :=
  e.sh.shape.map fun r =>
    (r.1, if r.2 && (static || Spec.linearIn (computeStrides L L r.1).1 e) then (List.range (numel r.1)).map (Spec.dataAt e)
      else (if L = .column_major then colIndices r.1 else rowIndices r.1).map (Spec.stepAt e))

/-- The strides of a container or a view. -/
def Spec.stridesOf : TExpr α → List Int
  | .var _ st _ _ => st
  | .view _ st _ _ _ _ => st
  | _ => []

/-- The answer to a request. -/
def Spec.answer (e : TExpr α) : Req → Ans α
  | .dimension => .dim e.sh.dim
  | .shape => .shape (e.sh.shape.map Prod.fst)
  | .strides => .strides (Spec.stridesOf e)
  | .call idx => .vals [e.call idx]
  | .loop is => .vals (is.map (Spec.dataAt e))
  | .assign st L => .array (Spec.assigned st L e)

/-- The answers to the requests of a thread. -/
def Spec.answers (e : TExpr α) (rs : List (List Nat × Req)) : List (Ans α) :=
  rs.filterMap fun r => (e.sub r.1).map fun n => Spec.answer n r.2

/-! ## Threads that write nothing -/

/-- The result of a thread that only reads, from memory `σ`; `none` if it writes. -/
def Act.quiet (σ : CMem) : Act ρ → Option ρ
  | .ret r => some r
  | .rd l k => (k (σ l)).quiet σ
  | .wr _ _ _ => none

theorem Act.quiet_bind (σ : CMem) (m : Act ρ) (f : ρ → Act τ) : (m.bind f).quiet σ = (m.quiet σ).bind fun r => (f r).quiet σ := by
  induction m with
  | ret r => rfl
  | rd l k ih => exact ih _
  | wr l v k ih => rfl

theorem Act.alone_bind (σ : CMem) (m : Act ρ) (f : ρ → Act τ) : (m.bind f).alone σ = (f (m.alone σ).2).alone (m.alone σ).1 := by
  induction m generalizing σ with
  | ret r => rfl
  | rd l k ih => exact ih _ _
  | wr l v k ih => exact ih _

theorem Act.alone_of_quiet {σ : CMem} {m : Act ρ} {r : ρ} (h : m.quiet σ = some r) : m.alone σ = (σ, r) := by
  induction m with
  | ret r' => simp [Act.quiet] at h; simp [Act.alone, h]
  | rd l k ih => exact ih _ h
  | wr l v k ih => simp [Act.quiet] at h

theorem Act.bind_assoc {υ : Type} (m : Act ρ) (f : ρ → Act τ) (g : τ → Act υ) :
    (m.bind f).bind g = m.bind fun r => (f r).bind g := by
  induction m with
  | ret r => rfl
  | rd l k ih => simp only [Act.bind]; congr 1; funext v; exact ih v
  | wr l v k ih => simp only [Act.bind]; rw [ih]

/-- Reachable by steps of the threads in any order. -/
abbrev Reach (c c' : CMem × List (Act ρ)) : Prop := Relation.ReflTransGen ThStep c c'

/-- Threads that only read disturb nobody: in every interleaving the memory stays, there is no race and each thread gets the
result it gets alone. -/
theorem quiet_threads {σ : CMem} {ts : List (Act ρ)} {rs : List ρ} (h : ts.map (Act.quiet σ) = rs.map some)
    {c : CMem × List (Act ρ)} (hr : Reach (σ, ts) c) : c.1 = σ ∧ c.2.map (Act.quiet σ) = rs.map some ∧ ¬ Race c := by
  have main : c.1 = σ ∧ c.2.map (Act.quiet σ) = rs.map some := by
    induction hr with
    | refl => exact ⟨rfl, h⟩
    | tail _ hstep ih =>
      obtain ⟨h1, h2⟩ := ih
      have hsome : ∀ (us : List (Act ρ)), us.map (Act.quiet σ) = rs.map some → ∀ (i : Nat) (a : Act ρ), us[i]? = some a →
          ∃ r, rs[i]? = some r ∧ a.quiet σ = some r := by
        intro us hu i a ha
        have := congrArg (fun l => l[i]?) hu
        simp only [List.getElem?_map, ha, Option.map_some] at this
        cases hri : rs[i]? with
        | none => rw [hri] at this; simp at this
        | some r => rw [hri] at this; simp only [Option.map_some, Option.some.injEq] at this; exact ⟨r, rfl, this⟩
      cases hstep with
      | @rd σ' us i l k hi =>
        obtain rfl : σ' = σ := h1
        refine ⟨rfl, ?_⟩
        obtain ⟨r, hr1, hr2⟩ := hsome us h2 i _ hi
        rw [List.map_set]
        have : (k (σ' l)).quiet σ' = some r := hr2
        rw [this, h2]
        apply List.ext_getElem?
        intro j
        rw [List.getElem?_set]
        split
        · next hj => subst hj; simp only [List.getElem?_map, hr1, Option.map_some]; split
                     · rfl
                     · next hl => exfalso; apply hl; simpa using (List.getElem?_eq_some_iff.1 hr1).1
        · rfl
      | @wr σ' us i l v k hi =>
        obtain ⟨r, hr1, hr2⟩ := hsome us h2 i _ hi
        simp [Act.quiet] at hr2
  refine ⟨main.1, main.2, ?_⟩
  rintro ⟨i, j, a, b, l, w, w', -, ha, hb, haa, hbb, hw⟩
  have hq : ∀ (i : Nat) (a : Act ρ) (l : CLoc) (w : Bool), c.2[i]? = some a → a.access = some (l, w) → w = false := by
    intro i a l w ha haa
    have := congrArg (fun l => l[i]?) main.2
    simp only [List.getElem?_map, ha, Option.map_some] at this
    cases a with
    | ret r => simp [Act.access] at haa
    | rd l' k => simp [Act.access] at haa; exact haa.2
    | wr l' v k => cases hri : rs[i]? <;> rw [hri] at this <;> simp [Act.quiet] at this
  rw [hq i a l w ha haa, hq j b l w' hb hbb] at hw
  simp at hw

/-- A thread that acts while the others wait. -/
theorem reach_alone (m : Act ρ) (f : ρ → Act τ) (σ : CMem) (ts : List (Act τ)) (i : Nat) (h : ts[i]? = some (m.bind f)) :
    Reach (σ, ts) ((m.alone σ).1, ts.set i (f (m.alone σ).2)) := by
  induction m generalizing σ ts with
  | ret r =>
    have : ts.set i (f r) = ts := by
      have hlt := (List.getElem?_eq_some_iff.1 h)
      obtain ⟨hl, he⟩ := hlt
      have : f r = ts[i] := he.symm
      rw [this, List.set_getElem_self]
    simp only [Act.alone, this]
    exact .refl
  | rd l k ih =>
    have hs : ThStep (σ, ts) (σ, ts.set i ((k (σ l)).bind f)) := ThStep.rd (k := fun v => (k v).bind f) h
    refine Relation.ReflTransGen.head hs ?_
    have := ih (σ l) σ (ts.set i ((k (σ l)).bind f)) (by
      rw [List.getElem?_set_self]; exact (List.getElem?_eq_some_iff.1 h).1)
    rw [List.set_set] at this
    exact this
  | wr l v k ih =>
    have hs : ThStep (σ, ts) (σ.upd l v, ts.set i (k.bind f)) := ThStep.wr (k := k.bind f) h
    refine Relation.ReflTransGen.head hs ?_
    have := ih (σ.upd l v) (ts.set i (k.bind f)) (by
      rw [List.getElem?_set_self]; exact (List.getElem?_eq_some_iff.1 h).1)
    rw [List.set_set] at this
    exact this

/-- A thread that writes reads up to its first write. -/
theorem first_write {σ : CMem} {m : Act ρ} (h : m.quiet σ = none) :
    ∃ (n : Act (Act ρ)) (l : CLoc) (v : CVal) (k : Act ρ), m = n.bind id ∧ n.quiet σ = some (.wr l v k) := by
  induction m with
  | ret r => simp [Act.quiet] at h
  | rd l k ih =>
    obtain ⟨n, l', v, k', h1, h2⟩ := ih (σ l) h
    refine ⟨.rd l fun x => if x = σ l then n else .ret (k x), l', v, k', ?_, ?_⟩
    · simp only [Act.bind]
      congr 1
      funext x
      by_cases hx : x = σ l
      · rw [if_pos hx, hx]; exact h1
      · rw [if_neg hx]; rfl
    · simp only [Act.quiet]; simpa using h2
  | wr l v k ih => exact ⟨.ret (.wr l v k), l, v, k, rfl, rfl⟩

/-- Two threads that do the same thing race exactly if it writes. -/
theorem same_race_iff (σ : CMem) (m : Act ρ) : (∃ c, Reach (σ, [m, m]) c ∧ Race c) ↔ m.quiet σ = none := by
  constructor
  · rintro ⟨c, hr, hc⟩
    cases hq : m.quiet σ with
    | none => rfl
    | some r => exact absurd hc (quiet_threads (rs := [r, r]) (by simp [hq]) hr).2.2
  · intro h
    obtain ⟨n, l, v, k, h1, h2⟩ := first_write h
    have ha := Act.alone_of_quiet h2
    have s1 := reach_alone n id σ [m, m] 0 (by rw [h1]; rfl)
    have s2 := reach_alone n id (n.alone σ).1 ([m, m].set 0 (id (n.alone σ).2)) 1 (by simp [h1])
    rw [ha] at s1 s2
    rw [ha] at s2
    refine ⟨_, s1.trans s2, 0, 1, .wr l v k, .wr l v k, l, true, true, by decide, by simp, by simp, rfl, rfl, rfl⟩

/-! ## Members that agree with the expression -/

/-- What a member says it knows is right. -/
def NodeOk (σ : CMem) (q : List Nat) : TExpr α → Prop
  | .fn f args => (σ (q, .shapeReady)).getFlag = true →
      ∃ r, (TExpr.fn f args).sh.shape = some r ∧ σ (q, .shape) = .nats r.1 ∧ σ (q, .trivial) = .flag r.2
  | .view _ st bk off _ _ => (σ (q, .stridesReady)).getFlag = true →
      σ (q, .strides) = .ints st ∧ σ (q, .backstrides) = .ints bk ∧ σ (q, .offset) = .pos off
  | _ => True

/-- The memory agrees with the expression. -/
def Good (e : TExpr α) (σ : CMem) : Prop := ∀ q n, e.sub q = some n → NodeOk σ q n

theorem TExpr.sub_append (e : TExpr α) (q r : List Nat) : e.sub (q ++ r) = (e.sub q).bind fun n => n.sub r := by
  induction q generalizing e with
  | nil => rfl
  | cons k q ih =>
    cases e with
    | fn f args =>
      simp only [List.cons_append, TExpr.sub]
      cases args[k]? with
      | none => rfl
      | some a => exact ih a
    | var => rfl
    | scalar => rfl
    | view => rfl

theorem TExpr.sub_child {e : TExpr α} {q : List Nat} {f : List α → α} {args : List (TExpr α)} (h : e.sub q = some (.fn f args))
    (k : Nat) : e.sub (q ++ [k]) = args[k]? := by
  rw [TExpr.sub_append, h]
  simp only [Option.bind_some, TExpr.sub]
  cases args[k]? <;> rfl

/-- `es` are the operands from number `k` on of the function at `q`. -/
def Kids (e : TExpr α) (q : List Nat) (k : Nat) (es : List (TExpr α)) : Prop :=
  ∀ j a, es[j]? = some a → e.sub (q ++ [k + j]) = some a

theorem kids_of {e : TExpr α} {q : List Nat} {f : List α → α} {args : List (TExpr α)} (h : e.sub q = some (.fn f args)) :
    Kids e q 0 args := by
  intro j a hj
  rw [Nat.zero_add, TExpr.sub_child h, hj]

theorem Kids.head {e a : TExpr α} {q : List Nat} {k : Nat} {es : List (TExpr α)} (h : Kids e q k (a :: es)) :
    e.sub (q ++ [k]) = some a := h 0 a rfl

theorem Kids.tail {e a : TExpr α} {q : List Nat} {k : Nat} {es : List (TExpr α)} (h : Kids e q k (a :: es)) :
    Kids e q (k + 1) es := by
  intro j b hj
  have := h (j + 1) b (by simpa using hj)
  rwa [Nat.add_assoc, Nat.add_comm 1 j]

mutual
theorem dimension_quiet {e : TExpr α} {σ : CMem} (hg : Good e σ) : ∀ (n : TExpr α) (q : List Nat), e.sub q = some n →
    (n.dimension q).quiet σ = some n.sh.dim
  | .var .., _, _ => by simp [TExpr.dimension, Act.quiet, TExpr.sh, ShExpr.dim]
  | .scalar _, _, _ => by simp [TExpr.dimension, Act.quiet, TExpr.sh, ShExpr.dim]
  | .view .., _, _ => by simp [TExpr.dimension, Act.quiet, TExpr.sh, ShExpr.dim]
  | .fn f args, q, h => by
    simp only [TExpr.dimension, Act.quiet]
    by_cases hf : (σ (q, .shapeReady)).getFlag = true
    · obtain ⟨r, h1, h2, -⟩ := hg q _ h hf
      rw [if_pos hf]
      simp only [Act.quiet, h2, CVal.getNats]
      rw [ShExpr.shape_length h1]
    · rw [if_neg hf, dimensions_quiet hg args q 0 (kids_of h)]
      rfl
theorem dimensions_quiet {e : TExpr α} {σ : CMem} (hg : Good e σ) : ∀ (es : List (TExpr α)) (q : List Nat) (k : Nat),
    Kids e q k es → (TExpr.dimensions es q k).quiet σ = some (ShExpr.dims (TExpr.shs es))
  | [], _, _, _ => rfl
  | a :: es, q, k, h => by
    simp only [TExpr.dimensions, Act.quiet_bind]
    rw [dimension_quiet hg a _ h.head, Option.bind_some, dimensions_quiet hg es q (k + 1) h.tail]
    rfl
end

theorem ensureStrides_quiet {σ : CMem} {q : List Nat} (st bk : List Int) (off : Int) :
    (ensureStrides q st bk off).quiet σ = if (σ (q, .stridesReady)).getFlag = true then some () else none := by
  simp only [ensureStrides, Act.quiet]
  split <;> rfl

/-- The views below a place know their strides. -/
def ViewsReady (e : TExpr α) (σ : CMem) (q : List Nat) : Prop := ∀ x s st bk off el fl,
  e.sub (q ++ x) = some (.view s st bk off el fl) → (σ (q ++ x, .stridesReady)).getFlag = true

theorem ViewsReady.child {e : TExpr α} {σ : CMem} {q : List Nat} (h : ViewsReady e σ q) (k : Nat) : ViewsReady e σ (q ++ [k]) := by
  intro x s st bk off el fl hx
  rw [List.append_assoc] at hx ⊢
  exact h _ s st bk off el fl hx

theorem ViewsReady.self {e : TExpr α} {σ : CMem} {q : List Nat} (h : ViewsReady e σ q) {s st bk off el fl}
    (hx : e.sub q = some (.view s st bk off el fl)) : (σ (q, .stridesReady)).getFlag = true := by
  have := h [] s st bk off el fl (by simpa using hx)
  simpa using this

mutual
theorem dataElement_quiet {e : TExpr α} {σ : CMem} (hg : Good e σ) (i : Nat) : ∀ (n : TExpr α) (q : List Nat), e.sub q = some n →
    ViewsReady e σ q → (n.dataElement q i).quiet σ = some (dataAt n i)
  | .var .., _, _, _ => rfl
  | .scalar _, _, _, _ => rfl
  | .view s st bk off el fl, q, h, hv => by
    have hf := hv.self h
    obtain ⟨-, -, h3⟩ := hg q _ h hf
    simp only [TExpr.dataElement, Act.quiet_bind, ensureStrides_quiet, if_pos hf, Option.bind_some, Act.quiet, h3, CVal.getPos,
      dataAt]
  | .fn f args, q, h, hv => by
    simp only [TExpr.dataElement, Act.quiet_bind]
    rw [dataElements_quiet hg i args q 0 (kids_of h) hv]
    rfl
theorem dataElements_quiet {e : TExpr α} {σ : CMem} (hg : Good e σ) (i : Nat) : ∀ (es : List (TExpr α)) (q : List Nat) (k : Nat),
    Kids e q k es → ViewsReady e σ q → (TExpr.dataElements es q k i).quiet σ = some (dataAts es i)
  | [], _, _, _, _ => rfl
  | a :: es, q, k, h, hv => by
    simp only [TExpr.dataElements, Act.quiet_bind]
    rw [dataElement_quiet hg i a _ h.head (hv.child k), Option.bind_some, dataElements_quiet hg i es q (k + 1) h.tail hv]
    rfl
end

mutual
theorem stepElement_quiet {e : TExpr α} {σ : CMem} (hg : Good e σ) (i : List Nat) : ∀ (n : TExpr α) (q : List Nat),
    e.sub q = some n → ViewsReady e σ q → (n.stepElement q i).quiet σ = some (stepAt n i)
  | .var .., _, _, _ => rfl
  | .scalar _, _, _, _ => rfl
  | .view s st bk off el fl, q, h, hv => by
    have hf := hv.self h
    obtain ⟨h1, -, h3⟩ := hg q _ h hf
    simp only [TExpr.stepElement, Act.quiet_bind, ensureStrides_quiet, if_pos hf, Option.bind_some, Act.quiet, h1, h3, CVal.getPos,
      CVal.getInts, stepAt]
  | .fn f args, q, h, hv => by
    simp only [TExpr.stepElement, Act.quiet_bind]
    rw [stepElements_quiet hg i args q 0 (kids_of h) hv]
    rfl
theorem stepElements_quiet {e : TExpr α} {σ : CMem} (hg : Good e σ) (i : List Nat) : ∀ (es : List (TExpr α)) (q : List Nat) (k : Nat),
    Kids e q k es → ViewsReady e σ q → (TExpr.stepElements es q k i).quiet σ = some (stepAts es i)
  | [], _, _, _, _ => rfl
  | a :: es, q, k, h, hv => by
    simp only [TExpr.stepElements, Act.quiet_bind]
    rw [stepElement_quiet hg i a _ h.head (hv.child k), Option.bind_some, stepElements_quiet hg i es q (k + 1) h.tail hv]
    rfl
end

mutual
theorem hasLinear_quiet {e : TExpr α} {σ : CMem} (hg : Good e σ) (str : List Int) : ∀ (n : TExpr α) (q : List Nat),
    e.sub q = some n → ViewsReady e σ q → (n.hasLinear str q).quiet σ = some (linearIn str n)
  | .var .., _, _, _ => rfl
  | .scalar _, _, _, _ => rfl
  | .view s st bk off el fl, q, h, hv => by
    have hf := hv.self h
    obtain ⟨h1, -, -⟩ := hg q _ h hf
    simp only [TExpr.hasLinear, Act.quiet_bind, ensureStrides_quiet, if_pos hf, Option.bind_some, Act.quiet, h1,
      CVal.getInts, linearIn]
  | .fn f args, q, h, hv => by
    simp only [TExpr.hasLinear]
    rw [hasLinears_quiet hg str args q 0 true (kids_of h) hv]
    rfl
theorem hasLinears_quiet {e : TExpr α} {σ : CMem} (hg : Good e σ) (str : List Int) : ∀ (es : List (TExpr α)) (q : List Nat)
    (k : Nat) (b : Bool), Kids e q k es → ViewsReady e σ q →
      (TExpr.hasLinears str es q k b).quiet σ = some (b && linearsIn str es)
  | [], _, _, b, _, _ => by simp [TExpr.hasLinears, Act.quiet, linearsIn]
  | a :: es, q, k, b, h, hv => by
    cases b with
    | true =>
      simp only [TExpr.hasLinears, if_true, Act.quiet_bind]
      rw [hasLinear_quiet hg str a _ h.head (hv.child k), Option.bind_some, hasLinears_quiet hg str es q (k + 1) _ h.tail hv]
      simp [linearsIn]
    | false =>
      simp only [TExpr.hasLinears, Bool.false_eq_true, if_false]
      rw [hasLinears_quiet hg str es q (k + 1) _ h.tail hv]
      simp
end

theorem actAll_quiet {β : Type} {σ : CMem} {f : β → Act ρ} {g : β → ρ} (bs : List β) (h : ∀ b ∈ bs, (f b).quiet σ = some (g b)) :
    (Act.all f bs).quiet σ = some (bs.map g) := by
  induction bs with
  | nil => rfl
  | cons b bs ih =>
    simp only [Act.all, Act.quiet_bind]
    rw [h b (by simp), Option.bind_some, ih fun x hx => h x (by simp [hx])]
    rfl

theorem resizeShape_quiet {e : TExpr α} {σ : CMem} (hg : Good e σ) (n : TExpr α) (q : List Nat) (h : e.sub q = some n) :
    (n.resizeShape q).quiet σ = some n.sh.shape := by
  cases n with
  | var s st el fl => simp only [TExpr.resizeShape, Act.quiet, TExpr.sh, leaf_shape]
  | scalar x => rfl
  | view s st bk off el fl => simp only [TExpr.resizeShape, Act.quiet, TExpr.sh, leaf_shape]
  | fn f args =>
    simp only [TExpr.resizeShape, Act.quiet_bind, dimension_quiet hg _ _ h, Option.bind_some, Act.quiet]
    by_cases hf : (σ (q, .shapeReady)).getFlag = true
    · obtain ⟨r, h1, h2, h3⟩ := hg q _ h hf
      rw [if_pos hf, h1]
      simp only [Act.quiet, h2, h3, CVal.getNats, CVal.getFlag]
    · rw [if_neg hf]
      rfl

theorem assign_quiet {e : TExpr α} {σ : CMem} (hg : Good e σ) (st : Bool) (L : Layout) (n : TExpr α) (q : List Nat)
    (h : e.sub q = some n) (hv : ViewsReady e σ q) : (n.assign st L q).quiet σ = some (assigned st L n) := by
  simp only [TExpr.assign, Act.quiet_bind, resizeShape_quiet hg n q h, Option.bind_some, assigned]
  cases hs : n.sh.shape with
  | none => rfl
  | some r =>
    obtain ⟨s, t⟩ := r
    simp only [Act.quiet_bind, Option.map_some]
    have hl : (if t then if st then Act.ret true else n.hasLinear (computeStrides L L s).1 q else .ret false).quiet σ =
        some (t && (st || linearIn (computeStrides L L s).1 n)) := by
      cases t with
      | false => rfl
      | true =>
        cases st with
        | true => rfl
        | false => simpa using hasLinear_quiet hg _ n q h hv
    rw [hl, Option.bind_some]
    split
    · rw [Act.quiet_bind, actAll_quiet (g := dataAt n) _ fun i _ => dataElement_quiet hg i n q h hv]
      rfl
    · rw [Act.quiet_bind, actAll_quiet (g := stepAt n) _ fun i _ => stepElement_quiet hg i n q h hv]
      rfl

/-- The requests that write nothing in this memory: shapes that are known, strides that are known, elements. -/
def Req.Safe (e : TExpr α) (σ : CMem) (q : List Nat) : Req → Prop
  | .dimension => True
  | .shape => ∀ f args, e.sub q = some (.fn f args) → (σ (q, .shapeReady)).getFlag = true
  | .strides => ∀ s st bk off el fl, e.sub q = some (.view s st bk off el fl) → (σ (q, .stridesReady)).getFlag = true
  | .call _ => True
  | .loop is => is ≠ [] → ViewsReady e σ q
  | .assign _ _ => ViewsReady e σ q

theorem req_quiet {e : TExpr α} {σ : CMem} (hg : Good e σ) (n : TExpr α) (q : List Nat) (h : e.sub q = some n) (r : Req)
    (hs : r.Safe e σ q) : (r.run n q).quiet σ = some (answer n r) := by
  cases r with
  | dimension => simp only [Req.run, Act.quiet_bind, dimension_quiet hg n q h]; rfl
  | shape =>
    cases n with
    | var s st el fl => simp [Req.run, TExpr.readShape, Act.bind, Act.quiet, answer, TExpr.sh, leaf_shape]
    | scalar x => rfl
    | view s st bk off el fl => simp [Req.run, TExpr.readShape, Act.bind, Act.quiet, answer, TExpr.sh, leaf_shape]
    | fn f args =>
      have hf := hs f args h
      obtain ⟨r, h1, h2, -⟩ := hg q _ h hf
      simp only [Req.run, TExpr.readShape, Act.quiet_bind, ensureShape, Act.quiet, if_pos hf, Option.bind_some, if_true, h2,
        CVal.getNats, answer, h1, Option.map_some]
  | strides =>
    cases n with
    | var s st el fl => rfl
    | scalar x => rfl
    | view s st bk off el fl =>
      have hf := hs s st bk off el fl h
      obtain ⟨h1, -, -⟩ := hg q _ h hf
      simp only [Req.run, TExpr.readStrides, Act.quiet_bind, ensureStrides_quiet, if_pos hf, Option.bind_some, Act.quiet, h1,
        CVal.getInts, answer, stridesOf]
    | fn f args => rfl
  | call idx => rfl
  | loop is =>
    by_cases he : is = []
    · subst he; rfl
    · simp only [Req.run, Act.quiet_bind]
      rw [actAll_quiet (g := dataAt n) _ fun i _ => dataElement_quiet hg i n q h (hs he)]
      rfl
  | assign st L => simp only [Req.run, Act.quiet_bind, assign_quiet hg st L n q h hs]; rfl

theorem thread_quiet {e : TExpr α} {σ : CMem} (hg : Good e σ) (rs : List (List Nat × Req)) (hs : ∀ r ∈ rs, r.2.Safe e σ r.1) :
    (thread e rs).quiet σ = some (answers e rs) := by
  induction rs with
  | nil => rfl
  | cons r rs ih =>
    obtain ⟨p, r⟩ := r
    have ih := ih fun x hx => hs x (by simp [hx])
    simp only [thread, answers, List.filterMap_cons]
    cases h : e.sub p with
    | none => exact ih
    | some n =>
      simp only [Act.quiet_bind, req_quiet hg n p h r (hs (p, r) (by simp)), Option.bind_some, ih, Option.map_some]
      rfl

/-- Any number of threads that ask only for what is known, for elements by index and for dimensions: whatever the order of their
steps, there is no race, nothing is changed, and a thread that has ended has the answers without caches. -/
theorem C99_threads {e : TExpr α} {σ : CMem} (hg : Good e σ) (ts : List (List (List Nat × Req)))
    (hs : ∀ rs ∈ ts, ∀ r ∈ rs, r.2.Safe e σ r.1) {c : CMem × List (Act (List (Ans α)))}
    (hc : Reach (σ, ts.map (thread e)) c) :
    c.1 = σ ∧ ¬ Race c ∧ ∀ (i : Nat) (a : List (Ans α)), c.2[i]? = some (.ret a) → ∃ rs, ts[i]? = some rs ∧ a = answers e rs := by
  obtain ⟨h1, h2, h3⟩ := quiet_threads (rs := ts.map (answers e)) (by
    rw [List.map_map, List.map_map]
    exact List.map_congr_left fun rs hr => thread_quiet hg rs (hs rs hr)) hc
  refine ⟨h1, h3, fun i a ha => ?_⟩
  have := congrArg (fun l => l[i]?) h2
  simp only [List.getElem?_map, ha, Option.map_some, Act.quiet] at this
  cases hi : ts[i]? with
  | none => rw [hi] at this; simp at this
  | some rs => rw [hi] at this; simp at this; exact ⟨rs, rfl, this⟩

/-! ## A thread that is alone -/

theorem CMem.upd_same (σ : CMem) (l : CLoc) (v : CVal) : σ.upd l v l = v := by simp [CMem.upd]

theorem CMem.upd_other (σ : CMem) {l l' : CLoc} (v : CVal) (h : l' ≠ l) : σ.upd l v l' = σ l' := by simp [CMem.upd, h]

theorem CMem.upd_id {σ : CMem} {l : CLoc} {v : CVal} (h : σ l = v) : σ.upd l v = σ := by
  funext x; unfold CMem.upd; split
  · next hx => rw [hx, h]
  · rfl

theorem CMem.upd_upd (σ : CMem) (l : CLoc) (v w : CVal) : (σ.upd l v).upd l w = σ.upd l w := by
  funext x; unfold CMem.upd; split <;> rfl

/-- What is known stays known. -/
def Grow (σ σ' : CMem) : Prop := ∀ q, ((σ (q, .shapeReady)).getFlag = true → (σ' (q, .shapeReady)).getFlag = true) ∧
  ((σ (q, .stridesReady)).getFlag = true → (σ' (q, .stridesReady)).getFlag = true)

theorem Grow.rfl' (σ : CMem) : Grow σ σ := fun _ => ⟨id, id⟩

theorem Grow.trans' {a b c : CMem} (h : Grow a b) (g : Grow b c) : Grow a c :=
  fun q => ⟨fun x => (g q).1 ((h q).1 x), fun x => (g q).2 ((h q).2 x)⟩

/-- Alone, the thread leaves a memory that agrees with the expression, forgets nothing and ends as `P` says. -/
def Ok (e : TExpr α) (σ : CMem) (m : Act ρ) (P : CMem → ρ → Prop) : Prop :=
  Good e (m.alone σ).1 ∧ Grow σ (m.alone σ).1 ∧ P (m.alone σ).1 (m.alone σ).2

theorem Ok.bind' {e : TExpr α} {σ : CMem} {m : Act ρ} {f : ρ → Act τ} {P : CMem → ρ → Prop} {Q : CMem → τ → Prop} (h : Ok e σ m P)
    (hf : ∀ σ' r, Good e σ' → Grow σ σ' → P σ' r → Ok e σ' (f r) Q) : Ok e σ (m.bind f) Q := by
  obtain ⟨h1, h2, h3⟩ := h
  obtain ⟨g1, g2, g3⟩ := hf _ _ h1 h2 h3
  unfold Ok
  rw [Act.alone_bind]
  exact ⟨g1, h2.trans' g2, g3⟩

theorem Ok.ret' {e : TExpr α} {σ : CMem} (hg : Good e σ) {P : CMem → ρ → Prop} {r : ρ} (h : P σ r) : Ok e σ (.ret r) P :=
  ⟨hg, Grow.rfl' σ, h⟩

theorem Ok.rd' {e : TExpr α} {σ : CMem} {l : CLoc} {k : CVal → Act ρ} {P : CMem → ρ → Prop} (h : Ok e σ (k (σ l)) P) :
    Ok e σ (.rd l k) P := h

theorem Ok.quiet' {e : TExpr α} {σ : CMem} (hg : Good e σ) {m : Act ρ} {r : ρ} (h : m.quiet σ = some r) :
    Ok e σ m fun σ' x => σ' = σ ∧ x = r := by
  unfold Ok; rw [Act.alone_of_quiet h]; exact ⟨hg, Grow.rfl' σ, rfl, rfl⟩

/-- The rest of the memory is as before. -/
theorem good_at {e : TExpr α} {σ σ' : CMem} (hg : Good e σ) {q : List Nat} {n : TExpr α} (hn : e.sub q = some n)
    (ho : ∀ l : CLoc, l.1 ≠ q → σ' l = σ l) (h : NodeOk σ' q n) : Good e σ' := by
  intro q' n' h'
  by_cases hq : q' = q
  · subst hq
    rw [hn] at h'
    cases h'
    exact h
  · have := hg q' n' h'
    cases n' with
    | var => trivial
    | scalar => trivial
    | view s st bk off el fl =>
      simp only [NodeOk] at this ⊢
      rw [ho (q', .stridesReady) hq, ho (q', .strides) hq, ho (q', .backstrides) hq, ho (q', .offset) hq]
      exact this
    | fn f args =>
      simp only [NodeOk] at this ⊢
      rw [ho (q', .shapeReady) hq, ho (q', .shape) hq, ho (q', .trivial) hq]
      exact this

theorem fillStrides_alone (q : List Nat) (st bk : List Int) (is : List Nat) (σ : CMem) (s b : List Int)
    (hs : σ (q, .strides) = .ints s) (hb : σ (q, .backstrides) = .ints b) :
    ((fillStrides q st bk is).alone σ).1 =
      (σ.upd (q, .strides) (.ints (is.foldl (fun s i => s.set i (st.getD i 0)) s))).upd (q, .backstrides)
        (.ints (is.foldl (fun b i => b.set i (bk.getD i 0)) b)) := by
  induction is generalizing σ s b with
  | nil =>
    simp only [fillStrides, Act.alone, List.foldl_nil]
    rw [CMem.upd_id hs, CMem.upd_id hb]
  | cons i is ih =>
    simp only [fillStrides, Act.alone, List.foldl_cons]
    rw [hs, CMem.upd_other _ _ (show ((q, CField.backstrides) : CLoc) ≠ (q, .strides) by simp), hb]
    simp only [CVal.getInts]
    rw [ih _ (s.set i (st.getD i 0)) (b.set i (bk.getD i 0))
      (by rw [CMem.upd_other _ _ (show ((q, CField.strides) : CLoc) ≠ (q, .backstrides) by simp), CMem.upd_same])
      (by rw [CMem.upd_same])]
    funext x
    simp only [CMem.upd]
    by_cases h1 : x = (q, CField.backstrides)
    · simp [h1]
    · by_cases h2 : x = (q, CField.strides) <;> simp [h1, h2]

theorem foldl_set_range (st : List Int) (n : Nat) (s : List Int) (hs : s.length = st.length) (hn : n ≤ st.length) :
    (List.range n).foldl (fun s i => s.set i (st.getD i 0)) s = st.take n ++ s.drop n := by
  induction n with
  | zero => simp
  | succ n ih =>
    rw [List.range_succ, List.foldl_append, ih (by omega)]
    simp only [List.foldl_cons, List.foldl_nil]
    have h1 : (st.take n).length = n := by simp; omega
    rw [List.set_append_right _ _ (by omega), h1, Nat.sub_self]
    have h2 : s.drop n = s[n]'(by omega) :: s.drop (n + 1) := by rw [List.drop_eq_getElem_cons]
    have h3 : st.take (n + 1) = st.take n ++ [st[n]'(by omega)] := List.take_succ_eq_append_getElem (by omega)
    have h4 : st.getD n 0 = st[n]'(by omega) := by
      simp [List.getD_eq_getElem?_getD, List.getElem?_eq_getElem (show n < st.length by omega)]
    rw [h2, List.set_cons_zero, h3, h4, List.append_assoc]
    rfl

/-- The views have as many strides as backstrides. -/
def TExpr.Wf (e : TExpr α) : Prop := ∀ q s st bk off el fl, e.sub q = some (.view s st bk off el fl) → bk.length = st.length

theorem ensureStrides_ok {e : TExpr α} {σ : CMem} (hw : e.Wf) (hg : Good e σ) {q : List Nat} {s st bk off el fl}
    (hn : e.sub q = some (.view s st bk off el fl)) :
    Ok e σ (ensureStrides q st bk off) fun σ' _ => (σ' (q, .stridesReady)).getFlag = true := by
  by_cases hf : (σ (q, .stridesReady)).getFlag = true
  · have hq : (ensureStrides q st bk off).quiet σ = some () := by rw [ensureStrides_quiet, if_pos hf]
    unfold Ok; rw [Act.alone_of_quiet hq]
    exact ⟨hg, Grow.rfl' σ, hf⟩
  · have hal : ((ensureStrides q st bk off).alone σ).1 =
        ((((σ.upd (q, .strides) (.ints st)).upd (q, .backstrides) (.ints bk)).upd (q, .offset) (.pos off)).upd (q, .stridesReady)
          (.flag true)) := by
      have hl := hw q s st bk off el fl hn
      simp only [ensureStrides, Act.alone]
      rw [if_neg hf]
      simp only [Act.alone, Act.alone_bind]
      rw [fillStrides_alone q st bk _ _ (List.replicate st.length 0) (List.replicate bk.length 0)
        (by rw [CMem.upd_other _ _ (show ((q, CField.strides) : CLoc) ≠ (q, .backstrides) by simp), CMem.upd_same])
        (by rw [CMem.upd_same])]
      rw [foldl_set_range st st.length _ (by simp) (le_refl _), ← hl, foldl_set_range bk bk.length _ (by simp) (le_refl _)]
      simp only [List.take_length, hl]
      rw [show List.drop st.length (List.replicate st.length (0 : Int)) = [] by simp]
      simp only [List.append_nil, List.take_of_length_le (Nat.le_of_eq hl)]
      funext x
      simp only [CMem.upd]
      repeat' split
      all_goals rfl
    unfold Ok
    rw [hal]
    refine ⟨good_at hg hn (fun l hl => ?_) ?_, fun q' => ⟨fun h => ?_, fun h => ?_⟩, ?_⟩
    · have : ∀ f : CField, l ≠ (q, f) := fun f h => hl (by rw [h])
      simp [CMem.upd, this]
    · simp [NodeOk, CMem.upd]
    · simpa [CMem.upd] using h
    · by_cases hq : q' = q
      · simp [CMem.upd, hq, CVal.getFlag]
      · simpa [CMem.upd, hq] using h
    · simp [CMem.upd, CVal.getFlag]

mutual
theorem broadcastInto_alone (root : List Nat) : ∀ (n : TExpr α) (σ : CMem) (out : List Nat), σ (root, .shape) = .nats out →
    (∀ o t, n.sh.bc out = some (o, t) → (n.broadcastInto root).alone σ = (σ.upd (root, .shape) (.nats o), some t)) ∧
    (n.sh.bc out = none → ((n.broadcastInto root).alone σ).2 = none ∧
      ∀ l : CLoc, l ≠ (root, .shape) → ((n.broadcastInto root).alone σ).1 l = σ l)
  | .var s st el fl, σ, out, h => by
    simp only [TExpr.sh, ShExpr.bc, TExpr.broadcastInto, Act.alone, h, CVal.getNats]
    cases hb : broadcastShape s out with
    | none => simp [Act.alone]
    | some r => obtain ⟨o, t⟩ := r; simp [Act.alone]
  | .scalar x, σ, out, h => by
    simp [TExpr.sh, ShExpr.bc, TExpr.broadcastInto, Act.alone, CMem.upd_id h]
  | .view s st bk off el fl, σ, out, h => by
    simp only [TExpr.sh, ShExpr.bc, TExpr.broadcastInto, Act.alone, h, CVal.getNats]
    cases hb : broadcastShape s out with
    | none => simp [Act.alone]
    | some r => obtain ⟨o, t⟩ := r; simp [Act.alone]
  | .fn f args, σ, out, h => by
    simp only [TExpr.sh, ShExpr.bc, TExpr.broadcastInto]
    exact broadcastsInto_alone root args σ out true h
theorem broadcastsInto_alone (root : List Nat) : ∀ (es : List (TExpr α)) (σ : CMem) (out : List Nat) (b : Bool),
    σ (root, .shape) = .nats out →
    (∀ o t, ShExpr.bcs (TExpr.shs es) out b = some (o, t) →
      (TExpr.broadcastsInto root es b).alone σ = (σ.upd (root, .shape) (.nats o), some t)) ∧
    (ShExpr.bcs (TExpr.shs es) out b = none → ((TExpr.broadcastsInto root es b).alone σ).2 = none ∧
      ∀ l : CLoc, l ≠ (root, .shape) → ((TExpr.broadcastsInto root es b).alone σ).1 l = σ l)
  | [], σ, out, b, h => by
    simp only [TExpr.shs, ShExpr.bcs, TExpr.broadcastsInto, Act.alone]
    refine ⟨fun o t ho => ?_, fun ho => by simp at ho⟩
    simp only [Option.some.injEq, Prod.mk.injEq] at ho
    rw [← ho.1, ← ho.2, CMem.upd_id h]
  | a :: es, σ, out, b, h => by
    obtain ⟨h1, h2⟩ := broadcastInto_alone root a σ out h
    simp only [TExpr.shs, ShExpr.bcs, TExpr.broadcastsInto, Act.alone_bind]
    cases hb : a.sh.bc out with
    | none =>
      obtain ⟨h3, h4⟩ := h2 hb
      refine ⟨fun o t ho => by simp at ho, fun _ => ?_⟩
      rw [h3]
      exact ⟨rfl, h4⟩
    | some r =>
      obtain ⟨o, t⟩ := r
      rw [h1 o t hb]
      obtain ⟨g1, g2⟩ := broadcastsInto_alone root es (σ.upd (root, .shape) (.nats o)) o (t && b) (CMem.upd_same _ _ _)
      refine ⟨fun o' t' ho => ?_, fun ho => ?_⟩
      · simp only
        rw [g1 o' t' ho, CMem.upd_upd]
      · obtain ⟨g3, g4⟩ := g2 ho
        exact ⟨g3, fun l hl => by simp only; rw [g4 l hl, CMem.upd_other _ _ hl]⟩
end

theorem ensureShape_ok {e : TExpr α} {σ : CMem} (hg : Good e σ) {q : List Nat} {f : List α → α} {args : List (TExpr α)}
    (hn : e.sub q = some (.fn f args)) :
    Ok e σ (ensureShape args q) fun σ' ok => ok = (TExpr.fn f args).sh.shape.isSome ∧
      (ok = true → (σ' (q, .shapeReady)).getFlag = true) := by
  by_cases hf : (σ (q, .shapeReady)).getFlag = true
  · have hq : (ensureShape args q).quiet σ = some true := by simp [ensureShape, Act.quiet, hf]
    obtain ⟨r, h1, -⟩ := hg q _ hn hf
    unfold Ok; rw [Act.alone_of_quiet hq]
    exact ⟨hg, Grow.rfl' σ, by simp [h1], fun _ => hf⟩
  · have hd := Act.alone_of_quiet (dimensions_quiet hg args q 0 (kids_of hn))
    have hsh : (TExpr.fn f args).sh.shape = ShExpr.bcs (TExpr.shs args) (uninitializedShape (ShExpr.dims (TExpr.shs args))) true := rfl
    obtain ⟨b1, b2⟩ := broadcastsInto_alone q args
      (σ.upd (q, .shape) (.nats (uninitializedShape (ShExpr.dims (TExpr.shs args))))) _ true (CMem.upd_same _ _ _)
    unfold Ok
    simp only [ensureShape, Act.alone]
    rw [if_neg hf]
    simp only [Act.alone_bind, hd, Act.alone]
    cases hb : ShExpr.bcs (TExpr.shs args) (uninitializedShape (ShExpr.dims (TExpr.shs args))) true with
    | none =>
      obtain ⟨b3, b4⟩ := b2 hb
      rw [b3]
      simp only [Act.alone]
      have hready : (((TExpr.broadcastsInto q args true).alone
          (σ.upd (q, .shape) (.nats (uninitializedShape (ShExpr.dims (TExpr.shs args)))))).1 (q, .shapeReady)) = σ (q, .shapeReady) := by
        rw [b4 _ (by simp), CMem.upd_other _ _ (by simp)]
      refine ⟨good_at hg hn (fun l hl => ?_) ?_, fun q' => ⟨fun h => ?_, fun h => ?_⟩, by rw [hsh, hb]; rfl, by simp⟩
      · have : ∀ f : CField, l ≠ (q, f) := fun f h => hl (by rw [h])
        rw [b4 l (this _), CMem.upd_other _ _ (this _)]
      · intro h; rw [hready] at h; exact absurd h hf
      · rw [b4 _ (by simp), CMem.upd_other _ _ (by simp)]; exact h
      · rw [b4 _ (by simp), CMem.upd_other _ _ (by simp)]; exact h
    | some r =>
      obtain ⟨o, t⟩ := r
      rw [b1 o t hb]
      simp only [Act.alone, CMem.upd_upd]
      refine ⟨good_at hg hn (fun l hl => ?_) ?_, fun q' => ⟨fun h => ?_, fun h => ?_⟩, by rw [hsh, hb]; rfl, fun _ => ?_⟩
      · have : ∀ f : CField, l ≠ (q, f) := fun f h => hl (by rw [h])
        simp [CMem.upd, this]
      · intro _
        exact ⟨(o, t), by rw [hsh, hb], by simp [CMem.upd], by simp [CMem.upd]⟩
      · by_cases hq : q' = q
        · simp [CMem.upd, hq, CVal.getFlag]
        · simpa [CMem.upd, hq] using h
      · simpa [CMem.upd] using h
      · simp [CMem.upd, CVal.getFlag]

mutual
theorem dataElement_ok {e : TExpr α} (hw : e.Wf) (i : Nat) : ∀ (n : TExpr α) (q : List Nat), e.sub q = some n →
    ∀ σ, Good e σ → Ok e σ (n.dataElement q i) fun _ x => x = dataAt n i
  | .var .., _, _, _, hg => Ok.ret' hg rfl
  | .scalar _, _, _, _, hg => Ok.ret' hg rfl
  | .view s st bk off el fl, q, h, σ, hg => by
    refine (ensureStrides_ok hw hg h).bind' fun σ' _ hg' _ hf => Ok.rd' (Ok.ret' hg' ?_)
    rw [(hg' q _ h hf).2.2]
    rfl
  | .fn f args, q, h, σ, hg =>
    (dataElements_ok hw i args q 0 (kids_of h) σ hg).bind' fun σ' r hg' _ hr => Ok.ret' hg' (by rw [hr]; rfl)
theorem dataElements_ok {e : TExpr α} (hw : e.Wf) (i : Nat) : ∀ (es : List (TExpr α)) (q : List Nat) (k : Nat), Kids e q k es →
    ∀ σ, Good e σ → Ok e σ (TExpr.dataElements es q k i) fun _ x => x = dataAts es i
  | [], _, _, _, _, hg => Ok.ret' hg rfl
  | a :: es, q, k, h, σ, hg =>
    (dataElement_ok hw i a _ h.head σ hg).bind' fun σ' x hg' _ hx =>
      (dataElements_ok hw i es q (k + 1) h.tail σ' hg').bind' fun σ'' xs hg'' _ hxs => Ok.ret' hg'' (by rw [hx, hxs]; rfl)
end

mutual
theorem stepElement_ok {e : TExpr α} (hw : e.Wf) (i : List Nat) : ∀ (n : TExpr α) (q : List Nat), e.sub q = some n →
    ∀ σ, Good e σ → Ok e σ (n.stepElement q i) fun _ x => x = stepAt n i
  | .var .., _, _, _, hg => Ok.ret' hg rfl
  | .scalar _, _, _, _, hg => Ok.ret' hg rfl
  | .view s st bk off el fl, q, h, σ, hg => by
    refine (ensureStrides_ok hw hg h).bind' fun σ' _ hg' _ hf => Ok.rd' ?_
    refine (ensureStrides_ok hw hg' h).bind' fun σ'' _ hg'' _ hf' => Ok.rd' (Ok.ret' hg'' ?_)
    rw [(hg' q _ h hf).2.2, (hg'' q _ h hf').1]
    rfl
  | .fn f args, q, h, σ, hg =>
    (stepElements_ok hw i args q 0 (kids_of h) σ hg).bind' fun σ' r hg' _ hr => Ok.ret' hg' (by rw [hr]; rfl)
theorem stepElements_ok {e : TExpr α} (hw : e.Wf) (i : List Nat) : ∀ (es : List (TExpr α)) (q : List Nat) (k : Nat), Kids e q k es →
    ∀ σ, Good e σ → Ok e σ (TExpr.stepElements es q k i) fun _ x => x = stepAts es i
  | [], _, _, _, _, hg => Ok.ret' hg rfl
  | a :: es, q, k, h, σ, hg =>
    (stepElement_ok hw i a _ h.head σ hg).bind' fun σ' x hg' _ hx =>
      (stepElements_ok hw i es q (k + 1) h.tail σ' hg').bind' fun σ'' xs hg'' _ hxs => Ok.ret' hg'' (by rw [hx, hxs]; rfl)
end

mutual
theorem hasLinear_ok {e : TExpr α} (hw : e.Wf) (str : List Int) : ∀ (n : TExpr α) (q : List Nat), e.sub q = some n →
    ∀ σ, Good e σ → Ok e σ (n.hasLinear str q) fun σ' t => t = linearIn str n ∧
      (t = true → ∀ x s st bk off el fl, n.sub x = some (.view s st bk off el fl) → (σ' (q ++ x, .stridesReady)).getFlag = true)
  | .var .., _, _, _, hg => Ok.ret' hg ⟨rfl, fun _ x _ _ _ _ _ _ hx => by cases x <;> simp [TExpr.sub] at hx⟩
  | .scalar _, _, _, _, hg => Ok.ret' hg ⟨rfl, fun _ x _ _ _ _ _ _ hx => by cases x <;> simp [TExpr.sub] at hx⟩
  | .view s st bk off el fl, q, h, σ, hg => by
    refine (ensureStrides_ok hw hg h).bind' fun σ' _ hg' _ hf => Ok.rd' (Ok.ret' hg' ⟨?_, fun _ x _ _ _ _ _ _ hx => ?_⟩)
    · rw [(hg' q _ h hf).1]; rfl
    · cases x with
      | nil => simpa using hf
      | cons k x => simp [TExpr.sub] at hx
  | .fn f args, q, h, σ, hg => by
    obtain ⟨h1, h2, h3, h4⟩ := hasLinears_ok hw str args q 0 true (kids_of h) σ hg
    refine ⟨h1, h2, by simpa [linearIn, TExpr.hasLinear] using h3, fun ht x s st bk off el fl hx => ?_⟩
    cases x with
    | nil => simp [TExpr.sub] at hx
    | cons k x =>
      simp only [TExpr.sub] at hx
      cases ha : args[k]? with
      | none => rw [ha] at hx; simp at hx
      | some a =>
        rw [ha] at hx
        have := h4 ht k a x s st bk off el fl ha hx
        simpa [TExpr.hasLinear] using this
theorem hasLinears_ok {e : TExpr α} (hw : e.Wf) (str : List Int) : ∀ (es : List (TExpr α)) (q : List Nat) (k : Nat) (b : Bool),
    Kids e q k es → ∀ σ, Good e σ → Ok e σ (TExpr.hasLinears str es q k b) fun σ' t => t = (b && linearsIn str es) ∧
      (t = true → ∀ j a x s st bk off el fl, es[j]? = some a → a.sub x = some (.view s st bk off el fl) →
        (σ' (q ++ [k + j] ++ x, .stridesReady)).getFlag = true)
  | [], _, _, b, _, _, hg => Ok.ret' hg ⟨by simp [linearsIn], fun _ j a x _ _ _ _ _ _ hj => by simp at hj⟩
  | a :: es, q, k, false, h, σ, hg => by
    obtain ⟨h1, h2, h3, -⟩ := hasLinears_ok hw str es q (k + 1) false h.tail σ hg
    refine ⟨?_, ?_, ?_, ?_⟩
    · simpa [TExpr.hasLinears] using h1
    · simpa [TExpr.hasLinears] using h2
    · simpa [TExpr.hasLinears] using h3
    · intro ht
      have : (TExpr.hasLinears str (a :: es) q k false) = TExpr.hasLinears str es q (k + 1) false := by simp [TExpr.hasLinears]
      rw [this, h3] at ht
      simp at ht
  | a :: es, q, k, true, h, σ, hg => by
    have : (TExpr.hasLinears str (a :: es) q k true) =
        (TExpr.hasLinear str a (q ++ [k])).bind fun t => TExpr.hasLinears str es q (k + 1) t := by simp [TExpr.hasLinears]
    rw [this]
    refine (hasLinear_ok hw str a _ h.head σ hg).bind' fun σ' t hg' _ ht => ?_
    obtain ⟨h1, h2, h3, h4⟩ := hasLinears_ok hw str es q (k + 1) t h.tail σ' hg'
    refine ⟨h1, h2, by rw [h3, ht.1]; simp [linearsIn], fun hr j b x s st bk off el fl hj hx => ?_⟩
    cases j with
    | zero =>
      simp only [List.getElem?_cons_zero, Option.some.injEq] at hj
      subst hj
      rw [h3, Bool.and_eq_true] at hr
      exact (h2 _).2 (ht.2 hr.1 x s st bk off el fl hx)
    | succ j =>
      have := h4 hr j b x s st bk off el fl (by simpa using hj) hx
      rwa [Nat.add_assoc, Nat.add_comm 1 j] at this
end

theorem actAll_ok {e : TExpr α} {β : Type} {f : β → Act ρ} {g : β → ρ} (bs : List β)
    (h : ∀ b σ, Good e σ → Ok e σ (f b) fun _ x => x = g b) (σ : CMem) (hg : Good e σ) :
    Ok e σ (Act.all f bs) fun _ xs => xs = bs.map g := by
  induction bs generalizing σ with
  | nil => exact Ok.ret' hg rfl
  | cons b bs ih =>
    exact (h b σ hg).bind' fun σ' x hg' _ hx => (ih σ' hg').bind' fun σ'' xs hg'' _ hxs => Ok.ret' hg'' (by rw [hx, hxs]; rfl)

theorem assign_ok {e : TExpr α} {σ : CMem} (hw : e.Wf) (hg : Good e σ) (st : Bool) (L : Layout) (n : TExpr α) (q : List Nat)
    (h : e.sub q = some n) : Ok e σ (n.assign st L q) fun _ x => x = assigned st L n := by
  refine (Ok.quiet' hg (resizeShape_quiet hg n q h)).bind' fun σ' r hg' _ hr => ?_
  rw [hr.2]
  unfold assigned
  cases hs : n.sh.shape with
  | none => exact Ok.ret' hg' rfl
  | some r =>
    obtain ⟨s, t⟩ := r
    simp only [Option.map_some]
    have hl : Ok e σ' (if t then if st then Act.ret true else n.hasLinear (computeStrides L L s).1 q else .ret false) fun _ x =>
        x = (t && (st || linearIn (computeStrides L L s).1 n)) := by
      cases t with
      | false => exact Ok.ret' hg' rfl
      | true =>
        cases st with
        | true => exact Ok.ret' hg' rfl
        | false =>
          obtain ⟨h1, h2, h3, -⟩ := hasLinear_ok hw (computeStrides L L s).1 n q h σ' hg'
          exact ⟨h1, h2, by simpa using h3⟩
    refine hl.bind' fun σ'' x hg'' _ hx => ?_
    rw [hx]
    split
    · exact (actAll_ok (g := dataAt n) _ (fun i σ hg => dataElement_ok hw i n q h σ hg) σ'' hg'').bind' fun _ xs hg3 _ hxs =>
        Ok.ret' hg3 (by rw [hxs])
    · exact (actAll_ok (g := stepAt n) _ (fun i σ hg => stepElement_ok hw i n q h σ hg) σ'' hg'').bind' fun _ xs hg3 _ hxs =>
        Ok.ret' hg3 (by rw [hxs])

/-- The request has been made: what it computes is known. -/
def Req.Done (e : TExpr α) (σ : CMem) (q : List Nat) : Req → Prop
  | .shape => ∀ f args, e.sub q = some (.fn f args) → (TExpr.fn f args).sh.shape ≠ none → (σ (q, .shapeReady)).getFlag = true
  | .strides => ∀ s st bk off el fl, e.sub q = some (.view s st bk off el fl) → (σ (q, .stridesReady)).getFlag = true
  | _ => True

theorem req_ok {e : TExpr α} {σ : CMem} (hw : e.Wf) (hg : Good e σ) (n : TExpr α) (q : List Nat) (h : e.sub q = some n) (r : Req) :
    Ok e σ (r.run n q) fun σ' a => a = answer n r ∧ r.Done e σ' q := by
  cases r with
  | dimension =>
    exact (Ok.quiet' hg (dimension_quiet hg n q h)).bind' fun σ' d hg' _ hd => Ok.ret' hg' ⟨by rw [hd.2]; rfl, trivial⟩
  | shape =>
    cases n with
    | var s st el fl =>
      exact Ok.ret' hg ⟨by simp [answer, TExpr.sh, leaf_shape], fun f args hx => by rw [h] at hx; simp at hx⟩
    | scalar x => exact Ok.ret' hg ⟨rfl, fun f args hx => by rw [h] at hx; simp at hx⟩
    | view s st bk off el fl =>
      exact Ok.ret' hg ⟨by simp [answer, TExpr.sh, leaf_shape], fun f args hx => by rw [h] at hx; simp at hx⟩
    | fn f args =>
      simp only [Req.run, TExpr.readShape]
      rw [Act.bind_assoc]
      refine (ensureShape_ok hg h).bind' fun σ' ok hg' _ hok => ?_
      cases ok with
      | true =>
        have hf := hok.2 rfl
        obtain ⟨r, h1, h2, -⟩ := hg' q _ h hf
        refine Ok.rd' (Ok.ret' hg' ⟨?_, fun _ _ _ _ => hf⟩)
        rw [h2]
        simp [answer, h1, CVal.getNats]
      | false =>
        have hn : (TExpr.fn f args).sh.shape = none := by
          cases hs : (TExpr.fn f args).sh.shape with
          | none => rfl
          | some r => rw [hs] at hok; simp at hok
        refine Ok.ret' hg' ⟨by simp [answer, hn], fun f' args' hx hne => ?_⟩
        rw [h] at hx
        simp only [Option.some.injEq, TExpr.fn.injEq] at hx
        rw [← hx.1, ← hx.2] at hne
        exact absurd hn hne
  | strides =>
    cases n with
    | var s st el fl => exact Ok.ret' hg ⟨rfl, fun _ _ _ _ _ _ hx => by rw [h] at hx; simp at hx⟩
    | scalar x => exact Ok.ret' hg ⟨rfl, fun _ _ _ _ _ _ hx => by rw [h] at hx; simp at hx⟩
    | view s st bk off el fl =>
      simp only [Req.run, TExpr.readStrides]
      rw [Act.bind_assoc]
      refine (ensureStrides_ok hw hg h).bind' fun σ' _ hg' _ hf => Ok.rd' (Ok.ret' hg' ⟨?_, fun _ _ _ _ _ _ _ => hf⟩)
      rw [(hg' q _ h hf).1]
      rfl
    | fn f args => exact Ok.ret' hg ⟨rfl, fun _ _ _ _ _ _ hx => by rw [h] at hx; simp at hx⟩
  | call idx => exact Ok.ret' hg ⟨rfl, trivial⟩
  | loop is =>
    exact (actAll_ok (g := dataAt n) _ (fun i σ hg => dataElement_ok hw i n q h σ hg) σ hg).bind' fun _ xs hg' _ hxs =>
      Ok.ret' hg' ⟨by rw [hxs]; rfl, trivial⟩
  | assign st L =>
    exact (assign_ok hw hg st L n q h).bind' fun _ r hg' _ hr => Ok.ret' hg' ⟨by rw [hr]; rfl, trivial⟩

theorem Req.Done.grow {e : TExpr α} {σ σ' : CMem} {q : List Nat} {r : Req} (h : r.Done e σ q) (g : Grow σ σ') : r.Done e σ' q := by
  cases r with
  | shape => exact fun f args hx hn => (g q).1 (h f args hx hn)
  | strides => exact fun s st bk off el fl hx => (g q).2 (h s st bk off el fl hx)
  | _ => trivial

theorem thread_ok {e : TExpr α} (hw : e.Wf) (rs : List (List Nat × Req)) (σ : CMem) (hg : Good e σ) :
    Ok e σ (thread e rs) fun σ' as => as = answers e rs ∧ ∀ r ∈ rs, r.2.Done e σ' r.1 := by
  induction rs generalizing σ with
  | nil => exact Ok.ret' hg ⟨rfl, by simp⟩
  | cons r rs ih =>
    obtain ⟨p, r⟩ := r
    simp only [thread, answers, List.filterMap_cons]
    cases h : e.sub p with
    | none =>
      obtain ⟨h1, h2, h3, h4⟩ := ih σ hg
      refine ⟨h1, h2, h3, fun x hx => ?_⟩
      rcases List.mem_cons.1 hx with rfl | hx
      · cases r with
        | shape => intro f args hq; rw [h] at hq; simp at hq
        | strides => intro s st bk off el fl hq; rw [h] at hq; simp at hq
        | _ => trivial
      · exact h4 x hx
    | some n =>
      refine (req_ok hw hg n p h r).bind' fun σ' a hg' _ ha => ?_
      refine (ih σ' hg').bind' fun σ'' as hg'' hgr has => Ok.ret' hg'' ⟨by rw [ha.1, has.1]; rfl, fun x hx => ?_⟩
      rcases List.mem_cons.1 hx with rfl | hx
      · exact ha.2.grow hgr
      · exact has.2 x hx

/-- A thread that is alone gets the answers without caches, whatever has been asked before. -/
theorem C99_alone {e : TExpr α} {σ : CMem} (hw : e.Wf) (hg : Good e σ) (rs : List (List Nat × Req)) :
    ((thread e rs).alone σ).2 = answers e rs ∧ Good e ((thread e rs).alone σ).1 :=
  ⟨(thread_ok hw rs σ hg).2.2.1, (thread_ok hw rs σ hg).1⟩

/-- The members of an expression that was just made agree with it. -/
theorem good_initial (e : TExpr α) (known : List Nat → Bool) : Good e (e.initial known) := by
  intro q n h
  cases n with
  | var => trivial
  | scalar => trivial
  | view s st bk off el fl =>
    intro hf
    simp only [TExpr.initial, h, CVal.getFlag] at hf ⊢
    simp [hf]
  | fn f args =>
    intro hf
    simp [TExpr.initial, h, CVal.getFlag] at hf

/-- Once one thread has asked every function for its shape and every view for its strides, any number of threads may use the
expression: no race, and the answers without caches. -/
theorem C99_warm (e : TExpr α) (hw : e.Wf) (known : List Nat → Bool) (rs : List (List Nat × Req))
    (hf : ∀ q f args, e.sub q = some (.fn f args) → (TExpr.fn f args).sh.shape ≠ none ∧ (q, Req.shape) ∈ rs)
    (hv : ∀ q s st bk off el fl, e.sub q = some (.view s st bk off el fl) → (q, Req.strides) ∈ rs)
    (ts : List (List (List Nat × Req))) {c : CMem × List (Act (List (Ans α)))}
    (hc : Reach (((thread e rs).alone (e.initial known)).1, ts.map (thread e)) c) :
    ¬ Race c ∧ ∀ (i : Nat) (a : List (Ans α)), c.2[i]? = some (.ret a) → ∃ rs, ts[i]? = some rs ∧ a = answers e rs := by
  obtain ⟨h1, -, -, h4⟩ := thread_ok hw rs _ (good_initial e known)
  have hvr : ∀ q, ViewsReady e ((thread e rs).alone (e.initial known)).1 q := fun q x s st bk off el fl hx =>
    h4 _ (hv _ s st bk off el fl hx) s st bk off el fl hx
  refine (C99_threads h1 ts (fun us _ r _ => ?_) hc).2
  obtain ⟨q, r⟩ := r
  cases r with
  | shape => exact fun f args hx => h4 _ (hf q f args hx).2 f args hx (hf q f args hx).1
  | strides => exact fun s st bk off el fl hx => h4 _ (hv q s st bk off el fl hx) s st bk off el fl hx
  | loop is => exact fun _ => hvr q
  | assign st L => exact hvr q
  | dimension => trivial
  | call idx => trivial

theorem workers_ready {e : TExpr α} {σ : CMem} {q : List Nat} {n : TExpr α} (hn : e.sub q = some n) (hg : Good e σ)
    (hvr : ViewsReady e σ q) (shares : List (List Nat)) {c : CMem × List (Act (List (Ans α)))}
    (hc : Reach (σ, shares.map fun is => thread e [(q, .loop is)]) c) :
    ¬ Race c ∧ ∀ (i : Nat) (a : List (Ans α)), c.2[i]? = some (.ret a) → ∃ is, shares[i]? = some is ∧
      a = [.vals (is.map (dataAt n))] := by
  have hmap : (shares.map fun is => thread e [(q, .loop is)]) = (shares.map fun is => [(q, Req.loop is)]).map (thread e) := by
    rw [List.map_map]; rfl
  rw [hmap] at hc
  obtain ⟨-, g2, g3⟩ := C99_threads hg (shares.map fun is => [(q, Req.loop is)]) (fun us hu r hr => by
    obtain ⟨is, -, rfl⟩ := List.mem_map.1 hu
    rw [List.mem_singleton] at hr
    subst hr
    exact fun _ => hvr) hc
  refine ⟨g2, fun i a ha => ?_⟩
  obtain ⟨rs, hr1, hr2⟩ := g3 i a ha
  rw [List.getElem?_map] at hr1
  cases hi : shares[i]? with
  | none => rw [hi] at hr1; simp at hr1
  | some is =>
    rw [hi] at hr1
    simp only [Option.map_some, Option.some.injEq] at hr1
    refine ⟨is, rfl, ?_⟩
    rw [hr2, ← hr1]
    simp [answers, hn, answer]

/-- The parallel loop after a comparison of strides that said yes: the comparison has asked every view, so the workers, whatever
their shares, do not race and read the elements. -/
theorem C99_parallel_compared {e : TExpr α} {σ : CMem} (hw : e.Wf) (hg : Good e σ) (str : List Int) (q : List Nat) (n : TExpr α)
    (hn : e.sub q = some n) (hl : ((n.hasLinear str q).alone σ).2 = true) (shares : List (List Nat))
    {c : CMem × List (Act (List (Ans α)))}
    (hc : Reach (((n.hasLinear str q).alone σ).1, shares.map fun is => thread e [(q, .loop is)]) c) :
    ¬ Race c ∧ ∀ (i : Nat) (a : List (Ans α)), c.2[i]? = some (.ret a) → ∃ is, shares[i]? = some is ∧
      a = [.vals (is.map (dataAt n))] := by
  obtain ⟨h1, -, -, h4⟩ := hasLinear_ok hw str n q hn σ hg
  refine workers_ready hn h1 (fun x s st bk off el fl hx => ?_) shares hc
  rw [TExpr.sub_append, hn] at hx
  exact h4 hl x s st bk off el fl hx

mutual
theorem dataElement_ready {e : TExpr α} (hw : e.Wf) (i : Nat) : ∀ (n : TExpr α) (q : List Nat), e.sub q = some n →
    ∀ σ, Good e σ → Ok e σ (n.dataElement q i) fun σ' _ =>
      ∀ x s st bk off el fl, n.sub x = some (.view s st bk off el fl) → (σ' (q ++ x, .stridesReady)).getFlag = true
  | .var .., _, _, _, hg => Ok.ret' hg fun x _ _ _ _ _ _ hx => by cases x <;> simp [TExpr.sub] at hx
  | .scalar _, _, _, _, hg => Ok.ret' hg fun x _ _ _ _ _ _ hx => by cases x <;> simp [TExpr.sub] at hx
  | .view s st bk off el fl, q, h, σ, hg => by
    refine (ensureStrides_ok hw hg h).bind' fun σ' _ hg' _ hf => Ok.rd' (Ok.ret' hg' fun x _ _ _ _ _ _ hx => ?_)
    cases x with
    | nil => simpa using hf
    | cons k x => simp [TExpr.sub] at hx
  | .fn f args, q, h, σ, hg => by
    refine (dataElements_ready hw i args q 0 (kids_of h) σ hg).bind' fun σ' r hg' _ hr =>
      Ok.ret' hg' fun x s st bk off el fl hx => ?_
    cases x with
    | nil => simp [TExpr.sub] at hx
    | cons k x =>
      simp only [TExpr.sub] at hx
      cases ha : args[k]? with
      | none => rw [ha] at hx; simp at hx
      | some a =>
        rw [ha] at hx
        have := hr k a x s st bk off el fl ha hx
        simpa using this
theorem dataElements_ready {e : TExpr α} (hw : e.Wf) (i : Nat) : ∀ (es : List (TExpr α)) (q : List Nat) (k : Nat), Kids e q k es →
    ∀ σ, Good e σ → Ok e σ (TExpr.dataElements es q k i) fun σ' _ =>
      ∀ j a x s st bk off el fl, es[j]? = some a → a.sub x = some (.view s st bk off el fl) →
        (σ' (q ++ [k + j] ++ x, .stridesReady)).getFlag = true
  | [], _, _, _, _, hg => Ok.ret' hg fun j a x _ _ _ _ _ _ hj => by simp at hj
  | a :: es, q, k, h, σ, hg =>
    (dataElement_ready hw i a _ h.head σ hg).bind' fun σ' _ hg' _ hx =>
      (dataElements_ready hw i es q (k + 1) h.tail σ' hg').bind' fun σ'' xs hg'' g hxs =>
        Ok.ret' hg'' fun j b x s st bk off el fl hj hs => by
          cases j with
          | zero =>
            simp only [List.getElem?_cons_zero, Option.some.injEq] at hj
            subst hj
            exact (g _).2 (hx x s st bk off el fl hs)
          | succ j =>
            have := hxs j b x s st bk off el fl (by simpa using hj) hs
            rwa [Nat.add_assoc, Nat.add_comm 1 j] at this
end

/-- The parallel loop after a serial part with at least one element (what comes before the first aligned position): the workers
do not race. -/
theorem C99_parallel_serial_part {e : TExpr α} {σ : CMem} (hw : e.Wf) (hg : Good e σ) (q : List Nat) (n : TExpr α)
    (hn : e.sub q = some n) (i : Nat) (shares : List (List Nat)) {c : CMem × List (Act (List (Ans α)))}
    (hc : Reach (((n.dataElement q i).alone σ).1, shares.map fun is => thread e [(q, .loop is)]) c) :
    ¬ Race c ∧ ∀ (i : Nat) (a : List (Ans α)), c.2[i]? = some (.ret a) → ∃ is, shares[i]? = some is ∧
      a = [.vals (is.map (dataAt n))] := by
  obtain ⟨h1, -, h4⟩ := dataElement_ready hw i n q hn σ hg
  refine workers_ready hn h1 (fun x s st bk off el fl hx => ?_) shares hc
  rw [TExpr.sub_append, hn] at hx
  exact h4 x s st bk off el fl hx

/-! ## First uses race -/

/-- The first write of the thread: where and what. -/
def FirstWrite (σ : CMem) (m : Act ρ) (l : CLoc) (v : CVal) : Prop :=
  ∃ (n : Act (Act ρ)) (k : Act ρ), m = n.bind id ∧ n.quiet σ = some (.wr l v k)

theorem FirstWrite.wr' (σ : CMem) (l : CLoc) (v : CVal) (k : Act ρ) : FirstWrite σ (.wr l v k) l v :=
  ⟨.ret (.wr l v k), k, rfl, rfl⟩

theorem FirstWrite.rd' {σ : CMem} {l l' : CLoc} {v : CVal} {k : CVal → Act ρ} (h : FirstWrite σ (k (σ l)) l' v) :
    FirstWrite σ (.rd l k) l' v := by
  obtain ⟨n, k', h1, h2⟩ := h
  refine ⟨.rd l fun x => if x = σ l then n else .ret (k x), k', ?_, ?_⟩
  · simp only [Act.bind]
    congr 1
    funext x
    by_cases hx : x = σ l
    · rw [if_pos hx, hx]; exact h1
    · rw [if_neg hx]; rfl
  · simp only [Act.quiet]; simpa using h2

theorem FirstWrite.bind' {σ : CMem} {m : Act ρ} {l : CLoc} {v : CVal} (h : FirstWrite σ m l v) (f : ρ → Act τ) :
    FirstWrite σ (m.bind f) l v := by
  obtain ⟨n, k, h1, h2⟩ := h
  refine ⟨n.bind fun a => .ret (a.bind f), k.bind f, ?_, ?_⟩
  · rw [h1, Act.bind_assoc, Act.bind_assoc]; rfl
  · rw [Act.quiet_bind, h2]; rfl

theorem FirstWrite.bind_quiet {σ : CMem} {m : Act ρ} {r : ρ} {l : CLoc} {v : CVal} {f : ρ → Act τ} (hm : m.quiet σ = some r)
    (h : FirstWrite σ (f r) l v) : FirstWrite σ (m.bind f) l v := by
  induction m with
  | ret r' => simp only [Act.quiet, Option.some.injEq] at hm; subst hm; exact h
  | rd l k ih => exact FirstWrite.rd' (k := fun v => (k v).bind f) (ih _ hm)
  | wr l v k ih => simp [Act.quiet] at hm

theorem FirstWrite.race {σ : CMem} {m m' : Act ρ} {l : CLoc} {v v' : CVal} (h : FirstWrite σ m l v) (h' : FirstWrite σ m' l v') :
    ∃ c, Reach (σ, [m, m']) c ∧ Race c := by
  obtain ⟨n, k, h1, h2⟩ := h
  obtain ⟨n', k', h1', h2'⟩ := h'
  have ha := Act.alone_of_quiet h2
  have ha' := Act.alone_of_quiet h2'
  have s1 := reach_alone n id σ [m, m'] 0 (by rw [h1]; rfl)
  rw [ha] at s1
  have s2 := reach_alone n' id σ ([m, m'].set 0 (id (.wr l v k))) 1 (by simp [h1'])
  rw [ha'] at s2
  exact ⟨_, s1.trans s2, 0, 1, .wr l v k, .wr l v' k', l, true, true, by decide, by simp, by simp, rfl, rfl, rfl⟩

theorem ensureShape_first {e : TExpr α} {σ : CMem} (hg : Good e σ) {q : List Nat} {f : List α → α} {args : List (TExpr α)}
    (hn : e.sub q = some (.fn f args)) (hf : (σ (q, .shapeReady)).getFlag = false) :
    FirstWrite σ (ensureShape args q) (q, .shape) (.nats (uninitializedShape (TExpr.fn f args).sh.dim)) := by
  unfold ensureShape
  refine FirstWrite.rd' ?_
  rw [if_neg (by simp [hf])]
  exact FirstWrite.bind_quiet (dimensions_quiet hg args q 0 (kids_of hn)) (FirstWrite.wr' _ _ _ _)

theorem ensureStrides_first {σ : CMem} {q : List Nat} (st bk : List Int) (off : Int) (hf : (σ (q, .stridesReady)).getFlag = false) :
    FirstWrite σ (ensureStrides q st bk off) (q, .strides) (.ints (List.replicate st.length 0)) := by
  unfold ensureStrides
  refine FirstWrite.rd' ?_
  rw [if_neg (by simp [hf])]
  exact FirstWrite.wr' _ _ _ _

theorem thread_shape {e : TExpr α} {q : List Nat} {f : List α → α} {args : List (TExpr α)} (hn : e.sub q = some (.fn f args)) :
    thread e [(q, .shape)] = (ensureShape args q).bind fun ok =>
      if ok then .rd (q, .shape) fun s => .ret [.shape (some s.getNats)] else .ret [.shape none] := by
  simp only [thread, hn, Req.run, TExpr.readShape, Act.bind_assoc]
  congr 1
  funext ok
  cases ok <;> rfl

/-- Two threads that both ask a function for its shape for the first time race. -/
theorem C99_first_shape_wrong {e : TExpr α} {σ : CMem} (hg : Good e σ) {q : List Nat} {f : List α → α} {args : List (TExpr α)}
    (hn : e.sub q = some (.fn f args)) (hf : (σ (q, .shapeReady)).getFlag = false) :
    ∃ c, Reach (σ, [thread e [(q, .shape)], thread e [(q, .shape)]]) c ∧ Race c := by
  rw [thread_shape hn]
  exact ((ensureShape_first hg hn hf).bind' _).race ((ensureShape_first hg hn hf).bind' _)

/-- And not only formally: one of them can read the marker 2^64 - 1 for every extent, after its own call has computed the
shape. -/
theorem C99_torn_shape_wrong {e : TExpr α} {σ : CMem} (hg : Good e σ) {q : List Nat} {f : List α → α} {args : List (TExpr α)}
    (hn : e.sub q = some (.fn f args)) (hf : (σ (q, .shapeReady)).getFlag = false) (hs : (TExpr.fn f args).sh.shape ≠ none) :
    ∃ c, Reach (σ, [thread e [(q, .shape)], thread e [(q, .shape)]]) c ∧
      c.2[0]? = some (.ret [.shape (some (List.replicate (TExpr.fn f args).sh.dim szMax))]) := by
  obtain ⟨n, k, h1, h2⟩ := (ensureShape_first hg hn hf).bind' (fun ok : Bool =>
    if ok then Act.rd (q, .shape) fun s => .ret [Ans.shape (α := α) (some s.getNats)] else .ret [Ans.shape none])
  rw [thread_shape hn]
  generalize hT : (ensureShape args q).bind (fun ok : Bool =>
    if ok then Act.rd (q, .shape) fun s => .ret [Ans.shape (α := α) (some s.getNats)] else .ret [Ans.shape none]) = T at h1 ⊢
  have ha := Act.alone_of_quiet h2
  have s1 := reach_alone n id σ [T, T] 1 (by rw [h1]; rfl)
  rw [ha] at s1
  obtain ⟨g1, g2, g3, -⟩ := ensureShape_ok hg hn
  have s2 := reach_alone (ensureShape args q) _ σ ([T, T].set 1 (id (.wr (q, .shape)
    (.nats (uninitializedShape (TExpr.fn f args).sh.dim)) k))) 0 (by rw [hT]; rfl)
  have hok : ((ensureShape args q).alone σ).2 = true := by
    rw [g3]; cases h : (TExpr.fn f args).sh.shape with
    | none => exact absurd h hs
    | some r => rfl
  rw [hok] at s2
  simp only [if_true, id] at s1 s2
  have s3 : ThStep (((ensureShape args q).alone σ).1, ([T, T].set 1 (Act.wr (q, .shape)
      (.nats (uninitializedShape (TExpr.fn f args).sh.dim)) k)).set 0
        (Act.rd (q, .shape) fun s => .ret [Ans.shape (α := α) (some s.getNats)])) _ := ThStep.wr (i := 1) rfl
  have s4 := ThStep.rd (σ := (((ensureShape args q).alone σ).1.upd (q, .shape)
      (.nats (uninitializedShape (TExpr.fn f args).sh.dim)))) (i := 0)
    (ts := ((([T, T].set 1 (Act.wr (q, .shape)
      (.nats (uninitializedShape (TExpr.fn f args).sh.dim)) k)).set 0
        (Act.rd (q, .shape) fun s => .ret [Ans.shape (α := α) (some s.getNats)])).set 1 k)) (by simp; exact ⟨rfl, rfl⟩)
  refine ⟨_, ((s1.trans s2).tail s3).tail s4, ?_⟩
  simp [CMem.upd, CVal.getNats, uninitializedShape]

theorem thread_strides {e : TExpr α} {q : List Nat} {s st bk off el fl} (hn : e.sub q = some (.view s st bk off el fl)) :
    thread e [(q, .strides)] = (ensureStrides q st bk off).bind fun _ =>
      .rd (q, .strides) fun s => .ret [.strides s.getInts] := by
  simp only [thread, hn, Req.run, TExpr.readStrides, Act.bind_assoc]
  rfl

/-- The same for the strides of a view: one thread can read zeros. -/
theorem C99_first_strides_wrong {e : TExpr α} {σ : CMem} {q : List Nat} {s st bk off el fl}
    (hn : e.sub q = some (.view s st bk off el fl)) (hf : (σ (q, .stridesReady)).getFlag = false) :
    (∃ c, Reach (σ, [thread e [(q, .strides)], thread e [(q, .strides)]]) c ∧ Race c) ∧
    ∃ c, Reach (σ, [thread e [(q, .strides)], thread e [(q, .strides)]]) c ∧
      c.2[0]? = some (.ret [.strides (List.replicate st.length 0)]) := by
  rw [thread_strides hn]
  have hfw := (ensureStrides_first st bk off hf).bind' (fun _ : Unit =>
    Act.rd (q, .strides) fun s => .ret [Ans.strides (α := α) s.getInts])
  refine ⟨hfw.race hfw, ?_⟩
  obtain ⟨n, k, h1, h2⟩ := hfw
  generalize hT : (ensureStrides q st bk off).bind (fun _ : Unit =>
    Act.rd (q, .strides) fun s => .ret [Ans.strides (α := α) s.getInts]) = T at h1 ⊢
  have ha := Act.alone_of_quiet h2
  have s1 := reach_alone n id σ [T, T] 1 (by rw [h1]; rfl)
  rw [ha] at s1
  have s2 := reach_alone (ensureStrides q st bk off) _ σ ([T, T].set 1 (id (.wr (q, .strides)
    (.ints (List.replicate st.length 0)) k))) 0 (by rw [hT]; rfl)
  simp only [id] at s1 s2
  have s3 : ThStep (((ensureStrides q st bk off).alone σ).1, ([T, T].set 1 (Act.wr (q, .strides)
      (.ints (List.replicate st.length 0)) k)).set 0
        (Act.rd (q, .strides) fun s => .ret [Ans.strides (α := α) s.getInts])) _ := ThStep.wr (i := 1) rfl
  have s4 := ThStep.rd (σ := (((ensureStrides q st bk off).alone σ).1.upd (q, .strides)
      (.ints (List.replicate st.length 0)))) (i := 0)
    (ts := ((([T, T].set 1 (Act.wr (q, .strides)
      (.ints (List.replicate st.length 0)) k)).set 0
        (Act.rd (q, .strides) fun s => .ret [Ans.strides (α := α) s.getInts])).set 1 k)) (by simp; exact ⟨rfl, rfl⟩)
  refine ⟨_, ((s1.trans s2).tail s3).tail s4, ?_⟩
  simp [CMem.upd, CVal.getInts]

mutual
theorem dataElement_first {e : TExpr α} {σ : CMem} (hg : Good e σ) : ∀ (n : TExpr α) (q : List Nat), e.sub q = some n →
    (ViewsReady e σ q) ∨ ∃ l v, ∀ i, FirstWrite σ (n.dataElement q i) l v
  | .var .., q, h => .inl fun x _ _ _ _ _ _ hx => by
      rw [TExpr.sub_append, h] at hx; cases x <;> simp [TExpr.sub] at hx
  | .scalar _, q, h => .inl fun x _ _ _ _ _ _ hx => by
      rw [TExpr.sub_append, h] at hx; cases x <;> simp [TExpr.sub] at hx
  | .view s st bk off el fl, q, h => by
    by_cases hf : (σ (q, .stridesReady)).getFlag = true
    · refine .inl fun x _ _ _ _ _ _ hx => ?_
      rw [TExpr.sub_append, h] at hx
      cases x with
      | nil => simpa using hf
      | cons k x => simp [TExpr.sub] at hx
    · exact .inr ⟨_, _, fun i => (ensureStrides_first st bk off (by simpa using hf)).bind' _⟩
  | .fn f args, q, h => by
    rcases dataElements_first hg args q 0 (kids_of h) with hr | ⟨l, v, hr⟩
    · refine .inl fun x s st bk off el fl hx => ?_
      cases x with
      | nil => rw [List.append_nil, h] at hx; simp at hx
      | cons k x =>
        have hx' := hx
        rw [TExpr.sub_append, h] at hx
        simp only [Option.bind_some, TExpr.sub] at hx
        cases ha : args[k]? with
        | none => rw [ha] at hx; simp at hx
        | some a =>
          have := hr k a ha x s st bk off el fl
          rw [Nat.zero_add, List.append_assoc] at this
          exact this hx'
    · exact .inr ⟨l, v, fun i => (hr i).bind' _⟩
theorem dataElements_first {e : TExpr α} {σ : CMem} (hg : Good e σ) : ∀ (es : List (TExpr α)) (q : List Nat) (k : Nat),
    Kids e q k es → (∀ j a, es[j]? = some a → ViewsReady e σ (q ++ [k + j])) ∨
      ∃ l v, ∀ i, FirstWrite σ (TExpr.dataElements es q k i) l v
  | [], _, _, _ => .inl fun j a hj => by simp at hj
  | a :: es, q, k, h => by
    rcases dataElement_first hg a _ h.head with hr | ⟨l, v, hr⟩
    · rcases dataElements_first hg es q (k + 1) h.tail with hs | ⟨l, v, hs⟩
      · refine .inl fun j b hj => ?_
        cases j with
        | zero => exact hr
        | succ j =>
          have := hs j b (by simpa using hj)
          rwa [Nat.add_assoc, Nat.add_comm 1 j] at this
      · exact .inr ⟨l, v, fun i => FirstWrite.bind_quiet (dataElement_quiet hg i a _ h.head hr) ((hs i).bind' _)⟩
    · exact .inr ⟨l, v, fun i => (hr i).bind' _⟩
end

/-- Two workers of the parallel loop with batches, each with at least one element, race exactly if a view in the expression has
not been asked for its strides before.  When the types tell that both sides are contiguous and the storage of the left side is
aligned, so that there is no serial part, nobody asks. -/
theorem C99_parallel_iff {e : TExpr α} {σ : CMem} (hg : Good e σ) {q : List Nat} {n : TExpr α} (hn : e.sub q = some n)
    (is js : List Nat) (hi : is ≠ []) (hj : js ≠ []) :
    (∃ c, Reach (σ, [thread e [(q, .loop is)], thread e [(q, .loop js)]]) c ∧ Race c) ↔ ¬ ViewsReady e σ q := by
  constructor
  · rintro ⟨c, hc, hr⟩ hv
    exact (C99_threads hg [[(q, .loop is)], [(q, .loop js)]] (by
      intro rs hrs r hr
      simp only [List.mem_cons, List.not_mem_nil, or_false] at hrs
      rcases hrs with rfl | rfl <;> (rw [List.mem_singleton] at hr; subst hr; exact fun _ => hv)) hc).2.1 hr
  · intro hv
    rcases dataElement_first hg n q hn with h | ⟨l, v, h⟩
    · exact absurd h hv
    · have key : ∀ is : List Nat, is ≠ [] → FirstWrite σ (thread e [(q, .loop is)]) l v := by
        intro is hi
        cases is with
        | nil => exact absurd rfl hi
        | cons i is =>
          simp only [thread, hn, Req.run, Act.all]
          exact (((h i).bind' _).bind' _).bind' _
      exact (key is hi).race (key js hj)

/-! ## What the answers are -/

/-- The shape a thread is told is the NumPy broadcast of the shapes of the leaves; it is told of an exception exactly if they
conflict. -/
theorem C99_shape_answer (e : TExpr α) (hok : e.sh.ExtentsOk) :
    (∀ s : List Nat, answer e .shape = .shape (some s) ↔ IsBroadcast e.sh.leaves s) ∧
    (answer e .shape = .shape none ↔ Conflict e.sh.leaves) := by
  obtain ⟨h1, h2⟩ := C04_broadcast_shape e.sh hok
  refine ⟨fun s => ?_, ?_⟩
  · rw [← h1 s]
    cases h : e.sh.shape with
    | none => simp [answer, h]
    | some r => obtain ⟨a, b⟩ := r; simp [answer, h]
  · rw [← h2]
    cases h : e.sh.shape with
    | none => simp [answer, h]
    | some r => simp [answer, h]

/-- For the indices of shape `s`, the strides and the offset of each array lead to the element (C01, C19). -/
def Spec.Coherent (s : List Nat) (e : TExpr α) : Prop :=
  ∀ q idx, InBounds s idx →
    (∀ s' st el fl, e.sub q = some (.var s' st el fl) → fl (dataOffset st false (toInts idx)) = el idx) ∧
    (∀ s' st bk off el fl, e.sub q = some (.view s' st bk off el fl) → fl (off + dataOffset st false (toInts idx)) = el idx)

theorem Spec.Coherent.arg {s : List Nat} {f : List α → α} {args : List (TExpr α)} (h : Coherent s (.fn f args)) {a : TExpr α}
    (ha : a ∈ args) : Coherent s a := by
  obtain ⟨k, hk⟩ := List.getElem?_of_mem ha
  intro q idx hi
  have := h (k :: q) idx hi
  simpa only [TExpr.sub, hk] using this

mutual
theorem stepAt_call {s idx : List Nat} (hi : InBounds s idx) : ∀ (e : TExpr α), Coherent s e → stepAt e idx = e.call idx
  | .var s' st el fl, h => (h [] idx hi).1 s' st el fl rfl
  | .scalar _, _ => rfl
  | .view s' st bk off el fl, h => (h [] idx hi).2 s' st bk off el fl rfl
  | .fn f args, h => by
    simp only [stepAt, TExpr.call]
    rw [stepAts_calls hi args fun a ha => h.arg ha]
theorem stepAts_calls {s idx : List Nat} (hi : InBounds s idx) : ∀ (es : List (TExpr α)), (∀ a ∈ es, Coherent s a) →
    stepAts es idx = TExpr.calls es idx
  | [], _ => rfl
  | a :: es, h => by
    simp only [stepAts, TExpr.calls]
    rw [stepAt_call hi a (h a (by simp)), stepAts_calls hi es fun b hb => h b (by simp [hb])]
end

mutual
theorem dataAt_stepAt {idx : List Nat} {p : Nat} {str : List Int} (hp : dataOffset str false (toInts idx) = p) :
    ∀ (e : TExpr α), linearIn str e = true → dataAt e p = stepAt e idx
  | .var s' st el fl, h => by
    simp only [linearIn, decide_eq_true_eq] at h
    subst h
    simp only [dataAt, stepAt, hp]
  | .scalar _, _ => rfl
  | .view s' st bk off el fl, h => by
    simp only [linearIn, decide_eq_true_eq] at h
    subst h
    simp only [dataAt, stepAt, hp]
  | .fn f args, h => by
    simp only [dataAt, stepAt]
    rw [dataAts_stepAts hp args (by simpa [linearIn] using h)]
theorem dataAts_stepAts {idx : List Nat} {p : Nat} {str : List Int} (hp : dataOffset str false (toInts idx) = p) :
    ∀ (es : List (TExpr α)), linearsIn str es = true → dataAts es p = stepAts es idx
  | [], _ => rfl
  | a :: es, h => by
    simp only [linearsIn, Bool.and_eq_true] at h
    simp only [dataAts, stepAts]
    rw [dataAt_stepAt hp a h.1, dataAts_stepAts hp es h.2]
end

/-- The array a thread makes from the expression holds the values of the elements, in the order of its layout, whichever of the
two loops is used.  If the types promise contiguity the promise has to be kept. -/
theorem C99_assigned (e : TExpr α) (st : Bool) (L : Layout) (hL : L = .row_major ∨ L = .column_major) {s : List Nat} {t : Bool}
    (hs : e.sh.shape = some (s, t)) (hc : Coherent s e) (hst : st = true → linearIn (computeStrides L L s).1 e = true) :
    assigned st L e = some (s, (if L = .column_major then colIndices s else rowIndices s).map e.call) := by
  unfold assigned
  rw [hs]
  simp only [Option.map_some, Option.some.injEq, Prod.mk.injEq, true_and]
  have hmem : ∀ idx ∈ (if L = .column_major then colIndices s else rowIndices s), InBounds s idx := by
    intro idx h
    split at h
    · exact mem_colIndices.1 h
    · exact mem_rowIndices.1 h
  have hstep : (if L = .column_major then colIndices s else rowIndices s).map (stepAt e) =
      (if L = .column_major then colIndices s else rowIndices s).map e.call :=
    List.map_congr_left fun idx h => stepAt_call (hmem idx h) e hc
  split
  · rename_i hl
    have hlin : linearIn (computeStrides L L s).1 e = true := by
      simp only [Bool.and_eq_true, Bool.or_eq_true] at hl
      rcases hl.2 with h | h
      · exact hst h
      · exact h
    rw [← hstep]
    rcases hL with rfl | rfl
    · simp only [reduceCtorEq, if_false] at hmem ⊢
      rw [← map_rowRank_rowIndices, List.map_map]
      exact List.map_congr_left fun idx h => dataAt_stepAt (C01_row_major_position (.inl rfl) s idx (hmem idx h)).1 e hlin
    · simp only [if_true] at hmem ⊢
      rw [← map_colRank_colIndices, List.map_map]
      exact List.map_congr_left fun idx h => dataAt_stepAt (C01_column_major_position s idx (hmem idx h)).1 e hlin
  · exact hstep

/-! ## Examples -/

/-- `sum(a, b(range(3, 6)))`, `a` of shape (2, 3). -/
def thEx : TExpr Nat :=
  .fn List.sum [.var [2, 3] [3, 1] (fun i => rowRank [2, 3] i) Int.toNat,
    .view [3] [1] [2] 3 (fun i => 10 * (3 + i.getLastD 0)) (fun p => 10 * p.toNat)]

theorem thEx_fn {q : List Nat} {f : List Nat → Nat} {args : List (TExpr Nat)} (h : thEx.sub q = some (.fn f args)) :
    q = [] ∧ f = List.sum := by
  match q, h with
  | [], h => simp [thEx, TExpr.sub] at h; exact ⟨rfl, h.1.symm⟩
  | [0], h => simp [thEx, TExpr.sub] at h
  | [1], h => simp [thEx, TExpr.sub] at h
  | 0 :: _ :: _, h => simp [thEx, TExpr.sub] at h
  | 1 :: _ :: _, h => simp [thEx, TExpr.sub] at h
  | (k + 2) :: _, h => simp [thEx, TExpr.sub] at h

theorem thEx_view {q : List Nat} {s st bk off el fl} (h : thEx.sub q = some (.view s st bk off el fl)) :
    q = [1] ∧ bk.length = st.length := by
  match q, h with
  | [], h => simp [thEx, TExpr.sub] at h
  | [0], h => simp [thEx, TExpr.sub] at h
  | [1], h => simp [thEx, TExpr.sub] at h; obtain ⟨-, rfl, rfl, -⟩ := h; exact ⟨rfl, rfl⟩
  | 0 :: _ :: _, h => simp [thEx, TExpr.sub] at h
  | 1 :: _ :: _, h => simp [thEx, TExpr.sub] at h
  | (k + 2) :: _, h => simp [thEx, TExpr.sub] at h

theorem thEx_wf : thEx.Wf := fun _ _ _ _ _ _ _ h => (thEx_view h).2

theorem thEx_shape : thEx.sh.shape = some ([2, 3], false) := by decide

/-- `C99_alone`, from the beginning: the answers are not trivial. -/
example : ((thread thEx [([], .shape), ([1], .strides), ([], .loop [1]), ([], .assign false .row_major)]).alone
      (thEx.initial fun _ => false)).2 =
    [.shape (some [2, 3]), .strides [1], .vals [41], .array (some ([2, 3], [30, 41, 52, 33, 44, 55]))] := by
  rw [(C99_alone thEx_wf (good_initial _ _) _).1]
  rfl

/-- `C99_warm`: three threads after one that asked for the shape and the strides. -/
example {c} (hc : Reach (((thread thEx [([], .shape), ([1], .strides)]).alone (thEx.initial fun _ => false)).1,
    [[([], Req.shape), ([], .assign false .row_major)], [([1], .strides)], [([], .loop [0, 1])]].map (thread thEx)) c) : ¬ Race c :=
  (C99_warm thEx thEx_wf (fun _ => false) [([], .shape), ([1], .strides)]
    (fun q f args h => by
      obtain ⟨rfl, -⟩ := thEx_fn h
      refine ⟨?_, by simp⟩
      have : TExpr.fn f args = thEx := by simpa [TExpr.sub] using h.symm
      rw [this, thEx_shape]
      simp)
    (fun q s st bk off el fl h => by obtain ⟨rfl, -⟩ := thEx_view h; simp) _ hc).1

/-- `C99_first_shape_wrong` and `C99_torn_shape_wrong`: two threads that ask for the shape first. -/
example : (∃ c, Reach (thEx.initial fun _ => false, [thread thEx [([], .shape)], thread thEx [([], .shape)]]) c ∧ Race c) ∧
    ∃ c, Reach (thEx.initial fun _ => false, [thread thEx [([], .shape)], thread thEx [([], .shape)]]) c ∧
      c.2[0]? = some (.ret [.shape (some [szMax, szMax])]) :=
  ⟨C99_first_shape_wrong (good_initial _ _) (q := []) rfl rfl,
   C99_torn_shape_wrong (good_initial _ _) (q := []) rfl rfl (by
    show thEx.sh.shape ≠ none
    rw [thEx_shape]; simp)⟩

/-- `C99_first_strides_wrong`: two threads that ask the view for its strides first. -/
example : ∃ c, Reach (thEx.initial fun _ => false, [thread thEx [([1], .strides)], thread thEx [([1], .strides)]]) c ∧
    c.2[0]? = some (.ret [.strides [0]]) :=
  (C99_first_strides_wrong (e := thEx) (st := [1]) (q := [1]) rfl rfl).2

/-- A view of the second half of a vector added to another vector: both are contiguous by their types. -/
def thHalf : TExpr Nat :=
  .fn List.sum [.var [4] [1] (fun i => i.getLastD 0) Int.toNat,
    .view [4] [1] [3] 4 (fun i => 10 * (4 + i.getLastD 0)) (fun p => 10 * p.toNat)]

/-- `C99_parallel_iff`: the workers of the loop race, unless the strides of the view were known. -/
example : (∃ c, Reach (thHalf.initial fun _ => false, [thread thHalf [([], .loop [0, 1])], thread thHalf [([], .loop [2, 3])]]) c ∧
      Race c) ∧
    ¬ ∃ c, Reach (thHalf.initial fun _ => true, [thread thHalf [([], .loop [0, 1])], thread thHalf [([], .loop [2, 3])]]) c ∧
      Race c := by
  constructor
  · refine (C99_parallel_iff (good_initial _ _) (q := []) rfl [0, 1] [2, 3] (by simp) (by simp)).2 fun h => ?_
    have := h [1] _ _ _ _ _ _ rfl
    exact absurd this (by decide)
  · rw [C99_parallel_iff (good_initial _ _) (q := []) rfl [0, 1] [2, 3] (by simp) (by simp), not_not]
    intro x s st bk off el fl hx
    simp only [TExpr.initial, hx, CVal.getFlag]

/-- `C99_parallel_compared`: with a comparison of the strides before the loop there is none. -/
example (shares : List (List Nat)) {c} (hc : Reach (((thHalf.hasLinear [1] []).alone (thHalf.initial fun _ => false)).1,
    shares.map fun is => thread thHalf [([], .loop is)]) c) : ¬ Race c :=
  (C99_parallel_compared (e := thHalf) (fun q s st bk off el fl h => by
    match q, h with
    | [], h => simp [thHalf, TExpr.sub] at h
    | [0], h => simp [thHalf, TExpr.sub] at h
    | [1], h => simp [thHalf, TExpr.sub] at h; obtain ⟨-, rfl, rfl, -⟩ := h; rfl
    | 0 :: _ :: _, h => simp [thHalf, TExpr.sub] at h
    | 1 :: _ :: _, h => simp [thHalf, TExpr.sub] at h
    | (k + 2) :: _, h => simp [thHalf, TExpr.sub] at h) (good_initial _ _) [1] [] thHalf rfl rfl shares hc).1

/-- `C99_shape_answer` and `C99_assigned`. -/
example : answer thEx .shape = .shape (some [2, 3]) ∧
    assigned false .column_major thEx = some ([2, 3], [30, 33, 41, 44, 52, 55]) := ⟨rfl, rfl⟩

example : Coherent [2, 3] thEx := by
  intro q idx hi
  obtain ⟨a, b, rfl⟩ : ∃ a b, idx = [a, b] := by
    match idx, hi.length_eq with
    | [a, b], _ => exact ⟨a, b, rfl⟩
  constructor
  · intro s' st el fl h
    match q, h with
    | [], h => simp [thEx, TExpr.sub] at h
    | [0], h =>
      simp [thEx, TExpr.sub] at h
      obtain ⟨-, rfl, rfl, rfl⟩ := h
      simp [dataOffset, rawDataOffset, toInts, rowRank]
      omega
    | [1], h => simp [thEx, TExpr.sub] at h
    | 0 :: _ :: _, h => simp [thEx, TExpr.sub] at h
    | 1 :: _ :: _, h => simp [thEx, TExpr.sub] at h
    | (k + 2) :: _, h => simp [thEx, TExpr.sub] at h
  · intro s' st bk off el fl h
    obtain ⟨rfl, -⟩ := thEx_view h
    simp [thEx, TExpr.sub] at h
    obtain ⟨-, rfl, -, rfl, rfl, rfl⟩ := h
    simp [dataOffset, rawDataOffset, toInts]
    omega

end Xt
