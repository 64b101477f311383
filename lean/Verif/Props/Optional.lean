import Verif.Model.Optional
import Verif.Spec.Optional
import Verif.Props.Addressing
import Verif.Lemmas.Index
/-!
# C52: missing values propagate
-/

namespace Xt
open Spec

variable {α : Type}

mutual
/-- The operation an expression stands for at an index, over the operands read there. -/
def OExpr.term : OExpr α → List Int → Res (OptTerm α)
  | .opt c, idx =>
    (elemAt c.accV c.vals idx).bind fun v => (elemAt c.accF c.flags idx).map fun b => .operand (if b then some v else none)
  | .plain st vs, idx => (elemAt st vs idx).map fun v => .operand (some v)
  | .oscalar v b, _ => .ok (.operand (if b then some v else none))
  | .pscalar v, _ => .ok (.operand (some v))
  | .fn f _ args, idx => (OExpr.terms args idx).map fun ts => .op f ts
  | .view g e, idx => OExpr.term e (g idx)
  | .red f i b ix e, idx =>
    (ix idx).foldl (fun (r : Res (OptTerm α)) (j : List Int) => r.bind fun t => (OExpr.term e j).map fun u =>
      .op (fun vs => match vs with
        | [u, v] => f u v
        | _ => none) [t, u]) (.ok (.operand (if b then some i else none)))
/-- Of all operands. -/
def OExpr.terms : List (OExpr α) → List Int → Res (List (OptTerm α))
  | [], _ => .ok []
  | e :: es, idx => (OExpr.term e idx).bind fun t => (OExpr.terms es idx).map (t :: ·)
end

theorem Res.bind_eq_ok {β γ : Type} {r : Res β} {f : β → Res γ} {c : γ} :
    r.bind f = .ok c ↔ ∃ b, r = .ok b ∧ f b = .ok c := by
  cases r <;> simp

theorem Res.map_eq_ok {β γ : Type} {r : Res β} {f : β → γ} {c : γ} :
    r.map f = .ok c ↔ ∃ b, r = .ok b ∧ f b = c := by
  cases r <;> simp

theorem orUb_eq_ok {β : Type} {o : Option β} {v : β} : orUb o = .ok v ↔ o = some v := by
  cases o <;> simp [orUb]

/-- Several results together. -/
def AreOptResults : List (OptTerm α) → List (Option α) → Prop
  | [], [] => True
  | t :: ts, r :: rs => IsOptResult t r ∧ AreOptResults ts rs
  | _, _ => False

theorem areOptResults_present : ∀ {ts : List (OptTerm α)} {rs : List (Option α)}, AreOptResults ts rs →
    (allPresent rs ≠ none ↔ ∀ v ∈ OptTerm.operandsL ts, v ≠ none) ∧
    ∀ vs, allPresent rs = some vs → OptTerm.plains ts = some vs
  | [], [], _ => by simp [allPresent, OptTerm.operandsL, OptTerm.plains]
  | [], _ :: _, h => h.elim
  | _ :: _, [], h => h.elim
  | t :: ts, r :: rs, h => by
    obtain ⟨ih1, ih2⟩ := areOptResults_present h.2
    obtain ⟨h1, h2⟩ := h.1
    simp only [OptTerm.operandsL, List.mem_append, allPresent, OptTerm.plains]
    refine ⟨?_, ?_⟩
    · constructor
      · intro hne v hv
        cases hr : r with
        | none =>
          rw [hr] at hne
          exact absurd rfl hne
        | some w =>
          rcases hv with hv | hv
          · exact h1.1 (by rw [hr]; simp) v hv
          · refine ih1.1 ?_ v hv
            intro hn
            rw [hr, hn] at hne
            exact hne rfl
      · intro hall
        have hr : r ≠ none := h1.2 fun v hv => hall v (Or.inl hv)
        have hrs : allPresent rs ≠ none := ih1.2 fun v hv => hall v (Or.inr hv)
        cases r with
        | none => exact absurd rfl hr
        | some w =>
          cases hp : allPresent rs with
          | none => exact absurd hp hrs
          | some ws => simp
    · intro vs hvs
      cases hr : r with
      | none =>
        rw [hr] at hvs
        cases hvs
      | some w =>
        cases hp : allPresent rs with
        | none =>
          rw [hr, hp] at hvs
          cases hvs
        | some ws =>
          rw [hr, hp] at hvs
          rw [h2 w hr, ih2 ws hp]
          exact hvs

theorem liftOp_result {ts : List (OptTerm α)} {rs : List (Option α)} {f : List α → Option α} {r : Option α}
    (h : AreOptResults ts rs) (hf : liftOp f rs = .ok r) : IsOptResult (.op f ts) r := by
  obtain ⟨h1, h2⟩ := areOptResults_present h
  unfold liftOp at hf
  unfold IsOptResult
  simp only [OptTerm.operands, OptTerm.plain]
  rw [← h1]
  cases hp : allPresent rs with
  | none =>
    rw [hp] at hf
    simp only [Res.ok.injEq] at hf
    subst hf
    simp
  | some vs =>
    rw [hp] at hf
    simp only [Res.map_eq_ok, orUb_eq_ok] at hf
    obtain ⟨v, hv, rfl⟩ := hf
    refine ⟨by simp, ?_⟩
    intro w hw
    simp only [Option.some.injEq] at hw
    subst hw
    rw [h2 vs hp]
    exact hv

theorem operand_result (o : Option α) : IsOptResult (.operand o) o := by
  simp [IsOptResult, OptTerm.operands, OptTerm.plain]

theorem red_result {f : List α → Option α} {a : List Int → Res (Option α)} {t : List Int → Res (OptTerm α)}
    (ih : ∀ j u r, t j = .ok u → a j = .ok r → IsOptResult u r) :
    ∀ (js : List (List Int)) (u0 : Res (OptTerm α)) (r0 : Res (Option α)),
      (∀ u r, u0 = .ok u → r0 = .ok r → IsOptResult u r) → ∀ u r,
      js.foldl (fun (r : Res (OptTerm α)) (j : List Int) => r.bind fun t' => (t j).map fun u => .op f [t', u]) u0 = .ok u →
      js.foldl (fun (r : Res (Option α)) (j : List Int) => r.bind fun a' => (a j).bind fun x => liftOp f [a', x]) r0 = .ok r →
      IsOptResult u r
  | [], u0, r0, h0, u, r, hu, hr => h0 u r hu hr
  | j :: js, u0, r0, h0, u, r, hu, hr => by
    refine red_result ih js _ _ ?_ u r hu hr
    intro u' r' hu' hr'
    simp only [Res.bind_eq_ok, Res.map_eq_ok] at hu' hr'
    obtain ⟨u1, h1, u2, h2, rfl⟩ := hu'
    obtain ⟨r1, g1, r2, g2, hl⟩ := hr'
    exact liftOp_result (ts := [u1, u2]) (rs := [r1, r2]) ⟨h0 u1 r1 h1 g1, ih j u2 r2 h2 g2, trivial⟩ hl

mutual
theorem OExpr.access_result : ∀ (e : OExpr α) (idx : List Int) (t : OptTerm α) (r : Option α), e.term idx = .ok t →
    e.access idx = .ok r → IsOptResult t r
  | .opt c, idx, t, r, ht, hr => by
    simp only [OExpr.term, OExpr.access, Res.bind_eq_ok, Res.map_eq_ok] at ht hr
    obtain ⟨v, hv, b, hb, rfl⟩ := ht
    obtain ⟨v', hv', b', hb', rfl⟩ := hr
    rw [hv] at hv'
    rw [hb] at hb'
    cases hv'
    cases hb'
    exact operand_result _
  | .plain st vs, idx, t, r, ht, hr => by
    simp only [OExpr.term, OExpr.access, Res.map_eq_ok] at ht hr
    obtain ⟨v, hv, rfl⟩ := ht
    obtain ⟨v', hv', rfl⟩ := hr
    rw [hv] at hv'
    cases hv'
    exact operand_result _
  | .oscalar v b, idx, t, r, ht, hr => by
    simp only [OExpr.term, OExpr.access, Res.ok.injEq] at ht hr
    subst ht
    subst hr
    exact operand_result _
  | .pscalar v, idx, t, r, ht, hr => by
    simp only [OExpr.term, OExpr.access, Res.ok.injEq] at ht hr
    subst ht
    subst hr
    exact operand_result _
  | .fn f f0 args, idx, t, r, ht, hr => by
    simp only [OExpr.term, OExpr.access, Res.bind_eq_ok, Res.map_eq_ok] at ht hr
    obtain ⟨ts, hts, rfl⟩ := ht
    obtain ⟨rs, hrs, hl⟩ := hr
    exact liftOp_result (OExpr.accesses_results args idx ts rs hts hrs) hl
  | .view g e, idx, t, r, ht, hr => by
    simp only [OExpr.term, OExpr.access] at ht hr
    exact OExpr.access_result e (g idx) t r ht hr
  | .red f i b ix e, idx, t, r, ht, hr => by
    simp only [OExpr.term, OExpr.access] at ht hr
    refine red_result (a := e.access) (t := e.term) (fun j u r h g => OExpr.access_result e j u r h g) (ix idx) _ _ ?_ t r
      ht hr
    intro u r hu hr
    simp only [Res.ok.injEq] at hu hr
    subst hu
    subst hr
    exact operand_result _
theorem OExpr.accesses_results : ∀ (es : List (OExpr α)) (idx : List Int) (ts : List (OptTerm α)) (rs : List (Option α)),
    OExpr.terms es idx = .ok ts → OExpr.accesses es idx = .ok rs → AreOptResults ts rs
  | [], idx, ts, rs, ht, hr => by
    simp only [OExpr.terms, OExpr.accesses, Res.ok.injEq] at ht hr
    subst ht
    subst hr
    trivial
  | e :: es, idx, ts, rs, ht, hr => by
    simp only [OExpr.terms, OExpr.accesses, Res.bind_eq_ok, Res.map_eq_ok] at ht hr
    obtain ⟨t, h1, ts, h2, rfl⟩ := ht
    obtain ⟨r, g1, rs, g2, rfl⟩ := hr
    exact ⟨OExpr.access_result e idx t r h1 g1, OExpr.accesses_results es idx ts rs h2 g2⟩
end

/-- Element access to an expression of optionals: present exactly when every operand read is present, and then the value of
the plain operation. -/
theorem C52_access (e : OExpr α) (idx : List Int) (t : OptTerm α) (r : Option α) (ht : e.term idx = .ok t)
    (hr : e.access idx = .ok r) : IsOptResult t r :=
  OExpr.access_result e idx t r ht hr

/-! ## Splitting into values and flags -/

mutual
/-- `value()` and `has_value()` of every container show the elements that access shows, and every functor is like a
default-constructed one. -/
def OExpr.Splits : OExpr α → Prop
  | .opt c => c.splV = c.accV ∧ c.splF = c.accF
  | .plain _ _ => True
  | .oscalar _ _ => True
  | .pscalar _ => True
  | .fn f f0 args => f0 = f ∧ OExpr.AllSplit args
  | .view _ e => OExpr.Splits e
  | .red _ _ _ _ e => OExpr.Splits e
/-- Of all operands. -/
def OExpr.AllSplit : List (OExpr α) → Prop
  | [] => True
  | e :: es => OExpr.Splits e ∧ OExpr.AllSplit es
end

mutual
/-- Every operation of the expression is defined for all arguments. -/
def OExpr.Total : OExpr α → Prop
  | .opt _ => True
  | .plain _ _ => True
  | .oscalar _ _ => True
  | .pscalar _ => True
  | .fn f _ args => (∀ vs : List α, vs.length = args.length → f vs ≠ none) ∧ OExpr.AllTotal args
  | .view _ e => OExpr.Total e
  | .red f _ _ _ e => (∀ u v, f u v ≠ none) ∧ OExpr.Total e
/-- Of all operands. -/
def OExpr.AllTotal : List (OExpr α) → Prop
  | [] => True
  | e :: es => OExpr.Total e ∧ OExpr.AllTotal es
end

theorem red_split {f : α → α → Option α} {a : List Int → Res (Option α)} {w : List Int → Res α} {p : List Int → Res Bool}
    (ih : ∀ j v b, w j = .ok v → p j = .ok b → a j = .ok (if b then some v else none)) :
    ∀ (js : List (List Int)) (w0 : Res α) (p0 : Res Bool) (a0 : Res (Option α)),
      (∀ v b, w0 = .ok v → p0 = .ok b → a0 = .ok (if b then some v else none)) → ∀ v b,
      js.foldl (fun (r : Res α) (j : List Int) => r.bind fun a => (w j).bind fun x => orUb (f a x)) w0 = .ok v →
      js.foldl (fun (r : Res Bool) (j : List Int) => r.bind fun a => (p j).map fun x => a && x) p0 = .ok b →
      js.foldl (fun (r : Res (Option α)) (j : List Int) => r.bind fun a' => (a j).bind fun x =>
        liftOp (fun vs => match vs with
          | [u, v] => f u v
          | _ => none) [a', x]) a0 = .ok (if b then some v else none)
  | [], w0, p0, a0, h0, v, b, hv, hb => h0 v b hv hb
  | j :: js, w0, p0, a0, h0, v, b, hv, hb => by
    refine red_split ih js _ _ _ ?_ v b hv hb
    intro v' b' hv' hb'
    simp only [Res.bind_eq_ok, Res.map_eq_ok, orUb_eq_ok] at hv' hb'
    obtain ⟨v1, h1, v2, h2, hf⟩ := hv'
    obtain ⟨b1, g1, b2, g2, rfl⟩ := hb'
    beta_reduce
    rw [h0 v1 b1 h1 g1, Res.bind_ok, ih j v2 b2 h2 g2, Res.bind_ok]
    cases b1 <;> cases b2 <;> simp [liftOp, allPresent, hf, orUb]

mutual
theorem OExpr.split_access : ∀ (e : OExpr α) (idx : List Int) (v : α) (b : Bool), e.Splits → e.valueAt idx = .ok v →
    e.flagAt idx = .ok b → e.access idx = .ok (if b then some v else none)
  | .opt c, idx, v, b, hs, hv, hb => by
    simp only [OExpr.valueAt, OExpr.flagAt] at hv hb
    rw [hs.1] at hv
    rw [hs.2] at hb
    simp only [OExpr.access, hv, hb, Res.bind_ok, Res.map_ok]
  | .plain st vs, idx, v, b, hs, hv, hb => by
    simp only [OExpr.valueAt, OExpr.flagAt, Res.ok.injEq] at hv hb
    subst hb
    simp only [OExpr.access, hv, Res.map_ok, if_true]
  | .oscalar w c, idx, v, b, hs, hv, hb => by
    simp only [OExpr.valueAt, OExpr.flagAt, Res.ok.injEq] at hv hb
    subst hv
    subst hb
    rfl
  | .pscalar w, idx, v, b, hs, hv, hb => by
    simp only [OExpr.valueAt, OExpr.flagAt, Res.ok.injEq] at hv hb
    subst hv
    subst hb
    rfl
  | .fn f f0 args, idx, v, b, hs, hv, hb => by
    simp only [OExpr.valueAt, OExpr.flagAt, Res.bind_eq_ok, orUb_eq_ok] at hv hb
    obtain ⟨vs, hvs, hf⟩ := hv
    obtain ⟨os, h1, h2⟩ := OExpr.splits_accesses args idx vs b hs.2 hvs hb
    simp only [OExpr.access, h1, Res.bind_ok]
    unfold liftOp
    rw [h2]
    cases b with
    | false => rfl
    | true =>
      rw [← hs.1]
      simp [hf, orUb]
  | .view g e, idx, v, b, hs, hv, hb => by
    simp only [OExpr.valueAt, OExpr.flagAt] at hv hb
    simp only [OExpr.access]
    exact OExpr.split_access e (g idx) v b hs hv hb
  | .red f i c ix e, idx, v, b, hs, hv, hb => by
    simp only [OExpr.valueAt, OExpr.flagAt] at hv hb
    simp only [OExpr.access]
    refine red_split (a := e.access) (w := e.valueAt) (p := e.flagAt)
      (fun j v b h g => OExpr.split_access e j v b hs h g) (ix idx) _ _ _ ?_ v b hv hb
    intro v b hv hb
    simp only [Res.ok.injEq] at hv hb
    subst hv
    subst hb
    rfl
theorem OExpr.splits_accesses : ∀ (es : List (OExpr α)) (idx : List Int) (vs : List α) (b : Bool), OExpr.AllSplit es →
    OExpr.valuesAt es idx = .ok vs → OExpr.flagsAt es idx = .ok b →
    ∃ os, OExpr.accesses es idx = .ok os ∧ allPresent os = if b then some vs else none
  | [], idx, vs, b, hs, hv, hb => by
    simp only [OExpr.valuesAt, OExpr.flagsAt, Res.ok.injEq] at hv hb
    subst hv
    subst hb
    exact ⟨[], rfl, rfl⟩
  | e :: es, idx, vs, b, hs, hv, hb => by
    simp only [OExpr.valuesAt, OExpr.flagsAt, Res.bind_eq_ok, Res.map_eq_ok] at hv hb
    obtain ⟨v1, h1, vs, h2, rfl⟩ := hv
    obtain ⟨b1, g1, b2, g2, rfl⟩ := hb
    obtain ⟨os, o1, o2⟩ := OExpr.splits_accesses es idx vs b2 hs.2 h2 g2
    refine ⟨(if b1 then some v1 else none) :: os, ?_, ?_⟩
    · simp only [OExpr.accesses, OExpr.split_access e idx v1 b1 hs.1 h1 g1, o1, Res.bind_ok, Res.map_ok]
    · simp only [allPresent, o2]
      cases b1 <;> cases b2 <;> rfl
end

/-- Where the expression of values and the expression of flags are both defined, they are what access shows. -/
theorem C52_split (e : OExpr α) (hs : e.Splits) (idx : List Int) (v : α) (b : Bool) (hv : e.valueAt idx = .ok v)
    (hb : e.flagAt idx = .ok b) : e.access idx = .ok (if b then some v else none) :=
  OExpr.split_access e idx v b hs hv hb

theorem red_defined {f : α → α → Option α} {t : List Int → Res (OptTerm α)} {w : List Int → Res α}
    {p : List Int → Res Bool} (hf : ∀ u v, f u v ≠ none)
    (ih : ∀ j u, t j = .ok u → (∃ v, w j = .ok v) ∧ ∃ b, p j = .ok b) (F : List α → Option α) :
    ∀ (js : List (List Int)) (t0 : Res (OptTerm α)) (w0 : Res α) (p0 : Res Bool),
      (∀ u, t0 = .ok u → (∃ v, w0 = .ok v) ∧ ∃ b, p0 = .ok b) → ∀ u,
      js.foldl (fun (r : Res (OptTerm α)) (j : List Int) => r.bind fun t' => (t j).map fun u => .op F [t', u]) t0 = .ok u →
      (∃ v, js.foldl (fun (r : Res α) (j : List Int) => r.bind fun a => (w j).bind fun x => orUb (f a x)) w0 = .ok v) ∧
      ∃ b, js.foldl (fun (r : Res Bool) (j : List Int) => r.bind fun a => (p j).map fun x => a && x) p0 = .ok b
  | [], t0, w0, p0, h0, u, hu => h0 u hu
  | j :: js, t0, w0, p0, h0, u, hu => by
    refine red_defined hf ih F js _ _ _ ?_ u hu
    intro u' hu'
    simp only [Res.bind_eq_ok, Res.map_eq_ok] at hu'
    obtain ⟨u1, h1, u2, h2, rfl⟩ := hu'
    obtain ⟨⟨v1, g1⟩, b1, k1⟩ := h0 u1 h1
    obtain ⟨⟨v2, g2⟩, b2, k2⟩ := ih j u2 h2
    refine ⟨?_, b1 && b2, by beta_reduce; rw [k1, Res.bind_ok, k2, Res.map_ok]⟩
    obtain ⟨v, hv⟩ := Option.ne_none_iff_exists'.1 (hf v1 v2)
    exact ⟨v, by beta_reduce; rw [g1, Res.bind_ok, g2, Res.bind_ok, hv, orUb]⟩

mutual
theorem OExpr.split_defined : ∀ (e : OExpr α) (idx : List Int) (t : OptTerm α), e.Splits → e.Total → e.term idx = .ok t →
    (∃ v, e.valueAt idx = .ok v) ∧ ∃ b, e.flagAt idx = .ok b
  | .opt c, idx, t, hs, _, ht => by
    simp only [OExpr.term, Res.bind_eq_ok, Res.map_eq_ok] at ht
    obtain ⟨v, hv, b, hb, rfl⟩ := ht
    simp only [OExpr.valueAt, OExpr.flagAt]
    rw [hs.1, hs.2]
    exact ⟨⟨v, hv⟩, b, hb⟩
  | .plain st vs, idx, t, hs, _, ht => by
    simp only [OExpr.term, Res.map_eq_ok] at ht
    obtain ⟨v, hv, rfl⟩ := ht
    simp only [OExpr.valueAt, OExpr.flagAt]
    exact ⟨⟨v, hv⟩, true, rfl⟩
  | .oscalar w c, idx, t, hs, _, ht => ⟨⟨w, rfl⟩, c, rfl⟩
  | .pscalar w, idx, t, hs, _, ht => ⟨⟨w, rfl⟩, true, rfl⟩
  | .fn f f0 args, idx, t, hs, hf, ht => by
    simp only [OExpr.term, Res.map_eq_ok] at ht
    obtain ⟨ts, hts, rfl⟩ := ht
    obtain ⟨⟨vs, h1, hl⟩, b, h2⟩ := OExpr.splits_defined args idx ts hs.2 hf.2 hts
    obtain ⟨v, hv⟩ := Option.ne_none_iff_exists'.1 (hf.1 vs hl)
    simp only [OExpr.valueAt, OExpr.flagAt]
    exact ⟨⟨v, by rw [h1, Res.bind_ok, hs.1, hv, orUb]⟩, b, h2⟩
  | .view g e, idx, t, hs, hf, ht => by
    simp only [OExpr.term] at ht
    simp only [OExpr.valueAt, OExpr.flagAt]
    exact OExpr.split_defined e (g idx) t hs hf ht
  | .red f i c ix e, idx, t, hs, hf, ht => by
    simp only [OExpr.term] at ht
    simp only [OExpr.valueAt, OExpr.flagAt]
    refine red_defined (t := e.term) (w := e.valueAt) (p := e.flagAt) hf.1
      (fun j u h => OExpr.split_defined e j u hs hf.2 h) _ (ix idx) _ _ _ ?_ t ht
    intro u hu
    exact ⟨⟨i, rfl⟩, c, rfl⟩
theorem OExpr.splits_defined : ∀ (es : List (OExpr α)) (idx : List Int) (ts : List (OptTerm α)), OExpr.AllSplit es →
    OExpr.AllTotal es → OExpr.terms es idx = .ok ts →
    (∃ vs, OExpr.valuesAt es idx = .ok vs ∧ vs.length = es.length) ∧ ∃ b, OExpr.flagsAt es idx = .ok b
  | [], idx, ts, _, _, _ => ⟨⟨[], rfl, rfl⟩, true, rfl⟩
  | e :: es, idx, ts, hs, hf, ht => by
    simp only [OExpr.terms, Res.bind_eq_ok, Res.map_eq_ok] at ht
    obtain ⟨t, h1, ts, h2, rfl⟩ := ht
    obtain ⟨⟨v, g1⟩, b, g2⟩ := OExpr.split_defined e idx t hs.1 hf.1 h1
    obtain ⟨⟨vs, k1, k2⟩, c, k3⟩ := OExpr.splits_defined es idx ts hs.2 hf.2 h2
    refine ⟨⟨v :: vs, ?_, by simp [k2]⟩, b && c, ?_⟩
    · simp only [OExpr.valuesAt, g1, k1, Res.bind_ok, Res.map_ok]
    · simp only [OExpr.flagsAt, g2, k3, Res.bind_ok, Res.map_ok]
end

/-- With operations defined everywhere, access succeeds wherever the operands can be read. -/
theorem C52_access_defined (e : OExpr α) (hs : e.Splits) (hf : e.Total) (idx : List Int) (t : OptTerm α)
    (ht : e.term idx = .ok t) : ∃ r, e.access idx = .ok r ∧ IsOptResult t r := by
  obtain ⟨⟨v, hv⟩, b, hb⟩ := OExpr.split_defined e idx t hs hf ht
  have h := C52_split e hs idx v b hv hb
  exact ⟨_, h, C52_access e idx t _ ht h⟩

/-! ## Assignment -/

theorem storeAll_spec {β : Type} (st : List Int) (get : List Int → Res β) (N : Nat) : ∀ (idxs : List (List Nat)) (l : List β),
    l.length = N → idxs.Nodup →
    (∀ i ∈ idxs, 0 ≤ elementOffset st (toInts i) ∧ elementOffset st (toInts i) < N) →
    (∀ i ∈ idxs, ∀ j ∈ idxs, elementOffset st (toInts i) = elementOffset st (toInts j) → i = j) →
    (∀ i ∈ idxs, ∃ v, get (toInts i) = .ok v) →
    ∃ l', storeAll st get (.ok l) idxs = .ok l' ∧ l'.length = N ∧
      (∀ i ∈ idxs, elemAt st l' (toInts i) = get (toInts i)) ∧
      ∀ k, (∀ i ∈ idxs, (elementOffset st (toInts i)).toNat ≠ k) → l'[k]? = l[k]?
  | [], l, hl, _, _, _, _ => ⟨l, rfl, hl, by simp, fun _ _ => rfl⟩
  | i :: is, l, hl, hnd, hb, hinj, hg => by
    obtain ⟨v, hv⟩ := hg i (by simp)
    obtain ⟨h0, hN⟩ := hb i (by simp)
    obtain ⟨hni, hnd'⟩ := List.nodup_cons.1 hnd
    obtain ⟨l', e1, e2, e3, e4⟩ := storeAll_spec st get N is (l.set (elementOffset st (toInts i)).toNat v) (by simp [hl]) hnd'
      (fun j hj => hb j (by simp [hj])) (fun j hj k hk => hinj j (by simp [hj]) k (by simp [hk]))
      (fun j hj => hg j (by simp [hj]))
    refine ⟨l', ?_, e2, ?_, ?_⟩
    · unfold storeAll at e1 ⊢
      rw [List.foldl_cons, Res.bind_ok, hv, Res.bind_ok, if_neg (by omega)]
      exact e1
    · intro j hj
      rcases List.mem_cons.1 hj with rfl | hj
      · unfold elemAt
        rw [if_neg (by omega), e4, List.getElem?_set_self (by omega), hv]
        · rfl
        · intro k hk he
          obtain ⟨hk0, _⟩ := hb k (by simp [hk])
          have := hinj k (by simp [hk]) j (by simp) (by omega)
          subst this
          exact hni hk
      · exact e3 j hj
    · intro k hk
      rw [e4 k (fun j hj => hk j (by simp [hj])), List.getElem?_set_ne (hk i (by simp))]

/-- The strides of a layout, over a storage of the right size, address it one to one. -/
theorem computeStrides_addresses (L l : Layout) (sh : List Nat) (N : Nat) (hN : N = numel sh) :
    (∀ i ∈ rowIndices sh, 0 ≤ elementOffset (computeStrides L l sh).1 (toInts i) ∧
      elementOffset (computeStrides L l sh).1 (toInts i) < N) ∧
    (∀ i ∈ rowIndices sh, ∀ j ∈ rowIndices sh, elementOffset (computeStrides L l sh).1 (toInts i) =
      elementOffset (computeStrides L l sh).1 (toInts j) → i = j) := by
  obtain ⟨h1, h2, h3, _⟩ := C01_bijection L l sh
  rw [h1] at h2
  refine ⟨?_, ?_⟩
  · intro i hi
    have := h2 i (mem_rowIndices.1 hi)
    rw [← elementOffset_eq_dataOffset] at this
    rw [hN]
    exact this
  · intro i hi j hj he
    refine h3 i j (mem_rowIndices.1 hi) (mem_rowIndices.1 hj) ?_
    rw [← elementOffset_eq_dataOffset, ← elementOffset_eq_dataOffset]
    exact he

/-- A container whose layout is the one its type (or, for dynamic types, the default) says gives the elements access shows. -/
theorem C52_container_splits (L l : Layout) (sh : List Nat) (vals : List α) (flags : List Bool)
    (hl : l = if L = .dynamic then .row_major else L) : (OExpr.opt (.container L l sh vals flags)).Splits := by
  subst hl
  exact ⟨rfl, rfl⟩

/-- Assemblies always do. -/
theorem C52_assembly_splits (vs fs : List Int) (vals : List α) (flags : List Bool) :
    (OExpr.opt (.assembly vs fs vals flags)).Splits :=
  ⟨rfl, rfl⟩

/-- Assignment of an expression with operations defined everywhere to a container of optionals of its shape: afterwards
every element is present exactly when every operand is present there, and then has the value of the plain operation. -/
theorem C52_assign_partial (L l : Layout) (hl : l = if L = .dynamic then .row_major else L) (sh : List Nat) (vals : List α)
    (flags : List Bool) (hv : vals.length = numel sh) (hf : flags.length = numel sh) (e : OExpr α) (hs : e.Splits)
    (ht : e.Total) (hd : ∀ i, InBounds sh i → ∃ t, e.term (toInts i) = .ok t) :
    ∃ d, OptLeaf.assign (.container L l sh vals flags) sh e = .ok d ∧
      ∀ i, InBounds sh i → ∀ t, e.term (toInts i) = .ok t →
        ∃ r, (OExpr.opt d).access (toInts i) = .ok r ∧ IsOptResult t r := by
  have hdef : ∀ i ∈ rowIndices sh, (∃ v, e.valueAt (toInts i) = .ok v) ∧ ∃ b, e.flagAt (toInts i) = .ok b := by
    intro i hi
    obtain ⟨t, h⟩ := hd i (mem_rowIndices.1 hi)
    exact OExpr.split_defined e _ t hs ht h
  obtain ⟨a1, a2⟩ := computeStrides_addresses L l sh _ rfl
  have hstr : adaptorStrides L sh = (computeStrides L l sh).1 := by
    rw [hl]
    rfl
  obtain ⟨vs, v1, v2, v3, _⟩ := storeAll_spec (computeStrides L l sh).1 e.valueAt (numel sh) (rowIndices sh) vals hv
    (rowIndices_nodup sh) a1 a2 (fun i hi => (hdef i hi).1)
  obtain ⟨fs, f1, f2, f3, _⟩ := storeAll_spec (computeStrides L l sh).1 e.flagAt (numel sh) (rowIndices sh) flags hf
    (rowIndices_nodup sh) a1 a2 (fun i hi => (hdef i hi).2)
  refine ⟨{ OptLeaf.container L l sh vals flags with vals := vs, flags := fs }, ?_, ?_⟩
  · unfold OptLeaf.assign
    simp only [OptLeaf.container]
    rw [hstr, v1, Res.bind_ok, f1, Res.map_ok]
  · intro i hi t htm
    obtain ⟨⟨v, hv'⟩, b, hb'⟩ := hdef i (mem_rowIndices.2 hi)
    refine ⟨if b then some v else none, ?_, ?_⟩
    · simp only [OExpr.access, OptLeaf.container]
      rw [v3 i (mem_rowIndices.2 hi), f3 i (mem_rowIndices.2 hi), hv', hb']
      rfl
    · exact C52_access e _ t _ htm (C52_split e hs _ v b hv' hb')

/-- Access outside the storage is undefined: an optional whose flag or value is not there is not reported as missing. -/
theorem C52_access_undefined (c : OptLeaf α) (st : List Int) (vs : List α) (idx : List Int) :
    ((elementOffset c.accV idx < 0 ∨ (c.vals.length : Int) ≤ elementOffset c.accV idx ∨
        elementOffset c.accF idx < 0 ∨ (c.flags.length : Int) ≤ elementOffset c.accF idx) →
      (OExpr.opt c).access idx = .ub) ∧
    ((elementOffset st idx < 0 ∨ (vs.length : Int) ≤ elementOffset st idx) → (OExpr.plain st vs).access idx = .ub) := by
  have key : ∀ {β : Type} (t : List Int) (l : List β),
      (elementOffset t idx < 0 ∨ (l.length : Int) ≤ elementOffset t idx) → elemAt t l idx = .ub := by
    intro β t l h
    unfold elemAt
    split
    · rfl
    · rw [List.getElem?_eq_none (by omega)]
      rfl
  have any : ∀ {β : Type} (t : List Int) (l : List β), elemAt t l idx = .ub ∨ ∃ v, elemAt t l idx = .ok v := by
    intro β t l
    unfold elemAt
    split
    · exact .inl rfl
    · cases l[(elementOffset t idx).toNat]? with
      | none => exact .inl rfl
      | some v => exact .inr ⟨v, rfl⟩
  refine ⟨fun h => ?_, fun h => ?_⟩
  · simp only [OExpr.access]
    rcases any c.accV c.vals with hv | ⟨v, hv⟩
    · rw [hv]
      rfl
    · rw [hv, Res.bind_ok]
      by_cases h' : elementOffset c.accV idx < 0 ∨ (c.vals.length : Int) ≤ elementOffset c.accV idx
      · rw [key _ _ h'] at hv
        cases hv
      · rw [key c.accF c.flags (by omega)]
        rfl
  · simp only [OExpr.access]
    rw [key _ _ h]
    rfl

/-- Assignment to an assembly whose values and flags are laid out differently: each part is stored by its own strides. -/
theorem C52_assign_assembly_partial (Lv lv Lf lf : Layout) (sh : List Nat) (vals : List α) (flags : List Bool)
    (hv : vals.length = numel sh) (hf : flags.length = numel sh) (e : OExpr α) (hs : e.Splits)
    (ht : e.Total) (hd : ∀ i, InBounds sh i → ∃ t, e.term (toInts i) = .ok t) :
    ∃ d, OptLeaf.assign (.assembly (computeStrides Lv lv sh).1 (computeStrides Lf lf sh).1 vals flags) sh e = .ok d ∧
      ∀ i, InBounds sh i → ∀ t, e.term (toInts i) = .ok t →
        ∃ r, (OExpr.opt d).access (toInts i) = .ok r ∧ IsOptResult t r := by
  have hdef : ∀ i ∈ rowIndices sh, (∃ v, e.valueAt (toInts i) = .ok v) ∧ ∃ b, e.flagAt (toInts i) = .ok b := by
    intro i hi
    obtain ⟨t, h⟩ := hd i (mem_rowIndices.1 hi)
    exact OExpr.split_defined e _ t hs ht h
  obtain ⟨a1, a2⟩ := computeStrides_addresses Lv lv sh _ rfl
  obtain ⟨b1, b2⟩ := computeStrides_addresses Lf lf sh _ rfl
  obtain ⟨vs, v1, v2, v3, _⟩ := storeAll_spec (computeStrides Lv lv sh).1 e.valueAt (numel sh) (rowIndices sh) vals hv
    (rowIndices_nodup sh) a1 a2 (fun i hi => (hdef i hi).1)
  obtain ⟨fs, f1, f2, f3, _⟩ := storeAll_spec (computeStrides Lf lf sh).1 e.flagAt (numel sh) (rowIndices sh) flags hf
    (rowIndices_nodup sh) b1 b2 (fun i hi => (hdef i hi).2)
  refine ⟨.assembly (computeStrides Lv lv sh).1 (computeStrides Lf lf sh).1 vs fs, ?_, ?_⟩
  · unfold OptLeaf.assign
    simp only [OptLeaf.assembly]
    rw [v1, Res.bind_ok, f1, Res.map_ok]
  · intro i hi t htm
    obtain ⟨⟨v, hv'⟩, b, hb'⟩ := hdef i (mem_rowIndices.2 hi)
    refine ⟨if b then some v else none, ?_, ?_⟩
    · simp only [OExpr.access, OptLeaf.assembly]
      rw [v3 i (mem_rowIndices.2 hi), f3 i (mem_rowIndices.2 hi), hv', hb']
      rfl
    · exact C52_access e _ t _ htm (C52_split e hs _ v b hv' hb')

/-! ## What is missing -/

/-- Integer division: undefined for a zero divisor. -/
def divOp : List Int → Option Int
  | [a, b] => if b = 0 then none else some (a / b)
  | _ => none

/-- `c = a / b` with a missing element of `b`: access shows it missing, but the assignment divides by the number stored
there, which for a missing value is 0. -/
theorem C52_missing_operand_evaluated :
    let a := OExpr.opt (.container .row_major .row_major [2] [6, 8] [true, true])
    let b := OExpr.opt (.container .row_major .row_major [2] [3, 0] [true, false])
    let e := OExpr.fn divOp divOp [a, b]
    e.access [0] = .ok (some 2) ∧ e.access [1] = .ok none ∧ e.Splits ∧ e.valueAt [1] = .ub ∧
    (OptLeaf.assign (.container .row_major .row_major [2] [0, 0] [false, false]) [2] e).map OptLeaf.flags = .ub := by
  refine ⟨by decide, by decide, ⟨rfl, ⟨rfl, rfl⟩, ⟨rfl, rfl⟩, trivial⟩, by decide, by decide⟩

/-- A container of dynamic layout type that is column-major: `value()` and `has_value()` show it as row-major, so what is
assigned to it arrives at other indices. -/
theorem C52_dynamic_layout_wrong :
    let a := OExpr.opt (.container .dynamic .column_major [2, 2] [1, 2, 3, 4] [true, true, false, true])
    a.access [0, 1] = .ok none ∧ a.access [1, 0] = .ok (some 2) ∧ a.valueAt [0, 1] = .ok (2 : Int) ∧
    a.flagAt [0, 1] = .ok true ∧
    ((OptLeaf.assign (.container .dynamic .column_major [2, 2] [0, 0, 0, 0] [false, false, false, false]) [2, 2]
        (.opt (.container .row_major .row_major [2, 2] [(1 : Int), 2, 3, 4] [true, true, true, true]))).bind fun d =>
      (OExpr.opt d).access [0, 1]) = .ok (some 3) := by
  decide

/-- The functor's state is lost: adding a constant kept in the functor adds nothing after assignment. -/
theorem C52_functor_state_lost :
    let e := OExpr.fn (fun vs => some (vs.sum + 5)) (fun vs => some (vs.sum + 0))
      [.opt (.container .row_major .row_major [1] [(10 : Int)] [true])]
    e.access [0] = .ok (some 15) ∧ e.valueAt [0] = .ok 10 := by
  decide

theorem elementOffset_nil (idx : List Int) : elementOffset [] idx = 0 := by
  simp [elementOffset, innerProduct]

theorem elemAt_nonneg {β : Type} {st : List Int} {l : List β} {idx : List Int} (h : 0 ≤ elementOffset st idx) :
    elemAt st l idx = orUb l[(elementOffset st idx).toNat]? := by
  rw [elemAt, if_neg (by omega)]

theorem elemAt_nil {β : Type} (b : β) (idx : List Int) : elemAt [] [b] idx = .ok b := by
  simp [elemAt, elementOffset_nil, orUb]

/-- An assembly made from an `xarray` that is moved into it has a single flag: marking any element as missing marks all. -/
theorem C52_moved_values_share_a_flag (L l : Layout) (sh : List Nat) (vals : List α) (i j : List Int) (v : α)
    (hj : elemAt (computeStrides L l sh).1 vals j = .ok v) :
    ∃ d, (OptLeaf.ofMovedValues L l sh [] vals).setMissing i = .ok d ∧
      (OExpr.opt (OptLeaf.ofMovedValues L l sh [] vals)).access j = .ok (some v) ∧ (OExpr.opt d).access j = .ok none := by
  have hs : (computeStrides L l []) = ([], 1) := by
    unfold computeStrides
    split <;> rfl
  refine ⟨{ OptLeaf.ofMovedValues L l sh [] vals with flags := [false] }, ?_, ?_, ?_⟩
  · simp only [OptLeaf.setMissing, OptLeaf.ofMovedValues, OptLeaf.assembly, hs, elementOffset_nil]
    rfl
  · simp only [OExpr.access, OptLeaf.ofMovedValues, OptLeaf.assembly, hs, hj, Res.bind_ok]
    exact congrArg (Res.map _) (elemAt_nil true j)
  · simp only [OExpr.access, OptLeaf.ofMovedValues, OptLeaf.assembly, hs, hj, Res.bind_ok, elemAt_nil]
    rfl

/-- Made from an `xarray` that is kept, or from an `xtensor`, every element has its own flag: marking an element as missing
changes that element only. -/
theorem C52_values_own_flags (L l : Layout) (sh : List Nat) (vals : List α) (hv : vals.length = numel sh) (i j : List Nat)
    (hi : InBounds sh i) (hj : InBounds sh j) :
    ∃ d, (OptLeaf.ofValues L l sh vals).setMissing (toInts i) = .ok d ∧
      (OExpr.opt d).access (toInts i) = .ok none ∧
      (j ≠ i → ∃ v, elemAt (computeStrides L l sh).1 vals (toInts j) = .ok v ∧ (OExpr.opt d).access (toInts j) = .ok (some v)) := by
  obtain ⟨a1, a2⟩ := computeStrides_addresses L l sh _ rfl
  obtain ⟨i0, i1⟩ := a1 i (mem_rowIndices.2 hi)
  obtain ⟨j0, j1⟩ := a1 j (mem_rowIndices.2 hj)
  have hsz : (computeStrides L l sh).2.toNat = numel sh := by
    rw [computeStrides_size]
    simp
  have hval : ∀ o : Int, 0 ≤ o → o < numel sh → ∃ v, vals[o.toNat]? = some v := fun o h0 h1 =>
    ⟨vals[o.toNat]'(by omega), List.getElem?_eq_getElem (by omega)⟩
  obtain ⟨vi, hvi⟩ := hval _ i0 i1
  obtain ⟨vj, hvj⟩ := hval _ j0 j1
  refine ⟨.assembly (computeStrides L l sh).1 (computeStrides L l sh).1 vals ((List.replicate (numel sh) true).set
    (elementOffset (computeStrides L l sh).1 (toInts i)).toNat false), ?_, ?_, ?_⟩
  · simp only [OptLeaf.setMissing, OptLeaf.ofValues, OptLeaf.assembly, hsz, List.length_replicate]
    rw [if_neg (by omega)]
  · simp only [OExpr.access, OptLeaf.assembly]
    rw [elemAt_nonneg i0, elemAt_nonneg i0, hvi, List.getElem?_set_self (by simp; omega)]
    rfl
  · intro hne
    refine ⟨vj, ?_, ?_⟩
    · rw [elemAt, if_neg (by omega), hvj]
      rfl
    · have hne' : (elementOffset (computeStrides L l sh).1 (toInts i)).toNat ≠
          (elementOffset (computeStrides L l sh).1 (toInts j)).toNat := by
        intro h
        exact hne (a2 j (mem_rowIndices.2 hj) i (mem_rowIndices.2 hi) (by omega))
      simp only [OExpr.access, OptLeaf.assembly]
      rw [elemAt_nonneg j0, elemAt_nonneg j0, hvj, List.getElem?_set_ne hne', List.getElem?_replicate, if_pos (by omega)]
      rfl

/-! ## Examples -/

/-- `a + b * 2` with `a` of shape `{2, 2}` and `b` of shape `{2}`, broadcast. -/
def optSample : OExpr Int :=
  .fn (fun vs => some vs.sum) (fun vs => some vs.sum)
    [.opt (.container .row_major .row_major [2, 2] [1, 2, 3, 4] [true, false, true, true]),
     .fn (fun vs => some vs.prod) (fun vs => some vs.prod)
       [.opt (.container .row_major .row_major [2] [10, 20] [true, true]), .pscalar 2]]

example : optSample.Splits ∧ optSample.Total := by
  simp [optSample, OExpr.Splits, OExpr.AllSplit, OExpr.Total, OExpr.AllTotal, OptLeaf.container, adaptorStrides]

example : optSample.access [0, 0] = .ok (some 21) ∧ optSample.access [0, 1] = .ok none ∧
    optSample.valueAt [0, 1] = .ok 42 ∧ optSample.flagAt [0, 1] = .ok false ∧ optSample.access [1, 1] = .ok (some 44) := by
  decide

example : ∃ t, optSample.term [1, 1] = .ok t := ⟨_, rfl⟩

example : ((OptLeaf.assign (.container .row_major .row_major [2, 2] [0, 0, 0, 0] [true, true, true, true]) [2, 2] optSample).map
    fun d => (d.vals, d.flags)) = .ok ([21, 42, 23, 44], [true, false, true, true]) := by
  decide

example : ((OptLeaf.assign (.assembly (computeStrides .column_major .column_major [2, 2]).1
    (computeStrides .row_major .row_major [2, 2]).1 [0, 0, 0, 0] [true, true, true, true]) [2, 2] optSample).map
    fun d => (d.vals, d.flags)) = .ok ([21, 23, 42, 44], [true, false, true, true]) := by
  decide

example : (OExpr.opt (.container .row_major .row_major [2] [(1 : Int), 2] [true, false])).access [-1] = .ub ∧
    (OExpr.opt (.assembly [1] [1] [(1 : Int), 2] [true])).access [1] = .ub := by
  decide

/-- A sum along the rows of the sample. -/
def optSumSample : OExpr Int :=
  .red (fun u v => some (u + v)) 0 true (fun i => [i ++ [0], i ++ [1]]) optSample

example : optSumSample.access [0] = .ok none ∧ optSumSample.access [1] = .ok (some 67) ∧
    optSumSample.valueAt [1] = .ok 67 ∧ optSumSample.flagAt [0] = .ok false := by
  decide

example : elemAt (computeStrides .row_major .row_major [2, 2]).1 [5, 6, 7, (8 : Int)] [1, 0] = .ok 7 := by decide

end Xt
