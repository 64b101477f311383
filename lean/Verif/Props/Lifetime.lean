import Verif.Model.Lifetime
/-!
# C83: an expression built from temporaries owns them

"Owns" is stated as: everything the expression reaches lies in variables of the caller.
-/

namespace Xt

open Place

namespace Spec

mutual
/-- `o` refers to the object at `x`, itself or through what it holds. -/
inductive Reaches {α : Type} : LObj α → Place → Prop
  | shared {o : LObj α} {x : Place} : Reaches o x → Reaches (.shared o) x
  | node {f : List α → α} {hs : Helds α} {x : Place} : HReaches hs x → Reaches (.node f hs) x
/-- One of the members refers to the object at `x`. -/
inductive HReaches {α : Type} : Helds α → Place → Prop
  | here {x : Place} {o : LObj α} {hs : Helds α} : HReaches (.at x o hs) x
  | through {x y : Place} {o : LObj α} {hs : Helds α} : Reaches o y → HReaches (.at x o hs) y
  | owned {y : Place} {o : LObj α} {hs : Helds α} : Reaches o y → HReaches (.own o hs) y
  | afterAt {x y : Place} {o : LObj α} {hs : Helds α} : HReaches hs y → HReaches (.at x o hs) y
  | afterOwn {y : Place} {o : LObj α} {hs : Helds α} : HReaches hs y → HReaches (.own o hs) y
end

/-- The caller's variables: those passed to the function, and those their contents refer to. -/
def CallersPlace {α : Type} (args : List (LVar α)) (x : Place) : Prop :=
  (∃ n c o, LVar.out n c o ∈ args ∧ x = .outer n) ∨ ∃ v ∈ args, Reaches v.obj x

/-- The arguments refer to no local object of the function. -/
def FromOutside {α : Type} (args : List (LVar α)) : Prop :=
  ∀ v ∈ args, ∀ x, Reaches v.obj x → ∃ n, x = .outer n

/-- The object can be used after the call: it refers to variables of the caller only. -/
def Survives {α : Type} (args : List (LVar α)) (o : LObj α) : Prop :=
  ∀ x, Reaches o x → CallersPlace args x ∧ ∃ n, x = .outer n

end Spec

open Spec

variable {α : Type}

/-! ### Reaching and the lists of references -/

mutual
theorem mem_refs_iff {x : Place} : ∀ o : LObj α, x ∈ o.refs ↔ Reaches o x
  | .data s v => by
    constructor
    · intro h; simp [LObj.refs] at h
    · intro h; cases h
  | .gone s => by
    constructor
    · intro h; simp [LObj.refs] at h
    · intro h; cases h
  | .shared o => by
    rw [LObj.refs, mem_refs_iff o]
    exact ⟨.shared, fun h => by cases h; assumption⟩
  | .node f hs => by
    rw [LObj.refs, mem_hrefs_iff hs]
    exact ⟨.node, fun h => by cases h; assumption⟩
theorem mem_hrefs_iff {x : Place} : ∀ hs : Helds α, x ∈ hs.refs ↔ HReaches hs x
  | .nil => by
    constructor
    · intro h; simp [Helds.refs] at h
    · intro h; cases h
  | .own o hs => by
    rw [Helds.refs, List.mem_append, mem_refs_iff o, mem_hrefs_iff hs]
    exact ⟨fun h => h.elim .owned .afterOwn, fun h => by cases h <;> simp_all⟩
  | .at y o hs => by
    rw [Helds.refs, List.mem_cons, List.mem_append, mem_refs_iff o, mem_hrefs_iff hs]
    constructor
    · rintro (rfl | h | h)
      · exact .here
      · exact .through h
      · exact .afterAt h
    · intro h; cases h <;> simp_all
end

instance (o : LObj α) (x : Place) : Decidable (Reaches o x) := decidable_of_iff _ (mem_refs_iff o)

instance (hs : Helds α) (x : Place) : Decidable (HReaches hs x) := decidable_of_iff _ (mem_hrefs_iff hs)

/-! ### The style of the library

A function written with these terms uses what it was given by `std::forward`, its local variables by `std::move`;
a variable made by `shared_forward` may be used by name, as often as needed, in functions, operators and reductions. -/

mutual
/-- `sh` tells which variables were made by `shared_forward`. -/
def Tm.tidy (sh : List Bool) : Tm α → Bool
  | .fwd _ => true
  | .use _ => false
  | .low _ => false
  | .lit _ => true
  | .call _ ts => ts.tidy sh
  | .evl _ _ => true
  | .shr t => t.tidy sh
  | .sfw _ => true
def Tms.tidy (sh : List Bool) : Tms α → Bool
  | .nil => true
  | .cons cl t ts =>
    (match t with
      | .use i => decide (cl = .constXclosure) && sh.getD i false
      | t => decide (cl ≠ .captureRef) && t.tidy sh) && ts.tidy sh
end

/-- The same for declarations. -/
def Decl.tidy (sh : List Bool) : Decl α → Bool
  | .auto _ t => t.tidy sh
  | .deduced t => t.tidy sh

/-- Is the variable made by `shared_forward`? -/
def Decl.shares : Decl α → Bool
  | .deduced (.sfw _) => true
  | _ => false

/-- Declarations one after the other. -/
def tidyDecls : List Bool → List (Decl α) → Bool
  | _, [] => true
  | sh, d :: ds => d.tidy sh && tidyDecls (sh ++ [d.shares]) ds

/-- A function of `n` parameters written in this style. -/
def LFn.tidy (n : Nat) (p : LFn α) : Bool :=
  tidyDecls (List.replicate n false) p.decls &&
    p.ret.tidy (List.replicate n false ++ p.decls.map (fun (d : Decl α) => d.shares))

/-! ### Soundness of the style -/

/-- A variable whose contents lie within `A`. -/
def VarIn (A : Place → Prop) (v : LVar α) : Prop :=
  (∀ x, Reaches v.obj x → A x) ∧ ∀ n c o, v = .out n c o → A (.outer n)

/-- A variable that may be used by name: the caller's, or shared. -/
def VarByName (v : LVar α) : Prop := (∃ n c o, v = .out n c o) ∨ ∃ o, v = .inn false o ∧ o.sort = .shared

def EnvIn (A : Place → Prop) (sh : List Bool) (env : List (LVar α)) : Prop :=
  sh.length = env.length ∧ ∀ i, VarIn A (lvarAt env i) ∧ (sh.getD i false = true → VarByName (lvarAt env i))

/-- A result that can be held without referring to anything outside `A`. -/
def GotIn (A : Place → Prop) (env : List (LVar α)) : Got α → Prop
  | .var i c => (∃ n k o, lvarAt env i = .out n k o) ∨ c = .rv
  | .tmp o => ∀ x, Reaches o x → A x
  | .tmpLv _ => False

theorem fade_in {A : Place → Prop} {v : LVar α} (h : VarIn A v) : VarIn A v.fade := by
  cases v with
  | out n c o => exact ⟨fun x hx => (by cases hx), fun n' c' o' he => (by cases he; exact h.2 n c o rfl)⟩
  | inn c o => exact ⟨fun x hx => (by cases hx), fun n' c' o' he => (by cases he)⟩

theorem fade_byName {v : LVar α} (h : VarByName v) : VarByName v.fade := by
  rcases h with ⟨n, c, o, rfl⟩ | ⟨o, rfl, ho⟩
  · exact Or.inl ⟨n, c, _, rfl⟩
  · exact Or.inr ⟨_, rfl, ho⟩

theorem lvarAt_set {env : List (LVar α)} {i j : Nat} {v : LVar α} :
    lvarAt (env.set i v) j = if i = j ∧ i < env.length then v else lvarAt env j := by
  unfold lvarAt
  rw [List.getD_eq_getElem?_getD, List.getElem?_set, List.getD_eq_getElem?_getD]
  by_cases h : i = j
  · by_cases hl : i < env.length
    · simp [h, h ▸ hl]
    · subst h; simp [hl]
  · simp [h]

theorem envIn_set_fade {A : Place → Prop} {sh : List Bool} {env : List (LVar α)} (h : EnvIn A sh env) (i : Nat) :
    EnvIn A sh (env.set i (lvarAt env i).fade) := by
  refine ⟨by rw [List.length_set]; exact h.1, fun j => ?_⟩
  rw [lvarAt_set]
  by_cases hj : i = j ∧ i < env.length
  · rw [if_pos hj, ← hj.1]
    exact ⟨fade_in (h.2 i).1, fun hs => fade_byName ((h.2 i).2 hs)⟩
  · rw [if_neg hj]; exact h.2 j

theorem envIn_fadeHeld {A : Place → Prop} {sh : List Bool} {env : List (LVar α)} (h : EnvIn A sh env) (cl : Closing)
    (g : Got α) : EnvIn A sh (fadeHeld cl g env) := by
  unfold fadeHeld
  cases g with
  | var i c =>
    show EnvIn A sh (if _ then _ else _)
    split
    · exact envIn_set_fade h i
    · exact h
  | tmp o => exact h
  | tmpLv o => exact h

mutual
theorem run_envIn {A : Place → Prop} {sh : List Bool} : ∀ (t : Tm α) (env : List (LVar α)), EnvIn A sh env →
    EnvIn A sh (t.run env).2
  | .fwd _, _, h => by unfold Tm.run; exact h
  | .use _, _, h => by unfold Tm.run; exact h
  | .low t, env, h => by
    have := run_envIn t env h
    unfold Tm.run
    split <;> simp_all
  | .lit _, _, h => by unfold Tm.run; exact h
  | .call _ ts, env, h => by unfold Tm.run; exact runs_envIn ts env h
  | .evl _ t, env, h => by unfold Tm.run; exact run_envIn t env h
  | .shr t, env, h => by unfold Tm.run; exact run_envIn t env h
  | .sfw i, env, h => by unfold Tm.run; split <;> exact h
theorem runs_envIn {A : Place → Prop} {sh : List Bool} : ∀ (ts : Tms α) (env : List (LVar α)), EnvIn A sh env →
    EnvIn A sh (ts.run env).2
  | .nil, _, h => by unfold Tms.run; exact h
  | .cons cl t ts, env, h => by
    unfold Tms.run
    exact runs_envIn ts _ (envIn_fadeHeld (run_envIn t env h) cl _)
end

theorem holds_rv {cl : Closing} (h : cl ≠ .captureRef) (s : OSort) : cl.holds s .rv = .byVal := by
  cases cl <;> cases s <;> first | rfl | exact absurd rfl h

theorem holdOperand_in {A : Place → Prop} {sh : List Bool} {env : List (LVar α)} (he : EnvIn A sh env) {cl : Closing}
    (hc : cl ≠ .captureRef) {g : Got α} (hg : GotIn A env g) {hs : Helds α} (hh : ∀ x, HReaches hs x → A x) :
    ∀ x, HReaches (holdOperand cl g env hs) x → A x := by
  intro x hx
  cases g with
  | var i c =>
    have hv := (he.2 i).1
    simp only [holdOperand] at hx
    rcases hg with ⟨n, k, o, ho⟩ | rfl
    · split at hx
      · cases hx with
        | here => rw [ho]; exact hv.2 n k o ho
        | through h => exact hv.1 x h
        | afterAt h => exact hh x h
      · cases hx with
        | owned h => exact hv.1 x h
        | afterOwn h => exact hh x h
    · rw [holds_rv hc] at hx
      cases hx with
      | owned h => exact hv.1 x h
      | afterOwn h => exact hh x h
  | tmp o =>
    simp only [holdOperand, holds_rv hc] at hx
    cases hx with
    | owned h => exact hg x h
    | afterOwn h => exact hh x h
  | tmpLv o => exact hg.elim

/-- A shared variable used by name. -/
theorem holdByName_in {A : Place → Prop} {sh : List Bool} {env : List (LVar α)} (he : EnvIn A sh env) {i : Nat}
    (hi : sh.getD i false = true) {hs : Helds α} (hh : ∀ x, HReaches hs x → A x) :
    ∀ x, HReaches (holdOperand .constXclosure (.var i (lvarAt env i).named) env hs) x → A x := by
  intro x hx
  have hv := (he.2 i).1
  rcases (he.2 i).2 hi with ⟨n, c, o, ho⟩ | ⟨o, ho, hs'⟩
  · refine holdOperand_in he (cl := .constXclosure) (by decide) (g := .var i (lvarAt env i).named) (Or.inl ⟨n, c, o, ho⟩) hh x hx
  · simp only [holdOperand, ho, LVar.obj, LVar.named, hs', Closing.holds] at hx
    simp only [Bool.false_eq_true, if_false, and_self, if_true] at hx
    cases hx with
    | owned h => exact hv.1 x (by rw [ho]; exact h)
    | afterOwn h => exact hh x h

mutual
theorem run_gotIn {A : Place → Prop} {sh : List Bool} : ∀ (t : Tm α) (env : List (LVar α)), EnvIn A sh env →
    t.tidy sh = true → GotIn A (t.run env).2 (t.run env).1
  | .fwd i, env, h, _ => by
    unfold Tm.run
    show GotIn A env (.var i _)
    cases hv : lvarAt env i with
    | out n c o => exact Or.inl ⟨n, c, o, hv⟩
    | inn c o => exact Or.inr rfl
  | .use i, _, _, ht => by simp [Tm.tidy] at ht
  | .low t, _, _, ht => by simp [Tm.tidy] at ht
  | .lit v, _, _, _ => by
    unfold Tm.run
    intro x hx; cases hx
  | .call f ts, env, h, ht => by
    unfold Tm.run
    intro x hx
    cases hx with
    | node h' => exact runs_in ts env h (by simpa [Tm.tidy] using ht) x h'
  | .evl s t, env, h, _ => by
    unfold Tm.run
    intro x hx
    unfold evaluated at hx
    split at hx <;> cases hx
  | .shr t, env, h, ht => by
    have h1 := run_gotIn t env h (by simpa [Tm.tidy] using ht)
    have h2 := run_envIn t env h
    unfold Tm.run
    intro x hx
    cases hx with
    | shared hx' =>
      cases hg : (t.run env).1 with
      | var i c => rw [hg] at hx'; exact (h2.2 i).1.1 x hx'
      | tmp o => rw [hg] at hx' h1; exact h1 x hx'
      | tmpLv o => rw [hg] at h1; exact h1.elim
  | .sfw i, env, h, _ => by
    unfold Tm.run
    have hv := (h.2 i).1
    cases ho : lvarAt env i with
    | out n c o => exact Or.inl ⟨n, c, o, ho⟩
    | inn c o =>
      intro x hx
      cases hx with
      | shared hx' => exact hv.1 x (by rw [ho]; exact hx')
theorem runs_in {A : Place → Prop} {sh : List Bool} : ∀ (ts : Tms α) (env : List (LVar α)), EnvIn A sh env →
    ts.tidy sh = true → ∀ x, HReaches (ts.run env).1 x → A x
  | .nil, _, _, _, x, hx => by unfold Tms.run at hx; cases hx
  | .cons cl t ts, env, h, ht, x, hx => by
    have h1 := run_envIn t env h
    have hrest : ts.tidy sh = true := by
      rw [Tms.tidy.eq_def] at ht; simp only [Bool.and_eq_true] at ht; exact ht.2
    have ih := runs_in ts (fadeHeld cl (t.run env).1 (t.run env).2) (envIn_fadeHeld h1 cl _) hrest
    unfold Tms.run at hx
    by_cases hu : ∃ i, t = .use i
    · obtain ⟨i, rfl⟩ := hu
      simp only [Tms.tidy, Bool.and_eq_true, decide_eq_true_eq] at ht
      obtain ⟨⟨rfl, hi⟩, _⟩ := ht
      unfold Tm.run at hx h1 ih
      exact holdByName_in h1 hi ih x hx
    · have ht' : cl ≠ .captureRef ∧ t.tidy sh = true := by
        cases t <;> simp_all [Tms.tidy]
      exact holdOperand_in h1 ht'.1 (run_gotIn t env h ht'.2) ih x hx
end

theorem run_sfw_out {env : List (LVar α)} {i n : Nat} {c : Bool} {o : LObj α} (h : lvarAt env i = .out n c o) :
    (Tm.sfw i : Tm α).run env = (.var i (if c = true then .clv else .lv), env) := by
  unfold Tm.run; rw [h]

theorem run_sfw_inn {env : List (LVar α)} {i : Nat} {c : Bool} {o : LObj α} (h : lvarAt env i = .inn c o) :
    (Tm.sfw i : Tm α).run env = (.tmp (.shared o), env) := by
  unfold Tm.run; rw [h]

theorem lvarAt_append {env : List (LVar α)} {v : LVar α} {i : Nat} :
    lvarAt (env ++ [v]) i = if i = env.length then v else lvarAt env i := by
  unfold lvarAt
  rw [List.getD_eq_getElem?_getD, List.getD_eq_getElem?_getD]
  by_cases h : i < env.length
  · rw [List.getElem?_append_left h, if_neg (by omega)]
  · by_cases he : i = env.length
    · subst he; simp
    · rw [if_neg he, List.getElem?_eq_none (by simp; omega), List.getElem?_eq_none (by omega)]

theorem getD_append_one {sh : List Bool} {b : Bool} {i : Nat} :
    (sh ++ [b]).getD i false = if i = sh.length then b else sh.getD i false := by
  rw [List.getD_eq_getElem?_getD, List.getD_eq_getElem?_getD]
  by_cases h : i < sh.length
  · rw [List.getElem?_append_left h, if_neg (by omega)]
  · by_cases he : i = sh.length
    · subst he; simp
    · rw [if_neg he, List.getElem?_eq_none (by simp; omega), List.getElem?_eq_none (by omega)]

theorem envIn_append {A : Place → Prop} {sh : List Bool} {env : List (LVar α)} (h : EnvIn A sh env) {b : Bool}
    {v : LVar α} (hv : VarIn A v) (hb : b = true → VarByName v) : EnvIn A (sh ++ [b]) (env ++ [v]) := by
  refine ⟨by simp [h.1], fun i => ?_⟩
  rw [lvarAt_append, getD_append_one, h.1]
  by_cases hi : i = env.length
  · rw [if_pos hi, if_pos hi]; exact ⟨hv, hb⟩
  · rw [if_neg hi, if_neg hi]; exact h.2 i

theorem inn_in {A : Place → Prop} {c : Bool} {o : LObj α} (h : ∀ x, Reaches o x → A x) : VarIn A (.inn c o) :=
  ⟨h, fun _ _ _ he => by cases he⟩

theorem decl_envIn {A : Place → Prop} {sh : List Bool} {env : List (LVar α)} (h : EnvIn A sh env) (d : Decl α)
    (hd : d.tidy sh = true) : EnvIn A (sh ++ [d.shares]) (d.run env) := by
  cases d with
  | auto c t =>
    have h1 := run_envIn t env h
    have h2 := run_gotIn t env h hd
    have hs : (Decl.auto c t).shares = false := rfl
    rw [hs]
    cases hr : t.run env with
    | mk g env' =>
      rw [hr] at h1 h2
      simp only [Decl.run, hr]
      cases g with
      | var i k =>
        cases k with
        | rv => exact envIn_append (b := false) (envIn_set_fade h1 i) (inn_in (h1.2 i).1.1) (fun hf => Bool.noConfusion hf)
        | lv => exact envIn_append (b := false) h1 (inn_in (h1.2 i).1.1) (fun hf => Bool.noConfusion hf)
        | clv => exact envIn_append (b := false) h1 (inn_in (h1.2 i).1.1) (fun hf => Bool.noConfusion hf)
      | tmp o => exact envIn_append (b := false) h1 (inn_in h2) (fun hf => Bool.noConfusion hf)
      | tmpLv o => exact h2.elim
  | deduced t =>
    have h1 := run_envIn t env h
    have h2 := run_gotIn t env h hd
    by_cases hsf : ∃ i, t = .sfw i
    · obtain ⟨i, rfl⟩ := hsf
      have hv := (h.2 i).1
      cases ho : lvarAt env i with
      | out n c o =>
        simp only [Decl.run, run_sfw_out ho]
        show EnvIn A (sh ++ [true]) (env ++ [lvarAt env i])
        exact envIn_append h hv (fun _ => Or.inl ⟨n, c, o, ho⟩)
      | inn c o =>
        simp only [Decl.run, run_sfw_inn ho]
        show EnvIn A (sh ++ [true]) (env ++ [.inn false (.shared o)])
        refine envIn_append h (inn_in fun x hx => ?_) (fun _ => Or.inr ⟨_, rfl, rfl⟩)
        cases hx with
        | shared hx' => exact hv.1 x (by rw [ho]; exact hx')
    · have hs : (Decl.deduced t).shares = false := by
        cases t <;> first | rfl | exact absurd ⟨_, rfl⟩ hsf
      rw [hs]
      cases hr : t.run env with
      | mk g env' =>
        rw [hr] at h1 h2
        simp only [Decl.run, hr]
        cases g with
        | var i k => exact envIn_append (b := false) h1 (h1.2 i).1 (fun hf => Bool.noConfusion hf)
        | tmp o => exact envIn_append (b := false) h1 (inn_in h2) (fun hf => Bool.noConfusion hf)
        | tmpLv o => exact h2.elim

theorem decls_envIn {A : Place → Prop} : ∀ (ds : List (Decl α)) (sh : List Bool) (env : List (LVar α)), EnvIn A sh env →
    tidyDecls sh ds = true →
    EnvIn A (sh ++ ds.map (fun (d : Decl α) => d.shares)) (ds.foldl (fun (e : List (LVar α)) (d : Decl α) => d.run e) env)
  | [], sh, env, h, _ => by simpa using h
  | d :: ds, sh, env, h, ht => by
    simp only [tidyDecls, Bool.and_eq_true] at ht
    have := decls_envIn ds _ _ (decl_envIn h d ht.1) ht.2
    simpa using this

theorem tidy_run {A : Place → Prop} (p : LFn α) (args : List (LVar α)) (hp : p.tidy args.length = true)
    (ha : ∀ v ∈ args, VarIn A v) : ∀ x, Reaches (p.run args) x → A x := by
  have h0 : EnvIn A (List.replicate args.length false) args := by
    refine ⟨by simp, fun i => ⟨?_, fun h => ?_⟩⟩
    · unfold lvarAt
      rw [List.getD_eq_getElem?_getD]
      cases hi : args[i]? with
      | none => exact inn_in fun x hx => by cases hx
      | some v => exact ha v (List.mem_of_getElem? hi)
    · exfalso
      rw [List.getD_eq_getElem?_getD, List.getElem?_replicate] at h
      split at h <;> simp at h
  simp only [LFn.tidy, Bool.and_eq_true] at hp
  have h1 := decls_envIn p.decls _ _ h0 hp.1
  have h2 := run_gotIn p.ret _ h1 hp.2
  have h3 := run_envIn p.ret _ h1
  intro x hx
  unfold LFn.run at hx
  cases hg : (p.ret.run (p.decls.foldl (fun (e : List (LVar α)) (d : Decl α) => d.run e) args)).1 with
  | var i c => simp only [hg] at hx; exact (h3.2 i).1.1 x hx
  | tmp o => simp only [hg] at hx; rw [hg] at h2; exact h2 x hx
  | tmpLv o => rw [hg] at h2; exact h2.elim

/-- **C83 the style is sound.** Whatever the number and kind of the arguments — variables, constants, temporaries, shared
or not — a function that forwards its parameters, moves its local variables and shares what it uses more than once
returns an expression that refers to variables of the caller only, to those that were passed as variables. -/
theorem C83_style_sound (p : LFn α) (args : List (LVar α)) (hp : p.tidy args.length = true) (ha : FromOutside args) :
    Survives args (p.run args) := by
  intro x hx
  refine tidy_run (A := fun (x : Place) => CallersPlace args x ∧ ∃ n, x = .outer n) p args hp (fun v hv => ⟨fun x h => ?_, fun n c o he => ?_⟩) x hx
  · exact ⟨Or.inr ⟨v, hv, h⟩, ha v hv x h⟩
  · exact ⟨Or.inl ⟨n, c, o, he ▸ hv, rfl⟩, n, rfl⟩

example : Survives [.inn false (.node (fun (l : List Int) => l.sum) (.at (.outer 3) (.data false 5) .nil)), .out 7 true (.data false (2 : Int))]
    ((isinFn fun (l : List Int) => l.sum).run
      [.inn false (.node (fun (l : List Int) => l.sum) (.at (.outer 3) (.data false 5) .nil)), .out 7 true (.data false 2)]) :=
  C83_style_sound _ _ rfl (by
    intro v hv x hx
    simp only [List.mem_cons, List.not_mem_nil, or_false] at hv
    rcases hv with rfl | rfl
    · cases hx with
      | node h => cases h with
        | here => exact ⟨3, rfl⟩
        | through h => cases h
        | afterAt h => cases h
    · cases hx)

/-- **C83 the statistics.** `mean`, `average` with weights, `variance`, `stddev`, `nanmean`, `nanvar`, with and without
axes, given any variable or temporary, return expressions that own the temporaries and refer to the variables. -/
theorem C83_statistics (k : StatFns α) (v w : LVar α) (hv : FromOutside [v, w]) (hv' : FromOutside [v]) :
    Survives [v] ((meanFn k).run [v]) ∧ Survives [v, w] ((averageWeightsFn k).run [v, w]) ∧
      Survives [v, w] ((averageAxesFn k).run [v, w]) ∧ Survives [v] ((varianceFn k).run [v]) ∧
      Survives [v] ((stddevFn k).run [v]) ∧ Survives [v] ((varianceAxesFn k).run [v]) ∧
      Survives [v] ((nanmeanFn k).run [v]) ∧ Survives [v] ((nanvarFn k).run [v]) ∧
      Survives [v] ((nanvarAxesFn k).run [v]) :=
  ⟨C83_style_sound _ _ rfl hv', C83_style_sound _ _ rfl hv, C83_style_sound _ _ rfl hv, C83_style_sound _ _ rfl hv',
    C83_style_sound _ _ rfl hv', C83_style_sound _ _ rfl hv', C83_style_sound _ _ rfl hv', C83_style_sound _ _ rfl hv',
    C83_style_sound _ _ rfl hv'⟩

/-- **C83 views and functions.** So do `flip(e, axis)`, `isin(e, elements)`, and reductions, whose axes too are kept. -/
theorem C83_functions (f : List α → α) (signed : Bool) (v w : LVar α) (hv : FromOutside [v, w]) (hv' : FromOutside [v]) :
    Survives [v] ((flipFn f).run [v]) ∧ Survives [v, w] ((isinFn f).run [v, w]) ∧
      Survives [v, w] ((reduceFn signed f).run [v, w]) :=
  ⟨C83_style_sound _ _ rfl hv', C83_style_sound _ _ rfl hv, C83_style_sound _ _ (by cases signed <;> rfl) hv⟩

/-! ### What the expressions read -/

theorem holdOperand_values (cl : Closing) (g : Got α) (env : List (LVar α)) (hs : Helds α) :
    (holdOperand cl g env hs).values = (g.obj env).value.bind fun v => hs.values.map (v :: ·) := by
  cases g <;> simp only [holdOperand] <;> split <;> rfl

namespace Spec

mutual
/-- What a term means if nobody minds ownership: every name stands for its value. -/
def tmValue {α : Type} (vals : Nat → Option α) : Tm α → Option α
  | .fwd i => vals i
  | .use i => vals i
  | .low t => tmValue vals t
  | .lit v => some v
  | .call f ts => (tmsValue vals ts).map f
  | .evl _ t => tmValue vals t
  | .shr t => tmValue vals t
  | .sfw i => vals i
def tmsValue {α : Type} (vals : Nat → Option α) : Tms α → Option (List α)
  | .nil => some []
  | .cons _ t ts => (tmValue vals t).bind fun v => (tmsValue vals ts).map (v :: ·)
end

/-- The term on the right of a declaration. -/
def declTm {α : Type} : Decl α → Tm α
  | .auto _ t => t
  | .deduced t => t

/-- Declarations name the values of their terms, `n` being the number of names so far. -/
def declValues {α : Type} : List (Decl α) → Nat → (Nat → Option α) → (Nat → Option α)
  | [], _, vals => vals
  | d :: ds, n, vals => declValues ds (n + 1) fun (i : Nat) => if i = n then tmValue vals (declTm d) else vals i

/-- What a function means if nobody minds ownership. -/
def fnValue {α : Type} (p : LFn α) (args : List (LVar α)) : Option α :=
  tmValue (declValues p.decls args.length fun (i : Nat) => (lvarAt args i).obj.value) p.ret

end Spec

mutual
/-- Variables a term reads. -/
def Tm.uses : Tm α → List Nat
  | .fwd i => [i]
  | .use i => [i]
  | .low t => t.uses
  | .lit _ => []
  | .call _ ts => ts.uses
  | .evl _ t => t.uses
  | .shr t => t.uses
  | .sfw i => [i]
def Tms.uses : Tms α → List Nat
  | .nil => []
  | .cons _ t ts => t.uses ++ ts.uses
end

/-- The variable a term hands over when it is held or copied. -/
def Tm.handsOver : Tm α → List Nat
  | .fwd i => [i]
  | _ => []

mutual
/-- Variables a term may move from. -/
def Tm.moves : Tm α → List Nat
  | .low t => t.moves
  | .call _ ts => ts.moves
  | .evl _ t => t.moves
  | .shr t => t.moves
  | _ => []
def Tms.moves : Tms α → List Nat
  | .nil => []
  | .cons _ t ts => t.moves ++ t.handsOver ++ ts.moves
end

mutual
/-- No variable is used after it may have been moved from. -/
def Tm.orderly : Tm α → Bool
  | .low t => t.orderly
  | .call _ ts => ts.orderly
  | .evl _ t => t.orderly
  | .shr t => t.orderly
  | _ => true
def Tms.orderly : Tms α → Bool
  | .nil => true
  | .cons _ t ts =>
    t.orderly && ts.orderly && ts.uses.all (fun (i : Nat) => decide (i ∉ t.moves ++ t.handsOver))
end

/-- Variables a declaration may move from. -/
def Decl.moves : Decl α → List Nat
  | .auto _ t => t.moves ++ t.handsOver
  | .deduced t => t.moves

/-- The same for declarations followed by a term, after the variables `gone` were moved from. -/
def orderlyFrom (gone : List Nat) : List (Decl α) → Tm α → Bool
  | [], t => t.orderly && t.uses.all (fun (i : Nat) => decide (i ∉ gone))
  | d :: ds, t => (declTm d).orderly && (declTm d).uses.all (fun (i : Nat) => decide (i ∉ gone)) &&
      orderlyFrom (gone ++ d.moves) ds t

/-- No variable is used after it may have been moved from. -/
def LFn.orderly (p : LFn α) : Bool := orderlyFrom [] p.decls p.ret

theorem run_rv {t : Tm α} {env : List (LVar α)} {i : Nat} (h : (t.run env).1 = .var i .rv) : t = .fwd i := by
  cases t with
  | fwd j => simp only [Tm.run, Got.var.injEq] at h; rw [h.1]
  | use j =>
    simp only [Tm.run, Got.var.injEq] at h
    have := h.2
    cases hv : lvarAt env j with
    | out n c o => rw [hv] at this; cases c <;> simp [LVar.named] at this
    | inn c o => rw [hv] at this; cases c <;> simp [LVar.named] at this
  | low t =>
    unfold Tm.run at h
    split at h
    · simp only [Got.var.injEq] at h
      have := h.2
      split at this
      · simp at this
      · contradiction
    · simp at h
    · simp at h
  | lit v => simp [Tm.run] at h
  | call f ts => simp [Tm.run] at h
  | evl s t => simp [Tm.run] at h
  | shr t => simp [Tm.run] at h
  | sfw j =>
    unfold Tm.run at h
    split at h
    · simp only [Got.var.injEq] at h
      have := h.2
      split at this <;> simp at this
    · simp at h

theorem lvarAt_fadeHeld {t : Tm α} {env : List (LVar α)} {cl : Closing} {j : Nat} (hj : j ∉ t.handsOver) :
    lvarAt (fadeHeld cl (t.run env).1 (t.run env).2) j = lvarAt (t.run env).2 j := by
  unfold fadeHeld
  cases hg : (t.run env).1 with
  | var i c =>
    show lvarAt (if _ then _ else _) j = _
    split
    · rename_i hc
      have hc1 := hc.1
      subst hc1
      have := run_rv hg
      subst this
      rw [lvarAt_set, if_neg (by simp [Tm.handsOver] at hj; omega)]
    · rfl
  | tmp o => rfl
  | tmpLv o => rfl

theorem evaluated_value (s : Bool) (o : LObj α) : (evaluated s o).value = o.value := by
  unfold evaluated
  cases h : o.value with
  | some v => rfl
  | none => rfl

mutual
theorem run_value (vals : Nat → Option α) : ∀ (t : Tm α) (env : List (LVar α)), t.orderly = true →
    (∀ i ∈ t.uses, (lvarAt env i).obj.value = vals i) →
    ((t.run env).1.obj (t.run env).2).value = tmValue vals t ∧
      ∀ j, j ∉ t.moves → lvarAt (t.run env).2 j = lvarAt env j
  | .fwd i, env, _, h => by
    unfold Tm.run
    exact ⟨h i (by simp [Tm.uses]), fun _ _ => rfl⟩
  | .use i, env, _, h => by
    unfold Tm.run
    exact ⟨h i (by simp [Tm.uses]), fun _ _ => rfl⟩
  | .low t, env, ho, h => by
    have ih := run_value vals t env (by simpa [Tm.orderly] using ho) (by simpa [Tm.uses] using h)
    unfold Tm.run tmValue Tm.moves
    split
    · rename_i heq; rw [heq] at ih; exact ih
    · rename_i heq; rw [heq] at ih; exact ih
    · rename_i heq; rw [heq] at ih; exact ih
  | .lit v, env, _, _ => by
    unfold Tm.run
    exact ⟨rfl, fun _ _ => rfl⟩
  | .call f ts, env, ho, h => by
    have ih := runs_value vals ts env (by simpa [Tm.orderly] using ho) (by simpa [Tm.uses] using h)
    unfold Tm.run tmValue Tm.moves
    exact ⟨by simp only [Got.obj, LObj.value, ih.1], ih.2⟩
  | .evl s t, env, ho, h => by
    have ih := run_value vals t env (by simpa [Tm.orderly] using ho) (by simpa [Tm.uses] using h)
    unfold Tm.run tmValue Tm.moves
    exact ⟨by rw [← ih.1]; exact evaluated_value s _, ih.2⟩
  | .shr t, env, ho, h => by
    have ih := run_value vals t env (by simpa [Tm.orderly] using ho) (by simpa [Tm.uses] using h)
    unfold Tm.run tmValue Tm.moves
    exact ⟨by rw [← ih.1]; simp only [Got.obj, LObj.value], ih.2⟩
  | .sfw i, env, _, h => by
    have hi := h i (by simp [Tm.uses])
    unfold Tm.run tmValue
    cases hv : lvarAt env i with
    | out n c o => exact ⟨by rw [← hi]; rfl, fun _ _ => rfl⟩
    | inn c o => exact ⟨by rw [← hi, hv]; simp only [Got.obj, LObj.value, LVar.obj], fun _ _ => rfl⟩
theorem runs_value (vals : Nat → Option α) : ∀ (ts : Tms α) (env : List (LVar α)), ts.orderly = true →
    (∀ i ∈ ts.uses, (lvarAt env i).obj.value = vals i) →
    (ts.run env).1.values = tmsValue vals ts ∧ ∀ j, j ∉ ts.moves → lvarAt (ts.run env).2 j = lvarAt env j
  | .nil, env, _, _ => by
    unfold Tms.run
    exact ⟨rfl, fun _ _ => rfl⟩
  | .cons cl t ts, env, ho, h => by
    simp only [Tms.orderly, Bool.and_eq_true, List.all_eq_true, decide_eq_true_eq] at ho
    have ih1 := run_value vals t env ho.1.1 (fun i hi => h i (by simp [Tms.uses, hi]))
    have hsame : ∀ j, j ∉ t.moves → j ∉ t.handsOver →
        lvarAt (fadeHeld cl (t.run env).1 (t.run env).2) j = lvarAt env j := fun j h1 h2 => by
      rw [lvarAt_fadeHeld h2, ih1.2 j h1]
    have ih2 := runs_value vals ts (fadeHeld cl (t.run env).1 (t.run env).2) ho.1.2 (fun i hi => by
      have := ho.2 i hi
      rw [List.mem_append, not_or] at this
      rw [hsame i this.1 this.2]
      exact h i (by simp [Tms.uses, hi]))
    unfold Tms.run tmsValue
    refine ⟨?_, fun j hj => ?_⟩
    · simp only [holdOperand_values, ih1.1, ih2.1]
    · simp only [Tms.moves, List.mem_append, not_or] at hj
      show lvarAt (ts.run (fadeHeld cl (t.run env).1 (t.run env).2)).2 j = lvarAt env j
      rw [ih2.2 j hj.2, hsame j hj.1.1 hj.1.2]
end

mutual
theorem run_length : ∀ (t : Tm α) (env : List (LVar α)), (t.run env).2.length = env.length
  | .fwd _, _ => by unfold Tm.run; rfl
  | .use _, _ => by unfold Tm.run; rfl
  | .low t, env => by
    have := run_length t env
    unfold Tm.run
    split <;> simp_all
  | .lit _, _ => by unfold Tm.run; rfl
  | .call _ ts, env => by unfold Tm.run; exact runs_length ts env
  | .evl _ t, env => by unfold Tm.run; exact run_length t env
  | .shr t, env => by unfold Tm.run; exact run_length t env
  | .sfw i, env => by unfold Tm.run; split <;> rfl
theorem runs_length : ∀ (ts : Tms α) (env : List (LVar α)), (ts.run env).2.length = env.length
  | .nil, _ => by unfold Tms.run; rfl
  | .cons cl t ts, env => by
    unfold Tms.run
    show (ts.run (fadeHeld cl (t.run env).1 (t.run env).2)).2.length = env.length
    rw [runs_length ts, ← run_length t env]
    unfold fadeHeld
    split
    · split
      · rw [List.length_set]
      · rfl
    · rfl
end

theorem decl_value (vals : Nat → Option α) (d : Decl α) (env : List (LVar α)) (ho : (declTm d).orderly = true)
    (h : ∀ i ∈ (declTm d).uses, (lvarAt env i).obj.value = vals i) :
    (d.run env).length = env.length + 1 ∧ (lvarAt (d.run env) env.length).obj.value = tmValue vals (declTm d) ∧
      ∀ j, j ∉ d.moves → j ≠ env.length → lvarAt (d.run env) j = lvarAt env j := by
  cases d with
  | auto c t =>
    have h1 := run_value vals t env ho h
    have h2 := run_length t env
    cases hr : t.run env with
    | mk g env' =>
      rw [hr] at h1 h2
      have h2' : env'.length = env.length := h2
      cases g with
      | var i k =>
        by_cases hk : k = .rv
        · subst hk
          have ht := run_rv (t := t) (env := env) (i := i) (by rw [hr])
          subst ht
          simp only [Decl.run, hr]
          refine ⟨by simp [h2'], ?_, fun j hj hn => ?_⟩
          · rw [lvarAt_append, if_pos (by simp [h2'])]; exact h1.1
          · rw [lvarAt_append, if_neg (by simp [h2', hn]), lvarAt_set,
              if_neg (by simp [Decl.moves, Tm.handsOver] at hj; omega)]
            exact h1.2 j (by simp [Tm.moves])
        · have : (Decl.auto c t).run env = env' ++ [.inn c (lvarAt env' i).obj] := by
            simp only [Decl.run, hr]
          rw [this]
          refine ⟨by simp [h2'], ?_, fun j hj hn => ?_⟩
          · rw [lvarAt_append, if_pos h2'.symm]; exact h1.1
          · rw [lvarAt_append, if_neg (by rw [h2']; exact hn)]
            exact h1.2 j (fun hm => hj (by simp [Decl.moves, hm]))
      | tmp o =>
        simp only [Decl.run, hr]
        refine ⟨by simp [h2'], ?_, fun j hj hn => ?_⟩
        · rw [lvarAt_append, if_pos h2'.symm]; exact h1.1
        · rw [lvarAt_append, if_neg (by rw [h2']; exact hn)]
          exact h1.2 j (fun hm => hj (by simp [Decl.moves, hm]))
      | tmpLv o =>
        simp only [Decl.run, hr]
        refine ⟨by simp [h2'], ?_, fun j hj hn => ?_⟩
        · rw [lvarAt_append, if_pos h2'.symm]; exact h1.1
        · rw [lvarAt_append, if_neg (by rw [h2']; exact hn)]
          exact h1.2 j (fun hm => hj (by simp [Decl.moves, hm]))
  | deduced t =>
    have h1 := run_value vals t env ho h
    have h2 := run_length t env
    cases hr : t.run env with
    | mk g env' =>
      rw [hr] at h1 h2
      have h2' : env'.length = env.length := h2
      cases g <;>
      · simp only [Decl.run, hr]
        refine ⟨by simp [h2'], ?_, fun j hj hn => ?_⟩
        · rw [lvarAt_append, if_pos h2'.symm]; exact h1.1
        · rw [lvarAt_append, if_neg (by rw [h2']; exact hn)]
          exact h1.2 j (fun hm => hj (by simp [Decl.moves, hm]))

theorem fn_value : ∀ (ds : List (Decl α)) (t : Tm α) (gone : List Nat) (env : List (LVar α)) (vals : Nat → Option α),
    orderlyFrom gone ds t = true → (∀ i, i ∉ gone → (lvarAt env i).obj.value = vals i) →
    (let e := ds.foldl (fun (e : List (LVar α)) (d : Decl α) => d.run e) env
     ((t.run e).1.obj (t.run e).2).value) = tmValue (declValues ds env.length vals) t
  | [], t, gone, env, vals, ho, h => by
    simp only [orderlyFrom, Bool.and_eq_true, List.all_eq_true, decide_eq_true_eq] at ho
    exact (run_value vals t env ho.1 (fun i hi => h i (ho.2 i hi))).1
  | d :: ds, t, gone, env, vals, ho, h => by
    simp only [orderlyFrom, Bool.and_eq_true, List.all_eq_true, decide_eq_true_eq] at ho
    obtain ⟨hl, hv, hs⟩ := decl_value vals d env ho.1.1 (fun i hi => h i (ho.1.2 i hi))
    have := fn_value ds t (gone ++ d.moves) (d.run env)
      (fun (i : Nat) => if i = env.length then tmValue vals (declTm d) else vals i) ho.2 (fun i hi => by
        rw [List.mem_append, not_or] at hi
        by_cases hn : i = env.length
        · subst hn; rw [if_pos rfl]; exact hv
        · rw [if_neg hn, hs i hi.2 hn]; exact h i hi.1)
    rw [hl] at this
    exact this

/-- **C83 the values are those of the arguments.** In a function in which no variable is used after it may have been
moved from, the expression returned reads the value that its formula gives on the values of the arguments. -/
theorem C83_values_sound (p : LFn α) (hp : p.orderly = true) (args : List (LVar α)) :
    (p.run args).value = fnValue p args :=
  fn_value p.decls p.ret [] args _ hp (fun _ _ => rfl)

/-- **C83 values of the statistics.** However the argument is passed, the expressions read its value: nothing is moved
from before it is used. -/
theorem C83_values (k : StatFns α) (v w : LVar α) (a b : α) (hv : v.obj.value = some a) (hw : w.obj.value = some b) :
    let mean := fun (x : α) => k.div [k.sum [x], k.size]
    let nanmean := fun (x : α) => k.div [k.nansum [x], k.cast [k.count [k.isnan [x]]]]
    ((meanFn k).run [v]).value = some (mean a) ∧
    ((averageWeightsFn k).run [v, w]).value = some (k.div [k.sum [k.mul [a, b]], k.sum [b]]) ∧
    ((averageAxesFn k).run [v, w]).value = some (k.div [k.sum [k.mul [a, k.reshape [b]]], k.sum [k.reshape [b]]]) ∧
    ((varianceFn k).run [v]).value = some (mean (k.square [k.sub [a, mean a]])) ∧
    ((stddevFn k).run [v]).value = some (k.sqrt [mean (k.square [k.sub [a, mean a]])]) ∧
    ((varianceAxesFn k).run [v]).value = some (mean (k.square [k.sub [a, k.reshape [mean a]]])) ∧
    ((nanmeanFn k).run [v]).value = some (nanmean a) ∧
    ((nanvarFn k).run [v]).value = some (nanmean (k.square [k.sub [a, nanmean a]])) ∧
    ((nanvarAxesFn k).run [v]).value = some (nanmean (k.square [k.sub [k.cast [a], k.reshape [nanmean a]]])) := by
  have h0 : ∀ l : List (LVar α), (lvarAt (v :: l) 0).obj.value = some a := fun _ => hv
  have h1 : ∀ l : List (LVar α), (lvarAt (v :: w :: l) 1).obj.value = some b := fun _ => hw
  refine ⟨?_, ?_, ?_, ?_, ?_, ?_, ?_, ?_, ?_⟩ <;> rw [C83_values_sound _ rfl] <;>
    simp [fnValue, declValues, declTm, meanFn, averageWeightsFn, averageAxesFn, varianceFn, stddevFn, varianceAxesFn,
      nanmeanFn, nanvarFn, nanvarAxesFn, meanTm, nanmeanTm, Tm.fn1, Tm.fn2, Tm.red, Tm.vw, tmValue, tmsValue, h0, h1]


example : ((varianceAxesFn ⟨List.sum, List.sum, List.sum, List.sum, List.prod, List.sum, List.prod, List.prod, List.sum, List.sum,
    List.sum, (2 : Int)⟩).run [.inn false (.data false 3)]).value = some 18 := by decide

example : FromOutside [LVar.inn false (LObj.data false (3 : Int)), .out 4 false (.data false 2)] := by
  intro v hv x hx
  simp only [List.mem_cons, List.not_mem_nil, or_false] at hv
  rcases hv with rfl | rfl <;> cases hx

/-! ### Where expressions outlive what they refer to -/

/-- **C83 wrong: `average(e)` of a temporary.** Whatever the temporary is, unless it is a shared expression, the result
refers to the parameter, which ends with the call. -/
theorem C83_average_wrong (k : StatFns α) (o : LObj α) (c : Bool) (hs : o.sort ≠ .shared) :
    Reaches ((averageFn k).run [.inn c o]) (.inner 0) ∧ ¬ Survives [.inn c o] ((averageFn k).run [.inn c o]) := by
  have h : Reaches ((averageFn k).run [.inn c o]) (.inner 0) := by
    have hr : (averageFn k).run [.inn c o] =
        .node k.div (.own (.node k.sum (.at (.inner 0) o .nil)) (.own (.data true k.size) .nil)) := by
      cases hso : o.sort <;> first | exact absurd hso hs |
        simp [averageFn, LFn.run, meanTm, Tm.fn2, Tm.red, Tm.run, Tms.run, Got.obj, LVar.forwarded, lvarAt, holdOperand,
          fadeHeld, Closing.holds, closureType, LVar.obj, LVar.place, hso]
    rw [hr]
    exact .node (.owned (.node .here))
  exact ⟨h, fun hsv => by obtain ⟨n, hn⟩ := (hsv _ h).2; cases hn⟩

example : (LObj.data false (3 : Int)).sort ≠ .shared := by decide

/-- **C83 wrong: `flip(e)`, `row(e, i)` and `col(e, i)` of a temporary.** The view refers to the parameter, also when it
is a shared expression. -/
theorem C83_views_wrong (f : List α → α) (o : LObj α) (c : Bool) :
    Reaches ((flipAllFn f).run [.inn c o]) (.inner 0) ∧ Reaches ((rowFn f).run [.inn c o]) (.inner 0) ∧
      ¬ Survives [.inn c o] ((flipAllFn f).run [.inn c o]) ∧ ¬ Survives [.inn c o] ((rowFn f).run [.inn c o]) := by
  have h1 : Reaches ((flipAllFn f).run [.inn c o]) (.inner 0) := by
    have hr : (flipAllFn f).run [.inn c o] = .node f (.at (.inner 0) o .nil) := by
      simp [flipAllFn, LFn.run, Decl.run, Tm.vw, Tm.run, Tms.run, Got.obj, LVar.forwarded, lvarAt, holdOperand,
          fadeHeld, Closing.holds, closureType, LVar.obj, LVar.place]
    rw [hr]
    exact .node .here
  have h2 : Reaches ((rowFn f).run [.inn c o]) (.inner 0) := by
    have hr : (rowFn f).run [.inn c o] = .node f (.at (.inner 0) o .nil) := by
      simp [rowFn, LFn.run, Tm.vw, Tm.run, Tms.run, Got.obj, LVar.forwarded, lvarAt, holdOperand,
          fadeHeld, Closing.holds, closureType, LVar.obj, LVar.place]
    rw [hr]
    exact .node .here
  exact ⟨h1, h2, fun hsv => (by obtain ⟨n, hn⟩ := (hsv _ h1).2; cases hn),
    fun hsv => (by obtain ⟨n, hn⟩ := (hsv _ h2).2; cases hn)⟩

/-- **C83 wrong: `isin(e, first, last)`.** Whatever the expression is, the result refers to the two iterators, which are
temporaries: named iterators are refused, as the concept `iterator_concept` is not met by reference types. -/
theorem C83_isin_range_wrong (f : List α → α) (v : LVar α) (c d : Bool) (i j : LObj α) :
    Reaches ((isinRangeFn f).run [v, .inn c i, .inn d j]) (.inner 1) ∧
      Reaches ((isinRangeFn f).run [v, .inn c i, .inn d j]) (.inner 2) ∧
      ¬ Survives [v, .inn c i, .inn d j] ((isinRangeFn f).run [v, .inn c i, .inn d j]) := by
  have hr : ∃ g : Helds α → Helds α, (∀ hs x, HReaches hs x → HReaches (g hs) x) ∧
      (isinRangeFn f).run [v, .inn c i, .inn d j] = .node f (g (.at (.inner 1) i (.at (.inner 2) j .nil))) := by
    refine ⟨fun hs => holdOperand .constXclosure (.var 0 v.forwarded) [v, .inn c i, .inn d j] hs, fun hs x h => ?_, ?_⟩
    · show HReaches (holdOperand .constXclosure (.var 0 v.forwarded) [v, .inn c i, .inn d j] hs) x
      simp only [holdOperand]
      split
      · exact .afterAt h
      · exact .afterOwn h
    · have hl1 : ∀ u : LVar α, lvarAt [u, .inn c i, .inn d j] 1 = .inn c i := fun _ => rfl
      have hl2 : ∀ u : LVar α, lvarAt [u, .inn c i, .inn d j] 2 = .inn d j := fun _ => rfl
      have hf : ∀ u : LVar α, ∀ k cat, k = 1 ∨ k = 2 → cat ≠ .rv →
          fadeHeld .captureRef (.var k cat) [u, .inn c i, .inn d j] = [u, .inn c i, .inn d j] := fun u k cat _ hc => by
        simp [fadeHeld, hc]
      have hn : ∀ b : Bool, ∀ q : LObj α, (LVar.inn b q).named ≠ .rv := fun b q => by cases b <;> simp [LVar.named]
      have h0 : ∃ u : LVar α, fadeHeld .constXclosure (.var 0 v.forwarded) [v, .inn c i, .inn d j] = [u, .inn c i, .inn d j] := by
        simp only [fadeHeld]
        split
        · exact ⟨_, rfl⟩
        · exact ⟨_, rfl⟩
      obtain ⟨u, hu⟩ := h0
      have hv0 : lvarAt [v, .inn c i, .inn d j] 0 = v := rfl
      simp only [isinRangeFn, LFn.run, List.foldl_nil, Tm.run, Tms.run, Got.obj, hv0, hu, hl1, hl2,
        hf u 1 _ (Or.inl rfl) (hn c i)]
      rfl
  obtain ⟨g, hg, hr⟩ := hr
  have h1 : Reaches ((isinRangeFn f).run [v, .inn c i, .inn d j]) (.inner 1) := by
    rw [hr]; exact .node (hg _ _ .here)
  have h2 : Reaches ((isinRangeFn f).run [v, .inn c i, .inn d j]) (.inner 2) := by
    rw [hr]; exact .node (hg _ _ (.afterAt .here))
  exact ⟨h1, h2, fun hsv => by obtain ⟨n, hn⟩ := (hsv _ h1).2; cases hn⟩

/-- **C83 wrong: `isin(e, {1, 2})`.** The list is copied, the array it refers to ends with the full expression of the
caller (here place `9`): the result refers to it. -/
theorem C83_isin_list_wrong (f : List α → α) (a b : α) (n : Nat) (g : List α → α) :
    Reaches ((isinListFn f).run [.out 3 false (.data false a), .inn false (.node g (.at (.outer n) (.data false b) .nil))])
      (.outer n) :=
  .node (.afterAt (.owned (.node .here)))

/-- **C83 wrong: axes are sometimes copied and sometimes referred to.** A lazy reduction along signed axes owns them,
along unsigned axes it refers to the variable. -/
theorem C83_axes_wrong (f : List α → α) (a b : α) (n m : Nat) (hn : n ≠ m) :
    ¬ Reaches ((reduceFn true f).run [.out n false (.data false a), .out m false (.data false b)]) (.outer m) ∧
      Reaches ((reduceFn false f).run [.out n false (.data false a), .out m false (.data false b)]) (.outer m) := by
  refine ⟨fun h => ?_, .node (.afterAt .here)⟩
  cases h with
  | node h => cases h with
    | here => exact hn rfl
    | through h => cases h
    | afterAt h => cases h with
      | owned h => cases h
      | afterOwn h => cases h

/-- **C83 wrong: sharing protects only variables that are not constant, and only in functions.** `sh + sh` owns `sh`;
with `const auto sh` it refers to it, and so does a view of `sh`, constant or not. -/
theorem C83_shared_wrong (f : List α → α) (o : LObj α) :
    (⟨[.auto false (.shr (.fwd 0))], .fn2 f (.use 1) (.use 1)⟩ : LFn α).run [.inn false o] =
        .node f (.own (.shared o) (.own (.shared o) .nil)) ∧
      (⟨[.auto true (.shr (.fwd 0))], .fn2 f (.use 1) (.use 1)⟩ : LFn α).run [.inn false o] =
        .node f (.at (.inner 1) (.shared o) (.at (.inner 1) (.shared o) .nil)) ∧
      (⟨[.auto false (.shr (.fwd 0))], .vw f (.use 1)⟩ : LFn α).run [.inn false o] =
        .node f (.at (.inner 1) (.shared o) .nil) ∧
      (⟨[.auto false (.shr (.fwd 0))], .vectorized2 f (.use 1) (.use 1)⟩ : LFn α).run [.inn false o] =
        .node f (.at (.inner 1) (.shared o) (.at (.inner 1) (.shared o) .nil)) :=
  ⟨rfl, rfl, rfl, rfl⟩

/-- **C83 wrong: forwarding a parameter twice.** `f(std::forward<E>(e), std::forward<E>(e))` owns the temporary, but
one of its operands was moved from: the expression has no value. By variable nothing is lost. -/
theorem C83_forward_twice_wrong (f : List α → α) (a : α) (n : Nat) :
    ((⟨[], .fn2 f (.fwd 0) (.fwd 0)⟩ : LFn α).run [.inn false (.data false a)]).value = none ∧
      ((⟨[], .fn2 f (.fwd 0) (.fwd 0)⟩ : LFn α).run [.out n false (.data false a)]).value = some (f [a, a]) :=
  ⟨rfl, rfl⟩

/-- **C83 wrong: scalars are not always copied.** docs/source/closure-semantics.rst:117-121 gives `xscalar<std::decay_t<E>>`
for scalar operands; in the code a scalar that is a variable is referred to, a literal is owned. -/
theorem C83_scalar_wrong (f : List α → α) (a b : α) (n m : Nat) :
    Reaches ((⟨[], .fn2 f (.fwd 0) (.fwd 1)⟩ : LFn α).run [.out n false (.data false a), .out m false (.data true b)]) (.outer m) ∧
      ((⟨[], .fn2 f (.fwd 0) (.lit b)⟩ : LFn α).run [.out n false (.data false a)]) =
        .node f (.at (.outer n) (.data false a) (.own (.data true b) .nil)) :=
  ⟨.node (.afterAt .here), rfl⟩

/-- **C83 wrong: `auto&& c = eval(t)`.** Of a temporary container the reference dangles, of any other temporary
expression it keeps the new container. -/
theorem C83_eval_wrong (a : α) (f : List α → α) (hs : Helds α) (x : Place) (b : α) (hb : hs.values = some [b]) :
    evalBound (.data false a) .rv x = .at .temp (.data false a) .nil ∧
      evalBound (.node f hs) .rv x = .own (.data false (f [b])) .nil := by
  refine ⟨rfl, ?_⟩
  simp [evalBound, evaluated, LObj.value, hb]

example : (Helds.own (.data true (3 : Int)) .nil).values = some [3] := rfl

end Xt
