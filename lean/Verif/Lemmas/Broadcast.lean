import Verif.Model.Broadcast
import Verif.Spec.Broadcast
import Mathlib.Data.List.Basic
import Mathlib.Tactic.Linarith
/-!
# Lemmas on broadcasting
-/

namespace Xt
open Spec

/-- Effect of `broadcast_shape` on one axis (`none` input: axis absent in the operand). -/
def stepDim (o : Nat) : Option Nat → Option Nat
  | none => some o
  | some i => if o = szMax then some i else if o = 1 then some i
    else if i = 1 then some o else if i ≠ o then none else some o

theorem bcLoop_some {s out out' : List Nat} {t t' : Bool}
    (h : bcLoop s out t = some (out', t')) :
    s.length ≤ out.length ∧ out'.length = out.length ∧
    ∀ (k : Nat) o, out[k]? = some o → ∃ o', out'[k]? = some o' ∧ stepDim o s[k]? = some o' := by
  induction s generalizing out out' t t' with
  | nil =>
    simp only [bcLoop, Option.some.injEq, Prod.mk.injEq] at h
    rw [← h.1]
    exact ⟨by simp, rfl, fun k o ho => ⟨o, ho, by simp [stepDim]⟩⟩
  | cons i is ih =>
    cases out with
    | nil => simp [bcLoop] at h
    | cons o os =>
      have main : ∀ (t₁ : Bool) (x : Nat), stepDim o (some i) = some x →
          (bcLoop is os t₁).map (fun r => (x :: r.1, r.2)) = some (out', t') →
          (i :: is).length ≤ (o :: os).length ∧ out'.length = (o :: os).length ∧
          ∀ (k : Nat) o₁, (o :: os)[k]? = some o₁ →
            ∃ o', out'[k]? = some o' ∧ stepDim o₁ (i :: is)[k]? = some o' := by
        intro t₁ x hx hm
        obtain ⟨⟨r1, r2⟩, hr, he⟩ := Option.map_eq_some_iff.1 hm
        simp only [Prod.mk.injEq] at he
        obtain ⟨rfl, rfl⟩ := he
        obtain ⟨h1, h2, h3⟩ := ih hr
        refine ⟨by simpa using h1, by simpa using h2, fun k o₁ ho => ?_⟩
        cases k with
        | zero => simp only [List.getElem?_cons_zero, Option.some.injEq] at ho ⊢; subst ho
                  exact ⟨x, rfl, hx⟩
        | succ k => simpa using h3 k o₁ (by simpa using ho)
      simp only [bcLoop] at h
      split at h
      · next h1 => exact main _ _ (by simp [stepDim, h1]) h
      · split at h
        · next h1 h2 => exact main _ _ (by simp [stepDim, h2]) h
        · split at h
          · next h1 h2 h3 => exact main _ _ (by simp [stepDim, h1, h2, h3]) h
          · split at h
            · simp at h
            · next h1 h2 h3 h4 => exact main _ _ (by simp [stepDim, h1, h2]; omega) h

theorem bcLoop_none {s out : List Nat} {t : Bool} (hl : s.length ≤ out.length)
    (h : bcLoop s out t = none) :
    ∃ (k o i : Nat), out[k]? = some o ∧ s[k]? = some i ∧ o ≠ szMax ∧ o ≠ 1 ∧ i ≠ 1 ∧ i ≠ o := by
  induction s generalizing out t with
  | nil => simp [bcLoop] at h
  | cons i is ih =>
    cases out with
    | nil => simp at hl
    | cons o os =>
      have hl' : is.length ≤ os.length := by simpa using hl
      have rec' : ∀ (t₁ : Bool) (x : Nat),
          (bcLoop is os t₁).map (fun r => (x :: r.1, r.2)) = none →
          ∃ (k o₁ i₁ : Nat), (o :: os)[k]? = some o₁ ∧ (i :: is)[k]? = some i₁ ∧ o₁ ≠ szMax ∧ o₁ ≠ 1
            ∧ i₁ ≠ 1 ∧ i₁ ≠ o₁ := by
        intro t₁ x hm
        obtain ⟨k, o₁, i₁, h'⟩ := ih hl' (Option.map_eq_none_iff.1 hm)
        exact ⟨k + 1, o₁, i₁, by simpa using h'⟩
      simp only [bcLoop] at h
      split at h
      · exact rec' _ _ h
      · split at h
        · exact rec' _ _ h
        · split at h
          · exact rec' _ _ h
          · split at h
            · next h1 h2 h3 h4 => exact ⟨0, o, i, by simp, by simp, h1, h2, h3, h4⟩
            · exact rec' _ _ h

/-- Invariant of the n-ary fold, on reversed shapes: what is known after the operands `P`. -/
def BcInv (P : List (List Nat)) (out : List Nat) : Prop :=
  (∀ s ∈ P, s.length ≤ out.length) ∧
  ∀ (k : Nat) o, out[k]? = some o →
    (o = szMax ∧ ∀ s ∈ P, s[k]? = none) ∨
    (o ≠ szMax ∧ (∀ s ∈ P, ∀ e, s[k]? = some e → e = 1 ∨ e = o) ∧ ∃ s ∈ P, s[k]? = some o)

theorem BcInv.step {P : List (List Nat)} {s out out' : List Nat} {t t' : Bool}
    (hinv : BcInv P out) (hs : szMax ∉ s) (h : bcLoop s out t = some (out', t')) :
    BcInv (s :: P) out' := by
  obtain ⟨h1, h2, h3⟩ := bcLoop_some h
  refine ⟨fun x hx => ?_, fun k o' ho' => ?_⟩
  · rcases List.mem_cons.1 hx with rfl | hx
    · omega
    · rw [h2]; exact hinv.1 x hx
  · have hk : k < out.length := by
      rw [← h2]; exact (List.getElem?_eq_some_iff.1 ho').1
    obtain ⟨o₂, e1, e2⟩ := h3 k out[k] (List.getElem?_eq_getElem hk)
    rw [ho'] at e1
    simp only [Option.some.injEq] at e1
    subst e1
    have hin := hinv.2 k out[k] (List.getElem?_eq_getElem hk)
    cases hsk : s[k]? with
    | none =>
      simp only [hsk, stepDim, Option.some.injEq] at e2
      subst e2
      rcases hin with ⟨ha, hb⟩ | ⟨ha, hb, x, hx, hx'⟩
      · left
        refine ⟨ha, fun y hy => ?_⟩
        rcases List.mem_cons.1 hy with rfl | hy
        · exact hsk
        · exact hb y hy
      · right
        refine ⟨ha, fun y hy e he => ?_, x, by simp [hx], hx'⟩
        rcases List.mem_cons.1 hy with rfl | hy
        · rw [hsk] at he; simp at he
        · exact hb y hy e he
    | some i =>
      have hi : i ≠ szMax := fun e => hs (by rw [← e]; exact List.mem_of_getElem? hsk)
      simp only [hsk, stepDim] at e2
      right
      split at e2
      · next hM =>
        simp only [Option.some.injEq] at e2
        subst e2
        refine ⟨hi, fun y hy e he => ?_, s, by simp, hsk⟩
        rcases List.mem_cons.1 hy with rfl | hy
        · rw [hsk] at he; simp at he; exact Or.inr he.symm
        · rcases hin with ⟨_, hb⟩ | ⟨ha, _⟩
          · rw [hb y hy] at he; simp at he
          · exact absurd hM ha
      · next hM =>
        have hin' := hin.resolve_left (fun h => hM h.1)
        obtain ⟨_, hb, x, hx, hx'⟩ := hin'
        split at e2
        · next h1' =>
          simp only [Option.some.injEq] at e2
          subst e2
          refine ⟨hi, fun y hy e he => ?_, s, by simp, hsk⟩
          rcases List.mem_cons.1 hy with rfl | hy
          · rw [hsk] at he; simp at he; exact Or.inr he.symm
          · left; rcases hb y hy e he with h | h <;> omega
        · split at e2
          · next hi1 =>
            simp only [Option.some.injEq] at e2
            subst e2
            refine ⟨hM, fun y hy e he => ?_, x, by simp [hx], hx'⟩
            rcases List.mem_cons.1 hy with rfl | hy
            · rw [hsk] at he; simp at he; left; omega
            · exact hb y hy e he
          · split at e2
            · simp at e2
            · next hio =>
              simp only [Option.some.injEq] at e2
              subst e2
              refine ⟨hM, fun y hy e he => ?_, x, by simp [hx], hx'⟩
              rcases List.mem_cons.1 hy with rfl | hy
              · rw [hsk] at he; simp at he; right; omega
              · exact hb y hy e he

theorem BcInv.conflict {P : List (List Nat)} {s out : List Nat} {t : Bool}
    (hinv : BcInv P out) (hl : s.length ≤ out.length) (h : bcLoop s out t = none) :
    ∃ x ∈ P, ∃ (k d e : Nat), x[k]? = some d ∧ s[k]? = some e ∧ d ≠ e ∧ d ≠ 1 ∧ e ≠ 1 := by
  obtain ⟨k, o, i, h1, h2, h3, h4, h5, h6⟩ := bcLoop_none hl h
  obtain ⟨_, _, x, hx, hx'⟩ := (hinv.2 k o h1).resolve_left (fun h => h3 h.1)
  exact ⟨x, hx, k, o, i, hx', h2, fun e => h6 e.symm, h4, h5⟩

theorem BcInv.init (n : Nat) : BcInv [] (List.replicate n szMax) := by
  refine ⟨by simp, fun k o ho => Or.inl ⟨?_, by simp⟩⟩
  have := List.mem_of_getElem? ho
  exact (List.mem_replicate.1 this).2

/-! ## Trees reduce to their leaves -/

/-- Fold of `broadcast_shape` over a list of shapes. -/
def bcFold : List (List Nat) → List Nat → Bool → Option (List Nat × Bool)
  | [], out, b => some (out, b)
  | s :: S, out, b =>
    match broadcastShape s out with
    | none => none
    | some r => bcFold S r.1 (r.2 && b)

mutual
/-- Shapes of the non-scalar leaves of an operand tree, left to right. -/
def ShExpr.leaves : ShExpr → List (List Nat)
  | .leaf s => [s]
  | .scalar => []
  | .fn args => ShExpr.leavesL args
/-- Leaves of a list of operands. -/
def ShExpr.leavesL : List ShExpr → List (List Nat)
  | [] => []
  | e :: es => ShExpr.leaves e ++ ShExpr.leavesL es
end

theorem bcFold_append (S T : List (List Nat)) (out : List Nat) (b : Bool) :
    bcFold (S ++ T) out b = match bcFold S out b with
      | none => none
      | some r => bcFold T r.1 r.2 := by
  induction S generalizing out b with
  | nil => simp [bcFold]
  | cons s S ih =>
    simp only [List.cons_append, bcFold]
    cases broadcastShape s out with
    | none => rfl
    | some r => exact ih _ _

/-- The flag argument only conjoins. -/
theorem bcFold_flag (S : List (List Nat)) (out : List Nat) (b : Bool) :
    bcFold S out b = (bcFold S out true).map fun r => (r.1, r.2 && b) := by
  induction S generalizing out b with
  | nil => simp [bcFold]
  | cons s S ih =>
    simp only [bcFold]
    cases broadcastShape s out with
    | none => rfl
    | some r =>
      simp only [Bool.and_true]
      rw [ih, ih r.1 r.2]
      cases bcFold S r.1 true with
      | none => rfl
      | some q => simp [Bool.and_assoc]

mutual
theorem ShExpr.bc_eq_fold : ∀ (e : ShExpr) (out : List Nat), e.bc out = bcFold e.leaves out true
  | .leaf s, out => by
    simp only [ShExpr.bc, ShExpr.leaves, bcFold]
    cases broadcastShape s out with
    | none => rfl
    | some r => simp
  | .scalar, out => by simp [ShExpr.bc, ShExpr.leaves, bcFold]
  | .fn args, out => by simp only [ShExpr.bc, ShExpr.leaves]; exact ShExpr.bcs_eq_fold args out true
theorem ShExpr.bcs_eq_fold : ∀ (es : List ShExpr) (out : List Nat) (b : Bool),
    ShExpr.bcs es out b = bcFold (ShExpr.leavesL es) out b
  | [], out, b => by simp [ShExpr.bcs, ShExpr.leavesL, bcFold]
  | e :: es, out, b => by
    simp only [ShExpr.bcs, ShExpr.leavesL]
    rw [ShExpr.bc_eq_fold e out, bcFold_append, bcFold_flag e.leaves out b]
    cases bcFold e.leaves out true with
    | none => rfl
    | some r => exact ShExpr.bcs_eq_fold es r.1 (r.2 && b)
end

/-- Largest length in a list of shapes. -/
def maxLen (S : List (List Nat)) : Nat := S.foldr (fun s m => max s.length m) 0

theorem maxLen_append (S T : List (List Nat)) : maxLen (S ++ T) = max (maxLen S) (maxLen T) := by
  induction S with
  | nil => simp [maxLen]
  | cons s S ih => simp only [maxLen, List.cons_append, List.foldr_cons] at ih ⊢; rw [ih]; omega

mutual
theorem ShExpr.dim_eq : ∀ e : ShExpr, e.dim = maxLen e.leaves
  | .leaf s => by simp [ShExpr.dim, ShExpr.leaves, maxLen]
  | .scalar => by simp [ShExpr.dim, ShExpr.leaves, maxLen]
  | .fn args => by simp only [ShExpr.dim, ShExpr.leaves]; exact ShExpr.dims_eq args
theorem ShExpr.dims_eq : ∀ es : List ShExpr, ShExpr.dims es = maxLen (ShExpr.leavesL es)
  | [] => by simp [ShExpr.dims, ShExpr.leavesL, maxLen]
  | e :: es => by
    simp only [ShExpr.dims, ShExpr.leavesL, maxLen_append]
    rw [ShExpr.dim_eq e, ShExpr.dims_eq es]
end

theorem le_maxLen {S : List (List Nat)} {s : List Nat} (h : s ∈ S) : s.length ≤ maxLen S := by
  induction S with
  | nil => simp at h
  | cons x S ih =>
    simp only [maxLen, List.foldr_cons]
    rcases List.mem_cons.1 h with rfl | h
    · omega
    · have := ih h; simp only [maxLen] at this; omega

theorem maxLen_attained (S : List (List Nat)) : maxLen S = 0 ∨ ∃ s ∈ S, s.length = maxLen S := by
  induction S with
  | nil => left; rfl
  | cons x S ih =>
    simp only [maxLen, List.foldr_cons] at ih ⊢
    rcases Nat.le_total (List.foldr (fun s m => max s.length m) 0 S) x.length with h | h
    · right; exact ⟨x, by simp, by omega⟩
    · rcases ih with ih | ⟨s, hs, e⟩
      · left; omega
      · right; exact ⟨s, by simp [hs], by omega⟩

/-! ## The fold satisfies the invariant -/

theorem bcFold_inv {S P : List (List Nat)} {out out' : List Nat} {b b' : Bool}
    (hinv : BcInv (P.map List.reverse) out.reverse) (hS : ∀ s ∈ S, szMax ∉ s)
    (h : bcFold S out b = some (out', b')) :
    out'.length = out.length ∧ BcInv ((S.reverse ++ P).map List.reverse) out'.reverse := by
  induction S generalizing P out b with
  | nil =>
    simp only [bcFold, Option.some.injEq, Prod.mk.injEq] at h
    rw [← h.1]; exact ⟨rfl, by simpa using hinv⟩
  | cons s S ih =>
    simp only [bcFold] at h
    cases hb : broadcastShape s out with
    | none => simp [hb] at h
    | some r =>
      simp only [hb] at h
      unfold broadcastShape at hb
      split at hb
      · simp at hb
      · obtain ⟨⟨q1, q2⟩, hq, he⟩ := Option.map_eq_some_iff.1 hb
        have hst := BcInv.step hinv (s := s.reverse) (by simpa using hS s (by simp)) hq
        have hlen := (bcLoop_some hq).2.1
        have hr1 : r.1 = q1.reverse := by rw [← he]
        have := ih (P := s :: P) (out := r.1) (by
          rw [hr1]; simpa using hst) (fun x hx => hS x (by simp [hx])) h
        refine ⟨by rw [this.1, hr1]; simpa using hlen, ?_⟩
        simpa using this.2

theorem bcFold_none {S P : List (List Nat)} {out : List Nat} {b : Bool}
    (hinv : BcInv (P.map List.reverse) out.reverse) (hS : ∀ s ∈ S, szMax ∉ s)
    (hl : ∀ s ∈ S, s.length ≤ out.length)
    (h : bcFold S out b = none) : Conflict (S ++ P) := by
  induction S generalizing P out b with
  | nil => simp [bcFold] at h
  | cons s S ih =>
    simp only [bcFold] at h
    cases hb : broadcastShape s out with
    | none =>
      unfold broadcastShape at hb
      rw [if_neg (by have := hl s (by simp); omega)] at hb
      have hq := Option.map_eq_none_iff.1 hb
      obtain ⟨x, hx, k, d, e, h1, h2, h3, h4, h5⟩ := BcInv.conflict hinv
        (by simpa using hl s (by simp)) hq
      obtain ⟨y, hy, rfl⟩ := List.mem_map.1 hx
      exact ⟨y, by simp [hy], s, by simp, k, d, e, h1, h2, h3, h4, h5⟩
    | some r =>
      simp only [hb] at h
      unfold broadcastShape at hb
      rw [if_neg (by have := hl s (by simp); omega)] at hb
      obtain ⟨⟨q1, q2⟩, hq, he⟩ := Option.map_eq_some_iff.1 hb
      have hst := BcInv.step hinv (s := s.reverse) (by simpa using hS s (by simp)) hq
      have hlen := (bcLoop_some hq).2.1
      have hr1 : r.1 = q1.reverse := by rw [← he]
      obtain ⟨a, ha, c, hc, rest⟩ := ih (P := s :: P) (out := r.1) (by
        rw [hr1]; simpa using hst) (fun x hx => hS x (by simp [hx]))
        (fun x hx => by rw [hr1]; have := hl x (by simp [hx]); simp at hlen; simpa [hlen] using this) h
      refine ⟨a, ?_, c, ?_, rest⟩
      · simp only [List.mem_append, List.mem_cons, List.cons_append] at ha ⊢; tauto
      · simp only [List.mem_append, List.mem_cons, List.cons_append] at hc ⊢; tauto

/-! ## The relation `IsBroadcast` -/

theorem IsBroadcast.unique {S : List (List Nat)} {a b : List Nat} (ha : IsBroadcast S a)
    (hb : IsBroadcast S b) : a = b := by
  have key : ∀ {x y : List Nat}, IsBroadcast S x → IsBroadcast S y →
      ∀ (k : Nat) d, axisR x k = some d → axisR y k = some d := by
    intro x y hx hy k d hd
    obtain ⟨s, hs, hs'⟩ := hx.attained k d hd
    have hk : k < y.length := by
      have h1 : k < s.reverse.length := (List.getElem?_eq_some_iff.1 hs').1
      have := hy.len_le s hs
      simp at h1; omega
    have hyk : axisR y k = some (y.reverse[k]'(by simpa using hk)) := by
      unfold axisR; exact List.getElem?_eq_getElem _
    rw [hyk]
    obtain ⟨s', hs2, hs2'⟩ := hy.attained k _ hyk
    have c1 := hy.compatible k _ hyk s hs d hs'
    have c2 := hx.compatible k _ hd s' hs2 _ hs2'
    congr 1
    omega
  have : a.reverse = b.reverse := by
    apply List.ext_getElem?
    intro k
    change axisR a k = axisR b k
    cases h1 : axisR a k with
    | some d => exact (key ha hb k d h1).symm
    | none =>
      cases h2 : axisR b k with
      | none => rfl
      | some d => rw [key hb ha k d h2] at h1; simp at h1
  simpa using congrArg List.reverse this

theorem Conflict.not_isBroadcast {S : List (List Nat)} (h : Conflict S) (out : List Nat) :
    ¬ IsBroadcast S out := by
  rintro hb
  obtain ⟨s, hs, t, ht, k, d, e, h1, h2, h3, h4, h5⟩ := h
  have hk : k < out.length := by
    have h1' : k < s.reverse.length := (List.getElem?_eq_some_iff.1 h1).1
    have := hb.len_le s hs
    simp at h1'; omega
  have hok : axisR out k = some (out.reverse[k]'(by simpa using hk)) := by
    unfold axisR; exact List.getElem?_eq_getElem _
  have c1 := hb.compatible k _ hok s hs d h1
  have c2 := hb.compatible k _ hok t ht e h2
  omega

theorem isBroadcast_of_inv {S : List (List Nat)} {out : List Nat} (hlen : out.length = maxLen S)
    (h : BcInv (S.map List.reverse) out.reverse) : IsBroadcast S out := by
  have hset : ∀ (k : Nat) d, axisR out k = some d → d ≠ szMax := by
    intro k d hd e
    have hk : k < out.length := by
      have := (List.getElem?_eq_some_iff.1 hd).1; simpa using this
    rcases h.2 k d hd with ⟨_, h2⟩ | ⟨h2, _⟩
    · rcases maxLen_attained S with h0 | ⟨s, hs, hs'⟩
      · omega
      · have := h2 s.reverse (List.mem_map.2 ⟨s, hs, rfl⟩)
        rw [List.getElem?_eq_none_iff] at this
        simp at this; omega
    · exact h2 e
  refine ⟨fun s hs => by rw [hlen]; exact le_maxLen hs, fun k d hd s hs e he => ?_, fun k d hd => ?_⟩
  · obtain ⟨_, hb, _⟩ := (h.2 k d hd).resolve_left (fun h' => hset k d hd h'.1)
    exact hb s.reverse (List.mem_map.2 ⟨s, hs, rfl⟩) e he
  · obtain ⟨_, _, x, hx, hx'⟩ := (h.2 k d hd).resolve_left (fun h' => hset k d hd h'.1)
    obtain ⟨s, hs, rfl⟩ := List.mem_map.1 hx
    exact ⟨s, hs, hx'⟩

theorem isBroadcast_congr {S T : List (List Nat)} (h : ∀ s, s ∈ S ↔ s ∈ T) (out : List Nat) :
    IsBroadcast S out ↔ IsBroadcast T out := by
  constructor
  · intro ⟨a, b, c⟩
    exact ⟨fun s hs => a s ((h s).2 hs), fun k d hd s hs => b k d hd s ((h s).2 hs), fun k d hd => by
      obtain ⟨s, hs, hs'⟩ := c k d hd
      exact ⟨s, (h s).1 hs, hs'⟩⟩
  · intro ⟨a, b, c⟩
    exact ⟨fun s hs => a s ((h s).1 hs), fun k d hd s hs => b k d hd s ((h s).1 hs), fun k d hd => by
      obtain ⟨s, hs, hs'⟩ := c k d hd
      exact ⟨s, (h s).2 hs, hs'⟩⟩

/-! ## Triviality flag -/

theorem bcLoop_init (s : List Nat) (n : Nat) (t : Bool) (h : s.length ≤ n) :
    bcLoop s (List.replicate n szMax) t = some (s ++ List.replicate (n - s.length) szMax, t) := by
  induction s generalizing n with
  | nil => simp [bcLoop]
  | cons i is ih =>
    cases n with
    | zero => simp at h
    | succ n =>
      simp only [List.length_cons, Nat.add_le_add_iff_right] at h
      simp [List.replicate_succ, bcLoop, ih n h]

theorem bcLoop_self (s : List Nat) (t : Bool) (h : szMax ∉ s) : bcLoop s s t = some (s, t) := by
  induction s with
  | nil => simp [bcLoop]
  | cons i is ih =>
    simp only [List.mem_cons, not_or] at h
    simp only [bcLoop]
    rw [if_neg (fun e => h.1 e.symm)]
    by_cases h1 : i = 1
    · simp [h1, ih h.2]
    · simp [h1, ih h.2]

theorem bcLoop_true {s out out' : List Nat} {t : Bool} (hl : s.length = out.length)
    (hM : szMax ∉ out) (h : bcLoop s out t = some (out', true)) : s = out ∧ t = true := by
  induction s generalizing out out' t with
  | nil =>
    cases out with
    | nil => simp [bcLoop] at h; simp [h]
    | cons _ _ => simp at hl
  | cons i is ih =>
    cases out with
    | nil => simp at hl
    | cons o os =>
      simp only [List.mem_cons, not_or] at hM
      simp only [bcLoop] at h
      rw [if_neg (fun e => hM.1 e.symm)] at h
      have hl' : is.length = os.length := by simpa using hl
      split at h
      · next h1 =>
        obtain ⟨⟨q1, q2⟩, hq, he⟩ := Option.map_eq_some_iff.1 h
        simp only [Prod.mk.injEq] at he
        rw [he.2] at hq
        obtain ⟨e1, e2⟩ := ih hl' hM.2 hq
        simp at e2
        exact ⟨by rw [e1, h1, e2.2], e2.1⟩
      · split at h
        · obtain ⟨⟨q1, q2⟩, hq, he⟩ := Option.map_eq_some_iff.1 h
          simp only [Prod.mk.injEq] at he
          rw [he.2] at hq
          have := (ih hl' hM.2 hq).2
          simp at this
        · split at h
          · simp at h
          · next h3 =>
            obtain ⟨⟨q1, q2⟩, hq, he⟩ := Option.map_eq_some_iff.1 h
            simp only [Prod.mk.injEq] at he
            rw [he.2] at hq
            obtain ⟨e1, e2⟩ := ih hl' hM.2 hq
            have : i = o := by omega
            exact ⟨by rw [e1, this], e2⟩

/-- Flag of the fold once the output shape is fully set. -/
theorem bcFold_true_set {S : List (List Nat)} {out out' : List Nat} {b : Bool} (hM : szMax ∉ out)
    (h : bcFold S out b = some (out', true)) : (∀ s ∈ S, s = out) ∧ out' = out ∧ b = true := by
  induction S generalizing out b with
  | nil => simp [bcFold] at h; exact ⟨by simp, h.1.symm, h.2⟩
  | cons s S ih =>
    simp only [bcFold] at h
    cases hb : broadcastShape s out with
    | none => simp [hb] at h
    | some r =>
      simp only [hb] at h
      -- the flag after this operand must be true, otherwise the final flag is false
      have hflag : (r.2 && b) = true := by
        rw [bcFold_flag] at h
        obtain ⟨q, _, he⟩ := Option.map_eq_some_iff.1 h
        simp only [Prod.mk.injEq, Bool.and_eq_true] at he
        simpa using he.2.2
      simp only [Bool.and_eq_true] at hflag
      unfold broadcastShape at hb
      split at hb
      · simp at hb
      · obtain ⟨⟨q1, q2⟩, hq, he⟩ := Option.map_eq_some_iff.1 hb
        have e2 : q2 = true := by rw [← hflag.1, ← he]
        -- lengths equal: otherwise the initial flag is false
        have hlen : s.length = out.length := by
          by_contra hne
          have hf : (s.length == out.length) = false := by simpa using hne
          rw [hf, e2] at hq
          have : ∀ (a c d : List Nat), bcLoop a c false ≠ some (d, true) := by
            intro a
            induction a with
            | nil => intro c d; simp [bcLoop]
            | cons i is ih' =>
              intro c d
              cases c with
              | nil => simp [bcLoop]
              | cons o os =>
                simp only [bcLoop, Bool.false_and]
                intro hc
                have fin : ∀ x, (bcLoop is os false).map (fun r => (x :: r.1, r.2)) ≠ some (d, true) := by
                  intro x hx
                  obtain ⟨⟨u, v⟩, hu, hv⟩ := Option.map_eq_some_iff.1 hx
                  simp only [Prod.mk.injEq] at hv
                  rw [hv.2] at hu
                  exact ih' _ _ hu
                split at hc
                · exact fin _ hc
                · split at hc
                  · exact fin _ hc
                  · split at hc
                    · exact fin _ hc
                    · split at hc
                      · simp at hc
                      · exact fin _ hc
          exact this _ _ _ hq
        rw [e2] at hq
        obtain ⟨e3, _⟩ := bcLoop_true (by simpa using hlen) (by simpa using hM) hq
        have es : s = out := by simpa using congrArg List.reverse e3
        have hq1 : q1 = out.reverse := by
          have h2 := bcLoop_self out.reverse (s.length == out.length) (by simpa using hM)
          rw [e3, h2] at hq
          simp at hq
          exact hq.1.symm
        have hr1 : r.1 = out := by rw [← he, hq1]; simp
        rw [hr1] at h
        obtain ⟨i1, i2, i3⟩ := ih hM h
        exact ⟨fun x hx => by
          rcases List.mem_cons.1 hx with rfl | hx
          · exact es
          · exact i1 x hx, i2, hflag.2⟩

theorem bcFold_self {S : List (List Nat)} {out : List Nat} (hM : szMax ∉ out)
    (h : ∀ s ∈ S, s = out) (b : Bool) : bcFold S out b = some (out, b) := by
  induction S generalizing b with
  | nil => simp [bcFold]
  | cons s S ih =>
    have es := h s (by simp)
    subst es
    have : broadcastShape s s = some (s, true) := by
      unfold broadcastShape
      rw [if_neg (by omega), bcLoop_self _ _ (by simpa using hM)]
      simp
    simp only [bcFold, this, Bool.true_and]
    exact ih (fun x hx => h x (by simp [hx])) b

theorem broadcastShape_init (s : List Nat) (n : Nat) (h : s.length ≤ n) :
    broadcastShape s (uninitializedShape n)
      = some (uninitializedShape (n - s.length) ++ s, s.length == n) := by
  unfold broadcastShape uninitializedShape
  rw [if_neg (by simp; omega)]
  rw [List.reverse_replicate, bcLoop_init _ _ _ (by simpa using h)]
  simp

end Xt
