import Verif.Model.KeptView
import Verif.Spec.View
import Verif.Spec.StridedView
import Verif.Props.View
import Verif.Props.StridedView
import Verif.Props.Container
/-!
# Specification for C104: what a view that is kept shows

A view was built for an array of some shape and selects elements by their indices.  Whenever the array has that shape again, the
view shows the selected elements of the array as it is now.
-/

namespace Xt.Spec

variable {α : Type}

/-- What is remembered of a view: the shape that the array had, and the slices, an ellipsis written out. -/
structure KGhost where
  shape : List Nat
  us : List USlice

/-- The view has the shape of the selection and shows, at each index, the element of the array that the slices select; both by element access and through strides
and offset (for slices that have strides). -/
def Shows (c : Cont α) (v : Kept) (g : KGhost) : Prop :=
  keptShape c v = toInts (selShape g.shape g.us) ∧
  ∀ idx, InBounds (selShape g.shape g.us) idx → ∃ pidx, InBounds c.shape pidx ∧ selIndex g.shape g.us idx = toInts pidx ∧
    atPos c (keptPos c v (toInts idx)) = c.elem? (toInts pidx) ∧ c.elem? (toInts pidx) ≠ none ∧
    (AllStrided g.us → atPos c (some (keptDataPos c v (toInts idx))) = c.elem? (toInts pidx))

/-- An array with static layout `L`. -/
structure KStatic (L : Layout) (c : Cont α) : Prop where
  static : c.L = L
  layout : c.layout = L
  consistent : Consistent c

/-- What a user must see to: slices without newaxis that fit, integers that are not negative in `strided_view`, indices in
bounds; a view is written through when the array has the shape for which it was built.  The last condition of `ask` — the
strides of an `xview` are asked for only then — should not be necessary. -/
def KAllowed (L : Layout) (c : Cont α) (gs : List KGhost) : KEvent α → Prop
  | .view us => SlicesValid c.shape us ∧ .newaxis ∉ us ∧ us.length ≤ c.shape.length
  | .strided us => us.count .ellipsis ≤ 1 ∧ SlicesValid c.shape (expandEllipsis c.shape.length us) ∧ NoKeepDrop us ∧ IntsNonneg us
  | .ask k => ∃ g, gs[k]? = some g ∧ c.shape = g.shape
  | .put idx _ => InBounds c.shape idx
  | .putView k idx _ => ∃ g, gs[k]? = some g ∧ c.shape = g.shape ∧ InBounds (selShape g.shape g.us) idx
  | .copy b => KStatic L b
  | _ => True

/-- What is remembered after an event. -/
def kGhosts (c : Cont α) (gs : List KGhost) : KEvent α → List KGhost
  | .view us => gs ++ [⟨c.shape, us⟩]
  | .strided us => gs ++ [⟨c.shape, expandEllipsis c.shape.length us⟩]
  | _ => gs

/-- What an event does to the array. -/
def KEffect (c : Cont α) (gs : List KGhost) (c' : Cont α) : KEvent α → Prop
  | .put idx x => c'.shape = c.shape ∧
      ∀ j, InBounds c.shape j → c'.elem? (toInts j) = if j = idx then some x else c.elem? (toInts j)
  | .putView k idx x => c'.shape = c.shape ∧ ∃ g p, gs[k]? = some g ∧ InBounds c.shape p ∧ selIndex g.shape g.us idx = toInts p ∧
      ∀ j, InBounds c.shape j → c'.elem? (toInts j) = if j = p then some x else c.elem? (toInts j)
  | .resize s _ => c'.shape = s ∧ (numel s = numel c.shape → c'.storage = c.storage) ∧
      (s = c.shape → ∀ j, InBounds s j → c'.elem? (toInts j) = c.elem? (toInts j))
  | .reshape s => (numel s = numel c.shape → c'.shape = s ∧ c'.storage = c.storage) ∧ (numel s ≠ numel c.shape → c' = c)
  | .assign s f => c'.shape = s ∧ ∀ j, InBounds s j → c'.elem? (toInts j) = some (f j)
  | .copy b => c' = b
  | _ => c' = c

/-- The only event that throws: a reshape to another number of elements. -/
def KThrows (c : Cont α) : KEvent α → Prop
  | .reshape s => numel s ≠ numel c.shape
  | _ => False

/-- All events are allowed when they happen. -/
def KHistory (g : FCfg α) (L : Layout) : List (KEvent α) → KWorld α → List KGhost → Prop
  | [], _, _ => True
  | e :: r, w, gs => KAllowed L w.c gs e ∧
      ∀ w', (e.run g w = .ok w' ∨ e.run g w = .throws w') → KHistory g L r w' (kGhosts w.c gs e)

/-- What is remembered after a history. -/
def kGhostsAll (g : FCfg α) : List (KEvent α) → KWorld α → List KGhost → List KGhost
  | [], _, gs => gs
  | e :: r, w, gs => match e.run g w with
    | .ok w' => kGhostsAll g r w' (kGhosts w.c gs e)
    | .throws w' => kGhostsAll g r w' (kGhosts w.c gs e)
    | .ub => gs

end Xt.Spec
