import Verif.Model.Container
/-!
# Model: resizing and reshaping arrays with a fixed number of axes

containers/xcontainer.hpp.  `xtensor<T, N>` keeps its shape in a `std::array` of `N` extents (`resize` and `reshape` of `Cont` are those
of an `xarray`); assertions are off, as by default.  `xtl::forward_sequence` and `xtl::make_sequence` are not in the repository: into a
`std::array` the first copies the entries of any other sequence with `std::copy`, the second makes one of zeros whatever the size asked
for.
-/

namespace Xt
universe u
variable {α : Type u}

/-- How extents are given: in braces, or as another sequence, of signed or unsigned numbers. -/
inductive Extents
  | braces (xs : List Int)
  | bracesU (xs : List Nat)
  | seq (xs : List Int)
  | seqU (xs : List Nat)

/-- The number of extents given. -/
def Extents.count : Extents → Nat
  | .braces xs => xs.length
  | .bracesU xs => xs.length
  | .seq xs => xs.length
  | .seqU xs => xs.length

/-- The entries of a list in braces, copied to the beginning of `N` zeros — containers/xcontainer.hpp:1104-1113.
`none`: copied past the end. -/
def padExtents {β : Type} (N : Nat) (zero : β) (xs : List β) : Option (List β) :=
  if xs.length ≤ N then some (xs ++ List.replicate (N - xs.length) zero) else none

/-- `m_shape = xtl::forward_sequence<shape_type, S>(shape)` once everything was checked — containers/xcontainer.hpp:1136, 1179: another
number of extents is copied past the end, or leaves indeterminate extents. -/
def storeExtents (N k : Nat) : Out (Cont α) → Out (Cont α)
  | .ok c => if k = N then .ok c else .ub
  | r => r

/-- `t.reshape(shape, l)` — containers/xcontainer.hpp:1091-1183. -/
def tensorReshape (d : Layout) (N : Nat) (c : Cont α) (l : Layout) : Extents → Out (Cont α)
  | .braces xs =>
    match padExtents N 0 xs with
    | none => .ub
    | some s => c.reshapeSigned s l
  | .bracesU xs =>
    match padExtents N 0 xs with
    | none => .ub
    | some s => c.reshapeUnsigned d s l
  | .seq xs => storeExtents N xs.length (c.reshapeSigned xs l)
  | .seqU xs => storeExtents N xs.length (c.reshapeUnsigned d xs l)

/-- `t.resize(shape)` — containers/xcontainer.hpp:278-279, 996-1021.  Braces make a `std::array` of `N` extents (the default of the
template parameter) and so are filled up with zeros; more than `N` do not compile, which `ub` stands for.  Other sequences with
another number of extents: as above. -/
def tensorResize (d : Layout) (fresh : Nat → List α) (alloc : Bool) (N : Nat) (c : Cont α) (braced : Bool) (xs : List Nat) :
    Out (Cont α) :=
  if braced then
    match padExtents N 0 xs with
    | none => .ub
    | some s => c.resize d fresh alloc s false
  else if xs.length = N then c.resize d fresh alloc xs false
  else .ub

end Xt
