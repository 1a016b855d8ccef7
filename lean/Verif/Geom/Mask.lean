import Mathlib.Data.Finset.Image
import Mathlib.Data.Finset.Powerset
import Mathlib.Data.Fintype.Basic
import Mathlib.Data.List.FinRange
import Mathlib.Data.Nat.Bitwise

/-!
# Model of `coord_mask<D>` (include/mandoline/coord_mask.hpp, coord_mask_impl.hpp)

`std::array<int,D>` is `Fin D → ℤ`, `std::array<std::optional<int>,D>` is `Fin D → Option ℤ`;
`int` is unbounded.
-/
namespace Mandoline

/-- `coord_type = std::array<int,D>` (coord_mask.hpp, vertex.hpp:27). -/
abbrev Coord (D : ℕ) := Fin D → ℤ

/-- `coord_mask<D>`: derives from `std::array<std::optional<int>,D>` (coord_mask.hpp). -/
abbrev Mask (D : ℕ) := Fin D → Option ℤ

namespace Mask
variable {D : ℕ}

/-- `reset()` (coord_mask_impl.hpp:20). -/
def empty : Mask D := fun _ => none

/-- `coord_mask(int idx, int coord)` / `reset(idx,coord)` (coord_mask_impl.hpp:7-10, 22-25). -/
def plane (idx : Fin D) (c : ℤ) : Mask D := fun i => if i = idx then some c else none

/-- `coord_mask(const coord_type&)` / `reset(o)` (coord_mask_impl.hpp:13-16, 27-29). -/
def full (c : Coord D) : Mask D := fun i => some (c i)

/-- `is_bound` (coord_mask_impl.hpp:32-35). -/
def isBound (m : Mask D) (i : Fin D) : Bool := (m i).isSome

/-- `unbound_axis` (coord_mask_impl.hpp:38-46): first unbound axis, `none` for -1. The assert
`count()==D-1` is a precondition the release build does not check. -/
def unboundAxis (m : Mask D) : Option (Fin D) := (List.finRange D).find? fun i => !m.isBound i

/-- `bound_axis` (coord_mask_impl.hpp:50-58): first bound axis, `none` for -1. -/
def boundAxis (m : Mask D) : Option (Fin D) := (List.finRange D).find? fun i => m.isBound i

/-- `count` (coord_mask_impl.hpp:69-71). -/
def count (m : Mask D) : ℕ := (List.finRange D).countP fun i => m.isBound i

/-- `all` (coord_mask_impl.hpp:74-76). -/
def all (m : Mask D) : Bool := (List.finRange D).all fun i => m.isBound i

/-- `active` (coord_mask_impl.hpp:78-80). -/
def active (m : Mask D) : Bool := (List.finRange D).any fun i => m.isBound i

/-- `as_array` (coord_mask_impl.hpp:60-67): dereferences every entry; undefined (here `none`)
if some entry is unbound. -/
def asArray (m : Mask D) : Option (Coord D) :=
  if m.all then some fun i => (m i).getD 0 else none

/-- body of the `operator&=` loop for one axis (coord_mask_impl.hpp:83-88). -/
def andEntry (a b : Option ℤ) : Option ℤ :=
  if a.isSome && b.isSome && (a == b) then a else none

/-- `operator&=`, `operator&` (coord_mask_impl.hpp:82-98). -/
def and (a b : Mask D) : Mask D := fun i => andEntry (a i) (b i)

/-- body of the `operator|=` loop for one axis (coord_mask_impl.hpp:101-106): verbatim the same
test and the same effect as `operator&=`. -/
def orEntry (a b : Option ℤ) : Option ℤ :=
  if a.isSome && b.isSome && (a == b) then a else none

/-- `operator|=`, `operator|` (coord_mask_impl.hpp:100-116). -/
def or (a b : Mask D) : Mask D := fun i => orEntry (a i) (b i)

/-- `operator-=`, `operator-` (coord_mask_impl.hpp:117-131). -/
def sub (a b : Mask D) : Mask D := fun i => if (b i).isSome then none else a i

/-- `enum class PartialOrdering` (coord_mask.hpp). -/
inductive PO | Less | Greater | Equal | Unknown
  deriving DecidableEq, Repr

/-- the loop of `partial_ordering` (coord_mask_impl.hpp:137-170), with its early returns; the list is
what remains of `zip(*this, other)` and `po` the loop variable. -/
def poLoop : PO → List (Option ℤ × Option ℤ) → PO
  | po, [] => po
  | po, (some a, some b) :: l => if a ≠ b then .Unknown else poLoop po l
  | po, (some _, none) :: l =>
    match po with
    | .Greater => poLoop .Greater l
    | .Less => .Unknown
    | .Equal => poLoop .Greater l
    | .Unknown => .Unknown
  | po, (none, some _) :: l =>
    match po with
    | .Less => poLoop .Less l
    | .Greater => .Unknown
    | .Equal => poLoop .Less l
    | .Unknown => .Unknown
  | po, (none, none) :: l => poLoop po l

/-- `partial_ordering` (coord_mask_impl.hpp:135-171). -/
def partialOrdering (a b : Mask D) : PO :=
  poLoop .Equal ((List.finRange D).map fun i => (a i, b i))

/-- `subsumes` (coord_mask_impl.hpp:172-176). -/
def subsumes (a b : Mask D) : Bool :=
  let po := a.partialOrdering b
  po == .Greater || po == .Equal

/-- `strict_subsumes` (coord_mask_impl.hpp:177-181). -/
def strictSubsumes (a b : Mask D) : Bool := a.partialOrdering b == .Greater

/-- `clamp(coord_type&)` (coord_mask_impl.hpp:201-208). -/
def clamp (m : Mask D) (v : Coord D) : Coord D := fun i => (m i).getD (v i)

/-- `as_bitset` (coord_mask_impl.hpp:220-227). -/
def asBitset (m : Mask D) : Fin D → Bool := fun i => (m i).isSome

/-- `std::bitset<D>(i)`: the low D bits. -/
def bitset (D : ℕ) (i : ℕ) : Fin D → Bool := fun j => i.testBit j

/-- `possible_cells` (coord_mask_impl.hpp:229-250), with its loop over `i < (2 << D)`; the debug-only
assert is not modelled. -/
def possibleCells (m : Mask D) (coord : Coord D) : Finset (Coord D) :=
  (((List.range (2 <<< D)).filter fun i =>
      decide (∀ j, (bitset D i j && m.asBitset j) = bitset D i j)).map
    fun i j => coord j - if bitset D i j then 1 else 0).toFinset

end Mask
end Mandoline
