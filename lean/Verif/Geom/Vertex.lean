import Verif.Geom.Mask
import Mathlib.Data.Rat.Floor
import Mathlib.Algebra.Order.Floor.Ring

/-!
# Model of `Vertex<D>` (include/mandoline/vertex.hpp, vertex_impl.hpp)

`double` is `ℚ`: every finite double is a rational, and arithmetic is exact (no rounding).
-/
namespace Mandoline

/-- `struct Vertex<D>` (vertex.hpp:23-36): position is `coord + quot`. -/
@[ext] structure Vertex (D : ℕ) where
  coord : Coord D
  quot : Fin D → ℚ
  clamped : Fin D → Bool

namespace Vertex
variable {D : ℕ}

/-- `Vertex(const coord_type&)` (vertex_impl.hpp:10): zero fraction, every axis clamped. -/
def ofCoord (c : Coord D) : Vertex D := ⟨c, fun _ => 0, fun _ => true⟩

/-- `bs_from_quot` (vertex_impl.hpp:30-38). -/
def bsFromQuot (q : Fin D → ℚ) : Fin D → Bool := fun i => decide (q i = 0)

/-- `Vertex(coord, quot)` (vertex_impl.hpp:12-14). -/
def ofQuot (c : Coord D) (q : Fin D → ℚ) : Vertex D := ⟨c, q, bsFromQuot q⟩

/-- `p()` (vertex_impl.hpp:111-114). -/
def p (v : Vertex D) : Fin D → ℚ := fun i => (v.coord i : ℚ) + v.quot i

/-- `repair` (vertex_impl.hpp:189-195): moves the integer part of `quot` into `coord`. -/
def repair (v : Vertex D) : Vertex D :=
  { v with coord := fun i => v.coord i + ⌊v.quot i⌋
           quot := fun i => v.quot i - (⌊v.quot i⌋ : ℚ) }

/-- `from_vertex` (vertex_impl.hpp:21-28). -/
def fromVertex (x : Fin D → ℚ) : Vertex D :=
  let r := (ofQuot (fun _ => 0) x).repair
  { r with clamped := bsFromQuot r.quot }

/-- `operator==` (vertex_impl.hpp:41-44). -/
def eq (a b : Vertex D) : Bool := decide (a.quot = b.quot) && decide (a.coord = b.coord)

/-- `operator!=` (vertex_impl.hpp:46-49). -/
def ne (a b : Vertex D) : Bool := decide (a.quot ≠ b.quot) || decide (a.coord ≠ b.coord)

/-- `std::array<int,D>::operator<`: `std::lexicographical_compare`, used at vertex_impl.hpp:54. -/
def coordLt : List (ℤ × ℤ) → Bool
  | [] => false
  | (a, b) :: l => if a < b then true else if b < a then false else coordLt l

/-- the loop over `quot` in `operator<` (vertex_impl.hpp:57-67). -/
def quotLt : List (ℚ × ℚ) → Bool
  | [] => false
  | (a, b) :: l => if a < b then true else if a = b then quotLt l else false

/-- `operator<` (vertex_impl.hpp:51-71). -/
def lt (a b : Vertex D) : Bool :=
  if coordLt ((List.finRange D).map fun i => (a.coord i, b.coord i)) then true
  else if a.coord = b.coord then quotLt ((List.finRange D).map fun i => (a.quot i, b.quot i))
  else false

/-- one axis of `approx` (vertex_impl.hpp:74-107), `eps` = `threshold_epsilon`. -/
def approxAxis (eps : ℚ) (c : ℤ) (q : ℚ) (oc : ℤ) (oq : ℚ) : Bool :=
  if q < 1/2 then
    if oc = c then decide (¬ |q - oq| > eps)
    else if oc + 1 = c then decide (¬ |q - (oq + 1)| > eps)
    else false
  else
    if oc = c then decide (¬ |q - oq| > eps)
    else if oc - 1 = c then decide (¬ |oq - (q + 1)| > eps)
    else false

/-- `approx` (vertex_impl.hpp:73-108). -/
def approx (eps : ℚ) (a b : Vertex D) : Bool :=
  (List.finRange D).all fun i => approxAxis eps (a.coord i) (a.quot i) (b.coord i) (b.quot i)

/-- `optional_index` (vertex_impl.hpp:116-125): uses the clamped flags. -/
def optionalIndex (v : Vertex D) : Mask D := fun i => if v.clamped i then some (v.coord i) else none

/-- `mask` (vertex_impl.hpp:127-136): uses `quot == 0`, not the clamped flags. -/
def mask (v : Vertex D) : Mask D := fun i => if v.quot i = 0 then some (v.coord i) else none

/-- `clamped_count` (vertex_impl.hpp:156-158). -/
def clampedCount (v : Vertex D) : ℕ := (List.finRange D).countP fun i => v.clamped i

/-- `is_grid_vertex` (vertex_impl.hpp:161-163). -/
def isGridVertex (v : Vertex D) : Bool := (List.finRange D).all fun i => v.clamped i

/-- `possible_cells` (vertex_impl.hpp:166-168). -/
def possibleCells (v : Vertex D) : Finset (Coord D) := v.mask.possibleCells v.coord

/-- one axis of `apply_thresholding` (vertex_impl.hpp:204-220): new (coord, quot, clamped). -/
def thresholdAxis (thresh : ℚ) (c : ℤ) (q : ℚ) (cl : Bool) : ℤ × ℚ × Bool :=
  if q < 1/2 then
    if q < thresh then (c, 0, true) else (c, q, cl)
  else
    if q - 1 > -thresh * |q + 1| then (c + 1, 0, true) else (c, q, cl)

/-- `apply_thresholding(thresh)` (vertex_impl.hpp:203-221). -/
def applyThresholding (thresh : ℚ) (v : Vertex D) : Vertex D where
  coord i := (thresholdAxis thresh (v.coord i) (v.quot i) (v.clamped i)).1
  quot i := (thresholdAxis thresh (v.coord i) (v.quot i) (v.clamped i)).2.1
  clamped i := (thresholdAxis thresh (v.coord i) (v.quot i) (v.clamped i)).2.2

/-- `operator+` (vertex_impl.hpp:224-236). -/
def add (a b : Vertex D) : Vertex D :=
  repair ⟨fun i => a.coord i + b.coord i, fun i => b.quot i + a.quot i,
    fun i => a.clamped i && b.clamped i⟩

/-- `operator-` (vertex_impl.hpp:239-251). -/
def sub (a b : Vertex D) : Vertex D :=
  repair ⟨fun i => a.coord i - b.coord i, fun i => a.quot i - b.quot i,
    fun i => a.clamped i && b.clamped i⟩

/-- `operator*` (vertex_impl.hpp:254-262). -/
def smul (a : Vertex D) (s : ℚ) : Vertex D :=
  let r := fromVertex fun i => s * (a.coord i : ℚ)
  let r := repair { r with quot := fun i => r.quot i + s * a.quot i }
  { r with clamped := fun _ => false }

/-- `lerp` (vertex_impl.hpp:265-275). -/
def lerp (a b : Vertex D) (t : ℚ) : Vertex D :=
  let r := add (smul a (1 - t)) (smul b t)
  { r with clamped := fun i =>
      if a.coord i = b.coord i && a.clamped i && b.clamped i then true else r.clamped i }

/-- `coord_mask::clamp(Vertex&)` (coord_mask_impl.hpp:209-219). -/
def clampBy (m : Mask D) (v : Vertex D) : Vertex D where
  coord i := match m i with | some c => c | none => v.coord i
  quot i := match m i with | some _ => 0 | none => v.quot i
  clamped i := v.clamped i || m.asBitset i

end Vertex
end Mandoline
