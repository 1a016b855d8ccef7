import Verif.Core.GridIndex
import Mathlib.Algebra.BigOperators.Group.List.Basic

/-!
# The exterior grid (`ExteriorGrid<D>`, `DomainBoundary`)

Transcription of include/mandoline/exterior_grid_impl.hpp, include/mandoline/exterior_grid.hpp,
include/mandoline/domain_boundary.hpp, src/domain_boundary.cpp and src/operators/boundary.cpp.
-/
namespace Mandoline
variable {D : ℕ}

/-- The order in which the mtao grid containers (`begin()..end()`, `loop`, `utils::multi_loop`) visit the
coordinates of a shape. The library is not part of the repository, so the model is parametrised by this order;
all that is assumed is that each valid coordinate is visited exactly once. -/
structure GridOrder (D : ℕ) where
  coords : Coord D → List (Coord D)
  nodup : ∀ s, (coords s).Nodup
  mem : ∀ s c, c ∈ coords s ↔ ∀ i, 0 ≤ c i ∧ c i < s i

/-- the `std::transform` of exterior_grid_impl.hpp:13-20: a running counter numbers the cells whose mask is
`true` (outside) and writes `-1` elsewhere. -/
def numberCells (outside : Coord D → Bool) : ℤ → List (Coord D) → List (Coord D × ℤ)
  | _, [] => []
  | k, c :: l => if !outside c then (c, -1) :: numberCells outside k l
                 else (c, k) :: numberCells outside (k + 1) l

/-- `counter` after the transform (exterior_grid_impl.hpp:13-20). -/
def counterAfter (outside : Coord D → Bool) : ℤ → List (Coord D) → ℤ
  | k, [] => k
  | k, c :: l => if !outside c then counterAfter outside k l else counterAfter outside (k + 1) l

/-- reading `m_cell_indices(c)`. Reading a coordinate outside the shape is undefined in C++; the model
returns `-7` there so that no theorem can depend on it by accident. -/
def gridGet (g : List (Coord D × ℤ)) (c : Coord D) : ℤ :=
  match g.find? (fun p => decide (p.1 = c)) with
  | some p => p.2
  | none => -7

/-- the loop filling `m_cell_coords` (exterior_grid_impl.hpp:22-27). -/
def fillCoords (g : List (Coord D × ℤ)) (init : List (Coord D)) : List (Coord D) :=
  g.foldl (fun v p => if p.2 ≥ 0 then v.set p.2.toNat p.1 else v) init

/-- a facet: the pair `[negative side, positive side]` and the axis
(`m_boundary_facet_pairs`, `m_boundary_facet_axes`, exterior_grid.hpp:65-68, domain_boundary.hpp:33). -/
abbrev Facet (D : ℕ) := (ℤ × ℤ) × Fin D

/-- the low-side loop (exterior_grid_impl.hpp:33-42). -/
def lowFacets (O : GridOrder D) (shape : Coord D) (idx : Coord D → ℤ) (i : Fin D) : List (Facet D) :=
  (O.coords (Function.update shape i 1)).filterMap fun v =>
    let pi := idx v
    if pi ≥ 0 then some ((-2, pi), i) else none

/-- the interior loop (exterior_grid_impl.hpp:43-58). -/
def midFacets (O : GridOrder D) (shape : Coord D) (idx : Coord D → ℤ) (i : Fin D) : List (Facet D) :=
  (O.coords (Function.update shape i (shape i - 1))).filterMap fun v =>
    let v2 := Function.update v i (v i + 1)
    let ni := idx v
    let pi := idx v2
    if ni = -1 ∨ pi = -1 then none else some ((ni, pi), i)

/-- the high-side loop (exterior_grid_impl.hpp:59-72). -/
def highFacets (O : GridOrder D) (shape : Coord D) (idx : Coord D → ℤ) (i : Fin D) : List (Facet D) :=
  (O.coords (Function.update shape i 1)).filterMap fun v0 =>
    let v := Function.update v0 i (shape i - 1)
    let ni := idx v
    if ni ≥ 0 then some ((ni, -2), i) else none

/-- one iteration of the axis loop (exterior_grid_impl.hpp:32-73), including the early `continue` of
line 45, which skips the interior *and the high-side* facets when the axis has fewer than two cells. -/
def axisFacets (O : GridOrder D) (shape : Coord D) (idx : Coord D → ℤ) (i : Fin D) : List (Facet D) :=
  if shape i - 1 < 1 then lowFacets O shape idx i
  else lowFacets O shape idx i ++ midFacets O shape idx i ++ highFacets O shape idx i

/-- the data members of `ExteriorGrid<D>` (exterior_grid.hpp:65-68). -/
structure ExteriorGrid (D : ℕ) where
  shape : Coord D
  cellIndices : List (Coord D × ℤ)
  cellCoords : List (Coord D)
  facets : List (Facet D)

/-- the constructor (exterior_grid_impl.hpp:9-74). -/
def ExteriorGrid.make (O : GridOrder D) (shape : Coord D) (outside : Coord D → Bool) : ExteriorGrid D :=
  let g := numberCells outside 0 (O.coords shape)
  let counter := counterAfter outside 0 (O.coords shape)
  { shape := shape
    cellIndices := g
    cellCoords := fillCoords g (List.replicate counter.toNat fun _ => 0)
    facets := (List.finRange D).flatMap (axisFacets O shape (gridGet g)) }

/-- `cell_index(const coord_type&)` (exterior_grid_impl.hpp:121-128). -/
def ExteriorGrid.cellIndex (E : ExteriorGrid D) (c : Coord D) : ℤ :=
  if !(ValidIndex E.shape c) then -1 else gridGet E.cellIndices c

/-- `num_cells()` (exterior_grid.hpp:43). -/
def ExteriorGrid.numCells (E : ExteriorGrid D) : ℕ := E.cellCoords.length

/-- `boundary_facet_pairs()` (domain_boundary.cpp:50). -/
def ExteriorGrid.pairs (E : ExteriorGrid D) : List (ℤ × ℤ) := E.facets.map (·.1)

/-! ## `DomainBoundary` -/

/-- `is_boundary_facet(pair)` (domain_boundary.hpp:30). -/
def isBoundaryPair (p : ℤ × ℤ) : Bool := decide (p.1 = -2) || decide (p.2 = -2)

/-- `is_boundary_facet(int)` (domain_boundary.cpp:8-10); `none` = `std::out_of_range` thrown by `at`. -/
def isBoundaryFacet (pairs : List (ℤ × ℤ)) (k : ℤ) : Option Bool :=
  if 0 ≤ k then (pairs[k.toNat]?).map isBoundaryPair else none

/-- the loop of `boundary_facets()` (domain_boundary.cpp:32-40): the structured binding
`[idx, pr]` unpacks the *pair* into two ints, so `idx` is the negative-side cell and `pr` the positive-side
cell, and `is_boundary_facet(pr)` is the overload taking a facet index. `none` = exception. -/
def boundaryFacetsLoop (pairs : List (ℤ × ℤ)) : List (ℤ × ℤ) → Option (List ℤ)
  | [] => some []
  | (idx, pr) :: l =>
    match isBoundaryFacet pairs pr with
    | none => none
    | some b => (boundaryFacetsLoop pairs l).map fun r => if b then idx :: r else r

/-- `boundary_facets()` (domain_boundary.cpp:32-40), as a list standing for the returned set. -/
def boundaryFacets (pairs : List (ℤ × ℤ)) : Option (List ℤ) := boundaryFacetsLoop pairs pairs

/-- the loop of `interior_facets()` (domain_boundary.cpp:41-49). -/
def interiorFacetsLoop (pairs : List (ℤ × ℤ)) : List (ℤ × ℤ) → Option (List ℤ)
  | [] => some []
  | (idx, pr) :: l =>
    match isBoundaryFacet pairs pr with
    | none => none
    | some b => (interiorFacetsLoop pairs l).map fun r => if !b then idx :: r else r

/-- `interior_facets()` (domain_boundary.cpp:41-49). -/
def interiorFacets (pairs : List (ℤ × ℤ)) : Option (List ℤ) := interiorFacetsLoop pairs pairs

/-- `operators::grid_boundary_faces(db, offset)` (src/operators/boundary.cpp:5-13), which enumerates
correctly. -/
def gridBoundaryFaces (pairs : List (ℤ × ℤ)) (offset : ℤ) : List ℤ :=
  pairs.zipIdx.filterMap fun pi => if isBoundaryPair pi.1 then some ((pi.2 : ℤ) + offset) else none

/-- `Eigen::Triplet<double>`: row, column, value. -/
abbrev Triplet := ℤ × ℤ × ℚ

/-- the triplets of one facet (src/operators/boundary.cpp:17-20). -/
def facetTriplets (include_ : Bool) (row : ℤ) (p : ℤ × ℤ) : List Triplet :=
  if include_ || !isBoundaryPair p then
    (if p.1 ≥ 0 then [(row, p.1, -1)] else []) ++ (if p.2 ≥ 0 then [(row, p.2, 1)] else [])
  else []

/-- `boundary_triplets(db, include_domain_boundary)` (src/operators/boundary.cpp:14-23). -/
def boundaryTriplets (pairs : List (ℤ × ℤ)) (include_ : Bool) : List Triplet :=
  pairs.zipIdx.flatMap fun pi => facetTriplets include_ pi.2 pi.1

/-- entry of the sparse matrix built by `setFromTriplets`: duplicates are summed (Eigen). -/
def tripletEntry (t : List Triplet) (r c : ℤ) : ℚ :=
  ((t.filter fun x => decide (x.1 = r) && decide (x.2.1 = c)).map (·.2.2)).sum

/-! ## a concrete visiting order, showing that `GridOrder` is inhabited -/

/-- first axis slowest. -/
def lexCoords : (D : ℕ) → Coord D → List (Coord D)
  | 0, _ => [fun i => i.elim0]
  | n + 1, s => (List.range (s 0).toNat).flatMap fun (k : ℕ) =>
      (lexCoords n fun i => s i.succ).map fun c => (Fin.cons (k : ℤ) c : Coord (n + 1))

theorem mem_lexCoords : ∀ (D : ℕ) (s c : Coord D), c ∈ lexCoords D s ↔ ∀ i, 0 ≤ c i ∧ c i < s i
  | 0, s, c => by
    simp only [lexCoords, List.mem_singleton]
    exact ⟨fun _ i => i.elim0, fun _ => funext fun i => i.elim0⟩
  | n + 1, s, c => by
    simp only [lexCoords, List.mem_flatMap, List.mem_range, List.mem_map]
    constructor
    · rintro ⟨k, hk, c', hc', rfl⟩ i
      have ih := (mem_lexCoords n _ c').1 hc'
      rcases Fin.eq_zero_or_eq_succ i with rfl | ⟨j, rfl⟩
      · simp only [Fin.cons_zero]; omega
      · simp only [Fin.cons_succ]; exact ih j
    · intro h
      refine ⟨(c 0).toNat, ?_, fun i => c i.succ, (mem_lexCoords n _ _).2 fun i => h i.succ, ?_⟩
      · have := h 0; omega
      · funext i
        rcases Fin.eq_zero_or_eq_succ i with rfl | ⟨j, rfl⟩
        · simp only [Fin.cons_zero]; have := h 0; omega
        · simp only [Fin.cons_succ]

theorem nodup_lexCoords : ∀ (D : ℕ) (s : Coord D), (lexCoords D s).Nodup
  | 0, _ => by simp [lexCoords]
  | n + 1, s => by
    simp only [lexCoords]
    rw [List.nodup_flatMap]
    constructor
    · intro k _
      refine (nodup_lexCoords n _).map ?_
      intro a b h
      funext i
      have := congrFun h i.succ
      simpa using this
    · have hn : (List.range (s 0).toNat).Pairwise (· ≠ ·) := List.nodup_range
      refine hn.imp ?_
      intro a b hab
      simp only [Function.onFun, List.disjoint_left, List.mem_map]
      rintro x ⟨c, _, rfl⟩ ⟨c', _, h⟩
      have := congrFun h 0
      simp at this
      exact hab this.symm

/-- row-major order. -/
def lexOrder (D : ℕ) : GridOrder D := ⟨lexCoords D, nodup_lexCoords D, mem_lexCoords D⟩

example : (ExteriorGrid.make (lexOrder 2) ![2, 1] fun _ => true).facets
    = [((-2, 0), 0), ((0, 1), 0), ((1, -2), 0), ((-2, 0), 1), ((-2, 1), 1)] := by decide +kernel

end Mandoline
