import Verif.Geom.Vertex

/-!
# Model of element masks and element/grid-cell association
(coord_masked_geometry_impl.hpp, construction/generator_impl.hpp)
-/
namespace Mandoline
variable {D : ℕ}

/-- the `for(; it != C.end(); ++it) mask &= f(*it)` loop (coord_masked_geometry_impl.hpp:37-43,
generator_impl.hpp:1033-1039). -/
def maskFold (f : ℕ → Mask D) (m : Mask D) (l : List ℕ) : Mask D := l.foldl (fun m i => m.and (f i)) m

/-- `CoordMaskedGeometry::get_container_mask` for a container of indices
(coord_masked_geometry_impl.hpp:26-45). Dereferences `begin()`: undefined (`none`) on an empty container. -/
def getContainerMask (f : ℕ → Mask D) : List ℕ → Option (Mask D)
  | [] => none
  | i :: l => some (maskFold f (f i) l)

/-- `CutFaceBase::update_mask` (cutface_impl.hpp:63-82) and `CutEdgeBase::update_mask`
(cutedge_impl.hpp:63-82): starts from the front vertex of the first loop (undefined, `none`, if there is no
such vertex) and intersects with the masks of all vertices of all loops. `f` is its lambda `get_mask`. -/
def updateMask (f : ℕ → Mask D) : List (List ℕ) → Option (Mask D)
  | [] => none
  | [] :: _ => none
  | (i :: c) :: l => some (((i :: c) :: l).foldl (fun m c' => maskFold f m c') (f i))

/-- the lambda `get_mask` of `update_mask` (cutface_impl.hpp:67-73) and `CutCellEdgeGenerator::get_mask`
(generator.hpp:159-167): grid vertices come first (`offset` of them, `unindex` their coordinates), then
the crossings. -/
def vertexMask (offset : ℕ) (unindex : ℕ → Coord D) (V : ℕ → Vertex D) (idx : ℕ) : Mask D :=
  if idx ≥ offset then (V (idx - offset)).mask else Mask.full (unindex idx)

/-- `CutCellEdgeGenerator::grid_vertex(idx)` (generator.hpp:223-229). -/
def gridVertex (offset : ℕ) (unindex : ℕ → Coord D) (V : ℕ → Vertex D) (idx : ℕ) : Vertex D :=
  if idx < offset then Vertex.ofCoord (unindex idx) else V (idx - offset)

/-- `CutCellEdgeGenerator::face_mask(vector<int>)` (generator_impl.hpp:1028-1040): empty mask for an
empty list. -/
def faceMask (f : ℕ → Mask D) : List ℕ → Mask D
  | [] => Mask.empty
  | i :: l => maskFold f (f i) l

/-- `CutCellEdgeGenerator::face_mask(set<vector<int>>)` (generator_impl.hpp:1015-1027). -/
def faceMask2 (f : ℕ → Mask D) : List (List ℕ) → Mask D
  | [] => Mask.empty
  | c :: l => l.foldl (fun m c' => m.and (faceMask f c')) (faceMask f c)

/-- `CoordMaskedGeometry::get_min_coord` (coord_masked_geometry_impl.hpp:55-81): componentwise minimum;
undefined on an empty container. -/
def getMinCoord (f : ℕ → Coord D) : List ℕ → Option (Coord D)
  | [] => none
  | i :: l => some (l.foldl (fun c j => fun k => min (c k) (f j k)) (f i))

/-- `CoordMaskedGeometry::possible_cells` (coord_masked_geometry_impl.hpp:121-124) for an element whose mask
is the container mask of its vertices. -/
def elementPossibleCells (V : ℕ → Vertex D) (l : List ℕ) : Option (Finset (Coord D)) := do
  let m ← getContainerMask (fun i => (V i).mask) l
  let c ← getMinCoord (fun i => (V i).coord) l
  pure (m.possibleCells c)

/-- the intersection loop of `CutCellEdgeGenerator::possible_cells` with its early return
(generator_impl.hpp:963-971). `std::set_intersection` of sorted sets is `∩`. -/
def possibleCellsLoop (V : ℕ → Vertex D) : Finset (Coord D) → List ℕ → Finset (Coord D)
  | poss, [] => poss
  | poss, f :: l =>
    let i := poss ∩ (V f).possibleCells
    if i = ∅ then ∅ else possibleCellsLoop V i l

/-- `CutCellEdgeGenerator::possible_cells(vector<int>)` (generator_impl.hpp:957-974). -/
def genPossibleCells (V : ℕ → Vertex D) (face : List ℕ) : Finset (Coord D) :=
  match face with
  | [] => ∅
  | f0 :: _ => possibleCellsLoop V (V f0).possibleCells face

/-- `CutCellEdgeGenerator::possible_cells(set<vector<int>>)` (generator_impl.hpp:976-994); reads
`(*faces.begin())[0]`, undefined (`none`) if the first loop is empty. -/
def genPossibleCells2 (V : ℕ → Vertex D) (faces : List (List ℕ)) : Option (Finset (Coord D)) :=
  match faces with
  | [] => some ∅
  | [] :: _ => none
  | (f0 :: _) :: _ => some (possibleCellsLoop V (V f0).possibleCells faces.flatten)

/-- the loop of `possible_cells_cell` (generator_impl.hpp:1001-1011). -/
def possibleCellsCellLoop (cells : ℕ → Finset (Coord D)) : Finset (Coord D) → List ℕ → Finset (Coord D)
  | poss, [] => poss
  | poss, f :: l =>
    let i := poss ∩ cells f
    if i = ∅ then ∅ else possibleCellsCellLoop cells i l

/-- `possible_cells_cell` (generator_impl.hpp:996-1014): intersects the possible cells of the faces of a
3-D cell; `cells f` is `possible_cells(CFs[f].indices)`. -/
def possibleCellsCell (cells : ℕ → Finset (Coord D)) (faces : List ℕ) : Finset (Coord D) :=
  match faces with
  | [] => ∅
  | f0 :: _ => possibleCellsCellLoop cells (cells f0) faces

/-- the recursive lambda `mac(sign, dim)` of `active_cells` (generator_impl.hpp:283-295). The captured array
`myc` is passed by value: entries above `dim` are always rewritten before `mycells.insert(myc)`, so sharing
it between the two recursive calls has no further effect. -/
def mac (c : Coord D) (q : Fin D → ℚ) (myc : Coord D) (sign : ℤ) (dim : Fin D) : Finset (Coord D) :=
  let myc' := Function.update myc dim (c dim - sign)
  if h : dim.val + 1 = D then {myc'}
  else
    let next : Fin D := ⟨dim.val + 1, by omega⟩
    if q next = 0 then mac c q myc' 0 next ∪ mac c q myc' 1 next
    else mac c q myc' 0 next
termination_by D - dim.val
decreasing_by all_goals omega

/-- `add_cells(c, quot)` of `active_cells` (generator_impl.hpp:277-316). -/
def addCells [NeZero D] (c : Coord D) (q : Fin D → ℚ) : Finset (Coord D) :=
  insert c (if q 0 = 0 then mac c q c 0 0 ∪ mac c q c 1 0 else mac c q c 0 0)

/-- `active_cells` (generator_impl.hpp:275-328): union over all crossings. -/
def activeCells [NeZero D] (crossings : List (Vertex D)) : Finset (Coord D) :=
  crossings.foldl (fun s v => s ∪ addCells v.coord v.quot) ∅

/-- `valid_index` of a grid of the given shape (mtao core). -/
def ValidIndex (shape : Coord D) (c : Coord D) : Bool :=
  (List.finRange D).all fun i => decide (0 ≤ c i) && decide (c i < shape i)

/-- `m_active_grid_cell_mask` after `bake_active_grid_cell_mask` (generator_impl.hpp:692-733): initialised to
`true`, set to `false` for each valid active cell (the D iterations of the outer loop repeat the same
writes). `none` outside the grid. -/
def activeGridCellMask [NeZero D] (shape : Coord D) (crossings : List (Vertex D)) (c : Coord D) :
    Option Bool :=
  if ValidIndex shape c then some (!decide (c ∈ activeCells crossings)) else none

end Mandoline
