import Verif.Core.Lex
import Verif.Core.GridIndex
import Verif.Edge.Model

/-!
# Model of crossing unification and grid-edge subdivision

`CutData::compute_crossings` (construction/cutdata_impl.hpp:457-511), `CutCellEdgeGenerator::bake_vertices`,
`get_per_axis_crossing_indices`, `bake_active_grid_cell_mask`, `bake_edges`
(construction/generator_impl.hpp:160-186, 479-505, 692-791), and the comparison operators of
construction/vertex_types_impl.hpp.
-/
namespace Mandoline
variable {D : ℕ}

/-- what `Vertex::operator<` and `==` look at. -/
abbrev VKey (D : ℕ) := Coord D × Pt D

/-- key of a vertex in `std::map<VType,int>`. -/
def Vertex.key (v : Vertex D) : VKey D := (v.coord, v.quot)

/-- `Vertex::operator<` (vertex_impl.hpp:51-71) on keys. -/
def keyLt (a b : VKey D) : Bool := Vertex.lt ⟨a.1, a.2, fun _ => false⟩ ⟨b.1, b.2, fun _ => false⟩

/-- a crossing: its vertex and its index (vertex_types.hpp:75-119; which input element it came from is not
looked at by `compute_crossings`). -/
structure CrossingI (D : ℕ) where
  v : Vertex D
  index : ℤ

/-- loop state of `compute_crossings`. -/
structure FuseState (D : ℕ) where
  map : List (VKey D × ℤ)
  count : ℤ
  out : List (CrossingI D)

/-- loop body of `compute_crossings` with `fuse` (cutdata_impl.hpp:486-501). -/
def fuseStep (gridIndex : Coord D → ℤ) (st : FuseState D) (v : Vertex D) : FuseState D :=
  if v.isGridVertex then
    let k := gridIndex v.coord
    ⟨OMap.assign keyLt v.key k st.map, st.count, st.out ++ [⟨v, k⟩]⟩
  else
    match OMap.find keyLt v.key st.map with
    | some k => ⟨st.map, st.count, st.out ++ [⟨v, k⟩]⟩
    | none => ⟨OMap.assign keyLt v.key st.count st.map, st.count + 1, st.out ++ [⟨v, st.count⟩]⟩

/-- `compute_crossings(fuse = true)` (cutdata_impl.hpp:457-502) on the concatenation of the vertex, edge and
face crossings (`ret` after the three `std::copy`). -/
def computeCrossings (gridIndex : Coord D → ℤ) (gridSize : ℤ) (vs : List (Vertex D)) : FuseState D :=
  vs.foldl (fuseStep gridIndex) ⟨[], gridSize, []⟩

/-- `compute_crossings(fuse = false)` (cutdata_impl.hpp:503-509). -/
def computeCrossingsNoFuse (vs : List (Vertex D)) : List (CrossingI D) :=
  (vs.zipIdx).map fun p => ⟨p.1, (p.2 : ℤ)⟩

/-- `cut_vertex_size` (cutdata_impl.hpp:337-345). -/
def cutVertexSize (gridSize : ℤ) (cs : List (CrossingI D)) : ℤ :=
  cs.foldl (fun s c => max s (c.index + 1)) gridSize

/-- `maxind` of `bake_vertices` (generator_impl.hpp:166-172): the size of `m_crossings` and `m_newV`. -/
def bakeVerticesSize (gridSize : ℤ) (cs : List (CrossingI D)) : ℤ :=
  max (cs.foldl (fun s c => max c.index s) (-1) + 1 - gridSize) 0

/-- `m_crossings` after `bake_vertices` (generator_impl.hpp:177-185): later crossings overwrite; a slot never
written keeps the default (`none`). -/
def bakeVertices (gridSize : ℤ) (cs : List (CrossingI D)) (slot : ℤ) : Option (Vertex D) :=
  cs.foldl (fun cur c => if 0 ≤ c.index - gridSize ∧ c.index - gridSize = slot then some c.v else cur) none

/-- `clamped_indices.count() == D-1`, and the unclamped axis (generator_impl.hpp:491-500,
`EdgeCrossing::find_unbound`, vertex_types_impl.hpp:165-174). -/
def unboundAxis (v : Vertex D) : Option (Fin D) :=
  if v.clampedCount = D - 1 then (List.finRange D).find? fun j => !v.clamped j else none

/-- `std::map<coord, std::set<EdgeCrossing>>` for one axis; the set is ordered by `quot(axis)`
(vertex_types_impl.hpp:188-198) and holds the crossing index. -/
abbrev AxisStore (D : ℕ) := List (Coord D × List (ℚ × ℤ))

/-- `per_axis[j][gv.coord].emplace(crossing)` for the crossings on edges of axis `j`
(`get_per_axis_crossing_indices`, generator_impl.hpp:479-505). -/
def perAxisStep (j : Fin D) (s : AxisStore D) (c : CrossingI D) : AxisStore D :=
  if unboundAxis c.v = some j then
    OMap.alter coordLtB c.v.coord (fun o => OMap.insertNew ratLt (c.v.quot j) c.index (o.getD [])) s
  else s

/-- axis `j` of `get_per_axis_crossing_indices` (generator_impl.hpp:479-505). -/
def perAxis (cs : List (CrossingI D)) (j : Fin D) : AxisStore D := cs.foldl (perAxisStep j) []

/-- the corners `a` of `per_boundary_cell_vertex_looper(N, f, c)` (generator.hpp:148-162): all corners of the
cell whose bit along `N` is 0. -/
def boundaryCellVertices (N : Fin D) (c : Coord D) : List (Coord D) :=
  (((List.range (2 * 2 ^ (D - 1))).filter fun i => !i.testBit N.val).map fun i =>
    fun j => c j + (if i.testBit j.val then 1 else 0))

/-- `add_grid(dim, a)`: `m_per_axis_crossings[dim][a];` (generator_impl.hpp:706-714): makes sure the key exists. -/
def touchEdge (s : AxisStore D) (a : Coord D) : AxisStore D :=
  OMap.alter coordLtB a (fun o => o.getD []) s

/-- axis `i` of `m_per_axis_crossings` after `bake_active_grid_cell_mask` (generator_impl.hpp:700-732), for the
list `ac` of active cells. -/
def storeWithGrid (cellShape : Coord D) (ac : List (Coord D)) (cs : List (CrossingI D)) (i : Fin D) :
    AxisStore D :=
  ac.foldl (fun s c => if ValidIndex cellShape c then (boundaryCellVertices i c).foldl touchEdge s else s)
    (perAxis cs i)

/-- `edge_ordered_elements` of one grid edge (generator_impl.hpp:755-763): keys 0 and 1 are the grid vertices,
then the crossings are inserted (an existing key is kept). -/
def edgeOrdered (v0 v1 : ℤ) (s : List (ℚ × ℤ)) : List (ℚ × ℤ) :=
  s.foldl (fun m p => OMap.insertNew ratLt p.1 p.2 m)
    (OMap.assign ratLt 1 v1 (OMap.assign ratLt 0 v0 []))

/-- `add_edges` for one grid edge (generator_impl.hpp:752-775), as the pairs of vertex indices pushed. -/
def gridEdgePieces (v0 v1 : ℤ) (s : List (ℚ × ℤ)) : List (ℤ × ℤ) :=
  (intervals ((edgeOrdered v0 v1 s).map Prod.snd)).filter fun e => e.1 ≠ e.2

/-- `mask` attached to the pieces of a grid edge (generator_impl.hpp:759-760). -/
def gridEdgeMask (c : Coord D) (d : Fin D) : Mask D := Function.update (fun i => some (c i)) d none

/-- `grid<1>(i).valid_index(c)`: the shape of the edges of axis `i` (vertices along the other axes, cells
along `i`). -/
def edgeShape (cellShape : Coord D) (d : Fin D) : Coord D :=
  fun i => if i = d then cellShape i else cellShape i + 1

/-- `bake_edges` for axis `i` (generator_impl.hpp:736-791): `(mask, edge)` in order. `vidx` is
`vertex_index`. -/
def bakeEdgesAxis (vidx : Coord D → ℤ) (cellShape : Coord D) (d : Fin D) (store : AxisStore D) :
    List (Mask D × (ℤ × ℤ)) :=
  store.flatMap fun p =>
    if ValidIndex (edgeShape cellShape d) p.1 then
      (gridEdgePieces (vidx p.1) (vidx (Function.update p.1 d (p.1 d + 1))) p.2).map
        fun e => (gridEdgeMask p.1 d, e)
    else []

/-- the data `EdgeIntersection::operator<` looks at. -/
structure EdgeIsectKey (D : ℕ) where
  v : Vertex D
  edgeCoord : ℚ
  edgeIndex : ℤ

/-- `EdgeIntersection::operator<` (vertex_types_impl.hpp:56-66). -/
def EdgeIsectKey.lt (a b : EdgeIsectKey D) : Bool :=
  if a.edgeCoord ≥ 0 ∧ a.edgeIndex = b.edgeIndex then decide (a.edgeCoord < b.edgeCoord)
  else decide (a.edgeIndex < b.edgeIndex) && a.v.lt b.v

end Mandoline
