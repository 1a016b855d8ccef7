import Verif.Tri.ArrPieces
import Verif.Tri.ArrSeg
import Verif.Tri.Bake

/-!
# Model of `TriangleIntersections<D>::vptr_faces` (include/mandoline/construction/facet_intersections_impl.hpp:410-505)

Vertices are passed around as pointers; as in `Verif.Tri.Model` a pointer is a `TriPt`, identified by its `id`: `(3, j)` is
corner `j`, `(e, k)` the `k`-th crossing of edge `e`, and now also `(4, k)` the `k`-th crossing inside the triangle.
-/
namespace Mandoline
variable {D : ℕ}

/-- `EdgeIntersections::gvertices` (facet_intersections.hpp:121-141) for crossings given with their parameter: first end, the
crossings with parameter in (0,1) in the order of the parameter, second end. -/
def orderedPts {α : Type} (p q : α) (isects : List (ℚ × α)) : List α :=
  p :: (isects.foldl (fun im i => if i.1 > 0 ∧ i.1 < 1 then OMap.assign ratLt i.1 i.2 im else im) []).map Prod.snd ++ [q]

/-- an execution of the `FaceCollapser` on `edges` with the half-edge `b` marked for removal: the sorted neighbourhoods, the
representatives chosen by the disjoint set, the choices of `merge_faces`. -/
structure CollapseRun (edges : List DEdge) (V : ℤ → Dir) (b : DEdge) where
  ord : ℤ → List ℤ
  perm : ∀ a, (ord a).Perm ((FaceCollapser.make edges).ring a)
  sort : ∀ a, (ord a).Pairwise fun x y => angleLt (dirTo V a y) (dirTo V a x) = false
  R : DsuRoots (((FaceCollapser.make edges).setEdgeForRemoval b).unify ord).ds
  M : Arr.MergeRun (((FaceCollapser.make edges).setEdgeForRemoval b).bakeSimple ord R) V

/-- `faces_no_holes()`: the loops. `none`: an exception. -/
def CollapseRun.loops {edges : List DEdge} {V : ℤ → Dir} {b : DEdge} (r : CollapseRun edges V b) : Option (List (List ℤ)) :=
  r.M.out.facesNoHoles.map fun l => l.map Prod.snd

namespace TriInput
variable (T : TriInput D) (ptrLt : ℕ × ℕ → ℕ × ℕ → Bool)

/-- corner `j` as a pointer. -/
def corner (j : Fin 3) : TriPt D := ⟨(3, (j : ℕ)), T.V j, Pi.single j 1⟩

/-- `edge_isects[e]->gvertices()`. -/
def sidePts (e : Fin 3) : List (TriPt D) :=
  orderedPts (T.corner (T.src e)) (T.corner (T.tgt e))
    ((T.edgeIsects e).zipIdx.map fun p => (p.1.t, ⟨((e : ℕ), p.2), p.1.v, edgeBary (T.src e) (T.tgt e) p.1.t⟩))

/-- the groups that become `intersections`, each with its intersection (facet_intersections_impl.hpp:356-371). -/
def triGroups : List (TriGroup D × TriIsect D) :=
  ((List.range (D + 1)).flatMap (gridCondensation (T.chordItems ptrLt))).filterMap fun g => (groupIsect g).map fun r => (g, r)

/-- `&intersections[k]`. -/
def triPts : List (TriPt D) := (T.triGroups ptrLt).zipIdx.map fun p => ⟨(4, p.2), p.1.2.v, p.1.2.b⟩

/-- the members of a group are compared by value: `x` is in the group. -/
def inGroup (x : Vertex D × (Fin 3 → ℚ)) (g : TriGroup D) : Bool :=
  g.2.any fun y => decide (y.1.coord = x.1.coord) && decide (y.1.quot = x.1.quot) && decide (y.1.clamped = x.1.clamped) &&
    decide (y.2 = x.2)

/-- `get_vptr` (facet_intersections.hpp:310-320) of a crossing of a chord: the intersection of its group
(`edge_to_triangle_map`, facet_intersections_impl.hpp:356-374). The last component of the `id` when there is none is
arbitrary: then the crossing itself is returned, which no table knows. -/
def getVptr (x : Vertex D × (Fin 3 → ℚ)) : TriPt D :=
  (((T.triGroups ptrLt).zipIdx.find? fun p => inGroup x p.1.1).map fun p => ⟨(4, p.2), p.1.2.v, p.1.2.b⟩).getD ⟨(5, 0), x.1, x.2⟩

/-- the `gvertices()` of a chord, through `get_vptr` (facet_intersections.hpp:348-357). -/
def chordPts (c : TriPt D × TriPt D) : List (TriPt D) :=
  orderedPts c.1 c.2 ((bakeEdge (-1) T.grid c.1.v c.2.v).map fun e => (e.t, T.getVptr ptrLt (e.v, chordBary c.1.b c.2.b e.t)))

/-- `vptr_edges(true)` (facet_intersections.hpp:346-366), as the list of the pairs inserted. -/
def vptrPieces : List (TriPt D × TriPt D) :=
  (T.chords ptrLt).flatMap (fun c => intervals (T.chordPts ptrLt c)) ++ (List.finRange 3).flatMap fun e => intervals (T.sidePts e)

/-- `gvertices()` (facet_intersections.hpp:270-296): corners, crossings of the edges, crossings inside. -/
def vptrs : List (TriPt D) := T.cornerPts ++ (List.finRange 3).flatMap T.edgePts ++ T.triPts ptrLt

/-- `crossing_indexer` after `populate_crossing_indices` (vertex_types_impl.hpp:42-48): the position in `gvertices()`. -/
def index (p : TriPt D) : ℤ := ((T.vptrs ptrLt).findIdx fun q => decide (q.id = p.id) : ℕ)

/-- `inverse_crossing_indexer`; the default stands for the exception thrown by `at`. -/
def vptrAt (i : ℤ) : TriPt D := ((T.vptrs ptrLt)[i.toNat]?).getD (T.corner 0)

/-- `B` (facet_intersections_impl.hpp:469-473): the first two barycentric coordinates (`barycentric_coords`,
facet_intersections.hpp:240-268). -/
def pos (i : ℤ) : Dir := ((T.vptrAt ptrLt i).b 0, (T.vptrAt ptrLt i).b 1)

/-- one iteration of `nobdry_edges` (facet_intersections.hpp:337-342). -/
def edgeOf (p : TriPt D × TriPt D) : Option DEdge :=
  let a := T.index ptrLt p.1
  let b := T.index ptrLt p.2
  if a = b then none else some (if a < b then (a, b) else (b, a))

/-- `nobdry_edges(VM)` (facet_intersections.hpp:334-345): a `std::set`, here the increasing list of its elements. (It asks
`vptr_edges` for the boundary, in spite of its name.) -/
def faceEdges : List DEdge :=
  (((T.vptrPieces ptrLt).filterMap (T.edgeOf ptrLt)).foldl (fun m e => OMap.assign edgeLt e () m) []).map Prod.fst

/-- `boundary_vptr_edge` (facet_intersections_impl.hpp:411-425), as indices (`boundary_edge`, facet_intersections.hpp:300-307).
Side `e` is the one stored first (`edge_isects[0]`): which one that is depends on the tables of the caller. -/
def boundaryEdge (e : Fin 3) : DEdge :=
  let gv := T.sidePts e
  let a := T.index ptrLt ((gv[0]?).getD (T.corner 0))
  let b := T.index ptrLt ((gv[1]?).getD (T.corner 0))
  if T.src e + 1 = T.tgt e then (b, a) else (a, b)

/-- an execution of `vptr_faces` (facet_intersections_impl.hpp:456-505). -/
def FacesRun (e : Fin 3) : Type := CollapseRun (T.faceEdges ptrLt) (T.pos ptrLt) (T.boundaryEdge ptrLt e)

/-- the loops returned by `vptr_faces`. (The two reversals cancel: facet_intersections_impl.hpp:497.) `none`: an
exception. -/
def FacesRun.faces {T : TriInput D} {ptrLt : ℕ × ℕ → ℕ × ℕ → Bool} {e : Fin 3} (r : T.FacesRun ptrLt e) : Option (List (List (TriPt D))) :=
  (CollapseRun.loops r).map fun l => l.map fun p : List ℤ => p.map (T.vptrAt ptrLt)

end TriInput
end Mandoline
