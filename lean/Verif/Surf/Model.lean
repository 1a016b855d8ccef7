import Verif.Tri.FaceTiles
import Verif.Sched.Pieces

/-!
# Model of `CutData<3>::bake` (include/mandoline/construction/cutdata_impl.hpp:85-268)

Edges, triangles, unification of all crossings, cut edges and cut faces.
-/
namespace Mandoline
open Sched
variable {D n m k : ℕ}

/-- the vertex objects `bake` refers to by address: input vertex `k`, intersection `j` of edge `i`, intersection `j` of
triangle `f`. -/
inductive SPtr
  | vert (k : ℕ)
  | isect (i j : ℕ)
  | tri (f j : ℕ)
  deriving DecidableEq

/-- `CutMeshFace`: mask, indices, parent (cutdata_impl.hpp:222). -/
structure MeshFace (D : ℕ) where
  mask : Mask D
  verts : List ℤ
  parent : ℤ

/-- what `bake` starts from: vertices and edges, the triangles `F`, and the table `FE` of the edges of each triangle.
Simplification: `FE f j` is the edge opposite to corner `j`; the table of the code may list the three edges in any order, of
which only the first entry matters: `first f` is the corner opposite to it. -/
structure SurfInput (D n m k : ℕ) where
  I : EdgeInput D n m
  F : Fin k → Fin 3 → Fin m
  FE : Fin k → Fin 3 → Fin n
  first : Fin k → Fin 3

namespace SurfInput
variable (W : SurfInput D n m k)

/-- `TriangleIntersections(V, F, E, FE, edge_intersections, f)` (facet_intersections.hpp:195-215, called from
cutdata_impl.hpp:423-425). `bary_indices` says whether an edge is stored in the cyclic direction of the corners. -/
def tri (f : Fin k) : TriInput D where
  V := fun j => W.I.V (W.F f j)
  rev := fun j => decide ((W.I.E (W.FE f j)).1 = W.F f (j + 2))
  edgeIndex := fun j => ((W.FE f j : ℕ) : ℤ)
  grid := W.I.grid

/-- what the code leaves open in an execution: the order of the addresses, and the choices inside the `FaceCollapser` of each
triangle. `polys f` is the result of `m_triangle_intersections[f].vptr_faces()` in some execution of it; `none`: an exception. -/
structure Choices where
  ptrLt : Fin k → ℕ × ℕ → ℕ × ℕ → Bool
  polys : Fin k → Option (List (List (TriPt D)))
  run : ∀ f, ∃ r : (W.tri f).FacesRun (ptrLt f) (W.first f), r.faces = polys f

variable {W} (C : W.Choices)

/-- `m_triangle_intersections[f].intersections`. -/
def Choices.isects (f : Fin k) : List (TriIsect D) := (W.tri f).bake (C.ptrLt f)

variable (W)
variable (R : Fin n → List (Isect D)) (S : Fin k → List (TriIsect D))

/-- addresses in the order of the crossings: vertices, `flat_edge_intersections`, `flat_triangle_intersections`
(cutdata_impl.hpp:434-453, 457-478). -/
def ptrs (_ : SurfInput D n m k) : List SPtr :=
  ((List.finRange m).map fun (i : Fin m) => SPtr.vert (i : ℕ)) ++
  ((List.finRange n).flatMap fun (i : Fin n) => (List.range (R i).length).map fun j => SPtr.isect (i : ℕ) j) ++
  (List.finRange k).flatMap fun (f : Fin k) => (List.range (S f).length).map fun j => SPtr.tri (f : ℕ) j

/-- the vertices at those addresses. -/
def flat : List (Vertex D) :=
  ((List.finRange m).map W.I.V) ++ ((List.finRange n).flatMap fun i => (R i).map Isect.v) ++
  (List.finRange k).flatMap fun f => (S f).map TriIsect.v

/-- `m_crossings = compute_crossings()` (cutdata_impl.hpp:112, 458-510). -/
def crossings : List (CrossingI D) := (computeCrossings W.I.gridIndex W.I.gridSize (W.flat R S)).out

/-- `m_vertex_indexer = gv_index_map(m_crossings)` (cutdata_impl.hpp:113, 549-556) applied to an address; `-1` stands for `at`
throwing. -/
def indexer (cs : List (CrossingI D)) (p : SPtr) : ℤ := (((W.ptrs R S).zip (cs.map CrossingI.index)).lookup p).getD (-1)

/-- the address of a vertex of triangle `f`. -/
def addr (f : Fin k) (p : TriPt D) : SPtr :=
  if p.id.1 = 3 then .vert (W.F f (Fin.ofNat 3 p.id.2))
  else if p.id.1 = 4 then .tri f p.id.2
  else .isect (W.FE f (Fin.ofNat 3 p.id.1)) p.id.2

/-- `m_vertex_indexer.at` of a vertex of triangle `f`. -/
def idx (cs : List (CrossingI D)) (f : Fin k) (p : TriPt D) : ℤ := W.indexer R S cs (W.addr f p)

/-- `gvertices` of edge `i` as addresses (facet_intersections.hpp:121-141). -/
def edgePath (i : Fin n) : List SPtr :=
  orderedPts (.vert (W.I.E i).1) (.vert (W.I.E i).2) ((R i).zipIdx.map fun p => (p.1.t, SPtr.isect i p.2))

/-- what iteration `i` over the edges passes to `add_edge` (cutdata_impl.hpp:133-161). (`m_crossings[j]`, used for an uncut edge, is
the crossing of vertex `j`.) -/
def addedEdges (cs : List (CrossingI D)) (i : Fin n) : List (EdgeInput.MeshEdge D) :=
  if R i = [] then
    [⟨edgeMask (W.I.fst i) (W.I.snd i), (W.indexer R S cs (.vert (W.I.E i).1), W.indexer R S cs (.vert (W.I.E i).2)), (i : ℕ)⟩]
  else (EdgeInput.indexedEdges (W.indexer R S cs) (W.edgePath R i)).map fun e => ⟨edgeMask (W.I.fst i) (W.I.snd i), e, (i : ℕ)⟩

variable {W}
/-- what the loop over the chords of triangle `f` passes to `add_edge` (cutdata_impl.hpp:163-207). A chord without crossings has its
two ends as `gvertices`, so both branches are the same; the parent is -1. -/
def chordEdges (cs : List (CrossingI D)) (f : Fin k) : List (EdgeInput.MeshEdge D) :=
  ((W.tri f).chords (C.ptrLt f)).flatMap fun c => (intervals ((W.tri f).chordPts (C.ptrLt f) c)).map fun e =>
    ⟨edgeMask c.1.v c.2.v, (W.idx R S cs f e.1, W.idx R S cs f e.2), -1⟩

variable (W)
/-- `FI.mask()` (facet_intersections.hpp:54-67, 213). -/
def triMask (f : Fin k) : Mask D := ((W.I.V (W.F f 0)).mask.and (W.I.V (W.F f 1)).mask).and (W.I.V (W.F f 2)).mask

/-- the test at cutdata_impl.hpp:233-240: nothing inside the triangle, nothing on its edges. -/
def whole (f : Fin k) : Bool := (S f).isEmpty && (List.finRange 3).all fun e => (R (W.FE f e)).isEmpty

variable {W}
/-- the loops of triangle `f`: its corners, or `FI.faces(m_vertex_indexer)` (cutdata_impl.hpp:242-266,
facet_intersections_impl.hpp:507-519). The order in which the `std::set` is traversed is not modelled. -/
def loops (cs : List (CrossingI D)) (f : Fin k) : List (List ℤ) :=
  if W.whole R S f then [[W.indexer R S cs (.vert (W.F f 0)), W.indexer R S cs (.vert (W.F f 1)), W.indexer R S cs (.vert (W.F f 2))]]
  else (((C.polys f).getD []).map fun p => p.map (W.idx R S cs f)).dedup

/-- what iteration `f` over the triangles passes to `add_face` (cutdata_impl.hpp:226-268). -/
def addedFaces (cs : List (CrossingI D)) (f : Fin k) : List (MeshFace D) :=
  (loops C R S cs f).map fun l => ⟨W.triMask f, l, (f : ℕ)⟩

/-- `CutData<3>::bake` (cutdata_impl.hpp:85-268). Simplification: the triangles are baked with the crossings of their edges that
`bakeEdge` specifies, which are those of every schedule (`EdgeInput.eprog_alone`), and each in a single step. -/
def tasks : Tasks n k (EdgeInput.Slot D) (List (TriIsect D)) (List (CrossingI D)) (EdgeInput.MeshEdge D) (MeshFace D) where
  eprog := W.I.eprog
  einit := fun _ => ⟨fun _ => [], [], []⟩
  tprog := fun _ f => [fun _ => C.isects f]
  tinit := fun _ => []
  cross := fun s t => W.crossings (fun i => (s i).isects) t
  edges := fun s cs i => W.addedEdges (fun i => (s i).isects) (fun f => C.isects f) cs i
  tail := fun s t cs => (List.finRange k).flatMap (chordEdges C (fun i => (s i).isects) t cs)
  faces := fun s t cs f => addedFaces C (fun i => (s i).isects) t cs f

end SurfInput
end Mandoline
