import Verif.Interp.FaceBary

/-!
# Model of `TriangleIntersections<D>::bake` (include/mandoline/construction/facet_intersections_impl.hpp:235-409)

Pointers to vertices (of the input, or of a baked intersection) are modelled by identifiers; `std::set`s of pointers
are lists without repetition. The address order, which only decides in which direction a chord is traversed and which
representative of merged crossings is copied, is a parameter `ptrLt` / the list order.
-/
namespace Mandoline
variable {D : ℕ}

/-- a vertex on the boundary of the triangle, as stored in `bins` and `coords`: identity, the vertex, its barycentric
coordinates. Identity `(3, j)` is corner `j`, `(e, k)` is the `k`-th crossing of edge `e`. -/
structure TriPt (D : ℕ) where
  id : ℕ × ℕ
  v : Vertex D
  b : Fin 3 → ℚ

/-- a triangle ready for baking: its corners, and its edges, already baked. Edge `e` is the one opposite to corner `e`;
`rev e` says in which direction it is stored. (The order of `edge_isects` is irrelevant: only sets are built from it.) -/
structure TriInput (D : ℕ) where
  V : Fin 3 → Vertex D
  rev : Fin 3 → Bool
  edgeIndex : Fin 3 → ℤ
  grid : Option (Coord D)

namespace TriInput
variable (T : TriInput D)

/-- corner number of the first endpoint of edge `e` (`bary_indices[e][0]`). -/
def src (e : Fin 3) : Fin 3 := if T.rev e then e + 2 else e + 1
/-- corner number of the second endpoint of edge `e` (`bary_indices[e][1]`). -/
def tgt (e : Fin 3) : Fin 3 := if T.rev e then e + 1 else e + 2

/-- `eisptr->intersections`. -/
def edgeIsects (e : Fin 3) : List (Isect D) := bakeEdge (T.edgeIndex e) T.grid (T.V (T.src e)) (T.V (T.tgt e))

/-- the crossings of edge `e` with their coordinates (facet_intersections_impl.hpp:254-261). -/
def edgePts (e : Fin 3) : List (TriPt D) :=
  (T.edgeIsects e).zipIdx.map fun p => ⟨((e : ℕ), p.2), p.1.v, edgeBary (T.src e) (T.tgt e) p.1.t⟩

/-- the corners (facet_intersections_impl.hpp:264-271). -/
def cornerPts : List (TriPt D) := (List.finRange 3).map fun (j : Fin 3) => ⟨(3, (j : ℕ)), T.V j, Pi.single j 1⟩

/-- everything passed to `bin_gv`. -/
def bpts : List (TriPt D) := (List.finRange 3).flatMap T.edgePts ++ T.cornerPts

/-- `bins[i][n]` (facet_intersections_impl.hpp:244-252). -/
def bin (i : Fin D) (n : ℤ) : List (TriPt D) := T.bpts.filter fun p => p.v.clamped i && decide (p.v.coord i = n)

/-- the planes of axis `i` having a bin. -/
def planes (i : Fin D) : List ℤ := ((T.bpts.filter fun p => p.v.clamped i).map fun p => p.v.coord i).dedup

/-- the chord of one bin (facet_intersections_impl.hpp:277-303): none if two corners are in the plane; otherwise, if the
bin has two elements that are not both corners, the pair in address order. -/
def chordOf (ptrLt : ℕ × ℕ → ℕ × ℕ → Bool) (l : List (TriPt D)) : Option (TriPt D × TriPt D) :=
  if l.countP (fun p => decide (p.id.1 = 3)) = 2 then none
  else match l with
    | [p, q] =>
      if p.id.1 ≠ 3 ∨ q.id.1 ≠ 3 then some (if ptrLt p.id q.id then (p, q) else (q, p)) else none
    | _ => none

/-- `edge_intersections.emplace(gvpe, ...)`: a chord already present is kept. -/
def addChord (l : List (TriPt D × TriPt D)) (c : TriPt D × TriPt D) : List (TriPt D × TriPt D) :=
  if l.any fun d => decide (d.1.id = c.1.id) && decide (d.2.id = c.2.id) then l else l ++ [c]

/-- `edge_intersections` (facet_intersections_impl.hpp:274-306). -/
def chords (ptrLt : ℕ × ℕ → ℕ × ℕ → Bool) : List (TriPt D × TriPt D) :=
  ((List.finRange D).flatMap fun i => (T.planes i).filterMap fun n => chordOf ptrLt (T.bin i n)).foldl addChord []

/-- the crossings of the chords with their barycentric coordinates (facet_intersections_impl.hpp:321-348);
a chord's `EdgeIntersections` has the default `edge_index` -1. -/
def chordItems (ptrLt : ℕ × ℕ → ℕ × ℕ → Bool) : List (Vertex D × (Fin 3 → ℚ)) :=
  (T.chords ptrLt).flatMap fun c =>
    (bakeEdge (-1) T.grid c.1.v c.2.v).map fun e => (e.v, chordBary c.1.b c.2.b e.t)

end TriInput

/-- one group of `convex_grid_condensation`. -/
abbrev TriGroup (D : ℕ) := Mask D × List (Vertex D × (Fin 3 → ℚ))

/-- `ret[m.count()][m].insert(v)` (facet_intersections_impl.hpp:383-386). -/
def groupInsert (E : ℕ → List (TriGroup D)) (x : Vertex D × (Fin 3 → ℚ)) : ℕ → List (TriGroup D) :=
  Function.update E x.1.mask.count (OMap.alter maskLt x.1.mask (fun o => o.getD [] ++ [x]) (E x.1.mask.count))

/-- the inner loop over axes of `convex_grid_condensation` (facet_intersections_impl.hpp:391-404). -/
def groupCondenseEntry (c : Mask D) (vs : List (Vertex D × (Fin 3 → ℚ))) (Ei : List (TriGroup D)) :
    List (Vertex D × (Fin 3 → ℚ)) × List (TriGroup D) :=
  (List.finRange D).foldl
    (fun st k =>
      if c.isBound k then
        let m : Mask D := Function.update c k none
        match OMap.find maskLt m st.2 with
        | some o => (st.1 ++ o, OMap.erase maskLt m st.2)
        | none => st
      else st) (vs, Ei)

/-- level `i` into level `i+1` (facet_intersections_impl.hpp:387-406). -/
def groupCondenseLevel (E : ℕ → List (TriGroup D)) (i : ℕ) : ℕ → List (TriGroup D) :=
  let r := (E (i + 1)).foldl
    (fun (st : List (TriGroup D) × List (TriGroup D)) p =>
      let q := groupCondenseEntry p.1 p.2 st.2
      (st.1 ++ [(p.1, q.1)], q.2)) ([], E i)
  Function.update (Function.update E i r.2) (i + 1) r.1

/-- `convex_grid_condensation` (facet_intersections_impl.hpp:375-409). -/
def gridCondensation (l : List (Vertex D × (Fin 3 → ℚ))) : ℕ → List (TriGroup D) :=
  (List.range D).foldl groupCondenseLevel (l.foldl groupInsert fun _ => [])

/-- `TriangleIntersection`: the vertex and its barycentric coordinates. -/
structure TriIsect (D : ℕ) where
  v : Vertex D
  b : Fin 3 → ℚ

/-- one `intersections.emplace_back(*eiptr, b, triangle_index)` (facet_intersections_impl.hpp:356-371): the last member
of the group, with the mean of the coordinates. -/
def groupIsect (g : TriGroup D) : Option (TriIsect D) :=
  (g.2.getLast?).map fun x => ⟨x.1, meanBary (g.2.map Prod.snd)⟩

/-- `TriangleIntersections::bake`: the resulting `intersections`. -/
def TriInput.bake (T : TriInput D) (ptrLt : ℕ × ℕ → ℕ × ℕ → Bool) : List (TriIsect D) :=
  ((List.range (D + 1)).flatMap (gridCondensation (T.chordItems ptrLt))).filterMap groupIsect

end Mandoline
