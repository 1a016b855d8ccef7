import Verif.Core.Lex
import Verif.Geom.Container
import Mathlib.Data.List.Sort

/-!
# Model of `EdgeIntersections<D>` (construction/facet_intersections.hpp, facet_intersections_impl.hpp)

All intersections of one `EdgeIntersections` carry the same `edge_index`, so `EdgeIntersection::operator<`
(vertex_types_impl.hpp:56-66) restricted to them is the order of `edge_coord`; a `std::set<EdgeIsect>` is
therefore an ordered map from `edge_coord` to the vertex part.
-/
namespace Mandoline
variable {D : ℕ}

/-- `reflection_bs[i]` (facet_intersections_impl.hpp:24-31). -/
def reflectionBit (a b : Vertex D) (i : Fin D) : Bool :=
  !(decide (b.coord i > a.coord i) || (decide (b.coord i = a.coord i) && decide (b.quot i > a.quot i)))

/-- `reflect_axis` (facet_intersections_impl.hpp:33-46); its two last branches are identical. -/
def reflectAxis (refl : Bool) (c : ℤ) (q : ℚ) : ℤ × ℚ :=
  if refl then
    if q = 0 then (-c, q) else (-(c + 1), 1 - q)
  else (c, q)

/-- `begin(d)` (facet_intersections_impl.hpp:60). -/
def beginAt (a b : Vertex D) (d : Fin D) : ℤ :=
  let r := reflectAxis (reflectionBit a b d) (a.coord d) (a.quot d)
  r.1 + ⌈r.2⌉

/-- `end(d)` (facet_intersections_impl.hpp:61). -/
def endAt (a b : Vertex D) (d : Fin D) : ℤ :=
  let r := reflectAxis (reflectionBit a b d) (b.coord d) (b.quot d)
  r.1 + ⌊r.2⌋

/-- `dir = |direction(d)|` (facet_intersections_impl.hpp:22, 64, 83). -/
def dirAt (a b : Vertex D) (d : Fin D) : ℚ := |b.p d - a.p d|

/-- `offset = ceil(sq) - sq` (facet_intersections_impl.hpp:85-86). -/
def offsetAt (a b : Vertex D) (d : Fin D) : ℚ :=
  let r := reflectAxis (reflectionBit a b d) (a.coord d) (a.quot d)
  (⌈r.2⌉ : ℚ) - r.2

/-- `t` of loop iteration `i` (facet_intersections_impl.hpp:89). -/
def tAt (a b : Vertex D) (d : Fin D) (i : ℕ) : ℚ := (offsetAt a b d + (i : ℚ)) / dirAt a b d

/-- `np = gvstart * (1 - t) + gvend * t` (facet_intersections_impl.hpp:94). -/
def pointAt (a b : Vertex D) (t : ℚ) : Vertex D := (a.smul (1 - t)).add (b.smul t)

/-- the edge's own mask, set by `set_container_mask(vptr_edge)` (facet_intersections.hpp:54-67, 95-101). -/
def edgeMask (a b : Vertex D) : Mask D := a.mask.and b.mask

/-- the vertex of the intersection created in iteration `i` on axis `d`
(facet_intersections_impl.hpp:94-115): interpolate, clamp to the edge's mask, put it exactly on the plane,
undo the reflection (both branches of 107-111 are the same), clamp again. -/
def sectAt (a b : Vertex D) (d : Fin D) (i : ℕ) : Vertex D :=
  let np := pointAt a b (tAt a b d i)
  let np := Vertex.clampBy (edgeMask a b) np
  let absGrid : ℤ := (i : ℤ) + beginAt a b d
  let np : Vertex D :=
    { coord := Function.update np.coord d (if reflectionBit a b d then -absGrid else absGrid)
      quot := Function.update np.quot d 0
      clamped := Function.update np.clamped d true }
  Vertex.clampBy (edgeMask a b) np

/-- the grid-range test (facet_intersections_impl.hpp:133-142). The loop compares the *axis number* `i`,
not the coordinate `idx`, with the shape, so the test is constantly true. -/
def gridRangeOk (shape : Coord D) (np : Vertex D) : Bool :=
  (List.finRange D).all fun i =>
    decide (((i : ℕ) : ℤ) ≥ 0) || decide (((i : ℕ) : ℤ) < shape i) ||
      (decide (((i : ℕ) : ℤ) = shape i) && decide (⌊np.quot i⌋ = 0))

/-- `invalid_isect` (facet_intersections_impl.hpp:70-79): the intersection shares with an endpoint a plane
that the edge itself does not lie in. -/
def invalidIsect (a b : Vertex D) (v : Vertex D) : Bool :=
  let m := v.mask.sub (edgeMask a b)
  ((a.mask.sub (edgeMask a b)).and m).active || ((b.mask.sub (edgeMask a b)).and m).active

/-- `std::set<EdgeIsect>`: `edge_coord ↦ vertex`. -/
abbrev IsectSet (D : ℕ) := List (ℚ × Vertex D)
/-- `std::map<coord_mask<D>, std::set<EdgeIsect>>`. -/
abbrev Bin (D : ℕ) := List (Mask D × IsectSet D)

/-- `edges[mask.count()-1][mask].emplace(sect)` (facet_intersections_impl.hpp:151, 154). -/
def binEmplace (E : ℕ → Bin D) (v : Vertex D) (t : ℚ) : ℕ → Bin D :=
  Function.update E (v.mask.count - 1)
    (OMap.alter maskLt v.mask (fun o => OMap.insertNew ratLt t v (o.getD [])) (E (v.mask.count - 1)))

/-- one iteration of the inner loop (facet_intersections_impl.hpp:87-156). `grid` is the optional
`cell_shape`. -/
def bakeStep (grid : Option (Coord D)) (a b : Vertex D) (d : Fin D) (E : ℕ → Bin D) (i : ℕ) : ℕ → Bin D :=
  let t := tAt a b d i
  if t ≤ 0 ∨ t ≥ 1 then E
  else
    let sect := sectAt a b d i
    match grid with
    | some shape =>
      if gridRangeOk shape sect && !invalidIsect a b sect then binEmplace E sect t else E
    | none => binEmplace E sect t

/-- the outer loop body for axis `d` (facet_intersections_impl.hpp:80-157). -/
def bakeAxis (grid : Option (Coord D)) (a b : Vertex D) (E : ℕ → Bin D) (d : Fin D) : ℕ → Bin D :=
  if dirAt a b d = 0 then E
  else (List.range (endAt a b d - beginAt a b d + 1).toNat).foldl (bakeStep grid a b d) E

/-- the loops of facet_intersections_impl.hpp:80-157. -/
def bakeBins (grid : Option (Coord D)) (a b : Vertex D) : ℕ → Bin D :=
  (List.finRange D).foldl (bakeAxis grid a b) (fun _ => [])

/-- condensation of one entry `(c, es)` of `Eip` against `Ei` (facet_intersections_impl.hpp:165-179). -/
def condenseEntry (c : Mask D) (es : IsectSet D) (Ei : Bin D) : IsectSet D × Bin D :=
  (List.finRange D).foldl
    (fun (st : IsectSet D × Bin D) k =>
      if c.isBound k then
        let m : Mask D := Function.update c k none
        match OMap.find maskLt m st.2 with
        | some o =>
          (o.foldl (fun es p => OMap.insertNew ratLt p.1 (Vertex.clampBy c p.2) es) st.1,
            OMap.erase maskLt m st.2)
        | none => st
      else st)
    (es, Ei)

/-- condensation of level `i` into level `i+1` (facet_intersections_impl.hpp:161-182). -/
def condenseLevel (E : ℕ → Bin D) (i : ℕ) : ℕ → Bin D :=
  let r := (E (i + 1)).foldl
    (fun (st : Bin D × Bin D) p =>
      let q := condenseEntry p.1 p.2 st.2
      (st.1 ++ [(p.1, q.1)], q.2))
    ([], E i)
  Function.update (Function.update E i r.2) (i + 1) r.1

/-- facet_intersections_impl.hpp:159-184. -/
def condense (E : ℕ → Bin D) : ℕ → Bin D := (List.range (D - 1)).foldl condenseLevel E

/-- `EdgeIsect` of the result: parameter and vertex. -/
structure Isect (D : ℕ) where
  t : ℚ
  v : Vertex D

/-- one `(m, es)` of the averaging loop (facet_intersections_impl.hpp:189-206). `mm[lc]` default-constructs
with `edge_index == -1`; a second entry at the same parameter only merges the clamped flags unless the
edge's own index is -1. -/
def averageStep (edgeIndex : ℤ) (mm : List (ℚ × Vertex D)) (p : Mask D × IsectSet D) :
    List (ℚ × Vertex D) :=
  match p.2.getLast? with
  | none => mm      -- never happens: the sets are non-empty (0/0 in the code)
  | some (_, v) =>
    let lc := (p.2.map Prod.fst).sum / (p.2.length : ℚ)
    OMap.alter ratLt lc (fun o => match o with
      | none => v
      | some old => if edgeIndex = -1 then v
          else Vertex.repair { old with clamped := fun i => old.clamped i || v.clamped i }) mm

/-- facet_intersections_impl.hpp:187-207. -/
def average (edgeIndex : ℤ) (E : ℕ → Bin D) : List (ℚ × Vertex D) :=
  ((List.range D).flatMap E).foldl (averageStep edgeIndex) []

/-- `mythresh` (facet_intersections_impl.hpp:210-216); `gridVerts` the optional `vertex_shape`. -/
def myThresh (gridVerts : Option (Coord D)) : ℚ :=
  match gridVerts with
  | none => 1
  | some s => ((2 * max 1 ((List.finRange D).foldl (fun m i => max m (s i)) 0) : ℤ) : ℚ) / 10000000000

/-- final clamping, thresholding and one-per-mask selection (facet_intersections_impl.hpp:217-231):
`cem[v.mask()] = v`, later entries win. -/
def selectPerMask (thresh : ℚ) (m : Mask D) (mm : List (ℚ × Vertex D)) : List (Mask D × Isect D) :=
  (mm.map fun p => (Isect.mk p.1 ((Vertex.clampBy m p.2).applyThresholding thresh) : Isect D)).foldl
    (fun cem e => OMap.assign maskLt e.v.mask e cem) []

/-- `std::sort` by `edge_coord` (facet_intersections_impl.hpp:234-236). -/
def sortIsects (l : List (Isect D)) : List (Isect D) := l.insertionSort fun x y => x.t ≤ y.t

/-- `EdgeIntersections::bake(grid)` (facet_intersections_impl.hpp:7-245); `grid` carries the cell shape (the
vertex shape is one more along each axis). -/
def bakeEdge (edgeIndex : ℤ) (grid : Option (Coord D)) (a b : Vertex D) : List (Isect D) :=
  let mm := average edgeIndex (condense (bakeBins grid a b))
  let thresh := myThresh (grid.map fun s => fun i => s i + 1)
  sortIsects ((selectPerMask thresh (edgeMask a b) mm).map Prod.snd)

/-- `gvertices` (facet_intersections.hpp:121-141): endpoint, intersections with parameter in (0,1) ordered
by parameter through a map (`im[t] = &i`: the last one with a given parameter wins), endpoint. -/
def gvertices (a b : Vertex D) (isects : List (Isect D)) : List (Vertex D) :=
  let im := isects.foldl (fun im i => if i.t > 0 ∧ i.t < 1 then OMap.assign ratLt i.t i.v im else im) []
  a :: im.map Prod.snd ++ [b]

/-- consecutive pairs, `mtao::iterator::interval<2>`. -/
def intervals {α : Type*} (l : List α) : List (α × α) := l.zip l.tail

/-- `vptr_edges` (facet_intersections.hpp:156-165), as the list of pairs inserted into the set. -/
def vptrEdges (a b : Vertex D) (isects : List (Isect D)) : List (Vertex D × Vertex D) :=
  intervals (gvertices a b isects)

/-- `from_coord` (facet_intersections.hpp:142-149). -/
def fromCoord (a b : Vertex D) (t : ℚ) : Vertex D := Vertex.clampBy (edgeMask a b) (a.lerp b t)

/-- `get_coord` (facet_intersections.hpp:150-155). -/
def getCoord (a b v : Vertex D) : ℚ :=
  ((List.finRange D).map fun i => (v.p i - a.p i) * (b.p i - a.p i)).sum /
    ((List.finRange D).map fun i => (b.p i - a.p i) * (b.p i - a.p i)).sum

/-- `is_cut` (facet_intersections.hpp:108). -/
def isCut (isects : List (Isect D)) : Bool := isects.isEmpty

end Mandoline
