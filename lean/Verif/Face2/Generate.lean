import Verif.Face2.Loops
import Verif.Geom.ContainerProps
import Verif.Ops.Incidence
import Verif.Region.Two

/-!
# Model of 2D face generation (src/construction/generator2.cpp:132-327)

`compute_planar_hem` is a thin layer over the halfedge meshes of the `mtao` library, which is not part of the repository;
its result enters as the list `faces` of the values of `cells_multi_component_map()`: each face is a set of vertex loops.
-/
namespace Mandoline

variable {D : ℕ}

/-- the elements of the `std::set<coord_type>` returned by `coord_mask::possible_cells`
(coord_mask_impl.hpp:229-250), in the order in which the set is visited. -/
def Mask.possibleSorted (m : Mask D) (coord : Coord D) : List (Coord D) :=
  ((((List.range (2 <<< D)).filter fun i =>
      decide (∀ j, (Mask.bitset D i j && m.asBitset j) = Mask.bitset D i j)).map
    fun i j => coord j - if Mask.bitset D i j then 1 else 0).foldl
      (fun s c => OMap.insertNew coordLtB c () s) ([] : List (Coord D × Unit))).map Prod.fst

/-- `get_min_coord` for a container of containers (coord_masked_geometry_impl.hpp:52-79): the componentwise minimum of
the minima; undefined (`none`) if the container or one of its elements is empty. -/
def getMinCoord2 (f : ℕ → Coord D) : List (List ℕ) → Option (Coord D)
  | [] => none
  | l :: ls => ls.foldl (fun o l' => do
      let c ← o
      let v ← getMinCoord f l'
      pure fun k => min (c k) (v k)) (getMinCoord f l)

/-- `mtao::geometry::curve_volume(VV, v)` (used in generator2.cpp:213): the signed area enclosed by the closed polyline. -/
def curveVolume (pos : ℤ → Dir) (loop : List ℤ) : ℚ :=
  ((loopEdges loop).map fun e => cross2 (pos e.1) (pos e.2)).sum / 2

/-- the part of a `CutEdge<2>` that face generation uses (cutedge.hpp). -/
structure CutEdge2 where
  mask : Mask 2
  a : ℕ
  b : ℕ
  isMesh : Bool

/-- what `generate_faces` reads of the generator: `cell_shape()`, `all_vertices()`, the cut edges (`ret.m_cut_edges`: the
mesh edges first, then the grid edges, generator_impl.hpp:838-842), `m_active_grid_cell_mask` (`true` = exterior) and
`cell_index`. -/
structure Gen2 where
  shape : Coord 2
  V : ℕ → Vertex 2
  edges : List CutEdge2
  mask : Coord 2 → Bool
  cellIndex : Coord 2 → ℤ

namespace Gen2
variable (G : Gen2)

/-- `all_GV().col(v)`: positions in grid units. -/
def pos (v : ℤ) : Dir := ((G.V v.toNat).p 0, (G.V v.toNat).p 1)

/-- the half-edges of a face. -/
def halfEdges (F : List (List ℤ)) : List DEdge := F.flatMap loopEdges

/-- `f.possible_cells(coord)` of a face (coord_masked_geometry_impl.hpp:121-124). The mask of the face is never set
(`CutFace<2> F; F.indices = v;`, generator2.cpp:206-207), so it is the empty mask. -/
def faceCells (F : List (List ℤ)) : Option (List (Coord 2)) :=
  (getMinCoord2 (fun i => (G.V i).coord) (F.map fun l => l.map Int.toNat)).map fun c => Mask.empty.possibleSorted c

/-- the lambda `is_boundary_facet` (generator2.cpp:187-198); reading an empty loop (`none`) does not happen. -/
def isBoundaryFacet (F : List (List ℤ)) : Bool :=
  match G.faceCells F with
  | some [] => true
  | some [c] => G.mask c
  | _ => false

/-- the sum of generator2.cpp:209-213. -/
def faceVolume (F : List (List ℤ)) : ℚ := (F.map (curveVolume G.pos)).sum

/-- whether the loop of generator2.cpp:204-219 stores the face. -/
def keep (F : List (List ℤ)) : Bool :=
  !F.isEmpty && (!decide (G.faceVolume F < -1 / 2) && !G.isBoundaryFacet F)

/-- `ret.m_faces` (generator2.cpp:204-219). -/
def kept (faces : List (List (List ℤ))) : List (List (List ℤ)) := faces.filter G.keep

/-- the cell to which `cell_grid_ownership` assigns a face (generator2.cpp:246-254): `*c.begin()`. -/
def ownerCell (F : List (List ℤ)) : Option (Coord 2) := (G.faceCells F).bind List.head?

/-- `boundary_facet.possible_cells` of a cut edge (coord_masked_geometry_impl.hpp:121-124). -/
def edgeCells (e : CutEdge2) : List (Coord 2) :=
  e.mask.possibleSorted fun k => min ((G.V e.a).coord k) ((G.V e.b).coord k)

/-- the lambda `make_boundary_pair` (generator2.cpp:256-294). -/
def boundaryPair (e : CutEdge2) : Option (ℤ × Bool) :=
  match G.edgeCells e with
  | [p, n] =>
    let idx : Fin 2 := if p 0 ≠ n 0 then 0 else 1
    if p idx < 0 then some (-2, true)
    else if G.shape idx ≤ n idx then some (-2, false)
    else
      let pa := G.mask p
      let na := G.mask n
      let sign : Bool := decide (idx = 1)
      if na ^^ pa then
        if pa then some (G.cellIndex p, sign) else some (G.cellIndex n, !sign)
      else none
  | _ => none

/-- one iteration of generator2.cpp:297-305 (without `external_boundary`). -/
def addDir (m : List (DEdge × (ℕ × Bool))) (e : CutEdge2 × ℕ) : List (DEdge × (ℕ × Bool)) :=
  OMap.assign edgeLt ((e.1.b : ℤ), (e.1.a : ℤ)) (e.2, true)
    (OMap.assign edgeLt ((e.1.a : ℤ), (e.1.b : ℤ)) (e.2, false) m)

/-- `diredge_to_edge_orientation` (generator2.cpp:296-305). -/
def dirMap : List (DEdge × (ℕ × Bool)) := G.edges.zipIdx.foldl addDir []

/-- `ret.m_face_boundary_map[idx]` (generator2.cpp:306-319): `emplace` keeps an existing entry; `at` throws (`none`) for an
unknown half-edge. -/
def faceMap (F : List (List ℤ)) : Option (List (ℕ × Bool)) :=
  ((halfEdges F).mapM fun e => OMap.find edgeLt e G.dirMap).map fun prs =>
    prs.foldl (fun m pr => OMap.insertNew natLt pr.1 pr.2 m) []

/-- what `boundary(ccm)` reads of the generated mesh. -/
def mesh (faces : List (List (List ℤ))) : Option CutMesh :=
  ((G.kept faces).mapM G.faceMap).map fun maps =>
    { nFacets := G.edges.length
      ext := fun i => (G.edges[i]?).bind G.boundaryPair
      cells := maps.zipIdx.map fun p => ((p.2 : ℤ), p.1) }

/-- what `extra_metadata` reads of the generated mesh; the exterior grid enters through `pairs`, `numExt`, `cellIdx`. -/
def regionMesh (faces : List (List (List ℤ))) (numExt : ℕ) (pairs : List (ℤ × ℤ)) (cellIdx : ℤ → ℤ) : Option Region.Mesh2 :=
  ((G.kept faces).mapM G.faceMap).map fun maps =>
    { numCut := (G.kept faces).length
      numExt := numExt
      pairs := pairs
      bdry := maps.zipIdx.map fun p => ((p.2 : ℤ), p.1.map fun fs => ((fs.1 : ℤ), fs.2))
      edges := G.edges.map fun e => (e.isMesh, G.boundaryPair e)
      cellIdx := cellIdx }

/-! ## specification -/

/-- the grid has cell `c`. -/
def InGrid (c : Coord 2) : Prop := ∀ i, 0 ≤ c i ∧ c i < G.shape i

/-- `c` is a cell of the grid that is cut. -/
def Active (c : Coord 2) : Prop := G.InGrid c ∧ G.mask c = false

end Gen2

/-! ## sorted possible cells -/

theorem foldl_insertNew_mem {K V : Type*} {lt : K → K → Bool} [DecidableEq K] (h : StrictTotal lt) (l : List (K × V))
    (m : List (K × V)) (hs : OMap.Sorted lt m) :
    OMap.Sorted lt (l.foldl (fun s p => OMap.insertNew lt p.1 p.2 s) m) ∧
    ∀ k, (∃ v, (k, v) ∈ l.foldl (fun s p => OMap.insertNew lt p.1 p.2 s) m) ↔ (∃ v, (k, v) ∈ m) ∨ ∃ v, (k, v) ∈ l := by
  induction l generalizing m with
  | nil => exact ⟨hs, fun k => by simp⟩
  | cons a l ih =>
    rw [List.foldl_cons]
    obtain ⟨h1, h2⟩ := ih _ (OMap.sorted_alter (f := fun o => o.getD a.2) (k := a.1) h hs)
    refine ⟨h1, fun k => ?_⟩
    unfold OMap.insertNew at h2 ⊢
    rw [h2]
    constructor
    · rintro (⟨v, hv⟩ | ⟨v, hv⟩)
      · rcases (OMap.mem_alter h hs).1 hv with ⟨_, hv⟩ | ⟨rfl, _⟩
        · exact Or.inl ⟨v, hv⟩
        · exact Or.inr ⟨a.2, by simp⟩
      · exact Or.inr ⟨v, List.mem_cons_of_mem _ hv⟩
    · rintro (⟨v, hv⟩ | ⟨v, hv⟩)
      · by_cases hk : k = a.1
        · exact Or.inl ⟨_, (OMap.mem_alter h hs).2 (Or.inr ⟨hk, rfl⟩)⟩
        · exact Or.inl ⟨v, (OMap.mem_alter h hs).2 (Or.inl ⟨hk, hv⟩)⟩
      · rcases List.mem_cons.1 hv with rfl | hv
        · exact Or.inl ⟨_, (OMap.mem_alter h hs).2 (Or.inr ⟨rfl, rfl⟩)⟩
        · exact Or.inr ⟨v, hv⟩

/-- the sorted list has exactly the elements of `possibleCells`, in lexicographic order. -/
theorem possibleSorted_spec (m : Mask D) (coord : Coord D) :
    (m.possibleSorted coord).Pairwise (fun a b => coordLtB a b = true) ∧
    ∀ c, c ∈ m.possibleSorted coord ↔ c ∈ m.possibleCells coord := by
  have h := foldl_insertNew_mem (strictTotal_coordLtB (D := D))
    ((((List.range (2 <<< D)).filter fun i =>
      decide (∀ j, (Mask.bitset D i j && m.asBitset j) = Mask.bitset D i j)).map
    fun i j => coord j - if Mask.bitset D i j then 1 else 0).map fun c => (c, ())) [] OMap.sorted_nil
  rw [List.foldl_map] at h
  obtain ⟨h1, h2⟩ := h
  refine ⟨?_, fun c => ?_⟩
  · unfold Mask.possibleSorted
    rw [List.pairwise_map]
    exact h1
  · unfold Mask.possibleSorted Mask.possibleCells
    rw [List.mem_toFinset, List.mem_map]
    have := h2 c
    simp only [List.not_mem_nil, exists_const, false_or] at this
    constructor
    · rintro ⟨⟨c', u⟩, hc, rfl⟩
      obtain ⟨_, hx⟩ := this.1 ⟨_, hc⟩
      obtain ⟨x, hx2, he⟩ := List.mem_map.1 hx
      cases he
      exact hx2
    · intro hc
      obtain ⟨v, hv⟩ := this.2 ⟨(), List.mem_map.2 ⟨c, hc, rfl⟩⟩
      exact ⟨_, hv, rfl⟩

/-- a set with the two elements `p < n` is visited as `p, n`. -/
theorem possibleSorted_pair (m : Mask D) (coord p n : Coord D) (hlt : coordLtB p n = true)
    (h : ∀ c, c ∈ m.possibleCells coord ↔ c = p ∨ c = n) : m.possibleSorted coord = [p, n] := by
  obtain ⟨h1, h2⟩ := possibleSorted_spec m coord
  have key : ∀ l : List (Coord D), l.Pairwise (fun a b => coordLtB a b = true) → (∀ c, c ∈ l ↔ c = p ∨ c = n) → l = [p, n] := by
    intro l hl hm
    have := OMap.sorted_ext (lt := coordLtB) (l := l.map fun c => (c, ())) (l' := [(p, ()), (n, ())]) strictTotal_coordLtB
      (by unfold OMap.Sorted; rw [List.pairwise_map]; exact hl)
      (by unfold OMap.Sorted; simpa using hlt) (by rintro ⟨c, u⟩; simp [hm])
    have := congrArg (List.map Prod.fst) this
    simpa [Function.comp_def] using this
  exact key _ h1 fun c => by rw [h2, h]

theorem possibleSorted_single (m : Mask D) (coord p : Coord D)
    (h : ∀ c, c ∈ m.possibleCells coord ↔ c = p) : m.possibleSorted coord = [p] := by
  obtain ⟨h1, h2⟩ := possibleSorted_spec m coord
  have := OMap.sorted_ext (lt := coordLtB) (l := (m.possibleSorted coord).map fun c => (c, ())) (l' := [(p, ())])
      strictTotal_coordLtB
      (by unfold OMap.Sorted; rw [List.pairwise_map]; exact h1)
      (by unfold OMap.Sorted; simp) (by rintro ⟨c, u⟩; simp [h2, h, eq_comm])
  have := congrArg (List.map Prod.fst) this
  simpa [Function.comp_def] using this

end Mandoline
