import Verif.Core.Vec3
import Verif.Core.OMap
import Verif.Geom.Container
import Verif.Adaptive.Renumber
import Mathlib.Data.List.Lex

/-!
# Saving and loading (C42, C43)

The protobuf library is modelled at the level of messages: a message is a record of its fields, a `repeated` field is a
list, a `map` field is a list of entries *in an unspecified order* (iteration over protobuf maps has no fixed order), a
`oneof` is a sum type. `int64` fields hold every `int` exactly and `double` fields every `double`. The wire format and
files are not modelled.
-/
namespace Mandoline.Proto

/-! ## helpers: ordered containers filled from a message -/

/-- `for (auto&& [a, b] : entries) m[a] = b;`. -/
def readMap {K V : Type*} (lt : K → K → Bool) (entries : List (K × V)) : List (K × V) :=
  entries.foldl (fun m p => OMap.assign lt p.1 p.2 m) []

/-- `for (auto&& k : keys) s.insert(k);`. -/
def readSet {K : Type*} (lt : K → K → Bool) (keys : List K) : List K :=
  (keys.foldl (fun m k => OMap.insertNew lt k () m) ([] : List (K × Unit))).map Prod.fst

/-- comparison of `std::vector<int>` with non-negative entries. -/
def vecLt (a b : List ℕ) : Bool := decide (a < b)

/-! ## cubes, squares, faces of the adaptive grid -/

/-- `AdaptiveGrid::Cell` (adaptive_grid.hpp:22-37): corner and width. -/
structure Cube where
  corner : Coord 3
  width : ℤ
  deriving DecidableEq

/-- `AdaptiveGrid::Square` (adaptive_grid.hpp:38-53): `tuple<corner, axis, width>`. -/
structure Square where
  corner : Coord 3
  axis : ℤ
  width : ℤ
  deriving DecidableEq

/-- `AdaptiveGrid::Face` (adaptive_grid.hpp:54-69). -/
structure AFace3 where
  square : Square
  dual : ℤ × ℤ
  deriving DecidableEq

/-- message `Cube` (cutmesh.proto). -/
structure CubeMsg where
  corner : Coord 3
  radius : ℤ

/-- message `Square`. -/
structure SquareMsg where
  corner : Coord 3
  radius : ℤ
  axis : ℤ

/-- message `Face`. -/
structure FaceMsg where
  geometry : SquareMsg
  dualEdge : ℤ × ℤ

/-- `Cell::serialize` (adaptive_grid.cpp:48-51). -/
def Cube.serialize (c : Cube) : CubeMsg := ⟨c.corner, c.width⟩

/-- `Cell::from_proto` (adaptive_grid.cpp:52-57). -/
def Cube.fromProto (m : CubeMsg) : Cube := ⟨m.corner, m.radius⟩

/-- `Square::serialize` (adaptive_grid.cpp:63-67). -/
def Square.serialize (s : Square) : SquareMsg := { corner := s.corner, radius := s.width, axis := s.axis }

/-- `Square::from_proto` (adaptive_grid.cpp:68-74): `get<1>` (the axis) is set to the radius, `get<2>` (the width) to the
axis. -/
def Square.fromProto (m : SquareMsg) : Square := { corner := m.corner, axis := m.radius, width := m.axis }

/-- `Face::serialize` (adaptive_grid.cpp:75-78). -/
def AFace3.serialize (f : AFace3) : FaceMsg := ⟨f.square.serialize, f.dual⟩

/-- `Face::from_proto` (adaptive_grid.cpp:79-84). -/
def AFace3.fromProto (m : FaceMsg) : AFace3 := ⟨Square.fromProto m.geometry, m.dualEdge⟩

/-! ## cut faces and cells -/

/-- `CutFace<3>` (cutface.hpp:34-122). `id`: a mesh face or (axis, value). -/
structure CFace where
  mask : Mask 3
  indices : List (List ℕ)
  id : ℤ ⊕ ℤ × ℤ
  normal : Vec3
  external : Option (ℤ × Bool)
  triVertices : Option (List Vec3)
  tri : Option (List (ℤ × ℤ × ℤ))

/-- message `CutFace`; `face_boundary` is a sub-message with a presence bit. -/
structure CutFaceMsg where
  curves : List (List ℕ)
  normal : Vec3
  id : ℤ ⊕ ℤ × ℤ
  triangulation : List (ℤ × ℤ × ℤ)
  faceBoundary : Option (ℤ × Bool)

/-- `CutFace<3>::serialize` (src/cutface3.cpp:195-224). -/
def CFace.serialize (f : CFace) : CutFaceMsg where
  curves := f.indices
  normal := f.normal
  id := match f.id with
    | .inl fid => .inl fid
    | .inr (a, b) => .inr (a, b)
  triangulation := match f.tri with
    | some T => T
    | none => []
  faceBoundary := match f.external with
    | some (b, s) => some (b, s)
    | none => none

/-- `CutFace<3>::from_proto` (src/cutface3.cpp:226-254). -/
def CFace.fromProto (m : CutFaceMsg) : CFace where
  mask := Mask.empty
  indices := readSet vecLt m.curves
  id := match m.id with
    | .inl fid => .inl fid
    | .inr (a, b) => .inr (a, b)
  normal := m.normal
  external := match m.faceBoundary with
    | some (b, s) => some (b, s)
    | none => none
  triVertices := none
  tri := if m.triangulation.length > 0 then some m.triangulation else none

/-- `CutCell` (cutcell.hpp:11-17): a `map<int,bool>` with index, region and grid cell. -/
structure CCell where
  entries : List (ℤ × Bool)
  index : ℤ
  region : ℤ
  gridCell : Coord 3

/-- message `CutCell`. -/
structure CutCellMsg where
  id : ℤ
  region : ℤ
  entries : List (ℤ × Bool)
  gridCell : Coord 3

/-- `CutCell::serialize` (src/cutcell.cpp:61-72), without the printed line. -/
def CCell.serialize (c : CCell) : CutCellMsg := ⟨c.index, c.region, c.entries, c.gridCell⟩

/-- `CutCell::from_proto` (src/cutcell.cpp:73-84). -/
def CCell.fromProto (m : CutCellMsg) : CCell := ⟨readMap intLt m.entries, m.id, m.region, m.gridCell⟩

/-! ## vertices -/

/-- message `Vertex`. -/
structure VertexMsg where
  i : ℤ
  j : ℤ
  k : ℤ
  u : ℚ
  v : ℚ
  w : ℚ
  ci : Bool
  cj : Bool
  ck : Bool

/-- `serialize(Vertex<3>, Vertex)` (src/proto_util.cpp:77-87). -/
def vertexSerialize (a : Vertex 3) : VertexMsg :=
  ⟨a.coord 0, a.coord 1, a.coord 2, a.quot 0, a.quot 1, a.quot 2, a.clamped 0, a.clamped 1, a.clamped 2⟩

/-- `deserialize(Vertex, Vertex<3>)` (src/proto_util.cpp:66-76). -/
def vertexFromProto (m : VertexMsg) : Vertex 3 := ⟨![m.i, m.j, m.k], ![m.u, m.v, m.w], ![m.ci, m.cj, m.ck]⟩

/-! ## meshes -/

/-- `CutCellMesh<3>` (mesh3.hpp:160-184, mesh.hpp:120-131): the data members. `aFaces` are the faces of the exterior
adaptive grid, `cubes` its cells. -/
structure Mesh where
  origin : Vec3
  dx : Vec3
  shape : Coord 3
  cutVertices : List (Vertex 3)
  cutEdges : List (ℕ × ℕ)
  meshCutEdges : List (ℤ × (ℚ × ℚ) × ℤ)
  origV : List Vec3
  origE : List (ℤ × ℤ)
  origF : List (ℤ × ℤ × ℤ)
  faces : List CFace
  cells : List CCell
  folded : List ℤ
  axialFaces : Fin 3 → List ℤ
  meshFaces : List (ℤ × List Vec3 × ℤ)
  cubes : List (ℤ × ACell 3)
  aFaces : List (AFace 3)
  regions : List (ℤ × ℤ)

/-- message `CutMeshProto`. -/
structure MeshMsg where
  origin : Vec3
  dx : Vec3
  shape : Coord 3
  vertices : List VertexMsg
  edges : List (ℤ × ℤ)
  origV : List Vec3
  origF : List (ℤ × ℤ × ℤ)
  faces : List CutFaceMsg
  cells : List CutCellMsg
  foldedFaces : List ℤ
  meshFaces : List (ℤ × List Vec3 × ℤ)
  cubes : List (ℤ × CubeMsg)
  cubeRegions : List (ℤ × ℤ)

/-- `CutCellMesh<3>::serialize` (src/mesh3.cpp:282-334). The edges are commented out in the source. -/
def Mesh.serialize (M : Mesh) : MeshMsg where
  origin := M.origin
  dx := M.dx
  shape := M.shape
  vertices := M.cutVertices.map vertexSerialize
  edges := []
  origV := M.origV
  origF := M.origF
  faces := M.faces.map CFace.serialize
  cells := M.cells.map CCell.serialize
  foldedFaces := M.folded
  meshFaces := M.meshFaces
  cubes := M.cubes.map fun p => (p.1, Cube.serialize ⟨p.2.1, p.2.2⟩)
  cubeRegions := M.regions

/-- `ret.m_faces[i] = CutFace<3>::from_proto(..); ret.m_faces[i].update_mask(..)` (src/mesh3.cpp:378-381); `getMask` is the
lambda of `update_mask`. On a face without vertices `update_mask` is undefined; the mask is empty here. -/
def readFace (getMask : ℕ → Mask 3) (m : CutFaceMsg) : CFace :=
  let f := CFace.fromProto m
  { f with mask := (updateMask getMask f.indices).getD Mask.empty }

/-- the number of grid vertices. -/
def gridSize (shape : Coord 3) : ℕ := (shape 0 * shape 1 * shape 2).toNat

/-- the cell shape belonging to a vertex shape. -/
def cellShape (shape : Coord 3) : Coord 3 := fun i => shape i - 1

/-- `CutCellMesh<3>::from_proto` (src/mesh3.cpp:345-410). `unindex` is the vertex grid's inverse index. The members that are
not mentioned there keep their default (empty) values. -/
def Mesh.fromProto (unindex : Coord 3 → ℕ → Coord 3) (m : MeshMsg) : Mesh :=
  let verts := m.vertices.map vertexFromProto
  let cubes := readMap intLt (m.cubes.map fun p => (p.1, ((Cube.fromProto p.2).corner, (Cube.fromProto p.2).width)))
  { origin := m.origin
    dx := m.dx
    shape := m.shape
    cutVertices := verts
    cutEdges := []
    meshCutEdges := []
    origV := m.origV
    origE := []
    origF := m.origF
    faces := m.faces.map (readFace (vertexMask (gridSize m.shape) (unindex m.shape) fun i => verts.getD i (Vertex.ofCoord 0)))
    cells := m.cells.map CCell.fromProto
    folded := readSet intLt m.foldedFaces
    axialFaces := fun _ => []
    meshFaces := readMap intLt m.meshFaces
    cubes := cubes
    aFaces := adaptiveFaces (cellShape m.shape) cubes
    regions := readMap intLt m.cubeRegions }

/-! ## specification -/

/-- the same message, iterated in a different order: the entries of the map fields may be permuted, in the mesh as well as
in its cells. -/
structure Same (m m' : MeshMsg) : Prop where
  origin : m'.origin = m.origin
  dx : m'.dx = m.dx
  shape : m'.shape = m.shape
  vertices : m'.vertices = m.vertices
  origV : m'.origV = m.origV
  origF : m'.origF = m.origF
  faces : m'.faces = m.faces
  cells : List.Forall₂ (fun c c' : CutCellMsg => c'.id = c.id ∧ c'.region = c.region ∧ c'.gridCell = c.gridCell ∧
    c'.entries.Perm c.entries) m.cells m'.cells
  folded : m'.foldedFaces = m.foldedFaces
  meshFaces : m'.meshFaces.Perm m.meshFaces
  cubes : m'.cubes.Perm m.cubes
  cubeRegions : m'.cubeRegions.Perm m.cubeRegions

/-- the ordered containers of a mesh are in order (as C++ keeps them). -/
structure Ordered (M : Mesh) : Prop where
  loops : ∀ f ∈ M.faces, f.indices.Pairwise fun a b => vecLt a b = true
  cells : ∀ c ∈ M.cells, OMap.Sorted intLt c.entries
  folded : M.folded.Pairwise fun a b => intLt a b = true
  meshFaces : OMap.Sorted intLt M.meshFaces
  cubes : OMap.Sorted intLt M.cubes
  regions : OMap.Sorted intLt M.regions

/-! ## proofs -/

theorem strictTotal_vecLt : StrictTotal vecLt where
  irrefl a := by simp [vecLt]
  trans a b c := by simp only [vecLt, decide_eq_true_eq]; exact lt_trans
  tri a b := by simp only [vecLt, decide_eq_true_eq]; exact lt_trichotomy a b

theorem readMap_spec {K V : Type*} [DecidableEq K] {lt : K → K → Bool} (h : StrictTotal lt) (l acc : List (K × V))
    (hs : OMap.Sorted lt acc) (hn : (l.map Prod.fst).Nodup) :
    OMap.Sorted lt (l.foldl (fun m p => OMap.assign lt p.1 p.2 m) acc) ∧
    ∀ p, p ∈ l.foldl (fun m p => OMap.assign lt p.1 p.2 m) acc ↔ p ∈ l ∨ (p ∈ acc ∧ p.1 ∉ l.map Prod.fst) := by
  induction l generalizing acc with
  | nil => exact ⟨hs, fun p => by simp⟩
  | cons q l ih =>
    rw [List.map_cons, List.nodup_cons] at hn
    obtain ⟨i1, i2⟩ := ih (OMap.assign lt q.1 q.2 acc) (OMap.sorted_alter h hs) hn.2
    refine ⟨i1, fun p => ?_⟩
    rw [List.foldl_cons, i2]
    have hm : p ∈ OMap.assign lt q.1 q.2 acc ↔ (p.1 ≠ q.1 ∧ p ∈ acc) ∨ p = q := by
      obtain ⟨k, v⟩ := p
      obtain ⟨k', v'⟩ := q
      unfold OMap.assign
      rw [OMap.mem_alter h hs]
      simp only [Prod.mk.injEq]
    rw [hm, List.map_cons, List.mem_cons, List.mem_cons]
    constructor
    · rintro (h1 | ⟨(⟨h1, h2⟩ | h1), h3⟩)
      · exact .inl (.inr h1)
      · exact .inr ⟨h2, fun h4 => h4.elim h1 h3⟩
      · exact .inl (.inl h1)
    · rintro ((h1 | h1) | ⟨h1, h2⟩)
      · subst h1; exact .inr ⟨.inr rfl, hn.1⟩
      · exact .inl h1
      · exact .inr ⟨.inl ⟨fun h3 => h2 (.inl h3), h1⟩, fun h3 => h2 (.inr h3)⟩

theorem sorted_keys_nodup {K V : Type*} {lt : K → K → Bool} (h : StrictTotal lt) {l : List (K × V)}
    (hs : OMap.Sorted lt l) : (l.map Prod.fst).Nodup := by
  rw [List.nodup_iff_pairwise_ne, List.pairwise_map]
  refine hs.imp ?_
  intro a b hab heq
  rw [heq, h.irrefl] at hab; cases hab

/-- reading back an ordered map from its entries in any order. -/
theorem readMap_perm {K V : Type*} [DecidableEq K] {lt : K → K → Bool} (h : StrictTotal lt) {l l' : List (K × V)}
    (hs : OMap.Sorted lt l) (hp : l'.Perm l) : readMap lt l' = l := by
  have hn : (l'.map Prod.fst).Nodup := (hp.map Prod.fst).nodup_iff.2 (sorted_keys_nodup h hs)
  obtain ⟨s1, s2⟩ := readMap_spec h l' [] List.Pairwise.nil hn
  refine OMap.sorted_ext h s1 hs fun p => ?_
  show p ∈ l'.foldl _ [] ↔ _
  rw [s2]
  simp [hp.mem_iff]

/-- reading back an ordered set. -/
theorem readSet_sorted {K : Type*} [DecidableEq K] {lt : K → K → Bool} (h : StrictTotal lt) {l : List K}
    (hs : l.Pairwise fun a b => lt a b = true) : readSet lt l = l := by
  have h1 : readSet lt l = (readMap lt (l.map fun k => (k, ()))).map Prod.fst := by
    unfold readSet readMap
    rw [List.foldl_map]
    rfl
  rw [h1, readMap_perm h (l := l.map fun k => (k, ())) (by unfold OMap.Sorted; rw [List.pairwise_map]; exact hs)
    (List.Perm.refl _)]
  simp [Function.comp_def]

/-! ## C42 -/

/-- **C42.** Cells of the adaptive grid survive saving and loading. -/
theorem C42_cube (c : Cube) : Cube.fromProto c.serialize = c := rfl

/-- **C42 (defect).** A square comes back with axis and width exchanged. -/
theorem C42_square_swapped (s : Square) :
    Square.fromProto s.serialize = { corner := s.corner, axis := s.width, width := s.axis } := rfl

/-- **C42 (defect).** So it survives exactly if its width happens to equal its axis … -/
theorem C42_square_iff (s : Square) : Square.fromProto s.serialize = s ↔ s.width = s.axis := by
  obtain ⟨c, a, w⟩ := s
  constructor
  · intro h
    simp only [C42_square_swapped, Square.mk.injEq] at h
    exact h.2.1
  · rintro h
    simp only at h
    simp only [C42_square_swapped, h]

/-- … and the same for faces, whose dual edge is preserved. -/
theorem C42_face_iff (f : AFace3) :
    (AFace3.fromProto f.serialize = f ↔ f.square.width = f.square.axis) ∧ (AFace3.fromProto f.serialize).dual = f.dual := by
  refine ⟨?_, rfl⟩
  obtain ⟨s, d⟩ := f
  rw [← C42_square_iff]
  constructor
  · intro h; exact congrArg AFace3.square h
  · intro h
    show AFace3.mk (Square.fromProto s.serialize) d = _
    rw [h]

/-- **C42 (defect).** A square of width 1 on the x axis is lost. -/
theorem C42_refuted : ∃ s : Square, Square.fromProto s.serialize ≠ s :=
  ⟨⟨![0, 0, 0], 0, 1⟩, fun h => by rw [C42_square_iff] at h; simp at h⟩

/-! ## C43 -/

/-- **C43.** Vertices survive with position, cell and clamping. -/
theorem C43_vertex (v : Vertex 3) : vertexFromProto (vertexSerialize v) = v := by
  obtain ⟨c, q, b⟩ := v
  unfold vertexFromProto vertexSerialize
  simp only [Vertex.mk.injEq]
  refine ⟨?_, ?_, ?_⟩ <;> funext i <;> match i with
    | 0 => rfl
    | 1 => rfl
    | 2 => rfl

/-- **C43.** A cut face comes back with the same loops, id, normal, external boundary and triangulation. The mask and the
additional vertices of the triangulation are lost; an empty triangulation becomes an absent one. -/
theorem C43_face (f : CFace) (h : f.indices.Pairwise fun a b => vecLt a b = true) :
    CFace.fromProto f.serialize =
      { f with mask := Mask.empty, triVertices := none, tri := if f.tri = some [] then none else f.tri } := by
  obtain ⟨m, ix, id, n, e, tv, t⟩ := f
  simp only [CFace.fromProto, CFace.serialize, CFace.mk.injEq, true_and]
  refine ⟨readSet_sorted strictTotal_vecLt h, ?_, ?_, ?_⟩
  · rcases id with x | ⟨a, b⟩ <;> rfl
  · rcases e with _ | ⟨b, s⟩ <;> rfl
  · rcases t with _ | _ | ⟨x, T⟩ <;> simp

/-- **C43.** A cut cell survives, in whatever order the entries of the map are visited. -/
theorem C43_cell (c : CCell) (h : OMap.Sorted intLt c.entries) (m : CutCellMsg) (hid : m.id = c.serialize.id)
    (hr : m.region = c.serialize.region) (hg : m.gridCell = c.serialize.gridCell)
    (he : m.entries.Perm c.serialize.entries) : CCell.fromProto m = c := by
  obtain ⟨e, i, r, g⟩ := c
  simp only [CCell.fromProto, CCell.mk.injEq]
  exact ⟨readMap_perm strictTotal_intLt h he, hid, hr, hg⟩

theorem map_of_forall₂ {α β γ : Type*} {R : α → β → Prop} {f : β → γ} {g : α → γ} {l : List α} {l' : List β}
    (h : List.Forall₂ R l l') (hfg : ∀ a b, a ∈ l → R a b → f b = g a) : l'.map f = l.map g := by
  induction h with
  | nil => rfl
  | cons hr _ ih =>
    rw [List.map_cons, List.map_cons, hfg _ _ List.mem_cons_self hr,
      ih fun a b ha => hfg a b (List.mem_cons_of_mem _ ha)]

/-- what loading makes of a face: the mask is recomputed from the vertices. -/
def reloaded (getMask : ℕ → Mask 3) (f : CFace) : CFace :=
  { f with
    mask := (updateMask getMask f.indices).getD Mask.empty
    triVertices := none
    tri := if f.tri = some [] then none else f.tri }

theorem readFace_serialize (g : ℕ → Mask 3) (f : CFace) (h : f.indices.Pairwise fun a b => vecLt a b = true) :
    readFace g f.serialize = reloaded g f := by
  unfold readFace reloaded
  rw [C43_face f h]

/-- **C43.** Loading a saved mesh, whatever the order in which the maps are iterated: grid, vertices, original mesh, cells,
folded faces, barycentric coordinates, adaptive cells and regions are the same; every face is the same up to its mask, which
is recomputed, and the auxiliary triangulation vertices; the adaptive faces are recomputed from the cells. Cut edges,
mesh cut edges, original edges and axial faces are dropped. -/
theorem C43_mesh (unindex : Coord 3 → ℕ → Coord 3) (M : Mesh) (hM : Ordered M) (m : MeshMsg) (hm : Same M.serialize m) :
    Mesh.fromProto unindex m = { M with
      cutEdges := []
      meshCutEdges := []
      origE := []
      axialFaces := fun _ => []
      faces := M.faces.map (reloaded (vertexMask (gridSize M.shape) (unindex M.shape) fun i =>
        M.cutVertices.getD i (Vertex.ofCoord 0)))
      aFaces := adaptiveFaces (cellShape M.shape) M.cubes } := by
  have hverts : m.vertices.map vertexFromProto = M.cutVertices := by
    rw [hm.vertices]
    show (M.cutVertices.map vertexSerialize).map vertexFromProto = _
    rw [List.map_map]
    conv_rhs => rw [← List.map_id M.cutVertices]
    exact List.map_congr_left fun v _ => C43_vertex v
  have hcubes : readMap intLt (m.cubes.map fun p => (p.1, ((Cube.fromProto p.2).corner, (Cube.fromProto p.2).width))) =
      M.cubes := by
    refine readMap_perm strictTotal_intLt hM.cubes ?_
    have := hm.cubes.map fun p : ℤ × CubeMsg => (p.1, ((Cube.fromProto p.2).corner, (Cube.fromProto p.2).width))
    refine this.trans ?_
    show ((M.cubes.map fun p => (p.1, Cube.serialize ⟨p.2.1, p.2.2⟩)).map _).Perm _
    rw [List.map_map]
    conv_rhs => rw [← List.map_id M.cubes]
    exact List.Perm.refl _
  have hcells : m.cells.map CCell.fromProto = M.cells := by
    have h1 : List.Forall₂ (fun (c : CCell) (c' : CutCellMsg) => c'.id = c.serialize.id ∧ c'.region = c.serialize.region ∧
        c'.gridCell = c.serialize.gridCell ∧ c'.entries.Perm c.serialize.entries) M.cells m.cells := by
      have := hm.cells
      rw [show M.serialize.cells = M.cells.map CCell.serialize from rfl, List.forall₂_map_left_iff] at this
      exact this
    rw [map_of_forall₂ (g := id) h1 fun c c' hc hr => C43_cell c (hM.cells c hc) c' hr.1 hr.2.1 hr.2.2.1 hr.2.2.2]
    exact List.map_id _
  unfold Mesh.fromProto
  simp only [hverts, hcubes, hcells, hm.origin, hm.dx, hm.shape, hm.origV, hm.origF, hm.faces, hm.folded]
  have hf : ∀ g : ℕ → Mask 3, (M.serialize.faces.map (readFace g)) = M.faces.map (reloaded g) := by
    intro g
    show (M.faces.map CFace.serialize).map (readFace g) = _
    rw [List.map_map]
    exact List.map_congr_left fun f hfm => readFace_serialize g f (hM.loops f hfm)
  rw [hf, readMap_perm strictTotal_intLt hM.meshFaces (show m.meshFaces.Perm M.meshFaces from hm.meshFaces),
    readMap_perm strictTotal_intLt hM.regions (show m.cubeRegions.Perm M.regions from hm.cubeRegions)]
  simp only [Mesh.mk.injEq, true_and]
  refine ⟨rfl, rfl, rfl, rfl, rfl, rfl, ?_, rfl, trivial⟩
  exact readSet_sorted strictTotal_intLt hM.folded

/-- **C43.** A mesh whose masks and adaptive faces are the computed ones, whose triangulations are not empty and use no
additional vertices, survives saving and loading except for its edges and axial faces. -/
theorem C43_mesh_exact (unindex : Coord 3 → ℕ → Coord 3) (M : Mesh) (hM : Ordered M) (m : MeshMsg)
    (hm : Same M.serialize m)
    (hmask : ∀ f ∈ M.faces, updateMask (vertexMask (gridSize M.shape) (unindex M.shape) fun i =>
      M.cutVertices.getD i (Vertex.ofCoord 0)) f.indices = some f.mask)
    (htri : ∀ f ∈ M.faces, f.tri ≠ some [] ∧ f.triVertices = none)
    (hgrid : M.aFaces = adaptiveFaces (cellShape M.shape) M.cubes) :
    Mesh.fromProto unindex m =
      { M with cutEdges := [], meshCutEdges := [], origE := [], axialFaces := fun _ => [] } := by
  rw [C43_mesh unindex M hM m hm, ← hgrid]
  have : M.faces.map (reloaded (vertexMask (gridSize M.shape) (unindex M.shape) fun i =>
        M.cutVertices.getD i (Vertex.ofCoord 0))) = M.faces := by
    conv_rhs => rw [← List.map_id M.faces]
    refine List.map_congr_left fun f hf => ?_
    unfold reloaded
    rw [hmask f hf, if_neg (htri f hf).1, ← (htri f hf).2]
    rfl
  rw [this]

/-- **C43.** Saving is stable: a loaded mesh, saved and loaded again, is the same mesh. -/
theorem C43_idempotent (unindex : Coord 3 → ℕ → Coord 3) (M : Mesh) (hM : Ordered M) (m m' : MeshMsg)
    (hm : Same M.serialize m) (hm' : Same (Mesh.fromProto unindex m).serialize m') :
    Mesh.fromProto unindex m' = Mesh.fromProto unindex m := by
  have h1 := C43_mesh unindex M hM m hm
  have hord : Ordered (Mesh.fromProto unindex m) := by
    rw [h1]
    refine ⟨?_, hM.cells, hM.folded, hM.meshFaces, hM.cubes, hM.regions⟩
    intro f hf
    obtain ⟨g, hg, rfl⟩ := List.mem_map.1 hf
    exact hM.loops g hg
  rw [C43_mesh unindex _ hord m' hm']
  rw [h1]
  simp only [Mesh.mk.injEq, true_and, and_true, List.map_map]
  refine List.map_congr_left fun f _ => ?_
  simp only [Function.comp, reloaded, CFace.mk.injEq, true_and]
  split
  · simp
  · simp [*]

/-- **C43 (defect).** Cut edges are never saved: every loaded mesh is without cut edges. -/
theorem C43_edges_lost_refuted (unindex : Coord 3 → ℕ → Coord 3) (m : MeshMsg) :
    (Mesh.fromProto unindex m).cutEdges = [] ∧ (Mesh.fromProto unindex m).meshCutEdges = [] := ⟨rfl, rfl⟩

/-- **C43 (defect).** The generator numbers the adaptive cells anew after their faces were built (C62); loading rebuilds
the faces from the new numbers. The faces of a generated mesh and of its reloaded copy therefore differ. -/
theorem C43_adaptive_faces_refuted : ∃ cells : List (ℤ × ACell 3), OMap.Sorted intLt cells ∧
    adaptiveFaces ![1, 1, 1] cells ≠ adaptiveFaces ![1, 1, 1] (renumber 5 cells) :=
  ⟨[(0, (![0, 0, 0], 1))], by simp [OMap.Sorted], by decide +kernel⟩

/-- an ordered mesh with a face with two loops, a cell, and an adaptive cell. -/
def sample : Mesh where
  origin := ![0, 0, 0]
  dx := ![1, 1, 1]
  shape := ![3, 3, 3]
  cutVertices := [Vertex.fromVertex ![1 / 2, 1, 0]]
  cutEdges := [(0, 27)]
  meshCutEdges := []
  origV := [![0, 0, 0]]
  origE := []
  origF := [(0, 1, 2)]
  faces := [⟨Mask.empty, [[0, 1, 27], [2, 3, 4]], .inr (2, 0), ![0, 0, 1], some (3, true), none, some [(0, 1, 27)]⟩,
    ⟨Mask.empty, [[0, 1, 27]], .inl 4, ![0, 0, 1], none, none, some []⟩]
  cells := [⟨[(0, true), (1, false)], 0, 1, ![0, 0, 0]⟩]
  folded := [0, 2]
  axialFaces := fun _ => [0]
  meshFaces := [(1, [![1, 0, 0]], 4)]
  cubes := [(1, (![1, 0, 0], 1)), (2, (![1, 1, 1], 1))]
  aFaces := []
  regions := [(1, 0), (2, 0)]

example : Ordered sample where
  loops := by
    intro f hf
    simp only [sample, List.mem_cons, List.not_mem_nil, or_false] at hf
    rcases hf with rfl | rfl <;> decide
  cells := by
    intro c hc
    simp only [sample, List.mem_cons, List.not_mem_nil, or_false] at hc
    subst hc
    simp [OMap.Sorted, intLt]
  folded := by decide
  meshFaces := by simp [OMap.Sorted, sample]
  cubes := by simp [OMap.Sorted, sample, intLt]
  regions := by simp [OMap.Sorted, sample, intLt]

example : Same sample.serialize sample.serialize where
  origin := rfl
  dx := rfl
  shape := rfl
  vertices := rfl
  origV := rfl
  origF := rfl
  faces := rfl
  cells := List.forall₂_same.2 fun _ _ => ⟨rfl, rfl, rfl, .refl _⟩
  folded := rfl
  meshFaces := .refl _
  cubes := .refl _
  cubeRegions := .refl _

end Mandoline.Proto
