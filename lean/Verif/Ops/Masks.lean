import Verif.Adaptive.Grid
import Mathlib.Data.Fin.VecNotation

/-! # C49: face masks (src/operators/masks.cpp) -/
namespace Mandoline

/-- identity of a cut face: a triangle of the input mesh, or `(axis, coordinate)` of a grid plane
(cutface.hpp:48, cutface_impl.hpp:6-29). -/
inductive FaceId where
  | mesh (fid : ℤ)
  | axial (axis : Fin 3) (coord : ℤ)

/-- `mesh_face_mask` (masks.cpp:3-11): one per face, cut faces first, then the `next` faces of the exterior grid. -/
def meshFaceMask (faces : List FaceId) (next : ℕ) : List ℚ :=
  (faces.map fun f => match f with | .mesh _ => (0 : ℚ) | .axial _ _ => 1) ++ List.replicate next 1

/-- the entry of a cut face in `grid_boundary_mask` (masks.cpp:14-21): compares with `vertex_shape`. -/
def gridBoundaryEntry (vshape : Coord 3) : FaceId → ℚ
  | .mesh _ => 1
  | .axial axis c => if c = 0 ∨ vshape axis = c then 0 else 1

/-- `AdaptiveGrid::grid_boundary_face_mask` at one face (adaptive_grid.cpp:210-224). -/
def extBoundaryEntry (vshape : Coord 3) (f : AFace 3) : ℚ :=
  if f.2.1 f.1.1 = 0 then 0 else if f.2.1 f.1.1 = vshape f.1.1 - 1 then 0 else 1

/-- `grid_boundary_mask` (masks.cpp:12-24). -/
def gridBoundaryMask (vshape : Coord 3) (faces : List FaceId) (ext : List (AFace 3)) : List ℚ :=
  faces.map (gridBoundaryEntry vshape) ++ ext.map (extBoundaryEntry vshape)

/-! ## specification -/

/-- the face lies in a plane of the grid that bounds the domain. -/
def FaceId.OnDomainBoundary (vshape : Coord 3) : FaceId → Prop
  | .mesh _ => False
  | .axial axis c => c = 0 ∨ c = vshape axis - 1

/-- the grid plane of the face exists. -/
def FaceId.InGrid (vshape : Coord 3) : FaceId → Prop
  | .mesh _ => True
  | .axial axis c => 0 ≤ c ∧ c < vshape axis

/-- **C49** the mesh mask has one entry per face and is 0 exactly on the pieces of the input mesh. -/
theorem C49_mesh_mask (faces : List FaceId) (next : ℕ) :
    (meshFaceMask faces next).length = faces.length + next ∧
    (∀ (i : ℕ) (f : FaceId), faces[i]? = some f → (meshFaceMask faces next)[i]? = some (match f with | .mesh _ => 0 | .axial _ _ => 1)) ∧
    (∀ i : ℕ, i < next → (meshFaceMask faces next)[faces.length + i]? = some 1) := by
  refine ⟨by simp [meshFaceMask], ?_, ?_⟩
  · intro i f hf
    have hi := (List.getElem?_eq_some_iff.1 hf).1
    rw [meshFaceMask, List.getElem?_append_left (by simpa using hi), List.getElem?_map, hf]; rfl
  · intro i hi
    rw [meshFaceMask, List.getElem?_append_right (by simp)]
    simp [hi]

/-- **C49** the faces of the exterior grid are masked exactly on both sides of the domain. -/
theorem C49_exterior_part (vshape : Coord 3) (faces : List FaceId) (ext : List (AFace 3)) (i : ℕ) (f : AFace 3)
    (hf : ext[i]? = some f) :
    (gridBoundaryMask vshape faces ext)[faces.length + i]? =
      some (if f.2.1 f.1.1 = 0 ∨ f.2.1 f.1.1 = vshape f.1.1 - 1 then 0 else 1) := by
  rw [gridBoundaryMask, List.getElem?_append_right (by simp)]
  simp only [List.length_map, Nat.add_sub_cancel_left, List.getElem?_map, hf, Option.map_some, extBoundaryEntry]
  split_ifs <;> simp_all

/-- **C49** a cut face of a grid plane of the domain is masked iff it lies on the *low* side. -/
theorem C49_cut_part (vshape : Coord 3) (faces : List FaceId) (ext : List (AFace 3)) (i : ℕ) (axis : Fin 3) (c : ℤ)
    (hf : faces[i]? = some (.axial axis c)) (hc : FaceId.InGrid vshape (.axial axis c)) :
    (gridBoundaryMask vshape faces ext)[i]? = some (if c = 0 then 0 else 1) := by
  have hi := (List.getElem?_eq_some_iff.1 hf).1
  rw [gridBoundaryMask, List.getElem?_append_left (by simpa using hi), List.getElem?_map, hf]
  have : vshape axis ≠ c := by have := hc.2; omega
  simp [gridBoundaryEntry, this]

/-- **C49, defect** no cut face on the high side of the domain is ever masked, although it bounds the domain (a grid with
at least two planes per axis). -/
theorem C49_high_side_refuted (vshape : Coord 3) (faces : List FaceId) (ext : List (AFace 3)) (i : ℕ) (axis : Fin 3)
    (hs : 2 ≤ vshape axis) (hf : faces[i]? = some (.axial axis (vshape axis - 1))) :
    FaceId.OnDomainBoundary vshape (.axial axis (vshape axis - 1)) ∧ (gridBoundaryMask vshape faces ext)[i]? = some 1 := by
  refine ⟨Or.inr rfl, ?_⟩
  rw [C49_cut_part vshape faces ext i axis _ hf ⟨by omega, by omega⟩, if_neg (by omega)]

/-- the mask a user wants: with the comparison corrected to `vertex_shape - 1`. -/
def gridBoundaryEntryFixed (vshape : Coord 3) : FaceId → ℚ
  | .mesh _ => 1
  | .axial axis c => if c = 0 ∨ vshape axis - 1 = c then 0 else 1

/-- **C49** with the comparison corrected the mask is 0 exactly on the domain boundary. -/
theorem C49_corrected (vshape : Coord 3) (f : FaceId) :
    gridBoundaryEntryFixed vshape f = 0 ↔ f.OnDomainBoundary vshape := by
  cases f with
  | mesh => simp [gridBoundaryEntryFixed, FaceId.OnDomainBoundary]
  | axial a c => simp [gridBoundaryEntryFixed, FaceId.OnDomainBoundary, eq_comm]; tauto

example : gridBoundaryMask ![3, 3, 3] [.mesh 4, .axial 0 0, .axial 1 1, .axial 2 2] [((1, -1, 0), (![0, 2, 0], 1))] =
    [1, 0, 1, 1, 0] := by decide +kernel

end Mandoline
