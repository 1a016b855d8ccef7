import Verif.Ops.GridVolume
import Verif.Interp.FaceVolume
import Verif.Fill.Walls
import Verif.Adaptive.FaceProj
import Verif.Geom.Queries
import Verif.Tri.FacePieces
import Mathlib.Tactic.Linarith
import Mathlib.Tactic.FieldSimp
import Mathlib.Tactic.Ring

/-!
# C116: the validation that all faces are used (tools/validation/faces_fully_utilized.cpp:7-37)

The mesh is one read from a file (tools/validation/cutmesh_validation.cpp:20-30), so the faces of its exterior grid are those
made from its cells (`from_proto` calls `make_faces`, src/mesh3.cpp:398-400).
-/
namespace Mandoline
namespace FacesUtilized
open GridVolume FaceVolume CellCollapser

/-! ## model -/

/-- what the validation reads of a mesh: cut faces, pieces of the input surface (`mesh_cut_faces()`), number of columns of
`origF()`, the parents of the mesh faces, vertices, `face_volumes()`, spacing, the cells of the exterior grid, the number of
cells per axis, and the index of grid faces (`staggered_index<2>`, `form_size<2>`; mtao library). -/
structure UMesh where
  faces : List CutFace3
  pieces : List Piece
  origF : ℕ
  faceIds : List ℕ
  V : ℤ → Vertex 3
  FV : ℕ → ℚ
  dx : Fin 3 → ℚ
  cells : List (ℤ × ACell 3)
  shape : Coord 3
  stag : Fin 3 → Coord 3 → ℤ
  formSize : ℕ

variable (M : UMesh)

/-- the number of columns of `face_barycentric_volume_matrix` (src/operators/interpolation3.cpp:31-41). -/
def UMesh.numTri : ℕ := if M.origF = 0 then M.faceIds.foldl max 0 + 1 else M.origF

/-- the triplets of `face_barycentric_volume_matrix` (interpolation3.cpp:42-47). -/
def UMesh.baryTriplets : List Triplet := M.pieces.map fun p => ((p.fid : ℤ), (p.parent : ℤ), baryVolume p.barys * 2)

/-- the triplets of `face_grid_volume_matrix(ccm, true)` (interpolation3.cpp:88-128). -/
def UMesh.gridTriplets : List Triplet :=
  faceProjection M.stag M.cells (adaptiveFaces M.shape M.cells) M.faces.length ++ faceGridVolume3 M.stag M.dx M.V true M.FV M.faces

/-- `std::abs(x - 1) > 1e-5` does not hold (faces_fully_utilized.cpp:17, 28). -/
def nearOne (x : ℚ) : Bool := !decide (1 / 100000 < |x - 1|)

/-- `faces_fully_utilized` (tools/validation/faces_fully_utilized.cpp:7-37), without the messages. The face numbers of the
pieces are the keys of a map, so no two triplets of the first matrix are added. `minCoeff` of an empty vector is undefined
(`none`). -/
def UMesh.facesFullyUtilized : Option Bool :=
  if M.pieces = [] then none
  else some (!M.baryTriplets.any (fun t => decide (t.2.2 < 0)) &&
    (List.range M.numTri).all (fun i => nearOne (colSum M.baryTriplets i)) &&
    (List.range M.formSize).all fun i => nearOne (colSum M.gridTriplets i))

/-! ## specification -/

/-- the grid face with normal `d` at `u` belongs to the grid. -/
def GridFacet (shape : Coord 3) (d : Fin 3) (u : Coord 3) : Prop :=
  (0 ≤ u d ∧ u d ≤ shape d) ∧ ∀ j, j ≠ d → 0 ≤ u j ∧ u j < shape j

/-- `staggered_index<2>` numbers the grid faces from 0 to `form_size<2>() - 1` (mtao library). -/
structure FacetIndex (shape : Coord 3) (stag : Fin 3 → Coord 3 → ℤ) (n : ℕ) : Prop where
  inj : StagInj3 (GridFacet shape) stag
  bound : ∀ d u, GridFacet shape d u → 0 ≤ stag d u ∧ stag d u < n
  surj : ∀ i : ℕ, i < n → ∃ d u, GridFacet shape d u ∧ stag d u = i

/-- the cells of the exterior grid: disjoint blocks of the grid at multiples of their width (C25, C26). -/
structure ExteriorOk (shape : Coord 3) (cells : List (ℤ × ACell 3)) : Prop where
  disjoint : DisjointCells cells
  sorted : OMap.Sorted intLt cells
  inside : ∀ e ∈ cells, ∀ u, InCube e.2 u → InGrid shape u
  dyadic : Dyadic cells

/-- the cut faces, as loops of vertices with positions in the grid, and what the mesh stores about them: the grid planes
containing the face (C11), its unit normal, its area in the world (C93). -/
structure FacesOf (faces : List (ℤ × List (List ℤ))) (P nrm : ℤ → Vec3) (o : Vec3) : Prop where
  clean : Clean faces
  ok : ∀ f ∈ faces.map Prod.fst, FaceOk faces P nrm f
  norm : ∀ v, Normalised (M.V v)
  pos : ∀ v, P v = (M.V v).p
  len : M.faces.length = faces.length
  num : ∀ (k : ℕ) f, faces[k]? = some f → f.1 = k
  loops : ∀ (k : ℕ) f g, faces[k]? = some f → M.faces[k]? = some g → g.loops = f.2
  mask : ∀ g ∈ M.faces, ∀ (i : Fin 3) (n : ℤ), g.mask i = some n ↔ ∀ v ∈ g.loops.flatten, (M.V v).p i = n
  normal : ∀ (k : ℕ) g, M.faces[k]? = some g → vdot g.normal g.normal = 1 ∧ ∃ s : ℚ, 0 < s ∧ g.normal = s • nrm k
  area : ∀ (k : ℕ), k < faces.length → IsNorm (M.FV k) (fun d => areaVec (worldPos o M.dx P) (edgesOf faces k) d / 2)
  spacing : ∀ i, 0 < M.dx i

open Classical in
/-- area, in grid units, of the cut faces in the grid face with normal `i` at `u` whose normal points against the axis. -/
noncomputable def againstArea (faces : List (ℤ × List (List ℤ))) (P nrm : ℤ → Vec3) (u : Coord 3) (i : Fin 3) : ℚ :=
  ((faces.map Prod.fst).map fun f =>
    if (FaceIn faces P u f ∧ InPlane faces P f i (u i)) ∧ nrm f i < 0 then |areaVec P (edgesOf faces f) i| / 2 else 0).sum

/-! ## proofs -/

theorem nearOne_iff (x : ℚ) : nearOne x = true ↔ |x - 1| ≤ 1 / 100000 := by
  unfold nearOne
  rw [Bool.not_eq_true', decide_eq_false_iff_not, not_lt]

/-- triangle `t` is checked: the input triangles if the mesh knows them, otherwise all numbers up to the largest parent of a mesh
face. -/
def TriCol (t : ℕ) : Prop := (0 < M.origF ∧ t < M.origF) ∨ (M.origF = 0 ∧ (t = 0 ∨ ∃ i ∈ M.faceIds, t ≤ i))

theorem triCol_iff (t : ℕ) : TriCol M t ↔ t < M.numTri := by
  have gen : ∀ (l : List ℕ) (a : ℕ), t ≤ l.foldl max a ↔ t ≤ a ∨ ∃ i ∈ l, t ≤ i := by
    intro l
    induction l with
    | nil => intro a; simp
    | cons x l ih =>
      intro a
      rw [List.foldl_cons, ih, le_max_iff]
      simp only [List.mem_cons, exists_eq_or_imp, or_assoc]
  unfold TriCol UMesh.numTri
  split
  · next h => rw [Nat.lt_succ_iff, gen]; simp [h]
  · next h => constructor
              · rintro (⟨_, h1⟩ | ⟨h1, _⟩)
                · exact h1
                · exact absurd h1 h
              · intro h1; exact .inl ⟨by omega, h1⟩

/-- **C116.** The validation is defined iff the mesh has a piece of the input surface. It accepts exactly if no piece has a
negative area in barycentric coordinates, the pieces of each input triangle have, up to 10⁻⁵, the area of the triangle, and
the weights given to each grid face add up to one, up to 10⁻⁵. -/
theorem C116_accepts (hF : FacetIndex M.shape M.stag M.formSize) :
    (M.facesFullyUtilized = none ↔ M.pieces = []) ∧
    (M.facesFullyUtilized = some true ↔ M.pieces ≠ [] ∧ (∀ p ∈ M.pieces, 0 ≤ baryVolume p.barys) ∧
      (∀ t : ℕ, TriCol M t → |((M.pieces.filter fun p => p.parent = t).map fun p => 2 * baryVolume p.barys).sum - 1| ≤ 1 / 100000) ∧
      ∀ d u, GridFacet M.shape d u → |colSum M.gridTriplets (M.stag d u) - 1| ≤ 1 / 100000) := by
  simp only [triCol_iff]
  have hcol : ∀ t : ℕ, colSum M.baryTriplets (t : ℤ) = ((M.pieces.filter fun p => p.parent = t).map fun p => 2 * baryVolume p.barys).sum := by
    intro t
    unfold colSum UMesh.baryTriplets
    rw [List.filter_map, List.map_map]
    congr 1
    have : (M.pieces.filter ((fun x : Triplet => decide (x.2.1 = (t : ℤ))) ∘ fun p : Piece => ((p.fid : ℤ), (p.parent : ℤ), baryVolume p.barys * 2))) =
        M.pieces.filter fun p => p.parent = t := by
      refine List.filter_congr fun p _ => ?_
      simp only [Function.comp, Nat.cast_inj]
    rw [this]
    refine List.map_congr_left fun p _ => ?_
    simp only [Function.comp]; ring
  unfold UMesh.facesFullyUtilized
  by_cases hp : M.pieces = []
  · simp [hp]
  rw [if_neg hp]
  refine ⟨by simp [hp], ?_⟩
  rw [Option.some.injEq, Bool.and_eq_true, Bool.and_eq_true, Bool.not_eq_true', List.any_eq_false, List.all_eq_true, List.all_eq_true]
  simp only [List.mem_range, nearOne_iff, hcol, decide_eq_true_eq, not_lt]
  constructor
  · rintro ⟨⟨h1, h2⟩, h3⟩
    refine ⟨hp, fun p hpm => ?_, h2, fun d u hu => ?_⟩
    · have := h1 _ (List.mem_map.2 ⟨p, hpm, rfl⟩)
      simp only at this
      linarith
    · obtain ⟨b1, b2⟩ := hF.bound d u hu
      have := h3 (M.stag d u).toNat (by omega)
      rwa [Int.toNat_of_nonneg b1] at this
  · rintro ⟨-, h1, h2, h3⟩
    refine ⟨⟨fun t ht => ?_, h2⟩, fun i hi => ?_⟩
    · obtain ⟨p, hpm, rfl⟩ := List.mem_map.1 ht
      have := h1 p hpm
      simp only
      linarith
    · obtain ⟨d, u, hu, he⟩ := hF.surj i hi
      rw [← he]
      exact h3 d u hu

/-! ### the surface -/

theorem baryVolume_share (p : List (TriPt 3)) : 2 * baryVolume (p.map fun v => v.b) = TriInput.share p := by
  unfold baryVolume FaceVolume.curveVolume TriInput.share
  rw [sides_map, List.map_map]
  unfold sides TriInput.ringOf
  rw [mul_div_cancel₀ _ (by norm_num : (2:ℚ) ≠ 0)]
  congr 1
  refine List.map_congr_left fun e _ => ?_
  simp only [Function.comp]; ring

/-- **C116.** If the pieces of each input triangle are those into which the grid cuts it (as C108 shows of the generator),
the parts of the validation about the surface succeed, whatever the order of the pieces: the areas are positive and add up
exactly. -/
theorem C116_surface (T : ℕ → TriInput 3) (polys : ℕ → List (List (TriPt 3)))
    (hcuts : ∀ t, t < M.numTri → (T t).Cuts (polys t))
    (hpar : ∀ p ∈ M.pieces, p.parent < M.numTri)
    (hpieces : ∀ t, t < M.numTri → ((M.pieces.filter fun p => p.parent = t).map Piece.barys).Perm ((polys t).map fun p => p.map fun v => v.b)) :
    (∀ p ∈ M.pieces, 0 < baryVolume p.barys) ∧
    ∀ t : ℕ, t < M.numTri → ((M.pieces.filter fun p => p.parent = t).map fun p => 2 * baryVolume p.barys).sum = 1 := by
  constructor
  · intro p hp
    have hm : p.barys ∈ ((M.pieces.filter fun q => q.parent = p.parent).map Piece.barys) :=
      List.mem_map.2 ⟨p, List.mem_filter.2 ⟨hp, by simp⟩, rfl⟩
    obtain ⟨q, hq, he⟩ := List.mem_map.1 ((hpieces _ (hpar p hp)).mem_iff.1 hm)
    have := (hcuts _ (hpar p hp)).oriented q hq
    rw [← baryVolume_share, he] at this
    linarith
  · intro t ht
    have h1 : ((M.pieces.filter fun p => p.parent = t).map fun p => 2 * baryVolume p.barys) =
        (((M.pieces.filter fun p => p.parent = t).map Piece.barys).map fun b => 2 * baryVolume b) := by
      rw [List.map_map]; rfl
    rw [h1, ((hpieces t ht).map _).sum_eq, List.map_map, ← (hcuts t ht).area]
    congr 1
    refine List.map_congr_left fun p _ => ?_
    exact baryVolume_share p

/-! ### the exterior grid -/

section
variable {shape : Coord 3} {cells : List (ℤ × ACell 3)}

theorem sides_of_face (hE : ExteriorOk shape cells) (f : AFace 3) (hf : f ∈ adaptiveFaces shape cells) (ca cb : ACell 3)
    (ha : (f.1.2.1, ca) ∈ cells) (hb : (f.1.2.2, cb) ∈ cells) :
    f.1.2.1 ≠ f.1.2.2 ∧ ∃ u0, InCube ca (below u0 f.1.1) ∧ InCube cb u0 := by
  obtain ⟨u0, hs⟩ := ((C27_faces_exact shape cells hE.disjoint hE.sorted hE.inside).1 f.1).1 ⟨f.2, hf⟩
  obtain ⟨⟨d, a, b⟩, sq⟩ := f
  simp only at *
  cases hs with
  | low _ _ c hb' hu h => have := hE.disjoint.1 _ ha; simp at this
  | high _ _ c ha' hu h => have := hE.disjoint.1 _ hb; simp at this
  | mid _ _ _ ca' cb' ha' hb' hua hub hab =>
    rw [OMap.sorted_unique strictTotal_intLt hE.sorted ha ha', OMap.sorted_unique strictTotal_intLt hE.sorted hb hb']
    exact ⟨hab, u0, hua, hub⟩

/-- the grid faces given weight by the exterior grid are on the low side of an exterior cell, and not on the boundary of the
domain. -/
theorem projected_facet (hE : ExteriorOk shape cells) (stag : Fin 3 → Coord 3 → ℤ) (off : ℤ) (x : Triplet)
    (hx : x ∈ faceProjection stag cells (adaptiveFaces shape cells) off) :
    ∃ d u, x.2.1 = stag d u ∧ 0 < u d ∧ ∃ e ∈ cells, InCube e.2 u ∧ u d = e.2.1 d := by
  unfold faceProjection at hx
  obtain ⟨⟨f, k⟩, hfk, hx⟩ := List.mem_flatMap.1 hx
  have hf := List.fst_mem_of_mem_zipIdx hfk
  unfold faceProjTriplets at hx
  simp only at hx hf
  split at hx
  swap
  · cases hx
  cases h1 : cellAt cells f.1.2.1 with
  | none => rw [h1] at hx; cases hx
  | some ca =>
    cases h2 : cellAt cells f.1.2.2 with
    | none => rw [h1, h2] at hx; cases hx
    | some cb =>
      rw [h1, h2] at hx
      simp only at hx
      have ha := (cellAt_iff cells hE.sorted _ ca).1 h1
      have hb := (cellAt_iff cells hE.sorted _ cb).1 h2
      obtain ⟨hab, u0, hua, hub⟩ := sides_of_face hE f hf ca cb ha hb
      obtain ⟨p1, p2, q1, q2, q3⟩ := separated_position cells hE.disjoint hE.dyadic f.1.1 _ _ ca cb ha hb hab u0 hua hub
      obtain ⟨y, hy, rfl⟩ := List.mem_map.1 hx
      unfold faceProjRow at hy
      rw [projSquare_mid cells hE.disjoint hE.dyadic f.1.1 _ _ ca cb ha hb hab u0 hua hub] at hy
      simp only at hy
      obtain ⟨u, hu, rfl⟩ := List.mem_map.1 hy
      rw [mem_squareCoords] at hu
      refine ⟨f.1.1, u, rfl, ?_⟩
      have ga : ∀ j, 0 ≤ ca.1 j := fun j => ((hE.inside _ ha) ca.1 (fun i => ⟨le_rfl, by simp only; omega⟩) j).1
      by_cases hw : ca.2 < cb.2
      · rw [if_pos hw, min_eq_left hw.le] at hu
        simp only at hu
        refine ⟨?_, (f.1.2.1, ca), ha, fun j => ?_, hu.1⟩
        · obtain ⟨l, q, hq⟩ := hE.dyadic _ ha
          obtain ⟨m, r, hr⟩ := hE.dyadic _ hb
          simp only at hq hr
          have e1 := ga f.1.1
          rw [hu.1]
          rcases e1.lt_or_eq with h | h
          · exact h
          · exfalso
            rw [← h, zero_add] at q1
            have r1 : cb.1 f.1.1 = 2 ^ m * r f.1.1 := by rw [hr]
            have r2 : cb.2 = 2 ^ m := by rw [hr]
            rw [r2] at hw
            rw [r1] at q1
            have hpos : (0 : ℤ) < 2 ^ m := by positivity
            have : 0 < r f.1.1 := by
              by_contra hc
              have := mul_nonpos_of_nonneg_of_nonpos hpos.le (not_lt.1 hc)
              omega
            nlinarith
        · by_cases hj : j = f.1.1
          · subst hj; rw [hu.1]; exact ⟨le_rfl, by dsimp only; omega⟩
          · exact hu.2 j hj
      · rw [if_neg hw, min_eq_right (by omega)] at hu
        simp only at hu
        refine ⟨?_, (f.1.2.2, cb), hb, fun j => ?_, hu.1⟩
        · have := ga f.1.1
          rw [hu.1]; omega
        · by_cases hj : j = f.1.1
          · subst hj; rw [hu.1]; exact ⟨le_rfl, by dsimp only; omega⟩
          · exact hu.2 j hj

end

theorem projected_zero (hE : ExteriorOk M.shape M.cells) (hF : FacetIndex M.shape M.stag M.formSize) (off : ℤ) (d : Fin 3) (u : Coord 3)
    (hu : GridFacet M.shape d u) (h : u d = 0 ∨ u d = M.shape d ∨ (∃ e ∈ M.cells, InCube e.2 u ∧ InCube e.2 (below u d))) :
    colSum (faceProjection M.stag M.cells (adaptiveFaces M.shape M.cells) off) (M.stag d u) = 0 := by
  refine colSum_zero _ _ fun x hx he => ?_
  obtain ⟨d', u', e1, e2, c, hc, hcu, e3⟩ := projected_facet hE M.stag off x hx
  have hg := hE.inside c hc u' hcu
  obtain ⟨rfl, rfl⟩ := hF.inj d' d u' u ⟨⟨(hg d').1, (hg d').2.le⟩, fun j _ => hg j⟩ hu (e1.symm.trans he)
  rcases h with h | h | ⟨c', hc', k1, k2⟩
  · omega
  · have := (hg d').2; omega
  · have := hE.disjoint.2 u' c hc c' hc' hcu k1
    subst this
    have := (k2 d').1
    simp only [below, Function.update_self] at this
    omega

/-- **C116, defect.** A grid face on the boundary of the domain is given no weight by the exterior grid; so a mesh with an
exterior cell at the boundary, without cut faces in its wall there, is always rejected although every face is used. -/
theorem C116_boundary_refuted (hE : ExteriorOk M.shape M.cells) (hF : FacetIndex M.shape M.stag M.formSize) (d : Fin 3) (u : Coord 3)
    (hu : GridFacet M.shape d u) (hbd : u d = 0 ∨ u d = M.shape d) (hcut : ∀ f ∈ M.faces, InColumn M.V true d u f = false)
    (hok : ∀ f ∈ M.faces, ∀ a c, InColumn M.V true a c f = true → GridFacet M.shape a c) :
    colSum M.gridTriplets (M.stag d u) = 0 ∧ M.facesFullyUtilized ≠ some true := by
  have h0 : colSum M.gridTriplets (M.stag d u) = 0 := by
    unfold UMesh.gridTriplets
    rw [colSum_append, projected_zero M hE hF _ d u hu (by tauto), C50_face3_columns (GridFacet M.shape) M.stag hF.inj M.dx M.V true M.FV M.faces hok d u hu]
    rw [List.filter_eq_nil_iff.2]
    · simp
    · intro f hf
      rw [hcut f.1 (List.fst_mem_of_mem_zipIdx hf)]; simp
  refine ⟨h0, fun h => ?_⟩
  have := ((C116_accepts M hF).2.1 h).2.2.2 d u hu
  rw [h0] at this
  norm_num at this

/-- **C116, defect.** The same for a grid face inside a wider exterior cell. -/
theorem C116_wide_refuted (hE : ExteriorOk M.shape M.cells) (hF : FacetIndex M.shape M.stag M.formSize) (d : Fin 3) (u : Coord 3)
    (hu : GridFacet M.shape d u) (hw : ∃ e ∈ M.cells, InCube e.2 u ∧ InCube e.2 (below u d)) (hcut : ∀ f ∈ M.faces, InColumn M.V true d u f = false)
    (hok : ∀ f ∈ M.faces, ∀ a c, InColumn M.V true a c f = true → GridFacet M.shape a c) :
    colSum M.gridTriplets (M.stag d u) = 0 ∧ M.facesFullyUtilized ≠ some true := by
  have h0 : colSum M.gridTriplets (M.stag d u) = 0 := by
    unfold UMesh.gridTriplets
    rw [colSum_append, projected_zero M hE hF _ d u hu (by tauto), C50_face3_columns (GridFacet M.shape) M.stag hF.inj M.dx M.V true M.FV M.faces hok d u hu]
    rw [List.filter_eq_nil_iff.2]
    · simp
    · intro f hf
      rw [hcut f.1 (List.fst_mem_of_mem_zipIdx hf)]; simp
  refine ⟨h0, fun h => ?_⟩
  have := ((C116_accepts M hF).2.1 h).2.2.2 d u hu
  rw [h0] at this
  norm_num at this

/-- exterior cells of width one. -/
def UnitCells (cells : List (ℤ × ACell 3)) : Prop := ∀ e ∈ cells, e.2.2 = 1

theorem unit_row (hE : ExteriorOk M.shape M.cells) (h1 : UnitCells M.cells) (row : ℤ) (f : AFace 3) (hf : f ∈ adaptiveFaces M.shape M.cells) :
    (∃ ca cb, (f.1.2.1, ca) ∈ M.cells ∧ (f.1.2.2, cb) ∈ M.cells ∧ cb.1 = above ca.1 f.1.1 ∧
      faceProjTriplets M.stag M.cells row f = [(row, M.stag f.1.1 cb.1, 1)]) ∨
    ((f.1.2.1 = -2 ∨ f.1.2.2 = -2) ∧ faceProjTriplets M.stag M.cells row f = []) := by
  obtain ⟨u0, hs⟩ := ((C27_faces_exact M.shape M.cells hE.disjoint hE.sorted hE.inside).1 f.1).1 ⟨f.2, hf⟩
  obtain ⟨⟨d, a, b⟩, sq⟩ := f
  simp only at *
  cases hs with
  | low _ _ c hb' hu h => exact Or.inr ⟨Or.inl rfl, C28_face_projection_domain M.stag M.cells hE.disjoint hE.sorted row _ (Or.inl rfl)⟩
  | high _ _ c ha' hu h => exact Or.inr ⟨Or.inr rfl, C28_face_projection_domain M.stag M.cells hE.disjoint hE.sorted row _ (Or.inr rfl)⟩
  | mid _ _ _ ca cb ha hb hua hub hab =>
    left
    have wa := h1 _ ha
    have wb := h1 _ hb
    simp only at wa wb
    have ea : ca.1 = below u0 d := by
      funext j; have := hua j; rw [wa] at this; omega
    have eb : cb.1 = u0 := by
      funext j; have := hub j; rw [wb] at this; omega
    have eab : cb.1 = above ca.1 d := by
      rw [eb, ea]
      funext j
      by_cases hj : j = d
      · subst hj; simp [above, below]
      · simp [above, below, hj]
    refine ⟨ca, cb, ha, hb, eab, ?_⟩
    have c1 := (cellAt_iff M.cells hE.sorted a ca).2 ha
    have c2 := (cellAt_iff M.cells hE.sorted b cb).2 hb
    unfold faceProjTriplets faceProjRow
    have hval : isValidEdge M.cells a b = true := by unfold isValidEdge; rw [c1, c2]; simp [hab]
    simp only
    rw [if_pos hval, c1, c2]
    simp only
    rw [projSquare_mid M.cells hE.disjoint hE.dyadic d a b ca cb ha hb hab u0 hua hub, if_neg (by omega)]
    simp only
    have hsq : squareCoords d (cb.1, min ca.2 cb.2) = [cb.1] := by
      rw [wa, wb, min_self]
      have hm : ∀ v, v ∈ squareCoords d (cb.1, (1 : ℤ)) ↔ v = cb.1 := by
        intro v
        rw [mem_squareCoords]
        constructor
        · rintro ⟨e1, e2⟩
          funext j
          by_cases hj : j = d
          · rw [hj]; exact e1
          · have := e2 j hj; dsimp only at this; omega
        · rintro rfl
          exact ⟨rfl, fun j _ => ⟨le_rfl, by dsimp only; omega⟩⟩
      have hn := nodup_squareCoords d (cb.1, (1 : ℤ))
      have := (List.perm_ext_iff_of_nodup hn (List.nodup_singleton cb.1)).2 fun v => by rw [hm, List.mem_singleton]
      exact this.eq_singleton
    rw [hsq, wa, wb]
    simp

theorem zipIdx_map_val {α β : Type} (l : List α) (g : α → β) (n : ℕ) : ((l.zipIdx n).map fun x => g x.1) = l.map g := by
  induction l generalizing n with
  | nil => rfl
  | cons a l ih => rw [List.zipIdx_cons, List.map_cons, ih, List.map_cons]

/-- **C116.** If all exterior cells have width one, the exterior grid gives weight one to the grid faces between two exterior
cells and none to the others. -/
theorem C116_exterior_columns (hE : ExteriorOk M.shape M.cells) (hF : FacetIndex M.shape M.stag M.formSize) (h1 : UnitCells M.cells) (off : ℤ)
    (d : Fin 3) (u : Coord 3) (hu : GridFacet M.shape d u) :
    ((∃ e ∈ M.cells, InCube e.2 u) ∧ (∃ e ∈ M.cells, InCube e.2 (below u d)) →
      colSum (faceProjection M.stag M.cells (adaptiveFaces M.shape M.cells) off) (M.stag d u) = 1) ∧
    (¬ ((∃ e ∈ M.cells, InCube e.2 u) ∧ (∃ e ∈ M.cells, InCube e.2 (below u d))) →
      colSum (faceProjection M.stag M.cells (adaptiveFaces M.shape M.cells) off) (M.stag d u) = 0) := by
  classical
  have cube : ∀ e ∈ M.cells, ∀ v, InCube e.2 v ↔ v = e.2.1 := by
    intro e he v
    have w := h1 e he
    constructor
    · intro h; funext j; have := h j; rw [w] at this; omega
    · rintro rfl; intro j; rw [w]; omega
  have hcol : ∀ row : ℤ, ∀ f ∈ adaptiveFaces M.shape M.cells,
      colSum (faceProjTriplets M.stag M.cells row f) (M.stag d u) =
        if (f.1.1 = d ∧ (∃ ca, (f.1.2.1, ca) ∈ M.cells ∧ InCube ca (below u d)) ∧ ∃ cb, (f.1.2.2, cb) ∈ M.cells ∧ InCube cb u) then 1 else 0 := by
    intro row f hf
    rcases unit_row M hE h1 row f hf with ⟨ca, cb, ha, hb, hab, he⟩ | ⟨h2, he⟩
    · rw [he]
      have hbel : below cb.1 f.1.1 = ca.1 := by rw [hab, below_above]
      have hg := hE.inside _ hb cb.1 ((cube _ hb _).2 rfl)
      by_cases hs : M.stag f.1.1 cb.1 = M.stag d u
      · obtain ⟨e1, e2⟩ := hF.inj f.1.1 d cb.1 u ⟨⟨(hg _).1, (hg _).2.le⟩, fun j _ => hg j⟩ hu hs
        rw [if_pos ⟨e1, ⟨ca, ha, (cube _ ha _).2 (by rw [← e2, ← e1, hbel])⟩, cb, hb, (cube _ hb _).2 e2.symm⟩]
        simp [colSum, hs]
      · rw [if_neg]
        · simp [colSum, hs]
        · rintro ⟨e1, -, cb', hb', hu'⟩
          have := OMap.sorted_unique strictTotal_intLt hE.sorted hb hb'
          subst this
          rw [(cube _ hb _).1 hu', e1] at hs
          exact hs rfl
    · rw [he, colSum_nil, if_neg]
      rintro ⟨-, ⟨ca, ha, -⟩, cb, hb, -⟩
      rcases h2 with h2 | h2
      · have := hE.disjoint.1 _ ha; rw [h2] at this; simp at this
      · have := hE.disjoint.1 _ hb; rw [h2] at this; simp at this
  have hnd : (adaptiveFaces M.shape M.cells).Nodup :=
    ((C27_faces_exact M.shape M.cells hE.disjoint hE.sorted hE.inside).2).imp fun h e => h (congrArg Prod.fst e)
  have hsum : colSum (faceProjection M.stag M.cells (adaptiveFaces M.shape M.cells) off) (M.stag d u) =
      ((adaptiveFaces M.shape M.cells).map fun f => if (f.1.1 = d ∧ (∃ ca, (f.1.2.1, ca) ∈ M.cells ∧ InCube ca (below u d)) ∧
        ∃ cb, (f.1.2.2, cb) ∈ M.cells ∧ InCube cb u) then (1 : ℚ) else 0).sum := by
    unfold faceProjection
    rw [colSum_flatMap]
    obtain ⟨g, hg⟩ : ∃ g : AFace 3 → ℚ, g = fun f => if (f.1.1 = d ∧ (∃ ca, (f.1.2.1, ca) ∈ M.cells ∧ InCube ca (below u d)) ∧
        ∃ cb, (f.1.2.2, cb) ∈ M.cells ∧ InCube cb u) then (1 : ℚ) else 0 := ⟨_, rfl⟩
    rw [← hg, ← zipIdx_map_val _ g 0]
    congr 1
    refine List.map_congr_left fun fi hfi => ?_
    rw [hcol _ _ (List.fst_mem_of_mem_zipIdx hfi), hg]
  rw [hsum, ← Planar.filter_ite_sum]
  constructor
  · rintro ⟨⟨⟨b, cb⟩, hb, hub⟩, ⟨a, ca⟩, ha, hua⟩
    have hab : a ≠ b := by
      rintro rfl
      have := OMap.sorted_unique strictTotal_intLt hE.sorted ha hb
      subst this
      have k1 := (cube _ ha _).1 hua
      have k2 := (cube _ ha _).1 hub
      have := congrFun (k1.trans k2.symm) d
      simp only [below, Function.update_self] at this
      omega
    obtain ⟨sq, hf⟩ := ((C27_faces_exact M.shape M.cells hE.disjoint hE.sorted hE.inside).1 (d, a, b)).2
      ⟨u, Separates.mid d a b ca cb ha hb hua hub hab⟩
    have hone : ((adaptiveFaces M.shape M.cells).filter fun f => decide (f.1.1 = d ∧ (∃ ca, (f.1.2.1, ca) ∈ M.cells ∧ InCube ca (below u d)) ∧
        ∃ cb, (f.1.2.2, cb) ∈ M.cells ∧ InCube cb u)) = [((d, a, b), sq)] := by
      refine (List.Perm.eq_singleton ((List.perm_ext_iff_of_nodup (hnd.filter _) (List.nodup_singleton _)).2 fun f => ?_))
      rw [List.mem_filter, decide_eq_true_eq, List.mem_singleton]
      constructor
      · rintro ⟨hm, e1, ⟨ca', ha', hua'⟩, cb', hb', hub'⟩
        have e2 : f.1.2.1 = a := congrArg Prod.fst (hE.disjoint.2 _ _ ha' _ ha hua' hua)
        have e3 : f.1.2.2 = b := congrArg Prod.fst (hE.disjoint.2 _ _ hb' _ hb hub' hub)
        have key : f.1 = (d, a, b) := by
          rw [← e1, ← e2, ← e3]
        by_contra hne
        have hnd' : ((adaptiveFaces M.shape M.cells).map Prod.fst).Nodup :=
          List.pairwise_map.2 (C27_faces_exact M.shape M.cells hE.disjoint hE.sorted hE.inside).2
        exact hne (List.inj_on_of_nodup_map hnd' hm hf key)
      · rintro rfl
        exact ⟨hf, rfl, ⟨ca, ha, hua⟩, cb, hb, hub⟩
    rw [hone]; simp
  · intro hno
    rw [List.filter_eq_nil_iff.2]
    · simp
    · intro f _ hd
      rw [decide_eq_true_eq] at hd
      obtain ⟨-, ⟨ca, ha, hua⟩, cb, hb, hub⟩ := hd
      exact hno ⟨⟨_, hb, hub⟩, _, ha, hua⟩

/-! ### the cut faces -/

section
variable {M} {faces : List (ℤ × List (List ℤ))} {P nrm : ℤ → Vec3} {o : Vec3}

theorem FacesOf.vertex (h : FacesOf M faces P nrm o) {k : ℕ} {g : CutFace3} (hg : M.faces[k]? = some g) (v : ℤ) :
    IsVertex faces k v ↔ v ∈ g.loops.flatten := by
  have hk : k < faces.length := by rw [← h.len]; exact (List.getElem?_eq_some_iff.1 hg).1
  have hf : faces[k]? = some faces[k] := List.getElem?_eq_getElem hk
  have hn := h.num k _ hf
  have hl := h.loops k _ g hf hg
  have hmem : ((k : ℤ), g.loops) ∈ faces := by
    rw [hl, ← hn]; exact List.getElem_mem hk
  constructor
  · rintro ⟨loops, C, h1, h2, h3⟩
    have : loops = g.loops := by
      have := List.inj_on_of_nodup_map h.clean.nodup h1 hmem rfl
      exact congrArg Prod.snd this
    subst this
    exact List.mem_flatten.2 ⟨C, h2, h3⟩
  · intro hv
    obtain ⟨C, h2, h3⟩ := List.mem_flatten.1 hv
    exact ⟨g.loops, C, hmem, h2, h3⟩

theorem FacesOf.two_planes (h : FacesOf M faces P nrm o) {f : ℤ} (hf : f ∈ faces.map Prod.fst) {i j : Fin 3} (hij : i ≠ j) {a b : ℚ}
    (h1 : InPlane faces P f i a) (h2 : InPlane faces P f j b) : False := by
  refine (h.ok f hf).nz ?_
  funext m
  by_cases hm : m = i
  · subst hm
    exact (h.ok f hf).grid j b h2 m hij
  · exact (h.ok f hf).grid i a h1 m hm

theorem FacesOf.num_mem (h : FacesOf M faces P nrm o) {k : ℕ} {g : CutFace3} (hg : M.faces[k]? = some g) : (k : ℤ) ∈ faces.map Prod.fst := by
  have hk : k < faces.length := by rw [← h.len]; exact (List.getElem?_eq_some_iff.1 hg).1
  rw [← h.num k _ (List.getElem?_eq_getElem hk)]
  exact List.mem_map.2 ⟨_, List.getElem_mem hk, rfl⟩

theorem FacesOf.inPlane_iff (h : FacesOf M faces P nrm o) {k : ℕ} {g : CutFace3} (hg : M.faces[k]? = some g) (i : Fin 3) (n : ℤ) :
    g.mask i = some n ↔ InPlane faces P k i n := by
  rw [h.mask g (List.mem_of_getElem? hg)]
  unfold InPlane
  simp only [h.vertex hg, h.pos]

/-- a cut face is put in the column of the grid face containing it. -/
theorem FacesOf.column (h : FacesOf M faces P nrm o) {k : ℕ} {g : CutFace3} (hg : M.faces[k]? = some g) (d : Fin 3) (u : Coord 3) :
    InColumn M.V true d u g = true ↔ FaceIn faces P u k ∧ InPlane faces P k d (u d) := by
  have hk := h.num_mem hg
  obtain ⟨v0, hv0⟩ := exists_vertex h.clean hk
  have hv0' := (h.vertex hg v0).1 hv0
  have hne : g.loops.flatten ≠ [] := List.ne_nil_of_mem hv0'
  unfold InColumn
  rw [if_pos rfl, Bool.and_eq_true, Bool.and_eq_true, decide_eq_true_eq, decide_eq_true_eq, decide_eq_true_eq]
  constructor
  · rintro ⟨⟨h1, h2⟩, h3⟩
    obtain ⟨n, hn⟩ : ∃ n, g.mask d = some n := by
      unfold Mask.boundAxis at h2
      exact (isBound_iff _ _).1 (List.find?_some h2)
    have hpl := (h.inPlane_iff hg d n).1 hn
    obtain ⟨c', e1, e2⟩ : ∃ c' : Coord 3, minCorner M.V g.loops.flatten = some c' ∧
        ∀ j, (∀ i ∈ g.loops.flatten, c' j ≤ (M.V i).coord j) ∧ ∃ i ∈ g.loops.flatten, c' j = (M.V i).coord j := by
      match hh : g.loops.flatten, hne with
      | i :: l, _ => exact minCorner_cons M.V i l
    rw [h3, Option.some.injEq] at e1
    subst e1
    have hd : u d = n := by
      obtain ⟨-, i, hi, e⟩ := e2 d
      rw [e, Vertex.normalised_coord _ (h.norm i), ← h.pos, hpl i ((h.vertex hg i).2 hi)]; simp
    refine ⟨?_, by rw [hd]; exact hpl⟩
    obtain ⟨c, hc, -⟩ := (h.ok k hk).home
    intro v hv j
    have hv' := (h.vertex hg v).1 hv
    obtain ⟨a1, i, hi, a2⟩ := e2 j
    have b1 : (u j : ℚ) ≤ P v j := by
      have := a1 v hv'
      rw [Vertex.normalised_coord _ (h.norm v), ← h.pos] at this
      exact Int.le_floor.1 this
    refine ⟨b1, ?_⟩
    by_cases hj : j = d
    · subst hj
      rw [hpl v hv, ← hd]
      linarith
    · have hci := hc i ((h.vertex hg i).2 hi) j
      have hcv := hc v hv j
      rw [Vertex.normalised_coord _ (h.norm i), ← h.pos] at a2
      have : c j ≤ u j := by rw [a2]; exact Int.le_floor.2 hci.1
      have : (c j : ℚ) ≤ u j := by exact_mod_cast this
      linarith [hcv.2]
  · rintro ⟨h1, h2⟩
    have hm : g.mask d = some (u d) := (h.inPlane_iff hg d (u d)).2 h2
    have hother : ∀ j, j ≠ d → ∀ n, g.mask j ≠ some n := by
      intro j hj n hn
      exact h.two_planes hk hj ((h.inPlane_iff hg j n).1 hn) h2
    have hcount : g.mask.count = 1 := by
      rw [(C75_count g.mask).1]
      have : boundAxes g.mask = {d} := by
        ext j
        rw [mem_boundAxes, Finset.mem_singleton]
        constructor
        · rintro ⟨n, hn⟩
          by_contra hj
          exact hother j hj n hn
        · rintro rfl; exact ⟨_, hm⟩
      rw [this]; rfl
    refine ⟨⟨hcount, ?_⟩, ?_⟩
    · unfold Mask.boundAxis
      cases hf : (List.finRange 3).find? fun i => g.mask.isBound i with
      | none =>
        rw [List.find?_eq_none] at hf
        exact absurd ((isBound_iff g.mask d).2 ⟨_, hm⟩) (hf d (List.mem_finRange d))
      | some j =>
        obtain ⟨n, hn⟩ := (isBound_iff _ _).1 (List.find?_some hf)
        by_cases hj : j = d
        · rw [hj]
        · exact absurd hn (hother j hj n)
    · refine C50_face3_corner M.V g.loops.flatten (fun i _ => h.norm i) u d (fun i hi => ?_) hne (fun i hi j _ => ?_) fun j hj => ?_
      · rw [← h.pos]; exact h2 i ((h.vertex hg i).2 hi)
      · rw [← h.pos]; exact h1 i ((h.vertex hg i).2 hi) j
      · by_contra hc
        push Not at hc
        refine h.two_planes (b := u d) hk hj (a := u j + 1) (fun v hv => ?_) h2
        have := hc v ((h.vertex hg v).1 hv)
        rw [← h.pos] at this
        exact le_antisymm (h1 v hv j).2 this

theorem axis12_ne (i : Fin 3) : i + 1 ≠ i + 2 := by revert i; decide

theorem FacesOf.value (h : FacesOf M faces P nrm o) {k : ℕ} {g : CutFace3} (hg : M.faces[k]? = some g) {d : Fin 3} {n : ℚ}
    (hpl : InPlane faces P k d n) :
    M.FV k * g.normal d = gridFaceArea M.dx d * (|areaVec P (edgesOf faces k) d| / 2 * if nrm k d < 0 then -1 else 1) := by
  have hk := h.num_mem hg
  have hkl : k < faces.length := by rw [← h.len]; exact (List.getElem?_eq_some_iff.1 hg).1
  obtain ⟨hu, s, hs, hn⟩ := h.normal k g hg
  have hz : ∀ j, j ≠ d → nrm k j = 0 := fun j hj => (h.ok k hk).grid d n hpl j hj
  have hgz : ∀ j, j ≠ d → g.normal j = 0 := by
    intro j hj; rw [hn, Pi.smul_apply, hz j hj, smul_zero]
  have hnd : g.normal d * g.normal d = 1 := by
    rw [vdot_at _ _ d, hgz _ (axis1_ne d), hgz _ (axis2_ne d)] at hu
    linarith
  have hnd' : g.normal d = s * nrm k d := by rw [hn]; rfl
  have hsgn : g.normal d = if nrm k d < 0 then -1 else 1 := by
    have : (g.normal d - 1) * (g.normal d + 1) = 0 := by linarith
    split
    · rename_i hneg
      have : g.normal d < 0 := by rw [hnd']; exact mul_neg_of_pos_of_neg hs hneg
      rcases mul_eq_zero.1 ‹(g.normal d - 1) * (g.normal d + 1) = 0› with e | e <;> linarith
    · rename_i hneg
      have : 0 ≤ g.normal d := by rw [hnd']; exact mul_nonneg hs.le (not_lt.1 hneg)
      rcases mul_eq_zero.1 ‹(g.normal d - 1) * (g.normal d + 1) = 0› with e | e <;> linarith
  have hf : faces[k]? = some faces[k] := List.getElem?_eq_getElem hkl
  have hmem : ((k : ℤ), (faces[k]).2) ∈ faces := by
    rw [← h.num k _ hf]; exact List.getElem_mem hkl
  have hworld : ∀ j, areaVec (worldPos o M.dx P) (edgesOf faces k) j = M.dx (j + 1) * M.dx (j + 2) * areaVec P (edgesOf faces k) j := by
    intro j
    rw [edgesOf_eq h.clean hmem]
    generalize (faces[k]).2 = L
    induction L with
    | nil => simp [areaVec]
    | cons C L ih =>
      rw [List.flatMap_cons, areaVec_append, areaVec_append, Pi.add_apply, Pi.add_apply, ih, areaVec_world]; ring
  obtain ⟨a1, a2⟩ := h.area k hkl
  have hA : gridFaceArea M.dx d = M.dx (d + 1) * M.dx (d + 2) :=
    C50_grid_face_area M.dx d (d + 1) (d + 2) (axis1_ne d) (axis2_ne d) (axis12_ne d)
  have hpos : 0 < gridFaceArea M.dx d := by rw [hA]; exact mul_pos (h.spacing _) (h.spacing _)
  have hFV : M.FV k = gridFaceArea M.dx d * (|areaVec P (edgesOf faces k) d| / 2) := by
    have e0 : ∀ j, j ≠ d → areaVec (worldPos o M.dx P) (edgesOf faces k) j = 0 := by
      intro j hj
      rw [hworld, areaVec_plane hpl hj, mul_zero]
    have e1 : areaVec (worldPos o M.dx P) (edgesOf faces k) d = gridFaceArea M.dx d * areaVec P (edgesOf faces k) d := by rw [hworld, hA]
    have e2 : M.FV k * M.FV k = (gridFaceArea M.dx d * areaVec P (edgesOf faces k) d / 2) ^ 2 := by
      rw [a2]
      rw [← e1]
      show areaVec (worldPos o M.dx P) (edgesOf faces k) 0 / 2 * (areaVec (worldPos o M.dx P) (edgesOf faces k) 0 / 2) +
        areaVec (worldPos o M.dx P) (edgesOf faces k) 1 / 2 * (areaVec (worldPos o M.dx P) (edgesOf faces k) 1 / 2) +
        areaVec (worldPos o M.dx P) (edgesOf faces k) 2 / 2 * (areaVec (worldPos o M.dx P) (edgesOf faces k) 2 / 2) = _
      have : ∀ i : Fin 3, i = 0 ∨ i = 1 ∨ i = 2 := by decide
      rcases this d with rfl | rfl | rfl
      · rw [e0 1 (by decide), e0 2 (by decide)]; ring
      · rw [e0 0 (by decide), e0 2 (by decide)]; ring
      · rw [e0 0 (by decide), e0 1 (by decide)]; ring
    have e3 : M.FV k = |gridFaceArea M.dx d * areaVec P (edgesOf faces k) d / 2| := by
      rw [← abs_of_nonneg a1]
      exact abs_eq_abs.2 (sq_eq_sq_iff_eq_or_eq_neg.1 (by rw [← e2]; ring))
    rw [e3, abs_div, abs_mul, abs_of_pos hpos, abs_of_pos (by norm_num : (0:ℚ) < 2)]; ring
  rw [hFV, hsgn]; ring

theorem FacesOf.ok_columns (h : FacesOf M faces P nrm o) (hin : ∀ v, ∀ f, IsVertex faces f v → ∀ i, 0 ≤ P v i ∧ P v i ≤ M.shape i) :
    ∀ f ∈ M.faces, ∀ a c, InColumn M.V true a c f = true → GridFacet M.shape a c := by
  intro g hg a c hc
  obtain ⟨k, hk⟩ := List.mem_iff_getElem?.1 hg
  obtain ⟨h1, h2⟩ := (h.column hk a c).1 hc
  have hkm := h.num_mem hk
  obtain ⟨v0, hv0⟩ := exists_vertex h.clean hkm
  refine ⟨?_, fun j hj => ?_⟩
  · have := hin v0 k hv0 a
    rw [h2 v0 hv0] at this
    exact ⟨by exact_mod_cast this.1, by exact_mod_cast this.2⟩
  · constructor
    · by_contra hc'
      refine h.two_planes hkm (a := 0) (b := c a) hj (fun v hv => ?_) h2
      have e1 := (h1 v hv j).2
      have e2 := (hin v k hv j).1
      have : (c j : ℚ) + 1 ≤ 0 := by exact_mod_cast (by omega : c j + 1 ≤ 0)
      linarith
    · by_contra hc'
      refine h.two_planes hkm (a := M.shape j) (b := c a) hj (fun v hv => ?_) h2
      have e1 := (h1 v hv j).1
      have e2 := (hin v k hv j).2
      have : (M.shape j : ℚ) ≤ c j := by exact_mod_cast (by omega : M.shape j ≤ c j)
      linarith

/-- **C116.** The weight the cut faces give to a grid face is the area of the cut faces in it, counted negatively if the
normal of the face points against the axis. -/
theorem C116_cut_columns (h : FacesOf M faces P nrm o) (hF : FacetIndex M.shape M.stag M.formSize)
    (hin : ∀ v, ∀ f, IsVertex faces f v → ∀ i, 0 ≤ P v i ∧ P v i ≤ M.shape i) (d : Fin 3) (u : Coord 3) (hu : GridFacet M.shape d u) :
    colSum (faceGridVolume3 M.stag M.dx M.V true M.FV M.faces) (M.stag d u) = wallArea faces P u d (u d) - 2 * againstArea faces P nrm u d := by
  classical
  have hA : gridFaceArea M.dx d = M.dx (d + 1) * M.dx (d + 2) :=
    C50_grid_face_area M.dx d (d + 1) (d + 2) (axis1_ne d) (axis2_ne d) (axis12_ne d)
  have hpos : 0 < gridFaceArea M.dx d := by rw [hA]; exact mul_pos (h.spacing _) (h.spacing _)
  rw [C50_face3_columns (GridFacet M.shape) M.stag hF.inj M.dx M.V true M.FV M.faces (h.ok_columns hin) d u hu, div_eq_iff hpos.ne']
  have e1 : ((M.faces.zipIdx.filter fun f => InColumn M.V true d u f.1).map fun f => M.FV f.2 * f.1.normal d).sum =
      (M.faces.zipIdx.map fun f => if InColumn M.V true d u f.1 = true then M.FV f.2 * f.1.normal d else 0).sum := by
    rw [← Planar.filter_ite_sum]
    congr 2
    exact List.filter_congr fun f _ => by simp
  have e2 : (M.faces.zipIdx.map fun f => if InColumn M.V true d u f.1 = true then M.FV f.2 * f.1.normal d else 0) =
      (faces.map Prod.fst).map fun f => gridFaceArea M.dx d * ((if FaceIn faces P u f ∧ InPlane faces P f d (u d) then |areaVec P (edgesOf faces f) d| / 2 else 0) +
        -2 * if (FaceIn faces P u f ∧ InPlane faces P f d (u d)) ∧ nrm f d < 0 then |areaVec P (edgesOf faces f) d| / 2 else 0) := by
    refine List.ext_getElem? fun k => ?_
    rw [List.getElem?_map, List.getElem?_zipIdx, List.getElem?_map, List.getElem?_map]
    cases hg : M.faces[k]? with
    | none =>
      have : faces.length ≤ k := by rw [← h.len]; exact List.getElem?_eq_none_iff.1 hg
      rw [List.getElem?_eq_none_iff.2 this]; rfl
    | some g =>
      have hk : k < faces.length := by rw [← h.len]; exact (List.getElem?_eq_some_iff.1 hg).1
      have hf : faces[k]? = some faces[k] := List.getElem?_eq_getElem hk
      rw [hf]
      simp only [Option.map_some, h.num k _ hf, zero_add, Option.some.injEq]
      by_cases hc : InColumn M.V true d u g = true
      · have hc' := (h.column hg d u).1 hc
        rw [if_pos hc, if_pos hc', h.value hg hc'.2]
        by_cases hn : nrm k d < 0
        · rw [if_pos hn, if_pos ⟨hc', hn⟩]; ring
        · rw [if_neg hn, if_neg fun x => hn x.2]; ring
      · have hc' := fun x => hc ((h.column hg d u).2 x)
        rw [if_neg hc, if_neg hc', if_neg fun x => hc' x.1]; ring
  rw [e1, e2, Planar.map_neg_sum, Planar.map_add_sum, Planar.map_neg_sum]
  unfold wallArea againstArea
  ring

/-- **C116.** If the cut faces fill a grid face (C112) that is not between two exterior cells of width one, the weights of the
grid face add up to one minus twice the area of the cut faces there that face against the axis. -/
theorem C116_wall_column (h : FacesOf M faces P nrm o) (hF : FacetIndex M.shape M.stag M.formSize)
    (hE : ExteriorOk M.shape M.cells) (h1 : UnitCells M.cells)
    (hin : ∀ v, ∀ f, IsVertex faces f v → ∀ i, 0 ≤ P v i ∧ P v i ≤ M.shape i) (d : Fin 3) (u : Coord 3) (hu : GridFacet M.shape d u)
    (hcut : ¬ ((∃ e ∈ M.cells, InCube e.2 u) ∧ (∃ e ∈ M.cells, InCube e.2 (below u d)))) (hfull : wallArea faces P u d (u d) = 1) :
    colSum M.gridTriplets (M.stag d u) = 1 - 2 * againstArea faces P nrm u d := by
  unfold UMesh.gridTriplets
  rw [colSum_append, (C116_exterior_columns M hE hF h1 _ d u hu).2 hcut, C116_cut_columns h hF hin d u hu, hfull, zero_add]

/-- **C116, defect.** Pieces of the input surface in a grid plane that face against the axis are counted negatively: a mesh with
such pieces of total area above 5·10⁻⁶ in a grid face filled by cut faces is rejected. -/
theorem C116_against_refuted (h : FacesOf M faces P nrm o) (hF : FacetIndex M.shape M.stag M.formSize)
    (hE : ExteriorOk M.shape M.cells) (h1 : UnitCells M.cells)
    (hin : ∀ v, ∀ f, IsVertex faces f v → ∀ i, 0 ≤ P v i ∧ P v i ≤ M.shape i) (d : Fin 3) (u : Coord 3) (hu : GridFacet M.shape d u)
    (hcut : ¬ ((∃ e ∈ M.cells, InCube e.2 u) ∧ (∃ e ∈ M.cells, InCube e.2 (below u d)))) (hfull : wallArea faces P u d (u d) = 1)
    (hag : 5 / 1000000 < againstArea faces P nrm u d) : M.facesFullyUtilized ≠ some true := by
  intro hv
  have := ((C116_accepts M hF).2.1 hv).2.2.2 d u hu
  rw [C116_wall_column h hF hE h1 hin d u hu hcut hfull, abs_le] at this
  linarith [this.1]

/-- **C116.** A mesh is accepted if its pieces of the surface are those of the triangles (`C116_surface`), its exterior cells
have width one, every grid face either is between two exterior cells and contains no cut face, or is not and is filled by cut
faces (C112), and no cut face in a grid plane faces against the axis. -/
theorem C116_accepted (h : FacesOf M faces P nrm o) (hF : FacetIndex M.shape M.stag M.formSize)
    (hE : ExteriorOk M.shape M.cells) (h1 : UnitCells M.cells)
    (hin : ∀ v, ∀ f, IsVertex faces f v → ∀ i, 0 ≤ P v i ∧ P v i ≤ M.shape i)
    (hne : M.pieces ≠ []) (hpos : ∀ p ∈ M.pieces, 0 ≤ baryVolume p.barys)
    (hsum : ∀ t : ℕ, t < M.numTri → ((M.pieces.filter fun p => p.parent = t).map fun p => 2 * baryVolume p.barys).sum = 1)
    (hfacet : ∀ d u, GridFacet M.shape d u →
      (((∃ e ∈ M.cells, InCube e.2 u) ∧ (∃ e ∈ M.cells, InCube e.2 (below u d))) ∧
        ∀ f ∈ faces.map Prod.fst, ¬ (FaceIn faces P u f ∧ InPlane faces P f d (u d))) ∨
      (¬ ((∃ e ∈ M.cells, InCube e.2 u) ∧ (∃ e ∈ M.cells, InCube e.2 (below u d))) ∧ wallArea faces P u d (u d) = 1))
    (halong : ∀ f ∈ faces.map Prod.fst, ∀ d (n : ℤ), InPlane faces P f d n → 0 ≤ nrm f d) :
    M.facesFullyUtilized = some true := by
  classical
  rw [(C116_accepts M hF).2]
  refine ⟨hne, hpos, fun t ht => ?_, fun d u hu => ?_⟩
  · rw [hsum t ((triCol_iff M t).1 ht)]; norm_num
  · rcases hfacet d u hu with ⟨hx, hno⟩ | ⟨hx, hw⟩
    · have hw0 : wallArea faces P u d (u d) = 0 := by
        unfold wallArea
        refine List.sum_eq_zero fun x hx => ?_
        obtain ⟨f, hf, rfl⟩ := List.mem_map.1 hx
        rw [if_neg (hno f hf)]
      have ha0 : againstArea faces P nrm u d = 0 := by
        unfold againstArea
        refine List.sum_eq_zero fun x hx => ?_
        obtain ⟨f, hf, rfl⟩ := List.mem_map.1 hx
        rw [if_neg fun y => hno f hf y.1]
      unfold UMesh.gridTriplets
      rw [colSum_append, (C116_exterior_columns M hE hF h1 _ d u hu).1 hx, C116_cut_columns h hF hin d u hu, hw0, ha0]
      norm_num
    · have ha0 : againstArea faces P nrm u d = 0 := by
        unfold againstArea
        refine List.sum_eq_zero fun x hx => ?_
        obtain ⟨f, hf, rfl⟩ := List.mem_map.1 hx
        rw [if_neg]
        rintro ⟨⟨-, hp⟩, hn⟩
        exact absurd (halong f hf d (u d) hp) (not_le.2 hn)
      rw [C116_wall_column h hF hE h1 hin d u hu hx hw, ha0]
      norm_num

end

end FacesUtilized
end Mandoline
