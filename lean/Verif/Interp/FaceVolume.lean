import Verif.Core.Vec3
import Mathlib.Algebra.BigOperators.Group.List.Basic
import Mathlib.Algebra.BigOperators.Ring.List
import Mathlib.Algebra.Order.BigOperators.Group.List
import Mathlib.Data.List.Rotate
import Mathlib.Algebra.Order.Ring.Abs
import Mathlib.Tactic.LinearCombination
import Mathlib.Tactic.Positivity

/-!
# C93: areas of the faces of a 3D mesh

`BarycentricTriangleFace::volume` (src/barycentric_triangle_face.cpp:21-23), `face_barycentric_volume_matrix`
(src/operators/interpolation3.cpp), `face_volumes` (src/operators/volume3.cpp:28-70), `compute_subVs` (src/mesh3.cpp:407-420).
`curve_volume` of the geometry library is the signed area of a polygon; `volumes(V, F)` are the areas of the triangles
(a parameter, because they are square roots).
-/
namespace Mandoline
namespace FaceVolume

/-- consecutive pairs of a closed polygon. -/
def sides {α : Type*} (l : List α) : List (α × α) := l.zip (l.rotate 1)

/-- `curve_volume` of the geometry library: the signed area of a polygon with coordinates `x`, `y`. -/
def curveVolume {α : Type*} (x y : α → ℚ) (l : List α) : ℚ :=
  ((sides l).map fun e => x e.1 * y e.2 - x e.2 * y e.1).sum / 2

/-- `BarycentricTriangleFace::volume()` (barycentric_triangle_face.cpp:21-23): of the first two rows. -/
def baryVolume (barys : List (Fin 3 → ℚ)) : ℚ := curveVolume (fun b => b 0) (fun b => b 1) barys

/-- a cut face: the axis of its grid plane unless it is a piece of the input surface, and its loops. -/
structure CFace where
  axis : Option (Fin 3)
  loops : List (List ℤ)

/-- an entry of `mesh_cut_faces()`: face number, parent triangle, barycentric coordinates. -/
structure Piece where
  fid : ℕ
  parent : ℕ
  barys : List (Fin 3 → ℚ)

/-- what `face_volumes` reads of the mesh: `V` are the vertices in world coordinates, `tri` the areas of the input
triangles, `ext` the areas of the faces of the exterior grid. -/
structure FMesh where
  faces : List CFace
  pieces : List Piece
  V : ℤ → Vec3
  tri : List ℚ
  ext : List ℚ

variable (M : FMesh)

/-- entry `i` of `face_barycentric_volume_matrix(ccm) * trimesh_vols` (interpolation3.cpp, volume3.cpp:46). -/
def FMesh.baryEntry (i : ℕ) : ℚ :=
  (M.pieces.map fun p => if p.fid = i then baryVolume p.barys * 2 * (M.tri[p.parent]?).getD 0 else 0).sum

/-- the areas of the cut faces before the sign is removed (volume3.cpp:46-60). `subVs[dim]` has the rows `dim + 1` and
`dim + 2` of the vertices (mesh3.cpp:407-420). -/
def FMesh.rawEntry (f : CFace) (i : ℕ) : ℚ :=
  match f.axis with
  | some dim => (f.loops.map fun l => curveVolume (fun v => M.V v (dim + 1)) (fun v => M.V v (dim + 2)) l).sum
  | none => M.baryEntry i

/-- `FV` before the last test (volume3.cpp:42-64). -/
def FMesh.raw : List ℚ :=
  if M.tri ≠ [] then (M.faces.zipIdx.map fun fi => M.rawEntry fi.1 fi.2) ++ M.ext else M.ext

/-- `face_volumes(ccm)` (volume3.cpp:28-70); `minCoeff` of an empty vector is undefined. -/
def FMesh.faceVolumes : Option (List ℚ) :=
  if M.raw = [] then none
  else if M.raw.any fun x => decide (x < 0) then some (M.raw.map fun x => |x|) else some M.raw

/-! ## specification -/

/-- the vector area of a closed polygon in space: normal to a plane polygon, its length is the area. -/
def vecArea (pts : List Vec3) (d : Fin 3) : ℚ := ((sides pts).map fun e => vcross e.1 e.2 d).sum / 2

/-- the vector area of a triangle. -/
def triArea (T : Fin 3 → Vec3) (d : Fin 3) : ℚ := vcross (fun i => T 1 i - T 0 i) (fun i => T 2 i - T 0 i) d / 2

/-- the point with barycentric coordinates `b`. -/
def point (T : Fin 3 → Vec3) (b : Fin 3 → ℚ) : Vec3 := fun i => b 0 * T 0 i + b 1 * T 1 i + b 2 * T 2 i

/-- `a` is the length of the vector `A`. -/
def IsNorm (a : ℚ) (A : Fin 3 → ℚ) : Prop := 0 ≤ a ∧ a * a = A 0 * A 0 + A 1 * A 1 + A 2 * A 2

/-! ## polygons -/

theorem sides_telescope {α : Type*} (g : α → ℚ) (l : List α) : ((sides l).map fun e => g e.2 - g e.1).sum = 0 := by
  have h1 : (sides l).map Prod.fst = l := by
    unfold sides
    rw [List.map_fst_zip]; simp
  have h2 : (sides l).map Prod.snd = l.rotate 1 := by
    unfold sides
    rw [List.map_snd_zip]; simp
  have hs : ((sides l).map fun e => g e.2 - g e.1).sum = (((sides l).map Prod.snd).map g).sum - (((sides l).map Prod.fst).map g).sum := by
    rw [List.map_map, List.map_map]
    generalize sides l = s
    induction s with
    | nil => simp
    | cons a s ih => simp only [List.map_cons, List.sum_cons, ih, Function.comp]; ring
  rw [hs, h1, h2]
  have : ((l.rotate 1).map g).Perm (l.map g) := (List.rotate_perm l 1).map g
  rw [this.sum_eq, sub_self]

theorem sides_map {α β : Type*} (f : α → β) (l : List α) : sides (l.map f) = (sides l).map fun e => (f e.1, f e.2) := by
  unfold sides
  rw [← List.map_rotate, List.zip_map]
  rfl

theorem sum_add {α : Type*} (l : List α) (f g : α → ℚ) : (l.map fun e => f e + g e).sum = (l.map f).sum + (l.map g).sum := by
  induction l with
  | nil => simp
  | cons a l ih => simp only [List.map_cons, List.sum_cons, ih]; ring

/-- **C93.** The vector area of a polygon on a triangle, given by barycentric coordinates that sum to one, is the vector
area of the triangle times twice the polygon's area in the plane of the first two coordinates. -/
theorem C93_piece_area (T : Fin 3 → Vec3) (barys : List (Fin 3 → ℚ)) (hb : ∀ b ∈ barys, b 0 + b 1 + b 2 = 1) (d : Fin 3) :
    vecArea (barys.map (point T)) d = baryVolume barys * 2 * triArea T d := by
  unfold vecArea baryVolume curveVolume
  rw [sides_map, List.map_map]
  have hmem : ∀ e ∈ sides barys, e.1 ∈ barys ∧ e.2 ∈ barys := by
    intro e he
    unfold sides at he
    have := List.of_mem_zip (a := e.1) (b := e.2) (by simpa using he)
    exact ⟨this.1, by simpa using this.2⟩
  have key : ∀ e ∈ sides barys, ((fun e : Vec3 × Vec3 => vcross e.1 e.2 d) ∘ fun e : (Fin 3 → ℚ) × (Fin 3 → ℚ) => (point T e.1, point T e.2)) e =
      2 * triArea T d * (e.1 0 * e.2 1 - e.2 0 * e.1 1) +
      ((vcross (T 2) (fun i => T 0 i - T 2 i) d * e.2 0 + vcross (T 2) (fun i => T 1 i - T 2 i) d * e.2 1) -
       (vcross (T 2) (fun i => T 0 i - T 2 i) d * e.1 0 + vcross (T 2) (fun i => T 1 i - T 2 i) d * e.1 1)) := by
    intro e he
    obtain ⟨m1, m2⟩ := hmem e he
    have e1 : e.1 2 = 1 - e.1 0 - e.1 1 := by have := hb _ m1; linarith
    have e2 : e.2 2 = 1 - e.2 0 - e.2 1 := by have := hb _ m2; linarith
    have hp : ∀ b : Fin 3 → ℚ, ∀ i, point T b i = b 0 * T 0 i + b 1 * T 1 i + b 2 * T 2 i := fun _ _ => rfl
    simp only [Function.comp, triArea]
    fin_cases d <;> simp [vcross, hp, e1, e2] <;> ring
  rw [List.map_congr_left key, sum_add,
    sides_telescope (fun b : Fin 3 → ℚ => vcross (T 2) (fun i => T 0 i - T 2 i) d * b 0 + vcross (T 2) (fun i => T 1 i - T 2 i) d * b 1),
    add_zero, List.sum_map_mul_left]
  ring

/-! ## the operator -/

/-- **C93.** The last step of `face_volumes` removes the sign of every entry. There is one entry for each cut face and
then the faces of the exterior grid follow, unless there are no input triangles. -/
theorem C93_entries (h : M.tri ≠ []) (hne : M.faces ≠ [] ∨ M.ext ≠ []) :
    ∃ FV, M.faceVolumes = some FV ∧ FV.length = M.faces.length + M.ext.length ∧
      (∀ (i : ℕ) (f : CFace), M.faces[i]? = some f → FV[i]? = some |M.rawEntry f i|) ∧
      (∀ (k : ℕ) (a : ℚ), M.ext[k]? = some a → FV[M.faces.length + k]? = some |a|) ∧ ∀ a ∈ FV, 0 ≤ a := by
  have hraw : M.raw = (M.faces.zipIdx.map fun fi => M.rawEntry fi.1 fi.2) ++ M.ext := if_pos h
  have hnil : M.raw ≠ [] := by
    rw [hraw]
    rcases hne with h | h
    · intro e
      apply h
      have := congrArg List.length e
      simp at this
      exact this.1
    · simp [h]
  have hFV : M.faceVolumes = some (M.raw.map fun x => |x|) := by
    unfold FMesh.faceVolumes
    rw [if_neg hnil]
    split_ifs with hneg
    · rfl
    · congr 1
      conv_lhs => rw [← List.map_id M.raw]
      apply List.map_congr_left
      intro x hx
      simp only [Bool.not_eq_true, List.any_eq_false, decide_eq_true_eq, not_lt] at hneg
      exact (abs_of_nonneg (hneg x hx)).symm
  refine ⟨_, hFV, by rw [hraw]; simp, ?_, ?_, ?_⟩
  · intro i f hf
    have hi : i < M.faces.length := (List.getElem?_eq_some_iff.1 hf).1
    rw [hraw, List.getElem?_map, List.getElem?_append_left (by simpa using hi)]
    simp [List.getElem?_zipIdx, hf]
  · intro k a ha
    rw [hraw, List.getElem?_map, List.getElem?_append_right (by simp)]
    simp [ha]
  · intro a ha
    obtain ⟨x, _, rfl⟩ := List.mem_map.1 ha
    exact abs_nonneg x

theorem sum_single (g : Piece → ℚ) (p : Piece) (l : List Piece) (hp : p ∈ l) (hnd : (l.map Piece.fid).Nodup) :
    (l.map fun q => if q.fid = p.fid then g q else 0).sum = g p := by
  induction l with
  | nil => simp at hp
  | cons q l ih =>
    rw [List.map_cons, List.nodup_cons] at hnd
    rw [List.map_cons, List.sum_cons]
    rcases List.mem_cons.1 hp with rfl | hp
    · rw [if_pos rfl]
      have : (l.map fun q => if q.fid = p.fid then g q else 0).sum = 0 := by
        apply List.sum_eq_zero
        intro x hx
        obtain ⟨q, hq, rfl⟩ := List.mem_map.1 hx
        rw [if_neg]
        intro e
        exact hnd.1 (List.mem_map.2 ⟨q, hq, e⟩)
      rw [this, add_zero]
    · rw [ih hp hnd.2, if_neg, zero_add]
      intro e
      exact hnd.1 (List.mem_map.2 ⟨p, hp, e.symm⟩)

/-- **C93.** `face_volumes` of a piece of the input surface is its area: the length of the vector area of the polygon
the piece is, if its corners have barycentric coordinates summing to one on its parent triangle, whose area is the
corresponding entry of the library's list. -/
theorem C93_mesh_face (hne : M.faces ≠ []) (i : ℕ) (f : CFace) (hf : M.faces[i]? = some f) (hax : f.axis = none)
    (hnd : (M.pieces.map Piece.fid).Nodup) (p : Piece) (hp : p ∈ M.pieces) (hpi : p.fid = i) (T : Fin 3 → Vec3) (a : ℚ)
    (ha : M.tri[p.parent]? = some a) (haT : IsNorm a (triArea T)) (hb : ∀ b ∈ p.barys, b 0 + b 1 + b 2 = 1) :
    ∃ FV A, M.faceVolumes = some FV ∧ FV[i]? = some A ∧ IsNorm A (vecArea (p.barys.map (point T))) := by
  have htri : M.tri ≠ [] := by
    intro e; rw [e] at ha; simp at ha
  obtain ⟨FV, h1, _, h2, _⟩ := C93_entries M htri (Or.inl hne)
  refine ⟨FV, _, h1, h2 i f hf, abs_nonneg _, ?_⟩
  have hr : M.rawEntry f i = baryVolume p.barys * 2 * a := by
    unfold FMesh.rawEntry FMesh.baryEntry
    rw [hax]
    simp only
    subst hpi
    rw [sum_single (fun q => baryVolume q.barys * 2 * (M.tri[q.parent]?).getD 0) p M.pieces hp hnd, ha]
    rfl
  rw [hr, abs_mul_abs_self, C93_piece_area T _ hb, C93_piece_area T _ hb, C93_piece_area T _ hb]
  linear_combination (baryVolume p.barys * 2) ^ 2 * haT.2

/-- **C93.** If the areas, in barycentric coordinates, of the pieces of an input triangle add up to that of the whole
triangle (one half), and all are counted positively, the areas of the pieces add up to the area of the triangle. -/
theorem C93_pieces_add_up (hne : M.faces ≠ []) (hnd : (M.pieces.map Piece.fid).Nodup) (t : ℕ) (a : ℚ) (ha : M.tri[t]? = some a) (ha0 : 0 ≤ a)
    (hfid : ∀ p ∈ M.pieces, ∃ f, M.faces[p.fid]? = some f ∧ f.axis = none)
    (hpos : ∀ p ∈ M.pieces, p.parent = t → 0 ≤ baryVolume p.barys)
    (htile : ((M.pieces.filter fun p => p.parent = t).map fun p => baryVolume p.barys).sum = 1 / 2) :
    ∃ FV, M.faceVolumes = some FV ∧ ((M.pieces.filter fun p => p.parent = t).map fun p => (FV[p.fid]?).getD 0).sum = a := by
  have htri : M.tri ≠ [] := by
    intro e; rw [e] at ha; simp at ha
  obtain ⟨FV, h1, _, h2, _⟩ := C93_entries M htri (Or.inl hne)
  refine ⟨FV, h1, ?_⟩
  have : ∀ p ∈ M.pieces.filter (fun p => p.parent = t), (FV[p.fid]?).getD 0 = 2 * a * baryVolume p.barys := by
    intro p hp
    rw [List.mem_filter, decide_eq_true_eq] at hp
    obtain ⟨f, hf, hax⟩ := hfid p hp.1
    rw [h2 _ f hf]
    unfold FMesh.rawEntry FMesh.baryEntry
    rw [hax]
    simp only [Option.getD_some]
    rw [sum_single (fun q => baryVolume q.barys * 2 * (M.tri[q.parent]?).getD 0) p M.pieces hp.1 hnd, hp.2, ha]
    have := hpos p hp.1 hp.2
    simp only [Option.getD_some]
    rw [abs_of_nonneg (by positivity)]
    ring
  rw [List.map_congr_left this, List.sum_map_mul_left, htile]
  ring

theorem vcross_succ (u v : Vec3) (d : Fin 3) : vcross u v d = u (d + 1) * v (d + 2) - v (d + 1) * u (d + 2) := by
  fin_cases d <;> simp [vcross] <;> ring

theorem vecArea_axis (V : ℤ → Vec3) (l : List ℤ) (d : Fin 3) :
    vecArea (l.map V) d = curveVolume (fun v => V v (d + 1)) (fun v => V v (d + 2)) l := by
  unfold vecArea curveVolume
  rw [sides_map, List.map_map]
  congr 2
  apply List.map_congr_left
  intro e _
  simp only [Function.comp]
  rw [vcross_succ]

theorem curveVolume_const_left {α : Type*} (x y : α → ℚ) (l : List α) (c : ℚ) (h : ∀ v ∈ l, x v = c) : curveVolume x y l = 0 := by
  unfold curveVolume
  have : ∀ e ∈ sides l, x e.1 * y e.2 - x e.2 * y e.1 = c * y e.2 - c * y e.1 := by
    intro e he
    unfold sides at he
    have hm := List.of_mem_zip (a := e.1) (b := e.2) (by simpa using he)
    rw [h _ hm.1, h _ (by simpa using hm.2)]
  rw [List.map_congr_left this, sides_telescope (fun v => c * y v)]
  simp

theorem curveVolume_const_right {α : Type*} (x y : α → ℚ) (l : List α) (c : ℚ) (h : ∀ v ∈ l, y v = c) : curveVolume x y l = 0 := by
  unfold curveVolume
  have : ∀ e ∈ sides l, x e.1 * y e.2 - x e.2 * y e.1 = (-c * x e.2) - (-c * x e.1) := by
    intro e he
    unfold sides at he
    have hm := List.of_mem_zip (a := e.1) (b := e.2) (by simpa using he)
    rw [h _ hm.1, h _ (by simpa using hm.2)]
    ring
  rw [List.map_congr_left this, sides_telescope (fun v => -c * x v)]
  simp

/-- **C93.** `face_volumes` of a cut face in a grid plane is its area: the length of the sum of the vector areas of its
loops (holes run the other way round), if the vertices of the face lie in a plane normal to the axis. -/
theorem C93_axial_face (h : M.tri ≠ []) (hne : M.faces ≠ []) (i : ℕ) (f : CFace) (hf : M.faces[i]? = some f) (ax : Fin 3)
    (hax : f.axis = some ax) (c : ℚ) (hc : ∀ l ∈ f.loops, ∀ v ∈ l, M.V v ax = c) :
    ∃ FV A, M.faceVolumes = some FV ∧ FV[i]? = some A ∧
      IsNorm A (fun d => (f.loops.map fun l => vecArea (l.map M.V) d).sum) := by
  obtain ⟨FV, h1, _, h2, _⟩ := C93_entries M h (Or.inl hne)
  refine ⟨FV, _, h1, h2 i f hf, abs_nonneg _, ?_⟩
  have hr : M.rawEntry f i = (f.loops.map fun l => vecArea (l.map M.V) ax).sum := by
    unfold FMesh.rawEntry
    rw [hax]
    simp only [vecArea_axis]
  have h0 : ∀ d, d ≠ ax → (f.loops.map fun l => vecArea (l.map M.V) d).sum = 0 := by
    intro d hd
    apply List.sum_eq_zero
    intro x hx
    obtain ⟨l, hl, rfl⟩ := List.mem_map.1 hx
    rw [vecArea_axis]
    have hcase : d + 1 = ax ∨ d + 2 = ax := by
      clear * - hd
      revert hd; revert d ax; decide
    rcases hcase with e | e
    · rw [e]; exact curveVolume_const_left _ _ _ c (hc l hl)
    · rw [e]; exact curveVolume_const_right _ _ _ c (hc l hl)
  rw [hr, abs_mul_abs_self]
  fin_cases ax
  · have a1 := h0 1 (by decide)
    have a2 := h0 2 (by decide)
    simp only [a1, a2]
    ring_nf; rfl
  · have a1 := h0 0 (by decide)
    have a2 := h0 2 (by decide)
    simp only [a1, a2]
    ring_nf; rfl
  · have a1 := h0 0 (by decide)
    have a2 := h0 1 (by decide)
    simp only [a1, a2]
    ring_nf; rfl

/-- **C93, defect.** Without input triangles the result has no entries for the cut faces: it is the list of the exterior
faces only, so with cut faces its length is not the number of faces. -/
theorem C93_no_triangles_refuted (h : M.tri = []) (he : M.ext ≠ []) (hf : M.faces ≠ []) :
    ∃ FV, M.faceVolumes = some FV ∧ FV.length = M.ext.length ∧ FV.length ≠ M.faces.length + M.ext.length := by
  have hraw : M.raw = M.ext := if_neg (by simp [h])
  have hlen : ∃ FV, M.faceVolumes = some FV ∧ FV.length = M.ext.length := by
    unfold FMesh.faceVolumes
    rw [hraw, if_neg he]
    split_ifs
    · exact ⟨_, rfl, by simp⟩
    · exact ⟨_, rfl, rfl⟩
  obtain ⟨FV, h1, h2⟩ := hlen
  refine ⟨FV, h1, h2, ?_⟩
  have := List.length_pos_iff.2 hf
  omega

/-- a square in the plane `z = 1`, half of a right triangle with legs 3 and 4. -/
def exMesh : FMesh where
  faces := [⟨some 2, [[0, 1, 2, 3]]⟩, ⟨none, [[0, 1, 2]]⟩]
  pieces := [⟨1, 0, [![1, 0, 0], ![0, 1, 0], ![0, 1/2, 1/2]]⟩]
  V := fun v => if v = 0 then ![0, 0, 1] else if v = 1 then ![2, 0, 1] else if v = 2 then ![2, 3, 1] else ![0, 3, 1]
  tri := [6]
  ext := [1, 1]

example : exMesh.faceVolumes = some [6, 3, 1, 1] := by decide +kernel

/-- the piece of the example meets the hypotheses of `C93_mesh_face`. -/
example : ∃ FV A, exMesh.faceVolumes = some FV ∧ FV[1]? = some A ∧ IsNorm A (vecArea (([![1, 0, 0], ![0, 1, 0], ![0, 1/2, 1/2]] : List (Fin 3 → ℚ)).map (point ![![0, 0, 0], ![3, 0, 0], ![0, 4, 0]]))) :=
  C93_mesh_face exMesh (by decide) 1 ⟨none, [[0, 1, 2]]⟩ rfl rfl (by decide) ⟨1, 0, [![1, 0, 0], ![0, 1, 0], ![0, 1/2, 1/2]]⟩
    (by simp [exMesh]) rfl ![![0, 0, 0], ![3, 0, 0], ![0, 4, 0]] 6 rfl (by unfold IsNorm; decide +kernel)
    (by intro b hb; simp only [List.mem_cons, List.not_mem_nil, or_false] at hb
        rcases hb with rfl | rfl | rfl <;> decide +kernel)

end FaceVolume
end Mandoline
