import Verif.Surf.Demo
import Verif.Cross.MeshVerts
import Verif.Cell.Watertight
import Mathlib.Tactic.Linarith
import Mathlib.Tactic.LinearCombination
import Mathlib.Tactic.FieldSimp
import Mathlib.Tactic.Ring
import Mathlib.Tactic.Positivity
import Mathlib.Tactic.FinCases

/-!
# C117: the planar slicer (src/tools/planar_slicer.cpp)

The transformation, the grid `update_embedding` builds, the vertices, the selection of the cut faces above the plane and the vertices
of the result. The faces that close the cut (lines 81-134) are in `SlicerCaps`. Not modelled: `compactify` (line 174), which renumbers.
-/
namespace Mandoline
open Sched TriInput SurfInput Watertight
namespace Slicer
variable {n m k : ℕ}

/-- `Eigen::Affine3d`: the rows of `linear()` and `translation()` (planar_slicer.cpp:14). -/
structure Affine where
  lin : Fin 3 → Vec3
  trans : Vec3

/-- the product with a point (planar_slicer.cpp:66, 170). -/
def Affine.apply (T : Affine) (v : Vec3) : Vec3 := fun i => vdot (T.lin i) v + T.trans i

/-- `get_transform(origin, direction)` (planar_slicer.cpp:13-19). `basis` are the rows of `normal_basis(direction)` (mtao, not in the
repository), `inv` those of its inverse. -/
def getTransform (basis inv : Fin 3 → Vec3) (o : Vec3) : Affine := ⟨basis, fun i => -vdot (inv i) o⟩

/-- the lower corner of `bounding_box(V)` (planar_slicer.cpp:35). -/
def boxLo (X : Fin (m + 1) → Vec3) (i : Fin 3) : ℚ := (List.ofFn X).foldl (fun a v => min a (v i)) (X 0 i)

/-- the upper corner of `bounding_box(V)` (planar_slicer.cpp:35). -/
def boxHi (X : Fin (m + 1) → Vec3) (i : Fin 3) : ℚ := (List.ofFn X).foldl (fun a v => max a (v i)) (X 0 i)

/-- `zmax` (planar_slicer.cpp:36). -/
def zmax (X : Fin (m + 1) → Vec3) : ℚ := max (boxHi X 2) (-boxLo X 2)

/-- the number of vertices of the grid in each direction (planar_slicer.cpp:46). -/
def gridShape : Coord 3 := ![2, 2, 3]

/-- the grid of `update_embedding` (planar_slicer.cpp:33-46): `from_bbox` puts the first and the last vertex on the corners of the box.
1.1 is taken as the rational number 11/10. The guard `shape` of lines 43-44 is not used by the code. -/
def embed (X : Fin (m + 1) → Vec3) (unindex : ℤ → Coord 3) : VGrid 3 :=
  let lo : Vec3 := fun i => (if i = 2 then -zmax X else boxLo X i) * (11 / 10)
  let hi : Vec3 := fun i => (if i = 2 then zmax X else boxHi X i) * (11 / 10)
  ⟨lo, fun i => (hi i - lo i) / ((gridShape i : ℚ) - 1), 12, unindex⟩

/-- `cut_vertex_size()` (cutdata_impl.hpp:339-345). -/
def cutVertexSize (gs : ℤ) (cs : List (CrossingI 3)) : ℤ := cs.foldl (fun s c => max s (c.index + 1)) gs

/-- `cut_vertices()` (cutdata_impl.hpp:321-334); a column not written is `none`. -/
def cutVertices (gs : ℤ) (cs : List (CrossingI 3)) : List (Option (Pt 3)) :=
  if cutVertexSize gs cs = gs then [] else
    cs.foldl (fun V c => if c.index ≥ gs then V.set (c.index - gs).toNat (some c.v.p) else V)
      (List.replicate (cutVertexSize gs cs - gs).toNat none)

/-- `newV` (planar_slicer.cpp:73-78). -/
def newV (g : VGrid 3) (cs : List (CrossingI 3)) : List (Option (Pt 3)) :=
  ((List.range g.size.toNat).map fun j : ℕ => some (g.world fun i => (g.unindex (j : ℤ) i : ℚ))) ++
    (cutVertices g.size cs).map fun v => v.map g.world

/-- `newV.col(i)`. -/
def newVAt (g : VGrid 3) (cs : List (CrossingI 3)) (i : ℤ) : Option (Pt 3) := if i < 0 then none else (newV g cs)[i.toNat]?.join

/-- the test of the loop over the cut faces (planar_slicer.cpp:137-144). -/
def above (g : VGrid 3) (cs : List (CrossingI 3)) (l : List ℤ) : Bool := l.all fun i => (newVAt g cs i).any fun v => !decide (v 2 < 0)

/-- the cut faces above the plane (planar_slicer.cpp:137-145). -/
def kept (g : VGrid 3) (cs : List (CrossingI 3)) (fs : List (MeshFace 3)) : List (MeshFace 3) := fs.filter fun c => above g cs c.verts

/-- their triangles (planar_slicer.cpp:145-147, cutface.cpp:49-52). -/
def keptTriangles (g : VGrid 3) (cs : List (CrossingI 3)) (fs : List (MeshFace 3)) : List (ℤ × ℤ × ℤ) :=
  (kept g cs fs).flatMap fun c => triangleFan c.verts

/-- `newVV` (planar_slicer.cpp:166-171): the vertices followed by those `extra` that the triangulation of the closing faces added; the
inverse transformation is applied to the first `newV.cols()` only. -/
def outV (Tinv : Vec3 → Vec3) (newV : List (Option (Pt 3))) (extra : List (Option (Pt 3))) : List (Option (Pt 3)) :=
  newV.map (fun v => v.map Tinv) ++ extra

/-! ## the transformation -/

/-- what `slice(origin, direction)` is for: the sliced plane `{v | (T v) z = 0}` goes through `o`. -/
def Through (T : Affine) (o : Vec3) : Prop := T.apply o 2 = 0

/-- **C117.** The plane of `slice(origin, direction)` is orthogonal to the third row of the basis; it goes through the origin given by
the user exactly if the third rows of the basis and of its inverse have the same product with it. -/
theorem C117_plane (basis inv : Fin 3 → Vec3) (o : Vec3) :
    (∀ v w, (getTransform basis inv o).apply v 2 = 0 → ((getTransform basis inv o).apply w 2 = 0 ↔ vdot (basis 2) (fun i => w i - v i) = 0)) ∧
    (Through (getTransform basis inv o) o ↔ vdot (basis 2) o = vdot (inv 2) o) := by
  unfold Through getTransform Affine.apply vdot
  refine ⟨fun v w h => ?_, ?_⟩
  · constructor
    · intro h2; linarith
    · intro h2; linarith
  · constructor
    · intro h; linarith
    · intro h; linarith

/-- **C117.** It goes through the user's origin for every origin exactly if the third row of the inverse is the third row of the
basis. -/
theorem C117_plane_every (basis inv : Fin 3 → Vec3) : (∀ o, Through (getTransform basis inv o) o) ↔ basis 2 = inv 2 := by
  constructor
  · intro h
    funext i
    have e := (C117_plane basis inv (fun j => if j = i then 1 else 0)).2.1 (h _)
    unfold vdot at e
    fin_cases i <;> simpa using e
  · intro h o
    exact (C117_plane basis inv o).2.2 (by rw [h])

/-- **C117, refuted.** The orthonormal basis with third row `(1,0,0)`, the direction `x`, and second and first rows `(0,0,1)`,
`(0,1,0)`: its inverse is its transpose. With origin `(1,0,0)` the plane `x = 0` is sliced, not `x = 1`. -/
theorem C117_origin_refuted :
    let basis : Fin 3 → Vec3 := ![![0, 1, 0], ![0, 0, 1], ![1, 0, 0]]
    let inv : Fin 3 → Vec3 := ![![0, 0, 1], ![1, 0, 0], ![0, 1, 0]]
    (∀ i j, vdot (basis i) (fun l => inv l j) = if i = j then 1 else 0) ∧
    (∀ v, (getTransform basis inv ![1, 0, 0]).apply v 2 = v 0) ∧ ¬ Through (getTransform basis inv ![1, 0, 0]) ![1, 0, 0] := by
  refine ⟨by decide +kernel, fun v => ?_, by unfold Through; decide +kernel⟩
  show (1 * v 0 + 0 * v 1 + 0 * v 2) + -((0 : ℚ) * 1 + 1 * 0 + 0 * 0) = v 0
  ring

/-! ## the grid -/

theorem foldl_min_spec {α : Type} (f : α → ℚ) (l : List α) (a : ℚ) :
    l.foldl (fun a v => min a (f v)) a ≤ a ∧ (∀ v ∈ l, l.foldl (fun a v => min a (f v)) a ≤ f v) ∧
      (l.foldl (fun a v => min a (f v)) a = a ∨ ∃ v ∈ l, l.foldl (fun a v => min a (f v)) a = f v) := by
  induction l generalizing a with
  | nil => simp
  | cons x l ih =>
    obtain ⟨h1, h2, h3⟩ := ih (min a (f x))
    rw [List.foldl_cons]
    refine ⟨h1.trans (min_le_left _ _), ?_, ?_⟩
    · intro v hv
      rcases List.mem_cons.1 hv with rfl | hv
      · exact h1.trans (min_le_right _ _)
      · exact h2 v hv
    · rcases h3 with h | ⟨v, hv, h⟩
      · rcases min_choice a (f x) with hm | hm
        · left; rw [h, hm]
        · right; exact ⟨x, List.mem_cons_self, by rw [h, hm]⟩
      · right; exact ⟨v, List.mem_cons_of_mem _ hv, h⟩

theorem foldl_max_eq_neg {α : Type} (f : α → ℚ) (l : List α) (a : ℚ) :
    l.foldl (fun a v => max a (f v)) a = -l.foldl (fun a v => min a (-f v)) (-a) := by
  induction l generalizing a with
  | nil => simp
  | cons x l ih => rw [List.foldl_cons, List.foldl_cons, ih, neg_sup]

theorem boxLo_spec (X : Fin (m + 1) → Vec3) (i : Fin 3) : (∀ j, boxLo X i ≤ X j i) ∧ ∃ j, boxLo X i = X j i := by
  obtain ⟨_, h2, h3⟩ := foldl_min_spec (fun v : Vec3 => v i) (List.ofFn X) (X 0 i)
  refine ⟨fun j => h2 (X j) (List.mem_ofFn.2 ⟨j, rfl⟩), ?_⟩
  rcases h3 with h | ⟨v, hv, h⟩
  · exact ⟨0, h⟩
  · obtain ⟨j, rfl⟩ := List.mem_ofFn.1 hv
    exact ⟨j, h⟩

theorem boxHi_spec (X : Fin (m + 1) → Vec3) (i : Fin 3) : (∀ j, X j i ≤ boxHi X i) ∧ ∃ j, boxHi X i = X j i := by
  obtain ⟨_, h2, h3⟩ := foldl_min_spec (fun v : Vec3 => -v i) (List.ofFn X) (-X 0 i)
  have e : boxHi X i = -(List.ofFn X).foldl (fun a v => min a (-v i)) (-X 0 i) := foldl_max_eq_neg (fun v : Vec3 => v i) _ _
  rw [e]
  refine ⟨fun j => ?_, ?_⟩
  · have := h2 (X j) (List.mem_ofFn.2 ⟨j, rfl⟩)
    linarith
  · rcases h3 with h | ⟨v, hv, h⟩
    · exact ⟨0, by rw [h]; ring⟩
    · obtain ⟨j, rfl⟩ := List.mem_ofFn.1 hv
      exact ⟨j, by rw [h]; ring⟩

theorem abs_le_zmax (X : Fin (m + 1) → Vec3) (j : Fin (m + 1)) : X j 2 ≤ zmax X ∧ -X j 2 ≤ zmax X := by
  have h1 := (boxLo_spec X 2).1 j
  have h2 := (boxHi_spec X 2).1 j
  exact ⟨h2.trans (le_max_left _ _), (by linarith : -X j 2 ≤ -boxLo X 2).trans (le_max_right _ _)⟩

theorem embed_z (X : Fin (m + 1) → Vec3) (un : ℤ → Coord 3) :
    (embed X un).dx 2 = zmax X * (11 / 10) ∧ (embed X un).origin 2 = -(zmax X * (11 / 10)) := by
  unfold embed gridShape
  refine ⟨?_, ?_⟩
  · show ((if (2 : Fin 3) = 2 then zmax X else boxHi X 2) * (11 / 10) - (if (2 : Fin 3) = 2 then -zmax X else boxLo X 2) * (11 / 10)) /
      (((3 : ℤ) : ℚ) - 1) = _
    rw [if_pos rfl, if_pos rfl]
    push_cast
    ring
  · show (if (2 : Fin 3) = 2 then -zmax X else boxLo X 2) * (11 / 10) = _
    rw [if_pos rfl]
    ring

/-- **C117.** The middle plane of the grid is the sliced plane: the point with local coordinates `x` is at height 0 exactly if
`x 2 = 1`, above it exactly if `x 2 > 1`; and all input vertices are strictly between the first and the last plane - provided one
vertex is not on the sliced plane. -/
theorem C117_middle (X : Fin (m + 1) → Vec3) (un : ℤ → Coord 3) (hz : ∃ j, X j 2 ≠ 0) :
    (∀ x : Pt 3, ((embed X un).world x 2 = 0 ↔ x 2 = 1) ∧ (0 < (embed X un).world x 2 ↔ 1 < x 2)) ∧
    ∀ j, 0 < (embed X un).localPt (X j) 2 ∧ (embed X un).localPt (X j) 2 < 2 := by
  obtain ⟨hd, ho⟩ := embed_z X un
  obtain ⟨j0, h0⟩ := hz
  have hpos : 0 < zmax X := by
    obtain ⟨h1, h2⟩ := abs_le_zmax X j0
    rcases lt_or_gt_of_ne h0 with h | h <;> linarith
  refine ⟨fun x => ?_, fun j => ?_⟩
  · have e : (embed X un).world x 2 = (zmax X * (11 / 10)) * (x 2 - 1) := by unfold VGrid.world; rw [hd, ho]; ring
    rw [e]
    constructor
    · rw [mul_eq_zero]
      constructor
      · rintro (h | h) <;> linarith
      · intro h; right; linarith
    · constructor
      · intro h
        have := (pos_iff_pos_of_mul_pos h).1 (by positivity)
        linarith
      · intro h
        have : 0 < x 2 - 1 := by linarith
        positivity
  · obtain ⟨h1, h2⟩ := abs_le_zmax X j
    have e : (embed X un).localPt (X j) 2 = (X j 2 + zmax X * (11 / 10)) / (zmax X * (11 / 10)) := by
      unfold VGrid.localPt
      rw [hd, ho]
      field_simp
      ring
    rw [e, lt_div_iff₀ (by positivity), div_lt_iff₀ (by positivity)]
    constructor <;> linarith

theorem embed_xy (X : Fin (m + 1) → Vec3) (un : ℤ → Coord 3) (i : Fin 3) (hi : i ≠ 2) :
    (embed X un).dx i = (boxHi X i - boxLo X i) * (11 / 10) ∧ (embed X un).origin i = boxLo X i * (11 / 10) := by
  unfold embed
  dsimp only
  rw [if_neg hi, if_neg hi]
  refine ⟨?_, rfl⟩
  have : gridShape i = 2 := by
    revert hi; revert i; decide
  rw [this]
  push_cast
  ring

/-- **C117.** In the other two directions the grid contains the mesh if 0 is between the smallest and the largest coordinate. -/
theorem C117_inside (X : Fin (m + 1) → Vec3) (un : ℤ → Coord 3) (i : Fin 3) (hi : i ≠ 2) (h1 : ∃ j, X j i ≤ 0) (h2 : ∃ j, 0 ≤ X j i)
    (hne : ∃ j l, X j i ≠ X l i) (j : Fin (m + 1)) : 0 ≤ (embed X un).localPt (X j) i ∧ (embed X un).localPt (X j) i ≤ 1 := by
  obtain ⟨hd, ho⟩ := embed_xy X un i hi
  obtain ⟨a, ha⟩ := h1
  obtain ⟨b, hb⟩ := h2
  obtain ⟨l, p, hlp⟩ := hne
  have hlo := (boxLo_spec X i).1
  have hhi := (boxHi_spec X i).1
  have hlt : boxLo X i < boxHi X i := by
    rcases lt_or_gt_of_ne hlp with h | h
    · exact (hlo l).trans_lt (h.trans_le (hhi p))
    · exact (hlo p).trans_lt (h.trans_le (hhi l))
  have e : (embed X un).localPt (X j) i = (X j i - boxLo X i * (11 / 10)) / ((boxHi X i - boxLo X i) * (11 / 10)) := by
    unfold VGrid.localPt
    rw [hd, ho]
    ring
  have hp : 0 < (boxHi X i - boxLo X i) * (11 / 10) := mul_pos (by linarith) (by norm_num)
  have := hlo j
  have := hhi j
  have := hlo a
  have := hhi b
  rw [e, le_div_iff₀ hp, div_le_iff₀ hp]
  constructor <;> linarith

/-- **C117, refuted.** If all coordinates in one of these directions are positive (the mesh is away from the origin) the vertex with the
smallest one is outside the grid: the box is scaled about the origin, not about its centre. -/
theorem C117_inside_refuted (X : Fin (m + 1) → Vec3) (un : ℤ → Coord 3) (i : Fin 3) (hi : i ≠ 2) (h1 : ∀ j, 0 < X j i)
    (hne : ∃ j l, X j i ≠ X l i) : ∃ j, (embed X un).localPt (X j) i < 0 := by
  obtain ⟨hd, ho⟩ := embed_xy X un i hi
  obtain ⟨l, p, hlp⟩ := hne
  have hlo := (boxLo_spec X i).1
  have hhi := (boxHi_spec X i).1
  have hlt : boxLo X i < boxHi X i := by
    rcases lt_or_gt_of_ne hlp with h | h
    · exact (hlo l).trans_lt (h.trans_le (hhi p))
    · exact (hlo p).trans_lt (h.trans_le (hhi l))
  obtain ⟨j, hj⟩ := (boxLo_spec X i).2
  refine ⟨j, ?_⟩
  have e : (embed X un).localPt (X j) i = (X j i - boxLo X i * (11 / 10)) / ((boxHi X i - boxLo X i) * (11 / 10)) := by
    unfold VGrid.localPt
    rw [hd, ho]
    ring
  rw [e]
  have hp : 0 < (boxHi X i - boxLo X i) * (11 / 10) := mul_pos (by linarith) (by norm_num)
  refine div_neg_of_neg_of_pos ?_ hp
  have := h1 j
  linarith

/-- **C117, refuted.** A mesh in a plane `x = c` or `y = c`, or in the sliced plane, gets a grid of spacing 0 in that direction, and the
local coordinates are divided by it; the guard computed for this case is not used. -/
theorem C117_flat_refuted (X : Fin (m + 1) → Vec3) (un : ℤ → Coord 3) (i : Fin 3) (c : ℚ) (h : ∀ j, X j i = c) (hc : i = 2 → c = 0) :
    (embed X un).dx i = 0 := by
  obtain ⟨a, ha⟩ := (boxLo_spec X i).2
  obtain ⟨b, hb⟩ := (boxHi_spec X i).2
  by_cases hi : i = 2
  · subst hi
    rw [(embed_z X un).1]
    unfold zmax
    rw [ha, hb, h, h, hc rfl]
    simp
  · rw [(embed_xy X un i hi).1, ha, hb, h, h]
    ring

/-! ## polygons and half-spaces -/

theorem cramer (M u v w b : Vec3) (hb : vdot M b = 0) :
    vdot M u * vdet v w b + vdot M v * vdet w u b + vdot M w * vdet u v b = 0 := by
  have : vdot M u * vdet v w b + vdot M v * vdet w u b + vdot M w * vdet u v b = vdot M b * vdet u v w := by
    simp only [vdet_eq, vdot]; ring
  rw [this, hb, zero_mul]

/-- a point on the left of all sides of a closed polygon is in every half-space containing the vertices. -/
theorem halfspace {p : List (TriPt 3)} (hne : p ≠ []) {b : Fin 3 → ℚ} (hb : InPoly p b) (hs : ∑ j, b j = 1) (M : Vec3)
    (hv : ∀ v ∈ p, ∑ j, v.b j = 1 ∧ 0 ≤ vdot M v.b) : 0 ≤ vdot M b := by
  by_contra hneg
  push Not at hneg
  rw [Fin.sum_univ_three] at hs
  set N : Vec3 := fun i => M i - vdot M b with hN
  have hNb : vdot N b = 0 := by
    have : vdot N b = vdot M b - vdot M b * (b 0 + b 1 + b 2) := by rw [hN]; unfold vdot; ring
    rw [this, hs]; ring
  have hNv : ∀ v ∈ p, 0 < vdot N v.b := by
    intro v hvp
    obtain ⟨h1, h2⟩ := hv v hvp
    rw [Fin.sum_univ_three] at h1
    have : vdot N v.b = vdot M v.b - vdot M b * (v.b 0 + v.b 1 + v.b 2) := by rw [hN]; unfold vdot; ring
    rw [this, h1]; linarith
  have htrans : ∀ u ∈ p, ∀ v ∈ p, ∀ w ∈ p, 0 < vdet u.b v.b b → 0 < vdet v.b w.b b → 0 < vdet u.b w.b b := by
    intro u hu v hv' w hw h1 h2
    have h := cramer N u.b v.b w.b b hNb
    have e : vdet w.b u.b b = -vdet u.b w.b b := by simp only [vdet_eq]; ring
    have a1 := mul_pos (hNv u hu) h2
    have a2 := mul_pos (hNv w hw) h1
    have a3 : 0 < vdot N v.b * vdet u.b w.b b := by rw [e] at h; linarith
    exact (pos_iff_pos_of_mul_pos a3).1 (hNv v hv')
  match p, hne with
  | x :: l, _ =>
    -- from the first vertex to every later one, and back
    have key : ∀ (l q : List (TriPt 3)) (y : TriPt 3), (y = x ∨ 0 < vdet x.b y.b b) → (∀ v ∈ y :: l, v ∈ x :: q) → y ∈ x :: q →
        (∀ u ∈ x :: q, ∀ v ∈ x :: q, ∀ w ∈ x :: q, 0 < vdet u.b v.b b → 0 < vdet v.b w.b b → 0 < vdet u.b w.b b) →
        (∀ e ∈ (y :: l).zip (l ++ [x]), 0 < vdet e.1.b e.2.b b) → 0 < vdet x.b x.b b := by
      intro l q
      induction l with
      | nil =>
        intro y hy _ hyq ht h
        have := h (y, x) (by simp)
        rcases hy with rfl | hy
        · exact this
        · exact ht x List.mem_cons_self y hyq x List.mem_cons_self hy this
      | cons z l ih =>
        intro y hy hm hyq ht h
        have hz : z ∈ x :: q := hm z (by simp)
        have h1 := h (y, z) (by simp)
        refine ih z ?_ (fun v hv => hm v (List.mem_cons_of_mem _ hv)) hz ht fun e he => h e (by simp [he])
        rcases hy with rfl | hy
        · exact .inr h1
        · exact .inr (ht x List.mem_cons_self y hyq z hz hy h1)
    have hself := key l l x (.inl rfl) (fun v hv => hv) List.mem_cons_self htrans (by
      intro e he
      refine hb e ?_
      unfold ringOf
      rwa [List.rotate_cons_succ, List.rotate_zero])
    have : vdet x.b x.b b = 0 := by simp only [vdet_eq]; ring
    linarith

/-! ## the vertices -/

section
variable {shape : Coord 3} (G : GridIndexer shape) (vs : List (Vertex 3)) (g : VGrid 3)

/-- the column of a crossing is its position. -/
theorem newVAt_denotes (hsz0 : 0 ≤ G.size) (hN : ∀ v ∈ vs, Normalised v) (hF : ∀ v ∈ vs, FlagsExact v)
    (hV : ∀ v ∈ vs, IsGridPoint v.p → ValidIndex shape v.coord = true) (hg : g.size = G.size)
    (hun : ∀ c, ValidIndex shape c = true → g.unindex (G.idx c) = c) {i : ℤ} {x : Pt 3}
    (hi : EdgeInput.Denotes (computeCrossings G.idx G.size vs).out i x) :
    newVAt g (computeCrossings G.idx G.size vs).out i = some (g.world x) := by
  obtain ⟨c, hc, rfl, rfl⟩ := hi
  obtain ⟨houtv, hgrid, hidx, N, hn⟩ := C17_fuse_indices G vs hN hF hV
  have hcv : c.v ∈ vs := by rw [← houtv]; exact List.mem_map.2 ⟨c, hc, rfl⟩
  by_cases hgp : IsGridPoint c.v.p
  · have hval := hV _ hcv hgp
    have e1 : c.index = G.idx c.v.coord := hgrid c hc hgp
    have hb := G.bound _ hval
    have hp : c.v.p = fun j => (c.v.coord j : ℚ) := by
      funext j
      have hq := (Vertex.quot_zero_iff c.v (hN _ hcv) j).2 (hgp j)
      show (c.v.coord j : ℚ) + c.v.quot j = _
      rw [hq, add_zero]
    unfold newVAt newV
    rw [e1, if_neg (by omega), List.getElem?_append_left (by simp; omega)]
    rw [List.getElem?_map, List.getElem?_range (by omega)]
    simp only [Option.map_some, Option.join_some]
    rw [show ((G.idx c.v.coord).toNat : ℤ) = G.idx c.v.coord by omega, hun _ hval, ← hp]
  · obtain ⟨h1, h2⟩ := (hn c.index).1 ⟨c, hc, rfl, hgp⟩
    have hmax : ∀ (l : List (CrossingI 3)) (s : ℤ), s ≤ l.foldl (fun s c => max s (c.index + 1)) s ∧
        ∀ d ∈ l, d.index + 1 ≤ l.foldl (fun s c => max s (c.index + 1)) s := by
      intro l
      induction l with
      | nil => intro s; simp
      | cons a l ih =>
        intro s
        obtain ⟨i1, i2⟩ := ih (max s (a.index + 1))
        rw [List.foldl_cons]
        refine ⟨by omega, fun d hd => ?_⟩
        rcases List.mem_cons.1 hd with rfl | hd
        · omega
        · exact i2 d hd
    have hsz := (hmax (computeCrossings G.idx G.size vs).out g.size).2 c hc
    have hcol : (cutVertices g.size (computeCrossings G.idx G.size vs).out)[(c.index - g.size).toNat]? = some (some c.v.p) := by
      unfold cutVertices
      have hne : cutVertexSize g.size (computeCrossings G.idx G.size vs).out ≠ g.size := by unfold cutVertexSize; omega
      rw [if_neg hne]
      rcases foldl_set_spec (fun d : CrossingI 3 => d.index ≥ g.size) (fun d => (d.index - g.size).toNat) (fun d => some d.v.p)
          (computeCrossings G.idx G.size vs).out
          (List.replicate (cutVertexSize g.size (computeCrossings G.idx G.size vs).out - g.size).toNat none) (c.index - g.size).toNat (by
            have := hsz; rw [List.length_replicate]; change c.index + 1 ≤ cutVertexSize _ _ at this; omega) with ⟨d, hd, q1, q2, q3⟩ | ⟨q1, -⟩
      · rw [q3]
        have : d.index = c.index := by omega
        rw [(hidx d hd c hc).1 this]
      · exact absurd rfl (q1 c hc (by omega))
    have hs0 : 0 ≤ g.size := by rw [hg]; exact hsz0
    unfold newVAt newV
    rw [if_neg (by omega), List.getElem?_append_right (by simp; omega)]
    rw [List.length_map, List.length_range, show c.index.toNat - g.size.toNat = (c.index - g.size).toNat by omega,
      List.getElem?_map, hcol]
    rfl
end

/-! ## the cut faces above the plane -/

theorem all_any {l : List ℤ} {q : List (TriPt 3)} {R : ℤ → Option (Pt 3)} {P : Pt 3 → Bool} {w : Pt 3 → Pt 3}
    (h : List.Forall₂ (fun i v => R i = some (w v.v.p)) l q) :
    (l.all fun i => (R i).any P) = q.all fun v => P (w v.v.p) := by
  induction h with
  | nil => rfl
  | cons h _ ih => rw [List.all_cons, List.all_cons, ih, h]; rfl

section
variable {shape : Coord 3} {G : GridIndexer shape} {W : SurfInput 3 n (m + 1) k} {C : W.Choices}
  {cs : List (CrossingI 3)} {es : List (EdgeInput.MeshEdge 3)} {fs : List (MeshFace 3)}

/-- height of the point of triangle `f` with barycentric coordinates `b` over the sliced plane, `X` being the transformed vertices. -/
def height (W : SurfInput 3 n (m + 1) k) (X : Fin (m + 1) → Vec3) (f : Fin k) (b : Fin 3 → ℚ) : ℚ := ∑ j, b j * X (W.F f j) 2

/-- the world position of the point of triangle `f` with barycentric coordinates `b`. -/
theorem world_bary (X : Fin (m + 1) → Vec3) (g : VGrid 3) (hdx : ∀ i, g.dx i ≠ 0)
    (hX : ∀ i, W.I.V i = Vertex.fromVertex (g.localPt (X i))) (f : Fin k) (b : Fin 3 → ℚ) (hs : ∑ j, b j = 1) :
    g.world (baryPoint (W.tri f).P b) = fun i => ∑ j, b j * X (W.F f j) i := by
  funext i
  unfold VGrid.world baryPoint
  have hP : ∀ j, (W.tri f).P j i = (X (W.F f j) i - g.origin i) / g.dx i := by
    intro j
    show (W.I.V (W.F f j)).p i = _
    rw [hX, Vertex.fromVertex_p]
    unfold VGrid.localPt
    ring
  have := hdx i
  simp only [hP, Fin.sum_univ_three] at hs ⊢
  field_simp
  linear_combination (-g.origin i) * hs

/-- **C117.** `slice` keeps the part of the surface on one side of the plane: of the polygons into which the grid cuts triangle `f`, the
cut faces kept are some, each with the indices of its vertices; every point of the triangle on no grid plane that is not below the sliced
plane is in exactly one of them, and no point below the plane is in any. The vertices of the result at these indices are the points of
the input triangle before the transformation. -/
theorem C117_above (V : Fin (m + 1) → Vec3) (T : Affine) (Tinv : Vec3 → Vec3) (hT : ∀ v, Tinv (T.apply v) = v) (un : ℤ → Coord 3)
    (hz : ∃ i, T.apply (V i) 2 ≠ 0) (hxy : ∀ a : Fin 3, a ≠ 2 → ∃ i j, T.apply (V i) a ≠ T.apply (V j) a)
    (hX : ∀ i, W.I.V i = Vertex.fromVertex ((embed (fun i => T.apply (V i)) un).localPt (T.apply (V i))))
    (hsize : G.size = 12) (hun : ∀ c, ValidIndex shape c = true → un (G.idx c) = c)
    (h : Ok C G) (hb : (tasks C).Baked cs es fs) (f : Fin k) (extra : List (Option (Pt 3))) :
    ∃ polys keptPolys, (W.tri f).Cuts polys ∧ keptPolys.Sublist polys ∧
      List.Forall₂ (List.Forall₂ fun i v => EdgeInput.Denotes cs i v.v.p ∧
          (outV Tinv (newV (embed (fun i => T.apply (V i)) un) cs) extra)[i.toNat]? = some (some fun a => ∑ j, v.b j * V (W.F f j) a))
        (((kept (embed (fun i => T.apply (V i)) un) cs fs).filter fun c => decide (c.parent = ((f : ℕ) : ℤ))).map MeshFace.verts) keptPolys ∧
      (∀ b, (W.tri f).OffGrid b → 0 ≤ height W (fun i => T.apply (V i)) f b → ∃! p, p ∈ keptPolys ∧ InPoly p b) ∧
      ∀ p ∈ keptPolys, ∀ b, ∑ j, b j = 1 → InPoly p b → 0 ≤ height W (fun i => T.apply (V i)) f b := by
  set X : Fin (m + 1) → Vec3 := fun i => T.apply (V i) with hXdef
  set g := embed X un with hgdef
  have hzmax : 0 < zmax X := by
    obtain ⟨j0, h0⟩ := hz
    obtain ⟨h1, h2⟩ := abs_le_zmax X j0
    rcases lt_or_gt_of_ne h0 with h | h <;> linarith
  have hdx : ∀ i, g.dx i ≠ 0 := by
    intro i
    by_cases hi : i = 2
    · subst hi
      rw [(embed_z X un).1]
      positivity
    · rw [(embed_xy X un i hi).1]
      obtain ⟨l, q, hlq⟩ := hxy i hi
      have hlo := (boxLo_spec X i).1
      have hhi := (boxHi_spec X i).1
      have hlt : boxLo X i < boxHi X i := by
        rcases lt_or_gt_of_ne hlq with h | h
        · exact (hlo l).trans_lt (h.trans_le (hhi q))
        · exact (hlo q).trans_lt (h.trans_le (hhi l))
      exact (mul_pos (by linarith) (by norm_num)).ne'
  obtain ⟨hmid, -⟩ := C117_middle X un hz
  obtain ⟨polys, hcut, hF2, _, _⟩ := C109_faces h hb f
  have hcs : cs = (computeCrossings G.idx G.size (W.flat W.I.baked C.isects)).out := by
    rw [(baked_eq cs es fs hb).1]
    unfold Choices.cs crossings
    rw [h.index, h.size]
  have hpos : ∀ i x, EdgeInput.Denotes cs i x → newVAt g cs i = some (g.world x) := by
    intro i x hi
    rw [hcs] at hi ⊢
    exact newVAt_denotes G _ g (by omega) (fun v hv => (h.flat_ok v hv).1) (fun v hv => (h.flat_ok v hv).2) h.inGrid
      (by rw [hsize]; rfl) hun hi
  have hheight : ∀ b : Fin 3 → ℚ, ∑ j, b j = 1 → g.world (baryPoint (W.tri f).P b) 2 = height W X f b := by
    intro b hs
    rw [world_bary X g hdx hX f b hs]
    rfl
  let M : Vec3 := fun j => X (W.F f j) 2
  have hM : ∀ b : Fin 3 → ℚ, height W X f b = vdot M b := by
    intro b
    unfold height vdot
    rw [Fin.sum_univ_three]
    ring
  have hne : ∀ p ∈ polys, p ≠ [] := by
    rintro p hp rfl
    have := hcut.oriented _ hp
    unfold TriInput.share ringOf at this
    simp at this
  let Q : List (TriPt 3) → Bool := fun p => p.all fun v => !decide (g.world v.v.p 2 < 0)
  have hQ : ∀ p, Q p = true ↔ ∀ v ∈ p, 0 ≤ g.world v.v.p 2 := by
    intro p
    simp [Q, List.all_eq_true]
  -- vertices of the kept polygons
  have hvz : ∀ p ∈ polys, ∀ v ∈ p, ∑ j, v.b j = 1 ∧ g.world v.v.p 2 = vdot M v.b := by
    intro p hp v hv
    obtain ⟨h1, h2⟩ := hcut.vertex p hp v hv
    refine ⟨h1.sum, ?_⟩
    rw [h2, hheight _ h1.sum, hM]
  have hbelow : ∀ p ∈ polys, Q p = false → ∀ b, ∑ j, b j = 1 → InPoly p b → height W X f b ≤ 0 := by
    intro p hp hq b hs hin
    obtain ⟨c, hc⟩ := hcut.cell p hp
    have hnq : ¬ ∀ v ∈ p, 0 ≤ g.world v.v.p 2 := by rw [← hQ, hq]; simp
    push Not at hnq
    obtain ⟨v, hv, hv0⟩ := hnq
    have hlt : v.v.p 2 < 1 := by
      by_contra hge
      push Not at hge
      rcases hge.lt_or_eq with hge | hge
      · have := (hmid v.v.p).2.2 hge; linarith
      · have := (hmid v.v.p).1.2 hge.symm; linarith
    have hc1 : c 2 < 1 := by
      have h1 := (hc v hv 2).1
      have h2 : (c 2 : ℚ) < 1 := by linarith
      exact_mod_cast h2
    have hc2 : (c 2 : ℚ) + 1 ≤ 1 := by
      have : c 2 + 1 ≤ 1 := by omega
      exact_mod_cast this
    have := halfspace (hne p hp) hin hs (fun i => -M i) fun w hw => by
      obtain ⟨h1, h2⟩ := hvz p hp w hw
      refine ⟨h1, ?_⟩
      have h3 := (hc w hw 2).2
      have h4 : ¬ 0 < g.world w.v.p 2 := fun hh => by
        have := (hmid w.v.p).2.1 hh
        linarith
      have h5 : vdot (fun i => -M i) w.b = -vdot M w.b := by unfold vdot; ring
      rw [h5]; linarith
    have h5 : vdot (fun i => -M i) b = -vdot M b := by unfold vdot; ring
    rw [h5] at this
    rw [hM]; linarith
  refine ⟨polys, polys.filter Q, hcut, List.filter_sublist, ?_, ?_, ?_⟩
  · -- the indices
    have e : ((kept g cs fs).filter fun c => decide (c.parent = ((f : ℕ) : ℤ))).map MeshFace.verts =
        (((fs.filter fun c => decide (c.parent = ((f : ℕ) : ℤ))).map MeshFace.verts).filter fun l => above g cs l) := by
      unfold kept
      rw [List.filter_map, List.filter_filter, List.filter_filter]
      congr 1
      refine List.filter_congr fun c _ => ?_
      exact Bool.and_comm _ _
    rw [e]
    have hboth : ∀ (A : List (List ℤ)) (B : List (List (TriPt 3))), (∀ p ∈ B, p ∈ polys) →
        List.Forall₂ (List.Forall₂ fun i v => EdgeInput.Denotes cs i v.v.p) A B →
        List.Forall₂ (List.Forall₂ fun i v => EdgeInput.Denotes cs i v.v.p ∧
          (outV Tinv (newV g cs) extra)[i.toNat]? = some (some fun a => ∑ j, v.b j * V (W.F f j) a))
          (A.filter fun l => above g cs l) (B.filter Q) := by
      intro A B hB hAB
      induction hAB with
      | nil => exact .nil
      | @cons l p A B hlp hAB ih =>
        have ih := ih fun q hq => hB q (List.mem_cons_of_mem _ hq)
        have hp := hB p List.mem_cons_self
        have e1 : above g cs l = Q p := all_any (w := g.world) (hlp.imp fun i v hi => hpos i _ hi)
        rw [List.filter_cons, List.filter_cons, e1]
        split
        · refine .cons ?_ ih
          have : ∀ (l : List ℤ) (q : List (TriPt 3)), (∀ v ∈ q, v ∈ p) → List.Forall₂ (fun i v => EdgeInput.Denotes cs i v.v.p) l q →
              List.Forall₂ (fun i v => EdgeInput.Denotes cs i v.v.p ∧
                (outV Tinv (newV g cs) extra)[i.toNat]? = some (some fun a => ∑ j, v.b j * V (W.F f j) a)) l q := by
            intro l q hq hh
            induction hh with
            | nil => exact .nil
            | @cons i v l q hiv _ ih2 =>
              refine .cons ⟨hiv, ?_⟩ (ih2 fun w hw => hq w (List.mem_cons_of_mem _ hw))
              obtain ⟨b1, b2⟩ := hcut.vertex p hp v (hq v List.mem_cons_self)
              have hn := hpos i _ hiv
              unfold newVAt at hn
              split at hn
              · cases hn
              · have hj : (newV g cs)[i.toNat]? = some (some (g.world v.v.p)) := by
                  cases hh : (newV g cs)[i.toNat]? with
                  | none => rw [hh] at hn; cases hn
                  | some y => rw [hh] at hn; rw [show y = some _ from hn]
                have hlt : i.toNat < ((newV g cs).map fun v => v.map Tinv).length := by
                  rw [List.length_map]
                  exact (List.getElem?_eq_some_iff.1 hj).1
                unfold outV
                rw [List.getElem?_append_left hlt, List.getElem?_map, hj]
                show some (some (Tinv (g.world v.v.p))) = _
                have hw : g.world v.v.p = T.apply fun a => ∑ j, v.b j * V (W.F f j) a := by
                  rw [b2, world_bary X g hdx hX f v.b b1.sum]
                  have hs := b1.sum
                  funext a
                  simp only [hXdef, Affine.apply, vdot, Fin.sum_univ_three] at hs ⊢
                  linear_combination (T.trans a) * hs
                rw [hw, hT]
          exact this l p (fun v hv => hv) hlp
        · exact ih
    exact hboth _ _ (fun p hp => hp) hF2
  · intro b hoff hb0
    obtain ⟨p, ⟨hp, hin⟩, huniq⟩ := hcut.cover b hoff
    refine ⟨p, ⟨List.mem_filter.2 ⟨hp, ?_⟩, hin⟩, fun q hq => huniq q ⟨(List.mem_filter.1 hq.1).1, hq.2⟩⟩
    by_contra hq
    rw [Bool.not_eq_true] at hq
    have h0 : height W X f b = 0 := le_antisymm (hbelow p hp hq b hoff.sum hin) hb0
    have h1 : baryPoint (W.tri f).P b 2 = ((1 : ℤ) : ℚ) := by
      have := (hmid (baryPoint (W.tri f).P b)).1.1 (by rw [hheight b hoff.sum, h0])
      rw [this]; norm_num
    have h2 := hoff.off 2 1 h1
    have hall : Q p = true := by
      rw [hQ]
      intro v hv
      obtain ⟨b1, b2⟩ := hcut.vertex p hp v hv
      have : v.v.p 2 = 1 := by
        rw [b2]
        unfold baryPoint
        rw [Finset.sum_congr rfl fun j _ => by rw [h2 j]]
        rw [← Finset.sum_mul, b1.sum]
        norm_num
      rw [(hmid v.v.p).1.2 this]
    rw [hall] at hq
    cases hq
  · intro p hp b hs hin
    obtain ⟨hp, hq⟩ := List.mem_filter.1 hp
    rw [hM]
    exact halfspace (hne p hp) hin hs M fun v hv => by
      obtain ⟨h1, h2⟩ := hvz p hp v hv
      exact ⟨h1, by rw [← h2]; exact (hQ p).1 hq v hv⟩

end

/-- **C117.** The triangles of the kept part have its border: a directed edge occurs among their sides as often more than its reverse as
among the sides of the cut faces kept, and their corners are vertices of these. -/
theorem C117_triangles (g : VGrid 3) (cs : List (CrossingI 3)) (fs : List (MeshFace 3)) :
    HasBorder (keptTriangles g cs fs) ((kept g cs fs).flatMap fun c => polyEdges c.verts) ∧
    ∀ t ∈ keptTriangles g cs fs, ∃ c ∈ fs, above g cs c.verts = true ∧ t.1 ∈ c.verts ∧ t.2.1 ∈ c.verts ∧ t.2.2 ∈ c.verts := by
  constructor
  · rw [hasBorder_iff]
    intro e
    unfold keptTriangles
    induction kept g cs fs with
    | nil => rfl
    | cons c l ih =>
      rw [List.flatMap_cons, List.flatMap_append, netE_append, ih, List.flatMap_cons, netE_append, (hasBorder_iff _ _).1 (C107_fan c.verts)]
  · intro t ht
    obtain ⟨c, hc, ht⟩ := List.mem_flatMap.1 ht
    obtain ⟨hc, ha⟩ := List.mem_filter.1 hc
    obtain ⟨h1, h2, h3⟩ := C47_vertices _ _ ht
    exact ⟨c, hc, ha, List.mem_of_mem_head? h1, h2, h3⟩

/-- **C117, refuted.** The vertices added by the triangulation of the closing faces come out where they were put in the transformed
coordinates: the inverse transformation is not applied to them. -/
theorem C117_extra_refuted (Tinv : Vec3 → Vec3) (nv extra : List (Option (Pt 3))) (j : ℕ) :
    (outV Tinv nv extra)[nv.length + j]? = extra[j]? := by
  unfold outV
  rw [List.getElem?_append_right (by simp)]
  simp

/-! ## a concrete case: one triangle with one vertex below the plane -/

/-- the vertices of the triangle. -/
def exV : Fin 3 → Vec3 := ![![-1, -1, -1], ![1, -1, 1], ![-1, 1, 1]]

/-- the identity. -/
def exT : Affine := ⟨fun i j => if i = j then 1 else 0, fun _ => 0⟩

theorem exT_apply (v : Vec3) : exT.apply v = v := by
  funext i
  unfold exT Affine.apply vdot
  fin_cases i <;> simp

/-- `vertex_unindex` of the grid with 2 x 2 x 3 vertices. -/
def exUn (i : ℤ) : Coord 3 := ![i % 2, i / 2 % 2, i / 4]

/-- the input of `bake`. -/
def exW : SurfInput 3 3 3 1 where
  I := { V := fun i => Vertex.fromVertex ((embed (fun i => exT.apply (exV i)) exUn).localPt (exT.apply (exV i))),
         E := ![(1, 2), (0, 2), (0, 1)], grid := some ![1, 1, 2], gridIndex := linIndex 3 ![2, 2, 3], gridSize := 12 }
  F := ![![0, 1, 2]]
  FE := ![![0, 1, 2]]
  first := ![0]

/-- the local coordinates. -/
def exL : Fin 3 → Pt 3 := ![![1/22, 1/22, 1/11], ![21/22, 1/22, 21/11], ![1/22, 21/22, 21/11]]

theorem exW_p (j : Fin 3) : (exW.I.V j).p = exL j := by
  show (Vertex.fromVertex _).p = _
  rw [Vertex.fromVertex_p]
  revert j; decide +kernel

theorem exW_P (f : Fin 1) : (exW.tri f).P = exL := by
  funext j
  match f with
  | 0 =>
    show (exW.I.V (exW.F 0 j)).p = _
    rw [exW_p]
    match j with
    | 0 => rfl
    | 1 => rfl
    | 2 => rfl

/-- a point whose first two coordinates are well inside the first cell. -/
def Mid (x : Pt 3) : Prop := ∀ i : Fin 3, i ≠ 2 → 1 / 22 ≤ x i ∧ x i ≤ 21 / 22

theorem mid_not_int {x : Pt 3} (h : Mid x) (i : Fin 3) (hi : i ≠ 2) (z : ℤ) : x i ≠ z := by
  intro e
  obtain ⟨h1, h2⟩ := h i hi
  rw [e] at h1 h2
  have h3 : (0 : ℚ) < z := by linarith
  have h4 : (z : ℚ) < 1 := by linarith
  have h5 : (0 : ℤ) < z := by exact_mod_cast h3
  have h6 : z < (1 : ℤ) := by exact_mod_cast h4
  omega

theorem mid_seg {a b : Pt 3} (ha : Mid a) (hb : Mid b) {t : ℚ} (h0 : 0 ≤ t) (h1 : t ≤ 1) : Mid (segPt a b t) := by
  intro i hi
  obtain ⟨a1, a2⟩ := ha i hi
  obtain ⟨b1, b2⟩ := hb i hi
  unfold segPt
  constructor
  · nlinarith
  · nlinarith

theorem mid_bary {b : Fin 3 → ℚ} (hb : IsBary b) : Mid (baryPoint exL b) := by
  intro i hi
  have hs := hb.sum
  have h0 := hb.nonneg 0
  have h1 := hb.nonneg 1
  have h2 := hb.nonneg 2
  unfold baryPoint
  rw [Fin.sum_univ_three] at hs ⊢
  match i, hi with
  | 0, _ =>
    show 1 / 22 ≤ b 0 * (1/22) + b 1 * (21/22) + b 2 * (1/22) ∧ b 0 * (1/22) + b 1 * (21/22) + b 2 * (1/22) ≤ 21 / 22
    constructor <;> linarith
  | 1, _ =>
    show 1 / 22 ≤ b 0 * (1/22) + b 1 * (1/22) + b 2 * (21/22) ∧ b 0 * (1/22) + b 1 * (1/22) + b 2 * (21/22) ≤ 21 / 22
    constructor <;> linarith
  | 2, h => exact absurd rfl h

theorem exL_mid (j : Fin 3) : Mid (exL j) := by
  have := mid_bary (b := Pi.single j 1) ⟨fun i => by by_cases h : i = j <;> simp [Pi.single_apply, h], by simp⟩
  rwa [baryPoint_single] at this

theorem mid_separated {a b : Pt 3} (ha : Mid a) (hb : Mid b) : Separated (bakeTol exW.I.grid) a b := by
  have htol : bakeTol exW.I.grid ≤ 1 / 44 := by decide +kernel
  rintro t ⟨d, ht0, ht1, hd, z, hz⟩ i n
  have hm := mid_seg ha hb ht0.le ht1.le
  by_cases hi : i = 2
  · subst hi
    have hd2 : d = 2 := by
      by_contra hd2
      exact mid_not_int hm d hd2 z hz
    subst hd2
    by_cases he : z = n
    · left; rw [hz, he]
    · right
      have h1 : (1 : ℤ) ≤ |z - n| := Int.one_le_abs (by omega)
      have h2 : (1 : ℚ) ≤ |(z : ℚ) - n| := by exact_mod_cast h1
      rw [hz]; linarith
  · right
    obtain ⟨h1, h2⟩ := hm i hi
    rcases le_or_gt n 0 with hn | hn
    · have : (n : ℚ) ≤ 0 := by exact_mod_cast hn
      rw [abs_of_pos (by linarith)]; linarith
    · have : (1 : ℚ) ≤ n := by exact_mod_cast hn
      rw [abs_of_neg (by linarith)]; linarith

theorem exW_edge (i : Fin 3) : Separated (bakeTol exW.I.grid) (exW.I.fst i).p (exW.I.snd i).p := by
  unfold EdgeInput.fst EdgeInput.snd
  rw [exW_p, exW_p]
  exact mid_separated (exL_mid _) (exL_mid _)

theorem exW_chords (f : Fin 1) : (exW.tri f).ChordsSeparated := by
  intro p q hp hq _ _ _
  rw [exW_P]
  exact mid_separated (mid_bary hp) (mid_bary hq)

theorem exW_tri (f : Fin 1) : (exW.tri f).Ok := by
  refine ⟨fun j => fromVertex_ok _, fun e => ?_⟩
  have h1 : ∀ j, ((exW.tri f).V j).p = exL j := fun j => congrFun (exW_P f) j
  rw [h1, h1]
  exact mid_separated (exL_mid _) (exL_mid _)

theorem exW_mid {C : exW.Choices} : ∀ v ∈ exW.flat exW.I.baked C.isects, Mid v.p := by
  intro v hv
  unfold flat at hv
  rcases List.mem_append.1 hv with hv | hv
  · rcases List.mem_append.1 hv with hv | hv
    · obtain ⟨i, _, rfl⟩ := List.mem_map.1 hv
      rw [exW_p]; exact exL_mid i
    · obtain ⟨i, _, hv⟩ := List.mem_flatMap.1 hv
      obtain ⟨e, he, rfl⟩ := List.mem_map.1 hv
      have h3 := (C14_position_exact _ _ _ _ (fromVertex_ok _).1 (fromVertex_ok _).1 (exW_edge i) e he).2
      obtain ⟨⟨_, h0, h1, _⟩, _⟩ := (bakeEdge_spec _ _ _ _ (fromVertex_ok _).1 (fromVertex_ok _).1).2.1 e he
      have e1 : e.v.p = segPt (exW.I.fst i).p (exW.I.snd i).p e.t := funext h3
      rw [e1]
      unfold EdgeInput.fst EdgeInput.snd
      rw [exW_p, exW_p]
      exact mid_seg (exL_mid _) (exL_mid _) h0.le h1.le
  · obtain ⟨f, _, hv⟩ := List.mem_flatMap.1 hv
    obtain ⟨e, he, rfl⟩ := List.mem_map.1 hv
    have h73 := C73_crossings_exact (exW_tri f) (exW_chords f) (C.ptrLt f)
    obtain ⟨_, hp, _⟩ := h73.2.1 e he
    rw [hp, exW_P]
    have ht := ((h73.1 e.b).1 ⟨e, he, rfl⟩)
    exact mid_bary ⟨fun j => (ht.1 j).le, ht.2.1⟩

theorem exW_ok (C : exW.Choices) : Ok C (linIndexer (D := 3) ![2, 2, 3] (by decide)) where
  table := by decide
  norm i := (fromVertex_ok _).1
  flags i := (fromVertex_ok _).2
  nondeg := by
    intro f b hb h
    have h0 := h 0
    have h1 := h 1
    rw [Fin.sum_univ_three] at hb h0 h1
    simp only [exW_p] at h0 h1
    match f with
    | 0 =>
      replace h0 : b 0 * (1/22) + b 1 * (21/22) + b 2 * (1/22) = 0 := h0
      replace h1 : b 0 * (1/22) + b 1 * (1/22) + b 2 * (21/22) = 0 := h1
      funext j
      match j with
      | 0 => show b 0 = 0; linarith
      | 1 => show b 1 = 0; linarith
      | 2 => show b 2 = 0; linarith
  sep := exW_edge
  chords := exW_chords
  inGrid := by
    intro v hv hg
    obtain ⟨z, hz⟩ := hg 0
    exact absurd hz (mid_not_int (exW_mid v hv) 0 (by decide) z)
  index := rfl
  size := by decide +kernel

/-- the hypotheses of `C117_above` hold for this triangle, and an execution exists; its centre is above the plane, so it is in a cut face
that is kept. -/
example : ∃ (C : exW.Choices) (cs : List (CrossingI 3)) (es : List (EdgeInput.MeshEdge 3)) (fs : List (MeshFace 3)),
    (tasks C).Baked cs es fs ∧ kept (embed (fun i => exT.apply (exV i)) exUn) cs fs ≠ [] := by
  obtain ⟨C, _, cs, es, fs, hb⟩ := C109_run_exists exW_tri exW_chords (fun _ _ _ => false)
  refine ⟨C, cs, es, fs, hb, fun hk => ?_⟩
  obtain ⟨polys, kp, _, _, h3, h4, _⟩ := C117_above (G := linIndexer (D := 3) ![2, 2, 3] (by decide)) exV exT id (fun v => exT_apply v) exUn
    ⟨0, by decide +kernel⟩ (by decide +kernel) (fun _ => rfl) (by decide +kernel) (by
      intro c hc
      rw [validIndex_iff] at hc
      have h0 := hc 0
      have h1 := hc 1
      have h2 := hc 2
      simp at h0 h1 h2
      show ![_, _, _] = c
      have e : linIndex 3 ![2, 2, 3] c = c 0 + 2 * (c 1 + 2 * (c 2 + 3 * 0)) := rfl
      show (![linIndex 3 ![2, 2, 3] c % 2, linIndex 3 ![2, 2, 3] c / 2 % 2, linIndex 3 ![2, 2, 3] c / 4] : Coord 3) = c
      rw [e]
      funext i
      match i with
      | 0 => show (c 0 + 2 * (c 1 + 2 * (c 2 + 3 * 0))) % 2 = c 0; omega
      | 1 => show (c 0 + 2 * (c 1 + 2 * (c 2 + 3 * 0))) / 2 % 2 = c 1; omega
      | 2 => show (c 0 + 2 * (c 1 + 2 * (c 2 + 3 * 0))) / 4 = c 2; omega) (exW_ok C) hb 0 []
  rw [hk] at h3
  cases h3
  have hoff : (exW.tri 0).OffGrid fun _ => 1 / 3 := by
    refine ⟨fun _ => by norm_num, by rw [Fin.sum_univ_three]; norm_num, ?_⟩
    intro i z hz
    exfalso
    rw [exW_P] at hz
    have hm : Mid (baryPoint exL fun _ => 1 / 3) := mid_bary ⟨fun _ => by norm_num, by rw [Fin.sum_univ_three]; norm_num⟩
    by_cases hi : i = 2
    · subst hi
      have e : baryPoint exL (fun _ => 1 / 3) 2 = 43 / 33 := by decide +kernel
      rw [e] at hz
      have h1 : (43 : ℚ) = 33 * z := by linarith
      have h2 : (43 : ℤ) = 33 * z := by exact_mod_cast h1
      omega
    · exact mid_not_int hm i hi z hz
  obtain ⟨p, ⟨hp, _⟩, _⟩ := h4 _ hoff (by decide +kernel)
  cases hp

end Slicer
end Mandoline
