import Verif.Core.Vec3
import Verif.Mesh.Regions3
import Mathlib.Tactic.LinearCombination
import Mathlib.Tactic.FieldSimp
import Mathlib.Algebra.BigOperators.Group.List.Basic

/-!
# C86: centroids of the regions

`CutCellMesh<3>::region_centroids` (src/mesh3.cpp:230-276).
-/
namespace Mandoline
namespace Centroid3

/-- the corners of an input triangle. -/
abbrev T3 := Vec3 × Vec3 × Vec3

/-- `vols(i) = A.determinant()` (src/mesh3.cpp:242). -/
def detOf (t : T3) : ℚ := vdet t.1 t.2.1 t.2.2

/-- `c = vols(i) * A.rowwise().sum()` (src/mesh3.cpp:243). -/
def momOf (t : T3) (i : Fin 3) : ℚ := detOf t * (t.1 i + t.2.1 i + t.2.2 i)

/-- sum over the triangles of the two sides of a region, the second side subtracted first (src/mesh3.cpp:252-260). -/
def sideSum (g : ℤ → ℚ) (S : Regions3.Sides) : ℚ :=
  S.1.foldl (fun v f => v + g f) (S.2.foldl (fun v f => v - g f) 0)

/-- the volume used for a region (src/mesh3.cpp:263, 269): replaced by 1 when small; the box is added to region 0. -/
def volOf (tri : ℤ → T3) (box : ℚ) (r : ℕ) (S : Regions3.Sides) : ℚ :=
  let v := sideSum (fun f => detOf (tri f)) S
  let v := if |v| > 1 / 10 ^ 8 then v else 1
  if r = 0 then v + box else v

/-- the moment used for a region (src/mesh3.cpp:254-260, 267-268): `1.5 * (min + min) * gv` is added to region 0. -/
def momentOf (tri : ℤ → T3) (lo : Vec3) (box : ℚ) (r : ℕ) (S : Regions3.Sides) (i : Fin 3) : ℚ :=
  let c := sideSum (fun f => momOf (tri f) i) S
  if r = 0 then c + 3 / 2 * (lo i + lo i) * box else c

/-- `region_centroids()` (src/mesh3.cpp:230-276): `R` is `orig_face_regions()`, `tri` gives the corners of the input
triangles, `lo` and `box` are the lower corner of the grid and the volume of its bounding box. -/
def regionCentroids (tri : ℤ → T3) (lo : Vec3) (box : ℚ) (R : List Regions3.Sides) : List Vec3 :=
  R.zipIdx.map fun Sr => fun i => momentOf tri lo box Sr.2 Sr.1 i / (3 * volOf tri box Sr.2 Sr.1)

/-! ## specification -/

/-- a tetrahedron. -/
abbrev Tet := Vec3 × Vec3 × Vec3 × Vec3

/-- its signed volume. -/
def Tet.vol (t : Tet) : ℚ := vdet (t.2.1 - t.1) (t.2.2.1 - t.1) (t.2.2.2 - t.1) / 6

/-- its centre of mass. -/
def Tet.centre (t : Tet) : Vec3 := fun i => (t.1 i + t.2.1 i + t.2.2.1 i + t.2.2.2 i) / 4

/-- its four faces, oriented outwards when the volume is positive. -/
def Tet.faces (t : Tet) : List T3 :=
  [(t.2.1, t.2.2.1, t.2.2.2), (t.1, t.2.2.2, t.2.2.1), (t.1, t.2.1, t.2.2.2), (t.1, t.2.2.1, t.2.1)]

/-- a function of oriented triangles: turning the triangle over changes the sign, turning it round does not. -/
def Alternating (F : T3 → ℚ) : Prop :=
  (∀ a b c, F (b, c, a) = F (a, b, c)) ∧ ∀ a b c, F (b, a, c) = - F (a, b, c)

/-- the oriented surface made of `P` and of `N` turned over is the boundary of the solid made of the tetrahedra: common
faces of neighbouring tetrahedra cancel. -/
def Bounds (P N : List T3) (solid : List Tet) : Prop :=
  ∀ F : T3 → ℚ, Alternating F →
    (P.map F).sum - (N.map F).sum = (solid.map fun t => (t.faces.map F).sum).sum

/-- volume of the solid. -/
def volume (solid : List Tet) : ℚ := (solid.map Tet.vol).sum

/-- `c` is the centre of mass of the solid. -/
def IsCentre (solid : List Tet) (c : Vec3) : Prop :=
  ∀ i, c i * volume solid = (solid.map fun t => Tet.vol t * Tet.centre t i).sum

/-! ## proofs -/

theorem foldl_add (g : ℤ → ℚ) (l : List ℤ) (v : ℚ) : l.foldl (fun v f => v + g f) v = v + (l.map g).sum := by
  induction l generalizing v with
  | nil => simp
  | cons a l ih => rw [List.foldl_cons, ih, List.map_cons, List.sum_cons]; ring

theorem foldl_sub (g : ℤ → ℚ) (l : List ℤ) (v : ℚ) : l.foldl (fun v f => v - g f) v = v - (l.map g).sum := by
  induction l generalizing v with
  | nil => simp
  | cons a l ih => rw [List.foldl_cons, ih, List.map_cons, List.sum_cons]; ring

theorem sideSum_eq (g : ℤ → ℚ) (S : Regions3.Sides) : sideSum g S = (S.1.map g).sum - (S.2.map g).sum := by
  unfold sideSum
  rw [foldl_add, foldl_sub]; ring

theorem detOf_alt : Alternating detOf := by
  constructor
  · intro a b c; simp only [detOf, vdet_eq]; ring
  · intro a b c; simp only [detOf, vdet_eq]; ring

theorem momOf_alt (i : Fin 3) : Alternating fun t => momOf t i := by
  constructor
  · intro a b c
    simp only [momOf, detOf, vdet_eq]; ring
  · intro a b c
    simp only [momOf, detOf, vdet_eq]; ring

theorem det_faces (t : Tet) : (t.faces.map detOf).sum = 6 * Tet.vol t := by
  obtain ⟨a, b, c, d⟩ := t
  simp only [Tet.faces, Tet.vol, detOf, vdet_eq, List.map_cons, List.map_nil, List.sum_cons, List.sum_nil, Pi.sub_apply]
  ring

theorem mom_faces (t : Tet) (i : Fin 3) : (t.faces.map fun f => momOf f i).sum = 24 * (Tet.vol t * Tet.centre t i) := by
  obtain ⟨a, b, c, d⟩ := t
  simp only [Tet.faces, Tet.vol, Tet.centre, momOf, detOf, vdet_eq, List.map_cons, List.map_nil, List.sum_cons, List.sum_nil,
    Pi.sub_apply]
  match i with
  | 0 => ring
  | 1 => ring
  | 2 => ring

theorem sum_map_mul {α : Type*} (k : ℚ) (g : α → ℚ) (l : List α) : (l.map fun x => k * g x).sum = k * (l.map g).sum := by
  induction l with
  | nil => simp
  | cons a l ih => rw [List.map_cons, List.sum_cons, ih, List.map_cons, List.sum_cons]; ring

/-- **C86.** The centroid reported for a region other than region 0 is 4/3 of its centre of mass, whenever the volume of
the region is not tiny: if the mesh triangles on the two sides of the region bound a solid. -/
theorem C86_four_thirds (tri : ℤ → T3) (lo : Vec3) (box : ℚ) (R : List Regions3.Sides) (r : ℕ) (P N : List ℤ)
    (hr : R[r]? = some (P, N)) (hr0 : r ≠ 0) (solid : List Tet) (hb : Bounds (P.map tri) (N.map tri) solid)
    (hv : |6 * volume solid| > 1 / 10 ^ 8) (c : Vec3) (hc : IsCentre solid c) :
    (regionCentroids tri lo box R)[r]? = some fun i => 4 / 3 * c i := by
  unfold regionCentroids
  rw [List.getElem?_map, List.getElem?_zipIdx, hr]
  simp only [Option.map_some, Option.some.injEq, zero_add]
  funext i
  have hd := hb detOf detOf_alt
  have hm := hb (fun t => momOf t i) (momOf_alt i)
  simp only [det_faces, mom_faces, sum_map_mul, List.map_map] at hd hm
  have e1 : sideSum (fun f => detOf (tri f)) (P, N) = 6 * volume solid := by
    rw [sideSum_eq]; exact hd
  have e2 : sideSum (fun f => momOf (tri f) i) (P, N) = 24 * (c i * volume solid) := by
    rw [sideSum_eq, hc i]; exact hm
  have hne : volume solid ≠ 0 := by
    intro h0
    rw [h0] at hv
    norm_num at hv
  unfold momentOf volOf
  simp only [e1, e2]
  rw [if_pos hv, if_neg hr0, if_neg hr0]
  field_simp
  ring

/-- **C86.** so the intended claim, that the centre of mass is reported, holds for a coordinate only if this coordinate
is zero. -/
theorem C86_centre_refuted (tri : ℤ → T3) (lo : Vec3) (box : ℚ) (R : List Regions3.Sides) (r : ℕ) (P N : List ℤ)
    (hr : R[r]? = some (P, N)) (hr0 : r ≠ 0) (solid : List Tet) (hb : Bounds (P.map tri) (N.map tri) solid)
    (hv : |6 * volume solid| > 1 / 10 ^ 8) (c : Vec3) (hc : IsCentre solid c) :
    (regionCentroids tri lo box R)[r]? = some c ↔ ∀ i, c i = 0 := by
  rw [C86_four_thirds tri lo box R r P N hr hr0 solid hb hv c hc, Option.some.injEq]
  constructor
  · intro h i
    have h' : 4 / 3 * c i = c i := congrFun h i
    linarith
  · intro h
    funext i
    simp only [h i]; norm_num

/-- **C86.** The result depends on the origin: moving input and grid by `d` moves the reported centroid by 4/3 of `d`. -/
theorem C86_not_equivariant (tri : ℤ → T3) (lo : Vec3) (box : ℚ) (R : List Regions3.Sides) (r : ℕ) (P N : List ℤ)
    (hr : R[r]? = some (P, N)) (hr0 : r ≠ 0) (solid : List Tet) (hb : Bounds (P.map tri) (N.map tri) solid)
    (hv : |6 * volume solid| > 1 / 10 ^ 8) (c d : Vec3) (hc : IsCentre solid c) :
    (regionCentroids tri lo box R)[r]? = some (fun i => 4 / 3 * c i) ∧
    (regionCentroids (fun f => ((tri f).1 + d, (tri f).2.1 + d, (tri f).2.2 + d)) (lo + d) box R)[r]? =
      some fun i => 4 / 3 * c i + 4 / 3 * d i := by
  refine ⟨C86_four_thirds tri lo box R r P N hr hr0 solid hb hv c hc, ?_⟩
  have hb' : Bounds ((P.map tri).map fun t => (t.1 + d, t.2.1 + d, t.2.2 + d)) ((N.map tri).map fun t => (t.1 + d, t.2.1 + d, t.2.2 + d))
      (solid.map fun t => (t.1 + d, t.2.1 + d, t.2.2.1 + d, t.2.2.2 + d)) := by
    intro F hF
    have := hb (fun t => F (t.1 + d, t.2.1 + d, t.2.2 + d)) ⟨fun a b c => hF.1 _ _ _, fun a b c => hF.2 _ _ _⟩
    simp only [List.map_map, Function.comp_def] at this ⊢
    rw [this]
    simp only [Tet.faces, List.map_cons, List.map_nil]
  set solid' := solid.map fun t : Tet => (t.1 + d, t.2.1 + d, t.2.2.1 + d, t.2.2.2 + d) with hs
  have hvol : ∀ t : Tet, Tet.vol (t.1 + d, t.2.1 + d, t.2.2.1 + d, t.2.2.2 + d) = Tet.vol t := by
    intro t
    simp only [Tet.vol, add_sub_add_right_eq_sub]
  have hV : volume solid' = volume solid := by
    simp only [volume, hs, List.map_map, Function.comp_def, hvol]
  have hC : IsCentre solid' (c + d) := by
    intro i
    rw [hV, Pi.add_apply, add_mul, hc i]
    simp only [hs, List.map_map, Function.comp_def, hvol]
    clear_value solid'
    clear hb hv hc hs hb' hV hr
    simp only [volume]
    induction solid with
    | nil => simp
    | cons t l ih =>
      simp only [List.map_cons, List.sum_cons]
      rw [← ih]
      simp only [Tet.centre, Pi.add_apply]
      ring
  have := C86_four_thirds (fun f => ((tri f).1 + d, (tri f).2.1 + d, (tri f).2.2 + d)) (lo + d) box R r P N hr hr0 solid'
    (by simpa only [List.map_map, Function.comp_def] using hb') (by rw [hV]; exact hv) (c + d) hC
  rw [this]
  congr 1
  funext i
  simp only [Pi.add_apply]; ring

/-- **C86.** Region 0, when no mesh triangle bounds it, is the whole grid; its reported centroid is the lower corner of
the grid scaled by `box / (1 + box)`. -/
theorem C86_region_zero (tri : ℤ → T3) (lo : Vec3) (box : ℚ) (hbox : 0 < box) (R : List Regions3.Sides)
    (hr : R[0]? = some ([], [])) :
    (regionCentroids tri lo box R)[0]? = some fun i => lo i * (box / (1 + box)) := by
  unfold regionCentroids
  rw [List.getElem?_map, List.getElem?_zipIdx, hr]
  simp only [Option.map_some, Option.some.injEq, zero_add]
  funext i
  have h1 : sideSum (fun f => detOf (tri f)) ([], []) = 0 := rfl
  have h2 : sideSum (fun f => momOf (tri f) i) ([], []) = 0 := rfl
  unfold momentOf volOf
  simp only [h1, h2, if_true]
  rw [if_neg (by norm_num)]
  have : 1 + box ≠ 0 := by linarith
  field_simp
  ring

/-- **C86.** so for a grid whose lower corner is not negative, the centroid reported for region 0 is never the centre of
the grid: it does not even lie in it unless its coordinate is zero. -/
theorem C86_region_zero_refuted (tri : ℤ → T3) (lo : Vec3) (size : Vec3) (hsize : ∀ i, 0 < size i)
    (R : List Regions3.Sides) (hr : R[0]? = some ([], [])) (c : Vec3)
    (h : (regionCentroids tri lo (size 0 * size 1 * size 2) R)[0]? = some c) (i : Fin 3) (hlo : 0 ≤ lo i) :
    c i < lo i + size i / 2 ∧ (0 < lo i → c i < lo i) := by
  have hbox : 0 < size 0 * size 1 * size 2 := mul_pos (mul_pos (hsize 0) (hsize 1)) (hsize 2)
  rw [C86_region_zero tri lo _ hbox R hr, Option.some.injEq] at h
  subst h
  set box := size 0 * size 1 * size 2
  have hq : box / (1 + box) < 1 := by rw [div_lt_one (by linarith)]; linarith
  constructor
  · have : lo i * (box / (1 + box)) ≤ lo i * 1 := mul_le_mul_of_nonneg_left hq.le hlo
    have := hsize i
    simp only
    linarith
  · intro h0
    have := mul_lt_mul_of_pos_left hq h0
    simp only
    linarith

/-! ## an example: one tetrahedron -/

/-- the standard tetrahedron with one corner at `(1, 1, 1)`. -/
def exTet : Tet := (![1, 1, 1], ![2, 1, 1], ![1, 2, 1], ![1, 1, 2])

/-- its faces as input triangles. -/
def exTri : ℤ → T3 := fun f => (exTet.faces[f.toNat]?).getD (![0, 0, 0], ![0, 0, 0], ![0, 0, 0])

theorem exBounds : Bounds (([0, 1, 2, 3] : List ℤ).map exTri) ([].map exTri) [exTet] := by
  intro F _
  simp [exTri, Tet.faces]

/-- the hypotheses of `C86_four_thirds` hold for it. -/
example : |6 * volume [exTet]| > 1 / 10 ^ 8 ∧ IsCentre [exTet] (Tet.centre exTet) := by
  constructor
  · have : volume [exTet] = 1 / 6 := by
      simp only [volume, List.map_cons, List.map_nil, List.sum_cons, List.sum_nil]
      simp [Tet.vol, exTet, vdet_eq]
      norm_num
    rw [this]; norm_num
  · intro i
    simp only [volume, List.map_cons, List.map_nil, List.sum_cons, List.sum_nil]
    ring

/-- the tetrahedron is region 1: the reported point (5/3, 5/3, 5/3) is outside of it. -/
example : (regionCentroids exTri ![0, 0, 0] 27 [([], [0, 1, 2, 3]), ([0, 1, 2, 3], [])])[1]? = some ![5 / 3, 5 / 3, 5 / 3] := by
  decide +kernel

end Centroid3
end Mandoline
