import Verif.Mesh.Locate
import Verif.Collapse.Angle
import Mathlib.Tactic.LinearCombination
import Mathlib.Tactic.FieldSimp
import Mathlib.Algebra.BigOperators.Group.List.Basic

/-!
# C89: centroids of the cells in 2D

`CutCellMesh<2>::centroids` (src/mesh2.cpp:33-46), `CutFace<2>::brep_centroid` (include/mandoline/cutface_impl.hpp:84-98).
The two polygon functions of the geometry library are parameters with the contract `PolygonLib`.
-/
namespace Mandoline
namespace Centroid2

/-- coordinate of a point of the plane. -/
def xy (p : Dir) (i : Fin 2) : ℚ := if i = 0 then p.1 else p.2

/-- `CutFace<2>::brep_centroid` (cutface_impl.hpp:84-98); `none` for a division by zero. `vol`, `cent` are
`curve_volume`, `curve_centroid`. -/
def brepCentroid (vol : List ℤ → ℚ) (cent : List ℤ → Fin 2 → ℚ) (loops : List (List ℤ)) : Option (Fin 2 → ℚ) :=
  let r : (Fin 2 → ℚ) × ℚ := loops.foldl (fun r l => (fun i => r.1 i + cent l i * vol l, r.2 + vol l)) (fun _ => 0, 0)
  if r.2 = 0 then none else some fun i => r.1 i / r.2

/-- `exterior_grid.cell_grid().vertex(c)` (src/mesh2.cpp:42): the cell grid is the vertex grid moved by half a cell. -/
def cellGridVertex (origin dx : Fin 2 → ℚ) (c : Coord 2) : Fin 2 → ℚ := fun i => (origin i + dx i / 2) + dx i * c i

/-- `centroids()` (src/mesh2.cpp:33-46): one column per cell; `none` for an undefined column. -/
def centroids (vol : List ℤ → ℚ) (cent : List ℤ → Fin 2 → ℚ) (origin dx : Fin 2 → ℚ) (M : Locate.Mesh2) :
    List (Option (Fin 2 → ℚ)) :=
  M.faces.map (brepCentroid vol cent) ++ M.ext.cellCoords.map fun c => some (cellGridVertex origin dx c)

/-! ## specification -/

/-- the edges of a closed polygon. -/
def polyEdges (V : ℤ → Dir) (l : List ℤ) : List (Dir × Dir) := (l.zip (l.rotate 1)).map fun e => (V e.1, V e.2)

/-- twice the signed area of the triangle with the origin. -/
def edgeDet (e : Dir × Dir) : ℚ := e.1.1 * e.2.2 - e.2.1 * e.1.2

/-- contract of the polygon functions: the signed area of a polygon, and, if that is not zero, its centre of mass. -/
structure PolygonLib (V : ℤ → Dir) (vol : List ℤ → ℚ) (cent : List ℤ → Fin 2 → ℚ) : Prop where
  area : ∀ l, 2 * vol l = ((polyEdges V l).map edgeDet).sum
  centre : ∀ l i, vol l ≠ 0 → 6 * (cent l i * vol l) = ((polyEdges V l).map fun e => edgeDet e * (xy e.1 i + xy e.2 i)).sum

/-- a triangle. -/
abbrev T2 := Dir × Dir × Dir

/-- its signed area. -/
def T2.area (t : T2) : ℚ :=
  ((t.2.1.1 - t.1.1) * (t.2.2.2 - t.1.2) - (t.2.2.1 - t.1.1) * (t.2.1.2 - t.1.2)) / 2

/-- its centre of mass. -/
def T2.centre (t : T2) (i : Fin 2) : ℚ := (xy t.1 i + xy t.2.1 i + xy t.2.2 i) / 3

/-- its edges. -/
def T2.edges (t : T2) : List (Dir × Dir) := [(t.1, t.2.1), (t.2.1, t.2.2), (t.2.2, t.1)]

/-- the loops are the oriented boundary of the figure made of the triangles: common edges of neighbouring triangles cancel.
Holes are loops of the opposite orientation. -/
def Bounds (V : ℤ → Dir) (loops : List (List ℤ)) (figure : List T2) : Prop :=
  ∀ F : Dir × Dir → ℚ, (∀ a b, F (b, a) = - F (a, b)) →
    (loops.map fun l => ((polyEdges V l).map F).sum).sum = (figure.map fun t => (t.edges.map F).sum).sum

/-- area of the figure. -/
def area (figure : List T2) : ℚ := (figure.map T2.area).sum

/-- `c` is the centre of mass of the figure. -/
def IsCentre (figure : List T2) (c : Fin 2 → ℚ) : Prop :=
  ∀ i, c i * area figure = (figure.map fun t => T2.area t * T2.centre t i).sum

/-! ## proofs -/

theorem fold_eq (vol : List ℤ → ℚ) (cent : List ℤ → Fin 2 → ℚ) (loops : List (List ℤ)) (r : (Fin 2 → ℚ) × ℚ) :
    loops.foldl (fun r l => ((fun i => r.1 i + cent l i * vol l, r.2 + vol l) : (Fin 2 → ℚ) × ℚ)) r =
      (fun i => r.1 i + (loops.map fun l => cent l i * vol l).sum, r.2 + (loops.map vol).sum) := by
  induction loops generalizing r with
  | nil => simp
  | cons l ls ih =>
    rw [List.foldl_cons, ih]
    simp only [List.map_cons, List.sum_cons, Prod.mk.injEq]
    refine ⟨?_, by ring⟩
    funext i; ring

theorem sum_mul {α : Type*} (k : ℚ) (g : α → ℚ) (l : List α) : k * (l.map g).sum = (l.map fun x => k * g x).sum := by
  induction l with
  | nil => simp
  | cons a l ih => rw [List.map_cons, List.sum_cons, List.map_cons, List.sum_cons, ← ih]; ring

theorem det_edges (t : T2) : (t.edges.map edgeDet).sum = 2 * T2.area t := by
  obtain ⟨a, b, c⟩ := t
  simp only [T2.edges, T2.area, edgeDet, List.map_cons, List.map_nil, List.sum_cons, List.sum_nil]
  ring

theorem mom_edges (t : T2) (i : Fin 2) :
    (t.edges.map fun e => edgeDet e * (xy e.1 i + xy e.2 i)).sum = 6 * (T2.area t * T2.centre t i) := by
  obtain ⟨a, b, c⟩ := t
  simp only [T2.edges, T2.area, T2.centre, edgeDet, List.map_cons, List.map_nil, List.sum_cons, List.sum_nil]
  match i with
  | 0 => simp only [xy, if_true]; ring
  | 1 =>
    have h : ((1 : Fin 2) = 0) = False := by simp
    simp only [xy, h, if_false]; ring

theorem map_congr {α : Type*} {f g : α → ℚ} {l : List α} (h : ∀ x ∈ l, f x = g x) : (l.map f).sum = (l.map g).sum := by
  rw [List.map_congr_left h]

/-- **C89.** The centroid of a cut face is the centre of mass of the figure its loops bound, holes included, whenever
the area of the figure and of each loop is not zero. -/
theorem C89_cut (V : ℤ → Dir) (vol : List ℤ → ℚ) (cent : List ℤ → Fin 2 → ℚ) (hlib : PolygonLib V vol cent)
    (origin dx : Fin 2 → ℚ) (M : Locate.Mesh2) (k : ℕ) (loops : List (List ℤ)) (hk : M.faces[k]? = some loops)
    (hl : ∀ l ∈ loops, ((polyEdges V l).map edgeDet).sum ≠ 0) (figure : List T2) (hb : Bounds V loops figure)
    (ha : area figure ≠ 0) :
    ∃ c, (centroids vol cent origin dx M)[k]? = some (some c) ∧ IsCentre figure c := by
  have hd := hb edgeDet (fun a b => by simp only [edgeDet]; ring)
  have hm := fun i => hb (fun e => edgeDet e * (xy e.1 i + xy e.2 i)) (fun a b => by simp only [edgeDet]; ring)
  simp only [det_edges, mom_edges] at hd hm
  have e1 : (loops.map vol).sum = area figure := by
    have h1 : 2 * (loops.map vol).sum = 2 * area figure := by
      rw [sum_mul, map_congr (fun l _ => hlib.area l), hd, ← sum_mul, area]
    linarith
  have e2 : ∀ i, (loops.map fun l => cent l i * vol l).sum = (figure.map fun t => T2.area t * T2.centre t i).sum := by
    intro i
    have h1 : 6 * (loops.map fun l => cent l i * vol l).sum = 6 * (figure.map fun t => T2.area t * T2.centre t i).sum := by
      rw [sum_mul, map_congr (g := fun l => ((polyEdges V l).map fun e => edgeDet e * (xy e.1 i + xy e.2 i)).sum), hm, ← sum_mul]
      intro l hll
      refine hlib.centre l i ?_
      have h2 := hlib.area l
      have h3 := hl l hll
      intro h0
      rw [h0, mul_zero] at h2
      exact h3 h2.symm
    linarith
  refine ⟨fun i => (figure.map fun t => T2.area t * T2.centre t i).sum / area figure, ?_, ?_⟩
  · unfold centroids
    rw [List.getElem?_append_left, List.getElem?_map, hk]
    · unfold brepCentroid
      simp only [Option.map_some, fold_eq, zero_add, e1, e2]
      rw [if_neg ha]
    · rw [List.length_map]
      exact (List.getElem?_eq_some_iff.1 hk).1
  · intro i
    simp only
    field_simp

/-- **C89.** The centroid of an exterior cell is the midpoint of its lower and upper corner, at the cell's global number. -/
theorem C89_exterior (vol : List ℤ → ℚ) (cent : List ℤ → Fin 2 → ℚ) (origin dx : Fin 2 → ℚ) (M : Locate.Mesh2) (k : ℕ) (c : Coord 2)
    (hk : M.ext.cellCoords[k]? = some c) :
    ∃ p, (centroids vol cent origin dx M)[M.faces.length + k]? = some (some p) ∧
      ∀ i, 2 * p i = (origin i + dx i * (c i : ℚ)) + (origin i + dx i * ((c i + 1 : ℤ) : ℚ)) := by
  refine ⟨cellGridVertex origin dx c, ?_, ?_⟩
  · unfold centroids
    have e : M.faces.length = (M.faces.map (brepCentroid vol cent)).length := by simp
    rw [e, List.getElem?_append_right (by omega), Nat.add_sub_cancel_left, List.getElem?_map, hk]
    rfl
  · intro i
    unfold cellGridVertex
    push_cast; ring

/-- **C89.** There is one column for each cell. -/
theorem C89_size (vol : List ℤ → ℚ) (cent : List ℤ → Fin 2 → ℚ) (origin dx : Fin 2 → ℚ) (M : Locate.Mesh2) :
    (centroids vol cent origin dx M).length = M.faces.length + M.ext.cellCoords.length := by
  simp [centroids]

/-- **C89.** A face without loops, or more generally one whose loops enclose areas that cancel, has no centroid. -/
theorem C89_zero_area (V : ℤ → Dir) (vol : List ℤ → ℚ) (cent : List ℤ → Fin 2 → ℚ) (hlib : PolygonLib V vol cent)
    (origin dx : Fin 2 → ℚ) (M : Locate.Mesh2) (k : ℕ) (loops : List (List ℤ)) (hk : M.faces[k]? = some loops)
    (h0 : (loops.map fun l => ((polyEdges V l).map edgeDet).sum).sum = 0) :
    (centroids vol cent origin dx M)[k]? = some none := by
  have e1 : (loops.map vol).sum = 0 := by
    have h1 : 2 * (loops.map vol).sum = 0 := by
      rw [sum_mul, map_congr (fun l _ => hlib.area l), h0]
    linarith
  unfold centroids
  rw [List.getElem?_append_left, List.getElem?_map, hk]
  · unfold brepCentroid
    simp only [Option.map_some, fold_eq, zero_add, e1, if_true]
  · rw [List.length_map]
    exact (List.getElem?_eq_some_iff.1 hk).1

/-! ## example: a square with a square hole -/

/-- the square from 0 to 4 and the square from 1 to 2. -/
def exV : ℤ → Dir := fun v =>
  if v = 0 then (0, 0) else if v = 1 then (4, 0) else if v = 2 then (4, 4) else if v = 3 then (0, 4)
  else if v = 4 then (1, 1) else if v = 5 then (2, 1) else if v = 6 then (2, 2) else (1, 2)

/-- the contract can be met, for any points. -/
theorem exLib (V : ℤ → Dir) : PolygonLib V (fun l => ((polyEdges V l).map edgeDet).sum / 2)
    (fun l i => ((polyEdges V l).map fun e => edgeDet e * (xy e.1 i + xy e.2 i)).sum / (3 * ((polyEdges V l).map edgeDet).sum)) := by
  constructor
  · intro l; ring
  · intro l i h
    have : ((polyEdges V l).map edgeDet).sum ≠ 0 := by intro h0; exact h (by rw [h0]; simp)
    field_simp
    ring

/-- the loops bound the square minus the hole. -/
theorem exBounds : Bounds exV [[0, 1, 2, 3], [4, 7, 6, 5]]
    [((0, 0), (4, 0), (4, 4)), ((0, 0), (4, 4), (0, 4)), ((1, 1), (2, 2), (2, 1)), ((1, 1), (1, 2), (2, 2))] := by
  intro F hF
  have h1 := hF (0, 0) (4, 4)
  have h2 := hF (1, 1) (2, 2)
  simp [polyEdges, List.rotate, exV, T2.edges]
  linarith

example : (∀ l ∈ ([[0, 1, 2, 3], [4, 7, 6, 5]] : List (List ℤ)), ((polyEdges exV l).map edgeDet).sum ≠ 0) ∧
    area [((0, 0), (4, 0), (4, 4)), ((0, 0), (4, 4), (0, 4)), ((1, 1), (2, 2), (2, 1)), ((1, 1), (1, 2), (2, 2))] = 15 := by
  decide +kernel

end Centroid2
end Mandoline
