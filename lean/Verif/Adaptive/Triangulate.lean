import Verif.Adaptive.Grid
import Mathlib.Tactic.FinCases
import Mathlib.Tactic.LinearCombination
import Mathlib.Data.List.Count

/-!
# Triangulations of adaptive cells and faces

Transcription of src/adaptive_grid.cpp:128-196.
-/
namespace Mandoline

/-- `Cell::vertex(a,b,c)` (adaptive_grid.cpp:129-133). -/
def cellVertex (c : ACell 3) (a : Coord 3) : Coord 3 := fun i => c.1 i + a i * c.2

/-- `Square::vertex(a,b)` (adaptive_grid.cpp:134-141). -/
def squareVertex (axis : Fin 3) (sq : ACell 3) (a b : ℤ) : Coord 3 :=
  let c1 := Function.update sq.1 (axis + 1) (sq.1 (axis + 1) + sq.2 * a)
  Function.update c1 (axis + 2) (c1 (axis + 2) + sq.2 * b)

/-- the table of 12 triangles (adaptive_grid.cpp:147-162). -/
def cubeTable : List (Fin 8 × Fin 8 × Fin 8) :=
  [(0, 2, 1), (0, 3, 2), (2, 3, 4), (2, 4, 5), (1, 2, 5), (1, 5, 6), (0, 7, 4), (0, 4, 3), (5, 4, 7), (5, 7, 6),
   (0, 6, 7), (0, 1, 6)]

/-- the eight corners in the order of adaptive_grid.cpp:165-172. -/
def cubeCorner : Fin 8 → Coord 3 :=
  ![![0, 0, 0], ![1, 0, 0], ![1, 1, 0], ![0, 1, 0], ![0, 1, 1], ![1, 1, 1], ![1, 0, 1], ![0, 0, 1]]

/-- `triangulated(cell)` (adaptive_grid.cpp:145-177), as triples of grid vertices; the code then maps each
vertex with `vertex_index`. -/
def triangulatedCell (c : ACell 3) : List (Coord 3 × Coord 3 × Coord 3) :=
  cubeTable.map fun t => (cellVertex c (cubeCorner t.1), cellVertex c (cubeCorner t.2.1), cellVertex c (cubeCorner t.2.2))

/-- `triangulated_face(f, invert)` (adaptive_grid.cpp:181-196). -/
def triangulatedFace (axis : Fin 3) (sq : ACell 3) (invert : Bool) : List (Coord 3 × Coord 3 × Coord 3) :=
  let a := squareVertex axis sq 0 0
  let b := squareVertex axis sq 1 0
  let c := squareVertex axis sq 1 1
  let d := squareVertex axis sq 0 1
  if invert then [(a, c, d), (a, b, c)] else [(a, c, b), (a, d, c)]

/-! ## specification -/

/-- the three directed edges of a triangle. -/
def triEdges {V : Type*} (t : V × V × V) : List (V × V) := [(t.1, t.2.1), (t.2.1, t.2.2), (t.2.2, t.1)]

/-- a triangle mesh is a closed oriented surface: each directed edge occurs at most once, and if it occurs its
reverse occurs too. -/
def ClosedOriented {V : Type*} [DecidableEq V] (T : List (V × V × V)) : Prop :=
  ∀ a b, (T.flatMap triEdges).count (a, b) ≤ 1 ∧ (T.flatMap triEdges).count (a, b) = (T.flatMap triEdges).count (b, a)

/-- 3×3 determinant. -/
def det3 (p q r : Coord 3) : ℤ :=
  p 0 * (q 1 * r 2 - q 2 * r 1) - p 1 * (q 0 * r 2 - q 2 * r 0) + p 2 * (q 0 * r 1 - q 1 * r 0)

/-- six times the signed volume enclosed by a triangle mesh. -/
def sixVolume (T : List (Coord 3 × Coord 3 × Coord 3)) : ℤ := (T.map fun t => det3 t.1 t.2.1 t.2.2).sum

/-- component `i` of the cross product `(q-p)×(r-p)`, twice the area vector of a triangle. -/
def cross3 (t : Coord 3 × Coord 3 × Coord 3) (i : Fin 3) : ℤ :=
  (t.2.1 (i + 1) - t.1 (i + 1)) * (t.2.2 (i + 2) - t.1 (i + 2)) -
  (t.2.1 (i + 2) - t.1 (i + 2)) * (t.2.2 (i + 1) - t.1 (i + 1))

/-! ## theorems -/

theorem closed_map {V W : Type*} [DecidableEq V] [DecidableEq W] (f : V → W) (hf : Function.Injective f)
    (T : List (V × V × V)) (h : ClosedOriented T) :
    ClosedOriented (T.map fun t => (f t.1, f t.2.1, f t.2.2)) := by
  have he : (T.map fun t => (f t.1, f t.2.1, f t.2.2)).flatMap triEdges =
      (T.flatMap triEdges).map (Prod.map f f) := by
    rw [List.flatMap_map, List.map_flatMap]
    rfl
  intro a b
  rw [he]
  by_cases hab : ∃ x y, f x = a ∧ f y = b
  · obtain ⟨x, y, rfl, rfl⟩ := hab
    have hp : Function.Injective (Prod.map f f) := hf.prodMap hf
    have h1 := List.count_map_of_injective (T.flatMap triEdges) (Prod.map f f) hp (x, y)
    have h2 := List.count_map_of_injective (T.flatMap triEdges) (Prod.map f f) hp (y, x)
    simp only [Prod.map_apply] at h1 h2
    rw [h1, h2]
    exact h x y
  · have h1 : (a, b) ∉ (T.flatMap triEdges).map (Prod.map f f) := by
      intro hm
      obtain ⟨⟨x, y⟩, _, he⟩ := List.mem_map.1 hm
      exact hab ⟨x, y, congrArg Prod.fst he, congrArg Prod.snd he⟩
    have h2 : (b, a) ∉ (T.flatMap triEdges).map (Prod.map f f) := by
      intro hm
      obtain ⟨⟨x, y⟩, _, he⟩ := List.mem_map.1 hm
      exact hab ⟨y, x, congrArg Prod.snd he, congrArg Prod.fst he⟩
    rw [List.count_eq_zero_of_not_mem h1, List.count_eq_zero_of_not_mem h2]
    exact ⟨by omega, rfl⟩

theorem closed_table : ClosedOriented cubeTable := by unfold ClosedOriented; decide +kernel

theorem cellVertex_injective (c : ACell 3) (hw : 0 < c.2) :
    Function.Injective fun k => cellVertex c (cubeCorner k) := by
  intro a b h
  have h' : cubeCorner a = cubeCorner b := by
    funext i
    have := congrFun h i
    simp only [cellVertex] at this
    have h2 : cubeCorner a i * c.2 = cubeCorner b i * c.2 := by omega
    exact mul_right_cancel₀ hw.ne' h2
  revert h'
  clear h
  revert a b
  decide +kernel

/-- **C63.** The twelve triangles of a cell form a closed, consistently oriented surface enclosing (with the
outward orientation) exactly the volume `width³` of the cell. -/
theorem C63_triangulated_cell (c : ACell 3) (hw : 0 < c.2) :
    (triangulatedCell c).length = 12 ∧ ClosedOriented (triangulatedCell c) ∧
    sixVolume (triangulatedCell c) = 6 * c.2 ^ 3 := by
  refine ⟨rfl, ?_, ?_⟩
  · exact closed_map _ (cellVertex_injective c hw) _ closed_table
  · simp only [sixVolume, triangulatedCell, cubeTable, List.map_cons, List.map_nil, List.sum_cons, List.sum_nil,
      det3, cellVertex, cubeCorner, Matrix.cons_val]
    ring

/-- **C63.** The vertices used are the corners of the cell: each coordinate is on the low or high side. -/
theorem C63_triangulated_vertices (c : ACell 3) (t : Coord 3 × Coord 3 × Coord 3) (ht : t ∈ triangulatedCell c)
    (i : Fin 3) : (t.1 i = c.1 i ∨ t.1 i = c.1 i + c.2) ∧ (t.2.1 i = c.1 i ∨ t.2.1 i = c.1 i + c.2) ∧
      (t.2.2 i = c.1 i ∨ t.2.2 i = c.1 i + c.2) := by
  obtain ⟨x, _, rfl⟩ := List.mem_map.1 ht
  have key : ∀ k : Fin 8, cubeCorner k i = 0 ∨ cubeCorner k i = 1 := by revert i; decide +kernel
  have h : ∀ k : Fin 8, cellVertex c (cubeCorner k) i = c.1 i ∨ cellVertex c (cubeCorner k) i = c.1 i + c.2 := by
    intro k
    unfold cellVertex
    rcases key k with h | h <;> rw [h] <;> simp
  exact ⟨h _, h _, h _⟩

/-- **C64.** The two triangles of a face lie in its plane and have total area vector `width²` along the axis:
pointing to the negative side by default and to the positive side with `invert`. -/
theorem C64_triangulated_face (axis : Fin 3) (sq : ACell 3) (invert : Bool) :
    (∀ t ∈ triangulatedFace axis sq invert, t.1 axis = sq.1 axis ∧ t.2.1 axis = sq.1 axis ∧ t.2.2 axis = sq.1 axis) ∧
    ∀ i, ((triangulatedFace axis sq invert).map fun t => cross3 t i).sum =
      if i = axis then (if invert then 2 * sq.2 ^ 2 else -(2 * sq.2 ^ 2)) else 0 := by
  have hax : axis = 0 ∨ axis = 1 ∨ axis = 2 := by revert axis; decide
  constructor
  · intro t ht
    rcases hax with rfl | rfl | rfl <;> cases invert <;>
      simp only [triangulatedFace, Bool.false_eq_true, if_false, if_true, List.mem_cons, List.not_mem_nil, or_false] at ht <;>
      rcases ht with rfl | rfl <;> simp [squareVertex, Function.update]
  · intro i
    have hi : i = 0 ∨ i = 1 ∨ i = 2 := by revert i; decide
    rcases hax with rfl | rfl | rfl <;> rcases hi with rfl | rfl | rfl <;> cases invert <;>
      simp [triangulatedFace, cross3, squareVertex, Function.update, Fin.ext_iff] <;> ring

/-- **C64.** `invert` reverses the orientation of each triangle and nothing else. -/
theorem C64_invert_reverses (axis : Fin 3) (sq : ACell 3) :
    triangulatedFace axis sq true =
      ((triangulatedFace axis sq false).map fun t => (t.1, t.2.2, t.2.1)).reverse := by
  simp [triangulatedFace]

example : (triangulatedCell (![1, 2, 3], 2)).head? = some (![1, 2, 3], ![3, 4, 3], ![3, 2, 3]) ∧
    triangulatedFace 1 (![0, 0, 0], 2) true = [(![0, 0, 0], ![2, 0, 2], ![2, 0, 0]), (![0, 0, 0], ![0, 0, 2], ![2, 0, 2])] := by
  decide +kernel

end Mandoline
