import Verif.Core.GridIndex
import Verif.Geom.Vertex
import Mathlib.Data.Int.Lemmas
import Mathlib.Tactic.Linarith
import Mathlib.Tactic.Ring

/-!
# C88: the vertex arrays of a mesh

`CutCellMeshBase<D>::vertices`, `grid_space_vertices`, `vertex`, `masked_vertex`, `grid_edge`, `cut_vertices_colvecs`
(include/mandoline/mesh_impl.hpp:6-46, 63-101).
-/
namespace Mandoline
namespace Vertices
variable {D : ℕ}

/-- `vertex_unindex` of the grid library: coordinates of the vertex with linear index `k`, first axis fastest. -/
def unindex : (D : ℕ) → (shape : Coord D) → ℤ → Coord D
  | 0, _, _ => fun i => i.elim0
  | n + 1, s, k => Fin.cons (k % s 0) (unindex n (fun i => s i.succ) (k / s 0))

/-- what the vertex queries read of a mesh: vertex shape, origin, spacing, cut vertices. -/
structure VMesh (D : ℕ) where
  shape : Coord D
  origin : Fin D → ℚ
  dx : Fin D → ℚ
  cut : List (Vertex D)

namespace VMesh
variable (M : VMesh D)

/-- `StaggeredGrid::vertex_size()`. -/
def gridSize : ℤ := linSize D M.shape

/-- `world_coord` of the vertex grid. -/
def world (p : Fin D → ℚ) : Fin D → ℚ := fun i => M.origin i + M.dx i * p i

/-- `get_world_vertex` (mesh_impl.hpp:6-11). -/
def getWorldVertex (v : Vertex D) : Fin D → ℚ := M.world v.p

/-- `num_vertices()` (mesh_impl.hpp:24-26). -/
def numVertices : ℤ := M.gridSize + M.cut.length

/-- `masked_vertex` (mesh_impl.hpp:36-46): `none` for an index out of range. -/
def maskedVertex (k : ℤ) : Option (Vertex D) :=
  if k < 0 then none
  else if k < M.gridSize then some (Vertex.ofCoord (unindex D M.shape k))
  else M.cut[(k - M.gridSize).toNat]?

/-- `vertex` (mesh_impl.hpp:31-33). -/
def vertex (k : ℤ) : Option (Fin D → ℚ) := (M.maskedVertex k).map M.getWorldVertex

/-- `grid_space_cut_vertices_colvecs` (mesh_impl.hpp:69-75). -/
def gridSpaceCut : List (Fin D → ℚ) := M.cut.map Vertex.p

/-- `cut_vertices_colvecs` (mesh_impl.hpp:76-87). -/
def cutColVecs : List (Fin D → ℚ) := M.gridSpaceCut.map M.world

/-- `StaggeredGrid::local_vertices()`: the integer coordinates of the grid vertices in index order. -/
def gridLocal : List (Fin D → ℚ) := (List.range M.gridSize.toNat).map fun (k : ℕ) => fun i => (unindex D M.shape (k : ℤ) i : ℚ)

/-- `vertices()` (mesh_impl.hpp:60-63): `StaggeredGrid::vertices()` are the world positions of the grid vertices. -/
def vertices : List (Fin D → ℚ) := M.gridLocal.map M.world ++ M.cutColVecs

/-- `grid_space_vertices()` (mesh_impl.hpp:64-67). -/
def gridSpaceVertices : List (Fin D → ℚ) := M.gridLocal ++ M.cutColVecs

/-- `grid_edge(coord, type)` (mesh_impl.hpp:88-93). -/
def gridEdge (c : Coord D) (t : Fin D) : ℤ × ℤ :=
  (linIndex D M.shape c, linIndex D M.shape (Function.update c t (c t + 1)))

end VMesh

/-! ## indices -/

theorem linSize_nonneg : ∀ (D : ℕ) (s : Coord D), (∀ i, 0 ≤ s i) → 0 ≤ linSize D s
  | 0, _, _ => by simp [linSize]
  | n + 1, s, h => by
    unfold linSize
    exact mul_nonneg (h 0) (linSize_nonneg n _ fun i => h i.succ)

/-- `unindex` inverts the linear index. -/
theorem unindex_linIndex : ∀ (D : ℕ) (s c : Coord D), (∀ i, 0 ≤ c i ∧ c i < s i) → unindex D s (linIndex D s c) = c
  | 0, _, _, _ => by funext i; exact i.elim0
  | n + 1, s, c, h => by
    have h0 := h 0
    unfold unindex linIndex
    have e1 : (c 0 + s 0 * linIndex n (fun i => s i.succ) fun i => c i.succ) % s 0 = c 0 := by
      rw [Int.add_mul_emod_self_left, Int.emod_eq_of_lt h0.1 h0.2]
    have e2 : (c 0 + s 0 * linIndex n (fun i => s i.succ) fun i => c i.succ) / s 0 = linIndex n (fun i => s i.succ) fun i => c i.succ := by
      rw [Int.add_mul_ediv_left _ _ (by omega), Int.ediv_eq_zero_of_lt h0.1 h0.2, zero_add]
    rw [e1, e2, unindex_linIndex n _ _ fun i => h i.succ]
    funext i
    refine Fin.cases ?_ (fun j => ?_) i
    · rfl
    · rfl

namespace VMesh
variable (M : VMesh D)

theorem gridLocal_length (h : ∀ i, 0 ≤ M.shape i) : (M.gridLocal.length : ℤ) = M.gridSize := by
  have := linSize_nonneg D M.shape h
  simp only [gridLocal, List.length_map, List.length_range, gridSize]
  omega

theorem gridLocal_getElem (c : Coord D) (hc : ∀ i, 0 ≤ c i ∧ c i < M.shape i) :
    M.gridLocal[(linIndex D M.shape c).toNat]? = some fun i => (c i : ℚ) := by
  have hb := linIndex_bound D M.shape c hc
  unfold gridLocal
  rw [List.getElem?_map, List.getElem?_range (by unfold gridSize; omega)]
  simp only [Option.map_some, Option.some.injEq]
  have : (((linIndex D M.shape c).toNat : ℕ) : ℤ) = linIndex D M.shape c := by omega
  rw [this, unindex_linIndex D M.shape c hc]

/-- **C88.** `vertices()` has one column per vertex; the column numbered by a grid vertex is the world position of this
grid vertex, the columns after the grid vertices are the world positions of the cut vertices in order. -/
theorem C88_vertices (hs : ∀ i, 0 ≤ M.shape i) :
    (M.vertices.length : ℤ) = M.numVertices ∧
    (∀ c : Coord D, (∀ i, 0 ≤ c i ∧ c i < M.shape i) →
      M.vertices[(linIndex D M.shape c).toNat]? = some fun i => M.origin i + M.dx i * c i) ∧
    (∀ (k : ℕ) v, M.cut[k]? = some v →
      M.vertices[(linSize D M.shape).toNat + k]? = some fun i => M.origin i + M.dx i * (v.coord i + v.quot i)) := by
  have hl := M.gridLocal_length hs
  have hn : (0 : ℤ) ≤ M.gridSize := linSize_nonneg D M.shape hs
  refine ⟨?_, ?_, ?_⟩
  · unfold vertices cutColVecs gridSpaceCut numVertices
    simp only [List.length_append, List.length_map]
    push_cast
    rw [hl]
  · intro c hc
    unfold vertices
    rw [List.getElem?_append_left, List.getElem?_map, M.gridLocal_getElem c hc]
    · rfl
    · have := linIndex_bound D M.shape c hc
      rw [List.length_map]
      have h2 : M.gridSize = linSize D M.shape := rfl
      omega
  · intro k v hv
    unfold vertices
    have e : (linSize D M.shape).toNat = (M.gridLocal.map M.world).length := by
      rw [List.length_map]
      have h2 : M.gridSize = linSize D M.shape := rfl
      omega
    rw [e, List.getElem?_append_right (by omega), Nat.add_sub_cancel_left]
    unfold cutColVecs gridSpaceCut
    rw [List.getElem?_map, List.getElem?_map, hv]
    rfl

/-- **C88.** `vertex(i)` and column `i` of `vertices()` agree for every index, and no index outside of the array has a
vertex. -/
theorem C88_vertex (hs : ∀ i, 0 ≤ M.shape i) (k : ℤ) :
    (0 ≤ k → M.vertex k = M.vertices[k.toNat]?) ∧ ((M.vertex k).isSome = true ↔ 0 ≤ k ∧ k < M.numVertices) := by
  have hl := M.gridLocal_length hs
  have key : 0 ≤ k → M.vertex k = M.vertices[k.toNat]? := by
    intro h0
    unfold vertex maskedVertex
    rw [if_neg (by omega)]
    by_cases h1 : k < M.gridSize
    · rw [if_pos h1]
      unfold vertices
      rw [List.getElem?_append_left (by rw [List.length_map]; omega), List.getElem?_map]
      unfold gridLocal
      rw [List.getElem?_map, List.getElem?_range (by omega)]
      have : ((k.toNat : ℕ) : ℤ) = k := by omega
      simp only [Option.map_some, this, Option.some.injEq]
      unfold getWorldVertex
      congr 1
      funext i
      simp [Vertex.ofCoord, Vertex.p]
    · rw [if_neg h1]
      unfold vertices
      rw [List.getElem?_append_right (by rw [List.length_map]; omega), List.length_map]
      unfold cutColVecs gridSpaceCut
      rw [List.getElem?_map, List.getElem?_map, Option.map_map]
      have : k.toNat - M.gridLocal.length = (k - M.gridSize).toNat := by omega
      rw [this]
      rfl
  refine ⟨key, ?_⟩
  by_cases h0 : 0 ≤ k
  · rw [key h0]
    have hlen := (M.C88_vertices hs).1
    constructor
    · intro h
      refine ⟨h0, ?_⟩
      by_contra hc
      rw [List.getElem?_eq_none (by omega)] at h
      simp at h
    · rintro ⟨_, h⟩
      rw [List.getElem?_eq_getElem (by omega)]
      rfl
  · constructor
    · intro h
      unfold vertex maskedVertex at h
      rw [if_pos (by omega)] at h
      simp at h
    · rintro ⟨h, _⟩
      exact absurd h h0

/-- **C88.** `grid_edge(c, t)` joins the vertex at `c` with the vertex one step further along axis `t`. -/
theorem C88_grid_edge (hs : ∀ i, 0 ≤ M.shape i) (c : Coord D) (t : Fin D) (hc : ∀ i, 0 ≤ c i ∧ c i < M.shape i) (ht : c t + 1 < M.shape t) :
    ∃ a b, M.vertex (M.gridEdge c t).1 = some a ∧ M.vertex (M.gridEdge c t).2 = some b ∧
      ∀ i, a i = M.origin i + M.dx i * c i ∧ b i = a i + (if i = t then M.dx i else 0) := by
  have hc' : ∀ i, 0 ≤ Function.update c t (c t + 1) i ∧ Function.update c t (c t + 1) i < M.shape i := by
    intro i
    by_cases e : i = t
    · subst e
      rw [Function.update_self]
      exact ⟨by have := (hc i).1; omega, ht⟩
    · rw [Function.update_of_ne e]
      exact hc i
  have b1 := linIndex_bound D M.shape c hc
  have b2 := linIndex_bound D M.shape _ hc'
  refine ⟨_, _, ((M.C88_vertex hs _).1 b1.1).trans ((M.C88_vertices hs).2.1 c hc),
    ((M.C88_vertex hs _).1 b2.1).trans ((M.C88_vertices hs).2.1 _ hc'), ?_⟩
  · intro i
    refine ⟨rfl, ?_⟩
    by_cases e : i = t
    · subst e
      simp only [Function.update_self, if_true]
      push_cast; ring
    · simp only [Function.update_of_ne e, if_neg e, add_zero]

/-- **C88.** `grid_space_vertices()` holds grid-space positions of the grid vertices only: a cut vertex at grid position
`q` appears at its world position. So the column of a cut vertex is right exactly if its world position equals its grid
position. -/
theorem C88_grid_space_refuted (hs : ∀ i, 0 ≤ M.shape i) :
    (∀ c : Coord D, (∀ i, 0 ≤ c i ∧ c i < M.shape i) →
      M.gridSpaceVertices[(linIndex D M.shape c).toNat]? = some fun i => (c i : ℚ)) ∧
    (∀ (k : ℕ) v, M.cut[k]? = some v →
      (M.gridSpaceVertices[(linSize D M.shape).toNat + k]? = some (fun i => v.coord i + v.quot i) ↔
        ∀ i, M.origin i + M.dx i * (v.coord i + v.quot i) = v.coord i + v.quot i)) := by
  have hl := M.gridLocal_length hs
  have hn : (0 : ℤ) ≤ M.gridSize := linSize_nonneg D M.shape hs
  constructor
  · intro c hc
    unfold gridSpaceVertices
    rw [List.getElem?_append_left, M.gridLocal_getElem c hc]
    have := linIndex_bound D M.shape c hc
    have h2 : M.gridSize = linSize D M.shape := rfl
    omega
  · intro k v hv
    unfold gridSpaceVertices
    have e : (linSize D M.shape).toNat = M.gridLocal.length := by
      have h2 : M.gridSize = linSize D M.shape := rfl
      omega
    rw [e, List.getElem?_append_right (by omega), Nat.add_sub_cancel_left]
    unfold cutColVecs gridSpaceCut
    rw [List.getElem?_map, List.getElem?_map, hv]
    simp only [Option.map_some, Option.some.injEq]
    constructor
    · intro h i
      exact congrFun h i
    · intro h
      funext i
      exact h i

end VMesh

/-- a 2 × 3 grid with one cut vertex at grid position (1/2, 1); its world position is (12, 7). -/
def exMesh : VMesh 2 := ⟨![2, 3], ![11, 4], ![2, 3], [⟨![0, 1], ![1 / 2, 0], ![false, true]⟩]⟩

example : exMesh.numVertices = 7 ∧ exMesh.vertices[6]? = some ![12, 7] ∧ exMesh.vertices[3]? = some ![13, 7] ∧
    exMesh.gridSpaceVertices[6]? = some ![12, 7] ∧ exMesh.gridEdge ![0, 1] 0 = (2, 3) ∧ exMesh.gridEdge ![0, 1] 1 = (2, 4) := by
  decide +kernel

end Vertices
end Mandoline
