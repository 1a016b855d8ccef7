import Verif.Core.GridIndex
import Verif.Geom.VertexLemmas
import Mathlib.Tactic.FinCases

/-!
# Model of `SubGridTransformer` (include/mandoline/construction/subgrid_transformer.hpp,
src/construction/subgrid_transformer.cpp): passing between the grid and its axis-orthogonal planes
-/
namespace Mandoline

/-- the in-plane axis `(i + axis + 1) % 3` (subgrid_transformer.hpp:61, 72). -/
def planeAxis (axis : Fin 3) (i : Fin 2) : Fin 3 := ⟨(i.1 + axis.1 + 1) % 3, Nat.mod_lt _ (by decide)⟩

/-- `_downgrade` (subgrid_transformer.hpp:56-65). -/
def sgDown {α : Type*} (axis : Fin 3) (c3 : Fin 3 → α) : Fin 2 → α := fun i => c3 (planeAxis axis i)

/-- `_upgrade` (subgrid_transformer.hpp:66-76): `init` is the uninitialised array, then the assignment of the
axis and the loop over `i`. -/
def sgUp {α : Type*} (axis : Fin 3) (init : Fin 3 → α) (inp : Fin 2 → α) (v : α) : Fin 3 → α :=
  (List.finRange 2).foldl (fun c3 i => Function.update c3 (planeAxis axis i) (inp i)) (Function.update init axis v)

/-- `downgrade(Vertex<3>)` (subgrid_transformer.cpp:51-53). -/
def sgDownVertex (axis : Fin 3) (p : Vertex 3) : Vertex 2 :=
  ⟨sgDown axis p.coord, sgDown axis p.quot, sgDown axis p.clamped⟩

/-- `upgrade(Vertex<2>)` (subgrid_transformer.cpp:54-56): the coordinate takes the plane `c`, the fraction 0 and
the flag `true` (lines 10, 11, 20). -/
def sgUpVertex (axis : Fin 3) (c : ℤ) (ic : Coord 3) (iq : Pt 3) (ib : Fin 3 → Bool) (p : Vertex 2) : Vertex 3 :=
  ⟨sgUp axis ic p.coord c, sgUp axis iq p.quot 0, sgUp axis ib p.clamped true⟩

/-- `int downgrade(int)` (subgrid_transformer.cpp:24-26); `un3` is `g3.vertex_unindex`, `ix2` is `g2.vertex_index`. -/
def sgDownIdx (axis : Fin 3) (un3 : ℤ → Coord 3) (ix2 : Coord 2 → ℤ) (k : ℤ) : ℤ := ix2 (sgDown axis (un3 k))

/-- `int upgrade(int, int)` (subgrid_transformer.cpp:30-32). -/
def sgUpIdx (axis : Fin 3) (un2 : ℤ → Coord 2) (ix3 : Coord 3 → ℤ) (ic : Coord 3) (k v : ℤ) : ℤ :=
  ix3 (sgUp axis ic (un2 k) v)

theorem planeAxis_ne (axis : Fin 3) (i : Fin 2) : planeAxis axis i ≠ axis := by revert axis i; decide
theorem planeAxis_inj (axis : Fin 3) (i j : Fin 2) : planeAxis axis i = planeAxis axis j → i = j := by
  revert axis i j; decide
theorem planeAxis_cover (axis j : Fin 3) : j = axis ∨ ∃ i, j = planeAxis axis i := by revert axis j; decide

theorem sgUp_axis {α : Type*} (axis : Fin 3) (init : Fin 3 → α) (inp : Fin 2 → α) (v : α) :
    sgUp axis init inp v axis = v := by
  have h0 := (planeAxis_ne axis 0).symm
  have h1 := (planeAxis_ne axis 1).symm
  simp [sgUp, List.finRange_succ, h0, h1]

theorem sgUp_plane {α : Type*} (axis : Fin 3) (init : Fin 3 → α) (inp : Fin 2 → α) (v : α) (i : Fin 2) :
    sgUp axis init inp v (planeAxis axis i) = inp i := by
  have h01 : planeAxis axis 0 ≠ planeAxis axis 1 := fun h => absurd (planeAxis_inj _ _ _ h) (by decide)
  fin_cases i <;> simp [sgUp, List.finRange_succ, h01]

/-- **C40** the in-plane axes are the two cyclic successors of the axis: together with it they are the three axes,
in a right-handed order. -/
theorem C40_plane_axes (axis : Fin 3) :
    planeAxis axis 0 = axis + 1 ∧ planeAxis axis 1 = axis + 2 ∧
    ∀ j, j = axis ∨ j = planeAxis axis 0 ∨ j = planeAxis axis 1 := by
  revert axis; decide

/-- **C40** removing the axis after inserting any value gives the plane coordinates back, whatever the
uninitialised array contained. -/
theorem C40_down_up {α : Type*} (axis : Fin 3) (init : Fin 3 → α) (c2 : Fin 2 → α) (v : α) :
    sgDown axis (sgUp axis init c2 v) = c2 := by
  funext i; exact sgUp_plane axis init c2 v i

/-- **C40** inserting `k` after removing the axis gives the coordinate back iff it lay in plane `k`. -/
theorem C40_up_down {α : Type*} (axis : Fin 3) (init : Fin 3 → α) (c3 : Fin 3 → α) (k : α) :
    sgUp axis init (sgDown axis c3) k = c3 ↔ c3 axis = k := by
  constructor
  · intro h; rw [← h, sgUp_axis]
  · intro h
    funext j
    rcases planeAxis_cover axis j with rfl | ⟨i, rfl⟩
    · rw [sgUp_axis, h]
    · rw [sgUp_plane]; rfl

/-- **C40** `upgrade` is determined by its values: the axis entry is `v`, the successor entries are the plane's. -/
theorem C40_upgrade_values {α : Type*} (axis : Fin 3) (init : Fin 3 → α) (c2 : Fin 2 → α) (v : α) :
    sgUp axis init c2 v axis = v ∧ sgUp axis init c2 v (axis + 1) = c2 0 ∧ sgUp axis init c2 v (axis + 2) = c2 1 := by
  refine ⟨sgUp_axis .., ?_, ?_⟩
  · rw [← (C40_plane_axes axis).1, sgUp_plane]
  · rw [← (C40_plane_axes axis).2.1, sgUp_plane]

/-- **C40** lifting a plane vertex puts it exactly in the plane, at the same in-plane position and flagged as lying
on it; projecting again gives the vertex back. -/
theorem C40_vertex_up (axis : Fin 3) (c : ℤ) (ic : Coord 3) (iq : Pt 3) (ib : Fin 3 → Bool) (p : Vertex 2) :
    let q := sgUpVertex axis c ic iq ib p
    q.p axis = c ∧ q.clamped axis = true ∧ (∀ i : Fin 2, q.p (planeAxis axis i) = p.p i) ∧
      sgDownVertex axis q = p := by
  refine ⟨?_, ?_, ?_, ?_⟩
  · simp [Vertex.p, sgUpVertex, sgUp_axis]
  · simp [sgUpVertex, sgUp_axis]
  · intro i; simp [Vertex.p, sgUpVertex, sgUp_plane]
  · simp only [sgDownVertex, sgUpVertex, C40_down_up]

/-- **C40** a 3D vertex survives projection to plane `c` and back iff it lies exactly in that plane and says so. -/
theorem C40_vertex_down (axis : Fin 3) (c : ℤ) (ic : Coord 3) (iq : Pt 3) (ib : Fin 3 → Bool) (p : Vertex 3) :
    sgUpVertex axis c ic iq ib (sgDownVertex axis p) = p ↔
      p.coord axis = c ∧ p.quot axis = 0 ∧ p.clamped axis = true := by
  rw [Vertex.ext_iff]
  simp only [sgUpVertex, sgDownVertex, C40_up_down]

/-- **C40** vertex indices: with dense indexings of the grid and of its plane (the plane has the shape of the
in-plane axes), lifting and projecting an index are inverse, and a projected index lifts back iff the vertex lies
in the plane. -/
theorem C40_index_roundtrip (axis : Fin 3) (shape : Coord 3) (G3 : GridIndexer shape)
    (G2 : GridIndexer (sgDown axis shape)) (un3 : ℤ → Coord 3) (un2 : ℤ → Coord 2)
    (h3 : ∀ c, ValidIndex shape c = true → un3 (G3.idx c) = c)
    (h2 : ∀ c, ValidIndex (sgDown axis shape) c = true → un2 (G2.idx c) = c) (ic : Coord 3) :
    (∀ k v, 0 ≤ k → k < G2.size → 0 ≤ v → v < shape axis →
      (0 ≤ sgUpIdx axis un2 G3.idx ic k v ∧ sgUpIdx axis un2 G3.idx ic k v < G3.size) ∧
      sgDownIdx axis un3 G2.idx (sgUpIdx axis un2 G3.idx ic k v) = k) ∧
    (∀ k v, 0 ≤ k → k < G3.size → 0 ≤ v → v < shape axis →
      (0 ≤ sgDownIdx axis un3 G2.idx k ∧ sgDownIdx axis un3 G2.idx k < G2.size) ∧
      (sgUpIdx axis un2 G3.idx ic (sgDownIdx axis un3 G2.idx k) v = k ↔ un3 k axis = v)) := by
  constructor
  · intro k v hk0 hk hv0 hv
    obtain ⟨c, hc, rfl⟩ := G2.surj k hk0 hk
    have hval : ValidIndex shape (sgUp axis ic c v) = true := by
      rw [validIndex_iff] at hc ⊢
      intro j
      rcases planeAxis_cover axis j with rfl | ⟨i, rfl⟩
      · rw [sgUp_axis]; exact ⟨hv0, hv⟩
      · rw [sgUp_plane]; exact hc i
    simp only [sgUpIdx, sgDownIdx, h2 c hc]
    refine ⟨G3.bound _ hval, ?_⟩
    rw [h3 _ hval, C40_down_up]
  · intro k v hk0 hk hv0 hv
    obtain ⟨c, hc, rfl⟩ := G3.surj k hk0 hk
    have hval : ValidIndex (sgDown axis shape) (sgDown axis c) = true := by
      rw [validIndex_iff] at hc ⊢
      intro i; exact hc _
    simp only [sgUpIdx, sgDownIdx, h3 c hc]
    refine ⟨G2.bound _ hval, ?_⟩
    rw [h2 _ hval]
    constructor
    · intro h
      have hu : ValidIndex shape (sgUp axis ic (sgDown axis c) v) = true := by
        rw [validIndex_iff] at hc ⊢
        intro j
        rcases planeAxis_cover axis j with rfl | ⟨i, rfl⟩
        · rw [sgUp_axis]; exact ⟨hv0, hv⟩
        · rw [sgUp_plane]; exact hc _
      exact (C40_up_down axis ic c v).1 (G3.inj _ _ hu hc h)
    · intro h; rw [(C40_up_down axis ic c v).2 h]

example : sgDown 1 ![(10 : ℤ), 20, 30] = ![30, 10] ∧ sgUp 1 ![7, 7, 7] ![30, 10] 20 = ![(10 : ℤ), 20, 30] := by decide
example : ∃ (G3 : GridIndexer (![2, 3, 4] : Coord 3)) (G2 : GridIndexer (sgDown 1 (![2, 3, 4] : Coord 3))),
    G3.idx ![1, 2, 3] = 23 ∧ G2.idx ![3, 1] = 7 :=
  ⟨linIndexer _ (by decide), linIndexer _ (by decide), by decide, by decide⟩

end Mandoline
