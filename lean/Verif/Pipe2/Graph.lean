import Verif.Pipe2.ListAdj
import Verif.Sched.Pieces
import Verif.Cross.GridEdge
import Verif.Face2.Facet

/-!
# C84: the 2D pipeline from the input curve to the planar cut graph

Composition of the models of the stages: conversion of the input vertices (C05), `CutData::bake` under any schedule (C51,
C74), `active_cells` (C20), `bake_active_grid_cell_mask` and `bake_edges` (C19), `generate_edges`. All hypotheses are about
the input.
-/
namespace Mandoline
namespace Pipe2
open Sched

variable {n m : ℕ}

/-- the input: vertex positions in grid units (`get_vertex`, generator.hpp:101-106, subtracts the origin and divides by
`dx`), edges, the numbers of cells of the grid; and the numbering of the grid vertices with its inverse
(`vertex_index`, `vertex_unindex` of mtao's `StaggeredGrid`). -/
structure Input (n m : ℕ) where
  V : Fin m → Pt 2
  E : Fin n → Fin m × Fin m
  shape : Coord 2
  index : GridIndexer (fun i => shape i + 1)
  unindex : ℤ → Coord 2
  unindex_idx : ∀ c, ValidIndex (fun i => shape i + 1) c = true → unindex (index.idx c) = c

variable (P : Input n m)

/-- the point of input edge `i` at parameter `t`. -/
def Input.seg (i : Fin n) (t : ℚ) : Pt 2 := segPt (P.V (P.E i).1) (P.V (P.E i).2) t

/-- what `CutData` holds when `bake` is called (generator_impl.hpp:35-62: `from_vertex` of each vertex, no threshold). -/
def Input.edgeInput : EdgeInput 2 n m where
  V k := Vertex.fromVertex (P.V k)
  E := P.E
  grid := some P.shape
  gridIndex := P.index.idx
  gridSize := P.index.size

/-- admissible input: the grid has cells, the vertices are in the box of the grid, no edge is degenerate, and no crossing of an edge with a grid
line misses another grid line by less than twice the snapping tolerance. -/
structure Input.Admissible : Prop where
  box : ∀ k i, 0 ≤ P.V k i ∧ P.V k i ≤ (P.shape i : ℚ)
  pos : ∀ i, 1 ≤ P.shape i
  ne : ∀ i, P.V (P.E i).1 ≠ P.V (P.E i).2
  sep : ∀ i, Separated (bakeTol (some P.shape)) (P.V (P.E i).1) (P.V (P.E i).2)

/-- the input is a planar straight-line graph: no vertex is in the relative interior of an edge, and the relative interiors of
two edges are disjoint. -/
structure Input.Planar : Prop where
  vertex : ∀ k i t, 0 < t → t < 1 → P.V k ≠ P.seg i t
  edge : ∀ i j s t, i ≠ j → 0 < s → s < 1 → 0 < t → t < 1 → P.seg i s ≠ P.seg j t

variable {P}

theorem tol_pos (s : Coord 2) : 0 < bakeTol (some s) := by
  unfold bakeTol myThresh
  simp only [Option.map_some]
  apply div_pos _ (by norm_num)
  have : (1 : ℤ) ≤ max 1 ((List.finRange 2).foldl (fun m i => max m (s i + 1)) 0) := le_max_left _ _
  exact_mod_cast (by omega : (0 : ℤ) < 2 * max 1 ((List.finRange 2).foldl (fun m i => max m (s i + 1)) 0))

theorem fst_p (i : Fin n) : (P.edgeInput.fst i).p = P.V (P.E i).1 := (C05_fromVertex _).1
theorem snd_p (i : Fin n) : (P.edgeInput.snd i).p = P.V (P.E i).2 := (C05_fromVertex _).1

theorem box_seg (h : P.Admissible) (i : Fin n) (t : ℚ) (h0 : 0 ≤ t) (h1 : t ≤ 1) (k : Fin 2) :
    0 ≤ P.seg i t k ∧ P.seg i t k ≤ (P.shape k : ℚ) := by
  have a := h.box (P.E i).1 k
  have b := h.box (P.E i).2 k
  unfold Input.seg segPt
  have h2 : 0 ≤ 1 - t := by linarith
  constructor
  · have := mul_nonneg h2 a.1
    have := mul_nonneg h0 b.1
    linarith
  · have := mul_le_mul_of_nonneg_left a.2 h2
    have := mul_le_mul_of_nonneg_left b.2 h0
    nlinarith

theorem ok (h : P.Admissible) : P.edgeInput.Ok P.index where
  norm k := Vertex.fromVertex_normalised _
  flags k := by
    intro i
    show (Vertex.fromVertex (P.V k)).clamped i = true ↔ IntegralAt (Vertex.fromVertex (P.V k)).p i
    rw [(C05_fromVertex (P.V k)).2.2 i, (C05_fromVertex (P.V k)).1]
  sep i := by rw [fst_p, snd_p]; exact h.sep i
  tol := tol_pos P.shape
  index := rfl
  size := rfl
  inGrid := by
    intro v hv hg
    have key : Normalised v ∧ ∀ k, 0 ≤ v.p k ∧ v.p k ≤ (P.shape k : ℚ) := by
      unfold EdgeInput.flat at hv
      rcases List.mem_append.1 hv with hv | hv
      · obtain ⟨k, _, rfl⟩ := List.mem_map.1 hv
        refine ⟨Vertex.fromVertex_normalised _, fun j => ?_⟩
        show 0 ≤ (Vertex.fromVertex (P.V k)).p j ∧ (Vertex.fromVertex (P.V k)).p j ≤ _
        rw [(C05_fromVertex (P.V k)).1]
        exact h.box k j
      · obtain ⟨i, _, hv⟩ := List.mem_flatMap.1 hv
        obtain ⟨e, he, rfl⟩ := List.mem_map.1 hv
        have hs : Separated (bakeTol P.edgeInput.grid) (P.edgeInput.fst i).p (P.edgeInput.snd i).p := by
          rw [fst_p, snd_p]; exact h.sep i
        have hp := C14_position_exact _ _ _ _ (Vertex.fromVertex_normalised _) (Vertex.fromVertex_normalised _) hs e he
        refine ⟨hp.1, fun j => ?_⟩
        obtain ⟨d, hd⟩ := (C13_crossings_represented _ _ _ _ (Vertex.fromVertex_normalised _) (Vertex.fromVertex_normalised _)).1 e he
        have := box_seg h i e.t hd.1.le hd.2.1.le j
        rw [hp.2 j, (C05_fromVertex _).1, (C05_fromVertex _).1]
        exact this
    rw [validIndex_iff]
    intro k
    obtain ⟨c, hc⟩ := hg k
    have hq := (Vertex.quot_zero_iff _ key.1 k).2 ⟨c, hc⟩
    have hv : v.p k = (v.coord k : ℚ) := by unfold Vertex.p; rw [hq, add_zero]
    obtain ⟨h0, h1⟩ := key.2 k
    rw [hv] at h0 h1
    have h0' : 0 ≤ v.coord k := by exact_mod_cast h0
    have h1' : v.coord k ≤ P.shape k := by exact_mod_cast h1
    exact ⟨h0', by omega⟩

variable (P) (cs : List (CrossingI 2)) (es : List (EdgeInput.MeshEdge 2))

/-- `GV(i)` (generator.hpp:209-215, generator_impl.hpp:544-547). -/
def Input.vertexOf (k : ℕ) : Vertex 2 :=
  if (k : ℤ) < P.index.size then Vertex.ofCoord (P.unindex k)
  else (bakeVertices P.index.size cs (k - P.index.size)).getD ⟨fun _ => 0, fun _ => 0, fun _ => false⟩

/-- `m_grid_edges` (generator_impl.hpp:736-791): `[mask, edge]` along axis 0, then along axis 1. -/
noncomputable def Input.gridEdges : List (Mask 2 × (ℤ × ℤ)) :=
  (List.finRange 2).flatMap fun d => bakeEdgesAxis P.index.idx P.shape d
    (storeWithGrid P.shape (activeCells (cs.map CrossingI.v)).toList cs d)

/-- what `generate_faces` reads of the generator after `bake`; the cut edges are the mesh edges followed by the grid edges
(`generate_edges`, generator_impl.hpp:838-842). `ci` is `cell_index`. -/
noncomputable def Input.gen (ci : Coord 2 → ℤ) : Gen2 where
  shape := P.shape
  V := P.vertexOf cs
  edges := (es.map fun e => CutEdge2.mk e.mask e.ends.1.toNat e.ends.2.toNat true) ++
    (P.gridEdges cs).map fun e => CutEdge2.mk e.1 e.2.1.toNat e.2.2.toNat false
  mask := fun c => (activeGridCellMask P.shape (cs.map CrossingI.v) c).getD true
  cellIndex := ci

/-- the edges of the planar graph handed to the face computation (generator2.cpp:32-40). -/
noncomputable def Input.graph : List DEdge := es.map (fun e => e.ends) ++ (P.gridEdges cs).map Prod.snd

/-! ## nodes -/

/-- vertex `k` of the mesh is at `x`: it is a crossing or a grid vertex. -/
def Input.Node (k : ℤ) (x : Pt 2) : Prop :=
  (∃ y ∈ cs, y.index = k ∧ y.v.p = x) ∨
  ∃ c : Coord 2, (∀ i, 0 ≤ c i ∧ c i ≤ P.shape i) ∧ P.index.idx c = k ∧ x = fun i => (c i : ℚ)

variable {P cs es}

/-- `cs` and `es` are the crossings and the cut edges that some schedule of `bake` leaves behind for the admissible input. -/
structure Run (P : Input n m) (cs : List (CrossingI 2)) (es : List (EdgeInput.MeshEdge 2)) : Prop where
  adm : P.Admissible
  baked : ∃ fs, P.edgeInput.tasks.Baked cs es fs

theorem Run.cs_eq (h : Run P cs es) : cs = P.edgeInput.crossings P.edgeInput.baked := by
  obtain ⟨fs, hb⟩ := h.baked
  exact (P.edgeInput.C51_bake2 cs es fs hb).1

theorem Run.flat (h : Run P cs es) : cs.map CrossingI.v = P.edgeInput.flat P.edgeInput.baked := by
  rw [h.cs_eq]; exact (EdgeInput.crossings_spec (ok h.adm)).1

theorem Run.norm (h : Run P cs es) : ∀ x ∈ cs, Normalised x.v ∧ FlagsExact x.v := fun x hx =>
  EdgeInput.baked_normalised (ok h.adm) x.v (by rw [← h.flat]; exact List.mem_map.2 ⟨x, hx, rfl⟩)

theorem Run.consistent (h : Run P cs es) : IndexConsistent cs := by
  rw [h.cs_eq]; exact (EdgeInput.crossings_spec (ok h.adm)).2

theorem Run.fuse (h : Run P cs es) : cs = (computeCrossings P.index.idx P.index.size (P.edgeInput.flat P.edgeInput.baked)).out :=
  h.cs_eq

theorem Run.fuse_spec (h : Run P cs es) :
    (∀ x ∈ cs, IsGridPoint x.v.p → x.index = P.index.idx x.v.coord) ∧ (∀ x ∈ cs, ¬ IsGridPoint x.v.p → P.index.size ≤ x.index) := by
  have hk := ok h.adm
  have hn := EdgeInput.baked_normalised hk
  have := C17_fuse_indices P.index _ (fun v hv => (hn v hv).1) (fun v hv => (hn v hv).2) hk.inGrid
  have h2 := C19_hypotheses_met P.index _ (fun v hv => (hn v hv).1) (fun v hv => (hn v hv).2) hk.inGrid
  dsimp only at this h2
  rw [← h.fuse] at this h2
  exact ⟨this.2.1, h2.2.2.2⟩

/-- the positions of the crossings: the input vertices and the proper crossings of the edges with grid lines. -/
theorem Run.positions (h : Run P cs es) (x : Pt 2) :
    (∃ y ∈ cs, y.v.p = x) ↔ (∃ k, P.V k = x) ∨ ∃ i t, Crosses (P.V (P.E i).1) (P.V (P.E i).2) t ∧ P.seg i t = x := by
  have hk := ok h.adm
  have hcs : (∃ y ∈ cs, y.v.p = x) ↔ ∃ v ∈ P.edgeInput.flat P.edgeInput.baked, v.p = x := by
    rw [← h.flat]
    constructor
    · rintro ⟨y, hy, rfl⟩; exact ⟨_, List.mem_map.2 ⟨y, hy, rfl⟩, rfl⟩
    · rintro ⟨v, hv, rfl⟩
      obtain ⟨y, hy, rfl⟩ := List.mem_map.1 hv
      exact ⟨y, hy, rfl⟩
  rw [hcs]
  unfold EdgeInput.flat
  constructor
  · rintro ⟨v, hv, rfl⟩
    rcases List.mem_append.1 hv with hv | hv
    · obtain ⟨k, _, rfl⟩ := List.mem_map.1 hv
      exact Or.inl ⟨k, ((C05_fromVertex (P.V k)).1).symm⟩
    · obtain ⟨i, _, hv⟩ := List.mem_flatMap.1 hv
      obtain ⟨e, he, rfl⟩ := List.mem_map.1 hv
      refine Or.inr ⟨i, e.t, ?_, ?_⟩
      · have := (C13_crossings_represented _ _ _ _ (hk.norm _) (hk.norm _)).1 e he
        rwa [show (P.edgeInput.V (P.edgeInput.E i).1).p = P.V (P.E i).1 from (C05_fromVertex _).1,
          show (P.edgeInput.V (P.edgeInput.E i).2).p = P.V (P.E i).2 from (C05_fromVertex _).1] at this
      · funext j
        rw [(C14_position_exact _ _ _ _ (hk.norm _) (hk.norm _) (hk.sep i) e he).2 j,
          show (P.edgeInput.V (P.edgeInput.E i).1).p = P.V (P.E i).1 from (C05_fromVertex _).1,
          show (P.edgeInput.V (P.edgeInput.E i).2).p = P.V (P.E i).2 from (C05_fromVertex _).1]
        rfl
  · rintro (⟨k, rfl⟩ | ⟨i, t, ht, rfl⟩)
    · exact ⟨_, List.mem_append_left _ (List.mem_map.2 ⟨k, List.mem_finRange k, rfl⟩), (C05_fromVertex (P.V k)).1⟩
    · have hc := (C13_crossings_exact ((i : ℕ) : ℤ) P.edgeInput.grid (P.edgeInput.fst i) (P.edgeInput.snd i) (hk.norm _) (hk.norm _)
        (hk.sep i)).1 t
      rw [fst_p, snd_p] at hc
      obtain ⟨e, he, rfl⟩ := List.mem_map.1 (hc.2 ht)
      refine ⟨e.v, List.mem_append_right _ (List.mem_flatMap.2 ⟨i, List.mem_finRange i, List.mem_map.2 ⟨e, he, rfl⟩⟩), ?_⟩
      funext j
      rw [(C14_position_exact _ _ _ _ (hk.norm _) (hk.norm _) (hk.sep i) e he).2 j,
          show (P.edgeInput.V (P.edgeInput.E i).1).p = P.V (P.E i).1 from (C05_fromVertex _).1,
          show (P.edgeInput.V (P.edgeInput.E i).2).p = P.V (P.E i).2 from (C05_fromVertex _).1]
      rfl

theorem Run.box (h : Run P cs es) : ∀ y ∈ cs, ∀ k, 0 ≤ y.v.p k ∧ y.v.p k ≤ (P.shape k : ℚ) := by
  intro y hy k
  rcases (h.positions y.v.p).1 ⟨y, hy, rfl⟩ with ⟨j, hj⟩ | ⟨i, t, ⟨d, hd⟩, he⟩
  · rw [← hj]; exact h.adm.box j k
  · rw [← he]; exact box_seg h.adm i t hd.1.le hd.2.1.le k

theorem Run.node_box (h : Run P cs es) {k : ℤ} {x : Pt 2} (hx : P.Node cs k x) (j : Fin 2) : 0 ≤ x j ∧ x j ≤ (P.shape j : ℚ) := by
  rcases hx with ⟨y, hy, _, rfl⟩ | ⟨c, hc, _, rfl⟩
  · exact h.box y hy j
  · show (0 : ℚ) ≤ (c j : ℚ) ∧ (c j : ℚ) ≤ (P.shape j : ℚ)
    exact ⟨by exact_mod_cast (hc j).1, by exact_mod_cast (hc j).2⟩

theorem valid_iff (c : Coord 2) : ValidIndex (fun i => P.shape i + 1) c = true ↔ ∀ i, 0 ≤ c i ∧ c i ≤ P.shape i := by
  rw [validIndex_iff]
  exact forall_congr' fun i => by omega

theorem grid_coord {v : Vertex 2} (hN : Normalised v) (c : Coord 2) (h : v.p = fun i => (c i : ℚ)) :
    v.coord = c ∧ IsGridPoint v.p := by
  have hg : IsGridPoint v.p := fun i => ⟨c i, by rw [h]⟩
  refine ⟨?_, hg⟩
  funext i
  have hq := (Vertex.quot_zero_iff _ hN i).2 (hg i)
  have : v.p i = (v.coord i : ℚ) := by unfold Vertex.p; rw [hq, add_zero]
  rw [h] at this
  have this' : (c i : ℚ) = (v.coord i : ℚ) := this
  exact_mod_cast this'.symm

/-- a mesh vertex has one position, and there is one mesh vertex at a position. -/
theorem Run.node_inj (h : Run P cs es) {k l : ℤ} {x y : Pt 2} (hx : P.Node cs k x) (hy : P.Node cs l y) : k = l ↔ x = y := by
  have mixed : ∀ (z : CrossingI 2), z ∈ cs → ∀ c : Coord 2, (∀ i, 0 ≤ c i ∧ c i ≤ P.shape i) →
      (z.index = P.index.idx c ↔ z.v.p = fun i => (c i : ℚ)) := by
    intro z hz c hc
    constructor
    · intro he
      by_cases hg : IsGridPoint z.v.p
      · have h1 := h.fuse_spec.1 z hz hg
        have h2 : ValidIndex (fun i => P.shape i + 1) z.v.coord = true := (ok h.adm).inGrid z.v (by
          rw [← h.flat]; exact List.mem_map.2 ⟨z, hz, rfl⟩) hg
        have h3 := P.index.inj _ _ h2 ((valid_iff c).2 hc) (by rw [← h1, he])
        funext i
        have hq := (Vertex.quot_zero_iff _ (h.norm z hz).1 i).2 (hg i)
        unfold Vertex.p
        rw [hq, add_zero, h3]
      · have h1 := h.fuse_spec.2 z hz hg
        have h2 := (P.index.bound c ((valid_iff c).2 hc)).2
        omega
    · intro he
      obtain ⟨h1, h2⟩ := grid_coord (h.norm z hz).1 c he
      rw [h.fuse_spec.1 z hz h2, h1]
  rcases hx with ⟨a, ha, rfl, rfl⟩ | ⟨c, hc, rfl, rfl⟩ <;> rcases hy with ⟨b, hb, rfl, rfl⟩ | ⟨c', hc', rfl, rfl⟩
  · exact h.consistent a ha b hb
  · exact mixed a ha c' hc'
  · rw [eq_comm, mixed b hb c hc, eq_comm]
  · constructor
    · intro he
      rw [P.index.inj _ _ ((valid_iff c).2 hc) ((valid_iff c').2 hc') he]
    · intro he
      have : c = c' := by funext i; have := congrFun he i; exact_mod_cast this
      rw [this]

theorem ofCoord_p (c : Coord 2) : (Vertex.ofCoord c).p = fun i => (c i : ℚ) := by
  funext i; unfold Vertex.p Vertex.ofCoord; simp

/-- indices are natural numbers, and `GV` finds the position. -/
theorem Run.node_pos (h : Run P cs es) {k : ℤ} {x : Pt 2} (hx : P.Node cs k x) :
    0 ≤ k ∧ (P.vertexOf cs k.toNat).p = x ∧ Normalised (P.vertexOf cs k.toNat) := by
  have hgrid : ∀ c : Coord 2, (∀ i, 0 ≤ c i ∧ c i ≤ P.shape i) → 0 ≤ P.index.idx c ∧
      P.vertexOf cs (P.index.idx c).toNat = Vertex.ofCoord c := by
    intro c hc
    obtain ⟨b0, b1⟩ := P.index.bound c ((valid_iff c).2 hc)
    refine ⟨b0, ?_⟩
    unfold Input.vertexOf
    rw [if_pos (by omega), Int.toNat_of_nonneg b0, P.unindex_idx c ((valid_iff c).2 hc)]
  have hgn : ∀ c : Coord 2, Normalised (Vertex.ofCoord c) := fun c i => by
    show (0 : ℚ) ≤ 0 ∧ (0 : ℚ) < 1
    norm_num
  rcases hx with ⟨y, hy, rfl, rfl⟩ | ⟨c, hc, rfl, rfl⟩
  · by_cases hg : IsGridPoint y.v.p
    · have h1 := h.fuse_spec.1 y hy hg
      have h2 : ValidIndex (fun i => P.shape i + 1) y.v.coord = true := (ok h.adm).inGrid y.v (by
          rw [← h.flat]; exact List.mem_map.2 ⟨y, hy, rfl⟩) hg
      obtain ⟨h3, h4⟩ := hgrid y.v.coord ((valid_iff _).1 h2)
      rw [h1, h4, ofCoord_p]
      refine ⟨h3, ?_, hgn _⟩
      funext i
      have hq := (Vertex.quot_zero_iff _ (h.norm y hy).1 i).2 (hg i)
      unfold Vertex.p
      rw [hq, add_zero]
    · have h1 := h.fuse_spec.2 y hy hg
      have hk := ok h.adm
      have hn := EdgeInput.baked_normalised hk
      have hsz : 0 ≤ P.index.size := by
        by_cases hs : ∀ i, 0 ≤ P.shape i
        · have := P.index.bound (fun _ => 0) ((valid_iff _).2 fun i => ⟨le_rfl, hs i⟩)
          omega
        · exfalso
          push Not at hs
          obtain ⟨i, hi⟩ := hs
          obtain ⟨b0, b1⟩ := h.box y hy i
          have : (0 : ℚ) ≤ (P.shape i : ℚ) := b0.trans b1
          have : 0 ≤ P.shape i := by exact_mod_cast this
          omega
      have hb := C17_new_vertices P.index hsz _ (fun v hv => (hn v hv).1) (fun v hv => (hn v hv).2) hk.inGrid
      dsimp only at hb
      rw [← h.fuse] at hb
      have h0 : 0 ≤ y.index := by omega
      rcases hb.1 y hy with hg' | ⟨g0, g1⟩
      · exact absurd hg' hg
      · obtain ⟨w, hw, _, hw2⟩ := hb.2 _ g0 g1
        have hv : P.vertexOf cs y.index.toNat = w := by
          unfold Input.vertexOf
          rw [if_neg (by omega), Int.toNat_of_nonneg h0, hw]
          rfl
        refine ⟨h0, by rw [hv]; exact (hw2 y hy (by omega)).symm, ?_⟩
        rw [hv]
        have : ∃ z ∈ cs, z.v = w := by
          clear hw2 hb
          unfold bakeVertices at hw
          have gen : ∀ (l : List (CrossingI 2)) (o : Option (Vertex 2)), (∀ u, o = some u → ∃ z ∈ cs, z.v = u) → (∀ z ∈ l, z ∈ cs) →
              ∀ u, l.foldl (fun cur c => if 0 ≤ c.index - P.index.size ∧ c.index - P.index.size = y.index - P.index.size then some c.v else cur) o = some u →
              ∃ z ∈ cs, z.v = u := by
            intro l
            induction l with
            | nil => intro o ho _ u hu; exact ho u hu
            | cons z l ih =>
              intro o ho hl u hu
              rw [List.foldl_cons] at hu
              refine ih _ ?_ (fun z' hz' => hl z' (List.mem_cons_of_mem _ hz')) u hu
              intro u' hu'
              split_ifs at hu' with hc
              · cases hu'; exact ⟨z, hl z List.mem_cons_self, rfl⟩
              · exact ho u' hu'
          exact gen cs none (by simp) (fun z hz => hz) w hw
        obtain ⟨z, hz, rfl⟩ := this
        exact (h.norm z hz).1
  · obtain ⟨h3, h4⟩ := hgrid c hc
    rw [h4, ofCoord_p]
    exact ⟨h3, rfl, hgn c⟩

end Pipe2
end Mandoline
