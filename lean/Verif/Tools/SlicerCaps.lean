import Verif.Tools.Slicer
import Verif.Mesh.Holes

/-!
# C121: the closing faces of the planar slicer (src/tools/planar_slicer.cpp:81-134)

`CutData::stl_edges` (cutdata_impl.hpp:594-687), the edges in the sliced plane, the cells that become closing faces, and how these fit the
part of the surface that is kept (C117).
-/
namespace Mandoline
open Sched TriInput SurfInput Watertight CellCollapser EdgeInput Triangulate
namespace Slicer
variable {n m k : ℕ}

section model
variable (W : SurfInput 3 n (m + 1) k) (C : W.Choices) (R : Fin n → List (Isect 3)) (S : Fin k → List (TriIsect 3)) (cs : List (CrossingI 3))

/-- the pairs of indices inserted by `edge_edges` (cutdata_impl.hpp:604-618; `vptr_edges`, facet_intersections.hpp:156-165). -/
def edgePairs : List (ℤ × ℤ) :=
  (List.finRange n).flatMap fun i => (intervals (W.edgePath R i)).map (Prod.map (W.indexer R S cs) (W.indexer R S cs))

/-- the pairs of indices inserted by `face_edges` (cutdata_impl.hpp:646-662): `vptr_edges()` without the boundary, the pieces of the chords
(facet_intersections.hpp:353-364). The `omp critical` section only changes the order. -/
def facePairs : List (ℤ × ℤ) :=
  (List.finRange k).flatMap fun f => ((W.tri f).chords (C.ptrLt f)).flatMap fun c =>
    (intervals ((W.tri f).chordPts (C.ptrLt f) c)).map (Prod.map (W.idx R S cs f) (W.idx R S cs f))

/-- `stl_edges` (cutdata_impl.hpp:669-675): pairs of different indices, sorted, in a set. -/
def stlEdges : List (ℤ × ℤ) :=
  (edgePairs W R S cs ++ facePairs W C R S cs).foldl (fun s e => if e.1 ≠ e.2 then setInsert edgeLt (sortPair e) s else s) []
end model

/-- `is_boundary` (planar_slicer.cpp:81-95). -/
def onPlane (g : VGrid 3) (cs : List (CrossingI 3)) (i : ℤ) : Bool :=
  let planeVerts := (cs.filter fun c => decide (c.v.mask 2 = some 1)).map CrossingI.index
  if i < g.size then decide (g.unindex i 2 = 1) else planeVerts.contains i

/-- `E` (planar_slicer.cpp:100-106). -/
def planeEdges (g : VGrid 3) (cs : List (CrossingI 3)) (edges : List (ℤ × ℤ)) : List (ℤ × ℤ) :=
  edges.filter fun e => onPlane g cs e.1 && onPlane g cs e.2

/-- a cell of `ehem`: its loops (`cells_multi_component_map`, planar_slicer.cpp:113) and its entry in `signed_areas()`, if any
(planar_slicer.cpp:112). -/
structure PlaneCell where
  loops : List (List ℤ)
  area : Option ℚ

/-- the test `A.find(cid) != A.end() && A.at(cid) > 0` (planar_slicer.cpp:116). -/
def PlaneCell.capped (c : PlaneCell) : Bool := c.area.any fun a => decide (0 < a)

/-- the closing triangles (planar_slicer.cpp:115-133). `ear` is `triangulate_earclipping`, `tri` is `triangulate_triangle(VV2, false)`,
which adds no vertices (C82). -/
def caps (ear : List ℤ → List Tri) (tri : List (List ℤ) → List Tri) (cells : List PlaneCell) : List Tri :=
  (cells.filter PlaneCell.capped).flatMap fun c => match c.loops with
    | [l] => ear l
    | ls => tri ls

/-- `newF` (planar_slicer.cpp:114-133, 137-172). -/
def result (ear : List ℤ → List Tri) (tri : List (List ℤ) → List Tri) (cells : List PlaneCell) (g : VGrid 3) (cs : List (CrossingI 3))
    (fs : List (MeshFace 3)) : List Tri := caps ear tri cells ++ keptTriangles g cs fs

/-! ## specification -/

/-- the cells of the half-edge mesh made from the edges `E`: each edge is passed once in each direction by all loops together, nothing
else is. -/
def CellsOf (E : List (ℤ × ℤ)) (cells : List PlaneCell) : Prop :=
  (cells.flatMap fun c => Triangulate.loopEdges c.loops).Perm (E.flatMap fun e => [e, DEdge.rev e])

/-- how much more often the triangles `T` pass the edge `a → b` than `b → a`. -/
def netT (T : List Tri) (a b : ℤ) : ℤ := ((T.flatMap triEdges).count (a, b) : ℤ) - (T.flatMap triEdges).count (b, a)

/-- every edge is passed as often in one direction as in the other. -/
def ClosedT (T : List Tri) : Prop := ∀ a b, netT T a b = 0

/-- every edge of the input is an edge of a triangle, as `set_topology(F)` makes them. -/
def EdgesOfTriangles (W : SurfInput 3 n (m + 1) k) : Prop := ∀ i, ∃ f j, W.FE f j = i

/-! ## the edges -/

theorem sortPair_le (e : ℤ × ℤ) : (sortPair e).1 ≤ (sortPair e).2 := by
  unfold sortPair
  split
  · assumption
  · dsimp only; omega

theorem foldl_sorted_set (l : List (ℤ × ℤ)) (s : List (ℤ × ℤ)) (e : ℤ × ℤ) :
    e ∈ l.foldl (fun s e => if e.1 ≠ e.2 then setInsert edgeLt (sortPair e) s else s) s ↔
      e ∈ s ∨ ∃ x ∈ l, x.1 ≠ x.2 ∧ sortPair x = e := by
  induction l generalizing s with
  | nil => simp
  | cons a l ih =>
    rw [List.foldl_cons, ih]
    by_cases h : a.1 ≠ a.2
    · rw [if_pos h, mem_setInsert strictTotal_edgeLt]
      constructor
      · rintro ((rfl | h1) | ⟨x, hx, h2⟩)
        · exact .inr ⟨a, List.mem_cons_self, h, rfl⟩
        · exact .inl h1
        · exact .inr ⟨x, List.mem_cons_of_mem _ hx, h2⟩
      · rintro (h1 | ⟨x, hx, h2⟩)
        · exact .inl (.inr h1)
        · rcases List.mem_cons.1 hx with rfl | hx
          · exact .inl (.inl h2.2.symm)
          · exact .inr ⟨x, hx, h2⟩
    · rw [if_neg h]
      constructor
      · rintro (h1 | ⟨x, hx, h2⟩)
        · exact .inl h1
        · exact .inr ⟨x, List.mem_cons_of_mem _ hx, h2⟩
      · rintro (h1 | ⟨x, hx, h2⟩)
        · exact .inl h1
        · rcases List.mem_cons.1 hx with rfl | hx
          · exact absurd h2.1 h
          · exact .inr ⟨x, hx, h2⟩

theorem sorted_setInsert (e : ℤ × ℤ) (s : List (ℤ × ℤ)) (h : s.Pairwise fun a b => edgeLt a b = true) :
    (setInsert edgeLt e s).Pairwise fun a b => edgeLt a b = true := by
  induction s with
  | nil => exact List.pairwise_singleton _ _
  | cons y l ih =>
    rw [List.pairwise_cons] at h
    unfold setInsert
    split
    · rename_i h1
      rw [List.pairwise_cons]
      refine ⟨fun z hz => ?_, List.pairwise_cons.2 h⟩
      rcases List.mem_cons.1 hz with rfl | hz
      · exact h1
      · exact strictTotal_edgeLt.trans _ _ _ h1 (h.1 z hz)
    · split
      · rename_i h2
        rw [List.pairwise_cons]
        refine ⟨fun z hz => ?_, ih h.2⟩
        rcases (mem_setInsert strictTotal_edgeLt e l z).1 hz with rfl | hz
        · exact h2
        · exact h.1 z hz
      · exact List.pairwise_cons.2 h

theorem stlEdges_sorted (W : SurfInput 3 n (m + 1) k) (C : W.Choices) (R : Fin n → List (Isect 3)) (S : Fin k → List (TriIsect 3))
    (cs : List (CrossingI 3)) : (stlEdges W C R S cs).Pairwise fun a b => edgeLt a b = true := by
  unfold stlEdges
  generalize edgePairs W R S cs ++ facePairs W C R S cs = l
  have : ∀ (l s : List (ℤ × ℤ)), s.Pairwise (fun a b => edgeLt a b = true) →
      (l.foldl (fun s e => if e.1 ≠ e.2 then setInsert edgeLt (sortPair e) s else s) s).Pairwise fun a b => edgeLt a b = true := by
    intro l
    induction l with
    | nil => exact fun s h => h
    | cons a l ih =>
      intro s h
      rw [List.foldl_cons]
      apply ih
      split
      · exact sorted_setInsert _ _ h
      · exact h
  exact this l [] List.Pairwise.nil

theorem stlEdges_nodup (W : SurfInput 3 n (m + 1) k) (C : W.Choices) (R : Fin n → List (Isect 3)) (S : Fin k → List (TriIsect 3))
    (cs : List (CrossingI 3)) : (stlEdges W C R S cs).Nodup :=
  (stlEdges_sorted W C R S cs).imp fun {a b} h e => by
    subst e; rw [strictTotal_edgeLt.irrefl] at h; cases h

section
variable {shape : Coord 3} {G : GridIndexer shape} {W : SurfInput 3 n (m + 1) k} {C : W.Choices}
  {cs : List (CrossingI 3)} {es : List (EdgeInput.MeshEdge 3)} {fs : List (MeshFace 3)}

/-- the edges the slicer works with, in the final state. -/
abbrev edgesOf (C : W.Choices) (cs : List (CrossingI 3)) : List (ℤ × ℤ) := stlEdges W C W.I.baked C.isects cs

/-- **C121** `stl_edges` after `bake` lists, in ascending order, each once and with the smaller index first, exactly the pairs of different
indices that are ends of a cut edge; these are the sides of the cut faces. -/
theorem C121_edges (h : Ok C G) (hb : (tasks C).Baked cs es fs) (hE : EdgesOfTriangles W) (a b : ℤ) :
    (edgesOf C cs).Pairwise (fun x y => x.1 < y.1 ∨ (x.1 = y.1 ∧ x.2 < y.2)) ∧
    ((a, b) ∈ edgesOf C cs ↔ a < b ∧ ∃ e ∈ es, e.ends = (a, b) ∨ e.ends = (b, a)) ∧
    ((a, b) ∈ edgesOf C cs ↔ a < b ∧ ((a, b) ∈ sidesOf fs ∨ (b, a) ∈ sidesOf fs)) := by
  refine ⟨(stlEdges_sorted ..).imp fun h => by simpa [edgeLt] using h, ?_⟩
  have key : (a, b) ∈ edgesOf C cs ↔ a < b ∧ ∃ e ∈ es, e.ends = (a, b) ∨ e.ends = (b, a) := by
    obtain ⟨rfl, hes, _, _⟩ := baked_eq cs es fs hb
    have hme : ∀ e, e ∈ es ↔ (∃ i, e ∈ W.addedEdges W.I.baked C.isects C.cs i) ∨ ∃ f, e ∈ chordEdges C W.I.baked C.isects C.cs f := by
      intro e
      rw [hes.mem_iff, List.mem_append, List.mem_flatMap, List.mem_flatMap]
      simp only [List.mem_finRange, true_and]
    have hadd : ∀ i (x : ℤ × ℤ), (∃ e ∈ W.addedEdges W.I.baked C.isects C.cs i, sortPair e.ends = x) ↔
        ∃ y ∈ (intervals (W.edgePath W.I.baked i)).map (Prod.map (W.indexer W.I.baked C.isects C.cs) (W.indexer W.I.baked C.isects C.cs)),
          sortPair y = x := by
      intro i x
      obtain ⟨f, j, rfl⟩ := hE i
      have hp := h.added_perm (W.FE f j) (h.ends_ne f j)
      unfold Choices.path at hp
      rw [intervals_map] at hp
      have hx := hp.mem_iff (a := x)
      rw [List.mem_map, List.mem_map] at hx
      exact hx
    unfold edgesOf stlEdges
    rw [foldl_sorted_set]
    simp only [List.not_mem_nil, false_or]
    constructor
    · rintro ⟨x, hx, hne, hs⟩
      have hlt : a < b := by
        have h1 := sortPair_le x
        rw [hs] at h1
        rcases (sortPair_eq_iff x (a, b)).1 (by rw [hs]; unfold sortPair; rw [if_pos h1]) with e | e <;> subst e <;> dsimp at h1 hne <;> omega
      refine ⟨hlt, ?_⟩
      have hab : sortPair (a, b) = (a, b) := by unfold sortPair; rw [if_pos hlt.le]
      rcases List.mem_append.1 hx with hx | hx
      · obtain ⟨i, _, hx⟩ := List.mem_flatMap.1 hx
        obtain ⟨e, he, hes'⟩ := (hadd i (a, b)).2 ⟨x, hx, hs⟩
        refine ⟨e, (hme e).2 (.inl ⟨i, he⟩), ?_⟩
        rw [← hab] at hes'
        exact (sortPair_eq_iff _ _).1 hes'
      · obtain ⟨f, _, hx⟩ := List.mem_flatMap.1 hx
        obtain ⟨c, hc, hx⟩ := List.mem_flatMap.1 hx
        obtain ⟨y, hy, rfl⟩ := List.mem_map.1 hx
        refine ⟨⟨edgeMask c.1.v c.2.v, (W.idx W.I.baked C.isects C.cs f y.1, W.idx W.I.baked C.isects C.cs f y.2), -1⟩,
          (hme _).2 (.inr ⟨f, List.mem_flatMap.2 ⟨c, hc, List.mem_map.2 ⟨y, hy, rfl⟩⟩⟩), ?_⟩
        rw [← hab] at hs
        exact (sortPair_eq_iff _ _).1 hs
    · rintro ⟨hlt, e, he, hx⟩
      have hab : sortPair (a, b) = (a, b) := by unfold sortPair; rw [if_pos hlt.le]
      have hs : sortPair e.ends = (a, b) := by rw [← hab]; exact (sortPair_eq_iff _ _).2 hx
      have hneq : ∀ y : ℤ × ℤ, sortPair y = (a, b) → y.1 ≠ y.2 := by
        intro y hy
        rw [← hab] at hy
        rcases (sortPair_eq_iff _ _).1 hy with e | e <;> subst e <;> dsimp <;> omega
      rcases (hme e).1 he with ⟨i, he⟩ | ⟨f, he⟩
      · obtain ⟨y, hy, hys⟩ := (hadd i (a, b)).1 ⟨e, he, hs⟩
        exact ⟨y, List.mem_append_left _ (List.mem_flatMap.2 ⟨i, List.mem_finRange i, hy⟩), hneq y hys, hys⟩
      · obtain ⟨c, hc, he⟩ := List.mem_flatMap.1 he
        obtain ⟨y, hy, rfl⟩ := List.mem_map.1 he
        exact ⟨_, List.mem_append_right _ (List.mem_flatMap.2 ⟨f, List.mem_finRange f, List.mem_flatMap.2 ⟨c, hc, List.mem_map.2 ⟨y, hy, rfl⟩⟩⟩),
          hneq _ hs, hs⟩
  refine ⟨key, key.trans (and_congr_right fun _ => ?_)⟩
  rw [C109_edges h hb a b]
  refine exists_congr fun e => and_congr_right fun he => ?_
  constructor
  · intro hx
    refine ⟨hx, ?_⟩
    obtain ⟨_, hes, _, _⟩ := baked_eq cs es fs hb
    rcases List.mem_append.1 (hes.mem_iff.1 he) with he | he
    · obtain ⟨i, _, he⟩ := List.mem_flatMap.1 he
      obtain ⟨f, j, rfl⟩ := hE i
      exact .inr ⟨f, j, edges_parent (C := C) _ _ e he⟩
    · obtain ⟨f, _, he⟩ := List.mem_flatMap.1 he
      exact .inl (chord_parent _ f e he)
  · exact fun h => h.1

/-- the index of a vertex passes `is_boundary` exactly if the vertex has third grid coordinate 1. -/
theorem onPlane_iff (g : VGrid 3) (h : Ok C G) (hb : (tasks C).Baked cs es fs) (hsize : g.size = G.size)
    (hun : ∀ c, ValidIndex shape c = true → g.unindex (G.idx c) = c) {i : ℤ} {x : Pt 3} (hi : EdgeInput.Denotes cs i x) :
    onPlane g cs i = true ↔ x 2 = 1 := by
  have hcs : cs = (computeCrossings G.idx G.size (W.flat W.I.baked C.isects)).out := by
    rw [(baked_eq cs es fs hb).1]
    unfold Choices.cs SurfInput.crossings
    rw [h.index, h.size]
  have hN : ∀ v ∈ W.flat W.I.baked C.isects, Normalised v := fun v hv => (h.flat_ok v hv).1
  obtain ⟨houtv, hgrid, hidx, N, hn⟩ := C17_fuse_indices G (W.flat W.I.baked C.isects) hN (fun v hv => (h.flat_ok v hv).2) h.inGrid
  rw [← hcs] at houtv hgrid hidx hn
  have hin : ∀ c ∈ cs, c.v ∈ W.flat W.I.baked C.isects := fun c hc => by rw [← houtv]; exact List.mem_map.2 ⟨c, hc, rfl⟩
  obtain ⟨c, hc, rfl, rfl⟩ := hi
  have hcv := hin c hc
  unfold onPlane
  dsimp only
  by_cases hgp : IsGridPoint c.v.p
  · have hval := h.inGrid _ hcv hgp
    have e1 := hgrid c hc hgp
    have hbd := G.bound _ hval
    have hp : c.v.p 2 = (c.v.coord 2 : ℚ) := by
      have hq := (Vertex.quot_zero_iff c.v (hN _ hcv) 2).2 (hgp 2)
      show (c.v.coord 2 : ℚ) + c.v.quot 2 = _
      rw [hq, add_zero]
    rw [if_pos (by rw [e1, hsize]; exact hbd.2), e1, hun _ hval, hp, decide_eq_true_eq]
    constructor
    · intro h; rw [h]; norm_num
    · intro h; exact_mod_cast h
  · obtain ⟨h1, -⟩ := (hn c.index).1 ⟨c, hc, rfl, hgp⟩
    rw [if_neg (by omega), List.contains_iff_mem]
    have hmask : ∀ d ∈ cs, (d.v.mask 2 = some 1 ↔ d.v.p 2 = 1) := by
      intro d hd
      rw [TriInput.mask_eq_some (hN _ (hin d hd))]
      norm_num
    constructor
    · intro hm
      obtain ⟨d, hd, he⟩ := List.mem_map.1 hm
      obtain ⟨hd, hdm⟩ := List.mem_filter.1 hd
      have hp := (hidx d hd c hc).1 he
      rw [← hp]
      exact (hmask d hd).1 (of_decide_eq_true hdm)
    · intro hx
      exact List.mem_map.2 ⟨c, List.mem_filter.2 ⟨hc, decide_eq_true ((hmask c hc).2 hx)⟩, rfl⟩

/-- the indices of a cut face denote the vertices of a polygon that lies in one grid cell. -/
theorem face_cell (h : Ok C G) (hb : (tasks C).Baked cs es fs) {c : MeshFace 3} (hc : c ∈ fs) :
    (∃ q : Coord 3, ∀ i ∈ c.verts, ∃ x, EdgeInput.Denotes cs i x ∧ InClosedCell q x) ∧
    ∀ i ∈ c.verts, ∃ x, EdgeInput.Denotes cs i x := by
  obtain ⟨hcs, _, hfs, _⟩ := baked_eq cs es fs hb
  obtain ⟨f, _, hc'⟩ := List.mem_flatMap.1 (hfs.mem_iff.1 hc)
  have hpar : c.parent = ((f : ℕ) : ℤ) := by
    obtain ⟨l, _, rfl⟩ := List.mem_map.1 hc'
    rfl
  obtain ⟨polys, hcut, hF2, _, _⟩ := C109_faces h hb f
  have hm : c.verts ∈ (fs.filter fun c => decide (c.parent = ((f : ℕ) : ℤ))).map MeshFace.verts :=
    List.mem_map.2 ⟨c, List.mem_filter.2 ⟨hc, by simpa using hpar⟩, rfl⟩
  obtain ⟨p, hp, hF⟩ := forall₂_mem hF2 hm
  obtain ⟨q, hq⟩ := hcut.cell p hp
  have hall : ∀ i ∈ c.verts, ∃ x, EdgeInput.Denotes cs i x ∧ InClosedCell q x := by
    intro i hi
    obtain ⟨v, hv, hd⟩ := forall₂_mem hF hi
    exact ⟨_, hd, hq v hv⟩
  exact ⟨⟨q, hall⟩, fun i hi => by obtain ⟨x, hx, _⟩ := hall i hi; exact ⟨x, hx⟩⟩


/-- **C121** the edges of the closing faces: exactly the edges of the cut faces whose two ends lie in the sliced plane. -/
theorem C121_plane_edges (X : Fin (m + 1) → Vec3) (un : ℤ → Coord 3) (hz : ∃ i, X i 2 ≠ 0) (hsize : G.size = 12)
    (hun : ∀ c, ValidIndex shape c = true → un (G.idx c) = c) (h : Ok C G) (hb : (tasks C).Baked cs es fs) (hE : EdgesOfTriangles W) (a b : ℤ) :
    (a, b) ∈ planeEdges (embed X un) cs (edgesOf C cs) ↔ a < b ∧ ((a, b) ∈ sidesOf fs ∨ (b, a) ∈ sidesOf fs) ∧
      ∃ v w, newVAt (embed X un) cs a = some v ∧ newVAt (embed X un) cs b = some w ∧ v 2 = 0 ∧ w 2 = 0 := by
  unfold planeEdges
  rw [List.mem_filter, (C121_edges h hb hE a b).2.2, and_assoc]
  refine and_congr_right fun _ => and_congr_right fun hs => ?_
  have hd : ∀ i, (i = a ∨ i = b) → ∃ x, EdgeInput.Denotes cs i x := by
    have hz : ∀ {u v : ℤ}, (u, v) ∈ sidesOf fs → (∃ x, EdgeInput.Denotes cs u x) ∧ ∃ x, EdgeInput.Denotes cs v x := by
      intro u v huv
      obtain ⟨c, hc, huv⟩ := List.mem_flatMap.1 huv
      obtain ⟨h1, h2⟩ := List.of_mem_zip huv
      exact ⟨(face_cell h hb hc).2 _ h1, (face_cell h hb hc).2 _ (List.mem_rotate.1 h2)⟩
    rintro i hi
    rcases hs with hs | hs <;> rcases hi with rfl | rfl
    · exact (hz hs).1
    · exact (hz hs).2
    · exact (hz hs).2
    · exact (hz hs).1
  obtain ⟨x, hx⟩ := hd a (.inl rfl)
  obtain ⟨y, hy⟩ := hd b (.inr rfl)
  have hg : (embed X un).size = G.size := by rw [hsize]; rfl
  have hcs : cs = (computeCrossings G.idx G.size (W.flat W.I.baked C.isects)).out := by
    rw [(baked_eq cs es fs hb).1]
    unfold Choices.cs SurfInput.crossings
    rw [h.index, h.size]
  have hpos : ∀ i x, EdgeInput.Denotes cs i x → newVAt (embed X un) cs i = some ((embed X un).world x) := by
    intro i x hi
    rw [hcs] at hi ⊢
    exact newVAt_denotes G _ _ (by omega) (fun v hv => (h.flat_ok v hv).1) (fun v hv => (h.flat_ok v hv).2) h.inGrid hg hun hi
  obtain ⟨hmid, -⟩ := C117_middle X un hz
  rw [Bool.and_eq_true, onPlane_iff _ h hb hg hun hx, onPlane_iff _ h hb hg hun hy, hpos a x hx, hpos b y hy, ← (hmid x).1, ← (hmid y).1]
  constructor
  · rintro ⟨h1, h2⟩; exact ⟨_, _, rfl, rfl, h1, h2⟩
  · rintro ⟨v, w, hv, hw, h1, h2⟩
    cases hv; cases hw
    exact ⟨h1, h2⟩

theorem sidesOf_eq (fs : List (MeshFace 3)) : sidesOf fs = fs.flatMap fun c => polyEdges c.verts := rfl

/-- **C121** where the kept part of a closed surface is open, it is open in the sliced plane: an edge that the kept cut faces do not pass
as often in one direction as in the other is one of the edges the closing faces are made from. -/
theorem C121_wall_border (X : Fin (m + 1) → Vec3) (un : ℤ → Coord 3) (hz : ∃ i, X i 2 ≠ 0) (hsize : G.size = 12)
    (hun : ∀ c, ValidIndex shape c = true → un (G.idx c) = c) (h : Ok C G) (hb : (tasks C).Baked cs es fs) (hE : EdgesOfTriangles W)
    (hc : W.Closed) (a b : ℤ) (hne : netT (keptTriangles (embed X un) cs fs) a b ≠ 0) :
    sortPair (a, b) ∈ planeEdges (embed X un) cs (edgesOf C cs) := by
  have hnet : netT (keptTriangles (embed X un) cs fs) a b = netE (sidesOf (kept (embed X un) cs fs)) (a, b) :=
    (hasBorder_iff _ _).1 (C117_triangles (embed X un) cs fs).1 (a, b)
  rw [hnet] at hne
  have hab : a ≠ b := by
    rintro rfl
    apply hne
    unfold netE DEdge.rev
    exact sub_self _
  have hg : (embed X un).size = G.size := by rw [hsize]; rfl
  have hcs : cs = (computeCrossings G.idx G.size (W.flat W.I.baked C.isects)).out := by
    rw [(baked_eq cs es fs hb).1]
    unfold Choices.cs SurfInput.crossings
    rw [h.index, h.size]
  have hpos : ∀ i x, EdgeInput.Denotes cs i x → newVAt (embed X un) cs i = some ((embed X un).world x) := by
    intro i x hi
    rw [hcs] at hi ⊢
    exact newVAt_denotes G _ _ (by omega) (fun v hv => (h.flat_ok v hv).1) (fun v hv => (h.flat_ok v hv).2) h.inGrid hg hun hi
  obtain ⟨hmid, -⟩ := C117_middle X un hz
  set g := embed X un with hgdef
  -- the other cut faces
  have hlow : ∀ c ∈ fs, above g cs c.verts = false → ∀ i ∈ c.verts, ∀ x, EdgeInput.Denotes cs i x → x 2 ≤ 1 := by
    intro c hcf hna i hi x hx
    obtain ⟨⟨q, hq⟩, _⟩ := face_cell h hb hcf
    have : ∃ j ∈ c.verts, ∃ y, EdgeInput.Denotes cs j y ∧ InClosedCell q y ∧ y 2 < 1 := by
      by_contra hno
      push Not at hno
      have : above g cs c.verts = true := by
        unfold above
        rw [List.all_eq_true]
        intro j hj
        obtain ⟨y, hy, hyq⟩ := hq j hj
        rw [hpos j y hy]
        have h1 := hno j hj y hy hyq
        simp only [Option.any_some, Bool.not_eq_true', decide_eq_false_iff_not, not_lt]
        rcases h1.lt_or_eq with h1 | h1
        · exact ((hmid y).2.2 h1).le
        · rw [(hmid y).1.2 h1.symm]
      rw [this] at hna
      cases hna
    obtain ⟨j, _, y, _, hyq, hy1⟩ := this
    obtain ⟨x', hx', hxq⟩ := hq i hi
    have hxx : x' = x := (C109_index_position h hb i i x' x hx' hx).1 rfl
    subst hxx
    have h1 := (hyq 2).1
    have h2 : (q 2 : ℚ) < 1 := by linarith
    have h3 : q 2 < 1 := by exact_mod_cast h2
    have h4 : (q 2 : ℚ) + 1 ≤ 1 := by
      have : q 2 + 1 ≤ 1 := by omega
      exact_mod_cast this
    exact (hxq 2).2.trans h4
  have hhigh : ∀ c ∈ fs, above g cs c.verts = true → ∀ i ∈ c.verts, ∀ x, EdgeInput.Denotes cs i x → 1 ≤ x 2 := by
    intro c _ ha i hi x hx
    unfold above at ha
    have := (List.all_eq_true.1 ha) i hi
    rw [hpos i x hx] at this
    simp only [Option.any_some, Bool.not_eq_true', decide_eq_false_iff_not, not_lt] at this
    by_contra hlt
    push Not at hlt
    rcases this.lt_or_eq with h1 | h1
    · have := (hmid x).2.1 h1; linarith
    · have := (hmid x).1.1 h1.symm; linarith
  have hmem : ∀ (l : List (MeshFace 3)) (u v : ℤ), (u, v) ∈ sidesOf l → ∃ c ∈ l, u ∈ c.verts ∧ v ∈ c.verts := by
    intro l u v huv
    obtain ⟨c, hcl, huv⟩ := List.mem_flatMap.1 huv
    obtain ⟨h1, h2⟩ := List.of_mem_zip huv
    exact ⟨c, hcl, h1, List.mem_rotate.1 h2⟩
  set K := kept g cs fs with hK
  set L := fs.filter fun c => !above g cs c.verts with hL
  have hperm : (sidesOf (K ++ L)).Perm (sidesOf fs) := by
    refine List.Perm.flatMap_right _ ?_
    exact List.filter_append_perm (fun c => above g cs c.verts) fs
  have hsum : netE (sidesOf K) (a, b) + netE (sidesOf L) (a, b) = 0 := by
    rw [← netE_append]
    have e1 : sidesOf K ++ sidesOf L = sidesOf (K ++ L) := by unfold sidesOf; rw [List.flatMap_append]
    rw [e1, netE_perm hperm]
    unfold netE DEdge.rev
    rw [C109_closed h hb hc a b]
    exact sub_self _
  have hex : ∀ l : List (MeshFace 3), netE (sidesOf l) (a, b) ≠ 0 → ∃ c ∈ l, a ∈ c.verts ∧ b ∈ c.verts := by
    intro l hl
    by_cases h1 : (a, b) ∈ sidesOf l
    · exact hmem l a b h1
    · by_cases h2 : (b, a) ∈ sidesOf l
      · obtain ⟨c, hcl, h3, h4⟩ := hmem l b a h2
        exact ⟨c, hcl, h4, h3⟩
      · exfalso
        apply hl
        unfold netE DEdge.rev
        rw [List.count_eq_zero_of_not_mem h1, List.count_eq_zero_of_not_mem h2]
        rfl
  obtain ⟨c, hcK, haK, hbK⟩ := hex K hne
  obtain ⟨d, hdL, haL, hbL⟩ := hex L (by omega)
  obtain ⟨hcf, hca⟩ := List.mem_filter.1 hcK
  obtain ⟨hdf, hda⟩ := List.mem_filter.1 hdL
  have hda : above g cs d.verts = false := by simpa using hda
  obtain ⟨x, hx⟩ := (face_cell h hb hcf).2 a haK
  obtain ⟨y, hy⟩ := (face_cell h hb hcf).2 b hbK
  have hx1 : x 2 = 1 := le_antisymm (hlow d hdf hda a haL x hx) (hhigh c hcf hca a haK x hx)
  have hy1 : y 2 = 1 := le_antisymm (hlow d hdf hda b hbL y hy) (hhigh c hcf hca b hbK y hy)
  have hside : (a, b) ∈ sidesOf fs ∨ (b, a) ∈ sidesOf fs := by
    by_contra hno
    push Not at hno
    apply hne
    have hsub : ∀ e, e ∈ sidesOf K → e ∈ sidesOf fs := by
      intro e he
      obtain ⟨c, hcK, he⟩ := List.mem_flatMap.1 he
      exact List.mem_flatMap.2 ⟨c, (List.mem_filter.1 hcK).1, he⟩
    unfold netE DEdge.rev
    rw [List.count_eq_zero_of_not_mem fun hm => hno.1 (hsub _ hm), List.count_eq_zero_of_not_mem fun hm => hno.2 (hsub _ hm)]
    rfl
  have hvx := hpos a x hx
  have hvy := hpos b y hy
  unfold sortPair
  rcases lt_or_gt_of_ne hab with hlt | hlt
  · rw [if_pos (by exact hlt.le)]
    exact (C121_plane_edges X un hz hsize hun h hb hE a b).2 ⟨hlt, hside, _, _, hvx, hvy, (hmid x).1.2 hx1, (hmid y).1.2 hy1⟩
  · rw [if_neg (by dsimp only; omega)]
    exact (C121_plane_edges X un hz hsize hun h hb hE b a).2 ⟨hlt, hside.symm, _, _, hvy, hvx, (hmid y).1.2 hy1, (hmid x).1.2 hx1⟩

end

/-! ## the closing faces -/

section
variable (ear : List ℤ → List Tri) (tri : List (List ℤ) → List Tri) (hear : ∀ l, HasBorder (ear l) (Triangulate.loopEdges [l]))
  (htri : ∀ ls, HasBorder (tri ls) (Triangulate.loopEdges ls)) {E : List (ℤ × ℤ)} {cells : List PlaneCell}

include hear htri in
theorem caps_net (cells : List PlaneCell) (e : DEdge) :
    netE ((caps ear tri cells).flatMap triEdges) e = netE ((cells.filter PlaneCell.capped).flatMap fun c => Triangulate.loopEdges c.loops) e := by
  unfold caps
  induction cells.filter PlaneCell.capped with
  | nil => rfl
  | cons c l ih =>
    rw [List.flatMap_cons, List.flatMap_append, netE_append, ih, List.flatMap_cons, netE_append]
    congr 1
    split
    · rename_i l' hl
      rw [hl]
      exact (hasBorder_iff _ _).1 (hear l') e
    · exact (hasBorder_iff _ _).1 (htri _) e

theorem count_flatMap_le {α : Type} (l : List α) (F : α → List DEdge) (e : DEdge) {c : α} (hc : c ∈ l) : (F c).count e ≤ (l.flatMap F).count e := by
  obtain ⟨s, t, rfl⟩ := List.append_of_mem hc
  rw [List.flatMap_append, List.flatMap_cons, List.count_append, List.count_append]
  omega

/-- the number of times the capped cells pass an edge that is passed once by all cells. -/
theorem capped_count (cells : List PlaneCell) (e : DEdge) {c : PlaneCell} (hc : c ∈ cells) (he : e ∈ Triangulate.loopEdges c.loops)
    (h1 : (cells.flatMap fun c => Triangulate.loopEdges c.loops).count e = 1) :
    ((cells.filter PlaneCell.capped).flatMap fun c => Triangulate.loopEdges c.loops).count e = if c.capped then 1 else 0 := by
  obtain ⟨s, t, rfl⟩ := List.append_of_mem hc
  have hpos : 0 < (Triangulate.loopEdges c.loops).count e := List.count_pos_iff.2 he
  rw [List.flatMap_append, List.flatMap_cons, List.count_append, List.count_append] at h1
  have hle : ∀ l : List PlaneCell, ((l.filter PlaneCell.capped).flatMap fun c => Triangulate.loopEdges c.loops).count e ≤
      (l.flatMap fun c => Triangulate.loopEdges c.loops).count e := by
    intro l
    induction l with
    | nil => simp
    | cons x l ih =>
      rw [List.filter_cons]
      split
      · rw [List.flatMap_cons, List.flatMap_cons, List.count_append, List.count_append]; omega
      · rw [List.flatMap_cons, List.count_append]; omega
  have hs := hle s
  have ht := hle t
  rw [List.filter_append, List.filter_cons]
  split
  · rw [List.flatMap_append, List.flatMap_cons, List.count_append, List.count_append]; omega
  · rw [List.flatMap_append, List.count_append]; omega

theorem count_half {E : List (ℤ × ℤ)} (hE : E.Nodup) (hlt : ∀ e ∈ E, e.1 < e.2) (a b : ℤ) :
    (E.flatMap fun e => [e, DEdge.rev e]).count (a, b) = if sortPair (a, b) ∈ E ∧ a ≠ b then 1 else 0 := by
  induction E with
  | nil => simp
  | cons x E ih =>
    rw [List.nodup_cons] at hE
    have hx := hlt x List.mem_cons_self
    rw [List.flatMap_cons, List.count_append, ih hE.2 fun e he => hlt e (List.mem_cons_of_mem _ he)]
    obtain ⟨p, q⟩ := x
    dsimp only at hx
    have hc : List.count (a, b) [(p, q), DEdge.rev (p, q)] = if (a, b) = (p, q) ∨ (a, b) = (q, p) then 1 else 0 := by
      unfold DEdge.rev
      by_cases h1 : (a, b) = (p, q)
      · rw [if_pos (.inl h1), h1]
        have : (q, p) ≠ (p, q) := by intro e; injection e with e1 e2; omega
        rw [List.count_cons_self, List.count_cons_of_ne this]; rfl
      · by_cases h2 : (a, b) = (q, p)
        · rw [if_pos (.inr h2), h2]
          have : (p, q) ≠ (q, p) := by intro e; injection e with e1 e2; omega
          rw [List.count_cons_of_ne this, List.count_cons_self]; rfl
        · rw [if_neg (by tauto), List.count_cons_of_ne (Ne.symm h1), List.count_cons_of_ne (Ne.symm h2)]; rfl
    rw [hc]
    have hs : sortPair (a, b) = (p, q) ∧ a ≠ b ↔ (a, b) = (p, q) ∨ (a, b) = (q, p) := by
      unfold sortPair
      split
      · rename_i h
        dsimp only at h
        constructor
        · rintro ⟨h, _⟩; exact .inl h
        · rintro (e | e) <;> injection e with e1 e2
          · subst e1; subst e2; exact ⟨rfl, by omega⟩
          · omega
      · rename_i h
        dsimp only at h ⊢
        constructor
        · rintro ⟨e, _⟩; injection e with e1 e2; subst e1; subst e2; exact .inr rfl
        · rintro (e | e) <;> injection e with e1 e2
          · omega
          · subst e1; subst e2; exact ⟨rfl, by omega⟩
    by_cases hm : sortPair (a, b) ∈ E ∧ a ≠ b
    · have hno : ¬ ((a, b) = (p, q) ∨ (a, b) = (q, p)) := fun hh => hE.1 ((hs.2 hh).1 ▸ hm.1)
      rw [if_pos hm, if_neg hno, if_pos ⟨List.mem_cons_of_mem _ hm.1, hm.2⟩]
    · rw [if_neg hm]
      by_cases hh : (a, b) = (p, q) ∨ (a, b) = (q, p)
      · obtain ⟨h1, h2⟩ := hs.2 hh
        rw [if_pos hh, if_pos ⟨by rw [h1]; exact List.mem_cons_self, h2⟩]
      · rw [if_neg hh, if_neg]
        rintro ⟨h1, h2⟩
        rcases List.mem_cons.1 h1 with h1 | h1
        · exact hh (hs.1 ⟨h1, h2⟩)
        · exact hm ⟨h1, h2⟩

include hear htri in
/-- **C121** the closing faces pass an edge of the plane forward if the cell on its left is capped, backward if the one on its right is: if
both are, or none, it is not on their border. They have no other border. Every plane edge has exactly one cell on either side. -/
theorem C121_caps_border (hE : E.Nodup) (hlt : ∀ e ∈ E, e.1 < e.2) (hc : CellsOf E cells) (a b : ℤ) :
    (sortPair (a, b) ∈ E → a ≠ b →
      (∃ l ∈ cells, (a, b) ∈ Triangulate.loopEdges l.loops) ∧ (∃ r ∈ cells, (b, a) ∈ Triangulate.loopEdges r.loops) ∧
      ∀ l ∈ cells, ∀ r ∈ cells, (a, b) ∈ Triangulate.loopEdges l.loops → (b, a) ∈ Triangulate.loopEdges r.loops →
        netT (caps ear tri cells) a b = (if l.capped then 1 else 0) - (if r.capped then 1 else 0)) ∧
    (sortPair (a, b) ∉ E → netT (caps ear tri cells) a b = 0) := by
  have hcount : ∀ x y, (cells.flatMap fun c => Triangulate.loopEdges c.loops).count (x, y) = if sortPair (x, y) ∈ E ∧ x ≠ y then 1 else 0 := by
    intro x y
    rw [hc.count_eq, count_half hE hlt]
  have hsw : sortPair (b, a) = sortPair (a, b) := (sortPair_eq_iff _ _).2 (.inr rfl)
  have hnet : netT (caps ear tri cells) a b = netE ((cells.filter PlaneCell.capped).flatMap fun c => Triangulate.loopEdges c.loops) (a, b) :=
    caps_net ear tri hear htri cells (a, b)
  constructor
  · intro hm hab
    have h1 : (cells.flatMap fun c => Triangulate.loopEdges c.loops).count (a, b) = 1 := by rw [hcount, if_pos ⟨hm, hab⟩]
    have h2 : (cells.flatMap fun c => Triangulate.loopEdges c.loops).count (b, a) = 1 := by rw [hcount, if_pos ⟨by rw [hsw]; exact hm, hab.symm⟩]
    refine ⟨List.mem_flatMap.1 (List.count_pos_iff.1 (by omega)), List.mem_flatMap.1 (List.count_pos_iff.1 (by omega)), ?_⟩
    intro l hl r hr hal hbr
    rw [hnet]
    unfold netE DEdge.rev
    rw [capped_count cells _ hl hal h1, capped_count cells _ hr hbr h2]
    push_cast
    rfl
  · intro hm
    rw [hnet]
    have hz : ∀ x y, (cells.flatMap fun c => Triangulate.loopEdges c.loops).count (x, y) = 0 →
        ((cells.filter PlaneCell.capped).flatMap fun c => Triangulate.loopEdges c.loops).count (x, y) = 0 := by
      intro x y h0
      rw [List.count_eq_zero] at h0 ⊢
      intro hmem
      obtain ⟨c, hcm, he⟩ := List.mem_flatMap.1 hmem
      exact h0 (List.mem_flatMap.2 ⟨c, (List.mem_filter.1 hcm).1, he⟩)
    unfold netE DEdge.rev
    rw [hz a b (by rw [hcount, if_neg fun hh => hm hh.1]), hz b a (by rw [hcount, if_neg fun hh => hm (hsw ▸ hh.1)])]
    rfl

theorem netT_append (S T : List Tri) (a b : ℤ) : netT (S ++ T) a b = netT S a b + netT T a b := by
  unfold netT
  rw [List.flatMap_append, List.count_append, List.count_append]
  push_cast; ring

end

section
variable {shape : Coord 3} {G : GridIndexer shape} {W : SurfInput 3 n (m + 1) k} {C : W.Choices}
  {cs : List (CrossingI 3)} {es : List (EdgeInput.MeshEdge 3)} {fs : List (MeshFace 3)}
variable (ear : List ℤ → List Tri) (tri : List (List ℤ) → List Tri) (hear : ∀ l, HasBorder (ear l) (Triangulate.loopEdges [l]))
  (htri : ∀ ls, HasBorder (tri ls) (Triangulate.loopEdges ls)) {cells : List PlaneCell}

include hear htri in
/-- **C121** when is the result of slicing a closed surface closed? Exactly if at every edge of the plane the surface that is kept passes
the edge backward as often (net) as the closing faces pass it forward: once more if only the cell on its left is capped, once less if only
the one on its right is, and not at all if both are or none is. -/
theorem C121_closed_iff (X : Fin (m + 1) → Vec3) (un : ℤ → Coord 3) (hz : ∃ i, X i 2 ≠ 0) (hsize : G.size = 12)
    (hun : ∀ c, ValidIndex shape c = true → un (G.idx c) = c) (h : Ok C G) (hb : (tasks C).Baked cs es fs) (hE : EdgesOfTriangles W)
    (hclosed : W.Closed) (hc : CellsOf (planeEdges (embed X un) cs (edgesOf C cs)) cells) :
    ClosedT (result ear tri cells (embed X un) cs fs) ↔
      ∀ a b, (a, b) ∈ planeEdges (embed X un) cs (edgesOf C cs) → ∀ l ∈ cells, ∀ r ∈ cells,
        (a, b) ∈ Triangulate.loopEdges l.loops → (b, a) ∈ Triangulate.loopEdges r.loops →
        netT (keptTriangles (embed X un) cs fs) a b = (if r.capped then 1 else 0) - (if l.capped then 1 else 0) := by
  have hnd : (planeEdges (embed X un) cs (edgesOf C cs)).Nodup := (stlEdges_nodup ..).filter _
  have hlt : ∀ e ∈ planeEdges (embed X un) cs (edgesOf C cs), e.1 < e.2 := by
    rintro ⟨x, y⟩ he
    exact ((C121_plane_edges X un hz hsize hun h hb hE x y).1 he).1
  have hcap := C121_caps_border ear tri hear htri hnd hlt hc
  have hsp : ∀ x y : ℤ, x < y → sortPair (x, y) = (x, y) := fun x y hxy => by unfold sortPair; rw [if_pos (by exact hxy.le)]
  constructor
  · intro hcl a b hab l hl r hr hal hbr
    have hlt' := hlt _ hab
    dsimp only at hlt'
    have := hcl a b
    unfold result at this
    rw [netT_append, ((hcap a b).1 (by rw [hsp a b hlt']; exact hab) (by omega)).2.2 l hl r hr hal hbr] at this
    omega
  · intro hall a b
    have hfwd : ∀ x y, (x, y) ∈ planeEdges (embed X un) cs (edgesOf C cs) → netT (result ear tri cells (embed X un) cs fs) x y = 0 := by
      intro x y hxy
      have hlt' := hlt _ hxy
      dsimp only at hlt'
      obtain ⟨⟨l, hl, h1⟩, ⟨r, hr, h2⟩, h3⟩ := (hcap x y).1 (by rw [hsp x y hlt']; exact hxy) (by omega)
      unfold result
      rw [netT_append, h3 l hl r hr h1 h2, hall x y hxy l hl r hr h1 h2]
      omega
    have hanti : ∀ (T : List Tri) x y, netT T x y = - netT T y x := fun T x y => by unfold netT; ring
    by_cases hm : sortPair (a, b) ∈ planeEdges (embed X un) cs (edgesOf C cs)
    · unfold sortPair at hm
      split at hm
      · exact hfwd a b hm
      · rw [hanti, hfwd b a hm]; rfl
    · unfold result
      rw [netT_append, (hcap a b).2 hm]
      by_contra hne
      exact hm (C121_wall_border X un hz hsize hun h hb hE hclosed a b (by omega))

include hear htri in
/-- **C121, refuted.** The cells inside and outside of an inner loop are both capped (a hole is closed as well), so that where the kept surface
ends at an edge between two capped cells the result is open. -/
theorem C121_hole_refuted (X : Fin (m + 1) → Vec3) (un : ℤ → Coord 3) (hz : ∃ i, X i 2 ≠ 0) (hsize : G.size = 12)
    (hun : ∀ c, ValidIndex shape c = true → un (G.idx c) = c) (h : Ok C G) (hb : (tasks C).Baked cs es fs) (hE : EdgesOfTriangles W)
    (hclosed : W.Closed) (hc : CellsOf (planeEdges (embed X un) cs (edgesOf C cs)) cells) (a b : ℤ)
    (hab : (a, b) ∈ planeEdges (embed X un) cs (edgesOf C cs)) (hwall : netT (keptTriangles (embed X un) cs fs) a b ≠ 0)
    (l r : PlaneCell) (hl : l ∈ cells) (hr : r ∈ cells) (hal : (a, b) ∈ Triangulate.loopEdges l.loops) (hbr : (b, a) ∈ Triangulate.loopEdges r.loops)
    (hlc : l.capped = true) (hrc : r.capped = true) : ¬ ClosedT (result ear tri cells (embed X un) cs fs) := by
  intro hcl
  have := (C121_closed_iff ear tri hear htri X un hz hsize hun h hb hE hclosed hc).1 hcl a b hab l hl r hr hal hbr
  rw [if_pos hlc, if_pos hrc] at this
  exact hwall (by omega)

end

section
variable (ear : List ℤ → List Tri) (tri : List (List ℤ) → List Tri) (hear : ∀ l, HasBorder (ear l) (Triangulate.loopEdges [l]))
  (htri : ∀ ls, HasBorder (tri ls) (Triangulate.loopEdges ls)) {cells : List PlaneCell}

include hear htri in
/-- **C121** the closing faces run counter-clockwise as seen from the kept side: if `signed_areas()` are the areas the loops enclose, the
projected area of the closing triangles is the sum of the areas of the capped cells, so that the kept surface of a closed result must have the
opposite, negative, projected area. -/
theorem C121_orientation (V : ℤ → Dir) (hA : ∀ c ∈ cells, ∀ A, c.area = some A → 2 * A = area2 V (Triangulate.loopEdges c.loops))
    (g : VGrid 3) (cs : List (CrossingI 3)) (fs : List (MeshFace 3)) :
    ((caps ear tri cells).map (triArea2 V)).sum = 2 * ((cells.filter PlaneCell.capped).map fun c => c.area.getD 0).sum ∧
    (ClosedT (result ear tri cells g cs fs) →
      ((keptTriangles g cs fs).map (triArea2 V)).sum = -2 * ((cells.filter PlaneCell.capped).map fun c => c.area.getD 0).sum) ∧
    ((∃ c ∈ cells, c.capped = true) → 0 < ((cells.filter PlaneCell.capped).map fun c => c.area.getD 0).sum) := by
  have e1 : ((caps ear tri cells).map (triArea2 V)).sum = 2 * ((cells.filter PlaneCell.capped).map fun c => c.area.getD 0).sum := by
    rw [← area2_triEdges, area2_eq_of_border V _ ((cells.filter PlaneCell.capped).flatMap fun c => Triangulate.loopEdges c.loops) true
      (fun e => by rw [caps_net ear tri hear htri]; simp [CellCollapser.sgn])]
    have hsub : ∀ c ∈ cells.filter PlaneCell.capped, c ∈ cells ∧ c.capped = true := fun c hc => List.mem_filter.1 hc
    generalize cells.filter PlaneCell.capped = l at hsub
    induction l with
    | nil => simp [area2]
    | cons c l ih =>
      have ih := ih fun d hd => hsub d (List.mem_cons_of_mem _ hd)
      obtain ⟨hcm, hcc⟩ := hsub c List.mem_cons_self
      rw [List.flatMap_cons, List.map_cons, List.sum_cons, mul_add, ← ih]
      have ha : 2 * c.area.getD 0 = area2 V (Triangulate.loopEdges c.loops) := by
        unfold PlaneCell.capped at hcc
        cases h : c.area with
        | none => rw [h] at hcc; cases hcc
        | some A => exact hA c hcm A h
      rw [ha]
      unfold area2
      rw [List.map_append, List.sum_append, mul_add]
      simp [CellCollapser.sgn]
  refine ⟨e1, fun hcl => ?_, ?_⟩
  · have h0 : ((result ear tri cells g cs fs).map (triArea2 V)).sum = 0 := by
      rw [← area2_triEdges, area2_eq_of_border V _ [] true (fun e => by
        rw [netE_nil, mul_zero]
        exact hcl e.1 e.2)]
      simp [area2]
    unfold result at h0
    rw [List.map_append, List.sum_append, e1] at h0
    linarith
  · rintro ⟨c, hcm, hcc⟩
    have hp : ∀ d ∈ cells.filter PlaneCell.capped, 0 < d.area.getD 0 := by
      intro d hd
      have hdc := (List.mem_filter.1 hd).2
      unfold PlaneCell.capped at hdc
      cases h : d.area with
      | none => rw [h] at hdc; cases hdc
      | some A => rw [h] at hdc; simpa using hdc
    have hmem : c ∈ cells.filter PlaneCell.capped := List.mem_filter.2 ⟨hcm, hcc⟩
    generalize cells.filter PlaneCell.capped = l at hp hmem
    have hnn : ∀ l : List PlaneCell, (∀ d ∈ l, 0 < d.area.getD 0) → 0 ≤ (l.map fun c => c.area.getD 0).sum := by
      intro l
      induction l with
      | nil => intro _; simp
      | cons d l ih =>
        intro h
        rw [List.map_cons, List.sum_cons]
        have := ih fun x hx => h x (List.mem_cons_of_mem _ hx)
        have := h d List.mem_cons_self
        linarith
    obtain ⟨s, t, rfl⟩ := List.append_of_mem hmem
    rw [List.map_append, List.sum_append, List.map_cons, List.sum_cons]
    have h1 := hnn s fun d hd => hp d (List.mem_append_left _ hd)
    have h2 := hnn t fun d hd => hp d (List.mem_append_right _ (List.mem_cons_of_mem _ hd))
    have h3 := hp c hmem
    linarith

/-- a triangle over the plane that passes the edge `a → b` of the plane in the direction in which the cell on its left passes it has its
normal pointing away from that cell. -/
theorem C121_outward (a b q : Vec3) (ha : a 2 = 0) (hb : b 2 = 0) (hq : 0 < q 2) (hab : a 0 ≠ b 0 ∨ a 1 ≠ b 1) :
    0 < vdot (vcross (fun i => b i - a i) (fun i => q i - a i)) ![b 1 - a 1, -(b 0 - a 0), 0] := by
  have e : vdot (vcross (fun i => b i - a i) (fun i => q i - a i)) ![b 1 - a 1, -(b 0 - a 0), 0] =
      q 2 * ((b 0 - a 0) ^ 2 + (b 1 - a 1) ^ 2) := by
    unfold vdot
    rw [vcross_eq0, vcross_eq1, vcross_eq2]
    simp only [Matrix.cons_val_zero, Matrix.cons_val_one, Matrix.cons_val]
    rw [ha, hb]
    ring
  rw [e]
  refine mul_pos hq ?_
  rcases hab with h | h
  · have : 0 < (b 0 - a 0) ^ 2 := by
      have : b 0 - a 0 ≠ 0 := fun hh => h (by linarith)
      positivity
    positivity
  · have : 0 < (b 1 - a 1) ^ 2 := by
      have : b 1 - a 1 ≠ 0 := fun hh => h (by linarith)
      positivity
    positivity
end

section
variable {shape : Coord 3} {G : GridIndexer shape} {W : SurfInput 3 n (m + 1) k} {C : W.Choices}
  {cs : List (CrossingI 3)} {es : List (EdgeInput.MeshEdge 3)} {fs : List (MeshFace 3)}
variable (ear : List ℤ → List Tri) (tri : List (List ℤ) → List Tri) (hear : ∀ l, HasBorder (ear l) (Triangulate.loopEdges [l]))
  (htri : ∀ ls, HasBorder (tri ls) (Triangulate.loopEdges ls)) {cells : List PlaneCell}

include hear htri in
/-- **C121, refuted.** For a surface oriented outward the result is not closed as an oriented surface: at a plane edge with a capped cell on
its left only, the kept surface passes the edge in the direction of the cell (`C121_outward`), the closing faces do so too, and the edge is
passed twice more in this direction than in the other. -/
theorem C121_outward_refuted (X : Fin (m + 1) → Vec3) (un : ℤ → Coord 3) (hz : ∃ i, X i 2 ≠ 0) (hsize : G.size = 12)
    (hun : ∀ c, ValidIndex shape c = true → un (G.idx c) = c) (h : Ok C G) (hb : (tasks C).Baked cs es fs) (hE : EdgesOfTriangles W)
    (hc : CellsOf (planeEdges (embed X un) cs (edgesOf C cs)) cells) (a b : ℤ)
    (hab : (a, b) ∈ planeEdges (embed X un) cs (edgesOf C cs) ∨ (b, a) ∈ planeEdges (embed X un) cs (edgesOf C cs))
    (hwall : netT (keptTriangles (embed X un) cs fs) a b = 1)
    (l r : PlaneCell) (hl : l ∈ cells) (hr : r ∈ cells) (hal : (a, b) ∈ Triangulate.loopEdges l.loops) (hbr : (b, a) ∈ Triangulate.loopEdges r.loops)
    (hlc : l.capped = true) (hrc : r.capped = false) : netT (result ear tri cells (embed X un) cs fs) a b = 2 := by
  have hnd : (planeEdges (embed X un) cs (edgesOf C cs)).Nodup := (stlEdges_nodup ..).filter _
  have hlt : ∀ e ∈ planeEdges (embed X un) cs (edgesOf C cs), e.1 < e.2 := by
    rintro ⟨x, y⟩ he
    exact ((C121_plane_edges X un hz hsize hun h hb hE x y).1 he).1
  have hm : sortPair (a, b) ∈ planeEdges (embed X un) cs (edgesOf C cs) ∧ a ≠ b := by
    unfold sortPair
    rcases hab with hab | hab
    · have := hlt _ hab
      dsimp only at this
      rw [if_pos (by dsimp only; omega)]
      exact ⟨hab, by omega⟩
    · have := hlt _ hab
      dsimp only at this
      rw [if_neg (by dsimp only; omega)]
      exact ⟨hab, by omega⟩
  have := ((C121_caps_border ear tri hear htri hnd hlt hc a b).1 hm.1 hm.2).2.2 l hl r hr hal hbr
  unfold result
  rw [netT_append, this, hwall, if_pos hlc, hrc]
  rfl
end

/-! ## a concrete case: a square inside a square -/

/-- the edges of two nested squares `0 1 2 3` and `4 5 6 7`. -/
def exE : List (ℤ × ℤ) := [(0, 1), (0, 3), (1, 2), (2, 3), (4, 5), (4, 7), (5, 6), (6, 7)]

/-- its cells: the ring, the inner square, the outside. -/
def exCells : List PlaneCell := [⟨[[0, 1, 2, 3], [4, 7, 6, 5]], some 3⟩, ⟨[[4, 5, 6, 7]], some 1⟩, ⟨[[0, 3, 2, 1]], none⟩]

/-- the hypotheses of `C121_caps_border` hold, with fans for the triangulations; the outer square is on the border of the closing faces, the
inner one is not. -/
example : exE.Nodup ∧ (∀ e ∈ exE, e.1 < e.2) ∧ CellsOf exE exCells ∧
    ∀ (ear : List ℤ → List Tri) (tri : List (List ℤ) → List Tri), (∀ l, HasBorder (ear l) (Triangulate.loopEdges [l])) →
      (∀ ls, HasBorder (tri ls) (Triangulate.loopEdges ls)) → netT (caps ear tri exCells) 0 1 = 1 ∧ netT (caps ear tri exCells) 4 5 = 0 := by
  have h1 : exE.Nodup := by decide
  have h2 : ∀ e ∈ exE, e.1 < e.2 := by decide
  have h3 : CellsOf exE exCells := by unfold CellsOf; decide +kernel
  refine ⟨h1, h2, h3, fun ear tri hear htri => ⟨?_, ?_⟩⟩
  · have := ((C121_caps_border ear tri hear htri h1 h2 h3 0 1).1 (by decide) (by decide)).2.2 _ (.head _) _ (.tail _ (.tail _ (.head _)))
      (by decide) (by decide)
    exact this
  · have := ((C121_caps_border ear tri hear htri h1 h2 h3 4 5).1 (by decide) (by decide)).2.2 _ (.tail _ (.head _)) _ (.head _)
      (by decide) (by decide)
    exact this

/-- triangulations with the border of the loops exist: fans. -/
example : (∀ l, HasBorder (triangleFan l) (Triangulate.loopEdges [l])) ∧ ∀ ls, HasBorder (ls.flatMap triangleFan) (Triangulate.loopEdges ls) := by
  constructor
  · intro l
    have := C107_fan l
    unfold Triangulate.loopEdges
    rw [List.flatMap_cons, List.flatMap_nil, List.append_nil]
    exact this
  · intro ls
    rw [hasBorder_iff]
    intro e
    unfold Triangulate.loopEdges
    induction ls with
    | nil => rfl
    | cons l ls ih =>
      rw [List.flatMap_cons, List.flatMap_append, netE_append, ih, List.flatMap_cons, netE_append]
      congr 1
      exact (hasBorder_iff _ _).1 (C107_fan l) e

end Slicer
end Mandoline
