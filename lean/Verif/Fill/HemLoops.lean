import Verif.Fill.PlaneWalls
import Verif.Fill.WallsDemo
import Verif.Pipe2.Tile

/-!
# C112: the half-edge mesh of a plane from its loops

`HemOf` (what C112 needs of the half-edge mesh of a plane) follows from the face walk of the planar graph (C35, C76): the cells
only have to group its loops. `compute_planar_hem` (src/construction/generator3_make_faces.cpp:408-430) uses a library half-edge
mesh whose cells are the loops of the graph, with several loops in one cell if one is inside the other.
-/
namespace Mandoline
namespace Gen3
open CellCollapser Planar FaceCollapser

/-! ## specification -/

/-- `cells` group the loops `out` of the face walk: different numbers, each loop is in one cell, from whichever half-edge it
starts; and if a loop of a cell has square `q` on its left somewhere, then so does each loop of that cell. -/
structure Groups (pos : ℤ → Dir) (q : Coord 2) (out : List (List ℤ)) (cells : List HemCell) : Prop where
  ids : (cells.map HemCell.id).Nodup
  loops : ∃ out', List.Forall₂ List.IsRotated out' out ∧ (cells.flatMap fun h => h.loops.map fun l => l.map Int.ofNat).Perm out'
  together : ∀ h ∈ cells, ∀ l ∈ h.loops, ∀ l' ∈ h.loops, (∃ e ∈ polyEdges (l.map Int.ofNat), LeftOf q (pos e.1) (pos e.2)) →
    ∃ e ∈ polyEdges (l'.map Int.ofNat), LeftOf q (pos e.1) (pos e.2)

/-! ## proofs -/

theorem polyEdges_rotated {l l' : List ℤ} (h : l.IsRotated l') : (polyEdges l).Perm (loopEdges l') := by
  obtain ⟨n, rfl⟩ := h
  have : loopEdges (l.rotate n) = (polyEdges l).rotate n := by
    unfold loopEdges polyEdges
    rw [List.rotate_rotate, add_comm, ← List.rotate_rotate]
    exact (List.zipWith_rotate_distrib _ _ _ _ (by simp)).symm
  rw [this]
  exact (List.rotate_perm _ _).symm

variable {edges : List DEdge} {pos : ℤ → Dir} {ord : ℤ → List ℤ}

/-- **C112.** Grouped loops of the face walk are a half-edge mesh as C112 needs it. -/
theorem C112_hem_of_loops (G : PlanarGraph edges pos ord) (R : DsuRoots ((FaceCollapser.make edges).unify ord).ds) (q : Coord 2)
    (hf : Framed pos (FaceCollapser.make edges).edgeList q) :
    ∃ out, ((FaceCollapser.make edges).bakeSimple ord R).faces = some out ∧
      ∀ cells, Groups pos q (out.map Prod.snd) cells → HemOf edges pos q cells := by
  obtain ⟨out, h1, h2, h3⟩ := C35_loops_partition_edges _ (FaceCollapser.ok_make edges) (FaceCollapser.make_inv edges).1 ord G.perm R
  have hall : ((FaceCollapser.make edges).edgeList.filter fun e =>
      decide (0 ≤ ((FaceCollapser.make edges).bakeSimple ord R).face e)) = (FaceCollapser.make edges).edgeList :=
    List.filter_eq_self.2 fun e he => decide_eq_true (Pipe2.face_nonneg _ ord G.perm R e he)
  rw [hall] at h2
  refine ⟨out, h1, fun cells H => ?_⟩
  obtain ⟨out', g1, g2⟩ := C76_loop_in_one_cell G R q hf
  rw [h1] at g1
  cases g1
  have hpart : (cells.flatMap HemCell.halfEdges).Perm (FaceCollapser.make edges).edgeList := by
    have e1 : cells.flatMap HemCell.halfEdges =
        (cells.flatMap fun h => h.loops.map fun l => l.map Int.ofNat).flatMap polyEdges := by
      rw [List.flatMap_assoc]
      refine List.flatMap_congr fun h _ => ?_
      unfold HemCell.halfEdges
      rw [List.flatMap_map]
    rw [e1]
    obtain ⟨out', r1, r2⟩ := H.loops
    refine (r2.flatMap_right polyEdges).trans (List.Perm.trans ?_ h2)
    have gen : ∀ (a : List (List ℤ)) (b : List (ℤ × List ℤ)), List.Forall₂ List.IsRotated a (b.map Prod.snd) →
        (a.flatMap polyEdges).Perm (b.flatMap fun p => loopEdges p.2) := by
      intro a b hab
      induction b generalizing a with
      | nil => cases hab; exact List.Perm.refl _
      | cons p b ih =>
        cases hab with
        | cons x y => exact (polyEdges_rotated x).append (ih _ y)
    exact gen _ _ r1
  refine ⟨H.ids, hpart, ?_⟩
  intro h hh e he hL e' he'
  obtain ⟨l, hl, hel⟩ := List.mem_flatMap.1 he
  obtain ⟨l', hl', hel'⟩ := List.mem_flatMap.1 he'
  obtain ⟨out', r1, r2⟩ := H.loops
  have hout : l'.map Int.ofNat ∈ out' := r2.mem_iff.1 (List.mem_flatMap.2 ⟨h, hh, List.mem_map.2 ⟨l', hl', rfl⟩⟩)
  have gen : ∀ (a : List (List ℤ)) (b : List (ℤ × List ℤ)), List.Forall₂ List.IsRotated a (b.map Prod.snd) →
      ∀ x ∈ a, ∃ p ∈ b, List.IsRotated x p.2 := by
    intro a b hab
    induction b generalizing a with
    | nil => cases hab; nofun
    | cons p b ih =>
      cases hab with
      | cons x y =>
        intro z hz
        rcases List.mem_cons.1 hz with rfl | hz
        · exact ⟨p, List.mem_cons_self, x⟩
        · obtain ⟨p', hp', hr⟩ := ih _ y z hz
          exact ⟨p', List.mem_cons_of_mem _ hp', hr⟩
  obtain ⟨p, hp, hrot⟩ := gen _ _ r1 _ hout
  obtain ⟨e0, he0, hL0⟩ := H.together h hh l hl l' hl' ⟨e, hel, hL⟩
  exact (g2 p hp ⟨e0, (polyEdges_rotated hrot).mem_iff.1 he0, hL0⟩).1 e' ((polyEdges_rotated hrot).mem_iff.1 hel')

/-- **C112.** One cell for each loop is such a grouping. -/
theorem C112_single_loops (out : List (ℤ × List ℤ)) (hnn : ∀ p ∈ out, ∀ v ∈ p.2, 0 ≤ v) (q : Coord 2) (area : List ℤ → ℚ) :
    Groups pos q (out.map Prod.snd) (out.zipIdx.map fun p => ⟨(p.2 : ℤ), [p.1.2.map Int.toNat], area p.1.2⟩) := by
  have hback : ∀ p ∈ out, (p.2.map Int.toNat).map Int.ofNat = p.2 := by
    intro p hp
    rw [List.map_map]
    conv_rhs => rw [← List.map_id p.2]
    refine List.map_congr_left fun v hv => ?_
    simpa using hnn p hp v hv
  refine ⟨?_, ?_, ?_⟩
  · rw [List.map_map]
    have : (HemCell.id ∘ fun p : (ℤ × List ℤ) × ℕ => (⟨(p.2 : ℤ), [p.1.2.map Int.toNat], area p.1.2⟩ : HemCell)) = Int.ofNat ∘ Prod.snd := rfl
    rw [this, ← List.map_map, List.zipIdx_map_snd]
    exact (List.nodup_range' ).map fun a b h => Int.ofNat.inj h
  · rw [List.flatMap_map]
    have : (out.zipIdx.flatMap fun p => [(p.1.2.map Int.toNat).map Int.ofNat]) = out.map Prod.snd := by
      have e2 : (out.zipIdx.flatMap fun p => [(p.1.2.map Int.toNat).map Int.ofNat]) = out.zipIdx.flatMap fun p => [p.1.2] := by
        refine List.flatMap_congr fun p hp => ?_
        rw [hback p.1 (List.fst_mem_of_mem_zipIdx hp)]
      rw [e2, ← List.map_eq_flatMap]
      have : (fun p : (ℤ × List ℤ) × ℕ => p.1.2) = Prod.snd ∘ Prod.fst := rfl
      rw [this, ← List.map_map, List.zipIdx_map_fst]
    exact ⟨out.map Prod.snd, List.forall₂_same.2 fun x _ => List.IsRotated.refl x, this ▸ List.Perm.refl _⟩
  · intro h hh l hl l' hl' hx
    obtain ⟨p, hp, rfl⟩ := List.mem_map.1 hh
    rw [List.mem_singleton] at hl hl'
    subst hl hl'
    exact hx

/-- **C112.** A wall is made of faces whenever the boundary of the square is in the planar graph of the plane, the faces in the
wall are those that `compute_faces_axis` makes from grouped loops of the face walk, and no loop with the wall on its left is dropped. -/
theorem C112_wall_made (faces : List (ℤ × List (List ℤ))) (hc : Clean faces) (V nrm : ℤ → Vec3) (c : Coord 3) (i : Fin 3) (k : ℤ)
    (hk : k = c i ∨ k = c i + 1) (G : PlanarGraph edges (planePos V i) ord) (R : DsuRoots ((FaceCollapser.make edges).unify ord).ds)
    (hinj : ∀ a b, IsNode (FaceCollapser.make edges).edgeList a → IsNode (FaceCollapser.make edges).edgeList b →
      planePos V i a = planePos V i b → a = b)
    (hf : Framed (planePos V i) (FaceCollapser.make edges).edgeList (planeCell c i))
    (htouch : ∃ v, IsNode (FaceCollapser.make edges).edgeList v ∧ InCell (planeCell c i) (planePos V i v) ∧
      ¬ InOpenCell (planeCell c i) (planePos V i v))
    (hall : ∀ f e, e ∈ edgesOf faces f → V e.1 i = k → V e.2 i = k → InClosedCell c (V e.1) → InClosedCell c (V e.2) →
      e ∈ (FaceCollapser.make edges).edgeList)
    (hplane : ∀ v, IsNode (FaceCollapser.make edges).edgeList v → V v i = k) :
    ∃ out, ((FaceCollapser.make edges).bakeSimple ord R).faces = some out ∧
      ∀ cells, Groups (planePos V i) (planeCell c i) (out.map Prod.snd) cells →
      ∀ (P : PlaneData) (W : ℕ → Vertex 3) (pcs : List ℕ → List (Coord 3)),
        FromPlane faces V nrm c i k (planeFaces P W pcs i k cells) →
        (∀ h ∈ cells, (∀ e ∈ h.halfEdges, LeftOf (planeCell c i) (planePos V i e.1) (planePos V i e.2)) →
          ∀ l ∈ h.loops, keepLoop P i (pcs l) h.area l = true) →
        WallMade faces V nrm c i k edges ord := by
  obtain ⟨out, h1, h2⟩ := C112_hem_of_loops G R (planeCell c i) hf
  refine ⟨out, h1, fun cells H P W pcs hF hkeep => ⟨G, hinj, hf, htouch, hall, fun e he hL => ?_⟩⟩
  exact C112_plane_faces faces hc V nrm c i k hk edges hplane cells (h2 cells H) P W pcs hF hkeep e he hL

/-! ## a concrete case: the wall `y = 0` of the unit cell cut in two -/

theorem halfRing_perm (i : Fin 3) (k : ℚ) (a : ℤ) : (halfRing i k a).Perm ((FaceCollapser.make (halfEdgesIn i k)).ring a) :=
  List.perm_insertionSort _ _

/-- the roots of the union-find after `unify`. -/
def halfRoots : DsuRoots ((FaceCollapser.make (halfEdgesIn 1 0)).unify (halfRing 1 0)).ds :=
  (ok_unify (ok_make _) rfl (halfRing 1 0) (halfRing_perm 1 0)).ds.roots

theorem half_loops : ((FaceCollapser.make (halfEdgesIn 1 0)).bakeSimple (halfRing 1 0) halfRoots).faces =
    some [(2, [0, 4, 10, 8]), (0, [0, 8, 1, 5, 10, 4]), (1, [1, 8, 10, 5])] := by decide +kernel

/-- the cells of `halfHem` group these loops. -/
theorem half_groups : Groups (planePos halfV 1) (planeCell 0 1) [[0, 4, 10, 8], [0, 8, 1, 5, 10, 4], [1, 8, 10, 5]] halfHem := by
  refine ⟨by decide, ⟨[[0, 4, 10, 8], [0, 8, 1, 5, 10, 4], [8, 10, 5, 1]], ?_, by decide⟩, ?_⟩
  · exact .cons (List.IsRotated.refl _) (.cons (List.IsRotated.refl _) (.cons ⟨3, rfl⟩ .nil))
  · have : ∀ h ∈ halfHem, ∀ l ∈ h.loops, ∀ l' ∈ h.loops, l = l' := by decide
    intro h hh l hl l' hl' hx
    rw [← this h hh l hl l' hl']
    exact hx

example : WallMade halfFaces halfV (fun _ => unitVec 1) 0 1 ((0 : ℤ) : ℚ) (halfEdgesIn 1 0) (halfRing 1 0) := by
  have hk : wallCheck 1 0 = true := by decide +kernel
  have h := wallMade_of_check 1 0 hk
  obtain ⟨out, h1, h2⟩ := C112_wall_made halfFaces half_clean halfV (fun _ => unitVec 1) 0 1 0 (Or.inl rfl) h.graph halfRoots h.inj h.framed h.touch
    (by simpa using h.all) (by
      have : ∀ e ∈ (FaceCollapser.make (halfEdgesIn 1 0)).edgeList, halfV e.1 1 = ((0 : ℤ) : ℚ) := by decide +kernel
      rintro v ⟨w, hw⟩
      exact this _ hw)
  rw [half_loops] at h1
  cases h1
  refine h2 halfHem half_groups halfPlane _ _ half_fromPlane fun h hh hall => ?_
  have : ∀ h ∈ halfHem, (∀ e ∈ h.halfEdges, ¬ Clockwise (planeCell 0 1) (planePos halfV 1 e.1) (planePos halfV 1 e.2)) →
      ∀ l ∈ h.loops, keepLoop halfPlane 1 [] h.area l = true := by decide +kernel
  have hne : ∀ h ∈ halfHem, ∀ e ∈ h.halfEdges, planePos halfV 1 e.1 ≠ planePos halfV 1 e.2 := by decide +kernel
  exact this h hh fun e he => ((leftOf_iff _ _ _ (hne h hh e he)).1 (hall e he)).2.2

end Gen3
end Mandoline
