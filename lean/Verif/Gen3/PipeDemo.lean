import Verif.Gen3.Pipe

/-!
# Non-vacuity of C101

Two tetrahedra with a common face, and a tetrahedron inside a cube whose six faces have exterior neighbours.
-/
namespace Mandoline
namespace Gen3

/-- two tetrahedra `0123` and `0124` glued along face 0; face 1 borders an exterior cell, the other outer faces the domain. -/
def glued : List (ℤ × PFace) :=
  [(0, ⟨[[0, 1, 2]], none, Mask.empty⟩), (1, ⟨[[0, 3, 1]], some (7, false), Mask.empty⟩),
   (2, ⟨[[1, 3, 2]], some (-2, false), Mask.empty⟩), (3, ⟨[[0, 2, 3]], some (-2, false), Mask.empty⟩),
   (4, ⟨[[0, 4, 1]], some (-2, false), Mask.empty⟩), (5, ⟨[[1, 4, 2]], some (-2, false), Mask.empty⟩),
   (6, ⟨[[0, 2, 4]], some (-2, false), Mask.empty⟩)]

/-- the cyclic order of the faces around the edges. -/
def gluedOrd (e : DEdge) : List ℤ :=
  if e = (0, 2) then ((CellCollapser.make (collapserFaces glued)).around e).reverse
  else (CellCollapser.make (collapserFaces glued)).around e

theorem gluedOrd_perm (e : DEdge) : (gluedOrd e).Perm ((CellCollapser.make (collapserFaces glued)).around e) := by
  unfold gluedOrd; split <;> simp

/-- roots of its disjoint sets. -/
def gluedR : DsuRoots ((CellCollapser.make (collapserFaces glued)).merge gluedOrd).ds :=
  (CellCollapser.merge_dsOk (CellCollapser.raw_make _) _ gluedOrd_perm).roots

theorem glued_clean : CellCollapser.Clean (collapserFaces glued) := by
  refine ⟨?_, ?_, ?_, ?_, ?_⟩ <;> decide +kernel

theorem glued_cells : (bakedCells glued gluedOrd gluedR).cells =
    [[(0, true), (1, true), (2, true), (3, true)], [(0, false), (4, false), (5, false), (6, false)],
     [(1, false), (2, false), (3, false), (4, true), (5, true), (6, true)]] := by decide +kernel

/-- `SideOutside`, computed. -/
def sideOutsideB (faces : List (ℤ × PFace)) (cells : List (List (ℤ × Bool))) (i : ℤ) (b : Bool) : Bool :=
  cells.any fun m => decide ((i, b) ∈ m) && m.all fun p => hasExt faces p.1

theorem sideOutsideB_iff (faces : List (ℤ × PFace)) (hs : OMap.Sorted intLt faces) (cells : List (List (ℤ × Bool))) (i : ℤ) (b : Bool) :
    sideOutsideB faces cells i b = true ↔ SideOutside faces cells i b := by
  unfold sideOutsideB SideOutside
  rw [List.any_eq_true]
  constructor
  · rintro ⟨m, hm, h⟩
    rw [Bool.and_eq_true, List.all_eq_true] at h
    exact ⟨m, hm, of_decide_eq_true h.1, fun p hp => (hasExt_iff faces hs p.1).1 (h.2 p hp)⟩
  · rintro ⟨m, hm, h1, h2⟩
    refine ⟨m, hm, ?_⟩
    rw [Bool.and_eq_true, List.all_eq_true]
    exact ⟨decide_eq_true h1, fun p hp => (hasExt_iff faces hs p.1).2 (h2 p hp)⟩

theorem glued_sorted : OMap.Sorted intLt glued := by unfold OMap.Sorted; decide

/-- all hypotheses of `C101_kills_constants` hold: the operator of the mesh of the two tetrahedra annihilates constants. -/
example (V : ℕ → Vertex 3) : ∃ M, generate (bakeState glued (keptCells glued ![1, 1, 1] gluedOrd gluedR) (fun _ => 0)
      ([] : List (ℤ × Unit)) (fun _ => []) []) V = some M ∧
    ∀ look v, ∀ k : ℕ, k < 7 → matVec (M.cutMesh.boundary look [] false) (fun _ => v) k = 0 := by
  obtain ⟨M, hM⟩ := (C101_mesh_exists glued glued_sorted glued_clean ![1, 1, 1] gluedOrd gluedOrd_perm gluedR (fun _ => 0)
    ([] : List (ℤ × Unit)) (fun _ => []) [] V).2 ⟨by simp, by simp⟩
  refine ⟨M, hM, fun look v k hk => ?_⟩
  refine C101_kills_constants glued glued_sorted glued_clean ![1, 1, 1] ?_ gluedOrd gluedOrd_perm gluedR _ _ _ _ V M hM ?_ ?_ look []
    (by simp) v k hk
  · decide +kernel
  · rw [glued_cells]; unfold TwoCells; decide +kernel
  · intro p hp c s hcs
    rw [← sideOutsideB_iff _ glued_sorted, ← sideOutsideB_iff _ glued_sorted, glued_cells]
    have h : ∀ p ∈ glued, (p.2.ext = none ∨ p.2.ext = some (-2, false) ∨ p.2.ext = some (7, false)) ∧
        (p.2.ext ≠ none → (sideOutsideB glued [[(0, true), (1, true), (2, true), (3, true)], [(0, false), (4, false), (5, false), (6, false)],
          [(1, false), (2, false), (3, false), (4, true), (5, true), (6, true)]] p.1 true = true ↔
        ¬ sideOutsideB glued [[(0, true), (1, true), (2, true), (3, true)], [(0, false), (4, false), (5, false), (6, false)],
          [(1, false), (2, false), (3, false), (4, true), (5, true), (6, true)]] p.1 false = true)) := by decide +kernel
    obtain ⟨h1, h2⟩ := h p hp
    refine ⟨?_, h2 (by rw [hcs]; simp)⟩
    rw [hcs] at h1
    simp only [Option.some.injEq, Prod.mk.injEq, reduceCtorEq, false_or] at h1
    omega

/-- the cells the mesh keeps: the two tetrahedra. -/
example : keptCells glued ![1, 1, 1] gluedOrd gluedR =
    [[(0, true), (1, true), (2, true), (3, true)], [(0, false), (4, false), (5, false), (6, false)]] := by decide +kernel

/-- a cube with exterior cells 10 .. 15 behind its faces, and a small tetrahedron that does not touch it. -/
def island : List (ℤ × PFace) :=
  [(0, ⟨[[0, 1, 3, 2]], some (10, false), Mask.empty⟩), (1, ⟨[[4, 5, 7, 6]], some (11, false), Mask.empty⟩),
   (2, ⟨[[0, 2, 6, 4]], some (12, false), Mask.empty⟩), (3, ⟨[[1, 3, 7, 5]], some (13, false), Mask.empty⟩),
   (4, ⟨[[0, 4, 5, 1]], some (14, false), Mask.empty⟩), (5, ⟨[[2, 6, 7, 3]], some (15, false), Mask.empty⟩),
   (6, ⟨[[8, 9, 10]], none, Mask.empty⟩), (7, ⟨[[8, 11, 9]], none, Mask.empty⟩),
   (8, ⟨[[9, 11, 10]], none, Mask.empty⟩), (9, ⟨[[8, 10, 11]], none, Mask.empty⟩)]

/-- roots of its disjoint sets; every edge has two faces, so their order does not matter. -/
def islandR : DsuRoots ((CellCollapser.make (collapserFaces island)).merge (CellCollapser.make (collapserFaces island)).around).ds :=
  (CellCollapser.merge_dsOk (CellCollapser.raw_make _) _ fun _ => .refl _).roots

theorem island_clean : CellCollapser.Clean (collapserFaces island) := by
  refine ⟨?_, ?_, ?_, ?_, ?_⟩ <;> decide +kernel

theorem island_sorted : OMap.Sorted intLt island := by unfold OMap.Sorted; decide

/-- `C101_lost_cell_refuted` applies: the part of the cube outside the tetrahedron has no cell with the cube's faces, and the
boundary operator does not annihilate constants. -/
example (V : ℕ → Vertex 3) : ∃ M, generate (bakeState island
      (keptCells island ![9, 9, 9] (CellCollapser.make (collapserFaces island)).around islandR) (fun _ => 0)
      ([] : List (ℤ × Unit)) (fun _ => []) []) V = some M ∧
    ∀ look, matVec (M.cutMesh.boundary look [] false) (fun _ => 1) (0 : ℕ) ≠ 0 := by
  obtain ⟨M, hM⟩ := (C101_mesh_exists island island_sorted island_clean ![9, 9, 9] _ (fun _ => .refl _) islandR (fun _ => 0)
    ([] : List (ℤ × Unit)) (fun _ => []) [] V).2 ⟨by simp, by simp⟩
  refine ⟨M, hM, fun look => ?_⟩
  refine (C101_lost_cell_refuted island island_sorted island_clean ![9, 9, 9] (by decide +kernel) _ (fun _ => .refl _) islandR _ _ _ _ V M hM
    0 0 _ rfl 10 false rfl (by decide) ?_ ?_ look [] (by simp) false).2
  · rw [← sideOutsideB_iff _ island_sorted]; decide +kernel
  · rw [← sideOutsideB_iff _ island_sorted]; decide +kernel

/-- only the two cells of the tetrahedron are left. -/
example : keptCells island ![9, 9, 9] (CellCollapser.make (collapserFaces island)).around islandR =
    [[(6, false), (7, false), (8, false), (9, false)], [(6, true), (7, true), (8, true), (9, true)]] := by decide +kernel

end Gen3
end Mandoline
