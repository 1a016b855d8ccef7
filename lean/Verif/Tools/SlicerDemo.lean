import Verif.Tools.SlicerCaps

/-!
# The hypotheses of C121 are met: a tetrahedron with two corners below the plane
-/
namespace Mandoline
open Sched TriInput SurfInput Watertight CellCollapser EdgeInput Triangulate
namespace Slicer

/-- the corners of the tetrahedron. -/
def teV : Fin 4 → Vec3 := ![![-1, -1, -1], ![1, -1, 1], ![-1, 1, 1], ![1, 1, -1]]

/-- the input of `bake`. -/
def teW : SurfInput 3 6 4 4 where
  I := { V := fun i => Vertex.fromVertex ((embed (fun i => exT.apply (teV i)) exUn).localPt (exT.apply (teV i))),
         E := ![(1, 2), (0, 2), (0, 1), (1, 3), (0, 3), (2, 3)], grid := some ![1, 1, 2], gridIndex := linIndex 3 ![2, 2, 3],
         gridSize := 12 }
  F := ![![0, 1, 2], ![0, 3, 1], ![0, 2, 3], ![1, 3, 2]]
  FE := ![![0, 1, 2], ![3, 2, 4], ![5, 4, 1], ![5, 0, 3]]
  first := ![0, 0, 0, 0]

/-- the local coordinates. -/
def teL : Fin 4 → Pt 3 := ![![1/22, 1/22, 1/11], ![21/22, 1/22, 21/11], ![1/22, 21/22, 21/11], ![21/22, 21/22, 1/11]]

theorem teW_p (j : Fin 4) : (teW.I.V j).p = teL j := by
  show (Vertex.fromVertex _).p = _
  rw [Vertex.fromVertex_p]
  revert j; decide +kernel

theorem teW_closed : teW.Closed := by unfold SurfInput.Closed; decide +kernel

theorem teW_edges : EdgesOfTriangles teW := by unfold EdgesOfTriangles; decide +kernel

theorem teL_mid (j : Fin 4) : Mid (teL j) := by
  unfold Mid
  revert j; decide +kernel

theorem mid_bary' {P : Fin 3 → Pt 3} (h : ∀ j, Mid (P j)) {b : Fin 3 → ℚ} (hb : IsBary b) : Mid (baryPoint P b) := by
  intro i hi
  have hs := hb.sum
  have h0 := hb.nonneg 0
  have h1 := hb.nonneg 1
  have h2 := hb.nonneg 2
  obtain ⟨l0, u0⟩ := h 0 i hi
  obtain ⟨l1, u1⟩ := h 1 i hi
  obtain ⟨l2, u2⟩ := h 2 i hi
  unfold baryPoint
  rw [Fin.sum_univ_three] at hs ⊢
  constructor <;> nlinarith

theorem teW_mid_tri (f : Fin 4) (j : Fin 3) : Mid ((teW.tri f).P j) := by
  show Mid (teW.I.V (teW.F f j)).p
  rw [teW_p]
  exact teL_mid _

theorem teW_edge (i : Fin 6) : Separated (bakeTol teW.I.grid) (teW.I.fst i).p (teW.I.snd i).p := by
  unfold EdgeInput.fst EdgeInput.snd
  rw [teW_p, teW_p]
  exact mid_separated (teL_mid _) (teL_mid _)

theorem teW_chords (f : Fin 4) : (teW.tri f).ChordsSeparated := by
  intro p q hp hq _ _ _
  exact mid_separated (mid_bary' (teW_mid_tri f) hp) (mid_bary' (teW_mid_tri f) hq)

theorem teW_tri (f : Fin 4) : (teW.tri f).Ok :=
  ⟨fun j => fromVertex_ok _, fun e => mid_separated (teW_mid_tri f _) (teW_mid_tri f _)⟩

theorem teW_mid {C : teW.Choices} : ∀ v ∈ teW.flat teW.I.baked C.isects, Mid v.p := by
  intro v hv
  unfold SurfInput.flat at hv
  rcases List.mem_append.1 hv with hv | hv
  · rcases List.mem_append.1 hv with hv | hv
    · obtain ⟨i, _, rfl⟩ := List.mem_map.1 hv
      rw [teW_p]; exact teL_mid i
    · obtain ⟨i, _, hv⟩ := List.mem_flatMap.1 hv
      obtain ⟨e, he, rfl⟩ := List.mem_map.1 hv
      have h3 := (C14_position_exact _ _ _ _ (fromVertex_ok _).1 (fromVertex_ok _).1 (teW_edge i) e he).2
      obtain ⟨⟨_, h0, h1, _⟩, _⟩ := (bakeEdge_spec _ _ _ _ (fromVertex_ok _).1 (fromVertex_ok _).1).2.1 e he
      have e1 : e.v.p = segPt (teW.I.fst i).p (teW.I.snd i).p e.t := funext h3
      rw [e1]
      unfold EdgeInput.fst EdgeInput.snd
      rw [teW_p, teW_p]
      exact mid_seg (teL_mid _) (teL_mid _) h0.le h1.le
  · obtain ⟨f, _, hv⟩ := List.mem_flatMap.1 hv
    obtain ⟨e, he, rfl⟩ := List.mem_map.1 hv
    have h73 := C73_crossings_exact (teW_tri f) (teW_chords f) (C.ptrLt f)
    obtain ⟨_, hp, _⟩ := h73.2.1 e he
    rw [hp]
    have ht := ((h73.1 e.b).1 ⟨e, he, rfl⟩)
    exact mid_bary' (teW_mid_tri f) ⟨fun j => (ht.1 j).le, ht.2.1⟩

theorem teW_ok (C : teW.Choices) : Ok C (linIndexer (D := 3) ![2, 2, 3] (by decide)) where
  table := by decide +kernel
  norm i := (fromVertex_ok _).1
  flags i := (fromVertex_ok _).2
  nondeg := by
    intro f b hb h
    have h0 := h 0
    have h1 := h 1
    have h2 := h 2
    rw [Fin.sum_univ_three] at hb h0 h1 h2
    simp only [teW_p] at h0 h1 h2
    have key : b 0 = 0 ∧ b 1 = 0 ∧ b 2 = 0 := by
      match f with
      | 0 =>
        replace h0 : b 0 * (1/22) + b 1 * (21/22) + b 2 * (1/22) = 0 := h0
        replace h1 : b 0 * (1/22) + b 1 * (1/22) + b 2 * (21/22) = 0 := h1
        refine ⟨?_, ?_, ?_⟩ <;> linarith
      | 1 =>
        replace h0 : b 0 * (1/22) + b 1 * (21/22) + b 2 * (21/22) = 0 := h0
        replace h1 : b 0 * (1/22) + b 1 * (21/22) + b 2 * (1/22) = 0 := h1
        refine ⟨?_, ?_, ?_⟩ <;> linarith
      | 2 =>
        replace h0 : b 0 * (1/22) + b 1 * (1/22) + b 2 * (21/22) = 0 := h0
        replace h1 : b 0 * (1/22) + b 1 * (21/22) + b 2 * (21/22) = 0 := h1
        refine ⟨?_, ?_, ?_⟩ <;> linarith
      | 3 =>
        replace h0 : b 0 * (21/22) + b 1 * (21/22) + b 2 * (1/22) = 0 := h0
        replace h1 : b 0 * (1/22) + b 1 * (21/22) + b 2 * (21/22) = 0 := h1
        refine ⟨?_, ?_, ?_⟩ <;> linarith
    funext j
    match j with
    | 0 => exact key.1
    | 1 => exact key.2.1
    | 2 => exact key.2.2
  sep := teW_edge
  chords := teW_chords
  inGrid := by
    intro v hv hg
    obtain ⟨z, hz⟩ := hg 0
    exact absurd hz (mid_not_int (teW_mid v hv) 0 (by decide) z)
  index := rfl
  size := by decide +kernel

/-- `vertex_unindex` inverts `vertex_index`. -/
theorem exUn_idx (c : Coord 3) (hc : ValidIndex (![2, 2, 3] : Coord 3) c = true) :
    exUn ((linIndexer (D := 3) ![2, 2, 3] (by decide)).idx c) = c := by
  rw [validIndex_iff] at hc
  have h0 := hc 0
  have h1 := hc 1
  have h2 := hc 2
  simp at h0 h1 h2
  have e : linIndex 3 ![2, 2, 3] c = c 0 + 2 * (c 1 + 2 * (c 2 + 3 * 0)) := rfl
  show (![linIndex 3 ![2, 2, 3] c % 2, linIndex 3 ![2, 2, 3] c / 2 % 2, linIndex 3 ![2, 2, 3] c / 4] : Coord 3) = c
  rw [e]
  funext i
  match i with
  | 0 => show (c 0 + 2 * (c 1 + 2 * (c 2 + 3 * 0))) % 2 = c 0; omega
  | 1 => show (c 0 + 2 * (c 1 + 2 * (c 2 + 3 * 0))) / 2 % 2 = c 1; omega
  | 2 => show (c 0 + 2 * (c 1 + 2 * (c 2 + 3 * 0))) / 4 = c 2; omega

/-- for every set of edges there are cells. -/
theorem cells_exist (E : List (ℤ × ℤ)) : ∃ cells, CellsOf E cells := by
  refine ⟨E.map fun e => ⟨[[e.1, e.2]], none⟩, ?_⟩
  unfold CellsOf
  rw [List.flatMap_map]
  exact List.Perm.refl _

/-- the hypotheses of `C121_closed_iff` hold for the tetrahedron. -/
example : ∃ (C : teW.Choices) (cs : List (CrossingI 3)) (es : List (EdgeInput.MeshEdge 3)) (fs : List (MeshFace 3)) (cells : List PlaneCell),
    (tasks C).Baked cs es fs ∧ CellsOf (planeEdges (embed (fun i => exT.apply (teV i)) exUn) cs (edgesOf C cs)) cells ∧
    ∀ (ear : List ℤ → List Tri) (tri : List (List ℤ) → List Tri), (∀ l, HasBorder (ear l) (Triangulate.loopEdges [l])) →
      (∀ ls, HasBorder (tri ls) (Triangulate.loopEdges ls)) →
      (ClosedT (result ear tri cells (embed (fun i => exT.apply (teV i)) exUn) cs fs) ↔
      ∀ a b, (a, b) ∈ planeEdges (embed (fun i => exT.apply (teV i)) exUn) cs (edgesOf C cs) → ∀ l ∈ cells, ∀ r ∈ cells,
        (a, b) ∈ Triangulate.loopEdges l.loops → (b, a) ∈ Triangulate.loopEdges r.loops →
        netT (keptTriangles (embed (fun i => exT.apply (teV i)) exUn) cs fs) a b = (if r.capped then 1 else 0) - (if l.capped then 1 else 0)) := by
  obtain ⟨C, _, cs, es, fs, hb⟩ := C109_run_exists teW_tri teW_chords (fun _ _ _ => false)
  obtain ⟨cells, hc⟩ := cells_exist (planeEdges (embed (fun i => exT.apply (teV i)) exUn) cs (edgesOf C cs))
  refine ⟨C, cs, es, fs, cells, hb, hc, fun ear tri hear htri => ?_⟩
  exact C121_closed_iff ear tri hear htri _ exUn ⟨0, by decide +kernel⟩ (by decide +kernel) exUn_idx (teW_ok C) hb teW_edges teW_closed hc

end Slicer
end Mandoline
