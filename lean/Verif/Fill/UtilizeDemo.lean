import Verif.Fill.Utilize
import Verif.Fill.Demo
import Mathlib.Tactic.IntervalCases

/-! # C111: the hypotheses hold for the unit cell cut in two -/
namespace Mandoline
namespace Gen3
open CellCollapser

theorem sideIn_iff {faces : List (ℤ × List (List ℤ))} (hc : Clean faces) (V nrm : ℤ → Vec3) (c : Coord 3) (f : ℤ) (b : Bool)
    {loops : List (List ℤ)} (h : (f, loops) ∈ faces) : SideIn faces V nrm c f b ↔
    (∀ v ∈ loops.flatten, InClosedCell c (V v)) ∧ ∀ i, ((∀ v ∈ loops.flatten, V v i = c i) → 0 < sideSign b * nrm f i) ∧
      ((∀ v ∈ loops.flatten, V v i = c i + 1) → sideSign b * nrm f i < 0) := by
  unfold SideIn FaceIn CellCollapser.InPlane
  simp only [isVertex_iff hc h]

/-- the faces of `halfFaces`: the walls have the outside as neighbour, the cut has none. -/
def halfP : List (ℤ × PFace) :=
  [(0, ⟨[[0, 2, 6, 4]], some (-2, false), ![some 0, none, none]⟩), (1, ⟨[[1, 3, 7, 5]], some (-2, false), ![some 1, none, none]⟩),
   (2, ⟨[[0, 4, 10, 8]], some (-2, false), ![none, some 0, none]⟩), (3, ⟨[[8, 10, 5, 1]], some (-2, false), ![none, some 0, none]⟩),
   (4, ⟨[[2, 6, 11, 9]], some (-2, false), ![none, some 1, none]⟩), (5, ⟨[[9, 11, 7, 3]], some (-2, false), ![none, some 1, none]⟩),
   (6, ⟨[[0, 8, 9, 2]], some (-2, false), ![none, none, some 0]⟩), (7, ⟨[[8, 1, 3, 9]], some (-2, false), ![none, none, some 0]⟩),
   (8, ⟨[[4, 10, 11, 6]], some (-2, false), ![none, none, some 1]⟩), (9, ⟨[[10, 5, 7, 11]], some (-2, false), ![none, none, some 1]⟩),
   (10, ⟨[[8, 9, 11, 10]], none, Mask.empty⟩)]

theorem halfP_faces : collapserFaces halfP = halfFaces := rfl

/-- roots of the disjoint sets. -/
def halfR : DsuRoots ((CellCollapser.make (collapserFaces halfP)).merge halfOrd).ds :=
  (merge_dsOk (raw_make halfFaces) _ halfOrd_perm).roots

theorem half_kept : ∀ m ∈ keptCells halfP ![1, 1, 1] halfOrd halfR, ∀ x ∈ m, ∃ p ∈ halfFaces, p.1 = x.1 ∧
    (∀ v ∈ p.2.flatten, InClosedCell 0 (halfV v)) ∧ ∀ i, ((∀ v ∈ p.2.flatten, halfV v i = (0 : Coord 3) i) → 0 < sideSign x.2 * halfN x.1 i) ∧
      ((∀ v ∈ p.2.flatten, halfV v i = (0 : Coord 3) i + 1) → sideSign x.2 * halfN x.1 i < 0) := by
  decide +kernel

theorem half_inner : ∀ m ∈ (bakedCells halfP halfOrd halfR).cells, (∃ x ∈ m, x.1 = 10) ∨ ∀ x ∈ m, ∃ p ∈ halfFaces, p.1 = x.1 ∧
    ¬ ((∀ v ∈ p.2.flatten, InClosedCell 0 (halfV v)) ∧ ∀ i, ((∀ v ∈ p.2.flatten, halfV v i = (0 : Coord 3) i) → 0 < sideSign x.2 * halfN x.1 i) ∧
      ((∀ v ∈ p.2.flatten, halfV v i = (0 : Coord 3) i + 1) → sideSign x.2 * halfN x.1 i < 0)) := by
  decide +kernel

theorem half_side (m : List (ℤ × Bool)) (hm : m ∈ keptCells halfP ![1, 1, 1] halfOrd halfR) (x : ℤ × Bool) (hx : x ∈ m) (c : Coord 3)
    (h : SideIn halfFaces halfV halfN c x.1 x.2) : c = 0 := by
  obtain ⟨⟨f, loops⟩, hp, hf, h2⟩ := half_kept m hm x hx
  dsimp only at hf
  subst hf
  have h0 := (sideIn_iff half_clean halfV halfN 0 x.1 x.2 hp).2 h2
  obtain ⟨c', -, hu⟩ := C110_side_cell_unique halfFaces half_clean halfV halfN x.1 (List.mem_map.2 ⟨_, hp, rfl⟩)
    (half_ok _ (List.mem_map.2 ⟨_, hp, rfl⟩)) x.2
  rw [hu c h, hu 0 h0]

theorem half_open : CutOpen halfP halfV halfN (bakedCells halfP halfOrd halfR) 0 where
  walled := half_walled
  full := half_full
  unfolded := by
    intro f b _ hf
    obtain ⟨hpos, hnd⟩ := clean_hf half_clean
    have := (C38_folded_faces halfFaces hpos hnd halfOrd halfOrd_perm halfR f).2 hf
    have h0 : (bakedCells halfP halfOrd halfR).foldedFaces = [] := by decide +kernel
    have h1 : f ∈ (bakedCells halfP halfOrd halfR).foldedFaces := this
    rw [h0] at h1
    cases h1
  inner := by
    rintro m hm ⟨x, hx, hs⟩
    rcases half_inner m hm with ⟨y, hy, h10⟩ | h
    · refine ⟨y, hy, fun f hf => ?_⟩
      rw [h10] at hf
      have : ∀ p ∈ halfP, p.1 = 10 → p.2.ext = none := by decide
      exact this _ hf rfl
    · obtain ⟨⟨f, loops⟩, hp, hf, h2⟩ := h x hx
      dsimp only at hf
      subst hf
      exact absurd ((sideIn_iff half_clean halfV halfN 0 x.1 x.2 hp).1 hs) h2

/-- all hypotheses of C111 hold in this example, and the mesh is accepted in a grid of one cell. -/
example (o dx : Vec3) (hdx : ∀ i, 0 < dx i) (order : GridOrder 3) (stored : OutCell → Coord 3) (hst : ∀ d c, d.gridCell = some c → stored d = c) :
    ∃ M : OutMesh PFace Unit, generate (bakeState halfP (keptCells halfP ![1, 1, 1] halfOrd halfR) (fun _ => 0) [] (fun _ => [])
        (bakedCells halfP halfOrd halfR).foldedFaces) (fun v => Vertex.fromVertex (halfV v)) = some M ∧ M.cells.length = 2 ∧
      Validation.gridCellsUtilized (order.coords ![1, 1, 1]) (fun _ => true) (dx 0 * dx 1 * dx 2)
        (M.cells.map fun d => (stored d, M.volume (-1 / 6) (worldPos o dx halfV) d)) = true := by
  have hs : OMap.Sorted intLt halfP := by
    have : halfP.Pairwise fun a b => intLt a.1 b.1 = true := by
      have : (halfP.map Prod.fst).Pairwise fun a b => intLt a b = true := by decide
      exact List.pairwise_map.1 this
    exact this
  obtain ⟨M, hM⟩ := (C101_mesh_exists (B := Unit) halfP hs half_clean ![1, 1, 1] halfOrd halfOrd_perm halfR (fun _ => 0) [] (fun _ => [])
    (bakedCells halfP halfOrd halfR).foldedFaces (fun v => Vertex.fromVertex (halfV v))).2 ⟨by simp, by simp⟩
  have hlen : M.cells.length = 2 := by
    obtain ⟨-, -, -, -, h3⟩ := generate_spec _ _ M hM
    rw [← h3.length_eq]
    have e : (bakeState halfP (keptCells halfP ![1, 1, 1] halfOrd halfR) (fun _ => 0) ([] : List (ℤ × Unit)) (fun _ => [])
        (bakedCells halfP halfOrd halfR).foldedFaces).cells.length = (keptCells halfP ![1, 1, 1] halfOrd halfR).length := by
      unfold bakeState
      dsimp only
      rw [List.length_map, List.length_zipIdx]
    rw [e]
    decide +kernel
  have hnum : ∀ (k : ℕ) i f, halfP[k]? = some (i, f) → i = k := by
    intro k i f h
    have hk : k < 11 := (List.getElem?_eq_some_iff.1 h).1
    interval_cases k <;> · simp only [halfP, List.getElem?_cons_zero, List.getElem?_cons_succ, Option.some.injEq, Prod.mk.injEq] at h; rw [← h.1]; rfl
  have hedges : ∀ f, (edgesOf halfFaces f).Nodup := by
    intro f
    by_cases hf : f ∈ halfFaces.map Prod.fst
    · revert f; decide +kernel
    · have : edgesOf halfFaces f = [] := List.eq_nil_iff_forall_not_mem.2 fun e he => by
        obtain ⟨loops, h1, -⟩ := mem_edgesOf.1 he
        exact hf (List.mem_map.2 ⟨_, h1, rfl⟩)
      rw [this]; exact List.nodup_nil
  have hP : ∀ v : ℕ, halfV v = (Vertex.fromVertex (halfV v)).p := fun v => (C05_fromVertex _).1.symm
  have hgb : ∀ p ∈ halfP, CellCollapser.onGridBoundary ![1, 1, 1] p.2.mask = true → p.2.ext ≠ none := by decide +kernel
  have hopen : ∀ m ∈ keptCells halfP ![1, 1, 1] halfOrd halfR, ∀ x ∈ m, ∀ c, SideIn (collapserFaces halfP) halfV halfN c x.1 x.2 →
      CutOpen halfP halfV halfN (bakedCells halfP halfOrd halfR) c := by
    intro m hm x hx c h
    rw [half_side m hm x hx c h]
    exact half_open
  refine ⟨M, hM, hlen, ?_⟩
  rw [C111_validated halfP hs hnum half_clean hedges (fun v => Vertex.fromVertex (halfV v)) (fun v => Vertex.fromVertex_normalised _) halfV halfN hP
    half_ok halfOrd halfOrd_perm half_ordered halfR ![1, 1, 1] hgb hopen (fun _ => 0) [] (fun _ => []) M hM o dx hdx stored hst order (fun _ => true)]
  intro c hcr _
  have hc0 : c = 0 := by
    funext i
    have := hcr i
    have : (![1, 1, 1] : Fin 3 → ℤ) i = 1 := by fin_cases i <;> rfl
    simp only [Pi.zero_apply]; omega
  subst hc0
  have h0 : 0 < M.cells.length := by omega
  refine ⟨M.cells[0], List.getElem_mem h0, ?_⟩
  obtain ⟨m, c, hm, hc', hne, hside⟩ := C111_grid_cell halfP hs hnum half_clean hedges (fun v => Vertex.fromVertex (halfV v))
    (fun v => Vertex.fromVertex_normalised _) halfV halfN hP half_ok halfOrd halfOrd_perm half_ordered halfR ![1, 1, 1] hgb hopen (fun _ => 0) []
    (fun _ => []) M hM 0 _ (List.getElem?_eq_getElem h0)
  obtain ⟨x, hx⟩ := List.exists_mem_of_ne_nil _ hne
  rw [hc', half_side m (List.mem_of_getElem? hm) x hx c (hside x hx)]

end Gen3
end Mandoline
