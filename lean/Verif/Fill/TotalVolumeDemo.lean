import Verif.Fill.TotalVolume
import Verif.Fill.UtilizeDemo

/-! # C127: the hypotheses hold for a grid of two cells, one of them cut in two -/
namespace Mandoline
namespace Gen3
open CellCollapser

theorem half_kept2 : ∀ m ∈ keptCells halfP ![2, 1, 1] halfOrd halfR, ∀ x ∈ m, ∃ p ∈ halfFaces, p.1 = x.1 ∧
    (∀ v ∈ p.2.flatten, InClosedCell 0 (halfV v)) ∧ ∀ i, ((∀ v ∈ p.2.flatten, halfV v i = (0 : Coord 3) i) → 0 < sideSign x.2 * halfN x.1 i) ∧
      ((∀ v ∈ p.2.flatten, halfV v i = (0 : Coord 3) i + 1) → sideSign x.2 * halfN x.1 i < 0) := by
  decide +kernel

theorem half_side2 (m : List (ℤ × Bool)) (hm : m ∈ keptCells halfP ![2, 1, 1] halfOrd halfR) (x : ℤ × Bool) (hx : x ∈ m) (c : Coord 3)
    (h : SideIn halfFaces halfV halfN c x.1 x.2) : c = 0 := by
  obtain ⟨⟨f, loops⟩, hp, hf, h2⟩ := half_kept2 m hm x hx
  dsimp only at hf
  subst hf
  have h0 := (sideIn_iff half_clean halfV halfN 0 x.1 x.2 hp).2 h2
  obtain ⟨c', -, hu⟩ := C110_side_cell_unique halfFaces half_clean halfV halfN x.1 (List.mem_map.2 ⟨_, hp, rfl⟩)
    (half_ok _ (List.mem_map.2 ⟨_, hp, rfl⟩)) x.2
  rw [hu c h, hu 0 h0]

/-- all hypotheses of C127 hold in this example; the volumes add up to the box. -/
example (o dx : Vec3) (hdx : ∀ i, 0 < dx i) (ix : GridIndexer ![2, 1, 1]) :
    ∃ M : OutMesh PFace Unit, generate (bakeState halfP (keptCells halfP ![2, 1, 1] halfOrd halfR) (fun _ => 0) [] (fun _ => [])
        (bakedCells halfP halfOrd halfR).foldedFaces) (fun v => Vertex.fromVertex (halfV v)) = some M ∧ M.cells.length = 2 ∧
      ∃ L : List ℚ, meshCellVolumes (-1 / 6) (worldPos o dx halfV) (dx 0 * dx 1 * dx 2) M
        (exteriorCells M ix.idx ![2, 1, 1] (fun c => decide (c = 0)) (some 0)) = some (L.map some) ∧
        L.sum = 2 * (dx 0 * dx 1 * dx 2) := by
  have hs : OMap.Sorted intLt halfP := by
    have : halfP.Pairwise fun a b => intLt a.1 b.1 = true := by
      have : (halfP.map Prod.fst).Pairwise fun a b => intLt a b = true := by decide
      exact List.pairwise_map.1 this
    exact this
  obtain ⟨M, hM⟩ := (C101_mesh_exists (B := Unit) halfP hs half_clean ![2, 1, 1] halfOrd halfOrd_perm halfR (fun _ => 0) [] (fun _ => [])
    (bakedCells halfP halfOrd halfR).foldedFaces (fun v => Vertex.fromVertex (halfV v))).2 ⟨by simp, by simp⟩
  have hlen : M.cells.length = 2 := by
    obtain ⟨-, -, -, -, h3⟩ := generate_spec _ _ M hM
    rw [← h3.length_eq]
    have e : (bakeState halfP (keptCells halfP ![2, 1, 1] halfOrd halfR) (fun _ => 0) ([] : List (ℤ × Unit)) (fun _ => [])
        (bakedCells halfP halfOrd halfR).foldedFaces).cells.length = (keptCells halfP ![2, 1, 1] halfOrd halfR).length := by
      unfold bakeState
      dsimp only
      rw [List.length_map, List.length_zipIdx]
    rw [e]
    decide +kernel
  have hnum : ∀ (k : ℕ) i f, halfP[k]? = some (i, f) → i = k := by
    intro k i f h
    have hk : k < 11 := (List.getElem?_eq_some_iff.1 h).1
    interval_cases k <;> · simp only [halfP, List.getElem?_cons_zero, List.getElem?_cons_succ, Option.some.injEq, Prod.mk.injEq] at h; rw [← h.1]; rfl
  have hedges : ∀ f, (edgesOf halfFaces f).Nodup := by
    intro f
    by_cases hf : f ∈ halfFaces.map Prod.fst
    · revert f; decide +kernel
    · have : edgesOf halfFaces f = [] := List.eq_nil_iff_forall_not_mem.2 fun e he => by
        obtain ⟨loops, h1, -⟩ := mem_edgesOf.1 he
        exact hf (List.mem_map.2 ⟨_, h1, rfl⟩)
      rw [this]; exact List.nodup_nil
  have hP : ∀ v : ℕ, halfV v = (Vertex.fromVertex (halfV v)).p := fun v => (C05_fromVertex _).1.symm
  have hgb : ∀ p ∈ halfP, CellCollapser.onGridBoundary ![2, 1, 1] p.2.mask = true → p.2.ext ≠ none := by decide +kernel
  have hopen : ∀ m ∈ keptCells halfP ![2, 1, 1] halfOrd halfR, ∀ x ∈ m, ∀ c, SideIn (collapserFaces halfP) halfV halfN c x.1 x.2 →
      CutOpen halfP halfV halfN (bakedCells halfP halfOrd halfR) c := by
    intro m hm x hx c h
    rw [half_side2 m hm x hx c h]
    exact half_open
  have hgc : ∀ d ∈ M.cells, d.gridCell = some 0 := by
    intro d hd
    obtain ⟨n, hn⟩ := List.mem_iff_getElem?.1 hd
    obtain ⟨m, c, hm, hc', hne, hside⟩ := C111_grid_cell halfP hs hnum half_clean hedges (fun v => Vertex.fromVertex (halfV v))
      (fun v => Vertex.fromVertex_normalised _) halfV halfN hP half_ok halfOrd halfOrd_perm half_ordered halfR ![2, 1, 1] hgb hopen (fun _ => 0) []
      (fun _ => []) M hM n d hn
    obtain ⟨x, hx⟩ := List.exists_mem_of_ne_nil _ hne
    rw [hc', half_side2 m (List.mem_of_getElem? hm) x hx c (hside x hx)]
  refine ⟨M, hM, hlen, ?_⟩
  obtain ⟨L, h1, -, h2⟩ := C127_fills_domain halfP hs hnum half_clean hedges (fun v => Vertex.fromVertex (halfV v)) (fun v => Vertex.fromVertex_normalised _)
    halfV halfN hP half_ok halfOrd halfOrd_perm half_ordered halfR ![2, 1, 1] hgb hopen (fun _ => 0) [] (fun _ => []) M hM ix (fun c => decide (c = 0)) (some 0)
    (Or.inl (C25_default_level _)) (fun d hd c hdc => by
      rw [hgc d hd] at hdc
      cases hdc
      refine ⟨fun i => ?_, by decide⟩
      fin_cases i <;> decide) (by decide) o dx hdx
  refine ⟨L, h1, ?_⟩
  rw [h2.2 fun c _ ha => ?_]
  · show dx 0 * ((2 : ℤ) : ℚ) * (dx 1 * ((1 : ℤ) : ℚ)) * (dx 2 * ((1 : ℤ) : ℚ)) = _
    push_cast; ring
  · have hc0 : c = 0 := of_decide_eq_true ha
    subst hc0
    have h0 : 0 < M.cells.length := by omega
    exact ⟨M.cells[0], List.getElem_mem h0, hgc _ (List.getElem_mem h0)⟩

end Gen3
end Mandoline
