import Verif.Fill.Utilize
import Verif.Adaptive.Renumber
import Verif.Pipe2.Areas2

/-!
# C127: the volumes of all cells of a 3D mesh

`operators::cell_volumes(const CutCellMesh<3>&)` (src/operators/volume3.cpp:7-25): the volumes of the cut cells followed by
the volumes of the cells of the adaptive grid.
-/
namespace Mandoline
namespace Gen3
open CellCollapser

/-- `operators::cell_volumes(ccm)` (volume3.cpp:7-25): `V(k) = c.volume(face_brep_vols)` for the cut cells, then
`exterior_grid().cell_volumes()` (adaptive_grid.cpp:344-357). `vol` is the volume of a grid cell, `W` the world positions of
the vertices, `κ` the factor of the library's `volume_signed` (see Cell/Volume). `none` = a write outside an array. -/
def meshCellVolumes {B : Type} (κ : ℚ) (W : ℤ → Vec3) (vol : ℚ) (M : OutMesh PFace B) (adaptive : List (ℤ × ACell 3)) :
    Option (List (Option ℚ)) :=
  (cellVolumes vol adaptive).map fun R => (M.cells.map fun d => some (M.volume κ W d)) ++ R

/-- the cells of the adaptive grid of the mesh: made by the factory from the grid cells that are not cut (`m_active_grid_cell_mask`,
adaptive_grid_factory.cpp:308-420) and renumbered behind the cut cells (generator3.cpp:321-335). -/
def exteriorCells {B : Type} (M : OutMesh PFace B) (idx : Coord 3 → ℤ) (shape : Coord 3) (active : Coord 3 → Bool) (lvl : Option ℤ) :
    List (ℤ × ACell 3) :=
  renumber M.cells.length (factoryCells idx shape (fun c => !active c) lvl)

/-- the number of cells of the grid with a property. -/
def countCells (shape : Coord 3) (p : Coord 3 → Prop) [DecidablePred p] : ℕ := ((lexCoords 3 shape).filter fun c => decide (p c)).length

theorem renumber_cells_map {D : ℕ} {α : Type} (n : ℤ) (cells : List (ℤ × ACell D)) (f : ACell D → α) :
    (renumber n cells).map (fun e => f e.2) = cells.map fun e => f e.2 := by
  unfold renumber
  rw [List.map_map]
  have : ((fun e : ℤ × ACell D => f e.2) ∘ fun ei : (ℤ × ACell D) × ℕ => (n + (ei.2 : ℤ), ei.1.2)) = (fun e : ℤ × ACell D => f e.2) ∘ Prod.fst := rfl
  rw [this, ← List.map_map, List.zipIdx_map_fst]

theorem length_renumber {D : ℕ} (n : ℤ) (cells : List (ℤ × ACell D)) : (renumber n cells).length = cells.length := by
  unfold renumber
  rw [List.length_map, List.length_zipIdx]

theorem countCells_add (shape : Coord 3) (active : Coord 3 → Bool) :
    countCells shape (fun c => active c = true) + ((lexCoords 3 shape).filter fun c => !active c).length = (lexCoords 3 shape).length := by
  unfold countCells
  induction lexCoords 3 shape with
  | nil => rfl
  | cons a l ih =>
    rw [List.filter_cons, List.filter_cons]
    cases h : active a <;> simp [h] at ih ⊢ <;> omega

/-- **C127.** The array has one entry per cell: the cut cells, then the adaptive cells, each with volume `w³` unit cells. -/
theorem C127_entries {B : Type} (κ : ℚ) (W : ℤ → Vec3) (vol : ℚ) (M : OutMesh PFace B) (idx : Coord 3 → ℤ) (shape : Coord 3)
    (active : Coord 3 → Bool) (lvl : Option ℤ) :
    meshCellVolumes κ W vol M (exteriorCells M idx shape active lvl) =
      some (((M.cells.map (M.volume κ W)) ++
        (factoryCells idx shape (fun c => !active c) lvl).map fun e => vol * (e.2.2 : ℚ) ^ 3).map some) := by
  unfold meshCellVolumes exteriorCells
  rw [C28_cell_volumes vol _ _ (renumber_contiguous _ _), Option.map_some, List.map_append, List.map_map, List.map_map]
  congr 2
  exact renumber_cells_map _ _ fun c => some (vol * (c.2 : ℚ) ^ 3)

section
variable {B : Type} (faces : List (ℤ × PFace)) (hs : OMap.Sorted intLt faces) (hnum : ∀ (k : ℕ) i f, faces[k]? = some (i, f) → i = k)
  (hc : Clean (collapserFaces faces)) (hedges : ∀ f, (edgesOf (collapserFaces faces) f).Nodup) (V : ℕ → Vertex 3) (hV : ∀ i, Normalised (V i))
  (P nrm : ℤ → Vec3) (hP : ∀ v : ℕ, P v = (V v).p) (hok : ∀ f ∈ (collapserFaces faces).map Prod.fst, FaceOk (collapserFaces faces) P nrm f)
  (ord : DEdge → List ℤ) (hord : ∀ e, (ord e).Perm ((CellCollapser.make (collapserFaces faces)).around e))
  (hccw : Ordered (collapserFaces faces) P nrm ord) (R : DsuRoots ((CellCollapser.make (collapserFaces faces)).merge ord).ds)
  (shape : Fin 3 → ℤ) (hgb : ∀ p ∈ faces, CellCollapser.onGridBoundary shape p.2.mask = true → p.2.ext ≠ none)
  (hopen : ∀ m ∈ keptCells faces shape ord R, ∀ x ∈ m, ∀ c, SideIn (collapserFaces faces) P nrm c x.1 x.2 →
    CutOpen faces P nrm (bakedCells faces ord R) c)
  (region : ℕ → ℤ) (mesh : List (ℤ × B)) (ax : Fin 3 → List ℤ) (M : OutMesh PFace B)
  (hM : generate (bakeState faces (keptCells faces shape ord R) region mesh ax (bakedCells faces ord R).foldedFaces) V = some M)
  (ix : GridIndexer shape) (active : Coord 3 → Bool) (lvl : Option ℤ)
  (hlvl : StopsAt shape lvl 0 ∨ ((∀ i, shape i = 2 ^ logSize shape) ∧ ((∃ L, StopsAt shape lvl L) ∨ ∃ v, InGrid shape v ∧ active v = true)))
  (hact : ∀ d ∈ M.cells, ∀ c, d.gridCell = some c → InGrid shape c ∧ active c = true)

include hs hnum hc hedges hV hP hok hord hccw hgb hopen hM hlvl hact in
/-- **C127.** The sum of all reported volumes: each grid cell that holds cut cells counts `-6κ` times its volume once, each
cell of the grid that is not cut counts its volume once. -/
theorem C127_total (κ : ℚ) (o dx : Vec3) [DecidablePred fun c : Coord 3 => ∃ d ∈ M.cells, d.gridCell = some c] :
    ∃ L : List ℚ, meshCellVolumes κ (worldPos o dx P) (dx 0 * dx 1 * dx 2) M (exteriorCells M ix.idx shape active lvl) = some (L.map some) ∧
      L.sum = (dx 0 * dx 1 * dx 2) * (- 6 * κ * countCells shape (fun c => ∃ d ∈ M.cells, d.gridCell = some c) +
        countCells shape (fun c => active c = false)) := by
  refine ⟨_, C127_entries κ _ _ M ix.idx shape active lvl, ?_⟩
  have hl : StopsAt shape lvl 0 ∨ ((∀ i, shape i = 2 ^ logSize shape) ∧
      ((∃ L, StopsAt shape lvl L) ∨ ∃ v, InGrid shape v ∧ (fun c => !active c) v = false)) := by
    refine hlvl.imp id (And.imp id (Or.imp id ?_))
    rintro ⟨v, h1, h2⟩
    exact ⟨v, h1, by simp [h2]⟩
  have ht := (C25_tiling (by decide) shape ix (fun c => !active c) lvl hl).1
  have hnd : (factoryCells ix.idx shape (fun c => !active c) lvl).Nodup := by
    have h := (renumber_contiguous (0 : ℤ) (factoryCells ix.idx shape (fun c => !active c) lvl))
    have hsrt : OMap.Sorted intLt (factoryCells ix.idx shape (fun c => !active c) lvl) := by
      obtain ⟨h1, h2, h3, h4⟩ := emitted_good (by decide) shape (fun c => !active c) lvl hl
      exact (tiles_of_emitted shape ix _ _ h1 h2 h3 h4).2.1
    exact disjoint_nodup hsrt
  rw [List.sum_append, List.sum_map_mul_left, C28_total_volume shape _ _ ht hnd]
  have hgrid : ((M.cells.map (M.volume κ (worldPos o dx P)))).sum =
      countCells shape (fun c => ∃ d ∈ M.cells, d.gridCell = some c) * (- 6 * κ * (dx 0 * dx 1 * dx 2)) := by
    classical
    let S : Finset (Coord 3) := ((lexCoords 3 shape).filter fun c => decide (∃ d ∈ M.cells, d.gridCell = some c)).toFinset
    have hS : ∀ c, c ∈ S ↔ ∃ d ∈ M.cells, d.gridCell = some c := by
      intro c
      simp only [S, List.mem_toFinset, List.mem_filter, mem_lexCoords, decide_eq_true_eq]
      exact ⟨fun h => h.2, fun ⟨d, hd, hdc⟩ => ⟨(hact d hd c hdc).1, d, hd, hdc⟩⟩
    rw [Areas2.sum_by_owner M.cells (fun d => d.gridCell) S _ fun d hd => by
      obtain ⟨n, hn⟩ := List.mem_iff_getElem?.1 hd
      obtain ⟨m, c, -, hc', -⟩ := C111_grid_cell faces hs hnum hc hedges V hV P nrm hP hok ord hord hccw R shape hgb hopen region mesh ax M hM n d hn
      exact ⟨c, (hS c).2 ⟨d, hd, hc'⟩, hc'⟩]
    rw [Finset.sum_congr rfl fun c hcS => by
      obtain ⟨d, hd, hdc⟩ := (hS c).1 hcS
      exact C111_volume faces hs hnum hc hedges V hV P nrm hP hok ord hord hccw R shape hgb hopen region mesh ax M hM κ o dx d hd c hdc]
    rw [Finset.sum_const, nsmul_eq_mul]
    congr 2
    have : S.card = ((lexCoords 3 shape).filter fun c => decide (∃ d ∈ M.cells, d.gridCell = some c)).length :=
      List.toFinset_card_of_nodup ((nodup_lexCoords 3 shape).filter _)
    rw [this]
    rfl
  have hin : ((lexCoords 3 shape).filter fun c => !active c) = (lexCoords 3 shape).filter fun c => decide (active c = false) :=
    List.filter_congr fun c _ => by cases active c <;> rfl
  rw [hgrid, hin]
  unfold countCells
  ring

include hs hnum hc hedges hV hP hok hord hccw hgb hopen hM hlvl hact in
/-- **C127.** With the library convention that gives outward oriented cells positive volume (`κ = -1/6`): the reported volumes
add up to the volume of the box of the grid if and only if every cut grid cell holds a cut cell; otherwise they add up to less. -/
theorem C127_fills_domain (hsh : ∀ i, 0 ≤ shape i) (o dx : Vec3) (hdx : ∀ i, 0 < dx i) :
    ∃ L : List ℚ, meshCellVolumes (-1 / 6) (worldPos o dx P) (dx 0 * dx 1 * dx 2) M (exteriorCells M ix.idx shape active lvl) = some (L.map some) ∧
      L.sum ≤ (dx 0 * shape 0) * (dx 1 * shape 1) * (dx 2 * shape 2) ∧
      (L.sum = (dx 0 * shape 0) * (dx 1 * shape 1) * (dx 2 * shape 2) ↔
        ∀ c, InGrid shape c → active c = true → ∃ d ∈ M.cells, d.gridCell = some c) := by
  classical
  obtain ⟨L, h1, h2⟩ := C127_total faces hs hnum hc hedges V hV P nrm hP hok ord hord hccw R shape hgb hopen region mesh ax M hM ix active lvl hlvl hact
    (-1 / 6) o dx
  refine ⟨L, h1, ?_⟩
  have hpos : 0 < dx 0 * dx 1 * dx 2 := mul_pos (mul_pos (hdx 0) (hdx 1)) (hdx 2)
  -- counts
  have hin : ((lexCoords 3 shape).filter fun c => !active c) = (lexCoords 3 shape).filter fun c => decide (active c = false) :=
    List.filter_congr fun c _ => by cases active c <;> rfl
  have hadd := countCells_add shape active
  rw [hin] at hadd
  have hall : ((lexCoords 3 shape).length : ℚ) = shape 0 * shape 1 * shape 2 := by
    have e : ((lexCoords 3 shape).length : ℤ) = shape 0 * shape 1 * shape 2 := by
      rw [length_lexCoords, Fin.prod_univ_three]
      push_cast
      rw [Int.toNat_of_nonneg (hsh 0), Int.toNat_of_nonneg (hsh 1), Int.toNat_of_nonneg (hsh 2)]
    exact_mod_cast e
  set A := countCells shape (fun c => active c = true) with hA
  set I := countCells shape (fun c => active c = false) with hI
  have hsum : (A : ℚ) + I = shape 0 * shape 1 * shape 2 := by
    rw [← hall]
    have : A + I = (lexCoords 3 shape).length := hadd
    exact_mod_cast this
  set K := countCells shape (fun c => ∃ d ∈ M.cells, d.gridCell = some c) with hK
  have hsub : List.Sublist ((lexCoords 3 shape).filter fun c => decide (∃ d ∈ M.cells, d.gridCell = some c))
      ((lexCoords 3 shape).filter fun c => decide (active c = true)) := by
    refine List.monotone_filter_right _ fun c hc' => ?_
    obtain ⟨d, hd, hdc⟩ := of_decide_eq_true hc'
    exact decide_eq_true (hact d hd c hdc).2
  have hle : K ≤ A := hsub.length_le
  have hiff : K = A ↔ ∀ c, InGrid shape c → active c = true → ∃ d ∈ M.cells, d.gridCell = some c := by
    constructor
    · intro h c hg ha
      have he := hsub.eq_of_length h
      have : c ∈ (lexCoords 3 shape).filter fun c => decide (active c = true) :=
        List.mem_filter.2 ⟨(mem_lexCoords _ _ _).2 hg, decide_eq_true ha⟩
      rw [← he] at this
      exact of_decide_eq_true (List.mem_filter.1 this).2
    · intro h
      rw [hK, hA]
      unfold countCells
      congr 1
      refine List.filter_congr fun c hg => ?_
      rw [decide_eq_decide]
      exact ⟨fun ⟨d, hd, hdc⟩ => (hact d hd c hdc).2, h c ((mem_lexCoords _ _ _).1 hg)⟩
  have hL : L.sum = (dx 0 * dx 1 * dx 2) * (K + I) := by rw [h2]; ring
  have hbox : (dx 0 * shape 0) * (dx 1 * shape 1) * (dx 2 * shape 2) = (dx 0 * dx 1 * dx 2) * (A + I) := by
    rw [hsum]; ring
  rw [hL, hbox, ← hiff]
  have hle' : (K : ℚ) ≤ A := by exact_mod_cast hle
  refine ⟨mul_le_mul_of_nonneg_left (by linarith) hpos.le, ?_⟩
  rw [mul_right_inj' hpos.ne', add_left_inj, Nat.cast_inj]

end
end Gen3
end Mandoline
