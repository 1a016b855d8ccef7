import Verif.Adaptive.Renumber
import Verif.Adaptive.FaceGeom

/-!
# C119: the exterior grid of a mesh read from a file

`CutCellMesh<3>::from_proto` (src/mesh3.cpp:394-400) stores the cells under their saved (renumbered) ids and calls
`make_faces()` (src/adaptive_grid.cpp:318-320), so the dual edges of a loaded mesh hold the renumbered ids, while those of a
generated mesh hold the ids of the factory (Adaptive/Renumber). `boundary_triplets` (src/operators/boundary3.cpp:75-97)
looks every dual edge up in the ownership grid as if it were the linear index of a unit cell.
-/
namespace Mandoline
variable {D : ℕ}

/-- the exterior grid after `from_proto`: cells and rebuilt faces (mesh3.cpp:394-400). -/
def reloadedFaces (shape : Coord D) (n : ℤ) (cells : List (ℤ × ACell D)) : List (AFace D) :=
  adaptiveFaces shape (renumber n cells)

theorem getLinear_out (shape : Coord D) (ix : GridIndexer shape) (g : Coord D → ℤ) (k : ℤ) (h : ix.size ≤ k) :
    getLinear shape ix.idx g k = none := by
  unfold getLinear
  rw [Option.map_eq_none_iff, List.find?_eq_none]
  intro c hc
  have := (ix.bound c ((validIndex_iff _ _).2 ((mem_lexCoords D shape c).1 hc))).2
  rw [decide_eq_true_eq]
  omega

section
variable (shape : Coord D) (ix : GridIndexer shape) (cells : List (ℤ × ACell D)) (n : ℤ) (hn : 0 ≤ n)
  (hs : OMap.Sorted intLt cells) (hdis : DisjointCells cells)
  (hin : ∀ e ∈ cells, ∀ u, InCube e.2 u → InGrid shape u)
include hn hs hdis hin

/-- **C119.** The faces of a loaded mesh name the current ids of the cells on their two sides; so queries that use the
dual edge directly (C62) are right again: a face counts as interior exactly if it separates two exterior cells. -/
theorem C119_face_queries (f : AFace D) (hf : f ∈ reloadedFaces shape n cells) :
    (boundaryFaceMask (renumber n cells) f = 1 ↔ isBoundaryFace f = false) ∧
    ∀ x, x = f.1.2.1 ∨ x = f.1.2.2 → x = -2 ∨ ∃ k : ℕ, k < cells.length ∧ x = n + k := by
  have hdis' := renumber_disjoint n hn cells hs hdis
  have hs' := renumber_sorted n cells
  have hin' : ∀ e ∈ renumber n cells, ∀ u, InCube e.2 u → InGrid shape u := by
    rintro ⟨id, c⟩ he u hu
    obtain ⟨k, hk, _, rfl⟩ := (mem_renumber n cells id c).1 he
    exact hin _ (List.getElem_mem hk) u hu
  obtain ⟨⟨d, a, b⟩, sq⟩ := f
  obtain ⟨u, hu⟩ := ((C27_faces_exact shape _ hdis' hs' hin').1 _).1 ⟨sq, hf⟩
  have hmem : ∀ x, (∃ c, (x, c) ∈ renumber n cells) → ∃ k : ℕ, k < cells.length ∧ x = n + k := by
    rintro x ⟨c, hc⟩
    obtain ⟨k, hk, rfl, _⟩ := (mem_renumber n cells x c).1 hc
    exact ⟨k, hk, rfl⟩
  unfold boundaryFaceMask isBoundaryFace
  simp only
  cases hu with
  | low _ _ cb hb hu h =>
    obtain ⟨k, hk, rfl⟩ := hmem b ⟨_, hb⟩
    refine ⟨?_, ?_⟩
    · rw [if_neg (by rw [C62_valid_edge_after_renumber]; omega)]; simp
    · rintro x (rfl | rfl)
      · exact .inl rfl
      · exact .inr ⟨k, hk, rfl⟩
  | high _ _ ca ha hu h =>
    obtain ⟨k, hk, rfl⟩ := hmem a ⟨_, ha⟩
    refine ⟨?_, ?_⟩
    · rw [if_neg (by rw [C62_valid_edge_after_renumber]; omega)]; simp
    · rintro x (rfl | rfl)
      · exact .inr ⟨k, hk, rfl⟩
      · exact .inl rfl
  | mid _ _ _ ca cb ha hb hua hub hab =>
    obtain ⟨j, hj, rfl⟩ := hmem a ⟨_, ha⟩
    obtain ⟨k, hk, rfl⟩ := hmem b ⟨_, hb⟩
    refine ⟨?_, ?_⟩
    · rw [if_pos (by rw [C62_valid_edge_after_renumber]; omega)]
      have h1 : ¬ (n + (j : ℤ) = -2) := by omega
      have h2 : ¬ (n + (k : ℤ) = -2) := by omega
      simp [h1, h2]
    · rintro x (rfl | rfl)
      · exact .inr ⟨j, hj, rfl⟩
      · exact .inr ⟨k, hk, rfl⟩

/-- **C119, defect.** In the boundary operator of a loaded mesh the column of the side with id `n + j` is the owner of
the unit cell whose *linear index* is `n + j` (`-1` if that unit cell was cut), and the read is outside the grid if there
is no such unit cell. -/
theorem C119_loaded_columns (j : ℕ) (hj : j < cells.length) :
    (ix.size ≤ n + j → getLinear shape ix.idx (ownership (renumber n cells)) (n + j) = none) ∧
    (∀ u, InGrid shape u → ix.idx u = n + j →
      (getLinear shape ix.idx (ownership (renumber n cells)) (n + j) = some (n + j) ↔ InCube (cells[j]).2 u) ∧
      (∀ (k : ℕ) (hk : k < cells.length), InCube (cells[k]).2 u →
        getLinear shape ix.idx (ownership (renumber n cells)) (n + j) = some (n + k)) ∧
      ((∀ e ∈ cells, ¬ InCube e.2 u) →
        getLinear shape ix.idx (ownership (renumber n cells)) (n + j) = some (-1))) := by
  refine ⟨getLinear_out shape ix _ _, fun u hu he => ?_⟩
  have hd' := renumber_disjoint n hn cells hs hdis
  rw [← he, getLinear_idx shape ix _ u hu, he]
  have hk : ∀ (k : ℕ) (hk : k < cells.length), InCube (cells[k]).2 u → ownership (renumber n cells) u = n + k :=
    fun k hk hc => (C26_ownership _ hd' u _).2 (.inl ⟨_, (mem_renumber n cells _ _).2 ⟨k, hk, rfl, rfl⟩, hc⟩)
  refine ⟨?_, fun k h hc => by rw [hk k h hc], fun hno => ?_⟩
  · rw [Option.some.injEq]
    constructor
    · intro h
      rcases (C26_ownership _ hd' u _).1 h with ⟨c, hm, hc⟩ | ⟨h', _⟩
      · obtain ⟨k, hk', h1, rfl⟩ := (mem_renumber n cells _ c).1 hm
        have : j = k := by omega
        subst this; exact hc
      · omega
    · exact hk j hj
  · rw [Option.some.injEq]
    refine ownership_none _ u ?_
    rintro ⟨id, c⟩ hm hc
    obtain ⟨k, hk', _, rfl⟩ := (mem_renumber n cells id c).1 hm
    exact hno _ (List.getElem_mem hk') hc

/-- **C119.** So the row of a face between two exterior cells in a loaded mesh names these two cells exactly if the unit
cells whose linear indices are the two ids happen to lie in them. -/
theorem C119_loaded_row (domain : Bool) (row : ℤ) (f : AFace D) (j k : ℕ) (hj : j < cells.length)
    (hk : k < cells.length) (h1 : f.1.2.1 = n + j) (h2 : f.1.2.2 = n + k) :
    adaptiveTriplets shape ix.idx (renumber n cells) domain row f = [(row, some (n + j), -1), (row, some (n + k), 1)] ↔
      (∃ u, InGrid shape u ∧ ix.idx u = n + j ∧ InCube (cells[j]).2 u) ∧
      (∃ u, InGrid shape u ∧ ix.idx u = n + k ∧ InCube (cells[k]).2 u) := by
  have hb : isBoundaryFace f = false := by
    unfold isBoundaryFace
    rw [h1, h2]
    have a1 : ¬ (n + (j : ℤ) = -2) := by omega
    have a2 : ¬ (n + (k : ℤ) = -2) := by omega
    simp [a1, a2]
  have key : ∀ (i : ℕ) (hi : i < cells.length),
      getLinear shape ix.idx (ownership (renumber n cells)) (n + i) = some (n + i) ↔
        ∃ u, InGrid shape u ∧ ix.idx u = n + i ∧ InCube (cells[i]).2 u := by
    intro i hi
    obtain ⟨c1, c2⟩ := C119_loaded_columns shape ix cells n hn hs hdis hin i hi
    constructor
    · intro h
      have hlt : n + (i : ℤ) < ix.size := by
        by_contra hc
        rw [c1 (by omega)] at h
        cases h
      obtain ⟨u, hu, he⟩ := ix.surj (n + i) (by omega) hlt
      have hu' := (validIndex_iff _ _).1 hu
      exact ⟨u, hu', he, ((c2 u hu' he).1).1 h⟩
    · rintro ⟨u, hu, he, hc⟩
      exact ((c2 u hu he).1).2 hc
  rw [← key j hj, ← key k hk]
  unfold adaptiveTriplets
  rw [hb, h1, h2, if_pos (by simp), if_pos (by omega), if_pos (by omega)]
  simp
end

/-- **C119, refuted.** Saving and loading changes the boundary operator: in the 4×1×1 grid whose first cell is cut into
two cells, the face between exterior cells 2 and 3 has its entries in columns 2 and 3 in the generated mesh and in
columns 3 and 4 in the loaded one; and with five cut cells the loaded mesh reads outside the grid. -/
theorem C119_boundary_refuted : ∃ (cells : List (ℤ × ACell 3)) (f g : AFace 3),
    cells = factoryCells (linIndex 3 ![4, 1, 1]) ![4, 1, 1] (fun c => !decide (c = ![0, 0, 0])) (some 0) ∧
    f ∈ adaptiveFaces ![4, 1, 1] cells ∧ g ∈ reloadedFaces ![4, 1, 1] 2 cells ∧ f.2 = g.2 ∧
    adaptiveTriplets ![4, 1, 1] (linIndex 3 ![4, 1, 1]) (renumber 2 cells) false 0 f = [(0, some 2, -1), (0, some 3, 1)] ∧
    adaptiveTriplets ![4, 1, 1] (linIndex 3 ![4, 1, 1]) (renumber 2 cells) false 0 g = [(0, some 3, -1), (0, some 4, 1)] ∧
    ∀ h ∈ reloadedFaces ![4, 1, 1] 5 cells, isBoundaryFace h = false →
      adaptiveTriplets ![4, 1, 1] (linIndex 3 ![4, 1, 1]) (renumber 5 cells) false 0 h = [(0, none, -1), (0, none, 1)] :=
  ⟨_, ((0, 1, 2), (![2, 0, 0], 1)), ((0, 2, 3), (![2, 0, 0], 1)), rfl, by decide +kernel⟩

end Mandoline
