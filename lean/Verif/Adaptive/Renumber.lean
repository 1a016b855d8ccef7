import Verif.Adaptive.FaceProj

/-!
# Renumbering of the adaptive cells after generation

Transcription of src/construction/generator3.cpp:323-335 (ids become `cut cell count + rank` while the faces keep
the dual edges made with the old ids), src/adaptive_grid.cpp:198-208 (`boundary_face_mask`) and
src/operators/boundary3.cpp:75-97 (`boundary_triplets(AdaptiveGrid)`).
-/
namespace Mandoline
variable {D : ℕ}

/-- "make cell names unique" (generator3.cpp:323-335). -/
def renumber (n : ℤ) (cells : List (ℤ × ACell D)) : List (ℤ × ACell D) :=
  cells.zipIdx.map fun ei => (n + ei.2, ei.1.2)

/-- `grid.get(k)`: reads a dense grid at linear index `k` (mtao library); `none` outside the grid. -/
def getLinear (shape : Coord D) (idx : Coord D → ℤ) (g : Coord D → ℤ) (k : ℤ) : Option ℤ :=
  ((lexCoords D shape).find? fun c => decide (idx c = k)).map g

/-- `boundary_triplets(ag, offset, domain_boundary)` (boundary3.cpp:75-97) for one face; a read outside the
lookup grid is `none` (undefined in C++). -/
def adaptiveTriplets (shape : Coord D) (idx : Coord D → ℤ) (cells : List (ℤ × ACell D)) (domain : Bool) (row : ℤ)
    (f : AFace D) : List (ℤ × Option ℤ × ℚ) :=
  if !(!domain && isBoundaryFace f) then
    (if f.1.2.1 ≥ 0 then [(row, getLinear shape idx (ownership cells) f.1.2.1, -1)] else []) ++
    (if f.1.2.2 ≥ 0 then [(row, getLinear shape idx (ownership cells) f.1.2.2, 1)] else [])
  else []

/-- `boundary_face_mask()` at one face (adaptive_grid.cpp:198-208). -/
def boundaryFaceMask (cells : List (ℤ × ACell D)) (f : AFace D) : ℚ :=
  if isValidEdge cells f.1.2.1 f.1.2.2 then 1 else 0

theorem mem_renumber (n : ℤ) (cells : List (ℤ × ACell D)) (id : ℤ) (c : ACell D) :
    (id, c) ∈ renumber n cells ↔ ∃ (k : ℕ) (h : k < cells.length), id = n + k ∧ c = (cells[k]).2 := by
  unfold renumber
  simp only [List.mem_map]
  constructor
  · rintro ⟨⟨e, k⟩, hm, he⟩
    obtain ⟨h, h2⟩ := List.mk_mem_zipIdx_iff_getElem?.1 hm |> List.getElem?_eq_some_iff.1
    refine ⟨k, h, (congrArg Prod.fst he).symm, ?_⟩
    rw [h2]; exact (congrArg Prod.snd he).symm
  · rintro ⟨k, h, rfl, rfl⟩
    exact ⟨(cells[k], k), List.mk_mem_zipIdx_iff_getElem?.2 (List.getElem?_eq_getElem h), rfl⟩

theorem renumber_contiguous (n : ℤ) (cells : List (ℤ × ACell D)) : Contiguous (renumber n cells) n := by
  intro k h
  simp [renumber]

theorem renumber_sorted (n : ℤ) (cells : List (ℤ × ACell D)) : OMap.Sorted intLt (renumber n cells) := by
  unfold OMap.Sorted
  rw [List.pairwise_iff_getElem]
  intro i j hi hj hij
  rw [renumber_contiguous n cells i hi, renumber_contiguous n cells j hj]
  simp [intLt]; omega

theorem disjoint_nodup {cells : List (ℤ × ACell D)} (hs : OMap.Sorted intLt cells) : cells.Nodup := by
  unfold OMap.Sorted at hs
  refine hs.imp ?_
  intro a b h e
  rw [e] at h
  simp [intLt] at h

theorem renumber_disjoint (n : ℤ) (hn : 0 ≤ n) (cells : List (ℤ × ACell D)) (hs : OMap.Sorted intLt cells)
    (h : DisjointCells cells) : DisjointCells (renumber n cells) := by
  constructor
  · rintro ⟨id, c⟩ he
    obtain ⟨k, _, rfl, _⟩ := (mem_renumber n cells id c).1 he
    dsimp only; omega
  · rintro u ⟨i, c⟩ he ⟨j, c'⟩ he' hu hu'
    obtain ⟨k, hk, rfl, rfl⟩ := (mem_renumber n cells i c).1 he
    obtain ⟨k', hk', rfl, rfl⟩ := (mem_renumber n cells j c').1 he'
    have := h.2 u _ (List.getElem_mem hk) _ (List.getElem_mem hk') hu hu'
    have hkk : k = k' := (disjoint_nodup hs).getElem_inj_iff.1 this
    subst hkk; rfl

theorem getLinear_idx (shape : Coord D) (ix : GridIndexer shape) (g : Coord D → ℤ) (u : Coord D)
    (hu : InGrid shape u) : getLinear shape ix.idx g (ix.idx u) = some (g u) := by
  unfold getLinear
  cases hf : (lexCoords D shape).find? fun c => decide (ix.idx c = ix.idx u) with
  | none =>
    rw [List.find?_eq_none] at hf
    exact absurd (decide_eq_true rfl) (hf u ((mem_lexCoords D shape u).2 hu))
  | some c =>
    have h1 := List.find?_some hf
    have h2 := (mem_lexCoords D shape c).1 (List.mem_of_find?_eq_some hf)
    rw [decide_eq_true_eq] at h1
    rw [ix.inj c u ((validIndex_iff _ _).2 h2) ((validIndex_iff _ _).2 hu) h1]
    rfl

/-- **C61.** After renumbering, `boundary_triplets` puts `-1`/`+1` in the column of the *new* id of the cell on
each side: for every face and every side, the column is the new number of the cell that the dual edge named by its
old id. -/
theorem C61_triplet_columns (shape : Coord D) (ix : GridIndexer shape) (cells : List (ℤ × ACell D)) (n : ℤ)
    (hn : 0 ≤ n) (hs : OMap.Sorted intLt cells) (hdis : DisjointCells cells) (hpos : ∀ e ∈ cells, 0 < e.2.2)
    (hin : ∀ e ∈ cells, ∀ u, InCube e.2 u → InGrid shape u) (hid : ∀ e ∈ cells, e.1 = ix.idx e.2.1)
    (k : ℕ) (hk : k < cells.length) :
    getLinear shape ix.idx (ownership (renumber n cells)) (cells[k]).1 = some (n + k) := by
  have hm := List.getElem_mem hk
  have hc : InCube (cells[k]).2 (cells[k]).2.1 := fun i => ⟨le_rfl, by have := hpos _ hm; omega⟩
  rw [hid _ hm, getLinear_idx shape ix _ _ (hin _ hm _ hc)]
  congr 1
  rw [C26_ownership _ (renumber_disjoint n hn cells hs hdis)]
  exact .inl ⟨_, (mem_renumber n cells _ _).2 ⟨k, hk, rfl, rfl⟩, hc⟩

/-- **C61.** So each row of a face between two cells has `-1` at the new number of its negative cell and `+1` at
that of its positive cell, these are different, and the row of a domain face is empty or has one entry. -/
theorem C61_boundary_rows (shape : Coord D) (ix : GridIndexer shape) (cells : List (ℤ × ACell D)) (n : ℤ)
    (hn : 0 ≤ n) (hs : OMap.Sorted intLt cells) (hdis : DisjointCells cells) (hpos : ∀ e ∈ cells, 0 < e.2.2)
    (hin : ∀ e ∈ cells, ∀ u, InCube e.2 u → InGrid shape u) (hid : ∀ e ∈ cells, e.1 = ix.idx e.2.1)
    (domain : Bool) (row : ℤ) (f : AFace D) :
    (∀ (j k : ℕ) (hj : j < cells.length) (hk : k < cells.length), f.1.2.1 = (cells[j]).1 → f.1.2.2 = (cells[k]).1 →
      adaptiveTriplets shape ix.idx (renumber n cells) domain row f =
        [(row, some (n + j), -1), (row, some (n + k), 1)] ∧ (f.1.2.1 ≠ f.1.2.2 → n + (j : ℤ) ≠ n + k)) ∧
    (∀ (k : ℕ) (hk : k < cells.length), f.1.2.1 = -2 → f.1.2.2 = (cells[k]).1 →
      adaptiveTriplets shape ix.idx (renumber n cells) domain row f = if domain then [(row, some (n + k), 1)] else []) ∧
    (∀ (j : ℕ) (hj : j < cells.length), f.1.2.1 = (cells[j]).1 → f.1.2.2 = -2 →
      adaptiveTriplets shape ix.idx (renumber n cells) domain row f = if domain then [(row, some (n + j), -1)] else []) := by
  have hcol := C61_triplet_columns shape ix cells n hn hs hdis hpos hin hid
  refine ⟨?_, ?_, ?_⟩
  · intro j k hj hk h1 h2
    have n1 := hdis.1 _ (List.getElem_mem hj)
    have n2 := hdis.1 _ (List.getElem_mem hk)
    constructor
    · unfold adaptiveTriplets isBoundaryFace
      rw [h1, h2, hcol j hj, hcol k hk, if_pos, if_pos n1, if_pos n2]
      · rfl
      · have a1 : ¬ (cells[j]).1 = -2 := by omega
        have a2 : ¬ (cells[k]).1 = -2 := by omega
        simp [a1, a2]
    · intro hne h
      apply hne
      have : j = k := by omega
      subst this
      rw [h1, h2]
  · intro k hk h1 h2
    have n2 := hdis.1 _ (List.getElem_mem hk)
    unfold adaptiveTriplets isBoundaryFace
    rw [h1, h2, hcol k hk]
    cases domain <;> simp [n2]
  · intro j hj h1 h2
    have n1 := hdis.1 _ (List.getElem_mem hj)
    unfold adaptiveTriplets isBoundaryFace
    rw [h1, h2, hcol j hj]
    cases domain <;> simp [n1]

/-- **C62, defect.** After renumbering, the lookups that use the dual edge as *current* ids
(`boundary_face_mask`, `dual_edge_lengths`, `face_volumes(true)`, `boundary_centroids`, `grid_face_projection`)
accept a face iff its old ids happen to lie in the new id range, whatever the cells are. -/
theorem C62_valid_edge_after_renumber (n : ℤ) (cells : List (ℤ × ACell D)) (a b : ℤ) :
    isValidEdge (renumber n cells) a b = true ↔
      a ≠ b ∧ (n ≤ a ∧ a < n + cells.length) ∧ (n ≤ b ∧ b < n + cells.length) := by
  have key : ∀ x, (cellAt (renumber n cells) x).isSome = true ↔ n ≤ x ∧ x < n + cells.length := by
    intro x
    rw [Option.isSome_iff_exists]
    constructor
    · rintro ⟨c, hc⟩
      rw [cellAt_iff _ (renumber_sorted n cells), mem_renumber] at hc
      obtain ⟨k, hk, rfl, _⟩ := hc
      omega
    · rintro ⟨h1, h2⟩
      have hk : (x - n).toNat < cells.length := by omega
      refine ⟨(cells[(x - n).toNat]).2, ?_⟩
      rw [cellAt_iff _ (renumber_sorted n cells), mem_renumber]
      exact ⟨_, hk, by omega, rfl⟩
  unfold isValidEdge
  rw [Bool.and_eq_true, Bool.and_eq_true, decide_eq_true_eq, key, key, and_assoc]

/-- **C62, refuted.** Hence `boundary_face_mask` of a generated mesh marks faces between two adaptive cells as
boundary faces: a 4×1×1 grid whose first cell is cut into two cells. -/
theorem C62_boundary_face_mask_refuted : ∃ (cells : List (ℤ × ACell 3)) (f : AFace 3),
    cells = factoryCells (linIndex 3 ![4, 1, 1]) ![4, 1, 1] (fun c => !decide (c = ![0, 0, 0])) (some 0) ∧
    f ∈ adaptiveFaces ![4, 1, 1] cells ∧ isBoundaryFace f = false ∧
    boundaryFaceMask cells f = 1 ∧ boundaryFaceMask (renumber 2 cells) f = 0 :=
  ⟨_, ((0, 1, 2), (![2, 0, 0], 1)), rfl, by decide +kernel⟩

/-- **C62, refuted.** And for a face that is accepted, the cells used are the wrong ones: the face between cells
2 and 3 of the same mesh is measured between the cells of new ids 2 and 3, which are the old cells 1 and 2. -/
theorem C62_wrong_cells_refuted : ∃ (cells : List (ℤ × ACell 3)),
    cells = factoryCells (linIndex 3 ![4, 1, 1]) ![4, 1, 1] (fun c => !decide (c = ![0, 0, 0])) (some 0) ∧
    isValidEdge (renumber 2 cells) 2 3 = true ∧
    cellAt cells 2 = some (![2, 0, 0], 1) ∧ cellAt (renumber 2 cells) 2 = some (![1, 0, 0], 1) :=
  ⟨_, rfl, by decide +kernel⟩

/-- the hypotheses of `C61` hold for the factory's cells. -/
theorem C61_factory (hD : 0 < D) (shape : Coord D) (ix : GridIndexer shape) (inactive : Coord D → Bool)
    (maxLevel : Option ℤ) (n : ℤ) (hn : 0 ≤ n)
    (h : StopsAt shape maxLevel 0 ∨ ((∀ i, shape i = 2 ^ logSize shape) ∧
      ((∃ L, StopsAt shape maxLevel L) ∨ ∃ v, InGrid shape v ∧ inactive v = false))) :
    let cells := factoryCells ix.idx shape inactive maxLevel
    ∀ (k : ℕ) (hk : k < cells.length),
      getLinear shape ix.idx (ownership (renumber n cells)) (cells[k]).1 = some (n + k) := by
  intro cells k hk
  obtain ⟨g1, g2, g3, g4⟩ := factory_good hD shape ix inactive maxLevel h
  have ht := C25_tiling hD shape ix inactive maxLevel h
  exact C61_triplet_columns shape ix cells n hn g2 g1 (fun e he => (ht.1.1 e he).1) g3 ht.2 k hk

end Mandoline
