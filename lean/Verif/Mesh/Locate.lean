import Verif.Exterior.Number
import Verif.Core.GridIndex
import Verif.Adaptive.Renumber

/-!
# Point location and global cell numbers in 2D (C45)

Points are given in grid coordinates (`(p - origin) / dx`), so that the grid cell of `p` is the componentwise floor.
-/
namespace Mandoline.Locate

/-- the parts of `CutCellMesh<2>` used here (mesh2.hpp:46-56): the loops of the cut faces, and the exterior grid. -/
structure Mesh2 where
  faces : List (List (List ℤ))
  ext : ExteriorGrid 2

/-- `std::set<int>::insert`. -/
def setInsert (k : ℕ) : List ℕ → List ℕ
  | [] => [k]
  | x :: l => if k < x then k :: x :: l else if x < k then x :: setInsert k l else x :: l

/-- "Filling cell-grid ownership" (src/construction/generator2.cpp:245-254): `cells` are the grid cells of the cut faces in
order (the single member of `possible_cells`), `index` the grid's cell index; `k` counts the faces. -/
def fillOwnership (index : Coord 2 → ℤ) (cells : List (Coord 2)) : List (ℤ × List ℕ) :=
  cells.zipIdx.foldl (fun own ck => OMap.alter intLt (index ck.1) (fun o => setInsert ck.2 (o.getD [])) own) []

/-- the grid cell of a point: `StaggeredGrid::coord(p)` (mtao library). -/
def gridCell {D : ℕ} (p : Pt D) : Coord D := fun i => ⌊p i⌋

/-- `in_cell(V, p, idx)` (src/mesh2.cpp:117-128); `winding k` is the winding number of cut face `k` around `p`
(`is_inside`, cutface_impl.hpp:163-167). -/
def inCell (M : Mesh2) (winding : ℕ → ℚ) (p : Pt 2) (idx : ℕ) : Bool :=
  if idx < M.faces.length then decide (winding idx > 1 / 2)
  else decide (M.ext.cellIndex (gridCell p) ≥ 0)

/-- `cell_index(p)` (src/mesh2.cpp:129-153). -/
def cellIndex (M : Mesh2) (index : Coord 2 → ℤ) (own : List (ℤ × List ℕ)) (winding : ℕ → ℚ) (p : Pt 2) : ℤ :=
  let c := gridCell p
  if !(ValidIndex M.ext.shape c) then -2
  else
    let e := M.ext.cellIndex c
    if e = -1 then
      match OMap.find intLt (index c) own with
      | some cs => match cs.find? (inCell M winding p) with
        | some k => k
        | none => -1
      | none => -1
    else e + M.faces.length

/-- `num_cells()` (src/mesh2.cpp:17-26). -/
def numCells (M : Mesh2) : ℕ := M.ext.numCells + M.faces.length

/-- `cell(index)` (src/mesh2.cpp:155-172); `vertexIndex` is the vertex grid's index. Negative indices fall into the first
branch of the C++ code (signed comparison) and throw in `at`; they are not in the domain of this function. -/
def cell (M : Mesh2) (vertexIndex : Coord 2 → ℤ) (index : ℕ) : List (List ℤ) :=
  if h : index < M.faces.length then M.faces[index]
  else if h : index - M.faces.length < M.ext.cellCoords.length then
    let c := M.ext.cellCoords[index - M.faces.length]
    [[vertexIndex ![c 0 + 0, c 1 + 0], vertexIndex ![c 0 + 0, c 1 + 1], vertexIndex ![c 0 + 1, c 1 + 1],
      vertexIndex ![c 0 + 1, c 1 + 0]]]
  else []

/-! ## specification -/

/-- `r` is the least cut face with property `P`, or -1 if there is none. -/
def LeastOr (n : ℕ) (P : ℕ → Prop) (r : ℤ) : Prop :=
  (∃ k : ℕ, r = k ∧ k < n ∧ P k ∧ ∀ j < k, ¬ P j) ∨ (r = -1 ∧ ∀ j < n, ¬ P j)

/-! ## proofs -/

theorem setInsert_last (k : ℕ) (l : List ℕ) (h : ∀ x ∈ l, x < k) : setInsert k l = l ++ [k] := by
  induction l with
  | nil => rfl
  | cons x l ih =>
    have hx := h x List.mem_cons_self
    rw [setInsert, if_neg (by omega), if_pos hx, ih fun y hy => h y (List.mem_cons_of_mem _ hy)]
    rfl

/-- what `cell_grid_ownership` holds: for each cell, the faces in it in order. -/
theorem fillOwnership_find (index : Coord 2 → ℤ) (cells : List (Coord 2)) (i : ℤ) :
    OMap.Sorted intLt (fillOwnership index cells) ∧
    OMap.find intLt i (fillOwnership index cells) =
      (let l := (List.range cells.length).filter fun k => decide ((cells[k]?).map index = some i)
       if l = [] then none else some l) := by
  unfold fillOwnership
  induction cells using List.reverseRecOn generalizing i with
  | nil => exact ⟨List.Pairwise.nil, rfl⟩
  | append_singleton L c ih =>
    rw [List.zipIdx_append, List.foldl_append]
    have hs := (ih 0).1
    refine ⟨OMap.sorted_alter strictTotal_intLt hs, ?_⟩
    simp only [List.zipIdx_cons, List.zipIdx_nil, List.foldl_cons, List.foldl_nil]
    rw [OMap.find_alter strictTotal_intLt hs]
    rw [List.length_append, List.length_singleton, List.range_succ, List.filter_append]
    have hold : ∀ j : ℤ, ((List.range L.length).filter fun k => decide (((L ++ [c])[k]?).map index = some j)) =
        (List.range L.length).filter fun k => decide ((L[k]?).map index = some j) := by
      intro j
      refine List.filter_congr fun k hk => ?_
      rw [List.mem_range] at hk
      rw [List.getElem?_append_left hk]
    have hlast : (L ++ [c])[L.length]? = some c := by simp
    rw [hold]
    split
    · rename_i hi
      subst hi
      rw [(ih (index c)).2]
      simp only [List.filter_cons, hlast, Option.map_some, decide_true, if_true, List.filter_nil]
      split
      · rename_i h0
        rw [h0]; simp [setInsert]
      · rename_i h0
        rw [Option.getD_some, setInsert_last]
        · simp
        · intro x hx
          have := (List.mem_filter.1 hx).1
          rw [List.mem_range] at this; omega
    · rename_i hi
      rw [(ih i).2]
      have hne : ¬ (some (index c) = some i) := fun h => hi (Option.some.inj h).symm
      simp only [List.filter_cons, hlast, Option.map_some, hne, decide_false, Bool.false_eq_true, if_false,
        List.filter_nil, List.append_nil]

theorem find?_filter_range (n : ℕ) (P Q : ℕ → Bool) :
    (∃ k, ((List.range n).filter P).find? Q = some k ∧ k < n ∧ P k = true ∧ Q k = true ∧
      ∀ j < k, ¬ (P j = true ∧ Q j = true)) ∨
    (((List.range n).filter P).find? Q = none ∧ ∀ j < n, ¬ (P j = true ∧ Q j = true)) := by
  induction n with
  | zero => right; exact ⟨rfl, fun j hj => by omega⟩
  | succ n ih =>
    rw [List.range_succ, List.filter_append, List.find?_append]
    rcases ih with ⟨k, h1, h2, h3, h4, h5⟩ | ⟨h1, h2⟩
    · left; exact ⟨k, by rw [h1]; rfl, by omega, h3, h4, h5⟩
    · rw [h1, Option.none_or]
      by_cases hP : P n = true
      · rw [List.filter_cons_of_pos hP, List.filter_nil]
        by_cases hQ : Q n = true
        · left; exact ⟨n, by simp [hQ], by omega, hP, hQ, h2⟩
        · right
          refine ⟨by simp [hQ], fun j hj hh => ?_⟩
          rcases Nat.lt_succ_iff_lt_or_eq.1 hj with h | h
          · exact h2 j h hh
          · subst h; exact hQ hh.2
      · right
        rw [List.filter_cons_of_neg hP, List.filter_nil]
        refine ⟨rfl, fun j hj hh => ?_⟩
        rcases Nat.lt_succ_iff_lt_or_eq.1 hj with h | h
        · exact h2 j h hh
        · subst h; exact hP hh.1

/-- the setting of the theorems: `n` cut faces lying in the grid cells `cells`, exterior grid built from the mask
`outside` (`true` = not cut). -/
structure Setup (O : GridOrder 2) (shape : Coord 2) (outside : Coord 2 → Bool) (M : Mesh2) (cells : List (Coord 2)) : Prop where
  ext : M.ext = ExteriorGrid.make O shape outside
  length : cells.length = M.faces.length
  inGrid : ∀ c ∈ cells, ValidIndex shape c = true

/-- **C45.** A point outside the grid is reported as -2 … -/
theorem C45_outside {O : GridOrder 2} {shape : Coord 2} {outside : Coord 2 → Bool} {M : Mesh2} {cells : List (Coord 2)}
    (S : Setup O shape outside M cells) (ix : GridIndexer shape) (winding : ℕ → ℚ) (p : Pt 2)
    (h : ¬ ∀ i, 0 ≤ p i ∧ p i < shape i) : cellIndex M ix.idx (fillOwnership ix.idx cells) winding p = -2 := by
  unfold cellIndex
  have : ValidIndex M.ext.shape (gridCell p) = false := by
    rw [Bool.eq_false_iff]
    intro hv
    rw [S.ext] at hv
    have hv := (validIndex_iff shape _).1 hv
    exact h fun i => ⟨Int.floor_nonneg.1 (hv i).1, Int.floor_lt.1 (hv i).2⟩
  simp [this]

/-- … a point of an exterior cell gets that cell's number, which comes after all cut faces … -/
theorem C45_exterior {O : GridOrder 2} {shape : Coord 2} {outside : Coord 2 → Bool} {M : Mesh2} {cells : List (Coord 2)}
    (S : Setup O shape outside M cells) (ix : GridIndexer shape) (winding : ℕ → ℚ) (p : Pt 2) (k : ℕ) (c : Coord 2)
    (hk : M.ext.cellCoords[k]? = some c) (hp : ∀ i, (c i : ℚ) ≤ p i ∧ p i < c i + 1) :
    cellIndex M ix.idx (fillOwnership ix.idx cells) winding p = M.faces.length + k := by
  have hc : gridCell p = c := by
    funext i
    exact Int.floor_eq_iff.2 ⟨(hp i).1, (hp i).2⟩
  rw [S.ext] at hk
  obtain ⟨he, hi⟩ := ((C21_bijection O shape outside).2.2 k c).1 hk
  unfold cellIndex
  simp only [hc]
  have hv : ValidIndex M.ext.shape c = true := by rw [S.ext]; exact (validIndex_iff shape c).2 he.1
  rw [hv]
  rw [S.ext, hi]
  simp only [Bool.not_true, Bool.false_eq_true, if_false]
  rw [if_neg (by omega)]
  omega

/-- … and a point of a cell of the stencil gets the first cut face of that grid cell which winds around it, or -1 if there
is none. -/
theorem C45_cut {O : GridOrder 2} {shape : Coord 2} {outside : Coord 2 → Bool} {M : Mesh2} {cells : List (Coord 2)}
    (S : Setup O shape outside M cells) (ix : GridIndexer shape) (winding : ℕ → ℚ) (p : Pt 2)
    (hp : ∀ i, 0 ≤ p i ∧ p i < shape i) (ho : outside (gridCell p) = false) :
    LeastOr M.faces.length (fun k => cells[k]? = some (gridCell p) ∧ winding k > 1 / 2)
      (cellIndex M ix.idx (fillOwnership ix.idx cells) winding p) := by
  have hv : ValidIndex shape (gridCell p) = true :=
    (validIndex_iff shape _).2 fun i => ⟨Int.floor_nonneg.2 (hp i).1, Int.floor_lt.2 (hp i).2⟩
  have he : M.ext.cellIndex (gridCell p) = -1 := by
    rw [S.ext, C21_index_minus_one]
    intro h
    rw [h.2] at ho; cases ho
  have hidx : ∀ k : ℕ, ((cells[k]?).map ix.idx = some (ix.idx (gridCell p))) ↔ cells[k]? = some (gridCell p) := by
    intro k
    cases hk : cells[k]? with
    | none => simp
    | some c =>
      simp only [Option.map_some, Option.some.injEq]
      exact ⟨fun h => ix.inj _ _ (S.inGrid c (List.mem_of_getElem? hk)) hv h, fun h => by rw [h]⟩
  have hin : ∀ k, k < M.faces.length → (inCell M winding p k = true ↔ winding k > 1 / 2) := by
    intro k hk
    unfold inCell
    rw [if_pos hk, decide_eq_true_eq]
  have hval : cellIndex M ix.idx (fillOwnership ix.idx cells) winding p =
      match ((List.range cells.length).filter fun k =>
          decide ((cells[k]?).map ix.idx = some (ix.idx (gridCell p)))).find? (inCell M winding p) with
      | some k => (k : ℤ)
      | none => -1 := by
    unfold cellIndex
    have hv' : ValidIndex M.ext.shape (gridCell p) = true := by rw [S.ext]; exact hv
    simp only [hv', he, Bool.not_true, Bool.false_eq_true, if_false, if_true]
    rw [(fillOwnership_find ix.idx cells _).2]
    dsimp only
    split
    · rename_i h1
      split at h1
      · cases h1
      · simp only [Option.some.injEq] at h1
        subst h1; rfl
    · rename_i h1
      split at h1
      · rename_i h2
        rw [h2]; rfl
      · cases h1
  rw [hval]
  rcases find?_filter_range cells.length
    (fun k => decide ((cells[k]?).map ix.idx = some (ix.idx (gridCell p)))) (inCell M winding p) with
    ⟨k, h1, h2, h3, h4, h5⟩ | ⟨h1, h2⟩
  · left
    rw [h1]
    rw [S.length] at h2
    refine ⟨k, rfl, h2, ⟨(hidx k).1 (of_decide_eq_true h3), (hin k h2).1 h4⟩, fun j hj hh => ?_⟩
    exact h5 j hj ⟨decide_eq_true ((hidx j).2 hh.1), (hin j (by omega)).2 hh.2⟩
  · right
    rw [h1]
    refine ⟨rfl, fun j hj hh => ?_⟩
    exact h2 j (by rw [S.length]; exact hj) ⟨decide_eq_true ((hidx j).2 hh.1), (hin j hj).2 hh.2⟩

/-- **C45.** If exactly one cut face of the point's grid cell winds around the point, it is the one returned. -/
theorem C45_cut_unique {O : GridOrder 2} {shape : Coord 2} {outside : Coord 2 → Bool} {M : Mesh2} {cells : List (Coord 2)}
    (S : Setup O shape outside M cells) (ix : GridIndexer shape) (winding : ℕ → ℚ) (p : Pt 2)
    (hp : ∀ i, 0 ≤ p i ∧ p i < shape i) (ho : outside (gridCell p) = false) (k : ℕ)
    (hk : cells[k]? = some (gridCell p)) (hw : winding k > 1 / 2)
    (hu : ∀ j, cells[j]? = some (gridCell p) → winding j > 1 / 2 → j = k) :
    cellIndex M ix.idx (fillOwnership ix.idx cells) winding p = k := by
  have hlt : k < M.faces.length := by rw [← S.length]; exact (List.getElem?_eq_some_iff.1 hk).1
  rcases C45_cut S ix winding p hp ho with ⟨j, h1, _, h3, _⟩ | ⟨_, h2⟩
  · rw [h1, hu j h3.1 h3.2]
  · exact absurd ⟨hk, hw⟩ (h2 k hlt)

/-- **C45.** The result is -2, -1, or a global cell number: below the number of cut faces for a point of the stencil, at or
above it for a point of an exterior cell. The two ranges are disjoint and together are `0 .. num_cells - 1`. -/
theorem C45_range {O : GridOrder 2} {shape : Coord 2} {outside : Coord 2 → Bool} {M : Mesh2} {cells : List (Coord 2)}
    (S : Setup O shape outside M cells) (ix : GridIndexer shape) (winding : ℕ → ℚ) (p : Pt 2) (r : ℤ)
    (hr : cellIndex M ix.idx (fillOwnership ix.idx cells) winding p = r) :
    r = -2 ∨ r = -1 ∨ (0 ≤ r ∧ r < M.faces.length ∧ outside (gridCell p) = false) ∨
      ((M.faces.length : ℤ) ≤ r ∧ r < numCells M ∧ outside (gridCell p) = true) := by
  by_cases hp : ∀ i, 0 ≤ p i ∧ p i < shape i
  · cases ho : outside (gridCell p)
    · rcases C45_cut S ix winding p hp ho with ⟨j, h1, h2, _⟩ | ⟨h1, _⟩
      · right; right; left
        refine ⟨?_, ?_, rfl⟩ <;> omega
      · right; left; rw [← hr, h1]
    · have hc : ExteriorCell shape outside (gridCell p) :=
        ⟨fun i => ⟨Int.floor_nonneg.2 (hp i).1, Int.floor_lt.2 (hp i).2⟩, ho⟩
      obtain ⟨k, hk, hi⟩ := (C21_bijection O shape outside).1 _ hc
      have hkc := ((C21_bijection O shape outside).2.2 k _).2 ⟨hc, hi⟩
      have := C45_exterior S ix winding p k (gridCell p) (by rw [S.ext]; exact hkc)
        fun i => ⟨Int.floor_le _, Int.lt_floor_add_one _⟩
      rw [this] at hr
      right; right; right
      unfold numCells
      rw [S.ext]
      refine ⟨by omega, ?_, rfl⟩
      rw [← hr]; push_cast; omega
  · left; rw [← hr]; exact C45_outside S ix winding p hp

/-- **C45.** `cell` of an exterior cell's number is the square around that cell; numbers at or above `num_cells` have no
loop. -/
theorem C45_exterior_loop (M : Mesh2) (vidx : Coord 2 → ℤ) (k : ℕ) :
    (∀ c, M.ext.cellCoords[k]? = some c → cell M vidx (M.faces.length + k) =
      [[vidx c, vidx ![c 0, c 1 + 1], vidx ![c 0 + 1, c 1 + 1], vidx ![c 0 + 1, c 1]]]) ∧
    (numCells M ≤ k → cell M vidx k = []) := by
  constructor
  · intro c hc
    obtain ⟨h, rfl⟩ := List.getElem?_eq_some_iff.1 hc
    unfold cell
    rw [dif_neg (by omega)]
    have hk : M.faces.length + k - M.faces.length = k := by omega
    have hg : ∀ (h' : M.faces.length + k - M.faces.length < M.ext.cellCoords.length),
        M.ext.cellCoords[M.faces.length + k - M.faces.length] = M.ext.cellCoords[k] := by
      intro h'; congr 1
    rw [dif_pos (by omega)]
    simp only [hg, add_zero]
    have hv : (![M.ext.cellCoords[k] 0, M.ext.cellCoords[k] 1] : Coord 2) = M.ext.cellCoords[k] := by
      funext i
      match i with
      | 0 => rfl
      | 1 => rfl
    rw [hv]
  · intro h
    unfold numCells at h
    have h2 : M.ext.numCells = M.ext.cellCoords.length := rfl
    unfold cell
    rw [dif_neg (by omega), dif_neg (by omega)]

/-- **C45 (defect).** `in_cell(p, idx)` ignores `idx` for exterior cells: a point in one exterior cell is reported to be in
every other one (and in cells that do not exist). -/
theorem C45_in_cell_refuted {O : GridOrder 2} {shape : Coord 2} {outside : Coord 2 → Bool} {M : Mesh2}
    {cells : List (Coord 2)} (S : Setup O shape outside M cells) (winding : ℕ → ℚ) (p : Pt 2)
    (hp : ExteriorCell shape outside (gridCell p)) (k : ℕ) : inCell M winding p (M.faces.length + k) = true := by
  obtain ⟨j, _, hj⟩ := (C21_bijection O shape outside).1 _ hp
  unfold inCell
  rw [if_neg (by omega), S.ext, hj]
  simp

/-- a 2x2 grid with one cut cell split into two faces. -/
example : let M : Mesh2 := ⟨[[[0, 1, 9]], [[1, 4, 9]]], ExteriorGrid.make (lexOrder 2) ![2, 2] fun c => !decide (c = ![0, 0])⟩
    Setup (lexOrder 2) ![2, 2] (fun c => !decide (c = ![0, 0])) M [![0, 0], ![0, 0]] ∧
    cellIndex M (linIndexer ![2, 2] (by decide)).idx (fillOwnership (linIndexer ![2, 2] (by decide)).idx [![0, 0], ![0, 0]])
      (fun k => k) ![1 / 2, 1 / 2] = 1 ∧
    cellIndex M (linIndexer ![2, 2] (by decide)).idx (fillOwnership (linIndexer ![2, 2] (by decide)).idx [![0, 0], ![0, 0]])
      (fun k => k) ![3 / 2, 1 / 2] = 3 := by
  refine ⟨⟨rfl, rfl, by decide⟩, ?_, ?_⟩ <;> decide +kernel

end Mandoline.Locate
