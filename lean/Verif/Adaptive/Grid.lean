import Verif.Adaptive.Tiling
import Verif.Exterior.Facets
import Mathlib.Data.Rat.Floor
import Mathlib.Algebra.Order.Field.Rat

/-!
# The adaptive grid (`AdaptiveGrid`): lookup and faces

Transcription of src/adaptive_grid.cpp:58-62, 86-108, 198-224, 233-320, 488-499,
include/mandoline/adaptive_grid.hpp:119-126 and src/operators/boundary3.cpp:60-97.
The code is for three dimensions; the model is generic in `D`.
-/
namespace Mandoline
variable {D : ℕ}

instance (c : ACell D) (u : Coord D) : Decidable (InCube c u) := by unfold InCube; infer_instance

/-- the effect of one cell's triple loop (adaptive_grid.cpp:92-105): every unit cell of the cube that is still
`-1` gets the id. (Writing outside the grid is undefined in C++; all theorems assume cells inside it.) -/
def claim (g : Coord D → ℤ) (e : ℤ × ACell D) : Coord D → ℤ :=
  fun u => if InCube e.2 u then (if g u = -1 then e.1 else g u) else g u

/-- `grid_from_cells` / `cell_ownership_grid` (adaptive_grid.cpp:86-108). -/
def ownership (cells : List (ℤ × ACell D)) : Coord D → ℤ := cells.foldl claim fun _ => -1

/-- `Cell::is_inside(p)` (adaptive_grid.cpp:58-62). -/
def cellInside (c : ACell D) (p : Pt D) : Prop := (∀ i, (c.1 i : ℚ) ≤ p i) ∧ ∀ i, p i < ((c.1 i + c.2 : ℤ) : ℚ)

instance (c : ACell D) (p : Pt D) : Decidable (cellInside c p) := by unfold cellInside; infer_instance

/-- `get_cell_index(p)` (adaptive_grid.cpp:488-499); `shape` is the cell shape and `vertex_shape = shape + 1`. -/
def getCellIndex (shape : Coord D) (cells : List (ℤ × ACell D)) (p : Pt D) : ℤ :=
  if (∃ i, p i < 0) ∨ (∃ i, p i > ((shape i + 1 : ℤ) : ℚ)) then -2
  else match cells.find? fun e => decide (cellInside e.2 p) with
    | some e => e.1
    | none => -1

/-- `cell(id)` = `m_cells.at(id)` (adaptive_grid.hpp:96). -/
def cellAt (cells : List (ℤ × ACell D)) (id : ℤ) : Option (ACell D) := OMap.find intLt id cells

/-- `is_valid_edge` (adaptive_grid.hpp:123-126). -/
def isValidEdge (cells : List (ℤ × ACell D)) (a b : ℤ) : Bool :=
  decide (a ≠ b) && (cellAt cells a).isSome && (cellAt cells b).isSome

/-- key of a face in the `std::set` of adaptive_grid.cpp:234-241: axis, then the dual edge. -/
abbrev FaceKey (D : ℕ) := Fin D × ℤ × ℤ

/-- a face: key and square `(corner, width)` (adaptive_grid.hpp:38-68). -/
abbrev AFace (D : ℕ) := FaceKey D × ACell D

/-- the comparator `myless` (adaptive_grid.cpp:234-240). -/
def faceLess (x y : FaceKey D) : Bool :=
  if x.1 = y.1 then decide (x.2.1 < y.2.1 ∨ (x.2.1 = y.2.1 ∧ x.2.2 < y.2.2)) else decide (x.1 < y.1)

/-- the geometry chosen by `add_bdry(d, a, b)` (adaptive_grid.cpp:242-273); `none` when nothing is added.
(When neither branch applies the code would add a face with uninitialised geometry; the callers never do
that because both ids come from the lookup grid, and the model then adds nothing.) -/
def faceSquare (cells : List (ℤ × ACell D)) (d : Fin D) (a b : ℤ) : Option (ACell D) :=
  if a = b then none
  else if a < 0 ∧ b < 0 then none
  else if a = -2 ∧ b ≥ 0 then cellAt cells b
  else if b = -2 ∧ a ≥ 0 then
    (cellAt cells a).map fun c => (Function.update c.1 d (c.1 d + c.2), c.2)
  else if isValidEdge cells a b then
    match cellAt cells a, cellAt cells b with
    | some ca, some cb =>
      let width := min ca.2 cb.2
      if width = cb.2 then some (cb.1, width)
      else some (Function.update ca.1 d (ca.1 d + width), width)
    | _, _ => none
  else none

/-- the dual edge considered at `abc` on axis `d` (adaptive_grid.cpp:281-307). -/
def faceCandidate (shape : Coord D) (grid : Coord D → ℤ) (d : Fin D) (abc : Coord D) : Option (ℤ × ℤ) :=
  if abc d = 0 then
    let val := grid abc
    if val ≥ 0 then some (-2, val) else none
  else if abc d = (shape d + 1) - 1 then
    let val := grid (Function.update abc d (abc d - 1))
    if val ≥ 0 then some (val, -2) else none
  else
    let pid := grid abc
    let nid := grid (Function.update abc d (abc d - 1))
    if pid ≥ 0 ∧ nid ≥ 0 then some (nid, pid) else none

/-- the sequence of `faces.emplace` calls (adaptive_grid.cpp:274-311). -/
def faceCalls (shape : Coord D) (cells : List (ℤ × ACell D)) (grid : Coord D → ℤ) : List (AFace D) :=
  (List.finRange D).flatMap fun d =>
    (lexCoords D (Function.update shape d (shape d + 1))).filterMap fun abc =>
      (faceCandidate shape grid d abc).bind fun ab =>
        (faceSquare cells d ab.1 ab.2).map fun sq => ((d, ab.1, ab.2), sq)

/-- `faces(grid)`, `make_faces()` (adaptive_grid.cpp:233-320): the set, in order. -/
def adaptiveFaces (shape : Coord D) (cells : List (ℤ × ACell D)) : List (AFace D) :=
  (faceCalls shape cells (ownership cells)).foldl (fun s f => OMap.insertNew faceLess f.1 f.2 s) []

/-- `is_boundary_face(dual_edge)` (adaptive_grid.hpp:122). -/
def isBoundaryFace (f : AFace D) : Bool := decide (f.1.2.1 = -2) || decide (f.1.2.2 = -2)

/-- `operators::grid_boundary_faces(AdaptiveGrid, offset)` for one face (boundary3.cpp:60-73): the corner is on
the low or the high side of the domain. -/
def onGridBoundary (shape : Coord D) (f : AFace D) : Bool :=
  decide (f.2.1 f.1.1 = 0) || decide (f.2.1 f.1.1 = shape f.1.1)

/-! ## Lookup -/

theorem foldl_claim_keep (cells : List (ℤ × ACell D)) (g : Coord D → ℤ) (u : Coord D) (h : g u ≠ -1) :
    cells.foldl claim g u = g u := by
  induction cells generalizing g with
  | nil => rfl
  | cons e l ih =>
    rw [List.foldl_cons]
    have : claim g e u = g u := by
      unfold claim; rw [if_neg h, ite_self]
    rw [ih _ (by rw [this]; exact h), this]

theorem ownership_none (cells : List (ℤ × ACell D)) (u : Coord D) (h : ∀ e ∈ cells, ¬ InCube e.2 u) :
    ownership cells u = -1 := by
  unfold ownership
  generalize hg : (fun _ : Coord D => (-1 : ℤ)) = g
  have hgu : g u = -1 := by rw [← hg]
  clear hg
  induction cells generalizing g with
  | nil => exact hgu
  | cons e l ih =>
    rw [List.foldl_cons]
    refine ih (fun e' he' => h e' (List.mem_cons_of_mem _ he')) _ ?_
    unfold claim
    rw [if_neg (h e List.mem_cons_self)]; exact hgu

theorem ownership_some (cells : List (ℤ × ACell D)) (u : Coord D)
    (hid : ∀ e ∈ cells, 0 ≤ e.1)
    (hdis : ∀ e ∈ cells, ∀ e' ∈ cells, InCube e.2 u → InCube e'.2 u → e = e')
    (e : ℤ × ACell D) (he : e ∈ cells) (hu : InCube e.2 u) : ownership cells u = e.1 := by
  unfold ownership
  generalize hg : (fun _ : Coord D => (-1 : ℤ)) = g
  have hgu : g u = -1 := by rw [← hg]
  clear hg
  induction cells generalizing g with
  | nil => cases he
  | cons x l ih =>
    rw [List.foldl_cons]
    by_cases hx : InCube x.2 u
    · have : x = e := hdis x List.mem_cons_self e he hx hu
      have h2 : claim g x u = x.1 := by unfold claim; rw [if_pos hx, if_pos hgu]
      have h0 := hid x List.mem_cons_self
      rw [foldl_claim_keep _ _ _ (by rw [h2]; omega), h2, this]
    · have h2 : claim g x u = -1 := by unfold claim; rw [if_neg hx]; exact hgu
      refine ih (fun e' h' => hid e' (List.mem_cons_of_mem _ h'))
        (fun a ha b hb => hdis a (List.mem_cons_of_mem _ ha) b (List.mem_cons_of_mem _ hb)) ?_ _ h2
      rcases List.mem_cons.1 he with h | h
      · subst h; exact absurd hu hx
      · exact h

/-- a collection of cells in which no unit cell is in two cells and ids are non-negative. -/
def DisjointCells (cells : List (ℤ × ACell D)) : Prop :=
  (∀ e ∈ cells, 0 ≤ e.1) ∧ ∀ u, ∀ e ∈ cells, ∀ e' ∈ cells, InCube e.2 u → InCube e'.2 u → e = e'

/-- **C26.** The lookup grid holds at `u` the id of the cell containing `u`, and `-1` if there is none. -/
theorem C26_ownership (cells : List (ℤ × ACell D)) (h : DisjointCells cells) (u : Coord D) (id : ℤ) :
    ownership cells u = id ↔
      (∃ c, (id, c) ∈ cells ∧ InCube c u) ∨ (id = -1 ∧ ∀ e ∈ cells, ¬ InCube e.2 u) := by
  by_cases hc : ∃ e ∈ cells, InCube e.2 u
  · obtain ⟨e, he, hu⟩ := hc
    rw [ownership_some cells u h.1 (h.2 u) e he hu]
    constructor
    · rintro rfl; exact .inl ⟨e.2, he, hu⟩
    · rintro (⟨c, hm, hc⟩ | ⟨_, hn⟩)
      · exact congrArg Prod.fst (h.2 u e he _ hm hu hc)
      · exact absurd hu (hn e he)
  · push Not at hc
    rw [ownership_none cells u hc]
    constructor
    · intro h; exact .inr ⟨h.symm, hc⟩
    · rintro (⟨c, hm, h1⟩ | ⟨rfl, _⟩)
      · exact absurd h1 (hc _ hm)
      · rfl

theorem cellInside_iff (c : ACell D) (p : Pt D) : cellInside c p ↔ InCube c fun i => ⌊p i⌋ := by
  unfold cellInside InCube
  rw [← forall_and]
  refine forall_congr' fun i => ?_
  rw [Int.le_floor, Int.floor_lt]

/-- **C26.** `get_cell_index(p)`: `-2` iff a coordinate is negative or exceeds `vertex_shape` (one more than the
number of cells); otherwise the id of the cell whose half-open cube contains `p`; otherwise `-1`. -/
theorem C26_get_cell_index (shape : Coord D) (cells : List (ℤ × ACell D)) (h : DisjointCells cells) (p : Pt D) (id : ℤ) :
    getCellIndex shape cells p = id ↔
      (id = -2 ∧ ∃ i, p i < 0 ∨ ((shape i + 1 : ℤ) : ℚ) < p i) ∨
      ((∀ i, 0 ≤ p i ∧ p i ≤ ((shape i + 1 : ℤ) : ℚ)) ∧
        ((∃ c, (id, c) ∈ cells ∧ ∀ i, (c.1 i : ℚ) ≤ p i ∧ p i < c.1 i + c.2) ∨
         (id = -1 ∧ ∀ e ∈ cells, ¬ ∀ i, (e.2.1 i : ℚ) ≤ p i ∧ p i < e.2.1 i + e.2.2))) := by
  have hin : ∀ c : ACell D, cellInside c p ↔ ∀ i, (c.1 i : ℚ) ≤ p i ∧ p i < c.1 i + c.2 := by
    intro c; unfold cellInside; rw [← forall_and]; push_cast; rfl
  simp only [← hin]
  unfold getCellIndex
  by_cases ho : (∃ i, p i < 0) ∨ (∃ i, p i > ((shape i + 1 : ℤ) : ℚ))
  · rw [if_pos ho]
    have ho' : ∃ i, p i < 0 ∨ ((shape i + 1 : ℤ) : ℚ) < p i := by
      rcases ho with ⟨i, hi⟩ | ⟨i, hi⟩
      · exact ⟨i, .inl hi⟩
      · exact ⟨i, .inr hi⟩
    constructor
    · intro h; exact .inl ⟨h.symm, ho'⟩
    · rintro (⟨h, _⟩ | ⟨h, _⟩)
      · exact h.symm
      · obtain ⟨i, hi⟩ := ho'
        have := h i
        rcases hi with hi | hi <;> linarith
  · rw [if_neg ho]
    push Not at ho
    have hno : ¬ ∃ i, p i < 0 ∨ ((shape i + 1 : ℤ) : ℚ) < p i := by
      rintro ⟨i, hi | hi⟩
      · have := ho.1 i; linarith
      · have := ho.2 i; linarith
    have hall : ∀ i, 0 ≤ p i ∧ p i ≤ ((shape i + 1 : ℤ) : ℚ) := fun i => ⟨ho.1 i, ho.2 i⟩
    have hrest : (match cells.find? (fun e => decide (cellInside e.2 p)) with
        | some e => e.1 | none => -1) = id ↔
        ((∃ c, (id, c) ∈ cells ∧ cellInside c p) ∨ (id = -1 ∧ ∀ e ∈ cells, ¬ cellInside e.2 p)) := by
      cases hf : cells.find? (fun e => decide (cellInside e.2 p)) with
      | none =>
        rw [List.find?_eq_none] at hf
        simp only [decide_eq_true_eq] at hf
        constructor
        · intro h; exact .inr ⟨h.symm, hf⟩
        · rintro (⟨c, hm, h1⟩ | ⟨h, _⟩)
          · exact absurd h1 (hf _ hm)
          · exact h.symm
      | some e =>
        have hm := List.mem_of_find?_eq_some hf
        have hp := List.find?_some hf
        simp only [decide_eq_true_eq] at hp
        constructor
        · rintro rfl; exact .inl ⟨e.2, hm, hp⟩
        · rintro (⟨c, hm', h1⟩ | ⟨_, h⟩)
          · exact congrArg Prod.fst (h.2 _ e hm _ hm' ((cellInside_iff _ _).1 hp) ((cellInside_iff _ _).1 h1))
          · exact absurd hp (h e hm)
    rw [hrest]
    constructor
    · intro h; exact .inr ⟨hall, h⟩
    · rintro (⟨_, h⟩ | ⟨_, h⟩)
      · exact absurd h hno
      · exact h

/-- **C26.** Inside the domain the point lookup and the dense lookup grid agree. -/
theorem C26_lookup_agrees (shape : Coord D) (cells : List (ℤ × ACell D)) (h : DisjointCells cells) (p : Pt D)
    (hp : ∀ i, 0 ≤ p i ∧ p i ≤ shape i) : getCellIndex shape cells p = ownership cells fun i => ⌊p i⌋ := by
  have hin : ∀ c : ACell D, (∀ i, (c.1 i : ℚ) ≤ p i ∧ p i < c.1 i + c.2) ↔ InCube c fun i => ⌊p i⌋ := by
    intro c; rw [← cellInside_iff]; unfold cellInside; rw [← forall_and]; push_cast; rfl
  rw [C26_get_cell_index shape cells h]
  refine .inr ⟨fun i => ⟨(hp i).1, by have := (hp i).2; push_cast; linarith⟩, ?_⟩
  simp only [hin]
  exact (C26_ownership cells h _ _).1 rfl

/-- **C26, defect.** A point beyond the domain by up to one cell is outside, but is reported as `-1` (inside
the grid but in no adaptive cell) instead of `-2`. -/
theorem C26_outside_refuted (shape : Coord D) (cells : List (ℤ × ACell D)) (h : DisjointCells cells)
    (hin : ∀ e ∈ cells, ∀ u, InCube e.2 u → InGrid shape u) (p : Pt D) (i : Fin D)
    (hp : ∀ j, 0 ≤ p j ∧ p j ≤ ((shape j + 1 : ℤ) : ℚ)) (hi : (shape i : ℚ) < p i) :
    getCellIndex shape cells p = -1 := by
  rw [C26_get_cell_index shape cells h]
  refine .inr ⟨hp, .inr ⟨rfl, ?_⟩⟩
  intro e he hc
  have : InCube e.2 fun i => ⌊p i⌋ := by
    rw [← cellInside_iff]; unfold cellInside; rw [← forall_and]; push_cast; exact hc
  have h1 := (hin e he _ this i).2
  rw [Int.floor_lt] at h1
  linarith

/-- the factory's cells satisfy the hypotheses. -/
theorem C26_factory_disjoint (hD : 0 < D) (shape : Coord D) (ix : GridIndexer shape) (inactive : Coord D → Bool)
    (maxLevel : Option ℤ)
    (h : StopsAt shape maxLevel 0 ∨ ((∀ i, shape i = 2 ^ logSize shape) ∧
      ((∃ L, StopsAt shape maxLevel L) ∨ ∃ v, InGrid shape v ∧ inactive v = false))) :
    DisjointCells (factoryCells ix.idx shape inactive maxLevel) ∧
    ∀ e ∈ factoryCells ix.idx shape inactive maxLevel, ∀ u, InCube e.2 u → InGrid shape u := by
  have ht := C25_tiling hD shape ix inactive maxLevel h
  refine ⟨⟨?_, ?_⟩, fun e he u hu => ((ht.1.1 e he).2 u hu).1⟩
  · intro e he
    rw [ht.2 e he]
    have hc : InCube e.2 e.2.1 := fun i => ⟨le_rfl, by have := (ht.1.1 e he).1; omega⟩
    exact (ix.bound _ ((validIndex_iff _ _).2 ((ht.1.1 e he).2 _ hc).1)).1
  · intro u e he e' he' hu hu'
    obtain ⟨hg, hi⟩ := (ht.1.1 e he).2 u hu
    obtain ⟨x, _, hx⟩ := ht.1.2 u hg hi
    rw [hx e ⟨he, hu⟩, hx e' ⟨he', hu'⟩]

/-- one cell of width 2 with id 0 in a grid of 2 cells per axis. -/
example : DisjointCells [((0 : ℤ), ((![0, 0, 0] : Coord 3), (2 : ℤ)))] ∧
    getCellIndex ![2, 2, 2] [((0 : ℤ), ((![0, 0, 0] : Coord 3), (2 : ℤ)))] ![1/2, 1, 3/2] = 0 ∧
    getCellIndex ![2, 2, 2] [((0 : ℤ), ((![0, 0, 0] : Coord 3), (2 : ℤ)))] ![1/2, 1, 5/2] = -1 ∧
    getCellIndex ![2, 2, 2] [((0 : ℤ), ((![0, 0, 0] : Coord 3), (2 : ℤ)))] ![1/2, 1, 7/2] = -2 := by
  refine ⟨⟨by simp, by simp⟩, ?_, ?_, ?_⟩ <;> decide +kernel

end Mandoline
