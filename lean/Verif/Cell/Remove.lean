import Verif.Cell.Wedge
import Verif.Geom.Mask
import Mathlib.Algebra.BigOperators.Fin

/-!
# C71: removal of outer cells

Transcription of the `remove_*` functions of src/construction/cell_collapser.cpp:194-265. They act on
`m_cell_boundaries` (here the member `cells`) only.
-/
namespace Mandoline
namespace CellCollapser
open scoped BigOperators

/-- `erase(remove_if(p))` on `m_cell_boundaries`. -/
def removeCells (s : CellCollapser) (p : List (ℤ × Bool) → Bool) : CellCollapser :=
  { s with cells := s.cells.filter fun m => !p m }

/-- `remove_boundary_cells_from_faces` (cell_collapser.cpp:194-204). -/
def removeFromFaces (s : CellCollapser) (bf : List ℤ) : CellCollapser :=
  s.removeCells fun m => m.all fun p => decide (p.1 ∈ bf)

/-- `remove_boundary_cells_from_vertices` (cell_collapser.cpp:205-231). -/
def removeFromVertices (s : CellCollapser) (bv : List ℤ) : CellCollapser :=
  s.removeFromFaces ((s.faces.filter fun q => q.2.all fun C => C.all fun v => decide (v ∈ bv)).map Prod.fst)

/-- `remove_boundary_cells` (cell_collapser.cpp:232-245); `ext f` tells whether face `f` has an `external_boundary`. -/
def removeBoundary (s : CellCollapser) (ext : ℤ → Bool) : CellCollapser := s.removeCells fun m => m.all fun p => ext p.1

/-- a face with this mask is in the boundary of the grid (cell_collapser.cpp:250-257): `count() == 1` and the coordinate
of `bound_axis()` is `0` or `shape[axis]`. -/
def onGridBoundary (shape : Fin 3 → ℤ) (m : Mask 3) : Bool :=
  if m.count = 1 then
    match m.boundAxis with
    | some ba => decide (m ba = some 0 ∨ m ba = some (shape ba))
    | none => false
  else false

/-- `remove_grid_boundary_cells` (cell_collapser.cpp:246-266). -/
def removeGridBoundary (s : CellCollapser) (shape : Fin 3 → ℤ) (mask : ℤ → Mask 3) : CellCollapser :=
  s.removeCells fun m => m.all fun p => onGridBoundary shape (mask p.1)

/-- the volume of a cell from the volumes of its faces (cell_collapser.cpp:259-264). -/
def cellVolume (vol : ℤ → ℚ) (m : List (ℤ × Bool)) : ℚ := (m.map fun p => (if p.2 then 1 else -1) * vol p.1).sum

/-- `remove_boundary_cells_by_volume` (cell_collapser.cpp:255-265). -/
def removeByVolume (s : CellCollapser) (vol : ℤ → ℚ) : CellCollapser := s.removeCells fun m => decide (cellVolume vol m < 0)

/-! ## proofs -/

theorem count_filter_flatten {α : Type*} [BEq α] [LawfulBEq α] (L : List (List α)) (P : List α → Bool) (x : α)
    (h : ∀ m ∈ L, x ∈ m → P m = true) : ((L.filter P).flatten).count x = L.flatten.count x := by
  induction L with
  | nil => rfl
  | cons m L ih =>
    have ih := ih fun m' hm' => h m' (List.mem_cons_of_mem _ hm')
    by_cases hP : P m = true
    · rw [List.filter_cons_of_pos hP, List.flatten_cons, List.flatten_cons, List.count_append, List.count_append, ih]
    · rw [List.filter_cons_of_neg hP, List.flatten_cons, List.count_append, ih]
      have : x ∉ m := fun hx => hP (h m List.mem_cons_self hx)
      rw [List.count_eq_zero_of_not_mem this, Nat.zero_add]

theorem count_flatten_one {α : Type*} [BEq α] [LawfulBEq α] (L : List (List α)) (hnd : ∀ m ∈ L, m.Nodup) (x : α) (k : ℕ)
    (hk : k < L.length) (h : ∀ j m, L[j]? = some m → (x ∈ m ↔ j = k)) : L.flatten.count x = 1 := by
  induction L generalizing k with
  | nil => simp at hk
  | cons m L ih =>
    rw [List.flatten_cons, List.count_append]
    cases k with
    | zero =>
      have h0 : x ∈ m := (h 0 m rfl).2 rfl
      rw [List.count_eq_one_of_mem (hnd m List.mem_cons_self) h0]
      have : x ∉ L.flatten := by
        rw [List.mem_flatten]
        rintro ⟨m', hm', hx⟩
        obtain ⟨j, hj, rfl⟩ := List.mem_iff_getElem.1 hm'
        have := (h (j + 1) L[j] (by simp [hj])).1 hx
        omega
      rw [List.count_eq_zero_of_not_mem this]
    | succ k =>
      have h0 : x ∉ m := fun hx => by have := (h 0 m rfl).1 hx; omega
      rw [List.count_eq_zero_of_not_mem h0, Nat.zero_add]
      refine ih (fun m' hm' => hnd m' (List.mem_cons_of_mem _ hm')) k (by simpa using hk) ?_
      intro j m' hj
      have := h (j + 1) m' (by simpa using hj)
      rw [this]; omega

/-- **C71.** Before any removal, each unfolded face is listed exactly once with each sign. -/
theorem C71_listed_once (faces : List (ℤ × List (List ℤ))) (hc : Clean faces)
    (ord : DEdge → List ℤ) (hord : ∀ e, (ord e).Perm ((make faces).around e)) (R : DsuRoots ((make faces).merge ord).ds)
    (f : ℤ) (hf : f ∈ faces.map Prod.fst) (hnf : ¬ Folded faces ((make faces).bake ord R) f) (b : Bool) :
    ((make faces).bake ord R).cells.flatten.count (f, b) = 1 := by
  obtain ⟨hpos, hnd⟩ := clean_hf hc
  -- a half-face of f
  obtain ⟨⟨f', loops⟩, hp, rfl⟩ := List.mem_map.1 hf
  obtain ⟨C, hC⟩ := List.exists_mem_of_ne_nil _ (hc.nonempty _ hp)
  have hsz := hc.size _ hp C hC
  have hne : polyEdges C ≠ [] := by
    intro h0
    have : (polyEdges C).length = C.length := by unfold polyEdges; simp
    rw [h0] at this; simp at this; omega
  obtain ⟨e, he⟩ := List.exists_mem_of_ne_nil _ hne
  have hm : (f', e) ∈ (make faces).hfList :=
    ((C38_halffaces faces hc f' e true).2 (mem_edgesOf.2 ⟨loops, hp, List.mem_flatMap.2 ⟨C, hC, he⟩⟩)).1
  obtain ⟨k, k', hkk, hk, hk', h⟩ := C38_opposite_signs faces hpos hnd ord hord R f' e hm hnf
  have hnodup : ∀ m ∈ ((make faces).bake ord R).cells, m.Nodup := by
    intro m hm
    obtain ⟨j, hj, rfl⟩ := List.mem_iff_getElem.1 hm
    exact List.Nodup.of_map _ (C38_boundary faces hpos ord hord R j _ (List.getElem?_eq_getElem hj)).1
  cases b
  · refine count_flatten_one _ hnodup _ k' hk' fun j m hj => ?_
    rw [h j m false hj]; simp
  · refine count_flatten_one _ hnodup _ k hk fun j m hj => ?_
    rw [h j m true hj]; simp

/-- **C71.** Removing the cells all of whose faces are outer faces (`remove_boundary_cells`, `remove_grid_boundary_cells`,
`remove_boundary_cells_from_faces` in one) keeps both cells of every inner face: it is still listed exactly once with each
sign. An outer face is listed at most once with each sign. -/
theorem C71_inner_faces_keep_cells (faces : List (ℤ × List (List ℤ))) (hc : Clean faces)
    (ord : DEdge → List ℤ) (hord : ∀ e, (ord e).Perm ((make faces).around e)) (R : DsuRoots ((make faces).merge ord).ds)
    (outer : ℤ → Bool) (f : ℤ) (hf : f ∈ faces.map Prod.fst) (hnf : ¬ Folded faces ((make faces).bake ord R) f) (b : Bool) :
    (outer f = false →
      (((make faces).bake ord R).removeCells fun m => m.all fun p => outer p.1).cells.flatten.count (f, b) = 1) ∧
    (((make faces).bake ord R).removeCells fun m => m.all fun p => outer p.1).cells.flatten.count (f, b) ≤ 1 := by
  have h1 := C71_listed_once faces hc ord hord R f hf hnf b
  constructor
  · intro ho
    unfold removeCells
    simp only
    rw [count_filter_flatten, h1]
    intro m _ hx
    have : (m.all fun p => outer p.1) = false := by
      rw [List.all_eq_false]; exact ⟨_, hx, by simpa using ho⟩
    rw [this]; rfl
  · rw [← h1]
    refine List.Sublist.count_le _ (List.Sublist.flatten ?_)
    exact List.filter_sublist

/-- **C71.** A cell survives iff it has a face that is not in the outer set, and the order of the cells is kept. -/
theorem C71_kept_cells (s : CellCollapser) (outer : ℤ → Bool) (m : List (ℤ × Bool)) :
    (m ∈ (s.removeCells fun m => m.all fun p => outer p.1).cells ↔ m ∈ s.cells ∧ ∃ p ∈ m, outer p.1 = false) ∧
    (s.removeCells fun m => m.all fun p => outer p.1).cells.Sublist s.cells := by
  refine ⟨?_, List.filter_sublist⟩
  unfold removeCells
  simp only [List.mem_filter, Bool.not_eq_true', List.all_eq_false]
  simp

/-- **C71.** Which cells each of the five removals drops; the others stay, in their order. -/
theorem C71_removed_iff (s : CellCollapser) (m : List (ℤ × Bool)) :
    (∀ bf, m ∈ (s.removeFromFaces bf).cells ↔ m ∈ s.cells ∧ ∃ p ∈ m, p.1 ∉ bf) ∧
    (∀ bv, m ∈ (s.removeFromVertices bv).cells ↔ m ∈ s.cells ∧ ∃ p ∈ m, ∀ loops, (p.1, loops) ∈ s.faces →
      ∃ C ∈ loops, ∃ v ∈ C, v ∉ bv) ∧
    (∀ ext, m ∈ (s.removeBoundary ext).cells ↔ m ∈ s.cells ∧ ∃ p ∈ m, ext p.1 = false) ∧
    (∀ vol, m ∈ (s.removeByVolume vol).cells ↔ m ∈ s.cells ∧
      0 ≤ (m.map fun p => if p.2 then vol p.1 else -vol p.1).sum) ∧
    (∀ shape (mask : ℤ → Mask 3), m ∈ (s.removeGridBoundary shape mask).cells ↔ m ∈ s.cells ∧ ∃ p ∈ m,
      ¬ ∃ axis, (mask p.1 axis = some 0 ∨ mask p.1 axis = some (shape axis)) ∧ ∀ k, k ≠ axis → mask p.1 k = none) ∧
    (∀ bf, (s.removeFromFaces bf).cells.Sublist s.cells) ∧ (∀ bv, (s.removeFromVertices bv).cells.Sublist s.cells) ∧
    (∀ ext, (s.removeBoundary ext).cells.Sublist s.cells) ∧ (∀ vol, (s.removeByVolume vol).cells.Sublist s.cells) ∧
    (∀ shape mask, (s.removeGridBoundary shape mask).cells.Sublist s.cells) := by
  have hgrid : ∀ (shape : Fin 3 → ℤ) (M : Mask 3), onGridBoundary shape M = false ↔
      ¬ ∃ axis, (M axis = some 0 ∨ M axis = some (shape axis)) ∧ ∀ k, k ≠ axis → M k = none := by
    intro shape M
    rw [← Bool.not_eq_true, not_iff_not]
    unfold onGridBoundary Mask.boundAxis Mask.count Mask.isBound
    have e : List.finRange 3 = [0, 1, 2] := rfl
    have all : ∀ (P : Fin 3 → Prop), (∃ axis, P axis) ↔ P 0 ∨ P 1 ∨ P 2 := by
      intro P
      constructor
      · rintro ⟨a, h⟩
        match a with
        | 0 => exact Or.inl h
        | 1 => exact Or.inr (Or.inl h)
        | 2 => exact Or.inr (Or.inr h)
      · rintro (h | h | h) <;> exact ⟨_, h⟩
    have alls : ∀ (P : Fin 3 → Prop), (∀ axis, P axis) ↔ P 0 ∧ P 1 ∧ P 2 := by
      intro P
      constructor
      · exact fun h => ⟨h 0, h 1, h 2⟩
      · rintro ⟨h0, h1, h2⟩ a
        match a with
        | 0 => exact h0
        | 1 => exact h1
        | 2 => exact h2
    rw [all]
    simp only [alls, e]
    rcases h0 : M 0 with _ | a <;> rcases h1 : M 1 with _ | b <;> rcases h2 : M 2 with _ | c <;> simp [h0, h1, h2]
  have hall : ∀ (q : ℤ → Bool), m ∈ (s.removeCells fun m => m.all fun p => q p.1).cells ↔ m ∈ s.cells ∧ ∃ p ∈ m, q p.1 = false :=
    fun q => by
      unfold removeCells
      simp only [List.mem_filter, Bool.not_eq_true', List.all_eq_false]
      simp
  have hff : ∀ bf, m ∈ (s.removeFromFaces bf).cells ↔ m ∈ s.cells ∧ ∃ p ∈ m, p.1 ∉ bf := fun bf => by
    unfold removeFromFaces
    rw [hall fun f => decide (f ∈ bf)]
    simp
  refine ⟨hff, fun bv => ?_, fun ext => hall ext, fun vol => ?_, fun shape mask => ?_,
    fun _ => List.filter_sublist, fun _ => List.filter_sublist, fun _ => List.filter_sublist, fun _ => List.filter_sublist,
    fun _ _ => List.filter_sublist⟩
  · unfold removeFromVertices
    rw [hff]
    refine and_congr_right fun _ => exists_congr fun p => and_congr_right fun _ => ?_
    constructor
    · intro h loops hl
      by_contra hc
      refine h (List.mem_map.2 ⟨(p.1, loops), List.mem_filter.2 ⟨hl, ?_⟩, rfl⟩)
      simp only [List.all_eq_true, decide_eq_true_eq]
      intro C hC v hv
      by_contra hn
      exact hc ⟨C, hC, v, hv, hn⟩
    · intro h hc
      obtain ⟨q, hq, he⟩ := List.mem_map.1 hc
      obtain ⟨hq1, hq2⟩ := List.mem_filter.1 hq
      simp only [List.all_eq_true, decide_eq_true_eq] at hq2
      obtain ⟨C, hC, v, hv, hn⟩ := h q.2 (by rw [← he]; exact hq1)
      exact hn (hq2 C hC v hv)
  · unfold removeByVolume removeCells
    simp only [List.mem_filter, Bool.not_eq_true', decide_eq_false_iff_not, not_lt]
    refine and_congr_right fun _ => ?_
    have : cellVolume vol m = (m.map fun p => if p.2 then vol p.1 else -vol p.1).sum := by
      unfold cellVolume
      congr 1
      refine List.map_congr_left fun p _ => ?_
      cases p.2 <;> simp
    rw [this]
  · unfold removeGridBoundary
    rw [hall fun f => onGridBoundary shape (mask f)]
    simp only [hgrid]

theorem signed_sum_zero (l : List (ℤ × Bool)) (vol : ℤ → ℚ) (h : ∀ f, l.count (f, true) = l.count (f, false)) :
    cellVolume vol l = 0 := by
  have hsplit : ∀ l : List (ℤ × Bool), cellVolume vol l = ((l.filter fun p => p.2).map fun p => vol p.1).sum -
      ((l.filter fun p => !p.2).map fun p => vol p.1).sum := by
    intro l
    unfold cellVolume
    induction l with
    | nil => simp
    | cons p l ih =>
      obtain ⟨f, b⟩ := p
      rw [List.map_cons, List.sum_cons, ih]
      cases b
      · rw [List.filter_cons_of_neg (by simp), List.filter_cons_of_pos (by simp)]; simp; ring
      · rw [List.filter_cons_of_pos (by simp), List.filter_cons_of_neg (by simp)]; simp; ring
  have hcnt : ∀ (b : Bool) (f : ℤ), ((l.filter fun p => p.2 == b).map Prod.fst).count f = l.count (f, b) := by
    intro b f
    induction l with
    | nil => rfl
    | cons p l ih =>
      obtain ⟨g, c⟩ := p
      have ih' : ((l.filter fun p => p.2 == b).map Prod.fst).count f = l.count (f, b) := by
        clear ih h
        induction l with
        | nil => rfl
        | cons p l ih =>
          obtain ⟨g, c⟩ := p
          by_cases hcb : c = b
          · subst hcb
            rw [List.filter_cons_of_pos (by simp), List.map_cons, List.count_cons, List.count_cons, ih]
            simp
          · rw [List.filter_cons_of_neg (by simpa using hcb), ih, List.count_cons]
            simp [hcb]
      by_cases hcb : c = b
      · subst hcb
        rw [List.filter_cons_of_pos (by simp), List.map_cons, List.count_cons, List.count_cons, ih']
        simp
      · rw [List.filter_cons_of_neg (by simpa using hcb), ih', List.count_cons]
        simp [hcb]
  have hperm : ((l.filter fun p => p.2 == true).map Prod.fst).Perm ((l.filter fun p => p.2 == false).map Prod.fst) := by
    rw [List.perm_iff_count]
    intro f; rw [hcnt, hcnt, h]
  have := (hperm.map vol).sum_eq
  rw [hsplit, sub_eq_zero]
  simpa [List.map_map, Function.comp_def] using this

/-- **C71.** If no face is folded, the volumes of all cells, computed from any face volumes, add up to zero: the outer cell
has minus the volume of the inner ones. -/
theorem C71_volumes_cancel (faces : List (ℤ × List (List ℤ))) (hc : Clean faces)
    (ord : DEdge → List ℤ) (hord : ∀ e, (ord e).Perm ((make faces).around e)) (R : DsuRoots ((make faces).merge ord).ds)
    (hnf : ∀ f, ¬ Folded faces ((make faces).bake ord R) f) (vol : ℤ → ℚ) :
    (((make faces).bake ord R).cells.map (cellVolume vol)).sum = 0 := by
  have hflat : ∀ L : List (List (ℤ × Bool)), (L.map (cellVolume vol)).sum = cellVolume vol L.flatten := by
    intro L
    induction L with
    | nil => rfl
    | cons m L ih => rw [List.map_cons, List.sum_cons, ih]; unfold cellVolume; simp
  rw [hflat]
  apply signed_sum_zero
  intro f
  by_cases hf : f ∈ faces.map Prod.fst
  · rw [C71_listed_once faces hc ord hord R f hf (hnf f), C71_listed_once faces hc ord hord R f hf (hnf f)]
  · obtain ⟨hpos, hnd⟩ := clean_hf hc
    have hno : ∀ b, (f, b) ∉ ((make faces).bake ord R).cells.flatten := by
      intro b hb
      obtain ⟨m, hm, hx⟩ := List.mem_flatten.1 hb
      obtain ⟨j, hj, rfl⟩ := List.mem_iff_getElem.1 hm
      obtain ⟨e, he, _, _⟩ := (C38_boundary faces hpos ord hord R j _ (List.getElem?_eq_getElem hj)).2.1 f b hx
      have h2 := (C38_halffaces faces hc f e ((make faces).side (f, e))).1 ⟨he, rfl⟩
      have : ∃ x, x ∈ edgesOf faces f := by split at h2 <;> exact ⟨_, h2⟩
      obtain ⟨x, hx⟩ := this
      obtain ⟨loops, hp, _⟩ := mem_edgesOf.1 hx
      exact hf (List.mem_map.2 ⟨_, hp, rfl⟩)
    rw [List.count_eq_zero_of_not_mem (hno _), List.count_eq_zero_of_not_mem (hno _)]

/-- **C71 (defect).** If all faces lie in the boundary of the grid, `remove_grid_boundary_cells` removes every cell, the
inner ones included: a grid with a single cell is left without cells. -/
theorem C71_inner_cell_lost_refuted (s : CellCollapser) (shape : Fin 3 → ℤ) (mask : ℤ → Mask 3)
    (h : ∀ m ∈ s.cells, ∀ p ∈ m, onGridBoundary shape (mask p.1) = true) :
    (s.removeGridBoundary shape mask).cells = [] := by
  unfold removeGridBoundary removeCells
  simp only [List.filter_eq_nil_iff, Bool.not_eq_true', Bool.not_eq_false, List.all_eq_true]
  exact h

/-! ## a tetrahedron -/

/-- four triangles with inward normals. -/
def tetra : List (ℤ × List (List ℤ)) := [(0, [[0, 1, 2]]), (1, [[0, 3, 1]]), (2, [[1, 3, 2]]), (3, [[0, 2, 3]])]

theorem tetra_clean : Clean tetra := by
  refine ⟨?_, ?_, ?_, ?_, ?_⟩ <;> decide +kernel

/-- its baked collapser. -/
def tetraBaked : CellCollapser :=
  (make tetra).bake (make tetra).around (merge_dsOk (raw_make tetra) _ fun _ => .refl _).roots

example : tetraBaked.cells = [[(0, false), (1, false), (2, false), (3, false)], [(0, true), (1, true), (2, true), (3, true)]] := by
  decide +kernel

example : tetraBaked.foldedFaces = [] := by decide +kernel

example : ∀ f, (edgesOf tetra f).Nodup := by
  intro f
  unfold edgesOf tetra
  by_cases h0 : f = 0
  · subst h0; decide +kernel
  by_cases h1 : f = 1
  · subst h1; decide +kernel
  by_cases h2 : f = 2
  · subst h2; decide +kernel
  by_cases h3 : f = 3
  · subst h3; decide +kernel
  rw [List.filter_eq_nil_iff.2]
  · simp
  · intro p hp
    simp only [List.mem_cons, List.not_mem_nil, or_false] at hp
    simp only [decide_eq_true_eq]
    rcases hp with rfl | rfl | rfl | rfl <;> simp only <;> omega

/-- positions of the vertices of the tetrahedron and normals of its faces. -/
def tetraV (i : ℤ) : Vec3 := if i = 1 then ![1, 0, 0] else if i = 2 then ![0, 1, 0] else if i = 3 then ![0, 0, 1] else 0

/-- inward normals. -/
def tetraN (f : ℤ) : Vec3 := if f = 0 then ![0, 0, 1] else if f = 1 then ![0, 1, 0] else if f = 2 then ![-1, -1, -1] else ![1, 0, 0]

/-- the hypotheses of `C70_wedge_in_one_cell` hold at the edge `(1,3)` between faces 1 and 2. -/
example : (make tetra).around (1, 3) = [1, 2] ∧ (tetraV 3 - tetraV 1) 0 ≠ 0 ∧
    (∀ f ∈ (make tetra).around (1, 3), vdot (tetraV 3 - tetraV 1) (tetraN f) = 0 ∧ tetraN f ≠ 0) := by decide +kernel

example : ((make tetra).around (1, 3)).map (fun f => project (tetraV 1 - tetraV 3) 0 ((make tetra).signedNormal tetraN (1, 3) f)) =
    [(0, -1), (-1, -1)] := by decide +kernel

example : Ccw [((0 : ℚ), (-1 : ℚ)), (-1, -1)] := by
  intro i hi v hv
  simp only [List.length_cons, List.length_nil] at hi
  have hi2 : i = 0 ∨ i = 1 := by omega
  simp only [List.mem_cons, List.not_mem_nil, or_false] at hv
  rcases hi2 with rfl | rfl <;> rcases hv with rfl | rfl <;> simp [InSector, SameDir, cross2, dot2]

/-- the tetrahedron with its outer cell removed by volume (inward normals: inner volume positive). -/
example : (tetraBaked.removeByVolume fun _ => 1).cells = [[(0, true), (1, true), (2, true), (3, true)]] := by decide +kernel

end CellCollapser
end Mandoline
