import Verif.Exterior.Boundary
import Verif.Adaptive.Renumber
import Mathlib.Data.List.Perm.Basic

/-!
# C66: the boundary operator of a cut-cell mesh

Transcription of src/operators/boundary2.cpp:7-37, src/operators/boundary3.cpp:7-39 and
src/construction/generator3.cpp:296-306 (external signs). The 2D and 3D operators have the same shape: the triplets of
the exterior grid, one triplet per (cell, facet) incidence and one triplet per facet with an exterior neighbour.
-/
namespace Mandoline

/-- the part of a cut-cell mesh that the boundary operator reads: cut facets `0 .. nFacets-1` with their optional
`external_boundary` (exterior cell or `-2`, sign), and for each cell its index and its facet → sign map
(`m_face_boundary_map` in 2D, `CutCell` in 3D). -/
structure CutMesh where
  nFacets : ℕ
  ext : ℕ → Option (ℤ × Bool)
  cells : List (ℤ × List (ℕ × Bool))

/-- `e.external_boundary && std::get<0>(*e.external_boundary) == -2` (boundary2.cpp:21, boundary3.cpp:20-22). -/
def CutMesh.isDomain (M : CutMesh) (f : ℕ) : Bool :=
  match M.ext f with
  | some (c, _) => decide (c = -2)
  | none => false

/-- `sgn ? -1 : 1`. -/
def signVal (s : Bool) : ℚ := if s then -1 else 1

/-- the triplets of one cell (boundary2.cpp:18-24, boundary3.cpp:17-25). -/
def CutMesh.cellTriplets (M : CutMesh) (inc : Bool) (c : ℤ × List (ℕ × Bool)) : List Triplet :=
  c.2.filterMap fun fs => if inc || !M.isDomain fs.1 then some ((fs.1 : ℤ), c.1, signVal fs.2) else none

/-- the triplet of one facet with an exterior neighbour (boundary2.cpp:26-33, boundary3.cpp:26-33); `look` is
`exterior_grid.cell_indices().get(·) + num_cfaces` in 2D and `cell_ownership_grid().get(·)` in 3D. -/
def CutMesh.extTriplet (M : CutMesh) (look : ℤ → ℤ) (f : ℕ) : Option Triplet :=
  match M.ext f with
  | some (c, s) => if c ≥ 0 then some ((f : ℤ), look c, signVal s) else none
  | none => none

/-- `boundary(ccm, include_domain_boundary)` (boundary2.cpp:7-37, boundary3.cpp:7-39): the triplet list given to
`setFromTriplets`; `E` are the triplets of the exterior grid, already shifted. -/
def CutMesh.boundary (M : CutMesh) (look : ℤ → ℤ) (E : List Triplet) (inc : Bool) : List Triplet :=
  E ++ M.cells.flatMap (M.cellTriplets inc) ++ (List.range M.nFacets).filterMap (M.extTriplet look)

/-- the transform of boundary2.cpp:11-13. -/
def shiftTriplets (rows cols : ℤ) (t : List Triplet) : List Triplet :=
  t.map fun x => (rows + x.1, cols + x.2.1, x.2.2)

/-- the loop of generator3.cpp:296-306 that fills in the signs of the external boundaries. -/
def setExternalSigns (ext : ℕ → Option (ℤ × Bool)) (cells : List (List (ℕ × Bool))) : ℕ → Option (ℤ × Bool) :=
  cells.foldl (fun e c => c.foldl (fun e fs => fun g =>
    if g = fs.1 then (e g).map fun p => (p.1, !fs.2) else e g) e) ext

/-! ## specification -/

/-- the cells having facet `f` on their boundary, with signs, in order. -/
def CutMesh.sides (M : CutMesh) (f : ℕ) : List (ℤ × Bool) :=
  M.cells.flatMap fun c => (c.2.filter fun fs => decide (fs.1 = f)).map fun fs => (c.1, fs.2)

/-- What a facet of a well-formed mesh can be: between two cut cells, which see it with opposite signs; between a
cut cell and an exterior cell, whose recorded sign is the opposite one; or on the domain boundary. -/
inductive CutMesh.FacetOk (M : CutMesh) (f : ℕ) : Prop
  | inner (c₁ c₂ : ℤ) (h : (M.sides f).Perm [(c₁, true), (c₂, false)]) (he : M.ext f = none)
  | outer (c g : ℤ) (s : Bool) (h : M.sides f = [(c, s)]) (hg : 0 ≤ g) (he : M.ext f = some (g, !s))
  | domain (c : ℤ) (s s' : Bool) (h : M.sides f = [(c, s)]) (he : M.ext f = some (-2, s'))

theorem rowOf_append (a b : List Triplet) (r : ℤ) : rowOf (a ++ b) r = rowOf a r ++ rowOf b r := by
  simp [rowOf]

theorem rowOf_flatMap {α : Type*} (l : List α) (g : α → List Triplet) (r : ℤ) :
    rowOf (l.flatMap g) r = l.flatMap fun x => rowOf (g x) r := by
  induction l with
  | nil => rfl
  | cons a l ih => rw [List.flatMap_cons, rowOf_append, ih, List.flatMap_cons]

theorem CutMesh.rowOf_cells (M : CutMesh) (inc : Bool) (f : ℕ) :
    rowOf (M.cells.flatMap (M.cellTriplets inc)) f =
      if inc || !M.isDomain f then (M.sides f).map fun cs => ((f : ℤ), cs.1, signVal cs.2) else [] := by
  rw [rowOf_flatMap]
  unfold CutMesh.sides
  have hc : ∀ c : ℤ × List (ℕ × Bool), rowOf (M.cellTriplets inc c) f =
      if inc || !M.isDomain f then
        (c.2.filter fun fs => decide (fs.1 = f)).map fun fs => ((f : ℤ), c.1, signVal fs.2) else [] := by
    rintro ⟨c, l⟩
    unfold CutMesh.cellTriplets rowOf
    induction l with
    | nil => simp
    | cons x l ih =>
      obtain ⟨g, s⟩ := x
      simp only [List.filterMap_cons, List.filter_cons] at ih ⊢
      by_cases hg : g = f
      · subst hg
        by_cases hd : (inc || !M.isDomain g) = true
        · simp only [hd, if_true, List.filter_cons, decide_true] at ih ⊢
          rw [ih, List.map_cons]
        · simp only [hd, Bool.false_eq_true, if_false] at ih ⊢
          exact ih
      · have hg' : ¬ ((g : ℤ) = f) := by exact_mod_cast hg
        simp only [hg, decide_false, Bool.false_eq_true, if_false]
        split
        · exact ih
        · rename_i t ht
          split at ht
          · cases ht
            rw [List.filter_cons_of_neg (by simpa using hg)]
            exact ih
          · cases ht
  simp only [hc]
  split
  · rw [List.map_flatMap]
    simp only [List.map_map]
    rfl
  · simp

theorem CutMesh.rowOf_ext (M : CutMesh) (look : ℤ → ℤ) (f : ℕ) (hf : f < M.nFacets) :
    rowOf ((List.range M.nFacets).filterMap (M.extTriplet look)) f = (M.extTriplet look f).toList := by
  have hrow : ∀ g t, M.extTriplet look g = some t → t.1 = g := by
    intro g t h
    unfold CutMesh.extTriplet at h
    split at h
    · split at h
      · cases h; rfl
      · cases h
    · cases h
  have key : ∀ l : List ℕ, l.Nodup → rowOf (l.filterMap (M.extTriplet look)) f =
      if f ∈ l then (M.extTriplet look f).toList else [] := by
    intro l
    induction l with
    | nil => intro _; simp [rowOf]
    | cons g l ih =>
      intro hnd
      rw [List.nodup_cons] at hnd
      have ih' := ih hnd.2
      unfold rowOf at ih' ⊢
      rw [List.filterMap_cons]
      by_cases hg : g = f
      · subst hg
        rw [if_neg hnd.1] at ih'
        cases ht : M.extTriplet look g with
        | none => simp only [ih']; simp
        | some t =>
          simp only
          rw [List.filter_cons_of_pos (by simp [hrow g t ht]), ih']
          simp
      · have hmem : (f ∈ g :: l) = (f ∈ l) := by
          simp only [List.mem_cons, eq_iff_iff]
          constructor
          · rintro (h | h)
            · exact absurd h.symm hg
            · exact h
          · exact .inr
        simp only [hmem]
        cases ht : M.extTriplet look g with
        | none => exact ih'
        | some t =>
          simp only
          rw [List.filter_cons_of_neg (by rw [hrow g t ht]; simpa using hg)]
          exact ih'
  rw [key _ List.nodup_range, if_pos (List.mem_range.2 hf)]

/-- the row of a cut facet: the cells' entries and the exterior entry. -/
theorem CutMesh.rowOf_boundary (M : CutMesh) (look : ℤ → ℤ) (E : List Triplet) (inc : Bool) (f : ℕ)
    (hf : f < M.nFacets) (hE : ∀ t ∈ E, (M.nFacets : ℤ) ≤ t.1) :
    rowOf (M.boundary look E inc) f =
      (if inc || !M.isDomain f then (M.sides f).map fun cs => ((f : ℤ), cs.1, signVal cs.2) else []) ++
        (M.extTriplet look f).toList := by
  unfold CutMesh.boundary
  rw [rowOf_append, rowOf_append, M.rowOf_cells, M.rowOf_ext look f hf]
  have : rowOf E f = [] := by
    unfold rowOf
    rw [List.filter_eq_nil_iff]
    intro t ht
    have := hE t ht
    simp only [decide_eq_true_eq]
    omega
  rw [this, List.nil_append]

/-- **C66.** Rows of the boundary operator of a well-formed mesh: a facet with two sides has exactly one `-1` and one
`+1`; a facet of the domain boundary has no entry, or exactly one (`±1`) if the domain boundary is included. -/
theorem C66_rows (M : CutMesh) (look : ℤ → ℤ) (E : List Triplet) (inc : Bool) (f : ℕ) (hf : f < M.nFacets)
    (hE : ∀ t ∈ E, (M.nFacets : ℤ) ≤ t.1) (hok : M.FacetOk f) :
    (M.isDomain f = false →
      ∃ c₁ c₂, (rowOf (M.boundary look E inc) f).Perm [((f : ℤ), c₁, -1), ((f : ℤ), c₂, 1)]) ∧
    (M.isDomain f = true → inc = false → rowOf (M.boundary look E inc) f = []) ∧
    (M.isDomain f = true → inc = true →
      ∃ c s, rowOf (M.boundary look E inc) f = [((f : ℤ), c, signVal s)]) := by
  rw [M.rowOf_boundary look E inc f hf hE]
  cases hok with
  | inner c₁ c₂ h he =>
    have hd : M.isDomain f = false := by unfold CutMesh.isDomain; rw [he]
    have hx : M.extTriplet look f = none := by unfold CutMesh.extTriplet; rw [he]
    rw [hd, hx]
    refine ⟨fun _ => ⟨c₁, c₂, ?_⟩, nofun, nofun⟩
    simp only [Bool.not_false, Bool.or_true, if_true, Option.toList_none, List.append_nil]
    exact h.map fun cs : ℤ × Bool => ((f : ℤ), cs.1, signVal cs.2)
  | outer c g s h hg he =>
    have hd : M.isDomain f = false := by
      unfold CutMesh.isDomain; rw [he]; simp; omega
    have hx : M.extTriplet look f = some ((f : ℤ), look g, signVal !s) := by
      unfold CutMesh.extTriplet; rw [he]; simp [hg]
    rw [hd, hx, h]
    refine ⟨fun _ => ?_, nofun, nofun⟩
    rw [Bool.not_false, Bool.or_true, if_pos rfl]
    cases s
    · exact ⟨look g, c, List.Perm.swap _ _ _⟩
    · exact ⟨c, look g, List.Perm.refl _⟩
  | domain c s s' h he =>
    have hd : M.isDomain f = true := by unfold CutMesh.isDomain; rw [he]; rfl
    have hx : M.extTriplet look f = none := by unfold CutMesh.extTriplet; rw [he]; simp
    rw [hd, hx, h]
    refine ⟨nofun, fun _ hi => by rw [hi]; rfl, fun _ hi => ⟨c, s, by rw [hi]; rfl⟩⟩

/-- **C66.** The columns of those entries are the cells on the two sides: a cut cell's own index, or the column of the
exterior cell recorded for the facet; the sign is `-1` for the cell that sees the facet with `true`. -/
theorem C66_row_entries (M : CutMesh) (look : ℤ → ℤ) (E : List Triplet) (inc : Bool) (f : ℕ) (hf : f < M.nFacets)
    (hE : ∀ t ∈ E, (M.nFacets : ℤ) ≤ t.1) :
    (∀ c₁ c₂, (M.sides f).Perm [(c₁, true), (c₂, false)] → M.ext f = none →
      (rowOf (M.boundary look E inc) f).Perm [((f : ℤ), c₁, -1), ((f : ℤ), c₂, 1)]) ∧
    (∀ c g, M.sides f = [(c, true)] → 0 ≤ g → M.ext f = some (g, false) →
      rowOf (M.boundary look E inc) f = [((f : ℤ), c, -1), ((f : ℤ), look g, 1)]) ∧
    (∀ c g, M.sides f = [(c, false)] → 0 ≤ g → M.ext f = some (g, true) →
      rowOf (M.boundary look E inc) f = [((f : ℤ), c, 1), ((f : ℤ), look g, -1)]) ∧
    (∀ c s s', M.sides f = [(c, s)] → M.ext f = some (-2, s') → inc = true →
      rowOf (M.boundary look E inc) f = [((f : ℤ), c, if s then -1 else 1)]) := by
  rw [M.rowOf_boundary look E inc f hf hE]
  refine ⟨fun c₁ c₂ h he => ?_, fun c g h hg he => ?_, fun c g h hg he => ?_, fun c s s' h he hi => ?_⟩
  · have hd : M.isDomain f = false := by unfold CutMesh.isDomain; rw [he]
    have hx : M.extTriplet look f = none := by unfold CutMesh.extTriplet; rw [he]
    rw [hd, hx]
    simp only [Bool.not_false, Bool.or_true, if_true, Option.toList_none, List.append_nil]
    exact h.map fun cs : ℤ × Bool => ((f : ℤ), cs.1, signVal cs.2)
  · have hd : M.isDomain f = false := by unfold CutMesh.isDomain; rw [he]; simp; omega
    have hx : M.extTriplet look f = some ((f : ℤ), look g, 1) := by
      unfold CutMesh.extTriplet; rw [he]; simp [hg, signVal]
    rw [hd, hx, h]; simp [signVal]
  · have hd : M.isDomain f = false := by unfold CutMesh.isDomain; rw [he]; simp; omega
    have hx : M.extTriplet look f = some ((f : ℤ), look g, -1) := by
      unfold CutMesh.extTriplet; rw [he]; simp [hg, signVal]
    rw [hd, hx, h]; simp [signVal]
  · have hx : M.extTriplet look f = none := by unfold CutMesh.extTriplet; rw [he]; simp
    rw [hx, h, hi]; simp [signVal]

theorem matVec_perm {t t' : List Triplet} (r : ℤ) (v : ℤ → ℚ) (h : (rowOf t r).Perm (rowOf t' r)) :
    matVec t v r = matVec t' v r := (h.map _).sum_eq

/-- **C66.** Without the domain boundary the operator annihilates constants on the cut facets. -/
theorem C66_kills_constants (M : CutMesh) (look : ℤ → ℤ) (E : List Triplet) (f : ℕ) (hf : f < M.nFacets)
    (hE : ∀ t ∈ E, (M.nFacets : ℤ) ≤ t.1) (hok : M.FacetOk f) (k : ℚ) :
    matVec (M.boundary look E false) (fun _ => k) f = 0 := by
  obtain ⟨h1, h2, _⟩ := C66_rows M look E false f hf hE hok
  unfold matVec
  by_cases hd : M.isDomain f = true
  · rw [h2 hd rfl]; rfl
  · obtain ⟨c₁, c₂, hp⟩ := h1 (by simpa using hd)
    rw [(hp.map _).sum_eq]
    simp

theorem rowOf_shift (rows cols : ℤ) (t : List Triplet) (r : ℤ) :
    rowOf (shiftTriplets rows cols t) (rows + r) = shiftTriplets rows cols (rowOf t r) := by
  unfold shiftTriplets rowOf
  rw [List.filter_map]
  congr 1
  refine List.filter_congr fun x _ => ?_
  simp

/-- rows of the exterior part are untouched by the cut facets. -/
theorem CutMesh.rowOf_exterior (M : CutMesh) (look : ℤ → ℤ) (E : List Triplet) (inc : Bool) (r : ℤ)
    (hr : (M.nFacets : ℤ) ≤ r) (hM : ∀ c ∈ M.cells, ∀ fs ∈ c.2, fs.1 < M.nFacets) :
    rowOf (M.boundary look E inc) r = rowOf E r := by
  unfold CutMesh.boundary
  rw [rowOf_append, rowOf_append]
  have h1 : rowOf (M.cells.flatMap (M.cellTriplets inc)) r = [] := by
    unfold rowOf
    rw [List.filter_eq_nil_iff]
    intro t ht
    obtain ⟨c, hc, ht⟩ := List.mem_flatMap.1 ht
    obtain ⟨fs, hfs, ht⟩ := List.mem_filterMap.1 ht
    have := hM c hc fs hfs
    split at ht
    · cases ht; simp only [decide_eq_true_eq]; omega
    · cases ht
  have h2 : rowOf ((List.range M.nFacets).filterMap (M.extTriplet look)) r = [] := by
    unfold rowOf
    rw [List.filter_eq_nil_iff]
    intro t ht
    obtain ⟨g, hg, ht⟩ := List.mem_filterMap.1 ht
    rw [List.mem_range] at hg
    unfold CutMesh.extTriplet at ht
    split at ht
    · split at ht
      · cases ht; simp only [decide_eq_true_eq]; omega
      · cases ht
    · cases ht
  rw [h1, h2, List.append_nil, List.append_nil]

/-- **C66 (2D).** The whole 2D operator without the domain boundary annihilates constants: cut edges by the
two-sidedness of the mesh, exterior facets by construction of the exterior grid. -/
theorem C66_boundary2_kills_constants {D : ℕ} (M : CutMesh) (O : GridOrder D) (shape : Coord D)
    (outside : Coord D → Bool) (hs : ∀ i, 1 ≤ shape i) (look : ℤ → ℤ) (nCells : ℤ)
    (hok : ∀ f < M.nFacets, M.FacetOk f) (hM : ∀ c ∈ M.cells, ∀ fs ∈ c.2, fs.1 < M.nFacets) (k : ℚ) (r : ℕ) :
    matVec (M.boundary look (shiftTriplets M.nFacets nCells
      (boundaryTriplets (ExteriorGrid.make O shape outside).pairs false)) false) (fun _ => k) r = 0 := by
  by_cases hr : r < M.nFacets
  · refine C66_kills_constants M look _ r hr ?_ (hok r hr) k
    intro t ht
    obtain ⟨x, hx, rfl⟩ := List.mem_map.1 ht
    obtain ⟨pi, hpi, hx⟩ := List.mem_flatMap.1 hx
    rw [facetTriplets_row _ _ _ x hx]
    dsimp only; omega
  · unfold matVec
    rw [M.rowOf_exterior look _ false r (by omega) hM]
    have hr2 : (r : ℤ) = (M.nFacets : ℤ) + ((r - M.nFacets : ℕ) : ℤ) := by omega
    rw [hr2, rowOf_shift]
    unfold shiftTriplets
    rw [List.map_map]
    have := C23_exterior_kills_constants O shape outside hs k (r - M.nFacets)
    unfold matVec at this
    exact this

/-- **C66 (2D).** The rows after the cut edges are those of the exterior facets, in order; the columns are those of the
exterior cells, which come after the `nCells` cut faces. -/
theorem C66_boundary2_exterior_rows {D : ℕ} (M : CutMesh) (O : GridOrder D) (shape : Coord D)
    (outside : Coord D → Bool) (hs : ∀ i, 1 ≤ shape i) (look : ℤ → ℤ) (nCells : ℤ)
    (hM : ∀ c ∈ M.cells, ∀ fs ∈ c.2, fs.1 < M.nFacets) (k : ℕ) (p : ℤ × ℤ)
    (hp : (ExteriorGrid.make O shape outside).pairs[k]? = some p) :
    rowOf (M.boundary look (shiftTriplets M.nFacets nCells
      (boundaryTriplets (ExteriorGrid.make O shape outside).pairs true)) true) ((M.nFacets : ℤ) + k) =
      (if p.1 = -2 then [((M.nFacets : ℤ) + k, nCells + p.2, (1 : ℚ))]
        else if p.2 = -2 then [((M.nFacets : ℤ) + k, nCells + p.1, (-1 : ℚ))]
        else [((M.nFacets : ℤ) + k, nCells + p.1, (-1 : ℚ)), ((M.nFacets : ℤ) + k, nCells + p.2, (1 : ℚ))]) ∧
    rowOf (M.boundary look (shiftTriplets M.nFacets nCells
      (boundaryTriplets (ExteriorGrid.make O shape outside).pairs false)) false) ((M.nFacets : ℤ) + k) =
      (if p.1 = -2 ∨ p.2 = -2 then []
        else [((M.nFacets : ℤ) + k, nCells + p.1, (-1 : ℚ)), ((M.nFacets : ℤ) + k, nCells + p.2, (1 : ℚ))]) := by
  constructor
  · rw [M.rowOf_exterior look _ true _ (by omega) hM, rowOf_shift,
      C23_rows_domain O shape outside hs k p hp]
    unfold shiftTriplets
    split_ifs <;> rfl
  · rw [M.rowOf_exterior look _ false _ (by omega) hM, rowOf_shift]
    rcases C23_rows_interior O shape outside hs k with h | ⟨a, b, h1, h2, h3, h4, h5, h6, h⟩
    · rw [h]
      by_cases hb : p.1 = -2 ∨ p.2 = -2
      · rw [if_pos hb]; rfl
      · exfalso
        have h' := h
        rw [_root_.Mandoline.rowOf_boundary, hp] at h'
        rcases exterior_pairs O shape outside hs p (List.mem_of_getElem? hp) with ⟨h1, _⟩ | ⟨_, _, h1⟩ | ⟨h1, h2, h3, h4, h5⟩
        · exact hb (Or.inl h1)
        · exact hb (Or.inr h1)
        · simp [facetTriplets, isBoundaryPair] at h'
          omega
    · rw [h]
      rw [hp, Option.some.injEq] at h1
      subst h1
      rw [if_neg (by rintro (h | h) <;> dsimp only at h <;> omega)]
      rfl

/-! ## the external signs -/

theorem setSigns_cell (l : List (ℕ × Bool)) (e : ℕ → Option (ℤ × Bool)) (f : ℕ) :
    (∀ s, (l.filter fun fs => decide (fs.1 = f)) = [(f, s)] →
      l.foldl (fun e fs => fun g => if g = fs.1 then (e g).map fun p => (p.1, !fs.2) else e g) e f =
        (e f).map fun p => (p.1, !s)) ∧
    ((l.filter fun fs => decide (fs.1 = f)) = [] →
      l.foldl (fun e fs => fun g => if g = fs.1 then (e g).map fun p => (p.1, !fs.2) else e g) e f = e f) := by
  induction l generalizing e with
  | nil => exact ⟨nofun, fun _ => rfl⟩
  | cons x l ih =>
    obtain ⟨g, b⟩ := x
    rw [List.foldl_cons]
    by_cases hg : g = f
    · subst hg
      rw [List.filter_cons_of_pos (by simp)]
      constructor
      · intro s h
        rw [List.cons.injEq] at h
        rw [(ih _).2 h.2]
        simp only [if_true]
        rw [(Prod.mk.inj h.1).2]
      · intro h; cases h
    · rw [List.filter_cons_of_neg (by simpa using hg)]
      constructor
      · intro s h
        rw [(ih _).1 s h, if_neg (fun h => hg h.symm)]
      · intro h
        rw [(ih _).2 h, if_neg (fun h => hg h.symm)]

/-- **C66.** If a facet with an exterior side lies on exactly one cut cell, the generator records for the exterior
the sign opposite to that of the cut cell. -/
theorem C66_external_sign (ext : ℕ → Option (ℤ × Bool)) (cells : List (List (ℕ × Bool))) (f : ℕ) (s : Bool)
    (h : (cells.flatMap fun c => (c.filter fun fs => decide (fs.1 = f)).map (·.2)) = [s]) :
    setExternalSigns ext cells f = (ext f).map fun p => (p.1, !s) := by
  have hnil : ∀ (cells : List (List (ℕ × Bool))) (e : ℕ → Option (ℤ × Bool)),
      (cells.flatMap fun c => (c.filter fun fs => decide (fs.1 = f)).map (·.2)) = [] →
      setExternalSigns e cells f = e f := by
    intro cells
    induction cells with
    | nil => intro e _; rfl
    | cons c l ih =>
      intro e h
      rw [List.flatMap_cons, List.append_eq_nil_iff, List.map_eq_nil_iff] at h
      unfold setExternalSigns at ih ⊢
      rw [List.foldl_cons, ih _ h.2, (setSigns_cell c e f).2 h.1]
  induction cells generalizing ext with
  | nil => cases h
  | cons c l ih =>
    rw [List.flatMap_cons, List.append_eq_singleton_iff] at h
    rcases h with ⟨h1, h2⟩ | ⟨h1, h2⟩
    · rw [List.map_eq_nil_iff] at h1
      have := ih (c.foldl (fun e fs => fun g => if g = fs.1 then (e g).map fun p => (p.1, !fs.2) else e g) ext) h2
      unfold setExternalSigns at this ⊢
      rw [List.foldl_cons, this, (setSigns_cell c ext f).2 h1]
    · obtain ⟨⟨g, b⟩, hx, hb⟩ := List.map_eq_singleton_iff.1 h1
      simp only at hb
      subst hb
      have hgf : g = f := by
        have : (g, b) ∈ c.filter fun fs => decide (fs.1 = f) := by rw [hx]; exact List.mem_singleton.2 rfl
        simpa using (List.mem_filter.1 this).2
      subst hgf
      have := hnil l (c.foldl (fun e fs => fun g => if g = fs.1 then (e g).map fun p => (p.1, !fs.2) else e g) ext) h2
      unfold setExternalSigns at this ⊢
      rw [List.foldl_cons, this, (setSigns_cell c ext g).1 b hx]

/-- a mesh with two cut cells sharing facet 0, one exterior neighbour behind facet 1, and facet 2 on the domain
boundary. -/
def demoMesh : CutMesh :=
  { nFacets := 3
    ext := fun f => if f = 1 then some (5, false) else if f = 2 then some (-2, false) else none
    cells := [(0, [(0, true), (1, true)]), (1, [(0, false), (2, true)])] }

example : (∀ f < demoMesh.nFacets, demoMesh.FacetOk f) ∧
    (demoMesh.boundary (fun c => c + 2) [] false) = [(0, 0, -1), (1, 0, -1), (0, 1, 1), (1, 7, 1)] := by
  refine ⟨?_, by decide +kernel⟩
  intro f hf
  have : f = 0 ∨ f = 1 ∨ f = 2 := by simp only [demoMesh] at hf; omega
  rcases this with rfl | rfl | rfl
  · exact .inner 0 1 (List.Perm.refl _) rfl
  · exact .outer 0 5 true rfl (by decide) rfl
  · exact .domain 1 true false rfl rfl

end Mandoline
