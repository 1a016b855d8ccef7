import Verif.Tools.PlCurve
import Verif.Exterior.Facets
import Mathlib.Tactic.Ring

/-!
# C124: the file written for a two-dimensional cut-cell mesh

`write_cutmesh2_plcurve` (src/tools/plcurve_io.cpp:143-234) and `CutCellMesh<2>::cell(int)` (src/mesh2.cpp:154-172).
-/
namespace Mandoline.MeshWriter2
open PlCurve

/-- what the writer reads of a cut edge (cutedge.hpp:33-72): its ends and, for an edge of an input curve, the number of the input edge (`as_edge_id`) and the
parameters `ts` of its ends on it (`mesh_cut_edges().at(idx).ts`; that every mesh edge has such an entry is assumed). -/
structure CutEdge where
  a : ℤ
  b : ℤ
  mesh : Option (ℕ × ℚ × ℚ)

/-- the mesh as the writer sees it: vertices, cut edges, cut faces (loops and region), exterior grid with the regions of its cells, and the vertex numbers of the grid
(`eg.Base::vertex_index`). -/
structure Mesh where
  V : List (ℚ × ℚ)
  edges : List CutEdge
  faces : List (List (List ℤ) × ℤ)
  ext : ExteriorGrid 2
  extRegions : List ℤ
  vidx : Coord 2 → ℤ

/-- `use_boundary_conditions` (plcurve_io.cpp:154): the input edges carry a label that is not negative. -/
def useLabels (E : List Edge4) : Bool := E.any fun e => decide (e.2.2.1 ≥ 0) || decide (e.2.2.2 ≥ 0)

/-- one line for a cut edge, without its number (plcurve_io.cpp:159-174). An input edge out of range (undefined) is read as unlabelled. -/
def cutRow (E : List Edge4) (e : CutEdge) : List ℤ :=
  match e.mesh with
  | some (p, t0, t1) =>
    if useLabels E then
      let pe := E.getD p (-1, -1, -1, -1)
      if t0 > t1 then [e.a, e.b, pe.2.2.2, pe.2.2.1] else [e.a, e.b, pe.2.2.1, pe.2.2.2]
    else [e.a, e.b, -1, -1]
  | none => [e.a, e.b, -1, -1]

/-- the corner from which a facet is drawn (plcurve_io.cpp:183-193); `none` when neither side is a cell (an uninitialised corner in the program). -/
def facetCorner (X : ExteriorGrid 2) (f : Facet 2) : Option (Coord 2) :=
  if f.1.2 ≥ 0 then X.cellCoords[f.1.2.toNat]?
  else if f.1.1 ≥ 0 then (X.cellCoords[f.1.1.toNat]?).map fun c => Function.update c f.2 (c f.2 + 1)
  else none

/-- the two vertex numbers of a facet (plcurve_io.cpp:194-196). -/
def facetEnds (X : ExteriorGrid 2) (vidx : Coord 2 → ℤ) (f : Facet 2) : Option (ℤ × ℤ) :=
  (facetCorner X f).map fun c => (vidx c, vidx (Function.update c (1 - f.2) (c (1 - f.2) + 1)))

/-- one line for a facet of the exterior grid, without its number (plcurve_io.cpp:198-204). -/
def facetRow (labels : Bool) (p : ℤ × ℤ) : List ℤ := if labels then [p.1, p.2, -1, -1] else [p.1, p.2]

/-- the lines of the edge section without their numbers, which count from 0 (plcurve_io.cpp:159-206). -/
def edgeRows (M : Mesh) (E : List Edge4) : List (List ℤ) :=
  M.edges.map (cutRow E) ++ (M.ext.facets.filterMap (facetEnds M.ext M.vidx)).map (facetRow (useLabels E))

/-- the corners of an exterior cell (plcurve_io.cpp:223-230, mesh2.cpp:161-165). -/
def extLoop (vidx : Coord 2 → ℤ) (c : Coord 2) : List ℤ :=
  let c1 := Function.update c 1 (c 1 + 1)
  let c2 := Function.update c1 0 (c1 0 + 1)
  let c3 := Function.update c2 1 (c2 1 - 1)
  [vidx c, vidx c1, vidx c2, vidx c3]

/-- the lines of the element section (plcurve_io.cpp:210-232): number, number of vertices, vertices, region. -/
def elementRows (M : Mesh) : List (List ℤ) :=
  (M.faces.zipIdx.flatMap fun p => p.1.1.map fun L => (p.2 : ℤ) :: (L.length : ℤ) :: (L ++ [p.1.2])) ++
  M.ext.cellCoords.zipIdx.map fun p =>
    ((M.faces.length + p.2 : ℕ) : ℤ) :: 4 :: (extLoop M.vidx p.1 ++ [M.extRegions.getD p.2 0])

/-- the file (plcurve_io.cpp:143-234), as lines of tokens like in C54. -/
def writeMesh {Tok : Type} (C : Codec Tok) (pElements : Tok) (M : Mesh) (E : List Edge4) : List (List Tok) :=
  [C.pVertices] :: M.V.zipIdx.map (vertexLine C) ++
    ([] :: [C.pEdges] :: (edgeRows M E).zipIdx.map (edgeLine C) ++ ([] :: [pElements] :: (elementRows M).map fun r => r.map C.pInt))

/-- `CutCellMesh<2>::cell(int)` (mesh2.cpp:154-172): the loops of a cell. -/
def cell (M : Mesh) (k : ℕ) : List (List ℤ) :=
  if k < M.faces.length then (M.faces.getD k ([], 0)).1
  else if k - M.faces.length < M.ext.numCells then [extLoop M.vidx (M.ext.cellCoords.getD (k - M.faces.length) 0)]
  else []

/-- `CutCellMesh<2>::regions` (mesh2.cpp:60-70), one entry. -/
def region (M : Mesh) (k : ℕ) : ℤ :=
  if k < M.faces.length then (M.faces.getD k ([], 0)).2 else M.extRegions.getD (k - M.faces.length) 0

/-! ## specification -/

/-- the label of the side of the directed segment `p → q` on which `x` lies: `(left, right)` are the labels of the two sides. -/
def sideLabel (p q : ℚ × ℚ) (labels : ℤ × ℤ) (x : ℚ × ℚ) : ℤ :=
  if 0 < (q.1 - p.1) * (x.2 - p.2) - (q.2 - p.2) * (x.1 - p.1) then labels.1 else labels.2

/-- the point at parameter `t` of a segment. -/
def at' (p q : ℚ × ℚ) (t : ℚ) : ℚ × ℚ := (p.1 + t * (q.1 - p.1), p.2 + t * (q.2 - p.2))

/-- a cell that is exterior or outside the grid. -/
def Free (shape : Coord 2) (o : Coord 2 → Bool) (c : Coord 2) : Prop := ExteriorCell shape o c ∨ ¬ ∀ i, 0 ≤ c i ∧ c i < shape i

/-- the grid edge at the lower side of cell `w` on axis `i` touches an exterior cell and no cut cell. -/
def FreeEdge (shape : Coord 2) (o : Coord 2 → Bool) (w : Coord 2) (i : Fin 2) : Prop :=
  let lo := Function.update w i (w i - 1)
  (ExteriorCell shape o lo ∨ ExteriorCell shape o w) ∧ Free shape o lo ∧ Free shape o w

/-- twice the signed area of a quadrilateral of grid points. -/
def quadArea2 (p : Fin 4 → Coord 2) : ℤ :=
  (p 0 0 * p 1 1 - p 1 0 * p 0 1) + (p 1 0 * p 2 1 - p 2 0 * p 1 1) + (p 2 0 * p 3 1 - p 3 0 * p 2 1) + (p 3 0 * p 0 1 - p 0 0 * p 3 1)

/-! ## labels -/

/-- **C124, labels.** A cut edge running from parameter `t0` to `t1` of its input edge has on each side the label the input edge has there. -/
theorem C124_labels (E : List Edge4) (hE : ∃ x ∈ E, 0 ≤ x.2.2.1 ∨ 0 ≤ x.2.2.2) (e : CutEdge) (k : ℕ) (t0 t1 : ℚ) (he : e.mesh = some (k, t0, t1)) (hne : t0 ≠ t1)
    (pe : Edge4) (hk : E[k]? = some pe) (p q x : ℚ × ℚ)
    (hx : (q.1 - p.1) * (x.2 - p.2) - (q.2 - p.2) * (x.1 - p.1) ≠ 0) :
    ∃ l r, cutRow E e = [e.a, e.b, l, r] ∧
      sideLabel (at' p q t0) (at' p q t1) (l, r) x = sideLabel p q (pe.2.2.1, pe.2.2.2) x := by
  replace hE : useLabels E = true := by
    obtain ⟨x, hx1, hx2⟩ := hE
    exact List.any_eq_true.2 ⟨x, hx1, by simpa using hx2⟩
  have hg : E.getD k (-1, -1, -1, -1) = pe := by rw [List.getD_eq_getElem?_getD, hk]; rfl
  have hs : ((at' p q t1).1 - (at' p q t0).1) * (x.2 - (at' p q t0).2) - ((at' p q t1).2 - (at' p q t0).2) * (x.1 - (at' p q t0).1) =
      (t1 - t0) * ((q.1 - p.1) * (x.2 - p.2) - (q.2 - p.2) * (x.1 - p.1)) := by unfold at'; ring
  unfold cutRow sideLabel
  rw [he, hs]
  simp only [hE, if_true, hg]
  by_cases ht : t0 > t1
  · rw [if_pos ht]
    refine ⟨_, _, rfl, ?_⟩
    have h1 : t1 - t0 < 0 := by linarith
    by_cases hpos : 0 < (q.1 - p.1) * (x.2 - p.2) - (q.2 - p.2) * (x.1 - p.1)
    · rw [if_pos hpos, if_neg (by have := mul_neg_of_neg_of_pos h1 hpos; linarith)]
    · have hneg : (q.1 - p.1) * (x.2 - p.2) - (q.2 - p.2) * (x.1 - p.1) < 0 := lt_of_le_of_ne (not_lt.1 hpos) hx
      rw [if_neg hpos, if_pos (mul_pos_of_neg_of_neg h1 hneg)]
  · rw [if_neg ht]
    refine ⟨_, _, rfl, ?_⟩
    have h1 : 0 < t1 - t0 := by
      have := lt_of_le_of_ne (not_lt.1 ht) hne
      linarith
    by_cases hpos : 0 < (q.1 - p.1) * (x.2 - p.2) - (q.2 - p.2) * (x.1 - p.1)
    · rw [if_pos hpos, if_pos (mul_pos h1 hpos)]
    · have hneg : (q.1 - p.1) * (x.2 - p.2) - (q.2 - p.2) * (x.1 - p.1) < 0 := lt_of_le_of_ne (not_lt.1 hpos) hx
      rw [if_neg hpos, if_neg (by have := mul_neg_of_pos_of_neg h1 hneg; linarith)]

/-- **C124, no labels.** Edges not on the input, and all cut edges when the input has no labels, are written with the labels `-1 -1`. -/
theorem C124_no_labels (E : List Edge4) (e : CutEdge) (h : e.mesh = none ∨ ∀ x ∈ E, x.2.2.1 < 0 ∧ x.2.2.2 < 0) :
    cutRow E e = [e.a, e.b, -1, -1] := by
  unfold cutRow
  cases hm : e.mesh with
  | none => rfl
  | some m =>
    rcases h with h | h
    · rw [hm] at h; cases h
    · have hf : useLabels E = false := by
        unfold useLabels
        rw [List.any_eq_false]
        intro x hx
        have := h x hx
        simp; omega
      obtain ⟨p, t0, t1⟩ := m
      simp [hf]

/-! ## facets -/

section
variable (O : GridOrder 2) (shape : Coord 2) (o : Coord 2 → Bool) (hs : ∀ i, 2 ≤ shape i) (I : GridIndexer fun i => shape i + 1)

theorem coord_of_index (c : Coord 2) (h : ExteriorCell shape o c) :
    0 ≤ (ExteriorGrid.make O shape o).cellIndex c ∧
      (ExteriorGrid.make O shape o).cellCoords[((ExteriorGrid.make O shape o).cellIndex c).toNat]? = some c := by
  obtain ⟨k, _, hk⟩ := (C21_bijection O shape o).1 c h
  rw [hk]
  exact ⟨Int.natCast_nonneg k, ((C21_bijection O shape o).2.2 k c).2 ⟨h, hk⟩⟩

theorem facetCorner_low (c : Coord 2) (n : ℤ) (i : Fin 2) (h : ExteriorCell shape o c) :
    facetCorner (ExteriorGrid.make O shape o) ((n, (ExteriorGrid.make O shape o).cellIndex c), i) = some c := by
  obtain ⟨h0, h1⟩ := coord_of_index O shape o c h
  unfold facetCorner
  simp only
  rw [if_pos h0, h1]

theorem facetCorner_high (c : Coord 2) (i : Fin 2) (h : ExteriorCell shape o c) :
    facetCorner (ExteriorGrid.make O shape o) (((ExteriorGrid.make O shape o).cellIndex c, -2), i) = some (above c i) := by
  obtain ⟨h0, h1⟩ := coord_of_index O shape o c h
  unfold facetCorner
  simp only
  rw [if_neg (by norm_num), if_pos h0, h1]
  rfl

theorem low_valid (w : Coord 2) (i : Fin 2) (hw : ∀ j, 0 ≤ w j ∧ w j < shape j) :
    (∀ j, 0 ≤ Function.update w i (w i - 1) j ∧ Function.update w i (w i - 1) j < shape j) ↔ w i ≠ 0 := by
  constructor
  · intro h h0
    have := (h i).1
    simp at this; omega
  · intro h0 j
    by_cases hj : j = i
    · subst hj
      have := hw j
      simp; omega
    · simpa [hj] using hw j

theorem update_above (c : Coord 2) (i : Fin 2) : Function.update (above c i) i (above c i i - 1) = c := by
  unfold above
  funext j
  by_cases hj : j = i
  · subst hj; simp
  · simp [hj]

theorem above_update (w : Coord 2) (i : Fin 2) : above (Function.update w i (w i - 1)) i = w := by
  unfold above
  funext j
  by_cases hj : j = i
  · subst hj; simp
  · simp [hj]

include hs in
/-- the corner and axis of the facets are exactly the free grid edges. -/
theorem corners_iff (w : Coord 2) (i : Fin 2) :
    (∃ f ∈ (ExteriorGrid.make O shape o).facets, f.2 = i ∧ facetCorner (ExteriorGrid.make O shape o) f = some w) ↔ FreeEdge shape o w i := by
  constructor
  · rintro ⟨f, hf, rfl, hc⟩
    rw [C22_facets_exact O shape o hs] at hf
    cases hf with
    | low c i h h0 =>
      rw [facetCorner_low O shape o c _ i h] at hc
      obtain rfl := Option.some.inj hc
      refine ⟨.inr h, .inr fun hv => ?_, .inl h⟩
      exact (low_valid shape c i h.1).1 hv h0
    | mid c i h h' =>
      rw [facetCorner_low O shape o _ _ i h'] at hc
      obtain rfl := Option.some.inj hc
      show FreeEdge shape o (above c i) i
      unfold FreeEdge
      rw [update_above]
      exact ⟨.inl h, .inl h, .inl h'⟩
    | high c i h h1 =>
      rw [facetCorner_high O shape o c i h] at hc
      obtain rfl := Option.some.inj hc
      show FreeEdge shape o (above c i) i
      unfold FreeEdge
      rw [update_above]
      refine ⟨.inl h, .inl h, .inr fun hv => ?_⟩
      have := (hv i).2
      unfold above at this
      simp at this; omega
  · rintro ⟨h, hlo, hw⟩
    by_cases hwe : ExteriorCell shape o w
    · rcases hlo with hlo | hlo
      · refine ⟨_, (C22_facets_exact O shape o hs _).2 (.mid _ i hlo (by rw [above_update]; exact hwe)), rfl, ?_⟩
        rw [above_update]
        exact facetCorner_low O shape o w _ i hwe
      · have h0 : w i = 0 := by
          by_contra hne
          exact hlo ((low_valid shape w i hwe.1).2 hne)
        exact ⟨_, (C22_facets_exact O shape o hs _).2 (.low w i hwe h0), rfl, facetCorner_low O shape o w _ i hwe⟩
    · have hl : ExteriorCell shape o (Function.update w i (w i - 1)) := h.resolve_right hwe
      have hnv := hw.resolve_left hwe
      have h1 : (Function.update w i (w i - 1)) i = shape i - 1 := by
        by_contra hne
        apply hnv
        intro j
        by_cases hj : j = i
        · subst hj
          have := hl.1 j
          simp at this hne; omega
        · have := hl.1 j
          simpa [hj] using this
      refine ⟨_, (C22_facets_exact O shape o hs _).2 (.high _ i hl h1), rfl, ?_⟩
      rw [facetCorner_high O shape o _ i hl, above_update]

include hs in
/-- **C124, facets.** The lines written for the exterior grid join exactly the two ends of the grid edges that touch an exterior cell and no cut cell. -/
theorem C124_facet_edges (x y : ℤ) :
    (x, y) ∈ (ExteriorGrid.make O shape o).facets.filterMap (facetEnds (ExteriorGrid.make O shape o) I.idx) ↔
      ∃ w i, FreeEdge shape o w i ∧ x = I.idx w ∧ y = I.idx (above w (1 - i)) := by
  rw [List.mem_filterMap]
  constructor
  · rintro ⟨f, hf, h⟩
    unfold facetEnds at h
    obtain ⟨w, hw, h⟩ := Option.map_eq_some_iff.1 h
    obtain ⟨h1, h2⟩ := Prod.mk.inj h
    exact ⟨w, f.2, (corners_iff O shape o hs w f.2).1 ⟨f, hf, rfl, hw⟩, h1.symm, h2.symm⟩
  · rintro ⟨w, i, hf, rfl, rfl⟩
    obtain ⟨f, hm, rfl, hc⟩ := (corners_iff O shape o hs w i).2 hf
    refine ⟨f, hm, ?_⟩
    unfold facetEnds
    rw [hc]
    rfl

/-- a free edge lies in the vertex grid. -/
theorem freeEdge_valid (w : Coord 2) (i : Fin 2) (h : FreeEdge shape o w i) :
    (∀ j, 0 ≤ w j ∧ w j < shape j + 1) ∧ (∀ j, 0 ≤ above w (1 - i) j ∧ above w (1 - i) j < shape j + 1) := by
  have hne : (1 - i : Fin 2) ≠ i := (by decide : ∀ i : Fin 2, (1 - i : Fin 2) ≠ i) i
  have key : (0 ≤ w i ∧ w i < shape i + 1) ∧ ∀ j, j ≠ i → 0 ≤ w j ∧ w j < shape j := by
    rcases h.1 with h | h
    · refine ⟨?_, fun j hj => ?_⟩
      · have := h.1 i
        simp at this; omega
      · have := h.1 j
        simpa [hj] using this
    · refine ⟨?_, fun j _ => h.1 j⟩
      have := h.1 i; omega
  constructor
  · intro j
    by_cases hj : j = i
    · subst hj; exact key.1
    · have := key.2 j hj; omega
  · intro j
    unfold above
    by_cases hj : j = 1 - i
    · subst hj
      have := key.2 _ hne
      simp; omega
    · by_cases hji : j = i
      · subst hji
        simpa [hj] using key.1
      · have := key.2 j hji
        simp [hj]; omega

include hs in
/-- **C124, facets.** Each of these edges is written once, and no facet is left out. -/
theorem C124_facet_once :
    ((ExteriorGrid.make O shape o).facets.filterMap (facetEnds (ExteriorGrid.make O shape o) I.idx)).Nodup ∧
    ((ExteriorGrid.make O shape o).facets.filterMap (facetEnds (ExteriorGrid.make O shape o) I.idx)).length =
      (ExteriorGrid.make O shape o).facets.length := by
  have hall : ∀ f ∈ (ExteriorGrid.make O shape o).facets, ∃ w, facetCorner (ExteriorGrid.make O shape o) f = some w := by
    intro f hf
    rw [C22_facets_exact O shape o hs] at hf
    cases hf with
    | low c i h h0 => exact ⟨_, facetCorner_low O shape o c _ i h⟩
    | mid c i h h' => exact ⟨_, facetCorner_low O shape o _ _ i h'⟩
    | high c i h h1 => exact ⟨_, facetCorner_high O shape o c i h⟩
  -- corner and axis determine the facet
  have hdet : ∀ f ∈ (ExteriorGrid.make O shape o).facets, ∀ f' ∈ (ExteriorGrid.make O shape o).facets, f.2 = f'.2 →
      facetCorner (ExteriorGrid.make O shape o) f = facetCorner (ExteriorGrid.make O shape o) f' → f = f' := by
    intro f hf f' hf' h2 hc
    rw [C22_facets_exact O shape o hs] at hf hf'
    have hup : ∀ c c' : Coord 2, ∀ i, above c i = above c' i → c = c' := by
      intro c c' i h
      rw [← update_above c i, ← update_above c' i, h]
    cases hf with
    | low c i h h0 =>
      rw [facetCorner_low O shape o c _ i h] at hc
      cases hf' with
      | low c' i' h' h0' =>
        rw [facetCorner_low O shape o c' _ i' h'] at hc
        obtain rfl := Option.some.inj hc
        simp only at h2; subst h2; rfl
      | mid c' i' h' h'' =>
        rw [facetCorner_low O shape o _ _ i' h''] at hc
        obtain rfl := Option.some.inj hc
        simp only at h2; subst h2
        have := (h'.1 i).1
        unfold above at h0
        simp at h0; omega
      | high c' i' h' h1' =>
        rw [facetCorner_high O shape o c' i' h'] at hc
        obtain rfl := Option.some.inj hc
        simp only at h2; subst h2
        have := (h'.1 i).1
        unfold above at h0
        simp at h0; omega
    | mid c i h hh =>
      rw [facetCorner_low O shape o _ _ i hh] at hc
      cases hf' with
      | low c' i' h' h0' =>
        rw [facetCorner_low O shape o c' _ i' h'] at hc
        simp only at h2; subst h2
        obtain rfl := Option.some.inj hc
        have := (h.1 i).1
        unfold above at h0'
        simp at h0'; omega
      | mid c' i' h' h'' =>
        rw [facetCorner_low O shape o _ _ i' h''] at hc
        simp only at h2; subst h2
        obtain rfl := hup _ _ _ (Option.some.inj hc)
        rfl
      | high c' i' h' h1' =>
        rw [facetCorner_high O shape o c' i' h'] at hc
        simp only at h2; subst h2
        obtain rfl := hup _ _ _ (Option.some.inj hc)
        have := (hh.1 i).2
        unfold above at this
        simp at this; omega
    | high c i h h1 =>
      rw [facetCorner_high O shape o c i h] at hc
      cases hf' with
      | low c' i' h' h0' =>
        rw [facetCorner_low O shape o c' _ i' h'] at hc
        simp only at h2; subst h2
        obtain rfl := Option.some.inj hc
        have := (h.1 i).1
        unfold above at h0'
        simp at h0'; omega
      | mid c' i' h' h'' =>
        rw [facetCorner_low O shape o _ _ i' h''] at hc
        simp only at h2; subst h2
        obtain rfl := hup _ _ _ (Option.some.inj hc)
        have := (h''.1 i).2
        unfold above at this
        simp at this; omega
      | high c' i' h' h1' =>
        rw [facetCorner_high O shape o c' i' h'] at hc
        simp only at h2; subst h2
        obtain rfl := hup _ _ _ (Option.some.inj hc)
        rfl
  constructor
  · refine nodup_filterMap_on ?_ (nodup_facets O shape o fun i => le_trans (by norm_num) (hs i))
    intro f hf f' hf' b hb hb'
    unfold facetEnds at hb hb'
    obtain ⟨w, hw, rfl⟩ := Option.map_eq_some_iff.1 hb
    obtain ⟨w', hw', hbb⟩ := Option.map_eq_some_iff.1 hb'
    obtain ⟨h1, h2⟩ := Prod.mk.inj hbb
    have hv := freeEdge_valid shape o w f.2 ((corners_iff O shape o hs w f.2).1 ⟨f, hf, rfl, hw⟩)
    have hv' := freeEdge_valid shape o w' f'.2 ((corners_iff O shape o hs w' f'.2).1 ⟨f', hf', rfl, hw'⟩)
    have e1 : w' = w := I.inj _ _ ((validIndex_iff _ _).2 hv'.1) ((validIndex_iff _ _).2 hv.1) h1
    subst e1
    have e2 : above w' (1 - f'.2) = above w' (1 - f.2) :=
      I.inj _ _ ((validIndex_iff _ _).2 hv'.2) ((validIndex_iff _ _).2 hv.2) h2
    have e3 : f.2 = f'.2 := by
      by_contra hne
      have hx : (1 - f'.2 : Fin 2) ≠ 1 - f.2 := (by decide : ∀ i j : Fin 2, i ≠ j → (1 - j : Fin 2) ≠ 1 - i) _ _ hne
      have := congrFun e2 (1 - f'.2)
      unfold above at this
      rw [Function.update_self, Function.update_of_ne hx] at this
      omega
    exact hdet f hf f' hf' e3 (hw.trans hw'.symm)
  · rw [List.length_filterMap_eq_countP, List.countP_eq_length]
    intro f hf
    obtain ⟨w, hw⟩ := hall f hf
    unfold facetEnds
    rw [hw]
    rfl

include hs in
/-- **C124, sides.** Each side of the loop written for an exterior cell is (in one direction) a line of the edge section among the facets of the exterior grid
exactly if the cell on the other side is exterior or there is none. -/
theorem C124_sides (c : Coord 2) (hc : ExteriorCell shape o c) (i : Fin 2) (up : Bool) :
    let w := if up then above c i else c
    (I.idx w, I.idx (above w (1 - i))) ∈ (ExteriorGrid.make O shape o).facets.filterMap (facetEnds (ExteriorGrid.make O shape o) I.idx) ↔
      Free shape o (Function.update c i (if up then c i + 1 else c i - 1)) := by
  intro w
  rw [C124_facet_edges O shape o hs]
  have hwv : (∀ j, 0 ≤ w j ∧ w j < shape j + 1) ∧ (∀ j, 0 ≤ above w (1 - i) j ∧ above w (1 - i) j < shape j + 1) := by
    have h := hc.1
    constructor <;> intro j <;> have hj := h j <;> show _ ∧ _ <;> simp only [w] <;> cases up <;> simp only [above] <;>
      simp only [Bool.false_eq_true, if_true, if_false, Function.update_apply] <;> (try split_ifs) <;> (try subst_vars) <;> (try omega)
  have hiff : FreeEdge shape o w i ↔ Free shape o (Function.update c i (if up then c i + 1 else c i - 1)) := by
    cases up with
    | true =>
      show FreeEdge shape o (above c i) i ↔ Free shape o (above c i)
      unfold FreeEdge
      rw [update_above]
      exact ⟨fun h => h.2.2, fun h => ⟨.inl hc, .inl hc, h⟩⟩
    | false =>
      show FreeEdge shape o c i ↔ Free shape o (Function.update c i (c i - 1))
      unfold FreeEdge
      exact ⟨fun h => h.2.1, fun h => ⟨.inr hc, h, .inl hc⟩⟩
  rw [← hiff]
  constructor
  · rintro ⟨w', i', hf, h1, h2⟩
    have hv := freeEdge_valid shape o w' i' hf
    have e1 : w = w' := I.inj _ _ ((validIndex_iff _ _).2 hwv.1) ((validIndex_iff _ _).2 hv.1) h1
    rw [← e1] at h2 hv hf
    have e2 : above w (1 - i) = above w (1 - i') := I.inj _ _ ((validIndex_iff _ _).2 hwv.2) ((validIndex_iff _ _).2 hv.2) h2
    have e3 : i = i' := by
      by_contra hne
      have hx : (1 - i : Fin 2) ≠ 1 - i' := (by decide : ∀ i j : Fin 2, i ≠ j → (1 - i : Fin 2) ≠ 1 - j) _ _ hne
      have := congrFun e2 (1 - i)
      unfold above at this
      rw [Function.update_self, Function.update_of_ne hx] at this
      omega
    subst e3
    exact hf
  · exact fun h => ⟨w, i, h, rfl, rfl⟩
end

/-! ## elements -/

/-- the loop of an exterior cell goes round its four corners … -/
theorem C124_exterior_loop (vidx : Coord 2 → ℤ) (c : Coord 2) :
    extLoop vidx c = [vidx ![c 0, c 1], vidx ![c 0, c 1 + 1], vidx ![c 0 + 1, c 1 + 1], vidx ![c 0 + 1, c 1]] := by
  have h : ∀ d e : Coord 2, d 0 = e 0 → d 1 = e 1 → d = e := fun d e h0 h1 => by
    funext i; match i with | 0 => exact h0 | 1 => exact h1
  unfold extLoop
  simp only [List.cons.injEq, and_true]
  refine ⟨congrArg vidx (h _ _ rfl rfl), congrArg vidx (h _ _ ?_ ?_), congrArg vidx (h _ _ ?_ ?_), congrArg vidx (h _ _ ?_ ?_)⟩ <;>
    simp

/-- **C124, orientation.** … clockwise: the signed area is minus one cell. -/
theorem C124_exterior_clockwise (c : Coord 2) :
    quadArea2 ![![c 0, c 1], ![c 0, c 1 + 1], ![c 0 + 1, c 1 + 1], ![c 0 + 1, c 1]] = -2 := by
  show (c 0 * (c 1 + 1) - c 0 * c 1) + (c 0 * (c 1 + 1) - (c 0 + 1) * (c 1 + 1)) + ((c 0 + 1) * c 1 - (c 0 + 1) * (c 1 + 1)) + ((c 0 + 1) * c 1 - c 0 * c 1) = -2
  ring

/-- **C124, elements.** The lines of the element section with number `k` are the loops of `cell(k)`, each with its length, followed by the region of the cell. -/
theorem C124_elements (M : Mesh) (k : ℕ) :
    (elementRows M).filter (fun r => decide (r.head? = some (k : ℤ))) =
      (cell M k).map fun L => (k : ℤ) :: (L.length : ℤ) :: (L ++ [region M k]) := by
  have hfaces : ∀ (F : List (List (List ℤ) × ℤ)) (n : ℕ),
      ((F.zipIdx n).flatMap fun p => p.1.1.map fun L => (p.2 : ℤ) :: (L.length : ℤ) :: (L ++ [p.1.2])).filter
        (fun r => decide (r.head? = some (k : ℤ))) =
      if n ≤ k ∧ k < n + F.length then (F.getD (k - n) ([], 0)).1.map fun L => (k : ℤ) :: (L.length : ℤ) :: (L ++ [(F.getD (k - n) ([], 0)).2]) else [] := by
    intro F
    induction F with
    | nil => intro n; simp
    | cons f F ih =>
      intro n
      rw [List.zipIdx_cons, List.flatMap_cons, List.filter_append, ih, List.filter_map]
      by_cases hk : n = k
      · subst hk
        rw [if_neg (by omega), if_pos (by simp)]
        simp [Function.comp_def]
      · have h1 : (f.1.filter ((fun r : List ℤ => decide (r.head? = some (k : ℤ))) ∘ fun L => ((f, n).2 : ℤ) :: (L.length : ℤ) :: (L ++ [(f, n).1.2]))) = [] := by
          rw [List.filter_eq_nil_iff]
          intro L _
          simp [hk]
        rw [h1, List.map_nil, List.nil_append]
        by_cases hlt : n + 1 ≤ k ∧ k < n + 1 + F.length
        · rw [if_pos hlt, if_pos (by simp; omega)]
          have : k - n = (k - (n + 1)) + 1 := by omega
          rw [this, List.getD_cons_succ]
        · rw [if_neg hlt, if_neg (by simp; omega)]
  have hcells : ∀ (X : List (Coord 2)) (n : ℕ),
      (((X.zipIdx n).map fun p => ((M.faces.length + p.2 : ℕ) : ℤ) :: 4 :: (extLoop M.vidx p.1 ++ [M.extRegions.getD p.2 0])).filter
        (fun r => decide (r.head? = some (k : ℤ)))) =
      if M.faces.length + n ≤ k ∧ k < M.faces.length + n + X.length then
        [(k : ℤ) :: 4 :: (extLoop M.vidx (X.getD (k - M.faces.length - n) 0) ++ [M.extRegions.getD (k - M.faces.length) 0])] else [] := by
    intro X
    induction X with
    | nil => intro n; simp
    | cons c X ih =>
      intro n
      rw [List.zipIdx_cons, List.map_cons, List.filter_cons, ih]
      by_cases hk : M.faces.length + n = k
      · rw [if_pos (by simp [← hk]), if_neg (by omega), if_pos (by simp; omega)]
        have h1 : k - M.faces.length - n = 0 := by omega
        have h2 : k - M.faces.length = n := by omega
        rw [h1, h2, ← hk]
        rfl
      · rw [if_neg (by simp; omega)]
        by_cases hlt : M.faces.length + (n + 1) ≤ k ∧ k < M.faces.length + (n + 1) + X.length
        · rw [if_pos hlt, if_pos (by simp; omega)]
          have : k - M.faces.length - n = (k - M.faces.length - (n + 1)) + 1 := by omega
          rw [this, List.getD_cons_succ]
        · rw [if_neg hlt, if_neg (by simp; omega)]
  unfold elementRows
  rw [List.filter_append, hfaces, hcells]
  unfold cell region ExteriorGrid.numCells
  simp only [Nat.sub_zero, Nat.zero_add, Nat.zero_le, true_and, Nat.add_zero]
  by_cases h1 : k < M.faces.length
  · rw [if_pos h1, if_pos h1, if_neg (by omega), if_pos h1, List.append_nil]
  · rw [if_neg h1, if_neg h1, if_neg h1, List.nil_append]
    by_cases h2 : k - M.faces.length < M.ext.cellCoords.length
    · rw [if_pos h2, if_pos (by omega)]
      simp [extLoop]
    · rw [if_neg h2, if_neg (by omega)]
      rfl

/-! ## reading the file back -/

theorem edgeRows_length (M : Mesh) (E : List Edge4) : ∀ e ∈ edgeRows M E, e.length = 2 ∨ e.length = 4 := by
  intro e he
  rcases List.mem_append.1 he with he | he
  · obtain ⟨x, _, rfl⟩ := List.mem_map.1 he
    right
    unfold cutRow
    split
    · split
      · dsimp only
        split <;> rfl
      · rfl
    · rfl
  · obtain ⟨x, _, rfl⟩ := List.mem_map.1 he
    unfold facetRow
    split
    · right; rfl
    · left; rfl

theorem readLines_tail {Tok : Type} (C : Codec Tok) (pElements : Tok) (hel : C.header pElements = .elements) (tail : List (List Tok)) :
    ∀ (l : List (List Tok)) (s : St), readLines C s (l ++ ([] :: [pElements] :: tail)) = readLines C s l := by
  intro l
  induction l with
  | nil => intro s; simp [readLines, hel]
  | cons x l ih =>
    intro s
    rw [List.cons_append]
    match x with
    | [] => simp only [readLines]; exact ih s
    | [t] =>
      simp only [readLines]
      split <;> first | exact ih _ | rfl
    | a :: b :: r =>
      simp only [readLines]
      cases processTokens C s (a :: b :: r) with
      | none => rfl
      | some s' => exact ih s'

/-- **C124, reading back.** `read_plcurve` reads a written mesh like a curve file with the vertices and the lines of the edge section; the elements are
ignored. -/
theorem C124_read_back {Tok : Type} (C : Codec Tok) (pElements : Tok) (hel : C.header pElements = .elements) (M : Mesh) (E : List Edge4) :
    read C (writeMesh C pElements M E) = read C (write C M.V (edgeRows M E)) := by
  have : writeMesh C pElements M E = write C M.V (edgeRows M E) ++ ([] :: [pElements] :: (elementRows M).map fun r => r.map C.pInt) := by
    unfold writeMesh write
    simp
  unfold PlCurve.read
  rw [this, readLines_tail C pElements hel]

/-- **C124, refuted: a written mesh can be read again.** With more edges than vertices the reader writes outside its array. -/
theorem C124_read_back_refuted {Tok : Type} (C : Codec Tok) (pElements : Tok) (hel : C.header pElements = .elements) (M : Mesh) (E : List Edge4)
    (hV : M.V ≠ []) (h : M.V.length < (edgeRows M E).length) : read C (writeMesh C pElements M E) = none := by
  rw [C124_read_back C pElements hel]
  exact C54_many_edges_refuted C M.V _ (edgeRows_length M E) hV h

/-! ## a grid of two by two cells, none of them cut -/

/-- the mesh. -/
def exMesh : Mesh where
  V := (lexCoords 2 ![3, 3]).map fun c => ((c 0 : ℚ), (c 1 : ℚ))
  edges := []
  faces := []
  ext := ExteriorGrid.make (lexOrder 2) ![2, 2] fun _ => true
  extRegions := [0, 0, 0, 0]
  vidx c := 3 * c 0 + c 1

/-- it has nine vertices and twelve edges: reading it again is undefined. -/
example : PlCurve.read exCodec (writeMesh exCodec (.word .elements) exMesh []) = none :=
  C124_read_back_refuted exCodec _ rfl exMesh [] (by decide +kernel) (by decide +kernel)

/-- its first and last lines of edges, and its first element. -/
example : (edgeRows exMesh []).head? = some [0, 1] ∧ (edgeRows exMesh []).length = 12 ∧ (elementRows exMesh).head? = some [0, 4, 0, 1, 4, 3, 0] := by
  decide +kernel

/-- an edge running backwards on an input edge with different labels. -/
example : cutRow [(0, 1, 5, 7)] ⟨3, 4, some (0, 1, 1/2)⟩ = [3, 4, 7, 5] := by decide +kernel

/-- a cell of the grid with one cut cell has three free sides. -/
example : Free ![2, 2] (fun c => decide (c ≠ ![1, 1])) ![1, 0] ∧ ¬ Free ![2, 2] (fun c => decide (c ≠ ![1, 1])) ![1, 1] := by
  unfold Free ExteriorCell
  decide +kernel
end Mandoline.MeshWriter2
