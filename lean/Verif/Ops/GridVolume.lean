import Verif.Cross.GridEdge
import Verif.Exterior.Facets
import Verif.Exterior.Boundary
import Verif.Mesh.Locate
import Verif.Ops.MacGrid
import Mathlib.Tactic.FieldSimp

/-!
# Grid-volume interpolation matrices (C50)

`edge_grid_volume_matrix`, `face_grid_volume_matrix` (src/operators/interpolation2.cpp:86-140, interpolation3.cpp:88-128) map
values on grid edges (faces) to cut edges (faces). What a user wants is that every column sums to one.
-/
namespace Mandoline.GridVolume

/-- sum of a column of the matrix built from triplets. -/
def colSum (t : List Triplet) (c : ℤ) : ℚ := ((t.filter fun x => decide (x.2.1 = c)).map fun x => x.2.2).sum

/-! ## model: edges in 2D -/

/-- a 2D cut edge (cutedge.hpp:82-107). `meshLen = some l`: an edge of the input mesh (`id` holds its index), where `l` is its
entry of `edge_barycentric_volume_matrix * mesh_edge_vols` (volume2.cpp:52-56); `none`: an edge on a grid line. -/
structure CutEdge2 where
  mask : Mask 2
  indices : ℤ × ℤ
  meshLen : Option ℚ

/-- entry of `edge_lengths` for a cut edge (src/operators/volume2.cpp:49-75). `as_axial_id()[0]` is `mask.bound_axis()`
(cutedge.hpp:90). -/
def edgeLength (dx : Fin 2 → ℚ) (V : ℤ → Vertex 2) (e : CutEdge2) : ℚ :=
  match e.meshLen with
  | some l => l
  | none =>
    match e.mask.boundAxis with
    | some a =>
      let dim := 1 - a
      let coff : ℤ := (V e.indices.2).coord dim - (V e.indices.1).coord dim
      dx dim * (((V e.indices.2).quot dim - (V e.indices.1).quot dim) + coff)
    | none => 0

/-- `get_min_coord` of an edge (coord_masked_geometry_impl.hpp:55-81). -/
def minCoord (V : ℤ → Vertex 2) (e : ℤ × ℤ) : Coord 2 := fun k => min ((V e.1).coord k) ((V e.2).coord k)

/-- the triplet of a cut edge (src/operators/interpolation2.cpp:93-107); `stag axis c` is `staggered_index<1>(c, axis)`. The
value is divided by the *product* of the grid spacings. -/
def edgeTriplet (stag : Fin 2 → Coord 2 → ℤ) (dx : Fin 2 → ℚ) (V : ℤ → Vertex 2) (row : ℤ) (e : CutEdge2) : Option Triplet :=
  if e.mask.count = 1 then
    match e.mask.unboundAxis with
    | some axis => some (row, stag axis (minCoord V e.indices), edgeLength dx V e / (dx 0 * dx 1))
    | none => none
  else none

/-- the triplet of one facet in `boundary_facet_to_staggered_grid(offset)` for `D = 2`
(include/mandoline/exterior_grid_impl.hpp:80-104). -/
def facetTriplet (stag : Fin 2 → Coord 2 → ℤ) (E : ExteriorGrid 2) (row : ℤ) (f : Facet 2) : Option Triplet :=
  let axis := f.2
  let gaxis := 1 - axis
  if f.1.1 = -2 then
    (E.cellCoords[f.1.2.toNat]?).map fun b => (row, stag gaxis b, 1)
  else if f.1.2 = -2 then
    (E.cellCoords[f.1.1.toNat]?).map fun a => (row, stag gaxis (Function.update a axis (a axis + 1)), 1)
  else if f.1.1 ≥ 0 ∧ f.1.2 ≥ 0 then
    (E.cellCoords[f.1.2.toNat]?).map fun b => (row, stag gaxis b, 1)
  else none

/-- `boundary_facet_to_staggered_grid(offset)` (exterior_grid_impl.hpp:76-106). -/
def facetToStaggered (stag : Fin 2 → Coord 2 → ℤ) (E : ExteriorGrid 2) (offset : ℤ) : List Triplet :=
  E.facets.zipIdx.filterMap fun f => facetTriplet stag E (f.2 + offset) f.1

/-- `edge_grid_volume_matrix` (src/operators/interpolation2.cpp:86-116). -/
def edgeGridVolume (stag : Fin 2 → Coord 2 → ℤ) (dx : Fin 2 → ℚ) (V : ℤ → Vertex 2) (E : ExteriorGrid 2)
    (edges : List CutEdge2) : List Triplet :=
  facetToStaggered stag E edges.length ++ edges.zipIdx.filterMap fun e => edgeTriplet stag dx V e.2 e.1

/-- `m_grid_edges` as cut edges (generator_impl.hpp:841, cutedge.hpp:91): both axes of `bake_edges`. -/
def gridCutEdges (vidx : Coord 2 → ℤ) (cellShape : Coord 2) (store : Fin 2 → AxisStore 2) : List CutEdge2 :=
  (List.finRange 2).flatMap fun d => (bakeEdgesAxis vidx cellShape d (store d)).map fun e => ⟨e.1, e.2, none⟩

/-! ## model: faces in 2D -/

/-- `face_grid_volume_matrix` of a 2D mesh (src/operators/interpolation2.cpp:119-140): `own` is `cell_grid_ownership`, `area`
the vector `face_volumes`, `dv` the area of a grid cell. -/
def faceGridVolume (index : Coord 2 → ℤ) (own : List (ℤ × List ℕ)) (area : ℕ → ℚ) (dv : ℚ) (numCut : ℕ)
    (extCells : List (Coord 2)) : List Triplet :=
  (own.flatMap fun p => p.2.map fun (k : ℕ) => ((k : ℤ), p.1, area k / dv)) ++
    extCells.zipIdx.map fun c => ((c.2 : ℤ) + numCut, index c.1, 1)

/-! ## model: faces in 3D -/

/-- what `face_grid_volume_matrix` looks at in a 3D cut face: mask, whether it is axial, loops, normal. -/
structure CutFace3 where
  mask : Mask 3
  axial : Bool
  loops : List (List ℤ)
  normal : Fin 3 → ℚ

/-- the loop computing the least corner (interpolation3.cpp:110-118), starting at `numeric_limits<int>::max()`; `none` stands
for the start value. -/
def minCorner (V : ℤ → Vertex 3) (l : List ℤ) : Option (Coord 3) :=
  l.foldl (fun c i => match c with
    | none => some (V i).coord
    | some c => some fun k => min (c k) ((V i).coord k)) none

/-- area of a grid face (interpolation3.cpp:93-95). -/
def gridFaceArea (dx : Fin 3 → ℚ) (axis : Fin 3) : ℚ :=
  if axis = 0 then dx 1 * dx 2 else if axis = 1 then dx 0 * dx 2 else dx 0 * dx 1

/-- the triplet of a cut face (src/operators/interpolation3.cpp:101-122); a face without vertices is not considered. -/
def faceTriplet3 (stag : Fin 3 → Coord 3 → ℤ) (dx : Fin 3 → ℚ) (V : ℤ → Vertex 3) (includeMesh : Bool) (row : ℤ) (area : ℚ)
    (f : CutFace3) : Option Triplet :=
  let included := if includeMesh then decide (f.mask.count = 1) else f.axial
  if included then
    match f.mask.boundAxis, minCorner V f.loops.flatten with
    | some axis, some c => some (row, stag axis c, area / gridFaceArea dx axis * f.normal axis)
    | _, _ => none
  else none

/-- the cut-face part of `face_grid_volume_matrix` in 3D (interpolation3.cpp:101-122); `FV` is `face_volumes()`. The part
contributed by the adaptive grid is `faceProjection` (C28). -/
def faceGridVolume3 (stag : Fin 3 → Coord 3 → ℤ) (dx : Fin 3 → ℚ) (V : ℤ → Vertex 3) (includeMesh : Bool) (FV : ℕ → ℚ)
    (faces : List CutFace3) : List Triplet :=
  faces.zipIdx.filterMap fun f => faceTriplet3 stag dx V includeMesh f.2 (FV f.2) f.1

/-! ## column sums -/

theorem colSum_append (s t : List Triplet) (c : ℤ) : colSum (s ++ t) c = colSum s c + colSum t c := by
  unfold colSum; rw [List.filter_append, List.map_append, List.sum_append]

theorem colSum_nil (c : ℤ) : colSum [] c = 0 := rfl

theorem colSum_flatMap {α : Type*} (l : List α) (f : α → List Triplet) (c : ℤ) :
    colSum (l.flatMap f) c = (l.map fun a => colSum (f a) c).sum := by
  induction l with
  | nil => rfl
  | cons a l ih => rw [List.flatMap_cons, colSum_append, ih, List.map_cons, List.sum_cons]

theorem colSum_filterMap_cons {α : Type*} (g : α → Option Triplet) (a : α) (l : List α) (c : ℤ) :
    colSum ((a :: l).filterMap g) c = colSum (g a).toList c + colSum (l.filterMap g) c := by
  rw [List.filterMap_cons]
  cases g a with
  | none => simp only [Option.toList_none, colSum_nil, zero_add]
  | some t =>
    show colSum ([t] ++ _) c = colSum [t] c + _
    rw [colSum_append]

theorem colSum_zero (t : List Triplet) (c : ℤ) (h : ∀ x ∈ t, x.2.1 ≠ c) : colSum t c = 0 := by
  unfold colSum
  rw [List.filter_eq_nil_iff.2]
  · rfl
  · intro x hx; simpa using h x hx

/-- the sum of a column does not look at the rows. -/
theorem colSum_filterMap_zipIdx {α : Type*} (f : ℤ → α → Option Triplet) (l : List α) (off : ℤ) (n : ℕ) (c : ℤ)
    (w : α → ℚ) (hw : ∀ r a, a ∈ l → colSum (f r a).toList c = w a) :
    colSum ((l.zipIdx n).filterMap fun a => f (a.2 + off) a.1) c = (l.map w).sum := by
  induction l generalizing n with
  | nil => rfl
  | cons a l ih =>
    rw [List.zipIdx_cons, List.filterMap_cons, List.map_cons, List.sum_cons,
      ← ih (n + 1) fun r b hb => hw r b (List.mem_cons_of_mem _ hb), ← hw (n + off) a List.mem_cons_self]
    cases hf : f ((n : ℤ) + off) a with
    | none => simp only [Option.toList_none, colSum_nil, zero_add]
    | some t =>
      show colSum ([t] ++ _) c = colSum [t] c + _
      rw [colSum_append]

theorem sum_indicator {α : Type*} (l : List α) (hn : l.Nodup) (P : α → Prop) [DecidablePred P]
    (hu : ∀ a ∈ l, ∀ b ∈ l, P a → P b → a = b) (x : α → ℚ) :
    (∀ a ∈ l, P a → (l.map fun b => if P b then x b else 0).sum = x a) ∧
    ((∀ a ∈ l, ¬ P a) → (l.map fun b => if P b then x b else 0).sum = 0) := by
  induction l with
  | nil => exact ⟨nofun, fun _ => rfl⟩
  | cons a l ih =>
    rw [List.nodup_cons] at hn
    have ih := ih hn.2 fun b hb c hc => hu b (List.mem_cons_of_mem _ hb) c (List.mem_cons_of_mem _ hc)
    constructor
    · intro b hb hP
      rw [List.map_cons, List.sum_cons]
      rcases List.mem_cons.1 hb with rfl | hb
      · rw [if_pos hP, ih.2, add_zero]
        intro c hc hc'
        exact hn.1 (by rw [hu b List.mem_cons_self c (List.mem_cons_of_mem _ hc) hP hc']; exact hc)
      · rw [if_neg, ih.1 b hb hP, zero_add]
        intro hPa
        exact hn.1 (by rw [hu a List.mem_cons_self b (List.mem_cons_of_mem _ hb) hPa hP]; exact hb)
    · intro h
      rw [List.map_cons, List.sum_cons, if_neg (h a List.mem_cons_self),
        ih.2 fun b hb => h b (List.mem_cons_of_mem _ hb), add_zero]

/-! ## specification of grid edges -/

/-- `(c, d)` is an edge of the grid: it starts at vertex `c` and runs along axis `d`. -/
def GridEdge (shape : Coord 2) (c : Coord 2) (d : Fin 2) : Prop :=
  (0 ≤ c d ∧ c d < shape d) ∧ 0 ≤ c (1 - d) ∧ c (1 - d) ≤ shape (1 - d)

/-- `cell` is one of the (one or two) grid cells beside edge `(c, d)`. -/
def Beside (shape : Coord 2) (cell c : Coord 2) (d : Fin 2) : Prop :=
  (∀ i, 0 ≤ cell i ∧ cell i < shape i) ∧ cell d = c d ∧ (cell (1 - d) = c (1 - d) ∨ cell (1 - d) = c (1 - d) - 1)

/-! ## facets of the exterior grid -/

theorem fin2_ne {i j : Fin 2} (h : i ≠ j) : i = 1 - j := by
  fin_cases i <;> fin_cases j <;> simp_all

theorem one_sub_ne (j : Fin 2) : 1 - j ≠ j := by fin_cases j <;> decide

theorem one_sub_one_sub (j : Fin 2) : 1 - (1 - j) = j := by fin_cases j <;> rfl

theorem coord2_ext {a b : Coord 2} (d : Fin 2) (h : a d = b d) (h' : a (1 - d) = b (1 - d)) : a = b := by
  funext i
  by_cases hi : i = d
  · rw [hi, h]
  · rw [fin2_ne hi, h']

/-- where `boundary_facet_to_staggered_grid` puts a facet. -/
def facetLoc (E : ExteriorGrid 2) (f : Facet 2) : Option (Coord 2) :=
  if f.1.1 = -2 then E.cellCoords[f.1.2.toNat]?
  else if f.1.2 = -2 then (E.cellCoords[f.1.1.toNat]?).map fun a => Function.update a f.2 (a f.2 + 1)
  else if f.1.1 ≥ 0 ∧ f.1.2 ≥ 0 then E.cellCoords[f.1.2.toNat]?
  else none

theorem facetTriplet_loc (stag : Fin 2 → Coord 2 → ℤ) (E : ExteriorGrid 2) (row : ℤ) (f : Facet 2) :
    facetTriplet stag E row f = (facetLoc E f).map fun c => (row, stag (1 - f.2) c, 1) := by
  unfold facetTriplet facetLoc
  dsimp only
  split
  · rfl
  split
  · rw [Option.map_map]; rfl
  split <;> rfl

section
variable (O : GridOrder 2) (shape : Coord 2) (o : Coord 2 → Bool)

theorem cellCoords_index {c : Coord 2} (h : ExteriorCell shape o c) :
    0 ≤ (ExteriorGrid.make O shape o).cellIndex c ∧
    (ExteriorGrid.make O shape o).cellCoords[((ExteriorGrid.make O shape o).cellIndex c).toNat]? = some c := by
  obtain ⟨k, _, he⟩ := (C21_bijection O shape o).1 c h
  rw [he]
  refine ⟨by omega, ?_⟩
  rw [Int.toNat_natCast]
  exact ((C21_bijection O shape o).2.2 k c).2 ⟨h, he⟩

theorem facetLoc_low {c : Coord 2} (i : Fin 2) (h : ExteriorCell shape o c) :
    facetLoc (ExteriorGrid.make O shape o) ((-2, (ExteriorGrid.make O shape o).cellIndex c), i) = some c := by
  unfold facetLoc
  rw [if_pos rfl]
  exact (cellCoords_index O shape o h).2

theorem facetLoc_high {c : Coord 2} (i : Fin 2) (h : ExteriorCell shape o c) :
    facetLoc (ExteriorGrid.make O shape o) (((ExteriorGrid.make O shape o).cellIndex c, -2), i) = some (above c i) := by
  obtain ⟨h0, h1⟩ := cellCoords_index O shape o h
  unfold facetLoc
  rw [if_neg (by show ¬ _ = _; dsimp only; omega), if_pos rfl]
  dsimp only
  rw [h1]; rfl

theorem facetLoc_mid {c c' : Coord 2} (i : Fin 2) (h : ExteriorCell shape o c) (h' : ExteriorCell shape o c') :
    facetLoc (ExteriorGrid.make O shape o)
      (((ExteriorGrid.make O shape o).cellIndex c, (ExteriorGrid.make O shape o).cellIndex c'), i) = some c' := by
  obtain ⟨h0, h1⟩ := cellCoords_index O shape o h
  obtain ⟨h0', h1'⟩ := cellCoords_index O shape o h'
  unfold facetLoc
  rw [if_neg (by dsimp only; omega), if_neg (by dsimp only; omega), if_pos ⟨h0, h0'⟩]
  exact h1'

/-- the facet at an edge, in terms of the grid cells beside it. -/
theorem facet_at (hs : ∀ i, 2 ≤ shape i) (c : Coord 2) (d : Fin 2) :
    (∃ f ∈ (ExteriorGrid.make O shape o).facets, facetLoc (ExteriorGrid.make O shape o) f = some c ∧ 1 - f.2 = d) ↔
      GridEdge shape c d ∧ ∀ cell, Beside shape cell c d → o cell = true := by
  have hd := one_sub_ne d
  constructor
  · rintro ⟨f, hf, hl, rfl⟩
    have hx := (C22_facets_exact O shape o hs f).1 hf
    rw [one_sub_one_sub] at hd
    unfold GridEdge Beside
    rw [one_sub_one_sub]
    have hd' := one_sub_ne f.2
    cases hx with
    | low a i h h0 =>
      rw [facetLoc_low O shape o i h] at hl
      cases hl
      have hv := h.1
      refine ⟨⟨hv _, (hv i).1, le_of_lt (hv i).2⟩, ?_⟩
      rintro cell ⟨hc, hc1, hc2⟩
      have : cell = c := by
        refine coord2_ext (1 - i) hc1 ?_
        rw [one_sub_one_sub]
        rcases hc2 with h | h
        · exact h
        · have := (hc i).1; simp only at h h0; omega
      rw [this]; exact h.2
    | mid a i h h' =>
      rw [facetLoc_mid O shape o i h h'] at hl
      cases hl
      have hv := h'.1
      refine ⟨⟨hv _, (hv i).1, le_of_lt (hv i).2⟩, ?_⟩
      rintro cell ⟨hc, hc1, hc2⟩
      rcases hc2 with h2 | h2
      · have : cell = above a i := coord2_ext (1 - i) hc1 (by rw [one_sub_one_sub]; exact h2)
        rw [this]; exact h'.2
      · have : cell = a := by
          refine coord2_ext (1 - i) ?_ ?_
          · rw [hc1]; simp only [above]; rw [Function.update_of_ne (one_sub_ne i)]
          · rw [one_sub_one_sub, h2]; simp [above]
        rw [this]; exact h.2
    | high a i h h1 =>
      rw [facetLoc_high O shape o i h] at hl
      cases hl
      have hv := h.1
      have e1 : above a i (1 - i) = a (1 - i) := by unfold above; rw [Function.update_of_ne (one_sub_ne i)]
      have e2 : above a i i = a i + 1 := by simp [above]
      dsimp only
      rw [e1, e2]
      refine ⟨⟨hv _, by have := (hv i).1; omega, by have := (hv i).2; omega⟩, ?_⟩
      rintro cell ⟨hc, hc1, hc2⟩
      have : cell = a := by
        refine coord2_ext (1 - i) hc1 ?_
        rw [one_sub_one_sub]
        rcases hc2 with h2 | h2
        · have := (hc i).2; omega
        · omega
      rw [this]; exact h.2
  · rintro ⟨⟨g1, g2⟩, ho⟩
    have hval : ∀ cell : Coord 2, cell d = c d → 0 ≤ cell (1 - d) → cell (1 - d) < shape (1 - d) →
        ∀ i, 0 ≤ cell i ∧ cell i < shape i := by
      intro cell h1 h2 h3 i
      by_cases hi : i = d
      · rw [hi, h1]; exact g1
      · rw [fin2_ne hi]; exact ⟨h2, h3⟩
    have hbelow : ∀ n, (Function.update c (1 - d) n) d = c d := fun n => Function.update_of_ne hd.symm _ _
    by_cases h0 : c (1 - d) = 0
    · have hcv := hval c rfl g2.1 (by have := hs (1 - d); omega)
      have he : ExteriorCell shape o c := ⟨hcv, ho c ⟨hcv, rfl, .inl rfl⟩⟩
      exact ⟨_, (C22_facets_exact O shape o hs _).2 (.low c (1 - d) he h0), facetLoc_low O shape o _ he, one_sub_one_sub d⟩
    · have hbv := hval (Function.update c (1 - d) (c (1 - d) - 1)) (hbelow _) (by rw [Function.update_self]; omega)
        (by rw [Function.update_self]; omega)
      have hbe : ExteriorCell shape o (Function.update c (1 - d) (c (1 - d) - 1)) :=
        ⟨hbv, ho _ ⟨hbv, hbelow _, .inr (Function.update_self ..)⟩⟩
      have hab : above (Function.update c (1 - d) (c (1 - d) - 1)) (1 - d) = c := by
        unfold above
        rw [Function.update_idem, Function.update_self]
        simp
      by_cases h1 : c (1 - d) = shape (1 - d)
      · refine ⟨_, (C22_facets_exact O shape o hs _).2 (.high _ (1 - d) hbe ?_), ?_, one_sub_one_sub d⟩
        · rw [Function.update_self]; omega
        · rw [facetLoc_high O shape o _ hbe, hab]
      · have hcv := hval c rfl g2.1 (by omega)
        have he : ExteriorCell shape o c := ⟨hcv, ho c ⟨hcv, rfl, .inl rfl⟩⟩
        refine ⟨_, (C22_facets_exact O shape o hs _).2 (.mid _ (1 - d) hbe (by rw [hab]; exact he)), ?_, one_sub_one_sub d⟩
        rw [hab]
        exact facetLoc_mid O shape o _ hbe he

theorem facet_unique (hs : ∀ i, 2 ≤ shape i) (c : Coord 2) (f g : Facet 2)
    (hf : f ∈ (ExteriorGrid.make O shape o).facets) (hg : g ∈ (ExteriorGrid.make O shape o).facets)
    (hlf : facetLoc (ExteriorGrid.make O shape o) f = some c) (hlg : facetLoc (ExteriorGrid.make O shape o) g = some c)
    (ha : f.2 = g.2) : f = g := by
  have hab : ∀ (a b : Coord 2) i, above a i = above b i → a = b := by
    intro a b i h
    funext j
    have := congrFun h j
    unfold above at this
    by_cases hj : j = i
    · subst hj; simpa using this
    · rwa [Function.update_of_ne hj, Function.update_of_ne hj] at this
  have e2 : ∀ (a : Coord 2) i, above a i i = a i + 1 := by intro a i; simp [above]
  cases (C22_facets_exact O shape o hs f).1 hf with
  | low a i h h0 =>
    rw [facetLoc_low O shape o i h] at hlf
    cases hlf
    cases (C22_facets_exact O shape o hs g).1 hg with
    | low b j k k0 =>
      rw [facetLoc_low O shape o j k] at hlg
      cases hlg; cases ha; rfl
    | mid b j k k' =>
      rw [facetLoc_mid O shape o j k k'] at hlg
      cases hlg; cases ha
      have := (k.1 i).1; rw [e2] at h0; omega
    | high b j k k1 =>
      rw [facetLoc_high O shape o j k] at hlg
      cases hlg; cases ha
      have := (k.1 i).1; rw [e2] at h0; omega
  | mid a i h h' =>
    rw [facetLoc_mid O shape o i h h'] at hlf
    cases (C22_facets_exact O shape o hs g).1 hg with
    | low b j k k0 =>
      rw [facetLoc_low O shape o j k] at hlg
      cases hlg; cases ha
      have := (h.1 i).1
      rw [← (Option.some.inj hlf), e2] at k0; omega
    | mid b j k k' =>
      rw [facetLoc_mid O shape o j k k'] at hlg
      cases ha
      have := hab a b _ ((Option.some.inj hlf).trans (Option.some.inj hlg).symm)
      subst this; rfl
    | high b j k k1 =>
      rw [facetLoc_high O shape o j k] at hlg
      cases ha
      have := hab a b _ ((Option.some.inj hlf).trans (Option.some.inj hlg).symm)
      subst this
      have := (h'.1 i).2
      rw [e2] at this; omega
  | high a i h h1 =>
    rw [facetLoc_high O shape o i h] at hlf
    cases (C22_facets_exact O shape o hs g).1 hg with
    | low b j k k0 =>
      rw [facetLoc_low O shape o j k] at hlg
      cases hlg; cases ha
      have := (h.1 i).1
      rw [← (Option.some.inj hlf), e2] at k0; omega
    | mid b j k k' =>
      rw [facetLoc_mid O shape o j k k'] at hlg
      cases ha
      have := hab a b _ ((Option.some.inj hlf).trans (Option.some.inj hlg).symm)
      subst this
      have := (k'.1 i).2
      rw [e2] at this; omega
    | high b j k k1 =>
      rw [facetLoc_high O shape o j k] at hlg
      cases ha
      have := hab a b _ ((Option.some.inj hlf).trans (Option.some.inj hlg).symm)
      subst this; rfl

/-- `staggered_index<1>` is injective on grid edges (mtao library). -/
def StagInj (shape : Coord 2) (stag : Fin 2 → Coord 2 → ℤ) : Prop :=
  ∀ d d' c c', GridEdge shape c d → GridEdge shape c' d' → stag d c = stag d' c' → d = d' ∧ c = c'

open Classical in
theorem facets_column (hs : ∀ i, 2 ≤ shape i) (stag : Fin 2 → Coord 2 → ℤ) (hst : StagInj shape stag) (off : ℤ)
    (c : Coord 2) (d : Fin 2) (he : GridEdge shape c d) :
    colSum (facetToStaggered stag (ExteriorGrid.make O shape o) off) (stag d c) =
      if ∀ cell, Beside shape cell c d → o cell = true then 1 else 0 := by
  unfold facetToStaggered
  have hP : ∀ f ∈ (ExteriorGrid.make O shape o).facets, ∀ a, facetLoc (ExteriorGrid.make O shape o) f = some a →
      (stag (1 - f.2) a = stag d c ↔ a = c ∧ 1 - f.2 = d) := by
    intro f hf a ha
    have hg := ((facet_at O shape o hs a (1 - f.2)).1 ⟨f, hf, ha, rfl⟩).1
    constructor
    · intro h
      obtain ⟨h1, h2⟩ := hst _ _ _ _ hg he h
      exact ⟨h2, h1⟩
    · rintro ⟨rfl, h⟩; rw [h]
  rw [colSum_filterMap_zipIdx (fun r f => facetTriplet stag (ExteriorGrid.make O shape o) r f) _ off 0 (stag d c)
    (fun f => if (facetLoc (ExteriorGrid.make O shape o) f = some c ∧ 1 - f.2 = d) then 1 else 0)]
  · have hi := sum_indicator (ExteriorGrid.make O shape o).facets
      (C22_facets O shape o fun i => le_trans (by norm_num) (hs i)).1
      (fun f => facetLoc (ExteriorGrid.make O shape o) f = some c ∧ 1 - f.2 = d)
      (by
        intro f hf g hg h1 h2
        refine facet_unique O shape o hs c f g hf hg h1.1 h2.1 ?_
        have := congrArg (1 - ·) (h1.2.trans h2.2.symm)
        simpa only [one_sub_one_sub] using this) (fun _ => 1)
    split
    · rename_i hout
      obtain ⟨f, hf, h1, h2⟩ := (facet_at O shape o hs c d).2 ⟨he, hout⟩
      exact hi.1 f hf ⟨h1, h2⟩
    · rename_i hout
      refine hi.2 fun f hf h => hout ?_
      exact ((facet_at O shape o hs c d).1 ⟨f, hf, h⟩).2
  · intro r f hf
    rw [facetTriplet_loc]
    cases hl : facetLoc (ExteriorGrid.make O shape o) f with
    | none => simp [colSum]
    | some a =>
      simp only [Option.map_some, Option.toList_some, colSum, List.filter_cons, List.filter_nil, Option.some.injEq,
        hP f hf a hl]
      split <;> rename_i h <;> simp at h <;> first | (simp [h]; done) | simpa using h
end

/-! ## the pieces of a grid edge -/

theorem gridEdgeMask_axes (c : Coord 2) (d : Fin 2) :
    (gridEdgeMask c d).count = 1 ∧ (gridEdgeMask c d).unboundAxis = some d ∧ (gridEdgeMask c d).boundAxis = some (1 - d) := by
  fin_cases d <;> exact ⟨rfl, rfl, rfl⟩

/-- what the vertex table of the mesh must satisfy: `masked_vertex` (mesh_impl.hpp) returns the grid vertex for a grid index,
and for a new index the vertex of the crossing with that index (C17 shows that the generator's table does). -/
structure VertexTable {shape : Coord 2} (G : GridIndexer shape) (cs : List (CrossingI 2)) (V : ℤ → Vertex 2) : Prop where
  grid : ∀ c, ValidIndex shape c = true → V (G.idx c) = Vertex.ofCoord c
  crossing : ∀ x ∈ cs, ¬ IsGridPoint x.v.p → (V x.index).p = x.v.p ∧ Normalised (V x.index)

theorem ofCoord_norm (c : Coord 2) : Normalised (Vertex.ofCoord c) :=
  fun _ => ⟨le_rfl, by norm_num [Vertex.ofCoord]⟩

theorem edgeLength_axial (dx : Fin 2 → ℚ) (V : ℤ → Vertex 2) (c : Coord 2) (d : Fin 2) (e : ℤ × ℤ) :
    edgeLength dx V ⟨gridEdgeMask c d, e, none⟩ = dx d * ((V e.2).p d - (V e.1).p d) := by
  unfold edgeLength
  simp only [(gridEdgeMask_axes c d).2.2, one_sub_one_sub, Vertex.p]
  push_cast
  ring

/-- the pieces of one grid edge, as triplets: all in the column of that edge, with values adding to the length of the edge
over the area of a cell. -/
theorem pieces_spec {cellShape : Coord 2} (G : GridIndexer fun i => cellShape i + 1)
    (ac : List (Coord 2)) (cs : List (CrossingI 2))
    (hN : ∀ x ∈ cs, Normalised x.v) (hF : ∀ x ∈ cs, FlagsExact x.v) (hI : IndexConsistent cs)
    (hnew : ∀ x ∈ cs, ¬ IsGridPoint x.v.p → G.size ≤ x.index) (V : ℤ → Vertex 2) (hV : VertexTable G cs V)
    (dx : Fin 2 → ℚ) (d : Fin 2) (c : Coord 2) (es : List (ℚ × ℤ)) (hc : (c, es) ∈ storeWithGrid cellShape ac cs d)
    (he : GridEdge cellShape c d) :
    let pieces := gridEdgePieces (G.idx c) (G.idx (Function.update c d (c d + 1))) es
    (∀ e ∈ pieces, minCoord V e = c) ∧
    (pieces.map fun e => edgeLength dx V ⟨gridEdgeMask c d, e, none⟩).sum = dx d := by
  have hd := one_sub_ne d
  have hv0 : ValidIndex (fun i => cellShape i + 1) c = true := by
    rw [validIndex_iff]
    intro i
    by_cases hi : i = d
    · subst hi; have := he.1; omega
    · rw [fin2_ne hi]; have := he.2; omega
  have hv1 : ValidIndex (fun i => cellShape i + 1) (Function.update c d (c d + 1)) = true := by
    rw [validIndex_iff]
    intro i
    by_cases hi : i = d
    · subst hi; rw [Function.update_self]; have := he.1; omega
    · rw [Function.update_of_ne hi, fin2_ne hi]; have := he.2; omega
  obtain ⟨ps, _, _, p3, p4, p5, p6, p7⟩ := C19_grid_edge_path G cellShape ac cs hN hF hI hnew d c es hc hv0 hv1
  -- the vertex at parameter t
  have hpos : ∀ t i, (t, i) ∈ ps → Normalised (V i) ∧ (V i).p d = c d + t ∧ (V i).p (1 - d) = c (1 - d) ∧ 0 ≤ t ∧ t ≤ 1 := by
    intro t i hti
    rcases (p4 t i).1 hti with h | h | ⟨x, hx, ho, hp, hix⟩
    · obtain ⟨rfl, rfl⟩ := Prod.mk.inj h
      rw [hV.grid c hv0]
      refine ⟨ofCoord_norm c, ?_, ?_, le_rfl, by norm_num⟩ <;> simp [Vertex.p, Vertex.ofCoord]
    · obtain ⟨rfl, rfl⟩ := Prod.mk.inj h
      rw [hV.grid _ hv1]
      refine ⟨ofCoord_norm _, ?_, ?_, by norm_num, le_rfl⟩
      · simp [Vertex.p, Vertex.ofCoord]
      · simp [Vertex.p, Vertex.ofCoord, Function.update_of_ne hd]
    · have hng : ¬ IsGridPoint x.v.p := by
        intro hg
        obtain ⟨n, hn⟩ := hg d
        have h1 := ho.2
        rw [hn] at h1
        have h2 : c d < n := by exact_mod_cast h1.1
        have h3 : n < c d + 1 := by exact_mod_cast h1.2
        omega
      obtain ⟨q1, q2⟩ := hV.crossing x hx hng
      rw [← hix]
      refine ⟨q2, by rw [q1, hp], by rw [q1]; exact ho.1 _ hd, ?_⟩
      have h1 := ho.2
      rw [hp] at h1
      constructor <;> linarith [h1.1, h1.2]
  have hmem : ∀ e ∈ ps.zip ps.tail, e.1 ∈ ps ∧ e.2 ∈ ps := by
    intro e hh
    have := List.of_mem_zip (show (e.1, e.2) ∈ _ from hh)
    exact ⟨this.1, List.mem_of_mem_tail this.2⟩
  intro pieces
  constructor
  · intro e hep
    rw [show pieces = _ from p5, List.mem_map] at hep
    obtain ⟨q, hq, rfl⟩ := hep
    obtain ⟨m1, m2⟩ := hmem q hq
    obtain ⟨n1, a1, b1, t1, u1⟩ := hpos q.1.1 q.1.2 m1
    obtain ⟨n2, a2, b2, t2, u2⟩ := hpos q.2.1 q.2.2 m2
    have hlt := p6 q hq
    unfold minCoord
    dsimp only
    refine coord2_ext d ?_ ?_
    · show min ((V q.1.2).coord d) ((V q.2.2).coord d) = c d
      rw [Vertex.normalised_coord _ n1, Vertex.normalised_coord _ n2, a1, a2]
      have : ⌊(c d : ℚ) + q.1.1⌋ = c d := by
        rw [Int.floor_eq_iff]; constructor <;> linarith
      rw [this, min_eq_left]
      rw [Int.le_floor]; linarith
    · show min ((V q.1.2).coord (1 - d)) ((V q.2.2).coord (1 - d)) = c (1 - d)
      rw [Vertex.normalised_coord _ n1, Vertex.normalised_coord _ n2, b1, b2]
      simp
  · rw [show pieces = _ from p5, List.map_map]
    have : (ps.zip ps.tail).map ((fun e => edgeLength dx V ⟨gridEdgeMask c d, e, none⟩) ∘ fun e => (e.1.2, e.2.2)) =
        (ps.zip ps.tail).map fun e => dx d * (e.2.1 - e.1.1) := by
      refine List.map_congr_left fun q hq => ?_
      obtain ⟨m1, m2⟩ := hmem q hq
      obtain ⟨_, a1, _⟩ := hpos q.1.1 q.1.2 m1
      obtain ⟨_, a2, _⟩ := hpos q.2.1 q.2.2 m2
      show edgeLength dx V ⟨gridEdgeMask c d, (q.1.2, q.2.2), none⟩ = _
      rw [edgeLength_axial]
      dsimp only
      rw [a1, a2]; ring
    rw [this, List.sum_map_mul_left, p7, mul_one]

theorem gridEdge_iff_valid (cellShape c : Coord 2) (d : Fin 2) :
    ValidIndex (edgeShape cellShape d) c = true ↔ GridEdge cellShape c d := by
  rw [validIndex_iff]
  have hd := one_sub_ne d
  constructor
  · intro h
    have h1 := h d
    have h2 := h (1 - d)
    simp only [edgeShape, if_true, if_neg hd] at h1 h2
    exact ⟨h1, h2.1, by omega⟩
  · rintro ⟨h1, h2⟩ i
    by_cases hi : i = d
    · subst hi; simp only [edgeShape, if_true]; exact h1
    · unfold edgeShape; rw [if_neg hi, fin2_ne hi]; omega

open Classical in
theorem grid_column {cellShape : Coord 2} (G : GridIndexer fun i => cellShape i + 1)
    (ac : List (Coord 2)) (cs : List (CrossingI 2))
    (hN : ∀ x ∈ cs, Normalised x.v) (hF : ∀ x ∈ cs, FlagsExact x.v) (hI : IndexConsistent cs)
    (hnew : ∀ x ∈ cs, ¬ IsGridPoint x.v.p → G.size ≤ x.index) (V : ℤ → Vertex 2) (hV : VertexTable G cs V)
    (dx : Fin 2 → ℚ) (stag : Fin 2 → Coord 2 → ℤ) (hst : StagInj cellShape stag)
    (n : ℕ) (c : Coord 2) (d : Fin 2) (he : GridEdge cellShape c d) :
    colSum (((gridCutEdges G.idx cellShape (storeWithGrid cellShape ac cs)).zipIdx n).filterMap
      fun e => edgeTriplet stag dx V e.2 e.1) (stag d c) =
      if ∃ es, (c, es) ∈ storeWithGrid cellShape ac cs d then dx d / (dx 0 * dx 1) else 0 := by
  have h0 := colSum_filterMap_zipIdx (fun r e => edgeTriplet stag dx V r e)
    (gridCutEdges G.idx cellShape (storeWithGrid cellShape ac cs)) 0 n (stag d c)
    (fun e => if e.mask.unboundAxis = some d ∧ minCoord V e.indices = c then edgeLength dx V e / (dx 0 * dx 1) else 0) (by
      intro r e hmem
      unfold gridCutEdges at hmem
      obtain ⟨d', _, hm⟩ := List.mem_flatMap.1 hmem
      obtain ⟨⟨m, e'⟩, hm', rfl⟩ := List.mem_map.1 hm
      clear hm
      have hm := hm'
      unfold bakeEdgesAxis at hm
      obtain ⟨⟨c', es⟩, hp, hm⟩ := List.mem_flatMap.1 hm
      split at hm
      · rename_i hval
        obtain ⟨e'', hm2, heq⟩ := List.mem_map.1 hm
        obtain ⟨rfl, rfl⟩ := Prod.mk.inj heq
        have hg := (gridEdge_iff_valid cellShape c' d').1 hval
        have hmin := (pieces_spec G ac cs hN hF hI hnew V hV dx d' c' es hp hg).1 _ hm2
        unfold edgeTriplet
        simp only [(gridEdgeMask_axes c' d').1, (gridEdgeMask_axes c' d').2.1, if_true, Option.toList_some, colSum,
          List.filter_cons, List.filter_nil, hmin, Option.some.injEq]
        by_cases h : stag d' c' = stag d c
        · obtain ⟨rfl, rfl⟩ := hst _ _ _ _ hg he h
          simp
        · have : ¬ (d' = d ∧ c' = c) := by rintro ⟨rfl, rfl⟩; exact h rfl
          simp [h, this]
      · cases hm)
  simp only [add_zero] at h0
  rw [h0]
  unfold gridCutEdges
  rw [List.map_flatMap]
  have hsum : ∀ (l : List (Fin 2)) (f : Fin 2 → List ℚ), (l.flatMap f).sum = (l.map fun a => (f a).sum).sum := by
    intro l f
    induction l with
    | nil => rfl
    | cons a l ih => rw [List.flatMap_cons, List.sum_append, ih, List.map_cons, List.sum_cons]
  have hsum' : ∀ (l : List (Coord 2 × List (ℚ × ℤ))) (f : Coord 2 × List (ℚ × ℤ) → List ℚ),
      (l.flatMap f).sum = (l.map fun a => (f a).sum).sum := by
    intro l f
    induction l with
    | nil => rfl
    | cons a l ih => rw [List.flatMap_cons, List.sum_append, ih, List.map_cons, List.sum_cons]
  rw [hsum]
  -- contribution of axis d'
  have hax : ∀ d', ((((bakeEdgesAxis G.idx cellShape d' (storeWithGrid cellShape ac cs d')).map
        fun e => (⟨e.1, e.2, none⟩ : CutEdge2)).map fun e =>
          if e.mask.unboundAxis = some d ∧ minCoord V e.indices = c then edgeLength dx V e / (dx 0 * dx 1) else 0)).sum =
      if d' = d then (if ∃ es, (c, es) ∈ storeWithGrid cellShape ac cs d then dx d / (dx 0 * dx 1) else 0) else 0 := by
    intro d'
    obtain ⟨p1, _, _⟩ := perAxis_spec cs hN hF hI d'
    obtain ⟨s1, _, _⟩ := storeWithGrid_spec cellShape ac cs d' p1
    unfold bakeEdgesAxis
    rw [List.map_map, List.map_flatMap, hsum']
    have hone : ∀ p ∈ storeWithGrid cellShape ac cs d',
        (List.map ((fun e : CutEdge2 => if e.mask.unboundAxis = some d ∧ minCoord V e.indices = c
              then edgeLength dx V e / (dx 0 * dx 1) else 0) ∘ fun e => (⟨e.1, e.2, none⟩ : CutEdge2))
          (if ValidIndex (edgeShape cellShape d') p.1 = true then
            (gridEdgePieces (G.idx p.1) (G.idx (Function.update p.1 d' (p.1 d' + 1))) p.2).map
              fun e => (gridEdgeMask p.1 d', e) else [])).sum =
        if p.1 = c ∧ d' = d then dx d / (dx 0 * dx 1) else 0 := by
      rintro ⟨c', es⟩ hp
      dsimp only
      by_cases hval : ValidIndex (edgeShape cellShape d') c' = true
      · rw [if_pos hval, List.map_map]
        have hg := (gridEdge_iff_valid cellShape c' d').1 hval
        obtain ⟨q1, q2⟩ := pieces_spec G ac cs hN hF hI hnew V hV dx d' c' es hp hg
        by_cases h : c' = c ∧ d' = d
        · rw [if_pos h]
          obtain ⟨rfl, rfl⟩ := h
          have : ∀ e ∈ gridEdgePieces (G.idx c') (G.idx (Function.update c' d' (c' d' + 1))) es,
              (((fun e : CutEdge2 => if e.mask.unboundAxis = some d' ∧ minCoord V e.indices = c'
              then edgeLength dx V e / (dx 0 * dx 1) else 0) ∘ fun e => (⟨e.1, e.2, none⟩ : CutEdge2)) ∘
              fun e => (gridEdgeMask c' d', e)) e =
              edgeLength dx V ⟨gridEdgeMask c' d', e, none⟩ * (dx 0 * dx 1)⁻¹ := by
            intro e hep
            simp only [Function.comp]
            rw [if_pos ⟨(gridEdgeMask_axes c' d').2.1, q1 e hep⟩, div_eq_mul_inv]
          rw [List.map_congr_left this, List.sum_map_mul_right, q2, div_eq_mul_inv]
        · rw [if_neg h]
          apply List.sum_eq_zero
          intro x hx
          obtain ⟨e, hep, rfl⟩ := List.mem_map.1 hx
          simp only [Function.comp]
          rw [if_neg]
          rintro ⟨h1, h2⟩
          rw [(gridEdgeMask_axes c' d').2.1] at h1
          rw [q1 e hep] at h2
          exact h ⟨h2, Option.some.inj h1⟩
      · rw [if_neg hval, if_neg]
        · rfl
        · rintro ⟨rfl, rfl⟩
          exact hval ((gridEdge_iff_valid cellShape c' d').2 he)
    rw [List.map_congr_left hone]
    by_cases hdd : d' = d
    · subst hdd
      simp only [and_true, if_true]
      have hnd : (storeWithGrid cellShape ac cs d').Nodup :=
        s1.imp fun {a b} hab heq => by
          subst heq
          have := strictTotal_coordLtB.irrefl a.1
          rw [hab] at this; cases this
      have hi := sum_indicator (storeWithGrid cellShape ac cs d') hnd (fun p => p.1 = c) (by
        rintro ⟨a, x⟩ ha ⟨b, y⟩ hb rfl h2
        simp only at h2
        subst h2
        rw [OMap.sorted_unique strictTotal_coordLtB s1 ha hb]) (fun _ => dx d' / (dx 0 * dx 1))
      split
      · rename_i h
        obtain ⟨es, hes⟩ := h
        exact hi.1 (c, es) hes rfl
      · rename_i h
        exact hi.2 fun p hp hpc => h ⟨p.2, by rw [← hpc]; exact hp⟩
    · simp [hdd]
  rw [List.map_congr_left fun d' _ => hax d']
  have hi := sum_indicator (List.finRange 2) (List.nodup_finRange 2) (fun d' => d' = d) (by rintro a _ b _ rfl h; exact h.symm)
    (fun _ => if ∃ es, (c, es) ∈ storeWithGrid cellShape ac cs d then dx d / (dx 0 * dx 1) else 0)
  exact hi.1 d (List.mem_finRange d) rfl

/-! ## C50: edges in 2D -/

theorem edges_split (stag : Fin 2 → Coord 2 → ℤ) (dx : Fin 2 → ℚ) (V : ℤ → Vertex 2) (mesh grid : List CutEdge2) :
    ((mesh ++ grid).zipIdx.filterMap fun e => edgeTriplet stag dx V e.2 e.1) =
      (mesh.zipIdx.filterMap fun e => edgeTriplet stag dx V e.2 e.1) ++
      ((grid.zipIdx mesh.length).filterMap fun e => edgeTriplet stag dx V e.2 e.1) := by
  rw [List.zipIdx_append, List.filterMap_append]
  simp

/-- an edge is handled by the generator exactly if some cell beside it holds a crossing. -/
theorem handled_iff {cellShape : Coord 2} (ac : List (Coord 2)) (cs : List (CrossingI 2))
    (hN : ∀ x ∈ cs, Normalised x.v) (hF : ∀ x ∈ cs, FlagsExact x.v) (hI : IndexConsistent cs)
    (hac : ∀ c, c ∈ ac ↔ ∃ x ∈ cs, InClosedCell c x.v.p) (c : Coord 2) (d : Fin 2) (he : GridEdge cellShape c d)
    (hpos : ∀ i, 1 ≤ cellShape i) :
    (∃ es, (c, es) ∈ storeWithGrid cellShape ac cs d) ↔
      ∃ cell, Beside cellShape cell c d ∧ ∃ x ∈ cs, InClosedCell cell x.v.p := by
  rw [C19_handled_edges cellShape ac cs hN hF hI d c]
  have hd := one_sub_ne d
  constructor
  · rintro (⟨x, hx, ho⟩ | ⟨cell, hcell, hv, h1, h2⟩)
    · -- the crossing lies in a cell beside the edge
      by_cases h1 : c (1 - d) < cellShape (1 - d)
      · refine ⟨c, ⟨?_, rfl, .inl rfl⟩, x, hx, ?_⟩
        · intro i
          by_cases hi : i = d
          · subst hi; exact he.1
          · rw [fin2_ne hi]; exact ⟨he.2.1, h1⟩
        · intro i
          by_cases hi : i = d
          · subst hi; exact ⟨le_of_lt ho.2.1, le_of_lt ho.2.2⟩
          · rw [fin2_ne hi, ho.1 _ hd]; constructor <;> linarith
      · refine ⟨Function.update c (1 - d) (c (1 - d) - 1), ⟨?_, Function.update_of_ne hd.symm _ _,
          .inr (Function.update_self ..)⟩, x, hx, ?_⟩
        · intro i
          by_cases hi : i = d
          · subst hi; rw [Function.update_of_ne hd.symm]; exact he.1
          · rw [fin2_ne hi, Function.update_self]
            have := he.2; have := hpos (1 - d); omega
        · intro i
          by_cases hi : i = d
          · subst hi; rw [Function.update_of_ne hd.symm]; exact ⟨le_of_lt ho.2.1, le_of_lt ho.2.2⟩
          · rw [fin2_ne hi, Function.update_self, ho.1 _ hd]; push_cast; constructor <;> linarith
    · refine ⟨cell, ⟨hv, h1.symm, ?_⟩, (hac cell).1 hcell⟩
      rcases h2 (1 - d) with h | h
      · exact .inl h.symm
      · exact .inr (by omega)
  · rintro ⟨cell, ⟨hv, h1, h2⟩, hx⟩
    refine .inr ⟨cell, (hac cell).2 hx, hv, h1.symm, fun j => ?_⟩
    by_cases hj : j = d
    · subst hj; exact .inl h1.symm
    · rw [fin2_ne hj]; rcases h2 with h | h
      · exact .inl h.symm
      · exact .inr (by omega)

section
variable {cellShape : Coord 2} (O : GridOrder 2) (G : GridIndexer fun i => cellShape i + 1)
  (ac : List (Coord 2)) (cs : List (CrossingI 2)) (V : ℤ → Vertex 2) (stag : Fin 2 → Coord 2 → ℤ) (outside : Coord 2 → Bool)

/-- the state of a generated 2D mesh that `edge_grid_volume_matrix` reads: crossings with their indices (C17), active cells
(C20), the exterior grid built on the inactive cells, the vertex table, and the staggered index. -/
structure Setup : Prop where
  shape : ∀ i, 2 ≤ cellShape i
  norm : ∀ x ∈ cs, Normalised x.v
  flags : ∀ x ∈ cs, FlagsExact x.v
  index : IndexConsistent cs
  new : ∀ x ∈ cs, ¬ IsGridPoint x.v.p → G.size ≤ x.index
  active : ∀ c, c ∈ ac ↔ ∃ x ∈ cs, InClosedCell c x.v.p
  outside : ∀ c, (∀ i, 0 ≤ c i ∧ c i < cellShape i) → (outside c = false ↔ ∃ x ∈ cs, InClosedCell c x.v.p)
  table : VertexTable G cs V
  stag : StagInj cellShape stag

variable {ac cs V stag outside}
open Classical in
/-- **C50.** What the columns of `edge_grid_volume_matrix` add up to, when no mesh edge runs along a grid line: 1 for an edge of
the exterior (all cells beside it without crossings), and length over *cell area* otherwise, that is, one over the spacing of
the other axis. -/
theorem C50_edge_columns (S : Setup G ac cs V stag outside) (dx : Fin 2 → ℚ) (hdx : ∀ i, 0 < dx i) (mesh : List CutEdge2)
    (hmesh : ∀ e ∈ mesh, e.mask.count ≠ 1) (c : Coord 2) (d : Fin 2) (he : GridEdge cellShape c d) :
    colSum (edgeGridVolume stag dx V (ExteriorGrid.make O cellShape outside)
      (mesh ++ gridCutEdges G.idx cellShape (storeWithGrid cellShape ac cs))) (stag d c) =
      if ∃ cell, Beside cellShape cell c d ∧ ∃ x ∈ cs, InClosedCell cell x.v.p then 1 / dx (1 - d) else 1 := by
  unfold edgeGridVolume
  rw [colSum_append, edges_split, colSum_append,
    facets_column O cellShape outside S.shape stag S.stag _ c d he,
    grid_column G ac cs S.norm S.flags S.index S.new V S.table dx stag S.stag _ c d he]
  have h0 : colSum (mesh.zipIdx.filterMap fun e => edgeTriplet stag dx V e.2 e.1) (stag d c) = 0 := by
    have : (mesh.zipIdx.filterMap fun e => edgeTriplet stag dx V e.2 e.1) = [] := by
      rw [List.filterMap_eq_nil_iff]
      intro e hmem
      unfold edgeTriplet
      exact if_neg (hmesh e.1 (List.fst_mem_of_mem_zipIdx hmem))
    rw [this, colSum_nil]
  rw [h0, zero_add]
  have hiff := handled_iff ac cs S.norm S.flags S.index S.active c d he fun i => le_trans (by norm_num) (S.shape i)
  have hval : dx d / (dx 0 * dx 1) = 1 / dx (1 - d) := by
    have h0 := (hdx 0).ne'
    have h1 := (hdx 1).ne'
    match d with
    | 0 => show dx 0 / (dx 0 * dx 1) = 1 / dx 1; field_simp
    | 1 => show dx 1 / (dx 0 * dx 1) = 1 / dx 0; field_simp
  by_cases h : ∃ cell, Beside cellShape cell c d ∧ ∃ x ∈ cs, InClosedCell cell x.v.p
  · rw [if_pos (hiff.2 h), if_pos h, if_neg, zero_add, hval]
    obtain ⟨cell, hb, hx⟩ := h
    intro hout
    have := (S.outside cell hb.1).2 hx
    rw [hout cell hb] at this; cases this
  · rw [if_neg fun hh => h (hiff.1 hh), if_neg h, if_pos, add_zero]
    intro cell hb
    cases ho : outside cell
    · exact absurd ⟨cell, hb, (S.outside cell hb.1).1 ho⟩ h
    · rfl

/-- **C50.** With unit spacing (the case the project's test looks at) every column sums to one. -/
theorem C50_edge_unit_spacing (S : Setup G ac cs V stag outside) (dx : Fin 2 → ℚ) (hdx : ∀ i, dx i = 1) (mesh : List CutEdge2)
    (hmesh : ∀ e ∈ mesh, e.mask.count ≠ 1) (c : Coord 2) (d : Fin 2) (he : GridEdge cellShape c d) :
    colSum (edgeGridVolume stag dx V (ExteriorGrid.make O cellShape outside)
      (mesh ++ gridCutEdges G.idx cellShape (storeWithGrid cellShape ac cs))) (stag d c) = 1 := by
  rw [C50_edge_columns O G S dx (fun i => by rw [hdx]; norm_num) mesh hmesh c d he, hdx]
  simp

/-- **C50 (defect).** With any other spacing of the other axis, the columns of the cut grid edges do not sum to one. -/
theorem C50_edge_spacing_refuted (S : Setup G ac cs V stag outside) (dx : Fin 2 → ℚ) (hdx : ∀ i, 0 < dx i)
    (mesh : List CutEdge2) (hmesh : ∀ e ∈ mesh, e.mask.count ≠ 1) (c : Coord 2) (d : Fin 2) (he : GridEdge cellShape c d)
    (hd : dx (1 - d) ≠ 1) (cell : Coord 2) (hb : Beside cellShape cell c d) (x : CrossingI 2) (hx : x ∈ cs)
    (hin : InClosedCell cell x.v.p) :
    colSum (edgeGridVolume stag dx V (ExteriorGrid.make O cellShape outside)
      (mesh ++ gridCutEdges G.idx cellShape (storeWithGrid cellShape ac cs))) (stag d c) ≠ 1 := by
  rw [C50_edge_columns O G S dx hdx mesh hmesh c d he, if_pos ⟨cell, hb, x, hx, hin⟩]
  intro h
  have h1 := (hdx (1 - d)).ne'
  rw [div_eq_iff h1, one_mul] at h
  exact hd h.symm

open Classical in
/-- **C50 (defect).** A mesh edge that runs along a grid line is counted on top of the pieces of the grid edge: the column
then exceeds the value of C50_edge_columns by the mesh edge's length over the cell area. -/
theorem C50_mesh_edge_counted_twice_refuted (S : Setup G ac cs V stag outside) (dx : Fin 2 → ℚ)
    (e : CutEdge2) (len : ℚ) (hlen : e.meshLen = some len) (c : Coord 2) (d : Fin 2) (he : GridEdge cellShape c d)
    (hcount : e.mask.count = 1) (hax : e.mask.unboundAxis = some d) (hmin : minCoord V e.indices = c) :
    colSum (edgeGridVolume stag dx V (ExteriorGrid.make O cellShape outside)
      ([e] ++ gridCutEdges G.idx cellShape (storeWithGrid cellShape ac cs))) (stag d c) =
    colSum (edgeGridVolume stag dx V (ExteriorGrid.make O cellShape outside)
      ([] ++ gridCutEdges G.idx cellShape (storeWithGrid cellShape ac cs))) (stag d c) + len / (dx 0 * dx 1) := by
  unfold edgeGridVolume
  rw [colSum_append, colSum_append, edges_split, edges_split, colSum_append, colSum_append,
    facets_column O cellShape outside S.shape stag S.stag _ c d he,
    facets_column O cellShape outside S.shape stag S.stag _ c d he,
    grid_column G ac cs S.norm S.flags S.index S.new V S.table dx stag S.stag _ c d he,
    grid_column G ac cs S.norm S.flags S.index S.new V S.table dx stag S.stag _ c d he]
  have : colSum ([e].zipIdx.filterMap fun e => edgeTriplet stag dx V e.2 e.1) (stag d c) = len / (dx 0 * dx 1) := by
    simp [edgeTriplet, hcount, hax, hmin, edgeLength, hlen, colSum]
  rw [this]
  simp only [List.zipIdx_nil, List.filterMap_nil, colSum_nil]
  ring
end

/-! ## C50: faces in 2D -/

theorem fillOwnership_sum (index : Coord 2 → ℤ) (cells : List (Coord 2)) (w : ℕ → ℚ) (i : ℤ) :
    ((Locate.fillOwnership index cells).map fun p => if p.1 = i then (p.2.map w).sum else 0).sum =
      (((List.range cells.length).filter fun k => decide ((cells[k]?).map index = some i)).map w).sum := by
  obtain ⟨hs, hf⟩ := Locate.fillOwnership_find index cells i
  have hnd : (Locate.fillOwnership index cells).Nodup :=
    hs.imp fun {a b} hab heq => by
      subst heq
      have := strictTotal_intLt.irrefl a.1
      rw [hab] at this; cases this
  have hi := sum_indicator (Locate.fillOwnership index cells) hnd (fun p => p.1 = i) (by
    rintro ⟨a, x⟩ ha ⟨b, y⟩ hb rfl h2
    simp only at h2
    subst h2
    rw [OMap.sorted_unique strictTotal_intLt hs ha hb]) (fun p => (p.2.map w).sum)
  dsimp only at hf
  split at hf
  · rename_i h0
    rw [h0]
    refine hi.2 fun p hp hpi => ?_
    have : OMap.find intLt i (Locate.fillOwnership index cells) = some p.2 :=
      OMap.find_of_mem strictTotal_intLt hs (by rw [← hpi]; exact hp)
    rw [hf] at this; cases this
  · exact hi.1 _ (OMap.mem_of_find strictTotal_intLt hf) rfl

/-- **C50.** Faces in 2D: the column of a grid cell sums to one for an exterior cell, and to the total area of the cut faces
owned by the cell over the cell's area otherwise — so to one if the cut faces fill the cell — for any grid spacing. -/
theorem C50_face_columns (O : GridOrder 2) (shape : Coord 2) (outside : Coord 2 → Bool) (ix : GridIndexer shape)
    (cells : List (Coord 2)) (hcells : ∀ c ∈ cells, (∀ i, 0 ≤ c i ∧ c i < shape i) ∧ outside c = false) (area : ℕ → ℚ) (dv : ℚ)
    (c : Coord 2) (hc : ∀ i, 0 ≤ c i ∧ c i < shape i) :
    colSum (faceGridVolume ix.idx (Locate.fillOwnership ix.idx cells) area dv cells.length
      (ExteriorGrid.make O shape outside).cellCoords) (ix.idx c) =
      if outside c = true then 1
      else (((List.range cells.length).filter fun k => decide (cells[k]? = some c)).map fun k => area k).sum / dv := by
  unfold faceGridVolume
  rw [colSum_append, colSum_flatMap]
  have hcv := (validIndex_iff shape c).2 hc
  have h1 : ((Locate.fillOwnership ix.idx cells).map fun p =>
      colSum (p.2.map fun (k : ℕ) => ((k : ℤ), p.1, area k / dv)) (ix.idx c)) =
      (Locate.fillOwnership ix.idx cells).map fun p => if p.1 = ix.idx c then (p.2.map fun k => area k / dv).sum else 0 := by
    refine List.map_congr_left fun p _ => ?_
    unfold colSum
    split
    · rename_i h
      rw [List.filter_eq_self.2, List.map_map]
      · rfl
      · intro x hx
        obtain ⟨k, _, rfl⟩ := List.mem_map.1 hx
        simpa using h
    · rename_i h
      rw [List.filter_eq_nil_iff.2]
      · rfl
      · intro x hx
        obtain ⟨k, _, rfl⟩ := List.mem_map.1 hx
        simpa using h
  rw [h1, fillOwnership_sum]
  have h2 : ((List.range cells.length).filter fun k => decide ((cells[k]?).map ix.idx = some (ix.idx c))) =
      (List.range cells.length).filter fun k => decide (cells[k]? = some c) := by
    refine List.filter_congr fun k hk => ?_
    rw [decide_eq_decide]
    cases hk : cells[k]? with
    | none => simp
    | some a =>
      simp only [Option.map_some, Option.some.injEq]
      constructor
      · intro h
        exact ix.inj a c ((validIndex_iff shape a).2 (hcells a (List.mem_of_getElem? hk)).1) hcv h
      · rintro rfl; rfl
  rw [h2]
  have h3 : colSum ((ExteriorGrid.make O shape outside).cellCoords.zipIdx.map
      fun c => ((c.2 : ℤ) + (cells.length : ℤ), ix.idx c.1, (1 : ℚ))) (ix.idx c) = if outside c = true then 1 else 0 := by
    have hz := colSum_filterMap_zipIdx (fun r a => some (r, ix.idx a, (1 : ℚ))) (ExteriorGrid.make O shape outside).cellCoords
      cells.length 0 (ix.idx c) (fun a => if a = c then 1 else 0) (by
        intro r a ha
        obtain ⟨k, hk⟩ := List.getElem?_of_mem ha
        have hav := (((C21_bijection O shape outside).2.2 k a).1 hk).1.1
        simp only [Option.toList_some, colSum, List.filter_cons, List.filter_nil]
        by_cases h : a = c
        · subst h; simp
        · have : ix.idx a ≠ ix.idx c := fun hh => h (ix.inj a c ((validIndex_iff shape a).2 hav) hcv hh)
          simp [h, this])
    rw [List.filterMap_eq_map'] at hz
    rw [show ((ExteriorGrid.make O shape outside).cellCoords.zipIdx.map
      fun c => ((c.2 : ℤ) + (cells.length : ℤ), ix.idx c.1, (1 : ℚ))) = _ from rfl, hz]
    have hnd : (ExteriorGrid.make O shape outside).cellCoords.Nodup := by
      rw [List.nodup_iff_getElem?_ne_getElem?]
      intro i j hij hj heq
      obtain ⟨a, ha⟩ : ∃ a, (ExteriorGrid.make O shape outside).cellCoords[j]? = some a :=
        ⟨_, List.getElem?_eq_getElem hj⟩
      have h1 := ((C21_bijection O shape outside).2.2 j a).1 ha
      have h2 := ((C21_bijection O shape outside).2.2 i a).1 (heq.trans ha)
      have := h1.2.symm.trans h2.2
      omega
    have hi := sum_indicator _ hnd (fun a => a = c) (by rintro a _ b _ rfl h; exact h.symm) (fun _ => 1)
    split
    · rename_i ho
      obtain ⟨k, _, hk⟩ := (C21_bijection O shape outside).1 c ⟨hc, ho⟩
      exact hi.1 c (List.mem_of_getElem? (((C21_bijection O shape outside).2.2 k c).2 ⟨⟨hc, ho⟩, hk⟩)) rfl
    · rename_i ho
      refine hi.2 fun a ha hac => ho ?_
      obtain ⟨k, hk⟩ := List.getElem?_of_mem ha
      rw [← hac]
      exact (((C21_bijection O shape outside).2.2 k a).1 hk).1.2
  rw [h3]
  split
  · rename_i ho
    have : ((List.range cells.length).filter fun k => decide (cells[k]? = some c)) = [] := by
      rw [List.filter_eq_nil_iff]
      intro k _ hk
      have := (hcells c (List.mem_of_getElem? (of_decide_eq_true hk))).2
      rw [ho] at this; cases this
    rw [this]; simp
  · rw [add_zero]
    have : ((List.range cells.length).filter fun k => decide (cells[k]? = some c)).map (fun k => area k / dv) =
        ((List.range cells.length).filter fun k => decide (cells[k]? = some c)).map fun k => area k * dv⁻¹ :=
      List.map_congr_left fun k _ => div_eq_mul_inv _ _
    rw [this, List.sum_map_mul_right, div_eq_mul_inv]

/-- **C50.** … so to one if the cut faces fill the cell. -/
theorem C50_face_partition (O : GridOrder 2) (shape : Coord 2) (outside : Coord 2 → Bool) (ix : GridIndexer shape)
    (cells : List (Coord 2)) (hcells : ∀ c ∈ cells, (∀ i, 0 ≤ c i ∧ c i < shape i) ∧ outside c = false) (area : ℕ → ℚ) (dv : ℚ)
    (hdv : dv ≠ 0) (c : Coord 2) (hc : ∀ i, 0 ≤ c i ∧ c i < shape i)
    (hfill : outside c = false →
      (((List.range cells.length).filter fun k => decide (cells[k]? = some c)).map fun k => area k).sum = dv) :
    colSum (faceGridVolume ix.idx (Locate.fillOwnership ix.idx cells) area dv cells.length
      (ExteriorGrid.make O shape outside).cellCoords) (ix.idx c) = 1 := by
  rw [C50_face_columns O shape outside ix cells hcells area dv c hc]
  cases ho : outside c
  · rw [if_neg (by simp), hfill ho, div_self hdv]
  · rw [if_pos rfl]

/-! ## C50: faces in 3D -/

theorem minCorner_cons (V : ℤ → Vertex 3) (i : ℤ) (l : List ℤ) :
    ∃ c, minCorner V (i :: l) = some c ∧ ∀ k, (∀ j ∈ i :: l, c k ≤ (V j).coord k) ∧ ∃ j ∈ i :: l, c k = (V j).coord k := by
  unfold minCorner
  rw [List.foldl_cons]
  dsimp only
  have : ∀ (l : List ℤ) (c : Coord 3), ∃ c', l.foldl (fun c i => match c with
      | none => some (V i).coord
      | some c => some fun k => min (c k) ((V i).coord k)) (some c) = some c' ∧
      ∀ k, c' k ≤ c k ∧ (∀ j ∈ l, c' k ≤ (V j).coord k) ∧ (c' k = c k ∨ ∃ j ∈ l, c' k = (V j).coord k) := by
    intro l
    induction l with
    | nil => intro c; exact ⟨c, rfl, fun k => ⟨le_rfl, nofun, .inl rfl⟩⟩
    | cons a l ih =>
      intro c
      obtain ⟨c', h1, h2⟩ := ih fun k => min (c k) ((V a).coord k)
      refine ⟨c', h1, fun k => ?_⟩
      obtain ⟨h3, h4, h5⟩ := h2 k
      refine ⟨le_trans h3 (min_le_left _ _), ?_, ?_⟩
      · intro j hj
        rcases List.mem_cons.1 hj with rfl | hj
        · exact le_trans h3 (min_le_right _ _)
        · exact h4 j hj
      · rcases h5 with h5 | ⟨j, hj, h5⟩
        · rcases min_choice (c k) ((V a).coord k) with h | h
          · exact .inl (h5.trans h)
          · exact .inr ⟨a, List.mem_cons_self, h5.trans h⟩
        · exact .inr ⟨j, List.mem_cons_of_mem _ hj, h5⟩
  obtain ⟨c', h1, h2⟩ := this l (V i).coord
  refine ⟨c', h1, fun k => ?_⟩
  obtain ⟨h3, h4, h5⟩ := h2 k
  refine ⟨fun j hj => ?_, ?_⟩
  · rcases List.mem_cons.1 hj with rfl | hj
    · exact h3
    · exact h4 j hj
  · rcases h5 with h | ⟨j, hj, h⟩
    · exact ⟨i, List.mem_cons_self, h⟩
    · exact ⟨j, List.mem_cons_of_mem _ hj, h⟩

/-- **C50.** The column chosen for a cut face lying in the grid face with corner `c` and normal `axis` is that grid face's,
whenever the cut face has some vertex below the upper side in each tangential direction (that is, it has area). -/
theorem C50_face3_corner (V : ℤ → Vertex 3) (l : List ℤ) (hN : ∀ i ∈ l, Normalised (V i)) (c : Coord 3) (axis : Fin 3)
    (hplane : ∀ i ∈ l, (V i).p axis = c axis) (hne : l ≠ [])
    (hin : ∀ i ∈ l, ∀ k, k ≠ axis → (c k : ℚ) ≤ (V i).p k ∧ (V i).p k ≤ c k + 1)
    (hlow : ∀ k, k ≠ axis → ∃ i ∈ l, (V i).p k < c k + 1) : minCorner V l = some c := by
  match l, hne with
  | i :: l, _ =>
    obtain ⟨c', h1, h2⟩ := minCorner_cons V i l
    rw [h1, Option.some.injEq]
    funext k
    obtain ⟨h3, j, hj, h4⟩ := h2 k
    by_cases hk : k = axis
    · subst hk
      rw [h4, Vertex.normalised_coord _ (hN j hj), hplane j hj]; simp
    · apply le_antisymm
      · obtain ⟨m, hm, hlt⟩ := hlow k hk
        refine le_trans (h3 m hm) ?_
        rw [Vertex.normalised_coord _ (hN m hm)]
        have : ⌊(V m).p k⌋ < c k + 1 := Int.floor_lt.2 (by push_cast; exact hlt)
        omega
      · rw [h4, Vertex.normalised_coord _ (hN j hj)]
        exact Int.le_floor.2 (hin j hj k hk).1

/-- `staggered_index<2>` is injective on a set of grid faces containing those used (mtao library). -/
def StagInj3 (ok : Fin 3 → Coord 3 → Prop) (stag : Fin 3 → Coord 3 → ℤ) : Prop :=
  ∀ d d' c c', ok d c → ok d' c' → stag d c = stag d' c' → d = d' ∧ c = c'

/-- the cut faces put in the column of grid face `(axis, c)`. -/
def InColumn (V : ℤ → Vertex 3) (includeMesh : Bool) (axis : Fin 3) (c : Coord 3) (f : CutFace3) : Bool :=
  (if includeMesh then decide (f.mask.count = 1) else f.axial) && decide (f.mask.boundAxis = some axis) &&
    decide (minCorner V f.loops.flatten = some c)

/-- **C50.** Faces in 3D: the column of a grid face sums, over the cut faces put there, area times normal component over the
area of the grid face. -/
theorem C50_face3_columns (ok : Fin 3 → Coord 3 → Prop) (stag : Fin 3 → Coord 3 → ℤ) (hst : StagInj3 ok stag) (dx : Fin 3 → ℚ)
    (V : ℤ → Vertex 3) (im : Bool) (FV : ℕ → ℚ) (faces : List CutFace3)
    (hok : ∀ f ∈ faces, ∀ a c, InColumn V im a c f = true → ok a c)
    (axis : Fin 3) (c : Coord 3) (h : ok axis c) :
    colSum (faceGridVolume3 stag dx V im FV faces) (stag axis c) =
      ((faces.zipIdx.filter fun f => InColumn V im axis c f.1).map fun f => FV f.2 * f.1.normal axis).sum /
        gridFaceArea dx axis := by
  unfold faceGridVolume3
  generalize 0 = n
  induction faces generalizing n with
  | nil => simp [colSum_nil]
  | cons f l ih =>
    have ih := ih (fun g hg => hok g (List.mem_cons_of_mem _ hg)) (n + 1)
    have key : colSum (faceTriplet3 stag dx V im n (FV n) f).toList (stag axis c) =
        if InColumn V im axis c f = true then FV n * f.normal axis / gridFaceArea dx axis else 0 := by
      unfold faceTriplet3
      have hok' := hok f List.mem_cons_self
      unfold InColumn at hok' ⊢
      dsimp only
      generalize (if im = true then decide (f.mask.count = 1) else f.axial) = inc at hok' ⊢
      cases inc
      · simp [colSum_nil]
      · cases hb : f.mask.boundAxis with
        | none => simp [colSum_nil]
        | some a =>
          cases hm : minCorner V f.loops.flatten with
          | none => simp [colSum_nil]
          | some c' =>
            have hoka : ok a c' := hok' a c' (by simp [hb, hm])
            simp only [if_true, Option.toList_some, colSum, List.filter_cons, List.filter_nil]
            by_cases he : stag a c' = stag axis c
            · obtain ⟨rfl, rfl⟩ := hst _ _ _ _ hoka h he
              simp; ring
            · have : ¬ (a = axis ∧ c' = c) := by rintro ⟨rfl, rfl⟩; exact he rfl
              simp [he, this]
    rw [List.zipIdx_cons, colSum_filterMap_cons, List.filter_cons]
    dsimp only
    rw [key, ih]
    split <;> simp [add_div]

/-- **C50.** … so it sums to one if the normals of these faces point along the axis (as the generator's axial faces do) and
they fill the grid face. -/
theorem C50_face3_partition (ok : Fin 3 → Coord 3 → Prop) (stag : Fin 3 → Coord 3 → ℤ) (hst : StagInj3 ok stag) (dx : Fin 3 → ℚ)
    (V : ℤ → Vertex 3) (im : Bool) (FV : ℕ → ℚ) (faces : List CutFace3)
    (hok : ∀ f ∈ faces, ∀ a c, InColumn V im a c f = true → ok a c)
    (axis : Fin 3) (c : Coord 3) (h : ok axis c) (hn : ∀ f ∈ faces, InColumn V im axis c f = true → f.normal axis = 1)
    (hA : gridFaceArea dx axis ≠ 0)
    (hfill : ((faces.zipIdx.filter fun f => InColumn V im axis c f.1).map fun f => FV f.2).sum = gridFaceArea dx axis) :
    colSum (faceGridVolume3 stag dx V im FV faces) (stag axis c) = 1 := by
  rw [C50_face3_columns ok stag hst dx V im FV faces hok axis c h]
  have : ((faces.zipIdx.filter fun f => InColumn V im axis c f.1).map fun f => FV f.2 * f.1.normal axis) =
      (faces.zipIdx.filter fun f => InColumn V im axis c f.1).map fun f => FV f.2 := by
    refine List.map_congr_left fun f hf => ?_
    rw [List.mem_filter] at hf
    rw [hn f.1 (List.fst_mem_of_mem_zipIdx hf.1) hf.2, mul_one]
  rw [this, hfill, div_self hA]

/-- **C50.** The area used for a grid face is the product of the spacings of the two axes in the face. -/
theorem C50_grid_face_area (dx : Fin 3 → ℚ) (axis a b : Fin 3) (h1 : a ≠ axis) (h2 : b ≠ axis) (h3 : a ≠ b) :
    gridFaceArea dx axis = dx a * dx b := by
  unfold gridFaceArea
  have : ∀ axis a b : Fin 3, a ≠ axis → b ≠ axis → a ≠ b → (axis = 0 ∧ a = 1 ∧ b = 2) ∨ (axis = 0 ∧ a = 2 ∧ b = 1) ∨
      (axis = 1 ∧ a = 0 ∧ b = 2) ∨ (axis = 1 ∧ a = 2 ∧ b = 0) ∨ (axis = 2 ∧ a = 0 ∧ b = 1) ∨ (axis = 2 ∧ a = 1 ∧ b = 0) := by
    intro axis a b; omega
  rcases this axis a b h1 h2 h3 with ⟨rfl, rfl, rfl⟩ | ⟨rfl, rfl, rfl⟩ | ⟨rfl, rfl, rfl⟩ | ⟨rfl, rfl, rfl⟩ | ⟨rfl, rfl, rfl⟩ |
    ⟨rfl, rfl, rfl⟩ <;> simp [mul_comm]

/-! ## the hypotheses are met -/

/-- staggered index of a 2x2 grid: six horizontal edges, then six vertical ones. -/
def stag22 (d : Fin 2) (c : Coord 2) : ℤ := if d = 0 then c 0 + 2 * c 1 else 6 + c 0 + 3 * c 1

theorem stag22_inj : StagInj ![2, 2] stag22 := by
  intro d d' c c' h h' he
  match d, d' with
  | 0, 0 =>
    have h1 : 0 ≤ c 0 ∧ c 0 < 2 := h.1
    have h2 : 0 ≤ c' 0 ∧ c' 0 < 2 := h'.1
    have e : c 0 + 2 * c 1 = c' 0 + 2 * c' 1 := he
    exact ⟨rfl, coord2_ext 0 (by omega) (show c 1 = c' 1 by omega)⟩
  | 1, 1 =>
    have h1 : 0 ≤ c 0 ∧ c 0 ≤ 2 := h.2
    have h2 : 0 ≤ c' 0 ∧ c' 0 ≤ 2 := h'.2
    have e : 6 + c 0 + 3 * c 1 = 6 + c' 0 + 3 * c' 1 := he
    exact ⟨rfl, coord2_ext 0 (by omega) (show c 1 = c' 1 by omega)⟩
  | 0, 1 =>
    have h1 : 0 ≤ c 0 ∧ c 0 < 2 := h.1
    have h3 : 0 ≤ c 1 ∧ c 1 ≤ 2 := h.2
    have h2 : 0 ≤ c' 0 ∧ c' 0 ≤ 2 := h'.2
    have h4 : 0 ≤ c' 1 ∧ c' 1 < 2 := h'.1
    have e : c 0 + 2 * c 1 = 6 + c' 0 + 3 * c' 1 := he
    omega
  | 1, 0 =>
    have h1 : 0 ≤ c' 0 ∧ c' 0 < 2 := h'.1
    have h3 : 0 ≤ c' 1 ∧ c' 1 ≤ 2 := h'.2
    have h2 : 0 ≤ c 0 ∧ c 0 ≤ 2 := h.2
    have h4 : 0 ≤ c 1 ∧ c 1 < 2 := h.1
    have e : 6 + c 0 + 3 * c 1 = c' 0 + 2 * c' 1 := he
    omega

/-- a 2x2 grid with one crossing in the middle of the horizontal edge from (0,1) to (1,1): that edge's column sums to 1/3 when
the vertical spacing is 3, and the exterior edge from (1,0) to (2,0) has sum 1. -/
example :
    let cs : List (CrossingI 2) := [⟨Vertex.fromVertex ![1 / 2, 1], 9⟩]
    let V : ℤ → Vertex 2 := fun i => if i = 9 then Vertex.fromVertex ![1 / 2, 1] else Vertex.ofCoord ![i % 3, i / 3]
    let M := edgeGridVolume stag22 ![2, 3] V
      (ExteriorGrid.make (lexOrder 2) ![2, 2] fun c => !decide (c = ![0, 0] ∨ c = ![0, 1]))
      ([] ++ gridCutEdges (linIndex 2 ![3, 3]) ![2, 2] (storeWithGrid ![2, 2] [![0, 0], ![0, 1]] cs))
    colSum M (stag22 0 ![0, 1]) = 1 / 3 ∧ colSum M (stag22 0 ![1, 0]) = 1 ∧ colSum M (stag22 1 ![0, 0]) = 1 / 2 := by
  decide +kernel

example : Setup (cellShape := ![2, 2]) (linIndexer (fun i => (![2, 2] : Coord 2) i + 1) (by decide)) [![0, 0], ![0, 1]]
    [⟨Vertex.fromVertex ![1 / 2, 1], 9⟩]
    (fun i => if i = 9 then Vertex.fromVertex ![1 / 2, 1] else Vertex.ofCoord ![i % 3, i / 3]) stag22
    (fun c => !decide (c = ![0, 0] ∨ c = ![0, 1])) := by
  have hp : (Vertex.fromVertex (![1 / 2, 1] : Pt 2)).p = ![1 / 2, 1] := by decide +kernel
  have hcell : ∀ c : Coord 2, InClosedCell c (![1 / 2, 1] : Pt 2) ↔ c = ![0, 0] ∨ c = ![0, 1] := by
    intro c
    constructor
    · intro h
      have h0 := h 0
      have h1 := h 1
      simp at h0 h1
      have a1 : c 0 = 0 := by
        have : c 0 < 1 := by exact_mod_cast (lt_of_le_of_lt h0.1 (by norm_num) : (c 0 : ℚ) < 1)
        have : -1 < c 0 := by
          have : (-1 : ℚ) < c 0 := by linarith [h0.2]
          exact_mod_cast this
        omega
      have a2 : c 1 ≤ 1 := by exact_mod_cast h1.1
      have a3 : 0 ≤ c 1 := by exact_mod_cast h1.2
      have : c 1 = 0 ∨ c 1 = 1 := by omega
      rcases this with h | h
      · exact .inl (coord2_ext 0 a1 h)
      · exact .inr (coord2_ext 0 a1 h)
    · rintro (rfl | rfl) i <;> match i with
        | 0 => exact ⟨by norm_num, by norm_num⟩
        | 1 => exact ⟨by norm_num, by norm_num⟩
  have hng : ¬ IsGridPoint (![1 / 2, 1] : Pt 2) := by
    intro h
    obtain ⟨n, hn⟩ := h 0
    have : (1 / 2 : ℚ) = n := hn
    have h2 : (1 : ℚ) = (2 * n : ℤ) := by push_cast; rw [← this]; norm_num
    have h3 : (1 : ℤ) = 2 * n := by exact_mod_cast h2
    omega
  refine ⟨by decide, ?_, ?_, ?_, ?_, ?_, ?_, ⟨?_, ?_⟩, stag22_inj⟩
  · intro x hx
    rw [List.mem_singleton] at hx; subst hx
    exact Vertex.fromVertex_normalised _
  · intro x hx
    rw [List.mem_singleton] at hx; subst hx
    refine fun i => ?_
    simp only [Vertex.fromVertex, Vertex.bsFromQuot, decide_eq_true_eq]
    exact Vertex.quot_zero_iff _ (Vertex.fromVertex_normalised ![1 / 2, 1]) i
  · intro x hx y hy
    rw [List.mem_singleton] at hx hy; subst hx; subst hy; simp
  · intro x hx _
    rw [List.mem_singleton] at hx; subst hx
    decide
  · intro c
    simp only [List.mem_singleton, exists_eq_left, hp, hcell, List.mem_cons, List.not_mem_nil, or_false]
  · intro c _
    simp only [List.mem_singleton, exists_eq_left, hp, hcell]
    simp only [Bool.not_eq_false', decide_eq_true_eq]
  · intro c hc
    have h := (validIndex_iff _ _).1 hc
    have h0 : 0 ≤ c 0 ∧ c 0 < 3 := h 0
    have h1 : 0 ≤ c 1 ∧ c 1 < 3 := h 1
    have hi : (linIndexer (fun i => (![2, 2] : Coord 2) i + 1) (by decide)).idx c = c 0 + 3 * c 1 := by
      show c 0 + (2 + 1) * (c 1 + (2 + 1) * 0) = _
      ring
    rw [hi]
    rw [if_neg (by omega)]
    congr 1
    refine coord2_ext 0 ?_ ?_
    · show (c 0 + 3 * c 1) % 3 = c 0; omega
    · show (c 0 + 3 * c 1) / 3 = c 1; omega
  · intro x hx _
    rw [List.mem_singleton] at hx; subst hx
    exact ⟨rfl, Vertex.fromVertex_normalised _⟩
end Mandoline.GridVolume
