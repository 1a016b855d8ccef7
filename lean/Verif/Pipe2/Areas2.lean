import Verif.Pipe2.Demo
import Verif.Mesh.Centroid2

/-!
# C126: the areas of the cells of a 2D mesh

`operators::face_volumes(const CutCellMesh<2>&, bool)` (src/operators/volume2.cpp:11-44), `cell_volumes(ExteriorGrid)`
(include/mandoline/operators/volume_impl.hpp:35-39). Positions of vertices are `origin + dx * (grid position)`
(`vertices()` of the mesh, world coordinates).
-/
namespace Mandoline
namespace Areas2
open Sched Planar Pipe2

/-- what `face_volumes` reads of a cut face: its loops, and the triangles of the cached triangulation if there is one. -/
structure AFace2 where
  loops : List (List ℤ)
  triangulation : Option (List (ℤ × ℤ × ℤ))

/-- signed area of a triangle: an entry of `mtao::geometry::volumes(V, T)` (geometry library, assumed signed for
triangles in the plane). -/
def triVolume (V : ℤ → Dir) (t : ℤ × ℤ × ℤ) : ℚ := Centroid2.T2.area (V t.1, V t.2.1, V t.2.2)

/-- the entry of a cut face before `cwiseAbs` (volume2.cpp:15-37). -/
def cutVolume (V : ℤ → Dir) (fromTri : Bool) (f : AFace2) : ℚ :=
  match fromTri, f.triangulation with
  | true, some T => (T.map (triVolume V)).sum
  | _, _ => f.loops.foldl (fun v l => v + curveVolume V l) 0

/-- `face_volumes` (volume2.cpp:11-44): `nExt` is the number of exterior cells. (`minCoeff` of an empty vector is
undefined in the library; the model returns the empty vector.) -/
def faceVolumes (V : ℤ → Dir) (dx : Fin 2 → ℚ) (faces : List AFace2) (nExt : ℕ) (fromTri : Bool) : List ℚ :=
  let FV := faces.map (cutVolume V fromTri) ++ List.replicate nExt (dx 0 * dx 1)
  if FV.any fun x => decide (x < 0) then FV.map fun x => |x| else FV

/-- a vertex position in world coordinates: `origin + dx * p`. -/
def world (origin dx : Fin 2 → ℚ) (pos : ℤ → Dir) (v : ℤ) : Dir :=
  (origin 0 + dx 0 * (pos v).1, origin 1 + dx 1 * (pos v).2)

/-! ## the numbers -/

theorem foldl_add {α : Type*} (f : α → ℚ) (l : List α) (a : ℚ) : l.foldl (fun v x => v + f x) a = a + (l.map f).sum := by
  induction l generalizing a with
  | nil => simp
  | cons x l ih => rw [List.foldl_cons, ih, List.map_cons, List.sum_cons]; ring

theorem cutVolume_loops (V : ℤ → Dir) (fromTri : Bool) (f : AFace2) (h : fromTri = false ∨ f.triangulation = none) :
    cutVolume V fromTri f = (f.loops.map (shoelace V)).sum := by
  have e : f.loops.foldl (fun v l => v + curveVolume V l) 0 = (f.loops.map (shoelace V)).sum := by
    rw [foldl_add, zero_add, List.map_congr_left fun l _ => Gen2.curveVolume_eq V l]
  unfold cutVolume
  rcases h with rfl | h
  · exact e
  · rw [h]; cases fromTri <;> exact e

theorem faceVolumes_abs (V : ℤ → Dir) (dx : Fin 2 → ℚ) (faces : List AFace2) (nExt : ℕ) (fromTri : Bool) :
    faceVolumes V dx faces nExt fromTri =
      (faces.map (cutVolume V fromTri) ++ List.replicate nExt (dx 0 * dx 1)).map fun x => |x| := by
  unfold faceVolumes
  dsimp only
  split_ifs with h
  · rfl
  · symm
    conv_rhs => rw [← List.map_id (faces.map (cutVolume V fromTri) ++ List.replicate nExt (dx 0 * dx 1))]
    refine List.map_congr_left fun x hx => abs_of_nonneg ?_
    by_contra hn
    exact h (List.any_eq_true.2 ⟨x, hx, decide_eq_true (not_le.1 hn)⟩)

/-- **C126.** One non-negative number per cell, cut cells first. -/
theorem C126_one_per_cell (V : ℤ → Dir) (dx : Fin 2 → ℚ) (faces : List AFace2) (nExt : ℕ) (fromTri : Bool) :
    (faceVolumes V dx faces nExt fromTri).length = faces.length + nExt ∧
    ∀ x ∈ faceVolumes V dx faces nExt fromTri, 0 ≤ x := by
  rw [faceVolumes_abs]
  refine ⟨by simp, fun x hx => ?_⟩
  obtain ⟨y, _, rfl⟩ := List.mem_map.1 hx
  exact abs_nonneg y

/-- **C126.** The number of an exterior cell is the product of the spacings. -/
theorem C126_exterior (V : ℤ → Dir) (dx : Fin 2 → ℚ) (hdx : ∀ i, 0 < dx i) (faces : List AFace2) (nExt : ℕ)
    (fromTri : Bool) (k : ℕ) (hk : k < nExt) :
    (faceVolumes V dx faces nExt fromTri)[faces.length + k]? = some (dx 0 * dx 1) := by
  rw [faceVolumes_abs, List.getElem?_map, List.getElem?_append_right (by simp)]
  simp only [List.length_map, Nat.add_sub_cancel_left, List.getElem?_replicate, hk, if_true, Option.map_some]
  rw [abs_of_pos (mul_pos (hdx 0) (hdx 1))]

theorem sum_div2 {α : Type*} (g : α → ℚ) (l : List α) : (l.map fun e => g e / 2).sum = (l.map g).sum / 2 := by
  induction l with
  | nil => simp
  | cons a l ih => rw [List.map_cons, List.sum_cons, ih, List.map_cons, List.sum_cons]; ring

theorem shoelace_polyEdges (V : ℤ → Dir) (l : List ℤ) :
    shoelace V l = ((Centroid2.polyEdges V l).map Centroid2.edgeDet).sum / 2 := by
  unfold shoelace Centroid2.polyEdges
  rw [List.map_map, ← sum_div2]
  rfl

/-- **C126.** Without triangulations: the number of a cut face whose loops (holes included) bound a figure is the
area of the figure, in absolute value. -/
theorem C126_cut_area (V : ℤ → Dir) (dx : Fin 2 → ℚ) (faces : List AFace2) (nExt : ℕ) (fromTri : Bool) (k : ℕ)
    (f : AFace2) (hk : faces[k]? = some f) (ht : fromTri = false ∨ f.triangulation = none)
    (figure : List Centroid2.T2) (hb : Centroid2.Bounds V f.loops figure) :
    (faceVolumes V dx faces nExt fromTri)[k]? = some |Centroid2.area figure| := by
  have hlt : k < faces.length := (List.getElem?_eq_some_iff.1 hk).1
  rw [faceVolumes_abs, List.getElem?_map, List.getElem?_append_left (by simpa using hlt), List.getElem?_map, hk,
    Option.map_some, Option.map_some, cutVolume_loops V fromTri f ht]
  have hd := hb Centroid2.edgeDet (fun a b => by simp only [Centroid2.edgeDet]; ring)
  simp only [Centroid2.det_edges] at hd
  rw [← Centroid2.sum_mul] at hd
  have e : (f.loops.map (shoelace V)).sum = Centroid2.area figure := by
    rw [List.map_congr_left fun l _ => shoelace_polyEdges V l, sum_div2, hd, Centroid2.area]; ring
  rw [e]

/-- **C126.** With `from_triangulation`, the number of a face that has a triangulation is the same as without if the
triangles have the loops of the face as their boundary. -/
theorem C126_triangulated (V : ℤ → Dir) (dx : Fin 2 → ℚ) (faces : List AFace2) (nExt : ℕ)
    (h : ∀ f ∈ faces, ∀ T, f.triangulation = some T →
      Centroid2.Bounds V f.loops (T.map fun t => (V t.1, V t.2.1, V t.2.2))) :
    faceVolumes V dx faces nExt true = faceVolumes V dx faces nExt false := by
  rw [faceVolumes_abs, faceVolumes_abs]
  congr 2
  refine List.map_congr_left fun f hf => ?_
  rw [cutVolume_loops V false f (Or.inl rfl)]
  cases ht : f.triangulation with
  | none => exact cutVolume_loops V true f (Or.inr ht)
  | some T =>
    have hd := h f hf T ht Centroid2.edgeDet (fun a b => by simp only [Centroid2.edgeDet]; ring)
    simp only [Centroid2.det_edges] at hd
    rw [← Centroid2.sum_mul] at hd
    rw [List.map_congr_left fun l _ => shoelace_polyEdges V l, sum_div2, hd]
    unfold cutVolume
    rw [ht, List.map_map]
    simp only [Function.comp_def]
    show (T.map fun t => Centroid2.T2.area (V t.1, V t.2.1, V t.2.2)).sum = _
    ring

/-! ## scaling -/

theorem sum_rotate_diff (f : ℤ → ℚ) (l : List ℤ) : ((l.zip (l.rotate 1)).map fun e => f e.2 - f e.1).sum = 0 := by
  have h1 : (l.zip (l.rotate 1)).map Prod.fst = l := by rw [List.map_fst_zip]; simp
  have h2 : (l.zip (l.rotate 1)).map Prod.snd = l.rotate 1 := by rw [List.map_snd_zip]; simp
  have e : ∀ L : List (ℤ × ℤ), (L.map fun e => f e.2 - f e.1).sum =
      ((L.map Prod.snd).map f).sum - ((L.map Prod.fst).map f).sum := by
    intro L
    induction L with
    | nil => simp
    | cons a L ih => simp only [List.map_cons, List.sum_cons, ih]; ring
  rw [e, h1, h2, ((List.rotate_perm l 1).map f).sum_eq, sub_self]

/-- the area in world coordinates is the area in grid coordinates times the area of a grid cell. -/
theorem shoelace_world (origin dx : Fin 2 → ℚ) (pos : ℤ → Dir) (l : List ℤ) :
    shoelace (world origin dx pos) l = dx 0 * dx 1 * shoelace pos l := by
  have h := sum_rotate_diff (fun v => (origin 0 * (dx 1 * (pos v).2) - origin 1 * (dx 0 * (pos v).1)) / 2) l
  unfold shoelace
  generalize l.zip (l.rotate 1) = L at h ⊢
  have key : ∀ L : List (ℤ × ℤ), (L.map fun e => ((world origin dx pos e.1).1 * (world origin dx pos e.2).2 -
      (world origin dx pos e.2).1 * (world origin dx pos e.1).2) / 2).sum =
      dx 0 * dx 1 * (L.map fun e => ((pos e.1).1 * (pos e.2).2 - (pos e.2).1 * (pos e.1).2) / 2).sum +
      (L.map fun e => (origin 0 * (dx 1 * (pos e.2).2) - origin 1 * (dx 0 * (pos e.2).1)) / 2 -
        (origin 0 * (dx 1 * (pos e.1).2) - origin 1 * (dx 0 * (pos e.1).1)) / 2).sum := by
    intro L
    induction L with
    | nil => simp
    | cons a L ih =>
      simp only [List.map_cons, List.sum_cons, ih]
      unfold world
      ring
  rw [key, h, add_zero]

/-! ## the sum over a cell -/

/-- sums over a list by the value of a partial classification. -/
theorem sum_by_owner {α β : Type*} [DecidableEq β] (L : List α) (owner : α → Option β) (S : Finset β) (f : α → ℚ)
    (h : ∀ x ∈ L, ∃ c ∈ S, owner x = some c) :
    (L.map f).sum = ∑ c ∈ S, ((L.filter fun x => decide (owner x = some c)).map f).sum := by
  induction L with
  | nil => simp
  | cons x L ih =>
    obtain ⟨c0, hc0, hx⟩ := h x List.mem_cons_self
    have e : ∀ c, (((x :: L).filter fun x => decide (owner x = some c)).map f).sum =
        (if c0 = c then f x else 0) + ((L.filter fun x => decide (owner x = some c)).map f).sum := by
      intro c
      rw [List.filter_cons]
      by_cases hc : c0 = c
      · subst hc; simp [hx]
      · rw [hx, if_neg (by simpa using hc), if_neg hc, zero_add]
    rw [List.map_cons, List.sum_cons, ih fun y hy => h y (List.mem_cons_of_mem _ hy)]
    simp only [e]
    rw [Finset.sum_add_distrib, Finset.sum_ite_eq, if_pos hc0]

theorem sum_flatten_map {α : Type*} (f : α → ℚ) (L : List (List α)) :
    (L.map fun F => (F.map f).sum).sum = (L.flatten.map f).sum := by
  induction L with
  | nil => rfl
  | cons F L ih => rw [List.map_cons, List.sum_cons, List.flatten_cons, List.map_append, List.sum_append, ih]

theorem filter_flatten {α : Type*} (D : α → Bool) (D' : List α → Bool) (L : List (List α))
    (h : ∀ F ∈ L, ∀ p ∈ F, D p = D' F) : L.flatten.filter D = (L.filter D').flatten := by
  induction L with
  | nil => rfl
  | cons F L ih =>
    rw [List.flatten_cons, List.filter_append, ih fun G hG => h G (List.mem_cons_of_mem _ hG), List.filter_cons]
    have hF := h F List.mem_cons_self
    cases hD : D' F with
    | true =>
      rw [if_pos rfl, List.flatten_cons, List.filter_eq_self.2 fun p hp => by rw [hF p hp, hD]]
    | false =>
      rw [if_neg (by simp), List.filter_eq_nil_iff.2 fun p hp => by rw [hF p hp, hD]; simp, List.nil_append]

variable {n m : ℕ} {P : Input n m} {cs : List (CrossingI 2)} {es : List (EdgeInput.MeshEdge 2)} {ci : Coord 2 → ℤ}

/-- **C126.** From the input to the areas: for every admissible planar input, schedule and tie-breaking, and every
admissible nesting of the loops into faces, the signed areas (in grid cells) of the cut faces that the mesh assigns to
a cut grid cell add up to 1, and every cut face is assigned to a cut grid cell. -/
theorem C126_cell_sum (h : Run P cs es) (pl : P.Planar) {ord : ℤ → List ℤ}
    (perm : ∀ a, (ord a).Perm ((FaceCollapser.make (P.graph cs es)).ring a))
    (sort : ∀ a, (ord a).Pairwise fun b c => angleLt (dirTo (P.gen cs es ci).pos a c) (dirTo (P.gen cs es ci).pos a b) = false)
    (R : DsuRoots ((FaceCollapser.make (P.graph cs es)).unify ord).ds) :
    ∃ out, ((FaceCollapser.make (P.graph cs es)).bakeSimple ord R).faces = some out ∧
      ∀ faces, Grouped (P.gen cs es ci) (out.map Prod.snd) faces →
        (∀ c, (P.gen cs es ci).Active c →
          ((((P.gen cs es ci).kept faces).filter fun F => decide ((P.gen cs es ci).ownerCell F = some c)).map
            fun F => (F.map (shoelace (P.gen cs es ci).pos)).sum).sum = 1) ∧
        ∀ F ∈ (P.gen cs es ci).kept faces, ∃ c, (P.gen cs es ci).Active c ∧ (P.gen cs es ci).ownerCell F = some c := by
  classical
  obtain ⟨out, h1, h2, h3⟩ := C84_loops_tile_active_cells (ci := ci) h pl perm sort R
  obtain ⟨out', h1', _, hne'⟩ := FaceCollapser.C35_loops_partition_edges _ (FaceCollapser.ok_make (P.graph cs es))
    (FaceCollapser.make_inv _).1 ord perm R
  rw [h1] at h1'
  obtain rfl := Option.some.inj h1'
  refine ⟨out, h1, fun faces g => ?_⟩
  set G := P.gen cs es ci with hG
  have hpne : ∀ e ∈ (FaceCollapser.make (P.graph cs es)).edgeList, G.pos e.1 ≠ G.pos e.2 := by
    intro e he
    obtain ⟨p, q, np, nq, sq⟩ := h.edge_seg pl ((mem_known _).1 he)
    rw [h.pos np, h.pos nq]
    intro hh
    rw [Prod.mk.injEq] at hh
    exact sq.ne (pt_ext hh.1 hh.2)
  have hloop : ∀ F ∈ faces, ∀ p ∈ F, p ∈ out.map Prod.snd := fun F hF p hp =>
    g.perm.mem_iff.1 (List.mem_flatten.2 ⟨F, hF, hp⟩)
  have hin : ∀ F ∈ faces, ∀ e ∈ Gen2.halfEdges F, e ∈ (FaceCollapser.make (P.graph cs es)).edgeList := by
    intro F hF e he
    obtain ⟨p, hp, he⟩ := List.mem_flatMap.1 he
    obtain ⟨x, hx, rfl⟩ := List.mem_map.1 (hloop F hF p hp)
    exact h2.mem_iff.1 (List.mem_flatMap.2 ⟨x, hx, he⟩)
  have hnl : ∀ F ∈ faces, ∀ p ∈ F, p ≠ [] := by
    intro F hF p hp
    obtain ⟨x, hx, rfl⟩ := List.mem_map.1 (hloop F hF p hp)
    exact (hne' x hx).2.1
  -- the faces next to an active cell are the kept faces assigned to it
  have touch : ∀ F ∈ faces, ∀ c, G.Active c →
      ((∃ e ∈ Gen2.halfEdges F, LeftOf c (G.pos e.1) (G.pos e.2)) →
        G.keep F = true ∧ G.ownerCell F = some c) := by
    intro F hF c hc hx
    obtain ⟨g1, g2⟩ := g.cell F hF c hc hx
    have hF0 : F ≠ [] := by rintro rfl; obtain ⟨e, he, _⟩ := hx; cases he
    obtain ⟨k1, k2⟩ := Gen2.C77_kept_iff h.normalised c F hF0 (hnl F hF) (fun e he => hpne e (hin F hF e he)) g1
    exact ⟨k1.2 ⟨g2, hc.2⟩, k2⟩
  have owned : ∀ F ∈ faces, G.keep F = true → ∃ c, G.Active c ∧ G.ownerCell F = some c ∧
      ∃ e ∈ Gen2.halfEdges F, LeftOf c (G.pos e.1) (G.pos e.2) := by
    intro F hF hk
    by_contra hno
    have := g.outside F hF fun e he c hl ha => hno ⟨c, ha, (touch F hF c ha ⟨e, he, hl⟩).2, e, he, hl⟩
    rw [this] at hk; cases hk
  constructor
  · intro c hc
    obtain ⟨h31, h32⟩ := h3 c hc
    have hs := h32 (fun p => decide (∃ e ∈ loopEdges p.2, LeftOf c (G.pos e.1) (G.pos e.2))) (fun p _ => by simp)
    rw [sum_flatten_map]
    have hsel : (G.kept faces).filter (fun F => decide (G.ownerCell F = some c)) =
        faces.filter fun F => decide (∃ e ∈ Gen2.halfEdges F, LeftOf c (G.pos e.1) (G.pos e.2)) := by
      unfold Gen2.kept
      rw [List.filter_filter]
      refine List.filter_congr fun F hF => ?_
      rw [Bool.eq_iff_iff, Bool.and_eq_true, decide_eq_true_eq, decide_eq_true_eq]
      constructor
      · rintro ⟨ho, hk⟩
        obtain ⟨c', ha, ho', hx⟩ := owned F hF hk
        rw [ho] at ho'
        rw [Option.some.inj ho']; exact hx
      · intro hx
        exact ⟨(touch F hF c hc hx).2, (touch F hF c hc hx).1⟩
    rw [hsel, ← filter_flatten (fun p => decide (∃ e ∈ loopEdges p, LeftOf c (G.pos e.1) (G.pos e.2)))]
    · have hp := (g.perm.filter fun p => decide (∃ e ∈ loopEdges p, LeftOf c (G.pos e.1) (G.pos e.2))).map (shoelace G.pos)
      rw [hp.sum_eq, List.filter_map, List.map_map]
      exact hs
    · intro F hF p hp
      rw [Bool.eq_iff_iff, decide_eq_true_eq, decide_eq_true_eq]
      constructor
      · rintro ⟨e, he, hl⟩
        exact ⟨e, List.mem_flatMap.2 ⟨p, hp, he⟩, hl⟩
      · intro hx
        have hp0 := hnl F hF p hp
        obtain ⟨v, hv⟩ := List.exists_mem_of_ne_nil _ hp0
        obtain ⟨e, he, _⟩ := Gen2.mem_loopEdges_fst hv
        exact ⟨e, he, (g.cell F hF c hc hx).1 e (List.mem_flatMap.2 ⟨p, hp, he⟩)⟩
  · intro F hF
    obtain ⟨hF1, hF2⟩ := List.mem_filter.1 hF
    obtain ⟨c, ha, ho, _⟩ := owned F hF1 hF2
    exact ⟨c, ha, ho⟩

theorem length_coords (O : GridOrder 2) (shape : Coord 2) (hs : ∀ i, 0 ≤ shape i) :
    ((O.coords shape).length : ℤ) = shape 0 * shape 1 := by
  have hp : (O.coords shape).Perm (lexCoords 2 shape) :=
    (List.perm_ext_iff_of_nodup (O.nodup shape) (nodup_lexCoords 2 shape)).2 fun a => by rw [O.mem, mem_lexCoords]
  rw [hp.length_eq, length_lexCoords, Fin.prod_univ_two]
  push_cast
  rw [Int.toNat_of_nonneg (hs 0), Int.toNat_of_nonneg (hs 1)]

/-- the faces of the mesh as `face_volumes` sees them (no triangulation: generation stores none). -/
def meshFaces (faces : List (List (List ℤ))) : List AFace2 := faces.map fun F => ⟨F, none⟩

/-- **C126.** From the input to `face_volumes`: the numbers returned for the generated mesh add up to the area of the
whole grid, unless some cut face has negative signed area; then they add up to more. -/
theorem C126_total_area (h : Run P cs es) (pl : P.Planar) {ord : ℤ → List ℤ}
    (perm : ∀ a, (ord a).Perm ((FaceCollapser.make (P.graph cs es)).ring a))
    (sort : ∀ a, (ord a).Pairwise fun b c => angleLt (dirTo (P.gen cs es ci).pos a c) (dirTo (P.gen cs es ci).pos a b) = false)
    (R : DsuRoots ((FaceCollapser.make (P.graph cs es)).unify ord).ds) (O : GridOrder 2) (hs : ∀ i, 0 ≤ P.shape i)
    (origin dx : Fin 2 → ℚ) (hdx : ∀ i, 0 < dx i) (fromTri : Bool) :
    ∃ out, ((FaceCollapser.make (P.graph cs es)).bakeSimple ord R).faces = some out ∧
      ∀ faces, Grouped (P.gen cs es ci) (out.map Prod.snd) faces →
        ((∀ F ∈ (P.gen cs es ci).kept faces, 0 ≤ (P.gen cs es ci).faceVolume F) →
          (faceVolumes (world origin dx (P.gen cs es ci).pos) dx (meshFaces ((P.gen cs es ci).kept faces))
            (ExteriorGrid.make O P.shape (P.gen cs es ci).mask).numCells fromTri).sum =
            (dx 0 * P.shape 0) * (dx 1 * P.shape 1)) ∧
        ((∃ F ∈ (P.gen cs es ci).kept faces, (P.gen cs es ci).faceVolume F < 0) →
          (dx 0 * P.shape 0) * (dx 1 * P.shape 1) <
          (faceVolumes (world origin dx (P.gen cs es ci).pos) dx (meshFaces ((P.gen cs es ci).kept faces))
            (ExteriorGrid.make O P.shape (P.gen cs es ci).mask).numCells fromTri).sum) := by
  classical
  obtain ⟨out, h1, h2⟩ := C126_cell_sum (ci := ci) h pl perm sort R
  refine ⟨out, h1, fun faces g => ?_⟩
  obtain ⟨h3, h4⟩ := h2 faces g
  set G := P.gen cs es ci with hG
  have hA : 0 < dx 0 * dx 1 := mul_pos (hdx 0) (hdx 1)
  -- the signed total
  let S : Finset (Coord 2) := ((O.coords P.shape).filter fun c => !G.mask c).toFinset
  have hS : ∀ c, c ∈ S ↔ G.Active c := by
    intro c
    simp only [S, List.mem_toFinset, List.mem_filter, O.mem, Bool.not_eq_true']
    rfl
  have htot : ((G.kept faces).map fun F => (F.map (shoelace G.pos)).sum).sum = S.card := by
    rw [sum_by_owner (G.kept faces) G.ownerCell S _ fun F hF => by
      obtain ⟨c, ha, ho⟩ := h4 F hF; exact ⟨c, (hS c).2 ha, ho⟩]
    rw [Finset.sum_congr rfl fun c hc => h3 c ((hS c).1 hc)]
    simp
  have hcard : (S.card : ℚ) + (ExteriorGrid.make O P.shape G.mask).numCells = P.shape 0 * P.shape 1 := by
    have e1 : S.card = ((O.coords P.shape).filter fun c => !G.mask c).length :=
      List.toFinset_card_of_nodup ((O.nodup P.shape).filter _)
    have e2 : (ExteriorGrid.make O P.shape G.mask).numCells = ((O.coords P.shape).filter G.mask).length := by
      unfold ExteriorGrid.numCells; rw [cellCoords_make]
    have e3 := length_coords O P.shape hs
    have e4 : ∀ l : List (Coord 2), (l.filter fun c => !G.mask c).length + (l.filter G.mask).length = l.length := by
      intro l
      induction l with
      | nil => rfl
      | cons a l ih =>
        rw [List.filter_cons, List.filter_cons]
        cases G.mask a <;> simp <;> omega
    have e5 := e4 (O.coords P.shape)
    rw [e1, e2]
    have e6 : ((((O.coords P.shape).filter fun c => !G.mask c).length : ℤ) + ((O.coords P.shape).filter G.mask).length) =
        P.shape 0 * P.shape 1 := by rw [← e3]; exact_mod_cast e5
    exact_mod_cast e6
  have hcut : ∀ F : List (List ℤ), cutVolume (world origin dx G.pos) fromTri ⟨F, none⟩ = dx 0 * dx 1 * (F.map (shoelace G.pos)).sum := by
    intro F
    rw [cutVolume_loops _ _ _ (Or.inr rfl), Centroid2.sum_mul]
    rw [List.map_congr_left fun l _ => shoelace_world origin dx G.pos l]
  have hsum : (faceVolumes (world origin dx G.pos) dx (meshFaces (G.kept faces))
      (ExteriorGrid.make O P.shape G.mask).numCells fromTri).sum =
      ((G.kept faces).map fun F => |dx 0 * dx 1 * (F.map (shoelace G.pos)).sum|).sum +
        (ExteriorGrid.make O P.shape G.mask).numCells * (dx 0 * dx 1) := by
    rw [faceVolumes_abs, List.map_append, List.sum_append, List.map_replicate, List.sum_replicate, nsmul_eq_mul,
      abs_of_pos hA]
    unfold meshFaces
    rw [List.map_map, List.map_map]
    congr 2
    exact List.map_congr_left fun F _ => by simp only [Function.comp]; rw [hcut]
  have hsigned : ((G.kept faces).map fun F => dx 0 * dx 1 * (F.map (shoelace G.pos)).sum).sum = dx 0 * dx 1 * S.card := by
    rw [← Centroid2.sum_mul, htot]
  have hgoal : dx 0 * dx 1 * (S.card : ℚ) + (ExteriorGrid.make O P.shape G.mask).numCells * (dx 0 * dx 1) =
      (dx 0 * P.shape 0) * (dx 1 * P.shape 1) := by
    linear_combination dx 0 * dx 1 * hcard
  rw [hsum, ← hgoal, ← hsigned]
  constructor
  · intro hn
    congr 2
    refine List.map_congr_left fun F hF => abs_of_nonneg (mul_nonneg hA.le ?_)
    have := hn F hF
    rwa [Gen2.faceVolume_eq] at this
  · rintro ⟨F, hF, hlt⟩
    rw [Gen2.faceVolume_eq] at hlt
    refine add_lt_add_of_lt_of_le (List.sum_lt_sum _ _ (fun F _ => le_abs_self _) ⟨F, hF, ?_⟩) le_rfl
    have : dx 0 * dx 1 * (F.map (shoelace G.pos)).sum < 0 := mul_neg_of_pos_of_neg hA hlt
    rw [abs_of_neg this]
    linarith

/-! ## a nesting that is admissible always exists -/

theorem partition_perm {α β : Type*} (D : β → α → Bool) (cl : List β) (L : List α) (hn : cl.Nodup)
    (hd : ∀ x ∈ L, ∀ c ∈ cl, ∀ c' ∈ cl, D c x = true → D c' x = true → c = c') :
    ((cl.map fun c => L.filter (D c)).flatten ++ L.filter fun x => cl.all fun c => !D c x).Perm L := by
  induction cl generalizing L with
  | nil => simp
  | cons c cl ih =>
    obtain ⟨hc, hn'⟩ := List.nodup_cons.1 hn
    have h1 := ih (L.filter fun x => !D c x) hn' fun x hx a ha b hb =>
      hd x (List.mem_filter.1 hx).1 a (List.mem_cons_of_mem _ ha) b (List.mem_cons_of_mem _ hb)
    have e1 : (cl.map fun c' => (L.filter fun x => !D c x).filter (D c')) = cl.map fun c' => L.filter (D c') := by
      refine List.map_congr_left fun c' hc' => ?_
      rw [List.filter_filter]
      refine List.filter_congr fun x hx => ?_
      cases h2 : D c' x with
      | false => simp
      | true =>
        cases h3 : D c x with
        | false => simp
        | true =>
          have := hd x hx c List.mem_cons_self c' (List.mem_cons_of_mem _ hc') h3 h2
          rw [this] at hc; exact absurd hc' hc
    have e2 : ((L.filter fun x => !D c x).filter fun x => cl.all fun c => !D c x) =
        L.filter fun x => (c :: cl).all fun c => !D c x := by
      rw [List.filter_filter]
      refine List.filter_congr fun x _ => ?_
      rw [List.all_cons, Bool.and_comm]
    rw [e1, e2] at h1
    rw [List.map_cons, List.flatten_cons, List.append_assoc]
    exact (h1.append_left _).trans (List.filter_append_perm (D c) L)

/-- **C84.** The hypothesis on the nesting of the loops can always be met: put the loops next to each cut grid cell into one face and
all other loops into one more face. With this nesting no kept face has negative area. -/
theorem C84_nesting_exists (h : Run P cs es) (pl : P.Planar) {ord : ℤ → List ℤ}
    (perm : ∀ a, (ord a).Perm ((FaceCollapser.make (P.graph cs es)).ring a))
    (sort : ∀ a, (ord a).Pairwise fun b c => angleLt (dirTo (P.gen cs es ci).pos a c) (dirTo (P.gen cs es ci).pos a b) = false)
    (R : DsuRoots ((FaceCollapser.make (P.graph cs es)).unify ord).ds) (O : GridOrder 2) :
    ∃ out faces, ((FaceCollapser.make (P.graph cs es)).bakeSimple ord R).faces = some out ∧
      Grouped (P.gen cs es ci) (out.map Prod.snd) faces ∧
      ∀ F ∈ (P.gen cs es ci).kept faces, (P.gen cs es ci).faceVolume F = 1 := by
  classical
  obtain ⟨out, h1, h2, h3⟩ := C84_loops_tile_active_cells (ci := ci) h pl perm sort R
  set G := P.gen cs es ci with hG
  let D : Coord 2 → List ℤ → Bool := fun c p => decide (∃ e ∈ loopEdges p, LeftOf c (G.pos e.1) (G.pos e.2))
  let cl : List (Coord 2) := (O.coords P.shape).filter fun c => !G.mask c
  let loops := out.map Prod.snd
  let outer : List (List ℤ) := loops.filter fun x => cl.all fun c => !D c x
  have hcl : ∀ c, c ∈ cl ↔ G.Active c := by
    intro c
    simp only [cl, List.mem_filter, O.mem, Bool.not_eq_true']
    rfl
  have hcn : cl.Nodup := (O.nodup P.shape).filter _
  have hedge : ∀ p ∈ loops, ∀ e ∈ loopEdges p, G.pos e.1 ≠ G.pos e.2 := by
    intro p hp e he
    obtain ⟨x, hx, rfl⟩ := List.mem_map.1 hp
    have he' := h2.mem_iff.1 (List.mem_flatMap.2 ⟨x, hx, he⟩)
    obtain ⟨q, q', np, nq, sq⟩ := h.edge_seg pl ((mem_known _).1 he')
    rw [h.pos np, h.pos nq]
    intro hh
    rw [Prod.mk.injEq] at hh
    exact sq.ne (pt_ext hh.1 hh.2)
  have huniq : ∀ p ∈ loops, ∀ e ∈ loopEdges p, ∀ c c', LeftOf c (G.pos e.1) (G.pos e.2) →
      LeftOf c' (G.pos e.1) (G.pos e.2) → c = c' := by
    intro p hp e he c c' hl hl'
    obtain ⟨d, _, hu⟩ := C76_left_cell _ _ (hedge p hp e he) ⟨c, hl.1, hl.2.1⟩
    rw [hu c hl, hu c' hl']
  have hall : ∀ p ∈ loops, ∀ c, G.Active c → D c p = true → ∀ e ∈ loopEdges p, LeftOf c (G.pos e.1) (G.pos e.2) := by
    intro p hp c hc hD
    obtain ⟨x, hx, rfl⟩ := List.mem_map.1 hp
    exact ((h3 c hc).1 x hx (of_decide_eq_true hD)).1
  have hgrp : ∀ c, G.Active c → ((loops.filter (D c)).map (shoelace G.pos)).sum = 1 := by
    intro c hc
    have := (h3 c hc).2 (fun p => D c p.2) (fun p _ => by simp [D])
    rw [← this, List.filter_map, List.map_map]
    rfl
  have hperm : ((cl.map fun c => loops.filter (D c)) ++ [outer]).flatten.Perm loops := by
    rw [List.flatten_append]
    have e : [outer].flatten = outer := by simp
    rw [e]
    refine partition_perm D cl loops hcn fun p hp c hc c' hc' hd hd' => ?_
    obtain ⟨e, he, hl⟩ := of_decide_eq_true hd
    exact huniq p hp e he c c' hl (hall p hp c' ((hcl c').1 hc') hd' e he)
  -- the total signed area is zero
  have hzero : (loops.map (shoelace G.pos)).sum = 0 := by
    have e1 : (loops.map (shoelace G.pos)).sum =
        ((out.flatMap fun p => loopEdges p.2).map fun e => cross2 (G.pos e.1) (G.pos e.2) / 2).sum := by
      simp only [loops]
      clear * -
      induction out with
      | nil => rfl
      | cons a l ih =>
        rw [List.map_cons, List.map_cons, List.sum_cons, ih, List.flatMap_cons, List.map_append, List.sum_append]
        congr 1
        unfold shoelace
        show _ = ((a.2.zip (a.2.rotate 1)).map _).sum
        congr 1
        refine List.map_congr_left fun e _ => ?_
        simp only [cross2]; ring
    rw [e1, (h2.map _).sum_eq]
    exact sum_antisymm (edgeList_nodup _) (FaceCollapser.ok_make _).symm _ fun a b => by simp only [cross2]; ring
  have houter : (outer.map (shoelace G.pos)).sum = -(cl.length : ℚ) := by
    have e1 := (hperm.map (shoelace G.pos)).sum_eq
    rw [hzero, List.flatten_append, List.map_append, List.sum_append, ← sum_flatten_map, List.map_map] at e1
    have e2 : (cl.map ((fun F : List (List ℤ) => (F.map (shoelace G.pos)).sum) ∘ fun c => loops.filter (D c))).sum = cl.length := by
      have e3 : cl.map ((fun F : List (List ℤ) => (F.map (shoelace G.pos)).sum) ∘ fun c => loops.filter (D c)) = cl.map fun _ => (1 : ℚ) :=
        List.map_congr_left fun c hc => hgrp c ((hcl c).1 hc)
      rw [e3]; simp
    rw [e2] at e1
    have e4 : [outer].flatten = outer := by simp
    rw [e4] at e1
    linarith
  have hkeep : G.keep outer = false := by
    unfold Gen2.keep
    by_cases hne : outer = []
    · rw [hne]; rfl
    · -- some cell is cut, since there is a loop
      obtain ⟨p, hp⟩ := List.exists_mem_of_ne_nil _ hne
      have hpl := (List.mem_filter.1 hp).1
      obtain ⟨x, hx, rfl⟩ := List.mem_map.1 hpl
      have hlen : 1 ≤ cl.length := by
        by_contra hc
        have hcl0 : cl = [] := List.length_eq_zero_iff.1 (by omega)
        obtain ⟨e0, he0⟩ : ∃ e, e ∈ loopEdges x.2 := by
          obtain ⟨out', h1', _, hne'⟩ := FaceCollapser.C35_loops_partition_edges _ (FaceCollapser.ok_make (P.graph cs es))
            (FaceCollapser.make_inv _).1 ord perm R
          rw [h1] at h1'
          obtain rfl := Option.some.inj h1'
          obtain ⟨v, hv⟩ := List.exists_mem_of_ne_nil _ (hne' x hx).2.1
          obtain ⟨e, he, _⟩ := Gen2.mem_loopEdges_fst hv
          exact ⟨e, he⟩
        have hk := (h.known_iff (ci := ci) pl e0).2 (h2.mem_iff.1 (List.mem_flatMap.2 ⟨x, hx, he0⟩))
        have hgrid : ∃ e ∈ (P.gen cs es ci).edges, ∃ i : ℕ, (P.gen cs es ci).edges[i]? = some e ∧ ¬ (P.gen cs es ci).Duplicated i e := by
          obtain ⟨e, he, _⟩ := hk
          have hpos : 0 < (P.gen cs es ci).edges.length := List.length_pos_of_mem he
          refine ⟨(P.gen cs es ci).edges[(P.gen cs es ci).edges.length - 1], List.getElem_mem _,
            (P.gen cs es ci).edges.length - 1, List.getElem?_eq_getElem _, ?_⟩
          rintro ⟨j, e', hj, hj', _⟩
          have := (List.getElem?_eq_some_iff.1 hj').1
          omega
        obtain ⟨e, _, i, hi, hdup⟩ := hgrid
        obtain ⟨c, hc, _⟩ := (C84_edge_ok h pl i e hi hdup).act
        have := (hcl c).2 hc
        rw [hcl0] at this; cases this
      have hv : G.faceVolume outer < -1 / 2 := by
        rw [Gen2.faceVolume_eq, houter]
        have : (1 : ℚ) ≤ cl.length := by exact_mod_cast hlen
        linarith
      simp [hv]
  refine ⟨out, (cl.map fun c => loops.filter (D c)) ++ [outer], h1, ⟨hperm, ?_, ?_⟩, ?_⟩
  · intro F hF c hc hx
    obtain ⟨e, heF, hl⟩ := hx
    obtain ⟨p, hp, he⟩ := List.mem_flatMap.1 heF
    rcases List.mem_append.1 hF with hF | hF
    · obtain ⟨c', hc', rfl⟩ := List.mem_map.1 hF
      obtain ⟨hp1, hp2⟩ := List.mem_filter.1 hp
      have hca := (hcl c').1 hc'
      have : c = c' := huniq p hp1 e he c c' hl (hall p hp1 c' hca hp2 e he)
      subst this
      refine ⟨fun e' he' => ?_, by rw [hgrp c hc]; norm_num⟩
      obtain ⟨p', hp', he'⟩ := List.mem_flatMap.1 he'
      obtain ⟨q1, q2⟩ := List.mem_filter.1 hp'
      exact hall p' q1 c hc q2 e' he'
    · rw [List.mem_singleton] at hF
      subst hF
      have := (List.mem_filter.1 hp).2
      rw [List.all_eq_true] at this
      have := this c ((hcl c).2 hc)
      have hD : D c p = true := decide_eq_true ⟨e, he, hl⟩
      rw [hD] at this; cases this
  · intro F hF hx
    rcases List.mem_append.1 hF with hF | hF
    · obtain ⟨c, hc, rfl⟩ := List.mem_map.1 hF
      exfalso
      have hca := (hcl c).1 hc
      have hs := hgrp c hca
      cases hL : loops.filter (D c) with
      | nil => rw [hL] at hs; simp at hs
      | cons p l =>
        have hp : p ∈ loops.filter (D c) := by rw [hL]; exact List.mem_cons_self
        obtain ⟨e, he, hl⟩ := of_decide_eq_true (List.mem_filter.1 hp).2
        exact hx e (List.mem_flatMap.2 ⟨p, hp, he⟩) c hl hca
    · rw [List.mem_singleton] at hF
      subst hF
      exact hkeep
  · intro F hF
    obtain ⟨hF, hk⟩ := List.mem_filter.1 hF
    rcases List.mem_append.1 hF with hF | hF
    · obtain ⟨c, hc, rfl⟩ := List.mem_map.1 hF
      rw [Gen2.faceVolume_eq, hgrp c ((hcl c).1 hc)]
    · rw [List.mem_singleton] at hF
      subst hF
      rw [hkeep] at hk; cases hk

/-- the hypotheses of `C126_total_area`, including the one on the areas, are met by the square of C84. -/
example : ∃ cs es, ∃ ord : ℤ → List ℤ, Run square cs es ∧ square.Planar ∧
    (∀ a, (ord a).Perm ((FaceCollapser.make (square.graph cs es)).ring a)) ∧
    (∀ R : DsuRoots ((FaceCollapser.make (square.graph cs es)).unify ord).ds, ∃ out faces,
      ((FaceCollapser.make (square.graph cs es)).bakeSimple ord R).faces = some out ∧
      Grouped (square.gen cs es fun _ => 0) (out.map Prod.snd) faces ∧
      ∀ F ∈ (square.gen cs es fun _ => 0).kept faces, 0 ≤ (square.gen cs es fun _ => 0).faceVolume F) := by
  obtain ⟨cs, es, hr, ord, h1, h2⟩ := C84_run_exists (ci := fun _ => 0) square_admissible square_planar
  refine ⟨cs, es, ord, hr, square_planar, h1, fun R => ?_⟩
  obtain ⟨out, faces, a, b, c⟩ := C84_nesting_exists (ci := fun _ => 0) hr square_planar h1 h2 R (lexOrder 2)
  exact ⟨out, faces, a, b, fun F hF => by rw [c F hF]; norm_num⟩

/-- a unit square of vertices 0, 1, 2, 3 with a hole (clockwise) of vertices 4, 5, 6, 7; one exterior cell. -/
def demoV (v : ℤ) : Dir :=
  if v = 0 then (0, 0) else if v = 1 then (1, 0) else if v = 2 then (1, 1) else if v = 3 then (0, 1)
  else if v = 4 then (1/4, 1/4) else if v = 5 then (1/4, 1/2) else if v = 6 then (1/2, 1/2) else (1/2, 1/4)

/-- the face with the hole has area 15/16, the exterior cell 1. -/
example : faceVolumes demoV (fun _ => 1) [⟨[[0, 1, 2, 3], [4, 5, 6, 7]], none⟩] 1 false = [15/16, 1] := by
  decide +kernel

/-- a clockwise loop alone is counted with its absolute value. -/
example : faceVolumes demoV (fun _ => 1) [⟨[[4, 5, 6, 7]], none⟩] 0 false = [1/16] := by decide +kernel

end Areas2
end Mandoline
