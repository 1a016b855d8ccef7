import Verif.Fill.Walls
import Verif.Fill.Utilize
import Verif.Gen3.PlaneFaces

/-!
# C112: the faces of `compute_faces_axis` make the walls

Joins the model of `compute_faces_axis` (C99, src/construction/generator3_make_faces.cpp:408-497) to the hypotheses of C110 and C111.
-/
namespace Mandoline
namespace Gen3
open CellCollapser Planar

/-! ## specification -/

/-- the half-edges of a cell of the half-edge mesh of a plane. -/
def HemCell.halfEdges (h : HemCell) : List DEdge := h.loops.flatMap fun l => polyEdges (l.map Int.ofNat)

/-- the half-edge mesh of a plane with the graph `edges` (`compute_planar_hem`, library code): its cells have different
numbers; the loops of the cells go through each half-edge of the graph once; the half-edges of a cell that touches square `q`
from the inside all have `q` on their left (for a cell with one loop: C76). -/
structure HemOf (edges : List DEdge) (pos : ℤ → Dir) (q : Coord 2) (cells : List HemCell) : Prop where
  ids : (cells.map HemCell.id).Nodup
  parts : (cells.flatMap HemCell.halfEdges).Perm (FaceCollapser.make edges).edgeList
  inside : ∀ h ∈ cells, ∀ e ∈ h.halfEdges, LeftOf q (pos e.1) (pos e.2) → ∀ e' ∈ h.halfEdges, LeftOf q (pos e'.1) (pos e'.2)

/-- the faces in the wall of `c` at `x_i = k` are those that `compute_faces_axis` made: all its faces are faces, with their
loops and normals, and there is no other face in the wall. -/
structure FromPlane (faces : List (ℤ × List (List ℤ))) (V nrm : ℤ → Vec3) (c : Coord 3) (i : Fin 3) (k : ℚ) (pf : List (ℤ × PlaneFace)) : Prop where
  into : ∀ p ∈ pf, (p.1, p.2.indices.map fun l => l.map Int.ofNat) ∈ faces ∧ nrm p.1 = p.2.N
  only : ∀ f ∈ faces.map Prod.fst, FaceIn faces V c f → CellCollapser.InPlane faces V f i k → f ∈ pf.map Prod.fst

/-! ## proofs -/

theorem plane_N (P : PlaneData) (W : ℕ → Vertex 3) (pcs : List ℕ → List (Coord 3)) (i : Fin 3) (k : ℤ) (cells : List HemCell) (p : ℤ × PlaneFace)
    (h : p ∈ planeFaces P W pcs i k cells) : p.2.N i = 1 ∧ ∃ h ∈ cells, h.id = p.1 ∧
      p.2.indices = h.loops.filter (fun v => keepLoop P i (pcs v) h.area v) := by
  unfold planeFaces at h
  obtain ⟨hc, h1, h2⟩ := List.mem_filterMap.1 h
  dsimp only at h2
  split at h2
  · cases h2
  · rw [Option.some.injEq] at h2
    subst h2
    refine ⟨?_, hc, h1, rfl, rfl⟩
    dsimp only
    fin_cases i <;> simp [vcross, unitVec]

/-- **C112.** Each half-edge of the plane with the wall on its left is on exactly one face in the wall, provided every loop
with the wall on its left is made part of a face (C99 says when) and no other faces are in the wall. -/
theorem C112_plane_faces (faces : List (ℤ × List (List ℤ))) (hc : Clean faces) (V nrm : ℤ → Vec3) (c : Coord 3) (i : Fin 3) (k : ℤ)
    (hk : k = c i ∨ k = c i + 1) (edges : List DEdge) (hplane : ∀ v, IsNode (FaceCollapser.make edges).edgeList v → V v i = k)
    (cells : List HemCell) (H : HemOf edges (planePos V i) (planeCell c i) cells)
    (P : PlaneData) (W : ℕ → Vertex 3) (pcs : List ℕ → List (Coord 3))
    (hF : FromPlane faces V nrm c i k (planeFaces P W pcs i k cells))
    (hkeep : ∀ h ∈ cells, (∀ e ∈ h.halfEdges, LeftOf (planeCell c i) (planePos V i e.1) (planePos V i e.2)) →
      ∀ l ∈ h.loops, keepLoop P i (pcs l) h.area l = true)
    (e : DEdge) (he : e ∈ (FaceCollapser.make edges).edgeList) (hL : LeftOf (planeCell c i) (planePos V i e.1) (planePos V i e.2)) :
    ∃! f, FaceIn faces V c f ∧ CellCollapser.InPlane faces V f i k ∧ e ∈ seen faces nrm i f := by
  have hnd : (cells.flatMap HemCell.halfEdges).Nodup := H.parts.nodup_iff.2 (make_nodup edges)
  obtain ⟨h, hh, heh⟩ := List.mem_flatMap.1 (H.parts.mem_iff.2 he)
  have hall := H.inside h hh e heh hL
  have hkp := hkeep h hh hall
  have hmem : ∀ e' ∈ h.halfEdges, e' ∈ (FaceCollapser.make edges).edgeList := fun e' he' =>
    H.parts.mem_iff.1 (List.mem_flatMap.2 ⟨h, hh, he'⟩)
  have hne : h.loops ≠ [] := by
    intro h0
    unfold HemCell.halfEdges at heh
    rw [h0] at heh
    cases heh
  have hfil : h.loops.filter (fun v => keepLoop P i (pcs v) h.area v) = h.loops := List.filter_eq_self.2 hkp
  -- the face of the cell
  have hpf : ∃ F, (h.id, F) ∈ planeFaces P W pcs i k cells ∧ F.indices = h.loops := by
    refine ⟨⟨(i, k), h.loops, vcross (unitVec (i + 1)) (unitVec (i + 2)), faceMask2 (fun i => (W i).mask) h.loops⟩, ?_, rfl⟩
    unfold planeFaces
    refine List.mem_filterMap.2 ⟨h, hh, ?_⟩
    dsimp only
    rw [hfil, if_neg hne]
  obtain ⟨F, hFm, hFi⟩ := hpf
  obtain ⟨g1, g2⟩ := hF.into _ hFm
  dsimp only at g1 g2
  rw [hFi] at g1
  have hNi : nrm h.id i = 1 := by rw [g2]; exact (plane_N P W pcs i k cells _ hFm).1
  have hedge : edgesOf faces h.id = h.halfEdges := by
    rw [edgesOf_eq hc g1]
    unfold HemCell.halfEdges
    rw [List.flatMap_map]
  have hseen : seen faces nrm i h.id = h.halfEdges := by
    unfold seen
    rw [if_pos (by rw [hNi]; norm_num), hedge]
  have hvert : ∀ v, IsVertex faces h.id v → ∃ e' ∈ h.halfEdges, e'.1 = v := by
    rintro v ⟨loops, C, a1, a2, a3⟩
    have : (h.id, loops) = (h.id, h.loops.map fun l => l.map Int.ofNat) := List.inj_on_of_nodup_map hc.nodup a1 g1 rfl
    have : loops = h.loops.map fun l => l.map Int.ofNat := congrArg Prod.snd this
    subst this
    obtain ⟨l, hl, rfl⟩ := List.mem_map.1 a2
    have : v ∈ (polyEdges (l.map Int.ofNat)).map Prod.fst := by
      unfold polyEdges
      rw [List.map_fst_zip (by simp)]; exact a3
    obtain ⟨e', he', hv⟩ := List.mem_map.1 this
    exact ⟨e', List.mem_flatMap.2 ⟨l, hl, he'⟩, hv⟩
  have hIP : CellCollapser.InPlane faces V h.id i k := by
    intro v hv
    obtain ⟨e', he', rfl⟩ := hvert v hv
    exact hplane _ ⟨e'.2, hmem e' he'⟩
  have hFI : FaceIn faces V c h.id := by
    intro v hv j
    have hvk := hIP v hv
    obtain ⟨e', he', rfl⟩ := hvert v hv
    obtain ⟨b1, b2⟩ := (hall e' he').1
    rcases axes i j with rfl | rfl | rfl
    · rw [hvk]
      rcases hk with rfl | rfl
      · exact ⟨le_refl _, by linarith⟩
      · push_cast; exact ⟨by linarith, le_refl _⟩
    · exact b1
    · exact b2
  refine ⟨h.id, ⟨hFI, hIP, by rw [hseen]; exact heh⟩, ?_⟩
  rintro f ⟨f1, f2, f3⟩
  have hff := hF.only f (face_of_seen f3) f1 f2
  obtain ⟨⟨f', F'⟩, hF', rfl⟩ := List.mem_map.1 hff
  obtain ⟨n1, h', hh', hid, hind⟩ := plane_N P W pcs i k cells _ hF'
  obtain ⟨k1, k2⟩ := hF.into _ hF'
  dsimp only at hid hind k1 k2 f3 n1 ⊢
  have hef : e ∈ edgesOf faces f' := by
    rcases mem_seen f3 with ⟨_, hx⟩ | ⟨hx, _⟩
    · exact hx
    · rw [k2, n1] at hx; norm_num at hx
  rw [edgesOf_eq hc k1, hind, List.flatMap_map] at hef
  obtain ⟨l, hl, hel⟩ := List.mem_flatMap.1 hef
  have heh' : e ∈ h'.halfEdges := List.mem_flatMap.2 ⟨l, (List.mem_filter.1 hl).1, hel⟩
  have : h' = h := by
    by_contra hne'
    have hp := (List.nodup_flatMap.1 hnd).2
    have hsymm : ∀ a ∈ cells, ∀ b ∈ cells, a ≠ b → List.Disjoint a.halfEdges b.halfEdges := by
      intro a ha b hb hab
      obtain ⟨x, hx, rfl⟩ := List.mem_iff_getElem.1 ha
      obtain ⟨y, hy, rfl⟩ := List.mem_iff_getElem.1 hb
      rcases lt_trichotomy x y with h | h | h
      · exact List.pairwise_iff_getElem.1 hp x y hx hy h
      · subst h; exact absurd rfl hab
      · exact (List.pairwise_iff_getElem.1 hp y x hy hx h).symm
    exact hsymm h' hh' h hh hne' heh' heh
  rw [← hid, this]

/-- **C112.** C111 with the walls made by the planes: the mesh passes the grid-cell validation if and only if every active grid
cell has a cut cell. -/
theorem C112_validated {B : Type} (faces : List (ℤ × PFace)) (hs : OMap.Sorted intLt faces) (hnum : ∀ (k : ℕ) i f, faces[k]? = some (i, f) → i = k)
    (hc : Clean (collapserFaces faces)) (hedges : ∀ f, (edgesOf (collapserFaces faces) f).Nodup) (V : ℕ → Vertex 3) (hV : ∀ i, Normalised (V i))
    (P nrm : ℤ → Vec3) (hP : ∀ v : ℕ, P v = (V v).p) (hok : ∀ f ∈ (collapserFaces faces).map Prod.fst, FaceOk (collapserFaces faces) P nrm f)
    (ord : DEdge → List ℤ) (hord : ∀ e, (ord e).Perm ((CellCollapser.make (collapserFaces faces)).around e))
    (hccw : Ordered (collapserFaces faces) P nrm ord) (R : DsuRoots ((CellCollapser.make (collapserFaces faces)).merge ord).ds)
    (shape : Fin 3 → ℤ) (hgb : ∀ p ∈ faces, CellCollapser.onGridBoundary shape p.2.mask = true → p.2.ext ≠ none)
    (hopen : ∀ m ∈ keptCells faces shape ord R, ∀ x ∈ m, ∀ c, SideIn (collapserFaces faces) P nrm c x.1 x.2 →
      WallsMade (collapserFaces faces) P nrm c ∧
      (∀ f b, SideIn (collapserFaces faces) P nrm c f b → ¬ Folded (collapserFaces faces) (bakedCells faces ord R) f) ∧
      ∀ m ∈ (bakedCells faces ord R).cells, (∃ x ∈ m, SideIn (collapserFaces faces) P nrm c x.1 x.2) → ∃ x ∈ m, ∀ f, (x.1, f) ∈ faces → f.ext = none)
    (region : ℕ → ℤ) (mesh : List (ℤ × B)) (ax : Fin 3 → List ℤ) (M : OutMesh PFace B)
    (hM : generate (bakeState faces (keptCells faces shape ord R) region mesh ax (bakedCells faces ord R).foldedFaces) V = some M)
    (o dx : Vec3) (hdx : ∀ i, 0 < dx i) (stored : OutCell → Coord 3) (hst : ∀ d c, d.gridCell = some c → stored d = c)
    (order : GridOrder 3) (active : Coord 3 → Bool) :
    Validation.gridCellsUtilized (order.coords shape) active (dx 0 * dx 1 * dx 2)
        (M.cells.map fun d => (stored d, M.volume (-1 / 6) (worldPos o dx P) d)) = true ↔
      ∀ c, (∀ i, 0 ≤ c i ∧ c i < shape i) → active c = true → ∃ d ∈ M.cells, d.gridCell = some c :=
  C111_validated faces hs hnum hc hedges V hV P nrm hP hok ord hord hccw R shape hgb
    (fun m hm x hx c h => ⟨C112_walled hok (hopen m hm x hx c h).1, C112_wall_area hc hedges hok (hopen m hm x hx c h).1,
      (hopen m hm x hx c h).2.1, (hopen m hm x hx c h).2.2⟩)
    region mesh ax M hM o dx hdx stored hst order active

end Gen3
end Mandoline
