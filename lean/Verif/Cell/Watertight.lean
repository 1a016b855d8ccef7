import Verif.Cell.Volume
import Verif.Adaptive.Triangulate
import Verif.Mesh.Triangulate

/-!
# C107: the triangle mesh of a cut cell

`CutCellMesh<3>::triangulated_cell`, `compact_triangulated_cell` (src/mesh3.cpp:548-597), `CutCell::triangulated_with_additional_vertices`
(src/cutcell.cpp:107-136) and `CutCell::get_mesh` (include/mandoline/cutcell.hpp:78-88), over the cells made by the cell collapser.
-/
namespace Mandoline.Watertight
open CellCollapser Triangulate

/-- the triangles of `triangulated_cell(idx, use_base, use_flap)` for a cut cell (mesh3.cpp:549-575). `tri f` is the stored triangulation of
face `f` or the one made on the spot; the vertices added by triangulations are treated below (`meshCell`). -/
def triangulatedCell (folded : List ℤ) (tri : ℤ → List Tri) (useBase useFlap : Bool) (m : List (ℤ × Bool)) : List Tri :=
  (m.filter fun p =>
    let isFlap := decide (p.1 ∈ folded)
    (useFlap && isFlap) || (useBase && !isFlap)).flatMap fun p =>
      if p.2 then tri p.1 else (tri p.1).map fun t => (t.2.1, t.1, t.2.2)

/-- `CutCell::get_mesh` (cutcell.hpp:78-88) before `compactify`: the triangulations as they are. -/
def getMesh (tri : ℤ → List Tri) (m : List (ℤ × Bool)) : List Tri := m.flatMap fun p => tri p.1

/-- `CutCell::triangulated_with_additional_vertices(Fs, vertex_offset)` (cutcell.cpp:107-136): vertices and triangles. Faces without a
triangulation are skipped with a message. -/
def withAdditional (cache : ℤ → Cache) : ℕ → List (ℤ × Bool) → List Vec3 × List Tri
  | _, [] => ([], [])
  | off, (f, b) :: m =>
    let flip : List Tri → List Tri := fun T => if b then T else T.map fun t => (t.2.1, t.1, t.2.2)
    match (cache f).tris with
    | none => withAdditional cache off m
    | some t =>
      match (cache f).verts with
      | some v =>
        let r := withAdditional cache (off + v.length) m
        (v ++ r.1, flip (t.map (Tri.map fun i => i + (off : ℤ))) ++ r.2)
      | none =>
        let r := withAdditional cache off m
        (r.1, flip t ++ r.2)

/-- what `triangulated_cell` returns when all faces have stored triangulations (mesh3.cpp:549-575), vertices and triangles: the triangles are not
shifted. -/
def meshCell (cache : ℤ → Cache) : List (ℤ × Bool) → List Vec3 × List Tri
  | [] => ([], [])
  | (f, b) :: m =>
    let r := meshCell cache m
    let t := (cache f).tris.getD []
    (((cache f).verts.getD []) ++ r.1, (if b then t else t.map fun t => (t.2.1, t.1, t.2.2)) ++ r.2)

/-! ## specification -/

/-- the border of the triangles `T` is the closed chain `E`: every directed edge is used by the triangles and by the chain equally often, after
edges used in both directions are cancelled. -/
def HasBorder (T : List Tri) (E : List DEdge) : Prop :=
  ∀ a b, ((T.flatMap triEdges).count (a, b) : ℤ) - (T.flatMap triEdges).count (b, a) = (E.count (a, b) : ℤ) - E.count (b, a)

/-! ## chains -/

/-- net number of uses of an edge. -/
def netE (E : List DEdge) (e : DEdge) : ℤ := (E.count e : ℤ) - E.count e.rev

theorem netE_append (E F : List DEdge) (e : DEdge) : netE (E ++ F) e = netE E e + netE F e := by
  unfold netE; rw [List.count_append, List.count_append]; push_cast; ring

theorem netE_nil (e : DEdge) : netE [] e = 0 := by simp [netE]

theorem netE_cons (x : DEdge) (E : List DEdge) (e : DEdge) : netE (x :: E) e = netE [x] e + netE E e := by
  rw [← netE_append]; rfl

theorem netE_rev (x e : DEdge) : netE [x.rev] e = -netE [x] e := by
  unfold netE
  have h1 : List.count e [x.rev] = List.count e.rev [x] := by
    by_cases h : x.rev = e
    · subst h; rw [DEdge.rev_rev]; simp
    · have : x ≠ e.rev := fun hh => h (by rw [hh, DEdge.rev_rev])
      rw [List.count_eq_zero_of_not_mem (by simpa using fun hh => h hh.symm), List.count_eq_zero_of_not_mem (by simpa using fun hh => this hh.symm)]
  have h2 : List.count e.rev [x.rev] = List.count e [x] := by
    by_cases h : x = e
    · subst h; simp
    · have : x.rev ≠ e.rev := fun hh => h (by rw [← DEdge.rev_rev x, hh, DEdge.rev_rev])
      rw [List.count_eq_zero_of_not_mem (by simpa using fun hh => this hh.symm), List.count_eq_zero_of_not_mem (by simpa using fun hh => h hh.symm)]
  rw [h1, h2]; ring

theorem netE_tri (t : Tri) (e : DEdge) : netE (triEdges t) e = netE [(t.1, t.2.1)] e + netE [(t.2.1, t.2.2)] e + netE [(t.2.2, t.1)] e := by
  unfold triEdges
  rw [netE_cons, netE_cons (t.2.1, t.2.2)]; ring

theorem netE_swap (T : List Tri) (e : DEdge) :
    netE ((T.map fun t => (t.2.1, t.1, t.2.2)).flatMap triEdges) e = -netE (T.flatMap triEdges) e := by
  induction T with
  | nil => simp [netE]
  | cons t T ih =>
    rw [List.map_cons, List.flatMap_cons, netE_append, ih, List.flatMap_cons, netE_append, netE_tri, netE_tri]
    dsimp only
    have h1 := netE_rev (t.1, t.2.1) e
    have h2 := netE_rev (t.2.1, t.2.2) e
    have h3 := netE_rev (t.2.2, t.1) e
    unfold DEdge.rev at h1 h2 h3
    dsimp only at h1 h2 h3
    rw [h1, h2, h3]; ring

theorem netE_cell (tri : ℤ → List Tri) (m : List (ℤ × Bool)) (e : DEdge) :
    netE ((m.flatMap fun p => if p.2 then tri p.1 else (tri p.1).map fun t => (t.2.1, t.1, t.2.2)).flatMap triEdges) e =
      (m.map fun p => sgn p.2 * netE ((tri p.1).flatMap triEdges) e).sum := by
  induction m with
  | nil => simp [netE]
  | cons p m ih =>
    rw [List.flatMap_cons, List.flatMap_append, netE_append, ih, List.map_cons, List.sum_cons]
    congr 1
    cases p.2
    · rw [if_neg (by simp), netE_swap]; simp [sgn]
    · rw [if_pos rfl]; simp [sgn]

theorem hasBorder_iff (T : List Tri) (E : List DEdge) : HasBorder T E ↔ ∀ e, netE (T.flatMap triEdges) e = netE E e :=
  ⟨fun h e => h e.1 e.2, fun h a b => h (a, b)⟩

theorem incidence_eq (faces : List (ℤ × List (List ℤ))) (f : ℤ) (e : DEdge) : incidence faces f e = netE (edgesOf faces f) e := rfl

theorem fan_net (p0 p1 : ℤ) (rest : List ℤ) (e : DEdge) :
    netE ((((p1 :: rest).zip rest).map fun q => ((p0, q.1, q.2) : Tri)).flatMap triEdges) e =
      netE [(p0, p1)] e + netE ((p1 :: rest).zip (rest ++ [p0])) e := by
  induction rest generalizing p1 with
  | nil =>
    have := netE_rev (p0, p1) e
    unfold DEdge.rev at this
    dsimp only at this
    simp only [List.zip_nil_right, List.map_nil, List.flatMap_nil, netE_nil, List.nil_append, List.zip_cons_cons, List.zip_nil_left]
    rw [this]; ring
  | cons c rest ih =>
    rw [List.zip_cons_cons, List.map_cons, List.flatMap_cons, netE_append, ih, netE_tri, List.cons_append, List.zip_cons_cons,
      netE_cons (p1, c) ((c :: rest).zip (rest ++ [p0]))]
    dsimp only
    have := netE_rev (c, p0) e
    unfold DEdge.rev at this
    dsimp only at this
    rw [this]; ring

/-! ## theorems -/

/-- **C107, fans.** The border of the fan triangulation of a loop is the loop. -/
theorem C107_fan (C : List ℤ) : HasBorder (triangleFan C) (polyEdges C) := by
  rw [hasBorder_iff]
  intro e
  match C with
  | [] => rfl
  | [p] =>
    have := netE_rev (p, p) e
    unfold DEdge.rev at this
    dsimp only at this
    have h0 : netE [(p, p)] e = 0 := by omega
    have h1 : polyEdges [p] = [(p, p)] := by simp [polyEdges_cons]
    rw [h1, h0]
    rfl
  | p0 :: p1 :: rest =>
    unfold triangleFan
    rw [fan_net, polyEdges_cons, List.cons_append, List.zip_cons_cons, netE_cons (p0, p1) ((p1 :: rest).zip (rest ++ [p0]))]

variable (faces : List (ℤ × List (List ℤ))) (h : Clean faces) (hedges : ∀ f, (edgesOf faces f).Nodup)
  (ord : DEdge → List ℤ) (hord : ∀ e, (ord e).Perm ((make faces).around e)) (R : DsuRoots ((make faces).merge ord).ds)
  (k : ℕ) (m : List (ℤ × Bool)) (hk : ((make faces).bake ord R).cells[k]? = some m)
  (tri : ℤ → List Tri) (htri : ∀ p ∈ m, HasBorder (tri p.1) (edgesOf faces p.1))

include h hedges hord hk htri in
/-- **C107, watertight.** For every cell found by the collapser, if the triangulation of each face has the loops of the face as its border, the
triangle mesh `triangulated_cell(idx, true, false)` is closed: every edge is used equally often in both directions. This holds also for
cells with faces that have both sides in the cell. -/
theorem C107_watertight (a b : ℤ) :
    ((triangulatedCell ((make faces).bake ord R).foldedFaces tri true false m).flatMap triEdges).count (a, b) =
      ((triangulatedCell ((make faces).bake ord R).foldedFaces tri true false m).flatMap triEdges).count (b, a) := by
  have hz : netE ((triangulatedCell ((make faces).bake ord R).foldedFaces tri true false m).flatMap triEdges) (a, b) = 0 := by
    unfold triangulatedCell
    rw [netE_cell, ← C107_closed_without_folded faces h hedges ord hord R k m hk (a, b)]
    simp only [Bool.false_and, Bool.true_and, Bool.false_or]
    congr 1
    apply List.map_congr_left
    intro p hp
    rw [(hasBorder_iff _ _).1 (htri p (List.mem_of_mem_filter hp)), incidence_eq]
  unfold netE DEdge.rev at hz
  dsimp only at hz
  omega

theorem sum_split {α : Type} (P : α → Bool) (g : α → ℤ) (l : List α) :
    (l.map g).sum = ((l.filter P).map g).sum + ((l.filter fun a => !P a).map g).sum := by
  induction l with
  | nil => rfl
  | cons a l ih =>
    rw [List.map_cons, List.sum_cons, ih, List.filter_cons, List.filter_cons]
    cases hP : P a <;> simp <;> ring

include h hedges hord hk htri in
/-- **C107, flaps.** With flaps (`compact_triangulated_cell` always asks for them) each face with both sides in the cell is there once: the
border of the mesh is the signed sum of the loops of these faces. -/
theorem C107_flaps (a b : ℤ) :
    let T := triangulatedCell ((make faces).bake ord R).foldedFaces tri true true m
    ((T.flatMap triEdges).count (a, b) : ℤ) - (T.flatMap triEdges).count (b, a) =
      ((m.filter fun p => decide (p.1 ∈ ((make faces).bake ord R).foldedFaces)).map fun p =>
        (if p.2 then 1 else -1) * (((edgesOf faces p.1).count (a, b) : ℤ) - (edgesOf faces p.1).count (b, a))).sum := by
  intro T
  show netE (T.flatMap triEdges) (a, b) = _
  have hT : T = m.flatMap fun p => if p.2 then tri p.1 else (tri p.1).map fun t => (t.2.1, t.1, t.2.2) := by
    show triangulatedCell _ _ _ _ _ = _
    unfold triangulatedCell
    congr 1
    rw [List.filter_eq_self]
    intro p _
    cases decide (p.1 ∈ ((make faces).bake ord R).foldedFaces) <;> rfl
  rw [hT, netE_cell, sum_split fun p => decide (p.1 ∈ ((make faces).bake ord R).foldedFaces)]
  have h0 := C107_closed_without_folded faces h hedges ord hord R k m hk (a, b)
  have h1 : ((m.filter fun p => !decide (p.1 ∈ ((make faces).bake ord R).foldedFaces)).map fun p =>
      sgn p.2 * netE ((tri p.1).flatMap triEdges) (a, b)) =
      (m.filter fun p => !decide (p.1 ∈ ((make faces).bake ord R).foldedFaces)).map fun p => sgn p.2 * incidence faces p.1 (a, b) := by
    apply List.map_congr_left
    intro p hp
    rw [(hasBorder_iff _ _).1 (htri p (List.mem_of_mem_filter hp)), incidence_eq]
  rw [h1, h0, add_zero]
  congr 1
  apply List.map_congr_left
  intro p hp
  rw [(hasBorder_iff _ _).1 (htri p (List.mem_of_mem_filter hp))]
  rfl

include h hedges hord hk htri in
/-- **C107, refuted: the compact mesh of a cell is closed.** If exactly one face of the cell has both sides in it, the mesh has that face's
edges as its border. -/
theorem C107_one_flap_refuted (p : ℤ × Bool) (hp : (m.filter fun p => decide (p.1 ∈ ((make faces).bake ord R).foldedFaces)) = [p])
    (a b : ℤ) (he : (a, b) ∈ edgesOf faces p.1) :
    let T := triangulatedCell ((make faces).bake ord R).foldedFaces tri true true m
    (T.flatMap triEdges).count (a, b) ≠ (T.flatMap triEdges).count (b, a) := by
  intro T heq
  have h1 := C107_flaps faces h hedges ord hord R k m hk tri htri a b
  rw [hp] at h1
  have hn : (b, a) ∉ edgesOf faces p.1 := clean_simple h he
  rw [List.map_cons, List.map_nil, List.sum_cons, List.sum_nil, List.count_eq_one_of_mem (hedges p.1) he,
    List.count_eq_zero_of_not_mem hn] at h1
  have : ((T.flatMap triEdges).count (a, b) : ℤ) = (T.flatMap triEdges).count (b, a) := by rw [heq]
  dsimp only at h1
  rw [this, sub_self] at h1
  revert h1
  cases p.2 <;> simp

include h hord in
/-- **C107, free edges.** A face with an edge that no other face uses has both sides in one cell. -/
theorem C107_free_edge_folded (f : ℤ) (e : DEdge) (he : e ∈ edgesOf faces f)
    (hfree : ∀ g, g ≠ f → e ∉ edgesOf faces g ∧ (e.2, e.1) ∉ edgesOf faces g) :
    f ∈ ((make faces).bake ord R).foldedFaces := by
  obtain ⟨hpos, hnd⟩ := clean_hf h
  have hraw := raw_make faces
  obtain ⟨hinv, _⟩ := make_clean faces h
  rw [C38_folded_faces faces hpos hnd ord hord R]
  have hm := (C38_halffaces faces h f e true).2 he
  have hmr := rev_mem hraw hm.1
  have hne : e.1 ≠ e.2 := hnd _ hm.1
  -- only `f` is around `e` and its reverse
  have honly : ∀ x : DEdge, x = e ∨ x = e.rev → ord x = [f] := by
    intro x hx
    have hall : ∀ g ∈ ord x, g = f := by
      intro g hg
      rw [(hord x).mem_iff, mem_around] at hg
      by_contra hgf
      obtain ⟨h1, h2⟩ := hfree g hgf
      have hs := (C38_halffaces faces h g x ((make faces).side (g, x))).1 ⟨hg, rfl⟩
      rcases hx with rfl | rfl
      · split at hs
        · exact h1 hs
        · exact h2 hs
      · rw [DEdge.rev_rev] at hs
        split at hs
        · exact h2 hs
        · exact h1 hs
    have hmem : f ∈ ord x := by
      rw [(hord x).mem_iff, mem_around]
      rcases hx with rfl | rfl
      · exact hm.1
      · exact hmr
    have hnod : (ord x).Nodup := (hord x).nodup_iff.2 (around_nodup hraw.sorted x)
    match hl : ord x, hmem, hall, hnod with
    | [y], hmem, _, _ => rw [List.mem_singleton.1 hmem]
    | y :: z :: l, _, hall, hnod =>
      have h1 := hall y (by simp)
      have h2 := hall z (by simp)
      rw [h1, h2] at hnod
      simp at hnod
  have hlink : ((make faces).bake ord R).cell (f, e) = ((make faces).bake ord R).cell (f, e.rev) := by
    rw [C38_same_cell_iff_linked faces hpos ord hord R _ _ hm.1 hmr]
    rcases lt_or_gt_of_ne hne with hlt | hgt
    · refine .rel _ _ ⟨e, f, f, by rw [hinv]; simp, hlt, ?_, rfl, rfl⟩
      rw [honly e (.inl rfl)]; simp [FaceCollapser.cyclicPairs]
    · refine .symm _ _ (.rel _ _ ⟨e.rev, f, f, by rw [hinv]; simp, hgt, ?_, rfl, by rw [DEdge.rev_rev]⟩)
      rw [honly e.rev (.inr rfl)]; simp [FaceCollapser.cyclicPairs]
  exact ⟨e, e.rev, hm.1, hmr, hm.2, by rw [side_rev hraw hm.1 hne, hm.2]; rfl, hlink⟩

include h hedges hord hk in
/-- **C107, volumes of cells with folded faces (defect).** Moving the mesh by `t` changes the computed volume of a cell by the part of the area of its
faces with both sides in it: such a cell has no well defined volume. -/
theorem C107_volume_moves_refuted (κ : ℚ) (V : ℤ → Vec3) (t : Vec3) :
    cellVolume (faceBrepVol κ (shifted V t) faces) m = cellVolume (faceBrepVol κ V faces) m +
      κ * ((m.filter fun p => decide (p.1 ∈ ((make faces).bake ord R).foldedFaces)).map fun p =>
        (if p.2 then 1 else -1) * vdot t (areaVec V (edgesOf faces p.1))).sum := by
  have h0 := closed_sum_zero (m.filter fun p => !decide (p.1 ∈ ((make faces).bake ord R).foldedFaces)) (edgesOf faces)
    (fun e => vdet t (V e.1) (V e.2)) (fun e => vdet_swap23 t (V e.1) (V e.2))
    (fun e => C107_closed_without_folded faces h hedges ord hord R k m hk e)
  have hgen : ∀ l : List (ℤ × Bool), cellVolume (faceBrepVol κ (shifted V t) faces) l =
      cellVolume (faceBrepVol κ V faces) l +
      κ * (((l.filter fun p => decide (p.1 ∈ ((make faces).bake ord R).foldedFaces)).map fun p =>
        (if p.2 then 1 else -1) * vdot t (areaVec V (edgesOf faces p.1))).sum +
        ((l.filter fun p => !decide (p.1 ∈ ((make faces).bake ord R).foldedFaces)).map fun p =>
          (sgn p.2 : ℚ) * ((edgesOf faces p.1).map fun e => vdet t (V e.1) (V e.2)).sum).sum) := by
    intro l
    induction l with
    | nil => simp [cellVolume]
    | cons p l ih =>
      unfold cellVolume at ih ⊢
      rw [List.map_cons, List.sum_cons, ih, List.map_cons, List.sum_cons, faceBrepVol_shift, List.filter_cons, List.filter_cons]
      by_cases hf : p.1 ∈ ((make faces).bake ord R).foldedFaces
      · simp only [hf, decide_true, if_true, Bool.not_true, Bool.false_eq_true, if_false, List.map_cons, List.sum_cons]
        ring
      · simp only [hf, decide_false, if_true, Bool.not_false, Bool.false_eq_true, if_false, List.map_cons, List.sum_cons]
        rw [vdot_areaVec]
        cases p.2 <;> simp [sgn] <;> ring
  rw [hgen m, h0, add_zero]

include h hedges hord hk htri in
/-- **C107, refuted: `get_mesh`.** `CutCell::get_mesh` does not turn the faces seen from behind: the border of its mesh is twice the loops of these faces
(for a cell without folded faces). -/
theorem C107_get_mesh_refuted (hnf : ∀ p ∈ m, p.1 ∉ ((make faces).bake ord R).foldedFaces) (a b : ℤ) :
    let T := getMesh tri m
    ((T.flatMap triEdges).count (a, b) : ℤ) - (T.flatMap triEdges).count (b, a) =
      2 * ((m.filter fun p => !p.2).map fun p => ((edgesOf faces p.1).count (a, b) : ℤ) - (edgesOf faces p.1).count (b, a)).sum := by
  intro T
  show netE (T.flatMap triEdges) (a, b) = _
  have h0 := C107_closed_without_folded faces h hedges ord hord R k m hk (a, b)
  rw [List.filter_eq_self.2 (fun p hp => by simpa using hnf p hp)] at h0
  have hsum : netE (T.flatMap triEdges) (a, b) = (m.map fun p => incidence faces p.1 (a, b)).sum := by
    show netE ((getMesh tri m).flatMap triEdges) (a, b) = _
    unfold getMesh
    have hgen : ∀ l : List (ℤ × Bool), (∀ p ∈ l, p ∈ m) →
        netE ((l.flatMap fun p => tri p.1).flatMap triEdges) (a, b) = (l.map fun p => incidence faces p.1 (a, b)).sum := by
      intro l
      induction l with
      | nil => intro _; simp [netE]
      | cons p l ih =>
        intro hl
        rw [List.flatMap_cons, List.flatMap_append, netE_append, ih fun q hq => hl q (List.mem_cons_of_mem _ hq), List.map_cons, List.sum_cons,
          (hasBorder_iff _ _).1 (htri p (hl p List.mem_cons_self)), incidence_eq]
    exact hgen m fun _ hp => hp
  rw [hsum]
  rw [sum_split fun p => p.2] at h0 ⊢
  have h1 : ((m.filter fun p => p.2).map fun p => sgn p.2 * incidence faces p.1 (a, b)) =
      (m.filter fun p => p.2).map fun p => incidence faces p.1 (a, b) := by
    apply List.map_congr_left
    intro p hp
    have := (List.mem_filter.1 hp).2
    rw [this]; simp [sgn]
  have h2 : ((m.filter fun p => !p.2).map fun p => sgn p.2 * incidence faces p.1 (a, b)) =
      (m.filter fun p => !p.2).map fun p => -incidence faces p.1 (a, b) := by
    apply List.map_congr_left
    intro p hp
    have := (List.mem_filter.1 hp).2
    rw [Bool.not_eq_true'] at this
    rw [this]; simp [sgn]
  have h3 : ∀ l : List (ℤ × Bool), (l.map fun p => -incidence faces p.1 (a, b)).sum = -(l.map fun p => incidence faces p.1 (a, b)).sum := by
    intro l
    induction l with
    | nil => simp
    | cons p l ih => rw [List.map_cons, List.sum_cons, ih, List.map_cons, List.sum_cons]; ring
  rw [h1, h2, h3] at h0
  show _ = 2 * ((m.filter fun p => !p.2).map fun p => incidence faces p.1 (a, b)).sum
  linarith

/-! ## added vertices -/

/-- the corner positions of face `f` in its own terms: its own vertices if it has some, those of the mesh otherwise. -/
def ownCorners (VM : List Vec3) (c : Cache) (b : Bool) : List (Option Vec3 × Option Vec3 × Option Vec3) :=
  let pos : ℤ → Option Vec3 := col (c.verts.getD VM)
  let T := (c.tris.getD []).map (Tri.map pos)
  if b then T else T.map fun t => (t.2.1, t.1, t.2.2)

theorem col_append_left {α : Type} (A B : List α) (i : ℤ) (h : i < A.length) : col (A ++ B) i = col A i := by
  unfold col
  split
  · rw [List.getElem?_append_left (by omega)]
  · rfl

theorem col_append_right {α : Type} (A B : List α) (i : ℤ) (h : 0 ≤ i) : col (A ++ B) (i + A.length) = col B i := by
  unfold col
  rw [if_pos (by omega), if_pos h, List.getElem?_append_right (by omega)]
  congr 1
  omega

theorem map_flip {α β : Type} (b : Bool) (g : α → β) (T : List (α × α × α)) :
    (if b = true then T else T.map fun t => (t.2.1, t.1, t.2.2)).map (Tri.map g) =
      if b = true then T.map (Tri.map g) else (T.map (Tri.map g)).map fun t => (t.2.1, t.1, t.2.2) := by
  cases b
  · simp [Tri.map, Function.comp_def]
  · rfl

/-- **C107, added vertices.** `triangulated_with_additional_vertices(Fs, number of vertices)`: looked up in the mesh vertices followed by the returned ones, the
triangles are those of the faces, at the positions the triangulations of the faces gave them, turned round for faces seen from behind. -/
theorem C107_additional_vertices (cache : ℤ → Cache) (VM : List Vec3) (m : List (ℤ × Bool))
    (hin : ∀ p ∈ m, ∀ T, (cache p.1).tris = some T → ∀ t ∈ T, ∀ i ∈ Tri.corners t, 0 ≤ i ∧ i < ((cache p.1).verts.getD VM).length) :
    let r := withAdditional cache VM.length m
    r.2.map (Tri.map (col (VM ++ r.1))) = m.flatMap fun p => ownCorners VM (cache p.1) p.2 := by
  have key : ∀ (m : List (ℤ × Bool)) (W : List Vec3),
      (∀ p ∈ m, ∀ T, (cache p.1).tris = some T → ∀ t ∈ T, ∀ i ∈ Tri.corners t, 0 ≤ i ∧ i < ((cache p.1).verts.getD VM).length) →
      (withAdditional cache (VM.length + W.length) m).2.map
        (Tri.map (col (VM ++ W ++ (withAdditional cache (VM.length + W.length) m).1))) = m.flatMap fun p => ownCorners VM (cache p.1) p.2 := by
    intro m
    induction m with
    | nil => intro W _; rfl
    | cons p m ih =>
      intro W hin
      obtain ⟨f, b⟩ := p
      have hin' := fun q hq => hin q (List.mem_cons_of_mem _ hq)
      rw [List.flatMap_cons]
      cases ht : (cache f).tris with
      | none =>
        have : ownCorners VM (cache f) b = [] := by unfold ownCorners; rw [ht]; cases b <;> rfl
        simp only [withAdditional, ht, this, List.nil_append]
        exact ih W hin'
      | some T =>
        have hT := hin (f, b) List.mem_cons_self T ht
        dsimp only at hT
        cases hv : (cache f).verts with
        | none =>
          simp only [withAdditional, ht, hv]
          rw [List.map_append, ih W hin', map_flip]
          congr 1
          unfold ownCorners
          rw [ht, hv]
          dsimp only [Option.getD]
          have : T.map (Tri.map (col (VM ++ W ++ (withAdditional cache (VM.length + W.length) m).1))) = T.map (Tri.map (col VM)) := by
            apply List.map_congr_left
            intro t htT
            have hc : ∀ i ∈ Tri.corners t, col (VM ++ W ++ (withAdditional cache (VM.length + W.length) m).1) i = col VM i := by
              intro i hi
              have := hT t htT i hi
              rw [hv] at this
              simp only [Option.getD_none, Option.getD_some] at this
              rw [List.append_assoc, col_append_left _ _ _ this.2]
            unfold Tri.map
            rw [hc t.1 (by simp [Tri.corners]), hc t.2.1 (by simp [Tri.corners]), hc t.2.2 (by simp [Tri.corners])]
          rw [this]
        | some v =>
          simp only [withAdditional, ht, hv]
          have ih' := ih (W ++ v) hin'
          rw [List.length_append, ← Nat.add_assoc] at ih'
          rw [List.map_append, map_flip]
          have e1 : VM ++ W ++ (v ++ (withAdditional cache (VM.length + W.length + v.length) m).1) =
              VM ++ (W ++ v) ++ (withAdditional cache (VM.length + W.length + v.length) m).1 := by simp
          have e2 : VM ++ (W ++ v) ++ (withAdditional cache (VM.length + W.length + v.length) m).1 =
              (VM ++ W) ++ (v ++ (withAdditional cache (VM.length + W.length + v.length) m).1) := by simp
          rw [e1, ih']
          congr 1
          unfold ownCorners
          rw [ht, hv]
          dsimp only [Option.getD]
          have : (T.map (Tri.map fun i => i + ((VM.length + W.length : ℕ) : ℤ))).map
              (Tri.map (col (VM ++ (W ++ v) ++ (withAdditional cache (VM.length + W.length + v.length) m).1))) = T.map (Tri.map (col v)) := by
            rw [List.map_map]
            apply List.map_congr_left
            intro t htT
            have hc : ∀ i ∈ Tri.corners t, col (VM ++ (W ++ v) ++ (withAdditional cache (VM.length + W.length + v.length) m).1)
                (i + ((VM.length + W.length : ℕ) : ℤ)) = col v i := by
              intro i hi
              have := hT t htT i hi
              rw [hv] at this
              simp only [Option.getD_none, Option.getD_some] at this
              rw [e2]
              have hl : ((VM.length + W.length : ℕ) : ℤ) = ((VM ++ W).length : ℤ) := by rw [List.length_append]
              rw [hl, col_append_right _ _ _ this.1, col_append_left _ _ _ this.2]
            simp only [Function.comp, Tri.map]
            rw [hc t.1 (by simp [Tri.corners]), hc t.2.1 (by simp [Tri.corners]), hc t.2.2 (by simp [Tri.corners])]
          rw [this]
  intro r
  have := key m [] hin
  simpa using this

/-- **C107, refuted: added vertices in `triangulated_cell`.** `triangulated_cell` does not shift the triangles: looked up in the mesh vertices followed by the
returned ones, every corner number below the number of mesh vertices is drawn at that mesh vertex, whatever position the triangulation gave
it. -/
theorem C107_mesh_cell_refuted (cache : ℤ → Cache) (VM : List Vec3) (m : List (ℤ × Bool))
    (hin : ∀ p ∈ m, ∀ T, (cache p.1).tris = some T → ∀ t ∈ T, ∀ i ∈ Tri.corners t, i < VM.length) :
    (meshCell cache m).2.map (Tri.map (col (VM ++ (meshCell cache m).1))) =
      m.flatMap fun p => ownCorners VM ⟨none, (cache p.1).tris⟩ p.2 := by
  have key : ∀ (X : List Vec3) (m : List (ℤ × Bool)),
      (∀ p ∈ m, ∀ T, (cache p.1).tris = some T → ∀ t ∈ T, ∀ i ∈ Tri.corners t, i < VM.length) →
      (meshCell cache m).2.map (Tri.map (col (VM ++ X))) = m.flatMap fun p => ownCorners VM ⟨none, (cache p.1).tris⟩ p.2 := by
    intro X m
    induction m with
    | nil => intro _; rfl
    | cons p m ih =>
      intro hin
      obtain ⟨f, b⟩ := p
      rw [List.flatMap_cons]
      simp only [meshCell]
      rw [List.map_append, ih fun q hq => hin q (List.mem_cons_of_mem _ hq), map_flip]
      congr 1
      unfold ownCorners
      have : ((cache f).tris.getD []).map (Tri.map (col (VM ++ X))) = ((cache f).tris.getD []).map (Tri.map (col VM)) := by
        apply List.map_congr_left
        intro t ht
        cases hT : (cache f).tris with
        | none => rw [hT] at ht; cases ht
        | some T =>
          rw [hT] at ht
          have hc : ∀ i ∈ Tri.corners t, col (VM ++ X) i = col VM i := fun i hi =>
            col_append_left _ _ _ (hin (f, b) List.mem_cons_self T hT t ht i hi)
          unfold Tri.map
          rw [hc t.1 (by simp [Tri.corners]), hc t.2.1 (by simp [Tri.corners]), hc t.2.2 (by simp [Tri.corners])]
      simp only [Option.getD_none]
      rw [this]
  exact key _ m hin

/-! ## a tetrahedron with a dangling triangle -/

/-- the tetrahedron of `Cell/Remove` with a triangle on its edge `0-1`. -/
def flapped : List (ℤ × List (List ℤ)) := tetra ++ [(4, [[0, 1, 4]])]

theorem flapped_clean : Clean flapped := by
  refine ⟨?_, ?_, ?_, ?_, ?_⟩ <;> decide +kernel

/-- its baked collapser. -/
def flappedBaked : CellCollapser :=
  (make flapped).bake (make flapped).around (merge_dsOk (raw_make flapped) _ fun _ => .refl _).roots

/-- the outer cell has the dangling triangle, and it is the only folded face. -/
example : flappedBaked.cells.length = 2 ∧ flappedBaked.foldedFaces = [4] ∧
    ∃ m ∈ flappedBaked.cells, (m.filter fun p => decide (p.1 ∈ flappedBaked.foldedFaces)).length = 1 ∧ m.length = 5 := by
  decide +kernel

theorem flapped_edges (f : ℤ) : (edgesOf flapped f).Nodup := by
  unfold edgesOf flapped tetra
  by_cases h0 : f = 0
  · subst h0; decide +kernel
  by_cases h1 : f = 1
  · subst h1; decide +kernel
  by_cases h2 : f = 2
  · subst h2; decide +kernel
  by_cases h3 : f = 3
  · subst h3; decide +kernel
  by_cases h4 : f = 4
  · subst h4; decide +kernel
  rw [List.filter_eq_nil_iff.2]
  · simp
  · intro p hp
    simp only [List.mem_append, List.mem_cons, List.not_mem_nil, or_false] at hp
    simp only [decide_eq_true_eq]
    rcases hp with (rfl | rfl | rfl | rfl) | rfl <;> simp only <;> omega

/-- the triangulation of a face by fans (`triangulate_fan` for faces with one loop). -/
def fanOf (faces : List (ℤ × List (List ℤ))) (f : ℤ) : List Tri :=
  (faces.filter fun p => decide (p.1 = f)).flatMap fun p => p.2.flatMap triangleFan

/-- **C107, fans of faces.** Faces triangulated by the fans of their loops meet the hypothesis of the theorems above. -/
theorem C107_fan_faces (faces : List (ℤ × List (List ℤ))) (f : ℤ) : HasBorder (fanOf faces f) (edgesOf faces f) := by
  rw [hasBorder_iff]
  intro e
  have hloops : ∀ L : List (List ℤ), netE ((L.flatMap triangleFan).flatMap triEdges) e = netE (L.flatMap polyEdges) e := by
    intro L
    induction L with
    | nil => rfl
    | cons C L ih =>
      rw [List.flatMap_cons, List.flatMap_append, netE_append, ih, List.flatMap_cons, netE_append, (hasBorder_iff _ _).1 (C107_fan C)]
  unfold fanOf edgesOf
  induction faces.filter fun p => decide (p.1 = f) with
  | nil => rfl
  | cons p l ih => rw [List.flatMap_cons, List.flatMap_append, netE_append, ih, List.flatMap_cons, netE_append, hloops]

/-- the hypotheses of the theorems above are met by the dangling triangle's cell: without flaps it is closed, with flaps it is not. -/
example (k : ℕ) (m : List (ℤ × Bool)) (hk : flappedBaked.cells[k]? = some m) (a b : ℤ) :
    ((triangulatedCell flappedBaked.foldedFaces (fanOf flapped) true false m).flatMap triEdges).count (a, b) =
      ((triangulatedCell flappedBaked.foldedFaces (fanOf flapped) true false m).flatMap triEdges).count (b, a) :=
  C107_watertight flapped flapped_clean flapped_edges _ (fun _ => .refl _) _ k m hk _ (fun p _ => C107_fan_faces flapped p.1) a b

example : ∃ m ∈ flappedBaked.cells,
    ((triangulatedCell flappedBaked.foldedFaces (fanOf flapped) true true m).flatMap triEdges).count (1, 4) ≠
      ((triangulatedCell flappedBaked.foldedFaces (fanOf flapped) true true m).flatMap triEdges).count (4, 1) := by
  decide +kernel

/-- the dangling triangle has a free edge. -/
example : ((1, 4) : DEdge) ∈ edgesOf flapped 4 ∧ ∀ g ∈ ([0, 1, 2, 3] : List ℤ), ((1, 4) : DEdge) ∉ edgesOf flapped g ∧ ((4, 1) : DEdge) ∉ edgesOf flapped g := by
  decide +kernel

/-- the tetrahedron as `get_mesh` returns it for its outside: each face the wrong way round; a cell with faces of both signs is not closed. -/
example : ((getMesh (fanOf tetra) [(0, false), (1, true)]).flatMap triEdges).count (0, 1) = 1 := by decide +kernel

/-- a face with vertices of its own: number 1 of the triangulation is not number 1 of the mesh. -/
example : let c : ℤ → Cache := fun _ => ⟨some [![5, 0, 0], ![6, 0, 0], ![5, 1, 0]], some [(0, 1, 2)]⟩
    let VM : List Vec3 := [![0, 0, 0], ![1, 0, 0], ![0, 1, 0]]
    ((meshCell c [(0, true)]).2.map (Tri.map (col (VM ++ (meshCell c [(0, true)]).1))) =
      [(some ![0, 0, 0], some ![1, 0, 0], some ![0, 1, 0])]) ∧
    ((withAdditional c 3 [(0, true)]).2.map (Tri.map (col (VM ++ (withAdditional c 3 [(0, true)]).1))) =
      [(some ![5, 0, 0], some ![6, 0, 0], some ![5, 1, 0])]) := by
  exact ⟨rfl, rfl⟩

end Mandoline.Watertight
