import Verif.Mesh.Locate
import Verif.Pipe2.Areas2

/-!
# C128: the loops of the cells of a 2D mesh, and the triangles `faces()` makes of them

`CutCellMesh<2>::cell(int)` (src/mesh2.cpp:155-172, model `Locate.cell`) and `CutCellMesh<2>::faces()` (src/mesh2.cpp:50-58).
-/
namespace Mandoline
namespace Draw2
open Sched Planar Pipe2 Locate Areas2

/-- the mesh that generation makes: the kept faces (generator2.cpp:186-255) and the exterior grid. -/
def genMesh (O : GridOrder 2) (G : Gen2) (faces : List (List (List ℤ))) : Locate.Mesh2 :=
  ⟨G.kept faces, ExteriorGrid.make O G.shape G.mask⟩

/-- `faces()` (mesh2.cpp:50-58): every loop of every cell goes to the library's `earclipping`, which triangulates a list of
polygons one by one (`ear`: the triangles of one polygon). -/
def triangles (M : Locate.Mesh2) (vidx : Coord 2 → ℤ) (ear : List ℤ → List (ℤ × ℤ × ℤ)) : List (ℤ × ℤ × ℤ) :=
  (List.range (numCells M)).flatMap fun i => (cell M vidx i).flatMap ear

/-! ## specification -/

/-- cell `i` goes through the half-edge `e`. -/
def Traverses (M : Locate.Mesh2) (vidx : Coord 2 → ℤ) (i : ℕ) (e : DEdge) : Prop := ∃ l ∈ cell M vidx i, e ∈ l.zip (l.rotate 1)

/-- the signed area of a cell: that of its loops, positive for counterclockwise ones. -/
def cellArea (pos : ℤ → Dir) (loops : List (List ℤ)) : ℚ := (loops.map (shoelace pos)).sum

/-- twice-counted area: the area inside the clockwise loops (holes) of the cut faces. -/
def holeArea (pos : ℤ → Dir) (faces : List (List (List ℤ))) : ℚ :=
  (faces.map fun F => (F.map fun l => max 0 (-shoelace pos l)).sum).sum

/-! ## proofs -/

/-- the corners of an exterior cell, in the order of `cell(int)`. -/
def corners (vidx : Coord 2 → ℤ) (c : Coord 2) : List ℤ :=
  [vidx ![c 0 + 0, c 1 + 0], vidx ![c 0 + 0, c 1 + 1], vidx ![c 0 + 1, c 1 + 1], vidx ![c 0 + 1, c 1 + 0]]

theorem cells_list (M : Locate.Mesh2) (vidx : Coord 2 → ℤ) :
    (List.range (numCells M)).map (cell M vidx) = M.faces ++ M.ext.cellCoords.map fun c => [corners vidx c] := by
  refine List.ext_getElem (by simp [numCells, ExteriorGrid.numCells]; omega) fun i h1 h2 => ?_
  rw [List.getElem_map, List.getElem_range]
  unfold cell
  by_cases h : i < M.faces.length
  · rw [dif_pos h, List.getElem_append_left h]
  · have h3 : i - M.faces.length < M.ext.cellCoords.length := by
      rw [List.length_append, List.length_map] at h2; omega
    rw [dif_neg h, dif_pos h3, List.getElem_append_right (by omega), List.getElem_map]
    rfl

theorem cell_cases (M : Locate.Mesh2) (vidx : Coord 2 → ℤ) (i : ℕ) (hi : i < numCells M) :
    (∃ h : i < M.faces.length, cell M vidx i = M.faces[i]) ∨
    (M.faces.length ≤ i ∧ ∃ h : i - M.faces.length < M.ext.cellCoords.length,
      cell M vidx i = [corners vidx M.ext.cellCoords[i - M.faces.length]]) := by
  unfold cell
  by_cases h : i < M.faces.length
  · exact Or.inl ⟨h, by rw [dif_pos h]⟩
  · have h3 : i - M.faces.length < M.ext.cellCoords.length := by
      unfold numCells ExteriorGrid.numCells at hi; omega
    exact Or.inr ⟨by omega, h3, by rw [dif_neg h, dif_pos h3]; rfl⟩

/-- the corners are where the grid puts them. -/
def Placed (pos : ℤ → Dir) (vidx : Coord 2 → ℤ) (c : Coord 2) : Prop :=
  ∀ a b : ℤ, (a = 0 ∨ a = 1) → (b = 0 ∨ b = 1) → pos (vidx ![c 0 + a, c 1 + b]) = ((c 0 : ℚ) + a, (c 1 : ℚ) + b)

theorem corners_area {pos : ℤ → Dir} {vidx : Coord 2 → ℤ} {c : Coord 2} (h : Placed pos vidx c) : shoelace pos (corners vidx c) = -1 := by
  have h00 := h 0 0 (Or.inl rfl) (Or.inl rfl)
  have h01 := h 0 1 (Or.inl rfl) (Or.inr rfl)
  have h11 := h 1 1 (Or.inr rfl) (Or.inr rfl)
  have h10 := h 1 0 (Or.inr rfl) (Or.inl rfl)
  unfold shoelace corners
  simp only [List.rotate_cons_succ, List.rotate_zero, List.cons_append, List.nil_append, List.zip_cons_cons, List.zip_nil_right,
    List.map_cons, List.map_nil, List.sum_cons, List.sum_nil, h00, h01, h11, h10]
  push_cast
  ring

/-- going along an exterior cell, the cell is on the right. -/
theorem corners_right {pos : ℤ → Dir} {vidx : Coord 2 → ℤ} {c : Coord 2} (h : Placed pos vidx c) {e : DEdge}
    (he : e ∈ (corners vidx c).zip ((corners vidx c).rotate 1)) : pos e.2 ≠ pos e.1 ∧ LeftOf c (pos e.2) (pos e.1) := by
  have h00 := h 0 0 (Or.inl rfl) (Or.inl rfl)
  have h01 := h 0 1 (Or.inl rfl) (Or.inr rfl)
  have h11 := h 1 1 (Or.inr rfl) (Or.inr rfl)
  have h10 := h 1 0 (Or.inr rfl) (Or.inl rfl)
  have key : ∀ p q : Dir, p ≠ q → InCell c p ∧ InCell c q ∧ ¬ Clockwise c p q → p ≠ q ∧ LeftOf c p q :=
    fun p q hn hh => ⟨hn, (leftOf_iff c p q hn).2 hh⟩
  unfold corners at he
  simp only [List.rotate_cons_succ, List.rotate_zero, List.cons_append, List.nil_append, List.zip_cons_cons, List.zip_nil_right,
    List.mem_cons, List.not_mem_nil, or_false] at he
  rcases he with rfl | rfl | rfl | rfl <;> dsimp only <;> simp only [h00, h01, h11, h10] <;>
    refine key _ _ (by intro hh; have := Prod.ext_iff.1 hh; simp at this) ⟨?_, ?_, ?_⟩ <;>
    first
      | (unfold InCell; dsimp only; push_cast; refine ⟨⟨?_, ?_⟩, ?_, ?_⟩ <;> linarith)
      | (unfold Clockwise; dsimp only; push_cast
         rintro (⟨a, b, d⟩ | ⟨a, b, d⟩ | ⟨a, b, d⟩ | ⟨a, b, d⟩) <;> linarith)

/-- **C128.** Every exterior cell is listed clockwise: its signed area is minus one grid cell. -/
theorem C128_exterior_clockwise (M : Locate.Mesh2) (vidx : Coord 2 → ℤ) (pos : ℤ → Dir) (hp : ∀ c ∈ M.ext.cellCoords, Placed pos vidx c)
    (origin dx : Fin 2 → ℚ) (i : ℕ) (hi : i < numCells M) (hx : M.faces.length ≤ i) :
    cellArea (world origin dx pos) (cell M vidx i) = - (dx 0 * dx 1) := by
  rcases cell_cases M vidx i hi with ⟨h, _⟩ | ⟨_, h, e⟩
  · omega
  · rw [e]
    unfold cellArea
    rw [List.map_cons, List.map_nil, List.sum_cons, List.sum_nil, shoelace_world, corners_area (hp _ (List.getElem_mem _))]
    ring

theorem traverses_cases {M : Locate.Mesh2} {vidx : Coord 2 → ℤ} {i : ℕ} {e : DEdge} (h : Traverses M vidx i e) :
    (∃ h : i < M.faces.length, e ∈ Gen2.halfEdges M.faces[i]) ∨
    (M.faces.length ≤ i ∧ ∃ h : i - M.faces.length < M.ext.cellCoords.length,
      e ∈ (corners vidx M.ext.cellCoords[i - M.faces.length]).zip ((corners vidx M.ext.cellCoords[i - M.faces.length]).rotate 1)) := by
  obtain ⟨l, hl, he⟩ := h
  have hi : i < numCells M := by
    by_contra hn
    unfold cell at hl
    unfold numCells ExteriorGrid.numCells at hn
    rw [dif_neg (by omega), dif_neg (by omega)] at hl
    cases hl
  rcases cell_cases M vidx i hi with ⟨h, e1⟩ | ⟨h0, h, e1⟩
  · rw [e1] at hl
    exact Or.inl ⟨h, List.mem_flatMap.2 ⟨l, hl, he⟩⟩
  · rw [e1, List.mem_singleton] at hl
    subst hl
    exact Or.inr ⟨h0, h, he⟩

theorem pairwise_flatMap {α β : Type*} {L : List α} {f : α → List β} (h : (L.flatMap f).Nodup) {i j : ℕ} (hi : i < L.length) (hj : j < L.length)
    (hij : i ≠ j) {x : β} (hx : x ∈ f L[i]) : x ∉ f L[j] := by
  intro hy
  have hp := (List.nodup_flatMap.1 h).2
  rw [List.pairwise_iff_getElem] at hp
  rcases lt_or_gt_of_ne hij with hlt | hgt
  · exact hp i j hi hj hlt hx hy
  · exact hp j i hj hi hgt hy hx

variable {n m : ℕ} {P : Input n m} {cs : List (CrossingI 2)} {es : List (EdgeInput.MeshEdge 2)} {ci : Coord 2 → ℤ}

theorem placed (h : Run P cs es) (c : Coord 2) (hc : ∀ i, 0 ≤ c i ∧ c i < P.shape i) : Placed (P.gen cs es ci).pos P.index.idx c := by
  intro a b ha hb
  have hn : P.Node cs (P.index.idx ![c 0 + a, c 1 + b]) (fun i => ((![c 0 + a, c 1 + b] : Coord 2) i : ℚ)) := by
    refine Or.inr ⟨![c 0 + a, c 1 + b], fun i => ?_, rfl, rfl⟩
    have := hc i
    fin_cases i <;> simp at this ⊢ <;> omega
  rw [h.pos hn]
  simp

/-- **C128.** For every admissible planar input, schedule and tie-breaking, and every admissible nesting of the loops into faces:
two cut faces never go through an edge in the same direction, nor do two exterior cells; but a cut face never goes through an
edge in the direction opposite to that of an exterior cell. -/
theorem C128_directions (h : Run P cs es) (pl : P.Planar) {ord : ℤ → List ℤ}
    (perm : ∀ a, (ord a).Perm ((FaceCollapser.make (P.graph cs es)).ring a))
    (sort : ∀ a, (ord a).Pairwise fun b c => angleLt (dirTo (P.gen cs es ci).pos a c) (dirTo (P.gen cs es ci).pos a b) = false)
    (R : DsuRoots ((FaceCollapser.make (P.graph cs es)).unify ord).ds) (O : GridOrder 2) :
    ∃ out, ((FaceCollapser.make (P.graph cs es)).bakeSimple ord R).faces = some out ∧
      ∀ faces, Grouped (P.gen cs es ci) (out.map Prod.snd) faces →
        (∀ i j e, i ≠ j → (i < ((P.gen cs es ci).kept faces).length ↔ j < ((P.gen cs es ci).kept faces).length) →
          Traverses (genMesh O (P.gen cs es ci) faces) P.index.idx i e → ¬ Traverses (genMesh O (P.gen cs es ci) faces) P.index.idx j e) ∧
        ∀ i j e, i < ((P.gen cs es ci).kept faces).length → ((P.gen cs es ci).kept faces).length ≤ j →
          Traverses (genMesh O (P.gen cs es ci) faces) P.index.idx i e →
          ¬ Traverses (genMesh O (P.gen cs es ci) faces) P.index.idx j (e.2, e.1) := by
  classical
  obtain ⟨out, h1, h2, h3⟩ := C84_loops_tile_active_cells (ci := ci) h pl perm sort R
  refine ⟨out, h1, fun faces g => ?_⟩
  set G := P.gen cs es ci with hG
  have hpne : ∀ e ∈ (FaceCollapser.make (P.graph cs es)).edgeList, G.pos e.1 ≠ G.pos e.2 := by
    intro e he
    obtain ⟨p, q, np, nq, sq⟩ := h.edge_seg pl ((mem_known _).1 he)
    rw [h.pos np, h.pos nq]
    intro hh
    rw [Prod.mk.injEq] at hh
    exact sq.ne (pt_ext hh.1 hh.2)
  have hperm : (faces.flatMap Gen2.halfEdges).Perm (FaceCollapser.make (P.graph cs es)).edgeList := by
    have e1 : faces.flatMap Gen2.halfEdges = faces.flatten.flatMap loopEdges := by
      unfold Gen2.halfEdges
      rw [← List.flatMap_id, List.flatMap_assoc]
      rfl
    rw [e1]
    refine (g.perm.flatMap_right loopEdges).trans ?_
    rw [List.flatMap_map]
    exact h2
  have hnd : ((G.kept faces).flatMap Gen2.halfEdges).Nodup := by
    refine List.Nodup.sublist ?_ (hperm.nodup_iff.2 (edgeList_nodup _))
    exact List.Sublist.flatMap List.filter_sublist _
  have hext : ∀ (k : ℕ) (hk : k < (genMesh O G faces).ext.cellCoords.length),
      G.InGrid (genMesh O G faces).ext.cellCoords[k] ∧ G.mask (genMesh O G faces).ext.cellCoords[k] = true := by
    intro k hk
    have hm : (genMesh O G faces).ext.cellCoords[k] ∈ (genMesh O G faces).ext.cellCoords := List.getElem_mem _
    have h4 : (genMesh O G faces).ext.cellCoords = (O.coords G.shape).filter G.mask := cellCoords_make _ _ _
    have key : ∀ c ∈ (genMesh O G faces).ext.cellCoords, G.InGrid c ∧ G.mask c = true := by
      intro c hc
      rw [h4, List.mem_filter, O.mem] at hc
      exact hc
    exact key _ hm
  have hextnd : (genMesh O G faces).ext.cellCoords.Nodup := by
    have : (genMesh O G faces).ext.cellCoords = (O.coords G.shape).filter G.mask := cellCoords_make _ _ _
    rw [this]
    exact (O.nodup _).filter _
  have hcut : ∀ (k : ℕ) (hk : k < (G.kept faces).length), ∃ c, G.Active c ∧ ∀ e ∈ Gen2.halfEdges (G.kept faces)[k], LeftOf c (G.pos e.1) (G.pos e.2) := by
    intro k hk
    obtain ⟨hF, hkeep⟩ := List.mem_filter.1 (List.getElem_mem hk)
    by_contra hn
    push Not at hn
    have := g.outside _ hF fun e he c hl ha => by
      obtain ⟨e', he', hl'⟩ := hn c ha
      exact hl' ((g.cell _ hF c ha ⟨e, he, hl⟩).1 e' he')
    rw [this] at hkeep
    cases hkeep
  have uniq : ∀ {p q : Dir} {c d : Coord 2}, p ≠ q → LeftOf c p q → LeftOf d p q → c = d := by
    intro p q c d hne hl hl'
    obtain ⟨x, _, hu⟩ := C76_left_cell _ _ hne ⟨c, hl.1, hl.2.1⟩
    rw [hu c hl, hu d hl']
  constructor
  · intro i j e hij hiff hi hj
    rcases traverses_cases hi with ⟨hi1, hi2⟩ | ⟨hi0, hi1, hi2⟩
    · rcases traverses_cases hj with ⟨hj1, hj2⟩ | ⟨hj0, hj1, hj2⟩
      · exact pairwise_flatMap hnd hi1 hj1 hij hi2 hj2
      · exact absurd (hiff.1 hi1) (Nat.not_lt.2 hj0)
    · rcases traverses_cases hj with ⟨hj1, hj2⟩ | ⟨hj0, hj1, hj2⟩
      · exact absurd (hiff.2 hj1) (Nat.not_lt.2 hi0)
      · obtain ⟨n1, l1⟩ := corners_right (placed (ci := ci) h _ (hext _ hi1).1) hi2
        obtain ⟨n2, l2⟩ := corners_right (placed (ci := ci) h _ (hext _ hj1).1) hj2
        have := (List.Nodup.getElem_inj_iff hextnd).1 (uniq n1 l1 l2)
        have a : (genMesh O G faces).faces.length ≤ i := hi0
        have b : (genMesh O G faces).faces.length ≤ j := hj0
        omega
  · intro i j e hi0 hj0 hi hj
    rcases traverses_cases hi with ⟨hi1, hi2⟩ | ⟨hi1, _⟩
    · rcases traverses_cases hj with ⟨hj1, _⟩ | ⟨_, hj1, hj2⟩
      · exact absurd hj1 (Nat.not_lt.2 hj0)
      · obtain ⟨n2, l2⟩ := corners_right (placed (ci := ci) h _ (hext _ hj1).1) hj2
        obtain ⟨c, hc, hl⟩ := hcut i hi1
        have := uniq n2 l2 (hl e hi2)
        have hm := (hext _ hj1).2
        rw [this, hc.2] at hm
        cases hm
    · exact absurd hi0 (Nat.not_lt.2 hi1)

/-- number of cells that are cut, and that are not. -/
def cutCount (O : GridOrder 2) (G : Gen2) : ℕ := ((O.coords G.shape).filter fun c => !G.mask c).length
def extCount (O : GridOrder 2) (G : Gen2) : ℕ := ((O.coords G.shape).filter fun c => G.mask c).length

theorem counts (O : GridOrder 2) (G : Gen2) (hs : ∀ i, 0 ≤ G.shape i) : (cutCount O G : ℚ) + extCount O G = G.shape 0 * G.shape 1 := by
  have e3 := length_coords O G.shape hs
  have e4 : ∀ l : List (Coord 2), (l.filter fun c => !G.mask c).length + (l.filter fun c => G.mask c).length = l.length := by
    intro l
    induction l with
    | nil => rfl
    | cons a l ih =>
      rw [List.filter_cons, List.filter_cons]
      cases G.mask a <;> simp <;> omega
  have e5 := e4 (O.coords G.shape)
  unfold cutCount extCount
  have e6 : ((((O.coords G.shape).filter fun c => !G.mask c).length : ℤ) + ((O.coords G.shape).filter fun c => G.mask c).length) =
      G.shape 0 * G.shape 1 := by rw [← e3]; exact_mod_cast e5
  exact_mod_cast e6

theorem kept_total (h : Run P cs es) (pl : P.Planar) {ord : ℤ → List ℤ}
    (perm : ∀ a, (ord a).Perm ((FaceCollapser.make (P.graph cs es)).ring a))
    (sort : ∀ a, (ord a).Pairwise fun b c => angleLt (dirTo (P.gen cs es ci).pos a c) (dirTo (P.gen cs es ci).pos a b) = false)
    (R : DsuRoots ((FaceCollapser.make (P.graph cs es)).unify ord).ds) (O : GridOrder 2) :
    ∃ out, ((FaceCollapser.make (P.graph cs es)).bakeSimple ord R).faces = some out ∧
      ∀ faces, Grouped (P.gen cs es ci) (out.map Prod.snd) faces →
        (((P.gen cs es ci).kept faces).map fun F => (F.map (shoelace (P.gen cs es ci).pos)).sum).sum = cutCount O (P.gen cs es ci) := by
  classical
  obtain ⟨out, h1, h2⟩ := C126_cell_sum (ci := ci) h pl perm sort R
  refine ⟨out, h1, fun faces g => ?_⟩
  obtain ⟨h3, h4⟩ := h2 faces g
  set G := P.gen cs es ci with hG
  let S : Finset (Coord 2) := ((O.coords P.shape).filter fun c => !G.mask c).toFinset
  have hS : ∀ c, c ∈ S ↔ G.Active c := by
    intro c
    simp only [S, List.mem_toFinset, List.mem_filter, O.mem, Bool.not_eq_true']
    rfl
  rw [sum_by_owner (G.kept faces) G.ownerCell S _ fun F hF => by
    obtain ⟨c, ha, ho⟩ := h4 F hF; exact ⟨c, (hS c).2 ha, ho⟩]
  rw [Finset.sum_congr rfl fun c hc => h3 c ((hS c).1 hc)]
  have e1 : S.card = ((O.coords P.shape).filter fun c => !G.mask c).length :=
    List.toFinset_card_of_nodup ((O.nodup P.shape).filter _)
  rw [Finset.sum_const, e1, nsmul_eq_mul, mul_one]
  rfl

/-- the sum over all cells splits into cut faces and exterior cells. -/
theorem sum_cells (O : GridOrder 2) (G : Gen2) (faces : List (List (List ℤ))) (vidx : Coord 2 → ℤ) (f : List (List ℤ) → ℚ) (x : ℚ)
    (hx : ∀ c ∈ (genMesh O G faces).ext.cellCoords, f [corners vidx c] = x) :
    ((List.range (numCells (genMesh O G faces))).map fun i => f (cell (genMesh O G faces) vidx i)).sum =
      ((G.kept faces).map f).sum + extCount O G * x := by
  have e1 : ((List.range (numCells (genMesh O G faces))).map fun i => f (cell (genMesh O G faces) vidx i)) =
      ((List.range (numCells (genMesh O G faces))).map (cell (genMesh O G faces) vidx)).map f := by rw [List.map_map]; rfl
  have e2 : (genMesh O G faces).ext.cellCoords.length = extCount O G := by
    have : (genMesh O G faces).ext.cellCoords = (O.coords G.shape).filter G.mask := cellCoords_make _ _ _
    rw [this]; rfl
  rw [e1, cells_list, List.map_append, List.sum_append, List.map_map, ← e2]
  congr 1
  have e3 : (genMesh O G faces).ext.cellCoords.map (f ∘ fun c => [corners vidx c]) = (genMesh O G faces).ext.cellCoords.map fun _ => x :=
    List.map_congr_left fun c hc => hx c hc
  rw [e3]
  simp

theorem ext_placed (h : Run P cs es) (O : GridOrder 2) (faces : List (List (List ℤ))) :
    ∀ c ∈ (genMesh O (P.gen cs es ci) faces).ext.cellCoords, Placed (P.gen cs es ci).pos P.index.idx c := by
  intro c hc
  have : (genMesh O (P.gen cs es ci) faces).ext.cellCoords = (O.coords (P.gen cs es ci).shape).filter (P.gen cs es ci).mask := cellCoords_make _ _ _
  rw [this, List.mem_filter, O.mem] at hc
  exact placed h c hc.1

/-- **C128.** The signed areas of the cells do not add up to the area of the grid: exterior cells count negatively. -/
theorem C128_signed_total (h : Run P cs es) (pl : P.Planar) {ord : ℤ → List ℤ}
    (perm : ∀ a, (ord a).Perm ((FaceCollapser.make (P.graph cs es)).ring a))
    (sort : ∀ a, (ord a).Pairwise fun b c => angleLt (dirTo (P.gen cs es ci).pos a c) (dirTo (P.gen cs es ci).pos a b) = false)
    (R : DsuRoots ((FaceCollapser.make (P.graph cs es)).unify ord).ds) (O : GridOrder 2) (hs : ∀ i, 0 ≤ P.shape i) (origin dx : Fin 2 → ℚ) :
    ∃ out, ((FaceCollapser.make (P.graph cs es)).bakeSimple ord R).faces = some out ∧
      ∀ faces, Grouped (P.gen cs es ci) (out.map Prod.snd) faces →
        ((List.range (numCells (genMesh O (P.gen cs es ci) faces))).map fun i =>
          cellArea (world origin dx (P.gen cs es ci).pos) (cell (genMesh O (P.gen cs es ci) faces) P.index.idx i)).sum =
        (dx 0 * P.shape 0) * (dx 1 * P.shape 1) - 2 * (extCount O (P.gen cs es ci) * (dx 0 * dx 1)) := by
  obtain ⟨out, h1, h2⟩ := kept_total (ci := ci) h pl perm sort R O
  refine ⟨out, h1, fun faces g => ?_⟩
  have ht := h2 faces g
  have hc := counts O (P.gen cs es ci) hs
  rw [sum_cells O _ faces P.index.idx (cellArea (world origin dx (P.gen cs es ci).pos)) (-(dx 0 * dx 1)) fun c hc => by
    unfold cellArea
    rw [List.map_cons, List.map_nil, List.sum_cons, List.sum_nil, shoelace_world, corners_area (ext_placed h O faces c hc)]
    ring]
  have e1 : (((P.gen cs es ci).kept faces).map (cellArea (world origin dx (P.gen cs es ci).pos))).sum = dx 0 * dx 1 * cutCount O (P.gen cs es ci) := by
    rw [← ht, Centroid2.sum_mul]
    congr 1
    refine List.map_congr_left fun F _ => ?_
    unfold cellArea
    rw [Centroid2.sum_mul]
    congr 1
    exact List.map_congr_left fun l _ => shoelace_world origin dx _ l
  rw [e1]
  have e2 : (P.gen cs es ci).shape = P.shape := rfl
  rw [e2] at hc
  linear_combination dx 0 * dx 1 * hc

theorem abs_split (l : List ℚ) : (l.map fun x => |x|).sum = l.sum + 2 * (l.map fun x => max 0 (-x)).sum := by
  induction l with
  | nil => simp
  | cons a l ih =>
    rw [List.map_cons, List.sum_cons, ih, List.sum_cons, List.map_cons, List.sum_cons]
    rcases le_total 0 a with h | h
    · rw [abs_of_nonneg h, max_eq_left (by linarith)]; ring
    · rw [abs_of_nonpos h, max_eq_right (by linarith)]; ring

theorem sum_flatMap_map {α β : Type*} (L : List α) (f : α → List β) (w : β → ℚ) :
    ((L.flatMap f).map w).sum = (L.map fun a => ((f a).map w).sum).sum := by
  induction L with
  | nil => rfl
  | cons a L ih => rw [List.flatMap_cons, List.map_append, List.sum_append, ih, List.map_cons, List.sum_cons]

/-- **C128.** `faces()` fills the holes of the cut faces: if the library triangulates each polygon (the areas of the triangles add
up to the area inside the polygon), all triangles together cover the area of the grid plus twice the area of the holes. -/
theorem C128_drawn_area (h : Run P cs es) (pl : P.Planar) {ord : ℤ → List ℤ}
    (perm : ∀ a, (ord a).Perm ((FaceCollapser.make (P.graph cs es)).ring a))
    (sort : ∀ a, (ord a).Pairwise fun b c => angleLt (dirTo (P.gen cs es ci).pos a c) (dirTo (P.gen cs es ci).pos a b) = false)
    (R : DsuRoots ((FaceCollapser.make (P.graph cs es)).unify ord).ds) (O : GridOrder 2) (hs : ∀ i, 0 ≤ P.shape i)
    (origin dx : Fin 2 → ℚ) (hdx : ∀ i, 0 < dx i) (ear : List ℤ → List (ℤ × ℤ × ℤ)) :
    ∃ out, ((FaceCollapser.make (P.graph cs es)).bakeSimple ord R).faces = some out ∧
      ∀ faces, Grouped (P.gen cs es ci) (out.map Prod.snd) faces →
        (∀ i, ∀ l ∈ cell (genMesh O (P.gen cs es ci) faces) P.index.idx i,
          ((ear l).map fun t => |triVolume (world origin dx (P.gen cs es ci).pos) t|).sum = |shoelace (world origin dx (P.gen cs es ci).pos) l|) →
        ((triangles (genMesh O (P.gen cs es ci) faces) P.index.idx ear).map fun t => |triVolume (world origin dx (P.gen cs es ci).pos) t|).sum =
        (dx 0 * P.shape 0) * (dx 1 * P.shape 1) +
          2 * holeArea (world origin dx (P.gen cs es ci).pos) ((P.gen cs es ci).kept faces) := by
  obtain ⟨out, h1, h2⟩ := kept_total (ci := ci) h pl perm sort R O
  refine ⟨out, h1, fun faces g hear => ?_⟩
  have ht := h2 faces g
  have hc := counts O (P.gen cs es ci) hs
  have hA : 0 < dx 0 * dx 1 := mul_pos (hdx 0) (hdx 1)
  set W := world origin dx (P.gen cs es ci).pos with hW
  have e0 : ((triangles (genMesh O (P.gen cs es ci) faces) P.index.idx ear).map fun t => |triVolume W t|).sum =
      ((List.range (numCells (genMesh O (P.gen cs es ci) faces))).map fun i =>
        (fun L : List (List ℤ) => (L.map fun l => |shoelace W l|).sum) (cell (genMesh O (P.gen cs es ci) faces) P.index.idx i)).sum := by
    unfold triangles
    rw [sum_flatMap_map]
    congr 1
    refine List.map_congr_left fun i _ => ?_
    rw [sum_flatMap_map]
    congr 1
    exact List.map_congr_left fun l hl => hear i l hl
  rw [e0, sum_cells O _ faces P.index.idx (fun L : List (List ℤ) => (L.map fun l => |shoelace W l|).sum) (dx 0 * dx 1) fun c hc => by
    rw [List.map_cons, List.map_nil, List.sum_cons, List.sum_nil, hW, shoelace_world, corners_area (ext_placed h O faces c hc)]
    rw [mul_neg, mul_one, abs_neg, abs_of_pos hA, add_zero]]
  have e1 : ∀ F : List (List ℤ), (F.map fun l => |shoelace W l|).sum =
      dx 0 * dx 1 * (F.map (shoelace (P.gen cs es ci).pos)).sum + 2 * (F.map fun l => max 0 (-shoelace W l)).sum := by
    intro F
    have := abs_split (F.map (shoelace W))
    rw [List.map_map, List.map_map] at this
    have e : (F.map (shoelace W)).sum = dx 0 * dx 1 * (F.map (shoelace (P.gen cs es ci).pos)).sum := by
      rw [Centroid2.sum_mul]
      congr 1
      exact List.map_congr_left fun l _ => shoelace_world origin dx _ l
    rw [e] at this
    exact this
  have e2 : (((P.gen cs es ci).kept faces).map fun F => (F.map fun l => |shoelace W l|).sum).sum =
      dx 0 * dx 1 * cutCount O (P.gen cs es ci) + 2 * holeArea W ((P.gen cs es ci).kept faces) := by
    rw [← ht]
    unfold holeArea
    clear ht hear g e0
    generalize (P.gen cs es ci).kept faces = K
    induction K with
    | nil => simp
    | cons F K ih =>
      rw [List.map_cons, List.sum_cons, ih, e1, List.map_cons, List.sum_cons, List.map_cons, List.sum_cons]
      ring
  rw [e2]
  have e3 : (P.gen cs es ci).shape = P.shape := rfl
  rw [e3] at hc
  linear_combination dx 0 * dx 1 * hc

/-! ## concrete cases -/

/-- the hypotheses on run, order and nesting are met by the square of C84. -/
example : ∃ cs es, ∃ ord : ℤ → List ℤ, Run square cs es ∧ square.Planar ∧
    (∀ a, (ord a).Perm ((FaceCollapser.make (square.graph cs es)).ring a)) ∧
    (∀ R : DsuRoots ((FaceCollapser.make (square.graph cs es)).unify ord).ds, ∃ out faces,
      ((FaceCollapser.make (square.graph cs es)).bakeSimple ord R).faces = some out ∧
      Grouped (square.gen cs es fun _ => 0) (out.map Prod.snd) faces) := by
  obtain ⟨cs, es, hr, ord, h1, h2⟩ := C84_run_exists (ci := fun _ => 0) square_admissible square_planar
  refine ⟨cs, es, ord, hr, square_planar, h1, fun R => ?_⟩
  obtain ⟨out, faces, a, b, c⟩ := C84_nesting_exists (ci := fun _ => 0) hr square_planar h1 h2 R (lexOrder 2)
  exact ⟨out, faces, a, b⟩

/-- two cells: a cut one, counterclockwise, and an exterior one to its right. -/
def twoMesh : Locate.Mesh2 :=
  ⟨[[[0, 2, 3, 1]]], ExteriorGrid.make (lexOrder 2) ![2, 1] fun c => decide (c 0 = 1)⟩

/-- both go up their common edge. -/
example : Traverses twoMesh (fun c => 2 * c 0 + c 1) 0 (2, 3) ∧ Traverses twoMesh (fun c => 2 * c 0 + c 1) 1 (2, 3) := by
  refine ⟨⟨[0, 2, 3, 1], ?_, ?_⟩, ⟨[2, 3, 5, 4], ?_, ?_⟩⟩ <;> decide +kernel

/-- a square with a hole is filled: 1 + 1/4 instead of 1 - 1/4. -/
example : holeArea (fun v => if v = 0 then (0, 0) else if v = 1 then (1, 0) else if v = 2 then (1, 1) else if v = 3 then (0, 1)
    else if v = 4 then (1/4, 1/4) else if v = 5 then (1/4, 3/4) else if v = 6 then (3/4, 3/4) else (3/4, 1/4))
    [[[0, 1, 2, 3], [4, 5, 6, 7]]] = 1/4 := by decide +kernel

end Draw2
end Mandoline
