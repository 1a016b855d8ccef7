import Verif.Pipe2.Facets

/-!
# C84: from the input to the boundary operator

`compute_planar_hem` nests the loops into faces with `HalfEdgeMesh::tie_nonsimple_cells` of mtao, which is not in the
repository: its result enters as a list of faces, subject to `Grouped`.
-/
namespace Mandoline
namespace Pipe2
open Sched Planar

variable {n m : ℕ} {P : Input n m} {cs : List (CrossingI 2)} {es : List (EdgeInput.MeshEdge 2)} {ci : Coord 2 → ℤ}

/-- what the nesting of the loops into faces has to guarantee: every loop is in one face; the loops of a face that has an
active cell on one of its sides all have that cell on their left, and their signed areas add up to at least -1/2; a
face without an active cell on any side is not kept (`C77_exterior_hole_refuted` shows that the code can fail here). -/
structure Grouped (G : Gen2) (loops : List (List ℤ)) (faces : List (List (List ℤ))) : Prop where
  perm : faces.flatten.Perm loops
  cell : ∀ F ∈ faces, ∀ c, G.Active c → (∃ h ∈ Gen2.halfEdges F, LeftOf c (G.pos h.1) (G.pos h.2)) →
    (∀ h ∈ Gen2.halfEdges F, LeftOf c (G.pos h.1) (G.pos h.2)) ∧ -1 / 2 ≤ (F.map (shoelace G.pos)).sum
  outside : ∀ F ∈ faces, (∀ h ∈ Gen2.halfEdges F, ∀ c, LeftOf c (G.pos h.1) (G.pos h.2) → ¬ G.Active c) → G.keep F = false

theorem Run.known_iff (h : Run P cs es) (pl : P.Planar) (e : DEdge) :
    (P.gen cs es ci).Known e ↔ e ∈ (FaceCollapser.make (P.graph cs es)).edgeList := by
  rw [mem_known]
  have nn : ∀ e : DEdge, e ∈ P.graph cs es → (e.1.toNat : ℤ) = e.1 ∧ (e.2.toNat : ℤ) = e.2 := by
    intro e he
    obtain ⟨p, q, np, nq, _⟩ := h.edge_seg pl (Or.inl he)
    exact ⟨Int.toNat_of_nonneg (h.node_pos np).1, Int.toNat_of_nonneg (h.node_pos nq).1⟩
  have key : ∀ e : DEdge, e ∈ P.graph cs es ↔ ∃ x ∈ (P.gen cs es ci).edges, e = ((x.a : ℤ), (x.b : ℤ)) := by
    intro e
    constructor
    · intro he
      obtain ⟨h1, h2⟩ := nn e he
      unfold Input.graph at he
      rcases List.mem_append.1 he with he | he
      · obtain ⟨y, hy, rfl⟩ := List.mem_map.1 he
        exact ⟨_, List.mem_append_left _ (List.mem_map.2 ⟨y, hy, rfl⟩), Prod.ext h1.symm h2.symm⟩
      · obtain ⟨y, hy, rfl⟩ := List.mem_map.1 he
        exact ⟨_, List.mem_append_right _ (List.mem_map.2 ⟨y, hy, rfl⟩), Prod.ext h1.symm h2.symm⟩
    · rintro ⟨x, hx, rfl⟩
      rcases List.mem_append.1 hx with hx | hx
      · obtain ⟨y, hy, rfl⟩ := List.mem_map.1 hx
        have hm : y.ends ∈ P.graph cs es := List.mem_append_left _ (List.mem_map.2 ⟨y, hy, rfl⟩)
        obtain ⟨h1, h2⟩ := nn _ hm
        dsimp only
        rw [h1, h2]
        exact hm
      · obtain ⟨y, hy, rfl⟩ := List.mem_map.1 hx
        have hm : y.2 ∈ P.graph cs es := List.mem_append_right _ (List.mem_map.2 ⟨y, hy, rfl⟩)
        obtain ⟨h1, h2⟩ := nn _ hm
        dsimp only
        rw [h1, h2]
        exact hm
  rw [key e, key (e.2, e.1)]
  unfold Gen2.Known Gen2.Joins
  constructor
  · rintro ⟨x, hx, h1 | h1⟩
    · exact Or.inl ⟨x, hx, h1⟩
    · exact Or.inr ⟨x, hx, by rw [h1]⟩
  · rintro (⟨x, hx, h1⟩ | ⟨x, hx, h1⟩)
    · exact ⟨x, hx, Or.inl h1⟩
    · rw [Prod.mk.injEq] at h1
      exact ⟨x, hx, Or.inr (Prod.ext h1.2 h1.1)⟩

theorem flatMap_flatten' {α β : Type*} (f : α → List β) (l : List (List α)) :
    l.flatten.flatMap f = l.flatMap fun x => x.flatMap f := by
  induction l with
  | nil => rfl
  | cons a l ih => rw [List.flatten_cons, List.flatMap_append, List.flatMap_cons, ih]

/-- the faces of the cut graph satisfy the hypotheses of C78. -/
theorem Run.facesOk (h : Run P cs es) (pl : P.Planar) {loops : List (List ℤ)}
    (hl : (loops.flatMap loopEdges).Perm (FaceCollapser.make (P.graph cs es)).edgeList) (hne : ∀ p ∈ loops, p ≠ [])
    {faces : List (List (List ℤ))} (g : Grouped (P.gen cs es ci) loops faces) : (P.gen cs es ci).FacesOk faces := by
  have hp : (faces.flatMap Gen2.halfEdges).Perm (FaceCollapser.make (P.graph cs es)).edgeList := by
    have := (g.perm.flatMap_right loopEdges).trans hl
    rwa [flatMap_flatten', show faces.flatMap (fun F => F.flatMap loopEdges) = faces.flatMap Gen2.halfEdges from rfl] at this
  have hpne : ∀ e ∈ (FaceCollapser.make (P.graph cs es)).edgeList, (P.gen cs es ci).pos e.1 ≠ (P.gen cs es ci).pos e.2 := by
    intro e he
    obtain ⟨p, q, np, nq, sq⟩ := h.edge_seg pl ((mem_known _).1 he)
    rw [h.pos np, h.pos nq]
    intro hh
    rw [Prod.mk.injEq] at hh
    exact sq.ne (pt_ext hh.1 hh.2)
  have hin : ∀ F ∈ faces, ∀ e ∈ Gen2.halfEdges F, e ∈ (FaceCollapser.make (P.graph cs es)).edgeList := fun F hF e he =>
    hp.mem_iff.1 (List.mem_flatMap.2 ⟨F, hF, he⟩)
  refine ⟨hp.nodup_iff.2 (edgeList_nodup _), fun e => ?_, fun F hF e he c hc => ?_⟩
  · rw [h.known_iff pl, hp.mem_iff]
  · have hF0 : F ≠ [] := by rintro rfl; cases he
    by_cases hex : ∃ c', (P.gen cs es ci).Active c' ∧
        ∃ h' ∈ Gen2.halfEdges F, LeftOf c' ((P.gen cs es ci).pos h'.1) ((P.gen cs es ci).pos h'.2)
    · obtain ⟨c', ha, hx⟩ := hex
      obtain ⟨g1, g2⟩ := g.cell F hF c' ha hx
      have hcc := g1 e he
      have hce : c = c' := by
        obtain ⟨d, _, hu⟩ := C76_left_cell _ _ (hpne e (hin F hF e he)) ⟨c', hcc.1, hcc.2.1⟩
        rw [hu c hc, hu c' hcc]
      rw [hce]
      rw [(Gen2.C77_kept_iff h.normalised c' F hF0 (fun p hp' => hne p (g.perm.mem_iff.1 (List.mem_flatten.2 ⟨F, hF, hp'⟩)))
        (fun x hx' => hpne x (hin F hF x hx')) g1).1]
      exact ⟨fun _ => ha, fun _ => ⟨g2, ha.2⟩⟩
    · push Not at hex
      have := g.outside F hF fun h' hh' c' hc' ha => hex c' ha h' hh' hc'
      rw [this]
      exact ⟨fun hh => absurd hh (by simp), fun ha => absurd hc (hex c ha e he)⟩

/-- **C84.** The boundary operator of the whole pipeline: for every admissible planar input whose pieces on grid lines are not doubled by
grid edges and that has no dangling edge, every schedule and every tie-breaking, and every admissible nesting of the
loops, every cut edge is a good facet and the boundary operator without the grid boundary maps constants to zero. -/
theorem C84_boundary_kills_constants (h : Run P cs es) (pl : P.Planar) {ord : ℤ → List ℤ}
    (perm : ∀ a, (ord a).Perm ((FaceCollapser.make (P.graph cs es)).ring a))
    (R : DsuRoots ((FaceCollapser.make (P.graph cs es)).unify ord).ds) (hci : ∀ c, (P.gen cs es ci).InGrid c → 0 ≤ ci c) :
    ∃ out, ((FaceCollapser.make (P.graph cs es)).bakeSimple ord R).faces = some out ∧
      ∀ faces, Grouped (P.gen cs es ci) (out.map Prod.snd) faces →
        (∀ i e, (P.gen cs es ci).edges[i]? = some e → ¬ (P.gen cs es ci).Duplicated i e → ¬ Gen2.Dangling faces e →
          ∃ M, (P.gen cs es ci).mesh faces = some M ∧ M.FacetOk i ∧
            (M.isDomain i = true ↔ ∃ c, InCell c ((P.gen cs es ci).pos e.a) ∧ InCell c ((P.gen cs es ci).pos e.b) ∧
              ¬ (P.gen cs es ci).InGrid c)) ∧
        ((∀ i e, (P.gen cs es ci).edges[i]? = some e → ¬ (P.gen cs es ci).Duplicated i e ∧ ¬ Gen2.Dangling faces e) →
          ∀ (O : GridOrder 2) (look : ℤ → ℤ) (nCells : ℤ) (k : ℚ) (r : ℕ),
          ∃ M, (P.gen cs es ci).mesh faces = some M ∧ matVec (M.boundary look (shiftTriplets M.nFacets nCells
            (boundaryTriplets (ExteriorGrid.make O P.shape (P.gen cs es ci).mask).pairs false)) false) (fun _ => k) r = 0) := by
  obtain ⟨out, h1, h2, h3⟩ := FaceCollapser.C35_loops_partition_edges _ (FaceCollapser.ok_make (P.graph cs es))
    (FaceCollapser.make_inv _).1 ord perm R
  have hall : ((FaceCollapser.make (P.graph cs es)).edgeList.filter fun e =>
      decide (0 ≤ ((FaceCollapser.make (P.graph cs es)).bakeSimple ord R).face e)) = (FaceCollapser.make (P.graph cs es)).edgeList :=
    List.filter_eq_self.2 fun e he => decide_eq_true (face_nonneg _ ord perm R e he)
  rw [hall] at h2
  refine ⟨out, h1, fun faces g => ?_⟩
  have hf := h.facesOk (ci := ci) pl (loops := out.map Prod.snd) (by rw [List.flatMap_map]; exact h2) (by
    intro p hp
    obtain ⟨q, hq, rfl⟩ := List.mem_map.1 hp
    exact (h3 q hq).2.1) g
  refine ⟨fun i e hi hd hg => ?_, fun hE O look nCells k r => ?_⟩
  · obtain ⟨M, hM, a, b, _⟩ := Gen2.C78_facet_ok h.normalised hci faces hf i e hi (C84_edge_ok h pl i e hi hd) hd hg
    exact ⟨M, hM, a, b⟩
  · exact Gen2.C78_kills_constants h.normalised hci faces hf
      (fun i e hi => ⟨C84_edge_ok h pl i e hi (hE i e hi).1, hE i e hi⟩) O h.adm.pos look nCells k r

end Pipe2
end Mandoline
