import Verif.Face2.Facet

/-!
# C78, C79 (continued): the boundary operator of the generated mesh; dangling and duplicated edges
-/
namespace Mandoline
namespace Gen2
open Planar

variable {G : Gen2}

theorem faceMap_keys {F : List (List ℤ)} {m : List (ℕ × Bool)} (h : G.faceMap F = some m) :
    ∀ fs ∈ m, fs.1 < G.edges.length := by
  unfold faceMap at h
  rw [Option.map_eq_some_iff] at h
  obtain ⟨prs, h1, rfl⟩ := h
  have hprs : ∀ pr ∈ prs, pr.1 < G.edges.length := by
    have gen : ∀ (l : List DEdge) (prs : List (ℕ × Bool)), (l.mapM fun e => OMap.find edgeLt e G.dirMap) = some prs →
        ∀ pr ∈ prs, ∃ e, OMap.find edgeLt e G.dirMap = some pr := by
      intro l
      induction l with
      | nil => intro prs h pr hpr; cases h; cases hpr
      | cons a l ih =>
        intro prs h pr hpr
        rw [List.mapM_cons] at h
        cases ha : OMap.find edgeLt a G.dirMap with
        | none => rw [ha] at h; cases h
        | some x =>
          rw [ha] at h
          cases hl : (l.mapM fun e => OMap.find edgeLt e G.dirMap) with
          | none => rw [hl] at h; cases h
          | some y =>
            rw [hl] at h
            cases h
            rcases List.mem_cons.1 hpr with rfl | hpr
            · exact ⟨a, ha⟩
            · exact ih y hl pr hpr
    intro pr hpr
    obtain ⟨e, he⟩ := gen _ _ h1 pr hpr
    obtain ⟨e', h2, _⟩ := (dirMap_spec e pr.1 pr.2).1 he
    by_contra hc
    rw [List.getElem?_eq_none (by omega)] at h2
    cases h2
  rintro ⟨k, s⟩ hfs
  rcases ((foldl_insertNew_mem strictTotal_natLt prs [] OMap.sorted_nil).2 k).1 ⟨s, hfs⟩ with ⟨v, hv⟩ | ⟨v, hv⟩
  · cases hv
  · exact hprs (k, v) hv

/-- **C78.** If no edge is dangling or duplicated, the boundary operator of the generated mesh, without the domain
boundary, maps constants to zero. -/
theorem C78_kills_constants (hV : ∀ i, Normalised (G.V i)) (hci : ∀ c, G.InGrid c → 0 ≤ G.cellIndex c)
    (faces : List (List (List ℤ))) (hF : G.FacesOk faces)
    (hE : ∀ i e, G.edges[i]? = some e → G.EdgeOk e ∧ ¬ G.Duplicated i e ∧ ¬ Dangling faces e)
    (O : GridOrder 2) (hs : ∀ i, 1 ≤ G.shape i) (look : ℤ → ℤ) (nCells : ℤ) (k : ℚ) (r : ℕ) :
    ∃ M, G.mesh faces = some M ∧ matVec (M.boundary look (shiftTriplets M.nFacets nCells
      (boundaryTriplets (ExteriorGrid.make O G.shape G.mask).pairs false)) false) (fun _ => k) r = 0 := by
  obtain ⟨M, hM, hn, _⟩ := mesh_some (G := G) faces fun h hh => (hF.mem h).1 hh
  refine ⟨M, hM, C66_boundary2_kills_constants M O G.shape G.mask hs look nCells ?_ ?_ k r⟩
  · intro f hf
    rw [hn] at hf
    have hi : G.edges[f]? = some G.edges[f] := List.getElem?_eq_getElem hf
    obtain ⟨h1, h2, h3⟩ := hE f _ hi
    obtain ⟨M', hM', hok, _⟩ := C78_facet_ok hV hci faces hF f _ hi h1 h2 h3
    rw [hM, Option.some.injEq] at hM'
    subst hM'
    exact hok
  · intro c hc fs hfs
    rw [hn]
    unfold mesh at hM
    rw [Option.map_eq_some_iff] at hM
    obtain ⟨maps, hm, rfl⟩ := hM
    dsimp only at hc
    obtain ⟨⟨m, idx⟩, hp, rfl⟩ := List.mem_map.1 hc
    have hmem : m ∈ maps := by
      have := List.mem_zipIdx hp
      obtain ⟨_, h2, h3⟩ := this
      rw [h3]; exact List.getElem_mem _
    have hex : ∃ F, G.faceMap F = some m := by
      have hsome := mapM_some G.faceMap (G.kept faces) fun F hFk => by
        obtain ⟨m, hm, _⟩ := faceMap_spec F fun h hh =>
          (hF.mem h).1 (List.mem_flatMap.2 ⟨F, (List.mem_filter.1 hFk).1, hh⟩)
        exact ⟨m, hm⟩
      rw [hm, Option.some.injEq] at hsome
      rw [hsome] at hmem
      obtain ⟨F, _, h⟩ := List.mem_filterMap.1 hmem
      exact ⟨F, h⟩
    obtain ⟨F, hFm⟩ := hex
    exact faceMap_keys hFm fs hfs

/-- a list of faces in which exactly one has an entry. -/
theorem sides_one (L : List (List (List ℤ))) (k0 : ℕ) (x : DEdge) (ent : List (List ℤ) → Option Bool)
    (h1 : ∀ F ∈ L, (ent F).isSome = true ↔ x ∈ halfEdges F) (hnd : (L.flatMap halfEdges).Nodup)
    (hx : x ∈ L.flatMap halfEdges) :
    ∃ k : ℤ, ∃ s, ((L.zipIdx k0).flatMap fun p => ((ent p.1).map fun s => ((p.2 : ℤ), s)).toList) = [(k, s)] := by
  have hnil : ∀ (L : List (List (List ℤ))) (k0 : ℕ), (∀ F ∈ L, (ent F).isSome = true ↔ x ∈ halfEdges F) →
      x ∉ L.flatMap halfEdges →
      ((L.zipIdx k0).flatMap fun p => ((ent p.1).map fun s => ((p.2 : ℤ), s)).toList) = [] := by
    intro L
    induction L with
    | nil => intro _ _ _; rfl
    | cons F L ih =>
      intro k0 h1 hx
      rw [List.flatMap_cons, List.mem_append, not_or] at hx
      rw [List.zipIdx_cons, List.flatMap_cons, ih (k0 + 1) (fun F hF => h1 F (List.mem_cons_of_mem _ hF)) hx.2]
      have : ent F = none := by
        rcases he : ent F with _ | s
        · rfl
        · exact absurd ((h1 F (by simp)).1 (by rw [he]; rfl)) hx.1
      simp [this]
  induction L generalizing k0 with
  | nil => cases hx
  | cons F L ih =>
    rw [List.flatMap_cons, List.nodup_append] at hnd
    rw [List.zipIdx_cons, List.flatMap_cons]
    by_cases hF : x ∈ halfEdges F
    · rw [hnil L (k0 + 1) (fun F hF => h1 F (List.mem_cons_of_mem _ hF)) fun h => hnd.2.2 x hF x h rfl]
      have := (h1 F (by simp)).2 hF
      rcases he : ent F with _ | s
      · rw [he] at this; cases this
      · exact ⟨k0, s, by simp [he]⟩
    · rw [List.flatMap_cons, List.mem_append] at hx
      obtain ⟨k, s, h⟩ := ih (k0 + 1) (fun F hF => h1 F (List.mem_cons_of_mem _ hF)) hnd.2.1 (hx.resolve_left hF)
      have : ent F = none := by
        rcases he : ent F with _ | s
        · rfl
        · exact absurd ((h1 F (by simp)).1 (by rw [he]; rfl)) hF
      exact ⟨k, s, by simpa [this] using h⟩

/-- **C78, dangling edges.** An edge both of whose half-edges bound the same cut face (a dangling end of the input curve)
is recorded once, not twice: its row of the boundary operator is a single entry `±1`, which does not vanish on constants. -/
theorem C78_dangling_row (hV : ∀ i, Normalised (G.V i)) (faces : List (List (List ℤ))) (hF : G.FacesOk faces)
    (i : ℕ) (e : CutEdge2) (hi : G.edges[i]? = some e) (he : G.EdgeOk e) (hdup : ¬ G.Duplicated i e)
    (hdang : Dangling faces e) (look : ℤ → ℤ) (E : List Triplet) (hE : ∀ t ∈ E, (G.edges.length : ℤ) ≤ t.1) (inc : Bool)
    (k : ℚ) : ∃ M, G.mesh faces = some M ∧ (∃ c s, M.sides i = [(c, s)]) ∧ M.ext i = none ∧
      (matVec (M.boundary look E inc) (fun _ => k) i = k ∨ matVec (M.boundary look E inc) (fun _ => k) i = -k) := by
  obtain ⟨M, hM, hn, hext, ent, hsides, hent⟩ := mesh_some (G := G) faces fun h hh => (hF.mem h).1 hh
  refine ⟨M, hM, ?_⟩
  have hab : e.a ≠ e.b := by
    intro h
    have := he.ne
    rw [h] at this
    exact this rfl
  obtain ⟨F0, hF0, d1, d2⟩ := hdang
  obtain ⟨L, R, hL, hR, hcells, hLR⟩ := cells_of_edge e he
  have sL := hF.sel F0 hF0 _ d1 L hL
  have sR := hF.sel F0 hF0 _ d2 R hR
  have hact : G.Active L ∧ G.Active R := by
    obtain ⟨c, hc, h1⟩ := he.act
    rcases (hcells c).1 h1 with rfl | rfl
    · exact ⟨hc, sR.1 (sL.2 hc)⟩
    · exact ⟨sL.1 (sR.2 hc), hc⟩
  have hkeep : F0 ∈ G.kept faces := List.mem_filter.2 ⟨hF0, sL.2 hact.1⟩
  have hnone : M.ext i = none := by
    rw [hext, hi, Option.bind_some]
    rcases boundaryPair_spec hV e he L R hcells hLR (Or.inl hact.1) with ⟨_, _, h⟩ | ⟨_, h, _⟩ | ⟨h, _⟩ | ⟨_, h, _⟩ | ⟨h, _⟩
    · exact h
    · exact absurd hact.2 h
    · exact absurd hact.1 h
    · exact absurd hact.2.1 h
    · exact absurd hact.1.1 h
  have hnd : ((G.kept faces).flatMap halfEdges).Nodup := hF.nodup.sublist (List.filter_sublist.flatMap _)
  have hlast : ∀ j e', i < j → G.edges[j]? = some e' → ¬ Joins e' ((e.a : ℤ), (e.b : ℤ)) :=
    fun j e' h1 h2 h3 => hdup ⟨j, e', h1, h2, h3⟩
  have huniq : ∀ F ∈ G.kept faces, ∀ x, x ∈ halfEdges F → x ∈ halfEdges F0 → F = F0 := by
    intro F hFk x hx hx0
    by_contra hne
    have gen : ∀ L : List (List (List ℤ)), (L.flatMap halfEdges).Nodup → F ∈ L → F0 ∈ L → False := by
      intro L
      induction L with
      | nil => intro _ h; cases h
      | cons A L ih =>
        intro hnd h1 h2
        rw [List.flatMap_cons, List.nodup_append] at hnd
        rcases List.mem_cons.1 h1 with e1 | h1'
        · rcases List.mem_cons.1 h2 with e2 | h2'
          · exact hne (e1.trans e2.symm)
          · exact hnd.2.2 x (e1 ▸ hx) x (List.mem_flatMap.2 ⟨_, h2', hx0⟩) rfl
        · rcases List.mem_cons.1 h2 with e2 | h2'
          · exact hnd.2.2 x (e2 ▸ hx0) x (List.mem_flatMap.2 ⟨_, h1', hx⟩) rfl
          · exact ih hnd.2.1 h1' h2'
    exact gen _ hnd hFk hkeep
  have hentry : ∀ F ∈ G.kept faces, (ent F i).isSome = true ↔ ((e.a : ℤ), (e.b : ℤ)) ∈ halfEdges F := by
    intro F hFk
    obtain ⟨m, hm, hfind⟩ := hent F hFk
    obtain ⟨m', hm', _, hspec⟩ := faceMap_spec F fun h hh =>
      (hF.mem h).1 (List.mem_flatMap.2 ⟨F, (List.mem_filter.1 hFk).1, hh⟩)
    rw [hm, Option.some.injEq] at hm'
    subst hm'
    obtain ⟨s1, s2, s3⟩ := (hspec i e hi hab).1 hlast
    rw [hfind] at s1 s2 s3
    constructor
    · intro h
      rcases hs : ent F i with _ | s
      · rw [hs] at h; cases h
      · cases s with
        | false => exact s2 hs
        | true => rw [huniq F hFk _ (s3 hs) d2]; exact d1
    · intro h
      rcases hs : ent F i with _ | s
      · exact absurd h (s1.1 hs).1
      · rfl
  obtain ⟨c, s, hone⟩ := sides_one (G.kept faces) 0 _ (fun F => ent F i) hentry hnd (List.mem_flatMap.2 ⟨F0, hkeep, d1⟩)
  rw [← hsides] at hone
  refine ⟨⟨c, s, hone⟩, hnone, ?_⟩
  have hlen : i < M.nFacets := by
    rw [hn]
    by_contra hc
    rw [List.getElem?_eq_none (by omega)] at hi
    cases hi
  unfold matVec
  rw [M.rowOf_boundary look E inc i hlen (by rw [hn]; exact hE)]
  have hd : M.isDomain i = false := by unfold CutMesh.isDomain; rw [hnone]
  have hx : M.extTriplet look i = none := by unfold CutMesh.extTriplet; rw [hnone]
  rw [hd, hx, hone]
  cases s <;> simp [signVal]

/-- **C79.** A cut edge with a later duplicate (an input edge on a grid line: the grid edge follows it) is a side of no
cut face: only the last edge with the same ends is recorded. -/
theorem C79_duplicate_has_no_faces (faces : List (List (List ℤ))) (hk : ∀ h ∈ faces.flatMap halfEdges, G.Known h)
    (i : ℕ) (e : CutEdge2) (hi : G.edges[i]? = some e) (hab : e.a ≠ e.b) (hdup : G.Duplicated i e) :
    ∃ M, G.mesh faces = some M ∧ M.sides i = [] := by
  obtain ⟨M, hM, hn, hext, ent, hsides, hent⟩ := mesh_some (G := G) faces hk
  refine ⟨M, hM, ?_⟩
  rw [hsides, List.flatMap_eq_nil_iff]
  rintro ⟨F, idx⟩ hp
  have hFk : F ∈ G.kept faces := by
    obtain ⟨_, _, h3⟩ := List.mem_zipIdx hp
    rw [h3]; exact List.getElem_mem _
  obtain ⟨m, hm, hfind⟩ := hent F hFk
  obtain ⟨m', hm', _, hspec⟩ := faceMap_spec F fun h hh =>
    hk h (List.mem_flatMap.2 ⟨F, (List.mem_filter.1 hFk).1, hh⟩)
  rw [hm, Option.some.injEq] at hm'
  subst hm'
  have := (hspec i e hi hab).2 hdup
  rw [hfind] at this
  simp [this]

/-- the mesh read by the region search has the same faces and edges as the one read by the boundary operator. -/
theorem free_edge_of_side {faces : List (List (List ℤ))} {M : CutMesh} {N : Region.Mesh2} {numExt : ℕ} {pairs : List (ℤ × ℤ)}
    {cellIdx : ℤ → ℤ} (hM : G.mesh faces = some M) (hN : G.regionMesh faces numExt pairs cellIdx = some N) (i : ℕ)
    (e : CutEdge2) (hi : G.edges[i]? = some e) (hfree : e.isMesh = false) (c : ℤ) (s : Bool) (hs : (c, s) ∈ M.sides i) :
    N.HasFreeEdge c i := by
  unfold mesh at hM
  unfold regionMesh at hN
  rw [Option.map_eq_some_iff] at hM hN
  obtain ⟨maps, h1, rfl⟩ := hM
  obtain ⟨maps', h2, rfl⟩ := hN
  rw [h1, Option.some.injEq] at h2
  subst h2
  unfold CutMesh.sides at hs
  dsimp only at hs
  obtain ⟨cl, hcl, hx⟩ := List.mem_flatMap.1 hs
  obtain ⟨p, hp, rfl⟩ := List.mem_map.1 hcl
  obtain ⟨fs, hfs, hfe⟩ := List.mem_map.1 hx
  rw [List.mem_filter, decide_eq_true_eq] at hfs
  obtain ⟨hfs, rfl⟩ := hfs
  cases hfe
  unfold Region.Mesh2.HasFreeEdge
  dsimp only
  refine ⟨p.1.map fun fs => ((fs.1 : ℤ), fs.2), fs.2, List.mem_map.2 ⟨p, hp, rfl⟩, List.mem_map.2 ⟨fs, hfs, rfl⟩, by omega, ?_⟩
  unfold Region.Mesh2.isMesh
  dsimp only
  rw [Int.toNat_natCast, List.getElem?_map, hi]
  simpa using hfree

/-- **C79, the consequence for regions.** If an edge of the input curve is followed by a grid edge with the same ends (it
lies on a grid line), the two cut faces on its two sides get the same region: the curve does not separate them. -/
theorem C79_region_leak (faces : List (List (List ℤ))) (hF : G.FacesOk faces) (i j : ℕ) (e e' : CutEdge2)
    (_hi : G.edges[i]? = some e) (_hm : e.isMesh = true) (hj : G.edges[j]? = some e') (hfree : e'.isMesh = false)
    (_hends : Joins e' ((e.a : ℤ), (e.b : ℤ))) (he' : G.EdgeOk e') (hdup : ¬ G.Duplicated j e') (hdang : ¬ Dangling faces e')
    (hboth : ∀ c, InCell c (G.pos e'.a) → InCell c (G.pos e'.b) → G.Active c)
    {numExt : ℕ} {pairs : List (ℤ × ℤ)} {cellIdx : ℤ → ℤ} {N : Region.Mesh2}
    (hN : G.regionMesh faces numExt pairs cellIdx = some N) (hok : N.Ok) (Rt : DsuRoots N.ds) :
    ∃ M c d, G.mesh faces = some M ∧ (M.sides j).Perm [(c, false), (d, true)] ∧ c ≠ d ∧ N.region Rt c = N.region Rt d := by
  obtain ⟨M, L, R, lf, lt, hM, hext', hL, hR, hcells, hLR, hact, hp, hf, ht⟩ := sides_of_edge faces hF j e' hj he' hdup hdang
  have aL : G.Active L := by have := (hcells L).2 (Or.inl rfl); exact hboth L this.1 this.2
  have aR : G.Active R := by have := (hcells R).2 (Or.inr rfl); exact hboth R this.1 this.2
  obtain ⟨k1, rfl⟩ := (hf.resolve_right fun h => h.1 aL).2
  obtain ⟨k2, rfl⟩ := (ht.resolve_right fun h => h.1 aR).2
  have f1 := free_edge_of_side hM hN j e' hj hfree k1 false (hp.mem_iff.2 (by simp))
  have f2 := free_edge_of_side hM hN j e' hj hfree k2 true (hp.mem_iff.2 (by simp))
  have hcell : ∀ c, N.HasFreeEdge c j → N.IsCell c := by
    rintro c ⟨es, s, h1, _⟩
    obtain ⟨h2, h3, _⟩ := hok.bdry _ h1
    dsimp only at h2 h3
    exact ⟨h2, by unfold Region.Mesh2.numCells; omega⟩
  refine ⟨M, k1, k2, hM, by simpa using hp, ?_, ?_⟩
  · intro heq
    subst heq
    -- a face has at most one entry for an edge
    unfold mesh at hM
    rw [Option.map_eq_some_iff] at hM
    obtain ⟨maps, h1, rfl⟩ := hM
    unfold CutMesh.sides at hp
    dsimp only at hp
    have s1 : (k1, false) ∈ _ := hp.mem_iff.2 (by simp : (k1, false) ∈ [(k1, false)] ++ [(k1, true)])
    have s2 : (k1, true) ∈ _ := hp.mem_iff.2 (by simp : (k1, true) ∈ [(k1, false)] ++ [(k1, true)])
    obtain ⟨cl, hcl, hx⟩ := List.mem_flatMap.1 s1
    obtain ⟨cl', hcl', hx'⟩ := List.mem_flatMap.1 s2
    obtain ⟨p, hpz, rfl⟩ := List.mem_map.1 hcl
    obtain ⟨p', hpz', rfl⟩ := List.mem_map.1 hcl'
    obtain ⟨fs, hfs, hfe⟩ := List.mem_map.1 hx
    obtain ⟨fs', hfs', hfe'⟩ := List.mem_map.1 hx'
    rw [List.mem_filter, decide_eq_true_eq] at hfs hfs'
    simp only [Prod.mk.injEq] at hfe hfe'
    have hidx : p.2 = p'.2 := by have := hfe.1.trans hfe'.1.symm; exact_mod_cast this
    obtain ⟨_, _, g1⟩ := List.mem_zipIdx hpz
    obtain ⟨_, g2, g3⟩ := List.mem_zipIdx hpz'
    have hpp : p.1 = p'.1 := by
      rw [g1, g3]; simp only [hidx]
    have hmem : p.1 ∈ maps := by rw [g1]; exact List.getElem_mem _
    have hsome := mapM_some G.faceMap (G.kept faces) fun F hFk => by
      obtain ⟨m, hm, _⟩ := faceMap_spec F fun h hh =>
        (hF.mem h).1 (List.mem_flatMap.2 ⟨F, (List.mem_filter.1 hFk).1, hh⟩)
      exact ⟨m, hm⟩
    rw [h1, Option.some.injEq] at hsome
    rw [hsome] at hmem
    obtain ⟨F, hFk, hFm⟩ := List.mem_filterMap.1 hmem
    obtain ⟨m, hm, hsort, _⟩ := faceMap_spec F fun h hh =>
      (hF.mem h).1 (List.mem_flatMap.2 ⟨F, (List.mem_filter.1 hFk).1, hh⟩)
    rw [hm, Option.some.injEq] at hFm
    have e1 : (j, false) ∈ m := by rw [hFm, ← hfs.2, ← hfe.2]; exact hfs.1
    have e2 : (j, true) ∈ m := by rw [hFm, hpp, ← hfs'.2, ← hfe'.2]; exact hfs'.1
    have := OMap.sorted_unique strictTotal_natLt hsort e1 e2
    cases this
  · refine (Region.Mesh2.C39_2d_regions hok Rt k1 k2 (hcell _ f1) (hcell _ f2)).2 ?_
    exact Relation.EqvGen.rel _ _ (Or.inr (Or.inl ⟨j, f1, f2⟩))

/-! ## Concrete cases: a 2 x 1 grid -/

/-- a vertex with index `2 x + y`; vertex 6 is the centre of the first cell. -/
def demoV21 (i : ℕ) : Vertex 2 :=
  if i = 6 then ⟨![0, 0], ![1 / 2, 1 / 2], ![false, false]⟩ else Vertex.ofCoord ![((i / 2 : ℕ) : ℤ), ((i % 2 : ℕ) : ℤ)]

/-- the grid edges of the 2 x 1 grid. -/
def demoGrid21 : List CutEdge2 :=
  [⟨![none, some 0], 0, 2, false⟩, ⟨![none, some 0], 2, 4, false⟩, ⟨![none, some 1], 1, 3, false⟩,
   ⟨![none, some 1], 3, 5, false⟩, ⟨![some 0, none], 0, 1, false⟩, ⟨![some 1, none], 2, 3, false⟩,
   ⟨![some 2, none], 4, 5, false⟩]

/-- the generator for given input edges; both cells are active. -/
def demo21 (mesh : List CutEdge2) : Gen2 where
  shape := ![2, 1]
  V := demoV21
  edges := mesh ++ demoGrid21
  mask := fun _ => false
  cellIndex := fun c => c 0 + c 1

/-- the input curve is the grid edge from (1,0) to (1,1). -/
def demoLine : Gen2 := demo21 [⟨![some 1, none], 2, 3, true⟩]

/-- its faces: the two cells and the outer loop. -/
def demoLineFaces : List (List (List ℤ)) := [[[0, 2, 3, 1]], [[2, 4, 5, 3]], [[0, 1, 3, 5, 4, 2]]]

/-- the input curve is a segment from the corner (0,0) to the centre of the first cell. -/
def demoStub : Gen2 := demo21 [⟨Mask.empty, 0, 6, true⟩]

/-- its faces. -/
def demoStubFaces : List (List (List ℤ)) := [[[0, 2, 3, 1, 0, 6]], [[2, 4, 5, 3]], [[0, 1, 3, 5, 4, 2]]]

theorem demoV21_normalised (i : ℕ) : Normalised (demoV21 i) := by
  intro k
  unfold demoV21
  split
  · match k with
    | 0 => norm_num
    | 1 => norm_num
  · simp [Vertex.ofCoord]

theorem knownB (G : Gen2) (h : DEdge) : G.Known h ↔ h ∈ G.directed := by
  unfold Known directed Joins
  simp [List.mem_flatMap]

/-- a way to check `FacesOk`: name the left cell of each half-edge. -/
theorem facesOk_of_check {faces : List (List (List ℤ))} (lc : DEdge → Coord 2)
    (h1 : (faces.flatMap halfEdges).Nodup) (h2 : ∀ h ∈ faces.flatMap halfEdges, h ∈ G.directed)
    (h3 : ∀ h ∈ G.directed, h ∈ faces.flatMap halfEdges)
    (h4 : ∀ F ∈ faces, ∀ h ∈ halfEdges F, G.pos h.1 ≠ G.pos h.2 ∧ (InCell (lc h) (G.pos h.1) ∧ InCell (lc h) (G.pos h.2) ∧
      ¬ Clockwise (lc h) (G.pos h.1) (G.pos h.2)) ∧ (G.keep F = true ↔ G.Active (lc h))) : G.FacesOk faces where
  nodup := h1
  mem h := by rw [knownB]; exact ⟨h2 h, h3 h⟩
  sel F hF h hh c hc := by
    obtain ⟨g1, g2, g3⟩ := h4 F hF h hh
    obtain ⟨c', _, hu⟩ := C76_left_cell _ _ g1 ⟨_, g2.1, g2.2.1⟩
    rw [hu c hc, ← hu (lc h) ((leftOf_iff _ _ _ g1).2 g2)]
    exact g3

/-- left cells in the 2 x 1 grid. -/
def demoLeft (h : DEdge) : Coord 2 :=
  if h ∈ [((0 : ℤ), (2 : ℤ)), (2, 3), (3, 1), (1, 0), (0, 6), (6, 0)] then ![0, 0]
  else if h ∈ [((2 : ℤ), (4 : ℤ)), (4, 5), (5, 3), (3, 2)] then ![1, 0]
  else if h = (2, 0) then ![0, -1] else if h = (4, 2) then ![1, -1] else if h = (1, 3) then ![0, 1]
  else if h = (3, 5) then ![1, 1] else if h = (0, 1) then ![-1, 0] else ![2, 0]

theorem demoLine_faces : demoLine.FacesOk demoLineFaces :=
  facesOk_of_check demoLeft (by decide +kernel) (by decide +kernel) (by decide +kernel)
    (by unfold InCell Clockwise Active Gen2.InGrid; decide +kernel)

theorem demoStub_faces : demoStub.FacesOk demoStubFaces :=
  facesOk_of_check demoLeft (by decide +kernel) (by decide +kernel) (by decide +kernel)
    (by unfold InCell Clockwise Active Gen2.InGrid; decide +kernel)

/-- checking `EdgeOk`. -/
theorem edgeOk_of_check {e : CutEdge2} (c : Coord 2) (h1 : G.pos e.a ≠ G.pos e.b)
    (h2 : ∀ k, (e.mask k).isSome = true ↔ (G.V e.a).p k = (G.V e.b).p k ∧ (G.V e.a).p k = ⌊(G.V e.a).p k⌋)
    (h3 : ∀ k j : Fin 2, k ≠ j → (e.mask k).isSome = true → (G.V e.a).p j < (G.V e.b).p j)
    (h4 : G.Active c ∧ InCell c (G.pos e.a) ∧ InCell c (G.pos e.b)) : G.EdgeOk e where
  ne := h1
  mask k := by
    rw [h2]
    constructor
    · rintro ⟨h, h'⟩; exact ⟨_, h', h ▸ h'⟩
    · rintro ⟨n, h, h'⟩; exact ⟨h.trans h'.symm, by rw [h, Int.floor_intCast]⟩
  asc := h3
  act := ⟨c, h4⟩

/-- C78 applies to the shared edge of the two cells (edge 6 of `demoLine`), and to the left boundary (edge 5). -/
example : ∃ M, demoLine.mesh demoLineFaces = some M ∧ M.FacetOk 6 ∧ M.FacetOk 5 ∧ M.ext 5 = some (-2, true) := by
  have h6 : demoLine.EdgeOk ⟨![some 1, none], 2, 3, false⟩ := edgeOk_of_check ![0, 0] (by decide +kernel) (by decide +kernel)
    (by decide +kernel) (by unfold InCell Active Gen2.InGrid; decide +kernel)
  have h5 : demoLine.EdgeOk ⟨![some 0, none], 0, 1, false⟩ := edgeOk_of_check ![0, 0] (by decide +kernel) (by decide +kernel)
    (by decide +kernel) (by unfold InCell Active Gen2.InGrid; decide +kernel)
  have hd : ∀ i e, demoLine.edges[i]? = some e → 1 ≤ i → ¬ demoLine.Duplicated i e := by
    rintro i e hi h1 ⟨j, e', hij, hj, hJ⟩
    have check : ∀ x ∈ demoLine.edges.zipIdx, ∀ y ∈ demoLine.edges.zipIdx, 1 ≤ x.2 → x.2 < y.2 →
        ¬ Joins y.1 ((x.1.a : ℤ), (x.1.b : ℤ)) := by unfold Joins; decide +kernel
    exact check (e, i) (List.mk_mem_zipIdx_iff_getElem?.2 hi) (e', j) (List.mk_mem_zipIdx_iff_getElem?.2 hj) h1 hij hJ
  have hdang : ∀ e ∈ demoLine.edges, ¬ Dangling demoLineFaces e := by unfold Dangling; decide +kernel
  have hci : ∀ c, demoLine.InGrid c → 0 ≤ demoLine.cellIndex c := fun c h => by
    have := (h 0).1; have := (h 1).1; show 0 ≤ c 0 + c 1; omega
  obtain ⟨M, hM, hok, _⟩ := C78_facet_ok demoV21_normalised hci demoLineFaces demoLine_faces 6 _ rfl h6 (hd 6 _ rfl (by omega))
    (hdang _ (List.mem_of_getElem? (i := 6) rfl))
  obtain ⟨M', hM', hok', _⟩ := C78_facet_ok demoV21_normalised hci demoLineFaces demoLine_faces 5 _ rfl h5 (hd 5 _ rfl (by omega))
    (hdang _ (List.mem_of_getElem? (i := 5) rfl))
  rw [hM, Option.some.injEq] at hM'
  subst hM'
  refine ⟨M, hM, hok, hok', ?_⟩
  obtain ⟨M', hM', _, hext, _⟩ := mesh_some (G := demoLine) demoLineFaces fun h hh => (demoLine_faces.mem h).1 hh
  rw [hM, Option.some.injEq] at hM'
  subst hM'
  rw [hext]
  decide +kernel

/-- **C78 refuted for dangling edges.** The stub of the input curve appears once in the boundary map of its face, so its
row of the boundary operator is not balanced. -/
theorem C78_dangling_refuted : ∃ M, demoStub.mesh demoStubFaces = some M ∧ M.sides 0 = [(0, false)] ∧ M.ext 0 = none ∧
    ¬ M.FacetOk 0 := by
  obtain ⟨M, hM, _, hext, _⟩ := mesh_some (G := demoStub) demoStubFaces fun h hh => (demoStub_faces.mem h).1 hh
  have hs : (demoStub.mesh demoStubFaces).map (fun M => M.sides 0) = some [(0, false)] := by decide +kernel
  rw [hM, Option.map_some, Option.some.injEq] at hs
  have hx : M.ext 0 = none := by rw [hext]; decide +kernel
  refine ⟨M, hM, hs, hx, ?_⟩
  rintro (⟨c₁, c₂, h, _⟩ | ⟨c, g, s, _, _, h⟩ | ⟨c, s, s', _, h⟩)
  · rw [hs] at h
    have := h.length_eq
    simp at this
  · rw [hx] at h; cases h
  · rw [hx] at h; cases h

/-- **C79 refuted.** The input curve separates the two cells, but the generated mesh puts them in one region; the input
edge 0 bounds no face. -/
theorem C79_separation_refuted : ∃ N, demoLine.regionMesh demoLineFaces 0 [] (fun x => x) = some N ∧
    ∃ h : N.Ok, N.region (Region.Mesh2.ds_ok h).roots 0 = N.region (Region.Mesh2.ds_ok h).roots 1 := by
  have hsome : ∃ N, demoLine.regionMesh demoLineFaces 0 [] (fun x => x) = some N := by
    rw [← Option.isSome_iff_exists]; decide +kernel
  obtain ⟨N, hN⟩ := hsome
  have hok : N.Ok := by
    have e1 : (demoLine.regionMesh demoLineFaces 0 [] (fun x => x)).map (fun N => N.pairs) = some [] := by decide +kernel
    have e2 : ((demoLine.regionMesh demoLineFaces 0 [] (fun x => x)).map fun N => decide (∀ f ∈ N.bdry, 0 ≤ f.1 ∧
      f.1 < (N.numCut : ℤ) ∧ ∀ e ∈ f.2, e.1 < (N.edges.length : ℤ))) = some true := by decide +kernel
    have e3 : ((demoLine.regionMesh demoLineFaces 0 [] (fun x => x)).map fun N => decide (∀ q ∈ N.edges, ∀ x ∈ q.2, x.1 < 0)) =
      some true := by decide +kernel
    rw [hN, Option.map_some, Option.some.injEq] at e1 e2 e3
    refine ⟨by rw [e1]; nofun, of_decide_eq_true e2, ?_⟩
    intro q hq off s hqs h0
    have := of_decide_eq_true e3 q hq (off, s) hqs
    dsimp only at this
    omega
  refine ⟨N, hN, hok, ?_⟩
  have hb : (demoLine.regionMesh demoLineFaces 0 [] (fun x => x)).map (fun N => N.bdry) =
      some [(0, [(1, false), (3, true), (5, true), (6, false)]), (1, [(2, false), (4, true), (6, true), (7, false)])] := by
    decide +kernel
  have hm : (demoLine.regionMesh demoLineFaces 0 [] (fun x => x)).map (fun N => N.isMesh 6) = some false := by decide +kernel
  have hn : (demoLine.regionMesh demoLineFaces 0 [] (fun x => x)).map (fun N => N.numCells) = some 2 := by decide +kernel
  rw [hN, Option.map_some, Option.some.injEq] at hb hm hn
  refine (Region.Mesh2.C39_2d_regions hok _ 0 1 ⟨le_refl _, by rw [hn]; decide⟩ ⟨by decide, by rw [hn]; decide⟩).2
    (Relation.EqvGen.rel _ _ (Or.inr (Or.inl ⟨6, ?_, ?_⟩)))
  · exact ⟨[(1, false), (3, true), (5, true), (6, false)], false, by rw [hb]; simp, by simp, by decide, hm⟩
  · exact ⟨[(2, false), (4, true), (6, true), (7, false)], true, by rw [hb]; simp, by simp, by decide, hm⟩

end Gen2
end Mandoline
