import Verif.Region.Generic

/-!
# C39 in 3D: regions of cut cells and adaptive cells

Transcription of the region part of `CutCellGenerator<3>::bake_cells` (src/construction/generator3.cpp:337-455), with the
adaptive grid enabled.
-/
namespace Mandoline
namespace Region

/-- what the region computation reads of a cut face. -/
structure Face3 where
  isMesh : Bool
  ext : Option (ℤ × Bool)
  x : Option ℤ

/-- what the region computation reads: boundaries of the cut cells, number of adaptive cells (named from `cells.size()`
on), `m_faces` in key order, dual edges of the adaptive faces, `cell_ownership_grid().get`, `vertex_shape()[0]`. -/
structure Mesh3 where
  cells : List (List (ℤ × Bool))
  numAd : ℕ
  faces : List (ℤ × Face3)
  dual : List (ℤ × ℤ)
  owner : ℤ → ℤ
  vx : ℤ

namespace Mesh3
variable (M : Mesh3)

/-- `max_cell_id`. -/
def numCells : ℤ := M.cells.length + M.numAd

/-- `m_faces[fid].is_mesh_face()`. -/
def isMesh (fid : ℤ) : Bool := ((M.faces.find? fun q => decide (q.1 = fid)).map fun q => q.2.isMesh).getD false

/-- joins of adaptive cells (generator3.cpp:358-364). -/
def joinsAd : List (ℤ × ℤ) :=
  M.dual.filterMap fun p => if 0 ≤ p.1 ∧ 0 ≤ p.2 then some (M.owner p.1, M.owner p.2) else none

/-- joins of faces with the adaptive cell beyond them (generator3.cpp:365-374). -/
def joinsExt : List (ℤ × ℤ) :=
  M.faces.filterMap fun q =>
    if q.2.isMesh then none
    else match q.2.ext with
      | some (cid, _) => if 0 ≤ cid then some (M.numCells + q.1, M.owner cid) else none
      | none => none

/-- joins of cut cells with their faces that are not mesh faces (generator3.cpp:378-388). -/
def joinsCell : List (ℤ × ℤ) :=
  M.cells.zipIdx.flatMap fun c => c.1.filterMap fun f =>
    if 0 ≤ f.1 ∧ M.isMesh f.1 = false then some ((c.2 : ℤ), f.1 + M.numCells) else none

/-- the disjoint set (generator3.cpp:337-391): nodes for cut cells, faces, adaptive cells. -/
def ds : Dsu ℤ :=
  ⟨((List.range M.cells.length).map fun (k : ℕ) => (k : ℤ)) ++
      (M.faces.filterMap fun q => if 0 ≤ q.1 then some (M.numCells + q.1) else none) ++
      ((List.range M.numAd).map fun (k : ℕ) => (M.cells.length : ℤ) + k),
    M.joinsAd ++ M.joinsExt ++ M.joinsCell⟩

/-- `min_face_idx` (generator3.cpp:393-405). -/
def minFace : ℤ :=
  (M.faces.foldl (fun (st : ℤ × ℤ) q =>
    match q.2.x with
    | some x => if x < st.2 then (q.1, x) else st
    | none => st) (0, M.vx)).1

/-- the first cut cell with this face (generator3.cpp:416-428). -/
def firstCellWith (fid : ℤ) : Option ℕ :=
  M.cells.findIdx? fun c => c.any fun p => decide (0 ≤ p.1 ∧ p.1 = fid)

/-- `outside_root`. -/
def outsideRoot (R : DsuRoots M.ds) : ℤ :=
  match M.firstCellWith M.minFace with
  | some c => R.root c
  | none => -1

/-- `reindexer` (generator3.cpp:429-436). -/
def reindexer (R : DsuRoots M.ds) : List (ℤ × ℤ) :=
  number (M.outsideRoot R) (OMap.assign intLt (M.outsideRoot R) 0 [])
    ((List.range M.cells.length).map fun (k : ℕ) => R.root k)

/-- region of a cut cell (generator3.cpp:441-445) or adaptive cell (generator3.cpp:448-454). -/
def region (R : DsuRoots M.ds) (c : ℤ) : ℤ := lookup (M.reindexer R) (R.root c)

/-! ## specification -/

/-- `c` is a cut cell. -/
def IsCut (c : ℤ) : Prop := 0 ≤ c ∧ c < M.cells.length

/-- `c` is a cut cell or an adaptive cell. -/
def IsCell (c : ℤ) : Prop := 0 ≤ c ∧ c < M.numCells

/-- cut cell `c` has face `f` in its boundary, and the face is not part of the input surface. -/
def HasFreeFace (c f : ℤ) : Prop :=
  ∃ m s, 0 ≤ c ∧ M.cells[c.toNat]? = some m ∧ (f, s) ∈ m ∧ 0 ≤ f ∧ M.isMesh f = false

/-- beyond face `f`, not part of the input surface, lies the adaptive cell `d`. -/
def Beyond (f d : ℤ) : Prop :=
  ∃ q cid s, (f, q) ∈ M.faces ∧ q.isMesh = false ∧ q.ext = some (cid, s) ∧ 0 ≤ cid ∧ d = M.owner cid

/-- adaptive cells separated by an adaptive face. -/
def AdNeighbour (c d : ℤ) : Prop := ∃ p ∈ M.dual, 0 ≤ p.1 ∧ 0 ≤ p.2 ∧ c = M.owner p.1 ∧ d = M.owner p.2

/-- two cells share a facet that is not part of the input surface. -/
def Shares (c d : ℤ) : Prop :=
  M.AdNeighbour c d ∨ (∃ e, M.HasFreeFace c e ∧ M.HasFreeFace d e) ∨ (∃ e, M.HasFreeFace c e ∧ M.Beyond e d)

/-- the mesh is consistent: faces have different non-negative ids, cell boundaries refer to them, and owners are adaptive
cells. -/
structure Ok : Prop where
  nodup : (M.faces.map Prod.fst).Nodup
  ids : ∀ q ∈ M.faces, 0 ≤ q.1
  bdry : ∀ c ∈ M.cells, ∀ p ∈ c, p.1 ∈ M.faces.map Prod.fst
  dual : ∀ p ∈ M.dual, 0 ≤ p.1 → 0 ≤ p.2 → (M.cells.length ≤ M.owner p.1 ∧ M.owner p.1 < M.numCells) ∧
    (M.cells.length ≤ M.owner p.2 ∧ M.owner p.2 < M.numCells)
  ext : ∀ q ∈ M.faces, ∀ cid s, q.2.ext = some (cid, s) → 0 ≤ cid → M.cells.length ≤ M.owner cid ∧ M.owner cid < M.numCells

/-! ## proofs -/

variable {M}

theorem mem_joins (a b : ℤ) : (a, b) ∈ M.ds.joins ↔
    M.AdNeighbour a b ∨ (∃ e, M.HasFreeFace a e ∧ b = e + M.numCells) ∨ (∃ e, M.Beyond e b ∧ a = e + M.numCells) := by
  unfold ds
  simp only [List.mem_append]
  have h1 : (a, b) ∈ M.joinsAd ↔ M.AdNeighbour a b := by
    unfold joinsAd AdNeighbour
    rw [List.mem_filterMap]
    refine exists_congr fun p => and_congr_right fun _ => ?_
    split
    · rename_i h; simp only [Option.some.injEq, Prod.mk.injEq]
      exact ⟨fun ⟨h1, h2⟩ => ⟨h.1, h.2, h1.symm, h2.symm⟩, fun ⟨_, _, h1, h2⟩ => ⟨h1.symm, h2.symm⟩⟩
    · rename_i h; simp only [reduceCtorEq, false_iff]; exact fun ⟨h1, h2, _⟩ => h ⟨h1, h2⟩
  have h2 : (a, b) ∈ M.joinsExt ↔ ∃ e, M.Beyond e b ∧ a = e + M.numCells := by
    unfold joinsExt Beyond
    rw [List.mem_filterMap]
    constructor
    · rintro ⟨⟨f, q⟩, hq, h⟩
      simp only at h
      split at h
      · cases h
      · rename_i hm
        split at h
        · rename_i cid s he
          split at h
          · rename_i h0
            simp only [Option.some.injEq, Prod.mk.injEq] at h
            obtain ⟨rfl, rfl⟩ := h
            exact ⟨f, ⟨q, cid, s, hq, by simpa using hm, he, h0, rfl⟩, by omega⟩
          · cases h
        · cases h
    · rintro ⟨f, ⟨q, cid, s, hq, hm, he, h0, rfl⟩, rfl⟩
      exact ⟨(f, q), hq, by simp [hm, he, h0]; omega⟩
  have h3 : (a, b) ∈ M.joinsCell ↔ ∃ e, M.HasFreeFace a e ∧ b = e + M.numCells := by
    unfold joinsCell HasFreeFace
    rw [List.mem_flatMap]
    constructor
    · rintro ⟨⟨m, i⟩, hp, h⟩
      rw [List.mem_zipIdx_iff_getElem?] at hp
      obtain ⟨⟨f, s⟩, hf, h⟩ := List.mem_filterMap.1 h
      simp only at h hp
      split at h
      · rename_i hc
        simp only [Option.some.injEq, Prod.mk.injEq] at h
        obtain ⟨rfl, rfl⟩ := h
        exact ⟨f, ⟨m, s, by omega, by simpa using hp, hf, hc.1, hc.2⟩, rfl⟩
      · cases h
    · rintro ⟨f, ⟨m, s, h0, hp, hf, k1, k2⟩, rfl⟩
      refine ⟨(m, a.toNat), List.mem_zipIdx_iff_getElem?.2 (by simpa using hp), List.mem_filterMap.2 ⟨(f, s), hf, ?_⟩⟩
      simp [k1, k2, h0]
  rw [h1, h2, h3, or_assoc]; exact or_congr_right or_comm

theorem free_cell {c e : ℤ} (hb : M.HasFreeFace c e) : 0 ≤ c ∧ c < M.cells.length ∧ 0 ≤ e := by
  obtain ⟨m, s, h0, h1, _, h3, _⟩ := hb
  have := (List.getElem?_eq_some_iff.1 h1).1
  omega

theorem beyond_cell (h : M.Ok) {e d : ℤ} (hb : M.Beyond e d) : M.cells.length ≤ d ∧ d < M.numCells ∧ 0 ≤ e := by
  obtain ⟨q, cid, s, hq, _, he, h0, rfl⟩ := hb
  exact ⟨(h.ext _ hq cid s he h0).1, (h.ext _ hq cid s he h0).2, h.ids _ hq⟩

theorem ad_cell (h : M.Ok) {c d : ℤ} (hb : M.AdNeighbour c d) :
    (M.cells.length ≤ c ∧ c < M.numCells) ∧ (M.cells.length ≤ d ∧ d < M.numCells) := by
  obtain ⟨p, hp, h0, h1, rfl, rfl⟩ := hb
  exact h.dual p hp h0 h1

/-- connectivity in the disjoint set is connectivity through shared facets. -/
theorem conn_iff (h : M.Ok) {c d : ℤ} (hc : M.IsCell c) (hd : M.IsCell d) :
    M.ds.Conn c d ↔ Relation.EqvGen M.Shares c d := by
  unfold Dsu.Conn
  refine conn_shares (direct := M.AdNeighbour) (free := M.HasFreeFace) (beyond := M.Beyond) mem_joins ?_ ?_ ?_ ?_ hc.2 hd.2
  · intro a b hab; have := ad_cell h hab; omega
  · intro c e hce; have := free_cell hce; unfold numCells; omega
  · intro e d hed; have := beyond_cell h hed; omega
  · rintro e d d' ⟨q, cid, s, hq, _, he, _, rfl⟩ ⟨q', cid', s', hq', _, he', _, rfl⟩
    have := List.inj_on_of_nodup_map h.nodup hq hq' rfl
    simp only [Prod.mk.injEq, true_and] at this
    subst this
    rw [he] at he'
    simp only [Option.some.injEq, Prod.mk.injEq] at he'
    rw [he'.1]

theorem mem_nodes (h : M.Ok) (x : ℤ) : x ∈ M.ds.nodes ↔ M.IsCell x ∨ ∃ q ∈ M.faces, x = q.1 + M.numCells := by
  unfold ds IsCell
  simp only [List.mem_append, List.mem_map, List.mem_range, List.mem_filterMap]
  constructor
  · rintro ((⟨k, hk, rfl⟩ | ⟨q, hq, hx⟩) | ⟨k, hk, rfl⟩)
    · left; unfold numCells; omega
    · rw [if_pos (h.ids q hq)] at hx
      simp only [Option.some.injEq] at hx
      exact .inr ⟨q, hq, by omega⟩
    · left; unfold numCells; omega
  · rintro (⟨h0, h1⟩ | ⟨q, hq, rfl⟩)
    · unfold numCells at h1
      by_cases hx : x < M.cells.length
      · exact .inl (.inl ⟨x.toNat, by omega, by omega⟩)
      · exact .inr ⟨(x - M.cells.length).toNat, by omega, by omega⟩
    · exact .inl (.inr ⟨q, hq, by rw [if_pos (h.ids q hq)]; simp; omega⟩)

theorem ds_ok (h : M.Ok) : M.ds.Ok := by
  refine ⟨?_, ?_⟩
  · unfold ds
    simp only
    rw [List.nodup_append, List.nodup_append]
    refine ⟨⟨?_, ?_, ?_⟩, ?_, ?_⟩
    · exact List.Nodup.map (fun a b hab => by exact_mod_cast hab) List.nodup_range
    · have e : (M.faces.filterMap fun q => if 0 ≤ q.1 then some (M.numCells + q.1) else none) =
          (M.faces.map Prod.fst).map fun i => M.numCells + i := by
        rw [List.map_map, ← List.filterMap_eq_map]
        refine List.filterMap_congr fun q hq => ?_
        rw [if_pos (h.ids q hq)]; rfl
      rw [e]
      exact List.Nodup.map (fun a b hab => by simpa using hab) h.nodup
    · intro a ha b hb
      obtain ⟨k, hk, rfl⟩ := List.mem_map.1 ha
      obtain ⟨q, hq, hx⟩ := List.mem_filterMap.1 hb
      rw [List.mem_range] at hk
      have := h.ids q hq
      rw [if_pos this] at hx
      simp only [Option.some.injEq] at hx
      unfold numCells at hx; omega
    · exact List.Nodup.map (fun a b hab => by simpa using hab) List.nodup_range
    · intro a ha b hb
      obtain ⟨k, hk, rfl⟩ := List.mem_map.1 hb
      rw [List.mem_range] at hk
      rcases List.mem_append.1 ha with ha | ha
      · obtain ⟨j, hj, rfl⟩ := List.mem_map.1 ha
        rw [List.mem_range] at hj; omega
      · obtain ⟨q, hq, hx⟩ := List.mem_filterMap.1 ha
        have := h.ids q hq
        rw [if_pos this] at hx
        simp only [Option.some.injEq] at hx
        unfold numCells at hx; omega
  · rintro ⟨a, b⟩ hp
    simp only
    rw [mem_nodes h, mem_nodes h]
    rcases (mem_joins a b).1 hp with h1 | ⟨e, h1, rfl⟩ | ⟨e, h1, rfl⟩
    · have := ad_cell h h1
      exact ⟨.inl ⟨by omega, by omega⟩, .inl ⟨by omega, by omega⟩⟩
    · have h2 := free_cell h1
      obtain ⟨m, s, h0, hm, hf, _⟩ := h1
      obtain ⟨q, hq, rfl⟩ := List.mem_map.1 (h.bdry m (List.mem_of_getElem? hm) _ hf)
      exact ⟨.inl ⟨by omega, by unfold numCells; omega⟩, .inr ⟨q, hq, rfl⟩⟩
    · have h2 := beyond_cell h h1
      obtain ⟨q, _, _, hq, _⟩ := h1
      exact ⟨.inr ⟨_, hq, rfl⟩, .inl ⟨by omega, by omega⟩⟩

theorem firstCellWith_some {f : ℤ} {k : ℕ} (hk : M.firstCellWith f = some k) : k < M.cells.length := by
  unfold firstCellWith at hk
  exact (List.findIdx?_eq_some_iff_getElem.1 hk).1

/-- roots are names of nodes, so they are never `-1`. -/
theorem root_nonneg (h : M.Ok) (R : DsuRoots M.ds) {c : ℤ} (hc : M.IsCell c) : 0 ≤ R.root c := by
  have := R.root_mem c ((mem_nodes h c).2 (.inl hc))
  rcases (mem_nodes h _).1 this with h1 | ⟨q, hq, h1⟩
  · exact h1.1
  · rw [h1]; have := h.ids q hq; have := hc.1; have := hc.2; omega

/-- the numbers given to the roots: position 0 is the outside root, then the roots of the other cut cells. -/
theorem reindexer_spec (h : M.Ok) (R : DsuRoots M.ds) :
    ∃ L, Numbers (M.reindexer R) (M.outsideRoot R :: L) ∧
      ∀ r, r ∈ M.outsideRoot R :: L ↔ r = M.outsideRoot R ∨ ∃ c, M.IsCut c ∧ R.root c = r := by
  unfold reindexer
  obtain ⟨L, h1, h2⟩ := number_spec (M.outsideRoot R) ((List.range M.cells.length).map fun (k : ℕ) => R.root k) _ _
    (numbers_single (M.outsideRoot R))
  refine ⟨L, h1, fun r => ?_⟩
  rw [List.mem_cons, h2]
  simp only [List.mem_map, List.mem_range, List.mem_singleton, IsCut]
  constructor
  · rintro (h | ⟨⟨k, hk, rfl⟩, _⟩)
    · exact .inl h
    · exact .inr ⟨k, by omega, rfl⟩
  · rintro (h | ⟨c, hc, rfl⟩)
    · exact .inl h
    · by_cases he : R.root c = M.outsideRoot R
      · exact .inl he
      · refine .inr ⟨⟨c.toNat, by omega, ?_⟩, he, he⟩
        congr 1; omega

theorem isCell_of_cut {c : ℤ} (hc : M.IsCut c) : M.IsCell c := by
  have := hc.1; have := hc.2
  exact ⟨hc.1, by unfold numCells; omega⟩

/-- **C39 (3D).** Two cut cells have the same region iff they are linked by a chain of cells sharing faces that are not
part of the input surface. -/
theorem C39_3d_regions (h : M.Ok) (R : DsuRoots M.ds) (c d : ℤ) (hc : M.IsCut c) (hd : M.IsCut d) :
    M.region R c = M.region R d ↔ Relation.EqvGen M.Shares c d := by
  obtain ⟨L, h1, h2⟩ := reindexer_spec h R
  unfold region
  rw [lookup_inj h1 ((h2 _).2 (.inr ⟨c, hc, rfl⟩)) ((h2 _).2 (.inr ⟨d, hd, rfl⟩)), R.root_eq_iff,
    conn_iff h (isCell_of_cut hc) (isCell_of_cut hd)]

/-- **C39 (3D).** An adaptive cell linked to a cut cell has its region. -/
theorem C39_3d_adaptive (h : M.Ok) (R : DsuRoots M.ds) (a c : ℤ) (ha : M.IsCell a) (hc : M.IsCut c)
    (hl : Relation.EqvGen M.Shares a c) : M.region R a = M.region R c := by
  have := (R.root_eq_iff a c).2 ((conn_iff h ha (isCell_of_cut hc)).2 hl)
  unfold region; rw [this]

/-- **C39 (3D).** With `k` the first cut cell that has the face of smallest x coordinate: region 0 of the cut cells is the
region of `k`, and regions are numbered without gaps. -/
theorem C39_3d_outside (h : M.Ok) (R : DsuRoots M.ds) (k : ℕ) (hk : M.firstCellWith M.minFace = some k) :
    (∀ c, M.IsCut c → (M.region R c = 0 ↔ Relation.EqvGen M.Shares c k)) ∧
    ∃ r : ℕ, ∀ j : ℤ, (0 ≤ j ∧ j < r) ↔ ∃ c, M.IsCut c ∧ M.region R c = j := by
  have hcut : M.IsCut k := ⟨by omega, by exact_mod_cast firstCellWith_some hk⟩
  obtain ⟨L, h1, h2⟩ := reindexer_spec h R
  have hout : M.outsideRoot R = R.root k := by unfold outsideRoot; rw [hk]
  constructor
  · intro c hc
    have hz : M.region R k = 0 := by
      unfold region
      rw [lookup_mem h1 ((h2 _).2 (.inr ⟨k, hcut, rfl⟩)), hout]; simp
    rw [← C39_3d_regions h R c k hc hcut, hz]
  · refine ⟨(M.outsideRoot R :: L).length, fun j => ?_⟩
    rw [lookup_range h1]
    constructor
    · rintro ⟨r, hr, rfl⟩
      rcases (h2 r).1 hr with rfl | ⟨c, hc, rfl⟩
      · exact ⟨k, hcut, by unfold region; rw [hout]⟩
      · exact ⟨c, hc, rfl⟩
    · rintro ⟨c, hc, rfl⟩
      exact ⟨_, (h2 _).2 (.inr ⟨c, hc, rfl⟩), rfl⟩

/-- **C39 (3D, defect).** If no cut cell has that face, no cut cell is in region 0. -/
theorem C39_3d_no_outside (h : M.Ok) (R : DsuRoots M.ds) (hk : M.firstCellWith M.minFace = none) (c : ℤ) (hc : M.IsCut c) :
    1 ≤ M.region R c := by
  obtain ⟨L, h1, h2⟩ := reindexer_spec h R
  have hout : M.outsideRoot R = -1 := by unfold outsideRoot; rw [hk]
  have hr := root_nonneg h R (isCell_of_cut hc)
  unfold region
  rw [lookup_mem h1 ((h2 _).2 (.inr ⟨c, hc, rfl⟩)), List.idxOf_cons_ne]
  · push_cast; omega
  · omega

/-- **C39 (3D, defect).** Every adaptive cell that is not linked to a cut cell is put in region 0, even though it is not
connected with the outside. -/
theorem C39_3d_enclosed_adaptive_refuted (h : M.Ok) (R : DsuRoots M.ds) (a : ℤ) (ha : M.IsCell a)
    (hno : ∀ c, M.IsCut c → ¬ Relation.EqvGen M.Shares a c) : M.region R a = 0 := by
  obtain ⟨L, h1, h2⟩ := reindexer_spec h R
  unfold region
  refine lookup_not_mem h1 fun hr => ?_
  have hne : ∀ c, M.IsCut c → R.root a ≠ R.root c := fun c hc he =>
    hno c hc ((conn_iff h ha (isCell_of_cut hc)).1 ((R.root_eq_iff a c).1 he))
  rcases (h2 _).1 hr with he | ⟨c, hc, he⟩
  · unfold outsideRoot at he
    split at he
    · rename_i k hk
      exact hne k ⟨by omega, by exact_mod_cast firstCellWith_some hk⟩ he
    · have := root_nonneg h R ha; omega
  · exact hne c hc he.symm

theorem minFace_fold (l : List (ℤ × Face3)) (st : ℤ × ℤ) :
    let r := l.foldl (fun (st : ℤ × ℤ) q => match q.2.x with | some x => if x < st.2 then (q.1, x) else st | none => st) st
    r.2 ≤ st.2 ∧ (r = st ∨ ∃ q ∈ l, q.1 = r.1 ∧ q.2.x = some r.2) ∧ ∀ q ∈ l, ∀ x, q.2.x = some x → r.2 ≤ x := by
  induction l generalizing st with
  | nil => simp
  | cons q l ih =>
    simp only [List.foldl_cons]
    cases hx : q.2.x with
    | none =>
      obtain ⟨h1, h2, h3⟩ := ih st
      refine ⟨h1, ?_, ?_⟩
      · rcases h2 with h2 | ⟨p, hp, h2⟩
        · exact .inl h2
        · exact .inr ⟨p, List.mem_cons_of_mem _ hp, h2⟩
      · intro p hp x hpx
        rcases List.mem_cons.1 hp with rfl | hp
        · rw [hx] at hpx; cases hpx
        · exact h3 p hp x hpx
    | some x =>
      simp only
      split
      · rename_i hlt
        obtain ⟨h1, h2, h3⟩ := ih (q.1, x)
        simp only at h1
        refine ⟨by omega, ?_, ?_⟩
        · right
          rcases h2 with h2 | ⟨p, hp, h2⟩
          · exact ⟨q, List.mem_cons_self, by rw [h2], by rw [h2, hx]⟩
          · exact ⟨p, List.mem_cons_of_mem _ hp, h2⟩
        · intro p hp y hpy
          rcases List.mem_cons.1 hp with rfl | hp
          · rw [hx] at hpy; cases hpy; exact h1
          · exact h3 p hp y hpy
      · rename_i hlt
        obtain ⟨h1, h2, h3⟩ := ih st
        refine ⟨h1, ?_, ?_⟩
        · rcases h2 with h2 | ⟨p, hp, h2⟩
          · exact .inl h2
          · exact .inr ⟨p, List.mem_cons_of_mem _ hp, h2⟩
        · intro p hp y hpy
          rcases List.mem_cons.1 hp with rfl | hp
          · rw [hx] at hpy; cases hpy; omega
          · exact h3 p hp y hpy

/-- **C39 (3D).** The face used to find the outside has the smallest x coordinate of all faces in planes of constant x,
provided one of them is below the largest grid plane. -/
theorem C39_3d_min_face (hex : ∃ q ∈ M.faces, ∃ x, q.2.x = some x ∧ x < M.vx) :
    ∃ q ∈ M.faces, q.1 = M.minFace ∧ ∃ x, q.2.x = some x ∧ ∀ p ∈ M.faces, ∀ y, p.2.x = some y → x ≤ y := by
  obtain ⟨h1, h2, h3⟩ := minFace_fold M.faces (0, M.vx)
  obtain ⟨q, hq, x, hx, hlt⟩ := hex
  rcases h2 with h2 | ⟨p, hp, h4, h5⟩
  · have := h3 q hq x hx
    rw [h2] at this
    simp only at this; omega
  · exact ⟨p, hp, h4, _, h5, h3⟩

/-! ## an example: a box aligned with the grid -/

/-- cut cell 0 lies between free face 0 (beyond it is adaptive cell 1, outside) and mesh face 1; adaptive cell 2 is beyond
mesh face 1, enclosed by the surface. -/
def demoBox : Mesh3 where
  cells := [[(0, true), (1, true)]]
  numAd := 2
  faces := [(0, ⟨false, some (10, true), some 3⟩), (1, ⟨true, some (20, true), some 4⟩)]
  dual := []
  owner := fun k => if k = 10 then 1 else 2
  vx := 10

theorem demoBox_ok : demoBox.Ok := by
  refine ⟨by decide +kernel, by decide +kernel, by decide +kernel, ?_, ?_⟩
  · intro p hp; cases hp
  · intro q hq cid s hs h0
    have : demoBox.owner cid = 1 ∨ demoBox.owner cid = 2 := by unfold demoBox; simp only; split <;> simp
    have hn : demoBox.numCells = 3 := rfl
    have hl : (demoBox.cells.length : ℤ) = 1 := rfl
    omega

example : (List.range 3).map (fun (k : ℕ) => demoBox.region (ds_ok demoBox_ok).roots k) = [0, 0, 0] := by decide +kernel

example : demoBox.minFace = 0 ∧ demoBox.firstCellWith demoBox.minFace = some 0 := by decide +kernel

end Mesh3
end Region
end Mandoline
