import Verif.Fill.Volume
import Verif.Gen3.Pipe
import Verif.Tools.Validation

/-!
# C111: the mesh passes `grid_cells_fully_utilized`

The models of the cell collapser, of `bake_cells`, of `generate` and of the validation tool joined: the volumes that
`operators::cell_volumes` (src/operators/volume3.cpp:6-28) reports for the cells of the mesh, added per stored grid cell
(tools/validation/grid_cells.cpp:6-46).
-/
namespace Mandoline
namespace Gen3
open CellCollapser

/-- `CutCell::volume(face_brep_vols)` (src/cutcell.cpp:139-148) with `face_brep_vols(k) = faces[k].brep_volume(V)`
(volume3.cpp:11-14); `W` the world positions of the vertices. -/
def OutMesh.volume {B : Type} (M : OutMesh PFace B) (κ : ℚ) (W : ℤ → Vec3) (d : OutCell) : ℚ :=
  (d.faces.map fun p => (if p.2 then 1 else -1) *
    (((M.faces[p.1]?).map fun f => brepVolume κ W (f.loops.map fun l => l.map Int.ofNat)).getD 0)).sum

/-! ## specification -/

/-- a grid cell that the surface cuts and whose walls are covered by faces: see `Walled` and `wallArea`; no face in it is
folded, and each cut cell in it has a face that no uncut cell or outside is adjacent to. -/
structure CutOpen (faces : List (ℤ × PFace)) (P nrm : ℤ → Vec3) (s : CellCollapser) (c : Coord 3) : Prop where
  walled : Walled (collapserFaces faces) P nrm c
  full : ∀ i, wallArea (collapserFaces faces) P c i (c i) = 1 ∧ wallArea (collapserFaces faces) P c i (c i + 1) = 1
  unfolded : ∀ f b, SideIn (collapserFaces faces) P nrm c f b → ¬ Folded (collapserFaces faces) s f
  inner : ∀ m ∈ s.cells, (∃ x ∈ m, SideIn (collapserFaces faces) P nrm c x.1 x.2) → ∃ x ∈ m, ∀ f, (x.1, f) ∈ faces → f.ext = none

/-! ## proofs -/

theorem faceBrepVol_of_mem (κ : ℚ) (W : ℤ → Vec3) {faces : List (ℤ × List (List ℤ))} (hnd : (faces.map Prod.fst).Nodup) {i : ℤ}
    {loops : List (List ℤ)} (h : (i, loops) ∈ faces) : faceBrepVol κ W faces i = brepVolume κ W loops := by
  unfold faceBrepVol
  have : faces.filter (fun p => decide (p.1 = i)) = [(i, loops)] := by
    clear κ W
    induction faces with
    | nil => cases h
    | cons a l ih =>
      rw [List.map_cons, List.nodup_cons] at hnd
      rcases List.mem_cons.1 h with rfl | h'
      · rw [List.filter_cons_of_pos (by simp), List.filter_eq_nil_iff.2]
        intro b hb hbi
        exact hnd.1 (List.mem_map.2 ⟨b, hb, of_decide_eq_true hbi⟩)
      · rw [List.filter_cons_of_neg, ih hnd.2 h']
        intro hai
        exact hnd.1 (List.mem_map.2 ⟨_, h', (of_decide_eq_true hai).symm⟩)
  rw [this]; simp

theorem volume_eq {B : Type} (faces : List (ℤ × PFace)) (hs : OMap.Sorted intLt faces) (cells : List (List (ℤ × Bool)))
    (region : ℕ → ℤ) (mesh : List (ℤ × B)) (ax : Fin 3 → List ℤ) (fo : List ℤ) (V : ℕ → Vertex 3) (M : OutMesh PFace B)
    (hM : generate (bakeState faces cells region mesh ax fo) V = some M) (κ : ℚ) (W : ℤ → Vec3) (n : ℕ) (m : List (ℤ × Bool)) (d : OutCell)
    (hm : cells[n]? = some m) (hd : M.cells[n]? = some d) :
    M.volume κ W d = cellVolume (faceBrepVol κ W (collapserFaces faces)) m ∧
    List.Forall₂ (fun p (q : ℕ × Bool) => (∃ f, faces[q.1]? = some (p.1, f) ∧ ∃ g, M.faces[q.1]? = some g ∧ g.loops = f.loops) ∧ p.2 = q.2) m d.faces := by
  have hkeys : (setSigns faces cells).map Prod.fst = faces.map Prod.fst := by rw [setSigns_flatten]; exact setSigns_keys faces _
  have hs' : OMap.Sorted intLt (bakeState faces cells region mesh ax fo).faces := sorted_of_keys hkeys hs
  obtain ⟨hf, hfo, -, -, h3⟩ := generate_spec _ V M hM
  have hc : (bakeState faces cells region mesh ax fo).cells[n]? = some ⟨n, region n, m⟩ := by
    show (cells.zipIdx.map fun p => (⟨p.2, region p.2, p.1⟩ : GenCell))[n]? = _
    rw [List.getElem?_map, List.getElem?_zipIdx, hm]; simp
  obtain ⟨-, -, h4, -⟩ := outCell_spec _ V _ d ((forall2_get h3).2 n _ _ hc hd)
  dsimp only at h4
  have hpair : List.Forall₂ (fun p (q : ℕ × Bool) => (∃ f, faces[q.1]? = some (p.1, f) ∧ ∃ g, M.faces[q.1]? = some g ∧ g.loops = f.loops) ∧ p.2 = q.2) m d.faces := by
    refine h4.imp ?_
    rintro ⟨i, b⟩ ⟨k, b'⟩ h
    rw [Option.map_eq_some_iff] at h
    obtain ⟨k', hk', he⟩ := h
    rw [Prod.mk.injEq] at he
    obtain ⟨rfl, rfl⟩ := he
    obtain ⟨g, hg⟩ := (reindexAt_iff _ hs' _ _).1 hk'
    have hlt : k' < faces.length := by
      have h1 := (List.getElem?_eq_some_iff.1 hg).1
      have h2 := congrArg List.length hkeys
      rw [List.length_map, List.length_map] at h2
      have : (bakeState faces cells region mesh ax fo).faces.length = faces.length := h2
      omega
    obtain ⟨⟨j, f⟩, hjf⟩ : ∃ q, faces[k']? = some q := ⟨_, List.getElem?_eq_getElem hlt⟩
    obtain ⟨g', hg', e1, -⟩ := setSigns_get faces cells.flatten k' j f hjf
    rw [← setSigns_flatten] at hg'
    have hg : (setSigns faces cells)[k']? = some (i, g) := hg
    rw [hg'] at hg
    cases hg
    refine ⟨⟨f, hjf, g, ?_, e1⟩, rfl⟩
    show M.faces[k']? = some g
    rw [hf, List.getElem?_map]
    show ((setSigns faces cells)[k']?).map Prod.snd = _
    rw [hg']; rfl
  refine ⟨?_, hpair⟩
  have hnd : ((collapserFaces faces).map Prod.fst).Nodup := by
    unfold collapserFaces
    rw [List.map_map]
    show (faces.map Prod.fst).Nodup
    rw [List.Nodup, List.pairwise_map]
    refine List.Pairwise.imp ?_ hs
    intro a b h hab
    rw [hab, strictTotal_intLt.irrefl] at h; cases h
  have hvol : ∀ i f (k : ℕ), faces[k]? = some (i, f) →
      faceBrepVol κ W (collapserFaces faces) i = brepVolume κ W (f.loops.map fun l => l.map Int.ofNat) := by
    intro i f k hk
    have hmem : (i, f.loops.map fun l => l.map Int.ofNat) ∈ collapserFaces faces :=
      List.mem_map.2 ⟨(i, f), List.mem_of_getElem? hk, rfl⟩
    exact faceBrepVol_of_mem κ W hnd hmem
  unfold OutMesh.volume cellVolume
  clear h4
  revert hpair
  generalize d.faces = df
  intro hpair
  clear hm hd hc
  induction hpair with
  | nil => rfl
  | @cons p q m' d' h _ ih =>
    obtain ⟨⟨f, hf, g, hg, e⟩, hb⟩ := h
    rw [List.map_cons, List.map_cons, List.sum_cons, List.sum_cons, ih, hg, hvol p.1 f q.1 hf, hb]
    simp only [Option.map_some, Option.getD_some, e]

section
variable {B : Type} (faces : List (ℤ × PFace)) (hs : OMap.Sorted intLt faces) (hnum : ∀ (k : ℕ) i f, faces[k]? = some (i, f) → i = k)
  (hc : Clean (collapserFaces faces)) (hedges : ∀ f, (edgesOf (collapserFaces faces) f).Nodup) (V : ℕ → Vertex 3) (hV : ∀ i, Normalised (V i))
  (P nrm : ℤ → Vec3) (hP : ∀ v : ℕ, P v = (V v).p) (hok : ∀ f ∈ (collapserFaces faces).map Prod.fst, FaceOk (collapserFaces faces) P nrm f)
  (ord : DEdge → List ℤ) (hord : ∀ e, (ord e).Perm ((CellCollapser.make (collapserFaces faces)).around e))
  (hccw : Ordered (collapserFaces faces) P nrm ord) (R : DsuRoots ((CellCollapser.make (collapserFaces faces)).merge ord).ds)
  (shape : Fin 3 → ℤ) (hgb : ∀ p ∈ faces, CellCollapser.onGridBoundary shape p.2.mask = true → p.2.ext ≠ none)
  (hopen : ∀ m ∈ keptCells faces shape ord R, ∀ x ∈ m, ∀ c, SideIn (collapserFaces faces) P nrm c x.1 x.2 →
    CutOpen faces P nrm (bakedCells faces ord R) c)
  (region : ℕ → ℤ) (mesh : List (ℤ × B)) (ax : Fin 3 → List ℤ) (M : OutMesh PFace B)
  (hM : generate (bakeState faces (keptCells faces shape ord R) region mesh ax (bakedCells faces ord R).foldedFaces) V = some M)

include hs hgb in
theorem kept_iff (m : List (ℤ × Bool)) (hm : m ∈ (bakedCells faces ord R).cells) :
    m ∈ keptCells faces shape ord R ↔ ∃ p ∈ m, ¬ ∃ f, (p.1, f) ∈ faces ∧ f.ext ≠ none := by
  rw [keptCells_eq faces hs shape hgb ord R, List.mem_filter]
  have : (!m.all fun p => hasExt faces p.1) = true ↔ ∃ p ∈ m, ¬ hasExt faces p.1 = true := by
    rw [Bool.not_eq_true', List.all_eq_false]
  rw [this]
  simp only [hm, true_and]
  exact exists_congr fun p => and_congr_right fun _ => not_congr (hasExt_iff faces hs p.1)

include hs hgb in
theorem mem_baked {m : List (ℤ × Bool)} (hm : m ∈ keptCells faces shape ord R) : m ∈ (bakedCells faces ord R).cells := by
  rw [keptCells_eq faces hs shape hgb ord R] at hm
  exact (List.mem_filter.1 hm).1

include hs hnum hc hedges hV hP hok hord hccw hgb hopen hM in
theorem gridCell_of_side (n : ℕ) (m : List (ℤ × Bool)) (d : OutCell) (hm : (keptCells faces shape ord R)[n]? = some m) (hd : M.cells[n]? = some d)
    (x : ℤ × Bool) (hx : x ∈ m) (c : Coord 3) (hside : SideIn (collapserFaces faces) P nrm c x.1 x.2) : d.gridCell = some c := by
  obtain ⟨hpos, hnd⟩ := clean_hf hc
  have hmk : m ∈ keptCells faces shape ord R := List.mem_of_getElem? hm
  have hmb := mem_baked faces hs ord R shape hgb hmk
  obtain ⟨k, hk⟩ := List.mem_iff_getElem?.1 hmb
  have hco := hopen m hmk x hx c hside
  have hfold := C38_folded_faces (collapserFaces faces) hpos hnd ord hord R
  have hall : ∀ z ∈ m, SideIn (collapserFaces faces) P nrm c z.1 z.2 := fun z hz =>
    C110_same_grid_cell _ hc P nrm hok ord hord hccw R c hco.walled k m hk x z hx hz hside
  have hunf : ∀ z ∈ m, z.1 ∉ (bakedCells faces ord R).foldedFaces := fun z hz h =>
    hco.unfolded _ _ (hall z hz) ((hfold z.1).1 h)
  have hface : ∀ z ∈ m, z.1 ∈ (collapserFaces faces).map Prod.fst := by
    intro z hz
    obtain ⟨e, he, _, _⟩ := (C38_boundary _ hpos ord hord R k m hk).2.1 z.1 z.2 hz
    exact face_of_hf hc he
  have hkeys : (setSigns faces (keptCells faces shape ord R)).map Prod.fst = faces.map Prod.fst := by rw [setSigns_flatten]; exact setSigns_keys faces _
  have hs' : OMap.Sorted intLt (bakeState faces (keptCells faces shape ord R) region mesh ax (bakedCells faces ord R).foldedFaces).faces := sorted_of_keys hkeys hs
  obtain ⟨hf, hfo, -, -, -⟩ := generate_spec _ V M hM
  obtain ⟨-, hpair⟩ := volume_eq faces hs _ region mesh ax _ V M hM 0 (fun _ => 0) n m d hm hd
  have hvert : ∀ i f (k : ℕ), faces[k]? = some (i, f) → ∀ v : ℤ, IsVertex (collapserFaces faces) i v ↔ ∃ w ∈ f.loops.flatten, v = (w : ℤ) := by
    intro i f k hk v
    have hmem : (i, f.loops.map fun l => l.map Int.ofNat) ∈ collapserFaces faces :=
      List.mem_map.2 ⟨(i, f), List.mem_of_getElem? hk, rfl⟩
    constructor
    · rintro ⟨l, C, h1, h2, h3⟩
      have : (i, l) = (i, f.loops.map fun l => l.map Int.ofNat) := List.inj_on_of_nodup_map hc.nodup h1 hmem rfl
      have : l = f.loops.map fun l => l.map Int.ofNat := congrArg Prod.snd this
      subst this
      obtain ⟨L, hL, rfl⟩ := List.mem_map.1 h2
      obtain ⟨w, hw, rfl⟩ := List.mem_map.1 h3
      exact ⟨w, List.mem_flatten.2 ⟨L, hL, hw⟩, rfl⟩
    · rintro ⟨w, hw, rfl⟩
      obtain ⟨L, hL, hw⟩ := List.mem_flatten.1 hw
      exact ⟨_, _, hmem, List.mem_map.2 ⟨L, hL, rfl⟩, List.mem_map.2 ⟨w, hw, rfl⟩⟩
  have hl : ∀ p ∈ (bakeState faces (keptCells faces shape ord R) region mesh ax (bakedCells faces ord R).foldedFaces).faces,
      (PFace.loops p.2).flatten ≠ [] := by
    intro p hp he
    obtain ⟨j, hj⟩ := List.mem_iff_getElem?.1 hp
    have hlt : j < faces.length := by
      have h1 := (List.getElem?_eq_some_iff.1 hj).1
      have h2 := congrArg List.length hkeys
      rw [List.length_map, List.length_map] at h2
      have : (bakeState faces (keptCells faces shape ord R) region mesh ax (bakedCells faces ord R).foldedFaces).faces.length = faces.length := h2
      omega
    obtain ⟨⟨i, f⟩, hif⟩ : ∃ q, faces[j]? = some q := ⟨_, List.getElem?_eq_getElem hlt⟩
    obtain ⟨g, hg, e1, -⟩ := setSigns_get faces (keptCells faces shape ord R).flatten j i f hif
    rw [← setSigns_flatten] at hg
    have hj : (setSigns faces (keptCells faces shape ord R))[j]? = some p := hj
    rw [hg] at hj
    have hj := Option.some_inj.1 hj
    rw [← hj] at he
    dsimp only at he
    obtain ⟨v, hv⟩ := exists_vertex hc (f := i) (List.mem_map.2 ⟨_, List.mem_map.2 ⟨(i, f), List.mem_of_getElem? hif, rfl⟩, rfl⟩)
    obtain ⟨w, hw, -⟩ := (hvert i f j hif v).1 hv
    rw [← e1, he] at hw
    cases hw
  have hG := C100_grid_cell _ hs' V hV hl M hM n d hd
  dsimp only at hG
  -- the corners are the vertices of the cell's faces
  have hcor : ∀ v : ℕ, (∃ k s f, (k, s) ∈ d.faces ∧ (k : ℤ) ∉ M.folded ∧ M.faces[k]? = some f ∧ v ∈ (PFace.loops f).flatten) ↔
      ∃ z ∈ m, IsVertex (collapserFaces faces) z.1 v := by
    intro v
    obtain ⟨hlen, hget⟩ := forall2_get hpair
    constructor
    · rintro ⟨k, s, f, h1, -, h3, h4⟩
      obtain ⟨j, hj⟩ := List.mem_iff_getElem?.1 h1
      have hj' : j < m.length := by have := (List.getElem?_eq_some_iff.1 hj).1; omega
      obtain ⟨⟨f', e1, g, e2, e3⟩, -⟩ := hget j _ _ (List.getElem?_eq_getElem hj') hj
      dsimp only at e1 e2
      rw [h3] at e2
      cases e2
      refine ⟨m[j], List.getElem_mem hj', (hvert _ f' k e1 v).2 ⟨v, ?_, rfl⟩⟩
      rw [← e3]; exact h4
    · rintro ⟨z, hz, hv⟩
      obtain ⟨j, hj⟩ := List.mem_iff_getElem?.1 hz
      have hj' : j < d.faces.length := by have := (List.getElem?_eq_some_iff.1 hj).1; omega
      obtain ⟨⟨f', e1, g, e2, e3⟩, -⟩ := hget j _ _ hj (List.getElem?_eq_getElem hj')
      refine ⟨(d.faces[j]).1, (d.faces[j]).2, g, List.getElem_mem hj', ?_, e2, ?_⟩
      · rw [hfo]
        show _ ∉ (bakedCells faces ord R).foldedFaces
        rw [← hnum _ _ _ e1]
        exact hunf z hz
      · obtain ⟨w, hw, he⟩ := (hvert _ f' _ e1 v).1 hv
        have : v = w := by exact_mod_cast he
        show v ∈ g.loops.flatten
        rw [e3, this]; exact hw
  refine (hG.1 ?_ c).2 ?_
  · obtain ⟨v, hv⟩ := exists_vertex hc (hface x hx)
    have hfm := hface x hx
    unfold collapserFaces at hfm
    rw [List.map_map] at hfm
    obtain ⟨⟨i, f⟩, hif, hie⟩ := List.mem_map.1 hfm
    obtain ⟨j, hj⟩ := List.mem_iff_getElem?.1 hif
    have hie : i = x.1 := hie
    subst hie
    obtain ⟨w, -, rfl⟩ := (hvert _ f j hj v).1 hv
    exact ⟨w, (hcor w).2 ⟨x, hx, hv⟩⟩
  · intro c'
    rw [← C110_grid_cell _ hc hedges P nrm hok ord hord hccw R c hco.walled k m hk x hx hside x hx (hunf x hx) c']
    constructor
    · intro h z hz _ v hv
      have hfm := hface z hz
      unfold collapserFaces at hfm
      rw [List.map_map] at hfm
      obtain ⟨⟨i, f⟩, hif, hie⟩ := List.mem_map.1 hfm
      obtain ⟨j, hj⟩ := List.mem_iff_getElem?.1 hif
      have hie : i = z.1 := hie
      subst hie
      obtain ⟨w, -, rfl⟩ := (hvert _ f j hj v).1 hv
      rw [hP]
      exact h w ((hcor w).2 ⟨z, hz, hv⟩)
    · intro h v hv
      obtain ⟨z, hz, hzv⟩ := (hcor v).1 hv
      rw [← hP]
      exact h z hz (hunf z hz) v hzv

include hs hc hok hgb hord in
/-- a kept cell has a side, which faces exactly one grid cell. -/
theorem side_of_kept (m : List (ℤ × Bool)) (hm : m ∈ keptCells faces shape ord R) :
    ∃ x ∈ m, ∃ c, SideIn (collapserFaces faces) P nrm c x.1 x.2 := by
  have hmb := mem_baked faces hs ord R shape hgb hm
  obtain ⟨k, hk⟩ := List.mem_iff_getElem?.1 hmb
  obtain ⟨x, hx, -⟩ := (kept_iff faces hs ord R shape hgb m hmb).1 hm
  obtain ⟨hpos, hnd⟩ := clean_hf hc
  obtain ⟨e, he, _, _⟩ := (C38_boundary _ hpos ord hord R k m hk).2.1 x.1 x.2 hx
  obtain ⟨c, h, -⟩ := C110_side_cell_unique _ hc P nrm x.1 (face_of_hf hc he) (hok _ (face_of_hf hc he)) x.2
  exact ⟨x, hx, c, h⟩

include hs hnum hc hedges hV hP hok hord hccw hgb hopen hM in
/-- **C111.** Every cell of the mesh gets a grid cell: the one that its faces are in and that their sides face. -/
theorem C111_grid_cell (n : ℕ) (d : OutCell) (hd : M.cells[n]? = some d) :
    ∃ m c, (keptCells faces shape ord R)[n]? = some m ∧ d.gridCell = some c ∧ m ≠ [] ∧
      ∀ x ∈ m, SideIn (collapserFaces faces) P nrm c x.1 x.2 := by
  obtain ⟨-, -, -, -, h3⟩ := generate_spec _ V M hM
  have hn : n < (keptCells faces shape ord R).length := by
    have h1 := (List.getElem?_eq_some_iff.1 hd).1
    have h2 := h3.length_eq
    have : (bakeState faces (keptCells faces shape ord R) region mesh ax (bakedCells faces ord R).foldedFaces).cells.length =
      (keptCells faces shape ord R).length := by
      show (List.map _ (List.zipIdx _)).length = _
      rw [List.length_map, List.length_zipIdx]
    omega
  have hm := List.getElem?_eq_getElem hn
  have hmk := List.getElem_mem hn
  obtain ⟨x, hx, c, hx'⟩ := side_of_kept faces hs hc P nrm hok ord hord R shape hgb _ hmk
  have hco := hopen _ hmk x hx c hx'
  obtain ⟨k, hk⟩ := List.mem_iff_getElem?.1 (mem_baked faces hs ord R shape hgb hmk)
  refine ⟨_, c, hm, gridCell_of_side faces hs hnum hc hedges V hV P nrm hP hok ord hord hccw R shape hgb hopen region mesh ax M hM n _ d hm hd x hx c hx',
    List.ne_nil_of_mem hx, fun z hz => ?_⟩
  exact C110_same_grid_cell _ hc P nrm hok ord hord hccw R c hco.walled k _ hk x z hx hz hx'

theorem filter_sum_forall2 {α β : Type} {R' : α → β → Prop} {l : List α} {r : List β} (h : List.Forall₂ R' l r) (p : α → Prop) [DecidablePred p]
    (q : β → Bool) (u : α → ℚ) (v : β → ℚ) (hq : ∀ a b, R' a b → (q b = true ↔ p a)) (huv : ∀ a b, R' a b → v b = u a) :
    ((r.filter q).map v).sum = (l.map fun a => if p a then u a else 0).sum := by
  induction h with
  | nil => rfl
  | @cons a b l' r' hab _ ih =>
    rw [List.map_cons, List.sum_cons, ← ih]
    by_cases hp : p a
    · rw [List.filter_cons_of_pos ((hq a b hab).2 hp), List.map_cons, List.sum_cons, if_pos hp, huv a b hab]
    · rw [List.filter_cons_of_neg (fun h => hp ((hq a b hab).1 h)), if_neg hp, zero_add]

theorem filter_sum_eq {α : Type} (L : List α) (keep : α → Bool) (p : α → Prop) [DecidablePred p] (u : α → ℚ)
    (h : ∀ a ∈ L, p a → keep a = true) :
    ((L.filter keep).map fun a => if p a then u a else 0).sum = (L.map fun a => if p a then u a else 0).sum := by
  induction L with
  | nil => rfl
  | cons a L ih =>
    have ih := ih fun b hb => h b (List.mem_cons_of_mem _ hb)
    by_cases hk : keep a = true
    · rw [List.filter_cons_of_pos hk, List.map_cons, List.map_cons, List.sum_cons, List.sum_cons, ih]
    · rw [List.filter_cons_of_neg hk, List.map_cons, List.sum_cons, ih, if_neg fun hp => hk (h a List.mem_cons_self hp), zero_add]

include hs hnum hc hedges hV hP hok hord hccw hgb hopen hM in
/-- **C111.** The volumes reported for the cells of the mesh that have the same grid cell add up to the volume of that grid
cell (`κ = -1/6` is the factor of the library's `volume_signed`). -/
theorem C111_volume (κ : ℚ) (o dx : Vec3) (d : OutCell) (hd : d ∈ M.cells) (c : Coord 3) (hdc : d.gridCell = some c) :
    ((M.cells.filter fun d => decide (d.gridCell = some c)).map (M.volume κ (worldPos o dx P))).sum = - 6 * κ * (dx 0 * dx 1 * dx 2) := by
  classical
  obtain ⟨n, hn⟩ := List.mem_iff_getElem?.1 hd
  obtain ⟨m, c', hm, hc', hne, hside⟩ := C111_grid_cell faces hs hnum hc hedges V hV P nrm hP hok ord hord hccw R shape hgb hopen region mesh ax M hM n d hn
  rw [hdc] at hc'
  cases hc'
  obtain ⟨x, hx⟩ := List.exists_mem_of_ne_nil _ hne
  have hco := hopen m (List.mem_of_getElem? hm) x hx c (hside x hx)
  obtain ⟨-, -, -, -, h3⟩ := generate_spec _ V M hM
  have hlen : (keptCells faces shape ord R).length = M.cells.length := by
    rw [← h3.length_eq]
    show _ = (List.map _ (List.zipIdx _)).length
    rw [List.length_map, List.length_zipIdx]
  have hrel : List.Forall₂ (fun m d => (∃ n : ℕ, (keptCells faces shape ord R)[n]? = some m ∧ M.cells[n]? = some d)) (keptCells faces shape ord R) M.cells := by
    rw [List.forall₂_iff_get]
    refine ⟨hlen, fun i h1 h2 => ⟨i, ?_, ?_⟩⟩
    · rw [List.getElem?_eq_getElem h1]; rfl
    · rw [List.getElem?_eq_getElem h2]; rfl
  rw [filter_sum_forall2 hrel (fun m => ∃ x ∈ m, SideIn (collapserFaces faces) P nrm c x.1 x.2) _
    (cellVolume (faceBrepVol κ (worldPos o dx P) (collapserFaces faces)))]
  · rw [keptCells_eq faces hs shape hgb ord R, filter_sum_eq]
    · exact C110_volume _ hc P nrm hok ord hord hccw R c hco.walled hco.unfolded hco.full κ o dx
    · intro m hm hp
      have := (kept_iff faces hs ord R shape hgb m hm).2 (by
        obtain ⟨y, hy, hext⟩ := hco.inner m hm hp
        exact ⟨y, hy, fun ⟨f, hf, hne⟩ => hne (hext f hf)⟩)
      rw [keptCells_eq faces hs shape hgb ord R] at this
      exact (List.mem_filter.1 this).2
  · rintro m d ⟨n, h1, h2⟩
    rw [decide_eq_true_iff]
    constructor
    · intro h
      obtain ⟨m', c', hm', hc', hne, hside⟩ := C111_grid_cell faces hs hnum hc hedges V hV P nrm hP hok ord hord hccw R shape hgb hopen region mesh ax M hM n d h2
      rw [h1] at hm'
      cases hm'
      rw [h] at hc'
      cases hc'
      obtain ⟨x, hx⟩ := List.exists_mem_of_ne_nil _ hne
      exact ⟨x, hx, hside x hx⟩
    · rintro ⟨x, hx, h⟩
      exact gridCell_of_side faces hs hnum hc hedges V hV P nrm hP hok ord hord hccw R shape hgb hopen region mesh ax M hM n m d h1 h2 x hx c h
  · rintro m d ⟨n, h1, h2⟩
    exact (volume_eq faces hs _ region mesh ax _ V M hM κ _ n m d h1 h2).1

include hs hnum hc hedges hV hP hok hord hccw hgb hopen hM in
/-- **C111.** `grid_cells_fully_utilized` accepts the mesh if and only if every grid cell marked in the mask has a cut cell:
the volumes never make it fail. `stored` is what the check reads as `grid_cell` of a cell. -/
theorem C111_validated (o dx : Vec3) (hdx : ∀ i, 0 < dx i) (stored : OutCell → Coord 3) (hst : ∀ d c, d.gridCell = some c → stored d = c)
    (order : GridOrder 3) (active : Coord 3 → Bool) :
    Validation.gridCellsUtilized (order.coords shape) active (dx 0 * dx 1 * dx 2)
        (M.cells.map fun d => (stored d, M.volume (-1 / 6) (worldPos o dx P) d)) = true ↔
      ∀ c, (∀ i, 0 ≤ c i ∧ c i < shape i) → active c = true → ∃ d ∈ M.cells, d.gridCell = some c := by
  have hpos : dx 0 * dx 1 * dx 2 ≠ 0 := ne_of_gt (mul_pos (mul_pos (hdx 0) (hdx 1)) (hdx 2))
  have hgc : ∀ d ∈ M.cells, ∃ c, d.gridCell = some c := by
    intro d hd
    obtain ⟨n, hn⟩ := List.mem_iff_getElem?.1 hd
    obtain ⟨m, c', hm, hc', -⟩ := C111_grid_cell faces hs hnum hc hedges V hV P nrm hP hok ord hord hccw R shape hgb hopen region mesh ax M hM n d hn
    exact ⟨c', hc'⟩
  have hst' : ∀ d ∈ M.cells, ∀ c, stored d = c ↔ d.gridCell = some c := by
    intro d hd c
    obtain ⟨c', hc'⟩ := hgc d hd
    rw [hst d c' hc', hc', Option.some_inj]
  rw [Validation.C105_verdict]
  constructor
  · rintro ⟨-, h⟩ c h1 h2
    obtain ⟨x, hx, rfl⟩ := h c h1 h2
    obtain ⟨d, hd, rfl⟩ := List.mem_map.1 hx
    exact ⟨d, hd, (hst' d hd _).1 rfl⟩
  · intro h
    refine ⟨fun x hx => ?_, fun c h1 h2 => ?_⟩
    · obtain ⟨d, hd, rfl⟩ := List.mem_map.1 hx
      obtain ⟨c, hdc⟩ := hgc d hd
      have hvol := C111_volume faces hs hnum hc hedges V hV P nrm hP hok ord hord hccw R shape hgb hopen region mesh ax M hM (-1 / 6) o dx d hd c hdc
      have : Validation.volumeIn (M.cells.map fun d => (stored d, M.volume (-1 / 6) (worldPos o dx P) d)) (stored d) = dx 0 * dx 1 * dx 2 := by
        rw [hst d c hdc]
        unfold Validation.volumeIn
        rw [List.filter_map, List.map_map]
        have e : M.cells.filter ((fun x : Coord 3 × ℚ => decide (x.1 = c)) ∘ fun d => (stored d, M.volume (-1 / 6) (worldPos o dx P) d)) =
            M.cells.filter fun d => decide (d.gridCell = some c) :=
          List.filter_congr fun d hd => by
            simp only [Function.comp]
            rw [decide_eq_decide]
            exact hst' d hd c
        rw [e]
        have : (Prod.snd ∘ fun d => (stored d, M.volume (-1 / 6) (worldPos o dx P) d)) = M.volume (-1 / 6) (worldPos o dx P) := rfl
        rw [this, hvol]; ring
      dsimp only
      rw [this, div_self hpos]
      norm_num
    · obtain ⟨d, hd, hdc⟩ := h c h1 h2
      exact ⟨_, List.mem_map.2 ⟨d, hd, rfl⟩, hst d c hdc⟩

end
end Gen3
end Mandoline
