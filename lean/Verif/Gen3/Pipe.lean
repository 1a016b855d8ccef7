import Verif.Gen3.Assemble
import Verif.Gen3.External
import Verif.Cell.Remove
import Verif.Ops.Incidence

/-!
# C101: from the faces to the boundary operator in 3D

Transcription of the first part of `CutCellGenerator<3>::bake_cells` (src/construction/generator3.cpp:253-307), joined with the
models of the cell collapser (`CellCollapser`), of `generate` (`Gen3.generate`) and of the boundary operator
(`CutMesh.boundary`).
-/
namespace Mandoline
namespace Gen3

/-- what this part reads of a cut face: `indices`, `external_boundary`, the mask. -/
structure PFace where
  loops : List (List ℕ)
  ext : Option (ℤ × Bool)
  mask : Mask 3

/-- the faces as the cell collapser gets them. -/
def collapserFaces (faces : List (ℤ × PFace)) : List (ℤ × List (List ℤ)) :=
  faces.map fun p => (p.1, p.2.loops.map fun l => l.map Int.ofNat)

/-- `m_faces[i]`, as far as it exists. -/
def faceAt (faces : List (ℤ × PFace)) (i : ℤ) : Option PFace := OMap.find intLt i faces

/-- does face `i` have an `external_boundary`? -/
def hasExt (faces : List (ℤ × PFace)) (i : ℤ) : Bool := ((faceAt faces i).bind PFace.ext).isSome

/-- mask of face `i`. -/
def maskAt (faces : List (ℤ × PFace)) (i : ℤ) : Mask 3 := ((faceAt faces i).map PFace.mask).getD Mask.empty

/-- the collapser after `bake` (generator3.cpp:256-268). `ord` is the order of the faces around an edge, `R` the roots of the
disjoint sets. -/
def bakedCells (faces : List (ℤ × PFace)) (ord : DEdge → List ℤ)
    (R : DsuRoots ((CellCollapser.make (collapserFaces faces)).merge ord).ds) : CellCollapser :=
  (CellCollapser.make (collapserFaces faces)).bake ord R

/-- the cells kept by `bake_cells` (generator3.cpp:275-293). -/
def keptCells (faces : List (ℤ × PFace)) (shape : Fin 3 → ℤ) (ord : DEdge → List ℤ)
    (R : DsuRoots ((CellCollapser.make (collapserFaces faces)).merge ord).ds) : List (List (ℤ × Bool)) :=
  (((bakedCells faces ord R).removeBoundary (hasExt faces)).removeGridBoundary shape (maskAt faces)).cells

/-- `std::get<1>(*f.external_boundary) = !sgn` for one entry of a cell (generator3.cpp:300-305). -/
def setSign (faces : List (ℤ × PFace)) (p : ℤ × Bool) : List (ℤ × PFace) :=
  faces.map fun q => if q.1 = p.1 then (q.1, { q.2 with ext := q.2.ext.map fun e => (e.1, !p.2) }) else q

/-- the loop over all cells (generator3.cpp:298-306). -/
def setSigns (faces : List (ℤ × PFace)) (cells : List (List (ℤ × Bool))) : List (ℤ × PFace) :=
  cells.foldl (fun fs c => c.foldl setSign fs) faces

/-- the state of the generator after `bake_cells` (the regions are a parameter, generator3.cpp:441-445). -/
def bakeState {B : Type} (faces : List (ℤ × PFace)) (cells : List (List (ℤ × Bool))) (region : ℕ → ℤ)
    (meshFaces : List (ℤ × B)) (axisFaces : Fin 3 → List ℤ) (folded : List ℤ) : GenState PFace B where
  faces := setSigns faces cells
  loops := PFace.loops
  meshFaces := meshFaces
  axisFaces := axisFaces
  folded := folded
  cells := cells.zipIdx.map fun p => ⟨p.2, region p.2, p.1⟩

/-- what the boundary operator reads of the mesh (boundary3.cpp:7-39). -/
def OutMesh.cutMesh {B : Type} (M : OutMesh PFace B) : CutMesh where
  nFacets := M.faces.length
  ext := fun k => (M.faces[k]?).bind PFace.ext
  cells := M.cells.map fun d => (d.index, d.faces)

/-! ## specification -/

/-- the cell on side `b` of face `i` is bounded by faces with an exterior neighbour only. -/
def SideOutside (faces : List (ℤ × PFace)) (cells : List (List (ℤ × Bool))) (i : ℤ) (b : Bool) : Prop :=
  ∃ m ∈ cells, (i, b) ∈ m ∧ ∀ p ∈ m, ∃ f, (p.1, f) ∈ faces ∧ f.ext ≠ none

/-- both sides of face `i` are seen by a cell. -/
def TwoCells (cells : List (List (ℤ × Bool))) (i : ℤ) : Prop := (∃ m ∈ cells, (i, true) ∈ m) ∧ ∃ m ∈ cells, (i, false) ∈ m

/-! ## proofs -/

theorem one_cell {α : Type} [BEq α] [LawfulBEq α] (L : List (List α)) (x : α) (h : L.flatten.count x = 1) (m : List α)
    (hm : m ∈ L) (hx : x ∈ m) : ∀ m' ∈ L, x ∈ m' → m' = m := by
  intro m' hm' hx'
  obtain ⟨A, C, rfl⟩ := List.append_of_mem hm
  rw [List.flatten_append, List.flatten_cons, List.count_append, List.count_append] at h
  have h1 : 0 < m.count x := List.count_pos_iff.2 hx
  rcases List.mem_append.1 hm' with h2 | h2
  · have : 0 < A.flatten.count x := List.count_pos_iff.2 (List.mem_flatten.2 ⟨m', h2, hx'⟩)
    omega
  · rcases List.mem_cons.1 h2 with h2 | h2
    · exact h2
    · have : 0 < C.flatten.count x := List.count_pos_iff.2 (List.mem_flatten.2 ⟨m', h2, hx'⟩)
      omega

theorem setSign_find (faces : List (ℤ × PFace)) (p : ℤ × Bool) (k : ℕ) :
    (setSign faces p)[k]? = (faces[k]?).map fun q =>
      if q.1 = p.1 then (q.1, { q.2 with ext := q.2.ext.map fun e => (e.1, !p.2) }) else q := by
  unfold setSign; rw [List.getElem?_map]

theorem setSigns_flatten (faces : List (ℤ × PFace)) (cells : List (List (ℤ × Bool))) :
    setSigns faces cells = cells.flatten.foldl setSign faces := by
  unfold setSigns
  induction cells generalizing faces with
  | nil => rfl
  | cons c cs ih => rw [List.foldl_cons, ih, List.flatten_cons, List.foldl_append]

/-- the entry at position `k` after the sign loop: only the sign of the external boundary can change. -/
theorem setSigns_get (faces : List (ℤ × PFace)) (l : List (ℤ × Bool)) (k : ℕ) (i : ℤ) (f : PFace) (h : faces[k]? = some (i, f)) :
    ∃ g, (l.foldl setSign faces)[k]? = some (i, g) ∧ g.loops = f.loops ∧ g.mask = f.mask ∧
      ((l.filter fun p => decide (p.1 = i)) = [] → g.ext = f.ext) ∧
      ∀ s, (l.filter fun p => decide (p.1 = i)) = [(i, s)] → g.ext = f.ext.map fun e => (e.1, !s) := by
  induction l generalizing faces f with
  | nil => exact ⟨f, h, rfl, rfl, fun _ => rfl, by simp⟩
  | cons p l ih =>
    rw [List.foldl_cons]
    have hp := setSign_find faces p k
    rw [h, Option.map_some] at hp
    dsimp only at hp
    by_cases hi : i = p.1
    · rw [if_pos hi] at hp
      obtain ⟨g, h1, h2, h3, h4, -⟩ := ih (setSign faces p) _ hp
      refine ⟨g, h1, h2, h3, fun he => ?_, fun s hs => ?_⟩
      · rw [List.filter_cons_of_pos (by simp [hi])] at he; cases he
      · rw [List.filter_cons_of_pos (by simp [hi]), List.cons.injEq] at hs
        rw [h4 hs.2, hs.1]
    · rw [if_neg hi] at hp
      obtain ⟨g, h1, h2, h3, h4, h5⟩ := ih (setSign faces p) _ hp
      have hf : (p :: l).filter (fun q => decide (q.1 = i)) = l.filter fun q => decide (q.1 = i) :=
        List.filter_cons_of_neg (by simpa using fun e : p.1 = i => hi e.symm)
      exact ⟨g, h1, h2, h3, fun he => h4 (by rw [← hf]; exact he), fun s hs => h5 s (by rw [← hf]; exact hs)⟩

theorem setSigns_keys (faces : List (ℤ × PFace)) (l : List (ℤ × Bool)) :
    (l.foldl setSign faces).map Prod.fst = faces.map Prod.fst := by
  induction l generalizing faces with
  | nil => rfl
  | cons p l ih =>
    rw [List.foldl_cons, ih]
    unfold setSign
    rw [List.map_map]
    refine List.map_congr_left fun q _ => ?_
    simp only [Function.comp]
    split <;> rfl

theorem sorted_of_keys {F G : Type} {a : List (ℤ × F)} {b : List (ℤ × G)} (h : b.map Prod.fst = a.map Prod.fst)
    (ha : OMap.Sorted intLt a) : OMap.Sorted intLt b := by
  unfold OMap.Sorted at *
  have h1 : (a.map Prod.fst).Pairwise fun x y => intLt x y = true := by rw [List.pairwise_map]; exact ha
  rw [← h, List.pairwise_map] at h1
  exact h1

/-- removing the cells on the boundary of the grid removes nothing more when every such face has an exterior neighbour. -/
theorem keptCells_eq (faces : List (ℤ × PFace)) (hs : OMap.Sorted intLt faces) (shape : Fin 3 → ℤ)
    (hgb : ∀ p ∈ faces, CellCollapser.onGridBoundary shape p.2.mask = true → p.2.ext ≠ none) (ord : DEdge → List ℤ)
    (R : DsuRoots ((CellCollapser.make (collapserFaces faces)).merge ord).ds) :
    keptCells faces shape ord R = (bakedCells faces ord R).cells.filter fun m => !m.all fun p => hasExt faces p.1 := by
  unfold keptCells CellCollapser.removeGridBoundary CellCollapser.removeBoundary CellCollapser.removeCells
  dsimp only
  rw [List.filter_filter]
  refine List.filter_congr fun m _ => ?_
  by_cases h : (m.all fun p => hasExt faces p.1) = true
  · rw [h]; simp
  · have hf : (m.all fun p => hasExt faces p.1) = false := Bool.eq_false_of_not_eq_true h
    rw [hf]
    obtain ⟨p, hp, hn⟩ := List.all_eq_false.1 hf
    have : (m.all fun p => CellCollapser.onGridBoundary shape (maskAt faces p.1)) = false := by
      rw [List.all_eq_false]
      refine ⟨p, hp, fun hb => hn ?_⟩
      unfold hasExt maskAt faceAt at *
      rcases hfi : OMap.find intLt p.1 faces with _ | f
      · rw [hfi] at hb
        exact absurd hb (by simp [CellCollapser.onGridBoundary, Mask.empty, Mask.count, Mask.isBound])
      · rw [hfi] at hb
        have hm := OMap.mem_of_find strictTotal_intLt hfi
        have := hgb _ hm hb
        simp only [Option.bind_some]
        exact Option.isSome_iff_ne_none.2 this
    rw [this]; rfl

theorem hasExt_iff (faces : List (ℤ × PFace)) (hs : OMap.Sorted intLt faces) (i : ℤ) :
    hasExt faces i = true ↔ ∃ f, (i, f) ∈ faces ∧ f.ext ≠ none := by
  unfold hasExt faceAt
  constructor
  · intro h
    rcases hfi : OMap.find intLt i faces with _ | f
    · rw [hfi] at h; simp at h
    · rw [hfi] at h
      exact ⟨f, OMap.mem_of_find strictTotal_intLt hfi, Option.isSome_iff_ne_none.1 (by simpa using h)⟩
  · rintro ⟨f, hf, hne⟩
    rw [OMap.find_of_mem strictTotal_intLt hs hf]
    simpa using Option.isSome_iff_ne_none.2 hne

/-- how often the two sides of a face are listed after the removal. -/
theorem kept_count (faces : List (ℤ × PFace)) (hs : OMap.Sorted intLt faces) (L : List (List (ℤ × Bool)))
    (i : ℤ) (b : Bool) (h : L.flatten.count (i, b) = 1) :
    (SideOutside faces L i b → (L.filter fun m => !m.all fun p => hasExt faces p.1).flatten.count (i, b) = 0) ∧
    (¬ SideOutside faces L i b → (L.filter fun m => !m.all fun p => hasExt faces p.1).flatten.count (i, b) = 1) := by
  have hall : ∀ m : List (ℤ × Bool), (m.all fun p => hasExt faces p.1) = true ↔ ∀ p ∈ m, ∃ f, (p.1, f) ∈ faces ∧ f.ext ≠ none := by
    intro m
    rw [List.all_eq_true]
    exact forall_congr' fun p => forall_congr' fun _ => hasExt_iff faces hs p.1
  constructor
  · rintro ⟨m, hm, hx, he⟩
    rw [List.count_eq_zero]
    intro hmem
    obtain ⟨m', hm', hx'⟩ := List.mem_flatten.1 hmem
    obtain ⟨h1, h2⟩ := List.mem_filter.1 hm'
    rw [one_cell L _ h m hm hx m' h1 hx'] at h2
    rw [(hall m).2 he] at h2
    simp at h2
  · intro hn
    rw [CellCollapser.count_filter_flatten, h]
    intro m hm hx
    have : ¬ (m.all fun p => hasExt faces p.1) = true := fun he => hn ⟨m, hm, hx, (hall m).1 he⟩
    rw [Bool.eq_false_of_not_eq_true this]; rfl

/-- the signs with which the cells of the mesh list facet `k`. -/
theorem sides_signs {B : Type} (faces : List (ℤ × PFace)) (hs : OMap.Sorted intLt faces) (cells : List (List (ℤ × Bool))) (region : ℕ → ℤ)
    (mesh : List (ℤ × B)) (ax : Fin 3 → List ℤ) (fo : List ℤ) (V : ℕ → Vertex 3) (M : OutMesh PFace B)
    (hM : generate (bakeState faces cells region mesh ax fo) V = some M) (i : ℤ) (k : ℕ)
    (hk : Becomes (bakeState faces cells region mesh ax fo) i k) :
    (M.cutMesh.sides k).map Prod.snd = (cells.flatten.filter fun p => decide (p.1 = i)).map Prod.snd := by
  have hs' : OMap.Sorted intLt (bakeState faces cells region mesh ax fo).faces := by
    show OMap.Sorted intLt (setSigns faces cells)
    rw [setSigns_flatten]
    exact sorted_of_keys (setSigns_keys faces cells.flatten) hs
  obtain ⟨-, -, -, -, h3⟩ := generate_spec _ V M hM
  -- one cell
  have hone : ∀ (c : GenCell) (d : OutCell), outCell (bakeState faces cells region mesh ax fo) V c = some d →
      (d.faces.filter fun q => decide (q.1 = k)).map Prod.snd = (c.faces.filter fun p => decide (p.1 = i)).map Prod.snd := by
    intro c d hcd
    obtain ⟨-, -, hf, -⟩ := outCell_spec _ V c d hcd
    generalize c.faces = cf at hf
    generalize d.faces = df at hf
    induction hf with
    | nil => rfl
    | @cons p q l l' h _ ih =>
      rw [Option.map_eq_some_iff] at h
      obtain ⟨n, hn, rfl⟩ := h
      have hb : Becomes (bakeState faces cells region mesh ax fo) p.1 n := (reindexAt_iff _ hs' _ _).1 hn
      have hiff : n = k ↔ p.1 = i := by
        constructor
        · rintro rfl
          obtain ⟨f, hf⟩ := hb
          obtain ⟨g, hg⟩ := hk
          rw [hf] at hg
          exact congrArg Prod.fst (Option.some_inj.1 hg)
        · rintro rfl
          have := (reindexAt_iff _ hs' _ _).2 hk
          rw [hn] at this
          exact Option.some_inj.1 this
      rw [List.filter_cons, List.filter_cons]
      by_cases h : n = k
      · rw [if_pos (by simp [h]), if_pos (by simp [hiff.1 h]), List.map_cons, List.map_cons, ih]
      · rw [if_neg (by simp [h]), if_neg (by simpa using fun e => h (hiff.2 e)), ih]
  have hsides : (M.cutMesh.sides k).map Prod.snd =
      M.cells.flatMap fun d => (d.faces.filter fun q => decide (q.1 = k)).map Prod.snd := by
    unfold CutMesh.sides OutMesh.cutMesh
    dsimp only
    rw [List.map_flatMap, List.flatMap_map]
    simp only [List.map_map]
    rfl
  have hgen : ∀ (cs : List GenCell) (ds : List OutCell),
      List.Forall₂ (fun c d => outCell (bakeState faces cells region mesh ax fo) V c = some d) cs ds →
      (ds.flatMap fun d => (d.faces.filter fun q => decide (q.1 = k)).map Prod.snd) =
        cs.flatMap fun c => (c.faces.filter fun p => decide (p.1 = i)).map Prod.snd := by
    intro cs ds h
    induction h with
    | nil => rfl
    | cons h _ ih => rw [List.flatMap_cons, List.flatMap_cons, ih, hone _ _ h]
  rw [hsides, hgen _ _ h3]
  show ((cells.zipIdx.map fun p => (⟨p.2, region p.2, p.1⟩ : GenCell)).flatMap fun c =>
    (c.faces.filter fun p => decide (p.1 = i)).map Prod.snd) = _
  rw [List.flatMap_map]
  dsimp only
  have hz : ∀ (cs : List (List (ℤ × Bool))) (n : ℕ),
      ((cs.zipIdx n).flatMap fun p => (p.1.filter fun p => decide (p.1 = i)).map Prod.snd) =
        (cs.flatten.filter fun p => decide (p.1 = i)).map Prod.snd := by
    intro cs
    induction cs with
    | nil => intro n; rfl
    | cons c cs ih =>
      intro n
      rw [List.zipIdx_cons, List.flatMap_cons, ih, List.flatten_cons, List.filter_append, List.map_append]
  exact hz cells 0

theorem filter_of_counts (l : List (ℤ × Bool)) (i : ℤ) :
    (l.count (i, true) = 0 → l.count (i, false) = 0 → (l.filter fun p => decide (p.1 = i)) = []) ∧
    (∀ s, l.count (i, s) = 1 → l.count (i, !s) = 0 → (l.filter fun p => decide (p.1 = i)) = [(i, s)]) ∧
    (l.count (i, true) = 1 → l.count (i, false) = 1 →
      (l.filter fun p => decide (p.1 = i)).Perm [(i, true), (i, false)]) := by
  have key : ∀ r : List (ℤ × Bool), (∀ p ∈ r, p.1 = i) → r.Perm (List.replicate (r.count (i, true)) (i, true) ++
      List.replicate (r.count (i, false)) (i, false)) := by
    intro r hr
    rw [List.perm_iff_count]
    rintro ⟨j, b⟩
    rw [List.count_append, List.count_replicate, List.count_replicate]
    by_cases hj : j = i
    · subst hj
      cases b <;> simp
    · rw [List.count_eq_zero.2 (fun h => hj (hr _ h))]
      have h1 : ((i, true) == (j, b)) = false := by simpa using fun e : i = j => absurd e.symm hj
      have h2 : ((i, false) == (j, b)) = false := by simpa using fun e : i = j => absurd e.symm hj
      simp [h1, h2]
  have hc : ∀ b, (l.filter fun p => decide (p.1 = i)).count (i, b) = l.count (i, b) := by
    intro b
    rw [List.count_filter (by simp)]
  have hk := key (l.filter fun p => decide (p.1 = i)) (fun p hp => by simpa using (List.mem_filter.1 hp).2)
  rw [hc, hc] at hk
  refine ⟨fun h1 h2 => ?_, fun s h1 h2 => ?_, fun h1 h2 => ?_⟩
  · rw [h1, h2] at hk; simpa using hk
  · cases s
    · rw [h1, show l.count (i, true) = 0 from h2] at hk
      exact List.perm_singleton.1 (by simpa using hk)
    · rw [h1, show l.count (i, false) = 0 from h2] at hk
      exact List.perm_singleton.1 (by simpa using hk)
  · rw [h1, h2] at hk; simpa using hk

/-- a face with both sides listed is not folded. -/
theorem not_folded (faces : List (ℤ × PFace)) (hc : CellCollapser.Clean (collapserFaces faces)) (ord : DEdge → List ℤ)
    (hord : ∀ e, (ord e).Perm ((CellCollapser.make (collapserFaces faces)).around e))
    (R : DsuRoots ((CellCollapser.make (collapserFaces faces)).merge ord).ds) (i : ℤ)
    (h2 : TwoCells (bakedCells faces ord R).cells i) :
    ¬ CellCollapser.Folded (collapserFaces faces) ((CellCollapser.make (collapserFaces faces)).bake ord R) i := by
  rintro ⟨e, e', m1, m2, s1, s2, hcell⟩
  obtain ⟨hpos, hnd⟩ := CellCollapser.clean_hf hc
  obtain ⟨⟨ma, hma, ha⟩, ⟨mb, hmb, hb⟩⟩ := h2
  have hall : ∀ e'', (i, e'') ∈ (CellCollapser.make (collapserFaces faces)).hfList →
      ((CellCollapser.make (collapserFaces faces)).bake ord R).cell (i, e'') =
        ((CellCollapser.make (collapserFaces faces)).bake ord R).cell (i, e) := by
    intro e'' he''
    cases hsd : (CellCollapser.make (collapserFaces faces)).side (i, e'')
    · rw [hcell]
      exact CellCollapser.C38_side_in_one_cell _ hpos ord hord R i e'' e' he'' m2 (by rw [hsd, s2])
    · exact CellCollapser.C38_side_in_one_cell _ hpos ord hord R i e'' e he'' m1 (by rw [hsd, s1])
  obtain ⟨ja, hja⟩ := List.mem_iff_getElem?.1 hma
  obtain ⟨jb, hjb⟩ := List.mem_iff_getElem?.1 hmb
  obtain ⟨n1, d1, -⟩ := CellCollapser.C38_boundary _ hpos ord hord R _ _ hja
  obtain ⟨-, d2, -⟩ := CellCollapser.C38_boundary _ hpos ord hord R _ _ hjb
  obtain ⟨ea, hea, ca, -⟩ := d1 _ _ ha
  obtain ⟨eb, heb, cb, -⟩ := d2 _ _ hb
  have hj : ja = jb := by
    have := (hall _ hea).trans (hall _ heb).symm
    rw [ca, cb] at this
    exact_mod_cast this
  subst hj
  rw [hja] at hjb
  cases hjb
  have := List.inj_on_of_nodup_map n1 ha hb rfl
  simp at this

/-- **C101.** For the mesh produced from faces with clean loops, numbered from 0 on: a face with its two sides in different
cells is a correct facet of the boundary operator (two cut cells with opposite signs; or one cut cell and one exterior
cell, or the outside of the domain, with opposite signs) if and only if it has no exterior neighbour, or the neighbour is a
cell or the outside and exactly one of its two sides is in a cell bounded by faces with exterior neighbours only. -/
theorem C101_facet_ok {B : Type} (faces : List (ℤ × PFace)) (hs : OMap.Sorted intLt faces)
    (hc : CellCollapser.Clean (collapserFaces faces)) (shape : Fin 3 → ℤ)
    (hgb : ∀ p ∈ faces, CellCollapser.onGridBoundary shape p.2.mask = true → p.2.ext ≠ none) (ord : DEdge → List ℤ)
    (hord : ∀ e, (ord e).Perm ((CellCollapser.make (collapserFaces faces)).around e))
    (R : DsuRoots ((CellCollapser.make (collapserFaces faces)).merge ord).ds) (region : ℕ → ℤ) (mesh : List (ℤ × B))
    (ax : Fin 3 → List ℤ) (fo : List ℤ) (V : ℕ → Vertex 3) (M : OutMesh PFace B)
    (hM : generate (bakeState faces (keptCells faces shape ord R) region mesh ax fo) V = some M)
    (k : ℕ) (i : ℤ) (f : PFace) (hk : faces[k]? = some (i, f)) (h2 : TwoCells (bakedCells faces ord R).cells i) :
    M.cutMesh.FacetOk k ↔ f.ext = none ∨ ∃ c s, f.ext = some (c, s) ∧ (c = -2 ∨ 0 ≤ c) ∧
      (SideOutside faces (bakedCells faces ord R).cells i true ↔ ¬ SideOutside faces (bakedCells faces ord R).cells i false) := by
  have hmem : (i, f) ∈ faces := List.mem_of_getElem? hk
  have hi : i ∈ (collapserFaces faces).map Prod.fst := by
    unfold collapserFaces
    rw [List.map_map]
    exact List.mem_map.2 ⟨_, hmem, rfl⟩
  have hnf := not_folded faces hc ord hord R i h2
  have hcnt := CellCollapser.C71_listed_once _ hc ord hord R i hi hnf
  have hkept := keptCells_eq faces hs shape hgb ord R
  have kc : ∀ b, _ := fun b => kept_count faces hs (bakedCells faces ord R).cells i b (hcnt b)
  rw [← hkept] at kc
  obtain ⟨f0, f1, f2⟩ := filter_of_counts (keptCells faces shape ord R).flatten i
  obtain ⟨g, hg, -, -, e0, e1⟩ := setSigns_get faces (keptCells faces shape ord R).flatten k i f hk
  rw [← setSigns_flatten] at hg
  have hbec : Becomes (bakeState faces (keptCells faces shape ord R) region mesh ax fo) i k := ⟨g, hg⟩
  have hsides := sides_signs faces hs _ region mesh ax fo V M hM i k hbec
  have hext : M.cutMesh.ext k = g.ext := by
    obtain ⟨hf, -⟩ := generate_spec _ V M hM
    unfold OutMesh.cutMesh
    dsimp only
    rw [hf, List.getElem?_map]
    show ((setSigns faces (keptCells faces shape ord R))[k]?.map Prod.snd).bind PFace.ext = g.ext
    rw [hg]; rfl
  -- no exterior neighbour: both sides are kept
  have hnone : ∀ b, f.ext = none → ¬ SideOutside faces (bakedCells faces ord R).cells i b := by
    rintro b hn ⟨m, -, hx, hall⟩
    obtain ⟨f', hf', hne⟩ := hall _ hx
    have := OMap.sorted_unique strictTotal_intLt hs hmem hf'
    rw [← this] at hne
    exact hne hn
  by_cases ht : SideOutside faces (bakedCells faces ord R).cells i true <;>
    by_cases hfa : SideOutside faces (bakedCells faces ord R).cells i false
  · -- both sides removed
    have hnil := f0 ((kc true).1 ht) ((kc false).1 hfa)
    rw [hnil, List.map_nil, List.map_eq_nil_iff] at hsides
    constructor
    · intro h
      cases h with
      | inner c₁ c₂ h _ => rw [hsides] at h; simp at h
      | outer c g s h _ _ => rw [hsides] at h; simp at h
      | domain c s s' h _ => rw [hsides] at h; simp at h
    · rintro (h | ⟨c, s, -, -, h⟩)
      · exact absurd ht (hnone true h)
      · exact absurd hfa (h.1 ht)
  · -- the `true` side removed
    have hone := f1 false ((kc false).2 hfa) ((kc true).1 ht)
    have hge := e1 false hone
    rw [hone] at hsides
    obtain ⟨⟨c, b⟩, hcb⟩ : ∃ x, M.cutMesh.sides k = [x] := by
      rw [← List.length_eq_one_iff, ← List.length_map (f := Prod.snd), hsides]; rfl
    rw [hcb] at hsides
    have hb : b = false := by simpa using hsides
    subst hb
    constructor
    · intro h
      rcases hfe : f.ext with _ | ⟨c', s'⟩
      · exact .inl rfl
      · refine .inr ⟨c', s', rfl, ?_, fun _ => hfa, fun _ => ht⟩
        rw [hfe] at hge
        cases h with
        | inner c₁ c₂ h _ => rw [hcb] at h; exact absurd h.length_eq (by simp)
        | outer c g s h hg he =>
          rw [hext, hge] at he
          right
          have := congrArg Prod.fst (Option.some_inj.1 he)
          dsimp only at this
          omega
        | domain c s s' h he =>
          rw [hext, hge] at he
          left
          exact congrArg Prod.fst (Option.some_inj.1 he)
    · rintro (h | ⟨c', s', he, hc', -⟩)
      · exact absurd ht (hnone true h)
      · rw [he] at hge
        rcases hc' with rfl | hc'
        · exact .domain c false _ hcb (by rw [hext, hge]; rfl)
        · exact .outer c c' false hcb hc' (by rw [hext, hge]; rfl)
  · -- the `false` side removed
    have hone := f1 true ((kc true).2 ht) ((kc false).1 hfa)
    have hge := e1 true hone
    rw [hone] at hsides
    obtain ⟨⟨c, b⟩, hcb⟩ : ∃ x, M.cutMesh.sides k = [x] := by
      rw [← List.length_eq_one_iff, ← List.length_map (f := Prod.snd), hsides]; rfl
    rw [hcb] at hsides
    have hb : b = true := by simpa using hsides
    subst hb
    constructor
    · intro h
      rcases hfe : f.ext with _ | ⟨c', s'⟩
      · exact .inl rfl
      · refine .inr ⟨c', s', rfl, ?_, fun h => absurd h ht, fun h => absurd hfa h⟩
        rw [hfe] at hge
        cases h with
        | inner c₁ c₂ h _ => rw [hcb] at h; exact absurd h.length_eq (by simp)
        | outer c g s h hg he =>
          rw [hext, hge] at he
          right
          have := congrArg Prod.fst (Option.some_inj.1 he)
          dsimp only at this
          omega
        | domain c s s' h he =>
          rw [hext, hge] at he
          left
          exact congrArg Prod.fst (Option.some_inj.1 he)
    · rintro (h | ⟨c', s', he, hc', -⟩)
      · exact absurd hfa (hnone false h)
      · rw [he] at hge
        rcases hc' with rfl | hc'
        · exact .domain c true _ hcb (by rw [hext, hge]; rfl)
        · exact .outer c c' true hcb hc' (by rw [hext, hge]; rfl)
  · -- both sides kept
    have hperm := f2 ((kc true).2 ht) ((kc false).2 hfa)
    have hp2 : ((M.cutMesh.sides k).map Prod.snd).Perm [true, false] := by
      rw [hsides]; exact hperm.map Prod.snd
    have hlen : (M.cutMesh.sides k).length = 2 := by
      rw [← List.length_map (f := Prod.snd), hp2.length_eq]; rfl
    have hextiff : g.ext = none ↔ f.ext = none := by
      have hgen : ∀ (l : List (ℤ × Bool)) (fs : List (ℤ × PFace)) (f g : PFace), fs[k]? = some (i, f) →
          (l.foldl setSign fs)[k]? = some (i, g) → (g.ext = none ↔ f.ext = none) := by
        intro l
        induction l with
        | nil => intro fs f g h1 h2; rw [List.foldl_nil, h1] at h2; cases h2; rfl
        | cons p l ih =>
          intro fs f g h1 h2
          have hp := setSign_find fs p k
          rw [h1, Option.map_some] at hp
          rw [List.foldl_cons] at h2
          split at hp
          · rw [ih _ _ g hp h2]; simp
          · exact ih _ _ g hp h2
      rw [setSigns_flatten] at hg
      exact hgen _ _ f g hk hg
    constructor
    · intro h
      left
      cases h with
      | inner c₁ c₂ h he => rw [hext] at he; exact hextiff.1 he
      | outer c g s h hg he => rw [h] at hlen; simp at hlen
      | domain c s s' h he => rw [h] at hlen; simp at hlen
    · rintro (h | ⟨c, s, -, -, h⟩)
      · have hgn := hextiff.2 h
        obtain ⟨⟨c₁, b₁⟩, ⟨c₂, b₂⟩, hcc⟩ := List.length_eq_two.1 hlen
        rw [hcc] at hp2
        simp only [List.map_cons, List.map_nil] at hp2
        cases b₁ <;> cases b₂
        · exact absurd (hp2.count_eq true) (by decide)
        · exact .inner c₂ c₁ (by rw [hcc]; exact List.Perm.swap _ _ _) (by rw [hext, hgn])
        · exact .inner c₁ c₂ (by rw [hcc]) (by rw [hext, hgn])
        · exact absurd (hp2.count_eq true) (by decide)
      · exact absurd (h.2 hfa) ht

/-- **C101.** A face on the boundary of the grid (in the first or last plane of an axis and in no other) always has an exterior
neighbour: the hypothesis on grid-boundary faces above is what `compute_faces` establishes. -/
theorem C101_grid_boundary_faces (G : Gen) (V : ℕ → Vertex 3) (hV : ∀ i, Normalised (V i)) (loops : List (List ℕ))
    (hne : loops ≠ []) (hl : ∀ l ∈ loops, l ≠ []) (x : Coord 3) (hx : ∀ l ∈ loops, ∀ v ∈ l, InClosedCell x (V v).p)
    (s : Finset (Coord 3)) (hs : genPossibleCells2 V loops = some s) (pc : List (Coord 3)) (hpc : SetOrder pc s)
    (hb : CellCollapser.onGridBoundary G.cellShape (faceMask2 (fun i => (V i).mask) loops) = true) :
    G.externalOf (faceMask2 (fun i => (V i).mask) loops) loops pc = some (-2, false) := by
  unfold CellCollapser.onGridBoundary at hb
  split at hb
  · rename_i hcount
    obtain ⟨axis, k, h1, h2⟩ := (count_one_iff _).1 hcount
    have hba : (faceMask2 (fun i => (V i).mask) loops).boundAxis = some axis := by
      clear hb
      generalize faceMask2 (fun i => (V i).mask) loops = m at *
      unfold Mask.boundAxis Mask.isBound
      have e : List.finRange 3 = [0, 1, 2] := rfl
      rw [e]
      match axis with
      | 0 => simp [h1]
      | 1 => simp [h1, h2 0 (by decide)]
      | 2 => simp [h1, h2 0 (by decide), h2 1 (by decide)]
    rw [hba] at hb
    have hb : (faceMask2 (fun i => (V i).mask) loops) axis = some 0 ∨
        (faceMask2 (fun i => (V i).mask) loops) axis = some (G.cellShape axis) := of_decide_eq_true hb
    have hp : InPlane V loops axis k := by
      refine ⟨(C12_face_mask_loops V hV loops hne hl axis k).1 h1, fun j hj z => ?_⟩
      by_contra hn
      push Not at hn
      have := (C12_face_mask_loops V hV loops hne hl j z).2 hn
      rw [h2 j hj] at this
      cases this
    refine (C97_external G V hV loops hl axis k hp x hx s hs pc hpc).1 ?_
    rw [h1, Option.some.injEq, Option.some.injEq] at hb
    rcases hb with h | h
    · left; omega
    · right; omega
  · cases hb

/-- every face listed in a kept cell is one of the faces. -/
theorem kept_faces (faces : List (ℤ × PFace)) (hc : CellCollapser.Clean (collapserFaces faces)) (shape : Fin 3 → ℤ)
    (ord : DEdge → List ℤ) (hord : ∀ e, (ord e).Perm ((CellCollapser.make (collapserFaces faces)).around e))
    (R : DsuRoots ((CellCollapser.make (collapserFaces faces)).merge ord).ds) (m : List (ℤ × Bool))
    (hm : m ∈ keptCells faces shape ord R) (p : ℤ × Bool) (hp : p ∈ m) : ∃ f, (p.1, f) ∈ faces := by
  have hm' : m ∈ (bakedCells faces ord R).cells := by
    unfold keptCells CellCollapser.removeGridBoundary CellCollapser.removeBoundary CellCollapser.removeCells at hm
    exact List.mem_of_mem_filter (List.mem_of_mem_filter hm)
  obtain ⟨j, hj⟩ := List.mem_iff_getElem?.1 hm'
  obtain ⟨hpos, -⟩ := CellCollapser.clean_hf hc
  obtain ⟨-, d, -⟩ := CellCollapser.C38_boundary _ hpos ord hord R _ _ hj
  obtain ⟨e, he, -, -⟩ := d p.1 p.2 hp
  have := (CellCollapser.C38_halffaces _ hc p.1 e _).1 ⟨he, rfl⟩
  have hmem : ∃ e', e' ∈ CellCollapser.edgesOf (collapserFaces faces) p.1 := by
    split at this
    · exact ⟨_, this⟩
    · exact ⟨_, this⟩
  obtain ⟨e', he'⟩ := hmem
  unfold CellCollapser.edgesOf collapserFaces at he'
  rw [List.mem_flatMap] at he'
  obtain ⟨q, hq, -⟩ := he'
  obtain ⟨h1, h2⟩ := List.mem_filter.1 hq
  obtain ⟨r, hr, rfl⟩ := List.mem_map.1 h1
  exact ⟨r.2, by rw [← of_decide_eq_true h2]; exact hr⟩

/-- **C101.** The mesh is produced if and only if the mesh faces and axial faces recorded have numbers of faces; the cells
never make it fail. -/
theorem C101_mesh_exists {B : Type} (faces : List (ℤ × PFace)) (hs : OMap.Sorted intLt faces)
    (hc : CellCollapser.Clean (collapserFaces faces)) (shape : Fin 3 → ℤ) (ord : DEdge → List ℤ)
    (hord : ∀ e, (ord e).Perm ((CellCollapser.make (collapserFaces faces)).around e))
    (R : DsuRoots ((CellCollapser.make (collapserFaces faces)).merge ord).ds) (region : ℕ → ℤ) (mesh : List (ℤ × B))
    (ax : Fin 3 → List ℤ) (fo : List ℤ) (V : ℕ → Vertex 3) :
    (∃ M, generate (bakeState faces (keptCells faces shape ord R) region mesh ax fo) V = some M) ↔
      (∀ p ∈ mesh, ∃ f, (p.1, f) ∈ faces) ∧ ∀ a, ∀ i ∈ ax a, ∃ f, (i, f) ∈ faces := by
  have hkeys : (setSigns faces (keptCells faces shape ord R)).map Prod.fst = faces.map Prod.fst := by
    rw [setSigns_flatten]; exact setSigns_keys faces _
  have hiff : ∀ i, (∃ f, (i, f) ∈ setSigns faces (keptCells faces shape ord R)) ↔ ∃ f, (i, f) ∈ faces := by
    intro i
    have h1 : ∀ l : List (ℤ × PFace), (∃ f, (i, f) ∈ l) ↔ i ∈ l.map Prod.fst := by
      intro l
      rw [List.mem_map]
      constructor
      · rintro ⟨f, hf⟩; exact ⟨_, hf, rfl⟩
      · rintro ⟨p, hp, rfl⟩; exact ⟨p.2, hp⟩
    rw [h1, h1, hkeys]
  have hs' : OMap.Sorted intLt (bakeState faces (keptCells faces shape ord R) region mesh ax fo).faces :=
    sorted_of_keys hkeys hs
  rw [(C100_generate _ hs' V).1]
  unfold GenState.Closed bakeState
  dsimp only
  simp only [hiff]
  constructor
  · rintro ⟨h1, h2, -⟩; exact ⟨h1, h2⟩
  · rintro ⟨h1, h2⟩
    refine ⟨h1, h2, fun c hcm p hp => ?_⟩
    obtain ⟨q, hq, rfl⟩ := List.mem_map.1 hcm
    obtain ⟨m, n⟩ := q
    rw [List.mem_zipIdx_iff_getElem?] at hq
    exact kept_faces faces hc shape ord hord R m (List.mem_of_getElem? hq) p hp

theorem nFacets_eq {B : Type} (faces : List (ℤ × PFace)) (cells : List (List (ℤ × Bool))) (region : ℕ → ℤ) (mesh : List (ℤ × B))
    (ax : Fin 3 → List ℤ) (fo : List ℤ) (V : ℕ → Vertex 3) (M : OutMesh PFace B)
    (hM : generate (bakeState faces cells region mesh ax fo) V = some M) : M.cutMesh.nFacets = faces.length := by
  obtain ⟨hf, -⟩ := generate_spec _ V M hM
  unfold OutMesh.cutMesh
  dsimp only
  rw [hf, List.length_map]
  show (setSigns faces cells).length = _
  rw [setSigns_flatten, ← List.length_map (f := Prod.fst), setSigns_keys, List.length_map]

/-- **C101.** If no face has both sides in one cell, and every face with an exterior neighbour has exactly one side in a cell
bounded by such faces only, then the 3D boundary operator of the finished mesh (without the domain boundary)
annihilates constants on every cut face. -/
theorem C101_kills_constants {B : Type} (faces : List (ℤ × PFace)) (hs : OMap.Sorted intLt faces)
    (hc : CellCollapser.Clean (collapserFaces faces)) (shape : Fin 3 → ℤ)
    (hgb : ∀ p ∈ faces, CellCollapser.onGridBoundary shape p.2.mask = true → p.2.ext ≠ none) (ord : DEdge → List ℤ)
    (hord : ∀ e, (ord e).Perm ((CellCollapser.make (collapserFaces faces)).around e))
    (R : DsuRoots ((CellCollapser.make (collapserFaces faces)).merge ord).ds) (region : ℕ → ℤ) (mesh : List (ℤ × B))
    (ax : Fin 3 → List ℤ) (fo : List ℤ) (V : ℕ → Vertex 3) (M : OutMesh PFace B)
    (hM : generate (bakeState faces (keptCells faces shape ord R) region mesh ax fo) V = some M)
    (h2 : ∀ p ∈ faces, TwoCells (bakedCells faces ord R).cells p.1)
    (hext : ∀ p ∈ faces, ∀ c s, p.2.ext = some (c, s) → (c = -2 ∨ 0 ≤ c) ∧
      (SideOutside faces (bakedCells faces ord R).cells p.1 true ↔ ¬ SideOutside faces (bakedCells faces ord R).cells p.1 false))
    (look : ℤ → ℤ) (E : List Triplet) (hE : ∀ t ∈ E, (faces.length : ℤ) ≤ t.1) (v : ℚ) (k : ℕ) (hk : k < faces.length) :
    matVec (M.cutMesh.boundary look E false) (fun _ => v) k = 0 := by
  have hn := nFacets_eq faces _ region mesh ax fo V M hM
  refine C66_kills_constants _ look E k (by rw [hn]; exact hk) (by rw [hn]; exact hE) ?_ v
  have hg := List.getElem?_eq_getElem hk
  have hm := List.getElem_mem hk
  refine (C101_facet_ok faces hs hc shape hgb ord hord R region mesh ax fo V M hM k _ _ hg (h2 _ hm)).2 ?_
  rcases he : faces[k].2.ext with _ | ⟨c, s⟩
  · exact .inl rfl
  · exact .inr ⟨c, s, rfl, hext _ hm c s he⟩

/-- **C101 (refuted: every grid cell next to an exterior cell keeps a cut cell).** A face whose two sides are both in cells
bounded by faces with exterior neighbours only (a grid cell cut by no face that reaches its boundary) loses both cells: its
row in the boundary operator has the exterior cell as its only entry, and constants are not annihilated. -/
theorem C101_lost_cell_refuted {B : Type} (faces : List (ℤ × PFace)) (hs : OMap.Sorted intLt faces)
    (hc : CellCollapser.Clean (collapserFaces faces)) (shape : Fin 3 → ℤ)
    (hgb : ∀ p ∈ faces, CellCollapser.onGridBoundary shape p.2.mask = true → p.2.ext ≠ none) (ord : DEdge → List ℤ)
    (hord : ∀ e, (ord e).Perm ((CellCollapser.make (collapserFaces faces)).around e))
    (R : DsuRoots ((CellCollapser.make (collapserFaces faces)).merge ord).ds) (region : ℕ → ℤ) (mesh : List (ℤ × B))
    (ax : Fin 3 → List ℤ) (fo : List ℤ) (V : ℕ → Vertex 3) (M : OutMesh PFace B)
    (hM : generate (bakeState faces (keptCells faces shape ord R) region mesh ax fo) V = some M)
    (k : ℕ) (i : ℤ) (f : PFace) (hk : faces[k]? = some (i, f)) (c : ℤ) (s : Bool) (hf : f.ext = some (c, s)) (hc0 : 0 ≤ c)
    (ht : SideOutside faces (bakedCells faces ord R).cells i true)
    (hfa : SideOutside faces (bakedCells faces ord R).cells i false)
    (look : ℤ → ℤ) (E : List Triplet) (hE : ∀ t ∈ E, (faces.length : ℤ) ≤ t.1) (inc : Bool) :
    (∃ v, (v = 1 ∨ v = -1) ∧ rowOf (M.cutMesh.boundary look E inc) k = [((k : ℤ), look c, v)]) ∧
    matVec (M.cutMesh.boundary look E inc) (fun _ => 1) k ≠ 0 := by
  have hlen : k < faces.length := (List.getElem?_eq_some_iff.1 hk).1
  have hn := nFacets_eq faces _ region mesh ax fo V M hM
  have hrow := M.cutMesh.rowOf_boundary look E inc k (by rw [hn]; exact hlen) (by rw [hn]; exact hE)
  -- no cell lists the face
  have hkept := keptCells_eq faces hs shape hgb ord R
  have hnil : ((keptCells faces shape ord R).flatten.filter fun p => decide (p.1 = i)) = [] := by
    rw [List.filter_eq_nil_iff]
    rintro ⟨j, b⟩ hp hj
    have hj : j = i := of_decide_eq_true hj
    subst hj
    have hi : j ∈ (collapserFaces faces).map Prod.fst := by
      unfold collapserFaces
      rw [List.map_map]
      exact List.mem_map.2 ⟨_, List.mem_of_getElem? hk, rfl⟩
    have hnf : ¬ CellCollapser.Folded (collapserFaces faces) ((CellCollapser.make (collapserFaces faces)).bake ord R) j :=
      not_folded faces hc ord hord R j ⟨⟨_, ht.choose_spec.1, ht.choose_spec.2.1⟩, _, hfa.choose_spec.1, hfa.choose_spec.2.1⟩
    have hcnt := CellCollapser.C71_listed_once _ hc ord hord R j hi hnf b
    have kc := kept_count faces hs (bakedCells faces ord R).cells j b hcnt
    rw [← hkept] at kc
    have h0 := kc.1 (by cases b; exact hfa; exact ht)
    rw [List.count_eq_zero] at h0
    exact h0 hp
  obtain ⟨g, hg, -, -, e0, -⟩ := setSigns_get faces (keptCells faces shape ord R).flatten k i f hk
  rw [← setSigns_flatten] at hg
  have hsides := sides_signs faces hs _ region mesh ax fo V M hM i k ⟨g, hg⟩
  rw [hnil, List.map_nil, List.map_eq_nil_iff] at hsides
  have hext : M.cutMesh.ext k = some (c, s) := by
    obtain ⟨hf', -⟩ := generate_spec _ V M hM
    unfold OutMesh.cutMesh
    dsimp only
    rw [hf', List.getElem?_map]
    show ((setSigns faces (keptCells faces shape ord R))[k]?.map Prod.snd).bind PFace.ext = _
    rw [hg]
    show g.ext = _
    rw [e0 hnil, hf]
  have hrow' : rowOf (M.cutMesh.boundary look E inc) k = [((k : ℤ), look c, signVal s)] := by
    rw [hrow, hsides]
    unfold CutMesh.extTriplet
    rw [hext]
    simp [hc0]
  constructor
  · exact ⟨signVal s, by cases s <;> simp [signVal], hrow'⟩
  · unfold matVec
    rw [hrow']
    cases s <;> simp [signVal]

end Gen3
end Mandoline
