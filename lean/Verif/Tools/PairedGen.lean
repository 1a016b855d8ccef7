import Verif.Tools.Paired
import Verif.Gen3.PipeDemo

/-!
# C113: generated meshes and the pairing validation
-/
namespace Mandoline.Paired
open Gen3

/-- what the pairing validation reads of a generated mesh. -/
def ofMesh {B : Type} (M : OutMesh PFace B) (shape : Fin 3 → ℤ) (grid : ℤ → Option (Coord 3)) : VMesh where
  faces := M.faces.map fun f => ⟨f.loops.map fun l => l.map Int.ofNat, f.ext.isSome⟩
  isMesh := fun k => decide (k ∈ M.meshFaces.map Prod.fst)
  folded := M.folded
  cells := M.cells.map fun d => (d.region, d.faces)
  vertexShape := shape
  grid := grid

theorem count_pair {α : Type} [DecidableEq α] (l : List (α × Bool)) (i : α) (b : Bool) :
    l.count (i, b) = ((l.filter fun p => decide (p.1 = i)).map Prod.snd).count b := by
  induction l with
  | nil => rfl
  | cons p ps ih =>
    obtain ⟨j, s⟩ := p
    rw [List.count_cons, ih]
    by_cases h : j = i
    · subst h
      have hf : ((j, s) :: ps).filter (fun p => decide (p.1 = j)) = (j, s) :: ps.filter fun p => decide (p.1 = j) := by
        rw [List.filter_cons]; exact if_pos (by simp)
      rw [hf, List.map_cons, List.count_cons]
      congr 1
      cases s <;> cases b <;> simp
    · have hf : ((j, s) :: ps).filter (fun p => decide (p.1 = i)) = ps.filter fun p => decide (p.1 = i) := by
        rw [List.filter_cons]; exact if_neg (by simpa using h)
      rw [hf, if_neg (by simp [h]), add_zero]

theorem sided_eq {B : Type} (M : OutMesh PFace B) (shape : Fin 3 → ℤ) (grid : ℤ → Option (Coord 3)) (k : ℕ) (b : Bool) :
    (ofMesh M shape grid).Sided k b = ((M.cutMesh.sides k).map Prod.snd).count b := by
  unfold VMesh.Sided ofMesh CutMesh.sides OutMesh.cutMesh
  dsimp only
  induction M.cells with
  | nil => rfl
  | cons d l ih =>
    rw [List.map_cons, List.flatMap_cons, List.count_append, ih, List.map_cons, List.flatMap_cons, List.map_append, List.count_append]
    congr 1
    dsimp only
    rw [count_pair, List.map_map]
    rfl

/-- a face listed `n` times in one region and not listed by the other regions is listed `n` times. -/
theorem uses_total (W : VMesh) (r : ℤ) (f : ℕ) (h : ∀ c ∈ W.cells, f ∈ c.2.map Prod.fst → c.1 = r) :
    W.Uses r f = W.Sided f true + W.Sided f false := by
  unfold VMesh.Uses VMesh.Sided
  rw [← VMesh.count_fst]
  revert h
  induction W.cells with
  | nil => intro _; rfl
  | cons c l ih =>
    intro h
    rw [List.flatMap_cons, List.map_append, List.count_append, ← ih fun d hd => h d (List.mem_cons_of_mem _ hd), List.filter_cons]
    by_cases hc : c.1 = r
    · rw [if_pos (by simpa using hc), List.flatMap_cons, List.map_append, List.count_append]
    · rw [if_neg (by simpa using hc), List.count_eq_zero_of_not_mem fun hm => hc (h c List.mem_cons_self hm), zero_add]

section
variable {B : Type} (faces : List (ℤ × PFace)) (hs : OMap.Sorted intLt faces)
  (hc : CellCollapser.Clean (collapserFaces faces)) (shape : Fin 3 → ℤ)
  (hgb : ∀ p ∈ faces, CellCollapser.onGridBoundary shape p.2.mask = true → p.2.ext ≠ none) (ord : DEdge → List ℤ)
  (hord : ∀ e, (ord e).Perm ((CellCollapser.make (collapserFaces faces)).around e))
  (R : DsuRoots ((CellCollapser.make (collapserFaces faces)).merge ord).ds) (region : ℕ → ℤ) (mesh : List (ℤ × B))
  (ax : Fin 3 → List ℤ) (fo : List ℤ) (V : ℕ → Vertex 3) (M : OutMesh PFace B)
  (hM : generate (bakeState faces (keptCells faces shape ord R) region mesh ax fo) V = some M)
  (h2 : ∀ p ∈ faces, TwoCells (bakedCells faces ord R).cells p.1)
include hs hc hgb hord hM h2

/-- in a generated mesh no side of a face is listed twice, and a face one side of which is missing has an exterior neighbour. -/
theorem generated_sides (vs : Fin 3 → ℤ) (grid : ℤ → Option (Coord 3)) (k : ℕ) (F : VFace) (hk : (ofMesh M vs grid).faces[k]? = some F) :
    (ofMesh M vs grid).Sided k true ≤ 1 ∧ (ofMesh M vs grid).Sided k false ≤ 1 ∧
    ((ofMesh M vs grid).Sided k true + (ofMesh M vs grid).Sided k false ≤ 1 → F.ext = true) := by
  obtain ⟨hf, -⟩ := generate_spec _ V M hM
  have hlen : (setSigns faces (keptCells faces shape ord R)).length = faces.length := by
    have := congrArg List.length (setSigns_keys faces (keptCells faces shape ord R).flatten)
    rw [setSigns_flatten]
    simpa using this
  have hkF : k < faces.length := by
    have h1 : k < (ofMesh M vs grid).faces.length := (List.getElem?_eq_some_iff.1 hk).1
    unfold ofMesh at h1
    dsimp only at h1
    rw [List.length_map, hf, List.length_map] at h1
    change k < (setSigns faces (keptCells faces shape ord R)).length at h1
    omega
  obtain ⟨⟨i, f⟩, hif⟩ : ∃ x, faces[k] = x := ⟨_, rfl⟩
  have hg := List.getElem?_eq_getElem hkF
  rw [hif] at hg
  have hmem : (i, f) ∈ faces := List.mem_of_getElem? hg
  have hi : i ∈ (collapserFaces faces).map Prod.fst := by
    unfold collapserFaces
    rw [List.map_map]
    exact List.mem_map.2 ⟨_, hmem, rfl⟩
  have hnf := not_folded faces hc ord hord R i (h2 _ hmem)
  have hcnt := CellCollapser.C71_listed_once _ hc ord hord R i hi hnf
  have hkept := keptCells_eq faces hs shape hgb ord R
  have kc : ∀ b, _ := fun b => kept_count faces hs (bakedCells faces ord R).cells i b (hcnt b)
  rw [← hkept] at kc
  obtain ⟨g, hg', -, -, e0, e1⟩ := setSigns_get faces (keptCells faces shape ord R).flatten k i f hg
  rw [← setSigns_flatten] at hg'
  have hbec : Becomes (bakeState faces (keptCells faces shape ord R) region mesh ax fo) i k := ⟨g, hg'⟩
  have hsides := sides_signs faces hs _ region mesh ax fo V M hM i k hbec
  have hS : ∀ b, (ofMesh M vs grid).Sided k b = (keptCells faces shape ord R).flatten.count (i, b) := by
    intro b
    rw [sided_eq, hsides, count_pair]
  have hle : ∀ b, (ofMesh M vs grid).Sided k b ≤ 1 := by
    intro b
    rw [hS]
    by_cases h : SideOutside faces (bakedCells faces ord R).cells i b
    · rw [(kc b).1 h]; exact Nat.zero_le _
    · rw [(kc b).2 h]
  refine ⟨hle true, hle false, fun hle1 => ?_⟩
  have hout : ∃ b, SideOutside faces (bakedCells faces ord R).cells i b := by
    by_contra hno
    push Not at hno
    have h1 := (kc true).2 (hno true)
    have h0 := (kc false).2 (hno false)
    rw [hS, hS] at hle1
    omega
  obtain ⟨b, m, -, hx, hall⟩ := hout
  obtain ⟨f', hf', hne⟩ := hall _ hx
  have hff := OMap.sorted_unique strictTotal_intLt hs hmem hf'
  rw [← hff] at hne
  -- the sign loop keeps the exterior neighbour
  have hgen : ∀ (l : List (ℤ × Bool)) (fs : List (ℤ × PFace)) (f g : PFace), fs[k]? = some (i, f) →
      (l.foldl setSign fs)[k]? = some (i, g) → f.ext ≠ none → g.ext ≠ none := by
    intro l
    induction l with
    | nil => intro fs f g h1 h2 h3; rw [List.foldl_nil, h1] at h2; cases h2; exact h3
    | cons p l ih =>
      intro fs f g h1 h2 h3
      have hp := setSign_find fs p k
      rw [h1, Option.map_some] at hp
      rw [List.foldl_cons] at h2
      split at hp
      · exact ih _ _ g hp h2 (by simpa using h3)
      · exact ih _ _ g hp h2 h3
  rw [setSigns_flatten] at hg'
  have hgne := hgen _ _ f g hg hg' hne
  have hFk : (ofMesh M vs grid).faces[k]? = some ⟨g.loops.map fun l => l.map Int.ofNat, g.ext.isSome⟩ := by
    unfold ofMesh
    dsimp only
    rw [hf, List.map_map, List.getElem?_map]
    show (setSigns faces (keptCells faces shape ord R))[k]?.map _ = _
    rw [setSigns_flatten, hg']
    rfl
  rw [hk] at hFk
  rw [Option.some.inj hFk]
  exact Option.isSome_iff_ne_none.2 hgne

/-- **C113.** A generated mesh in which cells that share a face of a grid plane have the same region (C39) passes the pairing
validation exactly if every face of a grid plane that only one cell lists starts with a four-vertex loop - and so does the face number
1, if it lies in a grid plane. -/
theorem C113_generated (vs : Fin 3 → ℤ) (grid : ℤ → Option (Coord 3))
    (hreg : ∀ c ∈ M.cells, ∀ d ∈ M.cells, ∀ k s t, (k, s) ∈ c.faces → (k, t) ∈ d.faces → k ∉ M.meshFaces.map Prod.fst → c.region = d.region) :
    (ofMesh M vs grid).pairedBoundary = true ↔
      (∀ k, k < M.faces.length → (ofMesh M vs grid).Sided k true + (ofMesh M vs grid).Sided k false = 1 → (ofMesh M vs grid).Plain k) ∧
      (M.cells ≠ [] → 1 < M.faces.length → (ofMesh M vs grid).Plain 1) := by
  have hlen : (ofMesh M vs grid).faces.length = M.faces.length := by unfold ofMesh; simp
  have hcells : (ofMesh M vs grid).cells ≠ [] ↔ M.cells ≠ [] := by unfold ofMesh; simp
  have hS := fun k F hk => generated_sides faces hs hc shape hgb ord hord R region mesh ax fo V M hM h2 vs grid k F hk
  have hU : ∀ (r : ℤ) (k : ℕ), (ofMesh M vs grid).Uses r k ≤ (ofMesh M vs grid).Sided k true + (ofMesh M vs grid).Sided k false := by
    intro r k
    unfold VMesh.Uses VMesh.Sided
    rw [← VMesh.count_fst]
    apply List.Sublist.count_le
    apply List.Sublist.map
    exact List.Sublist.flatMap List.filter_sublist _
  have hmeshU : ∀ c ∈ (ofMesh M vs grid).cells, ∀ k, (ofMesh M vs grid).Uses c.1 k ≠ 0 → k ∉ M.meshFaces.map Prod.fst →
      (ofMesh M vs grid).Uses c.1 k = (ofMesh M vs grid).Sided k true + (ofMesh M vs grid).Sided k false := by
    intro c _ k hne hkm
    apply uses_total
    intro d hd hkd
    unfold VMesh.Uses at hne
    have hmem := List.count_pos_iff.1 (Nat.pos_of_ne_zero hne)
    obtain ⟨p, hp, rfl⟩ := List.mem_map.1 hmem
    obtain ⟨c', hc', hpc⟩ := List.mem_flatMap.1 hp
    rw [List.mem_filter, decide_eq_true_eq] at hc'
    obtain ⟨q, hq, hqk⟩ := List.mem_map.1 hkd
    obtain ⟨d0, hd0, rfl⟩ := List.mem_map.1 hd
    obtain ⟨c0, hc0, rfl⟩ := List.mem_map.1 hc'.1
    rw [← hc'.2]
    exact hreg d0 hd0 c0 hc0 p.1 q.2 p.2 (by rw [← hqk]; exact hq) hpc hkm
  rw [VMesh.C113_accepts_iff, hlen, hcells]
  constructor
  · rintro ⟨h1, h3, -⟩
    refine ⟨fun k hk h => ?_, h3⟩
    by_cases hkm : k ∈ M.meshFaces.map Prod.fst
    · left; unfold ofMesh; simpa using hkm
    -- the one cell that lists it
    have hx : k ∈ ((ofMesh M vs grid).cells.flatMap Prod.snd).map Prod.fst := by
      rw [← List.count_pos_iff, VMesh.count_fst]
      unfold VMesh.Sided at h
      omega
    obtain ⟨p, hp, rfl⟩ := List.mem_map.1 hx
    obtain ⟨c, hcm, hpc⟩ := List.mem_flatMap.1 hp
    have hne : (ofMesh M vs grid).Uses c.1 p.1 ≠ 0 := by
      unfold VMesh.Uses
      apply Nat.pos_iff_ne_zero.1
      rw [List.count_pos_iff]
      exact List.mem_map.2 ⟨p, List.mem_flatMap.2 ⟨c, List.mem_filter.2 ⟨hcm, by simp⟩, hpc⟩, rfl⟩
    exact (h1 c hcm p.1 hk).2 (by rw [hmeshU c hcm p.1 hne hkm]; exact h)
  · rintro ⟨h1, h3⟩
    refine ⟨fun c hcm k hk => ⟨?_, fun h => ?_⟩, h3, fun k F hk => ?_⟩
    · have hkl := hk
      rw [← hlen] at hkl
      have := hS k _ (List.getElem?_eq_getElem hkl)
      have := hU c.1 k
      omega
    · by_cases hkm : k ∈ M.meshFaces.map Prod.fst
      · left; unfold ofMesh; simpa using hkm
      · exact h1 k hk (by rw [← hmeshU c hcm k (by omega) hkm]; exact h)
    · obtain ⟨ha, hb, hcx⟩ := hS k F hk
      exact ⟨by omega, by omega, fun h => Or.inr (Or.inl (hcx (by omega)))⟩

end

/-! ## an example -/

/-- two unit cubes one above the other: the four outer walls of each cube are one face each (faces 2-5 and 6-9), faces 0 and 10 are the
bottom and the top, face 1 the square between the cubes. -/
def stack (n : ℕ) : VMesh where
  faces := (List.range 11).map fun k => ⟨[if k = 1 then (List.range n).map Int.ofNat else [k, k + 1, k + 2, k + 3]], decide (k ≠ 1)⟩
  isMesh := fun _ => false
  folded := []
  cells := [(0, [(0, true), (1, true), (2, true), (3, true), (4, true), (5, true)]),
    (0, [(1, false), (6, true), (7, true), (8, true), (9, true), (10, true)])]
  vertexShape := fun _ => 4
  grid := fun _ => none

-- non-vacuity of `C113_accepts_iff` and `C113_face_one_refuted`: paired in both cases, accepted with a square and rejected with a pentagon
example : (stack 4).pairedBoundary = true ∧ (stack 5).pairedBoundary = false := by
  constructor <;> decide +kernel
example : (stack 5).pairedBoundary = false :=
  (stack 5).C113_face_one_refuted (by decide) rfl ⟨_, _, _, rfl, rfl, by decide⟩

theorem bakeState_faces {B : Type} (faces : List (ℤ × PFace)) (cells : List (List (ℤ × Bool))) (region : ℕ → ℤ) (mesh : List (ℤ × B))
    (ax : Fin 3 → List ℤ) (fo : List ℤ) : (bakeState faces cells region mesh ax fo).faces = setSigns faces cells := rfl

theorem bakeState_becomes {B : Type} (faces : List (ℤ × PFace)) (cells : List (List (ℤ × Bool))) (region : ℕ → ℤ) (mesh : List (ℤ × B))
    (ax : Fin 3 → List ℤ) (fo : List ℤ) (i : ℤ) (k : ℕ) (h : (setSigns faces cells)[k]?.map Prod.fst = some i) :
    Becomes (bakeState faces cells region mesh ax fo) i k := by
  obtain ⟨⟨j, f⟩, h1, rfl⟩ := Option.map_eq_some_iff.1 h
  exact ⟨f, h1⟩

theorem bakeState_regions {B : Type} (faces : List (ℤ × PFace)) (cells : List (List (ℤ × Bool))) (mesh : List (ℤ × B))
    (ax : Fin 3 → List ℤ) (fo : List ℤ) : ∀ c ∈ (bakeState faces cells (fun _ => 0) mesh ax fo).cells, c.region = 0 := by
  unfold bakeState
  intro c hc
  obtain ⟨p, -, rfl⟩ := List.mem_map.1 hc
  rfl

theorem bakeState_length {B : Type} (faces : List (ℤ × PFace)) (cells : List (List (ℤ × Bool))) (region : ℕ → ℤ) (mesh : List (ℤ × B))
    (ax : Fin 3 → List ℤ) (fo : List ℤ) : (bakeState faces cells region mesh ax fo).cells.length = cells.length := by
  unfold bakeState
  rw [List.length_map, List.length_zipIdx]

theorem bakeState_mesh {B : Type} (faces : List (ℤ × PFace)) (cells : List (List (ℤ × Bool))) (region : ℕ → ℤ) (mesh : List (ℤ × B))
    (ax : Fin 3 → List ℤ) (fo : List ℤ) : (bakeState faces cells region mesh ax fo).meshFaces = mesh := rfl

theorem ofMesh_faces {B : Type} (M : OutMesh PFace B) (vs : Fin 3 → ℤ) (grid : ℤ → Option (Coord 3)) (k : ℕ) :
    (ofMesh M vs grid).faces[k]? = (M.faces[k]?).map fun f => ⟨f.loops.map fun l => l.map Int.ofNat, f.ext.isSome⟩ := by
  unfold ofMesh
  rw [List.getElem?_map]

/-- all hypotheses of `C113_generated` hold for two tetrahedra glued along a face: their mesh passes if the outer faces lie on the
input, and fails if they lie in grid planes. -/
example (V : ℕ → Vertex 3) (vs : Fin 3 → ℤ) (grid : ℤ → Option (Coord 3)) :
    (∃ M, generate (bakeState glued (keptCells glued ![1, 1, 1] gluedOrd gluedR) (fun _ => 0)
      [(1, ()), (2, ()), (3, ()), (4, ()), (5, ()), (6, ())] (fun _ => []) []) V = some M ∧ (ofMesh M vs grid).pairedBoundary = true) ∧
    ∃ M, generate (bakeState glued (keptCells glued ![1, 1, 1] gluedOrd gluedR) (fun _ => 0)
      ([] : List (ℤ × Unit)) (fun _ => []) []) V = some M ∧ (ofMesh M vs grid).pairedBoundary = false := by
  have hex : ∀ mesh : List (ℤ × Unit), (∀ p ∈ mesh, ∃ f, (p.1, f) ∈ glued) → ∃ M, generate (bakeState glued (keptCells glued ![1, 1, 1] gluedOrd gluedR) (fun _ => 0)
      mesh (fun _ => []) []) V = some M := fun mesh h =>
    (C101_mesh_exists glued glued_sorted glued_clean ![1, 1, 1] gluedOrd gluedOrd_perm gluedR (fun _ => 0)
      mesh (fun _ => []) [] V).2 ⟨h, by simp⟩
  have hgb : ∀ p ∈ glued, CellCollapser.onGridBoundary ![1, 1, 1] p.2.mask = true → p.2.ext ≠ none := by decide +kernel
  have h2 : ∀ p ∈ glued, TwoCells (bakedCells glued gluedOrd gluedR).cells p.1 := by rw [glued_cells]; unfold TwoCells; decide +kernel
  have hsorted : ∀ mesh : List (ℤ × Unit), OMap.Sorted intLt (bakeState glued (keptCells glued ![1, 1, 1] gluedOrd gluedR) (fun _ => 0)
      mesh (fun _ => []) []).faces := by
    intro mesh
    rw [bakeState_faces, setSigns_flatten]
    exact sorted_of_keys (setSigns_keys glued _) glued_sorted
  have hreg : ∀ (mesh : List (ℤ × Unit)) M, generate (bakeState glued (keptCells glued ![1, 1, 1] gluedOrd gluedR) (fun _ => 0)
      mesh (fun _ => []) []) V = some M → ∀ c ∈ M.cells, c.region = 0 := by
    intro mesh M hM c hc
    obtain ⟨-, -, -, -, -, hlen, hget⟩ := (C100_generate _ (hsorted mesh) V).2 M hM
    obtain ⟨n, hn, rfl⟩ := List.getElem_of_mem hc
    have hn' : n < (bakeState glued (keptCells glued ![1, 1, 1] gluedOrd gluedR) (fun _ => 0) mesh (fun _ => []) []).cells.length := by omega
    have := (hget n _ _ (List.getElem?_eq_getElem hn') (List.getElem?_eq_getElem hn)).2.1
    rw [this]
    exact bakeState_regions _ _ _ _ _ _ (List.getElem_mem hn')
  have hlen7 : ∀ (mesh : List (ℤ × Unit)) M, generate (bakeState glued (keptCells glued ![1, 1, 1] gluedOrd gluedR) (fun _ => 0)
      mesh (fun _ => []) []) V = some M → M.faces.length = 7 := by
    intro mesh M hM
    obtain ⟨⟨h1, -⟩, -⟩ := (C100_generate _ (hsorted mesh) V).2 M hM
    rw [h1, bakeState_faces]
    decide +kernel
  have hbec : ∀ (mesh : List (ℤ × Unit)) (k : ℕ), k < 7 → Becomes (bakeState glued (keptCells glued ![1, 1, 1] gluedOrd gluedR) (fun _ => 0)
      mesh (fun _ => []) []) k k := by
    intro mesh k hk
    have hkeys : (setSigns glued (keptCells glued ![1, 1, 1] gluedOrd gluedR)).map Prod.fst = [0, 1, 2, 3, 4, 5, 6] := by decide +kernel
    apply bakeState_becomes
    rw [← List.getElem?_map, hkeys]
    have h4 : ∀ k : ℕ, k < 7 → ([0, 1, 2, 3, 4, 5, 6] : List ℤ)[k]? = some (k : ℤ) := by decide
    exact h4 k hk
  constructor
  · obtain ⟨M, hM⟩ := hex [(1, ()), (2, ()), (3, ()), (4, ()), (5, ()), (6, ())] (by
      have : ∀ p ∈ ([(1, ()), (2, ()), (3, ()), (4, ()), (5, ()), (6, ())] : List (ℤ × Unit)), p.1 ∈ glued.map Prod.fst := by decide
      intro p hp
      obtain ⟨q, hq, he⟩ := List.mem_map.1 (this p hp)
      exact ⟨q.2, by rw [← he]; exact hq⟩)
    refine ⟨M, hM, ?_⟩
    rw [C113_generated glued glued_sorted glued_clean ![1, 1, 1] hgb gluedOrd gluedOrd_perm gluedR _ _ _ _ V M hM h2 vs grid
      fun c hc d hd _ _ _ _ _ _ => (hreg _ M hM c hc).trans (hreg _ M hM d hd).symm]
    have hmesh : ∀ k, 1 ≤ k → k < 7 → (ofMesh M vs grid).Plain k := by
      intro k h1 h7
      left
      unfold ofMesh
      dsimp only
      rw [decide_eq_true_eq]
      obtain ⟨-, -, -, hmf, -⟩ := (C100_generate _ (hsorted _) V).2 M hM
      have : ((k : ℤ), ()) ∈ ([(1, ()), (2, ()), (3, ()), (4, ()), (5, ()), (6, ())] : List (ℤ × Unit)) := by
        have : ∀ k : ℕ, k < 7 → 1 ≤ k → ((k : ℤ), ()) ∈ ([(1, ()), (2, ()), (3, ()), (4, ()), (5, ()), (6, ())] : List (ℤ × Unit)) := by decide
        exact this k h7 h1
      exact List.mem_map.2 ⟨(k, ()), (hmf k ()).2 ⟨k, this, hbec _ k h7⟩, rfl⟩
    refine ⟨fun k hk h1 => ?_, fun _ _ => hmesh 1 (by omega) (by omega)⟩
    rw [hlen7 _ M hM] at hk
    rcases Nat.eq_zero_or_pos k with rfl | hpos
    · -- face 0 lies between the two tetrahedra
      exfalso
      have hf := (generate_spec _ V M hM).1
      rw [bakeState_faces] at hf
      have e1 : (((setSigns glued (keptCells glued ![1, 1, 1] gluedOrd gluedR)).map Prod.snd)[0]?).map (fun f => f.ext.isSome) = some false := by decide +kernel
      rw [← hf] at e1
      obtain ⟨f, hfe, hfx⟩ := Option.map_eq_some_iff.1 e1
      have h3 := (generated_sides glued glued_sorted glued_clean ![1, 1, 1] hgb gluedOrd gluedOrd_perm gluedR _ _ _ _ V M hM h2 vs grid 0
        ⟨f.loops.map fun l => l.map Int.ofNat, f.ext.isSome⟩ (by rw [ofMesh_faces, hfe]; rfl)).2.2 (by omega)
      dsimp only at h3
      rw [hfx] at h3
      cases h3
    · exact hmesh k hpos hk
  · obtain ⟨M, hM⟩ := hex [] (by simp)
    refine ⟨M, hM, ?_⟩
    have hf := (generate_spec _ V M hM).1
    rw [bakeState_faces] at hf
    have e1 : (((setSigns glued (keptCells glued ![1, 1, 1] gluedOrd gluedR)).map Prod.snd)[1]?).map PFace.loops = some [[0, 3, 1]] := by decide +kernel
    rw [← hf] at e1
    obtain ⟨f, hfe, hfl⟩ := Option.map_eq_some_iff.1 e1
    refine (ofMesh M vs grid).C113_face_one_refuted ?_ ?_ ⟨⟨f.loops.map fun l => l.map Int.ofNat, f.ext.isSome⟩, [0, 3, 1], [], ?_, ?_, by decide⟩
    · unfold ofMesh
      dsimp only
      rw [ne_eq, List.map_eq_nil_iff]
      intro h
      have hlen := ((C100_generate _ (hsorted _) V).2 M hM).2.2.2.2.2.1
      rw [h, bakeState_length] at hlen
      revert hlen
      decide +kernel
    · unfold ofMesh
      dsimp only
      rw [decide_eq_false_iff_not, List.mem_map]
      rintro ⟨⟨k, b⟩, hk, -⟩
      obtain ⟨-, -, -, hmf, -⟩ := (C100_generate _ (hsorted _) V).2 M hM
      obtain ⟨i, hi, -⟩ := (hmf k b).1 hk
      rw [bakeState_mesh] at hi
      cases hi
    · rw [ofMesh_faces, hfe]
      rfl
    · dsimp only
      rw [hfl]
      rfl

end Mandoline.Paired
