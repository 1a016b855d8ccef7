import Verif.Gen3.FaceIds
import Verif.Geom.ContainerProps
import Mathlib.Tactic.IntervalCases

/-!
# C100: assembling the 3D mesh

Transcription of `CutCellGenerator<3>::generate` (src/construction/generator3.cpp:33-158): renumbering of the faces to
`0 .. n-1`, of the axial and mesh face sets and of the cells, the list of folded faces and the grid cell of every cell.
-/
namespace Mandoline
namespace Gen3

/-- a cell as the generator has it (`cell_boundaries`): number, region, faces with signs in the order of the map. -/
structure GenCell where
  index : ℤ
  region : ℤ
  faces : List (ℤ × Bool)

/-- what `generate` reads (generator3.hpp:76-95). `F` are the cut faces, `B` the barycentric description of a mesh face. -/
structure GenState (F B : Type) where
  faces : List (ℤ × F)
  loops : F → List (List ℕ)
  meshFaces : List (ℤ × B)
  axisFaces : Fin 3 → List ℤ
  folded : List ℤ
  cells : List GenCell

/-- a cell of the mesh (`CutCell`); `gridCell = none` stands for the uninitialised array (cutcell.hpp:17). -/
structure OutCell where
  index : ℤ
  region : ℤ
  faces : List (ℕ × Bool)
  gridCell : Option (Coord 3)

/-- the mesh (`CutCellMesh<3>`), as far as `generate` fills it here. -/
structure OutMesh (F B : Type) where
  faces : List F
  meshFaces : List (ℕ × B)
  axialFaces : Fin 3 → List ℕ
  folded : List ℤ
  cells : List OutCell

/-- `reindexer` (generator3.cpp:54-59). -/
def reindexer {F : Type} (faces : List (ℤ × F)) : List (ℤ × ℕ) := faces.zipIdx.map fun p => (p.1.1, p.2)

/-- `reindexer.at(idx)`; throws if absent (`none`). -/
def reindexAt {F : Type} (faces : List (ℤ × F)) (idx : ℤ) : Option ℕ := OMap.find intLt idx (reindexer faces)

/-- the lambda `redx` (generator3.cpp:65-69). -/
def redx {F : Type} (faces : List (ℤ × F)) (s : List ℤ) : Option (List ℕ) := s.mapM (reindexAt faces)

/-- the grid cell found for a cell (generator3.cpp:104-146): the possible cells common to its faces, leaving out those that
`is_folded_face` reports; set only if there is exactly one. -/
noncomputable def gridCellOf (pc : Finset (Coord 3)) : Option (Coord 3) := if h : pc.card = 1 then some (Finset.card_eq_one.1 h).choose else none

/-- one iteration of generator3.cpp:104-147; `faces` of the mesh, `V` the vertices. -/
noncomputable def outCell {F B : Type} (S : GenState F B) (V : ℕ → Vertex 3) (a : GenCell) : Option OutCell := do
  let fs ← a.faces.mapM fun p => (reindexAt S.faces p.1).map fun i => (i, p.2)
  let inds := (fs.map Prod.fst).filter fun (i : ℕ) => decide ((i : ℤ) ∉ S.folded)
  let verts := fun (i : ℕ) => (((S.faces.map Prod.snd)[i]?).map fun f => (S.loops f).flatten).getD []
  return ⟨a.index, a.region, fs, gridCellOf (possibleCellsCell (fun i => genPossibleCells V (verts i)) inds)⟩

/-- `generate` (generator3.cpp:33-158). `ccm.m_faces[reindexer.at(i)] = f` over the map in order is the list of its values;
`m_folded_faces` is copied as it is (generator3.cpp:37). The loops over the faces and cells are `mapM` because of `at`. -/
noncomputable def generate {F B : Type} (S : GenState F B) (V : ℕ → Vertex 3) : Option (OutMesh F B) := do
  let mesh ← S.meshFaces.mapM fun p => (reindexAt S.faces p.1).map fun i => (i, p.2)
  let a0 ← redx S.faces (S.axisFaces 0)
  let a1 ← redx S.faces (S.axisFaces 1)
  let a2 ← redx S.faces (S.axisFaces 2)
  let cells ← S.cells.mapM (outCell S V)
  return ⟨S.faces.map Prod.snd, mesh, ![a0, a1, a2], S.folded, cells⟩

/-! ## specification -/

/-- every number used by the generator is the number of a face. -/
def GenState.Closed {F B : Type} (S : GenState F B) : Prop :=
  (∀ p ∈ S.meshFaces, ∃ f, (p.1, f) ∈ S.faces) ∧ (∀ a, ∀ i ∈ S.axisFaces a, ∃ f, (i, f) ∈ S.faces) ∧
  ∀ c ∈ S.cells, ∀ p ∈ c.faces, ∃ f, (p.1, f) ∈ S.faces

/-- face number `i` of the generator is face number `k` of the mesh: it stands at position `k` of the map. -/
def Becomes {F B : Type} (S : GenState F B) (i : ℤ) (k : ℕ) : Prop := ∃ f, S.faces[k]? = some (i, f)

/-! ## proofs -/

theorem sorted_reindexer {F : Type} (faces : List (ℤ × F)) (h : OMap.Sorted intLt faces) :
    OMap.Sorted intLt (reindexer faces) := by
  unfold reindexer OMap.Sorted
  rw [List.pairwise_map]
  have : (faces.zipIdx.map Prod.fst).Pairwise fun a b => intLt a.1 b.1 = true := by
    rw [List.zipIdx_map_fst]; exact h
  rw [List.pairwise_map] at this
  exact this

theorem reindexAt_iff {F : Type} (faces : List (ℤ × F)) (h : OMap.Sorted intLt faces) (i : ℤ) (k : ℕ) :
    reindexAt faces i = some k ↔ ∃ f, faces[k]? = some (i, f) := by
  unfold reindexAt
  rw [OMap.find_iff strictTotal_intLt (sorted_reindexer faces h)]
  unfold reindexer
  rw [List.mem_map]
  constructor
  · rintro ⟨⟨⟨a, f⟩, n⟩, hm, he⟩
    rw [List.mem_zipIdx_iff_getElem?] at hm
    rw [Prod.mk.injEq] at he
    dsimp only at he hm
    rw [← he.1, ← he.2]
    exact ⟨f, hm⟩
  · rintro ⟨f, hf⟩
    exact ⟨((i, f), k), List.mem_zipIdx_iff_getElem?.2 hf, rfl⟩

theorem mapM_spec {α β : Type} (f : α → Option β) :
    ∀ (l : List α) (r : List β), l.mapM f = some r ↔ List.Forall₂ (fun a b => f a = some b) l r
  | [], r => by
    rw [List.mapM_nil]
    constructor
    · intro h; cases h; exact .nil
    · intro h; cases h; rfl
  | a :: l, r => by
    rw [List.mapM_cons]
    cases hfa : f a with
    | none =>
      constructor
      · intro h; cases h
      · intro h
        cases h with
        | cons h1 _ => rw [hfa] at h1; cases h1
    | some b =>
      cases hml : l.mapM f with
      | none =>
        constructor
        · intro h; cases h
        · intro h
          cases h with
          | cons h1 h2 => rw [(mapM_spec f l _).2 h2] at hml; cases hml
      | some s =>
        have ih := (mapM_spec f l s).1 hml
        constructor
        · intro h
          cases h
          exact .cons hfa ih
        · intro h
          cases h with
          | cons h1 h2 =>
            rw [hfa] at h1
            rw [(mapM_spec f l _).2 h2] at hml
            cases h1; cases hml; rfl

theorem mapM_isSome {α β : Type} (f : α → Option β) (l : List α) (h : ∀ a ∈ l, ∃ b, f a = some b) : ∃ r, l.mapM f = some r := by
  induction l with
  | nil => exact ⟨[], rfl⟩
  | cons a l ih =>
    obtain ⟨b, hb⟩ := h a (by simp)
    obtain ⟨r, hr⟩ := ih fun x hx => h x (by simp [hx])
    exact ⟨b :: r, by rw [List.mapM_cons, hb, hr]; rfl⟩

theorem forall2_get {α β : Type} {R : α → β → Prop} {l : List α} {r : List β} (h : List.Forall₂ R l r) :
    l.length = r.length ∧ ∀ (k : ℕ) a b, l[k]? = some a → r[k]? = some b → R a b := by
  refine ⟨h.length_eq, ?_⟩
  induction h with
  | nil => intro k a b ha; simp at ha
  | cons h1 _ ih =>
    intro k a b ha hb
    cases k with
    | zero =>
      simp only [List.getElem?_cons_zero, Option.some.injEq] at ha hb
      subst ha; subst hb; exact h1
    | succ k =>
      simp only [List.getElem?_cons_succ] at ha hb
      exact ih k a b ha hb

/-- what `generate` returned, component by component. -/
theorem generate_spec {F B : Type} (S : GenState F B) (V : ℕ → Vertex 3) (M : OutMesh F B) (h : generate S V = some M) :
    M.faces = S.faces.map Prod.snd ∧ M.folded = S.folded ∧
    List.Forall₂ (fun p q => (reindexAt S.faces p.1).map (fun i => (i, p.2)) = some q) S.meshFaces M.meshFaces ∧
    (∀ a, List.Forall₂ (fun i k => reindexAt S.faces i = some k) (S.axisFaces a) (M.axialFaces a)) ∧
    List.Forall₂ (fun c d => outCell S V c = some d) S.cells M.cells := by
  unfold generate redx at h
  simp only [Option.bind_eq_bind, Option.bind_eq_some_iff, Option.pure_def, Option.some.injEq] at h
  obtain ⟨mesh, h1, a0, h2, a1, h3, a2, h4, cells, h5, rfl⟩ := h
  rw [mapM_spec] at h1 h2 h3 h4 h5
  refine ⟨rfl, rfl, h1, fun a => ?_, h5⟩
  match a with
  | 0 => exact h2
  | 1 => exact h3
  | 2 => exact h4

theorem outCell_spec {F B : Type} (S : GenState F B) (V : ℕ → Vertex 3) (c : GenCell) (d : OutCell) (h : outCell S V c = some d) :
    d.index = c.index ∧ d.region = c.region ∧
    List.Forall₂ (fun p q => (reindexAt S.faces p.1).map (fun i => (i, p.2)) = some q) c.faces d.faces ∧
    d.gridCell = gridCellOf (possibleCellsCell
      (fun (i : ℕ) => genPossibleCells V ((((S.faces.map Prod.snd)[i]?).map fun f => (S.loops f).flatten).getD []))
      ((d.faces.map Prod.fst).filter fun (i : ℕ) => decide ((i : ℤ) ∉ S.folded))) := by
  unfold outCell at h
  simp only [Option.bind_eq_bind, Option.bind_eq_some_iff, Option.pure_def, Option.some.injEq] at h
  obtain ⟨fs, h1, rfl⟩ := h
  rw [mapM_spec] at h1
  exact ⟨rfl, rfl, h1, rfl⟩

/-- **C100.** `generate` succeeds exactly if every number used for a mesh face, an axial face or in a cell is the number of a
face. The faces of the mesh are those of the generator in the order of their numbers, each once; the numbers used for
mesh faces, axial faces and in the cells are replaced by the new numbers of the same faces, with the same payload
and signs, and cells keep their number and region. -/
theorem C100_generate {F B : Type} (S : GenState F B) (hs : OMap.Sorted intLt S.faces) (V : ℕ → Vertex 3) :
    ((∃ M, generate S V = some M) ↔ S.Closed) ∧
    ∀ M, generate S V = some M →
      (M.faces.length = S.faces.length ∧ ∀ (k : ℕ) f, M.faces[k]? = some f ↔ ∃ i, S.faces[k]? = some (i, f)) ∧
      (∀ i k j l, Becomes S i k → Becomes S j l → (i < j ↔ k < l)) ∧
      (∀ i, (∃ f, (i, f) ∈ S.faces) → ∃! k, Becomes S i k) ∧
      (∀ k b, (k, b) ∈ M.meshFaces ↔ ∃ i, (i, b) ∈ S.meshFaces ∧ Becomes S i k) ∧
      (∀ a k, k ∈ M.axialFaces a ↔ ∃ i ∈ S.axisFaces a, Becomes S i k) ∧
      M.cells.length = S.cells.length ∧
      ∀ (n : ℕ) c d, S.cells[n]? = some c → M.cells[n]? = some d →
        d.index = c.index ∧ d.region = c.region ∧ d.faces.length = c.faces.length ∧
        ∀ (m : ℕ) i s k t, c.faces[m]? = some (i, s) → d.faces[m]? = some (k, t) → Becomes S i k ∧ s = t := by
  have hre : ∀ i k, reindexAt S.faces i = some k ↔ Becomes S i k := reindexAt_iff S.faces hs
  have hex : ∀ i, (∃ f, (i, f) ∈ S.faces) ↔ ∃ k, reindexAt S.faces i = some k := by
    intro i
    constructor
    · rintro ⟨f, hf⟩
      obtain ⟨k, hk⟩ := List.mem_iff_getElem?.1 hf
      exact ⟨k, (hre i k).2 ⟨f, hk⟩⟩
    · rintro ⟨k, hk⟩
      obtain ⟨f, hf⟩ := (hre i k).1 hk
      exact ⟨f, List.mem_of_getElem? hf⟩
  have hpair : ∀ {β : Type} (p : ℤ × β) (q : ℕ × β), (reindexAt S.faces p.1).map (fun i => (i, p.2)) = some q ↔
      Becomes S p.1 q.1 ∧ p.2 = q.2 := by
    intro β p q
    rw [Option.map_eq_some_iff]
    constructor
    · rintro ⟨k, hk, rfl⟩; exact ⟨(hre _ _).1 hk, rfl⟩
    · rintro ⟨h1, h2⟩; exact ⟨q.1, (hre _ _).2 h1, by rw [h2]⟩
  constructor
  · constructor
    · rintro ⟨M, hM⟩
      obtain ⟨-, -, h1, h2, h3⟩ := generate_spec S V M hM
      have hall : ∀ {α β : Type} {R : α → β → Prop} {l : List α} {r : List β}, List.Forall₂ R l r → ∀ a ∈ l, ∃ b, R a b := by
        intro α β R l r h
        induction h with
        | nil => simp
        | cons h _ ih =>
          intro a ha
          rcases List.mem_cons.1 ha with rfl | ha
          · exact ⟨_, h⟩
          · exact ih a ha
      refine ⟨fun p hp => ?_, fun a i hi => ?_, fun c hc p hp => ?_⟩
      · obtain ⟨q, hq⟩ := hall h1 p hp
        exact (hex _).2 ⟨q.1, (hre _ _).2 ((hpair p q).1 hq).1⟩
      · exact (hex _).2 (hall (h2 a) i hi)
      · obtain ⟨d, hd⟩ := hall h3 c hc
        obtain ⟨-, -, h4, -⟩ := outCell_spec S V c d hd
        obtain ⟨q, hq⟩ := hall h4 p hp
        exact (hex _).2 ⟨q.1, (hre _ _).2 ((hpair p q).1 hq).1⟩
    · rintro ⟨h1, h2, h3⟩
      have hsome : ∀ {β : Type} (p : ℤ × β), (∃ f, (p.1, f) ∈ S.faces) →
          ∃ q : ℕ × β, (reindexAt S.faces p.1).map (fun i => (i, p.2)) = some q := by
        intro β p hp
        obtain ⟨k, hk⟩ := (hex _).1 hp
        exact ⟨(k, p.2), by rw [hk]; rfl⟩
      obtain ⟨mesh, e1⟩ := mapM_isSome (fun p : ℤ × B => (reindexAt S.faces p.1).map fun i => (i, p.2)) S.meshFaces
        fun p hp => hsome p (h1 p hp)
      have hax : ∀ a, ∃ r, redx S.faces (S.axisFaces a) = some r := fun a =>
        mapM_isSome _ _ fun i hi => (hex i).1 (h2 a i hi)
      obtain ⟨a0, e2⟩ := hax 0
      obtain ⟨a1, e3⟩ := hax 1
      obtain ⟨a2, e4⟩ := hax 2
      obtain ⟨cells, e5⟩ := mapM_isSome (outCell S V) S.cells fun c hc => by
        obtain ⟨fs, hfs⟩ := mapM_isSome (fun p : ℤ × Bool => (reindexAt S.faces p.1).map fun i => (i, p.2)) c.faces
          fun p hp => hsome p (h3 c hc p hp)
        exact ⟨_, by unfold outCell; rw [hfs]; rfl⟩
      exact ⟨_, by unfold generate; rw [e1, e2, e3, e4, e5]; rfl⟩
  · intro M hM
    obtain ⟨hf, -, h1, h2, h3⟩ := generate_spec S V M hM
    have hmem : ∀ {α β : Type} {R : α → β → Prop} {l : List α} {r : List β}, List.Forall₂ R l r →
        ∀ b, b ∈ r → ∃ a ∈ l, R a b := by
      intro α β R l r h
      induction h with
      | nil => simp
      | cons h _ ih =>
        intro b hb
        rcases List.mem_cons.1 hb with rfl | hb
        · exact ⟨_, by simp, h⟩
        · obtain ⟨a, ha, hr⟩ := ih b hb
          exact ⟨a, by simp [ha], hr⟩
    have hmem' : ∀ {α β : Type} {R : α → β → Prop} {l : List α} {r : List β}, List.Forall₂ R l r →
        ∀ a, a ∈ l → ∃ b ∈ r, R a b := by
      intro α β R l r h
      induction h with
      | nil => simp
      | cons h _ ih =>
        intro b hb
        rcases List.mem_cons.1 hb with rfl | hb
        · exact ⟨_, by simp, h⟩
        · obtain ⟨a, ha, hr⟩ := ih b hb
          exact ⟨a, by simp [ha], hr⟩
    have huniq : ∀ i k k', Becomes S i k → Becomes S i k' → k = k' := by
      intro i k k' h h'
      have a := (hre i k).2 h
      rw [(hre i k').2 h'] at a
      exact (Option.some_inj.1 a).symm
    have hlt : ∀ i k j l, Becomes S i k → Becomes S j l → k < l → i < j := by
      rintro i k j l ⟨f, hf⟩ ⟨g, hg⟩ hkl
      have hk := (List.getElem?_eq_some_iff.1 hf)
      have hl := (List.getElem?_eq_some_iff.1 hg)
      obtain ⟨hk1, hk2⟩ := hk
      obtain ⟨hl1, hl2⟩ := hl
      have := (List.pairwise_iff_getElem.1 hs) k l hk1 hl1 hkl
      rw [hk2, hl2] at this
      exact of_decide_eq_true this
    refine ⟨⟨by rw [hf, List.length_map], fun k f => ?_⟩, ?_, ?_, ?_, ?_, h3.length_eq.symm, ?_⟩
    · rw [hf, List.getElem?_map, Option.map_eq_some_iff]
      constructor
      · rintro ⟨⟨i, g⟩, hp, rfl⟩; exact ⟨i, hp⟩
      · rintro ⟨i, hp⟩; exact ⟨(i, f), hp, rfl⟩
    · intro i k j l hik hjl
      refine ⟨fun hij => ?_, hlt i k j l hik hjl⟩
      rcases Nat.lt_trichotomy k l with h | h | h
      · exact h
      · subst h
        obtain ⟨f, hf⟩ := hik
        obtain ⟨g, hg⟩ := hjl
        rw [hf] at hg
        have := congrArg Prod.fst (Option.some_inj.1 hg)
        simp at this
        omega
      · have := hlt j l i k hjl hik h; omega
    · intro i hi
      obtain ⟨k, hk⟩ := (hex i).1 hi
      exact ⟨k, (hre i k).1 hk, fun k' hk' => huniq i k' k hk' ((hre i k).1 hk)⟩
    · intro k b
      constructor
      · intro h
        obtain ⟨p, hp, hr⟩ := hmem h1 _ h
        obtain ⟨r1, r2⟩ := (hpair p (k, b)).1 hr
        exact ⟨p.1, by rw [show ((p.1, b) : ℤ × B) = p by rw [← show p.2 = b from r2]]; exact hp, r1⟩
      · rintro ⟨i, hi, hb⟩
        obtain ⟨q, hq, hr⟩ := hmem' h1 _ hi
        obtain ⟨r1, r2⟩ := (hpair (i, b) q).1 hr
        rw [show ((k, b) : ℕ × B) = q from Prod.ext (huniq i k q.1 hb r1) r2]
        exact hq
    · intro a k
      constructor
      · intro h
        obtain ⟨i, hi, hr⟩ := hmem (h2 a) _ h
        exact ⟨i, hi, (hre i k).1 hr⟩
      · rintro ⟨i, hi, hb⟩
        obtain ⟨k', hk', hr⟩ := hmem' (h2 a) _ hi
        rw [huniq i k k' hb ((hre _ _).1 hr)]
        exact hk'
    · intro n c d hc hd
      obtain ⟨e1, e2, h4, -⟩ := outCell_spec S V c d ((forall2_get h3).2 n c d hc hd)
      refine ⟨e1, e2, h4.length_eq.symm, fun m i s k t hi hk => ?_⟩
      exact (hpair (i, s) (k, t)).1 ((forall2_get h4).2 m _ _ hi hk)

/-- **C100.** If all cut mesh faces `0 .. n-1` are faces (each has more than two vertices), they keep their numbers; so the
list of folded faces, which is copied without renumbering, names the same faces in the mesh whenever all folded faces are
cut mesh faces. -/
theorem C100_mesh_faces_keep_numbers {F B : Type} (S : GenState F B) (hs : OMap.Sorted intLt S.faces) (hpos : ∀ p ∈ S.faces, 0 ≤ p.1)
    (n : ℕ) (hn : ∀ i : ℕ, i < n → ∃ f, ((i : ℤ), f) ∈ S.faces) (V : ℕ → Vertex 3) (M : OutMesh F B) (hM : generate S V = some M) :
    (∀ i : ℕ, i < n → Becomes S i i) ∧
    ((∀ i ∈ S.folded, 0 ≤ i ∧ i < n) → ∀ k : ℕ, (k : ℤ) ∈ M.folded ↔ ∃ i ∈ S.folded, Becomes S i k) := by
  have hkey : ∀ i : ℕ, i < n → Becomes S i i := by
    intro i hi
    induction i using Nat.strong_induction_on with
    | _ i ih =>
      obtain ⟨f, hf⟩ := hn i hi
      obtain ⟨k, hk⟩ := List.mem_iff_getElem?.1 hf
      have hki : Becomes S (i : ℤ) k := ⟨f, hk⟩
      have hord := ((C100_generate S hs V).2 M hM).2.1
      have hkuniq : ∀ (a : ℤ) (k l : ℕ), Becomes S a k → Becomes S a l → k = l := by
        rintro a k l ⟨f, hf⟩ ⟨g, hg⟩
        have := (reindexAt_iff S.faces hs a k).2 ⟨f, hf⟩
        rw [(reindexAt_iff S.faces hs a l).2 ⟨g, hg⟩] at this
        exact (Option.some_inj.1 this).symm
      rcases Nat.lt_trichotomy k i with h | h | h
      · -- k < i: position k is taken by number k
        obtain ⟨g, hg⟩ := ih k h (by omega)
        rw [hk] at hg
        have := congrArg Prod.fst (Option.some_inj.1 hg)
        simp at this
        omega
      · rw [h] at hk; exact ⟨f, hk⟩
      · -- position i exists and has a number between i-1 and i
        have hlen : i < S.faces.length := by have := (List.getElem?_eq_some_iff.1 hk).1; omega
        have hb : Becomes S (S.faces[i].1) i := ⟨S.faces[i].2, by rw [List.getElem?_eq_getElem hlen]⟩
        have h1 : S.faces[i].1 < i := (hord _ _ _ _ hb hki).2 h
        have h0 : 0 ≤ S.faces[i].1 := hpos _ (List.getElem_mem hlen)
        have h2 := ih (S.faces[i].1.toNat) (by omega) (by omega)
        have e : ((S.faces[i].1.toNat : ℕ) : ℤ) = S.faces[i].1 := Int.toNat_of_nonneg h0
        rw [e] at h2
        have h3 := hkuniq _ _ _ h2 hb
        omega
  refine ⟨hkey, fun hfold k => ?_⟩
  have hfe : M.folded = S.folded := (generate_spec S V M hM).2.1
  rw [hfe]
  constructor
  · intro h
    exact ⟨k, h, hkey k (by have := hfold k h; omega)⟩
  · rintro ⟨i, hi, hb⟩
    obtain ⟨h1, h2⟩ := hfold i hi
    have := hkey i.toNat (by omega)
    rw [Int.toNat_of_nonneg h1] at this
    obtain ⟨f, hf⟩ := hb
    obtain ⟨k', hk', hu⟩ := ((C100_generate S hs V).2 M hM).2.2.1 i ⟨f, List.mem_of_getElem? hf⟩
    have e1 := hu k ⟨f, hf⟩
    have e2 := hu i.toNat this
    have : (k : ℤ) = i := by omega
    rw [this]; exact hi

theorem gridCellOf_iff (pc : Finset (Coord 3)) (x : Coord 3) : gridCellOf pc = some x ↔ ∀ c, c ∈ pc ↔ c = x := by
  unfold gridCellOf
  split
  · rename_i h
    have hs := (Finset.card_eq_one.1 h).choose_spec
    constructor
    · intro e c
      have e := Option.some_inj.1 e
      have hm := Finset.ext_iff.1 hs c
      rw [Finset.mem_singleton] at hm
      rw [hm, ← e]
    · intro hx
      rw [Option.some_inj]
      have hm := Finset.mem_singleton_self (Finset.card_eq_one.1 h).choose
      exact (hx _).1 ((Finset.ext_iff.1 hs _).2 hm)
  · rename_i h
    constructor
    · intro e; cases e
    · intro hx
      exact absurd (Finset.card_eq_one.2 ⟨x, by ext c; rw [hx, Finset.mem_singleton]⟩) h

/-- **C100.** The grid cell of a cell of the mesh is `x` if and only if `x` is the only grid cell that contains all vertices
of the cell's faces (leaving out folded faces); it is so whenever `x` contains them and on each axis they are not all on
one grid plane. With no such face it is left unset. -/
theorem C100_grid_cell {F B : Type} (S : GenState F B) (hs : OMap.Sorted intLt S.faces) (V : ℕ → Vertex 3) (hV : ∀ i, Normalised (V i))
    (hl : ∀ p ∈ S.faces, (S.loops p.2).flatten ≠ []) (M : OutMesh F B) (hM : generate S V = some M) (n : ℕ) (d : OutCell)
    (hd : M.cells[n]? = some d) :
    let Corner := fun v : ℕ => ∃ k s f, (k, s) ∈ d.faces ∧ (k : ℤ) ∉ M.folded ∧ M.faces[k]? = some f ∧ v ∈ (S.loops f).flatten
    ((∃ v, Corner v) → ∀ x, (d.gridCell = some x ↔ ∀ c, (∀ v, Corner v → InClosedCell c (V v).p) ↔ c = x)) ∧
    (∀ x, (∀ v, Corner v → InClosedCell x (V v).p) → (∀ j, ∀ z : ℤ, ∃ v, Corner v ∧ (V v).p j ≠ z) → d.gridCell = some x) ∧
    ((¬ ∃ v, Corner v) → d.gridCell = none) := by
  intro Corner
  obtain ⟨hf, hfo, -, -, h3⟩ := generate_spec S V M hM
  have hlen := h3.length_eq
  have hn : n < S.cells.length := by have := (List.getElem?_eq_some_iff.1 hd).1; omega
  obtain ⟨-, -, hfs, hg⟩ := outCell_spec S V _ d ((forall2_get h3).2 n _ _ (List.getElem?_eq_getElem hn) hd)
  let verts := fun (i : ℕ) => ((((S.faces.map Prod.snd)[i]?).map fun f => (S.loops f).flatten).getD [])
  let inds := (d.faces.map Prod.fst).filter fun (i : ℕ) => decide ((i : ℤ) ∉ S.folded)
  -- every index of the cell is the index of a face
  have hface : ∀ k s, (k, s) ∈ d.faces → ∃ p ∈ S.faces, M.faces[k]? = some p.2 ∧ verts k = (S.loops p.2).flatten := by
    intro k s hk
    obtain ⟨m, hm⟩ := List.mem_iff_getElem?.1 hk
    obtain ⟨hlen, hget⟩ := forall2_get hfs
    have hm' : m < (S.cells[n]).faces.length := by have := (List.getElem?_eq_some_iff.1 hm).1; omega
    have := hget m _ _ (List.getElem?_eq_getElem hm') hm
    rw [Option.map_eq_some_iff] at this
    obtain ⟨k', hk', he⟩ := this
    rw [Prod.mk.injEq] at he
    obtain ⟨rfl, -⟩ := he
    obtain ⟨f, hf'⟩ := (reindexAt_iff S.faces hs _ _).1 hk'
    refine ⟨_, List.mem_of_getElem? hf', ?_, ?_⟩
    · rw [hf, List.getElem?_map, hf']; rfl
    · simp only [verts, List.getElem?_map, hf']; rfl
  have hcor : ∀ v, Corner v ↔ ∃ i ∈ inds, v ∈ verts i := by
    intro v
    constructor
    · rintro ⟨k, s, f, hk, hnf, hfk, hv⟩
      obtain ⟨p, -, hp1, hp2⟩ := hface k s hk
      rw [hfk] at hp1
      rw [Option.some_inj.1 hp1] at hv
      refine ⟨k, List.mem_filter.2 ⟨List.mem_map.2 ⟨_, hk, rfl⟩, ?_⟩, by rw [hp2]; exact hv⟩
      rw [hfo] at hnf
      exact decide_eq_true hnf
    · rintro ⟨i, hi, hv⟩
      obtain ⟨hi1, hi2⟩ := List.mem_filter.1 hi
      obtain ⟨⟨k, s⟩, hk, rfl⟩ := List.mem_map.1 hi1
      obtain ⟨p, -, hp1, hp2⟩ := hface k s hk
      rw [hp2] at hv
      exact ⟨k, s, p.2, hk, by rw [hfo]; exact of_decide_eq_true hi2, hp1, hv⟩
  have hvne : ∀ i ∈ inds, verts i ≠ [] := by
    intro i hi
    obtain ⟨hi1, hi2⟩ := List.mem_filter.1 hi
    obtain ⟨⟨k, s⟩, hk, rfl⟩ := List.mem_map.1 hi1
    obtain ⟨p, hp, hp1, hp2⟩ := hface k s hk
    rw [hp2]; exact hl p hp
  -- the intersection
  have hpc : inds ≠ [] → ∀ c, c ∈ possibleCellsCell (fun i => genPossibleCells V (verts i)) inds ↔
      ∀ v, Corner v → InClosedCell c (V v).p := by
    intro hne c
    let verts' := fun i => if i ∈ inds then verts i else [0]
    have hcongr : possibleCellsCell (fun i => genPossibleCells V (verts i)) inds =
        possibleCellsCell (fun i => genPossibleCells V (verts' i)) inds := by
      have hloop : ∀ (l : List ℕ) (s : Finset (Coord 3)), (∀ i ∈ l, i ∈ inds) →
          possibleCellsCellLoop (fun i => genPossibleCells V (verts i)) s l =
            possibleCellsCellLoop (fun i => genPossibleCells V (verts' i)) s l := by
        intro l
        induction l with
        | nil => intro s _; rfl
        | cons a l ih =>
          intro s h
          have ha : verts' a = verts a := if_pos (h a (by simp))
          simp only [possibleCellsCellLoop, ha]
          split
          · rfl
          · exact ih _ fun i hi => h i (by simp [hi])
      have key : ∀ l : List ℕ, (∀ i ∈ l, i ∈ inds) → possibleCellsCell (fun i => genPossibleCells V (verts i)) l =
          possibleCellsCell (fun i => genPossibleCells V (verts' i)) l := by
        intro l h
        cases l with
        | nil => rfl
        | cons a l =>
          have ha : verts' a = verts a := if_pos (h a (by simp))
          simp only [possibleCellsCell, ha]
          exact hloop _ _ h
      exact key inds fun i hi => hi
    rw [hcongr, C11_possibleCellsCell V hV verts' (fun f => by
      by_cases h : f ∈ inds
      · simp only [verts', if_pos h]; exact hvne f h
      · simp [verts', h]) inds hne c]
    constructor
    · intro h v hv
      obtain ⟨i, hi, hvi⟩ := (hcor v).1 hv
      exact h i hi v (by simp only [verts', if_pos hi]; exact hvi)
    · intro h i hi v hv
      simp only [verts', if_pos hi] at hv
      exact h v ((hcor v).2 ⟨i, hi, hv⟩)
  have hnonempty : (∃ v, Corner v) ↔ inds ≠ [] := by
    constructor
    · rintro ⟨v, hv⟩ h
      obtain ⟨i, hi, -⟩ := (hcor v).1 hv
      rw [h] at hi; cases hi
    · intro h
      obtain ⟨i, hi⟩ := List.exists_mem_of_ne_nil _ h
      obtain ⟨v, hv⟩ := List.exists_mem_of_ne_nil _ (hvne i hi)
      exact ⟨v, (hcor v).2 ⟨i, hi, hv⟩⟩
  have hmain : (∃ v, Corner v) → ∀ x, (d.gridCell = some x ↔ ∀ c, (∀ v, Corner v → InClosedCell c (V v).p) ↔ c = x) := by
    intro h x
    rw [hg, gridCellOf_iff]
    exact forall_congr' fun c => iff_congr (hpc (hnonempty.1 h) c) Iff.rfl
  refine ⟨hmain, fun x hx hz => ?_, fun h => ?_⟩
  · obtain ⟨v, hv, -⟩ := hz 0 0
    refine (hmain ⟨v, hv⟩ x).2 fun c => ⟨fun hc => ?_, fun e => e ▸ hx⟩
    funext j
    obtain ⟨v, hv, h1⟩ := hz j (x j)
    obtain ⟨v', hv', h2⟩ := hz j (x j + 1)
    have a := hx v hv j
    have b := hc v hv j
    have a' := hx v' hv' j
    have b' := hc v' hv' j
    have c1 : (x j : ℚ) < (V v).p j := lt_of_le_of_ne a.1 (Ne.symm h1)
    have c2 : (V v').p j < x j + 1 := lt_of_le_of_ne a'.2 (by push_cast at h2; exact h2)
    have d1 : (x j : ℚ) < c j + 1 := by linarith
    have d2 : (c j : ℚ) < x j + 1 := by linarith
    norm_cast at d1 d2
    omega
  · rw [hnonempty, not_not] at h
    rw [hg]
    show gridCellOf (possibleCellsCell (fun i => genPossibleCells V (verts i)) inds) = none
    rw [h]
    unfold gridCellOf
    rw [dif_neg (by simp [possibleCellsCell])]

/-- **C100, defect** `folded_faces` is not renumbered: a folded face behind a gap in the numbers is listed under a number that
no face, or another face, of the mesh has. -/
theorem C100_folded_refuted :
    ∃ (S : GenState (List (List ℕ)) Unit), OMap.Sorted intLt S.faces ∧ S.Closed ∧ (∀ i ∈ S.folded, ∃ f, (i, f) ∈ S.faces) ∧
      ∀ V M, generate S V = some M → Becomes S 2 1 ∧ S.folded = [2] ∧ M.folded = [2] ∧ M.faces.length = 2 := by
  refine ⟨⟨[(0, [[0, 1, 2]]), (2, [[0, 2, 3]])], id, [], fun _ => [], [2], []⟩, ?_, ?_, ?_, ?_⟩
  · unfold OMap.Sorted; decide
  · exact ⟨by simp, by simp, by simp⟩
  · intro i hi
    have : i = 2 := by simpa using hi
    subst this
    exact ⟨[[0, 2, 3]], by simp⟩
  · intro V M hM
    obtain ⟨h1, h2, -⟩ := generate_spec _ V M hM
    exact ⟨⟨_, rfl⟩, rfl, h2, by rw [h1]; rfl⟩

-- non-vacuity: three faces numbered 0, 1, 4; one cell with the faces 0 and 4
def demoState : GenState (List (List ℕ)) Unit :=
  ⟨[(0, [[0, 1, 2]]), (1, [[0, 2, 3]]), (4, [[4, 5, 6, 7]])], id, [(0, ()), (1, ())], ![[4], [], []], [1], [⟨0, 1, [(0, true), (4, false)]⟩]⟩

example : OMap.Sorted intLt demoState.faces ∧ demoState.Closed ∧ (∀ p ∈ demoState.faces, (demoState.loops p.2).flatten ≠ []) ∧
    (∀ i : ℕ, i < 2 → ∃ f, ((i : ℤ), f) ∈ demoState.faces) ∧ ∀ i ∈ demoState.folded, 0 ≤ i ∧ i < (2 : ℕ) := by
  refine ⟨by unfold OMap.Sorted; decide, ⟨?_, ?_, ?_⟩, by decide, ?_, by decide⟩
  · intro p hp
    have : p = (0, ()) ∨ p = (1, ()) := by simpa [demoState] using hp
    rcases this with rfl | rfl
    · exact ⟨[[0, 1, 2]], by simp [demoState]⟩
    · exact ⟨[[0, 2, 3]], by simp [demoState]⟩
  · intro a i hi
    match a with
    | 0 => have : i = 4 := by simpa [demoState] using hi
           subst this; exact ⟨[[4, 5, 6, 7]], by simp [demoState]⟩
    | 1 => simp [demoState] at hi
    | 2 => simp [demoState] at hi
  · intro c hc p hp
    have : c = ⟨0, 1, [(0, true), (4, false)]⟩ := by simpa [demoState] using hc
    subst this
    have : p = (0, true) ∨ p = (4, false) := by simpa using hp
    rcases this with rfl | rfl
    · exact ⟨[[0, 1, 2]], by simp [demoState]⟩
    · exact ⟨[[4, 5, 6, 7]], by simp [demoState]⟩
  · intro i hi
    interval_cases i
    · exact ⟨[[0, 1, 2]], by simp [demoState]⟩
    · exact ⟨[[0, 2, 3]], by simp [demoState]⟩

end Gen3
end Mandoline
